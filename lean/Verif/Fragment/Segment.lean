import Verif.Fragment.Read
namespace Verif.Fragment
open Verif.Cenc.Spec (be beVal)
open Verif.Cenc (be_length beVal_be)

theorem find_eq (b : Spec.Box) (bs : List Spec.Box) (t : String) (h : b.type = t.toList) : Spec.find (b :: bs) t = some b := by
  simp [Spec.find, h]

theorem find_ne (p : Nat) (ty : List Char) (b : List UInt8) (bs : List Spec.Box) (t : String) (h : ty ≠ t.toList) :
    Spec.find (⟨p, ty, b⟩ :: bs) t = Spec.find bs t := by
  simp [Spec.find, h]

theorem find_nil (t : String) : Spec.find [] t = none := rfl

/-- A fragment that can be written. -/
structure Frag.Ok (f : Frag) (stored : List (List UInt8)) : Prop where
  flags : f.trunFlags = 0x301 ∨ f.trunFlags = 0xB05
  items : ∀ i ∈ f.items, i.Ok
  first : f.firstFlags < 2 ^ 32
  sequence : f.sequence < 2 ^ 32
  trackId : f.trackId < 2 ^ 32
  timescale : f.timescale < 2 ^ 32
  base : f.base < 2 ^ 64
  sizes : f.items.map (·.size) = stored.map (·.length)
  mdat : f.mdat = stored.flatten
  enc : ∀ s, f.enc = some s → (∀ e ∈ s.2.entries, Entry.Ok e) ∧ s.2.entries.length = f.items.length
  total : (segBytes f).length < 2 ^ 31

/-- What a reader sees of the decoding time. -/
def Frag.baseSeen (f : Frag) : Option Nat := if f.base ≠ 2 ^ 64 - 1 then some f.base else none

def Frag.encSeen (f : Frag) : Option (List Spec.Enc) := f.enc.map fun s => s.2.entries.map encOf

def trafList (f : Frag) (g : Nat) : List (Nat × List UInt8) :=
  (fourcc 't' 'f' 'h' 'd', full 0 0 ++ be 4 f.trackId) ::
    ((if f.base ≠ 2 ^ 64 - 1 then [(fourcc 't' 'f' 'd' 't', full 1 0 ++ be 4 (f.base / 2 ^ 32) ++ be 4 f.base)] else []) ++
      (fourcc 't' 'r' 'u' 'n', trunBody f g) ::
        (match f.enc with
          | none => []
          | some (_, s) => [(fourcc 's' 'a' 'i' 'z', saizBody s.entries.length), (fourcc 's' 'a' 'i' 'o', saioBody (beforeEnc f + 53)),
              (fourcc 's' 'e' 'n' 'c', sencBody s.entries)]))

theorem trafBody_list (f : Frag) (g : Nat) : trafBody f g = (trafList f g).flatMap (fun x => box x.1 x.2) := by
  simp only [trafBody, trafList, tfhdBytes, tfdtBytes, trunBytes, encBytes]
  split <;> (cases f.enc <;> simp)

theorem ne_of_decide {a b : List Char} (h : decide (a = b) = false) : a ≠ b := of_decide_eq_false h

theorem trafList_length (f : Frag) (g : Nat) : (trafList f g).length ≤ (trafBody f g).length := by
  rw [trafBody_list]
  induction trafList f g with
  | nil => simp
  | cons x l ih => simp only [List.flatMap_cons, List.length_append, List.length_cons, box_length]; omega

theorem mem_flatMap_length (l : List (Nat × List UInt8)) (x : Nat × List UInt8) (h : x ∈ l) :
    8 + x.2.length ≤ (l.flatMap (fun x => box x.1 x.2)).length := by
  induction l with
  | nil => simp at h
  | cons y l ih =>
    simp only [List.flatMap_cons, List.length_append, box_length]
    rcases List.mem_cons.mp h with rfl | h
    · omega
    · have := ih h; omega

/-- The boxes of a traf as a reader needs them. -/
theorem traf_finds (f : Frag) (g p : Nat) :
    let bs := boxList p (trafList f g)
    (∃ q, Spec.find bs "tfhd" = some ⟨q, "tfhd".toList, full 0 0 ++ be 4 f.trackId⟩) ∧
    (if f.base ≠ 2 ^ 64 - 1 then ∃ q, Spec.find bs "tfdt" = some ⟨q, "tfdt".toList, full 1 0 ++ be 4 (f.base / 2 ^ 32) ++ be 4 f.base⟩
      else Spec.find bs "tfdt" = none) ∧
    (∃ q, Spec.find bs "trun" = some ⟨q, "trun".toList, trunBody f g⟩) ∧
    (match f.enc with
      | none => Spec.find bs "senc" = none ∧ Spec.find bs "saiz" = none ∧ Spec.find bs "saio" = none
      | some (_, s) => (∃ q, Spec.find bs "senc" = some ⟨q, "senc".toList, sencBody s.entries⟩) ∧
          (∃ q, Spec.find bs "saiz" = some ⟨q, "saiz".toList, saizBody s.entries.length⟩) ∧
          (∃ q, Spec.find bs "saio" = some ⟨q, "saio".toList, saioBody (beforeEnc f + 53)⟩)) := by
  intro bs
  have c1 : Spec.chars (be 4 (fourcc 't' 'f' 'h' 'd')) = "tfhd".toList := by decide +kernel
  have c2 : Spec.chars (be 4 (fourcc 't' 'f' 'd' 't')) = "tfdt".toList := by decide +kernel
  have c3 : Spec.chars (be 4 (fourcc 't' 'r' 'u' 'n')) = "trun".toList := by decide +kernel
  have c4 : Spec.chars (be 4 (fourcc 's' 'a' 'i' 'z')) = "saiz".toList := by decide +kernel
  have c5 : Spec.chars (be 4 (fourcc 's' 'a' 'i' 'o')) = "saio".toList := by decide +kernel
  have c6 : Spec.chars (be 4 (fourcc 's' 'e' 'n' 'c')) = "senc".toList := by decide +kernel
  by_cases hb : f.base ≠ 2 ^ 64 - 1
  · rw [if_pos hb]
    cases he : f.enc with
    | none =>
      simp only [bs, trafList, if_pos hb, he, boxList, c1, c2, c3, List.cons_append, List.nil_append]
      exact ⟨⟨_, find_eq _ _ _ rfl⟩, ⟨_, ((find_ne _ _ _ _ _ (by decide)).trans (find_eq _ _ _ rfl))⟩,
        ⟨_, ((find_ne _ _ _ _ _ (by decide)).trans ((find_ne _ _ _ _ _ (by decide)).trans (find_eq _ _ _ rfl)))⟩,
        ((find_ne _ _ _ _ _ (by decide)).trans ((find_ne _ _ _ _ _ (by decide)).trans ((find_ne _ _ _ _ _ (by decide)).trans (find_nil _)))),
        ((find_ne _ _ _ _ _ (by decide)).trans ((find_ne _ _ _ _ _ (by decide)).trans ((find_ne _ _ _ _ _ (by decide)).trans (find_nil _)))),
        ((find_ne _ _ _ _ _ (by decide)).trans ((find_ne _ _ _ _ _ (by decide)).trans ((find_ne _ _ _ _ _ (by decide)).trans (find_nil _))))⟩
    | some v =>
      obtain ⟨sub, s⟩ := v
      simp only [bs, trafList, if_pos hb, he, boxList, c1, c2, c3, c4, c5, c6, List.cons_append, List.nil_append]
      exact ⟨⟨_, find_eq _ _ _ rfl⟩, ⟨_, ((find_ne _ _ _ _ _ (by decide)).trans (find_eq _ _ _ rfl))⟩,
        ⟨_, ((find_ne _ _ _ _ _ (by decide)).trans ((find_ne _ _ _ _ _ (by decide)).trans (find_eq _ _ _ rfl)))⟩,
        ⟨_, ((find_ne _ _ _ _ _ (by decide)).trans ((find_ne _ _ _ _ _ (by decide)).trans ((find_ne _ _ _ _ _ (by decide)).trans ((find_ne _ _ _ _ _ (by decide)).trans ((find_ne _ _ _ _ _ (by decide)).trans (find_eq _ _ _ rfl))))))⟩,
        ⟨_, ((find_ne _ _ _ _ _ (by decide)).trans ((find_ne _ _ _ _ _ (by decide)).trans ((find_ne _ _ _ _ _ (by decide)).trans (find_eq _ _ _ rfl))))⟩,
        ⟨_, ((find_ne _ _ _ _ _ (by decide)).trans ((find_ne _ _ _ _ _ (by decide)).trans ((find_ne _ _ _ _ _ (by decide)).trans ((find_ne _ _ _ _ _ (by decide)).trans (find_eq _ _ _ rfl)))))⟩⟩
  · rw [if_neg hb]
    cases he : f.enc with
    | none =>
      simp only [bs, trafList, if_neg hb, he, boxList, c1, c3, List.nil_append]
      exact ⟨⟨_, find_eq _ _ _ rfl⟩, ((find_ne _ _ _ _ _ (by decide)).trans ((find_ne _ _ _ _ _ (by decide)).trans (find_nil _))),
        ⟨_, ((find_ne _ _ _ _ _ (by decide)).trans (find_eq _ _ _ rfl))⟩,
        ((find_ne _ _ _ _ _ (by decide)).trans ((find_ne _ _ _ _ _ (by decide)).trans (find_nil _))),
        ((find_ne _ _ _ _ _ (by decide)).trans ((find_ne _ _ _ _ _ (by decide)).trans (find_nil _))),
        ((find_ne _ _ _ _ _ (by decide)).trans ((find_ne _ _ _ _ _ (by decide)).trans (find_nil _)))⟩
    | some v =>
      obtain ⟨sub, s⟩ := v
      simp only [bs, trafList, if_neg hb, he, boxList, c1, c3, c4, c5, c6, List.nil_append]
      exact ⟨⟨_, find_eq _ _ _ rfl⟩,
        ((find_ne _ _ _ _ _ (by decide)).trans ((find_ne _ _ _ _ _ (by decide)).trans ((find_ne _ _ _ _ _ (by decide)).trans ((find_ne _ _ _ _ _ (by decide)).trans ((find_ne _ _ _ _ _ (by decide)).trans (find_nil _)))))),
        ⟨_, ((find_ne _ _ _ _ _ (by decide)).trans (find_eq _ _ _ rfl))⟩,
        ⟨_, ((find_ne _ _ _ _ _ (by decide)).trans ((find_ne _ _ _ _ _ (by decide)).trans ((find_ne _ _ _ _ _ (by decide)).trans ((find_ne _ _ _ _ _ (by decide)).trans (find_eq _ _ _ rfl)))))⟩,
        ⟨_, ((find_ne _ _ _ _ _ (by decide)).trans ((find_ne _ _ _ _ _ (by decide)).trans (find_eq _ _ _ rfl)))⟩,
        ⟨_, ((find_ne _ _ _ _ _ (by decide)).trans ((find_ne _ _ _ _ _ (by decide)).trans ((find_ne _ _ _ _ _ (by decide)).trans (find_eq _ _ _ rfl))))⟩⟩

theorem mapM_size (f : Frag) : (f.items.map (Item.run f.trunFlags)).mapM (·.size) = some (f.items.map (·.size)) := by
  induction f.items with
  | nil => rfl
  | cons i l ih => simp only [List.map_cons, List.mapM_cons, ih, Item.run]; rfl

theorem aux_seen (f : Frag) (stored : List (List UInt8)) (ok : f.Ok stored) (g : Nat) (sub : Bool) (s : Cenc.State) (he : f.enc = some (sub, s)) (Y : List UInt8)
    (hn : s.entries.length < 2 ^ 32) (hM : (moofBytes f g ++ Y).length < 2 ^ 31) :
    Spec.aux (moofBytes f g ++ Y) (saizBody s.entries.length) (saioBody (beforeEnc f + 53)) = some (s.entries.map encOf) := by
  obtain ⟨e1, _⟩ := ok.enc _ he
  obtain ⟨K, hK⟩ : ∃ K, K = (mfhdBytes f ++ box (fourcc 't' 'r' 'a' 'f') (trafBody f g)).length := ⟨_, rfl⟩
  obtain ⟨K2, hK2⟩ : ∃ K, K = (trafBody f g).length := ⟨_, rfl⟩
  obtain ⟨Z, hZ⟩ : ∃ Z, Z = (sencBody s.entries).length := ⟨_, rfl⟩
  obtain ⟨O, hO⟩ : ∃ O, O = beforeEnc f + 53 := ⟨_, rfl⟩
  obtain ⟨pre, hpre⟩ : ∃ pre, pre = be 4 (8 + K) ++ (be 4 (fourcc 'm' 'o' 'o' 'f') ++ (mfhdBytes f ++ (be 4 (8 + K2) ++
      (be 4 (fourcc 't' 'r' 'a' 'f') ++ (tfhdBytes f ++ (tfdtBytes f ++ (trunBytes f g ++ (box (fourcc 's' 'a' 'i' 'z') (saizBody s.entries.length) ++
      (box (fourcc 's' 'a' 'i' 'o') (saioBody O) ++ (be 4 (8 + Z) ++ (be 4 (fourcc 's' 'e' 'n' 'c') ++ (full 0 2 ++
      be 4 s.entries.length)))))))))))) := ⟨_, rfl⟩
  have hfile : moofBytes f g ++ Y = pre ++ (s.entries.flatMap sencEntry ++ Y) := by
    rw [hpre, moofBytes, box, ← hK, box, ← hK2, trafBody, encBytes, he]
    simp only
    rw [← hO, box.eq_1 (fourcc 's' 'e' 'n' 'c'), ← hZ]
    rw [sencBody]
    simp only [List.append_assoc]
  have hl : pre.length = beforeEnc f + 53 := by
    rw [hpre]
    simp only [List.length_append, be_length, box_length, saizBody, saioBody, full, beforeEnc, trunBytes, trunBody_length f g 0]
    omega
  rw [← hl]
  apply aux_read _ e1 hn _ _ Y _ hfile
  have := congrArg List.length hfile
  rw [List.length_append (as := pre)] at this
  omega

/-- Reading the bytes of a fragment. -/
theorem segment_read (f : Frag) (stored : List (List UInt8)) (ok : f.Ok stored) :
    Spec.segment (segBytes f) = some
      ⟨⟨f.trackId, f.timescale, ((f.items.headD ⟨0, 0, 0⟩).offset + f.base) % 2 ^ 32, 0, 0, (moofBytes f 0).length + 8 + f.mdat.length,
          f.duration % 2 ^ 32, true, 1, 0⟩,
        (moofBytes f 0).length + 8 + f.mdat.length, f.sequence, f.trackId, f.baseSeen, f.first, f.items.map (Item.run f.trunFlags), stored, f.mdat,
        f.encSeen, f.encSeen⟩ := by
  have total := ok.total
  obtain ⟨g, hg⟩ : ∃ g, g = (moofBytes f 0).length + 8 := ⟨_, rfl⟩
  obtain ⟨S, hS⟩ : ∃ S, S = sidxBody f (g + f.mdat.length) := ⟨_, rfl⟩
  obtain ⟨MB, hMB⟩ : ∃ MB, MB = mfhdBytes f ++ box (fourcc 't' 'r' 'a' 'f') (trafBody f g) := ⟨_, rfl⟩
  have hmoof : moofBytes f g = box (fourcc 'm' 'o' 'o' 'f') MB := by rw [hMB]; rfl
  have hseg : segBytes f = box (fourcc 's' 't' 'y' 'p') stypBody ++ (box (fourcc 's' 'i' 'd' 'x') S ++
      (box (fourcc 'm' 'o' 'o' 'f') MB ++ box (fourcc 'm' 'd' 'a' 't') f.mdat)) := by
    rw [segBytes, ← hg, ← hS, hmoof]
  have hlist : segBytes f = [(fourcc 's' 't' 'y' 'p', stypBody), (fourcc 's' 'i' 'd' 'x', S), (fourcc 'm' 'o' 'o' 'f', MB),
      (fourcc 'm' 'd' 'a' 't', f.mdat)].flatMap (fun x => box x.1 x.2) := by
    rw [hseg]; simp
  have hlen : (segBytes f).length = 36 + (8 + S.length) + (8 + MB.length) + (8 + f.mdat.length) := by
    rw [hseg]; simp only [List.length_append, box_length]
    have : stypBody.length = 28 := by decide
    omega
  have hm0 : (moofBytes f 0).length = 8 + MB.length := by rw [moof_length f 0 g, hmoof, box_length]
  have htop : Spec.boxes (segBytes f).length 0 (segBytes f) = some (boxList 0 [(fourcc 's' 't' 'y' 'p', stypBody), (fourcc 's' 'i' 'd' 'x', S),
      (fourcc 'm' 'o' 'o' 'f', MB), (fourcc 'm' 'd' 'a' 't', f.mdat)]) := by
    conv => lhs; arg 3; rw [hlist]
    apply boxes_list _ _ _ (by rw [hlen]; simp only [List.length_cons, List.length_nil]; omega)
    intro x hx
    have := mem_flatMap_length _ _ hx
    rw [← hlist] at this
    omega
  have c1 : Spec.chars (be 4 (fourcc 's' 't' 'y' 'p')) = "styp".toList := by decide +kernel
  have c2 : Spec.chars (be 4 (fourcc 's' 'i' 'd' 'x')) = "sidx".toList := by decide +kernel
  have c3 : Spec.chars (be 4 (fourcc 'm' 'o' 'o' 'f')) = "moof".toList := by decide +kernel
  have c4 : Spec.chars (be 4 (fourcc 'm' 'd' 'a' 't')) = "mdat".toList := by decide +kernel
  have c5 : Spec.chars (be 4 (fourcc 'm' 'f' 'h' 'd')) = "mfhd".toList := by decide +kernel
  have c6 : Spec.chars (be 4 (fourcc 't' 'r' 'a' 'f')) = "traf".toList := by decide +kernel
  have lstyp : stypBody.length = 28 := by decide
  simp only [boxList, c1, c2, c3, c4] at htop
  -- inside the moof
  have hMBl : MB = [(fourcc 'm' 'f' 'h' 'd', full 0 0 ++ be 4 f.sequence), (fourcc 't' 'r' 'a' 'f', trafBody f g)].flatMap (fun x => box x.1 x.2) := by
    rw [hMB, mfhdBytes]; simp
  have lMB : MB.length = 16 + (8 + (trafBody f g).length) := by
    rw [hMB, mfhdBytes]; simp [box_length, full, be_length]
  have hin : Spec.boxes MB.length 0 MB = some (boxList 0 [(fourcc 'm' 'f' 'h' 'd', full 0 0 ++ be 4 f.sequence), (fourcc 't' 'r' 'a' 'f', trafBody f g)]) := by
    conv => lhs; arg 3; rw [hMBl]
    apply boxes_list _ _ _ (by rw [lMB]; simp only [List.length_cons, List.length_nil]; omega)
    intro x hx
    have := mem_flatMap_length _ _ hx
    rw [← hMBl] at this
    omega
  simp only [boxList, c5, c6] at hin
  have htraf : Spec.boxes (segBytes f).length 0 (trafBody f g) = some (boxList 0 (trafList f g)) := by
    rw [trafBody_list]
    apply boxes_list
    · have := trafList_length f g; omega
    · intro x hx
      have := mem_flatMap_length _ _ hx
      rw [← trafBody_list] at this
      omega
  have hnum : f.items.length < 2 ^ 32 := by
    have hit : ∀ l : List Item, l.length ≤ (l.flatMap (itemBody f.trunFlags)).length := by
      intro l
      induction l with
      | nil => simp
      | cons i l ih =>
        have : 1 ≤ (itemBody f.trunFlags i).length := by
          rcases ok.flags with h | h <;> rw [h] <;> simp [itemBody, be_length]
        simp only [List.flatMap_cons, List.length_append, List.length_cons]; omega
    have h1 := hit f.items
    have h2 : (f.items.flatMap (itemBody f.trunFlags)).length ≤ (trunBody f g).length := by
      simp only [trunBody, List.length_append]; omega
    have h3 : (trunBody f g).length ≤ (trafBody f g).length := by
      simp only [trafBody, trunBytes, List.length_append, box_length]; omega
    omega
  obtain ⟨⟨q1, t1⟩, t2, ⟨q3, t3⟩, t4⟩ := traf_finds f g 0
  have hdata : (segBytes f).drop (36 + (8 + S.length)) = moofBytes f g ++ box (fourcc 'm' 'd' 'a' 't') f.mdat := by
    rw [hseg, ← List.append_assoc, hmoof]
    rw [show 36 + (8 + S.length) = (box (fourcc 's' 't' 'y' 'p') stypBody ++ box (fourcc 's' 'i' 'd' 'x') S).length by
      simp only [List.length_append, box_length]; omega]
    exact List.drop_left
  have hdata2 : (segBytes f).drop (36 + (8 + S.length) + g) = f.mdat := by
    rw [← List.drop_drop, hdata, hmoof, hg, hm0]
    rw [box.eq_1 (fourcc 'm' 'd' 'a' 't'), ← List.append_assoc]
    rw [show 8 + MB.length + 8 = (box (fourcc 'm' 'o' 'o' 'f') MB ++ (be 4 (8 + f.mdat.length) ++ be 4 (fourcc 'm' 'd' 'a' 't'))).length by
      simp only [List.length_append, box_length, be_length]]
    exact List.drop_left
  have hbase : Spec.baseTime (boxList 0 (trafList f g)) = some f.baseSeen := by
    unfold Spec.baseTime
    by_cases hb : f.base ≠ 2 ^ 64 - 1
    · rw [if_pos hb] at t2
      obtain ⟨q2, t2⟩ := t2
      have hhi : f.base / 2 ^ 32 < 2 ^ 32 := by have := ok.base; omega
      have n8 := num8 (f.base / 2 ^ 32) f.base hhi []
      rw [List.append_nil] at n8
      rw [t2]
      simp only [List.append_assoc, full_read, Option.bind_eq_bind, Option.bind_some, Nat.reducePow, Nat.reduceMod, Nat.one_ne_zero, if_false]
      simp only [Nat.reducePow] at n8
      rw [n8, Frag.baseSeen, if_pos hb]
      simp only [Option.bind_some, Option.some.injEq]
      omega
    · rw [if_neg hb] at t2
      rw [t2, Frag.baseSeen, if_neg hb]
  have hcut : Spec.cut (f.items.map (·.size)) f.mdat = some stored := by
    have := cut_flatten stored []
    rw [List.append_nil] at this
    rw [ok.sizes, ok.mdat, this]
  have henc : Spec.sencOf (boxList 0 (trafList f g)) = some f.encSeen := by
    unfold Spec.sencOf
    cases he : f.enc with
    | none => rw [he] at t4; rw [t4.1, Frag.encSeen, he]; rfl
    | some v =>
      obtain ⟨sub, s⟩ := v
      rw [he] at t4
      obtain ⟨⟨q4, t4⟩, _⟩ := t4
      obtain ⟨e1, e2⟩ := ok.enc _ he
      replace e2 : s.entries.length = f.items.length := e2
      rw [t4, Frag.encSeen, he]
      simp only
      rw [senc_read _ e1 (by show s.entries.length < 2 ^ 32; omega)]
      rfl
  have haux : Spec.auxOf ((segBytes f).drop (36 + (8 + S.length))) (boxList 0 (trafList f g)) = some f.encSeen := by
    unfold Spec.auxOf
    cases he : f.enc with
    | none => rw [he] at t4; rw [t4.2.1, t4.2.2, Frag.encSeen, he]; rfl
    | some v =>
      obtain ⟨sub, s⟩ := v
      rw [he] at t4
      obtain ⟨_, ⟨q5, t5⟩, ⟨q6, t6⟩⟩ := t4
      obtain ⟨e1, e2⟩ := ok.enc _ he
      replace e2 : s.entries.length = f.items.length := e2
      rw [t5, t6, Frag.encSeen, he]
      simp only
      rw [hdata, aux_seen f stored ok g sub s he _ (by omega) (by rw [← hdata, List.length_drop]; omega)]
      rfl
  have htr := trun_read f ok.flags ok.items hnum ok.first g (by omega)
  have hsx := sidx_read f ok.trackId ok.timescale (g + f.mdat.length) (by omega)
  rw [← hS] at hsx
  have hfinds : Spec.find [⟨0, "styp".toList, stypBody⟩, ⟨0 + (8 + stypBody.length), "sidx".toList, S⟩, ⟨0 + (8 + stypBody.length) + (8 + S.length), "moof".toList, MB⟩,
      ⟨0 + (8 + stypBody.length) + (8 + S.length) + (8 + MB.length), "mdat".toList, f.mdat⟩] "sidx" = some ⟨0 + (8 + stypBody.length), "sidx".toList, S⟩ := by
    rw [find_ne _ _ _ _ _ (by decide), find_eq _ _ _ rfl]
  have hfindm : Spec.find [⟨0, "styp".toList, stypBody⟩, ⟨0 + (8 + stypBody.length), "sidx".toList, S⟩, ⟨0 + (8 + stypBody.length) + (8 + S.length), "moof".toList, MB⟩,
      ⟨0 + (8 + stypBody.length) + (8 + S.length) + (8 + MB.length), "mdat".toList, f.mdat⟩] "moof" =
        some ⟨0 + (8 + stypBody.length) + (8 + S.length), "moof".toList, MB⟩ := by
    rw [find_ne _ _ _ _ _ (by decide), find_ne _ _ _ _ _ (by decide), find_eq _ _ _ rfl]
  have hfindd : Spec.find [⟨0, "styp".toList, stypBody⟩, ⟨0 + (8 + stypBody.length), "sidx".toList, S⟩, ⟨0 + (8 + stypBody.length) + (8 + S.length), "moof".toList, MB⟩,
      ⟨0 + (8 + stypBody.length) + (8 + S.length) + (8 + MB.length), "mdat".toList, f.mdat⟩] "mdat" =
        some ⟨0 + (8 + stypBody.length) + (8 + S.length) + (8 + MB.length), "mdat".toList, f.mdat⟩ := by
    rw [find_ne _ _ _ _ _ (by decide), find_ne _ _ _ _ _ (by decide), find_ne _ _ _ _ _ (by decide), find_eq _ _ _ rfl]
  have hg1 : Spec.find [⟨0, "mfhd".toList, full 0 0 ++ be 4 f.sequence⟩, ⟨0 + (8 + (full 0 0 ++ be 4 f.sequence).length), "traf".toList, trafBody f g⟩] "mfhd" =
      some ⟨0, "mfhd".toList, full 0 0 ++ be 4 f.sequence⟩ := find_eq _ _ _ rfl
  have hg2 : Spec.find [⟨0, "mfhd".toList, full 0 0 ++ be 4 f.sequence⟩, ⟨0 + (8 + (full 0 0 ++ be 4 f.sequence).length), "traf".toList, trafBody f g⟩] "traf" =
      some ⟨0 + (8 + (full 0 0 ++ be 4 f.sequence).length), "traf".toList, trafBody f g⟩ := by
    rw [find_ne _ _ _ _ _ (by decide), find_eq _ _ _ rfl]
  have hpos : 0 + (8 + stypBody.length) + (8 + S.length) = 36 + (8 + S.length) := by omega
  have e0 : (0 : Nat) % 2 ^ 24 = 0 := rfl
  rw [Spec.segment, htop]
  simp only [Option.bind_eq_bind, Option.bind_some, List.map_cons, List.map_nil, ne_eq, not_true_eq_false, if_false, hfinds, hfindm, hfindd, hin, hg1, hg2, hsx,
    full_read, num4', t1, t3, htr, htraf, e0]
  have hoff : ((36 + (8 + S.length) : Nat) + (g : Int)).toNat = 36 + (8 + S.length) + g := by omega
  simp only [hbase, Option.bind_some, mapM_size, hpos, hoff, hdata2, hcut, henc, haux]
  simp only [Option.bind_some, Option.some.injEq, Spec.Segment.mk.injEq, Spec.Index.mk.injEq, true_and, and_true,
    Nat.mod_eq_of_lt ok.sequence, Nat.mod_eq_of_lt ok.trackId]
  omega

end Verif.Fragment
