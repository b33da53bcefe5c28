import Verif.Moof.Lemmas
/-
Reading a segment that the fragment writer made.
-/
namespace Verif.Moof
open Verif.Fragment (fourcc box box_length Frag Item num1 num2 num3 num4 num8 raw_append full_read segBytes moofBytes trafBody mfhdBytes tfhdBytes tfdtBytes trunBytes
  encBytes stypBody sidxBody trunBody)
open Verif.Fragment.Spec (num opt raw full signed32)
open Verif.Cenc.Spec (be)
open Verif.Cenc (be_length)

/-- The loop gets from one place to another within `k` rounds. -/
def Reaches (file : List UInt8) (k : Nat) (r : Rd) (p : List UInt8) (r' : Rd) (p' : List UInt8) : Prop :=
  ∀ fuel, k ≤ fuel → ∃ fuel', fuel ≤ fuel' + k ∧ loop file false fuel r p.length = loop file false fuel' r' p'.length

theorem Reaches.refl (file : List UInt8) (r : Rd) (p : List UInt8) : Reaches file 0 r p r p := fun fuel _ => ⟨fuel, by omega, rfl⟩

theorem Reaches.trans {file : List UInt8} {k l : Nat} {r r' r'' : Rd} {p p' p'' : List UInt8} (h : Reaches file k r p r' p') (h' : Reaches file l r' p' r'' p'') :
    Reaches file (k + l) r p r'' p'' := by
  intro fuel hf
  obtain ⟨a, h1, h2⟩ := h fuel (by omega)
  obtain ⟨b, h3, h4⟩ := h' a (by omega)
  exact ⟨b, by omega, h2.trans h4⟩

theorem reach_one (file pre next post : List UInt8) (r r' : Rd) (p' : List UInt8) (hfile : file = pre ++ (next ++ post)) (hne : next ≠ [])
    (h : handle (pre ++ (next ++ post)) r pre.length = some (r', p'.length)) (h0 : r'.mdat = 0) : Reaches file 1 r pre r' p' := by
  intro fuel hf
  obtain ⟨n, rfl⟩ : ∃ n, fuel = n + 1 := ⟨fuel - 1, by omega⟩
  refine ⟨n, by omega, ?_⟩
  rw [loop_step file pre next post n r r' false hfile hne _ (by rw [hfile]; exact h), if_neg (by simp [h0])]

theorem box_ne (t : Nat) (b : List UInt8) : box t b ≠ [] := by
  intro h
  have := congrArg List.length h
  rw [box_length] at this
  simp only [List.length_nil] at this
  omega

/-- Bytes before the moof. -/
def lead (f : Frag) : List UInt8 :=
  box (fourcc 's' 't' 'y' 'p') stypBody ++ box (fourcc 's' 'i' 'd' 'x') (sidxBody f ((moofBytes f 0).length + 8 + f.mdat.length))

theorem segBytes_lead (f : Frag) : segBytes f = lead f ++ (moofBytes f ((moofBytes f 0).length + 8) ++ box (fourcc 'm' 'd' 'a' 't') f.mdat) := by
  rw [segBytes, lead, List.append_assoc]

/-- The reader after a segment at the end of `pre`. -/
def after (f : Frag) (pre : List UInt8) (r : Rd) : Rd :=
  { r with
    mdat := (pre ++ (lead f ++ moofBytes f ((moofBytes f 0).length + 8))).length + 8
    moof := (pre ++ lead f).length
    hasBase := if f.base ≠ 2 ^ 64 - 1 then true else r.hasBase
    base := if f.base ≠ 2 ^ 64 - 1 then f.base else r.base
    version := 1
    flags := f.trunFlags
    dataOffset := (moofBytes f 0).length + 8
    run := f.items.map (itemRead f.trunFlags)
    hasSenc := if f.enc = none then r.hasSenc else true
    senc := match f.enc with | none => r.senc | some (_, s) => s.entries.map encRead }

/-- What the encryption boxes change. -/
def withEnc (f : Frag) (r : Rd) : Rd :=
  { r with
    hasSenc := if f.enc = none then r.hasSenc else true
    senc := match f.enc with | none => r.senc | some (_, s) => s.entries.map encRead }

theorem parse_segment (f : Frag) (stored : List (List UInt8)) (ok : f.Ok stored) (pre post : List UInt8) (r : Rd) (fuel : Nat) (hfuel : 13 ≤ fuel) :
    parse (pre ++ (segBytes f ++ post)) fuel r pre.length = some (after f pre r, (pre ++ segBytes f).length) := by
  obtain ⟨file, hfile⟩ : ∃ file, file = pre ++ (segBytes f ++ post) := ⟨_, rfl⟩
  obtain ⟨g, hg⟩ : ∃ g, g = (moofBytes f 0).length + 8 := ⟨_, rfl⟩
  obtain ⟨si, hsi⟩ : ∃ si, si = sidxBody f ((moofBytes f 0).length + 8 + f.mdat.length) := ⟨_, rfl⟩
  have hmoofl : (moofBytes f g).length = (moofBytes f 0).length := Fragment.moof_length f g 0
  have hsil : si.length = 36 := by rw [hsi]; simp [sidxBody, Fragment.full, be_length]
  have htot := ok.total
  have hseg := segBytes_lead f
  have hlead : lead f = box (fourcc 's' 't' 'y' 'p') stypBody ++ box (fourcc 's' 'i' 'd' 'x') si := by rw [lead, hsi]
  rw [← hg] at hseg
  have hlens : (segBytes f).length = (lead f).length + ((moofBytes f g).length + (8 + f.mdat.length)) := by
    rw [hseg]; simp only [List.length_append, box_length]
  have hmoofb : (moofBytes f g).length = 8 + ((mfhdBytes f).length + (8 + (trafBody f g).length)) := by
    rw [moofBytes, box_length, List.length_append, box_length]
  have htrafb : (trafBody f g).length = (tfhdBytes f).length + ((tfdtBytes f).length + ((8 + (trunBody f g).length) + (encBytes f).length)) := by
    rw [trafBody, trunBytes]; simp only [List.length_append, box_length]
  -- the places in the file
  obtain ⟨p1, e1⟩ : ∃ p, p = pre ++ box (fourcc 's' 't' 'y' 'p') stypBody := ⟨_, rfl⟩
  obtain ⟨p2, e2⟩ : ∃ p, p = p1 ++ box (fourcc 's' 'i' 'd' 'x') si := ⟨_, rfl⟩
  obtain ⟨mb, emb⟩ : ∃ b, b = mfhdBytes f ++ box (fourcc 't' 'r' 'a' 'f') (trafBody f g) := ⟨_, rfl⟩
  obtain ⟨p3, e3⟩ : ∃ p, p = p2 ++ hdr (fourcc 'm' 'o' 'o' 'f') mb.length := ⟨_, rfl⟩
  obtain ⟨p4, e4⟩ : ∃ p, p = p3 ++ mfhdBytes f := ⟨_, rfl⟩
  obtain ⟨p5, e5⟩ : ∃ p, p = p4 ++ hdr (fourcc 't' 'r' 'a' 'f') (trafBody f g).length := ⟨_, rfl⟩
  obtain ⟨p6, e6⟩ : ∃ p, p = p5 ++ tfhdBytes f := ⟨_, rfl⟩
  obtain ⟨p7, e7⟩ : ∃ p, p = p6 ++ tfdtBytes f := ⟨_, rfl⟩
  obtain ⟨p8, e8⟩ : ∃ p, p = p7 ++ trunBytes f g := ⟨_, rfl⟩
  obtain ⟨p9, e9⟩ : ∃ p, p = p8 ++ encBytes f := ⟨_, rfl⟩
  have hmoof : moofBytes f g = box (fourcc 'm' 'o' 'o' 'f') mb := by rw [moofBytes, emb]
  have hfull : file = p9 ++ (box (fourcc 'm' 'd' 'a' 't') f.mdat ++ post) := by
    rw [hfile, hseg, hlead, hmoof, box_hdr _ mb]
    simp only [e9, e8, e7, e6, e5, e4, e3, e2, e1, emb, box_hdr (fourcc 't' 'r' 'a' 'f'), trafBody, List.append_assoc]
  have hp2 : p2 = pre ++ lead f := by rw [e2, e1, hlead, List.append_assoc]
  have hp9 : p9 = pre ++ (lead f ++ moofBytes f g) := by
    rw [hlead, hmoof, box_hdr _ mb]
    simp only [e9, e8, e7, e6, e5, e4, e3, e2, e1, emb, box_hdr (fourcc 't' 'r' 'a' 'f'), trafBody, List.append_assoc]
  have hg32 : g < 2 ^ 32 := by omega
  have hn32 : f.items.length < 2 ^ 32 := by
    have h1 : f.items.length ≤ (f.items.flatMap (Fragment.itemBody f.trunFlags)).length := by
      rcases ok.flags with h | h <;> rw [h]
      all_goals
        generalize f.items = l
        induction l with
        | nil => simp
        | cons i l ih =>
          simp only [List.flatMap_cons, List.length_append, List.length_cons]
          have : 1 ≤ (Fragment.itemBody 0x301 i).length ∧ 1 ≤ (Fragment.itemBody 0xB05 i).length := by
            constructor <;> simp [Fragment.itemBody, be_length] <;> omega
          omega
    have h2 : (f.items.flatMap (Fragment.itemBody f.trunFlags)).length ≤ (trunBody f g).length := by
      rw [trunBody]; simp only [List.length_append]; omega
    omega
  obtain ⟨r0, hr0⟩ : ∃ r0 : Rd, r0 = { r with mdat := 0 } := ⟨_, rfl⟩
  have z0 : r0.mdat = 0 := by rw [hr0]
  have s1 : Reaches file 1 r0 pre r0 p1 :=
    reach_one file pre (box (fourcc 's' 't' 'y' 'p') stypBody) (box (fourcc 's' 'i' 'd' 'x') si ++ (moofBytes f g ++ (box (fourcc 'm' 'd' 'a' 't') f.mdat ++ post))) r0 r0 p1
      (by rw [hfile, hseg, hlead]; simp only [List.append_assoc]) (box_ne _ _)
      (by rw [e1]; exact handle_skip pre _ _ _ r0 (by decide) (by decide) (by decide) (by decide)) z0
  have s2 : Reaches file 1 r0 p1 r0 p2 :=
    reach_one file p1 (box (fourcc 's' 'i' 'd' 'x') si) (moofBytes f g ++ (box (fourcc 'm' 'd' 'a' 't') f.mdat ++ post)) r0 r0 p2 (by rw [hfile, hseg, hlead, e1]; simp only [List.append_assoc]) (box_ne _ _)
      (by rw [e2]; exact handle_skip p1 _ si (moofBytes f g ++ (box (fourcc 'm' 'd' 'a' 't') f.mdat ++ post)) r0 (by decide) (by decide) (by rw [hsil]; decide) (by decide)) z0
  have s3 : Reaches file 1 r0 p2 { r0 with moof := p2.length } p3 :=
    reach_one file p2 (box (fourcc 'm' 'o' 'o' 'f') mb) (box (fourcc 'm' 'd' 'a' 't') f.mdat ++ post) r0 _ p3
      (by rw [hfile, hseg, hlead, hmoof, e2, e1]; simp only [List.append_assoc]) (box_ne _ _)
      (by rw [e3]; exact handle_moof p2 mb _ r0 (by rw [← box_length (fourcc 'm' 'o' 'o' 'f') mb, ← hmoof]; omega)) z0
  obtain ⟨r1, hr1⟩ : ∃ r1 : Rd, r1 = { r0 with moof := p2.length } := ⟨_, rfl⟩
  rw [← hr1] at s3
  have z1 : r1.mdat = 0 := by rw [hr1]; exact z0
  have s4 : Reaches file 1 r1 p3 r1 p4 :=
    reach_one file p3 (mfhdBytes f) (box (fourcc 't' 'r' 'a' 'f') (trafBody f g) ++ (box (fourcc 'm' 'd' 'a' 't') f.mdat ++ post)) r1 r1 p4
      (by rw [hfile, hseg, hlead, hmoof, box_hdr _ mb, e3, e2, e1, emb]; simp only [List.append_assoc]) (box_ne _ _)
      (by rw [e4]; exact handle_mfhd p3 _ r1 _) z1
  have s5 : Reaches file 1 r1 p4 r1 p5 :=
    reach_one file p4 (box (fourcc 't' 'r' 'a' 'f') (trafBody f g)) (box (fourcc 'm' 'd' 'a' 't') f.mdat ++ post) r1 r1 p5
      (by rw [hfile, hseg, hlead, hmoof, box_hdr _ mb, e4, e3, e2, e1, emb]; simp only [List.append_assoc]) (box_ne _ _)
      (by rw [e5]; exact handle_traf p4 _ _ r1 (by omega)) z1
  have s6 : Reaches file 1 r1 p5 r1 p6 :=
    reach_one file p5 (tfhdBytes f) (tfdtBytes f ++ (trunBytes f g ++ (encBytes f ++ (box (fourcc 'm' 'd' 'a' 't') f.mdat ++ post)))) r1 r1 p6
      (by rw [hfull, e9, e8, e7, e6]; simp only [List.append_assoc]) (box_ne _ _)
      (by rw [e6]; exact handle_tfhd p5 _ r1 _) z1
  obtain ⟨r2, hr2⟩ : ∃ r2 : Rd, r2 = { r1 with hasBase := if f.base ≠ 2 ^ 64 - 1 then true else r1.hasBase, base := if f.base ≠ 2 ^ 64 - 1 then f.base else r1.base } := ⟨_, rfl⟩
  have z2 : r2.mdat = 0 := by rw [hr2]; exact z1
  have s7 : Reaches file 1 r1 p6 r2 p7 := by
    by_cases hb : f.base ≠ 2 ^ 64 - 1
    · have ht : tfdtBytes f = box (fourcc 't' 'f' 'd' 't') (Fragment.full 1 0 ++ be 4 (f.base / 2 ^ 32) ++ be 4 f.base) := by rw [tfdtBytes, if_pos hb]
      refine reach_one file p6 (tfdtBytes f) (trunBytes f g ++ (encBytes f ++ (box (fourcc 'm' 'd' 'a' 't') f.mdat ++ post))) r1 r2 p7
        (by rw [hfull, e9, e8, e7]; simp only [List.append_assoc]) (by rw [ht]; exact box_ne _ _) ?_ z2
      rw [e7, ht, handle_tfdt p6 _ r1 _ ok.base, hr2]
      simp only [if_pos hb]
    · have ht : tfdtBytes f = [] := by rw [tfdtBytes, if_neg hb]
      have hr : r2 = r1 := by rw [hr2]; simp only [if_neg hb]
      rw [hr, e7, ht, List.append_nil]
      intro fuel hf
      exact ⟨fuel, by omega, rfl⟩
  obtain ⟨r3, hr3⟩ : ∃ r3 : Rd, r3 = { r2 with version := 1, flags := f.trunFlags, dataOffset := g, run := f.items.map (itemRead f.trunFlags) } := ⟨_, rfl⟩
  have z3 : r3.mdat = 0 := by rw [hr3]; exact z2
  have s8 : Reaches file 1 r2 p7 r3 p8 :=
    reach_one file p7 (trunBytes f g) (encBytes f ++ (box (fourcc 'm' 'd' 'a' 't') f.mdat ++ post)) r2 r3 p8
      (by rw [hfull, e9, e8]; simp only [List.append_assoc]) (box_ne _ _)
      (by rw [e8, hr3]; exact handle_trun p7 _ r2 f ok.flags ok.items g hg32 (by omega) hn32) z3
  obtain ⟨r4, hr4⟩ : ∃ r4 : Rd, r4 = withEnc f r3 := ⟨_, rfl⟩
  have z4 : r4.mdat = 0 := by rw [hr4, withEnc]; exact z3
  have s9 : Reaches file 3 r3 p8 r4 p9 := by
    cases he : f.enc with
    | none =>
      have ht : encBytes f = [] := by rw [encBytes, he]
      have hr : r4 = r3 := by rw [hr4, withEnc, he]; rfl
      rw [hr, e9, ht, List.append_nil]
      intro fuel hf
      exact ⟨fuel, by omega, rfl⟩
    | some v =>
      obtain ⟨sub, s⟩ := v
      have ht : encBytes f = box (fourcc 's' 'a' 'i' 'z') (Fragment.saizBody s.entries.length) ++ (box (fourcc 's' 'a' 'i' 'o') (Fragment.saioBody (Fragment.beforeEnc f + 53)) ++
          box (fourcc 's' 'e' 'n' 'c') (Fragment.sencBody s.entries)) := by rw [encBytes, he]
      obtain ⟨q1, k1⟩ : ∃ p, p = p8 ++ box (fourcc 's' 'a' 'i' 'z') (Fragment.saizBody s.entries.length) := ⟨_, rfl⟩
      obtain ⟨q2, k2⟩ : ∃ p, p = q1 ++ box (fourcc 's' 'a' 'i' 'o') (Fragment.saioBody (Fragment.beforeEnc f + 53)) := ⟨_, rfl⟩
      have hq : p9 = q2 ++ box (fourcc 's' 'e' 'n' 'c') (Fragment.sencBody s.entries) := by
        rw [e9, ht, k2, k1]; simp only [List.append_assoc]
      have hel : (encBytes f).length = (8 + (Fragment.saizBody s.entries.length).length) + ((8 + (Fragment.saioBody (Fragment.beforeEnc f + 53)).length) +
          (8 + (Fragment.sencBody s.entries).length)) := by rw [ht]; simp only [List.length_append, box_length]
      obtain ⟨ho, hc⟩ := ok.enc _ he
      have t1 : Reaches file 1 r3 p8 r3 q1 :=
        reach_one file p8 (box (fourcc 's' 'a' 'i' 'z') (Fragment.saizBody s.entries.length)) (box (fourcc 's' 'a' 'i' 'o') (Fragment.saioBody (Fragment.beforeEnc f + 53)) ++
          (box (fourcc 's' 'e' 'n' 'c') (Fragment.sencBody s.entries) ++ (box (fourcc 'm' 'd' 'a' 't') f.mdat ++ post))) r3 r3 q1
          (by rw [hfull, e9, ht]; simp only [List.append_assoc]) (box_ne _ _) (by rw [k1]; exact handle_saiz p8 _ r3 _) z3
      have t2 : Reaches file 1 r3 q1 r3 q2 :=
        reach_one file q1 (box (fourcc 's' 'a' 'i' 'o') (Fragment.saioBody (Fragment.beforeEnc f + 53))) (box (fourcc 's' 'e' 'n' 'c') (Fragment.sencBody s.entries) ++ (box (fourcc 'm' 'd' 'a' 't') f.mdat ++ post)) r3 r3 q2
          (by rw [hfull, hq, k2]; simp only [List.append_assoc]) (box_ne _ _) (by rw [k2]; exact handle_saio q1 _ r3 _) z3
      have t3 : Reaches file 1 r3 q2 r4 p9 :=
        reach_one file q2 (box (fourcc 's' 'e' 'n' 'c') (Fragment.sencBody s.entries)) (box (fourcc 'm' 'd' 'a' 't') f.mdat ++ post) r3 r4 p9
          (by rw [hfull, hq]; simp only [List.append_assoc]) (box_ne _ _)
          (by rw [hq, hr4, withEnc, he]; exact handle_senc q2 _ r3 _ ho (by rw [hc]; omega) (by omega)) z4
      exact (t1.trans t2).trans t3
  have hall := (((((((s1.trans s2).trans s3).trans s4).trans s5).trans s6).trans s7).trans s8).trans s9
  obtain ⟨n, hn1, hn2⟩ := hall fuel (by omega)
  rw [← hfile, parse, ← hr0, hn2]
  obtain ⟨n, rfl⟩ : ∃ m, n = m + 1 := ⟨n - 1, by omega⟩
  have hm := handle_mdat p9 f.mdat post r4 (by omega)
  rw [loop_step file p9 (box (fourcc 'm' 'd' 'a' 't') f.mdat) post n r4 _ false hfull (box_ne _ _) _ (by rw [hfull]; exact hm)]
  rw [if_pos ⟨by simp only; omega, rfl⟩]
  have hafter : ({ r4 with mdat := p9.length + 8 } : Rd) = after f pre r := by
    rw [hr4, withEnc, hr3, hr2, hr1, hr0, after, hp9, hp2, hg]
  rw [hafter, hseg, hp9]
  simp only [List.append_assoc]

/-- At the end of the file. -/
theorem parse_end (file : List UInt8) (r : Rd) (fuel : Nat) (hfuel : 1 ≤ fuel) : parse file fuel r file.length = some ({ r with mdat := 0 }, file.length) := by
  obtain ⟨n, rfl⟩ : ∃ n, fuel = n + 1 := ⟨fuel - 1, by omega⟩
  rw [parse, loop, if_pos (Nat.le_refl _)]

end Verif.Moof
