import Verif.Parse.Minf
namespace Verif.Parse
open Verif.Cenc.Spec (be beVal)
open Verif.Cenc (be_length beVal_be)
open Verif.Fragment (fourcc full box box_length)
open Verif.Movie (words cat cat_cons cat_append cat_nil cat_one full_length Kind stsdBody MStream dinfBody KindOk Fits tableBody pairList tripleList)
open Verif.Tables (sub64 u32 stssWords stszWords cttsEntries sttsEntries stscEntries)

attribute [local irreducible] sub64 u32

/-- The loop of a track goes over the bytes `x`, from the record `t` to `t'`. -/
def Eats (ok : Accept) (F : Nat) (x : List UInt8) (t t' : TrackRd) : Prop :=
  ∃ k, k ≤ x.length ∧ ∀ (fuel N stop : Nat) (h : Hdr) (post : List UInt8), N < 2 ^ 32 → (x ++ post).length ≤ N → N - post.length ≤ stop →
    ∃ h', trackBoxes ok F N stop (fuel + k) h t (x ++ post) = trackBoxes ok F N stop fuel h' t' post

theorem Eats.nil (ok : Accept) (F : Nat) (t : TrackRd) : Eats ok F [] t t := ⟨0, Nat.le_refl _, fun _ _ _ h _ _ _ _ => ⟨h, rfl⟩⟩

theorem Eats.append {ok : Accept} {F : Nat} {x y : List UInt8} {t t' t'' : TrackRd} (h1 : Eats ok F x t t') (h2 : Eats ok F y t' t'') : Eats ok F (x ++ y) t t'' := by
  obtain ⟨k1, l1, e1⟩ := h1
  obtain ⟨k2, l2, e2⟩ := h2
  refine ⟨k2 + k1, by rw [List.length_append]; omega, fun fuel N stop h post hN hl hs => ?_⟩
  rw [List.append_assoc] at hl ⊢
  obtain ⟨h', e⟩ := e1 (fuel + k2) N stop h (y ++ post) hN hl (by rw [List.length_append]; omega)
  obtain ⟨h'', e'⟩ := e2 fuel N stop h' post hN (by simp only [List.length_append] at hl ⊢; omega) hs
  exact ⟨h'', by rw [← Nat.add_assoc, e, e']⟩

/-- A header with size `s` and type `ty`, followed by bytes `b` that the box's reader takes. -/
theorem Eats.hdr {ok : Accept} {F : Nat} (s ty : Nat) (b : List UInt8) (t t' : TrackRd) (hs : s < 2 ^ 32) (hs1 : s ≠ 1) (ht : PlainType ty)
    (hb : ∀ (N : Nat) (post : List UInt8), N < 2 ^ 32 → 8 + (b ++ post).length ≤ N → ∃ h', trackBox ok F N ⟨N - (8 + (b ++ post).length), s, ty⟩ t (b ++ post) = .ok (t', h', post)) :
    Eats ok F (be 4 s ++ (be 4 ty ++ b)) t t' := by
  refine ⟨1, by simp only [List.length_append, be_length]; omega, fun fuel N stop h post hN hl hst => ?_⟩
  simp only [List.append_assoc] at hl ⊢
  simp only [List.length_append, be_length] at hl
  obtain ⟨h', e⟩ := hb N post hN (by rw [List.length_append]; omega)
  refine ⟨h', ?_⟩
  rw [trackBoxes, if_pos (by simp only [List.length_append, be_length]; omega), doBox_hdr N s ty h (b ++ post) hs hs1 ht, ok_bind]
  simp only
  rw [e, ok_bind]

/-- A whole box. -/
theorem Eats.box {ok : Accept} {F : Nat} (ty : Nat) (b : List UInt8) (t t' : TrackRd) (hl : (box ty b).length < 2 ^ 32) (ht : PlainType ty)
    (hb : ∀ (N n : Nat) (post : List UInt8), ∃ h', trackBox ok F N ⟨n, 8 + b.length, ty⟩ t (b ++ post) = .ok (t', h', post)) : Eats ok F (box ty b) t t' := by
  rw [box_length] at hl
  rw [Fragment.box, List.append_assoc]
  exact Eats.hdr _ ty b t t' hl (by omega) ht fun N post _ _ => hb N _ post

/-- A box whose reader only looks into it. -/
theorem Eats.inside {ok : Accept} {F : Nat} (s ty : Nat) (t : TrackRd) (hs : s < 2 ^ 32) (hs1 : s ≠ 1) (ht : ty = fourcc 'm' 'd' 'i' 'a' ∨ ty = fourcc 'e' 'd' 't' 's') :
    Eats ok F (be 4 s ++ be 4 ty) t t := by
  have := Eats.hdr (ok := ok) (F := F) s ty [] t t hs hs1 (by rcases ht with rfl | rfl <;> exact ⟨by decide, by decide⟩) (fun N post _ _ => by
    refine ⟨⟨N - (8 + ([] ++ post).length), s, ty⟩, ?_⟩
    rcases ht with rfl | rfl
    · have hk : known (fourcc 'm' 'd' 'i' 'a') = .mdia := by decide
      simp only [trackBox, hk]
      rfl
    · have hk : known (fourcc 'e' 'd' 't' 's') = .edts := by decide
      simp only [trackBox, hk]
      rfl)
  rwa [List.append_nil] at this

theorem box_split (ty : Nat) (b : List UInt8) : box ty b = be 4 (8 + b.length) ++ be 4 ty ++ b := rfl

/-! ### Tables -/

theorem eats_table (ok : Accept) (F k n ty : Nat) (ws : List Nat) (t t' : TrackRd) (hl : (box ty (tableBody n ws)).length < 2 ^ 32) (ht : PlainType ty) (hn : n < 2 ^ 32) (hw : ws.length = k * n)
    (h32 : ∀ w ∈ ws, w < 2 ^ 32) (hb : ∀ (N : Nat) (h : Hdr) (r r' : List UInt8), h.type = ty → getTable k r = .ok (n :: ws, r') → trackBox ok F N h t r = .ok (t', h, r')) :
    Eats ok F (box ty (tableBody n ws)) t t' :=
  Eats.box ty _ t t' hl ht fun N m post => ⟨_, hb N _ _ _ rfl (by rw [tableBody]; exact getTable_words k n ws post hn hw h32)⟩

theorem eats_stts (ok : Accept) (F n : Nat) (ws : List Nat) (t : TrackRd) (hl : (box (fourcc 's' 't' 't' 's') (tableBody n ws)).length < 2 ^ 32) (hn : n < 2 ^ 32) (hw : ws.length = 2 * n)
    (h32 : ∀ w ∈ ws, w < 2 ^ 32) (h0 : t.stts = none) : Eats ok F (box (fourcc 's' 't' 't' 's') (tableBody n ws)) t { t with stts := some (n :: ws) } :=
  eats_table ok F 2 n _ ws _ _ hl ⟨by decide, by decide⟩ hn hw h32 fun N h r r' hh e => by
    have hk : known (fourcc 's' 't' 't' 's') = .stts := by decide
    simp only [trackBox, hh, hk, once, h0, Option.isSome_none, Bool.false_eq_true, if_false, ok_bind, e]

theorem eats_ctts (ok : Accept) (F n : Nat) (ws : List Nat) (t : TrackRd) (hl : (box (fourcc 'c' 't' 't' 's') (tableBody n ws)).length < 2 ^ 32) (hn : n < 2 ^ 32) (hw : ws.length = 2 * n)
    (h32 : ∀ w ∈ ws, w < 2 ^ 32) (h0 : t.ctts = none) (h1 : t.stts.isNone = false) : Eats ok F (box (fourcc 'c' 't' 't' 's') (tableBody n ws)) t { t with ctts := some (n :: ws) } :=
  eats_table ok F 2 n _ ws _ _ hl ⟨by decide, by decide⟩ hn hw h32 fun N h r r' hh e => by
    have hk : known (fourcc 'c' 't' 't' 's') = .ctts := by decide
    simp only [trackBox, hh, hk, once, h0, h1, Option.isSome_none, Bool.false_eq_true, if_false, ok_bind, e]

theorem eats_stsc (ok : Accept) (F n : Nat) (ws : List Nat) (t : TrackRd) (hl : (box (fourcc 's' 't' 's' 'c') (tableBody n ws)).length < 2 ^ 32) (hn : n < 2 ^ 32) (hw : ws.length = 3 * n)
    (h32 : ∀ w ∈ ws, w < 2 ^ 32) (h0 : t.stsc = none) : Eats ok F (box (fourcc 's' 't' 's' 'c') (tableBody n ws)) t { t with stsc := some (n :: ws) } :=
  eats_table ok F 3 n _ ws _ _ hl ⟨by decide, by decide⟩ hn hw h32 fun N h r r' hh e => by
    have hk : known (fourcc 's' 't' 's' 'c') = .stsc := by decide
    simp only [trackBox, hh, hk, once, h0, Option.isSome_none, Bool.false_eq_true, if_false, ok_bind, e]

theorem eats_stco (ok : Accept) (F n : Nat) (ws : List Nat) (t : TrackRd) (hl : (box (fourcc 's' 't' 'c' 'o') (tableBody n ws)).length < 2 ^ 32) (hn : n < 2 ^ 32) (hw : ws.length = 1 * n)
    (h32 : ∀ w ∈ ws, w < 2 ^ 32) (h0 : t.stco = none) : Eats ok F (box (fourcc 's' 't' 'c' 'o') (tableBody n ws)) t { t with stco := some (n :: ws) } :=
  eats_table ok F 1 n _ ws _ _ hl ⟨by decide, by decide⟩ hn hw h32 fun N h r r' hh e => by
    have hk : known (fourcc 's' 't' 'c' 'o') = .stco := by decide
    simp only [trackBox, hh, hk, once, h0, Option.isSome_none, Bool.false_eq_true, if_false, ok_bind, e]

theorem eats_stss (ok : Accept) (F n : Nat) (ws : List Nat) (t : TrackRd) (hl : (box (fourcc 's' 't' 's' 's') (tableBody n ws)).length < 2 ^ 32) (hn : n < 2 ^ 32) (hw : ws.length = 1 * n)
    (h32 : ∀ w ∈ ws, w < 2 ^ 32) (h0 : t.stss = none) : Eats ok F (box (fourcc 's' 't' 's' 's') (tableBody n ws)) t { t with stss := some (n :: ws) } :=
  eats_table ok F 1 n _ ws _ _ hl ⟨by decide, by decide⟩ hn hw h32 fun N h r r' hh e => by
    have hk : known (fourcc 's' 't' 's' 's') = .stss := by decide
    simp only [trackBox, hh, hk, once, h0, Option.isSome_none, Bool.false_eq_true, if_false, ok_bind, e]

theorem eats_stsz (ok : Accept) (F n : Nat) (ws : List Nat) (t : TrackRd) (hl : (box (fourcc 's' 't' 's' 'z') (full 0 0 ++ words (0 :: n :: ws))).length < 2 ^ 32) (hn : n < 2 ^ 32)
    (hw : ws.length = n) (h32 : ∀ w ∈ ws, w < 2 ^ 32) (h0 : t.stsz = none) : Eats ok F (box (fourcc 's' 't' 's' 'z') (full 0 0 ++ words (0 :: n :: ws))) t { t with stsz := some (0 :: n :: ws) } :=
  Eats.box _ _ _ _ hl ⟨by decide, by decide⟩ fun N m post => by
    have hk : known (fourcc 's' 't' 's' 'z') = .stsz := by decide
    have e : getStsz (full 0 0 ++ words (0 :: n :: ws) ++ post) = .ok (0 :: n :: ws, post) := by
      have ew : full 0 0 ++ words (0 :: n :: ws) ++ post = full 0 0 ++ (be 4 0 ++ (be 4 n ++ (words ws ++ post))) := by simp [words]
      rw [ew, getStsz, getFull_full 0 0 (by omega), ok_bind]
      simp only
      rw [get4 0 (by decide), ok_bind]
      simp only
      rw [get4 n hn, ok_bind]
      simp only [if_true]
      rw [← hw, getWords_words ws post h32, ok_bind]
    exact ⟨_, by simp only [trackBox, hk, once, h0, Option.isSome_none, Bool.false_eq_true, if_false, ok_bind, e]; rfl⟩

/-! ### Headers -/

theorem eats_tkhd (ok : Accept) (F now id duration volume width height : Nat) (t : TrackRd) (hid : id < 2 ^ 32) (hd : duration < 2 ^ 32) (hw : width < 2 ^ 16) (hh : height < 2 ^ 16) :
    Eats ok F (box (fourcc 't' 'k' 'h' 'd') (Verif.Movie.tkhdBody now id duration volume width height)) t { t with id, duration, width, height } :=
  Eats.box _ _ _ _ (by rw [box_length]; simp only [Verif.Movie.tkhdBody, Verif.Movie.matrix, List.length_append, full_length, be_length]; decide) ⟨by decide, by decide⟩ fun N m post => by
    have hk : known (fourcc 't' 'k' 'h' 'd') = .tkhd := by decide
    exact ⟨_, by simp only [trackBox, hk, getTkhd_body t now id duration volume width height post hid hd hw hh, ok_bind]; rfl⟩

theorem eats_mdhd (ok : Accept) (F now scale duration : Nat) (lang : Char × Char × Char) (t : TrackRd) (hs : scale < 2 ^ 32) (hd : duration < 2 ^ 32) :
    Eats ok F (box (fourcc 'm' 'd' 'h' 'd') (Verif.Movie.mdhdBody now scale duration lang)) t { t with scale, mediaDuration := duration, lang := langOf lang } :=
  Eats.box _ _ _ _ (by rw [box_length]; simp only [Verif.Movie.mdhdBody, List.length_append, full_length, be_length]; decide) ⟨by decide, by decide⟩ fun N m post => by
    have hk : known (fourcc 'm' 'd' 'h' 'd') = .mdhd := by decide
    exact ⟨_, by simp only [trackBox, hk, getMdhd_body t now scale duration lang post hs hd, ok_bind]; rfl⟩

theorem eats_hdlr (ok : Accept) (F type : Nat) (t : TrackRd) (ht : type < 2 ^ 32) :
    Eats ok F (box (fourcc 'h' 'd' 'l' 'r') (Verif.Movie.hdlrBody type)) t { t with handler := some type } :=
  Eats.box _ _ _ _ (by rw [box_length]; simp only [Verif.Movie.hdlrBody, List.length_append, full_length, be_length, handlerName_length]; decide) ⟨by decide, by decide⟩ fun N m post => by
    have hk : known (fourcc 'h' 'd' 'l' 'r') = .hdlr := by decide
    exact ⟨_, by simp only [trackBox, hk, getHdlr_body t m _ type post ht, ok_bind]; rfl⟩

theorem eats_edts (ok : Accept) (F : Nat) (ts : Nat → Nat → Nat) (s : MStream) (t : TrackRd) (h0 : t.elst = none) (hd : ts s.mvhdScale s.streamOffset < 2 ^ 32) :
    Eats ok F (cat (Verif.Movie.edtsList ts s)) t { t with elst := if s.streamOffset = 0 then none else some (ts s.mvhdScale s.streamOffset) } := by
  by_cases h : s.streamOffset = 0
  · rw [Verif.Movie.edtsList, if_pos h, if_pos h, cat_nil, ← h0]
    exact Eats.nil _ _ _
  · rw [Verif.Movie.edtsList, if_neg h, if_neg h, cat_one, cat_one]
    obtain ⟨B, hB⟩ : ∃ B, B = full 0 0 ++ be 4 2 ++ (be 4 (ts s.mvhdScale s.streamOffset) ++ be 4 0xFFFFFFFF ++ be 2 1 ++ be 2 0) ++ (be 4 (ts s.mvhdScale s.duration) ++ be 4 0 ++ be 2 1 ++ be 2 0) := ⟨_, rfl⟩
    rw [← hB]
    have hl : B.length = 32 := by rw [hB]; simp only [List.length_append, full_length, be_length]
    rw [box_split (fourcc 'e' 'd' 't' 's')]
    refine (Eats.inside _ _ t (by rw [box_length, hl]; decide) (by rw [box_length, hl]; decide) (Or.inr rfl)).append ?_
    refine Eats.box _ _ _ _ (by rw [box_length, hl]; decide) ⟨by decide, by decide⟩ fun N m post => ?_
    have hk : known (fourcc 'e' 'l' 's' 't') = .elst := by decide
    have e := getElst_body (ts s.mvhdScale s.streamOffset) (ts s.mvhdScale s.duration) post hd
    rw [← hB] at e
    exact ⟨_, by simp only [trackBox, hk, once, h0, Option.isSome_none, Bool.false_eq_true, if_false, ok_bind, e]; rfl⟩

theorem handlerOf_kind (kind : Kind) : handlerOf kind.handler = .ok (handlerOfKind kind) := by
  cases kind <;> simp (decide := true) only [handlerOf, Kind.handler, handlerOfKind, if_true, if_false]

theorem eats_minf (ok : Accept) (F sz s2 : Nat) (s : MStream) (config : List UInt8) (t : TrackRd) (hk : KindOk config s.kind) (hok : Accepted ok s.kind s.kid ∧ Accepted ok s.kind none) (hf : 4 ≤ F)
    (hsz : 8 + (minfHead s s2).length ≤ sz) (hsz2 : sz < 2 ^ 32) (hs2 : s2 < 2 ^ 32) (hs21 : s2 ≠ 1) (hh : t.handler = some s.kind.handler) :
    Eats ok F (be 4 sz ++ (be 4 (fourcc 'm' 'i' 'n' 'f') ++ minfHead s s2)) t { t with media := some (handlerOfKind s.kind), entries := t.entries ++ entriesRd s } :=
  Eats.hdr _ _ _ _ _ hsz2 (by omega) ⟨by decide, by decide⟩ fun N post hN hl => by
    have hkn : known (fourcc 'm' 'i' 'n' 'f') = .minf := by decide
    obtain ⟨h', e⟩ := handlerParse_body ok F N _ sz s2 s config post hN hk hl hok hf rfl hsz hsz2 hs2 hs21
    refine ⟨h', ?_⟩
    simp only [trackBox, hkn, hh, handlerOf_kind, ok_bind, e]

end Verif.Parse
namespace Verif.Parse
open Verif.Cenc.Spec (be beVal)
open Verif.Cenc (be_length beVal_be)
open Verif.Fragment (fourcc full box box_length)
open Verif.Movie (words cat cat_cons cat_append cat_nil cat_one full_length Kind stsdBody MStream dinfBody KindOk Fits tableBody pairList tripleList)
open Verif.Tables (sub64 u32 stssWords stszWords cttsEntries sttsEntries stscEntries)

attribute [local irreducible] sub64 u32

/-! ### The track -/

/-- The sync table: a count and as many words. -/
def CountedStss : Option (List Nat) → Prop
  | none => True
  | some ws => ∃ ns : List Nat, ws = ns.length :: ns ∧ ns.length < 2 ^ 32 ∧ ∀ n ∈ ns, n < 2 ^ 32

/-- The tables of a stream whose words fit. -/
structure TablesOk (ts hn : Nat → Nat → Nat) (s : MStream) (es : List (Nat × Nat)) (k : Nat) : Prop where
  stts : ∀ x ∈ sttsEntries (ts s.scale) (hn s.scale) s.allowEmpty (s.w.samples.map (·.decoding)), x.1 < 2 ^ 32 ∧ x.2 < 2 ^ 32
  ctts : ∀ cs, cttsEntries (ts s.scale) s.ctts s.w = some cs → ∀ x ∈ cs, x.1 < 2 ^ 32 ∧ x.2 < 2 ^ 32
  stsc : ∀ x ∈ es, x.1 < 2 ^ 32 ∧ x.2 < 2 ^ 32
  stsz : ∃ zs : List Nat, stszWords s.w = 0 :: zs.length :: zs ∧ zs.length < 2 ^ 32 ∧ ∀ z ∈ zs, z < 2 ^ 32
  stco : ∀ c ∈ s.w.chunks, c.position + k < 2 ^ 32
  stss : CountedStss (stssWords s.w)

/-- What the reader has after the boxes of a track: the parameters of the stream `s` and the words of its tables, with the chunk offsets moved by `k`. -/
def trackRd (ts hn : Nat → Nat → Nat) (s : MStream) (es : List (Nat × Nat)) (k : Nat) : TrackRd :=
  let ds := sttsEntries (ts s.scale) (hn s.scale) s.allowEmpty (s.w.samples.map (·.decoding))
  { id := s.id + 1
    duration := ts s.mvhdScale s.duration + ts s.mvhdScale s.streamOffset
    width := s.kind.header.2.1
    height := s.kind.header.2.2
    scale := s.scale
    mediaDuration := ts s.scale s.duration
    lang := langOf s.lang
    handler := some s.kind.handler
    media := some (handlerOfKind s.kind)
    entries := entriesRd s
    elst := if s.streamOffset = 0 then none else some (ts s.mvhdScale s.streamOffset)
    stts := some (ds.length :: pairList ds)
    ctts := (cttsEntries (ts s.scale) s.ctts s.w).map fun (cs : List (Nat × Nat)) => cs.length :: pairList cs
    stss := stssWords s.w
    stsc := some (es.length :: tripleList es)
    stsz := some (stszWords s.w)
    stco := some (s.w.chunks.length :: s.w.chunks.map fun c => c.position + k) }

theorem pairList_mem {es : List (Nat × Nat)} (h : ∀ x ∈ es, x.1 < 2 ^ 32 ∧ x.2 < 2 ^ 32) : ∀ w ∈ pairList es, w < 2 ^ 32 := by
  intro w hw
  simp only [pairList, List.mem_flatMap, List.mem_cons, List.not_mem_nil, or_false] at hw
  obtain ⟨x, hx, rfl | rfl⟩ := hw
  · exact (h x hx).1
  · exact (h x hx).2

theorem tripleList_mem {es : List (Nat × Nat)} (h : ∀ x ∈ es, x.1 < 2 ^ 32 ∧ x.2 < 2 ^ 32) : ∀ w ∈ tripleList es, w < 2 ^ 32 := by
  intro w hw
  simp only [tripleList, List.mem_flatMap, List.mem_cons, List.not_mem_nil, or_false] at hw
  obtain ⟨x, hx, rfl | rfl | rfl⟩ := hw
  · exact (h x hx).1
  · exact (h x hx).2
  · decide

theorem box_le_cat {ty : Nat} {b : List UInt8} {l : List (Nat × List UInt8)} (h : (ty, b) ∈ l) : (box ty b).length ≤ (cat l).length := by
  rw [box_length]; exact Verif.Movie.mem_cat l (ty, b) h

theorem table_count (ty n : Nat) (ws : List Nat) (k : Nat) (hk : 0 < k) (hl : (box ty (tableBody n ws)).length < 2 ^ 32) (hw : ws.length = k * n) : n < 2 ^ 32 := by
  have h : n ≤ k * n := Nat.le_mul_of_pos_left n hk
  simp only [box_length, tableBody, List.length_append, full_length, be_length, words_length, hw] at hl
  omega

/-- The boxes of the sample table behind the descriptions. -/
def tablesList (ts hn : Nat → Nat → Nat) (s : MStream) (es : List (Nat × Nat)) (k : Nat) : List (Nat × List UInt8) :=
  (fourcc 's' 't' 't' 's', Verif.Movie.sttsBody ts hn s) :: (Verif.Movie.cttsList ts s ++ [(fourcc 's' 't' 's' 'c', tableBody es.length (tripleList es)),
    (fourcc 's' 't' 's' 'z', Verif.Movie.stszBody s), (fourcc 's' 't' 'c' 'o', Verif.Movie.stcoBody s k)] ++ Verif.Movie.stssList s)

theorem stbl_split (ts hn : Nat → Nat → Nat) (s : MStream) (es : List (Nat × Nat)) (k : Nat) :
    cat (Verif.Movie.stblList ts hn s es k) = box (fourcc 's' 't' 's' 'd') (stsdBody s) ++ cat (tablesList ts hn s es k) := by
  simp only [Verif.Movie.stblList, Verif.Movie.stblPre, tablesList, cat_append, cat_cons, cat_nil, List.append_nil, List.append_assoc]

theorem stcoBody_table (s : MStream) (k : Nat) : Verif.Movie.stcoBody s k = tableBody s.w.chunks.length (s.w.chunks.map fun c => c.position + k) := by
  simp only [Verif.Movie.stcoBody, Verif.Movie.payload, tableBody, words, List.append_assoc, List.flatMap_map]

theorem eats_tables (ok : Accept) (F : Nat) (ts hn : Nat → Nat → Nat) (s : MStream) (es : List (Nat × Nat)) (k : Nat) (t : TrackRd) (h : TablesOk ts hn s es k)
    (hl : (cat (tablesList ts hn s es k)).length < 2 ^ 32) (h1 : t.stts = none) (h2 : t.ctts = none) (h3 : t.stsc = none) (h4 : t.stsz = none) (h5 : t.stco = none) (h6 : t.stss = none) :
    Eats ok F (cat (tablesList ts hn s es k)) t
      { t with stts := (trackRd ts hn s es k).stts, ctts := (trackRd ts hn s es k).ctts, stsc := (trackRd ts hn s es k).stsc, stsz := (trackRd ts hn s es k).stsz,
               stco := (trackRd ts hn s es k).stco, stss := (trackRd ts hn s es k).stss } := by
  obtain ⟨D, hD⟩ : ∃ D, D = sttsEntries (ts s.scale) (hn s.scale) s.allowEmpty (s.w.samples.map (·.decoding)) := ⟨_, rfl⟩
  have hsb : Verif.Movie.sttsBody ts hn s = tableBody D.length (pairList D) := by rw [hD]; rfl
  have l1 : (box (fourcc 's' 't' 't' 's') (tableBody D.length (pairList D))).length < 2 ^ 32 :=
    Nat.lt_of_le_of_lt (box_le_cat (l := tablesList ts hn s es k) (by rw [← hsb]; simp [tablesList])) hl
  have e1 := eats_stts ok F D.length (pairList D) t l1 (table_count _ _ _ 2 (by decide) l1 (Verif.Movie.pairList_length D)) (Verif.Movie.pairList_length D)
    (pairList_mem (by rw [hD]; exact h.stts)) h1
  have e2 : Eats ok F (cat (Verif.Movie.cttsList ts s)) { t with stts := some (D.length :: pairList D) }
      { t with stts := some (D.length :: pairList D), ctts := (cttsEntries (ts s.scale) s.ctts s.w).map fun (cs : List (Nat × Nat)) => cs.length :: pairList cs } := by
    have hl2 : (cat (Verif.Movie.cttsList ts s)).length < 2 ^ 32 := by
      simp only [tablesList, cat_cons, cat_append, List.length_append] at hl; omega
    unfold Verif.Movie.cttsList at hl2 ⊢
    cases hc : cttsEntries (ts s.scale) s.ctts s.w with
    | none => simp only [Option.map_none, cat_nil]; rw [← h2]; exact Eats.nil _ _ _
    | some cs =>
      simp only [hc, cat_one] at hl2
      simp only [Option.map_some, cat_one]
      exact eats_ctts ok F cs.length (pairList cs) { t with stts := some (D.length :: pairList D) } hl2 (table_count _ _ _ 2 (by decide) hl2 (Verif.Movie.pairList_length cs)) (Verif.Movie.pairList_length cs)
        (pairList_mem (h.ctts cs hc)) h2 rfl
  have l3 : (box (fourcc 's' 't' 's' 'c') (tableBody es.length (tripleList es))).length < 2 ^ 32 :=
    Nat.lt_of_le_of_lt (box_le_cat (l := tablesList ts hn s es k) (by simp [tablesList])) hl
  obtain ⟨t2, ht2⟩ : ∃ t2 : TrackRd, t2 = { t with stts := some (D.length :: pairList D), ctts := (cttsEntries (ts s.scale) s.ctts s.w).map fun (cs : List (Nat × Nat)) => cs.length :: pairList cs } := ⟨_, rfl⟩
  rw [← ht2] at e2
  have e3 := eats_stsc ok F es.length (tripleList es) t2 l3 (table_count _ _ _ 3 (by decide) l3 (Verif.Movie.tripleList_length es)) (Verif.Movie.tripleList_length es) (tripleList_mem h.stsc)
    (by rw [ht2]; exact h3)
  obtain ⟨zs, hz, hzl, hz32⟩ := h.stsz
  have l4 : (box (fourcc 's' 't' 's' 'z') (full 0 0 ++ words (0 :: zs.length :: zs))).length < 2 ^ 32 :=
    Nat.lt_of_le_of_lt (box_le_cat (l := tablesList ts hn s es k) (by rw [← hz]; simp [tablesList, Verif.Movie.stszBody])) hl
  have e4 := eats_stsz ok F zs.length zs { t2 with stsc := some (es.length :: tripleList es) } l4 hzl rfl hz32 (by rw [ht2]; exact h4)
  have l5 : (box (fourcc 's' 't' 'c' 'o') (tableBody s.w.chunks.length (s.w.chunks.map fun c => c.position + k))).length < 2 ^ 32 :=
    Nat.lt_of_le_of_lt (box_le_cat (l := tablesList ts hn s es k) (by rw [← stcoBody_table]; simp [tablesList])) hl
  obtain ⟨cs, hcs⟩ : ∃ cs, cs = s.w.chunks.map fun c => c.position + k := ⟨_, rfl⟩
  have hwl : cs.length = 1 * s.w.chunks.length := by rw [hcs, List.length_map, Nat.one_mul]
  have hc32 : ∀ w ∈ cs, w < 2 ^ 32 := by
    intro w hw
    rw [hcs] at hw
    obtain ⟨c, hc, hcw⟩ := List.mem_map.1 hw
    rw [← hcw]
    exact h.stco c hc
  rw [← hcs] at l5
  have e5 := eats_stco ok F s.w.chunks.length cs { t2 with stsc := some (es.length :: tripleList es), stsz := some (0 :: zs.length :: zs) } l5
    (table_count _ _ cs 1 Nat.one_pos l5 hwl) hwl hc32 (by rw [ht2]; exact h5)
  obtain ⟨t5, ht5⟩ : ∃ t5 : TrackRd, t5 = { t2 with stsc := some (es.length :: tripleList es), stsz := some (0 :: zs.length :: zs), stco := some (s.w.chunks.length :: cs) } := ⟨_, rfl⟩
  have e6 : Eats ok F (cat (Verif.Movie.stssList s)) t5 { t5 with stss := stssWords s.w } := by
    have hl6 : (cat (Verif.Movie.stssList s)).length < 2 ^ 32 := by
      simp only [tablesList, cat_cons, cat_append, List.length_append] at hl; omega
    have h6' : t5.stss = none := by rw [ht5, ht2]; exact h6
    have hc := h.stss
    unfold Verif.Movie.stssList at hl6 ⊢
    cases hs : stssWords s.w with
    | none => simp only [cat_nil]; rw [← h6']; exact Eats.nil _ _ _
    | some ws =>
      rw [hs] at hc
      obtain ⟨ns, rfl, hnl, hn32⟩ := hc
      simp only [hs, cat_one] at hl6 ⊢
      have eb : full 0 0 ++ words (ns.length :: ns) = tableBody ns.length ns := by simp [tableBody, words]
      rw [eb] at hl6 ⊢
      exact eats_stss ok F ns.length ns t5 hl6 hnl (by rw [Nat.one_mul]) hn32 h6'
  have hcat : cat (tablesList ts hn s es k) = box (fourcc 's' 't' 't' 's') (tableBody D.length (pairList D)) ++ (cat (Verif.Movie.cttsList ts s) ++ (box (fourcc 's' 't' 's' 'c') (tableBody es.length (tripleList es)) ++
      (box (fourcc 's' 't' 's' 'z') (full 0 0 ++ words (0 :: zs.length :: zs)) ++ (box (fourcc 's' 't' 'c' 'o') (tableBody s.w.chunks.length cs) ++ cat (Verif.Movie.stssList s))))) := by
    simp only [tablesList, hsb, Verif.Movie.stszBody, hz, stcoBody_table, ← hcs, cat_append, cat_cons, cat_nil, List.append_nil, List.append_assoc]
  rw [hcat]
  have := e1.append (e2.append (e3.append (e4.append (e5.append (by rw [ht5] at e6; exact e6)))))
  rw [ht2] at this
  simp only [trackRd, ← hD, hz, ← hcs]
  exact this

/-- The content of a track box, in the order in which the reader goes over it. -/
theorem trak_split (ts hn : Nat → Nat → Nat) (now : Nat) (s : MStream) (es : List (Nat × Nat)) (k : Nat) :
    cat (Verif.Movie.trakList ts hn now s es k) =
      box (fourcc 't' 'k' 'h' 'd') (Verif.Movie.tkhdBody now (s.id + 1) (ts s.mvhdScale s.duration + ts s.mvhdScale s.streamOffset) s.kind.header.1 s.kind.header.2.1 s.kind.header.2.2) ++
      (cat (Verif.Movie.edtsList ts s) ++ ((be 4 (8 + (cat (Verif.Movie.mdiaList ts hn now s es k)).length) ++ be 4 (fourcc 'm' 'd' 'i' 'a')) ++
      (box (fourcc 'm' 'd' 'h' 'd') (Verif.Movie.mdhdBody now s.scale (ts s.scale s.duration) s.lang) ++ (box (fourcc 'h' 'd' 'l' 'r') (Verif.Movie.hdlrBody s.kind.handler) ++
      ((be 4 (8 + (cat (Verif.Movie.minfList ts hn s es k)).length) ++ (be 4 (fourcc 'm' 'i' 'n' 'f') ++ minfHead s (8 + (cat (Verif.Movie.stblList ts hn s es k)).length))) ++ cat (tablesList ts hn s es k)))))) := by
  have e1 : cat (Verif.Movie.minfList ts hn s es k) = minfHead s (8 + (cat (Verif.Movie.stblList ts hn s es k)).length) ++ cat (tablesList ts hn s es k) := by
    rw [Verif.Movie.minfList, Verif.Movie.minfPre, cat_append, cat_one, box_split (fourcc 's' 't' 'b' 'l')]
    rw [minfHead]
    generalize be 4 (8 + (cat (Verif.Movie.stblList ts hn s es k)).length) = Z
    rw [stbl_split]
    generalize be 4 (fourcc 's' 't' 'b' 'l') = Y
    rw [cat_cons, cat_one]
    simp only [List.append_assoc]
  rw [Verif.Movie.trakList, Verif.Movie.trakPre, cat_append, cat_cons, cat_one, box_split (fourcc 'm' 'd' 'i' 'a')]
  generalize be 4 (8 + (cat (Verif.Movie.mdiaList ts hn now s es k)).length) = A
  rw [Verif.Movie.mdiaList, Verif.Movie.mdiaPre, cat_append, cat_cons, cat_one, cat_one, box_split (fourcc 'm' 'i' 'n' 'f')]
  generalize be 4 (8 + (cat (Verif.Movie.minfList ts hn s es k)).length) = B
  rw [e1]
  simp only [List.append_assoc]

theorem handler_lt (kind : Kind) : kind.handler < 2 ^ 32 := by cases kind <;> simp only [Kind.handler] <;> decide

/-- The reader goes over the content of a track. -/
theorem eats_trak (ok : Accept) (F : Nat) (ts hn : Nat → Nat → Nat) (now : Nat) (s : MStream) (es : List (Nat × Nat)) (k : Nat) (config : List UInt8) (f : Fits ts s config) (h : TablesOk ts hn s es k)
    (hok : Accepted ok s.kind s.kid ∧ Accepted ok s.kind none) (hF : 4 ≤ F) (hl : 8 + (cat (Verif.Movie.trakList ts hn now s es k)).length < 2 ^ 32) :
    Eats ok F (cat (Verif.Movie.trakList ts hn now s es k)) {} (trackRd ts hn s es k) := by
  have f1 := f.duration
  have f2 := f.header
  have l1 : (cat (Verif.Movie.mdiaList ts hn now s es k)).length + 8 ≤ (cat (Verif.Movie.trakList ts hn now s es k)).length := by
    have := box_le_cat (ty := fourcc 'm' 'd' 'i' 'a') (b := cat (Verif.Movie.mdiaList ts hn now s es k)) (l := Verif.Movie.trakList ts hn now s es k) (by simp [Verif.Movie.trakList])
    rw [box_length] at this; omega
  have l2 : (cat (Verif.Movie.minfList ts hn s es k)).length + 8 ≤ (cat (Verif.Movie.mdiaList ts hn now s es k)).length := by
    have := box_le_cat (ty := fourcc 'm' 'i' 'n' 'f') (b := cat (Verif.Movie.minfList ts hn s es k)) (l := Verif.Movie.mdiaList ts hn now s es k) (by simp [Verif.Movie.mdiaList])
    rw [box_length] at this; omega
  have l3 : (cat (Verif.Movie.stblList ts hn s es k)).length + 8 ≤ (cat (Verif.Movie.minfList ts hn s es k)).length := by
    have := box_le_cat (ty := fourcc 's' 't' 'b' 'l') (b := cat (Verif.Movie.stblList ts hn s es k)) (l := Verif.Movie.minfList ts hn s es k) (by simp [Verif.Movie.minfList])
    rw [box_length] at this; omega
  have l4 : (minfHead s (8 + (cat (Verif.Movie.stblList ts hn s es k)).length)).length + (cat (tablesList ts hn s es k)).length = (cat (Verif.Movie.minfList ts hn s es k)).length := by
    rw [Verif.Movie.minfList, Verif.Movie.minfPre, cat_append, cat_one, minfHead]
    simp only [cat_cons, cat_nil, List.length_append, box_length, be_length, stbl_split, List.length_nil]
    omega
  rw [trak_split]
  have e1 := eats_tkhd ok F now (s.id + 1) (ts s.mvhdScale s.duration + ts s.mvhdScale s.streamOffset) s.kind.header.1 s.kind.header.2.1 s.kind.header.2.2 {} f.id f1 f2.2.1 f2.2.2
  have e2 := e1.append ((eats_edts ok F ts s _ rfl (by omega)).append ((Eats.inside (8 + (cat (Verif.Movie.mdiaList ts hn now s es k)).length) _ _ (by omega) (by omega) (Or.inl rfl)).append
    ((eats_mdhd ok F now s.scale (ts s.scale s.duration) s.lang _ f.scale f.mediaDuration).append ((eats_hdlr ok F s.kind.handler _ (handler_lt _)).append
      ((eats_minf ok F (8 + (cat (Verif.Movie.minfList ts hn s es k)).length) (8 + (cat (Verif.Movie.stblList ts hn s es k)).length) s config _ f.kind hok hF (by omega) (by omega) (by omega) (by omega) rfl).append
        (eats_tables ok F ts hn s es k _ h (by omega) rfl rfl rfl rfl rfl rfl))))))
  exact e2

/-- A track is read from its box. -/
theorem trackParse_trak (ok : Accept) (F N : Nat) (ts hn : Nat → Nat → Nat) (now : Nat) (s : MStream) (es : List (Nat × Nat)) (k : Nat) (config post : List UInt8) (f : Fits ts s config) (h : TablesOk ts hn s es k)
    (hok : Accepted ok s.kind s.kid ∧ Accepted ok s.kind none) (hN : N < 2 ^ 32) (hF : N ≤ F) (hl : 8 + (cat (Verif.Movie.trakList ts hn now s es k) ++ post).length ≤ N) :
    ∃ h', trackParse ok F N (hdrOf N (fourcc 't' 'r' 'a' 'k') (cat (Verif.Movie.trakList ts hn now s es k)) post) (cat (Verif.Movie.trakList ts hn now s es k) ++ post) = .ok (trackRd ts hn s es k, h', post) := by
  obtain ⟨n, hn', e⟩ := eats_trak ok F ts hn now s es k config f h hok (by omega) (by rw [List.length_append] at hl; omega)
  have hstop : (hdrOf N (fourcc 't' 'r' 'a' 'k') (cat (Verif.Movie.trakList ts hn now s es k)) post).start + (hdrOf N (fourcc 't' 'r' 'a' 'k') (cat (Verif.Movie.trakList ts hn now s es k)) post).size =
      N - post.length := by
    simp only [List.length_append] at hl ⊢; omega
  rw [trackParse, hstop, Nat.mod_eq_of_lt (by omega)]
  obtain ⟨fu, hfu⟩ : ∃ fu, F = fu + 1 + n := ⟨F - n - 1, by rw [List.length_append] at hl; omega⟩
  obtain ⟨h', e'⟩ := e (fu + 1) N (N - post.length) (hdrOf N (fourcc 't' 'r' 'a' 'k') (cat (Verif.Movie.trakList ts hn now s es k)) post) post hN (by omega) (Nat.le_refl _)
  refine ⟨h', ?_⟩
  rw [← hfu] at e'
  rw [e', trackBoxes, if_neg (Nat.lt_irrefl _)]

end Verif.Parse
