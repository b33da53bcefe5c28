import Verif.Slice.Expected
import Verif.H264.PropsSps
/-
C156: picture parameter sets.
-/
namespace Verif.Slice
open Verif.H264 (Parser u flag ue se many opt uePair trailing decodeNal Sequence Reads At reads_ue reads_se reads_flag reads_u reads_opt reads_opt_some reads_opt_none reads_many reads_optional at_init nal_roundtrip_partial zerosLoop bits_length)
open Verif.BitStream (Byte Mem RErr RState rInit nextbits getbits skipbits)
open Verif.H264.Spec
open Spec

theorem reads_groups (g : Spec.Groups) (ok : GroupsOk g) : Reads (groups (minus1 (some g))) (groupBits g) (groupMembers g) := by
  cases g with
  | interleaved a b l =>
    obtain ⟨h1, h2⟩ := ok
    show Reads (groups (l.length + 1)) _ _
    refine Reads.bind (reads_ue 0 (by omega)) ?_
    simp only [if_true]
    rw [if_neg (by omega)]
    have := reads_many (p := ue) ueBits id (a :: b :: l) fun x hx => reads_ue x (h2 x hx)
    rw [List.map_id] at this
    exact Reads.map _ this
  | dispersed n =>
    have : Reads (groups n) (ueBits 1 ++ []) ⟨1, [], [], none, 0, []⟩ := Reads.bind (reads_ue 1 (by omega)) (Reads.pure _)
    rw [List.append_nil] at this
    exact this
  | foreground a l =>
    obtain ⟨h1, h2⟩ := ok
    show Reads (groups (l.length + 1)) _ _
    refine Reads.bind (reads_ue 2 (by omega)) ?_
    simp only [show ¬ (2 = 0) by omega, if_false, if_true]
    rw [if_neg (by omega)]
    have := reads_many (p := uePair) (fun x : Nat × Nat => ueBits x.1 ++ ueBits x.2) id (a :: l) fun x hx =>
      Reads.bind (reads_ue x.1 (h2 x hx).1) (Reads.map _ (reads_ue x.2 (h2 x hx).2))
    rw [List.map_id] at this
    exact Reads.map _ this
  | changing n k d r =>
    obtain ⟨h0, h1, h2, h3, h4⟩ := ok
    refine Reads.bind (reads_ue k (by omega)) ?_
    simp only [show ¬ (k = 0) by omega, show ¬ (k = 2) by omega, if_false]
    rw [if_pos (by omega)]
    exact Reads.bind (reads_flag d) (Reads.map _ (reads_ue r h4))
  | explicit n a l => exact absurd ok (by simp [GroupsOk])

theorem minus1_pos (g : Spec.Groups) (ok : GroupsOk g) : 0 < minus1 (some g) ∧ UOk (minus1 (some g)) := by
  cases g with
  | interleaved a b l => obtain ⟨h1, -⟩ := ok; simp only [minus1, UOk]; omega
  | dispersed n => exact ok
  | foreground a l => obtain ⟨h1, -⟩ := ok; simp only [minus1, UOk]; omega
  | changing n k d r => exact ⟨ok.1, ok.2.1⟩
  | explicit n a l => exact absurd ok (by simp [GroupsOk])

theorem reads_base (p : Spec.Pps) (ok : PpsOk p) : Reads ppsBase (ppsBits p) (ppsMembers p none) := by
  obtain ⟨h1, h2, h3, h4, h5, h6, h7, h8, h9⟩ := ok
  refine Reads.bind (reads_ue _ h1) (Reads.bind (reads_ue _ h2) (Reads.bind (reads_flag _) (Reads.bind (reads_flag _) ?_)))
  have hm : UOk (minus1 p.groups) := by
    cases hg : p.groups with
    | none => simp [minus1, UOk]
    | some g => exact (minus1_pos g (h3 g hg)).2
  refine Reads.bind (reads_ue _ hm) ?_
  refine Reads.bind (v := p.groups.map groupMembers) ?_ ?_
  · cases hg : p.groups with
    | none => exact reads_opt_none
    | some g =>
      have := (minus1_pos g (h3 g hg)).1
      rw [show decide (0 < minus1 (some g)) = true by simpa using this]
      exact reads_opt_some (reads_groups g (h3 g hg))
  refine Reads.bind (reads_ue _ h4) (Reads.bind (reads_ue _ h5) (Reads.bind (reads_flag _) (Reads.bind (reads_u 2 _ (by omega) (by omega) h6) ?_)))
  refine Reads.bind (reads_se _ h7) (Reads.bind (reads_se _ h8) (Reads.bind (reads_se _ h9) (Reads.bind (reads_flag _) (Reads.bind (reads_flag _) ?_))))
  exact Reads.map _ (reads_flag _)

/-- The stop bit, or whatever bit comes next, can be read. -/
theorem trailing_ok (s : RState) (b : List Bool) (hb : b ≠ []) (h : At s b) : ∃ s', trailing s = .ok ((), s') := by
  obtain ⟨x, r, rfl⟩ := List.exists_cons_of_ne_nil hb
  obtain ⟨s', h1, -⟩ := reads_flag x s r h
  exact ⟨_, by simp only [trailing, h1]; rfl⟩

theorem pps_step {size : Nat} {s s1 : RState} {x : Slice.Pps} (h : ppsBase s = .ok (x, s1)) :
    pps size s = (do let e ← opt (extended size s1.tot) ppsExt; trailing; return { x with ext := e } : Parser Slice.Pps) s1 := by
  unfold pps
  simp only [bind, StateT.bind, Except.bind, h, numbits]

/-- The payload of a parameter set without escape bytes is what `decode_nal` gives. -/
theorem nal_payload {nal : List Byte} {p : Spec.Pps} {ext : List Bool} {payload : List Byte} (hn : IsPpsNal nal p ext payload) (h3 : payload.getLast? ≠ some 3) :
    ∃ d, decodeNal nal = some d ∧ d.rbsp.drop 1 = payload := by
  obtain ⟨ref, hr0, hr, hb, rfl⟩ := hn
  exact ⟨_, nal_roundtrip_partial ref 8 hr (by omega) payload h3, rfl⟩

theorem trailing_ne (n : Nat) : trailingBits n ≠ [] := by simp [trailingBits]

theorem all_length (p : Spec.Pps) (ext : List Bool) : (ppsAll p ext).length = 8 * ((ppsBits p ++ ext).length / 8 + 1) := by
  simp only [ppsAll, trailingBits, List.length_append, List.length_cons, List.length_replicate]
  omega

theorem bytes_length {l : List Byte} {b : List Bool} (h : Bytes l b) : b.length = 8 * l.length := by
  subst h
  induction l with
  | nil => rfl
  | cons x l ih => rw [List.flatMap_cons, List.length_append, bits_length, ih, List.length_cons]; omega

/-- C156: the reader of files gives the values of every picture parameter set, with or without an extension of any kind, from the bytes of its NAL unit. The extension is not read. -/
theorem pps_read_partial (p : Spec.Pps) (ok : PpsOk p) (ext : List Bool) (nal payload : List Byte) (hn : IsPpsNal nal p ext payload) (hl : payload.length < 2 ^ 29)
    (h3 : payload.getLast? ≠ some 3) (beyond : Mem) : parsePps false beyond nal = .ok (ppsMembers p none) := by
  obtain ⟨d, hd, hp⟩ := nal_payload hn h3
  obtain ⟨ref, hr0, hr, hb, -⟩ := hn
  obtain ⟨s1, k1, k2, -⟩ := reads_base p ok (rInit payload beyond) _ (at_init payload _ hb hl beyond)
  obtain ⟨s2, t⟩ := trailing_ok s1 _ (by simp [trailingBits]) k2
  have : pps 0 (rInit payload beyond) = .ok (ppsMembers p none, s2) := by
    rw [pps_step k1]
    simp only [extended, ne_eq, not_true_eq_false, decide_false, Bool.false_and, opt, Bool.false_eq_true, if_false, bind, StateT.bind, Except.bind, pure, StateT.pure, Except.pure, t]
    rfl
  simp only [parsePps, hd, hp, Bool.false_eq_true, if_false, this]

/-- C156: printing a decoder configuration (the size is known): right for a parameter set without extension when at least four bits of the last byte belong to the parameter set. -/
theorem pps_print_partial (p : Spec.Pps) (ok : PpsOk p) (nal payload : List Byte) (hn : IsPpsNal nal p [] payload) (hl : payload.length < 2 ^ 29)
    (h3 : payload.getLast? ≠ some 3) (h4 : 4 ≤ (ppsBits p).length % 8) (beyond : Mem) : parsePps true beyond nal = .ok (ppsMembers p none) := by
  obtain ⟨d, hd, hp⟩ := nal_payload hn h3
  obtain ⟨ref, hr0, hr, hb, -⟩ := hn
  have h0 := at_init payload _ hb hl beyond
  obtain ⟨s1, k1, k2, k3⟩ := reads_base p ok (rInit payload beyond) _ h0
  obtain ⟨s2, t⟩ := trailing_ok s1 _ (by simp [trailingBits]) k2
  have htot : s1.tot = (ppsBits p).length := by rw [k2.tot, k3]; simp [rInit]
  have hlen := bytes_length hb
  rw [all_length, List.append_nil] at hlen
  have hext : extended payload.length s1.tot = false := by
    rw [htot]
    simp only [extended, Bool.and_eq_false_iff]
    right
    simp only [decide_eq_false_iff_not]
    omega
  have : pps payload.length (rInit payload beyond) = .ok (ppsMembers p none, s2) := by
    rw [pps_step k1, hext]
    simp only [opt, Bool.false_eq_true, if_false, bind, StateT.bind, Except.bind, pure, StateT.pure, Except.pure, t]
    rfl
  simp only [parsePps, hd, hp, if_true, this]

/-- Nothing but zeros up to the end of the data: the search for the first 1 ends with an exception. -/
theorem zeros_fail : ∀ (k fuel n : Nat) (s : RState), k < fuel → At s (List.replicate k false) → zerosLoop fuel n s = .error .endOfData := by
  intro k
  induction k with
  | zero =>
    intro fuel n s hf hs
    obtain ⟨f, rfl⟩ : ∃ f, fuel = f + 1 := ⟨fuel - 1, by omega⟩
    have hpos := hs.pos
    have hlen := hs.len
    simp only [List.replicate_zero, List.length_nil, Nat.add_zero] at hpos
    have hnext : nextbits s 1 = .error .endOfData := by
      unfold nextbits
      have : ∃ m, Verif.BitStream.tmaskTable[1]? = some m := ⟨_, rfl⟩
      obtain ⟨m, hm⟩ := this
      rw [hm]
      simp only
      rw [if_pos]
      rw [Nat.mod_eq_of_lt (by omega)]
      omega
    simp only [zerosLoop, bind, StateT.bind, Except.bind, u, getbits, hnext]
  | succ k ih =>
    intro fuel n s hf hs
    obtain ⟨f, rfl⟩ : ∃ f, fuel = f + 1 := ⟨fuel - 1, by omega⟩
    have hs' : At s ([false] ++ List.replicate k false) := by rw [List.replicate_succ] at hs; exact hs
    obtain ⟨s', h1, h2, -⟩ := reads_u 1 0 (le_refl _) (by omega) (by omega) s _ hs'
    simp only [zerosLoop, bind, StateT.bind, Except.bind, h1, if_true]
    exact ih f (n + 1) s' (by omega) h2

/-- C156, false: with fewer than four bits in the last byte a parameter set without extension is taken for one with extension, and printing the decoder configuration ends with an exception. Every such parameter set. -/
theorem pps_print_fails (p : Spec.Pps) (ok : PpsOk p) (nal payload : List Byte) (hn : IsPpsNal nal p [] payload) (hl : payload.length < 2 ^ 29)
    (h3 : payload.getLast? ≠ some 3) (h4 : (ppsBits p).length % 8 < 4) (beyond : Mem) : parsePps true beyond nal = .error .endOfData := by
  obtain ⟨d, hd, hp⟩ := nal_payload hn h3
  obtain ⟨ref, hr0, hr, hb, -⟩ := hn
  have h0 := at_init payload _ hb hl beyond
  obtain ⟨s1, k1, k2, k3⟩ := reads_base p ok (rInit payload beyond) _ h0
  have htot : s1.tot = (ppsBits p).length := by rw [k2.tot, k3]; simp [rInit]
  have hlen := bytes_length hb
  rw [all_length, List.append_nil] at hlen
  have hext : extended payload.length s1.tot = true := by
    rw [htot]
    simp only [extended, Bool.and_eq_true, decide_eq_true_eq]
    omega
  obtain ⟨z, hz⟩ : ∃ z, 7 - (ppsBits p ++ []).length % 8 = z + 1 := ⟨6 - (ppsBits p).length % 8, by rw [List.append_nil]; omega⟩
  have k2' : At s1 ([true] ++ ([false] ++ List.replicate z false)) := by
    rw [List.nil_append, trailingBits, hz, List.replicate_succ] at k2
    exact k2
  obtain ⟨s2, a1, a2, -⟩ := reads_flag true s1 _ k2'
  obtain ⟨s3, b1, b2, -⟩ := reads_flag false s2 _ a2
  have hpos := b2.pos
  rw [List.length_replicate] at hpos
  have hz' := zeros_fail z (8 * s3.len + 1) 0 s3 (by omega) b2
  have hue : ue s3 = .error .endOfData := by
    unfold ue
    simp only [bind, StateT.bind, Except.bind, get, getThe, MonadStateOf.get, StateT.get, pure, Except.pure, hz']
  have hse : se s3 = .error .endOfData := by
    unfold se
    simp only [bind, StateT.bind, Except.bind, hue]
  have : pps payload.length (rInit payload beyond) = .error .endOfData := by
    rw [pps_step k1, hext]
    simp only [opt, if_true, ppsExt, bind, StateT.bind, Except.bind, a1, b1, Bool.false_eq_true, if_false, pure, StateT.pure, Except.pure, hse]
  simp only [parsePps, hd, hp, if_true, this]

theorem reads_ext (t : Bool) (c : Int) (hc : SOk c) : Reads ppsExt (extBits t c) ⟨t, false, c⟩ := by
  refine Reads.bind (reads_flag t) (Reads.bind (reads_flag false) ?_)
  have := Reads.bind (b := []) (f := fun _ => (do let s ← se; return ⟨t, false, s⟩ : Parser Slice.Ext)) (reads_opt_none (p := scalingLists (6 + 2 * t.toNat) 0)) (Reads.map _ (reads_se c hc))
  exact this

theorem ext_length (t : Bool) (c : Int) : 3 ≤ (extBits t c).length ∧ ((extBits t c).length = 3 ↔ c = 0) := by
  have : (extBits t c).length = 2 + (seBits c).length := by simp only [extBits, flagBits, List.length_append, List.length_singleton]; omega
  rw [this]
  have hl : (seBits c).length = 2 * Nat.log2 ((if 0 < c then 2 * c.toNat - 1 else 2 * (-c).toNat) + 1) + 1 := by
    simp only [seBits, ueBits, List.length_append, List.length_replicate, bits_length]; omega
  rw [hl]
  refine ⟨by omega, ?_⟩
  constructor
  · intro h
    have h0 : Nat.log2 ((if 0 < c then 2 * c.toNat - 1 else 2 * (-c).toNat) + 1) = 0 := by omega
    have := Nat.lt_log2_self (n := (if 0 < c then 2 * c.toNat - 1 else 2 * (-c).toNat) + 1)
    rw [h0] at this
    split at this <;> omega
  · rintro rfl
    rfl

/-- C156: with extension (without scaling matrix) printing finds its values, except when the extension is its shortest form and begins in the middle of a byte: then it is not noticed. -/
theorem pps_print_ext_partial (p : Spec.Pps) (ok : PpsOk p) (t : Bool) (c : Int) (hc : SOk c) (nal payload : List Byte) (hn : IsPpsNal nal p (extBits t c) payload) (hl : payload.length < 2 ^ 29)
    (h3 : payload.getLast? ≠ some 3) (beyond : Mem) :
    parsePps true beyond nal = .ok (ppsMembers p (if c = 0 ∧ (ppsBits p).length % 8 = 4 then none else some ⟨t, false, c⟩)) := by
  obtain ⟨d, hd, hp⟩ := nal_payload hn h3
  obtain ⟨ref, hr0, hr, hb, -⟩ := hn
  have h0 := at_init payload _ hb hl beyond
  obtain ⟨s1, k1, k2, k3⟩ := reads_base p ok (rInit payload beyond) _ h0
  have htot : s1.tot = (ppsBits p).length := by rw [k2.tot, k3]; simp [rInit]
  have hlen := bytes_length hb
  rw [all_length, List.length_append] at hlen
  obtain ⟨e3, e0⟩ := ext_length t c
  have hext : extended payload.length s1.tot = !decide (c = 0 ∧ (ppsBits p).length % 8 = 4) := by
    rw [htot]
    by_cases h : c = 0 ∧ (ppsBits p).length % 8 = 4
    · have e := e0.mpr h.1
      simp only [h, and_self, decide_true, Bool.not_true, extended, Bool.and_eq_false_iff]
      right
      simp only [decide_eq_false_iff_not]
      omega
    · simp only [h, decide_false, Bool.not_false, extended, Bool.and_eq_true, decide_eq_true_eq]
      refine ⟨by omega, ?_⟩
      by_cases hc0 : c = 0
      · have e := e0.mpr hc0
        have : (ppsBits p).length % 8 ≠ 4 := fun h' => h ⟨hc0, h'⟩
        omega
      · have : (extBits t c).length ≠ 3 := fun h' => hc0 (e0.mp h')
        omega
  by_cases h : c = 0 ∧ (ppsBits p).length % 8 = 4
  · obtain ⟨s2, tt⟩ := trailing_ok s1 _ (by simp [trailingBits]) k2
    have : pps payload.length (rInit payload beyond) = .ok (ppsMembers p none, s2) := by
      rw [pps_step k1, hext]
      simp only [h, and_self, decide_true, Bool.not_true, opt, Bool.false_eq_true, if_false, bind, StateT.bind, Except.bind, pure, StateT.pure, Except.pure, tt]
      rfl
    simp only [parsePps, hd, hp, if_true, this, h, and_self]
  · obtain ⟨s2, x1, x2, -⟩ := reads_ext t c hc s1 _ k2
    obtain ⟨s3, tt⟩ := trailing_ok s2 _ (trailing_ne _) x2
    have : pps payload.length (rInit payload beyond) = .ok (ppsMembers p (some ⟨t, false, c⟩), s3) := by
      rw [pps_step k1, hext]
      simp only [h, decide_false, Bool.not_false, opt, if_true, bind, StateT.bind, Except.bind, pure, StateT.pure, Except.pure, x1, tt]
      rfl
    simp only [parsePps, hd, hp, if_true, this, h, if_false]

end Verif.Slice
