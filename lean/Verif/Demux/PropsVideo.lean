import Verif.Demux.PropsNal
import Verif.TsMux.Spec
import Verif.Demux.Lemmas
/-
C98: what `ts2mp4` makes of an access unit.
-/
namespace Verif.Demux
open Spec Fields TsMux.Spec

/-- A unit that carries coded data, not a delimiter or parameter set. -/
def IsData (n : List UInt8) : Prop := unitType n ≠ 9 ∧ unitType n ≠ 7 ∧ unitType n ≠ 8

theorem nalType_eq (n : List UInt8) : nalType n = unitType n := by
  cases n with
  | nil => decide
  | cons b r =>
    have h : ∀ b : Fin 256, (UInt8.ofNat b.val).toNat % 32 = ((Fields.read [1, 2, 5] [UInt8.ofNat b.val]).bind (·[2]?)).getD 0 := by decide +kernel
    have hb := h ⟨b.toNat, b.toNat_lt⟩
    simp only [UInt8.ofNat_toNat] at hb
    have hr : ∃ vs, Fields.read [1, 2, 5] [b] = some vs := by
      obtain ⟨vs, h1, _⟩ := readBits_some [1, 2, 5] (bitsOf [b]) (by rw [bitsOf_length]; exact Nat.le_refl 8)
      exact ⟨vs, h1⟩
    obtain ⟨vs, hvs⟩ := hr
    have h2 : Fields.read [1, 2, 5] (b :: r) = some vs := by
      have := readBits_append [1, 2, 5] (bitsOf [b]) (bitsOf r) vs hvs
      rw [← bitsOf_append] at this
      exact this
    rw [nalType, unitType, h2, ← hvs]
    exact hb

/-- What the program does with a unit, with the type as the standard defines it. -/
theorem nal_eq (v : Video) (n : List UInt8) : v.nal n =
    if unitType n = 9 then v
    else if unitType n = 7 then (if v.sps.length = 0 then { v with sps := v.sps ++ n } else v)
    else if unitType n = 8 then
      (if v.pps.length = 0 then { v with pps := v.pps ++ n, created := some (v.sps, v.pps ++ n) } else v)
    else { v with sample := v.sample ++ pack [(32, n.length)] ++ n } := by
  rw [Video.nal, nalType_eq]

theorem nal_data (v : Video) (n : List UInt8) (h : IsData n) : v.nal n = { v with sample := v.sample ++ (pack [(32, n.length)] ++ n) } := by
  rw [nal_eq, if_neg h.1, if_neg h.2.1, if_neg h.2.2, List.append_assoc]

/-- The state after a list of units: the first parameter sets are kept, the sample has the data units with their lengths. -/
theorem nals_fold (units : List (List UInt8)) : ∀ v : Video,
    (units.foldl Video.nal v).sample = v.sample ++ lengthPrefixed (units.filter (fun n => unitType n ≠ 9 ∧ unitType n ≠ 7 ∧ unitType n ≠ 8)) := by
  induction units with
  | nil => intro v; simp [lengthPrefixed]
  | cons n us ih =>
    intro v
    rw [List.foldl_cons, ih]
    by_cases h : unitType n ≠ 9 ∧ unitType n ≠ 7 ∧ unitType n ≠ 8
    · rw [nal_data v n h, List.filter_cons_of_pos (by simpa using h)]
      simp only [lengthPrefixed, List.flatMap_cons, List.append_assoc]
    · rw [List.filter_cons_of_neg (by simpa using h)]
      congr 1
      rw [nal_eq]
      split
      · rfl
      · split
        · split <;> rfl
        · split
          · split <;> rfl
          · next h1 h2 h3 => exact absurd ⟨h1, h2, h3⟩ h

/-- The parameter sets the stream is created with: the first of each kind. -/
def HasSets (v : Video) (sps pps : List UInt8) : Prop := v.sps = sps ∧ v.pps = pps ∧ v.created = some (sps, pps)

theorem nals_keep (sps pps : List UInt8) (h1 : sps ≠ []) (h2 : pps ≠ []) (units : List (List UInt8)) : ∀ v : Video, HasSets v sps pps →
    HasSets (units.foldl Video.nal v) sps pps := by
  induction units with
  | nil => intro v h; exact h
  | cons n us ih =>
    intro v h
    rw [List.foldl_cons]
    apply ih
    obtain ⟨e1, e2, e3⟩ := h
    rw [nal_eq]
    split
    · exact ⟨e1, e2, e3⟩
    · split
      · rw [if_neg (by rw [e1]; simpa using h1)]; exact ⟨e1, e2, e3⟩
      · split
        · rw [if_neg (by rw [e2]; simpa using h2)]; exact ⟨e1, e2, e3⟩
        · exact ⟨e1, e2, e3⟩

theorem byteStream_annexB (units : List (List UInt8)) : byteStream units = annexB (units.map (fun n => (3, n))) := by
  simp only [byteStream, annexB, List.flatMap_map]
  rfl

/-- C98: an access unit in byte stream format (start codes of three or four bytes) becomes one MP4 sample: its NAL units other than delimiters
and parameter sets, in order, each with its length in front. -/
theorem access_unit_to_sample (v : Video) (hv : v.sample = []) (units : List (Nat × List UInt8)) (hne : units ≠ [])
    (hz : ∀ u ∈ units, u.1 = 2 ∨ u.1 = 3) (hn : ∀ u ∈ units, IsNal u.2) :
    (v.receive (annexB units)).2 =
      some (lengthPrefixed ((units.map (·.2)).filter (fun n => unitType n ≠ 9 ∧ unitType n ≠ 7 ∧ unitType n ≠ 8))) ∧
    (v.receive (annexB units)).1.sample = [] := by
  have h := nal_units_recovered_partial 0 units hne hz hn
  rw [List.replicate_zero, List.nil_append] at h
  rw [Video.receive, h]
  simp only [if_true]
  rw [nals_fold, hv]
  exact ⟨by simp, trivial⟩

/-- C98: the access units the muxer makes of length prefixed samples (delimiter, parameter sets on key frames, data) give back the samples, byte
for byte, and the stream gets the parameter sets of the first key frame, whatever frames follow. -/
theorem remuxed_samples (sps pps : List UInt8) (hs : IsNal sps) (hst : unitType sps = 7) (hp : IsNal pps) (hpt : unitType pps = 8)
    (first : List (List UInt8)) (frames : List (Bool × List (List UInt8)))
    (h : ∀ f ∈ (true, first) :: frames, ∀ n ∈ f.2, IsNal n ∧ IsData n) :
    let out := ((true, first) :: frames).foldl
      (fun (a : Video × List (Option (List UInt8))) f =>
        let r := a.1.receive (byteStream (accessUnit sps pps f.1 f.2)); (r.1, a.2 ++ [r.2])) (Video.init, [])
    out.2 = ((true, first) :: frames).map (fun f => some (lengthPrefixed f.2)) ∧ out.1.created = some (sps, pps) := by
  have one : ∀ (v : Video) (key : Bool) (nals : List (List UInt8)), v.sample = [] → (∀ n ∈ nals, IsNal n ∧ IsData n) →
      (v.receive (byteStream (accessUnit sps pps key nals))).2 = some (lengthPrefixed nals) ∧
      (v.receive (byteStream (accessUnit sps pps key nals))).1.sample = [] ∧
      ((v = Video.init ∧ key = true ∨ HasSets v sps pps) → HasSets (v.receive (byteStream (accessUnit sps pps key nals))).1 sps pps) := by
    intro v key nals hv hn
    have hau : IsNal [0x09, 0xf0] := ⟨by decide, by decide, by decide⟩
    have hall : ∀ n ∈ accessUnit sps pps key nals, IsNal n := by
      intro n hm
      rw [accessUnit] at hm
      simp only [List.mem_append, List.mem_cons, List.not_mem_nil, or_false] at hm
      rcases hm with (rfl | hm) | hm
      · exact hau
      · split at hm
        · simp only [List.mem_cons, List.not_mem_nil, or_false] at hm
          rcases hm with rfl | rfl
          · exact hs
          · exact hp
        · simp at hm
      · exact (hn n hm).1
    have hfil : (accessUnit sps pps key nals).filter (fun n => unitType n ≠ 9 ∧ unitType n ≠ 7 ∧ unitType n ≠ 8) = nals := by
      have hnf : nals.filter (fun n => decide (unitType n ≠ 9 ∧ unitType n ≠ 7 ∧ unitType n ≠ 8)) = nals := by
        rw [List.filter_eq_self]
        intro n hm
        have := (hn n hm).2
        simpa [IsData] using this
      rw [accessUnit, List.filter_append, List.filter_append, hnf]
      have h9 : ([[0x09, 0xf0]] : List (List UInt8)).filter (fun n => decide (unitType n ≠ 9 ∧ unitType n ≠ 7 ∧ unitType n ≠ 8)) = [] := by decide
      rw [h9]
      cases key with
      | false => simp
      | true => simp [hst, hpt]
    have hus := access_unit_to_sample v hv ((accessUnit sps pps key nals).map (fun n => (3, n))) (by simp [accessUnit])
      (by intro u hu; obtain ⟨n, _, rfl⟩ := List.mem_map.mp hu; exact Or.inr rfl)
      (by intro u hu; obtain ⟨n, hm, rfl⟩ := List.mem_map.mp hu; exact hall n hm)
    rw [← byteStream_annexB] at hus
    have hmm : ((accessUnit sps pps key nals).map (fun n => (3, n))).map (·.2) = accessUnit sps pps key nals := by
      rw [List.map_map]; exact List.map_id _
    rw [hmm, hfil] at hus
    refine ⟨hus.1, hus.2, ?_⟩
    intro hcase
    have hsp := nal_units_recovered_partial 0 ((accessUnit sps pps key nals).map (fun n => (3, n))) (by simp [accessUnit])
      (by intro u hu; obtain ⟨n, _, rfl⟩ := List.mem_map.mp hu; exact Or.inr rfl)
      (by intro u hu; obtain ⟨n, hm, rfl⟩ := List.mem_map.mp hu; exact hall n hm)
    rw [List.replicate_zero, List.nil_append, ← byteStream_annexB, hmm] at hsp
    have hk : HasSets ((accessUnit sps pps key nals).foldl Video.nal v) sps pps := by
      rcases hcase with ⟨rfl, rfl⟩ | hset
      · have e : accessUnit sps pps true nals = [0x09, 0xf0] :: sps :: pps :: nals := by simp [accessUnit]
        rw [e, List.foldl_cons, List.foldl_cons, List.foldl_cons]
        apply nals_keep _ _ hs.nonempty hp.nonempty
        have e0 : Video.init.nal [0x09, 0xf0] = Video.init := by decide
        rw [e0]
        have e1 : Video.init.nal sps = { Video.init with sps := sps } := by
          rw [nal_eq, if_neg (by omega), if_pos hst]; simp [Video.init]
        rw [e1, nal_eq, if_neg (by omega), if_neg (by omega), if_pos hpt]
        simp [Video.init, HasSets]
      · exact nals_keep _ _ hs.nonempty hp.nonempty _ v hset
    rw [Video.receive, hsp]
    exact hk
  have key : ∀ (fs : List (Bool × List (List UInt8))) (v : Video) (acc : List (Option (List UInt8))), v.sample = [] → HasSets v sps pps →
      (∀ f ∈ fs, ∀ n ∈ f.2, IsNal n ∧ IsData n) →
      let out := fs.foldl (fun (a : Video × List (Option (List UInt8))) f =>
        let r := a.1.receive (byteStream (accessUnit sps pps f.1 f.2)); (r.1, a.2 ++ [r.2])) (v, acc)
      out.2 = acc ++ fs.map (fun f => some (lengthPrefixed f.2)) ∧ out.1.created = some (sps, pps) := by
    intro fs
    induction fs with
    | nil => intro v acc _ hset _; exact ⟨by simp, hset.2.2⟩
    | cons f fs ih =>
      intro v acc hv hset hf
      obtain ⟨o1, o2, o3⟩ := one v f.1 f.2 hv (hf f (List.mem_cons_self ..))
      have := ih (v.receive (byteStream (accessUnit sps pps f.1 f.2))).1 (acc ++ [(v.receive (byteStream (accessUnit sps pps f.1 f.2))).2]) o2
        (o3 (Or.inr hset)) (fun g hg => hf g (List.mem_cons_of_mem _ hg))
      simp only [List.foldl_cons]
      refine ⟨?_, this.2⟩
      rw [this.1, o1]
      simp
  obtain ⟨o1, o2, o3⟩ := one Video.init true first rfl (h (true, first) (List.mem_cons_self ..))
  have := key frames (Video.init.receive (byteStream (accessUnit sps pps true first))).1
    ([] ++ [(Video.init.receive (byteStream (accessUnit sps pps true first))).2]) o2 (o3 (Or.inl ⟨rfl, rfl⟩))
    (fun g hg => h g (List.mem_cons_of_mem _ hg))
  simp only [List.foldl_cons]
  refine ⟨?_, this.2⟩
  rw [this.1, o1]
  simp

/-- Key frame and following frame: hypotheses met. -/
example : IsNal [0x67, 0x42, 0, 0x1F] ∧ unitType [0x67, 0x42, 0, 0x1F] = 7 ∧ IsNal [0x68, 0xCE] ∧ unitType [0x68, 0xCE] = 8 ∧
    (∀ f ∈ [(true, [[0x65, 1, 2]]), (false, [[0x41, 0, 0, 3], [0x06, 5]])], ∀ n ∈ f.2, IsNal n ∧ IsData n) := by
  refine ⟨⟨by decide, by decide, by decide⟩, by decide, ⟨by decide, by decide, by decide⟩, by decide, ?_⟩
  intro f hf n hn
  simp only [List.mem_cons, List.not_mem_nil, or_false] at hf
  rcases hf with rfl | rfl
  · simp only [List.mem_cons, List.not_mem_nil, or_false] at hn
    subst hn; exact ⟨⟨by decide, by decide, by decide⟩, by decide, by decide, by decide⟩
  · simp only [List.mem_cons, List.not_mem_nil, or_false] at hn
    rcases hn with rfl | rfl <;> exact ⟨⟨by decide, by decide, by decide⟩, by decide, by decide, by decide⟩

/-- Parameter sets that change during the stream are dropped: the stream keeps the first ones, and they are not in the samples either. -/
theorem parameter_change_witness :
    let v := (Video.init.receive (annexB [(3, [0x67, 1]), (3, [0x68, 2]), (3, [0x65, 3])])).1
    v.receive (annexB [(3, [0x67, 9]), (3, [0x68, 8]), (3, [0x65, 4])]) =
      ({ sps := [0x67, 1], pps := [0x68, 2], created := some ([0x67, 1], [0x68, 2]), sample := [] }, some [0, 0, 0, 2, 0x65, 4]) := by
  decide +kernel

end Verif.Demux
