import Verif.Level.Lemmas
/-
C113: decoding times made by the writer.
-/
namespace Verif.Level
open Verif.Tables (SampleDes sub64)
open Spec

/-- Three frames a reordering coder would give: shown at 0, 80, 40. -/
def ipb : LStream := { samples := [⟨0, 0, 10⟩, ⟨80, 0, 10⟩, ⟨40, 0, 10⟩, ⟨120, 0, 10⟩], auto := true }

/-- C113. For every stream whose decoding times the writer computes (times small enough that their sum fits 64 bits):
the samples keep their composition times and sizes in the order they came; the decoding times never decrease; the first is counted
from the earliest presentation; each next one is later by the distance of its sample to the presentation just
before it, so it is really later for every sample but those presented first; with the composition offset no sample is
decoded after it is presented, and no smaller offset would do. -/
theorem auto_decoding (s : LStream) (hne : s.samples ≠ []) (B : Nat) (hB : ∀ x ∈ s.samples, x.composition ≤ B)
    (h64 : (s.samples.length + 1) * B < 2 ^ 64) :
    let r := computeAuto s
    let comps := s.samples.map (·.composition)
    r.samples.map (·.composition) = comps ∧ r.samples.map (·.size) = s.samples.map (·.size) ∧
    r.samples.Pairwise (fun a b => a.decoding ≤ b.decoding) ∧
    (∀ x ∈ r.samples, x.decoding ≤ x.composition + r.ctts) ∧
    (∀ o, (∀ x ∈ r.samples, x.decoding ≤ x.composition + o) → r.ctts ≤ o) ∧
    ∃ m, m ∈ comps ∧ (∀ c ∈ comps, m ≤ c) ∧
      (∀ x, r.samples[0]? = some x → (x.composition = m → x.decoding = m) ∧
        ∀ u, Before comps x.composition u → x.decoding = m + (x.composition - u)) ∧
      ∀ i x y, r.samples[i]? = some x → r.samples[i + 1]? = some y →
        (y.composition = m → y.decoding = x.decoding) ∧
        (y.composition ≠ m → x.decoding < y.decoding) ∧
        ∀ u, Before comps y.composition u → y.decoding = x.decoding + (y.composition - u) := by
  obtain ⟨m, hm, hmin, h1, h2, h3⟩ := computeAuto_eq s hne B hB h64
  have hBlt : B < 2 ^ 64 := by
    have : B ≤ (s.samples.length + 1) * B := Nat.le_mul_of_pos_left _ (by omega)
    omega
  have hS := sorted_sorted (s.samples.map (·.composition))
  have hmem : ∀ x, x ∈ s.samples.map (·.composition) ↔ x ∈ sorted (s.samples.map (·.composition)) :=
    fun x => (sorted_mem _ x).symm
  have hd0 : autoDuration (sorted (s.samples.map (·.composition))) m = 0 :=
    dur_min _ hS m (fun x hx => hmin x ((hmem x).2 hx))
  have hdu : ∀ c u, c ∈ s.samples.map (·.composition) → Before (s.samples.map (·.composition)) c u →
      autoDuration (sorted (s.samples.map (·.composition))) c = c - u := by
    intro c u hc hb
    refine dur_before _ hS c u ((hmem c).1 hc) ?_ (before_mem hmem hb)
    obtain ⟨x, hx, rfl⟩ := List.mem_map.1 hc
    have := hB x hx
    omega
  refine ⟨?_, ?_, ?_, h2, ?_, m, hm, hmin, ?_, ?_⟩
  · rw [h1]; exact stamp_map _ _ (fun _ _ => rfl) _ _
  · rw [h1]; exact stamp_map _ _ (fun _ _ => rfl) _ _
  · rw [h1]; exact stamp_sorted _ _ _
  · intro o ho
    rcases h3 with h3 | ⟨y, hy, h3⟩
    · omega
    · have := ho y hy; omega
  · intro x hx
    rw [h1, stamp_get] at hx
    obtain ⟨z, hz, rfl⟩ := Option.map_eq_some_iff.mp hx
    have hzm : z.composition ∈ s.samples.map (·.composition) := List.mem_map.2 ⟨z, List.mem_of_getElem? hz, rfl⟩
    have ht : s.samples.take (0 + 1) = [z] := by
      cases hs : s.samples with
      | nil => rw [hs] at hz; simp at hz
      | cons a l => rw [hs] at hz; simpa using hz
    rw [ht]
    simp only [List.map_cons, List.map_nil, durs, List.sum_cons, List.sum_nil, Nat.add_zero]
    refine ⟨?_, ?_⟩
    · intro h; rw [h, hd0]; rfl
    · intro u hu; rw [hdu _ u hzm hu]
  · intro i x y hx hy
    rw [h1, stamp_get] at hx hy
    obtain ⟨z, hz, rfl⟩ := Option.map_eq_some_iff.mp hx
    obtain ⟨w, hw, rfl⟩ := Option.map_eq_some_iff.mp hy
    have hwm : w.composition ∈ s.samples.map (·.composition) := List.mem_map.2 ⟨w, List.mem_of_getElem? hw, rfl⟩
    have ht : s.samples.take (i + 1 + 1) = s.samples.take (i + 1) ++ [w] := by
      rw [List.take_add_one, hw]; rfl
    rw [ht]
    simp only [List.map_append, List.map_cons, List.map_nil, durs, List.sum_append, List.sum_cons, List.sum_nil, Nat.add_zero]
    refine ⟨?_, ?_, ?_⟩
    · intro h; rw [h, hd0]; omega
    · intro h
      obtain ⟨u, hu⟩ := before_exists _ w.composition m hm (by have := hmin _ hwm; omega)
      rw [hdu _ u hwm hu]
      have := hu.2.1
      omega
    · intro u hu; rw [hdu _ u hwm hu]; omega

example : (computeAuto ipb).samples.map (·.decoding) = [0, 40, 80, 120] ∧ (computeAuto ipb).ctts = 40 ∧
    ((ipb.samples.length + 1) * 120 < 2 ^ 64) ∧ Before [0, 80, 40, 120] 80 40 := by
  refine ⟨by decide +kernel, by decide +kernel, by decide, by simp, by decide, by decide⟩

/-! ### enough time is counted -/

theorem durs_perm (S : List Nat) {a b : List Nat} (h : a.Perm b) : durs S a = durs S b :=
  List.Perm.sum_nat (h.map _)

/-- When all times up to `v` are among the samples counted, at least the time from the earliest one to `v` is counted. -/
theorem durs_cover (S : List Nat) (hS : S.Pairwise (· ≤ ·)) (m : Nat) (hm : m ∈ S) 
    (h64 : ∀ x ∈ S, x < 2 ^ 64) : ∀ (n v : Nat) (p : List Nat), v ≤ n → v ∈ S → (∀ x ∈ S, x ≤ v → x ∈ p) →
    v ≤ m + durs S p := by
  intro n
  induction n with
  | zero => intro v p hv _ _; omega
  | succ n ih =>
    intro v p hv hvS hp
    rcases Nat.lt_or_ge m v with hlt | hge
    · obtain ⟨u, hu⟩ := before_exists S v m hm hlt
      have hd := dur_before S hS v u hvS (h64 v hvS) hu
      obtain ⟨hu1, hu2, hu3⟩ := hu
      have hvp : v ∈ p := hp v hvS (Nat.le_refl _)
      have hper : p.Perm (v :: p.erase v) := List.perm_cons_erase hvp
      have hi := ih u (p.erase v) (by omega) hu1 (by
        intro x hx hxu
        exact (List.mem_erase_of_ne (by omega)).2 (hp x hx (by omega)))
      rw [durs_perm S hper]
      simp only [durs, List.map_cons, List.sum_cons] at hi ⊢
      omega
    · omega

/-- C113, no composition offset. When the writer finds that no composition offset is needed, every decoding time is
the composition time: leaving out the table of composition offsets loses nothing. -/
theorem auto_no_offset (s : LStream) (hne : s.samples ≠ []) (B : Nat) (hB : ∀ x ∈ s.samples, x.composition ≤ B)
    (h64 : (s.samples.length + 1) * B < 2 ^ 64) (h0 : (computeAuto s).ctts = 0) :
    ∀ x ∈ (computeAuto s).samples, x.decoding = x.composition := by
  obtain ⟨m, hm, hmin, h1, h2, _⟩ := computeAuto_eq s hne B hB h64
  rw [h0] at h2
  have hBlt : B < 2 ^ 64 := by
    have : B ≤ (s.samples.length + 1) * B := Nat.le_mul_of_pos_left _ (by omega)
    omega
  have hS := sorted_sorted (s.samples.map (·.composition))
  have hmem : ∀ x, x ∈ s.samples.map (·.composition) ↔ x ∈ sorted (s.samples.map (·.composition)) :=
    fun x => (sorted_mem _ x).symm
  have hSm : m ∈ sorted (s.samples.map (·.composition)) := (hmem m).1 hm
  have hSmin : ∀ x ∈ sorted (s.samples.map (·.composition)), m ≤ x := fun x hx => hmin x ((hmem x).2 hx)
  have hS64 : ∀ x ∈ sorted (s.samples.map (·.composition)), x < 2 ^ 64 := by
    intro x hx
    obtain ⟨z, hz, rfl⟩ := List.mem_map.1 ((hmem x).2 hx)
    have := hB z hz
    omega
  -- from the end: the samples from `i` on are at their composition time and not before any sample in front of them
  have key : ∀ k, k ≤ s.samples.length → ∀ i z, s.samples.length - k ≤ i → s.samples[i]? = some z →
      m + durs (sorted (s.samples.map (·.composition))) ((s.samples.take (i + 1)).map (·.composition)) = z.composition ∧
      ∀ j w, j ≤ i → s.samples[j]? = some w → w.composition ≤ z.composition := by
    intro k
    induction k with
    | zero =>
      intro _ i z hi hz
      have := (List.getElem?_eq_some_iff.1 hz).1
      omega
    | succ k ih =>
      intro hk i z hi hz
      rcases Nat.lt_or_ge i (s.samples.length - k) with hlt | hge
      · have hi' : i = s.samples.length - (k + 1) := by omega
        have hle : m + durs (sorted (s.samples.map (·.composition))) ((s.samples.take (i + 1)).map (·.composition)) ≤
            z.composition := by
          have hy : (stamp (sorted (s.samples.map (·.composition))) m s.samples)[i]? = some
              ⟨z.composition, m + durs (sorted (s.samples.map (·.composition)))
                ((s.samples.take (i + 1)).map (·.composition)), z.size⟩ := by
            rw [stamp_get, hz]; rfl
          have := h2 _ (by rw [h1]; exact List.mem_of_getElem? hy)
          simpa using this
        have hge : ∀ j w, j ≤ i → s.samples[j]? = some w → w.composition ≤
            m + durs (sorted (s.samples.map (·.composition))) ((s.samples.take (i + 1)).map (·.composition)) := by
          intro j w hj hw
          -- the latest one of those up to `i`
          obtain ⟨M, hM, hMmax⟩ : ∃ M, M ∈ (s.samples.take (i + 1)).map (·.composition) ∧
              ∀ c ∈ (s.samples.take (i + 1)).map (·.composition), c ≤ M := by
            have hne' : (s.samples.take (i + 1)).map (·.composition) ≠ [] := by
              simp [hne]
            generalize (s.samples.take (i + 1)).map (·.composition) = l at hne'
            clear hj hw hle
            induction l with
            | nil => simp at hne'
            | cons a l ihl =>
              by_cases hl : l = []
              · exact ⟨a, by simp, by simp [hl]⟩
              · obtain ⟨M, hM, hmx⟩ := ihl hl
                rcases Nat.lt_or_ge a M with hh | hh
                · exact ⟨M, by simp [hM], by
                    intro c hc
                    rcases List.mem_cons.1 hc with rfl | hc
                    · omega
                    · exact hmx c hc⟩
                · exact ⟨a, by simp, by
                    intro c hc
                    rcases List.mem_cons.1 hc with rfl | hc
                    · omega
                    · have := hmx c hc; omega⟩
          have hMs : M ∈ s.samples.map (·.composition) := by
            obtain ⟨a, ha, rfl⟩ := List.mem_map.1 hM
            exact List.mem_map.2 ⟨a, List.mem_of_mem_take ha, rfl⟩
          have hcov := durs_cover _ hS m hSm hS64 M M ((s.samples.take (i + 1)).map (·.composition)) (Nat.le_refl _)
            ((hmem M).1 hMs) (by
              intro c hc hcM
              obtain ⟨a, ha, rfl⟩ := List.mem_map.1 ((hmem c).2 hc)
              obtain ⟨q, hq⟩ := List.getElem?_of_mem ha
              rcases Nat.lt_or_ge i q with hq' | hq'
              · -- behind: not before any of those in front
                obtain ⟨b, hb, hbM⟩ := List.mem_map.1 hM
                obtain ⟨r, hr⟩ := List.getElem?_of_mem hb
                have hr' : s.samples[r]? = some b := by
                  rw [List.getElem?_take] at hr
                  split at hr
                  · exact hr
                  · simp at hr
                have hri : r ≤ i := by
                  have := (List.getElem?_eq_some_iff.1 hr).1
                  simp only [List.length_take] at this
                  omega
                have := (ih (by omega) q a (by omega) hq).2 r b (by omega) hr'
                have : a.composition = M := by omega
                rw [this]; exact hM
              · refine List.mem_map.2 ⟨a, List.mem_of_getElem? (i := q) ?_, rfl⟩
                rw [List.getElem?_take, if_pos (by omega)]; exact hq)
          have hwM : w.composition ≤ M := hMmax _ (List.mem_map.2 ⟨w, List.mem_of_getElem? (i := j) (by
            rw [List.getElem?_take, if_pos (by omega)]; exact hw), rfl⟩)
          omega
        have heq := hge i z (Nat.le_refl _) hz
        refine ⟨by omega, ?_⟩
        intro j w hj hw
        have := hge j w hj hw
        omega
      · exact ih (by omega) i z hge hz
  intro x hx
  rw [h1] at hx
  obtain ⟨i, hi⟩ := List.getElem?_of_mem hx
  rw [stamp_get] at hi
  obtain ⟨z, hz, rfl⟩ := Option.map_eq_some_iff.mp hi
  exact (key s.samples.length (Nat.le_refl _) i z (by omega) hz).1

example : (computeAuto { samples := [⟨5, 0, 1⟩, ⟨15, 0, 1⟩, ⟨25, 0, 1⟩], auto := true }).ctts = 0 := by decide +kernel

/-! ### the end of the stream -/

theorem durs_count (S : List Nat) (hS : S.Pairwise (· ≤ ·)) (m : Nat) (hm : m ∈ S) (hmin : ∀ x ∈ S, m ≤ x)
    (h64 : ∀ x ∈ S, x < 2 ^ 64) : ∀ (n v : Nat) (p : List Nat), v ≤ n → v ∈ S → p.Nodup →
    (∀ x, x ∈ p ↔ x ∈ S ∧ x ≤ v) → m + durs S p = v := by
  intro n
  induction n with
  | zero =>
    intro v p hv hvS hnd hp
    have hmv : m = 0 := by have := hmin v hvS; omega
    have hpe : p = [0] := by
      have h1 : ∀ x ∈ p, x = 0 := fun x hx => by have := ((hp x).1 hx).2; omega
      have h2 : 0 ∈ p := (hp 0).2 ⟨by rw [← hmv]; exact hm, by omega⟩
      cases p with
      | nil => simp at h2
      | cons a p =>
        have ha := h1 a (by simp)
        subst ha
        cases p with
        | nil => rfl
        | cons b p =>
          have hb := h1 b (by simp)
          subst hb
          simp at hnd
    rw [hpe]
    simp only [durs, List.map_cons, List.map_nil, List.sum_cons, List.sum_nil, Nat.add_zero]
    have := dur_min S hS 0 (fun x _ => Nat.zero_le _)
    omega
  | succ n ih =>
    intro v p hv hvS hnd hp
    have hvp : v ∈ p := (hp v).2 ⟨hvS, Nat.le_refl _⟩
    have hper : p.Perm (v :: p.erase v) := List.perm_cons_erase hvp
    rw [durs_perm S hper]
    simp only [durs, List.map_cons, List.sum_cons]
    rcases Nat.lt_or_ge m v with hlt | hge
    · obtain ⟨u, hu⟩ := before_exists S v m hm hlt
      have hd := dur_before S hS v u hvS (h64 v hvS) hu
      obtain ⟨hu1, hu2, hu3⟩ := hu
      have hi := ih u (p.erase v) (by omega) hu1 (hnd.erase _) (by
        intro x
        rw [hnd.mem_erase_iff, hp]
        constructor
        · rintro ⟨a, b, c⟩; exact ⟨b, hu3 x b (by omega)⟩
        · rintro ⟨a, b⟩; exact ⟨by omega, a, by omega⟩)
      simp only [durs] at hi
      omega
    · have hvm : v = m := by have := hmin v hvS; omega
      have he : p.erase v = [] := by
        rw [List.eq_nil_iff_forall_not_mem]
        intro x hx
        rw [hnd.mem_erase_iff, hp] at hx
        have := hmin x hx.2.1
        omega
      rw [he, hvm, dur_min S hS m hmin]
      simp

/-- C113, the end of the stream. When no two samples are presented at the same time, the last sample is decoded at the time of the
latest presentation: the decoding times span exactly the presentation. -/
theorem auto_span (s : LStream) (B : Nat) (hB : ∀ x ∈ s.samples, x.composition ≤ B)
    (h64 : (s.samples.length + 1) * B < 2 ^ 64) (hnd : (s.samples.map (·.composition)).Nodup) (M : Nat)
    (hM : M ∈ s.samples.map (·.composition)) (hmax : ∀ c ∈ s.samples.map (·.composition), c ≤ M) (x : SampleDes)
    (hx : (computeAuto s).samples.getLast? = some x) : x.decoding = M := by
  have hne : s.samples ≠ [] := by rintro h; simp [h] at hM
  obtain ⟨m, hm, hmin, h1, _⟩ := computeAuto_eq s hne B hB h64
  have hBlt : B < 2 ^ 64 := by
    have : B ≤ (s.samples.length + 1) * B := Nat.le_mul_of_pos_left _ (by omega)
    omega
  have hmem : ∀ x, x ∈ s.samples.map (·.composition) ↔ x ∈ sorted (s.samples.map (·.composition)) :=
    fun x => (sorted_mem _ x).symm
  have hc := durs_count _ (sorted_sorted (s.samples.map (·.composition))) m ((hmem m).1 hm)
    (fun x hx => hmin x ((hmem x).2 hx)) (by
      intro x hx
      obtain ⟨z, hz, rfl⟩ := List.mem_map.1 ((hmem x).2 hx)
      have := hB z hz
      omega) M M (s.samples.map (·.composition)) (Nat.le_refl _) ((hmem M).1 hM) hnd (by
      intro x
      rw [← hmem]
      exact ⟨fun h => ⟨h, hmax x h⟩, fun h => h.1⟩)
  rw [List.getLast?_eq_getElem?, h1, stamp_length, stamp_get] at hx
  obtain ⟨z, hz, rfl⟩ := Option.map_eq_some_iff.mp hx
  have hl : 0 < s.samples.length := List.length_pos_iff.2 hne
  simp only
  rw [List.take_of_length_le (by omega)]
  exact hc

example : (ipb.samples.map (·.composition)).Nodup ∧ 120 ∈ ipb.samples.map (·.composition) ∧
    (computeAuto ipb).samples.getLast?.map (·.decoding) = some 120 := by
  refine ⟨by decide, by decide, by decide +kernel⟩

/-- C113, constant frame rate. When the samples are presented every `d` units in any order of decoding, starting with the one
presented first, they are decoded every `d` units. -/
theorem auto_regular (s : LStream) (m d n : Nat) (hd : 0 < d) (hperm : (s.samples.map (·.composition)).Perm
      ((List.range n).map (fun k => m + k * d))) (h64 : (n + 1) * (m + n * d) < 2 ^ 64)
    (hfirst : (s.samples.map (·.composition)).head? = some m) :
    ∀ i x, (computeAuto s).samples[i]? = some x → x.decoding = m + i * d := by
  have hne : s.samples ≠ [] := by rintro h; simp [h] at hfirst
  have hlen : s.samples.length = n := by have := hperm.length_eq; simpa using this
  have hcm : ∀ c, c ∈ s.samples.map (·.composition) ↔ ∃ k, k < n ∧ m + k * d = c := by
    intro c; rw [hperm.mem_iff]; simp
  have hB : ∀ x ∈ s.samples, x.composition ≤ m + n * d := by
    intro x hx
    obtain ⟨k, hk, he⟩ := (hcm x.composition).1 (List.mem_map.2 ⟨x, hx, rfl⟩)
    have : k * d ≤ n * d := Nat.mul_le_mul_right _ (by omega)
    omega
  obtain ⟨m', hm', hmin', h1, _⟩ := computeAuto_eq s hne (m + n * d) hB (by rw [hlen]; exact h64)
  obtain ⟨_, _, _, _, _, m2, hm2, hmin2, hf0, hstep⟩ := auto_decoding s hne (m + n * d) hB (by rw [hlen]; exact h64)
  have hmm : m2 = m := by
    have h1 : m ∈ s.samples.map (·.composition) := List.mem_of_mem_head? hfirst
    obtain ⟨k, _, hk⟩ := (hcm m2).1 hm2
    have := hmin2 m h1
    omega
  subst hmm
  have hnodup : (s.samples.map (·.composition)).Nodup := by
    rw [hperm.nodup_iff]
    refine List.Nodup.map ?_ List.nodup_range
    intro a b h
    simp only at h
    have : a * d = b * d := by omega
    exact Nat.eq_of_mul_eq_mul_right hd this
  have hcomp : ∀ (i : Nat) (x : SampleDes), (computeAuto s).samples[i]? = some x → (s.samples.map (·.composition))[i]? = some x.composition := by
    intro i x hx
    rw [h1, stamp_get] at hx
    obtain ⟨z, hz, rfl⟩ := Option.map_eq_some_iff.mp hx
    simp [hz]
  intro i
  induction i with
  | zero =>
    intro x hx
    have hc := hcomp 0 x hx
    rw [← List.head?_eq_getElem?, hfirst] at hc
    have := (hf0 x hx).1 (by simpa using hc.symm)
    omega
  | succ i ih =>
    intro y hy
    have hlt := (List.getElem?_eq_some_iff.1 hy).1
    have hx := List.getElem?_eq_getElem (show i < (computeAuto s).samples.length by omega)
    have hxd := ih _ hx
    obtain ⟨_, _, hs3⟩ := hstep i _ y hx hy
    have hc := hcomp (i + 1) y hy
    have hyne : y.composition ≠ m2 := by
      intro h
      rw [h] at hc
      rw [List.head?_eq_getElem?] at hfirst
      have hinj := (List.nodup_iff_injective_get.1 hnodup)
      obtain ⟨g1, g2⟩ := List.getElem?_eq_some_iff.1 hc
      obtain ⟨g3, g4⟩ := List.getElem?_eq_some_iff.1 hfirst
      have := @hinj ⟨i + 1, g1⟩ ⟨0, g3⟩ (by simp only [List.get_eq_getElem]; rw [g2, g4])
      simp at this
    obtain ⟨k, hk, hke⟩ := (hcm y.composition).1 (List.mem_of_getElem? hc)
    have hk0 : 0 < k := by
      rcases Nat.eq_zero_or_pos k with rfl | h
      · simp at hke; omega
      · exact h
    have hb : Before (s.samples.map (·.composition)) y.composition (m2 + (k - 1) * d) := by
      refine ⟨(hcm _).2 ⟨k - 1, by omega, rfl⟩, ?_, ?_⟩
      · rw [← hke]
        have : (k - 1) * d < k * d := Nat.mul_lt_mul_of_pos_right (by omega) hd
        omega
      · intro w hw hwc
        obtain ⟨j, hj, rfl⟩ := (hcm w).1 hw
        rw [← hke] at hwc
        have hjk : j * d < k * d := by omega
        have : j < k := Nat.lt_of_mul_lt_mul_right hjk
        have : j * d ≤ (k - 1) * d := Nat.mul_le_mul_right _ (by omega)
        omega
    rw [hs3 _ hb, hxd, ← hke]
    have : k * d = (k - 1) * d + d := by
      conv => lhs; rw [show k = (k - 1) + 1 by omega]
      rw [Nat.succ_mul]
    rw [Nat.succ_mul]
    omega

example : (ipb.samples.map (·.composition)).Perm ((List.range 4).map (fun k => 0 + k * 40)) ∧
    (ipb.samples.map (·.composition)).head? = some 0 := by decide

/-! ### what is missing -/

/-- Not always later: when the sample presented first is not decoded first (pictures presented before the key picture
that starts the stream), it gets the decoding time of the sample before it. -/
theorem auto_repeated_witness :
    (computeAuto { samples := [⟨80, 0, 1⟩, ⟨0, 0, 1⟩, ⟨40, 0, 1⟩], auto := true }).samples.map (·.decoding) =
      [40, 40, 80] := by decide +kernel

/-- Not the span of the presentation: every further sample with a composition time already seen adds the distance to the
presentation before it once more; five samples within 20 units of time are decoded over 40. -/
theorem auto_duplicate_witness :
    (computeAuto { samples := [⟨0, 0, 1⟩, ⟨10, 0, 1⟩, ⟨10, 0, 1⟩, ⟨10, 0, 1⟩, ⟨20, 0, 1⟩], auto := true }).samples.map
      (·.decoding) = [0, 10, 20, 30, 40] := by decide +kernel

end Verif.Level
