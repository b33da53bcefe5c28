import Verif.FileAsync.Model
import Mathlib.Data.List.Perm.Basic
import Mathlib.Data.List.Nodup
import Mathlib.Data.List.Range

namespace Verif.FileAsync

abbrev seqs (l : List Done) : List Nat := l.map fun d => d.req.seq
abbrev aseqs (l : List Answer) : List Nat := l.map fun a => a.seq

theorem pick_perm {served : Nat} {fwd : List Done} {d f : Done} {rest : List Done} (h : pick served fwd d = some (f, rest)) :
    (f :: rest).Perm (d :: fwd) := by
  unfold pick at h
  split at h
  · split at h
    · cases h
    · rename_i t ht
      cases h
      exact (List.perm_cons_erase (List.mem_of_find?_eq_some ht)).symm
  · cases h; exact List.Perm.refl _

theorem pick_none {served : Nat} {fwd : List Done} {d : Done} (h : pick served fwd d = none) : ∀ x ∈ d :: fwd, served < x.req.seq := by
  unfold pick at h
  split at h
  · split at h
    · rename_i ht
      intro x hx
      have := List.find?_eq_none.1 ht x hx
      simpa using this
    · cases h
  · cases h

theorem pick_le {served : Nat} {fwd : List Done} {d f : Done} {rest : List Done} (hr : d.req.read = true) (h : pick served fwd d = some (f, rest)) :
    f.req.seq ≤ served := by
  unfold pick at h
  split at h
  · split at h
    · cases h
    · rename_i t ht
      cases h
      simpa using List.find?_some ht
  · cases h
    rename_i hn
    simp only [hr, and_true, not_lt] at hn
    exact hn

theorem complete_none {served : Nat} {fwd : List Done} {d : Done} (h : pick served fwd d = none) : complete served fwd d = (served, d :: fwd, []) := by
  unfold complete completeLoop
  rw [h]

theorem complete_last {served : Nat} {fwd : List Done} {d f : Done} (h : pick served fwd d = some (f, [])) :
    complete served fwd d = (served + 1, [], [⟨f.req.seq, f.req.data, d.failed⟩]) := by
  unfold complete completeLoop
  rw [h]

theorem complete_more {served : Nat} {fwd : List Done} {d f t : Done} {rest : List Done} (h : pick served fwd d = some (f, t :: rest)) :
    complete served fwd d = ((complete (served + 1) rest t).1, (complete (served + 1) rest t).2.1,
      ⟨f.req.seq, f.req.data, d.failed⟩ :: (complete (served + 1) rest t).2.2) := by
  have hl : fwd.length = rest.length + 1 := by simpa using (pick_length h).symm
  conv => lhs; unfold complete; rw [hl]; unfold completeLoop
  rw [h]
  rfl

/-- Whatever requests are mixed: nothing is lost or served twice, and afterwards no early read is left whose turn it is. -/
theorem complete_spec : ∀ (n served : Nat) (fwd : List Done) (d : Done), fwd.length = n →
    (complete served fwd d).1 = served + (complete served fwd d).2.2.length ∧
    (aseqs (complete served fwd d).2.2 ++ seqs (complete served fwd d).2.1).Perm (seqs (d :: fwd)) ∧
    (∀ x ∈ (complete served fwd d).2.1, (complete served fwd d).1 < x.req.seq ∧ x ∈ d :: fwd) ∧
    (∀ a ∈ (complete served fwd d).2.2, ∃ x ∈ d :: fwd, a.seq = x.req.seq ∧ a.data = x.req.data) ∧
    ((∀ x ∈ d :: fwd, x.failed = false) → ∀ a ∈ (complete served fwd d).2.2, a.error = false) := by
  intro n
  induction n with
  | zero =>
    intro served fwd d hl
    cases hp : pick served fwd d with
    | none => rw [complete_none hp]; exact ⟨rfl, List.Perm.refl _, fun x hx => ⟨pick_none hp x hx, hx⟩, by simp, by simp⟩
    | some p =>
      obtain ⟨f, rest⟩ := p
      have h1 := pick_length hp
      have h2 := pick_perm hp
      cases rest with
      | cons t rest => simp [hl] at h1
      | nil =>
        rw [complete_last hp]
        refine ⟨rfl, by simpa using h2.map fun d => d.req.seq, by simp, ?_, ?_⟩
        · intro a ha
          simp only [List.mem_singleton] at ha
          exact ⟨f, h2.subset (by simp), by simp [ha], by simp [ha]⟩
        · intro hf a ha
          simp only [List.mem_singleton] at ha
          rw [ha]
          exact hf d (by simp)
  | succ n ih =>
    intro served fwd d hl
    cases hp : pick served fwd d with
    | none => rw [complete_none hp]; exact ⟨rfl, List.Perm.refl _, fun x hx => ⟨pick_none hp x hx, hx⟩, by simp, by simp⟩
    | some p =>
      obtain ⟨f, rest⟩ := p
      have h1 := pick_length hp
      have h2 := pick_perm hp
      cases rest with
      | nil => simp [hl] at h1
      | cons t rest =>
        obtain ⟨a1, a2, a3, a4, a5⟩ := ih (served + 1) rest t (by simp at h1; omega)
        rw [complete_more hp]
        refine ⟨?_, ?_, ?_, ?_, ?_⟩
        · simp only [List.length_cons]; rw [a1]; omega
        · refine List.Perm.trans ?_ (h2.map fun d => d.req.seq)
          simpa using a2
        · intro x hx
          obtain ⟨b1, b2⟩ := a3 x hx
          exact ⟨b1, h2.subset (List.mem_cons_of_mem _ b2)⟩
        · intro a ha
          simp only [List.mem_cons] at ha
          rcases ha with rfl | ha
          · exact ⟨f, h2.subset (by simp), rfl, rfl⟩
          · obtain ⟨x, hx, e⟩ := a4 a ha
            exact ⟨x, h2.subset (List.mem_cons_of_mem _ hx), e⟩
        · intro hf a ha
          simp only [List.mem_cons] at ha
          rcases ha with rfl | ha
          · exact hf d (by simp)
          · exact a5 (fun x hx => hf x (h2.subset (List.mem_cons_of_mem _ hx))) a ha

/-- Reads only: the handlers are called in the order of the numbers. -/
theorem complete_order : ∀ (n served : Nat) (fwd : List Done) (d : Done), fwd.length = n → (∀ x ∈ d :: fwd, x.req.read = true ∧ served ≤ x.req.seq) →
    (seqs (d :: fwd)).Nodup → aseqs (complete served fwd d).2.2 = List.range' served (complete served fwd d).2.2.length := by
  intro n
  induction n with
  | zero =>
    intro served fwd d hl hr hd
    cases hp : pick served fwd d with
    | none => rw [complete_none hp]; rfl
    | some p =>
      obtain ⟨f, rest⟩ := p
      have h1 := pick_length hp
      have h2 := pick_perm hp
      cases rest with
      | cons t rest => simp [hl] at h1
      | nil =>
        rw [complete_last hp]
        have e := pick_le (hr d (by simp)).1 hp
        have e' := (hr f (h2.subset (by simp))).2
        simp only [aseqs, List.map_cons, List.map_nil, List.length_singleton, List.range'_one, List.cons.injEq, and_true]
        omega
  | succ n ih =>
    intro served fwd d hl hr hd
    cases hp : pick served fwd d with
    | none => rw [complete_none hp]; rfl
    | some p =>
      obtain ⟨f, rest⟩ := p
      have h1 := pick_length hp
      have h2 := pick_perm hp
      cases rest with
      | nil => simp [hl] at h1
      | cons t rest =>
        have e := pick_le (hr d (by simp)).1 hp
        have e' := (hr f (h2.subset (by simp))).2
        have hd' : (seqs (f :: t :: rest)).Nodup := ((h2.map fun d => d.req.seq).nodup_iff).2 hd
        have hf : f.req.seq = served := by omega
        have hd2 := List.nodup_cons.1 (show (f.req.seq :: seqs (t :: rest)).Nodup from hd')
        have := ih (served + 1) rest t (by simp at h1; omega) (fun x hx => by
          obtain ⟨r1, r2⟩ := hr x (h2.subset (List.mem_cons_of_mem _ hx))
          refine ⟨r1, ?_⟩
          have : x.req.seq ≠ f.req.seq := fun he => hd2.1 (he ▸ List.mem_map_of_mem (f := fun d => d.req.seq) hx)
          omega) hd2.2
        rw [complete_more hp]
        simp only [aseqs, List.map_cons, List.length_cons, List.range'_succ, hf]
        rw [show List.map (fun a => a.seq) (complete (served + 1) rest t).2.2 = aseqs (complete (served + 1) rest t).2.2 from rfl, this]

/-! ### Histories -/

/-- What holds in every history. -/
structure Inv (s : Sys) : Prop where
  served : s.served = s.answers.length
  perm : (aseqs s.answers ++ (seqs s.fwd ++ s.pending.map fun r => r.seq)).Perm (List.range s.outstanding)
  early : ∀ x ∈ s.fwd, s.served < x.req.seq

theorem Inv.init : Inv .init := ⟨rfl, List.Perm.refl _, by simp [Sys.init]⟩

theorem Inv.step {file : Bytes} {s s' : Sys} {e : Ev} (i : Inv s) (h : step file s e = some s') : Inv s' := by
  have issue : ∀ (r : Req) (p : Nat), r.seq = s.outstanding →
      Inv { s with position := p, outstanding := s.outstanding + 1, pending := r :: s.pending } := by
    intro r p hr
    refine ⟨i.served, ?_, i.early⟩
    have h := i.perm
    simp only [List.map_cons, hr]
    rw [List.range_succ, ← List.append_assoc]
    refine (List.perm_middle).trans ?_
    rw [List.append_assoc]
    exact (List.Perm.cons _ h).trans (List.perm_append_singleton _ _).symm
  cases e with
  | read size => cases h; exact issue _ _ rfl
  | other n => cases h; exact issue _ _ rfl
  | seek p => cases h; exact ⟨i.served, i.perm, i.early⟩
  | complete seq failed =>
    simp only [Verif.FileAsync.step] at h
    split at h
    · cases h
    · rename_i r hr
      cases h
      obtain ⟨a1, a2, a3, _⟩ := complete_spec _ s.served s.fwd ⟨r, failed⟩ rfl
      refine ⟨?_, ?_, fun x hx => (a3 x hx).1⟩
      · simp only [List.length_append]; rw [a1, i.served]
      · refine List.Perm.trans ?_ i.perm
        simp only [aseqs, List.map_append, List.append_assoc]
        refine List.Perm.append_left _ ?_
        rw [← List.append_assoc]
        refine (List.Perm.append_right _ a2).trans ?_
        have hm := List.mem_of_find?_eq_some hr
        have := ((List.perm_cons_erase hm).map fun r => r.seq)
        simp only [seqs, List.map_cons, List.cons_append] at this ⊢
        refine (List.perm_middle).symm.trans ?_
        exact List.Perm.append_left _ this.symm

theorem Inv.run {file : Bytes} : ∀ (es : List Ev) (s s' : Sys), Inv s → run file s es = some s' → Inv s' := by
  intro es
  induction es with
  | nil => intro s s' i h; cases h; exact i
  | cons e es ih =>
    intro s s' i h
    unfold Verif.FileAsync.run at h
    split at h
    · cases h
    · rename_i s1 h1
      exact ih s1 s' (i.step h1) h

/-- C84: in every history of requests of any kinds, completed in any order, no handler is called twice nor for a request that was not made, and when
libuv has completed all requests the handlers of all of them have been called, each once; `_served` is then `_outstanding`, for which `close()` waits. -/
theorem answered_once {file : Bytes} {es : List Ev} {s : Sys} (h : run file .init es = some s) :
    (s.answers.map fun a => a.seq).Nodup ∧ (∀ a ∈ s.answers, a.seq < s.outstanding) ∧
      (s.pending = [] → (s.answers.map fun a => a.seq).Perm (List.range s.outstanding) ∧ s.served = s.outstanding) := by
  have i := Inv.run es _ _ Inv.init h
  have hn : (aseqs s.answers ++ (seqs s.fwd ++ s.pending.map fun r => r.seq)).Nodup := (i.perm.nodup_iff).2 List.nodup_range
  refine ⟨(List.nodup_append.1 hn).1, fun a ha => ?_, fun hp => ?_⟩
  · have : a.seq ∈ List.range s.outstanding := i.perm.subset (List.mem_append_left _ (List.mem_map_of_mem ha))
    simpa using this
  · have hperm := i.perm
    rw [hp, List.map_nil, List.append_nil] at hperm hn
    have hlen : s.answers.length + s.fwd.length = s.outstanding := by
      have := hperm.length_eq
      simpa [aseqs, seqs] using this
    have hf : s.fwd = [] := by
      by_contra hne
      have hsub : seqs s.fwd ⊆ List.range' (s.served + 1) (s.outstanding - s.served - 1) := by
        intro x hx
        obtain ⟨d, hd, rfl⟩ := List.mem_map.1 hx
        have h1 := i.early d hd
        have h2 : d.req.seq ∈ List.range s.outstanding := hperm.subset (List.mem_append_right _ hx)
        simp only [List.mem_range] at h2
        simp only [List.mem_range'_1]
        omega
      have hnd : (seqs s.fwd).Nodup := (List.nodup_append.1 hn).2.1
      have := (List.subperm_of_subset hnd hsub).length_le
      have hpos := List.length_pos_iff.2 hne
      simp only [seqs, List.length_map, List.length_range'] at this
      have := i.served
      omega
    rw [hf] at hperm hlen
    simp only [seqs, List.map_nil, List.append_nil] at hperm
    exact ⟨hperm, by rw [i.served]; simpa using hlen⟩

/-- A history that makes no requests other than reads. -/
def ReadsOnly (es : List Ev) : Prop := ∀ e ∈ es, ∀ n, e ≠ .other n

structure InvR (s : Sys) : Prop extends Inv s where
  order : aseqs s.answers = List.range s.answers.length
  fwdRead : ∀ x ∈ s.fwd, x.req.read = true
  pendRead : ∀ r ∈ s.pending, r.read = true

theorem InvR.init : InvR .init := ⟨Inv.init, rfl, by simp [Sys.init], by simp [Sys.init]⟩

theorem InvR.step {file : Bytes} {s s' : Sys} {e : Ev} (i : InvR s) (he : ∀ n, e ≠ .other n) (h : step file s e = some s') : InvR s' := by
  have j := i.toInv.step h
  cases e with
  | other n => exact absurd rfl (he n)
  | read size =>
    cases h
    refine ⟨j, i.order, i.fwdRead, fun r hr => ?_⟩
    simp only [List.mem_cons] at hr
    rcases hr with rfl | hr
    · rfl
    · exact i.pendRead r hr
  | seek p => cases h; exact ⟨j, i.order, i.fwdRead, i.pendRead⟩
  | complete seq failed =>
    simp only [Verif.FileAsync.step] at h
    split at h
    · cases h
    · rename_i r hr
      cases h
      have hm := List.mem_of_find?_eq_some hr
      obtain ⟨a1, a2, a3, _⟩ := complete_spec _ s.served s.fwd ⟨r, failed⟩ rfl
      have hmem : ∀ x ∈ (⟨r, failed⟩ : Done) :: s.fwd, x.req.read = true := by
        intro x hx
        simp only [List.mem_cons] at hx
        rcases hx with rfl | hx
        · exact i.pendRead r hm
        · exact i.fwdRead x hx
      have hn : (aseqs s.answers ++ (seqs s.fwd ++ s.pending.map fun r => r.seq)).Nodup := (i.perm.nodup_iff).2 List.nodup_range
      have hn2 := List.nodup_append.1 hn
      have hn3 := List.nodup_append.1 hn2.2.1
      have hge : ∀ x ∈ (⟨r, failed⟩ : Done) :: s.fwd, s.served ≤ x.req.seq := by
        intro x hx
        simp only [List.mem_cons] at hx
        rcases hx with rfl | hx
        · have : r.seq ∉ aseqs s.answers := fun hh =>
            hn2.2.2 _ hh _ (List.mem_append_right _ (List.mem_map_of_mem (f := fun r : Req => r.seq) hm)) rfl
          rw [i.order, List.mem_range, ← i.served] at this
          simpa using this
        · exact (i.early x hx).le
      have hnd : (seqs ((⟨r, failed⟩ : Done) :: s.fwd)).Nodup := by
        simp only [seqs, List.map_cons, List.nodup_cons]
        refine ⟨fun hh => hn3.2.2 _ hh _ (List.mem_map_of_mem (f := fun r : Req => r.seq) hm) rfl, hn3.1⟩
      have ho := complete_order _ s.served s.fwd ⟨r, failed⟩ rfl (fun x hx => ⟨hmem x hx, hge x hx⟩) hnd
      refine ⟨j, ?_, fun x hx => hmem x (a3 x hx).2, fun x hx => i.pendRead x (List.mem_of_mem_erase hx)⟩
      simp only [aseqs, List.map_append, List.length_append] at ho ⊢
      rw [ho, show List.map (fun a => a.seq) s.answers = aseqs s.answers from rfl, i.order, i.served, List.range_eq_range', List.range_eq_range']
      have := List.range'_append_1 (s := 0) (m := s.answers.length)
        (n := (complete s.answers.length s.fwd ⟨r, failed⟩).2.2.length)
      rwa [Nat.zero_add] at this

theorem InvR.run {file : Bytes} : ∀ (es : List Ev) (s s' : Sys), InvR s → ReadsOnly es → run file s es = some s' → InvR s' := by
  intro es
  induction es with
  | nil => intro s s' i _ h; cases h; exact i
  | cons e es ih =>
    intro s s' i hr h
    unfold Verif.FileAsync.run at h
    split at h
    · cases h
    · rename_i s1 h1
      exact ih s1 s' (i.step (hr e (by simp)) h1) (fun x hx => hr x (by simp [hx])) h

/-- C84: reads are answered in the order in which they were made, whatever the order in which they are completed, and each as soon as it and all reads
before it are completed: the handlers called are those of the reads 0, …, k-1, where k is the first read that is not completed. -/
theorem reads_in_order {file : Bytes} {es : List Ev} {s : Sys} (hr : ReadsOnly es) (h : run file .init es = some s) :
    ∃ k, (s.answers.map fun a => a.seq) = List.range k ∧ (∀ r ∈ s.pending, k ≤ r.seq) ∧ (k = s.outstanding ∨ ∃ r ∈ s.pending, r.seq = k) := by
  have i := InvR.run es _ _ InvR.init hr h
  have hn : (aseqs s.answers ++ (seqs s.fwd ++ s.pending.map fun r => r.seq)).Nodup := (i.perm.nodup_iff).2 List.nodup_range
  refine ⟨s.answers.length, i.order, fun r hm => ?_, ?_⟩
  · have : r.seq ∉ aseqs s.answers := fun hh =>
      (List.nodup_append.1 hn).2.2 _ hh _ (List.mem_append_right _ (List.mem_map_of_mem (f := fun r : Req => r.seq) hm)) rfl
    rw [i.order, List.mem_range] at this
    omega
  · by_cases hk : s.answers.length < s.outstanding
    · have : s.answers.length ∈ aseqs s.answers ++ (seqs s.fwd ++ s.pending.map fun r => r.seq) := i.perm.symm.subset (by simpa using hk)
      simp only [List.mem_append] at this
      rcases this with h1 | h1 | h1
      · rw [i.order] at h1; simp at h1
      · obtain ⟨d, hd, e⟩ := List.mem_map.1 h1
        have := i.early d hd
        have := i.served
        omega
      · obtain ⟨r, hr, e⟩ := List.mem_map.1 h1
        exact Or.inr ⟨r, hr, e⟩
    · left
      have := i.perm.length_eq
      simp only [List.length_append, aseqs, List.length_map, List.length_range] at this
      omega

end Verif.FileAsync
