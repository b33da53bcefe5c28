import Verif.Cmdline.Props2
/-
C108 for every command line, whatever its arguments are.
-/
namespace Verif.Cmdline
open Verif.Strings (strstr)
open Spec

theorem strstr_le (c : Char) : ∀ (s : Str) (x : Nat), strstr s [c] = some x → x < s.length := by
  intro s
  induction s with
  | nil => intro x h; simp [strstr] at h
  | cons a s ih =>
    intro x h
    rw [strstr] at h
    split at h
    · simp only [Option.some.injEq] at h; simp [← h]
    · obtain ⟨y, hy, rfl⟩ := Option.map_eq_some_iff.mp h
      have := ih y hy
      simp only [List.length_cons]; omega

theorem strstr_pos (c d : Char) (s : Str) (x : Nat) (h : strstr (d :: s) [c] = some x) (hc : c ≠ d) : 1 ≤ x := by
  rw [strstr] at h
  split at h
  · rename_i hp
    simp [List.isPrefixOf, hc] at hp
  · obtain ⟨y, _, rfl⟩ := Option.map_eq_some_iff.mp h
    omega

theorem separator_le (s : Str) (x : Nat) (h : separator s = some x) : x < s.length := by
  rw [separator, Option.or_eq_some_iff] at h
  rcases h with h | ⟨_, h⟩
  · exact strstr_le _ _ _ h
  · exact strstr_le _ _ _ h

theorem separator_ge (s : Str) (x : Nat) (h : separator ('-' :: s) = some x) : 1 ≤ x := by
  rw [separator, Option.or_eq_some_iff] at h
  rcases h with h | ⟨_, h⟩
  · exact strstr_pos _ _ _ _ h (by decide)
  · exact strstr_pos _ _ _ _ h (by decide)

/-- Every argument can be read, whatever it is. -/
theorem readArg_total (m : Map) (s : Str) : ∃ r, readArg m s = some r := by
  rw [readArg, sub_eq s 0 1 (by omega)]
  simp only [Option.bind_eq_bind, Option.bind_some, List.drop_zero]
  by_cases h : s.take 1 = ['-']
  · rw [if_neg (by simp [h])]
    have hl : 1 ≤ s.length := by
      cases s with
      | nil => simp at h
      | cons _ _ => simp
    rw [sub_eq s 1 1 (by omega)]
    simp only [Option.bind_some]
    have hss : (if (s.drop 1).take 1 = ['-'] then 2 else 1) ≤ s.length := by
      split
      · rename_i h2
        have := congrArg List.length h2
        simp only [List.length_take, List.length_drop, List.length_singleton] at this
        omega
      · exact hl
    cases hx : separator s with
    | none =>
      simp only
      rw [sub_eq s _ _ (by omega)]
      exact ⟨_, rfl⟩
    | some x =>
      simp only
      have := separator_le s x hx
      rw [sub_eq s _ (x - _) (by omega), sub_eq s (x + 1) _ (by omega)]
      exact ⟨_, rfl⟩
  · rw [if_pos h]; exact ⟨_, rfl⟩

/-- What holds of the commands after any arguments. -/
structure Kept (ds : List Decl) (m : Map) : Prop where
  sorted : Sorted m
  decl : ∀ d ∈ ds, ∃ vs, find m d.name = some ⟨d.kind, d.required, d.short, vs⟩
  other : ∀ n i, find m n = some i → (∃ d ∈ ds, d.name = n) ∨ i.required = false

theorem push_kept (ds : List Decl) (m : Map) (k : Kept ds m) (name v : Str) : Kept ds (push m name v) := by
  obtain ⟨hs, hdecl, hother⟩ := k
  rw [push]
  cases hi : find m name with
  | some i =>
    refine ⟨set_sorted m hs _ _, ?_, ?_⟩
    · intro d hd
      rw [find_set m hs]
      obtain ⟨vs, hv⟩ := hdecl d hd
      by_cases h : d.name = name
      · rw [h, hi] at hv
        rw [if_pos h, Option.some.inj hv]
        exact ⟨_, rfl⟩
      · rw [if_neg h]; exact ⟨vs, hv⟩
    · intro k j hk
      rw [find_set m hs] at hk
      by_cases h : k = name
      · rw [if_pos h] at hk
        rw [← Option.some.inj hk, h]
        exact hother name i hi
      · rw [if_neg h] at hk; exact hother k j hk
  | none =>
    refine ⟨set_sorted m hs _ _, ?_, ?_⟩
    · intro d hd
      rw [find_set m hs]
      obtain ⟨vs, hv⟩ := hdecl d hd
      rw [if_neg (by intro h; rw [h, hi] at hv; simp at hv)]
      exact ⟨vs, hv⟩
    · intro k j hk
      rw [find_set m hs] at hk
      by_cases h : k = name
      · rw [if_pos h] at hk
        rw [← Option.some.inj hk]
        exact Or.inr rfl
      · rw [if_neg h] at hk; exact hother k j hk

theorem target_kept (ds : List Decl) (m : Map) (k : Kept ds m) (given : Str) : Kept ds (target m given).1 := by
  rw [target]
  split
  · exact k
  · rename_i hf
    have hfn : find m given = none := by simpa using hf
    obtain ⟨hs, hdecl, hother⟩ := k
    split
    · exact ⟨hs, hdecl, hother⟩
    · refine ⟨set_sorted m hs _ _, ?_, ?_⟩
      · intro d hd
        rw [find_set m hs]
        obtain ⟨vs, hv⟩ := hdecl d hd
        rw [if_neg (by intro h; rw [h, hfn] at hv; simp at hv)]
        exact ⟨vs, hv⟩
      · intro k j hk
        rw [find_set m hs] at hk
        by_cases h : k = given
        · rw [if_pos h] at hk
          rw [← Option.some.inj hk]
          exact Or.inr rfl
        · rw [if_neg h] at hk; exact hother k j hk

theorem steps_kept (ds : List Decl) : ∀ (args : List Str) (m : Map), Kept ds m → ∃ m', steps m args = some m' ∧ Kept ds m' := by
  intro args
  induction args with
  | nil => intro m k; exact ⟨m, rfl, k⟩
  | cons a args ih =>
    intro m k
    obtain ⟨r, hr⟩ := readArg_total m a
    rw [steps, step, hr]
    cases r with
    | none => exact ih m k
    | some p =>
      obtain ⟨n, v⟩ := p
      exact ih _ (push_kept ds _ (target_kept ds m k n) _ _)

/-- C108: whatever is on the command line, `process` comes to an end; it returns true exactly if every required command is specified (`command_specified`), and otherwise the message names the first of
those that are not. -/
theorem required_checked (ds : List Decl) (m : Map) (hd : declare ds = some m) (args : List Str) :
    ∃ ok msg m', process m args = some (ok, msg, m') ∧
      (ok = true ↔ ∀ d ∈ ds, d.required = true → specified m' d.name 0 = true) ∧
      (ok = true → msg = []) ∧
      (ok = false → ∃ d ∈ ds, d.required = true ∧ specified m' d.name 0 = false ∧ msg = "missing parameter: ".toList ++ d.name ∧
        ∀ e ∈ ds, e.required = true → specified m' e.name 0 = false → e = d ∨ less d.name e.name = true) := by
  obtain ⟨inv, nd, _⟩ := declare_inv ds m hd
  obtain ⟨m', h1, k⟩ := steps_kept ds args m ⟨inv.sorted, inv.decl, fun n i h => (inv.other n i h).imp_right fun g => g.2.1⟩
  have hval : ∀ d ∈ ds, ∃ vs, find m' d.name = some ⟨d.kind, d.required, d.short, vs⟩ ∧ specified m' d.name 0 = decide (vs ≠ []) := by
    intro d h
    obtain ⟨vs, e⟩ := k.decl d h
    refine ⟨vs, e, ?_⟩
    rw [specified, e]
    cases vs <;> simp
  cases hm : missing m' with
  | none =>
    refine ⟨true, [], m', by rw [process, h1, Option.map_some, hm], ?_, by simp, by simp⟩
    refine ⟨fun _ => ?_, fun _ => rfl⟩
    intro d hdm hr
    obtain ⟨vs, e1, e2⟩ := hval d hdm
    rw [missing, Option.map_eq_none_iff, List.find?_eq_none] at hm
    have := hm _ ((find_iff m' k.sorted _ _).mp e1)
    simp only [hr, Bool.true_and, beq_iff_eq] at this
    rw [e2]
    simpa using this
  | some n =>
    rw [missing] at hm
    obtain ⟨x, hx, hxn⟩ := Option.map_eq_some_iff.mp hm
    have hxm := List.mem_of_find?_eq_some hx
    have hxs := List.find?_some hx
    simp only [Bool.and_eq_true, beq_iff_eq] at hxs
    have hf := (find_iff m' k.sorted x.1 x.2).mpr hxm
    have hdx : ∃ d ∈ ds, d.name = x.1 := by
      rcases k.other _ _ hf with h | h
      · exact h
      · rw [hxs.1] at h; simp at h
    obtain ⟨d, hdm, hdn⟩ := hdx
    obtain ⟨vs, e1, e2⟩ := hval d hdm
    have hxe : x.2 = ⟨d.kind, d.required, d.short, vs⟩ := by rw [hdn, hf] at e1; exact Option.some.inj e1
    have hreq : d.required = true := by rw [hxe] at hxs; exact hxs.1
    have hvs : vs = [] := by rw [hxe] at hxs; exact hxs.2
    have hnil : specified m' d.name 0 = false := by rw [e2, hvs]; rfl
    refine ⟨false, "missing parameter: ".toList ++ n, m', by rw [process, h1, Option.map_some, missing, hx]; simp only [Option.map_some, hxn], ?_, by simp, ?_⟩
    · constructor
      · intro h; simp at h
      · intro h
        have := h d hdm hreq
        rw [hnil] at this
        simp at this
    · intro _
      refine ⟨d, hdm, hreq, hnil, by rw [← hxn, hdn], ?_⟩
      intro e he her hev
      obtain ⟨ws, f1, f2⟩ := hval e he
      have hws : ws = [] := by rw [f2] at hev; simpa using hev
      have hem := (find_iff m' k.sorted _ _).mp f1
      obtain ⟨as, bs, hab, hno⟩ := (List.find?_eq_some_iff_append.mp hx).2
      rw [hab, List.mem_append] at hem
      rcases hem with h | h
      · have := hno _ h
        simp [her, hws] at this
      · rcases List.mem_cons.mp h with h | h
        · left
          exact List.inj_on_of_nodup_map nd he hdm (by rw [hdn, ← h])
        · right
          have hs := k.sorted
          rw [hab, Sorted, List.pairwise_append] at hs
          have := (List.pairwise_cons.mp hs.2.1).1 _ h
          rw [hdn]; exact this

end Verif.Cmdline
