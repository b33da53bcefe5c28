import Verif.Cmdline.Lemmas
import Verif.Strings.Props
import Mathlib.Data.List.Nodup
/-
C107: the values of a command line.
-/
namespace Verif.Cmdline
open Verif.Strings (strstr subString)
open Spec

/-! ### one argument -/

theorem strstr_none (c : Char) : ∀ s : Str, c ∉ s → strstr s [c] = none := by
  intro s
  induction s with
  | nil => intro _; simp [strstr]
  | cons x s ih =>
    intro h
    simp only [List.mem_cons, not_or] at h
    rw [strstr, ih h.2]
    simp [List.isPrefixOf, h.1]

theorem strstr_at (c : Char) (b : Str) : ∀ a : Str, c ∉ a → strstr (a ++ c :: b) [c] = some a.length := by
  intro a
  induction a with
  | nil => intro _; simp [strstr, List.isPrefixOf]
  | cons x a ih =>
    intro h
    simp only [List.mem_cons, not_or] at h
    rw [List.cons_append, strstr, ih h.2]
    simp [List.isPrefixOf, h.1]

theorem sub_eq (s : Str) (b l : Nat) (h : l ≤ s.length + 1 - b) : sub s b l = some ((s.drop b).take l) := by
  rw [sub, subString, if_neg (by omega)]

/-- An option that can be read: its name has neither `:` nor `=` in it, after a single dash it does not begin with another; behind `=` there is no `:`. -/
def Readable : Arg → Prop
  | .word s => s.take 1 ≠ ['-']
  | .opt long name v => ':' ∉ name ∧ '=' ∉ name ∧ (long = false → name.take 1 ≠ ['-']) ∧ ∀ w, v = some (true, w) → ':' ∉ w

theorem dash_length (long : Bool) : (if long then ['-', '-'] else ['-'] : Str).length = if long then 2 else 1 := by cases long <;> rfl

theorem readArg_word (m : Map) (s : Str) (h : Readable (.word s)) : readArg m (Arg.word s).text = some none := by
  rw [Arg.text, readArg, sub_eq s 0 1 (by omega)]
  simp only [Option.bind_eq_bind, Option.bind_some, List.drop_zero]
  rw [if_pos (show s.take 1 ≠ ['-'] from h)]

theorem opt_second (long : Bool) (name tail : Str) (h : long = false → name.take 1 ≠ ['-']) (ht : tail.take 1 ≠ ['-']) :
    (if ((((if long then ['-', '-'] else ['-']) ++ name ++ tail).drop 1).take 1) = ['-'] then 2 else 1) = if long then 2 else 1 := by
  cases long with
  | true => simp
  | false =>
    have hn := h rfl
    cases name with
    | nil => simpa using ht
    | cons c name => simpa using hn

theorem readArg_bare (m : Map) (long : Bool) (name : Str) (h : Readable (.opt long name none)) :
    readArg m (Arg.opt long name none).text = some (some (name, bareValue m name)) := by
  obtain ⟨h1, h2, h3, _⟩ := h
  have ht : (Arg.opt long name none).text = (if long then ['-', '-'] else ['-']) ++ name ++ [] := rfl
  obtain ⟨t, et⟩ : ∃ t, t = (Arg.opt long name none).text := ⟨_, rfl⟩
  have hd : ':' ∉ t ∧ '=' ∉ t := by
    rw [et, ht]; cases long <;> simp [h1, h2]
  have hl : t.length = (if long then 2 else 1) + name.length := by rw [et, ht, List.append_nil, List.length_append, dash_length]
  have hsec := opt_second long name [] h3 (by simp)
  rw [← ht, ← et] at hsec
  have hss : (if long then 2 else 1 : Nat) ≤ t.length ∧ 1 ≤ (if long then 2 else 1 : Nat) := by cases long <;> simp at hl ⊢ <;> omega
  have hdrop : t.drop (if long then 2 else 1) = name := by
    rw [et, ht, List.append_nil, ← dash_length]; exact List.drop_left
  have hfirst : t.take 1 = ['-'] := by rw [et, ht]; cases long <;> simp
  rw [← et, readArg, sub_eq t 0 1 (by omega)]
  simp only [Option.bind_eq_bind, Option.bind_some, List.drop_zero, hfirst, ne_eq, not_true_eq_false, if_false, separator, strstr_none _ _ hd.1, strstr_none _ _ hd.2, Option.or_none]
  rw [sub_eq t 1 1 (by omega)]
  simp only [Option.bind_some, hsec]
  rw [sub_eq t _ _ (by omega)]
  simp only [Option.bind_some, hdrop]
  rw [List.take_of_length_le (by omega)]

theorem readArg_value (m : Map) (long eq : Bool) (name v : Str) (h : Readable (.opt long name (some (eq, v)))) :
    readArg m (Arg.opt long name (some (eq, v))).text = some (some (name, v)) := by
  obtain ⟨h1, h2, h3, h4⟩ := h
  have ht : (Arg.opt long name (some (eq, v))).text = (if long then ['-', '-'] else ['-']) ++ name ++ ((if eq then '=' else ':') :: v) := rfl
  obtain ⟨t, et⟩ : ∃ t, t = (Arg.opt long name (some (eq, v))).text := ⟨_, rfl⟩
  obtain ⟨a, ea⟩ : ∃ a, a = (if long then ['-', '-'] else ['-'] : Str) ++ name := ⟨_, rfl⟩
  have hta : t = a ++ ((if eq then '=' else ':') :: v) := by rw [et, ht, ea]
  have hal : a.length = (if long then 2 else 1) + name.length := by rw [ea, List.length_append, dash_length]
  have had : ':' ∉ a ∧ '=' ∉ a := by rw [ea]; cases long <;> simp [h1, h2]
  have hl : t.length = a.length + (1 + v.length) := by rw [hta, List.length_append, List.length_cons]; omega
  have hsec := opt_second long name ((if eq then '=' else ':') :: v) h3 (by cases eq <;> simp)
  rw [← ht, ← et] at hsec
  have hdrop : t.drop (if long then 2 else 1) = name ++ ((if eq then '=' else ':') :: v) := by
    rw [et, ht, List.append_assoc, ← dash_length]; exact List.drop_left
  have hfirst : t.take 1 = ['-'] := by rw [et, ht]; cases long <;> simp
  have hx : separator t = some a.length := by
    cases eq with
    | false => rw [separator, hta, if_neg (by simp), strstr_at _ _ _ had.1, Option.some_or]
    | true =>
      rw [separator, hta, if_pos rfl, strstr_none, strstr_at _ _ _ had.2, Option.none_or]
      simp only [List.mem_append, List.mem_cons, not_or]
      exact ⟨had.1, by decide, h4 v rfl⟩
  have hb : 1 ≤ (if long then 2 else 1 : Nat) := by cases long <;> simp
  rw [← et, readArg, sub_eq t 0 1 (by omega)]
  simp only [Option.bind_eq_bind, Option.bind_some, List.drop_zero, hfirst, ne_eq, not_true_eq_false, if_false]
  rw [sub_eq t 1 1 (by omega)]
  simp only [Option.bind_some, hsec]
  rw [hx]
  simp only
  rw [sub_eq t _ _ (by omega), sub_eq t _ _ (by omega)]
  simp only [Option.bind_some, hdrop]
  have e1 : (name ++ ((if eq then '=' else ':') :: v)).take (a.length - if long then 2 else 1) = name := List.take_left' (by omega)
  have e2 : t.drop (a.length + 1) = v := by rw [hta, List.drop_append]; simp
  rw [e1, e2, List.take_of_length_le (by omega)]

/-! ### all arguments -/

/-- The values kept under a name. -/
def valuesOf (m : Map) (name : Str) : List Str := ((find m name).map (·.values)).getD []

theorem find_cons (x : Str × Item) (m : Map) (n : Str) : find (x :: m) n = if x.1 = n then some x.2 else find m n := by
  by_cases h : x.1 = n <;> simp [find, h]

theorem find_set_ne : ∀ (m : Map) (k : Str) (j : Item) (n : Str) (i : Item), k ≠ n → find (set m k j) n = some i → find m n = some i := by
  intro m
  induction m with
  | nil => intro k j n i hk hi; rw [set, find_cons, if_neg hk] at hi; exact hi
  | cons y m ihm =>
    intro k j n i hk hi
    rw [set] at hi
    rw [find_cons]
    by_cases e1 : y.1 = k
    · rw [if_pos e1, find_cons, if_neg hk] at hi
      rw [e1, if_neg hk]; exact hi
    · rw [if_neg e1] at hi
      by_cases e2 : less k y.1 = true
      · rw [if_pos e2, find_cons, if_neg hk, find_cons] at hi
        exact hi
      · rw [if_neg e2, find_cons] at hi
        by_cases e3 : y.1 = n
        · rw [if_pos e3] at hi ⊢; exact hi
        · rw [if_neg e3] at hi ⊢; exact ihm k j n i hk hi

/-- The commands are those declared, and others that were given. -/
structure Inv (ds : List Decl) (m : Map) : Prop where
  sorted : Sorted m
  decl : ∀ d ∈ ds, ∃ vs, find m d.name = some ⟨d.kind, d.required, d.short, vs⟩
  other : ∀ n i, find m n = some i → (∃ d ∈ ds, d.name = n) ∨ (i.kind = .string ∧ i.required = false ∧ i.short = some '0' ∧ ∀ d, ¬ isShortcut ds n d)

theorem declare_inv (ds : List Decl) : ∀ m, declare ds = some m → Inv ds m ∧ (ds.map (·.name)).Nodup ∧ ∀ n, valuesOf m n = [] := by
  induction ds with
  | nil =>
    intro m h
    simp only [declare, Option.some.injEq] at h
    subst h
    exact ⟨⟨List.Pairwise.nil, by simp, by simp [find]⟩, by simp, by simp [valuesOf, find]⟩
  | cons d ds ih =>
    intro m h
    rw [declare] at h
    obtain ⟨m0, h0, h1⟩ := Option.bind_eq_some_iff.mp h
    obtain ⟨⟨s0, d0, o0⟩, nd, v0⟩ := ih m0 h0
    rw [add] at h1
    by_cases hf : (find m0 d.name).isSome
    · rw [if_pos hf] at h1; simp at h1
    · rw [if_neg hf] at h1
      simp only [Option.some.injEq] at h1
      have hne : ∀ e ∈ ds, e.name ≠ d.name := by
        intro e he hn
        obtain ⟨vs, hv⟩ := d0 e he
        rw [hn] at hv
        rw [hv] at hf; simp at hf
      have hall : ∀ n i, find m0 n = some i → ∃ e ∈ ds, e.name = n := by
        clear h h1 hf hne nd v0 d0 o0 s0
        clear ih
        revert m0
        induction ds with
        | nil => intro m0 h0 n i hi; simp only [declare, Option.some.injEq] at h0; subst h0; simp [find] at hi
        | cons e ds ih =>
          intro m1 h1 n i hi
          rw [declare] at h1
          obtain ⟨m2, h2, h3⟩ := Option.bind_eq_some_iff.mp h1
          rw [add] at h3
          split at h3
          · simp at h3
          · simp only [Option.some.injEq] at h3
            by_cases hn : e.name = n
            · exact ⟨e, by simp, hn⟩
            · have hmem : ∀ (m : Map) (k : Str) (j : Item) (n : Str) (i : Item), k ≠ n → find (set m k j) n = some i → find m n = some i := by
                exact find_set_ne
              rw [← h3] at hi
              obtain ⟨e', he', hn'⟩ := ih m2 h2 n i (hmem _ _ _ _ _ hn hi)
              exact ⟨e', by simp [he'], hn'⟩
      subst h1
      refine ⟨⟨set_sorted m0 s0 _ _, ?_, ?_⟩, ?_, ?_⟩
      · intro e he
        rw [find_set m0 s0]
        rcases List.mem_cons.mp he with rfl | he
        · exact ⟨[], by rw [if_pos rfl]⟩
        · rw [if_neg (hne e he)]
          exact d0 e he
      · intro n i hi
        left
        rw [find_set m0 s0] at hi
        by_cases hn : n = d.name
        · exact ⟨d, by simp, hn.symm⟩
        · rw [if_neg hn] at hi
          obtain ⟨e, he, hen⟩ := hall n i hi
          exact ⟨e, by simp [he], hen⟩
      · rw [List.map_cons, List.nodup_cons]
        refine ⟨?_, nd⟩
        intro hm
        obtain ⟨e, he, hen⟩ := List.mem_map.mp hm
        exact hne e he hen
      · intro n
        have hv := v0 n
        rw [valuesOf, find_set m0 s0]
        by_cases hn : n = d.name
        · rw [if_pos hn]; rfl
        · rw [if_neg hn]; exact hv

/-- A name that is given once means one thing: it is not `0` (which parameters that are not declared have as their shortcut), and no two commands have it as their shortcut. -/
def Clear (ds : List Decl) (given : Str) : Prop :=
  given ≠ ['0'] ∧ ∀ d e, isShortcut ds given d → isShortcut ds given e → d.name = e.name

theorem target_spec (ds : List Decl) (m : Map) (inv : Inv ds m) (given : Str) (hc : Clear ds given) :
    Inv ds (target m given).1 ∧ (find (target m given).1 (target m given).2).isSome ∧ (∀ k, valuesOf (target m given).1 k = valuesOf m k) ∧
      ∀ name, Means ds given name ↔ name = (target m given).2 := by
  obtain ⟨hs, hdecl, hother⟩ := inv
  rw [target]
  by_cases hf : (find m given).isSome
  · simp only [if_pos hf]
    refine ⟨⟨hs, hdecl, hother⟩, hf, fun _ => trivial, ?_⟩
    obtain ⟨i, hi⟩ := Option.isSome_iff_exists.mp hf
    have hno : ∀ d, ¬ isShortcut ds given d := by
      rcases hother given i hi with ⟨d, hd, hn⟩ | ⟨_, _, _, h⟩
      · intro e he; exact he.2.2 d hd hn
      · exact h
    intro name
    constructor
    · rintro (⟨d, hd, _⟩ | ⟨h, _⟩)
      · exact absurd hd (hno d)
      · exact h.symm
    · intro h; exact Or.inr ⟨h.symm, hno⟩
  · have hfn : find m given = none := by simpa using hf
    have hnd : ∀ e ∈ ds, e.name ≠ given := by
      intro e he hn
      obtain ⟨vs, hv⟩ := hdecl e he
      rw [hn, hfn] at hv; simp at hv
    simp only [hfn, Option.isSome_none, Bool.false_eq_true, if_false]
    rcases ob : byShortcut m given with _ | n
    rotate_left
    · have hb := ob
      simp only
      rcases given with _ | ⟨s, _ | ⟨s', g⟩⟩
      · simp [byShortcut] at hb
      · rw [byShortcut] at hb
        obtain ⟨x, hx, hxn⟩ := Option.map_eq_some_iff.mp hb
        have hxm := List.mem_of_find?_eq_some hx
        have hxs := List.find?_some hx
        simp only [beq_iff_eq] at hxs
        have hfx : find m x.1 = some x.2 := (find_iff m hs x.1 x.2).mpr hxm
        rcases hother x.1 x.2 hfx with ⟨d, hd, hn⟩ | ⟨_, _, h0, _⟩
        · have hd2 : d.short = some s := by
            obtain ⟨vs, hv⟩ := hdecl d hd
            rw [hn, hfx] at hv
            rw [← hxs, Option.some.inj hv]
          have hsc : isShortcut ds [s] d := ⟨⟨s, rfl, hd2⟩, hd, hnd⟩
          refine ⟨⟨hs, hdecl, hother⟩, ?_, fun _ => trivial, ?_⟩
          · rw [← hxn, hfx]; rfl
          · intro name
            constructor
            · rintro (⟨e, he, hen⟩ | ⟨_, h⟩)
              · rw [← hen, ← hxn, ← hn]; exact (hc.2 e d he hsc)
              · exact absurd hsc (h d)
            · intro h; exact Or.inl ⟨d, hsc, by rw [h, ← hxn, hn]⟩
        · rw [hxs] at h0
          exact absurd (by rw [Option.some.inj h0]) hc.1
      · simp [byShortcut] at hb
    · have hb := ob
      simp only
      have hno : ∀ d, ¬ isShortcut ds given d := by
        rintro d ⟨⟨s, hg, hd2⟩, hd, _⟩
        rw [hg, byShortcut] at hb
        simp only [Option.map_eq_none_iff, List.find?_eq_none, beq_iff_eq] at hb
        obtain ⟨vs, hv⟩ := hdecl d hd
        exact hb _ ((find_iff m hs _ _).mp hv) hd2
      refine ⟨⟨set_sorted m hs _ _, ?_, ?_⟩, ?_, ?_, ?_⟩
      · intro d hd
        rw [find_set m hs, if_neg (hnd d hd)]
        exact hdecl d hd
      · intro k i hk
        rw [find_set m hs] at hk
        by_cases e : k = given
        · rw [if_pos e] at hk
          right
          rw [← Option.some.inj hk, e]
          exact ⟨rfl, rfl, rfl, hno⟩
        · rw [if_neg e] at hk; exact hother k i hk
      · rw [find_set m hs, if_pos rfl]; rfl
      · intro k
        rw [valuesOf, find_set m hs]
        by_cases e : k = given
        · rw [if_pos e, valuesOf, e, hfn]; rfl
        · rw [if_neg e]; rfl
      · intro name
        constructor
        · rintro (⟨d, hd, _⟩ | ⟨h, _⟩)
          · exact absurd hd (hno d)
          · exact h.symm
        · intro h; exact Or.inr ⟨h.symm, hno⟩

theorem push_spec (ds : List Decl) (m : Map) (inv : Inv ds m) (name v : Str) (hf : (find m name).isSome) :
    Inv ds (push m name v) ∧ ∀ k, valuesOf (push m name v) k = if k = name then valuesOf m k ++ [v] else valuesOf m k := by
  obtain ⟨i, hi⟩ := Option.isSome_iff_exists.mp hf
  obtain ⟨hs, hdecl, hother⟩ := inv
  have e : push m name v = set m name { i with values := i.values ++ [v] } := by rw [push, hi]
  rw [e]
  refine ⟨⟨set_sorted m hs _ _, ?_, ?_⟩, ?_⟩
  · intro d hd
    rw [find_set m hs]
    obtain ⟨vs, hv⟩ := hdecl d hd
    by_cases h : d.name = name
    · rw [h, hi] at hv
      rw [if_pos h, Option.some.inj hv]
      exact ⟨_, rfl⟩
    · rw [if_neg h]; exact ⟨vs, hv⟩
  · intro k j hk
    rw [find_set m hs] at hk
    by_cases h : k = name
    · rw [if_pos h] at hk
      rw [← Option.some.inj hk, h]
      exact hother name i hi
    · rw [if_neg h] at hk; exact hother k j hk
  · intro k
    rw [valuesOf, find_set m hs]
    by_cases h : k = name
    · rw [if_pos h, if_pos h, valuesOf, h, hi]; rfl
    · rw [if_neg h, if_neg h]; rfl

/-- What is asked of an argument: it can be read, its name is clear, and a switch without value is not given by its shortcut. -/
def Good (ds : List Decl) : Arg → Prop
  | .word s => Readable (.word s)
  | .opt long name v => Readable (.opt long name v) ∧ Clear ds name ∧ (v = none → ∀ d, isShortcut ds name d → d.kind ≠ .bool)

theorem step_opt (ds : List Decl) (hnd : (ds.map (·.name)).Nodup) (m : Map) (inv : Inv ds m) (long : Bool) (given : Str) (v : Option (Bool × Str)) (hg : Good ds (.opt long given v)) :
    ∃ m' name w, step m (Arg.opt long given v).text = some m' ∧ Inv ds m' ∧ (∀ k, Means ds given k ↔ k = name) ∧ (∀ w', givenValue ds name v w' ↔ w' = w) ∧
      ∀ k, valuesOf m' k = if k = name then valuesOf m k ++ [w] else valuesOf m k := by
  obtain ⟨hr, hc, hsw⟩ := hg
  obtain ⟨t1, t2, t3, t4⟩ := target_spec ds m inv given hc
  cases v with
  | some p =>
    obtain ⟨eq, v⟩ := p
    obtain ⟨p1, p2⟩ := push_spec ds _ t1 _ v t2
    refine ⟨_, _, v, ?_, p1, t4, fun w' => Iff.rfl, ?_⟩
    · rw [step, readArg_value m long eq given v hr]
      simp only [Option.bind_eq_bind, Option.bind_some]
    · intro k; rw [p2, t3]
  | none =>
    obtain ⟨w, hw⟩ : ∃ w : Str, w = bareValue m given := ⟨_, rfl⟩
    obtain ⟨p1, p2⟩ := push_spec ds _ t1 _ w t2
    refine ⟨_, _, w, ?_, p1, t4, ?_, ?_⟩
    · rw [step, readArg_bare m long given hr]
      simp only [Option.bind_eq_bind, Option.bind_some, ← hw]
    · intro w'
      have hm : Means ds given (target m given).2 := (t4 _).mpr rfl
      have huniq : ∀ d ∈ ds, ∀ e ∈ ds, d.name = e.name → d = e := by
        intro d hd e he h
        exact (List.inj_on_of_nodup_map hnd) hd he h
      suffices hval : (if ∃ d ∈ ds, d.name = (target m given).2 ∧ d.kind = .bool then ['T'] else [] : Str) = w by
        rw [givenValue, hval]
      rcases hm with ⟨d, hd, hdn⟩ | ⟨hgn, hno⟩
      · have hk := hsw rfl d hd
        have hfn : find m given = none := by
          cases hf : find m given with
          | none => rfl
          | some i =>
            rcases inv.other given i hf with ⟨e, he, hen⟩ | ⟨_, _, _, h⟩
            · exact absurd hen (hd.2.2 e he)
            · exact absurd hd (h d)
        rw [hw, bareValue, hfn, if_neg]
        rintro ⟨e, he, hen, hek⟩
        have := huniq d hd.2.1 e he (hdn.trans hen.symm)
        rw [this] at hk; exact hk hek
      · rw [← hgn]
        by_cases hd : ∃ d ∈ ds, d.name = given
        · obtain ⟨d, hd, hdn⟩ := hd
          obtain ⟨vs, hv⟩ := inv.decl d hd
          rw [hdn] at hv
          rw [hw, bareValue, hv]
          simp only
          by_cases hk : d.kind = .bool
          · rw [if_pos hk, if_pos ⟨d, hd, hdn, hk⟩]
          · rw [if_neg hk, if_neg]
            rintro ⟨e, he, hen, hek⟩
            have := huniq d hd e he (hdn.trans hen.symm)
            rw [this] at hk; exact hk hek
        · rw [if_neg (by rintro ⟨d, h1, h2, _⟩; exact hd ⟨d, h1, h2⟩), hw, bareValue]
          cases hf : find m given with
          | none => rfl
          | some i =>
            rcases inv.other given i hf with h | ⟨h, _⟩
            · exact absurd h hd
            · simp [h]
    · intro k; rw [p2, t3]

theorem steps_spec (ds : List Decl) (hnd : (ds.map (·.name)).Nodup) : ∀ (args : List Arg) (m : Map), Inv ds m → (∀ a ∈ args, Good ds a) →
    ∃ m', steps m (args.map Arg.text) = some m' ∧ Inv ds m' ∧ ∀ name vs, Values ds name args vs ↔ valuesOf m' name = valuesOf m name ++ vs := by
  intro args
  induction args with
  | nil =>
    intro m inv _
    refine ⟨m, rfl, inv, ?_⟩
    intro name vs
    constructor
    · intro h; cases h; simp
    · intro h
      have : vs = [] := by simpa using h
      rw [this]; exact Values.nil
  | cons a args ih =>
    intro m inv hg
    have hga := hg a (by simp)
    cases a with
    | word s =>
      obtain ⟨m', h1, h2, h3⟩ := ih m inv (fun x hx => hg x (by simp [hx]))
      refine ⟨m', ?_, h2, ?_⟩
      · rw [List.map_cons, steps, step, readArg_word m s hga]
        exact h1
      · intro name vs
        rw [← h3]
        constructor
        · intro h; cases h; assumption
        · exact Values.word
    | opt long given v =>
      obtain ⟨m1, name0, w, s1, s2, s3, s4, s5⟩ := step_opt ds hnd m inv long given v hga
      obtain ⟨m', h1, h2, h3⟩ := ih m1 s2 (fun x hx => hg x (by simp [hx]))
      refine ⟨m', ?_, h2, ?_⟩
      · rw [List.map_cons, steps, s1]
        exact h1
      · intro name vs
        constructor
        · intro h
          cases h with
          | other hm hv =>
            have := (h3 name vs).mp hv
            rw [this, s5, if_neg (fun e => hm ((s3 name).mpr e))]
          | this hm hw hv =>
            have hn := (s3 name).mp hm
            have := (h3 name _).mp hv
            rw [hn] at hw
            rw [this, s5, if_pos hn, (s4 _).mp hw, List.append_assoc]
            rfl
        · intro h
          by_cases hn : name = name0
          · have hm : valuesOf m' name = valuesOf m name ++ w :: (valuesOf m' name).drop (valuesOf m1 name).length := by
              obtain ⟨ws, hws⟩ : ∃ ws, valuesOf m' name = valuesOf m1 name ++ ws := by
                clear h3 ih
                have hpre : ∀ (args : List Str) (a b : Map), steps a args = some b → Sorted a → ∀ k, ∃ ws, valuesOf b k = valuesOf a k ++ ws := by
                  intro args
                  induction args with
                  | nil => intro a b h _ k; simp only [steps, Option.some.injEq] at h; exact ⟨[], by rw [h]; simp⟩
                  | cons x args ih =>
                    intro a b h hs k
                    rw [steps] at h
                    obtain ⟨c, hc, hb⟩ := Option.bind_eq_some_iff.mp h
                    have hsc : Sorted c ∧ ∃ ws, valuesOf c k = valuesOf a k ++ ws := by
                      rw [step] at hc
                      obtain ⟨r, _, hr⟩ := Option.bind_eq_some_iff.mp hc
                      cases r with
                      | none => simp only [Option.some.injEq] at hr; rw [← hr]; exact ⟨hs, [], by simp⟩
                      | some p =>
                        obtain ⟨n, v⟩ := p
                        simp only [Option.some.injEq] at hr
                        have ht : Sorted (target a n).1 ∧ ∀ k, valuesOf (target a n).1 k = valuesOf a k := by
                          rw [target]
                          by_cases hf : (find a n).isSome
                          · rw [if_pos hf]; exact ⟨hs, fun _ => rfl⟩
                          · rw [if_neg hf]
                            have hfn : find a n = none := by simpa using hf
                            cases byShortcut a n with
                            | some _ => exact ⟨hs, fun _ => rfl⟩
                            | none =>
                              refine ⟨set_sorted a hs _ _, ?_⟩
                              intro k
                              rw [valuesOf, find_set a hs]
                              by_cases e : k = n
                              · rw [if_pos e, valuesOf, e, hfn]; rfl
                              · rw [if_neg e]; rfl
                        rw [← hr, push]
                        obtain ⟨t1, t2⟩ := ht
                        cases hfi : find (target a n).1 (target a n).2 with
                        | some i =>
                          refine ⟨set_sorted _ t1 _ _, ?_⟩
                          rw [valuesOf, find_set _ t1]
                          by_cases e : k = (target a n).2
                          · rw [if_pos e, ← t2, valuesOf, e, hfi]; exact ⟨[v], rfl⟩
                          · rw [if_neg e, ← t2]; exact ⟨[], by simp [valuesOf]⟩
                        | none =>
                          refine ⟨set_sorted _ t1 _ _, ?_⟩
                          rw [valuesOf, find_set _ t1]
                          by_cases e : k = (target a n).2
                          · rw [if_pos e, ← t2, valuesOf, e, hfi]; exact ⟨[v], rfl⟩
                          · rw [if_neg e, ← t2]; exact ⟨[], by simp [valuesOf]⟩
                    obtain ⟨hsc, ws, hws⟩ := hsc
                    obtain ⟨ws', hws'⟩ := ih c b hb hsc k
                    exact ⟨ws ++ ws', by rw [hws', hws, List.append_assoc]⟩
                exact hpre _ m1 m' h1 s2.sorted name
              rw [hws, List.drop_left, s5, if_pos hn, List.append_assoc]
              rfl
            rw [hm] at h
            have hvs : vs = w :: (valuesOf m' name).drop (valuesOf m1 name).length := (List.append_cancel_left h).symm
            rw [hvs]
            refine Values.this ((s3 name).mpr hn) (by rw [hn]; exact (s4 w).mpr rfl) ((h3 name _).mpr ?_)
            rw [show valuesOf m1 name = valuesOf m name ++ [w] by rw [s5, if_pos hn]] at hm ⊢
            rw [List.append_assoc]
            exact hm
          · refine Values.other (fun hm => hn ((s3 name).mp hm)) ((h3 name vs).mpr ?_)
            rw [s5, if_neg hn]; exact h

/-- C107: whatever is declared and given, the values of every name are those given for it by its name or shortcut, in order: `process` reads the line, and `get_value`,
`get_command_count` and `command_specified` tell the values. -/
theorem values_partial (ds : List Decl) (m : Map) (hd : declare ds = some m) (args : List Arg) (hg : ∀ a ∈ args, Good ds a) :
    ∃ ok msg m', process m (args.map Arg.text) = some (ok, msg, m') ∧ ∀ name, ∃ vs, Values ds name args vs ∧ (∀ ws, Values ds name args ws → ws = vs) ∧
      (∀ idx, getValue m' name idx = vs[idx]?) ∧ count m' name = vs.length ∧ ∀ idx, specified m' name idx = decide (idx < vs.length) := by
  obtain ⟨inv, nd, v0⟩ := declare_inv ds m hd
  obtain ⟨m', h1, h2, h3⟩ := steps_spec ds nd args m inv hg
  have hp : ∃ ok msg, process m (args.map Arg.text) = some (ok, msg, m') := by
    rw [process, h1, Option.map_some]
    cases missing m' <;> exact ⟨_, _, rfl⟩
  obtain ⟨ok, msg, hp⟩ := hp
  refine ⟨ok, msg, m', hp, ?_⟩
  intro name
  refine ⟨valuesOf m' name, (h3 name _).mpr (by rw [v0]; rfl), ?_, ?_, ?_, ?_⟩
  · intro ws hws
    have := (h3 name ws).mp hws
    rw [v0] at this
    exact this.symm
  · intro idx
    rw [getValue, valuesOf]
    cases find m' name <;> rfl
  · rw [count, valuesOf]
    cases find m' name <;> rfl
  · intro idx
    rw [specified, valuesOf]
    cases find m' name <;> simp

end Verif.Cmdline
