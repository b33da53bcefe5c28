import Verif.Cmdline.Props
/-
C108: required parameters. C109: numbers and switches. Examples with the commands of `mg` itself.
-/
namespace Verif.Cmdline
open Spec

/-! ### required parameters -/

theorem values_of_process (ds : List Decl) (m : Map) (hd : declare ds = some m) (args : List Arg) (hg : ∀ a ∈ args, Good ds a) :
    ∃ m', steps m (args.map Arg.text) = some m' ∧ Inv ds m' ∧ (ds.map (·.name)).Nodup ∧ ∀ name vs, Values ds name args vs ↔ valuesOf m' name = vs := by
  obtain ⟨inv, nd, v0⟩ := declare_inv ds m hd
  obtain ⟨m', h1, h2, h3⟩ := steps_spec ds nd args m inv hg
  exact ⟨m', h1, h2, nd, fun name vs => by rw [h3, v0]; rfl⟩

/-- C108: `process` is satisfied exactly if every required command has a value; otherwise the message names the first of those that have none. -/
theorem required_partial (ds : List Decl) (m : Map) (hd : declare ds = some m) (args : List Arg) (hg : ∀ a ∈ args, Good ds a) :
    ∃ ok msg m', process m (args.map Arg.text) = some (ok, msg, m') ∧
      (ok = true ↔ ∀ d ∈ ds, d.required = true → ∃ v vs, Values ds d.name args (v :: vs)) ∧
      (ok = true → msg = []) ∧
      (ok = false → ∃ d ∈ ds, d.required = true ∧ Values ds d.name args [] ∧ msg = "missing parameter: ".toList ++ d.name ∧
        ∀ e ∈ ds, e.required = true → Values ds e.name args [] → e = d ∨ less d.name e.name = true) := by
  obtain ⟨m', h1, inv, nd, hv⟩ := values_of_process ds m hd args hg
  have hval : ∀ d ∈ ds, ∃ vs, find m' d.name = some ⟨d.kind, d.required, d.short, vs⟩ ∧ valuesOf m' d.name = vs := by
    intro d h
    obtain ⟨vs, e⟩ := inv.decl d h
    exact ⟨vs, e, by rw [valuesOf, e]; rfl⟩
  cases hm : missing m' with
  | none =>
    refine ⟨true, [], m', by rw [process, h1, Option.map_some, hm], ?_, by simp, by simp⟩
    refine ⟨fun _ => ?_, fun _ => rfl⟩
    intro d hdm hr
    obtain ⟨vs, e1, e2⟩ := hval d hdm
    rw [missing, Option.map_eq_none_iff, List.find?_eq_none] at hm
    have := hm _ ((find_iff m' inv.sorted _ _).mp e1)
    simp only [hr, Bool.true_and, beq_iff_eq] at this
    cases vs with
    | nil => exact absurd rfl this
    | cons v vs => exact ⟨v, vs, (hv _ _).mpr e2⟩
  | some n =>
    rw [missing] at hm
    obtain ⟨x, hx, hxn⟩ := Option.map_eq_some_iff.mp hm
    have hxm := List.mem_of_find?_eq_some hx
    have hxs := List.find?_some hx
    simp only [Bool.and_eq_true, beq_iff_eq] at hxs
    have hf := (find_iff m' inv.sorted x.1 x.2).mpr hxm
    have hdx : ∃ d ∈ ds, d.name = x.1 := by
      rcases inv.other _ _ hf with h | ⟨_, h, _⟩
      · exact h
      · rw [hxs.1] at h; simp at h
    obtain ⟨d, hdm, hdn⟩ := hdx
    obtain ⟨vs, e1, e2⟩ := hval d hdm
    have hxe : x.2 = ⟨d.kind, d.required, d.short, vs⟩ := by rw [hdn, hf] at e1; exact Option.some.inj e1
    have hreq : d.required = true := by rw [hxe] at hxs; exact hxs.1
    have hvs : vs = [] := by rw [hxe] at hxs; exact hxs.2
    have hnil : Values ds d.name args [] := (hv _ _).mpr (by rw [e2, hvs])
    refine ⟨false, "missing parameter: ".toList ++ n, m', by rw [process, h1, Option.map_some, missing, hx]; simp only [Option.map_some, hxn], ?_, by simp, ?_⟩
    · constructor
      · intro h; simp at h
      · intro h
        obtain ⟨v, ws, hw⟩ := h d hdm hreq
        rw [hv, e2, hvs] at hw
        simp at hw
    · intro _
      refine ⟨d, hdm, hreq, hnil, by rw [← hxn, hdn], ?_⟩
      intro e he her hev
      obtain ⟨ws, f1, f2⟩ := hval e he
      have hws : ws = [] := by rw [hv, f2] at hev; exact hev
      have hem := (find_iff m' inv.sorted _ _).mp f1
      obtain ⟨as, bs, hab, hno⟩ := (List.find?_eq_some_iff_append.mp hx).2
      rw [hab, List.mem_append] at hem
      rcases hem with h | h
      · have := hno _ h
        simp [her, hws] at this
      · rcases List.mem_cons.mp h with h | h
        · left
          exact List.inj_on_of_nodup_map nd he hdm (by rw [hdn, ← h])
        · right
          have hs := inv.sorted
          rw [hab, Sorted, List.pairwise_append] at hs
          have := (List.pairwise_cons.mp hs.2.1).1 _ h
          rw [hdn]; exact this

/-! ### numbers -/

theorem digit_iff (c : Char) : (Strings.Spec.digit c).isSome ↔ '0' ≤ c ∧ c ≤ '9' := by
  rw [Strings.Spec.digit]; split <;> simp_all

theorem digits_spec (rest : Str) (hr : ∀ c, rest.head? = some c → Strings.Spec.digit c = none) : ∀ (ds : Str) (acc k : Nat), Strings.Spec.digits acc ds = some k → digits acc (ds ++ rest) = k := by
  intro ds
  induction ds with
  | nil =>
    intro acc k h
    simp only [Strings.Spec.digits, Option.some.injEq] at h
    rw [List.nil_append, ← h]
    cases rest with
    | nil => rfl
    | cons c cs =>
      have := hr c rfl
      rw [digits, if_neg]
      rw [← digit_iff, this]; simp
  | cons c ds ih =>
    intro acc k h
    rw [Strings.Spec.digits] at h
    obtain ⟨d, hd, h⟩ := Option.bind_eq_some_iff.mp h
    have hc : '0' ≤ c ∧ c ≤ '9' := by rw [← digit_iff, hd]; rfl
    have hdv : d = c.toNat - 48 := by
      rw [Strings.Spec.digit, if_pos hc] at hd
      exact (Option.some.inj hd).symm
    rw [List.cons_append, digits, if_pos hc, ← hdv, show 10 * acc + d = acc * 10 + d by omega]
    exact ih _ _ h

theorem spec_digits_all : ∀ (ds : Str) (acc : Nat), (∀ c ∈ ds, '0' ≤ c ∧ c ≤ '9') → ∃ k, Strings.Spec.digits acc ds = some k := by
  intro ds
  induction ds with
  | nil => intro acc _; exact ⟨acc, rfl⟩
  | cons c ds ih =>
    intro acc h
    have hc := h c (by simp)
    rw [Strings.Spec.digits, Strings.Spec.digit, if_pos hc, Option.bind_some]
    exact ih _ (fun c hc => h c (by simp [hc]))

theorem dropWhile_space (space s : Str) (h : ∀ c ∈ space, Strings.isSpace c = true) (hs : ∀ c, s.head? = some c → Strings.isSpace c = false) :
    (space ++ s).dropWhile Strings.isSpace = s := by
  induction space with
  | nil =>
    cases s with
    | nil => rfl
    | cons c s => rw [List.nil_append, List.dropWhile_cons, if_neg]; rw [hs c rfl]; simp
  | cons c space ih =>
    rw [List.cons_append, List.dropWhile_cons, if_pos (h c (by simp))]
    exact ih (fun c hc => h c (by simp [hc]))

theorem digit_not (c : Char) (h : '0' ≤ c ∧ c ≤ '9') : Strings.isSpace c = false ∧ c ≠ '-' ∧ c ≠ '+' := by
  obtain ⟨h1, h2⟩ := h
  have h1' : 48 ≤ c.toNat := h1
  have h2' : c.toNat ≤ 57 := h2
  refine ⟨?_, ?_, ?_⟩
  · rw [Strings.isSpace]
    simp only [Bool.or_eq_false_iff, decide_eq_false_iff_not]
    refine ⟨⟨⟨⟨⟨?_, ?_⟩, ?_⟩, ?_⟩, ?_⟩, ?_⟩ <;> (rintro rfl; revert h1'; decide)
  · rintro rfl; revert h1'; decide
  · rintro rfl; revert h1'; decide

/-- The number that is kept of `n`: the nearest 64-bit one. -/
def clamp (n : Int) : Int := max (min n (2 ^ 63 - 1)) (-2 ^ 63)

theorem toInt64_of (s : Str) (n : Int) (h : Number s n) : toInt64 s = some (clamp n) := by
  obtain ⟨space, sign, ds, rest, k, rfl, hsp, hk, hrest, hsign⟩ := h
  rw [Strings.Spec.decimal] at hk
  cases ds with
  | nil => simp at hk
  | cons c ds =>
    rw [if_neg (by simp)] at hk
    have hc : '0' ≤ c ∧ c ≤ '9' := by
      rw [Strings.Spec.digits] at hk
      obtain ⟨d, hd, _⟩ := Option.bind_eq_some_iff.mp hk
      rw [← digit_iff, hd]; rfl
    have hdig := digits_spec rest hrest (c :: ds) 0 k hk
    obtain ⟨n1, n2, n3⟩ := digit_not c hc
    rw [toInt64]
    rcases hsign with ⟨rfl | rfl, rfl⟩ | ⟨rfl, rfl⟩
    · rw [List.nil_append, dropWhile_space _ _ hsp (by intro x hx; simp at hx; rw [← hx]; exact n1)]
      rw [List.cons_append] at hdig ⊢
      rw [Strings.scanSign, if_neg n2, if_neg n3]
      simp only [if_pos hc, hdig]
      rw [clamp, if_neg (by simp), Option.some.injEq]
      omega
    · rw [dropWhile_space _ _ hsp (by intro x hx; simp at hx; rw [← hx]; decide)]
      rw [List.cons_append, List.nil_append, List.cons_append]
      rw [List.cons_append] at hdig
      rw [Strings.scanSign, if_neg (by decide), if_pos rfl]
      simp only [if_pos hc, hdig]
      rw [clamp, if_neg (by simp), Option.some.injEq]
      omega
    · rw [dropWhile_space _ _ hsp (by intro x hx; simp at hx; rw [← hx]; decide)]
      rw [List.cons_append, List.nil_append, List.cons_append]
      rw [List.cons_append] at hdig
      rw [Strings.scanSign, if_pos rfl]
      simp only [if_pos hc, hdig]
      rw [clamp, if_pos trivial, Option.some.injEq]
      omega

theorem digits_split (s : Str) : ∃ ds rest, s = ds ++ rest ∧ (∀ c ∈ ds, '0' ≤ c ∧ c ≤ '9') ∧ ∀ c, rest.head? = some c → Strings.Spec.digit c = none := by
  induction s with
  | nil => exact ⟨[], [], rfl, by simp, by simp⟩
  | cons c s ih =>
    by_cases hc : '0' ≤ c ∧ c ≤ '9'
    · obtain ⟨ds, rest, h1, h2, h3⟩ := ih
      refine ⟨c :: ds, rest, by rw [h1]; rfl, ?_, h3⟩
      intro x hx
      rcases List.mem_cons.mp hx with rfl | hx
      · exact hc
      · exact h2 x hx
    · refine ⟨[], c :: s, rfl, by simp, ?_⟩
      intro x hx
      simp only [List.head?_cons, Option.some.injEq] at hx
      rw [← hx, Strings.Spec.digit, if_neg hc]

theorem space_split (s : Str) : ∃ space, s = space ++ s.dropWhile Strings.isSpace ∧ ∀ c ∈ space, Strings.isSpace c = true :=
  ⟨s.takeWhile Strings.isSpace, (List.takeWhile_append_dropWhile).symm, fun c hc => (List.all_eq_true.mp List.all_takeWhile) c hc⟩

theorem number_of (s : Str) (v : Int) (h : toInt64 s = some v) : ∃ n, Number s n := by
  obtain ⟨space, hs, hsp⟩ := space_split s
  have key : ∀ (sign : Str) (c : Char) (cs : Str), s.dropWhile Strings.isSpace = sign ++ c :: cs → ('0' ≤ c ∧ c ≤ '9') → (sign = [] ∨ sign = ['+'] ∨ sign = ['-']) → ∃ n, Number s n := by
    intro sign c cs hd hc hsign
    obtain ⟨ds, rest, h1, h2, h3⟩ := digits_split cs
    obtain ⟨k, hk⟩ := spec_digits_all (c :: ds) 0 (by
      intro x hx
      rcases List.mem_cons.mp hx with rfl | hx
      · exact hc
      · exact h2 x hx)
    have hdec : Strings.Spec.decimal (c :: ds) = some k := by rw [Strings.Spec.decimal, if_neg (by simp), hk]
    have he : s = space ++ (sign ++ ((c :: ds) ++ rest)) := by rw [List.cons_append, ← h1, ← hd]; exact hs
    rcases hsign with g | g | g
    · exact ⟨k, space, sign, c :: ds, rest, k, he, hsp, hdec, h3, Or.inl ⟨Or.inl g, rfl⟩⟩
    · exact ⟨k, space, sign, c :: ds, rest, k, he, hsp, hdec, h3, Or.inl ⟨Or.inr g, rfl⟩⟩
    · exact ⟨-k, space, sign, c :: ds, rest, k, he, hsp, hdec, h3, Or.inr ⟨g, rfl⟩⟩
  rw [toInt64] at h
  cases hd : s.dropWhile Strings.isSpace with
  | nil => rw [hd, Strings.scanSign] at h; simp at h
  | cons a t =>
    rw [hd, Strings.scanSign] at h
    by_cases ha : a = '-'
    · rw [if_pos ha] at h
      cases t with
      | nil => simp at h
      | cons c cs =>
        simp only at h
        by_cases hc : '0' ≤ c ∧ c ≤ '9'
        · exact key ['-'] c cs (by rw [hd, ha]; rfl) hc (by simp)
        · rw [if_neg hc] at h; simp at h
    · rw [if_neg ha] at h
      by_cases hb : a = '+'
      · rw [if_pos hb] at h
        cases t with
        | nil => simp at h
        | cons c cs =>
          simp only at h
          by_cases hc : '0' ≤ c ∧ c ≤ '9'
          · exact key ['+'] c cs (by rw [hd, hb]; rfl) hc (by simp)
          · rw [if_neg hc] at h; simp at h
      · rw [if_neg hb] at h
        simp only at h
        by_cases hc : '0' ≤ a ∧ a ≤ '9'
        · exact key [] a t (by rw [hd]; rfl) hc (by simp)
        · rw [if_neg hc] at h; simp at h

/-- C109: a value is a number exactly if it begins with one; that number is told, or the nearest 64-bit one; otherwise there is an exception. -/
theorem toInt64_spec (s : Str) : (∀ n, Number s n → toInt64 s = some (clamp n)) ∧ (toInt64 s = none ↔ ¬ ∃ n, Number s n) := by
  refine ⟨toInt64_of s, ?_, ?_⟩
  · rintro h ⟨n, hn⟩
    rw [toInt64_of s n hn] at h; simp at h
  · intro h
    cases ht : toInt64 s with
    | none => rfl
    | some v => exact absurd (number_of s v ht) h

theorem number_decInt (n : Int) (h : n.natAbs < 2 ^ 64) : Number (Strings.decInt n) n := by
  obtain ⟨h1, _, _, _⟩ := Strings.dec_spec n.natAbs h
  rw [Strings.decInt]
  by_cases hn : n < 0
  · rw [if_pos hn]
    exact ⟨[], ['-'], Strings.dec n.natAbs, [], n.natAbs, by simp, by simp, h1, by simp, Or.inr ⟨rfl, by omega⟩⟩
  · rw [if_neg hn]
    exact ⟨[], [], Strings.dec n.natAbs, [], n.natAbs, by simp, by simp, h1, by simp, Or.inl ⟨Or.inl rfl, by omega⟩⟩

/-- C109: a 64-bit number given as a value, written in decimal, is the number told by `get_integer64_value`; `get_integer_value` tells it if it is a 32-bit one. -/
theorem integer_value_partial (ds : List Decl) (m : Map) (hd : declare ds = some m) (args : List Arg) (hg : ∀ a ∈ args, Good ds a) :
    ∃ ok msg m', process m (args.map Arg.text) = some (ok, msg, m') ∧
      (∀ name vs idx (n : Int), Values ds name args vs → vs[idx]? = some (Strings.decInt n) → -2 ^ 63 ≤ n → n < 2 ^ 63 → getInteger64 m' name idx = some n) ∧
      (∀ name vs (n : Int), Values ds name args vs → vs[0]? = some (Strings.decInt n) → -2 ^ 31 ≤ n → n < 2 ^ 31 → getInteger m' name = some n) := by
  obtain ⟨ok, msg, m', hp, hv⟩ := values_partial ds m hd args hg
  have key : ∀ name vs idx (n : Int), Values ds name args vs → vs[idx]? = some (Strings.decInt n) → -2 ^ 63 ≤ n → n < 2 ^ 63 → getInteger64 m' name idx = some n := by
    intro name vs idx n h1 h2 h3 h4
    obtain ⟨vs', _, hu, hget, _, _⟩ := hv name
    rw [getInteger64, hget, ← hu vs h1, h2, Option.bind_some, toInt64_of _ n (number_decInt n (by omega)), clamp, Option.some.injEq]
    omega
  refine ⟨ok, msg, m', hp, key, ?_⟩
  intro name vs n h1 h2 h3 h4
  rw [getInteger, key name vs 0 n h1 h2 (by omega) (by omega), Option.map_some, Option.some.injEq]
  omega

/-- C109: what counts as true. -/
theorem toBool_spec (s : Str) : toBool s = true ↔ s = "1".toList ∨ s = "true".toList ∨ s = "yes".toList ∨ s = "TRUE".toList ∨ s = "True".toList := by
  rw [toBool]
  simp only [List.contains_cons, List.contains_nil, Bool.or_eq_true, beq_iff_eq, Bool.or_false]

/-! ### `mg` itself -/

/-- The commands of `mg`, mgcli/mp4info.cpp 4503-4562 (the last one declared first). -/
def mg : List Decl := [
  ⟨"validate".toList, .bool, false, some 'v'⟩, ⟨"videotimescale".toList, .int, false, none⟩, ⟨"audiotimescale".toList, .int, false, none⟩, ⟨"path".toList, .string, false, some 'j'⟩,
  ⟨"bitrate".toList, .int, false, some 'b'⟩, ⟨"segment".toList, .int, false, none⟩, ⟨"-help".toList, .string, false, none⟩, ⟨"help".toList, .string, false, some 'h'⟩,
  ⟨"test".toList, .string, false, some 't'⟩, ⟨"stream".toList, .int, false, none⟩, ⟨"endtime".toList, .int, false, some 'e'⟩, ⟨"starttime".toList, .int, false, some 's'⟩,
  ⟨"output".toList, .string, false, some 'o'⟩, ⟨"size".toList, .int, false, some 'z'⟩, ⟨"handler".toList, .string, false, some 'h'⟩, ⟨"xml".toList, .string, false, some 'x'⟩,
  ⟨"position".toList, .int, false, some 'p'⟩, ⟨"kind".toList, .string, false, some 'k'⟩, ⟨"input".toList, .string, false, some 'i'⟩]

def run (args : List String) : Option (Bool × Str × Map) := (declare mg).bind fun m => process m (args.map String.toList)
def valueIn (args : List String) (name : String) (idx : Nat) : Option Str := (run args).bind fun r => getValue r.2.2 name.toList idx

/-- The table of `mg` can be declared. -/
theorem mg_declared : ∃ m, declare mg = some m ∧ (missing m = none) := by
  refine Option.isSome_iff_exists.mp (show (declare mg).isSome = true by decide +kernel) |>.imp fun m h => ⟨h, ?_⟩
  have : ((declare mg).map missing) = some none := by decide +kernel
  rw [h] at this
  exact Option.some.inj this

def line : List Arg := [.opt false "i".toList (some (false, "a.mp4".toList)), .word "x".toList, .opt true "input".toList (some (true, "b=c.mp4".toList)), .opt false "kind".toList (some (false, "dash".toList)),
  .opt false "validate".toList none, .opt true "unknown".toList none, .opt false "s".toList (some (false, "-100".toList))]

example : line.map (fun a => String.ofList a.text) = ["-i:a.mp4", "x", "--input=b=c.mp4", "-kind:dash", "-validate", "--unknown", "-s:-100"] := by decide +kernel

theorem clear_of (given : Str) (h : given ≠ ['0']) (h' : given.length = 1 → ((mg.filter fun d => d.short == given.head?).map (·.name)).length ≤ 1) : Clear mg given := by
  refine ⟨h, ?_⟩
  rintro d e ⟨⟨c, hc, hd⟩, hdm, _⟩ ⟨⟨c', hc', he⟩, hem, _⟩
  have hl := h' (by rw [hc]; rfl)
  have e1 : d ∈ mg.filter fun d => d.short == given.head? := List.mem_filter.mpr ⟨hdm, by rw [hc, hd]; simp⟩
  have e2 : e ∈ mg.filter fun d => d.short == given.head? := List.mem_filter.mpr ⟨hem, by rw [hc', he]; simp⟩
  rw [List.length_map] at hl
  obtain ⟨l, hlst⟩ : ∃ l, l = mg.filter fun d => d.short == given.head? := ⟨_, rfl⟩
  rw [← hlst] at e1 e2 hl
  match l, hl with
  | [], _ => simp at e1
  | [x], _ => rw [List.mem_singleton.mp e1, List.mem_singleton.mp e2]

/-- The line meets the conditions of the theorems. -/
theorem line_good : ∀ a ∈ line, Good mg a := by
  have hb : ∀ given : Str, given ≠ ['v'] → ∀ d, isShortcut mg given d → d.kind ≠ .bool := by
    rintro given hv d ⟨⟨c, hc, hd⟩, hdm, _⟩ hk
    have : ∀ d ∈ mg, d.kind = .bool → d.short = some 'v' := by decide +kernel
    rw [this d hdm hk] at hd
    exact hv (by rw [hc, Option.some.inj hd])
  intro a ha
  simp only [line, List.mem_cons, List.not_mem_nil, or_false] at ha
  rcases ha with rfl | rfl | rfl | rfl | rfl | rfl | rfl
  · exact ⟨⟨by decide +kernel, by decide +kernel, by decide +kernel, by simp⟩, clear_of _ (by decide +kernel) (by decide +kernel), by simp⟩
  · show "x".toList.take 1 ≠ ['-']; decide +kernel
  · exact ⟨⟨by decide +kernel, by decide +kernel, by decide +kernel, by intro w h; simp only [Option.some.injEq, Prod.mk.injEq, true_and] at h; rw [← h]; decide +kernel⟩, clear_of _ (by decide +kernel) (by decide +kernel), by simp⟩
  · exact ⟨⟨by decide +kernel, by decide +kernel, by decide +kernel, by simp⟩, clear_of _ (by decide +kernel) (by decide +kernel), by simp⟩
  · exact ⟨⟨by decide +kernel, by decide +kernel, by decide +kernel, by simp⟩, clear_of _ (by decide +kernel) (by decide +kernel), fun _ => hb _ (by decide +kernel)⟩
  · exact ⟨⟨by decide +kernel, by decide +kernel, by decide +kernel, by simp⟩, clear_of _ (by decide +kernel) (by decide +kernel), fun _ => hb _ (by decide +kernel)⟩
  · exact ⟨⟨by decide +kernel, by decide +kernel, by decide +kernel, by simp⟩, clear_of _ (by decide +kernel) (by decide +kernel), by simp⟩

def lineText : List String := ["-i:a.mp4", "x", "--input=b=c.mp4", "-kind:dash", "-validate", "--unknown", "-s:-100"]

example : valueIn lineText "input" 0 = some "a.mp4".toList ∧ valueIn lineText "input" 1 = some "b=c.mp4".toList ∧ valueIn lineText "input" 2 = none ∧ valueIn lineText "kind" 0 = some "dash".toList ∧
    valueIn lineText "validate" 0 = some "T".toList ∧ valueIn lineText "unknown" 0 = some [] ∧ valueIn lineText "output" 0 = none ∧
    ((run lineText).bind fun r => getInteger r.2.2 "starttime".toList) = some (-100) := by decide +kernel

/-- With a required command that is not given. -/
example : ((declare [⟨"out".toList, .string, true, none⟩, ⟨"in".toList, .string, true, none⟩, ⟨"a".toList, .int, false, none⟩]).bind fun m => process m ["-a:1".toList]).map (fun r => (r.1, String.ofList r.2.1))
    = some (false, "missing parameter: in") := by decide +kernel
example : ((declare [⟨"out".toList, .string, true, none⟩, ⟨"in".toList, .string, true, some 'i'⟩]).bind fun m => process m ["-i:1".toList, "--out".toList]).map (fun r => (r.1, String.ofList r.2.1))
    = some (true, "") := by decide +kernel

/-! ### what goes wrong -/

/-- A value behind `=` with a `:` in it (a URL, a Windows path) ends up in the name. -/
theorem value_with_colon_lost : valueIn ["--input=http://x/a.mp4"] "input" 0 = none ∧ valueIn ["--input=http://x/a.mp4"] "input=http" 0 = some "//x/a.mp4".toList := by decide +kernel

/-- A switch given by its shortcut has an empty value, by its name `T`. -/
theorem switch_by_shortcut : valueIn ["-v"] "validate" 0 = some [] ∧ valueIn ["-validate"] "validate" 0 = some "T".toList := by decide +kernel

/-- Neither is true for the conversion to a truth value. -/
theorem switch_is_false : toBool "T".toList = false ∧ toBool [] = false := by decide +kernel

/-- `-h` never means `help`, although it is declared as its shortcut. -/
theorem help_shortcut : valueIn ["-h"] "help" 0 = none ∧ valueIn ["-h"] "handler" 0 = some [] := by decide +kernel

/-- `--help` is `help`; the command declared as `-help` needs three dashes. -/
theorem dash_help : valueIn ["--help"] "-help" 0 = none ∧ valueIn ["--help"] "help" 0 = some [] ∧ valueIn ["---help"] "-help" 0 = some [] := by decide +kernel

/-- After an unknown parameter, `-0` is taken for that one. -/
theorem unknown_has_shortcut : valueIn ["-0:x"] "0" 0 = some "x".toList ∧ valueIn ["-foo:y", "-0:x"] "0" 0 = none ∧ valueIn ["-foo:y", "-0:x"] "foo" 1 = some "x".toList := by decide +kernel

/-- Numbers: what follows the digits is ignored, too big ones become the biggest, and `get_integer_value` drops the high half. -/
theorem number_surprises : toInt64 "12abc".toList = some 12 ∧ toInt64 "99999999999999999999".toList = some 9223372036854775807 ∧ toInt64 "abc".toList = none ∧
    ((run ["-s:4294967297"]).bind fun r => getInteger r.2.2 "starttime".toList) = some 1 := by decide +kernel

end Verif.Cmdline
