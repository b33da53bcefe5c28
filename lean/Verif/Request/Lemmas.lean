import Verif.Request.Spec
/-
The loops of the publishing commands in terms of the lists of values.
-/
namespace Verif.Request
open Verif.Cmdline Spec

theorem getValue_given (m : Map) (name : String) (idx : Nat) : getValue m name.toList idx = (given m name)[idx]? := by
  unfold getValue given
  cases find m name.toList <;> simp

theorem count_given (m : Map) (name : String) : count m name.toList = (given m name).length := by
  unfold count given
  cases find m name.toList <;> rfl

theorem specified_given (m : Map) (name : String) (idx : Nat) : specified m name.toList idx = decide (idx < (given m name).length) := by
  unfold specified given
  cases find m name.toList <;> simp

theorem value_given {m : Map} {name : String} {idx : Nat} {s : Str} (h : (given m name)[idx]? = some s) : value m name.toList idx = .ok s := by
  rw [value, getValue_given, h]

theorem number_given {fail : Nat} {m : Map} {name : String} {idx : Nat} {s : Str} (h : (given m name)[idx]? = some s) :
    number fail m name.toList idx = match toInt64 s with | some n => .ok n | none => .error (.exit fail) := by
  unfold number
  simp only [value_given h]
  cases toInt64 s <;> rfl

theorem number_ok {fail : Nat} {m : Map} {name : String} {idx : Nat} {s : Str} (h : (given m name)[idx]? = some s) (hs : (toInt64 s).isSome) :
    ∃ n, toInt64 s = some n ∧ number fail m name.toList idx = .ok n := by
  obtain ⟨n, e⟩ := Option.isSome_iff_exists.mp hs
  exact ⟨n, e, by rw [number_given h, e]⟩

theorem number_bad {fail : Nat} {m : Map} {name : String} {idx : Nat} {s : Str} (h : (given m name)[idx]? = some s) (hs : ¬ (toInt64 s).isSome) :
    number fail m name.toList idx = .error (.exit fail) := by
  have e : toInt64 s = none := by simpa using hs
  rw [number_given h, e]

theorem u64_rate {s : Str} {n : Int} (h : toInt64 s = some n) : u64 n * 1000 % 2 ^ 64 = rate s := by
  rw [u64, rate, h, Option.getD_some]
  obtain ⟨q, hq⟩ : ∃ q : Int, q = 2 ^ 64 := ⟨_, rfl⟩
  have hq0 : (2 : Nat) ^ 64 = q.toNat := by rw [hq]; decide
  have hpos : 0 < q := by rw [hq]; decide
  rw [← hq, hq0]
  apply Int.ofNat_inj.mp
  rw [Int.natCast_emod, Int.natCast_mul, Int.toNat_of_nonneg (Int.emod_nonneg _ (by omega)), Int.toNat_of_nonneg (by omega), Int.toNat_of_nonneg (Int.emod_nonneg _ (by omega))]
  rw [Int.mul_emod, Int.emod_emod, ← Int.mul_emod]
  rfl

theorem u64_num {s : Str} {n : Int} (h : toInt64 s = some n) : u64 n = num s := by
  rw [u64, num, h, Option.getD_some]

/-- An item. -/
def mk (audio : Nat) (ls : List Nat) (r p : Str) : Entry := ⟨rate r, audio, p, ls⟩

theorem drop_get {A : Type} {l : List A} {i : Nat} {x : A} {t : List A} (h : l.drop i = x :: t) : l[i]? = some x ∧ l.drop (i + 1) = t := by
  constructor
  · have := congrArg (·[0]?) h
    simpa using this
  · rw [← List.drop_drop, h]; rfl

theorem entries_rest (fail : Nat) (m : Map) (audio : Nat) (ls : List Nat) (idx : Nat) : ∀ (P R : List Str) (pp pi bi : Nat) (P' R' : List Str), 0 < pp →
    R.length = P.length → (given m "path").drop pi = P ++ P' → (given m "bitrate").drop bi = R ++ R' →
    ((∀ s ∈ R, (toInt64 s).isSome) → entries fail m audio (.ok ls) idx P.length pp pi bi = .ok (List.zipWith (mk audio ls) R P, pi + P.length, bi + P.length)) ∧
    ((¬ ∀ s ∈ R, (toInt64 s).isSome) → entries fail m audio (.ok ls) idx P.length pp pi bi = .error (.exit fail)) := by
  intro P
  induction P with
  | nil =>
    intro R pp pi bi P' R' hp hl h1 h2
    have : R = [] := List.length_eq_zero_iff.mp hl
    subst this
    exact ⟨fun _ => rfl, fun h => absurd (by simp) h⟩
  | cons p P ih =>
    intro R pp pi bi P' R' hp hl h1 h2
    cases R with
    | nil => simp at hl
    | cons r R =>
      obtain ⟨g1, d1⟩ := drop_get h1
      obtain ⟨g2, d2⟩ := drop_get h2
      obtain ⟨i1, i2⟩ := ih R (pp + 1) (pi + 1) (bi + 1) P' R' (by omega) (by simpa using hl) d1 d2
      have hpp : ¬ pp = 0 := by omega
      constructor
      · intro hs
        obtain ⟨n, e, en⟩ := number_ok (fail := fail) g2 (hs r List.mem_cons_self)
        have := i1 fun s h => hs s (List.mem_cons_of_mem _ h)
        simp only [List.length_cons, entries, en, value_given g1, hpp, if_false, this, bind, Except.bind, u64_rate e, List.zipWith_cons_cons, mk]
        congr 3
        · omega
        · omega
      · intro hs
        by_cases hr : (toInt64 r).isSome
        · obtain ⟨n, e, en⟩ := number_ok (fail := fail) g2 hr
          have := i2 fun h => hs fun s h' => by
            rcases List.mem_cons.mp h' with rfl | h'
            · exact hr
            · exact h s h'
          simp only [List.length_cons, entries, en, value_given g1, hpp, if_false, this, bind, Except.bind]
        · simp only [List.length_cons, entries, number_bad g2 hr, bind, Except.bind]

theorem entries_first (fail : Nat) (m : Map) (audio : Nat) (ls : List Nat) (idx : Nat) (i : Str) (hi : (given m "input")[idx]? = some i) (P R : List Str) (pi bi : Nat)
    (P' R' : List Str) (hl : R.length = P.length + 1) (h1 : (given m "path").drop pi = P ++ P') (h2 : (given m "bitrate").drop bi = R ++ R') :
    ((∀ s ∈ R, (toInt64 s).isSome) → entries fail m audio (.ok ls) idx (P.length + 1) 0 pi bi = .ok (List.zipWith (mk audio ls) R (i :: P), pi + P.length, bi + (P.length + 1))) ∧
    ((¬ ∀ s ∈ R, (toInt64 s).isSome) → entries fail m audio (.ok ls) idx (P.length + 1) 0 pi bi = .error (.exit fail)) := by
  cases R with
  | nil => simp at hl
  | cons r R =>
    obtain ⟨g2, d2⟩ := drop_get h2
    obtain ⟨i1, i2⟩ := entries_rest fail m audio ls idx P R 1 pi (bi + 1) P' R' (by omega) (by simpa using hl) h1 d2
    constructor
    · intro hs
      obtain ⟨n, e, en⟩ := number_ok (fail := fail) g2 (hs r List.mem_cons_self)
      have := i1 fun s h => hs s (List.mem_cons_of_mem _ h)
      simp only [entries, en, value_given hi, if_true, this, bind, Except.bind, u64_rate e, List.zipWith_cons_cons, mk]
      congr 3
      omega
    · intro hs
      by_cases hr : (toInt64 r).isSome
      · obtain ⟨n, e, en⟩ := number_ok (fail := fail) g2 hr
        have := i2 fun h => hs fun s h' => by
          rcases List.mem_cons.mp h' with rfl | h'
          · exact hr
          · exact h s h'
        simp only [entries, en, value_given hi, if_true, this, bind, Except.bind]
      · simp only [entries, number_bad g2 hr, bind, Except.bind]

/-- The calls in terms of the lists that are left. -/
def lay (audio : Nat) (ls : List Nat) (per : Nat) : (is ss es P R : List Str) → List Job
  | i :: is, s :: ss, e :: es, P, R => ⟨num s, num e, List.zipWith (mk audio ls) (R.take (per + 1)) (i :: P.take per)⟩ :: lay audio ls per is ss es (P.drop per) (R.drop (per + 1))
  | _, _, _, _, _ => []

theorem take_split {A : Type} (l : List A) (n k : Nat) : l.drop n = (l.drop n).take k ++ l.drop (n + k) := by
  rw [← List.drop_drop, List.take_append_drop]

theorem jobs_eq (fail : Nat) (m : Map) (audio : Nat) (ls : List Nat) (per : Nat) : ∀ (is ss es : List Str) (idx pi bi : Nat), (given m "input").drop idx = is →
    (given m "starttime").drop idx = ss → (given m "endtime").drop idx = es → ss.length = is.length → es.length = is.length →
    ((given m "path").drop pi).length = per * is.length → ((given m "bitrate").drop bi).length = (per + 1) * is.length →
    (((∀ s ∈ ss, (toInt64 s).isSome) ∧ (∀ s ∈ es, (toInt64 s).isSome) ∧ (∀ s ∈ (given m "bitrate").drop bi, (toInt64 s).isSome)) →
      jobs fail m audio (.ok ls) per is.length idx pi bi = .ok (lay audio ls per is ss es ((given m "path").drop pi) ((given m "bitrate").drop bi))) ∧
    (¬ ((∀ s ∈ ss, (toInt64 s).isSome) ∧ (∀ s ∈ es, (toInt64 s).isSome) ∧ (∀ s ∈ (given m "bitrate").drop bi, (toInt64 s).isSome)) →
      jobs fail m audio (.ok ls) per is.length idx pi bi = .error (.exit fail)) := by
  intro is
  induction is with
  | nil =>
    intro ss es idx pi bi hi hs he l1 l2 l3 l4
    have e1 : ss = [] := List.length_eq_zero_iff.mp l1
    have e2 : es = [] := List.length_eq_zero_iff.mp l2
    have e4 : (given m "bitrate").drop bi = [] := List.length_eq_zero_iff.mp (by simpa using l4)
    rw [e4]
    subst e1 e2
    exact ⟨fun _ => rfl, fun h => absurd (by simp) h⟩
  | cons i is ih =>
    intro ss es idx pi bi hi hs he l1 l2 l3 l4
    cases ss with
    | nil => simp at l1
    | cons s ss =>
    cases es with
    | nil => simp at l2
    | cons e es =>
      obtain ⟨gi, di⟩ := drop_get hi
      obtain ⟨gs, ds⟩ := drop_get hs
      obtain ⟨ge, de⟩ := drop_get he
      obtain ⟨P, hP⟩ : ∃ P, P = ((given m "path").drop pi).take per := ⟨_, rfl⟩
      obtain ⟨R, hR⟩ : ∃ R, R = ((given m "bitrate").drop bi).take (per + 1) := ⟨_, rfl⟩
      have a3 : per ≤ per * (i :: is).length := by rw [List.length_cons, Nat.mul_succ]; omega
      have a4 : per + 1 ≤ (per + 1) * (i :: is).length := by rw [List.length_cons, Nat.mul_succ]; omega
      have lP : P.length = per := by rw [hP, List.length_take]; omega
      have lR : R.length = per + 1 := by rw [hR, List.length_take]; omega
      have sP : (given m "path").drop pi = P ++ (given m "path").drop (pi + per) := by rw [hP]; exact take_split _ _ _
      have sR : (given m "bitrate").drop bi = R ++ (given m "bitrate").drop (bi + (per + 1)) := by rw [hR]; exact take_split _ _ _
      have l3' : ((given m "path").drop (pi + per)).length = per * is.length := by
        have := congrArg List.length sP
        rw [l3, List.length_append, lP, List.length_cons, Nat.mul_succ] at this
        omega
      have l4' : ((given m "bitrate").drop (bi + (per + 1))).length = (per + 1) * is.length := by
        have := congrArg List.length sR
        rw [l4, List.length_append, lR, List.length_cons, Nat.mul_succ] at this
        omega
      obtain ⟨f1, f2⟩ := entries_first fail m audio ls idx i gi P R pi bi _ _ (by omega) sP sR
      rw [lP] at f1 f2
      obtain ⟨i1, i2⟩ := ih ss es (idx + 1) (pi + per) (bi + (per + 1)) di ds de (by simpa using l1) (by simpa using l2) l3' l4'
      have gr : ∃ r, (given m "bitrate")[bi]? = some r ∧ r ∈ R := by
        cases hRR : R with
        | nil => rw [hRR] at lR; simp at lR
        | cons r R2 =>
          rw [hRR] at sR
          exact ⟨r, (drop_get sR).1, List.mem_cons_self⟩
      obtain ⟨r, gr, rm⟩ := gr
      constructor
      · rintro ⟨h1, h2, h3⟩
        rw [sR] at h3
        obtain ⟨ns, e1, n1⟩ := number_ok (fail := fail) gs (h1 s List.mem_cons_self)
        obtain ⟨ne, e2, n2⟩ := number_ok (fail := fail) ge (h2 e List.mem_cons_self)
        obtain ⟨nr, e3, n3⟩ := number_ok (fail := fail) gr (h3 r (List.mem_append_left _ rm))
        have w := i1 ⟨fun s h => h1 s (List.mem_cons_of_mem _ h), fun s h => h2 s (List.mem_cons_of_mem _ h), fun s h => h3 s (List.mem_append_right _ h)⟩
        have w2 := f1 fun s h => h3 s (List.mem_append_left _ h)
        simp only [List.length_cons, jobs, n1, n2, n3, w2, w, bind, Except.bind, u64_num e1, u64_num e2, lay]
        rw [← hP, ← hR, List.drop_drop, List.drop_drop]
      · intro hn
        by_cases h1 : (toInt64 s).isSome
        case neg => simp only [List.length_cons, jobs, number_bad gs h1, bind, Except.bind]
        obtain ⟨ns, e1, n1⟩ := number_ok (fail := fail) gs h1
        by_cases h2 : (toInt64 e).isSome
        case neg => simp only [List.length_cons, jobs, n1, number_bad ge h2, bind, Except.bind]
        obtain ⟨ne, e2, n2⟩ := number_ok (fail := fail) ge h2
        by_cases h3 : (toInt64 r).isSome
        case neg => simp only [List.length_cons, jobs, n1, n2, number_bad gr h3, bind, Except.bind]
        obtain ⟨nr, e3, n3⟩ := number_ok (fail := fail) gr h3
        by_cases h4 : ∀ s ∈ R, (toInt64 s).isSome
        case neg => simp only [List.length_cons, jobs, n1, n2, n3, f2 h4, bind, Except.bind]
        have w := i2 fun ⟨k1, k2, k3⟩ => hn ⟨fun x h => by
          rcases List.mem_cons.mp h with rfl | h
          · exact h1
          · exact k1 x h, fun x h => by
          rcases List.mem_cons.mp h with rfl | h
          · exact h2
          · exact k2 x h, fun x h => by
          rw [sR] at h
          rcases List.mem_append.mp h with h | h
          · exact h4 x h
          · exact k3 x h⟩
        simp only [List.length_cons, jobs, n1, n2, n3, f1 h4, w, bind, Except.bind]

/-- What the calls are. -/
theorem lay_spec (audio : Nat) (ls : List Nat) (per : Nat) : ∀ (is ss es P R : List Str), ss.length = is.length → es.length = is.length → P.length = per * is.length →
    R.length = (per + 1) * is.length →
    (lay audio ls per is ss es P R).map (·.start) = ss.map num ∧ (lay audio ls per is ss es P R).map (·.stop) = es.map num ∧
    (lay audio ls per is ss es P R).map (fun j => (j.items.map (·.path)).head?) = is.map some ∧
    (lay audio ls per is ss es P R).flatMap (fun j => (j.items.map (·.path)).tail) = P ∧
    (lay audio ls per is ss es P R).flatMap (fun j => j.items.map (·.bitrate)) = R.map rate ∧
    ∀ j ∈ lay audio ls per is ss es P R, j.items.length = per + 1 ∧ ∀ e ∈ j.items, e.audioBitrate = audio ∧ e.langs = ls := by
  intro is
  induction is with
  | nil =>
    intro ss es P R l1 l2 l3 l4
    have e1 : ss = [] := List.length_eq_zero_iff.mp l1
    have e2 : es = [] := List.length_eq_zero_iff.mp l2
    have e3 : P = [] := List.length_eq_zero_iff.mp (by simpa using l3)
    have e4 : R = [] := List.length_eq_zero_iff.mp (by simpa using l4)
    subst e1 e2 e3 e4
    simp [lay]
  | cons i is ih =>
    intro ss es P R l1 l2 l3 l4
    cases ss with
    | nil => simp at l1
    | cons s ss =>
    cases es with
    | nil => simp at l2
    | cons e es =>
      rw [List.length_cons, Nat.mul_succ] at l3 l4
      obtain ⟨h1, h2, h3, h4, h5, h6⟩ := ih ss es (P.drop per) (R.drop (per + 1)) (by simpa using l1) (by simpa using l2) (by rw [List.length_drop]; omega) (by rw [List.length_drop]; omega)
      have lp : (P.take per).length = per := by rw [List.length_take]; omega
      have lr : (R.take (per + 1)).length = per + 1 := by rw [List.length_take]; omega
      have z1 : (List.zipWith (mk audio ls) (R.take (per + 1)) (i :: P.take per)).map (·.path) = i :: P.take per := by
        rw [List.map_zipWith]
        refine List.ext_getElem (by simp only [List.length_zipWith, List.length_cons]; omega) ?_
        intro k a b
        simp [mk]
      have z2 : (List.zipWith (mk audio ls) (R.take (per + 1)) (i :: P.take per)).map (·.bitrate) = (R.take (per + 1)).map rate := by
        rw [List.map_zipWith]
        refine List.ext_getElem (by simp only [List.length_zipWith, List.length_cons, List.length_map]; omega) ?_
        intro k a b
        simp [mk]
      simp only [lay, List.map_cons, List.flatMap_cons, z1, z2, h1, h2, h3, h4, h5, List.head?_cons, List.tail_cons, List.take_append_drop, List.mem_cons, true_and]
      refine ⟨?_, ?_⟩
      · rw [← List.map_append, List.take_append_drop]
      · rintro j (rfl | hj)
        · refine ⟨by simp only [List.length_zipWith, List.length_cons]; omega, ?_⟩
          intro x hx
          obtain ⟨k, hk, rfl⟩ := List.getElem_of_mem hx
          simp [mk]
        · exact h6 j hj

end Verif.Request
