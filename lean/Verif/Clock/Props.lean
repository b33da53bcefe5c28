import Verif.Clock.Model
import Verif.Clock.Spec
import Verif.Strings.Props

/-! C44: 100 ns times. -/
namespace Verif.Clock
open Verif.Strings (dec decInt dec_spec)
open Verif.Strings.Spec (decimal digits digit)

theorem parts {n : Int} (h : 0 ≤ n) : hours n = n / 36000000000 ∧ minutes n = n / 600000000 % 60 ∧ seconds n = n / 10000000 % 60 ∧
    millis n = n / 10000 % 1000 := by
  simp only [hours, minutes, seconds, millis, sec]
  have h1 : (0 : Int) ≤ n / (1000 * 10000 * 60) := Int.ediv_nonneg h (by decide)
  have h2 : (0 : Int) ≤ n / (1000 * 10000) := Int.ediv_nonneg h (by decide)
  have h3 : (0 : Int) ≤ n / 10000 := Int.ediv_nonneg h (by decide)
  rw [Int.tdiv_eq_ediv_of_nonneg h, Int.tdiv_eq_ediv_of_nonneg h, Int.tdiv_eq_ediv_of_nonneg h, Int.tdiv_eq_ediv_of_nonneg h1,
    Int.tmod_eq_emod_of_nonneg h1, Int.tmod_eq_emod_of_nonneg h2, Int.tmod_eq_emod_of_nonneg h3]
  refine ⟨?_, ?_, ?_, ?_⟩ <;> omega

/-- C44: the parts are in range and recompose to the time, rounded down to a millisecond. -/
theorem time_recompose (n : Int) (h : 0 ≤ n) :
    0 ≤ hours n ∧ 0 ≤ minutes n ∧ minutes n < 60 ∧ 0 ≤ seconds n ∧ seconds n < 60 ∧ 0 ≤ millis n ∧ millis n < 1000 ∧
    make (hours n) (minutes n) (seconds n) (millis n) = n / 10000 * 10000 := by
  obtain ⟨h1, h2, h3, h4⟩ := parts h
  rw [h1, h2, h3, h4]
  simp only [make, sec]
  omega

/-- C44: a time made from parts in range has these parts. -/
theorem time_decompose (h m s ml : Int) (hh : 0 ≤ h) (hm : 0 ≤ m ∧ m < 60) (hs : 0 ≤ s ∧ s < 60) (hl : 0 ≤ ml ∧ ml < 1000) :
    hours (make h m s ml) = h ∧ minutes (make h m s ml) = m ∧ seconds (make h m s ml) = s ∧ millis (make h m s ml) = ml := by
  have h0 : 0 ≤ make h m s ml := by simp only [make, sec]; omega
  obtain ⟨h1, h2, h3, h4⟩ := parts h0
  rw [h1, h2, h3, h4]
  simp only [make, sec]
  omega

/-- Rounded down to a millisecond; a concrete time. -/
example : (hours 37230456789, minutes 37230456789, seconds 37230456789, millis 37230456789) = (1, 2, 3, 45) ∧
    make 1 2 3 45 = 37230450000 := by decide

/-! ### The text -/

theorem decimal_zero (s : List Char) (hs : s ≠ []) : decimal ('0' :: s) = decimal s := by
  simp only [decimal, if_neg hs, if_neg (List.cons_ne_nil _ _)]
  rfl

theorem decInt_ofNat (n : Nat) : decInt (n : Int) = dec n := by
  simp only [decInt]
  rw [if_neg (by omega)]
  rfl

theorem pad_two : ∀ n : Fin 60, Spec.field 2 60 ((if (10 : Int) > (n.val : Int) then ['0'] else []) ++ dec n.val) = some n.val ∧
    ∀ c ∈ (if (10 : Int) > (n.val : Int) then ['0'] else []) ++ dec n.val, c ≠ ':' ∧ c ≠ '.' := by decide +kernel

theorem pad_three : ∀ n : Fin 1000, Spec.field 3 1000 ((if (10 : Int) > (n.val : Int) then ['0'] else []) ++ (if (100 : Int) > (n.val : Int) then ['0'] else []) ++
    dec n.val) = some n.val := by decide +kernel

theorem digit_ne {c : Char} (h : (digit c).isSome) : c ≠ ':' ∧ c ≠ '.' ∧ c ≠ '-' := by
  refine ⟨?_, ?_, ?_⟩ <;> (intro e; subst e; revert h; decide)

theorem cut_append (c : Char) (a b : List Char) (h : ∀ x ∈ a, x ≠ c) : Spec.cut c (a ++ c :: b) = (a, b) := by
  have hall : ∀ x ∈ a, (decide (x ≠ c)) = true := fun x hx => decide_eq_true (h x hx)
  simp only [Spec.cut]
  rw [List.takeWhile_append_of_pos hall, List.dropWhile_append_of_pos hall]
  simp

theorem dec_two {n : Nat} (h : 10 ≤ n) (hn : n < 2 ^ 64) : 2 ≤ (dec n).length := by
  obtain ⟨h1, h2, h3, _⟩ := dec_spec n hn
  rcases Nat.lt_or_ge (dec n).length 2 with hl | hl
  · exfalso
    match hd : dec n with
    | [] => exact h3 hd
    | [c] =>
      rw [hd] at h1
      simp only [decimal, digits, List.cons_ne_nil, if_false] at h1
      cases hc : digit c with
      | none => rw [hc] at h1; cases h1
      | some d =>
        rw [hc] at h1
        simp at h1
        have : d < 10 := by
          simp only [digit] at hc
          split at hc
          · next hr =>
            simp only [Option.some.injEq] at hc
            have h9 : c.toNat ≤ 57 := hr.2
            have : '0'.toNat = 48 := rfl
            omega
          · cases hc
        omega
    | _ :: _ :: _ => rw [hd] at hl; simp only [List.length_cons] at hl; omega
  · exact hl

/-- The text of a time from its parts. -/
theorem toText_read (n : Nat) (hn : n < 2 ^ 63) : Spec.readTime (toText n) = some (n / 10000) := by
  have h0 : (0 : Int) ≤ (n : Int) := by omega
  obtain ⟨h1, h2, h3, h4⟩ := parts h0
  obtain ⟨H, hH⟩ : ∃ H : Nat, H = n / 36000000000 := ⟨_, rfl⟩
  obtain ⟨M, hM⟩ : ∃ M : Nat, M = n / 600000000 % 60 := ⟨_, rfl⟩
  obtain ⟨S, hS⟩ : ∃ S : Nat, S = n / 10000000 % 60 := ⟨_, rfl⟩
  obtain ⟨L, hL⟩ : ∃ L : Nat, L = n / 10000 % 1000 := ⟨_, rfl⟩
  have e1 : hours n = (H : Int) := by rw [h1]; omega
  have e2 : minutes n = (M : Int) := by rw [h2]; omega
  have e3 : seconds n = (S : Int) := by rw [h3]; omega
  have e4 : millis n = (L : Int) := by rw [h4]; omega
  have hHb : H < 2 ^ 64 := by omega
  obtain ⟨m1, m2⟩ := pad_two ⟨M, by omega⟩
  obtain ⟨s1, s2⟩ := pad_two ⟨S, by omega⟩
  have l1 := pad_three ⟨L, by omega⟩
  simp only at m1 m2 s1 s2 l1
  obtain ⟨mt, hmt⟩ : ∃ mt, mt = (if (10 : Int) > (M : Int) then ['0'] else []) ++ dec M := ⟨_, rfl⟩
  obtain ⟨st, hst⟩ : ∃ st, st = (if (10 : Int) > (S : Int) then ['0'] else []) ++ dec S := ⟨_, rfl⟩
  obtain ⟨lt, hlt⟩ : ∃ lt, lt = (if (10 : Int) > (L : Int) then ['0'] else []) ++ (if (100 : Int) > (L : Int) then ['0'] else []) ++ dec L := ⟨_, rfl⟩
  obtain ⟨ht, hht⟩ : ∃ ht, ht = (if (10 : Int) > (H : Int) then ['0'] else []) ++ dec H := ⟨_, rfl⟩
  rw [← hmt] at m1 m2
  rw [← hst] at s1 s2
  rw [← hlt] at l1
  obtain ⟨d1, d2, d3, d4⟩ := dec_spec H hHb
  have hcol : ∀ x ∈ ht, x ≠ ':' := by
    rw [hht]
    intro x hx
    rcases List.mem_append.mp hx with h | h
    · split at h
      · rw [List.mem_singleton.mp h]; decide
      · cases h
    · exact (digit_ne (d2 x h)).1
  have hdec : decimal ht = some H := by
    rw [hht]
    split
    · rw [List.singleton_append, decimal_zero _ d3, d1]
    · rw [List.nil_append, d1]
  have hlen : 2 ≤ ht.length := by
    rw [hht]
    split
    · cases hd : dec H with
      | nil => exact absurd hd d3
      | cons c l => simp
    · rw [List.nil_append]
      exact dec_two (by omega) hHb
  have etext : toText n = ht ++ ':' :: (mt ++ ':' :: (st ++ '.' :: lt)) := by
    simp only [toText, e1, e2, e3, e4, decInt_ofNat, hht, hmt, hst, hlt]
    simp
  rw [etext]
  simp only [Spec.readTime]
  rw [cut_append _ _ _ hcol]
  simp only
  rw [cut_append _ _ _ (fun x hx => (m2 x hx).1)]
  simp only
  rw [cut_append _ _ _ (fun x hx => (s2 x hx).2), if_pos hlen, hdec, m1, s1, l1]
  simp only [Option.bind_some, Option.map_some, Option.some.injEq]
  rw [hH, hM, hS, hL]
  omega

/-- The text of a time does not begin with a sign. -/
theorem toText_head (n : Nat) (hn : n < 2 ^ 63) : (toText n).head? ≠ some '-' := by
  have h0 : (0 : Int) ≤ (n : Int) := by omega
  have e1 : hours n = ((n / 36000000000 : Nat) : Int) := by rw [(parts h0).1]; omega
  have hHb : n / 36000000000 < 2 ^ 64 := Nat.lt_of_le_of_lt (Nat.div_le_self _ _) (Nat.lt_trans hn (by decide))
  obtain ⟨d1, d2, d3, d4⟩ := dec_spec _ hHb
  simp only [toText, e1, decInt_ofNat]
  generalize n / 36000000000 = H at *
  split
  · simp
  · cases hd : dec H with
    | nil => exact absurd hd d3
    | cons c l =>
      have := (digit_ne (d2 c (by rw [hd]; exact List.mem_cons_self))).2.2
      simp [this]

/-- C44: the text of a time is read back as the time, rounded towards zero to a millisecond. -/
theorem hns_text (x : Int) (hx : x.natAbs < 2 ^ 63) : Spec.readSigned (hns x) = some (x.tdiv 10000) := by
  rcases Int.lt_or_le x 0 with h | h
  · have e : x = -(x.natAbs : Int) := by omega
    simp only [hns, if_pos h]
    rw [show x * -1 = (x.natAbs : Int) by omega]
    simp only [Spec.readSigned, List.singleton_append, List.head?_cons, List.tail_cons, if_true]
    rw [toText_read _ hx, Option.map_some, Option.some.injEq]
    conv => rhs; rw [e]
    rw [Int.neg_tdiv, Int.ofNat_tdiv]
    rfl
  · have e : x = (x.natAbs : Int) := by omega
    simp only [hns]
    rw [if_neg (by omega), if_neg (by omega), List.nil_append, show x * 1 = (x.natAbs : Int) by omega]
    simp only [Spec.readSigned]
    rw [if_neg (toText_head _ hx), toText_read _ hx, Option.map_some, Option.some.injEq]
    conv => rhs; rw [e]
    rw [Int.ofNat_tdiv]
    rfl

/-- Two texts. -/
example : hns 37230456789 = "01:02:03.045".toList ∧ hns (-3599999999) = "-00:05:59.999".toList := by decide +kernel

end Verif.Clock
