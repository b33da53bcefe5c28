import Verif.Demux.SplitModel
import Verif.Demux.SplitSpec
/-
C95: an H.264 byte stream in a PES packet is cut back into its NAL units.
-/
namespace Verif.Demux
open Spec Fields

theorem isInfix_tail {s l : List UInt8} {a : UInt8} (h : ¬ s <:+: a :: l) : ¬ s <:+: l :=
  fun hh => h (hh.trans (List.suffix_cons a l).isInfix)

theorem takeNal_last (n : List UInt8) (h : ¬ [0, 0, 1] <:+: n) : takeNal n = (n, []) := by
  fun_induction takeNal n with
  | case1 a b c d r hc =>
    exfalso
    rcases hc with ⟨rfl, rfl, rfl⟩ | ⟨rfl, rfl, rfl, rfl⟩
    · exact h ⟨[], d :: r, rfl⟩
    · exact h ⟨[0], r, rfl⟩
  | case2 a b c d r hc ih => rw [ih (isInfix_tail h)]
  | case3 l hl => rfl

theorem takeNal_code (rest : List UInt8) (x : UInt8) (r : List UInt8) (hr : rest = 0 :: 0 :: 1 :: x :: r ∨ rest = 0 :: 0 :: 0 :: 1 :: x :: r) :
    takeNal rest = ([], rest) := by
  rcases hr with rfl | rfl <;> simp [takeNal]

theorem takeNal_middle (n : List UInt8) (hl : n.getLast? ≠ some 0) (hc : ¬ [0, 0, 1] <:+: n) (rest : List UInt8) (x : UInt8) (r : List UInt8)
    (hr : rest = 0 :: 0 :: 1 :: x :: r ∨ rest = 0 :: 0 :: 0 :: 1 :: x :: r) : takeNal (n ++ rest) = (n, rest) := by
  induction n with
  | nil => exact takeNal_code rest x r hr
  | cons a n ih =>
    have hc' := isInfix_tail hc
    by_cases hn : n = []
    · subst hn
      have ha : a ≠ 0 := by simpa using hl
      have e := takeNal_code rest x r hr
      rcases hr with rfl | rfl <;> simp [takeNal, ha]
    · have hl' : n.getLast? ≠ some 0 := by
        rwa [List.getLast?_cons, List.getLast?_eq_some_getLast hn, Option.getD_some, ← List.getLast?_eq_some_getLast hn] at hl
      have ih := ih hl' hc'
      obtain ⟨b, n', rfl⟩ := List.exists_cons_of_ne_nil hn
      match n', rest, hr, ih with
      | [], _, hr, ih =>
        have hb : b ≠ 0 := by simpa using hl'
        rcases hr with rfl | rfl
        · simp only [List.cons_append, List.nil_append] at ih ⊢
          rw [takeNal, if_neg (by simp [hb]), ih]
        · simp only [List.cons_append, List.nil_append] at ih ⊢
          rw [takeNal, if_neg (by simp [hb]), ih]
      | [c], _, hr, ih =>
        have h1 : ¬ (a = 0 ∧ b = 0 ∧ c = 1) := fun ⟨h1, h2, h3⟩ => hc ⟨[], [], by simp [h1, h2, h3]⟩
        rcases hr with rfl | rfl
        · simp only [List.cons_append, List.nil_append] at ih ⊢
          rw [takeNal, if_neg (by simpa using h1), ih]
        · simp only [List.cons_append, List.nil_append] at ih ⊢
          rw [takeNal, if_neg (by simpa using h1), ih]
      | c :: d :: m, _, hr, ih =>
        have h1 : ¬ (a = 0 ∧ b = 0 ∧ c = 1) := fun ⟨h1, h2, h3⟩ => hc ⟨[], d :: m, by simp [h1, h2, h3]⟩
        have h2 : ¬ (b = 0 ∧ c = 0 ∧ d = 1) := fun ⟨h1, h2, h3⟩ => hc ⟨[a], m, by simp [h1, h2, h3]⟩
        simp only [List.cons_append] at ih ⊢
        rw [takeNal, if_neg (fun hh => hh.elim h1 (fun h => h2 h.2)), ih]

theorem skipToCode_zeros (k : Nat) (hk : 2 ≤ k) (r : List UInt8) : skipToCode (List.replicate k 0 ++ 1 :: r) = 0 :: 0 :: 1 :: r := by
  induction k with
  | zero => omega
  | succ k ih =>
    by_cases h : k = 1
    · subst h; simp [List.replicate, skipToCode]
    · obtain ⟨j, rfl⟩ : ∃ j, k = j + 2 := ⟨k - 2, by omega⟩
      rw [← ih (by omega)]
      simp [List.replicate, skipToCode]

/-- Start codes: two or three zero bytes and a one. -/
theorem annexB_rounds (units : List (Nat × List UInt8)) (hz : ∀ u ∈ units, u.1 = 2 ∨ u.1 = 3) (hn : ∀ u ∈ units, IsNal u.2) :
    ∀ fuel, (annexB units).length ≤ fuel → nalRounds fuel (annexB units) = (units.map (·.2), true) := by
  induction units with
  | nil => intro fuel _; cases fuel <;> rfl
  | cons u us ih =>
    intro fuel hf
    obtain ⟨z, n⟩ := u
    have hz0 := hz _ (List.mem_cons_self ..)
    have hn0 : IsNal n := hn _ (List.mem_cons_self ..)
    have e : annexB ((z, n) :: us) = List.replicate z 0 ++ 1 :: (n ++ annexB us) := by simp [annexB]
    have hlen : (annexB us).length + 4 ≤ (annexB ((z, n) :: us)).length := by
      rw [e]
      have := List.length_pos_iff.mpr hn0.nonempty
      simp only [List.length_append, List.length_replicate, List.length_cons]
      simp only at hz0
      omega
    obtain ⟨f, rfl⟩ : ∃ f, fuel = f + 1 := ⟨fuel - 1, by omega⟩
    have hsk : skipToCode (annexB ((z, n) :: us)) = 0 :: 0 :: 1 :: (n ++ annexB us) := by
      rw [e]; exact skipToCode_zeros z (by simp only at hz0; omega) _
    have htake : takeNal (n ++ annexB us) = (n, annexB us) := by
      cases us with
      | nil => simp only [annexB, List.flatMap_nil, List.append_nil]; exact takeNal_last n hn0.clean
      | cons v vs =>
        obtain ⟨z', n'⟩ := v
        have hn1 : IsNal n' := hn (z', n') (by simp)
        have hz1 : z' = 2 ∨ z' = 3 := hz (z', n') (by simp)
        obtain ⟨x, m, rfl⟩ := List.exists_cons_of_ne_nil hn1.nonempty
        refine takeNal_middle n hn0.last hn0.clean _ x (m ++ annexB vs) ?_
        rcases hz1 with rfl | rfl
        · left; simp [annexB, List.replicate]
        · right; simp [annexB, List.replicate]
    obtain ⟨b, r, hbr⟩ : ∃ b r, annexB ((z, n) :: us) = b :: r := by
      cases h : annexB ((z, n) :: us) with
      | nil => rw [h] at hlen; simp at hlen
      | cons b r => exact ⟨b, r, rfl⟩
    obtain ⟨x, m, hxm⟩ := List.exists_cons_of_ne_nil hn0.nonempty
    rw [hbr] at hsk ⊢
    have hx : n ++ annexB us = x :: (m ++ annexB us) := by rw [hxm]; rfl
    rw [nalRounds, hsk]
    simp only [List.drop_succ_cons, List.drop_zero]
    rw [hx] at htake ⊢
    simp only [htake]
    rw [ih (fun u hu => hz u (List.mem_cons_of_mem _ hu)) (fun u hu => hn u (List.mem_cons_of_mem _ hu)) f (by omega)]
    simp

/-- C95: an H.264 byte stream with start codes of three or four bytes, possibly preceded by zero bytes, is cut into exactly its NAL units, in
order. -/
theorem nal_units_recovered_partial (lead : Nat) (units : List (Nat × List UInt8)) (hne : units ≠ []) (hz : ∀ u ∈ units, u.1 = 2 ∨ u.1 = 3)
    (hn : ∀ u ∈ units, IsNal u.2) : splitNals (List.replicate lead 0 ++ annexB units) = (units.map (·.2), true) := by
  obtain ⟨⟨z, n⟩, us, rfl⟩ := List.exists_cons_of_ne_nil hne
  have hz0 : z = 2 ∨ z = 3 := hz (z, n) (by simp)
  have e : ∀ k, List.replicate k 0 ++ annexB ((z, n) :: us) = List.replicate (k + z) 0 ++ 1 :: (n ++ annexB us) := by
    intro k
    rw [← List.replicate_append_replicate, List.append_assoc]
    simp only [annexB, List.flatMap_cons, List.append_assoc, List.cons_append, List.nil_append]
  have hlen : 1 ≤ (annexB ((z, n) :: us)).length := by
    have := e 0
    rw [List.replicate_zero, List.nil_append] at this
    rw [this]; simp only [List.length_append, List.length_cons]; omega
  have main := annexB_rounds ((z, n) :: us) hz hn ((List.replicate lead 0 ++ annexB ((z, n) :: us)).length) (by simp)
  rw [splitNals]
  generalize hfu : (List.replicate lead 0 ++ annexB ((z, n) :: us)).length = fuel at main
  obtain ⟨f, rfl⟩ : ∃ f, fuel = f + 1 := ⟨fuel - 1, by rw [List.length_append] at hfu; omega⟩
  have sk1 : skipToCode (List.replicate lead 0 ++ annexB ((z, n) :: us)) = skipToCode (annexB ((z, n) :: us)) := by
    have e0 := e 0
    rw [List.replicate_zero, List.nil_append] at e0
    rw [e lead, e0, skipToCode_zeros _ (by omega), skipToCode_zeros _ (by omega)]
  rw [← main]
  have l1 : 1 ≤ (List.replicate lead (0 : UInt8) ++ annexB ((z, n) :: us)).length := by rw [List.length_append]; omega
  generalize List.replicate lead 0 ++ annexB ((z, n) :: us) = p at sk1 l1 ⊢
  generalize annexB ((z, n) :: us) = q at sk1 hlen ⊢
  match p, q, l1, hlen, sk1 with
  | _ :: _, _ :: _, _, _, sk1 => rw [nalRounds, nalRounds, sk1]

/-- A byte stream whose start codes are padded with more zero bytes than three. -/
theorem nal_padding_witness :
    splitNals (annexB [(3, [0x67, 1]), (5, [0x68, 2])]) = ([[0x67, 1, 0, 0], [0x68, 2]], true) := by decide

/-- A payload without any start code, and one that ends with a four byte start code, end in an exception. -/
theorem nal_no_start_code_witness (l : List UInt8) (h : l ≠ []) (hn : ¬ [0, 0, 1] <:+: l) : splitNals l = ([], false) := by
  have sk : ∀ l : List UInt8, ¬ [0, 0, 1] <:+: l → (skipToCode l).length ≤ 2 := by
    intro l
    fun_induction skipToCode l with
    | case1 a b c r hc => intro hn; exact absurd ⟨[], r, by simp [hc.1, hc.2.1, hc.2.2]⟩ hn
    | case2 a b c r hc ih => intro hn; exact ih (isInfix_tail hn)
    | case3 l hl =>
      intro _
      match l, hl with
      | [], _ => simp
      | [_], _ => simp
      | [_, _], _ => simp
      | a :: b :: c :: r, hl => exact absurd rfl (hl a b c r)
  obtain ⟨a, l, rfl⟩ := List.exists_cons_of_ne_nil h
  rw [splitNals]
  simp only [List.length_cons, nalRounds]
  rw [List.drop_eq_nil_of_le (by have := sk _ hn; omega)]

example : splitNals [0, 0, 0, 1, 0x65, 7, 0, 0, 0, 1] = ([[0x65, 7]], false) := by decide

/-- `nal_units_recovered_partial` on an access unit with delimiter, parameter sets and a slice, three and four byte codes. -/
example : let us := [(3, [0x09, 0xF0]), (3, [0x67, 0x42, 0, 0, 3, 1]), (2, [0x68, 0xCE]), (2, [0x65, 0, 0, 0x80])]
    (∀ u ∈ us, u.1 = 2 ∨ u.1 = 3) ∧ (∀ u ∈ us, IsNal u.2) ∧
      splitNals ([0] ++ annexB us) = ([[0x09, 0xF0], [0x67, 0x42, 0, 0, 3, 1], [0x68, 0xCE], [0x65, 0, 0, 0x80]], true) := by
  refine ⟨by decide, ?_, by decide⟩
  intro u hu
  simp only [List.mem_cons, List.not_mem_nil, or_false] at hu
  rcases hu with rfl | rfl | rfl | rfl <;> exact ⟨by decide, by decide, by decide⟩

end Verif.Demux
