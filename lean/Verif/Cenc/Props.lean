import Verif.Cenc.Model
import Verif.Cenc.Spec
import Mathlib.Data.List.Induction
/-!
Properties C21 (counter), C22 (split of a sample), C23 (decryption gives the sample back), C24 (no counter block twice).
-/
namespace Verif.Cenc
open Verif.Cenc.Spec

/-! ### numbers and bytes -/

theorem beVal_append (a b : List UInt8) : beVal (a ++ b) = beVal a * 256 ^ b.length + beVal b := by
  have : ∀ (b : List UInt8) (n : Nat), b.foldl (fun n b => n * 256 + b.toNat) n = n * 256 ^ b.length + beVal b := by
    intro b
    induction b with
    | nil => intro n; simp [beVal]
    | cons x b ih =>
      intro n
      rw [List.foldl_cons, ih]
      have h2 : beVal (x :: b) = x.toNat * 256 ^ b.length + beVal b := by
        rw [beVal, List.foldl_cons, ih]; simp
      rw [h2, List.length_cons, Nat.pow_succ, Nat.add_mul, Nat.mul_assoc, Nat.mul_comm 256]; omega
  rw [beVal, List.foldl_append, this]; rfl

theorem beVal_lt (l : List UInt8) : beVal l < 256 ^ l.length := by
  induction l using List.reverseRecOn with
  | nil => simp [beVal]
  | append_singleton l x ih =>
    rw [beVal_append, List.length_append, Nat.pow_add]
    have := x.toNat_lt
    simp only [beVal, List.foldl_cons, List.foldl_nil, List.length_singleton, Nat.pow_one, Nat.zero_mul, Nat.zero_add] at *
    omega

theorem be_length (k n : Nat) : (be k n).length = k := by
  induction k generalizing n with
  | zero => rfl
  | succ k ih => simp [be, ih]

theorem beVal_be (k : Nat) : ∀ n, beVal (be k n) = n % 256 ^ k := by
  induction k with
  | zero => intro n; simp [be, beVal, Nat.mod_one]
  | succ k ih =>
    intro n
    rw [be, beVal_append, ih]
    simp only [beVal, List.foldl_cons, List.foldl_nil, List.length_singleton, Nat.pow_one, Nat.zero_mul, Nat.zero_add, UInt8.toNat_ofNat']
    rw [show (256 : Nat) ^ (k + 1) = 256 * 256 ^ k by rw [Nat.pow_succ, Nat.mul_comm], Nat.mod_mul, Nat.mul_comm]
    omega

theorem be_beVal (l : List UInt8) : be l.length (beVal l) = l := by
  induction l using List.reverseRecOn with
  | nil => rfl
  | append_singleton l x ih =>
    have hx := x.toNat_lt
    have hv : beVal (l ++ [x]) = beVal l * 256 + x.toNat := by rw [beVal_append]; simp [beVal]
    rw [List.length_append, List.length_singleton, be, hv, show (beVal l * 256 + x.toNat) / 256 = beVal l by omega, ih]
    congr 2
    apply UInt8.toNat_inj.mp
    rw [UInt8.toNat_ofNat']; omega

theorem beVal_inj (a b : List UInt8) (hl : a.length = b.length) (h : beVal a = beVal b) : a = b := by
  rw [← be_beVal a, ← be_beVal b, hl, h]

/-! ### the counter -/

theorem mask_shift (b s m : Nat) (hb : b < 256) (hm : m = 0xFF <<< s) : (b <<< s) &&& m = b <<< s := by
  rw [hm, ← Nat.shiftLeft_and_distrib]
  congr 1
  exact (Nat.and_two_pow_sub_one_eq_mod b 8).trans (Nat.mod_eq_of_lt hb)

theorem word_value (a b c d : Nat) (ha : a < 256) (hb : b < 256) (hc : c < 256) (hd : d < 256) :
    ((a <<< 24) &&& 0xFF000000) ||| ((b <<< 16) &&& 0x00FF0000) ||| ((c <<< 8) &&& 0x0000FF00) ||| (d &&& 0x000000FF) =
      a * 2 ^ 24 + b * 2 ^ 16 + c * 2 ^ 8 + d := by
  rw [mask_shift a 24 0xFF000000 ha rfl, mask_shift b 16 0x00FF0000 hb rfl, mask_shift c 8 0x0000FF00 hc rfl]
  have h0 : d &&& 0x000000FF = d := by
    have := mask_shift d 0 0xFF hd rfl
    simpa using this
  rw [h0]
  have e1 : a <<< 24 ||| b <<< 16 = (a * 2 ^ 8 + b) <<< 16 := by
    rw [show a <<< 24 = (a <<< 8) <<< 16 by rw [← Nat.shiftLeft_add], ← Nat.shiftLeft_or_distrib,
      ← Nat.shiftLeft_add_eq_or_of_lt (by omega : b < 2 ^ 8), Nat.shiftLeft_eq a]
  have e2 : (a * 2 ^ 8 + b) <<< 16 ||| c <<< 8 = ((a * 2 ^ 8 + b) * 2 ^ 8 + c) <<< 8 := by
    rw [show (a * 2 ^ 8 + b) <<< 16 = ((a * 2 ^ 8 + b) <<< 8) <<< 8 by rw [← Nat.shiftLeft_add], ← Nat.shiftLeft_or_distrib,
      ← Nat.shiftLeft_add_eq_or_of_lt (by omega : c < 2 ^ 8), Nat.shiftLeft_eq (a * 2 ^ 8 + b) 8]
  rw [e1, e2, ← Nat.shiftLeft_add_eq_or_of_lt (by omega : d < 2 ^ 8), Nat.shiftLeft_eq]
  omega

theorem out_bytes (v : Nat) : [56, 48, 40, 32, 24, 16, 8, 0].map (fun s => UInt8.ofNat ((v >>> s) &&& 0xFF)) = be 8 v := by
  simp only [be, List.map_cons, List.map_nil, List.nil_append, List.cons_append, Nat.div_div_eq_div_mul]
  have : ∀ s, UInt8.ofNat ((v >>> s) &&& 0xFF) = UInt8.ofNat (v / 2 ^ s) := by
    intro s
    apply UInt8.toNat_inj.mp
    rw [UInt8.toNat_ofNat', UInt8.toNat_ofNat', Nat.shiftRight_eq_div_pow, show (0xFF : Nat) = 2 ^ 8 - 1 from rfl,
      Nat.and_two_pow_sub_one_eq_mod]; omega
  simp only [this, Nat.reduceMul, Nat.reducePow, Nat.div_one]

theorem beVal8 (a0 a1 a2 a3 a4 a5 a6 a7 : UInt8) : beVal [a0, a1, a2, a3, a4, a5, a6, a7] =
    (((((((a0.toNat * 256 + a1.toNat) * 256 + a2.toNat) * 256 + a3.toNat) * 256 + a4.toNat) * 256 + a5.toNat) * 256 + a6.toNat) * 256
      + a7.toNat) := by
  simp only [beVal, List.foldl_cons, List.foldl_nil, Nat.zero_mul, Nat.zero_add]

theorem counter8_eq (c : List UInt8) (h : 8 ≤ c.length) : counter8 c = be 8 (beVal (c.take 8) + 1) ++ c.drop 8 := by
  match c, h with
  | a0 :: a1 :: a2 :: a3 :: a4 :: a5 :: a6 :: a7 :: rest, _ =>
    have w1 := word_value a0.toNat a1.toNat a2.toNat a3.toNat a0.toNat_lt a1.toNat_lt a2.toNat_lt a3.toNat_lt
    have w2 := word_value a4.toNat a5.toNat a6.toNat a7.toNat a4.toNat_lt a5.toNat_lt a6.toNat_lt a7.toNat_lt
    simp only [counter8, List.getD_cons_zero, List.getD_cons_succ]
    obtain ⟨t, ht⟩ : ∃ t, a0.toNat * 2 ^ 24 + a1.toNat * 2 ^ 16 + a2.toNat * 2 ^ 8 + a3.toNat = t := ⟨_, rfl⟩
    obtain ⟨v, hv⟩ : ∃ v, a4.toNat * 2 ^ 24 + a5.toNat * 2 ^ 16 + a6.toNat * 2 ^ 8 + a7.toNat = v := ⟨_, rfl⟩
    rw [ht] at w1
    rw [hv] at w2
    rw [w1, w2]
    have := a0.toNat_lt; have := a1.toNat_lt; have := a2.toNat_lt; have := a3.toNat_lt
    have := a4.toNat_lt; have := a5.toNat_lt; have := a6.toNat_lt; have := a7.toNat_lt
    clear w1 w2
    have htl : t < 2 ^ 32 := by omega
    have hm : (t <<< 32) &&& 0xFFFFFFFF00000000 = t <<< 32 := by
      rw [show (0xFFFFFFFF00000000 : Nat) = (2 ^ 32 - 1) <<< 32 from rfl, ← Nat.shiftLeft_and_distrib, Nat.and_two_pow_sub_one_eq_mod,
        Nat.mod_eq_of_lt htl]
    rw [hm, Nat.or_comm, ← Nat.shiftLeft_add_eq_or_of_lt (by omega : v < 2 ^ 32), Nat.shiftLeft_eq, out_bytes]
    have hb : beVal ((a0 :: a1 :: a2 :: a3 :: a4 :: a5 :: a6 :: a7 :: rest).take 8) = t * 2 ^ 32 + v := by
      have e : (a0 :: a1 :: a2 :: a3 :: a4 :: a5 :: a6 :: a7 :: rest).take 8 = [a0, a1, a2, a3, a4, a5, a6, a7] := rfl
      rw [e, beVal8]
      clear hm htl e
      simp only [Nat.reducePow] at ht hv ⊢
      subst ht hv
      simp only [Nat.add_mul, Nat.mul_assoc, Nat.reduceMul, Nat.add_assoc]
    rw [hb]
    congr 1
    apply beVal_inj
    · rw [be_length, be_length]
    · rw [beVal_be, beVal_be]; omega

/-- C21: the per-sample initialisation vector advances by one modulo 2^64. -/
theorem counter8_increments (iv : List UInt8) (h : iv.length = 8) :
    (counter8 iv).length = 8 ∧ beVal (counter8 iv) = (beVal iv + 1) % 2 ^ 64 := by
  have e := counter8_eq iv (by omega)
  rw [List.take_of_length_le (by omega), List.drop_of_length_le (by omega), List.append_nil] at e
  rw [e]
  exact ⟨be_length _ _, beVal_be _ _⟩

/-- C21: the counter callback increments the 16 byte block as a big-endian number modulo 2^128. -/
theorem counter_increments (c : List UInt8) (h : c.length = 16) :
    (counter c).length = 16 ∧ beVal (counter c) = (beVal c + 1) % 2 ^ 128 := by
  have h1 : (c.take 8).length = 8 := by rw [List.length_take]; omega
  have h2 : (c.drop 8).length = 8 := by rw [List.length_drop]; omega
  have hc : beVal c = beVal (c.take 8) * 2 ^ 64 + beVal (c.drop 8) := by
    conv => lhs; rw [← List.take_append_drop 8 c, beVal_append, h2]
  have hl := beVal_lt (c.drop 8)
  have hu := beVal_lt (c.take 8)
  rw [h2] at hl
  rw [h1] at hu
  obtain ⟨g1, g2⟩ := counter8_increments _ h1
  obtain ⟨g3, g4⟩ := counter8_increments _ h2
  rw [counter]
  split
  next hf =>
    rw [List.take_of_length_le (by omega)] at hf
    rw [List.length_append, g1, beVal_append, g2, List.length_replicate, hc, hf]
    refine ⟨rfl, ?_⟩
    rw [show beVal (List.replicate 8 (0xFF : UInt8)) = 2 ^ 64 - 1 from rfl, show beVal (List.replicate 8 (0 : UInt8)) = 0 from rfl]
    omega
  next hf =>
    rw [List.take_of_length_le (by omega)] at hf
    have hne : beVal (c.drop 8) ≠ 2 ^ 64 - 1 := by
      intro he
      apply hf
      apply beVal_inj
      · rw [h2]; rfl
      · rw [he]; rfl
    rw [List.length_append, h1, g3, beVal_append, g3, g4, hc]
    refine ⟨rfl, ?_⟩
    omega

example : counter [1, 2, 3, 4, 5, 6, 7, 0xFF, 0xFF, 0xFF, 0xFF, 0xFF, 0xFF, 0xFF, 0xFF, 0xFF] = [1, 2, 3, 4, 5, 6, 8, 0, 0, 0, 0, 0, 0, 0, 0, 0] := by
  decide +kernel

/-! ### counter mode -/

theorem counter_block (iv : List UInt8) (h : iv.length = 8) (j : Nat) (hj : j + 1 < 2 ^ 64) : counter (block iv j) = block iv (j + 1) := by
  have hl : (block iv j).length = 16 := by rw [block, List.length_append, be_length, h]
  have hl' : (block iv (j + 1)).length = 16 := by rw [block, List.length_append, be_length, h]
  obtain ⟨g1, g2⟩ := counter_increments _ hl
  apply beVal_inj _ _ (by rw [g1, hl'])
  have hiv := beVal_lt iv
  rw [h] at hiv
  rw [g2, block, block, beVal_append, beVal_append, be_length, be_length, beVal_be, beVal_be]
  omega

theorem iter_block (iv : List UInt8) (h : iv.length = 8) (n : Nat) : ∀ j, j + n < 2 ^ 64 → iter counter n (block iv j) = block iv (j + n) := by
  induction n with
  | zero => intro j _; rfl
  | succ n ih =>
    intro j hj
    rw [iter, counter_block iv h j (by omega), ih (j + 1) (by omega), show j + 1 + n = j + (n + 1) by omega]

theorem keyStream_get (E : List UInt8 → List UInt8) (hE : ∀ b, (E b).length = 16) (iv : List UInt8) (h : iv.length = 8) (n : Nat) :
    ∀ j k, j + n < 2 ^ 64 → k < 16 * n →
      (keyStream E n (block iv j))[k]? = some ((E (block iv (j + k / 16))).getD (k % 16) 0) := by
  induction n with
  | zero => intro j k _ hk; omega
  | succ n ih =>
    intro j k hj hk
    rw [keyStream]
    by_cases hk16 : k < 16
    · rw [List.getElem?_append_left (by rw [hE]; exact hk16), show j + k / 16 = j by omega, show k % 16 = k by omega,
        List.getD_eq_getElem?_getD, List.getElem?_eq_getElem (by rw [hE]; exact hk16)]
      rfl
    · rw [List.getElem?_append_right (by rw [hE]; omega), hE, counter_block iv h j (by omega), ih (j + 1) (k - 16) (by omega) (by omega),
        show j + 1 + (k - 16) / 16 = j + k / 16 by omega, show (k - 16) % 16 = k % 16 by omega]

theorem keyStream_length (E : List UInt8 → List UInt8) (hE : ∀ b, (E b).length = 16) (n : Nat) : ∀ c, (keyStream E n c).length = 16 * n := by
  induction n with
  | zero => intro c; rfl
  | succ n ih => intro c; rw [keyStream, List.length_append, hE, ih]; omega

/-- The library's counter mode with the program's callback is the counter mode of the standard. -/
theorem ctr_eq (E : List UInt8 → List UInt8) (hE : ∀ b, (E b).length = 16) (iv : List UInt8) (h : iv.length = 8) (data : List UInt8)
    (hd : data.length < 2 ^ 64) : ctr E (block iv 0) data = Spec.ctr E iv data := by
  apply List.ext_getElem?
  intro k
  rw [ctr, Spec.ctr, List.getElem?_zipWith, List.getElem?_mapIdx]
  by_cases hk : k < data.length
  · rw [List.getElem?_eq_getElem hk, keyStream_get E hE iv h _ 0 k (by omega) (by omega), Nat.zero_add]
    rfl
  · rw [List.getElem?_eq_none (by omega)]
    rfl

theorem spec_ctr_length (E : List UInt8 → List UInt8) (iv data : List UInt8) : (Spec.ctr E iv data).length = data.length := by
  simp [Spec.ctr]

theorem spec_ctr_involutive (E : List UInt8 → List UInt8) (iv data : List UInt8) : Spec.ctr E iv (Spec.ctr E iv data) = data := by
  apply List.ext_getElem?
  intro k
  rw [Spec.ctr, Spec.ctr, List.getElem?_mapIdx, List.getElem?_mapIdx]
  cases data[k]? with
  | none => rfl
  | some b => simp [UInt8.xor_assoc]

/-! ### samples -/

theorem split_sum (sub : Bool) (n : Nat) : (split sub n).1 + (split sub n).2 = n := by
  rw [split]
  cases sub <;> simp
  split <;> simp
  omega

/-- C22: the recorded split covers the sample; with sub-samples the protected part is a whole number of AES blocks, at least 96 bytes
(or the whole sample, up to 112 bytes) stay clear and fit the 16 bit field; the stored sample has the size of the original, and its clear
part is unchanged. -/
theorem sample_split (E : List UInt8 → List UInt8) (hE : ∀ b, (E b).length = 16) (sub : Bool) (s : State) (body : List UInt8) :
    ∃ e, (addSample E sub s body).2.entries = s.entries ++ [e] ∧
      e.clear + e.prot = body.length ∧
      (sub = true → e.prot % 16 = 0 ∧ e.clear < 2 ^ 16 ∧ (96 ≤ e.clear ∨ e.clear = body.length) ∧ (112 < body.length → e.clear < 112 ∧ 0 < e.prot)) ∧
      (sub = false → e.clear = 0) ∧
      (addSample E sub s body).1.length = body.length ∧
      (addSample E sub s body).1.take e.clear = body.take e.clear := by
  refine ⟨⟨_, _, _⟩, rfl, split_sum sub body.length, ?_, ?_, ?_, ?_⟩
  · intro h
    subst h
    simp only [split, if_true]
    split
    · exact ⟨rfl, by simp only; omega, Or.inr rfl, fun h => by omega⟩
    · simp only; omega
  · intro h; subst h; rfl
  · have hs := split_sum sub body.length
    rw [addSample, encrypt]
    simp only
    split
    · rw [List.length_append, List.length_append, ctr, List.length_zipWith, keyStream_length E hE, List.length_take, List.length_take,
        List.length_drop, List.length_drop]
      omega
    · rfl
  · have hs := split_sum sub body.length
    rw [addSample, encrypt]
    simp only
    split
    · rw [List.append_assoc, List.take_append_of_le_length (by rw [List.length_take]; omega), List.take_take, Nat.min_self]
    · rfl

example : (split true 1000, split true 112, split true 113, split false 57) = ((104, 896), (112, 0), (97, 16), (0, 57)) := by decide

theorem encrypt_decrypt (E : List UInt8 → List UInt8) (hE : ∀ b, (E b).length = 16) (iv : List UInt8) (hiv : iv.length = 8) (body : List UInt8)
    (clear prot : Nat) (hsum : clear + prot = body.length) (hl : body.length < 2 ^ 64) :
    decrypt E iv [(clear, prot)]
      (if prot ≠ 0 then body.take clear ++ ctr E (iv ++ List.replicate 8 0) ((body.drop clear).take prot) ++ body.drop (clear + prot) else body) =
      body := by
  have hz : iv ++ List.replicate 8 0 = block iv 0 := rfl
  have hdrop : body.drop (clear + prot) = [] := List.drop_of_length_le (by omega)
  have htk : (body.drop clear).take prot = body.drop clear := List.take_of_length_le (by rw [List.length_drop]; omega)
  by_cases hp : prot = 0
  · subst hp
    simp [decrypt, replaceProtected, protectedBytes, Spec.ctr]
  · rw [if_pos hp, hdrop, htk, hz, ctr_eq E hE iv hiv _ (by rw [List.length_drop]; omega), List.append_nil]
    have hlc : (body.take clear).length = clear := by rw [List.length_take]; omega
    have hcl : (Spec.ctr E iv (body.drop clear)).length = prot := by rw [spec_ctr_length, List.length_drop]; omega
    rw [decrypt]
    simp only [protectedBytes, replaceProtected, List.append_nil]
    have hd0 : (body.take clear ++ Spec.ctr E iv (body.drop clear)).drop (clear + prot) = [] :=
      List.drop_of_length_le (by rw [List.length_append, hlc, hcl]; omega)
    rw [List.drop_left' hlc, List.take_left' hlc, List.take_of_length_le (Nat.le_of_eq hcl), spec_ctr_involutive, htk, hd0,
      List.append_nil, List.take_append_drop]

/-- The entries recorded for a list of samples: vector number i is the start vector plus i. -/
theorem addAll_spec (E : List UInt8 → List UInt8) (hE : ∀ b, (E b).length = 16) (sub : Bool) : ∀ (bodies : List (List UInt8)) (s : State),
    s.iv.length = 16 → (∀ b ∈ bodies, b.length < 2 ^ 64) →
    ∃ new : List Entry, (addAll E sub s bodies).2.entries = s.entries ++ new ∧ new.length = bodies.length ∧
      (addAll E sub s bodies).1.length = bodies.length ∧
      ∀ i e, new[i]? = some e →
        e.iv = be 8 (beVal (s.iv.take 8) + i) ∧
        ∃ body stored, bodies[i]? = some body ∧ (addAll E sub s bodies).1[i]? = some stored ∧
          (e.clear, e.prot) = split sub body.length ∧ stored.length = body.length ∧
          decrypt E e.iv [(e.clear, e.prot)] stored = body := by
  intro bodies
  induction bodies with
  | nil => intro s _ _; exact ⟨[], by simp [addAll], rfl, rfl, by simp⟩
  | cons b bodies ih =>
    intro s hs hb
    have hiv' : (counter8 s.iv).length = 16 := by
      rw [counter8_eq s.iv (by omega), List.length_append, be_length, List.length_drop]; omega
    obtain ⟨new, h1, h2, h3, h4⟩ := ih (addSample E sub s b).2 hiv' (fun x hx => hb x (List.mem_cons_of_mem _ hx))
    have ht8 : (s.iv.take 8).length = 8 := by rw [List.length_take]; omega
    have hent : (addSample E sub s b).2.entries = s.entries ++ [⟨s.iv.take 8, (split sub b.length).1, (split sub b.length).2⟩] := by
      simp only [addSample, encrypt]
      rw [List.take_left' ht8]
    refine ⟨⟨s.iv.take 8, (split sub b.length).1, (split sub b.length).2⟩ :: new, ?_, by simp [h2], by simp [addAll, h3], ?_⟩
    · rw [addAll]
      simp only
      rw [h1, hent, List.append_assoc]; rfl
    · intro i e he
      cases i with
      | zero =>
        simp only [List.getElem?_cons_zero, Option.some.injEq] at he
        subst he
        refine ⟨?_, b, (addSample E sub s b).1, rfl, rfl, rfl, ?_, ?_⟩
        · simp only [Nat.add_zero]
          have := be_beVal (s.iv.take 8)
          rw [ht8] at this; exact this.symm
        · obtain ⟨_, _, _, _, _, hl, _⟩ := sample_split E hE sub s b
          exact hl
        · exact encrypt_decrypt E hE (s.iv.take 8) ht8 b _ _ (split_sum sub b.length) (hb b (List.mem_cons_self ..))
      | succ i =>
        rw [List.getElem?_cons_succ] at he
        obtain ⟨g1, body, stored, g2, g3, g4⟩ := h4 i e he
        refine ⟨?_, body, stored, g2, g3, g4⟩
        rw [g1]
        apply beVal_inj _ _ (by rw [be_length, be_length])
        have h8 := counter8_eq s.iv (by omega)
        have : (counter8 s.iv).take 8 = be 8 (beVal (s.iv.take 8) + 1) := by rw [h8]; exact List.take_left' (be_length _ _)
        rw [show (addSample E sub s b).2.iv = counter8 s.iv from rfl, this, beVal_be, beVal_be, beVal_be]
        omega

/-- C23: whatever the samples and the block cipher, a player that decrypts stored sample i with its recorded vector and split gets
sample i back. -/
theorem decryption_gives_samples (E : List UInt8 → List UInt8) (hE : ∀ b, (E b).length = 16) (sub : Bool) (random : List UInt8)
    (hr : random.length = 8) (bodies : List (List UInt8)) (hb : ∀ b ∈ bodies, b.length < 2 ^ 64) :
    let r := addAll E sub (start random) bodies
    List.zipWith (fun (e : Entry) stored => decrypt E e.iv [(e.clear, e.prot)] stored) r.2.entries r.1 = bodies := by
  intro r
  obtain ⟨new, h1, h2, h3, h4⟩ := addAll_spec E hE sub bodies (start random) (by simp [start, hr]) hb
  have h1 : r.2.entries = new := by rw [h1]; rfl
  rw [h1]
  apply List.ext_getElem?
  intro i
  rw [List.getElem?_zipWith]
  by_cases hi : i < new.length
  · obtain ⟨_, body, stored, g2, g3, _, _, g4⟩ := h4 i new[i] (List.getElem?_eq_getElem hi)
    rw [List.getElem?_eq_getElem hi, g2, g3, ← g4]
  · rw [List.getElem?_eq_none (show new.length ≤ i by omega), List.getElem?_eq_none (show bodies.length ≤ i by omega)]

/-- C24: the counter blocks that the samples of a fragment feed to the block cipher (sample i, block j, as the counter callback produces them)
are pairwise different, for up to 2^64 samples of up to 2^64 blocks, whatever the start vector. -/
theorem counter_blocks_distinct (E : List UInt8 → List UInt8) (hE : ∀ b, (E b).length = 16) (sub : Bool) (random : List UInt8)
    (hr : random.length = 8) (bodies : List (List UInt8)) (hb : ∀ b ∈ bodies, b.length < 2 ^ 64) (hn : bodies.length ≤ 2 ^ 64)
    (i i' j j' : Nat) (e e' : Entry) (he : (addAll E sub (start random) bodies).2.entries[i]? = some e)
    (he' : (addAll E sub (start random) bodies).2.entries[i']? = some e') (hj : j < 2 ^ 64) (hj' : j' < 2 ^ 64)
    (heq : iter counter j (e.iv ++ List.replicate 8 0) = iter counter j' (e'.iv ++ List.replicate 8 0)) : i = i' ∧ j = j' := by
  obtain ⟨new, h1, h2, _, h4⟩ := addAll_spec E hE sub bodies (start random) (by simp [start, hr]) hb
  have h1 : (addAll E sub (start random) bodies).2.entries = new := by rw [h1]; rfl
  rw [h1] at he he'
  obtain ⟨a1, _⟩ := h4 i e he
  obtain ⟨a2, _⟩ := h4 i' e' he'
  have hi : i < new.length := (List.getElem?_eq_some_iff.mp he).1
  have hi' : i' < new.length := (List.getElem?_eq_some_iff.mp he').1
  have l1 : e.iv.length = 8 := by rw [a1, be_length]
  have l2 : e'.iv.length = 8 := by rw [a2, be_length]
  rw [show e.iv ++ List.replicate 8 0 = block e.iv 0 from rfl, show e'.iv ++ List.replicate 8 0 = block e'.iv 0 from rfl,
    iter_block e.iv l1 j 0 (by omega), iter_block e'.iv l2 j' 0 (by omega), Nat.zero_add, Nat.zero_add, block, block] at heq
  obtain ⟨q1, q2⟩ := List.append_inj heq (by rw [l1, l2])
  constructor
  · have := congrArg beVal q1
    rw [a1, a2, beVal_be, beVal_be] at this
    omega
  · have := congrArg beVal q2
    rw [beVal_be, beVal_be] at this
    omega

/-- concrete case: three samples of different sizes, a start vector about to wrap, a toy block cipher -/
example :
    let E := fun b : List UInt8 => (b.map (· * 7 + 3)).take 16 ++ List.replicate (16 - b.length) 0
    let r := addAll E true (start (List.replicate 8 0xFF)) [List.replicate 50 1, List.replicate 200 2, List.replicate 130 3]
    r.2.entries = [⟨List.replicate 8 0xFF, 50, 0⟩, ⟨List.replicate 8 0, 104, 96⟩, ⟨[0, 0, 0, 0, 0, 0, 0, 1], 98, 32⟩] ∧
      r.1 ≠ [List.replicate 50 1, List.replicate 200 2, List.replicate 130 3] := by decide +kernel

end Verif.Cenc
