import Verif.Crc.Model
import Verif.Crc.Spec
/-!
Property C20: the CRC put at the end of program tables.
-/
namespace Verif.Crc
open Spec

theorem sar31 (c : Word) : c.sshiftRight 31 = if c.msb then -1#32 else 0#32 := by
  apply BitVec.eq_of_getLsbD_eq
  intro i hi
  rw [BitVec.getLsbD_sshiftRight]
  cases h : c.msb
  · simp
    intro _ h2
    have h3 : 31 + i = 31 ∨ 31 + i ≥ 32 := by omega
    rcases h3 with h3 | h3
    · rw [h3]; rw [BitVec.msb_eq_getLsbD_last] at h; exact h
    · exact absurd h2 (by omega)
  · rw [if_pos rfl]
    have e : ∀ k : Fin 32, (-1#32).getLsbD k = true := by decide
    rw [e ⟨i, hi⟩]
    by_cases h2 : 31 + i < 32
    · have h3 : i = 0 := by omega
      subst h3
      rw [BitVec.msb_eq_getLsbD_last] at h
      simpa using h
    · simp [h2, show ¬ 32 ≤ i by omega]

theorem polyStep_eq (c : Word) : polyStep c = (c <<< 1) ^^^ (if c.msb then 0x04C11DB7#32 else 0) := by
  rw [polyStep, sar31]
  cases c.msb <;> simp

theorem shl_xor (a b : Word) (n : Nat) : (a ^^^ b) <<< n = (a <<< n) ^^^ (b <<< n) := by
  apply BitVec.eq_of_getLsbD_eq
  intro i hi
  simp [Bool.and_xor_distrib_left]

theorem shr_xor (a b : Word) (n : Nat) : (a ^^^ b) >>> n = (a >>> n) ^^^ (b >>> n) := by
  apply BitVec.eq_of_getLsbD_eq
  intro i hi
  simp

theorem polyStep_xor (a b : Word) : polyStep (a ^^^ b) = polyStep a ^^^ polyStep b := by
  simp only [polyStep_eq, shl_xor, BitVec.msb_xor]
  have e : ∀ x y k : Word, x ^^^ y = x ^^^ k ^^^ (y ^^^ k) := by
    intro x y k
    rw [show x ^^^ k ^^^ (y ^^^ k) = x ^^^ y ^^^ (k ^^^ k) by ac_rfl, BitVec.xor_self, BitVec.xor_zero]
  have e1 : ∀ x y k : Word, x ^^^ y ^^^ k = x ^^^ (y ^^^ k) := by intros; ac_rfl
  have e2 : ∀ x y k : Word, x ^^^ y ^^^ k = x ^^^ k ^^^ y := by intros; ac_rfl
  cases a.msb <;> cases b.msb <;> simp
  · exact e1 _ _ _
  · exact e2 _ _ _
  · exact e _ _ _

theorem polyStep_clock (x y : Word) : polyStep (x ^^^ y) = clock x y.msb ^^^ (y <<< 1) := by
  simp only [polyStep_eq, shl_xor, BitVec.msb_xor, clock]
  have e2 : ∀ x y k : Word, x ^^^ y ^^^ k = x ^^^ k ^^^ y := by intros; ac_rfl
  cases x.msb <;> cases y.msb <;> simp <;> exact e2 _ _ _

theorem polyStep8_xor (a b : Word) : polyStep8 (a ^^^ b) = polyStep8 a ^^^ polyStep8 b := by
  simp only [polyStep8, polyStep_xor]

theorem shl_shl (x : Word) (a b : Nat) : (x <<< a) <<< b = x <<< (a + b) := by
  rw [BitVec.shiftLeft_add]

theorem shl_msb (b : BitVec 8) (k : Nat) (h : k < 8) : ((b.zeroExtend 32 <<< 24) <<< k).msb = b[7 - k] := by
  rw [shl_shl, BitVec.msb_eq_getLsbD_last]
  simp only [BitVec.getLsbD_shiftLeft, BitVec.truncate_eq_setWidth, BitVec.getLsbD_setWidth]
  have h1 : 32 - 1 - (24 + k) = 7 - k := by omega
  rw [h1]
  have h2 : ¬ (32 - 1 < 24 + k) := by omega
  have h3 : 7 - k < 32 := by omega
  simp [h2, h3, show 7 - k < 8 by omega]

theorem shl_zero (b : BitVec 8) : (b.zeroExtend 32 <<< 24 <<< 8 : Word) = 0#32 := by
  rw [shl_shl]
  apply BitVec.eq_of_getLsbD_eq
  intro i hi
  simp [show i < 32 from hi]

theorem polyStep8_byte (r : Word) (b : BitVec 8) :
    polyStep8 (r ^^^ (b.zeroExtend 32 <<< 24)) = (byteBits b).foldl clock r := by
  simp only [polyStep8]
  generalize hy : (b.zeroExtend 32 <<< 24 : Word) = y
  rw [polyStep_clock, polyStep_clock, polyStep_clock, polyStep_clock, polyStep_clock, polyStep_clock,
    polyStep_clock, polyStep_clock]
  have hz : y <<< 1 <<< 1 <<< 1 <<< 1 <<< 1 <<< 1 <<< 1 <<< 1 = 0#32 := by
    simp only [shl_shl]; rw [← hy]; exact shl_zero b
  rw [hz, BitVec.xor_zero]
  simp only [shl_shl]
  have m : ∀ k (hk : k < 8), (y <<< k).msb = b[7 - k] := by intro k hk; rw [← hy]; exact shl_msb b k hk
  have m0 : y.msb = b[7] := by
    have := m 0 (by omega)
    rwa [BitVec.shiftLeft_zero] at this
  rw [m0, m 1 (by omega), m (1 + 1) (by omega), m (1 + 1 + 1) (by omega), m (1 + 1 + 1 + 1) (by omega),
    m (1 + 1 + 1 + 1 + 1) (by omega), m (1 + 1 + 1 + 1 + 1 + 1) (by omega), m (1 + 1 + 1 + 1 + 1 + 1 + 1) (by omega)]
  rfl

theorem clock_zero : clock 0 false = 0 := by decide

theorem polyStep8_low (y : Word) (h : ∀ k, k < 8 → y.getLsbD (31 - k) = false) : polyStep8 y = y <<< 8 := by
  have m : ∀ k, k < 8 → (y <<< k).msb = false := by
    intro k hk
    rw [BitVec.msb_eq_getLsbD_last, BitVec.getLsbD_shiftLeft, h k hk]; simp
  have m0 : y.msb = false := by
    have := m 0 (by omega)
    rwa [BitVec.shiftLeft_zero] at this
  have e : polyStep8 (0 ^^^ y) = y <<< 8 := by
    simp only [polyStep8]
    rw [polyStep_clock, m0, clock_zero, polyStep_clock, m 1 (by omega), clock_zero, polyStep_clock, shl_shl,
      m (1 + 1) (by omega), clock_zero, polyStep_clock, shl_shl, m (1 + 1 + 1) (by omega), clock_zero, polyStep_clock, shl_shl,
      m (1 + 1 + 1 + 1) (by omega), clock_zero, polyStep_clock, shl_shl, m (1 + 1 + 1 + 1 + 1) (by omega), clock_zero,
      polyStep_clock, shl_shl, m (1 + 1 + 1 + 1 + 1 + 1) (by omega), clock_zero, polyStep_clock, shl_shl,
      m (1 + 1 + 1 + 1 + 1 + 1 + 1) (by omega), clock_zero, shl_shl]
    simp
  simpa using e

/-! ### byte swap -/

theorem bswap_get (x : Word) (i : Nat) (hi : i < 32) : (bswap x).getLsbD i = x.getLsbD (24 - 8 * (i / 8) + i % 8) := by
  have hk : ∀ k : Fin 32, (0xff00#32).getLsbD k = decide (8 ≤ k.val ∧ k.val < 16) := by decide
  have hl : ∀ k : Fin 32, (0x00ff#32).getLsbD k = decide (k.val < 8) := by decide
  have hk' : ∀ k, k < 32 → (0xff00#32).getLsbD k = decide (8 ≤ k ∧ k < 16) := fun k h => hk ⟨k, h⟩
  have hl' : ∀ k, k < 32 → (0x00ff#32).getLsbD k = decide (k < 8) := fun k h => hl ⟨k, h⟩
  simp only [bswap, BitVec.getLsbD_or, BitVec.getLsbD_shiftLeft, BitVec.getLsbD_and, BitVec.getLsbD_ushiftRight]
  rw [hk' i hi, hl' i hi]
  by_cases h1 : i < 8
  · have e : 24 - 8 * (i / 8) + i % 8 = 24 + i := by omega
    simp [e, h1, hi, show i < 16 by omega, show ¬ 8 ≤ i by omega]
    rw [show 16 + (8 + i) = 24 + i by omega]
  · by_cases h2 : i < 16
    · have e : 24 - 8 * (i / 8) + i % 8 = i + 8 := by omega
      simp [e, h1, h2, hi, show 8 ≤ i by omega]
      rw [show 16 + (i - 8) = i + 8 by omega]
    · have hk2 := hk' (i - 16) (by omega)
      have hl2 := hl' (i - 16) (by omega)
      rw [hk2, hl2]
      by_cases h3 : i < 24
      · have e : 24 - 8 * (i / 8) + i % 8 = i - 8 := by omega
        simp [e, h1, h2, hi, show i - 16 < 8 by omega, show i - 16 < 32 by omega, show ¬ 8 ≤ i - 16 by omega]
        rw [show 8 + (i - 16) = i - 8 by omega]
      · have e : 24 - 8 * (i / 8) + i % 8 = i - 24 := by omega
        simp [e, h1, h2, hi, show ¬ i - 16 < 8 by omega, show i - 16 < 32 by omega, show 8 ≤ i - 16 by omega, show i - 16 < 16 by omega]
        rw [show i - 16 - 8 = i - 24 by omega]

theorem bswap_xor (a b : Word) : bswap (a ^^^ b) = bswap a ^^^ bswap b := by
  apply BitVec.eq_of_getLsbD_eq
  intro i hi
  rw [BitVec.getLsbD_xor, bswap_get _ _ hi, bswap_get _ _ hi, bswap_get _ _ hi, BitVec.getLsbD_xor]

theorem bswap_bswap (a : Word) : bswap (bswap a) = a := by
  apply BitVec.eq_of_getLsbD_eq
  intro i hi
  rw [bswap_get _ _ hi, bswap_get _ _ (by omega)]
  congr 1; omega

/-! ### table -/

theorem table_xor (a b : Word) : table (a ^^^ b) = table a ^^^ table b := by
  rw [table, shl_xor, polyStep8_xor, bswap_xor]; rfl

theorem table_zero : table 0#32 = 0#32 := by
  have := table_xor 0#32 0#32
  rw [BitVec.xor_self] at this
  rw [this, BitVec.xor_self]

/-- the low byte of a word -/
def low (c : Word) : Word := c &&& 0xFF#32

theorem low_get (c : Word) (i : Nat) (hi : i < 32) : (low c).getLsbD i = (c.getLsbD i && decide (i < 8)) := by
  have hl : ∀ k : Fin 32, (0xFF#32).getLsbD k = decide (k.val < 8) := by decide
  have := hl ⟨i, hi⟩
  simp only at this
  rw [low, BitVec.getLsbD_and, this]

theorem low_xor (a b : Word) : low (a ^^^ b) = low a ^^^ low b := by
  apply BitVec.eq_of_getLsbD_eq
  intro i hi
  rw [BitVec.getLsbD_xor, low_get _ _ hi, low_get _ _ hi, low_get _ _ hi, BitVec.getLsbD_xor, Bool.and_xor_distrib_right]

theorem trunc_xor (c : Word) (b : BitVec 8) : ((c.truncate 8 ^^^ b).zeroExtend 32 : Word) = low (c ^^^ b.zeroExtend 32) := by
  apply BitVec.eq_of_getLsbD_eq
  intro i hi
  rw [low_get _ _ hi]
  simp only [BitVec.truncate_eq_setWidth, BitVec.getLsbD_setWidth, BitVec.getLsbD_xor, hi]
  by_cases h : i < 8
  · simp [h]
  · simp [h, BitVec.getLsbD_of_ge b i (by omega)]

/-- the update without data -/
def step0 (c : Word) : Word := table (low c) ^^^ (c >>> 8)

theorem byte_hi (b : BitVec 8) : (b.zeroExtend 32 : Word) >>> 8 = 0#32 := by
  apply BitVec.eq_of_getLsbD_eq
  intro i hi
  simp only [BitVec.truncate_eq_setWidth, BitVec.getLsbD_ushiftRight, BitVec.getLsbD_setWidth]
  simp

theorem byteStep_eq (c : Word) (b : BitVec 8) : byteStep c b = step0 (c ^^^ b.zeroExtend 32) := by
  rw [byteStep, trunc_xor, step0, shr_xor, byte_hi, BitVec.xor_zero]

theorem step0_xor (a b : Word) : step0 (a ^^^ b) = step0 a ^^^ step0 b := by
  rw [step0, step0, step0, low_xor, table_xor, shr_xor]; ac_rfl

theorem step0_shl (a : Word) (h : ∀ i, 24 ≤ i → i < 32 → a.getLsbD i = false) : step0 (a <<< 8) = a := by
  have h1 : low (a <<< 8) = 0#32 := by
    apply BitVec.eq_of_getLsbD_eq
    intro i hi
    rw [low_get _ _ hi, BitVec.getLsbD_shiftLeft]
    by_cases h : i < 8 <;> simp [h]
  have h2 : (a <<< 8) >>> 8 = a := by
    apply BitVec.eq_of_getLsbD_eq
    intro i hi
    rw [BitVec.getLsbD_ushiftRight, BitVec.getLsbD_shiftLeft]
    by_cases h3 : i < 24
    · simp [show 8 + i < 32 by omega]
    · simp [show ¬ 8 + i < 32 by omega, h i (by omega) hi]
  rw [step0, h1, h2]
  simp [table_zero]

theorem step0_low (c : Word) : step0 (low c) = table (low c) := by
  have h1 : low (low c) = low c := by
    apply BitVec.eq_of_getLsbD_eq
    intro i hi
    rw [low_get _ _ hi, low_get _ _ hi]
    by_cases h : i < 8 <;> simp [h]
  have h2 : low c >>> 8 = 0#32 := by
    apply BitVec.eq_of_getLsbD_eq
    intro i hi
    rw [BitVec.getLsbD_ushiftRight]
    by_cases h : 8 + i < 32
    · rw [low_get _ _ h]; simp
    · simp [BitVec.getLsbD_of_ge _ _ (show 32 ≤ 8 + i by omega)]
  rw [step0, h1, h2, BitVec.xor_zero]

theorem sliced_step (j : Nat) (i : Word) : sliced (j + 1) i = step0 (sliced j i) := by
  rw [sliced, step0, low]; ac_rfl

theorem linear4 (f : Word → Word) (hf : ∀ a b, f (a ^^^ b) = f a ^^^ f b) (c a b d e : Word) :
    f (f (f (f (c ^^^ a) ^^^ f b) ^^^ f (f d)) ^^^ f (f (f e))) = f (f (f (f (c ^^^ (a ^^^ b ^^^ d ^^^ e))))) := by
  simp only [hf]; ac_rfl

/-- four updates at once are four byte updates -/
theorem wordStep_eq (c : Word) (a b d e : BitVec 8) :
    wordStep c (load32 a b d e) = byteStep (byteStep (byteStep (byteStep c a) b) d) e := by
  -- the four bytes of the word
  have hdec : ∀ x : Word, x = low x ^^^ (low (x >>> 8) <<< 8) ^^^ (low (x >>> 16) <<< 16) ^^^ ((x >>> 24) <<< 24) := by
    intro x
    apply BitVec.eq_of_getLsbD_eq
    intro i hi
    simp only [BitVec.getLsbD_xor, BitVec.getLsbD_shiftLeft, BitVec.getLsbD_ushiftRight]
    rw [low_get _ _ hi, low_get _ _ (show i - 8 < 32 by omega), low_get _ _ (show i - 16 < 32 by omega)]
    simp only [BitVec.getLsbD_ushiftRight]
    by_cases h1 : i < 8
    · simp [h1, show i < 16 by omega, show i < 24 by omega]
    · by_cases h2 : i < 16
      · simp [h1, h2, hi, show i < 24 by omega, show i - 8 < 8 by omega, show 8 + (i - 8) = i by omega]
      · by_cases h3 : i < 24
        · simp [h1, h2, h3, hi, show ¬ i - 8 < 8 by omega, show i - 16 < 8 by omega, show 16 + (i - 16) = i by omega]
        · simp [h1, h2, h3, hi, show ¬ i - 8 < 8 by omega, show ¬ i - 16 < 8 by omega, show 24 + (i - 24) = i by omega]
  have hlow_hi : ∀ (x : Word) (i : Nat), 8 ≤ i → (low x).getLsbD i = false := by
    intro x i h
    by_cases hi : i < 32
    · rw [low_get _ _ hi]; simp [show ¬ i < 8 by omega]
    · exact BitVec.getLsbD_of_ge _ _ (by omega)
  have hs1 : ∀ x : Word, step0 (low x <<< 8) = low x := fun x => step0_shl _ (fun i h1 _ => hlow_hi x i (by omega))
  have hs2 : ∀ x : Word, step0 (low x <<< 16) = low x <<< 8 := by
    intro x
    rw [show low x <<< 16 = (low x <<< 8) <<< 8 by rw [shl_shl]]
    apply step0_shl
    intro i h1 h2
    rw [BitVec.getLsbD_shiftLeft, hlow_hi x _ (by omega)]; simp
  have hs3 : ∀ x : Word, step0 (low x <<< 24) = low x <<< 16 := by
    intro x
    rw [show low x <<< 24 = (low x <<< 16) <<< 8 by rw [shl_shl]]
    apply step0_shl
    intro i h1 h2
    rw [BitVec.getLsbD_shiftLeft, hlow_hi x _ (by omega)]; simp
  have hhi : ∀ x : Word, x >>> 24 = low (x >>> 24) := by
    intro x
    apply BitVec.eq_of_getLsbD_eq
    intro i hi
    rw [low_get _ _ hi, BitVec.getLsbD_ushiftRight]
    by_cases h : i < 8
    · simp [h]
    · simp [h]; exact BitVec.getLsbD_of_ge _ _ (by omega)
  -- right side: step0 four times on c xor the bytes
  have hR : byteStep (byteStep (byteStep (byteStep c a) b) d) e =
      step0 (step0 (step0 (step0 (c ^^^ load32 a b d e)))) := by
    have bl : ∀ b : BitVec 8, (b.zeroExtend 32 : Word) = low (b.zeroExtend 32) := by
      intro b
      apply BitVec.eq_of_getLsbD_eq
      intro i hi
      rw [low_get _ _ hi]
      by_cases h : i < 8
      · simp [h]
      · simp [h, BitVec.getLsbD_of_ge b i (by omega)]
    have hl : load32 a b d e = a.zeroExtend 32 ^^^ (b.zeroExtend 32 <<< 8) ^^^ (d.zeroExtend 32 <<< 16) ^^^ (e.zeroExtend 32 <<< 24) := by
      apply BitVec.eq_of_getLsbD_eq
      intro i hi
      simp only [load32, BitVec.getLsbD_or, BitVec.getLsbD_xor, BitVec.getLsbD_shiftLeft, BitVec.truncate_eq_setWidth,
        BitVec.getLsbD_setWidth]
      by_cases h1 : i < 8
      · simp [h1, show i < 16 by omega, show i < 24 by omega]
      · by_cases h2 : i < 16
        · simp [h1, h2, hi, show i < 24 by omega, BitVec.getLsbD_of_ge a i (by omega)]
        · by_cases h3 : i < 24
          · simp [h1, h2, h3, hi, BitVec.getLsbD_of_ge a i (by omega), BitVec.getLsbD_of_ge b (i - 8) (by omega)]
          · simp [h1, h2, h3, hi, BitVec.getLsbD_of_ge a i (by omega), BitVec.getLsbD_of_ge b (i - 8) (by omega),
              BitVec.getLsbD_of_ge d (i - 16) (by omega)]
    have e1 : step0 (b.zeroExtend 32 <<< 8) = (b.zeroExtend 32 : Word) := by rw [bl b, hs1]
    have e2 : step0 (step0 (d.zeroExtend 32 <<< 16)) = (d.zeroExtend 32 : Word) := by rw [bl d, hs2, hs1]
    have e3 : step0 (step0 (step0 (e.zeroExtend 32 <<< 24))) = (e.zeroExtend 32 : Word) := by rw [bl e, hs3, hs2, hs1]
    rw [byteStep_eq, byteStep_eq, byteStep_eq, byteStep_eq, hl]
    have := linear4 step0 step0_xor c (a.zeroExtend 32) (b.zeroExtend 32 <<< 8) (d.zeroExtend 32 <<< 16) (e.zeroExtend 32 <<< 24)
    rw [e1, e2, e3] at this
    exact this
  rw [hR]
  have s0 : ∀ x, sliced 0 (low x) = step0 (low x) := fun x => (step0_low x).symm
  have t1 : ∀ x, sliced 1 (low x) = step0 (step0 (low x)) := fun x => by
    have := sliced_step 0 (low x); rw [s0] at this; exact this
  have t2 : ∀ x, sliced 2 (low x) = step0 (step0 (step0 (low x))) := fun x => by
    have := sliced_step 1 (low x); rw [t1] at this; exact this
  have t3 : ∀ x, sliced 3 (low x) = step0 (step0 (step0 (step0 (low x)))) := fun x => by
    have := sliced_step 2 (low x); rw [t2] at this; exact this
  have hw : ∀ c w : Word, wordStep c w = sliced 3 (low (c ^^^ w)) ^^^ sliced 2 (low ((c ^^^ w) >>> 8)) ^^^
      sliced 1 (low ((c ^^^ w) >>> 16)) ^^^ sliced 0 (low ((c ^^^ w) >>> 24)) := by
    intro c w
    rw [← hhi]; rfl
  rw [hw, s0, t1, t2, t3]
  generalize c ^^^ load32 a b d e = x
  have hd2 : x = low x ^^^ (low (x >>> 8) <<< 8) ^^^ (low (x >>> 16) <<< 16) ^^^ (low (x >>> 24) <<< 24) := by
    rw [← hhi]; exact hdec x
  have q0 : step0 (step0 (step0 (step0 x))) = step0 (step0 (step0 (step0
      (low x ^^^ (low (x >>> 8) <<< 8) ^^^ (low (x >>> 16) <<< 16) ^^^ (low (x >>> 24) <<< 24))))) :=
    congrArg (fun z => step0 (step0 (step0 (step0 z)))) hd2
  rw [q0]
  simp only [step0_xor, hs1, hs2, hs3]

theorem aligned_eq (crc : Word) (l : List (BitVec 8)) : avCrcAligned crc l = l.foldl byteStep crc := by
  fun_induction avCrcAligned crc l with
  | case1 crc a b c d rest ih =>
    rw [ih, wordStep_eq]
    simp only [List.foldl_cons]
  | case2 => rfl

theorem head_eq (l : List (BitVec 8)) : ∀ (addr : Nat) (crc : Word), avCrcHead addr crc l = l.foldl byteStep crc := by
  induction l with
  | nil => intro addr crc; rw [avCrcHead, aligned_eq]
  | cons b l ih =>
    intro addr crc
    rw [avCrcHead]
    split
    · rw [aligned_eq]
    · rw [ih]; rfl

theorem avCrc_eq (addr : Nat) (crc : Word) (l : List (BitVec 8)) : avCrc addr crc l = l.foldl byteStep crc := by
  rw [avCrc]
  split
  · exact head_eq l addr crc
  · rfl

theorem bswap_shl24 (b : BitVec 8) : bswap (b.zeroExtend 32 <<< 24) = b.zeroExtend 32 := by
  apply BitVec.eq_of_getLsbD_eq
  intro i hi
  rw [bswap_get _ _ hi]
  simp only [BitVec.getLsbD_shiftLeft, BitVec.truncate_eq_setWidth, BitVec.getLsbD_setWidth]
  by_cases h : i < 8
  · have e : 24 - 8 * (i / 8) + i % 8 = 24 + i := by omega
    simp [e, hi]
    intro _; omega
  · have e : 24 - 8 * (i / 8) + i % 8 < 24 := by omega
    simp [e, BitVec.getLsbD_of_ge b i (by omega)]

theorem bswap_shl8 (y : Word) : bswap y >>> 8 = bswap (y <<< 8) := by
  apply BitVec.eq_of_getLsbD_eq
  intro i hi
  rw [bswap_get _ _ hi, BitVec.getLsbD_ushiftRight, BitVec.getLsbD_shiftLeft]
  by_cases h : i < 24
  · rw [bswap_get _ _ (by omega)]
    have e : 24 - 8 * ((8 + i) / 8) + (8 + i) % 8 = 24 - 8 * (i / 8) + i % 8 - 8 := by omega
    have e2 : ¬ 24 - 8 * (i / 8) + i % 8 < 8 := by omega
    have e3 : 24 - 8 * (i / 8) + i % 8 < 32 := by omega
    rw [e]
    simp [e2, e3]
  · have e : 24 - 8 * (i / 8) + i % 8 < 8 := by omega
    rw [BitVec.getLsbD_of_ge _ _ (show 32 ≤ 8 + i by omega)]
    simp [e]

theorem low_bswap (y : Word) : low (bswap y) = y >>> 24 := by
  apply BitVec.eq_of_getLsbD_eq
  intro i hi
  rw [low_get _ _ hi, bswap_get _ _ hi, BitVec.getLsbD_ushiftRight]
  by_cases h : i < 8
  · have e : 24 - 8 * (i / 8) + i % 8 = 24 + i := by omega
    simp [e, h]
  · simp [h, BitVec.getLsbD_of_ge y (24 + i) (by omega)]

theorem step0_bswap (y : Word) : step0 (bswap y) = bswap (polyStep8 y) := by
  rw [step0, low_bswap, bswap_shl8, table, ← bswap_xor]
  congr 1
  have h1 : polyStep8 ((y >>> 24) <<< 24 ^^^ y) = y <<< 8 := by
    rw [polyStep8_low]
    · apply BitVec.eq_of_getLsbD_eq
      intro i hi
      simp only [BitVec.getLsbD_shiftLeft, BitVec.getLsbD_xor, BitVec.getLsbD_ushiftRight]
      by_cases h : i < 8
      · simp [h]
      · simp [h, hi, show i - 8 < 24 by omega]
    · intro k hk
      simp only [BitVec.getLsbD_shiftLeft, BitVec.getLsbD_xor, BitVec.getLsbD_ushiftRight]
      simp [show 31 - k < 32 by omega, show ¬ 31 - k < 24 by omega, show 24 + (31 - k - 24) = 31 - k by omega]
  rw [← h1, polyStep8_xor, ← BitVec.xor_assoc, BitVec.xor_self, BitVec.zero_xor]

theorem fold_eq (l : List (BitVec 8)) : ∀ r : Word, l.foldl byteStep (bswap r) = bswap ((l.flatMap byteBits).foldl clock r) := by
  induction l with
  | nil => intro r; rfl
  | cons b l ih =>
    intro r
    rw [List.foldl_cons, List.flatMap_cons, List.foldl_append, ← polyStep8_byte, ← ih, byteStep_eq,
      ← step0_bswap, bswap_xor, bswap_shl24]

/-- C20: whatever the buffer holds, however long it is and wherever it lies in memory, the CRC computed by the program is
CRC-32/MPEG-2 of its bytes. -/
theorem crc_is_mpeg2 (addr : Nat) (bytes : List (BitVec 8)) : crc32 addr bytes = mpegCrc bytes := by
  rw [crc32, avCrc_eq, show (-1 : Word) = bswap 0xFFFFFFFF#32 by decide, fold_eq, bswap_bswap]; rfl

example : crc32 3 [0x31, 0x32, 0x33, 0x34, 0x35, 0x36, 0x37, 0x38, 0x39] = 0x0376E6E7#32 := by decide +kernel

theorem clock_top (r : Word) : (byteBits ((r >>> 24).truncate 8)).foldl clock r = r <<< 8 := by
  rw [← polyStep8_byte, polyStep8_low]
  · apply BitVec.eq_of_getLsbD_eq
    intro i hi
    simp only [BitVec.getLsbD_shiftLeft, BitVec.getLsbD_xor, BitVec.getLsbD_ushiftRight, BitVec.truncate_eq_setWidth,
      BitVec.getLsbD_setWidth]
    by_cases h : i < 8
    · simp [h]
    · simp [h, hi, show i - 8 < 24 by omega]
  · intro k hk
    simp only [BitVec.getLsbD_shiftLeft, BitVec.getLsbD_xor, BitVec.getLsbD_ushiftRight, BitVec.truncate_eq_setWidth,
      BitVec.getLsbD_setWidth]
    simp [show 31 - k < 32 by omega, show ¬ 31 - k < 24 by omega, show 24 + (31 - k - 24) = 31 - k by omega,
      show 31 - k - 24 < 8 by omega, show 31 - k - 24 < 32 by omega]

/-- C20: a receiver that runs the register over the bytes and the CRC written behind them finds zero. -/
theorem crc_residue_zero (addr : Nat) (bytes : List (BitVec 8)) :
    mpegCrc (bytes ++ bigEndian (crc32 addr bytes)) = 0 := by
  rw [crc_is_mpeg2]
  have e : ∀ l, mpegCrc (bytes ++ l) = (l.flatMap byteBits).foldl clock (mpegCrc bytes) := by
    intro l; rw [mpegCrc, List.flatMap_append, List.foldl_append]; rfl
  rw [e]
  generalize mpegCrc bytes = r
  have sh : ∀ k, k < 4 → ((r <<< (8 * k)) >>> 24).truncate 8 = (r >>> (24 - 8 * k)).truncate 8 := by
    intro k hk
    apply BitVec.eq_of_getLsbD_eq
    intro i hi
    simp only [BitVec.truncate_eq_setWidth, BitVec.getLsbD_setWidth, BitVec.getLsbD_ushiftRight, BitVec.getLsbD_shiftLeft]
    simp [hi, show 24 + i < 32 by omega, show ¬ 24 + i < 8 * k by omega, show 24 + i - 8 * k = 24 - 8 * k + i by omega]
  have t0 := clock_top r
  have t1 := clock_top (r <<< 8)
  have t2 := clock_top (r <<< 8 <<< 8)
  have t3 := clock_top (r <<< 8 <<< 8 <<< 8)
  have s1 := sh 1 (by omega)
  have s2 := sh 2 (by omega)
  have s3 := sh 3 (by omega)
  simp only [shl_shl] at t1 t2 t3
  rw [s1] at t1
  rw [s2] at t2
  rw [s3] at t3
  simp only [bigEndian, List.flatMap_cons, List.flatMap_nil, List.foldl_append, List.foldl_nil]
  rw [t0, t1, t2]
  have s3' : (r >>> (24 - 8 * 3)).truncate 8 = r.truncate 8 := by simp
  rw [s3'] at t3
  rw [t3]
  apply BitVec.eq_of_getLsbD_eq
  intro i hi
  simp [show i < 32 from hi]

example : mpegCrc ([0x00, 0xB0, 0x0D] ++ bigEndian (crc32 1 [0x00, 0xB0, 0x0D])) = 0 := by decide +kernel

end Verif.Crc
