import Verif.BitStream.Lemmas

/-!
Properties C04, C05, C06, C48, C49, C50 (bit level reader and writer).
-/
namespace Verif.BitStream
open Spec

theorem bytesBits_inj {a b : List Byte} (h : bytesBits a = bytesBits b) : a = b := by
  induction a generalizing b with
  | nil =>
    cases b with
    | nil => rfl
    | cons y ys => exact absurd (congrArg List.length h) (by simp [bytesBits_length])
  | cons x xs ih =>
    cases b with
    | nil => exact absurd (congrArg List.length h) (by simp [bytesBits_length])
    | cons y ys =>
      simp only [bytesBits, List.flatMap_cons] at h
      obtain ⟨h1, h2⟩ := List.append_inj h (by simp [fieldBits_length])
      rw [ih h2]
      congr 1
      apply BitVec.eq_of_getLsbD_eq
      intro i hi
      have := congrArg (fun l => l[7 - i]?) h1
      simp only [fieldBits, List.getElem?_map] at this
      rw [List.getElem?_range (by omega)] at this
      simp only [Option.map_some, Option.some.injEq] at this
      rwa [show 8 - 1 - (7 - i) = i by omega] at this

/-- C05. Any sequence of `putbits` / `flush` / byte block calls succeeds; after a final `flush` the storage
holds exactly the complete bytes of the denoted bit string, and the position counts all bits. -/
theorem bitwriter_output (size : Nat) (beyond : Mem) (ops : List WOp)
    (h5 : 5 ≤ size) (hm : size < 2 ^ 29) (hok : ok 0 ops) :
    ∃ s, wRun (wInit size beyond) ops = some s ∧
      (flush s).out.length = (opsBits ops).length / 8 ∧
      bytesBits (flush s).out = (opsBits ops).take (8 * ((opsBits ops).length / 8)) ∧
      (flush s).cur = (opsBits ops).length % 8 ∧
      s.tot = (opsBits ops).length := by
  obtain ⟨s, h1, h2, h3, _, _⟩ := wRun_inv ops _ beyond [] (winit_inv size beyond h5 hm) rfl hok
  obtain ⟨hi, hc, _, _, _⟩ := flush_inv s beyond _ h2
  rw [List.nil_append] at hi h2 h3
  have hl := hi.length
  have hl2 := h2.length
  have hlen : (flush s).out.length = (opsBits ops).length / 8 := by omega
  refine ⟨s, h1, hlen, ?_, by omega, h3⟩
  rw [← hi.content, List.take_append_of_le_length]
  · rw [List.take_of_length_le]; rw [bytesBits_length]
    rw [hi.content, ← hlen]; omega
  · rw [bytesBits_length, hi.content, ← hlen]; omega

example : 5 ≤ 5 ∧ 5 < 2 ^ 29 ∧
    ok 0 [.put 5 3, .put 0xffffffff 32, .flush, .put 1 5, .bytes [1, 2], .put 9 31] :=
  ⟨by decide, by decide, by simp [ok]⟩

/-- C04. Writing any fields and reading the same widths from the stored bytes returns the values modulo
`2^width`, for every write buffer size and whatever memory follows the buffers. -/
theorem bits_roundtrip (size : Nat) (beyond beyond' : Mem) (fs : List (Word × Nat))
    (h5 : 5 ≤ size) (hm : size < 2 ^ 29) (hw : ∀ f ∈ fs, 1 ≤ f.2 ∧ f.2 ≤ 32)
    (hsum : (fs.map (·.2)).sum % 8 = 0) (hmax : (fs.map (·.2)).sum < 2 ^ 32) :
    ∃ s, wRun (wInit size beyond) (fs.map (fun f => .put f.1 f.2)) = some s ∧
      ∃ xs r, getMany (rInit (flush s).out beyond') (fs.map (·.2)) = .ok (xs, r) ∧
        xs.map BitVec.toNat = fs.map (fun f => f.1.toNat % 2 ^ f.2) := by
  have hok : ∀ (fs : List (Word × Nat)) t, (∀ f ∈ fs, 1 ≤ f.2 ∧ f.2 ≤ 32) →
      ok t (fs.map (fun f => WOp.put f.1 f.2)) := by
    intro fs
    induction fs with
    | nil => intro _ _; trivial
    | cons f fs ih =>
      intro t h
      exact ⟨(h f (by simp)).1, (h f (by simp)).2, ih _ (fun g hg => h g (by simp [hg]))⟩
  have hbits : ∀ (fs : List (Word × Nat)), opsBits (fs.map (fun f => WOp.put f.1 f.2)) =
      fs.flatMap (fun f => fieldBits f.1 f.2) := by
    intro fs
    induction fs with
    | nil => rfl
    | cons f fs ih => simp [opsBits, ih]
  have hlen : ∀ (fs : List (Word × Nat)), (fs.flatMap (fun f => fieldBits f.1 f.2)).length =
      (fs.map (·.2)).sum := by
    intro fs
    induction fs with
    | nil => rfl
    | cons f fs ih => simp only [List.flatMap_cons, List.length_append, ih, fieldBits_length]; simp
  obtain ⟨s, h1, h2, h3, _, _⟩ := bitwriter_output size beyond _ h5 hm (hok fs 0 hw)
  rw [hbits, hlen] at h2 h3
  refine ⟨s, h1, ?_⟩
  have hfull : 8 * ((fs.map (·.2)).sum / 8) = (fs.map (·.2)).sum := by omega
  rw [hfull, List.take_of_length_le (by rw [hlen]; omega)] at h3
  have hr := rInit_bits (flush s).out beyond'
  obtain ⟨xs, r, h4, h5, _⟩ := getMany_spec fs (rInit (flush s).out beyond')
    (by show (flush s).out.length < _; omega) hw
    (by show 0 + _ ≤ 8 * (flush s).out.length; omega)
    (by
      rw [← h3, ← hr]
      rw [h2, hfull]
      apply List.map_congr_left
      intro i _
      show bitAt _ (0 + i) = _
      rw [Nat.zero_add])
  exact ⟨xs, r, h4, h5⟩

example : 5 ≤ 6 ∧ 6 < 2 ^ 29 ∧
    (∀ f ∈ ([(5, 3), (0xfffffffe, 32), (7, 5), (1, 1), (2, 7)] : List (Word × Nat)), 1 ≤ f.2 ∧ f.2 ≤ 32) ∧
    (([(5, 3), (0xfffffffe, 32), (7, 5), (1, 1), (2, 7)] : List (Word × Nat)).map (·.2)).sum % 8 = 0 := by
  decide

/-- C06 (partial: the code touches up to three bytes past its buffer, see `bitwriter_oob_witness`).
For every history no access lies three or more bytes past the allocation, and the memory past the allocation
always keeps its value. -/
theorem bitwriter_memory_partial (size : Nat) (beyond : Mem) (ops : List WOp)
    (h5 : 5 ≤ size) (hm : size < 2 ^ 29) (hok : ok 0 ops) :
    ∃ s, wRun (wInit size beyond) ops = some s ∧ s.hi ≤ size + 3 ∧ ∀ j, size ≤ j → s.mem j = beyond j := by
  obtain ⟨s, h1, h2, _, h4, h5⟩ := wRun_inv ops _ beyond [] (winit_inv size beyond h5 hm) rfl hok
  refine ⟨s, h1, ?_, ?_⟩
  · have : (wInit size beyond).hi = 0 := rfl
    have h6 : (wInit size beyond).size = size := rfl
    rw [this, h6] at h5; omega
  · intro j hj
    exact h2.far j (by rw [h4]; exact hj)

/-- C06 is false of the code: a single bit written into the last byte of the buffer accesses the three bytes
after the allocation (for every buffer size from 5 bytes on). -/
theorem bitwriter_oob_witness (size : Nat) (beyond : Mem) (v : Word) (h5 : 5 ≤ size) (hm : size < 2 ^ 29) :
    ∃ ops s, ok 0 ops ∧ wRun (wInit size beyond) (ops ++ [.put v 1]) = some s ∧ s.hi = size + 3 := by
  -- fill the buffer up to its last byte with byte fields
  let fill : Nat → List WOp := fun k => List.replicate k (.put 0 8)
  have hokf : ∀ k t, ok t (fill k) := by
    intro k
    induction k with
    | zero => intro _; trivial
    | succ k ih => intro t; exact ⟨by decide, by decide, ih _⟩
  have hrun : ∀ k, k < size → ∃ s bits, wRun (wInit size beyond) (fill k) = some s ∧ WInv s beyond bits ∧
      s.cur = 8 * k ∧ s.size = size ∧ s.hi ≤ size + 3 := by
    intro k
    induction k with
    | zero => intro _; exact ⟨_, [], rfl, winit_inv size beyond h5 hm, rfl, rfl, by simp [wInit]⟩
    | succ k ih =>
      intro hk
      obtain ⟨s, bits, h1, h2, h3, h4, h4'⟩ := ih (by omega)
      obtain ⟨m, hmk, hmb⟩ := tmask_some 8 (by omega)
      have hsplit : fill (k + 1) = fill k ++ [.put 0 8] := by
        simp [fill, List.replicate_succ']
      have hbind : ∀ (a b : List WOp) s, wRun s (a ++ b) = (wRun s a).bind (fun s => wRun s b) := by
        intro a
        induction a with
        | nil => intro b s; rfl
        | cons o a ih => intro b s; simp only [List.cons_append, wRun]; cases wStep s o <;> simp [ih]
      obtain ⟨s', q1, q2, q3, q4, q5, q6, _⟩ := putCore_inv s beyond bits 0 (0 &&& m) 8 h2 (by omega) (by omega)
        (by omega) (by intro j; rw [BitVec.getLsbD_and, hmb, Bool.and_comm])
      refine ⟨s', _, ?_, q2, by omega, by omega, by omega⟩
      rw [hsplit, hbind, h1]
      simp only [Option.bind_some, wRun, wStep, putbits, hmk]
      rw [if_neg (by omega), q1]; rfl
  obtain ⟨s, bits, h1, h2, h3, h4, h4'⟩ := hrun (size - 1) (by omega)
  obtain ⟨m, hmk, hmb⟩ := tmask_some 1 (by omega)
  have hbind : ∀ (a b : List WOp) s, wRun s (a ++ b) = (wRun s a).bind (fun s => wRun s b) := by
    intro a
    induction a with
    | nil => intro b s; rfl
    | cons o a ih => intro b s; simp only [List.cons_append, wRun]; cases wStep s o <;> simp [ih]
  obtain ⟨s', q1, _⟩ := putCore_inv s beyond bits v (v &&& m) 1 h2 (by omega) (by omega)
    (by omega) (by intro j; rw [BitVec.getLsbD_and, hmb, Bool.and_comm])
  refine ⟨fill (size - 1), s', hokf _ _, ?_, ?_⟩
  · rw [hbind, h1]
    simp only [Option.bind_some, wRun, wStep, putbits, hmk]
    rw [if_neg (by omega), q1]; rfl
  · have := (putCore_fields s s' v _ 1 q1).2.2.2.2
    rw [if_pos (by omega)] at this
    omega

example : 5 ≤ 8192 ∧ 8192 < 2 ^ 29 := by decide

theorem stmask_aux : ∀ n : Fin 33, ∀ j : Fin 32,
    (stmaskTable.getD n.val 0).getLsbD j.val = decide (1 ≤ n.val ∧ j.val = n.val - 1) := by decide +kernel
theorem ctmask_aux : ∀ n : Fin 33, ∀ j : Fin 32,
    (ctmaskTable.getD n.val 0).getLsbD j.val = decide (n.val ≤ j.val) := by decide +kernel

/-- C48. `sgetbits` of 2..32 bits returns the 32 bit two's complement value of the field, and the fixed memory
reader answers EndOfData exactly when the field does not fit in the remaining bytes. -/
theorem sgetbits_sign_extends (bs : List Byte) (beyond : Mem) (cur tot n : Nat)
    (h1 : 2 ≤ n) (h2 : n ≤ 32) (hl : bs.length < 2 ^ 29) :
    let s : RState := { rInit bs beyond with cur := cur, tot := tot }
    (8 * bs.length < cur + n → sgetbits s n = .error .endOfData) ∧
    (cur + n ≤ 8 * bs.length →
      ∃ v : BitVec n, fieldBits v n = ((bytesBits bs).drop cur).take n ∧
        ∃ s', sgetbits s n = .ok (v.signExtend 32, s') ∧ s'.cur = cur + n) := by
  intro s
  constructor
  · intro h
    have := nextbits_end s n h2 hl h
    simp [sgetbits, getbits, this]
  · intro h
    obtain ⟨x, hx, hxb⟩ := nextbits_spec s n (by omega) h2 hl h
    refine ⟨x.setWidth n, ?_, ?_⟩
    · rw [← rInit_bits bs beyond]
      apply List.ext_getElem?
      intro i
      by_cases hi : i < n
      · simp only [fieldBits, List.getElem?_map, List.getElem?_take, hi, if_true, List.getElem?_drop]
        rw [List.getElem?_range hi, List.getElem?_range (by omega)]
        simp only [Option.map_some, BitVec.getLsbD_setWidth, hxb]
        rw [decide_eq_true (show n - 1 - i < n by omega)]
        simp only [Bool.true_and, Option.some.injEq]
        show bitAt _ (cur + n - 1 - (n - 1 - i)) = _
        congr 1; omega
      · rw [List.getElem?_eq_none (by simp [fieldBits]; omega), List.getElem?_eq_none (by simp; omega)]
    · simp only [sgetbits, getbits, hx]
      have hn1 : x.getLsbD (n - 1) = (x.setWidth n).msb := by
        rw [BitVec.msb_eq_getLsbD_last, BitVec.getLsbD_setWidth]; simp; omega
      have hst : (x &&& stmaskTable.getD n 0 ≠ 0) ↔ x.getLsbD (n - 1) = true := by
        constructor
        · intro hne
          refine Classical.byContradiction fun hf => hne ?_
          apply BitVec.eq_of_getLsbD_eq
          intro j hj
          rw [BitVec.getLsbD_and, stmask_aux ⟨n, by omega⟩ ⟨j, hj⟩]
          by_cases hjn : j = n - 1
          · subst hjn; simp at hf; simp [hf]
          · simp [hjn]
        · intro ht hz
          have := congrArg (fun w => w.getLsbD (n - 1)) hz
          simp only [BitVec.getLsbD_and] at this
          rw [stmask_aux ⟨n, by omega⟩ ⟨n - 1, by omega⟩, ht] at this
          simp at this; omega
      by_cases hm : x.getLsbD (n - 1) = true
      · rw [if_pos ⟨by omega, hst.2 hm⟩]
        refine ⟨{ s with cur := s.cur + n, tot := s.tot + n }, ?_, rfl⟩
        congr 2
        apply BitVec.eq_of_getLsbD_eq
        intro j hj
        rw [BitVec.getLsbD_or, ctmask_aux ⟨n, by omega⟩ ⟨j, hj⟩, BitVec.getLsbD_signExtend, ← hn1, hm,
          BitVec.getLsbD_setWidth]
        by_cases hjn : j < n
        · have : ¬ n ≤ j := by omega
          simp [hjn, hj, this]
        · have : n ≤ j := by omega
          simp [hjn, hj, this]
      · rw [if_neg (by intro hc; exact hm (hst.1 hc.2))]
        refine ⟨{ s with cur := s.cur + n, tot := s.tot + n }, ?_, rfl⟩
        congr 2
        apply BitVec.eq_of_getLsbD_eq
        intro j hj
        rw [BitVec.getLsbD_signExtend, ← hn1, BitVec.getLsbD_setWidth]
        by_cases hjn : j < n
        · simp [hjn, hj]
        · rw [hxb]; simp at hm; simp [hjn, hm]

example : sgetbits { rInit [0xfe, 0x10] (fun _ => 0) with cur := 4, tot := 4 } 8 =
    .ok (0xffffffe1, { rInit [0xfe, 0x10] (fun _ => 0) with cur := 12, tot := 12 }) := by rfl

theorem nextbits_zero (s : RState) (hl : s.len < 2 ^ 29) (hfit : s.cur + 0 ≤ 8 * s.len) :
    nextbits s 0 = if s.cur % 8 = 0 then .error .ub else .ok 0 := by
  have hmod : s.len * 8 % 2 ^ 32 = 8 * s.len := by omega
  have e0 : tmaskTable[0]? = some 0 := rfl
  simp only [nextbits, e0, hmod]
  rw [if_neg (by omega), Nat.zero_add]
  split
  · rfl
  · rw [if_pos (by omega)]; exact congrArg _ BitVec.and_zero

/-- C49. What the fixed memory reader returns never depends on the memory after the buffer (although it loads
bytes from there), and a request that exceeds the remaining bits is refused. -/
theorem reader_ignores_memory_beyond (bs : List Byte) (m m' : Mem) (hl : bs.length < 2 ^ 29)
    (ns : List Nat) (cur tot : Nat) :
    (getMany { rInit bs m with cur := cur, tot := tot } ns).map (·.1) =
      (getMany { rInit bs m' with cur := cur, tot := tot } ns).map (·.1) := by
  induction ns generalizing cur tot with
  | nil => rfl
  | cons n ns ih =>
    have hnext : nextbits { rInit bs m with cur := cur, tot := tot } n =
        nextbits { rInit bs m' with cur := cur, tot := tot } n := by
      by_cases h32 : n ≤ 32
      · by_cases hfit : cur + n ≤ 8 * bs.length
        · by_cases h0 : n = 0
          · subst h0
            rw [nextbits_zero _ hl hfit, nextbits_zero _ hl hfit]
          · obtain ⟨x, hx, hxb⟩ := nextbits_spec { rInit bs m with cur := cur, tot := tot } n (by omega) h32 hl hfit
            obtain ⟨y, hy, hyb⟩ := nextbits_spec { rInit bs m' with cur := cur, tot := tot } n (by omega) h32 hl hfit
            rw [hx, hy]
            congr 1
            apply BitVec.eq_of_getLsbD_eq
            intro j hj
            rw [hxb, hyb]
            by_cases hjn : j < n
            · simp only [decide_eq_true hjn, Bool.true_and, bitAt, rInit]
              rw [List.getElem?_eq_getElem (by omega : (cur + n - 1 - j) / 8 < bs.length)]
            · simp [hjn]
        · rw [nextbits_end _ n h32 hl (by show 8 * bs.length < cur + n; omega),
            nextbits_end _ n h32 hl (by show 8 * bs.length < cur + n; omega)]
      · have := tmask_none n (by omega)
        simp [nextbits, this]
    simp only [getMany, getbits, hnext]
    cases nextbits { rInit bs m' with cur := cur, tot := tot } n with
    | error e => rfl
    | ok x =>
      have := ih (cur + n) (tot + n)
      simp only
      revert this
      cases getMany { rInit bs m with cur := cur + n, tot := tot + n } ns <;>
        cases getMany { rInit bs m' with cur := cur + n, tot := tot + n } ns <;>
        simp [Except.map]

example : ([1, 2, 3] : List Byte).length < 2 ^ 29 ∧
    (getMany (rInit [0xab, 0xcd] (fun _ => 0)) [4, 12]).map (·.1) = .ok [0xa, 0xbcd] := ⟨by decide, by rfl⟩

theorem littlePutLoop_eq (v : Word) (b : Nat) : ∀ (s : WState) (i : Nat),
    littlePutLoop s v i b = wRun s ((List.range b).map (fun k => .put ((v >>> (8 * (i + k))) &&& 0xff) 8)) := by
  induction b with
  | zero => intro s i; rfl
  | succ b ih =>
    intro s i
    rw [List.range_succ_eq_map]
    simp only [littlePutLoop, List.map_cons, List.map_map, wRun, wStep, Nat.add_zero]
    cases putbits s (v >>> (8 * i) &&& 255#32) 8 with
    | none => rfl
    | some s' =>
      simp only [Option.bind_some]
      rw [ih]
      congr 1
      apply List.map_congr_left
      intro k _
      simp only [Function.comp]
      congr 3; omega

theorem getbits8 (s : RState) (hl : s.len < 2 ^ 29) (i : Nat) (hc : s.cur = 8 * i) (hi : i < s.len) :
    getbits s 8 = .ok ((s.mem i).setWidth 32, { s with cur := s.cur + 8, tot := s.tot + 8 }) := by
  obtain ⟨x, hx, hxb⟩ := nextbits_spec s 8 (by omega) (by omega) hl (by omega)
  simp only [getbits, hx]
  congr 2
  apply BitVec.eq_of_getLsbD_eq
  intro j hj
  rw [hxb, BitVec.getLsbD_setWidth]
  by_cases h8 : j < 8
  · simp only [h8, hj, decide_true, Bool.true_and, bitAt, hc]
    rw [show (8 * i + 8 - 1 - j) / 8 = i by omega, show 7 - (8 * i + 8 - 1 - j) % 8 = j by omega]
  · rw [BitVec.getLsbD_of_ge (s.mem i) j (by omega)]; simp [h8]

theorem littleGetLoop_spec (b : Nat) : ∀ (s : RState) (x : Word) (i : Nat), s.len < 2 ^ 29 →
    s.cur = 8 * i → i + b ≤ s.len →
    ∃ y s', littleGetLoop s x i b = .ok (y, s') ∧
      ∀ j, j < 32 → y.getLsbD j =
        (x.getLsbD j || (decide (8 * i ≤ j ∧ j < 8 * (i + b)) && (s.mem (j / 8)).getLsbD (j % 8))) := by
  induction b with
  | zero =>
    intro s x i _ _ _
    refine ⟨x, s, rfl, ?_⟩
    intro j _
    have : ¬ (8 * i ≤ j ∧ j < 8 * (i + 0)) := by omega
    rw [decide_eq_false this]; simp
  | succ b ih =>
    intro s x i hl hc hi
    simp only [littleGetLoop, getbits8 s hl i hc (by omega)]
    obtain ⟨y, s', h1, h2⟩ := ih { s with cur := s.cur + 8, tot := s.tot + 8 }
      (x ||| ((s.mem i).setWidth 32 <<< (8 * i))) (i + 1) hl (by simp; omega) (by simp; omega)
    refine ⟨y, s', h1, ?_⟩
    intro j hj
    rw [h2 j hj, BitVec.getLsbD_or, BitVec.getLsbD_shiftLeft, BitVec.getLsbD_setWidth]
    by_cases h3 : 8 * i ≤ j ∧ j < 8 * (i + 1)
    · have h4 : ¬ (8 * (i + 1) ≤ j ∧ j < 8 * (i + 1 + b)) := by omega
      have h5 : (8 * i ≤ j ∧ j < 8 * (i + (b + 1))) := by omega
      rw [decide_eq_false h4, decide_eq_true h5, show j / 8 = i by omega, show j % 8 = j - 8 * i by omega]
      have h6 : ¬ j < 8 * i := by omega
      have h7 : j - 8 * i < 32 := by omega
      simp [hj, h6, h7]
    · have hz : (decide (j < 32) && !decide (j < 8 * i) && (decide (j - 8 * i < 32) &&
          (s.mem i).getLsbD (j - 8 * i))) = false := by
        by_cases h6 : j < 8 * i
        · simp [h6]
        · rw [BitVec.getLsbD_of_ge _ _ (by omega)]; simp
      rw [hz, Bool.or_false]
      congr 2
      simp only [decide_eq_decide]; omega

/-- C49. A field that does not fit into the remaining bits is refused with EndOfData; one that fits is the
denoted bits of the block. -/
theorem getbits_end_of_data (bs : List Byte) (beyond : Mem) (cur tot n : Nat)
    (h1 : 1 ≤ n) (h2 : n ≤ 32) (hl : bs.length < 2 ^ 29) :
    let s : RState := { rInit bs beyond with cur := cur, tot := tot }
    (8 * bs.length < cur + n → getbits s n = .error .endOfData) ∧
    (cur + n ≤ 8 * bs.length → ∃ x, getbits s n = .ok (x, { s with cur := cur + n, tot := tot + n })) := by
  intro s
  constructor
  · intro h
    have := nextbits_end s n h2 hl h
    simp [getbits, this]
  · intro h
    obtain ⟨x, hx, _⟩ := nextbits_spec s n h1 h2 hl h
    exact ⟨x, by simp only [getbits, hx]; rfl⟩

example : (8 * ([1, 2] : List Byte).length < 5 + 12) ∧ (5 + 11 ≤ 8 * ([1, 2] : List Byte).length) := by decide

/-- C50. Little-endian fields of 1..4 bytes: `little_putbits` stores the bytes least significant first and
`little_getbits` gives back the value modulo `2^(8k)`. -/
theorem little_roundtrip (size : Nat) (beyond beyond' : Mem) (v : Word) (k : Nat)
    (h5 : 5 ≤ size) (hm : size < 2 ^ 29) (hk : k ≤ 4) :
    ∃ s, littlePutbits (wInit size beyond) v (8 * k) = some s ∧
      (flush s).out = (List.range k).map (fun i => (v >>> (8 * i)).setWidth 8) ∧
      ∃ x r, littleGetbits (rInit (flush s).out beyond') (8 * k) = .ok (x, r) ∧
        x.toNat = v.toNat % 2 ^ (8 * k) := by
  have hok : ∀ (b i t : Nat), ok t ((List.range b).map
      (fun k => WOp.put ((v >>> (8 * (i + k))) &&& 0xff) 8)) := by
    intro b
    induction b with
    | zero => intro i t; trivial
    | succ b ih =>
      intro i t
      rw [List.range_succ_eq_map]
      refine ⟨by decide, by decide, ?_⟩
      have := ih (i + 1) (t + 8)
      rw [List.map_map]
      simp only [Nat.add_assoc, Nat.add_comm 1] at this
      exact this
  have hbits : ∀ (b i : Nat), opsBits ((List.range b).map
      (fun k => WOp.put ((v >>> (8 * (i + k))) &&& 0xff) 8)) =
      bytesBits ((List.range b).map (fun k => (v >>> (8 * (i + k))).setWidth 8)) := by
    intro b
    induction b with
    | zero => intro i; rfl
    | succ b ih =>
      intro i
      rw [List.range_succ_eq_map]
      simp only [List.map_cons, List.map_map, opsBits, bytesBits, List.flatMap_cons, Nat.add_zero]
      congr 1
      · simp only [fieldBits]
        apply List.map_congr_left
        intro q hq
        rw [List.mem_range] at hq
        rw [BitVec.getLsbD_and, BitVec.getLsbD_setWidth]
        have : (255 : Word).getLsbD (8 - 1 - q) = true := by
          have h : ∀ q : Fin 8, (255 : Word).getLsbD (8 - 1 - q.val) = true := by decide
          exact h ⟨q, hq⟩
        rw [this]
        have h8 : 8 - 1 - q < 8 := by omega
        simp [h8]
      · have := ih (i + 1)
        simp only [Nat.add_assoc, Nat.add_comm 1, bytesBits] at this
        exact this
  obtain ⟨s, h1, h2, h3, _⟩ := bitwriter_output size beyond _ h5 hm (hok k 0 0)
  simp only [hbits k 0, bytesBits_length, List.length_map, List.length_range] at h2 h3
  rw [show 8 * (8 * k / 8) = 8 * k by omega, List.take_of_length_le (by simp [bytesBits_length])] at h3
  have hout := bytesBits_inj h3
  simp only [Nat.zero_add] at hout
  have hkl : (flush s).out.length = k := by rw [hout]; simp
  refine ⟨s, ?_, hout, ?_⟩
  · simp only [littlePutbits, show 8 * k / 8 = k by omega, littlePutLoop_eq, h1]
    rw [if_neg (by omega)]
  · obtain ⟨y, s', g1, g2⟩ := littleGetLoop_spec k (rInit (flush s).out beyond') 0 0
      (by show (flush s).out.length < _; omega) rfl (by show _ ≤ (flush s).out.length; omega)
    refine ⟨y, s', ?_, ?_⟩
    · simp only [littleGetbits, show 8 * k / 8 = k by omega, g1]
      rw [if_neg (by omega)]
    · apply Nat.eq_of_testBit_eq
      intro j
      rw [Nat.testBit_mod_two_pow, BitVec.testBit_toNat, BitVec.testBit_toNat]
      by_cases hj : j < 8 * k
      · rw [g2 j (by omega)]
        have hb : (8 * 0 ≤ j ∧ j < 8 * (0 + k)) := by omega
        rw [decide_eq_true hb, decide_eq_true hj]
        simp only [rInit, hout]
        have hq : j / 8 < k := by omega
        have h8 : j % 8 < 8 := by omega
        simp [List.getElem?_range hq, h8]
        congr 1; omega
      · rw [decide_eq_false hj, Bool.false_and]
        by_cases h32 : j < 32
        · rw [g2 j h32]
          have hb : ¬ (8 * 0 ≤ j ∧ j < 8 * (0 + k)) := by omega
          rw [decide_eq_false hb]; simp
        · exact BitVec.getLsbD_of_ge _ _ (by omega)

example : 5 ≤ 5 ∧ 5 < 2 ^ 29 ∧ 3 ≤ 4 := by decide

end Verif.BitStream
