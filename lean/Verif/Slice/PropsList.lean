import Verif.Slice.PropsSlice
/-
C158: the listing of the NAL units of a sample.
-/
namespace Verif.Slice
open Verif.H264 (Parser u flag ue se many opt uePair trailing decodeNal Sequence Reads At reads_ue reads_se reads_flag reads_u reads_opt reads_opt_some reads_opt_none reads_many reads_optional at_init nal_roundtrip_partial bits_length)
open Verif.BitStream (Byte Mem RErr RState rInit nextbits getbits skipbits)
open Verif.H264.Spec
open Spec

/-! ### SEI messages -/

theorem next_of_bits (v : Nat) (hv : v < 256) (s : RState) (rest : List Bool) (hs : At s (bits 8 v ++ rest)) : ∃ x, nextbits s 8 = .ok x ∧ x.toNat = v := by
  obtain ⟨s', h1, -⟩ := reads_u 8 v (by omega) (by omega) (by omega) s rest hs
  unfold u getbits at h1
  cases hn : nextbits s 8 with
  | error e => rw [hn] at h1; cases h1
  | ok x =>
    rw [hn] at h1
    refine ⟨x, rfl, ?_⟩
    injection h1 with h1
    injection h1

/-- The bits of bytes. -/
def byteBits (l : List Byte) : List Bool := l.flatMap fun x => bits 8 x.toNat

theorem reads_ff (r : Nat) (hr : r < 255) : ∀ (q fuel n : Nat), q < fuel → Reads (ffLoop fuel n) (byteBits (List.replicate q 255 ++ [BitVec.ofNat 8 r])) (n + 255 * q + r) := by
  have hrb : (BitVec.ofNat 8 r).toNat = r := by rw [BitVec.toNat_ofNat]; exact Nat.mod_eq_of_lt (by omega)
  intro q
  induction q with
  | zero =>
    intro fuel n hf s rest hs
    obtain ⟨f, rfl⟩ : ∃ f, fuel = f + 1 := ⟨fuel - 1, by omega⟩
    have hbits : byteBits (List.replicate 0 255 ++ [BitVec.ofNat 8 r]) = bits 8 r := by simp [byteBits, hrb, Nat.mod_eq_of_lt (show r < 256 by omega)]
    rw [hbits] at hs ⊢
    obtain ⟨x, hx, hxv⟩ := next_of_bits r (by omega) s rest hs
    have hne : ¬ x = 0xFF := by
      intro h
      rw [h] at hxv
      have : (0xFF : BitVec 32).toNat = 255 := rfl
      omega
    have := Reads.map (fun y => n + y) (reads_u 8 r (by omega) (by omega) (by omega)) s rest hs
    obtain ⟨s', h1, h2, h3⟩ := this
    refine ⟨s', ?_, h2, h3⟩
    simp only [ffLoop, hx, hne, if_false]
    exact h1
  | succ q ih =>
    intro fuel n hf s rest hs
    obtain ⟨f, rfl⟩ : ∃ f, fuel = f + 1 := ⟨fuel - 1, by omega⟩
    have hbits : byteBits (List.replicate (q + 1) 255 ++ [BitVec.ofNat 8 r]) = bits 8 255 ++ byteBits (List.replicate q 255 ++ [BitVec.ofNat 8 r]) := by
      rw [List.replicate_succ, List.cons_append, byteBits, List.flatMap_cons]; rfl
    rw [hbits] at hs ⊢
    obtain ⟨x, hx, hxv⟩ := next_of_bits 255 (by omega) s _ (by rw [List.append_assoc] at hs; exact hs)
    have he : x = 0xFF := BitVec.eq_of_toNat_eq hxv
    obtain ⟨s', h1, h2, h3⟩ := Reads.bind (f := fun _ => ffLoop f (n + 255)) (reads_u 8 255 (by omega) (by omega) (by omega)) (ih f (n + 255) (by omega)) s rest hs
    refine ⟨s', ?_, h2, h3⟩
    simp only [ffLoop, hx, he, if_true]
    rw [show n + 255 * (q + 1) + r = n + 255 + 255 * q + r by omega]
    exact h1

/-- C158: type and size of the first SEI message, of any size, are read. -/
theorem sei_read (type size : Nat) (payload rest : List Byte) (hp : payload = seiNumber type ++ (seiNumber size ++ rest)) (hl : payload.length < 2 ^ 29) (beyond : Mem) :
    ∃ r, sei (rInit payload beyond) = .ok ((type, size), r) := by
  have h0 := at_init payload (byteBits (seiNumber type) ++ (byteBits (seiNumber size) ++ byteBits rest)) (by rw [Bytes, hp, List.flatMap_append, List.flatMap_append]; rfl) hl beyond
  have hlt : type / 255 < payload.length + 1 := by rw [hp]; simp only [seiNumber, List.length_append, List.length_replicate, List.length_singleton]; omega
  have hls : size / 255 < payload.length + 1 := by rw [hp]; simp only [seiNumber, List.length_append, List.length_replicate, List.length_singleton]; omega
  have h1 := reads_ff (type % 255) (Nat.mod_lt _ (by omega)) (type / 255) (payload.length + 1) 0 hlt
  have h2 := reads_ff (size % 255) (Nat.mod_lt _ (by omega)) (size / 255) (payload.length + 1) 0 hls
  rw [show 0 + 255 * (type / 255) + type % 255 = type by omega] at h1
  rw [show 0 + 255 * (size / 255) + size % 255 = size by omega] at h2
  obtain ⟨s1, a1, a2, -⟩ := h1 _ _ h0
  obtain ⟨s2, b1, b2, -⟩ := h2 _ _ a2
  refine ⟨s2, ?_⟩
  have hlen : (rInit payload beyond).len = payload.length := rfl
  unfold sei
  simp only [bind, StateT.bind, Except.bind, get, getThe, MonadStateOf.get, StateT.get, pure, StateT.pure, Except.pure, hlen, a1, b1]

/-! ### The units of a sample -/

/-- The bytes of a length. -/
theorem length_read (k n : Nat) (hk : k = 1 ∨ k = 2 ∨ k = 3 ∨ k = 4) (hn : n < 256 ^ k) (pre post : List Byte) :
    lengthAt (pre ++ ((List.range k).map (fun i => BitVec.ofNat 8 (n / 256 ^ (k - 1 - i))) ++ post)) pre.length k 0 = some n := by
  have key : ∀ (b : Byte) (p q : List Byte), (p ++ b :: q)[p.length]? = some b := fun b p q => by simp
  have step : ∀ (p q : List Byte) (b : Byte) (k acc : Nat), lengthAt (p ++ b :: q) p.length (k + 1) acc = lengthAt ((p ++ [b]) ++ q) (p ++ [b]).length k ((acc * 256 % 2 ^ 32 + b.toNat) % 2 ^ 32) := by
    intro p q b k acc
    rw [lengthAt, key]
    simp
  have hm : ∀ x : Nat, (BitVec.ofNat 8 x).toNat = x % 256 := fun x => by rw [BitVec.toNat_ofNat]
  rcases hk with rfl | rfl | rfl | rfl
  · simp only [List.range_succ, List.range_zero, List.nil_append, List.map_cons, List.map_nil, List.singleton_append, Nat.sub_self, Nat.pow_zero, Nat.div_one]
    rw [step, lengthAt, hm]
    simp only [Option.some.injEq]; omega
  · simp only [List.range_succ, List.range_zero, List.nil_append, List.map_append, List.map_cons, List.map_nil, List.singleton_append, List.cons_append]
    rw [step, step, lengthAt, hm, hm]
    simp only [Option.some.injEq]; norm_num at *; omega
  · simp only [List.range_succ, List.range_zero, List.nil_append, List.map_append, List.map_cons, List.map_nil, List.singleton_append, List.cons_append]
    rw [step, step, step, lengthAt, hm, hm, hm]
    simp only [Option.some.injEq]; norm_num at *; omega
  · simp only [List.range_succ, List.range_zero, List.nil_append, List.map_append, List.map_cons, List.map_nil, List.singleton_append, List.cons_append]
    rw [step, step, step, step, lengthAt, hm, hm, hm, hm]
    simp only [Option.some.injEq]; norm_num at *; omega

theorem prefixed_cons (k : Nat) (x : List Byte) (xs : List (List Byte)) :
    prefixed k (x :: xs) = ((List.range k).map (fun i => BitVec.ofNat 8 (x.length / 256 ^ (k - 1 - i))) ++ x) ++ prefixed k xs := by rw [prefixed, List.flatMap_cons]; rfl

theorem units_from : ∀ (units : List (List Byte)) (pre : List Byte) (fuel : Nat), (pre ++ prefixed 4 units).length < 2 ^ 32 → units.length < fuel →
    unitsLoop (pre ++ prefixed 4 units) 4 fuel pre.length = some units
  | [], pre, fuel, _, hf => by
    obtain ⟨f, rfl⟩ : ∃ f, fuel = f + 1 := ⟨fuel - 1, by omega⟩
    simp [unitsLoop, prefixed]
  | x :: xs, pre, fuel, hl, hf => by
    obtain ⟨f, rfl⟩ : ∃ f, fuel = f + 1 := ⟨fuel - 1, by simp at hf; omega⟩
    have hxl : x.length < 2 ^ 32 := by rw [prefixed_cons] at hl; simp only [List.length_append] at hl; omega
    obtain ⟨len, hlen⟩ : ∃ len, len = (List.range 4).map (fun i => BitVec.ofNat 8 (x.length / 256 ^ (4 - 1 - i))) := ⟨_, rfl⟩
    have hlen4 : len.length = 4 := by rw [hlen]; simp
    have hsplit : pre ++ prefixed 4 (x :: xs) = pre ++ (len ++ (x ++ prefixed 4 xs)) := by rw [prefixed_cons, hlen]; simp only [List.append_assoc]
    have hread := length_read 4 x.length (by omega) (by norm_num; omega) pre (x ++ prefixed 4 xs)
    rw [← hlen] at hread
    have ih := units_from xs (pre ++ (len ++ x)) f (by rw [hsplit] at hl; simpa only [List.append_assoc] using hl) (by simp at hf; omega)
    rw [show pre ++ (len ++ x) ++ prefixed 4 xs = pre ++ (len ++ (x ++ prefixed 4 xs)) by simp only [List.append_assoc]] at ih
    rw [hsplit] at hl ⊢
    simp only [List.length_append, hlen4] at hl
    rw [unitsLoop, hread]
    rw [if_pos (by simp only [List.length_append, hlen4]; omega)]
    simp only
    rw [if_neg (by simp only [List.length_append, hlen4]; omega)]
    have hpos : (pre.length + (x.length + 4)) % 2 ^ 32 = (pre ++ (len ++ x)).length := by
      simp only [List.length_append, hlen4]; rw [Nat.mod_eq_of_lt (by omega)]; omega
    rw [hpos, ih]
    simp only [Option.map_some, Option.some.injEq, List.cons.injEq, and_true]
    rw [show pre.length + 4 = (pre ++ len).length by simp [hlen4], ← List.append_assoc, List.drop_left, List.take_left]

/-- C158: with lengths of four bytes every NAL unit of a sample is looked at once, in order. -/
theorem units_listed_partial (units : List (List Byte)) (hl : (prefixed 4 units).length < 2 ^ 32) (fuel : Nat) (hf : units.length < fuel) :
    unitsLoop (prefixed 4 units) 4 fuel 0 = some units := by
  have := units_from units [] fuel (by simpa using hl) hf
  simpa using this

/-- C158: a NAL unit of a sample as an encoder wrote it. -/
inductive Unit
  /-- A slice of a picture (1) or of an IDR picture (5): the header, and the bits behind it. -/
  | slice (nalType ref : Nat) (x : Slice) (rest : List Bool) (payload : List Byte)
  /-- An SEI unit: type and size of the first message, and the bytes behind. -/
  | sei (type size : Nat) (rest : List Byte)
  /-- Parameter sets, delimiters, filler data and everything else. -/
  | other (nalType ref : Nat) (payload : List Byte)

/-- The bytes of a unit. -/
def Unit.bytes : Unit → List Byte
  | .slice t ref _ _ payload => BitVec.ofNat 8 (ref * 32 + t) :: escape payload
  | .sei type size rest => BitVec.ofNat 8 (0 * 32 + 6) :: escape (seiNumber type ++ (seiNumber size ++ rest))
  | .other t ref payload => BitVec.ofNat 8 (ref * 32 + t) :: escape payload

/-- The line for it. -/
def Unit.line (s : Sps) (p : Spec.Pps) : Unit → Line
  | .slice t ref x _ _ => .slice t ref (headerMembers s p t x)
  | .sei type size _ => .sei type size
  | .other t _ _ => .other t

/-- Units that belong to the parameter sets. -/
def Unit.Ok (s : Sps) (p : Spec.Pps) : Unit → Prop
  | .slice t ref x rest payload => (t = 1 ∨ t = 5) ∧ ref < 4 ∧ SliceOk s x ∧ Bytes payload (sliceBits s p t x ++ rest) ∧ payload.length < 2 ^ 29 ∧ payload.getLast? ≠ some 3
  | .sei type size rest => (seiNumber type ++ (seiNumber size ++ rest)).length < 2 ^ 29 ∧ (seiNumber type ++ (seiNumber size ++ rest)).getLast? ≠ some 3
  | .other t ref payload => (t = 0 ∨ 6 < t) ∧ t < 32 ∧ ref < 4 ∧ payload.getLast? ≠ some 3

theorem line_read (s : Sps) (p : Spec.Pps) (e : Option Slice.Ext) (old : Bool) (beyond : Mem) (hold : s.frameMbsOnly = true → p.picOrder = true → old = false) (x : Unit) (ok : x.Ok s p) :
    lineOf (members s) (ppsMembers p e) old beyond x.bytes = .ok (x.line s p) := by
  cases x with
  | slice t ref x rest payload =>
    obtain ⟨ht, hr, hx, hb, hl, h3⟩ := ok
    have hd := nal_roundtrip_partial ref t hr (by omega) payload h3
    obtain ⟨r, h⟩ := slice_read_partial s p e t old x hx hold rest payload hl hb beyond
    simp only [Unit.bytes, lineOf, hd, List.drop_succ_cons, List.drop_zero, h]
    rw [if_pos (by omega)]
    rfl
  | sei type size rest =>
    obtain ⟨hl, h3⟩ := ok
    have hd := nal_roundtrip_partial 0 6 (by omega) (by omega) _ h3
    obtain ⟨r, h⟩ := sei_read type size _ rest rfl hl beyond
    simp only [Unit.bytes, lineOf, hd, List.drop_succ_cons, List.drop_zero, h]
    rw [if_neg (by omega)]
    simp only [if_true]
    rfl
  | other t ref payload =>
    obtain ⟨ht, ht2, hr, h3⟩ := ok
    have hd := nal_roundtrip_partial ref t hr ht2 payload h3
    simp only [Unit.bytes, lineOf, hd]
    rw [if_neg (by omega), if_neg (by omega)]
    rfl

theorem mapIdx_const {α β : Type} (f : Nat → α → β) (g : α → β) : ∀ (l : List α), (∀ i, ∀ x ∈ l, f i x = g x) → l.mapIdx f = l.map g := by
  intro l h
  apply List.ext_getElem (by simp)
  intro i h1 h2
  simp only [List.getElem_mapIdx, List.getElem_map]
  exact h _ _ (List.getElem_mem _)

/-- C158: the listing of a sample with lengths of four bytes has one line for each NAL unit, in order: for slices kind, importance and header, for SEI units type and size, for the others the kind. -/
theorem listing_partial (s : Sps) (p : Spec.Pps) (e : Option Slice.Ext) (memory : Nat → Bool) (beyond : Mem) (units : List Unit) (ok : ∀ x ∈ units, x.Ok s p)
    (hold : s.frameMbsOnly = true → p.picOrder = true → ∀ i, memory i = false) (hl : (prefixed 4 (units.map Unit.bytes)).length < 2 ^ 32) :
    listing (members s) (ppsMembers p e) memory beyond 4 (prefixed 4 (units.map Unit.bytes)) = some (units.map fun x => .ok (x.line s p)) := by
  have hlen : ∀ l : List (List Byte), l.length ≤ (prefixed 4 l).length := by
    intro l
    induction l with
    | nil => simp [prefixed]
    | cons x l ih => rw [prefixed_cons]; simp only [List.length_append, List.length_map, List.length_range, List.length_cons]; omega
  have := units_listed_partial (units.map Unit.bytes) hl ((prefixed 4 (units.map Unit.bytes)).length + 1) (by have := hlen (units.map Unit.bytes); omega)
  rw [listing, this]
  simp only [Option.map_some, Option.some.injEq]
  rw [mapIdx_const _ (fun x => lineOf (members s) (ppsMembers p e) false beyond x)]
  · rw [List.map_map]
    apply List.map_congr_left
    intro x hx
    exact line_read s p e false beyond (fun _ _ => rfl) x (ok x hx)
  · intro i y hy
    obtain ⟨x, hx, rfl⟩ := List.mem_map.mp hy
    rw [line_read s p e (memory i) beyond (fun h1 h2 => hold h1 h2 i) x (ok x hx), line_read s p e false beyond (fun _ _ => rfl) x (ok x hx)]

/-- C158, false: with lengths of less than four bytes the place of the second NAL unit is wrong: two units with lengths of two bytes; the second is looked for two bytes too far, where a length of 65 bytes leads out of the sample. -/
theorem length_size_witness : prefixed 2 [[0x65, 1, 2], [0x41, 0, 0x41, 5]] = [0, 3, 0x65, 1, 2, 0, 4, 0x41, 0, 0x41, 5] ∧
    unitsLoop [0, 3, 0x65, 1, 2, 0, 4, 0x41, 0, 0x41, 5] 2 12 0 = none := by decide +kernel

end Verif.Slice
