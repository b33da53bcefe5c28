import Verif.Drm.Props2
/-
DRM signalling: the printed form of the PlayReady object (`mg mp4info`).
-/
namespace Verif.Drm
open Verif.BitStream (Mem)

/-! ### C122 -/

theorem wide2 (pre : List UInt8) (h : List Char) (hc : ∀ c ∈ h, c.toNat < 65536) :
    wideAt 2 (pre ++ h.flatMap fun c => leB 2 c.toNat) pre.length h.length = some (h.map Char.toNat) := by
  have hfl := flat_length h
  rw [wideAt, if_neg (by rw [List.length_append, hfl]; omega)]
  congr 1
  have key : ∀ (l : List Char), (∀ c ∈ l, c.toNat < 65536) → (List.range l.length).map
      (fun i => leVal (((l.flatMap fun c => leB 2 c.toNat).drop (2 * i)).take 2)) = l.map Char.toNat := by
    intro l
    induction l with
    | nil => intro _; rfl
    | cons c l ih =>
      intro hl
      have ih := ih (fun d hd => hl d (by simp [hd]))
      rw [List.length_cons, List.range_succ_eq_map, List.map_cons, List.map_map, List.map_cons, ← ih, List.flatMap_cons, leB2]
      congr 1
      rw [Nat.mul_zero, List.drop_zero, List.cons_append, List.cons_append, List.nil_append, List.take, List.take, List.take_zero,
        leVal_eq, le2, Nat.mod_eq_of_lt (hl c (by simp))]
  rw [← key h hc]
  apply List.map_congr_left
  intro i _
  rw [← List.drop_drop, List.drop_left]

theorem dump_one (w a : Nat) (b0 b1 b2 b3 : UInt8) (rest : List UInt8) :
    dumpPro w ([b0, b1, b2, b3] ++ leB 2 1 ++ leB 2 1 ++ leB 2 a ++ rest) =
      (wideAt w ([b0, b1, b2, b3] ++ leB 2 1 ++ leB 2 1 ++ leB 2 a ++ rest) 10 (a % 65536 / 2)).map fun t => [(1, t)] := by
  have l1 : leVal (leB 2 1) = 1 := rfl
  have la : leVal (leB 2 a) = a % 65536 := by rw [leVal_eq, leB2, le2]
  have lb : ∀ v, (leB 2 v).length = 2 := fun v => rfl
  rw [dumpPro]
  have t1 : takeBytes 4 ([b0, b1, b2, b3] ++ leB 2 1 ++ leB 2 1 ++ leB 2 a ++ rest) =
      some ([b0, b1, b2, b3], leB 2 1 ++ leB 2 1 ++ leB 2 a ++ rest) := by
    simp only [List.append_assoc]; exact takeBytes_app 4 _ _ rfl
  have t2 : takeBytes 2 (([b0, b1, b2, b3] ++ leB 2 1 ++ leB 2 1 ++ leB 2 a ++ rest).drop 4) =
      some (leB 2 1, leB 2 1 ++ leB 2 a ++ rest) := by
    simp only [List.append_assoc]; rw [drop4]; exact takeBytes_app 2 _ _ rfl
  have t3 : takeBytes 2 (([b0, b1, b2, b3] ++ leB 2 1 ++ leB 2 1 ++ leB 2 a ++ rest).drop 6) =
      some (leB 2 1, leB 2 a ++ rest) := by
    simp only [List.append_assoc]; rw [show (6 : Nat) = 4 + 2 from rfl, ← List.drop_drop, drop4, List.drop_left' (lb _)]
    exact takeBytes_app 2 _ _ rfl
  have t4 : takeBytes 2 (([b0, b1, b2, b3] ++ leB 2 1 ++ leB 2 1 ++ leB 2 a ++ rest).drop (6 + 2)) =
      some (leB 2 a, rest) := by
    simp only [List.append_assoc]
    rw [show (6 : Nat) + 2 = 4 + 2 + 2 from rfl, ← List.drop_drop, ← List.drop_drop, drop4, List.drop_left' (lb _), List.drop_left' (lb _)]
    exact takeBytes_app 2 _ _ rfl
  rw [t1, Option.bind_some, t2, Option.bind_some, l1]
  rw [dumpRecords, t3, Option.bind_some, t4, Option.bind_some]
  simp only [l1, la, if_true]
  rw [show (6 + 4) % 65536 = 10 from rfl]
  cases wideAt w _ 10 (a % 65536 / 2) <;> simp [dumpRecords]

/-- C122 (part): where `wchar_t` has two bytes the tool prints, for the object it writes itself, one record of kind 1 with the header. -/
theorem dump_playready_partial (beyond : Mem) (header : List Char) (hl : header.length < 32768) (hc : ∀ c ∈ header, c.toNat < 65536) :
    ∃ body, proBody beyond 2 header = some body ∧ dumpPro 2 body = some [(1, header.map Char.toNat)] := by
  refine ⟨_, body_bytes beyond 2 header, ?_⟩
  rw [leB4, dump_one, Nat.mod_eq_of_lt (by omega), Nat.mul_div_cancel_left _ (by decide : 0 < 2)]
  have := wide2 ([UInt8.ofNat (10 + 2 * header.length), UInt8.ofNat ((10 + 2 * header.length) / 256),
    UInt8.ofNat ((10 + 2 * header.length) / 65536), UInt8.ofNat ((10 + 2 * header.length) / 16777216)] ++ leB 2 1 ++ leB 2 1 ++
    leB 2 (2 * header.length)) header hc
  rw [show (([UInt8.ofNat (10 + 2 * header.length), UInt8.ofNat ((10 + 2 * header.length) / 256),
    UInt8.ofNat ((10 + 2 * header.length) / 65536), UInt8.ofNat ((10 + 2 * header.length) / 16777216)] ++ leB 2 1 ++ leB 2 1 ++
    leB 2 (2 * header.length)).length) = 10 from rfl] at this
  rw [this]
  rfl

example : "<WRMHEADER></WRMHEADER>".toList.length < 32768 ∧ ∀ c ∈ "<WRMHEADER></WRMHEADER>".toList, c.toNat < 65536 := by decide

/-- C122, why only in part: where `wchar_t` has four bytes (Linux) the tool reads outside of the box data: for every well-formed object
with one header record of two or more bytes, in particular for those made by PlayReady's own tools. -/
theorem dump_linux_reads_outside_witness (beyond : Mem) (header : List Char) (h0 : header ≠ []) (hl : header.length < 32768) :
    ∃ body, proBody beyond 2 header = some body ∧ (∃ v, Spec.playReadyObject body = some [(1, v)]) ∧ dumpPro 4 body = none := by
  have h1 : 0 < header.length := by cases header with | nil => exact absurd rfl h0 | cons _ _ => simp
  have hfl := flat_length header
  refine ⟨_, body_bytes beyond 2 header, ⟨header.flatMap (fun c => leB 2 c.toNat), ?_⟩, ?_⟩
  · rw [body_object, Nat.mod_eq_of_lt (show 2 * header.length < 65536 by omega), if_pos (by omega), if_pos (by omega),
      List.drop_of_length_le (by omega), List.take_of_length_le (by omega)]
    rfl
  · rw [leB4, dump_one, Nat.mod_eq_of_lt (by omega), Nat.mul_div_cancel_left _ (by decide : 0 < 2), wideAt, if_pos]
    · rfl
    · rw [List.length_append, hfl]
      simp only [List.length_append, List.length_cons, List.length_nil, leB, List.length_map, List.length_range]
      omega

/-- C122, why only in part: the same for the object the Linux program writes itself. -/
theorem dump_own_linux_witness (beyond : Mem) (header : List Char) (h0 : header ≠ []) (hl : header.length < 16384) :
    ∃ body, proBody beyond 4 header = some body ∧ dumpPro 4 body = none := by
  have h1 : 0 < header.length := by cases header with | nil => exact absurd rfl h0 | cons _ _ => simp
  have hfl := flat_length header
  refine ⟨_, body_bytes beyond 4 header, ?_⟩
  rw [leB4, dump_one, Nat.mod_eq_of_lt (by omega), wideAt, if_pos]
  · rfl
  · rw [List.length_append, hfl]
    simp only [List.length_append, List.length_cons, List.length_nil, leB, List.length_map, List.length_range]
    omega

example : "<WRMHEADER>".toList ≠ [] ∧ "<WRMHEADER>".toList.length < 16384 := by decide

/-- C122, why only in part: with two records the text of the second is taken from the wrong place, on every platform: the two records
say "AB" and "CD", the tool prints "AB" and, for the second, the two numbers of its header. -/
theorem dump_second_record_witness :
    let obj : List UInt8 := [22, 0, 0, 0, 2, 0, 1, 0, 4, 0, 65, 0, 66, 0, 1, 0, 4, 0, 67, 0, 68, 0]
    Spec.playReadyObject obj = some [(1, [65, 0, 66, 0]), (1, [67, 0, 68, 0])] ∧
    dumpPro 2 obj = some [(1, [65, 66]), (1, [1, 4])] := by
  decide +kernel

end Verif.Drm
