import Verif.FileAsync.PropsData

namespace Verif.FileAsync

/-- A history of `copy_stream`: the loop makes its reads, and they are completed at any time, in any order. -/
structure CopyRun (file : Bytes) (chunk start endpos : Nat) (es : List Ev) (s : Sys) : Prop where
  reads : es.filter (fun e => match e with | .complete _ _ => false | _ => true) =
    List.replicate (copyReads file.length chunk endpos (file.length + 1) start) (.read chunk)
  good : ∀ seq failed, .complete seq failed ∈ es → failed = false
  run : run file .init (.seek start :: es) = some s
  ended : s.pending = []

/-- The next multiple of the chunk size. -/
def roundUp (chunk n : Nat) : Nat := (n + (chunk - 1)) / chunk * chunk

theorem roundUp_zero (chunk : Nat) (h : 0 < chunk) : roundUp chunk 0 = 0 := by
  unfold roundUp
  rw [Nat.div_eq_of_lt (by omega)]; omega

theorem roundUp_ge (chunk n : Nat) (h : 0 < chunk) : n ≤ roundUp chunk n := by
  unfold roundUp
  have h1 := Nat.div_add_mod (n + (chunk - 1)) chunk
  have h2 := Nat.mod_lt (n + (chunk - 1)) h
  rw [Nat.mul_comm] at h1
  omega

theorem roundUp_ge_chunk (chunk n : Nat) (h : 0 < chunk) (hn : 0 < n) : chunk ≤ roundUp chunk n := by
  unfold roundUp
  have : 1 ≤ (n + (chunk - 1)) / chunk := (Nat.le_div_iff_mul_le h).2 (by omega)
  calc chunk = 1 * chunk := by omega
    _ ≤ _ := Nat.mul_le_mul_right _ this

theorem roundUp_step (chunk n : Nat) (h : 0 < chunk) (hn : 0 < n) : roundUp chunk n = chunk + roundUp chunk (n - chunk) := by
  by_cases hc : chunk ≤ n
  · unfold roundUp
    have : n + (chunk - 1) = (n - chunk + (chunk - 1)) + chunk := by omega
    rw [this, Nat.add_div_right _ h, Nat.succ_mul, Nat.add_comm]
  · rw [show n - chunk = 0 by omega, roundUp_zero _ h]
    unfold roundUp
    have : (n + (chunk - 1)) / chunk = 1 := by
      apply Nat.div_eq_of_lt_le <;> omega
    rw [this]; omega

theorem eof_false {l p : Nat} (h : p ≤ l) : eof l p = false ↔ p < l := by
  unfold eof fileSize
  by_cases h0 : l = 0
  · subst h0
    have : p = 0 := by omega
    simp [this]
  · by_cases h1 : l ≤ p
    · have : 0 < p := by omega
      simp [h1, this, Nat.pos_iff_ne_zero.1 this]
    · have h2 : ¬ (l ≤ p ∧ 0 < p) := by omega
      simp [h2, h0]

/-- How far the loop goes. -/
theorem copyReads_spec (l chunk endpos : Nat) (hc : 0 < chunk) : ∀ (fuel pos : Nat), pos ≤ l → l - pos < fuel →
    min (pos + chunk * copyReads l chunk endpos fuel pos) l =
      if endpos = 0 then l else min (pos + roundUp chunk (endpos - pos)) l := by
  intro fuel
  induction fuel with
  | zero => intro pos _ h; omega
  | succ fuel ih =>
    intro pos hp hf
    unfold copyReads
    by_cases he : pos < l
    · have hpos := roundUp_ge_chunk chunk (endpos - pos) hc
      by_cases hg : endpos = 0 ∨ pos < endpos
      · rw [if_pos ⟨(eof_false hp).2 he, hg⟩, advance_eq l pos chunk hp]
        have ih' := ih (pos + (min (pos + chunk) l - pos)) (by omega) (by omega)
        by_cases h2 : pos + chunk ≤ l
        · have e : pos + (min (pos + chunk) l - pos) = pos + chunk := by omega
          rw [e] at ih' ⊢
          rw [Nat.mul_add, Nat.mul_one, ← Nat.add_assoc, ih']
          split
          · rfl
          · rename_i hne
            rw [roundUp_step chunk (endpos - pos) hc (by omega), ← Nat.add_assoc, Nat.sub_sub]
        · have : chunk ≤ chunk * (1 + copyReads l chunk endpos fuel (pos + (min (pos + chunk) l - pos))) := Nat.le_mul_of_pos_right _ (by omega)
          split
          · omega
          · rename_i hne
            have := hpos (by omega)
            omega
      · rw [if_neg (fun hh => hg hh.2)]
        have e : endpos - pos = 0 := by omega
        have hne : endpos ≠ 0 := by omega
        rw [if_neg hne, e, roundUp_zero _ hc]
        simp
    · have e : pos = l := by omega
      rw [if_neg (fun hh => he ((eof_false hp).1 hh.1))]
      split <;> omega

theorem asked_filter : ∀ (es : List Ev) (k n : Nat), es.filter (fun e => match e with | .complete _ _ => false | _ => true) = List.replicate k (.read n) →
    asked es = n * k := by
  intro es
  induction es with
  | nil => intro k n h; cases k <;> simp [List.replicate_succ] at h; simp [asked]
  | cons e es ih =>
    intro k n h
    cases e with
    | complete a b => simp only [List.filter_cons, Bool.false_eq_true, if_false] at h; exact ih k n h
    | read m =>
      simp only [List.filter_cons, if_true] at h
      cases k with
      | zero => simp at h
      | succ k =>
        rw [List.replicate_succ, List.cons.injEq] at h
        cases h.1
        rw [asked, ih k _ h.2, Nat.mul_succ, Nat.add_comm]
    | other m => simp only [List.filter_cons, if_true] at h; cases k <;> simp [List.replicate_succ] at h
    | seek m => simp only [List.filter_cons, if_true] at h; cases k <;> simp [List.replicate_succ] at h

theorem CopyRun.plain {file : Bytes} {chunk start endpos : Nat} {es : List Ev} {s : Sys} (h : CopyRun file chunk start endpos es s) : PlainReads es := by
  intro e he
  cases e with
  | read n => trivial
  | complete a b => exact h.good a b he
  | seek p =>
    have : Ev.seek p ∈ es.filter (fun e => match e with | .complete _ _ => false | _ => true) := List.mem_filter.2 ⟨he, rfl⟩
    rw [h.reads] at this
    have := (List.mem_replicate.1 this).2
    cases this
  | other p =>
    have : Ev.other p ∈ es.filter (fun e => match e with | .complete _ _ => false | _ => true) := List.mem_filter.2 ⟨he, rfl⟩
    rw [h.reads] at this
    have := (List.mem_replicate.1 this).2
    cases this

/-- C47, what exactly is copied: the bytes from the start position to the end position, with their number rounded up to whole chunks, or all bytes if the
end position is 0. Whatever the order in which reads and writes are carried out, they are at the end of the destination, in order. -/
theorem copy_exact {file : Bytes} {chunk start endpos : Nat} {es : List Ev} {s : Sys} (hc : 0 < chunk) (hs : start ≤ file.length)
    (h : CopyRun file chunk start endpos es s) (dst : Disk) (exec : List Write) (he : exec.Perm (copyWrites dst.length s)) :
    (exec.foldl Disk.write dst).contents =
      dst.contents ++ (if endpos = 0 then file.drop start else (file.drop start).take (roundUp chunk (endpos - start))) := by
  have hw : copyWrites dst.length s = issue dst.length ((s.answers.map fun a => a.data).map .write) := by
    unfold copyWrites; rw [List.map_map]; rfl
  rw [hw] at he
  rw [← writes_perm he.symm dst (issue_pos _ _).2, writes_in_order, (reads_are_the_file hs h.plain h.run).2.2.1 h.ended, asked_filter es _ _ h.reads]
  have hk := copyReads_spec file.length chunk endpos hc (file.length + 1) start hs (by omega)
  generalize copyReads file.length chunk endpos (file.length + 1) start = k at hk
  congr 1
  have ht : ∀ n m, min (start + n) file.length = min (start + m) file.length → (file.drop start).take n = (file.drop start).take m := by
    intro n m hnm
    rw [List.take_eq_take_iff, List.length_drop]
    omega
  split at hk
  · rw [if_pos (by assumption)]
    apply List.take_of_length_le
    rw [List.length_drop]
    omega
  · rw [if_neg (by assumption)]
    exact ht _ _ hk

/-- C47 (partial): `copy_stream` copies exactly the bytes from the start to the end position, if their number is a multiple of the chunk size or the
end position is not before the end of the source. -/
theorem copy_partial {file : Bytes} {chunk start endpos : Nat} {es : List Ev} {s : Sys} (hc : 0 < chunk) (hs : start ≤ file.length) (h0 : endpos ≠ 0)
    (hd : chunk ∣ endpos - start ∨ file.length ≤ endpos)
    (h : CopyRun file chunk start endpos es s) (dst : Disk) (exec : List Write) (he : exec.Perm (copyWrites dst.length s)) :
    (exec.foldl Disk.write dst).contents = dst.contents ++ (file.drop start).take (endpos - start) := by
  rw [copy_exact hc hs h dst exec he, if_neg h0]
  congr 1
  rcases hd with ⟨k, hk⟩ | hd
  · rw [hk]
    congr 1
    unfold roundUp
    rw [Nat.mul_add_div hc, Nat.div_eq_of_lt (by omega), Nat.add_zero, Nat.mul_comm]
  · have := roundUp_ge chunk (endpos - start) hc
    rw [List.take_of_length_le (by rw [List.length_drop]; omega), List.take_of_length_le (by rw [List.length_drop]; omega)]

/-- C47: the whole source is copied when no end position is given. -/
theorem copy_all {file : Bytes} {chunk start : Nat} {es : List Ev} {s : Sys} (hc : 0 < chunk) (hs : start ≤ file.length)
    (h : CopyRun file chunk start 0 es s) (dst : Disk) (exec : List Write) (he : exec.Perm (copyWrites dst.length s)) :
    (exec.foldl Disk.write dst).contents = dst.contents ++ file.drop start := by
  rw [copy_exact hc hs h dst exec he, if_pos rfl]

/-- Non-vacuity: a copy with two reads under way, the second completed first. -/
theorem copy_example : ∃ s, CopyRun [1, 2, 3, 4, 5, 6] 2 1 4 [.read 2, .read 2, .complete 1 false, .complete 0 false] s ∧
    ((copyWrites 0 s).foldl Disk.write .empty).contents = [2, 3, 4, 5] := by
  refine ⟨_, ⟨rfl, ?_, rfl, rfl⟩, by decide⟩
  intro a b hb
  simp at hb
  rcases hb with h | h <;> exact h.2

/-- C47: more than was asked for is copied: of the bytes 1 to 4 of the source (three bytes) with a chunk size of two, four. -/
theorem copy_overshoots : ∃ (file : Bytes) (s : Sys) (es : List Ev), CopyRun file 2 1 4 es s ∧
    ((copyWrites 0 s).foldl Disk.write .empty).contents ≠ (file.drop 1).take (4 - 1) := by
  obtain ⟨s, h, e⟩ := copy_example
  refine ⟨_, s, _, h, ?_⟩
  rw [e]
  decide

/-- C47: a source that is to be copied from behind its end is not copied at all. -/
theorem copy_behind (len chunk endpos fuel start : Nat) (h : len < start) : copyReads len chunk endpos fuel start = 0 := by
  cases fuel with
  | zero => rfl
  | succ fuel =>
    unfold copyReads
    have e : fileSize len start = start := by unfold fileSize; rw [if_pos ⟨by omega, by omega⟩]
    have : eof len start = true := by unfold eof; rw [e, if_pos (by omega)]; simp
    rw [this]
    simp

end Verif.FileAsync
