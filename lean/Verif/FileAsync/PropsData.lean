import Verif.FileAsync.Props
import Mathlib.Data.List.Perm.Lattice

namespace Verif.FileAsync

/-- A history of reads, all successful. -/
def PlainReads (es : List Ev) : Prop := ∀ e ∈ es, match e with
  | .read _ => True
  | .complete _ failed => failed = false
  | _ => False

/-- The number of bytes asked for. -/
def asked : List Ev → Nat
  | [] => 0
  | .read n :: es => n + asked es
  | _ :: es => asked es

/-- The buffers of the reads made so far, in the order of the reads. -/
structure InvD (file : Bytes) (start : Nat) (s : Sys) (ds : List Bytes) (total : Nat) : Prop extends InvR s where
  len : ds.length = s.outstanding
  pend : ∀ r ∈ s.pending, ds[r.seq]? = some r.data
  fwd : ∀ x ∈ s.fwd, ds[x.req.seq]? = some x.req.data ∧ x.failed = false
  ans : ∀ a ∈ s.answers, ds[a.seq]? = some a.data ∧ a.error = false
  le : start ≤ file.length
  pos : s.position = min (start + total) file.length
  data : ds.flatten = (file.drop start).take total

theorem advance_eq (l p n : Nat) (h : p ≤ l) : advance l p n = min (p + n) l - p := by
  unfold advance fileSize
  split <;> split <;> omega

theorem InvD.step {file : Bytes} {start : Nat} {s s' : Sys} {ds : List Bytes} {total : Nat} {e : Ev} (i : InvD file start s ds total) (he : PlainReads [e])
    (h : step file s e = some s') : ∃ ds', InvD file start s' ds' (total + asked [e]) := by
  have he := he e (by simp)
  have j : InvR s' := i.toInvR.step (by cases e <;> simp at he ⊢) h
  cases e with
  | seek p => exact he.elim
  | other n => exact he.elim
  | read size =>
    cases h
    have hlt : ∀ (k : Nat) (b : Bytes) (d : Bytes), ds[k]? = some b → (ds ++ [d])[k]? = some b := by
      intro k b d hk
      obtain ⟨hk', _⟩ := List.getElem?_eq_some_iff.1 hk
      rw [List.getElem?_append_left hk', hk]
    refine ⟨ds ++ [(file.drop s.position).take size], j, ?_, ?_, ?_, ?_, i.le, ?_, ?_⟩
    · simp [i.len]
    · intro r hr
      simp only [List.mem_cons] at hr
      rcases hr with rfl | hr
      · simp [← i.len]
      · exact hlt _ _ _ (i.pend r hr)
    · intro x hx; exact ⟨hlt _ _ _ (i.fwd x hx).1, (i.fwd x hx).2⟩
    · intro a ha; exact ⟨hlt _ _ _ (i.ans a ha).1, (i.ans a ha).2⟩
    · have hp : s.position ≤ file.length := by rw [i.pos]; omega
      simp only [asked, Nat.add_zero]
      rw [advance_eq _ _ _ hp, i.pos]
      omega
    · simp only [asked, Nat.add_zero, List.flatten_append, List.flatten_cons, List.flatten_nil, List.append_nil]
      rw [i.data, i.pos, List.take_add, List.drop_drop]
      by_cases hc : start + total ≤ file.length
      · rw [Nat.min_eq_left hc]
      · rw [Nat.min_eq_right (by omega), List.drop_length, List.drop_eq_nil_of_le (by omega : file.length ≤ start + total)]
  | complete seq failed =>
    simp only at he
    simp only [Verif.FileAsync.step] at h
    split at h
    · cases h
    · rename_i r hr
      cases h
      have hm := List.mem_of_find?_eq_some hr
      obtain ⟨a1, a2, a3, a4, a5⟩ := complete_spec _ s.served s.fwd ⟨r, failed⟩ rfl
      have hall : ∀ x ∈ (⟨r, failed⟩ : Done) :: s.fwd, ds[x.req.seq]? = some x.req.data ∧ x.failed = false := by
        intro x hx
        simp only [List.mem_cons] at hx
        rcases hx with rfl | hx
        · exact ⟨i.pend r hm, he⟩
        · exact i.fwd x hx
      refine ⟨ds, j, i.len, fun x hx => i.pend x (List.mem_of_mem_erase hx), fun x hx => hall x (a3 x hx).2, ?_, i.le, i.pos, i.data⟩
      intro a ha
      simp only [List.mem_append] at ha
      rcases ha with ha | ha
      · exact i.ans a ha
      · obtain ⟨x, hx, e1, e2⟩ := a4 a ha
        rw [e1, e2]
        exact ⟨(hall x hx).1, a5 (fun y hy => (hall y hy).2) a ha⟩

theorem InvD.run {file : Bytes} {start : Nat} : ∀ (es : List Ev) (s s' : Sys) (ds : List Bytes) (total : Nat), InvD file start s ds total → PlainReads es →
    run file s es = some s' → ∃ ds', InvD file start s' ds' (total + asked es) := by
  intro es
  induction es with
  | nil => intro s s' ds total i _ h; cases h; exact ⟨ds, i⟩
  | cons e es ih =>
    intro s s' ds total i hr h
    unfold Verif.FileAsync.run at h
    split at h
    · cases h
    · rename_i s1 h1
      obtain ⟨ds1, i1⟩ := i.step (fun x hx => hr x (by simp only [List.mem_singleton] at hx; simp [hx])) h1
      obtain ⟨ds2, i2⟩ := ih s1 s' ds1 _ i1 (fun x hx => hr x (by simp [hx])) h
      refine ⟨ds2, ?_⟩
      have : total + asked (e :: es) = total + asked [e] + asked es := by cases e <;> simp [asked]; omega
      rw [this]
      exact i2

theorem InvD.init (file : Bytes) (start : Nat) (h : start ≤ file.length) : InvD file start { Sys.init with position := start } [] 0 :=
  ⟨⟨⟨rfl, List.Perm.refl _, by simp [Sys.init]⟩, rfl, by simp [Sys.init], by simp [Sys.init]⟩, rfl, by simp [Sys.init], by simp [Sys.init],
    by simp [Sys.init], h, by simp only; omega, by simp⟩

theorem map_range_getElem {α : Type} (l : List α) : ∀ (m : List α) , (∀ i (h : i < m.length), l[i]? = some m[i]) → m = l.take m.length := by
  intro m h
  apply List.ext_getElem?
  intro i
  by_cases hi : i < m.length
  · rw [List.getElem?_take, if_pos hi, h i hi, List.getElem?_eq_getElem hi]
  · rw [List.getElem?_eq_none (by omega), List.getElem?_take, if_neg hi]

/-- C85: reading a file piece by piece from a position, with any number of reads under way and completed in any order, gives the handlers the file: at
every time the buffers passed to the handlers, put together in the order of the calls, are a prefix of the file from there; when all reads are
completed they are as many bytes as were asked for (or all); and `eof()` is true exactly when all of the file was asked for. -/
theorem reads_are_the_file {file : Bytes} {start : Nat} {es : List Ev} {s : Sys} (hs : start ≤ file.length) (he : PlainReads es)
    (h : run file .init (.seek start :: es) = some s) :
    (∀ a ∈ s.answers, a.error = false) ∧
    (s.answers.map fun a => a.data).flatten <+: file.drop start ∧
    (s.pending = [] → (s.answers.map fun a => a.data).flatten = (file.drop start).take (asked es)) ∧
    (eof file.length s.position = true ↔ file.length ≤ start + asked es) := by
  have hx := h
  simp only [run, step] at h
  obtain ⟨ds, i⟩ := InvD.run es _ _ _ _ (InvD.init file start hs) he h
  rw [Nat.zero_add] at i
  have hseq : ∀ (k : Nat) (hk : k < s.answers.length), s.answers[k].seq = k := by
    intro k hk
    have := congrArg (fun l => l[k]?) i.order
    simp only [aseqs, List.getElem?_map, List.getElem?_eq_getElem hk, Option.map_some, List.getElem?_range hk, Option.some.injEq] at this
    exact this
  have htake : (s.answers.map fun a => a.data) = ds.take s.answers.length := by
    have := map_range_getElem ds (s.answers.map fun a => a.data) (by
      intro k hk
      rw [List.length_map] at hk
      have h1 := (i.ans s.answers[k] (List.getElem_mem hk)).1
      rw [hseq k hk] at h1
      rw [h1, List.getElem_map])
    rwa [List.length_map] at this
  have hpre : (s.answers.map fun a => a.data).flatten <+: ds.flatten := by
    rw [htake]
    conv => rhs; rw [← List.take_append_drop s.answers.length ds]
    rw [List.flatten_append]
    exact List.prefix_append _ _
  refine ⟨fun a ha => (i.ans a ha).2, hpre.trans ?_, ?_, ?_⟩
  · rw [i.data]; exact List.take_prefix _ _
  · intro hp
    have h2 := ((answered_once hx).2.2 hp).2
    rw [htake, ← i.served, h2, ← i.len, List.take_length, i.data]
  · unfold eof fileSize
    rw [i.pos]
    by_cases h0 : file.length = 0
    · simp [h0]
    · by_cases h1 : file.length ≤ start + asked es
      · have : min (start + asked es) file.length = file.length := by omega
        rw [this]
        have h3 : 0 < file.length := by omega
        simp [h1, h3, h0]
      · have : min (start + asked es) file.length = start + asked es := by omega
        rw [this]
        have h3 : ¬ (file.length ≤ start + asked es ∧ 0 < start + asked es) := by omega
        simp [h1, h3, h0]

/-- Non-vacuity: three reads completed in the order 2, 0, 1. -/
example : ∃ s, run [9, 1, 2, 3, 4, 5] .init [.seek 1, .read 2, .read 2, .read 2, .complete 2 false, .complete 0 false, .complete 1 false] = some s ∧
    s.answers = [⟨0, [1, 2], false⟩, ⟨1, [3, 4], false⟩, ⟨2, [5], false⟩] ∧ s.pending = [] := by
  exact ⟨_, rfl, by decide, by decide⟩

/-! ### What does not hold -/

/-- C84: with other requests under way reads are not answered in order: two reads and a write, completed in the opposite order. -/
theorem mixed_out_of_order : ∃ s, run [1, 2, 3, 4] .init [.read 2, .read 2, .other 1, .complete 2 false, .complete 1 false, .complete 0 false] = some s ∧
    s.answers.map (fun a => a.seq) = [2, 1, 0] := by
  exact ⟨_, rfl, by decide⟩

/-- C84: a failure is lost: read 1 fails, and is passed on as good (with the contents of a buffer that nothing was read into, which the model does not
show). -/
theorem failure_lost : ∃ s, run [1, 2, 3] .init [.read 1, .read 1, .read 1, .complete 1 true, .complete 2 false, .complete 0 false] = some s ∧
    s.answers.map (fun a => (a.seq, a.error)) = [(0, false), (1, false), (2, false)] := by
  exact ⟨_, rfl, by decide⟩

/-- C84: a failure is reported for a read that was good: read 2 fails, and so read 1 is reported as failed, too. -/
theorem wrong_failure : ∃ s, run [1, 2, 3] .init [.read 1, .read 1, .read 1, .complete 1 false, .complete 2 true, .complete 0 false] = some s ∧
    s.answers.map (fun a => (a.seq, a.error)) = [(0, false), (1, true), (2, true)] := by
  exact ⟨_, rfl, by decide⟩

/-! ### Writes -/

/-- Two writes that touch no common byte. -/
def Apart (a b : Write) : Prop := a.pos + a.data.length ≤ b.pos ∨ b.pos + b.data.length ≤ a.pos

theorem write_comm (d : Disk) (a b : Write) (h : Apart a b) : (d.write a).write b = (d.write b).write a := by
  unfold Disk.write Apart at *
  simp only [Disk.mk.injEq]
  refine ⟨?_, by omega⟩
  funext i
  split <;> split <;> first | rfl | omega

theorem writes_perm {l l' : List Write} (h : l.Perm l') : ∀ (d : Disk), l.Pairwise Apart → l.foldl Disk.write d = l'.foldl Disk.write d := by
  induction h with
  | nil => intro d _; rfl
  | cons a _ ih => intro d hp; exact ih _ (List.pairwise_cons.1 hp).2
  | swap a b l =>
    intro d hp
    simp only [List.foldl_cons]
    have := (List.pairwise_cons.1 hp).1 a (by simp)
    rw [write_comm d b a this]
  | trans h1 _ ih1 ih2 =>
    intro d hp
    rw [ih1 d hp]
    exact ih2 d ((h1.pairwise_iff (fun {a b} hab => by unfold Apart at *; omega)).1 hp)

/-- The bytes of a file. -/
def Disk.contents (d : Disk) : Bytes := (List.range d.length).map d.byte

theorem issue_pos : ∀ (bs : List Bytes) (p : Nat), (∀ w ∈ issue p (bs.map .write), p ≤ w.pos) ∧ (issue p (bs.map .write)).Pairwise Apart := by
  intro bs
  induction bs with
  | nil => intro p; simp [issue]
  | cons b bs ih =>
    intro p
    obtain ⟨h1, h2⟩ := ih (p + b.length)
    simp only [List.map_cons, issue, List.mem_cons, List.pairwise_cons]
    refine ⟨?_, fun w hw => Or.inl (h1 w hw), h2⟩
    rintro w (rfl | hw)
    · exact Nat.le_refl _
    · have := h1 w hw; omega

theorem write_end (d : Disk) (b : Bytes) : (d.write ⟨d.length, b⟩).contents = d.contents ++ b := by
  apply List.ext_getElem
  · simp [Disk.contents, Disk.write]
  · intro i h1 h2
    simp only [Disk.contents, Disk.write, List.getElem_map, List.getElem_range, List.length_map, List.length_range, List.getElem_append] at h1 h2 ⊢
    by_cases hi : i < d.length
    · rw [if_neg (by omega), dif_pos hi]
    · simp only [List.length_append, List.length_map, List.length_range] at h2
      rw [if_pos (by omega), dif_neg hi, List.getD_eq_getElem?_getD, List.getElem?_eq_getElem (by omega : i - d.length < b.length), Option.getD_some]

theorem writes_in_order : ∀ (bs : List Bytes) (d : Disk), ((issue d.length (bs.map .write)).foldl Disk.write d).contents = d.contents ++ bs.flatten := by
  intro bs
  induction bs with
  | nil => intro d; simp [issue]
  | cons b bs ih =>
    intro d
    simp only [List.map_cons, issue, List.foldl_cons, List.flatten_cons]
    have hl : (d.write ⟨d.length, b⟩).length = d.length + b.length := by simp [Disk.write]
    rw [← hl, ih, write_end, List.append_assoc]

/-- C86: data that is written to a new file piece by piece is in the file, in order and nothing else, whatever the order in which the thread pool
carries out the writes. -/
theorem writes_are_the_file (bs : List Bytes) (exec : List Write) (h : exec.Perm (issue 0 (bs.map .write))) :
    (exec.foldl Disk.write .empty).contents = bs.flatten := by
  rw [← writes_perm h.symm Disk.empty (issue_pos bs 0).2]
  exact writes_in_order bs .empty

/-- C86, with moves of the position: as long as the writes that are under way together touch different bytes their order does not matter. -/
theorem writes_any_order (ops : List WriteOp) (p : Nat) (d : Disk) (exec : List Write) (h : exec.Perm (issue p ops)) (ha : (issue p ops).Pairwise Apart) :
    exec.foldl Disk.write d = (issue p ops).foldl Disk.write d := (writes_perm h.symm d ha).symm

example : (([⟨2, [3]⟩, ⟨0, [1, 2]⟩] : List Write).foldl Disk.write .empty).contents = [1, 2, 3] := by decide
example : issue 0 [.write [1, 2], .seek 5, .write [3]] = [⟨0, [1, 2]⟩, ⟨5, [3]⟩] := rfl

/-- C86: a header that is written again (seek to the start, as a writer does to fill in sizes) while the first write of it is still under way can be
lost: carried out in the other order, the file keeps the old bytes. -/
theorem rewrite_lost : ∃ exec : List Write, exec.Perm (issue 0 [.write [0, 0], .write [7], .seek 0, .write [1, 1]]) ∧
    (exec.foldl Disk.write .empty).contents = [0, 0, 7] ∧
    ((issue 0 [.write [0, 0], .write [7], .seek 0, .write [1, 1]]).foldl Disk.write .empty).contents = [1, 1, 7] := by
  refine ⟨[⟨0, [1, 1]⟩, ⟨0, [0, 0]⟩, ⟨2, [7]⟩], ?_, by decide, by decide⟩
  exact List.perm_append_comm (l₁ := [(⟨0, [1, 1]⟩ : Write)]) (l₂ := [⟨0, [0, 0]⟩, ⟨2, [7]⟩])

end Verif.FileAsync
