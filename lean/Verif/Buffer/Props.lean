import Verif.Buffer.Lemmas
/-!
Properties C07 (growing buffer) and C51 (memory storage is a file).
-/
namespace Verif.Buffer
open Spec
variable {α : Type} [Zero α]

/-- C07. Every sequence of add / prepare-fill-updatePosition / Reset / Back calls (never taking back more than
there is) succeeds, the content is the obvious list, and the element just after the content exists and is zero
(so is everything else after it). -/
theorem cbuffer_content (size : Nat) (h : 1 ≤ size) (ops : List (BOp α)) (c : List α)
    (hc : content [] ops = some c) :
    ∃ b, bRun (CBuf.mk0 size) ops = some b ∧ b.data.take b.current = c ∧ b.current = c.length ∧
      b.data[b.current]? = some 0 ∧ ∀ i, b.current ≤ i → i < b.data.length → b.data[i]? = some 0 := by
  have h0 : BInv (CBuf.mk0 size : CBuf α) [] := by
    refine ⟨h, rfl, by simp [CBuf.mk0]; omega, rfl, ?_⟩
    intro i _ hi
    simp only [CBuf.mk0, List.length_replicate] at hi
    simp [CBuf.mk0, hi]
  obtain ⟨b, e1, e2⟩ := bRun_inv ops _ _ c h0 hc
  exact ⟨b, e1, e2.content, e2.cur, e2.zero _ (Nat.le_refl _) e2.slack, e2.zero⟩

example : content [] ([.add [1, 2, 3], .back 1, .direct [7, 8, 9, 10, 11, 12], .add []] : List (BOp Nat)) =
    some [1, 2, 7, 8, 9, 10, 11, 12] := by decide

/-- Calls on the memory storage. -/
def memRun (m : MemFile α) : List (FOp α) → Option (MemFile α)
  | [] => some m
  | .write xs :: ops => (m.write xs).bind (fun m => memRun m ops)
  | .seek p :: ops => memRun (m.setPosition p) ops

/-- C51. The memory storage behaves as a file: after any sequence of writes and seeks (to positions not past
the end) its first `size()` bytes are the bytes of the file, whatever growing happened, and reading from any
position delivers the file's bytes. -/
theorem memory_storage_is_file (init : Nat) (h : 1 ≤ init) (ops : List (FOp α)) (f : File α)
    (hf : File.run ⟨[], 0⟩ ops = some f) :
    ∃ m, memRun (MemFile.mk0 init) ops = some m ∧ m.size = f.bytes.length ∧
      m.buf.data.take m.size = f.bytes ∧ m.pos = f.pos ∧
      ∀ n, (m.read n).1 = (f.bytes.drop f.pos).take n := by
  have h0 : FInv (MemFile.mk0 init : MemFile α) ⟨[], 0⟩ := by
    refine ⟨h, rfl, rfl, Nat.le_refl _, rfl, by simp [MemFile.mk0, CBuf.mk0]; omega, rfl⟩
  have gen : ∀ (ops : List (FOp α)) (m : MemFile α) (g : File α), FInv m g → File.run g ops = some f →
      ∃ m', memRun m ops = some m' ∧ FInv m' f := by
    intro ops
    induction ops with
    | nil =>
      intro m g hi hr
      simp only [File.run, Option.some.injEq] at hr; subst hr
      exact ⟨m, rfl, hi⟩
    | cons op ops ih =>
      intro m g hi hr
      cases op with
      | write xs =>
        obtain ⟨m1, e1, e2⟩ := write_inv m g xs hi
        obtain ⟨m', e3, e4⟩ := ih m1 _ e2 hr
        exact ⟨m', by simp only [memRun, e1, Option.bind_some]; exact e3, e4⟩
      | seek p =>
        simp only [File.run] at hr
        split at hr
        · rename_i hp
          exact ih _ _ (seek_inv m g p hi hp) hr
        · contradiction
  obtain ⟨m, e1, e2⟩ := gen ops _ _ h0 hf
  refine ⟨m, e1, e2.size, e2.content, e2.pos, ?_⟩
  intro n
  simp only [MemFile.read]
  rw [← e2.content, ← e2.pos, List.drop_take, List.take_take]
  congr 1
  split <;> omega

example : File.run ⟨[], 0⟩ ([.write [0, 0, 0, 0], .write [5, 6], .seek 0, .write [9, 9, 9, 9], .seek 6, .write [7]] :
    List (FOp Nat)) = some ⟨[9, 9, 9, 9, 5, 6, 7], 7⟩ := by rfl

end Verif.Buffer
