import Verif.Box.Lemmas
/-!
Property C08 (box sizes) and C52 (stream over memory is a byte file).
-/
namespace Verif.Box
open Spec Verif.BitStream Verif.Buffer Verif.Buffer.Spec

/-- C08. Any nesting of boxes written with open_box / fields / close_box (each box below 4 GiB) is stored as the
bytes the ISO format prescribes for that tree: each size field covers its header and everything written until
the matching close_box. For every storage size and every stream buffer size. -/
theorem boxes_written (bufLen size : Nat) (beyond : Mem) (it : Items)
    (h1 : 1 ≤ bufLen) (h5 : 5 ≤ size) (hm : size < 2 ^ 29) (hfit : fits it) :
    ∃ c s, CMP4W.write ⟨WM.mk0 bufLen size beyond, []⟩ it = some c ∧ c.parents = [] ∧
      c.s.position = (encode it).length ∧ c.s.flush = some s ∧
      s.m.size = (encode it).length ∧ s.m.buf.data.take s.m.size = encode it := by
  obtain ⟨c, e1, e2, e3⟩ := write_items it ⟨WM.mk0 bufLen size beyond, []⟩ beyond [] hfit
    (mk0_R bufLen size beyond h1 h5 hm)
  rw [List.nil_append] at e3
  obtain ⟨s, g1, _, _, g4⟩ := flush_R c.s beyond _ e3
  refine ⟨c, s, e1, e2, ?_, g1, g4.size, g4.content⟩
  simp only [WM.position, e3.tot]; omega

/-- C08. A box parser recovers the boxes of the written bytes at every level: types and exact payloads. -/
theorem boxes_parsed (it : Items) (bs : List (BitVec 32 × Items)) (hfit : fits it) (hb : boxes it = some bs) :
    parse (encode it).length (encode it) = some (bs.map (fun b => (b.1.toNat, encode b.2))) :=
  parse_encode it bs _ hfit hb (Nat.le_refl _)

/-- a movie box with a header leaf and a nested track, followed by a second top level box -/
def sample : Items :=
  .box 0x6d6f6f76 (.box 0x6d766864 (.uint 7 (.bytes [1, 2, 3] .nil))
    (.box 0x7472616b (.box 0x746b6864 .nil .nil) .nil)) (.box 0x66726565 .nil .nil)

example : fits sample ∧ boxes sample = some [(0x6d6f6f76,
    .box 0x6d766864 (.uint 7 (.bytes [1, 2, 3] .nil)) (.box 0x7472616b (.box 0x746b6864 .nil .nil) .nil)),
    (0x66726565, .nil)] := by
  refine ⟨?_, rfl⟩
  simp [sample, fits, encode, be32]

example : encode (.box 0x66726565 (.uint 258 .nil) .nil) = [0, 0, 0, 12, 0x66, 0x72, 0x65, 0x65, 0, 0, 1, 2] := by
  decide

/-- Calls on the stream: 32 bit fields, byte blocks, seeks. -/
inductive SOp where
  | put32 (x : Word)
  | bytes (bs : List Byte)
  | seek (p : Nat)

def sRun (s : WM) : List SOp → Option WM
  | [] => some s
  | .put32 x :: ops => (s.put32 x).bind (fun s => sRun s ops)
  | .bytes bs :: ops => (s.bytes bs).bind (fun s => sRun s ops)
  | .seek p :: ops => (s.seek p).bind (fun s => sRun s ops)

/-- the corresponding operations of an ordinary file -/
def fileOps : List SOp → List (FOp Byte)
  | [] => []
  | .put32 x :: ops => .write (be32 x.toNat) :: fileOps ops
  | .bytes bs :: ops => .write bs :: fileOps ops
  | .seek p :: ops => .seek p :: fileOps ops

/-- C52. Writing 32 bit fields and blocks and seeking back and forth (not past the end) through the buffered
stream gives, after flush, the same bytes as on an ordinary file, and `get_position` is the file position. -/
theorem memory_stream_is_file (bufLen size : Nat) (beyond : Mem) (ops : List SOp) (f : File Byte)
    (h1 : 1 ≤ bufLen) (h5 : 5 ≤ size) (hm : size < 2 ^ 29) (hf : File.run ⟨[], 0⟩ (fileOps ops) = some f) :
    ∃ c s, sRun (WM.mk0 bufLen size beyond) ops = some c ∧ c.position = f.pos ∧
      c.flush = some s ∧ s.m.size = f.bytes.length ∧ s.m.buf.data.take s.m.size = f.bytes := by
  have gen : ∀ (ops : List SOp) (s : WM) (g : File Byte), R s beyond g →
      File.run g (fileOps ops) = some f → ∃ c, sRun s ops = some c ∧ R c beyond f := by
    intro ops
    induction ops with
    | nil =>
      intro s g hr hrun
      simp only [fileOps, File.run, Option.some.injEq] at hrun; subst hrun
      exact ⟨s, rfl, hr⟩
    | cons op ops ih =>
      intro s g hr hrun
      cases op with
      | put32 x =>
        obtain ⟨s', e1, e2⟩ := put32_R s beyond g x hr
        obtain ⟨c, g1, g2⟩ := ih s' _ e2 hrun
        exact ⟨c, by simp only [sRun, e1, Option.bind_some]; exact g1, g2⟩
      | bytes bs =>
        obtain ⟨s', e1, e2⟩ := bytes_R s beyond g bs hr
        obtain ⟨c, g1, g2⟩ := ih s' _ e2 hrun
        exact ⟨c, by simp only [sRun, e1, Option.bind_some]; exact g1, g2⟩
      | seek p =>
        simp only [fileOps, File.run] at hrun
        split at hrun
        · rename_i hp
          obtain ⟨s', e1, e2⟩ := seek_R s beyond g p hr hp
          obtain ⟨c, g1, g2⟩ := ih s' _ e2 hrun
          exact ⟨c, by simp only [sRun, e1, Option.bind_some]; exact g1, g2⟩
        · contradiction
  obtain ⟨c, e1, e2⟩ := gen ops _ _ (mk0_R bufLen size beyond h1 h5 hm) hf
  obtain ⟨s, g1, _, _, g4⟩ := flush_R c beyond f e2
  refine ⟨c, s, e1, ?_, g1, g4.size, g4.content⟩
  simp only [WM.position, e2.tot]; omega

example : File.run ⟨[], 0⟩ (fileOps [.put32 0xFFFFFFFF, .bytes [1, 2, 3], .seek 0, .put32 7, .seek 7]) =
    some ⟨[0, 0, 0, 7, 1, 2, 3], 7⟩ := by rfl

end Verif.Box
