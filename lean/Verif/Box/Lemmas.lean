import Verif.Box.Spec
namespace Verif.Box
open Spec Verif.BitStream Verif.BitStream.Spec Verif.Buffer Verif.Buffer.Spec

theorem be32_eq (x : Word) :
    be32 x.toNat = [(x >>> 24).setWidth 8, (x >>> 16).setWidth 8, (x >>> 8).setWidth 8, x.setWidth 8] := by
  have h : ∀ a b c d a' b' c' d' : Byte, a = a' → b = b' → c = c' → d = d' → [a, b, c, d] = [a', b', c', d'] := by
    intros; subst_vars; rfl
  apply h
  all_goals
    apply BitVec.eq_of_toNat_eq
    simp [Nat.shiftRight_eq_div_pow]

theorem be32_length (n : Nat) : (be32 n).length = 4 := rfl

theorem be32_bits (x : Word) : fieldBits x 32 = bytesBits (be32 x.toNat) := by
  rw [be32_eq]
  apply List.ext_getElem?
  intro i
  by_cases hi : i < 32
  · have : ∀ i : Fin 32, (fieldBits x 32)[i.val]? = (bytesBits [(x >>> 24).setWidth 8, (x >>> 16).setWidth 8,
        (x >>> 8).setWidth 8, x.setWidth 8])[i.val]? := by
      intro i
      simp only [bytesBits, fieldBits, List.flatMap_cons, List.flatMap_nil]
      match i with
      | ⟨i, hi⟩ => 
        iterate 32 (rcases i with _ | i; · simp [BitVec.getLsbD_setWidth])
        omega
    exact this ⟨i, hi⟩
  · rw [List.getElem?_eq_none (by simp [fieldBits]; omega),
      List.getElem?_eq_none (by simp [bytesBits_length]; omega)]

theorem File.write_write {α} (f : File α) (a b : List α) (h : f.pos ≤ f.bytes.length) :
    (f.write a).write b = f.write (a ++ b) := by
  have hl : (f.bytes.take f.pos ++ a).length = f.pos + a.length := by
    rw [List.length_append, List.length_take]; omega
  simp only [File.write]
  congr 1
  · have h1 : List.take (f.pos + a.length) (f.bytes.take f.pos ++ a ++ f.bytes.drop (f.pos + a.length)) =
        f.bytes.take f.pos ++ a := by
      rw [List.take_append_of_le_length (by omega), List.take_of_length_le (by omega)]
    have h2 : List.drop (f.pos + a.length + b.length)
        (f.bytes.take f.pos ++ a ++ f.bytes.drop (f.pos + a.length)) =
        f.bytes.drop (f.pos + (a ++ b).length) := by
      rw [List.drop_append, List.drop_eq_nil_of_le (by omega), List.nil_append, List.drop_drop, hl]
      congr 1
      rw [List.length_append]; omega
    rw [h1, h2]; simp
  · rw [List.length_append]; omega

theorem File.write_nil {α} (f : File α) : f.write [] = f := by
  simp [File.write]

theorem File.write_pos_le {α} (f : File α) (a : List α) (h : f.pos ≤ f.bytes.length) :
    (f.write a).pos ≤ (f.write a).bytes.length := by
  simp only [File.write, List.length_append, List.length_take]; omega

/-- The composed writer represents the byte file `f`. -/
structure R (s : WM) (beyond : Mem) (f : File Byte) : Prop where
  ex : ∃ f0 pend, FInv s.m f0 ∧ f = f0.write pend ∧ WInv s.w beyond (bytesBits pend)
  out : s.w.out = []
  tot : s.w.tot = 8 * f.pos

theorem R.posle {s beyond f} (h : R s beyond f) : f.pos ≤ f.bytes.length := by
  obtain ⟨f0, pend, h1, h2, _⟩ := h.ex
  rw [h2]; exact File.write_pos_le _ _ h1.posle

theorem store_R (s : WM) (beyond : Mem) (f0 : File Byte) (all : List Byte)
    (hf : FInv s.m f0) (hw : WInv s.w beyond (bytesBits all)) (ht : s.w.tot = 8 * (f0.write all).pos) :
    ∃ s', s.store = some s' ∧ R s' beyond (f0.write all) ∧ s'.w.cur = s.w.cur := by
  obtain ⟨w5, wm, wc, wcon, wz, wf⟩ := hw
  have hlen : 8 * all.length = 8 * s.w.out.length + s.w.cur := by
    have := congrArg List.length wcon
    simp only [List.length_append, bytesBits_length, List.length_map, List.length_range] at this
    omega
  have hcur : s.w.cur = 8 * (s.w.cur / 8) := by omega
  have hbuf : (List.range s.w.cur).map (bitAt s.w.mem) =
      bytesBits ((List.range (s.w.cur / 8)).map s.w.mem) := by
    rw [bytesBits_range, ← hcur]
  have hall : all = s.w.out ++ (List.range (s.w.cur / 8)).map s.w.mem := by
    apply bytesBits_inj
    rw [← wcon, hbuf, bytesBits_append]
  unfold WM.store
  by_cases he : s.w.out.isEmpty
  · rw [if_pos he]
    have he' : s.w.out = [] := by simpa using he
    exact ⟨s, rfl, ⟨⟨f0, all, hf, rfl, ⟨w5, wm, wc, wcon, wz, wf⟩⟩, he', ht⟩, rfl⟩
  · rw [if_neg he]
    obtain ⟨m', e1, e2⟩ := write_inv s.m f0 s.w.out hf
    rw [e1]
    refine ⟨_, rfl, ⟨⟨f0.write s.w.out, (List.range (s.w.cur / 8)).map s.w.mem, e2, ?_, ?_⟩, rfl, ht⟩, rfl⟩
    · rw [File.write_write _ _ _ hf.posle, ← hall]
    · refine ⟨w5, wm, wc, ?_, wz, wf⟩
      show bytesBits [] ++ _ = _
      rw [← hbuf]; simp [bytesBits]

theorem put32_R (s : WM) (beyond : Mem) (f : File Byte) (x : Word) (h : R s beyond f) :
    ∃ s', s.put32 x = some s' ∧ R s' beyond (f.write (be32 x.toNat)) := by
  obtain ⟨⟨f0, pend, h1, h2, h3⟩, ho, ht⟩ := h
  obtain ⟨w', e1, e2, e3, _, _⟩ := putbits_inv s.w beyond _ x 32 h3 (by omega) (by omega)
  rw [be32_bits, ← bytesBits_append] at e2
  have hfw : f.write (be32 x.toNat) = f0.write (pend ++ be32 x.toNat) := by
    rw [h2, File.write_write _ _ _ h1.posle]
  obtain ⟨s', g1, g2, _⟩ := store_R { s with w := w' } beyond f0 (pend ++ be32 x.toNat) h1 e2 (by
    show w'.tot = _
    rw [e3, ht, ← hfw]
    simp only [File.write, be32_length]; omega)
  refine ⟨s', ?_, by rw [hfw]; exact g2⟩
  simp only [WM.put32, e1, g1]

theorem writeDirect_inv (s : WState) (beyond : Mem) (pend bs : List Byte) (h : WInv s beyond (bytesBits pend)) :
    WInv (writeDirect s bs) beyond (bytesBits (pend ++ bs)) ∧ (writeDirect s bs).tot = s.tot + bs.length * 8 := by
  obtain ⟨b, c, d, t, e⟩ := flush_inv s beyond _ h
  have hl := h.length
  rw [bytesBits_length] at hl
  have hc0 : (Verif.BitStream.flush s).cur = 0 := by omega
  obtain ⟨i1, i2, i3, i4, i5, i6⟩ := b
  refine ⟨⟨i1, i2, i3, ?_, i5, i6⟩, by show (Verif.BitStream.flush s).tot + _ = _; rw [t]⟩
  show bytesBits ((Verif.BitStream.flush s).out ++ bs) ++
    (List.range (Verif.BitStream.flush s).cur).map (bitAt (Verif.BitStream.flush s).mem) = _
  rw [hc0] at i4 ⊢
  rw [bytesBits_append, bytesBits_append, ← i4]; simp

theorem bytes_R (s : WM) (beyond : Mem) (f : File Byte) (bs : List Byte) (h : R s beyond f) :
    ∃ s', s.bytes bs = some s' ∧ R s' beyond (f.write bs) := by
  obtain ⟨⟨f0, pend, h1, h2, h3⟩, ho, ht⟩ := h
  obtain ⟨e2, e3⟩ := writeDirect_inv s.w beyond pend bs h3
  have hfw : f.write bs = f0.write (pend ++ bs) := by
    rw [h2, File.write_write _ _ _ h1.posle]
  obtain ⟨s', g1, g2, _⟩ := store_R { s with w := writeDirect s.w bs } beyond f0 (pend ++ bs) h1 e2 (by
    show (writeDirect s.w bs).tot = _
    rw [e3, ht, ← hfw]
    simp only [File.write]; omega)
  exact ⟨s', g1, by rw [hfw]; exact g2⟩

theorem flush_R (s : WM) (beyond : Mem) (f : File Byte) (h : R s beyond f) :
    ∃ s', s.flush = some s' ∧ R s' beyond f ∧ s'.w.cur = 0 ∧ FInv s'.m f := by
  obtain ⟨⟨f0, pend, h1, h2, h3⟩, ho, ht⟩ := h
  obtain ⟨e1, e2, e3, e4, _⟩ := flush_inv s.w beyond _ h3
  obtain ⟨s', g1, g2, g3⟩ := store_R { s with w := Verif.BitStream.flush s.w } beyond f0 pend h1 e1 (by
    show (Verif.BitStream.flush s.w).tot = _
    rw [e4, ht, h2])
  have hl := h3.length
  rw [bytesBits_length] at hl
  have hc : s'.w.cur = 0 := by rw [g3]; show (Verif.BitStream.flush s.w).cur = 0; omega
  rw [← h2] at g2
  refine ⟨s', g1, g2, hc, ?_⟩
  obtain ⟨⟨f1, p1, q1, q2, q3⟩, qo, _⟩ := g2
  have hl2 := q3.length
  rw [bytesBits_length, qo, hc] at hl2
  have : p1 = [] := List.eq_nil_of_length_eq_zero (by simp only [List.length_nil] at hl2; omega)
  rw [q2, this, File.write_nil]; exact q1

theorem seek_R (s : WM) (beyond : Mem) (f : File Byte) (p : Nat) (h : R s beyond f) (hp : p ≤ f.bytes.length) :
    ∃ s', s.seek p = some s' ∧ R s' beyond { f with pos := p } := by
  obtain ⟨s1, e1, ⟨⟨f0, pend, q1, q2, q3⟩, qo, qt⟩, e3, e4⟩ := flush_R s beyond f h
  simp only [WM.seek, e1]
  have hl2 := q3.length
  rw [bytesBits_length, qo, e3] at hl2
  have hp0 : pend = [] := List.eq_nil_of_length_eq_zero (by simp only [List.length_nil] at hl2; omega)
  refine ⟨_, rfl, ⟨{ f with pos := p }, [], seek_inv _ _ p e4 hp, (File.write_nil _).symm, ?_⟩, qo, ?_⟩
  · subst hp0
    obtain ⟨a, b, c, d, e, g⟩ := q3
    exact ⟨a, b, c, d, e, g⟩
  · show p * 8 = 8 * p; omega

/-- Writing at the end of the file appends. -/
theorem write_end (bytes xs : List Byte) :
    (File.mk bytes bytes.length).write xs = File.mk (bytes ++ xs) (bytes ++ xs).length := by
  simp [File.write, List.drop_eq_nil_of_le]

theorem write_items (it : Items) : ∀ (c : CMP4W) (beyond : Mem) (bytes : List Byte), fits it →
    R c.s beyond ⟨bytes, bytes.length⟩ →
    ∃ c', c.write it = some c' ∧ c'.parents = c.parents ∧
      R c'.s beyond ⟨bytes ++ encode it, (bytes ++ encode it).length⟩ := by
  induction it with
  | nil => intro c beyond bytes _ h; exact ⟨c, rfl, rfl, by simpa [encode] using h⟩
  | uint x rest ih =>
    intro c beyond bytes hfit h
    obtain ⟨s', e1, e2⟩ := put32_R c.s beyond _ x h
    rw [write_end] at e2
    obtain ⟨c', g1, g2, g3⟩ := ih { c with s := s' } beyond _ hfit e2
    refine ⟨c', ?_, g2, ?_⟩
    · simp only [CMP4W.write, e1, Option.bind_some]; exact g1
    · simpa [encode] using g3
  | bytes bs rest ih =>
    intro c beyond bytes hfit h
    obtain ⟨s', e1, e2⟩ := bytes_R c.s beyond _ bs h
    rw [write_end] at e2
    obtain ⟨c', g1, g2, g3⟩ := ih { c with s := s' } beyond _ hfit e2
    refine ⟨c', ?_, g2, ?_⟩
    · simp only [CMP4W.write, e1, Option.bind_some]; exact g1
    · simpa [encode] using g3
  | box t body rest ihb ihr =>
    intro c beyond bytes hfit h
    obtain ⟨hsz, hfb, hfr⟩ := hfit
    -- open
    obtain ⟨s1, a1, a2⟩ := put32_R c.s beyond _ 0xFFFFFFFF h
    rw [write_end] at a2
    obtain ⟨s2, b1, b2⟩ := put32_R s1 beyond _ t a2
    rw [write_end] at b2
    have hpos : c.s.position = bytes.length := by
      simp only [WM.position, h.tot]; omega
    have hopen : c.openBox t = some { s := s2, parents := (t, bytes.length) :: c.parents } := by
      simp only [CMP4W.openBox, a1, b1, hpos]
    -- body
    obtain ⟨c3, d1, d2, d3⟩ := ihb { s := s2, parents := (t, bytes.length) :: c.parents } beyond _ hfb b2
    -- close
    have hend : c3.s.position = bytes.length + (8 + (encode body).length) := by
      simp only [WM.position, d3.tot, List.length_append, be32_length]; omega
    obtain ⟨s4, f1, f2⟩ := seek_R c3.s beyond _ bytes.length d3 (by
      simp only [List.length_append]; omega)
    obtain ⟨s5, g1, g2⟩ := put32_R s4 beyond _ (BitVec.ofNat 32 (8 + (encode body).length)) f2
    have hval : (BitVec.ofNat 32 (8 + (encode body).length)).toNat = 8 + (encode body).length := by
      rw [BitVec.toNat_ofNat, Nat.mod_eq_of_lt hsz]
    have hfile : (File.mk (bytes ++ be32 (0xFFFFFFFF : Word).toNat ++ be32 t.toNat ++ encode body) bytes.length).write
        (be32 (8 + (encode body).length)) =
        ⟨bytes ++ be32 (8 + (encode body).length) ++ be32 t.toNat ++ encode body, bytes.length + 4⟩ := by
      simp only [File.write, be32_length, List.append_assoc]
      rw [List.take_append_of_le_length (Nat.le_refl _), List.take_of_length_le (Nat.le_refl _)]
      rw [List.drop_append, List.drop_eq_nil_of_le (by omega)]
      congr 2
      simp only [List.nil_append]
      rw [show bytes.length + 4 - bytes.length = 4 by omega]
      congr 1
    rw [hval, hfile] at g2
    obtain ⟨s6, k1, k2⟩ := seek_R s5 beyond _ (bytes.length + (8 + (encode body).length)) g2 (by
      simp only [List.length_append, be32_length]; omega)
    have hclose : c3.closeBox t = some { s := s6, parents := c.parents } := by
      simp only [CMP4W.closeBox, d2, f1, hend]
      rw [show bytes.length + (8 + (encode body).length) - bytes.length = 8 + (encode body).length by omega]
      simp only [g1, k1]
    -- rest
    obtain ⟨c7, m1, m2, m3⟩ := ihr { s := s6, parents := c.parents } beyond
      (bytes ++ be32 (8 + (encode body).length) ++ be32 t.toNat ++ encode body) hfr (by
        have : bytes.length + (8 + (encode body).length) =
          (bytes ++ be32 (8 + (encode body).length) ++ be32 t.toNat ++ encode body).length := by
          simp only [List.length_append, be32_length]; omega
        rw [← this]; exact k2)
    refine ⟨c7, ?_, m2, ?_⟩
    · simp only [CMP4W.write, hopen, Option.bind_some, d1, hclose]; exact m1
    · simpa [encode] using m3

theorem mk0_R (bufLen size : Nat) (beyond : Mem) (h1 : 1 ≤ bufLen) (h5 : 5 ≤ size) (hm : size < 2 ^ 29) :
    R (WM.mk0 bufLen size beyond) beyond ⟨[], 0⟩ := by
  refine ⟨⟨⟨[], 0⟩, [], ?_, (File.write_nil _).symm, winit_inv size beyond h5 hm⟩, rfl, rfl⟩
  exact ⟨h1, rfl, rfl, Nat.le_refl _, rfl, by simp [WM.mk0, MemFile.mk0, CBuf.mk0]; omega, rfl⟩

/-! parser -/

theorem nat32_be32 (n : Nat) (h : n < 2 ^ 32) :
    nat32 (BitVec.ofNat 8 (n / 16777216)) (BitVec.ofNat 8 (n / 65536)) (BitVec.ofNat 8 (n / 256))
      (BitVec.ofNat 8 n) = n := by
  simp only [nat32, BitVec.toNat_ofNat]; omega

theorem parse_encode (it : Items) : ∀ (bs : List (BitVec 32 × Items)) (fuel : Nat), fits it →
    boxes it = some bs → (encode it).length ≤ fuel →
    parse fuel (encode it) = some (bs.map (fun b => (b.1.toNat, encode b.2))) := by
  induction it with
  | nil => intro bs fuel _ h _; simp only [boxes, Option.some.injEq] at h; subst h; simp [encode, parse]
  | uint x rest ih => intro bs fuel _ h _; simp [boxes] at h
  | bytes b rest ih => intro bs fuel _ h _; simp [boxes] at h
  | box t body rest ihb ihr =>
    intro bs fuel hf hb hfuel
    simp only [boxes] at hb
    cases hr : boxes rest with
    | none => rw [hr] at hb; simp at hb
    | some bs' =>
      rw [hr] at hb; simp only [Option.map_some, Option.some.injEq] at hb
      subst hb
      obtain ⟨h1, h2, h3⟩ := hf
      simp only [encode, List.length_append, be32_length] at hfuel
      obtain ⟨fuel, rfl⟩ : ∃ k, fuel = k + 1 := ⟨fuel - 1, by omega⟩
      have e : encode (.box t body rest) = be32 (8 + (encode body).length) ++ be32 t.toNat ++
        (encode body ++ encode rest) := by simp [encode]
      rw [e]
      simp only [be32, List.cons_append, List.nil_append, parse]
      rw [nat32_be32 _ h1, nat32_be32 _ t.isLt]
      rw [if_neg (by omega), if_neg (by simp only [List.length_append]; omega)]
      rw [show 8 + (encode body).length - 8 = (encode body).length by omega, List.drop_left, List.take_left]
      rw [ihr bs' fuel h3 hr (by omega)]
      simp

end Verif.Box
