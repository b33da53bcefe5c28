import Verif.Buffer.Spec
namespace Verif.Buffer
open Spec
variable {α : Type} [Zero α]

theorem prepare_spec (b : CBuf α) (n : Nat) (ho : 1 ≤ b.origin) (hc : b.current ≤ b.data.length) :
    ∃ b', b.prepare n = some b' ∧ b'.current = b.current ∧ b'.origin = b.origin ∧
      b.current + n < b'.data.length ∧ b.data.length ≤ b'.data.length ∧
      b'.data.take b.current = b.data.take b.current ∧
      (∀ i, b.current ≤ i → b'.data[i]? = b.data[i]? ∨ b'.data[i]? = some 0 ∨ b'.data[i]? = none) := by
  induction hk : (n + b.current + 1 - b.data.length) using Nat.strongRecOn generalizing b with
  | ind k ih =>
    by_cases h1 : b.data.length - b.current ≤ n
    · have h2 : ¬ max b.origin n = 0 := by omega
      have hl := growOnce_length b n
      have hcur : (b.growOnce n).current = b.current := rfl
      obtain ⟨b', e1, e2, e3, e4, e5, e6, e7⟩ := ih (n + (b.growOnce n).current + 1 - (b.growOnce n).data.length)
        (by rw [hl, hcur]; omega) (b.growOnce n) ho (by rw [hl, hcur]; omega) rfl
      rw [hcur] at e2 e4 e6 e7
      refine ⟨b', ?_, e2, e3, e4, by omega, ?_, ?_⟩
      · rw [CBuf.prepare, dif_pos h1, dif_neg h2, e1]
      · rw [e6]; simp only [CBuf.growOnce]
        rw [List.take_append_of_le_length (by rw [List.length_take]; omega), List.take_take, Nat.min_self]
      · intro i hi
        rcases e7 i hi with h | h | h
        · right
          rw [h]
          simp only [CBuf.growOnce]
          rw [List.getElem?_append_right (by rw [List.length_take]; omega), List.getElem?_replicate]
          split
          · left; rfl
          · right; rfl
        · right; left; exact h
        · right; right; exact h
    · refine ⟨b, ?_, rfl, rfl, by omega, Nat.le_refl _, rfl, fun i _ => Or.inl rfl⟩
      rw [CBuf.prepare, dif_neg h1]

/-- buffer invariant: content, at least one element of slack, zeros after the content -/
structure BInv (b : CBuf α) (c : List α) : Prop where
  origin : 1 ≤ b.origin
  cur : b.current = c.length
  slack : b.current < b.data.length
  content : b.data.take b.current = c
  zero : ∀ i, b.current ≤ i → i < b.data.length → b.data[i]? = some 0

theorem append_inv (b : CBuf α) (c xs : List α) (h : BInv b c) :
    ∃ b' d, b.prepare xs.length = some b' ∧ overwrite b'.data b'.current xs = some d ∧
      BInv { b' with data := d, current := b'.current + xs.length } (c ++ xs) := by
  obtain ⟨ho, hcur, hs, hcon, hz⟩ := h
  obtain ⟨b', e1, e2, e3, e4, e5, e6, e7⟩ := prepare_spec b xs.length ho (by omega)
  refine ⟨b', b'.data.take b'.current ++ xs ++ b'.data.drop (b'.current + xs.length), e1, ?_, ?_⟩
  · rw [overwrite, if_pos (by omega)]
  · have hlt : (b'.data.take b'.current).length = b'.current := by rw [List.length_take]; omega
    refine ⟨by simpa [e3] using ho, by simp [e2, hcur], ?_, ?_, ?_⟩
    · simp only [List.length_append, hlt, List.length_drop]; omega
    · show List.take (b'.current + xs.length) _ = _
      rw [List.take_append_of_le_length (by simp only [List.length_append, hlt]; omega),
        List.take_of_length_le (by simp only [List.length_append, hlt]; omega), e2, e6, hcon]
    · intro i hi hi2
      have hi' : b'.current + xs.length ≤ i := hi
      have hi2' : i < (b'.data.take b'.current ++ xs ++ b'.data.drop (b'.current + xs.length)).length := hi2
      show (b'.data.take b'.current ++ xs ++ b'.data.drop (b'.current + xs.length))[i]? = some 0
      have hlx : (b'.data.take b'.current ++ xs).length = b'.current + xs.length := by
        simp only [List.length_append, hlt]
      rw [List.getElem?_append_right (by omega), List.getElem?_drop, hlx,
        show b'.current + xs.length + (i - (b'.current + xs.length)) = i by omega]
      simp only [List.length_append, hlt, List.length_drop] at hi2'
      rcases e7 i (by omega) with h | h | h
      · rw [h]
        refine hz i (by omega) ?_
        rw [List.getElem?_eq_getElem (by omega)] at h
        exact (List.getElem?_eq_some_iff.1 h.symm).1
      · exact h
      · rw [List.getElem?_eq_none_iff] at h; omega

omit [Zero α] in
theorem overwrite_length {d xs d' : List α} {p : Nat} (h : overwrite d p xs = some d') : d'.length = d.length := by
  unfold overwrite at h
  split at h
  · injection h with h; subst h
    simp only [List.length_append, List.length_take, List.length_drop]; omega
  · contradiction

theorem bRun_inv (ops : List (BOp α)) : ∀ (b : CBuf α) (c c' : List α), BInv b c → content c ops = some c' →
    ∃ b', bRun b ops = some b' ∧ BInv b' c' := by
  induction ops with
  | nil => intro b c c' h hc; simp only [content, Option.some.injEq] at hc; subst hc; exact ⟨b, rfl, h⟩
  | cons op ops ih =>
    intro b c c' h hc
    cases op with
    | add xs =>
      by_cases hx : xs.length = 0
      · have : xs = [] := List.eq_nil_of_length_eq_zero hx
        subst this
        simp only [content, List.append_nil] at hc
        obtain ⟨b', e1, e2⟩ := ih b c c' h hc
        exact ⟨b', by simpa [bRun, bStep, CBuf.add] using e1, e2⟩
      · obtain ⟨b1, d, e1, e2, e3⟩ := append_inv b c xs h
        obtain ⟨b', e4, e5⟩ := ih _ _ c' e3 hc
        refine ⟨b', ?_, e5⟩
        simp only [bRun, bStep, CBuf.add, if_neg hx, e1, e2, Option.bind_some]; exact e4
    | direct xs =>
      obtain ⟨b1, d, e1, e2, e3⟩ := append_inv b c xs h
      obtain ⟨b', e4, e5⟩ := ih _ _ c' e3 hc
      refine ⟨b', ?_, e5⟩
      simp only [bRun, bStep, CBuf.direct, e1, e2, Option.bind_some]; exact e4
    | reset =>
      have : BInv b.reset ([] : List α) := by
        obtain ⟨ho, hcur, hs, hcon, hz⟩ := h
        refine ⟨ho, rfl, ?_, rfl, ?_⟩
        · simp only [CBuf.reset, List.length_replicate]; omega
        · intro i _ hi
          simp only [CBuf.reset, List.length_replicate] at hi
          simp [CBuf.reset, hi]
      obtain ⟨b', e4, e5⟩ := ih _ _ c' this hc
      exact ⟨b', by simpa [bRun, bStep] using e4, e5⟩
    | back n =>
      simp only [content] at hc
      split at hc
      · rename_i hn
        obtain ⟨ho, hcur, hs, hcon, hz⟩ := h
        have hlt : (b.data.take (b.current - n)).length = b.current - n := by rw [List.length_take]; omega
        have hov : overwrite b.data (b.current - n) (List.replicate n 0) =
            some (b.data.take (b.current - n) ++ List.replicate n 0 ++ b.data.drop b.current) := by
          rw [overwrite, if_pos (by simp only [List.length_replicate]; omega)]
          simp only [List.length_replicate]
          rw [show b.current - n + n = b.current by omega]
        have hinv : BInv { b with data := b.data.take (b.current - n) ++ List.replicate n 0 ++ b.data.drop b.current,
                                  current := b.current - n } (c.take (c.length - n)) := by
          refine ⟨ho, ?_, ?_, ?_, ?_⟩
          · simp only [List.length_take]; omega
          · simp only [List.length_append, hlt, List.length_replicate, List.length_drop]; omega
          · show List.take (b.current - n) _ = _
            rw [List.append_assoc, List.take_append_of_le_length (by omega), List.take_take, Nat.min_self,
              ← hcon, List.take_take, List.length_take]
            congr 1; omega
          · intro i hi hi2
            have hi' : b.current - n ≤ i := hi
            simp only [List.length_append, hlt, List.length_replicate, List.length_drop] at hi2
            show (b.data.take (b.current - n) ++ List.replicate n 0 ++ b.data.drop b.current)[i]? = some 0
            by_cases hb : i < b.current
            · rw [List.getElem?_append_left (by simp only [List.length_append, hlt, List.length_replicate]; omega),
                List.getElem?_append_right (by omega), hlt, List.getElem?_replicate, if_pos (by omega)]
            · rw [List.getElem?_append_right (by simp only [List.length_append, hlt, List.length_replicate]; omega),
                List.getElem?_drop]
              simp only [List.length_append, hlt, List.length_replicate]
              rw [show b.current + (i - (b.current - n + n)) = i by omega]
              exact hz i (by omega) (by omega)
        obtain ⟨b', e4, e5⟩ := ih _ _ c' hinv hc
        refine ⟨b', ?_, e5⟩
        simp only [bRun, bStep, CBuf.back, if_pos (show n ≤ b.current by omega), hov, Option.map_some,
          Option.bind_some]
        exact e4
      · contradiction

/-! memory file -/

structure FInv (m : MemFile α) (f : File α) : Prop where
  origin : 1 ≤ m.buf.origin
  pos : m.pos = f.pos
  cur : m.buf.current = m.pos
  posle : f.pos ≤ f.bytes.length
  size : m.size = f.bytes.length
  slack : m.size < m.buf.data.length
  content : m.buf.data.take m.size = f.bytes

omit [Zero α] in
theorem take_eq_of_take {l l' : List α} {m n : Nat} (h : l.take n = l'.take n) (hm : m ≤ n) :
    l.take m = l'.take m := by
  have := congrArg (List.take m) h
  rwa [List.take_take, List.take_take, Nat.min_eq_left hm] at this

theorem write_inv (m : MemFile α) (f : File α) (xs : List α) (h : FInv m f) :
    ∃ m', m.write xs = some m' ∧ FInv m' (f.write xs) := by
  obtain ⟨ho, hp, hc, hle, hs, hsl, hcon⟩ := h
  -- the buffer after the optional prepare
  have key : ∃ b, (if m.buf.data.length - m.pos ≤ xs.length then m.buf.prepare xs.length else some m.buf) = some b ∧
      b.current = m.pos ∧ b.origin = m.buf.origin ∧ m.pos + xs.length < b.data.length ∧
      m.buf.data.length ≤ b.data.length ∧ b.data.take m.pos = m.buf.data.take m.pos ∧
      (m.pos + xs.length < m.size → b = m.buf) := by
    by_cases hg : m.buf.data.length - m.pos ≤ xs.length
    · rw [if_pos hg]
      obtain ⟨b', e1, e2, e3, e4, e5, e6, _⟩ := prepare_spec m.buf xs.length ho (by omega)
      rw [hc] at e2 e4 e6
      exact ⟨b', e1, e2, e3, e4, e5, e6, fun _ => by omega⟩
    · rw [if_neg hg]
      exact ⟨m.buf, rfl, hc, rfl, by omega, Nat.le_refl _, rfl, fun _ => rfl⟩
  obtain ⟨b, e1, e2, e3, e4, e5, e6, e7⟩ := key
  have hlt : (b.data.take m.pos).length = m.pos := by rw [List.length_take]; omega
  have hov : overwrite b.data m.pos xs = some (b.data.take m.pos ++ xs ++ b.data.drop (m.pos + xs.length)) := by
    rw [overwrite, if_pos (by omega)]
  simp only [MemFile.write, e1, hov]
  refine ⟨_, rfl, ?_⟩
  have htp : m.buf.data.take m.pos = f.bytes.take f.pos := by
    rw [← hcon, List.take_take, hp, Nat.min_eq_left (by omega)]
  have hflen : (f.bytes.take f.pos ++ xs).length = f.pos + xs.length := by
    rw [List.length_append, List.length_take]; omega
  by_cases hbig : m.pos + xs.length ≥ m.size
  · simp only [if_pos hbig]
    have hdrop : f.bytes.drop (f.pos + xs.length) = [] := List.drop_eq_nil_of_le (by omega)
    refine ⟨e3 ▸ ho, by simp [File.write, hp], by simp [e2], ?_, ?_, ?_, ?_⟩
    · simp only [File.write, hdrop, List.append_nil]; rw [hflen]; exact Nat.le_refl _
    · simp only [File.write, hdrop, List.append_nil]; rw [hflen]; omega
    · simp only [List.length_append, hlt, List.length_drop]; omega
    · simp only [File.write, hdrop, List.append_nil]
      rw [List.take_append_of_le_length (by simp only [List.length_append, hlt]; omega),
        List.take_of_length_le (by simp only [List.length_append, hlt]; omega), e6, htp]
  · simp only [if_neg hbig]
    have hb := e7 (by omega)
    subst hb
    refine ⟨e3 ▸ ho, by simp [File.write, hp], by simp [e2], ?_, ?_, ?_, ?_⟩
    · simp only [File.write, List.length_append, List.length_take, List.length_drop]; omega
    · simp only [File.write, List.length_append, List.length_take, List.length_drop]; omega
    · simp only [List.length_append, hlt, List.length_drop]; omega
    · simp only [File.write]
      rw [← htp, hp, List.take_append, List.take_of_length_le (by
        rw [List.length_append, List.length_take]; omega)]
      congr 1
      rw [← hcon, List.drop_take]
      congr 1
      rw [List.length_append, List.length_take]; omega

omit [Zero α] in
theorem seek_inv (m : MemFile α) (f : File α) (p : Nat) (h : FInv m f) (hp : p ≤ f.bytes.length) :
    FInv (m.setPosition p) { f with pos := p } := by
  obtain ⟨ho, hpos, hc, hle, hs, hsl, hcon⟩ := h
  refine ⟨ho, rfl, ?_, hp, hs, hsl, hcon⟩
  simp only [MemFile.setPosition]
  split <;> omega

end Verif.Buffer
