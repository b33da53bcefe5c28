import Verif.FileReader.ReadLemmas

namespace Verif.FileReader
open Verif.BitStream (Byte Word Mem RErr bytesBits_length)
open Verif.BitStream.Spec (fieldBits bytesBits)

theorem turn_good {s : St} {pre mid : List Byte} (G : Good s pre mid) (h : s.cur + 32 ≤ 8 * s.bufLen ∨ mid ≠ [] ∨ 8 * s.bufLen ≤ s.cur) :
    (turn s = .error .endOfData ∧ ¬ Punctual s ∧ s.cur ≠ 8 * s.bufLen) ∨
    ∃ b s' pre' mid', turn s = .ok (b, s') ∧ (Good s' pre' mid' ∨ (Bad s' pre' mid' ∧ s.cur / 8 ≠ s.bufLen)) ∧ Keeps s s' ∧ s'.tot = s.tot ∧
      s'.cur % 8 = s.cur % 8 ∧ (b = true → Good s' pre' mid' ∧ s.shadowLen = 0 ∧ s.eof = true) ∧ (Punctual s → (b = true ↔ (mid = [] ∧ 8 * s.bufLen ≤ s.cur))) ∧
      (b = false → s.cur = 8 * s.bufLen → s'.cur = 0) ∧ (mid = [] → 8 * s.bufLen ≤ s.cur → b = true) := by
  obtain ⟨b, s1, a1, a2, a3, a4, a5, a6, a7, a8, a9, a10⟩ := atend_good G
  cases b with
  | true =>
    right
    refine ⟨true, s1, pre, mid, by rw [turn, a1], Or.inl a2, a3, a4, by rw [a5], fun _ => ⟨a2, (a7 rfl).1, (a7 rfl).2.1⟩, a8, by simp, fun _ _ => rfl⟩
  | false =>
    have h' : s1.cur + 32 ≤ 8 * s1.bufLen ∨ mid ≠ [] := by
      rw [a5, a6]
      rcases h with h | h | h
      · exact Or.inl h
      · exact Or.inr h
      · right; intro hm; exact absurd (a9 hm h) (by simp)
    rcases nextbits_state a2 32 (by omega) (by omega) h' with ⟨e, np, e2, e3⟩ | ⟨x, s', pre', mid', e, _, g, k, t, c8, c⟩
    · left
      refine ⟨by rw [turn, a1]; simp only [e], fun hp => np ((a3.punctual).2 hp), ?_⟩
      intro hc
      exact a10 rfl ⟨e2, e3, by omega⟩
    · right
      refine ⟨false, s', pre', mid', by rw [turn, a1]; simp only [e], ?_, a3.trans k, by rw [t, a4], by rw [c8, a5], by simp, a8, ?_, ?_⟩
      · rcases g with g | ⟨g, g', _⟩
        · exact Or.inl g
        · exact Or.inr ⟨g, by rw [a5, a6] at g'; exact g'⟩
      · intro _ hc
        rcases c with ⟨_, _, c⟩ | ⟨_, _, c, _⟩
        · omega
        · rw [c, a5, hc]; omega
      · intro hm hc; exact (a9 hm hc)

/-- A call of `__read` when it is known that the reader is not at the end, and when not everything is asked for. -/
theorem readOnce_inv {s : St} (H : Inv s) (n : Nat) (hn : 1 ≤ n) (h8 : s.cur % 8 = 0) (hfit : s.tot + 8 * n + 64 ≤ 8 * s.file.length)
    (ha : ∀ pre mid, Good s pre mid → ¬ (s.shadowLen = 0 ∧ s.eof = true ∧ 8 * s.bufLen ≤ s.cur)) :
    (readOnce s n = .error .endOfData ∧ ¬ Punctual s) ∨
    ∃ d s', readOnce s n = .ok (d, s') ∧ Inv s' ∧ Keeps s s' ∧ 1 ≤ d.length ∧ d.length ≤ n ∧ d = (s.file.drop (s.tot / 8)).take d.length ∧
      s'.tot = s.tot + 8 * d.length ∧ s'.cur % 8 = 0 := by
  by_cases hav : s.bufLen - s.cur / 8 > n
  · -- from the buffer
    have hfit1 : s.cur + 8 * n ≤ 8 * s.bufLen := by omega
    obtain ⟨pre, mid, G | B⟩ := H
    · have hl := base_length G.base
      have ht := G.base.tot
      have G1 := forward_good G (8 * n) hfit1
      have hcase : (forward s (8 * n)).cur + 32 ≤ 8 * (forward s (8 * n)).bufLen ∨ mid ≠ [] := by
        by_cases hm : mid = []
        · left; rw [hm] at hl; simp at hl; show s.cur + 8 * n + 32 ≤ 8 * s.bufLen; omega
        · exact Or.inr hm
      have hdata := base_bytes G.base n h8 hfit1
      have hdl : ((s.file.drop (s.tot / 8)).take n).length = n := by rw [← hdata, slice_length]
      rcases nextbits_state G1 32 (by omega) (by omega) hcase with ⟨e, np, _⟩ | ⟨x, s', pre', mid', e, _, g, k, t, c8, _⟩
      · left
        refine ⟨?_, np⟩
        rw [readOnce]; simp only; rw [if_pos hav]
        show (match nextbits (forward s (8 * n)) 32 with | .error e => _ | .ok (_, s) => _) = _
        rw [e]
      · right
        refine ⟨slice s.buf (s.cur / 8) n, s', ?_, ⟨pre', mid', ?_⟩, (forward_keeps s (8 * n)).trans k, by rw [slice_length]; exact hn, Nat.le_of_eq (slice_length _ _ _), ?_, ?_, ?_⟩
        · rw [readOnce]; simp only; rw [if_pos hav]
          show (match nextbits (forward s (8 * n)) 32 with | .error e => _ | .ok (_, s) => _) = _
          rw [e]
        · rcases g with g | g
          · exact Or.inl g
          · exact Or.inr g.1
        · rw [slice_length]; exact hdata
        · rw [t, slice_length]; rfl
        · rw [c8]; show (s.cur + 8 * n) % 8 = 0; omega
    · right
      have hl := base_length B.base
      have ht := B.base.tot
      have hf := B.few
      have B1 := forward_bad B (8 * n) hfit1
      obtain ⟨x, e, _⟩ := nextbits_bad B1.base 32 (by omega) (by omega) (by show s.cur + 8 * n + 32 ≤ 8 * s.bufLen; omega)
      refine ⟨slice s.buf (s.cur / 8) n, forward s (8 * n), ?_, ⟨pre, mid, Or.inr B1⟩, forward_keeps _ _, by rw [slice_length]; exact hn, Nat.le_of_eq (slice_length _ _ _),
        ?_, ?_, ?_⟩
      · rw [readOnce]; simp only; rw [if_pos hav]
        show (match nextbits (forward s (8 * n)) 32 with | .error e => _ | .ok (_, s) => _) = _
        rw [e]
      · rw [slice_length]; exact base_bytes B.base n h8 hfit1
      · rw [slice_length]; rfl
      · show (s.cur + 8 * n) % 8 = 0; omega
  · -- the buffer is not enough
    obtain ⟨pre, mid, G | B⟩ := H
    swap
    · exfalso
      have hl := base_length B.base
      have ht := B.base.tot
      have hf := B.few
      omega
    have hl := base_length G.base
    have ht := G.base.tot
    have hcur := G.base.cur
    obtain ⟨a, had⟩ : ∃ a, a = s.bufLen - s.cur / 8 := ⟨_, rfl⟩
    have hca : s.cur + 8 * a = 8 * s.bufLen := by omega
    have hm : mid ≠ [] := by intro hm; rw [hm] at hl; simp at hl; omega
    have hdata := base_bytes G.base a h8 (by omega)
    have G1 := forward_good G (8 * a) (by omega)
    have hro : readOnce s n = match turn (forward s (8 * a)) with
        | .error e => .error e
        | .ok (true, s2) => .ok (slice s.buf (s.cur / 8) a, s2)
        | .ok (false, s2) =>
          match turn (forward s2 (8 * (if n - a > s2.bufLen then s2.bufLen else n - a))) with
          | .error e => .error e
          | .ok (_, s3) => .ok (slice s.buf (s.cur / 8) a ++ slice s2.buf 0 (if n - a > s2.bufLen then s2.bufLen else n - a), s3) := by
      rw [readOnce]; simp only; rw [if_neg hav, ← had]; rfl
    rcases turn_good G1 (Or.inr (Or.inl hm)) with ⟨_, _, e⟩ | ⟨b, s2, pre2, mid2, e, g, k, t, c8, tb, tp, tc, tm⟩
    · exact absurd (show s.cur + 8 * a = 8 * s.bufLen from hca) e
    · have hc2 : (forward s (8 * a)).cur = 8 * (forward s (8 * a)).bufLen := hca
      have G2 : Good s2 pre2 mid2 := by
        rcases g with g | ⟨_, g⟩
        · exact g
        · exfalso; apply g; rw [hc2]; omega
      cases b with
      | true =>
        right
        have ha1 : 1 ≤ a := by
          obtain ⟨_, e1, e2⟩ := tb rfl
          have := ha pre mid G
          have e1' : s.shadowLen = 0 := e1
          have e2' : s.eof = true := e2
          by_cases h0 : a = 0
          · exact absurd ⟨e1', e2', by omega⟩ this
          · omega
        refine ⟨slice s.buf (s.cur / 8) a, s2, by rw [hro, e], ⟨pre2, mid2, Or.inl G2⟩, (forward_keeps s (8 * a)).trans k, by rw [slice_length]; exact ha1,
          by rw [slice_length]; omega, by rw [slice_length]; exact hdata, by rw [t, slice_length]; rfl, ?_⟩
        rw [c8]; show (s.cur + 8 * a) % 8 = 0; omega
      | false =>
        have hz : s2.cur = 0 := tc rfl hc2
        have ht2 : s2.tot = s.tot + 8 * a := t
        have hf2 : s2.file = s.file := k.file
        have hl2 := base_length G2.base
        have htt2 := G2.base.tot
        obtain ⟨todo, htd⟩ : ∃ todo, todo = if n - a > s2.bufLen then s2.bufLen else n - a := ⟨_, rfl⟩
        have htle : todo ≤ s2.bufLen := by rw [htd]; split <;> omega
        have htle' : todo ≤ n - a := by rw [htd]; split <;> omega
        have G3 := forward_good G2 (8 * todo) (by omega)
        have hcase : (forward s2 (8 * todo)).cur + 32 ≤ 8 * (forward s2 (8 * todo)).bufLen ∨ mid2 ≠ [] ∨ 8 * (forward s2 (8 * todo)).bufLen ≤ (forward s2 (8 * todo)).cur := by
          by_cases hm2 : mid2 = []
          · left
            show s2.cur + 8 * todo + 32 ≤ 8 * s2.bufLen
            rw [hm2] at hl2; simp at hl2; rw [hf2] at hl2; omega
          · exact Or.inr (Or.inl hm2)
        have hpun : Punctual (forward s2 (8 * todo)) ↔ Punctual s := (((forward_keeps s (8 * a)).trans k).trans (forward_keeps s2 (8 * todo))).punctual
        rcases turn_good G3 hcase with ⟨e3, np, _⟩ | ⟨b3, s3, pre3, mid3, e3, g3, k3, t3, c3, tb3, _, _, _⟩
        · left
          refine ⟨?_, fun hp => np (hpun.2 hp)⟩
          rw [hro, e]; simp only; rw [← htd, e3]
        · right
          have hmore := base_bytes G2.base todo (by omega) (by omega)
          rw [hz, show (0 : Nat) / 8 = 0 from rfl, hf2, ht2, show (s.tot + 8 * a) / 8 = s.tot / 8 + a by omega] at hmore
          have hdl : (slice s.buf (s.cur / 8) a ++ slice s2.buf 0 todo).length = a + todo := by simp [slice_length]
          refine ⟨slice s.buf (s.cur / 8) a ++ slice s2.buf 0 todo, s3, ?_, ⟨pre3, mid3, ?_⟩,
            (((forward_keeps s (8 * a)).trans k).trans (forward_keeps s2 (8 * todo))).trans k3, ?_, ?_, ?_, ?_, ?_⟩
          · rw [hro, e]; simp only; rw [← htd, e3]
          · rcases g3 with g3 | g3
            · exact Or.inl g3
            · exact Or.inr g3.1
          · rw [hdl]
            by_cases h0 : a = 0
            · have : 1 ≤ s2.bufLen := by
                by_cases hm2 : mid2 = []
                · rw [hm2] at hl2; simp at hl2; rw [hf2] at hl2; omega
                · have := G2.base.full hm2; have := G2.base.size; omega
              have : 1 ≤ todo := by rw [htd]; split <;> omega
              omega
            · omega
          · rw [hdl]; omega
          · rw [hdl, hdata, hmore, segments]
          · rw [t3, hdl]; show s2.tot + 8 * todo = _; omega
          · rw [c3]; show (s2.cur + 8 * todo) % 8 = 0; omega

theorem wait_bad {s : St} {pre mid : List Byte} (B : Bad s pre mid) : wait s = s := by rw [wait, B.none]

theorem look_bad {s : St} {pre mid : List Byte} (B : Bad s pre mid) : look s = { s with tick := s.tick + 1 } := by
  rw [look]
  split
  · rw [wait_bad B]
  · rfl

theorem tick_bad {s : St} {pre mid : List Byte} (B : Bad s pre mid) (t : Nat) : Bad { s with tick := t } pre mid :=
  ⟨⟨B.base.file, B.base.tot, B.base.cur, B.base.len, B.base.full, B.base.size⟩, B.none, B.few, B.load, B.eof, B.pos, B.shadow⟩

/-- What comes before a call of `__read` in the loop. -/
theorem loop_head {s : St} (H : Inv s) (first : Bool) (hfit : s.tot + 64 ≤ 8 * s.file.length) :
    ∃ b s1, atend s = (b, s1) ∧ Inv s1 ∧ Keeps s s1 ∧ s1.tot = s.tot ∧ s1.cur = s.cur ∧ (Punctual s → b = false) ∧
      (b = false → Inv (if first then s1 else wait s1) ∧ Keeps s (if first then s1 else wait s1) ∧ (if first then s1 else wait s1).tot = s.tot ∧
        (if first then s1 else wait s1).cur = s.cur ∧
        ∀ pre mid, Good (if first then s1 else wait s1) pre mid →
          ¬ ((if first then s1 else wait s1).shadowLen = 0 ∧ (if first then s1 else wait s1).eof = true ∧
              8 * (if first then s1 else wait s1).bufLen ≤ (if first then s1 else wait s1).cur)) := by
  obtain ⟨pre, mid, G | B⟩ := H
  · have hl := base_length G.base
    have ht := G.base.tot
    obtain ⟨b, s1, a1, a2, a3, a4, a5, a6, a7, a8, a9, a10⟩ := atend_good G
    refine ⟨b, s1, a1, ⟨pre, mid, Or.inl a2⟩, a3, a4, a5, ?_, ?_⟩
    · intro hp
      cases b with
      | false => rfl
      | true =>
        obtain ⟨e1, e2⟩ := (a8 hp).1 rfl
        rw [e1] at hl; simp at hl; omega
    · intro hb
      have hno := a10 hb
      cases first with
      | true => exact ⟨⟨pre, mid, Or.inl a2⟩, a3, a4, a5, fun _ _ _ => hno⟩
      | false =>
        obtain ⟨m, k, e, g, hk⟩ := wait_good a2
        simp only [Bool.false_eq_true, if_false]
        refine ⟨⟨pre, mid, Or.inl g⟩, a3.trans ⟨by rw [e], by rw [e], by rw [e], by rw [e]⟩, by rw [e]; exact a4, by rw [e]; exact a5, fun _ _ _ => ?_⟩
        rw [e]
        rintro ⟨e1, e2, e3⟩
        have e1' : k = 0 := e1
        exact hno ⟨by omega, e2, e3⟩
  · have hl := base_length B.base
    have ht := B.base.tot
    have hf := B.few
    have B1 := tick_bad B (s.tick + 1)
    have hcur : ¬ 8 * s.bufLen ≤ s.cur := by omega
    refine ⟨false, { s with tick := s.tick + 1 }, ?_, ⟨pre, mid, Or.inr B1⟩, ⟨rfl, rfl, rfl, rfl⟩, rfl, rfl, fun _ => rfl, fun _ => ?_⟩
    · rw [atend_eq, look_bad B]
      simp [hcur]
    · rw [wait_bad B1]
      simp only [ite_self]
      exact ⟨⟨pre, mid, Or.inr B1⟩, ⟨rfl, rfl, rfl, rfl⟩, trivial, trivial, fun _ _ _ h => hcur h.2.2⟩

theorem readLoop_inv : ∀ (fuel : Nat) (first : Bool) (s : St) (n : Nat), n < fuel → Inv s → s.cur % 8 = 0 → s.tot + 8 * n + 64 ≤ 8 * s.file.length →
    (readLoop fuel first s n = .error .endOfData ∧ ¬ Punctual s) ∨
    ∃ d s', readLoop fuel first s n = .ok (d, s') ∧ Inv s' ∧ Keeps s s' ∧ d.length ≤ n ∧ d = (s.file.drop (s.tot / 8)).take d.length ∧
      s'.tot = s.tot + 8 * d.length ∧ s'.cur % 8 = 0 ∧ (Punctual s → d.length = n) := by
  intro fuel
  induction fuel with
  | zero => intro _ _ n h; omega
  | succ fuel ih =>
    intro first s n hlt H h8 hfit
    by_cases hn : n = 0
    · right
      refine ⟨[], s, by rw [readLoop, if_pos hn], H, Keeps.refl s, Nat.zero_le _, by simp, by simp, h8, fun _ => by simp [hn]⟩
    · obtain ⟨b, s1, a1, a2, a3, a4, a5, a6, a7⟩ := loop_head H first (by omega)
      cases b with
      | true =>
        right
        refine ⟨[], s1, by rw [readLoop, if_neg hn, a1], a2, a3, Nat.zero_le _, by simp, by simp [a4], by rw [a5]; exact h8, fun hp => ?_⟩
        exact absurd (a6 hp) (by simp)
      | false =>
        obtain ⟨b1, b2, b3, b4, b5⟩ := a7 rfl
        obtain ⟨s2, hs2⟩ : ∃ s2, s2 = if first then s1 else wait s1 := ⟨_, rfl⟩
        rw [← hs2] at b1 b2 b3 b4 b5
        have hstep : readLoop (fuel + 1) first s n = match readOnce s2 n with
            | .error e => .error e
            | .ok (data, s) =>
              match readLoop fuel (first && decide (data.length = 0)) s (n - data.length) with
              | .error e => .error e
              | .ok (rest, s) => .ok (data ++ rest, s) := by
          rw [readLoop, if_neg hn, a1, hs2]; rfl
        have hpun : Punctual s2 ↔ Punctual s := b2.punctual
        rcases readOnce_inv b1 n (by omega) (by rw [b4]; exact h8) (by rw [b3, b2.file]; exact hfit) b5 with ⟨e, np⟩ | ⟨d, s3, e, c1, c2, c3, c4, c5, c6, c7⟩
        · left; exact ⟨by rw [hstep, e], fun hp => np (hpun.2 hp)⟩
        · have hk := b2.trans c2
          have ht3 : s3.tot = s.tot + 8 * d.length := by rw [c6, b3]
          rw [b2.file, b3] at c5
          rcases ih (first && decide (d.length = 0)) s3 (n - d.length) (by omega) c1 c7 (by rw [ht3, hk.file]; omega) with
            ⟨e2, np⟩ | ⟨d2, s4, e2, f1, f2, f3, f4, f5, f6, f7⟩
          · left
            exact ⟨by rw [hstep, e]; simp only [e2], fun hp => np (hk.punctual.2 hp)⟩
          · right
            have hdl : (d ++ d2).length = d.length + d2.length := by simp
            refine ⟨d ++ d2, s4, by rw [hstep, e]; simp only [e2], f1, hk.trans f2, by rw [hdl]; omega, ?_, by rw [f5, ht3, hdl]; omega, f6, ?_⟩
            · rw [hk.file, ht3, show (s.tot + 8 * d.length) / 8 = s.tot / 8 + d.length by omega] at f4
              rw [hdl, ← segments, ← c5, ← f4]
            · intro hp
              have := f7 (hk.punctual.2 hp)
              rw [hdl]; omega

/-! ### To the end of the file -/

theorem readOnce_end {s : St} {pre mid : List Byte} (G : Good s pre mid) (hp : Punctual s) (n : Nat) (h8 : s.cur % 8 = 0) (hn : s.file.length ≤ s.tot / 8 + n)
    (hnot : s.tot < 8 * s.file.length) :
    ∃ d s' pre' mid', readOnce s n = .ok (d, s') ∧ Good s' pre' mid' ∧ Keeps s s' ∧ 1 ≤ d.length ∧ d.length ≤ n ∧ d = (s.file.drop (s.tot / 8)).take d.length ∧
      s'.tot = s.tot + 8 * d.length ∧ s'.cur % 8 = 0 := by
  have hl := base_length G.base
  have ht := G.base.tot
  have hcur := G.base.cur
  have hav : ¬ s.bufLen - s.cur / 8 > n := by omega
  obtain ⟨a, had⟩ : ∃ a, a = s.bufLen - s.cur / 8 := ⟨_, rfl⟩
  have hca : s.cur + 8 * a = 8 * s.bufLen := by omega
  have hdata := base_bytes G.base a h8 (by omega)
  have G1 := forward_good G (8 * a) (by omega)
  have hro : readOnce s n = match turn (forward s (8 * a)) with
      | .error e => .error e
      | .ok (true, s2) => .ok (slice s.buf (s.cur / 8) a, s2)
      | .ok (false, s2) =>
        match turn (forward s2 (8 * (if n - a > s2.bufLen then s2.bufLen else n - a))) with
        | .error e => .error e
        | .ok (_, s3) => .ok (slice s.buf (s.cur / 8) a ++ slice s2.buf 0 (if n - a > s2.bufLen then s2.bufLen else n - a), s3) := by
    rw [readOnce]; simp only; rw [if_neg hav, ← had]; rfl
  have hc2 : (forward s (8 * a)).cur = 8 * (forward s (8 * a)).bufLen := hca
  have hp1 : Punctual (forward s (8 * a)) := (forward_keeps s (8 * a)).punctual.2 hp
  rcases turn_good G1 (Or.inr (Or.inr (by omega))) with ⟨_, np, _⟩ | ⟨b, s2, pre2, mid2, e, g, k, t, c8, tb, tp, tc, tm⟩
  · exact absurd hp1 np
  have G2 : Good s2 pre2 mid2 := by
    rcases g with g | ⟨_, g⟩
    · exact g
    · exfalso; apply g; rw [hc2]; omega
  cases b with
  | true =>
    have hm := ((tp hp1).1 rfl).1
    rw [hm] at hl; simp at hl
    refine ⟨slice s.buf (s.cur / 8) a, s2, pre2, mid2, by rw [hro, e], G2, (forward_keeps s (8 * a)).trans k, by rw [slice_length]; omega, by rw [slice_length]; omega,
      by rw [slice_length]; exact hdata, by rw [t, slice_length]; rfl, ?_⟩
    rw [c8]; show (s.cur + 8 * a) % 8 = 0; omega
  | false =>
    have hz : s2.cur = 0 := tc rfl hc2
    have ht2 : s2.tot = s.tot + 8 * a := t
    have hf2 : s2.file = s.file := k.file
    have hl2 := base_length G2.base
    have htt2 := G2.base.tot
    rw [hf2] at hl2
    have hm : mid ≠ [] := by
      intro hm
      have := (tp hp1).2 ⟨hm, by omega⟩
      cases this
    have hmpos : 0 < mid.length := List.length_pos_iff.2 hm
    have htodo : (if n - a > s2.bufLen then s2.bufLen else n - a) = s2.bufLen := by split <;> omega
    rw [e] at hro
    simp only [htodo] at hro
    have hb1 : 1 ≤ s2.bufLen := by
      by_cases hm2 : mid2 = []
      · rw [hm2] at hl2; simp at hl2; omega
      · have := G2.base.full hm2; have := G2.base.size; omega
    have G3 := forward_good G2 (8 * s2.bufLen) (by omega)
    have hc3 : (forward s2 (8 * s2.bufLen)).cur = 8 * (forward s2 (8 * s2.bufLen)).bufLen := by show s2.cur + 8 * s2.bufLen = 8 * s2.bufLen; omega
    have kk := ((forward_keeps s (8 * a)).trans k).trans (forward_keeps s2 (8 * s2.bufLen))
    rcases turn_good G3 (Or.inr (Or.inr (by omega))) with ⟨_, np, _⟩ | ⟨b3, s3, pre3, mid3, e3, g3, k3, t3, c3, _⟩
    · exact absurd (kk.punctual.2 hp) np
    have hmore := base_bytes G2.base s2.bufLen (by omega) (by omega)
    rw [hz, show (0 : Nat) / 8 = 0 from rfl, hf2, ht2, show (s.tot + 8 * a) / 8 = s.tot / 8 + a by omega] at hmore
    have hdl : (slice s.buf (s.cur / 8) a ++ slice s2.buf 0 s2.bufLen).length = a + s2.bufLen := by simp [slice_length]
    refine ⟨slice s.buf (s.cur / 8) a ++ slice s2.buf 0 s2.bufLen, s3, pre3, mid3, ?_, ?_, kk.trans k3, by rw [hdl]; omega, by rw [hdl]; omega, ?_, ?_, ?_⟩
    · rw [hro, e3]
    · rcases g3 with g3 | ⟨_, g3⟩
      · exact g3
      · exfalso; apply g3; rw [hc3]; omega
    · rw [hdl, hdata, hmore, segments]
    · rw [t3, hdl]; show s2.tot + 8 * s2.bufLen = _; omega
    · rw [c3, hc3]; omega

theorem readLoop_end : ∀ (fuel : Nat) (first : Bool) (s : St) (n : Nat) (pre mid : List Byte), n < fuel → Good s pre mid → Punctual s → s.cur % 8 = 0 →
    s.file.length ≤ s.tot / 8 + n → ∃ s' pre' mid', readLoop fuel first s n = .ok (s.file.drop (s.tot / 8), s') ∧ Good s' pre' mid' ∧ Keeps s s' ∧
      s'.tot = 8 * s.file.length := by
  intro fuel
  induction fuel with
  | zero => intro _ _ n _ _ h; omega
  | succ fuel ih =>
    intro first s n pre mid hlt G hp h8 hn
    have hl := base_length G.base
    have ht := G.base.tot
    have hcur := G.base.cur
    by_cases hn0 : n = 0
    · refine ⟨s, pre, mid, ?_, G, Keeps.refl s, by omega⟩
      rw [readLoop, if_pos hn0, List.drop_of_length_le (by omega)]
    · obtain ⟨b, s1, a1, a2, a3, a4, a5, a6, a7, a8, a9, a10⟩ := atend_good G
      cases b with
      | true =>
        obtain ⟨e1, e2⟩ := (a8 hp).1 rfl
        rw [e1] at hl; simp at hl
        refine ⟨s1, pre, mid, ?_, a2, a3, by omega⟩
        rw [readLoop, if_neg hn0, a1, List.drop_of_length_le (by omega)]
      | false =>
        have hnot : s.tot < 8 * s.file.length := by
          by_cases hm : mid = []
          · have : ¬ 8 * s.bufLen ≤ s.cur := fun h => absurd ((a8 hp).2 ⟨hm, h⟩) (by simp)
            rw [hm] at hl; simp at hl; omega
          · have : 0 < mid.length := List.length_pos_iff.2 hm
            omega
        obtain ⟨s2, hs2⟩ : ∃ s2, s2 = if first then s1 else wait s1 := ⟨_, rfl⟩
        have hG2 : Good s2 pre mid ∧ Keeps s s2 ∧ s2.tot = s.tot ∧ s2.cur = s.cur := by
          rw [hs2]
          cases first with
          | true => exact ⟨a2, a3, a4, a5⟩
          | false =>
            obtain ⟨m, k, e, g, hk⟩ := wait_good a2
            simp only [Bool.false_eq_true, if_false]
            exact ⟨g, a3.trans ⟨by rw [e], by rw [e], by rw [e], by rw [e]⟩, by rw [e]; exact a4, by rw [e]; exact a5⟩
        obtain ⟨g2, b2, b3, b4⟩ := hG2
        have hstep : readLoop (fuel + 1) first s n = match readOnce s2 n with
            | .error e => .error e
            | .ok (data, s) =>
              match readLoop fuel (first && decide (data.length = 0)) s (n - data.length) with
              | .error e => .error e
              | .ok (rest, s) => .ok (data ++ rest, s) := by
          rw [readLoop, if_neg hn0, a1, hs2]; rfl
        obtain ⟨d, s3, pre3, mid3, e, c1, c2, c3, c4, c5, c6, c7⟩ := readOnce_end g2 (b2.punctual.2 hp) n (by rw [b4]; exact h8)
          (by rw [b2.file, b3]; exact hn) (by rw [b2.file, b3]; exact hnot)
        have hk := b2.trans c2
        have ht3 : s3.tot = s.tot + 8 * d.length := by rw [c6, b3]
        rw [b2.file, b3] at c5
        obtain ⟨s4, pre4, mid4, e2, f1, f2, f3⟩ := ih (first && decide (d.length = 0)) s3 (n - d.length) pre3 mid3 (by omega) c1 (hk.punctual.2 hp) c7
          (by rw [hk.file, ht3]; omega)
        refine ⟨s4, pre4, mid4, ?_, f1, hk.trans f2, by rw [f3, hk.file]⟩
        rw [hstep, e]; simp only [e2]
        congr 2
        rw [hk.file, ht3, show (s.tot + 8 * d.length) / 8 = s.tot / 8 + d.length by omega, ← List.drop_drop]
        conv => lhs; rw [c5]
        have hd2 : d.length ≤ (s.file.drop (s.tot / 8)).length := by
          have := congrArg List.length c5
          simp at this ⊢; omega
        rw [List.length_take, Nat.min_eq_left hd2, List.take_append_drop]

end Verif.FileReader
