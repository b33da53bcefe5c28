import Verif.FileReader.SeekSpec
import Verif.FileReader.Props

namespace Verif.FileReader
open Verif.BitStream (Byte Word Mem RErr bytesBits_length)
open Verif.BitStream.Spec (fieldBits bytesBits)
open Spec

/-! ### `_tot_bits` is not used in between -/

def atTot (s : St) (t : Nat) : St := { s with tot := t }

theorem readCb_tot (s : St) (t : Nat) (d : List Byte) : readCb (atTot s t) d = atTot (readCb s d) t := by
  rw [readCb, readCb]
  by_cases h1 : s.loadShadow = true
  · rw [if_pos h1, if_pos (show (atTot s t).loadShadow = true from h1)]
    by_cases h2 : d.length ≠ 0
    · rw [if_pos h2, if_pos h2]; rfl
    · rw [if_neg h2, if_neg h2]; rfl
  · rw [if_neg h1, if_neg (show ¬ (atTot s t).loadShadow = true from h1)]; rfl

theorem wait_tot (s : St) (t : Nat) : wait (atTot s t) = atTot (wait s) t := by
  cases hp : s.pending with
  | none => rw [wait, wait, hp, show (atTot s t).pending = none from hp]
  | some d => rw [wait, wait, hp, show (atTot s t).pending = some d from hp]; exact readCb_tot s t d

theorem look_tot (s : St) (t : Nat) : look (atTot s t) = atTot (look s) t := by
  rw [look, look]
  by_cases h : s.sched s.tick = true
  · rw [if_pos h, if_pos (show (atTot s t).sched (atTot s t).tick = true from h), wait_tot]; rfl
  · rw [if_neg h, if_neg (show ¬ (atTot s t).sched (atTot s t).tick = true from h)]; rfl

theorem storageRead_tot (s : St) (t n : Nat) : storageRead (atTot s t) n = atTot (storageRead s n) t := by
  cases hk : s.kind with
  | sync =>
    simp only [storageRead, hk, show (atTot s t).kind = .sync from hk]
    rw [← readCb_tot]; rfl
  | async =>
    simp only [storageRead, hk, show (atTot s t).kind = .async from hk]; rfl

theorem internalRead_tot (s : St) (t n : Nat) (a : Bool) : internalRead (atTot s t) n a = atTot (internalRead s n a) t := by
  rw [internalRead, internalRead]
  by_cases h : s.eof = true
  · rw [if_pos h, if_pos (show (atTot s t).eof = true from h)]
  · rw [if_neg h, if_neg (show ¬ (atTot s t).eof = true from h), wait_tot, storageRead_tot]
    cases a with
    | true => rfl
    | false => simp only [Bool.false_eq_true, if_false]; exact wait_tot _ _

def mapTot (t : Nat) (r : Except RErr St) : Except RErr St := match r with | .error e => .error e | .ok s => .ok (atTot s t)

theorem moveUp_tot (s : St) (t : Nat) : moveUp (atTot s t) = mapTot t (moveUp s) := by
  rw [moveUp, moveUp]
  simp only
  by_cases h : s.bufLen < s.cur / 8
  · rw [if_pos h, if_pos (show (atTot s t).bufLen < (atTot s t).cur / 8 from h)]; rfl
  · rw [if_neg h, if_neg (show ¬ (atTot s t).bufLen < (atTot s t).cur / 8 from h)]; rfl

theorem fillBuf_tot (s : St) (t : Nat) : fillBuf (atTot s t) = mapTot t (fillBuf s) := by
  rw [fillBuf, fillBuf]
  simp only [look_tot]
  obtain ⟨u, hu⟩ : ∃ u, u = look s := ⟨_, rfl⟩
  rw [← hu]
  by_cases h : u.shadowLen = 0 ∧ u.eof = true
  · rw [if_pos h, if_pos (show (atTot u t).shadowLen = 0 ∧ (atTot u t).eof = true from h)]; rfl
  · rw [if_neg h, if_neg (show ¬ ((atTot u t).shadowLen = 0 ∧ (atTot u t).eof = true) from h)]
    have hw : (if (atTot u t).shadowLen ≠ (atTot u t).size then wait (atTot u t) else atTot u t) =
        atTot (if u.shadowLen ≠ u.size then wait u else u) t := by
      by_cases h2 : u.shadowLen ≠ u.size
      · rw [if_pos h2, if_pos (show (atTot u t).shadowLen ≠ (atTot u t).size from h2), wait_tot]
      · rw [if_neg h2, if_neg (show ¬ (atTot u t).shadowLen ≠ (atTot u t).size from h2)]
    rw [hw, moveUp_tot]
    cases moveUp (if u.shadowLen ≠ u.size then wait u else u) with
    | error e => rfl
    | ok v =>
      show Except.ok (internalRead (atTot { v with loadShadow := true } t) _ true) = _
      rw [internalRead_tot]; rfl

theorem nextbits_tot (s : St) (t n : Nat) :
    nextbits (atTot s t) n = match nextbits s n with | .error e => .error e | .ok (x, s') => .ok (x, atTot s' t) := by
  rw [nextbits, nextbits]
  by_cases h : n > 32
  · rw [if_pos h, if_pos h]
  · rw [if_neg h, if_neg h]
    have he : ensure (atTot s t) n = mapTot t (ensure s n) := by
      rw [ensure, ensure]
      by_cases h2 : s.cur + n > s.bufLen * 8
      · rw [if_pos h2, if_pos (show (atTot s t).cur + n > (atTot s t).bufLen * 8 from h2), fillBuf_tot]
      · rw [if_neg h2, if_neg (show ¬ (atTot s t).cur + n > (atTot s t).bufLen * 8 from h2)]; rfl
    rw [he]
    cases ensure s n with
    | error e => rfl
    | ok v =>
      show (match extract v.buf v.cur n with | .error e => _ | .ok x => _) = _
      simp only
      cases extract v.buf v.cur n with
      | error e => rfl
      | ok x => rfl

/-! ### A reader whose answers are there -/

/-- The state when nothing is under way. -/
theorem look_inv {s : St} (H : Inv s) (hp : Punctual s) :
    ∃ pre mid, (Good (look s) pre mid ∨ Bad (look s) pre mid) ∧ (look s).pending = none ∧ Keeps s (look s) ∧ (look s).tot = s.tot ∧ (look s).cur = s.cur ∧
      (look s).bufLen = s.bufLen := by
  obtain ⟨pre, mid, G | B⟩ := H
  · obtain ⟨m, k, p, t, h1, h2, _, h4⟩ := look_good G
    exact ⟨pre, mid, Or.inl h2, by rw [h1]; exact h4 hp, ⟨by rw [h1], by rw [h1], by rw [h1], by rw [h1]⟩, by rw [h1], by rw [h1], by rw [h1]⟩
  · rw [look_bad B]
    exact ⟨pre, mid, Or.inr (tick_bad B _), B.none, ⟨rfl, rfl, rfl, rfl⟩, rfl, rfl, rfl⟩

theorem wait_none {s : St} (h : s.pending = none) : wait s = s := by rw [wait, h]

/-- The position of the storage. -/
theorem good_pos {s : St} {pre mid : List Byte} (G : Good s pre mid) (hn : s.pending = none) :
    s.pos = pre.length + s.bufLen + s.shadowLen ∧ mid.length = s.shadowLen + (s.file.length - s.pos) ∧ s.shadowLen ≤ s.size ∧ (s.eof = true ∨ s.shadowLen = s.size) ∧
      (s.eof = true → s.pos = s.file.length) := by
  have hl := base_length G.base
  have hp := G.pos
  rcases G.rest with ⟨_, r2, r3, r4⟩ | ⟨d, r1, _⟩
  · have hm : mid.length = s.shadowLen + (s.file.length - s.pos) := by rw [r2]; simp [slice_length]
    exact ⟨by omega, hm, r3, r4, fun he => by have := List.drop_eq_nil_iff.1 (G.last he); omega⟩
  · rw [hn] at r1; cases r1

/-- The buffer has been used up and there is more. -/
theorem switch_good {s : St} {pre mid : List Byte} (G : Good s pre mid) (hn : s.pending = none) (hp : Punctual s) (hm : mid ≠ []) (hc : s.cur = 8 * s.bufLen) :
    ∃ s' pre' mid', switchBuffer s = .ok s' ∧ (∃ x, nextbits s 32 = .ok (x, s')) ∧ Good s' pre' mid' ∧ Keeps s s' ∧ s'.tot = s.tot ∧ s'.cur = 0 ∧
      pre'.length = pre.length + s.bufLen := by
  rcases nextbits_state G 32 (by omega) (by omega) (Or.inr hm) with ⟨_, np, _⟩ | ⟨x, s', pre', mid', e, _, g, k, t, c8, c⟩
  · exact absurd hp np
  · have hg : Good s' pre' mid' := by
      rcases g with g | ⟨_, g, _⟩
      · exact g
      · exact absurd (by omega) g
    rcases c with ⟨_, _, c⟩ | ⟨_, _, c1, c2⟩
    · omega
    · refine ⟨s', pre', mid', ?_, ⟨x, e⟩, hg, k, t, by omega, by omega⟩
      rw [switchBuffer, if_neg (by rw [hn]; simp), e]

theorem ahead_good {s : St} {pre mid : List Byte} (G : Good s pre mid) (w : Nat) (h : s.cur + w ≤ 8 * s.bufLen) : Good (ahead s w) pre mid := forward_good G w h

theorem ahead_bad {s : St} {pre mid : List Byte} (G : Bad s pre mid) (w : Nat) (h : s.cur + w ≤ 8 * s.bufLen) : Bad (ahead s w) pre mid := forward_bad G w h

/-- What remains of the buffer after a switch. -/
theorem room {s : St} {pre mid : List Byte} (G : Good s pre mid) (q : Nat) (h1 : pre.length + q ≤ s.file.length) (h2 : q ≤ s.size) : q ≤ s.bufLen := by
  have hl := base_length G.base
  by_cases hm : mid = []
  · rw [hm] at hl; simp at hl; omega
  · rw [G.base.full hm]; exact h2

theorem back_base {s : St} {pre mid : List Byte} (B : Base s pre mid) (n : Nat) (h : 8 * n ≤ s.cur) :
    Base { s with cur := s.cur - 8 * n, tot := if s.tot < 8 * n then 0 else s.tot - 8 * n } pre mid := by
  have ht := B.tot
  have hc := B.cur
  refine ⟨B.file, ?_, ?_, B.len, B.full, B.size⟩
  · show (if s.tot < 8 * n then 0 else s.tot - 8 * n) = 8 * pre.length + (s.cur - 8 * n)
    rw [if_neg (by omega)]; omega
  · show s.cur - 8 * n ≤ 8 * s.bufLen; omega

/-! ### `set_position` -/

theorem storageSeek_props (s : St) (p : Nat) (h32 : s.kind = .sync → p < 2 ^ 32) :
    (storageSeek s p).pos = p ∧ ((storageSeek s p).kind = .sync → (storageSeek s p).feof = false) ∧ Keeps s (storageSeek s p) := by
  cases hk : s.kind with
  | sync =>
    have e : storageSeek s p = { s with pos := p % 2 ^ 32, feof := false } := by simp only [storageSeek, hk]
    rw [e]
    exact ⟨Nat.mod_eq_of_lt (h32 hk), fun _ => rfl, ⟨rfl, rfl, rfl, rfl⟩⟩
  | async =>
    have e : storageSeek s p = { s with pos := p } := by simp only [storageSeek, hk]
    rw [e]
    exact ⟨rfl, fun h => absurd (hk.symm.trans h) (by decide), ⟨rfl, rfl, rfl, rfl⟩⟩

theorem seekMoved_good {s : St} {pre mid : List Byte} (G : Good s pre mid) (hn : s.pending = none) (hp : Punctual s) (h8 : s.cur % 8 = 0) (p : Nat)
    (hfit : p ≤ s.file.length) (h32 : s.kind = .sync → p < 2 ^ 32) :
    ∃ s', seekMoved false s p = .ok s' ∧ (∃ pre' mid', Good s' pre' mid') ∧ Keeps s s' ∧ s'.tot = 8 * p ∧ s'.cur % 8 = 0 := by
  obtain ⟨p1, p2, p3, p4, p5⟩ := good_pos G hn
  have ht := G.base.tot
  have hc := G.base.cur
  have hkpos : s.pos - s.bufLen - s.shadowLen = pre.length := by omega
  rw [seekMoved]
  simp only [hkpos]
  by_cases hin : p < s.pos ∧ pre.length ≤ p
  · rw [if_pos hin]
    obtain ⟨hin1, hin2⟩ := hin
    by_cases hadv : (if p > pre.length + s.cur / 8 then p - (pre.length + s.cur / 8) else 0) > s.bufLen - s.cur / 8
    · rw [if_pos hadv]
      have hgt : p > pre.length + s.cur / 8 := by
        by_contra hno; rw [if_neg hno] at hadv; omega
      rw [if_pos hgt] at hadv ⊢
      have hm : mid ≠ [] := by
        intro hm; rw [hm] at p2; simp at p2; omega
      have G1 := ahead_good G (8 * (s.bufLen - s.cur / 8)) (by omega)
      obtain ⟨s', pre', mid', e, _, g, k, t, c, l⟩ := switch_good G1 hn hp hm (by show s.cur + 8 * (s.bufLen - s.cur / 8) = 8 * s.bufLen; omega)
      have hl' : pre'.length = pre.length + s.bufLen := l
      have hk' : s'.size = s.size := k.size
      have hf' : s'.file = s.file := k.file
      rw [e]
      have hq := room g (p - (pre.length + s.bufLen)) (by rw [hf', hl']; omega) (by rw [hk']; omega)
      refine ⟨_, rfl, ⟨pre', mid', ahead_good g _ (by omega)⟩, ⟨k.file, k.kind, k.size, k.sched⟩, ?_, ?_⟩
      · show s'.tot + 8 * (p - (pre.length + s.cur / 8) - (s.bufLen - s.cur / 8)) = 8 * p
        rw [t]; show s.tot + 8 * (s.bufLen - s.cur / 8) + _ = _; omega
      · show (s'.cur + 8 * (p - (pre.length + s.cur / 8) - (s.bufLen - s.cur / 8))) % 8 = 0
        omega
    · rw [if_neg hadv]
      by_cases hback : p < pre.length + s.cur / 8 ∧ pre.length ≤ p
      · rw [if_pos hback]
        have hb := back_base G.base (pre.length + s.cur / 8 - p) (by omega)
        refine ⟨_, rfl, ⟨pre, mid, ⟨hb, G.load, G.pos, G.last, G.rest⟩⟩, ⟨rfl, rfl, rfl, rfl⟩, ?_, ?_⟩
        · show (if s.tot < 8 * (pre.length + s.cur / 8 - p) then 0 else s.tot - 8 * (pre.length + s.cur / 8 - p)) = 8 * p
          rw [if_neg (by omega)]; omega
        · show (s.cur - 8 * (pre.length + s.cur / 8 - p)) % 8 = 0; omega
      · rw [if_neg hback]
        have hadv' : (if p > pre.length + s.cur / 8 then p - (pre.length + s.cur / 8) else 0) = p - (pre.length + s.cur / 8) := by split <;> omega
        rw [hadv'] at hadv ⊢
        refine ⟨_, rfl, ⟨pre, mid, ahead_good G _ (by omega)⟩, ⟨rfl, rfl, rfl, rfl⟩, ?_, ?_⟩
        · show s.tot + 8 * (p - (pre.length + s.cur / 8)) = 8 * p; omega
        · show (s.cur + 8 * (p - (pre.length + s.cur / 8))) % 8 = 0; omega
  · rw [if_neg hin, if_neg (by rintro ⟨h1, h2⟩; have := p5 h1; omega), if_neg (by simp)]
    have hpos := storageSeek_props s p h32
    obtain ⟨q1, q2, q3⟩ := hpos
    obtain ⟨mid', g, k, t, c⟩ := reload_good { storageSeek s p with tot := 8 * p } (by show 5 ≤ (storageSeek s p).size; rw [q3.size]; exact G.base.size)
      (by show (storageSeek s p).pos ≤ (storageSeek s p).file.length; rw [q1, q3.file]; exact hfit)
      (by show 8 * p = 8 * (storageSeek s p).pos; rw [q1]) q2
    exact ⟨_, rfl, ⟨_, mid', g⟩, q3.trans (⟨k.file, k.kind, k.size, k.sched⟩ : Keeps (storageSeek s p) _), t, by rw [c]⟩

theorem seekMoved_bad {s : St} {pre mid : List Byte} (B : Bad s pre mid) (h8 : s.cur % 8 = 0) (p : Nat)
    (hfit : p + 8 ≤ s.file.length) (h32 : s.kind = .sync → p < 2 ^ 32) :
    ∃ s', seekMoved false s p = .ok s' ∧ Inv s' ∧ Keeps s s' ∧ s'.tot = 8 * p ∧ s'.cur % 8 = 0 := by
  have ht := B.base.tot
  have hc := B.base.cur
  have hl := base_length B.base
  have hpo := B.pos
  have hs := B.shadow
  have hf := B.few
  have hkpos : s.pos - s.bufLen - s.shadowLen = pre.length := by omega
  rw [seekMoved]
  simp only [hkpos]
  by_cases hin : p < s.pos ∧ pre.length ≤ p
  · rw [if_pos hin]
    obtain ⟨hin1, hin2⟩ := hin
    have hadv' : (if p > pre.length + s.cur / 8 then p - (pre.length + s.cur / 8) else 0) = p - (pre.length + s.cur / 8) := by split <;> omega
    rw [hadv', if_neg (by omega)]
    by_cases hback : p < pre.length + s.cur / 8 ∧ pre.length ≤ p
    · rw [if_pos hback]
      have hb := back_base B.base (pre.length + s.cur / 8 - p) (by omega)
      refine ⟨_, rfl, ⟨pre, mid, Or.inr ⟨hb, B.none, B.few, B.load, B.eof, B.pos, B.shadow⟩⟩, ⟨rfl, rfl, rfl, rfl⟩, ?_, ?_⟩
      · show (if s.tot < 8 * (pre.length + s.cur / 8 - p) then 0 else s.tot - 8 * (pre.length + s.cur / 8 - p)) = 8 * p
        rw [if_neg (by omega)]; omega
      · show (s.cur - 8 * (pre.length + s.cur / 8 - p)) % 8 = 0; omega
    · rw [if_neg hback]
      refine ⟨_, rfl, ⟨pre, mid, Or.inr (ahead_bad B _ (by omega))⟩, ⟨rfl, rfl, rfl, rfl⟩, ?_, ?_⟩
      · show s.tot + 8 * (p - (pre.length + s.cur / 8)) = 8 * p; omega
      · show (s.cur + 8 * (p - (pre.length + s.cur / 8))) % 8 = 0; omega
  · rw [if_neg hin, if_neg (by rintro ⟨h1, h2⟩; omega), if_neg (by simp)]
    have hpos := storageSeek_props s p h32
    obtain ⟨q1, q2, q3⟩ := hpos
    obtain ⟨mid', g, k, t, c⟩ := reload_good { storageSeek s p with tot := 8 * p } (by show 5 ≤ (storageSeek s p).size; rw [q3.size]; exact B.base.size)
      (by show (storageSeek s p).pos ≤ (storageSeek s p).file.length; rw [q1, q3.file]; omega)
      (by show 8 * p = 8 * (storageSeek s p).pos; rw [q1]) q2
    exact ⟨_, rfl, ⟨_, mid', Or.inl g⟩, q3.trans (⟨k.file, k.kind, k.size, k.sched⟩ : Keeps (storageSeek s p) _), t, by rw [c]⟩

theorem seek_none {s : St} (hn : (look s).pending = none) (p : Nat) : seek s p = seekMoved false (look s) p := by
  rw [seek, seekWith]
  simp only [Bool.false_eq_true, if_false, false_and]
  rw [wait_none hn]
  simp

theorem seek_inv {s : St} (H : Inv s) (hp : Punctual s) (h8 : s.cur % 8 = 0) (p : Nat) (hfit : p + 8 ≤ s.file.length) (h32 : s.kind = .sync → p < 2 ^ 32) :
    ∃ s', seek s p = .ok s' ∧ Inv s' ∧ Keeps s s' ∧ s'.tot = 8 * p := by
  obtain ⟨pre, mid, h, hn, k, t, c, b⟩ := look_inv H hp
  rw [seek_none hn]
  rcases h with G | B
  · obtain ⟨s', e, ⟨pre', mid', g⟩, k', t', _⟩ := seekMoved_good G hn (k.punctual.2 hp) (by rw [c]; exact h8) p (by rw [k.file]; omega) (by rw [k.kind]; exact h32)
    exact ⟨s', e, ⟨pre', mid', Or.inl g⟩, k.trans k', t'⟩
  · obtain ⟨s', e, g, k', t', _⟩ := seekMoved_bad B (by rw [c]; exact h8) p (by rw [k.file]; omega) (by rw [k.kind]; exact h32)
    exact ⟨s', e, g, k.trans k', t'⟩

/-! ### `skipbits` -/

theorem skip_inv {s : St} (H : Inv s) (hp : Punctual s) (n : Nat) (hn8 : n < 8 * s.size) (hfit : s.tot + n + 64 ≤ 8 * s.file.length) :
    ∃ s', skip s n = .ok s' ∧ Inv s' ∧ Keeps s s' ∧ s'.tot = s.tot + n := by
  obtain ⟨pre, mid, h, hn, k, t, c, b⟩ := look_inv H hp
  obtain ⟨u, hu⟩ : ∃ u, u = look s := ⟨_, rfl⟩
  rw [skip]
  rw [← hu] at h hn k t c b ⊢
  have hkf := k.file
  have hks := k.size
  simp only
  rcases h with G | B
  · have hl := base_length G.base
    have ht := G.base.tot
    have hc := G.base.cur
    obtain ⟨p1, p2, p3, p4, p5⟩ := good_pos G hn
    rw [hkf] at hl p2 p5
    by_cases hav : 8 * u.bufLen - u.cur < n
    · rw [if_pos hav]
      have henough : 8 * u.bufLen - u.cur + 8 * u.shadowLen > n := by
        rcases p4 with p4 | p4
        · have := p5 p4; omega
        · omega
      rw [if_pos henough]
      have hm : mid ≠ [] := by
        intro hm; rw [hm] at p2; simp at p2; omega
      obtain ⟨a, ha⟩ : ∃ a, a = 8 * u.bufLen - u.cur := ⟨_, rfl⟩
      have G1 := ahead_good G a (by omega)
      obtain ⟨s', pre', mid', _, ⟨x, e⟩, g, k', t', c', l'⟩ := switch_good G1 hn (k.punctual.2 hp) hm (by show u.cur + a = 8 * u.bufLen; omega)
      have hl' : pre'.length = pre.length + u.bufLen := l'
      have hsw : switchBuffer { u with cur := u.cur + a } = .ok (atTot s' u.tot) := by
        have e1 : ({ u with cur := u.cur + a } : St) = atTot (ahead u a) u.tot := rfl
        rw [switchBuffer, if_neg (by show ¬ (u.pending.isSome = true ∧ _); rw [hn]; simp), e1, nextbits_tot, e]
      rw [← ha, hsw]
      have hq := room g ((n - a + 7) / 8) (by rw [k'.file, hl']; show _ ≤ u.file.length; rw [hkf]; omega) (by rw [k'.size]; show _ ≤ u.size; omega)
      have hfin : ({ atTot s' u.tot with cur := s'.cur + (n - a), tot := u.tot + n } : St) = ahead s' (n - a) := by
        have ht' : s'.tot = u.tot + a := t'
        rw [ahead, atTot, ht', show u.tot + a + (n - a) = u.tot + n by omega]
      refine ⟨ahead s' (n - a), ?_, ⟨pre', mid', Or.inl (ahead_good g _ (by omega))⟩, k.trans ⟨k'.file, k'.kind, k'.size, k'.sched⟩, ?_⟩
      · show Except.ok ({ atTot s' u.tot with cur := s'.cur + (n - a), tot := u.tot + n } : St) = _
        rw [hfin]
      · show s'.tot + (n - a) = s.tot + n
        rw [t']; show u.tot + a + (n - a) = _; omega
    · rw [if_neg hav]
      exact ⟨_, rfl, ⟨pre, mid, Or.inl (ahead_good G n (by omega))⟩, ⟨k.file, k.kind, k.size, k.sched⟩, by show u.tot + n = _; rw [t]⟩
  · have hl := base_length B.base
    have ht := B.base.tot
    have hc := B.base.cur
    have hf := B.few
    rw [hkf] at hl
    rw [if_neg (by omega)]
    exact ⟨_, rfl, ⟨pre, mid, Or.inr (ahead_bad B n (by omega))⟩, ⟨k.file, k.kind, k.size, k.sched⟩, by show u.tot + n = _; rw [t]⟩

/-- What the other loops need to know of a state. -/
theorem inv_size {s : St} (H : Inv s) : 5 ≤ s.size := by
  obtain ⟨pre, mid, G | B⟩ := H
  · exact G.base.size
  · exact B.base.size

theorem skipLoop_inv : ∀ (fuel : Nat) (s : St) (bits : Nat), bits < fuel → Inv s → Punctual s → s.tot + bits + 64 ≤ 8 * s.file.length →
    ∃ s', skipLoop fuel s bits = .ok s' ∧ Inv s' ∧ Keeps s s' ∧ s'.tot = s.tot + bits := by
  intro fuel
  induction fuel with
  | zero => intro s bits h; omega
  | succ fuel ih =>
    intro s bits hlt H hp hfit
    have h5 := inv_size H
    rw [skipLoop]
    by_cases h31 : bits > 31
    · rw [if_pos h31]
      obtain ⟨s1, e1, i1, k1, t1⟩ := skip_inv H hp 31 (by omega) (by omega)
      rw [e1]
      obtain ⟨b, s2, a1, a2, a3, a4, a5, a6, _⟩ := loop_head i1 true (by rw [t1, k1.file]; omega)
      have hb := a6 (k1.punctual.2 hp)
      subst hb
      have hk := k1.trans a3
      obtain ⟨s3, e3, i3, k3, t3⟩ := ih s2 (bits - 31) (by omega) a2 (hk.punctual.2 hp) (by rw [hk.file, a4, t1]; omega)
      refine ⟨s3, ?_, i3, hk.trans k3, by rw [t3, a4, t1]; omega⟩
      simp only [a1, e3]
    · rw [if_neg h31]
      by_cases h0 : bits ≠ 0
      · rw [if_pos h0]
        exact skip_inv H hp bits (by omega) hfit
      · rw [if_neg h0]
        exact ⟨s, rfl, H, Keeps.refl s, by omega⟩

/-! ### `align` -/

theorem next_multiple {t t' n : Nat} (hn : 0 < n) (h0 : t' % n = 0) (h1 : t ≤ t') (h2 : t' < t + n) : (t + n - 1) / n * n = t' := by
  obtain ⟨k, rfl⟩ : ∃ k, t' = n * k := ⟨t' / n, by have := Nat.div_add_mod t' n; omega⟩
  have : (t + n - 1) / n = k := by
    apply Nat.div_eq_of_lt_le
    · rw [Nat.mul_comm]; omega
    · rw [Nat.mul_comm, Nat.mul_add, Nat.mul_one]; omega
  rw [this, Nat.mul_comm]

theorem alignLoop_inv : ∀ (fuel : Nat) (s : St) (n goal : Nat), goal < s.tot + fuel → Inv s → Punctual s → 0 < n → n % 8 = 0 → s.tot % 8 = 0 →
    goal % n = 0 → s.tot ≤ goal → goal < s.tot + n → goal + 64 ≤ 8 * s.file.length →
    ∃ s', alignLoop fuel s n = .ok s' ∧ Inv s' ∧ Keeps s s' ∧ s'.tot = goal := by
  intro fuel
  induction fuel with
  | zero => intro s n goal h _ _ _ _ _ _ h1; omega
  | succ fuel ih =>
    intro s n goal hlt H hp hn h8 ht8 hg h1 h2 hfit
    have h5 := inv_size H
    rw [alignLoop]
    by_cases hz : s.tot % n = 0
    · rw [if_pos hz]
      refine ⟨s, rfl, H, Keeps.refl s, ?_⟩
      have a := next_multiple hn hg h1 h2
      have b := next_multiple hn hz (Nat.le_refl s.tot) (by omega)
      omega
    · rw [if_neg hz]
      have hne : s.tot ≠ goal := by intro h; rw [h] at hz; exact hz hg
      have hg8 : goal % 8 = 0 := by
        have d1 : 8 ∣ n := Nat.dvd_of_mod_eq_zero h8
        have d2 : n ∣ goal := Nat.dvd_of_mod_eq_zero hg
        exact Nat.mod_eq_zero_of_dvd (Nat.dvd_trans d1 d2)
      obtain ⟨s1, e1, i1, k1, t1⟩ := skip_inv H hp 8 (by omega) (by omega)
      rw [e1]
      obtain ⟨s2, e2, i2, k2, t2⟩ := ih s1 n goal (by omega) i1 (k1.punctual.2 hp) hn h8 (by omega) hg (by omega) (by omega) (by rw [k1.file]; exact hfit)
      exact ⟨s2, e2, i2, k1.trans k2, t2⟩

theorem multiple_props (t n : Nat) (hn : 0 < n) : (t + n - 1) / n * n % n = 0 ∧ t ≤ (t + n - 1) / n * n ∧ (t + n - 1) / n * n < t + n := by
  have h1 := Nat.div_add_mod (t + n - 1) n
  have h2 := Nat.mod_lt (t + n - 1) hn
  rw [Nat.mul_comm] at h1
  refine ⟨Nat.mul_mod_left _ _, by omega, by omega⟩

theorem align_inv {s : St} (H : Inv s) (hp : Punctual s) (n : Nat) (hn : 0 < n) (h8 : n % 8 = 0) (hfit : (s.tot + n - 1) / n * n + 64 ≤ 8 * s.file.length) :
    ∃ s', align s n = .ok s' ∧ Inv s' ∧ Keeps s s' ∧ s'.tot = (s.tot + n - 1) / n * n := by
  obtain ⟨m1, m2, m3⟩ := multiple_props s.tot n hn
  obtain ⟨goal, hgoal⟩ : ∃ goal, goal = (s.tot + n - 1) / n * n := ⟨_, rfl⟩
  rw [← hgoal] at m1 m2 m3 hfit ⊢
  have hg8 : goal % 8 = 0 := by
    have d1 : 8 ∣ n := Nat.dvd_of_mod_eq_zero h8
    have d2 : n ∣ goal := Nat.dvd_of_mod_eq_zero m1
    exact Nat.mod_eq_zero_of_dvd (Nat.dvd_trans d1 d2)
  have h5 := inv_size H
  rw [align]
  by_cases hz : s.tot % 8 ≠ 0
  · rw [if_pos hz]
    obtain ⟨s1, e1, i1, k1, t1⟩ := skip_inv H hp (8 - s.tot % 8) (by omega) (by omega)
    rw [e1]
    obtain ⟨s2, e2, i2, k2, t2⟩ := alignLoop_inv n s1 n goal (by omega) i1 (k1.punctual.2 hp) hn h8 (by omega) m1 (by omega) (by omega) (by rw [k1.file]; exact hfit)
    exact ⟨s2, e2, i2, k1.trans k2, t2⟩
  · rw [if_neg hz]
    exact alignLoop_inv n s n goal (by omega) H hp hn h8 (by omega) m1 m2 m3 hfit

end Verif.FileReader
