import Verif.FileReader.Spec
import Verif.BitStream.Lemmas

namespace Verif.FileReader
open Verif.BitStream (Byte Word Mem RErr tmaskTable bitAt range_map_add)
open Verif.BitStream.Spec (fieldBits bytesBits)

/-! ### Memory -/

theorem slice_length (m : Mem) (a n : Nat) : (slice m a n).length = n := by simp [slice]

theorem slice_append (m : Mem) (a n k : Nat) : slice m a (n + k) = slice m a n ++ slice m (a + n) k := by
  rw [slice, range_map_add]
  congr 1
  simp only [slice, Nat.add_assoc]

theorem slice_congr {m m' : Mem} {a b n : Nat} (h : ∀ i < n, m (a + i) = m' (b + i)) : slice m a n = slice m' b n := by
  apply List.map_congr_left
  intro i hi
  exact h i (List.mem_range.1 hi)

theorem slice_data {m : Mem} {a : Nat} {data : List Byte} (h : ∀ i < data.length, m (a + i) = data.getD i 0) : slice m a data.length = data := by
  apply List.ext_getElem
  · simp [slice]
  · intro i h1 h2
    simp only [slice, List.getElem_map, List.getElem_range]
    rw [h i h2]
    simp [List.getD, List.getElem?_eq_getElem h2]

theorem slice_store (m : Mem) (a : Nat) (data : List Byte) : slice (store m a data) a data.length = data := by
  apply slice_data
  intro i hi
  simp only [store]
  rw [if_pos (by omega)]; congr 1; omega

theorem slice_store_before (m : Mem) (a b n : Nat) (data : List Byte) (h : b + n ≤ a) : slice (store m a data) b n = slice m b n := by
  apply slice_congr
  intro i hi
  simp only [store]
  rw [if_neg (by omega)]

theorem slice_drop (m : Mem) (a n k : Nat) : (slice m a n).drop k = slice m (a + k) (n - k) := by
  by_cases h : k ≤ n
  · obtain ⟨r, rfl⟩ := Nat.exists_eq_add_of_le h
    rw [slice_append, List.drop_append_of_le_length (by simp [slice_length])]
    rw [List.drop_of_length_le (by simp [slice_length]), List.nil_append]; congr 1; omega
  · rw [List.drop_of_length_le (by simp [slice_length]; omega), show n - k = 0 by omega]; rfl

theorem slice_take (m : Mem) (a n k : Nat) (h : k ≤ n) : (slice m a n).take k = slice m a k := by
  obtain ⟨r, rfl⟩ := Nat.exists_eq_add_of_le h
  rw [slice_append, List.take_append_of_le_length (by simp [slice_length])]
  rw [List.take_of_length_le (by simp [slice_length])]

/-! ### The invariant -/

/-- The file is what has been read and is no longer in the buffer (`pre`), the buffer, and what comes after it (`mid`). -/
structure Base (s : St) (pre mid : List Byte) : Prop where
  file : s.file = pre ++ (slice s.buf 0 s.bufLen ++ mid)
  tot : s.tot = 8 * pre.length + s.cur
  cur : s.cur ≤ 8 * s.bufLen
  len : s.bufLen ≤ s.size
  full : mid ≠ [] → s.bufLen = s.size
  size : 5 ≤ s.size

/-- Where what comes after the buffer is: in the shadow buffer and not read yet, or at the end of the shadow buffer, under way and not read yet. -/
def Rest (s : St) (mid : List Byte) : Prop :=
  (s.pending = none ∧ mid = slice s.shadow 0 s.shadowLen ++ s.file.drop s.pos ∧ s.shadowLen ≤ s.size ∧ (s.eof = true ∨ s.shadowLen = s.size)) ∨
  (∃ d, s.pending = some d ∧ s.kind = .async ∧ d ≠ [] ∧ mid = slice s.shadow (s.size - s.shadowLen) s.shadowLen ++ (d ++ s.file.drop s.pos) ∧
    s.shadowLen + d.length ≤ s.size ∧ (s.eof = true ∨ s.shadowLen + d.length = s.size))

structure Good (s : St) (pre mid : List Byte) : Prop where
  base : Base s pre mid
  load : s.loadShadow = true
  pos : s.pos ≤ s.file.length
  last : s.eof = true → s.file.drop s.pos = []
  rest : Rest s mid

/-- The last bytes of the file are at the end of the shadow buffer, and there is nothing to read after which they would be moved. -/
structure Bad (s : St) (pre mid : List Byte) : Prop where
  base : Base s pre mid
  none : s.pending = none
  few : mid.length ≤ 4
  load : s.loadShadow = true
  eof : s.eof = true
  pos : s.pos = s.file.length
  shadow : s.shadowLen = mid.length

def Punctual (s : St) : Prop := Spec.Punctual s.kind s.sched

/-- The parts that do not change. -/
structure Keeps (s s' : St) : Prop where
  file : s'.file = s.file
  kind : s'.kind = s.kind
  size : s'.size = s.size
  sched : s'.sched = s.sched

theorem Keeps.refl (s : St) : Keeps s s := ⟨rfl, rfl, rfl, rfl⟩
theorem Keeps.trans {a b c : St} (h : Keeps a b) (k : Keeps b c) : Keeps a c :=
  ⟨k.file.trans h.file, k.kind.trans h.kind, k.size.trans h.size, k.sched.trans h.sched⟩
theorem Keeps.punctual {s s' : St} (h : Keeps s s') : Punctual s' ↔ Punctual s := by rw [Punctual, Punctual, h.kind, h.sched]

theorem async_eof (n p : Nat) (h : p ≤ n) : Verif.FileAsync.eof n p = decide (n ≤ p) := by
  unfold Verif.FileAsync.eof Verif.FileAsync.fileSize
  by_cases h1 : n ≤ p ∧ 0 < p
  · rw [if_pos h1, if_pos (by omega)]; simp [h1.1]
  · rw [if_neg h1]
    by_cases h2 : n = 0
    · subst h2; simp
    · rw [if_pos h2]

theorem async_advance (n p k : Nat) (h : p < n) : Verif.FileAsync.advance n p k = min k (n - p) := by
  have e : Verif.FileAsync.fileSize n p = n := by rw [Verif.FileAsync.fileSize, if_neg (by omega)]
  rw [Verif.FileAsync.advance, e]
  split <;> omega

/-! ### Waiting and looking -/

theorem wait_good {s : St} {pre mid : List Byte} (h : Good s pre mid) :
    ∃ m k, wait s = { s with shadow := m, shadowLen := k, pending := none } ∧ Good (wait s) pre mid ∧ s.shadowLen ≤ k := by
  obtain ⟨hb, hl, hp, hlast, hr⟩ := h
  rcases hr with ⟨h1, h2, h3, h4⟩ | ⟨d, h1, h2, h3, h4, h5, h6⟩
  · refine ⟨s.shadow, s.shadowLen, ?_, ?_, Nat.le_refl _⟩
    · rw [wait, h1]; simp only
      cases s; simp only at h1; subst h1; rfl
    · have : wait s = s := by rw [wait, h1]
      rw [this]
      exact ⟨hb, hl, hp, hlast, Or.inl ⟨h1, h2, h3, h4⟩⟩
  · have hd : d.length ≠ 0 := by
      intro e; exact h3 (List.length_eq_zero_iff.1 e)
    obtain ⟨m0, hm0⟩ : ∃ m0 : Mem, m0 = if s.shadowLen ≠ 0 then (fun i => if i < s.shadowLen then s.shadow (s.size - s.shadowLen + i) else s.shadow i) else s.shadow := ⟨_, rfl⟩
    have hw : wait s = { s with shadow := store m0 s.shadowLen d, shadowLen := s.shadowLen + d.length, pending := none } := by
      rw [wait, h1]; simp only [readCb, hl, if_true]; rw [if_pos hd, ← hm0]
    refine ⟨_, _, hw, ?_, by omega⟩
    rw [hw]
    have hfront : slice (store m0 s.shadowLen d) 0 (s.shadowLen + d.length) = slice s.shadow (s.size - s.shadowLen) s.shadowLen ++ d := by
      rw [slice_append, slice_store_before _ _ _ _ _ (by omega), Nat.zero_add, slice_store]
      congr 1
      apply slice_congr
      intro i hi
      rw [hm0, if_pos (by omega)]; simp [hi]
    refine ⟨⟨hb.file, hb.tot, hb.cur, hb.len, hb.full, hb.size⟩, hl, hp, hlast, Or.inl ⟨rfl, ?_, h5, h6⟩⟩
    show mid = slice (store m0 s.shadowLen d) 0 (s.shadowLen + d.length) ++ _
    rw [hfront, h4, List.append_assoc]

theorem look_good {s : St} {pre mid : List Byte} (h : Good s pre mid) :
    ∃ m k p t, look s = { s with shadow := m, shadowLen := k, pending := p, tick := t } ∧ Good (look s) pre mid ∧ s.shadowLen ≤ k ∧
      (Punctual s → p = none) := by
  rw [look]
  by_cases hs : s.sched s.tick = true
  · rw [if_pos hs]
    obtain ⟨m, k, h1, h2, h3⟩ := wait_good h
    refine ⟨m, k, none, s.tick + 1, by rw [h1], ?_, h3, fun _ => rfl⟩
    obtain ⟨hb, hl, hp, hlast, hr⟩ := h2
    exact ⟨⟨hb.file, hb.tot, hb.cur, hb.len, hb.full, hb.size⟩, hl, hp, hlast, hr⟩
  · rw [if_neg hs]
    refine ⟨s.shadow, s.shadowLen, s.pending, s.tick + 1, rfl, ?_, Nat.le_refl _, ?_⟩
    · obtain ⟨hb, hl, hp, hlast, hr⟩ := h
      exact ⟨⟨hb.file, hb.tot, hb.cur, hb.len, hb.full, hb.size⟩, hl, hp, hlast, hr⟩
    · intro hp
      rcases hp with hp | hp
      · rcases h.rest with h1 | ⟨d, _, h2, _⟩
        · exact h1.1
        · rw [hp] at h2; cases h2
      · exact absurd (hp _) hs

/-! ### Reading ahead -/

/-- The read after the shadow buffer has been used: what was left in it and what is read follow the buffer. -/
theorem load_shadow {s : St} {pre mid : List Byte} (B : Base s pre mid) (hl : s.loadShadow = true) (hp : s.pending = none) (hpos : s.pos ≤ s.file.length)
    (hlast : s.eof = true → s.file.drop s.pos = []) (hlen : mid.length = s.shadowLen + (s.file.drop s.pos).length) (h4 : s.shadowLen ≤ 4)
    (hback : s.eof = false → mid = slice s.shadow (s.size - s.shadowLen) s.shadowLen ++ s.file.drop s.pos) :
    (Good (internalRead s (s.size - s.shadowLen) true) pre mid ∨ (Bad (internalRead s (s.size - s.shadowLen) true) pre mid ∧ s.shadowLen ≠ 0)) ∧
    Keeps s (internalRead s (s.size - s.shadowLen) true) ∧ (internalRead s (s.size - s.shadowLen) true).tot = s.tot ∧
      (internalRead s (s.size - s.shadowLen) true).cur = s.cur ∧ (internalRead s (s.size - s.shadowLen) true).bufLen = s.bufLen := by
  have hsize := B.size
  by_cases he : s.eof = true
  · have e : internalRead s (s.size - s.shadowLen) true = s := by rw [internalRead, if_pos he]
    rw [e]
    have hr := hlast he
    rw [hr] at hlen
    refine ⟨?_, Keeps.refl s, rfl, rfl, rfl⟩
    by_cases h0 : s.shadowLen = 0
    · left
      have hm : mid = [] := List.length_eq_zero_iff.1 (by rw [hlen, h0]; rfl)
      refine ⟨B, hl, hpos, hlast, Or.inl ⟨hp, ?_, by omega, Or.inl he⟩⟩
      rw [hr, h0, hm]; rfl
    · right
      exact ⟨⟨B, hp, by rw [hlen]; simpa using h4, hl, he, by have := List.drop_eq_nil_iff.1 hr; omega, by simpa using hlen.symm⟩, h0⟩
  · have he' : s.eof = false := by simpa using he
    have hmid := hback he'
    have hw : wait s = s := by rw [wait, hp]
    obtain ⟨data, hdata⟩ : ∃ data, data = (s.file.drop s.pos).take (s.size - s.shadowLen) := ⟨_, rfl⟩
    have hdl : data.length = min (s.size - s.shadowLen) (s.file.length - s.pos) := by rw [hdata]; simp
    have hdrop : s.file.drop s.pos = data ++ s.file.drop (s.pos + data.length) := by
      rw [hdata, ← List.drop_drop, ← hdata]
      conv => lhs; rw [← List.take_append_drop (s.size - s.shadowLen) (s.file.drop s.pos)]
      rw [← hdata]; congr 1
      by_cases hc : s.size - s.shadowLen ≤ s.file.length - s.pos
      · congr 1; omega
      · rw [List.drop_of_length_le (by simp; omega), List.drop_of_length_le (by simp; omega)]
    cases hk : s.kind with
    | sync =>
      have hf : s.feof = false := by simpa [St.eof, hk] using he'
      have e : internalRead s (s.size - s.shadowLen) true =
          readCb { s with pos := s.pos + data.length, feof := decide (data.length < s.size - s.shadowLen) } data := by
        rw [internalRead, if_neg he]; simp only [hw, storageRead, hk, hf, Bool.false_or, if_true, ← hdata]
      by_cases hd : data.length = 0
      · have hrest : s.file.drop s.pos = [] := by
          apply List.length_eq_zero_iff.1
          rw [List.length_drop]; omega
        have e2 : internalRead s (s.size - s.shadowLen) true = { s with feof := true, pending := none } := by
          rw [e]; simp only [readCb, hl, if_true, hd]
          simp only [Nat.add_zero, ne_eq, not_true, if_false]
          congr 1
          simp; omega
        rw [e2]
        rw [hrest] at hlen
        have hB : Base { s with feof := true, pending := none } pre mid := ⟨B.file, B.tot, B.cur, B.len, B.full, B.size⟩
        refine ⟨?_, ⟨rfl, rfl, rfl, rfl⟩, rfl, rfl, rfl⟩
        by_cases h0 : s.shadowLen = 0
        · left
          have hm : mid = [] := List.length_eq_zero_iff.1 (by rw [hlen, h0]; rfl)
          refine ⟨hB, hl, hpos, fun _ => hrest, Or.inl ⟨rfl, ?_, ?_, Or.inl ?_⟩⟩
          · show mid = slice s.shadow 0 s.shadowLen ++ s.file.drop s.pos
            rw [hrest, h0, hm]; rfl
          · show s.shadowLen ≤ s.size; omega
          · simp [St.eof, hk]
        · right
          exact ⟨⟨hB, rfl, by rw [hlen]; simpa using h4, hl, by simp [St.eof, hk],
            by have := List.drop_eq_nil_iff.1 hrest; show s.pos = s.file.length; omega, by simpa using hlen.symm⟩, h0⟩
      · obtain ⟨m0, hm0⟩ : ∃ m0 : Mem, m0 = if s.shadowLen ≠ 0 then (fun i => if i < s.shadowLen then s.shadow (s.size - s.shadowLen + i) else s.shadow i) else s.shadow := ⟨_, rfl⟩
        have e2 : internalRead s (s.size - s.shadowLen) true =
            { s with pos := s.pos + data.length, feof := decide (data.length < s.size - s.shadowLen), shadow := store m0 s.shadowLen data, shadowLen := s.shadowLen + data.length, pending := none } := by
          rw [e]; simp only [readCb, hl, if_true]; rw [if_pos hd, ← hm0]
        rw [e2]
        have hfront : slice (store m0 s.shadowLen data) 0 (s.shadowLen + data.length) = slice s.shadow (s.size - s.shadowLen) s.shadowLen ++ data := by
          rw [slice_append, slice_store_before _ _ _ _ _ (by omega), Nat.zero_add, slice_store]
          congr 1
          apply slice_congr
          intro i hi
          rw [hm0, if_pos (by omega)]; simp [hi]
        refine ⟨Or.inl ⟨⟨B.file, B.tot, B.cur, B.len, B.full, B.size⟩, hl, ?_, ?_, Or.inl ⟨rfl, ?_, ?_, ?_⟩⟩, ⟨rfl, rfl, rfl, rfl⟩, rfl, rfl, rfl⟩
        · show s.pos + data.length ≤ s.file.length; omega
        · intro h
          have : data.length < s.size - s.shadowLen := by simpa [St.eof, hk] using h
          show s.file.drop (s.pos + data.length) = []
          apply List.length_eq_zero_iff.1
          rw [List.length_drop]; omega
        · show mid = slice (store m0 s.shadowLen data) 0 (s.shadowLen + data.length) ++ s.file.drop (s.pos + data.length)
          rw [hfront, hmid, hdrop, List.append_assoc]
        · show s.shadowLen + data.length ≤ s.size; omega
        · by_cases hc : data.length < s.size - s.shadowLen
          · left; simp [St.eof, hk, hc]
          · right; show s.shadowLen + data.length = s.size; omega
    | async =>
      have hlt : s.pos < s.file.length := by
        have := he'
        simp only [St.eof, hk] at this
        rw [async_eof _ _ hpos] at this
        simpa using this
      have e : internalRead s (s.size - s.shadowLen) true = { s with pos := s.pos + data.length, pending := some data } := by
        rw [internalRead, if_neg he]; simp only [hw, storageRead, hk, if_true, ← hdata]
        rw [async_advance _ _ _ hlt, ← hdl]
      rw [e]
      refine ⟨Or.inl ⟨⟨B.file, B.tot, B.cur, B.len, B.full, B.size⟩, hl, ?_, ?_, Or.inr ⟨data, rfl, hk, ?_, ?_, ?_, ?_⟩⟩, ⟨rfl, rfl, rfl, rfl⟩, rfl, rfl, rfl⟩
      · show s.pos + data.length ≤ s.file.length; omega
      · intro h
        have : s.file.length ≤ s.pos + data.length := by
          simp only [St.eof, hk] at h
          rw [async_eof _ _ (by omega)] at h
          simpa using h
        exact List.drop_of_length_le this
      · intro e; rw [e] at hdl; simp at hdl; omega
      · show mid = slice s.shadow (s.size - s.shadowLen) s.shadowLen ++ (data ++ s.file.drop (s.pos + data.length))
        rw [hmid, hdrop]
      · show s.shadowLen + data.length ≤ s.size; omega
      · show (St.eof _ = true ∨ s.shadowLen + data.length = s.size)
        by_cases hc : s.size - s.shadowLen ≤ s.file.length - s.pos
        · right; omega
        · left; simp only [St.eof, hk]; rw [async_eof _ _ (by omega)]; simp; omega

theorem readCb_buf (s : St) (d : List Byte) (h : s.loadShadow = false) :
    readCb s d = { s with buf := store s.buf s.bufLen d, bufLen := s.bufLen + d.length, pending := none } := by
  rw [readCb, h]; rfl

theorem reload_eq (s : St) : reload s =
    internalRead { internalRead { wait s with bufLen := 0, shadowLen := 0, cur := 0, loadShadow := false } (wait s).size false with loadShadow := true }
      (internalRead { wait s with bufLen := 0, shadowLen := 0, cur := 0, loadShadow := false } (wait s).size false).size true := rfl

theorem wait_any (s : St) : ∃ b n m k, wait s = { s with buf := b, bufLen := n, shadow := m, shadowLen := k, pending := none } := by
  cases hp : s.pending with
  | none => exact ⟨s.buf, s.bufLen, s.shadow, s.shadowLen, by rw [wait, hp]; simp only; cases s; simp only at hp; subst hp; rfl⟩
  | some d =>
    have hw : wait s = readCb s d := by rw [wait, hp]
    rw [hw, readCb]
    by_cases h1 : s.loadShadow = true
    · rw [if_pos h1]
      by_cases h2 : d.length ≠ 0
      · rw [if_pos h2]; exact ⟨_, _, _, _, rfl⟩
      · rw [if_neg h2]; exact ⟨_, _, _, _, rfl⟩
    · rw [if_neg h1]; exact ⟨_, _, _, _, rfl⟩

/-- A reader that starts again at its position in the file. -/
theorem reload_good (s : St) (h5 : 5 ≤ s.size) (hpos : s.pos ≤ s.file.length) (htot : s.tot = 8 * s.pos) (hfeof : s.kind = .sync → s.feof = false) :
    ∃ mid, Good (reload s) (s.file.take s.pos) mid ∧ Keeps s (reload s) ∧ (reload s).tot = s.tot ∧ (reload s).cur = 0 := by
  obtain ⟨jb, jn, jm, jk, hw⟩ := wait_any s
  obtain ⟨s0, hs0⟩ : ∃ s0 : St, s0 = { s with buf := jb, bufLen := 0, cur := 0, shadow := jm, shadowLen := 0, loadShadow := false, pending := none } := ⟨_, rfl⟩
  have hsz0 : s0.size = s.size := by rw [hs0]
  have hc : reload s = internalRead { internalRead s0 s.size false with loadShadow := true } ((internalRead s0 s.size false).size - 0) true := by
    rw [reload_eq, hw, hs0]; rfl
  obtain ⟨rest, hrest⟩ : ∃ rest, rest = s.file.drop s.pos := ⟨_, rfl⟩
  have hrl : rest.length = s.file.length - s.pos := by rw [hrest]; simp
  -- the first read
  obtain ⟨s1, hs1⟩ : ∃ s1, s1 = internalRead s0 s.size false := ⟨_, rfl⟩
  have hfirst : ∃ f, s1 = { s0 with buf := store jb 0 (rest.take s.size), bufLen := (rest.take s.size).length, pos := s.pos + (rest.take s.size).length, feof := f } ∧
      (s.kind = .sync → f = decide ((rest.take s.size).length < s.size)) := by
    rw [hs1]
    cases hk : s.kind with
    | sync =>
      refine ⟨decide ((rest.take s.size).length < s.size), ?_, fun _ => rfl⟩
      have hf := hfeof hk
      rw [internalRead, if_neg (by rw [hs0]; simp [St.eof, hk, hf])]
      rw [hs0]
      simp only [wait, storageRead, hk, hf, ← hrest, Bool.false_or]
      rw [readCb_buf _ _ rfl]
      simp
    | async =>
      by_cases he : rest = []
      · have : s.file.length = s.pos := by rw [he] at hrl; simp at hrl; omega
        refine ⟨s.feof, ?_, by simp⟩
        rw [internalRead, if_pos (by rw [hs0]; simp only [St.eof, hk]; rw [async_eof _ _ (by omega)]; simp; omega)]
        rw [hs0, he]
        simp only [List.take_nil, List.length_nil, Nat.add_zero]
        have e0 : store jb 0 [] = jb := by
          funext i
          rw [store, if_neg (by simp)]
        rw [e0, hk]
      · refine ⟨s.feof, ?_, by simp⟩
        have hlen : 0 < rest.length := List.length_pos_iff.2 he
        rw [internalRead, if_neg (by rw [hs0]; simp only [St.eof, hk]; rw [async_eof _ _ (by omega)]; simp; omega)]
        rw [hs0]
        simp only [wait, storageRead, hk, ← hrest]
        rw [if_neg (by simp), readCb_buf _ _ rfl]
        rw [async_advance _ _ _ (by omega)]
        simp [hrl]
  obtain ⟨f, e1, hf⟩ := hfirst
  rw [← hs1, e1] at hc
  have hlen : (rest.take s.size).length = min s.size rest.length := by simp
  have hdrop : s.file.drop (s.pos + (rest.take s.size).length) = rest.drop s.size := by
    rw [← List.drop_drop, ← hrest]
    by_cases h : s.size ≤ rest.length
    · rw [hlen]; congr 1; omega
    · rw [List.drop_of_length_le (by omega), List.drop_of_length_le (by omega)]
  obtain ⟨s2, hs2⟩ : ∃ s2 : St, s2 = { s0 with buf := store jb 0 (rest.take s.size), bufLen := (rest.take s.size).length, pos := s.pos + (rest.take s.size).length, feof := f,
                                               loadShadow := true } := ⟨_, rfl⟩
  have hc' : reload s = internalRead s2 (s2.size - s2.shadowLen) true := by
    rw [hc, hs2, hs0]
  have hB : Base s2 (s.file.take s.pos) (rest.drop s.size) := by
    rw [hs2, hs0]
    refine ⟨?_, ?_, Nat.zero_le _, ?_, ?_, h5⟩
    · show s.file = s.file.take s.pos ++ (slice (store jb 0 (rest.take s.size)) 0 (rest.take s.size).length ++ rest.drop s.size)
      rw [slice_store, List.take_append_drop, hrest, List.take_append_drop]
    · show s.tot = 8 * (s.file.take s.pos).length + 0
      rw [htot, List.length_take, Nat.min_eq_left hpos, Nat.add_zero]
    · show (rest.take s.size).length ≤ s.size; omega
    · intro h
      show (rest.take s.size).length = s.size
      have : ¬ rest.length ≤ s.size := fun h' => h (List.drop_of_length_le h')
      omega
  have hlast : s2.eof = true → s2.file.drop s2.pos = [] := by
    intro h
    rw [hs2, hs0] at h ⊢
    show s.file.drop (s.pos + (rest.take s.size).length) = []
    rw [hdrop]
    apply List.drop_of_length_le
    cases hk : s.kind with
    | sync =>
      have := hf hk
      simp only [St.eof, hk] at h
      rw [this] at h
      have := of_decide_eq_true h
      omega
    | async =>
      simp only [St.eof, hk] at h
      rw [async_eof _ _ (by omega)] at h
      have := of_decide_eq_true h
      omega
  obtain ⟨g, k, t1, t2, _⟩ := load_shadow hB (by rw [hs2]) (by rw [hs2, hs0]) (by rw [hs2, hs0]; show s.pos + (rest.take s.size).length ≤ s.file.length; omega) hlast
    (by rw [hs2, hs0]; show (rest.drop s.size).length = 0 + (s.file.drop (s.pos + (rest.take s.size).length)).length; rw [hdrop]; omega)
    (by rw [hs2, hs0]; exact Nat.zero_le _)
    (by intro _; rw [hs2, hs0]; show rest.drop s.size = [] ++ s.file.drop (s.pos + (rest.take s.size).length); rw [hdrop]; rfl)
  rw [← hc'] at g k t1 t2
  have z : s2.shadowLen = 0 := by rw [hs2, hs0]
  refine ⟨rest.drop s.size, ?_, ?_, ?_, ?_⟩
  · rcases g with g | g
    · exact g
    · exact absurd z g.2
  · exact (⟨by rw [hs2, hs0], by rw [hs2, hs0], by rw [hs2, hs0], by rw [hs2, hs0]⟩ : Keeps s s2).trans k
  · rw [t1, hs2, hs0]
  · rw [t2, hs2, hs0]

/-- A new reader. -/
theorem create_good (kind : Kind) (size : Nat) (file : List Byte) (junk junk' : Mem) (sched : Nat → Bool) (h5 : 5 ≤ size) :
    ∃ mid, Good (create kind size file junk junk' sched) [] mid ∧ (create kind size file junk junk' sched).file = file ∧
      (create kind size file junk junk' sched).tot = 0 ∧ (create kind size file junk junk' sched).cur = 0 ∧
      (create kind size file junk junk' sched).kind = kind ∧ (create kind size file junk junk' sched).size = size ∧
      (create kind size file junk junk' sched).sched = sched := by
  obtain ⟨mid, g, k, t, c⟩ := reload_good { kind, size, buf := junk, bufLen := 0, cur := 0, tot := 0, shadow := junk', shadowLen := 0, loadShadow := false, file, pos := 0,
                                            feof := false, pending := none, sched, tick := 0 } h5 (Nat.zero_le _) rfl (fun _ => rfl)
  exact ⟨mid, g, k.file, t, c, k.kind, k.size, k.sched⟩

/-! ### Filling the buffer -/

/-- The buffer is filled when there is something after it. Unread bytes stay, and if there were none the state is good again. -/
theorem fill_good {s : St} {pre mid : List Byte} (G : Good s pre mid) (hmid : mid ≠ []) (hu : s.bufLen - s.cur / 8 ≤ 4) :
    (fillBuf s = .error .endOfData ∧ ¬ Punctual s ∧ s.shadowLen = 0 ∧ s.eof = true) ∨
    ∃ s' pre' mid', fillBuf s = .ok s' ∧ (Good s' pre' mid' ∨ (Bad s' pre' mid' ∧ s.cur / 8 ≠ s.bufLen)) ∧ Keeps s s' ∧ s'.tot = s.tot ∧
      s'.cur = s.cur % 8 ∧ pre'.length = pre.length + s.cur / 8 := by
  obtain ⟨m, k, p, t, h1, h2, h3, h4⟩ := look_good G
  by_cases hthrow : (look s).shadowLen = 0 ∧ (look s).eof = true
  · left
    have hk : k = 0 := by have := hthrow.1; rw [h1] at this; exact this
    have heof : s.eof = true := by have := hthrow.2; rw [h1] at this; exact this
    refine ⟨by rw [fillBuf]; simp only; rw [if_pos hthrow], ?_, by omega, heof⟩
    intro hp
    have hpn := h4 hp
    rcases h2.rest with ⟨_, r2, _, _⟩ | ⟨d, r1, _⟩
    · apply hmid
      rw [r2, hthrow.1, h2.last hthrow.2]; rfl
    · rw [h1] at r1; simp only at r1; rw [hpn] at r1; cases r1
  · right
    -- after waiting
    have hw : ∃ m k t, (if (look s).shadowLen ≠ (look s).size then wait (look s) else look s) = { s with shadow := m, shadowLen := k, pending := none, tick := t } ∧
        Good { s with shadow := m, shadowLen := k, pending := none, tick := t } pre mid := by
      by_cases hc : (look s).shadowLen ≠ (look s).size
      · rw [if_pos hc]
        obtain ⟨m', k', e1, e2, _⟩ := wait_good h2
        refine ⟨m', k', t, ?_, ?_⟩
        · rw [e1, h1]
        · rw [e1, h1] at e2; exact e2
      · rw [if_neg hc]
        have hc' : (look s).shadowLen = (look s).size := by omega
        have hs := h2.base.size
        rcases h2.rest with ⟨r1, _⟩ | ⟨d, _, _, r3, _, r5, _⟩
        · have hp : p = none := by rw [h1] at r1; exact r1
          rw [hp] at h1
          exact ⟨m, k, t, h1, by rw [← h1]; exact h2⟩
        · exact absurd (List.length_eq_zero_iff.1 (by omega)) r3
    obtain ⟨m, k, t, e1, G'⟩ := hw
    obtain ⟨B, hl, hpos, hlast, hr⟩ := G'
    rcases hr with ⟨_, r2, r3, r4⟩ | ⟨d, r1, _⟩
    swap
    · cases r1
    simp only at r2 r3 r4 hl hpos hlast
    have hsize : 5 ≤ s.size := B.size
    have hfull : s.bufLen = s.size := B.full hmid
    have hcur : s.cur ≤ 8 * s.bufLen := B.cur
    have hn : s.cur / 8 ≤ s.bufLen := by omega
    have heofk : ∀ (x : St), x = { s with shadow := m, shadowLen := k, pending := none, tick := t } → x.eof = s.eof := by rintro x rfl; rfl
    have r4' : s.eof = true ∨ k = s.size := by simpa [St.eof] using r4
    have hlast' : s.eof = true → s.file.drop s.pos = [] := hlast
    obtain ⟨n, hnd⟩ : ∃ n, n = s.cur / 8 := ⟨_, rfl⟩
    obtain ⟨u, hud⟩ : ∃ u, u = s.bufLen - n := ⟨_, rfl⟩
    obtain ⟨c, hcd⟩ : ∃ c, c = if k > n then n else k := ⟨_, rfl⟩
    have hcn : c ≤ n := by rw [hcd]; split <;> omega
    have hck : c ≤ k := by rw [hcd]; split <;> omega
    obtain ⟨b', hb'⟩ : ∃ b' : Mem, b' = fun i => if i < u then s.buf (i + n) else if i < u + c then m (i - u) else if i < u + n then 0 else s.buf i := ⟨_, rfl⟩
    obtain ⟨s2, hs2⟩ : ∃ s2 : St, s2 = { s with buf := b', cur := s.cur % 8, bufLen := u + c, shadow := m, shadowLen := k - c, pending := none, tick := t,
                                                loadShadow := true } := ⟨_, rfl⟩
    have hfill : fillBuf s = .ok (internalRead s2 (s2.size - s2.shadowLen) true) := by
      rw [fillBuf]; simp only
      rw [if_neg hthrow, e1, moveUp]
      simp only
      rw [if_neg (by omega)]
      simp only [hs2, hb', hud, hnd, hcd]
    have hbuf : slice b' 0 (u + c) = slice s.buf n u ++ slice m 0 c := by
      rw [slice_append]
      congr 1
      · apply slice_congr
        intro i hi
        rw [hb']; simp only [Nat.zero_add]; rw [if_pos hi]; congr 1; omega
      · apply slice_congr
        intro i hi
        rw [hb']; simp only [Nat.zero_add]; rw [if_neg (by omega), if_pos (by omega)]; congr 1; omega
    have hold : slice s.buf 0 s.bufLen = slice s.buf 0 n ++ slice s.buf n u := by
      rw [show s.bufLen = n + u by omega, slice_append, Nat.zero_add]
    have hmidsplit : mid = slice m 0 c ++ (slice m c (k - c) ++ s.file.drop s.pos) := by
      rw [r2, show slice m 0 k = slice m 0 c ++ slice m c (k - c) by
        have e : k = c + (k - c) := by omega
        conv => lhs; rw [e, slice_append, Nat.zero_add], List.append_assoc]
    have hB : Base s2 (pre ++ slice s.buf 0 n) (slice m c (k - c) ++ s.file.drop s.pos) := by
      rw [hs2]
      refine ⟨?_, ?_, ?_, ?_, ?_, hsize⟩
      · show s.file = (pre ++ slice s.buf 0 n) ++ (slice b' 0 (u + c) ++ (slice m c (k - c) ++ s.file.drop s.pos))
        have hfile : s.file = pre ++ (slice s.buf 0 s.bufLen ++ mid) := B.file
        generalize s.file.drop s.pos = rest at hmidsplit
        rw [hfile, hold]
        show _ = (pre ++ slice s.buf 0 n) ++ (slice b' 0 (u + c) ++ _)
        rw [hbuf, hmidsplit]
        simp only [List.append_assoc]
      · show s.tot = 8 * (pre ++ slice s.buf 0 n).length + s.cur % 8
        rw [show s.tot = 8 * pre.length + s.cur from B.tot, List.length_append, slice_length]; omega
      · show s.cur % 8 ≤ 8 * (u + c)
        by_cases h0 : s.cur % 8 = 0
        · omega
        · omega
      · show u + c ≤ s.size; omega
      · intro h
        show u + c = s.size
        by_cases hkn : k > n
        · rw [if_pos hkn] at hcd; omega
        · rw [if_neg hkn] at hcd
          rcases r4' with he | he
          · exfalso; apply h
            rw [hlast' he, show k - c = 0 by omega]; rfl
          · omega
    have hleft : k - c ≤ 4 := by rw [hcd]; split <;> omega
    have hleft0 : k - c ≠ 0 → u ≠ 0 := by rw [hcd]; split <;> omega
    obtain ⟨g, kk, t1, t2, _⟩ := load_shadow hB (by rw [hs2]) (by rw [hs2]) (by rw [hs2]; exact hpos) (by rw [hs2]; exact hlast')
      (by rw [hs2]; simp [slice_length]) (by rw [hs2]; exact hleft)
      (by
        intro h
        have he : s.eof = false := by rw [hs2] at h; exact h
        have hk : k = s.size := by rcases r4' with r | r
                                   · rw [he] at r; cases r
                                   · exact r
        rw [hs2]
        show slice m c (k - c) ++ s.file.drop s.pos = slice m (s.size - (k - c)) (k - c) ++ s.file.drop s.pos
        rw [show s.size - (k - c) = c by omega])
    refine ⟨_, pre ++ slice s.buf 0 n, slice m c (k - c) ++ s.file.drop s.pos, hfill, ?_, ?_, ?_, ?_, ?_⟩
    · rcases g with g | ⟨g, g'⟩
      · exact Or.inl g
      · refine Or.inr ⟨g, ?_⟩
        have : k - c ≠ 0 := by rw [hs2] at g'; exact g'
        have := hleft0 this
        omega
    · exact (⟨by rw [hs2], by rw [hs2], by rw [hs2], by rw [hs2]⟩ : Keeps s s2).trans kk
    · rw [t1, hs2]
    · rw [t2, hs2]
    · rw [List.length_append, slice_length, hnd]

/-- At the end nothing is left to fill the buffer with. -/
theorem fill_end {s : St} {pre : List Byte} (G : Good s pre []) : fillBuf s = .error .endOfData := by
  obtain ⟨m, k, p, t, h1, h2, _, _⟩ := look_good G
  have hs := h2.base.size
  have : (look s).shadowLen = 0 ∧ (look s).eof = true := by
    rcases h2.rest with ⟨_, r2, _, r4⟩ | ⟨d, _, _, r3, r4, _⟩
    · have hl := congrArg List.length r2
      simp only [List.length_nil, List.length_append, slice_length] at hl
      refine ⟨by omega, ?_⟩
      rcases r4 with r4 | r4
      · exact r4
      · omega
    · exfalso
      have hl := congrArg List.length r4
      simp only [List.length_nil, List.length_append, slice_length] at hl
      exact r3 (List.length_eq_zero_iff.1 (by omega))
  rw [fillBuf]; simp only; rw [if_pos this]

end Verif.FileReader
