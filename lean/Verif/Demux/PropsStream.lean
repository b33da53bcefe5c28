import Verif.Demux.PropsPacket
import Mathlib.Data.List.Forall2
/-
C99: a file of intact transport packets is read packet by packet; what happens with the adaptation fields that are not simple and with damaged packets.
-/
namespace Verif.Demux
open Fields Spec

theorem packet_length (b : List UInt8) (p : Packet) (h : packet b = some p) : b.length = 188 := by
  rw [packet] at h
  split at h
  · simp at h
  · omega

/-- C99: a file that consists of intact packets, without private data and extensions in the adaptation fields, is read as exactly these packets, in order. -/
theorem stream_read_partial (bytes : List UInt8) (ps : List Packet) (h : IsStream bytes ps) : List.Forall₂ Agrees (packets bytes) ps := by
  obtain ⟨raw, rfl, hm, hs⟩ := h
  suffices ∀ n, raw.flatten.length ≤ n → List.Forall₂ Agrees (packetsLoop n raw.flatten) ps from this _ (Nat.le_refl _)
  induction raw generalizing ps with
  | nil =>
    intro n _
    cases ps with
    | nil => cases n <;> simp [packetsLoop]
    | cons p ps => simp at hm
  | cons b raw ih =>
    intro n hn
    cases ps with
    | nil => simp at hm
    | cons p ps =>
      simp only [List.map_cons, List.cons.injEq] at hm
      have hl := packet_length b p hm.1
      obtain ⟨t, ht, ha⟩ := packet_read_partial b raw.flatten p hm.1 (hs b (by simp))
      simp only [List.flatten_cons, List.length_append] at hn ⊢
      cases n with
      | zero => omega
      | succ n =>
        rw [packetsLoop, if_neg (by intro h; have := congrArg List.length h; simp at this; rw [this.1] at hl; simp at hl), ht]
        exact List.Forall₂.cons ha (ih ps hm.2 (fun b hb => hs b (by simp [hb])) n (by omega))

/-- Two packets: one with a clock reference and a payload of 170 bytes, one full of payload. -/
def demoRaw : List (List UInt8) :=
  [[0x47, 0x41, 0x00, 0x30, 13, 0x50, 1, 2, 3, 4, 5, 6, 0xFF, 0xFF, 0xFF, 0xFF, 0xFF, 0xFF] ++ List.replicate 170 9,
   [0x47, 0x01, 0x00, 0x11] ++ List.replicate 184 7]

def demoPackets : List Packet :=
  [⟨true, 256, 0, some 1, some (List.replicate 170 9)⟩, ⟨false, 256, 1, none, some (List.replicate 184 7)⟩]

theorem demo_stream : IsStream demoRaw.flatten demoPackets := by
  refine ⟨demoRaw, rfl, by decide +kernel, ?_⟩
  intro b hb h c len d r e pcr opcr spl priv ext hr h0
  simp only [demoRaw, List.mem_cons, List.not_mem_nil, or_false] at hb
  rcases hb with rfl | rfl
  · have : Fields.read [26, 1, 5, 8, 1, 1, 1, 1, 1, 1, 1, 1]
        ([0x47, 0x41, 0x00, 0x30, 13, 0x50, 1, 2, 3, 4, 5, 6, 0xFF, 0xFF, 0xFF, 0xFF, 0xFF, 0xFF] ++ List.replicate 170 9) =
        some [18678784, 1, 16, 13, 0, 1, 0, 1, 0, 0, 0, 0] := by decide +kernel
    rw [this] at hr
    simp only [Option.some.injEq, List.cons.injEq, and_true, true_and] at hr
    obtain ⟨_, _, rfl, _, _, _, rfl, rfl, rfl, rfl, rfl⟩ := hr
    decide
  · have : Fields.read [26, 1, 5, 8, 1, 1, 1, 1, 1, 1, 1, 1] ([0x47, 0x01, 0x00, 0x11] ++ List.replicate 184 7) =
        some [18613248, 0, 17, 7, 0, 0, 0, 0, 0, 1, 1, 1] := by decide +kernel
    rw [this] at hr
    simp at hr

example : List.Forall₂ Agrees (packets demoRaw.flatten) demoPackets := stream_read_partial _ _ demo_stream

/-- Bytes taken from the front. -/
theorem suffix_length {a b : List UInt8} (h : a <:+ b) : a.length ≤ b.length := h.length_le

theorem bytesOfBits_length : ∀ s : List Bool, s.length % 8 = 0 → 8 * (bytesOfBits s).length = s.length
  | [], _ => rfl
  | a :: b :: c :: d :: e :: f :: g :: h :: l, hm => by
    have := bytesOfBits_length l (by simp only [List.length_cons] at hm; omega)
    simp only [bytesOfBits, List.length_cons]
    omega
  | [_], h | [_, _], h | [_, _, _], h | [_, _, _, _], h | [_, _, _, _, _], h | [_, _, _, _, _, _], h | [_, _, _, _, _, _, _], h => by simp at h

theorem takeBits_le (ws : List Nat) (s s' : List Bool) (vs : List Nat) (h : takeBits ws s = some (vs, s')) : s'.length ≤ s.length := by
  obtain ⟨x, _, he⟩ := Option.map_eq_some_iff.mp h
  obtain ⟨_, rfl⟩ := Prod.mk.inj he
  rw [List.length_drop]; omega

theorem skipIf_le (c : Bool) (w : Nat) (s s' : List Bool) (h : skipIf c w s = some s') : s'.length ≤ s.length := by
  rw [skipIf] at h
  split at h
  · split at h
    · simp only [Option.some.injEq] at h; subst h; rw [List.length_drop]; omega
    · simp at h
  · simp only [Option.some.injEq] at h; subst h; exact Nat.le_refl _

theorem getPcr_le (f : Nat) (s s' : List Bool) (q) (h : getPcr f s = some (q, s')) : s'.length ≤ s.length := by
  rw [getPcr] at h
  split at h
  · split at h
    · next ht =>
      simp only [Option.some.injEq, Prod.mk.injEq] at h
      obtain ⟨_, rfl⟩ := h
      exact takeBits_le _ _ _ _ ht
    · simp at h
  · simp only [Option.some.injEq, Prod.mk.injEq] at h; rw [h.2]; exact Nat.le_refl _

theorem getPrivate_le (f : Nat) (s s' : List Bool) (q) (h : getPrivate f s = some (q, s')) : s'.length ≤ s.length := by
  rw [getPrivate] at h
  split at h
  · split at h
    · next ht =>
      obtain ⟨x, hx, he⟩ := Option.map_eq_some_iff.mp h
      obtain ⟨_, rfl⟩ := Prod.mk.inj he
      exact Nat.le_trans (skipIf_le _ _ _ _ hx) (takeBits_le _ _ _ _ ht)
    · simp at h
  · simp only [Option.some.injEq, Prod.mk.injEq] at h; rw [h.2]; exact Nat.le_refl _

theorem getExtension_le (f : Nat) (s s' : List Bool) (q) (h : getExtension f s = some (q, s')) : s'.length ≤ s.length := by
  rw [getExtension] at h
  split at h
  · split at h
    · next ht =>
      simp only [Option.some.injEq, Prod.mk.injEq] at h
      obtain ⟨_, rfl⟩ := h
      rw [List.length_drop]
      exact Nat.le_trans (Nat.sub_le _ _) (takeBits_le _ _ _ _ ht)
    · simp at h
  · simp only [Option.some.injEq, Prod.mk.injEq] at h; rw [h.2]; exact Nat.le_refl _

theorem getAF_le (s s' : List Bool) (a) (h : getAF s = some (a, s')) : s'.length ≤ s.length := by
  rw [getAF] at h
  split at h
  · next len s1 h1 =>
    have l1 := takeBits_le _ _ _ _ h1
    split at h
    · split at h
      · next h2 =>
        have l2 := takeBits_le _ _ _ _ h2
        rw [getAFBody] at h
        obtain ⟨⟨_, _⟩, e1, h⟩ := Option.bind_eq_some_iff.mp h
        obtain ⟨_, e2, h⟩ := Option.bind_eq_some_iff.mp h
        obtain ⟨_, e3, h⟩ := Option.bind_eq_some_iff.mp h
        obtain ⟨⟨_, _⟩, e4, h⟩ := Option.bind_eq_some_iff.mp h
        obtain ⟨⟨_, s5⟩, e5, h⟩ := Option.bind_eq_some_iff.mp h
        have := getPcr_le _ _ _ _ e1
        have := skipIf_le _ _ _ _ e2
        have := skipIf_le _ _ _ _ e3
        have := getPrivate_le _ _ _ _ e4
        have := getExtension_le _ _ _ _ e5
        simp only [Option.some.injEq, Prod.mk.injEq] at h
        have hs : s'.length ≤ s5.length := by
          rw [← h.2]
          generalize (8 + _ + _ + _ + _ + _) = tot
          split
          · rw [List.length_drop]; omega
          · exact Nat.le_refl _
        omega
      · simp at h
    · simp only [Option.some.injEq, Prod.mk.injEq] at h; rw [← h.2]; exact l1
  · simp at h

theorem takeBytes_le (n : Nat) (s s' : List Bool) (p) (h : takeBytes n s = some (p, s')) : s'.length ≤ s.length := by
  rw [takeBytes] at h
  split at h
  · simp only [Option.some.injEq, Prod.mk.injEq] at h; rw [← h.2, List.length_drop]; omega
  · simp at h

theorem getBody_le (st pid cc af pay : Nat) (s s' : List Bool) (t) (h : getBody st pid cc af pay s = some (t, s')) : s'.length ≤ s.length := by
  rw [getBody] at h
  split at h
  · obtain ⟨⟨a, s1⟩, e1, h⟩ := Option.bind_eq_some_iff.mp h
    have := getAF_le _ _ _ e1
    simp only at h
    split at h
    · obtain ⟨⟨p, s2⟩, e2, he⟩ := Option.map_eq_some_iff.mp h
      obtain ⟨_, rfl⟩ := Prod.mk.inj he
      exact Nat.le_trans (takeBytes_le _ _ _ _ e2) this
    · simp only [Option.some.injEq, Prod.mk.injEq] at h; rw [← h.2]; exact this
  · split at h
    · obtain ⟨⟨p, s2⟩, e2, he⟩ := Option.map_eq_some_iff.mp h
      obtain ⟨_, rfl⟩ := Prod.mk.inj he
      exact takeBytes_le _ _ _ _ e2
    · simp only [Option.some.injEq, Prod.mk.injEq] at h; rw [h.2]; exact Nat.le_refl _

/-- C99: whatever the bytes are, every packet read takes at least one byte of the file. -/
theorem packet_progress (bytes rest : List UInt8) (t : TPacket) (h : getPacket bytes = some (t, rest)) : rest.length < bytes.length := by
  have hd : (bytes.dropWhile (· ≠ 0x47)).length ≤ bytes.length := (List.dropWhile_suffix _).length_le
  have fin : ∀ (s : List Bool) (l : List UInt8), s.length ≤ (bitsOf l).length → (bytesOfBits (s.drop (s.length % 8))).length ≤ l.length := by
    intro s l hs
    have := bytesOfBits_length (s.drop (s.length % 8)) (by rw [List.length_drop]; omega)
    rw [List.length_drop] at this
    rw [bitsOf_length] at hs
    omega
  rw [getPacket] at h
  split at h
  · simp at h
  · next x l hx =>
    rw [hx] at hd
    simp only [List.length_cons] at hd
    split at h
    · next err s h1 =>
      have l1 := takeBits_le _ _ _ _ h1
      obtain ⟨⟨t', s'⟩, hb, he⟩ := Option.map_eq_some_iff.mp h
      obtain ⟨_, rfl⟩ := Prod.mk.inj he
      have : s'.length ≤ (bitsOf l).length := by
        split at hb
        · simp only [Option.some.injEq, Prod.mk.injEq] at hb
          rw [← hb.2]; exact l1
        · split at hb
          · next h2 =>
            have l2 := takeBits_le _ _ _ _ h2
            have := getBody_le _ _ _ _ _ _ _ _ hb
            omega
          · simp at hb
      have := fin s' l this
      omega
    · simp at h

/-- C99: the reader comes to an end on every file; the bound in the model is no restriction. -/
theorem packets_end (bytes : List UInt8) : ∀ n, bytes.length ≤ n → packetsLoop n bytes = packets bytes := by
  suffices ∀ m (b : List UInt8), b.length ≤ m → ∀ n, b.length ≤ n → packetsLoop n b = packetsLoop m b from
    fun n hn => this bytes.length bytes (Nat.le_refl _) n hn
  intro m
  induction m with
  | zero =>
    intro b hb n _
    have : b = [] := List.length_eq_zero_iff.mp (by omega)
    subst this
    cases n <;> simp [packetsLoop]
  | succ m ih =>
    intro b hb n hn
    cases n with
    | zero =>
      have : b = [] := List.length_eq_zero_iff.mp (by omega)
      subst this
      simp [packetsLoop]
    | succ n =>
      rw [packetsLoop, packetsLoop]
      split
      · rfl
      · cases hg : getPacket b with
        | none => rfl
        | some q =>
          obtain ⟨t, rest⟩ := q
          have := packet_progress b rest t hg
          simp only
          rw [ih rest (by omega) n (by omega)]

/-- An intact packet with one byte of private data in the adaptation field. -/
def privatePacket : List UInt8 := [0x47, 0x01, 0x00, 0x30, 4, 0x02, 1, 0xAA, 0xFF] ++ (List.range 179).map UInt8.ofNat

/-- An intact packet with an adaptation field extension of one byte. -/
def extensionPacket : List UInt8 := [0x47, 0x01, 0x00, 0x30, 4, 0x01, 1, 0x1F, 0xFF] ++ (List.range 179).map UInt8.ofNat

/-- C99 fails for private data and for the extension: the payload of an intact packet is read one or two bytes late, with the start of the next packet at its
end, and the packet behind it is lost. -/
theorem private_data_witness :
    packet privatePacket = some ⟨false, 256, 0, some 0, some ((List.range 179).map UInt8.ofNat)⟩ ∧
    (getPacket (privatePacket ++ demoRaw.flatten)).map (·.1.payload) = some (some (((List.range 179).map UInt8.ofNat).drop 1 ++ [0x47])) ∧
    (packets (privatePacket ++ demoRaw.flatten)).length = 2 ∧
    packet extensionPacket = some ⟨false, 256, 0, some 0, some ((List.range 179).map UInt8.ofNat)⟩ ∧
    (getPacket (extensionPacket ++ demoRaw.flatten)).map (·.1.payload) ≠ some (some ((List.range 179).map UInt8.ofNat)) := by
  refine ⟨by decide +kernel, by decide +kernel, by decide +kernel, by decide +kernel, by decide +kernel⟩

/-- A packet with the transport error flag whose payload contains 0x47. -/
def errorPacket : List UInt8 := [0x47, 0x81, 0x00, 0x10] ++ List.replicate 100 0 ++ [0x47, 0x01, 0x00, 0x10] ++ List.replicate 80 5

/-- C99: a packet with the error flag is not skipped as a whole; a packet is read from inside its payload, and the intact packet behind it is lost. -/
theorem error_packet_witness :
    (packets (errorPacket ++ demoRaw.flatten)).map (fun t => (t.err, t.pid, t.cc)) = [(true, 0, 0), (false, 256, 0), (false, 256, 1)] ∧
    ((packets (errorPacket ++ demoRaw.flatten))[1]?.bind (·.payload)) ≠ some (List.replicate 170 9) := by
  refine ⟨by decide +kernel, by decide +kernel⟩

end Verif.Demux
