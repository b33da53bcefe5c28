import Verif.Demux.PropsUnits
/-
C101: cases that meet the hypotheses of `pes_delivered_partial`, and cases in which PES packets are lost or get the flag of another one.
-/
namespace Verif.Demux
open Fields Spec

def afCheck : List Nat → Bool
  | [_, 1, _, len, _, _, _, pcr, opcr, spl, priv, ext] => len == 0 || (priv == 0 && ext == 0 && decide (1 + 6 * pcr + 6 * opcr + spl ≤ len))
  | _ => true

theorem simpleAF_of (b : List UInt8) (vs : List Nat) (h : Fields.read [26, 1, 5, 8, 1, 1, 1, 1, 1, 1, 1, 1] b = some vs) (hc : afCheck vs = true) : SimpleAF b := by
  intro a c len d r e pcr opcr spl priv ext hr h0
  rw [h] at hr
  simp only [Option.some.injEq] at hr
  subst hr
  simp only [afCheck, Bool.or_eq_true, beq_iff_eq, Bool.and_eq_true, decide_eq_true_eq] at hc
  omega

def pesCheck (b : List UInt8) : List Nat → Bool
  | [_, _, _, _, _, _, _, _, _, p, d, escr, rate, trick, copy, crc, ext, n] =>
    crc == 0 && (trick == 0 || decide (byteAt b (9 + 5 * p + 5 * d + 6 * escr + 3 * rate) < 128)) &&
      decide (5 * p + 5 * d + 6 * escr + 3 * rate + trick + copy +
        ext * extensionLength (b.drop (9 + 5 * p + 5 * d + 6 * escr + 3 * rate + trick + copy)) ≤ n)
  | _ => true

theorem simplePes_of (b : List UInt8) (vs : List Nat) (h : Fields.read pesWidths b = some vs) (hc : pesCheck b vs = true) : SimplePes b := by
  intro c sid len x1 x2 x3 x4 x5 x6 p d escr rate trick copy crc ext n hr
  rw [h] at hr
  simp only [Option.some.injEq] at hr
  subst hr
  simp only [pesCheck, Bool.or_eq_true, beq_iff_eq, Bool.and_eq_true, decide_eq_true_eq] at hc
  exact ⟨hc.1.1, fun ht => by rcases hc.1.2 with h | h; omega; exact h, hc.2⟩

theorem aac_never_fails : ∀ l : List UInt8, aacLookup l ≠ .fail
  | [] | [_] => by simp [aacLookup]
  | a :: b :: r => by
    rw [aacLookup]
    split
    · split
      · simp
      · exact aac_never_fails (b :: r)
    · simp

/-- A packet of pid 256 with a stuffed adaptation field. -/
def tsPacket (start ra cc : Nat) (pl : List UInt8) : List UInt8 :=
  [0x47, UInt8.ofNat (1 + 64 * start), 0x00, UInt8.ofNat (0x30 + cc), UInt8.ofNat (183 - pl.length), UInt8.ofNat (64 * ra)] ++
    List.replicate (182 - pl.length) 0xFF ++ pl

/-- Two audio PES packets, 38 bytes with length; the first is split over two packets. -/
def audio1 : List UInt8 := [0, 0, 1, 0xC0, 0, 32, 0x80, 0x80, 5, 0x21, 0, 1, 0, 3, 0xFF, 0xF1, 0x50, 0x80, 3, 0x1F, 0xFC] ++ List.replicate 17 1
def audio2 : List UInt8 := [0, 0, 1, 0xC0, 0, 32, 0x80, 0x80, 5, 0x21, 0, 1, 0, 5, 0xFF, 0xF1, 0x50, 0x80, 3, 0x1F, 0xFC] ++ List.replicate 17 2

def audioRaw : List (List UInt8) := [tsPacket 1 1 0 (audio1.take 20), tsPacket 0 0 1 (audio1.drop 20), tsPacket 1 0 2 audio2]

def audioPackets : List Packet :=
  [⟨true, 256, 0, some 1, some (audio1.take 20)⟩, ⟨false, 256, 1, some 0, some (audio1.drop 20)⟩, ⟨true, 256, 2, some 0, some audio2⟩]

theorem audio_stream : IsStream audioRaw.flatten audioPackets := by
  refine ⟨audioRaw, rfl, by decide +kernel, ?_⟩
  intro b hb
  simp only [audioRaw, List.mem_cons, List.not_mem_nil, or_false] at hb
  rcases hb with rfl | rfl | rfl
  · exact simpleAF_of _ [18678784, 1, 16, 163, 0, 1, 0, 0, 0, 0, 0, 0] (by decide +kernel) (by decide +kernel)
  · exact simpleAF_of _ [18613248, 1, 17, 165, 0, 0, 0, 0, 0, 0, 0, 0] (by decide +kernel) (by decide +kernel)
  · exact simpleAF_of _ [18678784, 1, 18, 145, 0, 0, 0, 0, 0, 0, 0, 0] (by decide +kernel) (by decide +kernel)

theorem audio_carries : Carries audioPackets 256 [audio1, audio2] := by
  unfold Carries; decide +kernel

theorem audio_ok : ∀ v ∈ [audio1, audio2], UnitOk 0xC0 v ∧ unbounded v = false := by
  intro v hv
  simp only [List.mem_cons, List.not_mem_nil, or_false] at hv
  rcases hv with rfl | rfl
  · exact ⟨⟨simplePes_of _ [1, 192, 32, 2, 0, 0, 0, 0, 0, 1, 0, 0, 0, 0, 0, 0, 0, 5] (by decide +kernel) (by decide +kernel),
      ⟨0xC0, 32, some 1, none, audio1.drop 14⟩, by decide +kernel, rfl, by decide +kernel⟩, by decide +kernel⟩
  · exact ⟨⟨simplePes_of _ [1, 192, 32, 2, 0, 0, 0, 0, 0, 1, 0, 0, 0, 0, 0, 0, 0, 5] (by decide +kernel) (by decide +kernel),
      ⟨0xC0, 32, some 2, none, audio2.drop 14⟩, by decide +kernel, rfl, by decide +kernel⟩, by decide +kernel⟩

theorem audio_described : Described .aac audio1 :=
  ⟨by decide +kernel, by decide +kernel, fun pre _ => aac_never_fails pre⟩

example (junk : Hdr) : ∃ s, (PS.init junk).run .aac ((packets audioRaw.flatten).filter (fun t => t.pid == 256)) = .ok s ∧
    List.Forall₂ Delivers s.out (closed [audio1, audio2]) ∧ ∃ s', s.finish .aac = .ok s' ∧ List.Forall₂ Delivers s'.out [audio1, audio2] :=
  pes_delivered_partial .aac junk _ _ audio_stream 256 0xC0 audio1 [audio2] audio_carries (fun v hv => (audio_ok v hv).1) audio_described

example (junk : Hdr) : ∃ s, (PS.init junk).run .aac ((packets audioRaw.flatten).filter (fun t => t.pid == 256)) = .ok s ∧ s.out.map (·.first) = [some 1, some 0] :=
  pes_flags_partial .aac junk _ _ audio_stream 256 0xC0 audio1 [audio2] audio_carries audio_ok audio_described

/-- Three video PES packets without length; only the first is a random access point. -/
def video (x : UInt8) : List UInt8 := [0, 0, 1, 0xE0, 0, 0, 0x80, 0x80, 5, 0x21, 0, 1, 0, x, 0, 0, 0, 1, 0x65, x, x]

def videoFile : List UInt8 := tsPacket 1 1 0 (video 1) ++ tsPacket 1 0 1 (video 3) ++ tsPacket 1 0 2 (video 5)

/-- The results of a run. -/
def runFile (k : Kind) (file : List UInt8) : List (List UInt8 × Option Nat) :=
  match (PS.init hdr0).run k ((packets file).filter (fun t => t.pid == 256)) with
  | .ok s | .error s => s.out.map fun d => (d.payload.drop d.pos, d.first)

/-- C101 fails for the last PES packet when it has no length: nobody calls `End`, and it is not handed on. And without lengths the random access indicator
of the first PES packet is reported for all. -/
theorem unbounded_witness : runFile .info videoFile = [([0, 0, 0, 1, 0x65, 1, 1], some 1), ([0, 0, 0, 1, 0x65, 3, 3], some 1)] := by
  decide +kernel

/-- An audio PES packet with a complete ADTS frame, 28 bytes in all. -/
def shortAudio : List UInt8 := [0, 0, 1, 0xC0, 0, 22, 0x80, 0x80, 5, 0x21, 0, 1, 0, 3, 0xFF, 0xF1, 0x50, 0x80, 1, 0xDF, 0xFC] ++ List.replicate 7 1

/-- C101 fails for audio PES packets of less than 30 bytes at the beginning of a stream. -/
theorem short_audio_witness :
    UnitOk 0xC0 shortAudio ∧ runFile .aac (tsPacket 1 1 0 shortAudio ++ tsPacket 1 1 1 shortAudio ++ tsPacket 1 1 2 audio1) = [(audio1.drop 14, some 1)] := by
  refine ⟨⟨simplePes_of _ [1, 192, 22, 2, 0, 0, 0, 0, 0, 1, 0, 0, 0, 0, 0, 0, 0, 5] (by decide +kernel) (by decide +kernel),
      ⟨0xC0, 22, some 1, none, shortAudio.drop 14⟩, by decide +kernel, rfl, by decide +kernel⟩, by decide +kernel⟩

end Verif.Demux
