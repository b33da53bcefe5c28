import Verif.Esds.Props

namespace Verif.Esds
open Verif.BitStream (Byte Mem RErr RState rInit getbits nextbits skipbits)
open Verif.H264 (Parser u many opt flag At Reads at_init reads_u bits_length reads_many)
open Verif.H264.Spec (bits flagBits Bytes)
open Spec

/-! ### Files of others -/

/-- C88 (partial: one decoder specific descriptor with a configuration of an object type below 31 and with an indexed sampling frequency, a predefined SL configuration, and
no IPI pointer, IP identification or QoS descriptor after it). The `esds` box of any file, with lengths of any form, with or without the optional parts, and with anything
else after it, is read to the object type, the sampling frequency and the channels in it. -/
theorem esds_read_partial (form : Nat) (e : Spec.Es) (a : AudioConfig) (ok : e.ok) (hf : DescOk form (esBits e)) (aok : a.ok)
    (hinfo : Bytes e.decoder.info (audioBits a)) (tail : List Bool) (hsize : 12 + (desc 3 form (esBits e)).length / 8 < 2 ^ 32)
    (ht : e.others ++ tail = [] ∨ ∃ t rest, t < 256 ∧ t ∉ [0x12, 0x26, 0x0C] ∧ e.others ++ tail = bits 8 t ++ rest)
    (body : List Byte) (hb : Bytes body (esdsBits form e ++ tail)) (hl : body.length < 2 ^ 29)
    (hil : e.decoder.info.length < 2 ^ 29) (beyond beyond' : Mem) :
    ∃ x, parseAudioBody beyond beyond' body = .ok x ∧ x.objectType = a.objectType ∧ x.sampleRate = a.frequency ∧ x.channels = a.channels := by
  obtain ⟨h1, h2, h3⟩ := aacMembers_values a
  exact ⟨_, body_read form e a ok hf aok hinfo tail hsize ht body hb hl hil beyond beyond', h1, h2, h3⟩

/-- HE-AAC (object type 5) at 22050 Hz with two channels, lengths of one, two and three bytes, a URL, a profile level, and padding. -/
def exampleEs : Spec.Es :=
  { id := 1, dependsOn := some 7, url := some [0x61, 0x62], ocr := none, priority := 3, decoderForm := 2,
    decoder := ⟨0x40, 5, false, 6144, 64000, 48000, 3, [0x2b, 0x91, 0x88], [0x29]⟩, slForm := 1, slPredefined := 2, others := [] }
def exampleAudio : AudioConfig := ⟨5, 7, 2, ⟨false, none, false⟩, [false, false, true, true, false, false, false, true, false, false, false]⟩
def exampleBody : List Byte :=
  [0, 0, 0, 51, 0x65, 0x73, 0x64, 0x73, 0, 0, 0, 0, 3, 37, 0, 1, 0xC3, 0, 7, 2, 0x61, 0x62, 4, 0x80, 23, 0x40, 0x15, 0, 0x18, 0, 0, 0, 0xFA, 0, 0, 0, 0xBB, 0x80,
    5, 0x80, 0x80, 3, 0x2b, 0x91, 0x88, 0x14, 1, 0x29, 6, 1, 2, 0, 0]

theorem exampleInfo : Bytes exampleEs.decoder.info (audioBits exampleAudio) := by decide +kernel
theorem exampleAudioOk : exampleAudio.ok := ⟨by decide, by decide, by decide, by decide, by simp [exampleAudio], by decide⟩
theorem exampleEsOk : exampleEs.ok := by
  refine ⟨by decide, by decide, ?_, ?_, ?_, ⟨by decide, by decide +kernel, by decide +kernel⟩, ⟨by decide, by decide +kernel, by decide +kernel⟩,
    ⟨by decide, by decide, by decide, by decide, by decide, ⟨by decide, by decide +kernel, by decide +kernel⟩⟩, by decide, by decide⟩ <;> simp [exampleEs]

/-- The hypotheses of the theorem are met by these bytes, with two more bytes after the box. -/
example : ∃ x, parseAudioBody (fun _ => 9) (fun _ => 9) exampleBody = .ok x ∧ x.objectType = 5 ∧ x.sampleRate = 22050 ∧ x.channels = 2 :=
  esds_read_partial 1 exampleEs exampleAudio exampleEsOk ⟨by decide, by decide +kernel, by decide +kernel⟩ exampleAudioOk exampleInfo (bits 16 0)
    (by decide +kernel) (Or.inr ⟨0, bits 8 0, by decide, by decide, by decide +kernel⟩) exampleBody (by decide +kernel) (by decide) (by decide) _ _

/-- The bits of an ES descriptor of a stream without decoder specific information, as of MP3 (object type 0x6B). -/
def mp3Bits : List Bool :=
  desc 3 1 (bits 16 0 ++ bits 8 0 ++ desc 4 1 (bits 8 0x6B ++ bits 6 5 ++ bits 1 0 ++ bits 1 1 ++ bits 24 0 ++ bits 32 128000 ++ bits 32 128000) ++ desc 6 1 (bits 8 2))
def mp3Body : List Byte :=
  [0, 0, 0, 35, 0x65, 0x73, 0x64, 0x73, 0, 0, 0, 0, 3, 21, 0, 0, 0, 4, 13, 0x6B, 0x15, 0, 0, 0, 0, 1, 0xF4, 0, 0, 1, 0xF4, 0, 6, 1, 2]

/-- C88: a pointer that was never set is used. -/
theorem no_info_witness : Bytes mp3Body (bits 32 35 ++ bits 32 0x65736473 ++ bits 32 0 ++ mp3Bits) ∧
    parseAudioBody (fun _ => 0) (fun _ => 0) mp3Body = .error .badPointer := by decide +kernel

/-- C88: an explicit sampling frequency (code 15, then 24 bits; here 47000 Hz) is not read. -/
theorem explicit_frequency_witness : Bytes [0x17, 0x80, 0x5B, 0xCC, 0x10] (bits 5 2 ++ (bits 4 15 ++ (bits 24 47000 ++ (bits 4 2 ++ bits 3 0)))) ∧
    (aacInfo (rInit [0x17, 0x80, 0x5B, 0xCC, 0x10] (fun _ => 0))).toOption.isNone := by decide +kernel

/-- C88: object types of 32 and more (31, then 6 bits; here 42, at 44100 Hz with two channels) are not read: 32 bits are taken for the type. -/
theorem escape_witness : Bytes [0xF9, 0x48, 0x80, 0, 0, 0x00, 0] (bits 5 31 ++ (bits 6 10 ++ (bits 4 4 ++ (bits 4 4 ++ List.replicate 37 false)))) ∧
    (aacInfo (rInit [0xF9, 0x48, 0x80, 0, 0, 0x00, 0] (fun _ => 0))).toOption.map (fun x => (x.1.objectType, x.1.sampleRate, x.1.channels)) =
      some (0x29100000, 96000, 0) := by decide +kernel

/-! ### Written files -/

theorem pack_bytes : ∀ (n : Nat) (b : List Bool), b.length = 8 * n → Bytes (pack b) b ∧ (pack b).length = n := by
  intro n
  induction n with
  | zero =>
    intro b hb
    obtain rfl := List.length_eq_zero_iff.1 hb
    exact ⟨rfl, rfl⟩
  | succ n ih =>
    intro b hb
    match b, hb with
    | a :: b :: c :: d :: e :: f :: g :: h :: rest, hb =>
      obtain ⟨h1, h2⟩ := ih rest (by simp only [List.length_cons] at hb; omega)
      constructor
      · show (pack (a :: b :: c :: d :: e :: f :: g :: h :: rest)).flatMap _ = _
        rw [pack, List.flatMap_cons, h1]
        have : ∀ a b c d e f g h : Bool, bits 8 (BitVec.ofNat 8 (128 * a.toNat + 64 * b.toNat + 32 * c.toNat + 16 * d.toNat + 8 * e.toNat + 4 * f.toNat +
          2 * g.toNat + h.toNat)).toNat = [a, b, c, d, e, f, g, h] := by decide +kernel
        rw [this]; rfl
      · rw [pack, List.length_cons, h2]

/-- The configuration that is written: no core coder, no extension, frames of 1024. -/
def plainConfig (objectType frequencyIndex channelConfiguration : Nat) : AudioConfig :=
  ⟨objectType, frequencyIndex, channelConfiguration, ⟨false, none, false⟩, []⟩

theorem plainConfig_bits (objectType i c : Nat) (ht : objectType = 1 ∨ objectType = 2) :
    audioBits (plainConfig objectType i c) = bits 5 objectType ++ (bits 4 i ++ (bits 4 c ++ (gaBits ⟨false, none, false⟩ ++ []))) := by
  have h : (plainConfig objectType i c).objectType = 1 ∨ (plainConfig objectType i c).objectType = 2 := ht
  rw [audioBits, if_pos h]; rfl

/-- The descriptor that is written: stream 0, object type 0x40, an audio stream. -/
def writtenEs (info : List (BitVec 8)) (bitRate : Nat) : Spec.Es :=
  { id := 0, dependsOn := none, url := none, ocr := none, priority := 0, decoderForm := 4,
    decoder := ⟨0x40, 5, false, 850, bitRate + 100000, bitRate, 4, info, []⟩, slForm := 4, slPredefined := 2, others := [] }

theorem desc_length (tag k : Nat) (p : List Bool) : (desc tag k p).length = 8 + 8 * k + p.length := by
  simp only [desc, List.length_append, bits_length, lengthBits_length]; omega

theorem decoder_length (info : List (BitVec 8)) (bitRate : Nat) : (decoderBits (writtenEs info bitRate).decoder).length = 8 * (18 + info.length) := by
  simp only [decoderBits, writtenEs, List.length_append, bits_length, desc_length, byteBits_length, flagBits, List.length_singleton, List.flatMap_nil, List.length_nil]
  omega

theorem es_length (info : List (BitVec 8)) (bitRate : Nat) : (esBits (writtenEs info bitRate)).length = 8 * (32 + info.length) := by
  simp only [esBits, List.length_append, bits_length, desc_length, decoder_length, flagBits, List.length_singleton, ifPresent]
  simp only [writtenEs, List.length_nil]
  omega

/-- The bits of the descriptor that the writer makes. -/
theorem putEs_bits (info : List (BitVec 8)) (bitRate : Nat) :
    (putEs info 0x40 5 0 850 (bitRate + 100000) bitRate).flatMap field = desc 3 4 (esBits (writtenEs info bitRate)) := by
  have hf : ∀ x, field x = bits x.1 x.2 := fun _ => rfl
  have hm : (info.map fun x => (8, x.toNat)).flatMap field = byteBits info := by
    rw [List.flatMap_map, byteBits]; rfl
  rw [desc, es_length, Nat.mul_div_cancel_left _ (by omega)]
  simp only [putEs, List.flatMap_append, putDescriptor_bits, hm, List.flatMap_cons, List.flatMap_nil, hf]
  have hdec : decoderBits (writtenEs info bitRate).decoder = bits 8 64 ++ (bits 6 5 ++ (bits 1 0 ++ (bits 1 1 ++ (bits 24 850 ++ (bits 32 (bitRate + 100000) ++
      (bits 32 bitRate ++ (bits 8 5 ++ (lengthBits 4 info.length ++ byteBits info)))))))) := by
    rw [decoderBits, show desc 5 (writtenEs info bitRate).decoder.infoForm (byteBits (writtenEs info bitRate).decoder.info) =
      bits 8 5 ++ (lengthBits 4 info.length ++ byteBits info) by
        show desc 5 4 (byteBits info) = _; rw [desc, byteBits_length, Nat.mul_div_cancel_left _ (by omega)]]
    show bits 8 64 ++ (bits 6 5 ++ (flagBits false ++ (bits 1 1 ++ (bits 24 850 ++ (bits 32 (bitRate + 100000) ++ (bits 32 bitRate ++
      ((bits 8 5 ++ (lengthBits 4 info.length ++ byteBits info)) ++ []))))))) = _
    rw [List.append_nil]; rfl
  have hes : esBits (writtenEs info bitRate) = bits 16 0 ++ (bits 1 0 ++ (bits 1 0 ++ (bits 1 0 ++ (bits 5 0 ++
      (bits 8 4 ++ (lengthBits 4 (18 + info.length) ++ (decoderBits (writtenEs info bitRate).decoder ++ (bits 8 6 ++ (lengthBits 4 1 ++ bits 8 2))))))))) := by
    rw [esBits, show desc 4 (writtenEs info bitRate).decoderForm (decoderBits (writtenEs info bitRate).decoder) = bits 8 4 ++ (lengthBits 4 (18 + info.length) ++
      decoderBits (writtenEs info bitRate).decoder) by rw [desc, decoder_length, Nat.mul_div_cancel_left _ (by omega)]; rfl]
    show bits 16 0 ++ (flagBits false ++ (flagBits false ++ (flagBits false ++ (bits 5 0 ++ ([] ++ ([] ++ ([] ++
      ((bits 8 4 ++ (lengthBits 4 (18 + info.length) ++ decoderBits (writtenEs info bitRate).decoder)) ++ (desc 6 4 (bits 8 2) ++ []))))))))) = _
    rw [List.nil_append, List.nil_append, List.nil_append, List.append_nil, desc, bits_length, List.append_assoc, List.append_assoc]
    rfl
  rw [hes, hdec, show 3 + 1 + (13 + 5 + info.length) + 10 = 32 + info.length by omega, show 13 + 5 + info.length = 18 + info.length by omega]
  generalize bits 32 (bitRate + 100000) = x1
  generalize bits 32 bitRate = x2
  generalize bits 24 850 = x3
  simp only [List.append_assoc, List.append_nil]

/-- C87 (partial: object types 1 and 2). The `esds` box that the writer makes for an audio stream is the one of the standard for its object type, sampling frequency and channels, with
the bit rates it was given. -/
theorem esds_written_partial (objectType i c bitRate : Nat) (ht : objectType = 1 ∨ objectType = 2) (hi : i < 13) (hc : c < 8) (hr : bitRate + 100000 < 2 ^ 32) :
    ∃ info bytes, audioEsds objectType (frequencies.getD i 0) (channelCounts.getD c 0) bitRate = some bytes ∧
      Bytes info (audioBits (plainConfig objectType i c)) ∧ Bytes bytes (esdsBits 4 (writtenEs info bitRate)) := by
  have hi' : ∀ i < 13, Verif.TsMux.sampleRates.idxOf (frequencies.getD i 0) = i := by decide
  have hc' : ∀ c < 8, Verif.TsMux.channelCodes.idxOf (channelCounts.getD c 0) = c := by decide
  have hput : putAac objectType (frequencies.getD i 0) (channelCounts.getD c 0) =
      some [(5, objectType), (4, i), (1, 0), (3, c), (1, 0), (1, 0), (1, 0)] := by rw [putAac, if_pos ht, hi' i hi, hc' c hc]
  have hbits : ([(5, objectType), (4, i), (1, 0), (3, c), (1, 0), (1, 0), (1, 0)] : List (Nat × Nat)).flatMap field = audioBits (plainConfig objectType i c) := by
    have h4 : bits 4 c = bits 1 0 ++ bits 3 c := by
      have : ∀ i < 8, bits 4 i = bits 1 0 ++ bits 3 i := by decide
      exact this _ hc
    rw [plainConfig_bits _ _ _ ht, h4]
    have hf : ∀ x, field x = bits x.1 x.2 := fun _ => rfl
    simp only [gaBits, delayBits, List.flatMap_cons, List.flatMap_nil, hf, flag_bits, List.append_assoc, List.append_nil]
    rfl
  have hilen : (audioBits (plainConfig objectType i c)).length = 8 * 2 := by
    rw [plainConfig_bits _ _ _ ht]
    simp [gaBits, delayBits, bits_length, flagBits]
  obtain ⟨p1, p2⟩ := pack_bytes 2 _ hilen
  obtain ⟨info, hinfo⟩ : ∃ info, info = pack (audioBits (plainConfig objectType i c)) := ⟨_, rfl⟩
  rw [← hinfo] at p1 p2
  refine ⟨info, pack (esdsBits 4 (writtenEs info bitRate)), ?_, p1, ?_⟩
  · rw [audioEsds, hput]
    simp only [hbits, ← hinfo, Nat.mod_eq_of_lt hr, putEs_bits]
    have hl : (desc 3 4 (esBits (writtenEs info bitRate))).length = 8 * (37 + info.length) := by rw [desc_length, es_length]; omega
    rw [(pack_bytes _ _ hl).2]
    congr 2
    rw [esdsBits, hl, Nat.mul_div_cancel_left _ (by omega)]
    simp only [List.flatMap_cons, List.flatMap_nil, List.append_nil, List.append_assoc]
    rfl
  · refine (pack_bytes (49 + info.length) _ ?_).1
    simp only [esdsBits, List.length_append, bits_length, desc_length, es_length]
    omega

example : audioEsds 2 44100 2 128000 = some [0, 0, 0, 51, 0x65, 0x73, 0x64, 0x73, 0, 0, 0, 0, 3, 0x80, 0x80, 0x80, 34, 0, 0, 0, 4, 0x80, 0x80, 0x80, 20, 0x40, 0x15, 0, 3, 0x52,
    0, 3, 0x7A, 0xA0, 0, 1, 0xF4, 0, 5, 0x80, 0x80, 0x80, 2, 0x12, 0x10, 6, 0x80, 0x80, 0x80, 1, 2] := by decide +kernel

/-- C87 (partial: object types 1 and 2). What the writer makes is read back to the object type, the rate and the channels. -/
theorem esds_roundtrip_partial (objectType rate channels bitRate : Nat) (ht : objectType = 1 ∨ objectType = 2) (hi : rate ∈ frequencies)
    (hc : channels ∈ channelCounts) (hr : bitRate + 100000 < 2 ^ 32) (beyond beyond' : Mem) :
    ∃ bytes x, audioEsds objectType rate channels bitRate = some bytes ∧ parseAudioBody beyond beyond' bytes = .ok x ∧
      x.objectType = objectType ∧ x.sampleRate = rate ∧ x.channels = channels := by
  obtain ⟨i, hi1, hi2⟩ : ∃ i < 13, rate = frequencies.getD i 0 := by
    obtain ⟨i, hi1, hi2⟩ := List.mem_iff_getElem.1 hi
    exact ⟨i, hi1, by rw [List.getD, List.getElem?_eq_getElem hi1, ← hi2]; rfl⟩
  obtain ⟨c, hc1, hc2⟩ : ∃ c < 8, channels = channelCounts.getD c 0 := by
    obtain ⟨i, hi1, hi2⟩ := List.mem_iff_getElem.1 hc
    exact ⟨i, hi1, by rw [List.getD, List.getElem?_eq_getElem hi1, ← hi2]; rfl⟩
  obtain ⟨info, bytes, h1, h2, h3⟩ := esds_written_partial objectType i c bitRate ht hi1 hc1 hr
  have hlen : info.length = 2 := by
    have := congrArg List.length h2
    have e : (info.flatMap fun x => bits 8 x.toNat).length = 8 * info.length := byteBits_length info
    rw [e] at this
    rw [plainConfig_bits _ _ _ ht] at this
    simp [gaBits, delayBits, bits_length, flagBits] at this
    omega
  have hb : bytes.length = 51 := by
    have := congrArg List.length h3
    have e : (bytes.flatMap fun x => bits 8 x.toNat).length = 8 * bytes.length := byteBits_length bytes
    rw [e] at this
    simp only [esdsBits, List.length_append, bits_length, desc_length, es_length] at this
    omega
  have hd3 : (desc 3 4 (esBits (writtenEs info bitRate))).length / 8 = 39 := by rw [desc_length, es_length, hlen]
  have hd := decoder_length info bitRate
  obtain ⟨m1, m2, m3⟩ := aacMembers_values (plainConfig objectType i c)
  refine ⟨bytes, aacMembers (plainConfig objectType i c), by rw [hi2, hc2]; exact h1, ?_, m1, by rw [m2, hi2]; rfl, by rw [m3, hc2]; rfl⟩
  refine body_read 4 (writtenEs info bitRate) _ ⟨by simp [writtenEs], by simp [writtenEs], by simp [writtenEs], by simp [writtenEs], by simp [writtenEs], ⟨by simp [writtenEs], ?_, ?_⟩,
    ⟨by simp [writtenEs], by rw [bits_length]; simp [writtenEs], by rw [bits_length]; decide⟩, ⟨by simp [writtenEs], by simp [writtenEs], by simp [writtenEs], hr, ?_,
      ⟨by simp [writtenEs], ?_, ?_⟩⟩, by simp [writtenEs], by simp [writtenEs]⟩
    ⟨by decide, ?_, ?_⟩ ⟨?_, ?_, hi1, hc1, by simp [plainConfig], fun h => absurd ht h⟩ h2 [] (by rw [hd3]; decide) (Or.inl rfl) bytes (by rw [List.append_nil]; exact h3)
    (by rw [hb]; decide) (by show info.length < _; rw [hlen]; decide) beyond beyond'
  · rw [hd, hlen]; simp [writtenEs]
  · rw [hd, hlen]; decide
  · show bitRate < _; omega
  · show (byteBits info).length / 8 < _; rw [byteBits_length, hlen]; simp [writtenEs]
  · show (byteBits info).length / 8 < _; rw [byteBits_length, hlen]; decide
  · rw [es_length, hlen]; decide
  · rw [es_length, hlen]; decide
  · show 1 ≤ objectType; omega
  · show objectType < 31; omega

example : (1 = 1 ∨ 1 = 2) ∧ 48000 ∈ frequencies ∧ 6 ∈ channelCounts ∧ 384000 + 100000 < 2 ^ 32 := by decide

/-! ### Codec private data -/

/-- C89 (partial: object types 1 and 2 with frames of 1024, no core coder, no extension). For codec private data the box of the same configuration is written. -/
theorem private_data_partial (a : AudioConfig) (aok : a.ok) (ht : a.objectType = 1 ∨ a.objectType = 2) (info : List Byte)
    (hinfo : Bytes info (audioBits a)) (hl : info.length < 2 ^ 29) (hg : a.ga = ⟨false, none, false⟩) (hm : a.more = []) (bitRate : Nat) (hr : bitRate + 100000 < 2 ^ 32)
    (beyond : Mem) : ∃ bytes, audioEsdsFrom beyond info bitRate = some bytes ∧ Bytes bytes (esdsBits 4 (writtenEs info bitRate)) := by
  obtain ⟨s', h1⟩ := aac_gives a aok _ (at_init _ _ hinfo hl beyond)
  obtain ⟨m1, m2, m3⟩ := aacMembers_values a
  obtain ⟨info', bytes, k1, k2, k3⟩ := esds_written_partial a.objectType a.frequencyIndex a.channelConfiguration bitRate ht aok.2.2.1 aok.2.2.2.1 hr
  have hp : plainConfig a.objectType a.frequencyIndex a.channelConfiguration = a := by rw [plainConfig, ← hg, ← hm]
  rw [hp] at k2
  have he : info' = info := by
    have e : Verif.BitStream.Spec.bytesBits info' = Verif.BitStream.Spec.bytesBits info := by
      have h2 : info'.flatMap (fun x => bits 8 x.toNat) = info.flatMap (fun x => bits 8 x.toNat) := k2.trans hinfo.symm
      exact h2
    exact Verif.BitStream.bytesBits_inj e
  rw [he] at k3
  refine ⟨bytes, ?_, k3⟩
  rw [audioEsdsFrom, h1]
  simp only [m1, m2, m3]
  exact k1

example : Bytes [0x12, 0x10] (audioBits (plainConfig 2 4 2)) ∧ (plainConfig 2 4 2).ga = ⟨false, none, false⟩ := ⟨by decide +kernel, rfl⟩

/-- C89: frames of 960 samples become frames of 1024: the flag is dropped. -/
theorem private_data_witness : Bytes [0x12, 0x14] (audioBits ⟨2, 4, 2, ⟨true, none, false⟩, []⟩) ∧
    audioEsdsFrom (fun _ => 0) [0x12, 0x14] 128000 = audioEsdsFrom (fun _ => 0) [0x12, 0x10] 128000 := by decide +kernel

/-- C89: the configuration of spectral band replication that follows in the private data is dropped. -/
theorem private_data_sbr_witness : audioEsdsFrom (fun _ => 0) [0x13, 0x90, 0x56, 0xE5, 0xA0] 64000 = audioEsdsFrom (fun _ => 0) [0x13, 0x90] 64000 := by decide +kernel

end Verif.Esds
