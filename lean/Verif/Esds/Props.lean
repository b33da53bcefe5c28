import Verif.Esds.Lemmas

namespace Verif.Esds
open Verif.BitStream (Byte Mem RErr RState rInit getbits nextbits skipbits)
open Verif.H264 (Parser u many opt flag At Reads at_init reads_u bits_length reads_many)
open Verif.H264.Spec (bits flagBits Bytes)
open Spec

/-! ### Lengths -/

/-- C43 (reading). A length of any number of bytes, below 2^31, is read, wherever it is and whatever follows. -/
theorem length_read (tag k n : Nat) (ht : tag < 256) (hk : 1 ≤ k) (hn : n < 128 ^ k) (h31 : n < 2 ^ 31) (s : RState) (rest : List Bool)
    (hs : At s ((bits 8 tag ++ lengthBits k n) ++ rest)) : ∃ s', descriptor s = .ok ((tag, n), s') ∧ At s' rest :=
  descriptor_to tag k n rest ht hk hn h31 s hs

example : Bytes [5, 0x80, 0x81, 0x02, 7] ((bits 8 5 ++ lengthBits 3 130) ++ bits 8 7) := by decide +kernel

/-- The bits of a descriptor that the writer puts. -/
theorem putDescriptor_bits (tag n : Nat) : (putDescriptor tag n).flatMap field = bits 8 tag ++ lengthBits 4 n := by
  have e : ∀ m < 128, bits 8 (m + 128) = flagBits true ++ bits 7 m := fun m hm => (byte_split true m hm).symm
  have e0 : ∀ m < 128, bits 8 m = flagBits false ++ bits 7 m := fun m hm => (byte_split false m hm).symm
  have hf : ∀ x, field x = bits x.1 x.2 := fun _ => rfl
  simp only [putDescriptor, List.flatMap_cons, List.flatMap_nil, hf]
  rw [e _ (Nat.mod_lt _ (by omega)), e _ (Nat.mod_lt _ (by omega)), e _ (Nat.mod_lt _ (by omega)), e0 _ (Nat.mod_lt _ (by omega))]
  simp [lengthBits, List.range_succ]

/-- C43 (partial: below 2^28). What the writer puts for a descriptor is read as its tag and length. -/
theorem length_roundtrip_partial (tag n : Nat) (ht : tag < 256) (hn : n < 2 ^ 28) (s : RState) (rest : List Bool)
    (hs : At s ((putDescriptor tag n).flatMap field ++ rest)) : ∃ s', descriptor s = .ok ((tag, n), s') ∧ At s' rest := by
  rw [putDescriptor_bits] at hs
  exact length_read tag 4 n ht (by omega) (by omega) (by omega) s rest hs

example : Bytes [4, 0x80, 0x80, 0x81, 0x02] ((putDescriptor 4 130).flatMap field) := by decide +kernel

/-- C43: a length of 2^28 is written as 0. -/
theorem length_witness : (putDescriptor 4 (2 ^ 28)).flatMap field = (putDescriptor 4 0).flatMap field := by decide +kernel

/-! ### Reading the box -/

/-- The reader gives this value; where it stops does not matter. -/
def Gives {α : Type} (p : Parser α) (b : List Bool) (v : α) : Prop := ∀ s : RState, At s b → ∃ s', p s = .ok (v, s')

theorem ReadsTo.gives {α : Type} {p : Parser α} {b rest : List Bool} {v : α} (h : ReadsTo p b rest v) : Gives p (b ++ rest) v := by
  intro s hs
  obtain ⟨s', h1, _⟩ := h s hs
  exact ⟨s', h1⟩

theorem Gives.bind {α β : Type} {p : Parser α} {f : α → Parser β} {b rest : List Bool} {v : α} {w : β} (h : ReadsTo p b rest v)
    (k : Gives (f v) rest w) : Gives (p >>= f) (b ++ rest) w := by
  intro s hs
  obtain ⟨s', h1, h2⟩ := h s hs
  obtain ⟨s'', k1⟩ := k s' h2
  refine ⟨s'', ?_⟩
  show StateT.bind p f s = _
  simp only [StateT.bind, h1]
  exact k1

theorem Gives.look {α β : Type} {p : Parser α} {f : α → Parser β} {rest : List Bool} {v : α} {w : β} (h : ReadsTo p [] rest v)
    (k : Gives (f v) rest w) : Gives (p >>= f) rest w := Gives.bind (b := []) h k

theorem Gives.get {β : Type} {f : RState → Parser β} {b : List Bool} {w : β}
    (h : ∀ s : RState, b.length ≤ 8 * s.len → Gives (f s) b w) : Gives (get >>= f) b w := by
  intro s hs
  have := hs.pos
  obtain ⟨s', h1⟩ := h s (by omega) s hs
  exact ⟨s', h1⟩

theorem opt_to {α : Type} {p : Parser α} {rest : List Bool} (c : Bool) (b : List Bool) (v : Option α) (h : ∀ x, v = some x → c = true ∧ ReadsTo p b rest x)
    (h0 : v = none → c = false ∧ b = []) : ReadsTo (opt c p) b rest v := by
  cases v with
  | none =>
    obtain ⟨rfl, rfl⟩ := h0 rfl
    exact ReadsTo.pure none rest
  | some x =>
    obtain ⟨rfl, hx⟩ := h x rfl
    exact ReadsTo.map some hx

/-- What comes next: the end, or a byte that is not one of these tags. -/
def NotNext (tags : List Nat) (b : List Bool) : Prop := b = [] ∨ ∃ t rest, t < 256 ∧ t ∉ tags ∧ b = bits 8 t ++ rest

theorem tagged_none {α : Type} (tag : Nat) (p : Parser α) (tags : List Nat) (ht : tag ∈ tags) (b : List Bool) (h : NotNext tags b) :
    ReadsTo (tagged tag p) [] b none := by
  refine ReadsTo.look (atEnd_to b) ?_
  rcases h with rfl | ⟨t, rest, h1, h2, rfl⟩
  · simp only [decide_true, if_true]
    exact ReadsTo.pure _ _
  · have hne : decide (bits 8 t ++ rest = []) = false := by simp [bits]
    rw [hne]
    simp only [Bool.false_eq_true, if_false]
    refine ReadsTo.look (peek_to t h1 rest) ?_
    rw [if_neg (by rintro rfl; exact h2 ht)]
    exact ReadsTo.pure _ _

theorem tagged_some {α : Type} (tag : Nat) (p : Parser α) (b rest : List Bool) (v : α) (ht : tag < 256) (h : ReadsTo p (bits 8 tag ++ b) rest v) :
    ReadsTo (tagged tag p) (bits 8 tag ++ b) rest (some v) := by
  refine ReadsTo.look (atEnd_to _) ?_
  have hne : decide ((bits 8 tag ++ b) ++ rest = []) = false := by simp [bits]
  rw [hne]
  simp only [Bool.false_eq_true, if_false]
  refine ReadsTo.look (v := tag) ?_ ?_
  · rw [List.append_assoc]; exact peek_to tag ht _
  · rw [if_pos rfl]
    exact ReadsTo.map some h

/-- The decoder specific information, then something else. -/
theorem dsiLoop_to (fuel k : Nat) (l : List (BitVec 8)) (t : Nat) (rest : List Bool) (h : DescOk k (byteBits l)) (ht : t < 256) (h5 : t ≠ 5) :
    ReadsTo (dsiLoop (fuel + 2)) (desc 5 k (byteBits l)) (bits 8 t ++ rest) [⟨5, l.length, l.map BitVec.toNat⟩] := by
  refine ReadsTo.look (v := 5) ?_ ?_
  · rw [desc, List.append_assoc]; exact peek_to 5 (by omega) _
  rw [if_pos rfl]
  rw [← List.append_nil (desc 5 k (byteBits l))]
  refine ReadsTo.bind (extension_to k l _ h) ?_
  refine ReadsTo.bind (b := []) (c := []) (v := []) ?_ (ReadsTo.pure _ _)
  refine ReadsTo.look (peek_to t ht rest) ?_
  rw [if_neg h5]
  exact ReadsTo.pure _ _

/-- The members of the decoder configuration. -/
def decoderMembers (d : Spec.Decoder) : DecoderConfig :=
  ⟨d.objectType, d.streamType, d.upStream.toNat, d.bufferSizeDB, d.maxBitrate, d.avgBitrate, [⟨5, d.info.length, d.info.map BitVec.toNat⟩]⟩

/-- The part of the decoder configuration before the profile levels. -/
def decoderHead (d : Spec.Decoder) : List Bool :=
  bits 8 d.objectType ++ (bits 6 d.streamType ++ (flagBits d.upStream ++ (flagBits true ++ (bits 24 d.bufferSizeDB ++ (bits 32 d.maxBitrate ++
    (bits 32 d.avgBitrate ++ desc 5 d.infoForm (byteBits d.info)))))))

theorem decoderBits_eq (d : Spec.Decoder) : decoderBits d = decoderHead d ++ d.levels.flatMap fun l => desc 0x14 1 (bits 8 l) := by
  simp [decoderBits, decoderHead]

theorem decoder_to (d : Spec.Decoder) (ok : d.ok) (k n t : Nat) (rest : List Bool) (hk : 1 ≤ k) (hn : n < 128 ^ k) (h31 : n < 2 ^ 31) (ht : t < 256)
    (h5 : t ≠ 5) : ReadsTo decoderConfig (bits 8 4 ++ (lengthBits k n ++ decoderHead d)) (bits 8 t ++ rest) (decoderMembers d) := by
  obtain ⟨o1, o2, o3, o4, o5, o6⟩ := ok
  rw [← List.append_assoc]
  refine ReadsTo.bind (descriptor_to 4 k n _ (by omega) hk hn h31) ?_
  rw [decoderHead]
  refine ReadsTo.bind (u_to 8 _ (by omega) (by omega) o1 _) ?_
  refine ReadsTo.bind (u_to 6 _ (by omega) (by omega) o2 _) ?_
  refine ReadsTo.bind (u1_to _ _) ?_
  refine ReadsTo.bind (u1_to _ _) ?_
  refine ReadsTo.bind (u_to 24 _ (by omega) (by omega) o3 _) ?_
  refine ReadsTo.bind (u_to 32 _ (by omega) (by omega) o4 _) ?_
  refine ReadsTo.bind (u_to 32 _ (by omega) (by omega) o5 _) ?_
  refine get_to _ fun s hs => ?_
  have : 8 ≤ 8 * s.len := by
    rw [List.length_append, bits_length] at hs; omega
  obtain ⟨f, hf⟩ : ∃ f, 8 * s.len + 1 = f + 2 := ⟨8 * s.len - 1, by omega⟩
  rw [hf]
  exact ReadsTo.map _ (dsiLoop_to f d.infoForm d.info t rest o6 ht h5)

theorem sl_to (k p : Nat) (rest : List Bool) (ok : DescOk k (bits 8 p)) (h1 : 1 ≤ p) (h2 : p < 256) : ReadsTo slConfig (desc 6 k (bits 8 p)) rest p := by
  obtain ⟨o1, o2, o3⟩ := ok
  rw [desc, ← List.append_assoc]
  refine ReadsTo.bind (descriptor_to 6 k _ _ (by omega) o1 o2 o3) ?_
  rw [← List.append_nil (bits 8 p)]
  refine ReadsTo.bind (u_to 8 p (by omega) (by omega) h2 _) ?_
  have : decide (p = 0) = false := decide_eq_false (by omega)
  rw [this]
  exact ReadsTo.bind (b := []) (c := []) (v := none) (ReadsTo.pure none _) (ReadsTo.pure _ _)

/-- The members of an ES descriptor. After profile levels nothing more is read. -/
def esMembers (e : Spec.Es) : Es :=
  ⟨e.id, e.dependsOn, e.url.map (·.map BitVec.toNat), e.ocr, e.priority, some (decoderMembers e.decoder), if e.decoder.levels = [] then some e.slPredefined else none⟩

theorem counted_to (l : List (BitVec 8)) (rest : List Bool) (h : l.length < 256) : ReadsTo counted (bits 8 l.length ++ byteBits l) rest (l.map BitVec.toNat) :=
  ReadsTo.bind (u_to 8 _ (by omega) (by omega) h _) (bytes_to l rest)

theorem isSome_toNat {α : Type} (o : Option α) : decide (o.isSome.toNat ≠ 0) = o.isSome := by cases o <;> rfl

/-- An ES descriptor and whatever follows it. -/
theorem es_gives (form : Nat) (e : Spec.Es) (ok : e.ok) (hf : DescOk form (esBits e)) (tail : List Bool)
    (ht : NotNext [0x12, 0x26, 0x0C] (e.others ++ tail)) : Gives esDescriptor (desc 3 form (esBits e) ++ tail) (esMembers e) := by
  obtain ⟨o1, o2, o3, o4, o5, o6, o7, o8, o9, o10⟩ := ok
  obtain ⟨f1, f2, f3⟩ := hf
  rw [desc, ← List.append_assoc, List.append_assoc]
  refine Gives.bind (descriptor_to 3 form _ _ (by omega) f1 f2 f3) ?_
  rw [esBits]
  simp only [List.append_assoc]
  refine Gives.bind (u_to 16 _ (by omega) (by omega) o1 _) ?_
  refine Gives.bind (u1_to _ _) ?_
  refine Gives.bind (u1_to _ _) ?_
  refine Gives.bind (u1_to _ _) ?_
  refine Gives.bind (u_to 5 _ (by omega) (by omega) o2 _) ?_
  simp only [isSome_toNat]
  refine Gives.bind (v := e.dependsOn) (opt_to _ _ _ (fun x hx => ⟨by simp [hx], ?_⟩) (fun hx => by simp [hx, ifPresent])) ?_
  · simp only [hx, ifPresent]
    exact u_to 16 x (by omega) (by omega) (o3 x hx) _
  refine Gives.bind (v := e.url.map (·.map BitVec.toNat)) (opt_to _ _ _ (fun x hx => ?_) (fun hx => ?_)) ?_
  · obtain ⟨l, hl, rfl⟩ := Option.map_eq_some_iff.1 hx
    refine ⟨by simp [hl], ?_⟩
    simp only [hl, ifPresent]
    exact counted_to l _ (o4 l hl)
  · rw [Option.map_eq_none_iff] at hx; simp [hx, ifPresent]
  refine Gives.bind (v := e.ocr) (opt_to _ _ _ (fun x hx => ⟨by simp [hx], ?_⟩) (fun hx => by simp [hx, ifPresent])) ?_
  · simp only [hx, ifPresent]
    exact u_to 16 x (by omega) (by omega) (o5 x hx) _
  obtain ⟨d1, d2, d3⟩ := o6
  refine Gives.get fun s hs => ?_
  rw [desc, List.append_assoc] at hs ⊢
  have : 8 ≤ 8 * s.len := by rw [List.length_append, bits_length] at hs; omega
  refine Gives.look (v := []) ?_ ?_
  · refine ReadsTo.look (v := 4) (peek_to 4 (by omega) _) ?_
    rw [if_neg (by omega)]
    exact ReadsTo.pure _ _
  refine Gives.look (v := none) (tagged_none 0x43 _ [0x43] (by simp) _ (Or.inr ⟨4, _, by omega, by simp, rfl⟩)) ?_
  -- the decoder configuration, up to the profile levels
  have key : ∀ rest' : List Bool, ∀ t, t < 256 → t ≠ 5 → ∀ r, rest' = bits 8 t ++ r →
      ReadsTo (tagged 4 decoderConfig) (bits 8 4 ++ (lengthBits e.decoderForm ((decoderBits e.decoder).length / 8) ++ decoderHead e.decoder)) rest'
        (some (decoderMembers e.decoder)) := by
    intro rest' t t1 t2 r hr
    subst hr
    exact tagged_some 4 _ _ _ _ (by omega) (decoder_to e.decoder o8 _ _ t r d1 d2 d3 t1 t2)
  cases hlv : e.decoder.levels with
  | nil =>
    have hd : decoderBits e.decoder = decoderHead e.decoder := by rw [decoderBits_eq, hlv]; simp
    have hk := key (desc 6 e.slForm (bits 8 e.slPredefined) ++ (e.others ++ tail)) 6 (by omega) (by omega) _ (by rw [desc, List.append_assoc])
    rw [hd] at hk ⊢
    rw [← List.append_assoc, List.append_assoc (bits 8 4), List.append_assoc (lengthBits _ _)]
    rw [← List.append_assoc (bits 8 4), ← List.append_assoc (bits 8 4 ++ _), List.append_assoc (bits 8 4)]
    refine Gives.bind hk ?_
    refine Gives.bind (v := some e.slPredefined) ?_ ?_
    · rw [desc]
      exact tagged_some 6 _ _ _ _ (by omega) (by rw [← desc]; exact sl_to _ _ _ o7 o9 o10)
    refine Gives.look (v := none) (tagged_none _ _ _ (by simp) _ ht) ?_
    refine Gives.look (v := none) (tagged_none _ _ _ (by simp) _ ht) ?_
    refine Gives.look (v := none) (tagged_none _ _ _ (by simp) _ ht) ?_
    intro s _
    exact ⟨s, by simp only [esMembers, hlv, if_true]; rfl⟩
  | cons l ls =>
    obtain ⟨r, hr⟩ : ∃ r, (e.decoder.levels.flatMap fun l => desc 0x14 1 (bits 8 l)) ++ (desc 6 e.slForm (bits 8 e.slPredefined) ++ (e.others ++ tail)) =
        bits 8 0x14 ++ r := by rw [hlv, List.flatMap_cons, desc]; simp only [List.append_assoc]; exact ⟨_, rfl⟩
    have hk := key (bits 8 0x14 ++ r) 0x14 (by omega) (by omega) _ rfl
    have hn : NotNext [0x12, 0x26, 0x0C, 6] (bits 8 0x14 ++ r) := Or.inr ⟨0x14, r, by omega, by simp, rfl⟩
    have e1 : bits 8 4 ++ (lengthBits e.decoderForm ((decoderBits e.decoder).length / 8) ++ decoderBits e.decoder ++ (desc 6 e.slForm (bits 8 e.slPredefined) ++
        (e.others ++ tail))) = (bits 8 4 ++ (lengthBits e.decoderForm ((decoderBits e.decoder).length / 8) ++ decoderHead e.decoder)) ++ (bits 8 0x14 ++ r) := by
      rw [← hr]
      conv_lhs => rw [show lengthBits e.decoderForm ((decoderBits e.decoder).length / 8) ++ decoderBits e.decoder =
        lengthBits e.decoderForm ((decoderBits e.decoder).length / 8) ++ (decoderHead e.decoder ++ e.decoder.levels.flatMap fun l => desc 0x14 1 (bits 8 l)) by
          rw [← decoderBits_eq]]
      simp only [List.append_assoc]
    rw [e1]
    refine Gives.bind hk ?_
    refine Gives.look (v := none) (tagged_none _ _ _ (by simp) _ hn) ?_
    refine Gives.look (v := none) (tagged_none _ _ _ (by simp) _ hn) ?_
    refine Gives.look (v := none) (tagged_none _ _ _ (by simp) _ hn) ?_
    refine Gives.look (v := none) (tagged_none _ _ _ (by simp) _ hn) ?_
    intro s _
    exact ⟨s, by simp only [esMembers, hlv]; rfl⟩

/-- What is read from an AudioSpecificConfig. -/
def aacMembers (a : AudioConfig) : Aac :=
  if a.objectType = 1 ∨ a.objectType = 2 then
    if a.ga.shortFrames then ⟨a.objectType, a.frequency, a.channels, 1, 0, 0, 0⟩
    else ⟨a.objectType, a.frequency, a.channels, 0, a.ga.coreCoderDelay.isSome.toNat, a.ga.coreCoderDelay.getD 0, a.ga.extension.toNat⟩
  else ⟨a.objectType, a.frequency, a.channels, 0, 0, 0, 0⟩

theorem mapped_to (n i v : Nat) (l : List Nat) (h1 : 1 ≤ n) (h2 : n ≤ 32) (hi : i < 2 ^ n) (hv : l[i]? = some v) (rest : List Bool) :
    ReadsTo (mapped n l) (bits n i) rest v := by
  rw [← List.append_nil (bits n i)]
  refine ReadsTo.bind (u_to n i h1 h2 hi _) ?_
  rw [hv]
  exact ReadsTo.pure _ _

theorem aac_gives (a : AudioConfig) (ok : a.ok) : Gives aacInfo (audioBits a) (aacMembers a) := by
  obtain ⟨o1, o2, o3, o4, o5, o6⟩ := ok
  have hrate : Verif.TsMux.sampleRates[a.frequencyIndex]? = some a.frequency := by
    have : ∀ i < 13, Verif.TsMux.sampleRates[i]? = some (frequencies.getD i 0) := by decide
    exact this _ o3
  have hch : Verif.TsMux.channelCodes[a.channelConfiguration]? = some a.channels := by
    have : ∀ i < 8, Verif.TsMux.channelCodes[i]? = some (channelCounts.getD i 0) := by decide
    exact this _ o4
  have h4 : bits 4 a.channelConfiguration = bits 1 0 ++ bits 3 a.channelConfiguration := by
    have : ∀ i < 8, bits 4 i = bits 1 0 ++ bits 3 i := by decide
    exact this _ o4
  rw [audioBits, h4]
  refine Gives.bind (u_to 5 _ (by omega) (by omega) (by omega) _) ?_
  refine Gives.look (v := a.objectType) ?_ ?_
  · rw [if_neg (by omega)]; exact ReadsTo.pure _ _
  refine Gives.bind (mapped_to 4 _ _ _ (by omega) (by omega) (by omega) hrate _) ?_
  rw [List.append_assoc]
  refine Gives.bind (u_to 1 0 (by omega) (by omega) (by omega) _) ?_
  refine Gives.bind (mapped_to 3 _ _ _ (by omega) (by omega) (by omega) hch _) ?_
  by_cases ht : a.objectType = 1 ∨ a.objectType = 2
  · rw [if_pos ht, if_pos ht, gaBits]
    simp only [List.append_assoc]
    refine Gives.bind (u1_to _ _) ?_
    cases hs : a.ga.shortFrames with
    | true =>
      simp only [Bool.toNat_true]
      rw [if_neg (by omega)]
      obtain ⟨two, rest, hsplit, hlen⟩ : ∃ two rest : List Bool, (delayBits a.ga.coreCoderDelay) ++
          (flagBits a.ga.extension ++ a.more) = two ++ rest ∧ two.length = 2 := by
        refine ⟨List.take 2 _, List.drop 2 _, (List.take_append_drop 2 _).symm, ?_⟩
        rw [List.length_take, List.length_append, List.length_append]
        have : 1 ≤ (delayBits a.ga.coreCoderDelay).length := by
          cases a.ga.coreCoderDelay <;> simp [delayBits, flagBits]
        simp only [flagBits, List.length_singleton] at this ⊢
        omega
      rw [hsplit]
      have := skip_to two rest
      rw [hlen] at this
      refine Gives.bind this ?_
      intro s _
      exact ⟨s, by simp only [aacMembers, if_pos ht, hs, if_true]; rfl⟩
    | false =>
      simp only [Bool.toNat_false, if_true]
      have hm : aacMembers a = ⟨a.objectType, a.frequency, a.channels, 0, a.ga.coreCoderDelay.isSome.toNat, a.ga.coreCoderDelay.getD 0, a.ga.extension.toNat⟩ := by
        rw [aacMembers, if_pos ht, hs]; rfl
      rw [hm]
      cases hd : a.ga.coreCoderDelay with
      | none =>
        simp only [delayBits]
        refine Gives.bind (u1_to _ _) ?_
        refine Gives.look (v := none) (opt_to _ _ _ (fun x hx => by simp at hx) (fun _ => ⟨rfl, rfl⟩)) ?_
        refine Gives.bind (u1_to _ _) ?_
        intro s _
        exact ⟨s, rfl⟩
      | some d =>
        simp only [delayBits, List.append_assoc]
        refine Gives.bind (u1_to _ _) ?_
        refine Gives.bind (v := some d) (opt_to _ _ _ (fun x hx => ⟨rfl, ?_⟩) (fun hx => by simp at hx)) ?_
        · obtain rfl : d = x := by simpa using hx
          exact u_to 14 _ (by omega) (by omega) (o5 _ hd) _
        refine Gives.bind (u1_to _ _) ?_
        intro s _
        exact ⟨s, rfl⟩
  · rw [if_neg ht, if_neg ht, List.nil_append]
    have h3 := o6 ht
    obtain ⟨three, rest, hsplit, hlen⟩ : ∃ three rest : List Bool, a.more = three ++ rest ∧ three.length = 3 :=
      ⟨List.take 3 _, List.drop 3 _, (List.take_append_drop 3 _).symm, by rw [List.length_take]; omega⟩
    rw [hsplit]
    have := skip_to three rest
    rw [hlen] at this
    refine Gives.bind this ?_
    intro s _
    exact ⟨s, by simp only [aacMembers, if_neg ht]; rfl⟩

theorem aacMembers_values (a : AudioConfig) : (aacMembers a).objectType = a.objectType ∧ (aacMembers a).sampleRate = a.frequency ∧
    (aacMembers a).channels = a.channels := by
  unfold aacMembers
  split
  · split <;> exact ⟨rfl, rfl, rfl⟩
  · exact ⟨rfl, rfl, rfl⟩

/-- The body of an audio entry is read to the members of its configuration. -/
theorem body_read (form : Nat) (e : Spec.Es) (a : AudioConfig) (ok : e.ok) (hf : DescOk form (esBits e)) (aok : a.ok)
    (hinfo : Bytes e.decoder.info (audioBits a)) (tail : List Bool) (hsize : 12 + (desc 3 form (esBits e)).length / 8 < 2 ^ 32)
    (ht : NotNext [0x12, 0x26, 0x0C] (e.others ++ tail)) (body : List Byte) (hb : Bytes body (esdsBits form e ++ tail)) (hl : body.length < 2 ^ 29)
    (hil : e.decoder.info.length < 2 ^ 29) (beyond beyond' : Mem) : parseAudioBody beyond beyond' body = .ok (aacMembers a) := by
  have hat := at_init body _ hb hl beyond
  rw [esdsBits] at hat
  simp only [List.append_assoc] at hat
  have hp : Gives (do
      let _ ← u 32
      let _ ← u 32
      skip 32
      esDescriptor : Parser Es) (bits 32 (12 + (desc 3 form (esBits e)).length / 8) ++ (bits 32 0x65736473 ++ (bits 32 0 ++
        (desc 3 form (esBits e) ++ tail)))) (esMembers e) := by
    refine Gives.bind (u_to 32 _ (by omega) (by omega) hsize _) ?_
    refine Gives.bind (u_to 32 _ (by omega) (by omega) (by omega) _) ?_
    have := skip_to (bits 32 0) (desc 3 form (esBits e) ++ tail)
    rw [bits_length] at this
    refine Gives.bind this ?_
    exact es_gives form e ok hf tail ht
  obtain ⟨s', h1⟩ := hp _ hat
  rw [parseAudioBody]
  simp only [h1, esMembers, decoderMembers, List.getLast?_singleton]
  have hmap : (e.decoder.info.map BitVec.toNat).map (BitVec.ofNat 8) = e.decoder.info := by
    rw [List.map_map]
    conv_rhs => rw [← List.map_id e.decoder.info]
    apply List.map_congr_left
    intro x _
    simp
  have hne : e.decoder.info.length ≠ 0 := by
    intro h0
    rw [List.length_eq_zero_iff] at h0
    rw [h0] at hinfo
    have := congrArg List.length hinfo
    simp only [List.flatMap_nil, List.length_nil, audioBits, List.length_append, bits_length] at this
    omega
  rw [if_neg hne, hmap]
  obtain ⟨s'', h2⟩ := aac_gives a aok _ (at_init _ _ hinfo hil beyond')
  rw [h2]

end Verif.Esds
