import Verif.Render.PropsUrl

/-! C27, C71, C72: durations, identifiers and codec names in the manifest. -/
namespace Verif.Render
open Xml
open Verif.Strings (dec decInt dec_spec appendHex)
open Verif.Strings.Spec (decimal digit)

/-! ### Durations -/

theorem digit_ne_dot {c : Char} (h : (digit c).isSome) : c ≠ '.' := by
  intro e; subst e; revert h; decide

theorem takeWhile_dec {n : Nat} (h : n < 2 ^ 64) (r : Str) :
    (dec n ++ '.' :: r).takeWhile (· ≠ '.') = dec n ∧ (dec n ++ '.' :: r).dropWhile (· ≠ '.') = '.' :: r := by
  have hall : ∀ c ∈ dec n, (decide (c ≠ '.')) = true := by
    intro c hc
    exact decide_eq_true (digit_ne_dot ((dec_spec n h).2.1 c hc))
  constructor
  · rw [List.takeWhile_append_of_pos hall]
    simp
  · rw [List.dropWhile_append_of_pos hall]
    simp

theorem seconds_text {d : Nat} (hd : d < 2 ^ 64) :
    Spec.seconds (durationText d) =
      some (d / 10000000 * 10 ^ (dec (d % 1000000)).length + d % 1000000, (dec (d % 1000000)).length) := by
  have h1 : d / 10000000 < 2 ^ 64 := Nat.lt_of_le_of_lt (Nat.div_le_self _ _) hd
  have h2 : d % 1000000 < 2 ^ 64 := Nat.lt_of_le_of_lt (Nat.mod_le _ _) hd
  have e : durationText d = dec (d / 10000000) ++ '.' :: dec (d % 1000000) := by simp [durationText]
  simp only [Spec.seconds]
  rw [e, (takeWhile_dec h1 _).1, (takeWhile_dec h1 _).2, (dec_spec _ h1).1]
  simp only [Option.bind_some, (dec_spec _ h2).1, Option.map_some]

/-- The number of digits. -/
theorem dec_length {n : Nat} (h : n < 1000000) : ∃ k, (dec n).length = k + 1 ∧ k < 6 ∧ n < 10 ^ (k + 1) ∧ (0 < k → 10 ^ k ≤ n) := by
  obtain ⟨_, _, h3, h4⟩ := dec_spec n (Nat.lt_trans h (by decide))
  obtain ⟨k, hk⟩ : ∃ k, (dec n).length = k + 1 := by
    cases hl : dec n with
    | nil => exact absurd hl h3
    | cons a l => exact ⟨l.length, rfl⟩
  rw [hk, Nat.add_sub_cancel] at h4
  have hlt : k < 6 := by
    rcases Nat.lt_or_ge k 6 with h' | h'
    · exact h'
    · have h5 := h4 (by omega)
      have h6 : 10 ^ 6 ≤ 10 ^ k := Nat.pow_le_pow_right (by decide) h'
      have : (10 : Nat) ^ 6 = 1000000 := by decide
      omega
  refine ⟨k, hk, hlt, ?_, fun h0 => h4 (by omega)⟩
  have := (Nat.length_toDigits_le_iff (b := 10) (n := n) (k := k + 1) (by decide) (by omega)).mp (by
    rw [← dec_digits (Nat.lt_trans h (by decide)), hk]; exact Nat.le_refl _)
  exact this

theorem ticks_arith (k q r g d : Nat) (hk : k < 6) (hd : d = q * 10000000 + r) (hg : r % 1000000 = g) (hlt : g < 10 ^ (k + 1))
    (he : (q * 10 ^ (k + 1) + g) * 10000000 = d * 10 ^ (k + 1)) : r = 0 := by
  subst hd
  have hmul : g * 10000000 = r * 10 ^ (k + 1) := by
    rw [Nat.add_mul, Nat.add_mul, Nat.mul_right_comm] at he
    exact Nat.add_left_cancel he
  have : k = 0 ∨ k = 1 ∨ k = 2 ∨ k = 3 ∨ k = 4 ∨ k = 5 := by omega
  rcases this with rfl | rfl | rfl | rfl | rfl | rfl <;>
  · simp only [Nat.reduceAdd, Nat.reducePow] at hmul hlt
    omega

/-- C27: the text of a duration stands for the duration exactly when the duration is a whole number of seconds; missing: all other
durations, for which the text is wrong. -/
theorem duration_text_partial (d : Nat) (hd : d < 2 ^ 64) : Spec.IsTicks (durationText d) d ↔ d % 10000000 = 0 := by
  simp only [Spec.IsTicks, seconds_text hd]
  obtain ⟨k, hk, h6, hlt, hge⟩ := dec_length (Nat.mod_lt d (by decide : 0 < 1000000))
  rw [hk]
  constructor
  · rintro ⟨n, k', h, he⟩
    simp only [Option.some.injEq, Prod.mk.injEq] at h
    obtain ⟨rfl, rfl⟩ := h
    exact ticks_arith k _ _ _ d h6 (by omega) (by omega) hlt he
  · intro h0
    refine ⟨_, _, rfl, ?_⟩
    have hg : d % 1000000 = 0 := by omega
    have hq : d = d / 10000000 * 10000000 := by omega
    rw [hg, Nat.add_zero]
    rw [Nat.mul_assoc, Nat.mul_comm (10 ^ (k + 1)), ← Nat.mul_assoc, ← hq]

/-- C27, the duration of the presentation in the manifest. -/
theorem mpd_duration_partial (useName : Bool) (vp ap : List Str) (duration : Nat) (streams : List Stream)
    (hd : duration < 2 ^ 64) (hv : ∀ p ∈ vp, Protection p) (ha : ∀ p ∈ ap, Protection p) (hs : ∀ s ∈ streams, s.Ok)
    (hc : 1 + streams.length + (streams.map (·.bitrates.length)).sum < 2 ^ 64) :
    ∃ text, Spec.mpdDuration (mpdDocument { useName := useName, vProtection := vp, aProtection := ap } duration streams) =
      some (t! "PT" ++ text ++ t! "S") ∧ (Spec.IsTicks text duration ↔ duration % 10000000 = 0) := by
  obtain ⟨as, es, hparse, hdur, _, _⟩ := mpd_parse useName vp ap duration streams hd hv ha hs hc
  refine ⟨durationText duration, ?_, duration_text_partial duration hd⟩
  simp only [Spec.mpdDuration, hparse, hdur, durationText]
  simp

/-- C27, a duration that comes out wrong: 2.05 s become 2.5 s. -/
theorem duration_text_witness : durationText 20500000 = t! "2.500000" ∧ ¬ Spec.IsTicks (durationText 20500000) 20500000 := by
  refine ⟨by decide +kernel, ?_⟩
  rw [duration_text_partial _ (by decide)]
  decide

/-- Ten seconds. -/
example : Spec.IsTicks (durationText 100000000) 100000000 := (duration_text_partial _ (by decide)).mpr (by decide)

/-! ### Identifiers -/

theorem dec_inj {a b : Nat} (ha : a < 2 ^ 64) (hb : b < 2 ^ 64) (h : dec a = dec b) : a = b := by
  have h1 := (dec_spec a ha).1
  rw [h, (dec_spec b hb).1] at h1
  exact (Option.some.inj h1).symm

theorem decInt_digits {n : Int} (h : Fits n) : ∀ c ∈ decInt n, (digit c).isSome ∨ c = '-' := by
  intro c hc
  simp only [decInt] at hc
  split at hc
  · rcases List.mem_cons.mp hc with e | hc
    · exact Or.inr e
    · exact Or.inl ((dec_spec _ h).2.1 c hc)
  · exact Or.inl ((dec_spec _ h).2.1 c hc)

theorem no_underscore {n : Int} (h : Fits n) : '_' ∉ decInt n := by
  intro hm
  have := decInt_digits h _ hm
  revert this
  decide

theorem decInt_inj {a b : Int} (ha : Fits a) (hb : Fits b) (h : decInt a = decInt b) : a = b := by
  have hminus : ∀ n : Int, Fits n → ∀ t, dec n.natAbs ≠ '-' :: t := by
    intro n hn t e
    have := (dec_spec _ hn).2.1 '-' (by rw [e]; exact List.mem_cons_self)
    revert this; decide
  simp only [decInt] at h
  split at h <;> split at h
  · have := dec_inj ha hb (List.cons.inj h).2; omega
  · exact absurd h.symm (hminus b hb _)
  · exact absurd h (hminus a ha _)
  · have := dec_inj ha hb h; omega

theorem split_at {a b c d : Str} (ha : '_' ∉ a) (hc : '_' ∉ c) (h : a ++ '_' :: b = c ++ '_' :: d) : a = c ∧ b = d := by
  induction a generalizing c with
  | nil =>
    cases c with
    | nil => exact ⟨rfl, (List.cons.inj h).2⟩
    | cons x c => exact absurd ((List.cons.inj h).1 ▸ List.mem_cons_self) hc
  | cons x a ih =>
    cases c with
    | nil => exact absurd ((List.cons.inj h).1 ▸ List.mem_cons_self) ha
    | cons y c =>
      obtain ⟨e, h⟩ := List.cons.inj h
      obtain ⟨r1, r2⟩ := ih (fun m => ha (List.mem_cons_of_mem _ m)) (fun m => hc (List.mem_cons_of_mem _ m)) h
      exact ⟨by rw [e, r1], r2⟩

theorem id_stream {i j : Int} (hi : Fits i) (hj : Fits j) {b c : Bitrate} (h : b.id i = c.id j) :
    i = j ∧ b.isVideo = c.isVideo := by
  cases b with
  | video b _ _ _ => cases c with
    | video c _ _ _ =>
      simp only [Bitrate.id, List.append_assoc, List.singleton_append] at h
      exact ⟨decInt_inj hi hj (split_at (no_underscore hi) (no_underscore hj) h).1, rfl⟩
    | audio _ _ _ _ =>
      simp only [Bitrate.id, List.append_assoc, List.singleton_append] at h
      exact absurd (by rw [← h]; simp) (no_underscore hj)
  | audio _ _ _ _ => cases c with
    | video c _ _ _ =>
      simp only [Bitrate.id, List.append_assoc, List.singleton_append] at h
      exact absurd (by rw [h]; simp) (no_underscore hi)
    | audio _ _ _ _ => exact ⟨decInt_inj hi hj h, rfl⟩

theorem id_rate {i : Int} {b c : Bitrate} (hi : Fits i) (hb : b.Ok) (hc : c.Ok) (hv : b.isVideo = true) (h : b.id i = c.id i) :
    b.rate = c.rate := by
  cases b with
  | audio _ _ _ _ => cases hv
  | video b _ _ _ => cases c with
    | audio _ _ _ _ => have := (id_stream hi hi h).2; cases this
    | video c _ _ _ =>
      simp only [Bitrate.id, List.append_assoc, List.singleton_append] at h
      exact decInt_inj hb.1 hc.1 (split_at (no_underscore hi) (no_underscore hi) h).2

/-- C71: the identifiers of the representations of a manifest are different from each other when the bit rates of a stream are different
(they are keys of a map) and no audio stream has two of them; missing: audio streams with several bitrates. -/
theorem mpd_ids_unique_partial (useName : Bool) (vp ap : List Str) (duration : Nat) (streams : List Stream)
    (hd : duration < 2 ^ 64) (hv : ∀ p ∈ vp, Protection p) (ha : ∀ p ∈ ap, Protection p) (hs : ∀ s ∈ streams, s.Ok)
    (hc : 1 + streams.length + (streams.map (·.bitrates.length)).sum < 2 ^ 64)
    (hr : ∀ s ∈ streams, (s.bitrates.map (·.rate)).Nodup) (hone : ∀ s ∈ streams, s.isVideo = false → s.bitrates.length ≤ 1) :
    ∃ sets, Spec.readMpd (mpdDocument { useName := useName, vProtection := vp, aProtection := ap } duration streams) = some sets ∧
      (sets.map fun s => s.representations.map (·.id)).flatten.Nodup := by
  refine ⟨_, mpd_read useName vp ap duration streams hd hv ha hs hc, ?_⟩
  simp only [List.map_map, Function.comp_def, setOf]
  have hfit : ∀ p ∈ streams.zipIdx 1, Fits (p.2 : Int) := by
    intro p hp
    have := List.snd_lt_of_mem_zipIdx hp
    exact fits_of (by omega) (by omega)
  have hin : ∀ p ∈ streams.zipIdx 1, (p.1.bitrates.map (Bitrate.id p.2)).Nodup := by
    intro p hp
    have hm := List.fst_mem_of_mem_zipIdx hp
    obtain ⟨_, o2, _, _⟩ := hs _ hm
    by_cases hvv : p.1.isVideo = true
    · have h1 := hr _ hm
      rw [List.Nodup, List.pairwise_map] at h1 ⊢
      refine h1.imp_of_mem ?_
      intro a b ha hb hne he
      exact hne (id_rate (hfit p hp) (o2 a ha).1 (o2 b hb).1 (by rw [(o2 a ha).2, hvv]) he)
    · have := hone _ hm (by simpa using hvv)
      match hbs : p.1.bitrates with
      | [] => simp
      | [b] => simp
      | a :: b :: l => rw [hbs] at this; simp at this
  have hcross : (streams.zipIdx 1).Pairwise fun p q => ∀ x ∈ p.1.bitrates.map (Bitrate.id p.2), ∀ y ∈ q.1.bitrates.map (Bitrate.id q.2), x ≠ y := by
    have hne : (streams.zipIdx 1).Pairwise fun p q => p.2 ≠ q.2 := by
      have h := List.nodup_range' (s := 1) (n := streams.length) (step := 1)
      rw [← List.zipIdx_map_snd 1 streams, List.Nodup, List.pairwise_map] at h
      exact h
    refine hne.imp_of_mem ?_
    intro p q hp hq hne x hx y hy e
    obtain ⟨b, _, rfl⟩ := List.mem_map.mp hx
    obtain ⟨c, _, rfl⟩ := List.mem_map.mp hy
    have := (id_stream (hfit p hp) (hfit q hq) e).1
    omega
  rw [List.Nodup, List.pairwise_flatten]
  refine ⟨?_, ?_⟩
  · intro l hl
    obtain ⟨p, hp, rfl⟩ := List.mem_map.mp hl
    exact hin p hp
  · rw [List.pairwise_map]
    exact hcross

/-- C71, an audio stream with two bitrates: both representations have the same identifier. -/
theorem mpd_ids_witness :
    (Spec.readMpd (mpdDocument {} 40 [⟨t! "audio", false, 3, [.audio 64000 48000 2 16, .audio 96000 48000 2 16], [(0, 20), (20, 20)]⟩])).map
      (fun sets => sets.map fun s => s.representations.map (·.id)) = some [[t! "1", t! "1"]] := by
  rw [show ({} : Mpd) = { useName := true, vProtection := [], aProtection := [] } from rfl,
    mpd_read true [] [] 40 _ (by decide) (by simp) (by simp) (by decide +kernel) (by decide)]
  decide +kernel

/-- The hypotheses are met. -/
example : ∃ sets, Spec.readMpd (mpdDocument { vProtection := [demoProtection] } 80 demo) = some sets ∧
    (sets.map fun s => s.representations.map (·.id)).flatten.Nodup :=
  mpd_ids_unique_partial true [demoProtection] [] 80 demo (by decide) demo_protection (by simp) demo_ok (by decide) (by decide) (by decide)

/-! ### Codecs -/

theorem compatibility_zero : ∀ b : UInt8, compatibility b = b ↔ b = 0 := by
  have : ∀ n : Fin 256, compatibility (UInt8.ofNat n) = UInt8.ofNat n ↔ UInt8.ofNat n = 0 := by
    decide +kernel
  intro b
  have h := this ⟨b.toNat, b.toNat_lt⟩
  simpa using h

theorem videoCodec_text (data : List UInt8) :
    ∃ t, videoCodec data = t! "avc1." ++ t ∧ Verif.Strings.Spec.unhex t = some [data.getD 3 0, compatibility (data.getD 4 0), data.getD 5 0] := by
  obtain ⟨t, h1, _, h3⟩ := Verif.Strings.hex_text (t! "avc1.") [data.getD 3 0, compatibility (data.getD 4 0), data.getD 5 0]
  refine ⟨t, ?_, h3⟩
  rw [← h1]
  simp [videoCodec, appendHex]

/-- C72: `data` is the codec data of a bitrate: two bytes with the length of the sequence parameter set, then the set. The name of the codec
is the one of RFC 6381 exactly when the compatibility flags are zero; missing: all other flags, for which it is wrong. -/
theorem codec_name_partial (l0 l1 b0 profile flags level : UInt8) (rest : List UInt8) :
    Spec.IsAvcName (videoCodec (l0 :: l1 :: b0 :: profile :: flags :: level :: rest)) (b0 :: profile :: flags :: level :: rest) ↔ flags = 0 := by
  obtain ⟨t, h1, h2⟩ := videoCodec_text (l0 :: l1 :: b0 :: profile :: flags :: level :: rest)
  simp only [List.getD_cons_succ, List.getD_cons_zero] at h2
  have hz := compatibility_zero flags
  constructor
  · rintro ⟨t', h1', h2'⟩
    rw [h1, List.append_cancel_left_eq] at h1'
    rw [← h1', h2] at h2'
    simp at h2'
    exact hz.mp h2'
  · intro h
    refine ⟨t, h1, ?_⟩
    rw [h2, hz.mpr h]
    simp

/-- C72, constrained baseline (flags 0x40 or 0xC0) is announced as flags 01. -/
theorem codec_name_witness : videoCodec [0, 10, 0x67, 0x42, 0xC0, 0x1E, 0, 0] = t! "avc1.42011E" := by decide +kernel

/-- High profile, level 3.1. -/
example : Spec.IsAvcName (videoCodec [0, 10, 0x67, 0x64, 0x00, 0x1F]) [0x67, 0x64, 0x00, 0x1F] :=
  (codec_name_partial 0 10 0x67 0x64 0x00 0x1F []).mpr rfl

/-- C72: the codec a client finds for each representation, be it that of the adaptation set or its own, is the one of its bitrate. -/
theorem mpd_codecs (useName : Bool) (vp ap : List Str) (duration : Nat) (streams : List Stream)
    (hd : duration < 2 ^ 64) (hv : ∀ p ∈ vp, Protection p) (ha : ∀ p ∈ ap, Protection p) (hs : ∀ s ∈ streams, s.Ok)
    (hc : 1 + streams.length + (streams.map (·.bitrates.length)).sum < 2 ^ 64) :
    (Spec.readMpd (mpdDocument { useName := useName, vProtection := vp, aProtection := ap } duration streams)).map
      (fun sets => sets.map fun s => s.representations.map fun r => (r.bandwidth, r.codecs)) =
      some (streams.map fun s => s.bitrates.map fun b => (decInt b.rate, b.codec)) := by
  rw [mpd_read useName vp ap duration streams hd hv ha hs hc]
  simp only [Option.map_some, List.map_map, Function.comp_def, setOf]
  exact congrArg some (zipIdx_map (fun s : Stream => s.bitrates.map fun b => (decInt b.rate, b.codec)) streams 1)

/-- The hypotheses are met: two codecs in one stream. -/
example : (Spec.readMpd (mpdDocument { vProtection := [demoProtection] } 80 demo)).map
    (fun sets => (sets.map fun s => s.representations.map fun r => r.codecs).flatten) =
      some [t! "mp4a.40.2", t! "avc1.64001F", t! "avc1.640128"] := by
  rw [mpd_read true [demoProtection] [] 80 demo (by decide) demo_protection (by simp) demo_ok (by decide)]
  decide +kernel

end Verif.Render
