import Verif.Edit.Props2
/-
C110, C111, C112: concrete files and witnesses.
-/
namespace Verif.Edit
open Verif.Reader (Track Sample Reader TrackBoxes next move moveStreams readAll remaining defaultStream openTrack holds_of)
open Verif.Reader.Spec (FileHolds Holds Inside pres HasTimes Timed Synced)
open Spec (kept before bytesOf Part Sound Decodable Continues usable Real FirstEarliest Good Input)

/-- One chunk of `n` samples of 10 bytes at `at`. -/
def smAt (n at_ : Nat) : Tables.SampleManager := ⟨[(n, ⟨n, 1, 0, 1⟩)], 10, n, [], [at_]⟩

def noTrack : Track := ⟨smAt 0 0, [], [], false, [], false, [], 0, 0, 1, 0, 0, false, false⟩

def track (b : TrackBoxes) : Track := (openTrack b).getD noTrack

def videoStream : Stream := { video := true, sps := [103, 1, 2], pps := [104, 9], avg := 400000 }
def audioStream : Stream := { audio := (2, 48000, 2), avg := 400000 }

/-- A file of tracks. -/
def fileOf (ss : List Stream) (bs : List TrackBoxes) : File := ⟨ss, { streams := bs.map fun b => (track b, 0), mdatEnd := 1000 }, List.range 1000⟩

/-- Twelve pictures of 40 ms at 100. -/
def video12 : TrackBoxes := { sm := smAt 12 100, stts := [1, 12, 40], stss := some [2, 1, 7], scale := 1000, visual := true }

/-- Audio frames of 40 ms at 220. -/
def audioN (n : Nat) : TrackBoxes := { sm := smAt n 220, stts := [1, n, 40], scale := 1000 }

def fileA : File := fileOf [videoStream, audioStream] [video12, audioN 30]

def sampleOf (at_ comp dur : Nat) (sync : Nat → Bool) (n : Nat) : Sample := ⟨at_ + 10 * n, 10, comp * n, comp * n, dur, sync n, n⟩

def samplesA : List (List Sample) := [(List.range 12).map (sampleOf 100 400000 400000 (fun n => n == 0 || n == 6)), (List.range 30).map (sampleOf 220 400000 400000 (fun _ => true))]

theorem soundA : Sound fileA samplesA where
  holds := .cons (holds_of _ _ (by decide +kernel) (by decide +kernel)) (.cons (holds_of _ _ (by decide +kernel) (by decide +kernel)) .nil)
  inside := by unfold Inside; decide +kernel
  size := by decide
  streams := rfl

theorem decodableA : Decodable samplesA := by unfold Decodable; decide +kernel

/-- Positions after the move. -/
theorem part_of (f : File) (xss : List (List Sample)) (start : Nat) (discard : Bool) (ps : List Nat)
    (h : (move f.reader start (defaultStream f.reader)).map (fun r => r.streams.map (·.2)) = some ps) (i : Nat) (t : Track) (xs : List Sample)
    (hp : Part f xss start discard i t xs) : ∃ p all, ps[i]? = some p ∧ trackOf f i = some t ∧ xss[i]? = some all ∧ xs = kept start discard t (all.drop p) := by
  obtain ⟨r, p, all, h1, h2, h3, h4⟩ := hp
  rw [h1] at h
  have hps := Option.some.inj h
  refine ⟨p, all, by rw [← hps, List.getElem?_map, h2]; rfl, ?_, h3, h4⟩
  obtain ⟨ht, _⟩ := move_tracks _ _ _ _ h1
  have : (r.streams.map (·.1))[i]? = some t := by rw [List.getElem?_map, h2]; rfl
  rw [ht, List.getElem?_map] at this
  exact this

theorem goodA (start stop : Nat) (hr : (start, stop) = (0, 0) ∨ (start, stop) = (3000000, 4500000)) : Good 2 false ⟨fileA, samplesA, start, stop⟩ where
  sound := soundA
  decodable := decodableA
  parts := by
    intro i t xs hi hp
    simp only at hp ⊢
    have hmove : (move fileA.reader start (defaultStream fileA.reader)).map (fun r => r.streams.map (·.2)) = some (if start = 0 then [0, 0] else [6, 6]) := by
      rcases hr with hr | hr <;> (simp only [Prod.mk.injEq] at hr; rw [hr.1]; decide +kernel)
    obtain ⟨p, all, h1, h2, h3, h4⟩ := part_of _ _ _ _ _ hmove i t xs hp
    rcases hr with hr | hr <;> simp only [Prod.mk.injEq] at hr <;> rw [hr.1] at h1 h4 <;> rw [hr.2] <;>
      (match i, hi with
        | 0, _ =>
          have ht : t = track video12 := (Option.some.inj h2).symm
          have hp' := (Option.some.inj h1).symm
          have ha := (Option.some.inj h3).symm
          rw [h4, hp', ha, ht]
          refine ⟨?_, ?_⟩
          · unfold FirstEarliest
            intro x hx
            revert hx
            revert x
            decide +kernel
          · decide +kernel
        | 1, _ =>
          have ht : t = track (audioN 30) := (Option.some.inj h2).symm
          have hp' := (Option.some.inj h1).symm
          have ha := (Option.some.inj h3).symm
          rw [h4, hp', ha, ht]
          refine ⟨?_, ?_⟩
          · unfold FirstEarliest
            intro x hx
            revert hx
            revert x
            decide +kernel
          · decide +kernel)

/-- The hypotheses of the theorems are met: a whole file, then a part of it; the part follows where the audio of the whole file has ended (1.2 s). -/
example : (∀ inp ∈ [(⟨fileA, samplesA, 0, 0⟩ : Input), ⟨fileA, samplesA, 3000000, 4500000⟩], Good 2 false inp) ∧
    ((addAll false none [(fileA, 0, 0), (fileA, 3000000, 4500000)]).map fun outs => outs.map fun o => o.map fun a => (a.stream, a.comp / 100000, a.dec / 100000)) =
      some [(List.range 12).map (fun n => (0, 4 * n, 4 * n)) ++ (List.range 30).map (fun n => (1, 4 * n, 4 * n)),
        (List.range 6).map (fun n => (0, 120 + 4 * n, 120 + 4 * n)) ++ (List.range 6).map (fun n => (1, 120 + 4 * n, 120 + 4 * n))] ∧
    ((addAll false none [(fileA, 3000000, 4500000)]).map fun outs => outs.map fun o => o.map fun a => a.body.headD 0) = some [[160, 170, 180, 190, 200, 210, 280, 290, 300, 310, 320, 330]] := by
  refine ⟨?_, by decide +kernel, by decide +kernel⟩
  intro inp hi
  simp only [List.mem_cons, List.not_mem_nil, or_false] at hi
  rcases hi with rfl | rfl
  · exact goodA 0 0 (Or.inl rfl)
  · exact goodA _ _ (Or.inr rfl)

/-- The hypotheses of `whole_file_partial` are met. -/
example : defaultStream fileA.reader = 0 ∧ Timed video12 (track video12) [(12, 40)] ∧ Synced video12 [0, 6] ∧ HasTimes fileA.reader ∧
    (∀ x xs, samplesA[0]? = some (x :: xs) → (x :: xs).Pairwise (fun a b => a.decoding < b.decoding) ∧
      ∀ (i : Nat) s, fileA.reader.streams[i]? = some s → i ≠ 0 → s.1.hasStss = false ∧ s.1.ltc = false ∧ pres (track video12) x ≤ s.1.offset) := by
  refine ⟨by decide +kernel, ⟨rfl, rfl, by decide, by decide, by decide +kernel, by decide, by decide +kernel⟩, ⟨rfl, by decide, by decide, by decide, by decide⟩, ?_, ?_⟩
  · intro s hs _
    rcases List.mem_cons.1 hs with rfl | hs
    · decide +kernel
    · rcases List.mem_cons.1 hs with rfl | hs
      · decide +kernel
      · simp at hs
  · intro x xs hx
    have hx' := Option.some.inj hx
    refine ⟨by rw [← hx']; decide +kernel, ?_⟩
    intro i s hs hi
    have hhead : x = sampleOf 100 400000 400000 (fun n => n == 0 || n == 6) 0 := by
      have : ((List.range 12).map (sampleOf 100 400000 400000 (fun n => n == 0 || n == 6))).head? = some x := by rw [hx']; rfl
      exact (Option.some.inj this).symm
    match i, hi with
    | 1, _ =>
      have : (track (audioN 30), 0) = s := Option.some.inj hs
      rw [← this, hhead]
      decide +kernel
    | i + 2, _ => exact absurd hs (by simp [fileA, fileOf])

/-- The hypotheses of `joined_files_fit_partial` are met. -/
example : (addAll false none [(fileA, 0, 0), (fileA, 0, 0)]).isSome = true ∧ ∀ s ∈ fileA.streams, s.valid = true → Real s := by
  refine ⟨by decide +kernel, ?_⟩
  intro s hs _
  rcases List.mem_cons.1 hs with rfl | hs
  · simp [Real, videoStream]
  · rcases List.mem_cons.1 hs with rfl | hs
    · simp [Real, audioStream]
    · simp at hs

/-! ### witnesses -/

/-- C110 fails for short files: the search for the first times wants 20 samples without an earlier time and throws at the end of the file. This file has 27 samples. -/
theorem short_file_refused_witness : addAll false none [(fileOf [videoStream, audioStream] [video12, audioN 15], 0, 0)] = none := by decide +kernel

/-- Pictures in the order I P B B, presented one frame after they are decoded. -/
def videoB : TrackBoxes :=
  { sm := smAt 12 100, stts := [1, 12, 40], ctts := some [9, 1, 40, 1, 120, 2, 0, 1, 40, 1, 120, 2, 0, 1, 40, 1, 120, 2, 0], stss := some [3, 1, 5, 9], scale := 1000, visual := true }
def fileB : File := fileOf [videoStream, audioStream] [videoB, audioN 30]

/-- C110 fails for whole files whose video has a composition delay: without any range the first audio frame (at 220) is missing. -/
theorem first_audio_lost_witness : ((addAll false none [(fileB, 0, 0)]).map fun outs => outs.map fun o => ((Spec.ofStream o 1).length, ((Spec.ofStream o 1).head?).map fun a => a.body.headD 0)) = some [(29, some 230)] := by
  decide +kernel

/-- C111 fails for decoding times: presentation and decoding times move by different amounts, so that pictures are presented before they are decoded (the first B picture: presented at 40 ms, decoded at 80 ms). -/
theorem decoded_after_presented_witness : ((addAll false none [(fileB, 0, 0)]).map fun outs => outs.map fun o => ((Spec.ofStream o 0).take 4).map fun a => (a.comp, a.dec)) =
    some [[(0, 0), (1200000, 400000), (400000, 800000), (800000, 1200000)]] := by decide +kernel

/-- An open group of pictures: I P I B P, the B picture is presented before the second I picture and lies behind 30 audio frames. -/
def videoL : TrackBoxes :=
  { sm := ⟨(Tables.parseStsc [2, 1, 3, 1, 2, 2, 1]).getD [], 10, 5, [], [100, 600]⟩, stts := [1, 5, 40], ctts := some [4, 2, 40, 1, 80, 1, 0, 1, 40], stss := some [2, 1, 3], scale := 1000, visual := true }
def fileL : File := fileOf [videoStream, audioStream] [videoL, audioN 30]

/-- C111 fails when a picture presented before the first one is not found within 20 samples: its presentation time is below 0, that is about 2^64. -/
theorem leading_picture_witness : ((addAll false none [(fileL, 800000, 0)]).map fun outs => outs.map fun o => (Spec.ofStream o 0).map (·.comp)) = some [[0, 18446744073709551616 - 400000, 400000]] := by
  decide +kernel

/-- Audio that starts at 1 s. -/
def fileO : File := fileOf [videoStream, audioStream] [video12, { audioN 30 with elst := 1000, mvhdScale := 1000 }]

/-- C111 fails when a stream has no sample in a part: its end is forgotten. The audio of the first file ends at 1.2 s, the audio of the third begins at 0.68 s. -/
theorem end_forgotten_witness : ((addAll false none [(fileA, 0, 0), (fileO, 0, 2000000), (fileA, 0, 0)]).map fun outs => outs.map fun o =>
    (((Spec.ofStream o 1).head?).map (·.comp), ((Spec.ofStream o 1).getLast?).map fun a => a.comp + a.dur)) = some [(some 0, some 12000000), (none, none), (some 6800000, some 18800000)] := by decide +kernel

/-- C112 fails for picture parameter sets: a longer one that begins with that of the first file is accepted. -/
theorem longer_pps_accepted_witness : (addAll false none [(fileA, 0, 0), ({ fileA with streams := [{ videoStream with pps := [104, 9, 1] }, audioStream] }, 0, 0)]).isSome = true := by decide +kernel

/-- A stream that cannot be used (text) before the others: not even that file alone can be added. -/
theorem unusable_stream_first_witness : addAll false none [(fileOf [{ valid := false }, videoStream, audioStream] [audioN 0, video12, audioN 30], 0, 0)] = none ∧
    (addAll false none [(fileOf [videoStream, audioStream, { valid := false }] [video12, audioN 30, audioN 0], 0, 0)]).isSome = true := by decide +kernel

end Verif.Edit
