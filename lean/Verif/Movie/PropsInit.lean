import Verif.Movie.Init
/-
The initialization segment, as a player reads it.
-/
namespace Verif.Movie
open Verif.Cenc.Spec (be beVal)
open Verif.Fragment (box fourcc full boxList)
open Verif.Fragment.Spec (chars)

theorem filter_trak (ts hn : Nat → Nat → Nat) (h : Header) (s : MStream) (trackId duration : Nat) (pssh : List (List UInt8)) :
    (((initMoov ts hn h s trackId duration pssh).filter fun x => chars (be 4 x.1) == "trak".toList).map (·.2)) = [cat (trakList ts hn h.now s [] 0)] := by
  have hp : (psshList pssh).filter (fun x => chars (be 4 x.1) == "trak".toList) = [] := by
    rw [List.filter_eq_nil_iff]
    intro x hx
    obtain ⟨b, _, rfl⟩ := List.mem_map.1 hx
    simp only; decide
  rw [initMoov, List.filter_append, filter_moov, List.filter_cons_of_neg (by simp only; decide), hp]
  rfl

theorem filter_pssh (ts hn : Nat → Nat → Nat) (h : Header) (s : MStream) (trackId duration : Nat) (pssh : List (List UInt8)) :
    (((initMoov ts hn h s trackId duration pssh).filter fun x => chars (be 4 x.1) == "pssh".toList).map (·.2)) = pssh := by
  have hp : (psshList pssh).filter (fun x => chars (be 4 x.1) == "pssh".toList) = psshList pssh := by
    rw [List.filter_eq_self]
    intro x hx
    obtain ⟨b, _, rfl⟩ := List.mem_map.1 hx
    simp only; decide
  have hm : (moovList ts hn h [s] [(s, [])] 0).filter (fun x => chars (be 4 x.1) == "pssh".toList) = [] := by
    rw [List.filter_eq_nil_iff]
    intro x hx
    simp only [moovList, traks, List.map_cons, List.map_nil, List.mem_cons, List.not_mem_nil, or_false] at hx
    rcases hx with rfl | rfl <;> (simp only; decide)
  rw [initMoov, List.filter_append, hm, List.filter_cons_of_neg (by simp only; decide), hp, List.nil_append, psshList, List.map_map]
  exact List.map_id' pssh

/-- C130 (partial: `KindOk` and the 32 bit duration, see `init_duration_witness`). The initialization segment exists and is read as one track without samples: its number, the one the fragments inherit and the one
below the next track are the number that was given; units per second are the same in movie and track; description 1 is the default and carries codec, dimensions or channels and rate, the decoder configuration, and for
a protected stream scheme, vector size and key identifier; the data for the key systems is there, unchanged and in order; the duration is the number that was given. -/
theorem init_round_trip_partial (ts hn : Nat → Nat → Nat) (now trackId : Nat) (kind : Kind) (duration scale : Nat) (kid : Option (List UInt8)) (pssh : List (List UInt8)) (config : List UInt8)
    (hid : 1 ≤ trackId ∧ trackId + 1 < 2 ^ 32) (hkind : KindOk config kind) (hkid : ∀ k, kid = some k → k.length = 16) (hscale : scale < 2 ^ 32) (hzero : ts scale 0 = 0) (hdur : duration < 2 ^ 32) :
    ∃ file, initialization ts hn now trackId kind duration scale kid (pssh.flatMap fun b => box (fourcc 'p' 's' 's' 'h') b) = some file ∧
      (file.length < 2 ^ 32 → ∃ i, Spec.init file = some i ∧
        i.track.id = trackId ∧ i.inherit = ⟨trackId, 1, 0, 0, 0⟩ ∧ i.nextTrack = trackId + 1 ∧
        i.scale = scale ∧ i.track.scale = scale ∧ i.duration = duration ∧ i.pssh = pssh ∧
        i.track.enabled = true ∧ i.track.samples = [] ∧ i.track.edits = [] ∧
        (∀ width height c name, kind = .visual width height c name → i.track.handler = "vide".toList ∧ i.track.width = width * 2 ^ 16 ∧ i.track.height = height * 2 ^ 16 ∧
          i.track.descriptions = (match kid with
            | none => [⟨"avc1".toList, .video width height, c, none⟩]
            | some k => [⟨"avc1".toList, .video width height, c, some ("cenc".toList, 8, k)⟩, ⟨"avc1".toList, .video width height, c, none⟩])) ∧
        (∀ rate channels, kind = .audio rate channels (box (fourcc 'e' 's' 'd' 's') config) → i.track.handler = "soun".toList ∧
          i.track.descriptions = (match kid with
            | none => [⟨"mp4a".toList, .audio channels rate, config, none⟩]
            | some k => [⟨"mp4a".toList, .audio channels rate, config, some ("cenc".toList, 8, k)⟩, ⟨"mp4a".toList, .audio channels rate, config, none⟩]))) := by
  obtain ⟨v, hv⟩ := initialization_eq ts hn now trackId kind duration scale kid pssh
  have hp : (pssh.flatMap fun b => box (fourcc 'p' 's' 's' 'h') b) = cat (psshList pssh) := by
    rw [cat, psshList, List.flatMap_map]
  rw [hp, hv]
  refine ⟨_, rfl, fun hlen => ⟨⟨scale, trackId + 1, initTrack trackId kind scale kid config, ⟨trackId, 1, 0, 0, 0⟩, duration, pssh⟩, ?_, rfl, rfl, rfl, rfl, rfl, rfl, rfl, rfl, rfl, rfl, ?_, ?_⟩⟩
  · obtain ⟨file, hfile⟩ : ∃ file, file = cat [(fourcc 'f' 't' 'y' 'p', initFtyp), (fourcc 'm' 'o' 'o' 'v', cat (initMoov ts hn (initHeader now trackId scale) (initStream trackId kind scale kid v) trackId duration pssh))] := ⟨_, rfl⟩
    obtain ⟨L, hL⟩ : ∃ L, L = initMoov ts hn (initHeader now trackId scale) (initStream trackId kind scale kid v) trackId duration pssh := ⟨_, rfl⟩
    rw [← hfile] at hlen ⊢
    rw [← hL] at hfile
    have hM : (cat L).length < 2 ^ 32 := by
      have := mem_cat _ _ (show (fourcc 'm' 'o' 'o' 'v', cat L) ∈ [(fourcc 'f' 't' 'y' 'p', initFtyp), (fourcc 'm' 'o' 'o' 'v', cat L)] by simp)
      rw [← hfile] at this
      simp only at this; omega
    have htrakmem : (fourcc 't' 'r' 'a' 'k', cat (trakList ts hn now (initStream trackId kind scale kid v) [] 0)) ∈ L := by
      rw [hL, initMoov, List.mem_append]; left
      simp [moovList, traks, initHeader]
    have htrak : (cat (trakList ts hn now (initStream trackId kind scale kid v) [] 0)).length < 2 ^ 32 := by
      have := mem_cat _ _ htrakmem; simp only at this; omega
    have c1 : Spec.child file "moov" = some (cat L) := by
      rw [hfile, child_cat _ _ (by rw [← hfile]; exact hlen)]
      simp (decide := true) only [List.find?_cons_of_pos, List.find?_cons_of_neg, Option.map_some]
    have hmv : mvhdOf ts (initHeader now trackId scale) [initStream trackId kind scale kid v] = mvhdBody 1 now scale (ts scale 0) (trackId - 1 + 1 + 1) := rfl
    have c2 : Spec.child (cat L) "mvhd" = some (mvhdBody 1 now scale (ts scale 0) (trackId - 1 + 1 + 1)) := by
      rw [child_cat _ _ hM, hL, initMoov, moovList, hmv]
      simp (decide := true) only [List.cons_append, List.find?_cons_of_pos, Option.map_some]
    have c3 := mvhd_read 1 now scale (ts scale 0) (trackId - 1 + 1 + 1) (Or.inr rfl) hscale (by rw [hzero]; decide) (by omega)
    have c4 : Spec.child (cat L) "mvex" = some (cat (mvexList trackId duration)) := by
      rw [child_cat _ _ hM, hL, initMoov, moovList, traks]
      simp (decide := true) only [List.map_cons, List.map_nil, List.cons_append, List.nil_append, List.find?_cons_of_pos, List.find?_cons_of_neg, Option.map_some]
    have hx : (cat (mvexList trackId duration)).length < 2 ^ 32 := by
      have := mem_cat L (fourcc 'm' 'v' 'e' 'x', cat (mvexList trackId duration)) (by rw [hL, initMoov]; simp)
      simp only at this; omega
    have c5 : Spec.child (cat (mvexList trackId duration)) "trex" = some (full 0 0 ++ be 4 trackId ++ be 4 1 ++ be 4 0 ++ be 4 0 ++ be 4 0) := by
      rw [child_cat _ _ hx, mvexList]
      simp (decide := true) only [List.find?_cons_of_pos, List.find?_cons_of_neg, Option.map_some]
    have c6 : Spec.child (cat (mvexList trackId duration)) "mehd" = some (full 0 0 ++ be 4 duration) := by
      rw [child_cat _ _ hx, mvexList]
      simp (decide := true) only [List.find?_cons_of_pos, Option.map_some]
    have c7 := parts_cat L hM
    have ht := filter_boxList "trak" L 0
    rw [hL, filter_trak, ← hL] at ht
    have hps := filter_boxList "pssh" L 0
    rw [hL, filter_pssh, ← hL] at hps
    have htr := initTrack_read ts hn now file trackId kind scale kid v config ⟨hid.1, by omega⟩ hkind hkid hscale hzero htrak
    rw [Spec.init]
    simp only [c1, c2, c3, c7, Spec.path, c4, c5, c6, Option.bind_eq_bind, Option.bind_some, trex_read trackId (by omega), mehd_read, Nat.mod_eq_of_lt hdur]
    obtain ⟨b, hb⟩ : ∃ b, (boxList 0 L).filter (fun b => b.type == "trak".toList) = [b] := by
      match hf : (boxList 0 L).filter (fun b => b.type == "trak".toList) with
      | [] => rw [hf] at ht; simp at ht
      | [b] => exact ⟨b, hf⟩
      | a :: b :: l => rw [hf] at ht; simp at ht
    rw [hb] at ht ⊢
    simp only [List.map_cons, List.map_nil, List.cons.injEq, and_true] at ht
    have hnow : (initHeader now trackId scale).now = now := rfl
    rw [hnow] at ht
    simp only [ht, htr, Option.bind_some, hps]
    have : trackId - 1 + 1 + 1 = trackId + 1 := by omega
    rw [this]
  · intro width height c name hk
    subst hk
    obtain ⟨_, _, rfl, _⟩ := hkind
    refine ⟨rfl, rfl, rfl, ?_⟩
    cases kid <;> rfl
  · intro rate channels hk
    subst hk
    refine ⟨rfl, ?_⟩
    cases kid <;> rfl

/-- Conversions without floating point. -/
def exactTs (T x : Nat) : Nat := x * T / 10000000
def exactHn (T d : Nat) : Nat := d * 10000000 / T

/-- the hypotheses are met by an encrypted video stream of 42 seconds -/
example : KindOk [1, 100, 0, 31] (.visual 1920 1080 [1, 100, 0, 31] (List.replicate 31 0)) ∧ exactTs 10000000 0 = 0 ∧ (420000000 : Nat) < 2 ^ 32 := by
  exact ⟨⟨by decide, by decide, rfl, by decide⟩, by decide, by decide⟩

/-- and it is read -/
example : ((initialization exactTs exactHn 7 3 (.visual 1920 1080 [1, 100, 0, 31] (List.replicate 31 0)) 420000000 10000000 (some (List.replicate 16 5)) (box (fourcc 'p' 's' 's' 'h') [1, 2])).bind Spec.init).map
    (fun i => ([i.track.id, i.inherit.track, i.nextTrack, i.duration], i.pssh, i.track.descriptions.map (·.config))) = some ([3, 3, 4, 420000000], [[1, 2]], [[1, 100, 0, 31], [1, 100, 0, 31]]) := by decide +kernel

/-- C130 is false of the code for long presentations: the duration has 32 bits. Ten minutes at 10^7 units per second (the default) are announced as less than three. -/
theorem init_duration_witness :
    ((initialization exactTs exactHn 7 1 (.visual 1920 1080 [1, 100, 0, 31] (List.replicate 31 0)) 6000000000 10000000 none []).bind Spec.init).map (·.duration) = some 1705032704 := by decide +kernel

end Verif.Movie
