import Verif.Movie.File
import Verif.Movie.InitSpec
namespace Verif.Movie
open Verif.Cenc.Spec (be beVal)
open Verif.Cenc (be_length beVal_be)
open Verif.Fragment
open Verif.Fragment.Spec (chars)
open Verif.Tables (SampleIn ChunkDes stscEntries stszWords stssWords sttsEntries cttsEntries sub64 writeAll flush)

/-- The stream of an initialization segment. -/
def initStream (trackId : Nat) (kind : Kind) (scale : Nat) (kid : Option (List UInt8)) (v : Bool) : MStream :=
  { w := { visual := v }, kind, id := trackId - 1, scale, mvhdScale := scale, allowEmpty := true, kid }

def initHeader (now trackId scale : Nat) : Header := { now, version := 1, scale, firstTrack := trackId - 1 }

def mvexList (trackId duration : Nat) : List (Nat × List UInt8) :=
  [(fourcc 'm' 'e' 'h' 'd', full 0 0 ++ be 4 duration), (fourcc 't' 'r' 'e' 'x', full 0 0 ++ be 4 trackId ++ be 4 1 ++ be 4 0 ++ be 4 0 ++ be 4 0)]

def psshList (pssh : List (List UInt8)) : List (Nat × List UInt8) := pssh.map fun b => (fourcc 'p' 's' 's' 'h', b)

def initMoov (ts hn : Nat → Nat → Nat) (h : Header) (s : MStream) (trackId duration : Nat) (pssh : List (List UInt8)) : List (Nat × List UInt8) :=
  moovList ts hn h [s] [(s, [])] 0 ++ ((fourcc 'm' 'v' 'e' 'x', cat (mvexList trackId duration)) :: psshList pssh)

theorem initialization_eq (ts hn : Nat → Nat → Nat) (now trackId : Nat) (kind : Kind) (duration scale : Nat) (kid : Option (List UInt8)) (pssh : List (List UInt8)) :
    ∃ v, initialization ts hn now trackId kind duration scale kid (cat (psshList pssh)) =
      some (cat [(fourcc 'f' 't' 'y' 'p', initFtyp), (fourcc 'm' 'o' 'o' 'v', cat (initMoov ts hn (initHeader now trackId scale) (initStream trackId kind scale kid v) trackId duration pssh))]) := by
  obtain ⟨v, hv⟩ : ∃ v, v = kind.visual? := ⟨_, rfl⟩
  refine ⟨v, ?_⟩
  rw [initialization, ← hv]
  have h0 : (⟨[], 0, []⟩ : W) = atEnd [] [] := rfl
  have hs : ({ w := { visual := v }, kind, id := trackId - 1, scale, mvhdScale := scale, allowEmpty := true, kid } : MStream) = initStream trackId kind scale kid v := rfl
  have hh : ({ now, version := 1, scale, firstTrack := trackId - 1 } : Header) = initHeader now trackId scale := rfl
  rw [hs, hh, h0, child_atEnd, writeMoov_eq]
  have hfl : flushed [initStream trackId kind scale kid v] = [initStream trackId kind scale kid v] := rfl
  have hct : chunkTables (flushed [initStream trackId kind scale kid v]) = some [(initStream trackId kind scale kid v, [])] := rfl
  rw [hct]
  obtain ⟨S, hS⟩ : ∃ S, S = initStream trackId kind scale kid v := ⟨_, rfl⟩
  obtain ⟨H, hH⟩ : ∃ H, H = initHeader now trackId scale := ⟨_, rfl⟩
  rw [← hS, ← hH]
  simp only [Option.map_some, List.nil_append]
  rw [openBox_atEnd, child_atEnd, child_atEnd]
  rw [closeBox_atEnd _ _ (cat (mvexList trackId duration)) (fourcc 'm' 'v' 'e' 'x') _ (by simp only [mvexList, cat_cons, cat_nil, List.append_nil, List.append_assoc])]
  rw [put_atEnd]
  rw [closeBox_atEnd _ (box (fourcc 'f' 't' 'y' 'p') initFtyp) (cat (initMoov ts hn H S trackId duration pssh)) (fourcc 'm' 'o' 'o' 'v') _ (by
    simp only [initMoov, cat_append, cat_cons, List.append_assoc])]
  simp only [cat_cons, cat_nil, List.append_nil]
  rfl

theorem trex_read (trackId : Nat) (h : trackId < 2 ^ 32) : Spec.trex (full 0 0 ++ be 4 trackId ++ be 4 1 ++ be 4 0 ++ be 4 0 ++ be 4 0) = some ⟨trackId, 1, 0, 0, 0⟩ := by
  simp only [List.append_assoc]
  rw [Spec.trex, full_read]
  simp only [Option.bind_eq_bind, Option.bind_some, num4, num4', if_true, Nat.mod_eq_of_lt h, Nat.zero_mod]

theorem mehd_read (duration : Nat) : Spec.mehd (full 0 0 ++ be 4 duration) = some (duration % 2 ^ 32) := by
  rw [Spec.mehd, full_read]
  simp only [Option.bind_eq_bind, Option.bind_some, Nat.zero_mod, Nat.zero_ne_one, if_false, num4', if_true]

theorem empty_samples (ts hn : Nat → Nat → Nat) (file : List UInt8) (trackId : Nat) (kind : Kind) (scale : Nat) (kid : Option (List UInt8)) (v : Bool)
    (h : (cat (stblList ts hn (initStream trackId kind scale kid v) [] 0)).length < 2 ^ 32) :
    Spec.samples file (cat (stblList ts hn (initStream trackId kind scale kid v) [] 0)) = some [] := by
  obtain ⟨f1, f2, f3, f4, f5, f6, f7⟩ := stbl_find ts hn _ [] 0 h
  have e2 : sttsBody ts hn (initStream trackId kind scale kid v) = tableBody 0 (pairList []) := rfl
  have e3 : cttsEntries (ts (initStream trackId kind scale kid v).scale) (initStream trackId kind scale kid v).ctts (initStream trackId kind scale kid v).w = none := rfl
  have e5 : stszBody (initStream trackId kind scale kid v) = full 0 0 ++ words (0 :: ([] : List Nat).length :: []) := rfl
  have e6 : stcoBody (initStream trackId kind scale kid v) 0 = full 0 0 ++ words (([] : List Nat).length :: []) := rfl
  have e7 : stssWords (initStream trackId kind scale kid v).w = none := rfl
  rw [e2] at f2; rw [e3] at f3; rw [e5] at f5; rw [e6] at f6; rw [e7] at f7
  have q2 : Spec.runs (tableBody 0 (pairList [])) = some [] := runs_read [] (by decide) (by simp)
  have q4 : Spec.toChunk (tableBody ([] : List (Nat × Nat)).length (tripleList [])) = some [] := toChunk_read [] (by decide) (by simp)
  have q5 := sizes_read [] (by decide) (by simp)
  have q6 := list_read [] (by decide) (by simp)
  simp only [Spec.samples, f2, f3, f4, f5, f6, f7, Option.bind_eq_bind, Option.bind_some, q2, q4, q5, q6, Option.map_none]
  rfl

/-- What the reader should see of the track of an initialization segment. -/
def initTrack (trackId : Nat) (kind : Kind) (scale : Nat) (kid : Option (List UInt8)) (config : List UInt8) : Spec.Track :=
  { enabled := true, id := trackId, duration := 0, volume := kind.header.1, width := kind.header.2.1 * 2 ^ 16, height := kind.header.2.2 * 2 ^ 16, edits := [], scale, mediaDuration := 0,
    language := ['u', 'n', 'd'], handler := match kind with | .visual .. => "vide".toList | .audio .. => "soun".toList,
    descriptions := descriptionOf kind config kid :: (if kid.isSome then [descriptionOf kind config none] else []), samples := [] }

theorem initTrack_read (ts hn : Nat → Nat → Nat) (now : Nat) (file : List UInt8) (trackId : Nat) (kind : Kind) (scale : Nat) (kid : Option (List UInt8)) (v : Bool) (config : List UInt8)
    (hid : 1 ≤ trackId ∧ trackId < 2 ^ 32) (hkind : KindOk config kind) (hkid : ∀ k, kid = some k → k.length = 16) (hscale : scale < 2 ^ 32) (hzero : ts scale 0 = 0)
    (h : (cat (trakList ts hn now (initStream trackId kind scale kid v) [] 0)).length < 2 ^ 32) :
    Spec.track file (cat (trakList ts hn now (initStream trackId kind scale kid v) [] 0)) = some (initTrack trackId kind scale kid config) := by
  obtain ⟨s, hs⟩ : ∃ s, s = initStream trackId kind scale kid v := ⟨_, rfl⟩
  have hsamples := empty_samples ts hn file trackId kind scale kid v
  rw [← hs] at h hsamples ⊢
  obtain ⟨p1, p2, p3, p4, p5, p6⟩ := track_paths ts hn now s [] 0 h
  obtain ⟨fs1, -⟩ := stbl_find ts hn s [] 0 p6
  have e1 : s.id + 1 = trackId := by rw [hs]; simp only [initStream]; omega
  have e2 : s.duration = 0 := by rw [hs]; rfl
  have e3 : s.streamOffset = 0 := by rw [hs]; rfl
  have e4 : s.kind = kind := by rw [hs]; rfl
  have e5 : s.scale = scale := by rw [hs]; rfl
  have e6 : s.lang = ('u', 'n', 'd') := by rw [hs]; rfl
  have e7 : s.mvhdScale = scale := by rw [hs]; rfl
  have e8 : s.kid = kid := by rw [hs]; rfl
  have hstsd := stsd_read s config (by rw [e4]; exact hkind) (by rw [e8]; exact hkid) (by
    have := mem_cat _ _ (show (fourcc 's' 't' 's' 'd', stsdBody s) ∈ stblList ts hn s [] 0 by simp [stblList, stblPre]); simp only at this; omega)
  have fits : Fits ts s config := ⟨by rw [e4]; exact hkind, by rw [e8]; exact hkid, by omega, by omega, by rw [e7, e2, e3, hzero]; decide, by rw [e5, e2, hzero]; decide,
    by rw [e6]; simp only [Letter]; decide⟩
  obtain ⟨g1, g2, g3⟩ := fits.header
  rw [e2, e1, e3, e7, hzero] at p1
  rw [e3] at p2
  rw [e2, e5, hzero] at p3
  rw [e4] at hstsd p4 p1 g1 g2 g3
  have q1 := tkhd_read now trackId (0 + 0) _ _ _ hid.2 (by decide) g1 g2 g3
  have q3 := mdhd_read now scale 0 s.lang hscale (by decide) fits.lang
  have q2 : Spec.editsOf (Spec.path (cat (trakList ts hn now s [] 0)) ["edts", "elst"]) = some [] := by
    rw [p2]; simp only [if_true, Spec.editsOf]
  rw [Spec.track, q2, p1, p3, p4, p5]
  simp only [Option.bind_eq_bind, Option.bind_some, q1, q3, hdlr_read, fs1, hstsd, hsamples p6]
  rw [handler_chars, descriptionsOf, e4, e8, e6]
  rfl

end Verif.Movie
