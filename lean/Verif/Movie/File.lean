import Verif.Movie.Track
import Verif.Interleave.Props
namespace Verif.Movie
open Verif.Cenc.Spec (be beVal)
open Verif.Cenc (be_length beVal_be)
open Verif.Fragment (W fourcc full box box_length num4 full_read boxList)
open Verif.Fragment.Spec (chars)
open Verif.Tables (SampleIn ChunkDes stscEntries sub64 writeAll flush deltas)

/-- A stream with what was given to it. -/
structure Given where
  s : MStream
  visual : Bool
  xs : List SampleIn
  config : List UInt8

/-- The sample to chunk table of a stream with samples can be written. -/
theorem stsc_some (ts hn : Nat → Nat → Nat) (s : MStream) (v : Bool) (xs : List SampleIn) (body : List UInt8) (c : Complete ts hn s v xs body) :
    ∃ es, stscEntries s.flushed.w.chunks s.flushed.allowEmpty = some es := by
  obtain ⟨hw, hdiff, -⟩ := c
  match xs, hdiff, hw with
  | [], hdiff, _ => obtain ⟨x, _, hx, _⟩ := hdiff; cases hx
  | x :: rest, _, hw =>
    obtain ⟨groups, hch, hgood, hflat⟩ := Verif.Tables.chunks_partition x rest v
    have hc : s.flushed.w.chunks = groups.map (fun g => ⟨g.1, g.2.length⟩) := by rw [MStream.flushed, hw]; exact hch
    rw [hc]
    have hne : groups.map (fun g => (⟨g.1, g.2.length⟩ : ChunkDes)) ≠ [] := by
      intro h
      rw [List.map_eq_nil_iff] at h
      rw [h] at hflat; simp at hflat
    rw [stscEntries]
    cases hl : (groups.map (fun g => (⟨g.1, g.2.length⟩ : ChunkDes))).getLast? with
    | none => exact absurd (List.getLast?_eq_none_iff.1 hl) hne
    | some z => exact ⟨_, rfl⟩

theorem chunkTables_some (ts hn : Nat → Nat → Nat) (body : List UInt8) : ∀ gs : List Given, (∀ g ∈ gs, Complete ts hn g.s g.visual g.xs body) →
    ∃ l, chunkTables (gs.map fun g => g.s.flushed) = some l
  | [], _ => ⟨[], rfl⟩
  | g :: gs, h => by
    obtain ⟨es, hes⟩ := stsc_some ts hn g.s g.visual g.xs body (h g (by simp))
    obtain ⟨l, hl⟩ := chunkTables_some ts hn body gs fun g hg => h g (by simp [hg])
    exact ⟨_, by simp only [List.map_cons, chunkTables, hes, hl, Option.map_some]; rfl⟩

theorem tracks_read (ts hn : Nat → Nat → Nat) (now : Nat) (body hdr : List UInt8) (hfile : (hdr ++ body).length < 2 ^ 32) : ∀ (gs : List Given) (l : List (MStream × List (Nat × Nat))),
    (∀ g ∈ gs, Complete ts hn g.s g.visual g.xs body ∧ Fits ts g.s g.config) → chunkTables (gs.map fun g => g.s.flushed) = some l →
    (cat (traks ts hn now hdr.length l)).length < 2 ^ 32 →
    ((traks ts hn now hdr.length l).map (·.2)).mapM (Spec.track (hdr ++ body)) = some (gs.map fun g => trackOf ts hn g.s g.visual g.xs g.config body)
  | [], l, _, hl, _ => by
    simp only [List.map_nil, chunkTables, Option.some.injEq] at hl
    subst hl; rfl
  | g :: gs, l, h, hl, hb => by
    obtain ⟨es, hes⟩ := stsc_some ts hn g.s g.visual g.xs body (h g (by simp)).1
    simp only [List.map_cons, chunkTables, hes, Option.map_eq_some_iff] at hl
    obtain ⟨l', hl', rfl⟩ := hl
    simp only [traks, List.map_cons, cat_cons, List.length_append, box_length] at hb
    have ih := tracks_read ts hn now body hdr hfile gs l' (fun g hg => h g (by simp [hg])) hl' (by simp only [traks]; omega)
    have h1 := track_read ts hn now g.s g.visual g.xs g.config body hdr (h g (by simp)).1 (h g (by simp)).2 es hes hfile (by omega)
    simp only [traks, List.map_cons] at ih ⊢
    rw [List.mapM_cons, h1, ih]
    rfl

theorem filter_moov (ts hn : Nat → Nat → Nat) (h : Header) (ss : List MStream) (l : List (MStream × List (Nat × Nat))) (k : Nat) :
    ((moovList ts hn h ss l k).filter fun x => chars (be 4 x.1) == "trak".toList) = traks ts hn h.now k l := by
  rw [moovList, List.filter_cons_of_neg (by simp only; decide), List.filter_eq_self]
  intro x hx
  obtain ⟨y, _, rfl⟩ := List.mem_map.1 hx
  exact (by decide : (chars (be 4 (fourcc 't' 'r' 'a' 'k')) == "trak".toList) = true)

theorem mapM_body (f : List UInt8 → Option Spec.Track) (l : List Verif.Fragment.Spec.Box) : (l.mapM fun b => f b.body) = (l.map (·.body)).mapM f := by
  induction l with
  | nil => rfl
  | cons x l ih => rw [List.map_cons, List.mapM_cons, List.mapM_cons, ih]

theorem flushed_map (gs : List Given) : flushed (gs.map (·.s)) = gs.map fun g => g.s.flushed := by rw [flushed, List.map_map]; rfl

/-- The file is read as the streams that were given. -/
theorem movie_read (ts hn : Nat → Nat → Nat) (now : Nat) (body : List UInt8) (gs : List Given) (h : ∀ g ∈ gs, Complete ts hn g.s g.visual g.xs body ∧ Fits ts g.s g.config)
    (hn1 : gs.length + 1 < 2 ^ 32) (hdur : ts 1000 (minDuration (gs.map (·.s))) < 2 ^ 32) :
    ∃ file, movieFile ts hn now (gs.map (·.s)) body = some file ∧
      (file.length < 2 ^ 32 → Spec.movie file = some ⟨1000, ts 1000 (minDuration (gs.map (·.s))), gs.length + 1, gs.map fun g => trackOf ts hn g.s g.visual g.xs g.config body⟩) := by
  obtain ⟨l, hl⟩ := chunkTables_some ts hn body gs fun g hg => (h g hg).1
  rw [movieFile_eq, flushed_map, hl]
  refine ⟨_, rfl, ?_⟩
  obtain ⟨ss, hss⟩ : ∃ ss, ss = gs.map (·.s) := ⟨_, rfl⟩
  rw [← hss] at hdur ⊢
  beta_reduce
  obtain ⟨k, hk⟩ : ∃ k, k = (box (fourcc 'f' 't' 'y' 'p') movieFtyp).length + (box (fourcc 'm' 'o' 'o' 'v') (cat (moovList ts hn { now } ss l 0))).length + 8 := ⟨_, rfl⟩
  rw [← hk]
  obtain ⟨M, hM⟩ : ∃ M, M = cat (moovList ts hn { now } ss l k) := ⟨_, rfl⟩
  rw [← hM]
  intro hlen
  have hMl : M.length < 2 ^ 32 := by
    have := mem_cat _ _ (show (fourcc 'm' 'o' 'o' 'v', M) ∈ [(fourcc 'f' 't' 'y' 'p', movieFtyp), (fourcc 'm' 'o' 'o' 'v', M), (fourcc 'm' 'd' 'a' 't', body)] by simp)
    simp only at this; omega
  obtain ⟨F, hF⟩ : ∃ F, F = movieFtyp := ⟨_, rfl⟩
  rw [← hF] at hk hlen ⊢
  obtain ⟨hdr, hhdr⟩ : ∃ hdr, hdr = box (fourcc 'f' 't' 'y' 'p') F ++ (box (fourcc 'm' 'o' 'o' 'v') M ++ (be 4 (8 + body.length) ++ be 4 (fourcc 'm' 'd' 'a' 't'))) := ⟨_, rfl⟩
  have hfile : cat [(fourcc 'f' 't' 'y' 'p', F), (fourcc 'm' 'o' 'o' 'v', M), (fourcc 'm' 'd' 'a' 't', body)] = hdr ++ body := by
    rw [hhdr, cat_cons, cat_cons, cat_one]
    simp only [box, List.append_assoc]
  have hkl : hdr.length = k := by
    rw [hk, hhdr]
    simp only [List.length_append, box_length, be_length]
    rw [hM, moov_length]; omega
  have c1 : Spec.child (hdr ++ body) "moov" = some M := by
    rw [← hfile, child_cat _ _ hlen]
    simp (decide := true) only [List.find?_cons_of_pos, List.find?_cons_of_neg, Option.map_some]
  have c2 : Spec.child M "mvhd" = some (mvhdOf ts { now } ss) := by
    rw [hM, child_cat _ _ (by rw [← hM]; exact hMl), moovList]
    simp (decide := true) only [List.find?_cons_of_pos, Option.map_some]
  have hmin : minDuration (flushed ss) = minDuration ss := by
    simp only [minDuration, flushed, List.foldl_map]
    congr 1
    funext m s
    have := flushed_duration s
    simp only [MStream.flushed] at this
    rw [this]
  have hfl : (flushed ss).length = gs.length := by rw [hss]; simp [flushed]
  have c3 : Spec.mvhd (mvhdOf ts { now } ss) = some (1000, ts 1000 (minDuration ss), gs.length + 1) := by
    rw [mvhdOf, hmin, hfl]
    have := mvhd_read 0 now 1000 (ts 1000 (minDuration ss)) (0 + gs.length + 1) (Or.inl rfl) (by decide) hdur (by omega)
    rw [this, Nat.zero_add]
  have c4 := parts_cat (moovList ts hn { now } ss l k) (by rw [← hM]; exact hMl)
  rw [← hM] at c4
  have hb : (cat (traks ts hn now hdr.length l)).length < 2 ^ 32 := by
    rw [hM, moovList, cat_cons, List.length_append] at hMl
    simp only at hMl
    rw [hkl]; omega
  have ht := tracks_read ts hn now body hdr (by rw [← hfile]; exact hlen) gs l h hl hb
  rw [hfile, Spec.movie]
  simp only [c1, c2, c3, c4, Option.bind_eq_bind, Option.bind_some]
  rw [mapM_body, filter_boxList, filter_moov]
  rw [← hkl]
  simp only [ht, Option.bind_some]

end Verif.Movie
