import Verif.Movie.Headers
namespace Verif.Movie
open Verif.Cenc.Spec (be beVal)
open Verif.Cenc (be_length beVal_be)
open Verif.Fragment (W fourcc full box box_length num4 full_read boxList)
open Verif.Fragment.Spec (chars)
open Verif.Tables (SampleIn stscEntries sub64 writeAll flush deltas)

theorem mapM_boxList (f : List Char → List UInt8 → Option Spec.Description) : ∀ (l : List (Nat × List UInt8)) (p : Nat),
    (boxList p l).mapM (fun x => f x.type x.body) = l.mapM fun x => f (chars (be 4 x.1)) x.2
  | [], p => rfl
  | (t, b) :: l, p => by
    have ih := mapM_boxList f l (p + (8 + b.length))
    rw [boxList, List.mapM_cons, List.mapM_cons, ih]

theorem boxList_length : ∀ (l : List (Nat × List UInt8)) (p : Nat), (boxList p l).length = l.length
  | [], p => rfl
  | (t, b) :: l, p => by rw [boxList, List.length_cons, boxList_length l, List.length_cons]

/-- The sample descriptions that a reader should see: for an encrypted stream the encrypted one first, then the clear one. -/
def descriptionsOf (s : MStream) (config : List UInt8) : List Spec.Description :=
  descriptionOf s.kind config s.kid :: (if s.kid.isSome then [descriptionOf s.kind config none] else [])

theorem stsd_read (s : MStream) (config : List UInt8) (ok : KindOk config s.kind) (hk : ∀ k, s.kid = some k → k.length = 16) (hl : (stsdBody s).length < 2 ^ 32) :
    Spec.stsd (chars (be 4 s.kind.handler)) (stsdBody s) = some (descriptionsOf s config) := by
  have hc : (cat (entries s)).length < 2 ^ 32 := by
    rw [stsdBody, List.length_append, List.length_append] at hl; omega
  have h1 := describe_read s.kind config s.kid ok hk (by
    have := mem_cat (entries s) (entryOf s.kind s.kid) (by simp [entries]); omega)
  rw [Spec.stsd, stsdBody, full_read]
  simp only [Option.bind_eq_bind, Option.bind_some, num4]
  rw [parts_cat _ hc]
  simp only [Option.bind_some, boxList_length]
  rw [mapM_boxList (fun t b => Spec.describe (chars (be 4 s.kind.handler)) t b)]
  by_cases h : s.kid.isSome = true
  · have h2 := describe_read s.kind config none ok (by simp) (by
      have := mem_cat (entries s) (entryOf s.kind none) (by simp [entries, h]); omega)
    simp only [entries, descriptionsOf, h, if_true, List.length_cons, List.length_nil, List.mapM_cons, List.mapM_nil, h1, h2]
    rfl
  · simp only [entries, descriptionsOf, h, Bool.false_eq_true, if_false, List.length_cons, List.length_nil, List.mapM_cons, List.mapM_nil, h1]
    rfl

/-- The edits that a reader should see: an empty one as long as the stream is late, then the stream at its own rate. -/
def editsWanted (ts : Nat → Nat → Nat) (s : MStream) : List Spec.Edit :=
  if s.streamOffset = 0 then [] else [⟨ts s.mvhdScale s.streamOffset, none, 0x10000⟩, ⟨ts s.mvhdScale s.duration, some 0, 0x10000⟩]

def elstBody (a b : Nat) : List UInt8 := full 0 0 ++ be 4 2 ++ (be 4 a ++ be 4 0xFFFFFFFF ++ be 2 1 ++ be 2 0) ++ (be 4 b ++ be 4 0 ++ be 2 1 ++ be 2 0)

theorem elst_read (a b : Nat) (ha : a < 2 ^ 32) (hb : b < 2 ^ 32) : Spec.edits (elstBody a b) = some [⟨a, none, 0x10000⟩, ⟨b, some 0, 0x10000⟩] := by
  have e : elstBody a b = full 0 0 ++ words [2, a, 0xFFFFFFFF, 0x10000, b, 0, 0x10000] := by
    have r : ∀ x : List UInt8, be 2 1 ++ (be 2 0 ++ x) = be 4 0x10000 ++ x := fun x => rfl
    have r' : be 2 1 ++ be 2 0 = be 4 0x10000 := rfl
    simp only [elstBody, words, List.flatMap_cons, List.flatMap_nil, List.append_assoc, r, r', List.append_nil]
  rw [e, Spec.edits, table_read _ (by
    intro x hx
    simp only [List.mem_cons, List.not_mem_nil, or_false] at hx
    rcases hx with rfl | rfl | rfl | rfl | rfl | rfl | rfl <;> first | assumption | decide)]
  rfl

theorem handler_chars (k : Kind) : chars (be 4 k.handler) = match k with | .visual .. => "vide".toList | .audio .. => "soun".toList := by
  cases k <;> simp only [Kind.handler] <;> decide

theorem flushed_duration (s : MStream) : s.flushed.duration = s.duration := by
  simp only [MStream.duration, MStream.flushed, (Verif.Tables.flush_fields s.w).1]
  rfl

/-- What the reader should see of a stream. -/
def trackOf (ts hn : Nat → Nat → Nat) (s : MStream) (v : Bool) (xs : List SampleIn) (config body : List UInt8) : Spec.Track :=
  { enabled := true
    id := s.id + 1
    duration := ts s.mvhdScale s.duration + ts s.mvhdScale s.streamOffset
    volume := s.kind.header.1
    width := s.kind.header.2.1 * 2 ^ 16
    height := s.kind.header.2.2 * 2 ^ 16
    edits := editsWanted ts s
    scale := s.scale
    mediaDuration := ts s.scale s.duration
    language := [s.lang.1, s.lang.2.1, s.lang.2.2]
    handler := match s.kind with | .visual .. => "vide".toList | .audio .. => "soun".toList
    descriptions := descriptionsOf s config
    samples := seen body (fun z => ts s.scale ((sub64 z.composition z.decoding + s.ctts) % 2 ^ 64)) v xs (shifted (deltas (ts s.scale) (hn s.scale) 0 (xs.map (·.decoding)))) }

/-- The numbers of a stream fit into their fields. -/
structure Fits (ts : Nat → Nat → Nat) (s : MStream) (config : List UInt8) : Prop where
  kind : KindOk config s.kind
  kid : ∀ k, s.kid = some k → k.length = 16
  id : s.id + 1 < 2 ^ 32
  scale : s.scale < 2 ^ 32
  duration : ts s.mvhdScale s.duration + ts s.mvhdScale s.streamOffset < 2 ^ 32
  mediaDuration : ts s.scale s.duration < 2 ^ 32
  lang : Letter s.lang.1 ∧ Letter s.lang.2.1 ∧ Letter s.lang.2.2

theorem Fits.header {ts : Nat → Nat → Nat} {s : MStream} {config : List UInt8} (f : Fits ts s config) :
    s.kind.header.1 < 2 ^ 16 ∧ s.kind.header.2.1 < 2 ^ 16 ∧ s.kind.header.2.2 < 2 ^ 16 := by
  have h := f.kind
  cases hk : s.kind with
  | visual w h' c n => rw [hk] at h; simp only [Kind.header]; exact ⟨by decide, h.1, h.2.1⟩
  | audio r c g => simp only [Kind.header]; decide

theorem track_paths (ts hn : Nat → Nat → Nat) (now : Nat) (s : MStream) (es : List (Nat × Nat)) (k : Nat) (h : (cat (trakList ts hn now s es k)).length < 2 ^ 32) :
    Spec.child (cat (trakList ts hn now s es k)) "tkhd" =
      some (tkhdBody now (s.id + 1) (ts s.mvhdScale s.duration + ts s.mvhdScale s.streamOffset) s.kind.header.1 s.kind.header.2.1 s.kind.header.2.2) ∧
    Spec.path (cat (trakList ts hn now s es k)) ["edts", "elst"] = (if s.streamOffset = 0 then none else some (elstBody (ts s.mvhdScale s.streamOffset) (ts s.mvhdScale s.duration))) ∧
    Spec.path (cat (trakList ts hn now s es k)) ["mdia", "mdhd"] = some (mdhdBody now s.scale (ts s.scale s.duration) s.lang) ∧
    Spec.path (cat (trakList ts hn now s es k)) ["mdia", "hdlr"] = some (hdlrBody s.kind.handler) ∧
    Spec.path (cat (trakList ts hn now s es k)) ["mdia", "minf", "stbl"] = some (cat (stblList ts hn s es k)) ∧
    (cat (stblList ts hn s es k)).length < 2 ^ 32 := by
  have hmdia : (cat (mdiaList ts hn now s es k)).length < 2 ^ 32 := by
    have := mem_cat _ _ (show (fourcc 'm' 'd' 'i' 'a', cat (mdiaList ts hn now s es k)) ∈ trakList ts hn now s es k by simp [trakList]); simp only at this; omega
  have hminf : (cat (minfList ts hn s es k)).length < 2 ^ 32 := by
    have := mem_cat _ _ (show (fourcc 'm' 'i' 'n' 'f', cat (minfList ts hn s es k)) ∈ mdiaList ts hn now s es k by simp [mdiaList]); simp only at this; omega
  have hstbl : (cat (stblList ts hn s es k)).length < 2 ^ 32 := by
    have := mem_cat _ _ (show (fourcc 's' 't' 'b' 'l', cat (stblList ts hn s es k)) ∈ minfList ts hn s es k by simp [minfList]); simp only at this; omega
  have c1 : Spec.child (cat (trakList ts hn now s es k)) "tkhd" =
      some (tkhdBody now (s.id + 1) (ts s.mvhdScale s.duration + ts s.mvhdScale s.streamOffset) s.kind.header.1 s.kind.header.2.1 s.kind.header.2.2) := by
    rw [child_cat _ _ h]
    unfold trakList trakPre
    simp (decide := true) only [List.cons_append, List.find?_cons_of_pos, Option.map_some]
  have c2 : Spec.child (cat (trakList ts hn now s es k)) "mdia" = some (cat (mdiaList ts hn now s es k)) := by
    rw [child_cat _ _ h]
    unfold trakList trakPre edtsList
    by_cases h0 : s.streamOffset = 0
    · simp (decide := true) only [h0, if_true, List.cons_append, List.nil_append, List.find?_cons_of_pos, List.find?_cons_of_neg, Option.map_some]
    · simp (decide := true) only [h0, if_false, List.cons_append, List.nil_append, List.find?_cons_of_pos, List.find?_cons_of_neg, Option.map_some]
  have c3 : Spec.child (cat (mdiaList ts hn now s es k)) "mdhd" = some (mdhdBody now s.scale (ts s.scale s.duration) s.lang) := by
    rw [child_cat _ _ hmdia]
    unfold mdiaList mdiaPre
    simp (decide := true) only [List.cons_append, List.find?_cons_of_pos, Option.map_some]
  have c4 : Spec.child (cat (mdiaList ts hn now s es k)) "hdlr" = some (hdlrBody s.kind.handler) := by
    rw [child_cat _ _ hmdia]
    unfold mdiaList mdiaPre
    simp (decide := true) only [List.cons_append, List.find?_cons_of_pos, List.find?_cons_of_neg, Option.map_some]
  have c5 : Spec.child (cat (mdiaList ts hn now s es k)) "minf" = some (cat (minfList ts hn s es k)) := by
    rw [child_cat _ _ hmdia]
    unfold mdiaList mdiaPre
    simp (decide := true) only [List.cons_append, List.nil_append, List.find?_cons_of_pos, List.find?_cons_of_neg, Option.map_some]
  have c6 : Spec.child (cat (minfList ts hn s es k)) "stbl" = some (cat (stblList ts hn s es k)) := by
    rw [child_cat _ _ hminf]
    unfold minfList minfPre
    cases hk : s.kind <;>
    simp (decide := true) only [mediaHeader, List.cons_append, List.nil_append, List.find?_cons_of_pos, List.find?_cons_of_neg, Option.map_some]
  refine ⟨c1, ?_, ?_, ?_, ?_, hstbl⟩
  · by_cases h0 : s.streamOffset = 0
    · rw [Spec.path, child_cat _ _ h]
      unfold trakList trakPre edtsList
      simp (decide := true) only [h0, if_true, List.cons_append, List.nil_append, List.find?_cons_of_neg, List.find?_nil, Option.map_none]
    · have hin : (fourcc 'e' 'd' 't' 's', cat [(fourcc 'e' 'l' 's' 't', elstBody (ts s.mvhdScale s.streamOffset) (ts s.mvhdScale s.duration))]) ∈ trakList ts hn now s es k := by
        unfold trakList trakPre edtsList elstBody
        rw [if_neg h0]
        simp
      have hE := mem_cat _ _ hin
      simp only at hE
      have e1 : Spec.child (cat (trakList ts hn now s es k)) "edts" = some (cat [(fourcc 'e' 'l' 's' 't', elstBody (ts s.mvhdScale s.streamOffset) (ts s.mvhdScale s.duration))]) := by
        rw [child_cat _ _ h]
        unfold trakList trakPre edtsList elstBody
        simp (decide := true) only [h0, if_false, List.cons_append, List.nil_append, List.find?_cons_of_pos, List.find?_cons_of_neg, Option.map_some]
      have e2 : Spec.child (cat [(fourcc 'e' 'l' 's' 't', elstBody (ts s.mvhdScale s.streamOffset) (ts s.mvhdScale s.duration))]) "elst" =
          some (elstBody (ts s.mvhdScale s.streamOffset) (ts s.mvhdScale s.duration)) := by
        rw [child_cat _ _ (by omega)]
        simp (decide := true) only [List.find?_cons_of_pos, Option.map_some]
      simp only [Spec.path, e1, e2, Option.bind_eq_bind, Option.bind_some, h0, if_false]
  · simp only [Spec.path, c2, c3, Option.bind_eq_bind, Option.bind_some]
  · simp only [Spec.path, c2, c4, Option.bind_eq_bind, Option.bind_some]
  · simp only [Spec.path, c2, c5, c6, Option.bind_eq_bind, Option.bind_some]

theorem track_read (ts hn : Nat → Nat → Nat) (now : Nat) (s : MStream) (v : Bool) (xs : List SampleIn) (config body hdr : List UInt8) (c : Complete ts hn s v xs body) (f : Fits ts s config)
    (es : List (Nat × Nat)) (hes : stscEntries s.flushed.w.chunks s.flushed.allowEmpty = some es) (hfile : (hdr ++ body).length < 2 ^ 32)
    (hcat : (cat (trakList ts hn now s.flushed es hdr.length)).length < 2 ^ 32) :
    Spec.track (hdr ++ body) (cat (trakList ts hn now s.flushed es hdr.length)) = some (trackOf ts hn s v xs config body) := by
  obtain ⟨p1, p2, p3, p4, p5, p6⟩ := track_paths ts hn now s.flushed es hdr.length hcat
  have hsamples := samples_read ts hn s v xs body hdr c es hes hfile p6
  obtain ⟨fs1, -⟩ := stbl_find ts hn s.flushed es hdr.length p6
  have hstsd := stsd_read s.flushed config f.kind f.kid (by
    have := mem_cat _ _ (show (fourcc 's' 't' 's' 'd', stsdBody s.flushed) ∈ stblList ts hn s.flushed es hdr.length by simp [stblList, stblPre]); simp only at this; omega)
  obtain ⟨g1, g2, g3⟩ := f.header
  have hd : s.flushed.duration = s.duration := flushed_duration s
  have e1 : s.flushed.id = s.id := rfl
  have e2 : s.flushed.mvhdScale = s.mvhdScale := rfl
  have e3 : s.flushed.streamOffset = s.streamOffset := rfl
  have e4 : s.flushed.kind = s.kind := rfl
  have e5 : s.flushed.scale = s.scale := rfl
  have e6 : s.flushed.lang = s.lang := rfl
  have e7 : descriptionsOf s.flushed config = descriptionsOf s config := rfl
  rw [e7, e4] at hstsd
  rw [hd, e1, e2, e3, e4] at p1
  rw [hd, e2, e3] at p2
  rw [hd, e5, e6] at p3
  rw [e4] at p4
  have q1 := tkhd_read now (s.id + 1) _ _ _ _ f.id f.duration g1 g2 g3
  have q3 := mdhd_read now s.scale _ s.lang f.scale f.mediaDuration f.lang
  have q2 : Spec.editsOf (Spec.path (cat (trakList ts hn now s.flushed es hdr.length)) ["edts", "elst"]) = some (editsWanted ts s) := by
    rw [p2, editsWanted]
    by_cases h0 : s.streamOffset = 0
    · simp only [h0, if_true, Spec.editsOf]
    · simp only [h0, if_false, Spec.editsOf]
      have := f.duration
      exact elst_read _ _ (by omega) (by omega)
  rw [Spec.track, q2, p1, p3, p4, p5]
  simp only [Option.bind_eq_bind, Option.bind_some, q1, q3, hdlr_read, fs1, hstsd, hsamples]
  rw [handler_chars]
  rfl

end Verif.Movie
