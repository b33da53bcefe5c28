import Verif.Remux.Props
import Verif.Parse.PropsBad
/-
C154: audio as fragments, made into a movie, read again.
-/
namespace Verif.Remux
open Verif.Moof (Opts Out moofMux)
open Verif.Moof.Spec (Seg written handed Consecutive)
open Verif.Interleave (QSample Mux IStream)
open Verif.Interleave.Spec (ofStream)
open Verif.Fragment (Sample box fourcc)
open Verif.Movie (MStream Kind initialization cat psshList movieFile streamsOf stepsOf shifted offsetOf)
open Verif.Parse (Accept FileRd Readable openFile)
open Verif.Reader (Reader readAll hns)

/-- A sound stream as the packager writes it: an initialization segment, then files of fragments. -/
structure Stream where
  trackId : Nat
  kind : Kind
  duration : Nat
  kid : Option (List UInt8)
  pssh : List (List UInt8)
  files : List (List Seg)

/-- The initialization segment (`produce_m4f_initialization`, module Movie). -/
def Stream.init (ts hn : Nat → Nat → Nat) (now : Nat) (s : Stream) : List UInt8 :=
  (initialization ts hn now s.trackId s.kind s.duration 10000000 s.kid (cat (psshList s.pssh))).getD []

/-- What is given to the command: the initialization segment and the files of fragments (`CMP4Fragment`, module Fragment), with one sound track of 10000000 units. -/
def Stream.source (ts hn : Nat → Nat → Nat) (now : Nat) (E : List UInt8 → List UInt8) (s : Stream) : Source :=
  ⟨[(true, 10000000)], s.init ts hn now :: s.files.map fun segs => (written (ts 10000000) E 10000000 segs).bytes⟩

/-- All samples of the stream. -/
def Stream.samples (s : Stream) : List Sample := s.files.flatten.flatMap (·.samples)

/-- What is asked of a file of fragments: its fragments can be written; none in the clear comes after an encrypted one; the times follow from the durations and fit; below 2^63 bytes. -/
structure FileOk (ts : Nat → Nat) (E : List UInt8 → List UInt8) (segs : List Seg) : Prop where
  ok : ∀ s ∈ segs, Verif.Moof.Seg.Ok ts 10000000 s
  clear : segs.Pairwise (fun a b => a.enc ≠ none → b.enc ≠ none)
  length : (written ts E 10000000 segs).bytes.length < 2 ^ 63
  times : ∀ s ∈ segs, Consecutive s.base s.samples ∧ (∀ x ∈ s.samples, x.composition < 2 ^ 63 ∧ x.decoding < 2 ^ 63 ∧
    -(2 ^ 31 : Int) ≤ (x.composition : Int) - x.decoding ∧ (x.composition : Int) - x.decoding < 2 ^ 31) ∧ (s.firstFlags = 0 → ∀ x ∈ s.samples, x.composition = x.decoding)

/-- A sample as it is added to the movie. -/
def queued (x : Sample) : QSample := ⟨x.composition, x.decoding, true, x.body⟩

theorem others_add_nothing (o : Opts) (fuel moof off : Nat) (hf : 3 ≤ fuel) (a b : List UInt8) (ta tb : Nat) (ha : (Verif.Moof.Spec.Extra.other ta a).Ok) (hb : (Verif.Moof.Spec.Extra.other tb b).Ok)
    (hl : (Verif.Moof.Spec.extras [.other ta a, .other tb b]).length < 2 ^ 32) (hE : ∀ E, o.key = some E → ∀ b, (E b).length = 16) :
    moofMux o fuel moof off (Verif.Moof.Spec.extras [.other ta a, .other tb b]) = some [] := by
  have := Verif.Moof.any_fragments_partial o hE [] [.other ta a, .other tb b] (by simp) (by
      intro x hx
      simp only [List.mem_cons, List.not_mem_nil, or_false] at hx
      rcases hx with rfl | rfl
      · exact ha
      · exact hb) hl (by simp) (by show (Verif.Moof.Spec.extras _).length < _; exact Nat.lt_trans hl (by decide)) fuel (by simp) (by simp; omega) (by simp; omega) moof off
  exact this

/-- Nothing is added from an initialization segment. -/
theorem init_adds_nothing (ts hn : Nat → Nat → Nat) (now : Nat) (s : Stream) (o : Opts) (fuel moof off : Nat) (hf : 3 ≤ fuel) (hl : (s.init ts hn now).length < 2 ^ 32)
    (hE : ∀ E, o.key = some E → ∀ b, (E b).length = 16) : moofMux o fuel moof off (s.init ts hn now) = some [] := by
  obtain ⟨ftyp, moov, e⟩ : ∃ ftyp moov, s.init ts hn now = Verif.Moof.Spec.extras [.other (fourcc 'f' 't' 'y' 'p') ftyp, .other (fourcc 'm' 'o' 'o' 'v') moov] := by
    obtain ⟨v, hv⟩ := Verif.Movie.initialization_eq ts hn now s.trackId s.kind s.duration 10000000 s.kid s.pssh
    refine ⟨Verif.Movie.initFtyp,
      cat (Verif.Movie.initMoov ts hn (Verif.Movie.initHeader now s.trackId 10000000) (Verif.Movie.initStream s.trackId s.kind 10000000 s.kid v) s.trackId s.duration s.pssh), ?_⟩
    rw [Stream.init, hv, Option.getD_some]
    simp only [Verif.Movie.cat_cons _ [], Verif.Movie.cat_cons _ [_], Verif.Movie.cat_nil, Verif.Moof.Spec.extras, List.flatMap_cons, List.flatMap_nil, Verif.Moof.Spec.Extra.bytes]
  rw [e] at hl ⊢
  exact others_add_nothing o fuel moof off hf _ _ _ _ ⟨by decide, by decide⟩ ⟨by decide, by decide⟩ hl hE

theorem handed_queued : ∀ (xs : List Sample) (first : Bool), (handed true first xs).map (fun o => (⟨o.composition, o.decoding, o.sync, o.body⟩ : QSample)) = xs.map queued
  | [], _ => rfl
  | x :: xs, first => by
    rw [handed, List.map_cons, List.map_cons, handed_queued xs false]
    simp [queued]

theorem ofStream_added (i : Nat) (l : List (Nat × Out)) : ofStream i (l.map added) = (ofStream i l).map fun o => (⟨o.composition, o.decoding, o.sync, o.body⟩ : QSample) := by
  simp only [ofStream, List.filter_map, List.map_map]
  rfl

theorem range_getD {α β : Type} (f : List α → List β) (xs : List (List α)) (d : List α) : (List.range xs.length).flatMap (fun i => f (xs.getD i d)) = xs.flatMap f := by
  rw [List.flatMap_def, List.flatMap_def]
  congr 1
  apply List.ext_getElem?
  intro j
  simp only [List.getElem?_map]
  by_cases hj : j < xs.length
  · rw [List.getElem?_range hj, List.getElem?_eq_getElem hj]
    simp [List.getD_eq_getElem?_getD, List.getElem?_eq_getElem hj]
  · rw [List.getElem?_eq_none (by simp; omega), List.getElem?_eq_none (by omega)]
    rfl

/-- C153 and C154, the calls: up to three sound streams that the packager wrote are added to the movie sample by sample, as they were, in the clear. -/
theorem sound_added_partial (ts hn : Nat → Nat → Nat) (now : Nat) (E : List UInt8 → List UInt8) (hE : ∀ b, (E b).length = 16) (key : Option (List UInt8 → List UInt8)) (hk : key = none ∨ key = some E)
    (norm : Nat → Nat → Nat) (fuel : Nat) (g : Nat → Nat → Nat × Nat) (streams : List Stream) (h3 : streams.length ≤ 3) (hfuel : 13 ≤ fuel)
    (hinit : ∀ s ∈ streams, (s.init ts hn now).length < 2 ^ 32)
    (hfiles : ∀ s ∈ streams, ∀ segs ∈ s.files, FileOk (ts 10000000) E segs ∧ segs.length < fuel ∧ ((∃ x ∈ segs, x.enc ≠ none) → key = some E)) :
    ∃ l, remux key norm fuel g (streams.map fun s => s.source ts hn now E) = some l ∧ (∀ x ∈ l, x.1 < streams.length) ∧
      ∀ (i : Nat) (s : Stream), streams[i]? = some s → ofStream i (l.map added) = s.samples.map queued := by
  have hE' : ∀ E', key = some E' → ∀ b, (E' b).length = 16 := by
    intro E' h b
    rcases hk with hk | hk <;> rw [hk] at h
    · cases h
    · cases h; exact hE b
  obtain ⟨outs, houts⟩ : ∃ outs : Nat → Nat → List Out, outs = fun k i => match i with
    | 0 => []
    | i + 1 => (((streams[k]?.map (·.files)).getD []).getD i []).flatMap fun x => handed true true x.samples := ⟨_, rfl⟩
  obtain ⟨l, l1, l2, l4⟩ := all_files_added_partial key norm fuel g (streams.map fun s => s.source ts hn now E) (by simpa using h3)
    (by
      intro s hs
      obtain ⟨t, _, rfl⟩ := List.mem_map.1 hs
      simp [Stream.source])
    (by
      intro s hs
      obtain ⟨t, _, rfl⟩ := List.mem_map.1 hs
      rfl) outs
    (by
      intro k s hs audio scale ht i f hf
      rw [List.getElem?_map, Option.map_eq_some_iff] at hs
      obtain ⟨t, t1, rfl⟩ := hs
      simp only [Stream.source, List.cons.injEq, Prod.mk.injEq, and_true] at ht
      obtain ⟨rfl, rfl⟩ := ht
      have hm := List.mem_of_getElem? t1
      cases i with
      | zero =>
        simp only [Stream.source, List.getElem?_cons_zero, Option.some.injEq] at hf
        rw [← hf, houts]
        exact init_adds_nothing ts hn now t _ fuel _ _ (by omega) (hinit t hm) hE'
      | succ i =>
        simp only [Stream.source, List.getElem?_cons_succ, List.getElem?_map, Option.map_eq_some_iff] at hf
        obtain ⟨segs, hsegs, rfl⟩ := hf
        obtain ⟨ok, hlen, henc⟩ := hfiles t hm segs (List.mem_of_getElem? hsegs)
        rw [Verif.Moof.fragments_round_trip_partial (ts 10000000) (norm 10000000) E hE key true segs ok.ok henc ok.clear ok.length ok.times fuel hfuel hlen]
        rw [houts]
        simp only [t1, Option.map_some, Option.getD_some, List.getD_eq_getElem?_getD, hsegs])
  refine ⟨l, l1, by simpa using l2, ?_⟩
  intro i s hs
  have hl := l4 i (s.source ts hn now E) (by rw [List.getElem?_map, hs]; rfl)
  rw [ofStream_added, hl]
  have hr : (List.range (s.source ts hn now E).files.length).flatMap (outs i) = s.files.flatMap fun segs => segs.flatMap fun x => handed true true x.samples := by
    rw [← range_getD (fun segs => segs.flatMap fun x => handed true true x.samples) s.files []]
    have : (s.source ts hn now E).files.length = s.files.length + 1 := by simp [Stream.source]
    rw [this, List.range_succ_eq_map, List.flatMap_cons, List.flatMap_map, houts]
    simp only [hs, Option.map_some, Option.getD_some, List.nil_append]
  rw [hr]
  have hfl : s.samples = s.files.flatMap fun segs => segs.flatMap (·.samples) := by
    rw [Stream.samples]
    induction s.files with
    | nil => rfl
    | cons a as ih => rw [List.flatten_cons, List.flatMap_append, List.flatMap_cons, ih]
  rw [hfl]
  simp only [List.map_flatMap, handed_queued]

/-- C154 (partial: sound; `FileOk`; `Readable` of module Parse for the movie; files below 4 GB; the last samples can be still in the queue). Up to three sound streams, packaged into fragments (in the clear or encrypted with the key that is
given to the command), are made into a movie file; opening it and reading it to the end delivers, for every stream, the samples that were packaged, from the first on, in order, each once, with exactly their bytes, less those still queued.
The decoding time is the sum of the measured durations, the composition time is later by the offset, both in units of 100 ns. -/
theorem fragments_to_movie_partial (ok : Accept) (ts hn : Nat → Nat → Nat) (now now' fuel fuel' distance : Nat) (useComp : Bool) (ps : List (MStream × List UInt8))
    (E : List UInt8 → List UInt8) (hE : ∀ b, (E b).length = 16) (key : Option (List UInt8 → List UInt8)) (hk : key = none ∨ key = some E)
    (norm : Nat → Nat → Nat) (g : Nat → Nat → Nat × Nat) (streams : List Stream) (h3 : streams.length ≤ 3) (hfuel : 13 ≤ fuel)
    (hinit : ∀ s ∈ streams, (s.init ts hn now).length < 2 ^ 32)
    (hfiles : ∀ s ∈ streams, ∀ segs ∈ s.files, FileOk (ts 10000000) E segs ∧ segs.length < fuel ∧ ((∃ x ∈ segs, x.enc ≠ none) → key = some E)) :
    ∃ l, remux key norm fuel g (streams.map fun s => s.source ts hn now E) = some l ∧
      ∀ m, Readable ok ts hn fuel' distance useComp ps (l.map added) m → ∃ file, movieFile ts hn now' (streamsOf ps m) m.mdat = some file ∧
        (file.length < 2 ^ 32 → ∀ n, file.length ≤ n → ∃ (f : FileRd) (r : Reader) (bound : Nat), openFile ok n file = .ok (f, r) ∧ ∀ calls, bound ≤ calls → ∃ out, readAll calls r = some out ∧
          ∀ (i : Nat) (p : MStream × List UInt8) (s : Stream), ps[i]? = some p → streams[i]? = some s → ∃ (t : IStream) (n : Nat), m.streams[i]? = some t ∧ n + t.queue.length = s.samples.length ∧
            (Verif.Reader.Spec.ofStream out i).map (fun x => Verif.Movie.Spec.slice file x.offset x.size) = (s.samples.take n).map (fun x => some x.body) ∧
            (∀ x ∈ Verif.Reader.Spec.ofStream out i, x.sync = true) ∧
            (Verif.Reader.Spec.ofStream out i).map (·.decoding) = (List.range n).map (fun j => hns ((shifted (stepsOf ts hn p.1 ((s.samples.take n).map queued))).take j).sum p.1.scale) ∧
            (Verif.Reader.Spec.ofStream out i).map (·.composition) =
              (s.samples.take n).mapIdx (fun j x => hns (((shifted (stepsOf ts hn p.1 ((s.samples.take n).map queued))).take j).sum + offsetOf ts p.1 (queued x)) p.1.scale)) := by
  obtain ⟨l, l1, l2, l3⟩ := sound_added_partial ts hn now E hE key hk norm fuel g streams h3 hfuel hinit hfiles
  refine ⟨l, l1, fun m R => ?_⟩
  obtain ⟨file, f1, f2⟩ := Verif.Parse.movie_reads_back_partial ok ts hn now' fuel' distance useComp ps (l.map added) m R
  refine ⟨file, f1, fun hlen n hn => ?_⟩
  obtain ⟨f, r, bound, b1, b2⟩ := f2 hlen n hn
  refine ⟨f, r, bound, b1, fun calls hc => ?_⟩
  obtain ⟨out, o1, o2, o3⟩ := b2 calls hc
  refine ⟨out, o1, fun i p s hp hs => ?_⟩
  obtain ⟨t, qs, t1, t2, t3, t4, t5, t6⟩ := o3 i p hp
  rw [l3 i s hs] at t2
  have hlq : qs.length + t.queue.length = s.samples.length := by
    have := congrArg List.length t2
    simpa using this
  have hqs : qs = (s.samples.take qs.length).map queued := by
    have := congrArg (List.take qs.length) t2
    rw [List.take_left, ← List.map_take] at this
    exact this
  refine ⟨t, qs.length, t1, hlq, ?_, ?_, ?_, ?_⟩
  · rw [t3]
    conv => lhs; rw [hqs]
    rw [List.map_map]; rfl
  · intro x hx
    have h1 : x.sync ∈ (Verif.Reader.Spec.ofStream out i).map (·.sync) := List.mem_map_of_mem hx
    rw [t4] at h1
    obtain ⟨q, hq, hq'⟩ := List.mem_map.1 h1
    rw [hqs] at hq
    obtain ⟨y, _, rfl⟩ := List.mem_map.1 hq
    rw [← hq']
    simp [queued]
  · rw [t5, ← hqs]
  · rw [t6, ← hqs]
    conv => lhs; rw [hqs]
    apply List.ext_getElem?
    intro j
    simp only [List.getElem?_mapIdx, List.getElem?_map]
    rw [← hqs]
    cases (s.samples.take qs.length)[j]? <;> rfl

end Verif.Remux
