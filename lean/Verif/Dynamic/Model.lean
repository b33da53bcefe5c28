/-
Model of the index of a presentation: `DynamicBitrate`, `DynamicPoints`, the rendering loop of `DynamicPoints::render` and
`DynamicPresentation::rebase` (src/mg/media/mp4dynamicinfo.h), the choice of segment starts in `CMP4DynamicDiscreate::publish_composition`
(src/mg/media/mp4dynamic.cpp) and `CMediaJoin` (src/mg/media/MediaJoin.h).

A `std::map` or `std::set` with `int64_t` keys is the list of its entries in the order of its iterators, that is by increasing key. Times
are integers: the model leaves out the wrapping of `int64_t` and `uint64_t`, so it speaks of times below 2^62 (and not negative where the
code passes them as `uint64_t`). Dereferencing or advancing an end iterator is undefined behaviour in C++ and is modelled as `none`.
-/
namespace Verif.Dynamic

/-! ### std::map -/

/-- `m[k] = v`. -/
def mapSet {V : Type} : List (Int × V) → Int → V → List (Int × V)
  | [], k, v => [(k, v)]
  | (k', v') :: m, k, v => if k < k' then (k, v) :: (k', v') :: m else if k = k' then (k, v) :: m else (k', v') :: mapSet m k v

/-- `m.find(k)`, with the value. -/
def mapFind {V : Type} : List (Int × V) → Int → Option V
  | [], _ => none
  | (k', v') :: m, k => if k' = k then some v' else mapFind m k

/-- Number of entries before `m.lower_bound(k)`, the first entry whose key is not below `k`. -/
def lowerBound {V : Type} : List (Int × V) → Int → Nat
  | [], _ => 0
  | (k', _) :: m, k => if k' < k then lowerBound m k + 1 else 0

/-- Number of elements before `s.upper_bound(k)`, the first element above `k`. -/
def upperBound : List Int → Int → Nat
  | [], _ => 0
  | x :: s, k => if x ≤ k then upperBound s k + 1 else 0

/-- `s.insert(k)` for a set. -/
def setInsert : List Int → Int → List Int
  | [], k => [k]
  | x :: s, k => if k < x then k :: x :: s else if k = x then x :: s else x :: setInsert s k

/-! ### DynamicBitrate -/

/-- src/mg/media/mp4dynamicinfo.h 78-89: `DynamicBitrate::Add`. -/
def bitrateAdd {P : Type} (paths : List (Int × P)) (start : Int) (path : P) : List (Int × P) :=
  let paths := if paths.length = 0 ∧ start > 0 then mapSet paths 0 path else paths
  if (mapFind paths start).isNone then mapSet paths start path else paths

/-- src/mg/media/mp4dynamicinfo.h 91-110: `DynamicBitrate::rebase`; the second loop copies the map back. -/
def mapRebase {V : Type} (m : List (Int × V)) (offset : Int) : List (Int × V) :=
  let tmp := m.foldl (fun t e => mapSet t (e.1 + offset) e.2) []
  tmp.foldl (fun t e => mapSet t e.1 e.2) []

/-- src/mg/media/mp4dynamicinfo.h 112-123: `DynamicBitrate::get_iterator_path`, the index of the entry. -/
def iteratorPath {P : Type} (paths : List (Int × P)) (t : Int) : Nat :=
  let it := lowerBound paths t
  if it ≠ 0 ∧ (it = paths.length ∨ (paths[it]?).map (·.1) ≠ some t) then it - 1 else it

/-- src/mg/media/mp4dynamicinfo.h 125-130: `DynamicBitrate::get_path`. -/
def getPath {P : Type} (paths : List (Int × P)) (t : Int) : Option P := (paths[iteratorPath paths t]?).map (·.2)

/-! ### DynamicPoints -/

/-- src/mg/media/mp4dynamicinfo.h 150-156: `CrossPoint`. -/
structure CrossPoint where
  computed : Int
  composition : Int
  computed2 : Int
  composition2 : Int
deriving DecidableEq

/-- src/mg/media/mp4dynamicinfo.h 28: `CROSS_POINT_TIME`, `INT64_MIN`. -/
def crossPointTime : Int := -(2 ^ 63)

/-- src/mg/media/mp4dynamicinfo.h 158-169: the members of `DynamicPoints`. -/
structure Points where
  computed : List (Int × Int) := []
  cross : List (Int × CrossPoint) := []
  fileCross : List Int := []

/-- src/mg/media/mp4dynamicinfo.h 171-174: `DynamicPoints::Add`. -/
def Points.add (p : Points) (t composition : Int) : Points := { p with computed := mapSet p.computed t composition }

/-- src/mg/media/mp4dynamicinfo.h 176-179: `DynamicPoints::AddFileCross`. -/
def Points.addFileCross (p : Points) (t : Int) : Points := { p with fileCross := setInsert p.fileCross t }

/-- src/mg/media/mp4dynamicinfo.h 181-191: `DynamicPoints::AddCross`. -/
def Points.addCross (p : Points) (t composition t2 composition2 : Int) : Points :=
  { p with computed := mapSet p.computed t crossPointTime, cross := mapSet p.cross t ⟨t, composition, t2, composition2⟩ }

/-- src/mg/media/mp4dynamicinfo.h 193-205: `get_cross_point`; `none`: it throws. -/
def Points.getCrossPoint (p : Points) (t : Int) : Option CrossPoint := mapFind p.cross t

/-- src/mg/media/mp4dynamicinfo.h 207-219: `is_cross_point`; `none`: it throws. -/
def Points.isCrossPoint (p : Points) (t : Int) : Option Bool := (mapFind p.computed t).map (· = crossPointTime)

/-- Result of a search. -/
inductive Found
  | throws
  | undefined
  | at (t : Int)
deriving DecidableEq

/-- src/mg/media/mp4dynamicinfo.h 221-233: `get_grater_or_equal`. -/
def Points.getGreaterOrEqual (p : Points) (t : Int) : Found :=
  match p.computed[lowerBound p.computed t]? with
  | none => .throws
  | some e => .at e.1

/-- src/mg/media/mp4dynamicinfo.h 254-265 and 271-284: the two tests applied to a neighbour: the target and its distance. -/
def closer (t k : Int) (cur : Int × Int) : Int × Int :=
  let cur := if k > t ∧ k - t < cur.2 then (k, k - t) else cur
  if k ≤ t ∧ t - k < cur.2 then (k, t - k) else cur

/-- src/mg/media/mp4dynamicinfo.h 249-266: the entry before, if there is one, is tested. -/
def closestBefore (m : List (Int × Int)) (t : Int) (i : Nat) (cur : Int × Int) : Int × Int :=
  match m[i]? with
  | none => cur
  | some e => closer t e.1 cur

/-- src/mg/media/mp4dynamicinfo.h 268-287: the entry the iterator is advanced to is tested, if it is not the end; `.undefined` when the
iterator has passed the end. -/
def closestAfter (m : List (Int × Int)) (t : Int) (i : Nat) (cur : Int × Int) : Found :=
  if i > m.length then .undefined
  else match m[i]? with
    | none => .at cur.1
    | some e => .at (closer t e.1 cur).1

/-- src/mg/media/mp4dynamicinfo.h 235-288: `get_closest`. The iterator is advanced twice, whether or not it has been moved back. -/
def Points.getClosest (p : Points) (t : Int) : Found :=
  let i := lowerBound p.computed t
  match p.computed[i]? with
  | none => .throws
  | some e =>
    if i ≠ 0 then closestAfter p.computed t (i - 1 + 2) (closestBefore p.computed t (i - 1) (e.1, e.1 - t))
    else closestAfter p.computed t (i + 2) (e.1, e.1 - t)

/-- src/mg/media/mp4dynamicinfo.h 290-300: `get`; `none`: it throws. -/
def Points.get (p : Points) (t : Int) : Option Int := mapFind p.computed t

/-- The entry after the one with key `k`: what `find` followed by `++` points to. -/
def next {V : Type} : List (Int × V) → Int → Option (Int × V)
  | [], _ => none
  | (k', _) :: m, k => if k' = k then m.head? else next m k

/-- src/mg/media/mp4dynamicinfo.h 302-336: `get_end`; `none`: an end iterator is dereferenced (unknown time, or the last point). -/
def Points.getEnd (p : Points) (t : Int) : Option Int :=
  match mapFind p.computed t, next p.computed t with
  | some orig, some (comp', orig') =>
    if upperBound p.fileCross t ≠ upperBound p.fileCross comp' then some (orig + (comp' - t)) else some orig'
  | _, _ => none

/-- src/mg/media/mp4dynamicinfo.h 338-351: `get_end_computed`; `none` as for `getEnd`. -/
def Points.getEndComputed (p : Points) (t : Int) : Option Int := (next p.computed t).map (·.1)

/-- src/mg/media/mp4dynamicinfo.h 355-361: `mint`. -/
def Points.mint (p : Points) : Int := match p.computed with | [] => 0 | e :: _ => e.1

/-- src/mg/media/mp4dynamicinfo.h 362-371: `maxt`. -/
def Points.maxt (p : Points) : Int := match p.computed.getLast? with | none => 0 | some e => e.1

/-- src/mg/media/mp4dynamicinfo.h 477-488: `duration`. -/
def Points.duration (p : Points) : Int := p.maxt - p.mint

/-- src/mg/media/mp4dynamicinfo.h 373-427: `DynamicPoints::rebase`. The keys of the cross points move, the times inside of them do not. -/
def Points.rebase (p : Points) (offset : Int) : Points :=
  { computed := mapRebase p.computed offset
    fileCross := (p.fileCross.foldl (fun s x => setInsert s (x + offset)) []).foldl setInsert []
    cross := mapRebase p.cross offset }

/-- A call `add_point(computed_time, duration)` with the composition time of the point. -/
structure Rendered where
  time : Int
  duration : Int
  composition : Int
deriving DecidableEq

/-- src/mg/media/mp4dynamicinfo.h 435-472: the loop of `DynamicPoints::render`, from the second entry on; `t` and `te` are the entry before. -/
def renderLoop (t te : Int) : List (Int × Int) → List Rendered
  | [] => []
  | (k, v) :: m => ⟨t, k - t, te⟩ :: renderLoop k v m

/-- src/mg/media/mp4dynamicinfo.h 429-475: `DynamicPoints::render`: the `add_point` calls. The paths reported with them (`add_point_info`) are
modelled by `pointPaths`. -/
def Points.render (p : Points) : List Rendered :=
  match p.computed with
  | [] => []
  | (k, v) :: m => renderLoop k v m

/-- src/mg/media/mp4dynamicinfo.h 448-460: the files reported for a point: one (path, composition, computed) for an ordinary point, two for a
cross point. `none` if a lookup throws or dereferences an end iterator. -/
def Points.pointPaths {P : Type} (p : Points) (paths : List (Int × P)) (t te : Int) : Option (List (P × Int × Int)) :=
  (p.isCrossPoint t).bind fun isCross =>
    if isCross then
      (p.getCrossPoint t).bind fun cp => (getPath paths cp.computed).bind fun p1 => (getPath paths cp.computed2).bind fun p2 =>
        some [(p1, cp.composition, cp.computed), (p2, cp.composition2, cp.computed2)]
    else (getPath paths t).bind fun p1 => some [(p1, te, t)]

/-! ### DynamicPresentation -/

/-- src/mg/media/mp4dynamicinfo.h 496-509: the members of `DynamicStream` the model uses. -/
structure Stream (P : Type) where
  points : Points
  bitrates : List (Nat × List (Int × P))

/-- src/mg/media/mp4dynamicinfo.h 585-594: `DynamicStream::rebase`. -/
def Stream.rebase {P : Type} (s : Stream P) (offset : Int) : Stream P :=
  { points := s.points.rebase offset, bitrates := s.bitrates.map fun b => (b.1, mapRebase b.2 offset) }

/-- src/mg/media/mp4dynamicinfo.h 916-935: `DynamicPresentation::rebase`, for streams whose ids are 0, 1, 2, ... (the list index). -/
def rebaseAll {P : Type} (streams : List (Stream P)) : List (Stream P) :=
  let min := streams.foldl (fun m s => if s.points.mint < m then s.points.mint else m) (2 ^ 63 - 1)
  if 0 > min then streams.map (·.rebase (min * -1)) else streams

/-! ### publishing -/

/-- src/mg/media/mp4dynamic.cpp 454-470: `publish_composition` for one stream: `last` is `_last_fragment[stream]` (`none` for `UINT64_MAX`);
the result is the new `last` and whether the point is published. -/
def publishStep (length tolerance : Int) (last : Option Int) (t : Int) : Option Int × Bool :=
  match last with
  | none => (some (t + length), true)
  | some l => if l - tolerance ≤ t then (some (t + length), true) else (some l, false)

/-- src/mg/media/mp4dynamic.cpp 67-88: the loop in `move_to_read` over the I frames of a stream: which times are published. `begin_stream`
(src/mg/media/mp4dynamic.h 359) has set `last` to `UINT64_MAX`. -/
def publishLoop (length tolerance : Int) : Option Int → List Int → List Int
  | _, [] => []
  | last, t :: ts =>
    let (last', pub) := publishStep length tolerance last t
    if pub then t :: publishLoop length tolerance last' ts else publishLoop length tolerance last' ts

/-- The times published for the I frame times of a stream. -/
def publish (length tolerance : Int) (iframes : List Int) : List Int := publishLoop length tolerance none iframes

/-! ### CMediaJoin -/

/-- src/mg/media/MediaJoin.h 51-83: `CMediaJoin::Compute`: the differences `_streams_diff` and `_min`, for the (start, end) of the streams;
`none` without streams (`max_element` of an empty vector is dereferenced). -/
def joinCompute (streams : List (Int × Int)) : Option (List Int × Int) :=
  let maxEnd := streams.foldl (fun m s => if m < s.2 then s.2 else m) 0
  let minStart := streams.foldl (fun m s => if m > s.1 then s.1 else m) (2 ^ 63 - 1)
  let diffs := streams.map fun s => (s.2 - maxEnd) + (minStart - s.1)
  match diffs with
  | [] => none
  | d :: ds => some (d :: ds, ds.foldl (fun m x => if m < x then x else m) d)

/-- src/mg/media/MediaJoin.h 86-91: `GetJoinTime`. -/
def joinTime (streams : List (Int × Int)) (i : Nat) : Option Int :=
  match joinCompute streams, streams[i]? with
  | some (diffs, min), some s => (diffs[i]?).map fun d => s.2 + (-1 * (d - min))
  | _, _ => none

end Verif.Dynamic
