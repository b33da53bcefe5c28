import Verif.Render.Text

/-
How an HLS client reads a playlist (RFC 8216).
-/
namespace Verif.Render.Spec

abbrev Line := List Char

/-- A line without a carriage return at its end. -/
def strip (l : Line) : Line := if l.getLast? = some '\r' then l.dropLast else l

/-- The lines of a text. `cur` is the line so far. -/
def lines : (cur : Line) → List Char → List Line
  | [], [] => []
  | c :: cur, [] => [strip (c :: cur)]
  | cur, c :: s => if c = '\n' then strip cur :: lines [] s else lines (cur ++ [c]) s

/-- What comes after a prefix. -/
def after (p l : Line) : Option Line := if p.isPrefixOf l then some (l.drop p.length) else none

/-- What a client finds in a media playlist: target durations, keys, segments (duration, address), and whether it is complete. -/
structure Playlist where
  targets : List Line := []
  keys : List Line := []
  segments : List (Line × Line) := []
  ended : Bool := false
deriving DecidableEq

/-- The line after a prefix among the lines of a media playlist, with the duration for the next segment. -/
def mediaLine (st : Option Line × Playlist) (l : Line) : Option (Option Line × Playlist) :=
  if l = [] then some st
  else if (after (t! "#EXTINF:") l).isSome then
    if st.1.isSome then none else some ((after (t! "#EXTINF:") l).map (·.takeWhile (· ≠ ',')), st.2)
  else if (after (t! "#EXT-X-TARGETDURATION:") l).isSome then
    some (st.1, { st.2 with targets := st.2.targets ++ (after (t! "#EXT-X-TARGETDURATION:") l).toList })
  else if (after (t! "#EXT-X-KEY:") l).isSome then some (st.1, { st.2 with keys := st.2.keys ++ (after (t! "#EXT-X-KEY:") l).toList })
  else if l = t! "#EXT-X-ENDLIST" then some (st.1, { st.2 with ended := true })
  else if l.head? = some '#' then some st
  else st.1.map fun d => (none, { st.2 with segments := st.2.segments ++ [(d, l)] })

/-- Read a media playlist; its first line must be `#EXTM3U`, and there is no duration without a segment. -/
def readMedia (text : List Char) : Option Playlist :=
  match lines [] text with
  | [] => none
  | l :: ls =>
    if l = t! "#EXTM3U" then (ls.foldlM mediaLine (none, {})).bind fun st => if st.1 = none then some st.2 else none
    else none

/-- A line of a master playlist: bandwidth of the next variant, variants (bandwidth, address). -/
def masterLine (st : Option Line × List (Line × Line)) (l : Line) : Option (Option Line × List (Line × Line)) :=
  if l = [] then some st
  else if (after (t! "#EXT-X-STREAM-INF:BANDWIDTH=") l).isSome then
    if st.1.isSome then none else some ((after (t! "#EXT-X-STREAM-INF:BANDWIDTH=") l).map (·.takeWhile (· ≠ ',')), st.2)
  else if l.head? = some '#' then some st
  else st.1.map fun d => (none, st.2 ++ [(d, l)])

/-- Read a master playlist. -/
def readMaster (text : List Char) : Option (List (Line × Line)) :=
  match lines [] text with
  | [] => none
  | l :: ls =>
    if l = t! "#EXTM3U" then (ls.foldlM masterLine (none, [])).bind fun st => if st.1 = none then some st.2 else none
    else none

end Verif.Render.Spec
