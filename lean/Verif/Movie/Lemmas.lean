import Verif.Movie.Model
import Verif.Fragment.Lemmas
namespace Verif.Movie
open Verif.Cenc.Spec (be beVal)
open Verif.Cenc (be_length)
open Verif.Fragment
open Verif.Tables (WStream stscEntries stszWords stcoWords stssWords sttsEntries cttsEntries u32 sub64)

/-! ### The header of a movie as byte strings -/

/-- Boxes one behind the other. -/
def cat (l : List (Nat × List UInt8)) : List UInt8 := l.flatMap fun x => box x.1 x.2

theorem cat_nil : cat [] = [] := rfl
theorem cat_cons (x : Nat × List UInt8) (l : List (Nat × List UInt8)) : cat (x :: l) = box x.1 x.2 ++ cat l := rfl
theorem cat_append (a b : List (Nat × List UInt8)) : cat (a ++ b) = cat a ++ cat b := List.flatMap_append
theorem cat_one (t : Nat) (b : List UInt8) : cat [(t, b)] = box t b := by simp [cat]

theorem foldl_put {α : Type} (f : α → List UInt8) : ∀ (l : List α) (B : List UInt8) (ps : List Nat),
    l.foldl (fun w x => w.put (f x)) (atEnd B ps) = atEnd (B ++ l.flatMap f) ps
  | [], B, ps => by simp
  | x :: l, B, ps => by rw [List.foldl_cons, put_atEnd, foldl_put f l]; simp

theorem table_atEnd (B : List UInt8) (ps : List Nat) (n : Nat) (es : List Nat) :
    table (atEnd B ps) n es = atEnd (B ++ (be 4 n ++ words es)) ps := by
  simp only [table, put_atEnd, foldl_put]
  have h := patch B (be 4 0xFFFFFFFF) (be 4 n) (words es) ps B.length (B ++ (be 4 0xFFFFFFFF ++ words es)).length (by rw [be_length, be_length]) rfl
  rw [show B ++ be 4 0xFFFFFFFF ++ List.flatMap (fun x => be 4 x) es = B ++ (be 4 0xFFFFFFFF ++ words es) by simp [words]]
  show ((W.seek ⟨_, _, ps⟩ B.length).put (be 4 n)).seek (B ++ (be 4 0xFFFFFFFF ++ words es)).length = _
  rw [h]
  simp [atEnd, be_length]

/-- Opening a box, writing `b` and closing it. -/
theorem close_opened (B b : List UInt8) (t : Nat) (ps : List Nat) : (atEnd (B ++ opened t ++ b) (B.length :: ps)).closeBox = atEnd (B ++ box t b) ps :=
  closeBox_atEnd _ B b t ps (by simp)

def sinfBytes (format : Nat) : Option (List UInt8) → List UInt8
  | none => []
  | some kid => box (fourcc 's' 'i' 'n' 'f') (cat [(fourcc 'f' 'r' 'm' 'a', be 4 format), (fourcc 's' 'c' 'h' 'm', full 0 0 ++ be 4 (fourcc 'c' 'e' 'n' 'c') ++ be 4 0x10000),
      (fourcc 's' 'c' 'h' 'i', cat [(fourcc 't' 'e' 'n' 'c', full 0 0 ++ be 1 0 ++ be 1 0 ++ be 1 1 ++ be 1 8 ++ kid)])])

theorem writeSinf_eq (B : List UInt8) (ps : List Nat) (format : Nat) (kid : Option (List UInt8)) :
    writeSinf (atEnd B ps) format kid = atEnd (B ++ sinfBytes format kid) ps := by
  cases kid with
  | none => simp [writeSinf, sinfBytes]
  | some kid =>
    simp only [writeSinf, openBox_atEnd, put_atEnd, close_opened]
    rw [closeBox_atEnd _ B (cat [(fourcc 'f' 'r' 'm' 'a', be 4 format), (fourcc 's' 'c' 'h' 'm', full 0 0 ++ be 4 (fourcc 'c' 'e' 'n' 'c') ++ be 4 0x10000),
      (fourcc 's' 'c' 'h' 'i', cat [(fourcc 't' 'e' 'n' 'c', full 0 0 ++ be 1 0 ++ be 1 0 ++ be 1 1 ++ be 1 8 ++ kid)])]) (fourcc 's' 'i' 'n' 'f') _ (by simp [cat])]
    rfl

/-- Type and body of a sample description. -/
def entryOf (kind : Kind) (kid : Option (List UInt8)) : Nat × List UInt8 :=
  match kind with
  | .visual width height config name =>
    (if kid.isSome then fourcc 'e' 'n' 'c' 'v' else fourcc 'a' 'v' 'c' '1',
      visualBody width height name ++ (sinfBytes (fourcc 'a' 'v' 'c' '1') kid ++ box (fourcc 'a' 'v' 'c' 'C') config))
  | .audio rate channels config =>
    (if kid.isSome then fourcc 'e' 'n' 'c' 'a' else fourcc 'm' 'p' '4' 'a', audioBody rate channels ++ (config ++ sinfBytes (fourcc 'm' 'p' '4' 'a') kid))

theorem writeEntry_eq (B : List UInt8) (ps : List Nat) (kind : Kind) (kid : Option (List UInt8)) :
    writeEntry (atEnd B ps) kind kid = atEnd (B ++ box (entryOf kind kid).1 (entryOf kind kid).2) ps := by
  cases kind with
  | visual width height config name =>
    simp only [writeEntry, openBox_atEnd, put_atEnd, writeSinf_eq, close_opened, entryOf]
    exact closeBox_atEnd _ B _ _ _ (by simp only [List.append_assoc])
  | audio rate channels config =>
    simp only [writeEntry, openBox_atEnd, put_atEnd, writeSinf_eq, entryOf]
    exact closeBox_atEnd _ B _ _ _ (by simp only [List.append_assoc])

/-- The sample descriptions. -/
def entries (s : MStream) : List (Nat × List UInt8) := entryOf s.kind s.kid :: (if s.kid.isSome then [entryOf s.kind none] else [])

def stsdBody (s : MStream) : List UInt8 := full 0 0 ++ (be 4 (if s.kid.isSome then 2 else 1) ++ cat (entries s))

theorem writeStsd_eq (B : List UInt8) (ps : List Nat) (s : MStream) : writeStsd (atEnd B ps) s = atEnd (B ++ box (fourcc 's' 't' 's' 'd') (stsdBody s)) ps := by
  simp only [writeStsd, openBox_atEnd, put_atEnd, writeEntry_eq, stsdBody, entries]
  by_cases h : s.kid.isSome = true
  · simp only [h, if_true]
    exact closeBox_atEnd _ B _ _ _ (by simp [cat])
  · simp only [h, Bool.false_eq_true, if_false]
    exact closeBox_atEnd _ B _ _ _ (by simp [cat])

/-- Body of a table box with a count. -/
def tableBody (n : Nat) (es : List Nat) : List UInt8 := full 0 0 ++ (be 4 n ++ words es)

def pairList (es : List (Nat × Nat)) : List Nat := es.flatMap fun e => [e.1, e.2]
def tripleList (es : List (Nat × Nat)) : List Nat := es.flatMap fun e => [e.1, e.2, 1]

theorem openTable (B : List UInt8) (ps : List Nat) (t n : Nat) (es : List Nat) :
    (table (((atEnd B ps).openBox t).put (full 0 0)) n es).closeBox = atEnd (B ++ box t (tableBody n es)) ps := by
  rw [openBox_atEnd, put_atEnd, table_atEnd, closeBox_atEnd _ B (tableBody n es) t ps (by simp [tableBody])]

def sttsBody (ts hn : Nat → Nat → Nat) (s : MStream) : List UInt8 :=
  let es := sttsEntries (ts s.scale) (hn s.scale) s.allowEmpty (s.w.samples.map (·.decoding))
  tableBody es.length (pairList es)

theorem writeStts_eq (ts hn : Nat → Nat → Nat) (B : List UInt8) (ps : List Nat) (s : MStream) :
    writeStts ts hn (atEnd B ps) s = atEnd (B ++ box (fourcc 's' 't' 't' 's') (sttsBody ts hn s)) ps := openTable B ps _ _ _

def cttsList (ts : Nat → Nat → Nat) (s : MStream) : List (Nat × List UInt8) :=
  match cttsEntries (ts s.scale) s.ctts s.w with
  | none => []
  | some es => [(fourcc 'c' 't' 't' 's', tableBody es.length (pairList es))]

theorem writeCtts_eq (ts : Nat → Nat → Nat) (B : List UInt8) (ps : List Nat) (s : MStream) :
    writeCtts ts (atEnd B ps) s = atEnd (B ++ cat (cttsList ts s)) ps := by
  unfold writeCtts cttsList
  cases cttsEntries (ts s.scale) s.ctts s.w with
  | none => simp [cat]
  | some es => simp only [cat_one]; exact openTable B ps _ _ _

theorem writeStsc_eq (B : List UInt8) (ps : List Nat) (s : MStream) :
    writeStsc (atEnd B ps) s = (stscEntries s.w.chunks s.allowEmpty).map fun es => atEnd (B ++ box (fourcc 's' 't' 's' 'c') (tableBody es.length (tripleList es))) ps := by
  unfold writeStsc
  cases stscEntries s.w.chunks s.allowEmpty with
  | none => rfl
  | some es => simp only [Option.map_some, Option.some.injEq]; exact openTable B ps _ _ _

def stszBody (s : MStream) : List UInt8 := full 0 0 ++ words (stszWords s.w)

theorem writeStsz_eq (B : List UInt8) (ps : List Nat) (s : MStream) : writeStsz (atEnd B ps) s = atEnd (B ++ box (fourcc 's' 't' 's' 'z') (stszBody s)) ps := by
  simp only [writeStsz, openBox_atEnd, put_atEnd]
  exact closeBox_atEnd _ B _ _ _ (by simp [stszBody])

/-- The chunk offsets. -/
def payload (s : MStream) (k : Nat) : List UInt8 := s.w.chunks.flatMap fun c => be 4 (c.position + k)

theorem payload_length (s : MStream) (k : Nat) : (payload s k).length = 4 * s.w.chunks.length := by
  unfold payload
  induction s.w.chunks with
  | nil => rfl
  | cons c l ih => simp [be_length, ih]; omega

def stcoBody (s : MStream) (k : Nat) : List UInt8 := (full 0 0 ++ be 4 s.w.chunks.length) ++ payload s k

theorem full_length (v f : Nat) : (full v f).length = 4 := by simp [full, be_length]

theorem writeStco_eq (B : List UInt8) (ps : List Nat) (s : MStream) :
    writeStco (atEnd B ps) s = (atEnd (B ++ box (fourcc 's' 't' 'c' 'o') (stcoBody s 0)) ps, B.length + 16) := by
  simp only [writeStco, openBox_atEnd, put_atEnd, writeStcoBody]
  rw [if_neg (by simp), foldl_put]
  rw [closeBox_atEnd _ B (stcoBody s 0) (fourcc 's' 't' 'c' 'o') ps (by simp [stcoBody, payload])]
  simp [atEnd, opened_length, full_length, be_length]

def stssList (s : MStream) : List (Nat × List UInt8) :=
  match stssWords s.w with
  | none => []
  | some ws => [(fourcc 's' 't' 's' 's', full 0 0 ++ words ws)]

theorem writeStss_eq (B : List UInt8) (ps : List Nat) (s : MStream) : writeStss (atEnd B ps) s = atEnd (B ++ cat (stssList s)) ps := by
  unfold writeStss stssList
  cases stssWords s.w with
  | none => simp [cat]
  | some ws =>
    simp only [openBox_atEnd, put_atEnd, cat_one]
    exact closeBox_atEnd _ B _ _ _ (by simp)

/-- The boxes of a sample table before the chunk offsets. -/
def stblPre (ts hn : Nat → Nat → Nat) (s : MStream) (es : List (Nat × Nat)) : List (Nat × List UInt8) :=
  (fourcc 's' 't' 's' 'd', stsdBody s) :: (fourcc 's' 't' 't' 's', sttsBody ts hn s) :: (cttsList ts s ++
    [(fourcc 's' 't' 's' 'c', tableBody es.length (tripleList es)), (fourcc 's' 't' 's' 'z', stszBody s)])

def stblList (ts hn : Nat → Nat → Nat) (s : MStream) (es : List (Nat × Nat)) (k : Nat) : List (Nat × List UInt8) :=
  stblPre ts hn s es ++ (fourcc 's' 't' 'c' 'o', stcoBody s k) :: stssList s

theorem writeStbl_eq (ts hn : Nat → Nat → Nat) (B : List UInt8) (ps : List Nat) (s : MStream) :
    writeStbl ts hn (atEnd B ps) s = (stscEntries s.w.chunks s.allowEmpty).map fun es =>
      (atEnd (B ++ box (fourcc 's' 't' 'b' 'l') (cat (stblList ts hn s es 0))) ps, B.length + 8 + (cat (stblPre ts hn s es)).length + 16) := by
  simp only [writeStbl, openBox_atEnd, writeStsd_eq, writeStts_eq, writeCtts_eq, writeStsc_eq]
  cases stscEntries s.w.chunks s.allowEmpty with
  | none => rfl
  | some es =>
    simp only [Option.map_some, writeStsz_eq, writeStco_eq, writeStss_eq]
    rw [closeBox_atEnd _ B (cat (stblList ts hn s es 0)) (fourcc 's' 't' 'b' 'l') _ (by simp [stblList, stblPre, cat])]
    simp only [Option.some.injEq, Prod.mk.injEq, true_and]
    simp only [stblPre, cat_cons, cat_append, cat_nil, List.length_append, opened_length, List.length_nil]
    omega

def edtsList (ts : Nat → Nat → Nat) (s : MStream) : List (Nat × List UInt8) :=
  if s.streamOffset = 0 then []
  else [(fourcc 'e' 'd' 't' 's', cat [(fourcc 'e' 'l' 's' 't', full 0 0 ++ be 4 2 ++ (be 4 (ts s.mvhdScale s.streamOffset) ++ be 4 0xFFFFFFFF ++ be 2 1 ++ be 2 0) ++
    (be 4 (ts s.mvhdScale s.duration) ++ be 4 0 ++ be 2 1 ++ be 2 0))])]

theorem writeEdts_eq (ts : Nat → Nat → Nat) (B : List UInt8) (ps : List Nat) (s : MStream) :
    writeEdts ts (atEnd B ps) s = atEnd (B ++ cat (edtsList ts s)) ps := by
  unfold writeEdts edtsList
  by_cases h : s.streamOffset = 0
  · simp [h, cat]
  · simp only [if_neg h, openBox_atEnd, put_atEnd, close_opened]
    rw [cat_one, cat_one]

def mediaHeader : Kind → Nat × List UInt8
  | .visual .. => (fourcc 'v' 'm' 'h' 'd', full 0 0 ++ be 2 0 ++ be 2 0 ++ be 2 0 ++ be 2 0)
  | .audio .. => (fourcc 's' 'm' 'h' 'd', full 0 0 ++ be 2 0 ++ be 2 0)

theorem writeMediaHeader_eq (B : List UInt8) (ps : List Nat) (k : Kind) :
    writeMediaHeader (atEnd B ps) k = atEnd (B ++ box (mediaHeader k).1 (mediaHeader k).2) ps := by
  cases k <;> exact child_atEnd _ _ _ _

def dinfBody : List UInt8 := cat [(fourcc 'd' 'r' 'e' 'f', full 0 0 ++ be 4 1 ++ cat [(fourcc 'u' 'r' 'l' ' ', full 0 1)])]

def minfPre (s : MStream) : List (Nat × List UInt8) := [mediaHeader s.kind, (fourcc 'd' 'i' 'n' 'f', dinfBody)]

def mdiaPre (ts : Nat → Nat → Nat) (now : Nat) (s : MStream) : List (Nat × List UInt8) :=
  [(fourcc 'm' 'd' 'h' 'd', mdhdBody now s.scale (ts s.scale s.duration) s.lang), (fourcc 'h' 'd' 'l' 'r', hdlrBody s.kind.handler)]

def trakPre (ts : Nat → Nat → Nat) (now : Nat) (s : MStream) : List (Nat × List UInt8) :=
  (fourcc 't' 'k' 'h' 'd', tkhdBody now (s.id + 1) (ts s.mvhdScale s.duration + ts s.mvhdScale s.streamOffset) s.kind.header.1 s.kind.header.2.1 s.kind.header.2.2) :: edtsList ts s

def minfList (ts hn : Nat → Nat → Nat) (s : MStream) (es : List (Nat × Nat)) (k : Nat) : List (Nat × List UInt8) :=
  minfPre s ++ [(fourcc 's' 't' 'b' 'l', cat (stblList ts hn s es k))]

def mdiaList (ts hn : Nat → Nat → Nat) (now : Nat) (s : MStream) (es : List (Nat × Nat)) (k : Nat) : List (Nat × List UInt8) :=
  mdiaPre ts now s ++ [(fourcc 'm' 'i' 'n' 'f', cat (minfList ts hn s es k))]

def trakList (ts hn : Nat → Nat → Nat) (now : Nat) (s : MStream) (es : List (Nat × Nat)) (k : Nat) : List (Nat × List UInt8) :=
  trakPre ts now s ++ [(fourcc 'm' 'd' 'i' 'a', cat (mdiaList ts hn now s es k))]

/-- Where, in a track box, the chunk offsets begin. -/
def payloadAt (ts hn : Nat → Nat → Nat) (now : Nat) (s : MStream) (es : List (Nat × Nat)) : Nat :=
  8 + (cat (trakPre ts now s)).length + 8 + (cat (mdiaPre ts now s)).length + 8 + (cat (minfPre s)).length + 8 + (cat (stblPre ts hn s es)).length + 16

theorem writeStream_eq (ts hn : Nat → Nat → Nat) (now : Nat) (B : List UInt8) (ps : List Nat) (s : MStream) :
    writeStream ts hn now (atEnd B ps) s = (stscEntries s.w.chunks s.allowEmpty).map fun es =>
      (atEnd (B ++ box (fourcc 't' 'r' 'a' 'k') (cat (trakList ts hn now s es 0))) ps, B.length + payloadAt ts hn now s es) := by
  have hdinf : ∀ (X : List UInt8) (qs : List Nat), (((((atEnd X qs).openBox (fourcc 'd' 'i' 'n' 'f')).openBox (fourcc 'd' 'r' 'e' 'f')).put (full 0 0 ++ be 4 1)).child (fourcc 'u' 'r' 'l' ' ')
      (full 0 1)).closeBox.closeBox = atEnd (X ++ box (fourcc 'd' 'i' 'n' 'f') dinfBody) qs := by
    intro X qs
    rw [openBox_atEnd, openBox_atEnd, put_atEnd, child_atEnd]
    rw [closeBox_atEnd _ _ (full 0 0 ++ be 4 1 ++ cat [(fourcc 'u' 'r' 'l' ' ', full 0 1)]) (fourcc 'd' 'r' 'e' 'f') _ (by simp [cat])]
    rw [closeBox_atEnd _ X dinfBody (fourcc 'd' 'i' 'n' 'f') _ (by simp [cat_one, dinfBody])]
  simp only [writeStream, openBox_atEnd, child_atEnd, writeEdts_eq, writeMediaHeader_eq]
  have h := fun X qs => hdinf X qs
  simp only [openBox_atEnd, put_atEnd, child_atEnd] at h
  rw [put_atEnd, child_atEnd, h, writeStbl_eq]
  cases stscEntries s.w.chunks s.allowEmpty with
  | none => rfl
  | some es =>
    simp only [Option.map_some]
    rw [closeBox_atEnd _ _ (cat (minfList ts hn s es 0)) (fourcc 'm' 'i' 'n' 'f') _ (by
      simp only [minfList, minfPre, cat_append, cat_cons, cat_nil, List.append_assoc, List.append_nil])]
    rw [closeBox_atEnd _ _ (cat (mdiaList ts hn now s es 0)) (fourcc 'm' 'd' 'i' 'a') _ (by
      simp only [mdiaList, mdiaPre, cat_append, cat_cons, cat_nil, List.append_assoc, List.append_nil])]
    rw [closeBox_atEnd _ B (cat (trakList ts hn now s es 0)) (fourcc 't' 'r' 'a' 'k') _ (by
      simp only [trakList, trakPre, cat_append, cat_cons, cat_nil, List.append_assoc, List.append_nil])]
    simp only [Option.some.injEq, Prod.mk.injEq, true_and]
    simp only [payloadAt, trakPre, mdiaPre, minfPre, cat_cons, cat_nil, List.length_append, opened_length, List.length_nil]
    omega

/-! ### Chunk offsets are written again -/

/-- `f` holds `pay` from byte `n` on, everything else not depending on `k`. -/
def Holds (f pay : Nat → List UInt8) (n : Nat) : Prop := ∃ a c : List UInt8, a.length = n ∧ ∀ k, f k = a ++ (pay k ++ c)

theorem Holds.right {f pay : Nat → List UInt8} {n : Nat} (h : Holds f pay n) (y : List UInt8) : Holds (fun k => f k ++ y) pay n := by
  obtain ⟨a, c, h1, h2⟩ := h
  exact ⟨a, c ++ y, h1, fun k => by simp only [h2, List.append_assoc]⟩

theorem Holds.left {f pay : Nat → List UInt8} {n : Nat} (h : Holds f pay n) (y : List UInt8) : Holds (fun k => y ++ f k) pay (y.length + n) := by
  obtain ⟨a, c, h1, h2⟩ := h
  exact ⟨y ++ a, c, by simp [h1], fun k => by simp only [h2, List.append_assoc]⟩

theorem Holds.box {f pay : Nat → List UInt8} {n : Nat} (h : Holds f pay n) (m : Nat) (hm : ∀ k, (pay k).length = m) (t : Nat) :
    Holds (fun k => box t (f k)) pay (8 + n) := by
  obtain ⟨a, c, h1, h2⟩ := h
  refine ⟨be 4 (8 + (a.length + (m + c.length))) ++ be 4 t ++ a, c, by simp [be_length, h1]; omega, fun k => ?_⟩
  simp only [Fragment.box, h2, List.length_append, hm, List.append_assoc]

theorem trak_holds (ts hn : Nat → Nat → Nat) (now : Nat) (s : MStream) (es : List (Nat × Nat)) :
    Holds (fun k => box (fourcc 't' 'r' 'a' 'k') (cat (trakList ts hn now s es k))) (payload s) (payloadAt ts hn now s es) := by
  have h0 : Holds (fun k => stcoBody s k) (payload s) 8 := ⟨full 0 0 ++ be 4 s.w.chunks.length, [], by simp [full_length, be_length], fun k => by simp [stcoBody]⟩
  have h1 := ((((h0.box _ (payload_length s) (fourcc 's' 't' 'c' 'o')).right (cat (stssList s))).left (cat (stblPre ts hn s es))).box _ (payload_length s) (fourcc 's' 't' 'b' 'l'))
  have h2 := (h1.left (cat (minfPre s))).box _ (payload_length s) (fourcc 'm' 'i' 'n' 'f')
  have h3 := (h2.left (cat (mdiaPre ts now s))).box _ (payload_length s) (fourcc 'm' 'd' 'i' 'a')
  have h4 := (h3.left (cat (trakPre ts now s))).box _ (payload_length s) (fourcc 't' 'r' 'a' 'k')
  have e : 8 + ((cat (trakPre ts now s)).length + (8 + ((cat (mdiaPre ts now s)).length + (8 + ((cat (minfPre s)).length + (8 + ((cat (stblPre ts hn s es)).length + (8 + 8)))))))) =
      payloadAt ts hn now s es := by unfold payloadAt; omega
  rw [e] at h4
  have f : (fun k => box (fourcc 't' 'r' 'a' 'k') (cat (trakList ts hn now s es k))) = fun k => box (fourcc 't' 'r' 'a' 'k') (cat (trakPre ts now s) ++ box (fourcc 'm' 'd' 'i' 'a')
      (cat (mdiaPre ts now s) ++ box (fourcc 'm' 'i' 'n' 'f') (cat (minfPre s) ++ box (fourcc 's' 't' 'b' 'l') (cat (stblPre ts hn s es) ++ (box (fourcc 's' 't' 'c' 'o') (stcoBody s k) ++ cat (stssList s)))))) := by
    funext k
    simp only [trakList, mdiaList, minfList, stblList, cat_append, cat_cons, cat_nil, List.append_nil]
  rw [f]; exact h4

theorem put_over (a o c x : List UInt8) (ps : List Nat) (h : o.length = x.length) : (W.put ⟨a ++ (o ++ c), a.length, ps⟩ x) = ⟨a ++ (x ++ c), a.length + x.length, ps⟩ := by
  simp only [W.put, W.mk.injEq, and_true]
  rw [List.take_left, List.append_assoc]
  congr 2
  rw [← h, ← List.append_assoc, ← List.length_append, List.drop_left]

theorem foldl_put_over {α : Type} (f : α → List UInt8) : ∀ (l : List α) (a o c : List UInt8) (ps : List Nat), o.length = (l.flatMap f).length →
    l.foldl (fun (w : W) x => w.put (f x)) (W.mk (a ++ (o ++ c)) a.length ps) = W.mk (a ++ (l.flatMap f ++ c)) (a.length + (l.flatMap f).length) ps
  | [], a, o, c, ps, h => by
    have : o = [] := List.eq_nil_of_length_eq_zero (by simpa using h)
    simp [this]
  | x :: l, a, o, c, ps, h => by
    simp only [List.flatMap_cons, List.length_append] at h
    obtain ⟨o1, o2, rfl, h1, h2⟩ : ∃ o1 o2, o = o1 ++ o2 ∧ o1.length = (f x).length ∧ o2.length = (l.flatMap f).length :=
      ⟨o.take (f x).length, o.drop (f x).length, (List.take_append_drop _ _).symm, by rw [List.length_take]; omega, by rw [List.length_drop]; omega⟩
    rw [List.foldl_cons, show a ++ (o1 ++ o2 ++ c) = a ++ (o1 ++ (o2 ++ c)) by simp, put_over _ _ _ _ _ h1]
    have := foldl_put_over f l (a ++ f x) o2 c ps h2
    simp only [List.append_assoc, List.length_append, List.flatMap_cons] at this ⊢
    rw [this, Nat.add_assoc]

theorem writeStcoBody_over (s : MStream) (a o c : List UInt8) (q p k : Nat) (ps : List Nat) (hp : p = a.length) (h : o.length = (payload s k).length) :
    (writeStcoBody ⟨a ++ (o ++ c), q, ps⟩ s p k).bytes = a ++ (payload s k ++ c) ∧ (writeStcoBody ⟨a ++ (o ++ c), q, ps⟩ s p k).parents = ps := by
  subst hp
  have e : (if (W.mk (a ++ (o ++ c)) q ps).pos ≠ a.length then (W.mk (a ++ (o ++ c)) q ps).seek a.length else ⟨a ++ (o ++ c), q, ps⟩) = ⟨a ++ (o ++ c), a.length, ps⟩ := by
    by_cases hq : q = a.length
    · simp [hq]
    · simp [hq, W.seek]
  unfold payload at h ⊢
  have hf := foldl_put_over (fun x : Verif.Tables.ChunkDes => be 4 (x.position + k)) s.w.chunks a o c ps h
  unfold writeStcoBody
  rw [e, hf]
  exact ⟨rfl, rfl⟩

/-! ### All streams -/

/-- The track boxes, with the chunk offsets moved by `k`. -/
def traks (ts hn : Nat → Nat → Nat) (now : Nat) (k : Nat) (ss : List (MStream × List (Nat × Nat))) : List (Nat × List UInt8) :=
  ss.map fun x => (fourcc 't' 'r' 'a' 'k', cat (trakList ts hn now x.1 x.2 k))

/-- The sample-to-chunk entries of each stream; `none` if one throws. -/
def chunkTables : List MStream → Option (List (MStream × List (Nat × Nat)))
  | [] => some []
  | s :: ss =>
    match stscEntries s.w.chunks s.allowEmpty with
    | none => none
    | some es => (chunkTables ss).map ((s, es) :: ·)

theorem chunkTables_fst : ∀ (ss : List MStream) (l : List (MStream × List (Nat × Nat))), chunkTables ss = some l → l.map (·.1) = ss
  | [], l, h => by simp [chunkTables] at h; subst h; rfl
  | s :: ss, l, h => by
    simp only [chunkTables] at h
    cases hs : stscEntries s.w.chunks s.allowEmpty with
    | none => simp [hs] at h
    | some es =>
      simp only [hs, Option.map_eq_some_iff] at h
      obtain ⟨l', hl', rfl⟩ := h
      simp [chunkTables_fst ss l' hl']

/-- The remembered positions. -/
def places (ts hn : Nat → Nat → Nat) (now : Nat) : Nat → List (MStream × List (Nat × Nat)) → List Nat
  | _, [] => []
  | p, x :: l => (p + payloadAt ts hn now x.1 x.2) :: places ts hn now (p + (box (fourcc 't' 'r' 'a' 'k') (cat (trakList ts hn now x.1 x.2 0))).length) l

theorem writeStreams_eq (ts hn : Nat → Nat → Nat) (now : Nat) : ∀ (ss : List MStream) (B : List UInt8) (ps : List Nat),
    writeStreams ts hn now (atEnd B ps) ss = (chunkTables ss).map fun l => (atEnd (B ++ cat (traks ts hn now 0 l)) ps, places ts hn now B.length l)
  | [], B, ps => by simp [writeStreams, chunkTables, traks, places, cat]
  | s :: ss, B, ps => by
    rw [writeStreams, writeStream_eq, chunkTables]
    cases stscEntries s.w.chunks s.allowEmpty with
    | none => rfl
    | some es =>
      simp only [Option.map_some]
      rw [writeStreams_eq ts hn now ss]
      cases chunkTables ss with
      | none => rfl
      | some l => simp [traks, places, cat]

theorem trak_length (ts hn : Nat → Nat → Nat) (now : Nat) (s : MStream) (es : List (Nat × Nat)) (k : Nat) :
    (box (fourcc 't' 'r' 'a' 'k') (cat (trakList ts hn now s es k))).length = (box (fourcc 't' 'r' 'a' 'k') (cat (trakList ts hn now s es 0))).length := by
  obtain ⟨a, c, _, h⟩ := trak_holds ts hn now s es
  simp only at h
  rw [h k, h 0]; simp [payload_length]

theorem traks_length (ts hn : Nat → Nat → Nat) (now k : Nat) (l : List (MStream × List (Nat × Nat))) :
    (cat (traks ts hn now k l)).length = (cat (traks ts hn now 0 l)).length := by
  induction l with
  | nil => simp only [traks, List.map_nil]
  | cons x l ih =>
    simp only [traks, List.map_cons, cat_cons, List.length_append] at ih ⊢
    rw [ih, trak_length ts hn now x.1 x.2 k]

theorem rebase_eq (ts hn : Nat → Nat → Nat) (now k : Nat) : ∀ (l : List (MStream × List (Nat × Nat))) (P R : List UInt8) (q : Nat) (ps : List Nat),
    (rebase k ⟨P ++ (cat (traks ts hn now 0 l) ++ R), q, ps⟩ ((l.map (·.1)).zip (places ts hn now P.length l))).bytes = P ++ (cat (traks ts hn now k l) ++ R)
  | [], P, R, q, ps => by simp [rebase, traks, cat]
  | x :: l, P, R, q, ps => by
    obtain ⟨a, c, ha, h⟩ := trak_holds ts hn now x.1 x.2
    simp only at h
    simp only [List.map_cons, places, List.zip_cons_cons, rebase]
    have e : P ++ (cat (traks ts hn now 0 (x :: l)) ++ R) = (P ++ a) ++ (payload x.1 0 ++ (c ++ (cat (traks ts hn now 0 l) ++ R))) := by
      simp only [traks, List.map_cons, cat_cons]
      rw [h 0]; simp only [List.append_assoc]
    rw [e]
    have hw := writeStcoBody_over x.1 (P ++ a) (payload x.1 0) (c ++ (cat (traks ts hn now 0 l) ++ R)) q (P.length + payloadAt ts hn now x.1 x.2) k ps
      (by simp [ha]) (by rw [payload_length, payload_length])
    obtain ⟨W', hW⟩ : ∃ W', writeStcoBody ⟨(P ++ a) ++ (payload x.1 0 ++ (c ++ (cat (traks ts hn now 0 l) ++ R))), q, ps⟩ x.1 (P.length + payloadAt ts hn now x.1 x.2) k = W' := ⟨_, rfl⟩
    rw [hW] at hw ⊢
    have hW' : W' = ⟨(P ++ box (fourcc 't' 'r' 'a' 'k') (cat (trakList ts hn now x.1 x.2 k))) ++ (cat (traks ts hn now 0 l) ++ R), W'.pos, ps⟩ := by
      rw [h k]
      cases W'
      simp only at hw
      simp [hw.1, hw.2]
    rw [hW']
    have := rebase_eq ts hn now k l (P ++ box (fourcc 't' 'r' 'a' 'k') (cat (trakList ts hn now x.1 x.2 k))) R W'.pos ps
    rw [List.length_append, trak_length] at this
    rw [this]
    simp only [traks, List.map_cons, cat_cons, List.append_assoc]

/-- The movie header box. -/
def mvhdOf (ts : Nat → Nat → Nat) (h : Header) (ss : List MStream) : List UInt8 :=
  mvhdBody h.version h.now h.scale (ts h.scale (minDuration (flushed ss))) (h.firstTrack + (flushed ss).length + 1)

/-- The header boxes of a movie. -/
def moovList (ts hn : Nat → Nat → Nat) (h : Header) (ss : List MStream) (l : List (MStream × List (Nat × Nat))) (k : Nat) : List (Nat × List UInt8) :=
  (fourcc 'm' 'v' 'h' 'd', mvhdOf ts h ss) :: traks ts hn h.now k l

theorem moov_length (ts hn : Nat → Nat → Nat) (h : Header) (ss : List MStream) (l : List (MStream × List (Nat × Nat))) (k : Nat) :
    (cat (moovList ts hn h ss l k)).length = (cat (moovList ts hn h ss l 0)).length := by
  simp only [moovList, cat_cons, List.length_append, traks_length ts hn h.now k l]

theorem writeMoov_eq (ts hn : Nat → Nat → Nat) (h : Header) (B : List UInt8) (ps : List Nat) (ss : List MStream) :
    writeMoov ts hn h (atEnd B ps) ss = (chunkTables (flushed ss)).map fun l =>
      (atEnd (B ++ opened (fourcc 'm' 'o' 'o' 'v') ++ cat (moovList ts hn h ss l 0)) (B.length :: ps),
        places ts hn h.now (B.length + 8 + (box (fourcc 'm' 'v' 'h' 'd') (mvhdOf ts h ss)).length) l) := by
  simp only [writeMoov, openBox_atEnd, child_atEnd]
  rw [← mvhdOf, writeStreams_eq]
  cases chunkTables (flushed ss) with
  | none => simp only [Option.map_none]
  | some l =>
    simp only [Option.map_some, moovList, cat_cons, List.append_assoc, List.length_append, opened_length, Nat.add_assoc]

/-- The whole file. -/
theorem movieFile_eq (ts hn : Nat → Nat → Nat) (now : Nat) (ss : List MStream) (body : List UInt8) :
    movieFile ts hn now ss body = (chunkTables (flushed ss)).map fun l =>
      cat [(fourcc 'f' 't' 'y' 'p', movieFtyp),
        (fourcc 'm' 'o' 'o' 'v', cat (moovList ts hn { now } ss l ((box (fourcc 'f' 't' 'y' 'p') movieFtyp).length + (box (fourcc 'm' 'o' 'o' 'v') (cat (moovList ts hn { now } ss l 0))).length + 8))),
        (fourcc 'm' 'd' 'a' 't', body)] := by
  rw [movieFile]
  have h0 : (⟨[], 0, []⟩ : W) = atEnd [] [] := rfl
  simp only [h0, child_atEnd, List.nil_append]
  rw [writeMoov_eq]
  have hc := chunkTables_fst (flushed ss)
  cases hl : chunkTables (flushed ss) with
  | none => rfl
  | some l =>
    have hfst := hc l hl
    simp only [Option.map_some, Option.some.injEq]
    rw [close_opened, put_atEnd, put_atEnd]
    obtain ⟨F, hF⟩ : ∃ F, F = box (fourcc 'f' 't' 'y' 'p') movieFtyp := ⟨_, rfl⟩
    rw [← hF]
    obtain ⟨M, hM⟩ : ∃ M, M = mvhdOf ts { now } ss := ⟨_, rfl⟩
    have hml : ∀ k, moovList ts hn { now } ss l k = (fourcc 'm' 'v' 'h' 'd', M) :: traks ts hn now k l := by intro k; rw [hM, moovList]
    rw [← hM]
    simp only [hml]
    obtain ⟨k, hk⟩ : ∃ k, k = (F ++ box (fourcc 'm' 'o' 'o' 'v') (cat ((fourcc 'm' 'v' 'h' 'd', M) :: traks ts hn now 0 l)) ++ be 4 (body.length + 8) ++ be 4 (fourcc 'm' 'd' 'a' 't')).length := ⟨_, rfl⟩
    have hk' : F.length + (box (fourcc 'm' 'o' 'o' 'v') (cat ((fourcc 'm' 'v' 'h' 'd', M) :: traks ts hn now 0 l))).length + 8 = k := by
      rw [hk]; simp only [List.length_append, be_length]
    rw [hk']
    show (rebase (F ++ box (fourcc 'm' 'o' 'o' 'v') (cat ((fourcc 'm' 'v' 'h' 'd', M) :: traks ts hn now 0 l)) ++ be 4 (body.length + 8) ++ be 4 (fourcc 'm' 'd' 'a' 't')).length _ _).bytes ++ body = _
    rw [← hk]
    rw [← hfst]
    have hb : ∀ j, (cat ((fourcc 'm' 'v' 'h' 'd', M) :: traks ts hn now j l)).length = (cat ((fourcc 'm' 'v' 'h' 'd', M) :: traks ts hn now 0 l)).length := by
      intro j; simp only [cat_cons, List.length_append, traks_length ts hn now j l]
    obtain ⟨P, hP⟩ : ∃ P, P = F ++ (be 4 (8 + (cat ((fourcc 'm' 'v' 'h' 'd', M) :: traks ts hn now 0 l)).length) ++ (be 4 (fourcc 'm' 'o' 'o' 'v') ++ box (fourcc 'm' 'v' 'h' 'd') M)) := ⟨_, rfl⟩
    have hfile : ∀ j R, F ++ box (fourcc 'm' 'o' 'o' 'v') (cat ((fourcc 'm' 'v' 'h' 'd', M) :: traks ts hn now j l)) ++ R = P ++ (cat (traks ts hn now j l) ++ R) := by
      intro j R
      rw [hP, box, hb j]
      generalize be 4 (8 + (cat ((fourcc 'm' 'v' 'h' 'd', M) :: traks ts hn now 0 l)).length) = Z
      simp only [cat_cons, List.append_assoc]
    have hPl : F.length + 8 + (box (fourcc 'm' 'v' 'h' 'd') M).length = P.length := by
      rw [hP]; simp only [List.length_append, be_length]; omega
    rw [hPl, atEnd, show F ++ box (fourcc 'm' 'o' 'o' 'v') (cat ((fourcc 'm' 'v' 'h' 'd', M) :: traks ts hn now 0 l)) ++ be 4 (body.length + 8) ++ be 4 (fourcc 'm' 'd' 'a' 't') =
      F ++ box (fourcc 'm' 'o' 'o' 'v') (cat ((fourcc 'm' 'v' 'h' 'd', M) :: traks ts hn now 0 l)) ++ (be 4 (body.length + 8) ++ be 4 (fourcc 'm' 'd' 'a' 't')) by simp only [List.append_assoc], hfile 0]
    rw [rebase_eq, ← hfile k]
    obtain ⟨V, hV⟩ : ∃ V, V = cat ((fourcc 'm' 'v' 'h' 'd', M) :: traks ts hn now k l) := ⟨_, rfl⟩
    rw [← hV]
    simp only [cat_cons, cat_nil, ← hF, List.append_nil]
    rw [show box (fourcc 'm' 'd' 'a' 't') body = be 4 (body.length + 8) ++ be 4 (fourcc 'm' 'd' 'a' 't') ++ body by rw [box, Nat.add_comm]]
    simp only [List.append_assoc]

end Verif.Movie
