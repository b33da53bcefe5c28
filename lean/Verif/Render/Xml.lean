import Verif.Render.Text

/-
What a reader of an XML document sees: elements with their names, attributes and children. Written from the XML recommendation, for
documents without declarations, comments, processing instructions and CDATA sections (they are refused); attribute values are between
double quotes and contain neither `<` nor `&`; character data between tags is skipped.
-/
namespace Verif.Render.Xml

abbrev Str := List Char
abbrev Attrs := List (Str × Str)

inductive Tag
  | start (name : Str) (attrs : Attrs)
  | empty (name : Str) (attrs : Attrs)
  | close (name : Str)
deriving DecidableEq

inductive Elem
  | mk (name : Str) (attrs : Attrs) (children : List Elem)

def Elem.name : Elem → Str | .mk n _ _ => n
def Elem.attrs : Elem → Attrs | .mk _ a _ => a
def Elem.children : Elem → List Elem | .mk _ _ c => c

/-- The value of an attribute. -/
def attr (e : Elem) (n : Str) : Option Str := (e.attrs.find? fun a => a.1 = n).map (·.2)

/-- Where the reader is. -/
inductive St
  | text
  | lt
  | name (n : Str)
  | inTag (n : Str) (as : Attrs)
  | attrName (n : Str) (as : Attrs) (a : Str)
  | equals (n : Str) (as : Attrs) (a : Str)
  | value (n : Str) (as : Attrs) (a v : Str)
  | afterValue (n : Str) (as : Attrs)
  | slash (n : Str) (as : Attrs)
  | closing (n : Str)
  | bad
deriving DecidableEq

def isSpace (c : Char) : Bool := c = ' ' || c = '\t' || c = '\r' || c = '\n'

/-- Characters that cannot be part of a name. -/
def notName (c : Char) : Bool := c = '<' || c = '"' || c = '&' || c = '!' || c = '?' || c = '>' || c = '/' || c = '=' || isSpace c

/-- One character: the next state and the tag it completes. -/
def step : St → Char → St × Option Tag
  | .text, c => if c = '<' then (.lt, none) else (.text, none)
  | .lt, c => if c = '/' then (.closing [], none) else if notName c then (.bad, none) else (.name [c], none)
  | .name n, c =>
    if isSpace c then (.inTag n [], none)
    else if c = '>' then (.text, some (.start n []))
    else if c = '/' then (.slash n [], none)
    else if notName c then (.bad, none)
    else (.name (n ++ [c]), none)
  | .inTag n as, c =>
    if isSpace c then (.inTag n as, none)
    else if c = '>' then (.text, some (.start n as))
    else if c = '/' then (.slash n as, none)
    else if notName c then (.bad, none)
    else (.attrName n as [c], none)
  | .attrName n as a, c =>
    if c = '=' then (.equals n as a, none)
    else if notName c then (.bad, none)
    else (.attrName n as (a ++ [c]), none)
  | .equals n as a, c => if c = '"' then (.value n as a [], none) else (.bad, none)
  | .value n as a v, c =>
    if c = '"' then (.afterValue n (as ++ [(a, v)]), none)
    else if c = '<' ∨ c = '&' then (.bad, none)
    else (.value n as a (v ++ [c]), none)
  | .afterValue n as, c =>
    if isSpace c then (.inTag n as, none)
    else if c = '>' then (.text, some (.start n as))
    else if c = '/' then (.slash n as, none)
    else (.bad, none)
  | .slash n as, c => if c = '>' then (.text, some (.empty n as)) else (.bad, none)
  | .closing n, c =>
    if c = '>' then (.text, some (.close n))
    else if notName c then (.bad, none)
    else (.closing (n ++ [c]), none)
  | .bad, _ => (.bad, none)

/-- Reads a text from a state, adding the tags to `out`. -/
def lex : St → List Tag → Str → St × List Tag
  | s, out, [] => (s, out)
  | s, out, c :: cs => lex (step s c).1 (out ++ (step s c).2.toList) cs

/-- Builds the elements from the tags: `cur` are the elements read so far in the innermost open element, `stk` the open elements with
what came before them. -/
def tree : List Tag → List Elem → List (Str × Attrs × List Elem) → Option (List Elem)
  | [], cur, [] => some cur
  | [], _, _ :: _ => none
  | .empty n as :: ts, cur, stk => tree ts (cur ++ [.mk n as []]) stk
  | .start n as :: ts, cur, stk => tree ts [] ((n, as, cur) :: stk)
  | .close _ :: _, _, [] => none
  | .close n :: ts, cur, (n', as, before) :: stk => if n = n' then tree ts (before ++ [.mk n' as cur]) stk else none

/-- The elements of a text; `none` if it is not well formed. -/
def parse (s : Str) : Option (List Elem) :=
  match lex .text [] s with
  | (.text, tags) => tree tags [] []
  | _ => none

/-! ### Composition -/

theorem lex_append (a b : Str) : ∀ s out, lex s out (a ++ b) = lex (lex s out a).1 (lex s out a).2 b := by
  induction a with
  | nil => intro s out; rfl
  | cons c a ih => intro s out; simp only [List.cons_append, lex, ih]

theorem lex_out (a : Str) : ∀ s out, lex s out a = ((lex s [] a).1, out ++ (lex s [] a).2) := by
  induction a with
  | nil => intro s out; simp [lex]
  | cons c a ih =>
    intro s out
    simp only [lex]
    rw [ih _ (out ++ _), ih _ ([] ++ _)]
    simp

/-- `s` reads as the complete tags `ts`. -/
def Reads (s : Str) (ts : List Tag) : Prop := ∀ out, lex .text out s = (.text, out ++ ts)

theorem Reads.append {a b : Str} {ta tb : List Tag} (ha : Reads a ta) (hb : Reads b tb) : Reads (a ++ b) (ta ++ tb) := by
  intro out
  rw [lex_append, ha]
  simp only
  rw [hb, List.append_assoc]

theorem Reads.nil : Reads [] [] := by intro out; simp [lex]

theorem reads_of_lex {s : Str} {ts : List Tag} (h : lex .text [] s = (.text, ts)) : Reads s ts := by
  intro out
  rw [lex_out, h]

/-- The tags `ts` are those of the elements `f`, wherever they occur. -/
def Builds (ts : List Tag) (f : List Elem) : Prop :=
  ∀ rest cur stk, tree (ts ++ rest) cur stk = tree rest (cur ++ f) stk

theorem Builds.nil : Builds [] [] := by intro rest cur stk; simp

theorem Builds.append {a b : List Tag} {fa fb : List Elem} (ha : Builds a fa) (hb : Builds b fb) : Builds (a ++ b) (fa ++ fb) := by
  intro rest cur stk
  rw [List.append_assoc, ha, hb, List.append_assoc]

theorem Builds.empty (n : Str) (as : Attrs) : Builds [.empty n as] [.mk n as []] := by
  intro rest cur stk; simp [tree]

theorem Builds.elem (n : Str) (as : Attrs) {ts : List Tag} {f : List Elem} (h : Builds ts f) :
    Builds (.start n as :: (ts ++ [.close n])) [.mk n as f] := by
  intro rest cur stk
  simp only [List.cons_append, tree, List.append_assoc, List.singleton_append]
  rw [h]
  simp [tree]

/-- Puts elements before everything a state of `tree` has. -/
def under (c0 : List Elem) (s0 : List (Str × Attrs × List Elem)) : List Elem → List (Str × Attrs × List Elem) →
    List Elem × List (Str × Attrs × List Elem)
  | cur, [] => (c0 ++ cur, s0)
  | cur, (n, as, b) :: stk => (cur, (n, as, (under c0 s0 b stk).1) :: (under c0 s0 b stk).2)

theorem under_push (c0 s0 n as cur stk) : under c0 s0 [] ((n, as, cur) :: stk) = ([], (n, as, (under c0 s0 cur stk).1) :: (under c0 s0 cur stk).2) := rfl

theorem under_append (c0 : List Elem) (s0) (cur e : List Elem) : ∀ stk,
    under c0 s0 (cur ++ e) stk = ((under c0 s0 cur stk).1 ++ e, (under c0 s0 cur stk).2) := by
  intro stk
  cases stk with
  | nil => simp [under]
  | cons f stk => obtain ⟨n, as, b⟩ := f; simp [under]

theorem tree_under (c0 : List Elem) (s0) (rest : List Tag) : ∀ (ts : List Tag) cur stk f, tree ts cur stk = some f →
    tree (ts ++ rest) (under c0 s0 cur stk).1 (under c0 s0 cur stk).2 = tree rest (c0 ++ f) s0 := by
  intro ts
  induction ts with
  | nil =>
    intro cur stk f h
    cases stk with
    | nil => simp only [tree, Option.some.injEq] at h; subst h; rfl
    | cons a stk => simp [tree] at h
  | cons t ts ih =>
    intro cur stk f h
    cases t with
    | start n as =>
      simp only [tree] at h
      have := ih _ _ _ h
      rw [under_push] at this
      simpa only [List.cons_append, tree] using this
    | empty n as =>
      simp only [tree] at h
      have := ih _ _ _ h
      rw [under_append] at this
      simpa only [List.cons_append, tree] using this
    | close n =>
      cases stk with
      | nil => simp [tree] at h
      | cons a stk =>
        obtain ⟨n', as, b⟩ := a
        simp only [tree] at h
        split at h
        · rename_i hn
          have := ih _ _ _ h
          rw [under_append] at this
          simpa only [List.cons_append, under, tree, if_pos hn] using this
        · simp at h

/-- A text that is well formed by itself is so inside of a document. -/
theorem parse_reads {s : Str} {f : List Elem} (h : parse s = some f) : ∃ ts, Reads s ts ∧ Builds ts f := by
  simp only [parse] at h
  split at h
  · rename_i ts hl
    refine ⟨ts, reads_of_lex hl, ?_⟩
    intro rest cur stk
    have := tree_under cur stk rest ts [] [] f h
    simpa [under] using this
  · simp at h

theorem parse_of_reads {s : Str} {ts : List Tag} {f : List Elem} (h : Reads s ts) (hb : Builds ts f) : parse s = some f := by
  simp only [parse]
  rw [h []]
  have := hb [] [] []
  simpa [tree] using this

/-- Characters an attribute value may have. -/
def Plain (v : Str) : Prop := ∀ c ∈ v, c ≠ '"' ∧ c ≠ '<' ∧ c ≠ '&'

theorem Plain.append {a b : Str} (ha : Plain a) (hb : Plain b) : Plain (a ++ b) := by
  intro c hc
  rcases List.mem_append.mp hc with h | h
  · exact ha c h
  · exact hb c h

theorem lex_value (n as a) : ∀ (v acc : Str) (out : List Tag), Plain v →
    lex (.value n as a acc) out v = (.value n as a (acc ++ v), out) := by
  intro v
  induction v with
  | nil => intro acc out _; simp [lex]
  | cons c v ih =>
    intro acc out h
    obtain ⟨h1, h2, h3⟩ := h c List.mem_cons_self
    simp only [lex, step, if_neg h1, h2, h3, or_self, if_false, Option.toList_none, List.append_nil]
    rw [ih _ _ (fun x hx => h x (List.mem_cons_of_mem _ hx))]
    simp

end Verif.Render.Xml
