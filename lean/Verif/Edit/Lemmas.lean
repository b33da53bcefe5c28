import Verif.Edit.Spec
import Verif.Reader.PropsMove
/-
The loops of `do_edit_mux` over the list of samples the reader delivers.
-/
namespace Verif.Edit
open Verif.Reader (Track Sample Reader next move moveStreams readAll remaining)
open Verif.Reader.Spec (FileHolds Holds Inside pres)

/-- The samples of one stream in what the reader delivers. -/
def only (l : List (Nat × Sample)) (i : Nat) : List Sample := Reader.Spec.ofStream l i

theorem only_cons (s : Nat) (x : Sample) (l : List (Nat × Sample)) (i : Nat) : only ((s, x) :: l) i = if s = i then x :: only l i else only l i := by
  simp only [only, Reader.Spec.ofStream, List.filter_cons]
  by_cases h : s = i <;> simp [h]

theorem presented_eq (t : Track) (x : Sample) : presented t x = pres t x := rfl

def lookList (f : File) (start : Nat) (discard : Bool) : List (Nat × Sample) → (look : Nat) → List Next → Option (List Next)
  | [], _, _ => none
  | (s, x) :: l, look, ns =>
      match trackOf f s with
      | none => none
      | some t =>
        if presented t x < start ∧ discard = true then
          if t.hasStss then none else lookList f start discard l look ns
        else
          match ns[s]? with
          | none => none
          | some n =>
            if improves n (presented t x) then lookList f start discard l 0 (ns.set s (some (presented t x, x.decoding)))
            else if ns.any (·.isNone) ∨ look + 1 < 20 then lookList f start discard l (look + 1) ns
            else some ns

theorem lookHead_eq (f : File) (start : Nat) (discard : Bool) : ∀ (fuel : Nat) (r : Reader) (l : List (Nat × Sample)), readAll fuel r = some l →
    ∀ look ns, lookHead f start discard fuel r look ns = lookList f start discard l look ns := by
  intro fuel
  induction fuel with
  | zero =>
    intro r l h look ns
    simp only [readAll, Option.some.injEq] at h
    rw [← h]; rfl
  | succ fuel ih =>
    intro r l h look ns
    rw [readAll] at h
    rw [lookHead]
    match hn : next r with
    | none => rw [hn] at h; simp at h
    | some (false, o, r') =>
      rw [hn] at h
      simp only [Option.some.injEq] at h
      rw [← h]; rfl
    | some (true, none, r') => rw [hn] at h; simp at h
    | some (true, some (s, x), r') =>
      rw [hn] at h
      simp only at h
      obtain ⟨l', hl', rfl⟩ := Option.map_eq_some_iff.mp h
      simp only [lookList]
      have := ih r' l' hl'
      cases trackOf f s with
      | none => rfl
      | some t =>
        simp only [this]
        cases ns[s]? <;> rfl

def muxList (f : File) (start stop : Nat) (discard : Bool) : List (Nat × Sample) → List Bool → List Join → List (Nat × Nat) → Option (List Added × List Join × List (Nat × Nat))
  | [], _, js, ends => some ([], js, ends)
  | (s, x) :: l, flags, js, ends =>
      match trackOf f s with
      | none => none
      | some t =>
        match leftOut start stop discard t x with
        | none => none
        | some true => if (active stop s x flags).any id then muxList f start stop discard l (active stop s x flags) js ends else some ([], js, ends)
        | some false =>
          match write f js s t x ends with
          | none => none
          | some (a, ends, js) =>
            if (active stop s x flags).any id then (muxList f start stop discard l (active stop s x flags) js ends).map fun o => (a :: o.1, o.2)
            else some ([a], js, ends)

theorem muxLoop_eq (f : File) (start stop : Nat) (discard : Bool) : ∀ (fuel : Nat) (r : Reader) (l : List (Nat × Sample)), readAll fuel r = some l →
    ∀ flags js ends, muxLoop f start stop discard fuel r flags js ends = muxList f start stop discard l flags js ends := by
  intro fuel
  induction fuel with
  | zero =>
    intro r l h flags js ends
    simp only [readAll, Option.some.injEq] at h
    rw [← h]; rfl
  | succ fuel ih =>
    intro r l h flags js ends
    rw [readAll] at h
    rw [muxLoop]
    match hn : next r with
    | none => rw [hn] at h; simp at h
    | some (false, o, r') =>
      rw [hn] at h
      simp only [Option.some.injEq] at h
      rw [← h]; rfl
    | some (true, none, r') => rw [hn] at h; simp at h
    | some (true, some (s, x), r') =>
      rw [hn] at h
      simp only at h
      obtain ⟨l', hl', rfl⟩ := Option.map_eq_some_iff.mp h
      simp only [muxList]
      have := ih r' l' hl'
      cases trackOf f s with
      | none => rfl
      | some t =>
        simp only [this]
        rcases leftOut start stop discard t x with _ | _ | _
        · rfl
        · cases write f js s t x ends <;> rfl
        · rfl

/-! ### the reader after `move` -/

theorem moveStreams_tracks (d c : Nat) : ∀ (ss ss' : List (Track × Nat)), moveStreams d c ss = some ss' → ss'.map (·.1) = ss.map (·.1) := by
  intro ss
  induction ss with
  | nil => intro ss' h; simp only [moveStreams, Option.some.injEq] at h; rw [← h]
  | cons a ss ih =>
    intro ss' h
    obtain ⟨t, p⟩ := a
    rw [moveStreams] at h
    split at h
    · rename_i n rest h1 h2
      simp only [Option.some.injEq] at h
      rw [← h, List.map_cons, List.map_cons, ih rest h2]
    · simp at h

theorem move_tracks (r r' : Reader) (time s : Nat) (h : move r time s = some r') : r'.streams.map (·.1) = r.streams.map (·.1) ∧ r'.mdatEnd = r.mdatEnd := by
  rw [move] at h
  split at h
  · simp at h
  · split at h
    · simp at h
    · split at h
      · split at h
        · simp at h
        · rename_i streams hs
          simp only [Option.some.injEq] at h
          rw [← h]
          exact ⟨moveStreams_tracks _ _ _ _ hs, rfl⟩
      · simp at h

theorem holds_of_tracks : ∀ (a b : List (Track × Nat)) (xss : List (List Sample)), b.map (·.1) = a.map (·.1) → List.Forall₂ (fun s xs => Holds s.1 xs) a xss →
    List.Forall₂ (fun s xs => Holds s.1 xs) b xss := by
  intro a
  induction a with
  | nil =>
    intro b xss h h2
    cases h2
    have : b = [] := by simpa using h
    rw [this]; exact .nil
  | cons x a ih =>
    intro b xss h h2
    cases h2 with
    | cons hx hrest =>
      cases b with
      | nil => simp at h
      | cons y b =>
        simp only [List.map_cons, List.cons.injEq] at h
        exact .cons (by rw [h.1]; exact hx) (ih b _ h.2 hrest)

/-- Reading after the move: everything from the new positions on. -/
theorem read_after_move (f : File) (xss : List (List Sample)) (sd : Spec.Sound f xss) (start s : Nat) (r : Reader) (hm : move f.reader start s = some r) :
    ∃ l, readAll (remaining r.streams + 1) r = some l ∧ (∀ o ∈ l, o.1 < xss.length) ∧
      (∀ i t, trackOf f i = some t → ∃ p all, r.streams[i]? = some (t, p) ∧ xss[i]? = some all ∧ only l i = all.drop p) := by
  obtain ⟨ht, he⟩ := move_tracks _ _ _ _ hm
  have hh : FileHolds r xss := holds_of_tracks _ _ _ ht sd.holds
  obtain ⟨l, h1, h2, h3⟩ := Reader.file_read_complete r xss hh (by rw [he]; exact sd.inside) (by rw [he]; exact sd.size) (remaining r.streams + 1) (by omega)
  refine ⟨l, h1, h2, ?_⟩
  intro i t hi
  rw [trackOf] at hi
  obtain ⟨⟨t', q⟩, hq, rfl⟩ := Option.map_eq_some_iff.mp hi
  have hlen := hh.length_eq
  have hr : (r.streams.map (·.1))[i]? = some t' := by rw [ht, List.getElem?_map, hq]; rfl
  rw [List.getElem?_map] at hr
  obtain ⟨⟨t'', p⟩, hp, rfl⟩ := Option.map_eq_some_iff.mp hr
  have hil : i < xss.length := by
    rw [← hlen]; exact (List.getElem?_eq_some_iff.mp hp).1
  exact ⟨p, xss[i], hp, List.getElem?_eq_getElem hil, h3 i t'' p _ hp (List.getElem?_eq_getElem hil)⟩

end Verif.Edit
