import Verif.Dash.Model
import Verif.Dash.Spec
import Verif.Reader.PropsFrames
import Verif.Fragment.Props
namespace Verif.Dash
open Verif.Reader (Track Sample Reader next move remaining toAdded baseTime framesLoop setBase)
open Verif.Reader.Spec (FileHolds Inside window pres Holds HasTimes)
open Verif.Fragment (Frag)
open Spec (bytesOf)

/-- every sample of every track can be read from the file -/
def Readable (file : List UInt8) (r : Reader) : Prop :=
  ∀ s ∈ r.streams, ∀ (n : Nat) (x : Sample), s.1.pick n = some (some x) → x.offset + x.size ≤ file.length

theorem readable_same {file : List UInt8} {r r' : Reader} (h : Readable file r) (he : ∀ s' ∈ r'.streams, ∃ s ∈ r.streams, s.1 = s'.1) : Readable file r' := by
  intro s' hs' n x hx
  obtain ⟨s, hs, e⟩ := he s' hs'
  exact h s hs n x (e ▸ hx)

theorem next_facts (r : Reader) (b : Bool) (s : Nat) (x : Sample) (r' : Reader) (h : next r = some (b, some (s, x), r')) :
    (∃ a ∈ r.streams, ∃ n, a.1.pick n = some (some x)) ∧ ∀ a' ∈ r'.streams, ∃ a ∈ r.streams, a.1 = a'.1 := by
  rw [next] at h
  split at h
  · simp at h
  · simp at h
  · rename_i s' last _
    split at h
    · simp at h
    · rename_i t p hg
      split at h
      · rename_i y hy
        simp only [Option.some.injEq, Prod.mk.injEq] at h
        obtain ⟨_, ⟨_, rfl⟩, rfl⟩ := h
        refine ⟨⟨_, List.mem_of_getElem? hg, p, hy⟩, ?_⟩
        intro a' ha'
        simp only [Verif.Reader.moveNext, hg] at ha'
        rcases List.mem_or_eq_of_mem_set ha' with h1 | h1
        · exact ⟨a', h1, rfl⟩
        · exact ⟨_, List.mem_of_getElem? hg, by rw [h1]⟩
      · simp at h

theorem moveStreams_facts (d c : Nat) : ∀ (ss ss' : List (Track × Nat)), Verif.Reader.moveStreams d c ss = some ss' → ∀ a' ∈ ss', ∃ a ∈ ss, a.1 = a'.1 := by
  intro ss
  induction ss with
  | nil => intro ss' h; simp [Verif.Reader.moveStreams] at h; subst h; simp
  | cons a ss ih =>
    obtain ⟨t, p⟩ := a
    intro ss' h
    rw [Verif.Reader.moveStreams] at h
    split at h
    · rename_i n rest h1 h2
      simp only [Option.some.injEq] at h
      subst h
      intro a' ha'
      rcases List.mem_cons.mp ha' with rfl | ha'
      · exact ⟨(t, p), by simp, rfl⟩
      · obtain ⟨a, h3, h4⟩ := ih _ h2 a' ha'
        exact ⟨a, by simp [h3], h4⟩
    · simp at h

theorem move_facts (r : Reader) (time stream : Nat) (r' : Reader) (h : move r time stream = some r') : ∀ a' ∈ r'.streams, ∃ a ∈ r.streams, a.1 = a'.1 := by
  rw [move] at h
  split at h
  · simp at h
  · split at h
    · simp at h
    · split at h
      · split at h
        · simp at h
        · rename_i ss hss
          simp only [Option.some.injEq] at h
          subst h
          exact moveStreams_facts _ _ _ _ hss
      · simp at h

/-- the samples put into a fragment one after the other -/
def addList (ts : Nat → Nat) (E : List UInt8 → List UInt8) (file : List UInt8) (start : Nat) (base : Option Nat) (f : Frag) (out : List Sample) : Frag :=
  out.foldl (fun f a => addOne ts E start base f (bytesOf file a) a) f

theorem toAdded_place (t : Track) (x : Sample) : (toAdded t x).offset = x.offset ∧ (toAdded t x).size = x.size := by
  rw [toAdded]; split <;> simp

/-- The loop with bytes follows the loop of module Reader. -/
theorem addLoop_sim (ts : Nat → Nat) (E : List UInt8 → List UInt8) (file : List UInt8) (t : Track) (id start stop : Nat) (base : Option Nat) :
    ∀ (fuel : Nat) (r : Reader) (set : Option Nat) (out : List Sample) (dec : Option Nat) (f : Frag), Readable file r →
    framesLoop t id start stop base fuel r set = some (out, dec) →
    addLoop ts E file t id start stop base fuel r f = some (addList ts E file start base f out) := by
  intro fuel
  induction fuel with
  | zero => intro r set out dec f _ h; simp [framesLoop] at h; obtain ⟨rfl, _⟩ := h; rfl
  | succ fuel ih =>
    intro r set out dec f hr h
    rw [framesLoop] at h
    rw [addLoop]
    split at h
    · simp at h
    · rename_i hn
      simp at h; obtain ⟨rfl, _⟩ := h
      simp [hn, addList]
    · simp at h
    · rename_i s x r' hn
      obtain ⟨⟨a, ha, n, hp⟩, hs⟩ := next_facts r true s x r' hn
      have hle := hr a ha n x hp
      have hr' := readable_same hr hs
      simp only [hn]
      split at h
      · rename_i hc
        rw [if_pos hc]
        exact ih _ _ _ _ _ hr' h
      · rename_i hc
        rw [if_neg hc]
        split at h
        · rename_i hc2
          rw [if_pos hc2]
          simp at h; obtain ⟨rfl, _⟩ := h
          rfl
        · rename_i hc2
          rw [if_neg hc2]
          simp only [readBytes, if_pos hle]
          split at h
          · rename_i hc3
            rw [if_pos hc3]
            exact ih _ _ _ _ _ hr' h
          · rename_i hc3
            rw [if_neg hc3]
            simp only [Option.map_eq_some_iff] at h
            obtain ⟨⟨o, d⟩, h1, h2⟩ := h
            simp only [Prod.mk.injEq] at h2
            obtain ⟨rfl, rfl⟩ := h2
            rw [ih _ _ _ _ _ hr' h1, addList, addList, List.foldl_cons]
            have e := toAdded_place t x
            simp only [bytesOf, e.1, e.2]

theorem addFrames_sim (ts : Nat → Nat) (E : List UInt8 → List UInt8) (file : List UInt8) (r : Reader) (id start stop : Nat) (base : Option Nat) (out : List Sample) (dec : Option Nat) (f : Frag)
    (hr : Readable file r) (h : Verif.Reader.addFrames r id start stop base = some (out, dec)) :
    addFrames ts E file r id start stop base f = some (addList ts E file start base f out) := by
  rw [Verif.Reader.addFrames] at h
  rw [addFrames]
  split at h
  · simp at h
  · rename_i t p ht
    simp only [ht]
    split at h
    · simp at h
    · rename_i r' hm
      simp only [hm]
      exact addLoop_sim ts E file t id start stop base _ r' none out dec f (readable_same hr (move_facts r start id r' hm)) h

/-- a file that holds its media data can be read -/
theorem readable_of (file : List UInt8) (r : Reader) (xss : List (List Sample)) (h : FileHolds r xss) (hin : Inside xss r.mdatEnd) (hf : r.mdatEnd ≤ file.length) : Readable file r := by
  intro s hs n x hx
  obtain ⟨i, hi⟩ := List.mem_iff_getElem?.mp hs
  obtain ⟨xs, hxs, hold⟩ : ∃ xs, xss[i]? = some xs ∧ Holds s.1 xs := by
    have hl := List.Forall₂.length_eq h
    have hi' := (List.getElem?_eq_some_iff.mp hi).1
    refine ⟨xss[i], List.getElem?_eq_getElem (by omega), ?_⟩
    have := (List.forall₂_iff_get.mp h).2 i hi' (by omega)
    simp only [List.get_eq_getElem] at this
    rw [(List.getElem?_eq_some_iff.mp hi).2] at this
    exact this
  have h1 := hold n
  rw [hx] at h1
  have h2 : xs[n]? = some x := (Option.some.inj h1).symm
  have := hin xs (List.mem_of_getElem? hxs) x (List.mem_of_getElem? h2)
  omega

/-- a sample as it is given to the writer -/
def given (file : List UInt8) (a : Sample) : Verif.Fragment.Sample := ⟨bytesOf file a, a.composition, a.decoding, a.duration⟩

theorem addSample_base (ts : Nat → Nat) (E : List UInt8 → List UInt8) (f : Frag) (b : Nat) (body : List UInt8) (c d u : Nat) :
    ({ f with base := b } : Frag).addSample ts E body c d u = { f.addSample ts E body c d u with base := b } := by
  obtain ⟨sq, ti, ba, tsc, fl, ff, its, du, md, en⟩ := f
  cases en <;> rfl

theorem addSample_keeps (ts : Nat → Nat) (E : List UInt8 → List UInt8) (f : Frag) (body : List UInt8) (c d u : Nat) :
    (f.addSample ts E body c d u).base = f.base ∧ (f.addSample ts E body c d u).timescale = f.timescale := by
  obtain ⟨sq, ti, ba, tsc, fl, ff, its, du, md, en⟩ := f
  cases en <;> exact ⟨rfl, rfl⟩

theorem addAll_base (ts : Nat → Nat) (E : List UInt8 → List UInt8) : ∀ (l : List Verif.Fragment.Sample) (f : Frag) (b : Nat),
    ({ f with base := b } : Frag).addAll ts E l = { f.addAll ts E l with base := b } := by
  intro l
  induction l with
  | nil => intro f b; rfl
  | cons x l ih => intro f b; rw [Frag.addAll, Frag.addAll, addSample_base, ih]

theorem addAll_append (ts : Nat → Nat) (E : List UInt8 → List UInt8) : ∀ (l m : List Verif.Fragment.Sample) (f : Frag),
    f.addAll ts E (l ++ m) = (f.addAll ts E l).addAll ts E m := by
  intro l
  induction l with
  | nil => intro m f; rfl
  | cons x l ih => intro m f; rw [List.cons_append, Frag.addAll, Frag.addAll, ih]

theorem addAll_keeps (ts : Nat → Nat) (E : List UInt8 → List UInt8) : ∀ (l : List Verif.Fragment.Sample) (f : Frag),
    (f.addAll ts E l).base = f.base ∧ (f.addAll ts E l).timescale = f.timescale := by
  intro l
  induction l with
  | nil => intro f; exact ⟨rfl, rfl⟩
  | cons x l ih =>
    intro f
    rw [Frag.addAll]
    have h1 := ih (f.addSample ts E x.body x.composition x.decoding x.duration)
    have h2 := addSample_keeps ts E f x.body x.composition x.decoding x.duration
    exact ⟨h1.1.trans h2.1, h1.2.trans h2.2⟩

/-- once the base time is set the samples are just added -/
theorem addList_set (ts : Nat → Nat) (E : List UInt8 → List UInt8) (file : List UInt8) (start : Nat) (base : Option Nat) : ∀ (out : List Sample) (f : Frag), f.base ≠ 2 ^ 64 - 1 →
    addList ts E file start base f out = f.addAll ts E (out.map (given file)) := by
  intro out
  induction out with
  | nil => intro f _; rfl
  | cons x out ih =>
    intro f hf
    have hk := addSample_keeps ts E f (bytesOf file x) x.composition x.decoding x.duration
    have he : addOne ts E start base f (bytesOf file x) x = f.addSample ts E (bytesOf file x) x.composition x.decoding x.duration := by
      rw [addOne]
      simp only [hk.1, if_neg hf]
    rw [addList, List.foldl_cons, he]
    exact ih _ (by rw [hk.1]; exact hf)

/-- the first sample sets the base time -/
theorem addList_first (ts : Nat → Nat) (E : List UInt8 → List UInt8) (file : List UInt8) (start : Nat) (base : Option Nat) (x : Sample) (out : List Sample) (f : Frag) (hf : f.base = 2 ^ 64 - 1)
    (hb : f.scale ts (baseTime start base x) % 2 ^ 64 ≠ 2 ^ 64 - 1) :
    addList ts E file start base f (x :: out) = (f.addAll ts E ((x :: out).map (given file))).setBase ts (baseTime start base x) := by
  have hk := addSample_keeps ts E f (bytesOf file x) x.composition x.decoding x.duration
  have he : addOne ts E start base f (bytesOf file x) x =
      { f.addSample ts E (bytesOf file x) x.composition x.decoding x.duration with base := f.scale ts (baseTime start base x) % 2 ^ 64 } := by
    rw [addOne]
    simp only [hk.1, if_pos hf, Frag.setBase, Frag.scale, hk.2]
  rw [addList, List.foldl_cons, he]
  have h2 := addList_set ts E file start base out
    { f.addSample ts E (bytesOf file x) x.composition x.decoding x.duration with base := f.scale ts (baseTime start base x) % 2 ^ 64 } hb
  rw [addList] at h2
  rw [h2, addAll_base]
  have h3 := addAll_keeps ts E ((x :: out).map (given file)) f
  have h4 : ∀ g : Frag, g.timescale = f.timescale → g.setBase ts (baseTime start base x) = { g with base := f.scale ts (baseTime start base x) % 2 ^ 64 } := by
    intro g hg
    simp only [Frag.setBase, Frag.scale, hg]
  rw [h4 _ h3.2]
  rfl

theorem new_keeps (q : Request) : q.new.base = 2 ^ 64 - 1 ∧ q.new.timescale = q.timescale := by
  obtain ⟨tsc, enc, ti, sq, v, b, gs, gt⟩ := q
  cases enc <;> exact ⟨rfl, rfl⟩

/-- the base media decode time of a segment whose first sample is `a` -/
def Request.decodeTime (q : Request) (start : Nat) : List Sample → Option Nat
  | [] => none
  | a :: _ => some (baseTime start q.base a)

/-- flags of the first sample -/
def Request.flags (q : Request) : Nat := if q.video then 0xa600000 else 0

/-- what `Frag.make` of module Fragment makes -/
theorem make_new (ts : Nat → Nat) (E : List UInt8 → List UInt8) (q : Request) (base : Option Nat) (l : List Verif.Fragment.Sample) :
    Frag.make ts E q.timescale base q.enc q.trackId q.sequence q.flags l =
      match base with
      | none => q.new.addAll ts E l
      | some t => (q.new.addAll ts E l).setBase ts t := by
  obtain ⟨tsc, enc, ti, sq, v, b, gs, gt⟩ := q
  cases enc <;> cases base <;> rfl

theorem addList_new (ts : Nat → Nat) (E : List UInt8 → List UInt8) (file : List UInt8) (q : Request) (start : Nat) (out : List Sample)
    (hb : ∀ a, out.head? = some a → Verif.Fragment.scaled ts q.timescale (baseTime start q.base a) % 2 ^ 64 ≠ 2 ^ 64 - 1) :
    addList ts E file start q.base q.new out = Frag.make ts E q.timescale (q.decodeTime start out) q.enc q.trackId q.sequence q.flags (out.map (given file)) := by
  rw [make_new]
  cases out with
  | nil => rfl
  | cons x out =>
    have hk := new_keeps q
    rw [addList_first ts E file start q.base x out q.new hk.1]
    · rfl
    · have := hb x rfl
      rw [Frag.scale, hk.2]
      rw [Verif.Fragment.scaled] at this
      by_cases hc : q.timescale = 10000000
      · rw [if_neg (by omega)]; rw [if_pos hc] at this; exact this
      · rw [if_pos hc]; rw [if_neg hc] at this; exact this

end Verif.Dash
