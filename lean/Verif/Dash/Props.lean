import Verif.Dash.Times
/-
C124, C125, C126: media segments of a presentation.
-/
namespace Verif.Dash
open Verif.Reader (Track TrackBoxes Sample Reader toAdded baseTime)
open Verif.Reader.Spec (window pres Separates Timed Holds)
open Verif.Fragment (Frag scaled)
open Spec

theorem toAdded_same (t : Track) (x : Sample) : (toAdded t x).composition = x.composition ∧ (toAdded t x).duration = x.duration := by
  rw [toAdded]; split <;> simp

theorem given_added (file : List UInt8) (t : Track) (x : Sample) :
    given file (toAdded t x) = ⟨bytesOf file x, x.composition, (toAdded t x).decoding, x.duration⟩ := by
  have h1 := toAdded_same t x
  have h2 := toAdded_place t x
  simp only [given, bytesOf, h1.1, h1.2, h2.1, h2.2]

theorem baseTime_eq (start : Nat) (base : Option Nat) (a : Sample) (h1 : a.decoding ≤ a.composition) (h2 : a.composition - a.decoding ≤ base.getD start) (h3 : base.getD start < 2 ^ 64) :
    baseTime start base a = base.getD start - (a.composition - a.decoding) := by
  simp only [baseTime, Verif.Tables.sub64]
  rw [show a.composition + 2 ^ 64 - a.decoding = (a.composition - a.decoding) + 2 ^ 64 by omega, Nat.add_mod_right,
    Nat.mod_eq_of_lt (show a.composition - a.decoding < 2 ^ 64 by omega)]
  rw [show base.getD start + 2 ^ 64 - (a.composition - a.decoding) = (base.getD start - (a.composition - a.decoding)) + 2 ^ 64 by omega, Nat.add_mod_right, Nat.mod_eq_of_lt (by omega)]

theorem added_size {file : List UInt8} {r : Reader} {id : Nat} {b : TrackBoxes} {t : Track} {es : List (Nat × Nat)} {xs : List Sample} (h : Source file r id b t es xs) (x : Sample) (hx : x ∈ xs) :
    (bytesOf file x).length = x.size := by
  obtain ⟨xss, _, h2, h3⟩ := h.samples
  have := h2 xs (List.mem_of_getElem? h3) x hx
  have := h.whole
  rw [bytesOf, List.length_take, List.length_drop]
  omega

theorem window_sub (t : Track) (start stop : Nat) (xs : List Sample) (x : Sample) (h : x ∈ window t start stop xs) : x ∈ xs := (List.mem_filter.mp h).1

theorem sizes_eq {file : List UInt8} {r : Reader} {id : Nat} {b : TrackBoxes} {t : Track} {es : List (Nat × Nat)} {xs : List Sample} (h : Source file r id b t es xs) (w : List Sample) (hw : ∀ x ∈ w, x ∈ xs) :
    (((w.map (toAdded t)).map (given file)).map fun s => s.body.length + 28) = w.map fun x => x.size + 28 := by
  rw [List.map_map, List.map_map]
  apply List.map_congr_left
  intro x hx
  simp only [Function.comp, given_added, added_size h x (hw x hx)]

theorem head_added (q : Request) (t : Track) (start : Nat) (w : List Sample) (hf : FirstFits q t start w) (ts : Nat → Nat) (hts : q.timescale ≠ 10000000 → ∀ n, ts n < 2 ^ 64 - 1) :
    (∀ v, q.decodeTime start (w.map (toAdded t)) = some v → scaled ts q.timescale v < 2 ^ 64 - 1) ∧
    (∀ a, (w.map (toAdded t)).head? = some a → scaled ts q.timescale (baseTime start q.base a) % 2 ^ 64 ≠ 2 ^ 64 - 1) ∧
    q.decodeTime start (w.map (toAdded t)) = w.head?.map fun x => q.base.getD start - (x.composition - (toAdded t x).decoding) := by
  cases w with
  | nil => simp [Request.decodeTime]
  | cons x w =>
    obtain ⟨h1, h2⟩ := hf.order x rfl
    have h3 := hf.time
    have hb := baseTime_eq start q.base (toAdded t x) (by rw [(toAdded_same t x).1]; exact h1) (by rw [(toAdded_same t x).1]; exact h2) (by omega)
    rw [(toAdded_same t x).1] at hb
    have hlt : scaled ts q.timescale (baseTime start q.base (toAdded t x)) < 2 ^ 64 - 1 := by
      rw [scaled]
      split
      · rw [hb]; omega
      · rename_i hc; exact hts hc _
    refine ⟨?_, ?_, ?_⟩
    · intro v hv
      simp only [List.map_cons, Request.decodeTime, Option.some.injEq] at hv
      exact hv ▸ hlt
    · intro a ha
      simp only [List.map_cons, List.head?_cons, Option.some.injEq] at ha
      subst ha
      rw [Nat.mod_eq_of_lt (by omega)]
      omega
    · simp only [List.map_cons, Request.decodeTime, List.head?_cons, Option.map_some, hb]

/-- Everything that is in a segment. -/
theorem segment_all (ts : Nat → Nat) (E : List UInt8 → List UInt8) (hE : ∀ b, (E b).length = 16) (q : Request)
    (file : List UInt8) (r : Reader) (id : Nat) (b : TrackBoxes) (t : Track) (es : List (Nat × Nat)) (xs : List Sample) (hsrc : Source file r id b t es xs)
    (start stop : Nat) (hgood : Good ts q b t xs start stop) :
    ∃ seg s, produce ts E q file r id start stop = some seg ∧ Fragment.Spec.segment seg = some s ∧ s.sequence = q.sequence ∧ s.trackId = q.trackId ∧
      content E s = (window t start stop xs).map (bytesOf file) ∧ (q.enc = none ↔ s.senc = none) ∧ s.aux = s.senc ∧ s.mdat = s.data.flatten ∧
      s.base = (window t start stop xs).head?.map (fun x => scaled ts q.timescale (q.base.getD start - (x.composition - (toAdded t x).decoding))) ∧
      s.runs = (window t start stop xs).map (fun x => ⟨some (scaled ts q.timescale x.duration % 2 ^ 32), some x.size,
        if q.video then some (Fragment.Spec.signed32 (scaled ts q.timescale ((x.composition + 2 ^ 64 - (toAdded t x).decoding) % 2 ^ 64) % 2 ^ 32)) else none⟩) := by
  obtain ⟨h1, h2, h3, hts, henc, hstart, hcut, hfirst, hsize⟩ := hgood
  obtain ⟨p, hid⟩ := hsrc.track
  obtain ⟨xss, hh, hin, hxs⟩ := hsrc.samples
  obtain ⟨dec, hadd⟩ := cut_added r xss hh hsrc.times hin hsrc.small id b t p es hsrc.timed hid xs hxs hsrc.fit start stop hstart hcut q.base
  have hsim := addFrames_sim ts E file r id start stop q.base _ dec q.new (readable_of file r xss hh hin hsrc.whole) hadd
  obtain ⟨w, hw⟩ : ∃ w, w = window t start stop xs := ⟨_, rfl⟩
  have hsub : ∀ x ∈ w, x ∈ xs := fun x hx => window_sub t start stop xs x (hw ▸ hx)
  rw [← hw] at hfirst hsize hsim ⊢
  obtain ⟨hb1, hb2, hb3⟩ := head_added q t start w hfirst ts hts
  rw [addList_new ts E file q start _ hb2] at hsim
  have hflags : q.flags < 2 ^ 32 := by rw [Request.flags]; split <;> decide
  obtain ⟨seg, s, g1, g2, g3, g4, g5, g6, g7, g8, g9, g10⟩ := Fragment.fragment_read_back ts E hE q.timescale (q.decodeTime start (w.map (toAdded t))) q.enc henc q.trackId q.sequence q.flags
    ((w.map (toAdded t)).map (given file)) h1 h2 h3 hflags hb1 (by rw [sizes_eq hsrc w hsub]; exact hsize) q.gs q.gt [] []
  have hbodies : ((w.map (toAdded t)).map (given file)).map (·.body) = w.map (bytesOf file) := by
    rw [List.map_map, List.map_map]
    apply List.map_congr_left
    intro x _
    simp only [Function.comp, given_added]
  rw [hbodies] at g9 g10
  refine ⟨seg, s, ?_, g2, g3, g4, ?_, ?_, ?_, g8, ?_, ?_⟩
  · rw [produce, hsim, Option.map_some]
    have : (⟨[], 0, []⟩ : Fragment.W) = ⟨[], ([] : List UInt8).length, []⟩ := rfl
    rw [this, g1]
    rfl
  · cases he : q.enc with
    | none => obtain ⟨a, b, _⟩ := g9 he; rw [content, b, a]
    | some v =>
      obtain ⟨es, a1, a2, a3, a4⟩ := g10 (by rw [he]; simp)
      rw [content, a1]
      exact a4
  · cases he : q.enc with
    | none => obtain ⟨a, b, _⟩ := g9 he; simp [b]
    | some v => obtain ⟨es, a1, _⟩ := g10 (by rw [he]; simp); simp [a1]
  · cases he : q.enc with
    | none => obtain ⟨a, b, c⟩ := g9 he; rw [b, c]
    | some v => obtain ⟨es, a1, a2, _⟩ := g10 (by rw [he]; simp); rw [a1, a2]
  · rw [g5, hb3, Option.map_map]; rfl
  · rw [g7, List.map_map, List.map_map]
    apply List.map_congr_left
    intro x hx
    simp only [Function.comp, given_added, added_size hsrc x (hsub x hx), Fragment.Spec.Run.mk.injEq, true_and]
    rw [Request.flags]
    cases q.video <;> simp

/-- C124: for every source, and all times at which it can be cut: a player that reads the segment made of the part from `start` to `stop` - boxes, track fragment, run of samples, and the decryption
entries if it is encrypted - gets exactly the samples presented from `start` on and before `stop`, each once, in decoding order and with the bytes it has in the source file, under the track and sequence
number asked for. -/
theorem segment_holds_samples_partial (ts : Nat → Nat) (E : List UInt8 → List UInt8) (hE : ∀ b, (E b).length = 16) (q : Request)
    (file : List UInt8) (r : Reader) (id : Nat) (b : TrackBoxes) (t : Track) (es : List (Nat × Nat)) (xs : List Sample) (hsrc : Source file r id b t es xs)
    (start stop : Nat) (hgood : Good ts q b t xs start stop) :
    ∃ seg s, produce ts E q file r id start stop = some seg ∧ Fragment.Spec.segment seg = some s ∧ s.sequence = q.sequence ∧ s.trackId = q.trackId ∧
      content E s = (window t start stop xs).map (bytesOf file) ∧ (q.enc = none ↔ s.senc = none) ∧ s.aux = s.senc ∧ s.mdat = s.data.flatten := by
  obtain ⟨seg, s, g1, g2, g3, g4, g5, g6, g7, g8, _⟩ := segment_all ts E hE q file r id b t es xs hsrc start stop hgood
  exact ⟨seg, s, g1, g2, g3, g4, g5, g6, g7, g8⟩

end Verif.Dash
