import Verif.Parse.Steps3
import Verif.Parse.SpecFit
/-
A file whose boxes fit is read to its end.
-/
namespace Verif.Parse
open Verif.Cenc.Spec (beVal)
open Verif.Tables (sub64 u32)
open Verif.Fragment (fourcc)

/-! ### Readers that end -/

def Safe {α : Type} (x : Res α) : Prop := x ≠ .error .endless

theorem safe_bind {α β : Type} {x : Res α} {f : α → Res β} (h : Safe x) (h' : ∀ a, x = .ok a → Safe (f a)) : Safe (x >>= f) := by
  cases x with
  | error e => intro e'; apply h; cases e'; rfl
  | ok a => exact h' a rfl

theorem safe_ok {α : Type} (a : α) : Safe (Except.ok a : Res α) := by intro e; cases e
theorem safe_thrown {α : Type} : Safe (Except.error .thrown : Res α) := by intro e; cases e

theorem get_safe (n : Nat) (r : List UInt8) : Safe (get n r) := by
  unfold get; split
  · exact safe_ok _
  · exact safe_thrown
theorem getBytes_safe (n : Nat) (r : List UInt8) : Safe (getBytes n r) := by
  unfold getBytes; split
  · exact safe_ok _
  · exact safe_thrown
theorem pass_safe (n : Nat) (r : List UInt8) : Safe (pass n r) := by
  unfold pass; split
  · exact safe_ok _
  · exact safe_thrown

/-- A step that is known to end, and the rest. -/
macro "safes" : tactic => `(tactic| repeat' first | exact safe_ok _ | exact safe_thrown | exact get_safe _ _ | exact getBytes_safe _ _ | exact pass_safe _ _ | (refine safe_bind ?_ fun _ _ => ?_))

theorem getFull_safe (r : List UInt8) : Safe (getFull r) := by unfold getFull; safes

theorem getWords_safe : ∀ (n : Nat) (r : List UInt8), Safe (getWords n r)
  | 0, _ => safe_ok _
  | n + 1, r => by
    unfold getWords
    refine safe_bind (get_safe _ _) fun _ _ => safe_bind (getWords_safe n _) fun _ _ => safe_ok _

theorem longSize_safe (n : Nat) (r : List UInt8) : Safe (longSize n r) := by
  unfold longSize; split
  · exact get_safe _ _
  · exact safe_ok _

theorem uuidSize_safe (t n : Nat) (r : List UInt8) : Safe (uuidSize t n r) := by
  unfold uuidSize
  by_cases hu : t = fourcc 'u' 'u' 'i' 'd'
  · rw [if_pos hu]; exact safe_bind (pass_safe _ _) fun _ _ => safe_ok _
  · rw [if_neg hu]; exact safe_ok _

theorem getBox_safe (N : Nat) (r : List UInt8) : Safe (getBox N r) := by
  unfold getBox
  exact safe_bind (get_safe _ _) fun _ _ => safe_bind (get_safe _ _) fun _ _ => safe_bind (longSize_safe _ _) fun _ _ =>
    safe_bind (uuidSize_safe _ _ _) fun _ _ => safe_ok _

theorem doBox_safe (N : Nat) (h : Hdr) (r : List UInt8) : Safe (doBox N h r) := by
  unfold doBox; split
  · exact safe_ok _
  · exact getBox_safe _ _

theorem visualOne_safe (ok : Accept) (h : Hdr) (c : Option (List UInt8)) (r : List UInt8) : Safe (visualOne ok h c r) := by
  unfold visualOne
  generalize known h.type = q
  cases q
  case avcC =>
    refine safe_bind (getBytes_safe _ _) fun _ _ => ?_
    simp only; split
    · exact safe_ok _
    · exact safe_thrown
  case btrt => exact safe_bind (pass_safe _ _) fun _ _ => safe_ok _
  case pasp => exact safe_bind (pass_safe _ _) fun _ _ => safe_ok _
  all_goals exact safe_ok _

theorem visual_safe (ok : Accept) (N stop : Nat) (hs : stop ≤ N) : ∀ (n : Nat) (h : Hdr) (c : Option (List UInt8)) (r : List UInt8), r.length < n →
    Safe (visualBoxes ok N stop n h c r)
  | 0, _, _, _, hn => by omega
  | n + 1, h, c, r, hn => by
    rw [visual_succ]
    split
    · have hr : r ≠ [] := by
        intro e; subst e; simp only [List.length_nil] at *; omega
      rw [doBox_cons hr]
      refine safe_bind (getBox_safe _ _) fun ⟨h1, r1⟩ e1 => safe_bind (visualOne_safe _ _ _ _) fun ⟨c2, r2⟩ e2 => ?_
      have := getBox_le e1; have := visualOne_le e2
      exact visual_safe ok N stop hs n _ _ _ (by (try simp only at *); omega)
    · exact safe_ok _

theorem visualEntry_safe {ok : Accept} {F N : Nat} {h : Hdr} {r : List UInt8} (hs : (h.start + h.size) % 2 ^ 64 ≤ N) (hF : r.length < F) : Safe (visualEntry ok F N h r) := by
  unfold visualEntry
  refine safe_bind (pass_safe _ _) fun r1 e1 => safe_bind (get_safe _ _) fun ⟨w, r2⟩ e2 => safe_bind (get_safe _ _) fun ⟨hh, r3⟩ e3 =>
    safe_bind (pass_safe _ _) fun r4 e4 => safe_bind (get_safe _ _) fun ⟨s, r5⟩ e5 => safe_bind (pass_safe _ _) fun r6 e6 => safe_bind (pass_safe _ _) fun r7 e7 =>
    safe_bind ?_ fun _ _ => safe_ok _
  have := pass_le e1; have := get_le e2; have := get_le e3; have := pass_le e4; have := get_le e5; have := pass_le e6; have := pass_le e7
  exact visual_safe ok N _ hs F h none r7 (by omega)

theorem audioEntry_safe (ok : Accept) (N : Nat) (h : Hdr) (r : List UInt8) : Safe (audioEntry ok N h r) := by
  unfold audioEntry
  refine safe_bind (pass_safe _ _) fun r1 e1 => safe_bind (get_safe _ _) fun ⟨w, r2⟩ e2 => safe_bind (pass_safe _ _) fun r3 e3 => safe_bind (get_safe _ _) fun ⟨w4, r4⟩ e4 => ?_
  (try simp only)
  split
  · refine safe_bind (getBytes_safe _ _) fun _ _ => ?_
    split
    · exact safe_thrown
    · exact safe_ok _
  · exact safe_ok _

theorem safe_map {α β : Type} {x : Res α} {f : α → β} (h : Safe x) : Safe (x.map f) := by
  cases x with
  | error e => intro e'; apply h; cases e'; rfl
  | ok a => exact safe_ok _

/-- What is known of a file: every box that begins in the last `m` bytes ends in the file. -/
def Inside (file : List UInt8) (m : Nat) : Prop := ∀ r h r', IsEnd file r → r.length ≤ m → getBox file.length r = .ok (h, r') → (h.start + h.size) % 2 ^ 64 ≤ file.length

theorem getDref_safe (N : Nat) (r : List UInt8) : Safe (getDref N r) := by
  unfold getDref
  exact safe_bind (getFull_safe _) fun _ _ => safe_bind (get_safe _ _) fun _ _ => safe_bind (getBox_safe _ _) fun _ _ => safe_bind (getFull_safe _) fun _ _ => safe_ok _

/-- A box read in the file just before `r`. -/
def Fresh (file : List UInt8) (h : Hdr) (r : List UInt8) : Prop := ∃ s, IsEnd file s ∧ getBox file.length s = .ok (h, r)

theorem fresh_doBox {file r r' : List UInt8} {h h' : Hdr} (hr : IsEnd file r) (h0 : r ≠ []) (e : doBox file.length h r = .ok (h', r')) : Fresh file h' r' := by
  rw [doBox_cons h0] at e
  exact ⟨r, hr, e⟩

/-- The first description of samples ends in the file; if there are more, so does every box behind it. -/
def Described (file : List UInt8) : Prop := ∀ h r v r1 c r2, known h.type = .stsd → Fresh file h r → getFull r = .ok (v, r1) → get 4 r1 = .ok (c, r2) →
  (∀ h' r', getBox file.length r2 = .ok (h', r') → (h'.start + h'.size) % 2 ^ 64 ≤ file.length) ∧ (1 < c → Inside file (r2.length - 1))

theorem sampleEntry_safe (ok : Accept) (F : Nat) (file : List UInt8) (k : Handler) (h h1 : Hdr) (r r1 : List UInt8) (e1 : doBox file.length h r = .ok (h1, r1))
    (hin : ∀ h' r', getBox file.length r = .ok (h', r') → (h'.start + h'.size) % 2 ^ 64 ≤ file.length) (hF : r.length < F) : Safe (sampleEntry ok F file.length k h1 r1) := by
  have l1 := doBox_le e1
  cases k with
  | vide =>
    refine safe_map ?_
    by_cases h0 : r = []
    · subst h0
      cases e1
      have : visualEntry ok F file.length h [] = .error .thrown := by unfold visualEntry; rfl
      rw [this]; exact safe_thrown
    · rw [doBox_cons h0] at e1
      exact visualEntry_safe (hin _ _ e1) (by omega)
  | soun => exact safe_map (audioEntry_safe _ _ _ _)
  | text => exact safe_ok _

theorem inside_mono {file : List UInt8} {m n : Nat} (h : Inside file m) (hn : n ≤ m) : Inside file n := fun r h' r' a b c => h r h' r' a (by omega) c

theorem sampleEntries_safe (ok : Accept) (F : Nat) (file : List UInt8) (k : Handler) : ∀ (n : Nat) (h : Hdr) (r : List UInt8),
    IsEnd file r → (∀ h' r', getBox file.length r = .ok (h', r') → (h'.start + h'.size) % 2 ^ 64 ≤ file.length) → (1 < n → Inside file (r.length - 1)) → r.length < F →
    Safe (sampleEntries ok F file.length k n h r)
  | 0, _, _, _, _, _, _ => safe_ok _
  | n + 1, h, r, hr, h1, hin, hF => by
    unfold sampleEntries
    refine safe_bind (doBox_safe _ _ _) fun ⟨h1', r1⟩ e1 => safe_bind (sampleEntry_safe ok F file k h h1' r r1 e1 h1 hF) fun ⟨x, h2, r2⟩ e2 => safe_bind ?_ fun _ _ => safe_ok _
    have l1 := doBox_le e1
    have l2 := sampleEntry_le e2
    have i2 := isEnd_suf (isEnd_suf hr (doBox_suf e1)) (sampleEntry_suf e2)
    cases n with
    | zero => exact safe_ok _
    | succ n =>
      have hin := hin (by omega)
      by_cases h0 : r = []
      · subst h0
        have hr2 : r2 = [] := List.eq_nil_of_length_eq_zero (by simp only [List.length_nil] at *; omega)
        subst hr2
        refine sampleEntries_safe ok F file k (n + 1) _ _ i2 ?_ (fun _ => inside_mono hin (by simp)) (by omega)
        intro h' r' e
        have := getBox_le e
        simp at this
      · rw [doBox_cons h0] at e1
        have l0 := getBox_le e1
        exact sampleEntries_safe ok F file k (n + 1) _ _ i2 (fun h' r' e => hin r2 h' r' i2 (by (try simp only at *); omega) e)
          (fun _ => inside_mono hin (by (try simp only at *); omega)) (by (try simp only at *); omega)

theorem handlerOne_safe (ok : Accept) (F : Nat) (file : List UInt8) (hd : Described file) (k : Handler) (h : Hdr) (r : List UInt8) (hr : IsEnd file r)
    (hf : r = [] ∨ Fresh file h r) (hF : r.length < F) : Safe (handlerOne ok F file.length k h r) := by
  rcases hf with rfl | hf
  · rcases handlerOne_nil ok F file.length k h with e | e <;> rw [e]
    · exact safe_ok _
    · exact safe_thrown
  · unfold handlerOne
    generalize hq : known h.type = q
    cases q
    case dref => exact safe_bind (getDref_safe _ _) fun _ _ => safe_ok _
    case stsd =>
      refine safe_bind (getFull_safe _) fun ⟨v, r1⟩ e1 => safe_bind (get_safe _ _) fun ⟨c, r2⟩ e2 => safe_bind ?_ fun _ _ => safe_ok _
      have l1 := getFull_le e1; have l2 := get_le e2
      have d := hd h r v r1 c r2 hq hf e1 e2
      exact sampleEntries_safe ok F file k _ _ _ (isEnd_suf (isEnd_suf hr (getFull_suf e1)) (get_suf e2)) d.1 d.2 (by omega)
    all_goals exact safe_ok _

theorem handler_safe (ok : Accept) (F : Nat) (file : List UInt8) (hd : Described file) (stop : Nat) (hs : stop ≤ file.length) (k : Handler) : ∀ (n : Nat) (h : Hdr) (r : List UInt8),
    IsEnd file r → (r = [] ∨ Fresh file h r) → r.length < n → r.length < F → Safe (handlerBoxes ok F file.length stop k n h r)
  | 0, _, _, _, _, hn, _ => by omega
  | n + 1, h, r, hr, hf, hn, hF => by
    rw [handler_succ]
    refine safe_bind (handlerOne_safe ok F file hd k h r hr hf hF) fun ⟨o, h1, r1⟩ e1 => ?_
    have l1 := handlerOne_le e1
    have i1 := isEnd_suf hr (handlerOne_suf e1)
    unfold handlerMore
    cases o with
    | some es => exact safe_ok _
    | none =>
      simp only
      split
      · exact safe_ok _
      · split
        · exact safe_thrown
        · have h0 : r1 ≠ [] := by intro e; subst e; simp only [List.length_nil] at *; omega
          refine safe_bind (doBox_safe _ _ _) fun ⟨h2, r2⟩ e2 => ?_
          have f2 := fresh_doBox i1 h0 e2
          have i2 := isEnd_suf i1 (doBox_suf e2)
          rw [doBox_cons h0] at e2
          have l2 := getBox_le e2
          exact handler_safe ok F file hd stop hs k n _ _ i2 (.inr f2) (by (try simp only at *); omega) (by (try simp only at *); omega)

theorem fresh_or {file r r' : List UInt8} {h h' : Hdr} (hr : IsEnd file r) (e : doBox file.length h r = .ok (h', r')) : r' = [] ∨ Fresh file h' r' := by
  by_cases h0 : r = []
  · subst h0; cases e; exact .inl rfl
  · exact .inr (fresh_doBox hr h0 e)

theorem handlerParse_safe (ok : Accept) (F : Nat) (file : List UInt8) (hd : Described file) (k : Handler) (h : Hdr) (r : List UInt8) (hr : IsEnd file r)
    (hs : (h.start + h.size) % 2 ^ 64 ≤ file.length) (hF : r.length < F) : Safe (handlerParse ok F file.length k h r) := by
  unfold handlerParse
  refine safe_bind (doBox_safe _ _ _) fun ⟨h1, r1⟩ e1 => ?_
  have i1 := isEnd_suf hr (doBox_suf e1)
  have f1 := fresh_or hr e1
  have l1 := doBox_le e1
  have m : Safe (mediaHeader file.length k h1 r1) ∧ ∀ h2 r2, mediaHeader file.length k h1 r1 = .ok (h2, r2) → r2 = [] ∨ Fresh file h2 r2 := by
    unfold mediaHeader
    generalize known h1.type = q
    cases k <;> cases q
    case vide.vmhd =>
      refine ⟨safe_bind (pass_safe _ _) fun _ _ => doBox_safe _ _ _, fun h2 r2 e => ?_⟩
      obtain ⟨r3, e3, e⟩ := bind_ok.1 e
      exact fresh_or (isEnd_suf i1 (pass_suf e3)) e
    case soun.smhd =>
      refine ⟨safe_bind (pass_safe _ _) fun _ _ => doBox_safe _ _ _, fun h2 r2 e => ?_⟩
      obtain ⟨r3, e3, e⟩ := bind_ok.1 e
      exact fresh_or (isEnd_suf i1 (pass_suf e3)) e
    all_goals first
      | exact ⟨doBox_safe _ _ _, fun h2 r2 e => fresh_or (isEnd_suf i1 (skip_suf _ _)) e⟩
      | exact ⟨safe_ok _, fun h2 r2 e => by cases e; exact f1⟩
  refine safe_bind m.1 fun ⟨h2, r2⟩ e2 => ?_
  have l2 := mediaHeader_le e2
  exact handler_safe ok F file hd _ hs k F _ _ (isEnd_suf i1 (mediaHeader_suf e2)) (m.2 _ _ e2) (by omega) (by omega)


/-- A track or media information box ends in the file. -/
def Held (file : List UInt8) : Prop := ∀ h r, known h.type = .trak ∨ known h.type = .minf → Fresh file h r → (h.start + h.size) % 2 ^ 64 ≤ file.length

theorem getTable_safe (k : Nat) (r : List UInt8) : Safe (getTable k r) := by
  unfold getTable
  exact safe_bind (getFull_safe _) fun _ _ => safe_bind (get_safe _ _) fun _ _ => safe_bind (getWords_safe _ _) fun _ _ => safe_ok _

theorem getStsz_safe (r : List UInt8) : Safe (getStsz r) := by
  unfold getStsz
  exact safe_bind (getFull_safe _) fun _ _ => safe_bind (get_safe _ _) fun _ _ => safe_bind (get_safe _ _) fun _ _ => safe_bind (getWords_safe _ _) fun _ _ => safe_ok _

theorem getEdits_safe (v : Nat) : ∀ (n : Nat) (r : List UInt8), Safe (getEdits v n r)
  | 0, _ => safe_ok _
  | n + 1, r => by
    unfold getEdits
    exact safe_bind (get_safe _ _) fun _ _ => safe_bind (get_safe _ _) fun _ _ => safe_bind (pass_safe _ _) fun _ _ => safe_bind (getEdits_safe v n _) fun _ _ => safe_ok _

theorem getElst_safe (r : List UInt8) : Safe (getElst r) := by
  unfold getElst
  refine safe_bind (getFull_safe _) fun _ _ => safe_bind (get_safe _ _) fun _ _ => safe_bind (getEdits_safe _ _ _) fun _ _ => ?_
  (try simp only)
  split <;> exact safe_ok _

theorem getTkhd_safe (t : TrackRd) (r : List UInt8) : Safe (getTkhd t r) := by
  unfold getTkhd
  refine safe_bind (getFull_safe _) fun _ _ => ?_
  safes

theorem getMdhd_safe (t : TrackRd) (r : List UInt8) : Safe (getMdhd t r) := by
  unfold getMdhd
  refine safe_bind (getFull_safe _) fun _ _ => ?_
  safes

theorem getHdlr_safe (h : Hdr) (t : TrackRd) (r : List UInt8) : Safe (getHdlr h t r) := by
  unfold getHdlr
  refine safe_bind (getFull_safe _) fun _ _ => safe_bind (pass_safe _ _) fun _ _ => safe_bind (get_safe _ _) fun _ _ => safe_bind (pass_safe _ _) fun _ _ => ?_
  (try simp only)
  split
  · exact safe_bind (pass_safe _ _) fun _ _ => safe_ok _
  · exact safe_thrown

theorem handlerOf_safe (t : Nat) : Safe (handlerOf t) := by
  unfold handlerOf
  generalize fourcc 'v' 'i' 'd' 'e' = a
  generalize fourcc 's' 'o' 'u' 'n' = b
  generalize fourcc 't' 'e' 'x' 't' = c
  split
  · exact safe_ok _
  · split
    · exact safe_ok _
    · split
      · exact safe_ok _
      · exact safe_thrown

theorem once_safe {α : Type} (o : Option α) : Safe (once o) := by
  unfold once; split
  · exact safe_thrown
  · exact safe_ok _

theorem trackBox_safe (ok : Accept) (F : Nat) (file : List UInt8) (hd : Described file) (hh : Held file) (h : Hdr) (t : TrackRd) (r : List UInt8) (hr : IsEnd file r)
    (hf : Fresh file h r) (hF : r.length < F) : Safe (trackBox ok F file.length h t r) := by
  unfold trackBox
  generalize hq : known h.type = q
  cases q
  case tkhd => exact safe_bind (getTkhd_safe _ _) fun _ _ => safe_ok _
  case mdhd => exact safe_bind (getMdhd_safe _ _) fun _ _ => safe_ok _
  case hdlr => exact safe_bind (getHdlr_safe _ _ _) fun _ _ => safe_ok _
  case minf =>
    simp only
    split
    · exact safe_thrown
    · exact safe_bind (handlerOf_safe _) fun k _ => safe_bind (handlerParse_safe ok F file hd k h r hr (hh h r (.inr hq) hf) hF) fun _ _ => safe_ok _
  case ctts =>
    refine safe_bind (once_safe _) fun _ _ => ?_
    (try simp only)
    split
    · exact safe_thrown
    · exact safe_bind (getTable_safe _ _) fun _ _ => safe_ok _
  case elst => exact safe_bind (once_safe _) fun _ _ => safe_bind (getElst_safe _) fun _ _ => safe_ok _
  case stsz => exact safe_bind (once_safe _) fun _ _ => safe_bind (getStsz_safe _) fun _ _ => safe_ok _
  case stts => exact safe_bind (once_safe _) fun _ _ => safe_bind (getTable_safe _ _) fun _ _ => safe_ok _
  case stss => exact safe_bind (once_safe _) fun _ _ => safe_bind (getTable_safe _ _) fun _ _ => safe_ok _
  case stco => exact safe_bind (once_safe _) fun _ _ => safe_bind (getTable_safe _ _) fun _ _ => safe_ok _
  case stsc => exact safe_bind (once_safe _) fun _ _ => safe_bind (getTable_safe _ _) fun _ _ => safe_ok _
  all_goals exact safe_ok _

theorem track_safe (ok : Accept) (F : Nat) (file : List UInt8) (hd : Described file) (hh : Held file) (stop : Nat) (hs : stop ≤ file.length) :
    ∀ (n : Nat) (h : Hdr) (t : TrackRd) (r : List UInt8), IsEnd file r → r.length < n → r.length < F → Safe (trackBoxes ok F file.length stop n h t r)
  | 0, _, _, _, _, hn, _ => by omega
  | n + 1, h, t, r, hr, hn, hF => by
    rw [track_succ]
    split
    · have h0 : r ≠ [] := by intro e; subst e; simp only [List.length_nil] at *; omega
      refine safe_bind (doBox_safe _ _ _) fun ⟨h1, r1⟩ e1 => ?_
      have f1 := fresh_doBox hr h0 e1
      have i1 := isEnd_suf hr (doBox_suf e1)
      rw [doBox_cons h0] at e1
      have l1 := getBox_le e1
      refine safe_bind (trackBox_safe ok F file hd hh h1 t r1 i1 f1 (by omega)) fun ⟨t2, h2, r2⟩ e2 => ?_
      have l2 := trackBox_le e2
      have i2 := isEnd_suf i1 (trackBox_suf e2)
      exact track_safe ok F file hd hh stop hs n _ _ _ i2 (by (try simp only at *); omega) (by (try simp only at *); omega)
    · exact safe_ok _

/-- An mdat or free box ends behind its begin. -/
def Jumps (file : List UInt8) : Prop := ∀ r h r', IsEnd file r → getBox file.length r = .ok (h, r') → known h.type = .mdat ∨ known h.type = .free →
  h.start < (h.start + h.size) % 2 ^ 64

theorem getFtyp_safe (h : Hdr) (f : FileRd) (r : List UInt8) : Safe (getFtyp h f r) := by
  rw [getFtyp_eq]
  generalize u32 (u32 h.size + 2 ^ 32 - 16) = n
  refine safe_bind (pass_safe _ _) fun r1 _ => ?_
  unfold ftypTail
  split
  · exact safe_bind (getBytes_safe _ _) fun _ _ => safe_ok _
  · exact safe_thrown

theorem getMvhd_safe (f : FileRd) (r : List UInt8) : Safe (getMvhd f r) := by
  unfold getMvhd
  refine safe_bind (getFull_safe _) fun _ _ => ?_
  safes

theorem getBox_start {N : Nat} {r r' : List UInt8} {h : Hdr} (e : getBox N r = .ok (h, r')) : h.start = N - r.length := by
  unfold getBox at e
  obtain ⟨⟨a, r1⟩, h1, e⟩ := bind_ok.1 e
  obtain ⟨⟨b, r2⟩, h2, e⟩ := bind_ok.1 e
  obtain ⟨⟨c, r3⟩, h3, e⟩ := bind_ok.1 e
  obtain ⟨⟨d, r4⟩, h4, e⟩ := bind_ok.1 e
  have := (Prod.mk.inj (Except.ok.inj e)).1
  rw [← this]

/-- A box of the file is read to its end, and the next one is behind its begin. -/
theorem fileBox_safe (ok : Accept) (F : Nat) (file : List UInt8) (hd : Described file) (hh : Held file) (h : Hdr) (f : FileRd) (r : List UInt8) (hr : IsEnd file r)
    (hf : Fresh file h r) (hF : r.length < F) : Safe (fileBox ok F file h f r) := by
  unfold fileBox
  generalize hq : known h.type = q
  cases q
  case ftyp => exact safe_bind (getFtyp_safe _ _ _) fun _ _ => safe_ok _
  case mvhd => exact safe_bind (getMvhd_safe _ _) fun _ _ => safe_ok _
  case trak => exact safe_bind (track_safe ok F file hd hh _ (hh h r (.inl hq) hf) F h {} r hr hF hF) fun _ _ => safe_ok _
  all_goals exact safe_ok _

theorem fileBox_shorter {ok : Accept} {F : Nat} {file : List UInt8} {h h' : Hdr} {f f' : FileRd} {r r' s : List UInt8} (hj : Jumps file) (hs : IsEnd file s)
    (eb : getBox file.length s = .ok (h, r)) (e : fileBox ok F file h f r = .ok (f', h', r')) : r'.length < s.length := by
  have lb := getBox_le eb
  have st := getBox_start eb
  have ls := isEnd_le hs
  have j := hj s h r hs eb
  unfold fileBox at e
  generalize hq : known h.type = q at e
  have jump : ∀ p, p = (h.start + h.size) % 2 ^ 64 → (q = .mdat ∨ q = .free) → (file.drop p).length < s.length := by
    intro p hp hk
    have := j (by rw [hq]; exact hk)
    rw [← hp] at this
    simp only [List.length_drop]; omega
  cases q
  case ftyp =>
    obtain ⟨⟨a, r1⟩, e1, e⟩ := bind_ok.1 e
    rw [getFtyp_eq] at e1
    generalize u32 (u32 h.size + 2 ^ 32 - 16) = n at e1
    obtain ⟨r2, e2, e1⟩ := bind_ok.1 e1
    unfold ftypTail at e1
    split at e1
    · obtain ⟨⟨b, r3⟩, e3, e1⟩ := bind_ok.1 e1
      cases e1; cases e
      have := pass_le e2; have := getBytes_le e3
      omega
    · cases e1
  case mvhd =>
    obtain ⟨⟨a, r1⟩, e1, e⟩ := bind_ok.1 e
    unfold getMvhd at e1
    obtain ⟨⟨v, r2⟩, e2, e1⟩ := bind_ok.1 e1
    obtain ⟨r3, e3, e1⟩ := bind_ok.1 e1
    obtain ⟨⟨a4, r4⟩, e4, e1⟩ := bind_ok.1 e1
    obtain ⟨⟨a5, r5⟩, e5, e1⟩ := bind_ok.1 e1
    obtain ⟨r6, e6, e1⟩ := bind_ok.1 e1
    cases e1; cases e
    have := getFull_le e2; have := pass_le e3; have := get_le e4; have := get_le e5; have := pass_le e6
    omega
  case trak =>
    obtain ⟨⟨t, h2, r2⟩, e2, e⟩ := bind_ok.1 e
    have := track_le _ _ _ _ _ _ _ _ _ _ _ e2
    cases e; omega
  case mdat =>
    simp only at e
    generalize hp : (h.start + h.size) % 2 ^ 64 = p at e
    cases e; exact jump _ hp.symm (.inl rfl)
  case free =>
    simp only at e
    generalize hp : (h.start + h.size) % 2 ^ 64 = p at e
    cases e; exact jump _ hp.symm (.inr rfl)
  case moov => cases e; omega
  all_goals (cases e; have := skip_le h r; omega)

theorem file_safe (ok : Accept) (F : Nat) (file : List UInt8) (hd : Described file) (hh : Held file) (hj : Jumps file) (hF : file.length < F) :
    ∀ (n : Nat) (h : Hdr) (f : FileRd) (r : List UInt8), IsEnd file r → r.length < n → Safe (fileBoxes ok F file n h f r)
  | 0, _, _, _, _, hn => by omega
  | n + 1, h, f, r, hr, hn => by
    by_cases h0 : r = []
    · subst h0; rw [file_end]; exact safe_ok _
    · rw [file_succ _ _ _ _ _ _ _ h0]
      refine safe_bind (getBox_safe _ _) fun ⟨h1, r1⟩ e1 => ?_
      have i1 := isEnd_suf hr (getBox_suf e1)
      have l1 := isEnd_le i1
      have f1 := fresh_doBox (h := h) hr h0 ((doBox_cons h0).trans e1)
      refine safe_bind (fileBox_safe ok F file hd hh h1 f r1 i1 f1 (by omega)) fun ⟨f2, h2, r2⟩ e2 => ?_
      have l2 := fileBox_shorter hj hr e1 e2
      exact file_safe ok F file hd hh hj hF n _ _ _ (fileBox_end i1 e2) (by (try simp only at *); omega)

/-! ### The specification is what the reader needs -/

theorem get_eq {n : Nat} {r r' : List UInt8} {v : Nat} (h : get n r = .ok (v, r')) : v = beVal (r.take n) ∧ r' = r.drop n := by
  unfold get at h; split at h
  · cases h; exact ⟨rfl, rfl⟩
  · cases h

theorem getBox_at {file r' : List UInt8} {p : Nat} {h : Hdr} (e : getBox file.length (file.drop p) = .ok (h, r')) :
    p < file.length ∧ h.start = p ∧ h.type = typeAt file p ∧ h.size = sizeAt file p := by
  have l := getBox_le e
  have s := getBox_start e
  simp only [List.length_drop] at l s
  refine ⟨by omega, by omega, ?_⟩
  unfold getBox at e
  obtain ⟨⟨a, r1⟩, h1, e⟩ := bind_ok.1 e
  obtain ⟨⟨b, r2⟩, h2, e⟩ := bind_ok.1 e
  obtain ⟨⟨c, r3⟩, h3, e⟩ := bind_ok.1 e
  obtain ⟨⟨d, r4⟩, h4, e⟩ := bind_ok.1 e
  have hh := (Prod.mk.inj (Except.ok.inj e)).1
  obtain ⟨ha, hr1⟩ := get_eq h1
  simp only [List.drop_drop] at hr1
  subst hr1
  obtain ⟨hb, hr2⟩ := get_eq h2
  simp only [List.drop_drop] at hr2
  subst hr2
  have tb : b = typeAt file p := hb
  have ta : a = field file p 4 := ha
  have tc : c = if field file p 4 = 1 then field file (p + 8) 8 else field file p 4 := by
    unfold longSize at h3
    rw [ta] at h3
    split at h3
    · rename_i x; rw [if_pos x]; exact (get_eq h3).1
    · rename_i x; rw [if_neg x]; cases h3; rfl
  rw [← hh]
  refine ⟨tb, ?_⟩
  show d = _
  unfold sizeAt
  rw [← tc, ← tb]
  unfold uuidSize at h4
  by_cases hu : b = fourcc 'u' 'u' 'i' 'd'
  · rw [if_pos hu] at h4
    obtain ⟨r5, h5, h4⟩ := bind_ok.1 h4
    have := (Prod.mk.inj (Except.ok.inj h4)).1
    rw [← this, if_pos hu]; rfl
  · rw [if_neg hu] at h4
    have := (Prod.mk.inj (Except.ok.inj h4)).1
    rw [← this, if_neg hu]

theorem mem_of_lookup {k : Known} {t : Nat} : ∀ {l : List (Nat × Known)}, l.lookup t = some k → (t, k) ∈ l
  | [], h => by cases h
  | (a, b) :: l, h => by
    rw [List.lookup_cons] at h
    by_cases e : t == a
    · rw [e] at h; simp only at h; cases h; rw [eq_of_beq e]; exact List.mem_cons_self
    · simp only [Bool.not_eq_true] at e
      rw [e] at h; exact List.mem_cons_of_mem _ (mem_of_lookup h)

theorem known_mem {k : Known} {t : Nat} (h : known t = k) (hk : k ≠ .other) : (t, k) ∈ knownTypes := by
  unfold known at h
  cases e : knownTypes.lookup t with
  | none => rw [e] at h; exact absurd h.symm hk
  | some k' => rw [e] at h; simp only [Option.getD_some] at h; subst h; exact mem_of_lookup e

theorem fits_jumps {file : List UInt8} (hf : Fits file) : Jumps file := by
  intro r h r' ⟨p, hp⟩ e hk
  subst hp
  obtain ⟨a, b, c, d⟩ := getBox_at e
  have := hf.jumps p a ?_
  · unfold endAt at this; rw [b, d]; exact this
  · rw [← c]
    rcases hk with hk | hk
    · have := known_mem hk (by decide); simp [knownTypes] at this; exact .inl this
    · have := known_mem hk (by decide); simp [knownTypes] at this; exact .inr this

theorem fits_held {file : List UInt8} (hf : Fits file) : Held file := by
  intro h r hk ⟨s, ⟨p, hp⟩, e⟩
  subst hp
  obtain ⟨a, b, c, d⟩ := getBox_at e
  have := hf.holders p a ?_
  · unfold endAt at this; rw [b, d]; exact this
  · rw [← c]
    rcases hk with hk | hk
    · have := known_mem hk (by decide); simp [knownTypes] at this; exact .inl this
    · have := known_mem hk (by decide); simp [knownTypes] at this; exact .inr this

theorem getFull_eq {r r' : List UInt8} {v : Nat} (h : getFull r = .ok (v, r')) : r' = r.drop 4 := by
  unfold getFull at h
  obtain ⟨⟨a, r1⟩, h1, h⟩ := bind_ok.1 h
  obtain ⟨⟨b, r2⟩, h2, h⟩ := bind_ok.1 h
  cases h
  rw [(get_eq h2).2, (get_eq h1).2, List.drop_drop]

/-- What is left behind a header without an identifier. -/
theorem getBox_rest {file r' : List UInt8} {p : Nat} {h : Hdr} (e : getBox file.length (file.drop p) = .ok (h, r')) (hu : h.type ≠ fourcc 'u' 'u' 'i' 'd') :
    r' = file.drop (if field file p 4 = 1 then p + 16 else p + 8) := by
  unfold getBox at e
  obtain ⟨⟨a, r1⟩, h1, e⟩ := bind_ok.1 e
  obtain ⟨⟨b, r2⟩, h2, e⟩ := bind_ok.1 e
  obtain ⟨⟨c, r3⟩, h3, e⟩ := bind_ok.1 e
  obtain ⟨⟨d, r4⟩, h4, e⟩ := bind_ok.1 e
  have hh := (Prod.mk.inj (Except.ok.inj e)).1
  have hr := (Prod.mk.inj (Except.ok.inj e)).2
  obtain ⟨ha, hr1⟩ := get_eq h1
  obtain ⟨hb, hr2⟩ := get_eq h2
  rw [hr1, List.drop_drop, List.drop_drop] at hr2
  have ta : a = field file p 4 := ha
  have hb' : b ≠ fourcc 'u' 'u' 'i' 'd' := by rw [← hh] at hu; exact hu
  unfold uuidSize at h4
  rw [if_neg hb'] at h4
  have h5 := (Prod.mk.inj (Except.ok.inj h4)).2
  rw [← hr, ← h5]
  unfold longSize at h3
  rw [ta] at h3
  split at h3
  · rename_i x; rw [if_pos x, (get_eq h3).2, hr2, List.drop_drop]
  · rename_i x; rw [if_neg x]; have := (Prod.mk.inj (Except.ok.inj h3)).2; rw [← this, hr2]

theorem fits_described {file : List UInt8} (hf : Fits file) : Described file := by
  intro h r v r1 c r2 hk ⟨s, ⟨q, hq⟩, e⟩ e1 e2
  subst hq
  obtain ⟨a, b, t, d⟩ := getBox_at e
  have ht : h.type = fourcc 's' 't' 's' 'd' := by have := known_mem hk (by decide); simp [knownTypes] at this; exact this
  have hr := getBox_rest e (by rw [ht]; decide)
  obtain ⟨hc, hr2⟩ := get_eq e2
  have hr1 := getFull_eq e1
  have pos : r2 = file.drop (descriptions file q) := by
    rw [hr2, hr1, hr, List.drop_drop, List.drop_drop]
    unfold descriptions
    split <;> rfl
  have cnt : c = field file (descriptions file q - 4) 4 := by
    rw [hc, hr1, hr, List.drop_drop]
    unfold descriptions field
    split <;> rfl
  refine ⟨fun h' r' e' => ?_, fun hc1 r3 h3 r4 ⟨p, hp⟩ l e3 => ?_⟩
  · rw [pos] at e'
    obtain ⟨a', b', t', d'⟩ := getBox_at e'
    have := hf.first q a (by rw [← t, ht])
    unfold endAt at this; rw [b', d']; exact this
  · subst hp
    obtain ⟨a', b', t', d'⟩ := getBox_at e3
    rw [pos] at l
    have := hf.others q a (by rw [← t, ht]) (by rw [← cnt]; exact hc1) p a' (by simp only [List.length_drop] at l; omega)
    unfold endAt at this; rw [b', d']; exact this

end Verif.Parse
