import Verif.Presentation.Spec
import Verif.Dynamic.PropsFiles
import Verif.Render.PropsUrl
import Verif.Render.PropsText

namespace Verif.Presentation
open Verif.Dynamic (Points mapSet mapFind mapRebase bitrateAdd getPath Sorted pathsOf mapFind_mapSet mapSet_sorted keys_mapSet)
open Verif.Strings (dec)

variable {P : Type}

/-! ### names -/

theorem nameLt_iff : ∀ a b : List Char, nameLt a b = true ↔ Spec.Before a b
  | [], [] => by simp [nameLt, Spec.Before]
  | [], _ :: _ => by simp [nameLt, Spec.Before]
  | _ :: _, [] => by simp [nameLt, Spec.Before]
  | a :: x, b :: y => by
    have ih := nameLt_iff x y
    simp only [Spec.Before] at ih
    simp only [nameLt, Spec.Before, List.map_cons, List.cons_lt_cons_iff]
    split
    · simp_all
    · split
      · simp; omega
      · rw [ih]; constructor
        · intro h; exact Or.inr ⟨by omega, h⟩
        · rintro (h | ⟨_, h⟩)
          · omega
          · exact h

theorem map_toNat_inj {a b : List Char} (h : a.map (·.toNat) = b.map (·.toNat)) : a = b :=
  List.map_inj_right (fun _ _ h => Char.toNat_inj.mp h) |>.mp h

theorem before_trans {a b c : List Char} (h : Spec.Before a b) (h' : Spec.Before b c) : Spec.Before a c := List.lt_trans h h'
theorem before_irrefl (a : List Char) : ¬ Spec.Before a a := List.lt_irrefl _
theorem before_total {a b : List Char} (h : a ≠ b) (h' : ¬ Spec.Before a b) : Spec.Before b a := by
  have := List.not_lt.mp h'
  rcases List.le_iff_lt_or_eq.mp this with h | h
  · exact h
  · exact absurd (map_toNat_inj h).symm (by assumption)

/-- Inserting a stream with a new name: it is there, in its place. -/
theorem insert_perm (ss : List (Stream P)) (s : Stream P) (h : ∀ x ∈ ss, x.name ≠ s.name) : (insert ss s).Perm (s :: ss) := by
  induction ss with
  | nil => exact List.Perm.refl _
  | cons x xs ih =>
    simp only [insert]
    split
    · exact List.Perm.refl _
    · rename_i h1
      rw [nameLt_iff] at h1
      rw [if_pos ((nameLt_iff _ _).mpr (before_total (h x List.mem_cons_self).symm h1))]
      exact ((ih fun y hy => h y (List.mem_cons_of_mem _ hy)).cons x).trans (List.Perm.swap _ _ _)

theorem insert_sorted (ss : List (Stream P)) (s : Stream P) (h : ∀ x ∈ ss, x.name ≠ s.name)
    (hs : ss.Pairwise fun a b => Spec.Before a.name b.name) : (insert ss s).Pairwise fun a b => Spec.Before a.name b.name := by
  induction ss with
  | nil => simp [insert]
  | cons x xs ih =>
    obtain ⟨h1, h2⟩ := List.pairwise_cons.mp hs
    simp only [insert]
    split
    · rename_i hlt
      rw [nameLt_iff] at hlt
      refine List.pairwise_cons.mpr ⟨?_, hs⟩
      intro y hy
      rcases List.mem_cons.mp hy with rfl | hy
      · exact hlt
      · exact before_trans hlt (h1 y hy)
    · rename_i hlt
      rw [nameLt_iff] at hlt
      have hb := before_total (h x List.mem_cons_self).symm hlt
      rw [if_pos ((nameLt_iff _ _).mpr hb)]
      have hn := fun y hy => h y (List.mem_cons_of_mem x hy)
      refine List.pairwise_cons.mpr ⟨?_, ih hn h2⟩
      intro y hy
      rcases List.mem_cons.mp ((insert_perm xs s hn).mem_iff.mp hy) with rfl | hy
      · exact hb
      · exact h1 y hy

/-- What the presentation says about a stream. -/
def face (s : Stream P) : Nat × List Char × Bool := (s.id, s.name, s.video)

/-- A stream without points, bit rates and end. -/
def Fresh (s : Stream P) : Prop := s.points = {} ∧ s.currentEnd = 0 ∧ s.bitrates = []

theorem nameOf_append (vs : List Bool) (w : Bool) (j : Nat) (v : Bool) (h : j ≤ vs.length) :
    Spec.nameOf (vs ++ [w]) j v = Spec.nameOf vs j v := by
  simp only [Spec.nameOf, List.take_append_of_le_length h]

theorem listing_append (vs : List Bool) (w : Bool) : Spec.listing (vs ++ [w]) = Spec.listing vs ++ [(vs.length, Spec.nameOf vs vs.length w, w)] := by
  simp only [Spec.listing, List.mapIdx_append, List.mapIdx_cons, List.mapIdx_nil, Nat.zero_add]
  rw [nameOf_append vs w vs.length w (Nat.le_refl _)]
  congr 1
  apply List.ext_getElem (by simp)
  intro i h1 h2
  simp only [List.getElem_mapIdx]
  rw [nameOf_append vs w i _ (by simp at h1; omega)]

theorem toDigits_inj {a b : Nat} (ha : a < 2 ^ 64) (hb : b < 2 ^ 64) (h : Nat.toDigits 10 a = Nat.toDigits 10 b) : a = b := by
  rw [← Verif.Render.dec_digits ha, ← Verif.Render.dec_digits hb] at h
  exact Verif.Render.dec_inj ha hb h

theorem toDigits_ne_nil {a : Nat} (ha : a < 2 ^ 64) : Nat.toDigits 10 a ≠ [] := by
  rw [← Verif.Render.dec_digits ha]
  exact (Verif.Strings.dec_spec a ha).2.2.1

/-- Two names are equal only for the same kind and the same number of streams before. -/
theorem name_inj {v w : Bool} {a b : Nat} (ha : a < 2 ^ 64) (hb : b < 2 ^ 64)
    (h : (if v then "video".toList else "audio".toList) ++ (if a = 0 then [] else Nat.toDigits 10 a) =
      (if w then "video".toList else "audio".toList) ++ (if b = 0 then [] else Nat.toDigits 10 b)) : v = w ∧ a = b := by
  have hv : v = w := by
    cases v <;> cases w <;> simp_all
  subst hv
  refine ⟨rfl, ?_⟩
  have h := List.append_cancel_left h
  have na := toDigits_ne_nil ha
  have nb := toDigits_ne_nil hb
  split at h <;> split at h
  · omega
  · exact absurd h.symm nb
  · exact absurd h na
  · exact toDigits_inj ha hb h

theorem mem_listing_name {vs : List Bool} {e : Nat × List Char × Bool} (h : e ∈ Spec.listing vs) :
    ∃ c, c < vs.count e.2.2 ∧ e.2.1 = (if e.2.2 then "video".toList else "audio".toList) ++ (if c = 0 then [] else Nat.toDigits 10 c) := by
  obtain ⟨j, hj, rfl⟩ := List.mem_mapIdx.mp h
  refine ⟨(vs.take j).count vs[j], ?_, rfl⟩
  have := List.count_append (a := vs[j]) (l₁ := vs.take j) (l₂ := vs.drop j)
  rw [List.take_append_drop] at this
  have h2 : 0 < (vs.drop j).count vs[j] := List.count_pos_iff.mpr (by
    rw [List.drop_eq_getElem_cons hj]; exact List.mem_cons_self)
  show (vs.take j).count vs[j] < vs.count vs[j]
  omega

/-- The state while the header is made: the streams told so far are `vs`. -/
def Told (vs : List Bool) (ss : List (Stream P)) : Prop :=
  (ss.map face).Perm (Spec.listing vs) ∧ (ss.Pairwise fun a b => Spec.Before a.name b.name) ∧ ∀ s ∈ ss, Fresh s

theorem count_of_told {vs : List Bool} {ss : List (Stream P)} (h : Told vs ss) : videoCount ss = vs.count true ∧ audioCount ss = vs.count false := by
  have e : ∀ b : Bool, ((ss.map face).filter fun e => e.2.2 = b).length = vs.count b := by
    intro b
    rw [(h.1.filter _).length_eq, ← List.countP_eq_length_filter]
    have : vs = (Spec.listing vs).map (fun e => e.2.2) := by
      apply List.ext_getElem (by simp [Spec.listing])
      intro i h1 h2
      simp [Spec.listing]
    refine Eq.trans ?_ (congrArg (List.count b) this.symm)
    rw [List.count, List.countP_map]
    apply List.countP_congr
    intro x _
    simp
  constructor
  · rw [← e true, videoCount, List.filter_map, List.length_map]
    congr 1
    apply List.filter_congr
    intro x _
    simp [face]
  · rw [← e false, audioCount, List.filter_map, List.length_map]
    congr 1
    apply List.filter_congr
    intro x _
    simp [face]

theorem told_step {vs : List Bool} {ss : List (Stream P)} (h : Told vs ss) (hl : vs.length < 2 ^ 64) (w : Bool) (s : Stream P)
    (hf : face s = (vs.length, Spec.nameOf vs vs.length w, w)) (hs : Fresh s) : Told (vs ++ [w]) (insert ss s) := by
  have hname : ∀ x ∈ ss, x.name ≠ s.name := by
    intro x hx he
    have hm := h.1.mem_iff.mp (List.mem_map_of_mem (f := face) hx)
    obtain ⟨c, hc, e1⟩ := mem_listing_name hm
    have hn : s.name = Spec.nameOf vs vs.length w := congrArg (·.2.1) hf
    have e1 : x.name = _ := e1
    rw [he, hn] at e1
    simp only [Spec.nameOf, List.take_length] at e1
    have l1 := List.count_le_length (a := (face x).2.2) (l := vs)
    have l2 := List.count_le_length (a := w) (l := vs)
    obtain ⟨hv, hcc⟩ := name_inj (by omega) (by omega) e1
    rw [hv] at hcc
    omega
  refine ⟨?_, insert_sorted ss s hname h.2.1, ?_⟩
  · rw [listing_append]
    refine ((insert_perm ss s hname).map face).trans ?_
    rw [List.map_cons, hf]
    refine (h.1.cons _).trans ?_
    exact (List.perm_append_singleton _ _).symm
  · intro x hx
    rcases List.mem_cons.mp ((insert_perm ss s hname).mem_iff.mp hx) with rfl | hx
    · exact hs
    · exact h.2.2 x hx

theorem header_told : ∀ (ks : List Kind) (vs : List Bool) (ss : List (Stream P)), Told vs ss → (vs ++ Spec.shown ks).length < 2 ^ 64 →
    Told (vs ++ Spec.shown ks) (header vs.length ks ss)
  | [], vs, ss, h, _ => by simpa [Spec.shown, header] using h
  | .broken :: ks, vs, ss, h, hl => header_told ks vs ss h hl
  | .ltc :: ks, vs, ss, h, hl => header_told ks vs ss h hl
  | .video :: ks, vs, ss, h, hl => by
    have e : Spec.shown (.video :: ks) = [true] ++ Spec.shown ks := rfl
    rw [e, ← List.append_assoc] at hl ⊢
    have := header_told ks (vs ++ [true]) (addVideo ss vs.length) (told_step h (by simp at hl ⊢; omega) true _ (by
      have hc := (count_of_told h).1
      have hle := List.count_le_length (a := true) (l := vs)
      simp only [face, Spec.nameOf, List.take_length, hc, if_true]
      by_cases h0 : vs.count true = 0
      · simp [h0]
      · rw [if_pos (by omega), if_neg h0, Verif.Render.dec_digits (by simp at hl; omega)]) ⟨rfl, rfl, rfl⟩) hl
    rw [List.length_append] at this
    exact this
  | .audio :: ks, vs, ss, h, hl => by
    have e : Spec.shown (.audio :: ks) = [false] ++ Spec.shown ks := rfl
    rw [e, ← List.append_assoc] at hl ⊢
    have := header_told ks (vs ++ [false]) (addAudio ss vs.length) (told_step h (by simp at hl ⊢; omega) false _ (by
      have hc := (count_of_told h).2
      have hle := List.count_le_length (a := false) (l := vs)
      simp only [face, Spec.nameOf, List.take_length, hc]
      by_cases h0 : vs.count false = 0
      · simp [h0]
      · rw [if_pos (by omega), if_neg h0, Verif.Render.dec_digits (by simp at hl; omega)]; rfl) ⟨rfl, rfl, rfl⟩) hl
    rw [List.length_append] at this
    exact this

end Verif.Presentation
