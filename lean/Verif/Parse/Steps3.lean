import Verif.Parse.Steps2
namespace Verif.Parse

theorem fileBox_stable {ok : Accept} {F G : Nat} {file : List UInt8} {h : Hdr} {f : FileRd} {r : List UInt8} (hF : r.length < F) (hG : r.length < G) :
    fileBox ok F file h f r = fileBox ok G file h f r := by
  unfold fileBox
  generalize known h.type = q
  cases q
  case trak =>
    simp only
    rw [trackParse_stable hF hG]
  all_goals rfl

theorem file_succ (ok : Accept) (F : Nat) (file : List UInt8) (n : Nat) (h : Hdr) (f : FileRd) (r : List UInt8) (hr : r ≠ []) :
    fileBoxes ok F file (n + 1) h f r = (getBox file.length r >>= fun x => fileBox ok F file x.1 f x.2 >>= fun y => fileBoxes ok F file n y.2.1 y.1 y.2.2) := by
  rw [fileBoxes, if_neg hr, doBox_cons hr]

theorem file_end (ok : Accept) (F : Nat) (file : List UInt8) (n : Nat) (h : Hdr) (f : FileRd) : fileBoxes ok F file (n + 1) h f [] = .ok f := by
  rw [fileBoxes, if_pos rfl]

/-- The inner loops get more steps than bytes: their number does not matter. -/
theorem file_inner (ok : Accept) (F G : Nat) (file : List UInt8) (hF : file.length < F) (hG : file.length < G) :
    ∀ (n : Nat) (h : Hdr) (f : FileRd) (r : List UInt8), IsEnd file r → fileBoxes ok F file n h f r = fileBoxes ok G file n h f r
  | 0, _, _, _, _ => rfl
  | n + 1, h, f, r, hr => by
    by_cases h0 : r = []
    · subst h0; rw [file_end, file_end]
    · rw [file_succ _ _ _ _ _ _ _ h0, file_succ _ _ _ _ _ _ _ h0]
      refine bind_congr' fun ⟨h1, r1⟩ e1 => ?_
      have i1 := isEnd_suf hr (getBox_suf e1)
      have l1 := isEnd_le i1
      simp only
      rw [fileBox_stable (F := F) (G := G) (by omega) (by omega)]
      refine bind_congr' fun ⟨f2, h2, r2⟩ e2 => ?_
      exact file_inner ok F G file hF hG n _ _ _ (fileBox_end i1 e2)

section
variable (ok : Accept) (F : Nat) (file : List UInt8)

/-- From here the reading is over after `n` boxes. -/
def Over (n : Nat) (r : List UInt8) : Prop := fileBoxes ok F file n ⟨0, 0, 0⟩ {} r ≠ .error .endless

/-- One box: an exception or an endless loop whatever was read before, or a next place. -/
theorem file_step {r : List UInt8} (hr : IsEnd file r) (h0 : r ≠ []) :
    (∃ e, ∀ n h f, fileBoxes ok F file (n + 1) h f r = .error e) ∨
    ∃ r', IsEnd file r' ∧ ∀ h f, ∃ h' f', ∀ n, fileBoxes ok F file (n + 1) h f r = fileBoxes ok F file n h' f' r' := by
  cases e1 : getBox file.length r with
  | error e => exact .inl ⟨e, fun n h f => by rw [file_succ _ _ _ _ _ _ _ h0, e1]; rfl⟩
  | ok x =>
    obtain ⟨h1, r1⟩ := x
    have i1 := isEnd_suf hr (getBox_suf e1)
    cases e2 : fileBox ok F file h1 {} r1 with
    | error e =>
      refine .inl ⟨e, fun n h f => ?_⟩
      rw [file_succ _ _ _ _ _ _ _ h0, e1]
      simp only [bind_ok_eq]
      rcases fileBox_indep ok F file h1 {} f r1 with ⟨e', a, b⟩ | ⟨a, a', h', r', b, c⟩
      · rw [e2] at a; cases a; rw [b]; rfl
      · rw [e2] at b; cases b
    | ok y =>
      obtain ⟨f2, h2, r2⟩ := y
      refine .inr ⟨r2, fileBox_end i1 e2, fun h f => ?_⟩
      rcases fileBox_indep ok F file h1 {} f r1 with ⟨e', a, b⟩ | ⟨a, a', h', r', b, c⟩
      · rw [e2] at a; cases a
      · rw [e2] at b; cases b
        refine ⟨h2, a', fun n => ?_⟩
        rw [file_succ _ _ _ _ _ _ _ h0, e1]
        simp only [bind_ok_eq]
        rw [c]; rfl

theorem over_indep : ∀ (n : Nat) {r : List UInt8}, IsEnd file r → ∀ (h h' : Hdr) (f f' : FileRd),
    fileBoxes ok F file n h f r = .error .endless → fileBoxes ok F file n h' f' r = .error .endless
  | 0, _, _, _, _, _, _, _ => rfl
  | n + 1, r, hr, h, h', f, f', e => by
    by_cases h0 : r = []
    · subst h0; rw [file_end] at e; cases e
    · rcases file_step ok F file hr h0 with ⟨x, all⟩ | ⟨r', hr', all⟩
      · rw [all] at e ⊢; exact e
      · obtain ⟨a, b, c⟩ := all h f
        obtain ⟨a', b', c'⟩ := all h' f'
        rw [c] at e
        rw [c']
        exact over_indep n hr' _ _ _ _ e

/-- A result stays with more steps. -/
theorem file_mono : ∀ (n : Nat) {r : List UInt8}, IsEnd file r → ∀ (h : Hdr) (f : FileRd),
    fileBoxes ok F file n h f r ≠ .error .endless → fileBoxes ok F file (n + 1) h f r = fileBoxes ok F file n h f r
  | 0, _, _, _, _, e => absurd rfl e
  | n + 1, r, hr, h, f, e => by
    by_cases h0 : r = []
    · subst h0; rw [file_end, file_end]
    · rcases file_step ok F file hr h0 with ⟨x, all⟩ | ⟨r', hr', all⟩
      · rw [all, all]
      · obtain ⟨a, b, c⟩ := all h f
        rw [c, c] at *
        exact file_mono n hr' _ _ e

theorem over_mono {r : List UInt8} (hr : IsEnd file r) {n m : Nat} (h : Over ok F file n r) (hm : n ≤ m) : Over ok F file m r := by
  induction hm with
  | refl => exact h
  | step _ ih => unfold Over at *; rw [file_mono ok F file _ hr _ _ ih]; exact ih

/-- A place with one more box to read is followed by one with one box less. -/
theorem over_next {n : Nat} {r : List UInt8} (hr : IsEnd file r) (h : Over ok F file (n + 2) r) (h' : ¬Over ok F file (n + 1) r) :
    ∃ r', IsEnd file r' ∧ Over ok F file (n + 1) r' ∧ ¬Over ok F file n r' := by
  by_cases h0 : r = []
  · subst h0; exact absurd (by unfold Over; rw [file_end]; intro e; cases e) h'
  · rcases file_step ok F file hr h0 with ⟨x, all⟩ | ⟨r', hr', all⟩
    · unfold Over at h h'; rw [all] at h h'; exact absurd h h'
    · obtain ⟨a, b, c⟩ := all ⟨0, 0, 0⟩ {}
      unfold Over at h h'
      rw [c] at h h'
      refine ⟨r', hr', fun e => h (over_indep ok F file _ hr' _ _ _ _ e), fun e => ?_⟩
      exact h' fun e' => e (over_indep ok F file _ hr' _ _ _ _ e')

theorem over_chain : ∀ (m : Nat) {r : List UInt8}, IsEnd file r → Over ok F file (m + 1) r → ¬Over ok F file m r →
    ∀ k ≤ m, ∃ r', IsEnd file r' ∧ Over ok F file (k + 1) r' ∧ ¬Over ok F file k r'
  | 0, r, hr, h, h', k, hk => by
    have : k = 0 := by omega
    subst this; exact ⟨r, hr, h, h'⟩
  | m + 1, r, hr, h, h', k, hk => by
    by_cases e : k = m + 1
    · subst e; exact ⟨r, hr, h, h'⟩
    · obtain ⟨r', a, b, c⟩ := over_next ok F file hr h h'
      exact over_chain m a b c k (by omega)
end

theorem pigeon : ∀ (m n : Nat) (f : Nat → Nat), (∀ i < n, f i < m) → (∀ i < n, ∀ j < n, f i = f j → i = j) → n ≤ m
  | 0, n, f, hf, _ => by
    cases n with
    | zero => omega
    | succ n => have := hf 0 (by omega); omega
  | m + 1, 0, _, _, _ => by omega
  | m + 1, n + 1, f, hf, inj => by
    have key : n ≤ m := by
      refine pigeon m n (fun i => if f i = m then f n else f i) ?_ ?_
      · intro i hi
        have a := hf i (by omega)
        have b := hf n (by omega)
        split
        · rename_i e
          have : f n ≠ m := fun e' => by have := inj i (by omega) n (by omega) (by omega); omega
          omega
        · omega
      · intro i hi j hj e
        have a := inj i (by omega) j (by omega)
        have b := inj i (by omega) n (by omega)
        have c := inj j (by omega) n (by omega)
        split at e <;> split at e <;> first | omega | (have := a (by omega); omega)
    omega

/-- No place takes more boxes than there are places. -/
theorem over_bound (ok : Accept) (F : Nat) (file : List UInt8) {m : Nat} {r : List UInt8} (hr : IsEnd file r) (h : Over ok F file (m + 1) r)
    (h' : ¬Over ok F file m r) : m ≤ file.length := by
  have chain := over_chain ok F file m hr h h'
  have all : ∀ k, ∃ r', k ≤ m → IsEnd file r' ∧ Over ok F file (k + 1) r' ∧ ¬Over ok F file k r' := by
    intro k
    by_cases hk : k ≤ m
    · obtain ⟨r', a⟩ := chain k hk; exact ⟨r', fun _ => a⟩
    · exact ⟨[], fun a => absurd a hk⟩
  have := pigeon (file.length + 1) (m + 1) (fun k => (Classical.choose (all k)).length) ?_ ?_
  · omega
  · intro k hk
    have := isEnd_le (Classical.choose_spec (all k) (by omega)).1
    omega
  · intro i hi j hj e
    obtain ⟨a1, a2, a3⟩ := Classical.choose_spec (all i) (by omega)
    obtain ⟨b1, b2, b3⟩ := Classical.choose_spec (all j) (by omega)
    have e := isEnd_eq a1 b1 e
    rw [e] at a2 a3
    rcases Nat.lt_trichotomy i j with c | c | c
    · exact absurd (over_mono ok F file b1 a2 c) b3
    · exact c
    · exact absurd (over_mono ok F file b1 b2 c) a3

theorem file_stable (ok : Accept) (F : Nat) (file : List UInt8) (h : Hdr) (f : FileRd) {r : List UInt8} (hr : IsEnd file r) : ∀ (d : Nat),
    fileBoxes ok F file (file.length + 1 + d) h f r = fileBoxes ok F file (file.length + 1) h f r
  | 0 => rfl
  | d + 1 => by
    rw [← file_stable ok F file h f hr d]
    by_cases e : fileBoxes ok F file (file.length + 1 + d) h f r = .error .endless
    · rw [e]
      refine Classical.byContradiction fun e' => ?_
      have a : Over ok F file (file.length + 1 + d + 1) r := fun x => e' (over_indep ok F file _ hr _ _ _ _ x)
      have b : ¬Over ok F file (file.length + 1 + d) r := fun x => x (over_indep ok F file _ hr _ _ _ _ e)
      have := over_bound ok F file hr a b
      omega
    · exact file_mono ok F file _ hr h f e

theorem parseFile_stable (ok : Accept) (file : List UInt8) (n : Nat) (hn : file.length < n) : parseFile ok n file = parseFile ok (file.length + 1) file := by
  unfold parseFile
  refine bind_congr' fun ⟨h, r⟩ _ => ?_
  have hr : IsEnd file file := ⟨0, rfl⟩
  by_cases hk : known h.type = .ftyp
  · simp only [hk, if_true]
    rw [file_inner ok n (file.length + 1) file hn (by omega) _ _ _ _ hr]
    have a := file_stable ok (file.length + 1) file ⟨0, 0, 0⟩ {} hr (n - file.length)
    have b := file_stable ok (file.length + 1) file ⟨0, 0, 0⟩ {} hr 1
    rw [show file.length + 1 + (n - file.length) = n + 1 by omega] at a
    rw [a, b]
  · simp only [hk, if_false]

end Verif.Parse
