import Verif.TsMux.Spec
import Verif.TsMux.Model
/-!
Property C64: the HLS time base.
-/
namespace Verif.TsMux
open Fields Verif.TsMux.Spec

/-! ### HLS time base -/

/-- One after the other, the times the HLS mux hands on. -/
def hlsRun (h : Hls) : List (Nat × Nat) → List (Nat × Nat)
  | [] => []
  | (ct, dt) :: l => ((h.sample ct dt).2.1, (h.sample ct dt).2.2) :: hlsRun (h.sample ct dt).1 l

/-- C64: after `set_composition_start_time(base)` the first sample is presented at `base`, and all times of all later samples keep their
distance from it (in 64 bit arithmetic, so also for times before the first). -/
theorem hls_rebase (base c0 d0 : Nat) (l : List (Nat × Nat)) (hb : base < 2 ^ 64) (h0 : c0 < 2 ^ 64 ∧ d0 < 2 ^ 64)
    (hl : ∀ t ∈ l, t.1 < 2 ^ 64 ∧ t.2 < 2 ^ 64) (hne : (base + (2 ^ 64 - c0)) % 2 ^ 64 ≠ 2 ^ 63 - 1) :
    hlsRun (Hls.start base) ((c0, d0) :: l) =
      (base, (base + (2 ^ 64 - c0) + d0) % 2 ^ 64) ::
        l.map (fun t => ((base + (2 ^ 64 - c0) + t.1) % 2 ^ 64, (base + (2 ^ 64 - c0) + t.2) % 2 ^ 64)) := by
  have step : ∀ (o ct dt : Nat), ct < 2 ^ 64 → dt < 2 ^ 64 →
      (ct + o + (2 ^ 64 - (ct + (2 ^ 64 - dt)) % 2 ^ 64)) % 2 ^ 64 = (o + dt) % 2 ^ 64 := by
    intro o ct dt h1 h2; omega
  have rest : ∀ (l : List (Nat × Nat)) (o : Nat), o ≠ 2 ^ 63 - 1 → (∀ t ∈ l, t.1 < 2 ^ 64 ∧ t.2 < 2 ^ 64) →
      hlsRun ⟨base, o⟩ l = l.map (fun t => ((o + t.1) % 2 ^ 64, (o + t.2) % 2 ^ 64)) := by
    intro l o ho
    induction l with
    | nil => intro _; rfl
    | cons t l ih =>
      intro hl
      obtain ⟨h1, h2⟩ := hl t (List.mem_cons_self ..)
      simp only [hlsRun, Hls.sample, if_neg ho, List.map_cons]
      rw [ih (fun u hu => hl u (List.mem_cons_of_mem _ hu)), step o t.1 t.2 h1 h2, Nat.add_comm t.1 o]
  simp only [hlsRun, Hls.start, Hls.sample, if_true]
  rw [rest l _ hne hl, step _ c0 d0 h0.1 h0.2]
  congr 1
  · congr 1 <;> omega
  · apply List.map_congr_left
    intro t _
    congr 1 <;> omega

example : hlsRun (Hls.start 100) [(5000, 4000), (5400, 4400), (5200, 4800)] =
    [(100, 2 ^ 64 - 900), (500, 2 ^ 64 - 500), (300, 2 ^ 64 - 100)] := by decide +kernel

end Verif.TsMux
