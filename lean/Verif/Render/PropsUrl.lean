import Verif.Render.PropsMpd

/-! C70: the addresses in the manifest are the names of the files that are written. -/
namespace Verif.Render
open Xml
open Verif.Strings (dec decInt decGo)

theorem decGo_digits : ∀ fuel n acc, n < 10 ^ fuel → 0 < fuel → decGo fuel n acc = Nat.toDigits 10 n ++ acc := by
  intro fuel
  induction fuel with
  | zero => intro _ _ _ h; omega
  | succ fuel ih =>
    intro n acc hn _
    have hdig : Nat.digitChar (n % 10) = Char.ofNat (48 + n % 10) := by
      have : ∀ d : Fin 10, Nat.digitChar d.val = Char.ofNat (48 + d.val) := by decide
      exact this ⟨n % 10, Nat.mod_lt _ (by decide)⟩
    rw [Nat.toDigits_eq_if (by decide)]
    simp only [decGo]
    by_cases h : n / 10 = 0
    · have : n < 10 := by omega
      rw [if_pos h, if_pos this, ← hdig, Nat.mod_eq_of_lt this]
      rfl
    · have h2 : ¬ n < 10 := by omega
      rw [if_neg h, if_neg h2, ih (n / 10) _ (by rw [Nat.pow_succ] at hn; omega) (by
        rcases fuel with _ | f
        · exact absurd (show n / 10 = 0 by simp at hn; omega) h
        · omega), ← hdig, List.append_assoc]
      rfl

theorem dec_digits {n : Nat} (h : n < 2 ^ 64) : dec n = Nat.toDigits 10 n := by
  rw [dec, decGo_digits 20 n [] (Nat.lt_trans h (by decide)) (by decide), List.append_nil]

theorem fill_plain (v : Str → Option Str) (name rest : Str) (h : '$' ∉ name) :
    Spec.fill v none (name ++ rest) = (Spec.fill v none rest).map (name ++ ·) := by
  induction name with
  | nil => simp
  | cons c name ih =>
    have hc : c ≠ '$' := fun e => h (e ▸ List.mem_cons_self)
    have hn : '$' ∉ name := fun e => h (List.mem_cons_of_mem _ e)
    simp only [List.cons_append, Spec.fill, if_neg hc, ih hn, Option.map_map]
    rfl

theorem address_media (name k b t : Str) (h : '$' ∉ name) (hk : '$' ∉ k) :
    Spec.address (name ++ t! "_$Bandwidth$_$Time$.m4" ++ k) b t = some (name ++ t! "_" ++ b ++ t! "_" ++ t ++ t! ".m4" ++ k) := by
  have e := fill_plain (fun n => if n = t! "Bandwidth" then some b else if n = t! "Time" then some t else none) k [] hk
  rw [List.append_nil] at e
  simp only [Spec.address, List.append_assoc]
  rw [fill_plain _ _ _ h]
  simp [Spec.fill, e]

theorem address_init (name k b t : Str) (h : '$' ∉ name) (hk : '$' ∉ k) :
    Spec.address (name ++ t! "_$Bandwidth$_i.m4" ++ k) b t = some (name ++ t! "_" ++ b ++ t! "_i.m4" ++ k) := by
  have e := fill_plain (fun n => if n = t! "Bandwidth" then some b else if n = t! "Time" then some t else none) k [] hk
  rw [List.append_nil] at e
  simp only [Spec.address, List.append_assoc]
  rw [fill_plain _ _ _ h]
  simp [Spec.fill, e]

theorem decInt_nonneg {n : Int} (h : 0 ≤ n) : decInt n = dec n.toNat := by
  rw [decInt, if_neg (by omega)]
  congr 1
  omega

theorem key_eq (b : Bitrate) : b.key = b.rate.toNat := by cases b <;> rfl

theorem addresses_stream (i : Int) (s : Stream) (hs : s.Ok) (hn : '$' ∉ s.name) (hr : ∀ b ∈ s.bitrates, 0 ≤ b.rate) :
    Spec.addresses (setOf true i s) = some (streamFiles s) := by
  have hk : ∀ v : Bool, '$' ∉ (if v then t! "v" else t! "a") := by decide
  have hkey : ∀ b ∈ s.bitrates, decInt b.rate = dec b.key := by
    intro b hb
    have h0 := hr b hb
    rw [key_eq]
    exact decInt_nonneg h0
  have hi : ∀ b ∈ s.bitrates, Spec.address (setOf true i s).initialization (decInt b.rate) [] = some (initName s b.key) := by
    intro b hb
    simp only [setOf, if_true]
    rw [address_init _ _ _ _ hn (hk _), hkey b hb]
    simp only [initName]
    cases s.isVideo <;> simp
  have hm : ∀ b ∈ s.bitrates, ∀ p ∈ s.points,
      Spec.address (setOf true i s).media (decInt b.rate) (Nat.toDigits 10 p.1) = some (m4fName s b.key p.1) := by
    intro b hb p hp
    simp only [setOf, if_true]
    rw [address_media _ _ _ _ hn (hk _), hkey b hb, ← dec_digits (show p.1 < 2 ^ 64 by have := hs.2.2.1 p hp; omega)]
    simp only [m4fName]
    cases s.isVideo <;> simp
  have hall := all_map s.bitrates (fun b => (Spec.address (setOf true i s).initialization (decInt b.rate) []).bind fun a =>
      (Spec.all (s.points.map fun p => Spec.address (setOf true i s).media (decInt b.rate) (Nat.toDigits 10 p.1))).map (a :: ·))
    (fun b => initName s b.key :: s.points.map fun p => m4fName s b.key p.1) (by
      intro b hb
      simp only [hi b hb, all_map s.points _ _ (hm b hb), Option.bind_some, Option.map_some])
  simp only [Spec.addresses, streamFiles]
  rw [show (setOf true i s).representations = s.bitrates.map fun b => ⟨b.id i, decInt b.rate, b.codec⟩ from rfl, List.map_map,
    show (setOf true i s).segments = s.points from rfl]
  simp only [Function.comp_def]
  rw [hall]
  rfl

/-- C70: a DASH client that reads the manifest asks for exactly the files the tool writes for the presentation. -/
theorem mpd_addresses (vp ap : List Str) (duration : Nat) (streams : List Stream)
    (hd : duration < 2 ^ 64) (hv : ∀ p ∈ vp, Protection p) (ha : ∀ p ∈ ap, Protection p) (hs : ∀ s ∈ streams, s.Ok)
    (hc : 1 + streams.length + (streams.map (·.bitrates.length)).sum < 2 ^ 64)
    (hn : ∀ s ∈ streams, '$' ∉ s.name) (hr : ∀ s ∈ streams, ∀ b ∈ s.bitrates, 0 ≤ b.rate) :
    ((Spec.readMpd (mpdDocument { vProtection := vp, aProtection := ap } duration streams)).bind fun sets =>
      Spec.all (sets.map Spec.addresses)) = some (streams.map streamFiles) := by
  rw [mpd_read true vp ap duration streams hd hv ha hs hc, Option.bind_some, List.map_map]
  have := all_map (streams.zipIdx 1) (fun p => Spec.addresses (setOf true p.2 p.1)) (fun p => streamFiles p.1) (by
    intro p hp
    have h := List.fst_mem_of_mem_zipIdx hp
    exact addresses_stream p.2 p.1 (hs _ h) (hn _ h) (hr _ h))
  rw [zipIdx_map] at this
  exact this

/-- The hypotheses are met; the first addresses. -/
example : ((Spec.readMpd (mpdDocument { vProtection := [demoProtection] } 80 demo)).bind fun sets => Spec.all (sets.map Spec.addresses)) =
    some (demo.map streamFiles) ∧ (demo.map streamFiles).flatten.take 2 = [t! "audio_96000_i.m4a", t! "audio_96000_0.m4a"] := by
  refine ⟨mpd_addresses [demoProtection] [] 80 demo (by decide) demo_protection (by simp) demo_ok (by decide) (by decide) (by decide), by decide +kernel⟩

end Verif.Render
