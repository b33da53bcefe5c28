import Verif.Request.Lemmas
import Verif.Cmdline.Props
import Verif.Presentation.Props
/-
C165: every input gets its own files and bit rates. C166: wrong options are refused. C167: the languages of the audio streams. C168: the segments come from the files of the command line.
-/
namespace Verif.Request
open Verif.Cmdline Spec

theorem checks_spec (m : Map) :
    (¬ ((given m "starttime").length = (given m "input").length ∧ (given m "endtime").length = (given m "input").length) → checks m = .error (.exit 2020)) ∧
    ((given m "starttime").length = (given m "input").length ∧ (given m "endtime").length = (given m "input").length →
      ((given m "bitrate").length ≠ (given m "path").length + (given m "input").length → checks m = .error (.exit 2021)) ∧
      ((given m "bitrate").length = (given m "path").length + (given m "input").length →
        (given m "input" = [] → checks m = .error .crash) ∧
        (given m "input" ≠ [] →
          (¬ (given m "input").length ∣ (given m "path").length → checks m = .error (.exit 2022)) ∧
          ((given m "input").length ∣ (given m "path").length → checks m = .ok ((given m "input").length, (given m "path").length / (given m "input").length))))) := by
  unfold checks
  simp only [count_given]
  refine ⟨fun h => ?_, fun h => ⟨fun h2 => ?_, fun h2 => ⟨fun h3 => ?_, fun h3 => ⟨fun h4 => ?_, fun h4 => ?_⟩⟩⟩⟩
  · rw [if_pos (by omega)]
  · rw [if_neg (by omega), if_pos (by omega)]
  · rw [if_neg (by omega), if_neg (by omega), if_pos (by rw [h3]; rfl)]
  · have : (given m "input").length ≠ 0 := fun e => h3 (List.length_eq_zero_iff.mp e)
    rw [if_neg (by omega), if_neg (by omega), if_neg this, if_pos (fun e => h4 (Nat.dvd_of_mod_eq_zero e))]
  · have : (given m "input").length ≠ 0 := fun e => h3 (List.length_eq_zero_iff.mp e)
    rw [if_neg (by omega), if_neg (by omega), if_neg this, if_neg (fun e => e (Nat.mod_eq_zero_of_dvd h4))]

theorem checks_ok {m : Map} {cnt per : Nat} (h : checks m = .ok (cnt, per)) :
    given m "input" ≠ [] ∧ Counts m ∧ cnt = (given m "input").length ∧ (given m "path").length = per * cnt := by
  obtain ⟨a, b⟩ := checks_spec m
  by_cases h1 : (given m "starttime").length = (given m "input").length ∧ (given m "endtime").length = (given m "input").length
  case neg => rw [a h1] at h; simp at h
  obtain ⟨b1, b2⟩ := b h1
  by_cases h2 : (given m "bitrate").length = (given m "path").length + (given m "input").length
  case neg => rw [b1 h2] at h; simp at h
  obtain ⟨c1, c2⟩ := b2 h2
  by_cases h3 : given m "input" = []
  case pos => rw [c1 h3] at h; simp at h
  obtain ⟨d1, d2⟩ := c2 h3
  by_cases h4 : (given m "input").length ∣ (given m "path").length
  case neg => rw [d1 h4] at h; simp at h
  rw [d2 h4] at h
  simp only [Except.ok.injEq, Prod.mk.injEq] at h
  refine ⟨h3, ⟨h1.1, h1.2, h2, h4⟩, h.1.symm, ?_⟩
  rw [← h.1, ← h.2, Nat.div_mul_cancel h4]

theorem checks_counts {m : Map} (h0 : given m "input" ≠ []) (h : Counts m) : checks m = .ok ((given m "input").length, (given m "path").length / (given m "input").length) :=
  ((((checks_spec m).2 ⟨h.1, h.2.1⟩).2 h.2.2.1).2 h0).2 h.2.2.2

/-- All that the loops do when the counts are as they must be. -/
theorem jobs_all (fail : Nat) (m : Map) (audio : Nat) (ls : List Nat) (h : Counts m) :
    (Readable m → ∃ js, jobs fail m audio (.ok ls) ((given m "path").length / (given m "input").length) (given m "input").length 0 0 0 = .ok js ∧ Follows m js ∧
      ∀ j ∈ js, ∀ e ∈ j.items, e.audioBitrate = audio ∧ e.langs = ls) ∧
    (¬ Readable m → jobs fail m audio (.ok ls) ((given m "path").length / (given m "input").length) (given m "input").length 0 0 0 = .error (.exit fail)) := by
  obtain ⟨h1, h2, h3, h4⟩ := h
  obtain ⟨per, hper⟩ : ∃ per, per = (given m "path").length / (given m "input").length := ⟨_, rfl⟩
  have hp : (given m "path").length = per * (given m "input").length := by rw [hper, Nat.div_mul_cancel h4]
  have hr : (given m "bitrate").length = (per + 1) * (given m "input").length := by rw [h3, hp, Nat.add_mul, Nat.one_mul]
  rw [← hper]
  have main := jobs_eq fail m audio ls per (given m "input") (given m "starttime") (given m "endtime") 0 0 0 rfl rfl rfl h1 h2 hp hr
  simp only [List.drop_zero] at main
  have hiff : Readable m ↔ (∀ s ∈ given m "starttime", (toInt64 s).isSome) ∧ (∀ s ∈ given m "endtime", (toInt64 s).isSome) ∧ ∀ s ∈ given m "bitrate", (toInt64 s).isSome := by
    constructor
    · intro h
      exact ⟨h _ (Or.inl rfl), h _ (Or.inr (Or.inl rfl)), h _ (Or.inr (Or.inr rfl))⟩
    · rintro ⟨a, b, c⟩ name (rfl | rfl | rfl)
      · exact a
      · exact b
      · exact c
  rw [hiff]
  refine ⟨fun hh => ⟨_, main.1 hh, ?_, ?_⟩, main.2⟩
  · obtain ⟨a, b, c, d, e, f⟩ := lay_spec audio ls per _ _ _ _ _ h1 h2 hp hr
    exact ⟨a, b, c, d, e, fun x hx y hy => by rw [(f x hx).1, (f y hy).1]⟩
  · obtain ⟨a, b, c, d, e, f⟩ := lay_spec audio ls per _ _ _ _ _ h1 h2 hp hr
    exact fun j hj => (f j hj).2

theorem jobs_stop (fail : Nat) (m : Map) (audio : Nat) (e : Stop) (per n idx pi bi : Nat) : ∃ e', jobs fail m audio (.error e) per (n + 1) idx pi bi = .error e' := by
  simp only [jobs, entries, bind, Except.bind]
  cases number fail m "starttime".toList idx with
  | error x => exact ⟨_, rfl⟩
  | ok s =>
    cases number fail m "endtime".toList idx with
    | error x => exact ⟨_, rfl⟩
    | ok s =>
      cases number fail m "bitrate".toList bi with
      | error x => exact ⟨_, rfl⟩
      | ok s => exact ⟨_, rfl⟩

/-- The loops succeed only if the options are as they must be. -/
theorem jobs_only {fail : Nat} {m : Map} {audio : Nat} {langs : Except Stop (List Nat)} {cnt per : Nat} {js : List Job} (hc : checks m = .ok (cnt, per))
    (h : jobs fail m audio langs per cnt 0 0 0 = .ok js) :
    ∃ ls, langs = .ok ls ∧ Counts m ∧ Readable m ∧ given m "input" ≠ [] ∧ Follows m js ∧ ∀ j ∈ js, ∀ e ∈ j.items, e.audioBitrate = audio ∧ e.langs = ls := by
  obtain ⟨h0, hk, e1, _⟩ := checks_ok hc
  have e2 := checks_counts h0 hk
  rw [hc] at e2
  simp only [Except.ok.injEq, Prod.mk.injEq] at e2
  rw [e2.1, e2.2] at h
  cases langs with
  | error e =>
    cases hn : (given m "input").length with
    | zero => exact absurd (List.length_eq_zero_iff.mp hn) h0
    | succ n =>
      obtain ⟨e', he⟩ := jobs_stop fail m audio e ((given m "path").length / (given m "input").length) n 0 0 0
      rw [hn] at h he
      rw [he] at h
      simp at h
  | ok ls =>
    obtain ⟨a, b⟩ := jobs_all fail m audio ls hk
    by_cases hr : Readable m
    · obtain ⟨js', e, f, g⟩ := a hr
      rw [e] at h
      simp only [Except.ok.injEq] at h
      subst h
      exact ⟨ls, rfl, hk, hr, h0, f, g⟩
    · rw [b hr] at h; simp at h

/-- C165 for kind `hls`. -/
theorem hls_follows (m : Map) (js : List Job) (h : hls m = .ok js) : Follows m js ∧ js.length = (given m "input").length ∧ ∀ j ∈ js, ∀ e ∈ j.items, e.audioBitrate = 96000 := by
  rw [hls] at h
  cases hc : checks m with
  | error e => rw [hc] at h; simp [bind, Except.bind] at h
  | ok p =>
    obtain ⟨cnt, per⟩ := p
    rw [hc] at h
    obtain ⟨ls, _, _, _, _, f, g⟩ := jobs_only hc (show jobs 1244 m 96000 (.ok []) per cnt 0 0 0 = .ok js from h)
    have := congrArg List.length f.inputs
    rw [List.length_map, List.length_map] at this
    exact ⟨f, this, fun j hj e he => (g j hj e he).1⟩

/-- C166 for kind `hls`: a command line that does not fit is refused, with a code that says why; any other is carried out. Missing: without an input the program divides by zero (`hls_no_input`). -/
theorem hls_answers_partial (m : Map) (h0 : given m "input" ≠ []) :
    ((∃ js, hls m = .ok js) ↔ Counts m ∧ Readable m) ∧
    (¬ (Counts m ∧ Readable m) → ∃ code, hls m = .error (.exit code) ∧ code % 256 ≠ 0 ∧
      (code = 2020 ↔ ¬ ((given m "starttime").length = (given m "input").length ∧ (given m "endtime").length = (given m "input").length)) ∧ (code = 1244 ↔ Counts m)) := by
  have key : (Counts m ∧ Readable m → ∃ js, hls m = .ok js) ∧
      (¬ (Counts m ∧ Readable m) → ∃ code, hls m = .error (.exit code) ∧ code % 256 ≠ 0 ∧
      (code = 2020 ↔ ¬ ((given m "starttime").length = (given m "input").length ∧ (given m "endtime").length = (given m "input").length)) ∧ (code = 1244 ↔ Counts m)) := by
    rw [hls]
    constructor
    · rintro ⟨hc, hr⟩
      obtain ⟨js, e, _⟩ := (jobs_all 1244 m 96000 [] hc).1 hr
      exact ⟨js, by rw [checks_counts h0 hc]; exact e⟩
    · intro hn
      obtain ⟨a, b⟩ := checks_spec m
      by_cases h1 : (given m "starttime").length = (given m "input").length ∧ (given m "endtime").length = (given m "input").length
      case neg => exact ⟨2020, by rw [a h1]; rfl, by decide, by simp [h1], by simp; exact fun c => h1 ⟨c.1, c.2.1⟩⟩
      obtain ⟨b1, b2⟩ := b h1
      by_cases h2 : (given m "bitrate").length = (given m "path").length + (given m "input").length
      case neg => exact ⟨2021, by rw [b1 h2]; rfl, by decide, by simp [h1], by simp; exact fun c => h2 c.2.2.1⟩
      obtain ⟨d1, d2⟩ := (b2 h2).2 h0
      by_cases h4 : (given m "input").length ∣ (given m "path").length
      case neg => exact ⟨2022, by rw [d1 h4]; rfl, by decide, by simp [h1], by simp; exact fun c => h4 c.2.2.2⟩
      have hc : Counts m := ⟨h1.1, h1.2, h2, h4⟩
      refine ⟨1244, ?_, by decide, by simp [h1], by simp [hc]⟩
      rw [checks_counts h0 hc]
      exact (jobs_all 1244 m 96000 [] hc).2 fun hr => hn ⟨hc, hr⟩
  refine ⟨⟨fun ⟨js, e⟩ => Classical.byContradiction fun hn => ?_, key.1⟩, key.2⟩
  obtain ⟨c, e', _⟩ := key.2 hn
  rw [e] at e'; simp at e'

/-- The witness: `mg -k:hls`. -/
theorem hls_no_input (m : Map) (h : given m "input" = []) (h1 : given m "starttime" = []) (h2 : given m "endtime" = []) (h3 : (given m "bitrate").length = (given m "path").length) :
    hls m = .error .crash := by
  have := (((checks_spec m).2 ⟨by rw [h, h1], by rw [h, h2]⟩).2 (by rw [h, h3]; rfl)).1 h
  rw [hls, this]; rfl

/-- What a round of the loop over the languages does. -/
theorem language_spec (m : Map) (ll : Nat) :
    (∀ k, language m ll = .ok k → ll < 16 ∧ k ≤ 1 ∧ (0 < ll → ll < (given m "lang").length)) ∧
    (ll < 16 → (∀ s ∈ given m "lang", 2 ≤ s.length) → (0 < ll → ll < (given m "lang").length) → ∃ k, language m ll = .ok k) ∧
    (ll < 16 → (∀ s ∈ given m "lang", 2 ≤ s.length) → ∀ e, language m ll = .error e → e = .exit 2025) := by
  have hst : ∀ {a b c k : Nat}, store ll (langCode a b c) = .ok k → ll < 16 ∧ k ≤ 1 := by
    intro a b c k e
    rw [store] at e
    split at e
    · simp only [Except.ok.injEq] at e
      subst e
      refine ⟨by assumption, ?_⟩
      rw [langCode]; split <;> omega
    · simp at e
  rw [language, specified_given, getValue_given]
  by_cases hs : ll < (given m "lang").length
  · rw [if_pos (by simpa using hs), List.getElem?_eq_getElem hs, Option.getD_some]
    obtain ⟨t, ht⟩ : ∃ t, (given m "lang")[ll] = t := ⟨_, rfl⟩
    have hm : t ∈ given m "lang" := ht ▸ List.getElem_mem hs
    rw [ht]
    refine ⟨fun k hk => ?_, fun h16 h2 _ => ?_, fun h16 h2 e he => ?_⟩
    · split at hk
      · exact ⟨(hst hk).1, (hst hk).2, fun _ => hs⟩
      · simp at hk
    · have := h2 t hm
      rcases t with _ | ⟨a, _ | ⟨b, _ | ⟨c, t⟩⟩⟩
      · simp at this
      · simp at this
      · exact ⟨_, by simp only [three, store]; rw [if_pos h16]⟩
      · exact ⟨_, by simp only [three, store]; rw [if_pos h16]⟩
    · have := h2 t hm
      rcases t with _ | ⟨a, _ | ⟨b, _ | ⟨c, t⟩⟩⟩
      · simp at this
      · simp at this
      · simp only [three, store] at he; rw [if_pos h16] at he; simp at he
      · simp only [three, store] at he; rw [if_pos h16] at he; simp at he
  · rw [if_neg (by simpa using hs)]
    by_cases h0 : 0 < ll
    · rw [if_pos h0]
      exact ⟨fun k hk => by simp at hk, fun _ _ h => absurd (h h0) hs, fun _ _ e he => by simpa using he.symm⟩
    · rw [if_neg h0]
      refine ⟨fun k hk => ⟨(hst hk).1, (hst hk).2, fun h => absurd h h0⟩, fun h16 _ _ => ⟨_, by rw [store, if_pos h16]⟩, fun h16 _ e he => ?_⟩
      rw [store, if_pos h16] at he
      simp at he

theorem languages_ok (m : Map) : ∀ (n ll : Nat) (ks : List Nat), languages m n ll = .ok ks →
    ks.length = n ∧ (0 < n → ll + n ≤ 16) ∧ (∀ i, ll ≤ i → i < ll + n → 0 < i → i < (given m "lang").length) ∧ ∀ k ∈ ks, k ≤ 1 := by
  intro n
  induction n with
  | zero =>
    intro ll ks h
    simp only [languages, Except.ok.injEq] at h
    subst h
    refine ⟨rfl, by omega, fun i a b => by omega, by simp⟩
  | succ n ih =>
    intro ll ks h
    rw [languages] at h
    cases hk : language m ll with
    | error e => rw [hk] at h; simp [bind, Except.bind] at h
    | ok k =>
    cases hks : languages m n (ll + 1) with
    | error e => rw [hk, hks] at h; simp [bind, Except.bind] at h
    | ok ks' =>
    rw [hk, hks] at h
    simp only [bind, Except.bind, Except.ok.injEq] at h
    subst h
    obtain ⟨i1, i2, i3, i4⟩ := ih (ll + 1) ks' hks
    have hk' := (language_spec m ll).1 k hk
    refine ⟨by simp [i1], ?_, ?_, ?_⟩
    · intro _
      by_cases hn : 0 < n
      · have := i2 hn; omega
      · omega
    · intro i a b c
      by_cases e : i = ll
      · subst e; exact hk'.2.2 c
      · exact i3 i (by omega) (by omega) c
    · intro x hx
      rcases List.mem_cons.mp hx with rfl | hx
      · exact hk'.2.1
      · exact i4 x hx

theorem languages_fine (m : Map) : ∀ (n ll : Nat), ll + n ≤ 16 → (∀ i, ll ≤ i → i < ll + n → 0 < i → i < (given m "lang").length) →
    (∀ s ∈ given m "lang", 2 ≤ s.length) → ∃ ks, languages m n ll = .ok ks := by
  intro n
  induction n with
  | zero => intro ll _ _ _; exact ⟨[], rfl⟩
  | succ n ih =>
    intro ll h1 h2 h3
    obtain ⟨ks, e⟩ := ih (ll + 1) (by omega) (fun i a b c => h2 i (by omega) (by omega) c) h3
    obtain ⟨k, hk⟩ := (language_spec m ll).2.1 (by omega) h3 (fun h => h2 ll (Nat.le_refl _) (by omega) h)
    exact ⟨k :: ks, by rw [languages, hk, e]; rfl⟩

theorem languages_error (m : Map) : ∀ (n ll : Nat), (∀ s ∈ given m "lang", 2 ≤ s.length) → ll + n ≤ 16 → ∀ e, languages m n ll = .error e → e = .exit 2025 := by
  intro n
  induction n with
  | zero => intro ll _ _ e h; simp [languages] at h
  | succ n ih =>
    intro ll h2 h16 e h
    rw [languages] at h
    cases hk : language m ll with
    | error e' =>
      rw [hk] at h
      simp only [bind, Except.bind, Except.error.injEq] at h
      exact h ▸ (language_spec m ll).2.2 (by omega) h2 e' hk
    | ok k =>
      rw [hk] at h
      cases hr : languages m n (ll + 1) with
      | ok ks => rw [hr] at h; simp [bind, Except.bind] at h
      | error e' =>
        rw [hr] at h
        simp only [bind, Except.bind, Except.error.injEq] at h
        exact h ▸ ih (ll + 1) h2 (by omega) e' hr

theorem jobs_exit (fail : Nat) (m : Map) (audio code per n : Nat) {s e r : Str} (hs : (given m "starttime")[0]? = some s) (he : (given m "endtime")[0]? = some e)
    (hr : (given m "bitrate")[0]? = some r) : ∃ x, jobs fail m audio (.error (.exit code)) per (n + 1) 0 0 0 = .error (.exit x) ∧ (x = fail ∨ x = code) := by
  simp only [jobs, entries, bind, Except.bind]
  rw [number_given hs, number_given he, number_given hr]
  cases toInt64 s with
  | none => exact ⟨_, rfl, Or.inl rfl⟩
  | some _ =>
    cases toInt64 e with
    | none => exact ⟨_, rfl, Or.inl rfl⟩
    | some _ =>
      cases toInt64 r with
      | none => exact ⟨_, rfl, Or.inl rfl⟩
      | some _ => exact ⟨_, rfl, Or.inr rfl⟩

/-- C165 for kinds `ssf` and `dash`. -/
theorem dash_follows (m : Map) (js : List Job) (h : dash m = .ok js) : Follows m js ∧ js.length = (given m "input").length ∧
    ∃ a, audioRate m = .ok a ∧ ∀ j ∈ js, ∀ e ∈ j.items, e.audioBitrate = a := by
  rw [dash] at h
  split at h
  · simp at h
  cases hc : checks m with
  | error e => rw [hc] at h; simp [bind, Except.bind] at h
  | ok p =>
    obtain ⟨cnt, per⟩ := p
    rw [hc] at h
    cases hn : audioStreams m with
    | error e => rw [hn] at h; simp [bind, Except.bind] at h
    | ok n =>
      rw [hn] at h
      cases ha : audioRate m with
      | error e => rw [ha] at h; simp [bind, Except.bind] at h
      | ok a =>
        rw [ha] at h
        obtain ⟨ls, _, _, _, _, f, g⟩ := jobs_only hc (show jobs 1277 m a (languages m n 0) per cnt 0 0 0 = .ok js from h)
        have := congrArg List.length f.inputs
        rw [List.length_map, List.length_map] at this
        exact ⟨f, this, a, rfl, fun j hj e he => (g j hj e he).1⟩

/-- The number of audio streams and their bit rate can be read. -/
def OptionsReadable (m : Map) : Prop :=
  (∀ s, (given m "audio_streams")[0]? = some s → (toInt64 s).isSome) ∧ ∀ s, (given m "audio_bitrate")[0]? = some s → (toInt64 s).isSome

theorem audioStreams_spec (m : Map) : audioStreams m = match (given m "audio_streams")[0]? with
    | none => .ok 1
    | some s => match toInt64 s with | some n => .ok (n % 2 ^ 16).toNat | none => .error (.exit 1277) := by
  rw [audioStreams, specified_given, getInteger, getInteger64, getValue_given]
  cases hg : (given m "audio_streams")[0]? with
  | none => rw [if_neg (by have := List.getElem?_eq_none_iff.mp hg; simpa using this)]
  | some s =>
    have := (List.getElem?_eq_some_iff.mp hg).1
    rw [if_pos (by simpa using this), Option.bind_some]
    cases e : toInt64 s with
    | none => simp only [e, Option.map_none]
    | some n =>
      simp only [e, Option.map_some]
      congr 2
      split <;> omega

theorem audioRate_spec (m : Map) : audioRate m = match (given m "audio_bitrate")[0]? with
    | none => .ok 96000
    | some s => match toInt64 s with | some _ => .ok (num s) | none => .error (.exit 1277) := by
  rw [audioRate, specified_given]
  cases hg : (given m "audio_bitrate")[0]? with
  | none => rw [if_neg (by have := List.getElem?_eq_none_iff.mp hg; simpa using this)]
  | some s =>
    have := (List.getElem?_eq_some_iff.mp hg).1
    rw [if_pos (by simpa using this), number_given hg]
    cases e : toInt64 s with
    | none => simp only [e, Except.map]
    | some n => simp only [e, Except.map, u64_num e]

/-- C166 for kinds `ssf` and `dash`, with the languages. Missing: more than 16 audio streams or a language of less than two letters is undefined behaviour (`dash_many_languages`, `dash_short_language`). -/
theorem dash_answers_partial (m : Map) (n : Nat) (hn : audioStreams m = .ok n) (h16 : n ≤ 16) (h2 : ∀ s ∈ given m "lang", 2 ≤ s.length) :
    ((∃ js, dash m = .ok js) ↔ given m "input" ≠ [] ∧ Counts m ∧ Readable m ∧ OptionsReadable m ∧ (∀ i, 0 < i → i < n → i < (given m "lang").length)) ∧
    ((¬ ∃ js, dash m = .ok js) → ∃ code, dash m = .error (.exit code) ∧ code % 256 ≠ 0) := by
  have key : (given m "input" ≠ [] ∧ Counts m ∧ Readable m ∧ OptionsReadable m ∧ (∀ i, 0 < i → i < n → i < (given m "lang").length) → ∃ js, dash m = .ok js) := by
    rintro ⟨h0, hc, hr, ho, hl⟩
    obtain ⟨ks, e⟩ := languages_fine m n 0 (by omega) (fun i _ b c => hl i c (by omega)) h2
    have ha : ∃ a, audioRate m = .ok a := by
      rw [audioRate_spec]
      cases hg : (given m "audio_bitrate")[0]? with
      | none => exact ⟨_, rfl⟩
      | some s =>
        obtain ⟨k, hk⟩ := Option.isSome_iff_exists.mp (ho.2 s hg)
        exact ⟨num s, by simp [hk]⟩
    obtain ⟨a, ha⟩ := ha
    obtain ⟨js, ej, _⟩ := (jobs_all 1277 m a ks hc).1 hr
    refine ⟨js, ?_⟩
    have hs : specified m "input".toList 0 = true := by
      rw [specified_given]
      simpa using List.length_pos_iff.mpr h0
    rw [dash, hs, checks_counts h0 hc, hn, ha]
    rw [← e] at ej
    exact ej
  have key2 : ¬ (∃ js, dash m = .ok js) → ∃ code, dash m = .error (.exit code) ∧ code % 256 ≠ 0 := by
    intro hno
    rw [dash] at hno ⊢
    by_cases h0 : given m "input" = []
    · exact ⟨2, by rw [specified_given, h0]; rfl, by decide⟩
    have hs : specified m "input".toList 0 = true := by
      rw [specified_given]
      simpa using List.length_pos_iff.mpr h0
    rw [hs] at hno ⊢
    obtain ⟨a, b⟩ := checks_spec m
    by_cases h1 : (given m "starttime").length = (given m "input").length ∧ (given m "endtime").length = (given m "input").length
    case neg => exact ⟨2020, by rw [a h1]; rfl, by decide⟩
    obtain ⟨b1, b2⟩ := b h1
    by_cases h2' : (given m "bitrate").length = (given m "path").length + (given m "input").length
    case neg => exact ⟨2021, by rw [b1 h2']; rfl, by decide⟩
    obtain ⟨d1, d2⟩ := (b2 h2').2 h0
    by_cases h4 : (given m "input").length ∣ (given m "path").length
    case neg => exact ⟨2022, by rw [d1 h4]; rfl, by decide⟩
    have hc : Counts m := ⟨h1.1, h1.2, h2', h4⟩
    rw [checks_counts h0 hc, hn] at hno ⊢
    cases ha : audioRate m with
    | error e =>
      have : e = .exit 1277 := by
        rw [audioRate_spec] at ha
        split at ha
        · simp at ha
        · split at ha <;> simp at ha
          exact ha.symm
      exact ⟨1277, by rw [this]; rfl, by decide⟩
    | ok a =>
      rw [ha] at hno
      replace hno : ¬ ∃ js, jobs 1277 m a (languages m n 0) ((given m "path").length / (given m "input").length) (given m "input").length 0 0 0 = .ok js := hno
      show ∃ code, jobs 1277 m a (languages m n 0) ((given m "path").length / (given m "input").length) (given m "input").length 0 0 0 = .error (.exit code) ∧ code % 256 ≠ 0
      cases hl : languages m n 0 with
      | ok ks =>
        rw [hl] at hno
        by_cases hr : Readable m
        · obtain ⟨js, e, _⟩ := (jobs_all 1277 m a ks hc).1 hr
          exact absurd ⟨js, e⟩ hno
        · exact ⟨1277, (jobs_all 1277 m a ks hc).2 hr, by decide⟩
      | error e =>
        have he : e = .exit 2025 := languages_error m n 0 h2 (by omega) e hl
        cases hcnt : (given m "input").length with
        | zero => exact absurd (List.length_eq_zero_iff.mp hcnt) h0
        | succ c =>
          subst he
          obtain ⟨x, hx⟩ := jobs_exit 1277 m a 2025 ((given m "path").length / (c + 1)) c (List.getElem?_eq_getElem (by omega : 0 < (given m "starttime").length))
            (List.getElem?_eq_getElem (by omega : 0 < (given m "endtime").length)) (List.getElem?_eq_getElem (by omega : 0 < (given m "bitrate").length))
          rcases hx with ⟨hx, rfl | rfl⟩
          · exact ⟨_, hx, by decide⟩
          · exact ⟨_, hx, by decide⟩
  refine ⟨⟨fun ⟨js, e⟩ => ?_, key⟩, key2⟩
  rw [dash] at e
  split at e
  · simp at e
  cases hc : checks m with
  | error x => rw [hc] at e; simp [bind, Except.bind] at e
  | ok p =>
    obtain ⟨cnt, per⟩ := p
    rw [hc, hn] at e
    cases ha : audioRate m with
    | error x => rw [ha] at e; simp [bind, Except.bind] at e
    | ok a =>
      rw [ha] at e
      obtain ⟨ls, el, hk, hr, h0, _, _⟩ := jobs_only hc (show jobs 1277 m a (languages m n 0) per cnt 0 0 0 = .ok js from e)
      refine ⟨h0, hk, hr, ⟨?_, ?_⟩, fun i a b => (languages_ok m n 0 ls el).2.2.1 i (by omega) (by omega) a⟩
      · intro s hs
        rw [audioStreams_spec, hs] at hn
        cases ht : toInt64 s with
        | none => simp [ht] at hn
        | some _ => rfl
      · intro s hs
        rw [audioRate_spec, hs] at ha
        cases ht : toInt64 s with
        | none => simp [ht] at ha
        | some _ => rfl

theorem languages_crash (m : Map) (h2 : ∀ s ∈ given m "lang", 2 ≤ s.length) (hl : 16 < (given m "lang").length) : ∀ (n ll : Nat), ll ≤ 16 → 16 < ll + n → languages m n ll = .error .crash := by
  intro n
  induction n with
  | zero => intro ll a b; omega
  | succ n ih =>
    intro ll a b
    by_cases h : ll < 16
    · obtain ⟨k, hk⟩ := (language_spec m ll).2.1 h h2 (fun _ => by omega)
      rw [languages, hk, ih (ll + 1) (by omega) (by omega)]; rfl
    · have e : ll = 16 := by omega
      subst e
      have : language m 16 = .error .crash := by
        rw [language, specified_given, getValue_given, if_pos (by simpa using hl), List.getElem?_eq_getElem hl, Option.getD_some]
        split
        · rfl
        · rfl
      rw [languages, this]; rfl

/-- The defect of C166: with more than 16 audio streams, all with a language, memory outside of the array is written. -/
theorem dash_many_languages (m : Map) (n : Nat) (hn : audioStreams m = .ok n) (h16 : 16 < n) (a : Nat) (ha : audioRate m = .ok a) (h0 : given m "input" ≠ []) (hc : Counts m) (hr : Readable m)
    (h2 : ∀ s ∈ given m "lang", 2 ≤ s.length) (hl : 16 < (given m "lang").length) : dash m = .error .crash := by
  have hs : specified m "input".toList 0 = true := by
    rw [specified_given]
    simpa using List.length_pos_iff.mpr h0
  have hpos : 0 < (given m "input").length := List.length_pos_iff.mpr h0
  rw [dash, hs, checks_counts h0 hc, hn, ha]
  show jobs 1277 m a (languages m n 0) ((given m "path").length / (given m "input").length) (given m "input").length 0 0 0 = .error .crash
  rw [languages_crash m h2 hl n 0 (by omega) (by omega)]
  obtain ⟨c, hcnt⟩ : ∃ c, (given m "input").length = c + 1 := ⟨(given m "input").length - 1, by omega⟩
  rw [hcnt]
  have l1 := hc.1
  have l2 := hc.2.1
  have l3 := hc.2.2.1
  obtain ⟨_, _, n1⟩ := number_ok (fail := 1277) (List.getElem?_eq_getElem (show 0 < (given m "starttime").length by omega)) (hr _ (Or.inl rfl) _ (List.getElem_mem _))
  obtain ⟨_, _, n2⟩ := number_ok (fail := 1277) (List.getElem?_eq_getElem (show 0 < (given m "endtime").length by omega)) (hr _ (Or.inr (Or.inl rfl)) _ (List.getElem_mem _))
  obtain ⟨_, _, n3⟩ := number_ok (fail := 1277) (List.getElem?_eq_getElem (show 0 < (given m "bitrate").length by omega)) (hr _ (Or.inr (Or.inr rfl)) _ (List.getElem_mem _))
  simp only [jobs, entries, n1, n2, n3, bind, Except.bind]

/-- C167: every item has a language for each audio stream, at most 16, and a code is 0 or 1. Missing: the code does not tell the language (`languages_lost`). -/
theorem dash_languages_partial (m : Map) (js : List Job) (h : dash m = .ok js) :
    ∃ n, audioStreams m = .ok n ∧ n ≤ 16 ∧ ∀ j ∈ js, ∀ e ∈ j.items, e.langs.length = n ∧ ∀ k ∈ e.langs, k ≤ 1 := by
  rw [dash] at h
  split at h
  · simp at h
  cases hc : checks m with
  | error e => rw [hc] at h; simp [bind, Except.bind] at h
  | ok p =>
    obtain ⟨cnt, per⟩ := p
    rw [hc] at h
    cases hn : audioStreams m with
    | error e => rw [hn] at h; simp [bind, Except.bind] at h
    | ok n =>
      rw [hn] at h
      cases ha : audioRate m with
      | error e => rw [ha] at h; simp [bind, Except.bind] at h
      | ok a =>
        rw [ha] at h
        obtain ⟨ls, el, _, _, _, f, g⟩ := jobs_only hc (show jobs 1277 m a (languages m n 0) per cnt 0 0 0 = .ok js from h)
        obtain ⟨l1, l2, _, l4⟩ := languages_ok m n 0 ls el
        refine ⟨n, rfl, ?_, ?_⟩
        · by_cases h0 : 0 < n
          · have := l2 h0; omega
          · omega
        · intro j hj e he
          rw [(g j hj e he).2]
          exact ⟨l1, l4⟩

/-- The values of the options are those the text of the command line gives. -/
theorem given_values (ds : List Cmdline.Spec.Decl) (m : Map) (hd : Cmdline.Spec.declare ds = some m) (args : List Cmdline.Spec.Arg) (hg : ∀ a ∈ args, Good ds a) :
    ∃ ok msg m', process m (args.map Cmdline.Spec.Arg.text) = some (ok, msg, m') ∧
      ∀ (name : String) vs, Cmdline.Spec.Values ds name.toList args vs ↔ given m' name = vs := by
  obtain ⟨ok, msg, m', e, h⟩ := values_partial ds m hd args hg
  refine ⟨ok, msg, m', e, fun name vs => ?_⟩
  obtain ⟨ws, h1, h2, h3, _⟩ := h name.toList
  have : given m' name = ws := List.ext_getElem? fun i => by rw [← getValue_given, h3]
  rw [this]
  exact ⟨fun hv => (h2 vs hv).symm, fun e => e ▸ h1⟩

/-- An item as module Presentation has it. -/
def toItem (e : Entry) : Presentation.Item Str := ⟨e.bitrate, e.audioBitrate, e.path⟩

open Verif.Presentation (Op Stream build pathOf)

/-- One of the commands makes these calls, with this bit rate for audio: 96000, or for `dash` what is given. -/
def Published (m : Map) (js : List Job) (a : Nat) : Prop := hls m = .ok js ∧ a = 96000 ∨ dash m = .ok js ∧ audioRate m = .ok a

theorem published {m : Map} {js : List Job} {a : Nat} (h : Published m js a) : Follows m js ∧ ∀ j ∈ js, ∀ e ∈ j.items, e.audioBitrate = a := by
  rcases h with ⟨h, rfl⟩ | ⟨h, ha⟩
  · obtain ⟨f, _, g⟩ := hls_follows m js h
    exact ⟨f, g⟩
  · obtain ⟨f, _, b, hb, g⟩ := dash_follows m js h
    rw [ha] at hb
    simp only [Except.ok.injEq] at hb
    exact ⟨f, hb ▸ g⟩

/-- The `Add` calls are made with the items of the jobs; what they find in the files is input. -/
def Calls (js : List Job) (ops : List (Op Str)) : Prop := ops.map (·.items) = js.map fun j => j.items.map toItem

theorem calls_get {js : List Job} {ops : List (Op Str)} (h : Calls js ops) {j : Nat} {op : Op Str} (hj : ops[j]? = some op) : ∃ job, js[j]? = some job ∧ op.items = job.items.map toItem := by
  have := congrArg (·[j]?) h
  simp only [List.getElem?_map, hj, Option.map_some] at this
  cases hjs : js[j]? with
  | none => rw [hjs] at this; simp at this
  | some job => rw [hjs] at this; exact ⟨job, rfl, by simpa using this⟩

theorem calls_job {js : List Job} {ops : List (Op Str)} (h : Calls js ops) {j : Nat} {job : Job} (hj : js[j]? = some job) : ∃ op, ops[j]? = some op ∧ op.items = job.items.map toItem := by
  have := congrArg (·[j]?) h
  simp only [List.getElem?_map, hj, Option.map_some] at this
  cases hjs : ops[j]? with
  | none => rw [hjs] at this; simp at this
  | some op => rw [hjs] at this; exact ⟨op, rfl, by simpa using this⟩

theorem calls_mem {js : List Job} {ops : List (Op Str)} (h : Calls js ops) {op : Op Str} (ho : op ∈ ops) : ∃ job ∈ js, op.items = job.items.map toItem := by
  obtain ⟨j, hj⟩ := List.getElem?_of_mem ho
  obtain ⟨job, h1, h2⟩ := calls_get h hj
  exact ⟨job, List.mem_of_getElem? h1, h2⟩

theorem items_ne {m : Map} {js : List Job} (f : Follows m js) {job : Job} (hj : job ∈ js) : ∃ e es, job.items = e :: es ∧ e.path ∈ given m "input" := by
  have h1 : (job.items.map (·.path)).head? ∈ js.map (fun j => (j.items.map (·.path)).head?) := List.mem_map_of_mem hj
  rw [f.inputs] at h1
  obtain ⟨i, hi, e⟩ := List.mem_map.mp h1
  cases hit : job.items with
  | nil => rw [hit] at e; simp at e
  | cons x xs =>
    rw [hit] at e
    simp only [List.map_cons, List.head?_cons, Option.some.injEq] at e
    exact ⟨x, xs, rfl, e ▸ hi⟩

/-- C168, audio: between the start of an input and that of the next one, every audio segment of a presentation comes from this input. -/
theorem audio_file (m : Map) (js : List Job) (a : Nat) (h : Published m js a) (kinds : List Presentation.Kind) (hk : kinds.length < 2 ^ 31) (ops : List (Op Str)) (hc : Calls js ops)
    (hn : ∀ o ∈ ops, (Presentation.Spec.shown kinds).length ≤ o.streams) (ss : List (Stream Str)) (hb : build kinds ops = some ss) (s : Stream Str) (hs : s ∈ ss) (hv : s.video = false)
    (hinc : ∀ a b, a < b → b < ops.length → Presentation.Spec.startOf s.id (ops.take a) < Presentation.Spec.startOf s.id (ops.take b))
    (j : Nat) (input : Str) (hj : (given m "input")[j]? = some input) (t : Int) (h1 : 0 < j → Presentation.Spec.startOf s.id (ops.take j) ≤ t)
    (h2 : ∀ k, j < k → k < ops.length → t < Presentation.Spec.startOf s.id (ops.take k)) : pathOf s a t = some input := by
  obtain ⟨f, ha⟩ := published h
  have hin := congrArg (·[j]?) f.inputs
  simp only [List.getElem?_map, hj, Option.map_some] at hin
  cases hjs : js[j]? with
  | none => rw [hjs] at hin; simp at hin
  | some job =>
    rw [hjs] at hin
    simp only [Option.map_some, Option.some.injEq] at hin
    obtain ⟨op, ho, hi⟩ := calls_job hc hjs
    have lists : ∀ o ∈ ops, ∃ x xs, o.items = x :: xs ∧ x.audioBitrate = a := by
      intro o hom
      obtain ⟨jb, hm, he⟩ := calls_mem hc hom
      obtain ⟨e, es, e1, _⟩ := items_ne f hm
      rw [e1] at he
      refine ⟨_, _, he, ?_⟩
      have := ha jb hm e (by rw [e1]; exact List.mem_cons_self)
      show ((e.audioBitrate : Nat) : Int) = a
      rw [this]
    have main := Presentation.file_of_add kinds hk ops hn ss hb s hs a (by
        cases hops : ops with
        | nil => rw [hops] at ho; simp at ho
        | cons o os =>
          obtain ⟨x, xs, e, hx⟩ := lists o (by rw [hops]; exact List.mem_cons_self)
          simp [Presentation.Spec.allowed, Presentation.Spec.rates, hv, e, hx])
      (by
        intro o hom
        obtain ⟨x, xs, e, hx⟩ := lists o hom
        simp [Presentation.Spec.rates, hv, e, hx]) hinc j op ho t h1 h2
    rw [main]
    obtain ⟨e, es, e1, _⟩ := items_ne f (List.mem_of_getElem? hjs)
    obtain ⟨x, xs, e2, hx⟩ := lists op (List.mem_of_getElem? ho)
    rw [hi, e1, List.map_cons] at e2
    rw [e1] at hin
    simp only [List.map_cons, List.head?_cons, Option.some.injEq] at hin
    have hx' : (toItem e).audioBitrate = a := by
      rw [List.cons.injEq] at e2; rw [e2.1]; exact hx
    rw [hi, e1, List.map_cons, List.find?_cons_of_pos (by simp [hv, hx'])]
    simp [toItem, hin]

/-- C168, video: between the start of an input and that of the next one, the video segments with a bit rate come from the file of this input that the command line gives this bit rate. -/
theorem video_file (m : Map) (js : List Job) (a : Nat) (_h : Published m js a) (kinds : List Presentation.Kind) (hk : kinds.length < 2 ^ 31) (ops : List (Op Str)) (hc : Calls js ops)
    (hn : ∀ o ∈ ops, (Presentation.Spec.shown kinds).length ≤ o.streams) (ss : List (Stream Str)) (hb : build kinds ops = some ss) (s : Stream Str) (hs : s ∈ ss) (hv : s.video = true)
    (hinc : ∀ a b, a < b → b < ops.length → Presentation.Spec.startOf s.id (ops.take a) < Presentation.Spec.startOf s.id (ops.take b))
    (j : Nat) (job : Job) (hj : js[j]? = some job) (e : Entry) (he : e ∈ job.items) (hd : (job.items.map (·.bitrate)).Nodup) (hall : ∀ x ∈ js, e.bitrate ∈ x.items.map (·.bitrate))
    (t : Int) (h1 : 0 < j → Presentation.Spec.startOf s.id (ops.take j) ≤ t)
    (h2 : ∀ k, j < k → k < ops.length → t < Presentation.Spec.startOf s.id (ops.take k)) : pathOf s e.bitrate t = some e.path := by
  obtain ⟨op, ho, hi⟩ := calls_job hc hj
  have lists : ∀ o ∈ ops, (e.bitrate : Int) ∈ Presentation.Spec.rates true o.items := by
    intro o hom
    obtain ⟨jb, hm, hh⟩ := calls_mem hc hom
    obtain ⟨x, hx, hxe⟩ := List.mem_map.mp (hall jb hm)
    simp only [Presentation.Spec.rates, hh, List.map_map, List.mem_map]
    exact ⟨x, hx, by simp [toItem, hxe]⟩
  have main := Presentation.file_of_add kinds hk ops hn ss hb s hs e.bitrate (by
      cases hops : ops with
      | nil => rw [hops] at ho; simp at ho
      | cons o os =>
        simp only [Presentation.Spec.allowed, hv, if_true]
        exact lists o (by rw [hops]; exact List.mem_cons_self))
    (by rw [hv]; exact lists) hinc j op ho t h1 h2
  rw [main, hi, hv]
  simp only [if_true, List.find?_map]
  have : ∀ (l : List Entry), (l.map (·.bitrate)).Nodup → e ∈ l → l.find? ((fun it : Presentation.Item Str => decide (it.bitrate = (e.bitrate : Int))) ∘ toItem) = some e := by
    intro l
    induction l with
    | nil => intro _ h; simp at h
    | cons x l ih =>
      intro hnd hm
      rw [List.map_cons, List.nodup_cons] at hnd
      rcases List.mem_cons.mp hm with rfl | hm
      · rw [List.find?_cons_of_pos (by simp [toItem])]
      · rw [List.find?_cons_of_neg, ih hnd.2 hm]
        intro hx
        have hx := of_decide_eq_true hx
        simp only [toItem] at hx
        exact hnd.1 (by rw [show x.bitrate = e.bitrate from by omega]; exact List.mem_map_of_mem hm)
  rw [this job.items hd he]
  rfl

/-- C168: a presentation is made if and only if the joiner finds no point for a stream that is not there and, where there is video, each input has only bit rates that the first one has too. -/
theorem published_accepted (m : Map) (js : List Job) (a : Nat) (h : Published m js a) (kinds : List Presentation.Kind) (hk : kinds.length < 2 ^ 31) (ops : List (Op Str)) (hc : Calls js ops)
    (hn : ∀ o ∈ ops, (Presentation.Spec.shown kinds).length ≤ o.streams) :
    (build kinds ops).isSome ↔ (∀ op ∈ ops, ∀ p ∈ op.points, p.1 < (Presentation.Spec.shown kinds).length) ∧
      (true ∈ Presentation.Spec.shown kinds → ∀ first, js[0]? = some first → ∀ job ∈ js, ∀ e ∈ job.items, e.bitrate ∈ first.items.map (·.bitrate)) := by
  obtain ⟨f, ha⟩ := published h
  rw [Presentation.adds_accepted kinds hk ops hn]
  refine and_congr_right fun _ => ?_
  have aud : ∀ op ∈ ops, ∀ b ∈ Presentation.Spec.rates false op.items, b = a := by
    intro op ho b hb
    obtain ⟨jb, hm, he⟩ := calls_mem hc ho
    rw [he] at hb
    simp only [Presentation.Spec.rates, List.map_map, List.mem_map] at hb
    obtain ⟨x, hx, rfl⟩ := hb
    have := ha jb hm x hx
    simp [toItem, this]
  constructor
  · intro hyp hv first hf job hj e he
    obtain ⟨i, hi⟩ := List.getElem?_of_mem hj
    obtain ⟨op, ho, hio⟩ := calls_job hc hi
    obtain ⟨op0, ho0, hio0⟩ := calls_job hc hf
    have := hyp true hv op (List.mem_of_getElem? ho) e.bitrate (by
      simp only [Presentation.Spec.rates, hio, List.map_map, List.mem_map]
      exact ⟨e, he, rfl⟩)
    cases ops with
    | nil => simp at ho0
    | cons o os =>
      simp only [List.getElem?_cons_zero, Option.some.injEq] at ho0
      subst ho0
      simp only [Presentation.Spec.allowed, if_true, Presentation.Spec.rates, hio0, List.map_map, List.mem_map] at this
      obtain ⟨x, hx, hxe⟩ := this
      have : x.bitrate = e.bitrate := Int.ofNat_inj.mp hxe
      exact List.mem_map.mpr ⟨x, hx, this⟩
  · intro hyp v hv op ho b hb
    obtain ⟨jb, hm, he⟩ := calls_mem hc ho
    cases ops with
    | nil => simp at ho
    | cons o os =>
      obtain ⟨first, hf, hio⟩ := calls_get hc (show (o :: os)[0]? = some o from rfl)
      cases v with
      | true =>
        rw [he] at hb
        simp only [Presentation.Spec.rates, List.map_map, List.mem_map] at hb
        obtain ⟨x, hx, rfl⟩ := hb
        obtain ⟨y, hy, hyx⟩ := List.mem_map.mp (hyp hv first hf jb hm x hx)
        simp only [Presentation.Spec.allowed, if_true, Presentation.Spec.rates, hio, List.map_map, List.mem_map]
        exact ⟨y, hy, by simp [toItem, hyx]⟩
      | false =>
        have hb' := aud op ho b hb
        obtain ⟨x, xs, ex, _⟩ := items_ne f (List.mem_of_getElem? hf)
        have hax := ha first (List.mem_of_getElem? hf) x (by rw [ex]; exact List.mem_cons_self)
        simp [Presentation.Spec.allowed, Presentation.Spec.rates, hio, ex, toItem, hax, hb']

/-! Concrete cases. -/

/-- A command line: two inputs with one further file each. -/
def exMap : Map :=
  [("bitrate".toList, ⟨.int, false, none, ["700".toList, "300".toList, "300".toList, "700".toList]⟩), ("endtime".toList, ⟨.int, false, none, ["0".toList, "50".toList]⟩),
   ("input".toList, ⟨.string, false, none, ["a7".toList, "b3".toList]⟩), ("path".toList, ⟨.string, false, none, ["a3".toList, "b7".toList]⟩),
   ("starttime".toList, ⟨.int, false, none, ["0".toList, "10".toList]⟩)]

def exJobs : List Job :=
  [⟨0, 0, [⟨700000, 96000, "a7".toList, []⟩, ⟨300000, 96000, "a3".toList, []⟩]⟩, ⟨10, 50, [⟨300000, 96000, "b3".toList, []⟩, ⟨700000, 96000, "b7".toList, []⟩]⟩]

theorem exHls : hls exMap = .ok exJobs := by decide

example : Follows exMap exJobs := (hls_follows exMap exJobs exHls).1

example : given exMap "input" ≠ [] ∧ Counts exMap ∧ Readable exMap :=
  have h := (hls_answers_partial exMap (by decide)).1.mp ⟨_, exHls⟩
  ⟨by decide, h⟩

/-- The options of `dash`, with languages. -/
def exDash (langs : List Str) (n : Str) : Map :=
  exMap ++ [("audio_streams".toList, ⟨.int, false, none, [n]⟩), ("lang".toList, ⟨.string, false, none, langs⟩)]

example : audioStreams (exDash ["eng".toList, "ita".toList] "2".toList) = .ok 2 := by decide

theorem code_letters (a b c : Nat) (h : a % 256 ≠ 0) : langCode a b c = 1 := by
  rw [langCode, if_pos (Or.inl (by omega))]

theorem exLanguages : languages (exDash ["eng".toList, "ita".toList] "2".toList) 2 0 = .ok [1, 1] := by
  have h0 : language (exDash ["eng".toList, "ita".toList] "2".toList) 0 = .ok 1 := congrArg (store 0) (code_letters 'e'.toNat 'n'.toNat 'g'.toNat (by decide))
  have h1 : language (exDash ["eng".toList, "ita".toList] "2".toList) 1 = .ok 1 := congrArg (store 1) (code_letters 'i'.toNat 't'.toNat 'a'.toNat (by decide))
  simp only [languages, h0, h1, bind, Except.bind]

/-- The witness for C167: English and Italian get the same code, not that of their letters. -/
theorem languages_lost : ∃ js, dash (exDash ["eng".toList, "ita".toList] "2".toList) = .ok js ∧ (∀ j ∈ js, ∀ e ∈ j.items, e.langs = [1, 1]) ∧
    Spec.packed "eng".toList ≠ some 1 ∧ Spec.packed "ita".toList ≠ some 1 ∧ Spec.packed "eng".toList ≠ Spec.packed "ita".toList := by
  refine ⟨exJobs.map fun j => { j with items := j.items.map fun e => { e with langs := [1, 1] } }, ?_, by decide, by decide, by decide, by decide⟩
  show jobs 1277 (exDash ["eng".toList, "ita".toList] "2".toList) 96000 (languages (exDash ["eng".toList, "ita".toList] "2".toList) 2 0) 1 2 0 0 0 = _
  rw [exLanguages]
  decide

example : audioStreams (exDash (List.replicate 17 "eng".toList) "17".toList) = .ok 17 ∧ 16 < (given (exDash (List.replicate 17 "eng".toList) "17".toList) "lang").length := by decide

/-- The witness for C166: a language of a single letter. -/
theorem dash_short_language : dash (exDash ["e".toList] "1".toList) = .error .crash := by decide

/-- `mg -k:hls`. -/
example : hls [] = .error .crash := hls_no_input [] rfl rfl rfl rfl

/-- The two `Add` calls of the example, with what the joiner finds in the files. -/
def exOps : List (Op Str) := [⟨exJobs[0].items.map toItem, 2, [(0, .plain 0 0), (1, .plain 0 0)], fun _ => 100⟩, ⟨exJobs[1].items.map toItem, 2, [(0, .plain 0 100), (1, .plain 0 100)], fun _ => 140⟩]

example : Calls exJobs exOps := rfl

example : (build [Presentation.Kind.video, Presentation.Kind.audio] exOps).isSome := by
  refine (published_accepted exMap exJobs 96000 (Or.inl ⟨exHls, rfl⟩) [Presentation.Kind.video, Presentation.Kind.audio] (by decide) exOps rfl (by decide)).mpr ⟨by decide, fun _ => ?_⟩
  intro first hf
  simp only [exJobs, List.getElem?_cons_zero, Option.some.injEq] at hf
  subst hf
  decide

theorem exStart (i : Nat) : Presentation.Spec.startOf i (exOps.take 0) = 0 ∧ 100 ≤ Presentation.Spec.startOf i (exOps.take 1) := by
  refine ⟨rfl, ?_⟩
  rw [Presentation.Spec.startOf]
  exact Int.le_max_left 100 _

theorem exInc (i : Nat) : ∀ a b, a < b → b < exOps.length → Presentation.Spec.startOf i (exOps.take a) < Presentation.Spec.startOf i (exOps.take b) := by
  intro a b h1 h2
  have : exOps.length = 2 := rfl
  have ha : a = 0 := by omega
  have hb : b = 1 := by omega
  subst ha hb
  have := exStart i
  omega

/-- At time 50 the audio is from the first input and the video with 300 kb/s from its further file. -/
example (ss : List (Stream Str)) (hb : build [Presentation.Kind.video, Presentation.Kind.audio] exOps = some ss) (s : Stream Str) (hs : s ∈ ss) :
    (s.video = false → pathOf s 96000 50 = some "a7".toList) ∧ (s.video = true → pathOf s 300000 50 = some "a3".toList) := by
  have h2 : ∀ k, 0 < k → k < exOps.length → (50 : Int) < Presentation.Spec.startOf s.id (exOps.take k) := by
    intro k h1 h2
    have : exOps.length = 2 := rfl
    have hk : k = 1 := by omega
    subst hk
    have := exStart s.id
    omega
  exact ⟨fun hv => audio_file exMap exJobs 96000 (Or.inl ⟨exHls, rfl⟩) _ (by decide) exOps rfl (by decide) ss hb s hs hv (exInc s.id) 0 _ rfl 50 (by omega) h2,
    fun hv => video_file exMap exJobs 96000 (Or.inl ⟨exHls, rfl⟩) _ (by decide) exOps rfl (by decide) ss hb s hs hv (exInc s.id) 0 _ rfl ⟨300000, 96000, "a3".toList, []⟩ (by decide) (by decide) (by decide)
      50 (by omega) h2⟩

end Verif.Request
