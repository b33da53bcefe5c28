import Verif.Fragment.Segment
/-
C46, C65, C66: media fragments as a player reads them.
-/
namespace Verif.Fragment
open Verif.Cenc.Spec (be beVal decrypt)
open Verif.Cenc (be_length beVal_be)

/-- A sample as the program stores it in the run box. -/
def Frag.itemOf (ts : Nat → Nat) (f : Frag) (s : Sample) : Item :=
  ⟨f.scale ts s.duration % 2 ^ 32, s.body.length % 2 ^ 32, f.scale ts ((s.composition + 2 ^ 64 - s.decoding) % 2 ^ 64) % 2 ^ 32⟩

/-- The bodies as they go into the media data. -/
def storedOf (E : List UInt8 → List UInt8) (enc : Option (Bool × Cenc.State)) (bodies : List (List UInt8)) : List (List UInt8) :=
  match enc with
  | none => bodies
  | some (sub, s) => (Cenc.addAll E sub s bodies).1

theorem addAll_eq (ts : Nat → Nat) (E : List UInt8 → List UInt8) : ∀ (samples : List Sample) (f : Frag),
    f.addAll ts E samples = { f with
      items := f.items ++ samples.map (f.itemOf ts)
      duration := if samples = [] then f.duration else (f.duration + (samples.map fun s => (f.itemOf ts s).duration).sum) % 2 ^ 64
      mdat := f.mdat ++ (storedOf E f.enc (samples.map (·.body))).flatten
      enc := f.enc.map fun s => (s.1, (Cenc.addAll E s.1 s.2 (samples.map (·.body))).2) } := by
  intro samples
  induction samples with
  | nil =>
    intro f
    obtain ⟨sq, ti, ba, tsc, fl, ff, its, du, md, en⟩ := f
    cases en <;> simp [Frag.addAll, storedOf, Cenc.addAll]
  | cons x xs ih =>
    intro f
    rw [Frag.addAll, ih]
    obtain ⟨sq, ti, ba, tsc, fl, ff, its, du, md, en⟩ := f
    have hsum : ∀ (d : Nat) (a : Nat), (if xs = [] then (d + a) % 2 ^ 64 else
        ((d + a) % 2 ^ 64 + (xs.map fun s => (Frag.itemOf ts ⟨sq, ti, ba, tsc, fl, ff, its, du, md, en⟩ s).duration).sum) % 2 ^ 64) =
        (d + (a + (xs.map fun s => (Frag.itemOf ts ⟨sq, ti, ba, tsc, fl, ff, its, du, md, en⟩ s).duration).sum)) % 2 ^ 64 := by
      intro d a
      split
      · rename_i h; subst h; simp
      · omega
    have hsc : ∀ (its' : List Item) (du' : Nat) (md' : List UInt8) (en' : Option (Bool × Cenc.State)) (s : Sample),
        Frag.itemOf ts ⟨sq, ti, ba, tsc, fl, ff, its', du', md', en'⟩ s = Frag.itemOf ts ⟨sq, ti, ba, tsc, fl, ff, its, du, md, en⟩ s :=
      fun _ _ _ _ _ => rfl
    cases en with
    | none =>
      simp only [Frag.addSample, Frag.mk.injEq, true_and]
      refine ⟨?_, ?_, ?_⟩
      · simp [Frag.itemOf, Frag.scale]
      · simp only [List.map_cons, List.sum_cons, reduceCtorEq, if_false]
        exact hsum _ _
      · simp [storedOf]
    | some v =>
      obtain ⟨sub, s⟩ := v
      simp only [Frag.addSample, Frag.mk.injEq, true_and]
      refine ⟨?_, ?_, ?_, ?_⟩
      · simp [Frag.itemOf, Frag.scale]
      · simp only [List.map_cons, List.sum_cons, reduceCtorEq, if_false]
        exact hsum _ _
      · simp [storedOf, Cenc.addAll]
      · simp [Cenc.addAll]

theorem sum_map_le {α : Type} (l : List α) (g : α → Nat) (x : α) (h : x ∈ l) : g x ≤ (l.map g).sum := by
  induction l with
  | nil => simp at h
  | cons y l ih =>
    simp only [List.map_cons, List.sum_cons]
    rcases List.mem_cons.mp h with rfl | h
    · omega
    · have := ih h; omega

theorem flatten_sum (l : List (List UInt8)) : l.flatten.length = (l.map (·.length)).sum := List.length_flatten

/-- The size of what is written. -/
theorem seg_length (f : Frag) (hf : f.trunFlags = 0x301 ∨ f.trunFlags = 0xB05) (he : ∀ s, f.enc = some s → (∀ e ∈ s.2.entries, Entry.Ok e) ∧ s.2.entries.length = f.items.length) :
    (segBytes f).length ≤ 233 + 28 * f.items.length + f.mdat.length := by
  have hi : (f.items.flatMap (itemBody f.trunFlags)).length ≤ 12 * f.items.length := by
    induction f.items with
    | nil => simp
    | cons i l ih =>
      have : (itemBody f.trunFlags i).length ≤ 12 := by
        rcases hf with h | h <;> rw [h] <;> simp [itemBody, be_length]
      simp only [List.flatMap_cons, List.length_append, List.length_cons]; omega
  have ht : ∀ g, (trunBody f g).length ≤ 16 + 12 * f.items.length := by
    intro g
    simp only [trunBody, List.length_append, full, be_length]
    have h1 : (if f.trunFlags &&& 0x000001 ≠ 0 then be 4 g else []).length ≤ 4 := by split <;> simp [be_length]
    have h2 : (if f.trunFlags &&& 0x000004 ≠ 0 then be 4 f.firstFlags else []).length ≤ 4 := by split <;> simp [be_length]
    omega
  have hen : (encBytes f).length ≤ 53 + 16 * f.items.length := by
    rw [encBytes]
    cases h : f.enc with
    | none => simp
    | some v =>
      obtain ⟨sub, s⟩ := v
      obtain ⟨h1, h2⟩ := he _ h
      replace h1 : ∀ e ∈ s.entries, Entry.Ok e := h1
      replace h2 : s.entries.length = f.items.length := h2
      have hs : ∀ l : List Cenc.Entry, (∀ e ∈ l, Entry.Ok e) → (l.flatMap sencEntry).length = 16 * l.length := by
        intro l hl
        induction l with
        | nil => rfl
        | cons e l ih =>
          simp only [List.flatMap_cons, List.length_append, List.length_cons, sencEntry_length e (hl e (by simp))]
          rw [ih (fun e he => hl e (by simp [he]))]; omega
      simp only [List.length_append, box_length, saizBody, saioBody, sencBody, full, be_length, hs _ h1]
      omega
  have hst : stypBody.length = 28 := by decide
  have htf : (tfdtBytes f).length ≤ 20 := by
    rw [tfdtBytes]; split <;> simp [box_length, full, be_length]
  have := ht ((moofBytes f 0).length + 8)
  simp only [segBytes, moofBytes, trafBody, trunBytes, mfhdBytes, tfhdBytes, List.length_append, box_length, sidxBody, full, be_length, hst] at this ⊢
  omega

/-- What the entries of the encryption look like. -/
theorem entries_ok (E : List UInt8 → List UInt8) (hE : ∀ b, (E b).length = 16) (sub : Bool) (random : List UInt8) (hr : random.length = 8)
    (bodies : List (List UInt8)) (hb : ∀ b ∈ bodies, b.length < 2 ^ 31) :
    (∀ e ∈ (Cenc.addAll E sub (Cenc.start random) bodies).2.entries, Entry.Ok e) ∧
      (Cenc.addAll E sub (Cenc.start random) bodies).2.entries.length = bodies.length ∧
      (Cenc.addAll E sub (Cenc.start random) bodies).1.map (·.length) = bodies.map (·.length) := by
  obtain ⟨new, h1, h2, h3, h4⟩ := Cenc.addAll_spec E hE sub bodies (Cenc.start random) (by simp [Cenc.start, hr])
    (fun b h => by have := hb b h; omega)
  have h1 : (Cenc.addAll E sub (Cenc.start random) bodies).2.entries = new := by rw [h1]; rfl
  rw [h1]
  refine ⟨?_, h2, ?_⟩
  · intro e he
    obtain ⟨i, hi, rfl⟩ := List.getElem_of_mem he
    obtain ⟨g1, body, stored, g2, g3, g4, g5, g6⟩ := h4 i new[i] (List.getElem?_eq_getElem hi)
    have hbl := hb body (List.mem_of_getElem? g2)
    have a1 : new[i].clear = (Cenc.split sub body.length).1 := congrArg Prod.fst g4
    have a2 : new[i].prot = (Cenc.split sub body.length).2 := congrArg Prod.snd g4
    refine ⟨by rw [g1, be_length], ?_, ?_⟩
    · rw [a1, Cenc.split]
      split
      · split <;> (simp only; omega)
      · simp
    · rw [a2, Cenc.split]
      split
      · split <;> (simp only; omega)
      · simp only; omega
  · apply List.ext_getElem?
    intro i
    rw [List.getElem?_map, List.getElem?_map]
    by_cases hi : i < new.length
    · obtain ⟨g1, body, stored, g2, g3, g4, g5, g6⟩ := h4 i new[i] (List.getElem?_eq_getElem hi)
      rw [g2, g3]; simp [g5]
    · rw [List.getElem?_eq_none (by omega), List.getElem?_eq_none (by omega)]

/-- The state of encryption set up by `set_encryption`. -/
def encStart (enc : Option (Bool × List UInt8)) : Option (Bool × Cenc.State) := enc.map fun x => (x.1, Cenc.start x.2)

theorem make_eq (ts : Nat → Nat) (E : List UInt8 → List UInt8) (timescale : Nat) (base : Option Nat) (enc : Option (Bool × List UInt8))
    (trackId fragmentId firstFlags : Nat) (samples : List Sample) :
    Frag.make ts E timescale base enc trackId fragmentId firstFlags samples =
      ⟨fragmentId, trackId,
        (match base with | none => 2 ^ 64 - 1 | some t => (if timescale ≠ 10000000 then ts t else t) % 2 ^ 64), timescale,
        (if 0 < firstFlags then 0xB05 else 0x301), firstFlags,
        samples.map (fun s => Frag.itemOf ts { Frag.new with timescale } s),
        ((samples.map fun s => (Frag.itemOf ts { Frag.new with timescale } s).duration).sum) % 2 ^ 64,
        (storedOf E (encStart enc) (samples.map (·.body))).flatten,
        (encStart enc).map fun s => (s.1, (Cenc.addAll E s.1 s.2 (samples.map (·.body))).2)⟩ := by
  have hfl : (if 0 < firstFlags then 0x000100 ||| 0x000004 ||| 0x000200 ||| 0x000800 ||| 0x000001 else 0x000100 ||| 0x000200 ||| 0x000001) =
      (if 0 < firstFlags then 0xB05 else 0x301) := by split <;> rfl
  by_cases hne : samples = []
  · subst hne
    cases base <;> cases enc <;>
      simp [Frag.make, Frag.setTimescale, Frag.start, Frag.new, Frag.setEncryption, Frag.setBase, Frag.scale, addAll_eq, encStart, Frag.itemOf]
  · cases base <;> cases enc <;>
      simp [Frag.make, Frag.setTimescale, Frag.start, Frag.new, Frag.setEncryption, Frag.setBase, Frag.scale, addAll_eq, encStart, hne, Frag.itemOf]

theorem make_ok (ts : Nat → Nat) (E : List UInt8 → List UInt8) (hE : ∀ b, (E b).length = 16) (timescale : Nat) (base : Option Nat)
    (enc : Option (Bool × List UInt8)) (henc : ∀ x, enc = some x → x.2.length = 8) (trackId fragmentId firstFlags : Nat) (samples : List Sample)
    (h1 : timescale < 2 ^ 32) (h2 : trackId < 2 ^ 32) (h3 : fragmentId < 2 ^ 32) (h4 : firstFlags < 2 ^ 32)
    (hsize : (samples.map fun s => s.body.length + 28).sum + 233 < 2 ^ 31) :
    (Frag.make ts E timescale base enc trackId fragmentId firstFlags samples).Ok (storedOf E (encStart enc) (samples.map (·.body))) := by
  have hlen : ∀ s ∈ samples, s.body.length < 2 ^ 31 := by
    intro s hs
    have := sum_map_le samples (fun s => s.body.length + 28) s hs
    omega
  have hsum : ∀ l : List Sample, (l.map fun s => s.body.length + 28).sum = ((l.map (·.body)).map (·.length)).sum + 28 * l.length := by
    intro l
    induction l with
    | nil => rfl
    | cons x l ih => simp only [List.map_cons, List.sum_cons, List.length_cons, ih]; omega
  have hst : (storedOf E (encStart enc) (samples.map (·.body))).map (·.length) = (samples.map (·.body)).map (·.length) := by
    cases enc with
    | none => rfl
    | some v =>
      obtain ⟨sub, random⟩ := v
      exact (entries_ok E hE sub random (henc _ rfl) (samples.map (·.body)) (by
        intro b hb
        obtain ⟨s, hs, rfl⟩ := List.mem_map.mp hb
        exact hlen s hs)).2.2
  have hents : ∀ s, (encStart enc).map (fun s => (s.1, (Cenc.addAll E s.1 s.2 (samples.map (·.body))).2)) = some s →
      (∀ e ∈ s.2.entries, Entry.Ok e) ∧ s.2.entries.length = samples.length := by
    intro s hs
    cases enc with
    | none => simp [encStart] at hs
    | some v =>
      obtain ⟨sub, random⟩ := v
      simp only [encStart, Option.map_some, Option.some.injEq] at hs
      subst hs
      obtain ⟨a, b, _⟩ := entries_ok E hE sub random (henc _ rfl) (samples.map (·.body)) (by
        intro b hb
        obtain ⟨s, hs, rfl⟩ := List.mem_map.mp hb
        exact hlen s hs)
      exact ⟨a, by rw [b, List.length_map]⟩
  have hfl : (if 0 < firstFlags then 0xB05 else 0x301) = 0x301 ∨ (if 0 < firstFlags then 0xB05 else 0x301) = 0xB05 := by
    split
    · exact Or.inr rfl
    · exact Or.inl rfl
  rw [make_eq]
  refine ⟨hfl, ?_, h4, h3, h2, h1, ?_, ?_, rfl, ?_, ?_⟩
  · intro i hi
    obtain ⟨s, hs, rfl⟩ := List.mem_map.mp hi
    exact ⟨Nat.mod_lt _ (by decide), Nat.mod_lt _ (by decide), Nat.mod_lt _ (by decide)⟩
  · simp only
    cases base with
    | none => exact Nat.sub_lt (by decide) (by decide)
    | some t => exact Nat.mod_lt _ (by decide)
  · simp only [hst, List.map_map]
    apply List.map_congr_left
    intro s hs
    simp only [Function.comp, Frag.itemOf]
    exact Nat.mod_eq_of_lt (by have := hlen s hs; omega)
  · simpa using hents
  · apply Nat.lt_of_le_of_lt (seg_length _ hfl (by simpa using hents))
    simp only [List.length_map]
    rw [flatten_sum, hst]
    rw [hsum] at hsize
    omega

/-- The time of a sample in the unit of the track. -/
def scaled (ts : Nat → Nat) (timescale t : Nat) : Nat := if timescale = 10000000 then t else ts t

/-- C65 (and C46): a fragment written after anything in the file is read back by a player: sequence number, track, decoding time, and for every sample its duration,
size, composition offset and content. The content is located through the data offset and the sizes, and is exactly the content of the media data box; for an
encrypted fragment, decrypting every sample with its entry gives the original, and the entries found through the 'senc' box and through the offset boxes are the same.
`gs` and `gt` stand for the uninitialised fields that are written first and overwritten later. -/
theorem fragment_read_back (ts : Nat → Nat) (E : List UInt8 → List UInt8) (hE : ∀ b, (E b).length = 16) (timescale : Nat) (base : Option Nat)
    (enc : Option (Bool × List UInt8)) (henc : ∀ x, enc = some x → x.2.length = 8) (trackId fragmentId firstFlags : Nat) (samples : List Sample)
    (h1 : timescale < 2 ^ 32) (h2 : trackId < 2 ^ 32) (h3 : fragmentId < 2 ^ 32) (h4 : firstFlags < 2 ^ 32)
    (hbase : ∀ t, base = some t → scaled ts timescale t < 2 ^ 64 - 1)
    (hsize : (samples.map fun s => s.body.length + 28).sum + 233 < 2 ^ 31)
    (gs gt : Nat) (before : List UInt8) (opened : List Nat) :
    ∃ seg s, (Frag.make ts E timescale base enc trackId fragmentId firstFlags samples).finish gs gt ⟨before, before.length, opened⟩ =
        ⟨before ++ seg, (before ++ seg).length, opened⟩ ∧
      Spec.segment seg = some s ∧ s.sequence = fragmentId ∧ s.trackId = trackId ∧ s.base = base.map (scaled ts timescale) ∧
      s.firstFlags = (if firstFlags = 0 then none else some firstFlags) ∧
      s.runs = samples.map (fun x => ⟨some (scaled ts timescale x.duration % 2 ^ 32), some x.body.length,
        if firstFlags = 0 then none
        else some (Spec.signed32 (scaled ts timescale ((x.composition + 2 ^ 64 - x.decoding) % 2 ^ 64) % 2 ^ 32))⟩) ∧
      s.mdat = s.data.flatten ∧
      (enc = none → s.data = samples.map (·.body) ∧ s.senc = none ∧ s.aux = none) ∧
      (enc ≠ none → ∃ es, s.senc = some es ∧ s.aux = some es ∧ es.length = samples.length ∧
        List.zipWith (fun (e : Spec.Enc) d => decrypt E e.iv e.ranges d) es s.data = samples.map (·.body)) := by
  have hok := make_ok ts E hE timescale base enc henc trackId fragmentId firstFlags samples h1 h2 h3 h4 hsize
  have hlen : ∀ s ∈ samples, s.body.length < 2 ^ 31 := by
    intro s hs
    have := sum_map_le samples (fun s => s.body.length + 28) s hs
    omega
  obtain ⟨f, hf⟩ : ∃ f, f = Frag.make ts E timescale base enc trackId fragmentId firstFlags samples := ⟨_, rfl⟩
  rw [← hf] at hok ⊢
  have hr := segment_read f _ hok
  refine ⟨segBytes f, _, finish_eq f ?_ gs gt before opened, hr, ?_⟩
  · rcases hok.flags with h | h <;> rw [h] <;> decide
  have hm := make_eq ts E timescale base enc trackId fragmentId firstFlags samples
  rw [← hf] at hm
  have hsc : ∀ t, (if timescale ≠ 10000000 then ts t else t) = scaled ts timescale t := by
    intro t; rw [scaled]; by_cases h : timescale = 10000000 <;> simp [h]
  have e1 : f.sequence = fragmentId := by rw [hm]
  have e2 : f.trackId = trackId := by rw [hm]
  have e3 : f.baseSeen = base.map (scaled ts timescale) := by
    rw [Frag.baseSeen, hm]
    cases base with
    | none => rfl
    | some t =>
      have := hbase t rfl
      simp only [hsc, Option.map_some]
      rw [Nat.mod_eq_of_lt (by omega), if_pos (by omega)]
  have e4 : f.first = if firstFlags = 0 then none else some firstFlags := by
    rw [Frag.first, hm]
    by_cases h : firstFlags = 0
    · subst h; simp
    · simp only [if_neg h, if_pos (show 0 < firstFlags by omega)]
      rfl
  have e5 : f.items.map (Item.run f.trunFlags) = samples.map (fun x => ⟨some (scaled ts timescale x.duration % 2 ^ 32), some x.body.length,
        if firstFlags = 0 then none
        else some (Spec.signed32 (scaled ts timescale ((x.composition + 2 ^ 64 - x.decoding) % 2 ^ 64) % 2 ^ 32))⟩) := by
    rw [hm]
    simp only [List.map_map]
    apply List.map_congr_left
    intro s hs
    simp only [Function.comp, Frag.itemOf, Item.run, Frag.scale, hsc, Spec.Run.mk.injEq, Option.some.injEq, true_and]
    refine ⟨Nat.mod_eq_of_lt (by have := hlen s hs; omega), ?_⟩
    by_cases h : firstFlags = 0
    · subst h; rfl
    · simp only [if_neg h, if_pos (show 0 < firstFlags by omega)]
      rfl
  refine ⟨e1, e2, e3, e4, e5, hok.mdat, ?_, ?_⟩
  · intro h
    subst h
    refine ⟨rfl, ?_, ?_⟩ <;> rw [Frag.encSeen, hm] <;> rfl
  · intro h
    cases enc with
    | none => exact absurd rfl h
    | some v =>
      obtain ⟨sub, random⟩ := v
      have hes : f.encSeen = some ((Cenc.addAll E sub (Cenc.start random) (samples.map (·.body))).2.entries.map encOf) := by
        rw [Frag.encSeen, hm]; rfl
      have hbl : ∀ b ∈ samples.map (·.body), b.length < 2 ^ 31 := by
        intro b hb
        obtain ⟨s, hs, rfl⟩ := List.mem_map.mp hb
        exact hlen s hs
      refine ⟨_, hes, hes, ?_, ?_⟩
      · rw [List.length_map, (entries_ok E hE sub random (henc _ rfl) _ hbl).2.1, List.length_map]
      · have := Cenc.decryption_gives_samples E hE sub random (henc _ rfl) (samples.map (·.body)) (fun b hb => by have := hbl b hb; omega)
        simp only at this
        rw [List.zipWith_map_left]
        exact this

/-- Composition offsets as a player reads them, in the time scale the program uses for its own fragments (10 MHz): the signed difference of composition and decoding time. -/
theorem offset_read (ts : Nat → Nat) (c d : Nat) (hc : c < 2 ^ 63) (hd : d < 2 ^ 63) (h1 : -(2 ^ 31 : Int) ≤ (c : Int) - d) (h2 : (c : Int) - d < 2 ^ 31) :
    Spec.signed32 (scaled ts 10000000 ((c + 2 ^ 64 - d) % 2 ^ 64) % 2 ^ 32) = (c : Int) - d := by
  rw [scaled, if_pos rfl, Spec.signed32]
  split <;> omega

/-- C65: the same in the default time scale, for samples whose durations and offsets fit 32 bits: every sample is read back with its duration and the difference of its times. -/
theorem fragment_times (ts : Nat → Nat) (E : List UInt8 → List UInt8) (hE : ∀ b, (E b).length = 16) (base : Nat)
    (enc : Option (Bool × List UInt8)) (henc : ∀ x, enc = some x → x.2.length = 8) (trackId fragmentId firstFlags : Nat) (samples : List Sample)
    (h2 : trackId < 2 ^ 32) (h3 : fragmentId < 2 ^ 32) (h4 : 0 < firstFlags ∧ firstFlags < 2 ^ 32) (hbase : base < 2 ^ 64 - 1)
    (hsize : (samples.map fun s => s.body.length + 28).sum + 233 < 2 ^ 31)
    (htimes : ∀ s ∈ samples, s.duration < 2 ^ 32 ∧ s.composition < 2 ^ 63 ∧ s.decoding < 2 ^ 63 ∧
      -(2 ^ 31 : Int) ≤ (s.composition : Int) - s.decoding ∧ (s.composition : Int) - s.decoding < 2 ^ 31)
    (gs gt : Nat) (before : List UInt8) :
    ∃ seg s, ((Frag.make ts E 10000000 (some base) enc trackId fragmentId firstFlags samples).finish gs gt ⟨before, before.length, []⟩).bytes = before ++ seg ∧
      Spec.segment seg = some s ∧ s.base = some base ∧
      s.runs = samples.map (fun x => ⟨some x.duration, some x.body.length, some ((x.composition : Int) - x.decoding)⟩) := by
  obtain ⟨seg, s, g1, g2, _, _, g3, _, g4, _⟩ := fragment_read_back ts E hE 10000000 (some base) enc henc trackId fragmentId firstFlags samples (by decide) h2 h3
    h4.2 (by intro t ht; cases ht; simpa [scaled] using hbase) hsize gs gt before []
  refine ⟨seg, s, by rw [g1], g2, by rw [g3]; simp [scaled], ?_⟩
  rw [g4]
  apply List.map_congr_left
  intro x hx
  obtain ⟨t1, t2, t3, t4, t5⟩ := htimes x hx
  rw [if_neg (by omega), offset_read ts _ _ t2 t3 t4 t5]
  simp only [scaled, if_pos rfl, Spec.Run.mk.injEq, Option.some.injEq, and_true, true_and]
  exact Nat.mod_eq_of_lt t1

/-- The index box of a fragment. -/
theorem index_eq (ts : Nat → Nat) (E : List UInt8 → List UInt8) (hE : ∀ b, (E b).length = 16) (base : Nat)
    (enc : Option (Bool × List UInt8)) (henc : ∀ x, enc = some x → x.2.length = 8) (trackId fragmentId firstFlags : Nat) (first : Sample) (samples : List Sample)
    (h2 : trackId < 2 ^ 32) (h3 : fragmentId < 2 ^ 32) (h4 : firstFlags < 2 ^ 32)
    (hsize : ((first :: samples).map fun s => s.body.length + 28).sum + 233 < 2 ^ 31) (gs gt : Nat) (before : List UInt8) :
    ∃ seg s, ((Frag.make ts E 10000000 (some base) enc trackId fragmentId firstFlags (first :: samples)).finish gs gt ⟨before, before.length, []⟩).bytes = before ++ seg ∧
      Spec.segment seg = some s ∧
      s.index = ⟨trackId, 10000000, ((first.composition + 2 ^ 64 - first.decoding) % 2 ^ 64 % 2 ^ 32 + base % 2 ^ 64) % 2 ^ 32, 0, 0, s.anchored,
        (((first :: samples).map fun x => x.duration % 2 ^ 32).sum) % 2 ^ 64 % 2 ^ 32, true, 1, 0⟩ := by
  have hok := make_ok ts E hE 10000000 (some base) enc henc trackId fragmentId firstFlags (first :: samples) (by decide) h2 h3 h4 hsize
  obtain ⟨f, hf⟩ : ∃ f, f = Frag.make ts E 10000000 (some base) enc trackId fragmentId firstFlags (first :: samples) := ⟨_, rfl⟩
  rw [← hf] at hok ⊢
  have hr := segment_read f _ hok
  have hm := make_eq ts E 10000000 (some base) enc trackId fragmentId firstFlags (first :: samples)
  rw [← hf] at hm
  refine ⟨segBytes f, _, congrArg W.bytes (finish_eq f ?_ gs gt before []), hr, ?_⟩
  · rcases hok.flags with h | h <;> rw [h] <;> decide
  · have e2 : f.trackId = trackId := by rw [hm]
    have e3 : f.timescale = 10000000 := by rw [hm]
    have e4 : (f.items.headD ⟨0, 0, 0⟩).offset = (first.composition + 2 ^ 64 - first.decoding) % 2 ^ 64 % 2 ^ 32 := by
      rw [hm]; simp [Frag.itemOf, Frag.scale]
    have e5 : f.base = base % 2 ^ 64 := by rw [hm]; simp
    have e6 : f.duration = (((first :: samples).map fun x => x.duration % 2 ^ 32).sum) % 2 ^ 64 := by
      rw [hm]; simp [Frag.itemOf, Frag.scale]
    rw [e2, e3, e4, e5, e6]

/-- C66 (part): the index before the fragment announces the track, the time scale, the number of bytes from the moof (which follows it) to the end of the segment,
the sum of the sample durations, and a first sample at which decoding can start, presented at the time of the first sample — as long as that time fits 32 bits, that is for the first
429 seconds of a presentation. -/
theorem segment_index_partial (ts : Nat → Nat) (E : List UInt8 → List UInt8) (hE : ∀ b, (E b).length = 16) (base : Nat)
    (enc : Option (Bool × List UInt8)) (henc : ∀ x, enc = some x → x.2.length = 8) (trackId fragmentId firstFlags : Nat) (first : Sample) (samples : List Sample)
    (h2 : trackId < 2 ^ 32) (h3 : fragmentId < 2 ^ 32) (h4 : firstFlags < 2 ^ 32)
    (hsize : ((first :: samples).map fun s => s.body.length + 28).sum + 233 < 2 ^ 31) (gs gt : Nat) (before : List UInt8)
    (hdur : ((first :: samples).map (·.duration)).sum < 2 ^ 32) (hc : first.composition < 2 ^ 63) (hd : first.decoding < 2 ^ 63)
    (hpos : first.decoding ≤ base + first.composition) (hfit : base + first.composition - first.decoding < 2 ^ 32) :
    ∃ seg s, ((Frag.make ts E 10000000 (some base) enc trackId fragmentId firstFlags (first :: samples)).finish gs gt ⟨before, before.length, []⟩).bytes = before ++ seg ∧
      Spec.segment seg = some s ∧
      s.index.trackId = trackId ∧ s.index.timescale = 10000000 ∧ s.index.earliest = base + first.composition - first.decoding ∧
      s.index.firstOffset = 0 ∧ s.index.refType = 0 ∧ s.index.refSize = s.anchored ∧ s.index.duration = ((first :: samples).map (·.duration)).sum ∧
      s.index.startsWithSap = true := by
  obtain ⟨seg, s, g1, g2, g3⟩ := index_eq ts E hE base enc henc trackId fragmentId firstFlags first samples h2 h3 h4 hsize gs gt before
  refine ⟨seg, s, g1, g2, ?_⟩
  rw [g3]
  have hsum : ((first :: samples).map fun x => x.duration % 2 ^ 32) = (first :: samples).map (·.duration) := by
    apply List.map_congr_left
    intro x hx
    exact Nat.mod_eq_of_lt (Nat.lt_of_le_of_lt (sum_map_le (first :: samples) (·.duration) x hx) hdur)
  refine ⟨rfl, rfl, ?_, rfl, rfl, rfl, ?_, rfl⟩
  · simp only; omega
  · simp only [hsum]
    rw [Nat.mod_eq_of_lt (Nat.lt_trans hdur (by decide)), Nat.mod_eq_of_lt hdur]

/-- C66 fails for every later fragment: when the first sample is presented at 2^32 ticks (429.4967296 s) or later, the index announces another time. -/
theorem segment_index_late_witness (ts : Nat → Nat) (E : List UInt8 → List UInt8) (hE : ∀ b, (E b).length = 16) (base : Nat)
    (enc : Option (Bool × List UInt8)) (henc : ∀ x, enc = some x → x.2.length = 8) (trackId fragmentId firstFlags : Nat) (first : Sample) (samples : List Sample)
    (h2 : trackId < 2 ^ 32) (h3 : fragmentId < 2 ^ 32) (h4 : firstFlags < 2 ^ 32)
    (hsize : ((first :: samples).map fun s => s.body.length + 28).sum + 233 < 2 ^ 31) (gs gt : Nat) (before : List UInt8)
    (hlate : 2 ^ 32 ≤ base + first.composition - first.decoding) :
    ∃ seg s, ((Frag.make ts E 10000000 (some base) enc trackId fragmentId firstFlags (first :: samples)).finish gs gt ⟨before, before.length, []⟩).bytes = before ++ seg ∧
      Spec.segment seg = some s ∧ s.index.earliest ≠ base + first.composition - first.decoding := by
  obtain ⟨seg, s, g1, g2, g3⟩ := index_eq ts E hE base enc henc trackId fragmentId firstFlags first samples h2 h3 h4 hsize gs gt before
  refine ⟨seg, s, g1, g2, ?_⟩
  rw [g3]
  simp only; omega

/-- A block cipher to try things with. -/
def toyCipher (b : List UInt8) : List UInt8 := (b.map (· + 3)).take 16 ++ List.replicate (16 - b.length) 7

theorem toyCipher_length (b : List UInt8) : (toyCipher b).length = 16 := by simp [toyCipher]; omega

def twoSamples : List Sample := [⟨List.replicate 150 9, 100, 0, 400⟩, ⟨[1, 2, 3], 400, 800, 400⟩]

/-- An encrypted fragment of two samples (one presented before it is decoded) and one without encryption satisfy the hypotheses of `fragment_read_back`. -/
example (before : List UInt8) : ∃ seg s, (Frag.make id toyCipher 10000000 (some 5000000000) (some (true, [1, 2, 3, 4, 5, 6, 7, 255])) 2 7 0xa600000 twoSamples).finish 4 5
    ⟨before, before.length, []⟩ = ⟨before ++ seg, (before ++ seg).length, []⟩ ∧ Spec.segment seg = some s ∧ s.base = some 5000000000 ∧
    s.runs = [⟨some 400, some 150, some 100⟩, ⟨some 400, some 3, some (-400)⟩] := by
  obtain ⟨seg, s, h1, h2, _, _, h3, _, h4, _⟩ := fragment_read_back id toyCipher toyCipher_length 10000000 (some 5000000000) (some (true, [1, 2, 3, 4, 5, 6, 7, 255]))
    (by simp) 2 7 0xa600000 twoSamples (by decide) (by decide) (by decide) (by decide) (by simp [scaled])
    (by simp [twoSamples]) 4 5 before []
  refine ⟨seg, s, h1, h2, h3, h4.trans ?_⟩
  simp [twoSamples, scaled, Spec.signed32]

example : ∃ seg s, ((Frag.make id toyCipher 10000000 (some 3000000000) none 2 7 0 twoSamples).finish 4 5 ⟨[], 0, []⟩).bytes = [] ++ seg ∧
    Spec.segment seg = some s ∧ s.index.earliest = 3000000100 := by
  obtain ⟨seg, s, h1, h2, _, _, h3, _⟩ := segment_index_partial id toyCipher toyCipher_length 3000000000 none (by simp) 2 7 0 ⟨List.replicate 150 9, 100, 0, 400⟩
    [⟨[1, 2, 3], 400, 800, 400⟩] (by decide) (by decide) (by decide) (by simp) 4 5 [] (by simp) (by simp) (by simp) (by simp) (by simp)
  exact ⟨seg, s, h1, h2, h3⟩

end Verif.Fragment
