import Verif.Edit.Loop
import Verif.Dynamic.PropsFiles
/-
C110, C111: what the muxer is given when files are joined.
-/
namespace Verif.Edit
open Verif.Reader (Track Sample Reader next move moveStreams readAll remaining defaultStream)
open Verif.Reader.Spec (FileHolds Holds Inside pres)
open Spec (kept before bytesOf Part Sound Decodable FirstEarliest Moved EndsAt Follows Chain Good Input)

theorem joinAll_spec (cs ds : List (Int × Int)) : ∀ (ps : List Place) (ns : List (Nat × Nat)) (i : Nat) (js : List Join), joinAll cs ds i ps ns = some js → ps.length = ns.length →
    js.length = ps.length ∧ ∀ (k : Nat) p n, ps[k]? = some p → ns[k]? = some n →
      ∃ c d, Dynamic.joinTime cs (i + k) = some c ∧ Dynamic.joinTime ds (i + k) = some d ∧ js[k]? = some ⟨u64 c, u64 d, n.1, n.2, p.lastDec⟩ := by
  intro ps
  induction ps with
  | nil =>
    intro ns i js h hl
    simp only [joinAll, Option.some.injEq] at h
    rw [← h]
    exact ⟨rfl, by intro k p n hp; simp at hp⟩
  | cons p ps ih =>
    intro ns i js h hl
    cases ns with
    | nil => simp at hl
    | cons n ns =>
      rw [joinAll] at h
      split at h
      · rename_i c d js' hc hd hj
        simp only [Option.some.injEq] at h
        obtain ⟨g1, g2⟩ := ih ns (i + 1) js' hj (by simpa using hl)
        rw [← h]
        refine ⟨by simp [g1], ?_⟩
        intro k p' n' hp hn
        cases k with
        | zero =>
          simp only [List.getElem?_cons_zero, Option.some.injEq] at hp hn
          exact ⟨c, d, hc, hd, by rw [← hp, ← hn]; rfl⟩
        | succ k =>
          simp only [List.getElem?_cons_succ] at hp hn
          obtain ⟨c', d', h1, h2, h3⟩ := g2 k p' n' hp hn
          exact ⟨c', d', by rw [← h1]; congr 1; omega, by rw [← h2]; congr 1; omega, by simpa using h3⟩
      · simp at h

theorem check_length (info : Info) (ss : List Stream) (h : check info ss = some ()) (hw : info.places.length = info.videos.length + info.audios.length) : info.places.length ≤ ss.length := by
  rw [check] at h
  split at h
  · simp at h
  · rename_i hp
    have : parsable ss ≤ ss.length := List.length_filter_le _ _
    omega

/-- The places a new file starts from. -/
def placesOf (info : Info) : List Place := if info.fileCount = 0 then info.places.map fun p => { p with comp := 0, dur := 0, dec := 0 } else info.places

theorem placesOf_length (info : Info) : (placesOf info).length = info.places.length := by
  rw [placesOf]; split <;> simp

/-- Everything `do_edit_mux` does, stream by stream. -/
theorem doEdit_spec (info info' : Info) (f : File) (xss : List (List Sample)) (start stop : Nat) (discard : Bool) (out : List Added)
    (h : doEdit info f start stop discard = some (out, info')) (sd : Sound f xss) (hstop : stop = 0 ∨ Decodable xss)
    (hw : info.places.length = info.videos.length + info.audios.length) (h16 : info.places.length ≤ 16) :
    ∃ (ns : List (Nat × Nat)) (js : List Join),
      check info f.streams = some () ∧ ns.length = info.places.length ∧ js.length = info.places.length ∧
      joinAll (compPairs (placesOf info) ns) (decPairs (placesOf info) ns) 0 (placesOf info) ns = some js ∧
      (∀ a ∈ out, a.stream < info.places.length) ∧
      info'.videos = info.videos ∧ info'.audios = info.audios ∧ info'.fileCount = info.fileCount + 1 ∧ info'.places.length = info.places.length ∧
      ∀ i, i < info.places.length → ∃ t st j xs, Part f xss start discard i t xs ∧ f.streams[i]? = some st ∧ js[i]? = some j ∧
        (∀ t' xs', Part f xss start discard i t' xs' → t' = t ∧ xs' = xs) ∧ (∃ p, f.reader.streams[i]? = some (t, p)) ∧
        Spec.ofStream out i = (before stop t xs).map (mk f i j t) ∧
        (FirstEarliest t xs → ∃ x, xs.head? = some x ∧ ns[i]? = some (pres t x, x.decoding)) ∧
        info'.places[i]? = some ⟨((before stop t xs).foldl (fun e x => updateEnd e (compOf j t x) (durOf st x)) (0, 0)).1,
          ((before stop t xs).foldl (fun e x => updateEnd e (compOf j t x) (durOf st x)) (0, 0)).2,
          (before stop t xs).foldl (fun _ x => decOf j t x) j.lastDec, (before stop t xs).foldl (fun _ x => decOf j t x) j.lastDec⟩ := by
  rw [doEdit] at h
  simp only [Option.bind_eq_bind] at h
  obtain ⟨⟨⟩, hc, h⟩ := Option.bind_eq_some_iff.mp h
  obtain ⟨r, hm, h⟩ := Option.bind_eq_some_iff.mp h
  obtain ⟨ns0, hns, h⟩ := Option.bind_eq_some_iff.mp h
  obtain ⟨js, hjs, h⟩ := Option.bind_eq_some_iff.mp h
  obtain ⟨⟨o, js', ends'⟩, hmux, h⟩ := Option.bind_eq_some_iff.mp h
  simp only [Option.some.injEq, Prod.mk.injEq] at h
  obtain ⟨rfl, rfl⟩ := h
  obtain ⟨l, hl1, hl2, hl3⟩ := read_after_move f xss sd start _ r hm
  rw [lookHead_eq _ _ _ _ _ _ hl1] at hns
  rw [muxLoop_eq _ _ _ _ _ _ _ hl1] at hmux
  obtain ⟨a1, a2, a3⟩ := lookList_spec _ _ _ _ _ _ _ hns
  rw [List.length_replicate] at a1
  have hnl : (ns0.map (·.getD (0, 0))).length = info.places.length := by rw [List.length_map, a1]
  have hpl := placesOf_length info
  have hjs' : joinAll (compPairs (placesOf info) (ns0.map (·.getD (0, 0)))) (decPairs (placesOf info) (ns0.map (·.getD (0, 0)))) 0 (placesOf info) (ns0.map (·.getD (0, 0))) = some js := hjs
  obtain ⟨hjl, _⟩ := joinAll_spec _ _ _ _ _ _ hjs' (by rw [hpl, hnl])
  rw [hpl] at hjl
  have hn := check_length info f.streams hc hw
  have hfl := sd.holds.length_eq
  have honly : ∀ i, ∀ x ∈ only l i, ∃ all p, xss[i]? = some all ∧ x ∈ all.drop p ∧ only l i = all.drop p := by
    intro i x hx
    have hi : i < xss.length := by
      rw [only, Reader.Spec.ofStream] at hx
      obtain ⟨q, hq, _⟩ := List.mem_map.mp hx
      obtain ⟨hq, he⟩ := List.mem_filter.mp hq
      have := hl2 q hq
      simp only [decide_eq_true_eq] at he
      omega
    have hi2 : i < f.reader.streams.length := by omega
    obtain ⟨p, all, _, h2, h3⟩ := hl3 i f.reader.streams[i].1 (by rw [trackOf, List.getElem?_eq_getElem hi2]; rfl)
    exact ⟨all, p, h2, by rw [← h3]; exact hx, h3⟩
  obtain ⟨b1, b2, b3, b4⟩ := muxList_spec f start stop discard l _ _ _ _ _ _ hmux
    (by
      intro h0 i
      have hd : Decodable xss := by
        rcases hstop with h | h
        · omega
        · exact h
      cases hol : only l i with
      | nil => exact ⟨List.Pairwise.nil, by simp⟩
      | cons x xs =>
        obtain ⟨all, p, h1, _, h3⟩ := honly i x (by rw [hol]; simp)
        rw [← hol, h3]
        obtain ⟨d1, d2⟩ := hd all (List.mem_of_getElem? h1)
        exact ⟨d1.sublist (List.drop_sublist _ _), fun y hy => d2 y (List.mem_of_mem_drop hy)⟩)
    (by
      intro _ i hf
      rw [List.getElem?_replicate] at hf
      split at hf <;> simp at hf)
    (by intro q hq; rw [List.length_replicate, sd.streams, hfl]; exact hl2 q hq)
    (by
      intro _
      have : 0 < f.streams.length := by
        rw [sd.streams]
        rw [move] at hm
        split at hm
        · simp at hm
        · rename_i hd
          have := (List.getElem?_eq_some_iff.mp hd).1
          omega
      rw [List.any_eq_true]
      exact ⟨true, by rw [List.mem_replicate]; exact ⟨by omega, rfl⟩, rfl⟩)
  rw [hjl] at b1 b2
  have hzl : (close js' ends').length = info.places.length := by
    rw [close, List.length_zipWith, b2, b3, List.length_replicate, maxStreams]; omega
  refine ⟨ns0.map (·.getD (0, 0)), js, hc, hnl, hjl, hjs', b1, rfl, rfl, rfl, hzl, ?_⟩
  intro i hi
  have hi2 : i < f.reader.streams.length := by rw [← sd.streams]; omega
  have hget : f.reader.streams[i]? = some (f.reader.streams[i].1, f.reader.streams[i].2) := List.getElem?_eq_getElem hi2
  have htr : trackOf f i = some f.reader.streams[i].1 := by rw [trackOf, hget]; rfl
  obtain ⟨p, all, h1, h2, h3⟩ := hl3 i _ htr
  have hj : js[i]? = some js[i] := List.getElem?_eq_getElem (by omega)
  have hst : f.streams[i]? = some f.streams[i] := List.getElem?_eq_getElem (by omega)
  obtain ⟨d1, d2, d3⟩ := b4 i _ _ htr hj
  have he : (List.replicate maxStreams ((0, 0) : Nat × Nat))[i]? = some (0, 0) := by
    rw [List.getElem?_replicate, if_pos (by rw [maxStreams]; omega)]
  refine ⟨f.reader.streams[i].1, f.streams[i], js[i], kept start discard f.reader.streams[i].1 (all.drop p), ⟨r, p, all, hm, h1, h2, rfl⟩, hst, hj, ?_, ⟨_, hget⟩, ?_, ?_, ?_⟩
  · intro t' xs' hp
    obtain ⟨r', p', all', q1, q2, q3, q4⟩ := hp
    rw [hm] at q1
    have e1 := Option.some.inj q1
    rw [← e1, h1] at q2
    have e2 := Option.some.inj q2
    simp only [Prod.mk.injEq] at e2
    rw [h2] at q3
    have e3 := Option.some.inj q3
    exact ⟨e2.1.symm, by rw [q4, ← e2.1, ← e2.2, ← e3]⟩
  · rw [d1, h3]
  · intro hfe
    obtain ⟨_, k2⟩ := a3 i _ htr
    rw [h3] at k2
    obtain ⟨x, x1, x2⟩ := k2 (by rw [List.getElem?_replicate, if_pos hi]) hfe
    refine ⟨x, x1, ?_⟩
    rw [List.getElem?_map, x2]; rfl
  · have e1 := d2 _ _ he hst
    rw [h3] at e1 d3
    show (close js' ends')[i]? = _
    rw [close, List.getElem?_zipWith, d3, e1]

/-- C110. Whatever files are joined and whatever range is cut out of them: what the muxer is given for a stream are exactly the samples from the position of the start on that are presented in the range, in
their order, with their bytes, their sync flag and their duration; nothing is given to a stream that does not exist. -/
theorem samples_of_part (info info' : Info) (f : File) (xss : List (List Sample)) (start stop : Nat) (discard : Bool) (out : List Added)
    (h : doEdit info f start stop discard = some (out, info')) (sd : Sound f xss) (hstop : stop = 0 ∨ Decodable xss)
    (hw : info.places.length = info.videos.length + info.audios.length) (h16 : info.places.length ≤ 16) :
    (∀ a ∈ out, a.stream < info.places.length) ∧
    ∀ i, i < info.places.length → ∃ t xs, Part f xss start discard i t xs ∧
      (Spec.ofStream out i).map (fun a => (a.body, a.sync, a.dur)) = (before stop t xs).map (fun x => (bytesOf f x, x.sync, x.duration)) := by
  obtain ⟨ns, js, _, _, _, _, h1, _, _, _, _, h2⟩ := doEdit_spec info info' f xss start stop discard out h sd hstop hw h16
  refine ⟨h1, ?_⟩
  intro i hi
  obtain ⟨t, st, j, xs, p1, _, _, _, _, p2, _⟩ := h2 i hi
  refine ⟨t, xs, p1, ?_⟩
  rw [p2, List.map_map]
  rfl

/-! ### times -/

theorem u64_nonneg (x : Int) (h : 0 ≤ x) : ((u64 x : Nat) : Int) = x := by
  rw [u64, if_neg (by omega)]; omega

/-- The end kept by the loop. -/
theorem fold_end (c d : Sample → Nat) : ∀ (ys : List Sample) (e : Nat × Nat),
    (ys.foldl (fun e x => updateEnd e (c x) (d x)) e = e ∧ ∀ y ∈ ys, c y ≤ e.1) ∨
    ∃ y ∈ ys, ys.foldl (fun e x => updateEnd e (c x) (d x)) e = (c y, d y) ∧ e.1 < c y ∧ ∀ z ∈ ys, c z ≤ c y := by
  intro ys
  induction ys with
  | nil => intro e; exact Or.inl ⟨rfl, by simp⟩
  | cons y ys ih =>
    intro e
    rw [List.foldl_cons]
    by_cases hy : e.1 < c y
    · have hu : updateEnd e (c y) (d y) = (c y, d y) := by rw [updateEnd, if_pos hy]
      rw [hu]
      rcases ih (c y, d y) with ⟨h1, h2⟩ | ⟨z, hz, h1, h2, h3⟩
      · refine Or.inr ⟨y, by simp, h1, hy, ?_⟩
        intro z hz
        rcases List.mem_cons.mp hz with rfl | hz
        · exact Nat.le_refl _
        · exact h2 z hz
      · simp only at h2
        refine Or.inr ⟨z, by simp [hz], h1, by omega, ?_⟩
        intro w hw
        rcases List.mem_cons.mp hw with rfl | hw
        · omega
        · exact h3 w hw
    · have hu : updateEnd e (c y) (d y) = e := by rw [updateEnd, if_neg hy]
      rw [hu]
      rcases ih e with ⟨h1, h2⟩ | ⟨z, hz, h1, h2, h3⟩
      · refine Or.inl ⟨h1, ?_⟩
        intro z hz
        rcases List.mem_cons.mp hz with rfl | hz
        · omega
        · exact h2 z hz
      · refine Or.inr ⟨z, by simp [hz], h1, h2, ?_⟩
        intro w hw
        rcases List.mem_cons.mp hw with rfl | hw
        · omega
        · exact h3 w hw

theorem fold_last (d : Sample → Nat) : ∀ (ys : List Sample) (e : Nat), ys ≠ [] → some (ys.foldl (fun _ x => d x) e) = (ys.getLast?).map d := by
  intro ys
  induction ys with
  | nil => intro e h; exact absurd rfl h
  | cons y ys ih =>
    intro e _
    cases ys with
    | nil => rfl
    | cons z zs =>
      rw [List.foldl_cons, ih (d y) (by simp), List.getLast?_cons_cons]

theorem getElem?_compPairs (ps : List Place) (ns : List (Nat × Nat)) (i : Nat) (p : Place) (n : Nat × Nat) (h1 : ps[i]? = some p) (h2 : ns[i]? = some n) :
    (compPairs ps ns)[i]? = some ((n.1 : Int), ((p.comp + p.dur : Nat) : Int)) := by rw [compPairs, List.getElem?_zipWith, h1, h2]

theorem getElem?_decPairs (ps : List Place) (ns : List (Nat × Nat)) (i : Nat) (p : Place) (n : Nat × Nat) (h1 : ps[i]? = some p) (h2 : ns[i]? = some n) :
    (decPairs ps ns)[i]? = some ((n.2 : Int), ((p.dec + p.dur : Nat) : Int)) := by rw [decPairs, List.getElem?_zipWith, h1, h2]

/-- Where a part ends, as the code keeps it. -/
def endOf (p : Place) : Nat × Nat := (p.comp + p.dur, p.dec)

theorem forall₂_map {α β : Type} (R : α → β → Prop) (g : α → β) : ∀ (l : List α), (∀ x ∈ l, R x (g x)) → List.Forall₂ R l (l.map g) := by
  intro l
  induction l with
  | nil => intro _; exact .nil
  | cons a l ih => intro h; exact .cons (h a (by simp)) (ih fun x hx => h x (by simp [hx]))

theorem forall₂_mem_right {α β : Type} (R : α → β → Prop) (l : List α) (m : List β) (h : List.Forall₂ R l m) : ∀ b ∈ m, ∃ a ∈ l, R a b := by
  induction h with
  | nil => intro b hb; simp at hb
  | cons h1 _ ih =>
    intro b hb
    rcases List.mem_cons.mp hb with rfl | hb
    · exact ⟨_, by simp, h1⟩
    · obtain ⟨y, hy, h⟩ := ih b hb
      exact ⟨y, by simp [hy], h⟩

/-- One file. -/
theorem follows_one (info info' : Info) (inp : Input) (discard : Bool) (out : List Added)
    (h : doEdit info inp.file inp.start inp.stop discard = some (out, info')) (hg : Good info.places.length discard inp)
    (hw : info.places.length = info.videos.length + info.audios.length) (h16 : info.places.length ≤ 16) :
    Follows ((placesOf info).map endOf) inp.file inp.xss inp.start inp.stop discard out ∧
    info'.places.length = info.places.length ∧ info'.videos = info.videos ∧ info'.audios = info.audios ∧ info'.fileCount = info.fileCount + 1 ∧
    ∀ (i : Nat) e st, (info'.places.map endOf)[i]? = some e → inp.file.streams[i]? = some st →
      EndsAt st.avg (Spec.ofStream out i) e.1 ∧ ((Spec.ofStream out i).getLast?).map (·.dec) = some e.2 := by
  obtain ⟨ns, js, hc, hnl, hjl, hja, hout, hv, ha, hfc, hpl, hst⟩ :=
    doEdit_spec info info' inp.file inp.xss inp.start inp.stop discard out h hg.sound (Or.inr hg.decodable) hw h16
  have hpo := placesOf_length info
  obtain ⟨_, hjoin⟩ := joinAll_spec _ _ _ _ _ _ hja (by rw [hpo, hnl])
  by_cases hn0 : info.places.length = 0
  · -- no stream at all: the search cannot end
    exfalso
    rw [doEdit] at h
    simp only [Option.bind_eq_bind] at h
    obtain ⟨⟨⟩, _, h⟩ := Option.bind_eq_some_iff.mp h
    obtain ⟨r, _, h⟩ := Option.bind_eq_some_iff.mp h
    obtain ⟨ns0, hns, h⟩ := Option.bind_eq_some_iff.mp h
    obtain ⟨l, hl1, _, _⟩ := read_after_move inp.file inp.xss hg.sound inp.start _ r (by assumption)
    rw [lookHead_eq _ _ _ _ _ _ hl1] at hns
    rw [hn0] at hns
    have : ∀ l look ns', lookList inp.file inp.start discard l look (List.replicate 0 none) ≠ some ns' := by
      intro l
      induction l with
      | nil => intro look ns' h; simp [lookList] at h
      | cons q l ih =>
        intro look ns' h
        obtain ⟨s, x⟩ := q
        rw [lookList] at h
        split at h
        · simp at h
        · split at h
          · split at h
            · simp at h
            · exact ih _ _ h
          · simp at h
    exact this _ _ _ hns
  have hcl : (compPairs (placesOf info) ns).length = info.places.length := by rw [compPairs, List.length_zipWith, hpo, hnl]; omega
  have hdl : (decPairs (placesOf info) ns).length = info.places.length := by rw [decPairs, List.length_zipWith, hpo, hnl]; omega
  obtain ⟨k, c1, c2, c3⟩ := Dynamic.join_in_sync (compPairs (placesOf info) ns) (by intro e; rw [e] at hcl; simp at hcl; omega)
  obtain ⟨k', d1, d2, d3⟩ := Dynamic.join_in_sync (decPairs (placesOf info) ns) (by intro e; rw [e] at hdl; simp at hdl; omega)
  -- stream by stream
  have key : ∀ i, i < info.places.length → ∃ t st xs x p, Part inp.file inp.xss inp.start discard i t xs ∧ inp.file.streams[i]? = some st ∧ (∃ p, inp.file.reader.streams[i]? = some (t, p)) ∧
      (∀ t' xs', Part inp.file inp.xss inp.start discard i t' xs' → t' = t ∧ xs' = xs) ∧ xs.head? = some x ∧ (placesOf info)[i]? = some p ∧
      ns[i]? = some (pres t x, x.decoding) ∧
      ((p.comp + p.dur : Nat) : Int) ≤ pres t x + k ∧ ((p.dec + p.dur : Nat) : Int) ≤ x.decoding + k' ∧
      List.Forall₂ (Moved inp.file i t k k') (before inp.stop t xs) (Spec.ofStream out i) ∧
      ∃ e, (info'.places.map endOf)[i]? = some e ∧ EndsAt st.avg (Spec.ofStream out i) e.1 ∧ ((Spec.ofStream out i).getLast?).map (·.dec) = some e.2 := by
    intro i hi
    obtain ⟨t, st, j, xs, hp, hst, hj, huniq, htr, hof, hns, hpl'⟩ := hst i hi
    obtain ⟨hfe, x1, hx1, x2, hx2, hlt⟩ := hg.parts i t xs hi hp
    obtain ⟨x, hx, hnsi⟩ := hns hfe
    have hpi : (placesOf info)[i]? = some (placesOf info)[i] := List.getElem?_eq_getElem (by omega)
    have hp1 := getElem?_compPairs _ _ _ _ _ hpi hnsi
    have hp2 := getElem?_decPairs _ _ _ _ _ hpi hnsi
    obtain ⟨c, d, e1, e2, e3⟩ := hjoin i _ _ hpi hnsi
    rw [Nat.zero_add, c1 _ _ hp1] at e1
    rw [Nat.zero_add, d1 _ _ hp2] at e2
    have hle1 := c2 _ (List.mem_of_getElem? hp1)
    have hle2 := d2 _ (List.mem_of_getElem? hp2)
    simp only at hle1 hle2
    rw [hj] at e3
    have hjj := Option.some.inj e3
    rw [← Option.some.inj e1, ← Option.some.inj e2] at hjj
    simp only at hjj
    have hu1 := u64_nonneg ((pres t x : Int) + k) (by omega)
    have hu2 := u64_nonneg ((x.decoding : Int) + k') (by omega)
    have hcomp : ∀ y ∈ xs, ((compOf j t y : Nat) : Int) = pres t y + k := by
      intro y hy
      have hy2 := hfe x hx y hy
      rw [compOf, hjj]
      simp only [presented_eq]
      rw [hu1, u64_nonneg _ (by omega)]
      omega
    have hsorted : ∀ y ∈ xs, x.decoding ≤ y.decoding := by
      intro y hy
      obtain ⟨r, p, all, _, _, q3, q4⟩ := hp
      have hs := (hg.decodable all (List.mem_of_getElem? q3)).1
      have hs2 : xs.Pairwise (fun x y => x.decoding ≤ y.decoding) := by
        rw [q4, kept]
        exact (hs.sublist (List.drop_sublist _ _)).sublist List.filter_sublist
      cases xs with
      | nil => simp at hx
      | cons z zs =>
        have : z = x := by simpa using hx
        subst this
        rcases List.mem_cons.mp hy with rfl | hy
        · exact Nat.le_refl _
        · exact (List.pairwise_cons.mp hs2).1 y hy
    have hsub : ∀ y ∈ before inp.stop t xs, y ∈ xs := fun y hy => List.mem_of_mem_filter hy
    have hdec : ∀ y ∈ xs, ((decOf j t y : Nat) : Int) = if t.hasCtts then ((y.decoding + t.offset : Nat) : Int) + k' else pres t y + k := by
      intro y hy
      have hy2 := hsorted y hy
      rw [decOf]
      by_cases hct : t.hasCtts = true
      · rw [if_pos hct, if_pos hct, hjj]
        simp only
        rw [hu2, u64_nonneg _ (by omega)]
        omega
      · rw [if_neg hct, if_neg hct]
        exact hcomp y hy
    refine ⟨t, st, xs, x, _, hp, hst, htr, huniq, hx, hpi, hnsi, hle1, hle2, ?_, ?_⟩
    · rw [hof]
      refine forall₂_map _ _ _ ?_
      intro y hy
      exact ⟨rfl, rfl, rfl, rfl, hcomp y (hsub y hy), hdec y (hsub y hy)⟩
    · refine ⟨_, by rw [List.getElem?_map, hpl']; rfl, ?_, ?_⟩
      · rw [hof]
        have hx1c := hcomp x1 (hsub x1 hx1)
        have hx2c := hcomp x2 (hsub x2 hx2)
        rcases fold_end (fun y => compOf j t y) (fun y => durOf st y) (before inp.stop t xs) (0, 0) with ⟨_, hall⟩ | ⟨y, hy, hf, _, hmax⟩
        · have := hall x2 hx2
          simp only at this
          omega
        · simp only [endOf]
          rw [hf]
          refine ⟨mk inp.file i j t y, List.mem_map_of_mem hy, ?_, rfl⟩
          intro b hb
          obtain ⟨z, hz, rfl⟩ := List.mem_map.mp hb
          exact hmax z hz
      · simp only [endOf]
        rw [hof, fold_last (fun y => decOf j t y) (before inp.stop t xs) j.lastDec (by intro e; rw [e] at hx1; simp at hx1), List.getLast?_map, Option.map_map]
        rfl
  refine ⟨⟨k, k', ?_, ?_, ?_, ?_⟩, hpl, hv, ha, hfc, ?_⟩
  · intro i t xs hi hp
    rw [List.length_map, hpo] at hi
    obtain ⟨t', st, xs', x, p, _, _, _, hu, _, _, _, _, _, hf, _⟩ := key i hi
    obtain ⟨rfl, rfl⟩ := hu t xs hp
    exact hf
  · intro i e he a ham
    rw [List.getElem?_map] at he
    obtain ⟨p, hpp, rfl⟩ := Option.map_eq_some_iff.mp he
    have hi : i < info.places.length := by rw [← hpo]; exact (List.getElem?_eq_some_iff.mp hpp).1
    obtain ⟨t, st, xs, x, p', hpart, _, ⟨q, htr⟩, hu, hx, hpi, _, hl1, hl2, hf, _⟩ := key i hi
    rw [hpp] at hpi
    rw [← Option.some.inj hpi] at hl1 hl2
    obtain ⟨hfe, _⟩ := hg.parts i t xs hi hpart
    obtain ⟨y, hy, hm⟩ : ∃ y ∈ before inp.stop t xs, Moved inp.file i t k k' y a := by
      exact forall₂_mem_right _ _ _ hf a ham
    have hyx : y ∈ xs := List.mem_of_mem_filter hy
    obtain ⟨_, _, _, _, hm1, hm2⟩ := hm
    have := hfe x hx y hyx
    refine ⟨by simp only [endOf]; omega, ?_⟩
    intro t' p' ht' hct
    rw [htr] at ht'
    have : t' = t := by have := Option.some.inj ht'; simp only [Prod.mk.injEq] at this; exact this.1.symm
    subst this
    rw [if_pos hct] at hm2
    have hsd : x.decoding ≤ y.decoding := by
      obtain ⟨r, p, all, _, _, q3, q4⟩ := hpart
      have hs := (hg.decodable all (List.mem_of_getElem? q3)).1
      have hs2 : xs.Pairwise (fun x y => x.decoding ≤ y.decoding) := by
        rw [q4, kept]
        exact (hs.sublist (List.drop_sublist _ _)).sublist List.filter_sublist
      cases xs with
      | nil => simp at hx
      | cons z zs =>
        have : z = x := by simpa using hx
        subst this
        rcases List.mem_cons.mp hyx with rfl | hy
        · exact Nat.le_refl _
        · exact (List.pairwise_cons.mp hs2).1 y hy
    simp only [endOf]
    omega
  · obtain ⟨s, hs, he⟩ := c3
    obtain ⟨i, hi, hget⟩ := List.getElem_of_mem hs
    have hil : i < info.places.length := by omega
    obtain ⟨t, st, xs, x, p, hpart, _, _, _, hx, hpi, hnsi, _⟩ := key i hil
    refine ⟨i, endOf p, t, xs, x, by rw [List.getElem?_map, hpi]; rfl, hpart, hx, ?_⟩
    have hp1 := getElem?_compPairs _ _ _ _ _ hpi hnsi
    rw [List.getElem?_eq_getElem hi, hget] at hp1
    have := Option.some.inj hp1
    rw [this] at he
    simp only at he
    simp only [endOf]
    omega
  · intro a ham
    rw [List.length_map, hpo]
    exact hout a ham
  · intro i e st he hst
    have hi : i < info.places.length := by
      have := (List.getElem?_eq_some_iff.mp he).1
      rw [List.length_map, hpl] at this; exact this
    obtain ⟨t, st', xs, x, p, _, hst', _, _, _, _, _, _, _, _, e', he', g1, g2⟩ := key i hi
    rw [hst'] at hst
    rw [he'] at he
    rw [← Option.some.inj hst, ← Option.some.inj he]
    exact ⟨g1, g2⟩

theorem header_length : ∀ (ss : List Stream) (id : Nat), (header id ss).1.length + (header id ss).2.length = parsable ss := by
  intro ss
  induction ss with
  | nil => intro id; rfl
  | cons s ss ih =>
    intro id
    rw [header, parsable, List.filter_cons]
    cases hv : s.valid with
    | false => simp only [Bool.not_false, if_true, Bool.false_eq_true, if_false]; exact ih id
    | true =>
      simp only [Bool.not_true, Bool.false_eq_true, if_false, if_true]
      have := ih (id + 1)
      rw [parsable] at this
      cases s.video <;> simp <;> omega

theorem chain_from (discard : Bool) : ∀ (ins : List Input) (info : Info) (outs : List (List Added)),
    info.places.length = info.videos.length + info.audios.length → info.places.length ≤ 16 → (∀ inp ∈ ins, Good info.places.length discard inp) →
    addAll discard (some info) (ins.map fun i => (i.file, i.start, i.stop)) = some outs → Chain discard ((placesOf info).map endOf) ins outs := by
  intro ins
  induction ins with
  | nil =>
    intro info outs _ _ _ h
    simp only [List.map_nil, addAll, Option.some.injEq] at h
    rw [← h]; exact .nil
  | cons inp ins ih =>
    intro info outs hw h16 hg h
    rw [List.map_cons, addAll] at h
    split at h
    · simp at h
    · rename_i out info' hadd
      obtain ⟨outs', ho, rfl⟩ := Option.map_eq_some_iff.mp h
      have hdo : doEdit info inp.file inp.start inp.stop discard = some (out, info') := hadd
      obtain ⟨h1, h2, h3, h4, h5, h6⟩ := follows_one info info' inp discard out hdo (hg inp (by simp)) hw h16
      have hpl : placesOf info' = info'.places := by rw [placesOf, if_neg (by omega)]
      have := ih info' outs' (by rw [h2, h3, h4]; exact hw) (by rw [h2]; exact h16) (by rw [h2]; exact fun i hi => hg i (by simp [hi])) ho
      rw [hpl] at this
      exact .cons h1 (by rw [List.length_map, List.length_map, h2, placesOf_length]) h6 this

/-- C111. Whatever files are joined, and whatever ranges are cut out of them: every file follows the one before. All its streams move by the same amount; no stream begins before its part before has ended, and one
begins exactly there; decoding times do not go back. The first file begins at 0. (`n`: the number of streams; what is asked of the files is in `Good`.) -/
theorem files_follow_partial (discard : Bool) (ins : List Input) (outs : List (List Added)) (n : Nat) (hn : ∀ inp, ins.head? = some inp → n = (Spec.usable inp.file.streams).length) (h16 : n ≤ 16)
    (hg : ∀ inp ∈ ins, Good n discard inp) (h : addAll discard none (ins.map fun i => (i.file, i.start, i.stop)) = some outs) :
    Chain discard (List.replicate n (0, 0)) ins outs := by
  cases ins with
  | nil =>
    simp only [List.map_nil, addAll, Option.some.injEq] at h
    rw [← h]; exact .nil
  | cons inp ins =>
    have hnn := hn inp rfl
    have hlen : (open_ inp.file.streams).places.length = n := by
      simp only [open_, List.length_replicate]
      rw [header_length, hnn]; rfl
    have hlen2 : (open_ inp.file.streams).places.length = (open_ inp.file.streams).videos.length + (open_ inp.file.streams).audios.length := by
      simp only [open_, List.length_replicate]
    have h' : addAll discard (some (open_ inp.file.streams)) ((inp :: ins).map fun i => (i.file, i.start, i.stop)) = some outs := h
    have := chain_from discard (inp :: ins) (open_ inp.file.streams) outs hlen2 (by rw [hlen]; exact h16) (by rw [hlen]; exact hg) h'
    have he : (placesOf (open_ inp.file.streams)).map endOf = List.replicate n (0, 0) := by
      have hz : (open_ inp.file.streams).fileCount = 0 := rfl
      rw [placesOf, if_pos hz]
      simp only [open_, List.map_replicate]
      rw [header_length, hnn]
      rfl
    rw [he] at this
    exact this

end Verif.Edit
