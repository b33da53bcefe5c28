import Verif.Demux.PropsBridge
import Verif.Demux.PropsVideo
import Verif.Demux.PropsAdts
import Verif.Demux.PropsUnitsEx
import Verif.TsMux.PropsTables
/-
C102: samples multiplexed by the program into a transport stream and demultiplexed by the program are the same samples.
-/
namespace Verif.Demux
open Fields Spec
open TsMux (Sample Stream pesFor Env addSample basePid SampleOk Delivered)

/-- The PES packet made of the sample has a length field that is right: not in the gap of C19 (`pes_length_witness`). -/
def SizeOk (s : TsMux.State) (x : Sample) : Prop := ∀ u pcr, pesFor s x = some (u, pcr) → u.length ≤ 65541 ∨ 65554 ≤ u.length

/-- The stream id of the PES packets made for a stream: 0xE0 for video and 0xC0 for audio. -/
def sidOf : Stream → Nat
  | .h264 _ _ => 224
  | _ => 192

/-- The last elements of two lists related element by element are related. -/
theorem forall_last {α β : Type} {R : α → β → Prop} {l : List α} {m : List β} (h : List.Forall₂ R l m) :
    ∀ v, m.getLast? = some v → ∃ x, l.getLast? = some x ∧ R x v := by
  induction h with
  | nil => intro v hv; simp at hv
  | @cons a b l m hab hlm ih =>
    intro v hv
    cases hlm with
    | nil => simp at hv; subst hv; exact ⟨a, by simp, hab⟩
    | @cons a' b' l m h1 h2 =>
      rw [List.getLast?_cons_cons] at hv
      obtain ⟨x, hx, hr⟩ := ih v hv
      exact ⟨x, by rw [List.getLast?_cons_cons]; exact hx, hr⟩

theorem forall_mem {α β : Type} {R : α → β → Prop} {l : List α} {m : List β} (h : List.Forall₂ R l m) : ∀ v ∈ m, ∃ x ∈ l, R x v := by
  induction h with
  | nil => intro v hv; simp at hv
  | @cons a b l m hab hlm ih =>
    intro v hv
    rcases List.mem_cons.mp hv with rfl | hv
    · exact ⟨a, by simp, hab⟩
    · obtain ⟨x, hx, hr⟩ := ih v hv
      exact ⟨x, by simp [hx], hr⟩

theorem unit_of_sample (s : TsMux.State) (x : Sample) (st : Stream) (hst : s.streams[x.stream]? = some st) (hx : SampleOk s x) (hz : SizeOk s x)
    (u : List UInt8) (pcr : Option Nat) (hu : pesFor s x = some (u, pcr)) :
    UnitOk (sidOf st) u ∧ (u.length ≤ 65541 → unbounded u = false) := by
  obtain ⟨hc, hd, _⟩ := hx
  have hz := hz u pcr hu
  have e1 : (x.ct + s.presentationOffset) % 2 ^ 64 = x.ct + s.presentationOffset := Nat.mod_eq_of_lt (by omega)
  have e2 : (x.dt + s.decodingOffset) % 2 ^ 64 = x.dt + s.decodingOffset := Nat.mod_eq_of_lt (by omega)
  rw [pesFor, hst, Option.bind_some, e1, e2] at hu
  have main : ∀ (sid : Nat) (dts : Option Nat) (es : List UInt8), sid < 256 → sid ∉ noHeader → 0 < es.length →
      (∀ t, dts = some t → t < 2 ^ 62) →
      u = Pes.writePesHeader sid (some (x.ct + s.presentationOffset)) dts none es.length ++ es →
      UnitOk sid u ∧ (u.length ≤ 65541 → unbounded u = false) := by
    intro sid dts es h1 h2 h3 h4 he
    have hr := Pes.pes_read sid _ dts es h1 hc h4
    rw [← he] at hr
    have hl : u.length = 14 + (if dts.isSome then 5 else 0) + es.length := by rw [he, List.length_append, Pes.header_length]
    obtain ⟨g1, g2⟩ := pes_of_pes u _ hr h2
    have hb : (u.length ≤ 65541 → (Pes.closePes (Pes.setPtsDts (Pes.initPes sid) (some (x.ct + s.presentationOffset)) dts none) es.length).packetLength % 65536
        + 6 = u.length) ∧ (65554 ≤ u.length →
        (Pes.closePes (Pes.setPtsDts (Pes.initPes sid) (some (x.ct + s.presentationOffset)) dts none) es.length).packetLength % 65536 = 0) := by
      rw [hl]
      cases dts <;> simp only [Pes.closePes, Pes.setPtsDts, Pes.initPes, Option.isSome_none, Option.isSome_some, if_true, Bool.false_eq_true, if_false] <;>
        split <;> omega
    refine ⟨⟨g2, _, g1, rfl, ?_⟩, ?_⟩
    · rcases hz with h | h
      · exact .inr (hb.1 h)
      · exact .inl (hb.2 h)
    · intro h
      rw [unbounded, g1]
      have := hb.1 h
      simp only [Option.any_some, beq_eq_false_iff_ne]
      omega
  cases st with
  | empty => simp [TsMux.pesOf] at hu
  | h264 sps pps =>
    simp only [TsMux.pesOf, Option.some.injEq, Prod.mk.injEq] at hu
    refine main 224 (some _) _ (by omega) (by decide) ?_ (by intro t h; cases h; exact hd) hu.1.symm
    rw [TsMux.videoES, TsMux.nal9]
    split <;> simp [TsMux.startCode] <;> omega
  | aac a p =>
    simp only [TsMux.pesOf, Option.some.injEq, Prod.mk.injEq] at hu
    refine main 192 _ _ (by omega) (by decide) ?_ ?_ hu.1.symm
    · rw [List.length_append, TsMux.adtsHeader, pack_length _ 7 rfl]; omega
    · intro t ht
      split at ht <;> simp at ht
      omega

/-- What a receiver of the demultiplexer gets is the sample: its times at millisecond resolution as 33 bit numbers, its data in byte stream format
(video) or with an ADTS header (audio). -/
def ReadBack (st : Stream) (pOff dOff : Nat) (x : Sample) (d : Del) : Prop :=
  d.hdr.ptsFlag = 1 ∧ stampOf d.hdr.pts = Ts.Spec.clock90 (x.ct + pOff) ∧
    match st with
    | .h264 sps pps => d.hdr.dtsFlag = 1 ∧ stampOf d.hdr.dts = Ts.Spec.clock90 (x.dt + dOff) ∧
        ∀ nals, (∀ n ∈ nals, n.length < 2 ^ 32) → x.body = TsMux.Spec.lengthPrefixed nals →
          d.payload.drop d.pos = TsMux.Spec.byteStream (TsMux.Spec.accessUnit sps pps x.iframe nals)
    | .aac a pcr => (pcr = true → d.hdr.dtsFlag = 1 ∧ stampOf d.hdr.dts = Ts.Spec.clock90 (x.dt + dOff)) ∧ (pcr = false → d.hdr.dtsFlag ≠ 1) ∧
        d.payload.drop d.pos = TsMux.adtsHeader a x.body.length ++ x.body
    | .empty => False

theorem flag_some (f : Nat) (v : Nat) (w : Nat) (h : (if f = 1 then some v else none) = some w) : f = 1 ∧ v = w := by
  split at h
  · next hf => simp at h; exact ⟨hf, h⟩
  · simp at h

theorem readBack_of (st : Stream) (pOff dOff : Nat) (x : Sample) (u : List UInt8) (d : Del) (h1 : Delivered st pOff dOff x u) (h2 : Delivers d u)
    (sid : Nat) (h3 : UnitOk sid u) (hsid : sid ∉ noHeader) : ReadBack st pOff dOff x d := by
  obtain ⟨p, hp, hpts, hst⟩ := h1
  obtain ⟨q, hq, ha, hd⟩ := h2
  obtain ⟨_, q', hq', hid, _⟩ := h3
  have hpid : p.streamId ∉ noHeader := by
    cases st with
    | h264 sps pps => rw [hst.1]; decide
    | aac a pcr => rw [hst.1]; decide
    | empty => exact hst.elim
  have hpq : p = q := by
    have := (pes_of_pes u p hp hpid).1
    rw [hq] at this
    exact (Option.some.inj this).symm
  subst hpq
  obtain ⟨_, _, a3, a4⟩ := ha
  rw [hpts] at a3
  obtain ⟨f1, f2⟩ := flag_some _ _ _ a3
  refine ⟨f1, f2, ?_⟩
  cases st with
  | h264 sps pps =>
    obtain ⟨_, hdts, hb⟩ := hst
    rw [hdts] at a4
    obtain ⟨g1, g2⟩ := flag_some _ _ _ a4
    exact ⟨g1, g2, fun nals hn he => by rw [hd]; exact hb nals hn he⟩
  | aac a pcr =>
    obtain ⟨_, hdts, hb⟩ := hst
    rw [hdts] at a4
    refine ⟨?_, ?_, by rw [hd]; exact hb⟩
    · intro hp; subst hp; exact flag_some _ _ _ a4
    · intro hp; subst hp
      intro hf
      rw [if_pos hf] at a4
      simp at a4
  | empty => exact hst

/-- C102: samples are added to a mux in whatever interleaving; the file it writes is read by the program's demultiplexer. On the pid of each stream the
receiver then gets exactly the samples of the stream, in order, with their times and data. The last sample needs `End` when its PES packet is so big
that it has no length. -/
theorem mux_demux_partial (s : TsMux.State) (h0 : s.ts.out = []) (hn : s.streams.length ≤ 3840) (xs : List (Env × Sample))
    (hx : ∀ ex ∈ xs, SampleOk s ex.2 ∧ SizeOk s ex.2) (i : Nat) (st : Stream) (hst : s.streams[i]? = some st) (x0 : Sample) (rest : List Sample)
    (hxs : (xs.map (·.2)).filter (fun x => x.stream == i) = x0 :: rest) (k : Kind) (junk : Hdr)
    (hd : ∀ u pcr, pesFor s x0 = some (u, pcr) → Described k u) :
    ∃ r, (PS.init junk).run k ((packets (xs.foldl (fun s ex => addSample ex.1 s ex.2) s).ts.out).filter (fun t => t.pid == 0x100 + i)) = .ok r ∧
      (∃ r', r.finish k = .ok r' ∧ List.Forall₂ (fun x d => ReadBack st s.presentationOffset s.decodingOffset x d) (x0 :: rest) r'.out) ∧
      ((∀ x, (x0 :: rest).getLast? = some x → ∀ u pcr, pesFor s x = some (u, pcr) → u.length ≤ 65541) →
        List.Forall₂ (fun x d => ReadBack st s.presentationOffset s.decodingOffset x d) (x0 :: rest) r.out) := by
  obtain ⟨qs, g1, g2⟩ := TsMux.mux_units s h0 hn xs (fun ex h => (hx ex h).1)
  obtain ⟨ps, p1, p2⟩ := stream_of_ts _ qs g1
  obtain ⟨q1, q2⟩ := g2 i st hst
  have hgrp := group_of_ts ps qs p2 (basePid + i)
  rw [TsMux.Spec.units] at q2
  rw [hxs] at q2
  generalize hus : (TsMux.Spec.group (qs.filter (fun p => p.pid == basePid + i))).2 = us at q2
  -- every unit is right
  have hmem : ∀ x ∈ x0 :: rest, x.stream = i ∧ SampleOk s x ∧ SizeOk s x := by
    intro x hm
    rw [← hxs, List.mem_filter] at hm
    obtain ⟨ex, he, rfl⟩ := List.mem_map.mp hm.1
    exact ⟨by simpa using hm.2, hx ex he⟩
  have hstr : List.Forall₂ (fun x u => (x ∈ x0 :: rest) ∧ Delivered st s.presentationOffset s.decodingOffset x u ∧ ∃ pcr, pesFor s x = some (u, pcr))
      (x0 :: rest) us := by
    have : ∀ (l : List Sample) (us : List (List UInt8)), List.Forall₂ (fun x u => Delivered st s.presentationOffset s.decodingOffset x u ∧
        ∃ pcr, pesFor s x = some (u, pcr)) l us → (∀ x ∈ l, x ∈ x0 :: rest) →
        List.Forall₂ (fun x u => (x ∈ x0 :: rest) ∧ Delivered st s.presentationOffset s.decodingOffset x u ∧ ∃ pcr, pesFor s x = some (u, pcr)) l us := by
      intro l us h
      induction h with
      | nil => intro _; exact List.Forall₂.nil
      | @cons x u l us hh _ ih =>
        intro hm
        exact List.Forall₂.cons ⟨hm x (by simp), hh⟩ (ih fun y hy => hm y (by simp [hy]))
    exact this _ _ q2 (fun x h => h)
  have hunit : ∀ x u, (x ∈ x0 :: rest ∧ Delivered st s.presentationOffset s.decodingOffset x u ∧ ∃ pcr, pesFor s x = some (u, pcr)) →
      UnitOk (sidOf st) u ∧ (u.length ≤ 65541 → unbounded u = false) := by
    intro x u ⟨hm, _, pcr, hp⟩
    obtain ⟨e, h1, h2⟩ := hmem x hm
    exact unit_of_sample s x st (by rw [e]; exact hst) h1 h2 u pcr hp
  have hok : ∀ u ∈ us, UnitOk (sidOf st) u := by
    intro u hu
    obtain ⟨x, _, hr⟩ := forall_mem hstr u hu
    exact (hunit x u hr).1
  have hsid : (sidOf st) ∉ noHeader := by cases st <;> simp only [sidOf] <;> decide
  have back : ∀ ds : List Del, List.Forall₂ Delivers ds us →
      List.Forall₂ (fun x d => ReadBack st s.presentationOffset s.decodingOffset x d) (x0 :: rest) ds := by
    intro ds h
    have hh : ∀ (l : List Sample) (us : List (List UInt8)) (ds : List Del),
        List.Forall₂ (fun x u => (x ∈ x0 :: rest) ∧ Delivered st s.presentationOffset s.decodingOffset x u ∧ ∃ pcr, pesFor s x = some (u, pcr)) l us →
        List.Forall₂ Delivers ds us → (∀ u ∈ us, UnitOk (sidOf st) u) →
        List.Forall₂ (fun x d => ReadBack st s.presentationOffset s.decodingOffset x d) l ds := by
      intro l us ds h1
      induction h1 generalizing ds with
      | nil => intro h2 _; cases h2; exact List.Forall₂.nil
      | @cons x u l us hx _ ih =>
        intro h2 h3
        cases h2 with
        | cons hd hds =>
          exact List.Forall₂.cons (readBack_of st _ _ x u _ hx.2.1 hd _ (h3 u (by simp)) hsid) (ih _ hds fun v hv => h3 v (by simp [hv]))
    exact hh _ us ds hstr h hok
  obtain ⟨u, us, rfl⟩ : ∃ u us', us = u :: us' := by cases hstr; exact ⟨_, _, rfl⟩
  have hh : ∃ pcr, pesFor s x0 = some (u, pcr) := by cases hstr with | cons h _ => exact h.2.2
  obtain ⟨pcr, hp0⟩ := hh
  have hcar : Carries ps (basePid + i) (u :: us) := by
    rw [Carries, hgrp, ← hus, ← q1]
  obtain ⟨r, r1, r2, r', r3, r4⟩ := pes_delivered_partial k junk _ ps p1 (basePid + i) _ u us hcar hok (hd u pcr hp0)
  refine ⟨r, r1, ⟨r', r3, back _ r4⟩, ?_⟩
  intro hlast
  apply back
  have hcl : closed (u :: us) = u :: us := by
    rw [closed, if_neg]
    intro hany
    obtain ⟨v, hv, hub⟩ : ∃ v, (u :: us).getLast? = some v ∧ unbounded v = true := by
      cases hc : (u :: us).getLast? with
      | none => simp [hc] at hany
      | some v => exact ⟨v, rfl, by simpa [hc] using hany⟩
    obtain ⟨x, hx1, hx2⟩ := forall_last hstr v hv
    obtain ⟨_, _, pcr', hpx⟩ := id hx2
    have := (hunit x v hx2).2 (hlast x hx1 v pcr' hpx)
    rw [this] at hub
    simp at hub
  rw [hcl] at r2
  exact r2

/-- C102: for a video stream that begins with a key frame, `ts2mp4` makes of the multiplexed file the samples that were multiplexed, byte for byte, with
the same parameter sets. -/
theorem mux_demux_video_partial (s : TsMux.State) (h0 : s.ts.out = []) (hn : s.streams.length ≤ 3840) (xs : List (Env × Sample))
    (hx : ∀ ex ∈ xs, SampleOk s ex.2 ∧ SizeOk s ex.2) (i : Nat) (sps pps : List UInt8) (hst : s.streams[i]? = some (.h264 sps pps))
    (hs : IsNal sps) (hs7 : unitType sps = 7) (hp : IsNal pps) (hp8 : unitType pps = 8) (x0 : Sample) (rest : List Sample)
    (hxs : (xs.map (·.2)).filter (fun x => x.stream == i) = x0 :: rest) (hkey : x0.iframe = true)
    (hbody : ∀ x ∈ x0 :: rest, ∃ nals, x.body = TsMux.Spec.lengthPrefixed nals ∧ ∀ n ∈ nals, n.length < 2 ^ 32 ∧ IsNal n ∧ IsData n)
    (k : Kind) (junk : Hdr) (hd : ∀ u pcr, pesFor s x0 = some (u, pcr) → Described k u) :
    ∃ r r', (PS.init junk).run k ((packets (xs.foldl (fun s ex => addSample ex.1 s ex.2) s).ts.out).filter (fun t => t.pid == 0x100 + i)) = .ok r ∧
      r.finish k = .ok r' ∧
      let out := r'.out.foldl (fun (a : Video × List (Option (List UInt8))) d =>
        let g := a.1.receive (d.payload.drop d.pos); (g.1, a.2 ++ [g.2])) (Video.init, [])
      out.2 = (x0 :: rest).map (fun x => some x.body) ∧ out.1.created = some (sps, pps) := by
  obtain ⟨r, r1, ⟨r', r2, r3⟩, _⟩ := mux_demux_partial s h0 hn xs hx i _ hst x0 rest hxs k junk hd
  refine ⟨r, r', r1, r2, ?_⟩
  have hf : ∀ (l : List Sample) (ds : List Del), List.Forall₂ (fun x d => ReadBack (.h264 sps pps) s.presentationOffset s.decodingOffset x d) l ds →
      (∀ x ∈ l, ∃ nals, x.body = TsMux.Spec.lengthPrefixed nals ∧ ∀ n ∈ nals, n.length < 2 ^ 32 ∧ IsNal n ∧ IsData n) →
      ∃ frames : List (Bool × List (List UInt8)), frames.map (·.1) = l.map (·.iframe) ∧ (∀ f ∈ frames, ∀ n ∈ f.2, IsNal n ∧ IsData n) ∧
        frames.map (fun f => some (TsMux.Spec.lengthPrefixed f.2)) = l.map (fun x => some x.body) ∧
        ∀ a : Video × List (Option (List UInt8)),
          ds.foldl (fun a d => let g := a.1.receive (d.payload.drop d.pos); (g.1, a.2 ++ [g.2])) a =
          frames.foldl (fun a f => let g := a.1.receive (TsMux.Spec.byteStream (TsMux.Spec.accessUnit sps pps f.1 f.2)); (g.1, a.2 ++ [g.2])) a := by
    intro l ds h
    induction h with
    | nil => intro _; exact ⟨[], rfl, by simp, rfl, fun _ => rfl⟩
    | @cons x d l ds hxd _ ih =>
      intro hb
      obtain ⟨fs, f1, f2, f3, f4⟩ := ih fun y hy => hb y (by simp [hy])
      obtain ⟨nals, hn1, hn2⟩ := hb x (by simp)
      have hpay := hxd.2.2.2.2 nals (fun n h => (hn2 n h).1) hn1
      refine ⟨(x.iframe, nals) :: fs, by simp [f1], ?_, ?_, ?_⟩
      · intro f hf n hn
        rcases List.mem_cons.mp hf with rfl | hf
        · exact (hn2 n hn).2
        · exact f2 f hf n hn
      · rw [List.map_cons, List.map_cons, f3, hn1]
      · intro a
        rw [List.foldl_cons, List.foldl_cons, f4, hpay]
  obtain ⟨frames, f1, f2, f3, f4⟩ := hf _ _ r3 hbody
  match frames, f1 with
  | (b, first) :: frames, f1 =>
    have hb : b = true := by simp at f1; rw [f1.1]; exact hkey
    subst hb
    have := remuxed_samples sps pps hs hs7 hp hp8 first frames f2
    rw [f4]
    rw [f3] at this
    exact this

/-- The AAC receiver finds its frame header. -/
theorem aacLookup_found (pre : List UInt8) (b : UInt8) (r : List UInt8) (hb : b.toNat / 16 = 15) (hr : 13 ≤ r.length) :
    aacLookup (pre ++ 0xFF :: b :: r) = .found := by
  induction pre with
  | nil => simp [aacLookup, hb, hr]
  | cons a pre ih =>
    obtain ⟨c, t, hc⟩ : ∃ c t, pre ++ 0xFF :: b :: r = c :: t := List.exists_cons_of_ne_nil (by simp)
    have hl : 15 ≤ (c :: t).length := by rw [← hc, List.length_append, List.length_cons, List.length_cons]; omega
    rw [List.cons_append, hc, aacLookup]
    simp only [List.length_cons] at hl ⊢
    rw [if_pos (by omega)]
    split
    · rfl
    · rw [← hc]; exact ih

theorem adts_bytes (o f c m : Nat) : ∃ r, r.length = 5 ∧ pack [(12, 0xFFF), (1, 0), (2, 0), (1, 1), (2, o), (4, f),
    (1, 0), (3, c), (1, 0), (1, 0), (1, 0), (1, 0), (13, m), (11, 0x7FF), (2, 0)] = 0xFF :: 0xF1 :: r := by
  refine ⟨pack [(2, o), (4, f), (1, 0), (3, c), (1, 0), (1, 0), (1, 0), (1, 0), (13, m), (11, 0x7FF), (2, 0)], pack_length _ 5 rfl, ?_⟩
  have h := pack_append [(12, 0xFFF), (1, 0), (2, 0), (1, 1)] [(2, o), (4, f), (1, 0), (3, c), (1, 0), (1, 0), (1, 0), (1, 0), (13, m), (11, 0x7FF), (2, 0)] 2 rfl
  have h2 : pack [(12, 0xFFF), (1, 0), (2, 0), (1, 1)] = [0xFF, 0xF1] := by decide +kernel
  rw [h2] at h
  exact h

/-- The AAC receiver recognises the stream by its first PES packet, when the first audio sample has at least nine bytes. -/
theorem described_audio (s : TsMux.State) (x : Sample) (a : TsMux.Adts) (pcr : Bool) (hst : s.streams[x.stream]? = some (.aac a pcr))
    (hb : 9 ≤ x.body.length) (u : List UInt8) (p : Option Nat) (hu : pesFor s x = some (u, p)) : Described .aac u := by
  rw [pesFor, hst, Option.bind_some] at hu
  simp only [TsMux.pesOf, Option.some.injEq, Prod.mk.injEq] at hu
  have hu := hu.1
  rw [TsMux.adtsHeader] at hu
  obtain ⟨r, hr, he⟩ := adts_bytes ((a.objectType + 2 ^ 32 - 1) % 2 ^ 32) (TsMux.sampleRates.idxOf a.sampleRate) (TsMux.channelCodes.idxOf a.channels)
    (x.body.length + 7)
  rw [he, List.cons_append, List.cons_append] at hu
  have hl := congrArg List.length hu
  rw [List.length_append, Pes.header_length] at hl
  simp only [List.length_cons, List.length_append, hr] at hl
  refine ⟨by omega, ?_, fun pre _ => aac_never_fails pre⟩
  rw [← hu]
  exact aacLookup_found _ _ _ (by decide) (by rw [List.length_append]; omega)

theorem adts_split (a : TsMux.Adts) (body : List UInt8) (ho : 1 ≤ a.objectType ∧ a.objectType ≤ 4) (hr : a.sampleRate ∈ TsMux.sampleRates)
    (hc : a.channels ∈ TsMux.channelCodes) (hb : body.length + 7 < 8192) (h2 : 2 ≤ body.length) :
    (splitAdts (TsMux.adtsHeader a body.length ++ body)).1.map delivered =
      [(a.objectType - 1, TsMux.sampleRates.idxOf a.sampleRate, TsMux.channelCodes.idxOf a.channels, body)] ∧
    (splitAdts (TsMux.adtsHeader a body.length ++ body)).2 = false := by
  have h1 : TsMux.sampleRates.idxOf a.sampleRate < 13 := List.idxOf_lt_length_of_mem hr
  have h3 : TsMux.channelCodes.idxOf a.channels < 8 := List.idxOf_lt_length_of_mem hc
  have eo : (a.objectType + 2 ^ 32 - 1) % 2 ^ 32 = a.objectType - 1 := by omega
  have hbytes : (Frame.mk 0 none (a.objectType - 1) (TsMux.sampleRates.idxOf a.sampleRate) (TsMux.channelCodes.idxOf a.channels) 0x7FF 0 body).bytes =
      TsMux.adtsHeader a body.length ++ body := by
    rw [TsMux.adtsHeader, eo, Frame.bytes]
    simp only [Frame.headerSize, Option.isSome_none, Bool.false_eq_true, if_false, List.append_nil, Nat.zero_div]
    rw [Nat.add_comm 7]
  have hok : (Frame.mk 0 none (a.objectType - 1) (TsMux.sampleRates.idxOf a.sampleRate) (TsMux.channelCodes.idxOf a.channels) 0x7FF 0 body).Ok := by
    refine ⟨by simp only []; omega, by simp only []; omega, by simp only []; omega, ?_, ?_⟩
    · simp only [Frame.headerSize, Option.isSome_none, Bool.false_eq_true, if_false]; omega
    · intro h; simp only [] at h; rw [h] at h2; simp at h2
  have hlen : (TsMux.adtsHeader a body.length ++ body).length = 7 + body.length := by
    rw [TsMux.adtsHeader, List.length_append, pack_length _ 7 rfl]
  have := adts_frames_recovered_partial [] [Frame.mk 0 none (a.objectType - 1) (TsMux.sampleRates.idxOf a.sampleRate)
    (TsMux.channelCodes.idxOf a.channels) 0x7FF 0 body] (by simp) (by simp) (by intro f hf; rw [List.mem_singleton.mp hf]; exact hok)
    (by intro f hf; simp only [List.getLast?_singleton, Option.some.injEq] at hf; rw [← hf, hbytes, hlen]; omega)
  rw [List.nil_append, List.flatMap_cons, List.flatMap_nil, List.append_nil, hbytes] at this
  exact this

/-- C102: for an audio stream, `ts2mp4` makes of the multiplexed file the samples that were multiplexed, each with the parameters of the stream. -/
theorem mux_demux_audio_partial (s : TsMux.State) (h0 : s.ts.out = []) (hn : s.streams.length ≤ 3840) (xs : List (Env × Sample))
    (hx : ∀ ex ∈ xs, SampleOk s ex.2 ∧ SizeOk s ex.2) (i : Nat) (a : TsMux.Adts) (pcr : Bool) (hst : s.streams[i]? = some (.aac a pcr))
    (ho : 1 ≤ a.objectType ∧ a.objectType ≤ 4) (hr : a.sampleRate ∈ TsMux.sampleRates) (hc : a.channels ∈ TsMux.channelCodes)
    (x0 : Sample) (rest : List Sample) (hxs : (xs.map (·.2)).filter (fun x => x.stream == i) = x0 :: rest) (h9 : 9 ≤ x0.body.length)
    (hb : ∀ x ∈ x0 :: rest, 2 ≤ x.body.length ∧ x.body.length + 7 < 8192) (junk : Hdr) :
    ∃ r, (PS.init junk).run .aac ((packets (xs.foldl (fun s ex => addSample ex.1 s ex.2) s).ts.out).filter (fun t => t.pid == 0x100 + i)) = .ok r ∧
      r.out.map (fun d => ((splitAdts (d.payload.drop d.pos)).1.map delivered, (splitAdts (d.payload.drop d.pos)).2)) =
      (x0 :: rest).map (fun x => ([(a.objectType - 1, TsMux.sampleRates.idxOf a.sampleRate, TsMux.channelCodes.idxOf a.channels, x.body)], false)) := by
  have hmem : ∀ x ∈ x0 :: rest, x.stream = i := by
    intro x hm
    rw [← hxs, List.mem_filter] at hm
    simpa using hm.2
  have hst' : ∀ x ∈ x0 :: rest, s.streams[x.stream]? = some (.aac a pcr) := by
    intro x hm
    rw [hmem x hm]; exact hst
  obtain ⟨r, r1, _, r3⟩ := mux_demux_partial s h0 hn xs hx i _ hst x0 rest hxs .aac junk
    (fun u p hu => described_audio s x0 a pcr (hst' x0 (by simp)) h9 u p hu)
  refine ⟨r, r1, ?_⟩
  have hlast : ∀ x, (x0 :: rest).getLast? = some x → ∀ u p, pesFor s x = some (u, p) → u.length ≤ 65541 := by
    intro x hl u p hu
    have hm := List.mem_of_getLast? hl
    rw [pesFor, hst' x hm, Option.bind_some] at hu
    simp only [TsMux.pesOf, Option.some.injEq, Prod.mk.injEq] at hu
    rw [← hu.1, List.length_append, Pes.header_length, List.length_append, TsMux.adtsHeader, pack_length _ 7 rfl]
    have := (hb x hm).2
    split <;> split <;> omega
  have h3 := r3 hlast
  clear r3 hlast r1
  generalize r.out = ds at h3
  clear hxs hst' hmem h9
  generalize x0 :: rest = l at h3 hb
  induction h3 with
  | nil => rfl
  | @cons x d l ds hxd _ ih =>
    have hpay := hxd.2.2.2.2
    have hbx := hb x (by simp)
    obtain ⟨e1, e2⟩ := adts_split a x.body ho hr hc hbx.2 hbx.1
    rw [List.map_cons, List.map_cons, ih fun y hy => hb y (by simp [hy]), hpay, e1, e2]

/-- A mux with a video and an audio stream. -/
def twoStreams : TsMux.State := [TsMux.Add.visual [0x67, 1] [0x68, 2], .audio ⟨2, 44100, 2⟩].foldl TsMux.Add.run (TsMux.init (fun _ => 9) (fun _ => 9) 3 7 3 false)

/-- Two video frames (the first a key frame) and two audio frames. -/
def fourSamples : List Sample :=
  [⟨0, TsMux.Spec.lengthPrefixed [List.replicate 200 0x65], true, 400000, 0⟩, ⟨1, List.replicate 10 7, false, 0, 0⟩,
    ⟨0, TsMux.Spec.lengthPrefixed [[0x41, 2, 3], [0x06, 4]], false, 800000, 400000⟩, ⟨1, [1, 2, 3], false, 232000, 232000⟩]

theorem fourSamples_ok : ∀ x ∈ fourSamples, SampleOk twoStreams x ∧ SizeOk twoStreams x := by
  have size : ∀ x, ((pesFor twoStreams x).map (fun u => decide (u.1.length ≤ 65541))) = some true → SizeOk twoStreams x := by
    intro x h u pcr hu
    rw [hu, Option.map_some, Option.some.injEq, decide_eq_true_eq] at h
    exact .inl h
  intro x hx
  simp only [fourSamples, List.mem_cons, List.not_mem_nil, or_false] at hx
  rcases hx with rfl | rfl | rfl | rfl
  · exact ⟨TsMux.sampleOk_of _ _ (by decide +kernel), size _ (by decide +kernel)⟩
  · exact ⟨TsMux.sampleOk_of _ _ (by decide +kernel), size _ (by decide +kernel)⟩
  · exact ⟨TsMux.sampleOk_of _ _ (by decide +kernel), size _ (by decide +kernel)⟩
  · exact ⟨TsMux.sampleOk_of _ _ (by decide +kernel), size _ (by decide +kernel)⟩

example (e : Env) (junk : Hdr) : ∃ r r', (PS.init junk).run .info
      ((packets ((fourSamples.map (e, ·)).foldl (fun s ex => addSample ex.1 s ex.2) twoStreams).ts.out).filter (fun t => t.pid == 0x100)) = .ok r ∧
      r.finish .info = .ok r' ∧
      let out := r'.out.foldl (fun (a : Video × List (Option (List UInt8))) d =>
        let g := a.1.receive (d.payload.drop d.pos); (g.1, a.2 ++ [g.2])) (Video.init, [])
      out.2 = [⟨0, TsMux.Spec.lengthPrefixed [List.replicate 200 0x65], true, 400000, 0⟩,
        (⟨0, TsMux.Spec.lengthPrefixed [[0x41, 2, 3], [0x06, 4]], false, 800000, 400000⟩ : Sample)].map (fun x => some x.body) ∧
      out.1.created = some ([0x67, 1], [0x68, 2]) := by
  refine mux_demux_video_partial twoStreams rfl (by decide) (fourSamples.map (e, ·)) ?_ 0 [0x67, 1] [0x68, 2] rfl ⟨by decide, by decide, by decide⟩ (by decide)
    ⟨by decide, by decide, by decide⟩ (by decide) _ [⟨0, TsMux.Spec.lengthPrefixed [[0x41, 2, 3], [0x06, 4]], false, 800000, 400000⟩]
    rfl rfl ?_ .info junk (fun _ _ _ => trivial)
  · intro ex hm
    obtain ⟨x, hx, rfl⟩ := List.mem_map.mp hm
    exact fourSamples_ok x hx
  · intro x hm
    simp only [List.mem_cons, List.not_mem_nil, or_false] at hm
    rcases hm with rfl | rfl
    · refine ⟨_, rfl, ?_⟩
      intro n hn
      rw [List.mem_singleton] at hn
      subst hn
      refine ⟨by decide +kernel, ⟨by decide +kernel, by decide +kernel, ?_⟩, by decide +kernel, by decide +kernel, by decide +kernel⟩
      intro h
      have := h.subset (show (0 : UInt8) ∈ [0, 0, 1] by decide)
      rw [List.mem_replicate] at this
      exact absurd this.2 (by decide)
    · refine ⟨_, rfl, ?_⟩
      intro n hn
      simp only [List.mem_cons, List.not_mem_nil, or_false] at hn
      rcases hn with rfl | rfl <;> exact ⟨by decide, ⟨by decide, by decide, by decide⟩, by decide, by decide, by decide⟩

example (e : Env) (junk : Hdr) : ∃ r, (PS.init junk).run .aac
      ((packets ((fourSamples.map (e, ·)).foldl (fun s ex => addSample ex.1 s ex.2) twoStreams).ts.out).filter (fun t => t.pid == 0x101)) = .ok r ∧
      r.out.map (fun d => ((splitAdts (d.payload.drop d.pos)).1.map delivered, (splitAdts (d.payload.drop d.pos)).2)) =
        [([(1, 4, 2, List.replicate 10 7)], false), ([(1, 4, 2, [1, 2, 3])], false)] :=
  mux_demux_audio_partial twoStreams rfl (by decide) (fourSamples.map (e, ·))
    (by intro ex hm; obtain ⟨x, hx, rfl⟩ := List.mem_map.mp hm; exact fourSamples_ok x hx) 1 ⟨2, 44100, 2⟩ false rfl (by decide) (by decide) (by decide)
    ⟨1, List.replicate 10 7, false, 0, 0⟩ [⟨1, [1, 2, 3], false, 232000, 232000⟩] rfl (by decide) (by decide) junk

end Verif.Demux
