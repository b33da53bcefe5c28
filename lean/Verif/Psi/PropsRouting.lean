import Verif.Psi.PropsTables
/-
C103 and C104: from the tables the receivers are made, and each gets the packets of its pid.
-/
namespace Verif.Psi
open Fields Demux Spec

/-- The packets `c` give the table `t`, which is there after the last of them and not before. -/
def Reads {T : Type} (tid : Nat) (get : List Bool → Option T) (s : Psi T) (t : T) : List TPacket → Prop
  | [] => False
  | p :: c => ∃ s1, Psi.add tid get s p = some s1 ∧ ((c = [] ∧ s1.table = some t) ∨ (s1.table = none ∧ Reads tid get s1 t c))

theorem reads_of {T : Type} (tid : Nat) (get : List Bool → Option T) (t : T) (c : List TPacket) : ∀ (s s' : Psi T), s.table = none →
    runTable tid get s c = some s' → s'.table = some t →
    (∀ n, n < c.length → ∃ s'', runTable tid get s (c.take n) = some s'' ∧ s''.table = none) → Reads tid get s t c := by
  induction c with
  | nil => intro s s' hs h ht; rw [runTable, Option.some.injEq] at h; rw [← h, hs] at ht; simp at ht
  | cons p c ih =>
    intro s s' hs h ht hn
    rw [runTable] at h
    obtain ⟨s1, h1, h2⟩ := Option.bind_eq_some_iff.mp h
    refine ⟨s1, h1, ?_⟩
    cases c with
    | nil => rw [runTable, Option.some.injEq] at h2; exact .inl ⟨rfl, by rw [h2]; exact ht⟩
    | cons q c =>
      have hnone : ∀ n, n < (q :: c).length → ∃ s'', runTable tid get s1 ((q :: c).take n) = some s'' ∧ s''.table = none := by
        intro n hl
        obtain ⟨s'', g1, g2⟩ := hn (n + 1) (by simp at hl ⊢; omega)
        rw [List.take_succ_cons, runTable, h1] at g1
        exact ⟨s'', g1, g2⟩
      have h0 : s1.table = none := by
        obtain ⟨s'', g1, g2⟩ := hnone 0 (by simp)
        rw [List.take_zero, runTable, Option.some.injEq] at g1
        rw [g1]; exact g2
      exact .inr ⟨h0, ih s1 s' h0 h2 ht hnone⟩

/-- Packets of a pid that can be used. -/
def onPid (q : Nat) (p : TPacket) : Bool := !p.err && p.pid == q

theorem onPid_iff (q : Nat) (p : TPacket) : onPid q p = true ↔ p.err = false ∧ p.pid = q := by simp [onPid]

theorem pat_phase (sps : List UInt8 → Bool) (j : Junk) (t : List (Nat × Nat)) (l : List TPacket) : ∀ (s : Proc) (c : List TPacket), s.pat.table = none →
    Reads 0 (getPat j.pids) s.pat t c → l.filter (onPid 0) = c → (∀ p, l.getLast? = some p → onPid 0 p = true) → l ≠ [] →
    ∃ s', s.run sps j l = some s' ∧ s'.pat.table = some t ∧ s'.pmts = addMaps t s.pmts ∧ s'.pes = s.pes := by
  induction l with
  | nil => intro _ _ _ _ _ _ h; exact absurd rfl h
  | cons p l ih =>
    intro s c hs hr hc hlast _
    have hlast' : ∀ x, l.getLast? = some x → onPid 0 x = true := by
      intro x hx
      cases l with
      | nil => simp at hx
      | cons y l => exact hlast x (by rw [List.getLast?_cons_cons]; exact hx)
    by_cases hp : onPid 0 p = true
    · rw [List.filter_cons_of_pos hp] at hc
      obtain ⟨h1, h2⟩ := (onPid_iff 0 p).mp hp
      rw [← hc] at hr
      obtain ⟨s1, g1, g2⟩ := hr
      have hstep : s.step sps j p = some (s.gotPat s1) := by
        rw [Proc.step, h1, if_neg (by simp), if_pos h2, hs, if_neg (by simp), g1, Option.map_some]
      rcases g2 with ⟨g2, g3⟩ | ⟨g2, g3⟩
      · rw [Proc.gotPat, g3] at hstep
        simp only at hstep
        have hl : l = [] := by
          cases l with
          | nil => rfl
          | cons y l =>
            obtain ⟨z, hz⟩ : ∃ z, (y :: l).getLast? = some z := by
              cases hh : (y :: l).getLast? with
              | none => simp at hh
              | some z => exact ⟨z, rfl⟩
            have : z ∈ (y :: l).filter (onPid 0) := List.mem_filter.mpr ⟨List.mem_of_getLast? hz, hlast' z hz⟩
            rw [g2] at this; simp at this
        subst hl
        refine ⟨{ s with pat := s1, pmts := addMaps t s.pmts }, by rw [Proc.run, hstep, Option.bind_some, Proc.run], g3, rfl, rfl⟩
      · rw [Proc.gotPat, g2] at hstep
        have hl : l ≠ [] := by intro h; rw [h] at g3; exact g3
        obtain ⟨s', e1, e2, e3, e4⟩ := ih { s with pat := s1 } _ g2 g3 rfl hlast' hl
        exact ⟨s', by rw [Proc.run, hstep]; exact e1, e2, e3, e4⟩
    · have hp' : onPid 0 p = false := by simpa using hp
      rw [List.filter_cons_of_neg hp] at hc
      have hstep : s.step sps j p = some s := by
        rw [Proc.step]
        by_cases he : p.err = true
        · rw [if_pos he]
        · rw [if_neg he, if_neg, if_pos (by rw [hs]; rfl)]
          intro h
          exact hp ((onPid_iff 0 p).mpr ⟨by simpa using he, h⟩)
      have hl : l ≠ [] := by
        intro h
        have := hlast p (by rw [h]; rfl)
        rw [hp'] at this; simp at this
      obtain ⟨s', e1, e2, e3, e4⟩ := ih s c hs hr hc hlast' hl
      exact ⟨s', by rw [Proc.run, hstep]; exact e1, e2, e3, e4⟩

/-- A pid nobody asks for (yet). -/
def Unknown (s : Proc) (q : Nat) : Prop := q ≠ 0 ∧ s.pmts q = none ∧ s.pes q = none

theorem pmt_phase (sps : List UInt8 → Bool) (j : Junk) (m : Nat) (hm : m ≠ 0) (t : Nat × List (Nat × Nat)) (l : List TPacket) : ∀ (s : Proc)
    (r : Psi (Nat × List (Nat × Nat))) (c : List TPacket), s.pat.table.isSome = true → s.pmts m = some r → r.table = none → Reads 2 getPmt r t c →
    l.filter (onPid m) = c → (∀ p, l.getLast? = some p → onPid m p = true) → l ≠ [] →
    (∀ p ∈ l, p.err = false → p.pid ≠ 0 → p.pid ≠ m → Unknown s p.pid) →
    ∃ s', s.run sps j l = some s' ∧ s'.pat = s.pat ∧ (∃ r', s'.pmts m = some r' ∧ r'.table = some t) ∧ (∀ q, q ≠ m → s'.pmts q = s.pmts q) ∧
      s'.pes = addStreams j.hdr t.2 s.pes := by
  induction l with
  | nil => intro _ _ _ _ _ _ _ _ _ h; exact absurd rfl h
  | cons p l ih =>
    intro s r c hpat hr hrt hreads hc hlast _ hun
    have hlast' : ∀ x, l.getLast? = some x → onPid m x = true := by
      intro x hx
      cases l with
      | nil => simp at hx
      | cons y l => exact hlast x (by rw [List.getLast?_cons_cons]; exact hx)
    by_cases hp : onPid m p = true
    · rw [List.filter_cons_of_pos hp] at hc
      obtain ⟨h1, h2⟩ := (onPid_iff m p).mp hp
      rw [← hc] at hreads
      obtain ⟨s1, g1, g2⟩ := hreads
      have hstep : s.step sps j p = some (s.gotPmt j.hdr m s1) := by
        rw [Proc.step, h1, if_neg (by simp), if_neg (by rw [h2]; exact hm), if_neg (by rw [Option.isNone_iff_eq_none]; intro h; rw [h] at hpat; simp at hpat), h2, hr]
        simp only
        rw [hrt, if_neg (by simp), g1, Option.map_some]
      rcases g2 with ⟨g2, g3⟩ | ⟨g2, g3⟩
      · rw [Proc.gotPmt, g3] at hstep
        simp only at hstep
        have hl : l = [] := by
          cases l with
          | nil => rfl
          | cons y l =>
            obtain ⟨z, hz⟩ : ∃ z, (y :: l).getLast? = some z := by
              cases hh : (y :: l).getLast? with
              | none => simp at hh
              | some z => exact ⟨z, rfl⟩
            have : z ∈ (y :: l).filter (onPid m) := List.mem_filter.mpr ⟨List.mem_of_getLast? hz, hlast' z hz⟩
            rw [g2] at this; simp at this
        subst hl
        refine ⟨{ s with pmts := fun q => if q = m then some s1 else s.pmts q, pes := addStreams j.hdr t.2 s.pes },
          by rw [Proc.run, hstep, Option.bind_some, Proc.run], rfl, ⟨s1, by simp, g3⟩, ?_, rfl⟩
        intro q hq
        simp [hq]
      · rw [Proc.gotPmt, g2] at hstep
        have hl : l ≠ [] := by intro h; rw [h] at g3; exact g3
        obtain ⟨s', e1, e2, e3, e4, e5⟩ := ih { s with pmts := fun q => if q = m then some s1 else s.pmts q } s1 _ hpat (by simp) g2 g3 rfl hlast' hl (by
          intro x hx h1 h2 h3
          obtain ⟨u1, u2, u3⟩ := hun x (by simp [hx]) h1 h2 h3
          exact ⟨u1, by simp only; rw [if_neg h3]; exact u2, u3⟩)
        refine ⟨s', by rw [Proc.run, hstep]; exact e1, e2, e3, ?_, e5⟩
        intro q hq
        rw [e4 q hq]; simp [hq]
    · have hp' : onPid m p = false := by simpa using hp
      rw [List.filter_cons_of_neg hp] at hc
      have hstep : s.step sps j p = some s := by
        rw [Proc.step]
        by_cases he : p.err = true
        · rw [if_pos he]
        · rw [if_neg he]
          by_cases h0 : p.pid = 0
          · rw [if_pos h0, if_pos hpat]
          · rw [if_neg h0, if_neg (by rw [Option.isNone_iff_eq_none]; intro h; rw [h] at hpat; simp at hpat)]
            obtain ⟨_, u2, u3⟩ := hun p (by simp) (by simpa using he) h0 (by
              intro h; exact hp ((onPid_iff m p).mpr ⟨by simpa using he, h⟩))
            rw [u2, u3]
      have hl : l ≠ [] := by
        intro h
        have := hlast p (by rw [h]; rfl)
        rw [hp'] at this; simp at this
      obtain ⟨s', e1, e2, e3, e4, e5⟩ := ih s r c hpat hr hrt hreads hc hlast' hl (fun x hx => hun x (by simp [hx]))
      exact ⟨s', by rw [Proc.run, hstep]; exact e1, e2, e3, e4, e5⟩

/-- C104: once the tables are known, the receiver of every pid gets exactly the packets of that pid; other packets and further tables change nothing. -/
theorem pes_phase (sps : List UInt8 → Bool) (j : Junk) (l : List TPacket) : ∀ (s : Proc), s.pat.table.isSome = true →
    (∀ p ∈ l, p.err = false → ∀ r, s.pmts p.pid = some r → r.table.isSome = true) →
    ∀ R : Nat → PS, (∀ q type r, s.pes q = some (type, r) → q ≠ 0 → s.pmts q = none → r.run (kindOf sps type) (l.filter (onPid q)) = .ok (R q)) →
    ∃ s', s.run sps j l = some s' ∧ s'.pat = s.pat ∧ s'.pmts = s.pmts ∧
      ∀ q, s'.pes q = (s.pes q).map (fun x => (x.1, if q ≠ 0 ∧ s.pmts q = none then R q else x.2)) := by
  induction l with
  | nil =>
    intro s _ _ R hR
    refine ⟨s, rfl, rfl, rfl, ?_⟩
    intro q
    cases hq : s.pes q with
    | none => rfl
    | some x =>
      rw [Option.map_some]
      split
      · next h =>
        have := hR q x.1 x.2 hq h.1 h.2
        rw [List.filter_nil, PS.run, Except.ok.injEq] at this
        rw [← this]
      · rfl
  | cons p l ih =>
    intro s hpat htab R hR
    have hnone : ¬ s.pat.table.isNone = true := by
      rw [Option.isNone_iff_eq_none]; intro h; rw [h] at hpat; simp at hpat
    -- a step that changes nothing
    have same : s.step sps j p = some s → (∀ q, onPid q p = true → q ≠ 0 → s.pmts q = none → s.pes q = none) →
        ∃ s', s.run sps j (p :: l) = some s' ∧ s'.pat = s.pat ∧ s'.pmts = s.pmts ∧
          ∀ q, s'.pes q = (s.pes q).map (fun x => (x.1, if q ≠ 0 ∧ s.pmts q = none then R q else x.2)) := by
      intro hstep hoff
      rw [Proc.run, hstep, Option.bind_some]
      apply ih s hpat (fun x hx => htab x (by simp [hx])) R
      intro q type r hq h0 hm
      have := hR q type r hq h0 hm
      rw [List.filter_cons_of_neg] at this
      · exact this
      · intro h
        rw [hoff q h h0 hm] at hq
        simp at hq
    by_cases he : p.err = true
    · exact same (by rw [Proc.step, if_pos he]) (fun q h => by rw [onPid_iff, he] at h; simp at h)
    · by_cases h0 : p.pid = 0
      · exact same (by rw [Proc.step, if_neg he, if_pos h0, if_pos hpat]) (fun q h hq => by rw [onPid_iff] at h; omega)
      · cases hm : s.pmts p.pid with
        | some r =>
          have ht := htab p (by simp) (by simpa using he) r hm
          refine same (by rw [Proc.step, if_neg he, if_neg h0, if_neg hnone, hm]; simp only; rw [if_pos ht]) ?_
          intro q h hq hmq
          rw [onPid_iff] at h
          rw [← h.2, hm] at hmq
          simp at hmq
        | none =>
          cases hq : s.pes p.pid with
          | none =>
            refine same (by rw [Proc.step, if_neg he, if_neg h0, if_neg hnone, hm]; simp only; rw [hq]) ?_
            intro q h _ _
            rw [onPid_iff] at h
            rw [← h.2]; exact hq
          | some x =>
            have hp : onPid p.pid p = true := (onPid_iff _ _).mpr ⟨by simpa using he, rfl⟩
            have hrun := hR p.pid x.1 x.2 hq h0 hm
            rw [List.filter_cons_of_pos hp, PS.run] at hrun
            cases hst : x.2.step (kindOf sps x.1) p with
            | error e => rw [hst] at hrun; simp at hrun
            | ok r1 =>
              rw [hst] at hrun
              simp only at hrun
              have hstep : s.step sps j p = some { s with pes := fun q => if q = p.pid then some (x.1, r1) else s.pes q } := by
                rw [Proc.step, if_neg he, if_neg h0, if_neg hnone, hm]
                simp only
                rw [hq]
                obtain ⟨a, b⟩ := x
                simp only at hst ⊢
                rw [hst]
              obtain ⟨s', e1, e2, e3, e4⟩ := ih { s with pes := fun q => if q = p.pid then some (x.1, r1) else s.pes q } hpat
                (fun y hy => htab y (by simp [hy])) R (by
                  intro q type r hq2 hq0 hqm
                  simp only at hq2
                  split at hq2
                  · next hh =>
                    rw [hh]
                    simp only [Option.some.injEq, Prod.mk.injEq] at hq2
                    rw [← hq2.1, ← hq2.2]; exact hrun
                  · next hh =>
                    have := hR q type r hq2 hq0 hqm
                    rw [List.filter_cons_of_neg (by rw [onPid_iff]; intro h; exact hh h.2.symm)] at this
                    exact this)
              refine ⟨s', by rw [Proc.run, hstep]; exact e1, e2, e3, ?_⟩
              intro q
              rw [e4 q]
              simp only
              by_cases hh : q = p.pid
              · rw [if_pos hh, hh, hq, Option.map_some, Option.map_some, if_pos ⟨h0, hm⟩, if_pos ⟨h0, hm⟩]
              · rw [if_neg hh]

theorem addMaps_spec (l : List (Nat × Nat)) : ∀ (f : Nat → Option (Psi (Nat × List (Nat × Nat)))) (q : Nat),
    addMaps l f q = if q ∈ l.map (·.2) then some ⟨[], none⟩ else f q := by
  induction l with
  | nil => intro f q; simp [addMaps]
  | cons e l ih =>
    intro f q
    have : addMaps (e :: l) f = addMaps l (fun q => if q = e.2 then some ⟨[], none⟩ else f q) := rfl
    rw [this, ih]
    by_cases h1 : q ∈ l.map (·.2)
    · rw [if_pos h1, if_pos (by simp only [List.map_cons, List.mem_cons]; exact .inr h1)]
    · rw [if_neg h1]
      by_cases h2 : q = e.2
      · rw [if_pos h2, if_pos (by simp [h2])]
      · rw [if_neg h2, if_neg (by simp only [List.map_cons, List.mem_cons]; exact fun h => h.elim h2 h1)]

theorem addStreams_spec (junk : Hdr) (l : List (Nat × Nat)) (hd : (l.map (·.2)).Nodup) : ∀ (f : Nat → Option (Nat × PS)),
    (∀ e ∈ l, addStreams junk l f e.2 = some (e.1, PS.init junk)) ∧ ∀ q, q ∉ l.map (·.2) → addStreams junk l f q = f q := by
  induction l with
  | nil => intro f; exact ⟨by simp, fun q _ => rfl⟩
  | cons e l ih =>
    intro f
    rw [List.map_cons, List.nodup_cons] at hd
    have hh : addStreams junk (e :: l) f = addStreams junk l (fun q => if q = e.2 then some (e.1, PS.init junk) else f q) := rfl
    obtain ⟨i1, i2⟩ := ih hd.2 (fun q => if q = e.2 then some (e.1, PS.init junk) else f q)
    rw [hh]
    refine ⟨?_, ?_⟩
    · intro x hx
      rcases List.mem_cons.mp hx with rfl | hx
      · rw [i2 _ hd.1]; simp
      · exact i1 x hx
    · intro q hq
      rw [List.map_cons, List.mem_cons, not_or] at hq
      rw [i2 q hq.2, if_neg hq.1]

theorem run_append (sps : List UInt8 → Bool) (j : Junk) (a b : List TPacket) : ∀ s : Proc, s.run sps j (a ++ b) = (s.run sps j a).bind fun s => s.run sps j b := by
  induction a with
  | nil => intro s; rfl
  | cons p a ih =>
    intro s
    rw [List.cons_append, Proc.run, Proc.run, Option.bind_assoc]
    congr 1
    funext s
    exact ih s

/-- A program map as a transport stream can have it. -/
structure MapOk (res pcr : Nat) (info : List (Nat × List UInt8)) (es : List Es) : Prop where
  clock : pcr < 8192
  desc : DescOk info
  streams : ∀ e ∈ es, e.type < 256 ∧ e.pid < 8192 ∧ DescOk e.info
  length : (pmtBody res pcr info es).length + 9 < 4096
  distinct : (es.map (·.pid)).Nodup

/-- C103: `a` is the beginning of a file, up to the packet that completes the program association table, `b` continues up to the packet that completes the
map of one of its programs. Then the reader knows the programs and the streams of that program, with their types, whatever descriptors, version, CRC
and number of packets the tables have, and makes a new receiver for each stream and none for other pids. -/
theorem tables_read_partial (sps : List UInt8 → Bool) (j : Junk) (a b : List TPacket)
    (h1 : Head) (res1 : Nat) (programs : List (Nat × Nat)) (hn : programs.length ≤ 253) (hp : ∀ p ∈ programs, 0 < p.1 ∧ p.1 < 65536 ∧ p.2 < 8192) (hp0 : ∀ p ∈ programs, p.2 ≠ 0)
    (crc1 : Nat) (b1 a1 : List UInt8)
    (hc1 : CarriesTable (a.filter (onPid 0)) b1 (sectionBytes 0 h1 (patBody res1 programs) crc1) a1) (hl1 : ∀ p, a.getLast? = some p → onPid 0 p = true)
    (m : Nat) (hm : m ∈ programs.map (·.2)) (h2 : Head) (res2 pcr : Nat) (info : List (Nat × List UInt8)) (es : List Es) (hok : MapOk res2 pcr info es)
    (crc2 : Nat) (b2 a2 : List UInt8)
    (hc2 : CarriesTable (b.filter (onPid m)) b2 (sectionBytes 2 h2 (pmtBody res2 pcr info es) crc2) a2) (hl2 : ∀ p, b.getLast? = some p → onPid m p = true)
    (hb : ∀ p ∈ b, p.err = false → p.pid ∈ programs.map (·.2) → p.pid = m) :
    ∃ s, Proc.init.run sps j (a ++ b) = some s ∧ s.pat.table = some programs ∧ (∃ r, s.pmts m = some r ∧ r.table = some (pcr, es.map kept)) ∧
      (∀ q, q ∉ programs.map (·.2) → s.pmts q = none) ∧
      (∀ e ∈ es, s.pes e.pid = some (e.type, PS.init j.hdr)) ∧ ∀ q, q ∉ es.map (·.pid) → s.pes q = none := by
  have hne : ∀ (q : Nat) (l : List TPacket) x y z, CarriesTable (l.filter (onPid q)) x y z → l ≠ [] := by
    intro q l x y z h he
    obtain ⟨p, ps, hh, _⟩ := h.starts
    rw [he] at hh; simp at hh
  have herr : ∀ (q : Nat) (l : List TPacket), ∀ p ∈ l.filter (onPid q), p.err = false := fun q l p h => ((onPid_iff q p).mp (List.mem_filter.mp h).2).1
  have hpl := patBody_length res1 programs
  obtain ⟨s1, r1, r2, r3⟩ := table_run 0 (getPat j.pids) b1 h1 (patBody res1 programs) crc1 a1 (by omega) (by omega) programs
    (pat_read j.pids h1 res1 programs crc1 a1 hn hp) _ hc1 (herr 0 a) ⟨[], none⟩ rfl
  obtain ⟨s, e1, e2, e3, e4⟩ := pat_phase sps j programs a Proc.init _ rfl (reads_of _ _ _ _ _ _ rfl r1 r2 r3) rfl hl1 (hne 0 a _ _ _ hc1)
  obtain ⟨s2, t1, t2, t3⟩ := table_run 2 getPmt b2 h2 (pmtBody res2 pcr info es) crc2 a2 (by omega) hok.length (pcr, es.map kept)
    (pmt_read h2 res2 pcr info es crc2 a2 hok.clock hok.desc hok.streams hok.length) _ hc2 (herr m b) ⟨[], none⟩ rfl
  have hm0 : m ≠ 0 := by obtain ⟨x, hx, rfl⟩ := List.mem_map.mp hm; exact hp0 x hx
  have hpm : ∀ q, s.pmts q = if q ∈ programs.map (·.2) then some ⟨[], none⟩ else none := by
    intro q; rw [e3, addMaps_spec]; rfl
  obtain ⟨s', f1, f2, f3, f4, f5⟩ := pmt_phase sps j m hm0 (pcr, es.map kept) b s ⟨[], none⟩ _ (by rw [e2]; rfl) (by rw [hpm, if_pos hm]) rfl
    (reads_of _ _ _ _ _ _ rfl t1 t2 t3) rfl hl2 (hne m b _ _ _ hc2) (by
      intro p hx he h0 hpm'
      refine ⟨h0, ?_, by rw [e4]; rfl⟩
      rw [hpm, if_neg]
      intro h
      exact hpm' (hb p hx he h))
  have hnd : ((es.map kept).map (·.2)).Nodup := by rw [List.map_map]; exact hok.distinct
  obtain ⟨g1, g2⟩ := addStreams_spec j.hdr (es.map kept) hnd s.pes
  refine ⟨s', by rw [run_append, e1]; exact f1, by rw [f2, e2], f3, ?_, ?_, ?_⟩
  · intro q hq
    rw [f4 q (by intro h; rw [h] at hq; exact hq hm), hpm, if_neg hq]
  · intro e he
    rw [f5]
    exact g1 (kept e) (List.mem_map.mpr ⟨e, he, rfl⟩)
  · intro q hq
    rw [f5, g2 q (by rw [List.map_map]; exact hq), e4]
    rfl

/-- C104: after the tables, every packet of a pid that the map announces goes to the receiver of that pid, as the next packet, and to nobody else: the
state of each receiver at the end is that of running it on its own packets (modules Demux), if none of them fails. -/
theorem streams_delivered_partial (sps : List UInt8 → Bool) (j : Junk) (a b c : List TPacket)
    (h1 : Head) (res1 : Nat) (programs : List (Nat × Nat)) (hn : programs.length ≤ 253) (hp : ∀ p ∈ programs, 0 < p.1 ∧ p.1 < 65536 ∧ p.2 < 8192) (hp0 : ∀ p ∈ programs, p.2 ≠ 0)
    (crc1 : Nat) (b1 a1 : List UInt8)
    (hc1 : CarriesTable (a.filter (onPid 0)) b1 (sectionBytes 0 h1 (patBody res1 programs) crc1) a1) (hl1 : ∀ p, a.getLast? = some p → onPid 0 p = true)
    (m : Nat) (hm : m ∈ programs.map (·.2)) (h2 : Head) (res2 pcr : Nat) (info : List (Nat × List UInt8)) (es : List Es) (hok : MapOk res2 pcr info es)
    (crc2 : Nat) (b2 a2 : List UInt8)
    (hc2 : CarriesTable (b.filter (onPid m)) b2 (sectionBytes 2 h2 (pmtBody res2 pcr info es) crc2) a2) (hl2 : ∀ p, b.getLast? = some p → onPid m p = true)
    (hb : ∀ p ∈ b ++ c, p.err = false → p.pid ∈ programs.map (·.2) → p.pid = m)
    (hes : ∀ e ∈ es, e.pid ≠ 0 ∧ e.pid ∉ programs.map (·.2))
    (R : Nat → PS) (hR : ∀ e ∈ es, (PS.init j.hdr).run (kindOf sps e.type) (c.filter (onPid e.pid)) = .ok (R e.pid)) :
    ∃ s, Proc.init.run sps j (a ++ b ++ c) = some s ∧ (∀ e ∈ es, s.pes e.pid = some (e.type, R e.pid)) ∧ ∀ q, q ∉ es.map (·.pid) → s.pes q = none := by
  obtain ⟨s, e1, e2, ⟨r, e3, e3'⟩, e4, e5, e6⟩ := tables_read_partial sps j a b h1 res1 programs hn hp hp0 crc1 b1 a1 hc1 hl1 m hm h2 res2 pcr info es hok crc2 b2 a2 hc2 hl2
    (fun p hx => hb p (by simp [hx]))
  obtain ⟨s', f1, f2, f3, f4⟩ := pes_phase sps j c s (by rw [e2]; rfl) (by
      intro p hx he r' hr'
      by_cases hin : p.pid ∈ programs.map (·.2)
      · rw [hb p (by simp [hx]) he hin, e3, Option.some.injEq] at hr'
        rw [← hr', e3']; rfl
      · rw [e4 _ hin] at hr'; simp at hr') R (by
      intro q type r' hq _ _
      by_cases hin : q ∈ es.map (·.pid)
      · obtain ⟨e, he, rfl⟩ := List.mem_map.mp hin
        rw [e5 e he, Option.some.injEq, Prod.mk.injEq] at hq
        rw [← hq.1, ← hq.2]
        exact hR e he
      · rw [e6 q hin] at hq; simp at hq)
  refine ⟨s', by rw [run_append, e1]; exact f1, ?_, ?_⟩
  · intro e he
    rw [f4, e5 e he, Option.map_some, if_pos ⟨(hes e he).1, e4 _ (hes e he).2⟩]
  · intro q hq
    rw [f4, e6 q hq]; rfl

end Verif.Psi
