import Verif.Ts.Lemmas
/-!
Properties C16 (packets carry the payload), C17 (continuity counters), C18 (clock reference) of the transport stream writer.
-/
namespace Verif.Ts
open Fields Spec

theorem clock_value (t : Nat) (h : t < 2 ^ 62) : clockValue (toMpegTime t) = (clock90 t, 0) := by
  have h1 : t / 10000 * 27000 % 2 ^ 64 = t / 10000 * 27000 := Nat.mod_eq_of_lt (by omega)
  have h2 : t / 10000 * 27000 / 300 = t / 10000 * 90 := by omega
  have h3 : t / 10000 * 27000 % 300 = 0 := by omega
  simp only [clockValue, toMpegTime, h1, h2, h3, clock90]
  generalize hb : t / 10000 * 90 = b
  have m1 : b &&& 0x7FFF = b % 2 ^ 15 := Nat.and_two_pow_sub_one_eq_mod b 15
  have m2 : ∀ x : Nat, (x &&& 0x2FFFFFFF) % 2 ^ 15 = x % 2 ^ 15 := by
    intro x
    rw [← Nat.and_two_pow_sub_one_eq_mod, Nat.and_assoc, ← Nat.and_two_pow_sub_one_eq_mod x,
      show 0x2FFFFFFF &&& (2 ^ 15 - 1) = 2 ^ 15 - 1 by decide]
  have m3 : ∀ x : Nat, x % 2 ^ 32 % 2 ^ 15 = x % 2 ^ 15 := by intro x; omega
  rw [m1, m3, m2, Nat.shiftRight_eq_div_pow, Nat.shiftRight_eq_div_pow]
  have m4 : b / 2 ^ 30 % 2 ^ 32 % 8 = b / 2 ^ 30 % 8 := Nat.mod_mod_of_dvd _ ⟨2 ^ 29, by decide⟩
  have m5 : b / 2 ^ 30 = b / 2 ^ 15 / 2 ^ 15 := by rw [Nat.div_div_eq_div_mul]
  have m6 : b % 2 ^ 33 = b / 2 ^ 15 % 2 ^ 18 * 2 ^ 15 + b % 2 ^ 15 := by
    rw [show (2 : Nat) ^ 33 = 2 ^ 15 * 2 ^ 18 by decide, Nat.mod_mul]; omega
  have m7 : b / 2 ^ 15 % 2 ^ 18 = b / 2 ^ 15 / 2 ^ 15 % 8 * 2 ^ 15 + b / 2 ^ 15 % 2 ^ 15 := by
    rw [show (2 : Nat) ^ 18 = 2 ^ 15 * 8 by decide, Nat.mod_mul]; omega
  rw [m4, m5, m6, m7]
  have m8 : b % 2 ^ 15 % 2 ^ 15 = b % 2 ^ 15 := Nat.mod_mod _ _
  rw [m8]
  generalize b / 2 ^ 15 / 2 ^ 15 % 8 = x
  generalize b / 2 ^ 15 % 2 ^ 15 = y
  generalize b % 2 ^ 15 = z
  rw [show x * 2 ^ 30 + y * 2 ^ 15 + z = (x * 2 ^ 15 + y) * 2 ^ 15 + z by omega, Nat.zero_mod]

/-- C16, without the case of a random access payload that is one byte shorter than the room of the first packet
(`output_ts_short_random_access`). `firstRoom` is 184 minus the adaptation field of the first packet. -/
theorem output_ts_carries_payload_partial (s : State) (pid : Nat) (bytes : List UInt8) (beyond : Nat → UInt8) (ra : Bool)
    (pcr : Option Nat) (junk : Clock) (hpid : pid < 8192) (hpcr : ∀ t, pcr = some t → t < 2 ^ 62)
    (h : ra = true → bytes.length ≠ if pcr.isSome then 175 else 181) :
    ∃ (added : List UInt8) (p : Packet) (ps : List Packet),
      (outputTs s pid bytes beyond ra pcr junk).out = s.out ++ added ∧
      IsStream added (p :: ps) ∧
      (p :: ps).flatMap (·.payload) = bytes ∧
      (∀ q ∈ p :: ps, q.pid = pid) ∧
      p.start = true ∧ (∀ q ∈ ps, q.start = false) ∧
      p.randomAccess = ra ∧ (∀ q ∈ ps, q.randomAccess = false) ∧
      p.pcr = (if ra then pcr.map (fun t => (clock90 t, 0)) else none) ∧ (∀ q ∈ ps, q.pcr = none) := by
  have hg : Good bytes.length ra pcr := by
    intro hr
    have := h hr
    simp only [firstSize, hr]
    cases pcr <;> simp at this ⊢ <;> omega
  obtain ⟨p, ps, h1, h2, h3, h4, h5, h6, h7, _, _⟩ := outputBytes_stream (s.cc pid) pid bytes beyond ra pcr junk hg
  refine ⟨_, p, ps, rfl, h1, h2, ?_, h4, fun q hq => (h7 q hq).1, h5, fun q hq => (h7 q hq).2.1, ?_, fun q hq => (h7 q hq).2.2⟩
  · intro q hq; rw [h3 q hq]; exact Nat.mod_eq_of_lt hpid
  · rw [h6]
    cases pcr with
    | none => rfl
    | some t => simp [clock_value t (hpcr t rfl)]

/-- What happens in the excluded case: the receiver gets 2 (or 8) bytes of foreign memory behind the payload, and neither
random access flag nor clock reference. -/
theorem outputBytes_bad (cc0 pid : Nat) (bytes : List UInt8) (beyond : Nat → UInt8) (ra : Bool) (pcr : Option Nat) (junk : Clock)
    (h : ¬ Good bytes.length ra pcr) :
    IsStream (outputBytes cc0 pid bytes beyond ra pcr junk)
      [⟨true, pid % 8192, cc0 % 16, false, none, bytes ++ (List.range (183 - bytes.length)).map beyond⟩] ∧
      outputCount bytes.length ra pcr = 1 := by
  have h' : ra = true ∧ bytes.length + 1 = firstSize ra pcr := by
    unfold Good at h
    by_cases h1 : ra = true
    · exact ⟨h1, Decidable.byContradiction (fun h2 => h (fun _ => h2))⟩
    · exact (h (fun h2 => absurd h2 h1)).elim
  obtain ⟨hra, hs⟩ := h'
  subst hra
  have hle : bytes.length ≤ 181 := by
    cases pcr <;> simp [firstSize] at hs <;> omega
  have hlen : afLen bytes.length true pcr = 0 := by simp [afLen, ← hs]
  have hbody : firstBody bytes.length true pcr = 183 := by simp [firstBody, hlen]
  have hd : bytes.length - firstSize true pcr = 0 := by omega
  have hm : memcpy bytes beyond 0 183 = bytes ++ (List.range (183 - bytes.length)).map beyond := by
    simp only [memcpy, List.drop_zero]
    rw [List.take_append, List.take_of_length_le (by omega), ← List.map_take, List.take_range, Nat.min_eq_left (by omega)]
  refine ⟨?_, by simp [outputCount, hd]⟩
  simp only [outputBytes, hbody, hd]
  simp only [Nat.zero_div, Nat.zero_mod, fullLoop, List.append_nil, Bool.true_or, if_true, Nat.lt_irrefl, if_false, gt_iff_lt]
  apply isStream_one
  rw [parse_af]
  · simp [firstAF, hlen, hm]
  · simp [firstAF, hlen]
  · simp [firstAF, hlen, memcpy]
  · simp only [firstAF]
    cases pcr <;> simp [hlen]

theorem output_ts_short_random_access (s : State) (pid : Nat) (bytes : List UInt8) (beyond : Nat → UInt8) (pcr : Option Nat)
    (junk : Clock) (h : bytes.length = if pcr.isSome then 175 else 181) :
    ∃ (added : List UInt8) (p : Packet), (outputTs s pid bytes beyond true pcr junk).out = s.out ++ added ∧ IsStream added [p] ∧
      p.payload = bytes ++ (List.range (if pcr.isSome then 8 else 2)).map beyond ∧ p.randomAccess = false ∧ p.pcr = none := by
  have hg : ¬ Good bytes.length true pcr := by
    unfold Good
    intro h2
    apply h2 rfl
    rw [h]
    cases pcr <;> rfl
  have := (outputBytes_bad (s.cc pid) pid bytes beyond true pcr junk hg).1
  refine ⟨_, _, rfl, this, ?_, rfl, rfl⟩
  rw [h]
  cases pcr <;> rfl

/-! ### continuity -/

/-- Calls that write packets. -/
inductive Op where
  | output (pid : Nat) (bytes : List UInt8) (beyond : Nat → UInt8) (ra : Bool) (pcr : Option Nat) (junk : Clock)
  | tables (addr1 addr2 : Nat) (beyond : Nat → UInt8) (junk : Clock)
  | fill (pid : Nat) (junk : Clock)

def step (s : State) : Op → State
  | .output pid bytes beyond ra pcr junk => outputTs s pid bytes beyond ra pcr junk
  | .tables a b beyond junk => outputTables s a b beyond junk
  | .fill pid junk => fillPid s pid junk

/-- pids are 13 bit numbers -/
def Op.pidOk : Op → Prop
  | .output pid .. => pid < 8192
  | .tables .. => True
  | .fill pid _ => pid < 8192

theorem outputBytes_cc (cc0 pid : Nat) (bytes : List UInt8) (beyond : Nat → UInt8) (ra : Bool) (pcr : Option Nat) (junk : Clock) :
    ∃ ps : List Packet, IsStream (outputBytes cc0 pid bytes beyond ra pcr junk) ps ∧ (∀ q ∈ ps, q.pid = pid % 8192) ∧
      ps.length = outputCount bytes.length ra pcr ∧
      ps.map (·.cc) = (List.range ps.length).map (fun k => (cc0 + k) % 16) := by
  by_cases hg : Good bytes.length ra pcr
  · obtain ⟨p, ps, h1, _, h3, _, _, _, _, h8, h9⟩ := outputBytes_stream cc0 pid bytes beyond ra pcr junk hg
    exact ⟨p :: ps, h1, h3, h8, by rw [h9, h8]⟩
  · obtain ⟨h1, h2⟩ := outputBytes_bad cc0 pid bytes beyond ra pcr junk hg
    exact ⟨_, h1, by simp, by rw [h2]; rfl, by simp⟩

theorem fillLoop_cc (pid : Nat) (junk : Clock) (fuel : Nat) : ∀ cc, ∃ ps : List Packet,
    IsStream (fillLoop pid junk fuel cc).1 ps ∧ (∀ q ∈ ps, q.pid = pid % 8192 ∧ q.payload = []) ∧
      ps.map (·.cc) = (List.range ps.length).map (fun k => (cc + k) % 16) ∧
      (fillLoop pid junk fuel cc).2 % 16 = (cc + ps.length) % 16 := by
  induction fuel with
  | zero => intro cc; exact ⟨[], isStream_nil, by simp, rfl, rfl⟩
  | succ fuel ih =>
    intro cc
    rw [fillLoop]
    by_cases h : cc % 16 ≠ 0
    · rw [if_pos h]
      obtain ⟨ps, h1, h2, h3, h4⟩ := ih ((cc + 1) % 256)
      have hp : parse (packet 0 pid (some { initAF junk with len := 183 }) cc []) =
          some ⟨false, pid % 8192, cc % 16, false, none, []⟩ := by
        rw [parse_af _ _ _ _ _ (by simp) (by simp) (by simp [initAF])]
        simp [initAF]
      generalize packet 0 pid (some { initAF junk with len := 183 }) cc [] = pk at hp
      generalize fillLoop pid junk fuel ((cc + 1) % 256) = lr at h1 h4
      refine ⟨⟨false, pid % 8192, cc % 16, false, none, []⟩ :: ps, isStream_append (p := [_]) (isStream_one hp) h1, ?_, ?_, ?_⟩
      · intro q hq
        rcases List.mem_cons.mp hq with rfl | hq
        · exact ⟨rfl, rfl⟩
        · exact h2 q hq
      · rw [List.map_cons, h3, List.length_cons, List.range_succ_eq_map, List.map_cons, List.map_map]
        congr 1
        apply List.map_congr_left
        intro k _
        simp only [Function.comp]; omega
      · simp only [h4, List.length_cons]; omega
    · rw [if_neg h]
      exact ⟨[], isStream_nil, by simp, rfl, rfl⟩

theorem fillLoop_aligned (pid : Nat) (junk : Clock) (fuel : Nat) : ∀ cc, (16 - cc % 16) % 16 ≤ fuel →
    (fillLoop pid junk fuel cc).2 % 16 = 0 := by
  induction fuel with
  | zero => intro cc h; rw [fillLoop]; simp only; omega
  | succ fuel ih =>
    intro cc h
    rw [fillLoop]
    by_cases hc : cc % 16 ≠ 0
    · rw [if_pos hc]; exact ih _ (by omega)
    · rw [if_neg hc]; simp only; omega

/-- The loop of `fill_pid` ends with a counter that is a multiple of 16 (and 16 iterations are enough). -/
theorem fill_aligns (s : State) (pid : Nat) (junk : Clock) : (fillPid s pid junk).cc pid % 16 = 0 := by
  simp only [fillPid, if_true]
  exact fillLoop_aligned _ _ _ _ (by omega)

/-- invariant of a writer: its output is a stream in which every pid counts from its start value -/
def Inv (s0 : Nat → Nat) (s : State) : Prop :=
  ∃ ps : List Packet, IsStream s.out ps ∧ ∀ pid < 8192,
    counters ps pid = (List.range (counters ps pid).length).map (fun k => (s0 pid + k) % 16) ∧
    s.cc pid % 16 = (s0 pid + (counters ps pid).length) % 16

theorem counters_append (a b : List Packet) (pid : Nat) : counters (a ++ b) pid = counters a pid ++ counters b pid := by
  simp [counters]

theorem counters_all (ps : List Packet) (pid : Nat) (h : ∀ q ∈ ps, q.pid = pid) : counters ps pid = ps.map (·.cc) := by
  rw [counters, List.filter_eq_self.mpr]
  intro q hq; simp [h q hq]

theorem counters_other (ps : List Packet) (pid pid' : Nat) (h : ∀ q ∈ ps, q.pid = pid) (hn : pid' ≠ pid) : counters ps pid' = [] := by
  rw [counters, List.filter_eq_nil_iff.mpr]
  · rfl
  intro q hq; simp [h q hq, Ne.symm hn]

/-- adding packets of one pid that count on -/
theorem inv_add (s0 : Nat → Nat) (s s' : State) (added : List UInt8) (ps : List Packet) (pid : Nat) (hpid : pid < 8192)
    (hi : Inv s0 s) (hout : s'.out = s.out ++ added) (hs : IsStream added ps) (hp : ∀ q ∈ ps, q.pid = pid)
    (hc : ps.map (·.cc) = (List.range ps.length).map (fun k => (s.cc pid + k) % 16))
    (hcc : s'.cc pid % 16 = (s.cc pid + ps.length) % 16) (ho : ∀ p, p ≠ pid → s'.cc p = s.cc p) : Inv s0 s' := by
  obtain ⟨ps0, h1, h2⟩ := hi
  refine ⟨ps0 ++ ps, by rw [hout]; exact isStream_append h1 hs, ?_⟩
  intro p hp8
  obtain ⟨h3, h4⟩ := h2 p hp8
  by_cases hpp : p = pid
  · subst hpp
    rw [counters_append, counters_all ps p hp, hc]
    generalize hn : (counters ps0 p).length = n at *
    constructor
    · rw [h3, List.length_append, List.length_map, List.length_range, List.length_map, List.length_range, List.range_add,
        List.map_append, List.map_map]
      congr 1
      apply List.map_congr_left
      intro k _
      simp only [Function.comp]; omega
    · rw [hcc, List.length_append, List.length_map, List.length_range, hn]; omega
  · rw [counters_append, counters_other ps pid p hp hpp, List.append_nil, ho p hpp]
    exact ⟨h3, h4⟩

theorem inv_output (s0 : Nat → Nat) (s : State) (pid : Nat) (bytes : List UInt8) (beyond : Nat → UInt8) (ra : Bool) (pcr : Option Nat)
    (junk : Clock) (hpid : pid < 8192) (hi : Inv s0 s) : Inv s0 (outputTs s pid bytes beyond ra pcr junk) := by
  obtain ⟨ps, h1, h2, h3, h4⟩ := outputBytes_cc (s.cc pid) pid bytes beyond ra pcr junk
  refine inv_add s0 s _ _ ps pid hpid hi rfl h1 ?_ h4 ?_ ?_
  · intro q hq; rw [h2 q hq]; exact Nat.mod_eq_of_lt hpid
  · simp only [outputTs, if_true, h3]; omega
  · intro p hp; simp only [outputTs, if_neg hp]

theorem inv_congr (s0 : Nat → Nat) (s s' : State) (h1 : s'.out = s.out) (h2 : s'.cc = s.cc) (hi : Inv s0 s) : Inv s0 s' := by
  obtain ⟨ps, h3, h4⟩ := hi
  exact ⟨ps, by rw [h1]; exact h3, by rw [h2]; exact h4⟩

theorem inv_step (s0 : Nat → Nat) (s : State) (op : Op) (hop : op.pidOk) (hi : Inv s0 s) : Inv s0 (step s op) := by
  cases op with
  | output pid bytes beyond ra pcr junk => exact inv_output s0 s pid bytes beyond ra pcr junk hop hi
  | tables a b beyond junk =>
    simp only [step, outputTables]
    apply inv_output _ _ _ _ _ _ _ _ (by omega)
    apply inv_output _ _ _ _ _ _ _ _ (by omega)
    exact inv_congr s0 s _ rfl rfl hi
  | fill pid junk =>
    obtain ⟨ps, h1, h2, h3, h4⟩ := fillLoop_cc pid junk 16 (s.cc pid)
    refine inv_add s0 s _ _ ps pid hop hi rfl h1 ?_ h3 ?_ ?_
    · intro q hq; rw [(h2 q hq).1]; exact Nat.mod_eq_of_lt hop
    · simp only [step, fillPid, if_true, h4]
    · intro p hp; simp only [step, fillPid, if_neg hp]

/-- C17: whatever calls are made, the bytes written from a moment on are a stream of intact packets in which the continuity
counter of every pid goes up by one, modulo 16, from packet to packet, starting with the counter of that moment and
independently of the other pids. -/
theorem continuity (s : State) (ops : List Op) (hops : ∀ op ∈ ops, op.pidOk) :
    ∃ (added : List UInt8) (ps : List Packet), (ops.foldl step s).out = s.out ++ added ∧ IsStream added ps ∧
      ∀ pid < 8192, ∃ n, counters ps pid = (List.range n).map (fun k => (s.cc pid + k) % 16) := by
  have key : ∀ (ops : List Op), (∀ op ∈ ops, op.pidOk) → ∀ t : State, Inv s.cc t → Inv s.cc (ops.foldl step t) := by
    intro ops
    induction ops with
    | nil => intro _ t h; exact h
    | cons op ops ih =>
      intro ho t h
      exact ih (fun o h => ho o (List.mem_cons_of_mem _ h)) _ (inv_step _ _ _ (ho op (List.mem_cons_self ..)) h)
  have pre : ∀ (ops : List Op) (t : State), (ops.foldl step { t with out := s.out ++ t.out }).out = s.out ++ (ops.foldl step t).out ∧ True := by
    intro ops
    induction ops with
    | nil => intro t; exact ⟨rfl, trivial⟩
    | cons op ops ih =>
      intro t
      have e : step { t with out := s.out ++ t.out } op = { step t op with out := s.out ++ (step t op).out } := by
        cases op <;> simp [step, outputTs, outputTables, fillPid, List.append_assoc]
      rw [List.foldl_cons, e]; exact ih (step t op)
  obtain ⟨ps, h1, h2⟩ := key ops hops { s with out := [] } ⟨[], isStream_nil, fun pid _ => ⟨rfl, rfl⟩⟩
  refine ⟨_, ps, ?_, h1, fun pid hp => ⟨_, (h2 pid hp).1⟩⟩
  have := (pre ops { s with out := [] }).1
  simpa using this

/-- C17: after `fill_pid` the number of packets of that pid since the counter was 0 is a multiple of 16. -/
theorem fill_completes_cycle (s : State) (ops : List Op) (hops : ∀ op ∈ ops, op.pidOk) (pid : Nat) (hp : pid < 8192) (junk : Clock)
    (h0 : s.cc pid = 0) (hout : s.out = []) :
    ∃ ps : List Packet, IsStream ((ops ++ [Op.fill pid junk]).foldl step s).out ps ∧ 16 ∣ (counters ps pid).length := by
  have key : ∀ (ops : List Op), (∀ op ∈ ops, op.pidOk) → ∀ t : State, Inv s.cc t → Inv s.cc (ops.foldl step t) := by
    intro ops
    induction ops with
    | nil => intro _ t h; exact h
    | cons op ops ih =>
      intro ho t h
      exact ih (fun o h => ho o (List.mem_cons_of_mem _ h)) _ (inv_step _ _ _ (ho op (List.mem_cons_self ..)) h)
  obtain ⟨ps, h1, h2⟩ := key (ops ++ [.fill pid junk]) (by
    intro op hop
    rcases List.mem_append.mp hop with h | h
    · exact hops op h
    · rw [List.mem_singleton.mp h]; exact hp) s ⟨[], by rw [hout]; exact isStream_nil, fun p _ => ⟨rfl, rfl⟩⟩
  refine ⟨ps, h1, ?_⟩
  have h3 := (h2 pid hp).2
  rw [List.foldl_append, List.foldl_cons, List.foldl_nil] at h3
  have h4 : (step (ops.foldl step s) (.fill pid junk)).cc pid % 16 = 0 := fill_aligns _ _ _
  rw [h4, h0] at h3
  omega

/-- C18: the clock reference of a packet, put together by a receiver, is the 90 kHz time modulo 2^33. -/
theorem pcr_survives (s : State) (pid : Nat) (bytes : List UInt8) (beyond : Nat → UInt8) (t : Nat) (junk : Clock) (ht : t < 2 ^ 62)
    (hpid : pid < 8192) (h : bytes.length ≠ 175) :
    ∃ (added : List UInt8) (p : Packet) (ps : List Packet), (outputTs s pid bytes beyond true (some t) junk).out = s.out ++ added ∧
      IsStream added (p :: ps) ∧ p.pcr = some (t / 10000 * 90 % 2 ^ 33, 0) := by
  obtain ⟨added, p, ps, h1, h2, _, _, _, _, _, _, h3, _⟩ := output_ts_carries_payload_partial s pid bytes beyond true (some t) junk hpid
    (by intro u hu; cases hu; exact ht) (by intro _; simpa using h)
  exact ⟨added, p, ps, h1, h2, by simpa [clock90] using h3⟩

/-- concrete case: 400 bytes with random access and clock, 3 packets -/
example : (outputTs (init (fun _ => 0) (fun _ => 0) 0 0 0) 0x100 (List.replicate 400 7) (fun _ => 0) true (some 900000000) ⟨0, 0, 0, 0⟩).out.length = 3 * 188 := by
  decide +kernel

example : (parse ((outputTs (init (fun _ => 0) (fun _ => 0) 0 0 0) 0x100 (List.replicate 400 7) (fun _ => 0) true
    (some 900000000) ⟨0, 0, 0, 0⟩).out.take 188)).map (fun p => (p.start, p.pid, p.pcr, p.payload.length)) =
    some (true, 0x100, some (8100000, 0), 176) := by
  decide +kernel

/-- and a payload of 181 bytes with random access: two foreign bytes (here 9) reach the receiver -/
example : (parse (outputTs (init (fun _ => 0) (fun _ => 0) 0 0 0) 0x100 (List.replicate 181 7) (fun _ => 9) true
    none ⟨0, 0, 0, 0⟩).out).map (fun p => (p.randomAccess, p.payload.drop 180)) =
    some (false, [7, 9, 9]) := by
  decide +kernel

end Verif.Ts
