import Verif.Parse.Model
namespace Verif.Parse
open Verif.Tables (sub64)
open Verif.Fragment (fourcc)

theorem bind_ok {α β : Type} {x : Res α} {f : α → Res β} {y : β} : (x >>= f) = .ok y ↔ ∃ a, x = .ok a ∧ f a = .ok y := by
  cases x with
  | error e => simp [bind, Except.bind]
  | ok a => simp [bind, Except.bind]

theorem get_le {n : Nat} {r r' : List UInt8} {v : Nat} (h : get n r = .ok (v, r')) : r'.length + n = r.length := by
  unfold get at h; split at h
  · cases h; simp; omega
  · cases h

theorem getBytes_le {n : Nat} {r r' v : List UInt8} (h : getBytes n r = .ok (v, r')) : r'.length + n = r.length := by
  unfold getBytes at h; split at h
  · cases h; simp; omega
  · cases h

theorem pass_le {n : Nat} {r r' : List UInt8} (h : pass n r = .ok r') : r'.length + n = r.length := by
  unfold pass at h; split at h
  · cases h; simp; omega
  · cases h

theorem getFull_le {r r' : List UInt8} {v : Nat} (h : getFull r = .ok (v, r')) : r'.length + 4 = r.length := by
  unfold getFull at h
  obtain ⟨⟨a, r1⟩, h1, h⟩ := bind_ok.1 h
  obtain ⟨⟨b, r2⟩, h2, h⟩ := bind_ok.1 h
  cases h
  have := get_le h1; have := get_le h2; omega

theorem getWords_le : ∀ {n : Nat} {r r' : List UInt8} {v : List Nat}, getWords n r = .ok (v, r') → r'.length ≤ r.length
  | 0, r, r', v, h => by cases h; omega
  | n + 1, r, r', v, h => by
    unfold getWords at h
    obtain ⟨⟨a, r1⟩, h1, h⟩ := bind_ok.1 h
    obtain ⟨⟨b, r2⟩, h2, h⟩ := bind_ok.1 h
    cases h
    have := get_le h1; have := getWords_le h2; omega

theorem getBox_le {N : Nat} {r r' : List UInt8} {h : Hdr} (e : getBox N r = .ok (h, r')) : r'.length + 8 ≤ r.length := by
  unfold getBox at e
  obtain ⟨⟨a, r1⟩, h1, e⟩ := bind_ok.1 e
  obtain ⟨⟨b, r2⟩, h2, e⟩ := bind_ok.1 e
  obtain ⟨⟨c, r3⟩, h3, e⟩ := bind_ok.1 e
  obtain ⟨⟨d, r4⟩, h4, e⟩ := bind_ok.1 e
  cases e
  have a1 := get_le h1; have a2 := get_le h2
  have a3 : r3.length ≤ r2.length := by
    unfold longSize at h3; split at h3
    · have := get_le h3; omega
    · cases h3; omega
  have a4 : r'.length ≤ r3.length := by
    unfold uuidSize at h4
    by_cases hu : b = fourcc 'u' 'u' 'i' 'd'
    · rw [if_pos hu] at h4
      obtain ⟨r5, h5, h4⟩ := bind_ok.1 h4
      have := pass_le h5
      have : r5 = r' := (Prod.mk.inj (Except.ok.inj h4)).2
      subst this; omega
    · rw [if_neg hu] at h4
      have : r3 = r' := (Prod.mk.inj (Except.ok.inj h4)).2
      subst this; omega
  omega

theorem skip_le (h : Hdr) (r : List UInt8) : (skip h r).length ≤ r.length := by unfold skip; simp

theorem skip_nil (h : Hdr) : skip h [] = [] := by simp [skip]

theorem doBox_nil (N : Nat) (h : Hdr) : doBox N h [] = .ok (h, []) := rfl

theorem doBox_cons {N : Nat} {h : Hdr} {r : List UInt8} (hr : r ≠ []) : doBox N h r = getBox N r := if_neg hr

theorem doBox_le {N : Nat} {h h' : Hdr} {r r' : List UInt8} (e : doBox N h r = .ok (h', r')) : r'.length ≤ r.length := by
  by_cases hr : r = []
  · subst hr; cases e; simp
  · rw [doBox_cons hr] at e; have := getBox_le e; omega

/-! ### The boxes of a picture entry -/

theorem pass_nil {n : Nat} (hn : 0 < n) : pass n [] = .error .thrown := by unfold pass; simp; omega
theorem get_nil {n : Nat} (hn : 0 < n) : get n [] = .error .thrown := by unfold get; simp; omega
theorem getFull_nil : getFull [] = .error .thrown := rfl

theorem getBytes_nil {n : Nat} {b r : List UInt8} (h : getBytes n [] = .ok (b, r)) : b = [] ∧ r = [] := by
  unfold getBytes at h; split at h
  · cases h; simp
  · cases h

theorem bind_ok_eq {α β : Type} (a : α) (f : α → Res β) : ((Except.ok a : Res α) >>= f) = f a := rfl
theorem bind_err_eq {α β : Type} (e : Stop) (f : α → Res β) : ((Except.error e : Res α) >>= f) = .error e := rfl

theorem bind_congr' {α β : Type} {x : Res α} {f g : α → Res β} (h : ∀ a, x = .ok a → f a = g a) : (x >>= f) = (x >>= g) := by
  cases x with
  | error e => rfl
  | ok a => exact h a rfl

/-- One box of a picture entry: its decoder configuration, if it has one. -/
def visualOne (ok : Accept) (h : Hdr) (c : Option (List UInt8)) (r : List UInt8) : Res (Option (List UInt8) × List UInt8) :=
  match known h.type with
  | .avcC => do
    let (b, r) ← getBytes (sub64 h.size 8) r
    if ok.visual b then .ok (some b, r) else .error .thrown
  | .btrt => do
    let r ← pass 12 r
    .ok (c, r)
  | .pasp => do
    let r ← pass 8 r
    .ok (c, r)
  | _ => .ok (c, skip h r)

theorem visual_succ (ok : Accept) (N stop n : Nat) (h : Hdr) (c : Option (List UInt8)) (r : List UInt8) :
    visualBoxes ok N stop (n + 1) h c r = if N - r.length < stop then
      doBox N h r >>= fun x => visualOne ok x.1 c x.2 >>= fun y => visualBoxes ok N stop n x.1 y.1 y.2
    else .ok (c, h, r) := by
  rw [visualBoxes]
  split
  · refine bind_congr' fun ⟨h1, r1⟩ _ => ?_
    simp only [visualOne]
    generalize known h1.type = k
    cases k
    case avcC =>
      simp only
      cases getBytes (sub64 h1.size 8) r1 with
      | error e => rfl
      | ok x =>
        obtain ⟨b, r2⟩ := x
        simp only [bind_ok_eq]
        cases ok.visual b <;> rfl
    case btrt => cases pass 12 r1 <;> rfl
    case pasp => cases pass 8 r1 <;> rfl
    all_goals rfl
  · rfl

theorem visualOne_le {ok : Accept} {h : Hdr} {c c' : Option (List UInt8)} {r r' : List UInt8} (e : visualOne ok h c r = .ok (c', r')) : r'.length ≤ r.length := by
  unfold visualOne at e
  generalize known h.type = k at e
  cases k
  case avcC =>
    obtain ⟨⟨b, r2⟩, e2, e⟩ := bind_ok.1 e
    have := getBytes_le e2
    simp only at e
    split at e <;> cases e
    omega
  case btrt =>
    obtain ⟨r2, e2, e⟩ := bind_ok.1 e
    have := pass_le e2; cases e; omega
  case pasp =>
    obtain ⟨r2, e2, e⟩ := bind_ok.1 e
    have := pass_le e2; cases e; omega
  all_goals (cases e; exact skip_le _ _)

/-- Without bytes, nothing depends on what was read before. -/
theorem visualOne_nil (ok : Accept) (h : Hdr) (c : Option (List UInt8)) :
    (∃ c', visualOne ok h c [] = .ok (c', []) ∧ ∀ d, ∃ d', visualOne ok h d [] = .ok (d', [])) ∨ (∀ d, visualOne ok h d [] = .error .thrown) := by
  unfold visualOne
  generalize known h.type = k
  cases k
  case avcC =>
    simp only
    unfold getBytes
    split
    · simp only [bind_ok_eq, List.take_nil, List.drop_nil]
      cases ok.visual [] <;> simp
    · exact .inr fun _ => rfl
  case btrt => exact .inr fun _ => by rw [pass_nil (by omega)]; rfl
  case pasp => exact .inr fun _ => by rw [pass_nil (by omega)]; rfl
  all_goals (simp only [skip_nil]; exact .inl ⟨c, rfl, fun d => ⟨d, rfl⟩⟩)

theorem visual_nil (ok : Accept) (N stop : Nat) (h : Hdr) : ∀ (n : Nat) (c : Option (List UInt8)),
    visualBoxes ok N stop (n + 1) h c [] = visualBoxes ok N stop 1 h c []
  | 0, _ => rfl
  | n + 1, c => by
    rw [visual_succ, visual_succ ok N stop 0]
    split
    · rename_i hlt
      simp only [doBox_nil, bind_ok_eq]
      rcases visualOne_nil ok h c with ⟨c', e, all⟩ | all
      · rw [e]
        simp only [bind_ok_eq]
        rw [visual_nil ok N stop h n, visual_succ, if_pos hlt]
        obtain ⟨d', e'⟩ := all c'
        simp only [doBox_nil, bind_ok_eq, e']
        rfl
      · rw [all]; rfl
    · rfl

theorem visual_le (ok : Accept) (N stop : Nat) : ∀ (n : Nat) (h h' : Hdr) (c c' : Option (List UInt8)) (r r' : List UInt8),
    visualBoxes ok N stop n h c r = .ok (c', h', r') → r'.length ≤ r.length
  | 0, _, _, _, _, _, _, e => by cases e
  | n + 1, h, h', c, c', r, r', e => by
    rw [visual_succ] at e
    split at e
    · obtain ⟨⟨h1, r1⟩, e1, e⟩ := bind_ok.1 e
      obtain ⟨⟨c2, r2⟩, e2, e⟩ := bind_ok.1 e
      have a1 := doBox_le e1
      have a2 := visualOne_le e2
      have := visual_le ok N stop n _ _ _ _ _ _ e
      simp only at a2 this; omega
    · cases e; omega

/-- More steps than bytes left change nothing. -/
theorem visual_stable (ok : Accept) (N stop : Nat) : ∀ (n m : Nat) (h : Hdr) (c : Option (List UInt8)) (r : List UInt8),
    r.length < n → r.length < m → visualBoxes ok N stop n h c r = visualBoxes ok N stop m h c r
  | 0, _, _, _, _, hn, _ => by omega
  | _ + 1, 0, _, _, _, _, hm => by omega
  | n + 1, m + 1, h, c, r, hn, hm => by
    by_cases hr : r = []
    · subst hr; rw [visual_nil, visual_nil ok N stop h m]
    · rw [visual_succ, visual_succ ok N stop m]
      split
      · refine bind_congr' fun ⟨h1, r1⟩ e1 => ?_
        rw [doBox_cons hr] at e1
        have a1 := getBox_le e1
        refine bind_congr' fun ⟨c2, r2⟩ e2 => ?_
        have a2 := visualOne_le e2
        simp only at a2
        exact visual_stable ok N stop n m _ _ _ (by simp only; omega) (by simp only; omega)
      · rfl

theorem visualEntry_le {ok : Accept} {F N : Nat} {h h' : Hdr} {r r' : List UInt8} {x : Entry} (e : visualEntry ok F N h r = .ok (x, h', r')) : r'.length ≤ r.length := by
  unfold visualEntry at e
  obtain ⟨r1, e1, e⟩ := bind_ok.1 e
  obtain ⟨⟨w, r2⟩, e2, e⟩ := bind_ok.1 e
  obtain ⟨⟨hh, r3⟩, e3, e⟩ := bind_ok.1 e
  obtain ⟨r4, e4, e⟩ := bind_ok.1 e
  obtain ⟨⟨s, r5⟩, e5, e⟩ := bind_ok.1 e
  obtain ⟨r6, e6, e⟩ := bind_ok.1 e
  obtain ⟨r7, e7, e⟩ := bind_ok.1 e
  obtain ⟨⟨c, h8, r8⟩, e8, e⟩ := bind_ok.1 e
  cases e
  have := pass_le e1; have := get_le e2; have := get_le e3; have := pass_le e4; have := get_le e5; have := pass_le e6; have := pass_le e7
  have := visual_le _ _ _ _ _ _ _ _ _ _ e8
  omega

theorem visualEntry_stable {ok : Accept} {F G N : Nat} {h : Hdr} {r : List UInt8} (hF : r.length < F) (hG : r.length < G) :
    visualEntry ok F N h r = visualEntry ok G N h r := by
  unfold visualEntry
  refine bind_congr' fun r1 e1 => ?_
  refine bind_congr' fun ⟨w, r2⟩ e2 => ?_
  refine bind_congr' fun ⟨hh, r3⟩ e3 => ?_
  refine bind_congr' fun r4 e4 => ?_
  refine bind_congr' fun ⟨s, r5⟩ e5 => ?_
  refine bind_congr' fun r6 e6 => ?_
  refine bind_congr' fun r7 e7 => ?_
  have := pass_le e1; have := get_le e2; have := get_le e3; have := pass_le e4; have := get_le e5; have := pass_le e6; have := pass_le e7
  rw [visual_stable ok N _ F G h none r7 (by omega) (by omega)]

theorem audioEntry_le {ok : Accept} {N : Nat} {h h' : Hdr} {r r' : List UInt8} {x : Entry} (e : audioEntry ok N h r = .ok (x, h', r')) : r'.length ≤ r.length := by
  unfold audioEntry at e
  obtain ⟨r1, e1, e⟩ := bind_ok.1 e
  obtain ⟨⟨w, r2⟩, e2, e⟩ := bind_ok.1 e
  obtain ⟨r3, e3, e⟩ := bind_ok.1 e
  obtain ⟨⟨w4, r4⟩, e4, e⟩ := bind_ok.1 e
  have := pass_le e1; have := get_le e2; have := pass_le e3; have := get_le e4
  simp only at e
  split at e
  · obtain ⟨⟨b, r5⟩, e5, e⟩ := bind_ok.1 e
    have := getBytes_le e5
    simp only at e
    split at e
    · cases e
    · cases e; omega
  · cases e; omega

theorem map_eq_ok {α β : Type} {x : Res α} {f : α → β} {y : β} : (x.map f) = .ok y ↔ ∃ a, x = .ok a ∧ f a = y := by
  cases x with
  | error e => simp [Except.map]
  | ok a => simp [Except.map]

theorem sampleEntry_le {ok : Accept} {F N : Nat} {k : Handler} {h h' : Hdr} {r r' : List UInt8} {x : Option Entry} (e : sampleEntry ok F N k h r = .ok (x, h', r')) : r'.length ≤ r.length := by
  cases k with
  | vide => obtain ⟨⟨a, b, c⟩, e1, e2⟩ := map_eq_ok.1 e; cases e2; exact visualEntry_le e1
  | soun => obtain ⟨⟨a, b, c⟩, e1, e2⟩ := map_eq_ok.1 e; cases e2; exact audioEntry_le e1
  | text => cases e; exact skip_le _ _

theorem sampleEntry_stable {ok : Accept} {F G N : Nat} {k : Handler} {h : Hdr} {r : List UInt8} (hF : r.length < F) (hG : r.length < G) :
    sampleEntry ok F N k h r = sampleEntry ok G N k h r := by
  cases k with
  | vide => unfold sampleEntry; simp only; rw [visualEntry_stable hF hG]
  | soun => rfl
  | text => rfl

theorem sampleEntries_le (ok : Accept) (F N : Nat) (k : Handler) : ∀ (n : Nat) (h h' : Hdr) (r r' : List UInt8) (x : List Entry),
    sampleEntries ok F N k n h r = .ok (x, h', r') → r'.length ≤ r.length
  | 0, _, _, _, _, _, e => by cases e; omega
  | n + 1, h, h', r, r', x, e => by
    unfold sampleEntries at e
    obtain ⟨⟨h1, r1⟩, e1, e⟩ := bind_ok.1 e
    obtain ⟨⟨a, h2, r2⟩, e2, e⟩ := bind_ok.1 e
    obtain ⟨⟨b, h3, r3⟩, e3, e⟩ := bind_ok.1 e
    cases e
    have := doBox_le e1; have := sampleEntry_le e2; have := sampleEntries_le ok F N k n _ _ _ _ _ e3
    omega

theorem sampleEntries_stable (ok : Accept) (F G N : Nat) (k : Handler) : ∀ (n : Nat) (h : Hdr) (r : List UInt8), r.length < F → r.length < G →
    sampleEntries ok F N k n h r = sampleEntries ok G N k n h r
  | 0, _, _, _, _ => rfl
  | n + 1, h, r, hF, hG => by
    unfold sampleEntries
    refine bind_congr' fun ⟨h1, r1⟩ e1 => ?_
    have a1 := doBox_le e1
    simp only
    rw [sampleEntry_stable (F := F) (G := G) (by omega) (by omega)]
    refine bind_congr' fun ⟨a, h2, r2⟩ e2 => ?_
    have a2 := sampleEntry_le e2
    simp only
    rw [sampleEntries_stable ok F G N k n h2 r2 (by omega) (by omega)]


/-! ### The boxes of a handler -/

theorem getDref_le {N : Nat} {r r' : List UInt8} (e : getDref N r = .ok r') : r'.length ≤ r.length := by
  unfold getDref at e
  obtain ⟨⟨a, r1⟩, e1, e⟩ := bind_ok.1 e
  obtain ⟨⟨b, r2⟩, e2, e⟩ := bind_ok.1 e
  obtain ⟨⟨c, r3⟩, e3, e⟩ := bind_ok.1 e
  obtain ⟨⟨d, r4⟩, e4, e⟩ := bind_ok.1 e
  cases e
  have := getFull_le e1; have := get_le e2; have := getBox_le e3; have := getFull_le e4
  omega

/-- One box of a handler: the entries, if it is the description of the samples. -/
def handlerOne (ok : Accept) (F N : Nat) (k : Handler) (h : Hdr) (r : List UInt8) : Res (Option (List Entry) × Hdr × List UInt8) :=
  match known h.type with
  | .stbl => .ok (none, h, r)
  | .dinf => .ok (none, h, r)
  | .dref => do
    let r ← getDref N r
    .ok (none, h, r)
  | .stsd => do
    let (_, r) ← getFull r
    let (n, r) ← get 4 r
    let (es, h, r) ← sampleEntries ok F N k n h r
    .ok (if n = 0 then none else some es, h, r)
  | _ => .ok (none, h, skip h r)

/-- The part behind it. -/
def handlerMore (ok : Accept) (F N stop : Nat) (k : Handler) (fuel : Nat) (x : Option (List Entry) × Hdr × List UInt8) : Res (List Entry × Hdr × List UInt8) :=
  match x.1 with
  | some es => .ok (es, x.2)
  | none =>
    if k = .text then .ok ([], x.2.1, skip x.2.1 x.2.2)
    else if stop ≤ N - x.2.2.length then .error .thrown
    else doBox N x.2.1 x.2.2 >>= fun y => handlerBoxes ok F N stop k fuel y.1 y.2

theorem handler_succ (ok : Accept) (F N stop : Nat) (k : Handler) (n : Nat) (h : Hdr) (r : List UInt8) :
    handlerBoxes ok F N stop k (n + 1) h r = handlerOne ok F N k h r >>= handlerMore ok F N stop k n := by
  rw [handlerBoxes]
  simp only [handlerOne]
  generalize known h.type = q
  cases q
  case dref => cases getDref N r <;> rfl
  case stsd =>
    simp only
    cases getFull r with
    | error e => rfl
    | ok x =>
      obtain ⟨v, r1⟩ := x
      simp only [bind_ok_eq]
      cases get 4 r1 with
      | error e => rfl
      | ok x =>
        obtain ⟨c, r2⟩ := x
        simp only [bind_ok_eq]
        cases sampleEntries ok F N k c h r2 with
        | error e => rfl
        | ok x =>
          obtain ⟨es, h3, r3⟩ := x
          simp only [bind_ok_eq]
          by_cases hc : c = 0
          · simp only [hc, if_true]; rfl
          · simp only [hc, if_false]; rfl
  all_goals rfl

theorem handlerOne_le {ok : Accept} {F N : Nat} {k : Handler} {h h' : Hdr} {r r' : List UInt8} {x : Option (List Entry)}
    (e : handlerOne ok F N k h r = .ok (x, h', r')) : r'.length ≤ r.length := by
  unfold handlerOne at e
  generalize known h.type = q at e
  cases q
  case stbl => cases e; omega
  case dinf => cases e; omega
  case dref =>
    obtain ⟨r2, e2, e⟩ := bind_ok.1 e
    have := getDref_le e2; cases e; omega
  case stsd =>
    obtain ⟨⟨v, r1⟩, e1, e⟩ := bind_ok.1 e
    obtain ⟨⟨c, r2⟩, e2, e⟩ := bind_ok.1 e
    obtain ⟨⟨es, h3, r3⟩, e3, e⟩ := bind_ok.1 e
    cases e
    have := getFull_le e1; have := get_le e2; have := sampleEntries_le _ _ _ _ _ _ _ _ _ _ e3
    omega
  all_goals (cases e; exact skip_le _ _)

theorem handlerOne_stable {ok : Accept} {F G N : Nat} {k : Handler} {h : Hdr} {r : List UInt8} (hF : r.length < F) (hG : r.length < G) :
    handlerOne ok F N k h r = handlerOne ok G N k h r := by
  unfold handlerOne
  generalize known h.type = q
  cases q
  case stsd =>
    refine bind_congr' fun ⟨v, r1⟩ e1 => ?_
    refine bind_congr' fun ⟨c, r2⟩ e2 => ?_
    have := getFull_le e1; have := get_le e2
    simp only
    rw [sampleEntries_stable ok F G N k c h r2 (by omega) (by omega)]
  all_goals rfl

theorem handlerOne_nil (ok : Accept) (F N : Nat) (k : Handler) (h : Hdr) :
    handlerOne ok F N k h [] = .ok (none, h, []) ∨ handlerOne ok F N k h [] = .error .thrown := by
  unfold handlerOne
  generalize known h.type = q
  cases q
  case dref => exact .inr rfl
  case stsd => exact .inr rfl
  all_goals exact .inl (by simp only [skip_nil])

theorem handler_nil (ok : Accept) (F N stop : Nat) (k : Handler) (h : Hdr) : ∀ (n : Nat),
    handlerBoxes ok F N stop k (n + 1) h [] = handlerBoxes ok F N stop k 1 h []
  | 0 => rfl
  | n + 1 => by
    rw [handler_succ, handler_succ ok F N stop k 0]
    rcases handlerOne_nil ok F N k h with e | e
    · rw [e]
      simp only [bind_ok_eq, handlerMore]
      split
      · rfl
      · split
        · rfl
        · rename_i h1 h2
          simp only [doBox_nil, bind_ok_eq]
          rw [handler_nil ok F N stop k h n, handler_succ, e]
          simp only [bind_ok_eq, handlerMore, h1, h2, if_false, doBox_nil]
    · rw [e]; rfl

theorem handler_le (ok : Accept) (F N stop : Nat) (k : Handler) : ∀ (n : Nat) (h h' : Hdr) (r r' : List UInt8) (x : List Entry),
    handlerBoxes ok F N stop k n h r = .ok (x, h', r') → r'.length ≤ r.length
  | 0, _, _, _, _, _, e => by cases e
  | n + 1, h, h', r, r', x, e => by
    rw [handler_succ] at e
    obtain ⟨⟨o, h1, r1⟩, e1, e⟩ := bind_ok.1 e
    have a1 := handlerOne_le e1
    unfold handlerMore at e
    cases o with
    | some es => cases e; exact a1
    | none =>
      simp only at e
      split at e
      · cases e; exact Nat.le_trans (skip_le _ _) a1
      · split at e
        · cases e
        · obtain ⟨⟨h2, r2⟩, e2, e⟩ := bind_ok.1 e
          have a2 := doBox_le e2
          have := handler_le ok F N stop k n _ _ _ _ _ e
          simp only at this; omega

theorem handler_stable (ok : Accept) (F G N stop : Nat) (k : Handler) : ∀ (n m : Nat) (h : Hdr) (r : List UInt8),
    r.length < n → r.length < m → r.length < F → r.length < G → handlerBoxes ok F N stop k n h r = handlerBoxes ok G N stop k m h r
  | 0, _, _, _, hn, _, _, _ => by omega
  | _ + 1, 0, _, _, _, hm, _, _ => by omega
  | n + 1, m + 1, h, r, hn, hm, hF, hG => by
    have base : ∀ h, handlerBoxes ok F N stop k 1 h [] = handlerBoxes ok G N stop k 1 h [] := by
      intro h
      rw [handler_succ, handler_succ ok G N stop k 0, handlerOne_stable (F := F) (G := G) (by simp; omega) (by simp; omega)]
      rfl
    by_cases hr0 : r = []
    · subst hr0
      rw [handler_nil, handler_nil ok G N stop k _ m, base]
    have hp : 0 < r.length := List.length_pos_iff.2 hr0
    rw [handler_succ, handler_succ ok G N stop k m, handlerOne_stable hF hG]
    refine bind_congr' fun ⟨o, h1, r1⟩ e1 => ?_
    have a1 := handlerOne_le e1
    unfold handlerMore
    cases o with
    | some es => rfl
    | none =>
      simp only
      split
      · rfl
      · split
        · rfl
        · by_cases hr : r1 = []
          · subst hr
            simp only [doBox_nil, bind_ok_eq]
            obtain ⟨n', rfl⟩ := Nat.exists_eq_succ_of_ne_zero (show n ≠ 0 by omega)
            obtain ⟨m', rfl⟩ := Nat.exists_eq_succ_of_ne_zero (show m ≠ 0 by omega)
            rw [handler_nil, handler_nil ok G N stop k _ m', base]
          · rw [doBox_cons hr]
            refine bind_congr' fun ⟨h2, r2⟩ e2 => ?_
            have a2 := getBox_le e2
            exact handler_stable ok F G N stop k n m _ _ (by simp only; omega) (by simp only; omega) (by simp only; omega) (by simp only; omega)


theorem mediaHeader_le {N : Nat} {k : Handler} {h h' : Hdr} {r r' : List UInt8} (e : mediaHeader N k h r = .ok (h', r')) : r'.length ≤ r.length := by
  unfold mediaHeader at e
  generalize known h.type = q at e
  cases k <;> cases q
  case vide.vmhd =>
    obtain ⟨r2, e2, e⟩ := bind_ok.1 e
    have := pass_le e2; have := doBox_le e; omega
  case soun.smhd =>
    obtain ⟨r2, e2, e⟩ := bind_ok.1 e
    have := pass_le e2; have := doBox_le e; omega
  all_goals first
    | (cases e; omega)
    | exact Nat.le_trans (doBox_le e) (skip_le _ _)

theorem handlerParse_le {ok : Accept} {F N : Nat} {k : Handler} {h h' : Hdr} {r r' : List UInt8} {x : List Entry}
    (e : handlerParse ok F N k h r = .ok (x, h', r')) : r'.length ≤ r.length := by
  unfold handlerParse at e
  obtain ⟨⟨h1, r1⟩, e1, e⟩ := bind_ok.1 e
  obtain ⟨⟨h2, r2⟩, e2, e⟩ := bind_ok.1 e
  have := doBox_le e1; have := mediaHeader_le e2; have := handler_le _ _ _ _ _ _ _ _ _ _ _ e
  omega

theorem handlerParse_stable {ok : Accept} {F G N : Nat} {k : Handler} {h : Hdr} {r : List UInt8} (hF : r.length < F) (hG : r.length < G) :
    handlerParse ok F N k h r = handlerParse ok G N k h r := by
  unfold handlerParse
  refine bind_congr' fun ⟨h1, r1⟩ e1 => ?_
  refine bind_congr' fun ⟨h2, r2⟩ e2 => ?_
  have := doBox_le e1; have := mediaHeader_le e2
  exact handler_stable ok F G N _ k _ _ _ _ (by omega) (by omega) (by omega) (by omega)

/-- At the end of the data a media handler is only left alone. -/
theorem handlerParse_nil {ok : Accept} {F N : Nat} {k : Handler} {h h' : Hdr} {r' : List UInt8} {es : List Entry} (hk : known h.type = .minf)
    (e : handlerParse ok F N k h [] = .ok (es, h', r')) : es = [] ∧ h' = h ∧ r' = [] := by
  unfold handlerParse at e
  simp only [doBox_nil, bind_ok_eq] at e
  have hm : mediaHeader N k h [] = .ok (h, []) := by
    unfold mediaHeader
    rw [hk]
    cases k
    case text => simp only [skip_nil, doBox_nil]
    all_goals rfl
  rw [hm] at e
  simp only [bind_ok_eq] at e
  cases F with
  | zero => cases e
  | succ F =>
    rw [handler_nil, handler_succ] at e
    rcases handlerOne_nil ok (F + 1) N k h with e1 | e1
    · rw [e1] at e
      simp only [bind_ok_eq, handlerMore] at e
      split at e
      · rw [skip_nil] at e; cases e; exact ⟨rfl, rfl, rfl⟩
      · split at e <;> cases e
    · rw [e1] at e; cases e

/-! ### The boxes of a track -/

theorem getTkhd_le {t t' : TrackRd} {r r' : List UInt8} (e : getTkhd t r = .ok (t', r')) : r'.length + 4 ≤ r.length := by
  unfold getTkhd at e
  obtain ⟨⟨v, r1⟩, e1, e⟩ := bind_ok.1 e
  obtain ⟨r2, e2, e⟩ := bind_ok.1 e
  obtain ⟨⟨a3, r3⟩, e3, e⟩ := bind_ok.1 e
  obtain ⟨r4, e4, e⟩ := bind_ok.1 e
  obtain ⟨⟨a5, r5⟩, e5, e⟩ := bind_ok.1 e
  obtain ⟨r6, e6, e⟩ := bind_ok.1 e
  obtain ⟨⟨a7, r7⟩, e7, e⟩ := bind_ok.1 e
  obtain ⟨r8, e8, e⟩ := bind_ok.1 e
  obtain ⟨⟨a9, r9⟩, e9, e⟩ := bind_ok.1 e
  obtain ⟨r10, e10, e⟩ := bind_ok.1 e
  cases e
  have := getFull_le e1; have := pass_le e2; have := get_le e3; have := pass_le e4; have := get_le e5; have := pass_le e6
  have := get_le e7; have := pass_le e8; have := get_le e9; have := pass_le e10
  omega

theorem getMdhd_le {t t' : TrackRd} {r r' : List UInt8} (e : getMdhd t r = .ok (t', r')) : r'.length + 4 ≤ r.length := by
  unfold getMdhd at e
  obtain ⟨⟨v, r1⟩, e1, e⟩ := bind_ok.1 e
  obtain ⟨r2, e2, e⟩ := bind_ok.1 e
  obtain ⟨⟨a3, r3⟩, e3, e⟩ := bind_ok.1 e
  obtain ⟨⟨a4, r4⟩, e4, e⟩ := bind_ok.1 e
  obtain ⟨⟨a5, r5⟩, e5, e⟩ := bind_ok.1 e
  obtain ⟨r6, e6, e⟩ := bind_ok.1 e
  cases e
  have := getFull_le e1; have := pass_le e2; have := get_le e3; have := get_le e4; have := get_le e5; have := pass_le e6
  omega

theorem getHdlr_le {h : Hdr} {t t' : TrackRd} {r r' : List UInt8} (e : getHdlr h t r = .ok (t', r')) : r'.length + 4 ≤ r.length := by
  unfold getHdlr at e
  obtain ⟨⟨v, r1⟩, e1, e⟩ := bind_ok.1 e
  obtain ⟨r2, e2, e⟩ := bind_ok.1 e
  obtain ⟨⟨a3, r3⟩, e3, e⟩ := bind_ok.1 e
  obtain ⟨r4, e4, e⟩ := bind_ok.1 e
  have := getFull_le e1; have := pass_le e2; have := get_le e3; have := pass_le e4
  simp only at e
  split at e
  · obtain ⟨r5, e5, e⟩ := bind_ok.1 e
    have := pass_le e5
    cases e; omega
  · cases e

theorem getTable_le {k : Nat} {ws : List Nat} {r r' : List UInt8} (e : getTable k r = .ok (ws, r')) : r'.length + 4 ≤ r.length := by
  unfold getTable at e
  obtain ⟨⟨v, r1⟩, e1, e⟩ := bind_ok.1 e
  obtain ⟨⟨n, r2⟩, e2, e⟩ := bind_ok.1 e
  obtain ⟨⟨w, r3⟩, e3, e⟩ := bind_ok.1 e
  cases e
  have := getFull_le e1; have := get_le e2; have := getWords_le e3; omega

theorem getStsz_le {ws : List Nat} {r r' : List UInt8} (e : getStsz r = .ok (ws, r')) : r'.length + 4 ≤ r.length := by
  unfold getStsz at e
  obtain ⟨⟨v, r1⟩, e1, e⟩ := bind_ok.1 e
  obtain ⟨⟨s, r2⟩, e2, e⟩ := bind_ok.1 e
  obtain ⟨⟨n, r3⟩, e3, e⟩ := bind_ok.1 e
  obtain ⟨⟨w, r4⟩, e4, e⟩ := bind_ok.1 e
  cases e
  have := getFull_le e1; have := get_le e2; have := get_le e3; have := getWords_le e4; omega

theorem getEdits_le (v : Nat) : ∀ {n : Nat} {r r' : List UInt8} {x : List (Nat × Bool)}, getEdits v n r = .ok (x, r') → r'.length ≤ r.length
  | 0, _, _, _, e => by cases e; omega
  | n + 1, r, r', x, e => by
    unfold getEdits at e
    obtain ⟨⟨d, r1⟩, e1, e⟩ := bind_ok.1 e
    obtain ⟨⟨m, r2⟩, e2, e⟩ := bind_ok.1 e
    obtain ⟨r3, e3, e⟩ := bind_ok.1 e
    obtain ⟨⟨es, r4⟩, e4, e⟩ := bind_ok.1 e
    cases e
    have := get_le e1; have := get_le e2; have := pass_le e3; have := getEdits_le v e4; omega

theorem getElst_le {d : Nat} {r r' : List UInt8} (e : getElst r = .ok (d, r')) : r'.length + 4 ≤ r.length := by
  unfold getElst at e
  obtain ⟨⟨v, r1⟩, e1, e⟩ := bind_ok.1 e
  obtain ⟨⟨n, r2⟩, e2, e⟩ := bind_ok.1 e
  obtain ⟨⟨es, r3⟩, e3, e⟩ := bind_ok.1 e
  have := getFull_le e1; have := get_le e2; have := getEdits_le v e3
  simp only at e
  split at e <;> (cases e; omega)

theorem trackBox_le {ok : Accept} {F N : Nat} {h h' : Hdr} {t t' : TrackRd} {r r' : List UInt8} (e : trackBox ok F N h t r = .ok (t', h', r')) :
    r'.length ≤ r.length := by
  unfold trackBox at e
  generalize known h.type = q at e
  cases q
  case trak => cases e; omega
  case mdia => cases e; omega
  case edts => cases e; omega
  case tkhd =>
    obtain ⟨⟨a, r1⟩, e1, e⟩ := bind_ok.1 e
    have := getTkhd_le e1; cases e; omega
  case mdhd =>
    obtain ⟨⟨a, r1⟩, e1, e⟩ := bind_ok.1 e
    have := getMdhd_le e1; cases e; omega
  case hdlr =>
    obtain ⟨⟨a, r1⟩, e1, e⟩ := bind_ok.1 e
    have := getHdlr_le e1; cases e; omega
  case minf =>
    simp only at e
    split at e
    · cases e
    · obtain ⟨k, e1, e⟩ := bind_ok.1 e
      obtain ⟨⟨es, h2, r2⟩, e2, e⟩ := bind_ok.1 e
      have := handlerParse_le e2; cases e; omega
  case ctts =>
    obtain ⟨u, e1, e⟩ := bind_ok.1 e
    simp only at e
    split at e
    · cases e
    · obtain ⟨⟨ws, r2⟩, e2, e⟩ := bind_ok.1 e
      cases e; have := getTable_le e2; simp only at *; omega
  case elst =>
    obtain ⟨u, e1, e⟩ := bind_ok.1 e
    obtain ⟨⟨ws, r2⟩, e2, e⟩ := bind_ok.1 e
    have := getElst_le e2; cases e; omega
  case stsz =>
    obtain ⟨u, e1, e⟩ := bind_ok.1 e
    obtain ⟨⟨ws, r2⟩, e2, e⟩ := bind_ok.1 e
    have := getStsz_le e2; cases e; omega
  case stts =>
    obtain ⟨u, e1, e⟩ := bind_ok.1 e
    obtain ⟨⟨ws, r2⟩, e2, e⟩ := bind_ok.1 e
    have := getTable_le e2; cases e; omega
  case stss =>
    obtain ⟨u, e1, e⟩ := bind_ok.1 e
    obtain ⟨⟨ws, r2⟩, e2, e⟩ := bind_ok.1 e
    have := getTable_le e2; cases e; omega
  case stco =>
    obtain ⟨u, e1, e⟩ := bind_ok.1 e
    obtain ⟨⟨ws, r2⟩, e2, e⟩ := bind_ok.1 e
    have := getTable_le e2; cases e; omega
  case stsc =>
    obtain ⟨u, e1, e⟩ := bind_ok.1 e
    obtain ⟨⟨ws, r2⟩, e2, e⟩ := bind_ok.1 e
    have := getTable_le e2; cases e; omega
  all_goals (cases e; exact skip_le _ _)

theorem trackBox_stable {ok : Accept} {F G N : Nat} {h : Hdr} {t : TrackRd} {r : List UInt8} (hF : r.length < F) (hG : r.length < G) :
    trackBox ok F N h t r = trackBox ok G N h t r := by
  unfold trackBox
  generalize known h.type = q
  cases q
  case minf =>
    simp only
    split
    · rfl
    · refine bind_congr' fun k e1 => ?_
      rw [handlerParse_stable hF hG]
  all_goals rfl

/-- At the end of the data a track can only stay as it is. -/
theorem trackBox_nil {ok : Accept} {F N : Nat} {h h' : Hdr} {t t' : TrackRd} {r' : List UInt8} (e : trackBox ok F N h t [] = .ok (t', h', r')) :
    h' = h ∧ r' = [] ∧ ∃ t'', trackBox ok F N h t' [] = .ok (t'', h, []) := by
  unfold trackBox at e
  unfold trackBox
  generalize hq : known h.type = q at e
  cases q
  case tkhd => cases e
  case mdhd => cases e
  case hdlr => cases e
  case minf =>
    simp only at e
    split at e
    · cases e
    · rename_i ty hty
      obtain ⟨k, e1, e⟩ := bind_ok.1 e
      obtain ⟨⟨es, h2, r2⟩, e2, e⟩ := bind_ok.1 e
      obtain ⟨rfl, rfl, rfl⟩ := handlerParse_nil hq e2
      cases e
      refine ⟨rfl, rfl, ?_⟩
      simp only [hty, e1, bind_ok_eq, e2]
      exact ⟨_, rfl⟩
  case ctts =>
    obtain ⟨u, e1, e⟩ := bind_ok.1 e
    simp only at e
    split at e <;> cases e
  case elst => obtain ⟨u, e1, e⟩ := bind_ok.1 e; cases e
  case stsz => obtain ⟨u, e1, e⟩ := bind_ok.1 e; cases e
  case stts => obtain ⟨u, e1, e⟩ := bind_ok.1 e; cases e
  case stss => obtain ⟨u, e1, e⟩ := bind_ok.1 e; cases e
  case stco => obtain ⟨u, e1, e⟩ := bind_ok.1 e; cases e
  case stsc => obtain ⟨u, e1, e⟩ := bind_ok.1 e; cases e
  all_goals
    simp only [skip_nil] at e
    cases e
    refine ⟨rfl, rfl, t, ?_⟩
    first
      | (simp only [skip_nil])
      | rfl

theorem track_succ (ok : Accept) (F N stop n : Nat) (h : Hdr) (t : TrackRd) (r : List UInt8) :
    trackBoxes ok F N stop (n + 1) h t r = if N - r.length < stop then
      doBox N h r >>= fun x => trackBox ok F N x.1 t x.2 >>= fun y => trackBoxes ok F N stop n y.2.1 y.1 y.2.2
    else .ok (t, h, r) := by
  rw [trackBoxes]

theorem track_nil (ok : Accept) (F N stop : Nat) (h : Hdr) : ∀ (n : Nat) (t : TrackRd),
    trackBoxes ok F N stop (n + 1) h t [] = trackBoxes ok F N stop 1 h t []
  | 0, _ => rfl
  | n + 1, t => by
    rw [track_succ, track_succ ok F N stop 0]
    split
    · rename_i hlt
      simp only [doBox_nil, bind_ok_eq]
      cases e : trackBox ok F N h t [] with
      | error x => rfl
      | ok x =>
        obtain ⟨t1, h1, r1⟩ := x
        obtain ⟨rfl, rfl, t2, e2⟩ := trackBox_nil e
        simp only [bind_ok_eq]
        rw [track_nil ok F N stop h1 n, track_succ, if_pos hlt]
        simp only [doBox_nil, bind_ok_eq, e2]
        rfl
    · rfl

theorem track_le (ok : Accept) (F N stop : Nat) : ∀ (n : Nat) (h h' : Hdr) (t t' : TrackRd) (r r' : List UInt8),
    trackBoxes ok F N stop n h t r = .ok (t', h', r') → r'.length ≤ r.length
  | 0, _, _, _, _, _, _, e => by cases e
  | n + 1, h, h', t, t', r, r', e => by
    rw [track_succ] at e
    split at e
    · obtain ⟨⟨h1, r1⟩, e1, e⟩ := bind_ok.1 e
      obtain ⟨⟨t2, h2, r2⟩, e2, e⟩ := bind_ok.1 e
      have a1 := doBox_le e1
      have a2 := trackBox_le e2
      have := track_le ok F N stop n _ _ _ _ _ _ e
      simp only at a2 this; omega
    · cases e; omega

theorem track_stable (ok : Accept) (F G N stop : Nat) : ∀ (n m : Nat) (h : Hdr) (t : TrackRd) (r : List UInt8),
    r.length < n → r.length < m → r.length < F → r.length < G → trackBoxes ok F N stop n h t r = trackBoxes ok G N stop m h t r
  | 0, _, _, _, _, hn, _, _, _ => by omega
  | _ + 1, 0, _, _, _, _, hm, _, _ => by omega
  | n + 1, m + 1, h, t, r, hn, hm, hF, hG => by
    by_cases hr : r = []
    · subst hr
      rw [track_nil, track_nil ok G N stop h m, track_succ, track_succ ok G N stop 0]
      simp only [doBox_nil, bind_ok_eq]
      rw [trackBox_stable hF hG]
      rfl
    · rw [track_succ, track_succ ok G N stop m]
      split
      · refine bind_congr' fun ⟨h1, r1⟩ e1 => ?_
        rw [doBox_cons hr] at e1
        have a1 := getBox_le e1
        simp only
        rw [trackBox_stable (F := F) (G := G) (by omega) (by omega)]
        refine bind_congr' fun ⟨t2, h2, r2⟩ e2 => ?_
        have a2 := trackBox_le e2
        exact track_stable ok F G N stop n m _ _ _ (by simp only; omega) (by simp only; omega) (by simp only; omega) (by simp only; omega)
      · rfl

theorem trackParse_stable {ok : Accept} {F G N : Nat} {h : Hdr} {r : List UInt8} (hF : r.length < F) (hG : r.length < G) :
    trackParse ok F N h r = trackParse ok G N h r := track_stable ok F G N _ F G h {} r hF hG hF hG


/-! ### The boxes of the file -/

/-- The brands, of `n` bytes. -/
def ftypTail (n : Nat) (f : FileRd) (r : List UInt8) : Res (FileRd × List UInt8) :=
  if n % 4 = 0 then do
    let (brands, r) ← getBytes n r
    .ok ({ f with brands }, r)
  else .error .thrown
theorem getFtyp_eq (h : Hdr) (f : FileRd) (r : List UInt8) : getFtyp h f r = pass 8 r >>= fun r => ftypTail (Verif.Tables.u32 (Verif.Tables.u32 h.size + 2 ^ 32 - 16)) f r := by
  unfold getFtyp ftypTail
  rfl
theorem ftypTail_indep (n : Nat) (f f' : FileRd) (r : List UInt8) :
   (∃ e, ftypTail n f r = .error e ∧ ftypTail n f' r = .error e) ∨
    ∃ a a' r', ftypTail n f r = .ok (a, r') ∧ ftypTail n f' r = .ok (a', r') := by
  unfold ftypTail
  by_cases hn : n % 4 = 0
  · rw [if_pos hn, if_pos hn]
    cases getBytes n r with
        | error e => exact .inl ⟨e, rfl, rfl⟩
        | ok x => exact .inr ⟨_, _, _, rfl, rfl⟩
  · rw [if_neg hn, if_neg hn]; exact .inl ⟨_, rfl, rfl⟩
theorem ftypAll_indep (n : Nat) (f f' : FileRd) (x : Res (List UInt8)) :
   (∃ e, (x >>= fun r => ftypTail n f r) = .error e ∧ (x >>= fun r => ftypTail n f' r) = .error e) ∨
    ∃ a a' r', (x >>= fun r => ftypTail n f r) = .ok (a, r') ∧ (x >>= fun r => ftypTail n f' r) = .ok (a', r') := by
  cases x with
  | error e => exact .inl ⟨e, rfl, rfl⟩
  | ok r1 => exact ftypTail_indep _ f f' r1

theorem getFtyp_indep (h : Hdr) (f f' : FileRd) (r : List UInt8) :
   (∃ e, getFtyp h f r = .error e ∧ getFtyp h f' r = .error e) ∨
    ∃ a a' r', getFtyp h f r = .ok (a, r') ∧ getFtyp h f' r = .ok (a', r') := by
  rw [getFtyp_eq, getFtyp_eq]
  exact ftypAll_indep _ f f' _

/-- The box read and the tracks so far have no influence on where the reading goes on. -/
theorem fileBox_indep (ok : Accept) (F : Nat) (file : List UInt8) (h : Hdr) (f f' : FileRd) (r : List UInt8) :
    (∃ e, fileBox ok F file h f r = .error e ∧ fileBox ok F file h f' r = .error e) ∨
    ∃ a a' h' r', fileBox ok F file h f r = .ok (a, h', r') ∧ fileBox ok F file h f' r = .ok (a', h', r') := by
  unfold fileBox
  generalize known h.type = q
  cases q
  case ftyp =>
    simp only
    rcases getFtyp_indep h f f' r with ⟨e, e1, e2⟩ | ⟨a, a', r', e1, e2⟩
    · rw [e1, e2]; exact .inl ⟨e, rfl, rfl⟩
    · rw [e1, e2]; exact .inr ⟨a, a', h, r', rfl, rfl⟩
  case mvhd =>
    unfold getMvhd
    cases getFull r with
    | error e => exact .inl ⟨e, rfl, rfl⟩
    | ok x =>
      obtain ⟨v, r1⟩ := x
      simp only [bind_ok_eq]
      generalize (if v = 1 then 8 else 4) = k
      cases pass (2 * k) r1 with
      | error e => exact .inl ⟨e, rfl, rfl⟩
      | ok r2 =>
        simp only [bind_ok_eq]
        cases get 4 r2 with
        | error e => exact .inl ⟨e, rfl, rfl⟩
        | ok x =>
          simp only [bind_ok_eq]
          cases get k x.2 with
          | error e => exact .inl ⟨e, rfl, rfl⟩
          | ok y =>
            simp only [bind_ok_eq]
            cases pass 80 y.2 with
            | error e => exact .inl ⟨e, rfl, rfl⟩
            | ok z => exact .inr ⟨_, _, _, _, rfl, rfl⟩
  case trak =>
    simp only
    cases trackParse ok F file.length h r with
    | error e => exact .inl ⟨e, rfl, rfl⟩
    | ok x => exact .inr ⟨_, _, _, _, rfl, rfl⟩
  case mdat => 
    simp only
    generalize (h.start + h.size) % 2 ^ 64 = p
    exact .inr ⟨_, _, _, _, rfl, rfl⟩
  case free => 
    simp only
    generalize (h.start + h.size) % 2 ^ 64 = p
    exact .inr ⟨_, _, _, _, rfl, rfl⟩
  all_goals exact .inr ⟨f, f', h, _, rfl, rfl⟩

/-- What is left is always an end of the file. -/
def IsEnd (file r : List UInt8) : Prop := ∃ p, r = file.drop p

theorem isEnd_eq {file r r' : List UInt8} (h : IsEnd file r) (h' : IsEnd file r') (e : r.length = r'.length) : r = r' := by
  obtain ⟨p, rfl⟩ := h
  obtain ⟨q, rfl⟩ := h'
  simp only [List.length_drop] at e
  by_cases hp : p < file.length
  · have : p = q := by omega
    rw [this]
  · rw [List.drop_eq_nil_of_le (by omega), List.drop_eq_nil_of_le (by omega)]


theorem isEnd_drop {file r : List UInt8} (h : IsEnd file r) (n : Nat) : IsEnd file (r.drop n) := by
  obtain ⟨p, rfl⟩ := h
  exact ⟨p + n, by rw [List.drop_drop]⟩

theorem isEnd_le {file r : List UInt8} (h : IsEnd file r) : r.length ≤ file.length := by
  obtain ⟨p, rfl⟩ := h
  simp

end Verif.Parse
