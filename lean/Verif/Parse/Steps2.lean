import Verif.Parse.Steps1
namespace Verif.Parse
open Verif.Tables (sub64)
open Verif.Fragment (fourcc)

macro "suf" : tactic => `(tactic| first | exact ⟨_, rfl⟩ | (simp only [List.drop_drop]; exact ⟨_, rfl⟩) | exact ⟨0, rfl⟩)

theorem get_suf {n : Nat} {r r' : List UInt8} {v : Nat} (h : get n r = .ok (v, r')) : ∃ j, r' = r.drop j := by
  unfold get at h; split at h
  · cases h; simp; suf
  · cases h

theorem getBytes_suf {n : Nat} {r r' v : List UInt8} (h : getBytes n r = .ok (v, r')) : ∃ j, r' = r.drop j := by
  unfold getBytes at h; split at h
  · cases h; simp; suf
  · cases h

theorem pass_suf {n : Nat} {r r' : List UInt8} (h : pass n r = .ok r') : ∃ j, r' = r.drop j := by
  unfold pass at h; split at h
  · cases h; simp; suf
  · cases h

theorem getFull_suf {r r' : List UInt8} {v : Nat} (h : getFull r = .ok (v, r')) : ∃ j, r' = r.drop j := by
  unfold getFull at h
  obtain ⟨⟨a, r1⟩, h1, h⟩ := bind_ok.1 h
  obtain ⟨⟨b, r2⟩, h2, h⟩ := bind_ok.1 h
  cases h
  obtain ⟨_, rfl⟩ := get_suf h1; obtain ⟨_, rfl⟩ := get_suf h2; suf

theorem getWords_suf : ∀ {n : Nat} {r r' : List UInt8} {v : List Nat}, getWords n r = .ok (v, r') → ∃ j, r' = r.drop j
  | 0, r, r', v, h => by cases h; suf
  | n + 1, r, r', v, h => by
    unfold getWords at h
    obtain ⟨⟨a, r1⟩, h1, h⟩ := bind_ok.1 h
    obtain ⟨⟨b, r2⟩, h2, h⟩ := bind_ok.1 h
    cases h
    obtain ⟨_, rfl⟩ := get_suf h1; obtain ⟨_, rfl⟩ := getWords_suf h2; suf

theorem longSize_suf {n m : Nat} {r r' : List UInt8} (e : longSize n r = .ok (m, r')) : ∃ j, r' = r.drop j := by
  unfold longSize at e; split at e
  · exact get_suf e
  · cases e; suf

theorem uuidSize_suf {ty n m : Nat} {r r' : List UInt8} (e : uuidSize ty n r = .ok (m, r')) : ∃ j, r' = r.drop j := by
  unfold uuidSize at e
  by_cases hu : ty = fourcc 'u' 'u' 'i' 'd'
  · rw [if_pos hu] at e
    obtain ⟨r5, h5, e⟩ := bind_ok.1 e
    have : r5 = r' := (Prod.mk.inj (Except.ok.inj e)).2
    subst this; exact pass_suf h5
  · rw [if_neg hu] at e
    have : r = r' := (Prod.mk.inj (Except.ok.inj e)).2
    subst this; exact ⟨0, rfl⟩

theorem getBox_suf {N : Nat} {r r' : List UInt8} {h : Hdr} (e : getBox N r = .ok (h, r')) : ∃ j, r' = r.drop j := by
  unfold getBox at e
  obtain ⟨⟨a, r1⟩, h1, e⟩ := bind_ok.1 e
  obtain ⟨⟨b, r2⟩, h2, e⟩ := bind_ok.1 e
  obtain ⟨⟨c, r3⟩, h3, e⟩ := bind_ok.1 e
  obtain ⟨⟨d, r4⟩, h4, e⟩ := bind_ok.1 e
  cases e
  obtain ⟨_, rfl⟩ := get_suf h1; obtain ⟨_, rfl⟩ := get_suf h2; obtain ⟨_, rfl⟩ := longSize_suf h3; obtain ⟨_, rfl⟩ := uuidSize_suf h4
  suf

theorem skip_suf (h : Hdr) (r : List UInt8) : ∃ j, skip h r = r.drop j := ⟨_, rfl⟩

theorem skip_trans {h : Hdr} {r r' : List UInt8} (e : ∃ j, r' = r.drop j) : ∃ j, skip h r' = r.drop j := by
  obtain ⟨_, rfl⟩ := e
  obtain ⟨j, hj⟩ := skip_suf h (r.drop _)
  rw [hj]; suf

theorem doBox_suf {N : Nat} {h h' : Hdr} {r r' : List UInt8} (e : doBox N h r = .ok (h', r')) : ∃ j, r' = r.drop j := by
  by_cases hr : r = []
  · subst hr; cases e; simp
  · rw [doBox_cons hr] at e; obtain ⟨_, rfl⟩ := getBox_suf e; suf

theorem visualOne_suf {ok : Accept} {h : Hdr} {c c' : Option (List UInt8)} {r r' : List UInt8} (e : visualOne ok h c r = .ok (c', r')) : ∃ j, r' = r.drop j := by
  unfold visualOne at e
  generalize known h.type = k at e
  cases k
  case avcC =>
    obtain ⟨⟨b, r2⟩, e2, e⟩ := bind_ok.1 e
    obtain ⟨_, rfl⟩ := getBytes_suf e2
    simp only at e
    split at e <;> cases e
    suf
  case btrt =>
    obtain ⟨r2, e2, e⟩ := bind_ok.1 e
    obtain ⟨_, rfl⟩ := pass_suf e2; cases e; suf
  case pasp =>
    obtain ⟨r2, e2, e⟩ := bind_ok.1 e
    obtain ⟨_, rfl⟩ := pass_suf e2; cases e; suf
  all_goals (cases e; exact skip_suf _ _)

theorem visual_suf (ok : Accept) (N stop : Nat) : ∀ (n : Nat) (h h' : Hdr) (c c' : Option (List UInt8)) (r r' : List UInt8),
    visualBoxes ok N stop n h c r = .ok (c', h', r') → ∃ j, r' = r.drop j
  | 0, _, _, _, _, _, _, e => by cases e
  | n + 1, h, h', c, c', r, r', e => by
    rw [visual_succ] at e
    split at e
    · obtain ⟨⟨h1, r1⟩, e1, e⟩ := bind_ok.1 e
      obtain ⟨⟨c2, r2⟩, e2, e⟩ := bind_ok.1 e
      obtain ⟨_, rfl⟩ := doBox_suf e1
      obtain ⟨_, rfl⟩ := visualOne_suf e2
      obtain ⟨_, rfl⟩ := visual_suf ok N stop n _ _ _ _ _ _ e
      suf
    · cases e; suf

theorem visualEntry_suf {ok : Accept} {F N : Nat} {h h' : Hdr} {r r' : List UInt8} {x : Entry} (e : visualEntry ok F N h r = .ok (x, h', r')) : ∃ j, r' = r.drop j := by
  unfold visualEntry at e
  obtain ⟨r1, e1, e⟩ := bind_ok.1 e
  obtain ⟨⟨w, r2⟩, e2, e⟩ := bind_ok.1 e
  obtain ⟨⟨hh, r3⟩, e3, e⟩ := bind_ok.1 e
  obtain ⟨r4, e4, e⟩ := bind_ok.1 e
  obtain ⟨⟨s, r5⟩, e5, e⟩ := bind_ok.1 e
  obtain ⟨r6, e6, e⟩ := bind_ok.1 e
  obtain ⟨r7, e7, e⟩ := bind_ok.1 e
  obtain ⟨⟨c, h8, r8⟩, e8, e⟩ := bind_ok.1 e
  cases e
  obtain ⟨_, rfl⟩ := pass_suf e1; obtain ⟨_, rfl⟩ := get_suf e2; obtain ⟨_, rfl⟩ := get_suf e3; obtain ⟨_, rfl⟩ := pass_suf e4; obtain ⟨_, rfl⟩ := get_suf e5; obtain ⟨_, rfl⟩ := pass_suf e6; obtain ⟨_, rfl⟩ := pass_suf e7
  obtain ⟨_, rfl⟩ := visual_suf _ _ _ _ _ _ _ _ _ _ e8
  suf

theorem audioEntry_suf {ok : Accept} {N : Nat} {h h' : Hdr} {r r' : List UInt8} {x : Entry} (e : audioEntry ok N h r = .ok (x, h', r')) : ∃ j, r' = r.drop j := by
  unfold audioEntry at e
  obtain ⟨r1, e1, e⟩ := bind_ok.1 e
  obtain ⟨⟨w, r2⟩, e2, e⟩ := bind_ok.1 e
  obtain ⟨r3, e3, e⟩ := bind_ok.1 e
  obtain ⟨⟨w4, r4⟩, e4, e⟩ := bind_ok.1 e
  obtain ⟨_, rfl⟩ := pass_suf e1; obtain ⟨_, rfl⟩ := get_suf e2; obtain ⟨_, rfl⟩ := pass_suf e3; obtain ⟨_, rfl⟩ := get_suf e4
  simp only at e
  split at e
  · obtain ⟨⟨b, r5⟩, e5, e⟩ := bind_ok.1 e
    obtain ⟨_, rfl⟩ := getBytes_suf e5
    simp only at e
    split at e
    · cases e
    · cases e; suf
  · cases e; suf

theorem sampleEntry_suf {ok : Accept} {F N : Nat} {k : Handler} {h h' : Hdr} {r r' : List UInt8} {x : Option Entry} (e : sampleEntry ok F N k h r = .ok (x, h', r')) : ∃ j, r' = r.drop j := by
  cases k with
  | vide => obtain ⟨⟨a, b, c⟩, e1, e2⟩ := map_eq_ok.1 e; cases e2; exact visualEntry_suf e1
  | soun => obtain ⟨⟨a, b, c⟩, e1, e2⟩ := map_eq_ok.1 e; cases e2; exact audioEntry_suf e1
  | text => cases e; exact skip_suf _ _

theorem sampleEntries_suf (ok : Accept) (F N : Nat) (k : Handler) : ∀ (n : Nat) (h h' : Hdr) (r r' : List UInt8) (x : List Entry),
    sampleEntries ok F N k n h r = .ok (x, h', r') → ∃ j, r' = r.drop j
  | 0, _, _, _, _, _, e => by cases e; suf
  | n + 1, h, h', r, r', x, e => by
    unfold sampleEntries at e
    obtain ⟨⟨h1, r1⟩, e1, e⟩ := bind_ok.1 e
    obtain ⟨⟨a, h2, r2⟩, e2, e⟩ := bind_ok.1 e
    obtain ⟨⟨b, h3, r3⟩, e3, e⟩ := bind_ok.1 e
    cases e
    obtain ⟨_, rfl⟩ := doBox_suf e1; obtain ⟨_, rfl⟩ := sampleEntry_suf e2; obtain ⟨_, rfl⟩ := sampleEntries_suf ok F N k n _ _ _ _ _ e3
    suf

theorem getDref_suf {N : Nat} {r r' : List UInt8} (e : getDref N r = .ok r') : ∃ j, r' = r.drop j := by
  unfold getDref at e
  obtain ⟨⟨a, r1⟩, e1, e⟩ := bind_ok.1 e
  obtain ⟨⟨b, r2⟩, e2, e⟩ := bind_ok.1 e
  obtain ⟨⟨c, r3⟩, e3, e⟩ := bind_ok.1 e
  obtain ⟨⟨d, r4⟩, e4, e⟩ := bind_ok.1 e
  cases e
  obtain ⟨_, rfl⟩ := getFull_suf e1; obtain ⟨_, rfl⟩ := get_suf e2; obtain ⟨_, rfl⟩ := getBox_suf e3; obtain ⟨_, rfl⟩ := getFull_suf e4
  suf

theorem handlerOne_suf {ok : Accept} {F N : Nat} {k : Handler} {h h' : Hdr} {r r' : List UInt8} {x : Option (List Entry)}
    (e : handlerOne ok F N k h r = .ok (x, h', r')) : ∃ j, r' = r.drop j := by
  unfold handlerOne at e
  generalize known h.type = q at e
  cases q
  case stbl => cases e; suf
  case dinf => cases e; suf
  case dref =>
    obtain ⟨r2, e2, e⟩ := bind_ok.1 e
    obtain ⟨_, rfl⟩ := getDref_suf e2; cases e; suf
  case stsd =>
    obtain ⟨⟨v, r1⟩, e1, e⟩ := bind_ok.1 e
    obtain ⟨⟨c, r2⟩, e2, e⟩ := bind_ok.1 e
    obtain ⟨⟨es, h3, r3⟩, e3, e⟩ := bind_ok.1 e
    cases e
    obtain ⟨_, rfl⟩ := getFull_suf e1; obtain ⟨_, rfl⟩ := get_suf e2; obtain ⟨_, rfl⟩ := sampleEntries_suf _ _ _ _ _ _ _ _ _ _ e3
    suf
  all_goals (cases e; exact skip_suf _ _)

theorem handler_suf (ok : Accept) (F N stop : Nat) (k : Handler) : ∀ (n : Nat) (h h' : Hdr) (r r' : List UInt8) (x : List Entry),
    handlerBoxes ok F N stop k n h r = .ok (x, h', r') → ∃ j, r' = r.drop j
  | 0, _, _, _, _, _, e => by cases e
  | n + 1, h, h', r, r', x, e => by
    rw [handler_succ] at e
    obtain ⟨⟨o, h1, r1⟩, e1, e⟩ := bind_ok.1 e
    obtain ⟨_, rfl⟩ := handlerOne_suf e1
    unfold handlerMore at e
    cases o with
    | some es => cases e; suf
    | none =>
      simp only at e
      split at e
      · cases e; exact skip_trans ⟨_, rfl⟩
      · split at e
        · cases e
        · obtain ⟨⟨h2, r2⟩, e2, e⟩ := bind_ok.1 e
          obtain ⟨_, rfl⟩ := doBox_suf e2
          obtain ⟨_, rfl⟩ := handler_suf ok F N stop k n _ _ _ _ _ e
          suf

theorem mediaHeader_suf {N : Nat} {k : Handler} {h h' : Hdr} {r r' : List UInt8} (e : mediaHeader N k h r = .ok (h', r')) : ∃ j, r' = r.drop j := by
  unfold mediaHeader at e
  generalize known h.type = q at e
  cases k <;> cases q
  case vide.vmhd =>
    obtain ⟨r2, e2, e⟩ := bind_ok.1 e
    obtain ⟨_, rfl⟩ := pass_suf e2; obtain ⟨_, rfl⟩ := doBox_suf e; suf
  case soun.smhd =>
    obtain ⟨r2, e2, e⟩ := bind_ok.1 e
    obtain ⟨_, rfl⟩ := pass_suf e2; obtain ⟨_, rfl⟩ := doBox_suf e; suf
  all_goals first
    | (cases e; suf)
    | (obtain ⟨_, rfl⟩ := doBox_suf e; obtain ⟨_, e'⟩ := skip_suf h r; rw [e']; suf)

theorem handlerParse_suf {ok : Accept} {F N : Nat} {k : Handler} {h h' : Hdr} {r r' : List UInt8} {x : List Entry}
    (e : handlerParse ok F N k h r = .ok (x, h', r')) : ∃ j, r' = r.drop j := by
  unfold handlerParse at e
  obtain ⟨⟨h1, r1⟩, e1, e⟩ := bind_ok.1 e
  obtain ⟨⟨h2, r2⟩, e2, e⟩ := bind_ok.1 e
  obtain ⟨_, rfl⟩ := doBox_suf e1; obtain ⟨_, rfl⟩ := mediaHeader_suf e2; obtain ⟨_, rfl⟩ := handler_suf _ _ _ _ _ _ _ _ _ _ _ e
  suf

theorem getTkhd_suf {t t' : TrackRd} {r r' : List UInt8} (e : getTkhd t r = .ok (t', r')) : ∃ j, r' = r.drop j := by
  unfold getTkhd at e
  obtain ⟨⟨v, r1⟩, e1, e⟩ := bind_ok.1 e
  obtain ⟨r2, e2, e⟩ := bind_ok.1 e
  obtain ⟨⟨a3, r3⟩, e3, e⟩ := bind_ok.1 e
  obtain ⟨r4, e4, e⟩ := bind_ok.1 e
  obtain ⟨⟨a5, r5⟩, e5, e⟩ := bind_ok.1 e
  obtain ⟨r6, e6, e⟩ := bind_ok.1 e
  obtain ⟨⟨a7, r7⟩, e7, e⟩ := bind_ok.1 e
  obtain ⟨r8, e8, e⟩ := bind_ok.1 e
  obtain ⟨⟨a9, r9⟩, e9, e⟩ := bind_ok.1 e
  obtain ⟨r10, e10, e⟩ := bind_ok.1 e
  cases e
  obtain ⟨_, rfl⟩ := getFull_suf e1; obtain ⟨_, rfl⟩ := pass_suf e2; obtain ⟨_, rfl⟩ := get_suf e3; obtain ⟨_, rfl⟩ := pass_suf e4; obtain ⟨_, rfl⟩ := get_suf e5; obtain ⟨_, rfl⟩ := pass_suf e6
  obtain ⟨_, rfl⟩ := get_suf e7; obtain ⟨_, rfl⟩ := pass_suf e8; obtain ⟨_, rfl⟩ := get_suf e9; obtain ⟨_, rfl⟩ := pass_suf e10
  suf

theorem getMdhd_suf {t t' : TrackRd} {r r' : List UInt8} (e : getMdhd t r = .ok (t', r')) : ∃ j, r' = r.drop j := by
  unfold getMdhd at e
  obtain ⟨⟨v, r1⟩, e1, e⟩ := bind_ok.1 e
  obtain ⟨r2, e2, e⟩ := bind_ok.1 e
  obtain ⟨⟨a3, r3⟩, e3, e⟩ := bind_ok.1 e
  obtain ⟨⟨a4, r4⟩, e4, e⟩ := bind_ok.1 e
  obtain ⟨⟨a5, r5⟩, e5, e⟩ := bind_ok.1 e
  obtain ⟨r6, e6, e⟩ := bind_ok.1 e
  cases e
  obtain ⟨_, rfl⟩ := getFull_suf e1; obtain ⟨_, rfl⟩ := pass_suf e2; obtain ⟨_, rfl⟩ := get_suf e3; obtain ⟨_, rfl⟩ := get_suf e4; obtain ⟨_, rfl⟩ := get_suf e5; obtain ⟨_, rfl⟩ := pass_suf e6
  suf

theorem getHdlr_suf {h : Hdr} {t t' : TrackRd} {r r' : List UInt8} (e : getHdlr h t r = .ok (t', r')) : ∃ j, r' = r.drop j := by
  unfold getHdlr at e
  obtain ⟨⟨v, r1⟩, e1, e⟩ := bind_ok.1 e
  obtain ⟨r2, e2, e⟩ := bind_ok.1 e
  obtain ⟨⟨a3, r3⟩, e3, e⟩ := bind_ok.1 e
  obtain ⟨r4, e4, e⟩ := bind_ok.1 e
  obtain ⟨_, rfl⟩ := getFull_suf e1; obtain ⟨_, rfl⟩ := pass_suf e2; obtain ⟨_, rfl⟩ := get_suf e3; obtain ⟨_, rfl⟩ := pass_suf e4
  simp only at e
  split at e
  · obtain ⟨r5, e5, e⟩ := bind_ok.1 e
    obtain ⟨_, rfl⟩ := pass_suf e5
    cases e; suf
  · cases e

theorem getTable_suf {k : Nat} {ws : List Nat} {r r' : List UInt8} (e : getTable k r = .ok (ws, r')) : ∃ j, r' = r.drop j := by
  unfold getTable at e
  obtain ⟨⟨v, r1⟩, e1, e⟩ := bind_ok.1 e
  obtain ⟨⟨n, r2⟩, e2, e⟩ := bind_ok.1 e
  obtain ⟨⟨w, r3⟩, e3, e⟩ := bind_ok.1 e
  cases e
  obtain ⟨_, rfl⟩ := getFull_suf e1; obtain ⟨_, rfl⟩ := get_suf e2; obtain ⟨_, rfl⟩ := getWords_suf e3; suf

theorem getStsz_suf {ws : List Nat} {r r' : List UInt8} (e : getStsz r = .ok (ws, r')) : ∃ j, r' = r.drop j := by
  unfold getStsz at e
  obtain ⟨⟨v, r1⟩, e1, e⟩ := bind_ok.1 e
  obtain ⟨⟨s, r2⟩, e2, e⟩ := bind_ok.1 e
  obtain ⟨⟨n, r3⟩, e3, e⟩ := bind_ok.1 e
  obtain ⟨⟨w, r4⟩, e4, e⟩ := bind_ok.1 e
  cases e
  obtain ⟨_, rfl⟩ := getFull_suf e1; obtain ⟨_, rfl⟩ := get_suf e2; obtain ⟨_, rfl⟩ := get_suf e3; obtain ⟨_, rfl⟩ := getWords_suf e4; suf

theorem getEdits_suf (v : Nat) : ∀ {n : Nat} {r r' : List UInt8} {x : List (Nat × Bool)}, getEdits v n r = .ok (x, r') → ∃ j, r' = r.drop j
  | 0, _, _, _, e => by cases e; suf
  | n + 1, r, r', x, e => by
    unfold getEdits at e
    obtain ⟨⟨d, r1⟩, e1, e⟩ := bind_ok.1 e
    obtain ⟨⟨m, r2⟩, e2, e⟩ := bind_ok.1 e
    obtain ⟨r3, e3, e⟩ := bind_ok.1 e
    obtain ⟨⟨es, r4⟩, e4, e⟩ := bind_ok.1 e
    cases e
    obtain ⟨_, rfl⟩ := get_suf e1; obtain ⟨_, rfl⟩ := get_suf e2; obtain ⟨_, rfl⟩ := pass_suf e3; obtain ⟨_, rfl⟩ := getEdits_suf v e4; suf

theorem getElst_suf {d : Nat} {r r' : List UInt8} (e : getElst r = .ok (d, r')) : ∃ j, r' = r.drop j := by
  unfold getElst at e
  obtain ⟨⟨v, r1⟩, e1, e⟩ := bind_ok.1 e
  obtain ⟨⟨n, r2⟩, e2, e⟩ := bind_ok.1 e
  obtain ⟨⟨es, r3⟩, e3, e⟩ := bind_ok.1 e
  obtain ⟨_, rfl⟩ := getFull_suf e1; obtain ⟨_, rfl⟩ := get_suf e2; obtain ⟨_, rfl⟩ := getEdits_suf v e3
  simp only at e
  split at e <;> (cases e; suf)

theorem trackBox_suf {ok : Accept} {F N : Nat} {h h' : Hdr} {t t' : TrackRd} {r r' : List UInt8} (e : trackBox ok F N h t r = .ok (t', h', r')) :
    ∃ j, r' = r.drop j := by
  unfold trackBox at e
  generalize known h.type = q at e
  cases q
  case trak => cases e; suf
  case mdia => cases e; suf
  case edts => cases e; suf
  case tkhd =>
    obtain ⟨⟨a, r1⟩, e1, e⟩ := bind_ok.1 e
    obtain ⟨_, rfl⟩ := getTkhd_suf e1; cases e; suf
  case mdhd =>
    obtain ⟨⟨a, r1⟩, e1, e⟩ := bind_ok.1 e
    obtain ⟨_, rfl⟩ := getMdhd_suf e1; cases e; suf
  case hdlr =>
    obtain ⟨⟨a, r1⟩, e1, e⟩ := bind_ok.1 e
    obtain ⟨_, rfl⟩ := getHdlr_suf e1; cases e; suf
  case minf =>
    simp only at e
    split at e
    · cases e
    · obtain ⟨k, e1, e⟩ := bind_ok.1 e
      obtain ⟨⟨es, h2, r2⟩, e2, e⟩ := bind_ok.1 e
      obtain ⟨_, rfl⟩ := handlerParse_suf e2; cases e; suf
  case ctts =>
    obtain ⟨u, e1, e⟩ := bind_ok.1 e
    simp only at e
    split at e
    · cases e
    · obtain ⟨⟨ws, r2⟩, e2, e⟩ := bind_ok.1 e
      cases e; obtain ⟨_, rfl⟩ := getTable_suf e2; suf
  case elst =>
    obtain ⟨u, e1, e⟩ := bind_ok.1 e
    obtain ⟨⟨ws, r2⟩, e2, e⟩ := bind_ok.1 e
    obtain ⟨_, rfl⟩ := getElst_suf e2; cases e; suf
  case stsz =>
    obtain ⟨u, e1, e⟩ := bind_ok.1 e
    obtain ⟨⟨ws, r2⟩, e2, e⟩ := bind_ok.1 e
    obtain ⟨_, rfl⟩ := getStsz_suf e2; cases e; suf
  case stts =>
    obtain ⟨u, e1, e⟩ := bind_ok.1 e
    obtain ⟨⟨ws, r2⟩, e2, e⟩ := bind_ok.1 e
    obtain ⟨_, rfl⟩ := getTable_suf e2; cases e; suf
  case stss =>
    obtain ⟨u, e1, e⟩ := bind_ok.1 e
    obtain ⟨⟨ws, r2⟩, e2, e⟩ := bind_ok.1 e
    obtain ⟨_, rfl⟩ := getTable_suf e2; cases e; suf
  case stco =>
    obtain ⟨u, e1, e⟩ := bind_ok.1 e
    obtain ⟨⟨ws, r2⟩, e2, e⟩ := bind_ok.1 e
    obtain ⟨_, rfl⟩ := getTable_suf e2; cases e; suf
  case stsc =>
    obtain ⟨u, e1, e⟩ := bind_ok.1 e
    obtain ⟨⟨ws, r2⟩, e2, e⟩ := bind_ok.1 e
    obtain ⟨_, rfl⟩ := getTable_suf e2; cases e; suf
  all_goals (cases e; exact skip_suf _ _)

theorem track_suf (ok : Accept) (F N stop : Nat) : ∀ (n : Nat) (h h' : Hdr) (t t' : TrackRd) (r r' : List UInt8),
    trackBoxes ok F N stop n h t r = .ok (t', h', r') → ∃ j, r' = r.drop j
  | 0, _, _, _, _, _, _, e => by cases e
  | n + 1, h, h', t, t', r, r', e => by
    rw [track_succ] at e
    split at e
    · obtain ⟨⟨h1, r1⟩, e1, e⟩ := bind_ok.1 e
      obtain ⟨⟨t2, h2, r2⟩, e2, e⟩ := bind_ok.1 e
      obtain ⟨_, rfl⟩ := doBox_suf e1
      obtain ⟨_, rfl⟩ := trackBox_suf e2
      obtain ⟨_, rfl⟩ := track_suf ok F N stop n _ _ _ _ _ _ e
      suf
    · cases e; suf


theorem isEnd_suf {file r r' : List UInt8} (h : IsEnd file r) (h' : ∃ j, r' = r.drop j) : IsEnd file r' := by
  obtain ⟨j, rfl⟩ := h'
  exact isEnd_drop h j

theorem fileBox_end {ok : Accept} {F : Nat} {file : List UInt8} {h h' : Hdr} {f f' : FileRd} {r r' : List UInt8} (hr : IsEnd file r)
    (e : fileBox ok F file h f r = .ok (f', h', r')) : IsEnd file r' := by
  unfold fileBox at e
  generalize known h.type = q at e
  cases q
  case ftyp =>
    simp only at e
    rw [getFtyp_eq] at e
    generalize Verif.Tables.u32 (Verif.Tables.u32 h.size + 2 ^ 32 - 16) = n at e
    obtain ⟨⟨a, r1⟩, e1, e⟩ := bind_ok.1 e
    obtain ⟨r2, e2, e1⟩ := bind_ok.1 e1
    unfold ftypTail at e1
    split at e1
    · obtain ⟨⟨b, r3⟩, e3, e1⟩ := bind_ok.1 e1
      cases e1; cases e
      obtain ⟨_, rfl⟩ := pass_suf e2; obtain ⟨_, rfl⟩ := getBytes_suf e3
      exact isEnd_drop (isEnd_drop hr _) _
    · cases e1
  case mvhd =>
    obtain ⟨⟨a, r1⟩, e1, e⟩ := bind_ok.1 e
    unfold getMvhd at e1
    obtain ⟨⟨v, r2⟩, e2, e1⟩ := bind_ok.1 e1
    obtain ⟨r3, e3, e1⟩ := bind_ok.1 e1
    obtain ⟨⟨a4, r4⟩, e4, e1⟩ := bind_ok.1 e1
    obtain ⟨⟨a5, r5⟩, e5, e1⟩ := bind_ok.1 e1
    obtain ⟨r6, e6, e1⟩ := bind_ok.1 e1
    cases e1; cases e
    obtain ⟨_, rfl⟩ := getFull_suf e2; obtain ⟨_, rfl⟩ := pass_suf e3; obtain ⟨_, rfl⟩ := get_suf e4; obtain ⟨_, rfl⟩ := get_suf e5
    obtain ⟨_, rfl⟩ := pass_suf e6
    exact isEnd_drop (isEnd_drop (isEnd_drop (isEnd_drop (isEnd_drop hr _) _) _) _) _
  case trak =>
    obtain ⟨⟨t, h2, r2⟩, e2, e⟩ := bind_ok.1 e
    have := track_suf _ _ _ _ _ _ _ _ _ _ _ e2
    cases e
    exact isEnd_suf hr this
  case mdat =>
    simp only at e
    generalize (h.start + h.size) % 2 ^ 64 = p at e
    cases e; exact ⟨_, rfl⟩
  case free =>
    simp only at e
    generalize (h.start + h.size) % 2 ^ 64 = p at e
    cases e; exact ⟨_, rfl⟩
  case moov => cases e; exact hr
  all_goals (cases e; exact isEnd_suf hr (skip_suf _ _))

end Verif.Parse
