import Verif.Moof.SpecAny
import Verif.Moof.Props
/-
C105 for fragments of any program.
-/
namespace Verif.Moof
open Verif.Fragment (fourcc box box_length num1 num2 num3 num4 num_be raw_append)
open Verif.Fragment.Spec (num opt raw full signed32)
open Verif.Cenc.Spec (be)
open Verif.Cenc (be_length)
open Spec

theorem vf_read (v f : Nat) (hv : v < 2 ^ 8) (hf : f < 2 ^ 24) (r : List UInt8) : full (vf v f ++ r) = some (v, f, r) := by
  rw [show vf v f = Fragment.full v f from rfl, Fragment.full_read, Nat.mod_eq_of_lt hv, Nat.mod_eq_of_lt hf]

theorem field_read (flags bit k v : Nat) (r : List UInt8) :
    opt (flags &&& bit != 0) k (field flags bit k v ++ r) = some (if flags &&& bit ≠ 0 then some (v % 256 ^ k) else none, r) := by
  rw [opt, field]
  by_cases h : flags &&& bit = 0
  · simp [h]
  · simp only [bne_iff_ne, ne_eq, h, not_false_eq_true, if_true, num_be, Option.map_some]

theorem field_length (flags bit k v v' : Nat) : (field flags bit k v).length = (field flags bit k v').length := by
  rw [field, field]; split <;> simp [be_length]

/-! ### boxes that are passed over -/

theorem kind_other (t : Nat) (h : t ∉ meaning) : kind t = .free ∨ kind t = .skipped ∨ kind t = .unknown := by
  simp only [meaning, List.mem_cons, List.not_mem_nil, or_false, not_or] at h
  obtain ⟨h1, h2, h3, h4, h5, h6, h7, h8, h9, h10, h11, h12⟩ := h
  simp only [kind, if_neg h1, if_neg h2, if_neg h3, if_neg h4, if_neg h5, if_neg h6, if_neg h7, if_neg h8, if_neg h9, if_neg h10, if_neg h11, if_neg h12]
  by_cases a : t = fourcc 'f' 'r' 'e' 'e'
  · left; rw [if_pos a]
  · rw [if_neg a]
    by_cases b : t = fourcc 'a' 'v' 'c' 'n'
    · right; left; rw [if_pos b]
    · rw [if_neg b]
      by_cases c : t = fourcc 's' 'd' 't' 'p'
      · right; left; rw [if_pos c]
      · right; right; rw [if_neg c]

theorem handle_other (pre : List UInt8) (t : Nat) (b post : List UInt8) (r : Rd) (ht : t < 2 ^ 32) (hm : t ∉ meaning) (hl : 8 + b.length < 2 ^ 32)
    (hp : pre.length < 2 ^ 63) : handle (pre ++ (box t b ++ post)) r pre.length = some (r, (pre ++ box t b).length) := by
  have hu : t ≠ fourcc 'u' 'u' 'i' 'd' := by
    intro h; apply hm; rw [h]; simp [meaning]
  rw [handle, handle_start pre t b post ht hu hl]
  rcases kind_other t hm with h | h | h
  · simp only [Option.bind_eq_bind, Option.bind_some, h, Head.getSize, if_neg hu]
    rw [Nat.mod_eq_of_lt (by omega), List.length_append, box_length]
  all_goals
    simp only [Option.bind_eq_bind, Option.bind_some, h]
    rw [skip_box t b post hu hl, ← List.append_assoc, posOf_eq]

theorem handle_saiz' (pre post : List UInt8) (r : Rd) (flags aux size : Nat) (sizes : List UInt8) (ok : (Extra.saiz flags aux size sizes).Ok)
    (hl : (Extra.saiz flags aux size sizes).bytes.length < 2 ^ 32) :
    handle (pre ++ ((Extra.saiz flags aux size sizes).bytes ++ post)) r pre.length = some (r, (pre ++ (Extra.saiz flags aux size sizes).bytes).length) := by
  obtain ⟨h1, h2, h3⟩ := ok
  rw [Extra.bytes] at hl ⊢
  rw [box_length] at hl
  rw [handle, handle_start pre _ _ post (by decide) (by decide) hl]
  simp only [Option.bind_eq_bind, Option.bind_some, show kind (fourcc 's' 'a' 'i' 'z') = .saiz by decide]
  have : getSaiz (vf 0 flags ++ field flags 1 8 aux ++ be 1 size ++ be 4 sizes.length ++ (if size = 0 then sizes else []) ++ post) = some post := by
    rw [getSaiz]
    simp only [List.append_assoc]
    rw [vf_read 0 flags (by decide) h1]
    simp only [Option.bind_eq_bind, Option.bind_some, field_read, num1, num4, Nat.mod_eq_of_lt h2, Nat.mod_eq_of_lt h3]
    rw [raw_append _ _ _ (by split <;> rfl), Option.bind_some]
  rw [this, Option.map_some, ← List.append_assoc, posOf_eq]

theorem flatMap_be_length (k : Nat) (l : List Nat) : (l.flatMap (be k)).length = k * l.length := by
  induction l with
  | nil => rfl
  | cons x l ih => rw [List.flatMap_cons, List.length_append, ih, be_length, List.length_cons, Nat.mul_succ]; omega

theorem handle_saio' (pre post : List UInt8) (r : Rd) (v flags aux : Nat) (offsets : List Nat) (ok : (Extra.saio v flags aux offsets).Ok)
    (hl : (Extra.saio v flags aux offsets).bytes.length < 2 ^ 32) :
    handle (pre ++ ((Extra.saio v flags aux offsets).bytes ++ post)) r pre.length = some (r, (pre ++ (Extra.saio v flags aux offsets).bytes).length) := by
  obtain ⟨h1, h2, h3⟩ := ok
  rw [Extra.bytes] at hl ⊢
  rw [box_length] at hl
  rw [handle, handle_start pre _ _ post (by decide) (by decide) hl]
  simp only [Option.bind_eq_bind, Option.bind_some, show kind (fourcc 's' 'a' 'i' 'o') = .saio by decide]
  have : getSaio (vf v flags ++ field flags 1 8 aux ++ be 4 offsets.length ++ offsets.flatMap (be (if v = 0 then 4 else 8)) ++ post) = some post := by
    rw [getSaio]
    simp only [List.append_assoc]
    rw [vf_read v flags h1 h2]
    simp only [Option.bind_eq_bind, Option.bind_some, field_read, num4, Nat.mod_eq_of_lt h3]
    rw [raw_append _ _ _ (by rw [flatMap_be_length]; split <;> rfl), Option.bind_some]
  rw [this, Option.map_some, ← List.append_assoc, posOf_eq]

theorem getBox_uuid (guid b r : List UInt8) (hg : guid.length = 16) (hl : 24 + b.length < 2 ^ 32) :
    getBox (box (fourcc 'u' 'u' 'i' 'd') (guid ++ b) ++ r) = some (⟨24 + b.length, fourcc 'u' 'u' 'i' 'd', guid⟩, b ++ r) := by
  rw [getBox, box, List.append_assoc, List.append_assoc, num4]
  have e : 8 + (guid ++ b).length = 24 + b.length := by rw [List.length_append, hg]; omega
  simp only [Option.bind_eq_bind, Option.bind_some, num4, e, Nat.mod_eq_of_lt hl]
  rw [if_neg (by omega), if_pos (by decide), List.append_assoc, raw_append 16 guid _ hg]
  rfl

theorem handle_uuid (pre post guid b : List UInt8) (r : Rd) (hg : guid.length = 16) (hl : (box (fourcc 'u' 'u' 'i' 'd') (guid ++ b)).length < 2 ^ 32)
    (h : getUuid guid (b ++ post) = some post) :
    handle (pre ++ (box (fourcc 'u' 'u' 'i' 'd') (guid ++ b) ++ post)) r pre.length = some (r, (pre ++ box (fourcc 'u' 'u' 'i' 'd') (guid ++ b)).length) := by
  rw [box_length, List.length_append, hg] at hl
  rw [handle, List.drop_left, getBox_uuid guid b post hg (by omega)]
  simp only [Option.bind_eq_bind, Option.bind_some, show kind (fourcc 'u' 'u' 'i' 'd') = .uuid by decide, h, Option.map_some]
  rw [← List.append_assoc, posOf_eq]

theorem span_length (v : Nat) (x : Nat × Nat) : (span v x).length = if v = 1 then 16 else 8 := by
  rw [span]; split <;> simp [be_length]

theorem spans_length (v : Nat) (l : List (Nat × Nat)) : (l.flatMap (span v)).length = l.length * if v = 1 then 16 else 8 := by
  induction l with
  | nil => simp
  | cons x l ih => rw [List.flatMap_cons, List.length_append, ih, span_length, List.length_cons, Nat.succ_mul]; omega

theorem handle_extra (pre post : List UInt8) (r : Rd) (x : Extra) (ok : x.Ok) (hl : x.bytes.length < 2 ^ 32) (hp : pre.length < 2 ^ 63) :
    handle (pre ++ (x.bytes ++ post)) r pre.length = some (r, (pre ++ x.bytes).length) := by
  cases x with
  | other t b =>
    rw [Extra.bytes, box_length] at hl
    exact handle_other pre t b post r ok.1 ok.2 hl hp
  | saiz flags aux size sizes => exact handle_saiz' pre post r flags aux size sizes ok hl
  | saio v flags aux offsets => exact handle_saio' pre post r v flags aux offsets ok hl
  | tfxd v x =>
    rw [Extra.bytes, List.append_assoc] at hl ⊢
    refine handle_uuid pre post tfxdType _ r rfl hl ?_
    rw [getUuid, if_pos (by decide), List.append_assoc, vf_read v 0 ok (by decide)]
    simp only [Option.bind_eq_bind, Option.bind_some]
    rw [raw_append _ _ _ (span_length v x), Option.bind_some]
  | tfrf v xs =>
    obtain ⟨h1, h2⟩ := ok
    rw [Extra.bytes, List.append_assoc, List.append_assoc] at hl ⊢
    refine handle_uuid pre post tfrfType _ r rfl hl ?_
    rw [getUuid, if_neg (by decide), if_pos (by decide)]
    simp only [List.append_assoc]
    rw [vf_read v 0 h1 (by decide)]
    simp only [Option.bind_eq_bind, Option.bind_some, num1, Nat.mod_eq_of_lt h2]
    rw [raw_append _ _ _ (spans_length v xs), Option.bind_some]

theorem bytes_ne (x : Extra) : x.bytes ≠ [] := by
  cases x <;> exact box_ne _ _

theorem reach_extras (file : List UInt8) (r : Rd) (h0 : r.mdat = 0) : ∀ (xs : List Extra) (pre post : List UInt8), (∀ x ∈ xs, x.Ok) →
    (extras xs).length < 2 ^ 32 → pre.length + (extras xs).length < 2 ^ 63 → file = pre ++ (extras xs ++ post) → Reaches file xs.length r pre r (pre ++ extras xs) := by
  intro xs
  induction xs with
  | nil => intro pre post _ _ _ _; rw [extras, List.flatMap_nil, List.append_nil]; exact Reaches.refl file r pre
  | cons x xs ih =>
    intro pre post ok hl hp hf
    have e : extras (x :: xs) = x.bytes ++ extras xs := by rw [extras, List.flatMap_cons]; rfl
    rw [e] at hl hp hf ⊢
    rw [List.length_append] at hl hp
    have h1 : Reaches file 1 r pre r (pre ++ x.bytes) :=
      reach_one file pre x.bytes (extras xs ++ post) r r (pre ++ x.bytes) (by rw [hf, List.append_assoc]) (bytes_ne x)
        (handle_extra pre _ r x (ok x (by simp)) (by omega) (by omega)) h0
    have h2 := ih (pre ++ x.bytes) post (fun y hy => ok y (by simp [hy])) (by omega) (by rw [List.length_append]; omega) (by rw [hf]; simp only [List.append_assoc])
    have := h1.trans h2
    rw [List.append_assoc] at this
    rw [List.length_cons, Nat.add_comm]
    exact this

/-! ### boxes with a meaning -/

theorem handle_anyMfhd (pre post : List UInt8) (r : Rd) (n : Nat) :
    handle (pre ++ (box (fourcc 'm' 'f' 'h' 'd') (vf 0 0 ++ be 4 n) ++ post)) r pre.length = some (r, (pre ++ box (fourcc 'm' 'f' 'h' 'd') (vf 0 0 ++ be 4 n)).length) :=
  handle_mfhd pre post r n

/-- The reader after the fragment header. -/
def withTfhd (f : AnyFragment) (r : Rd) : Rd :=
  { r with
    defDuration := if f.tfhdFlags &&& 0x8 ≠ 0 then f.defDuration else r.defDuration
    defSize := if f.tfhdFlags &&& 0x10 ≠ 0 then f.defSize else r.defSize }

theorem getD_if (c : Prop) [Decidable c] (a b : Nat) : (if c then some a else none).getD b = if c then a else b := by split <;> rfl

theorem handle_anyTfhd (pre post : List UInt8) (r : Rd) (f : AnyFragment) (moof : Nat) (ok : f.Ok) (hl : 8 + (f.tfhd moof).length < 2 ^ 32) :
    handle (pre ++ (box (fourcc 't' 'f' 'h' 'd') (f.tfhd moof) ++ post)) r pre.length =
      some (withTfhd f r, (pre ++ box (fourcc 't' 'f' 'h' 'd') (f.tfhd moof)).length) := by
  rw [handle, handle_start pre _ _ post (by decide) (by decide) hl]
  simp only [Option.bind_eq_bind, Option.bind_some, show kind (fourcc 't' 'f' 'h' 'd') = .tfhd by decide]
  have : getTfhd r (f.tfhd moof ++ post) = some (withTfhd f r, post) := by
    rw [getTfhd, AnyFragment.tfhd]
    simp only [List.append_assoc]
    rw [vf_read 0 _ (by decide) ok.tfhdFlags]
    simp only [Option.bind_eq_bind, Option.bind_some, num4, field_read, getD_if, Nat.mod_eq_of_lt (show f.defDuration < 256 ^ 4 from ok.defDuration),
      Nat.mod_eq_of_lt (show f.defSize < 256 ^ 4 from ok.defSize)]
    rfl
  rw [this, Option.map_some, ← List.append_assoc, posOf_eq]

theorem handle_anyTfdt (pre post : List UInt8) (r : Rd) (f : AnyFragment) (ok : f.Ok) :
    handle (pre ++ (box (fourcc 't' 'f' 'd' 't') f.tfdt ++ post)) r pre.length =
      some ({ r with hasBase := true, base := f.base }, (pre ++ box (fourcc 't' 'f' 'd' 't') f.tfdt).length) := by
  have hl : 8 + f.tfdt.length < 2 ^ 32 := by
    rw [AnyFragment.tfdt, vf, List.length_append, List.length_append, be_length, be_length, be_length]
    split <;> decide
  rw [handle, handle_start pre _ _ post (by decide) (by decide) hl]
  simp only [Option.bind_eq_bind, Option.bind_some, show kind (fourcc 't' 'f' 'd' 't') = .tfdt by decide]
  have : getTfdt r (f.tfdt ++ post) = some ({ r with hasBase := true, base := f.base }, post) := by
    have hb := ok.base
    rw [getTfdt, AnyFragment.tfdt, List.append_assoc, vf_read _ 0 ok.tfdtVersion (by decide)]
    simp only [Option.bind_eq_bind, Option.bind_some]
    by_cases hv : f.tfdtVersion = 1
    · rw [if_pos hv] at hb ⊢
      rw [if_pos hv, num_be, Option.bind_some, Nat.mod_eq_of_lt (Nat.lt_trans hb (by decide))]
    · rw [if_neg hv] at hb ⊢
      rw [if_neg hv, num_be, Option.bind_some, Nat.mod_eq_of_lt (show f.base < 256 ^ 4 from hb)]
  rw [this, Option.map_some, ← List.append_assoc, posOf_eq]

/-- A sample as the reader keeps it. -/
def itemOf (flags : Nat) (s : AnySample) : RunItem :=
  ⟨if flags &&& 0x100 ≠ 0 then s.duration % 2 ^ 32 else 0, if flags &&& 0x200 ≠ 0 then s.data.length % 2 ^ 32 else 0, if flags &&& 0x800 ≠ 0 then s.offset % 2 ^ 32 else 0⟩

theorem getRuns_any (f : AnyFragment) (post : List UInt8) : ∀ ss : List AnySample,
    getRuns f.trunFlags ss.length (ss.flatMap f.trunItem ++ post) = some (ss.map (itemOf f.trunFlags), post) := by
  intro ss
  induction ss with
  | nil => rfl
  | cons s ss ih =>
    rw [List.length_cons, getRuns, List.flatMap_cons, List.append_assoc]
    have : getRun f.trunFlags (f.trunItem s ++ (ss.flatMap f.trunItem ++ post)) = some (itemOf f.trunFlags s, ss.flatMap f.trunItem ++ post) := by
      rw [getRun, AnyFragment.trunItem]
      simp only [List.append_assoc, Option.bind_eq_bind, Option.bind_some, field_read, getD_if]
      rfl
    rw [this]
    simp only [Option.bind_eq_bind, Option.bind_some]
    rw [ih]
    rfl

/-- The reader after the run. -/
def withTrun (f : AnyFragment) (offset : Nat) (r : Rd) : Rd :=
  { r with
    version := f.trunVersion
    flags := f.trunFlags
    dataOffset := if f.trunFlags &&& 0x1 ≠ 0 then offset else r.dataOffset
    run := f.samples.map (itemOf f.trunFlags) }

theorem handle_anyTrun (pre post : List UInt8) (r : Rd) (f : AnyFragment) (offset : Nat) (ho : offset < 2 ^ 32) (ok : f.Ok) (hl : 8 + (f.trun offset).length < 2 ^ 32) :
    handle (pre ++ (box (fourcc 't' 'r' 'u' 'n') (f.trun offset) ++ post)) r pre.length =
      some (withTrun f offset r, (pre ++ box (fourcc 't' 'r' 'u' 'n') (f.trun offset)).length) := by
  rw [handle, handle_start pre _ _ post (by decide) (by decide) hl]
  simp only [Option.bind_eq_bind, Option.bind_some, show kind (fourcc 't' 'r' 'u' 'n') = .trun by decide]
  have : getTrun r (f.trun offset ++ post) = some (withTrun f offset r, post) := by
    rw [getTrun, AnyFragment.trun]
    simp only [List.append_assoc]
    rw [vf_read _ _ ok.trunVersion ok.trunFlags]
    simp only [Option.bind_eq_bind, Option.bind_some, num4, field_read, getD_if, Nat.mod_eq_of_lt ok.count, getRuns_any,
      Nat.mod_eq_of_lt (show offset < 256 ^ 4 from ho)]
    rfl
  rw [this, Option.map_some, ← List.append_assoc, posOf_eq]

theorem getSubs_any (post : List UInt8) : ∀ xs : List (Nat × Nat), (∀ x ∈ xs, x.1 < 2 ^ 16 ∧ x.2 < 2 ^ 32) →
    getSubs xs.length ((xs.flatMap fun x => be 2 x.1 ++ be 4 x.2) ++ post) = some (xs, post) := by
  intro xs
  induction xs with
  | nil => intro _; rfl
  | cons x xs ih =>
    intro h
    obtain ⟨h1, h2⟩ := h x (by simp)
    rw [List.length_cons, getSubs, List.flatMap_cons]
    simp only [List.append_assoc]
    rw [num2]
    simp only [Option.bind_eq_bind, Option.bind_some, num4]
    rw [ih (fun y hy => h y (by simp [hy])), Nat.mod_eq_of_lt h1, Nat.mod_eq_of_lt h2]
    rfl

/-- The protection as the reader keeps it. -/
def encOf (p : Protection) : EncItem := ⟨p.iv, p.subs⟩

theorem getEncs_any (flags : Nat) (post : List UInt8) : ∀ ps : List Protection,
    (∀ p ∈ ps, p.iv.length = 8 ∧ p.subs.length < 2 ^ 16 ∧ (flags &&& 2 = 0 → p.subs = []) ∧ ∀ x ∈ p.subs, x.1 < 2 ^ 16 ∧ x.2 < 2 ^ 32) →
    getEncs flags ps.length (ps.flatMap (protection flags) ++ post) = some (ps.map encOf, post) := by
  intro ps
  induction ps with
  | nil => intro _; rfl
  | cons p ps ih =>
    intro h
    obtain ⟨h1, h2, h3, h4⟩ := h p (by simp)
    rw [List.length_cons, getEncs, List.flatMap_cons, List.append_assoc]
    have : getEnc flags (protection flags p ++ (ps.flatMap (protection flags) ++ post)) = some (encOf p, ps.flatMap (protection flags) ++ post) := by
      rw [getEnc, protection]
      simp only [List.append_assoc]
      rw [raw_append 8 _ _ h1]
      simp only [Option.bind_eq_bind, Option.bind_some, field_read, getD_if]
      have hn : (if flags &&& 2 ≠ 0 then p.subs.length % 256 ^ 2 else 0) = p.subs.length := by
        by_cases hf : flags &&& 2 = 0
        · rw [if_neg (by simpa using hf), h3 hf]; rfl
        · rw [if_pos hf, Nat.mod_eq_of_lt h2]
      rw [hn, getSubs_any _ p.subs h4, Option.bind_some]
      rfl
    rw [this]
    simp only [Option.bind_eq_bind, Option.bind_some]
    rw [ih (fun x hx => h x (by simp [hx]))]
    rfl

/-- The reader after the encryption box. -/
def withSenc (f : AnyFragment) (r : Rd) : Rd :=
  match f.senc with
  | none => r
  | some (_, ps) => { r with hasSenc := true, senc := ps.map encOf }

theorem reach_senc (file pre post : List UInt8) (r : Rd) (h0 : r.mdat = 0) (f : AnyFragment) (ok : f.Ok) (hl : (sencBytes f.senc).length < 2 ^ 32)
    (hf : file = pre ++ (sencBytes f.senc ++ post)) : Reaches file 1 r pre (withSenc f r) (pre ++ sencBytes f.senc) := by
  cases he : f.senc with
  | none =>
    rw [withSenc, he, sencBytes, List.append_nil]
    intro fuel hfu
    exact ⟨fuel, by omega, rfl⟩
  | some v =>
    obtain ⟨flags, ps⟩ := v
    obtain ⟨h1, h2, h3, _⟩ := ok.senc flags ps he
    have hn : ps.length < 2 ^ 32 := by rw [h2]; exact ok.count
    rw [he] at hl hf
    rw [sencBytes] at hl hf ⊢
    rw [box_length] at hl
    have hw : (withSenc f r) = { r with hasSenc := true, senc := ps.map encOf } := by rw [withSenc, he]
    rw [hw]
    refine reach_one file pre _ post r _ _ hf (box_ne _ _) ?_ h0
    rw [handle, handle_start pre _ _ post (by decide) (by decide) hl]
    simp only [Option.bind_eq_bind, Option.bind_some, show kind (fourcc 's' 'e' 'n' 'c') = .senc by decide]
    have : getSenc r (vf 0 flags ++ be 4 ps.length ++ ps.flatMap (protection flags) ++ post) = some ({ r with hasSenc := true, senc := ps.map encOf }, post) := by
      rw [getSenc]
      simp only [List.append_assoc]
      rw [vf_read 0 flags (by decide) h1]
      simp only [Option.bind_eq_bind, Option.bind_some, num4, Nat.mod_eq_of_lt hn]
      rw [getEncs_any flags post ps h3, Option.bind_some]
    rw [this, Option.map_some, ← List.append_assoc, posOf_eq]

/-! ### a fragment -/

theorem trun_length (f : AnyFragment) (a b : Nat) : (f.trun a).length = (f.trun b).length := by
  simp only [AnyFragment.trun, List.length_append, field_length f.trunFlags 1 4 a b]

theorem traf_length (f : AnyFragment) (m a b : Nat) : (f.traf m a).length = (f.traf m b).length := by
  simp only [AnyFragment.traf, List.length_append, box_length, trun_length f a b]

theorem anyMoof_length (f : AnyFragment) (m a b : Nat) : (f.moof m a).length = (f.moof m b).length := by
  simp only [AnyFragment.moof, List.length_append, box_length, traf_length f m a b]

/-- Where the samples of the fragment begin, from the beginning of the moof box. -/
def dataAt (f : AnyFragment) (moof : Nat) : Nat := 8 + (f.moof moof 0).length + (extras f.afterMoof).length + 8 + f.gap.length

theorem any_bytes (f : AnyFragment) (place : Nat) : f.bytes place =
    extras f.before ++ (box (fourcc 'm' 'o' 'o' 'f') (f.moof (place + (extras f.before).length) (dataAt f (place + (extras f.before).length))) ++
      (extras f.afterMoof ++ box (fourcc 'm' 'd' 'a' 't') f.mdat)) := rfl

/-- The reader after the boxes of a fragment. -/
def readAny (f : AnyFragment) (place : Nat) (r : Rd) : Rd :=
  let moof := place + (extras f.before).length
  { withSenc f (withTrun f (dataAt f moof) { withTfhd f { r with moof := moof } with hasBase := true, base := f.base }) with
    mdat := moof + (8 + (f.moof moof 0).length) + (extras f.afterMoof).length + 8 }

/-- The number of boxes of a fragment. -/
def boxCount (f : AnyFragment) : Nat :=
  f.before.length + f.inMoof.length + f.afterTfhd.length + f.afterTfdt.length + f.afterTrun.length + f.afterSenc.length + f.afterMoof.length + 8

theorem withSenc_mdat (f : AnyFragment) (r : Rd) : (withSenc f r).mdat = r.mdat := by
  rw [withSenc]; split <;> rfl

theorem parse_any (f : AnyFragment) (ok : f.Ok) (pre post : List UInt8) (r : Rd) (hb : (f.bytes pre.length).length < 2 ^ 31)
    (hp : (pre ++ f.bytes pre.length).length < 2 ^ 63) (fuel : Nat) (hfuel : boxCount f ≤ fuel) :
    parse (pre ++ (f.bytes pre.length ++ post)) fuel r pre.length = some (readAny f pre.length r, (pre ++ f.bytes pre.length).length) := by
  obtain ⟨file, hfile⟩ : ∃ file, file = pre ++ (f.bytes pre.length ++ post) := ⟨_, rfl⟩
  obtain ⟨m, hm⟩ : ∃ m, m = pre.length + (extras f.before).length := ⟨_, rfl⟩
  obtain ⟨g, hg⟩ : ∃ g, g = dataAt f m := ⟨_, rfl⟩
  have hbytes := any_bytes f pre.length
  rw [← hm, ← hg] at hbytes
  obtain ⟨B, eB⟩ : ∃ B, B = f.bytes pre.length := ⟨_, rfl⟩
  rw [← eB] at hbytes hb hp hfile ⊢
  have hx := ok.extras
  have l1 : B.length = (extras f.before).length + (8 + (f.moof m g).length + ((extras f.afterMoof).length + (8 + f.mdat.length))) := by
    rw [hbytes]; simp only [List.length_append, box_length]
  have l2 : (f.moof m g).length = 8 + (vf 0 0 ++ be 4 f.number).length + ((extras f.inMoof).length + (8 + (f.traf m g).length)) := by
    rw [AnyFragment.moof]; simp only [List.length_append, box_length]
  have l3 : (f.traf m g).length = 8 + (f.tfhd m).length + ((extras f.afterTfhd).length + (8 + f.tfdt.length + ((extras f.afterTfdt).length + (8 + (f.trun g).length +
      ((extras f.afterTrun).length + ((sencBytes f.senc).length + (extras f.afterSenc).length)))))) := by
    rw [AnyFragment.traf]; simp only [List.length_append, box_length]
  have hmoofl := anyMoof_length f m 0 g
  have hgap : f.gap.length ≤ f.mdat.length := by rw [AnyFragment.mdat, List.length_append]; omega
  have hg32 : g < 2 ^ 32 := by rw [hg, dataAt]; omega
  rw [List.length_append] at hp
  -- what follows each place
  obtain ⟨t11, k11⟩ : ∃ t, t = box (fourcc 'm' 'd' 'a' 't') f.mdat ++ post := ⟨_, rfl⟩
  obtain ⟨t10, k10⟩ : ∃ t, t = extras f.afterMoof ++ t11 := ⟨_, rfl⟩
  obtain ⟨t9, k9⟩ : ∃ t, t = extras f.afterSenc ++ t10 := ⟨_, rfl⟩
  obtain ⟨t8, k8⟩ : ∃ t, t = sencBytes f.senc ++ t9 := ⟨_, rfl⟩
  obtain ⟨t7, k7⟩ : ∃ t, t = extras f.afterTrun ++ t8 := ⟨_, rfl⟩
  obtain ⟨t6, k6⟩ : ∃ t, t = box (fourcc 't' 'r' 'u' 'n') (f.trun g) ++ t7 := ⟨_, rfl⟩
  obtain ⟨t5, k5⟩ : ∃ t, t = extras f.afterTfdt ++ t6 := ⟨_, rfl⟩
  obtain ⟨t4, k4⟩ : ∃ t, t = box (fourcc 't' 'f' 'd' 't') f.tfdt ++ t5 := ⟨_, rfl⟩
  obtain ⟨t3, k3⟩ : ∃ t, t = extras f.afterTfhd ++ t4 := ⟨_, rfl⟩
  obtain ⟨t2, k2⟩ : ∃ t, t = box (fourcc 't' 'f' 'h' 'd') (f.tfhd m) ++ t3 := ⟨_, rfl⟩
  have ht2 : f.traf m g ++ t10 = t2 := by
    rw [AnyFragment.traf, k2, k3, k4, k5, k6, k7, k8, k9]; simp only [List.append_assoc]
  have htraf : box (fourcc 't' 'r' 'a' 'f') (f.traf m g) ++ t10 = hdr (fourcc 't' 'r' 'a' 'f') (f.traf m g).length ++ t2 := by
    rw [box_hdr, List.append_assoc, ht2]
  obtain ⟨t1, k1⟩ : ∃ t, t = extras f.inMoof ++ (box (fourcc 't' 'r' 'a' 'f') (f.traf m g) ++ t10) := ⟨_, rfl⟩
  obtain ⟨t0, k0⟩ : ∃ t, t = box (fourcc 'm' 'f' 'h' 'd') (vf 0 0 ++ be 4 f.number) ++ t1 := ⟨_, rfl⟩
  have hmoof : box (fourcc 'm' 'o' 'o' 'f') (f.moof m g) ++ t10 = hdr (fourcc 'm' 'o' 'o' 'f') (f.moof m g).length ++ t0 := by
    rw [box_hdr, AnyFragment.moof, k0, k1]; simp only [List.append_assoc]
  have f0 : file = pre ++ (extras f.before ++ (box (fourcc 'm' 'o' 'o' 'f') (f.moof m g) ++ t10)) := by
    rw [hfile, hbytes, k10, k11]; simp only [List.append_assoc]
  -- the places
  obtain ⟨p0, e0⟩ : ∃ p, p = pre ++ extras f.before := ⟨_, rfl⟩
  obtain ⟨p1, e1⟩ : ∃ p, p = p0 ++ hdr (fourcc 'm' 'o' 'o' 'f') (f.moof m g).length := ⟨_, rfl⟩
  obtain ⟨p2, e2⟩ : ∃ p, p = p1 ++ box (fourcc 'm' 'f' 'h' 'd') (vf 0 0 ++ be 4 f.number) := ⟨_, rfl⟩
  obtain ⟨p3, e3⟩ : ∃ p, p = p2 ++ extras f.inMoof := ⟨_, rfl⟩
  obtain ⟨p4, e4⟩ : ∃ p, p = p3 ++ hdr (fourcc 't' 'r' 'a' 'f') (f.traf m g).length := ⟨_, rfl⟩
  obtain ⟨p5, e5⟩ : ∃ p, p = p4 ++ box (fourcc 't' 'f' 'h' 'd') (f.tfhd m) := ⟨_, rfl⟩
  obtain ⟨p6, e6⟩ : ∃ p, p = p5 ++ extras f.afterTfhd := ⟨_, rfl⟩
  obtain ⟨p7, e7⟩ : ∃ p, p = p6 ++ box (fourcc 't' 'f' 'd' 't') f.tfdt := ⟨_, rfl⟩
  obtain ⟨p8, e8⟩ : ∃ p, p = p7 ++ extras f.afterTfdt := ⟨_, rfl⟩
  obtain ⟨p9, e9⟩ : ∃ p, p = p8 ++ box (fourcc 't' 'r' 'u' 'n') (f.trun g) := ⟨_, rfl⟩
  obtain ⟨p10, e10⟩ : ∃ p, p = p9 ++ extras f.afterTrun := ⟨_, rfl⟩
  obtain ⟨p11, e11⟩ : ∃ p, p = p10 ++ sencBytes f.senc := ⟨_, rfl⟩
  obtain ⟨p12, e12⟩ : ∃ p, p = p11 ++ extras f.afterSenc := ⟨_, rfl⟩
  obtain ⟨p13, e13⟩ : ∃ p, p = p12 ++ extras f.afterMoof := ⟨_, rfl⟩
  have f1 : file = p0 ++ (box (fourcc 'm' 'o' 'o' 'f') (f.moof m g) ++ t10) := by rw [f0, e0, List.append_assoc]
  have f2 : file = p1 ++ (box (fourcc 'm' 'f' 'h' 'd') (vf 0 0 ++ be 4 f.number) ++ t1) := by rw [f1, hmoof, k0, e1]; simp only [List.append_assoc]
  have f3 : file = p2 ++ (extras f.inMoof ++ (box (fourcc 't' 'r' 'a' 'f') (f.traf m g) ++ t10)) := by rw [f2, e2, k1]; simp only [List.append_assoc]
  have f4 : file = p3 ++ (box (fourcc 't' 'r' 'a' 'f') (f.traf m g) ++ t10) := by rw [f3, e3, List.append_assoc]
  have f5 : file = p4 ++ (box (fourcc 't' 'f' 'h' 'd') (f.tfhd m) ++ t3) := by rw [f4, htraf, e4, k2]; simp only [List.append_assoc]
  have f6 : file = p5 ++ (extras f.afterTfhd ++ t4) := by rw [f5, e5, k3]; simp only [List.append_assoc]
  have f7 : file = p6 ++ (box (fourcc 't' 'f' 'd' 't') f.tfdt ++ t5) := by rw [f6, e6, k4]; simp only [List.append_assoc]
  have f8 : file = p7 ++ (extras f.afterTfdt ++ t6) := by rw [f7, e7, k5]; simp only [List.append_assoc]
  have f9 : file = p8 ++ (box (fourcc 't' 'r' 'u' 'n') (f.trun g) ++ t7) := by rw [f8, e8, k6]; simp only [List.append_assoc]
  have f10 : file = p9 ++ (extras f.afterTrun ++ t8) := by rw [f9, e9, k7]; simp only [List.append_assoc]
  have f11 : file = p10 ++ (sencBytes f.senc ++ t9) := by rw [f10, e10, k8]; simp only [List.append_assoc]
  have f12 : file = p11 ++ (extras f.afterSenc ++ t10) := by rw [f11, e11, k9]; simp only [List.append_assoc]
  have f13 : file = p12 ++ (extras f.afterMoof ++ t11) := by rw [f12, e12, k10]; simp only [List.append_assoc]
  have f14 : file = p13 ++ (box (fourcc 'm' 'd' 'a' 't') f.mdat ++ post) := by rw [f13, e13, k11]; simp only [List.append_assoc]
  have hh : (hdr (fourcc 'm' 'o' 'o' 'f') (f.moof m g).length).length = 8 ∧ (hdr (fourcc 't' 'r' 'a' 'f') (f.traf m g).length).length = 8 := by
    constructor <;> simp [hdr, be_length]
  obtain ⟨hh1, hh2⟩ := hh
  have n0 : p0.length = m := by rw [e0, hm, List.length_append]
  have n1 : p1.length = m + 8 := by rw [e1, List.length_append, hh1, n0]
  have n2 : p2.length = p1.length + (8 + (vf 0 0 ++ be 4 f.number).length) := by rw [e2, List.length_append, box_length]
  have n3 : p3.length = p2.length + (extras f.inMoof).length := by rw [e3, List.length_append]
  have n4 : p4.length = p3.length + 8 := by rw [e4, List.length_append, hh2]
  have n5 : p5.length = p4.length + (8 + (f.tfhd m).length) := by rw [e5, List.length_append, box_length]
  have n6 : p6.length = p5.length + (extras f.afterTfhd).length := by rw [e6, List.length_append]
  have n7 : p7.length = p6.length + (8 + f.tfdt.length) := by rw [e7, List.length_append, box_length]
  have n8 : p8.length = p7.length + (extras f.afterTfdt).length := by rw [e8, List.length_append]
  have n9 : p9.length = p8.length + (8 + (f.trun g).length) := by rw [e9, List.length_append, box_length]
  have n10 : p10.length = p9.length + (extras f.afterTrun).length := by rw [e10, List.length_append]
  have n11 : p11.length = p10.length + (sencBytes f.senc).length := by rw [e11, List.length_append]
  have n12 : p12.length = p11.length + (extras f.afterSenc).length := by rw [e12, List.length_append]
  have n13 : p13.length = p12.length + (extras f.afterMoof).length := by rw [e13, List.length_append]
  -- the states
  obtain ⟨r0, hr0⟩ : ∃ r0 : Rd, r0 = { r with mdat := 0 } := ⟨_, rfl⟩
  have z0 : r0.mdat = 0 := by rw [hr0]
  obtain ⟨r1, hr1⟩ : ∃ r1 : Rd, r1 = { r0 with moof := m } := ⟨_, rfl⟩
  have z1 : r1.mdat = 0 := by rw [hr1]; exact z0
  obtain ⟨r2, hr2⟩ : ∃ r2 : Rd, r2 = withTfhd f r1 := ⟨_, rfl⟩
  have z2 : r2.mdat = 0 := by rw [hr2]; exact z1
  obtain ⟨r3, hr3⟩ : ∃ r3 : Rd, r3 = { r2 with hasBase := true, base := f.base } := ⟨_, rfl⟩
  have z3 : r3.mdat = 0 := by rw [hr3]; exact z2
  obtain ⟨r4, hr4⟩ : ∃ r4 : Rd, r4 = withTrun f g r3 := ⟨_, rfl⟩
  have z4 : r4.mdat = 0 := by rw [hr4]; exact z3
  obtain ⟨r5, hr5⟩ : ∃ r5 : Rd, r5 = withSenc f r4 := ⟨_, rfl⟩
  have z5 : r5.mdat = 0 := by rw [hr5, withSenc_mdat]; exact z4
  -- the steps
  have s0 : Reaches file f.before.length r0 pre r0 p0 := by
    rw [e0]; exact reach_extras file r0 z0 f.before pre _ (hx _ (by simp)) (by omega) (by omega) f0
  have s1 : Reaches file 1 r0 p0 r1 p1 := by
    refine reach_one file p0 _ t10 r0 r1 p1 f1 (box_ne _ _) ?_ z1
    rw [handle_moof p0 _ _ r0 (by omega), hr1, e1, n0]
  have s2 : Reaches file 1 r1 p1 r1 p2 := by
    refine reach_one file p1 _ t1 r1 r1 p2 f2 (box_ne _ _) ?_ z1
    rw [handle_anyMfhd, e2]
  have s3 : Reaches file f.inMoof.length r1 p2 r1 p3 := by
    rw [e3]; exact reach_extras file r1 z1 f.inMoof p2 _ (hx _ (by simp)) (by omega) (by omega) f3
  have s4 : Reaches file 1 r1 p3 r1 p4 := by
    refine reach_one file p3 _ t10 r1 r1 p4 f4 (box_ne _ _) ?_ z1
    rw [handle_traf p3 _ _ r1 (by omega), e4]
  have s5 : Reaches file 1 r1 p4 r2 p5 := by
    refine reach_one file p4 _ t3 r1 r2 p5 f5 (box_ne _ _) ?_ z2
    rw [handle_anyTfhd p4 _ r1 f m ok (by omega), hr2, e5]
  have s6 : Reaches file f.afterTfhd.length r2 p5 r2 p6 := by
    rw [e6]; exact reach_extras file r2 z2 f.afterTfhd p5 _ (hx _ (by simp)) (by omega) (by omega) f6
  have s7 : Reaches file 1 r2 p6 r3 p7 := by
    refine reach_one file p6 _ t5 r2 r3 p7 f7 (box_ne _ _) ?_ z3
    rw [handle_anyTfdt p6 _ r2 f ok, hr3, e7]
  have s8 : Reaches file f.afterTfdt.length r3 p7 r3 p8 := by
    rw [e8]; exact reach_extras file r3 z3 f.afterTfdt p7 _ (hx _ (by simp)) (by omega) (by omega) f8
  have s9 : Reaches file 1 r3 p8 r4 p9 := by
    refine reach_one file p8 _ t7 r3 r4 p9 f9 (box_ne _ _) ?_ z4
    rw [handle_anyTrun p8 _ r3 f g hg32 ok (by omega), hr4, e9]
  have s10 : Reaches file f.afterTrun.length r4 p9 r4 p10 := by
    rw [e10]; exact reach_extras file r4 z4 f.afterTrun p9 _ (hx _ (by simp)) (by omega) (by omega) f10
  have s11 : Reaches file 1 r4 p10 r5 p11 := by
    rw [hr5, e11]; exact reach_senc file p10 t9 r4 z4 f ok (by omega) f11
  have s12 : Reaches file f.afterSenc.length r5 p11 r5 p12 := by
    rw [e12]; exact reach_extras file r5 z5 f.afterSenc p11 _ (hx _ (by simp)) (by omega) (by omega) f12
  have s13 : Reaches file f.afterMoof.length r5 p12 r5 p13 := by
    rw [e13]; exact reach_extras file r5 z5 f.afterMoof p12 _ (hx _ (by simp)) (by omega) (by omega) f13
  have hall := ((((((((((((s0.trans s1).trans s2).trans s3).trans s4).trans s5).trans s6).trans s7).trans s8).trans s9).trans s10).trans s11).trans s12).trans s13
  rw [boxCount] at hfuel
  obtain ⟨n, hn1, hn2⟩ := hall fuel (by omega)
  rw [← hfile, parse, ← hr0, hn2]
  obtain ⟨n, rfl⟩ : ∃ m, n = m + 1 := ⟨n - 1, by omega⟩
  have hmd := handle_mdat p13 f.mdat post r5 (by omega)
  rw [loop_step file p13 (box (fourcc 'm' 'd' 'a' 't') f.mdat) post n r5 _ false f14 (box_ne _ _) _ (by rw [f14]; exact hmd)]
  rw [if_pos ⟨by simp only; omega, rfl⟩]
  have hlast : p13.length + 8 = m + (8 + (f.moof m 0).length) + (extras f.afterMoof).length + 8 := by omega
  have hend : (p13 ++ box (fourcc 'm' 'd' 'a' 't') f.mdat).length = (pre ++ B).length := by
    rw [List.length_append, List.length_append, box_length]; omega
  have hafter : ({ r5 with mdat := p13.length + 8 } : Rd) = readAny f pre.length r := by
    rw [hlast, readAny, hr5, hr4, hr3, hr2, hr1, hr0, hg, hm]
    cases he : f.senc with
    | none => simp only [withSenc, he]; rfl
    | some v => simp only [withSenc, he]; rfl
  rw [hafter, hend]

theorem outs_zip (o : Opts) (r : Rd) : ∀ (is : List RunItem) (bs : List (List UInt8)),
    outs o r is bs = List.zipWith (fun i b => ⟨b, r.duration i, r.offset i⟩) is bs := by
  intro is
  induction is with
  | nil => intro bs; cases bs <;> rfl
  | cons i is ih => intro bs; cases bs with
    | nil => rfl
    | cons b bs => rw [outs, List.zipWith_cons_cons, ih]

/-- The bodies of the samples of a fragment. -/
def bodies (f : AnyFragment) (key : Option (List UInt8 → List UInt8)) : List (List UInt8) :=
  f.samples.mapIdx fun n s => inClear key (f.senc.bind fun x => x.2[n]?) s.data

theorem any_samples (f : AnyFragment) (ok : f.Ok) (o : Opts) (hE : ∀ E, o.key = some E → ∀ b, (E b).length = 16) (pre post : List UInt8) (r : Rd)
    (hb : (f.bytes pre.length).length < 2 ^ 31) (hclear : f.senc = none → o.key ≠ none → r.hasSenc = false) (hl : (pre ++ (f.bytes pre.length ++ post)).length < 2 ^ 63) :
    samples o (pre ++ (f.bytes pre.length ++ post)) (readAny f pre.length r) (readAny f pre.length r).run 0 (readAny f pre.length r).baseOffset (readAny f pre.length r).baseTime =
      some (line o.time o.audio true f.base (f.timed o.key)) := by
  obtain ⟨m, hm⟩ : ∃ m, m = pre.length + (extras f.before).length := ⟨_, rfl⟩
  have hbytes := any_bytes f pre.length
  rw [← hm] at hbytes
  have hmoofl := anyMoof_length f m 0 (dataAt f m)
  have l1 : (f.bytes pre.length).length = (extras f.before).length + (8 + (f.moof m (dataAt f m)).length + ((extras f.afterMoof).length + (8 + f.mdat.length))) := by
    rw [hbytes]; simp only [List.length_append, box_length]
  have hml : f.mdat.length = f.gap.length + ((f.samples.map (·.data)).flatten.length + f.tail.length) := by
    rw [AnyFragment.mdat]; simp only [List.length_append]
  obtain ⟨R, hR⟩ : ∃ R, R = readAny f pre.length r := ⟨_, rfl⟩
  have hflags : R.flags = f.trunFlags := by rw [hR]; simp only [readAny, withSenc]; split <;> rfl
  have hrun : R.run = f.samples.map (itemOf f.trunFlags) := by rw [hR]; simp only [readAny, withSenc]; split <;> rfl
  have hbase : R.baseTime = f.base := by
    have h1 : R.hasBase = true := by rw [hR]; simp only [readAny, withSenc]; split <;> rfl
    have h2 : R.base = f.base := by rw [hR]; simp only [readAny, withSenc]; split <;> rfl
    have h3 : f.base < 2 ^ 63 := by
      have := ok.base
      split at this
      · exact this
      · exact Nat.lt_trans this (by decide)
    rw [Rd.baseTime, if_pos h1, h2, int64, Nat.mod_eq_of_lt (by omega), if_pos h3]
  have hmdat : R.mdat = m + (8 + (f.moof m 0).length) + (extras f.afterMoof).length + 8 := by rw [hR, readAny, hm]
  have hmoof : R.moof = m := by rw [hR]; simp only [readAny, withSenc, hm]; split <;> rfl
  have hdd : R.defDuration = if f.tfhdFlags &&& 0x8 ≠ 0 then f.defDuration else r.defDuration := by rw [hR]; simp only [readAny, withSenc]; split <;> rfl
  have hds : R.defSize = if f.tfhdFlags &&& 0x10 ≠ 0 then f.defSize else r.defSize := by rw [hR]; simp only [readAny, withSenc]; split <;> rfl
  have hoffs : f.trunFlags &&& 1 ≠ 0 → R.dataOffset = dataAt f m := by
    intro h
    rw [hR]; simp only [readAny, withSenc, withTrun, if_pos h, hm]
    split <;> rfl
  have hstart : R.baseOffset = m + dataAt f m := by
    rw [Rd.baseOffset, hflags]
    by_cases h : f.trunFlags &&& 1 ≠ 0
    · rw [if_pos h, hoffs h, hmoof, int32, Nat.mod_eq_of_lt (by rw [dataAt]; omega), signed32, if_pos (by rw [dataAt]; omega), uint64]
      rw [List.length_append, List.length_append] at hl
      have hlt : dataAt f m + m < 2 ^ 64 := by rw [dataAt]; omega
      rw [show ((dataAt f m : Nat) : Int) + (m : Nat) = ((dataAt f m + m : Nat) : Int) by push_cast; rfl]
      omega
    · rw [if_neg h, hmdat, dataAt, ok.start (by simpa using h)]
      simp only [List.length_nil]; omega
  have hdur : ∀ s ∈ f.samples, R.duration (itemOf f.trunFlags s) = f.durationOf s := by
    intro s hs
    have := ok.durations
    rw [Rd.duration, AnyFragment.durationOf, hflags, itemOf]
    by_cases h : f.trunFlags &&& 0x100 ≠ 0
    · rw [if_pos h] at this
      have hd := this s hs
      simp only [if_pos h]
      rw [int32, Nat.mod_mod, Nat.mod_eq_of_lt (by omega), signed32, if_pos hd]
    · rw [if_neg h] at this
      simp only [if_neg h, hdd, if_pos this]
  have hoff : ∀ s ∈ f.samples, R.offset (itemOf f.trunFlags s) = f.offsetOf s := by
    intro s hs
    rw [Rd.offset, AnyFragment.offsetOf, hflags, itemOf]
    by_cases h : f.trunFlags &&& 0x800 = 0
    · simp [h]
    · have := ok.offsets h s hs
      simp only [ne_eq, h, not_false_eq_true, if_true, if_false]
      rw [int32, Nat.mod_mod]
      by_cases hv : f.trunVersion = 0
      · rw [if_pos hv] at this ⊢
        rw [Nat.mod_eq_of_lt (by omega), signed32, if_pos this]
      · rw [if_neg hv] at this ⊢
        rw [Nat.mod_eq_of_lt this]
  have hsize : ∀ s ∈ f.samples, R.size (itemOf f.trunFlags s) = s.data.length := by
    intro s hs
    have := ok.sizes
    rw [Rd.size, hflags, itemOf]
    by_cases h : f.trunFlags &&& 0x200 ≠ 0
    · rw [if_pos h] at this
      simp only [if_pos h]
      rw [Nat.mod_eq_of_lt (this s hs)]
    · rw [if_neg h] at this
      simp only [if_neg h, hds, if_pos this.1, this.2 s hs]
  have hbody : ∀ k s, f.samples[k]? = some s → sampleBody o R k s.data = some (inClear o.key (f.senc.bind fun x => x.2[k]?) s.data) := by
    intro k s hk
    rw [sampleBody]
    cases hkey : o.key with
    | none => rfl
    | some E =>
      simp only
      cases he : f.senc with
      | none =>
        have hs : R.hasSenc = false := by
          have := hclear he (by rw [hkey]; simp)
          rw [hR]; simp only [readAny, withSenc, he]; exact this
        rw [hs]; rfl
      | some v =>
        obtain ⟨flags, ps⟩ := v
        obtain ⟨_, h2, h3, h4⟩ := ok.senc flags ps he
        have hs : R.hasSenc = true := by rw [hR]; simp only [readAny, withSenc, he]
        have hss : R.senc = ps.map encOf := by rw [hR]; simp only [readAny, withSenc, he]
        have hlt : k < f.samples.length := (List.getElem?_eq_some_iff.mp hk).1
        have hp : ps[k]? = some (ps[k]'(by omega)) := List.getElem?_eq_getElem _
        obtain ⟨p, hpe⟩ : ∃ p, p = ps[k]'(by omega) := ⟨_, rfl⟩
        rw [← hpe] at hp
        have hmem : p ∈ ps := by rw [hpe]; exact List.getElem_mem _
        obtain ⟨q1, _, _, _⟩ := h3 p hmem
        have hsl : s.data.length < 2 ^ 64 := by
          have hin : s.data.length ≤ (f.samples.map (·.data)).flatten.length := by
            have hms : s ∈ f.samples := List.mem_of_getElem? hk
            exact (List.sublist_flatten_of_mem (List.mem_map_of_mem hms)).length_le
          omega
        rw [hs, if_pos rfl, hss, List.getElem?_map, hp, Option.map_some, Option.bind_some,
          decrypt_standard E (hE E hkey) (encOf p) q1 s.data (fun hne => h4 k p s hp hk hne) hsl]
        simp only [Option.bind_some, hp, inClear]
        rfl
  have hdrop : (pre ++ (f.bytes pre.length ++ post)).drop (m + dataAt f m) = (f.samples.map (·.data)).flatten ++ (f.tail ++ post) := by
    have e : pre ++ (f.bytes pre.length ++ post) =
        ((pre ++ extras f.before) ++ (box (fourcc 'm' 'o' 'o' 'f') (f.moof m (dataAt f m)) ++ (extras f.afterMoof ++ (hdr (fourcc 'm' 'd' 'a' 't') f.mdat.length ++ f.gap)))) ++
          ((f.samples.map (·.data)).flatten ++ (f.tail ++ post)) := by
      rw [hbytes, box_hdr (fourcc 'm' 'd' 'a' 't')]
      rw [show f.mdat = f.gap ++ ((f.samples.map (·.data)).flatten ++ f.tail) from rfl]
      simp only [List.append_assoc]
    rw [e]
    refine List.drop_left' ?_
    simp only [List.length_append, box_length, hdr, be_length]
    have hd : dataAt f m = 8 + (f.moof m 0).length + (extras f.afterMoof).length + 8 + f.gap.length := rfl
    omega
  have hin : m + dataAt f m ≤ (pre ++ (f.bytes pre.length ++ post)).length := by
    rw [List.length_append, List.length_append, dataAt]; omega
  rw [← hR, hrun, hstart, hbase]
  have hlen64 : (pre ++ (f.bytes pre.length ++ post)).length < 2 ^ 64 := Nat.lt_trans hl (by decide)
  rw [samples_gen o _ R hlen64 _ (f.samples.map (·.data)) (bodies f o.key) 0 _ _ (f.tail ++ post)
    (by
      rw [List.map_map, List.map_map]
      exact List.map_congr_left fun s hs => hsize s hs)
    (by rw [bodies, List.length_map, List.length_mapIdx])
    (by
      intro k s hk
      rw [List.getElem?_map] at hk
      obtain ⟨x, hx1, hx2⟩ := Option.map_eq_some_iff.mp hk
      rw [Nat.zero_add, ← hx2, hbody k x hx1, bodies, List.getElem?_mapIdx, hx1]
      rfl)
    hdrop hin]
  have hout : outs o R (f.samples.map (itemOf f.trunFlags)) (bodies f o.key) = f.timed o.key := by
    rw [outs_zip]
    apply List.ext_getElem?
    intro k
    rw [List.getElem?_zipWith, bodies, AnyFragment.timed, List.getElem?_mapIdx, List.getElem?_mapIdx, List.getElem?_map]
    cases hk : f.samples[k]? with
    | none => rfl
    | some s =>
      have hs : s ∈ f.samples := List.mem_of_getElem? hk
      simp only [Option.map_some, hdur s hs, hoff s hs]
  rw [hout]
  rfl

/-! ### a file -/

theorem place_length (f : AnyFragment) (a b : Nat) : (f.bytes a).length = (f.bytes b).length := by
  rw [any_bytes, any_bytes]
  generalize dataAt f _ = x
  generalize dataAt f _ = y
  simp only [List.length_append, box_length, AnyFragment.moof, AnyFragment.traf, trun_length f x y, AnyFragment.tfhd,
    field_length f.tfhdFlags 1 8 (a + (extras f.before).length) (b + (extras f.before).length)]

theorem parse_trailing (file : List UInt8) (r : Rd) (xs : List Extra) (pre : List UInt8) (hok : ∀ x ∈ xs, x.Ok) (hl : (extras xs).length < 2 ^ 32)
    (hp : (pre ++ extras xs).length < 2 ^ 63) (hf : file = pre ++ extras xs) (fuel : Nat) (hfuel : xs.length < fuel) :
    parse file fuel r pre.length = some ({ r with mdat := 0 }, file.length) := by
  rw [List.length_append] at hp
  have h := reach_extras file { r with mdat := 0 } rfl xs pre [] hok hl hp (by rw [List.append_nil]; exact hf)
  obtain ⟨n, hn1, hn2⟩ := h fuel (by omega)
  obtain ⟨n, rfl⟩ : ∃ m, n = m + 1 := ⟨n - 1, by omega⟩
  rw [parse, hn2, ← hf, loop, if_pos (Nat.le_refl _)]

theorem any_go (o : Opts) (hE : ∀ E, o.key = some E → ∀ b, (E b).length = 16) (fuel : Nat) (xs : List Extra) (hxs : ∀ x ∈ xs, x.Ok) (hxl : (extras xs).length < 2 ^ 32)
    (hxf : xs.length < fuel) : ∀ (fs : List AnyFragment) (pre : List UInt8) (r : Rd) (n : Nat),
    (∀ f ∈ fs, f.Ok ∧ boxCount f ≤ fuel ∧ (f.bytes 0).length < 2 ^ 31) →
    fs.Pairwise (fun a b => a.senc ≠ none → b.senc ≠ none) → (r.hasSenc = true → ∀ f ∈ fs, f.senc ≠ none) → fs.length < n →
    (pre ++ (anyFile pre.length fs ++ extras xs)).length < 2 ^ 63 →
    ((parse (pre ++ (anyFile pre.length fs ++ extras xs)) fuel r pre.length).bind fun x => fragments o (pre ++ (anyFile pre.length fs ++ extras xs)) fuel n x.1 x.2) =
      some (fs.flatMap fun f => line o.time o.audio true f.base (f.timed o.key)) := by
  intro fs
  induction fs with
  | nil =>
    intro pre r n _ _ _ hn hl
    obtain ⟨n, rfl⟩ : ∃ m, n = m + 1 := ⟨n - 1, by simp at hn; omega⟩
    rw [anyFile, List.nil_append] at hl ⊢
    rw [parse_trailing _ r xs pre hxs hxl hl rfl fuel hxf, Option.bind_some, fragments]
    simp
  | cons f fs ih =>
    intro pre r n hok hcl hsenc hn hl
    obtain ⟨n, rfl⟩ : ∃ m, n = m + 1 := ⟨n - 1, by simp at hn; omega⟩
    obtain ⟨ok, hfu, hsz⟩ := hok f (by simp)
    rw [place_length f 0 pre.length] at hsz
    obtain ⟨post, hpost⟩ : ∃ post, post = anyFile (pre.length + (f.bytes pre.length).length) fs ++ extras xs := ⟨_, rfl⟩
    have hfile : pre ++ (anyFile pre.length (f :: fs) ++ extras xs) = pre ++ (f.bytes pre.length ++ post) := by
      rw [anyFile, hpost]; simp only [List.append_assoc]
    have hfile2 : pre ++ (f.bytes pre.length ++ post) = (pre ++ f.bytes pre.length) ++ (anyFile (pre ++ f.bytes pre.length).length fs ++ extras xs) := by
      rw [hpost, List.length_append]; simp only [List.append_assoc]
    rw [hfile] at hl ⊢
    have hpl : (pre ++ f.bytes pre.length).length < 2 ^ 63 := by
      simp only [List.length_append] at hl ⊢; omega
    rw [parse_any f ok pre post r hsz hpl fuel hfu, Option.bind_some, fragments]
    have hmd : (readAny f pre.length r).mdat ≠ 0 := by rw [readAny]; simp only; omega
    rw [if_neg hmd, any_samples f ok o hE pre post r hsz
      (by
        intro he _
        cases hh : r.hasSenc with
        | false => rfl
        | true => exact absurd he (hsenc hh f (by simp))) hl]
    have hrec := ih (pre ++ f.bytes pre.length) (readAny f pre.length r) n (fun x hx => hok x (by simp [hx])) (List.pairwise_cons.mp hcl).2
      (by
        intro hh x hx
        cases he : f.senc with
        | none =>
          have : (readAny f pre.length r).hasSenc = r.hasSenc := by simp only [readAny, withSenc, he]; rfl
          rw [this] at hh
          exact hsenc hh x (by simp [hx])
        | some v => exact (List.pairwise_cons.mp hcl).1 x hx (by rw [he]; simp))
      (by simp at hn; omega) (by rw [← hfile2]; exact hl)
    rw [← hfile2] at hrec
    simp only [Option.bind_eq_bind, Option.bind_some]
    cases hp : parse (pre ++ (f.bytes pre.length ++ post)) fuel (readAny f pre.length r) (pre ++ f.bytes pre.length).length with
    | none => rw [hp] at hrec; simp at hrec
    | some x =>
      rw [hp, Option.bind_some] at hrec
      simp only [Option.bind_some, hrec, List.flatMap_cons]

/-- C105: from fragments of any program (one track fragment and one run each; any flags, versions, optional fields and sub-samples; other boxes anywhere between) all samples are handed on, with their
bytes (decrypted if there is a key), durations and times. Durations in a run must be below 2^31, the sizes and durations must come from the fragment itself, and a fragment in the clear must not
come after an encrypted one. -/
theorem any_fragments_partial (o : Opts) (hE : ∀ E, o.key = some E → ∀ b, (E b).length = 16) (fs : List AnyFragment) (trailing : List Extra)
    (hok : ∀ f ∈ fs, f.Ok ∧ (f.bytes 0).length < 2 ^ 31) (htr : ∀ x ∈ trailing, x.Ok) (htl : (extras trailing).length < 2 ^ 32)
    (hclear : fs.Pairwise fun a b => a.senc ≠ none → b.senc ≠ none) (hl : (anyFile 0 fs ++ extras trailing).length < 2 ^ 63)
    (fuel : Nat) (hfuel : ∀ f ∈ fs, boxCount f ≤ fuel) (hft : trailing.length < fuel) (hn : fs.length < fuel) (moof off : Nat) :
    moofMux o fuel moof off (anyFile 0 fs ++ extras trailing) = some (fs.flatMap fun f => line o.time o.audio true f.base (f.timed o.key)) := by
  have := any_go o hE fuel trailing htr htl hft fs [] (Rd.new moof off) fuel (fun f hf => ⟨(hok f hf).1, hfuel f hf, (hok f hf).2⟩) hclear (by simp [Rd.new]) hn
    (by simpa using hl)
  simp only [List.length_nil, List.nil_append] at this
  rw [moofMux]
  exact this

instance : DecidablePred Extra.Ok := fun x => by
  cases x <;> simp only [Extra.Ok] <;> infer_instance

/-- Two fragments with different flags; the first has default sizes, a `free` box, and per sample flags and negative offsets, the second sub-samples in two parts. -/
def odd : List AnyFragment :=
  [{ before := [.other (fourcc 's' 't' 'y' 'p') [1, 2], .other (fourcc 'f' 'r' 'e' 'e') []], number := 1, inMoof := [], tfhdFlags := 0x2003B, track := 7, description := 1,
     defDuration := 5, defSize := 2, defFlags := 9, afterTfhd := [.tfrf 1 [(3, 4), (5, 6)]], tfdtVersion := 0, base := 100, afterTfdt := [], trunVersion := 1, trunFlags := 0xC05,
     firstFlags := 3, samples := [⟨0, 1, 0xFFFFFFFE, [1, 2]⟩, ⟨0, 2, 4, [3, 4]⟩], afterTrun := [.tfxd 0 (1, 2), .other (fourcc 's' 'd' 't' 'p') [0]], senc := none, afterSenc := [],
     afterMoof := [], gap := [7], tail := [8, 8] },
   { before := [], number := 2, inMoof := [.other 5 []], tfhdFlags := 0, track := 7, description := 1,
     defDuration := 5, defSize := 2, defFlags := 9, afterTfhd := [], tfdtVersion := 1, base := 110, afterTfdt := [], trunVersion := 0, trunFlags := 0x300,
     firstFlags := 3, samples := [⟨6, 1, 0, List.replicate 20 9⟩], afterTrun := [.saiz 1 6 0 [14], .saio 1 0 0 [4]],
     senc := some (2, [⟨[1, 2, 3, 4, 5, 6, 7, 8], [(2, 5), (0, 13)]⟩]), afterSenc := [],
     afterMoof := [], gap := [], tail := [] }]

example (moof off : Nat) : moofMux ⟨some Fragment.toyCipher, false, 10000000, id⟩ 20 moof off (anyFile 0 odd ++ extras [.other (fourcc 'm' 'f' 'r' 'a') [1]]) =
    some [⟨[1, 2], true, 98, 100, 5⟩, ⟨[3, 4], false, 109, 105, 5⟩, ⟨[9, 9, 13, 12, 15, 14, 1, 0, 3, 2, 10, 10, 10, 10, 10, 10, 10, 10, 13, 12], true, 110, 110, 6⟩] := by
  rw [any_fragments_partial ⟨some Fragment.toyCipher, false, 10000000, id⟩ (by intro E h b; cases h; exact Fragment.toyCipher_length b) odd _
    (by
      intro f hf
      simp only [odd, List.mem_cons, List.not_mem_nil, or_false] at hf
      rcases hf with rfl | rfl
      · refine ⟨?_, by decide +kernel⟩
        constructor <;> first | decide +kernel | simp
      · refine ⟨?_, by decide +kernel⟩
        constructor
        case senc =>
          intro flags ps h
          simp only [Option.some.injEq, Prod.mk.injEq] at h
          obtain ⟨rfl, rfl⟩ := h
          refine ⟨by decide, rfl, by decide, ?_⟩
          intro k p s hk hs _
          match k, hk, hs with
          | 0, hk, hs =>
            simp only [List.getElem?_cons_zero, Option.some.injEq] at hk hs
            rw [← hk, ← hs]; rfl
        all_goals first | decide +kernel | simp) (by decide +kernel) (by decide +kernel) (by simp [odd]) (by decide +kernel) 20 (by decide +kernel) (by decide) (by decide) moof off]
  decide +kernel

end Verif.Moof
