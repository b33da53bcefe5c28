import Verif.Moof.Segment
import Verif.Moof.Spec
import Verif.Fragment.Props
/-
C105, C106: making a file out of fragments.
-/
namespace Verif.Moof
open Verif.Fragment (fourcc box box_length Frag Item Sample W segBytes moofBytes storedOf encStart scaled finish_eq make_ok make_eq)
open Verif.Fragment.Spec (num opt raw full signed32)
open Verif.Cenc.Spec (be)
open Spec

/-! ### decryption -/

theorem stream_ctr (E : List UInt8 → List UInt8) (hE : ∀ b, (E b).length = 16) (iv : List UInt8) (h : iv.length = 8) (data : List UInt8) (n : Nat)
    (hn : data.length ≤ 16 * n) (hl : n < 2 ^ 64) :
    List.zipWith (· ^^^ ·) data (Cenc.keyStream E n (iv ++ List.replicate 8 0)) = Cenc.Spec.ctr E iv data := by
  rw [show iv ++ List.replicate 8 0 = Cenc.Spec.block iv 0 from rfl]
  apply List.ext_getElem?
  intro k
  rw [Cenc.Spec.ctr, List.getElem?_zipWith, List.getElem?_mapIdx]
  by_cases hk : k < data.length
  · rw [List.getElem?_eq_getElem hk, Cenc.keyStream_get E hE iv h _ 0 k (by omega) (by omega), Nat.zero_add]
    rfl
  · rw [List.getElem?_eq_none (by omega)]
    rfl

theorem protected_length (subs : List (Nat × Nat)) : ∀ src : List UInt8, (Cenc.Spec.protectedBytes subs src).length ≤ src.length := by
  induction subs with
  | nil => intro src; simp [Cenc.Spec.protectedBytes]
  | cons x subs ih =>
    obtain ⟨c, p⟩ := x
    intro src
    have := ih (src.drop (c + p))
    rw [List.length_drop] at this
    rw [Cenc.Spec.protectedBytes, List.length_append, List.length_take, List.length_drop]
    omega

theorem decryptSubs_eq (stream : List UInt8) (subs : List (Nat × Nat)) : ∀ (used : Nat) (src : List UInt8), (subs.map fun x => x.1 + x.2).sum = src.length →
    used + src.length ≤ stream.length →
    decryptSubs stream subs used src =
      some (Cenc.Spec.replaceProtected subs src (List.zipWith (· ^^^ ·) (Cenc.Spec.protectedBytes subs src) (stream.drop used))) := by
  induction subs with
  | nil =>
    intro used src h hs
    obtain rfl : src = [] := List.length_eq_zero_iff.mp (by simpa using h.symm)
    rfl
  | cons x subs ih =>
    obtain ⟨c, p⟩ := x
    intro used src h hs
    rw [List.map_cons, List.sum_cons] at h
    simp only at h
    rw [decryptSubs, if_neg (by omega), ih (used + p) (src.drop (c + p)) (by rw [List.length_drop]; omega) (by rw [List.length_drop]; omega), Option.map_some,
      Cenc.Spec.replaceProtected, Cenc.Spec.protectedBytes]
    have hpl : ((src.drop c).take p).length = p := by rw [List.length_take, List.length_drop]; omega
    have hsplit : List.zipWith (· ^^^ ·) ((src.drop c).take p ++ Cenc.Spec.protectedBytes subs (src.drop (c + p))) (stream.drop used) =
        List.zipWith (· ^^^ ·) ((src.drop c).take p) (stream.drop used) ++
          List.zipWith (· ^^^ ·) (Cenc.Spec.protectedBytes subs (src.drop (c + p))) (stream.drop (used + p)) := by
      have : stream.drop used = (stream.drop used).take p ++ stream.drop (used + p) := by rw [← List.drop_drop, List.take_append_drop]
      rw [this, List.zipWith_append (by rw [hpl, List.length_take, List.length_drop]; omega)]
      congr 1
      have h2 : ∀ (a b b' : List UInt8), a.length ≤ b.length → List.zipWith (· ^^^ ·) a (b ++ b') = List.zipWith (· ^^^ ·) a b := by
        intro a
        induction a with
        | nil => intro b b' _; simp
        | cons x a ih =>
          intro b b' hb
          cases b with
          | nil => simp at hb
          | cons y b => simp only [List.cons_append, List.zipWith_cons_cons]; rw [ih b b' (by simpa using hb)]
      rw [h2 _ _ _ (by rw [hpl, List.length_take, List.length_drop]; omega)]
    have hzl : (List.zipWith (fun x1 x2 : UInt8 => x1 ^^^ x2) ((src.drop c).take p) (stream.drop used)).length = p := by
      rw [List.length_zipWith, hpl, List.length_drop]; omega
    rw [hsplit, List.take_left' hzl, List.drop_left' hzl]

/-- C106: the command decrypts as the standard says, for every division of the sample into clear and protected parts (none: all of it is protected). -/
theorem decrypt_standard (E : List UInt8 → List UInt8) (hE : ∀ b, (E b).length = 16) (e : EncItem) (hiv : e.iv.length = 8) (src : List UInt8)
    (hsum : e.subs ≠ [] → (e.subs.map fun x => x.1 + x.2).sum = src.length) (hl : src.length < 2 ^ 64) :
    decryptSample E e src = some (Cenc.Spec.decrypt E e.iv (if e.subs = [] then [(0, src.length)] else e.subs) src) := by
  rw [decryptSample]
  by_cases h : e.subs = []
  · simp only [if_pos h]
    rw [show e.iv ++ List.replicate 8 0 = Cenc.Spec.block e.iv 0 from rfl, Cenc.ctr_eq E hE e.iv hiv src hl, Cenc.Spec.decrypt]
    have hp : Cenc.Spec.protectedBytes [(0, src.length)] src = src := by simp [Cenc.Spec.protectedBytes]
    rw [hp]
    have hc : (Cenc.Spec.ctr E e.iv src).length = src.length := Cenc.spec_ctr_length E e.iv src
    simp only [Cenc.Spec.replaceProtected, List.take_zero, List.nil_append, Nat.zero_add, List.drop_length, List.append_nil]
    rw [List.take_of_length_le (by omega)]
  · simp only [if_neg h]
    rw [decryptSubs_eq _ _ 0 src (hsum h) (by rw [Cenc.keyStream_length E hE]; omega), List.drop_zero, Cenc.Spec.decrypt]
    rw [stream_ctr E hE e.iv hiv _ _ (by have := protected_length e.subs src; omega) (by omega)]

/-- Three parts, the second and third of which go on in the middle of a block. -/
example : decryptSample (fun b => (b.map (· + 3)).take 16) ⟨[1, 2, 3, 4, 5, 6, 7, 8], [(2, 5), (0, 3), (1, 9)]⟩ (List.replicate 20 9) =
    some [9, 9, 13, 12, 15, 14, 1, 0, 3, 2, 9, 10, 10, 10, 10, 10, 10, 10, 10, 13] := by decide +kernel

/-! ### the samples of a fragment -/

/-- Samples cut from the file, with their times. -/
def outs (o : Opts) (r : Rd) : List RunItem → List (List UInt8) → List Timed
  | i :: is, b :: bs => ⟨b, r.duration i, r.offset i⟩ :: outs o r is bs
  | _, _ => []

theorem samples_gen (o : Opts) (file : List UInt8) (r : Rd) (hfile : file.length < 2 ^ 64) : ∀ (is : List RunItem) (stored bodies : List (List UInt8)) (n q : Nat) (dec : Int)
    (tail : List UInt8), is.map r.size = stored.map (·.length) → stored.length = bodies.length →
    (∀ k s, stored[k]? = some s → sampleBody o r (n + k) s = bodies[k]?) → file.drop q = stored.flatten ++ tail → q ≤ file.length →
    samples o file r is n q dec = some (line o.time o.audio (n == 0) dec (outs o r is bodies)) := by
  intro is
  induction is with
  | nil => intro stored bodies n q dec tail h1 h2 h3 h4 h5; cases bodies <;> rfl
  | cons i is ih =>
    intro stored bodies n q dec tail h1 h2 h3 h4 h5
    cases stored with
    | nil => simp at h1
    | cons s stored =>
      cases bodies with
      | nil => simp at h2
      | cons b bodies =>
        simp only [List.map_cons, List.cons.injEq] at h1
        obtain ⟨h1, h1'⟩ := h1
        have hb := h3 0 s rfl
        rw [Nat.add_zero] at hb
        rw [List.flatten_cons, List.append_assoc] at h4
        have hq : q + s.length ≤ file.length := by
          have := congrArg List.length h4
          rw [List.length_drop, List.length_append] at this
          omega
        rw [samples]
        simp only
        rw [h1, h4, Fragment.raw_append _ _ _ rfl]
        simp only [Option.bind_eq_bind, Option.bind_some, hb, List.getElem?_cons_zero]
        rw [Nat.mod_eq_of_lt (by omega), ih stored bodies (n + 1) (q + s.length) (dec + r.duration i) tail h1' (by simpa using h2)
          (by
            intro k s' hk
            have := h3 (k + 1) s' (by simpa using hk)
            rw [show n + 1 + k = n + (k + 1) by omega, this]; rfl)
          (by rw [← List.drop_drop, h4, List.drop_left]) hq]
        rfl

/-- A fragment that can be written and whose durations fit: scaled durations below 2^31 (they are read as `int`). -/
structure Seg.Ok (ts : Nat → Nat) (timescale : Nat) (s : Seg) : Prop where
  some : s.samples ≠ []
  track : s.trackId < 2 ^ 32
  number : s.number < 2 ^ 32
  flags : s.firstFlags < 2 ^ 32
  vector : ∀ x, s.enc = .some x → x.2.length = 8
  base : scaled ts timescale s.base < 2 ^ 63
  size : (s.samples.map fun x => x.body.length + 28).sum + 233 < 2 ^ 31
  durations : ∀ x ∈ s.samples, scaled ts timescale x.duration < 2 ^ 31

/-- The samples of a fragment in the time scale of the track: the composition offset is stored as a 32 bit number, and only with flags for the first sample. -/
def timed (ts : Nat → Nat) (timescale : Nat) (s : Seg) : List Timed :=
  s.samples.map fun x => ⟨x.body, scaled ts timescale x.duration,
    if s.firstFlags = 0 then 0 else signed32 (scaled ts timescale ((x.composition + 2 ^ 64 - x.decoding) % 2 ^ 64) % 2 ^ 32)⟩

theorem int32_small (n : Nat) (h : n < 2 ^ 31) : int32 n = n := by
  rw [int32, Nat.mod_eq_of_lt (by omega), signed32, if_pos h]

theorem int32_mod (n : Nat) : int32 n = signed32 (n % 2 ^ 32) := rfl

theorem outs_eq (ts : Nat → Nat) (E : List UInt8 → List UInt8) (timescale : Nat) (o : Opts) (s : Seg) (ok : Seg.Ok ts timescale s) (r : Rd) (pre : List UInt8) :
    let f := Frag.make ts E timescale (.some s.base) s.enc s.trackId s.number s.firstFlags s.samples
    outs o (after f pre r) (after f pre r).run (s.samples.map (·.body)) = timed ts timescale s := by
  intro f
  have hm := make_eq ts E timescale (.some s.base) s.enc s.trackId s.number s.firstFlags s.samples
  have hfl : f.trunFlags = if 0 < s.firstFlags then 0xB05 else 0x301 := by rw [show f = _ from hm]
  have hit : f.items = s.samples.map (fun x => Frag.itemOf ts { Frag.new with timescale } x) := by rw [show f = _ from hm]
  have hsc : ∀ x : Nat, (if timescale ≠ 10000000 then ts x else x) = scaled ts timescale x := by
    intro x; rw [scaled]; by_cases h : timescale = 10000000 <;> simp [h]
  rw [timed, show (after f pre r).run = f.items.map (itemRead f.trunFlags) from rfl, hit, List.map_map]
  have hd := ok.durations
  have key : ∀ l : List Sample, (∀ x ∈ l, scaled ts timescale x.duration < 2 ^ 31) →
      outs o (after f pre r) (l.map (itemRead f.trunFlags ∘ fun x => Frag.itemOf ts { Frag.new with timescale } x)) (l.map (·.body)) =
      l.map fun x => ⟨x.body, scaled ts timescale x.duration,
        if s.firstFlags = 0 then 0 else signed32 (scaled ts timescale ((x.composition + 2 ^ 64 - x.decoding) % 2 ^ 64) % 2 ^ 32)⟩ := by
    intro l
    induction l with
    | nil => intro _; rfl
    | cons x l ih =>
      intro hl
      rw [List.map_cons, List.map_cons, List.map_cons, outs, ih (fun y hy => hl y (by simp [hy]))]
      congr 1
      have h1 := hl x (by simp)
      have e1 : (after f pre r).duration (itemRead f.trunFlags (Frag.itemOf ts { Frag.new with timescale } x)) = scaled ts timescale x.duration := by
        rw [Rd.duration, show (after f pre r).flags = f.trunFlags from rfl, if_pos (by rw [hfl]; split <;> decide)]
        simp only [itemRead, Frag.itemOf, Frag.scale, hsc]
        rw [Nat.mod_eq_of_lt (by omega), int32_small _ h1]
      have e2 : (after f pre r).offset (itemRead f.trunFlags (Frag.itemOf ts { Frag.new with timescale } x)) =
          if s.firstFlags = 0 then 0 else signed32 (scaled ts timescale ((x.composition + 2 ^ 64 - x.decoding) % 2 ^ 64) % 2 ^ 32) := by
        rw [Rd.offset, show (after f pre r).flags = f.trunFlags from rfl]
        by_cases hz : s.firstFlags = 0
        · rw [if_pos hz, if_neg (by rw [hfl, hz]; decide)]
        · have hpos : 0 < s.firstFlags := by omega
          have hb : f.trunFlags = 0xB05 := by rw [hfl, if_pos hpos]
          rw [if_neg hz, if_pos (by rw [hb]; decide)]
          simp only [itemRead, Frag.itemOf, Frag.scale, hsc]
          rw [if_pos (by rw [hb]; decide), int32, Nat.mod_mod]
      simp only [Function.comp, e1, e2]
  exact key s.samples hd

theorem int64_small (n : Nat) (h : n < 2 ^ 63) : int64 n = n := by
  rw [int64, Nat.mod_eq_of_lt (by omega), if_pos h]

/-- The samples of one fragment. -/
theorem seg_samples (ts : Nat → Nat) (E : List UInt8 → List UInt8) (hE : ∀ b, (E b).length = 16) (timescale : Nat) (ht : timescale < 2 ^ 32) (o : Opts) (s : Seg)
    (ok : Seg.Ok ts timescale s) (r : Rd) (pre post : List UInt8) (hkey : s.enc ≠ none → o.key = .some E) (hclear : s.enc = none → r.hasSenc = false) :
    let f := Frag.make ts E timescale (.some s.base) s.enc s.trackId s.number s.firstFlags s.samples
    (pre ++ (segBytes f ++ post)).length < 2 ^ 63 →
    samples o (pre ++ (segBytes f ++ post)) (after f pre r) (after f pre r).run 0 (after f pre r).baseOffset (after f pre r).baseTime =
      .some (line o.time o.audio true (scaled ts timescale s.base) (timed ts timescale s)) := by
  intro f hlen
  have hfok : f.Ok (storedOf E (encStart s.enc) (s.samples.map (·.body))) :=
    make_ok ts E hE timescale (.some s.base) s.enc ok.vector s.trackId s.number s.firstFlags s.samples ht ok.track ok.number ok.flags ok.size
  have hm := make_eq ts E timescale (.some s.base) s.enc s.trackId s.number s.firstFlags s.samples
  have hsc : ∀ x : Nat, (if timescale ≠ 10000000 then ts x else x) = scaled ts timescale x := by
    intro x; rw [scaled]; by_cases h : timescale = 10000000 <;> simp [h]
  have hb := ok.base
  have hbase : f.base = scaled ts timescale s.base := by
    rw [show f = _ from hm]
    simp only [hsc]
    exact Nat.mod_eq_of_lt (by omega)
  have hbt : (after f pre r).baseTime = (scaled ts timescale s.base : Nat) := by
    have hne : f.base ≠ 2 ^ 64 - 1 := by rw [hbase]; omega
    rw [Rd.baseTime, show (after f pre r).hasBase = true by rw [after]; simp only [if_pos hne], show (after f pre r).base = f.base by rw [after]; simp only [if_pos hne]]
    rw [if_pos rfl, hbase, int64_small _ hb]
  have htot := hfok.total
  have hseg := segBytes_lead f
  have hml : (moofBytes f ((moofBytes f 0).length + 8)).length = (moofBytes f 0).length := Fragment.moof_length _ _ _
  have hsl : (segBytes f).length = (lead f).length + ((moofBytes f 0).length + (8 + f.mdat.length)) := by
    rw [hseg]; simp only [List.length_append, box_length, hml]
  have hbo : (after f pre r).baseOffset = (pre ++ (lead f ++ (moofBytes f ((moofBytes f 0).length + 8) ++ hdr (fourcc 'm' 'd' 'a' 't') f.mdat.length))).length := by
    have hfl : (after f pre r).flags &&& 1 ≠ 0 := by
      rw [show (after f pre r).flags = f.trunFlags from rfl]
      rcases hfok.flags with h | h <;> rw [h] <;> decide
    rw [Rd.baseOffset, if_pos hfl, show (after f pre r).dataOffset = (moofBytes f 0).length + 8 from rfl, int32_small _ (by omega),
      show (after f pre r).moof = (pre ++ lead f).length from rfl, uint64]
    simp only [List.length_append, hml, hdr, Cenc.be_length] at hlen ⊢
    omega
  have hdrop : (pre ++ (segBytes f ++ post)).drop (after f pre r).baseOffset = f.mdat ++ post := by
    have hfile : pre ++ (segBytes f ++ post) =
        (pre ++ (lead f ++ (moofBytes f ((moofBytes f 0).length + 8) ++ hdr (fourcc 'm' 'd' 'a' 't') f.mdat.length))) ++ (f.mdat ++ post) := by
      rw [hseg, box_hdr]; simp only [List.append_assoc]
    rw [hbo, hfile, List.drop_left]
  have hle : (after f pre r).baseOffset ≤ (pre ++ (segBytes f ++ post)).length := by
    rw [hbo, hseg, box_hdr]; simp only [List.length_append]; omega
  have hsizes : (after f pre r).run.map (after f pre r).size = (storedOf E (encStart s.enc) (s.samples.map (·.body))).map (·.length) := by
    rw [← hfok.sizes, show (after f pre r).run = f.items.map (itemRead f.trunFlags) from rfl, List.map_map]
    apply List.map_congr_left
    intro i _
    simp only [Function.comp, Rd.size, show (after f pre r).flags = f.trunFlags from rfl]
    rw [if_pos (by rcases hfok.flags with h | h <;> rw [h] <;> decide), itemRead]
  have hbl : ∀ b ∈ s.samples.map (·.body), b.length < 2 ^ 31 := by
    intro b hx
    obtain ⟨x, hx', rfl⟩ := List.mem_map.mp hx
    have := Fragment.sum_map_le s.samples (fun s => s.body.length + 28) x hx'
    have := ok.size
    omega
  have hout := outs_eq ts E timescale o s ok r pre
  simp only at hout
  rw [hbt]
  have hgo : ∀ k x, (storedOf E (encStart s.enc) (s.samples.map (·.body)))[k]? = .some x →
      sampleBody o (after f pre r) (0 + k) x = (s.samples.map (·.body))[k]? := by
    intro k x hx
    rw [Nat.zero_add]
    cases he : s.enc with
    | none =>
      have hsn : (after f pre r).hasSenc = false := by
        have : f.enc = none := by rw [show f = _ from hm, he]; rfl
        rw [after]; simp only [if_pos this]; exact hclear he
      rw [he] at hx
      rw [sampleBody, hsn]
      have hx' : (s.samples.map (·.body))[k]? = .some x := hx
      rw [hx']
      cases o.key <;> rfl
    | some v =>
      obtain ⟨sub, random⟩ := v
      have hr := ok.vector _ he
      simp only at hr
      rw [he] at hx
      have hx' : (Cenc.addAll E sub (Cenc.start random) (s.samples.map (·.body))).1[k]? = .some x := hx
      have hfe : f.enc = .some (sub, (Cenc.addAll E sub (Cenc.start random) (s.samples.map (·.body))).2) := by rw [show f = _ from hm, he]; rfl
      obtain ⟨new, h1, h2, h3, h4⟩ := Cenc.addAll_spec E hE sub (s.samples.map (·.body)) (Cenc.start random) (by simp [Cenc.start, hr])
        (fun b hb => by have := hbl b hb; omega)
      have h1 : (Cenc.addAll E sub (Cenc.start random) (s.samples.map (·.body))).2.entries = new := by rw [h1]; rfl
      have hk : k < new.length := by
        have := (List.getElem?_eq_some_iff.mp hx').1
        omega
      obtain ⟨g0, body, stored, g1, g2, g3, g4, g5⟩ := h4 k new[k] (List.getElem?_eq_getElem hk)
      rw [hx', Option.some.injEq] at g2
      subst g2
      have hsenc : (after f pre r).senc = new.map encRead := by rw [after, hfe]; simp only [h1]
      have hhas : (after f pre r).hasSenc = true := by rw [after]; simp only [hfe]; rfl
      rw [sampleBody, hkey (by rw [he]; simp)]
      simp only [hhas, if_true]
      rw [hsenc, List.getElem?_map, List.getElem?_eq_getElem hk, Option.map_some, Option.bind_some, g1]
      have hsum : new[k].clear + new[k].prot = body.length := by
        have := Cenc.split_sum sub body.length
        rw [← g3] at this; exact this
      have hbb : body.length < 2 ^ 31 := hbl body (List.mem_of_getElem? g1)
      rw [decrypt_standard E hE (encRead new[k]) (by rw [encRead]; simp only; rw [g0, Cenc.be_length]) x
        (by intro _; simp only [encRead, List.map_cons, List.map_nil, List.sum_cons, List.sum_nil]; omega) (by omega)]
      simp only [encRead, reduceCtorEq, if_false]
      rw [g5]
  rw [samples_gen o _ _ (by omega) _ (storedOf E (encStart s.enc) (s.samples.map (·.body))) (s.samples.map (·.body)) 0 _ _ post hsizes
    (by have := congrArg List.length hsizes
        rw [List.length_map, List.length_map, show (after f pre r).run = f.items.map (itemRead f.trunFlags) from rfl, List.length_map] at this
        rw [← this, show f = _ from hm]; simp) hgo
    (by rw [hdrop, hfok.mdat]) hle, hout]
  rfl

/-! ### the file -/

theorem written_bytes (ts : Nat → Nat) (E : List UInt8 → List UInt8) (hE : ∀ b, (E b).length = 16) (timescale : Nat) (ht : timescale < 2 ^ 32) (segs : List Seg)
    (hok : ∀ s ∈ segs, Seg.Ok ts timescale s) (B : List UInt8) :
    segs.foldl (fun w s => (Frag.make ts E timescale (some s.base) s.enc s.trackId s.number s.firstFlags s.samples).finish s.gs s.gt w) (Fragment.atEnd B []) =
      Fragment.atEnd (B ++ segs.flatMap fun s => segBytes (Frag.make ts E timescale (some s.base) s.enc s.trackId s.number s.firstFlags s.samples)) [] := by
  induction segs generalizing B with
  | nil => simp
  | cons s segs ih =>
    have ok := hok s (by simp)
    have hfok := make_ok ts E hE timescale (some s.base) s.enc ok.vector s.trackId s.number s.firstFlags s.samples ht ok.track ok.number ok.flags ok.size
    rw [List.foldl_cons, finish_eq _ (by rcases hfok.flags with h | h <;> rw [h] <;> decide), ih (fun x hx => hok x (by simp [hx])), List.flatMap_cons, List.append_assoc]

theorem fragments_go (ts : Nat → Nat) (E : List UInt8 → List UInt8) (hE : ∀ b, (E b).length = 16) (timescale : Nat) (ht : timescale < 2 ^ 32) (o : Opts)
    (fuel : Nat) (hfuel : 13 ≤ fuel) (segs : List Seg) : ∀ (pre : List UInt8) (r : Rd) (n : Nat), (∀ s ∈ segs, Seg.Ok ts timescale s) →
    ((∃ s ∈ segs, s.enc ≠ none) → o.key = some E) → segs.Pairwise (fun a b => a.enc ≠ none → b.enc ≠ none) → (r.hasSenc = true → ∀ s ∈ segs, s.enc ≠ none) →
    segs.length < n → (pre ++ segs.flatMap fun s => segBytes (Frag.make ts E timescale (some s.base) s.enc s.trackId s.number s.firstFlags s.samples)).length < 2 ^ 63 →
    let file := pre ++ segs.flatMap fun s => segBytes (Frag.make ts E timescale (some s.base) s.enc s.trackId s.number s.firstFlags s.samples)
    ((parse file fuel r pre.length).bind fun x => fragments o file fuel n x.1 x.2) =
      some (segs.flatMap fun s => line o.time o.audio true (scaled ts timescale s.base) (timed ts timescale s)) := by
  induction segs with
  | nil =>
    intro pre r n _ _ _ _ hn _ file
    obtain ⟨n, rfl⟩ : ∃ m, n = m + 1 := ⟨n - 1, by simp at hn; omega⟩
    have : file = pre := by simp [file]
    rw [this, parse_end pre r fuel (by omega), Option.bind_some, fragments]
    simp
  | cons s segs ih =>
    intro pre r n hok hkey hcl hsenc hn hlen file
    obtain ⟨n, rfl⟩ : ∃ m, n = m + 1 := ⟨n - 1, by simp at hn; omega⟩
    have ok := hok s (by simp)
    obtain ⟨f, hf⟩ : ∃ f, f = Frag.make ts E timescale (some s.base) s.enc s.trackId s.number s.firstFlags s.samples := ⟨_, rfl⟩
    have hfok := make_ok ts E hE timescale (some s.base) s.enc ok.vector s.trackId s.number s.firstFlags s.samples ht ok.track ok.number ok.flags ok.size
    rw [← hf] at hfok
    obtain ⟨post, hpost⟩ : ∃ post, post = segs.flatMap fun s => segBytes (Frag.make ts E timescale (some s.base) s.enc s.trackId s.number s.firstFlags s.samples) := ⟨_, rfl⟩
    have hfile : file = pre ++ (segBytes f ++ post) := by simp only [file, List.flatMap_cons, ← hf, ← hpost]
    have hlen' : (pre ++ (segBytes f ++ post)).length < 2 ^ 63 := by rw [← hfile]; exact hlen
    have hfile2 : file = (pre ++ segBytes f) ++ post := by rw [hfile, List.append_assoc]
    have h1 := parse_segment f _ hfok pre post r fuel hfuel
    have h2 := seg_samples ts E hE timescale ht o s ok r pre post (fun h => hkey ⟨s, by simp, h⟩)
      (fun h => by
        cases hh : r.hasSenc with
        | false => rfl
        | true => exact absurd h (hsenc hh s (by simp)))
    simp only [← hf] at h2
    have h3 := ih (pre ++ segBytes f) (after f pre r) n (fun x hx => hok x (by simp [hx])) (fun ⟨x, hx, h⟩ => hkey ⟨x, by simp [hx], h⟩) (List.pairwise_cons.mp hcl).2
      (by
        intro hh x hx
        have hm := make_eq ts E timescale (some s.base) s.enc s.trackId s.number s.firstFlags s.samples
        rw [← hf] at hm
        cases he : s.enc with
        | none =>
          have : f.enc = none := by rw [hm, he]; rfl
          rw [after] at hh
          simp only [if_pos this] at hh
          exact hsenc hh x (by simp [hx])
        | some v => exact (List.pairwise_cons.mp hcl).1 x hx (by rw [he]; simp))
      (by simp at hn; omega) (by rw [← hpost, ← hfile2]; exact hlen)
    simp only [← hpost] at h3
    rw [← hfile2] at h3
    rw [hfile, h1, Option.bind_some, fragments, if_neg (by rw [after]; simp only; omega), h2 hlen']
    simp only [Option.bind_eq_bind, Option.bind_some]
    rw [← hfile]
    cases hp : parse file fuel (after f pre r) (pre ++ segBytes f).length with
    | none => rw [hp] at h3; simp at h3
    | some x =>
      rw [hp, Option.bind_some] at h3
      simp only [Option.bind_some]
      rw [h3]
      simp

/-- C105: a file made of fragments that this program wrote, in any number, is taken apart again into all the samples: each is handed on once, in order, with its bytes (decrypted if the
fragment is encrypted), its duration, and the times that follow from the base time of its fragment, the durations and the stored composition offset. The key must be given when a fragment is
encrypted; a fragment in the clear must not come after an encrypted one. -/
theorem fragments_delivered_partial (ts : Nat → Nat) (E : List UInt8 → List UInt8) (hE : ∀ b, (E b).length = 16) (o : Opts) (ht : o.timescale < 2 ^ 32)
    (segs : List Seg) (hok : ∀ s ∈ segs, Seg.Ok ts o.timescale s) (hkey : (∃ s ∈ segs, s.enc ≠ none) → o.key = some E)
    (hclear : segs.Pairwise (fun a b => a.enc ≠ none → b.enc ≠ none)) (hlen : (written ts E o.timescale segs).bytes.length < 2 ^ 63)
    (fuel : Nat) (hfuel : 13 ≤ fuel) (hn : segs.length < fuel) (moof off : Nat) :
    moofMux o fuel moof off (written ts E o.timescale segs).bytes =
      some (segs.flatMap fun s => line o.time o.audio true (scaled ts o.timescale s.base) (timed ts o.timescale s)) := by
  have hw : written ts E o.timescale segs = Fragment.atEnd ([] ++ segs.flatMap fun s => segBytes (Frag.make ts E o.timescale (some s.base) s.enc s.trackId s.number s.firstFlags s.samples)) [] :=
    written_bytes ts E hE o.timescale ht segs hok []
  rw [hw] at hlen ⊢
  have := fragments_go ts E hE o.timescale ht o fuel hfuel segs [] (Rd.new moof off) fuel hok hkey hclear (by simp [Rd.new]) hn hlen
  simp only [List.length_nil] at this
  rw [moofMux]
  exact this

theorem line_handed (ts : Nat → Nat) (audio : Bool) (ff : Nat) : ∀ (xs : List Sample) (first : Bool) (t : Nat), Consecutive t xs →
    (∀ x ∈ xs, x.composition < 2 ^ 63 ∧ x.decoding < 2 ^ 63 ∧ -(2 ^ 31 : Int) ≤ (x.composition : Int) - x.decoding ∧ (x.composition : Int) - x.decoding < 2 ^ 31) →
    (ff = 0 → ∀ x ∈ xs, x.composition = x.decoding) →
    line id audio first t (xs.map fun x => ⟨x.body, scaled ts 10000000 x.duration,
      if ff = 0 then 0 else signed32 (scaled ts 10000000 ((x.composition + 2 ^ 64 - x.decoding) % 2 ^ 64) % 2 ^ 32)⟩) = handed audio first xs := by
  intro xs
  induction xs with
  | nil => intro first t _ _ _; rfl
  | cons x xs ih =>
    intro first t hc hr hz
    obtain ⟨c1, c2⟩ := hc
    obtain ⟨h1, h2, h3, h4⟩ := hr x (by simp)
    have hi := ih false (t + x.duration) c2 (fun y hy => hr y (by simp [hy])) (fun h y hy => hz h y (by simp [hy]))
    have hoff : (if ff = 0 then (0 : Int) else signed32 (scaled ts 10000000 ((x.composition + 2 ^ 64 - x.decoding) % 2 ^ 64) % 2 ^ 32)) =
        (x.composition : Int) - x.decoding := by
      by_cases h : ff = 0
      · rw [if_pos h, hz h x (by simp)]; omega
      · rw [if_neg h, Fragment.offset_read ts _ _ h1 h2 h3 h4]
    have hdur : scaled ts 10000000 x.duration = x.duration := by rw [scaled, if_pos rfl]
    rw [List.map_cons, line, handed, hoff, hdur]
    congr 1
    · simp only [id, Out.mk.injEq, true_and]
      refine ⟨?_, ?_, trivial⟩ <;> omega

/-- C105: in the time scale that the program uses for its own fragments, samples without gaps come out exactly as they went in: bytes, composition time, decoding time, duration; the first of each
fragment and all audio samples as sync points. (Without flags for the first sample, as the program uses for audio, composition and decoding times must agree.) -/
theorem fragments_round_trip_partial (ts norm : Nat → Nat) (E : List UInt8 → List UInt8) (hE : ∀ b, (E b).length = 16) (key : Option (List UInt8 → List UInt8)) (audio : Bool)
    (segs : List Seg) (hok : ∀ s ∈ segs, Seg.Ok ts 10000000 s) (hkey : (∃ s ∈ segs, s.enc ≠ none) → key = some E)
    (hclear : segs.Pairwise (fun a b => a.enc ≠ none → b.enc ≠ none)) (hlen : (written ts E 10000000 segs).bytes.length < 2 ^ 63)
    (htimes : ∀ s ∈ segs, Consecutive s.base s.samples ∧ (∀ x ∈ s.samples, x.composition < 2 ^ 63 ∧ x.decoding < 2 ^ 63 ∧
      -(2 ^ 31 : Int) ≤ (x.composition : Int) - x.decoding ∧ (x.composition : Int) - x.decoding < 2 ^ 31) ∧ (s.firstFlags = 0 → ∀ x ∈ s.samples, x.composition = x.decoding))
    (fuel : Nat) (hfuel : 13 ≤ fuel) (hn : segs.length < fuel) (moof off : Nat) :
    moofMux ⟨key, audio, 10000000, norm⟩ fuel moof off (written ts E 10000000 segs).bytes = some (segs.flatMap fun s => handed audio true s.samples) := by
  rw [fragments_delivered_partial ts E hE ⟨key, audio, 10000000, norm⟩ (by show (10000000 : Nat) < 2 ^ 32; decide) segs hok hkey hclear hlen fuel hfuel hn moof off]
  congr 1
  have hid : (Opts.time ⟨key, audio, 10000000, norm⟩) = id := by funext t; simp [Opts.time]
  clear hlen hkey hclear hn hok
  induction segs with
  | nil => rfl
  | cons s segs ih =>
    rw [List.flatMap_cons, List.flatMap_cons, ih (fun x hx => htimes x (by simp [hx]))]
    congr 1
    obtain ⟨h1, h2, h3⟩ := htimes s (by simp)
    have hsc : scaled ts 10000000 s.base = s.base := by rw [scaled, if_pos rfl]
    simp only [hid, timed, hsc]
    exact line_handed ts audio s.firstFlags s.samples true s.base h1 h2 h3

/-- Two fragments, the second encrypted by sub-samples; the composition offset of the first sample is negative. -/
def clearThenEncrypted : List Seg :=
  [⟨500, none, 2, 7, 0xa600000, [⟨List.replicate 150 9, 300, 500, 400⟩, ⟨[1, 2, 3], 1300, 900, 400⟩], 4, 5⟩,
   ⟨1300, some (true, [1, 2, 3, 4, 5, 6, 7, 255]), 2, 8, 0xa600000, [⟨List.replicate 150 9 ++ List.replicate 90 4, 1300, 1300, 400⟩, ⟨[7], 1700, 1700, 10⟩], 4, 5⟩]

/-- The hypotheses of `fragments_round_trip_partial` (and with them those of `fragments_delivered_partial`) hold for the two fragments. -/
example (moof off : Nat) : moofMux ⟨some Fragment.toyCipher, false, 10000000, id⟩ 13 moof off (written id Fragment.toyCipher 10000000 clearThenEncrypted).bytes =
    some [⟨List.replicate 150 9, true, 300, 500, 400⟩, ⟨[1, 2, 3], false, 1300, 900, 400⟩,
      ⟨List.replicate 150 9 ++ List.replicate 90 4, true, 1300, 1300, 400⟩, ⟨[7], false, 1700, 1700, 10⟩] := by
  rw [fragments_round_trip_partial id id Fragment.toyCipher Fragment.toyCipher_length (some Fragment.toyCipher) false clearThenEncrypted
    (by
      intro s hs
      simp only [clearThenEncrypted, List.mem_cons, List.not_mem_nil, or_false] at hs
      rcases hs with rfl | rfl <;> constructor <;> first | decide +kernel | simp)
    (by intro _; rfl) (by simp [clearThenEncrypted]) (by decide +kernel)
    (by
      intro s hs
      simp only [clearThenEncrypted, List.mem_cons, List.not_mem_nil, or_false] at hs
      rcases hs with rfl | rfl <;> simp [Consecutive])
    13 (by decide) (by decide) moof off]
  rfl

end Verif.Moof
