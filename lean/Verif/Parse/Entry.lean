import Verif.Parse.Track
namespace Verif.Parse
open Verif.Cenc.Spec (be beVal)
open Verif.Cenc (be_length beVal_be)
open Verif.Fragment (fourcc full box box_length)
open Verif.Movie (words cat cat_cons cat_append cat_nil cat_one visualBody audioBody full_length Kind sinfBytes entryOf stsdBody MStream dinfBody KindOk)
open Verif.Tables (sub64 u32)

/-! ### Sample entries -/

theorem sub8 (n : Nat) (h : 8 + n < 2 ^ 32) : sub64 (8 + n) 8 = n := by simp only [sub64]; omega

attribute [local irreducible] sub64 u32

/-- The header that `do_box` makes of a box with body `b` before `post`. -/
abbrev hdrOf (N t : Nat) (b post : List UInt8) : Hdr := ⟨N - (8 + (b ++ post).length), 8 + b.length, t⟩

theorem doBox_step (N t : Nat) (h : Hdr) (b post : List UInt8) (hN : N < 2 ^ 32) (hl : (box t b ++ post).length ≤ N) (ht : PlainType t) :
    doBox N h (box t b ++ post) = .ok (hdrOf N t b post, b ++ post) :=
  doBox_box N t h b post (by rw [List.length_append] at hl; omega) ht

theorem visualBoxes_end (ok : Accept) (N stop fuel : Nat) (h : Hdr) (c : Option (List UInt8)) (post : List UInt8) (he : stop ≤ N - post.length) :
    visualBoxes ok N stop (fuel + 1) h c post = .ok (c, h, post) := by
  rw [visualBoxes, if_neg (by omega)]

theorem visualBoxes_avcC (ok : Accept) (N stop fuel : Nat) (h : Hdr) (c : Option (List UInt8)) (b post : List UInt8) (hN : N < 2 ^ 32)
    (hl : (box (fourcc 'a' 'v' 'c' 'C') b ++ post).length ≤ N) (hs : N - post.length ≤ stop) (hok : ok.visual b = true) :
    visualBoxes ok N stop (fuel + 1) h c (box (fourcc 'a' 'v' 'c' 'C') b ++ post) = visualBoxes ok N stop fuel (hdrOf N (fourcc 'a' 'v' 'c' 'C') b post) (some b) post := by
  have hl' := hl
  rw [List.length_append, box_length] at hl'
  rw [visualBoxes, if_pos (by rw [List.length_append, box_length]; omega), doBox_step N _ h b post hN hl ⟨by decide, by decide⟩]
  have hk : known (fourcc 'a' 'v' 'c' 'C') = .avcC := by decide
  have e := sub8 b.length (by omega)
  rw [ok_bind]
  simp only [hk]
  rw [e, getBytes_app b post, ok_bind]
  simp only [hok, if_true]

theorem visualBoxes_sinf (ok : Accept) (N stop fuel : Nat) (h : Hdr) (c : Option (List UInt8)) (b post : List UInt8) (hN : N < 2 ^ 32)
    (hl : (box (fourcc 's' 'i' 'n' 'f') b ++ post).length ≤ N) (hs : N - post.length ≤ stop) :
    visualBoxes ok N stop (fuel + 1) h c (box (fourcc 's' 'i' 'n' 'f') b ++ post) = visualBoxes ok N stop fuel (hdrOf N (fourcc 's' 'i' 'n' 'f') b post) c post := by
  have hl' := hl
  rw [List.length_append, box_length] at hl'
  rw [visualBoxes, if_pos (by rw [List.length_append, box_length]; omega), doBox_step N _ h b post hN hl ⟨by decide, by decide⟩]
  have hk : known (fourcc 's' 'i' 'n' 'f') = .other := by decide
  simp only [ok_bind, hdrOf, hk]
  rw [skip_box _ _ b post (by rw [box_length]; omega)]

theorem visualEntry_body (ok : Accept) (fuel N type w h : Nat) (name config : List UInt8) (kid : Option (List UInt8)) (post : List UInt8) (hN : N < 2 ^ 32) (hw : w < 2 ^ 16) (hh : h < 2 ^ 16)
    (hn : name.length = 31) (body : List UInt8) (hbody : body = visualBody w h name ++ (sinfBytes (fourcc 'a' 'v' 'c' '1') kid ++ box (fourcc 'a' 'v' 'c' 'C') config))
    (hl : 8 + (body ++ post).length ≤ N) (hok : ok.visual config = true) (hf : 3 ≤ fuel) :
    ∃ h', visualEntry ok fuel N (hdrOf N type body post) (body ++ post) = .ok (.visual type w h (some config), h', post) := by
  have hlen : (visualBody w h name).length = 78 := by simp only [visualBody, List.length_append, be_length, hn]
  have hstop : (hdrOf N type body post).start + (hdrOf N type body post).size = N - post.length := by
    simp only [hdrOf, List.length_append] at hl ⊢; omega
  rw [visualEntry, hstop, Nat.mod_eq_of_lt (by omega)]
  subst hbody
  rw [List.length_append, List.length_append, List.length_append, hlen, box_length] at hl
  simp only [visualBody, List.append_assoc]
  rw [pass_be _ _ _ _ (by decide), pass_be _ _ _ _ (by decide), pass_be _ _ _ _ (by decide), pass_be _ _ _ _ (by decide), pass_be _ _ _ _ (by decide), pass_be _ _ _ _ (by decide),
    pass_be _ _ _ _ (by decide), pass_zero]
  simp only [ok_bind]
  rw [get2 w hw]
  simp only [ok_bind]
  rw [get2 h hh]
  simp only [ok_bind]
  rw [pass_be _ _ _ _ (by decide), pass_be _ _ _ _ (by decide), pass_be _ _ _ _ (by decide), pass_be _ _ _ _ (by decide), pass_zero]
  simp only [ok_bind]
  rw [get1 0 (by decide)]
  simp only [ok_bind]
  rw [if_pos (by decide), pass_app _ _ _ (by omega), hn, pass_zero]
  simp only [ok_bind]
  rw [pass_be _ _ _ _ (by decide), pass_be _ _ _ _ (by decide), pass_zero]
  simp only [ok_bind]
  obtain ⟨f, rfl⟩ : ∃ f, fuel = f + 1 + 1 + 1 := ⟨fuel - 3, by omega⟩
  cases kid with
  | none =>
    simp only [sinfBytes, List.nil_append]
    rw [visualBoxes_avcC ok N _ _ _ _ config post hN (by rw [List.length_append, box_length]; omega) (Nat.le_refl _) hok, visualBoxes_end _ _ _ _ _ _ _ (Nat.le_refl _)]
    exact ⟨_, rfl⟩
  | some k =>
    simp only [sinfBytes] at hl ⊢
    rw [box_length] at hl
    rw [visualBoxes_sinf ok N _ _ _ _ _ _ hN (by simp only [List.length_append, box_length] at hl ⊢; omega) (by simp only [List.length_append]; omega),
      visualBoxes_avcC ok N _ _ _ _ config post hN (by rw [List.length_append, box_length]; omega) (Nat.le_refl _) hok, visualBoxes_end _ _ _ _ _ _ _ (Nat.le_refl _)]
    exact ⟨_, rfl⟩

theorem audioEntry_body (ok : Accept) (N type rate channels : Nat) (config post : List UInt8) (hN : N < 2 ^ 32) (hr : rate < 2 ^ 16) (hc : channels < 2 ^ 16) (hne : config ≠ [])
    (body : List UInt8) (hbody : body = audioBody rate channels ++ config) (hl : 8 + (body ++ post).length ≤ N) (hok : ok.audio config = true) :
    audioEntry ok N (hdrOf N type body post) (body ++ post) = .ok (.audio type channels rate (some config), hdrOf N type body post, post) := by
  have hlen : (audioBody rate channels).length = 28 := by simp only [audioBody, List.length_append, be_length]
  have hstop : (hdrOf N type body post).start + (hdrOf N type body post).size = N - post.length := by
    simp only [hdrOf, List.length_append] at hl ⊢; omega
  have hcl := List.length_pos_iff.2 hne
  rw [audioEntry, hstop, Nat.mod_eq_of_lt (by omega)]
  have hbl : (body ++ post).length = 28 + (config ++ post).length := by rw [hbody]; simp only [List.length_append, hlen]; omega
  have e : body ++ post = audioBody rate channels ++ (config ++ post) := by rw [hbody, List.append_assoc]
  obtain ⟨H, hH⟩ : ∃ H, H = hdrOf N type body post := ⟨_, rfl⟩
  have ht : H.type = type := by rw [hH]
  rw [← hH, e]
  simp only [audioBody, List.append_assoc]
  rw [pass_be _ _ _ _ (by decide), pass_be _ _ _ _ (by decide), pass_be _ _ _ _ (by decide), pass_be _ _ _ _ (by decide), pass_zero]
  simp only [ok_bind]
  rw [get2 channels hc]
  simp only [ok_bind]
  rw [pass_be _ _ _ _ (by decide), pass_be _ _ _ _ (by decide), pass_be _ _ _ _ (by decide), pass_zero]
  simp only [ok_bind]
  rw [get4 (rate * 2 ^ 16) (by omega)]
  simp only [ok_bind]
  rw [hbl, List.length_append] at hl
  rw [if_pos (by rw [List.length_append]; omega), show N - post.length - (N - (config ++ post).length) = config.length by rw [List.length_append]; omega, getBytes_app]
  simp only [ok_bind, hok, ht]
  rw [if_neg (by simp), Nat.mul_div_cancel _ (by decide)]

/-- The handler of a kind of stream. -/
def handlerOfKind : Kind → Handler
  | .visual .. => .vide
  | .audio .. => .soun

/-- The sample entry that the reader keeps. -/
def entryRd (kind : Kind) (kid : Option (List UInt8)) : Entry :=
  match kind with
  | .visual w h c _ => .visual (entryOf kind kid).1 w h (some c)
  | .audio rate ch c => .audio (entryOf kind kid).1 ch rate (some (c ++ sinfBytes (fourcc 'm' 'p' '4' 'a') kid))

/-- The decoder configuration is accepted. -/
def Accepted (ok : Accept) (kind : Kind) (kid : Option (List UInt8)) : Prop :=
  match kind with
  | .visual _ _ c _ => ok.visual c = true
  | .audio _ _ c => ok.audio (c ++ sinfBytes (fourcc 'm' 'p' '4' 'a') kid) = true

theorem sampleEntry_body (ok : Accept) (fuel N : Nat) (kind : Kind) (kid : Option (List UInt8)) (config post : List UInt8) (hN : N < 2 ^ 32) (hk : KindOk config kind)
    (hl : (box (entryOf kind kid).1 (entryOf kind kid).2 ++ post).length ≤ N) (hok : Accepted ok kind kid) (hf : 3 ≤ fuel) :
    ∃ h', sampleEntry ok fuel N (handlerOfKind kind) (hdrOf N (entryOf kind kid).1 (entryOf kind kid).2 post) ((entryOf kind kid).2 ++ post) = .ok (some (entryRd kind kid), h', post) := by
  rw [List.length_append, box_length] at hl
  cases kind with
  | visual w h c name =>
    obtain ⟨h1, h2, -, h4⟩ := hk
    obtain ⟨h', e⟩ := visualEntry_body ok fuel N (entryOf (.visual w h c name) kid).1 w h name c kid post hN h1 h2 h4 (entryOf (.visual w h c name) kid).2 rfl
      (by rw [List.length_append]; omega) hok hf
    refine ⟨h', ?_⟩
    simp only [sampleEntry, handlerOfKind, e, map_ok, entryRd]
  | audio rate ch c =>
    obtain ⟨h1, h2, h3⟩ := hk
    have e := audioEntry_body ok N (entryOf (.audio rate ch c) kid).1 rate ch (c ++ sinfBytes (fourcc 'm' 'p' '4' 'a') kid) post hN h1 h2
      (by intro hc; have := congrArg List.length hc; rw [List.length_append, h3, box_length] at this; simp at this) (entryOf (.audio rate ch c) kid).2 rfl
      (by rw [List.length_append]; omega) hok
    refine ⟨hdrOf N (entryOf (.audio rate ch c) kid).1 (entryOf (.audio rate ch c) kid).2 post, ?_⟩
    simp only [sampleEntry, handlerOfKind, e, map_ok, entryRd]

theorem entry_plain (kind : Kind) (kid : Option (List UInt8)) : PlainType (entryOf kind kid).1 := by
  cases kind <;> cases kid <;> simp only [entryOf, Option.isSome_none, Option.isSome_some, if_true, Bool.false_eq_true, if_false] <;> exact ⟨by decide, by decide⟩

theorem sampleEntries_cons (ok : Accept) (fuel N n : Nat) (kind : Kind) (kid : Option (List UInt8)) (h : Hdr) (config post : List UInt8) (hN : N < 2 ^ 32) (hk : KindOk config kind)
    (hl : (box (entryOf kind kid).1 (entryOf kind kid).2 ++ post).length ≤ N) (hok : Accepted ok kind kid) (hf : 3 ≤ fuel) :
    ∃ h', sampleEntries ok fuel N (handlerOfKind kind) (n + 1) h (box (entryOf kind kid).1 (entryOf kind kid).2 ++ post) =
      (sampleEntries ok fuel N (handlerOfKind kind) n h' post).map fun x => (entryRd kind kid :: x.1, x.2) := by
  obtain ⟨h', e⟩ := sampleEntry_body ok fuel N kind kid config post hN hk hl hok hf
  refine ⟨h', ?_⟩
  rw [sampleEntries, doBox_step N _ h _ post hN hl (entry_plain kind kid)]
  simp only [ok_bind, e]
  cases sampleEntries ok fuel N (handlerOfKind kind) n h' post with
  | error x => rfl
  | ok x => rfl

/-- The entries of a stream. -/
def entriesRd (s : MStream) : List Entry := entryRd s.kind s.kid :: (if s.kid.isSome then [entryRd s.kind none] else [])

theorem sampleEntries_stream (ok : Accept) (fuel N : Nat) (s : MStream) (h : Hdr) (config post : List UInt8) (hN : N < 2 ^ 32) (hk : KindOk config s.kind)
    (hl : (cat (Verif.Movie.entries s) ++ post).length ≤ N) (hok : Accepted ok s.kind s.kid ∧ Accepted ok s.kind none) (hf : 3 ≤ fuel) :
    ∃ h', sampleEntries ok fuel N (handlerOfKind s.kind) (if s.kid.isSome then 2 else 1) h (cat (Verif.Movie.entries s) ++ post) = .ok (entriesRd s, h', post) := by
  cases hkid : s.kid with
  | none =>
    simp only [Verif.Movie.entries, entriesRd, hkid, Option.isSome_none, Bool.false_eq_true, if_false, cat_cons, cat_nil, List.append_nil] at hl hok ⊢
    obtain ⟨h', e⟩ := sampleEntries_cons ok fuel N 0 s.kind none h config post hN hk hl hok.1 hf
    exact ⟨_, e⟩
  | some k =>
    simp only [Verif.Movie.entries, entriesRd, hkid, Option.isSome_some, if_true, cat_cons, cat_nil, List.append_nil] at hl hok ⊢
    rw [List.append_assoc] at hl ⊢
    obtain ⟨h', e⟩ := sampleEntries_cons ok fuel N 1 s.kind (some k) h config (box (entryOf s.kind none).1 (entryOf s.kind none).2 ++ post) hN hk hl hok.1 hf
    obtain ⟨h2, e2⟩ := sampleEntries_cons ok fuel N 0 s.kind none h' config post hN hk (by simp only [List.length_append] at hl ⊢; omega) hok.2 hf
    exact ⟨_, by rw [e, e2]; rfl⟩

end Verif.Parse
