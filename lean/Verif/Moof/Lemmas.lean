import Verif.Moof.Model
import Verif.Fragment.Segment
import Verif.Cenc.Props
/-
Reading the boxes that the fragment writer makes.
-/
namespace Verif.Moof
open Verif.Fragment (fourcc box box_length Frag Item num1 num2 num3 num4 num8 raw_append full_read)
open Verif.Fragment.Spec (num opt raw full signed32)
open Verif.Cenc.Spec (be)
open Verif.Cenc (be_length)

theorem getBox_box (t : Nat) (b r : List UInt8) (ht : t < 2 ^ 32) (hu : t ≠ fourcc 'u' 'u' 'i' 'd') (hl : 8 + b.length < 2 ^ 32) :
    getBox (box t b ++ r) = some (⟨8 + b.length, t, []⟩, b ++ r) := by
  rw [getBox, box, List.append_assoc, List.append_assoc, num4]
  simp only [Option.bind_eq_bind, Option.bind_some, num4, Nat.mod_eq_of_lt hl, Nat.mod_eq_of_lt ht, if_neg hu]
  rw [if_neg (by omega)]

theorem skip_box (t : Nat) (b r : List UInt8) (hu : t ≠ fourcc 'u' 'u' 'i' 'd') (hl : 8 + b.length < 2 ^ 32) :
    Head.skip ⟨8 + b.length, t, []⟩ (b ++ r) = r := by
  rw [Head.skip, Head.getSize]
  simp only [if_neg hu]
  rw [show (8 + b.length + 2 ^ 64 - 8) % 2 ^ 64 = b.length by omega]
  exact List.drop_left

theorem posOf_eq (pre r : List UInt8) : posOf (pre ++ r) r = pre.length := by
  rw [posOf, List.length_append]; omega

/-- A box at the position, and what `handle` does with it. -/
theorem handle_start (pre : List UInt8) (t : Nat) (b post : List UInt8) (ht : t < 2 ^ 32) (hu : t ≠ fourcc 'u' 'u' 'i' 'd') (hl : 8 + b.length < 2 ^ 32) :
    getBox ((pre ++ (box t b ++ post)).drop pre.length) = some (⟨8 + b.length, t, []⟩, b ++ post) := by
  rw [List.drop_left, getBox_box t b post ht hu hl]

theorem handle_skip (pre : List UInt8) (t : Nat) (b post : List UInt8) (r : Rd) (ht : t < 2 ^ 32) (hu : t ≠ fourcc 'u' 'u' 'i' 'd') (hl : 8 + b.length < 2 ^ 32)
    (hk : kind t = .unknown) : handle (pre ++ (box t b ++ post)) r pre.length = some (r, (pre ++ box t b).length) := by
  rw [handle, handle_start pre t b post ht hu hl]
  simp only [Option.bind_eq_bind, Option.bind_some, hk]
  rw [skip_box t b post hu hl, ← List.append_assoc, posOf_eq]

/-- Header of a box whose content is looked at. -/
def hdr (t len : Nat) : List UInt8 := be 4 (8 + len) ++ be 4 t

theorem box_hdr (t : Nat) (b : List UInt8) : box t b = hdr t b.length ++ b := rfl

theorem handle_moof (pre b post : List UInt8) (r : Rd) (hl : 8 + b.length < 2 ^ 32) :
    handle (pre ++ (box (fourcc 'm' 'o' 'o' 'f') b ++ post)) r pre.length =
      some ({ r with moof := pre.length }, (pre ++ hdr (fourcc 'm' 'o' 'o' 'f') b.length).length) := by
  rw [handle, handle_start pre _ b post (by decide) (by decide) hl]
  simp only [Option.bind_eq_bind, Option.bind_some, show kind (fourcc 'm' 'o' 'o' 'f') = .moof by decide]
  rw [box_hdr, List.append_assoc, ← List.append_assoc, posOf_eq]

theorem handle_traf (pre b post : List UInt8) (r : Rd) (hl : 8 + b.length < 2 ^ 32) :
    handle (pre ++ (box (fourcc 't' 'r' 'a' 'f') b ++ post)) r pre.length = some (r, (pre ++ hdr (fourcc 't' 'r' 'a' 'f') b.length).length) := by
  rw [handle, handle_start pre _ b post (by decide) (by decide) hl]
  simp only [Option.bind_eq_bind, Option.bind_some, show kind (fourcc 't' 'r' 'a' 'f') = .traf by decide]
  rw [box_hdr, List.append_assoc, ← List.append_assoc, posOf_eq]

theorem handle_mfhd (pre post : List UInt8) (r : Rd) (s : Nat) :
    handle (pre ++ (box (fourcc 'm' 'f' 'h' 'd') (Fragment.full 0 0 ++ be 4 s) ++ post)) r pre.length =
      some (r, (pre ++ box (fourcc 'm' 'f' 'h' 'd') (Fragment.full 0 0 ++ be 4 s)).length) := by
  rw [handle, handle_start pre _ _ post (by decide) (by decide) (by simp [Fragment.full, be_length])]
  simp only [Option.bind_eq_bind, Option.bind_some, show kind (fourcc 'm' 'f' 'h' 'd') = .mfhd by decide]
  rw [List.append_assoc, full_read]
  simp only [Option.bind_some, num4]
  rw [← List.append_assoc, posOf_eq]

theorem handle_tfhd (pre post : List UInt8) (r : Rd) (id : Nat) :
    handle (pre ++ (box (fourcc 't' 'f' 'h' 'd') (Fragment.full 0 0 ++ be 4 id) ++ post)) r pre.length =
      some (r, (pre ++ box (fourcc 't' 'f' 'h' 'd') (Fragment.full 0 0 ++ be 4 id)).length) := by
  rw [handle, handle_start pre _ _ post (by decide) (by decide) (by simp [Fragment.full, be_length])]
  simp only [Option.bind_eq_bind, Option.bind_some, show kind (fourcc 't' 'f' 'h' 'd') = .tfhd by decide]
  rw [List.append_assoc, getTfhd, full_read]
  simp only [Option.bind_eq_bind, Option.bind_some, num4, opt]
  simp only [Nat.zero_mod, Nat.zero_and, bne_self_eq_false, Bool.false_eq_true, if_false, Option.bind_some, Option.map_some, Option.getD_none]
  rw [← List.append_assoc, posOf_eq]

theorem handle_tfdt (pre post : List UInt8) (r : Rd) (t : Nat) (ht : t < 2 ^ 64) :
    handle (pre ++ (box (fourcc 't' 'f' 'd' 't') (Fragment.full 1 0 ++ be 4 (t / 2 ^ 32) ++ be 4 t) ++ post)) r pre.length =
      some ({ r with hasBase := true, base := t }, (pre ++ box (fourcc 't' 'f' 'd' 't') (Fragment.full 1 0 ++ be 4 (t / 2 ^ 32) ++ be 4 t)).length) := by
  rw [handle, handle_start pre _ _ post (by decide) (by decide) (by simp [Fragment.full, be_length])]
  simp only [Option.bind_eq_bind, Option.bind_some, show kind (fourcc 't' 'f' 'd' 't') = .tfdt by decide]
  have : getTfdt r (Fragment.full 1 0 ++ be 4 (t / 2 ^ 32) ++ be 4 t ++ post) = some ({ r with hasBase := true, base := t }, post) := by
    rw [getTfdt, List.append_assoc, List.append_assoc, full_read]
    simp only [Option.bind_eq_bind, Option.bind_some]
    rw [if_pos (by decide), num8 _ _ (by omega), Option.bind_some, show t / 2 ^ 32 * 2 ^ 32 + t % 2 ^ 32 = t by omega]
  rw [this, Option.map_some, ← List.append_assoc pre, posOf_eq]

/-- A sample of a run as the writer stores it. -/
def itemRead (flags : Nat) (i : Item) : RunItem := ⟨i.duration, i.size, if flags &&& 0x800 ≠ 0 then i.offset else 0⟩

theorem getRuns_read (flags : Nat) (hf : flags = 0x301 ∨ flags = 0xB05) (items : List Item) (h : ∀ i ∈ items, i.Ok) (post : List UInt8) :
    getRuns flags items.length (items.flatMap (Fragment.itemBody flags) ++ post) = some (items.map (itemRead flags), post) := by
  induction items with
  | nil => rfl
  | cons i items ih =>
    obtain ⟨h1, h2, h3⟩ := h i (by simp)
    rw [List.length_cons, getRuns, List.flatMap_cons, List.append_assoc]
    have : getRun flags (Fragment.itemBody flags i ++ (items.flatMap (Fragment.itemBody flags) ++ post)) =
        some (itemRead flags i, items.flatMap (Fragment.itemBody flags) ++ post) := by
      rcases hf with rfl | rfl
      · simp only [getRun, Fragment.itemBody, opt, Nat.reduceAnd, List.append_nil]
        simp [num4, itemRead, Nat.mod_eq_of_lt h1, Nat.mod_eq_of_lt h2]
      · simp only [getRun, Fragment.itemBody, opt, Nat.reduceAnd, List.append_nil]
        simp [num4, itemRead, Nat.mod_eq_of_lt h1, Nat.mod_eq_of_lt h2, Nat.mod_eq_of_lt h3]
    rw [this]
    simp only [Option.bind_eq_bind, Option.bind_some]
    rw [ih (fun x hx => h x (by simp [hx]))]
    rfl

theorem handle_trun (pre post : List UInt8) (r : Rd) (f : Frag) (hf : f.trunFlags = 0x301 ∨ f.trunFlags = 0xB05) (hi : ∀ i ∈ f.items, i.Ok)
    (g : Nat) (hg : g < 2 ^ 32) (hl : 8 + (Fragment.trunBody f g).length < 2 ^ 32) (hn : f.items.length < 2 ^ 32) :
    handle (pre ++ (box (fourcc 't' 'r' 'u' 'n') (Fragment.trunBody f g) ++ post)) r pre.length =
      some ({ r with version := 1, flags := f.trunFlags, dataOffset := g, run := f.items.map (itemRead f.trunFlags) },
        (pre ++ box (fourcc 't' 'r' 'u' 'n') (Fragment.trunBody f g)).length) := by
  rw [handle, handle_start pre _ _ post (by decide) (by decide) hl]
  simp only [Option.bind_eq_bind, Option.bind_some, show kind (fourcc 't' 'r' 'u' 'n') = .trun by decide]
  have : getTrun r (Fragment.trunBody f g ++ post) =
      some ({ r with version := 1, flags := f.trunFlags, dataOffset := g, run := f.items.map (itemRead f.trunFlags) }, post) := by
    have hr := getRuns_read f.trunFlags hf f.items hi post
    rw [getTrun, Fragment.trunBody]
    simp only [List.append_assoc]
    rw [full_read]
    simp only [Option.bind_eq_bind, Option.bind_some, num4, Nat.mod_eq_of_lt hn]
    rcases hf with h | h <;> rw [h] at hr ⊢ <;> simp only [opt, Nat.reduceAnd, Nat.reduceMod, Nat.reducePow] <;>
      simp [num4, Nat.mod_eq_of_lt hg, hr]
  rw [this, Option.map_some, ← List.append_assoc, posOf_eq]

/-- An encryption entry as the writer stores it. -/
def encRead (e : Cenc.Entry) : EncItem := ⟨e.iv, [(e.clear, e.prot)]⟩

theorem getEncs_read (es : List Cenc.Entry) (h : ∀ e ∈ es, Fragment.Entry.Ok e) (post : List UInt8) :
    getEncs 2 es.length (es.flatMap Fragment.sencEntry ++ post) = some (es.map encRead, post) := by
  induction es with
  | nil => rfl
  | cons e es ih =>
    obtain ⟨h1, h2, h3⟩ := h e (by simp)
    rw [List.length_cons, getEncs, List.flatMap_cons, List.append_assoc]
    have : getEnc 2 (Fragment.sencEntry e ++ (es.flatMap Fragment.sencEntry ++ post)) = some (encRead e, es.flatMap Fragment.sencEntry ++ post) := by
      rw [getEnc, Fragment.sencEntry]
      simp only [List.append_assoc]
      rw [raw_append 8 _ _ h1]
      simp only [Option.bind_eq_bind, Option.bind_some, opt]
      simp [num2, num4, getSubs, Nat.mod_eq_of_lt h2, Nat.mod_eq_of_lt h3, encRead]
    rw [this]
    simp only [Option.bind_eq_bind, Option.bind_some]
    rw [ih (fun x hx => h x (by simp [hx]))]
    rfl

theorem handle_senc (pre post : List UInt8) (r : Rd) (es : List Cenc.Entry) (h : ∀ e ∈ es, Fragment.Entry.Ok e) (hn : es.length < 2 ^ 32)
    (hl : 8 + (Fragment.sencBody es).length < 2 ^ 32) :
    handle (pre ++ (box (fourcc 's' 'e' 'n' 'c') (Fragment.sencBody es) ++ post)) r pre.length =
      some ({ r with hasSenc := true, senc := es.map encRead }, (pre ++ box (fourcc 's' 'e' 'n' 'c') (Fragment.sencBody es)).length) := by
  rw [handle, handle_start pre _ _ post (by decide) (by decide) hl]
  simp only [Option.bind_eq_bind, Option.bind_some, show kind (fourcc 's' 'e' 'n' 'c') = .senc by decide]
  have : getSenc r (Fragment.sencBody es ++ post) = some ({ r with hasSenc := true, senc := es.map encRead }, post) := by
    rw [getSenc, Fragment.sencBody]
    simp only [List.append_assoc]
    rw [full_read]
    simp only [Option.bind_eq_bind, Option.bind_some, num4, Nat.mod_eq_of_lt hn]
    simp only [show 2 % 2 ^ 24 = 2 from rfl, getEncs_read es h post, Option.bind_some]
  rw [this, Option.map_some, ← List.append_assoc, posOf_eq]

theorem handle_saiz (pre post : List UInt8) (r : Rd) (n : Nat) :
    handle (pre ++ (box (fourcc 's' 'a' 'i' 'z') (Fragment.saizBody n) ++ post)) r pre.length =
      some (r, (pre ++ box (fourcc 's' 'a' 'i' 'z') (Fragment.saizBody n)).length) := by
  rw [handle, handle_start pre _ _ post (by decide) (by decide) (by simp [Fragment.saizBody, Fragment.full, be_length])]
  simp only [Option.bind_eq_bind, Option.bind_some, show kind (fourcc 's' 'a' 'i' 'z') = .saiz by decide]
  have : getSaiz (Fragment.saizBody n ++ post) = some post := by
    rw [getSaiz, Fragment.saizBody]
    simp only [List.append_assoc]
    rw [full_read]
    simp [opt, num1, num4, raw]
  rw [this, Option.map_some, ← List.append_assoc, posOf_eq]

theorem handle_saio (pre post : List UInt8) (r : Rd) (n : Nat) :
    handle (pre ++ (box (fourcc 's' 'a' 'i' 'o') (Fragment.saioBody n) ++ post)) r pre.length =
      some (r, (pre ++ box (fourcc 's' 'a' 'i' 'o') (Fragment.saioBody n)).length) := by
  rw [handle, handle_start pre _ _ post (by decide) (by decide) (by simp [Fragment.saioBody, Fragment.full, be_length])]
  simp only [Option.bind_eq_bind, Option.bind_some, show kind (fourcc 's' 'a' 'i' 'o') = .saio by decide]
  have : getSaio (Fragment.saioBody n ++ post) = some post := by
    rw [getSaio, Fragment.saioBody]
    simp only [List.append_assoc]
    rw [full_read]
    simp [opt, num4, raw_append, be_length]
  rw [this, Option.map_some, ← List.append_assoc, posOf_eq]

theorem handle_mdat (pre b post : List UInt8) (r : Rd) (hl : 8 + b.length < 2 ^ 32) :
    handle (pre ++ (box (fourcc 'm' 'd' 'a' 't') b ++ post)) r pre.length =
      some ({ r with mdat := pre.length + 8 }, (pre ++ box (fourcc 'm' 'd' 'a' 't') b).length) := by
  rw [handle, handle_start pre _ b post (by decide) (by decide) hl]
  simp only [Option.bind_eq_bind, Option.bind_some, show kind (fourcc 'm' 'd' 'a' 't') = .mdat by decide]
  rw [skip_box _ b post (by decide) hl]
  have h1 : posOf (pre ++ (box (fourcc 'm' 'd' 'a' 't') b ++ post)) (b ++ post) = pre.length + 8 := by
    rw [box_hdr, List.append_assoc, ← List.append_assoc, posOf_eq, hdr]
    simp [be_length]
  rw [h1, ← List.append_assoc, posOf_eq]

/-- One round of the loop. -/
theorem loop_step (file pre next post : List UInt8) (fuel : Nat) (r r' : Rd) (strict : Bool) (hfile : file = pre ++ (next ++ post)) (hne : next ≠ [])
    (p : Nat) (h : handle file r pre.length = some (r', p)) :
    loop file strict (fuel + 1) r pre.length = if r'.mdat ≠ 0 ∧ strict = false then some (r', p) else loop file strict fuel r' p := by
  rw [loop, if_neg, h, Option.bind_some]
  rw [hfile]
  have : 0 < next.length := List.length_pos_iff.mpr hne
  simp only [List.length_append]; omega

end Verif.Moof
