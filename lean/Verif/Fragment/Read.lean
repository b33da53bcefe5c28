import Verif.Fragment.Lemmas
namespace Verif.Fragment
open Verif.Cenc.Spec (be beVal)
open Verif.Cenc (be_length beVal_be)

theorem num_be (k v : Nat) (r : List UInt8) : Spec.num k (be k v ++ r) = some (v % 256 ^ k, r) := by
  have h : k ≤ (be k v ++ r).length := by rw [List.length_append, be_length]; omega
  rw [Spec.num, if_pos h]
  have e1 : (be k v ++ r).take k = be k v := by
    rw [List.take_append_of_le_length (by rw [be_length]; omega), List.take_of_length_le (by rw [be_length]; omega)]
  have e2 : (be k v ++ r).drop k = r := by
    conv => lhs; arg 1; rw [← be_length k v]
    exact List.drop_left
  rw [e1, e2, beVal_be]

theorem num1 (v : Nat) (r : List UInt8) : Spec.num 1 (be 1 v ++ r) = some (v % 2 ^ 8, r) := num_be 1 v r
theorem num2 (v : Nat) (r : List UInt8) : Spec.num 2 (be 2 v ++ r) = some (v % 2 ^ 16, r) := num_be 2 v r
theorem num3 (v : Nat) (r : List UInt8) : Spec.num 3 (be 3 v ++ r) = some (v % 2 ^ 24, r) := num_be 3 v r
theorem num4 (v : Nat) (r : List UInt8) : Spec.num 4 (be 4 v ++ r) = some (v % 2 ^ 32, r) := num_be 4 v r
theorem num1' (v : Nat) : Spec.num 1 (be 1 v) = some (v % 2 ^ 8, []) := by simpa using num_be 1 v []
theorem num4' (v : Nat) : Spec.num 4 (be 4 v) = some (v % 2 ^ 32, []) := by simpa using num_be 4 v []

theorem num8 (a b : Nat) (ha : a < 2 ^ 32) (r : List UInt8) : Spec.num 8 (be 4 a ++ (be 4 b ++ r)) = some (a * 2 ^ 32 + b % 2 ^ 32, r) := by
  have h : 8 ≤ (be 4 a ++ (be 4 b ++ r)).length := by simp only [List.length_append, be_length]; omega
  rw [Spec.num, if_pos h]
  have l : (be 4 a ++ be 4 b).length = 8 := by simp [be_length]
  have e1 : (be 4 a ++ (be 4 b ++ r)).take 8 = be 4 a ++ be 4 b := by
    rw [← List.append_assoc, List.take_append_of_le_length (by omega), List.take_of_length_le (by omega)]
  have e2 : (be 4 a ++ (be 4 b ++ r)).drop 8 = r := by
    rw [← List.append_assoc]
    conv => lhs; arg 1; rw [← l]
    exact List.drop_left
  rw [e1, e2, Cenc.beVal_append, beVal_be, beVal_be, be_length]
  simp only [Nat.reducePow] at ha ⊢
  rw [Nat.mod_eq_of_lt ha]

theorem raw_append (k : Nat) (a r : List UInt8) (h : a.length = k) : Spec.raw k (a ++ r) = some (a, r) := by
  subst h
  simp [Spec.raw]

theorem full_read (v f : Nat) (r : List UInt8) : Spec.full (full v f ++ r) = some (v % 2 ^ 8, f % 2 ^ 24, r) := by
  simp only [Spec.full, full, List.append_assoc, num1, num3, Option.bind_eq_bind, Option.bind_some]

/-! ### Boxes -/

/-- The boxes a reader finds. -/
def boxList : Nat → List (Nat × List UInt8) → List Spec.Box
  | _, [] => []
  | p, (t, b) :: l => ⟨p, Spec.chars (be 4 t), b⟩ :: boxList (p + (8 + b.length)) l

theorem boxes_list (l : List (Nat × List UInt8)) : ∀ (p fuel : Nat), l.length ≤ fuel → (∀ x ∈ l, 8 + x.2.length < 2 ^ 32) →
    Spec.boxes fuel p (l.flatMap (fun x => box x.1 x.2)) = some (boxList p l) := by
  induction l with
  | nil => intro p fuel _ _; cases fuel <;> simp [Spec.boxes, boxList]
  | cons x l ih =>
    intro p fuel hf hs
    obtain ⟨t, b⟩ := x
    have hb := hs (t, b) (by simp)
    obtain ⟨fuel, rfl⟩ : ∃ m, fuel = m + 1 := ⟨fuel - 1, by simp at hf; omega⟩
    obtain ⟨y, ys, hy⟩ : ∃ y ys, ((t, b) :: l).flatMap (fun x => box x.1 x.2) = y :: ys := by
      cases h : ((t, b) :: l).flatMap (fun x => box x.1 x.2) with
      | cons y ys => exact ⟨y, ys, rfl⟩
      | nil =>
        have := congrArg List.length h
        simp [box_length] at this
    rw [hy, Spec.boxes, ← hy]
    · simp only [List.flatMap_cons, box, List.append_assoc, num4, Option.bind_eq_bind, Option.bind_some]
      rw [raw_append 4 _ _ (be_length _ _)]
      simp only at hb
      rw [Nat.mod_eq_of_lt hb]
      simp only [Option.bind_some]
      rw [if_neg (by omega), raw_append _ _ _ (by omega)]
      have := ih (p + (8 + b.length)) fuel (by simpa using hf) (fun x hx => hs x (by simp [hx]))
      simp only [box, List.append_assoc] at this
      simp only [Option.bind_some, this, boxList]
    · simp

/-! ### The run of samples -/

/-- What a reader sees of an item. -/
def Item.run (flags : Nat) (i : Item) : Spec.Run :=
  ⟨some i.duration, some i.size, if flags &&& 0x800 ≠ 0 then some (Spec.signed32 i.offset) else none⟩

def Item.Ok (i : Item) : Prop := i.duration < 2 ^ 32 ∧ i.size < 2 ^ 32 ∧ i.offset < 2 ^ 32

theorem runs_read (flags : Nat) (hf : flags = 0x301 ∨ flags = 0xB05) (items : List Item) (h : ∀ i ∈ items, i.Ok) :
    Spec.runs 1 flags items.length (items.flatMap (itemBody flags)) = some (items.map (Item.run flags)) := by
  induction items with
  | nil => rfl
  | cons i items ih =>
    obtain ⟨h1, h2, h3⟩ := h i (by simp)
    have ih := ih (fun i hi => h i (by simp [hi]))
    rcases hf with rfl | rfl
    · simp only [List.length_cons, List.flatMap_cons, Spec.runs, Spec.opt, itemBody, Nat.reduceAnd, bne_self_eq_false, ne_eq,
        Nat.reduceEqDiff, Nat.reduceBNe, not_false_eq_true, if_true, bne_iff_ne, List.append_assoc, num4, Option.bind_eq_bind, Option.bind_some,
        Option.map_some, not_true_eq_false, if_false, Bool.false_eq_true, List.append_nil, List.nil_append, List.map_cons, Item.run,
        Nat.mod_eq_of_lt h1, Nat.mod_eq_of_lt h2, Option.map_none] at ih ⊢
      rw [ih]; rfl
    · simp only [List.length_cons, List.flatMap_cons, Spec.runs, Spec.opt, itemBody, Nat.reduceAnd, bne_self_eq_false, ne_eq,
        Nat.reduceEqDiff, Nat.reduceBNe, not_false_eq_true, if_true, bne_iff_ne, List.append_assoc, num4, Option.bind_eq_bind, Option.bind_some,
        Option.map_some, not_true_eq_false, if_false, Bool.false_eq_true, List.append_nil, List.nil_append, List.map_cons, Item.run,
        Nat.mod_eq_of_lt h1, Nat.mod_eq_of_lt h2, Nat.mod_eq_of_lt h3, Option.map_none] at ih ⊢
      rw [ih]; rfl

/-- Flags of the first sample as a reader sees them. -/
def Frag.first (f : Frag) : Option Nat := if f.trunFlags &&& 0x4 ≠ 0 then some f.firstFlags else none

theorem trun_read (f : Frag) (hf : f.trunFlags = 0x301 ∨ f.trunFlags = 0xB05) (hi : ∀ i ∈ f.items, i.Ok) (hn : f.items.length < 2 ^ 32)
    (hff : f.firstFlags < 2 ^ 32) (g : Nat) (hg : g < 2 ^ 31) :
    Spec.trun (trunBody f g) = some (some (g : Int), f.first, f.items.map (Item.run f.trunFlags)) := by
  have hr := runs_read f.trunFlags hf f.items hi
  have hs : Spec.signed32 g = g := by rw [Spec.signed32, if_pos hg]
  rcases hf with hf | hf
  · rw [hf] at hr
    simp only [Spec.trun, trunBody, List.append_assoc, full_read, hf, num4, Option.bind_eq_bind, Option.bind_some, Spec.opt, Nat.reducePow, Nat.reduceMod,
      Nat.reduceAnd, bne_self_eq_false, ne_eq, Nat.reduceEqDiff, Nat.reduceBNe, not_false_eq_true, if_true, bne_iff_ne, not_true_eq_false, if_false,
      Bool.false_eq_true, List.nil_append, Option.map_some, Frag.first, Nat.one_ne_zero] at hr hn ⊢
    rw [Nat.mod_eq_of_lt hn, hr, Nat.mod_eq_of_lt (show g < 4294967296 by omega)]
    simp [hs]
  · rw [hf] at hr
    simp only [Spec.trun, trunBody, List.append_assoc, full_read, hf, num4, Option.bind_eq_bind, Option.bind_some, Spec.opt, Nat.reducePow, Nat.reduceMod,
      Nat.reduceAnd, bne_self_eq_false, ne_eq, Nat.reduceEqDiff, Nat.reduceBNe, not_false_eq_true, if_true, bne_iff_ne, not_true_eq_false, if_false,
      Bool.false_eq_true, List.nil_append, Option.map_some, Frag.first, Nat.one_ne_zero] at hr hn hff ⊢
    rw [Nat.mod_eq_of_lt hn, hr, Nat.mod_eq_of_lt (show g < 4294967296 by omega), Nat.mod_eq_of_lt hff]
    simp [hs]

/-! ### Encryption entries -/

def Entry.Ok (e : Cenc.Entry) : Prop := e.iv.length = 8 ∧ e.clear < 2 ^ 16 ∧ e.prot < 2 ^ 32

/-- What a reader sees of an entry. -/
def encOf (e : Cenc.Entry) : Spec.Enc := ⟨e.iv, [(e.clear, e.prot)]⟩

theorem sencEntry_length (e : Cenc.Entry) (h : Entry.Ok e) : (sencEntry e).length = 16 := by
  simp [sencEntry, be_length, h.1]

theorem encEntry_read (e : Cenc.Entry) (h : Entry.Ok e) (r : List UInt8) : Spec.encEntry (sencEntry e ++ r) = some (encOf e, r) := by
  simp only [Spec.encEntry, sencEntry, List.append_assoc, raw_append _ _ _ h.1, Option.bind_eq_bind, Option.bind_some, num2, Nat.reducePow, Nat.reduceMod,
    Spec.ranges, num4, encOf]
  rw [Nat.mod_eq_of_lt (show e.clear < 65536 from h.2.1), Nat.mod_eq_of_lt (show e.prot < 4294967296 from h.2.2)]

theorem encEntries_read (es : List Cenc.Entry) (h : ∀ e ∈ es, Entry.Ok e) (r : List UInt8) :
    Spec.encEntries es.length (es.flatMap sencEntry ++ r) = some (es.map encOf) := by
  induction es with
  | nil => rfl
  | cons e es ih =>
    have := ih (fun e he => h e (by simp [he]))
    simp only [List.length_cons, List.flatMap_cons, Spec.encEntries, List.append_assoc, encEntry_read e (h e (by simp)), Option.bind_eq_bind,
      Option.bind_some, this, List.map_cons]

theorem auxEntries_read (es : List Cenc.Entry) (h : ∀ e ∈ es, Entry.Ok e) (r : List UInt8) :
    Spec.auxEntries 16 es.length (es.flatMap sencEntry ++ r) = some (es.map encOf) := by
  induction es with
  | nil => rfl
  | cons e es ih =>
    have := ih (fun e he => h e (by simp [he]))
    have he := encEntry_read e (h e (by simp)) []
    rw [List.append_nil] at he
    simp only [List.length_cons, List.flatMap_cons, Spec.auxEntries, List.append_assoc, raw_append _ _ _ (sencEntry_length e (h e (by simp))), he,
      Option.bind_eq_bind, Option.bind_some, this, List.map_cons]

theorem senc_read (es : List Cenc.Entry) (h : ∀ e ∈ es, Entry.Ok e) (hn : es.length < 2 ^ 32) : Spec.senc (sencBody es) = some (es.map encOf) := by
  have := encEntries_read es h []
  rw [List.append_nil] at this
  simp only [Spec.senc, sencBody, List.append_assoc, full_read, Nat.reducePow, Nat.reduceMod, Nat.reduceAnd, Option.bind_eq_bind, Option.bind_some, num4,
    Nat.mod_eq_of_lt (show es.length < 4294967296 from hn), this]
  rfl

theorem aux_read (es : List Cenc.Entry) (h : ∀ e ∈ es, Entry.Ok e) (hn : es.length < 2 ^ 32) (file pre post : List UInt8)
    (hp : pre.length < 2 ^ 32) (hfile : file = pre ++ (es.flatMap sencEntry ++ post)) :
    Spec.aux file (saizBody es.length) (saioBody pre.length) = some (es.map encOf) := by
  have := auxEntries_read es h post
  have hd : file.drop pre.length = es.flatMap sencEntry ++ post := by rw [hfile, List.drop_left]
  simp only [Spec.aux, saizBody, saioBody, List.append_assoc, full_read, Nat.reducePow, Nat.reduceMod, Option.bind_eq_bind, Option.bind_some, num1, num4,
    num4', Nat.mod_eq_of_lt (show es.length < 4294967296 from hn), Nat.mod_eq_of_lt (show pre.length < 4294967296 from hp), hd, this]
  rfl

/-! ### Index -/

theorem sidx_read (f : Frag) (h1 : f.trackId < 2 ^ 32) (h2 : f.timescale < 2 ^ 32) (g : Nat) (hg : g < 2 ^ 31) :
    Spec.sidx (sidxBody f g) =
      some ⟨f.trackId, f.timescale, ((f.items.headD ⟨0, 0, 0⟩).offset + f.base) % 2 ^ 32, 0, 0, g, f.duration % 2 ^ 32, true, 1, 0⟩ := by
  simp only [Spec.sidx, sidxBody, List.append_assoc, full_read, Nat.reducePow, Nat.reduceMod, if_true, Option.bind_eq_bind, Option.bind_some, num2, num4,
    num4', Nat.mod_eq_of_lt (show f.trackId < 4294967296 from h1), Nat.mod_eq_of_lt (show f.timescale < 4294967296 from h2),
    Nat.mod_eq_of_lt (show g < 4294967296 by omega), Nat.reduceMul, Nat.reduceAdd, Nat.reduceDiv, ne_eq, not_true_eq_false, if_false, beq_self_eq_true,
    Option.some.injEq, Spec.Index.mk.injEq, true_and, and_true]
  constructor
  · omega
  · omega

/-! ### Data -/

theorem cut_flatten (l : List (List UInt8)) (r : List UInt8) : Spec.cut (l.map (·.length)) (l.flatten ++ r) = some l := by
  induction l with
  | nil => rfl
  | cons x l ih =>
    simp only [List.map_cons, List.flatten_cons, Spec.cut, List.append_assoc, raw_append _ x _ rfl, Option.bind_eq_bind, Option.bind_some, ih]

end Verif.Fragment
