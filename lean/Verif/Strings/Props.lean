import Verif.Strings.Model
import Verif.Strings.Spec

/-!
Splitting and replacing text (C35), hexadecimal text (C36), decimal text.
-/
namespace Verif.Strings
open Spec

/-! ### C35 -/

/-- `strstr` finds the first occurrence. -/
theorem strstr_spec (sep : List Char) : ∀ s, match strstr s sep with
    | none => ¬ Occurs sep s
    | some k => OccursAt sep s k ∧ ∀ i, OccursAt sep s i → k ≤ i := by
  intro s
  induction s with
  | nil =>
    by_cases h : sep = []
    · subst h
      simp only [strstr, if_true]
      exact ⟨⟨Nat.le_refl _, List.nil_prefix⟩, fun i _ => Nat.zero_le i⟩
    · simp only [strstr, h, if_false]
      rintro ⟨i, _, hp⟩
      simp only [List.drop_nil, List.prefix_nil] at hp
      exact h hp
  | cons c t ih =>
    by_cases h : sep.isPrefixOf (c :: t) = true
    · simp only [strstr, h, if_true]
      exact ⟨⟨Nat.zero_le _, List.isPrefixOf_iff_prefix.mp h⟩, fun i _ => Nat.zero_le i⟩
    · simp only [strstr, h]
      have h0 : ¬ sep <+: c :: t := fun hp => h (List.isPrefixOf_iff_prefix.mpr hp)
      cases hs : strstr t sep with
      | none =>
        rw [hs] at ih
        simp only [Bool.false_eq_true, if_false, Option.map_none]
        rintro ⟨i, hi, hp⟩
        cases i with
        | zero => exact h0 hp
        | succ i => exact ih ⟨i, by simpa using hi, by simpa using hp⟩
      | some k =>
        rw [hs] at ih
        simp only [Bool.false_eq_true, if_false, Option.map_some]
        refine ⟨⟨by have := ih.1.1; simp; omega, by simpa using ih.1.2⟩, ?_⟩
        rintro i ⟨hi, hp⟩
        cases i with
        | zero => exact absurd hp h0
        | succ i => have := ih.2 i ⟨by simpa using hi, by simpa using hp⟩; omega

/-- The loop, started anywhere, appends the locators of a leftmost splitting of what is left. -/
theorem splitLoop_spec (content sep : List Char) (hsep : sep ≠ []) :
    ∀ fuel b locs, b ≤ content.length → content.length - b < fuel →
      ∃ new, splitLoop content sep fuel b locs = some (locs ++ new) ∧
        Splits sep (content.drop b) (new.map (part content)) := by
  intro fuel
  induction fuel with
  | zero => intro b locs _ h; omega
  | succ fuel ih =>
    intro b locs hb hf
    have hs := strstr_spec sep (content.drop b)
    simp only [splitLoop]
    cases hk : strstr (content.drop b) sep with
    | none =>
      rw [hk] at hs
      refine ⟨[⟨b, content.length - b⟩], rfl, ?_⟩
      have : part content ⟨b, content.length - b⟩ = content.drop b := by
        simp only [part]
        rw [List.take_of_length_le (by simp)]
      simp only [List.map_cons, List.map_nil, this]
      exact .last hs
    | some k =>
      rw [hk] at hs
      obtain ⟨⟨hk1, hp⟩, hmin⟩ := hs
      obtain ⟨rest, hrest⟩ := hp
      have hlen : 0 < sep.length := List.length_pos_iff.mpr hsep
      have hl : ((content.drop b).drop k).length = sep.length + rest.length := by rw [← hrest, List.length_append]
      simp only [List.length_drop] at hl hk1
      have hrest' : content.drop (b + k + sep.length) = rest := by
        rw [← List.drop_drop, ← List.drop_drop, ← hrest, List.drop_left]
      have hsplit : content.drop b = (content.drop b).take k ++ sep ++ rest := by
        rw [List.append_assoc, hrest, List.take_append_drop]
      obtain ⟨new, h1, h2⟩ := ih (b + k + sep.length) (locs ++ [⟨b, k⟩]) (by omega) (by omega)
      refine ⟨⟨b, k⟩ :: new, by simp [h1], ?_⟩
      rw [hrest'] at h2
      have hpart : part content ⟨b, k⟩ = (content.drop b).take k := rfl
      rw [List.map_cons, hpart, hsplit]
      have htk : ((content.drop b).take k).length = k := by simp; omega
      refine (congrArg (Splits sep _) ?_).mp (Splits.cut (p := (content.drop b).take k) ?_ h2)
      · rw [← hsplit]
      · intro i hi
        rw [htk]
        rw [← hsplit] at hi
        exact hmin i hi

/-- The parts of a leftmost splitting, joined, are the text. -/
theorem Spec.Splits.join_eq {sep s ps} (h : Splits sep s ps) : join sep ps = s := by
  induction h with
  | last => rfl
  | @cut p rest ps _ h ih =>
    cases ps with
    | nil => cases h
    | cons q qs => simp only [join, ih]

/-- No part of a leftmost splitting has the separator in it. -/
theorem Spec.Splits.free {sep s ps} (hsep : sep ≠ []) (h : Splits sep s ps) : ∀ p ∈ ps, ¬ Occurs sep p := by
  induction h with
  | last h => intro p hp; rw [List.mem_singleton.mp hp]; exact h
  | @cut p rest ps first h ih =>
    intro q hq
    rcases List.mem_cons.mp hq with rfl | hq
    · rintro ⟨i, hi, hp⟩
      have hlen : 0 < sep.length := List.length_pos_iff.mpr hsep
      have h1 : sep.length ≤ (q.drop i).length := hp.length_le
      rw [List.length_drop] at h1
      have := first i ⟨by simp; omega, by
        rw [List.append_assoc, List.drop_append_of_le_length hi]
        exact hp.trans (List.prefix_append _ _)⟩
      omega
    · exact ih q hq

/-- A leftmost splitting is unique. -/
theorem Spec.Splits.unique {sep s ps} (hsep : sep ≠ []) (h : Splits sep s ps) : ∀ {qs}, Splits sep s qs → ps = qs := by
  induction h with
  | @last s h =>
    intro qs hq
    cases hq with
    | last => rfl
    | @cut p rest ps _ _ =>
      exact absurd ⟨p.length, by simp, by rw [List.append_assoc, List.drop_left]; exact List.prefix_append _ _⟩ h
  | @cut p rest ps first h ih =>
    intro qs hq
    generalize hs : p ++ sep ++ rest = s at hq
    cases hq with
    | last hn =>
      exact absurd ⟨p.length, by rw [← hs]; simp, by
        rw [← hs, List.append_assoc, List.drop_left]; exact List.prefix_append _ _⟩ hn
    | @cut p' rest' ps' first' h' =>
      have h1 : p.length ≤ p'.length := first p'.length ⟨by rw [hs]; simp, by
        rw [hs, List.append_assoc, List.drop_left]; exact List.prefix_append _ _⟩
      have h2 : p'.length ≤ p.length := first' p.length ⟨by rw [← hs]; simp, by
        rw [← hs, List.append_assoc, List.drop_left]; exact List.prefix_append _ _⟩
      rw [List.append_assoc, List.append_assoc] at hs
      obtain ⟨hp, hr⟩ := List.append_inj hs (by omega)
      have hr := List.append_cancel_left hr
      subst hp hr
      rw [ih h']

/-- C35: splitting at a non-empty separator returns, the parts are those of the leftmost splitting, none of them contains the separator,
and joining them with the separator gives the text back. -/
theorem split_join (content sep : List Char) (hsep : sep ≠ []) :
    ∃ locs, split content sep = some locs ∧ Splits sep content (locs.map (part content)) ∧
      (∀ p ∈ locs.map (part content), ¬ Occurs sep p) ∧ join sep (locs.map (part content)) = content := by
  obtain ⟨new, h1, h2⟩ := splitLoop_spec content sep hsep (content.length + 1) 0 [] (Nat.zero_le _) (by omega)
  rw [List.drop_zero] at h2
  exact ⟨new, by simpa [split] using h1, h2, h2.free hsep, h2.join_eq⟩

/-- C35, the case left out: with an empty separator the loop never ends, whatever the number of rounds. -/
theorem split_empty_hangs (content : List Char) : ∀ fuel b locs, splitLoop content [] fuel b locs = none := by
  intro fuel
  induction fuel with
  | zero => intros; rfl
  | succ fuel ih =>
    intro b locs
    have : strstr (content.drop b) [] = some 0 := by
      cases content.drop b <;> simp [strstr]
    simp only [splitLoop, this, ih]

theorem fold_join (str inn out : List Char) : ∀ (ls : List Locator) (l : Locator) (s : List Char),
    Splits out s ((l :: ls).map (part str)) → ∀ pre,
    Replaced out inn s (ls.foldl (fun r l' => r ++ inn ++ part str l') (part str l)) ∧
      ls.foldl (fun r l' => r ++ inn ++ part str l') (pre ++ part str l) =
        pre ++ ls.foldl (fun r l' => r ++ inn ++ part str l') (part str l) := by
  intro ls
  induction ls with
  | nil =>
    intro l s h pre
    refine ⟨?_, rfl⟩
    cases h with
    | last h => exact .none h
    | cut _ h => cases h
  | cons l' ls ih =>
    intro l s h pre
    generalize hps : (l :: l' :: ls).map (part str) = ps at h
    cases h with
    | last => simp at hps
    | @cut p rest ps first h =>
      simp only [List.map_cons, List.cons.injEq] at hps
      obtain ⟨rfl, hps⟩ := hps
      subst hps
      have h' : Splits out rest ((l' :: ls).map (part str)) := h
      constructor
      · simp only [List.foldl_cons]
        rw [(ih l' rest h' (part str l ++ inn)).2]
        exact .one first (ih l' rest h' []).1
      · simp only [List.foldl_cons]
        rw [(ih l' rest h' (part str l ++ inn)).2]
        have := (ih l' rest h' (pre ++ part str l ++ inn)).2
        simp only [List.append_assoc] at this ⊢
        exact this

/-- C35: `replace(str, in, out)` with a non-empty `out` returns `str` with every occurrence of `out` replaced by `in`. -/
theorem replace_all (str inn out : List Char) (hout : out ≠ []) :
    ∃ r, replace str inn out = some r ∧ Replaced out inn str r := by
  obtain ⟨locs, h1, h2, _, _⟩ := split_join str out hout
  cases locs with
  | nil => cases h2
  | cons l ls =>
    exact ⟨_, by simp only [replace, h1], (fold_join str inn out ls l str h2 []).1⟩

/-- C35: there is only one such text. -/
theorem Spec.Replaced.unique {old new s r} (hold : old ≠ []) (h : Replaced old new s r) : ∀ {r'}, Replaced old new s r' → r = r' := by
  induction h with
  | @none s h =>
    intro r' hr
    cases hr with
    | none => rfl
    | @one p rest ps _ _ =>
      exact absurd ⟨p.length, by simp, by rw [List.append_assoc, List.drop_left]; exact List.prefix_append _ _⟩ h
  | @one p rest r first h ih =>
    intro r' hr
    generalize hs : p ++ old ++ rest = s at hr
    cases hr with
    | none hn =>
      exact absurd ⟨p.length, by rw [← hs]; simp, by
        rw [← hs, List.append_assoc, List.drop_left]; exact List.prefix_append _ _⟩ hn
    | @one p' rest' r'' first' h' =>
      have h1 : p.length ≤ p'.length := first p'.length ⟨by rw [hs]; simp, by
        rw [hs, List.append_assoc, List.drop_left]; exact List.prefix_append _ _⟩
      have h2 : p'.length ≤ p.length := first' p.length ⟨by rw [← hs]; simp, by
        rw [← hs, List.append_assoc, List.drop_left]; exact List.prefix_append _ _⟩
      rw [List.append_assoc, List.append_assoc] at hs
      obtain ⟨hp, hr⟩ := List.append_inj hs (by omega)
      have hr := List.append_cancel_left hr
      subst hp hr
      rw [ih h']

-- non-vacuity
example : (split "a,b,,c".toList ",".toList).map (·.map (fun l => String.ofList (part "a,b,,c".toList l))) =
    some ["a", "b", "", "c"] := by decide +kernel
example : (replace "v_$(BITRATE)_1.ts $(BITRATE)".toList "900".toList "$(BITRATE)".toList).map String.ofList = some "v_900_1.ts 900" := by
  decide +kernel
example : ",".toList ≠ [] := by decide

/-! ### C36 -/

theorem hex_pair : ∀ b : UInt8,
    Spec.hexDigit (hexChars.getD ((b.toNat >>> 4) &&& 0x0F) '\x00') = some (b.toNat / 16) ∧
    Spec.hexDigit (hexChars.getD (b.toNat &&& 0x0F) '\x00') = some (b.toNat % 16) := by
  intro b
  have h : ∀ n : Fin 256, Spec.hexDigit (hexChars.getD ((n.val >>> 4) &&& 0x0F) '\x00') = some (n.val / 16) ∧
      Spec.hexDigit (hexChars.getD (n.val &&& 0x0F) '\x00') = some (n.val % 16) := by decide +kernel
  exact h ⟨b.toNat, b.toNat_lt⟩

theorem appendHex_append (s : List Char) (bs : List UInt8) : appendHex s bs = s ++ appendHex [] bs := by
  induction bs generalizing s with
  | nil => simp [appendHex]
  | cons b bs ih =>
    have h : ∀ s, appendHex s (b :: bs) = appendHex (s ++ [hexChars.getD ((b.toNat >>> 4) &&& 0x0F) '\x00'] ++
      [hexChars.getD (b.toNat &&& 0x0F) '\x00']) bs := fun _ => rfl
    rw [h, h, ih, ih ([] ++ _ ++ _)]
    simp

theorem appendHex_cons (b : UInt8) (bs : List UInt8) : appendHex [] (b :: bs) =
    hexChars.getD ((b.toNat >>> 4) &&& 0x0F) '\x00' :: hexChars.getD (b.toNat &&& 0x0F) '\x00' :: appendHex [] bs := by
  have h : appendHex [] (b :: bs) = appendHex ([] ++ [hexChars.getD ((b.toNat >>> 4) &&& 0x0F) '\x00'] ++
      [hexChars.getD (b.toNat &&& 0x0F) '\x00']) bs := rfl
  rw [h, appendHex_append]
  rfl

/-- C36: the text appended for bytes is hexadecimal text for exactly these bytes (two digits each). -/
theorem hex_text (s : List Char) (bs : List UInt8) : ∃ t, appendHex s bs = s ++ t ∧ t.length = 2 * bs.length ∧ Spec.unhex t = some bs := by
  refine ⟨appendHex [] bs, appendHex_append s bs, ?_⟩
  induction bs with
  | nil => exact ⟨rfl, rfl⟩
  | cons b bs ih =>
    rw [appendHex_cons]
    refine ⟨by simp [ih.1]; omega, ?_⟩
    simp only [Spec.unhex, (hex_pair b).1, (hex_pair b).2, ih.2, Option.bind_some, Option.map_some]
    rw [Nat.div_add_mod' b.toNat 16, UInt8.ofNat_toNat]

theorem hexVal_eq (c : Char) : hexVal c = Spec.hexDigit c := by
  have e : ∀ a b : Char, (a ≤ b) = (a.toNat ≤ b.toNat) := fun a b => rfl
  simp only [hexVal, Spec.hexDigit, e, show '0'.toNat = 48 from rfl, show '9'.toNat = 57 from rfl, show 'A'.toNat = 65 from rfl,
    show 'F'.toNat = 70 from rfl, show 'a'.toNat = 97 from rfl, show 'f'.toNat = 102 from rfl]
  split
  · rfl
  · split
    · rename_i h; congr 1; omega
    · split
      · rename_i h; congr 1; omega
      · rfl

/-- A hexadecimal digit is neither white space nor a sign nor an `x`. -/
theorem hexDigit_not_special {c : Char} {n : Nat} (h : Spec.hexDigit c = some n) :
    isSpace c = false ∧ c ≠ '-' ∧ c ≠ '+' ∧ c ≠ 'x' ∧ c ≠ 'X' := by
  have ne : ∀ d : Char, Spec.hexDigit d = none → c ≠ d := by
    rintro d hd rfl; rw [h] at hd; exact absurd hd (by simp)
  refine ⟨?_, ne _ (by decide), ne _ (by decide), ne _ (by decide), ne _ (by decide)⟩
  have h1 := ne ' ' (by decide)
  have h2 := ne '\t' (by decide)
  have h3 := ne '\n' (by decide)
  have h4 := ne '\x0B' (by decide)
  have h5 := ne '\x0C' (by decide)
  have h6 := ne '\r' (by decide)
  simp [isSpace, h1, h2, h3, h4, h5, h6]

/-- Two hexadecimal digits are converted to their value. -/
theorem scanHex_pair {a b : Char} {h l : Nat} (ha : Spec.hexDigit a = some h) (hb : Spec.hexDigit b = some l) :
    scanHex [a, b] = some (h * 16 + l) := by
  obtain ⟨a1, a2, a3, a4, a5⟩ := hexDigit_not_special ha
  obtain ⟨b1, b2, b3, b4, b5⟩ := hexDigit_not_special hb
  have hd : [a, b].dropWhile isSpace = [a, b] := by simp [List.dropWhile, a1]
  have e : scanSign [a, b] = (false, [a, b]) := by simp [scanSign, a2, a3]
  have e2 : scanPrefix [a, b] = [a, b] := by simp [scanPrefix, b4, b5]
  simp only [scanHex, hd, e, e2]
  simp only [hexVal_eq, ha, Option.isSome_some, if_true, Bool.false_eq_true, if_false, scanDigits, hb]
  simp

theorem extractHex_spec (pre t post : List Char) (alloc : Nat) (bs : List UInt8) (h : Spec.unhex t = some bs)
    (ha : (pre ++ t ++ post).length ≤ alloc) : extractHex (pre ++ t ++ post) alloc bs.length pre.length = some bs := by
  induction bs generalizing pre t with
  | nil => rfl
  | cons b bs ih =>
    match t, h with
    | [], h => simp [Spec.unhex] at h
    | [_], h => simp [Spec.unhex] at h
    | x :: y :: cs, h =>
      cases hx : Spec.hexDigit x with
      | none => simp [Spec.unhex, hx] at h
      | some hi =>
        cases hy : Spec.hexDigit y with
        | none => simp [Spec.unhex, hx, hy] at h
        | some lo =>
          cases hc : Spec.unhex cs with
          | none => simp [Spec.unhex, hx, hy, hc] at h
          | some bs' =>
            simp only [Spec.unhex, hx, hy, hc, Option.bind_some, Option.map_some, Option.some.injEq, List.cons.injEq] at h
            obtain ⟨hb, rfl⟩ := h
            have hs : subString (pre ++ (x :: y :: cs) ++ post) alloc pre.length 2 = some [x, y] := by
              have : ¬ alloc - pre.length < 2 := by
                simp only [List.length_append, List.length_cons] at ha; omega
              simp only [subString, this, if_false]
              rw [List.append_assoc, List.drop_left]
              rfl
            simp only [List.length_cons, extractHex, hs, scanHex_pair hx hy]
            have e : pre ++ (x :: y :: cs) ++ post = (pre ++ [x, y]) ++ cs ++ post := by simp
            rw [e] at ha ⊢
            have := ih (pre ++ [x, y]) cs hc ha
            rw [List.length_append, show [x, y].length = 2 from rfl] at this
            rw [this, Option.map_some, hb]

/-- C36: extracting from any hexadecimal text (of either case, at any place of a longer string) gives the bytes it stands for. -/
theorem hex_extract (pre t post : List Char) (alloc : Nat) (bs : List UInt8) (h : Spec.unhex t = some bs)
    (ha : (pre ++ t ++ post).length ≤ alloc) : extractHex (pre ++ t ++ post) alloc bs.length pre.length = some bs :=
  extractHex_spec pre t post alloc bs h ha

/-- C36: the bytes appended to a string as hexadecimal text are extracted again. -/
theorem hex_round_trip (s : List Char) (bs : List UInt8) (alloc : Nat) (ha : (appendHex s bs).length ≤ alloc) :
    extractHex (appendHex s bs) alloc bs.length s.length = some bs := by
  obtain ⟨t, h1, _, h3⟩ := hex_text s bs
  rw [h1] at ha ⊢
  have := hex_extract s t [] alloc bs h3 (by simpa using ha)
  simpa using this

/-- What the code does not promise: text that is not hexadecimal can be taken for bytes without an error. -/
theorem hex_extract_lax_witness :
    Spec.unhex "1g-1 7".toList = none ∧ extractHex "1g-1 7".toList 7 3 0 = some [0x01, 0xFF, 0x07] := by
  constructor <;> decide +kernel

-- non-vacuity
example : String.ofList (appendHex "k=".toList [0x00, 0x9F, 0xFA]) = "k=009FFA" := by decide +kernel
example : extractHex "k=009ffa;".toList 10 3 2 = some [0x00, 0x9F, 0xFA] := by decide +kernel

/-! ### Decimal text -/

theorem digits_append : ∀ (s t : List Char) acc, Spec.digits acc (s ++ t) = (Spec.digits acc s).bind fun v => Spec.digits v t := by
  intro s
  induction s with
  | nil => intro t acc; rfl
  | cons c s ih =>
    intro t acc
    simp only [List.cons_append, Spec.digits]
    cases Spec.digit c with
    | none => rfl
    | some d => simp only [Option.bind_some]; exact ih t _

theorem digit_ofNat : ∀ d : Fin 10, Spec.digit (Char.ofNat (48 + d.val)) = some d.val := by decide +kernel

theorem decGo_spec : ∀ fuel n acc, n < 10 ^ fuel → 0 < fuel → ∃ ds, decGo fuel n acc = ds ++ acc ∧ ds ≠ [] ∧
    (∀ v, Spec.digits v ds = some (v * 10 ^ ds.length + n)) ∧ (∀ c ∈ ds, (Spec.digit c).isSome) ∧
    (1 < ds.length → 10 ^ (ds.length - 1) ≤ n) := by
  intro fuel
  induction fuel with
  | zero => intro n acc _ h; omega
  | succ fuel ih =>
    intro n acc hn _
    have hd := digit_ofNat ⟨n % 10, Nat.mod_lt _ (by decide)⟩
    simp only at hd
    simp only [decGo]
    by_cases h0 : n / 10 = 0
    · rw [if_pos h0]
      refine ⟨[Char.ofNat (48 + n % 10)], rfl, by simp, ?_, by simp [hd], by simp⟩
      intro v
      simp only [Spec.digits, hd, Option.bind_some, List.length_singleton, Option.some.injEq]
      omega
    · rw [if_neg h0]
      have hf : 0 < fuel := by
        rcases Nat.eq_zero_or_pos fuel with rfl | h
        · exfalso; omega
        · exact h
      obtain ⟨ds, e1, e2, e3, e4, e5⟩ := ih (n / 10) (Char.ofNat (48 + n % 10) :: acc) (by rw [Nat.pow_succ] at hn; omega) hf
      refine ⟨ds ++ [Char.ofNat (48 + n % 10)], by rw [e1]; simp, by simp, ?_, ?_, ?_⟩
      · intro v
        rw [digits_append, e3]
        simp only [Option.bind_some, Spec.digits, hd, List.length_append, List.length_singleton, Nat.pow_succ, Option.some.injEq]
        rw [Nat.add_mul, Nat.mul_assoc, Nat.add_assoc]
        omega
      · intro c hc
        rcases List.mem_append.mp hc with h | h
        · exact e4 c h
        · rw [List.mem_singleton.mp h, hd]; rfl
      · intro _
        simp only [List.length_append, List.length_singleton, Nat.add_sub_cancel]
        by_cases h1 : 1 < ds.length
        · have := e5 h1
          have e : ds.length = (ds.length - 1) + 1 := by omega
          rw [e, Nat.pow_succ]
          omega
        · have : ds.length = 1 := by
            have := List.length_pos_iff.mpr e2; omega
          rw [this]; omega

/-- The decimal text of a 64-bit number consists of digits, has no superfluous leading digit and its value is the number. -/
theorem dec_spec (n : Nat) (h : n < 2 ^ 64) : Spec.decimal (dec n) = some n ∧ (∀ c ∈ dec n, (Spec.digit c).isSome) ∧ dec n ≠ [] ∧
    (1 < (dec n).length → 10 ^ ((dec n).length - 1) ≤ n) := by
  obtain ⟨ds, e1, e2, e3, e4, e5⟩ := decGo_spec 20 n [] (Nat.lt_trans h (by decide)) (by decide)
  rw [List.append_nil] at e1
  have : dec n = ds := e1
  rw [this]
  refine ⟨?_, e4, e2, e5⟩
  simp only [Spec.decimal, e2, if_false]
  rw [e3]
  simp

example : String.ofList (dec 18446744073709551615) = "18446744073709551615" := by decide +kernel
example : String.ofList (decInt (-42)) = "-42" := by decide +kernel

end Verif.Strings
