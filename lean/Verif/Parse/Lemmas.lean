import Verif.Parse.Model
import Verif.Movie.Props
namespace Verif.Parse
open Verif.Cenc.Spec (be beVal)
open Verif.Cenc (be_length beVal_be)
open Verif.Fragment (fourcc full box box_length)
open Verif.Movie (words cat)
open Verif.Tables (sub64 u32)

theorem ok_bind {α β : Type} (a : α) (f : α → Res β) : (Except.ok a >>= f) = f a := rfl
theorem map_ok {α β : Type} (f : α → β) (a : α) : Except.map (ε := Stop) f (.ok a) = .ok (f a) := rfl

theorem get_be (k v : Nat) (r : List UInt8) : get k (be k v ++ r) = .ok (v % 256 ^ k, r) := by
  have h : k ≤ (be k v ++ r).length := by rw [List.length_append, be_length]; omega
  rw [get, if_pos h]
  have e1 : (be k v ++ r).take k = be k v := by
    rw [List.take_append_of_le_length (by rw [be_length]), List.take_of_length_le (by rw [be_length])]
  have e2 : (be k v ++ r).drop k = r := by
    rw [List.drop_append_of_le_length (by rw [be_length]), List.drop_of_length_le (by rw [be_length]), List.nil_append]
  rw [e1, e2, beVal_be]

theorem get4 (v : Nat) (h : v < 2 ^ 32) (r : List UInt8) : get 4 (be 4 v ++ r) = .ok (v, r) := by
  rw [get_be, Nat.mod_eq_of_lt (by omega)]
theorem get2 (v : Nat) (h : v < 2 ^ 16) (r : List UInt8) : get 2 (be 2 v ++ r) = .ok (v, r) := by
  rw [get_be, Nat.mod_eq_of_lt (by omega)]
theorem get8 (v : Nat) (h : v < 2 ^ 64) (r : List UInt8) : get 8 (be 8 v ++ r) = .ok (v, r) := by
  rw [get_be, Nat.mod_eq_of_lt (by omega)]
theorem get1 (v : Nat) (h : v < 2 ^ 8) (r : List UInt8) : get 1 (be 1 v ++ r) = .ok (v, r) := by
  rw [get_be, Nat.mod_eq_of_lt (by omega)]

theorem pass_app (a r : List UInt8) (n : Nat) (h : a.length ≤ n) : pass n (a ++ r) = pass (n - a.length) r := by
  rw [pass, pass, List.length_append]
  by_cases h1 : n ≤ a.length + r.length
  · rw [if_pos h1, if_pos (by omega), List.drop_append, List.drop_of_length_le h, List.nil_append]
  · rw [if_neg h1, if_neg (by omega)]

theorem pass_be (n k v : Nat) (r : List UInt8) (h : k ≤ n) : pass n (be k v ++ r) = pass (n - k) r := by
  rw [pass_app _ _ _ (by rw [be_length]; exact h), be_length]

theorem pass_zero (r : List UInt8) : pass 0 r = .ok r := by simp [pass]

theorem getBytes_app (a r : List UInt8) : getBytes a.length (a ++ r) = .ok (a, r) := by
  rw [getBytes, if_pos (by simp), List.take_left, List.drop_left]

theorem getFull_full (v f : Nat) (hv : v < 256) (r : List UInt8) : getFull (full v f ++ r) = .ok (v, r) := by
  simp only [getFull, full, List.append_assoc, get_be, ok_bind]
  rw [Nat.mod_eq_of_lt (by omega)]

theorem getWords_words : ∀ (ws : List Nat) (r : List UInt8), (∀ w ∈ ws, w < 2 ^ 32) → getWords ws.length (words ws ++ r) = .ok (ws, r)
  | [], r, _ => rfl
  | w :: ws, r, h => by
    have e : words (w :: ws) ++ r = be 4 w ++ (words ws ++ r) := by simp [words]
    rw [e, List.length_cons, getWords, get4 w (h w (by simp))]
    simp only [ok_bind]
    rw [getWords_words ws r fun w hw => h w (by simp [hw])]
    rfl

theorem words_length (ws : List Nat) : (words ws).length = 4 * ws.length := by
  induction ws with
  | nil => rfl
  | cons w ws ih => simp [words, be_length] at ih ⊢; omega

theorem getTable_words (k n : Nat) (ws : List Nat) (r : List UInt8) (hn : n < 2 ^ 32) (hl : ws.length = k * n) (h : ∀ w ∈ ws, w < 2 ^ 32) :
    getTable k (full 0 0 ++ (be 4 n ++ words ws) ++ r) = .ok (n :: ws, r) := by
  rw [getTable, List.append_assoc, getFull_full 0 0 (by omega)]
  simp only [ok_bind, List.append_assoc, get4 n hn]
  rw [← hl, getWords_words ws r h]
  rfl

theorem getBox_hdr (N s t : Nat) (r : List UInt8) (hs : s < 2 ^ 32) (hs1 : s ≠ 1) (ht : t < 2 ^ 32) (hu : t ≠ fourcc 'u' 'u' 'i' 'd') :
    getBox N (be 4 s ++ (be 4 t ++ r)) = .ok (⟨N - (8 + r.length), s, t⟩, r) := by
  rw [getBox]
  simp only [get4 s hs, get4 t ht, ok_bind, longSize, hs1, if_false, uuidSize, hu]
  congr 4
  simp [be_length]; omega

/-- A type that a box of a known or skipped kind can have. -/
def PlainType (t : Nat) : Prop := t < 2 ^ 32 ∧ t ≠ fourcc 'u' 'u' 'i' 'd'

theorem getBox_box (N t : Nat) (b post : List UInt8) (hl : (box t b).length < 2 ^ 32) (ht : PlainType t) :
    getBox N (box t b ++ post) = .ok (⟨N - (8 + (b ++ post).length), 8 + b.length, t⟩, b ++ post) := by
  rw [box_length] at hl
  rw [box, List.append_assoc, List.append_assoc]
  exact getBox_hdr N _ t _ hl (by omega) ht.1 ht.2

theorem doBox_box (N t : Nat) (h : Hdr) (b post : List UInt8) (hl : (box t b).length < 2 ^ 32) (ht : PlainType t) :
    doBox N h (box t b ++ post) = .ok (⟨N - (8 + (b ++ post).length), 8 + b.length, t⟩, b ++ post) := by
  have hne : box t b ++ post ≠ [] := by
    intro h'
    have := congrArg List.length h'
    simp [box_length] at this
  rw [doBox, if_neg hne, getBox_box N t b post hl ht]

theorem skip_box (n t : Nat) (b post : List UInt8) (hl : (box t b).length < 2 ^ 32) : skip ⟨n, 8 + b.length, t⟩ (b ++ post) = post := by
  rw [box_length] at hl
  have e : sub64 (8 + b.length) 8 = b.length := by
    simp only [sub64]; omega
  rw [skip, e]
  have e2 : b.length * 8 % 2 ^ 64 / 8 = b.length := by omega
  simp only [e2, List.drop_left]

end Verif.Parse
