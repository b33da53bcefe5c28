import Verif.Movie.Lemmas
import Verif.Movie.Spec
import Verif.Fragment.Segment
import Verif.Tables.PropsOrder
namespace Verif.Movie
open Verif.Cenc.Spec (be beVal)
open Verif.Cenc (be_length beVal_be)
open Verif.Fragment (W fourcc full box box_length num_be num1 num2 num3 num4 num4' raw_append full_read boxList boxes_list mem_flatMap_length)
open Verif.Fragment.Spec (chars)
open Verif.Tables (WStream SampleIn ChunkDes stscEntries stszWords stcoWords stssWords sttsEntries cttsEntries u32 sub64)

/-! ### Boxes -/

theorem cat_count (l : List (Nat × List UInt8)) : l.length ≤ (cat l).length := by
  induction l with
  | nil => simp
  | cons x l ih => rw [cat_cons, List.length_append, box_length, List.length_cons]; omega

theorem mem_cat (l : List (Nat × List UInt8)) (x : Nat × List UInt8) (h : x ∈ l) : 8 + x.2.length ≤ (cat l).length := mem_flatMap_length l x h

theorem parts_cat (l : List (Nat × List UInt8)) (h : (cat l).length < 2 ^ 32) : Spec.parts (cat l) = some (boxList 0 l) :=
  boxes_list l 0 (cat l).length (cat_count l) fun x hx => Nat.lt_of_le_of_lt (mem_cat l x hx) h

theorem find_boxList (t : String) : ∀ (l : List (Nat × List UInt8)) (p : Nat),
    (Verif.Fragment.Spec.find (boxList p l) t).map (·.body) = (l.find? fun x => chars (be 4 x.1) == t.toList).map (·.2)
  | [], p => rfl
  | (ty, b) :: l, p => by
    have ih := find_boxList t l (p + (8 + b.length))
    simp only [boxList, Verif.Fragment.Spec.find, List.find?_cons] at ih ⊢
    cases (chars (be 4 ty) == t.toList) <;> simp only [ih, Option.map_some]

theorem child_cat (l : List (Nat × List UInt8)) (t : String) (h : (cat l).length < 2 ^ 32) :
    Spec.child (cat l) t = (l.find? fun x => chars (be 4 x.1) == t.toList).map (·.2) := by
  rw [Spec.child, parts_cat l h]
  exact find_boxList t l 0

theorem filter_boxList (t : String) : ∀ (l : List (Nat × List UInt8)) (p : Nat),
    ((boxList p l).filter fun b => b.type == t.toList).map (·.body) = (l.filter fun x => chars (be 4 x.1) == t.toList).map (·.2)
  | [], p => rfl
  | (ty, b) :: l, p => by
    have ih := filter_boxList t l (p + (8 + b.length))
    simp only [boxList, List.filter_cons] at ih ⊢
    cases (chars (be 4 ty) == t.toList) <;> simp [ih]

/-! ### Tables -/

theorem beVal4 (n : Nat) : ∃ a b c d, be 4 n = [a, b, c, d] ∧ beVal [a, b, c, d] = n % 2 ^ 32 := by
  have h := be_length 4 n
  have hv := beVal_be 4 n
  obtain ⟨l, hl⟩ : ∃ l, be 4 n = l := ⟨_, rfl⟩
  rw [hl] at h hv ⊢
  match l, h with
  | [a, b, c, d], _ => exact ⟨a, b, c, d, rfl, hv⟩

theorem words_read : ∀ ws : List Nat, Spec.words (words ws) = some (ws.map (· % 2 ^ 32))
  | [] => rfl
  | n :: ws => by
    obtain ⟨a, b, c, d, h1, h2⟩ := beVal4 n
    have : words (n :: ws) = a :: b :: c :: d :: words ws := by simp [words, h1]
    rw [this, Spec.words, words_read ws, h2]
    rfl

theorem words_length (ws : List Nat) : (words ws).length = 4 * ws.length := by
  induction ws with
  | nil => rfl
  | cons n ws ih => simp [words, be_length] at ih ⊢; omega

theorem table_read (ws : List Nat) (h : ∀ x ∈ ws, x < 2 ^ 32) : Spec.table (full 0 0 ++ words ws) = some ws := by
  simp only [Spec.table, full_read, Option.bind_eq_bind, Option.bind_some, words_read]
  congr 1
  conv => rhs; rw [← List.map_id ws]
  exact List.map_congr_left fun x hx => Nat.mod_eq_of_lt (h x hx)

theorem tableBody_words (n : Nat) (es : List Nat) : tableBody n es = full 0 0 ++ words (n :: es) := by simp [tableBody, words]

theorem pairs_read : ∀ es : List (Nat × Nat), Spec.pairs (pairList es) = some es
  | [] => rfl
  | (a, b) :: es => by
    have : pairList ((a, b) :: es) = a :: b :: pairList es := by simp [pairList]
    rw [this, Spec.pairs, pairs_read es]; rfl

theorem triples_read : ∀ es : List (Nat × Nat), Spec.triples (tripleList es) = some (es.map fun e => (e.1, e.2, 1))
  | [] => rfl
  | (a, b) :: es => by
    have : tripleList ((a, b) :: es) = a :: b :: 1 :: tripleList es := by simp [tripleList]
    rw [this, Spec.triples, triples_read es]; rfl

theorem runs_read (es : List (Nat × Nat)) (hn : es.length < 2 ^ 32) (h : ∀ e ∈ es, e.1 < 2 ^ 32 ∧ e.2 < 2 ^ 32) :
    Spec.runs (tableBody es.length (pairList es)) = some (Verif.Tables.Spec.expand es) := by
  rw [tableBody_words, Spec.runs, table_read _ (by
    intro x hx
    rcases List.mem_cons.1 hx with rfl | hx
    · exact hn
    · obtain ⟨e, he, hx⟩ := List.mem_flatMap.1 hx
      simp at hx
      rcases hx with rfl | rfl
      · exact (h e he).1
      · exact (h e he).2)]
  simp only [Option.bind_eq_bind, Option.bind_some, pairs_read, if_true]

theorem toChunk_read (es : List (Nat × Nat)) (hn : es.length < 2 ^ 32) (h : ∀ e ∈ es, e.1 < 2 ^ 32 ∧ e.2 < 2 ^ 32) :
    Spec.toChunk (tableBody es.length (tripleList es)) = some (es.map fun e => (e.1, e.2, 1)) := by
  rw [tableBody_words, Spec.toChunk, table_read _ (by
    intro x hx
    rcases List.mem_cons.1 hx with rfl | hx
    · exact hn
    · obtain ⟨e, he, hx⟩ := List.mem_flatMap.1 hx
      simp at hx
      rcases hx with rfl | rfl | rfl
      · exact (h e he).1
      · exact (h e he).2
      · decide)]
  simp only [Option.bind_eq_bind, Option.bind_some, triples_read, List.length_map, if_true]

theorem list_read (ws : List Nat) (hn : ws.length < 2 ^ 32) (h : ∀ x ∈ ws, x < 2 ^ 32) : Spec.list (full 0 0 ++ words (ws.length :: ws)) = some ws := by
  rw [Spec.list, table_read _ (by intro x hx; rcases List.mem_cons.1 hx with rfl | hx; exacts [hn, h x hx])]
  simp only [Option.bind_eq_bind, Option.bind_some, if_true]

theorem sizes_read (ws : List Nat) (hn : ws.length < 2 ^ 32) (h : ∀ x ∈ ws, x < 2 ^ 32) : Spec.sizes (full 0 0 ++ words (0 :: ws.length :: ws)) = some ws := by
  rw [Spec.sizes, table_read _ (by
    intro x hx
    rcases List.mem_cons.1 hx with rfl | hx
    · decide
    · rcases List.mem_cons.1 hx with rfl | hx; exacts [hn, h x hx])]
  simp only [Option.bind_eq_bind, Option.bind_some, if_true]

/-! ### Where the samples are -/

theorem inChunk_eq (es : List (Nat × Nat)) (c n : Nat) (h : Verif.Tables.Spec.samplesInChunk es c = n) (hn : 0 < n) :
    Spec.inChunk (es.map fun e => (e.1, e.2, 1)) c = some (n, 1) := by
  simp only [Spec.inChunk, List.filter_map, Verif.Tables.Spec.samplesInChunk, List.getLast?_map, Function.comp_def] at h ⊢
  cases hf : (es.filter fun e => decide (e.1 ≤ c)).getLast? with
  | none => rw [hf] at h; simp at h; omega
  | some e => rw [hf] at h; simp at h; simp [h]

theorem inRow_eq (k : Nat) : ∀ (g : List SampleIn) (p : Nat) (zs : List Nat), Verif.Tables.Contig p g →
    Spec.inRow g.length (p + k) (g.map (·.size) ++ zs) = some (g.map (fun x => (x.position + k, x.size)), zs)
  | [], p, zs, _ => rfl
  | x :: g, p, zs, h => by
    have ih := inRow_eq k g (p + x.size) zs h.2
    simp only [List.length_cons, List.map_cons, List.cons_append, Spec.inRow]
    rw [show p + k + x.size = p + x.size + k by omega, ih, Option.map_some, h.1]

theorem locate_eq (k : Nat) (es : List (Nat × Nat × Nat)) : ∀ (groups : List (Nat × List SampleIn)) (c : Nat), (∀ g ∈ groups, Verif.Tables.Contig g.1 g.2) →
    (∀ i g, groups[i]? = some g → Spec.inChunk es (c + i) = some (g.2.length, 1)) →
    Spec.locate es c (groups.map fun g => g.1 + k) ((groups.flatMap (·.2)).map (·.size)) = some ((groups.flatMap (·.2)).map fun x => (x.position + k, x.size, 1))
  | [], c, _, _ => rfl
  | g :: groups, c, h1, h2 => by
    have ih := locate_eq k es groups (c + 1) (fun g hg => h1 g (by simp [hg])) (by
      intro i g' hg
      have := h2 (i + 1) g' (by simpa using hg)
      rwa [show c + (i + 1) = c + 1 + i by omega] at this)
    have h0 := h2 0 g rfl
    rw [Nat.add_zero] at h0
    simp only [List.map_cons, List.flatMap_cons, List.map_append, Spec.locate, h0, Option.bind_eq_bind, Option.bind_some, inRow_eq k g.2 g.1 _ (h1 g (by simp)), ih]
    simp [Function.comp_def]

end Verif.Movie
