import Verif.Psi.Model
import Verif.Psi.Spec
import Verif.Demux.Lemmas
import Verif.Fields.Lemmas
/-
Reading the parts of a section.
-/
namespace Verif.Psi
open Fields Demux Spec

theorem takeBits_pack (fs : List (Nat × Nat)) (k : Nat) (h : width fs = 8 * k) (rest : List UInt8) :
    takeBits (fs.map (·.1)) (bitsOf (pack fs ++ rest)) = some (fs.map (fun f => f.2 % 2 ^ f.1), bitsOf rest) := by
  rw [takeBits_of _ _ _ (read_pack fs k h rest)]
  have : (fs.map (·.1)).sum = 8 * k := h
  rw [this, bitsOf_drop, List.drop_left' (pack_length fs k h)]

theorem section_length (tid : Nat) (h : Head) (body : List UInt8) (crc : Nat) : (sectionBytes tid h body crc).length = body.length + 12 := by
  rw [sectionBytes, List.length_append, List.length_append, pack_length _ 8 rfl, pack_length _ 4 rfl]; omega

theorem base_read (tid : Nat) (h : Head) (body : List UInt8) (crc : Nat) (rest : List UInt8) (ht : tid < 256) (hb : body.length + 9 < 4096) :
    getBase (bitsOf (sectionBytes tid h body crc ++ rest)) = some ((tid, body.length + 9), bitsOf (body ++ (pack [(32, crc)] ++ rest))) := by
  rw [sectionBytes, getBase, List.append_assoc, List.append_assoc]
  have := takeBits_pack [(8, tid), (1, 1), (1, h.bit), (2, h.res1), (12, body.length + 9), (16, h.id), (2, h.res2), (5, h.version),
    (1, h.current), (8, h.number), (8, h.last)] 8 rfl (body ++ (pack [(32, crc)] ++ rest))
  simp only [List.map_cons, List.map_nil] at this
  rw [this]
  simp only [Option.some.injEq, Prod.mk.injEq, and_true]
  exact ⟨Nat.mod_eq_of_lt (by omega), Nat.mod_eq_of_lt (by omega)⟩

theorem pointed_ok (before sec after : List UInt8) (hb : before.length < 256) : pointed (carried before sec after) = some (bitsOf (sec ++ after)) := by
  rw [pointed, carried, List.append_assoc, List.append_assoc]
  have := takeBits_pack [(8, before.length)] 1 rfl (before ++ (sec ++ after))
  simp only [List.map_cons, List.map_nil] at this
  rw [this]
  simp only
  rw [show before.length % 2 ^ 8 = before.length from Nat.mod_eq_of_lt (by omega), Nat.mul_comm, bitsOf_drop, List.drop_left' rfl]

theorem pat_entries (memory : Nat → Nat) (res : Nat) (programs : List (Nat × Nat)) : ∀ (i : Nat) (rest : List UInt8),
    (∀ p ∈ programs, 0 < p.1 ∧ p.1 < 65536 ∧ p.2 < 8192) →
    patEntries memory i programs.length (bitsOf (patBody res programs ++ rest)) = some (programs, bitsOf rest) := by
  induction programs with
  | nil => intro i rest _; rfl
  | cons p ps ih =>
    intro i rest hp
    obtain ⟨h0, h1, h2⟩ := hp p (by simp)
    rw [patBody, List.flatMap_cons, List.append_assoc, List.length_cons, patEntries]
    have := takeBits_pack [(16, p.1), (3, res), (13, p.2)] 4 rfl (ps.flatMap (fun p => pack [(16, p.1), (3, res), (13, p.2)]) ++ rest)
    simp only [List.map_cons, List.map_nil] at this
    rw [this]
    simp only
    have ih := ih (i + 1) rest (fun q hq => hp q (by simp [hq]))
    rw [patBody] at ih
    rw [ih, Option.map_some, show p.1 % 2 ^ 16 = p.1 from Nat.mod_eq_of_lt (by omega), show p.2 % 2 ^ 13 = p.2 from Nat.mod_eq_of_lt (by omega),
      if_neg (by omega)]

theorem patBody_length (res : Nat) (programs : List (Nat × Nat)) : (patBody res programs).length = 4 * programs.length := by
  induction programs with
  | nil => rfl
  | cons p ps ih =>
    rw [patBody, List.flatMap_cons, List.length_append, pack_length _ 4 rfl]
    rw [patBody] at ih
    rw [ih, List.length_cons]; omega

/-- The section of a program association table is read. -/
theorem pat_read (memory : Nat → Nat) (h : Head) (res : Nat) (programs : List (Nat × Nat)) (crc : Nat) (rest : List UInt8) (hn : programs.length ≤ 253)
    (hp : ∀ p ∈ programs, 0 < p.1 ∧ p.1 < 65536 ∧ p.2 < 8192) :
    getPat memory (bitsOf (sectionBytes 0 h (patBody res programs) crc ++ rest)) = some programs := by
  have hl := patBody_length res programs
  rw [getPat, base_read 0 h _ crc rest (by omega) (by omega), Option.bind_some]
  simp only
  have : ((patBody res programs).length + 9 + 2 ^ 32 - 9) % 2 ^ 32 / 4 = programs.length := by omega
  rw [this, pat_entries memory res programs 0 _ hp, Option.bind_some]
  have := takeBits_pack [(32, crc)] 4 rfl rest
  simp only [List.map_cons, List.map_nil] at this
  simp only
  rw [this, Option.map_some]

theorem descriptors_cons (d : Nat × List UInt8) (ds : List (Nat × List UInt8)) :
    descriptors (d :: ds) = pack [(8, d.1), (8, d.2.length)] ++ (d.2 ++ descriptors ds) := by
  rw [descriptors, List.flatMap_cons, List.append_assoc]; rfl

theorem descriptors_read (ds : List (Nat × List UInt8)) : ∀ (fuel len count : Nat) (rest : List UInt8), (∀ d ∈ ds, d.1 < 256 ∧ d.2.length < 256) →
    len = count + (descriptors ds).length → ds.length < fuel →
    getDescriptors fuel len count (bitsOf (descriptors ds ++ rest)) = some (bitsOf rest) := by
  induction ds with
  | nil =>
    intro fuel len count rest _ hl hf
    obtain ⟨f, rfl⟩ : ∃ f, fuel = f + 1 := ⟨fuel - 1, by simp at hf; omega⟩
    rw [getDescriptors, if_neg (by simp [descriptors] at hl; omega)]
    rfl
  | cons d ds ih =>
    intro fuel len count rest hd hl hf
    obtain ⟨h1, h2⟩ := hd d (by simp)
    obtain ⟨f, rfl⟩ : ∃ f, fuel = f + 1 := ⟨fuel - 1, by simp at hf; omega⟩
    rw [descriptors_cons, List.length_append, List.length_append, pack_length _ 2 rfl] at hl
    rw [getDescriptors, if_pos (by omega), descriptors_cons, List.append_assoc, List.append_assoc]
    have := takeBits_pack [(8, d.1), (8, d.2.length)] 2 rfl (d.2 ++ (descriptors ds ++ rest))
    simp only [List.map_cons, List.map_nil] at this
    rw [this]
    simp only
    rw [show d.2.length % 2 ^ 8 = d.2.length from Nat.mod_eq_of_lt (by omega), skipIf, if_pos rfl, if_pos (by rw [bitsOf_length, List.length_append]; omega),
      Option.bind_some, bitsOf_drop, List.drop_left' rfl]
    exact ih f len _ rest (fun e he => hd e (by simp [he])) (by omega) (by simp at hf; omega)

theorem descriptors_count (ds : List (Nat × List UInt8)) : 2 * ds.length ≤ (descriptors ds).length := by
  induction ds with
  | nil => simp
  | cons d ds ih => rw [descriptors_cons, List.length_append, List.length_append, pack_length _ 2 rfl, List.length_cons]; omega

theorem esBytes_length (res : Nat) (e : Es) : (esBytes res e).length = 5 + (descriptors e.info).length := by
  rw [esBytes, List.length_append, pack_length _ 5 rfl]

theorem streams_length (res : Nat) (es : List Es) : es.length ≤ (es.flatMap (esBytes res)).length := by
  induction es with
  | nil => simp
  | cons e es ih => rw [List.flatMap_cons, List.length_append, esBytes_length, List.length_cons]; omega

/-- What the program keeps of a stream. -/
def kept (e : Es) : Nat × Nat := (e.type, e.pid)

theorem streams_read (res : Nat) (es : List Es) : ∀ (fuel len count : Nat) (rest : List UInt8), (∀ e ∈ es, e.type < 256 ∧ e.pid < 8192 ∧ DescOk e.info) →
    len = count + (es.flatMap (esBytes res)).length → es.length < fuel →
    getStreams fuel len count (bitsOf (es.flatMap (esBytes res) ++ rest)) = some (es.map kept, bitsOf rest) := by
  induction es with
  | nil =>
    intro fuel len count rest _ hl hf
    obtain ⟨f, rfl⟩ : ∃ f, fuel = f + 1 := ⟨fuel - 1, by simp at hf; omega⟩
    rw [getStreams, if_neg (by simp at hl; omega)]
    rfl
  | cons e es ih =>
    intro fuel len count rest he hl hf
    obtain ⟨h1, h2, h3, h4⟩ := he e (by simp)
    obtain ⟨f, rfl⟩ : ∃ f, fuel = f + 1 := ⟨fuel - 1, by simp at hf; omega⟩
    rw [List.flatMap_cons, List.length_append, esBytes_length] at hl
    rw [getStreams, if_pos (by omega), List.flatMap_cons, esBytes, List.append_assoc, List.append_assoc]
    have := takeBits_pack [(8, e.type), (3, res), (13, e.pid), (4, res), (12, (descriptors e.info).length)] 5 rfl
      (descriptors e.info ++ (es.flatMap (esBytes res) ++ rest))
    simp only [List.map_cons, List.map_nil] at this
    rw [this]
    simp only
    rw [show (descriptors e.info).length % 2 ^ 12 = (descriptors e.info).length from Nat.mod_eq_of_lt (by omega),
      descriptors_read e.info _ _ 0 _ h3 (by omega) (by have := descriptors_count e.info; rw [bitsOf_length, List.length_append]; omega), Option.bind_some,
      ih f len _ rest (fun x hx => he x (by simp [hx])) (by omega) (by simp at hf; omega), Option.map_some,
      show e.type % 2 ^ 8 = e.type from Nat.mod_eq_of_lt (by omega), show e.pid % 2 ^ 13 = e.pid from Nat.mod_eq_of_lt (by omega)]
    rfl

/-- The section of a program map is read. -/
theorem pmt_read (h : Head) (res pcr : Nat) (info : List (Nat × List UInt8)) (es : List Es) (crc : Nat) (rest : List UInt8) (hp : pcr < 8192) (hi : DescOk info)
    (he : ∀ e ∈ es, e.type < 256 ∧ e.pid < 8192 ∧ DescOk e.info) (hl : (pmtBody res pcr info es).length + 9 < 4096) :
    getPmt (bitsOf (sectionBytes 2 h (pmtBody res pcr info es) crc ++ rest)) = some (pcr, es.map kept) := by
  rw [getPmt, base_read 2 h _ crc rest (by omega) hl, Option.bind_some]
  simp only
  have hlen : (pmtBody res pcr info es).length = 4 + (descriptors info).length + (es.flatMap (esBytes res)).length := by
    rw [pmtBody, List.length_append, List.length_append, pack_length _ 4 rfl]
  generalize (pmtBody res pcr info es).length = n at hlen hl ⊢
  rw [pmtBody, List.append_assoc, List.append_assoc]
  have := takeBits_pack [(3, res), (13, pcr), (4, res), (12, (descriptors info).length)] 4 rfl
      (descriptors info ++ (es.flatMap (esBytes res) ++ (pack [(32, crc)] ++ rest)))
  simp only [List.map_cons, List.map_nil] at this
  rw [this]
  simp only
  obtain ⟨h3, h4⟩ := hi
  rw [show (descriptors info).length % 2 ^ 12 = (descriptors info).length from Nat.mod_eq_of_lt (by omega),
    descriptors_read info _ _ 0 _ h3 (by omega) (by have := descriptors_count info; rw [bitsOf_length, List.length_append]; omega), Option.bind_some,
    streams_read res es _ _ 0 _ he (by omega) (by have := streams_length res es; rw [bitsOf_length, List.length_append]; omega), Option.bind_some]
  have := takeBits_pack [(32, crc)] 4 rfl rest
  simp only [List.map_cons, List.map_nil] at this
  simp only
  rw [this, Option.map_some, show pcr % 2 ^ 13 = pcr from Nat.mod_eq_of_lt (by omega)]

end Verif.Psi
