import Verif.Psi.PropsRouting
/-
C103, C104: concrete cases, and where the properties fail.
-/
namespace Verif.Psi
open Fields Demux Spec

/-- A packet with this payload. -/
def pk (start : Bool) (pid : Nat) (payload : List UInt8) : TPacket := ⟨false, start, pid, none, 0, some payload⟩

def hdrZero : Hdr := ⟨0, 0, 0, 0, 0, (0, 0, 0), (0, 0, 0)⟩
def junk0 : Junk := ⟨fun _ => 77, hdrZero⟩
def noSps : List UInt8 → Bool := fun _ => true

/-- A table in one packet. -/
theorem carries_one (p : TPacket) (before sec after : List UInt8) (hb : before.length < 256) (hs : p.start = true) (hp : piece p = carried before sec after)
    (h12 : 12 ≤ sec.length) : CarriesTable [p] before sec after := by
  have hl : (carried before sec after).length = 1 + before.length + sec.length + after.length := by
    rw [carried, List.length_append, List.length_append, List.length_append, pack_length _ 1 rfl]
  refine ⟨hb, ⟨p, [], rfl, hs, by simp⟩, by simp [hp], ?_, ?_, ?_⟩
  · simp only [List.flatMap_cons, List.flatMap_nil, List.append_nil, hp]; omega
  · intro q qs h
    rw [List.cons.injEq] at h
    rw [← h.1, hp, hl]; omega
  · simp; omega

/-- Program 1 with its map on pid 100: video on 256 with a descriptor, audio on 257; the map follows three bytes of something else. -/
def secA : List UInt8 := sectionBytes 0 ⟨0, 3, 1, 3, 0, 1, 0, 0⟩ (patBody 7 [(1, 100)]) 0
def esB : List Es := [⟨0x1b, 256, [(5, [1, 2, 3, 4])]⟩, ⟨0x0f, 257, []⟩]
def secB : List UInt8 := sectionBytes 2 ⟨0, 3, 1, 3, 0, 1, 0, 0⟩ (pmtBody 15 256 [(9, [])] esB) 0
def packetsA : List TPacket := [pk false 300 [1, 2, 3], pk true 0 (carried [] secA (List.replicate 50 0xFF))]
def packetsB : List TPacket := [pk true 256 [0, 0, 1], pk true 100 (carried [7, 7, 7] secB [0xFF])]

theorem mapOk_B : MapOk 15 256 [(9, [])] esB := by
  refine ⟨by omega, ⟨by simp, by decide +kernel⟩, ?_, by decide +kernel, by decide⟩
  intro e he
  simp only [esB, List.mem_cons, List.not_mem_nil, or_false] at he
  rcases he with rfl | rfl
  · exact ⟨by decide, by decide, by simp, by decide +kernel⟩
  · exact ⟨by decide, by decide, by simp, by decide +kernel⟩

example : ∃ s, Proc.init.run noSps junk0 (packetsA ++ packetsB) = some s ∧ s.pat.table = some [(1, 100)] ∧
    (∃ r, s.pmts 100 = some r ∧ r.table = some (256, [(0x1b, 256), (0x0f, 257)])) ∧ (∀ q, q ∉ [100] → s.pmts q = none) ∧
      (∀ e ∈ esB, s.pes e.pid = some (e.type, PS.init hdrZero)) ∧ ∀ q, q ∉ [256, 257] → s.pes q = none :=
  tables_read_partial noSps junk0 packetsA packetsB ⟨0, 3, 1, 3, 0, 1, 0, 0⟩ 7 [(1, 100)] (by decide) (by simp) (by simp) 0 [] (List.replicate 50 0xFF)
    (carries_one _ [] _ _ (by decide) rfl rfl (by decide +kernel)) (by intro p hp; rw [← Option.some.inj hp]; rfl) 100 (by simp) ⟨0, 3, 1, 3, 0, 1, 0, 0⟩ 15 256 [(9, [])] esB mapOk_B 0
    [7, 7, 7] [0xFF] (carries_one _ [7, 7, 7] _ _ (by decide) rfl rfl (by decide +kernel)) (by intro p hp; rw [← Option.some.inj hp]; rfl)
    (by intro p hp _ h; simp only [packetsB, List.mem_cons, List.not_mem_nil, or_false] at hp; rcases hp with rfl | rfl <;> simp_all [pk])

/-- 43 programs: the section has 184 bytes and ends in the second packet. -/
def longPat : List UInt8 := carried [] (sectionBytes 0 ⟨0, 3, 1, 3, 0, 1, 0, 0⟩ (patBody 7 ((List.range 43).map (fun i => (i + 1, 1000 + i)))) 0) []

/-- C103 fails for sections that end within four bytes after a packet: the program believes the section to be complete and the exception at the end of the
data ends the reading of the file. With a packet size where this does not happen the same table is read. -/
theorem psi_boundary_witness :
    longPat.length = 185 ∧
    (Proc.init.run noSps junk0 [pk true 0 (longPat.take 184), pk false 0 (longPat.drop 184)]).isNone = true ∧
    ((Proc.init.run noSps junk0 [pk true 0 (longPat.take 180), pk false 0 (longPat.drop 180)]).bind (·.pat.table)).map (·.length) = some 43 := by
  decide +kernel

/-- C103 fails with a packet without payload on pid 0 (or on that of a map) before the table, and when the file begins in the middle of a long table. -/
theorem psi_empty_witness :
    (Proc.init.run noSps junk0 [⟨false, false, 0, some ⟨183, 0, none⟩, 0, none⟩]).isNone = true ∧
    (Proc.init.run noSps junk0 [pk false 0 (List.replicate 10 0)]).isNone = true := by
  decide +kernel

/-- C103 fails for tables of more than one section: the programs of the second are not found. -/
theorem psi_sections_witness :
    ((Proc.init.run noSps junk0
      [pk true 0 (carried [] (sectionBytes 0 ⟨0, 3, 1, 3, 0, 1, 0, 1⟩ (patBody 7 [(1, 100)]) 0) []),
       pk true 0 (carried [] (sectionBytes 0 ⟨0, 3, 1, 3, 0, 1, 1, 1⟩ (patBody 7 [(2, 200)]) 0) [])]).bind (·.pat.table)) = some [(1, 100)] := by
  decide +kernel

/-- C103 fails for the entry with the network pid (program number 0): a map is looked for on a pid that was in memory, here 77. -/
theorem psi_network_witness :
    ((Proc.init.run noSps junk0 [pk true 0 (carried [] (sectionBytes 0 ⟨0, 3, 1, 3, 0, 1, 0, 0⟩ (patBody 7 [(0, 16), (1, 100)]) 0) [])]).map
      fun s => ((s.pmts 77).isSome, (s.pmts 16).isSome, (s.pmts 100).isSome)) = some (true, false, true) := by
  decide +kernel

/-- C103 fails for a table that is not valid yet (current_next_indicator 0): it is taken, and the one in force is not. -/
theorem psi_next_witness :
    ((Proc.init.run noSps junk0
      [pk true 0 (carried [] (sectionBytes 0 ⟨0, 3, 1, 3, 1, 0, 0, 0⟩ (patBody 7 [(1, 100)]) 0) []),
       pk true 0 (carried [] (sectionBytes 0 ⟨0, 3, 1, 3, 0, 1, 0, 0⟩ (patBody 7 [(1, 200)]) 0) [])]).bind (·.pat.table)) = some [(1, 100)] := by
  decide +kernel

/-- A damaged table is used: the CRC is not compared (only in an assertion). -/
theorem psi_crc_witness (crc : Nat) :
    getPat junk0.pids (bitsOf (sectionBytes 0 ⟨0, 3, 1, 3, 0, 1, 0, 0⟩ (patBody 7 [(1, 100)]) crc ++ [])) = some [(1, 100)] :=
  pat_read _ _ _ _ _ _ (by decide) (by simp)

end Verif.Psi
