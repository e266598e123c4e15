import Verif.Readers.AssembleProps
/-
The matrices among names, when it is known which names of elements there are.
-/
namespace HF.Readers.Assemble

open HF.DataBlock

/-- The names of elements in `cols` are those of the matrices `mats`, given with the numbers of rows and columns. -/
structure MatsOf (cols : List String) (mats : List (String × Nat × Nat)) : Prop where
  nodup : (mats.map Prod.fst).Nodup
  good : ∀ m ∈ mats, IsBase m.1 ∧ m.2.1 ≤ 9 ∧ m.2.2 ≤ 9 ∧ 1 < m.2.1 * m.2.2
  mem : ∀ v i j, IsBase v → i < 10 → j < 10 →
    (elemNm v i j ∈ cols ↔ ∃ m ∈ mats, m.1 = v ∧ i ∈ List.range' 1 m.2.1 ∧ j ∈ List.range' 1 m.2.2)

/-- The matrices found are these. -/
theorem complete_iff {cols : List String} {mats : List (String × Nat × Nat)} (h : MatsOf cols mats) (v : String) (I J : List Nat) :
    Complete cols v I J ↔ ∃ m ∈ mats, m.1 = v ∧ I = List.range' 1 m.2.1 ∧ J = List.range' 1 m.2.2 := by
  have huniq : ∀ m ∈ mats, ∀ m' ∈ mats, m.1 = m'.1 → m = m' := fun m hm m' hm' e => List.inj_on_of_nodup_map h.nodup hm hm' e
  constructor
  · intro hc
    have hpos : 0 < I.length ∧ 0 < J.length := by
      have := hc.many
      constructor <;> refine Nat.pos_of_ne_zero ?_ <;> intro e <;> rw [e] at this <;> simp at this
    obtain ⟨i0, hi0⟩ := List.exists_mem_of_length_pos hpos.1
    obtain ⟨j0, hj0⟩ := List.exists_mem_of_length_pos hpos.2
    have hi := hc.digits.1 i0 hi0
    have hj := hc.digits.2 j0 hj0
    obtain ⟨m, hm, rfl, -, -⟩ := (h.mem v i0 j0 hc.base hi hj).1 ((hc.mem i0 j0 hi hj).2 ⟨hi0, hj0⟩)
    obtain ⟨-, g2, g3, g4⟩ := h.good m hm
    have hall : ∀ a b, a < 10 → b < 10 → ((a ∈ I ∧ b ∈ J) ↔ (a ∈ List.range' 1 m.2.1 ∧ b ∈ List.range' 1 m.2.2)) := by
      intro a b ha hb
      rw [← hc.mem a b ha hb, h.mem m.1 a b hc.base ha hb]
      constructor
      · rintro ⟨m', hm', e, h1, h2⟩
        rw [huniq m hm m' hm' e.symm]
        exact ⟨h1, h2⟩
      · rintro ⟨h1, h2⟩
        exact ⟨m, hm, rfl, h1, h2⟩
    have hr : ∀ (n a : Nat), n ≤ 9 → a ∈ List.range' 1 n → a < 10 := by
      intro n a hn ha
      rw [List.mem_range'_1] at ha
      omega
    have ho : 1 ∈ List.range' 1 m.2.1 ∧ 1 ∈ List.range' 1 m.2.2 := by
      rw [List.mem_range'_1, List.mem_range'_1]
      have : m.2.1 ≠ 0 := by intro e; rw [e] at g4; simp at g4
      have : m.2.2 ≠ 0 := by intro e; rw [e] at g4; simp at g4
      omega
    refine ⟨m, hm, rfl, ?_, ?_⟩
    · refine sortedLt_unique hc.rows List.pairwise_lt_range' fun a => ⟨fun ha => ?_, fun ha => ?_⟩
      · exact ((hall a j0 (hc.digits.1 a ha) hj).1 ⟨ha, hj0⟩).1
      · exact ((hall a 1 (hr _ a g2 ha) (by omega)).2 ⟨ha, ho.2⟩).1
    · refine sortedLt_unique hc.cols List.pairwise_lt_range' fun a => ⟨fun ha => ?_, fun ha => ?_⟩
      · exact ((hall i0 a hi (hc.digits.2 a ha)).1 ⟨hi0, ha⟩).2
      · exact ((hall 1 a (by omega) (hr _ a g3 ha)).2 ⟨ho.1, ha⟩).2
  · rintro ⟨m, hm, rfl, rfl, rfl⟩
    obtain ⟨g1, g2, g3, g4⟩ := h.good m hm
    refine ⟨g1, List.pairwise_lt_range', List.pairwise_lt_range', ⟨?_, ?_⟩, ?_, by simpa using g4⟩
    · intro a ha; rw [List.mem_range'_1] at ha; omega
    · intro a ha; rw [List.mem_range'_1] at ha; omega
    · intro i j hi hj
      rw [h.mem m.1 i j g1 hi hj]
      constructor
      · rintro ⟨m', hm', e, h1, h2⟩
        rw [huniq m hm m' hm' e.symm]
        exact ⟨h1, h2⟩
      · rintro ⟨h1, h2⟩
        exact ⟨m, hm, rfl, h1, h2⟩

end HF.Readers.Assemble
