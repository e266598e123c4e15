import Verif.Hyper.RepBack
import Verif.DataBlock.FilterExamples
/-
C70: a block with repetitions, and witnesses.
-/
namespace HF.Hyper

open HF.DataDict.Spec HF.DataBlock

def repI : Dim Nat := ⟨.dimRep, "i", [1, 2], none, none⟩
def repJ : Dim Nat := ⟨.dimRep, "j", [5, 6, 7], none, none⟩
def sweepF : Dim Nat := ⟨.dimSweep, "f", [3, 4], none, none⟩

/-- Measured twice at three places. -/
def measRep : Block Nat Nat where
  vars := [("v", ⟨[sweepF, repI, repJ], ⟨[2, 2, 3], fun x => 100 * x.getD 0 0 + 10 * x.getD 1 0 + x.getD 2 0⟩⟩),
    ("w", ⟨[sweepF], ⟨[2], fun x => x.headD 0⟩⟩)]
  ivars := [("i", repI), ("f", sweepF), ("j", repJ)]

theorem repeated_meas : Repeated measRep [repI, repJ] "AllReps" where
  orderly := by
    refine ⟨?_, by simp [measRep], by simp [measRep], ?_, ?_, ?_⟩
    · intro p hp
      simp only [measRep, List.mem_cons, List.not_mem_nil, or_false] at hp
      rcases hp with rfl | rfl <;> rfl
    · intro p hp
      simp only [measRep, List.mem_cons, List.not_mem_nil, or_false] at hp
      rcases hp with rfl | rfl <;> simp [measRep]
    · intro p hp p' hp' d hd
      simp only [measRep, List.mem_cons, List.not_mem_nil, or_false] at hp hp'
      rcases hp with rfl | rfl <;> rcases hp' with rfl | rfl <;>
        simp only [List.mem_cons, List.not_mem_nil, or_false] at hd
      · rcases hd with rfl | rfl | rfl <;> decide
      · subst hd; decide
      · rcases hd with rfl | rfl | rfl <;> decide
      · subst hd; decide
    · intro p hp m i j hm
      have : ∀ q ∈ measRep.vars.map Prod.fst, isMatrixName q = none := by decide +kernel
      rw [this _ (List.mem_map_of_mem hp)] at hm
      cases hm
  known := by
    show List.filter _ [repI, sweepF, repJ] = _
    have h1 : repI.isa .dimRep = true := by decide +kernel
    have h2 : sweepF.isa .dimRep = false := by decide +kernel
    have h3 : repJ.isa .dimRep = true := by decide +kernel
    simp [List.filter, h1, h2, h3]
  names := by
    intro p hp
    simp only [measRep, List.mem_cons, List.not_mem_nil, or_false] at hp
    rcases hp with rfl | rfl | rfl <;> rfl
  axes := by
    intro p hp
    simp only [measRep, List.mem_cons, List.not_mem_nil, or_false] at hp
    rcases hp with rfl | rfl <;> simp [sweepF, repI, repJ]
  over := by
    have h2 : sweepF.isa .dimRep = false := by decide +kernel
    intro p hp
    simp only [measRep, List.mem_cons, List.not_mem_nil, or_false] at hp
    rcases hp with rfl | rfl
    · exact Or.inr ⟨[sweepF], [], [2], [], rfl, by simpa using h2, rfl, rfl⟩
    · exact Or.inl (by simpa using h2)
  fresh := by
    refine ⟨by simp [measRep], by simp [repI, repJ], ?_⟩
    have h1 : repI.isa .dimRep = true := by decide +kernel
    have h3 : repJ.isa .dimRep = true := by decide +kernel
    intro p hp d hd hn
    simp only [measRep, List.mem_cons, List.not_mem_nil, or_false] at hp
    rcases hp with rfl | rfl <;> simp only [List.mem_cons, List.not_mem_nil, or_false] at hd
    · rcases hd with rfl | rfl | rfl
      · decide
      · rw [h1] at hn; cases hn
      · rw [h3] at hn; cases hn
    · subst hd; decide
  elems := by
    intro n hn m i j hm
    have : ∀ q ∈ [repI, repJ].map Dim.name ++ measRep.vars.map Prod.fst, isMatrixName q = none := by decide +kernel
    rw [this _ hn] at hm
    cases hm

example : ∃ r r', removeRepBlock envN id measRep "AllReps" = .ok r ∧ hyperName envN r ["i", "j"] "AllReps" false true = .ok r' :=
  let ⟨r, r', h1, h2, _⟩ := C70_back envN id measRep [repI, repJ] "AllReps" repeated_meas (by simp) (by
    intro d hd
    simp only [List.mem_cons, List.not_mem_nil, or_false] at hd
    rcases hd with rfl | rfl
    · exact ⟨by simp [repI], by simp [repI, Ascending, envN], by simp [envN]⟩
    · exact ⟨by simp [repJ], by simp [repJ, Ascending, envN], by simp [envN]⟩)
  ⟨r, r', h1, h2⟩

/-- C70 fails if the repetitions of a variable are in another order than in the block: the element with the number 1
was measured at `i = 2`, `j = 5`, but the columns tell `i = 1`, `j = 6`. -/
theorem C70_order_refuted :
    look (removeRepBlock envN id
      { vars := [("v", ⟨[repJ, repI], ⟨[3, 2], fun x => 10 * repJ.data.getD (x.getD 0 0) 0 + repI.data.getD (x.getD 1 0) 0⟩⟩)],
        ivars := [("i", repI), ("j", repJ)] }) =
      some ([("i", [[1, 1, 1, 2, 2, 2], [0, 1, 2, 3, 4, 5]]), ("j", [[5, 6, 7, 5, 6, 7], [0, 1, 2, 3, 4, 5]]),
        ("v", [[51, 52, 61, 62, 71, 72], [0, 1, 2, 3, 4, 5]])], ["AllReps"]) := by
  decide +kernel

/-- C70 fails if a variable depends on some of the repetitions only: the axis of `w` has two elements, but the
dimension `AllReps` of the block, that of `v`, has six values. -/
theorem C70_some_refuted :
    look (removeRepBlock envN id
      { vars := [("v", ⟨[repI, repJ], ⟨[2, 3], fun x => 10 * x.getD 0 0 + x.getD 1 0⟩⟩), ("w", ⟨[repI], ⟨[2], fun x => x.headD 0⟩⟩)],
        ivars := [("i", repI), ("j", repJ)] }) =
      some ([("i", [[1, 1, 1, 2, 2, 2], [0, 1, 2, 3, 4, 5]]), ("j", [[5, 6, 7, 5, 6, 7], [0, 1, 2, 3, 4, 5]]),
        ("v", [[0, 1, 2, 10, 11, 12], [0, 1, 2, 3, 4, 5]]), ("w", [[0, 1], [0, 1]])], ["AllReps"]) := by
  decide +kernel

end HF.Hyper
