import Verif.Readers.TreatWith
import Verif.Readers.TreatExamples
/-
C77: the hypotheses for files with properties are met by a block with a voltage in the comments.
-/
namespace HF.Readers.Treat

open HF.DataDict.Spec HF.DataBlock
open HF.DataDict hiding rename delitem
open HF.Readers.Assemble (IsBase elemNm digit)
open HF.Sp (Style Writable titles axesOf sweepTitle)

def pstyle : Style ℚ Bit := { tstyle with unit := fun n => if n = "Z" then some ['O', 'h', 'm'] else none }

def psteps : Steps ℚ Bit :=
  { tsteps with ofProp := fun v => match v with | .arr x _ => some (x = 1, false) | .other _ => none }

def pf : Dim ℚ := ⟨.dimSweep, "freq", [0, 1], none, none⟩

def pblock : Block ℚ Bit where
  vars := [("Id", ⟨[pf], ⟨[2], fun p => (p == [0], true)⟩⟩), ("Z", ⟨[pf], ⟨[2], fun p => (true, p == [1])⟩⟩),
    ("S", ⟨[pf, ti, tj], ⟨[2, 2, 2], fun p => (p == [1, 0, 1], p == [0, 1, 0])⟩⟩)]
  ivars := [("freq", pf), ("i", ti), ("j", tj)]

/-- A remark and a voltage. -/
def pcomments : List (List Char) := ["a".toList, "Vg [V]: 1".toList]

theorem pcomments_props : Comments.properties pcomments = [("Vg", .arr 1 (some ['V']))] := by decide +kernel

theorem pblock_writable : Writable tenv id unbits pstyle bre bim pcomments pblock where
  quiet := ⟨⟨by decide +kernel, by
    intro w hw w' _ m i j hm
    have : ∀ w ∈ pblock.vars, isMatrixName w.1 = none := by decide +kernel
    rw [this w hw] at hm; simp at hm⟩, by decide +kernel⟩
  ne := by simp [pblock]
  sized := by decide +kernel
  known := by decide +kernel
  used := by decide +kernel
  axes := by decide +kernel
  distinct := by decide +kernel
  points := by decide +kernel
  titled := by decide +kernel
  title := by decide +kernel
  differ := by decide +kernel
  elem := by
    have h : ∀ w ∈ pblock.vars, ∀ t ∈ titles pstyle bre bim pblock (axesOf w.2), t ≠ "rep" ∧ isMatrixName t = none := by
      decide +kernel
    intro w hw t ht
    refine ⟨(h w hw t ht).1, ?_⟩
    intro m i j hm; rw [(h w hw t ht).2] at hm; simp at hm
  cell := by
    have h : ∀ w ∈ pblock.vars, ∀ x y : Bool, (∀ i, Sp.Field (pstyle.text w.1 i (x, y))) ∧
        if pstyle.cplx w.1 = true then
          unbits (pstyle.text w.1 false (x, y)) = bre (x, y) ∧ unbits (pstyle.text w.1 true (x, y)) = bim (x, y)
        else unbits (pstyle.text w.1 false (x, y)) = (x, y) := by decide +kernel
    exact fun w hw v => h w hw v.1 v.2
  coord := by decide +kernel
  outerName := by decide +kernel
  outer := by
    have h : ∀ w ∈ pblock.vars, (axesOf w.2).tail = [] := by decide +kernel
    intro w hw e he
    rw [h w hw] at he
    simp at he
  comment := by decide +kernel
  property := by decide +kernel

theorem pblock_tame : Tame pstyle pblock pf where
  plain := by
    have h : ∀ w ∈ pblock.vars, ismatrix w.2 = false → w.2.dims = [pf] ∧ ∀ c ∈ w.1.toList.getLast?, isDig c = false := by
      decide +kernel
    intro w hw hm
    exact ⟨(h w hw hm).1, fun v i j _ _ hj => no_elem (h w hw hm).2 hj⟩
  matrix := by
    have h : ∀ w ∈ pblock.vars, ismatrix w.2 = true → w.2.dims = [pf, ti, tj] ∧ w.1.toList ≠ [] ∧ ∀ c ∈ w.1.toList, isLetter c = true := by
      decide +kernel
    intro w hw hm
    exact ⟨ti, tj, (h w hw hm).1, by decide, by decide, by decide, (h w hw hm).2⟩
  sweep := by decide +kernel
  names := by decide +kernel
  column := by
    have h : ∀ n ∈ pblock.vars.flatMap columns, n ∉ ["a1", "a2", "Freq", "Frequency"] ∧
        ∀ n' ∈ pblock.vars.flatMap columns, (isMatrixName n).map Prod.fst ≠ some n' := by decide +kernel
    intro n hn
    refine ⟨(h n hn).1, fun n' hn' i j e => (h n hn).2 n' hn' ?_⟩
    rw [e]; rfl

/-- The voltage is a variable of what is read. -/
example : ∃ ls r, Sp.save tenv pstyle pcomments pblock = (ls, none) ∧ spBlocks tenv psteps id unbits ls = .ok [r] ∧
    AgainWith psteps pblock pf (Comments.properties pcomments) r ∧
    lookup r.blk.vars "Vg" = some ⟨[], ⟨[], fun _ => (true, false)⟩⟩ ∧ r.units "Vg" = some "V" := by
  obtain ⟨ls, r, h1, h2, h3⟩ := C77_properties (S := psteps) pblock_writable pblock_tame (fun _ => rfl)
    (fun _ _ _ => ⟨fun _ => True, by simp, by simp, fun _ _ _ _ => rfl⟩) (List.Perm.refl _) (fun _ _ _ => rfl) (by rfl)
    (by decide +kernel) (by
      rw [pcomments_props]
      intro q hq
      rw [List.mem_singleton] at hq
      subst hq
      refine ⟨by decide +kernel, by decide +kernel, by decide +kernel, by decide +kernel, ?_, ?_⟩
      · intro v i j _ _ hj
        exact no_elem (by decide +kernel) hj
      · intro m i j hm
        have : isMatrixName "Vg" = none := by decide +kernel
        rw [this] at hm
        cases hm)
  refine ⟨ls, r, h1, h2, h3, ?_⟩
  obtain ⟨sw, -, -, -, -, -, -, h4, -⟩ := h3
  exact h4 "Vg" (.arr 1 (some ['V'])) (true, false) (by rw [pcomments_props]; rfl) (by rfl)

end HF.Readers.Treat
