import Verif.Share.ViewProps
import Verif.Share.MoveProps
import Verif.Share.DeriveProps
import Verif.Share.PutProps
import Verif.DataBlock.Examples
/-
C93: concrete programs: the hypotheses of the theorems are met, and where copies are not made
although one might expect it.
-/
namespace HF.Share

open HF.DataDict.Spec
open HF.DataBlock

/-- A two port matrix. -/
def portsArr : Arr Nat Nat :=
  ⟨[⟨.matI, "i", [0, 1], none, none⟩, ⟨.matJ, "j", [0, 1], none, none⟩],
    ⟨[2, 2], fun idx => 10 * idx.headD 0 + idx.tail.headD 0⟩⟩

/-- A number without dims. -/
def oneArr : Arr Nat Nat := ⟨[], ⟨[], fun _ => 77⟩⟩

/-- Block 0 with the arrays 0 (`x` over a sweep) and 1 (matrix `S`) and comments. -/
def start : List (Op Nat Nat) :=
  [.arr (sweepArr "f") (some "Hz") "%d", .arr portsArr none "%d", .new, .set 0 "x" 0, .set 0 "S" 1,
    .comments 0 ["made"]]

def startMem : Mem Nat Nat := run envN {} start

theorem wf_start : Wf startMem := C93_wf envN start

/-- `x` of a block. -/
def lookAt (m : Mem Nat Nat) (b : Nat) (name : String) : Option (List Nat) :=
  (see 0 m b).bind fun s => ((lookup s.vars name).bind id).map SeenObj.flat

/-- The names of the dims of a variable of a block. -/
def dimsAt (m : Mem Nat Nat) (b : Nat) (name : String) : Option (List String) :=
  (see 0 m b).bind fun s => ((lookup s.vars name).bind id).map fun o => o.dims.map Dim.name

def commentsAt (m : Mem Nat Nat) (b : Nat) : Option (List String) :=
  (see 0 m b).bind Seen.comments

example : lookAt startMem 0 "x" = some [100, 101, 102] ∧ lookAt startMem 0 "S" = some [0, 1, 10, 11] ∧
    commentsAt startMem 0 = some ["made"] := by decide +kernel

/-! ### Copies -/

/-- Work on the copy (block 1, arrays 2 and 3), then on the original, in turns. -/
def turns : List (Bool × Op Nat Nat) :=
  [(true, .put 2 [1] 5), (false, .put 0 [0] 6), (true, .comment 1 "changed"),
    (false, .rename 0 "f" "g"), (true, .del 1 "S"), (false, .get 0 "S11")]

example : Sided envN (step envN startMem (.copy 0)).1 (made startMem (step envN startMem (.copy 0)).1)
    turns := by
  refine ⟨?_, ?_, ?_, ?_, ?_, ?_, trivial⟩ <;>
    simp only [Op.on, ObjIn, BlkIn, Part.side, made, Part.grow, Part.compl, if_true, Bool.false_eq_true,
      if_false] <;> decide +kernel

/-- After these turns each side has what it did itself. -/
example :
    let m := run envN (step envN startMem (.copy 0)).1 (turns.map Prod.snd)
    lookAt m 0 "x" = some [6, 101, 102] ∧ lookAt m 1 "x" = some [100, 5, 102] ∧
    dimsAt m 0 "x" = some ["g"] ∧ dimsAt m 1 "x" = some ["f"] ∧
    lookAt m 0 "S" = some [0, 1, 10, 11] ∧ lookAt m 1 "S" = none ∧
    commentsAt m 0 = some ["made"] ∧ commentsAt m 1 = some ["made", "changed"] := by decide +kernel

/-- `C93_copy` for a block with two variables and comments. -/
example : see 0 (step envN startMem (.copy 0)).1 1 = see 0 startMem 0 ∧
    (see 0 startMem 0).isSome = true :=
  ⟨(C93_copy envN startMem wf_start 0 (by decide +kernel)).2.1, by decide +kernel⟩

/-- `C93_copy_after`: work on the copy only. -/
example : see 0 (run envN (step envN startMem (.copy 0)).1 [.put 2 [1] 5, .del 1 "S"]) 0 =
    see 0 startMem 0 := by
  have h := ((C93_copy_after envN startMem wf_start 0 (by decide +kernel)
    [(true, .put 2 [1] 5), (true, .del 1 "S")]
    (by
      refine ⟨?_, ?_, trivial⟩ <;>
        simp only [Op.on, ObjIn, BlkIn, Part.side, made, Part.grow, if_true] <;> decide +kernel)).1
    (by simp)).1 0 (by decide +kernel)
  exact h

/-- `C93_copy_array` for a copy of `x` and for the array of a dimension. -/
example : Apart (step envN startMem (.copyArr 0)).1 (made startMem (step envN startMem (.copyArr 0)).1) :=
  (C93_copy_array envN startMem wf_start (.copyArr 0) (Or.inl ⟨0, rfl, by decide +kernel⟩)).2.2.2.1

example : (step envN startMem (.get 0 "f")).2 = .ok (.obj 2) :=
  (C93_copy_array envN startMem wf_start (.get 0 "f") (Or.inr ⟨0, "f", _, sweep "f", rfl, rfl,
    by decide +kernel⟩)).1

/-! ### Views -/

/-- The view (block 1) shows what is written to the original, and the other way round; names of
dimensions are changed in one of the two only; comments belong to both. -/
example :
    let m := run envN (step envN startMem (.view 0)).1
      [.put 0 [0] 6, .put 2 [1] 5, .rename 1 "f" "g", .comment 1 "changed"]
    lookAt m 0 "x" = some [6, 5, 102] ∧ lookAt m 1 "x" = some [6, 5, 102] ∧
    dimsAt m 0 "x" = some ["f"] ∧ dimsAt m 1 "x" = some ["g"] ∧
    commentsAt m 0 = some ["made", "changed"] ∧ commentsAt m 1 = some ["made", "changed"] := by
  decide +kernel

/-- `C93_view_form` for work on the view. -/
example : form (run envN (step envN startMem (.view 0)).1 [.put 2 [1] 5, .rename 1 "f" "g"]) 0 =
    form startMem 0 :=
  ((C93_view_form envN startMem wf_start 0 (by decide +kernel) [.put 2 [1] 5, .rename 1 "f" "g"]).1
    (by
      refine ⟨?_, ?_, trivial⟩ <;>
        simp only [Op.on, ObjIn, BlkIn, made, Part.grow, Part.loose] <;> decide +kernel)).1 0
    (by decide +kernel)

/-- `C93_view_values`, `C93_view_comments`. -/
example : ∃ blk', (step envN startMem (.view 0)).1.blks[1]? = some blk' ∧ blk'.vars.length = 2 := by
  obtain ⟨blk', h1, -, h2⟩ := C93_view_values envN startMem wf_start 0 _ rfl
  refine ⟨blk', h1, ?_⟩
  rw [← h2.length_eq]
  decide +kernel

example : ((see 0 (step envN (step envN startMem (.view 0)).1 (.comment 1 "changed")).1 0).bind
    Seen.comments) = some ["made", "changed"] :=
  C93_view_comments envN (step envN startMem (.view 0)).1 0 _ rfl 1 _ rfl rfl 0 ["made"]
    (by decide +kernel) (by decide +kernel) "changed" 1 (Or.inr rfl) 0 (Or.inl rfl)

/-- `C93_stored`: the array is stored under a new name. -/
example : (step envN (step envN startMem (.set 0 "y" 1)).1 (.get 0 "y")).2 = .ok (.obj 1) :=
  (C93_stored envN startMem 0 _ rfl 1 _ rfl "y" (by decide +kernel) (by decide +kernel)
    (by intro x i j h; simp [show isMatrixName "y" = none by decide +kernel] at h)).2.1

/-- `C93_moved`: the transposed matrix, after writing to the matrix and to the transposed one. -/
example : ∃ x y, elems 0 (run envN (step envN startMem (.move 1 (.transpose []))).1
      [.put 1 [0, 1] 8, .put 2 [0, 0] 9]) 1 = some x ∧
    elems 0 (run envN (step envN startMem (.move 1 (.transpose []))).1
      [.put 1 [0, 1] 8, .put 2 [0, 0] 9]) 2 = some y ∧
    flatOf x = [9, 8, 10, 11] ∧ flatOf y = [9, 10, 8, 11] := by
  refine ⟨_, _, rfl, rfl, ?_, ?_⟩ <;> decide +kernel

example : ∃ p, (Move.transpose []).on envN.dflt (startMem.objs[1]'(by decide +kernel)).pos =
    .ok (some p) := ⟨_, rfl⟩

example : ∃ x y, elems 0 (run envN (step envN startMem (.move 1 (.transpose []))).1
      [.put 1 [0, 1] 8, .put 2 [0, 0] 9]) 1 = some x ∧
    elems 0 (run envN (step envN startMem (.move 1 (.transpose []))).1
      [.put 1 [0, 1] 8, .put 2 [0, 0] 9]) 2 = some y ∧ y.shape = x.shape.reverse := by
  obtain ⟨x, y, h1, h2, h3⟩ := (C93_moved envN startMem wf_start 1 _ rfl (.transpose []) _ rfl
    [.put 1 [0, 1] 8, .put 2 [0, 0] 9]).2.2
  refine ⟨x, y, h1, h2, ?_⟩
  cases h1
  cases h2
  decide +kernel

/-- `C93_keep` and `C93_filter`. -/
example : (step envN startMem (.keep 0 ["S", "nothing", "x"])).2 = .ok (.blk 1) :=
  (C93_keep envN startMem wf_start 0 _ rfl ["S", "nothing", "x"]
    ⟨by decide +kernel, by
      intro q o hq ho
      have : q = ("x", 0) ∨ q = ("S", 1) := by
        have : startMem.blks[0]?.map Blk.vars = some [("x", 0), ("S", 1)] := by decide +kernel
        simpa using (Option.some.inj this ▸ hq : q ∈ [("x", 0), ("S", 1)])
      rcases this with rfl | rfl
      · cases ho; decide +kernel
      · cases ho; decide +kernel, by
      intro n hn x i j h
      rcases (by simpa using hn : n = "S" ∨ n = "nothing" ∨ n = "x") with rfl | rfl | rfl
      · simp [show isMatrixName "S" = none by decide +kernel] at h
      · simp [show isMatrixName "nothing" = none by decide +kernel] at h
      · simp [show isMatrixName "x" = none by decide +kernel] at h⟩).1

example : see 0 (step envN startMem (.filter 0 false (sweep "f") [true, false, true])).1 0 =
    see 0 startMem 0 :=
  (C93_filter envN startMem wf_start 0 _ rfl
    (by
      intro q o hq ho
      have : q = ("x", 0) ∨ q = ("S", 1) := by
        have : startMem.blks[0]?.map Blk.vars = some [("x", 0), ("S", 1)] := by decide +kernel
        simpa using (Option.some.inj this ▸ hq : q ∈ [("x", 0), ("S", 1)])
      rcases this with rfl | rfl
      · cases ho; decide +kernel
      · cases ho; decide +kernel)
    (by
      intro n hn x i j h
      have hn' : n ∈ ["x", "S"] := by
        have e : (startMem.blks[0]?.map fun b => b.vars.map Prod.fst) = some ["x", "S"] := by
          decide +kernel
        exact Option.some.inj e ▸ hn
      rcases (by simpa using hn' : n = "x" ∨ n = "S") with rfl | rfl
      · simp [show isMatrixName "x" = none by decide +kernel] at h
      · simp [show isMatrixName "S" = none by decide +kernel] at h)
    false (sweep "f") [true, false, true]).1 0 (by decide +kernel)

/-! ### Assignments -/

/-- `C93_put`: element (0, 1) of the matrix is at the place of element (1, 0) of the transposed
matrix (array 2). -/
def transposed : List (Op Nat Nat) := start ++ [.move 1 (.transpose [])]

example : elemAt 0 (step envN (run envN {} transposed) (.put 1 [0, 1] 8)).1 2 [1, 0] = some 8 ∧
    elemAt 0 (step envN (run envN {} transposed) (.put 1 [0, 1] 8)).1 1 [1, 0] = some 10 := by
  have h := C93_put envN transposed 1 [0, 1] 8 _ rfl (inside_iff.1 (by decide +kernel))
  refine ⟨h.2.1 2 [1, 0] ⟨_, _, rfl, rfl, by decide +kernel, by decide +kernel⟩, ?_⟩
  refine (h.2.2.2.2 [1, 0] (inside_iff.1 (by decide +kernel)) (by decide)).trans ?_
  decide +kernel

/-- `C93_fill` with the transposed matrix: source and destination overlap. -/
example : (elems 0 (step envN (run envN {} transposed) (.fill 1 2)).1 1).map flatOf =
    some [0, 10, 1, 11] := by decide +kernel

example : elemAt 0 (step envN (run envN {} transposed) (.fill 1 2)).1 1 [0, 1] = some 10 := by
  refine ((C93_fill envN transposed 1 2 _ _ rfl rfl).2 (by decide +kernel) [0, 1]
    (inside_iff.1 (by decide +kernel))).trans ?_
  decide +kernel

/-- `C93_element`: `S12` of the matrix is set. -/
def withNumber : List (Op Nat Nat) := start ++ [.arr oneArr none "%d"]

example : (step envN (run envN {} withNumber) (.set 0 "S12" 2)).2 = .ok .nothing ∧
    elemAt 0 (step envN (run envN {} withNumber) (.set 0 "S12" 2)).1 1 [0, 1] = some 77 := by
  have h := C93_element envN withNumber 0 2 1 _ _ _ "S12" "S" 0 1 rfl rfl (by decide +kernel)
    (by decide +kernel) (by decide +kernel) rfl
  refine ⟨h.1, (h.2 [0, 1] (inside_iff.1 (by decide +kernel))).trans ?_⟩
  decide +kernel

/-! ### Where the new block is not independent of the old one -/

/-- A matrix `S` and, stored after it, a variable `S11` of its own (it was called `X11` when it
was stored). -/
def bothMem : Mem Nat Nat := run envN startMem
  [.arr oneArr none "%d", .set 0 "X11" 2, .rename 0 "X11" "S11"]

/-- `keep_variables` writes into the block it reads: keeping a matrix and then a variable with
the name of one of its elements stores the variable as that element, in the matrix of the old
block. -/
theorem C93_keep_refuted : lookAt bothMem 0 "S" = some [0, 1, 10, 11] ∧
    (step envN bothMem (.keep 0 ["S", "S11"])).2 = .ok (.blk 1) ∧
    lookAt (step envN bothMem (.keep 0 ["S", "S11"])).1 0 "S" = some [77, 1, 10, 11] := by
  refine ⟨?_, ?_, ?_⟩ <;> decide +kernel

/-- `filter` writes into the block it reads, in the same way. -/
theorem C93_filter_refuted : lookAt bothMem 0 "S" = some [0, 1, 10, 11] ∧
    (step envN bothMem (.filter 0 false (sweep "f") [true, false, true])).2 = .ok (.blk 1) ∧
    lookAt (step envN bothMem (.filter 0 false (sweep "f") [true, false, true])).1 0 "S" =
      some [77, 1, 10, 11] := by
  refine ⟨?_, ?_, ?_⟩ <;> decide +kernel

/-- `keep_variables` with the name of a dimension after a variable over it: the dim of the array
is replaced, in the old block as well.  Here the old block has another dim of this name (one with
a unit) than its array. -/
theorem C93_keep_dim_refuted :
    let m := run envN startMem [.setDim 0 "f" ⟨.dimSweep, "f", [1, 2, 3], some "Hz", none⟩]
    let after := (step envN m (.keep 0 ["x", "f"])).1
    ((seeObj 0 m 0).map fun o => o.dims.map Dim.data) = some [[10, 20, 30]] ∧
    ((seeObj 0 after 0).map fun o => o.dims.map Dim.data) = some [[1, 2, 3]] := by
  constructor <;> decide +kernel

/-- Variables without the dim of the filter are not copied: writing to the filtered block changes
the old one. -/
theorem C93_filter_shared_refuted :
    let m := (step envN startMem (.filter 0 false (sweep "f") [true, false, true])).1
    lookAt m 1 "x" = some [100, 102] ∧ lookAt m 0 "S" = some [0, 1, 10, 11] ∧
    lookAt (step envN (step envN m (.get 1 "S")).1 (.put 3 [0, 0] 9)).1 1 "S" = some [9, 1, 10, 11] ∧
    lookAt (step envN (step envN m (.get 1 "S")).1 (.put 3 [0, 0] 9)).1 0 "S" =
      some [9, 1, 10, 11] := by
  refine ⟨?_, ?_, ?_, ?_⟩ <;> decide +kernel

end HF.Share
