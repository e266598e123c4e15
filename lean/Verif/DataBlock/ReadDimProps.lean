import Verif.DataBlock.Examples
import Verif.DataBlock.Writes
/-
C03: reading the dimensions which assignments bring into a block.
-/
namespace HF.DataBlock

open HF.DataDict.Spec

variable {β α : Type} [DecidableEq β]

/-- C03: an assignment makes the dimensions of the array readable: a name that was not that of a
dimension before gives the coordinates of the first dimension of the array with this name.  This
holds for every block, also if a variable of that name is stored: it can not be read any more. -/
theorem C03_read_dimension (env : Env β α) (w : World β α) (b : Nat) (blk : RBlock β)
    (hb : w.blocks[b]? = some blk) (key : String) (v : Arr β α) (hp : Plain blk key v)
    (k : String) (hk : k ∉ blk.ivars.map Prod.fst) (d : Dim β) (pre post : List (Dim β))
    (hd : v.dims = pre ++ d :: post) (hn : d.name = k) (hpre : ∀ e ∈ pre, e.name ≠ k) :
    wGetitem env (wstep env w (.set b key v)).1 b k = .ok (ofDim env d) := by
  have hi : lookup blk.ivars key = none := (lookup_none_iff' _ _).2 hp.ivar
  have hik : lookup blk.ivars k = none := (lookup_none_iff' _ _).2 hk
  have hlt : b < w.blocks.length := by
    rw [List.getElem?_eq_some_iff] at hb; exact hb.1
  have hf : (v.dims.find? fun d => d.name == k) = some d := by
    rw [hd, List.find?_append, List.find?_cons]
    have : (pre.find? fun d => d.name == k) = none := by
      rw [List.find?_eq_none]; intro e he; simpa using hpre e he
    simp [this, hn]
  simp only [wstep, wSetNew, wSetArr, hb]
  rw [List.getElem?_append_right (Nat.le_refl _)]
  simp only [Nat.sub_self, List.getElem?_cons_zero, putBlock, elemTarget_plain hp, hi, List.set_set]
  simp only [wGetitem]
  rw [List.getElem?_set_self hlt]
  simp only [getitem, lookup_addDims, hik, hf, Option.none_or]

/-- C03: a dimension that the block knows reads as before, whatever is assigned. -/
theorem C03_read_known_dimension (env : Env β α) (w : World β α) (b : Nat) (blk : RBlock β)
    (hb : w.blocks[b]? = some blk) (key : String) (v : Arr β α) (hp : Plain blk key v)
    (k : String) (d : Dim β) (hk : lookup blk.ivars k = some d) :
    wGetitem env w b k = .ok (ofDim env d) ∧
    wGetitem env (wstep env w (.set b key v)).1 b k = .ok (ofDim env d) := by
  have hi : lookup blk.ivars key = none := (lookup_none_iff' _ _).2 hp.ivar
  have hlt : b < w.blocks.length := by
    rw [List.getElem?_eq_some_iff] at hb; exact hb.1
  constructor
  · simp only [wGetitem, hb, getitem, hk]
  simp only [wstep, wSetNew, wSetArr, hb]
  rw [List.getElem?_append_right (Nat.le_refl _)]
  simp only [Nat.sub_self, List.getElem?_cons_zero, putBlock, elemTarget_plain hp, hi, List.set_set]
  simp only [wGetitem]
  rw [List.getElem?_set_self hlt]
  simp only [getitem, lookup_addDims, hk, Option.some_or]

/-- What is read, for comparison: the names of the dims and the first three elements. -/
def looks (r : Except Err (Arr Nat Nat)) : Option (List String × List Nat) :=
  r.toOption.map fun x => (x.dims.map Dim.name, [x.nd.get [0], x.nd.get [1], x.nd.get [2]])

def histX : List (Op Nat Nat) := [.new, .set 0 "x" (sweepArr "f")]

/-- The hypotheses of `C03_read_dimension` are met by a block in which `x` is a variable and an
array over a dimension `x`. -/
example : ∃ blk, (wrun envN {} histX).blocks[0]? = some blk ∧ Plain blk "y" (sweepArr "x") ∧
    "x" ∉ blk.ivars.map Prod.fst ∧ (sweepArr "x").dims = [] ++ sweep "x" :: [] := by
  refine ⟨_, rfl, ⟨by decide +kernel, by decide +kernel, ?_⟩, by decide +kernel, rfl⟩
  intro m i j h
  have : isMatrixName "y" = none := by decide +kernel
  simp [this] at h

/-- C03 fails for names that are used for a variable and a dimension: a stored variable `x` is
hidden by assigning an array over a dimension `x` to another name. -/
theorem C03_hidden_refuted :
    looks (wGetitem envN (wrun envN {} histX) 0 "x") = some (["f"], [100, 101, 102]) ∧
    looks (wGetitem envN (wrun envN {} (histX ++ [.set 0 "y" (sweepArr "x")])) 0 "x") =
      some (["x"], [10, 20, 30]) := by
  decide +kernel

end HF.DataBlock
