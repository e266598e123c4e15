import Verif.DataBlock.World
/-
Model of the values of the x axis of a block, `block.xvalue`.

repo: hftools/dataset/dataset.py:272-303
-/
namespace HF.DataBlock

variable {β α : Type}

inductive XErr where
  /-- there is no block -/
  | noBlock
  /-- `self[None]`: neither in the dimensions nor in the variables, and `reg_matrix_name.match(None)` raises. -/
  | typeError
  | item (e : Err)
  deriving DecidableEq

/-- `block.xname`.  repo: hftools/dataset/dataset.py:272-274 -/
def xname (w : World β α) (b : Nat) : Option String := (w.blocks[b]?).bind RBlock.xname

/-- `block.xvalue`: `self[self._xname]`.  repo: hftools/dataset/dataset.py:280-282, 284-303, 185-190 -/
def xvalue (env : Env β α) (w : World β α) (b : Nat) : Except XErr (Arr β α) :=
  match w.blocks[b]? with
  | none => .error .noBlock
  | some blk =>
    match blk.xname with
    | none => .error .typeError
    | some n =>
      match wGetitem env w b n with
      | .ok a => .ok a
      | .error e => .error (.item e)

end HF.DataBlock
