import Verif.DataBlock.FilterSort
/-
Model of `interpolate` for blocks and arrays.

repo: hftools/dataset/dataset.py:722-756
-/
namespace HF.DataBlock

open HF.DataDict.Spec
open HF.Arr (matchingIndex)

variable {β α : Type}

/-- The modes: `None` or `"none"`, `"linear"`, anything else. -/
inductive Mode where
  | none
  | linear
  | unknown
  deriving DecidableEq, Repr

/-- The values of `y` along axis `ax` through `idx`. -/
def fibreAt (y : Nd α) (ax n : Nat) (idx : List Nat) : List α :=
  (List.range n).map fun k => y.get (idx.set ax k)

/-- One value of `interp1d`. -/
def interpGet (lin : List β → List α → β → Option α) (junk : α) (xs : List β) (y : Nd α) (ax : Nat)
    (new : List β) (idx : List Nat) : α :=
  match new[idx.getD ax 0]? with
  | some t => (lin xs (fibreAt y ax xs.length idx) t).getD junk
  | none => junk

/-- `interp1d(x, y, axis)(newx)`: scipy builtin.  `lin xs ys t` is the value for one line along
the axis, `none` its `ValueError` (out of range, or too few points). -/
def interp1d (lin : List β → List α → β → Option α) (junk : α) (xs : List β) (y : Nd α) (ax : Nat)
    (new : List β) : Except Nd.Err (Nd α) :=
  if y.shape.getD ax 0 ≠ xs.length then .error .valueError
  else if (List.range (Nd.size (y.shape.set ax 1))).all fun n =>
      new.all fun t => (lin xs (fibreAt y ax xs.length (Nd.unravel (y.shape.set ax 1) n)) t).isSome then
    .ok ⟨y.shape.set ax new.length, interpGet lin junk xs y ax new⟩
  else .error .valueError

/-- `np.array(newx.data)[:, None] == np.array(oldx.data)[None, :]`, then `any(axis=0)`.
repo: hftools/dataset/dataset.py:742-743 -/
def hits [DecidableEq β] (new old : List β) : List Bool := old.map fun c => new.any fun t => t == c

/-- `interpolate(newx, y, mode)` for a dim `newx`.  repo: hftools/dataset/dataset.py:729-756;
an array for `newx` has to have one dim, which is then used (732-735); attribute
`interpolationmode` of arrays is not modelled -/
def interpolate [DecidableEq β] (lenient : Bool) (lin : List β → List α → β → Option α) (junk : α)
    (mode : Mode) (newx : Dim β) (y : Arr β α) : Except Arr.Err (Arr β α) :=
  match matchingIndex y.dims newx with
  | none => .ok y
  | some k =>
    match y.dims[k]? with
    | none => .error .indexError
    | some oldx =>
      match mode with
      | .none =>
        let mask := hits newx.data oldx.data
        if mask.count true ≠ newx.data.length then .error .valueError
        else
          match Arr.ofNd (maskFirst lenient y.nd mask) with
          | .error e => .error e
          | .ok nd => Arr.mk? nd (y.dims.set k newx)
      | .linear =>
        match Arr.ofNd (interp1d lin junk oldx.data y.nd k newx.data) with
        | .error e => .error e
        | .ok nd => Arr.mk? nd (y.dims.set k newx)
      | .unknown => .error .valueError

/-- The loop of `block.interpolate`.  repo: hftools/dataset/dataset.py:724-725 -/
def interpolateLoop [DecidableEq β] (env : Env β α) (lenient : Bool)
    (lin : List β → List α → β → Option α) (mode : Mode) (newx : Dim β) (b : Block β α) :
    Block β α → List String → Except Err (Block β α)
  | out, [] => .ok out
  | out, n :: ns =>
    match getitem env b n with
    | .error e => .error e
    | .ok v =>
      match ofArr (interpolate lenient lin env.junk mode newx v) with
      | .error e => .error e
      | .ok u =>
        match setArr env out n u with
        | (_, .error e) => .error e
        | (out', .ok _) => interpolateLoop env lenient lin mode newx b out' ns

/-- `block.interpolate(newx, mode)`.  repo: hftools/dataset/dataset.py:722-726 -/
def interpolateBlock [DecidableEq β] (env : Env β α) (lenient : Bool)
    (lin : List β → List α → β → Option α) (mode : Mode) (newx : Dim β) (b : Block β α) :
    Except Err (Block β α) :=
  interpolateLoop env lenient lin mode newx b {} (b.vars.map Prod.fst)

end HF.DataBlock
