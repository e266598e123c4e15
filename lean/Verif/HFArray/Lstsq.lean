import Verif.HFArray.MatMul
/-
Model of `lstsq` for arrays of matrices.

repo: hftools/math.py:314-371, 427-437
-/
namespace HF

variable {α β : Type}

/-- `np.linalg.lstsq` for one matrix and its right hand sides, first part of the result. -/
abbrev Solver (α : Type) :=
  {p q t : Nat} → Matrix (Fin p) (Fin q) α → Matrix (Fin p) (Fin t) α → Matrix (Fin q) (Fin t) α

namespace Nd

/-- The loop of `lstsq`: the axes of the stacks are broadcast, and each matrix of the stack is solved for.  Numpy:
`LinAlgError` if the numbers of rows differ.  The result is written through views of the array that is returned, which
makes no difference.  For a stack without matrices the code first solves for whatever is in memory; that is left out.
repo: hftools/math.py:336-371, 429-436 -/
def lstsq [Zero α] (sol : Solver α) (A B : Nd α) : Except LErr (Nd α) :=
  match split2 A.shape, split2 B.shape with
  | some (sa, p, q), some (sb, n, t) =>
    match bshape sa sb with
    | .error _ => .error .valueError
    | .ok so =>
      if n = p then
        .ok ⟨so ++ [q, t], fun idx =>
          elemOf (sol (matOf A (bidx sa (idx.take so.length)) p q) (matOf B (bidx sb (idx.take so.length)) p t))
            (idx.getD so.length 0) (idx.getD (so.length + 1) 0)⟩
      else .error .linAlgError
  | _, _ => .error .linAlgError

end Nd

namespace Arr

/-- `lstsq(A, b, squeeze)`; `squeeze` is not used by the code.  The result gets the dims which `A` has after
`make_same_dims`.  repo: hftools/math.py:427-437 -/
def lstsq [Zero α] (sol : Solver α) (full : Arr β α → Arr β α) (A b : Arr β α) (_squeeze : Bool) : Except Nd.LErr (Arr β α) :=
  withSame full (Nd.lstsq sol) A b

end Arr
end HF
