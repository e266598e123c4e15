import Mathlib.Analysis.Complex.Basic
import Mathlib.Analysis.SpecialFunctions.Pow.Real
import Verif.HFArray.Model
/-
The root of the sum of squares along axes.

repo: hftools/dataset/arrayobj.py:771-777
-/
namespace HF.Arr

variable {β α γ : Type}

/-- A function of numpy on every element; the dims stay. -/
def eachElem (f : α → γ) (x : Arr β α) : Arr β γ := ⟨x.dims, ⟨x.nd.shape, fun i => f (x.nd.get i)⟩⟩

/-- `rss`: `(abs(self) ** 2).sum(axis) ** 0.5`, with exact numbers instead of floats.
repo: hftools/dataset/arrayobj.py:771-777 -/
noncomputable def rss [DecidableEq β] (x : Arr β ℂ) (axes : Option (List (Axis β))) : Except Err (Arr β ℝ) :=
  match reduce List.sum (eachElem (fun z : ℂ => ‖z‖ ^ 2) x) axes with
  | .error e => .error e
  | .ok r => .ok (eachElem (fun s : ℝ => s ^ (0.5 : ℝ)) r)

end HF.Arr
