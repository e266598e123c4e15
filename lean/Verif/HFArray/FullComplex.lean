import Mathlib.Data.Complex.Basic
import Verif.HFArray.Spec
/-
Model of the representation of complex data by real 2x2 matrices.

repo: hftools/dataset/arrayobj.py:296-323
-/
namespace HF
namespace Arr

variable {β : Type}

/-- `CPLX`; `bit` embeds the coordinate values 0 and 1.  repo: hftools/dataset/dim.py:253 -/
def cplx (bit : Nat → β) : List (Dim β) :=
  [⟨.complexIndep, "cplx", [bit 0, bit 1], none, none⟩,
   ⟨.complexDeriv, "cplx", [bit 0, bit 1], none, none⟩]

/-- What is stored at `[..., i, j]` for complex data.
repo: hftools/dataset/arrayobj.py:308-311 -/
def cEntry (z : ℂ) (i j : Nat) : ℝ :=
  match i, j with
  | 0, 0 => z.re
  | 1, 1 => z.re
  | 0, 1 => -z.im
  | 1, 0 => z.im
  | _, _ => 0

/-- What is stored at `[..., i, j]` for real data.
repo: hftools/dataset/arrayobj.py:301, 312-313 -/
def rEntry (a : ℝ) (i j : Nat) : ℝ :=
  match i, j with
  | 0, 0 => a
  | _, _ => 0

/-- `make_fullcomplex_array(a)` for complex data, `a` without complex dims.
repo: hftools/dataset/arrayobj.py:300-314 -/
noncomputable def fullOfComplex (bit : Nat → β) (x : Arr β ℂ) : Arr β ℝ :=
  ⟨x.dims ++ cplx bit, ⟨x.nd.shape ++ [2, 2], fun idx =>
    cEntry (x.nd.get (idx.take x.nd.ndim)) (idx.getD x.nd.ndim 0) (idx.getD (x.nd.ndim + 1) 0)⟩⟩

/-- `make_fullcomplex_array(a)` for real data.  repo: hftools/dataset/arrayobj.py:300-314 -/
noncomputable def fullOfReal (bit : Nat → β) (x : Arr β ℝ) : Arr β ℝ :=
  ⟨x.dims ++ cplx bit, ⟨x.nd.shape ++ [2, 2], fun idx =>
    rEntry (x.nd.get (idx.take x.nd.ndim)) (idx.getD x.nd.ndim 0) (idx.getD (x.nd.ndim + 1) 0)⟩⟩

/-- An array which has complex dims already is returned as it is.
repo: hftools/dataset/arrayobj.py:298-299, 318-322 -/
noncomputable def makeFullOfReal (bit : Nat → β) (x : Arr β ℝ) : Arr β ℝ :=
  if Dim.hasComplex x.dims then x else fullOfReal bit x

end Arr
end HF
