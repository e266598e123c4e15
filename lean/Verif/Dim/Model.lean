/-
Model of dimension objects.

repo: hftools/dataset/dim.py:38-290
-/
namespace HF

/-- The dimension classes.  repo: hftools/dataset/dim.py:47, 181-290.
Classes defined by a user are not modelled. -/
inductive Cls where
  | dimBase | diagAxis_ | indepAxis_ | derivAxis_ | indepAxis | derivAxis | diagAxis
  | dimAnonymous | dimSweep | dimRep | complexIndep | complexDeriv | complexDiag
  | dimMatrix_ | matIndepI | matDerivI | matI | matIndepJ | matDerivJ | matJ | dimPartial
  deriving DecidableEq, Repr

namespace Cls

/-- Base class.  repo: hftools/dataset/dim.py:47, 181, 193, 203, 213, 217, 221, 226, 230, 234,
238, 243, 248, 256, 260, 264, 268, 274, 278, 282, 288 -/
def parent : Cls → Option Cls
  | dimBase => none
  | diagAxis_ | indepAxis_ | derivAxis_ => some dimBase
  | indepAxis | complexIndep => some indepAxis_
  | derivAxis | complexDeriv => some derivAxis_
  | diagAxis | complexDiag => some diagAxis_
  | dimAnonymous | dimSweep | dimRep | dimMatrix_ => some diagAxis
  | dimPartial => some dimSweep
  | matIndepI | matDerivI | matI | matIndepJ | matDerivJ | matJ => some dimMatrix_

/-- Height of a class in the hierarchy, the recursion measure of `isSub`. -/
def depth : Cls → Nat
  | dimBase => 0
  | diagAxis_ | indepAxis_ | derivAxis_ => 1
  | indepAxis | complexIndep | derivAxis | complexDeriv | diagAxis | complexDiag => 2
  | dimAnonymous | dimSweep | dimRep | dimMatrix_ => 3
  | dimPartial | matIndepI | matDerivI | matI | matIndepJ | matDerivJ | matJ => 4

theorem depth_parent {c p : Cls} (h : c.parent = some p) : p.depth < c.depth := by
  cases c <;> simp [parent] at h <;> subst h <;> decide

/-- `issubclass(c, d)`: walk up the bases.  Python builtin. -/
def isSub (c d : Cls) : Bool :=
  if c = d then true
  else match h : c.parent with
    | none => false
    | some p => isSub p d
  termination_by c.depth
  decreasing_by exact depth_parent h

/-- Class attribute `sortprio`.
repo: hftools/dataset/dim.py:48, 182, 235, 239, 244, 249, 257, 261, 265, 271, 275, 279, 285 -/
def sortprio : Cls → Nat
  | dimRep => 1
  | complexIndep => 2001
  | complexDeriv => 2002
  | complexDiag => 2000
  | dimMatrix_ | matIndepI | matDerivI | matI | matIndepJ | matDerivJ => 1000
  | matJ => 1001
  | _ => 0

end Cls

/-- A dimension object.  `β` is the type of the coordinate values.
repo: hftools/dataset/dim.py:80-83.  The constructor's copy and flatten logic is
modelled by `Dim.mk'` below. -/
structure Dim (β : Type) where
  cls : Cls
  name : String
  data : List β
  unit : Option String := none
  outputformat : Option String := none
  deriving DecidableEq

namespace Dim

variable {β : Type}

def sortprio (d : Dim β) : Nat := d.cls.sortprio

/-- `isinstance(d, c)` for a dimension class `c`. -/
def isa (d : Dim β) (c : Cls) : Bool := d.cls.isSub c

/-- `cls(dim, data=, unit=, name=, outputformat=)`: copy from an existing dimension,
the keyword arguments which are not `None` take precedence.
repo: hftools/dataset/dim.py:50-83, with `Name` a `DimBase`.  Line 56 reads the property
`outputformat`, which replaces `None` by a default computed from the first value
(lines 103-112); that default is the parameter `dflt`. -/
def copyFrom (dflt : List β → String) (cls : Cls) (d : Dim β) (data : Option (List β) := none)
    (unit : Option String := none) (name : Option String := none)
    (outputformat : Option String := none) : Dim β where
  cls := cls
  name := name.getD d.name
  data := data.getD d.data
  unit := unit.or d.unit
  outputformat := outputformat.or (some (d.outputformat.getD (dflt d.data)))

/-- The result of a comparison of a dimension with any other object: either another
dimension or a string (all other objects compare as unequal and are not modelled). -/
inductive Obj (β : Type) where
  | dim (d : Dim β)
  | str (s : String)

/-- `DimBase.__eq__` for another dimension: the sixth component of *both* tuples is
`self._outputformat`.  repo: hftools/dataset/dim.py:131-140 -/
def eqDim [DecidableEq β] (a b : Dim β) : Bool :=
  decide ((a.sortprio, a.name, a.cls, a.data, a.unit, a.outputformat) =
          (b.sortprio, b.name, b.cls, b.data, b.unit, a.outputformat))

/-- Python's `x == y`.  For `str == dim` the string's `__eq__` returns `NotImplemented`
and python calls the dimension's with swapped arguments.
repo: hftools/dataset/dim.py:131-140 -/
def pyEq [DecidableEq β] : Obj β → Obj β → Bool
  | .dim a, .dim b => eqDim a b
  | .dim a, .str s => decide (a.name = s)
  | .str s, .dim a => decide (a.name = s)
  | .str s, .str t => decide (s = t)

/-- `DimBase.__hash__`: the hash of the tuple of all six fields, for an arbitrary
hash function `H` of tuples.  repo: hftools/dataset/dim.py:147-149 -/
def hash {γ : Type} (H : Nat × String × Cls × List β × Option String × Option String → γ)
    (a : Dim β) : γ :=
  H (a.sortprio, a.name, a.cls, a.data, a.unit, a.outputformat)

/-- Python's `<` on strings or on values of the data tuple (`none` is `TypeError`), on
`None`/`str`, lifted to the tuple comparison of `DimBase.__lt__`: the first differing
component decides; classes are never ordered.
repo: hftools/dataset/dim.py:120-129 -/
def lt [DecidableEq β] (ltData : List β → List β → Bool) (a b : Dim β) : Option Bool :=
  if a.sortprio ≠ b.sortprio then some (decide (a.sortprio < b.sortprio))
  else if a.name ≠ b.name then some (decide (a.name < b.name))
  else if a.cls ≠ b.cls then none
  else if a.data ≠ b.data then some (ltData a.data b.data)
  else if a.unit ≠ b.unit then
    match a.unit, b.unit with
    | some u, some v => some (decide (u < v))
    | _, _ => none
  else some false

/-- `dims_has_complex`.  repo: hftools/dataset/dim.py:25-30 -/
def hasComplex (dims : List (Dim β)) : Bool :=
  dims.reverse.any fun d => d.isa .complexDeriv || d.isa .complexIndep || d.isa .complexDiag

end Dim

namespace Cls

/-- Class attribute `_indep_axis` (inherited).
repo: hftools/dataset/dim.py:221-223, 248-251, 268-270, 282-284 -/
def indepAttr : Cls → Option Cls
  | complexDiag => some complexIndep
  | matI => some matIndepI
  | matJ => some matIndepJ
  | diagAxis | dimAnonymous | dimSweep | dimRep | dimPartial | dimMatrix_
  | matIndepI | matDerivI | matIndepJ | matDerivJ => some indepAxis
  | _ => none

/-- Property `indep_axis`: class of the result; `none` is `AttributeError`.
repo: hftools/dataset/dim.py:184-186, 208-210; the attribute `_indep_axis` of the
derivative classes is set by the metaclass, 169-177. -/
def indepAxisOf : Cls → Option Cls
  | derivAxis => some indepAxis
  | complexDeriv => some complexIndep
  -- the metaclass sets `_indep_axis` on the `_Deriv_` matrix classes
  | matDerivI => some matIndepI
  | matDerivJ => some matIndepJ
  | c => if c.isSub diagAxis_ then c.indepAttr else none

/-- Class attribute `_deriv_axis` (inherited).
repo: hftools/dataset/dim.py:221-223, 248-251, 268-270, 282-284 -/
def derivAttr : Cls → Option Cls
  | complexDiag => some complexDeriv
  | matI => some matDerivI
  | matJ => some matDerivJ
  | diagAxis | dimAnonymous | dimSweep | dimRep | dimPartial | dimMatrix_
  | matIndepI | matDerivI | matIndepJ | matDerivJ => some derivAxis
  | _ => none

/-- Property `deriv_axis`: class of the result; `none` is `AttributeError`.
repo: hftools/dataset/dim.py:188-190, 198-200; the attribute `_deriv_axis` of the
independent classes is set by the metaclass, 169-177. -/
def derivAxisOf : Cls → Option Cls
  | indepAxis => some derivAxis
  | complexIndep => some complexDeriv
  -- the metaclass sets `_deriv_axis` on the `_Indep_` matrix classes
  | matIndepI => some matDerivI
  | matIndepJ => some matDerivJ
  | c => if c.isSub diagAxis_ then c.derivAttr else none

/-- Property `diag_axis`, only defined on `_IndepAxis` and `_DerivAxis`; the attribute is
set by the metaclass for the first class naming the axis.
repo: hftools/dataset/dim.py:169-177, 193-210 -/
def diagAxisOf : Cls → Option Cls
  | indepAxis | derivAxis => some diagAxis
  | complexIndep | complexDeriv => some complexDiag
  | _ => none

end Cls
end HF
