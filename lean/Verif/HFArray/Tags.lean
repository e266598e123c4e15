/-
Model of what happens to the unit and the output format of arrays in calculations.

repo: hftools/dataset/arrayobj.py:341-353, 407-426, 456-459, 493-526, 576-676, 693-901

Not modelled: the values and dims (other models), arrays of different classes, dims of complex parts, indexing with new axes
or down to a single element (results without attributes), results without dims, which numpy may give as numbers, and
`dimerror=False` (the array itself).
-/
namespace HF
namespace Tags

/-- Unit and format of an array; a format of `none` is the one that follows from the kind of elements (407-419). -/
structure Tag where
  unit : Option String
  fmt : Option String
  deriving DecidableEq

/-- Methods that make an array from a numpy view or result of the same class, which has the attributes by
`__array_finalize__`, or set them explicitly (indexing, without new axes). -/
inductive Same where
  | view | copy | transpose | reorder | squeeze | index | abs | neg
  deriving DecidableEq

/-- Methods that make an array from `np.asarray(self)`. -/
inductive Reduce where
  | sum | mean | std | var | min | max | cumsum | cumprod
  deriving DecidableEq

inductive Bin where
  | add | sub | mul | div | pow
  deriving DecidableEq

/-- Calculations with arrays of one class and numbers. -/
inductive Ex where
  | arr (i : Nat)
  | same (op : Same) (e : Ex)
  | reduce (op : Reduce) (e : Ex)
  | bin (op : Bin) (a b : Ex)
  | numR (op : Bin) (a : Ex)
  | numL (op : Bin) (a : Ex)
  deriving DecidableEq

/-- `__array_finalize__`: from the object the new one is made from.  repo: hftools/dataset/arrayobj.py:456-459 -/
def finalize (obj : Tag) : Tag := ⟨obj.unit, obj.fmt⟩

/-- `hfarray(data, dims=dims)` of a numpy array without attributes.  repo: hftools/dataset/arrayobj.py:407-426 -/
def fresh : Tag := ⟨none, none⟩

/-- repo: hftools/dataset/arrayobj.py:493-526 (view, reorder, transpose), 576-589 (squeeze), 591-599 and 605-676 (indexing),
760-769 (abs, neg, copy) -/
def sameTag (_ : Same) (t : Tag) : Tag := finalize t

/-- repo: hftools/dataset/arrayobj.py:779-901 -/
def reduceTag (_ : Reduce) (_ : Tag) : Tag := fresh

/-- Two arrays: both get the dims of both (`change_shape`: view and transpose), and numpy makes the result from the first.
repo: hftools/dataset/arrayobj.py:203-230, 341-353, 693-715 -/
def binTag (_ : Bin) (a _ : Tag) : Tag := finalize (finalize a)

/-- A number on the right, as it is.  repo: hftools/dataset/arrayobj.py:348-349, 693-715 -/
def numRTag (_ : Bin) (a : Tag) : Tag := finalize a

/-- A number on the left: `__radd__` and `__rmul__` are the operations with exchanged arguments, `__rsub__` that of the
negative, and `__rdiv__` and `__rpow__` the numpy functions, with one array.  repo: hftools/dataset/arrayobj.py:732-758 -/
def numLTag : Bin → Tag → Tag
  | .add, a => numRTag .add a
  | .mul, a => numRTag .mul a
  | .sub, a => numRTag .add (sameTag .neg a)
  | .div, a => finalize a
  | .pow, a => finalize a

/-- Unit and format of the result, with those of the given arrays. -/
def tag (env : Nat → Tag) : Ex → Tag
  | .arr i => env i
  | .same op e => sameTag op (tag env e)
  | .reduce op e => reduceTag op (tag env e)
  | .bin op a b => binTag op (tag env a) (tag env b)
  | .numR op a => numRTag op (tag env a)
  | .numL op a => numLTag op (tag env a)

end Tags
end HF
