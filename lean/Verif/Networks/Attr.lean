import Verif.Networks.Convert
import Verif.DataBlock.ElemProps
import Verif.DataBlock.Convert
/-
Elements of port parameters as attributes: `x.S21`, `x.s21`.

repo: hftools/networks/multiports.py:47-57, 79-99, 195-208
-/
namespace HF.Networks

open HF.DataBlock HF.DataDict.Spec

variable {β α : Type}

/-- `shortname`.  repo: hftools/networks/multiports.py:256, 292, 330, 371, 405, 438, 472, 512 -/
def shortname : Rep → List Char
  | .Z => ['Z'] | .Y => ['Y'] | .S => ['S'] | .G => ['G'] | .H => ['H']
  | .ABCD => ['A'] | .T => ['T'] | .Tp => ['T', 'p']

/-- `[shortname.lower(), shortname.upper(), shortname]`.  repo: hftools/networks/multiports.py:92-93 -/
def attrNames (rep : Rep) : List (List Char) :=
  [(shortname rep).map Char.toLower, (shortname rep).map Char.toUpper, shortname rep]

/-- `"%s%d%d" % (name, i + 1, j + 1)`.  repo: hftools/networks/multiports.py:97 -/
def attrLabel (name : List Char) (i j : Nat) : String := String.ofList (name ++ dec (i + 1) ++ dec (j + 1))

/-- The assignments to `self._attrfuns`; an accessor is the pair of its indices.  The last length of
the array is used for both.
repo: hftools/networks/multiports.py:94-99 -/
def attrEntries (rep : Rep) (n : Nat) : List (String × Nat × Nat) :=
  (attrNames rep).flatMap fun name => (List.range n).flatMap fun i => (List.range n).map fun j =>
    (attrLabel name i j, i, j)

/-- An array of port parameters: class, `_attrfuns` and contents. -/
structure PArr (β α : Type) where
  rep : Rep
  attrs : OMap String (Nat × Nat)
  arr : Arr β α

/-- The object which the constructor makes: `_attrfuns` is filled if there are at least two axes.
repo: hftools/networks/multiports.py:88-99 -/
def PArr.init (rep : Rep) (x : Arr β α) : PArr β α :=
  ⟨rep, match x.nd.shape.reverse with | n :: _ :: _ => assigns [] (attrEntries rep n) | _ => [], x⟩

/-- The result of an arithmetic operation or a numpy function, which is not made by the constructor but
by `__array_finalize__`: it has the empty `_attrfuns` of the class.
repo: hftools/networks/multiports.py:84, 151-153 -/
def PArr.computed (rep : Rep) (x : Arr β α) : PArr β α := ⟨rep, [], x⟩

inductive AErr where
  | attributeError
  | other (e : DataBlock.Err)
  deriving DecidableEq, Repr

/-- `x.key` for a `key` that is not an attribute of the object otherwise; no such attribute is a name
followed by two numbers.  repo: hftools/networks/multiports.py:53-56, 195-199 -/
def PArr.getattr (env : Env β α) (x : PArr β α) (key : String) : Except AErr (Arr β α) :=
  match lookup x.attrs key with
  | none => .error .attributeError
  | some (i, j) =>
    match getElem env x.arr i j with
    | .ok a => .ok a
    | .error e => .error (.other e)

/-- `x.key = value` for such a `key`: the array got by `__getattr__` is a view, writing into it writes
the elements of the whole array.  repo: hftools/networks/multiports.py:53-56, 201-208 -/
def PArr.setattr (x : PArr β α) (key : String) (v : Arr β α) : Except AErr (PArr β α) :=
  match lookup x.attrs key with
  | none => .error .attributeError
  | some (i, j) =>
    match setElem x.arr i j v with
    | .ok a => .ok { x with arr := a }
    | .error e => .error (.other e)

end HF.Networks
