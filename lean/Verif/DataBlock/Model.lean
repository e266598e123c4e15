import Verif.DataDict.Spec
import Verif.HFArray.Index
/-
Model of `DataBlock`, the collection of variables with their dimensions.

repo: hftools/dataset/dataset.py:181-400

The two `DataDict`s of a block are represented by the ordered maps which they refine
(`C01_history`), with the operations `lookup`, `member`, `assign`, `remove` and
`rename` of `Verif/DataDict/Spec.lean`.
-/
namespace HF.DataBlock

open HF.DataDict.Spec

/-! ### Names of matrix elements -/

/-- `[_A-Za-z]` -/
def isLetter (c : Char) : Bool :=
  c == '_' || (decide ('A' ≤ c) && decide (c ≤ 'Z')) || (decide ('a' ≤ c) && decide (c ≤ 'z'))

/-- `[0-9]` -/
def isDig (c : Char) : Bool := decide ('0' ≤ c) && decide (c ≤ '9')

/-- `int(c)` of a digit. -/
def digVal (c : Char) : Nat := c.toNat - 48

/-- The regular expression `([_A-Za-z]([_A-Za-z0-9]*[_A-Za-z])?)([0-9][0-9])` matches at the
beginning of `s` with a first group of length `k`.
repo: hftools/dataset/dataset.py:181-182 -/
def matAt (s : List Char) (k : Nat) : Bool :=
  decide (1 ≤ k) && (s.take k).all (fun c => isLetter c || isDig c)
    && (s[0]?).any isLetter && (s[k - 1]?).any isLetter
    && (s[k]?).any isDig && (s[k + 1]?).any isDig

/-- `is_matrix_name`: matching is greedy, so the longest possible first group is taken; the
end of the string is not anchored.  `none` is `(None, None)`.
repo: hftools/dataset/dataset.py:185-190 -/
def matrixName (s : List Char) : Option (List Char × Int × Int) :=
  match (List.range s.length).reverse.find? (matAt s) with
  | some k => some (s.take k, (digVal (s.getD k ' ') : Int) - 1,
      (digVal (s.getD (k + 1) ' ') : Int) - 1)
  | none => none

/-- `is_matrix_name` for strings. -/
def isMatrixName (s : String) : Option (String × Int × Int) :=
  match matrixName s.toList with
  | some (m, i, j) => some (String.ofList m, i, j)
  | none => none

/-! ### Arrays -/

variable {β α : Type}

/-- What is needed of coordinate values and array elements: conversion from one to the other
(`np.asarray(dim.data)`, `value.tolist()`) and the default output formats
(hftools/dataset/dim.py:103-112). -/
structure Env (β α : Type) where
  toVal : β → α
  toCoord : α → β
  junk : α
  dflt : β → String
  dfltDim : List β → String

inductive Err where
  | keyError
  | attributeError
  | valueError
  | indexError
  deriving DecidableEq, Repr

def ofArr {δ : Type} : Except Arr.Err δ → Except Err δ
  | .ok a => .ok a
  | .error .keyError => .error .keyError
  | .error .indexError => .error .indexError
  | .error _ => .error .valueError

/-- `hfarray(dim)`: one-dimensional array of the coordinate values.
repo: hftools/dataset/arrayobj.py:371-426, hftools/dataset/dim.py:88-96 -/
def ofDim (env : Env β α) (d : Dim β) : Arr β α :=
  ⟨[d], ⟨[d.data.length], fun idx => (d.data.map env.toVal).getD (idx.headD 0) env.junk⟩⟩

/-- `ismatrix`: there is a `DimMatrix_i` and a `DimMatrix_j`, anywhere.
repo: hftools/dataset/arrayobj.py:325-338.  The two classes are not related, so the `elif`
does not matter. -/
def ismatrix (x : Arr β α) : Bool := x.dims.any (fun d => d.isa .matI) && x.dims.any (fun d => d.isa .matJ)

/-- `x.replace_dim(olddim, newdim)`: every dim with the name of `olddim` is replaced, the
array object is changed in place; neither lengths nor names are checked.
repo: hftools/dataset/arrayobj.py:356-363, 484-491 -/
def replaceDimArr (old new : Dim β) (x : Arr β α) : Arr β α :=
  ⟨x.dims.map fun d => if old.name = d.name then new else d, x.nd⟩

/-- numpy broadcasting of a value of shape `vs` to a shape: trailing axes are aligned, an
axis of length one is repeated, additional leading axes of the value must have length one.
Arguments are reversed shapes. -/
def bcastOk : List Nat → List Nat → Bool
  | [], _ => true
  | v :: vs, [] => v == 1 && bcastOk vs []
  | v :: vs, s :: ss => (v == 1 || v == s) && bcastOk vs ss

/-- The (reversed) index into the value for a (reversed) index of the target. -/
def bcastIdx : List Nat → List Nat → List Nat
  | [], _ => []
  | _ :: vs, [] => 0 :: bcastIdx vs []
  | v :: vs, i :: is => (if v = 1 then 0 else i) :: bcastIdx vs is

/-- `x[..., i, j] = value`.  There is no `__setitem__` in `hfarray`, so this is numpy's: the
dims of the value are ignored, it is broadcast by position.
repo: hftools/dataset/dataset.py:330-331 -/
def setElem (x : Arr β α) (i j : Int) (v : Arr β α) : Except Err (Arr β α) :=
  match x.nd.shape.reverse with
  | q :: p :: sh =>
    match Nd.normAxis p i, Nd.normAxis q j with
    | some a, some b =>
      if bcastOk v.nd.shape.reverse sh then
        .ok ⟨x.dims, ⟨x.nd.shape, fun idx =>
          if idx.drop sh.length = [a, b] then
            v.nd.get (bcastIdx v.nd.shape.reverse (idx.take sh.length).reverse).reverse
          else x.nd.get idx⟩⟩
      else .error .valueError
    | _, _ => .error .indexError
  | _ => .error .indexError

/-! ### One block, without sharing of arrays -/

/-- `DataBlock`; name, comments and report settings are not modelled.
repo: hftools/dataset/dataset.py:201-213 -/
structure Block (β α : Type) where
  vars : OMap String (Arr β α) := []
  ivars : OMap String (Dim β) := []
  xname : Option String := none

/-- `x[..., i, j]` of an array; with an `Ellipsis` the result always is an array. -/
def getElem (env : Env β α) (x : Arr β α) (i j : Int) : Except Err (Arr β α) :=
  match ofArr (x.getitem env.dflt [.ellipsis, .int i, .int j]) with
  | .ok (.arr a) => .ok a
  | .ok _ => .error .valueError
  | .error e => .error e

/-- `block[key]`.  repo: hftools/dataset/dataset.py:284-303 -/
def getitem (env : Env β α) (b : Block β α) (key : String) : Except Err (Arr β α) :=
  match lookup b.ivars key with
  | some d => .ok (ofDim env d)
  | none =>
    match lookup b.vars key with
    | some a => .ok a
    | none =>
      match isMatrixName key with
      | none => .error .keyError
      | some (m, i, j) =>
        match lookup b.vars m with
        | none => .error .keyError
        | some data => if ismatrix data then getElem env data i j else .error .keyError

/-- `key in block`.  repo: hftools/dataset/dataset.py:356-357 -/
def contains (b : Block β α) (key : String) : Bool := member b.vars key || member b.ivars key

/-- `del block[key]`: only dependent variables.  repo: hftools/dataset/dataset.py:311-313 -/
def delitem (b : Block β α) (key : String) : Block β α :=
  if member b.vars key then { b with vars := remove b.vars key } else b

/-- `ivardata.rename(old, new); ivardata[new] = newdim`, for `old` present.
repo: hftools/dataset/dataset.py:237-238 -/
def renameIvar (ivars : OMap String (Dim β)) (old : Dim β) (new : Dim β) :
    Option (OMap String (Dim β)) :=
  match lookup ivars old.name with
  | none => none
  | some v => some (assign (rename ivars old.name new.name v) new.name new)

/-- `block.replace_dim(olddim, newdim)` for two dimension objects; `none` is `KeyError`.
repo: hftools/dataset/dataset.py:223-240 -/
def replaceDim (b : Block β α) (old new : Dim β) : Option (Block β α) :=
  match renameIvar b.ivars old new with
  | none => none
  | some iv => some { b with ivars := iv, vars := b.vars.map fun p => (p.1, replaceDimArr old new p.2) }

/-- `block.replace_dim(name, newdim)`.  repo: hftools/dataset/dataset.py:224-230 -/
def replaceDimName (b : Block β α) (old : String) (new : Dim β) : Option (Block β α) :=
  match lookup b.ivars old with
  | none => none
  | some d => replaceDim b d new

/-- `block.rename(old, new)`.  repo: hftools/dataset/dataset.py:242-250 -/
def renameVar (env : Env β α) (b : Block β α) (old new : String) : Block β α × Except Err Unit :=
  match lookup b.ivars old with
  | some d =>
    match replaceDim b d (Dim.copyFrom env.dfltDim d.cls d (name := some new)) with
    | some b' => (b', .ok ())
    | none => (b, .error .keyError)
  | none =>
    match lookup b.vars old with
    | some v => ({ b with vars := rename b.vars old new v }, .ok ())
    | none => (b, .ok ())

/-- `for dim in value.dims: if dim.name not in ivardata: ivardata[dim.name] = dim`.
repo: hftools/dataset/dataset.py:342-344 -/
def addDims (ivars : OMap String (Dim β)) (dims : List (Dim β)) : OMap String (Dim β) :=
  dims.foldl (fun iv d => if member iv d.name then iv else assign iv d.name d) ivars

/-- `if self._xname is None and value.dims: ... else: self._xname = None`.
repo: hftools/dataset/dataset.py:324-327 -/
def nextXname (x : Option String) (dims : List (Dim β)) : Option String :=
  match x, dims with
  | none, d :: _ => some d.name
  | _, _ => none

/-- All elements of a one-dimensional array, `value.tolist()`. -/
def toCoords (env : Env β α) (v : Arr β α) : List β :=
  (List.range (Nd.size v.nd.shape)).map fun k => env.toCoord (v.nd.get (Nd.unravel v.nd.shape k))

/-- `block[key] = dim`.  repo: hftools/dataset/dataset.py:319-322 -/
def setDim (b : Block β α) (key : String) (d : Dim β) : Block β α :=
  { b with ivars := assign b.ivars key d, xname := some (b.xname.getD d.name) }

/-- The base variable that an assignment to `key` writes an element of, if any.
repo: hftools/dataset/dataset.py:328-329 -/
def elemTarget (vars : String → Bool) (key : String) (v : Arr β α) : Option (String × Int × Int) :=
  match isMatrixName key with
  | some (m, i, j) => if vars m && !ismatrix v then some (m, i, j) else none
  | none => none

/-- `block[key] = value` for an array.
repo: hftools/dataset/dataset.py:323-344 -/
def setArr (env : Env β α) (b : Block β α) (key : String) (v : Arr β α) :
    Block β α × Except Err Unit :=
  let b := { b with xname := nextXname b.xname v.dims }
  match elemTarget (member b.vars) key v with
  | some (m, i, j) =>
    match lookup b.vars m with
    | none => (b, .error .keyError)
    | some x =>
      match setElem x i j v with
      | .ok x' => ({ b with vars := assign b.vars m x' }, .ok ())
      | .error e => (b, .error e)
  | none =>
    match lookup b.ivars key with
    | some old =>
      if v.dims.length = 1 then
        match replaceDim b old (Dim.copyFrom env.dfltDim old.cls old (data := some (toCoords env v))) with
        | some b' => ({ b' with ivars := addDims b'.ivars v.dims }, .ok ())
        | none => (b, .error .keyError)
      else (b, .error .attributeError)
    | none => ({ b with vars := assign b.vars key v, ivars := addDims b.ivars v.dims }, .ok ())

/-- `[value for name in names if name in block]` assigned to a new block, `keep_variables`.
Here arrays are values, for the sharing of the array objects see `World`.
repo: hftools/dataset/dataset.py:215-221 -/
def keepVariables (env : Env β α) (b : Block β α) (names : List String) :
    Except Err (Block β α) :=
  names.foldl (fun acc n => match acc with
    | .error e => .error e
    | .ok out =>
      if contains b n then
        match getitem env b n with
        | .ok v => match setArr env out n v with
          | (out', .ok _) => .ok out'
          | (_, .error e) => .error e
        | .error e => .error e
      else .ok out) (.ok {})

end HF.DataBlock
