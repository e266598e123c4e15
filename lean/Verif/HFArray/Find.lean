import Verif.HFArray.Model
/-
Model of finding dims in the dims of an array and in lists of dims.

repo: hftools/dataset/arrayobj.py:42-90
-/
namespace HF
namespace Find

open HF.Arr

variable {β : Type}

/-- What is asked for: a dim, a text, or any other object. -/
inductive Asked (β : Type) where
  | dim (d : Dim β)
  | str (s : String)
  | other

/-- `Dims`, the dims of an array, and `DimsList`. -/
inductive Kind where
  | tuple
  | list
  deriving DecidableEq

inductive Err where
  | keyError
  | valueError
  deriving DecidableEq

/-- `value in dims`: `Dims` makes a dim of class `DimBase` from a text (its data is not looked at).
repo: hftools/dataset/arrayobj.py:43-51, 69-75 -/
def has (kind : Kind) (dims : List (Dim β)) : Asked β → Bool
  | .dim d => containsDim dims d
  | .str s => if kind = .tuple then containsDim dims ⟨.dimBase, s, [], none, none⟩ else false
  | .other => false

/-- The loop of `get_matching_dim`.  repo: hftools/dataset/arrayobj.py:55-57, 79-81 -/
def firstMatch : List (Dim β) → Dim β → Option (Dim β)
  | [], _ => none
  | x :: t, v => if matches_ x v then some x else firstMatch t v

/-- `dims.get_matching_dim(value)`.  repo: hftools/dataset/arrayobj.py:53-58, 77-82 -/
def getMatching (dims : List (Dim β)) : Asked β → Except Err (Dim β)
  | .dim d =>
    match firstMatch dims d with
    | some x => .ok x
    | none => .error .keyError
  | _ => .error .keyError

/-- `dims.matching_index(value)`.  repo: hftools/dataset/arrayobj.py:60-65, 84-89 -/
def matchIndex (dims : List (Dim β)) : Asked β → Except Err Nat
  | .dim d =>
    match matchingIndex dims d with
    | some i => .ok i
    | none => .error .keyError
  | _ => .error .keyError

/-- The loop of `tuple.index`, Python builtin: the first element that is equal. -/
def indexLoop [DecidableEq β] : List (Dim β) → Dim.Obj β → Option Nat
  | [], _ => none
  | x :: t, v => if Dim.pyEq (.dim x) v then some 0 else (indexLoop t v).map (· + 1)

/-- `dims.index(value)`, not overridden in `Dims` and `DimsList`; other objects (without attributes of dims) are equal to
no dim with a text as its name.  repo: hftools/dataset/arrayobj.py:42, 68; hftools/dataset/dim.py:131-140 -/
def index [DecidableEq β] (dims : List (Dim β)) (v : Asked β) : Except Err Nat :=
  let r := match v with
    | .dim d => indexLoop dims (.dim d)
    | .str s => indexLoop dims (.str s)
    | .other => none
  match r with
  | some i => .ok i
  | none => .error .valueError

end Find
end HF
