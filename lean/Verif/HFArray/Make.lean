import Verif.HFArray.Model
/-
Model of making an array: `hfarray(data, dims=, unit=, outputformat=, info=)`.

repo: hftools/dataset/arrayobj.py:366-427, 461-466, 993-1005, hftools/dataset/dim.py:85-118
-/
namespace HF
namespace Make

variable {β α : Type}

/-- Kinds of elements: `is_integer`, `is_numlike`, neither.  repo: hftools/utils.py:66-77 -/
inductive Sort_ where
  | integer
  | number
  | other
  deriving DecidableEq

/-- An array with unit and format. -/
structure Made (β α : Type) where
  dims : List (Dim β)
  nd : Nd α
  unit : Option String
  fmt : String

/-- What an array is made from: a dim, an array, or an `ndarray` (or what numpy makes one from). -/
inductive Data (β α : Type) where
  | dim (d : Dim β)
  | array (m : Made β α)
  | plain (nd : Nd α)

/-- The arguments; `dtype`, `order`, `subok` and `ndmin` are left at their defaults. -/
structure Args (β : Type) where
  dims : Option (List (Dim β)) := none
  info : Option (List (Dim β)) := none
  unit : Option String := none
  fmt : Option String := none

inductive Err where
  | valueError
  | indexError
  | dimensionMismatch
  | shapeDimsMismatch
  deriving DecidableEq

/-- What numpy and Python know about the values: the kind of coordinates and elements, coordinates from the numbers of
`range`, and elements from coordinates (`asarray`). -/
structure Env (β α : Type) where
  coord : β → Sort_
  elems : Nd α → Sort_
  ofIdx : Nat → β
  value : β → α

/-- repo: hftools/dataset/arrayobj.py:411-419, hftools/dataset/dim.py:105-111 -/
def fmtOf : Sort_ → String
  | .integer => "%d"
  | .number => "%.16e"
  | .other => "%s"

/-- Property `outputformat` of dims: without a format the first datum decides.  repo: hftools/dataset/dim.py:103-112 -/
def dimFmt (env : Env β α) (d : Dim β) : Except Err String :=
  match d.outputformat with
  | some f => .ok f
  | none =>
    match d.data with
    | [] => .error .indexError
    | b :: _ => .ok (fmtOf (env.coord b))

/-- The elements of a dim.  repo: hftools/dataset/dim.py:85-93 -/
def dimNd (env : Env β α) (d : Dim β) : Nd α :=
  ⟨[d.data.length], fun i => env.value ((d.data[i.headD 0]?).getD (env.ofIdx 0))⟩

/-- The dims for arrays with up to two axes.  repo: hftools/dataset/arrayobj.py:369, 393-401 -/
def defaultDims (env : Env β α) : List Nat → Except Err (List (Dim β))
  | [] => .ok []
  | [n] => .ok [⟨.dimSweep, "freq", (List.range n).map env.ofIdx, none, none⟩]
  | [n, m] => .ok [⟨.dimSweep, "freq", (List.range n).map env.ofIdx, none, none⟩,
      ⟨.dimRep, "rep", (List.range m).map env.ofIdx, none, none⟩]
  | _ => .error .dimensionMismatch

/-- `_hfarray.__new__` with an array or `ndarray` `nd`, which has the dims, unit and format `own` if it is an array.
repo: hftools/dataset/arrayobj.py:371-427, 461-466 -/
def core (env : Env β α) (nd : Nd α) (own : Option (List (Dim β) × Option String × String)) (a : Args β) :
    Except Err (Made β α) :=
  if a.info.isSome ∧ a.dims.isSome then .error .valueError
  else
    let dims? : Except Err (List (Dim β)) :=
      match (if a.info.isSome then a.info else a.dims), own with
      | some ds, _ => .ok ds
      | none, some (ds, _) => .ok ds
      | none, none => defaultDims env nd.shape
    match dims? with
    | .error e => .error e
    | .ok ds =>
      if ds.length ≠ nd.ndim then .error .shapeDimsMismatch
      else
        let fmt := match a.fmt, own with
          | some f, _ => f
          | none, some (_, _, f) => f
          | none, none => fmtOf (env.elems nd)
        let unit := match a.unit, own with
          | none, some (_, u, _) => u
          | u, _ => u
        .ok ⟨ds, nd, unit, fmt⟩

/-- `hfarray(data, ...)`: of a dim the data and the dim itself are taken, whatever is given as `dims`.
repo: hftools/dataset/arrayobj.py:993-1005 -/
def make (env : Env β α) (data : Data β α) (a : Args β) : Except Err (Made β α) :=
  match data with
  | .plain nd => core env nd none a
  | .array m => core env m.nd (some (m.dims, m.unit, m.fmt)) a
  | .dim d =>
    match (match a.fmt with | some f => (Except.ok f : Except Err String) | none => dimFmt env d) with
    | .error e => .error e
    | .ok f => core env (dimNd env d) none
        { a with dims := some [d], unit := (if a.unit.isNone then d.unit else a.unit), fmt := some f }

end Make
end HF
