import Verif.DataBlock.Lemmas
/-
Normalising the names of variables.

repo: hftools/file_formats/common.py:231-309
-/
namespace HF.Readers.Normalize

open HF.DataBlock
open HF.DataDict.Spec

variable {β α : Type}

/-- `_trtable`.  repo: hftools/file_formats/common.py:231-249 -/
def trtable : List (String × String) :=
  [("b1/a1 raw", "b11"), ("b1/a2 raw", "b12"), ("b2/a1 raw", "b21"), ("b2/a2 raw", "b22"),
   ("a1 raw", "a11"), ("a1/a2 raw", "a12"), ("a2/a1 raw", "a21"), ("a2 raw", "a22"),
   ("b1/a1", "b11"), ("b1/a2", "b12"), ("b2/a1", "b21"), ("b2/a2", "b22"),
   ("a1", "a11"), ("a1/a2", "a12"), ("a2/a1", "a21"), ("a2", "a22"),
   ("Freq[Hz]", "freq"), ("Frequency", "freq"), ("Freq", "freq")]

/-- `for old, new in _trtable.items(): ...`; `data` is the block that was given, `out` its copy.
The order of a python 2 dictionary is arbitrary, so the table is a parameter.
repo: hftools/file_formats/common.py:291-294 -/
def tableStep (env : Env β α) (data : Block β α) : Block β α → List (String × String) →
    Except Err (Block β α)
  | out, [] => .ok out
  | out, e :: t =>
    if contains data e.1 && contains data e.2 then tableStep env data out t
    else
      match renameVar env out e.1 e.2 with
      | (out', .ok _) => tableStep env data out' t
      | (_, .error x) => .error x

/-- The argument of a call of `f`, by the regular expression `^([a-zA-Z0-9_]+)\((.+)\)$`: `$` also
matches before a line break at the end, `.` is not a line break.
repo: hftools/file_formats/common.py:252, 274-277 -/
def enclosed (f s : List Char) : Option (List Char) :=
  if (f ++ ['(']).isPrefixOf s then
    let t := s.drop (f.length + 1)
    let t := if t.getLast? = some '\n' then t.dropLast else t
    if t.getLast? = some ')' ∧ 2 ≤ t.length ∧ '\n' ∉ t.dropLast then some t.dropLast else none
  else none

/-- The translator made by `remove_enclosing_function(f, prefix + "%s")`.
repo: hftools/file_formats/common.py:255-281 -/
def translate (f pre : String) (s : String) : String :=
  match enclosed f.toList s.toList with
  | some x => String.ofList (pre.toList ++ x)
  | none => s

/-- `for old in out.vardata: ...` with the keys at the beginning of the loop.
repo: hftools/file_formats/common.py:299-308 -/
def loopStep (env : Env β α) (tr : String → String) : Block β α → List String →
    Except Err (Block β α)
  | out, [] => .ok out
  | out, old :: t =>
    if tr old = old then loopStep env tr out t
    else if member out.vars (tr old) then .error .valueError
    else
      match renameVar env out old (tr old) with
      | (out', .ok _) => loopStep env tr out' t
      | (_, .error x) => .error x

/-- One pass over all variables. -/
def pass (env : Env β α) (tr : String → String) (b : Block β α) : Except Err (Block β α) :=
  loopStep env tr b (b.vars.map Prod.fst)

/-- `normalize_names(data)`; `table` are the entries of `_trtable` in any order.
repo: hftools/file_formats/common.py:284-309 -/
def normalize (env : Env β α) (table : List (String × String)) (b : Block β α) :
    Except Err (Block β α) :=
  match tableStep env b b table with
  | .error e => .error e
  | .ok b1 =>
    match pass env (translate "Mean" "") b1 with
    | .error e => .error e
    | .ok b2 => pass env (translate "Std" "s_") b2

end HF.Readers.Normalize
