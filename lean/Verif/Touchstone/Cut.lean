import Mathlib.Order.Defs.LinearOrder
/-
Touchstone files: cutting the numbers of the data section into records.

repo: hftools/file_formats/touchstone.py:82-134
-/

namespace HF.Touchstone

variable {K : Type} [LinearOrder K]

/-- The numbers of a line, the first and the others.  Lines have at least one number: `tokenize` skips
empty lines, and a data line does not begin with `!`.
repo: hftools/file_formats/touchstone.py:41-54, 70 -/
abbrev Line (K : Type) := K × List K

def Line.len (l : Line K) : Nat := l.2.length + 1

/-- `a.extend(b)` -/
def Line.extend (a b : Line K) : Line K := (a.1, a.2 ++ b.1 :: b.2)

/-- The loop of `_process_data`: `out` is `output`, `cur` is `current_row` (`none` if empty); `drop` is
what is done with the lines from the present one on if the frequency does not increase.  The result are
`output` and `noise`; `none` is `(None, None)`.
repo: hftools/file_formats/touchstone.py:97-120 -/
def cutWith (drop : List (Line K) → Option (List (Line K))) (N : Nat) :
    List (Line K) → Option (Line K) → List (Line K) → Option (List (Line K) × List (Line K))
  | out, none, [] => some (out, [])
  | _, some _, [] => none
  | out, cur, l :: rest =>
    let step (row : Line K) :=
      if Line.len row > N then none
      else if Line.len row = N then cutWith drop N (out ++ [row]) none rest
      else cutWith drop N out (some row) rest
    match cur with
    | some c => step (Line.extend c l)
    | none =>
      match out.getLast? with
      | none => step l
      | some last =>
        if l.1 ≤ last.1 then
          match drop (l :: rest) with
          | some nz => some (out, nz)
          | none => none
        else step l

/-- `_process_data(data, 5)`, called for the noise parameters; only for `N == 9` lines with a lower
frequency are looked at in this way.  `none` if nothing is found.
repo: hftools/file_formats/touchstone.py:102-104 -/
def noiseRows (data : List (Line K)) : Option (List (Line K)) :=
  match cutWith (fun _ => none) 5 [] none data with
  | some ([], _) => none
  | some (out, _) => some out
  | none => none

/-- `_process_data(data, N)`.  repo: hftools/file_formats/touchstone.py:93-120 -/
def cut (data : List (Line K)) (N : Nat) : Option (List (Line K) × List (Line K)) :=
  cutWith (if N = 9 then noiseRows else fun _ => none) N [] none data

inductive Err where
  | touchstone | value | key | index
  deriving DecidableEq, Repr

/-- How many numbers there are.  -/
def total (data : List (Line K)) : Nat := (data.map Line.len).sum

/-- The loop over the number of ports: `k` values, beginning with `n`.
repo: hftools/file_formats/touchstone.py:85-90 -/
def search (data : List (Line K)) : Nat → Nat → Except Err (List (Line K) × List (Line K))
  | _, 0 => .error .touchstone
  | n, k + 1 =>
    match cut data (2 * n ^ 2 + 1) with
    | some (o :: os, nz) => .ok (o :: os, nz)
    | _ => search data (n + 1) k

/-- `process_data`: `int(sqrt(total - 1) / 2 + 1)` is `isqrt((total - 1) / 4) + 1` (for numbers of this
size the floating point computation is exact enough); `int(nan)` is an error.
repo: hftools/file_formats/touchstone.py:82-90 -/
def processData (data : List (Line K)) : Except Err (List (Line K) × List (Line K)) :=
  if total data = 0 then .error .value
  else search data 1 (Nat.sqrt ((total data - 1) / 4))

end HF.Touchstone
