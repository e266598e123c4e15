import Verif.Touchstone.Cut
import Verif.Readers.Text
/-
Touchstone files: lines, interpretation of the records, saving.

repo: hftools/file_formats/touchstone.py:36-79, 137-204, 227-254

Numbers are rational (as floating point numbers are), complex numbers are pairs; results of arithmetic
are not rounded.
-/

namespace HF.Touchstone

open Units (isWs strip)
open Text

abbrev Cplx := ℚ × ℚ

/-- What is not modelled in detail: formatting and reading of numbers (`fmt % x` and `float`), conversion
of magnitude or decibels and angle. -/
structure Env where
  fmt : ℚ → List Char
  parse : List Char → Option ℚ
  dbAngle : ℚ → ℚ → Cplx
  magAngle : ℚ → ℚ → Cplx

def lower (c : Char) : Char := c.toLower

/-- `reg_touch.match`, without regard to upper and lower case: `\s*#\s*[kmgtp]?hz\s+[szygh]\s+([a-z][a-z])`;
what follows is optional.  repo: hftools/file_formats/touchstone.py:137-142 -/
def isInfo (rad : List Char) : Bool :=
  match (rad.map lower).dropWhile isWs with
  | '#' :: r =>
    let r := r.dropWhile isWs
    let r := match r with
      | c :: r' => if c ∈ ['k', 'm', 'g', 't', 'p'] then r' else r
      | [] => r
    match r with
    | 'h' :: 'z' :: w :: r =>
      isWs w &&
        match r.dropWhile isWs with
        | p :: w :: r =>
          decide (p ∈ ['s', 'z', 'y', 'g', 'h']) && isWs w &&
            match r.dropWhile isWs with
            | a :: b :: _ => (decide ('a' ≤ a) && decide (a ≤ 'z')) && (decide ('a' ≤ b) && decide (b ≤ 'z'))
            | _ => false
        | _ => false
    | _ => false
  | _ => false

/-- The numbers of a data line: `list(map(float, rad.split()))`.
repo: hftools/file_formats/touchstone.py:54, 70 -/
def numbersOf (env : Env) (rad : List Char) : Except Err (Line ℚ) :=
  match (words (strip (rad.takeWhile (· ≠ '!')))).mapM env.parse with
  | none => .error .value
  | some [] => .error .index
  | some (a :: r) => .ok (a, r)

/-- What is collected by `parse_blocks` from the tokens of `tokenize`. -/
structure Parsed where
  comments : List (List Char)
  info : Option (List Char)
  data : List (Line ℚ)

/-- One line.  repo: hftools/file_formats/touchstone.py:39-54, 60-70 -/
def addLine (env : Env) (p : Parsed) (rad : List Char) : Except Err Parsed :=
  match strip rad with
  | [] => .ok p
  | '!' :: r => .ok { p with comments := p.comments ++ [strip r] }
  | '#' :: r =>
    if isInfo ('#' :: r) then
      match p.info with
      | none => .ok { p with info := some (strip r) }
      | some _ => .error .touchstone
    else .error .touchstone
  | rad =>
    match numbersOf env rad with
    | .error e => .error e
    | .ok l => .ok { p with data := p.data ++ [l] }

def addLines (env : Env) : Parsed → List (List Char) → Except Err Parsed
  | p, [] => .ok p
  | p, l :: ls =>
    match addLine env p l with
    | .error e => .error e
    | .ok p' => addLines env p' ls

/-- `freqmultdict`.  repo: hftools/file_formats/touchstone.py:147 -/
def freqMult : List (List Char × ℚ) :=
  [(['H', 'Z'], 1), (['K', 'H', 'Z'], 10 ^ 3), (['M', 'H', 'Z'], 10 ^ 6), (['G', 'H', 'Z'], 10 ^ 9),
   (['T', 'H', 'Z'], 10 ^ 12), (['P', 'H', 'Z'], 10 ^ 15)]

/-- `convfunc`.  repo: hftools/file_formats/touchstone.py:166-168 -/
def convFunc (env : Env) (dt : List Char) : Option (ℚ → ℚ → Cplx) :=
  if dt = ['R', 'I'] then some fun a b => (a, b)
  else if dt = ['D', 'B'] then some env.dbAngle
  else if dt = ['M', 'A'] then some env.magAngle
  else none

/-- `convfunc(data[:, ::2], data[:, 1::2])`, one row. -/
def pairUp (f : ℚ → ℚ → Cplx) : List ℚ → List Cplx
  | a :: b :: r => f a b :: pairUp f r
  | _ => []

/-- The block: name of the parameters, frequencies, number of ports, elements (frequency, row, column),
noise parameters (frequency, minimal noise figure in dB, optimal reflection factor, noise resistance),
reference resistance.  Simplifications: `Fmin` is `10 ** (x / 10)` of what stands here, and whether the
noise parameters share the frequencies of the other parameters is decided in `Steps.lean`. -/
structure Block where
  par : List Char
  freq : List ℚ
  ports : Nat
  elem : Nat → Nat → Nat → Option Cplx
  noise : Option (List (ℚ × ℚ × Cplx × ℚ))
  z0 : ℚ

/-- `data.shape[1]` -/
def width : List (Line ℚ) → Nat
  | [] => 0
  | r :: _ => r.2.length

/-- `proc_info`.  repo: hftools/file_formats/touchstone.py:150-204 -/
def procInfo (env : Env) (info : List Char) (rows nz : List (Line ℚ)) : Except Err Block :=
  let finish (fm par dt : List Char) (z0 : ℚ) : Except Err Block :=
    match freqMult.lookup fm with
    | none => .error .key
    | some m =>
      match convFunc env dt with
      | none => .error .touchstone
      | some f =>
        let out := rows.map fun r => pairUp f r.2
        let cols := width rows / 2
        let n := if cols = 1 then 1 else if cols = 4 then 2 else Nat.sqrt cols
        let noise (r : Line ℚ) : ℚ × ℚ × Cplx × ℚ :=
          (r.1 * m, r.2.getD 0 0, f (r.2.getD 1 0) (r.2.getD 2 0), r.2.getLastD 0 * z0)
        .ok {
          par := par
          freq := rows.map fun r => r.1 * m
          ports := n
          elem := fun k i j =>
            match out[k]? with
            | none => none
            | some r =>
              if i < n ∧ j < n then (if cols = 4 then r[j * n + i]? else r[i * n + j]?) else none
          noise := if nz = [] then none else some (nz.map noise)
          z0 := z0 }
  match words (info.map Char.toUpper) with
  | [fm, par, dt, _, z] =>
    match env.parse z with
    | none => .error .value
    | some z0 => finish fm par dt z0
  | [fm, par, dt] => finish fm par dt 1
  | _ => .error .touchstone

/-- Reading the lines of a file.  repo: hftools/file_formats/touchstone.py:56-79 -/
def read (env : Env) (lines : List (List Char)) : Except Err Block :=
  match addLines env ⟨[], none, []⟩ lines with
  | .error e => .error e
  | .ok p =>
    match p.info with
    | none => .error .touchstone
    | some info =>
      match processData p.data with
      | .error e => .error e
      | .ok (rows, nz) => procInfo env info rows nz

/-! ### Saving -/

/-- The elements of a matrix in the order in which they are written.
repo: hftools/file_formats/common.py:316-332 with `fortranorder=True` -/
def colOrder (n : Nat) (S : Nat → Nat → Cplx) : List Cplx :=
  (List.range n).flatMap fun i => (List.range n).map fun j => S j i

/-- The numbers of a row.  repo: hftools/file_formats/touchstone.py:243-252 -/
def saveRow (n : Nat) (r : ℚ × (Nat → Nat → Cplx)) : List ℚ :=
  r.1 :: (colOrder n r.2).flatMap fun z => [z.1, z.2]

/-- `"#HZ S RI R 50"` -/
def infoLine : List Char := ['#', 'H', 'Z', ' ', 'S', ' ', 'R', 'I', ' ', 'R', ' ', '5', '0']

/-- `save_touchstone` of a block with complex `n`-port parameters `S` at a list of frequencies; `comments`
are the comments and the scalar variables.
repo: hftools/file_formats/touchstone.py:227-254 -/
def save (env : Env) (comments : List (List Char)) (n : Nat) (rows : List (ℚ × (Nat → Nat → Cplx))) :
    List (List Char) :=
  comments.map ('!' :: ·) ++ infoLine :: rows.map fun r => join '\t' ((saveRow n r).map env.fmt)

/-- The numbers of a row if `S` is a real array: only the real parts are written.
repo: hftools/file_formats/touchstone.py:247-251 -/
def saveRowReal (n : Nat) (r : ℚ × (Nat → Nat → Cplx)) : List ℚ :=
  r.1 :: (colOrder n r.2).map fun z => z.1

/-- `save_touchstone` if `S` is a real array. -/
def saveReal (env : Env) (comments : List (List Char)) (n : Nat) (rows : List (ℚ × (Nat → Nat → Cplx))) :
    List (List Char) :=
  comments.map ('!' :: ·) ++ infoLine :: rows.map fun r => join '\t' ((saveRowReal n r).map env.fmt)

end HF.Touchstone
