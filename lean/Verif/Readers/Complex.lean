import Verif.DataBlock.Model
/-
Pairs of real columns made into complex variables.

repo: hftools/file_formats/readbase.py:27, 118-158
-/
namespace HF.Readers.Complex

open HF.DataBlock
open HF.DataDict.Spec

/-- `s` divided at the last `)`. -/
def splitLast : List Char → Option (List Char × List Char)
  | [] => none
  | c :: t =>
    match splitLast t with
    | some (a, b) => some (c :: a, b)
    | none => if c = ')' then some ([], t) else none

/-- The regular expression `^([A-Za-z_][A-Za-z_0-9]*) *\((.*)\)(.*)`: function, argument and what
follows.  The dot does not match a line break, so only the first line counts; the identifier and
the blanks after it can be matched in one way only, the argument extends to the last `)`.
repo: hftools/file_formats/readbase.py:27 -/
def parseCall (s : List Char) : Option (List Char × List Char × List Char) :=
  let l := s.takeWhile (· ≠ '\n')
  let f := l.takeWhile fun c => isLetter c || isDig c
  let r := (l.dropWhile fun c => isLetter c || isDig c).dropWhile (· = ' ')
  match f, r with
  | c :: _, '(' :: t =>
    if isLetter c then
      match splitLast t with
      | some (x, rest) => some (f, x, rest)
      | none => none
    else none
  | _, _ => none

/-- `get_outer_function(varname)`: function (or `""`) and argument (or the whole name).
repo: hftools/file_formats/readbase.py:118-125 -/
def outer (s : String) : String × String :=
  match parseCall s.toList with
  | some (f, x, _) => (String.ofList f, String.ofList x)
  | none => ("", s)

/-- `varnames.setdefault(varname, {})[outerfunction] = (outerfunction, rest, fullname)`; only
`fullname` is used afterwards.  repo: hftools/file_formats/readbase.py:135-136 -/
def addName (m : OMap String (OMap String String)) (s : String) : OMap String (OMap String String) :=
  assign m (outer s).2 (assign ((lookup m (outer s).2).getD []) (outer s).1 s)

/-- `dataset.allvarnames`.  repo: hftools/dataset/dataset.py:384-389 -/
def allNames {β α : Type} (b : Block β α) : List String :=
  b.ivars.map Prod.fst ++ (b.vars.map Prod.fst).filter fun n => !member b.ivars n

/-- `varnames`.  repo: hftools/file_formats/readbase.py:133-136 -/
def varnames (names : List String) : OMap String (OMap String String) := names.foldl addName []

variable {β α : Type}

/-- `dataset[vname] = f(dataset[a], dataset[b]); del dataset[a]; del dataset[b]`.
repo: hftools/file_formats/readbase.py:143-146, 151-155 -/
def combine (env : Env β α) (full : Arr β α → Arr β α) (f : α → α → α) (b : Block β α)
    (v p q : String) : Except Err (Block β α) :=
  match getitem env b p with
  | .error e => .error e
  | .ok x =>
    match getitem env b q with
    | .error e => .error e
    | .ok y =>
      match ofArr (Arr.binop full f x y) with
      | .error e => .error e
      | .ok r =>
        match setArr env b v r with
        | (_, .error e) => .error e
        | (b', .ok _) => .ok (delitem (delitem b' p) q)

/-- One base name.  `rect x y` is `x + y * 1j`, `polar x y` is `x * np.exp(np.pi / 180 * 1j * y)`.
repo: hftools/file_formats/readbase.py:138-156 -/
def step (env : Env β α) (full : Arr β α → Arr β α) (rect polar : α → α → α) (b : Block β α)
    (v : String) (alt : OMap String String) : Except Err (Block β α) :=
  match lookup alt "Re", lookup alt "Im" with
  | some p, some q => if contains b v then .ok b else combine env full rect b v p q
  | _, _ =>
    match lookup alt "Mag", lookup alt "Arg" with
    | some p, some q => if contains b v then .ok b else combine env full polar b v p q
    | _, _ => .ok b

/-- All base names; a python dictionary keeps the order of insertion.
repo: hftools/file_formats/readbase.py:138-156 -/
def loop (env : Env β α) (full : Arr β α → Arr β α) (rect polar : α → α → α) :
    Block β α → List (String × OMap String String) → Except Err (Block β α)
  | b, [] => .ok b
  | b, (v, alt) :: t =>
    match step env full rect polar b v alt with
    | .error e => .error e
    | .ok b' => loop env full rect polar b' t

/-- `make_cplx(dataset)`.  repo: hftools/file_formats/readbase.py:128-158 -/
def makeCplx (env : Env β α) (full : Arr β α → Arr β α) (rect polar : α → α → α) (b : Block β α) :
    Except Err (Block β α) :=
  loop env full rect polar b (varnames (allNames b))

end HF.Readers.Complex
