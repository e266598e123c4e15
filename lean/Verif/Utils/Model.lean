import Verif.Utils.Sort
/-
Model of the helper functions.

repo: hftools/utils.py
-/
namespace HF
namespace Utils

/-- `stable_uniq`.  Python's `in` on a list compares with `==`, here the equality of `α`.
repo: hftools/utils.py:108-115 -/
def stableUniq {α : Type} [DecidableEq α] (data : List α) : List α :=
  data.foldl (fun out x => if x ∈ out then out else out ++ [x]) []

/-- `uniq`: `sorted(set(data))`.  The order in which a set is enumerated is not specified by
python, it is the parameter `setOf`.  repo: hftools/utils.py:118-124 -/
def uniq {α : Type} (le : α → α → Bool) (setOf : List α → List α) (data : List α) : List α :=
  (setOf data).mergeSort le

/-- Nested python lists or tuples. -/
inductive Nested (α : Type) where
  | leaf (a : α)
  | node (l : List (Nested α))

/-- `flatten`, for the elements of a list.
repo: hftools/utils.py:191-209 and the generator in hftools/dataset/dim.py:38-44 -/
def flatten {α : Type} : List (Nested α) → List α
  | [] => []
  | .node l :: t => flatten l ++ flatten t
  | .leaf a :: t => [a] ++ flatten t

/-! ### Natural order of names -/

/-- An element of the key of `lex_order`. -/
inductive Tok where
  | num (n : Nat)
  | str (s : List Char)
  deriving DecidableEq, Repr

def isDigit (c : Char) : Bool := decide ('0' ≤ c) && decide (c ≤ '9')

/-- Decimal value of a string of digits, python's `int`. -/
def decValue (s : List Char) : Nat := s.foldl (fun v c => 10 * v + (c.toNat - '0'.toNat)) 0

/-- `reg_split.findall` with `"[^0-9]+|[0-9]+"`: maximal runs of non-digits and digits.
repo: hftools/utils.py:151 -/
def splitRuns (s : List Char) : List (List Char) := s.splitBy fun a b => isDigit a == isDigit b

/-- `to_numeric(x, False)` of a run.  Runs without digits that python's `float` accepts
(`inf`, `nan`, ...) are not modelled, they count as strings here.
repo: hftools/utils.py:84-105, 154-155 -/
def toTok (r : List Char) : Tok :=
  if r.all isDigit then .num (decValue r) else .str r

/-- First component of `split_num`.  repo: hftools/utils.py:154-155 -/
def key (s : List Char) : List Tok := (splitRuns s).map toTok

/-- Python's `<` on strings. -/
def strLt : List Char → List Char → Bool := Py.lexLt fun a b => decide (a < b)

/-- Python's `<` on the elements; numbers and strings can not be compared (`TypeError`). -/
def tokLt : Tok → Tok → Option Bool
  | .num m, .num n => some (decide (m < n))
  | .str s, .str t => some (strLt s t)
  | _, _ => none

/-- Python's `<` on lists of elements: the first differing elements decide. -/
def keyLt : List Tok → List Tok → Option Bool
  | _, [] => some false
  | [], _ :: _ => some true
  | a :: s, b :: t => if a = b then keyLt s t else tokLt a b

/-- Python's `<` on the pairs `(key, string)`. -/
def pairLt (a b : List Char) : Option Bool :=
  if key a = key b then some (strLt a b) else keyLt (key a) (key b)

/-- `lex_order`.  If two of the names can not be compared, python's sort may raise
`TypeError` (it depends on which comparisons it makes), here `none`; otherwise `sorted`.
repo: hftools/utils.py:158-160 -/
def lexOrder (names : List (List Char)) : Option (List (List Char)) :=
  if names.all fun a => names.all fun b => (pairLt a b).isSome then
    some (Py.sortBy (fun a b => (pairLt a b).getD false) names)
  else none

end Utils
end HF
