import Mathlib.Data.Real.Basic
/-
What a label should read.
-/
namespace HF.Plot

/-- A label format: text, `[]` for the unit with its prefix, `{unit}` and `{default}`. -/
inductive Piece where
  | text (s : List Char)
  | box
  | unit
  | name

/-- Text without the characters that have a meaning. -/
def Piece.Plain : Piece → Prop
  | .text s => ∀ c ∈ s, c ≠ '%' ∧ c ≠ '{' ∧ c ≠ '}' ∧ c ≠ '[' ∧ c ≠ ']'
  | _ => True

/-- As it is written. -/
def Piece.written : Piece → List Char
  | .text s => s
  | .box => ['[', ']']
  | .unit => ['{', 'u', 'n', 'i', 't', '}']
  | .name => ['{', 'd', 'e', 'f', 'a', 'u', 'l', 't', '}']

/-- As it is read; `U` stands for an unknown unit. -/
def Piece.reads (pre unit name : List Char) : Piece → List Char
  | .text s => s
  | .box => '[' :: pre ++ (if unit = [] then ['U'] else unit) ++ [']']
  | .unit => unit
  | .name => name

/-- What is plotted along an axis with this unit: frequency, time or length; else the name of the dimension. -/
def axisName (unit dim : List Char) : List Char :=
  if unit = ['H', 'z'] then ['F', 'r', 'e', 'q', 'u', 'e', 'n', 'c', 'y']
  else if unit = ['m'] then ['L', 'e', 'n', 'g', 't', 'h']
  else if unit ∈ [['s'], ['m', 'i', 'n'], ['h']] then ['T', 'i', 'm', 'e']
  else dim

end HF.Plot
