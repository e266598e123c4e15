/-
The regular expressions of python's `re`, as far as hftools/file_formats/config.py uses them: classes of characters,
sequences, alternatives, options, repeated classes, groups and `$`.  A match gives all ways in which an expression can
match the beginning of a text, in the order in which they are tried; `re.match` takes the first one.
-/
namespace HF
namespace Config

inductive Re
  | eps
  | cls (p : Char → Bool)
  | seq (a b : Re)
  | alt (a b : Re)
  /-- `a?` -/
  | opt (a : Re)
  /-- `[...]*` -/
  | star (p : Char → Bool)
  | group (n : Nat) (a : Re)
  /-- `$` -/
  | eos

namespace Re

/-- The groups that have matched, with their texts. -/
abbrev Caps := List (Nat × List Char)

/-- Ways to match `[...]*`, the longest first: the rest of the text. -/
def starRests (p : Char → Bool) : List Char → List (List Char)
  | [] => [[]]
  | c :: r => if p c then starRests p r ++ [c :: r] else [c :: r]

/-- All ways to match the beginning of a text, with the rest of the text. -/
def run : Re → List Char → List (Caps × List Char)
  | .eps, s => [([], s)]
  | .cls p, s =>
    match s with
    | c :: r => if p c then [([], r)] else []
    | [] => []
  | .seq a b, s => (run a s).flatMap fun x => (run b x.2).map fun y => (x.1 ++ y.1, y.2)
  | .alt a b, s => run a s ++ run b s
  | .opt a, s => run a s ++ [([], s)]
  | .star p, s => (starRests p s).map fun r => ([], r)
  | .group n a, s => (run a s).map fun x => ((n, s.take (s.length - x.2.length)) :: x.1, x.2)
  | .eos, s => if s = [] ∨ s = ['\n'] then [([], s)] else []

/-- `regexp.match(text)`: the groups, or nothing. -/
def «match» (r : Re) (s : List Char) : Option Caps := (run r s).head?.map Prod.fst

/-- `res.groups()`: one group. -/
def Caps.get (c : Caps) (n : Nat) : Option (List Char) := c.lookup n

/-- A character. -/
def chr (c : Char) : Re := .cls (· = c)

/-- A word. -/
def word : List Char → Re
  | [] => .eps
  | c :: r => .seq (chr c) (word r)

/-- `(a|b|...)` -/
def words : List (List Char) → Re
  | [] => .cls fun _ => false
  | [w] => word w
  | w :: ws => .alt (word w) (words ws)

/-- Expressions one after the other. -/
def seqs : List Re → Re
  | [] => .eps
  | [r] => r
  | r :: rs => .seq r (seqs rs)

/-- `[...]+` -/
def plus (p : Char → Bool) : Re := .seq (.cls p) (.star p)

end Re
end Config
end HF
