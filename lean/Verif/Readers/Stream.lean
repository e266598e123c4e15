/-
Model of the token stream and the parser combinators of the file readers.

repo: hftools/file_formats/readbase.py:35-116
-/
namespace HF.Readers

/-- `Token(tag, lineno, rad)`; `lineno` is not used by the combinators and left out.
repo: hftools/file_formats/readbase.py:37 -/
structure Token (τ α : Type) where
  tag : τ
  rad : α
  deriving DecidableEq

/-- Exceptions: `StopIteration` from `next`, the plain `Exception(error)` of `OneOf`, and
`ParseError` of `ExpectEndOfFile`. -/
inductive Err where
  | stopIteration
  | exception
  | parseError
  deriving DecidableEq, Repr

variable {τ α γ : Type} [DecidableEq τ]

/-- `Stream`: the tokens still to come.  `next` takes the first, `push` puts one back in
front (`chain([token], stream)`).  The underlying token generator is a finite list; errors
raised by the generator itself are not modelled.
repo: hftools/file_formats/readbase.py:40-54 -/
abbrev Stream (τ α : Type) := List (Token τ α)

/-- `stream.next()`.  repo: hftools/file_formats/readbase.py:47-51 -/
def next : Stream τ α → Except Err (Token τ α) × Stream τ α
  | [] => (.error .stopIteration, [])
  | t :: s => (.ok t, s)

/-- `stream.push(token)`.  repo: hftools/file_formats/readbase.py:53-54 -/
def push (s : Stream τ α) (t : Token τ α) : Stream τ α := t :: s

/-- The loop of `ManyOptional`: `cur` is `current_token`, `acc` is `tokens`.
repo: hftools/file_formats/readbase.py:72-80 -/
def manyLoop (name : τ) (f : α → γ) : Stream τ α → Token τ α → List γ →
    List γ × Stream τ α
  | s, cur, acc =>
    if cur.tag = name then
      match s with
      | [] => (acc ++ [f cur.rad], [])
      | t :: s' => manyLoop name f s' t (acc ++ [f cur.rad])
    else (acc, push s cur)
  termination_by s => s.length

/-- `ManyOptional(name, func)(stream)`; the first `next` is outside of the `try`.
repo: hftools/file_formats/readbase.py:65-80 -/
def manyOptional (name : τ) (f : α → γ) (s : Stream τ α) : Except Err (List γ) × Stream τ α :=
  match next s with
  | (.error e, s') => (.error e, s')
  | (.ok t, s') => (.ok (manyLoop name f s' t []).1, (manyLoop name f s' t []).2)

/-- `Optional(name, func)(stream)`; `none` is python's `None`.
repo: hftools/file_formats/readbase.py:83-96 -/
def optional (name : τ) (f : α → γ) (s : Stream τ α) : Except Err (Option γ) × Stream τ α :=
  match next s with
  | (.error _, s') => (.ok none, s')
  | (.ok t, s') => if t.tag = name then (.ok (some (f t.rad)), s') else (.ok none, push s' t)

/-- `OneOf(names, error, func)(stream)`: `func` is not applied; a token that does not match
is not put back.  repo: hftools/file_formats/readbase.py:99-111 -/
def oneOf (names : List τ) (s : Stream τ α) : Except Err (List α) × Stream τ α :=
  match next s with
  | (.error e, s') => (.error e, s')
  | (.ok t, s') => if t.tag ∈ names then (.ok [t.rad], s') else (.error .exception, s')

/-- `One(name, error, func)`.  repo: hftools/file_formats/readbase.py:114-115 -/
def one (name : τ) (s : Stream τ α) : Except Err (List α) × Stream τ α := oneOf [name] s

/-- `ExpectEndOfFile(stream)`.  repo: hftools/file_formats/readbase.py:57-62 -/
def expectEnd (s : Stream τ α) : Except Err Unit × Stream τ α :=
  match next s with
  | (.error _, s') => (.ok (), s')
  | (.ok _, s') => (.error .parseError, s')

/-- One step of a parser written with the combinators; the conversion `func` is taken to be
of one type for the whole parser. -/
inductive Comb (τ α : Type) where
  | many (name : τ) (f : α → α)
  | opt (name : τ) (f : α → α)
  | oneOf (names : List τ)
  | expectEnd

/-- Run one combinator; the result is the list of returned values. -/
def Comb.run : Comb τ α → Stream τ α → Except Err (List α) × Stream τ α
  | .many n f, s => manyOptional n f s
  | .opt n f, s =>
    match optional n f s with
    | (.error e, s') => (.error e, s')
    | (.ok o, s') => (.ok o.toList, s')
  | .oneOf ns, s => Readers.oneOf ns s
  | .expectEnd, s =>
    match Readers.expectEnd s with
    | (.error e, s') => (.error e, s')
    | (.ok _, s') => (.ok [], s')

/-- A parser: combinators called one after the other on the same stream, as the
`parse_blocks` methods do, e.g. hftools/file_formats/citi.py:105-153 and
hftools/file_formats/spdata.py:114-157; an exception ends it. -/
def runAll : List (Comb τ α) → Stream τ α → Except Err (List (List α)) × Stream τ α
  | [], s => (.ok [], s)
  | c :: cs, s =>
    match c.run s with
    | (.error e, s') => (.error e, s')
    | (.ok r, s') =>
      match runAll cs s' with
      | (.error e, s'') => (.error e, s'')
      | (.ok rs, s'') => (.ok (r :: rs), s'')

end HF.Readers
