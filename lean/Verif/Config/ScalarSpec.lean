import Verif.Config.Scalars
import Verif.Config.ReLemmas
import Verif.Units.Props
/-
C88: the texts that settings without quotes can have, and their meaning.
-/
namespace HF
namespace Config
namespace Scalars

open Utils (isDigit decValue)
open Units (decimal prefixPower)

/-- A sign or nothing. -/
def Sign (s : List Char) : Prop := s = [] ∨ s = ['-'] ∨ s = ['+']

/-- Digits. -/
def Digits (s : List Char) : Prop := s.all isDigit = true

/-- An exponent: its letter, its sign and its digits. -/
structure Exponent where
  letter : Char
  sign : List Char
  digits : List Char

def Exponent.Ok (e : Exponent) : Prop :=
  (e.letter = 'e' ∨ e.letter = 'E') ∧ Sign e.sign ∧ e.digits ≠ [] ∧ Digits e.digits

def Exponent.text (e : Exponent) : List Char := e.letter :: (e.sign ++ e.digits)

def Exponent.value (e : Exponent) : ℚ := (10 : ℚ) ^ ((if e.sign = ['-'] then -1 else 1) * (decValue e.digits : Int))

/-- A number: sign, digits, digits after a point, exponent. -/
structure Number where
  sign : List Char
  ints : List Char
  frac : Option (List Char)
  exp : Option Exponent

structure Number.Ok (n : Number) : Prop where
  sign : Sign n.sign
  ints : Digits n.ints
  ne : n.frac = none → n.ints ≠ []
  frac : ∀ f, n.frac = some f → f ≠ [] ∧ Digits f
  exp : ∀ e, n.exp = some e → e.Ok

/-- The point and the digits after it. -/
@[simp] def fracText : Option (List Char) → List Char
  | some f => '.' :: f
  | none => []

@[simp] def expText : Option Exponent → List Char
  | some e => e.text
  | none => []

def Number.text (n : Number) : List Char := n.sign ++ n.ints ++ fracText n.frac ++ expText n.exp

def Number.value (n : Number) : ℚ :=
  decimal (n.sign = ['-']) n.ints (n.frac.getD []) * (match n.exp with | some e => e.value | none => 1)

/-- Blanks and tabs. -/
def Blanks (b : List Char) : Prop := ∀ c ∈ b, c = ' ' ∨ c = '\t'

/-- The units of settings. -/
def IsUnit (u : List Char) : Prop := u ∈ ["Hz", "V", "A", "m", "s", "W", "Ohm"].map String.toList

/-- Number, blanks, and a unit, a prefix, both or nothing. -/
def SIText (t : List Char) : Prop :=
  ∃ (n : Number) (b p u : List Char), n.Ok ∧ Blanks b ∧ (p = [] ∨ ∃ c e, prefixPower c = some e ∧ p = [c]) ∧
    (u = [] ∨ IsUnit u) ∧ t = n.text ++ b ++ (p ++ u)

/-- Parts of hundred, of a million, of a billion. -/
inductive Part : List Char → ℚ → Prop
  | percent : Part ['%'] (1 / 100)
  | million : Part ['p', 'p', 'm'] (1 / 1000000)
  | billion : Part ['p', 'p', 'b'] (1 / 1000000000)

/-- Number, blanks, and `%`, `ppm` or `ppb`; its value. -/
def PercentText (t : List Char) (x : ℚ) : Prop :=
  ∃ (n : Number) (b k : List Char) (f : ℚ), n.Ok ∧ Blanks b ∧ Part k f ∧ t = n.text ++ b ++ k ∧ x = n.value * f

/-- The units of time, the greatest first, and their seconds. -/
inductive Span : List Char → Nat → ℚ → Prop
  | day : Span "day".toList 0 86400
  | days : Span "days".toList 0 86400
  | hour : Span "hour".toList 1 3600
  | hours : Span "hours".toList 1 3600
  | minute : Span "minute".toList 2 60
  | minutes : Span "minutes".toList 2 60
  | second : Span "second".toList 3 1
  | seconds : Span "seconds".toList 3 1

/-- Part of an interval: an amount, spaces, the unit. -/
structure Piece where
  ints : List Char
  frac : Option (List Char)
  gap : Nat
  word : List Char
  unit : Nat
  secs : ℚ

structure Piece.Ok (p : Piece) : Prop where
  ints : p.ints ≠ [] ∧ Digits p.ints
  frac : ∀ f, p.frac = some f → Digits f
  span : Span p.word p.unit p.secs

def Piece.amount (p : Piece) : List Char := p.ints ++ fracText p.frac

def Piece.text (p : Piece) : List Char := p.amount ++ List.replicate p.gap ' ' ++ p.word

def Piece.value (p : Piece) : ℚ := decimal false p.ints (p.frac.getD []) * p.secs

/-- An interval: parts in falling order of their units, with spaces between. -/
inductive Reading : List Char → List Piece → Prop
  | one (p : Piece) (h : p.Ok) : Reading p.text [p]
  | cons (p : Piece) (h : p.Ok) (n : Nat) (t : List Char) (q : Piece) (ps : List Piece) (hr : Reading t (q :: ps))
      (hlt : p.unit < q.unit) : Reading (p.text ++ (List.replicate n ' ' ++ t)) (p :: q :: ps)

/-- Its seconds. -/
def total (ps : List Piece) : ℚ := (ps.map Piece.value).sum

/-- The beginning `dddd-dd-dd dd:dd` and what follows. -/
def DateText (t : List Char) (y m d h n rest : List Char) : Prop :=
  (y.length = 4 ∧ Digits y) ∧ (m.length = 2 ∧ Digits m) ∧ (d.length = 2 ∧ Digits d) ∧ (h.length = 2 ∧ Digits h) ∧
    (n.length = 2 ∧ Digits n) ∧ t = y ++ '-' :: (m ++ '-' :: (d ++ ' ' :: (h ++ ':' :: (n ++ rest))))

/-- The beginning `dd:dd` and what follows. -/
def TimeText (t : List Char) : Prop :=
  ∃ h m rest, (h.length = 2 ∧ Digits h) ∧ (m.length = 2 ∧ Digits m) ∧ t = h ++ ':' :: (m ++ rest)

/-- A text without blanks and line ends at its ends, as all texts without quotes are. -/
def Plain (t : List Char) : Prop :=
  t ≠ [] ∧ t.head? ≠ some ' ' ∧ t.getLast? ≠ some ' ' ∧ t.getLast? ≠ some '\n'

end Scalars
end Config
end HF
