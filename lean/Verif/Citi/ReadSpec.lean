import Verif.Citi.Model
import Verif.Readers.Words
/-
C65: what a CITI file says.  Specification.
-/
namespace HF.Citi

open Units (isWs strip)
open Text DataBlock

/-- The text without white space around it. -/
def Trim (s t : List Char) : Prop := ∃ a b, s = a ++ t ++ b ∧ Blank a ∧ Blank b ∧
  (∀ c ∈ t.head?, isWs c = false) ∧ ∀ c ∈ t.getLast?, isWs c = false

/-- What a line can be. -/
inductive Item where
  | blank
  | comment (c : List Char)
  | version
  | name (n : List Char)
  | var (ws : List (List Char))
  | data (ws : List (List Char))
  | varBegin
  | varEnd
  | seg (ws : List (List Char))
  | segBegin
  | segEnd
  | begin_
  | end_
  | number (t : List Char)

def kwNAME : List Char := ['N', 'A', 'M', 'E']
def kwVAR : List Char := ['V', 'A', 'R', ' ']
def kwDATA : List Char := ['D', 'A', 'T', 'A']
def kwVAR_LIST_BEGIN : List Char := ['V', 'A', 'R', '_', 'L', 'I', 'S', 'T', '_', 'B', 'E', 'G', 'I', 'N']
def kwVAR_LIST_END : List Char := ['V', 'A', 'R', '_', 'L', 'I', 'S', 'T', '_', 'E', 'N', 'D']
def kwSEG : List Char := ['S', 'E', 'G', ' ']
def kwSEG_LIST_BEGIN : List Char := ['S', 'E', 'G', '_', 'L', 'I', 'S', 'T', '_', 'B', 'E', 'G', 'I', 'N']
def kwSEG_LIST_END : List Char := ['S', 'E', 'G', '_', 'L', 'I', 'S', 'T', '_', 'E', 'N', 'D']
def kwBEGIN : List Char := ['B', 'E', 'G', 'I', 'N']
def kwEND : List Char := ['E', 'N', 'D']
def kwCOMMENT : List Char := ['C', 'O', 'M', 'M', 'E', 'N', 'T']
def kwCONSTANT : List Char := ['C', 'O', 'N', 'S', 'T', 'A', 'N', 'T']
def kwCITIFILE : List Char := ['C', 'I', 'T', 'I', 'F', 'I', 'L', 'E']

/-- What a line without white space in front of it says. -/
inductive Says' : List Char → Item → Prop where
  | name (r n : List Char) (h : Trim r n) : Says' (kwNAME ++ r) (.name n)
  | var (r : List Char) (ws : List (List Char)) (h : Spaced r ws) : Says' (kwVAR ++ r) (.var ws)
  | data (r : List Char) (ws : List (List Char)) (h : Spaced r ws) : Says' (kwDATA ++ r) (.data ws)
  | varBegin (r : List Char) : Says' (kwVAR_LIST_BEGIN ++ r) .varBegin
  | varEnd (r : List Char) : Says' (kwVAR_LIST_END ++ r) .varEnd
  | seg (r : List Char) (ws : List (List Char)) (h : Spaced r ws) : Says' (kwSEG ++ r) (.seg ws)
  | segBegin (r : List Char) : Says' (kwSEG_LIST_BEGIN ++ r) .segBegin
  | segEnd (r : List Char) : Says' (kwSEG_LIST_END ++ r) .segEnd
  | begin_ (r : List Char) : Says' (kwBEGIN ++ r) .begin_
  | end_ (r : List Char) : Says' (kwEND ++ r) .end_
  | number (c : Char) (r : List Char) (hc : c ∈ "-.0123456789eE".toList) (h : ¬ kwEND <+: c :: r) :
      Says' (c :: r) (.number (c :: r))
  | exclam (r c : List Char) (h : Trim r c) : Says' ('!' :: r) (.comment c)
  | hash (r c : List Char) (h : Trim r c) : Says' ('#' :: r) (.comment c)
  | empty : Says' kwCOMMENT (.comment [])
  | comment (x : Char) (r c : List Char) (h : Trim r c) : Says' (kwCOMMENT ++ x :: r) (.comment c)
  | constant (r c : List Char) (h : Trim (kwCONSTANT ++ r) c) : Says' (kwCONSTANT ++ r) (.comment c)
  | version (r : List Char) : Says' (kwCITIFILE ++ r) .version

/-- What a line says. -/
inductive Says : List Char → Item → Prop where
  | blank (w : List Char) (h : Blank w) : Says w .blank
  | text (w r : List Char) (it : Item) (hw : Blank w) (h : Says' r it) : Says (w ++ r) it

/-- A number, two numbers, or magnitude and angle. -/
inductive Number (env : Env) : List Char → List Char → Cplx → Prop where
  | mag (t : List Char) (x : ℚ) (h : env.parse t = some x) : Number env ['M', 'A', 'G'] t (x, 0)
  | ri (t a b : List Char) (x y : ℚ) (ht : Trim t (a ++ ',' :: b)) (ha : ',' ∉ a) (hb : ',' ∉ b)
      (hx : env.parse a = some x) (hy : env.parse b = some y) : Number env ['R', 'I'] t (x, y)
  | magangle (t a b : List Char) (x y : ℚ) (ht : Trim t (a ++ ',' :: b)) (ha : ',' ∉ a) (hb : ',' ∉ b)
      (hx : env.parse a = some x) (hy : env.parse b = some y) :
      Number env ['M', 'A', 'G', 'A', 'N', 'G', 'L', 'E'] t (env.magAngle x y)

/-- The kinds of numbers. -/
def IsType (typ : List Char) : Prop :=
  typ = ['M', 'A', 'G'] ∨ typ = ['R', 'I'] ∨ typ = ['M', 'A', 'G', 'A', 'N', 'G', 'L', 'E']

/-- `n` real numbers, the first one `a`, the last one `b`, with equal distances. -/
def Evenly (a b : ℚ) (n : Nat) (l : List Cplx) : Prop :=
  l.length = n ∧ (∀ z ∈ l.head?, z = (a, 0)) ∧ (2 ≤ n → l.getLast? = some (b, 0)) ∧
    ∃ step : ℚ, ∀ (k : Nat) (x y : Cplx), l[k]? = some x → l[k + 1]? = some y → y = (x.1 + step, 0)

/-- How coordinates are given. -/
inductive Source where
  | list (texts : List (List Char))
  | segment (start stop count : List Char)

/-- A sweep in a file. -/
structure Sweep where
  name : List Char
  typ : List Char
  count : List Char
  source : Source
  coords : List Cplx

def Sweep.items (v : Sweep) : List Item :=
  match v.source with
  | .list ts => .varBegin :: (ts.map .number ++ [.varEnd])
  | .segment a b n => [.segBegin, .seg [a, b, n], .segEnd]

/-- The coordinates are those written.  The number of them announced before is a number. -/
def Sweep.Ok (env : Env) (v : Sweep) : Prop :=
  (env.parseNat v.count).isSome ∧
  match v.source with
  | .list ts => IsType v.typ ∧ List.Forall₂ (Number env v.typ) ts v.coords
  | .segment a b n => ∃ x y k, env.parse a = some x ∧ env.parse b = some y ∧ env.parseNat n = some k ∧
      Evenly x y k v.coords

/-- Numbers in a file. -/
structure Data where
  name : List Char
  typ : List Char
  texts : List (List Char)

def Data.items (d : Data) : List Item := .begin_ :: (d.texts.map .number ++ [.end_])

/-- A file: comments, perhaps the version, the name, sweeps, data. -/
structure Content where
  c1 : List (List Char)
  version : Bool
  c2 : List (List Char)
  name : List Char
  c3 : List (List Char)
  sweeps : List Sweep
  c4 : List (List Char)
  data : List Data
  c5 : List (List Char)
  c6 : List (List Char)

def Content.items (f : Content) : List Item :=
  f.c1.map .comment ++ ((if f.version then [.version] else []) ++ (f.c2.map .comment ++ (.name f.name ::
  (f.c3.map .comment ++ ((f.sweeps.map fun v => .var [v.name, v.typ, v.count]) ++ (f.c4.map .comment ++
  ((f.data.map fun d => .data [d.name, d.typ]) ++ (f.c5.map .comment ++ (f.sweeps.flatMap Sweep.items ++
  (f.c6.map .comment ++ f.data.flatMap Data.items))))))))))

def Content.comments (f : Content) : List (List Char) := f.c1 ++ f.c2 ++ f.c3 ++ f.c4 ++ f.c5 ++ f.c6

/-- The time of a measurement is rewritten, other comments remain as they are. -/
inductive Kept : List Char → List Char → Prop where
  | same (c : List Char) (h : ¬ "CONSTANT TIME".toList <+: c) : Kept c c
  | time (c : List Char) (w1 w2 y m d h mi s : List Char) (hc : "CONSTANT TIME".toList <+: c)
      (hs : Spaced c [w1, w2, y, m, d, h, mi, s]) :
      Kept c ("Measurement time: ".toList ++ y ++ '-' :: m ++ '-' :: d ++ ' ' :: h ++ ':' :: mi ++ ':' :: s)

/-- Positions in an array, in the order in which the last index runs fastest. -/
def positions : List Nat → List (List Nat)
  | [] => [[]]
  | n :: ns => (List.range n).flatMap fun i => (positions ns).map (i :: ·)

/-- The part of a file before the data can be read: data are announced, the names of the sweeps are different, the
sweeps have the coordinates written.  (Where there are no sweeps, or no version, comments are counted among those
before.) -/
structure Content.Head (env : Env) (f : Content) : Prop where
  version : f.version = false → f.c2 = []
  noSweeps : f.sweeps = [] → f.c4 = [] ∧ f.c6 = []
  data : f.data ≠ []
  nodupSweeps : (f.sweeps.map Sweep.name).Nodup
  sweeps : ∀ v ∈ f.sweeps, v.Ok env

/-- The names of the data are different, and no name is that of a matrix of which another is an element. -/
structure Content.Names (f : Content) : Prop where
  nodupData : (f.data.map Data.name).Nodup
  disjoint : ∀ d ∈ f.data, d.name ∉ f.sweeps.map Sweep.name
  elems : ∀ d ∈ f.data, ∀ m i j, isMatrixName (String.ofList d.name) = some (m, i, j) →
    m.toList ∉ f.data.map Data.name

/-- The number of combinations of coordinates. -/
def Content.size (f : Content) : Nat := (f.sweeps.map fun v => v.coords.length).prod

/-- Data as they should be: as many as there are combinations of coordinates, all of them numbers. -/
structure Data.Ok (env : Env) (n : Nat) (d : Data) : Prop where
  typ : IsType d.typ
  number : ∀ t ∈ d.texts, ∃ z, Number env d.typ t z
  texts : d.texts.length = n

end HF.Citi
