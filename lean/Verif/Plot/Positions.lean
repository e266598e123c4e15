import Verif.Plot.Arrange
/-
Reading and setting the positions of the windows of figures.

repo: hftools/plotting/helper.py:860-918
-/
namespace HF.Plot.Positions

open Arrange

inductive Err
  | keyError
  | valueError
  deriving DecidableEq, Repr

/-- The window of a figure as Tk keeps it: the size, the coordinates, and whether they are counted from the right and from
the lower edge of the screen (flags `WM_NEGATIVE_X` and `WM_NEGATIVE_Y` of Tk). -/
structure Fig where
  win : Win
  x : Int
  y : Int
  right : Bool
  bottom : Bool
  deriving DecidableEq, Repr

/-- `Gcf.figs`: the managers of the figures by number, in the order of `keys()`. -/
abbrev Figs := List (Nat × Fig)

def find : Figs → Nat → Option Fig
  | [], _ => none
  | (j, f) :: figs, i => if j = i then some f else find figs i

/-- Tk changes one window. -/
def put (i : Nat) (g : Fig) (figs : Figs) : Figs := figs.map fun e => if e.1 = i then (i, g) else e

/-- `"%d" % n` -/
def intText : Int → List Char
  | .ofNat n => Nat.toDigits 10 n
  | .negSucc n => '-' :: Nat.toDigits 10 (n + 1)

/-- `int(text)`: a sign and digits.  Simplification: python also takes blanks around the number. -/
def intOf (t : List Char) : Except Err Int :=
  match t with
  | '-' :: r => if r ≠ [] ∧ r.all Char.isDigit then .ok (-(Nat.ofDigitChars 10 r 0 : Int)) else .error .valueError
  | '+' :: r => if r ≠ [] ∧ r.all Char.isDigit then .ok (Nat.ofDigitChars 10 r 0 : Int) else .error .valueError
  | r => if r ≠ [] ∧ r.all Char.isDigit then .ok (Nat.ofDigitChars 10 r 0 : Int) else .error .valueError

/-- `window.wm_geometry()`: `"%dx%d%c%d%c%d"` of Tk. -/
def geometry (f : Fig) : List Char :=
  intText f.win.w ++ 'x' :: intText f.win.h ++ (if f.right then '-' else '+') :: intText f.x ++
    (if f.bottom then '-' else '+') :: intText f.y

/-- `re.compile("[x+]").split`.  repo: hftools/plotting/helper.py:896 -/
def pieces : List Char → List (List Char)
  | [] => [[]]
  | c :: t =>
    if c = 'x' ∨ c = '+' then [] :: pieces t
    else
      match pieces t with
      | [] => [[c]]
      | p :: ps => (c :: p) :: ps

/-- `map(int, pieces)` -/
def ints : List (List Char) → Except Err (List Int)
  | [] => .ok []
  | p :: ps =>
    match intOf p with
    | .error e => .error e
    | .ok n =>
      match ints ps with
      | .error e => .error e
      | .ok ns => .ok (n :: ns)

/-- The lines that take the coordinates from the text.  repo: hftools/plotting/helper.py:909-911 -/
def coordinates (t : List Char) : Except Err (Int × Int) :=
  match ints (pieces t) with
  | .error e => .error e
  | .ok ns =>
    match ns.drop 2 with
    | [x, y] => .ok (x, y)
    | _ => .error .valueError

/-- `get_current_figure_position(fig)` for the number of a figure.  repo: hftools/plotting/helper.py:899-911 -/
def get (figs : Figs) (i : Nat) : Except Err (Int × Int) :=
  match find figs i with
  | none => .error .keyError
  | some f => coordinates (geometry f)

/-- The comprehension over the keys. -/
def getEach (figs : Figs) : List Nat → Except Err (List (Nat × Int × Int))
  | [] => .ok []
  | i :: is =>
    match get figs i with
    | .error e => .error e
    | .ok p =>
      match getEach figs is with
      | .error e => .error e
      | .ok ps => .ok ((i, p) :: ps)

/-- `get_figure_positions()`.  repo: hftools/plotting/helper.py:914-918 -/
def getAll (figs : Figs) : Except Err (List (Nat × Int × Int)) := getEach figs (figs.map Prod.fst)

/-- `move_fig` of a figure: `wm_geometry("+%d+%d" % ...)` counts from the left and from the upper edge.
repo: hftools/plotting/helper.py:860-874 -/
def move (s : Screens) (f : Fig) (x y : Int) : Fig :=
  let p := moveFig s f.win x y
  ⟨f.win, p.x, p.y, false, false⟩

/-- `set_figure_positions(lista)`: the figures afterwards, also when it raises.
repo: hftools/plotting/helper.py:886-894 -/
def setAll (s : Screens) : Figs → List (Nat × Int × Int) → Figs × Option Err
  | figs, [] => (figs, none)
  | figs, (i, x, y) :: l =>
    match find figs i with
    | none => (figs, some .keyError)
    | some f => setAll s (put i (move s f x y) figs) l

end HF.Plot.Positions
