import Mathlib.Algebra.Field.Basic
import Mathlib.Algebra.BigOperators.Group.List.Basic
import Mathlib.Algebra.Polynomial.Eval.Defs
import Mathlib.Data.Real.Basic
/-
Smoothing and interpolation.

repo: hftools/math.py:191-308

Numbers are elements of a field, not floats.  Arrays are lists; only `axis=0` of a one-dimensional
array except in `smoothRows`.
-/

namespace HF.MathFns

/-- `wid` and the window `[lo, hi)` for sample `i` of `n`.  Apertures are natural numbers.
repo: hftools/math.py:208-216 -/
def smoothWid (n aperture i : Nat) : Nat := min i (min (aperture / 2) (((n : Int) - 1 - i).natAbs))

def smoothOdd (aperture : Nat) : Nat := if aperture % 2 = 0 then 0 else 1

def smoothWindow (n aperture i : Nat) : Nat × Nat :=
  let wid := smoothWid n aperture i
  if wid ≠ 0 then (i - wid, i + wid + smoothOdd aperture) else (i, i + 1)

/-- `data[lo:hi]` -/
def slice {α : Type} (l : List α) (w : Nat × Nat) : List α := (l.take w.2).drop w.1

/-- `np.mean`; of an empty list it is `nan` (0 here; the windows are never empty, `C34_window`). -/
def mean {K : Type} [Field K] (l : List K) : K := l.sum / l.length

/-- `smooth(data, aperture)` for floating point or complex data.  A sample that is its own window is
copied.  repo: hftools/math.py:191-219 -/
def smooth {K : Type} [Field K] (data : List K) (aperture : Nat) : List K :=
  (List.range data.length).map fun i =>
    if smoothWid data.length aperture i ≠ 0 then mean (slice data (smoothWindow data.length aperture i))
    else data.getD i 0

/-- `smooth(data, aperture)` for integers: `np.empty_like(data)` is an integer array, so the means are
truncated when they are stored.  repo: hftools/math.py:206-219 -/
def smoothInt (data : List Int) (aperture : Nat) : List Int :=
  (List.range data.length).map fun i =>
    if smoothWid data.length aperture i ≠ 0 then
      let w := slice data (smoothWindow data.length aperture i)
      w.sum.tdiv w.length
    else data.getD i 0

/-- `smooth(data, aperture, axis=1)` for a square array of `n` rows: the loop runs over the columns, but
`data[lo:hi]` and `newdata[i]` are rows.  `mean(.., 1)` has one value for each row of the slice, which
must be `n` or one; otherwise `none`, which is `ValueError`.  repo: hftools/math.py:206-219 -/
def smoothRows {K : Type} [Field K] (data : List (List K)) (aperture : Nat) : Option (List (List K)) :=
  (List.range data.length).mapM fun i =>
    if smoothWid data.length aperture i ≠ 0 then
      let m := (slice data (smoothWindow data.length aperture i)).map mean
      if m.length = data.length then some m
      else match m with
        | [x] => some (List.replicate data.length x)
        | _ => none
    else some (data.getD i [])

/-- The window of `poly_smooth` for sample `i` of `n`.  repo: hftools/math.py:247-256 -/
def polyStart (n aperture i : Nat) : Nat := min (i - aperture / 2) (n - 1 - aperture)

def polyStop (n aperture i : Nat) : Nat := max (min (i + aperture / 2 + smoothOdd aperture) (n - 1)) aperture

/-- `poly_smooth(x, y, aperture, N)`, given the polynomial that `scipy.polyfit` returns for the samples
of a window.  `none` is `AssertionError`.  repo: hftools/math.py:222-260 -/
noncomputable def polySmooth (fit : List (ℝ × ℝ) → Polynomial ℝ) (x y : List ℝ) (aperture : Nat) :
    Option (List ℝ) :=
  (List.range x.length).mapM fun i =>
    let w := (polyStart x.length aperture i, polyStop x.length aperture i)
    if w.2 - w.1 = aperture then some ((fit ((slice x w).zip (slice y w))).eval (x.getD i 0)) else none

/-- `np.searchsorted(a, v)` for ascending `a`: how many elements at the front are less than `v`. -/
def searchsorted {K : Type} [LT K] [DecidableRel (α := K) (· < ·)] (a : List K) (v : K) : Nat :=
  (a.takeWhile (· < v)).length

/-- `linear_extrapolate(x, y, xi)` for one `xi`; `none` is `IndexError`.  A division by zero (equal
knots) gives 0 here and `nan` there; theorems have different knots.  repo: hftools/math.py:283-296 -/
def linearExtrapolate {K : Type} [Field K] [LT K] [DecidableRel (α := K) (· < ·)] (x y : List K) (xi : K) :
    Option K :=
  let idx0 := searchsorted x.tail.dropLast xi
  let idx1 := idx0 + 1
  match x[idx0]?, x[idx1]?, y[idx0]?, y[idx1]? with
  | some x0, some x1, some y0, some y1 =>
    let d0 := xi - x0
    let d1 := x1 - xi
    let d := x1 - x0
    some ((d0 * y1 + d1 * y0) / d)
  | _, _, _, _ => none

inductive InterpErr where
  | below | above | index | empty
  deriving DecidableEq, Repr

/-- `interpolate(x, y, xi)`; `min` of an empty array is a `ValueError` too (`empty`).
repo: hftools/math.py:299-308 -/
def interpolate {K : Type} [Field K] [LinearOrder K] (x y xi : List K) : Except InterpErr (List K) :=
  match xi.min?, x.min?, xi.max?, x.max? with
  | some xil, some xl, some xih, some xh =>
    if xil < xl then .error .below
    else if xih > xh then .error .above
    else match xi.mapM (linearExtrapolate x y) with
      | some r => .ok r
      | none => .error .index
  | _, _, _, _ => .error .empty

end HF.MathFns
