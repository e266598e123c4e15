/-
Arranging the windows of the figures on the screen.

repo: hftools/plotting/helper.py:765-874
-/
namespace HF.Plot.Arrange

/-- The window of a figure: `winfo_width` and `winfo_height`. -/
structure Win where
  w : Int
  h : Int
  deriving DecidableEq, Repr

/-- A window with the coordinates given to `wm_geometry`. -/
structure Placed where
  win : Win
  x : Int
  y : Int
  deriving DecidableEq, Repr

/-- The width and the height over all screens (`_get_max_width`, helper.py:849-857) and the width of the first screen
(`winfo_screenwidth`). -/
structure Screens where
  W : Int
  H : Int
  first : Int

/-- `move_fig`.  repo: hftools/plotting/helper.py:860-874 -/
def moveFig (s : Screens) (f : Win) (x y : Int) : Placed := ⟨f, max 0 (min x (s.W - f.w)), max 0 (min y (s.H - f.h))⟩

/-- `fig_fits_w`.  repo: hftools/plotting/helper.py:765-772 -/
def fitsW (s : Screens) (f : Win) (x : Int) : Bool := x + f.w < s.W

/-- `fig_fits_h`.  repo: hftools/plotting/helper.py:775-782 -/
def fitsH (s : Screens) (f : Win) (y : Int) : Bool := y + f.h < s.H

/-- The loop: the windows that are moved, and those left when the loop is ended by `break`.  `x`, `y` and `m` are the
variables `x`, `y` and `maxheight`.  repo: hftools/plotting/helper.py:824-845 -/
def loop (s : Screens) (xgap ygap x0 : Int) : Int → Int → Int → List Win → List Placed × List Win
  | _, _, _, [] => ([], [])
  | x, y, m, f :: fs =>
    if fitsW s f x then
      let r := loop s xgap ygap x0 (x + f.w + xgap) y (max m f.h) fs
      (moveFig s f x y :: r.1, r.2)
    else
      if fitsH s f (y + m + ygap) then
        let r := loop s xgap ygap x0 (x0 + f.w + xgap) (y + m + ygap) 0 fs
        (moveFig s f x0 (y + m + ygap) :: r.1, r.2)
      else ([], f :: fs)

/-- `x0` for the screen asked for.  repo: hftools/plotting/helper.py:814-818 -/
def startX (s : Screens) (screen : Nat) (offset : Int) : Int := if screen = 2 then s.first + offset else 0 + offset

/-- One call without the calls it makes: the variables at the beginning and the loop.
repo: hftools/plotting/helper.py:814-845 -/
def onePass (s : Screens) (screen : Nat) (xgap ygap offset : Int) (fs : List Win) : List Placed × List Win :=
  loop s xgap ygap (startX s screen offset) (startX s screen offset) (0 + offset) 0 fs

theorem loop_length (s : Screens) (xgap ygap x0 : Int) (fs : List Win) : ∀ x y m,
    (loop s xgap ygap x0 x y m fs).1.length + (loop s xgap ygap x0 x y m fs).2.length = fs.length := by
  induction fs with
  | nil => intros; rfl
  | cons f fs ih =>
    intro x y m
    rw [loop]
    split
    · have := ih (x + f.w + xgap) y (max m f.h)
      simp only [List.length_cons]
      omega
    · split
      · have := ih (x0 + f.w + xgap) (y + m + ygap) 0
        simp only [List.length_cons]
        omega
      · simp

/-- `arrange_figures` in IPython, for the windows in the order of the figures.  The call it makes when a window does not
fit has the offset `DELTAOFFSET`; `none` is a call that makes the same call again, for ever.  Simplifications: the sizes
of the windows do not change; no limit of the depth of recursion.
repo: hftools/plotting/helper.py:784-846 -/
def arrange (s : Screens) (screen : Nat) (xgap ygap offset : Int) (fs : List Win) : Option (List Placed) :=
  match h : onePass s screen xgap ygap offset fs with
  | (ps, []) => some ps
  | (ps, r :: rs) =>
    if ps = [] ∧ offset = 10 then none
    else (arrange s screen xgap ygap 10 (r :: rs)).map (ps ++ ·)
termination_by 2 * fs.length + (if offset = 10 then 0 else 1)
decreasing_by
  rename_i hn
  have hl := loop_length s xgap ygap (startX s screen offset) fs (startX s screen offset) (0 + offset) 0
  unfold onePass at h
  rw [h] at hl
  simp only at hl
  by_cases ho : offset = 10
  · have : ps ≠ [] := fun e => hn ⟨e, ho⟩
    have := List.length_pos_iff.2 this
    simp only [if_true, ho]
    omega
  · simp only [if_true, if_neg ho]
    omega

end HF.Plot.Arrange
