import Mathlib.Analysis.SpecialFunctions.Log.Base
/-
Model of the engineering notation in hftools/constants/si_units.py, over ℝ.
-/
namespace HF
namespace Units

/-- `mantissa`: mantissa and exponent.
repo: hftools/constants/si_units.py:111-119 -/
noncomputable def mantissa (x : ℝ) : ℝ × ℤ :=
  if x = 0 then (0, 0)
  else
    let e := ⌊Real.logb 10 (SignType.sign x * x)⌋
    (x / (10 : ℝ) ^ e, e)

/-- `_help_format_sci`: number to print and exponent.
repo: hftools/constants/si_units.py:103-108 -/
noncomputable def helpFormatSci (value : ℝ) : ℝ × ℤ :=
  let (m, e) := mantissa value
  let mul := e % 3
  if e ≥ 0 ∧ e < 3 then (m * (10 : ℝ) ^ mul, 0)
  else (value * (10 : ℝ) ^ (-(e - mul)), e - mul)

/-- python dict display: a later entry with the same key replaces the earlier one. -/
def dictDisplay (l : List (Int × String)) (k : Int) : Option String := l.reverse.lookup k

/-- `si_exp_to_prefixes` as written.
repo: hftools/constants/si_units.py:28-32 -/
def siExpEntries : List (Int × String) :=
  [(0, ""), (3, "k"), (6, "M"), (9, "G"), (12, "T"), (15, "P"), (18, "E"), (21, "Z"), (-24, "Y"),
   (-3, "m"), (-6, "u"), (-9, "n"), (-12, "p"), (-15, "f"), (-18, "a"), (-21, "z"), (-24, "y")]

/-- `si_exp_to_prefixes_greek` as written.
repo: hftools/constants/si_units.py:33-37 -/
def siExpEntriesGreek : List (Int × String) :=
  [(0, ""), (3, "k"), (6, "M"), (9, "G"), (12, "T"), (15, "P"), (18, "E"), (21, "Z"), (-24, "Y"),
   (-3, "m"), (-6, "μ"), (-9, "n"), (-12, "p"), (-15, "f"), (-18, "a"), (-21, "z"), (-24, "y")]

/-- `format_number` for finite numbers: the number (before rounding to `digs` digits) and the
prefix; `none` is `KeyError`.
repo: hftools/constants/si_units.py:122-142 -/
noncomputable def formatNumber (x : ℝ) (greek : Bool) : Option (ℝ × String) :=
  let (num, exp) := helpFormatSci x
  (dictDisplay (if greek then siExpEntriesGreek else siExpEntries) exp).map fun p => (num, p)

/-- Rounding to `digs` digits, "%.<digs>f".  (Ties are rounded up here, to even in python.) -/
noncomputable def roundDigs (digs : Nat) (x : ℝ) : ℝ := round (x * 10 ^ digs) / 10 ^ digs

end Units
end HF
