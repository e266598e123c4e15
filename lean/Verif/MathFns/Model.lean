import Mathlib.Analysis.SpecialFunctions.Complex.Arg
import Mathlib.Analysis.SpecialFunctions.Log.Base
import Mathlib.Analysis.SpecialFunctions.Pow.Real
/-
The numeric helpers of `hftools.math`.

repo: hftools/math.py

Numbers are real or complex numbers, not floats.  Arrays are lists along the axis worked on.
-/
noncomputable section

namespace HF.MathFns

/-- `np.angle(Z)` -/
def npAngle (z : ℂ) : ℝ := Complex.arg z

/-- `angle(z, False, branch)`.  repo: hftools/math.py:20-40 -/
def angleRad (z : ℂ) (branch : Option ℝ) : ℝ :=
  let b := match branch with
    | none => -Real.pi
    | some b => b
  let B := b - (-Real.pi)
  npAngle (z / Complex.exp (Complex.I * B)) + B

/-- `angle(z, True, branch)`.  repo: hftools/math.py:20-40 -/
def angleDeg (z : ℂ) (branch : Option ℝ) : ℝ :=
  let b := match branch with
    | none => -180
    | some b => b
  let B := b - (-180)
  let b := B / 180 * Real.pi
  npAngle (z / Complex.exp (Complex.I * b)) * (180 / Real.pi) + B

/-- `dB(x)`; for `x = 0` numpy gives `-inf`, here `log 0 = 0`, so theorems have `x ≠ 0`.
repo: hftools/math.py:71-76 -/
def dB (x : ℂ) : ℝ := 20 * Real.logb 10 ‖x‖

/-- repo: hftools/math.py:79-84 -/
def dBinv (x : ℝ) : ℝ := (10 : ℝ) ^ (x / 20)

/-- repo: hftools/math.py:91-97 -/
def dBAngleToComplex (mag ang : ℝ) : ℂ := dBinv mag * Complex.exp (Complex.I * Real.pi * ang / 180)

/-- repo: hftools/math.py:100-106 -/
def magAngleToComplex (mag ang : ℝ) : ℂ := mag * Complex.exp (Complex.I * Real.pi * ang / 180)

/-- repo: hftools/math.py:109-115 -/
def reImToComplex (re im : ℝ) : ℂ := re + Complex.I * im

/-- `data[1:] / data[:-1]` -/
def ratios : List ℂ → List ℂ
  | a :: b :: l => b / a :: ratios (b :: l)
  | _ => []

/-- `np.add.accumulate(l, 0) + s` -/
def accumulate (s : ℝ) : List ℝ → List ℝ
  | [] => []
  | a :: l => (s + a) :: accumulate (s + a) l

/-- One column of `_unwrap_phase(data)`; `a0` is the angle of the very first element (of the first
column).  `none` is `IndexError`.  repo: hftools/math.py:124-147 -/
def unwrapCol (a0 : ℝ) : List ℂ → Option (List ℝ)
  | [] => none
  | d :: data =>
    let a := angleRad d none
    let result := a :: accumulate (angleRad d none) ((ratios (d :: data)).map (angleRad · none))
    let result1 := if |a - a0 + 2 * Real.pi| < 2 then result.map (· + 2 * Real.pi) else result
    some (if |a - a0 - 2 * Real.pi| < 2 then result1.map (· - 2 * Real.pi) else result1)

/-- `unwrap_phase(data)` for one-dimensional data.  repo: hftools/math.py:124-152 -/
def unwrapPhase (data : List ℂ) : Option (List ℝ) := unwrapCol (angleRad (data.headD 0) none) data

/-- `unwrap_phase(data, deg=True)`.  repo: hftools/math.py:145-146 -/
def unwrapPhaseDeg (data : List ℂ) : Option (List ℝ) :=
  (unwrapPhase data).map fun r => r.map fun p => p / Real.pi * 180

/-- `continous_phase_sqrt(q)` for one-dimensional data.  repo: hftools/math.py:118-121 -/
def continuousSqrt (q : List ℂ) : Option (List ℂ) :=
  (unwrapPhase q).map fun phase =>
    (q.zip phase).map fun p => (Real.sqrt ‖p.1‖ : ℂ) * Complex.exp (Complex.I * p.2 / 2)

/-- `freq[:-1] - freq[1:]` -/
def steps : List ℝ → List ℝ
  | a :: b :: l => (a - b) :: steps (b :: l)
  | _ => []

/-- `(freq[:-1] + freq[1:]) / 2` -/
def mids : List ℝ → List ℝ
  | a :: b :: l => (a + b) / 2 :: mids (b :: l)
  | _ => []

/-- `delay(freq, var)` for arguments that have the same single dimension.  repo: hftools/math.py:155-188 -/
def delay (freq : List ℝ) (var : List ℂ) : List ℝ × List ℝ :=
  (mids freq,
    (((ratios var).map (angleRad · none)).zip ((steps freq).map (2 * Real.pi * ·))).map fun p => p.1 / p.2)

end HF.MathFns
