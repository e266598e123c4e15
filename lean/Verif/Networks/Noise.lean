import Verif.Networks.Objects
import Mathlib.Data.Complex.Basic
import Mathlib.Analysis.SpecialFunctions.Pow.Real
/-
Noisy two-ports.

repo: hftools/networks/noise.py

Arrays of matrices are treated one matrix at a time.  `none` stands for an exception and for results
that are not finite.
-/
noncomputable section

namespace HF.Networks

open Matrix

/-- `NoisyTwoport`.  repo: hftools/networks/noise.py:62-65 -/
structure Noisy where
  N : Net ℂ
  C : M2 ℂ

/-- `C[..., 0, 0] = C[..., 0, 0].real` and the same for the other diagonal element. -/
def realDiag (C : M2 ℂ) : M2 ℂ := !![((C 0 0).re : ℂ), C 0 1; C 1 0, ((C 1 1).re : ℂ)]

/-- `NoisyTwoport.convert`; `Hconj` is the conjugate transpose.  The function `convert` of the module
gets `self.N` itself as its last argument, and multiplies it twice with a matrix: `a * tau2`, from
which the factor `A` is computed, and `a * sigma2`.  Each time `matrix_multiply` brings it to the
dimensions of the other matrix (`sameShape`), which may raise an exception or overwrite it.
repo: hftools/networks/noise.py:19-31, 67-76, hftools/networks/multiports.py:60-77,
hftools/math.py:393-402 -/
def Noisy.convert (dflt : Imp ℂ) (dst : Rep) (s : Noisy) : Option Noisy :=
  let self : Obj ℂ := ⟨s.N.rep, s.N.z, 0⟩
  (construct dflt dst none s.N).bind fun N =>
    match sameShape dflt [s.N.m] self with
    | .error _ => none
    | .ok (mem, a) =>
      match sameShape dflt mem self, mem[a.ref]? with
      | .ok _, some m =>
        (HF.Networks.convert (Pmat s.N.z s.N.rep) (Pmat N.z N.rep) m).map fun r =>
          ⟨N, realDiag (r.2 * s.C * r.2ᴴ)⟩
      | _, _ => none

/-- `twoport + Hconj(twoport)`: memory has the matrix and its conjugate transpose.
repo: hftools/networks/noise.py:19-31, 36, 38 -/
def plusHconj (dflt : Imp ℂ) (net : Net ℂ) : Option (M2 ℂ) :=
  match binop dflt (· + ·) [net.m, net.mᴴ] ⟨net.rep, net.z, 0⟩ ⟨net.rep, net.z, 1⟩ with
  | .ok (mem, r) => mem[r.ref]?
  | .error _ => none

/-- `passive_noise(twoport, Tamb)` with `kT = k * Tamb`.  For S-parameters of another impedance than
the default `Hconj` raises `ValueError`: the transposed array is to be converted, but the last two
dimensions are in the wrong order for that.
repo: hftools/networks/noise.py:34-45, hftools/networks/multiports.py:104-116 -/
def passiveNoise (kT : ℝ) (dflt : Imp ℂ) (net : Net ℂ) : Option Noisy :=
  match net.rep with
  | .Y => (plusHconj dflt net).map fun m => ⟨net, (2 * kT : ℂ) • m⟩
  | .Z => (plusHconj dflt net).map fun m => ⟨net, (2 * kT : ℂ) • m⟩
  | .S => if net.z = dflt then some ⟨net, (kT : ℂ) • (1 - net.m * net.mᴴ)⟩ else none
  | _ => none

/-- `from_noisepar(dataset)` with `kT = k * 290`.  `S` is an array of complex numbers.
repo: hftools/networks/noise.py:48-59 -/
def fromNoisepar (kT : ℝ) (dflt : Imp ℂ) (S : M2 ℂ) (Fmin Rn : ℝ) (Gopt : ℂ) : Option Noisy :=
  (construct dflt .ABCD none ⟨.S, dflt, S⟩).bind fun abcd =>
    if 1 + Gopt = 0 then none
    else
      let Yopt : ℂ := 1 / 50 * (1 - Gopt) / (1 + Gopt)
      let c21 : ℂ := 1 / 2 * (Fmin - 1) - Rn * Yopt
      some ⟨abcd, (4 * kT : ℂ) • !![(Rn : ℂ), star c21; c21, (Rn * Complex.normSq Yopt : ℂ)]⟩

/-- Result of `noise_parameters`. -/
structure NoisePar where
  Rn : ℝ
  Yopt : ℂ
  Fmin : ℝ
  Gopt : ℂ

/-- `np.sqrt` of a complex number. -/
def csqrt (x : ℂ) : ℂ := x ^ (1 / 2 : ℂ)

/-- The branch of `noise_parameters` for ABCD-parameters.  repo: hftools/networks/noise.py:89-105 -/
def noiseABCD (kT : ℝ) (C : M2 ℂ) : Option NoisePar :=
  let CA := fun i j => C i j / (2 * kT)
  if CA 0 0 = 0 then none
  else
    let Yopt := csqrt (CA 1 1 / CA 0 0 - (((CA 0 1).im : ℂ) / CA 0 0) ^ 2) +
      Complex.I * (((CA 0 1).im : ℂ) / CA 0 0)
    let Fmin := 1 + (CA 0 1 + CA 0 0 * star Yopt).re
    if 1 / 50 + Yopt = 0 then none
    else some ⟨(CA 0 0).re, Yopt, Fmin, (1 / 50 - Yopt) / (1 / 50 + Yopt)⟩

/-- The branch for all other parameters, after conversion to Y.
repo: hftools/networks/noise.py:107-127 -/
def noiseY (kT : ℝ) (Y C : M2 ℂ) : Option NoisePar :=
  let CY := fun i j => C i j / (4 * kT)
  if Y 1 0 = 0 ∨ CY 1 1 = 0 then none
  else
    let Rn := (CY 1 1 / (Complex.normSq (Y 1 0) : ℂ)).re
    let Ycor := Y 0 0 - CY 0 1 / CY 1 1 * Y 1 0
    let Gn := (CY 0 0 - (Complex.normSq (Y 0 0 - Ycor) : ℂ) * Rn).re
    if Rn = 0 ∨ Gn / Rn + Ycor.re ^ 2 < 0 then none
    else
      let Yopt : ℂ := (Real.sqrt (Gn / Rn + Ycor.re ^ 2) : ℂ) - Complex.I * (Ycor.im : ℂ)
      let Fmin := 1 + 2 * Rn * (Ycor.re + Yopt.re)
      if 1 / 50 + Yopt = 0 then none
      else some ⟨Rn, Yopt, Fmin, (1 / 50 - Yopt) / (1 / 50 + Yopt)⟩

/-- `noise_parameters` with `kT = k * 290`.  Both branches convert to S-parameters first.
repo: hftools/networks/noise.py:86-127 -/
def Noisy.noiseParameters (kT : ℝ) (dflt : Imp ℂ) (s : Noisy) : Option NoisePar :=
  (construct dflt .S none s.N).bind fun _ =>
    if s.N.rep = .ABCD then noiseABCD kT s.C
    else (s.convert dflt .Y).bind fun n => noiseY kT n.N.m n.C

end HF.Networks
