import Verif.Networks.Convert
/-
Cascading and de-embedding two-ports.

repo: hftools/networks/spar_functions.py, hftools/networks/multiports.py:167-193

Arrays of matrices are treated one matrix at a time.  A division by zero (which gives `inf` or `nan`
in the arrays) is `none`.  `st` is what writing into an array of the element type of the first
argument (cascading) or of the measured network (de-embedding) does to a number: nothing if this
array is complex, dropping the imaginary part if it is real.
-/
noncomputable section

namespace HF.Networks

open Matrix

variable {K : Type} [Field K] [DecidableEq K]

/-- `cascadeS(S1, S2, *rest)`.  repo: hftools/networks/spar_functions.py:15-33 -/
def cascadeS (st : K → K) (S1 S2 : M2 K) (_rest : List (M2 K)) : Option (M2 K) :=
  let denom := 1 - S1 1 1 * S2 0 0
  if denom = 0 then none
  else some !![st (S1 0 0 - S2 0 0 * S1.det) / denom, st (S1 0 1 * S2 0 1) / denom;
    st (S1 1 0 * S2 1 0) / denom, st (S2 1 1 - S1 1 1 * S2.det) / denom]

/-- `deembedleft(e, X)`.  repo: hftools/networks/spar_functions.py:36-64 -/
def deembedleft (st : K → K) (e X : M2 K) : Option (M2 K) :=
  let denom := e 0 1 * e 1 0 - e 0 0 * e 1 1 + e 1 1 * X 0 0
  if denom = 0 then none
  else some !![st (X 0 0 - e 0 0) / denom, st (X 0 1 * e 1 0) / denom;
    st (X 1 0 * e 0 1) / denom, st (-X 0 1 * X 1 0 * e 1 1) / denom + X 1 1]

/-- `deembedright(X, e)`.  repo: hftools/networks/spar_functions.py:67-91 -/
def deembedright (st : K → K) (X e : M2 K) : Option (M2 K) :=
  let denom := e 0 1 * e 1 0 - e 0 0 * e 1 1 + e 0 0 * X 1 1
  if denom = 0 then none
  else some !![st (-X 0 1 * X 1 0 * e 0 0) / denom + X 0 0, st (X 0 1 * e 1 0) / denom;
    st (X 1 0 * e 0 1) / denom, st (X 1 1 - e 1 1) / denom]

/-- `deembed(e1, S, e2)`.  repo: hftools/networks/spar_functions.py:94-100 -/
def deembed (st : K → K) (e1 S e2 : M2 K) : Option (M2 K) :=
  (deembedleft st e1 S).bind fun X => deembedright st X e2

/-- `self.cascade(other)`.  repo: hftools/networks/multiports.py:167-174 -/
def cascade (dflt : Imp K) (self other : Net K) : Option (Net K) :=
  (construct dflt .S none self).bind fun a =>
    (construct dflt .S none other).bind fun b =>
      (cascadeS id a.m b.m []).bind fun r => construct dflt self.rep none (ofRaw dflt .S none r)

/-- `self.deembed(left, right)`.  repo: hftools/networks/multiports.py:176-193 -/
def deembedNet (dflt : Imp K) (self : Net K) (left right : Option (Net K)) : Option (Net K) :=
  match left, right with
  | none, none => some self
  | none, some right =>
    (construct dflt .S none self).bind fun x =>
      (construct dflt .S none right).bind fun e =>
        (deembedright id x.m e.m).bind fun r => construct dflt self.rep none (ofRaw dflt .S none r)
  | some left, none =>
    (construct dflt .S none left).bind fun e =>
      (construct dflt .S none self).bind fun x =>
        (deembedleft id e.m x.m).bind fun r => construct dflt self.rep none (ofRaw dflt .S none r)
  | some left, some right =>
    (construct dflt .S none left).bind fun e1 =>
      (construct dflt .S none self).bind fun x =>
        (construct dflt .S none right).bind fun e2 =>
          (deembed id e1.m x.m e2.m).bind fun r => construct dflt self.rep none (ofRaw dflt .S none r)

/-- `unit_smatrix(2)`.  repo: hftools/networks/multiports.py:540-545 -/
def unitS (dflt : Imp K) : Net K := ⟨.S, dflt, !![0, 1; 1, 0]⟩

end HF.Networks
