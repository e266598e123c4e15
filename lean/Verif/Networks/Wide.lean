import Verif.Networks.Cascade
/-
Cascading and de-embedding of scattering matrices with any number of ports.

repo: hftools/networks/spar_functions.py:15-100

As in `Networks/Cascade`, one matrix at a time, a division by zero is an error, and `st` is what writing into the result
does to a number.  Both arguments have the same number of ports.
-/
noncomputable section

namespace HF.Networks

variable {K : Type} [Field K] [DecidableEq K]

inductive WErr where
  /-- `S1[..., 1, 1]` of a matrix with less than two rows -/
  | indexError
  /-- `inf` or `nan` -/
  | division
  deriving DecidableEq

/-- `res = zeros(...)`, `res[..., 0, 0] = a`, `res[..., 0, 1] = b`, `res[..., 1, 0] = c`, `res[..., 1, 1] = d`. -/
def topLeft (n : Nat) (a b c d : K) : Matrix (Fin n) (Fin n) K := fun i j =>
  match i.val, j.val with
  | 0, 0 => a
  | 0, 1 => b
  | 1, 0 => c
  | 1, 1 => d
  | _, _ => 0

/-- `res[..., i, j] = x` -/
def setAt {n : Nat} (M : Matrix (Fin n) (Fin n) K) (i j : Fin n) (x : K) : Matrix (Fin n) (Fin n) K := fun a b =>
  if a = i ∧ b = j then x else M a b

/-- `cascadeS(S1, S2)`.  repo: hftools/networks/spar_functions.py:15-33 -/
def cascadeWide (st : K → K) (n : Nat) (S1 S2 : Matrix (Fin n) (Fin n) K) : Except WErr (Matrix (Fin n) (Fin n) K) :=
  if h : 2 ≤ n then
    let i : Fin n := ⟨0, by omega⟩
    let j : Fin n := ⟨1, by omega⟩
    let denom := 1 - S1 j j * S2 i i
    let res := topLeft n (st (S1 i i - S2 i i * S1.det)) (st (S1 i j * S2 i j)) (st (S1 j i * S2 j i))
      (st (S2 j j - S1 j j * S2.det))
    if denom = 0 then .error .division else .ok fun a b => res a b / denom
  else .error .indexError

/-- `deembedleft(e, X)`.  repo: hftools/networks/spar_functions.py:36-64 -/
def deembedleftWide (st : K → K) (n : Nat) (e X : Matrix (Fin n) (Fin n) K) : Except WErr (Matrix (Fin n) (Fin n) K) :=
  if h : 2 ≤ n then
    let i : Fin n := ⟨0, by omega⟩
    let j : Fin n := ⟨1, by omega⟩
    let denom := e i j * e j i - e i i * e j j + e j j * X i i
    let res := topLeft n (st (X i i - e i i)) (st (X i j * e j i)) (st (X j i * e i j)) (st (-X i j * X j i * e j j))
    if denom = 0 then .error .division
    else
      let res : Matrix (Fin n) (Fin n) K := fun a b => res a b / denom
      .ok (setAt res j j (res j j + X j j))
  else .error .indexError

/-- `deembedright(X, e)`.  repo: hftools/networks/spar_functions.py:67-91 -/
def deembedrightWide (st : K → K) (n : Nat) (X e : Matrix (Fin n) (Fin n) K) : Except WErr (Matrix (Fin n) (Fin n) K) :=
  if h : 2 ≤ n then
    let i : Fin n := ⟨0, by omega⟩
    let j : Fin n := ⟨1, by omega⟩
    let denom := e i j * e j i - e i i * e j j + e i i * X j j
    let res := topLeft n (st (-X i j * X j i * e i i)) (st (X i j * e j i)) (st (X j i * e i j)) (st (X j j - e j j))
    if denom = 0 then .error .division
    else
      let res : Matrix (Fin n) (Fin n) K := fun a b => res a b / denom
      .ok (setAt res i i (res i i + X i i))
  else .error .indexError

end HF.Networks
