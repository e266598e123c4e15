import Verif.Readers.Treat
import Verif.Readers.FixUnitProps
import Verif.Readers.AssembleProps
import Verif.Sp.Write
/-
Reading back what was saved: which blocks, and what is kept.
-/
namespace HF.Readers.Treat

open HF.DataDict.Spec HF.DataBlock
open HF.DataDict hiding rename delitem
open HF.Readers.FixUnit (UBlock UnitWord)
open HF.Readers.Assemble (IsBase elemNm)

variable {β α : Type}

/-- Letters, digits and underscores, not beginning with a digit. -/
def Ident (s : List Char) : Prop := ∃ c g, s = c :: g ∧ isLetter c = true ∧ ∀ d ∈ g, isLetter d = true ∨ isDig d = true

/-- Letters only, possibly none. -/
def Word (u : Option (List Char)) : Prop := ∀ c ∈ u.getD [], ('A' ≤ c ∧ c ≤ 'Z') ∨ ('a' ≤ c ∧ c ≤ 'z')

/-- The names of the columns of a variable; those of a matrix are row by row. -/
def columns (w : String × Arr β α) : List String :=
  match w.2.dims with
  | [_, di, dj] => (List.range di.data.length).flatMap fun i =>
      (List.range dj.data.length).map fun j => elemNm w.1 (i + 1) (j + 1)
  | _ => [w.1]

/-- Blocks that come back: every variable depends on the sweep `d` alone, or is a matrix that depends on
it; names and units are words, and no name means something else to the reader. -/
structure Tame (st : Sp.Style β α) (b : Block β α) (d : Dim β) : Prop where
  plain : ∀ w ∈ b.vars, ismatrix w.2 = false → w.2.dims = [d] ∧
    ∀ v i j, IsBase v → i < 10 → j < 10 → w.1 ≠ elemNm v i j
  matrix : ∀ w ∈ b.vars, ismatrix w.2 = true → ∃ di dj, w.2.dims = [d, di, dj] ∧
    di.data.length < 10 ∧ dj.data.length < 10 ∧ 1 < di.data.length * dj.data.length ∧ IsBase w.1
  sweep : Ident d.name.toList ∧ Word (d.unit.map String.toList) ∧
    d.name ∉ ["i", "j", "FILEINDEX", "FILENAME", "a1", "a2", "Freq", "Frequency"] ∧
    d.name ∉ b.vars.flatMap columns ∧ d.name ∉ keys b.vars
  names : ∀ w ∈ b.vars, Ident w.1.toList ∧ Word (st.unit w.1) ∧
    w.1 ∉ ["i", "j", "FILEINDEX", "FILENAME"]
  column : ∀ n ∈ b.vars.flatMap columns, n ∉ ["a1", "a2", "Freq", "Frequency"] ∧
    ∀ n' ∈ b.vars.flatMap columns, ∀ i j, isMatrixName n ≠ some (n', i, j)

/-- Numbers in the unit `u` become numbers in the unit `unit` by `f`; `g` is the unit guessed if there is
none. -/
def Rescaled {γ : Type} (mul : ℚ → γ → γ) (u : Option (List Char)) (g : Option String) (f : γ → γ) (unit : Option String) : Prop :=
  if u.getD [] = [] then f = id ∧ unit = g
  else ∃ m base, UnitWord (u.getD []) m base ∧ f = mul m ∧ unit = some (String.ofList base)

/-- `r` is what `b` becomes: complex numbers are the same, but their unit is lost; real numbers are in the
unit without prefix; matrices have no unit any more. -/
def Again (S : Steps β α) (st : Sp.Style β α) (b : Block β α) (d : Dim β) (r : UBlock β α) : Prop :=
  ∃ sw g, lookup r.blk.ivars d.name = some sw ∧ sw.name = d.name ∧ sw.cls = .dimSweep ∧
    Rescaled S.cmul (d.unit.map String.toList) (S.guess d.name) g sw.unit ∧ sw.data = d.data.map g ∧
    (∀ w ∈ b.vars, ∃ a f unit, lookup r.blk.vars w.1 = some a ∧
      (if st.cplx w.1 = true then f = id ∧ unit = S.guess w.1 else Rescaled S.mul (st.unit w.1) (S.guess w.1) f unit) ∧
      if ismatrix w.2 then
        (∃ i j, a.dims = [sw, i, j] ∧ i.name = "i" ∧ j.name = "j" ∧ i.isa .matI = true ∧ j.isa .matJ = true) ∧
        a.nd.shape = w.2.nd.shape ∧ r.units w.1 = none ∧
        ∀ k i j, Nd.Valid w.2.nd.shape [k, i, j] → a.nd.get [k, i, j] = f (w.2.nd.get [k, i, j])
      else
        a.dims = [sw] ∧ a.nd.shape = w.2.nd.shape ∧ r.units w.1 = unit ∧
        ∀ k, Nd.Valid w.2.nd.shape [k] → a.nd.get [k] = f (w.2.nd.get [k])) ∧
    (∀ n ∈ keys r.blk.vars, n ∈ keys b.vars) ∧
    ∀ n ∈ keys r.blk.ivars, n = d.name ∨ n = "i" ∨ n = "j"

end HF.Readers.Treat
