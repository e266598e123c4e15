import Verif.Mdif.Write
import Verif.Mdif.ReadProps
/-
MDIF files: which blocks can be saved and what is found in the file.
-/
namespace HF.Mdif

open HF.DataDict.Spec HF.DataBlock
open Text (IsWord)

variable {β α : Type}

/-- The number is printed as a word that is read as this number. -/
structure Back (pr : Printer α β) (num : Num α) (n : String) (x : α) (w : List Char) : Prop where
  printed : pr.num n x = some w
  word : IsWord w
  quotes : stripQ w = w
  noEq : '=' ∉ w
  first : ∀ c ∈ w.head?, c ∉ ['!', '%', '#', 'B', 'E', 'V']
  back : num.real w = some x

/-- The value of the variable is printed as one word, or as two for a complex variable, which are read as
this value. -/
def Survives (pr : Printer α β) (num : Num α) (n : String) (x : α) : Prop :=
  if pr.cplx n then ∃ u v, Back pr num n (pr.re x) u ∧ Back pr num n (pr.im x) v ∧ num.cplx (pr.re x) (pr.im x) = x
  else ∃ w, Back pr num n x w

/-- A name that can be written in front of its type. -/
structure Plain (n : List Char) : Prop where
  word : IsWord n
  noPar : '(' ∉ n
  noEq : '=' ∉ n

/-- Blocks that can be saved: all variables are over the same sweeps `d :: ds` or over all but the first, and there
are such and such; the coordinates of all sweeps but the first are 0, 1, 2, ... -/
structure Savable (env : Env β α) (pr : Printer α β) (num : Num α) (d : Dim β) (ds : List (Dim β))
    (vs : List (String × Arr β α)) : Prop where
  dims : ∀ v ∈ vs, v.2.dims = d :: ds ∨ v.2.dims = ds
  column : ∃ v ∈ vs, v.2.dims = d :: ds
  attrib : ∃ v ∈ vs, v.2.dims = ds
  shape : ∀ v ∈ vs, v.2.nd.shape = v.2.dims.map fun x => x.data.length
  counted : ∀ x ∈ ds, ∀ (k : Nat) c, x.data[k]? = some c → pr.index c = some (k : Int)
  nonempty : ∀ x ∈ d :: ds, x.data ≠ []
  coords : ∀ c ∈ d.data, Survives pr num d.name (env.toVal c)
  settings : ∀ x ∈ ds, ∀ c ∈ x.data, ∃ w, Back pr num x.name (env.toVal c) w
  values : ∀ v ∈ vs, ∀ idx, Nd.Valid v.2.nd.shape idx → Survives pr num v.1 (v.2.nd.get idx)
  real : ∀ v ∈ vs, v.2.dims = ds → pr.cplx v.1 = false
  nodup : (vs.map Prod.fst).Nodup
  nodupDims : ((d :: ds).map Dim.name).Nodup
  disjoint : ∀ v ∈ vs, v.1 ∉ (d :: ds).map Dim.name
  elems : ∀ v ∈ vs, ∀ m i j, isMatrixName v.1 = some (m, i, j) → m ∉ vs.map Prod.fst
  plain : ∀ n ∈ vs.map Prod.fst ++ (d :: ds).map Dim.name, Plain n.toList
  sweepAttrib : ∀ v ∈ vs, v.2.dims = ds → ¬ ['S', 'W', 'E', 'E', 'P', '.'] <+: v.1.toList
  sweepDim : ¬ ['s', 'w', 'e', 'e', 'p', '.'] <+: d.name.toList.map Char.toLower

/-- The positions in an array, the last index running fastest. -/
def positions : List Nat → List (List Nat)
  | [] => [[]]
  | n :: ns => (List.range n).flatMap fun i => (positions ns).map (i :: ·)

/-- The part of the variables at a position of the sweeps `ds`, as it is read. -/
structure IsSlice [DecidableEq β] (env : Env β α) (d : Dim β) (ds : List (Dim β)) (vs : List (String × Arr β α))
    (idx : List Nat) (p : Parsed β α) : Prop where
  name : p.name = "DATABLOCK".toList
  keys : p.block.vars.map Prod.fst =
    (vs.filter fun v => v.2.dims = d :: ds).map Prod.fst ++ (vs.filter fun v => v.2.dims = ds).map Prod.fst
  columns : ∀ v ∈ vs, v.2.dims = d :: ds → ∃ a, lookup p.block.vars v.1 = some a ∧
    a.dims = [⟨.dimSweep, d.name, d.data.map fun c => env.toCoord (env.toVal c), none, none⟩] ∧
    a.nd.shape = [d.data.length] ∧ ∀ r < d.data.length, a.nd.get [r] = v.2.nd.get (r :: idx)
  attribs : ∀ v ∈ vs, v.2.dims = ds → ∃ a, lookup p.block.vars v.1 = some a ∧ a.dims = [] ∧ a.nd.shape = [] ∧
    a.nd.get [] = v.2.nd.get idx
  sweep : lookup p.block.ivars d.name =
    some ⟨.dimSweep, d.name, d.data.map fun c => env.toCoord (env.toVal c), none, none⟩
  settings : ∀ (k : Nat) x i c, ds[k]? = some x → idx[k]? = some i → x.data[i]? = some c →
    lookup p.block.ivars x.name = some ⟨.dimPartial, x.name, [env.toCoord (env.toVal c)], none, none⟩
  others : ∀ n, n ∉ (d :: ds).map Dim.name → lookup p.block.ivars n = none
  once : (p.block.ivars.map Prod.fst).Nodup

end HF.Mdif
