import Verif.Hyper.Props
import Verif.DataBlock.SqueezeProps
/-
From tables to hypercubes: which blocks, and what becomes of them.
-/
namespace HF.Hyper

open HF.DataDict.Spec HF.DataBlock

variable {β α : Type}

/-- The names of the new dimensions. -/
def labels (indexed : Bool) (names : List String) : List String :=
  if indexed then names.map (· ++ "_index") else names

/-- The variables `names` of the block are columns over the dim `rd` of length `n`, with the values `cols`, and
the names `ls` can be given to dimensions. -/
structure IsTable (b : Block β α) (names ls : List String) (rd : Dim β) (n : Nat) (cols : List (List α)) : Prop where
  orderly : Orderly b
  cols : List.Forall₂ (fun x c => ∃ a, lookup b.vars x = some a ∧ a.dims = [rd] ∧ a.nd.shape = [n] ∧ c.length = n ∧
    ∀ i < n, c[i]? = some (a.nd.get [i])) names cols
  axes : ∀ p ∈ b.vars, (p.2.dims.map Dim.name).Nodup ∧
    ∀ d m, (d, m) ∈ p.2.dims.zip p.2.nd.shape → d.name = rd.name → d = rd ∧ m = n
  nodup : ls.Nodup
  fresh : ∀ p ∈ b.vars, ∀ d ∈ p.2.dims, d.name ∉ ls
  over : ∀ p ∈ b.vars, p.1 ∈ ls → rd ∈ p.2.dims

/-- The dimensions of the hypercube. -/
def cubeAxes [LinearOrder α] (env : Env β α) (ls : List String) (cols : List (List α)) : List (Dim β) :=
  List.zipWith (fun x d => ⟨.dimSweep, x, d.map env.toCoord, none, none⟩) ls (newDims cols)

/-- The block `r` is the block `b` as hypercube: the element at the position `ks` along the new axes is that of
the row with the coordinates `vals[0][ks[0]], vals[1][ks[1]], ...`. -/
structure IsCube [LinearOrder α] (env : Env β α) (b : Block β α) (ls : List String) (rd : Dim β) (n : Nat)
    (cols vals : List (List α)) (all : Bool) (r : Block β α) : Prop where
  orderly : Orderly r
  coords : ∀ d ∈ cubeAxes env ls cols, lookup r.ivars d.name = some d ∧ lookup r.vars d.name = none
  spread : ∀ k v pre post sp sq, k ∉ ls → lookup b.vars k = some v → v.dims = pre ++ rd :: post →
    v.nd.shape = sp ++ n :: sq → sp.length = pre.length →
    ∃ a, lookup r.vars k = some a ∧ a.dims = pre ++ cubeAxes env ls cols ++ post ∧
      a.nd.shape = sp ++ (newDims cols).map List.length ++ sq ∧
      ∀ is ks js i, Nd.Valid sp is → Valid ((newDims cols).map List.length) ks → Nd.Valid sq js → i < n →
        RowAt cols vals ks i → a.nd.get (is ++ ks ++ js) = v.nd.get (is ++ i :: js)
  rest : ∀ k v, lookup b.vars k = some v → rd ∉ v.dims → lookup r.vars k = if all then some v else none
  only : ∀ k, lookup b.vars k = none → lookup r.vars k = none
  order : (r.vars.map Prod.fst).Sublist (b.vars.map Prod.fst)
  gone : lookup r.ivars rd.name = none
  ivars : ∀ m, m ∉ ls → m ≠ rd.name →
    lookup r.ivars m = ((r.vars.flatMap fun w => w.2.dims).find? fun d => d.name == m).or (lookup b.ivars m)

end HF.Hyper
