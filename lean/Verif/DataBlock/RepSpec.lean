import Verif.HFArray.Spec
import Verif.DataBlock.SqueezeProps
/-
Blocks with repetitions, and the same data without.
-/
namespace HF.DataBlock

open HF.DataDict.Spec

variable {β α : Type}

/-- The variables that depend on repetitions depend on all of them, in the order in which the block knows them. -/
structure Repeated (b : Block β α) (reps : List (Dim β)) (newname : String) : Prop where
  orderly : Orderly b
  known : (b.ivars.map Prod.snd).filter (fun d => d.isa .dimRep) = reps
  names : ∀ p ∈ b.ivars, p.2.name = p.1
  axes : ∀ p ∈ b.vars, (p.2.dims.map Dim.name).Nodup
  over : ∀ p ∈ b.vars, (∀ d ∈ p.2.dims, d.isa .dimRep = false) ∨
    ∃ pre post sp sq, p.2.dims = pre ++ reps ++ post ∧ (∀ d ∈ pre ++ post, d.isa .dimRep = false) ∧
      p.2.nd.shape = sp ++ reps.map (fun d => d.data.length) ++ sq ∧ sp.length = pre.length
  fresh : newname ∉ b.vars.map Prod.fst ∧ newname ∉ reps.map Dim.name ∧
    ∀ p ∈ b.vars, ∀ d ∈ p.2.dims, d.isa .dimRep = false → d.name ≠ newname ∧ d.name ∉ reps.map Dim.name
  elems : ∀ n ∈ reps.map Dim.name ++ b.vars.map Prod.fst, ∀ m i j, isMatrixName n = some (m, i, j) →
    m ∉ reps.map Dim.name ++ b.vars.map Prod.fst

/-- The block `r` is the block `b` with the repetitions counted through: at the number `ravel ks` there is what was
at the repetitions `ks`, and a variable for each kind of repetition tells its coordinate. -/
structure Listed (env : Env β α) (b : Block β α) (reps : List (Dim β)) (new : Dim β) (r : Block β α) : Prop where
  order : r.vars.map Prod.fst = reps.map Dim.name ++ b.vars.map Prod.fst
  columns : ∀ j d, reps[j]? = some d → ∃ a, lookup r.vars d.name = some a ∧ a.dims = [new] ∧
    a.nd.shape = [Nd.size (reps.map fun d => d.data.length)] ∧
    ∀ ks, Nd.Valid (reps.map fun d => d.data.length) ks →
      some (a.nd.get [Nd.ravel (reps.map fun d => d.data.length) ks]) = (d.data[ks.getD j 0]?).map env.toVal
  vars : ∀ k v pre post sp sq, reps ≠ [] → lookup b.vars k = some v → v.dims = pre ++ reps ++ post →
    (∀ d ∈ pre ++ post, d.isa .dimRep = false) →
    v.nd.shape = sp ++ reps.map (fun d => d.data.length) ++ sq → sp.length = pre.length →
    ∃ a, lookup r.vars k = some a ∧ a.dims = pre ++ new :: post ∧
      a.nd.shape = sp ++ Nd.size (reps.map fun d => d.data.length) :: sq ∧
      ∀ is ks js, Nd.Valid sp is → Nd.Valid (reps.map fun d => d.data.length) ks → Nd.Valid sq js →
        a.nd.get (is ++ Nd.ravel (reps.map fun d => d.data.length) ks :: js) = v.nd.get (is ++ ks ++ js)
  rest : ∀ k v, lookup b.vars k = some v → (∀ d ∈ v.dims, d.isa .dimRep = false) → lookup r.vars k = some v
  ivars : ∀ n, lookup r.ivars n = (r.vars.flatMap fun w => w.2.dims).find? fun d => d.name == n

end HF.DataBlock
