import Verif.DataBlock.Model
import Verif.DataBlock.Writes
import Verif.Utils.Sort
import Mathlib.Data.List.Dedup
/-
Splitting a block into blocks with consistent dimensions.

repo: hftools/dataset/dataset.py:44-68
-/
namespace HF.DataBlock

variable {β α : Type} [DecidableEq β]

/-- `set(a) == set(b)`.  Simplification: dimensions are compared with all their fields; python's
comparison ignores differences of the output format (see C05). -/
def setEq (a b : List (Dim β)) : Bool := (a.all fun d => decide (d ∈ b)) && b.all fun d => decide (d ∈ a)

/-- Which variables `subset_datablock_by_dims` takes.  repo: hftools/dataset/dataset.py:51-55 -/
def fitsDims (dims : List (Dim β)) (w : String × Arr β α) : Bool :=
  setEq w.2.dims dims || setEq w.2.dims dims.tail

/-- repo: hftools/dataset/dataset.py:44-56 -/
def subsetByDims (env : Env β α) (b : Block β α) (dims : List (Dim β)) : Except Err (Block β α) :=
  if dims.Nodup then writes env {} (b.vars.filter (fitsDims dims)) else .error .valueError

/-- The order in which python enumerates a set is arbitrary: some rearrangement of its members,
which may depend on the set. -/
structure Enum (δ : Type) where
  f : List δ → List δ
  perm : ∀ l, (f l).Perm l

/-- `sorted(dimset, key=len)[-1]`.  repo: hftools/dataset/dataset.py:64 -/
def longest (en : Enum (List (Dim β))) (s : List (List (Dim β))) : Option (List (Dim β)) :=
  (Py.sortBy (fun a b => decide (a.length < b.length)) (en.f s)).getLast?

/-- The set without `longest` and, if that has more than one dimension, without its tail.
repo: hftools/dataset/dataset.py:66-68 -/
def discard (s : List (List (Dim β))) (l : List (Dim β)) : List (List (Dim β)) :=
  let s := s.filter (· ≠ l)
  if l.length > 1 then s.filter (· ≠ l.tail) else s

theorem longest_mem (en : Enum (List (Dim β))) (s : List (List (Dim β))) (l : List (Dim β))
    (h : longest en s = some l) : l ∈ s := by
  have := List.mem_of_getLast? h
  exact (en.perm s).mem_iff.1 ((Py.sortBy_perm _ _).mem_iff.1 this)

theorem discard_lt (s : List (List (Dim β))) (l : List (Dim β)) (h : l ∈ s) :
    (discard s l).length < s.length := by
  have h1 : (s.filter (· ≠ l)).length < s.length := by
    refine List.length_filter_lt_length_iff_exists.2 ⟨l, h, by simp⟩
  simp only [discard]
  split
  · exact Nat.lt_of_le_of_lt (List.length_filter_le _ _) h1
  · exact h1

/-- The dimension tuples that are yielded, in order.  repo: hftools/dataset/dataset.py:63-68 -/
def yields (en : Enum (List (Dim β))) (s : List (List (Dim β))) : List (List (Dim β)) :=
  match h : longest en s with
  | none => []
  | some l => l :: yields en (discard s l)
  termination_by s.length
  decreasing_by exact discard_lt s l (longest_mem en s l h)

/-- repo: hftools/dataset/dataset.py:59-68.  The generator is run to its end. -/
def splitBlock (env : Env β α) (en : Enum (List (Dim β))) (b : Block β α) :
    List (List (Dim β) × Except Err (Block β α)) :=
  (yields en (b.vars.map fun w => w.2.dims).dedup).map fun l => (l, subsetByDims env b l)

end HF.DataBlock
