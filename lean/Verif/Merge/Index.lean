import Verif.Merge.Loop
/-
The values of the partial sweeps in the merged block.
-/
namespace HF.Merge

open HF.DataDict.Spec
open HF.DataDict hiding rename delitem
open HF.DataBlock
open HF.Arr hiding Err ofNd getitem

variable {β α : Type}

theorem filterMap_all {δ ε : Type} (f : δ → Option ε) (l : List δ) (h : ∀ a ∈ l, ∃ b, f a = some b) :
    (l.filterMap f).length = l.length ∧ ∀ (i : Nat) a, l[i]? = some a → (l.filterMap f)[i]? = f a := by
  induction l with
  | nil => exact ⟨rfl, fun i a h => by simp at h⟩
  | cons a t ih =>
    obtain ⟨b, hb⟩ := h a (by simp)
    obtain ⟨h1, h2⟩ := ih fun x hx => h x (by simp [hx])
    rw [List.filterMap_cons_some hb]
    refine ⟨by simp [h1], fun i x hx => ?_⟩
    cases i with
    | zero => simp at hx ⊢; rw [← hx, hb]
    | succ i => simp at hx ⊢; exact h2 i x hx

theorem mapM_head (v : List (Dim β)) (h : ∀ d ∈ v, d.data ≠ []) :
    ∃ l, v.mapM (fun d => d.data.head?) = some l ∧
      ∀ (i : Nat) d, v[i]? = some d → l[i]? = d.data.head? := by
  induction v with
  | nil => exact ⟨[], rfl, fun i d h => by simp at h⟩
  | cons d t ih =>
    obtain ⟨l, h1, h2⟩ := ih fun x hx => h x (by simp [hx])
    obtain ⟨x, hx⟩ : ∃ x, d.data.head? = some x := by
      cases hd : d.data with
      | nil => exact absurd hd (h d (by simp))
      | cons x t => exact ⟨x, rfl⟩
    refine ⟨x :: l, by simp [List.mapM_cons, hx, h1], fun i e he => ?_⟩
    cases i with
    | zero => simp at he ⊢; rw [← he, hx]
    | succ i => simp at he ⊢; exact h2 i e he

theorem indexVar_spec (env : Env β α) (ofIdx : Nat → β) (j : Nat) (v : List (Dim β)) (h : ∀ d ∈ v, d.data ≠ []) :
    ∃ a : Arr β α, indexVar env ofIdx j v = .ok a ∧ a.dims = [indexDim ofIdx j v.length] ∧
      a.nd.shape = [v.length] ∧
      ∀ (i : Nat) d x, v[i]? = some d → d.data.head? = some x → a.nd.get [i] = env.toVal x := by
  obtain ⟨l, h1, h2⟩ := mapM_head v h
  refine ⟨⟨[indexDim ofIdx j v.length], ⟨[v.length],
    fun i => (l.map env.toVal).getD (i.headD 0) env.junk⟩⟩, by simp only [indexVar, h1], rfl, rfl, ?_⟩
  intro i d x hd hx
  simp only [List.headD_cons, List.getD_eq_getElem?_getD, List.getElem?_map]
  rw [h2 i d hd, hx]
  rfl

end HF.Merge
