import Mathlib.Data.List.Basic
import Mathlib.Data.List.Nodup
import Mathlib.Order.Defs.LinearOrder
import Verif.Utils.Model
/-
C15: unique elements and flattening.
-/
namespace HF
namespace Utils

section Uniq

variable {α : Type} [DecidableEq α]

theorem fold_spec (l acc : List α) (hacc : acc.Nodup) :
    let r := l.foldl (fun out x => if x ∈ out then out else out ++ [x]) acc
    r.Nodup ∧ (∀ a, a ∈ r ↔ a ∈ acc ∨ a ∈ l) ∧ ∃ s, r = acc ++ s ∧ s.Sublist l ∧
      s = (l.zipIdx.filter fun p => p.1 ∉ acc ∧ p.1 ∉ l.take p.2).map Prod.fst := by
  induction l generalizing acc with
  | nil => simp [hacc]
  | cons x t ih =>
    simp only [List.foldl_cons]
    have hz : ∀ (q : α → Bool) (acc' : List α), (∀ y, q y = decide (y ∉ acc')) →
        ((t.zipIdx 1).filter fun p => decide (p.1 ∉ acc ∧ p.1 ∉ (x :: t).take p.2)).map Prod.fst =
        ((t.zipIdx).filter fun p => decide (p.1 ∉ x :: acc ∧ p.1 ∉ t.take p.2)).map Prod.fst := by
      intro _ _ _
      rw [List.zipIdx_succ, List.filter_map, List.map_map]
      congr 1
      apply List.filter_congr
      rintro ⟨a, i⟩ _
      by_cases h1 : a ∈ acc <;> by_cases h2 : a = x <;> simp [h1, h2]
    by_cases h : x ∈ acc
    · simp only [h, if_true]
      obtain ⟨h1, h2, s, h3, h4, h5⟩ := ih acc hacc
      refine ⟨h1, fun a => ?_, s, h3, h4.cons x, ?_⟩
      · rw [h2]; simp only [List.mem_cons]
        constructor
        · tauto
        · rintro (ha | rfl | ha) <;> tauto
      · rw [List.zipIdx_cons, List.filter_cons]
        simp only [h, not_true, false_and, decide_false, Bool.false_eq_true, if_false]
        rw [Nat.zero_add, hz (fun y => decide (y ∉ acc)) acc (fun _ => rfl), h5]
        congr 1
        apply List.filter_congr
        rintro ⟨a, i⟩ _
        simp only [List.mem_cons, not_or, decide_eq_decide]
        constructor
        · rintro ⟨p, q⟩; exact ⟨⟨fun e => p (e ▸ h), p⟩, q⟩
        · rintro ⟨⟨_, p⟩, q⟩; exact ⟨p, q⟩
    · simp only [h, if_false]
      have hacc' : (acc ++ [x]).Nodup := by
        rw [List.nodup_append]
        refine ⟨hacc, by simp, ?_⟩
        intro a ha b hb
        simp at hb; subst hb
        rintro rfl; exact h ha
      obtain ⟨h1, h2, s, h3, h4, h5⟩ := ih (acc ++ [x]) hacc'
      refine ⟨h1, fun a => ?_, x :: s, by rw [h3]; simp, h4.cons_cons x, ?_⟩
      · rw [h2]; simp only [List.mem_append, List.mem_cons, List.not_mem_nil, or_false]; tauto
      · rw [List.zipIdx_cons, List.filter_cons]
        simp only [h, not_false_eq_true, List.take_zero, List.not_mem_nil, and_self, decide_true,
          if_true, List.map_cons]
        congr 1
        rw [Nat.zero_add, hz (fun y => decide (y ∉ acc)) acc (fun _ => rfl), h5]
        congr 1
        apply List.filter_congr
        rintro ⟨a, i⟩ _
        simp only [List.mem_cons, List.mem_append, List.not_mem_nil, or_false, decide_eq_decide,
          not_or]
        tauto

/-- C15.  `stable_uniq`: no duplicates, the same elements, in the order of the input. -/
theorem C15_stable_uniq (l : List α) :
    (stableUniq l).Nodup ∧ (∀ a, a ∈ stableUniq l ↔ a ∈ l) ∧ (stableUniq l).Sublist l := by
  obtain ⟨h1, h2, s, h3, h4, _⟩ := fold_spec l [] (by simp)
  refine ⟨h1, fun a => by simpa [stableUniq] using h2 a, ?_⟩
  unfold stableUniq
  rw [h3]; simpa using h4

/-- C15.  It is the *first* occurrence of every element that is kept. -/
theorem C15_stable_uniq_first (l : List α) :
    stableUniq l = (l.zipIdx.filter fun p => p.1 ∉ l.take p.2).map Prod.fst := by
  obtain ⟨_, _, s, h3, _, h5⟩ := fold_spec l [] (by simp)
  unfold stableUniq
  rw [h3, h5]
  simp

/-- C15.  On input without duplicates nothing changes; hence it is idempotent. -/
theorem C15_stable_uniq_fixed (l : List α) (h : l.Nodup) : stableUniq l = l := by
  rw [C15_stable_uniq_first]
  have : l.zipIdx.filter (fun p => decide (p.1 ∉ l.take p.2)) = l.zipIdx := by
    rw [List.filter_eq_self]
    rintro ⟨a, i⟩ hm
    have := List.mem_zipIdx' hm
    simp only [decide_eq_true_eq]
    intro hc
    obtain ⟨j, hj, he⟩ := List.getElem_of_mem hc
    simp only [List.length_take] at hj
    rw [List.getElem_take] at he
    have := (List.Nodup.getElem_inj_iff h).1 (he.trans this.2)
    omega
  rw [this, List.zipIdx_map_fst]

theorem C15_stable_uniq_idempotent (l : List α) : stableUniq (stableUniq l) = stableUniq l :=
  C15_stable_uniq_fixed _ (C15_stable_uniq l).1

end Uniq

/-- What python guarantees about the enumeration of a set: every element once. -/
def IsSetEnum {α : Type} (setOf : List α → List α) : Prop :=
  ∀ l, (setOf l).Nodup ∧ ∀ a, a ∈ setOf l ↔ a ∈ l

/-- C15.  `uniq`: whatever the enumeration order of sets, the result has the same elements and
is strictly increasing. -/
theorem C15_uniq {α : Type} [LinearOrder α] (setOf : List α → List α) (hs : IsSetEnum setOf)
    (l : List α) :
    (uniq (fun a b => decide (a ≤ b)) setOf l).Pairwise (· < ·) ∧
      ∀ a, a ∈ uniq (fun a b => decide (a ≤ b)) setOf l ↔ a ∈ l := by
  have hp : (uniq (fun a b => decide (a ≤ b)) setOf l).Perm (setOf l) := List.mergeSort_perm _ _
  constructor
  · have h1 : (uniq (fun a b => decide (a ≤ b)) setOf l).Pairwise (fun a b => decide (a ≤ b) = true) := by
      apply List.pairwise_mergeSort
      · intro a b c h1 h2; simp at *; exact le_trans h1 h2
      · intro a b; simp; exact le_total a b
    have h2 : (uniq (fun a b => decide (a ≤ b)) setOf l).Nodup := hp.nodup_iff.2 (hs l).1
    refine (h1.and h2).imp ?_
    rintro a b ⟨h, hne⟩
    exact lt_of_le_of_ne (by simpa using h) hne
  · intro a; rw [hp.mem_iff, (hs l).2]

/-- C15.  The result of `uniq` does not depend on the enumeration order of sets. -/
theorem C15_uniq_deterministic {α : Type} [LinearOrder α] (s t : List α → List α)
    (hs : IsSetEnum s) (ht : IsSetEnum t) (l : List α) :
    uniq (fun a b => decide (a ≤ b)) s l = uniq (fun a b => decide (a ≤ b)) t l := by
  obtain ⟨a1, a2⟩ := C15_uniq s hs l
  obtain ⟨b1, b2⟩ := C15_uniq t ht l
  apply List.Perm.eq_of_pairwise (le := (· < ·)) _ a1 b1
  · rw [List.perm_ext_iff_of_nodup (a1.imp ne_of_lt) (b1.imp ne_of_lt)]
    intro a; rw [a2, b2]
  · intro a b _ _ h1 h2; exact absurd h1 (lt_asymm h2)

/-! ### flatten -/

/-- The leaves of a nested list, left to right, as a relation: the empty list has none, the
leaves of a list are those of its first element followed by those of the rest. -/
inductive Leaves {α : Type} : List (Nested α) → List α → Prop
  | nil : Leaves [] []
  | leaf {a t l} : Leaves t l → Leaves (.leaf a :: t) (a :: l)
  | node {n t l m} : Leaves n l → Leaves t m → Leaves (.node n :: t) (l ++ m)

/-- C15.  `flatten` returns exactly the leaves, left to right. -/
theorem C15_flatten {α : Type} (l : List (Nested α)) (r : List α) :
    flatten l = r ↔ Leaves l r := by
  constructor
  · rintro rfl
    fun_induction flatten l with
    | case1 => exact .nil
    | case2 l t ih1 ih2 => exact .node ih1 ih2
    | case3 a t ih => exact .leaf ih
  · intro h
    induction h with
    | nil => simp [flatten]
    | leaf _ ih => simp [flatten, ih]
    | node _ _ ih1 ih2 => simp [flatten, ih1, ih2]

/-- C15.  A flat list is unchanged, and flattening respects concatenation. -/
theorem C15_flatten_flat {α : Type} (l : List α) : flatten (l.map .leaf) = l := by
  induction l with
  | nil => simp [flatten]
  | cons a t ih => simp [flatten, ih]

theorem C15_flatten_append {α : Type} (l m : List (Nested α)) :
    flatten (l ++ m) = flatten l ++ flatten m := by
  induction l with
  | nil => simp [flatten]
  | cons a t ih => cases a <;> simp [flatten, ih]

/-! Non-vacuity -/

example : stableUniq [3, 1, 3, 2, 1] = [3, 1, 2] := by decide

example : IsSetEnum (fun l : List Nat => (stableUniq l).reverse) := by
  intro l
  obtain ⟨h1, h2, _⟩ := C15_stable_uniq l
  exact ⟨by simpa using h1, by simpa using h2⟩

example : Leaves [.leaf 1, .node [.leaf 2, .node []], .leaf 3] [1, 2, 3] :=
  .leaf (.node (l := [2]) (.leaf (.node .nil .nil)) (.leaf .nil))

end Utils
end HF
