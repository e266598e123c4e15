/-
Python's `sorted` and lexicographic comparison.  Nothing here is hftools code.
-/
namespace HF
namespace Py

variable {α : Type}

/-- Insert before the first element which is not smaller. -/
def insertBy (lt : α → α → Bool) (a : α) : List α → List α
  | [] => [a]
  | b :: t => if lt b a then b :: insertBy lt a t else a :: b :: t

/-- `sorted(l)` for a comparison `lt` (stable). -/
def sortBy (lt : α → α → Bool) (l : List α) : List α := l.foldr (insertBy lt) []

/-- Lexicographic comparison of sequences. -/
def lexLt [DecidableEq α] (lt : α → α → Bool) : List α → List α → Bool
  | _, [] => false
  | [], _ :: _ => true
  | a :: s, b :: t => if a = b then lexLt lt s t else lt a b

/-- The comparison is a strict total order on the elements satisfying `S`. -/
structure StrictTotal (S : α → Prop) (lt : α → α → Bool) : Prop where
  irrefl : ∀ a, S a → lt a a = false
  trans : ∀ a b c, S a → S b → S c → lt a b = true → lt b c = true → lt a c = true
  tri : ∀ a b, S a → S b → a ≠ b → lt a b = true ∨ lt b a = true

theorem StrictTotal.asymm {S : α → Prop} {lt : α → α → Bool} (h : StrictTotal S lt) {a b : α}
    (ha : S a) (hb : S b) (hab : lt a b = true) : lt b a = false := by
  cases hba : lt b a with
  | false => rfl
  | true =>
    have := h.trans a b a ha hb ha hab hba
    rw [h.irrefl a ha] at this; cases this

theorem insertBy_perm (lt : α → α → Bool) (a : α) (l : List α) :
    (insertBy lt a l).Perm (a :: l) := by
  induction l with
  | nil => exact List.Perm.refl _
  | cons b t ih =>
    simp only [insertBy]
    split
    · exact (ih.cons b).trans (List.Perm.swap a b t)
    · exact List.Perm.refl _

theorem sortBy_perm (lt : α → α → Bool) (l : List α) : (sortBy lt l).Perm l := by
  induction l with
  | nil => exact List.Perm.refl _
  | cons a t ih =>
    simp only [sortBy, List.foldr_cons]
    exact (insertBy_perm lt a _).trans (List.Perm.cons a ih)

/-- Sortedness needs only: `lt` is asymmetric and "not smaller" is transitive, on the members. -/
theorem insertBy_sorted {lt : α → α → Bool} {a : α} {l : List α}
    (htr : ∀ x ∈ a :: l, ∀ y ∈ a :: l, ∀ z ∈ a :: l, lt y x = false → lt z y = false → lt z x = false)
    (has : ∀ x ∈ a :: l, ∀ y ∈ a :: l, lt x y = true → lt y x = false)
    (hs : l.Pairwise fun x y => lt y x = false) :
    (insertBy lt a l).Pairwise fun x y => lt y x = false := by
  induction l with
  | nil => simp [insertBy]
  | cons b t ih =>
    rw [List.pairwise_cons] at hs
    simp only [insertBy]
    split
    · rename_i hba
      rw [List.pairwise_cons]
      refine ⟨?_, ih ?_ ?_ hs.2⟩
      · intro x hx
        rcases List.mem_cons.1 ((insertBy_perm lt a t).mem_iff.1 hx) with rfl | hx
        · exact has _ (by simp) _ (by simp) hba
        · exact hs.1 x hx
      · intro x hx y hy z hz
        exact htr x (by simp at hx ⊢; rcases hx with h | h <;> simp [h])
          y (by simp at hy ⊢; rcases hy with h | h <;> simp [h])
          z (by simp at hz ⊢; rcases hz with h | h <;> simp [h])
      · intro x hx y hy
        exact has x (by simp at hx ⊢; rcases hx with h | h <;> simp [h])
          y (by simp at hy ⊢; rcases hy with h | h <;> simp [h])
    · rename_i hba
      rw [List.pairwise_cons]
      refine ⟨?_, List.pairwise_cons.2 hs⟩
      intro x hx
      have hba' : lt b a = false := by simpa using hba
      rcases List.mem_cons.1 hx with rfl | hx'
      · exact hba'
      · exact htr a (by simp) b (by simp) x (by simp [hx']) hba' (hs.1 x hx')

theorem sortBy_sorted {lt : α → α → Bool} {l : List α}
    (htr : ∀ x ∈ l, ∀ y ∈ l, ∀ z ∈ l, lt y x = false → lt z y = false → lt z x = false)
    (has : ∀ x ∈ l, ∀ y ∈ l, lt x y = true → lt y x = false) :
    (sortBy lt l).Pairwise fun x y => lt y x = false := by
  induction l with
  | nil => simp [sortBy]
  | cons a t ih =>
    have hp : ∀ x, x ∈ a :: sortBy lt t → x ∈ a :: t := by
      intro x hx
      rcases List.mem_cons.1 hx with rfl | h
      · simp
      · simp [(sortBy_perm lt t).mem_iff.1 h]
    have := ih (fun x hx y hy z hz => htr x (by simp [hx]) y (by simp [hy]) z (by simp [hz]))
      (fun x hx y hy => has x (by simp [hx]) y (by simp [hy]))
    exact insertBy_sorted (fun x hx y hy z hz => htr x (hp x hx) y (hp y hy) z (hp z hz))
      (fun x hx y hy => has x (hp x hx) y (hp y hy)) this

theorem StrictTotal.negTrans {S : α → Prop} {lt : α → α → Bool} (h : StrictTotal S lt)
    {x y z : α} (hx : S x) (hy : S y) (hz : S z) (h1 : lt y x = false) (h2 : lt z y = false) :
    lt z x = false := by
  cases hzx : lt z x with
  | false => rfl
  | true =>
    by_cases hxy : x = y
    · subst hxy; rw [h2] at hzx; cases hzx
    · rcases h.tri x y hx hy hxy with h3 | h3
      · have := h.trans z x y hz hx hy hzx h3
        rw [h2] at this; cases this
      · rw [h1] at h3; cases h3

/-- Sorting with a strict total order. -/
theorem sortBy_sorted_total {S : α → Prop} {lt : α → α → Bool} (h : StrictTotal S lt) {l : List α}
    (hl : ∀ x ∈ l, S x) : (sortBy lt l).Pairwise fun x y => lt y x = false :=
  sortBy_sorted (fun x hx y hy z hz => h.negTrans (hl x hx) (hl y hy) (hl z hz))
    (fun x hx y hy => h.asymm (hl x hx) (hl y hy))

theorem insertBy_congr {lt lt' : α → α → Bool} {a : α} {l : List α}
    (h : ∀ b ∈ l, lt b a = lt' b a) : insertBy lt a l = insertBy lt' a l := by
  induction l with
  | nil => rfl
  | cons b t ih =>
    simp only [insertBy, h b (by simp)]
    split
    · rw [ih fun c hc => h c (by simp [hc])]
    · rfl

theorem sortBy_congr {lt lt' : α → α → Bool} {l : List α}
    (h : ∀ a ∈ l, ∀ b ∈ l, lt a b = lt' a b) : sortBy lt l = sortBy lt' l := by
  induction l with
  | nil => rfl
  | cons a t ih =>
    have := ih fun x hx y hy => h x (by simp [hx]) y (by simp [hy])
    simp only [sortBy, List.foldr_cons] at this ⊢
    rw [this]
    apply insertBy_congr
    intro b hb
    have hb' : b ∈ t := (sortBy_perm lt' t).mem_iff.1 hb
    exact h b (by simp [hb']) a (by simp)

/-- Lexicographic comparison is a strict total order if the comparison of elements is. -/
theorem lexLt_total [DecidableEq α] {S : α → Prop} {lt : α → α → Bool} (h : StrictTotal S lt) :
    StrictTotal (fun l : List α => ∀ a ∈ l, S a) (lexLt lt) where
  irrefl := by
    intro l _
    induction l with
    | nil => rfl
    | cons a t ih => simp only [lexLt, if_true]; exact ih (by simp_all)
  trans := by
    intro a b c
    induction a generalizing b c with
    | nil =>
      intro _ _ _ h1 h2
      cases b with
      | nil => simp [lexLt] at h1
      | cons y b => cases c with
        | nil => simp [lexLt] at h2
        | cons => rfl
    | cons x a ih =>
      intro ha hb hc h1 h2
      cases b with
      | nil => simp [lexLt] at h1
      | cons y b =>
        cases c with
        | nil => simp [lexLt] at h2
        | cons z c =>
          simp only [lexLt] at h1 h2 ⊢
          have sx := ha x (by simp)
          have sy := hb y (by simp)
          have sz := hc z (by simp)
          by_cases hxy : x = y
          · subst hxy
            simp only [if_true] at h1
            by_cases hxz : x = z
            · subst hxz
              simp only [if_true] at h2 ⊢
              exact ih b c (fun q hq => ha q (by simp [hq])) (fun q hq => hb q (by simp [hq]))
                (fun q hq => hc q (by simp [hq])) h1 h2
            · simpa only [hxz, if_false] using h2
          · simp only [hxy, if_false] at h1
            by_cases hyz : y = z
            · subst hyz
              simpa only [hxy, if_false] using h1
            · simp only [hyz, if_false] at h2
              have h3 := h.trans x y z sx sy sz h1 h2
              by_cases hxz : x = z
              · subst hxz
                rw [h.irrefl x sx] at h3; cases h3
              · simpa only [hxz, if_false] using h3
  tri := by
    intro a b
    induction a generalizing b with
    | nil =>
      intro _ _ hne
      cases b with
      | nil => exact absurd rfl hne
      | cons => exact Or.inl rfl
    | cons x a ih =>
      intro ha hb hne
      cases b with
      | nil => exact Or.inr rfl
      | cons y b =>
        simp only [lexLt]
        by_cases hxy : x = y
        · subst hxy
          simp only [if_true]
          exact ih b (fun q hq => ha q (by simp [hq])) (fun q hq => hb q (by simp [hq]))
            (by simpa using hne)
        · have hyx : ¬ y = x := fun h => hxy h.symm
          simp only [hxy, hyx, if_false]
          exact h.tri x y (ha x (by simp)) (hb y (by simp)) hxy

/-- Two strictly sorted lists with the same elements are equal. -/
theorem sorted_unique {S : α → Prop} {lt : α → α → Bool} (h : StrictTotal S lt) {l m : List α}
    (hl : ∀ x ∈ l, S x) (hm : ∀ x ∈ m, S x) (hp : l.Perm m)
    (h1 : l.Pairwise fun x y => lt y x = false) (h2 : m.Pairwise fun x y => lt y x = false) :
    l = m := by
  induction l generalizing m with
  | nil => exact (List.nil_perm.1 hp).symm
  | cons a t ih =>
    cases m with
    | nil => exact absurd hp.length_eq (by simp)
    | cons b u =>
      rw [List.pairwise_cons] at h1 h2
      have hab : a = b := by
        have ha : a ∈ b :: u := hp.mem_iff.1 (by simp)
        have hb : b ∈ a :: t := hp.mem_iff.2 (by simp)
        rcases List.mem_cons.1 ha with e | ha'
        · exact e
        rcases List.mem_cons.1 hb with e | hb'
        · exact e.symm
        by_cases e : a = b
        · exact e
        have e1 := h1.1 b hb'
        have e2 := h2.1 a ha'
        rcases h.tri a b (hl a (by simp)) (hm b (by simp)) e with e3 | e3
        · rw [e2] at e3; cases e3
        · rw [e1] at e3; cases e3
      subst hab
      rw [ih (fun x hx => hl x (by simp [hx])) (fun x hx => hm x (by simp [hx]))
        (List.Perm.cons_inv hp) h1.2 h2.2]

end Py
end HF
