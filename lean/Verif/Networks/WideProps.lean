import Verif.Networks.Wide
import Verif.Networks.CascadeProps
import Mathlib.LinearAlgebra.Matrix.Determinant.Basic
/-
C112: cascading and de-embedding of scattering matrices with other numbers of ports than two.
-/
noncomputable section

namespace HF.Networks

open Matrix

variable {K : Type} [Field K] [DecidableEq K]

/-! ### Specification -/

/-- The first two ports of a network with `m + 2` ports. -/
def firstTwo {m : Nat} (S : Matrix (Fin (m + 2)) (Fin (m + 2)) K) : M2 K := !![S 0 0, S 0 1; S 1 0, S 1 1]

/-- Two ports and a third one that is connected to nothing and has the reflection `r`. -/
def besides (A : M2 K) (r : K) : Matrix (Fin 3) (Fin 3) K := !![A 0 0, A 0 1, 0; A 1 0, A 1 1, 0; 0, 0, r]

/-- Results of the model with two ports and of this one. -/
def Agree {m : Nat} : Option (M2 K) → Except WErr (Matrix (Fin (m + 2)) (Fin (m + 2)) K) → Prop
  | some R, .ok R' => firstTwo R' = R
  | none, .error e => e = .division
  | _, _ => False

/-! ### Theorems -/

/-- C112: a network with one port, or none: an IndexError. -/
theorem C112_oneport (st : K → K) (n : Nat) (hn : n < 2) (A B : Matrix (Fin n) (Fin n) K) :
    cascadeWide st n A B = .error .indexError ∧ deembedleftWide st n A B = .error .indexError ∧
    deembedrightWide st n A B = .error .indexError := by
  have h : ¬ 2 ≤ n := by omega
  exact ⟨dif_neg h, dif_neg h, dif_neg h⟩

/-- C112: two ports: what `Networks/Cascade` says. -/
theorem C112_twoport (st : K → K) (A B : M2 K) :
    Agree (m := 0) (cascadeS st A B []) (cascadeWide st 2 A B) ∧
    Agree (m := 0) (deembedleft st A B) (deembedleftWide st 2 A B) ∧
    Agree (m := 0) (deembedright st A B) (deembedrightWide st 2 A B) := by
  refine ⟨?_, ?_, ?_⟩
  · unfold cascadeS cascadeWide
    rw [dif_pos (Nat.le_refl 2)]
    by_cases h : 1 - A 1 1 * B 0 0 = 0
    · simp [Agree, h]
    · simp [Agree, h, firstTwo, topLeft]
  · unfold deembedleft deembedleftWide
    rw [dif_pos (Nat.le_refl 2)]
    by_cases h : A 0 1 * A 1 0 - A 0 0 * A 1 1 + A 1 1 * B 0 0 = 0
    · simp [Agree, h]
    · simp [Agree, h, firstTwo, topLeft, setAt]
  · unfold deembedright deembedrightWide
    rw [dif_pos (Nat.le_refl 2)]
    by_cases h : B 0 1 * B 1 0 - B 0 0 * B 1 1 + B 0 0 * A 1 1 = 0
    · simp [Agree, h]
    · simp [Agree, h, firstTwo, topLeft, setAt]

/-- C112: de-embedding with any number of ports: at the first two ports it is that of the first two ports of both
networks. -/
theorem C112_deembed (st : K → K) (m : Nat) (A B : Matrix (Fin (m + 2)) (Fin (m + 2)) K) :
    Agree (deembedleft st (firstTwo A) (firstTwo B)) (deembedleftWide st (m + 2) A B) ∧
    Agree (deembedright st (firstTwo A) (firstTwo B)) (deembedrightWide st (m + 2) A B) := by
  have e1 : (⟨1, by omega⟩ : Fin (m + 2)) = 1 := rfl
  have e0 : (⟨0, by omega⟩ : Fin (m + 2)) = 0 := rfl
  constructor
  · unfold deembedleft deembedleftWide
    rw [dif_pos (by omega)]
    by_cases h : A 0 1 * A 1 0 - A 0 0 * A 1 1 + A 1 1 * B 0 0 = 0
    · simp [Agree, h, firstTwo, e0, e1]
    · simp [Agree, h, firstTwo, topLeft, setAt, e0, e1]
  · unfold deembedright deembedrightWide
    rw [dif_pos (by omega)]
    by_cases h : B 0 1 * B 1 0 - B 0 0 * B 1 1 + B 0 0 * A 1 1 = 0
    · simp [Agree, h, firstTwo, e0, e1]
    · simp [Agree, h, firstTwo, topLeft, setAt, e0, e1]

theorem topLeft_zero (n : Nat) (a b c d : K) (i j : Fin n) (h : 2 ≤ i.val ∨ 2 ≤ j.val) : topLeft n a b c d i j = 0 := by
  obtain ⟨i, hi⟩ := i
  obtain ⟨j, hj⟩ := j
  simp only at h
  rcases i with _ | _ | i <;> rcases j with _ | _ | j <;> simp_all [topLeft]

/-- C112: with more than two ports no exception is raised, but everything at the further ports is lost: these elements are
zero whatever the networks are. -/
theorem C112_lost_refuted (st : K → K) (n : Nat) (A B R : Matrix (Fin n) (Fin n) K)
    (hR : cascadeWide st n A B = .ok R ∨ deembedleftWide st n A B = .ok R ∨ deembedrightWide st n A B = .ok R)
    (i j : Fin n) (h : 2 ≤ i.val ∨ 2 ≤ j.val) : R i j = 0 := by
  have hn : 2 ≤ n := by rcases h with h | h <;> [have := i.isLt; have := j.isLt] <;> omega
  have hij0 : ¬ (i = (⟨0, by omega⟩ : Fin n) ∧ j = ⟨0, by omega⟩) := by
    rintro ⟨rfl, rfl⟩
    simp at h
  have hij1 : ¬ (i = (⟨1, by omega⟩ : Fin n) ∧ j = ⟨1, by omega⟩) := by
    rintro ⟨rfl, rfl⟩
    simp at h
  rcases hR with hR | hR | hR
  · unfold cascadeWide at hR
    rw [dif_pos hn] at hR
    simp only at hR
    split at hR
    · cases hR
    · cases hR
      show topLeft n _ _ _ _ i j / _ = 0
      rw [topLeft_zero _ _ _ _ _ _ _ h, zero_div]
  · unfold deembedleftWide at hR
    rw [dif_pos hn] at hR
    simp only at hR
    split at hR
    · cases hR
    · cases hR
      unfold setAt
      rw [if_neg hij1]
      show topLeft n _ _ _ _ i j / _ = 0
      rw [topLeft_zero _ _ _ _ _ _ _ h, zero_div]
  · unfold deembedrightWide at hR
    rw [dif_pos hn] at hR
    simp only at hR
    split at hR
    · cases hR
    · cases hR
      unfold setAt
      rw [if_neg hij0]
      show topLeft n _ _ _ _ i j / _ = 0
      rw [topLeft_zero _ _ _ _ _ _ _ h, zero_div]

/-- C112: cascading, too, gives a network with as many ports as the arguments, whenever it gives one: there is a result
exactly when the denominator is not zero. -/
theorem C112_defined (st : K → K) (m : Nat) (A B : Matrix (Fin (m + 2)) (Fin (m + 2)) K) :
    (∃ R, cascadeWide st (m + 2) A B = .ok R) ↔ A 1 1 * B 0 0 ≠ 1 := by
  have e1 : (⟨1, by omega⟩ : Fin (m + 2)) = 1 := rfl
  have e0 : (⟨0, by omega⟩ : Fin (m + 2)) = 0 := rfl
  unfold cascadeWide
  rw [dif_pos (by omega)]
  simp only [e0, e1, sub_eq_zero]
  by_cases h : A 1 1 * B 0 0 = 1
  · simp [h]
  · have : ¬ (1 = A 1 1 * B 0 0) := fun e => h e.symm
    exact iff_of_true ⟨_, if_neg this⟩ h

/-- C112: even at the first two ports cascading is wrong: a third port that is connected to nothing changes the input
reflection, unless its own reflection is one. -/
theorem C112_third_refuted (A B : M2 K) (r s : K) (R : M2 K) (R' : Matrix (Fin 3) (Fin 3) K)
    (hR : cascadeS id A B [] = some R) (hR' : cascadeWide id 3 (besides A r) (besides B s) = .ok R') :
    (R' 0 0 = R 0 0 ↔ B 0 0 = 0 ∨ A.det = 0 ∨ r = 1) ∧ (R' 1 1 = R 1 1 ↔ A 1 1 = 0 ∨ B.det = 0 ∨ s = 1) ∧
    R' 0 1 = R 0 1 ∧ R' 1 0 = R 1 0 := by
  have hA : (besides A r).det = A.det * r := by
    simp [besides, Matrix.det_fin_three, Matrix.det_fin_two]
    ring
  have hB : (besides B s).det = B.det * s := by
    simp [besides, Matrix.det_fin_three, Matrix.det_fin_two]
    ring
  unfold cascadeS at hR
  simp only at hR
  split at hR
  · cases hR
  rename_i hd
  cases hR
  unfold cascadeWide at hR'
  rw [dif_pos (by omega)] at hR'
  simp only [hA, hB] at hR'
  split at hR'
  · cases hR'
  rename_i hd'
  cases hR'
  have e00 : ∀ (M : M2 K) t, besides M t ⟨0, by omega⟩ ⟨0, by omega⟩ = M 0 0 := fun _ _ => rfl
  have e01 : ∀ (M : M2 K) t, besides M t ⟨0, by omega⟩ ⟨1, by omega⟩ = M 0 1 := fun _ _ => rfl
  have e10 : ∀ (M : M2 K) t, besides M t ⟨1, by omega⟩ ⟨0, by omega⟩ = M 1 0 := fun _ _ => rfl
  have e11 : ∀ (M : M2 K) t, besides M t ⟨1, by omega⟩ ⟨1, by omega⟩ = M 1 1 := fun _ _ => rfl
  simp only [e00, e01, e10, e11, id]
  have key : ∀ p q u t : K, p - q * (u * t) = p - q * u ↔ q = 0 ∨ u = 0 ∨ t = 1 := by
    intro p q u t
    rw [sub_right_inj]
    constructor
    · intro h
      have h : q * (u * (t - 1)) = 0 := by rw [mul_sub, mul_sub, h]; ring
      rcases mul_eq_zero.1 h with h | h
      · exact Or.inl h
      · rcases mul_eq_zero.1 h with h | h
        · exact Or.inr (Or.inl h)
        · exact Or.inr (Or.inr (sub_eq_zero.1 h))
    · rintro (h | h | h) <;> simp [h]
  refine ⟨?_, ?_, ?_, ?_⟩
  · rw [← key (A 0 0) (B 0 0) A.det r]
    exact div_left_inj' hd
  · rw [← key (B 1 1) (A 1 1) B.det s]
    exact div_left_inj' hd
  · simp [topLeft]
  · simp [topLeft]

/-- A case with a wrong reflection: the third port of the first network has the reflection `1/2`. -/
theorem C112_third_witness : ∃ (A B : M2 ℚ) (R : M2 ℚ) (R' : Matrix (Fin 3) (Fin 3) ℚ),
    cascadeS id A B [] = some R ∧ cascadeWide id 3 (besides A (1 / 2)) (besides B 0) = .ok R' ∧ R' 0 0 ≠ R 0 0 := by
  refine ⟨!![0, 1; 1, 0], !![1 / 2, 0; 0, 0], ?_⟩
  obtain ⟨R', hR'⟩ := (C112_defined id 1 (besides (!![0, 1; 1, 0] : M2 ℚ) (1 / 2)) (besides !![1 / 2, 0; 0, 0] 0)).2 (by
    simp [besides])
  have hR : cascadeS id (!![0, 1; 1, 0] : M2 ℚ) !![1 / 2, 0; 0, 0] [] ≠ none := by
    simp [cascadeS]
  obtain ⟨R, hR⟩ := Option.ne_none_iff_exists'.1 hR
  refine ⟨R, R', hR, hR', fun h => ?_⟩
  have := ((C112_third_refuted _ _ _ _ R R' hR hR').1).1 h
  simp [Matrix.det_fin_two] at this

end HF.Networks
