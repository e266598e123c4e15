import Mathlib.Analysis.InnerProductSpace.Projection.Minimal
import Mathlib.Analysis.InnerProductSpace.PiL2
import Mathlib.LinearAlgebra.Matrix.DotProduct
/-
Least squares for one matrix.
-/
namespace HF.Lstsq

open Matrix
open scoped ComplexOrder

variable {𝕜 : Type} [RCLike 𝕜] {p q : Nat}

/-- No other `y` gives a smaller sum of squares of the errors of `A y = b`. -/
def IsBest (A : Matrix (Fin p) (Fin q) 𝕜) (b : Fin p → 𝕜) (x : Fin q → 𝕜) : Prop :=
  ∀ y, ∑ i, ‖(A *ᵥ x) i - b i‖ ^ 2 ≤ ∑ i, ‖(A *ᵥ y) i - b i‖ ^ 2

theorem sum_eq (A : Matrix (Fin p) (Fin q) 𝕜) (b : Fin p → 𝕜) (x : Fin q → 𝕜) :
    ∑ i, ‖(A *ᵥ x) i - b i‖ ^ 2 = ‖WithLp.toLp 2 b - WithLp.toLp 2 (A *ᵥ x)‖ ^ 2 := by
  rw [EuclideanSpace.norm_sq_eq]
  refine Finset.sum_congr rfl fun i _ => ?_
  rw [norm_sub_rev]
  rfl

/-- What `A y` can be. -/
def image (A : Matrix (Fin p) (Fin q) 𝕜) : Submodule 𝕜 (EuclideanSpace 𝕜 (Fin p)) :=
  LinearMap.range (toEuclideanLin A)

theorem mem_image (A : Matrix (Fin p) (Fin q) 𝕜) (w : EuclideanSpace 𝕜 (Fin p)) :
    w ∈ image A ↔ ∃ y, w = WithLp.toLp 2 (A *ᵥ y) := by
  constructor
  · rintro ⟨y, rfl⟩
    exact ⟨y.ofLp, by rw [toEuclideanLin_apply]⟩
  · rintro ⟨y, rfl⟩
    exact ⟨WithLp.toLp 2 y, by rw [toEuclideanLin_apply]⟩

theorem isBest_iInf (A : Matrix (Fin p) (Fin q) 𝕜) (b : Fin p → 𝕜) (x : Fin q → 𝕜) :
    IsBest A b x ↔ ‖WithLp.toLp 2 b - WithLp.toLp 2 (A *ᵥ x)‖ = ⨅ w : image A, ‖WithLp.toLp 2 b - (w : EuclideanSpace 𝕜 (Fin p))‖ := by
  have hb : BddBelow (Set.range fun w : image A => ‖WithLp.toLp 2 b - (w : EuclideanSpace 𝕜 (Fin p))‖) :=
    ⟨0, by rintro _ ⟨w, rfl⟩; exact norm_nonneg _⟩
  constructor
  · intro h
    apply le_antisymm
    · haveI : Nonempty (image A) := ⟨0⟩
      refine le_ciInf fun w => ?_
      obtain ⟨y, hy⟩ := (mem_image A w).1 w.2
      have := h y
      rw [sum_eq, sum_eq] at this
      rw [hy]
      exact (sq_le_sq₀ (norm_nonneg _) (norm_nonneg _)).1 this
    · exact ciInf_le hb ⟨_, (mem_image A _).2 ⟨x, rfl⟩⟩
  · intro h y
    rw [sum_eq, sum_eq]
    refine (sq_le_sq₀ (norm_nonneg _) (norm_nonneg _)).2 ?_
    rw [h]
    exact ciInf_le hb ⟨_, (mem_image A _).2 ⟨y, rfl⟩⟩

/-- The normal equations. -/
theorem isBest_iff (A : Matrix (Fin p) (Fin q) 𝕜) (b : Fin p → 𝕜) (x : Fin q → 𝕜) :
    IsBest A b x ↔ Aᴴ *ᵥ (A *ᵥ x - b) = 0 := by
  rw [isBest_iInf, Submodule.norm_eq_iInf_iff_inner_eq_zero (image A) ((mem_image A _).2 ⟨x, rfl⟩)]
  have hin : ∀ y, inner 𝕜 (WithLp.toLp 2 b - WithLp.toLp 2 (A *ᵥ x)) (WithLp.toLp 2 (A *ᵥ y)) =
      star (Aᴴ *ᵥ (b - A *ᵥ x)) ⬝ᵥ y := by
    intro y
    rw [star_mulVec, conjTranspose_conjTranspose, ← dotProduct_mulVec, ← WithLp.toLp_sub,
      EuclideanSpace.inner_toLp_toLp, dotProduct_comm]
  have hz : (Aᴴ *ᵥ (b - A *ᵥ x) = 0) ↔ Aᴴ *ᵥ (A *ᵥ x - b) = 0 := by
    rw [← neg_sub, mulVec_neg, neg_eq_zero]
  rw [← hz]
  constructor
  · intro h
    have : star (Aᴴ *ᵥ (b - A *ᵥ x)) = 0 := by
      apply dotProduct_eq_zero
      intro y
      rw [← hin y]
      exact h _ ((mem_image A _).2 ⟨y, rfl⟩)
    rw [← star_star (Aᴴ *ᵥ (b - A *ᵥ x)), this, star_zero]
  · intro h w hw
    obtain ⟨y, rfl⟩ := (mem_image A _).1 hw
    rw [hin y, h, star_zero, zero_dotProduct]

/-- There is always a best one. -/
theorem exists_best (A : Matrix (Fin p) (Fin q) 𝕜) (b : Fin p → 𝕜) : ∃ x, IsBest A b x := by
  obtain ⟨v, hv, h⟩ := Submodule.exists_norm_eq_iInf_of_complete_subspace (image A)
    (Submodule.complete_of_finiteDimensional (image A)) (WithLp.toLp 2 b)
  obtain ⟨x, rfl⟩ := (mem_image A v).1 hv
  exact ⟨x, (isBest_iInf A b x).2 h⟩

/-- If the equations can be fulfilled, the best one fulfils them. -/
theorem best_exact (A : Matrix (Fin p) (Fin q) 𝕜) (b : Fin p → 𝕜) (x y : Fin q → 𝕜) (h : IsBest A b x) (hy : A *ᵥ y = b) :
    A *ᵥ x = b := by
  have := h y
  rw [hy] at this
  simp only [sub_self, norm_zero, ne_eq, OfNat.ofNat_ne_zero, not_false_eq_true, zero_pow, Finset.sum_const_zero] at this
  funext i
  have h0 := (Finset.sum_eq_zero_iff_of_nonneg (fun i _ => by positivity)).1 (le_antisymm this (Finset.sum_nonneg fun i _ => by positivity)) i (Finset.mem_univ i)
  have h1 : ‖(A *ᵥ x) i - b i‖ = 0 := by simpa using h0
  exact sub_eq_zero.1 (norm_eq_zero.1 h1)

/-- If the columns are independent there is only one best. -/
theorem best_unique (A : Matrix (Fin p) (Fin q) 𝕜) (b : Fin p → 𝕜) (x y : Fin q → 𝕜) (hA : ∀ z, A *ᵥ z = 0 → z = 0)
    (h : IsBest A b x) (h' : IsBest A b y) : x = y := by
  rw [isBest_iff] at h h'
  have h0 : Aᴴ *ᵥ (A *ᵥ (x - y)) = 0 := by
    have e : A *ᵥ (x - y) = (A *ᵥ x - b) - (A *ᵥ y - b) := by rw [mulVec_sub]; abel
    rw [e, mulVec_sub, h, h', sub_zero]
  have h1 : A *ᵥ (x - y) = 0 := by
    have h2 : star (A *ᵥ (x - y)) ⬝ᵥ (A *ᵥ (x - y)) = 0 := by
      rw [dotProduct_mulVec, ← conjTranspose_conjTranspose A, ← star_mulVec]
      simp only [conjTranspose_conjTranspose]
      rw [h0, star_zero, zero_dotProduct]
    exact dotProduct_star_self_eq_zero.1 h2
  exact sub_eq_zero.1 (hA _ h1)

end HF.Lstsq
