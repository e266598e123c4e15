import Verif.Plot.PolarProps
/-
C97: examples.
-/
namespace HF.Plot.Polar

open HF.DataBlock (ismatrix)
open HF.Plot.Draw

noncomputable def Nc : Num Int ℂ ℝ := ⟨Complex.re, Complex.im, fun i => (i : ℂ), fun k => k, fun r => r⟩

def fr : Dim Int := ⟨.dimSweep, "freq", [10, 20, 30], some "Hz", none⟩
def vg : Dim Int := ⟨.dimSweep, "Vg", [5, 6], some "V", none⟩
def ixc : Nat → Int := fun k => k

/-- a complex array over two dims: `k + i j` -/
noncomputable def yz : Data Int ℂ :=
  ⟨⟨[fr, vg], ⟨[3, 2], fun idx => idx.headD 0 + idx.getD 1 0 * Complex.I⟩⟩, true, none⟩

/-- a real array over two dims -/
noncomputable def yx : Data Int ℂ := ⟨⟨[fr, vg], ⟨[3, 2], fun idx => (100 * idx.headD 0 + idx.getD 1 0 : ℕ)⟩⟩, false, none⟩

theorem notMat (g : List Nat → ℂ) : ismatrix (⟨[fr, vg], ⟨[3, 2], g⟩⟩ : Arr Int ℂ) = false := by
  have h : (([fr, vg].any fun d => d.isa .matI) && [fr, vg].any fun d => d.isa .matJ) = false := by decide +kernel
  exact h

/-- The hypotheses of `C97_complex` are met: the point of the second curve over the third frequency lies at `2 + i`. -/
example : ∃ c l p, plot Nc id ixc [.data yz] = .ok c ∧ c.length = 2 ∧ c[1]? = some l ∧ l.length = 3 ∧ l[2]? = some p ∧
    place p = 2 + Complex.I := by
  obtain ⟨c, h1, -, h2, h3⟩ := C97_complex Nc id ixc yz fr [vg] 3 [2] rfl (notMat _) rfl rfl (by decide)
  obtain ⟨l, h4, h5, h6⟩ := h3 [1] (by simp [Nd.Valid])
  obtain ⟨p, h7, h8, -⟩ := h6 2 (by decide)
  refine ⟨c, l, p, h1 [] (.inl rfl), by simpa [Nd.size] using h2, by simpa [Nd.ravel, Nd.size] using h4, h5, h7, ?_⟩
  rw [h8]
  simp [yz]

/-- The hypotheses of `C97_real` are met: a real array over frequencies is drawn with the frequencies as real part. -/
example : ∃ c l p, plot Nc id ixc [.data yx, .text "r-"] = .ok c ∧ c.length = 2 ∧ c[1]? = some l ∧ l[2]? = some p ∧
    place p = 30 + Complex.I * 201 := by
  obtain ⟨c, h1, h2, h3⟩ := C97_real Nc id ixc yx fr [vg] 3 [2] [.text "r-"] (.inr ⟨_, _, rfl⟩) rfl (notMat _) rfl rfl rfl
    (by decide) (by decide) (by decide)
  obtain ⟨l, h4, h5, h6⟩ := h3 [1] (by simp [Nd.Valid])
  obtain ⟨p, h7, h8, -⟩ := h6 2 (by decide)
  refine ⟨c, l, p, h1, by simpa [Nd.size] using h2, by simpa [Nd.ravel, Nd.size] using h4, h7, ?_⟩
  rw [h8]
  simp [yx, Nc, fr]
  norm_num

/-- The hypotheses of `C97_xy` are met. -/
example : ∃ c l p, plot Nc id ixc [.data ⟨⟨[fr], ⟨[3], fun idx => (idx.headD 0 : ℕ)⟩⟩, false, none⟩, .data yx] = .ok c ∧
    c[1]? = some l ∧ l[2]? = some p ∧ place p = 2 + Complex.I * 201 := by
  obtain ⟨c, h1, h2, h3⟩ := C97_xy Nc id ixc ⟨⟨[fr], ⟨[3], fun idx => (idx.headD 0 : ℕ)⟩⟩, false, none⟩ yx fr fr [vg] 3 [2] []
    rfl (notMat _) rfl rfl (by decide) rfl rfl rfl (by decide) (by decide)
  obtain ⟨l, h4, h5, h6⟩ := h3 [1] (by simp [Nd.Valid])
  obtain ⟨p, h7, h8, -⟩ := h6 2 (by decide)
  refine ⟨c, l, p, h1, by simpa [Nd.ravel, Nd.size] using h4, h7, ?_⟩
  rw [h8]
  simp [yx]
  norm_num

/-- The hypotheses of `C97_dims_refuted` are met: an array of two dims cannot be drawn against itself, as it can on other
axes (`C79_xy`). -/
theorem C97_same_refuted : plot Nc id ixc [.data yx, .data yx] = .error .value :=
  C97_dims_refuted Nc id ixc yx yx vg fr [fr, vg] [vg] 3 [2] [] rfl (notMat _) rfl rfl rfl rfl
    (by unfold Arr.Distinct; decide +kernel) (by simp) (by decide) (by decide +kernel) (by decide +kernel)
    (by
      intro a ha b hb hab _
      simp only [List.mem_cons, List.not_mem_nil, or_false] at ha hb
      rcases ha with rfl | rfl | rfl <;> rcases hb with rfl | rfl | rfl <;> first | rfl | (revert hab; decide))
    (by
      intro e m he hk
      simp only [yx, List.zip_cons_cons, List.zip_nil_right, List.mem_cons, Prod.mk.injEq, List.not_mem_nil, or_false] at he
      rcases he with ⟨rfl, rfl⟩ | ⟨rfl, rfl⟩
      · rfl
      · revert hk; decide)

/-- C97 fails for arrays of numpy: the only point of `[i]` is drawn at `1`. -/
theorem C97_numpy_refuted : ∃ p, plotY Nc.index ⟨[1], fun _ => Complex.I⟩ = .ok [[p]] ∧ place p = 1 := by
  obtain ⟨h1, -⟩ := C97_plain_refuted Nc.index ⟨[1], fun _ => Complex.I⟩ 1 rfl
  refine ⟨_, h1, ?_⟩
  simp [place, Nc]

end HF.Plot.Polar
