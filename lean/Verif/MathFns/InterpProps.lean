import Verif.MathFns.SmoothProps
import Mathlib.Algebra.Order.Field.Basic
import Mathlib.Data.List.Pairwise
/-
C35: interpolation and extrapolation.
-/

namespace HF.MathFns

variable {K : Type} [Field K] [LinearOrder K] [IsStrictOrderedRing K]

/-- The value at `t` of the straight line through two points. -/
def line (x0 y0 x1 y1 t : K) : K := y0 + (y1 - y0) * ((t - x0) / (x1 - x0))

theorem takeWhile_spec (v : K) : ∀ (a : List K),
    (∀ j, j < searchsorted a v → ∃ z, a[j]? = some z ∧ z < v) ∧ searchsorted a v ≤ a.length ∧
    (∀ z, a[searchsorted a v]? = some z → v ≤ z)
  | [] => by simp [searchsorted]
  | b :: a => by
    obtain ⟨h1, h2, h3⟩ := takeWhile_spec v a
    by_cases hb : b < v
    · have e : searchsorted (b :: a) v = searchsorted a v + 1 := by simp [searchsorted, hb]
      rw [e]
      refine ⟨?_, by simpa using h2, by simpa using h3⟩
      intro j hj
      cases j with
      | zero => exact ⟨b, rfl, hb⟩
      | succ j => simpa using h1 j (by omega)
    · have e : searchsorted (b :: a) v = 0 := by simp [searchsorted, hb]
      rw [e]
      refine ⟨by simp, by simp, ?_⟩
      intro z hz
      simp at hz
      rw [← hz]
      exact not_lt.1 hb

theorem inner_get (x : List K) (j : Nat) (hj : j < x.tail.dropLast.length) :
    x.tail.dropLast[j]? = x[j + 1]? := by
  simp at hj
  rw [List.dropLast_eq_take, List.getElem?_take_of_lt (by simp; omega), List.getElem?_tail]

theorem idx_spec (x : List K) (hx : 2 ≤ x.length) (v : K) : ∃ j, searchsorted x.tail.dropLast v = j ∧
    j + 2 ≤ x.length ∧ (0 < j → ∃ z, x[j]? = some z ∧ z < v) ∧
    (j + 2 < x.length → ∃ z, x[j + 1]? = some z ∧ v ≤ z) := by
  obtain ⟨h1, h2, h3⟩ := takeWhile_spec v x.tail.dropLast
  have hl : x.tail.dropLast.length = x.length - 2 := by simp; omega
  refine ⟨_, rfl, by omega, ?_, ?_⟩
  · intro h0
    obtain ⟨z, hz, hzv⟩ := h1 (searchsorted x.tail.dropLast v - 1) (by omega)
    rw [inner_get x _ (by omega), Nat.sub_add_cancel (by omega)] at hz
    exact ⟨z, hz, hzv⟩
  · intro hlt
    have hlt' : searchsorted x.tail.dropLast v < x.tail.dropLast.length := by omega
    refine ⟨x[searchsorted x.tail.dropLast v + 1]'(by omega), List.getElem?_eq_getElem _, h3 _ ?_⟩
    rw [inner_get x _ hlt', List.getElem?_eq_getElem]

theorem mono {x : List K} (h : x.Pairwise (· < ·)) {i j : Nat} {a b : K} (hij : i < j) (ha : x[i]? = some a)
    (hb : x[j]? = some b) : a < b := by
  obtain ⟨hi, rfl⟩ := List.getElem?_eq_some_iff.1 ha
  obtain ⟨hj, rfl⟩ := List.getElem?_eq_some_iff.1 hb
  exact List.pairwise_iff_getElem.1 h i j hi hj hij

theorem line_left (x0 y0 x1 y1 : K) : line x0 y0 x1 y1 x0 = y0 := by simp [line]

theorem line_right (x0 y0 x1 y1 : K) (h : x0 < x1) : line x0 y0 x1 y1 x1 = y1 := by
  unfold line
  rw [div_self (sub_pos.2 h).ne']
  ring

theorem raw_eq (x0 y0 x1 y1 t : K) (h : x0 < x1) :
    ((t - x0) * y1 + (x1 - t) * y0) / (x1 - x0) = line x0 y0 x1 y1 t := by
  have := (sub_pos.2 h).ne'
  unfold line
  field_simp
  ring

/-- C35: the value at `t` lies on the straight line through the two neighbouring points; below the
first (above the last) point the first (last) two points count. -/
theorem C35_line (x y : List K) (hx : x.Pairwise (· < ·)) (hl : y.length = x.length) (t : K) (k : Nat)
    (x0 x1 y0 y1 : K) (hx0 : x[k]? = some x0) (hx1 : x[k + 1]? = some x1) (hy0 : y[k]? = some y0)
    (hy1 : y[k + 1]? = some y1) (h0 : k = 0 ∨ x0 ≤ t) (h1 : k + 2 = x.length ∨ t ≤ x1) :
    linearExtrapolate x y t = some (line x0 y0 x1 y1 t) := by
  have hk : k + 1 < x.length := (List.getElem?_eq_some_iff.1 hx1).1
  obtain ⟨j, hj, hj2, hja, hjb⟩ := idx_spec x (by omega) t
  have hval : ∀ a0 a1 b0 b1, x[j]? = some a0 → x[j + 1]? = some a1 → y[j]? = some b0 → y[j + 1]? = some b1 →
      linearExtrapolate x y t = some (line a0 b0 a1 b1 t) := by
    intro a0 a1 b0 b1 e1 e2 e3 e4
    unfold linearExtrapolate
    simp only [hj, e1, e2, e3, e4]
    rw [raw_eq _ _ _ _ _ (mono hx (Nat.lt_succ_self j) e1 e2)]
  rcases lt_trichotomy j k with h | h | h
  · obtain ⟨z, hz, hzt⟩ := hjb (by omega)
    have h0' : x0 ≤ t := h0.resolve_left (by omega)
    have hjk : j + 1 = k := by
      by_contra hne
      have := mono hx (show j + 1 < k by omega) hz hx0
      exact absurd (lt_of_lt_of_le this h0') (not_lt.2 hzt)
    subst hjk
    rw [hz, Option.some_inj] at hx0
    subst hx0
    have ht : t = z := le_antisymm hzt h0'
    subst ht
    obtain ⟨a0, ha0⟩ : ∃ a, x[j]? = some a := ⟨_, List.getElem?_eq_getElem (by omega)⟩
    obtain ⟨b0, hb0⟩ : ∃ a, y[j]? = some a := ⟨_, List.getElem?_eq_getElem (by omega)⟩
    rw [hval a0 t b0 y0 ha0 hz hb0 hy0, line_left, line_right _ _ _ _ (mono hx (Nat.lt_succ_self j) ha0 hz)]
  · subst h
    exact hval x0 x1 y0 y1 hx0 hx1 hy0 hy1
  · exfalso
    obtain ⟨z, hz, hzt⟩ := hja (by omega)
    have h1' : t ≤ x1 := h1.resolve_left (by omega)
    rcases Nat.lt_or_eq_of_le (show k + 1 ≤ j by omega) with h2 | h2
    · have := mono hx h2 hx1 hz
      exact absurd (lt_of_le_of_lt h1' (this.trans hzt)) (lt_irrefl _)
    · rw [← h2, hx1, Option.some_inj] at hz
      subst hz
      exact absurd (lt_of_le_of_lt h1' hzt) (lt_irrefl _)

/-- Every `t` has a pair of neighbours. -/
theorem segment_exists (x y : List K) (hn : 2 ≤ x.length) (hl : y.length = x.length) (t : K) :
    ∃ (k : Nat) (x0 x1 y0 y1 : K), x[k]? = some x0 ∧ x[k + 1]? = some x1 ∧ y[k]? = some y0 ∧
      y[k + 1]? = some y1 ∧ (k = 0 ∨ x0 ≤ t) ∧ (k + 2 = x.length ∨ t ≤ x1) := by
  obtain ⟨j, -, hj2, hja, hjb⟩ := idx_spec x hn t
  refine ⟨j, _, _, _, _, List.getElem?_eq_getElem (by omega), List.getElem?_eq_getElem (by omega),
    List.getElem?_eq_getElem (by omega), List.getElem?_eq_getElem (by omega), ?_, ?_⟩
  · rcases Nat.eq_zero_or_pos j with h | h
    · exact Or.inl h
    · obtain ⟨z, hz, hzt⟩ := hja h
      rw [List.getElem?_eq_getElem (by omega), Option.some_inj] at hz
      exact Or.inr (hz ▸ hzt.le)
  · rcases Nat.lt_or_eq_of_le hj2 with h | h
    · obtain ⟨z, hz, hzt⟩ := hjb h
      rw [List.getElem?_eq_getElem (by omega), Option.some_inj] at hz
      exact Or.inr (hz ▸ hzt)
    · exact Or.inl h

/-- C35: the given points are reproduced. -/
theorem C35_knots (x y : List K) (hx : x.Pairwise (· < ·)) (hn : 2 ≤ x.length) (hl : y.length = x.length) (k : Nat)
    (a b : K) (ha : x[k]? = some a) (hb : y[k]? = some b) : linearExtrapolate x y a = some b := by
  have hk : k < x.length := (List.getElem?_eq_some_iff.1 ha).1
  by_cases h : k + 1 < x.length
  · rw [C35_line x y hx hl a k a _ b _ ha (List.getElem?_eq_getElem h) hb (List.getElem?_eq_getElem (by omega))
      (Or.inr (le_refl _)) (Or.inr (mono hx (Nat.lt_succ_self k) ha (List.getElem?_eq_getElem h)).le), line_left]
  · obtain ⟨j, rfl⟩ : ∃ j, k = j + 1 := ⟨k - 1, by omega⟩
    have ha0 : x[j]? = some x[j] := List.getElem?_eq_getElem (by omega)
    have hlt := mono hx (Nat.lt_succ_self j) ha0 ha
    rw [C35_line x y hx hl a j x[j] a (y[j]'(by omega)) b ha0 ha (List.getElem?_eq_getElem (by omega)) hb
      (Or.inr hlt.le) (Or.inl (by omega)), line_right _ _ _ _ hlt]

/-- C35: a straight line is reproduced everywhere, also outside the given range. -/
theorem C35_linear (x : List K) (hx : x.Pairwise (· < ·)) (hn : 2 ≤ x.length) (a b t : K) :
    linearExtrapolate x (x.map fun u => a + b * u) t = some (a + b * t) := by
  obtain ⟨k, x0, x1, y0, y1, h1, h2, h3, h4, h5, h6⟩ :=
    segment_exists x (x.map fun u => a + b * u) hn (by simp) t
  rw [C35_line x _ hx (by simp) t k x0 x1 y0 y1 h1 h2 h3 h4 h5 h6]
  rw [List.getElem?_map, h1] at h3
  rw [List.getElem?_map, h2] at h4
  simp at h3 h4
  have hd := (sub_pos.2 (mono hx (Nat.lt_succ_self k) h1 h2)).ne'
  rw [← h3, ← h4]
  unfold line
  congr 1
  field_simp
  ring

/-- C35: between two given points the value lies between theirs. -/
theorem C35_between (x y : List K) (hx : x.Pairwise (· < ·)) (hl : y.length = x.length) (t : K) (k : Nat)
    (x0 x1 y0 y1 : K) (hx0 : x[k]? = some x0) (hx1 : x[k + 1]? = some x1) (hy0 : y[k]? = some y0)
    (hy1 : y[k + 1]? = some y1) (h0 : x0 ≤ t) (h1 : t ≤ x1) :
    ∃ v, linearExtrapolate x y t = some v ∧ min y0 y1 ≤ v ∧ v ≤ max y0 y1 := by
  refine ⟨_, C35_line x y hx hl t k x0 x1 y0 y1 hx0 hx1 hy0 hy1 (Or.inr h0) (Or.inr h1), ?_⟩
  have hd := sub_pos.2 (mono hx (Nat.lt_succ_self k) hx0 hx1)
  have hs0 : 0 ≤ (t - x0) / (x1 - x0) := div_nonneg (sub_nonneg.2 h0) hd.le
  have hs1 : (t - x0) / (x1 - x0) ≤ 1 := (div_le_one hd).2 (by linarith)
  unfold line
  generalize (t - x0) / (x1 - x0) = s at *
  rcases le_total y0 y1 with h | h
  · rw [min_eq_left h, max_eq_right h]
    constructor <;> nlinarith
  · rw [min_eq_right h, max_eq_left h]
    constructor <;> nlinarith

/-- C35: nothing can be said with a single point: `IndexError`. -/
theorem C35_short (x y : List K) (hn : x.length < 2) (t : K) : linearExtrapolate x y t = none := by
  have : x.tail.dropLast = [] := by
    apply List.length_eq_zero_iff.1
    simp
    omega
  unfold linearExtrapolate
  simp only [this, searchsorted, List.takeWhile_nil, List.length_nil]
  have : x[0 + 1]? = none := List.getElem?_eq_none (by omega)
  rw [this]
  cases x[0]? <;> rfl

/-- C35: `interpolate` refuses exactly the points outside the given range and agrees with
`linear_extrapolate` inside. -/
theorem C35_interpolate (x y xi : List K) (hx : x.Pairwise (· < ·)) (hn : 2 ≤ x.length) (hl : y.length = x.length)
    (hxi : xi ≠ []) (a b : K) (ha : x.head? = some a) (hb : x.getLast? = some b) :
    ((∀ t ∈ xi, a ≤ t ∧ t ≤ b) → ∃ r, interpolate x y xi = .ok r ∧
      List.Forall₂ (fun t v => linearExtrapolate x y t = some v) xi r) ∧
    ((∃ t ∈ xi, t < a) → interpolate x y xi = .error .below) ∧
    ((∃ t ∈ xi, b < t) → (∀ t ∈ xi, a ≤ t) → interpolate x y xi = .error .above) := by
  have hmin : x.min? = some a := by
    rw [List.min?_eq_some_iff]
    refine ⟨List.mem_of_mem_head? ha, fun c hc => ?_⟩
    obtain ⟨i, hi, rfl⟩ := List.mem_iff_getElem.1 hc
    rw [List.head?_eq_getElem?] at ha
    rcases Nat.eq_zero_or_pos i with h | h
    · subst h
      rw [List.getElem?_eq_getElem hi, Option.some_inj] at ha
      rw [ha]
    · exact (mono hx h ha (List.getElem?_eq_getElem hi)).le
  have hmax : x.max? = some b := by
    rw [List.max?_eq_some_iff]
    refine ⟨List.mem_of_getLast? hb, fun c hc => ?_⟩
    obtain ⟨i, hi, rfl⟩ := List.mem_iff_getElem.1 hc
    rw [List.getLast?_eq_getElem?] at hb
    rcases Nat.lt_or_ge i (x.length - 1) with h | h
    · exact (mono hx h (List.getElem?_eq_getElem hi) hb).le
    · have : i = x.length - 1 := by omega
      subst this
      rw [List.getElem?_eq_getElem hi, Option.some_inj] at hb
      rw [hb]
  obtain ⟨m, hm⟩ : ∃ m, xi.min? = some m := by
    cases h : xi.min? with
    | none => exact absurd (List.min?_eq_none_iff.1 h) hxi
    | some m => exact ⟨m, rfl⟩
  obtain ⟨M, hM⟩ : ∃ m, xi.max? = some m := by
    cases h : xi.max? with
    | none => exact absurd (List.max?_eq_none_iff.1 h) hxi
    | some m => exact ⟨m, rfl⟩
  have hm' := List.min?_eq_some_iff.1 hm
  have hM' := List.max?_eq_some_iff.1 hM
  refine ⟨fun h => ?_, fun ⟨t, ht, hlt⟩ => ?_, fun ⟨t, ht, hlt⟩ hall => ?_⟩
  · have hex : ∀ l : List K, ∃ r, l.mapM (linearExtrapolate x y) = some r ∧
        List.Forall₂ (fun t v => linearExtrapolate x y t = some v) l r := by
      intro l
      induction l with
      | nil => exact ⟨[], rfl, List.Forall₂.nil⟩
      | cons t l ih =>
        obtain ⟨r, h1, h2⟩ := ih
        obtain ⟨k, x0, x1, y0, y1, e1, e2, e3, e4, e5, e6⟩ := segment_exists x y hn hl t
        have := C35_line x y hx hl t k x0 x1 y0 y1 e1 e2 e3 e4 e5 e6
        refine ⟨_ :: r, ?_, List.Forall₂.cons this h2⟩
        rw [List.mapM_cons, this, h1]
        rfl
    obtain ⟨r, h1, h2⟩ := hex xi
    refine ⟨r, ?_, h2⟩
    unfold interpolate
    rw [hm, hmin, hM, hmax]
    simp only
    rw [if_neg (not_lt.2 (h m hm'.1).1), if_neg (not_lt.2 (h M hM'.1).2), h1]
  · unfold interpolate
    rw [hm, hmin, hM, hmax]
    simp only
    rw [if_pos (lt_of_le_of_lt (hm'.2 t ht) hlt)]
  · unfold interpolate
    rw [hm, hmin, hM, hmax]
    simp only
    rw [if_neg (not_lt.2 (hall m hm'.1)), if_pos (lt_of_lt_of_le hlt (hM'.2 t ht))]

/-- C35: descending knots pass the range check, but even a given point is not reproduced. -/
theorem C35_descending_refuted : interpolate [(3 : ℚ), 2, 1, 0] [9, 4, 1, 0] [3] = .ok [3] := by
  decide +kernel

/-! ### Non-vacuity -/

example : [(0 : ℚ), 1, 3].Pairwise (· < ·) ∧ linearExtrapolate [(0 : ℚ), 1, 3] [5, 7, 1] 2 = some 4 ∧
    linearExtrapolate [(0 : ℚ), 1, 3] [5, 7, 1] (-1) = some 3 ∧
    linearExtrapolate [(0 : ℚ), 1, 3] [5, 7, 1] 4 = some (-2) := by
  decide +kernel

end HF.MathFns
