import Verif.MathFns.Smooth
import Mathlib.Algebra.CharZero.Defs
import Mathlib.Algebra.BigOperators.Intervals
import Mathlib.Algebra.Polynomial.Roots
import Mathlib.Tactic.LinearCombination
import Mathlib.Tactic.FieldSimp
import Mathlib.Tactic.Ring
import Mathlib.Tactic.Positivity
import Mathlib.Tactic.Linarith
/-
C34: smoothing windows.
-/

namespace HF.MathFns

/-- C34: the window lies inside the data and contains the sample. -/
theorem C34_window (n aperture i : Nat) (hi : i < n) :
    (smoothWindow n aperture i).1 ≤ i ∧ i < (smoothWindow n aperture i).2 ∧ (smoothWindow n aperture i).2 ≤ n := by
  unfold smoothWindow smoothWid smoothOdd
  simp only
  split
  · split <;> refine ⟨?_, ?_, ?_⟩ <;> simp only <;> omega
  · exact ⟨le_refl _, Nat.lt_succ_self _, hi⟩

/-- C34: it has at most `aperture` samples (at least one), and exactly that many away from the ends. -/
theorem C34_window_size (n aperture i : Nat) (hi : i < n) :
    (smoothWindow n aperture i).2 - (smoothWindow n aperture i).1 ≤ max aperture 1 ∧
    (1 ≤ aperture → aperture / 2 ≤ i → i + aperture / 2 < n →
      (smoothWindow n aperture i).2 - (smoothWindow n aperture i).1 = aperture) := by
  unfold smoothWindow smoothWid smoothOdd
  simp only
  split
  · split <;> refine ⟨?_, ?_⟩ <;> simp only <;> omega
  · refine ⟨?_, ?_⟩ <;> simp only <;> omega

/-- C34: for odd apertures it lies symmetrically about the sample. -/
theorem C34_window_symmetric (n aperture i : Nat) (ho : aperture % 2 = 1) :
    (smoothWindow n aperture i).1 + (smoothWindow n aperture i).2 = 2 * i + 1 := by
  unfold smoothWindow smoothWid smoothOdd
  simp only
  split
  · rw [if_neg (by omega)]
    simp only
    omega
  · simp only
    omega

variable {K : Type} [Field K] [CharZero K]

theorem sum_list_range (f : Nat → K) : ∀ n, ((List.range n).map f).sum = ∑ k ∈ Finset.range n, f k
  | 0 => by simp
  | n + 1 => by rw [List.range_succ, List.map_append, List.sum_append, sum_list_range f n, Finset.sum_range_succ]; simp

theorem slice_length {α : Type} (l : List α) (w : Nat × Nat) (h : w.2 ≤ l.length) :
    (slice l w).length = w.2 - w.1 := by
  simp [slice, Nat.min_eq_left h]

theorem smooth_length (data : List K) (aperture : Nat) : (smooth data aperture).length = data.length := by
  simp [smooth]

theorem smooth_get (data : List K) (aperture i : Nat) (hi : i < data.length) :
    (smooth data aperture)[i]? = some (mean (slice data (smoothWindow data.length aperture i))) := by
  unfold smooth
  rw [List.getElem?_map, List.getElem?_range hi, Option.map_some]
  congr 1
  split
  · rfl
  · rename_i h
    have hw : smoothWindow data.length aperture i = (i, i + 1) := by
      unfold smoothWindow
      simp only
      rw [if_neg h]
    rw [hw]
    have : slice data (i, i + 1) = [data[i]] := by
      unfold slice
      rw [List.take_add_one, List.getElem?_eq_getElem hi, List.drop_append]
      simp [Nat.min_eq_left hi.le]
    rw [this]
    simp [mean, List.getD_eq_getElem?_getD, List.getElem?_eq_getElem hi]

/-- C34: each value of the result is the mean of the samples in the window. -/
theorem C34_mean (data : List K) (aperture i : Nat) (hi : i < data.length) :
    ∃ m, (smooth data aperture)[i]? = some m ∧
      m * ((smoothWindow data.length aperture i).2 - (smoothWindow data.length aperture i).1 : Nat) =
      ∑ k ∈ Finset.Ico (smoothWindow data.length aperture i).1 (smoothWindow data.length aperture i).2,
        data.getD k 0 := by
  refine ⟨_, smooth_get data aperture i hi, ?_⟩
  obtain ⟨h1, h2, h3⟩ := C34_window data.length aperture i hi
  generalize smoothWindow data.length aperture i = w at *
  have hl := slice_length data w h3
  unfold mean
  rw [hl]
  have hne : ((w.2 - w.1 : Nat) : K) ≠ 0 := by
    rw [Nat.cast_ne_zero]
    omega
  rw [div_mul_cancel₀ _ hne, Finset.sum_Ico_eq_sum_range]
  have : slice data w = (List.range (w.2 - w.1)).map fun k => data.getD (w.1 + k) 0 := by
    apply List.ext_getElem
    · simp [hl]
    · intro k hk1 hk2
      have hk : k < w.2 - w.1 := by simpa using hk2
      have : w.1 + k < data.length := by omega
      simp [slice, List.getD_eq_getElem?_getD, List.getElem?_eq_getElem this]
  rw [this, sum_list_range]

theorem smooth_eq (data : List K) (aperture : Nat) (h : ∀ i, i < data.length →
    ∑ k ∈ Finset.Ico (smoothWindow data.length aperture i).1 (smoothWindow data.length aperture i).2,
      data.getD k 0 = data.getD i 0 *
      ((smoothWindow data.length aperture i).2 - (smoothWindow data.length aperture i).1 : Nat)) :
    smooth data aperture = data := by
  apply List.ext_getElem?
  intro i
  by_cases hi : i < data.length
  · obtain ⟨m, hm, hs⟩ := C34_mean data aperture i hi
    rw [h i hi] at hs
    obtain ⟨h1, h2, -⟩ := C34_window data.length aperture i hi
    have := mul_right_cancel₀ (by rw [Nat.cast_ne_zero]; omega) hs
    rw [hm, this, List.getD_eq_getElem?_getD, List.getElem?_eq_getElem hi]
    rfl
  · rw [List.getElem?_eq_none (by rw [smooth_length]; omega), List.getElem?_eq_none (by omega)]

/-- C34: constants are not changed. -/
theorem C34_constant (n aperture : Nat) (c : K) :
    smooth (List.replicate n c) aperture = List.replicate n c := by
  apply smooth_eq
  intro i hi
  obtain ⟨h1, h2, h3⟩ := C34_window _ aperture i hi
  generalize smoothWindow (List.replicate n c).length aperture i = w at *
  simp only [List.length_replicate] at *
  rw [Finset.sum_congr rfl (g := fun _ => c), Finset.sum_const, Nat.card_Ico, nsmul_eq_mul]
  · simp [List.getD_eq_getElem?_getD, hi, mul_comm]
  · intro k hk
    have := (Finset.mem_Ico.1 hk).2
    simp [List.getD_eq_getElem?_getD, show k < n by omega]

theorem sum_linear (a b : K) (lo : Nat) : ∀ len,
    ∑ k ∈ Finset.Ico lo (lo + len), (a + b * (k : K)) * 2 = len * (2 * a + b * (2 * lo + len - 1))
  | 0 => by simp
  | len + 1 => by
    rw [← Nat.add_assoc, Finset.sum_Ico_succ_top (Nat.le_add_right _ _), sum_linear a b lo len]
    push_cast
    ring

/-- C34: straight lines are not changed if the aperture is odd. -/
theorem C34_linear (n aperture : Nat) (a b : K) (ho : aperture % 2 = 1) :
    smooth ((List.range n).map fun k : Nat => a + b * (k : K)) aperture =
      (List.range n).map fun k : Nat => a + b * (k : K) := by
  apply smooth_eq
  intro i hi
  obtain ⟨h1, h2, h3⟩ := C34_window _ aperture i hi
  have h4 := C34_window_symmetric ((List.range n).map fun k : Nat => a + b * (k : K)).length aperture i ho
  generalize smoothWindow ((List.range n).map fun k : Nat => a + b * (k : K)).length aperture i = w at *
  simp only [List.length_map, List.length_range] at *
  obtain ⟨lo, hi'⟩ := w
  simp only at *
  obtain ⟨len, rfl⟩ : ∃ len, hi' = lo + len := ⟨hi' - lo, by omega⟩
  have hget : ∀ k, k < n → ((List.range n).map fun k : Nat => a + b * (k : K)).getD k 0 = a + b * (k : K) := by
    intro k hk
    simp [List.getD_eq_getElem?_getD, hk]
  rw [Finset.sum_congr rfl (g := fun k : Nat => a + b * (k : K)), hget i hi, Nat.add_sub_cancel_left]
  · have h := sum_linear a b lo len
    rw [← Finset.sum_mul] at h
    have h5 : (lo : K) + (lo + len) = 2 * i + 1 := by exact_mod_cast h4
    apply mul_right_cancel₀ (two_ne_zero (α := K))
    rw [h]
    linear_combination (len : K) * b * h5
  · intro k hk
    exact hget k (by have := (Finset.mem_Ico.1 hk).2; omega)

/-- C34: with an even aperture the window begins one sample earlier than it should, away from the ends. -/
theorem C34_window_even (n aperture i : Nat) (he : aperture % 2 = 0) (ha : 1 ≤ aperture) (h1 : aperture / 2 ≤ i)
    (h2 : i + aperture / 2 < n) : (smoothWindow n aperture i).1 + (smoothWindow n aperture i).2 = 2 * i := by
  unfold smoothWindow smoothWid smoothOdd
  simp only
  rw [if_pos (by omega), if_pos he]
  simp only
  omega

/-- C34: with an even aperture straight lines are shifted by half a sample away from the ends, so they are
changed unless they are constant. -/
theorem C34_even (n aperture : Nat) (a b : K) (he : aperture % 2 = 0) (ha : 1 ≤ aperture) (i : Nat)
    (h1 : aperture / 2 ≤ i) (h2 : i + aperture / 2 < n) :
    (smooth ((List.range n).map fun k : Nat => a + b * (k : K)) aperture)[i]? = some (a + b * ((i : K) - 1 / 2)) := by
  have hlen : ((List.range n).map fun k : Nat => a + b * (k : K)).length = n := by simp
  have hi : i < n := by omega
  obtain ⟨m, hm, hs⟩ := C34_mean ((List.range n).map fun k : Nat => a + b * (k : K)) aperture i (by rw [hlen]; exact hi)
  rw [hlen] at hs
  obtain ⟨h3, h4, h5⟩ := C34_window n aperture i hi
  have h6 := C34_window_even n aperture i he ha h1 h2
  generalize smoothWindow n aperture i = w at *
  obtain ⟨lo, hi'⟩ := w
  simp only at *
  obtain ⟨len, rfl⟩ : ∃ len, hi' = lo + len := ⟨hi' - lo, by omega⟩
  have hget : ∀ k, k < n → ((List.range n).map fun k : Nat => a + b * (k : K)).getD k 0 = a + b * (k : K) := by
    intro k hk
    simp [List.getD_eq_getElem?_getD, hk]
  rw [Finset.sum_congr rfl (g := fun k : Nat => a + b * (k : K)), Nat.add_sub_cancel_left] at hs
  · have h := sum_linear a b lo len
    rw [← Finset.sum_mul, ← hs] at h
    have h7 : (lo : K) + (lo + len) = 2 * i := by exact_mod_cast h6
    have hl0 : (len : K) ≠ 0 := by
      have : len ≠ 0 := by omega
      exact_mod_cast this
    rw [hm]
    congr 1
    apply mul_right_cancel₀ hl0
    apply mul_right_cancel₀ (two_ne_zero (α := K))
    rw [h]
    field_simp
    linear_combination b * h7
  · intro k hk
    exact hget k (by have := (Finset.mem_Ico.1 hk).2; omega)

example : ∃ n aperture i : Nat, aperture % 2 = 0 ∧ 1 ≤ aperture ∧ aperture / 2 ≤ i ∧ i + aperture / 2 < n :=
  ⟨7, 4, 3, by decide⟩

/-- C34: for example. -/
theorem C34_even_refuted : smooth [(0 : ℚ), 1, 2, 3] 2 = [0, 1 / 2, 3 / 2, 3] := by decide +kernel

/-- C34: integers are truncated: the mean of 1, 2, 2 is not 1. -/
theorem C34_integer_refuted : smoothInt [1, 2, 2] 3 = [1, 1, 2] ∧ smooth [(1 : ℚ), 2, 2] 3 = [1, 5 / 3, 2] := by
  decide +kernel

/-- C34: for integers the value is the mean with its fraction cut off, so nearer to zero by less than
one and not of opposite sign. -/
theorem C34_integer (data : List Int) (aperture i : Nat) (hi : i < data.length) :
    ∃ v m, (smoothInt data aperture)[i]? = some v ∧ (smooth (data.map fun x : Int => (x : ℚ)) aperture)[i]? = some m ∧
      |(v : ℚ)| ≤ |m| ∧ |m - v| < 1 ∧ 0 ≤ (v : ℚ) * m := by
  have hs : ∀ w : List Int, w ≠ [] → |((w.sum.tdiv w.length : Int) : ℚ)| ≤ |mean (w.map fun x : Int => (x : ℚ))| ∧
      |mean (w.map fun x : Int => (x : ℚ)) - ((w.sum.tdiv w.length : Int) : ℚ)| < 1 ∧
      0 ≤ ((w.sum.tdiv w.length : Int) : ℚ) * mean (w.map fun x : Int => (x : ℚ)) := by
    intro w hw
    have hl : 0 < w.length := List.length_pos_iff.2 hw
    have hsum : (w.map fun x : Int => (x : ℚ)).sum = ((w.sum : Int) : ℚ) := by
      clear hw hl
      induction w with
      | nil => simp
      | cons a w ih => rw [List.map_cons, List.sum_cons, ih, List.sum_cons, Int.cast_add]
    have hmean : mean (w.map fun x : Int => (x : ℚ)) = ((w.sum : Int) : ℚ) / (w.length : ℚ) := by
      rw [mean, hsum, List.length_map]
    rw [hmean]
    generalize w.sum = s
    generalize w.length = n at hl
    have hn : (0 : ℚ) < n := by exact_mod_cast hl
    have hq : (s : ℚ) = n * ((s.tdiv n : Int) : ℚ) + ((s.tmod n : Int) : ℚ) := by
      exact_mod_cast (Int.mul_tdiv_add_tmod s n).symm
    have hdiv : (s : ℚ) / n = ((s.tdiv n : Int) : ℚ) + ((s.tmod n : Int) : ℚ) / n := by
      rw [hq]; field_simp
    rw [hdiv]
    rcases le_total 0 s with h | h
    · have h1 : 0 ≤ s.tmod n := Int.tmod_nonneg _ h
      have h2 : s.tmod n < n := Int.tmod_lt_of_pos _ (by exact_mod_cast hl)
      have h3 : 0 ≤ s.tdiv n := Int.tdiv_nonneg h (by omega)
      have h1' : (0 : ℚ) ≤ ((s.tmod n : Int) : ℚ) / n := div_nonneg (by exact_mod_cast h1) hn.le
      have h2' : ((s.tmod n : Int) : ℚ) / n < 1 := by rw [div_lt_one hn]; exact_mod_cast h2
      have h3' : (0 : ℚ) ≤ ((s.tdiv n : Int) : ℚ) := by exact_mod_cast h3
      refine ⟨?_, ?_, ?_⟩
      · rw [abs_of_nonneg h3', abs_of_nonneg (by linarith)]; linarith
      · rw [add_sub_cancel_left, abs_of_nonneg h1']; exact h2'
      · exact mul_nonneg h3' (by linarith)
    · have h1 : s.tmod n ≤ 0 := by
        have := Int.tmod_nonneg (a := -s) n (by omega)
        rw [Int.neg_tmod] at this; omega
      have h2 : -(n : Int) < s.tmod n := by
        have := Int.tmod_lt_of_pos (-s) (b := n) (by exact_mod_cast hl)
        rw [Int.neg_tmod] at this; omega
      have h3 : s.tdiv n ≤ 0 := by
        have := Int.tdiv_nonneg (a := -s) (b := n) (by omega) (by omega)
        rw [Int.neg_tdiv] at this; omega
      have h1' : ((s.tmod n : Int) : ℚ) / n ≤ 0 := div_nonpos_of_nonpos_of_nonneg (by exact_mod_cast h1) hn.le
      have h2' : -1 < ((s.tmod n : Int) : ℚ) / n := by
        rw [lt_div_iff₀ hn]
        have : -(n : ℚ) < ((s.tmod n : Int) : ℚ) := by exact_mod_cast h2
        linarith
      have h3' : ((s.tdiv n : Int) : ℚ) ≤ 0 := by exact_mod_cast h3
      refine ⟨?_, ?_, ?_⟩
      · rw [abs_of_nonpos h3', abs_of_nonpos (by linarith)]; linarith
      · rw [add_sub_cancel_left, abs_of_nonpos h1']; linarith
      · exact mul_nonneg_of_nonpos_of_nonpos h3' (by linarith)
  obtain ⟨w1, w2, w3⟩ := C34_window data.length aperture i hi
  by_cases hw : smoothWid data.length aperture i = 0
  · refine ⟨data[i], (data[i] : ℚ), ?_, ?_, le_refl _, by simp, mul_self_nonneg _⟩
    · simp [smoothInt, hi, hw]
    · simp [smooth, hi, hw]
  · have hne : slice data (smoothWindow data.length aperture i) ≠ [] := by
      intro h0
      have := slice_length data (smoothWindow data.length aperture i) w3
      rw [h0] at this
      simp at this; omega
    refine ⟨_, _, ?_, ?_, hs _ hne⟩
    · simp [smoothInt, hi, hw]
    · simp [smooth, hi, hw, slice, List.map_drop, List.map_take]

/-- C34: along another axis rows and columns are mixed up: rows of constants come out changed (or the
shapes do not fit). -/
theorem C34_axis_refuted :
    smoothRows [[(1 : ℚ), 1, 1], [2, 2, 2], [4, 4, 4]] 3 = some [[1, 1, 1], [1, 2, 4], [4, 4, 4]] ∧
    smoothRows [[(1 : ℚ), 1, 1, 1], [2, 2, 2, 2], [4, 4, 4, 4], [5, 5, 5, 5]] 3 = none := by
  decide +kernel

/-- C34: the result stays within the bounds of the data. -/
theorem C34_bounds (data : List ℝ) (aperture : Nat) (lo hi : ℝ) (h : ∀ x ∈ data, lo ≤ x ∧ x ≤ hi) :
    ∀ x ∈ smooth data aperture, lo ≤ x ∧ x ≤ hi := by
  intro x hx
  obtain ⟨i, hi1, rfl⟩ := List.mem_iff_getElem.1 hx
  have hi' : i < data.length := by rwa [smooth_length] at hi1
  obtain ⟨m, hm, hs⟩ := C34_mean data aperture i hi'
  rw [List.getElem?_eq_getElem hi1, Option.some_inj] at hm
  rw [hm]
  obtain ⟨h1, h2, h3⟩ := C34_window data.length aperture i hi'
  generalize smoothWindow data.length aperture i = w at *
  have hpos : (0 : ℝ) < ((w.2 - w.1 : Nat) : ℝ) := by
    rw [Nat.cast_pos]
    omega
  have hb : ∀ k ∈ Finset.Ico w.1 w.2, lo ≤ data.getD k 0 ∧ data.getD k 0 ≤ hi := by
    intro k hk
    have hk' : k < data.length := by have := (Finset.mem_Ico.1 hk).2; omega
    rw [List.getD_eq_getElem?_getD, List.getElem?_eq_getElem hk']
    exact h _ (List.getElem_mem hk')
  have l1 := Finset.card_nsmul_le_sum _ _ lo fun k hk => (hb k hk).1
  have l2 := Finset.sum_le_card_nsmul _ _ hi fun k hk => (hb k hk).2
  rw [Nat.card_Ico, nsmul_eq_mul, ← hs] at l1 l2
  constructor
  · exact le_of_mul_le_mul_right (by linarith) hpos
  · exact le_of_mul_le_mul_right (by linarith) hpos

/-! ### Polynomials -/

/-- C34: the assertion of `poly_smooth` holds. -/
theorem C34_poly_length (n aperture i : Nat) (hi : i < n) :
    polyStop n aperture i - polyStart n aperture i = aperture := by
  unfold polyStop polyStart smoothOdd
  split <;> omega

/-- C34: the window lies inside the data; it contains the sample except when that is the last one and
there are more samples than the aperture. -/
theorem C34_poly_window (n aperture i : Nat) (hi : i < n) (ha : 1 ≤ aperture) (hn : aperture ≤ n) :
    polyStop n aperture i ≤ n ∧
    ((polyStart n aperture i ≤ i ∧ i < polyStop n aperture i) ↔ ¬ (i = n - 1 ∧ aperture < n)) := by
  unfold polyStop polyStart smoothOdd
  split <;> omega

/-- C34: no window contains the last sample when there are more samples than the aperture. -/
theorem C34_poly_last_refuted (n aperture i : Nat) (hi : i < n) (hn : aperture < n) :
    polyStop n aperture i ≤ n - 1 := by
  unfold polyStop smoothOdd
  split <;> omega

/-- What `polyfit(x, y, N)` returns: a polynomial of degree at most `N` with the least sum of squared
errors. -/
def IsFit (N : Nat) (l : List (ℝ × ℝ)) (q : Polynomial ℝ) : Prop :=
  q.natDegree ≤ N ∧ ∀ p : Polynomial ℝ, p.natDegree ≤ N →
    (l.map fun s => (q.eval s.1 - s.2) ^ 2).sum ≤ (l.map fun s => (p.eval s.1 - s.2) ^ 2).sum

theorem sum_sq_zero : ∀ (l : List ℝ), (∀ x ∈ l, 0 ≤ x) → l.sum ≤ 0 → ∀ x ∈ l, x = 0
  | [], _, _, x, hx => by simp at hx
  | a :: l, h, hs, x, hx => by
    have ha := h a (by simp)
    have hl : 0 ≤ l.sum := List.sum_nonneg fun y hy => h y (by simp [hy])
    rw [List.sum_cons] at hs
    rcases List.mem_cons.1 hx with rfl | hx
    · linarith
    · exact sum_sq_zero l (fun y hy => h y (by simp [hy])) (by linarith) x hx

theorem zip_map_self {α β : Type} (f : α → β) : ∀ l : List α, l.zip (l.map f) = l.map fun x => (x, f x)
  | [] => rfl
  | a :: l => by simp [zip_map_self f l]

theorem mapM_some {α β : Type} (f : α → Option β) (g : α → β) : ∀ l : List α, (∀ x ∈ l, f x = some (g x)) →
    l.mapM f = some (l.map g)
  | [], _ => rfl
  | a :: l, h => by
    rw [List.mapM_cons, h a (by simp), mapM_some f g l fun x hx => h x (by simp [hx])]
    rfl

theorem exact_isFit {N : Nat} {p : Polynomial ℝ} (xs : List ℝ) (hp : p.natDegree ≤ N) :
    IsFit N (xs.zip (xs.map p.eval)) p := by
  refine ⟨hp, fun q _ => ?_⟩
  have : ((xs.zip (xs.map p.eval)).map fun s => (p.eval s.1 - s.2) ^ 2) = xs.map fun _ => 0 := by
    rw [zip_map_self, List.map_map]
    exact List.map_congr_left fun x _ => by simp
  rw [this]
  simp only [List.map_const', List.sum_replicate, smul_zero]
  refine List.sum_nonneg fun y hy => ?_
  obtain ⟨s, -, rfl⟩ := List.mem_map.1 hy
  positivity

theorem fit_exact {N : Nat} {q p : Polynomial ℝ} {xs : List ℝ} (hq : IsFit N (xs.zip (xs.map p.eval)) q)
    (hp : p.natDegree ≤ N) (hnd : xs.Nodup) (hlen : N < xs.length) : q = p := by
  have hz : (((xs.zip (xs.map p.eval)).map fun s => (p.eval s.1 - s.2) ^ 2)).sum = 0 := by
    have : ((xs.zip (xs.map p.eval)).map fun s => (p.eval s.1 - s.2) ^ 2) = xs.map fun _ => 0 := by
      rw [zip_map_self, List.map_map]
      exact List.map_congr_left fun x _ => by simp
    rw [this]
    simp
  have hle := hq.2 p hp
  rw [hz] at hle
  have hall := sum_sq_zero _ (by
    intro y hy
    obtain ⟨s, -, rfl⟩ := List.mem_map.1 hy
    positivity) hle
  have hev : ∀ x ∈ xs, q.eval x = p.eval x := by
    intro x hx
    have := hall ((q.eval x - p.eval x) ^ 2) (by
      rw [zip_map_self, List.map_map]
      exact List.mem_map.2 ⟨x, hx, rfl⟩)
    have := pow_eq_zero_iff (two_ne_zero) |>.1 this
    linarith
  refine (Polynomial.eq_of_natDegree_lt_card_of_eval_eq' p q xs.toFinset ?_ ?_).symm
  · intro x hx
    exact (hev x (List.mem_toFinset.1 hx)).symm
  · rw [List.toFinset_card_of_nodup hnd]
    exact lt_of_le_of_lt (max_le hp hq.1) hlen

theorem slice_map {α β : Type} (f : α → β) (l : List α) (w : Nat × Nat) : slice (l.map f) w = (slice l w).map f := by
  simp [slice, List.map_take, List.map_drop]

theorem slice_nodup {α : Type} {l : List α} (h : l.Nodup) (w : Nat × Nat) : (slice l w).Nodup :=
  (h.sublist (List.take_sublist _ _)).sublist (List.drop_sublist _ _)

/-- C34: samples of a polynomial of degree at most `N` are not changed by `poly_smooth` (apertures of
more than `N` and at most all samples). -/
theorem C34_poly_exact (fit : List (ℝ × ℝ) → Polynomial ℝ) (N : Nat) (hfit : ∀ l, (∃ q, IsFit N l q) → IsFit N l (fit l))
    (x : List ℝ) (hx : x.Nodup) (p : Polynomial ℝ) (hp : p.natDegree ≤ N) (aperture : Nat) (ha : N < aperture)
    (hn : aperture ≤ x.length) : polySmooth fit x (x.map p.eval) aperture = some (x.map p.eval) := by
  unfold polySmooth
  simp only
  have hstep : ∀ i ∈ List.range x.length,
      (if polyStop x.length aperture i - polyStart x.length aperture i = aperture then
        some ((fit ((slice x (polyStart x.length aperture i, polyStop x.length aperture i)).zip
          (slice (x.map p.eval) (polyStart x.length aperture i, polyStop x.length aperture i)))).eval (x.getD i 0))
        else none) = some (p.eval (x.getD i 0)) := by
    intro i hi
    have hi := List.mem_range.1 hi
    rw [if_pos (C34_poly_length _ _ _ hi), slice_map]
    obtain ⟨h1, -⟩ := C34_poly_window x.length aperture i hi (by omega) hn
    have hl := C34_poly_length x.length aperture i hi
    generalize polyStart x.length aperture i = lo at *
    generalize polyStop x.length aperture i = hi' at *
    have hsl := slice_length x (lo, hi') h1
    simp only at hsl
    rw [fit_exact (hfit _ ⟨p, exact_isFit _ hp⟩) hp (slice_nodup hx _) (by omega)]
  rw [mapM_some _ _ _ hstep]
  congr 1
  apply List.ext_getElem
  · simp
  · intro k h1 h2
    have hk : k < x.length := by simpa using h2
    simp [List.getD_eq_getElem?_getD, hk]

/-! ### Non-vacuity -/

example : C34_window 5 3 1 (by decide) = C34_window 5 3 1 (by decide) ∧ smoothWindow 7 5 3 = (1, 6) ∧
    smoothWindow 7 5 1 = (0, 3) ∧ smooth [(1 : ℚ), 5, 3, 4] 3 = [1, 3, 4, 4] := by
  refine ⟨rfl, ?_⟩
  decide +kernel

example : IsFit 0 [(0, 1), (1, 3)] (Polynomial.C (2 : ℝ)) := by
  refine ⟨by simp, fun p hp => ?_⟩
  obtain ⟨c, rfl⟩ := Polynomial.natDegree_eq_zero.1 (Nat.le_zero.1 hp)
  simp
  nlinarith [sq_nonneg (c - 2)]

end HF.MathFns
