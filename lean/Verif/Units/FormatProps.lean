import Mathlib.Tactic.Positivity
import Mathlib.Tactic.Linarith
import Mathlib.Tactic.IntervalCases
import Verif.Units.Format
import Verif.Units.Props
/-
C16: engineering notation.
-/
namespace HF
namespace Units

/-- Specification: the SI prefixes with their powers of ten. -/
def siPower : String → Option Int
  | "" => some 0 | "k" => some 3 | "M" => some 6 | "G" => some 9 | "T" => some 12 | "P" => some 15
  | "E" => some 18 | "Z" => some 21 | "Y" => some 24 | "m" => some (-3) | "u" => some (-6)
  | "μ" => some (-6) | "n" => some (-9) | "p" => some (-12) | "f" => some (-15) | "a" => some (-18)
  | "z" => some (-21) | "y" => some (-24) | _ => none

theorem sign_mul_eq_abs (x : ℝ) : (SignType.sign x : ℝ) * x = |x| := by
  rcases lt_trichotomy x 0 with h | h | h
  · rw [sign_neg h, abs_of_neg h]; simp
  · subst h; simp
  · rw [sign_pos h, abs_of_pos h]; simp

theorem exponent_spec {x : ℝ} (hx : x ≠ 0) :
    (10 : ℝ) ^ (mantissa x).2 ≤ |x| ∧ |x| < (10 : ℝ) ^ ((mantissa x).2 + 1) := by
  have hpos : 0 < |x| := abs_pos.2 hx
  unfold mantissa
  rw [if_neg hx]
  simp only [sign_mul_eq_abs]
  have h1 := Real.floor_logb_natCast (b := 10) hpos.le
  push_cast at h1
  rw [h1]
  have h2 := Int.zpow_log_le_self (b := 10) (R := ℝ) (by norm_num) hpos
  have h3 := Int.lt_zpow_succ_log_self (b := 10) (R := ℝ) (by norm_num) |x|
  push_cast at h2 h3
  exact ⟨h2, h3⟩

theorem exponent_unique {x : ℝ} (hx : x ≠ 0) {e : ℤ} (h1 : (10 : ℝ) ^ e ≤ |x|)
    (h2 : |x| < (10 : ℝ) ^ (e + 1)) : (mantissa x).2 = e := by
  obtain ⟨h3, h4⟩ := exponent_spec hx
  have a := (zpow_lt_zpow_iff_right₀ (by norm_num : (1 : ℝ) < 10)).1 (lt_of_le_of_lt h1 h4)
  have b := (zpow_lt_zpow_iff_right₀ (by norm_num : (1 : ℝ) < 10)).1 (lt_of_le_of_lt h3 h2)
  omega

/-- C16.  Mantissa and exponent: the product is the number and the mantissa is in [1, 10). -/
theorem C16_mantissa (x : ℝ) (hx : x ≠ 0) :
    (mantissa x).1 * (10 : ℝ) ^ (mantissa x).2 = x ∧ 1 ≤ |(mantissa x).1| ∧ |(mantissa x).1| < 10 := by
  obtain ⟨h1, h2⟩ := exponent_spec hx
  have hm : (mantissa x).1 = x / (10 : ℝ) ^ (mantissa x).2 := by unfold mantissa; rw [if_neg hx]
  have hp : (0 : ℝ) < (10 : ℝ) ^ (mantissa x).2 := by positivity
  rw [hm]
  refine ⟨div_mul_cancel₀ _ hp.ne', ?_, ?_⟩
  · rw [abs_div, abs_of_pos hp, le_div_iff₀ hp, one_mul]; exact h1
  · rw [abs_div, abs_of_pos hp, div_lt_iff₀ hp]
    rwa [zpow_add_one₀ (by norm_num), mul_comm] at h2

/-- C16.  The number printed times the power of ten of the exponent is the value, the exponent is a
multiple of three, and the number printed is in [1, 1000) (or 0 for 0). -/
theorem C16_engineering (x : ℝ) :
    (helpFormatSci x).1 * (10 : ℝ) ^ (helpFormatSci x).2 = x ∧ (3 : ℤ) ∣ (helpFormatSci x).2 ∧
      (x ≠ 0 → 1 ≤ |(helpFormatSci x).1| ∧ |(helpFormatSci x).1| < 1000) := by
  by_cases hx : x = 0
  · subst hx
    have : helpFormatSci 0 = (0, 0) := by simp [helpFormatSci, mantissa]
    rw [this]; simp
  · obtain ⟨h1, h2⟩ := exponent_spec hx
    obtain ⟨g1, _, _⟩ := C16_mantissa x hx
    generalize hme : mantissa x = me at h1 h2 g1
    obtain ⟨m, e⟩ := me
    simp only at h1 h2 g1
    -- in both branches the result is x / 10^(e - e%3)
    have hval : helpFormatSci x = (x * (10 : ℝ) ^ (-(e - e % 3)), e - e % 3) := by
      unfold helpFormatSci
      rw [hme]
      simp only
      split
      · rename_i hc
        have h0 : e % 3 = e := by omega
        rw [h0, sub_self, neg_zero, zpow_zero, mul_one, g1]
      · rfl
    rw [hval]
    obtain ⟨q, hq⟩ : ∃ q, q = e - e % 3 := ⟨_, rfl⟩
    have hq1 : q ≤ e := by omega
    have hq2 : e ≤ q + 2 := by omega
    simp only [← hq]
    have hp : (0 : ℝ) < (10 : ℝ) ^ q := by positivity
    refine ⟨?_, by omega, fun _ => ?_⟩
    · rw [mul_assoc, ← zpow_add₀ (by norm_num)]; simp
    · rw [zpow_neg, abs_mul, abs_inv, abs_of_pos hp, ← div_eq_mul_inv, le_div_iff₀ hp, div_lt_iff₀ hp,
        one_mul]
      constructor
      · exact le_trans (zpow_le_zpow_right₀ (by norm_num) hq1) h1
      · refine lt_of_lt_of_le h2 ?_
        have : (1000 : ℝ) * 10 ^ q = 10 ^ (q + 3) := by
          rw [zpow_add₀ (by norm_num)]; norm_num; ring
        rw [this]
        exact zpow_le_zpow_right₀ (by norm_num) (by omega)

theorem prefix_table (greek : Bool) : ∀ e : Int, -24 ≤ e → e ≤ 21 → 3 ∣ e →
    ∃ p, dictDisplay (if greek then siExpEntriesGreek else siExpEntries) e = some p ∧
      siPower p = some e := by
  intro e h1 h2 h3
  obtain ⟨k, rfl⟩ := h3
  have a : -8 ≤ k := by omega
  have b : k ≤ 7 := by omega
  cases greek <;> interval_cases k <;> exact ⟨_, rfl, by decide⟩

theorem prefix_none (greek : Bool) (e : Int) (h : e < -24 ∨ 21 < e) :
    dictDisplay (if greek then siExpEntriesGreek else siExpEntries) e = none := by
  have ne : ∀ k : Int, -24 ≤ k → k ≤ 21 → (e == k) = false := by
    intro k h1 h2
    have : e ≠ k := by omega
    simpa using this
  cases greek <;>
  simp [dictDisplay, siExpEntries, siExpEntriesGreek, List.lookup, ne]

/-- Exponent of the engineering notation. -/
theorem exp_range {x : ℝ} {a b : ℤ} (hx : x ≠ 0) (h1 : (10 : ℝ) ^ (3 * a) ≤ |x|)
    (h2 : |x| < (10 : ℝ) ^ (3 * b)) : 3 * a ≤ (helpFormatSci x).2 ∧ (helpFormatSci x).2 < 3 * b := by
  obtain ⟨e1, e2, e3⟩ := C16_engineering x
  obtain ⟨e4, e5⟩ := e3 hx
  generalize helpFormatSci x = q at *
  obtain ⟨n, e⟩ := q
  simp only at *
  have hp : (0 : ℝ) < (10 : ℝ) ^ e := by positivity
  have habs : |x| = |n| * (10 : ℝ) ^ e := by rw [← e1, abs_mul, abs_of_pos hp]
  have lo : (10 : ℝ) ^ e ≤ |x| := by rw [habs]; nlinarith
  have hi : |x| < (10 : ℝ) ^ (e + 3) := by
    rw [habs, zpow_add₀ (by norm_num)]
    have : (10 : ℝ) ^ (3 : ℤ) = 1000 := by norm_num
    rw [this]; nlinarith
  have a1 := (zpow_lt_zpow_iff_right₀ (by norm_num : (1 : ℝ) < 10)).1 (lt_of_le_of_lt h1 hi)
  have a2 := (zpow_lt_zpow_iff_right₀ (by norm_num : (1 : ℝ) < 10)).1 (lt_of_le_of_lt lo h2)
  omega

/-- C16.  Between 1e-24 and 1e24 (and for 0) a number is printed with the SI prefix for which
number times prefix is the value. -/
theorem C16_prefix (x : ℝ) (greek : Bool)
    (h : x = 0 ∨ ((10 : ℝ) ^ (-24 : ℤ) ≤ |x| ∧ |x| < (10 : ℝ) ^ (24 : ℤ))) :
    ∃ n p e, formatNumber x greek = some (n, p) ∧ siPower p = some e ∧ n * (10 : ℝ) ^ e = x ∧
      (x ≠ 0 → 1 ≤ |n| ∧ |n| < 1000) := by
  obtain ⟨e1, e2, e3⟩ := C16_engineering x
  have hr : -24 ≤ (helpFormatSci x).2 ∧ (helpFormatSci x).2 ≤ 21 := by
    rcases h with rfl | ⟨h1, h2⟩
    · simp [helpFormatSci, mantissa]
    · have hx : x ≠ 0 := by
        rintro rfl
        rw [abs_zero] at h1
        exact absurd h1 (not_le.2 (by positivity))
      have := exp_range (a := -8) (b := 8) hx (by simpa using h1) (by simpa using h2)
      omega
  obtain ⟨p, hp1, hp2⟩ := prefix_table greek _ hr.1 hr.2 e2
  refine ⟨(helpFormatSci x).1, p, (helpFormatSci x).2, ?_, hp2, e1, e3⟩
  unfold formatNumber
  simp only [hp1, Option.map_some]

/-- C16 fails from 1e24 upward, although SI has the prefix Y: `KeyError`.  Likewise below 1e-24. -/
theorem C16_yotta_refuted (x : ℝ) (greek : Bool)
    (h : (10 : ℝ) ^ (24 : ℤ) ≤ |x| ∨ (x ≠ 0 ∧ |x| < (10 : ℝ) ^ (-24 : ℤ))) :
    formatNumber x greek = none := by
  have hx : x ≠ 0 := by
    rcases h with h | h
    · rintro rfl
      rw [abs_zero] at h
      exact absurd h (not_le.2 (by positivity))
    · exact h.1
  obtain ⟨e1, e2, e3⟩ := C16_engineering x
  obtain ⟨e4, e5⟩ := e3 hx
  unfold formatNumber
  have hr : (helpFormatSci x).2 < -24 ∨ 21 < (helpFormatSci x).2 := by
    obtain ⟨a1, a2⟩ := exponent_spec hx
    rcases h with h | ⟨_, h⟩
    · right
      by_contra hc
      -- some upper bound exists: use the mantissa exponent
      have hb : |x| < (10 : ℝ) ^ ((helpFormatSci x).2 + 3) := by
        have hp : (0 : ℝ) < (10 : ℝ) ^ (helpFormatSci x).2 := by positivity
        have habs : |x| = |(helpFormatSci x).1| * (10 : ℝ) ^ (helpFormatSci x).2 := by
          conv_lhs => rw [← e1]
          rw [abs_mul, abs_of_pos hp]
        rw [habs, zpow_add₀ (by norm_num)]
        have : (10 : ℝ) ^ (3 : ℤ) = 1000 := by norm_num
        rw [this]; nlinarith
      have := (zpow_lt_zpow_iff_right₀ (by norm_num : (1 : ℝ) < 10)).1 (lt_of_le_of_lt h hb)
      omega
    · left
      have hp : (0 : ℝ) < (10 : ℝ) ^ (helpFormatSci x).2 := by positivity
      have habs : |x| = |(helpFormatSci x).1| * (10 : ℝ) ^ (helpFormatSci x).2 := by
        conv_lhs => rw [← e1]
        rw [abs_mul, abs_of_pos hp]
      have lo : (10 : ℝ) ^ (helpFormatSci x).2 ≤ |x| := by rw [habs]; nlinarith
      exact (zpow_lt_zpow_iff_right₀ (by norm_num : (1 : ℝ) < 10)).1 (lt_of_le_of_lt lo h)
  have := prefix_none greek _ hr
  simp only [this, Option.map_none]

/-- C16.  What is printed with a prefix between a and E (and no greek letter) can be read back. -/
theorem C16_read_back (e : Int) (p : String) (u : List Char) (hu : BaseUnit u) (h1 : -18 ≤ e) (h2 : e ≤ 18)
    (hp : dictDisplay siExpEntries e = some p) :
    unitToMultiplier (p.toList ++ u) = ((10 : ℚ) ^ e, some u) := by
  by_cases h3 : (3 : ℤ) ∣ e
  · obtain ⟨k, rfl⟩ := h3
    have a : -6 ≤ k := by omega
    have b : k ≤ 6 := by omega
    by_cases hk : k = 0
    · subst hk
      have : p = "" := by simpa [dictDisplay, siExpEntries, List.lookup] using hp.symm
      subst this
      simpa using C17_base u hu
    · have : ∃ c, p.toList = [c] ∧ prefixPower c = some (3 * k) := by
        interval_cases k <;>
          first
          | (exact absurd rfl hk)
          | (have e := hp.symm; simp [dictDisplay, siExpEntries, List.lookup] at e; subst e; exact ⟨_, rfl, by decide⟩)
      obtain ⟨c, hc, hpow⟩ := this
      have := C17_prefixed [] [] u c (3 * k) rfl rfl hpow hu
      rw [hc]
      simpa using this
  · exfalso
    have ne : ∀ k : Int, (3 : ℤ) ∣ k → (e == k) = false := by
      intro k hk
      have : e ≠ k := fun h => h3 (h ▸ hk)
      simpa using this
    simp [dictDisplay, siExpEntries, List.lookup, ne] at hp

/-- C16.  What is printed with Z, z, y or the greek μ can not: the prefix is taken as part of an
unknown unit, and the multiplier is 1. -/
theorem C16_read_back_refuted (u : List Char) (hu : BaseUnit u) (p : Char)
    (hp : p ∈ ['Z', 'z', 'y', 'μ']) : unitToMultiplier (p :: u) = (1, some (p :: u)) := by
  have hall : ∀ u ∈ siunitNames, ∀ p ∈ ['Z', 'z', 'y', 'μ'], strip (p :: u) = p :: u ∧ u ≠ [] := by
    decide +kernel
  obtain ⟨hs, hne⟩ := hall u ((baseUnit_iff u).2 hu) p hp
  have hpp : ∀ p ∈ ['Z', 'z', 'y', 'μ'], prefixPower p = none := by decide
  have := C17_plain (p :: u) (by rw [hs]; simp [hne]) (by rw [hs]; simp [hne]) (by
    intro c e v hc _ heq
    rw [hs] at heq
    simp only [List.cons.injEq] at heq
    rw [← heq.1, hpp p hp] at hc; cases hc)
  rwa [hs] at this

/-- C16.  Rounding happens after the choice of the prefix: numbers just below a power of 1000 are
printed as 1000. -/
theorem C16_rounding_refuted (digs : Nat) (n : ℝ) (h1 : 1000 - 1 / (2 * 10 ^ digs) < n) (h2 : n < 1000) :
    roundDigs digs n = 1000 := by
  unfold roundDigs
  have hp : (0 : ℝ) < 10 ^ digs := by positivity
  have : round (n * 10 ^ digs) = 1000 * 10 ^ digs := by
    rw [round_eq, Int.floor_eq_iff]
    push_cast
    constructor
    · have : (1000 - 1 / (2 * 10 ^ digs)) * 10 ^ digs ≤ n * (10 : ℝ) ^ digs := by nlinarith
      have e : (1000 - 1 / (2 * (10 : ℝ) ^ digs)) * 10 ^ digs = 1000 * 10 ^ digs - 1 / 2 := by
        field_simp
      rw [e] at this
      linarith
    · nlinarith
  rw [this]
  push_cast
  field_simp

/-! Non-vacuity -/

example : mantissa 12345 = (12345 / (10 : ℝ) ^ (4 : ℤ), 4) := by
  have h : (mantissa 12345).2 = 4 :=
    exponent_unique (by norm_num) (by rw [abs_of_pos] <;> norm_num) (by rw [abs_of_pos] <;> norm_num)
  have hm : (mantissa 12345).1 = 12345 / (10 : ℝ) ^ (mantissa 12345).2 := by
    unfold mantissa; rw [if_neg (by norm_num)]
  rw [h] at hm
  exact Prod.ext hm h

example : (1000 : ℝ) - 1 / (2 * 10 ^ 3) < 999.9999 ∧ (999.9999 : ℝ) < 1000 := by norm_num

end Units
end HF
