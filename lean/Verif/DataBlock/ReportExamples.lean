import Verif.DataBlock.ReportProps
import Verif.Units.FormatProps
/-
C89: where the report fails, and examples.
-/
namespace HF
namespace DataBlock
namespace Report

variable {α : Type} [LinearOrder α]

/-- C89 fails for a block with a dimension without values: it cannot be printed. -/
theorem C89_empty_refuted (p : Printer α) (hp : p.Ok) (v : View α) (hm : v.minmax = true) (name : Text) (u : Option Text)
    (hd : (name, ⟨u, .nums []⟩) ∈ v.dims ∨ (name, ⟨u, .ints []⟩) ∈ v.dims) : ∃ e, report p v = .error e := by
  rcases hd with hd | hd
  · refine C89_fails_refuted p hp v hm _ hd ?_
    rintro ⟨-, lo, hi, hlo, -⟩
    cases hlo.1
  · exact C89_fails_refuted p hp v hm _ hd fun h => h rfl

/-- C89 fails for a unit with a blank. -/
theorem C89_unit_refuted (p : Printer α) (hp : p.Ok) (v : View α) (hm : v.minmax = true) (name u : Text) (xs : List α)
    (hd : (name, ⟨some u, .nums xs⟩) ∈ v.dims) (hu : ' ' ∈ u) : ∃ e, report p v = .error e :=
  C89_fails_refuted p hp v hm _ hd fun h => h.1 hu

/-- C89 fails for real values from 10^24 on and below 10^-24, for which there is no prefix. -/
theorem C89_range_refuted (p : Printer ℝ) (hp : p.Ok)
    (hf : ∀ x, Units.formatNumber x false = none → p.num x = none) (v : View ℝ) (hm : v.minmax = true) (name : Text)
    (u : Option Text) (xs : List ℝ) (hd : (name, ⟨u, .nums xs⟩) ∈ v.dims) (x : ℝ) (hx : IsGreatest {x | x ∈ xs} x)
    (hr : (10 : ℝ) ^ (24 : ℤ) ≤ |x| ∨ (x ≠ 0 ∧ |x| < (10 : ℝ) ^ (-24 : ℤ))) : ∃ e, report p v = .error e := by
  refine C89_fails_refuted p hp v hm _ hd ?_
  rintro ⟨-, lo, hi, -, hhi, -, h⟩
  rw [hhi.unique hx] at h
  exact h (hf x (Units.C16_yotta_refuted x false hr))

/-- C89 fails for integer dimensions: with the values their unit is not shown, whatever it is. -/
theorem C89_integer_unit_refuted (p : Printer α) (v : View α) (hm : v.minmax = true) (name : Text) (u u' : Option Text)
    (xs : List Int) (fs : List Text) (h : Shows p v name u (.ints xs) fs) : Shows p v name u' (.ints xs) fs := by
  cases h with
  | ints _ lo hi _ h1 h2 => exact .ints xs lo hi hm h1 h2
  | intsUnit _ h => rw [hm] at h; cases h

/-! ### Examples -/

/-- Whole numbers up to 999, printed without prefix. -/
def small : Printer Int where
  num x := if x.natAbs < 1000 then some (intText x, []) else none
  date _ := "2014".toList

theorem small_ok : small.Ok := by
  constructor
  · intro x n q h
    simp only [small] at h
    split at h
    · cases h
      exact ⟨intText_blank x, by simp⟩
    · cases h
  · intro x
    simp [small]

/-- A block with two dimensions and two variables. -/
def view (w : Nat) : View Int where
  name := "amp".toList
  dims := [("freq".toList, ⟨some "Hz".toList, .nums [5, 10, 100]⟩), ("i".toList, ⟨some "A".toList, .ints [0, 1]⟩)]
  vars := [("S".toList, ⟨none, [3, 2, 2]⟩), ("gain".toList, ⟨some "dB".toList, [3]⟩)]
  maxwidth := w
  units := true
  minmax := true

theorem view_ok (w : Nat) : (view w).minmax = true → ∀ d ∈ (view w).dims, Showable small d.2 := by
  intro _ d hd
  simp only [view, List.mem_cons, List.not_mem_nil, or_false] at hd
  rcases hd with rfl | rfl
  · refine ⟨by decide, 5, 100, ⟨by decide, ?_⟩, ⟨by decide, ?_⟩, by decide, by decide⟩
    · intro x hx
      simp only [Set.mem_setOf_eq, List.mem_cons, List.not_mem_nil, or_false] at hx
      omega
    · intro x hx
      simp only [Set.mem_setOf_eq, List.mem_cons, List.not_mem_nil, or_false] at hx
      omega
  · simp [Showable]

/-- The theorem applies to it. -/
example : ∃ body dimFields dimRows varRows dims vars,
    reportLines small (view 79) = .ok (("Blockname: ".toList ++ (view 79).name) :: body) ∧
      List.Forall₂ (fun d fs => Shows small (view 79) d.1 d.2.unit d.2.values fs) (view 79).dims dimFields ∧
      Table [true, false, false, false, true, false, true, true] dimFields dimRows ∧
      Table [true, false, false] ((view 79).vars.map (varFields (view 79))) varRows ∧
      Titled "Dimensions:".toList dimRows dims ∧ Titled "Variables:".toList varRows vars ∧
      Body (view 79).maxwidth vars dims body :=
  C89_report small small_ok (view 79) (view_ok 79)

/-- Side by side. -/
def wideLines : List Text := [
    "Blockname: amp".toList,
    "Variables:        - Dimensions:           ".toList,
    "S      [] <3x2x2> - freq  <3> 5 Hz 100 Hz ".toList,
    "gain [dB]     <3> - i     <2> 0      1    ".toList]

theorem view_wide : reportLines small (view 79) = .ok wideLines := by
  rfl

/-- Below each other. -/
theorem view_narrow : reportLines small (view 30) = .ok (["Blockname: amp", "Dimensions:", "freq  <3> 5 Hz 100 Hz ",
    "i     <2> 0      1    ", "", "Variables:", "S      [] <3x2x2>", "gain [dB]     <3>"].map String.toList) := by
  rfl

/-- C89 fails for the width: lines of 42 characters where 39 were asked for. -/
theorem C89_width_refuted : reportLines small (view 39) = .ok wideLines ∧ ∃ l ∈ wideLines, l.length = 42 :=
  ⟨rfl, "S      [] <3x2x2> - freq  <3> 5 Hz 100 Hz ".toList, by simp [wideLines], rfl⟩

/-- The text and its lines. -/
example : ∃ t, report small (view 79) = .ok t ∧ Sp.splitOn '\n' t = wideLines :=
  ⟨Text.join '\n' wideLines, by simp only [report, view_wide], C89_lines small (view 79) wideLines view_wide (by decide) _
    (by simp only [report, view_wide])⟩

/-- A block with an empty dimension. -/
example : ∃ e, report small { view 79 with dims := [("freq".toList, ⟨none, .nums []⟩)] } = .error e :=
  C89_empty_refuted small small_ok _ rfl "freq".toList none (.inl (by simp))

end Report
end DataBlock
end HF
