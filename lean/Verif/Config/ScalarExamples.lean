import Verif.Config.ScalarProps
/-
C88: examples.
-/
namespace HF
namespace Config
namespace Scalars

/-- `5`, `1e9` and `3.5` -/
def five : Number := ⟨[], ['5'], none, none⟩
def giga : Number := ⟨[], ['1'], none, some ⟨'e', [], ['9']⟩⟩
def half : Number := ⟨['-'], ['3'], some ['5'], none⟩

theorem five_ok : five.Ok := by
  constructor <;> simp [five, Sign, Digits, Utils.isDigit]

theorem giga_ok : giga.Ok := by
  constructor <;> simp [giga, Sign, Digits, Utils.isDigit, Exponent.Ok]

theorem half_ok : half.Ok := by
  constructor <;> simp [half, Sign, Digits, Utils.isDigit]

theorem one_blank : Blanks [' '] := by simp [Blanks]

theorem v0 : Utils.decValue [] = 0 := rfl
theorem v1 : Utils.decValue ['1'] = 1 := by decide
theorem v2 : Utils.decValue ['2'] = 2 := by decide
theorem v3 : Utils.decValue ['3'] = 3 := by decide
theorem v5 : Utils.decValue ['5'] = 5 := by decide
theorem v9 : Utils.decValue ['9'] = 9 := by decide

theorem five_value : five.value = 5 := by
  norm_num [five, Number.value, Units.decimal, v0, v2, v3, v5]

theorem half_value : half.value = -7 / 2 := by
  norm_num [half, Number.value, Units.decimal, v0, v2, v3, v5]

theorem giga_value : giga.value = 1000000000 := by
  norm_num [giga, Number.value, Units.decimal, v0, v1, v9, Exponent.value]

/-- `5 GHz` -/
example : siConstructor "5 GHz".toList = .ok (5000000000, some "Hz".toList) := by
  have := C88_prefixed five five_ok [' '] one_blank 'G' 9 rfl "Hz".toList (.inr (by simp [IsUnit]))
  rw [five_value] at this
  norm_num at this
  exact this

/-- `1e9`, which YAML 1.1 does not take for a number -/
example : siConstructor "1e9".toList = .ok (1000000000, none) := by
  have := C88_plain giga giga_ok [] (by simp [Blanks]) [] (.inl rfl) (by simp)
  rw [giga_value] at this
  exact this

/-- `-3.5 V` -/
example : siConstructor "-3.5 V".toList = .ok (-7 / 2, some "V".toList) := by
  have := C88_plain half half_ok [' '] one_blank "V".toList (.inr (by simp [IsUnit])) (by simp)
  rw [half_value] at this
  exact this

/-- `5 m` -/
theorem C88_metre_witness : siConstructor "5 m".toList = .ok (1 / 200, none) := by
  have := C88_metre_refuted five five_ok [' '] one_blank
  rw [five_value] at this
  norm_num at this ⊢
  exact this

/-- `5 %` -/
theorem five_percent : PercentText "5 %".toList (1 / 20) :=
  ⟨five, [' '], ['%'], 1 / 100, five_ok, one_blank, .percent, rfl, by rw [five_value]; norm_num⟩

example : percentConstructor "5 %".toList = .ok (1 / 20) := C88_percent _ _ five_percent

/-- `2 days 3.5 hours` -/
def twoDays : Piece := ⟨['2'], none, 1, "days".toList, 0, 86400⟩
def someHours : Piece := ⟨['3'], some ['5'], 1, "hours".toList, 1, 3600⟩

theorem twoDays_ok : twoDays.Ok := by
  refine ⟨⟨by simp [twoDays], rfl⟩, fun f h => (by cases h), .days⟩

theorem someHours_ok : someHours.Ok := by
  refine ⟨⟨by simp [someHours], rfl⟩, ?_, .hours⟩
  rintro f ⟨⟩
  rfl

theorem days_hours : Reading "2 days 3.5 hours".toList [twoDays, someHours] :=
  .cons twoDays twoDays_ok 1 _ someHours [] (.one someHours someHours_ok) (by decide)

example : intervalConstructor "2 days 3.5 hours".toList = .ok 185400 := by
  rw [C88_interval _ _ days_hours]
  norm_num [total, twoDays, someHours, Piece.value, Units.decimal, v0, v2, v3, v5]

/-- None of them is recognised by YAML; they are recognised here. -/
example : detect (fun _ => none) "5 %".toList = .percent :=
  ((C88_detect (fun _ => none) "5 %".toList (by simp [Plain])).2 rfl).2.1.2 ⟨_, five_percent⟩

example : detect (fun _ => none) "2 days 3.5 hours".toList = .interval :=
  ((C88_detect (fun _ => none) _ (reading_plain days_hours)).2 rfl).2.2.1.2 ⟨_, days_hours⟩

/-- `12:30 in the lab` is a time. -/
example : detect (fun _ => none) "12:30 in the lab".toList = .time :=
  ((C88_detect (fun _ => none) "12:30 in the lab".toList (by simp [Plain])).2 rfl).2.2.2.2.1.2
    ⟨['1', '2'], ['3', '0'], " in the lab".toList, ⟨rfl, rfl⟩, ⟨rfl, rfl⟩, rfl⟩

/-- `2012-02-29 12:30` -/
theorem leap : DateText "2012-02-29 12:30".toList ['2', '0', '1', '2'] ['0', '2'] ['2', '9'] ['1', '2'] ['3', '0'] [] :=
  ⟨⟨rfl, rfl⟩, ⟨rfl, rfl⟩, ⟨rfl, rfl⟩, ⟨rfl, rfl⟩, ⟨rfl, rfl⟩, rfl⟩

example : dateConstructor "2012-02-29 12:30".toList = .ok ⟨2012, 2, 29, 12, 30⟩ :=
  (C88_date _ _ _ _ _ _ leap).1 (by
    simp [IsDate, Utils.decValue])

/-- `2014-01-02 12:30 first run` cannot be loaded. -/
theorem C88_date_witness : detect (fun _ => none) "2014-01-02 12:30 first run".toList = .shortdatetime ∧
    dateConstructor "2014-01-02 12:30 first run".toList = .error .valueError :=
  C88_date_refuted (fun _ => none) _ ['2', '0', '1', '4'] ['0', '1'] ['0', '2'] ['1', '2'] ['3', '0'] " first run".toList
    ⟨⟨rfl, rfl⟩, ⟨rfl, rfl⟩, ⟨rfl, rfl⟩, ⟨rfl, rfl⟩, ⟨rfl, rfl⟩, rfl⟩ (by simp) (by simp [Plain]) rfl

end Scalars
end Config
end HF
