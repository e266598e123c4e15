import Verif.Sp.Props
/-
C52, C53: the hypotheses are met by files as they are written.
-/
namespace HF.Sp

open HF.DataDict.Spec HF.DataBlock
open HF.DataDict hiding rename delitem
open Units (isWs strip)
open Text (join)

instance (f : List Char) : Decidable (Field f) :=
  decidable_of_iff (f ≠ [] ∧ '\t' ∉ f ∧ (∀ c ∈ f.head?, isWs c = false) ∧ ∀ c ∈ f.getLast?, isWs c = false)
    ⟨fun h => ⟨h.1, h.2.1, h.2.2.1, h.2.2.2⟩, fun h => ⟨h.1, h.2, h.3, h.4⟩⟩

instance (b : Table) : Decidable (Good b) :=
  decidable_of_iff ((∀ c ∈ b.comments, (∀ x ∈ c.getLast?, isWs x = false) ∧ ¬ marker <+: c) ∧ b.names ≠ [] ∧
    (∀ p ∈ b.names, Field p.1) ∧ (∀ p ∈ b.names.head?, ∀ c ∈ p.1.head?, isLetter c = true) ∧ b.rows ≠ [] ∧
    (∀ r ∈ b.rows, r ≠ []) ∧ (∀ r ∈ b.rows, ∀ f ∈ r, Field f) ∧
    (∀ r ∈ b.rows, ∀ f ∈ r.head?, ∀ c ∈ f.head?, isLetter c = false ∧ c ≠ '!'))
    ⟨fun h => ⟨h.1, h.2.1, h.2.2.1, h.2.2.2.1, h.2.2.2.2.1, h.2.2.2.2.2.1, h.2.2.2.2.2.2.1, h.2.2.2.2.2.2.2⟩,
      fun h => ⟨h.1, h.2, h.3, h.4, h.5, h.6, h.7, h.8⟩⟩

/-- Comments, a partial sweep, a padded name, a name that occurs twice, two rows. -/
def t1 : Table :=
  ⟨["Date: 2014-01-01".toList, "@Vd=3 mV".toList], [("freq [Hz]".toList, 4), ("Ig".toList, 0), ("Id".toList, 6), ("Id".toList, 2)],
    [["1e9".toList, "0.5".toList, "-2".toList, "7".toList], ["2e9".toList, ".25".toList, "-3".toList, "8".toList]]⟩

/-- A block with a single row and no comments. -/
def t2 : Table := ⟨[], [("x".toList, 0), ("y".toList, 0)], [["1".toList, "2".toList]]⟩

/-- The lines of a file with both. -/
def file : List (List Char) :=
  ["!Fullcomments\n".toList] ++ t1.lines.map (· ++ ['\r', '\n']) ++ ["\n".toList, []] ++ t2.lines.map (' ' :: ·)

theorem t1_good : Good t1 := by decide +kernel
theorem t2_good : Good t2 := by decide +kernel

theorem elem_of_all {l : List String} (h : ∀ n ∈ l, isMatrixName n = none) :
    ∀ n ∈ l, ∀ m i j, isMatrixName n = some (m, i, j) → m ∉ l := by
  intro n hn m i j hm; rw [h n hn] at hm; simp at hm

theorem t1_plain : Plain t1 := ⟨by decide +kernel, elem_of_all (by decide +kernel), by decide +kernel⟩
theorem t2_plain : Plain t2 := ⟨by decide +kernel, elem_of_all (by decide +kernel), by decide +kernel⟩

theorem file_holds : Holds file [t1, t2] := by unfold Holds; decide +kernel

theorem t1_props : t1.props = [("Date", .other "2014-01-01".toList), ("@Vd", .arr (3 / 1000) (some "V".toList))] := by
  decide +kernel

theorem t1_swept : Swept t1 := by
  intro n x h
  rw [t1_props] at h
  simp at h
  rw [h.1]
  decide +kernel

theorem t2_swept : Swept t2 := by intro n x h; simp [Table.props, t2, Comments.properties] at h

example {β α : Type} (env : Env β α) (num : Nat → β) (ofRat : ℚ → β) (conv : List Char → α) :
    ∃ p q, read env num ofRat conv file = .ok [p, q] ∧ keys p.block.vars = ["Ig", "Id"] ∧
      lookup p.block.ivars "Vd" = some ⟨.dimPartial, "Vd", [ofRat (3 / 1000)], some "V", none⟩ ∧
      keys q.block.vars = ["y"] := by
  obtain ⟨ps, h1, h2⟩ := C52_read env num ofRat conv file [t1, t2] (by simp) file_holds (by
    intro b hb
    simp at hb
    rcases hb with rfl | rfl
    · exact ⟨t1_good, t1_plain, by unfold Even; decide +kernel, t1_swept⟩
    · exact ⟨t2_good, t2_plain, by unfold Even; decide +kernel, t2_swept⟩)
  cases h2 with
  | @cons _ p _ _ hp h2 =>
    cases h2 with
    | @cons _ q _ _ hq h2 =>
      cases h2
      refine ⟨p, q, h1, ?_, ?_, ?_⟩
      · rw [hp.vars]; decide +kernel
      · have := hp.partials "Vd" (3 / 1000) (some "V".toList) (by rw [t1_props]; decide +kernel)
        rw [this]
        simp
      · rw [hq.vars]; decide +kernel

/-- A single row and a name that occurs twice. -/
def t3 : Table := ⟨[], [("x".toList, 0), ("y".toList, 0), ("y".toList, 0)], [["1".toList, "2".toList, "3".toList]]⟩

example : Good t3 ∧ Plain t3 ∧ Even t3 ∧ Swept t3 ∧ t3.rows.length = 1 ∧ "y" ∈ t3.cols.tail ∧
    2 ≤ (t3.positions t3.names.length "y").length ∧ Holds t3.lines [t3] :=
  ⟨by decide +kernel, ⟨by decide +kernel, elem_of_all (by decide +kernel), by decide +kernel⟩,
    by unfold Even; decide +kernel, by intro n x h; simp [Table.props, t3, Comments.properties] at h, rfl,
    by decide +kernel, by decide +kernel, by simp [Holds]⟩

/-- A row that is too short. -/
def t4 : Table := ⟨[], [("x".toList, 0), ("y".toList, 0), ("z".toList, 0)],
  [["1".toList, "2".toList, "3".toList], ["2".toList, "5".toList]]⟩

example : Good t4 ∧ Plain t4 ∧ Swept t4 ∧ (∀ r ∈ t4.rows.head?, r.length = t4.names.length) ∧
    (∃ short ∈ t4.rows, (∀ r ∈ t4.rows, short.length ≤ r.length) ∧ short.length < t4.names.length) ∧
    (t4.cols.take 2).tail.eraseDups = ["y"] :=
  ⟨by decide +kernel, ⟨by decide +kernel, elem_of_all (by decide +kernel), by decide +kernel⟩,
    by intro n x h; simp [Table.props, t4, Comments.properties] at h, by decide +kernel,
    ⟨["2".toList, "5".toList], by decide +kernel, by decide +kernel, by decide +kernel⟩, by decide +kernel⟩

/-- A partial sweep written with `%.16e`. -/
def t5 : Table := ⟨["@Vd=1.5000000000000000e+00".toList], [("x".toList, 0), ("y".toList, 0)], [["1".toList, "2".toList]]⟩

example {β α : Type} (env : Env β α) (num : Nat → β) (ofRat : ℚ → β) (conv : List Char → α) :
    read env num ofRat conv t5.lines = .error .attributeError :=
  C52_exponent_refuted env num ofRat conv t5.lines t5 (by simp [Holds]) (by decide +kernel)
    ⟨by decide +kernel, elem_of_all (by decide +kernel), by decide +kernel⟩ (by unfold Even; decide +kernel)
    "Vd" false "1".toList "5000000000000000".toList "00".toList '+'
    ⟨⟨by decide +kernel, by decide +kernel⟩, by decide +kernel⟩ (by decide +kernel) (by decide +kernel)
    (by decide +kernel) (by decide +kernel) (by decide +kernel) (Or.inr rfl) (by decide +kernel) (by decide +kernel)
    [] (by decide +kernel)

/-- A sweep over frequencies one of which is not a number. -/
example {β α : Type} (env : Env β α) (num : Nat → β) (ofRat : ℚ → β) (conv : List Char → α) :
    read env num ofRat conv ["x\ty".toList, "nan\t1".toList, "2\t3".toList] = .error .indexError := by
  have := C52_letter_row_refuted env num ofRat conv [] (by simp) [("x".toList, 0), ("y".toList, 0)] (by simp)
    (by decide +kernel) (by decide +kernel) "nan\t1".toList 'n' (by decide +kernel) (by decide +kernel) ["2\t3".toList]
  rw [← this]
  congr 1

/-- C52_header_mismatch: three names, two fields. -/
example : Good ⟨[], [("x".toList, 0), ("y".toList, 0), ("z".toList, 0)], [["1".toList, "2".toList]]⟩ := by
  decide +kernel

end HF.Sp

namespace HF.Comments

open Units (isWs strip)

instance (s : List Char) : Decidable (Trim s) :=
  decidable_of_iff ((∀ c ∈ s.head?, isWs c = false) ∧ ∀ c ∈ s.getLast?, isWs c = false)
    ⟨fun h => ⟨h.1, h.2⟩, fun h => ⟨h.1, h.2⟩⟩

instance (w : List Char) : Decidable (Blank w) := by unfold Blank; infer_instance

/-- `Drain Voltage [mV] : 12.5` -/
example : parse "Drain Voltage [mV] : 12.5".toList =
    some ("Drain Voltage".toList, some "mV".toList, "12.5".toList) := by
  have := C53_unit "Drain Voltage".toList "mV".toList [' '] [' '] [' '] "12.5".toList ':'
    ⟨by decide +kernel, by decide +kernel⟩ ⟨by decide +kernel, by decide +kernel⟩ (by decide +kernel)
    (by decide +kernel) (by decide +kernel) (Or.inl rfl) (by decide +kernel) (by decide +kernel)
  rw [← this]
  congr 1

/-- A name with brackets of its own. -/
example : Name "a [b] c [".toList ∧ UnitText "C".toList := ⟨⟨by decide +kernel, by decide +kernel⟩,
  ⟨by decide +kernel, by decide +kernel⟩⟩

/-- `Date: 2014-01-01 10:11`: the first separator counts. -/
example : parse "Date: 2014-01-01 10:11".toList = some ("Date".toList, none, "2014-01-01 10:11".toList) := by
  have := C53_plain "Date".toList [] [' '] "2014-01-01 10:11".toList ':'
    ⟨by decide +kernel, by decide +kernel⟩ (by decide +kernel) (by decide +kernel)
    (by decide +kernel) (Or.inl rfl) (by decide +kernel) (by decide +kernel)
  rw [← this]
  congr 1

/-- The last comment counts. -/
example : HF.DataDict.Spec.lookup (properties ["T=3 A".toList, "nothing".toList, "!! T [mV] = 20".toList]) "T" =
    some (.arr (20 / 1000) (some "V".toList)) := by
  have := C53_declared ["T=3 A".toList, "nothing".toList] "!! T [mV] = 20".toList "T".toList "20".toList (some "mV".toList)
    (by decide +kernel) "T"
  rw [show ["T=3 A".toList, "nothing".toList, "!! T [mV] = 20".toList] =
    ["T=3 A".toList, "nothing".toList] ++ ["!! T [mV] = 20".toList] from rfl, this, if_pos (by decide +kernel)]
  decide +kernel

example : Units.prefixPower 'm' = some (-3) ∧ Units.BaseUnit "V".toList := by
  exact ⟨by decide +kernel, (Units.baseUnit_iff _).1 (by decide +kernel)⟩

end HF.Comments
