import Verif.Muwave.Props
import Verif.Merge.Examples
import Mathlib.Tactic.FinCases
/-
Cases which meet the hypotheses of C91, and files which cannot be read, or not as expected.
-/
namespace HF.Muwave

open HF.DataDict.Spec
open HF.DataBlock HF.Merge

/-- Numbers stand for texts as well: 0 is the empty one, 7 a date. -/
def cvN : Conv Nat Nat :=
  ⟨id, fun x => x ≠ 0, 0, fun x => x == 0, fun x => if x = 7 then some 2014 else none, id⟩

/-- A measurement of a device with two ports at a gate voltage. -/
def pt (idx vg k : Nat) (ms : List (String × Cell Nat)) : Point Nat Nat where
  state := [("Index", .matrix [[idx]]), ("Vg", .matrix [[vg]])]
  measmnt := ms
  type := "S"
  ref := 50
  freq := [10, 20]
  mtrx := ⟨[2, 2, 2], fun i => k + 100 * i.getD 0 0 + 10 * i.getD 1 0 + i.getD 2 0⟩
  cov := none

def lookF (r : Except Fail (Block Nat Nat)) :
    Option (List (String × List Nat × List String)) × Option Fail :=
  match r with
  | .ok b => (some (b.vars.map fun p => (p.1, flat p.2, p.2.dims.map Dim.name)), none)
  | .error e => (none, some e)

def ptA : Point Nat Nat := pt 1 3 1000 [("Operator", .text 5), ("Info", .text 0), ("Date", .text 7)]
def ptB : Point Nat Nat := pt 2 4 2000 [("Operator", .text 6), ("Info", .text 0), ("Date", .text 9)]

theorem sweepAB : Sweep ["Vg"] ["Operator", "Info", "Date"] 2 2 2 none [ptA, ptB] where
  state := by
    intro m hm
    fin_cases hm <;> exact List.Perm.refl _
  meas := by
    intro m hm
    fin_cases hm <;> exact List.Perm.refl _
  cells := by
    intro m hm e he
    fin_cases hm <;> fin_cases he <;> exact ⟨_, _, _, rfl⟩
  texts := by
    intro m hm e he
    fin_cases hm <;> fin_cases he <;> exact ⟨_, rfl⟩
  type := by
    intro m hm
    fin_cases hm <;> rfl
  shape := by
    intro m hm
    fin_cases hm <;> rfl
  cov := by
    intro m hm
    fin_cases hm <;> rfl
  nodup := by decide +kernel
  free := by decide +kernel
  elems := by
    intro n hn m i j h
    fin_cases hn
    · exact absurd h (by rw [show isMatrixName "Vg" = none by decide +kernel]; simp)
    · exact absurd h (by rw [show isMatrixName "Operator" = none by decide +kernel]; simp)
    · exact absurd h (by rw [show isMatrixName "Info" = none by decide +kernel]; simp)
    · exact absurd h (by rw [show isMatrixName "Date" = none by decide +kernel]; simp)

example : ∃ r, read envN cvN enI false [some [ptA, ptB]] = .ok r ∧
    Content envN cvN ["Vg"] ["Operator", "Info", "Date"] 2 2 2 none [ptA, ptB] [10, 20] r :=
  C91_read envN cvN enI ["Vg"] ["Operator", "Info", "Date"] 2 2 2 none ptA [ptB] sweepAB

example : ∃ r r', read envN cvN enI false [some [ptA, ptB]] = .ok r ∧
    read envN cvN enI true [some [ptA, ptB]] = .ok r' ∧ r'.ivars = r.ivars :=
  let ⟨r, r', h1, h2, h3, _⟩ :=
    C91_drop envN cvN enI ["Vg"] ["Operator", "Info", "Date"] 2 2 2 none ptA [ptB] sweepAB
  ⟨r, r', h1, h2, h3⟩

/-- With `drop_empty`: `Info` is gone, the date of the first measurement has been read. -/
example : lookF (read envN cvN enI true [some [ptA, ptB]]) =
    (some [("Index", [1, 2], ["INDEX1"]), ("Vg", [3, 4], ["INDEX1"]), ("Operator", [5, 6], ["INDEX1"]), ("Date", [2014, 9], ["INDEX1"]),
      ("S", [1000, 1010, 1100, 1110, 2000, 2010, 2100, 2110, 1001, 1011, 1101, 1111, 2001, 2011, 2101, 2111],
        ["freq", "INDEX1", "i", "j"]),
      ("Z0", [50, 50], ["INDEX1"])], none) := by
  decide +kernel

theorem readEach_foreign [DecidableEq β] (env : Env β α) (cv : Conv β α) (en : Enum String) (rest : List (File β α)) :
    ∀ (pre : List (File β α)) (k : Nat), (∀ f ∈ pre, ∃ d, readSingle env cv en f = .ok d) →
      readEach env cv en k (pre ++ none :: rest) = .error .nameError
  | [], k, _ => by simp [readEach, readSingle]
  | f :: pre, k, h => by
    obtain ⟨d, hd⟩ := h f (by simp)
    have := readEach_foreign env cv en rest pre (k + 1) fun g hg => h g (List.mem_cons_of_mem _ hg)
    simp [readEach, hd, this]

/-- C91: if the first file that cannot be read is one of another program, the answer is a `NameError`, whatever files come
after it; no match at all is an `IndexError`. -/
theorem C91_foreign [DecidableEq β] (env : Env β α) (cv : Conv β α) (en : Enum String) (drop : Bool)
    (pre rest : List (File β α)) (h : ∀ f ∈ pre, ∃ d, readSingle env cv en f = .ok d) :
    read env cv en drop (pre ++ none :: rest) = .error .nameError ∧ read env cv en drop [] = .error .indexError := by
  refine ⟨?_, rfl⟩
  have he := readEach_foreign env cv en rest pre 0 h
  unfold read
  split
  · next e => exact absurd e (by simp)
  · next f e =>
    cases pre with
    | nil =>
      obtain ⟨rfl, -⟩ := List.cons.inj e
      simp [readSingle]
    | cons a pre => exact absurd (congrArg List.length e) (by simp)
  · rw [he]

/-- C91: a file of another program is answered by a `NameError`, no matches by an
`IndexError`. -/
theorem C91_foreign_refuted :
    lookF (read envN cvN enI true [none]) = (none, some .nameError) ∧
    lookF (read envN cvN enI true [some [ptA, ptB], none]) = (none, some .nameError) ∧
    lookF (read envN cvN enI true []) = (none, some .indexError) := by
  refine ⟨?_, ?_, ?_⟩ <;> decide +kernel

/-- C91: parameters of another type than S cannot be read. -/
theorem C91_type_refuted :
    lookF (read envN cvN enI true [some [{ ptA with type := "Y" }, { ptB with type := "Y" }]]) =
      (none, some .attributeError) := by
  decide +kernel

/-- C91: a sweep whose measurements have no `Index` cannot be read. -/
theorem C91_no_index_refuted :
    lookF (read envN cvN enI true [some [{ ptA with state := [("Vg", .matrix [[3]])] },
      { ptB with state := [("Vg", .matrix [[4]])] }]]) = (none, some (.data .valueError)) := by
  decide +kernel

/-- C91: a number among the properties makes reading fail. -/
theorem C91_number_refuted :
    lookF (read envN cvN enI true [some [pt 1 3 1000 [("Run", .matrix [[5]])],
      pt 2 4 2000 [("Run", .matrix [[6]])]]]) = (none, some (.data .valueError)) := by
  decide +kernel

/-- C91: frequencies are those of the first measurement, also if they differ. -/
theorem C91_frequencies_refuted :
    (match read envN cvN enI true [some [ptA, { ptB with freq := [30, 40] }]] with
      | .ok r => (lookup r.ivars "freq").map Dim.data
      | .error _ => none) = some [10, 20] := by
  decide +kernel

/-- Several files with one measurement each. -/
example : lookF (read envN cvN enI true [some [pt 1 3 1000 []], some [pt 1 4 2000 []]]) =
    (some [("Index2", [0, 1], ["INDEX1"]), ("Index", [1, 1], ["INDEX1"]), ("Vg", [3, 4], ["INDEX1"]),
      ("S", [1000, 1010, 1100, 1110, 2000, 2010, 2100, 2110, 1001, 1011, 1101, 1111, 2001, 2011, 2101, 2111],
        ["freq", "INDEX1", "i", "j"]),
      ("Z0", [50, 50], ["INDEX1"])], none) := by
  decide +kernel

/-- C91: two files with two measurements each cannot be read; of three files the sweep over the
files and the one over the measurements get the same name. -/
theorem C91_files_refuted :
    lookF (read envN cvN enI true [some [pt 1 3 1000 [], pt 2 4 2000 []],
      some [pt 1 3 3000 [], pt 2 4 4000 []]]) = (none, some (.data .valueError)) ∧
    ((lookF (read envN cvN enI true [some [pt 1 3 1000 [], pt 2 4 2000 []],
      some [pt 1 3 3000 [], pt 2 4 4000 []], some [pt 1 3 5000 [], pt 2 4 6000 []]])).1.map
        fun l => l.filterMap fun p => if p.1 = "S" then some p.2.2 else none) =
      some [["freq", "INDEX1", "INDEX1", "i", "j"]] := by
  refine ⟨?_, ?_⟩ <;> decide +kernel

end HF.Muwave
