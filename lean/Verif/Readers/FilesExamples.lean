import Verif.Readers.FilesProps
import Verif.Readers.OneFile
import Verif.Merge.Examples
/-
C60: concrete files.
-/
namespace HF.Readers.Files

open HF.DataDict.Spec
open HF.DataBlock
open HF.Merge

/-- A file is given by its blocks; a block is a measurement over two frequencies. -/
def trace (k : Nat) : Block Nat Nat where
  vars := [("a", ⟨[⟨.dimSweep, "f", [10, 20], none, none⟩], ⟨[2], fun idx => k + idx.headD 0⟩⟩)]
  ivars := [("f", ⟨.dimSweep, "f", [10, 20], none, none⟩)]
  xname := some "f"

def given : List (Block Nat Nat) → Except DataBlock.Err (List (Block Nat Nat)) := .ok

def shown : Except RErr (Block Nat Nat) → Option (List (String × List (List Nat)) × List String)
  | .ok b => look (.ok b)
  | .error _ => none

theorem fit_traces : Fit ["a"] [trace 100, trace 200] where
  uniform := {
    parts := by decide +kernel
    vals := by decide +kernel
    vars := by
      intro b hb n
      simp only [List.mem_cons, List.not_mem_nil, or_false] at hb
      rcases hb with rfl | rfl <;> rfl
    apart := by decide +kernel
    wf := by unfold Arr.WF; decide +kernel
    shape := by
      intro b hb b' hb' n x x' h h'
      have key : ∀ b ∈ [trace 100, trace 200], ∀ p ∈ b.vars, p.2.nd.shape = [2] := by decide +kernel
      rw [key b hb _ (lookup_mem h), key b' hb' _ (lookup_mem h')]
    nodup := by decide +kernel
    dims := by decide +kernel
    index := by decide +kernel
    elems := by
      intro n hn m i j h
      have : ∀ n ∈ ([] : List String) ++ ["a"], isMatrixName n = none := by decide +kernel
      rw [this n hn] at h
      simp at h }
  reserved := by decide +kernel
  elems := by
    intro n hn m i j h
    have : ∀ n ∈ ["a"], isMatrixName n = none := by decide +kernel
    rw [this n hn] at h
    simp at h

/-- The hypotheses of `C60_files` are met by two files. -/
example : ∃ r, readFiles envN id enI String.length true given
    [("one.txt", [trace 100]), ("second.txt", [trace 200])] = .ok r ∧
    ∃ a, lookup r.vars "FILENAME" = some a ∧ ∀ c, c ("INDEX1", Cls.dimSweep) = 1 → a.at_ c = 10 := by
  obtain ⟨r, h1, -, -, ⟨a, ha, -, hv⟩, -⟩ := C60_files envN id enI String.length given ["a"]
    [("one.txt", [trace 100]), ("second.txt", [trace 200])] ("one.txt", trace 100) ("second.txt", trace 200)
    [] (.cons ⟨rfl, rfl⟩ (.cons ⟨rfl, rfl⟩ .nil)) fit_traces
  exact ⟨r, h1, a, ha, fun c hc => (hv 1 _ rfl c hc).trans (by decide +kernel)⟩

/-- The hypotheses of `C60_own` are met: the block was number 7. -/
example : ∃ r, readFiles envN id enI String.length true given
    [("one.txt", [{ trace 100 with ivars := [("FILEINDEX", fileIndex id 7)] }])] = .ok r ∧
    lookup r.ivars "FILEINDEX" = some ⟨.dimPartial, "FILEINDEX", [7], none, none⟩ := by
  obtain ⟨r, h1, -, h2, -⟩ := C60_own envN id enI String.length given "one.txt" _
    { trace 100 with ivars := [("FILEINDEX", fileIndex id 7)] } rfl (Or.inr (by simp))
  exact ⟨r, h1, by rw [h2]; rfl⟩

/-- Names of the axes of every variable, and lengths of the dims of the block. -/
structure Axes where
  vars : List (String × List String × List Nat)
  ivars : List (String × Nat)
  deriving DecidableEq

def axes : Except RErr (Block Nat Nat) → Option Axes
  | .ok b => some ⟨b.vars.map fun p => (p.1, p.2.dims.map Dim.name, p.2.nd.shape),
      b.ivars.map fun p => (p.1, p.2.data.length)⟩
  | .error _ => none

/-- Three measurements at different gate voltages. -/
def three (k : Nat) : List (Block Nat Nat) :=
  [meas 3 [10, 20] k, meas 5 [10, 20] (k + 10), meas 7 [10, 20] (k + 20)]

/-- C60, violated for files with several blocks: the blocks of a file are numbered by a sweep
`INDEX1`, and so are the files.  The result has variables with two axes of the same name, one of
them with a length that the sweep `INDEX1` of the block does not have. -/
theorem C60_blocks_refuted :
    axes (readFiles envN id enI String.length true given
      [("one.txt", three 100), ("second.txt", three 200)]) =
      some ⟨[("FILEINDEX", ["INDEX1"], [2]), ("Vg", ["INDEX1", "INDEX1"], [3, 2]),
        ("a", ["f", "INDEX1", "INDEX1"], [2, 2, 3]), ("FILENAME", ["INDEX1"], [2])],
        [("INDEX1", 2), ("f", 2)]⟩ := by decide +kernel

/-- C60, violated: if a file has as many blocks as there are files nothing can be read. -/
theorem C60_square_refuted :
    readFiles envN id enI String.length true given
      [("one.txt", [meas 3 [10, 20] 100, meas 5 [10, 20] 200]),
        ("second.txt", [meas 3 [10, 20] 300, meas 5 [10, 20] 400])] matches .error (.data .valueError) := by
  decide +kernel

end HF.Readers.Files
