import Verif.Merge.GroupsProps
import Verif.Merge.Examples
/-
C48: blocks with different partial sweeps: non-vacuity, and where the claim fails.
-/
namespace HF.Merge

open HF.DataDict.Spec
open HF.DataBlock
open HF.Arr hiding Err ofNd getitem

/-- A block with the partial sweeps `ps` and one variable over the frequencies 10 and 20. -/
def part (ps : List (String × Nat)) (v : String) (k : Nat) : Block Nat Nat where
  vars := [(v, ⟨[⟨.dimSweep, "f", [10, 20], none, none⟩], ⟨[2], fun idx => k + idx.headD 0⟩⟩)]
  ivars := ("f", ⟨.dimSweep, "f", [10, 20], none, none⟩) ::
    ps.map fun p => (p.1, ⟨.dimPartial, p.1, [p.2], none, none⟩)
  xname := some "f"

/-- Two measurements over the gate voltage, and two over drain voltage and temperature between them. -/
def mixed : List (Block Nat Nat) :=
  [part [("Vg", 3)] "a" 100, part [("Vd", 7), ("T", 25)] "b" 300, part [("Vg", 5)] "a" 200,
    part [("Vd", 8), ("T", 26)] "b" 400]

/-- The families of `mixed`. -/
def mixedNames : List (List String × List String) := [(["Vg"], ["a"]), (["Vd", "T"], ["b"])]

theorem families_mixed : Families mixedNames mixed where
  order := by decide +kernel
  nonempty := by decide +kernel
  vals := by decide +kernel
  vars := by
    intro g hg b hb h n
    have key : ∀ g ∈ mixedNames, ∀ b ∈ mixed, partNames b = g.1 → b.vars.map Prod.fst = g.2 := by
      decide +kernel
    rw [key g hg b hb h]
  apart := by decide +kernel
  wf := by unfold Arr.WF; decide +kernel
  shape := by
    intro b hb b' hb' n x x' h h'
    have key : ∀ b ∈ mixed, ∀ p ∈ b.vars, p.2.nd.shape = [2] := by decide +kernel
    rw [key b hb _ (lookup_mem h), key b' hb' _ (lookup_mem h')]
  nodup := by decide +kernel
  dims := by decide +kernel
  index := by decide +kernel
  elems := by
    intro n hn m i j h
    have : ∀ n ∈ mixedNames.flatMap Prod.fst ++ mixedNames.flatMap Prod.snd, isMatrixName n = none := by
      decide +kernel
    rw [this n hn] at h
    simp at h

/-- The hypotheses of `C48_families` are met: the second family is over its own sweep. -/
example : look (merge envN id enI mixed) =
      some ([("Vg", [[3, 5], [0, 1]]), ("Vd", [[7, 8], [0, 1]]), ("T", [[25, 26], [0, 1]]),
        ("a", [[100, 200, 101, 201], [10, 20], [0, 1]]), ("b", [[300, 400, 301, 401], [10, 20], [0, 1]])],
        ["INDEX1", "INDEX2", "f"]) ∧
    ∃ r, merge envN id enI mixed = .ok r ∧
      ∃ a, lookup r.vars "T" = some a ∧ a.dims.map Dim.name = ["INDEX2"] ∧
        ∀ c, c ("INDEX2", Cls.dimSweep) = 1 → a.at_ c = 26 := by
  refine ⟨by decide +kernel, ?_⟩
  obtain ⟨r, h1, _, h3, _⟩ := C48_families envN id enI mixedNames mixed families_mixed
  obtain ⟨a, h4, h5, h6⟩ := (h3 1 ["Vd", "T"] ["b"] (part [("Vd", 7), ("T", 25)] "b" 300)
    [part [("Vd", 8), ("T", 26)] "b" 400] rfl (by
      unfold family mixed
      rw [List.filter_cons_of_neg (by decide +kernel), List.filter_cons_of_pos (by decide +kernel),
        List.filter_cons_of_neg (by decide +kernel), List.filter_cons_of_pos (by decide +kernel),
        List.filter_nil])).1 "T" (by simp)
  refine ⟨r, h1, a, h4, by rw [h5]; decide +kernel, fun c hc => ?_⟩
  exact h6 1 (part [("Vd", 8), ("T", 26)] "b" 400) ⟨.dimPartial, "T", [26], none, none⟩ 26 rfl
    (by decide +kernel) (by decide +kernel) rfl c hc

/-- C48 fails if blocks with different partial sweeps have a variable in common: the values of all four
blocks are stacked over the sweep of the family of the last one, which has three values.  The value 300
for the drain voltage 7 is labelled by the gate voltage 5. -/
theorem C48_shared_variable_refuted :
    look (merge envN id enI [part [("Vg", 3)] "a" 100, part [("Vd", 7)] "a" 300, part [("Vg", 5)] "a" 200,
        part [("Vg", 6)] "a" 400]) =
      some ([("Vg", [[3, 5, 6], [0, 1, 2]]), ("Vd", [[7]]),
        ("a", [[100, 300, 200, 400, 101, 301, 201, 401], [10, 20], [0, 1, 2]])],
        ["INDEX1", "f", "INDEX2"]) := by decide +kernel

/-- C48 fails if two families have a partial sweep in common, as files always have `FILEINDEX`: its
values for the first family are lost, and the variable of the first family is put over the sweep of
the second one, which is longer. -/
theorem C48_shared_sweep_refuted :
    look (merge envN id enI [part [("FILEINDEX", 0), ("Vg", 3)] "a" 100,
        part [("FILEINDEX", 1), ("Vg", 5)] "a" 200, part [("FILEINDEX", 2)] "b" 300,
        part [("FILEINDEX", 3)] "b" 400, part [("FILEINDEX", 4)] "b" 500]) =
      some ([("FILEINDEX", [[2, 3, 4], [0, 1, 2]]), ("Vg", [[3, 5], [0, 1]]),
        ("a", [[100, 200, 101, 201], [10, 20], [0, 1, 2]]),
        ("b", [[300, 400, 500, 301, 401, 501], [10, 20], [0, 1, 2]])],
        ["INDEX2", "INDEX1", "f"]) := by decide +kernel

end HF.Merge
