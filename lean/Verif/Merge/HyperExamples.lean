import Verif.Merge.HyperProps
import Verif.Merge.Examples
/-
C69: measurements at several settings, and witnesses.
-/
namespace HF.Merge

open HF.DataDict.Spec
open HF.DataBlock

/-- A measurement at one gate voltage and one drain voltage, over the frequencies 10 and 20. -/
def meas2 (vg vd k : Nat) : Block Nat Nat where
  vars := [("a", ⟨[⟨.dimSweep, "f", [10, 20], none, none⟩], ⟨[2], fun idx => k + idx.headD 0⟩⟩)]
  ivars := [("f", ⟨.dimSweep, "f", [10, 20], none, none⟩), ("Vg", ⟨.dimPartial, "Vg", [vg], none, none⟩),
    ("Vd", ⟨.dimPartial, "Vd", [vd], none, none⟩)]
  xname := some "f"

def four : List (Block Nat Nat) := [meas2 1 5 150, meas2 2 5 250, meas2 1 6 160, meas2 2 6 260]

theorem uniform_four : Uniform ["Vg", "Vd"] ["a"] four where
  parts := by decide +kernel
  vals := by decide +kernel
  vars := by
    intro b hb n
    simp only [four, List.mem_cons, List.not_mem_nil, or_false] at hb
    rcases hb with rfl | rfl | rfl | rfl <;> rfl
  apart := by decide +kernel
  wf := by unfold Arr.WF; decide +kernel
  shape := by
    intro b hb b' hb' n x x' h h'
    have key : ∀ b ∈ four, ∀ p ∈ b.vars, p.2.nd.shape = [2] := by decide +kernel
    rw [key b hb _ (lookup_mem h), key b' hb' _ (lookup_mem h')]
  nodup := by decide +kernel
  dims := by decide +kernel
  index := by decide +kernel
  elems := by
    intro n hn m i j h
    have : ∀ n ∈ ["Vg", "Vd"] ++ ["a"], isMatrixName n = none := by decide +kernel
    rw [this n hn] at h
    simp at h

theorem settings_four : settings envN ["Vg", "Vd"] four = [[1, 2, 1, 2], [5, 5, 6, 6]] := by decide +kernel

theorem grid_four : Hyper.FullGrid (settings envN ["Vg", "Vd"] four) 4 := by
  rw [settings_four]
  refine ⟨by simp, by simp, ?_, ?_⟩
  · have : ∀ i : Fin 4, ∀ j : Fin 4, (∀ c ∈ [[1, 2, 1, 2], [5, 5, 6, 6]], c[i.val]? = c[j.val]?) → i = j := by
      decide +kernel
    intro i j hi hj h
    exact congrArg Fin.val (this ⟨i, hi⟩ ⟨j, hj⟩ h)
  intro r hr
  cases hr with
  | cons h1 h2 =>
    cases h2 with
    | cons h2 h3 =>
      cases h3
      rename_i a b
      have h1' : a = 1 ∨ a = 2 := by simp at h1; omega
      have h2' : b = 5 ∨ b = 6 := by simp at h2; omega
      rcases h1' with rfl | rfl <;> rcases h2' with rfl | rfl
      · exact ⟨0, by decide, by simp⟩
      · exact ⟨2, by decide, by simp⟩
      · exact ⟨1, by decide, by simp⟩
      · exact ⟨3, by decide, by simp⟩

/-- The hypotheses of `C69_hyper` are met: four measurements. -/
example : look (mergeHyper envN id enI four) =
      some ([("a", [[150, 160, 250, 260, 151, 161, 251, 261], [10, 20], [1, 2], [5, 6]])], ["f", "Vg", "Vd"]) ∧
    ∃ r, mergeHyper envN id enI four = .ok r ∧
      lookup r.ivars "Vd" = some ⟨.dimSweep, "Vd", [5, 6], none, none⟩ ∧
      ∃ a, lookup r.vars "a" = some a ∧
        ∀ c, c ("Vg", Cls.dimSweep) = 1 → c ("Vd", Cls.dimSweep) = 0 → c ("f", Cls.dimSweep) = 1 → a.at_ c = 251 := by
  refine ⟨by decide +kernel, ?_⟩
  obtain ⟨r, h1, -, h2, -, h4, -⟩ := C69_hyper envN id enI ["Vg", "Vd"] ["a"] (meas2 1 5 150)
    [meas2 2 5 250, meas2 1 6 160, meas2 2 6 260] (by decide) uniform_four grid_four
    (by unfold Hyper.Ascending; decide +kernel)
  obtain ⟨a, h5, -, -, h6⟩ := h4 "a" _ rfl
  refine ⟨r, h1, ?_, a, h5, fun c hg hd hf => ?_⟩
  · rw [h2 "Vd" (by decide)]
    decide +kernel
  · have hk : ∀ k ∈ ["Vg", "Vd"], (choices envN four k)[c (k, Cls.dimSweep)]? = some (setting envN (meas2 2 5 250) k) := by
      intro k hk
      simp only [List.mem_cons, List.not_mem_nil, or_false] at hk
      rcases hk with rfl | rfl
      · rw [hg]; decide +kernel
      · rw [hd]; decide +kernel
    rw [h6 1 (meas2 2 5 250) _ rfl rfl c hk (by
      unfold Arr.InRange
      simp only [List.map_cons, List.map_nil, Dim.key, hf, Nd.Valid]
      decide)]
    simp only [List.map_cons, List.map_nil, Dim.key, hf]
    rfl

/-- C69, violated: when the settings do not appear in ascending order, the elements of one block are found at the
settings of another one: here the block with `Vg = 2`, `Vd = 5` holds 250 and 251. -/
theorem C69_labels_refuted :
    look (mergeHyper envN id enI [meas2 2 5 250, meas2 1 5 150]) =
      some ([("a", [[150, 250, 151, 251], [10, 20], [2, 1]])], ["f", "Vg", "Vd"]) := by
  decide +kernel

/-- C69, violated: blocks of which one combination of settings is missing, but another one occurs twice, are accepted. -/
theorem C69_repeated_refuted :
    look (mergeHyper envN id enI [meas2 1 5 150, meas2 1 5 155, meas2 2 5 250, meas2 2 6 260]) =
      some ([("a", [[150, 155, 250, 260, 151, 156, 251, 261], [10, 20], [1, 2], [5, 6]])], ["f", "Vg", "Vd"]) := by
  decide +kernel

/-- Blocks of which one is missing cannot be merged this way. -/
example : look (mergeHyper envN id enI [meas2 1 5 150, meas2 2 5 250, meas2 2 6 260]) = none := by
  decide +kernel

end HF.Merge
