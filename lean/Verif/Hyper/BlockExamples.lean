import Verif.Hyper.BlockErrors
import Verif.DataBlock.FilterExamples
/-
C68: tables, and witnesses.
-/
namespace HF.Hyper

open HF.DataDict.Spec HF.DataBlock

/-- The rows. -/
def rowDim (n : Nat) : Dim Nat := ⟨.dimSweep, "row", List.range n, none, none⟩

/-- A table with the columns `x`, `y` and `z`, a variable `m` with an axis more and a number `k`. -/
def tab (xs ys zs : List Nat) : Block Nat Nat where
  vars := [("x", ⟨[rowDim xs.length], ⟨[xs.length], fun i => xs.getD (i.headD 0) 0⟩⟩),
    ("y", ⟨[rowDim xs.length], ⟨[xs.length], fun i => ys.getD (i.headD 0) 0⟩⟩),
    ("z", ⟨[rowDim xs.length], ⟨[xs.length], fun i => zs.getD (i.headD 0) 0⟩⟩),
    ("m", ⟨[⟨.dimSweep, "f", [7, 8], none, none⟩, rowDim xs.length], ⟨[2, xs.length],
      fun i => 100 * i.headD 0 + zs.getD (i.getD 1 0) 0⟩⟩),
    ("k", ⟨[], ⟨[], fun _ => 5⟩⟩)]
  ivars := [("row", rowDim xs.length), ("f", ⟨.dimSweep, "f", [7, 8], none, none⟩), ("g", ⟨.dimSweep, "g", [1], none, none⟩)]

theorem isTable_tab (xs ys zs : List Nat) (hy : ys.length = xs.length) (indexed : Bool) :
    IsTable (tab xs ys zs) ["x", "y"] (labels indexed ["x", "y"]) (rowDim xs.length) xs.length [xs, ys] := by
  have hv : ∀ p ∈ (tab xs ys zs).vars, p.1 ∈ ["x", "y", "z", "m", "k"] := by
    intro p hp
    simp only [tab, List.mem_cons, List.not_mem_nil, or_false] at hp
    rcases hp with rfl | rfl | rfl | rfl | rfl <;> simp
  have hd : ∀ p ∈ (tab xs ys zs).vars, ∀ d ∈ p.2.dims, d.name = "row" ∨ d.name = "f" := by
    intro p hp d hd
    simp only [tab, List.mem_cons, List.not_mem_nil, or_false] at hp
    rcases hp with rfl | rfl | rfl | rfl | rfl <;>
      simp only [List.mem_cons, List.not_mem_nil, or_false] at hd
    · subst hd; exact Or.inl rfl
    · subst hd; exact Or.inl rfl
    · subst hd; exact Or.inl rfl
    · rcases hd with rfl | rfl
      · exact Or.inr rfl
      · exact Or.inl rfl
  have hl : ∀ l ∈ labels indexed ["x", "y"], l ∈ ["x", "y", "x_index", "y_index"] := by
    cases indexed <;> decide
  refine ⟨⟨?_, ?_, ?_, ?_, ?_, ?_⟩, ?_, ?_, ?_, ?_, ?_⟩
  · intro p hp
    simp only [tab, List.mem_cons, List.not_mem_nil, or_false] at hp
    rcases hp with rfl | rfl | rfl | rfl | rfl <;> rfl
  · simp [tab]
  · simp [tab]
  · intro p hp
    have : ∀ s ∈ ["x", "y", "z", "m", "k"], s ∉ ["row", "f", "g"] := by decide
    exact this _ (hv p hp)
  · intro p hp p' hp' d hdd he
    have : ∀ s ∈ ["x", "y", "z", "m", "k"], s ≠ "row" ∧ s ≠ "f" := by decide
    have h := this _ (hv p hp)
    rcases hd p' hp' d hdd with h1 | h1
    · exact h.1 (by rw [← he, h1])
    · exact h.2 (by rw [← he, h1])
  · intro p hp m i j hm
    have : ∀ s ∈ ["x", "y", "z", "m", "k"], isMatrixName s = none := by decide +kernel
    rw [this _ (hv p hp)] at hm
    cases hm
  · refine List.Forall₂.cons ⟨_, rfl, rfl, rfl, rfl, ?_⟩ (List.Forall₂.cons ⟨_, rfl, rfl, rfl, hy, ?_⟩ List.Forall₂.nil)
    · intro i hi
      simp [List.getElem?_eq_getElem hi]
    · intro i hi
      rw [← hy] at hi
      simp [List.getElem?_eq_getElem hi]
  · intro p hp
    simp only [tab, List.mem_cons, List.not_mem_nil, or_false] at hp
    rcases hp with rfl | rfl | rfl | rfl | rfl <;>
      refine ⟨by simp [rowDim], fun d m hm he => ?_⟩ <;>
      simp only [List.zip_cons_cons, List.zip_nil_left, List.mem_cons, List.not_mem_nil, or_false, Prod.mk.injEq] at hm
    · exact hm
    · exact hm
    · exact hm
    · rcases hm with ⟨rfl, -⟩ | hm
      · simp [rowDim] at he
      · exact hm
  · cases indexed <;> decide
  · intro p hp d hdd hc
    have h1 := hl _ hc
    rcases hd p hp d hdd with h | h <;> rw [h] at h1 <;> revert h1 <;> decide
  · intro p hp hpl
    have h1 := hl _ hpl
    simp only [tab, List.mem_cons, List.not_mem_nil, or_false] at hp
    rcases hp with rfl | rfl | rfl | rfl | rfl
    · simp
    · simp
    · simp
    · simp
    · simp at h1

/-- Rows in any order. -/
theorem grid6 : FullGrid [[1, 1, 2, 1, 2, 2], [5, 6, 7, 7, 6, 5]] 6 := by
  refine ⟨by simp, by simp, ?_, ?_⟩
  · have : ∀ i : Fin 6, ∀ j : Fin 6, (∀ c ∈ [[1, 1, 2, 1, 2, 2], [5, 6, 7, 7, 6, 5]], c[i.val]? = c[j.val]?) → i = j := by
      decide +kernel
    intro i j hi hj h
    exact congrArg Fin.val (this ⟨i, hi⟩ ⟨j, hj⟩ h)
  intro r hr
  cases hr with
  | cons h1 h2 =>
    cases h2 with
    | cons h2 h3 =>
      cases h3
      rename_i a b
      have h1' : a = 1 ∨ a = 2 := by simp at h1; omega
      have h2' : b = 5 ∨ b = 6 ∨ b = 7 := by simp at h2; omega
      rcases h1' with rfl | rfl <;> rcases h2' with rfl | rfl | rfl
      · exact ⟨0, by decide, by simp⟩
      · exact ⟨1, by decide, by simp⟩
      · exact ⟨3, by decide, by simp⟩
      · exact ⟨5, by decide, by simp⟩
      · exact ⟨4, by decide, by simp⟩
      · exact ⟨2, by decide, by simp⟩

/-- The hypotheses of `C68_cube` are met: the variable `z` of the table gets the new dims, its element at `x = 2`,
`y = 6` is that of the row with these values. -/
example : ∃ r, hyperBlock envN (tab [1, 1, 2, 1, 2, 2] [5, 6, 7, 7, 6, 5] [15, 16, 27, 17, 26, 25]) ["x", "y"]
    (rowDim 6) false true = .ok r ∧ ∃ a, lookup r.vars "m" = some a ∧ a.nd.get [1, 1, 1] = 126 ∧
      a.dims.map Dim.name = ["f", "x", "y"] := by
  obtain ⟨r, h1, h2⟩ := C68_cube envN _ ["x", "y"] (rowDim 6) 6 [[1, 1, 2, 1, 2, 2], [5, 6, 7, 7, 6, 5]] false true
    (isTable_tab [1, 1, 2, 1, 2, 2] [5, 6, 7, 7, 6, 5] [15, 16, 27, 17, 26, 25] rfl false) grid6
    (by unfold Ascending; decide +kernel)
  obtain ⟨a, e1, e2, -, e3⟩ := h2.spread "m" _ [⟨.dimSweep, "f", [7, 8], none, none⟩] [] [2] [] (by decide) rfl rfl rfl rfl
  refine ⟨r, h1, a, e1, ?_, by rw [e2]; decide +kernel⟩
  refine e3 [1] [1, 1] [] 4 (by simp [Nd.Valid]) ?_ (by simp [Nd.Valid]) (by decide) ?_
  · have : (newDims [[1, 1, 2, 1, 2, 2], [5, 6, 7, 7, 6, 5]]).map List.length = [2, 3] := by decide +kernel
    rw [this]
    exact List.Forall₂.cons (by decide) (List.Forall₂.cons (by decide) List.Forall₂.nil)
  · have : newDims [[1, 1, 2, 1, 2, 2], [5, 6, 7, 7, 6, 5]] = [[1, 2], [5, 6, 7]] := by decide +kernel
    rw [this]
    exact List.Forall₂.cons ⟨2, rfl, rfl⟩ (List.Forall₂.cons ⟨6, rfl, rfl⟩ List.Forall₂.nil)

/-- With names that have been given a suffix the columns are kept as variables. -/
example : look (hyperBlock envN (tab [1, 1, 2, 1, 2, 2] [5, 6, 7, 7, 6, 5] [15, 16, 27, 17, 26, 25]) ["x", "y"]
      (rowDim 6) true false) =
    some ([("x", [[1, 1, 1, 2, 2, 2], [1, 2], [5, 6, 7]]), ("y", [[5, 6, 7, 5, 6, 7], [1, 2], [5, 6, 7]]),
      ("z", [[15, 16, 17, 25, 26, 27], [1, 2], [5, 6, 7]]),
      ("m", [[15, 16, 17, 25, 26, 27, 115, 116, 117, 125, 126, 127], [7, 8], [1, 2], [5, 6, 7]])],
      ["x_index", "y_index", "f", "g"]) := by
  decide +kernel

/-- C68, violated: with values that first appear in descending order the elements are found at the wrong values:
the row with `x = 2` has `z = 20`. -/
theorem C68_labels_refuted :
    look (hyperBlock envN (tab [2, 1] [5, 5] [20, 10]) ["x", "y"] (rowDim 2) false false) =
      some ([("z", [[10, 20], [2, 1], [5]]), ("m", [[10, 20, 110, 120], [7, 8], [2, 1], [5]])], ["x", "y", "f", "g"]) := by
  decide +kernel

/-- C68, violated: a table that lacks a combination but repeats another one is accepted. -/
theorem C68_repeated_refuted :
    look (hyperBlock envN (tab [1, 1, 2, 2] [5, 5, 5, 6] [10, 11, 12, 13]) ["x", "y"] (rowDim 4) false false) =
      some ([("z", [[10, 11, 12, 13], [1, 2], [5, 6]]), ("m", [[10, 11, 12, 13, 110, 111, 112, 113], [7, 8], [1, 2], [5, 6]])],
        ["x", "y", "f", "g"]) := by
  decide +kernel

/-- The hypotheses of `C68_size` are met: a combination is missing. -/
example : hyperBlock envN (tab [1, 1, 2] [5, 6, 5] [10, 11, 12]) ["x", "y"] (rowDim 3) false true = .error .valueError := by
  refine C68_size envN _ ["x", "y"] (rowDim 3) 3 [[1, 1, 2], [5, 6, 5]] false true
    (isTable_tab [1, 1, 2] [5, 6, 5] [10, 11, 12] rfl false) (by decide) (by decide +kernel) ?_ ?_
  · intro p hp m hm
    simp only [tab, List.mem_cons, List.not_mem_nil, or_false] at hp
    rcases hp with rfl | rfl | rfl | rfl | rfl <;>
      simp only [List.mem_cons, List.not_mem_nil, or_false] at hm
    · subst hm; decide
    · subst hm; decide
    · subst hm; decide
    · rcases hm with rfl | rfl <;> decide
  · exact ⟨_, List.mem_cons_of_mem _ (List.mem_cons_of_mem _ (List.mem_cons_self)), by simp [rowDim], by decide⟩

end HF.Hyper
