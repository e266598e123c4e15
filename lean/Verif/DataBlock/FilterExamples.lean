import Verif.DataBlock.FilterProps
import Verif.DataBlock.Examples
/-
C46, C47: concrete blocks: non-vacuity, and where the claims fail.
-/
namespace HF.DataBlock

open HF.DataDict.Spec
open HF.Arr hiding Err ofNd

def freq : Dim Nat := ⟨.dimSweep, "f", [10, 20, 30], some "Hz", none⟩
def gate : Dim Nat := ⟨.dimSweep, "g", [7, 8], some "V", none⟩

/-- `a` over frequency and gate voltage, `b` over frequency, `c` over gate voltage; a dim `h`
that nothing depends on. -/
def blkF : Block Nat Nat where
  vars := [("a", ⟨[freq, gate], ⟨[3, 2], fun idx => 10 * idx.headD 0 + idx.getD 1 0⟩⟩),
    ("b", ⟨[freq], ⟨[3], fun idx => [30, 10, 20].getD (idx.headD 0) 0⟩⟩),
    ("c", ⟨[gate], ⟨[2], fun idx => 5 + idx.headD 0⟩⟩)]
  ivars := [("f", freq), ("g", gate), ("h", { gate with name := "h" })]
  xname := some "f"

theorem quiet_blkF : Quiet blkF.vars where
  dims := by decide +kernel
  nodup := by decide +kernel
  elems := by
    intro w hw w' _ m i j h
    have : ∀ w ∈ blkF.vars, isMatrixName w.1 = none := by
      intro w hw
      have : w.1 ∈ ["a", "b", "c"] := List.mem_map.2 ⟨w, hw, rfl⟩
      revert this
      generalize w.1 = n
      revert n
      decide +kernel
    rw [this w hw] at h
    simp at h

theorem usable_blkF : Usable blkF "f" .dimSweep 3 where
  quiet := quiet_blkF
  wf := by unfold Arr.WF; decide +kernel
  names := by decide +kernel
  axis := by
    have : ∀ p ∈ blkF.vars, ∀ x ∈ p.2.dims.zip p.2.nd.shape, x.1.name = "f" →
        x.1.cls = .dimSweep ∧ x.2 = 3 := by decide +kernel
    exact fun p hp e m h => this p hp (e, m) h

theorem usable_blkF_h : Usable blkF "h" .dimSweep 2 where
  quiet := quiet_blkF
  wf := usable_blkF.wf
  names := usable_blkF.names
  axis := by
    have : ∀ p ∈ blkF.vars, ∀ x ∈ p.2.dims.zip p.2.nd.shape, x.1.name = "h" →
        x.1.cls = .dimSweep ∧ x.2 = 2 := by decide +kernel
    exact fun p hp e m h => this p hp (e, m) h

/-- The elements of an array in row-major order. -/
def flat (x : Arr Nat Nat) : List Nat :=
  (List.range (Nd.size x.nd.shape)).map fun k => x.nd.get (Nd.unravel x.nd.shape k)

/-- What can be seen of a result: the elements and the coordinate values of every variable,
and the names of the dims. -/
def look (r : Except Err (Block Nat Nat)) :
    Option (List (String × List (List Nat)) × List String) :=
  match r with
  | .ok b => some (b.vars.map fun p => (p.1, flat p.2 :: p.2.dims.map Dim.data), b.ivars.map Prod.fst)
  | .error _ => none

/-- The hypotheses of `C46_filter_mask` are met. -/
example : look (filterMask envN false blkF freq [true, false, true]) =
    some ([("a", [[0, 1, 20, 21], [10, 30], [7, 8]]), ("b", [[30, 20], [10, 30]]),
      ("c", [[5, 6], [7, 8]])], ["f", "g"]) ∧
    ∃ r new pos, filterMask envN false blkF freq [true, false, true] = .ok r ∧
      (∀ k, k ∈ pos ↔ [true, false, true][k]? = some true) ∧
      AllPicked "f" new pos blkF.vars r.vars := by
  refine ⟨by decide +kernel, ?_⟩
  obtain ⟨r, new, pos, h1, _, h3, _, h5, _⟩ := C46_filter_mask envN false blkF freq
    [true, false, true] usable_blkF rfl (Or.inl (by decide))
  exact ⟨r, new, pos, h1, h3, h5⟩

/-- The hypotheses of `C46_unused_dim_refuted` are met: the dim `h` gets lost. -/
example : lookup blkF.ivars "h" ≠ none ∧
    ∃ r, filterMask envN false blkF freq [true, true, true] = .ok r ∧ lookup r.ivars "h" = none :=
  ⟨by decide +kernel, C46_unused_dim_refuted envN false blkF freq [true, true, true] usable_blkF rfl
    (Or.inl (by decide)) "h" (by decide +kernel)⟩

/-- The hypotheses of `C46_filter_values` are met: values 10 and 30 in their places. -/
example : ∃ r new pos, filterValues envN false blkF freq [10, 99, 30] = .ok r ∧
    (∀ k, k ∈ pos ↔ ∃ c, freq.data[k]? = some c ∧ c ∈ [10, 99, 30]) ∧
    AllPicked "f" new pos blkF.vars r.vars := by
  obtain ⟨r, new, pos, h1, _, h3, _, h5⟩ := C46_filter_values envN false blkF freq freq [10, 99, 30]
    (by decide +kernel) usable_blkF rfl (Or.inl (by decide)) rfl (by
      intro i c v h1 h2
      match i with
      | 0 => cases h1; cases h2; decide +kernel
      | 1 => cases h1; cases h2; decide +kernel
      | 2 => cases h1; cases h2; decide +kernel
      | i + 3 => simp [freq] at h1)
  exact ⟨r, new, pos, h1, h3, h5⟩

/-- C46 fails for arrays of values: asked for the frequencies 20 and 30 by an array of these
two values, numpy before 1.13 returns the data of the first two frequencies, labelled 20 and
30; later versions raise an exception. -/
theorem C46_values_witness_refuted :
    look (filterValues envN true blkF { freq with data := [20, 30] } [20, 30]) =
      some ([("a", [[0, 1, 10, 11], [20, 30], [7, 8]]), ("b", [[30, 10], [20, 30]]),
        ("c", [[5, 6], [7, 8]])], ["f", "g"]) ∧
    look (filterValues envN false blkF { freq with data := [20, 30] } [20, 30]) = none := by
  constructor <;> decide +kernel

/-- C46 fails for arrays of values also if the lengths agree: asked for frequency 30 (the other
two values are unknown) the data of frequency 10 is returned, with the label of that. -/
theorem C46_values_places_refuted :
    look (filterValues envN false blkF freq [30, 98, 99]) =
      some ([("a", [[0, 1], [10], [7, 8]]), ("b", [[30], [10]]), ("c", [[5, 6], [7, 8]])],
        ["f", "g"]) := by decide +kernel

/-- The hypotheses of `C46_values_length_refuted` are met. -/
example : ∃ e, filterValues envN false blkF { freq with data := [20, 30] } [20, 30] = .error e :=
  C46_values_length_refuted envN blkF { freq with data := [20, 30] } freq [20, 30] (by decide +kernel)
    ("b", ⟨[freq], ⟨[3], fun idx => [30, 10, 20].getD (idx.headD 0) 0⟩⟩)
    (List.mem_cons_of_mem _ List.mem_cons_self) rfl 0 3 (by decide +kernel) rfl (by decide)

def pos (i : Int) : Nat := i.toNat

/-- The hypotheses of `C47_sorted` are met: sorted by `b`. -/
example : look (sortBlock envN pos blkF "f" [1, 2, 0]) =
    some ([("a", [[10, 11, 20, 21, 0, 1], [20, 30, 10], [7, 8]]), ("b", [[10, 20, 30], [20, 30, 10]]),
      ("c", [[5, 6], [7, 8]])], ["g", "f"]) ∧
    ∃ r q, sortBlock envN pos blkF "f" [1, 2, 0] = .ok r ∧ ("b", q) ∈ r.vars ∧
      ∀ i j, i < j → j < 3 → q.nd.get [i] ≤ q.nd.get [j] := by
  refine ⟨by decide +kernel, ?_⟩
  obtain ⟨r, q, h1, h2, _, h4, _⟩ := C47_sorted envN pos blkF freq 3 [1, 2, 0] (by decide +kernel)
    usable_blkF (by decide) rfl (Or.inl (by decide)) (· ≤ ·)
    ("b", ⟨[freq], ⟨[3], fun idx => [30, 10, 20].getD (idx.headD 0) 0⟩⟩)
    (List.mem_cons_of_mem _ List.mem_cons_self) freq rfl rfl (by decide)
  exact ⟨r, q, h1, h2, h4⟩

/-- C47 fails for an array that is shorter than the axis: the points beyond its end are lost
without notice. -/
theorem C47_short_array_refuted :
    look (sortBlock envN pos blkF "f" [1, 0]) =
      some ([("a", [[10, 11, 0, 1], [20, 10], [7, 8]]), ("b", [[10, 30], [20, 10]]),
        ("c", [[5, 6], [7, 8]])], ["g", "f"]) := by decide +kernel

/-- The hypotheses of `C47_unused_dim_refuted` are met: sorting by the dim `h`. -/
example : sortBlock envN pos blkF "h" [0, 1] = .error .keyError :=
  C47_unused_dim_refuted envN pos blkF { gate with name := "h" } [0, 1] (by decide +kernel) .dimSweep 2
    usable_blkF_h (by decide) (Or.inl (by decide)) (by decide +kernel)

end HF.DataBlock
