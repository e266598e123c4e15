import Verif.DataBlock.InterpProps
import Verif.DataBlock.Examples
import Verif.MathFns.InterpProps
/-
C50: concrete arrays: non-vacuity, and where the claim fails.
-/
namespace HF.DataBlock

open HF.Arr hiding Err ofNd getitem

def fq (l : List ℚ) : Dim ℚ := ⟨.dimSweep, "f", l, none, none⟩
def gq (l : List ℚ) : Dim ℚ := ⟨.dimSweep, "g", l, none, none⟩

/-- The square of the frequency. -/
def yq : Arr ℚ ℚ := ⟨[fq [1, 2, 4]], ⟨[3], fun idx => [1, 4, 16].getD (idx.headD 0) 0⟩⟩

/-- Frequency and three gate voltages. -/
def zq : Arr ℚ ℚ := ⟨[fq [1, 2, 4], gq [5, 6, 7]], ⟨[3, 3], fun idx => 10 * idx.headD 0 + idx.getD 1 0⟩⟩

def shown (r : Except Arr.Err (Arr ℚ ℚ)) : Option (List Nat × List ℚ × List (List ℚ)) :=
  match r with
  | .ok x => some (x.nd.shape, (List.range (Nd.size x.nd.shape)).map (fun k => x.nd.get (Nd.unravel x.nd.shape k)),
      x.dims.map Dim.data)
  | .error _ => none

/-- The interpolation of scipy, inside the range. -/
abbrev linq : List ℚ → List ℚ → ℚ → Option ℚ := MathFns.linearExtrapolate

/-- The hypotheses of `C50_none` are met. -/
example : shown (interpolate false linq 0 .none (fq [1, 4]) yq) = some ([2], [1, 16], [[1, 4]]) ∧
    ∃ r, interpolate false linq 0 .none (fq [1, 4]) yq = .ok r ∧ r.nd.get [1] = 16 := by
  refine ⟨by decide +kernel, ?_⟩
  obtain ⟨r, h1, _, _, _, h5⟩ := C50_none false linq 0 (fq [1, 4]) (fq [1, 2, 4]) [] yq
    (by unfold Arr.WF; decide) rfl rfl (by decide +kernel) rfl (by decide) (by decide)
  exact ⟨r, h1, h5 1 2 4 rfl rfl []⟩

/-- The hypotheses of `C50_missing` are met. -/
example : interpolate false linq 0 .none (fq [1, 3]) yq = .error .valueError :=
  C50_missing false linq 0 (fq [1, 3]) (fq [1, 2, 4]) yq 0 (by decide +kernel) rfl (by decide) 3
    (by decide) (by decide)

/-- The hypotheses of `C50_order_refuted` are met: 1 is now at frequency 4. -/
example : shown (interpolate false linq 0 .none (fq [4, 2, 1]) yq) = some ([3], [1, 4, 16], [[4, 2, 1]]) ∧
    ∃ r, interpolate false linq 0 .none (fq [4, 2, 1]) yq = .ok r ∧ r.dims = [fq [4, 2, 1]] ∧
      r.nd.get [0] = 1 := by
  refine ⟨by decide +kernel, ?_⟩
  obtain ⟨r, h1, h2, _, h4⟩ := C50_order_refuted false linq 0 (fq [4, 2, 1]) (fq [1, 2, 4]) [] yq
    (by unfold Arr.WF; decide) rfl rfl (by decide +kernel) rfl (by decide)
  exact ⟨r, h1, h2, h4 0 (by decide) []⟩

/-- C50 fails for axes of equal lengths if the axis is not the first one: asked for the gate
voltages 5 and 7, the frequencies 1 and 4 are picked for all gate voltages, and neither axis
fits its labels. -/
theorem C50_axis_witness_refuted : shown (interpolate false linq 0 .none (gq [5, 7]) zq) =
    some ([2, 3], [0, 1, 2, 20, 21, 22], [[1, 2, 4], [5, 7]]) := by decide +kernel

/-- The hypotheses of `C50_axis_refuted` are met. -/
example : ∃ e, interpolate false linq 0 .none (gq [5, 7])
    ⟨[fq [1, 2], gq [5, 6, 7]], ⟨[2, 3], fun idx => 10 * idx.headD 0 + idx.getD 1 0⟩⟩ = .error e :=
  C50_axis_refuted linq 0 (gq [5, 7]) (gq [5, 6, 7]) _ 1 (by decide +kernel) rfl 2 [3] rfl (by decide)

/-- The hypotheses of `C50_unknown` are met. -/
example : interpolate false linq 0 .unknown (gq [5, 7]) zq = .error .valueError :=
  C50_unknown false linq 0 (gq [5, 7]) (gq [5, 6, 7]) zq (by simp [zq]) rfl (by decide +kernel)

/-- The hypotheses of `C50_linear` and `C50_linear_knots` are met. -/
example : shown (interpolate false linq 0 .linear (gq [7, 11 / 2]) zq) =
      some ([3, 2], [2, 1 / 2, 12, 21 / 2, 22, 41 / 2], [[1, 2, 4], [7, 11 / 2]]) ∧
    ∃ r, interpolate false linq 0 .linear (gq [7, 11 / 2]) zq = .ok r ∧
      r.nd.get [2, 0] = zq.nd.get [2, 2] := by
  refine ⟨by decide +kernel, ?_⟩
  have hx : [(5 : ℚ), 6, 7].Pairwise (· < ·) := by decide +kernel
  obtain ⟨r, h1, _, h3⟩ := C50_linear_knots false linq 0 (gq [7, 11 / 2]) (gq [5, 6, 7]) zq
    (by unfold Arr.WF; decide) 1 (by decide +kernel) rfl rfl
    (fun ys hy t _ => by
      obtain ⟨k, x0, x1, y0, y1, e1, e2, e3, e4, e5, e6⟩ :=
        MathFns.segment_exists [5, 6, 7] ys (by decide) hy t
      show (MathFns.linearExtrapolate [5, 6, 7] ys t).isSome
      rw [MathFns.C35_line [5, 6, 7] ys hx hy t k x0 x1 y0 y1 e1 e2 e3 e4 e5 e6]
      rfl)
    (fun ys j a b hy ha hb => MathFns.C35_knots [5, 6, 7] ys hx (by decide) hy j a b ha hb)
  exact ⟨r, h1, h3 [2, 0] 0 2 7 rfl rfl rfl⟩

/-- Values for the examples. -/
def envQ : Env ℚ ℚ := ⟨id, id, 0, fun _ => "", fun _ => ""⟩

/-- `a` depends on the frequency, `b` does not. -/
def blkQ : Block ℚ ℚ where
  vars := [("a", yq), ("b", ⟨[gq [5]], ⟨[1], fun _ => 3⟩⟩)]
  ivars := [("f", fq [1, 2, 4]), ("g", gq [5])]
  xname := some "f"

theorem orderly_blkQ : Orderly blkQ where
  wf := by unfold Arr.WF; decide +kernel
  vars := by decide +kernel
  ivars := by decide +kernel
  apart := by decide +kernel
  dims := by decide +kernel
  elems := by
    intro p hp m i j h
    have : ∀ p ∈ blkQ.vars, isMatrixName p.1 = none := by
      intro p hp
      have : p.1 ∈ ["a", "b"] := List.mem_map.2 ⟨p, hp, rfl⟩
      revert this
      generalize p.1 = n
      revert n
      decide +kernel
    rw [this p hp] at h
    simp at h

/-- The hypotheses of `C50_block` are met. -/
example : ∃ r, interpolateBlock envQ false linq .none (fq [1, 4]) blkQ = .ok r ∧
    List.Forall₂ (fun p w => w.1 = p.1 ∧ PickedAt (fq [1, 4]) p.2 w.2) blkQ.vars r.vars := by
  refine C50_block envQ false linq (fq [1, 4]) blkQ orderly_blkQ ?_
  intro p hp
  simp only [blkQ, List.mem_cons, List.not_mem_nil, or_false] at hp
  rcases hp with rfl | rfl
  · exact Or.inr ⟨fq [1, 2, 4], [], rfl, rfl, by decide +kernel, rfl, by decide, by decide⟩
  · exact Or.inl (by decide +kernel)

end HF.DataBlock
