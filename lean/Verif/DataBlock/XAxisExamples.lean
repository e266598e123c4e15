import Verif.DataBlock.XAxisProps
import Verif.DataBlock.Examples
/-
C111: concrete histories.
-/
namespace HF.DataBlock

open HF.DataDict.Spec

/-- A block with one array. -/
def oneArray : World Nat Nat := wrun envN {} [.new, .set 0 "x" (sweepArr "f")]

/-- The x axis has the coordinates of the array. -/
example : xname oneArray 0 = some "f" ∧
    ∃ a, xvalue envN oneArray 0 = .ok a ∧ a.nd.shape = [3] ∧ [0, 1, 2].map (fun i => a.nd.get [i]) = [10, 20, 30] :=
  ⟨by decide +kernel, _, rfl, rfl, by decide +kernel⟩

/-- The hypotheses of `C111_value` hold for the first array. -/
example : xvalue envN (wstep envN (wrun envN ({} : World Nat Nat) [.new]) (.set 0 "x" (sweepArr "f"))).1 0 =
    .ok (ofDim envN (sweep "f")) :=
  C111_value envN _ 0 {} rfl rfl "x" (sweepArr "f")
    ⟨by simp, by intro d hd; rw [show (sweepArr "f").dims = [sweep "f"] from rfl, List.mem_singleton] at hd; subst hd; decide,
      by intro m i j _ h; simp at h⟩
    (sweep "f") [] rfl

/-- A second array takes the x axis away, a third gives one again. -/
example : xname (wrun envN oneArray [.set 0 "y" (sweepArr "f")]) 0 = none ∧
    xvalue envN (wrun envN oneArray [.set 0 "y" (sweepArr "f")]) 0 = .error .typeError ∧
    xname (wrun envN oneArray [.set 0 "y" (sweepArr "f"), .set 0 "z" (sweepArr "g")]) 0 = some "g" :=
  ⟨by decide +kernel, rfl, by decide +kernel⟩

/-- A dimension leaves it, and so does removing the array. -/
example : xname (wrun envN oneArray [.setDim 0 "h" (sweep "h"), .del 0 "x"]) 0 = some "f" := by decide +kernel

/-- After `rename` the name is that of before. -/
example : xname (wrun envN oneArray [.rename 0 "f" "g"]) 0 = some "f" ∧
    xvalue envN (wrun envN oneArray [.rename 0 "f" "g"]) 0 = .error (.item .keyError) :=
  ⟨by decide +kernel, rfl⟩

/-- The hypotheses of `C111_renamed_refuted` hold here. -/
example : xvalue envN (wstep envN oneArray (.replaceDim 0 (sweep "f") (sweep "g"))).1 0 = .error (.item .keyError) :=
  (C111_renamed_refuted envN oneArray 0 _ rfl (sweep "f") (sweep "g") (by decide +kernel) (by decide +kernel)
    (by decide +kernel) (by decide +kernel) (by decide +kernel)).2

/-- A dimension stored under another name than its own is not found. -/
theorem C111_key_refuted : xname (wrun envN ({} : World Nat Nat) [.new, .setDim 0 "k" (sweep "f")]) 0 = some "f" ∧
    xvalue envN (wrun envN ({} : World Nat Nat) [.new, .setDim 0 "k" (sweep "f")]) 0 = .error (.item .keyError) :=
  ⟨by decide +kernel, rfl⟩

end HF.DataBlock
