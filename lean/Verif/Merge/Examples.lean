import Verif.Merge.Props
import Verif.DataBlock.FilterExamples
/-
C48, C49: concrete blocks: non-vacuity, and where the claims fail.
-/
namespace HF.Merge

open HF.DataDict.Spec
open HF.DataBlock
open HF.Arr hiding Err ofNd getitem

/-- A measurement at one gate voltage `vg`, over the frequencies `fs`; `k` tells the values. -/
def meas (vg : Nat) (fs : List Nat) (k : Nat) : Block Nat Nat where
  vars := [("a", ⟨[⟨.dimSweep, "f", fs, none, none⟩], ⟨[fs.length], fun idx => k + idx.headD 0⟩⟩)]
  ivars := [("f", ⟨.dimSweep, "f", fs, none, none⟩), ("Vg", ⟨.dimPartial, "Vg", [vg], none, none⟩)]
  xname := some "f"

def enI : Enum String := ⟨id, fun _ => List.Perm.refl _⟩

theorem uniform_meas : Uniform ["Vg"] ["a"] [meas 3 [10, 20] 100, meas 5 [10, 20] 200] where
  parts := by decide +kernel
  vals := by decide +kernel
  vars := by
    intro b hb n
    simp only [List.mem_cons, List.not_mem_nil, or_false] at hb
    rcases hb with rfl | rfl <;> rfl
  apart := by decide +kernel
  wf := by unfold Arr.WF; decide +kernel
  shape := by
    intro b hb b' hb' n x x' h h'
    have key : ∀ b ∈ [meas 3 [10, 20] 100, meas 5 [10, 20] 200], ∀ p ∈ b.vars, p.2.nd.shape = [2] := by
      decide +kernel
    rw [key b hb _ (lookup_mem h), key b' hb' _ (lookup_mem h')]
  nodup := by decide +kernel
  dims := by decide +kernel
  index := by decide +kernel
  elems := by
    intro n hn m i j h
    have : ∀ n ∈ ["Vg"] ++ ["a"], isMatrixName n = none := by decide +kernel
    rw [this n hn] at h
    simp at h

/-- The hypotheses of `C48_merge` are met: two measurements at gate voltages 3 and 5. -/
example : look (merge envN id enI [meas 3 [10, 20] 100, meas 5 [10, 20] 200]) =
      some ([("Vg", [[3, 5], [0, 1]]), ("a", [[100, 200, 101, 201], [10, 20], [0, 1]])],
        ["INDEX1", "f"]) ∧
    ∃ r, merge envN id enI [meas 3 [10, 20] 100, meas 5 [10, 20] 200] = .ok r ∧
      ∃ a, lookup r.vars "a" = some a ∧
        ∀ c, c ("INDEX1", Cls.dimSweep) = 1 → c ("f", Cls.dimSweep) = 1 → a.at_ c = 201 := by
  refine ⟨by decide +kernel, ?_⟩
  obtain ⟨r, h1, _, _, h4, _⟩ := C48_merge envN id enI ["Vg"] ["a"] (meas 3 [10, 20] 100)
    [meas 5 [10, 20] 200] (by decide) uniform_meas
  obtain ⟨a, h5, _, _, h6⟩ := h4 "a" _ rfl
  refine ⟨r, h1, a, h5, fun c hc hf => ?_⟩
  rw [h6 1 (meas 5 [10, 20] 200) _ rfl rfl c hc (by
    intro e he
    have : ∀ p ∈ [(⟨.dimSweep, "f", [10, 20], none, none⟩ : Dim Nat)].zip [2], p.2 ≠ 1 := by decide
    exact absurd rfl (this (e, 1) he))]
  show 200 + c ("f", Cls.dimSweep) = 201
  rw [hf]

/-- C48 fails if the blocks have different coordinates: the second measurement was made at the
frequencies 30 and 40, but its values are labelled 10 and 20, without any notice. -/
theorem C48_labels_refuted :
    look (merge envN id enI [meas 3 [10, 20] 100, meas 5 [30, 40] 200]) =
      some ([("Vg", [[3, 5], [0, 1]]), ("a", [[100, 200, 101, 201], [10, 20], [0, 1]])],
        ["INDEX1", "f"]) := by decide +kernel

/-- C48 fails if a variable is missing in one of the blocks: the values of the third block are
found at index 1, that of the second block, and the sweep has one value more than the axis. -/
theorem C48_missing_refuted :
    look (merge envN id enI [meas 3 [10, 20] 100, { meas 5 [10, 20] 200 with vars := [] },
        meas 7 [10, 20] 300]) =
      some ([("Vg", [[3, 5, 7], [0, 1, 2]]), ("a", [[100, 300, 101, 301], [10, 20], [0, 1, 2]])],
        ["INDEX1", "f"]) := by decide +kernel

/-- Without partial sweep. -/
def bare (k : Nat) : Block Nat Nat := { meas 0 [10, 20] k with ivars := [("f", ⟨.dimSweep, "f", [10, 20], none, none⟩)] }

/-- The hypotheses of `C48_no_partials_refuted` are met. -/
example : merge envN id enI [bare 100, bare 200] = .error .valueError :=
  C48_no_partials_refuted envN id enI [bare 100, bare 200] ⟨bare 100, by simp, by simp [bare, meas]⟩
    (by decide +kernel) (by unfold Arr.WF; decide +kernel) (by decide +kernel)

/-- The reflection of a one-port and its frequencies. -/
def oneport : Block Nat Nat where
  vars := [("S", ⟨[⟨.dimSweep, "f", [10, 20], none, none⟩, ⟨.matI, "i", [0], none, none⟩,
    ⟨.matJ, "j", [0], none, none⟩], ⟨[2, 1, 1], fun idx => 7 + idx.headD 0⟩⟩)]
  ivars := [("f", ⟨.dimSweep, "f", [10, 20], none, none⟩), ("i", ⟨.matI, "i", [0], none, none⟩),
    ("j", ⟨.matJ, "j", [0], none, none⟩)]
  xname := some "f"

theorem orderly_oneport : Orderly oneport where
  wf := by unfold Arr.WF; decide +kernel
  vars := by decide +kernel
  ivars := by decide +kernel
  apart := by decide +kernel
  dims := by decide +kernel
  elems := by
    intro p hp m i j h
    have : ∀ p ∈ oneport.vars, isMatrixName p.1 = none := by
      intro p hp
      have : p.1 ∈ ["S"] := List.mem_map.2 ⟨p, hp, rfl⟩
      revert this
      generalize p.1 = n
      revert n
      decide +kernel
    rw [this p hp] at h
    simp at h

/-- The hypotheses of `C49_block` and `C49_oneport_refuted` are met: `S11` is there before and
not after `squeeze`. -/
example : (getitem envN oneport "S11").toOption.map flat = some [7, 8] ∧
    ∃ r, squeezeBlock envN oneport = .ok r ∧ getitem envN r "S11" = .error .keyError := by
  refine ⟨by decide +kernel, ?_⟩
  refine C49_oneport_refuted envN oneport orderly_oneport "S11" "S" 0 0 _ List.mem_cons_self
    (by decide +kernel) ?_ (by decide +kernel) (by decide +kernel) (by decide +kernel)
  intro e n he hm
  have : ∀ p ∈ [(⟨.dimSweep, "f", [10, 20], none, none⟩ : Dim Nat), ⟨.matI, "i", [0], none, none⟩,
      ⟨.matJ, "j", [0], none, none⟩].zip [2, 1, 1], p.1.isa .matI = true → p.2 = 1 := by decide +kernel
  exact this (e, n) he hm

/-- `C49_squeeze` applies to it. -/
example : ∃ y, Arr.squeezeIdx (⟨[⟨.dimSweep, "f", [10, 20], none, none⟩, ⟨.matI, "i", [0], none, none⟩,
    ⟨.matJ, "j", [0], none, none⟩], ⟨[2, 1, 1], fun idx => 7 + idx.headD 0⟩⟩ : Arr Nat Nat) none = .ok y ∧
    y.nd.shape = [2] := by
  obtain ⟨y, h1, _, _, h4, _⟩ := C49_squeeze (⟨[⟨.dimSweep, "f", [10, 20], none, none⟩,
    ⟨.matI, "i", [0], none, none⟩, ⟨.matJ, "j", [0], none, none⟩],
    ⟨[2, 1, 1], fun idx => 7 + idx.headD 0⟩⟩ : Arr Nat Nat) (by unfold Arr.WF; decide)
  exact ⟨y, h1, h4⟩

end HF.Merge
