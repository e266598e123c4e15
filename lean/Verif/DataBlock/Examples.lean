import Verif.DataBlock.Props
/-
C03: concrete histories: non-vacuity of the theorems, and where the claim fails.
-/
namespace HF.DataBlock

open HF.DataDict.Spec

/-- Coordinates and elements are natural numbers. -/
def envN : Env Nat Nat where
  toVal := id
  toCoord := id
  junk := 0
  dflt := fun _ => "%d"
  dfltDim := fun _ => "%d"

/-- A sweep of three values. -/
def sweep (name : String) : Dim Nat := ⟨.dimSweep, name, [10, 20, 30], none, none⟩

/-- An array over a sweep. -/
def sweepArr (name : String) : Arr Nat Nat := ⟨[sweep name], ⟨[3], fun idx => 100 + idx.headD 0⟩⟩

def hist : List (Op Nat Nat) := [.new, .set 0 "x" (sweepArr "f"), .keep 0 ["x"], .rename 0 "f" "g"]

/-- What can be seen of all blocks: variables with the names of their dims, and known names. -/
def seen (w : World Nat Nat) : List (List (String × Option (List String)) × List String) :=
  w.blocks.map fun b =>
    (b.vars.map fun p => (p.1, (w.heap[p.2]?).map fun x => x.dims.map Dim.name), b.ivars.map Prod.fst)

theorem seen_of_known {w : World Nat Nat} (h : Known w) :
    ∀ e ∈ seen w, ∀ q ∈ e.1, ∃ l, q.2 = some l ∧ ∀ n ∈ l, n ∈ e.2 := by
  intro e he q hq
  obtain ⟨b, hb, rfl⟩ := List.mem_map.1 he
  obtain ⟨p, hp, rfl⟩ := List.mem_map.1 hq
  obtain ⟨x, hx, hd⟩ := h b hb p hp
  refine ⟨x.dims.map Dim.name, by simp [hx], ?_⟩
  intro n hn
  obtain ⟨d, hd', rfl⟩ := List.mem_map.1 hn
  exact hd d hd'

/-- C03 fails when two blocks share an array object: after `keep_variables` a dimension of the
original block is renamed; the variable of the new block has now a dimension that this block
does not know. -/
theorem C03_shared_refuted : ¬ Known (wrun envN {} hist) := by
  intro h
  have hs : seen (wrun envN {} hist) =
      [([("x", some ["g"])], ["g"]), ([("x", some ["g"])], ["f"])] := by decide +kernel
  have := seen_of_known h ([("x", some ["g"])], ["f"]) (by rw [hs]; simp) ("x", some ["g"]) (by simp)
  simp at this

/-- The hypothesis of `C03_known` is met by a history with all other operations, which leaves
variables with several known dimensions. -/
def hist2 : List (Op Nat Nat) :=
  [.new, .set 0 "x" (sweepArr "f"), .set 0 "y" (sweepArr "t"), .copy 0, .rename 0 "f" "g",
   .del 1 "y", .setDim 1 "u" (sweep "u"), .replaceDim 0 (sweep "t") (sweep "s"),
   .set 0 "g" (sweepArr "g")]

example : Known (wrun envN {} hist2) :=
  C03_known envN hist2 (by simp [hist2, Sharing])

example : seen (wrun envN {} hist2) =
    [([("x", some ["g"]), ("y", some ["s"])], ["s", "g"]), ([("x", some ["f"])], ["f", "t", "u"])] := by
  decide +kernel

/-- A careful history with sharing. -/
example : Known (wrun envN {} [.new, .set 0 "x" (sweepArr "f"), .keep 0 ["x"],
    .replaceDim 0 (sweep "f") ⟨.dimRep, "f", [1, 2, 3], none, none⟩]) :=
  C03_known_careful _ _ (by simp [Careful, Renames, sweep])

/-- The hypotheses of `C03_read_back`. -/
example : Plain (β := Nat) { ivars := [("t", sweep "t")] } "x" (sweepArr "f") where
  ivar := by simp
  own := by simp [sweepArr, sweep]
  elem := by
    have : isMatrixName "x" = none := by decide +kernel
    simp [this]

/-- C03: assigning an array to the name of a dimension replaces that dimension in all variables
without looking at the number of values: `x` has three elements along `f`, and is labelled with
two coordinates afterwards. -/
theorem C03_relabel_length_refuted :
    let w := wrun envN {} [.new, .set 0 "x" (sweepArr "f"),
      .set 0 "f" ⟨[⟨.dimSweep, "f", [1, 2], none, none⟩], ⟨[2], fun idx => idx.headD 0⟩⟩]
    (w.heap[0]?).map (fun x => (x.dims.map Dim.data, x.nd.shape)) = some ([[0, 1]], [3]) := by
  decide +kernel

end HF.DataBlock
