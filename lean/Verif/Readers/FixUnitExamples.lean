import Verif.Readers.FixUnitProps
/-
C57: a block which meets the conditions, and what happens without them.
-/
namespace HF.Readers.FixUnit

open HF.DataBlock
open HF.DataDict.Spec
open HF.Readers.Normalize (label varView dimView vnames dnames WF)

example : title "Vgs [mV]" = some ("Vgs", (10 : ℚ) ^ (-3 : Int), some "V") := by decide +kernel
example : title "Gain[dB" = some ("Gain", 1, some "dB") := by decide +kernel
example : title "a [b] c" = none ∧ title "x []" = none ∧ title "x [m/s]" = none := by decide +kernel

def uenv : Env ℚ ℚ := ⟨id, id, 0, fun _ => "%s", fun _ => "%s"⟩

def fdim : Dim ℚ := ⟨.dimSweep, "f [GHz]", [1, 2], none, none⟩
def xdim : Dim ℚ := ⟨.dimSweep, "freq", [5], none, none⟩

def row (d : Dim ℚ) (x : List ℚ) : Arr ℚ ℚ := ⟨[d], ⟨[x.length], fun i => x.getD (i.headD 0) 0⟩⟩

/-- Two variables over `f [GHz]`, one over `freq`. -/
def ublock : UBlock ℚ ℚ :=
  ⟨⟨[("Vgs [mV]", row fdim [7, 8]), ("Id", row fdim [3, 4]), ("y", row xdim [1])],
    [("f [GHz]", fdim), ("freq", xdim)], none⟩, fun _ => none⟩

def guessTable (s : String) : Option String := [("Id", "A"), ("freq", "Hz")].lookup s

theorem ublock_wf : WF ublock.blk :=
  ⟨by decide +kernel, by decide +kernel, by
    intro p hp l hl
    simp only [varView, dimView, ublock, List.map_cons, List.map_nil, row, List.mem_cons, List.not_mem_nil,
      or_false] at hp ⊢
    rcases hp with rfl | rfl | rfl <;> simp only [List.mem_cons, List.not_mem_nil, or_false] at hl <;>
      subst hl <;> simp⟩

theorem ublock_clear : Clear ublock.blk := by
  have hn : names ublock.blk = ["Vgs [mV]", "Id", "y", "f [GHz]", "freq"] := by decide +kernel
  have h1 : ∀ k ∈ names ublock.blk, ∀ r, title k = some r → r.1 ∉ names ublock.blk := by
    rw [hn]
    intro k hk r hr
    simp only [List.mem_cons, List.not_mem_nil, or_false] at hk
    have e1 : title "Vgs [mV]" = some ("Vgs", (10 : ℚ) ^ (-3 : Int), some "V") := by decide +kernel
    have e2 : title "f [GHz]" = some ("f", (10 : ℚ) ^ (9 : Int), some "Hz") := by decide +kernel
    have e3 : title "Id" = none ∧ title "y" = none ∧ title "freq" = none := by decide +kernel
    rcases hk with rfl | rfl | rfl | rfl | rfl
    · rw [e1] at hr; cases hr; decide
    · rw [e3.1] at hr; cases hr
    · rw [e3.2.1] at hr; cases hr
    · rw [e2] at hr; cases hr; decide
    · rw [e3.2.2] at hr; cases hr
  refine ⟨fun k hk n m u ht => h1 k hk _ ht, by decide +kernel, ?_⟩
  intro k hk n m u ht q i j hq
  exfalso
  have hv : vnames ublock.blk = ["Vgs [mV]", "Id", "y"] := by decide +kernel
  rw [hv] at hk
  simp only [List.mem_cons, List.not_mem_nil, or_false] at hk
  have e1 : title "Vgs [mV]" = some ("Vgs", (10 : ℚ) ^ (-3 : Int), some "V") := by decide +kernel
  have e3 : title "Id" = none ∧ title "y" = none := by decide +kernel
  rcases hk with rfl | rfl | rfl
  · rw [e1] at ht; cases ht
    have : isMatrixName "Vgs" = none := by decide +kernel
    rw [this] at hq; cases hq
  · rw [e3.1] at ht; cases ht
  · rw [e3.2] at ht; cases ht

/-- A variable or dimension of the result, with values and unit. -/
structure Column where
  name : String
  values : List ℚ
  unit : Option String
  deriving DecidableEq

/-- Dimensions and variables of the result. -/
structure Report where
  dims : List Column
  vars : List Column
  deriving DecidableEq

def summary (b : UBlock ℚ ℚ) : Report :=
  ⟨b.blk.ivars.map fun p => ⟨p.1, p.2.data, p.2.unit⟩, b.blk.vars.map fun p =>
    ⟨p.1, (List.range (p.2.nd.shape.headD 0)).map (fun i => p.2.nd.get [i]), b.units p.1⟩⟩

def run (b : UBlock ℚ ℚ) : Option Report :=
  match guessUnit uenv (fun m x => x * m) (fun m x => x * m) guessTable b with
  | .ok c => some (summary c)
  | .error _ => none

example : run ublock = some
    ⟨[⟨"f", [1000000000, 2000000000], some "Hz"⟩, ⟨"freq", [5], some "Hz"⟩],
     [⟨"Vgs", [7 / 1000, 8 / 1000], some "V"⟩, ⟨"Id", [3, 4], some "A"⟩, ⟨"y", [1], none⟩]⟩ := by decide +kernel

/-- C57 is false without `Clear`: of two columns with the same name before the unit, one is lost. -/
theorem C57_same_name_refuted : run ⟨⟨[("P [mW]", row xdim [7]), ("P [dBm]", row xdim [9])],
      [("freq", xdim)], none⟩, fun _ => none⟩ =
    some ⟨[⟨"freq", [5], some "Hz"⟩], [⟨"P", [9], some "dBm"⟩]⟩ := by decide +kernel

/-- C57 is false without `Clear`: when there is a dimension of that name, the factor is applied to the
dimension, the variable is not scaled, and has no unit. -/
theorem C57_dimension_name_refuted : run ⟨⟨[("freq [GHz]", row xdim [7])], [("freq", xdim)], none⟩,
      fun _ => none⟩ =
    some ⟨[⟨"freq", [5000000000], some "Hz"⟩], [⟨"freq", [7], none⟩]⟩ := by decide +kernel

def mdims : List (Dim ℚ) := [⟨.matI, "i", [0], none, none⟩, ⟨.matJ, "j", [0], none, none⟩]

/-- C57 is false without `Clear`: beside a matrix `Z`, a column `Z11 [kOhm]` is not scaled; the scaled
values are written into the matrix. -/
theorem C57_element_refuted :
    (match guessUnit uenv (fun m x => x * m) (fun m x => x * m) guessTable
        ⟨⟨[("Z", ⟨mdims, ⟨[1, 1], fun _ => 50⟩⟩), ("Z11 [kOhm]", ⟨[], ⟨[], fun _ => 3⟩⟩)],
          [("i", ⟨.matI, "i", [0], none, none⟩), ("j", ⟨.matJ, "j", [0], none, none⟩)], none⟩, fun _ => none⟩ with
      | .ok c => some (c.blk.vars.map fun p => (p.1, p.2.nd.shape, p.2.nd.get (p.2.nd.shape.map fun _ => 0)),
          c.units "Z11")
      | .error _ => none) =
    some ([("Z", [1, 1], 3000), ("Z11", [], 3)], some "Ohm") := by decide +kernel

/-- Guessing units changes the order of the dimensions: those without a unit are put behind the
others. -/
theorem C57_dim_order_refuted : run ⟨⟨[], [("y", ⟨.dimSweep, "y", [1], none, none⟩),
      ("z", ⟨.dimSweep, "z", [1], some "V", none⟩)], none⟩, fun _ => none⟩ =
    some ⟨[⟨"z", [1], some "V"⟩, ⟨"y", [1], none⟩], []⟩ := by decide +kernel

example : ∃ b', guessUnit uenv (fun m x => x * m) (fun m x => x * m) guessTable ublock = .ok b' ∧ WF b'.blk :=
  let ⟨b', h, w, _⟩ := C57_units uenv (fun m x => x * m) (fun m x => x * m) guessTable ublock ublock_wf ublock_clear
  ⟨b', h, w⟩

end HF.Readers.FixUnit
