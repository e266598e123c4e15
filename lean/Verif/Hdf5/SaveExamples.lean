import Verif.Hdf5.SaveProps
import Verif.DataBlock.FilterExamples
/-
C71, C72: the choice of the version, concrete blocks, and where the claims fail.
-/
namespace HF.H5

open HF.DataDict.Spec HF.DataBlock

variable {β α : Type}

/-! ### The version of the file is found when it is read -/

/-- C71: version 0.2 is read as version 0.2; the name of the block and its comments are lost. -/
theorem C71_dispatch (env : Env β α) (name : Option String) (comments : List (List Char)) (b : Full β α) (h : Storable2 b.block) :
    ∃ f, save "0.2" name comments b = .ok f ∧ ∀ en enD enV, ∃ r, read env en enD enV f = .ok (none, [], r) ∧ Same2 b r := by
  obtain ⟨f, h1, h2⟩ := C71_roundtrip env b h
  refine ⟨.with2 f, by simp [save, h1, Except.map], fun en enD enV => ?_⟩
  obtain ⟨r, h3, h4⟩ := h2 en
  exact ⟨r, by simp [read, h3, Except.map], h4⟩

/-- C72: every other version is saved as version 0.1 and read as such. -/
theorem C72_dispatch (env : Env β α) (version : String) (hv : version ≠ "0.2") (name : Option String)
    (comments : List (List Char)) (b : Full β α) (h : Storable1 b) :
    ∃ f, save version name comments b = .ok f ∧ ∀ en enD enV, ∃ r,
      read env en enD enV f = .ok ((if name.any fun n => n.toLower == "none" then none else name), comments.map Units.strip, r) ∧
      Same1 b r := by
  obtain ⟨f, h1, h2⟩ := C72_roundtrip env name comments b h
  refine ⟨.without f, by simp [save, hv, h1, Except.map], fun en enD enV => ?_⟩
  exact h2 enD enV

/-! ### A block that can be saved -/

def rowI : Dim Nat := ⟨.matI, "i", [1, 2], none, none⟩
def colJ : Dim Nat := ⟨.matJ, "j", [1, 2], none, none⟩

/-- A network over frequency, a scalar, and a dim nothing depends on. -/
def net : Block Nat Nat where
  vars := [("S", ⟨[freq, rowI, colJ], ⟨[3, 2, 2], fun idx => 100 * idx.getD 0 0 + 10 * idx.getD 1 0 + idx.getD 2 0⟩⟩),
    ("Vds", ⟨[], ⟨[], fun _ => 5⟩⟩)]
  ivars := [("f", freq), ("i", rowI), ("j", colJ), ("h", { gate with name := "h" })]
  xname := some "f"

def full : Full Nat Nat := ⟨net, [("S", {}), ("Vds", ⟨some "V", some "%.2f"⟩)]⟩

theorem orderly_net : Orderly net where
  wf := by unfold Arr.WF; decide +kernel
  vars := by decide +kernel
  ivars := by decide +kernel
  apart := by decide +kernel
  dims := by decide +kernel
  elems := by
    intro w hw m i j h
    have : ∀ w ∈ net.vars, isMatrixName w.1 = none := by
      intro w hw
      have : w.1 ∈ ["S", "Vds"] := List.mem_map.2 ⟨w, hw, rfl⟩
      revert this
      generalize w.1 = n
      revert n
      decide +kernel
    rw [this w hw] at h
    simp at h

theorem known_net : Known net where
  orderly := orderly_net
  named := by decide +kernel
  known := by
    have : ∀ d ∈ net.vars.flatMap (fun p => p.2.dims), lookup net.ivars d.name = some d := by decide +kernel
    exact fun p hp d hd => this d (List.mem_flatMap.2 ⟨p, hp, hd⟩)

theorem storable2_net : Storable2 net where
  toKnown := known_net
  plain := by decide +kernel
  classes := by decide +kernel

theorem storable1_net : Storable1 full where
  toKnown := known_net
  plain := by decide +kernel
  classes := by decide +kernel
  units := by
    have h1 : ∀ u ∈ full.block.ivars.filterMap (fun p => p.2.unit), u.toLower ≠ "none" := by decide +kernel
    have h2 : ∀ u ∈ full.info.filterMap (fun p => p.2.unit), u.toLower ≠ "none" := by decide +kernel
    exact ⟨fun p hp u hu => h1 u (List.mem_filterMap.2 ⟨p, hp, hu⟩), fun p hp u hu => h2 u (List.mem_filterMap.2 ⟨p, hp, hu⟩)⟩

example : ∃ f, save2 full = .ok f ∧ ∀ en, ∃ r, read2 envN en f = .ok r ∧ Same2 full r := C71_roundtrip envN full storable2_net

example : ∃ f, save1 (some "dev") ["!x".toList] full = .ok f ∧ ∀ enD enV, ∃ r,
    read1 envN enD enV f = .ok (some "dev", ["!x".toList], r) ∧ Same1 full r := by
  have h := C72_roundtrip envN (some "dev") ["!x".toList] full storable1_net
  have e1 : (if (some "dev").any (fun n => n.toLower == "none") then none else some "dev") = some "dev" := by decide +kernel
  have e2 : ["!x".toList].map Units.strip = ["!x".toList] := by decide +kernel
  rw [e1, e2] at h
  exact h

/-! ### What is lost -/

/-- A variable: name, dims and elements. -/
structure SeenVar where
  name : String
  dims : List (Dim Nat)
  elems : List Nat
  deriving DecidableEq

/-- What can be seen of a block that was read. -/
structure Seen where
  vars : List SeenVar
  dims : List (String × Dim Nat)
  deriving DecidableEq

def show2 (r : Except Err (Full Nat Nat)) : Option Seen :=
  r.toOption.map fun r => ⟨r.block.vars.map fun p => ⟨p.1, p.2.dims, flat p.2⟩, r.block.ivars⟩

/-- The order in which the datasets were made. -/
def asMade {δ : Type} : Enum δ := ⟨id, fun _ => List.Perm.refl _⟩

/-- The order of the names. -/
def reversed {δ : Type} : Enum δ := ⟨List.reverse, fun l => List.reverse_perm l⟩

/-- C71 fails for dims that no variable uses: version 0.2 does not give them back. -/
theorem C71_unused_refuted (env : Env β α) (b : Full β α) (h : Storable2 b.block) (n : String) (d : Dim β)
    (_ : lookup b.block.ivars n = some d) (hn : ∀ p ∈ b.block.vars, ∀ e ∈ p.2.dims, e.name ≠ n) :
    ∃ f, save2 b = .ok f ∧ ∀ en, ∃ r, read2 env en f = .ok r ∧ lookup r.block.ivars n = none := by
  obtain ⟨f, h1, h2⟩ := C71_roundtrip env b h
  refine ⟨f, h1, fun en => ?_⟩
  obtain ⟨r, h3, h4⟩ := h2 en
  exact ⟨r, h3, h4.unused n hn⟩

example : lookup full.block.ivars "h" = some { gate with name := "h" } ∧ ∀ p ∈ full.block.vars, ∀ e ∈ p.2.dims, e.name ≠ "h" := by
  constructor <;> decide +kernel

/-- One variable over one dim. -/
def one (n : String) (d : Dim Nat) : Full Nat Nat := ⟨⟨[(n, ⟨[d], ⟨[2], fun idx => 5 + idx.headD 0⟩⟩)], [(d.name, d)], some d.name⟩, []⟩

/-- C71 fails for arrays without named dims, and for axes of derivatives: they are saved, but the file cannot be read. -/
theorem C71_class_refuted : ∀ c ∈ [Cls.dimAnonymous, .indepAxis, .derivAxis, .diagAxis, .complexIndep, .complexDeriv, .complexDiag],
    (save2 (one "x" ⟨c, "k", [1, 2], none, none⟩)).isOk = true ∧
      (save2 (one "x" ⟨c, "k", [1, 2], none, none⟩)).bind (fun f => (read2 envN asMade f).map fun _ => ()) = .error .keyError := by
  decide +kernel

/-- C71 fails for a dim with a slash in its name: the block cannot be saved.  A variable with such a name can. -/
theorem C71_slash_refuted :
    (save2 (one "x" ⟨.dimSweep, "I/V", [1, 2], none, none⟩)).map (fun _ => ()) = .error .keyError ∧
      show2 ((save2 (one "I/V" ⟨.dimSweep, "k", [1, 2], none, none⟩)).bind (read2 envN asMade)) =
        some ⟨[⟨"I/V", [⟨.dimSweep, "k", [1, 2], none, none⟩], [5, 6]⟩], [("k", ⟨.dimSweep, "k", [1, 2], none, none⟩)]⟩ := by
  constructor <;> decide +kernel

/-- C71 fails for a variable named with a backslash, which comes back under another name. -/
theorem C71_backslash_refuted :
    show2 ((save2 (one "I\\V" ⟨.dimSweep, "k", [1, 2], none, none⟩)).bind (read2 envN asMade)) =
        some ⟨[⟨"I/V", [⟨.dimSweep, "k", [1, 2], none, none⟩], [5, 6]⟩], [("k", ⟨.dimSweep, "k", [1, 2], none, none⟩)]⟩ := by
  decide +kernel

/-- Two variables which differ only in slash and backslash cannot be saved together. -/
theorem C71_clash_refuted :
    (save2 (⟨⟨[("I/V", ⟨[], ⟨[], fun _ => 1⟩⟩), ("I\\V", ⟨[], ⟨[], fun _ => 2⟩⟩)], [], none⟩, []⟩ : Full Nat Nat)).map (fun _ => ()) =
      .error .exists_ := by
  decide +kernel

/-- A variable `S11` made before the network `S`: with that order of names the element of the network is overwritten
when the file is read, and the variable `S11` is gone. -/
def elem : Full Nat Nat := ⟨⟨[("S11", ⟨[], ⟨[], fun _ => 77⟩⟩),
  ("S", ⟨[rowI, colJ], ⟨[2, 2], fun idx => 10 * idx.getD 0 0 + idx.getD 1 0⟩⟩)], [("i", rowI), ("j", colJ)], none⟩, []⟩

theorem C71_element_refuted :
    show2 ((save2 elem).bind (read2 envN asMade)) = some ⟨[⟨"S11", [], [77]⟩, ⟨"S", [rowI, colJ], [0, 1, 10, 11]⟩], [("i", rowI), ("j", colJ)]⟩ ∧
    show2 ((save2 elem).bind (read2 envN reversed)) = some ⟨[⟨"S", [rowI, colJ], [77, 1, 10, 11]⟩], [("i", rowI), ("j", colJ)]⟩ := by
  constructor <;> decide +kernel

/-- C72: arrays without named dims come back with named ones. -/
theorem C72_class_refuted :
    show2 ((save1 none [] (one "x" ⟨.dimAnonymous, "ANON0", [1, 2], none, none⟩)).bind fun f => (read1 envN asMade asMade f).map fun r => r.2.2) =
      some ⟨[⟨"x", [⟨.dimRep, "ANON0", [1, 2], none, none⟩], [5, 6]⟩], [("ANON0", ⟨.dimRep, "ANON0", [1, 2], none, none⟩)]⟩ := by
  decide +kernel

/-- C72: names with a slash can be saved, but the file cannot be read. -/
theorem C72_slash_refuted :
    (save1 none [] (one "I/V" ⟨.dimSweep, "k", [1, 2], none, none⟩)).isOk = true ∧
    (save1 none [] (one "I/V" ⟨.dimSweep, "k", [1, 2], none, none⟩)).bind (fun f => (read1 envN asMade asMade f).map fun _ => ()) =
      .error .keyError := by
  constructor <;> decide +kernel

/-- C72: a unit that reads `None` is taken as no unit; in version 0.2 it is kept. -/
theorem C72_unit_refuted :
    show2 ((save1 none [] (one "x" ⟨.dimSweep, "k", [1, 2], some "None", none⟩)).bind fun f => (read1 envN asMade asMade f).map fun r => r.2.2) =
      some ⟨[⟨"x", [⟨.dimSweep, "k", [1, 2], none, none⟩], [5, 6]⟩], [("k", ⟨.dimSweep, "k", [1, 2], none, none⟩)]⟩ ∧
    show2 ((save2 (one "x" ⟨.dimSweep, "k", [1, 2], some "None", none⟩)).bind (read2 envN asMade)) =
      some ⟨[⟨"x", [⟨.dimSweep, "k", [1, 2], some "None", none⟩], [5, 6]⟩], [("k", ⟨.dimSweep, "k", [1, 2], some "None", none⟩)]⟩ := by
  constructor <;> decide +kernel

/-- C71, C72: if a variable has another dim than the block under the same name, it gets that of the block, with other
coordinate values, in both versions. -/
def twoK : Full Nat Nat := ⟨⟨[("x", ⟨[⟨.dimSweep, "k", [1, 2], none, none⟩], ⟨[2], fun idx => 5 + idx.headD 0⟩⟩)],
  [("k", ⟨.dimSweep, "k", [8, 9], none, none⟩)], none⟩, []⟩

theorem C71_dims_refuted :
    show2 ((save2 twoK).bind (read2 envN asMade)) =
      some ⟨[⟨"x", [⟨.dimSweep, "k", [8, 9], none, none⟩], [5, 6]⟩], [("k", ⟨.dimSweep, "k", [8, 9], none, none⟩)]⟩ := by
  decide +kernel

theorem C72_dims_refuted :
    show2 ((save1 none [] twoK).bind fun f => (read1 envN asMade asMade f).map fun r => r.2.2) =
      some ⟨[⟨"x", [⟨.dimSweep, "k", [8, 9], none, none⟩], [5, 6]⟩], [("k", ⟨.dimSweep, "k", [8, 9], none, none⟩)]⟩ := by
  decide +kernel

/-- C71, C72: the output format of a dim is not kept by either version. -/
theorem C71_format_refuted :
    (show2 ((save2 (one "x" ⟨.dimSweep, "k", [1, 2], none, some "%.1f"⟩)).bind (read2 envN asMade))).map Seen.dims =
      some [("k", ⟨.dimSweep, "k", [1, 2], none, none⟩)] ∧
    (show2 ((save1 none [] (one "x" ⟨.dimSweep, "k", [1, 2], none, some "%.1f"⟩)).bind fun f =>
      (read1 envN asMade asMade f).map fun r => r.2.2)).map Seen.dims = some [("k", ⟨.dimSweep, "k", [1, 2], none, none⟩)] := by
  constructor <;> decide +kernel

end HF.H5
