import Verif.Sp.WriteProps
import Verif.Sp.Examples
/-
C56: the hypotheses are met by a block with two axes and a complex matrix.
-/
namespace HF.Sp

open HF.DataDict.Spec HF.DataBlock
open HF.DataDict hiding rename delitem

/-- Numbers 0 and 1 as values. -/
def wenv : Env ℚ Bool :=
  ⟨fun _ => false, fun x => if x then 1 else 0, false, fun _ => "", fun _ => ""⟩

def digit (x : Bool) : List Char := if x then "1".toList else "0".toList

/-- `S` is complex, everything is printed as one digit, names of variables are padded. -/
def wstyle : Style ℚ Bool :=
  ⟨fun n => if n = "Id" then some "A".toList else none, fun n => n = "S", fun _ => 8,
    fun _ i x => digit (xor i x), fun _ => 3, fun _ x => digit (x = 1)⟩

def wf : Dim ℚ := ⟨.dimSweep, "freq", [0, 1], some "Hz", none⟩
def wv : Dim ℚ := ⟨.dimSweep, "Vg", [1, 0], none, none⟩
def wi : Dim ℚ := ⟨.matI, "i", [0, 1], none, none⟩
def wj : Dim ℚ := ⟨.matJ, "j", [0, 1], none, none⟩

/-- A current over frequency and voltage, a matrix over frequency. -/
def wblock : Block ℚ Bool where
  vars := [("Id", ⟨[wf, wv], ⟨[2, 2], fun p => p == [0, 1]⟩⟩), ("S", ⟨[wf, wi, wj], ⟨[2, 2, 2], fun p => p == [1, 0, 1]⟩⟩)]
  ivars := [("freq", wf), ("Vg", wv), ("i", wi), ("j", wj)]

def wcomments : List (List Char) := ["Date: today".toList, "a comment".toList]

theorem cons_all {X : Type} {P : X → Prop} {a : X} {l : List X} : (∀ x ∈ a :: l, P x) ↔ P a ∧ ∀ x ∈ l, P x :=
  List.forall_mem_cons

instance (n : List Char) : Decidable (Comments.Name n) :=
  decidable_of_iff (((∀ c ∈ n.head?, Units.isWs c = false) ∧ ∀ c ∈ n.getLast?, Units.isWs c = false) ∧ ':' ∉ n ∧ '=' ∉ n)
    ⟨fun h => ⟨⟨h.1.1, h.1.2⟩, h.2⟩, fun h => ⟨⟨h.1.1, h.1.2⟩, h.2⟩⟩

instance (n : List Char) : Decidable (Comments.Trim n) :=
  decidable_of_iff ((∀ c ∈ n.head?, Units.isWs c = false) ∧ ∀ c ∈ n.getLast?, Units.isWs c = false)
    ⟨fun h => ⟨h.1, h.2⟩, fun h => ⟨h.1, h.2⟩⟩

theorem wblock_writable : Writable wenv id (fun s => s = "1".toList) wstyle id not wcomments wblock where
  quiet := ⟨⟨by decide +kernel, by
    intro w hw w' _ m i j hm
    have : ∀ w ∈ wblock.vars, isMatrixName w.1 = none := by decide +kernel
    rw [this w hw] at hm; simp at hm⟩, by decide +kernel⟩
  ne := by simp [wblock]
  sized := by decide +kernel
  known := by decide +kernel
  used := by decide +kernel
  axes := by decide +kernel
  distinct := by decide +kernel
  points := by decide +kernel
  titled := by decide +kernel
  title := by decide +kernel
  differ := by decide +kernel
  elem := by
    have h : ∀ w ∈ wblock.vars, ∀ t ∈ titles wstyle id not wblock (axesOf w.2), t ≠ "rep" ∧ isMatrixName t = none := by
      decide +kernel
    intro w hw t ht
    refine ⟨(h w hw t ht).1, ?_⟩
    intro m i j hm; rw [(h w hw t ht).2] at hm; simp at hm
  cell := by decide +kernel
  coord := by decide +kernel
  outerName := by decide +kernel
  outer := by
    have h : ∀ w ∈ wblock.vars, ∀ e ∈ (axesOf w.2).tail, ∀ x ∈ e.data, wstyle.coordText e x ≠ [] ∧
      Comments.Trim (wstyle.coordText e x) ∧ Comments.value none (wstyle.coordText e x) = .arr x none := by decide +kernel
    intro w hw e he x hx
    obtain ⟨h1, h2, h3⟩ := h w hw e he x hx
    exact ⟨h1, h2, x, h3, rfl⟩
  comment := by decide +kernel
  property := by decide +kernel

/-- The file. -/
theorem wblock_lines : (save wenv wstyle wcomments wblock).1 = [
    "!Date: today", "!a comment", "!@Vg=1", "freq [Hz]\tId [A]  ", "0\t0", "1\t0", "",
    "!@Vg=0", "freq [Hz]\tId [A]  ", "0\t1", "1\t0", "",
    "freq [Hz]\tRe(S11) \tIm(S11) \tRe(S12) \tIm(S12) \tRe(S21) \tIm(S21) \tRe(S22) \tIm(S22) ",
    "0\t0\t1\t0\t1\t0\t1\t0\t1", "1\t0\t1\t1\t0\t0\t1\t0\t1"].map String.toList := by decide +kernel

/-- The same with the format `%.16e` for the voltage, as it is by default. -/
def estyle : Style ℚ Bool :=
  { wstyle with coordText := fun d x => digit (x = 1) ++ if d.name = "Vg" then ".0000000000000000e+00".toList else [] }

def eblock : Block ℚ Bool where
  vars := [("Id", ⟨[wf, ⟨.dimSweep, "Vg", [1], none, none⟩], ⟨[2, 1], fun p => p == [0, 1]⟩⟩)]
  ivars := [("freq", wf), ("Vg", ⟨.dimSweep, "Vg", [1], none, none⟩)]

def etable : Table := ⟨["@Vg=1.0000000000000000e+00".toList], [("freq [Hz]".toList, 0), ("Id [A]".toList, 2)],
  [["0".toList, "0".toList], ["1".toList, "0".toList]]⟩

/-- C56 fails for floating point numbers on an axis that is not the first one and has the default
format: the file is written without error and cannot be read. -/
theorem C56_default_format_refuted (num : Nat → ℚ) (ofRat : ℚ → ℚ) (conv : List Char → Bool) :
    (save wenv estyle [] eblock).2 = none ∧
    read wenv num ofRat conv (save wenv estyle [] eblock).1 = .error .attributeError := by
  refine ⟨by decide +kernel, ?_⟩
  refine C52_exponent_refuted wenv num ofRat conv _ etable (by unfold Holds; decide +kernel) (by decide +kernel)
    ⟨by decide +kernel, elem_of_all (by decide +kernel), by decide +kernel⟩ (by unfold Even; decide +kernel)
    "Vg" false "1".toList "0000000000000000".toList "00".toList '+' (by decide +kernel) (by decide +kernel)
    (by decide +kernel) (by decide +kernel) (by decide +kernel) (by decide +kernel) (Or.inr rfl) (by decide +kernel)
    (by decide +kernel) [] (by decide +kernel)

/-- What is read from the file. -/
example : ∃ p ps, read wenv (fun n => n) id (fun s => s = "1".toList) (save wenv wstyle wcomments wblock).1 = .ok (p :: ps) ∧
    ps.length = 2 ∧ p.comments = wcomments := by
  obtain ⟨ls, spots, p, ps, h1, h2, h3, h4, h5, h6, h7⟩ := C56_roundtrip (fun n => (n : ℚ)) wblock_writable
  refine ⟨p, ps, by rw [h1]; exact h2, ?_, h6.1⟩
  have hl : (spotsOf [wf, wv] ++ spotsOf [wf]).length = 3 := by decide +kernel
  have hperm : spots.Perm (spotsOf [wf, wv] ++ spotsOf [wf]) := by
    rw [List.perm_ext_iff_of_nodup h4 (by decide +kernel)]
    rintro ⟨D, idx⟩
    rw [h5]
    have hD : (∃ w ∈ wblock.vars, axesOf w.2 = D) ↔ D = [wf, wv] ∨ D = [wf] := by
      constructor
      · rintro ⟨w, hw, rfl⟩
        revert w; decide +kernel
      · rintro (rfl | rfl) <;> decide +kernel
    rw [hD]
    simp only [List.mem_append, spotsOf, List.mem_map, mem_combos, Prod.mk.injEq]
    constructor
    · rintro ⟨rfl | rfl, h⟩
      · exact Or.inl ⟨idx, List.forall₂_map_left_iff.2 h, rfl, rfl⟩
      · exact Or.inr ⟨idx, List.forall₂_map_left_iff.2 h, rfl, rfl⟩
    · rintro (⟨i, h, rfl, rfl⟩ | ⟨i, h, rfl, rfl⟩)
      · exact ⟨Or.inl rfl, List.forall₂_map_left_iff.1 h⟩
      · exact ⟨Or.inr rfl, List.forall₂_map_left_iff.1 h⟩
  have := h3.length_eq
  rw [hperm.length_eq, hl] at this
  simpa using this.symm

/-- A scalar. -/
example : save wenv wstyle wcomments { vars := [("T", ⟨[], ⟨[], fun _ => true⟩⟩)] } =
    (wcomments.map ('!' :: ·) ++ [[]], none) :=
  C56_scalars_refuted wenv wstyle wcomments _ ⟨⟨by decide +kernel, by
    intro w hw w' _ m i j hm
    have : w.1 = "T" := by simp at hw; rw [hw]
    rw [this, show isMatrixName "T" = none by decide +kernel] at hm; simp at hm⟩, by decide +kernel⟩
    (by simp) (by decide +kernel) (by simp)

/-- An axis only. -/
example : (save wenv wstyle wcomments { ivars := [("Vg", wv)] }).2 = some .runtimeError :=
  C56_dangling_refuted wenv wstyle wcomments _ rfl _ _ rfl

/-- An axis that the only variable does not have. -/
example : (save wenv wstyle wcomments { vars := [("T", ⟨[], ⟨[], fun _ => true⟩⟩)], ivars := [("Vg", wv)] }).2 ≠ none :=
  C56_dangling_any_refuted wenv wstyle wcomments _ _ (List.mem_singleton.2 rfl) (by simp)

/-- A device with eleven ports. -/
example : ¬ ((elements (β := Nat) (α := Nat) ("S", ⟨[⟨.dimSweep, "f", [1], none, none⟩, ⟨.matI, "i", List.range 11, none, none⟩,
    ⟨.matJ, "j", List.range 11, none, none⟩], ⟨[1, 11, 11], fun _ => 0⟩⟩)).map Prod.fst).Nodup :=
  C56_ports_refuted _ (by decide +kernel) (by decide +kernel) (by decide +kernel)

end HF.Sp
