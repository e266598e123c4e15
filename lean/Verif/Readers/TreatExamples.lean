import Verif.Readers.TreatProps
import Verif.Sp.WriteExamples
/-
C77: the hypotheses are met by a block with a current and a complex matrix; what does not come back.
-/
namespace HF.Readers.Treat

open HF.DataDict.Spec HF.DataBlock
open HF.DataDict hiding rename delitem
open HF.Readers.Assemble (IsBase elemNm digit)
open HF.Readers.FixUnit (UBlock)
open HF.Sp (Style Writable titles axesOf sweepTitle)

/-- Complex numbers with parts 0 and 1. -/
abbrev Bit := Bool × Bool

def tenv : Env ℚ Bit :=
  ⟨fun _ => (false, false), fun x => if x.1 then 1 else 0, (false, false), fun _ => "", fun _ => ""⟩

def bits (x : Bit) : List Char := [if x.1 then '1' else '0', if x.2 then '1' else '0']

def unbits (s : List Char) : Bit := (s.head? == some '1', s.getLast? == some '1')

def bre (x : Bit) : Bit := (x.1, false)
def bim (x : Bit) : Bit := (x.2, false)

/-- `S` and `Z` are complex, `Id` is in milliampere and `Z` in ohm. -/
def tstyle : Style ℚ Bit :=
  ⟨fun n => if n = "Id" then some ['m', 'A'] else if n = "Z" then some ['O', 'h', 'm'] else none, fun n => n = "S" || n = "Z", fun _ => 8,
    fun n i x => if n = "S" || n = "Z" then bits (if i then bim x else bre x) else bits x, fun _ => 3, fun _ x => bits (x = 1, false)⟩

/-- A prefix turns 01 into 10. -/
def tsteps : Steps ℚ Bit where
  full := id
  rect x y := (x.1, y.1)
  polar x y := (x.1 && y.1, y.1)
  mul m x := if m = 1 then x else (x.2, x.1)
  cmul m x := m * x
  guess n := if n = "S" then some "V" else none
  table := Normalize.trtable
  num n := n
  cast _ x := x
  ofProp _ := none

def tf : Dim ℚ := ⟨.dimSweep, "freq", [0, 1], some "GHz", none⟩
def ti : Dim ℚ := ⟨.matI, "i", [0, 1], none, none⟩
def tj : Dim ℚ := ⟨.matJ, "j", [0, 1], none, none⟩

/-- A current, an impedance and a matrix over frequency. -/
def tblock : Block ℚ Bit where
  vars := [("Id", ⟨[tf], ⟨[2], fun p => (p == [0], true)⟩⟩), ("Z", ⟨[tf], ⟨[2], fun p => (true, p == [1])⟩⟩),
    ("S", ⟨[tf, ti, tj], ⟨[2, 2, 2], fun p => (p == [1, 0, 1], p == [0, 1, 0])⟩⟩)]
  ivars := [("freq", tf), ("i", ti), ("j", tj)]

theorem tblock_writable : Writable tenv id unbits tstyle bre bim [['a']] tblock where
  quiet := ⟨⟨by decide +kernel, by
    intro w hw w' _ m i j hm
    have : ∀ w ∈ tblock.vars, isMatrixName w.1 = none := by decide +kernel
    rw [this w hw] at hm; simp at hm⟩, by decide +kernel⟩
  ne := by simp [tblock]
  sized := by decide +kernel
  known := by decide +kernel
  used := by decide +kernel
  axes := by decide +kernel
  distinct := by decide +kernel
  points := by decide +kernel
  titled := by decide +kernel
  title := by decide +kernel
  differ := by decide +kernel
  elem := by
    have h : ∀ w ∈ tblock.vars, ∀ t ∈ titles tstyle bre bim tblock (axesOf w.2), t ≠ "rep" ∧ isMatrixName t = none := by
      decide +kernel
    intro w hw t ht
    refine ⟨(h w hw t ht).1, ?_⟩
    intro m i j hm; rw [(h w hw t ht).2] at hm; simp at hm
  cell := by
    have h : ∀ w ∈ tblock.vars, ∀ x y : Bool, (∀ i, Sp.Field (tstyle.text w.1 i (x, y))) ∧
        if tstyle.cplx w.1 = true then
          unbits (tstyle.text w.1 false (x, y)) = bre (x, y) ∧ unbits (tstyle.text w.1 true (x, y)) = bim (x, y)
        else unbits (tstyle.text w.1 false (x, y)) = (x, y) := by decide +kernel
    exact fun w hw v => h w hw v.1 v.2
  coord := by decide +kernel
  outerName := by decide +kernel
  outer := by
    have h : ∀ w ∈ tblock.vars, (axesOf w.2).tail = [] := by decide +kernel
    intro w hw e he
    rw [h w hw] at he
    simp at he
  comment := by decide +kernel
  property := by decide +kernel

/-- A name that does not end in a digit is not that of an element. -/
theorem no_elem {n : String} (h : ∀ c ∈ n.toList.getLast?, isDig c = false) {v : String} {i j : Nat} (hj : j < 10) :
    n ≠ elemNm v i j := by
  rintro rfl
  have := (Assemble.digit_lt j hj).1
  rw [h (digit j) (by simp [elemNm, Assemble.elemNmF])] at this
  cases this

instance (s : List Char) : Decidable (Ident s) :=
  decidable_of_iff (∃ c ∈ s.head?, isLetter c = true ∧ ∀ d ∈ s.tail, isLetter d = true ∨ isDig d = true) (by
    unfold Ident
    cases s with
    | nil => simp
    | cons a t =>
      constructor
      · rintro ⟨c, h1, h2, h3⟩
        cases Option.mem_some_iff.1 h1
        exact ⟨a, t, rfl, h2, h3⟩
      · rintro ⟨c, g, h1, h2, h3⟩
        cases h1
        exact ⟨a, by simp, h2, h3⟩)

instance (u : Option (List Char)) : Decidable (Word u) := inferInstanceAs (Decidable (∀ c ∈ u.getD [], _))

theorem tblock_tame : Tame tstyle tblock tf where
  plain := by
    have h : ∀ w ∈ tblock.vars, ismatrix w.2 = false → w.2.dims = [tf] ∧ ∀ c ∈ w.1.toList.getLast?, isDig c = false := by
      decide +kernel
    intro w hw hm
    exact ⟨(h w hw hm).1, fun v i j _ _ hj => no_elem (h w hw hm).2 hj⟩
  matrix := by
    have h : ∀ w ∈ tblock.vars, ismatrix w.2 = true → w.2.dims = [tf, ti, tj] ∧ w.1.toList ≠ [] ∧ ∀ c ∈ w.1.toList, isLetter c = true := by
      decide +kernel
    intro w hw hm
    exact ⟨ti, tj, (h w hw hm).1, by decide, by decide, by decide, (h w hw hm).2⟩
  sweep := by decide +kernel
  names := by decide +kernel
  column := by
    have h : ∀ n ∈ tblock.vars.flatMap columns, n ∉ ["a1", "a2", "Freq", "Frequency"] ∧
        ∀ n' ∈ tblock.vars.flatMap columns, (isMatrixName n).map Prod.fst ≠ some n' := by decide +kernel
    intro n hn
    refine ⟨(h n hn).1, fun n' hn' i j e => (h n hn).2 n' hn' ?_⟩
    rw [e]; rfl

/-- The file. -/
theorem tblock_lines : (Sp.save tenv tstyle [['a']] tblock).1 = [
    "!a", "freq [GHz]\tId [mA] \tRe(Z) [Ohm]\tIm(Z) [Ohm]\tRe(S11) \tIm(S11) \tRe(S12) \tIm(S12) \tRe(S21) \tIm(S21) \tRe(S22) \tIm(S22) ",
    "00\t11\t10\t00\t00\t00\t00\t00\t00\t10\t00\t00", "10\t01\t10\t10\t00\t00\t10\t00\t00\t00\t00\t00"].map String.toList := by
  decide +kernel

/-- The block comes back, with `Id` in ampere and the frequencies in hertz. -/
example : ∃ ls r, Sp.save tenv tstyle [['a']] tblock = (ls, none) ∧ spBlocks tenv tsteps id unbits ls = .ok [r] ∧
    Again tsteps tstyle tblock tf r :=
  C77_roundtrip tblock_writable tblock_tame (fun _ => rfl) (fun _ _ _ => ⟨fun _ => True, by simp, by simp, fun _ _ _ _ => rfl⟩)
    (List.Perm.refl _) (by decide +kernel)

/-- C77 fails for the units of complex variables and of matrices: the variable comes back without unit, and
a prefix of the unit of a complex variable is not taken into account. -/
theorem C77_units_refuted {β α : Type} {env : Env β α} {S : Steps β α} {ofRat : ℚ → β} {conv : List Char → α} {st : Style β α}
    {re im : α → α} {comments : List (List Char)} {b : Block β α} {d : Dim β} (hw : Writable env ofRat conv st re im comments b)
    (h : Tame st b d) (hri : ∀ x, S.rect (re x) (im x) = x) (hkind : ∀ w ∈ b.vars, ismatrix w.2 = true → OneKind S d.data.length w)
    (htab : S.table.Perm Normalize.trtable) (hc : Comments.properties comments = []) (hg : ∀ n, S.guess n = none) :
    ∃ ls r, Sp.save env st comments b = (ls, none) ∧ spBlocks env S ofRat conv ls = .ok [r] ∧
      ∀ w ∈ b.vars, (st.cplx w.1 = true ∨ ismatrix w.2 = true → r.units w.1 = none) ∧
        (st.cplx w.1 = true → ∃ a, lookup r.blk.vars w.1 = some a ∧ a.nd.shape = w.2.nd.shape ∧
          ∀ idx, Nd.Valid w.2.nd.shape idx → a.nd.get idx = w.2.nd.get idx) := by
  obtain ⟨ls, r, c1, c2, sw, g, -, -, -, -, -, c3, -⟩ := C77_roundtrip hw h hri hkind htab hc
  refine ⟨ls, r, c1, c2, fun w hwm => ?_⟩
  obtain ⟨a, f, unit, a1, a2, a3⟩ := c3 w hwm
  cases hm : ismatrix w.2
  · simp only [hm, Bool.false_eq_true, if_false] at a3
    refine ⟨?_, fun hx => ⟨a, a1, a3.2.1, ?_⟩⟩
    · rintro (hx | hx)
      · rw [if_pos hx, hg] at a2
        rw [a3.2.2.1, a2.2]
      · cases hx
    · rw [if_pos hx] at a2
      intro idx hv
      have hsh := hw.sized w hwm
      rw [(h.plain w hwm hm).1] at hsh
      rw [hsh] at hv
      match idx, hv with
      | [k], hv => rw [a3.2.2.2 k (by rw [hsh]; exact hv), a2.1]; rfl
      | [], hv => simp [Nd.Valid] at hv
      | _ :: _ :: _, hv => simp [Nd.Valid] at hv
  · simp only [hm, if_true] at a3
    refine ⟨fun _ => a3.2.2.1, fun hx => ⟨a, a1, a3.2.1, ?_⟩⟩
    rw [if_pos hx] at a2
    intro idx hv
    obtain ⟨di, dj, hd, -⟩ := h.matrix w hwm hm
    have hsh := hw.sized w hwm
    rw [hd] at hsh
    rw [hsh] at hv
    match idx, hv with
    | [k, i, j], hv => rw [a3.2.2.2 k i j (by rw [hsh]; exact hv), a2.1]; rfl
    | [], hv => simp [Nd.Valid] at hv
    | [_], hv => simp [Nd.Valid] at hv
    | [_, _], hv => simp [Nd.Valid] at hv
    | _ :: _ :: _ :: _ :: _, hv => simp [Nd.Valid] at hv

def oneport : Block ℚ Bit where
  vars := [("S", ⟨[tf, ⟨.matI, "i", [0], none, none⟩, ⟨.matJ, "j", [0], none, none⟩], ⟨[2, 1, 1], fun _ => (true, false)⟩⟩)]
  ivars := [("freq", tf), ("i", ⟨.matI, "i", [0], none, none⟩), ("j", ⟨.matJ, "j", [0], none, none⟩)]

def plains : Block ℚ Bit where
  vars := [("V11", ⟨[tf], ⟨[2], fun _ => (true, false)⟩⟩), ("V12", ⟨[tf], ⟨[2], fun _ => (true, false)⟩⟩)]
  ivars := [("freq", tf)]

/-- The names of the variables after saving and reading. -/
def namesAgain (b : Block ℚ Bit) : Option (List (List String)) :=
  (spBlocks tenv tsteps id unbits (Sp.save tenv tstyle [] b).1).toOption.map fun l => l.map fun r => r.blk.vars.map Prod.fst

/-- C77 fails for matrices with one row and one column: these come back as a variable `S11`. -/
theorem C77_oneport_refuted : (Sp.save tenv tstyle [] oneport).2 = none ∧ namesAgain oneport = some [["S11"]] := by
  decide +kernel

/-- C77 fails for variables with names like those of elements: they come back as one matrix. -/
theorem C77_elements_refuted : (Sp.save tenv tstyle [] plains).2 = none ∧ namesAgain plains = some [["V"]] := by
  decide +kernel

end HF.Readers.Treat
