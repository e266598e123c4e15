import Verif.Readers.ComplexProps
/-
C51: concrete cases and what goes wrong.
-/
namespace HF.Readers.Complex

open HF.DataDict.Spec
open HF.DataDict hiding rename delitem
open HF.DataBlock

variable {β α : Type}

/-- C51 does not hold for columns whose names go on after the parenthesis: what follows it is
ignored, so parts that belong to different quantities are combined, and the name that would tell
them apart (or the unit) is gone. -/
theorem C51_rest_refuted (env : Env β α) (full : Arr β α → Arr β α) (rect polar : α → α → α)
    (iv : OMap String (Dim β)) (hiv : ∀ n ∈ keys iv, ¬ IsPart n) (hx : "x" ∉ keys iv)
    (a c : Arr β α) (hfit : Fit a c) (haa : Fit a a) (hca : Fit c a) (hcc : Fit c c)
    (hd : ∀ d ∈ a.dims ++ c.dims, d.name ∈ keys iv)
    (r r' : List Char) (h1 : '\n' ∉ r) (h2 : ')' ∉ r) (h3 : '\n' ∉ r') (h4 : ')' ∉ r') :
    ∃ b' z, makeCplx env full rect polar
        ⟨[(String.ofList (['R', 'e', '(', 'x', ')'] ++ r), a), (String.ofList (['I', 'm', '(', 'x', ')'] ++ r'), c)], iv, none⟩ =
        .ok b' ∧ b'.vars = [("x", z)] ∧ Combined rect a c z := by
  have o1 : outer (String.ofList (['R', 'e', '(', 'x', ')'] ++ r)) = ("Re", "x") := by
    have := (C51_names (String.ofList (['R', 'e', '(', 'x', ')'] ++ r))).1 ['R', 'e'] ['x'] r
      ⟨'R', ['e'], 0, [], by simp, rfl, by decide, by decide, by decide, h1, h2, Or.inl rfl⟩
    rw [this]
  have o2 : outer (String.ofList (['I', 'm', '(', 'x', ')'] ++ r')) = ("Im", "x") := by
    have := (C51_names (String.ofList (['I', 'm', '(', 'x', ')'] ++ r'))).1 ['I', 'm'] ['x'] r'
      ⟨'I', ['m'], 0, [], by simp, rfl, by decide, by decide, by decide, h3, h4, Or.inl rfl⟩
    rw [this]
  have ox : outer "x" = ("", "x") := by decide +kernel
  generalize String.ofList (['R', 'e', '(', 'x', ')'] ++ r) = s1 at *
  generalize String.ofList (['I', 'm', '(', 'x', ')'] ++ r') = s2 at *
  have p1 : IsPart s1 := by simp [IsPart, o1]
  have p2 : IsPart s2 := by simp [IsPart, o2]
  have hne : s1 ≠ s2 := by rintro rfl; rw [o1] at o2; simp at o2
  have px : ¬ IsPart "x" := by simp [IsPart, ox]
  have hx1 : "x" ≠ s1 := by intro h; rw [h] at px; exact px p1
  have hx2 : "x" ≠ s2 := by intro h; rw [h] at px; exact px p2
  have hmx : isMatrixName "x" = none := by decide +kernel
  have hp : Plain (⟨[(s1, a), (s2, c)], iv, none⟩ : Block β α) := by
    refine ⟨?_, by simp [keys, hne], hiv, ?_, ?_, ?_, ?_⟩
    · intro n hn h
      simp only [keys, List.map_cons, List.map_nil, List.mem_cons, List.not_mem_nil, or_false] at hn
      rcases hn with rfl | rfl
      · exact hiv _ h p1
      · exact hiv _ h p2
    · intro w hw d hdw
      simp only [List.mem_cons, List.not_mem_nil, or_false] at hw
      rcases hw with rfl | rfl
      · exact hd d (by simp only [List.mem_append]; exact Or.inl hdw)
      · exact hd d (by simp only [List.mem_append]; exact Or.inr hdw)
    · intro n hn _
      simp only [keys, List.map_cons, List.map_nil, List.mem_cons, List.not_mem_nil, or_false] at hn
      rcases hn with rfl | rfl
      · rw [o1]; exact px
      · rw [o2]; exact px
    · intro n hn _ m i j hm
      simp only [keys, List.map_cons, List.map_nil, List.mem_cons, List.not_mem_nil, or_false] at hn
      rcases hn with rfl | rfl
      · rw [o1] at hm; simp [hmx] at hm
      · rw [o2] at hm; simp [hmx] at hm
    · intro w hw w' hw' _ _ _
      simp only [List.mem_cons, List.not_mem_nil, or_false] at hw hw'
      rcases hw with rfl | rfl <;> rcases hw' with rfl | rfl
      · exact haa
      · exact hfit
      · exact hca
      · exact hcc
  obtain ⟨b', js, e1, -, e3, e4, e5, e6⟩ := C51_make_cplx env full rect polar _ hp
  have hjs : ∀ v, v ∈ js.map Job.name ↔ v = "x" := by
    intro v
    rw [e5]
    simp only [keys, List.map_cons, List.map_nil, List.mem_cons, List.not_mem_nil, or_false,
      exists_eq_or_imp, exists_eq_left, o1, o2, Prod.mk.injEq]
    constructor
    · rintro ⟨-, -, h⟩
      simp only [show ("Re" : String) ≠ "Im" by decide, show ("Im" : String) ≠ "Re" by decide,
        show ("Re" : String) ≠ "Mag" by decide, show ("Im" : String) ≠ "Mag" by decide,
        show ("Re" : String) ≠ "Arg" by decide, show ("Im" : String) ≠ "Arg" by decide, false_and, or_false,
        true_and, and_self] at h
      first
      | exact h.1.symm
      | (rcases h with h | h <;> simp_all)
    · rintro rfl
      refine ⟨by simp [hx1, hx2], hx, Or.inl ?_⟩
      simp
  have hlen : ∃ j, js = [j] ∧ j.name = "x" := by
    have hperm : (js.map Job.name).Perm ["x"] :=
      (List.perm_ext_iff_of_nodup e4 (by simp)).2 (by simpa using hjs)
    have := List.perm_singleton.1 hperm
    cases js with
    | nil => simp at this
    | cons j t =>
      cases t with
      | nil => exact ⟨j, rfl, by simpa using this⟩
      | cons _ _ => simp at this
  obtain ⟨j, rfl, hj⟩ := hlen
  obtain ⟨x, y, l1, l2, h⟩ := e6 j (by simp)
  rw [hj] at h
  have lc : ∀ f, lastCall (keys [(s1, a), (s2, c)]) f "x" = if f = "Im" then some s2 else if f = "Re" then some s1 else none := by
    intro f
    by_cases hf : f = "Im"
    · subst hf; simp [lastCall, keys, o2]
    · by_cases hf' : f = "Re"
      · subst hf'; simp [lastCall, keys, o1, o2]
      · simp [lastCall, keys, o1, o2, hf, hf', Ne.symm hf, Ne.symm hf']
  rw [lc, lc, lc, lc] at h
  simp at h
  obtain ⟨hf1, hf2, hcomb⟩ := h
  rw [← hf1] at l1
  rw [← hf2] at l2
  have ea : x = a := by
    simp [lookup] at l1; exact l1.symm
  have ec : y = c := by
    simp [lookup, hne] at l2; exact l2.symm
  subst ea ec
  refine ⟨b', j.val, e1, ?_, hcomb⟩
  rw [e3, ← hj]
  simp [eaten, hf1.symm, hf2.symm]

/-! ### Examples -/

/-- Integers as real numbers, pairs as complex numbers. -/
def envE : Env Int (Int × Int) := ⟨fun x => (x, 0), Prod.fst, (0, 0), fun _ => "%d", fun _ => "%d"⟩

def freq : Dim Int := ⟨.dimSweep, "freq", [1, 2], none, none⟩

def col (x y : Int) : Arr Int (Int × Int) := ⟨[freq], ⟨[2], fun i => if i.headD 0 = 0 then (x, 0) else (y, 0)⟩⟩

def rectE (x y : Int × Int) : Int × Int := (x.1, y.1)
def polarE (x y : Int × Int) : Int × Int := (x.1 + 100, y.1)

def b1 : Block Int (Int × Int) :=
  ⟨[("Re(S11)", col 1 2), ("z", col 0 0), ("Im(S11)", col 3 4), ("Mag(y)", col 5 6), ("Arg (y)", col 7 8),
    ("Re(z)", col 1 1), ("Im(z)", col 1 1), ("Re(u)", col 2 2)], [("freq", freq)], some "freq"⟩

def view (r : Except DataBlock.Err (Block Int (Int × Int))) : List (String × (Int × Int) × (Int × Int)) :=
  match r with
  | .ok b => b.vars.map fun w => (w.1, w.2.nd.get [0], w.2.nd.get [1])
  | .error _ => []

example : view (makeCplx envE id rectE polarE b1) =
    [("z", (0, 0), (0, 0)), ("Re(z)", (1, 0), (1, 0)), ("Im(z)", (1, 0), (1, 0)), ("Re(u)", (2, 0), (2, 0)),
     ("S11", (1, 3), (2, 4)), ("y", (105, 7), (106, 8))] := by decide +kernel

instance (s : String) : Decidable (IsPart s) := by unfold IsPart; infer_instance

theorem fit_col (x y z w : Int) : Fit (col x y) (col z w) where
  wfx := rfl
  wfy := rfl
  dx := by show (List.map Dim.key [freq]).Nodup; simp
  dy := by show (List.map Dim.key [freq]).Nodup; simp
  nosub := by
    have : ∀ d ∈ [freq, freq], ∀ e ∈ [freq, freq], d.name = e.name → d.cls.isSub e.cls = true → d.cls = e.cls := by
      decide +kernel
    exact this
  compat := by
    intro k s t h1 h2
    left
    have h : (col x y).axisLen k = (col z w).axisLen k := rfl
    rw [← h, h1] at h2
    exact Option.some.inj h2
  real := by
    show Dim.hasComplex [freq, freq] = false
    decide +kernel

/-- The block of the example meets the hypotheses of `C51_make_cplx`. -/
example : Plain b1 where
  apart := by decide +kernel
  nodup := by unfold keys; decide +kernel
  sweeps := by unfold keys; decide +kernel
  dims := by
    intro w hw d hd
    simp only [b1, List.mem_cons, List.not_mem_nil, or_false] at hw
    rcases hw with rfl | rfl | rfl | rfl | rfl | rfl | rfl | rfl <;>
      (simp only [col, List.mem_cons, List.not_mem_nil, or_false] at hd; subst hd; decide +kernel)
  nested := by decide +kernel
  elems := by
    intro n hn _ m i j hm
    have hnone : ∀ n ∈ keys b1.vars, isMatrixName (outer n).2 = none ∨
        isMatrixName (outer n).2 = some ("S", 0, 0) := by decide +kernel
    rcases hnone n hn with h | h
    · rw [h] at hm; cases hm
    · rw [h] at hm
      simp only [Option.some.injEq, Prod.mk.injEq] at hm
      obtain ⟨rfl, -, -⟩ := hm
      exact ⟨by decide +kernel, by decide +kernel⟩
  fit := by
    intro w hw w' hw' _ _ _
    have hall : ∀ w ∈ b1.vars, ∃ x y, w.2 = col x y := by
      intro w hw
      simp only [b1, List.mem_cons, List.not_mem_nil, or_false] at hw
      rcases hw with rfl | rfl | rfl | rfl | rfl | rfl | rfl | rfl <;> exact ⟨_, _, rfl⟩
    obtain ⟨x, y, e⟩ := hall w hw
    obtain ⟨z, u, e'⟩ := hall w' hw'
    rw [e, e']
    exact fit_col x y z u

/-- C51 does not hold if the argument is the name of an element of a matrix of the block: no
variable `S11` appears, the element of `S` is overwritten. -/
def b2 : Block Int (Int × Int) :=
  ⟨[("S", ⟨[freq, ⟨.matI, "i", [0, 1], none, none⟩, ⟨.matJ, "j", [0, 1], none, none⟩],
      ⟨[2, 2, 2], fun i => (i.getD 1 0, i.getD 2 0)⟩⟩), ("Re(S11)", col 7 8), ("Im(S11)", col 9 10)],
    [("freq", freq), ("i", ⟨.matI, "i", [0, 1], none, none⟩), ("j", ⟨.matJ, "j", [0, 1], none, none⟩)], none⟩

theorem C51_element_refuted : (match makeCplx envE id rectE polarE b2 with
    | .ok b => (b.vars.map Prod.fst, b.vars.map fun w => w.2.nd.get [1, 0, 0])
    | .error _ => ([], [])) = (["S"], [(8, 10)]) ∧
    (lookup b2.vars "S").map (fun a => a.nd.get [1, 0, 0]) = some (0, 0) := by
  refine ⟨by decide +kernel, by decide +kernel⟩

end HF.Readers.Complex
