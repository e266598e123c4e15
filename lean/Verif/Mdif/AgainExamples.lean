import Verif.Mdif.Again
import Verif.Mdif.WriteExamples
import Verif.Mdif.StepsExamples
/-
C85: a block with a matrix that is saved and read.
-/
namespace HF.Mdif

open HF.DataDict.Spec HF.DataBlock
open HF.DataDict hiding rename delitem
open HF.Readers HF.Readers.Treat
open HF.Readers.Assemble (elemNm IsBase)
open HF.Readers.Normalize (trtable)

def dI : Dim Nat := ⟨.matI, "i", [0], none, none⟩
def dJ : Dim Nat := ⟨.matJ, "j", [0, 1], none, none⟩
def dT : Dim Nat := dimT [0, 1]

theorem base_letter {c : Char} (h : isLetter c = true) : BaseName [c] :=
  ⟨by intro d hd; rw [List.mem_singleton.1 hd]; exact Or.inl h, ⟨c, rfl, h⟩, ⟨c, rfl, h⟩⟩

/-- A variable and a matrix over `f` and `t`, and a variable over `t`. -/
def matB : Block Nat Nat :=
  { vars := [("x", ⟨[dimF, dT], ⟨[2, 2], fun i => i.getD 0 0 + 5 * i.getD 1 0⟩⟩),
      ("Z", ⟨[dimF, dT, dI, dJ], ⟨[2, 2, 1, 2], fun i => 8 * i.getD 0 0 + 4 * i.getD 1 0 + 2 * i.getD 2 0 + i.getD 3 0⟩⟩),
      ("a", ⟨[dT], ⟨[2], fun i => 7 + i.getD 0 0⟩⟩)] }

theorem matB_mat : MatVar ("Z", (⟨[dimF, dT, dI, dJ], ⟨[2, 2, 1, 2], fun i => 8 * i.getD 0 0 + 4 * i.getD 1 0 + 2 * i.getD 2 0 + i.getD 3 0⟩⟩ : Arr Nat Nat))
    [dimF, dT] dI dJ [2, 2] 1 2 where
  dims := rfl
  isI := by decide +kernel
  isJ := by decide +kernel
  shape := rfl
  len := rfl
  base := base_letter (c := 'Z') (by decide)
  nameI := rfl
  nameJ := rfl
  others := by decide +kernel
  lenI := rfl
  lenJ := rfl

theorem mat_unique {w : String × Arr Nat Nat} {D di dj sh p q D' di' dj' sh' p' q'} (h : MatVar w D di dj sh p q)
    (h' : MatVar w D' di' dj' sh' p' q') : D = D' ∧ sh = sh' ∧ p = p' ∧ q = q' := by
  have e1 : D ++ [di, dj] = D' ++ [di', dj'] := h.dims.symm.trans h'.dims
  have e2 : sh ++ [p, q] = sh' ++ [p', q'] := h.shape.symm.trans h'.shape
  have e3 := (List.append_inj' e1 rfl).1
  obtain ⟨e4, e5⟩ := List.append_inj' e2 rfl
  simp only [List.cons.injEq, and_true] at e5
  exact ⟨e3, e4, e5.1, e5.2⟩

theorem matB_flat : ∀ w ∈ matB.vars, ismatrix w.2 = false → w.1 = "x" ∨ w.1 = "a" := by
  intro w hw h
  simp only [matB, List.mem_cons, List.not_mem_nil, or_false] at hw
  rcases hw with rfl | rfl | rfl
  · exact Or.inl rfl
  · rw [matB_mat.toMatStack.ismatrix] at h; cases h
  · exact Or.inr rfl

theorem matB_only {w : String × Arr Nat Nat} (hw : w ∈ matB.vars) {D di dj sh p q} (h : MatVar w D di dj sh p q) :
    w.1 = "Z" ∧ D = [dimF, dT] ∧ sh = [2, 2] ∧ p = 1 ∧ q = 2 := by
  simp only [matB, List.mem_cons, List.not_mem_nil, or_false] at hw
  rcases hw with rfl | rfl | rfl
  · have := h.toMatStack.ismatrix
    exact absurd this (by decide +kernel)
  · obtain ⟨a, b, c, d⟩ := mat_unique h matB_mat
    exact ⟨rfl, a, b, c, d⟩
  · have := h.toMatStack.ismatrix
    exact absurd this (by decide +kernel)

theorem not_element {n x : String} (i j : Nat) (h : BaseName n.toList) : n ≠ elementName x i j :=
  fun e => elementName_ne_base h i j e.symm

theorem matB_convertible : Convertible matB where
  nodup := by decide +kernel
  mats := by
    intro w hw h
    simp only [matB, List.mem_cons, List.not_mem_nil, or_false] at hw
    rcases hw with rfl | rfl | rfl
    · exact absurd h (by decide +kernel)
    · exact ⟨_, _, _, _, _, _, matB_mat, by omega⟩
    · exact absurd h (by decide +kernel)
  plain := by
    intro w hw h w' _ _ i j
    refine not_element i j ?_
    rcases matB_flat w hw h with e | e <;> rw [e]
    · exact base_letter (c := 'x') (by decide)
    · exact base_letter (c := 'a') (by decide)
  elems := by
    intro w hw h w' _ _ m i j e
    have : isMatrixName w.1 = none := by
      rcases matB_flat w hw h with e | e <;> rw [e] <;> decide +kernel
    rw [this] at e
    cases e
  dims := by
    intro w hw w' hw' d hd
    have h : ∀ w ∈ matB.vars, ∀ d ∈ w.2.dims, d.name ∈ ["f", "t", "i", "j"] ∧ ∀ w' ∈ matB.vars, d.name ≠ w'.1 := by decide +kernel
    obtain ⟨h1, h2⟩ := h w' hw' d hd
    refine ⟨h2 w hw, fun i j => not_element i j ?_⟩
    simp only [List.mem_cons, List.not_mem_nil, or_false] at h1
    rcases h1 with e | e | e | e <;> rw [e]
    · exact base_letter (c := 'f') (by decide)
    · exact base_letter (c := 't') (by decide)
    · exact base_letter (c := 'i') (by decide)
    · exact base_letter (c := 'j') (by decide)

/-- Names, dimensions and shapes of the block that is written. -/
def matView (b : Block Nat Nat) : List (String × List (Dim Nat) × List Nat) := b.vars.map fun v => (v.1, v.2.dims, v.2.nd.shape)

theorem matB_view : ∃ b1, convert envN matB = .ok b1 ∧ matView b1 = [("x", [dimF, dT], [2, 2]), ("Z11", [dimF, dT], [2, 2]),
    ("Z12", [dimF, dT], [2, 2]), ("a", [dT], [2])] := by
  have h : ((convert envN matB).toOption.map matView) = some [("x", [dimF, dT], [2, 2]), ("Z11", [dimF, dT], [2, 2]),
    ("Z12", [dimF, dT], [2, 2]), ("a", [dT], [2])] := by decide +kernel
  cases e : convert envN matB with
  | error _ => rw [e] at h; cases h
  | ok b1 =>
    rw [e] at h
    exact ⟨b1, rfl, by simpa [Except.toOption] using h⟩

theorem view_mem {b1 : Block Nat Nat} {l : List (String × List (Dim Nat) × List Nat)} (hv : matView b1 = l) :
    (∀ v ∈ b1.vars, (v.1, v.2.dims, v.2.nd.shape) ∈ l) ∧ ∀ x ∈ l, ∃ v ∈ b1.vars, (v.1, v.2.dims, v.2.nd.shape) = x := by
  subst hv
  exact ⟨fun v h => List.mem_map_of_mem (f := fun v : String × Arr Nat Nat => (v.1, v.2.dims, v.2.nd.shape)) h,
    fun x hx => by obtain ⟨v, h1, h2⟩ := List.mem_map.1 hx; exact ⟨v, h1, h2⟩⟩

theorem view_names {b1 : Block Nat Nat} {l : List (String × List (Dim Nat) × List Nat)} (hv : matView b1 = l) :
    b1.vars.map Prod.fst = l.map Prod.fst := by
  subst hv
  simp [matView, Function.comp_def]

theorem matB_savable {b1 : Block Nat Nat} (hv : matView b1 = [("x", [dimF, dT], [2, 2]), ("Z11", [dimF, dT], [2, 2]),
    ("Z12", [dimF, dT], [2, 2]), ("a", [dT], [2])]) : Savable envN prS numS dimF [dT] b1.vars := by
  obtain ⟨m1, m2⟩ := view_mem hv
  have hn := view_names hv
  have hall : ∀ (P : String × List (Dim Nat) × List Nat → Prop), (∀ x ∈ [("x", [dimF, dT], [2, 2]), ("Z11", [dimF, dT], [2, 2]),
      ("Z12", [dimF, dT], [2, 2]), ("a", [dT], [2])], P x) → ∀ v ∈ b1.vars, P (v.1, v.2.dims, v.2.nd.shape) :=
    fun P h v hv => h _ (m1 v hv)
  refine ⟨?_, ?_, ?_, ?_, ?_, by decide, fun c _ => survives_strokes _ _, fun x _ c _ => back_strokes _ _,
    fun v _ idx _ => survives_strokes _ _, ?_, ?_, by decide +kernel, ?_, ?_, ?_, ?_, by decide +kernel⟩
  · exact hall (fun x => x.2.1 = [dimF, dT] ∨ x.2.1 = [dT]) (by decide +kernel)
  · obtain ⟨v, h, e⟩ := m2 ("x", [dimF, dT], [2, 2]) (by simp)
    exact ⟨v, h, congrArg (fun x => x.2.1) e⟩
  · obtain ⟨v, h, e⟩ := m2 ("a", [dT], [2]) (by simp)
    exact ⟨v, h, congrArg (fun x => x.2.1) e⟩
  · exact hall (fun x => x.2.2 = x.2.1.map fun x => x.data.length) (by decide +kernel)
  · intro x hx k c hc
    rw [List.mem_singleton.1 hx] at hc
    match k with
    | 0 => cases hc; rfl
    | 1 => cases hc; rfl
    | k + 2 => simp [dT, dimT] at hc
  · exact hall (fun x => x.2.1 = [dT] → prS.cplx x.1 = false) (by decide +kernel)
  · rw [hn]; decide +kernel
  · exact hall (fun x => x.1 ∉ [dimF, dT].map Dim.name) (by decide +kernel)
  · intro v hv' m i j h
    have := m1 v hv'
    have h0 : isMatrixName v.1 = none ∨ ∃ r, isMatrixName v.1 = some ("Z", r) := by
      revert this
      simp only [List.mem_cons, Prod.mk.injEq, List.not_mem_nil, or_false]
      rintro (⟨e, -⟩ | ⟨e, -⟩ | ⟨e, -⟩ | ⟨e, -⟩) <;> rw [e]
      · left; decide +kernel
      · right; exact ⟨(0, 0), by decide +kernel⟩
      · right; exact ⟨(0, 1), by decide +kernel⟩
      · left; decide +kernel
    rcases h0 with h0 | ⟨r, h0⟩
    · rw [h0] at h; cases h
    · rw [h0] at h
      simp only [Option.some.injEq, Prod.mk.injEq] at h
      rw [← h.1, hn]
      decide +kernel
  · rw [hn]
    intro n hn
    have : n ∈ ["x", "Z11", "Z12", "a", "f", "t"] := by simpa [dimF, dT, dimT] using hn
    simp only [List.mem_cons, List.not_mem_nil, or_false] at this
    rcases this with rfl | rfl | rfl | rfl | rfl | rfl <;> exact ⟨⟨by decide, by decide⟩, by decide, by decide⟩
  · exact hall (fun x => x.2.1 = [dT] → ¬['S', 'W', 'E', 'E', 'P', '.'] <+: x.1.toList) (by decide +kernel)

theorem matB_returns {b1 : Block Nat Nat} (hv : matView b1 = [("x", [dimF, dT], [2, 2]), ("Z11", [dimF, dT], [2, 2]),
    ("Z12", [dimF, dT], [2, 2]), ("a", [dT], [2])]) : Returns stepsN dimF [dT] matB b1 := by
  have hn := view_names hv
  refine ⟨?_, ?_, ?_, ?_, ?_, ?_, ?_⟩
  · intro w hw h v i j _ hi _
    refine Assemble.base_ne_elem ?_ hi
    rcases matB_flat w hw h with e | e <;> rw [e] <;> exact ⟨by decide, by decide +kernel⟩
  · intro w hw D di dj sh p q h
    obtain ⟨e, rfl, rfl, rfl, rfl⟩ := matB_only hw h
    rw [e]
    exact ⟨rfl, rfl, ⟨by decide, by decide +kernel⟩, by omega, by omega, by omega⟩
  · intros; rfl
  · rw [hn]; decide +kernel
  · rw [hn]; decide +kernel
  · rw [hn]; decide +kernel
  · rw [hn]; decide +kernel

/-- `C85_roundtrip` applies. -/
example (en : Enum (List (Dim Nat))) (time : List Char) : ∃ lines ts t, save envN prS en time matB = (lines, none) ∧
    treatAll envN numS stepsN false lines = .ok ts ∧ ts.length = 2 ∧ ts[1]? = some t ∧
    ∃ a, lookup t.blk.blk.vars "Z" = some a ∧ a.nd.get [1, 0, 1] = 13 := by
  obtain ⟨b1, h1, h2⟩ := matB_view
  obtain ⟨lines, k1, ts, k2, k3, k4⟩ := C85_roundtrip envN prS numS stepsN (List.Perm.refl _) (fun _ _ _ => rfl) en time matB b1
    matB_convertible h1 dimF [dT] (matB_savable h2) (matB_returns h2)
  have hpos : positions ([dT].map fun x => x.data.length) = [[0], [1]] := by decide +kernel
  rw [hpos] at k3 k4
  obtain ⟨t, ht⟩ : ∃ t, ts[1]? = some t := ⟨_, List.getElem?_eq_getElem (by rw [k3]; decide)⟩
  obtain ⟨idx, D, g1, -, g2⟩ := k4 1 t ht
  cases g1
  obtain ⟨a, _, _, a1, -, -, -, -, a2⟩ := g2.matrix _ (List.mem_cons_of_mem _ (List.mem_cons_self ..)) _ _ _ _ _ matB_mat
  exact ⟨lines, ts, t, k1, k2, k3, ht, a, a1, a2 1 (by decide) 0 (by decide) 1 (by decide)⟩

end HF.Mdif
