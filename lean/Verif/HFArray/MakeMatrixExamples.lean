import Verif.HFArray.SwitchProps
import Mathlib.Algebra.Field.Rat
import Mathlib.Tactic.NormNum
/-
C74, C75: concrete arrays, and what `make_matrix` does with numbers which the dtype of the first
array cannot hold.
-/
namespace HF.Arr.MakeEx

def dF (n : Nat) : Dim Nat := ⟨.dimSweep, "freq", List.range n, none, none⟩
def dP (n : Nat) : Dim Nat := ⟨.dimSweep, "power", List.range n, none, none⟩
def dR (n : Nat) : Dim Nat := ⟨.dimRep, "rep", List.range n, none, none⟩

/-- Over two frequencies. -/
def exA : Arr Nat ℚ := ⟨[dF 2], ⟨[2], fun | [0] => 1 | [1] => 2 | _ => 0⟩⟩
/-- Over three powers and two frequencies. -/
def exB : Arr Nat ℚ := ⟨[dP 3, dF 2], ⟨[3, 2], fun l => l.getD 0 0 + 10 * l.getD 1 0⟩⟩
/-- A number. -/
def exC : Arr Nat ℚ := ⟨[], ⟨[], fun _ => 5⟩⟩
/-- Over two repetitions. -/
def exD : Arr Nat ℚ := ⟨[dR 2], ⟨[2], fun | [0] => 7 | [1] => 8 | _ => 0⟩⟩

/-- Another number. -/
def exE : Arr Nat ℚ := ⟨[], ⟨[], fun _ => 1⟩⟩

theorem ex_len8 : LenOk [exA, exB, exC, exD, exC, exA, exE, exC] := by
  have h : ∀ x ∈ [exA, exB, exC, exD, exC, exA, exE, exC], ∀ k s, x.axisLen k = some s →
      s = (if k.1 = "power" then 3 else 2) := by
    intro x hx k s hk
    unfold axisLen at hk
    obtain ⟨p, hp, rfl⟩ := Option.map_eq_some_iff.1 hk
    have h1 := List.find?_some hp
    have h2 := List.mem_of_find?_eq_some hp
    simp only [decide_eq_true_eq] at h1
    subst h1
    simp only [List.mem_cons, List.not_mem_nil, or_false] at hx
    rcases hx with rfl | rfl | rfl | rfl | rfl | rfl | rfl | rfl <;>
      simp [exA, exB, exC, exD, exE] at h2
    · subst h2; rfl
    · rcases h2 with rfl | rfl <;> rfl
    · subst h2; rfl
    · subst h2; rfl
  refine ⟨fun x hx y hy k s t h1 h2 => Or.inl ((h x hx k s h1).trans (h y hy k t h2).symm), ?_⟩
  intro x hx k hk
  have := h x hx k 0 hk
  split at this <;> cases this

theorem ex_len : LenOk [exA, exB, exC, exD] := by
  have s : ∀ z ∈ [exA, exB, exC, exD], z ∈ [exA, exB, exC, exD, exC, exA, exE, exC] := by
    intro z hz; simp only [List.mem_cons, List.not_mem_nil, or_false] at hz ⊢; tauto
  exact ⟨fun x hx y hy => ex_len8.1 x (s x hx) y (s y hy), fun x hx => ex_len8.2 x (s x hx)⟩

/-- The hypotheses of C74 hold for arrays over different sweeps. -/
example : Mates [exA, exB, exC, exD] ∧ LenOk [exA, exB, exC, exD] := by
  refine ⟨⟨?_, ?_, ?_, ?_, ?_⟩, ex_len⟩
  · intro x hx
    simp only [List.mem_cons, List.not_mem_nil, or_false] at hx
    rcases hx with rfl | rfl | rfl | rfl <;> rfl
  · intro x hx
    simp only [List.mem_cons, List.not_mem_nil, or_false] at hx
    rcases hx with rfl | rfl | rfl | rfl <;> unfold Distinct <;> decide +kernel
  · unfold NoSub; decide +kernel
  · decide +kernel
  · decide +kernel

structure Seen where
  names : List String
  shape : List Nat
  elems : List ℚ
  deriving DecidableEq

def seen : Except Err (Arr Nat ℚ) → Option Seen
  | .ok r => some ⟨r.dims.map Dim.name, r.nd.shape, (Nd.allIdx r.nd.shape).map r.nd.get⟩
  | .error _ => none

example : ((seen (makeMatrix id id id exA exB exC exD)).map fun s => (s.names, s.shape, s.elems.take 12)) =
    some (["freq", "power", "rep", "i", "j"], [2, 3, 2, 2, 2], [1, 0, 5, 7, 1, 0, 5, 8, 1, 1, 5, 7]) := by
  decide +kernel

/-- C74: what is stored is the number as the dtype of the *first* array has it.  With integers in
`a` (here `cast` rounds down), one half becomes zero. -/
theorem C74_dtype_refuted : ∃ a b c d : Arr Nat ℚ,
    Mates [a, b, c, d] ∧ LenOk [a, b, c, d] ∧
      seen (makeMatrix id (fun q => (q.floor : ℚ)) id a b c d) = some ⟨["i", "j"], [2, 2], [1, 0, 0, 1]⟩ ∧
      b.atB (fun _ => 0) = 1 / 2 := by
  refine ⟨⟨[], ⟨[], fun _ => 1⟩⟩, ⟨[], ⟨[], fun _ => 1 / 2⟩⟩, ⟨[], ⟨[], fun _ => 1 / 2⟩⟩, ⟨[], ⟨[], fun _ => 1⟩⟩, ?_, ?_, ?_, rfl⟩
  · refine ⟨?_, ?_, ?_, rfl, ?_⟩
    · intro x hx
      simp only [List.mem_cons, List.not_mem_nil, or_false] at hx
      rcases hx with rfl | rfl | rfl | rfl <;> rfl
    · intro x hx
      simp only [List.mem_cons, List.not_mem_nil, or_false] at hx
      rcases hx with rfl | rfl | rfl | rfl <;> exact List.nodup_nil
    · intro d hd; simp at hd
    · intro d hd; simp at hd
  · refine ⟨?_, ?_⟩
    · intro x hx y hy k s t h
      simp only [List.mem_cons, List.not_mem_nil, or_false] at hx
      rcases hx with rfl | rfl | rfl | rfl <;> cases h
    · intro x hx k h
      simp only [List.mem_cons, List.not_mem_nil, or_false] at hx
      rcases hx with rfl | rfl | rfl | rfl <;> cases h
  · decide +kernel

/-- C74: a sweep without points is an error as soon as one of the other arrays does not have it;
a binary operator gives an array without elements. -/
theorem C74_empty_refuted : ∃ a b c d : Arr Nat ℚ, Mates [a, b, c, d] ∧
    (makeMatrix id id id a b c d).toOption.isNone = true ∧
    (binop id (· + ·) a b).toOption.map (fun r => r.nd.shape) = some [0] := by
  refine ⟨⟨[dF 0], ⟨[0], fun _ => 1⟩⟩, exC, exC, exC, ⟨?_, ?_, ?_, ?_, ?_⟩, by decide +kernel, by decide +kernel⟩
  · intro x hx
    simp only [List.mem_cons, List.not_mem_nil, or_false] at hx
    rcases hx with rfl | rfl | rfl | rfl <;> rfl
  · intro x hx
    simp only [List.mem_cons, List.not_mem_nil, or_false] at hx
    rcases hx with rfl | rfl | rfl | rfl <;> unfold Distinct <;> decide +kernel
  · unfold NoSub; decide +kernel
  · decide +kernel
  · decide +kernel

/-- The hypotheses of C75 hold: incident waves 5 and 1, then 1 or 2 (depending on frequency) and
5; reflected waves over powers, frequencies and repetitions. -/
example : (∀ x ∈ [exA, exB, exC, exD, exC, exA, exE, exC], x.WF) ∧
    (∀ x ∈ [exA, exB, exC, exD, exC, exA, exE, exC], Distinct x.dims) ∧
    NoSub ([exA, exB, exC, exD, exC, exA, exE, exC].map Arr.dims).flatten ∧
    (∀ e ∈ ([exA, exB, exC, exD, exC, exA, exE, exC].map Arr.dims).flatten,
      e.isa .dimSweep = true ∨ e.isa .dimRep = true) ∧
    LenOk [exA, exB, exC, exD, exC, exA, exE, exC] ∧
    ∀ x, exC.atB x * exC.atB x - exA.atB x * exE.atB x ≠ 0 := by
  refine ⟨?_, ?_, ?_, by decide +kernel, ex_len8, ?_⟩
  · intro x hx
    simp only [List.mem_cons, List.not_mem_nil, or_false] at hx
    rcases hx with rfl | rfl | rfl | rfl | rfl | rfl | rfl | rfl <;> rfl
  · intro x hx
    simp only [List.mem_cons, List.not_mem_nil, or_false] at hx
    rcases hx with rfl | rfl | rfl | rfl | rfl | rfl | rfl | rfl <;> unfold Distinct <;> decide +kernel
  · unfold NoSub; decide +kernel
  intro x
  have h1 : exC.atB x = 5 := rfl
  have h2 : exE.atB x = 1 := rfl
  have h3 : exA.atB x = 1 ∨ exA.atB x = 2 ∨ exA.atB x = 0 := by
    show exA.nd.get [if 2 = 1 then 0 else x (dF 2).key] = 1 ∨ exA.nd.get [if 2 = 1 then 0 else x (dF 2).key] = 2 ∨
      exA.nd.get [if 2 = 1 then 0 else x (dF 2).key] = 0
    generalize (if 2 = 1 then 0 else x (dF 2).key) = n
    match n with
    | 0 => left; rfl
    | 1 => right; left; rfl
    | n + 2 => right; right; rfl
  rw [h1, h2]
  rcases h3 with e | e | e <;> rw [e] <;> norm_num

end HF.Arr.MakeEx
