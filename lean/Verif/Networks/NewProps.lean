import Verif.Networks.New
import Verif.HFArray.MakeProps
/-
C121: arrays of network parameters made from numbers.
-/
namespace HF
namespace New
open Make

variable {β α : Type}

theorem numbered_range (env : Env β α) (c : Cls) (s : String) (n : Nat) :
    numbered env c s n ⟨c, s, (List.range n).map env.ofIdx, none, none⟩ :=
  ⟨rfl, rfl, rfl, by simp, fun i hi => by simp [hi]⟩

/-- C121: an array of numpy with two, three or four axes has rows `i` and columns `j` as its last two axes, before them
`freq`, or `freq` and `rep`, all numbered, and it is a matrix with the elements of the array of numpy; with fewer or more
axes an exception is raised. -/
theorem C121_default (env : Env β α) (nd : Nd α) (a : Args β) (hi : a.info = none) (hd : a.dims = none) :
    (∀ p q, nd.shape = [p, q] → ∃ m di dj, new env nd none a = .ok m ∧ m.dims = [di, dj] ∧ m.nd = nd ∧ isMatrix m = true ∧
      numbered env .matI "i" p di ∧ numbered env .matJ "j" q dj) ∧
    (∀ n p q, nd.shape = [n, p, q] → ∃ m d di dj, new env nd none a = .ok m ∧ m.dims = [d, di, dj] ∧ m.nd = nd ∧
      isMatrix m = true ∧ numbered env .dimSweep "freq" n d ∧ numbered env .matI "i" p di ∧ numbered env .matJ "j" q dj) ∧
    (∀ n k p q, nd.shape = [n, k, p, q] → ∃ m d e di dj, new env nd none a = .ok m ∧ m.dims = [d, e, di, dj] ∧ m.nd = nd ∧
      isMatrix m = true ∧ numbered env .dimSweep "freq" n d ∧ numbered env .dimRep "rep" k e ∧ numbered env .matI "i" p di ∧
      numbered env .matJ "j" q dj) ∧
    (nd.shape.length < 2 → new env nd none a = .error .indexError) ∧
    (4 < nd.shape.length → new env nd none a = .error .dimensionMismatch) := by
  have hI : Cls.isSub .matI .matI = true := by decide +kernel
  have hJ : Cls.isSub .matJ .matJ = true := by decide +kernel
  refine ⟨?_, ?_, ?_, ?_, ?_⟩
  · intro p q h
    refine ⟨_, _, _, by simp [new, core, hi, hd, h, outerDims, Nd.ndim]; rfl, rfl, rfl, ?_, numbered_range .., numbered_range ..⟩
    simp [isMatrix, Dim.isa, hI, hJ]
  · intro n p q h
    refine ⟨_, _, _, _, by simp [new, core, hi, hd, h, outerDims, Nd.ndim]; rfl, rfl, rfl, ?_, numbered_range ..,
      numbered_range .., numbered_range ..⟩
    simp [isMatrix, Dim.isa, hI, hJ]
  · intro n k p q h
    refine ⟨_, _, _, _, _, by simp [new, core, hi, hd, h, outerDims, Nd.ndim]; rfl, rfl, rfl, ?_, numbered_range ..,
      numbered_range .., numbered_range .., numbered_range ..⟩
    simp [isMatrix, Dim.isa, hI, hJ]
  · intro h
    rcases hs : nd.shape with _ | ⟨x, _ | ⟨y, t⟩⟩
    · simp [new, hi, hd, hs]
    · simp [new, hi, hd, hs]
    · rw [hs] at h; simp at h; try omega
  · intro h
    have h4 : ¬ nd.shape.length ≤ 4 := by omega
    rcases hs : nd.shape with _ | ⟨x, _ | ⟨y, _ | ⟨z, t⟩⟩⟩
    · rw [hs] at h; simp at h; try omega
    · rw [hs] at h; simp at h; try omega
    · rw [hs] at h; simp at h; try omega
    · rw [hs] at h4
      simp only [new, hi, hd, hs, if_neg h4]
      simp [core, hs, defaultDims]

/-- C121: with dims, given or those of an array, these are taken, one for each axis or else an exception is raised; the unit
is the one given or that of the array. -/
theorem C121_dims (env : Env β α) (nd : Nd α) (own : Option (List (Dim β) × Option String × String)) (ds : List (Dim β))
    (a : Args β) (hi : a.info = none) (hd : a.dims = some ds ∨ (a.dims = none ∧ ∃ u f, own = some (ds, u, f))) :
    (ds.length = nd.shape.length → ∃ m, new env nd own a = .ok m ∧ m.dims = ds ∧ m.nd = nd ∧
      (∀ u, a.unit = some u → m.unit = some u) ∧ (a.unit = none → m.unit = own.bind fun o => o.2.1)) ∧
    (ds.length ≠ nd.shape.length → new env nd own a = .error .shapeDimsMismatch) := by
  have h1 : new env nd own a = core env nd own { a with dims := some ds, info := none } := by
    rcases hd with hd | ⟨hd, u, f, rfl⟩
    · simp [new, hi, hd]
    · simp [new, hi, hd]
  rw [h1]
  constructor
  · intro hl
    rcases own with _ | ⟨o1, o2, o3⟩ <;> cases hu : a.unit <;> cases hf : a.fmt <;> simp [core, hl, Nd.ndim]
  · intro hl
    simp [core, hl, Nd.ndim]

/-- C121: so numbers that are in an array with sweeps as dims do not become a matrix, although the same numbers as an array
of numpy do, and matrices that are not square are accepted. -/
theorem C121_sweeps_refuted (env : Env β α) (nd : Nd α) (p q : Nat) (h : nd.shape = [p, q]) (d e : Dim β)
    (he : e.isa .matJ = false) (u : Option String) (f : String) :
    (∃ m, new env nd (some ([d, e], u, f)) {} = .ok m ∧ isMatrix m = false) ∧
    ∃ m, new env nd none {} = .ok m ∧ isMatrix m = true := by
  constructor
  · obtain ⟨m, h1, h2, _⟩ := (C121_dims env nd (some ([d, e], u, f)) [d, e] {} rfl (Or.inr ⟨rfl, u, f, rfl⟩)).1 (by rw [h]; rfl)
    exact ⟨m, h1, by simp [isMatrix, h2, he]⟩
  · obtain ⟨m, _, _, h1, _, _, h2, _⟩ := (C121_default env nd {} rfl rfl).1 p q h
    exact ⟨m, h1, h2⟩

/-- C121: dims and info together are refused. -/
theorem C121_both (env : Env β α) (nd : Nd α) (own : Option (List (Dim β) × Option String × String)) (a : Args β)
    (hi : a.info.isSome = true) (hd : a.dims.isSome = true) : new env nd own a = .error .valueError := by
  simp [new, hi, hd]

/-! ### Concrete cases -/

def envN : Env Nat Nat := ⟨fun _ => .integer, fun _ => .integer, id, id⟩

/-- Three frequencies of two-ports. -/
def three : Nd Nat := ⟨[3, 2, 2], fun i => i.sum⟩

example : ∃ m d di dj, new envN three none {} = .ok m ∧ m.dims = [d, di, dj] ∧ numbered envN .dimSweep "freq" 3 d := by
  obtain ⟨m, d, di, dj, h1, h2, _, _, h3, _⟩ := (C121_default envN three {} rfl rfl).2.1 3 2 2 rfl
  exact ⟨m, d, di, dj, h1, h2, h3⟩

/-- An array over `freq` and `rep` is no matrix. -/
example : ∃ m, new envN ⟨[2, 2], fun _ => 0⟩ (some ([⟨.dimSweep, "freq", [0, 1], none, none⟩, ⟨.dimRep, "rep", [0, 1], none, none⟩],
    none, "%d")) {} = .ok m ∧ isMatrix m = false :=
  (C121_sweeps_refuted envN ⟨[2, 2], fun _ => 0⟩ 2 2 rfl _ _ (by decide +kernel) none "%d").1

end New
end HF
