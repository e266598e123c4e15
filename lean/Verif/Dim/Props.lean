import Verif.Dim.Model
/-
C05: equality, hash and order of dimension objects.
-/
namespace HF.Dim

variable {β : Type} [DecidableEq β]

theorem eqDim_iff (a b : Dim β) :
    eqDim a b = true ↔ a.cls = b.cls ∧ a.name = b.name ∧ a.data = b.data ∧ a.unit = b.unit := by
  simp only [eqDim, decide_eq_true_eq, Prod.mk.injEq, sortprio, and_true]
  constructor
  · rintro ⟨_, h2, h3, h4, h5⟩; exact ⟨h3, h2, h4, h5⟩
  · rintro ⟨h1, h2, h3, h4⟩; exact ⟨by rw [h1], h2, h1, h3, h4⟩

/-- C05.  Two dimensions compare equal exactly if class, name, values and unit agree;
the output format never matters. -/
theorem C05_eq_characterisation (a b : Dim β) :
    pyEq (.dim a) (.dim b) = true ↔
      a.cls = b.cls ∧ a.name = b.name ∧ a.data = b.data ∧ a.unit = b.unit := eqDim_iff a b

/-- C05.  Equality between dimensions is an equivalence relation. -/
theorem C05_eq_equivalence :
    (∀ a : Dim β, pyEq (.dim a) (.dim a) = true) ∧
    (∀ a b : Dim β, pyEq (.dim a) (.dim b) = pyEq (.dim b) (.dim a)) ∧
    (∀ a b c : Dim β, pyEq (.dim a) (.dim b) = true → pyEq (.dim b) (.dim c) = true →
      pyEq (.dim a) (.dim c) = true) := by
  refine ⟨fun a => (eqDim_iff a a).2 ⟨rfl, rfl, rfl, rfl⟩, ?_, ?_⟩
  · intro a b
    rw [Bool.eq_iff_iff]
    show eqDim a b = true ↔ eqDim b a = true
    rw [eqDim_iff, eqDim_iff]
    constructor <;> rintro ⟨h1, h2, h3, h4⟩ <;> exact ⟨h1.symm, h2.symm, h3.symm, h4.symm⟩
  · intro a b c h1 h2
    have h1 := (eqDim_iff a b).1 h1
    have h2 := (eqDim_iff b c).1 h2
    exact (eqDim_iff a c).2 ⟨h1.1.trans h2.1, h1.2.1.trans h2.2.1, h1.2.2.1.trans h2.2.2.1,
      h1.2.2.2.trans h2.2.2.2⟩

example : pyEq (.dim ⟨.dimSweep, "f", [1, 2], some "Hz", some "%d"⟩ : Obj Nat)
    (.dim ⟨.dimSweep, "f", [1, 2], some "Hz", none⟩) = true := by decide

/-- C05.  Strings equal a dimension by its name, symmetrically.  This makes equality
non-transitive as soon as strings take part. -/
theorem C05_string_equality_not_transitive (x y : β) (hxy : x ≠ y) (n : String) :
    ∃ a b : Dim β, pyEq (.dim a) (.str n) = true ∧ pyEq (.str n) (.dim b) = true ∧
      pyEq (.dim a) (.dim b) = false := by
  refine ⟨⟨.dimSweep, n, [x], none, none⟩, ⟨.dimSweep, n, [y], none, none⟩, ?_, ?_, ?_⟩
  · simp [pyEq]
  · simp [pyEq]
  · rw [← Bool.not_eq_true]
    show ¬ eqDim _ _ = true
    rw [eqDim_iff]; simp [hxy]

/-- C05: equal dimensions have equal hashes *if* their output formats agree,
for every hash function of tuples.  Without the hypothesis the contract fails,
see `C05_hash_contract_refuted`. -/
theorem C05_hash_contract {γ : Type}
    (H : Nat × String × Cls × List β × Option String × Option String → γ)
    (a b : Dim β) (h : pyEq (.dim a) (.dim b) = true) (hf : a.outputformat = b.outputformat) :
    hash H a = hash H b := by
  have h := (eqDim_iff a b).1 h
  simp only [hash, sortprio, h.1, h.2.1, h.2.2.1, h.2.2.2, hf]

/-- C05.  Exact form of the contract: with a collision free hash, equal dimensions have
equal hashes exactly if their output formats agree.  So *every* pair of equal dimensions
with different output formats violates the contract. -/
theorem C05_hash_contract_iff {γ : Type}
    (H : Nat × String × Cls × List β × Option String × Option String → γ)
    (hH : Function.Injective H) (a b : Dim β) (h : pyEq (.dim a) (.dim b) = true) :
    hash H a = hash H b ↔ a.outputformat = b.outputformat := by
  constructor
  · intro e
    have := hH e
    simp only [Prod.mk.injEq] at this
    exact this.2.2.2.2.2
  · exact C05_hash_contract H a b h

/-- C05.  Any hash function that distinguishes output formats at all breaks the contract. -/
theorem C05_hash_contract_refuted {γ : Type}
    (H : Nat × String × Cls × List β × Option String × Option String → γ)
    (n : String) (d : List β) (f g : Option String)
    (hfg : H (0, n, .dimSweep, d, none, f) ≠ H (0, n, .dimSweep, d, none, g)) :
    ∃ a b : Dim β, pyEq (.dim a) (.dim b) = true ∧ hash H a ≠ hash H b :=
  ⟨⟨.dimSweep, n, d, none, f⟩, ⟨.dimSweep, n, d, none, g⟩, (eqDim_iff _ _).2 ⟨rfl, rfl, rfl, rfl⟩,
    hfg⟩

example : ∃ H : Nat × String × Cls × List Nat × Option String × Option String → Option String,
    H (0, "f", .dimSweep, [], none, some "%d") ≠ H (0, "f", .dimSweep, [], none, none) :=
  ⟨fun t => t.2.2.2.2.2, by decide⟩

/-- C05.  `<` is irreflexive and asymmetric where it is defined, and it raises
`TypeError` exactly when neither the priority nor the name decide and the classes differ,
or everything but the units agree and exactly one unit is `None`. -/
theorem C05_lt_defined (ltData : List β → List β → Bool) (a b : Dim β) :
    lt ltData a b = none ↔ a.sortprio = b.sortprio ∧ a.name = b.name ∧
      (a.cls ≠ b.cls ∨ (a.data = b.data ∧ a.unit.isSome ≠ b.unit.isSome)) := by
  unfold lt
  by_cases h1 : a.sortprio = b.sortprio
  · by_cases h2 : a.name = b.name
    · by_cases h3 : a.cls = b.cls
      · by_cases h4 : a.data = b.data
        · cases ha : a.unit <;> cases hb : b.unit <;> simp [h1, h2, h3, h4]
          split <;> simp
        · simp [h1, h2, h3, h4]
      · simp [h1, h2, h3]
    · simp [h1, h2]
  · simp [h1]

theorem C05_lt_irrefl (ltData : List β → List β → Bool) (a : Dim β) :
    lt ltData a a = some false := by simp [lt]

theorem C05_lt_asymm (ltData : List β → List β → Bool)
    (hd : ∀ x y, ltData x y = true → ltData y x = false) (a b : Dim β)
    (h : lt ltData a b = some true) : lt ltData b a = some false := by
  unfold lt at h ⊢
  by_cases h1 : a.sortprio = b.sortprio
  · by_cases h2 : a.name = b.name
    · by_cases h3 : a.cls = b.cls
      · by_cases h4 : a.data = b.data
        · cases ha : a.unit <;> cases hb : b.unit <;>
            simp_all [String.not_lt]
          rename_i u v
          by_cases e : u = v
          · simp [e] at h
          · simp [e, Ne.symm e] at h ⊢; exact Std.le_of_not_ge fun q => q h
        · simp [h1, h2, h3, h4, Ne.symm h4] at h ⊢; exact hd _ _ h
      · simp [h1, h2, h3] at h
    · simp [h1, h2, Ne.symm h2] at h ⊢; exact Std.le_of_not_ge fun q => q h
  · simp [h1, Ne.symm h1] at h ⊢; omega

/-- C05.  Matching two dimensions in array operations asks for equal names and
`isinstance` of the other's class; this relation is reflexive and transitive but not
symmetric. -/
theorem C05_isSub_preorder :
    (∀ c : Cls, c.isSub c = true) ∧
    (∀ c d e : Cls, c.isSub d = true → d.isSub e = true → c.isSub e = true) ∧
    (∀ c d : Cls, c.isSub d = true → d.isSub c = true → c = d) := by
  refine ⟨?_, ?_, ?_⟩
  · intro c; unfold Cls.isSub; simp
  · intro c d e
    revert c d e
    have : ∀ c d e : Cls, (c.isSub d = true → d.isSub e = true → c.isSub e = true) := by
      intro c
      cases c <;> intro d <;> cases d <;> intro e <;> cases e <;> decide +kernel
    exact this
  · intro c d
    cases c <;> cases d <;> decide +kernel

/-- C05.  Going to the independent axis and back to the diagonal axis restores the class
exactly for the two plain diagonal classes; sweeps, repetitions and matrix dimensions
come back as something else or fail. -/
theorem C05_indep_diag_roundtrip (c : Cls) :
    (c.indepAxisOf.bind Cls.diagAxisOf = some c) ↔ (c = .diagAxis ∨ c = .complexDiag) := by
  cases c <;> decide +kernel

/-- C05.  The same for the derivative axis. -/
theorem C05_deriv_diag_roundtrip (c : Cls) :
    (c.derivAxisOf.bind Cls.diagAxisOf = some c) ↔ (c = .diagAxis ∨ c = .complexDiag) := by
  cases c <;> decide +kernel

/-- C05.  Going from an independent axis to the derivative axis and back, and the other way
round, restores the class exactly for the classes of independent (derivative) axes. -/
theorem C05_indep_deriv_roundtrip (c : Cls) :
    ((c.derivAxisOf.bind Cls.indepAxisOf = some c) ↔
      c ∈ [Cls.indepAxis, .complexIndep, .matIndepI, .matIndepJ]) ∧
    ((c.indepAxisOf.bind Cls.derivAxisOf = some c) ↔
      c ∈ [Cls.derivAxis, .complexDeriv, .matDerivI, .matDerivJ]) := by
  cases c <;> decide +kernel

/-- C05.  From an independent axis and from its derivative axis one comes to the same
diagonal axis. -/
theorem C05_diag_of_both (c i d : Cls) (hi : c.indepAxisOf = some i)
    (hd : c.derivAxisOf = some d) (hm : c.isSub .dimMatrix_ = false) :
    i.diagAxisOf = d.diagAxisOf ∧ i.diagAxisOf.isSome = true ∧ i.derivAxisOf = some d ∧
      d.indepAxisOf = some i := by
  cases c <;> simp only [Cls.indepAxisOf, Cls.derivAxisOf] at hi hd <;>
    first
      | (exact absurd hm (by decide +kernel))
      | (rw [if_neg (by decide +kernel)] at hi; simp at hi)
      | (rw [if_neg (by decide +kernel)] at hd; simp at hd)
      | (rw [if_pos (by decide +kernel)] at hi hd
         simp only [Cls.indepAttr, Cls.derivAttr, Option.some.injEq, reduceCtorEq] at hi hd
         subst hi; subst hd
         decide +kernel)
      | (rw [if_pos (by decide +kernel)] at hi
         simp only [Cls.indepAttr, reduceCtorEq] at hi)

example : Cls.dimSweep.indepAxisOf = some .indepAxis ∧ Cls.dimSweep.derivAxisOf = some .derivAxis ∧
    Cls.dimSweep.isSub .dimMatrix_ = false := by decide +kernel

end HF.Dim
