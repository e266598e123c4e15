import Verif.HFArray.Make
/-
C117: making arrays.
-/
namespace HF
namespace Make

variable {β α : Type}

/-! ### Specification -/

/-- The first given one of two. -/
def orElse {γ : Type} : Option γ → γ → γ
  | some x, _ => x
  | none, y => y

/-- The dim that an axis gets if nothing is said. -/
def numbered (env : Env β α) (cls : Cls) (name : String) (n : Nat) (d : Dim β) : Prop :=
  d.cls = cls ∧ d.name = name ∧ d.unit = none ∧ d.data.length = n ∧ ∀ i < n, d.data[i]? = some (env.ofIdx i)

/-- Whole numbers are printed as such, other numbers with 16 digits, everything else as text. -/
def IsFormat (s : Sort_) (f : String) : Prop :=
  (s = .integer ∧ f = "%d") ∨ (s = .number ∧ f = "%.16e") ∨ (s = .other ∧ f = "%s")

/-- The format of a dim: its own, or that for its first datum. -/
def DimFormat (env : Env β α) (d : Dim β) (f : String) : Prop :=
  d.outputformat = some f ∨ (d.outputformat = none ∧ ∃ b t, d.data = b :: t ∧ IsFormat (env.coord b) f)

theorem isFormat_iff (s : Sort_) (f : String) : IsFormat s f ↔ f = fmtOf s := by
  unfold IsFormat
  cases s <;> simp [fmtOf]

theorem dimFmt_of {env : Env β α} {d : Dim β} {f : String} (h : DimFormat env d f) : dimFmt env d = .ok f := by
  unfold dimFmt
  rcases h with h | ⟨h, b, t, hd, hf⟩
  · rw [h]
  · rw [h, hd, (isFormat_iff _ _).1 hf]

/-! ### Theorems -/

theorem core_ok {env : Env β α} {nd : Nd α} {own : Option (List (Dim β) × Option String × String)} {a : Args β} {m : Made β α}
    (h : core env nd own a = .ok m) : m.nd = nd ∧ m.dims.length = nd.ndim := by
  unfold core at h
  split at h
  · cases h
  · simp only at h
    split at h
    · cases h
    · split at h
      · cases h
      · next hl => cases h; exact ⟨rfl, Decidable.not_not.1 hl⟩

/-- C117: an array that is made has one dim for each axis, and the elements of what it is made from. -/
theorem C117_sound (env : Env β α) (data : Data β α) (a : Args β) (m : Made β α) (h : make env data a = .ok m) :
    m.dims.length = m.nd.ndim ∧
    (∀ nd, data = .plain nd → m.nd = nd) ∧ (∀ x, data = .array x → m.nd = x.nd) ∧
    (∀ d, data = .dim d → m.dims = [d] ∧ m.nd.shape = [d.data.length] ∧
      ∀ i b, d.data[i]? = some b → m.nd.get [i] = env.value b) := by
  cases data with
  | plain nd =>
    obtain ⟨h1, h2⟩ := core_ok h
    refine ⟨by rw [h2, h1], ?_, ?_, ?_⟩
    · rintro _ ⟨⟩; exact h1
    · rintro _ ⟨⟩
    · rintro _ ⟨⟩
  | array x =>
    obtain ⟨h1, h2⟩ := core_ok h
    refine ⟨by rw [h2, h1], ?_, ?_, ?_⟩
    · rintro _ ⟨⟩
    · rintro _ ⟨⟩; exact h1
    · rintro _ ⟨⟩
  | dim d =>
    unfold make at h
    simp only at h
    split at h
    · cases h
    · next f hf =>
      obtain ⟨h1, h2⟩ := core_ok h
      refine ⟨by rw [h2, h1], ?_, ?_, ?_⟩
      · intro _ e; cases e
      · intro _ e; cases e
      · intro d' e
        injection e with e
        subst e
        refine ⟨?_, by rw [h1]; rfl, ?_⟩
        · unfold core at h
          cases hn : a.info with
          | some l => simp [hn] at h
          | none =>
            simp [hn, dimNd, Nd.ndim] at h
            rw [← h]
        · intro i b hb
          rw [h1]
          simp [dimNd, hb]

/-- C117: an array made from a dim: its dim, unit and format, unless unit or format are given. -/
theorem C117_dim (env : Env β α) (d : Dim β) (a : Args β) (hi : a.info = none) (f : String) (hd : DimFormat env d f) :
    ∃ m, make env (.dim d) a = .ok m ∧ m.dims = [d] ∧ m.fmt = orElse a.fmt f ∧
      m.unit = (match a.unit with | some u => some u | none => d.unit) := by
  refine ⟨⟨[d], dimNd env d, (match a.unit with | some u => some u | none => d.unit), orElse a.fmt f⟩, ?_, rfl, rfl, rfl⟩
  have hf := dimFmt_of hd
  unfold make core
  cases ha : a.fmt <;> cases hu : a.unit <;> simp [hf, hi, orElse, dimNd, Nd.ndim]

/-- C117: dims that are given for a dim have no effect. -/
theorem C117_ignored_refuted (env : Env β α) (d : Dim β) (a : Args β) (ds : List (Dim β)) :
    make env (.dim d) { a with dims := some ds } = make env (.dim d) { a with dims := none } := rfl

/-- C117: but if they are given as `info` there is a ValueError. -/
theorem C117_info_refuted (env : Env β α) (d : Dim β) (a : Args β) (ds : List (Dim β)) (f : String) (hd : DimFormat env d f) :
    make env (.dim d) { a with info := some ds } = .error .valueError := by
  have hf := dimFmt_of hd
  unfold make core
  cases ha : a.fmt <;> simp [hf]

/-- C117: an empty dim without a format can not be made an array unless a format is given; with one it can. -/
theorem C117_empty_refuted (env : Env β α) (d : Dim β) (hd : d.data = []) (hf : d.outputformat = none) (a : Args β) :
    (a.fmt = none → make env (.dim d) a = .error .indexError) ∧
    ∀ f, make env (.dim { d with outputformat := some f }) {} =
      .ok ⟨[{ d with outputformat := some f }], dimNd env d, d.unit, f⟩ := by
  constructor
  · intro ha
    simp [make, ha, dimFmt, hf, hd]
  · intro f
    simp [make, core, dimFmt, dimNd, Nd.ndim]

/-- C117: from an array everything is taken over that is not given. -/
theorem C117_array (env : Env β α) (m : Made β α) (a : Args β) (hi : a.info = none)
    (hl : (orElse a.dims m.dims).length = m.nd.ndim) :
    make env (.array m) a = .ok ⟨orElse a.dims m.dims, m.nd, (match a.unit with | some u => some u | none => m.unit), orElse a.fmt m.fmt⟩ := by
  unfold make core
  cases hd : a.dims <;> cases ha : a.fmt <;> cases hu : a.unit <;> rw [hd] at hl <;> simp only [orElse] at hl <;>
    simp [hi, orElse, hl]

/-- C117: so an array made from an array without arguments is the same. -/
theorem C117_copy (env : Env β α) (m : Made β α) (h : m.dims.length = m.nd.ndim) : make env (.array m) {} = .ok m :=
  C117_array env m {} rfl h

/-- C117: `info` means the same as `dims`, and both together are a ValueError. -/
theorem C117_both (env : Env β α) (data : Data β α) (hd : ∀ d, data ≠ .dim d) (a : Args β) (ds es : List (Dim β)) :
    make env data { a with info := some ds, dims := none } = make env data { a with dims := some ds, info := none } ∧
    make env data { a with info := some ds, dims := some es } = .error .valueError := by
  cases data with
  | dim d => exact absurd rfl (hd d)
  | plain nd => constructor <;> simp [make, core]
  | array m => constructor <;> simp [make, core]

/-- C117: elements with dims are an array exactly if there are as many dims as axes. -/
theorem C117_given (env : Env β α) (nd : Nd α) (ds : List (Dim β)) (a : Args β) (hi : a.info = none) (hd : a.dims = some ds) :
    (ds.length = nd.ndim → ∃ f, IsFormat (env.elems nd) f ∧ make env (.plain nd) a = .ok ⟨ds, nd, a.unit, orElse a.fmt f⟩) ∧
    (ds.length ≠ nd.ndim → make env (.plain nd) a = .error .shapeDimsMismatch) := by
  constructor
  · intro hl
    refine ⟨_, (isFormat_iff _ _).2 rfl, ?_⟩
    unfold make core
    cases ha : a.fmt <;> cases hu : a.unit <;> simp [hi, hd, hl, orElse]
  · intro hl
    simp [make, core, hi, hd, hl]

/-- C117: it is not checked that dims are as long as the axes. -/
theorem C117_lengths_refuted (env : Env β α) (nd : Nd α) (n : Nat) (hn : nd.shape = [n]) (d : Dim β) (hd : d.data.length ≠ n) :
    ∃ m, make env (.plain nd) { dims := some [d] } = .ok m ∧ m.nd.shape ≠ m.dims.map fun d => d.data.length := by
  obtain ⟨f, -, h⟩ := (C117_given env nd [d] { dims := some [d] } rfl rfl).1 (by simp [Nd.ndim, hn])
  refine ⟨_, h, ?_⟩
  simp only [hn, List.map_cons, List.map_nil]
  intro h
  injection h with h _
  exact hd h.symm

/-- C117: without dims, one axis is `freq` and two are `freq` and `rep`, numbered; more are an error. -/
theorem C117_default (env : Env β α) (nd : Nd α) (a : Args β) (hi : a.info = none) (hd : a.dims = none) :
    (nd.shape = [] → ∃ m, make env (.plain nd) a = .ok m ∧ m.dims = []) ∧
    (∀ n, nd.shape = [n] → ∃ m d, make env (.plain nd) a = .ok m ∧ m.dims = [d] ∧ numbered env .dimSweep "freq" n d) ∧
    (∀ n k, nd.shape = [n, k] → ∃ m d e, make env (.plain nd) a = .ok m ∧ m.dims = [d, e] ∧
      numbered env .dimSweep "freq" n d ∧ numbered env .dimRep "rep" k e) ∧
    (2 < nd.shape.length → make env (.plain nd) a = .error .dimensionMismatch) := by
  have num : ∀ (c : Cls) (s : String) (n : Nat),
      numbered env c s n ⟨c, s, (List.range n).map env.ofIdx, none, none⟩ := by
    intro c s n
    refine ⟨rfl, rfl, rfl, by simp, fun i hi => ?_⟩
    simp [hi]
  refine ⟨?_, ?_, ?_, ?_⟩
  · intro h
    simp [make, core, hi, hd, h, defaultDims, Nd.ndim]
  · intro n h
    refine ⟨⟨_, nd, a.unit, orElse a.fmt (fmtOf (env.elems nd))⟩, _, ?_, rfl, num _ _ n⟩
    unfold make core
    cases ha : a.fmt <;> cases hu : a.unit <;> simp [hi, hd, h, defaultDims, Nd.ndim, orElse]
  · intro n k h
    refine ⟨⟨_, nd, a.unit, orElse a.fmt (fmtOf (env.elems nd))⟩, _, _, ?_, rfl, num _ _ n, num _ _ k⟩
    unfold make core
    cases ha : a.fmt <;> cases hu : a.unit <;> simp [hi, hd, h, defaultDims, Nd.ndim, orElse]
  · intro h
    obtain ⟨s, g⟩ := nd
    match s, h with
    | x :: y :: z :: t, _ => simp [make, core, hi, hd, defaultDims]

/-! ### Concrete cases -/

def env : Env Nat Nat := ⟨fun _ => .integer, fun _ => .integer, id, id⟩

def sweep : Dim Nat := ⟨.dimSweep, "x", [10, 20], some "m", none⟩

/-- `hfarray(sweep)` has unit and format of the sweep; `sweep` meets the hypothesis of `C117_dim`. -/
example : ∃ m, make env (.dim sweep) {} = .ok m ∧ m.dims = [sweep] ∧ m.fmt = "%d" ∧ m.unit = some "m" :=
  C117_dim env sweep {} rfl "%d" (.inr ⟨rfl, 10, [20], rfl, .inl ⟨rfl, rfl⟩⟩)

/-- Three elements with a dim of two coordinates. -/
example : ∃ m, make env (.plain ⟨[3], fun i => i.headD 0⟩) { dims := some [sweep] } = .ok m ∧
    m.nd.shape ≠ m.dims.map fun d => d.data.length :=
  C117_lengths_refuted env ⟨[3], fun i => i.headD 0⟩ 3 rfl sweep (by decide)

/-- An array with two axes made without dims. -/
example : ∃ m d e, make env (.plain ⟨[2, 3], fun i => i.headD 0⟩) {} = .ok m ∧ m.dims = [d, e] ∧
    numbered env .dimSweep "freq" 2 d ∧ numbered env .dimRep "rep" 3 e :=
  (C117_default env ⟨[2, 3], fun i => i.headD 0⟩ {} rfl rfl).2.2.1 2 3 rfl

/-- An empty dim. -/
example : make env (.dim { sweep with data := [] }) {} = .error .indexError :=
  (C117_empty_refuted env { sweep with data := [] } rfl rfl {}).1 rfl

end Make
end HF
