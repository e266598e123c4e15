import Mathlib.Tactic.Linarith
import Mathlib.Algebra.Order.Group.Int
import Mathlib.Algebra.Order.Ring.Int
import Verif.HFArray.Index
import Verif.HFArray.ReduceProps
/-
Lemmas for C09: indexing keeps dims and data in step.
-/
namespace HF

namespace Slice

theorem count_bound {a s : Int} {i : Nat} (hs : 0 < s) (h : i < (a / s + 1).toNat) (ha : 0 ≤ a) :
    (i : Int) * s ≤ a := by
  have h1 : (i : Int) ≤ a / s := by
    have : 0 ≤ a / s := Int.ediv_nonneg ha hs.le
    omega
  calc (i : Int) * s ≤ a / s * s := by nlinarith
    _ ≤ a := Int.ediv_mul_le a hs.ne'

theorem clip_bounds (n : Nat) (v : Int) :
    (0 ≤ clip n false v ∧ clip n false v ≤ n) ∧
    (-1 ≤ clip n true v ∧ clip n true v ≤ (n : Int) - 1) := by
  unfold clip
  simp only [if_true, Bool.false_eq_true, if_false]
  split <;> omega

theorem startOf_bounds (s : Slice) (n : Nat) :
    (0 ≤ s.startOf n false ∧ s.startOf n false ≤ n) ∧
    (-1 ≤ s.startOf n true ∧ s.startOf n true ≤ (n : Int) - 1) := by
  unfold startOf
  cases s.start with
  | none => simp
  | some v => exact clip_bounds n v

theorem stopOf_bounds (s : Slice) (n : Nat) :
    (0 ≤ s.stopOf n false ∧ s.stopOf n false ≤ n) ∧
    (-1 ≤ s.stopOf n true ∧ s.stopOf n true ≤ (n : Int) - 1) := by
  unfold stopOf
  cases s.stop with
  | none => simp
  | some v => exact clip_bounds n v

theorem position_bounds (s : Slice) (n : Nat) (h0 : s.step.getD 1 ≠ 0) {i : Nat}
    (hi : i < countOf (s.startOf n (decide (s.step.getD 1 < 0)))
      (s.stopOf n (decide (s.step.getD 1 < 0))) (s.step.getD 1)) :
    0 ≤ s.startOf n (decide (s.step.getD 1 < 0)) + (i : Int) * s.step.getD 1 ∧
    s.startOf n (decide (s.step.getD 1 < 0)) + (i : Int) * s.step.getD 1 < n := by
  obtain ⟨a1, a2⟩ := startOf_bounds s n
  obtain ⟨b1, b2⟩ := stopOf_bounds s n
  generalize s.step.getD 1 = t at *
  unfold countOf at hi
  by_cases hneg : t < 0
  · simp only [hneg, if_true, decide_true] at hi ⊢
    split at hi
    · have hb := count_bound (s := -t) (by omega) hi (by omega)
      have hmul : (i : Int) * t = -((i : Int) * -t) := by simp
      have hi0 : 0 ≤ (i : Int) * -t := Int.mul_nonneg (by omega) (by omega)
      omega
    · omega
  · simp only [hneg, if_false, decide_false] at hi ⊢
    split at hi
    · have hb := count_bound (s := t) (by omega) hi (by omega)
      have hi0 : 0 ≤ (i : Int) * t := Int.mul_nonneg (by omega) (by omega)
      omega
    · omega

/-- A slice never selects a position outside of the sequence. -/
theorem indices_lt {s : Slice} {n : Nat} {l : List Nat} (h : s.indices n = some l) :
    ∀ k ∈ l, k < n := by
  unfold indices at h
  simp only at h
  split at h
  · cases h
  rename_i hstep
  simp only [Option.some.injEq] at h
  subst h
  intro k hk
  obtain ⟨i, hi, rfl⟩ := List.mem_map.1 hk
  have := position_bounds s n hstep (List.mem_range.1 hi)
  omega

theorem indices_full (n : Nat) : full.indices n = some (List.range n) := by
  have h2 : ¬ (1 : Int) < 0 := by omega
  have hc : countOf (full.startOf n false) (full.stopOf n false) 1 = n := by
    simp only [countOf, startOf, stopOf, full, h2, if_false, Bool.false_eq_true]
    split
    · have : ((n : Int) - 0 - 1) / 1 + 1 = n := by rw [Int.ediv_one]; omega
      rw [this]; rfl
    · omega
  have hd : decide ((1 : Int) < 0) = false := by simp
  simp only [indices]
  have e : full.step.getD 1 = 1 := rfl
  rw [e, if_neg (by omega), hd, hc]
  congr 1
  conv_rhs => rw [← List.map_id (List.range n)]
  apply List.map_congr_left
  intro i _
  simp [startOf, full]

/-- Successive positions differ by the step. -/
theorem indices_step {s : Slice} {n : Nat} {l : List Nat} (h : s.indices n = some l) (i : Nat)
    (hi : i + 1 < l.length) : ((l[i + 1] : Nat) : Int) = (l[i] : Nat) + s.step.getD 1 := by
  unfold indices at h
  simp only at h
  split at h
  · cases h
  rename_i hstep
  simp only [Option.some.injEq] at h
  subst h
  have hc : i + 1 < countOf (s.startOf n (decide (s.step.getD 1 < 0)))
      (s.stopOf n (decide (s.step.getD 1 < 0))) (s.step.getD 1) := by simpa using hi
  have h1 := (position_bounds s n hstep (i := i) (by omega)).1
  have h2 := (position_bounds s n hstep hc).1
  simp only [List.getElem_map, List.getElem_range]
  rw [Int.toNat_of_nonneg h1, Int.toNat_of_nonneg h2]
  push_cast
  rw [Int.add_mul]
  omega

end Slice

namespace Arr

variable {β α : Type}

/-- Every dim has as many coordinate values as its axis has elements. -/
def Labelled (x : Arr β α) : Prop := x.dims.map (fun d => d.data.length) = x.nd.shape

/-- What an index component selects of an axis of length `n`. -/
def selOf : Ix → Nat → Option Sel
  | .int i, n => (Nd.normAxis n i).map .one
  | .slice s, n => (s.indices n).map .many
  | _, _ => none

/-- An index tuple filled up with full slices. -/
def pad (ixs : List Ix) (n : Nat) : List Ix :=
  ixs ++ List.replicate (n - ixs.length) (.slice Slice.full)

/-- A dimension without its output format. -/
def strip (d : Dim β) : Dim β := { d with outputformat := none }

/-- An empty dimension without own output format can not be sliced. -/
def Sliceable (d : Dim β) : Prop := d.data ≠ [] ∨ d.outputformat ≠ none

/-- The dims that remain (without output formats): integer-indexed dims are gone, the others
have the coordinate values at the selected positions. -/
def selDims : List Sel → List (Dim β) → List (Dim β)
  | .one _ :: t, _ :: ds => selDims t ds
  | .many l :: t, d :: ds => ⟨d.cls, d.name, l.filterMap fun i => d.data[i]?, d.unit, none⟩ :: selDims t ds
  | _, _ => []

/-- Where in the original array the coordinate `c` of the result lies. -/
def srcCoord : List Sel → List (Dim β) → Coord → Coord
  | .one k :: t, d :: ds, c => fun q => if q = d.key then k else srcCoord t ds c q
  | .many l :: t, d :: ds, c => fun q => if q = d.key then l.getD (c q) 0 else srcCoord t ds c q
  | _, _, c => c

theorem filterMap_range {δ : Type} (l : List δ) : (List.range l.length).filterMap (fun i => l[i]?) = l := by
  induction l with
  | nil => rfl
  | cons a t ih =>
    rw [List.length_cons, List.range_succ_eq_map, List.filterMap_cons]
    simp only [List.getElem?_cons_zero, List.filterMap_map]
    congr 1

theorem resolve_of {ixs : List Ix} {ns : List Nat} {sels : List Sel}
    (hl : ixs.length = ns.length)
    (h : (ixs.zip ns).mapM (fun p => selOf p.1 p.2) = some sels) :
    Nd.resolve ixs ns = .ok sels := by
  induction ixs generalizing ns sels with
  | nil =>
    cases ns with
    | nil => simp at h; subst h; rfl
    | cons n ns => simp at hl
  | cons ix ixs ih =>
    cases ns with
    | nil => simp at hl
    | cons n ns =>
      simp only [List.zip_cons_cons, List.mapM_cons] at h
      cases hs : selOf ix n with
      | none => rw [hs] at h; cases h
      | some v =>
        cases hr : (ixs.zip ns).mapM (fun p => selOf p.1 p.2) with
        | none => rw [hs, hr] at h; cases h
        | some r =>
          rw [hs, hr] at h
          have hh : sels = v :: r := by cases h; rfl
          subst hh
          have := ih (by simpa using hl) hr
          cases ix with
          | int i =>
            simp only [selOf, Option.map_eq_some_iff] at hs
            obtain ⟨k, hk, rfl⟩ := hs
            simp [Nd.resolve, hk, this]
          | slice s =>
            simp only [selOf, Option.map_eq_some_iff] at hs
            obtain ⟨k, hk, rfl⟩ := hs
            simp [Nd.resolve, hk, this]
          | ellipsis => simp [selOf] at hs
          | newaxis => simp [selOf] at hs

theorem indexDims_of (dflt : β → String) {ixs : List Ix} {ds : List (Dim β)} {sels : List Sel}
    (hl : ixs.length = ds.length)
    (h : (ixs.zip (ds.map fun d => d.data.length)).mapM (fun p => selOf p.1 p.2) = some sels)
    (hsl : ∀ d ∈ ds, Sliceable d) :
    ∃ r, indexDims dflt ixs ds = .ok r ∧ r.map strip = selDims sels ds ∧
      sels.length = ds.length := by
  induction ixs generalizing ds sels with
  | nil =>
    cases ds with
    | nil => simp at h; subst h; exact ⟨[], rfl, rfl, rfl⟩
    | cons n ns => simp at hl
  | cons ix ixs ih =>
    cases ds with
    | nil => simp at hl
    | cons d ds =>
      simp only [List.map_cons, List.zip_cons_cons, List.mapM_cons] at h
      cases hs : selOf ix d.data.length with
      | none => rw [hs] at h; cases h
      | some v =>
        cases hr : (ixs.zip (ds.map fun d => d.data.length)).mapM (fun p => selOf p.1 p.2) with
        | none => rw [hs, hr] at h; cases h
        | some r =>
          rw [hs, hr] at h
          have hh : sels = v :: r := by cases h; rfl
          subst hh
          obtain ⟨rest, h1, h3, h2⟩ := ih (by simpa using hl) hr fun d hd => hsl d (by simp [hd])
          cases ix with
          | int i =>
            simp only [selOf, Option.map_eq_some_iff] at hs
            obtain ⟨k, hk, rfl⟩ := hs
            exact ⟨rest, by simp [indexDims, h1], by simp [selDims, h3], by simp [h2]⟩
          | slice s =>
            simp only [selOf, Option.map_eq_some_iff] at hs
            obtain ⟨k, hk, rfl⟩ := hs
            by_cases hf : s = Slice.full
            · subst hf
              rw [Slice.indices_full] at hk
              cases hk
              exact ⟨d :: rest, by simp [indexDims, dimSlice, h1],
                by simp [selDims, h3, filterMap_range, strip], by simp [h2]⟩
            · have : ∃ o, outputformatOf dflt d = .ok o := by
                unfold outputformatOf
                rcases hsl d (by simp) with hd | hd
                · cases ho : d.outputformat with
                  | some o => exact ⟨o, rfl⟩
                  | none => cases hv : d.data with
                    | nil => exact absurd hv hd
                    | cons v t => exact ⟨_, rfl⟩
                · cases ho : d.outputformat with
                  | some o => exact ⟨o, rfl⟩
                  | none => exact absurd ho hd
              obtain ⟨o, ho⟩ := this
              exact ⟨{ d with data := k.filterMap fun i => d.data[i]?, outputformat := some o } :: rest,
                by simp [indexDims, dimSlice, hf, hk, ho, h1],
                by simp [selDims, h3, strip], by simp [h2]⟩
          | ellipsis => simp [selOf] at hs
          | newaxis => simp [selOf] at hs

theorem selShape_dims (sels : List Sel) (ds : List (Dim β)) (h : sels.length = ds.length)
    (hlt : ∀ l d, (Sel.many l, d) ∈ sels.zip ds → ∀ k ∈ l, k < d.data.length) :
    (selDims sels ds).map (fun d => d.data.length) = Nd.selShape sels := by
  induction sels generalizing ds with
  | nil => cases ds <;> simp [selDims, Nd.selShape]
  | cons s t ih =>
    cases ds with
    | nil => simp at h
    | cons d ds =>
      have ih' := ih ds (by simpa using h) fun l d hm => hlt l d (by simp [hm])
      cases s with
      | one k => simp [selDims, Nd.selShape, ih']
      | many l =>
        simp only [selDims, Nd.selShape, List.map_cons, ih', List.cons.injEq, and_true]
        have := hlt l d (by simp)
        clear hlt ih ih' h
        induction l with
        | nil => rfl
        | cons a t ih =>
          have ha := this a (by simp)
          simp only [List.filterMap_cons, List.getElem?_eq_getElem ha, List.length_cons]
          rw [ih fun k hk => this k (by simp [hk])]

theorem selOf_lt {ixs : List Ix} {ns : List Nat} {sels : List Sel}
    (h : (ixs.zip ns).mapM (fun p => selOf p.1 p.2) = some sels) :
    ∀ l n, (Sel.many l, n) ∈ sels.zip ns → ∀ k ∈ l, k < n := by
  induction ixs generalizing ns sels with
  | nil => simp at h; subst h; simp
  | cons ix ixs ih =>
    cases ns with
    | nil => simp
    | cons n ns =>
      simp only [List.zip_cons_cons, List.mapM_cons] at h
      cases hs : selOf ix n with
      | none => rw [hs] at h; cases h
      | some v =>
        cases hr : (ixs.zip ns).mapM (fun p => selOf p.1 p.2) with
        | none => rw [hs, hr] at h; cases h
        | some r =>
          rw [hs, hr] at h
          have hh : sels = v :: r := by cases h; rfl
          subst hh
          intro l m hm
          simp only [List.zip_cons_cons, List.mem_cons, Prod.mk.injEq] at hm
          rcases hm with ⟨rfl, rfl⟩ | hm
          · cases ix with
            | slice s =>
              simp only [selOf, Option.map_eq_some_iff] at hs
              obtain ⟨k, hk, hkk⟩ := hs
              cases hkk
              exact Slice.indices_lt hk
            | int i =>
              simp only [selOf, Option.map_eq_some_iff] at hs
              obtain ⟨k, hk, hkk⟩ := hs
              cases hkk
            | ellipsis => simp [selOf] at hs
            | newaxis => simp [selOf] at hs
          · exact ih hr l m hm

theorem resolve_err {ixs : List Ix} {ns : List Nat}
    (h : ns.length < ixs.length ∨ (ixs.length = ns.length ∧
      (ixs.zip ns).mapM (fun p => selOf p.1 p.2) = none)) :
    ∃ e, Nd.resolve ixs ns = .error e := by
  induction ixs generalizing ns with
  | nil =>
    rcases h with h | ⟨h1, h2⟩
    · simp at h
    · simp at h2
  | cons ix ixs ih =>
    cases ns with
    | nil => exact ⟨_, rfl⟩
    | cons n ns =>
      have key : selOf ix n = none ∨ ∃ e, Nd.resolve ixs ns = .error e := by
        rcases h with h | ⟨h1, h2⟩
        · exact Or.inr (ih (Or.inl (by simpa using h)))
        · cases hs : selOf ix n with
          | none => exact Or.inl rfl
          | some v =>
            refine Or.inr (ih (Or.inr ⟨by simpa using h1, ?_⟩))
            simp only [List.zip_cons_cons, List.mapM_cons, hs] at h2
            cases hr : (ixs.zip ns).mapM (fun p => selOf p.1 p.2) with
            | none => rfl
            | some r => rw [hr] at h2; cases h2
      cases ix with
      | int i =>
        simp only [Nd.resolve]
        cases hk : Nd.normAxis n i with
        | none => exact ⟨_, rfl⟩
        | some k =>
          rcases key with hc | ⟨e, he⟩
          · simp [selOf, hk] at hc
          · rw [he]; exact ⟨_, rfl⟩
      | slice sl =>
        simp only [Nd.resolve]
        cases hk : sl.indices n with
        | none => exact ⟨_, rfl⟩
        | some k =>
          rcases key with hc | ⟨e, he⟩
          · simp [selOf, hk] at hc
          · rw [he]; exact ⟨_, rfl⟩
      | ellipsis => exact ⟨_, rfl⟩
      | newaxis => exact ⟨_, rfl⟩

theorem mem_selDims {sels : List Sel} {ds : List (Dim β)} {e : Dim β} (h : e ∈ selDims sels ds) :
    ∃ d ∈ ds, e.key = d.key := by
  induction sels generalizing ds with
  | nil => simp [selDims] at h
  | cons s t ih =>
    cases ds with
    | nil => cases s <;> simp [selDims] at h
    | cons d ds =>
      cases s with
      | one k =>
        obtain ⟨d', hd', he⟩ := ih h
        exact ⟨d', by simp [hd'], he⟩
      | many l =>
        simp only [selDims, List.mem_cons] at h
        rcases h with rfl | h
        · exact ⟨d, by simp, rfl⟩
        · obtain ⟨d', hd', he⟩ := ih h
          exact ⟨d', by simp [hd'], he⟩

theorem srcCoord_map {sels : List Sel} {ds : List (Dim β)} (hd : Distinct ds)
    (hl : sels.length = ds.length) (c : Coord) :
    ds.map (fun d => srcCoord sels ds c d.key) =
      Nd.selIdx sels ((selDims sels ds).map fun d => c d.key) := by
  induction sels generalizing ds with
  | nil => cases ds with
    | nil => rfl
    | cons d ds => simp at hl
  | cons s t ih =>
    cases ds with
    | nil => simp at hl
    | cons d ds =>
      unfold Distinct at hd
      rw [List.map_cons, List.nodup_cons] at hd
      have ht := ih hd.2 (by simpa using hl)
      have hne : ∀ e ∈ ds, e.key ≠ d.key := fun e he h =>
        hd.1 (h ▸ List.mem_map_of_mem he)
      cases s with
      | one k =>
        simp only [List.map_cons, srcCoord, if_true, Nd.selIdx, selDims]
        rw [← ht]
        congr 1
        exact List.map_congr_left fun e he => by simp [hne e he]
      | many l =>
        simp only [List.map_cons, srcCoord, if_true, Nd.selIdx, selDims, List.headD_cons,
          List.tail_cons]
        rw [← ht]
        congr 1
        exact List.map_congr_left fun e he => by simp [hne e he]

/-- The coordinate values belonging to an element are those it had before. -/
theorem srcCoord_label {sels : List Sel} {ds : List (Dim β)} (hd : Distinct ds)
    (hlt : ∀ l d, (Sel.many l, d) ∈ sels.zip ds → ∀ k ∈ l, k < d.data.length)
    (c : Coord) {e : Dim β} (he : e ∈ selDims sels ds) (hc : c e.key < e.data.length) :
    ∃ d ∈ ds, d.key = e.key ∧ e.data[c e.key]? = d.data[srcCoord sels ds c e.key]? := by
  induction sels generalizing ds with
  | nil => simp [selDims] at he
  | cons s t ih =>
    cases ds with
    | nil => cases s <;> simp [selDims] at he
    | cons d ds =>
      unfold Distinct at hd
      rw [List.map_cons, List.nodup_cons] at hd
      have tail : e ∈ selDims t ds → ∃ d' ∈ d :: ds, d'.key = e.key ∧
          e.data[c e.key]? = d'.data[srcCoord t ds c e.key]? ∧ e.key ≠ d.key := by
        intro he'
        obtain ⟨d', hd', h1, h2⟩ := ih hd.2 (fun l d hm => hlt l d (by simp [hm])) he'
        refine ⟨d', by simp [hd'], h1, h2, fun h => hd.1 (h ▸ h1 ▸ List.mem_map_of_mem hd')⟩
      cases s with
      | one k =>
        obtain ⟨d', hd', h1, h2, h3⟩ := tail he
        exact ⟨d', hd', h1, by simp only [srcCoord, h3, if_false]; exact h2⟩
      | many l =>
        simp only [selDims, List.mem_cons] at he
        rcases he with rfl | he
        · refine ⟨d, by simp, rfl, ?_⟩
          have hkey : (⟨d.cls, d.name, l.filterMap fun i => d.data[i]?, d.unit, none⟩ : Dim β).key = d.key := rfl
          simp only [hkey] at hc ⊢
          simp only [srcCoord, if_true]
          have hlt' := hlt l d (by simp)
          generalize c d.key = j at hc ⊢
          clear ih hlt tail hkey
          induction l generalizing j with
          | nil => simp at hc
          | cons a l ihl =>
            have ha := hlt' a (by simp)
            simp only [List.filterMap_cons, List.getElem?_eq_getElem ha] at hc ⊢
            cases j with
            | zero => simp [List.getElem?_eq_getElem ha]
            | succ j =>
              simp only [List.getElem?_cons_succ, List.getD_cons_succ]
              exact ihl (fun k hk => hlt' k (by simp [hk])) j (by simpa using hc)
        · obtain ⟨d', hd', h1, h2, h3⟩ := tail he
          exact ⟨d', hd', h1, by simp only [srcCoord, h3, if_false]; exact h2⟩

/-! ### Specification of index tuples -/

/-- Only integers and slices. -/
def Plain (l : List Ix) : Prop := ∀ i ∈ l, (∃ k, i = .int k) ∨ ∃ s, i = .slice s

/-- `full` is the index tuple `ixs` filled up to rank `n`: missing components are full slices,
in place of the `Ellipsis` or at the end. -/
inductive Fills (n : Nat) : List Ix → List Ix → Prop
  | tail (l : List Ix) : Plain l → l.length ≤ n →
      Fills n l (l ++ List.replicate (n - l.length) (.slice Slice.full))
  | mid (p q : List Ix) : Plain p → Plain q → p.length + q.length ≤ n →
      Fills n (p ++ .ellipsis :: q)
        (p ++ List.replicate (n - (p.length + q.length)) (.slice Slice.full) ++ q)

/-- More components than axes. -/
inductive TooMany (n : Nat) : List Ix → Prop
  | tail (l : List Ix) : Plain l → n < l.length → TooMany n l
  | mid (p q : List Ix) : Plain p → Plain q → n < p.length + q.length →
      TooMany n (p ++ .ellipsis :: q)

theorem Plain.not_mem {l : List Ix} (h : Plain l) : Ix.ellipsis ∉ l ∧ Ix.newaxis ∉ l := by
  constructor
  · intro hm
    rcases h _ hm with ⟨k, hk⟩ | ⟨k, hk⟩ <;> simp at hk
  · intro hm
    rcases h _ hm with ⟨k, hk⟩ | ⟨k, hk⟩ <;> simp at hk

theorem expand_plain {l : List Ix} (h : Plain l) (n : Nat) : expandEllipsis n l = .ok l := by
  have : l.count .ellipsis = 0 := List.count_eq_zero.2 h.not_mem.1
  simp [expandEllipsis, this]

theorem expand_mid {p q : List Ix} (hp : Plain p) (hq : Plain q) (n : Nat) :
    expandEllipsis n (p ++ .ellipsis :: q) =
      .ok (p ++ List.replicate (n - (p.length + q.length)) (.slice Slice.full) ++ q) := by
  have h1 : (p ++ Ix.ellipsis :: q).count .ellipsis = 1 := by
    simp [List.count_append, List.count_eq_zero.2 hp.not_mem.1, List.count_eq_zero.2 hq.not_mem.1]
  have h2 : (p ++ Ix.ellipsis :: q).idxOf .ellipsis = p.length := by
    rw [List.idxOf_append_of_notMem hp.not_mem.1]; simp
  have h3 : (p ++ Ix.ellipsis :: q).length - 1 = p.length + q.length := by simp
  unfold expandEllipsis
  rw [h1, h2, h3]
  simp

theorem Fills.length {n : Nat} {ixs full : List Ix} (h : Fills n ixs full) : full.length = n := by
  cases h with
  | tail l _ hl => simp; omega
  | mid p q _ _ hl => simp; omega

theorem Fills.expand {n : Nat} {ixs full : List Ix} (h : Fills n ixs full) :
    ∃ e, expandEllipsis n ixs = .ok e ∧
      e ++ List.replicate (n - e.length) (.slice Slice.full) = full ∧ Ix.newaxis ∉ ixs := by
  cases h with
  | tail _ hp hl => exact ⟨ixs, expand_plain hp n, rfl, hp.not_mem.2⟩
  | mid p q hp hq hl =>
    refine ⟨_, expand_mid hp hq n, ?_, ?_⟩
    · have : n - (p ++ List.replicate (n - (p.length + q.length)) (Ix.slice Slice.full) ++ q).length
          = 0 := by simp; omega
      rw [this]; simp
    · simp [hp.not_mem.2, hq.not_mem.2]

end Arr
end HF
