import Verif.Plot.Draw
import Verif.HFArray.RepProps
/-
C79: what the axes of hftools draw, and what they remember for their labels.
-/
namespace HF.Plot.Draw

open HF.DataBlock (ismatrix)

variable {β α ρ : Type}

/-- Specification of drawn curves: one for every index `is` of the axes after the first, in row-major order,
with a point for every position of the first axis. -/
def Curves (c : List (List (ρ × ρ))) (n : Nat) (ns : List Nat) (pt : Nat → List Nat → ρ × ρ) : Prop :=
  c.length = Nd.size ns ∧
    ∀ is, Nd.Valid ns is → c[Nd.ravel ns is]? = some ((List.range n).map fun k => pt k is)

/-! ### Lemmas -/

theorem not_both (d : Dim β) : (d.isa .matI && d.isa .matJ) = false := by
  have h : ∀ c : Cls, (c.isSub .matI && c.isSub .matJ) = false := by
    intro c
    cases c <;> decide +kernel
  exact h d.cls

theorem ismatrix_mapArr {γ : Type} (f : α → γ) (a : Arr β α) : ismatrix (mapArr f a) = ismatrix a := rfl

/-- columns of an array -/
def Cols (a : Nd ρ) (n : Nat) (ns : List Nat) (v : List Nat → ρ) : Prop :=
  ∃ g, asColumns a = some (n, Nd.size ns, g) ∧
    ∀ k is, k < n → Nd.Valid ns is → g k (Nd.ravel ns is) = v (k :: is)

theorem cols_tail (ofIdx : Nat → β) (x : Arr β ρ) (n : Nat) (ns : List Nat) (hm : ismatrix x = false)
    (hd : x.dims ≠ []) (hs : x.nd.shape = n :: ns) :
    ∃ r, tail ofIdx x = .ok r ∧ Cols r.nd n ns x.nd.get := by
  cases hdd : x.dims with
  | nil => exact absurd hdd hd
  | cons d ds =>
    obtain ⟨r, h1, -, h3, -, h5⟩ := Arr.C10_remove_tail ofIdx x d ds n ns hdd hs
    refine ⟨r, by simp [tail, hm, h1], ⟨fun k j => r.nd.get [k, j], ?_, ?_⟩⟩
    · unfold asColumns
      rw [h3]
    · intro k is hk hi
      exact h5 k is hk hi

theorem cols_one (x : Nd ρ) (n : Nat) (hs : x.shape = [n]) : Cols x n [] x.get := by
  refine ⟨fun k _ => x.get [k], by simp [asColumns, hs, Nd.size], ?_⟩
  intro k is hk hi
  cases is with
  | nil => rfl
  | cons a b => simp [Nd.Valid] at hi

theorem axesPlot_curves (x y : Nd ρ) (n : Nat) (ms ns : List Nat) (u v : List Nat → ρ)
    (hx : Cols x n ms u) (hy : Cols y n ns v) (h0 : 0 < Nd.size ns) (hms : ms = [] ∨ ms = ns) :
    ∃ c, axesPlot x y = .ok c ∧
      Curves c n ns fun k is => (u (k :: if ms = [] then [] else is), v (k :: is)) := by
  obtain ⟨fx, hx1, hx2⟩ := hx
  obtain ⟨fy, hy1, hy2⟩ := hy
  have hm0 : 0 < Nd.size ms := by
    rcases hms with h | h
    · rw [h]; simp [Nd.size]
    · rw [h]; exact h0
  have hmax : max (Nd.size ms) (Nd.size ns) = Nd.size ns := by
    rcases hms with h | h
    · rw [h]; simp [Nd.size]; exact h0
    · rw [h]; simp
  refine ⟨(List.range (Nd.size ns)).map fun j =>
      (List.range n).map fun k => (fx k (j % Nd.size ms), fy k (j % Nd.size ns)), ?_, by simp, ?_⟩
  · unfold axesPlot
    rw [hx1, hy1]
    simp only [hm0, h0, and_self, if_true, hmax]
  · intro is hi
    have hlt := Nd.ravel_lt hi
    rw [List.getElem?_map, List.getElem?_range hlt]
    simp only [Option.map_some, Option.some.injEq]
    apply List.map_congr_left
    intro k hk
    have hk' : k < n := List.mem_range.1 hk
    rw [Nat.mod_eq_of_lt hlt, hy2 k is hk' hi]
    rcases hms with h | h
    · subst h
      have h1 : Nd.ravel ns is % Nd.size ([] : List Nat) = Nd.ravel [] [] := by
        simp [Nd.size, Nd.ravel, Nat.mod_one]
      rw [h1, hx2 k [] hk' (by simp [Nd.Valid])]
      simp
    · subst h
      rw [Nat.mod_eq_of_lt hlt, hx2 k is hk' hi]
      by_cases he : ms = []
      · subst he
        cases is with
        | nil => rfl
        | cons a b => simp [Nd.Valid] at hi
      · simp [he]

theorem helper_curves (ofIdx : Nat → β) (x y : Arr β ρ) (n : Nat) (ms ns : List Nat)
    (hxm : ismatrix x = false) (hym : ismatrix y = false) (hxd : x.dims ≠ []) (hyd : y.dims ≠ [])
    (hxs : x.nd.shape = n :: ms) (hys : y.nd.shape = n :: ns) (h0 : 0 < Nd.size ns)
    (hms : ms = [] ∨ ms = ns) :
    ∃ c, plotHelper ofIdx x y = .ok c ∧
      Curves c n ns fun k is => (x.nd.get (k :: if ms = [] then [] else is), y.nd.get (k :: is)) := by
  unfold plotHelper
  split
  case isTrue h =>
    have h1 : ms = [] := by have := h.1; rw [hxs] at this; simpa using this
    have h2 : ns = [] := by have := h.2; rw [hys] at this; simpa using this
    subst h1 h2
    exact axesPlot_curves _ _ _ _ _ _ _ (cols_one _ _ hxs) (cols_one _ _ hys) h0 hms
  case isFalse h =>
    obtain ⟨r, hr, hc⟩ := cols_tail ofIdx x n ms hxm hxd hxs
    obtain ⟨q, hq, hc'⟩ := cols_tail ofIdx y n ns hym hyd hys
    rw [hr, hq]
    exact axesPlot_curves _ _ _ _ _ _ _ hc hc' h0 hms

/-- the number that a projection draws for a value -/
def drawn (N : Num β α ρ) (cplx : Bool) : Kind β α ρ → Option (α → ρ)
  | .point f => some f
  | .keep => some N.re
  | .none => if cplx then none else some N.re
  | .whole _ _ => none

theorem plotXY_eq (N : Num β α ρ) (ofIdx : Nat → β) (kind : Kind β α ρ) (s : St) (x y : Data β α) (f : α → ρ)
    (hf : drawn N y.cplx kind = some f) :
    plotXY N ofIdx kind s x (.data y) =
      match plotHelper ofIdx (mapArr N.re x.arr) (mapArr f y.arr) with
      | .ok c => (setUnits s x.unit y.unit, .ok c)
      | .error e => (s, .error e) := by
  cases kind with
  | none =>
    simp only [drawn] at hf
    split at hf
    · cases hf
    · rename_i hc
      injection hf with hf
      subst hf
      simp only [plotXY, hc]
      rfl
  | keep => injection hf with hf; subst hf; rfl
  | point g => injection hf with hf; subst hf; rfl
  | whole _ _ => cases hf

/-- the format arguments of a call with one array -/
def Formats (args : List (Arg β α)) : Prop := args = [] ∨ ∃ s r, args = .text s :: r

theorem plot_one (N : Num β α ρ) (ofIdx : Nat → β) (kind : Kind β α ρ) (s : St) (y : Data β α) (d : Dim β)
    (ds : List (Dim β)) (args : List (Arg β α)) (hd : y.arr.dims = d :: ds) (ha : Formats args) :
    plot N ofIdx kind s (.data y :: args) =
      plotXY N ofIdx kind { s with xname := some (s.xname.getD d.name) } (dimData N d) (.data y) := by
  rcases ha with rfl | ⟨t, r, rfl⟩
  · simp [plot, hd]
  · simp [plot, hd]

/-! ### The curves -/

/-- C79.  One array is drawn against the coordinates of its first dim: a curve for every index of the other
dims, in row-major order, and a point for every coordinate, whose height is the projected element.  The x
axis gets the name of the dim unless it has a name, and the axes get the units that are not empty.  Formats
do not matter. -/
theorem C79_sweep (N : Num β α ρ) (ofIdx : Nat → β) (kind : Kind β α ρ) (s : St) (y : Data β α) (d : Dim β)
    (ds : List (Dim β)) (n : Nat) (ns : List Nat) (args : List (Arg β α)) (f : α → ρ)
    (hf : drawn N y.cplx kind = some f) (ha : Formats args)
    (hm : ismatrix y.arr = false) (hd : y.arr.dims = d :: ds) (hs : y.arr.nd.shape = n :: ns)
    (hn : d.data.length = n) (h0 : 0 < Nd.size ns) :
    ∃ c s', plot N ofIdx kind s (.data y :: args) = (s', .ok c) ∧
      s'.xname = some (s.xname.getD d.name) ∧
      s'.xunit = (if d.unit.getD "" = "" then s.xunit else d.unit) ∧
      s'.yunit = (if y.unit.getD "" = "" then s.yunit else y.unit) ∧
      c.length = Nd.size ns ∧
      ∀ is, Nd.Valid ns is → ∃ l, c[Nd.ravel ns is]? = some l ∧ l.length = n ∧
        ∀ k (hk : k < d.data.length),
          l[k]? = some (N.re (N.coord d.data[k]), f (y.arr.nd.get (k :: is))) := by
  rw [plot_one N ofIdx kind s y d ds args hd ha, plotXY_eq _ _ _ _ _ _ f hf]
  have hxm : ismatrix (mapArr N.re (dimData N d).arr) = false := by
    simp only [ismatrix, mapArr, dimData, List.any_cons, List.any_nil, Bool.or_false, not_both]
  obtain ⟨c, hc, hl, hp⟩ := helper_curves ofIdx (mapArr N.re (dimData N d).arr) (mapArr f y.arr) n [] ns
    hxm (by rw [ismatrix_mapArr]; exact hm) (by simp [mapArr, dimData]) (by simp [mapArr, hd])
    (by simp [mapArr, mapNd, dimData, hn]) (by simp [mapArr, mapNd, hs]) h0 (.inl rfl)
  rw [hc]
  refine ⟨c, _, rfl, rfl, rfl, rfl, hl, ?_⟩
  intro is hi
  refine ⟨_, hp is hi, by simp, ?_⟩
  intro k hk
  rw [List.getElem?_map, List.getElem?_range (by omega)]
  simp [mapArr, mapNd, dimData, hk]

/-- C79.  Two arrays are drawn against each other: a one-dimensional x is used for every curve, an x of the
shape of y has its own curve for each of y. -/
theorem C79_xy (N : Num β α ρ) (ofIdx : Nat → β) (kind : Kind β α ρ) (s : St) (x y : Data β α) (n : Nat)
    (ms ns : List Nat) (args : List (Arg β α)) (f : α → ρ) (hf : drawn N y.cplx kind = some f)
    (hxm : ismatrix x.arr = false) (hym : ismatrix y.arr = false) (hxd : x.arr.dims ≠ [])
    (hyd : y.arr.dims ≠ []) (hxs : x.arr.nd.shape = n :: ms) (hys : y.arr.nd.shape = n :: ns)
    (h0 : 0 < Nd.size ns) (hms : ms = [] ∨ ms = ns) :
    ∃ c s', plot N ofIdx kind s (.data x :: .data y :: args) = (s', .ok c) ∧
      s'.xname = s.xname ∧
      s'.xunit = (if x.unit.getD "" = "" then s.xunit else x.unit) ∧
      s'.yunit = (if y.unit.getD "" = "" then s.yunit else y.unit) ∧
      Curves c n ns fun k is =>
        (N.re (x.arr.nd.get (k :: if ms = [] then [] else is)), f (y.arr.nd.get (k :: is))) := by
  have hp : plot N ofIdx kind s (.data x :: .data y :: args) = plotXY N ofIdx kind s x (.data y) := by
    simp [plot]
  rw [hp, plotXY_eq _ _ _ _ _ _ f hf]
  obtain ⟨c, hc, hl⟩ := helper_curves ofIdx (mapArr N.re x.arr) (mapArr f y.arr) n ms ns
    hxm hym hxd hyd hxs hys h0 hms
  rw [hc]
  exact ⟨c, _, rfl, rfl, rfl, rfl, hl⟩

/-- C79.  Without projection complex numbers are drawn in the complex plane, whatever x is; both axes get
their unit. -/
theorem C79_plane (N : Num β α ρ) (ofIdx : Nat → β) (s : St) (y : Data β α) (d : Dim β) (ds : List (Dim β))
    (n : Nat) (ns : List Nat) (args : List (Arg β α)) (x : Data β α) (hc : y.cplx = true)
    (hm : ismatrix y.arr = false) (hd : y.arr.dims = d :: ds) (hs : y.arr.nd.shape = n :: ns)
    (h0 : 0 < Nd.size ns) :
    ∃ c, (∀ fm, Formats fm → plot N ofIdx .none s (.data y :: fm) =
        (setUnits { s with xname := some (s.xname.getD d.name) } y.unit y.unit, .ok c)) ∧
      plot N ofIdx .none s (.data x :: .data y :: args) = (setUnits s y.unit y.unit, .ok c) ∧
      Curves c n ns fun k is => (N.re (y.arr.nd.get (k :: is)), N.im (y.arr.nd.get (k :: is))) := by
  obtain ⟨c, hc', hl⟩ := helper_curves ofIdx (mapArr N.re y.arr) (mapArr N.im y.arr) n ns ns
    hm hm (by simp [mapArr, hd]) (by simp [mapArr, hd]) hs hs h0 (.inr rfl)
  refine ⟨c, ?_, ?_, hl.1, ?_⟩
  · intro fm hfm
    rw [plot_one N ofIdx .none s y d ds fm hd hfm]
    simp only [plotXY, hc, if_true, hc']
  · simp only [plot, List.take, plotXY, hc, if_true, hc']
  · intro is hi
    rw [hl.2 is hi]
    by_cases he : ns = []
    · subst he
      cases is with
      | nil => rfl
      | cons a b => simp [Nd.Valid] at hi
    · simp [he, mapArr, mapNd]

/-! ### What is refused -/

theorem cols_shape {a : Nd ρ} {r : Nat × Nat × (Nat → Nat → ρ)} (h : asColumns a = some r) :
    r.1 = a.shape.headD 1 := by
  unfold asColumns at h
  split at h <;> first | (injection h with h; subst h; simp_all) | cases h

/-- C79.  Arrays whose first axes have different lengths are refused, and the labels stay as they are. -/
theorem C79_length (N : Num β α ρ) (ofIdx : Nat → β) (kind : Kind β α ρ) (s : St) (x y : Data β α)
    (args : List (Arg β α)) (f : α → ρ) (n n' : Nat) (ms ns : List Nat)
    (hf : drawn N y.cplx kind = some f)
    (hxd : x.arr.dims ≠ []) (hyd : y.arr.dims ≠ [])
    (hxs : x.arr.nd.shape = n :: ms) (hys : y.arr.nd.shape = n' :: ns) (hne : n ≠ n') :
    plot N ofIdx kind s (.data x :: .data y :: args) = (s, .error .value) := by
  have hp : plot N ofIdx kind s (.data x :: .data y :: args) = plotXY N ofIdx kind s x (.data y) := by
    simp [plot]
  rw [hp, plotXY_eq _ _ _ _ _ _ f hf]
  have key : ∀ a b : Nd ρ, a.shape.headD 1 = n → b.shape.headD 1 = n' → axesPlot a b = .error .value := by
    intro a b h1 h2
    unfold axesPlot
    split
    · rename_i m mx fx m' my fy e1 e2
      have e1' := cols_shape e1
      have e2' := cols_shape e2
      simp only at e1' e2'
      rw [if_neg]
      rintro ⟨h, -⟩
      omega
    · rfl
  have : plotHelper ofIdx (mapArr N.re x.arr) (mapArr f y.arr) = .error .value := by
    unfold plotHelper
    split
    · exact key _ _ (by simp [mapArr, mapNd, hxs]) (by simp [mapArr, mapNd, hys])
    · by_cases hxm : ismatrix x.arr
      · simp [tail, ismatrix_mapArr, hxm]
      · by_cases hym : ismatrix y.arr
        · cases hxx : x.arr.dims with
          | nil => exact absurd hxx hxd
          | cons d ds =>
            obtain ⟨r, h1, -⟩ := Arr.C10_remove_tail ofIdx (mapArr N.re x.arr) d ds n ms
              (by simp [mapArr, hxx]) (by simp [mapArr, mapNd, hxs])
            simp [tail, ismatrix_mapArr, hxm, hym, h1]
        · cases hxx : x.arr.dims with
          | nil => exact absurd hxx hxd
          | cons d ds =>
            cases hyy : y.arr.dims with
            | nil => exact absurd hyy hyd
            | cons e es =>
              obtain ⟨r, h1, -, h3, -⟩ := Arr.C10_remove_tail ofIdx (mapArr N.re x.arr) d ds n ms
                (by simp [mapArr, hxx]) (by simp [mapArr, mapNd, hxs])
              obtain ⟨q, h1', -, h3', -⟩ := Arr.C10_remove_tail ofIdx (mapArr f y.arr) e es n' ns
                (by simp [mapArr, hyy]) (by simp [mapArr, mapNd, hys])
              simp only [tail, ismatrix_mapArr, hxm, hym, h1, h1']
              exact key _ _ (by simp [h3]) (by simp [h3'])
  rw [this]

/-- C79 fails for matrices: whatever the projection applied to elements, every array with both matrix dims is
refused.  The default name of the x axis is set all the same. -/
theorem C79_matrix_refuted (N : Num β α ρ) (ofIdx : Nat → β) (kind : Kind β α ρ) (s : St) (y : Data β α)
    (args : List (Arg β α)) (f : α → ρ) (hf : drawn N y.cplx kind = some f) (ha : Formats args)
    (hm : ismatrix y.arr = true) (hw : y.arr.WF) :
    ∃ nm, plot N ofIdx kind s (.data y :: args) = ({ s with xname := some nm }, .error .value) := by
  cases hd : y.arr.dims with
  | nil => simp [ismatrix, hd] at hm
  | cons d ds =>
    have hlen : y.arr.nd.shape.length ≠ 1 := by
      intro h
      have hw' : y.arr.dims.length = y.arr.nd.shape.length := hw
      rw [h, hd] at hw'
      have : ds = [] := by simpa using hw'
      subst this
      simp [ismatrix, hd, not_both] at hm
    refine ⟨s.xname.getD d.name, ?_⟩
    rw [plot_one N ofIdx kind s y d ds args hd ha, plotXY_eq _ _ _ _ _ _ f hf]
    have hx : ∃ r, tail ofIdx (mapArr N.re (dimData N d).arr) = .ok r := by
      have hxm : ismatrix (mapArr N.re (dimData N d).arr) = false := by
        simp only [ismatrix, mapArr, dimData, List.any_cons, List.any_nil, Bool.or_false, not_both]
      obtain ⟨r, hr, -⟩ := cols_tail ofIdx (mapArr N.re (dimData N d).arr) d.data.length [] hxm
        (by simp [mapArr, dimData]) (by simp [mapArr, mapNd, dimData])
      exact ⟨r, hr⟩
    obtain ⟨r, hr⟩ := hx
    have : plotHelper ofIdx (mapArr N.re (dimData N d).arr) (mapArr f y.arr) = .error .value := by
      unfold plotHelper
      rw [if_neg (by intro h; exact hlen (by simpa [mapArr, mapNd] using h.2)), hr]
      simp [tail, ismatrix_mapArr, hm]
    rw [this]

/-- C79 fails for matrices also if they are drawn against something: whatever that is, and for the complex plane too. -/
theorem C79_matrix_xy_refuted (N : Num β α ρ) (ofIdx : Nat → β) (kind : Kind β α ρ) (s : St) (x y : Data β α)
    (args : List (Arg β α)) (hk : ∀ g g1, kind ≠ .whole g g1) (hm : ismatrix y.arr = true) (hw : y.arr.WF) :
    ∃ e, plot N ofIdx kind s (.data x :: .data y :: args) = (s, .error e) := by
  have hlen : y.arr.nd.shape.length ≠ 1 := by
    intro h
    have hw' : y.arr.dims.length = y.arr.nd.shape.length := hw
    rw [h] at hw'
    obtain ⟨d, hd⟩ := List.length_eq_one_iff.1 hw'
    simp [ismatrix, hd, not_both] at hm
  have hp : ∀ (z : Arr β ρ) (f : α → ρ), ∃ e, plotHelper ofIdx z (mapArr f y.arr) = .error e := by
    intro z f
    unfold plotHelper
    rw [if_neg (by intro h; exact hlen (by simpa [mapArr, mapNd] using h.2))]
    have ht : tail ofIdx (mapArr f y.arr) = .error .value := by simp [tail, ismatrix_mapArr, hm]
    rw [ht]
    cases tail ofIdx z with
    | ok r => exact ⟨_, rfl⟩
    | error e => exact ⟨_, rfl⟩
  show ∃ e, plotXY N ofIdx kind s x (.data y) = (s, .error e)
  by_cases hd : ∃ f, drawn N y.cplx kind = some f
  · obtain ⟨f, hf⟩ := hd
    obtain ⟨e, he⟩ := hp (mapArr N.re x.arr) f
    rw [plotXY_eq _ _ _ _ _ _ f hf, he]
    exact ⟨e, rfl⟩
  · cases kind with
    | point f => exact absurd ⟨f, rfl⟩ hd
    | keep => exact absurd ⟨_, rfl⟩ hd
    | whole g g1 => exact absurd rfl (hk g g1)
    | none =>
      have hc : y.cplx = true := by
        by_contra hc
        exact hd ⟨N.re, by simp [drawn, hc]⟩
      obtain ⟨e, he⟩ := hp (mapArr N.re y.arr) N.im
      unfold plotXY
      simp only [hc, if_true, he]
      exact ⟨e, rfl⟩

end HF.Plot.Draw
