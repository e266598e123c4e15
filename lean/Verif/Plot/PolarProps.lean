import Verif.Plot.Polar
import Verif.Plot.DrawProps
import Verif.HFArray.BinopProps
/-
C97: what polar axes draw.
-/
namespace HF.Plot.Polar

open HF.DataBlock (ismatrix)
open HF.Plot.Draw

variable {β : Type}

/-! ### Specification -/

/-- The point of the plane with an angle and a radius. -/
noncomputable def place (p : ℝ × ℝ) : ℂ := p.2 * (Real.cos p.1 + Real.sin p.1 * Complex.I)

/-- Curves in the plane: one for every index of the axes after the first, in row-major order; point `k` lies at
`pt k is`, its radius is not negative, its angle is between `-π` and `π`. -/
def Drawn (c : List (List (ℝ × ℝ))) (n : Nat) (ns : List Nat) (pt : Nat → List Nat → ℂ) : Prop :=
  c.length = Nd.size ns ∧
    ∀ is, Nd.Valid ns is → ∃ l, c[Nd.ravel ns is]? = some l ∧ l.length = n ∧
      ∀ k, k < n → ∃ p, l[k]? = some p ∧ place p = pt k is ∧ 0 ≤ p.2 ∧ -Real.pi < p.1 ∧ p.1 ≤ Real.pi

/-! ### Lemmas -/

theorem place_arg (z : ℂ) : place (Complex.arg z, ‖z‖) = z := by
  simp only [place]
  rw [Complex.ofReal_cos, Complex.ofReal_sin]
  exact Complex.norm_mul_cos_add_sin_mul_I z

theorem cols_map {α γ : Type} (f : α → γ) (a : Nd α) (n : Nat) (ns : List Nat) (v : List Nat → α) (h : Cols a n ns v) :
    Cols (mapNd f a) n ns (fun i => f (v i)) := by
  obtain ⟨g, h1, h2⟩ := h
  refine ⟨fun k j => f (g k j), ?_, fun k is hk hi => congrArg f (h2 k is hk hi)⟩
  unfold asColumns at h1 ⊢
  have hs : (mapNd f a).shape = a.shape := rfl
  rw [hs]
  split at h1
  all_goals
    try rename_i hsh
    try rw [hsh]
    simp only [Option.some.injEq, Prod.mk.injEq, reduceCtorEq] at h1
  all_goals
    obtain ⟨h3, h4, h5⟩ := h1
    subst h5
    rw [← h4, ← h3]
    rfl

theorem drawn_cols (z : Nd ℂ) (n : Nat) (ns : List Nat) (v : List Nat → ℂ) (h : Cols z n ns v) (h0 : 0 < Nd.size ns) :
    ∃ c, axesPlot (mapNd Complex.arg z) (mapNd (fun z => ‖z‖) z) = .ok c ∧ Drawn c n ns fun k is => v (k :: is) := by
  obtain ⟨c, hc, h1, h2⟩ := axesPlot_curves _ _ n ns ns _ _ (cols_map Complex.arg z n ns v h)
    (cols_map (fun z => ‖z‖) z n ns v h) h0 (.inr rfl)
  refine ⟨c, hc, h1, fun is hi => ⟨_, h2 is hi, by simp, fun k hk => ?_⟩⟩
  have he : (if ns = [] then [] else is) = is := by
    split
    case isTrue e =>
      subst e
      cases is with
      | nil => rfl
      | cons a b => simp [Nd.Valid] at hi
    case isFalse => rfl
  refine ⟨(Complex.arg (v (k :: is)), ‖v (k :: is)‖), ?_, place_arg _, norm_nonneg _, Complex.neg_pi_lt_arg _,
    Complex.arg_le_pi _⟩
  rw [List.getElem?_map, List.getElem?_range hk]
  simp [he]

theorem noComplex (l : List (Dim β)) (h : ∀ d ∈ l, d.sortprio ≤ 1) : Dim.hasComplex l = false := by
  have hc : ∀ c : Cls, c.sortprio ≤ 1 →
      (c.isSub .complexDeriv || c.isSub .complexIndep || c.isSub .complexDiag) = false := by
    intro c
    cases c <;> decide +kernel
  unfold Dim.hasComplex
  rw [List.any_eq_false]
  intro d hd
  have := hc d.cls (h d (List.mem_reverse.1 hd))
  simpa [Dim.isa] using this

/-- The sum of an array over a dim and `i` times an array over that dim and its tail. -/
theorem sum_tail (full : Arr β ℂ → Arr β ℂ) (x y : Arr β ℂ) (dx d t : Dim β) (n m : Nat) (hx : x.dims = [dx])
    (hxs : x.nd.shape = [n]) (hy : y.dims = [d, t]) (hys : y.nd.shape = [n, m]) (hk : d.key = dx.key)
    (ht : t.key = ("Tail", .dimRep)) (hT : dx.name ≠ "Tail") (hp : dx.sortprio ≤ 1) :
    ∃ z, Arr.binop full (· + ·) x (Arr.scalarOp (fun v s => s * v) y Complex.I) = .ok z ∧ z.nd.shape = [n, m] ∧
      ∀ k j, k < n → j < m → z.nd.get [k, j] = x.nd.get [k] + Complex.I * y.nd.get [k, j] := by
  have hn : d.name = dx.name := congrArg Prod.fst hk
  have hcl : d.cls = dx.cls := congrArg Prod.snd hk
  have htn : t.name = "Tail" := congrArg Prod.fst ht
  have htc : t.cls = .dimRep := congrArg Prod.snd ht
  have hdp : d.sortprio ≤ 1 := by unfold Dim.sortprio; rw [hcl]; exact hp
  have htp : t.sortprio ≤ 1 := by unfold Dim.sortprio; rw [htc]; decide
  have hkt : dx.key ≠ t.key := fun e => hT (by rw [← htn]; exact congrArg Prod.fst e)
  have hself : ∀ c : Cls, c.isSub c = true := by intro c; cases c <;> decide +kernel
  obtain ⟨z, hz, hwf, -, hzd, -, hlen, hget⟩ := Arr.C06_binop_aligns_by_name full (· + ·) x
    (Arr.scalarOp (fun v s => s * v) y Complex.I)
    (by simp [Arr.WF, hx, hxs]) (by simp [Arr.WF, Arr.scalarOp, hy, hys]) (by simp [Arr.Distinct, hx])
    (by simp [Arr.Distinct, Arr.scalarOp, hy, hk, hkt])
    (by
      intro a ha b hb hab _
      simp only [Arr.scalarOp, hx, hy, List.mem_append, List.mem_cons, List.not_mem_nil, or_false] at ha hb
      rcases ha with rfl | rfl | rfl <;> rcases hb with rfl | rfl | rfl <;> simp_all)
    (by
      intro k s u h1 h2
      simp only [Arr.axisLen, Arr.scalarOp, hx, hxs, hy, hys, List.zip_cons_cons, List.zip_nil_right, List.find?_cons,
        List.find?_nil] at h1 h2
      by_cases e : dx.key = k
      · simp [e, hk] at h1 h2
        left; omega
      · simp [e] at h1)
    (by
      intro h
      rw [noComplex] at h
      · cases h
      · intro e he
        simp only [Arr.scalarOp, hx, hy, List.mem_append, List.mem_cons, List.not_mem_nil, or_false] at he
        rcases he with rfl | rfl | rfl <;> assumption)
  have hdims : z.dims = [dx, t] := by
    rw [hzd, hx]
    show Arr.dimsUnion [dx] y.dims = _
    rw [hy]
    have h1 : Arr.containsDim [dx] d = true := by
      simp [Arr.containsDim, Arr.matches_, hn, Dim.isa, hcl, hself]
    have h2 : Arr.containsDim [dx] t = false := by
      simp [Arr.containsDim, Arr.matches_, htn, hT]
    have h3 : dx.sortprio ≤ t.sortprio := by
      have : t.sortprio = 1 := by unfold Dim.sortprio; rw [htc]; rfl
      omega
    simp [Arr.dimsUnion, Arr.unionStep, h1, h2, Arr.sortByPrio, Arr.insertByPrio, h3]
  have hl1 := hlen dx.key
  have hl2 := hlen t.key
  obtain ⟨a, b, hab⟩ : ∃ a b, z.nd.shape = [a, b] := by
    have hw : z.dims.length = z.nd.shape.length := hwf
    rw [hdims] at hw
    match hsz : z.nd.shape with
    | [a, b] => exact ⟨a, b, rfl⟩
    | [] => simp [hsz] at hw
    | [_] => simp [hsz] at hw
    | _ :: _ :: _ :: _ => simp [hsz] at hw
  simp only [Arr.axisLen, Arr.scalarOp, hdims, hab, hx, hxs, hy, hys, List.zip_cons_cons, List.zip_nil_right,
    List.find?_cons, List.find?_nil, hk, hkt, decide_true, decide_false, Option.map_some, Option.map_none, Arr.bLen] at hl1 hl2
  have ha : a = n := by
    split at hl1 <;> simpa using hl1
  have hb : b = m := by simpa using hl2
  subst ha hb
  refine ⟨z, hz, hab, fun k j hk' hj => ?_⟩
  have := hget (fun q => if q = dx.key then k else j)
    (by simp [Arr.InRange, hdims, hab, Nd.Valid, hkt.symm, hk', hj])
  simp only [Arr.at_, Arr.atB, Arr.scalarOp, hdims, hx, hxs, hy, hys, hk, hkt.symm, List.map_cons, List.map_nil,
    List.zipWith_cons_cons, List.zipWith_nil_left, if_true, if_false] at this
  rw [this]
  have e1 : (if a = 1 then 0 else k) = k := by split <;> omega
  have e2 : (if b = 1 then 0 else j) = j := by split <;> omega
  rw [e1, e2]

theorem tail_dims (ofIdx : Nat → β) (y : Arr β ℂ) (d : Dim β) (ds : List (Dim β)) (n : Nat) (ns : List Nat)
    (hm : ismatrix y = false) (hd : y.dims = d :: ds) (hs : y.nd.shape = n :: ns) :
    ∃ r e t, tail ofIdx y = .ok r ∧ r.dims = [e, t] ∧ e.key = d.key ∧ t.key = ("Tail", .dimRep) ∧
      r.nd.shape = [n, Nd.size ns] ∧
      ∀ i is, i < n → Nd.Valid ns is → r.nd.get [i, Nd.ravel ns is] = y.nd.get (i :: is) := by
  obtain ⟨r, h1, -, h3, h4, h5⟩ := Arr.C10_remove_tail ofIdx y d ds n ns hd hs
  match hr : r.dims with
  | [e, t] =>
    rw [hr] at h4
    simp only [List.map_cons, List.map_nil, List.cons.injEq, and_true] at h4
    exact ⟨r, e, t, by simp [tail, hm, h1], hr, h4.1, h4.2, h3, h5⟩
  | [] => simp [hr] at h4
  | [_] => simp [hr] at h4
  | _ :: _ :: _ :: _ => simp [hr] at h4

theorem plot_one (N : Num β ℂ ℝ) (full : Arr β ℂ → Arr β ℂ) (ofIdx : Nat → β) (y : Data β ℂ) (d : Dim β)
    (ds : List (Dim β)) (args : List (Arg β ℂ)) (ha : Formats args) (hd : y.arr.dims = d :: ds) :
    plot N full ofIdx (.data y :: args) = plotXY full ofIdx (dimData N d) y := by
  rcases ha with rfl | ⟨t, r, rfl⟩ <;> simp [plot, hd]

theorem plot_two (N : Num β ℂ ℝ) (full : Arr β ℂ → Arr β ℂ) (ofIdx : Nat → β) (x y : Data β ℂ) (args : List (Arg β ℂ)) :
    plot N full ofIdx (.data x :: .data y :: args) = plotXY full ofIdx x y := by
  simp [plot]

theorem plotXY_cplx (full : Arr β ℂ → Arr β ℂ) (ofIdx : Nat → β) (y : Data β ℂ) (d : Dim β) (ds : List (Dim β))
    (n : Nat) (ns : List Nat) (hc : y.cplx = true) (hm : ismatrix y.arr = false) (hd : y.arr.dims = d :: ds)
    (hs : y.arr.nd.shape = n :: ns) (h0 : 0 < Nd.size ns) :
    ∃ c, (∀ x, plotXY full ofIdx x y = .ok c) ∧ Drawn c n ns fun k is => y.arr.nd.get (k :: is) := by
  obtain ⟨r, hr, hcol⟩ := cols_tail ofIdx y.arr n ns hm (by simp [hd]) hs
  obtain ⟨c, h1, h2⟩ := drawn_cols r.nd n ns _ hcol h0
  refine ⟨c, fun x => ?_, h2⟩
  simp only [plotXY, hr, projection, hc, if_true]
  exact h1

theorem plotXY_real (full : Arr β ℂ → Arr β ℂ) (ofIdx : Nat → β) (x y : Data β ℂ) (dx d : Dim β) (ds : List (Dim β))
    (n : Nat) (ns : List Nat) (hc : y.cplx = false) (hm : ismatrix y.arr = false) (hd : y.arr.dims = d :: ds)
    (hs : y.arr.nd.shape = n :: ns) (h0 : 0 < Nd.size ns) (hx : x.arr.dims = [dx]) (hxs : x.arr.nd.shape = [n])
    (hk : dx.key = d.key) (hT : d.name ≠ "Tail") (hp : d.sortprio ≤ 1) :
    ∃ c, plotXY full ofIdx x y = .ok c ∧
      Drawn c n ns fun k is => x.arr.nd.get [k] + Complex.I * y.arr.nd.get (k :: is) := by
  obtain ⟨r, e, t, hr, hrd, hek, htk, hrs, hrg⟩ := tail_dims ofIdx y.arr d ds n ns hm hd hs
  have hn : dx.name = d.name := congrArg Prod.fst hk
  have hcl : dx.cls = d.cls := congrArg Prod.snd hk
  obtain ⟨z, hz, hzs, hzg⟩ := sum_tail full x.arr r dx e t n (Nd.size ns) hx hxs hrd hrs (by rw [hek, hk]) htk
    (by rw [hn]; exact hT) (by unfold Dim.sortprio; rw [hcl]; exact hp)
  have hcol : Cols z.nd n ns fun i => x.arr.nd.get [i.headD 0] + Complex.I * y.arr.nd.get i := by
    refine ⟨fun k j => z.nd.get [k, j], by simp [asColumns, hzs], fun k is hk' hi => ?_⟩
    simp only [List.headD_cons]
    rw [hzg k _ hk' (Nd.ravel_lt hi), hrg k is hk' hi]
  obtain ⟨c, h1, h2⟩ := drawn_cols z.nd n ns _ hcol h0
  refine ⟨c, ?_, by simpa using h2⟩
  simp only [plotXY, hr, projection, hc, hz]
  exact h1

/-! ### Theorems -/

/-- C97.  A complex array is drawn in the complex plane: a curve for every index of the dims after the first, in
row-major order, and on it a point for every position of the first dim, which lies at the element.  What x is given does
not matter, nor do formats. -/
theorem C97_complex (N : Num β ℂ ℝ) (full : Arr β ℂ → Arr β ℂ) (ofIdx : Nat → β) (y : Data β ℂ) (d : Dim β)
    (ds : List (Dim β)) (n : Nat) (ns : List Nat) (hc : y.cplx = true) (hm : ismatrix y.arr = false)
    (hd : y.arr.dims = d :: ds) (hs : y.arr.nd.shape = n :: ns) (h0 : 0 < Nd.size ns) :
    ∃ c, (∀ fm, Formats fm → plot N full ofIdx (.data y :: fm) = .ok c) ∧
      (∀ x args, plot N full ofIdx (.data x :: .data y :: args) = .ok c) ∧
      Drawn c n ns fun k is => y.arr.nd.get (k :: is) := by
  obtain ⟨c, h1, h2⟩ := plotXY_cplx full ofIdx y d ds n ns hc hm hd hs h0
  exact ⟨c, fun fm hf => by rw [plot_one _ _ _ _ _ _ _ hf hd, h1], fun x args => by rw [plot_two, h1], h2⟩

/-- C97.  A real array on its own is drawn as imaginary part over the coordinates of its first dim as real part. -/
theorem C97_real (N : Num β ℂ ℝ) (full : Arr β ℂ → Arr β ℂ) (ofIdx : Nat → β) (y : Data β ℂ) (d : Dim β)
    (ds : List (Dim β)) (n : Nat) (ns : List Nat) (fm : List (Arg β ℂ)) (hf : Formats fm) (hc : y.cplx = false)
    (hm : ismatrix y.arr = false) (hd : y.arr.dims = d :: ds) (hs : y.arr.nd.shape = n :: ns) (hn : d.data.length = n)
    (h0 : 0 < Nd.size ns) (hT : d.name ≠ "Tail") (hp : d.sortprio ≤ 1) :
    ∃ c, plot N full ofIdx (.data y :: fm) = .ok c ∧ c.length = Nd.size ns ∧
      ∀ is, Nd.Valid ns is → ∃ l, c[Nd.ravel ns is]? = some l ∧ l.length = n ∧
        ∀ k (hk : k < d.data.length), ∃ p, l[k]? = some p ∧
          place p = N.coord d.data[k] + Complex.I * y.arr.nd.get (k :: is) ∧ 0 ≤ p.2 ∧ -Real.pi < p.1 ∧ p.1 ≤ Real.pi := by
  obtain ⟨c, h1, h2, h3⟩ := plotXY_real full ofIdx (dimData N d) y d d ds n ns hc hm hd hs h0 rfl
    (by simp [dimData, hn]) rfl hT hp
  refine ⟨c, by rw [plot_one _ _ _ _ _ _ _ hf hd, h1], h2, fun is hi => ?_⟩
  obtain ⟨l, h4, h5, h6⟩ := h3 is hi
  refine ⟨l, h4, h5, fun k hk => ?_⟩
  obtain ⟨p, h7, h8, h9⟩ := h6 k (hn ▸ hk)
  refine ⟨p, h7, ?_, h9⟩
  rw [h8]
  simp [dimData, List.getElem?_eq_getElem hk]

/-- C97.  A real array that is given with the real parts over its first dim is drawn at the complex numbers they make. -/
theorem C97_xy (N : Num β ℂ ℝ) (full : Arr β ℂ → Arr β ℂ) (ofIdx : Nat → β) (x y : Data β ℂ) (dx d : Dim β)
    (ds : List (Dim β)) (n : Nat) (ns : List Nat) (args : List (Arg β ℂ)) (hc : y.cplx = false)
    (hm : ismatrix y.arr = false) (hd : y.arr.dims = d :: ds) (hs : y.arr.nd.shape = n :: ns) (h0 : 0 < Nd.size ns)
    (hx : x.arr.dims = [dx]) (hxs : x.arr.nd.shape = [n]) (hk : dx.key = d.key) (hT : d.name ≠ "Tail")
    (hp : d.sortprio ≤ 1) :
    ∃ c, plot N full ofIdx (.data x :: .data y :: args) = .ok c ∧
      Drawn c n ns fun k is => x.arr.nd.get [k] + Complex.I * y.arr.nd.get (k :: is) := by
  rw [plot_two]
  exact plotXY_real full ofIdx x y dx d ds n ns hc hm hd hs h0 hx hxs hk hT hp

/-- C97 fails for x over several dims, and for x over another dim than the first of y: the sum has at least three dims,
and nothing is drawn.  In particular real and imaginary parts of the same array of two dims cannot be drawn. -/
theorem C97_dims_refuted (N : Num β ℂ ℝ) (full : Arr β ℂ → Arr β ℂ) (ofIdx : Nat → β) (x y : Data β ℂ) (dx d : Dim β)
    (dxs ds : List (Dim β)) (n : Nat) (ns : List Nat) (args : List (Arg β ℂ)) (hc : y.cplx = false)
    (hm : ismatrix y.arr = false) (hd : y.arr.dims = d :: ds) (hs : y.arr.nd.shape = n :: ns)
    (hx : x.arr.dims = dxs) (hw : x.arr.WF) (hdi : Arr.Distinct dxs) (hmem : dx ∈ dxs) (hk : dx.key ≠ d.key)
    (hT : ∀ e ∈ d :: dxs, e.name ≠ "Tail") (hp : ∀ e ∈ d :: dxs, e.sortprio ≤ 1)
    (hsub : Arr.NoSub (d :: dxs)) (hlen : ∀ e m, (e, m) ∈ dxs.zip x.arr.nd.shape → e.key = d.key → m = n) :
    plot N full ofIdx (.data x :: .data y :: args) = .error .value := by
  rw [plot_two]
  obtain ⟨r, e, t, hr, hrd, hek, htk, hrs, -⟩ := tail_dims ofIdx y.arr d ds n ns hm hd hs
  have hen : e.name = d.name := congrArg Prod.fst hek
  have hec : e.cls = d.cls := congrArg Prod.snd hek
  have htn : t.name = "Tail" := congrArg Prod.fst htk
  have htc : t.cls = .dimRep := congrArg Prod.snd htk
  have hdt : d.key ≠ t.key := fun h => hT d (by simp) (by rw [← htn]; exact congrArg Prod.fst h)
  have hne : ∀ u ∈ dxs, u.name ≠ t.name := fun u hu => by rw [htn]; exact hT u (by simp [hu])
  obtain ⟨z, hz, hwf, hdist, -, hkeys, -, -⟩ := Arr.C06_binop_aligns_by_name full (· + ·) x.arr
    (Arr.scalarOp (fun v s => s * v) r Complex.I) hw (by simp [Arr.WF, Arr.scalarOp, hrd, hrs]) (by rw [hx]; exact hdi)
    (by simp [Arr.Distinct, Arr.scalarOp, hrd, hek, hdt])
    (by
      intro a ha b hb hab hs'
      simp only [Arr.scalarOp, hx, hrd, List.mem_append, List.mem_cons, List.not_mem_nil, or_false] at ha hb
      have hnet := hT d (by simp)
      rcases ha with ha | rfl | rfl <;> rcases hb with hb | rfl | rfl
      · exact hsub a (by simp [ha]) b (by simp [hb]) hab hs'
      · rw [hec] at hs' ⊢
        exact hsub a (by simp [ha]) d (by simp) (by rw [hab, hen]) hs'
      · exact absurd hab (hne a ha)
      · rw [hec] at hs' ⊢
        exact hsub d (by simp) b (by simp [hb]) (by rw [← hen, hab]) hs'
      · rfl
      · rw [hen, htn] at hab; exact absurd hab hnet
      · exact absurd hab.symm (hne b hb)
      · rw [hen, htn] at hab; exact absurd hab.symm hnet
      · rfl)
    (by
      intro k s u h1 h2
      simp only [Arr.axisLen, Arr.scalarOp, hx, hrd, hrs, List.zip_cons_cons, List.zip_nil_right, Option.map_eq_some_iff] at h1 h2
      obtain ⟨p, h1, rfl⟩ := h1
      obtain ⟨q, h2, rfl⟩ := h2
      have hp1 := List.mem_of_find?_eq_some h1
      have hp2 := List.find?_some h1
      have hq1 := List.mem_of_find?_eq_some h2
      have hq2 := List.find?_some h2
      simp only [decide_eq_true_eq] at hp2 hq2
      simp only [List.mem_cons, List.not_mem_nil, or_false] at hq1
      rcases hq1 with rfl | rfl
      · left
        exact hlen p.1 p.2 hp1 (by rw [hp2, ← hq2, ← hek])
      · exfalso
        have : p.1 ∈ dxs := (List.of_mem_zip hp1).1
        exact hne p.1 this (congrArg Prod.fst (hp2.trans hq2.symm)))
    (by
      intro h
      rw [noComplex] at h
      · cases h
      · intro u hu
        simp only [Arr.scalarOp, hx, hrd, List.mem_append, List.mem_cons, List.not_mem_nil, or_false] at hu
        rcases hu with hu | rfl | rfl
        · exact hp u (by simp [hu])
        · unfold Dim.sortprio; rw [hec]; exact hp d (by simp)
        · unfold Dim.sortprio; rw [htc]; decide)
  have h3 : 3 ≤ z.nd.shape.length := by
    have hw' : z.dims.length = z.nd.shape.length := hwf
    rw [← hw', ← List.length_map (f := Dim.key)]
    have hsubl : [dx.key, d.key, t.key] ⊆ z.dims.map Dim.key := by
      intro k hk'
      rw [hkeys]
      simp only [List.mem_cons, List.not_mem_nil, or_false] at hk'
      rcases hk' with rfl | rfl | rfl
      · left; rw [hx]; exact List.mem_map_of_mem hmem
      · right; simp [Arr.scalarOp, hrd, hek]
      · right; simp [Arr.scalarOp, hrd]
    have hnd : [dx.key, d.key, t.key].Nodup := by
      have h1 : dx.key ≠ t.key := fun h => hne dx hmem (congrArg Prod.fst h)
      simp [hk, hdt, h1]
    exact (hnd.subperm hsubl).length_le
  simp only [plotXY, hr, projection, hc, hz]
  have hcol : asColumns (mapArr Complex.arg z).nd = none := by
    unfold asColumns
    show (match z.nd.shape with | [] => _ | [n] => _ | [n, m] => _ | _ => none) = _
    match h : z.nd.shape with
    | [] => simp [h] at h3
    | [_] => simp [h] at h3
    | [_, _] => simp [h] at h3
    | _ :: _ :: _ :: _ => rfl
  simp [axesPlot, hcol]

/-- C97 fails for arrays without dims, such as arrays of numpy: the angles are dropped, and instead the numbers of the
points are taken as angles. -/
theorem C97_plain_refuted (index : Nat → ℝ) (y : Nd ℂ) (n : Nat) (hs : y.shape = [n]) :
    plotY index y = .ok [(List.range n).map fun k => (index k, ‖y.get [k]‖)] ∧
      ∀ k, Real.cos (index k) * ‖y.get [k]‖ ≠ (y.get [k]).re → place (index k, ‖y.get [k]‖) ≠ y.get [k] := by
  constructor
  · simp [plotY, projection1, axesPlot1, asColumns, mapNd, hs, List.range_succ]
  · intro k h e
    apply h
    conv_rhs => rw [← e]
    simp only [place, Complex.mul_re, Complex.add_re, Complex.ofReal_re, Complex.ofReal_im, Complex.I_re, Complex.I_im]
    ring

/-- C97 fails for matrices, which are refused whatever else is given. -/
theorem C97_matrix_refuted (N : Num β ℂ ℝ) (full : Arr β ℂ → Arr β ℂ) (ofIdx : Nat → β) (x y : Data β ℂ)
    (args fm : List (Arg β ℂ)) (hf : Formats fm) (hm : ismatrix y.arr = true) (hd : y.arr.dims ≠ []) :
    plot N full ofIdx (.data x :: .data y :: args) = .error .value ∧
      plot N full ofIdx (.data y :: fm) = .error .value := by
  cases hdd : y.arr.dims with
  | nil => exact absurd hdd hd
  | cons d ds =>
    rw [plot_two, plot_one _ _ _ _ _ _ _ hf hdd]
    simp [plotXY, tail, hm]

/-- C97.  Without data nothing is drawn: a call with no arguments, or one that begins with a format, raises. -/
theorem C97_nothing (N : Num β ℂ ℝ) (full : Arr β ℂ → Arr β ℂ) (ofIdx : Nat → β) :
    (∃ e, plot N full ofIdx [] = .error e) ∧ ∀ t args, ∃ e, plot N full ofIdx (.text t :: args) = .error e := by
  refine ⟨⟨_, rfl⟩, fun t args => ?_⟩
  rcases args with - | ⟨a | a, r⟩ <;> exact ⟨.type, by simp [plot]⟩

end HF.Plot.Polar
