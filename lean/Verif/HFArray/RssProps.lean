import Mathlib.Analysis.InnerProductSpace.PiL2
import Verif.HFArray.Rss
import Verif.HFArray.ReduceProps
/-
C107: the root of the sum of squares along named dimensions.
-/
namespace HF.Arr

variable {β α γ : Type} [DecidableEq β]

/-! ### Lemmas -/

theorem half_sqrt (s : ℝ) : s ^ (0.5 : ℝ) = Real.sqrt s := by
  rw [Real.sqrt_eq_rpow]; norm_num

theorem each_at (f : α → γ) (x : Arr β α) (c : Coord) : (eachElem f x).at_ c = f (x.at_ c) := rfl

theorem sum_range_map (n : Nat) (f : Nat → ℝ) : ((List.range n).map f).sum = ∑ i ∈ Finset.range n, f i := rfl

theorem sum_flatMap {ι κ : Type} (l : List ι) (g : ι → List κ) (f : κ → ℝ) :
    ((l.flatMap g).map f).sum = (l.map fun i => ((g i).map f).sum).sum := by
  induction l with
  | nil => rfl
  | cons a t ih => simp [List.flatMap_cons, ih]

theorem coordsOver_append (A B : List (Key × Nat)) (c : Coord) :
    coordsOver (A ++ B) c = (coordsOver A c).flatMap (coordsOver B) := by
  induction A generalizing c with
  | nil => simp [coordsOver]
  | cons p t ih =>
    obtain ⟨k, n⟩ := p
    simp only [List.cons_append, coordsOver, ih, List.flatMap_assoc]

theorem coordsOver_perm {A B : List (Key × Nat)} (h : A.Perm B) (hn : (A.map Prod.fst).Nodup) (f : Coord → ℝ) (c : Coord) :
    ((coordsOver A c).map f).sum = ((coordsOver B c).map f).sum := by
  induction h generalizing c with
  | nil => rfl
  | cons p _ ih =>
    obtain ⟨k, n⟩ := p
    simp only [coordsOver, sum_flatMap]
    simp only [List.map_cons, List.nodup_cons] at hn
    congr 1
    exact List.map_congr_left fun i _ => ih hn.2 _
  | swap p q t =>
    obtain ⟨k, n⟩ := p
    obtain ⟨l, m⟩ := q
    simp only [List.map_cons, List.nodup_cons, List.mem_cons, not_or] at hn
    simp only [coordsOver, sum_flatMap, sum_range_map]
    rw [Finset.sum_comm]
    refine Finset.sum_congr rfl fun i _ => Finset.sum_congr rfl fun j _ => ?_
    congr 3
    funext q
    by_cases h1 : q = k <;> by_cases h2 : q = l
    · exact absurd (h2.symm.trans h1) hn.1.1
    · simp [h1, h1 ▸ h2]
    · simp [h2, h2 ▸ h1]
    · simp [h1, h2]
  | trans h1 _ ih1 ih2 => exact (ih1 hn c).trans (ih2 ((h1.map _).nodup_iff.1 hn) c)

theorem mink {ι : Type} (l : List ι) (f g : ι → ℂ) :
    Real.sqrt ((l.map fun i => ‖f i + g i‖ ^ 2).sum) ≤
      Real.sqrt ((l.map fun i => ‖f i‖ ^ 2).sum) + Real.sqrt ((l.map fun i => ‖g i‖ ^ 2).sum) := by
  have key : ∀ h : ι → ℂ, Real.sqrt ((l.map fun i => ‖h i‖ ^ 2).sum) =
      ‖(WithLp.toLp 2 fun i : Fin l.length => h l[i] : EuclideanSpace ℂ (Fin l.length))‖ := by
    intro h
    rw [EuclideanSpace.norm_eq, ← Fin.sum_univ_fun_getElem]
    rfl
  rw [key f, key g, key fun i => f i + g i]
  exact norm_add_le (WithLp.toLp 2 fun i : Fin l.length => f l[i] : EuclideanSpace ℂ (Fin l.length))
    (WithLp.toLp 2 fun i : Fin l.length => g l[i])

/-- The names and lengths of the dims in `ds`. -/
def spans (x : Arr β α) (ds : List (Dim β)) : List (Key × Nat) :=
  ((x.dims.zip x.nd.shape).filter fun p => p.1 ∈ ds).map fun p => (p.1.key, p.2)

theorem rss_at (x : Arr β ℂ) (hwf : x.WF) (hn : (x.dims.map Dim.name).Nodup) (ds : List (Dim β)) (axes : List (Axis β))
    (h : List.Forall₂ (AxisRefers x.dims) ds axes) (hds : ds ⊆ x.dims) (hdn : ds.Nodup) :
    ∃ r, rss x (some axes) = .ok r ∧ r.WF ∧
      r.dims.zip r.nd.shape = (x.dims.zip x.nd.shape).filter (fun p => p.1 ∉ ds) ∧
      r.dims = x.dims.filter (fun d => d ∉ ds) ∧
      ∀ c, r.at_ c = Real.sqrt (((coordsOver (spans x ds) c).map fun c' => ‖x.at_ c'‖ ^ 2).sum) := by
  obtain ⟨r, h1, h2, h3, h4, h5⟩ := C08_reduce_named List.sum (eachElem (fun z : ℂ => ‖z‖ ^ 2) x) hwf hn ds axes h hds hdn
  refine ⟨eachElem (fun s : ℝ => s ^ (0.5 : ℝ)) r, by simp only [rss, h1], h2, h3, h4, fun c => ?_⟩
  rw [each_at, half_sqrt, h5]
  rfl

theorem sum_sq_nonneg {ι : Type} (l : List ι) (f : ι → ℂ) : 0 ≤ (l.map fun i => ‖f i‖ ^ 2).sum :=
  List.sum_nonneg fun a ha => by
    obtain ⟨i, -, rfl⟩ := List.mem_map.1 ha
    positivity

/-! ### Properties -/

/-- C107.  `rss` over any number of dimensions, each given by name, as dim object or by its position, removes exactly these
dimensions, and the element at every coordinate is the number that is not negative and whose square is the sum of the squared
magnitudes of the elements that agree in the remaining coordinates. -/
theorem C107_value (x : Arr β ℂ) (hwf : x.WF) (hn : (x.dims.map Dim.name).Nodup) (ds : List (Dim β)) (axes : List (Axis β))
    (h : List.Forall₂ (AxisRefers x.dims) ds axes) (hds : ds ⊆ x.dims) (hdn : ds.Nodup) :
    ∃ r, rss x (some axes) = .ok r ∧ r.WF ∧ r.dims = x.dims.filter (fun d => d ∉ ds) ∧
      r.dims.zip r.nd.shape = (x.dims.zip x.nd.shape).filter (fun p => p.1 ∉ ds) ∧
      ∀ c, 0 ≤ r.at_ c ∧ r.at_ c ^ 2 = ((coordsOver (((x.dims.zip x.nd.shape).filter fun p => p.1 ∈ ds).map
        fun p => (p.1.key, p.2)) c).map fun c' => ‖x.at_ c'‖ ^ 2).sum := by
  obtain ⟨r, h1, h2, h3, h4, h5⟩ := rss_at x hwf hn ds axes h hds hdn
  refine ⟨r, h1, h2, h4, h3, fun c => ?_⟩
  rw [h5]
  exact ⟨Real.sqrt_nonneg _, Real.sq_sqrt (sum_sq_nonneg _ _)⟩

/-- C107.  `rss` over some dimensions and then over others is `rss` over all of them at once. -/
theorem C107_steps (x : Arr β ℂ) (hwf : x.WF) (hn : (x.dims.map Dim.name).Nodup) (ds es : List (Dim β))
    (as bs : List (Axis β)) (ha : List.Forall₂ (AxisRefers x.dims) ds as) (hb : es.map (fun d => Axis.name d.name) = bs)
    (hds : ds ⊆ x.dims) (hes : es ⊆ x.dims) (hdn : (ds ++ es).Nodup) :
    ∃ r s t, rss x (some as) = .ok r ∧ rss (eachElem (fun v : ℝ => (v : ℂ)) r) (some bs) = .ok s ∧
      rss x (some (as ++ bs)) = .ok t ∧ s.dims = t.dims ∧ s.nd.shape = t.nd.shape ∧ ∀ c, s.at_ c = t.at_ c := by
  subst hb
  rw [List.nodup_append] at hdn
  obtain ⟨hd1, hd2, hd3⟩ := hdn
  have refers : ∀ (dims : List (Dim β)) (l : List (Dim β)),
      List.Forall₂ (AxisRefers dims) l (l.map fun d => Axis.name d.name) := by
    intro dims l
    induction l with
    | nil => exact .nil
    | cons a t ih => exact .cons (Or.inl rfl) ih
  obtain ⟨r, r1, r2, r3, r4, r5⟩ := rss_at x hwf hn ds as ha hds hd1
  have hsub : es ⊆ r.dims := by
    intro e he
    rw [r4, List.mem_filter]
    exact ⟨hes he, by simpa using fun h => hd3 _ h _ he rfl⟩
  have hrn : (r.dims.map Dim.name).Nodup := by
    rw [r4]
    exact hn.sublist (List.filter_sublist.map _)
  obtain ⟨s, s1, s2, s3, s4, s5⟩ := rss_at (eachElem (fun v : ℝ => (v : ℂ)) r) r2 hrn es _ (refers _ es) hsub hd2
  obtain ⟨t, t1, t2, t3, t4, t5⟩ := rss_at x hwf hn (ds ++ es) _ (List.rel_append ha (refers _ es))
    (by simpa using ⟨hds, hes⟩) (List.nodup_append.2 ⟨hd1, hd2, hd3⟩)
  have hz : s.dims.zip s.nd.shape = t.dims.zip t.nd.shape := by
    rw [s3, t3]
    show List.filter _ (r.dims.zip r.nd.shape) = _
    rw [r3, List.filter_filter]
    apply List.filter_congr
    intro p _
    simp only [List.mem_append, decide_not, not_or, Bool.decide_and, Bool.and_comm]
  have hdim : s.dims = t.dims := by
    have := congrArg (List.map Prod.fst) hz
    rwa [List.map_fst_zip (Nat.le_of_eq s2), List.map_fst_zip (Nat.le_of_eq t2)] at this
  have hsh : s.nd.shape = t.nd.shape := by
    have := congrArg (List.map Prod.snd) hz
    rwa [List.map_snd_zip (Nat.le_of_eq s2.symm), List.map_snd_zip (Nat.le_of_eq t2.symm)] at this
  refine ⟨r, s, t, r1, s1, t1, hdim, hsh, fun c => ?_⟩
  rw [s5, t5]
  congr 1
  have e1 : ∀ c', ‖(eachElem (fun v : ℝ => (v : ℂ)) r).at_ c'‖ ^ 2 =
      ((coordsOver (spans x ds) c').map fun c'' => ‖x.at_ c''‖ ^ 2).sum := by
    intro c'
    rw [each_at, Complex.norm_real, Real.norm_eq_abs, sq_abs, r5, Real.sq_sqrt (sum_sq_nonneg _ _)]
  simp only [e1]
  have hsp : spans (eachElem (fun v : ℝ => (v : ℂ)) r) es = spans x es := by
    unfold spans
    show List.map _ (List.filter _ (r.dims.zip r.nd.shape)) = _
    rw [r3, List.filter_filter]
    congr 1
    apply List.filter_congr
    intro p _
    by_cases hp : p.1 ∈ es
    · have : p.1 ∉ ds := fun h => hd3 _ h _ hp rfl
      simp [hp, this]
    · simp [hp]
  rw [hsp, ← sum_flatMap, ← coordsOver_append]
  have hkn : ∀ p : Dim β × Nat → Bool, (((x.dims.zip x.nd.shape).filter p).map fun q => q.1.key).Nodup := by
    intro p
    have h1 : ((x.dims.zip x.nd.shape).map fun q => q.1.key).Nodup := by
      have : (x.dims.zip x.nd.shape).map (fun q => q.1.key) = x.dims.map Dim.key := by
        have h2 := congrArg (List.map Dim.key) (List.map_fst_zip (l₁ := x.dims) (l₂ := x.nd.shape) (Nat.le_of_eq hwf))
        rw [List.map_map] at h2
        exact h2
      rw [this]
      have hk : x.dims.map Dim.name = (x.dims.map Dim.key).map Prod.fst := by rw [List.map_map]; rfl
      rw [hk] at hn
      exact List.Nodup.of_map _ hn
    exact h1.sublist (List.filter_sublist.map _)
  apply coordsOver_perm
  · unfold spans
    rw [← List.map_append]
    apply List.Perm.map
    have hperm : ∀ z : List (Dim β × Nat), ((z.filter fun p => p.1 ∈ es) ++ z.filter fun p => p.1 ∈ ds).Perm
        (z.filter fun p => p.1 ∈ ds ++ es) := by
      intro z
      induction z with
      | nil => simp
      | cons p t ih =>
        by_cases h1 : p.1 ∈ es
        · have h2 : p.1 ∉ ds := fun h => hd3 _ h _ h1 rfl
          simpa [List.filter_cons, h1, h2] using ih
        · by_cases h2 : p.1 ∈ ds
          · simp only [List.filter_cons, h1, h2, List.mem_append, true_or, decide_true, decide_false, if_true,
              Bool.false_eq_true, if_false]
            refine List.perm_middle.trans (List.Perm.cons _ ?_)
            simpa using ih
          · simpa [List.filter_cons, h1, h2] using ih
    exact hperm _
  · unfold spans
    rw [← List.map_append, List.map_map]
    have hperm : ((fun p : Key × Nat => p.1) ∘ fun p : Dim β × Nat => (p.1.key, p.2)) = fun p => p.1.key := rfl
    show (List.map ((fun p : Key × Nat => p.1) ∘ fun p : Dim β × Nat => (p.1.key, p.2)) _).Nodup
    rw [hperm, List.map_append, List.nodup_append]
    refine ⟨hkn _, hkn _, ?_⟩
    intro a ha b hb hab
    obtain ⟨p, hp, rfl⟩ := List.mem_map.1 ha
    obtain ⟨q, hq, rfl⟩ := List.mem_map.1 hb
    rw [List.mem_filter] at hp hq
    have m1 := (List.of_mem_zip hp.1).1
    have m2 := (List.of_mem_zip hq.1).1
    have hname : p.1.name = q.1.name := congrArg Prod.fst hab
    have : p.1 = q.1 := List.inj_on_of_nodup_map hn m1 m2 hname
    exact hd3 _ (by simpa using hq.2) _ (by simpa using hp.2) this.symm

/-- C107.  Multiplying the array by a number multiplies `rss` by the magnitude of that number. -/
theorem C107_scale (x y : Arr β ℂ) (hwf : x.WF) (hn : (x.dims.map Dim.name).Nodup) (ds : List (Dim β)) (axes : List (Axis β))
    (h : List.Forall₂ (AxisRefers x.dims) ds axes) (hds : ds ⊆ x.dims) (hdn : ds.Nodup) (k : ℂ)
    (hd : y.dims = x.dims) (hs : y.nd.shape = x.nd.shape) (hy : ∀ c, y.at_ c = k * x.at_ c) :
    ∃ r s, rss x (some axes) = .ok r ∧ rss y (some axes) = .ok s ∧ ∀ c, s.at_ c = ‖k‖ * r.at_ c := by
  obtain ⟨r, h1, -, -, -, h5⟩ := rss_at x hwf hn ds axes h hds hdn
  obtain ⟨s, g1, -, -, -, g5⟩ := rss_at y (by unfold WF at *; rw [hd, hs]; exact hwf) (hd ▸ hn) ds axes (hd ▸ h) (hd ▸ hds) hdn
  refine ⟨r, s, h1, g1, fun c => ?_⟩
  rw [h5, g5]
  have e : spans y ds = spans x ds := by unfold spans; rw [hd, hs]
  simp only [e, hy, norm_mul, mul_pow]
  rw [List.sum_map_mul_left, Real.sqrt_mul (by positivity), Real.sqrt_sq (norm_nonneg k)]

/-- C107.  `rss` of a sum is at most the sum of both. -/
theorem C107_triangle (x y z : Arr β ℂ) (hwf : x.WF) (hn : (x.dims.map Dim.name).Nodup) (ds : List (Dim β))
    (axes : List (Axis β)) (h : List.Forall₂ (AxisRefers x.dims) ds axes) (hds : ds ⊆ x.dims) (hdn : ds.Nodup)
    (hd : y.dims = x.dims) (hs : y.nd.shape = x.nd.shape) (hd' : z.dims = x.dims) (hs' : z.nd.shape = x.nd.shape)
    (hz : ∀ c, z.at_ c = x.at_ c + y.at_ c) :
    ∃ r s t, rss x (some axes) = .ok r ∧ rss y (some axes) = .ok s ∧ rss z (some axes) = .ok t ∧
      ∀ c, t.at_ c ≤ r.at_ c + s.at_ c := by
  obtain ⟨r, h1, -, -, -, h5⟩ := rss_at x hwf hn ds axes h hds hdn
  obtain ⟨s, g1, -, -, -, g5⟩ := rss_at y (by unfold WF at *; rw [hd, hs]; exact hwf) (hd ▸ hn) ds axes (hd ▸ h) (hd ▸ hds) hdn
  obtain ⟨t, f1, -, -, -, f5⟩ := rss_at z (by unfold WF at *; rw [hd', hs']; exact hwf) (hd' ▸ hn) ds axes (hd' ▸ h) (hd' ▸ hds) hdn
  refine ⟨r, s, t, h1, g1, f1, fun c => ?_⟩
  have e : spans y ds = spans x ds := by unfold spans; rw [hd, hs]
  have e' : spans z ds = spans x ds := by unfold spans; rw [hd', hs']
  rw [h5, g5, f5, e, e']
  simp only [hz]
  exact mink _ _ _

/-- C107.  `rss` is zero exactly at the coordinates where all the elements are. -/
theorem C107_zero (x : Arr β ℂ) (hwf : x.WF) (hn : (x.dims.map Dim.name).Nodup) (ds : List (Dim β)) (axes : List (Axis β))
    (h : List.Forall₂ (AxisRefers x.dims) ds axes) (hds : ds ⊆ x.dims) (hdn : ds.Nodup) :
    ∃ r, rss x (some axes) = .ok r ∧ ∀ c, r.at_ c = 0 ↔ ∀ c' ∈ coordsOver (((x.dims.zip x.nd.shape).filter fun p => p.1 ∈ ds).map
        fun p => (p.1.key, p.2)) c, x.at_ c' = 0 := by
  obtain ⟨r, h1, -, -, -, h5⟩ := rss_at x hwf hn ds axes h hds hdn
  refine ⟨r, h1, fun c => ?_⟩
  rw [h5, Real.sqrt_eq_zero (sum_sq_nonneg _ _)]
  show _ ↔ ∀ c' ∈ coordsOver (spans x ds) c, x.at_ c' = 0
  induction coordsOver (spans x ds) c with
  | nil => simp
  | cons a t ih =>
    have := sum_sq_nonneg t fun c' => x.at_ c'
    rw [List.map_cons, List.sum_cons, add_eq_zero_iff_of_nonneg (by positivity) this, ih]
    simp

/-- C107.  An unknown name and a negative number are refused, as for sums. -/
theorem C107_refused (x : Arr β ℂ) :
    (∀ s, s ∉ x.dims.map Dim.name → rss x (some [.name s]) = .error .indexError) ∧
    (x.WF → ∀ i : Int, i < 0 → -(x.dims.length : Int) ≤ i → rss x (some [.int i]) = .error .shapeDimsMismatch) := by
  constructor
  · intro s h
    unfold rss
    rw [C08_unknown_axis List.sum (eachElem (fun z : ℂ => ‖z‖ ^ 2) x) s h]
  · intro hwf i h1 h2
    unfold rss
    rw [C08_negative_axis_refuted List.sum (eachElem (fun z : ℂ => ‖z‖ ^ 2) x) hwf i h1 h2]

end HF.Arr
