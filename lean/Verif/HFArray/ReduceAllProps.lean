import Verif.HFArray.ReduceProps
import Verif.HFArray.RssProps
/-
C08, C107: reductions over the whole array.
-/
namespace HF.Arr

variable {β α γ : Type} [DecidableEq β]

theorem fiber_all (axes : List Nat) (k : Nat) (ss idx : List Nat) (h : ∀ j, k ≤ j → j < k + ss.length → j ∈ axes) :
    (Nd.fiber axes k ss idx).Nodup ∧ ∀ i, i ∈ Nd.fiber axes k ss idx ↔ Nd.Valid ss i := by
  induction ss generalizing k idx with
  | nil =>
    refine ⟨by simp [Nd.fiber], fun i => ?_⟩
    cases i <;> simp [Nd.fiber, Nd.Valid]
  | cons s ss ih =>
    obtain ⟨h1, h2⟩ := ih (k + 1) idx.tail fun j hj hj' => h j (by omega) (by simp only [List.length_cons]; omega)
    have hk : k ∈ axes := h k (by omega) (by simp only [List.length_cons]; omega)
    simp only [Nd.fiber, if_pos hk]
    constructor
    · rw [List.nodup_flatMap]
      refine ⟨fun i _ => h1.map fun a b e => (List.cons.inj e).2, ?_⟩
      refine List.nodup_range.imp fun {a b} hab => ?_
      intro x hx hx'
      obtain ⟨u, -, rfl⟩ := List.mem_map.1 hx
      obtain ⟨v, -, e⟩ := List.mem_map.1 hx'
      exact hab (List.cons.inj e).1.symm
    · intro i
      cases i with
      | nil => simp [Nd.Valid]
      | cons a t =>
        simp only [List.mem_flatMap, List.mem_range, List.mem_map, List.cons.injEq, Nd.Valid]
        constructor
        · rintro ⟨b, hb, u, hu, rfl, rfl⟩
          exact ⟨hb, (h2 _).1 hu⟩
        · rintro ⟨ha, ht⟩
          exact ⟨a, ha, t, (h2 _).2 ht, rfl, rfl⟩

theorem dropAt_range {δ : Type} (l : List δ) (ks : List Nat) (h : ∀ k < l.length, k ∈ ks) : Nd.dropAt ks l = [] := by
  unfold Nd.dropAt
  rw [List.map_eq_nil_iff, List.filter_eq_nil_iff]
  rintro ⟨a, k⟩ hk
  have := (List.mem_zipIdx hk).2.1
  simpa using h k (by omega)

/-- C08.  Without an axis every element of the array is combined, each exactly once, and no dims are left. -/
theorem C08_all (red : List α → γ) (x : Arr β α) (hwf : x.WF) :
    ∃ r, reduce red x none = .ok r ∧ r.dims = [] ∧ r.nd.shape = [] ∧
      ∃ L : List (List Nat), L.Nodup ∧ (∀ i, i ∈ L ↔ Nd.Valid x.nd.shape i) ∧ ∀ i, r.nd.get i = red (L.map x.nd.get) := by
  have hwf' : x.dims.length = x.nd.shape.length := hwf
  have hones : ∀ k < x.nd.shape.length, (x.nd.shape.map fun _ => 1).getD k 0 = 1 := by
    intro k hk
    simp [List.getD, hk]
  have hdims : ((x.dims.zipIdx.filter fun p => (x.nd.shape.map fun _ => 1).getD p.2 0 ≠ 1).map Prod.fst) = [] := by
    rw [List.map_eq_nil_iff, List.filter_eq_nil_iff]
    rintro ⟨d, k⟩ hk
    have := (List.mem_zipIdx hk).2.1
    simpa using hones k (by omega)
  have hdrop : ∀ (ks : List Nat), (∀ k < x.nd.shape.length, k ∈ ks) → Nd.dropAt ks (x.nd.shape.map fun _ => 1) = [] :=
    fun ks h => dropAt_range _ _ (by simpa using h)
  have hks : ∀ k < x.nd.shape.length, k ∈ (List.range x.nd.shape.length).filter fun k =>
      (x.nd.shape.map fun _ => 1).getD k 0 = 1 := by
    intro k hk
    rw [List.mem_filter]
    exact ⟨List.mem_range.2 hk, by simpa using hones k hk⟩
  have hf := fun idx => fiber_all (List.range x.nd.ndim) 0 x.nd.shape idx
    fun j _ hj => List.mem_range.2 (by simpa [Nd.ndim] using hj)
  have hindep : ∀ (axes : List Nat) (k : Nat) (ss i j : List Nat), (∀ l, k ≤ l → l < k + ss.length → l ∈ axes) →
      Nd.fiber axes k ss i = Nd.fiber axes k ss j := by
    intro axes k ss
    induction ss generalizing k with
    | nil => intros; rfl
    | cons s ss ih =>
      intro i j h
      simp only [Nd.fiber, if_pos (h k (by omega) (by simp only [List.length_cons]; omega))]
      rw [ih (k + 1) i.tail j.tail fun l hl hl' => h l (by omega) (by simp only [List.length_cons]; omega)]
  refine ⟨⟨[], ⟨[], fun idx => red ((Nd.fiber (List.range x.nd.ndim) 0 x.nd.shape
    (Nd.insertZeros ((List.range x.nd.shape.length).filter fun k => (x.nd.shape.map fun _ => 1).getD k 0 = 1) 0
      x.nd.shape.length idx)).map x.nd.get)⟩⟩, ?_, rfl, rfl, Nd.fiber (List.range x.nd.ndim) 0 x.nd.shape [], (hf []).1, (hf []).2, ?_⟩
  · simp only [reduce, Nd.reduce, ofNd, mk?, Nd.ndim, List.length_map, if_pos hwf', squeezeIdx, Nd.squeeze]
    rw [hdrop _ hks, hdims]
    exact if_pos (by rw [List.map_eq_nil_iff.1 hdims]; rfl)
  · intro i
    show red _ = _
    rw [hindep _ _ _ _ [] fun j _ hj => List.mem_range.2 (by simpa [Nd.ndim] using hj)]

/-- C107.  Without an axis `rss` is the root of the sum of the squared magnitudes of all elements, each counted once. -/
theorem C107_all (x : Arr β ℂ) (hwf : x.WF) :
    ∃ r, rss x none = .ok r ∧ r.dims = [] ∧ r.nd.shape = [] ∧
      ∃ L : List (List Nat), L.Nodup ∧ (∀ i, i ∈ L ↔ Nd.Valid x.nd.shape i) ∧
        0 ≤ r.nd.get [] ∧ r.nd.get [] ^ 2 = (L.map fun i => ‖x.nd.get i‖ ^ 2).sum := by
  obtain ⟨r, h1, h2, h3, L, h4, h5, h6⟩ := C08_all List.sum (eachElem (fun z : ℂ => ‖z‖ ^ 2) x) hwf
  refine ⟨eachElem (fun s : ℝ => s ^ (0.5 : ℝ)) r, by simp only [rss, h1], h2, h3, L, h4, h5, ?_⟩
  have e : (eachElem (fun s : ℝ => s ^ (0.5 : ℝ)) r).nd.get [] = Real.sqrt ((L.map fun i => ‖x.nd.get i‖ ^ 2).sum) := by
    show r.nd.get [] ^ (0.5 : ℝ) = _
    rw [half_sqrt, h6]
    rfl
  rw [e]
  exact ⟨Real.sqrt_nonneg _, Real.sq_sqrt (sum_sq_nonneg _ _)⟩

/-! ### A concrete case: two frequencies and two ports -/

def exRss : Arr Nat ℂ :=
  ⟨[⟨.dimSweep, "freq", [1, 2], none, none⟩, ⟨.dimSweep, "P", [5, 6], none, none⟩], ⟨[2, 2], fun i => if i = [0, 0] then 3 else if i = [1, 0] then 4 * Complex.I else 0⟩⟩

/-- The hypotheses are met, and the result for the first place along P is 5. -/
example : ∃ r, rss exRss (some [.name "freq"]) = .ok r ∧ r.dims = [⟨.dimSweep, "P", [5, 6], none, none⟩] ∧
    r.at_ (fun _ => 0) ^ 2 = 25 := by
  obtain ⟨r, h1, -, h3, -, h5⟩ := C107_value exRss rfl (by decide) [⟨.dimSweep, "freq", [1, 2], none, none⟩] [.name "freq"]
    (.cons (Or.inl rfl) .nil) (by simp [exRss]) (by simp)
  refine ⟨r, h1, h3.trans (by simp [exRss]), ?_⟩
  rw [(h5 _).2]
  have hl : ((exRss.dims.zip exRss.nd.shape).filter fun p => p.1 ∈ [(⟨.dimSweep, "freq", [1, 2], none, none⟩ : Dim Nat)]).map
      (fun p => (p.1.key, p.2)) = [(("freq", .dimSweep), 2)] := by decide +kernel
  rw [hl]
  simp [coordsOver, at_, exRss, Dim.key, List.range_succ]
  norm_num

end HF.Arr
