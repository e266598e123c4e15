import Verif.HFArray.ReorderProps
/-
Lemmas for reductions.
-/
namespace HF

namespace Nd

theorem normAxes_ofNat {n : Nat} {ks : List Nat} (hn : ks.Nodup) (h : ∀ k ∈ ks, k < n) :
    normAxes n (ks.map Int.ofNat) = .ok ks := by
  induction ks with
  | nil => rfl
  | cons k t ih =>
    simp only [List.nodup_cons] at hn
    have hk := h k (by simp)
    have h1 : normAxis n (Int.ofNat k) = some k := by
      have : (0 : Int) ≤ (k : Int) ∧ (k : Int) < n := by omega
      simp [normAxis, hk]
    have e := ih hn.2 fun j hj => h j (by simp [hj])
    rw [List.map_cons, normAxes, h1, e]
    simp only
    rw [if_neg hn.1]

/-- `dropAt` starting to count at `j`. -/
def dropFrom {δ : Type} (ks : List Nat) (j : Nat) (l : List δ) : List δ :=
  ((l.zipIdx j).filter fun p => p.2 ∉ ks).map Prod.fst

theorem dropAt_eq {δ : Type} (ks : List Nat) (l : List δ) : dropAt ks l = dropFrom ks 0 l := rfl

theorem dropFrom_cons {δ : Type} (ks : List Nat) (j : Nat) (d : δ) (t : List δ) :
    dropFrom ks j (d :: t) = if j ∈ ks then dropFrom ks (j + 1) t else d :: dropFrom ks (j + 1) t := by
  by_cases h : j ∈ ks <;> simp [dropFrom, List.zipIdx_cons, h]

theorem dropFrom_map {δ ε : Type} (ks : List Nat) (f : δ → ε) (l : List δ) (j : Nat) :
    dropFrom ks j (l.map f) = (dropFrom ks j l).map f := by
  induction l generalizing j with
  | nil => rfl
  | cons d t ih =>
    simp only [List.map_cons, dropFrom_cons, ih]
    split <;> simp

theorem dropFrom_length {δ ε : Type} (ks : List Nat) (l : List δ) (m : List ε) (j : Nat)
    (h : l.length = m.length) : (dropFrom ks j l).length = (dropFrom ks j m).length := by
  induction l generalizing m j with
  | nil => cases m <;> simp at h; rfl
  | cons d t ih =>
    cases m with
    | nil => simp at h
    | cons e u =>
      simp only [dropFrom_cons]
      have := ih u (j + 1) (by simpa using h)
      split <;> simp [this]

end Nd

namespace Arr

variable {β α γ : Type}

/-- All coordinates which agree with `c` outside of the listed axes, the last axis varying
fastest. -/
def coordsOver : List (Key × Nat) → Coord → List Coord
  | [], c => [c]
  | (k, n) :: t, c => (List.range n).flatMap fun i =>
      coordsOver t (fun q => if q = k then i else c q)

theorem coordsOver_other {A : List (Key × Nat)} {c : Coord} {k : Key} (hk : k ∉ A.map Prod.fst) :
    ∀ c' ∈ coordsOver A c, c' k = c k := by
  induction A generalizing c with
  | nil => intro c' h; simp [coordsOver] at h; rw [h]
  | cons a t ih =>
    obtain ⟨q, n⟩ := a
    simp only [List.map_cons, List.mem_cons, not_or] at hk
    intro c' h
    simp only [coordsOver, List.mem_flatMap] at h
    obtain ⟨i, _, hi⟩ := h
    rw [ih hk.2 c' hi, if_neg hk.1]

/-- The axes with positions in `ks`, counting from `j`. -/
def axesAt (ks : List Nat) : Nat → List (Dim β) → List Nat → List (Key × Nat)
  | j, d :: ds, s :: ss => if j ∈ ks then (d.key, s) :: axesAt ks (j + 1) ds ss
      else axesAt ks (j + 1) ds ss
  | _, _, _ => []

theorem axesAt_keys (ks : List Nat) (j : Nat) (ds : List (Dim β)) (ss : List Nat) {k : Key}
    (h : k ∉ ds.map Dim.key) : k ∉ (axesAt ks j ds ss).map Prod.fst := by
  induction ds generalizing j ss with
  | nil => simp [axesAt]
  | cons d t ih =>
    simp only [List.map_cons, List.mem_cons, not_or] at h
    cases ss with
    | nil => simp [axesAt]
    | cons s u =>
      simp only [axesAt]
      split
      · simp only [List.map_cons, List.mem_cons, not_or]
        exact ⟨h.1, ih _ _ h.2⟩
      · exact ih _ _ h.2

/-- `idx` agrees with coordinate `c` at the axes not in `ks`. -/
def Agree (ks : List Nat) : Nat → List (Dim β) → List Nat → Coord → Prop
  | _, [], _, _ => True
  | j, d :: ds, idx, c => (j ∉ ks → idx.headD 0 = c d.key) ∧ Agree ks (j + 1) ds idx.tail c

theorem Agree.congr {ks : List Nat} {j : Nat} {ds : List (Dim β)} {idx : List Nat} {c c' : Coord}
    (h : Agree ks j ds idx c) (hc : ∀ k ∈ ds.map Dim.key, c k = c' k) : Agree ks j ds idx c' := by
  induction ds generalizing j idx with
  | nil => trivial
  | cons d t ih =>
    simp only [List.map_cons, List.mem_cons, forall_eq_or_imp] at hc
    exact ⟨fun hj => by rw [h.1 hj, hc.1], ih h.2 hc.2⟩

theorem fiber_eq {ks : List Nat} {j : Nat} {ds : List (Dim β)} {ss idx : List Nat} {c : Coord}
    (hd : Distinct ds) (hl : ds.length = ss.length) (ha : Agree ks j ds idx c) :
    Nd.fiber ks j ss idx = (coordsOver (axesAt ks j ds ss) c).map fun c' => ds.map fun d => c' d.key := by
  induction ds generalizing j ss idx c with
  | nil =>
    cases ss with
    | nil => simp [Nd.fiber, axesAt, coordsOver]
    | cons s u => simp at hl
  | cons d t ih =>
    cases ss with
    | nil => simp at hl
    | cons s u =>
      simp only [Distinct, List.map_cons, List.nodup_cons] at hd
      have hl' : t.length = u.length := by simpa using hl
      simp only [Nd.fiber, axesAt]
      split
      · simp only [coordsOver]
        rw [List.map_flatMap]
        apply List.flatMap_congr
        intro i _
        have hag : Agree ks (j + 1) t idx.tail (fun q => if q = d.key then i else c q) := by
          refine ha.2.congr fun k hk => ?_
          have : k ≠ d.key := fun h => hd.1 (h ▸ hk)
          rw [if_neg this]
        rw [ih hd.2 hl' hag, List.map_map]
        apply List.map_congr_left
        intro c' hc'
        simp only [Function.comp, List.map_cons]
        rw [coordsOver_other (axesAt_keys ks (j + 1) t u hd.1) c' hc', if_pos rfl]
      · rename_i hj
        rw [ih hd.2 hl' ha.2, List.map_map]
        apply List.map_congr_left
        intro c' hc'
        simp only [Function.comp, List.map_cons]
        rw [coordsOver_other (axesAt_keys ks (j + 1) t u hd.1) c' hc', ha.1 hj]

theorem agree_insertZeros (ks : List Nat) (j : Nat) (ds : List (Dim β)) (c : Coord) :
    Agree ks j ds (Nd.insertZeros ks j ds.length
      ((Nd.dropFrom ks j ds).map fun d => c d.key)) c := by
  induction ds generalizing j with
  | nil => trivial
  | cons d t ih =>
    simp only [List.length_cons, Nd.insertZeros, Nd.dropFrom_cons]
    by_cases hj : j ∈ ks
    · simp only [hj, if_true]
      exact ⟨fun h => absurd hj h, ih (j + 1)⟩
    · simp only [hj, if_false, List.map_cons, List.headD_cons, List.tail_cons]
      exact ⟨fun _ => rfl, ih (j + 1)⟩

theorem filter_int_eq (ks : List Nat) {δ : Type} (l : List δ) :
    (l.zipIdx.filter fun p => (p.2 : Int) ∉ ks.map Int.ofNat).map Prod.fst = Nd.dropAt ks l := by
  unfold Nd.dropAt
  congr 1
  apply List.filter_congr
  intro p _
  rw [decide_eq_decide, not_iff_not, List.mem_map]
  constructor
  · rintro ⟨a, ha, h⟩
    have : a = p.2 := Int.ofNat.inj h
    exact this ▸ ha
  · exact fun h => ⟨p.2, h, rfl⟩

theorem keepShape_ones {ks : List Nat} {sh : List Nat} (h : ∀ k ∈ ks, k < sh.length) :
    (ks.all fun k => (Nd.keepShape ks sh).getD k 0 = 1) = true := by
  rw [List.all_eq_true]
  intro k hk
  have := h k hk
  simp [Nd.keepShape, List.getD_eq_getElem?_getD, List.getElem?_eq_getElem this, hk]

/-- The reduction once the axes are resolved. -/
theorem reduce_resolved [DecidableEq β] (red : List α → γ) (x : Arr β α) (hwf : x.WF)
    (hd : Distinct x.dims) (axes : List (Axis β)) (ks : List Nat)
    (hax : multipleAxis x.dims axes = .ok (ks.map Int.ofNat)) (hn : ks.Nodup)
    (hk : ∀ k ∈ ks, k < x.dims.length) :
    ∃ r, reduce red x (some axes) = .ok r ∧ r.WF ∧ r.dims = Nd.dropAt ks x.dims ∧
      r.nd.shape = Nd.dropAt ks x.nd.shape ∧
      ∀ c, r.at_ c = red ((coordsOver (axesAt ks 0 x.dims x.nd.shape) c).map x.at_) := by
  have hk' : ∀ k ∈ ks, k < x.nd.ndim := fun k h => by rw [Nd.ndim, ← hwf]; exact hk k h
  have hks : (Nd.keepShape ks x.nd.shape).length = x.nd.shape.length := by simp [Nd.keepShape]
  have hdrop : Nd.dropAt ks (Nd.keepShape ks x.nd.shape) = Nd.dropAt ks x.nd.shape := by
    have : ∀ (l : List Nat) (j : Nat),
        Nd.dropFrom ks j (l.mapIdx fun k s => if k + j ∈ ks then 1 else s) = Nd.dropFrom ks j l := by
      intro l
      induction l with
      | nil => intro j; rfl
      | cons a t ih =>
        intro j
        rw [List.mapIdx_cons]
        simp only [Nd.dropFrom_cons, Nat.zero_add]
        have e : (t.mapIdx fun i s => if i + 1 + j ∈ ks then 1 else s) =
            t.mapIdx fun i s => if i + (j + 1) ∈ ks then 1 else s := by
          congr 1; funext i s; rw [Nat.add_right_comm, Nat.add_assoc]
        rw [e, ih (j + 1)]
        split <;> rfl
    have := this x.nd.shape 0
    simpa [Nd.keepShape, Nd.dropAt_eq] using this
  have hlen : (Nd.dropAt ks x.dims).length = (Nd.dropAt ks x.nd.shape).length := by
    simpa [Nd.dropAt_eq] using Nd.dropFrom_length ks x.dims x.nd.shape 0 hwf
  let g : List Nat → γ := fun idx => red ((Nd.fiber ks 0 x.nd.shape idx).map x.nd.get)
  have e1 : Nd.reduce red x.nd (some (ks.map Int.ofNat)) =
      .ok ⟨Nd.keepShape ks x.nd.shape, g⟩ := by
    simp only [Nd.reduce, Nd.normAxes_ofNat hn hk', g]
  have e2 : mk? (⟨Nd.keepShape ks x.nd.shape, g⟩ : Nd γ) x.dims =
      .ok ⟨x.dims, ⟨Nd.keepShape ks x.nd.shape, g⟩⟩ := by
    have : x.dims.length = (⟨Nd.keepShape ks x.nd.shape, g⟩ : Nd γ).ndim := by
      rw [Nd.ndim, hks]; exact hwf
    simp [mk?, this]
  have hk'' : ∀ k ∈ ks, k < (⟨Nd.keepShape ks x.nd.shape, g⟩ : Nd γ).ndim := by
    intro k h; rw [Nd.ndim, hks]; exact hk' k h
  have e3 : Nd.squeeze (⟨Nd.keepShape ks x.nd.shape, g⟩ : Nd γ) (some (ks.map Int.ofNat)) =
      .ok ⟨Nd.dropAt ks x.nd.shape, fun idx => g (Nd.insertZeros ks 0 x.dims.length idx)⟩ := by
    have hnd : (⟨Nd.keepShape ks x.nd.shape, g⟩ : Nd γ).ndim = x.dims.length := by
      rw [Nd.ndim, hks]; exact hwf.symm
    simp only [Nd.squeeze, hnd, Nd.normAxes_ofNat hn hk, keepShape_ones hk', if_true, hdrop]
  refine ⟨⟨Nd.dropAt ks x.dims, ⟨Nd.dropAt ks x.nd.shape,
    fun idx => g (Nd.insertZeros ks 0 x.dims.length idx)⟩⟩, ?_, hlen, rfl, rfl, ?_⟩
  · simp only [reduce, hax, e1, ofNd, e2, squeezeIdx, filter_int_eq, e3]
    simp only [mk?, Nd.ndim, hlen, if_true]
  · intro c
    have := fiber_eq hd hwf (agree_insertZeros ks 0 x.dims c)
    simp only [at_, g, Nd.dropAt_eq, this, List.map_map]
    rfl

end Arr
end HF
