import Verif.HFArray.MatMul
import Verif.HFArray.BinopOrder
/-
Stacks of matrices: what the operands of the linear algebra functions and their results look
like at named coordinates.
-/
namespace HF.Arr

variable {β α : Type}

/-- The coordinate with row index `m` and column index `n`. -/
def upd (c : Coord) (ki kj : Key) (m n : Nat) : Coord :=
  fun k => if k = ki then m else if k = kj then n else c k

theorem bidx_map (l : List (Dim β)) (f g : Key → Nat) :
    Nd.bidx (l.map fun u => f u.key) (l.map fun u => g u.key) =
      l.map fun u => if f u.key = 1 then 0 else g u.key := by
  unfold Nd.bidx
  induction l with
  | nil => rfl
  | cons d t ih => simp only [List.map_cons, List.zipWith_cons_cons, ih]

theorem valid_map (l : List (Dim β)) (f g : Key → Nat) :
    Nd.Valid (l.map fun u => f u.key) (l.map fun u => g u.key) ↔ ∀ u ∈ l, g u.key < f u.key := by
  induction l with
  | nil => simp [Nd.Valid]
  | cons d t ih => simp only [List.map_cons, Nd.Valid, ih, List.forall_mem_cons]

/-- Length of a broadcast axis. -/
def lenB (s t : Nat) : Nat := if s = 1 then t else s

theorem bshape_map (l : List (Dim β)) (f g : Key → Nat)
    (h : ∀ u ∈ l, f u.key = g u.key ∨ f u.key = 1 ∨ g u.key = 1) :
    Nd.bshape (l.map fun u => f u.key) (l.map fun u => g u.key) =
      .ok (l.map fun u => lenB (f u.key) (g u.key)) := by
  induction l with
  | nil => rfl
  | cons d t ih =>
    simp only [List.map_cons, Nd.bshape, ih fun u hu => h u (List.mem_cons_of_mem _ hu), lenB]
    have := h d (by simp)
    by_cases e1 : f d.key = g d.key
    · simp [e1]
    · by_cases e2 : f d.key = 1
      · simp [e1, e2]
      · have e3 : g d.key = 1 := by tauto
        simp [e1, e2, e3]

theorem bshape_map_error (l : List (Dim β)) (f g : Key → Nat) {u : Dim β} (hu : u ∈ l)
    (h1 : f u.key ≠ g u.key) (h2 : f u.key ≠ 1) (h3 : g u.key ≠ 1) :
    ∃ e, Nd.bshape (l.map fun u => f u.key) (l.map fun u => g u.key) = .error e := by
  cases h : Nd.bshape (l.map fun u => f u.key) (l.map fun u => g u.key) with
  | error e => exact ⟨e, rfl⟩
  | ok r =>
    exfalso
    obtain ⟨-, hk⟩ := Nd.bshape_ok_iff.1 ⟨r, h⟩
    obtain ⟨k, hkl, rfl⟩ := List.getElem_of_mem hu
    have := hk k (by simpa using hkl)
    rw [getD_map_key l f hkl, getD_map_key l g hkl] at this
    tauto

theorem split2_append (so : List Nat) (p q : Nat) : Nd.split2 (so ++ [p, q]) = some (so, p, q) := by
  simp [Nd.split2]

theorem axisLen_map {x : Arr β α} (f : Key → Nat) (hs : x.nd.shape = x.dims.map fun u => f u.key)
    {k : Key} (hk : k ∈ x.dims.map Dim.key) : x.axisLen k = some (f k) := by
  unfold axisLen
  rw [hs]
  generalize x.dims = l at hk
  induction l with
  | nil => simp at hk
  | cons d t ih =>
    simp only [List.map_cons, List.zip_cons_cons, List.find?_cons]
    by_cases h : d.key = k
    · simp [h]
    · simp only [h, decide_false]
      exact ih (by simpa [Ne.symm h, eq_comm] using hk)

theorem atB_map {x : Arr β α} (f : Key → Nat) (hs : x.nd.shape = x.dims.map fun u => f u.key)
    (c : Coord) : x.atB c = x.nd.get (x.dims.map fun u => if f u.key = 1 then 0 else c u.key) := by
  unfold atB
  rw [hs]
  congr 1
  generalize x.dims = l
  induction l with
  | nil => rfl
  | cons d t ih => simp only [List.map_cons, List.zipWith_cons_cons, ih]

/-- Operands of the linear algebra functions: together they have one row axis `ki`, one column
axis `kj`, and otherwise only sweeps and repetitions. -/
structure Stacks (a b : Arr β α) (ki kj : Key) : Prop where
  wfa : a.WF
  wfb : b.WF
  na : Distinct a.dims
  nb : Distinct b.dims
  nosub : NoSub (a.dims ++ b.dims)
  row : ki ∈ (a.dims ++ b.dims).map Dim.key
  col : kj ∈ (a.dims ++ b.dims).map Dim.key
  rowCls : ki.2 = .matI
  colCls : kj.2 = .matJ
  others : ∀ d ∈ a.dims ++ b.dims, d.key ≠ ki → d.key ≠ kj →
    d.isa .dimSweep = true ∨ d.isa .dimRep = true

/-- Length of an axis, one if it is missing. -/
def len1 (x : Arr β α) (k : Key) : Nat := (x.axisLen k).getD 1

theorem keys_ne {ki kj : Key} (ci : ki.2 = .matI) (cj : kj.2 = .matJ) : ki ≠ kj := by
  rintro rfl
  rw [ci] at cj
  cases cj

/-- What `make_same_dims` makes of such operands. -/
structure SameDims (a b : Arr β α) (ki kj : Key) (pre : List (Dim β)) (i j : Dim β) (a' b' : Arr β α) :
    Prop where
  dims : dimsUnion a.dims b.dims = pre ++ [i, j]
  ikey : i.key = ki
  jkey : j.key = kj
  ne : ki ≠ kj
  pre_ne : ∀ d ∈ pre, d.key ≠ ki ∧ d.key ≠ kj
  pre_sweep : ∀ d ∈ pre, d.isa .dimSweep = true ∨ d.isa .dimRep = true
  distinct : Distinct (pre ++ [i, j])
  mem : ∀ k, k ∈ (pre ++ [i, j]).map Dim.key ↔ k ∈ a.dims.map Dim.key ∨ k ∈ b.dims.map Dim.key
  shapeA : a'.nd.shape = (pre.map fun u => len1 a u.key) ++ [len1 a ki, len1 a kj]
  shapeB : b'.nd.shape = (pre.map fun u => len1 b u.key) ++ [len1 b ki, len1 b kj]
  getA : ∀ (c : Coord) (m n : Nat), (∀ d ∈ pre, len1 a d.key = 1 ∨ c d.key < len1 a d.key) →
    m < len1 a ki → n < len1 a kj →
    a'.nd.get ((pre.map fun u => if len1 a u.key = 1 then 0 else c u.key) ++ [m, n]) =
      a.atB (upd c ki kj m n)
  getB : ∀ (c : Coord) (m n : Nat), (∀ d ∈ pre, len1 b d.key = 1 ∨ c d.key < len1 b d.key) →
    m < len1 b ki → n < len1 b kj →
    b'.nd.get ((pre.map fun u => if len1 b u.key = 1 then 0 else c u.key) ++ [m, n]) =
      b.atB (upd c ki kj m n)

theorem get_of {x x' : Arr β α} {pre : List (Dim β)} {i j : Dim β}
    (hne : i.key ≠ j.key) (hp : ∀ d ∈ pre, d.key ≠ i.key ∧ d.key ≠ j.key)
    (hs : x'.nd.shape = (pre ++ [i, j]).map fun u => len1 x u.key)
    (hg : ∀ c : Coord, Nd.Valid x'.nd.shape (Nd.bidx x'.nd.shape ((pre ++ [i, j]).map fun u => c u.key)) →
        x'.nd.get (Nd.bidx x'.nd.shape ((pre ++ [i, j]).map fun u => c u.key)) = x.atB c)
    (c : Coord) (m n : Nat) (hc : ∀ d ∈ pre, len1 x d.key = 1 ∨ c d.key < len1 x d.key)
    (hm : m < len1 x i.key) (hn : n < len1 x j.key) :
    x'.nd.get ((pre.map fun u => if len1 x u.key = 1 then 0 else c u.key) ++ [m, n]) =
      x.atB (upd c i.key j.key m n) := by
  have h := hg (upd c i.key j.key m n)
  rw [hs, bidx_map (pre ++ [i, j]) (len1 x) (upd c i.key j.key m n)] at h
  have hpre : (pre.map fun u => if len1 x u.key = 1 then 0 else upd c i.key j.key m n u.key) =
      pre.map fun u => if len1 x u.key = 1 then 0 else c u.key :=
    List.map_congr_left fun d hd => by simp [upd, (hp d hd).1, (hp d hd).2]
  have e1 : (if len1 x i.key = 1 then 0 else upd c i.key j.key m n i.key) = m := by
    simp only [upd, if_true]; split <;> omega
  have e2 : (if len1 x j.key = 1 then 0 else upd c i.key j.key m n j.key) = n := by
    simp only [upd, Ne.symm hne, if_true, if_false]; split <;> omega
  have hv := (valid_map (pre ++ [i, j]) (len1 x)
    (fun k => if len1 x k = 1 then 0 else upd c i.key j.key m n k)).2 (by
      intro u hu
      rcases List.mem_append.1 hu with hu | hu
      · have := hc u hu
        simp only [upd, (hp u hu).1, (hp u hu).2, if_false]
        split <;> omega
      · simp only [List.mem_cons, List.not_mem_nil, or_false] at hu
        rcases hu with rfl | rfl
        · rw [e1]; exact hm
        · rw [e2]; exact hn)
  have h := h hv
  rw [List.map_append, hpre] at h
  simp only [List.map_cons, List.map_nil, e1, e2] at h
  exact h

theorem same_dims (full : Arr β α → Arr β α) {a b : Arr β α} {ki kj : Key} (h : Stacks a b ki kj) :
    ∃ pre i j a' b', changeShape full a (dimsUnion a.dims b.dims) = .ok a' ∧
      changeShape full b (dimsUnion a.dims b.dims) = .ok b' ∧ SameDims a b ki kj pre i j a' b' := by
  obtain ⟨hcx, pre, i, j, hU, rfl, rfl, hp⟩ :=
    union_matrix_last h.na h.nosub h.row h.col h.rowCls h.colCls h.others
  obtain ⟨a', b', ea, eb, sa, sb, ga, gb⟩ := operands full a b h.wfa h.wfb h.na h.nb h.nosub
    (fun q => by rw [hcx] at q; cases q)
  obtain ⟨h1, h2, h3, -, -⟩ := dimsUnion_spec h.nosub h.na
  have hne : i.key ≠ j.key := keys_ne h.rowCls h.colCls
  rw [hU] at sa sb ga gb h2 h3
  have hpn : ∀ d ∈ pre, d.key ≠ i.key ∧ d.key ≠ j.key := by
    have h2' := h2
    unfold Distinct at h2'
    rw [List.map_append, List.nodup_append] at h2'
    intro d hd
    exact ⟨h2'.2.2 d.key (List.mem_map_of_mem hd) i.key (by simp),
      h2'.2.2 d.key (List.mem_map_of_mem hd) j.key (by simp)⟩
  refine ⟨pre, i, j, a', b', ea, eb, hU, rfl, rfl, hne, hpn, hp, h2, h3, ?_, ?_, ?_, ?_⟩
  · rw [sa, List.map_append]; rfl
  · rw [sb, List.map_append]; rfl
  · exact get_of hne hpn sa ga
  · exact get_of hne hpn sb gb

/-- The array that a function of two stacks returns. -/
def resArr (pre : List (Dim β)) (i j : Dim β) (so : List Nat) (P T : Nat) (g : List Nat → α) : Arr β α :=
  ⟨pre ++ [i, j], ⟨so ++ [P, T], g⟩⟩

/-- Outer axes (all but rows and columns) of two operands can be broadcast. -/
def OuterOk (a b : Arr β α) (ki kj : Key) : Prop :=
  ∀ k s t, k ≠ ki → k ≠ kj → a.axisLen k = some s → b.axisLen k = some t → s = t ∨ s = 1 ∨ t = 1

/-- The coordinate lies inside of the array as far as the axes of the stack are concerned (axes
of length one are repeated). -/
def InStack (x : Arr β α) (ki kj : Key) (c : Coord) : Prop :=
  ∀ k s, k ≠ ki → k ≠ kj → x.axisLen k = some s → s = 1 ∨ c k < s

/-- The matrix at a coordinate. -/
def mat (x : Arr β α) (ki kj : Key) (c : Coord) (p q : Nat) : Matrix (Fin p) (Fin q) α :=
  fun m n => x.atB (upd c ki kj m.1 n.1)

theorem outer_cond {a b : Arr β α} {ki kj : Key} {pre : List (Dim β)}
    (hp : ∀ d ∈ pre, d.key ≠ ki ∧ d.key ≠ kj) (ho : OuterOk a b ki kj) :
    ∀ u ∈ pre, len1 a u.key = len1 b u.key ∨ len1 a u.key = 1 ∨ len1 b u.key = 1 := by
  intro u hu
  unfold len1
  cases ha : a.axisLen u.key with
  | none => right; left; rfl
  | some s =>
    cases hb : b.axisLen u.key with
    | none => right; right; rfl
    | some t => exact ho u.key s t (hp u hu).1 (hp u hu).2 ha hb

/-- Lengths of the axes of the result. -/
def resLen (a b : Arr β α) (ki kj : Key) (P T : Nat) (k : Key) : Nat :=
  if k = ki then P else if k = kj then T else lenB (len1 a k) (len1 b k)

theorem axisLen_ne_none {x : Arr β α} (hwf : x.WF) {k : Key} (hk : k ∈ x.dims.map Dim.key) :
    x.axisLen k ≠ none := by
  intro e
  unfold axisLen at e
  rw [Option.map_eq_none_iff, List.find?_eq_none] at e
  obtain ⟨d, hd, rfl⟩ := List.mem_map.1 hk
  obtain ⟨p, hp, rfl⟩ := List.getElem_of_mem hd
  have hp' : p < x.nd.shape.length := by rw [← hwf]; exact hp
  have := e ((x.dims.zip x.nd.shape)[p]'(by simp [hp, hp'])) (List.getElem_mem _)
  simp at this

theorem lenB_bLen {s t : Option Nat} (h : s ≠ none ∨ t ≠ none) :
    some (lenB (s.getD 1) (t.getD 1)) = bLen s t := by
  cases s <;> cases t <;> simp [bLen, lenB] at h ⊢
  · intro e; exact e.symm
  · split <;> simp_all

/-- The result at named coordinates. -/
theorem res_view {a b a' b' : Arr β α} {ki kj : Key} {pre : List (Dim β)} {i j : Dim β}
    (h : SameDims a b ki kj pre i j a' b') (wfa : a.WF) (wfb : b.WF) (P T : Nat) (g : List Nat → α) :
    let r := resArr pre i j (pre.map fun u => lenB (len1 a u.key) (len1 b u.key)) P T g
    r.WF ∧ Distinct r.dims ∧ r.axisLen ki = some P ∧ r.axisLen kj = some T ∧
      (∀ k, k ≠ ki → k ≠ kj → r.axisLen k = bLen (a.axisLen k) (b.axisLen k)) ∧
      ∀ c, r.InStack ki kj c →
        (∀ d ∈ pre, lenB (len1 a d.key) (len1 b d.key) = 1 ∨
          c d.key < lenB (len1 a d.key) (len1 b d.key)) ∧
        ∀ m n, m < P → n < T → r.atB (upd c ki kj m n) =
          g ((pre.map fun u => if lenB (len1 a u.key) (len1 b u.key) = 1 then 0 else c u.key) ++ [m, n]) := by
  intro r
  have hsh : r.nd.shape = r.dims.map fun u => resLen a b ki kj P T u.key := by
    show (pre.map fun u => lenB (len1 a u.key) (len1 b u.key)) ++ [P, T] = _
    simp only [r, resArr, List.map_append, List.map_cons, List.map_nil, resLen, h.ikey, h.jkey,
      if_true, Ne.symm h.ne, if_false]
    congr 1
    exact List.map_congr_left fun d hd => by simp [(h.pre_ne d hd).1, (h.pre_ne d hd).2]
  have hwf : r.WF := by unfold WF; rw [hsh]; simp
  have hki : ki ∈ r.dims.map Dim.key := by
    simp only [r, resArr, List.map_append, List.mem_append]
    right; simp [h.ikey]
  have hkj : kj ∈ r.dims.map Dim.key := by
    simp only [r, resArr, List.map_append, List.mem_append]
    right; simp [h.jkey]
  refine ⟨hwf, h.distinct, ?_, ?_, ?_, ?_⟩
  · rw [axisLen_map _ hsh hki]; simp [resLen]
  · rw [axisLen_map _ hsh hkj]; simp [resLen, Ne.symm h.ne]
  · intro k hi hj
    by_cases hk : k ∈ r.dims.map Dim.key
    · rw [axisLen_map _ hsh hk]
      simp only [resLen, hi, hj, if_false, len1]
      apply lenB_bLen
      rcases (h.mem k).1 hk with q | q
      · exact Or.inl (axisLen_ne_none wfa q)
      · exact Or.inr (axisLen_ne_none wfb q)
    · rw [axisLen_none hwf hk]
      have : ¬ (k ∈ a.dims.map Dim.key ∨ k ∈ b.dims.map Dim.key) := fun q => hk ((h.mem k).2 q)
      rw [not_or] at this
      rw [axisLen_none wfa this.1, axisLen_none wfb this.2]
      rfl
  · intro c hc
    constructor
    · intro d hd
      have hdk : d.key ∈ r.dims.map Dim.key := List.mem_map_of_mem (List.mem_append_left _ hd)
      have := hc d.key _ (h.pre_ne d hd).1 (h.pre_ne d hd).2 (axisLen_map _ hsh hdk)
      simpa [resLen, (h.pre_ne d hd).1, (h.pre_ne d hd).2] using this
    · intro m n hm hn
      rw [atB_map _ hsh]
      show g _ = g _
      congr 1
      simp only [r, resArr, List.map_append, List.map_cons, List.map_nil, resLen, upd, h.ikey, h.jkey,
        if_true, Ne.symm h.ne, if_false]
      congr 1
      · exact List.map_congr_left fun d hd => by simp [(h.pre_ne d hd).1, (h.pre_ne d hd).2]
      · have e1 : (if P = 1 then 0 else m) = m := by split <;> omega
        have e2 : (if T = 1 then 0 else n) = n := by split <;> omega
        rw [e1, e2]

/-- Broadcasting to an operand does not see that the coordinate was broadcast to the result. -/
theorem absorb (pre : List (Dim β)) (f g : Key → Nat) (c : Coord)
    (hfg : ∀ d ∈ pre, f d.key = g d.key ∨ f d.key = 1 ∨ g d.key = 1) :
    Nd.bidx (pre.map fun u => f u.key) (pre.map fun u => if lenB (f u.key) (g u.key) = 1 then 0 else c u.key) =
      (pre.map fun u => if f u.key = 1 then 0 else c u.key) ∧
    Nd.bidx (pre.map fun u => g u.key) (pre.map fun u => if lenB (f u.key) (g u.key) = 1 then 0 else c u.key) =
      (pre.map fun u => if g u.key = 1 then 0 else c u.key) := by
  constructor
  · rw [bidx_map pre f (fun k => if lenB (f k) (g k) = 1 then 0 else c k)]
    refine List.map_congr_left fun d hd => ?_
    have := hfg d hd
    unfold lenB
    split <;> rename_i e <;> simp [e]
  · rw [bidx_map pre g (fun k => if lenB (f k) (g k) = 1 then 0 else c k)]
    refine List.map_congr_left fun d hd => ?_
    have := hfg d hd
    unfold lenB
    by_cases e1 : g d.key = 1
    · simp [e1]
    · by_cases e2 : f d.key = 1
      · simp [e1, e2]
      · simp [e1, e2]

theorem len_of {pre : List (Dim β)} {f g : Key → Nat} {c : Coord}
    (hfg : ∀ d ∈ pre, f d.key = g d.key ∨ f d.key = 1 ∨ g d.key = 1)
    (h : ∀ d ∈ pre, lenB (f d.key) (g d.key) = 1 ∨ c d.key < lenB (f d.key) (g d.key)) :
    (∀ d ∈ pre, f d.key = 1 ∨ c d.key < f d.key) ∧ (∀ d ∈ pre, g d.key = 1 ∨ c d.key < g d.key) := by
  constructor <;> intro d hd <;> have h1 := hfg d hd <;> have h2 := h d hd <;> unfold lenB at h2 <;>
    split at h2 <;> rcases h2 with h2 | h2 <;> omega

end HF.Arr
