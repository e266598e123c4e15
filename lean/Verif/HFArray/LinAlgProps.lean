import Verif.HFArray.MatMulProps
import Verif.HFArray.SqueezeProps
/-
C59: determinant, inverse and solution of linear systems for arrays of matrices.
-/
namespace HF.Arr

variable {β α : Type}

/-- A stack whose last two axes are rows and columns: the functions `det` and `inv` take the
last two axes, whatever they are. -/
structure Last (x : Arr β α) (ki kj : Key) (n : Nat) (pre : List (Dim β)) (i j : Dim β) : Prop where
  stack : x.IsStack ki kj n
  dims : x.dims = pre ++ [i, j]
  ikey : i.key = ki
  jkey : j.key = kj

theorem Last.pre_ne {x : Arr β α} {ki kj : Key} {n : Nat} {pre : List (Dim β)} {i j : Dim β}
    (h : x.Last ki kj n pre i j) : ∀ d ∈ pre, d.key ≠ ki ∧ d.key ≠ kj := by
  have h2 := h.stack.distinct
  unfold Distinct at h2
  rw [h.dims, List.map_append, List.nodup_append] at h2
  intro d hd
  exact ⟨h2.2.2 d.key (List.mem_map_of_mem hd) ki (by simp [h.ikey]),
    h2.2.2 d.key (List.mem_map_of_mem hd) kj (by simp [h.jkey])⟩

theorem shape_map {x : Arr β α} (hwf : x.WF) (hd : Distinct x.dims) :
    x.nd.shape = x.dims.map fun u => len1 x u.key := by
  apply List.ext_getElem
  · simpa [WF] using hwf.symm
  · intro k h1 h2
    have hk : k < x.dims.length := by simpa using h2
    rw [List.getElem_map, len1, axisLen_getElem hwf hd k hk, List.getElem?_eq_getElem h1]
    rfl

theorem Last.shape {x : Arr β α} {ki kj : Key} {n : Nat} {pre : List (Dim β)} {i j : Dim β}
    (h : x.Last ki kj n pre i j) : x.nd.shape = (pre.map fun u => len1 x u.key) ++ [n, n] := by
  rw [shape_map h.stack.wf h.stack.distinct, h.dims, List.map_append]
  simp only [List.map_cons, List.map_nil, h.ikey, h.jkey, len1_of h.stack.rows, len1_of h.stack.cols]

theorem Last.matOf {x : Arr β α} {ki kj : Key} {n : Nat} {pre : List (Dim β)} {i j : Dim β}
    (h : x.Last ki kj n pre i j) (c : Coord) :
    Nd.matOf x.nd (pre.map fun u => if len1 x u.key = 1 then 0 else c u.key) n n = x.mat ki kj c n n := by
  ext m q
  have hne := keys_ne h.stack.rowCls h.stack.colCls
  show x.nd.get _ = x.atB _
  rw [atB_map (len1 x) (shape_map h.stack.wf h.stack.distinct), h.dims, List.map_append]
  congr 2
  · exact List.map_congr_left fun d hd => by simp [upd, (h.pre_ne d hd).1, (h.pre_ne d hd).2]
  · simp only [List.map_cons, List.map_nil, h.ikey, h.jkey, len1_of h.stack.rows,
      len1_of h.stack.cols, upd, if_true, Ne.symm hne, if_false]
    have := m.2
    have := q.2
    congr 1
    · split <;> omega
    · congr 1; split <;> omega

/-- The index of the stack that belongs to a coordinate, and the coordinate that belongs to an
index. -/
theorem stack_index {x : Arr β α} {ki kj : Key} {n : Nat} {pre : List (Dim β)} {i j : Dim β}
    (h : x.Last ki kj n pre i j) {c : Coord} (hc : x.InStack ki kj c) :
    Nd.Valid (pre.map fun u => len1 x u.key) (pre.map fun u => if len1 x u.key = 1 then 0 else c u.key) := by
  refine (valid_map pre (len1 x) (fun k => if len1 x k = 1 then 0 else c k)).2 ?_
  intro u hu
  have hmem : u.key ∈ x.dims.map Dim.key := by
    rw [h.dims]; exact List.mem_map_of_mem (List.mem_append_left _ hu)
  obtain ⟨s, hs⟩ := Option.ne_none_iff_exists'.1 (axisLen_ne_none h.stack.wf hmem)
  have := hc u.key s (h.pre_ne u hu).1 (h.pre_ne u hu).2 hs
  rw [len1_of hs]
  split <;> omega

theorem coord_of_index (l : List (Dim β)) (hd : Distinct l) (f : Key → Nat) (idx : List Nat)
    (hv : Nd.Valid (l.map fun u => f u.key) idx) :
    ∃ c : Coord, (l.map fun u => c u.key) = idx := by
  induction l generalizing idx with
  | nil =>
    cases idx with
    | nil => exact ⟨fun _ => 0, rfl⟩
    | cons => simp [Nd.Valid] at hv
  | cons d t ih =>
    cases idx with
    | nil => simp [Nd.Valid] at hv
    | cons k ks =>
      simp only [List.map_cons, Nd.Valid] at hv
      unfold Distinct at hd
      simp only [List.map_cons, List.nodup_cons] at hd
      obtain ⟨c, hc⟩ := ih hd.2 ks hv.2
      refine ⟨fun q => if q = d.key then k else c q, ?_⟩
      simp only [List.map_cons, if_true, List.cons.injEq, true_and]
      rw [← hc]
      refine List.map_congr_left fun u hu => if_neg ?_
      intro e
      exact hd.1 (e ▸ List.mem_map_of_mem hu)

theorem mem_allIdx {sh idx : List Nat} : idx ∈ Nd.allIdx sh ↔ Nd.Valid sh idx := by
  unfold Nd.allIdx
  rw [List.mem_map]
  constructor
  · rintro ⟨n, hn, rfl⟩
    exact Nd.valid_unravel (by simpa using hn)
  · intro h
    exact ⟨Nd.ravel sh idx, by simpa using Nd.ravel_lt h, Nd.unravel_ravel h⟩

/-- C59.  `det(A)`: the result has the axes of the stack only, and at every coordinate the
determinant of the matrix there. -/
theorem C59_det [CommRing α] (A : Arr β α) {ki kj : Key} {n : Nat} {pre : List (Dim β)} {i j : Dim β}
    (h : A.Last ki kj n pre i j) :
    ∃ d, det A = .ok d ∧ d.WF ∧ d.dims = pre ∧
      (∀ k, k ≠ ki → k ≠ kj → d.axisLen k = A.axisLen k) ∧
      ∀ c, A.InStack ki kj c → d.atB c = (A.mat ki kj c n n).det := by
  have hdet : A.nd.det = .ok ⟨pre.map fun u => len1 A u.key, fun o => (Nd.matOf A.nd o n n).det⟩ := by
    unfold Nd.det
    rw [h.shape, split2_append]
    simp
  have htake : A.dims.take (A.dims.length - 2) = pre := by
    rw [h.dims]; simp
  have hsh : ∀ f : List Nat → α, (⟨pre, ⟨pre.map fun u => len1 A u.key, f⟩⟩ : Arr β α).nd.shape =
      (⟨pre, ⟨pre.map fun u => len1 A u.key, f⟩⟩ : Arr β α).dims.map fun u => len1 A u.key := fun _ => rfl
  refine ⟨⟨pre, ⟨pre.map fun u => len1 A u.key, fun o => (Nd.matOf A.nd o n n).det⟩⟩, ?_, ?_, rfl, ?_, ?_⟩
  · simp only [det, hdet, htake]
    rw [mkL_ok (by simp)]
  · simp [WF]
  · intro k h1 h2
    by_cases hk : k ∈ pre.map Dim.key
    · rw [axisLen_map (len1 A) (hsh _) hk]
      have hmem : k ∈ A.dims.map Dim.key := by
        rw [h.dims, List.map_append]; exact List.mem_append_left _ hk
      obtain ⟨s, hs⟩ := Option.ne_none_iff_exists'.1 (axisLen_ne_none h.stack.wf hmem)
      rw [len1_of hs, hs]
    · rw [axisLen_none (by simp [WF]) hk, axisLen_none h.stack.wf]
      rw [h.dims, List.map_append, List.mem_append, not_or]
      refine ⟨hk, ?_⟩
      simp [h.ikey, h.jkey, h1, h2]
  · intro c hc
    rw [atB_map (len1 A) (hsh _)]
    show (Nd.matOf A.nd _ n n).det = _
    rw [h.matOf c]

/-- C59.  The determinants of a product are the products of the determinants. -/
theorem C59_det_product [CommRing α] (full : Arr β α → Arr β α) (a b : Arr β α) {ki kj : Key} {n : Nat}
    {p p' : List (Dim β)} {i j i' j' : Dim β} (ha : a.Last ki kj n p i j) (hb : b.Last ki kj n p' i' j')
    (hl : NoSub (a.dims ++ b.dims)) (ho : OuterOk a b ki kj) :
    ∃ r da db dr, matMul full a b = .ok r ∧ det a = .ok da ∧ det b = .ok db ∧ det r = .ok dr ∧
      ∀ c, r.InStack ki kj c → dr.atB c = da.atB c * db.atB c := by
  obtain ⟨r, hr, hs, -, hlen, hm⟩ := ha.stack.mul full hb.stack hl ho
  obtain ⟨r', pre, i2, j2, hr', -, -, -, hd, ei, ej, -⟩ := C58_product full a b
    (ha.stack.stacks hb.stack hl) ho ha.stack.rows ha.stack.cols hb.stack.rows hb.stack.cols
  rw [hr] at hr'
  obtain rfl := Except.ok.inj hr'
  obtain ⟨da, e1, -, -, -, g1⟩ := C59_det a ha
  obtain ⟨db, e2, -, -, -, g2⟩ := C59_det b hb
  obtain ⟨dr, e3, -, -, -, g3⟩ := C59_det r ⟨hs, hd, ei, ej⟩
  refine ⟨r, da, db, dr, hr, e1, e2, e3, ?_⟩
  intro c hc
  obtain ⟨hca, hcb⟩ := InStack.of hlen ho hc
  rw [g3 c hc, g1 c hca, g2 c hcb, hm c hc, Matrix.det_mul]

variable [Field α] [DecidableEq α]

/-- No matrix of the stack is singular. -/
def Regular (x : Arr β α) (ki kj : Key) (n : Nat) : Prop :=
  ∀ c, x.InStack ki kj c → (x.mat ki kj c n n).det ≠ 0

/-- Matrices at all indices, and matrices at all coordinates. -/
theorem all_regular {x : Arr β α} {ki kj : Key} {n : Nat} {pre : List (Dim β)} {i j : Dim β}
    (h : x.Last ki kj n pre i j) :
    ((Nd.allIdx (pre.map fun u => len1 x u.key)).all fun o => (Nd.matOf x.nd o n n).det ≠ 0) = true ↔
      x.Regular ki kj n := by
  simp only [List.all_eq_true, decide_eq_true_eq]
  constructor
  · intro hall c hc
    rw [← h.matOf c]
    exact hall _ (mem_allIdx.2 (stack_index h hc))
  · intro hreg o ho
    rw [mem_allIdx] at ho
    have hdp : Distinct pre := by
      have h2 := h.stack.distinct
      unfold Distinct at h2 ⊢
      rw [h.dims, List.map_append, List.nodup_append] at h2
      exact h2.1
    obtain ⟨c, rfl⟩ := coord_of_index pre hdp (len1 x) o ho
    have hlt := (valid_map pre (len1 x) c).1 ho
    have e : (pre.map fun u => c u.key) = pre.map fun u => if len1 x u.key = 1 then 0 else c u.key :=
      List.map_congr_left fun u hu => by
        have := hlt u hu
        split <;> omega
    rw [e, h.matOf c]
    apply hreg
    intro k s h1 h2 hk
    right
    have hmem := axisLen_isSome h.stack.wf hk
    rw [h.dims, List.map_append, List.mem_append] at hmem
    have hmem : k ∈ pre.map Dim.key := by
      rcases hmem with q | q
      · exact q
      · simp [h.ikey, h.jkey, h1, h2] at q
    obtain ⟨u, hu, rfl⟩ := List.mem_map.1 hmem
    have := hlt u hu
    rw [len1_of hk] at this
    exact this

theorem take_getD (l : List Nat) (x y : Nat) : (l ++ [x, y]).take l.length = l ∧
    (l ++ [x, y]).getD l.length 0 = x ∧ (l ++ [x, y]).getD (l.length + 1) 0 = y := by
  refine ⟨List.take_left, ?_, ?_⟩ <;> simp [List.getD_eq_getElem?_getD]

/-- C59.  `inv(A)` succeeds exactly if no matrix of the stack is singular; the result has the
same axes and holds the inverse of every matrix. -/
theorem C59_inverse (A : Arr β α) {ki kj : Key} {n : Nat} {pre : List (Dim β)} {i j : Dim β}
    (h : A.Last ki kj n pre i j) (hreg : A.Regular ki kj n) :
    ∃ r, inv A = .ok r ∧ r.Last ki kj n pre i j ∧ (∀ k, r.axisLen k = A.axisLen k) ∧
      ∀ c, A.InStack ki kj c → r.mat ki kj c n n = (A.mat ki kj c n n)⁻¹ := by
  have hinv : ∃ f, A.nd.inv = .ok ⟨(pre.map fun u => len1 A u.key) ++ [n, n], f⟩ ∧
      ∀ (o : List Nat) (x y : Nat), o.length = pre.length →
        f (o ++ [x, y]) = Nd.elemOf (Nd.matOf A.nd o n n)⁻¹ x y := by
    refine ⟨fun idx => Nd.elemOf (Nd.matOf A.nd (idx.take (pre.map fun u => len1 A u.key).length) n n)⁻¹
      (idx.getD (pre.map fun u => len1 A u.key).length 0)
      (idx.getD ((pre.map fun u => len1 A u.key).length + 1) 0), ?_, ?_⟩
    · unfold Nd.inv
      rw [h.shape, split2_append]
      simp only [if_true]
      rw [if_pos (all_regular h |>.2 hreg)]
    · intro o x y ho
      have hl : (pre.map fun u => len1 A u.key).length = o.length := by simp [ho]
      simp only [hl, (take_getD o x y).1, (take_getD o x y).2.1, (take_getD o x y).2.2]
  obtain ⟨f, hf, hget⟩ := hinv
  have hsh := h.shape
  obtain ⟨r, hr⟩ : ∃ r : Arr β α, r = ⟨A.dims, ⟨(pre.map fun u => len1 A u.key) ++ [n, n], f⟩⟩ := ⟨_, rfl⟩
  have hlen : ∀ k, r.axisLen k = A.axisLen k := by
    intro k; unfold axisLen; rw [hr, ← hsh]
  have hwf : r.WF := by
    have := h.stack.wf
    unfold WF at this ⊢
    rw [hr, this, hsh]
  have hlast : r.Last ki kj n pre i j := by
    refine ⟨⟨hwf, by rw [hr]; exact h.stack.distinct, by rw [hlen]; exact h.stack.rows,
      by rw [hlen]; exact h.stack.cols, h.stack.rowCls, h.stack.colCls,
      by rw [hr]; exact h.stack.others⟩, by rw [hr]; exact h.dims, h.ikey, h.jkey⟩
  refine ⟨r, ?_, hlast, hlen, ?_⟩
  · simp only [inv, hf]
    rw [mkL_ok (by rw [h.dims]; simp), hr]
  · intro c hc
    rw [← hlast.matOf c, ← h.matOf c]
    have hl1 : ∀ k, len1 r k = len1 A k := fun k => by unfold len1; rw [hlen]
    simp only [hl1]
    ext x y
    have : r.nd.get = f := by rw [hr]
    show r.nd.get _ = _
    rw [this, hget _ x.1 y.1 (by simp), Nd.elemOf, dif_pos ⟨x.2, y.2⟩]

/-- C59.  If one matrix of the stack is singular there is no result at all. -/
theorem C59_singular (A : Arr β α) {ki kj : Key} {n : Nat} {pre : List (Dim β)} {i j : Dim β}
    (h : A.Last ki kj n pre i j) (hreg : ¬ A.Regular ki kj n) : inv A = .error .linAlgError := by
  have : A.nd.inv = .error .linAlgError := by
    unfold Nd.inv
    rw [h.shape, split2_append]
    simp only [if_true]
    rw [if_neg (fun q => hreg (all_regular h |>.1 q))]
  simp only [inv, this]

theorem OuterOk.refl {x y : Arr β α} {ki kj : Key} (h : ∀ k, y.axisLen k = x.axisLen k) :
    OuterOk x y ki kj := by
  intro k s t _ _ hs ht
  rw [h, hs] at ht
  exact Or.inl (Option.some.inj ht)

theorem bLen_self (s : Option Nat) : bLen s s = s := by
  cases s <;> simp [bLen]

/-- C59.  A stack times its inverse, in either order, holds the identity matrix at every
coordinate. -/
theorem C59_inverse_product (full : Arr β α → Arr β α) (A : Arr β α) {ki kj : Key} {n : Nat}
    {pre : List (Dim β)} {i j : Dim β} (h : A.Last ki kj n pre i j) (hl : NoSub A.dims)
    (hreg : A.Regular ki kj n) :
    ∃ B r r', inv A = .ok B ∧ matMul full A B = .ok r ∧ matMul full B A = .ok r' ∧
      (∀ k, r.axisLen k = A.axisLen k ∧ r'.axisLen k = A.axisLen k) ∧
      ∀ c, A.InStack ki kj c → r.mat ki kj c n n = 1 ∧ r'.mat ki kj c n n = 1 := by
  obtain ⟨B, hB, hlast, hlen, hm⟩ := C59_inverse A h hreg
  have hd : B.dims = A.dims := hlast.dims.trans h.dims.symm
  have hl' : NoSub (A.dims ++ B.dims) := hl.mono (by rw [hd]; intro d; simp)
  have hl'' : NoSub (B.dims ++ A.dims) := hl.mono (by rw [hd]; intro d; simp)
  obtain ⟨r, e1, -, -, a1, m1⟩ := h.stack.mul full hlast.stack hl' (OuterOk.refl hlen)
  obtain ⟨r', e2, -, -, a2, m2⟩ := hlast.stack.mul full h.stack hl''
    (OuterOk.refl fun k => (hlen k).symm)
  have q1 : ∀ k, r.axisLen k = A.axisLen k := fun k => by rw [a1, hlen, bLen_self]
  have q2 : ∀ k, r'.axisLen k = A.axisLen k := fun k => by rw [a2, hlen, bLen_self]
  refine ⟨B, r, r', hB, e1, e2, fun k => ⟨q1 k, q2 k⟩, ?_⟩
  intro c hc
  have hu : IsUnit (A.mat ki kj c n n).det := isUnit_iff_ne_zero.2 (hreg c hc)
  have c1 : r.InStack ki kj c := fun k s x y z => hc k s x y ((q1 k).symm.trans z)
  have c2 : r'.InStack ki kj c := fun k s x y z => hc k s x y ((q2 k).symm.trans z)
  rw [m1 c c1, m2 c c2, hm c hc, Matrix.mul_nonsing_inv _ hu, Matrix.nonsing_inv_mul _ hu]
  exact ⟨rfl, rfl⟩

/-- The coordinate lies inside of the broadcast stack of two operands. -/
def InBoth (a b : Arr β α) (ki kj : Key) (c : Coord) : Prop :=
  ∀ k s, k ≠ ki → k ≠ kj → bLen (a.axisLen k) (b.axisLen k) = some s → s = 1 ∨ c k < s

/-- What `np.linalg.solve` finds at the indices of the broadcast stack. -/
theorem solve_index {a b a' b' : Arr β α} {ki kj : Key} {pre : List (Dim β)} {i j : Dim β}
    (hs : SameDims a b ki kj pre i j a' b') (h : Stacks a b ki kj) (ho : OuterOk a b ki kj) {n : Nat}
    (h1 : a.axisLen ki = some n) (h2 : a.axisLen kj = some n) :
    ((Nd.allIdx (pre.map fun u => lenB (len1 a u.key) (len1 b u.key))).all fun o =>
      (Nd.matOf a'.nd (Nd.bidx (pre.map fun u => len1 a u.key) o) n n).det ≠ 0) = true ↔
      ∀ c, InBoth a b ki kj c → (a.mat ki kj c n n).det ≠ 0 := by
  have hoc := outer_cond hs.pre_ne ho
  obtain ⟨hwf, -, -, -, l3, hv⟩ := res_view hs h.wfa h.wfb n n (fun _ => (0 : α))
  have key : ∀ c, (∀ d ∈ pre, lenB (len1 a d.key) (len1 b d.key) = 1 ∨
      c d.key < lenB (len1 a d.key) (len1 b d.key)) →
      Nd.matOf a'.nd (Nd.bidx (pre.map fun u => len1 a u.key)
        (pre.map fun u => if lenB (len1 a u.key) (len1 b u.key) = 1 then 0 else c u.key)) n n =
        a.mat ki kj c n n := by
    intro c hc
    ext x y
    rw [(absorb pre (len1 a) (len1 b) c hoc).1]
    exact hs.getA c x.1 y.1 (len_of hoc hc).1 (by rw [len1_of h1]; exact x.2) (by rw [len1_of h2]; exact y.2)
  simp only [List.all_eq_true, decide_eq_true_eq]
  constructor
  · intro hall c hc
    have hc' := (hv c fun k s x y z => hc k s x y ((l3 k x y).symm.trans z)).1
    rw [← key c hc']
    apply hall
    rw [mem_allIdx]
    refine (valid_map pre (fun k => lenB (len1 a k) (len1 b k))
      (fun k => if lenB (len1 a k) (len1 b k) = 1 then 0 else c k)).2 ?_
    intro u hu
    have := hc' u hu
    split <;> omega
  · intro hreg o ho'
    rw [mem_allIdx] at ho'
    have hdp : Distinct pre := by
      have h2 := hs.distinct
      unfold Distinct at h2 ⊢
      rw [List.map_append, List.nodup_append] at h2
      exact h2.1
    obtain ⟨c, rfl⟩ := coord_of_index pre hdp (fun k => lenB (len1 a k) (len1 b k)) o ho'
    have hlt := (valid_map pre (fun k => lenB (len1 a k) (len1 b k)) c).1 ho'
    have e : (pre.map fun u => c u.key) =
        pre.map fun u => if lenB (len1 a u.key) (len1 b u.key) = 1 then 0 else c u.key :=
      List.map_congr_left fun u hu => by
        have := hlt u hu
        split <;> omega
    rw [e, key c fun d hd => Or.inr (hlt d hd)]
    apply hreg
    intro k s x y hk
    right
    have hmem : k ∈ (pre ++ [i, j]).map Dim.key := by
      by_contra hno
      have := l3 k x y
      rw [hk] at this
      exact hno (axisLen_isSome hwf this)
    rw [List.map_append, List.mem_append] at hmem
    have hmem : k ∈ pre.map Dim.key := by
      rcases hmem with q | q
      · exact q
      · simp [hs.ikey, hs.jkey, x, y] at q
    obtain ⟨u, hu, rfl⟩ := List.mem_map.1 hmem
    have h5 := hlt u hu
    have hne : a.axisLen u.key ≠ none ∨ b.axisLen u.key ≠ none := by
      by_contra hq
      rw [not_or, not_not, not_not] at hq
      rw [hq.1, hq.2] at hk
      cases hk
    have h6 := lenB_bLen hne
    rw [hk] at h6
    have h7 : lenB (len1 a u.key) (len1 b u.key) = s := Option.some.inj h6
    rw [h7] at h5
    exact h5

/-- C59.  `solve_Ab(A, b, squeeze=False)` for a stack of square matrices without singular ones
and right hand sides with as many rows (a matrix with `t` columns or, without a column axis, a
vector, which counts as one column): the result has the axes of both and solves the equations
at every coordinate.  There is only one such matrix. -/
theorem C59_solve (full : Arr β α → Arr β α) (A b : Arr β α) {ki kj : Key} (h : Stacks A b ki kj)
    (ho : OuterOk A b ki kj) {n : Nat} (h1 : A.axisLen ki = some n) (h2 : A.axisLen kj = some n)
    (h3 : b.axisLen ki = some n)
    (hreg : ∀ c, InBoth A b ki kj c → (A.mat ki kj c n n).det ≠ 0) :
    ∃ x pre i j, solveAb full A b false = .ok x ∧ x.WF ∧ Distinct x.dims ∧ x.dims = pre ++ [i, j] ∧
      i.key = ki ∧ j.key = kj ∧
      (∀ k, k ∈ x.dims.map Dim.key ↔ k ∈ A.dims.map Dim.key ∨ k ∈ b.dims.map Dim.key) ∧
      x.axisLen ki = some n ∧ x.axisLen kj = some ((b.axisLen kj).getD 1) ∧
      (∀ k, k ≠ ki → k ≠ kj → x.axisLen k = bLen (A.axisLen k) (b.axisLen k)) ∧
      ∀ c, x.InStack ki kj c →
        A.mat ki kj c n n * x.mat ki kj c n ((b.axisLen kj).getD 1) =
          b.mat ki kj c n ((b.axisLen kj).getD 1) ∧
        ∀ M, A.mat ki kj c n n * M = b.mat ki kj c n ((b.axisLen kj).getD 1) →
          M = x.mat ki kj c n ((b.axisLen kj).getD 1) := by
  obtain ⟨t, ht⟩ : ∃ t, t = (b.axisLen kj).getD 1 := ⟨_, rfl⟩
  rw [← ht]
  obtain ⟨pre, i, j, a', b', ea, eb, hs⟩ := same_dims full h
  have hoc := outer_cond hs.pre_ne ho
  have sa := hs.shapeA
  have sb := hs.shapeB
  have ht' : len1 b kj = t := by rw [ht]; rfl
  rw [len1_of h1, len1_of h2] at sa
  rw [len1_of h3, ht'] at sb
  have hsol := Nd.solve.eq_1 a'.nd b'.nd
  rw [sa, sb, split2_append, split2_append] at hsol
  simp only [bshape_map pre (len1 A) (len1 b) hoc, if_true] at hsol
  rw [if_pos ((solve_index hs h ho h1 h2).2 hreg)] at hsol
  obtain ⟨g, hg, hget⟩ : ∃ g, Nd.solve a'.nd b'.nd =
      .ok ⟨(pre.map fun u => lenB (len1 A u.key) (len1 b u.key)) ++ [n, t], g⟩ ∧
      ∀ (o : List Nat) (x y : Nat), o.length = pre.length →
        g (o ++ [x, y]) = Nd.elemOf ((Nd.matOf a'.nd (Nd.bidx (pre.map fun u => len1 A u.key) o) n n)⁻¹ *
          Nd.matOf b'.nd (Nd.bidx (pre.map fun u => len1 b u.key) o) n t) x y := by
    refine ⟨_, hsol, ?_⟩
    intro o x y ho'
    have hl : (pre.map fun u => lenB (len1 A u.key) (len1 b u.key)).length = o.length := by simp [ho']
    simp only [hl, (take_getD o x y).1, (take_getD o x y).2.1, (take_getD o x y).2.2]
  obtain ⟨hwf, hd, l1, l2, l3, hv⟩ := res_view hs h.wfa h.wfb n t g
  refine ⟨_, pre, i, j, ?_, hwf, hd, rfl, hs.ikey, hs.jkey, hs.mem, l1, l2, l3, ?_⟩
  · simp only [solveAb, withSame, ea, eb, hg]
    rw [mkL_ok (by rw [hs.dims]; simp), hs.dims]
    rfl
  · intro c hc
    obtain ⟨hc1, hc2⟩ := hv c hc
    obtain ⟨hca, hcb⟩ := len_of hoc hc1
    have hu : IsUnit (A.mat ki kj c n n).det := isUnit_iff_ne_zero.2 (hreg c fun k s x y z =>
      hc k s x y ((l3 k x y).trans z))
    have hx : (resArr pre i j (pre.map fun u => lenB (len1 A u.key) (len1 b u.key)) n t g).mat ki kj c n t =
        (A.mat ki kj c n n)⁻¹ * b.mat ki kj c n t := by
      ext x y
      refine (hc2 x.1 y.1 x.2 y.2).trans ?_
      rw [hget _ _ _ (by simp), Nd.elemOf, dif_pos ⟨x.2, y.2⟩, (absorb pre (len1 A) (len1 b) c hoc).1,
        (absorb pre (len1 A) (len1 b) c hoc).2]
      have e1 : Nd.matOf a'.nd (pre.map fun u => if len1 A u.key = 1 then 0 else c u.key) n n =
          A.mat ki kj c n n := by
        ext m q
        exact hs.getA c m.1 q.1 hca (by rw [len1_of h1]; exact m.2) (by rw [len1_of h2]; exact q.2)
      have e2 : Nd.matOf b'.nd (pre.map fun u => if len1 b u.key = 1 then 0 else c u.key) n t =
          b.mat ki kj c n t := by
        ext m q
        exact hs.getB c m.1 q.1 hcb (by rw [len1_of h3]; exact m.2) (by rw [ht']; exact q.2)
      rw [e1, e2]
    constructor
    · rw [hx, ← Matrix.mul_assoc, Matrix.mul_nonsing_inv _ hu, Matrix.one_mul]
    · intro M hM
      rw [hx, ← hM, ← Matrix.mul_assoc, Matrix.nonsing_inv_mul _ hu, Matrix.one_mul]

/-- C59.  If one matrix among those needed is singular, or the number of rows differs, there is
no result at all. -/
theorem C59_solve_refused (full : Arr β α → Arr β α) (A b : Arr β α) {ki kj : Key} (h : Stacks A b ki kj)
    (ho : OuterOk A b ki kj) {n n' : Nat} (h1 : A.axisLen ki = some n) (h2 : A.axisLen kj = some n)
    (h3 : b.axisLen ki = some n') (sq : Bool)
    (hbad : n' ≠ n ∨ ∃ c, InBoth A b ki kj c ∧ (A.mat ki kj c n n).det = 0) :
    ∃ e, solveAb full A b sq = .error e ∧ (n' = n → e = .linAlgError) := by
  obtain ⟨pre, i, j, a', b', ea, eb, hs⟩ := same_dims full h
  have hoc := outer_cond hs.pre_ne ho
  have sa := hs.shapeA
  have sb := hs.shapeB
  rw [len1_of h1, len1_of h2] at sa
  rw [len1_of h3] at sb
  have hsol := Nd.solve.eq_1 a'.nd b'.nd
  rw [sa, sb, split2_append, split2_append] at hsol
  simp only [bshape_map pre (len1 A) (len1 b) hoc, if_true] at hsol
  by_cases hn : n' = n
  · refine ⟨.linAlgError, ?_, fun _ => rfl⟩
    rw [if_pos hn, if_neg (by
      intro q
      obtain ⟨c, hc, hc'⟩ := hbad.resolve_left (not_not.2 hn)
      exact (solve_index hs h ho h1 h2).1 q c hc hc')] at hsol
    simp only [solveAb, withSame, ea, eb, hsol]
  · refine ⟨.valueError, ?_, fun q => absurd q hn⟩
    rw [if_neg hn] at hsol
    simp only [solveAb, withSame, ea, eb, hsol]

/-- C59.  With `squeeze=True` (the default) the same solution without its axes of length one. -/
theorem C59_solve_squeezed (full : Arr β α → Arr β α) (A b x : Arr β α) (hwf : x.WF)
    (h : solveAb full A b false = .ok x) :
    ∃ y, solveAb full A b true = .ok y ∧ y.WF ∧
      y.dims = ((x.dims.zip x.nd.shape).filter fun p => p.2 ≠ 1).map Prod.fst ∧
      ∀ c, (∀ e, (e, 1) ∈ x.dims.zip x.nd.shape → c e.key = 0) → y.at_ c = x.at_ c := by
  obtain ⟨y, hy, hw, hd, -, hc⟩ := C49_squeeze x hwf
  refine ⟨y, ?_, hw, hd, hc⟩
  unfold solveAb at h ⊢
  cases hws : withSame full Nd.solve A b with
  | error e => rw [hws] at h; cases h
  | ok r =>
    rw [hws] at h
    simp only [Bool.false_eq_true, if_false, Except.ok.injEq] at h
    subst h
    simp only [if_true, hy]

end HF.Arr
