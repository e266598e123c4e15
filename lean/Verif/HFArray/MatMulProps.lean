import Verif.HFArray.MatMulLemmas
import Verif.HFArray.IndexLemmas
/-
C58: products of arrays of matrices.
-/
namespace HF.Arr

variable {β α : Type}

theorem blen_self (n : Nat) : Nd.blen n n = some n := by simp [Nd.blen]

theorem sum_range {α : Type} [AddCommMonoid α] (n : Nat) (f : Nat → α) :
    ((List.range n).map f).sum = ∑ m : Fin n, f m.1 := by
  rw [Fin.sum_univ_eq_sum_range]
  induction n with
  | zero => simp
  | succ n ih =>
    rw [List.range_succ, List.map_append, List.sum_append, ih, Finset.sum_range_succ]
    simp

theorem mkL_ok {nd : Nd α} {dims : List (Dim β)} (h : dims.length = nd.shape.length) :
    mkL nd dims = .ok ⟨dims, nd⟩ := by
  have : mk? nd dims = .ok ⟨dims, nd⟩ := if_pos h
  simp [mkL, this]

theorem len1_of {x : Arr β α} {k : Key} {s : Nat} (h : x.axisLen k = some s) : len1 x k = s := by
  simp [len1, h]

/-- C58.  `matrix_multiply(a, b)` for a stack of `p` by `n` matrices and a stack of `n` by `t`
matrices (row and column axis anywhere among the axes, the other axes being sweeps and
repetitions of equal length or length one): the result has the axes of both operands, rows and
columns last, and at *every* coordinate of the stack it holds the product of the two matrices
which the operands hold at that coordinate. -/
theorem C58_product [Semiring α] (full : Arr β α → Arr β α) (a b : Arr β α) {ki kj : Key}
    (h : Stacks a b ki kj) (ho : OuterOk a b ki kj) {p n t : Nat}
    (h1 : a.axisLen ki = some p) (h2 : a.axisLen kj = some n)
    (h3 : b.axisLen ki = some n) (h4 : b.axisLen kj = some t) :
    ∃ r pre i j, matMul full a b = .ok r ∧ r.WF ∧ Distinct r.dims ∧
      r.dims = dimsUnion a.dims b.dims ∧ r.dims = pre ++ [i, j] ∧ i.key = ki ∧ j.key = kj ∧
      (∀ d ∈ pre, d.isa .dimSweep = true ∨ d.isa .dimRep = true) ∧
      (∀ k, k ∈ r.dims.map Dim.key ↔ k ∈ a.dims.map Dim.key ∨ k ∈ b.dims.map Dim.key) ∧
      r.axisLen ki = some p ∧ r.axisLen kj = some t ∧
      (∀ k, k ≠ ki → k ≠ kj → r.axisLen k = bLen (a.axisLen k) (b.axisLen k)) ∧
      ∀ c, r.InStack ki kj c → r.mat ki kj c p t = a.mat ki kj c p n * b.mat ki kj c n t := by
  obtain ⟨pre, i, j, a', b', ea, eb, hs⟩ := same_dims full h
  have hoc := outer_cond hs.pre_ne ho
  have sa := hs.shapeA
  have sb := hs.shapeB
  rw [len1_of h1, len1_of h2] at sa
  rw [len1_of h3, len1_of h4] at sb
  have hdot := Nd.dot.eq_1 a'.nd b'.nd
  rw [sa, sb, split2_append, split2_append] at hdot
  simp only [bshape_map pre (len1 a) (len1 b) hoc, blen_self] at hdot
  obtain ⟨hwf, hd, l1, l2, l3, hv⟩ := res_view hs h.wfa h.wfb p t (fun idx =>
    ((List.range n).map fun m =>
      a'.nd.get (Nd.bidx (pre.map fun u => len1 a u.key)
        (idx.take (pre.map fun u => lenB (len1 a u.key) (len1 b u.key)).length) ++
          [idx.getD (pre.map fun u => lenB (len1 a u.key) (len1 b u.key)).length 0,
            if n = 1 then 0 else m]) *
      b'.nd.get (Nd.bidx (pre.map fun u => len1 b u.key)
        (idx.take (pre.map fun u => lenB (len1 a u.key) (len1 b u.key)).length) ++
          [if n = 1 then 0 else m,
            idx.getD ((pre.map fun u => lenB (len1 a u.key) (len1 b u.key)).length + 1) 0])).sum)
  refine ⟨_, pre, i, j, ?_, hwf, hd, hs.dims.symm, rfl, hs.ikey, hs.jkey, hs.pre_sweep, hs.mem, l1, l2, l3, ?_⟩
  · simp only [matMul, withSame, ea, eb, hdot]
    rw [mkL_ok (by rw [hs.dims]; simp), hs.dims]
    rfl
  · intro c hc
    obtain ⟨hc1, hc2⟩ := hv c hc
    obtain ⟨hca, hcb⟩ := len_of hoc hc1
    ext m k
    rw [Matrix.mul_apply]
    refine (hc2 m.1 k.1 m.2 k.2).trans ?_
    rw [sum_range]
    refine Finset.sum_congr rfl fun q _ => ?_
    have hl : (pre.map fun u => lenB (len1 a u.key) (len1 b u.key)).length =
        (pre.map fun u => if lenB (len1 a u.key) (len1 b u.key) = 1 then 0 else c u.key).length := by simp
    have hq : (if n = 1 then 0 else q.1) = q.1 := by
      have := q.2
      split <;> omega
    rw [hl, List.take_left, hq, (absorb pre (len1 a) (len1 b) c hoc).1,
      (absorb pre (len1 a) (len1 b) c hoc).2]
    have g1 : ∀ (l : List Nat) (x y : Nat), (l ++ [x, y]).getD l.length 0 = x := by
      intro l x y; simp [List.getD_eq_getElem?_getD]
    have g2 : ∀ (l : List Nat) (x y : Nat), (l ++ [x, y]).getD (l.length + 1) 0 = y := by
      intro l x y; simp [List.getD_eq_getElem?_getD]
    rw [g1, g2, hs.getA c m.1 q.1 hca (by rw [len1_of h1]; exact m.2) (by rw [len1_of h2]; exact q.2),
      hs.getB c q.1 k.1 hcb (by rw [len1_of h3]; exact q.2) (by rw [len1_of h4]; exact k.2)]
    rfl

/-- C58.  Matrices whose sizes do not fit (and are not one), or stacks whose lengths do not
fit, are refused: no element is invented. -/
theorem C58_mismatch [Semiring α] (full : Arr β α → Arr β α) (a b : Arr β α) {ki kj : Key}
    (h : Stacks a b ki kj) {n n' : Nat} (h2 : a.axisLen kj = some n) (h3 : b.axisLen ki = some n')
    (hbad : (n ≠ n' ∧ n ≠ 1 ∧ n' ≠ 1) ∨ ∃ k s t, k ≠ ki ∧ k ≠ kj ∧ a.axisLen k = some s ∧
      b.axisLen k = some t ∧ s ≠ t ∧ s ≠ 1 ∧ t ≠ 1) :
    matMul full a b = .error .valueError := by
  obtain ⟨pre, i, j, a', b', ea, eb, hs⟩ := same_dims full h
  have hdot := Nd.dot.eq_1 a'.nd b'.nd
  rw [hs.shapeA, hs.shapeB, split2_append, split2_append] at hdot
  have hd : Nd.dot a'.nd b'.nd = .error .valueError := by
    rw [hdot]
    rcases hbad with ⟨x1, x2, x3⟩ | ⟨k, s, t, hi, hj, hs', ht, x1, x2, x3⟩
    · have : Nd.blen (len1 a kj) (len1 b ki) = none := by
        rw [len1_of h2, len1_of h3]; simp [Nd.blen, x1, x2, x3]
      simp only [this]
      split <;> simp_all
    · have hk : k ∈ (pre ++ [i, j]).map Dim.key := (hs.mem k).2 (Or.inl (axisLen_isSome h.wfa hs'))
      rw [List.map_append, List.mem_append] at hk
      have hk : k ∈ pre.map Dim.key := by
        rcases hk with hk | hk
        · exact hk
        · simp [hs.ikey, hs.jkey, hi, hj] at hk
      obtain ⟨u, hu, rfl⟩ := List.mem_map.1 hk
      obtain ⟨e, he⟩ := bshape_map_error pre (len1 a) (len1 b) hu
        (by rw [len1_of hs', len1_of ht]; exact x1) (by rw [len1_of hs']; exact x2)
        (by rw [len1_of ht]; exact x3)
      simp only [he]
  simp only [matMul, withSame, ea, eb, hd]

/-- A stack of `n` by `n` matrices: one row axis, one column axis, otherwise only sweeps and
repetitions. -/
structure IsStack (x : Arr β α) (ki kj : Key) (n : Nat) : Prop where
  wf : x.WF
  distinct : Distinct x.dims
  rows : x.axisLen ki = some n
  cols : x.axisLen kj = some n
  rowCls : ki.2 = .matI
  colCls : kj.2 = .matJ
  others : ∀ d ∈ x.dims, d.key ≠ ki → d.key ≠ kj → d.isa .dimSweep = true ∨ d.isa .dimRep = true

theorem IsStack.stacks {a b : Arr β α} {ki kj : Key} {n : Nat} (ha : a.IsStack ki kj n)
    (hb : b.IsStack ki kj n) (hl : NoSub (a.dims ++ b.dims)) : Stacks a b ki kj where
  wfa := ha.wf
  wfb := hb.wf
  na := ha.distinct
  nb := hb.distinct
  nosub := hl
  row := by
    rw [List.map_append]; exact List.mem_append_left _ (axisLen_isSome ha.wf ha.rows)
  col := by
    rw [List.map_append]; exact List.mem_append_left _ (axisLen_isSome ha.wf ha.cols)
  rowCls := ha.rowCls
  colCls := ha.colCls
  others := fun d hd => (List.mem_append.1 hd).elim (ha.others d) (hb.others d)

/-- The product of two stacks of square matrices. -/
theorem IsStack.mul [Semiring α] (full : Arr β α → Arr β α) {a b : Arr β α} {ki kj : Key} {n : Nat}
    (ha : a.IsStack ki kj n) (hb : b.IsStack ki kj n) (hl : NoSub (a.dims ++ b.dims))
    (ho : OuterOk a b ki kj) :
    ∃ r, matMul full a b = .ok r ∧ r.IsStack ki kj n ∧ r.dims ⊆ a.dims ++ b.dims ∧
      (∀ k, r.axisLen k = bLen (a.axisLen k) (b.axisLen k)) ∧
      ∀ c, r.InStack ki kj c → r.mat ki kj c n n = a.mat ki kj c n n * b.mat ki kj c n n := by
  have hst := ha.stacks hb hl
  obtain ⟨r, pre, i, j, hr, hwf, hd, hU, hp, hi, hj, hpre, -, l1, l2, l3, hm⟩ :=
    C58_product full a b hst ho ha.rows ha.cols hb.rows hb.cols
  have hsub : r.dims ⊆ a.dims ++ b.dims := by
    rw [hU]; exact (dimsUnion_spec hl ha.distinct).1
  refine ⟨r, hr, ⟨hwf, hd, l1, l2, ha.rowCls, ha.colCls, fun d hd' => hst.others d (hsub hd')⟩, hsub,
    ?_, hm⟩
  intro k
  by_cases e1 : k = ki
  · rw [e1, l1, ha.rows, hb.rows]; simp [bLen]
  · by_cases e2 : k = kj
    · rw [e2, l2, ha.cols, hb.cols]; simp [bLen]
    · exact l3 k e1 e2

theorem InStack.of {a b r : Arr β α} {ki kj : Key} {c : Coord}
    (hr : ∀ k, r.axisLen k = bLen (a.axisLen k) (b.axisLen k)) (ho : OuterOk a b ki kj)
    (hc : r.InStack ki kj c) : a.InStack ki kj c ∧ b.InStack ki kj c := by
  constructor
  · intro k s hi hj hk
    have h1 := hr k
    rw [hk] at h1
    cases hb : b.axisLen k with
    | none => rw [hb] at h1; exact hc k s hi hj h1
    | some t =>
      rw [hb] at h1
      have := ho k s t hi hj hk hb
      simp only [bLen] at h1
      split at h1
      · left; assumption
      · exact hc k s hi hj h1
  · intro k t hi hj hk
    have h1 := hr k
    rw [hk] at h1
    cases ha : a.axisLen k with
    | none => rw [ha] at h1; exact hc k t hi hj h1
    | some s =>
      rw [ha] at h1
      have := ho k s t hi hj ha hk
      simp only [bLen] at h1
      split at h1
      · exact hc k t hi hj h1
      · rcases this with e | e | e
        · subst e; exact hc k s hi hj h1
        · contradiction
        · left; exact e

theorem OuterOk.left {a b r x : Arr β α} {ki kj : Key}
    (hr : ∀ k, r.axisLen k = bLen (a.axisLen k) (b.axisLen k))
    (h1 : OuterOk a x ki kj) (h2 : OuterOk b x ki kj) : OuterOk r x ki kj := by
  intro k s t hi hj hs ht
  rw [hr k] at hs
  cases ha : a.axisLen k with
  | none => rw [ha] at hs; exact h2 k s t hi hj hs ht
  | some u =>
    cases hb : b.axisLen k with
    | none =>
      rw [ha, hb] at hs
      cases hs
      exact h1 k _ t hi hj ha ht
    | some v =>
      rw [ha, hb] at hs
      simp only [bLen] at hs
      split at hs <;> cases hs
      · exact h2 k _ t hi hj hb ht
      · exact h1 k _ t hi hj ha ht

theorem OuterOk.symm {a b : Arr β α} {ki kj : Key} (h : OuterOk a b ki kj) : OuterOk b a ki kj := by
  intro k s t hi hj hs ht
  have := h k t s hi hj ht hs
  tauto

theorem bLen_assoc (s t u : Option Nat) (h : ∀ x y, s = some x → t = some y → x = y ∨ x = 1 ∨ y = 1)
    (h' : ∀ x y, t = some x → u = some y → x = y ∨ x = 1 ∨ y = 1) :
    bLen (bLen s t) u = bLen s (bLen t u) := by
  cases s with
  | none => cases t <;> cases u <;> simp [bLen]
  | some x =>
    cases t with
    | none => cases u <;> simp [bLen]
    | some y =>
      by_cases h1 : x = 1 <;> by_cases h2 : y = 1 <;> cases u <;> simp [bLen, h1, h2]

theorem NoSub.mono {l l' : List (Dim β)} (h : NoSub l') (hs : l ⊆ l') : NoSub l :=
  fun d hd e he => h d (hs hd) e (hs he)

/-- C58.  The product of three stacks of square matrices does not depend on how it is
bracketed: both ways succeed, the axes have the same lengths, and every matrix is the same. -/
theorem C58_associative [Semiring α] (full : Arr β α → Arr β α) (x y z : Arr β α) {ki kj : Key} {n : Nat}
    (hx : x.IsStack ki kj n) (hy : y.IsStack ki kj n) (hz : z.IsStack ki kj n)
    (hl : NoSub (x.dims ++ y.dims ++ z.dims))
    (hxy : OuterOk x y ki kj) (hxz : OuterOk x z ki kj) (hyz : OuterOk y z ki kj) :
    ∃ xy yz r r', matMul full x y = .ok xy ∧ matMul full y z = .ok yz ∧
      matMul full xy z = .ok r ∧ matMul full x yz = .ok r' ∧
      (∀ k, r.axisLen k = r'.axisLen k) ∧
      ∀ c, r.InStack ki kj c → r.mat ki kj c n n = r'.mat ki kj c n n := by
  obtain ⟨xy, e1, s1, d1, a1, m1⟩ := hx.mul full hy
    (hl.mono (by intro d hd; exact List.mem_append_left _ hd)) hxy
  obtain ⟨yz, e2, s2, d2, a2, m2⟩ := hy.mul full hz
    (hl.mono (by intro d hd; simp only [List.mem_append] at hd ⊢; tauto)) hyz
  have o1 : OuterOk xy z ki kj := OuterOk.left a1 hxz hyz
  have o2 : OuterOk x yz ki kj := (OuterOk.left a2 hxy.symm hxz.symm).symm
  obtain ⟨r, e3, s3, d3, a3, m3⟩ := s1.mul full hz
    (hl.mono (by
      intro d hd
      rcases List.mem_append.1 hd with q | q
      · exact List.mem_append_left _ (d1 q)
      · exact List.mem_append_right _ q)) o1
  obtain ⟨r', e4, s4, d4, a4, m4⟩ := hx.mul full s2
    (hl.mono (by
      intro d hd
      rcases List.mem_append.1 hd with q | q
      · exact List.mem_append_left _ (List.mem_append_left _ q)
      · have := d2 q
        simp only [List.mem_append] at this ⊢; tauto)) o2
  have hlen : ∀ k, r.axisLen k = r'.axisLen k := by
    intro k
    rw [a3, a4, a1, a2]
    by_cases k1 : k = ki
    · subst k1; rw [hx.rows, hy.rows, hz.rows]; simp [bLen]
    · by_cases k2 : k = kj
      · subst k2; rw [hx.cols, hy.cols, hz.cols]; simp [bLen]
      · exact bLen_assoc _ _ _ (fun u v => hxy k u v k1 k2) (fun u v => hyz k u v k1 k2)
  refine ⟨xy, yz, r, r', e1, e2, e3, e4, hlen, ?_⟩
  intro c hc
  have hc' : r'.InStack ki kj c := fun k s hi hj hk => hc k s hi hj ((hlen k).trans hk)
  rw [m3 c hc, m4 c hc', m1 c (InStack.of a3 o1 hc).1, m2 c (InStack.of a4 o2 hc').2, Matrix.mul_assoc]

/-- Length of the axis of a dimension, for distinct axes. -/
theorem axisLen_getElem {x : Arr β α} (hwf : x.WF) (hd : Distinct x.dims) (k : Nat) (hk : k < x.dims.length) :
    x.axisLen (x.dims[k]).key = x.nd.shape[k]? := by
  unfold axisLen WF Distinct at *
  revert hwf hd
  generalize x.nd.shape = sh
  generalize x.dims = l at hk
  intro hwf hd
  induction l generalizing sh k with
  | nil => simp at hk
  | cons d t ih =>
    cases sh with
    | nil => simp at hwf
    | cons s ss =>
      simp only [List.zip_cons_cons, List.find?_cons]
      cases k with
      | zero => simp
      | succ k =>
        simp only [List.map_cons, List.nodup_cons] at hd
        have hk' : k < t.length := by simpa using hk
        have hne : d.key ≠ (t[k]).key := fun e => hd.1 (e ▸ List.mem_map_of_mem (List.getElem_mem hk'))
        simp only [List.getElem_cons_succ, hne, decide_false, List.getElem?_cons_succ]
        exact ih k ss hk' (by simpa using hwf) hd.2

theorem labelled_iff {x : Arr β α} (hwf : x.WF) (hd : Distinct x.dims) :
    x.Labelled ↔ ∀ d ∈ x.dims, x.axisLen d.key = some d.data.length := by
  unfold Labelled
  constructor
  · intro h d hd'
    obtain ⟨k, hk, rfl⟩ := List.getElem_of_mem hd'
    rw [axisLen_getElem hwf hd k hk, ← h]
    simp [hk]
  · intro h
    apply List.ext_getElem
    · simpa [WF] using hwf
    · intro k h1 h2
      have hk : k < x.dims.length := by simpa using h1
      have := h _ (List.getElem_mem hk)
      rw [axisLen_getElem hwf hd k hk, List.getElem?_eq_getElem h2] at this
      simp only [List.getElem_map]
      exact (Option.some.inj this).symm

/-- C58.  For square matrices and stacks of equal length the labels of the result fit its
axes, and they are the first operand's where it has the axis. -/
theorem C58_labels [Semiring α] (full : Arr β α → Arr β α) (a b : Arr β α) {ki kj : Key} {n : Nat}
    (ha : a.IsStack ki kj n) (hb : b.IsStack ki kj n) (hl : NoSub (a.dims ++ b.dims))
    (hla : a.Labelled) (hlb : b.Labelled)
    (ho : ∀ k s t, k ≠ ki → k ≠ kj → a.axisLen k = some s → b.axisLen k = some t → s = t) :
    ∃ r, matMul full a b = .ok r ∧ r.Labelled ∧
      ∀ d ∈ r.dims, d ∈ a.dims ∨ d ∈ b.dims ∧ d.key ∉ a.dims.map Dim.key := by
  have hst := ha.stacks hb hl
  have ho' : OuterOk a b ki kj := fun k s t h1 h2 h3 h4 => Or.inl (ho k s t h1 h2 h3 h4)
  obtain ⟨r, pre, i, j, hr, hwf, hd, hU, -, -, -, -, -, l1, l2, l3, -⟩ :=
    C58_product full a b hst ho' ha.rows ha.cols hb.rows hb.cols
  have hsrc := (dimsUnion_spec hl ha.distinct).2.2.2.1
  rw [← hU] at hsrc
  refine ⟨r, hr, (labelled_iff hwf hd).2 ?_, hsrc⟩
  intro d hd'
  rw [labelled_iff ha.wf ha.distinct] at hla
  rw [labelled_iff hb.wf hb.distinct] at hlb
  rcases hsrc d hd' with q | ⟨q, q'⟩
  · have e := hla d q
    by_cases h1 : d.key = ki
    · rw [h1] at e ⊢; rw [l1, ← ha.rows, e]
    · by_cases h2 : d.key = kj
      · rw [h2] at e ⊢; rw [l2, ← ha.cols, e]
      · rw [l3 _ h1 h2, e]
        cases hb' : b.axisLen d.key with
        | none => rfl
        | some t =>
          have := ho d.key _ t h1 h2 e hb'
          simp only [bLen]
          split <;> simp_all
  · have e := hlb d q
    have hna := axisLen_none ha.wf q'
    have h1 : d.key ≠ ki := by
      rintro h1; rw [h1, ha.rows] at hna; cases hna
    have h2 : d.key ≠ kj := by
      rintro h2; rw [h2, ha.cols] at hna; cases hna
    rw [l3 _ h1 h2, hna, e]; rfl

end HF.Arr
