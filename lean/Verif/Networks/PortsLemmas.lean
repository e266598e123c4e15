import Verif.Networks.Ports
import Verif.Networks.StackProps
/-
Helper lemmas for C103.
-/
noncomputable section

namespace HF.Networks

open HF.Arr

variable {β K : Type}

/-! ### Shapes only -/

/-- An array of `p` by `q` matrices with axes among those of `base`. -/
structure St (base : List (Dim β)) (x : Arr β K) (p q : Nat) : Prop where
  form : ∃ pre i j so, x.dims = pre ++ [i, j] ∧ i.key = kI ∧ j.key = kJ ∧ x.nd.shape = so ++ [p, q] ∧
    so.length = pre.length
  distinct : Distinct x.dims
  keys : ∀ d ∈ x.dims, d.key ∈ base.map Dim.key

/-- The axes of an array of matrices. -/
structure Base (base : List (Dim β)) : Prop where
  nosub : NoSub base
  others : ∀ d ∈ base, d.key ≠ kI → d.key ≠ kJ → d.isa .dimSweep = true ∨ d.isa .dimRep = true

theorem St.wf {base : List (Dim β)} {x : Arr β K} {p q : Nat} (h : St base x p q) : x.WF := by
  obtain ⟨pre, i, j, so, e1, -, -, e2, e3⟩ := h.form
  unfold WF
  rw [e1, e2]
  simp [e3]

theorem St.lens {base : List (Dim β)} {x : Arr β K} {p q : Nat} (h : St base x p q) :
    x.axisLen kI = some p ∧ x.axisLen kJ = some q := by
  obtain ⟨pre, i, j, so, e1, hi, hj, e2, e3⟩ := h.form
  have hw := h.wf
  have n0 : x.dims.length = pre.length + 2 := by rw [e1]; simp
  have g := fun k hk => axisLen_getElem hw h.distinct k hk
  constructor
  · have := g pre.length (by omega)
    have q1 : x.dims[pre.length]'(by omega) = i := by simp [e1]
    rw [q1, hi] at this
    rw [this, e2, ← e3]
    simp
  · have := g (pre.length + 1) (by omega)
    have q1 : x.dims[pre.length + 1]'(by omega) = j := by simp [e1]
    rw [q1, hj] at this
    rw [this, e2, ← e3]
    simp

theorem St.stacks {base : List (Dim β)} (hb : Base base) {x y : Arr β K} {p q p' q' : Nat} (hx : St base x p q)
    (hy : St base y p' q') : Stacks x y kI kJ := by
  have hk : ∀ d ∈ x.dims ++ y.dims, d.key ∈ base.map Dim.key := fun d hd =>
    (List.mem_append.1 hd).elim (hx.keys d) (hy.keys d)
  obtain ⟨pre, i, j, so, e1, hi, hj, -, -⟩ := hx.form
  refine ⟨hx.wf, hy.wf, hx.distinct, hy.distinct, noSub_keys hb.nosub hk, ?_, ?_, rfl, rfl, ?_⟩
  · rw [e1]; simp [hi]
  · rw [e1]; simp [hj]
  · intro d hd h1 h2
    obtain ⟨e, he, hq⟩ := List.mem_map.1 (hk d hd)
    have := hb.others e he (by rw [hq]; exact h1) (by rw [hq]; exact h2)
    have hc : e.cls = d.cls := congrArg Prod.snd hq
    simpa [Dim.isa, hc] using this

theorem bshape_two {s t r : List Nat} {p q p' q' : Nat} (hl : s.length = t.length)
    (h : Nd.bshape (s ++ [p, q]) (t ++ [p', q']) = .ok r) :
    ∃ so p2 q2, r = so ++ [p2, q2] ∧ so.length = s.length ∧ q2 = if q = q' then q else if q = 1 then q' else q := by
  have hlen := Nd.bshape_length h
  have hr : r.length = s.length + 2 := by
    have : s.length + 2 = r.length := by simpa using hlen.1
    omega
  have := Nd.bshape_getD h (s.length + 1)
  refine ⟨r.take s.length, r.getD s.length 0, r.getD (s.length + 1) 0, ?_, by simp; omega, ?_⟩
  · apply List.ext_getElem
    · simp; omega
    · intro k h1 h2
      by_cases hk : k < s.length
      · rw [List.getElem_append_left (by simp; omega)]; simp
      · rw [List.getElem_append_right (by simp; omega)]
        have : k = s.length ∨ k = s.length + 1 := by omega
        have m : min s.length r.length = s.length := by omega
        rcases this with rfl | rfl
        · simp [m, List.getElem?_eq_getElem h1]
        · simp [m, List.getElem?_eq_getElem h1]
  · rw [this]
    have e1 : (s ++ [p, q]).getD (s.length + 1) 0 = q := by simp
    have e2 : (t ++ [p', q']).getD (s.length + 1) 0 = q' := by simp [hl]
    rw [e1, e2]

theorem same_keys {base : List (Dim β)} {x y a' b' : Arr β K} {pre : List (Dim β)} {i j : Dim β} {p q p' q' : Nat}
    (hx : St base x p q) (hy : St base y p' q') (h : SameDims x y kI kJ pre i j a' b') :
    ∀ d ∈ pre ++ [i, j], d.key ∈ base.map Dim.key := by
  intro d hd
  rcases (h.mem d.key).1 (List.mem_map_of_mem hd) with q | q
  · obtain ⟨e, he, hq⟩ := List.mem_map.1 q
    rw [← hq]; exact hx.keys e he
  · obtain ⟨e, he, hq⟩ := List.mem_map.1 q
    rw [← hq]; exact hy.keys e he

theorem St.mul [Semiring K] {base : List (Dim β)} (hb : Base base) (full : Arr β K → Arr β K) {x y r : Arr β K}
    {p q p' q' : Nat} (hx : St base x p q) (hy : St base y p' q') (hr : matMul full x y = .ok r) : St base r p q' := by
  obtain ⟨pre, i, j, a', b', ea, eb, hs⟩ := same_dims full (hx.stacks hb hy)
  have sa := hs.shapeA
  have sb := hs.shapeB
  rw [len1_of hx.lens.1, len1_of hx.lens.2] at sa
  rw [len1_of hy.lens.1, len1_of hy.lens.2] at sb
  have hdot := Nd.dot.eq_1 a'.nd b'.nd
  rw [sa, sb, split2_append, split2_append] at hdot
  simp only [matMul, withSame, ea, eb] at hr
  rw [hdot] at hr
  dsimp only at hr
  cases e1 : Nd.bshape (pre.map fun u => len1 x u.key) (pre.map fun u => len1 y u.key) with
  | error _ => rw [e1] at hr; cases e2 : Nd.blen q p' <;> rw [e2] at hr <;> cases hr
  | ok so =>
    cases e2 : Nd.blen q p' with
    | none => rw [e1, e2] at hr; cases hr
    | some n =>
      rw [e1, e2] at hr
      dsimp only at hr
      have hl : so.length = pre.length := by simpa using (Nd.bshape_length e1).1.symm
      rw [mkL_ok (by rw [hs.dims]; simp [hl])] at hr
      obtain rfl := Except.ok.inj hr
      refine ⟨⟨pre, i, j, so, hs.dims, hs.ikey, hs.jkey, rfl, hl⟩, ?_, ?_⟩
      · show Distinct (dimsUnion x.dims y.dims)
        rw [hs.dims]; exact hs.distinct
      · show ∀ d ∈ dimsUnion x.dims y.dims, _
        rw [hs.dims]; exact same_keys hx hy hs

theorem St.arith [Field K] {base : List (Dim β)} (hb : Base base) (full : Arr β K → Arr β K) (f : K → K → K)
    {x y r : Arr β K} {p q p' q' : Nat} (hx : St base x p q) (hy : St base y p' q')
    (hr : Networks.arith full f x y = .ok r) :
    ∃ p2, St base r p2 (if q = q' then q else if q = 1 then q' else q) := by
  obtain ⟨pre, i, j, a', b', ea, eb, hs⟩ := same_dims full (hx.stacks hb hy)
  have sa := hs.shapeA
  have sb := hs.shapeB
  rw [len1_of hx.lens.1, len1_of hx.lens.2] at sa
  rw [len1_of hy.lens.1, len1_of hy.lens.2] at sb
  unfold Networks.arith at hr
  have hbin := Arr.binop.eq_1 full f x y
  simp only [ea, eb] at hbin
  rw [hbin] at hr
  unfold Nd.binop at hr
  rw [sa, sb] at hr
  cases e1 : Nd.bshape ((pre.map fun u => len1 x u.key) ++ [p, q]) ((pre.map fun u => len1 y u.key) ++ [p', q']) with
  | error ae => rw [e1] at hr; cases ae <;> cases hr
  | ok sh =>
    rw [e1] at hr
    obtain ⟨so, p2, q2, rfl, hl, hq⟩ := bshape_two (by simp) e1
    obtain rfl := Except.ok.inj hr
    refine ⟨p2, ⟨pre, i, j, so, hs.dims, hs.ikey, hs.jkey, by rw [← hq], by simpa using hl⟩, ?_, ?_⟩
    · show Distinct (dimsUnion x.dims y.dims)
      rw [hs.dims]; exact hs.distinct
    · show ∀ d ∈ dimsUnion x.dims y.dims, _
      rw [hs.dims]; exact same_keys hx hy hs


theorem St.inv [Field K] [DecidableEq K] {base : List (Dim β)} {x r : Arr β K} {p q : Nat} (hx : St base x p q)
    (hr : Arr.inv x = .ok r) : St base r p q := by
  obtain ⟨pre, i, j, so, e1, hi, hj, e2, e3⟩ := hx.form
  unfold Arr.inv Nd.inv at hr
  rw [e2, split2_append] at hr
  dsimp only at hr
  by_cases hpq : p = q
  · rw [if_pos hpq] at hr
    split at hr
    · rename_i nd hnd
      split at hnd
      · obtain rfl := Except.ok.inj hnd
        rw [mkL_ok (by rw [e1]; simp [e3])] at hr
        obtain rfl := Except.ok.inj hr
        exact ⟨⟨pre, i, j, so, e1, hi, hj, by rw [hpq], e3⟩, hx.distinct, hx.keys⟩
      · cases hnd
    · cases hr
  · rw [if_neg hpq] at hr
    cases hr

theorem St.neg [Field K] {base : List (Dim β)} {x : Arr β K} {p q : Nat} (hx : St base x p q) :
    St base (negArr x) p q := ⟨hx.form, hx.distinct, hx.keys⟩

/-! ### Corners -/

theorem low_indices {m : Nat} (hm : 2 ≤ m) : ∃ l, low.indices m = some l ∧ l.length = 2 := by
  refine ⟨_, rfl, ?_⟩
  simp [low, Slice.startOf, Slice.stopOf, Slice.countOf, Slice.clip]
  (repeat' split) <;> omega

theorem high_indices {m : Nat} (hm : 2 ≤ m) : ∃ l, high.indices m = some l ∧ l.length = m - 2 := by
  refine ⟨_, rfl, ?_⟩
  simp [high, Slice.startOf, Slice.stopOf, Slice.countOf, Slice.clip]
  (repeat' split) <;> omega

/-- What the slices take of an array of a single matrix. -/
theorem corner_shape (fmt : β → String) {m : Nat} (hm : 2 ≤ m) (i j : Dim β) (hi : i.data.length = m)
    (hj : j.data.length = m) (g : List Nat → K) (hi' : i.key = kI) (hj' : j.key = kJ) {r c : Slice}
    (hrf : r ≠ Slice.full) (hcf : c ≠ Slice.full) {lr lc : List Nat}
    (hr : r.indices m = some lr) (hc : c.indices m = some lc) :
    ∃ i' j' g', i'.key = kI ∧ j'.key = kJ ∧ corner fmt (⟨[i, j], ⟨[m, m], g⟩⟩ : Arr β K) r c =
      .ok ⟨[i', j'], ⟨[lr.length, lc.length], g'⟩⟩ := by
  have hs : ∀ (d : Dim β), d.data.length = m → ∀ s l, s ≠ Slice.full → s.indices m = some l →
      ∃ e : Dim β, e.key = d.key ∧ dimSlice fmt d s = .ok e := by
    intro d hd s l h1 hl
    obtain ⟨v, t, hv⟩ : ∃ v t, d.data = v :: t := by
      cases h : d.data with
      | nil => rw [h] at hd; simp at hd; omega
      | cons v t => exact ⟨v, t, rfl⟩
    have ho : ∃ o, outputformatOf fmt d = .ok o := by
      unfold outputformatOf
      cases d.outputformat with
      | some o => exact ⟨o, rfl⟩
      | none => rw [hv]; exact ⟨fmt v, rfl⟩
    obtain ⟨o, ho⟩ := ho
    refine ⟨{ d with data := l.filterMap fun i => d.data[i]?, outputformat := some o }, rfl, ?_⟩
    unfold dimSlice
    rw [if_neg h1, hd, hl]
    simp only [ho]
  obtain ⟨i', hi1, hi2⟩ := hs i hi r lr hrf hr
  obtain ⟨j', hj1, hj2⟩ := hs j hj c lc hcf hc
  have hx : expandEllipsis 2 [Ix.ellipsis, .slice r, .slice c] = .ok [.slice r, .slice c] := by
    simp [expandEllipsis, Slice.full]
  refine ⟨i', j', fun idx => g [lr.getD (idx.headD 0) 0, lc.getD (idx.tail.headD 0) 0], hi1.trans hi', hj1.trans hj', ?_⟩
  unfold corner getitem
  simp [Nd.ndim, hx, indexDims, hi2, hj2, Nd.getBasic, Nd.resolve, hr, hc, Nd.selShape, Nd.selIdx, ofNd, mk?]

theorem St.two {base : List (Dim β)} (hI : kI ∈ base.map Dim.key) (hJ : kJ ∈ base.map Dim.key) {i j : Dim β}
    (hi : i.key = kI) (hj : j.key = kJ) (p q : Nat) (g : List Nat → K) : St base ⟨[i, j], ⟨[p, q], g⟩⟩ p q := by
  have hne : kI ≠ kJ := by decide
  refine ⟨⟨[], i, j, [], rfl, hi, hj, rfl, rfl⟩, by unfold Distinct; simp [hi, hj, hne], ?_⟩
  intro d hd
  simp only [List.mem_cons, List.not_mem_nil, or_false] at hd
  rcases hd with rfl | rfl
  · rw [hi]; exact hI
  · rw [hj]; exact hJ

theorem St.of_last {x : Arr β K} {n : Nat} {pre : List (Dim β)} {i j : Dim β} (h : x.Last kI kJ n pre i j) :
    St x.dims x n n :=
  ⟨⟨pre, i, j, _, h.dims, h.ikey, h.jkey, h.shape, by simp⟩, h.stack.distinct, fun d hd => List.mem_map_of_mem hd⟩

variable [Field K] [DecidableEq K]

def iB (ofIdx : Nat → β) (n : Nat) : Dim β := ⟨.matI, "i", (List.range (n + n)).map ofIdx, none, none⟩
def jB (ofIdx : Nat → β) (n : Nat) : Dim β := ⟨.matJ, "j", (List.range (n + n)).map ofIdx, none, none⟩

theorem ofBlocks_last (ofIdx : Nat → β) {n : Nat} (M : Matrix (Fin n ⊕ Fin n) (Fin n ⊕ Fin n) K) :
    (ofBlocks ofIdx M).Last kI kJ (n + n) [] (iB ofIdx n) (jB ofIdx n) := last_two (n + n) rfl rfl _

/-- No conversion through `convert` succeeds but for two ports. -/
theorem convert_fails (full : Arr β K → Arr β K) (fmt : β → String) (ofIdx : Nat → β) {n : Nat} (hn : 0 < n)
    (hn2 : n ≠ 2) (P Q : Matrix (Fin n ⊕ Fin n) (Fin n ⊕ Fin n) K) {a : Arr β K} {pre : List (Dim β)} {i j : Dim β}
    (ha : a.Last kI kJ n pre i j) (hl : NoSub a.dims) :
    ∃ e, ((convertArr full fmt (ofBlocks ofIdx P) (ofBlocks ofIdx Q) a).bind fun res => assignAll a res) = .error e := by
  have hP := ofBlocks_last ofIdx P
  have hQ := ofBlocks_last ofIdx Q
  have hb : Base a.dims := ⟨hl, ha.stack.others⟩
  have hI : kI ∈ a.dims.map Dim.key := by rw [ha.dims]; simp [ha.ikey]
  have hJ : kJ ∈ a.dims.map Dim.key := by rw [ha.dims]; simp [ha.jkey]
  have hns : NoSub (ofBlocks ofIdx P).dims := by
    show NoSub [iB ofIdx n, jB ofIdx n]
    intro d hd e he
    simp only [List.mem_cons, List.not_mem_nil, or_false] at hd he
    rcases hd with rfl | rfl <;> rcases he with rfl | rfl <;> simp [iB, jB]
  by_cases hreg : (ofBlocks ofIdx Q).Regular kI kJ (n + n)
  swap
  · exact ⟨.linAlgError, by unfold convertArr; rw [C59_singular _ hQ hreg]; rfl⟩
  obtain ⟨PB, e1, l1, -, -⟩ := C59_inverse _ hQ hreg
  obtain ⟨R, e2, l2, -, -⟩ := mul_single full hP hns l1
  replace l2 : R.Last kI kJ (n + n) [] (iB ofIdx n) (jB ofIdx n) := l2
  have hd := l2.dims
  have hs := l2.shape
  obtain ⟨dims, ⟨shape, g⟩⟩ := R
  simp only [List.nil_append, List.map_nil] at hd hs
  subst hd hs
  obtain ⟨ll, hll, nl⟩ := low_indices (m := n + n) (by omega)
  obtain ⟨lh, hlh, nh⟩ := high_indices (m := n + n) (by omega)
  have fl : low ≠ Slice.full := by decide
  have fh : high ≠ Slice.full := by decide
  have hiL : (iB ofIdx n).data.length = n + n := by simp [iB]
  have hjL : (jB ofIdx n).data.length = n + n := by simp [jB]
  obtain ⟨i1, j1, g1, a1, b1, c1⟩ := corner_shape (K := K) fmt (by omega) _ _ hiL hjL g rfl rfl fl fl hll hll
  obtain ⟨i2, j2, g2, a2, b2, c2⟩ := corner_shape (K := K) fmt (by omega) _ _ hiL hjL g rfl rfl fl fh hll hlh
  obtain ⟨i3, j3, g3, a3, b3, c3⟩ := corner_shape (K := K) fmt (by omega) _ _ hiL hjL g rfl rfl fh fl hlh hll
  obtain ⟨i5, j5, g5, a5, b5, c5⟩ := corner_shape (K := K) fmt (by omega) _ _ hiL hjL g rfl rfl fh fh hlh hlh
  rw [nl] at c1 c2 c3
  rw [nh] at c2 c3 c5
  have sa := St.of_last ha
  have s1 := St.two hI hJ a1 b1 2 2 g1
  have s2 := St.two hI hJ a2 b2 2 (n + n - 2) g2
  have s3 := St.two hI hJ a3 b3 (n + n - 2) 2 g3
  have s5 := St.two hI hJ a5 b5 (n + n - 2) (n + n - 2) g5
  simp only [convertArr, e1, e2, c1, c2, c3, c5, bind, Except.bind]
  by_cases h3 : n = 1
  · subst h3
    cases q1 : matMul full a ⟨[i3, j3], ⟨[1 + 1 - 2, 2], g3⟩⟩ with
    | error e => exact ⟨e, rfl⟩
    | ok at2 =>
      have t1 := sa.mul hb full s3 q1
      dsimp only
      cases q2 : Networks.arith full (· - ·) ⟨[i1, j1], ⟨[2, 2], g1⟩⟩ at2 with
      | error e => exact ⟨e, rfl⟩
      | ok d =>
        obtain ⟨p2, t2⟩ := s1.arith hb full _ t1 q2
        dsimp only
        cases q3 : Arr.inv d with
        | error e => exact ⟨e, rfl⟩
        | ok A =>
          have t3 := t2.inv q3
          dsimp only
          cases q4 : matMul full a ⟨[i5, j5], ⟨[1 + 1 - 2, 1 + 1 - 2], g5⟩⟩ with
          | error e => exact ⟨e, rfl⟩
          | ok as2 =>
            have t4 := sa.mul hb full s5 q4
            dsimp only
            cases q5 : Networks.arith full (· + ·) (negArr ⟨[i2, j2], ⟨[2, 1 + 1 - 2], g2⟩⟩) as2 with
            | error e => exact ⟨e, rfl⟩
            | ok B =>
              obtain ⟨p5, t5⟩ := s2.neg.arith hb full _ t4 q5
              dsimp only
              cases q6 : matMul full A B with
              | error e => exact ⟨e, rfl⟩
              | ok res =>
                have t6 := t3.mul hb full t5 q6
                dsimp only
                refine ⟨.valueError, ?_⟩
                unfold assignAll
                cases q7 : Nd.bshape res.nd.shape a.nd.shape with
                | error e => rfl
                | ok sh =>
                  dsimp only
                  rw [if_neg]
                  intro hsh
                  subst hsh
                  obtain ⟨pr, ii, jj, so, -, -, -, u1, -⟩ := t6.form
                  have u2 := ha.shape
                  have hlen := Nd.bshape_length q7
                  rw [u1, u2] at q7
                  rw [u1, u2] at hlen
                  obtain ⟨so', p8, q8, v1, -, v2⟩ := bshape_two (by simpa using hlen.1) q7
                  have := (List.append_inj' v1 rfl).2
                  simp at this v2
                  omega
  · have hm := C58_mismatch full a ⟨[i3, j3], ⟨[n + n - 2, 2], g3⟩⟩ (sa.stacks hb s3) sa.lens.2 s3.lens.1
      (Or.inl ⟨by omega, by omega, by omega⟩)
    rw [hm]
    exact ⟨.valueError, rfl⟩

end HF.Networks
