import Verif.Networks.ChainLemmas
import Verif.Networks.CascadeProps
/-
C102: cascading and de-embedding of arrays of two-ports works coordinate by coordinate.
-/
noncomputable section

namespace HF.Networks

open HF.Arr

variable {β K : Type}

/-! ### Specification -/

/-- Two arrays of two by two matrices which can be combined: the other axes are sweeps and repetitions,
in any order, axes of both have the same length or length one, and no axis is empty in one of them
only. -/
structure Fit (a b : Arr β K) : Prop where
  left : a.IsStack kI kJ 2
  right : b.IsStack kI kJ 2
  nosub : NoSub (a.dims ++ b.dims)
  outer : OuterOk a b kI kJ
  empty : SameEmpty a b

/-- The axes of the result: those of both arrays, first the sweeps, then the repetitions, then the
matrices. -/
structure Combined (a b r : Arr β K) : Prop where
  last : ∃ pre i j, r.Last kI kJ 2 pre i j ∧ SweepsFirst pre
  sub : r.dims ⊆ a.dims ++ b.dims
  len : ∀ k, r.axisLen k = bLen (a.axisLen k) (b.axisLen k)

/-! ### Helpers -/

theorem sorted_sweeps {pre : List (Dim β)} (h : pre.Pairwise fun x y => x.sortprio ≤ y.sortprio) : SweepsFirst pre := by
  have prio : ∀ c d : Cls, c.isSub .dimRep = true → c.sortprio ≤ d.sortprio → d.isSub .dimSweep = false := by
    intro c d; cases c <;> cases d <;> decide +kernel
  exact h.imp fun hxy hr => prio _ _ hr hxy

theorem combined [Field K] {a b r : Arr β K} (h : Fit a b) {pre : List (Dim β)} {i j : Dim β}
    {F : Coord → Nat → Nat → K} (hU : dimsUnion a.dims b.dims = pre ++ [i, j]) (hi : i.key = kI) (hj : j.key = kJ)
    (hne : ∀ d ∈ pre, d.key ≠ kI ∧ d.key ≠ kJ) (hO : Outer pre) (gP : Good (pre ++ [i, j]))
    (hmem : ∀ k, k ∈ (pre ++ [i, j]).map Dim.key ↔ k ∈ a.dims.map Dim.key ∨ k ∈ b.dims.map Dim.key)
    (hr : Mats r pre i j (lenAB a b) F) :
    Combined a b r ∧ ∀ c, r.InStack kI kJ c → r.mat kI kJ c 2 2 = Matrix.of fun m n => F c m.1 n.1 := by
  have hs : r.nd.shape = r.dims.map fun u => if u.key = kI ∨ u.key = kJ then 2 else lenAB a b u.key := by
    rw [hr.shape, hr.dims, List.map_append]
    congr 1
    · exact List.map_congr_left fun d hd => by simp [(hne d hd).1, (hne d hd).2]
    · simp [hi, hj]
  have hwf : r.WF := by unfold WF; rw [hs]; simp
  have hdist : Distinct r.dims := by rw [hr.dims]; exact gP.distinct
  have hlen : ∀ k, k ∈ (pre ++ [i, j]).map Dim.key → r.axisLen k = some (if k = kI ∨ k = kJ then 2 else lenAB a b k) :=
    fun k hk => axisLen_map (fun k => if k = kI ∨ k = kJ then 2 else lenAB a b k) hs (by rw [hr.dims]; exact hk)
  have kIm : kI ∈ (pre ++ [i, j]).map Dim.key := by rw [← hi]; exact List.mem_map_of_mem (by simp)
  have kJm : kJ ∈ (pre ++ [i, j]).map Dim.key := by rw [← hj]; exact List.mem_map_of_mem (by simp)
  have hrow : r.axisLen kI = some 2 := by rw [hlen kI kIm]; simp
  have hcol : r.axisLen kJ = some 2 := by rw [hlen kJ kJm]; simp
  constructor
  · refine ⟨⟨pre, i, j, ⟨⟨hwf, hdist, hrow, hcol, rfl, rfl, ?_⟩, hr.dims, hi, hj⟩, ?_⟩, ?_, ?_⟩
    · intro d hd h1 h2
      rw [hr.dims] at hd
      rcases List.mem_append.1 hd with hd | hd
      · exact hO d hd
      · simp only [List.mem_cons, List.not_mem_nil, or_false] at hd
        rcases hd with rfl | rfl
        · exact absurd hi h1
        · exact absurd hj h2
    · exact sorted_sweeps (List.pairwise_append.1 gP.sorted).1
    · rw [hr.dims, ← hU]; exact (dimsUnion_spec h.nosub h.left.distinct).1
    · intro k
      by_cases hk : k ∈ (pre ++ [i, j]).map Dim.key
      · by_cases h1 : k = kI
        · rw [h1, hrow, h.left.rows, h.right.rows]; simp [bLen]
        · by_cases h2 : k = kJ
          · rw [h2, hcol, h.left.cols, h.right.cols]; simp [bLen]
          · rw [hlen k hk, if_neg (by tauto)]
            unfold lenAB len1
            apply lenB_bLen
            rcases (hmem k).1 hk with q | q
            · exact Or.inl (axisLen_ne_none h.left.wf q)
            · exact Or.inr (axisLen_ne_none h.right.wf q)
      · have : ¬ (k ∈ a.dims.map Dim.key ∨ k ∈ b.dims.map Dim.key) := fun q => hk ((hmem k).2 q)
        rw [not_or] at this
        rw [axisLen_none hwf (by rw [hr.dims]; exact hk), axisLen_none h.left.wf this.1, axisLen_none h.right.wf this.2]
        rfl
  · intro c hc
    ext m n
    rw [Matrix.of_apply]
    have hin : Inside pre (lenAB a b) c := by
      intro d hd
      have hdk : d.key ∈ (pre ++ [i, j]).map Dim.key := List.mem_map_of_mem (List.mem_append_left _ hd)
      have := hc d.key _ (hne d hd).1 (hne d hd).2 (hlen d.key hdk)
      simpa [(hne d hd).1, (hne d hd).2] using this
    rw [← hr.val c hin m.1 n.1 m.2 n.2]
    show r.atB _ = _
    rw [atB_map (fun k => if k = kI ∨ k = kJ then 2 else lenAB a b k) hs, hr.dims, List.map_append]
    congr 1
    congr 1
    · exact List.map_congr_left fun d hd => by simp [upd, (hne d hd).1, (hne d hd).2]
    · simp [upd, hi, hj, show kJ ≠ kI from by decide]

theorem Combined.stack {a b r : Arr β K} (h : Combined a b r) : r.IsStack kI kJ 2 := by
  obtain ⟨_, _, _, h, _⟩ := h.last
  exact h.stack

theorem mat_apply (a : Arr β K) (c : Coord) (m n : Fin 2) : a.mat kI kJ c 2 2 m n = a.atB (upd c kI kJ m.1 n.1) := rfl

variable [Field K] [DecidableEq K] [DecidableEq β]

/-! ### The functions -/

/-- C102.  Cascading two arrays: there is no error, the result has the axes of both, and at every
coordinate there is the cascade of the networks at that coordinate, if this exists. -/
theorem C102_cascade (full : Arr β K → Arr β K) (fmt : β → String) (div : K → K → K)
    (hdiv : ∀ x y, y ≠ 0 → div x y = x / y) (a b : Arr β K) (h : Fit a b) :
    ∃ r, cascadeArr full fmt div a b = .ok r ∧ Combined a b r ∧
      ∀ c, r.InStack kI kJ c → ∀ M, cascadeS id (a.mat kI kJ c 2 2) (b.mat kI kJ c 2 2) [] = some M →
        r.mat kI kJ c 2 2 = M := by
  obtain ⟨pre, i, j, r, e, hU, hi, hj, hne, hO, gP, hmem, hr⟩ :=
    cascade_mats full fmt div h.left h.right h.nosub h.outer h.empty
  obtain ⟨hc, hm⟩ := combined h hU hi hj hne hO gP hmem hr
  refine ⟨r, e, hc, ?_⟩
  intro c hin M hM
  rw [hm c hin]
  unfold cascadeS at hM
  dsimp only at hM
  split at hM
  · cases hM
  · rename_i hd
    obtain rfl := Option.some.inj hM
    ext m n
    rw [Matrix.of_apply]
    dsimp only
    rw [hdiv _ _ (show 1 - a.atB (upd c kI kJ 1 1) * b.atB (upd c kI kJ 0 0) ≠ 0 from hd)]
    fin_cases m <;> fin_cases n <;> simp [Matrix.det_fin_two, mat_apply]

/-- C102.  De-embedding a network on the left. -/
theorem C102_left (full : Arr β K → Arr β K) (fmt : β → String) (div : K → K → K)
    (hdiv : ∀ x y, y ≠ 0 → div x y = x / y) (e X : Arr β K) (h : Fit X e) :
    ∃ r, deembedleftArr full fmt div e X = .ok r ∧ Combined X e r ∧
      ∀ c, r.InStack kI kJ c → ∀ M, deembedleft id (e.mat kI kJ c 2 2) (X.mat kI kJ c 2 2) = some M →
        r.mat kI kJ c 2 2 = M := by
  obtain ⟨pre, i, j, r, eq, hU, hi, hj, hne, hO, gP, hmem, hr⟩ :=
    left_mats full fmt div h.left h.right h.nosub h.outer h.empty
  obtain ⟨hc, hm⟩ := combined h hU hi hj hne hO gP hmem hr
  refine ⟨r, eq, hc, ?_⟩
  intro c hin M hM
  rw [hm c hin]
  unfold deembedleft at hM
  dsimp only at hM
  split at hM
  · cases hM
  · rename_i hd
    obtain rfl := Option.some.inj hM
    ext m n
    rw [Matrix.of_apply]
    dsimp only
    rw [hdiv _ _ (show e.atB (upd c kI kJ 0 1) * e.atB (upd c kI kJ 1 0) - e.atB (upd c kI kJ 0 0) * e.atB (upd c kI kJ 1 1) +
      e.atB (upd c kI kJ 1 1) * X.atB (upd c kI kJ 0 0) ≠ 0 from hd)]
    fin_cases m <;> fin_cases n <;> simp [mat_apply]

/-- C102.  De-embedding a network on the right. -/
theorem C102_right (full : Arr β K → Arr β K) (fmt : β → String) (div : K → K → K)
    (hdiv : ∀ x y, y ≠ 0 → div x y = x / y) (X e : Arr β K) (h : Fit X e) :
    ∃ r, deembedrightArr full fmt div X e = .ok r ∧ Combined X e r ∧
      ∀ c, r.InStack kI kJ c → ∀ M, deembedright id (X.mat kI kJ c 2 2) (e.mat kI kJ c 2 2) = some M →
        r.mat kI kJ c 2 2 = M := by
  obtain ⟨pre, i, j, r, eq, hU, hi, hj, hne, hO, gP, hmem, hr⟩ :=
    right_mats full fmt div h.left h.right h.nosub h.outer h.empty
  obtain ⟨hc, hm⟩ := combined h hU hi hj hne hO gP hmem hr
  refine ⟨r, eq, hc, ?_⟩
  intro c hin M hM
  rw [hm c hin]
  unfold deembedright at hM
  dsimp only at hM
  split at hM
  · cases hM
  · rename_i hd
    obtain rfl := Option.some.inj hM
    ext m n
    rw [Matrix.of_apply]
    dsimp only
    rw [hdiv _ _ (show e.atB (upd c kI kJ 0 1) * e.atB (upd c kI kJ 1 0) - e.atB (upd c kI kJ 0 0) * e.atB (upd c kI kJ 1 1) +
      e.atB (upd c kI kJ 0 0) * X.atB (upd c kI kJ 1 1) ≠ 0 from hd)]
    fin_cases m <;> fin_cases n <;> simp [mat_apply]

/-! ### Cascading and de-embedding -/

omit [Field K] [DecidableEq K] [DecidableEq β] in
theorem len1_bLen {a b r : Arr β K} (hl : ∀ k, r.axisLen k = bLen (a.axisLen k) (b.axisLen k)) (k : Key) :
    len1 r k = lenB (len1 a k) (len1 b k) := by
  unfold len1 lenB
  rw [hl]
  cases a.axisLen k <;> cases b.axisLen k <;> simp [bLen]
  split <;> simp_all

omit [DecidableEq β] in
/-- The result of combining two arrays can be combined with each of them. -/
theorem Combined.fit {a b r : Arr β K} (h : Fit a b) (hc : Combined a b r) : Fit r a ∧ Fit r b := by
  have s1 : NoSub (r.dims ++ a.dims) := h.nosub.mono (by
    intro d hd; exact (List.mem_append.1 hd).elim (fun q => hc.sub q) (fun q => List.mem_append_left _ q))
  have s2 : NoSub (r.dims ++ b.dims) := h.nosub.mono (by
    intro d hd; exact (List.mem_append.1 hd).elim (fun q => hc.sub q) (fun q => List.mem_append_right _ q))
  have l0 : ∀ k, k ≠ kI → k ≠ kJ → (len1 r k = 0 ↔ len1 a k = 0) ∧ (len1 r k = 0 ↔ len1 b k = 0) := by
    intro k h1 h2
    have h3 := h.empty k h1 h2
    rw [len1_bLen hc.len]
    unfold lenB
    split <;> constructor <;> omega
  exact ⟨⟨hc.stack, h.left, s1, OuterOk.left hc.len (OuterOk.refl fun _ => rfl) h.outer.symm,
      fun k h1 h2 => (l0 k h1 h2).1⟩,
    ⟨hc.stack, h.right, s2, OuterOk.left hc.len h.outer (OuterOk.refl fun _ => rfl), fun k h1 h2 => (l0 k h1 h2).2⟩⟩

omit [Field K] [DecidableEq K] [DecidableEq β] in
theorem inStack_len {r s : Arr β K} (h : ∀ k, len1 r k = len1 s k) (wr : r.WF) (ws : s.WF) {c : Coord}
    (hc : r.InStack kI kJ c) : s.InStack kI kJ c := by
  intro k n h1 h2 hn
  have e := h k
  rw [len1_of hn] at e
  cases hr : r.axisLen k with
  | none => left; rw [← e]; unfold len1; rw [hr]; rfl
  | some m =>
    rw [len1_of hr] at e
    rw [← e]
    exact hc k m h1 h2 hr

/-- C102.  What was put on the left of an array can be taken away again: at every coordinate at which the
cascade exists and the network taken away transmits, there is the other network, with the axes of
both. -/
theorem C102_left_again (full : Arr β K → Arr β K) (fmt : β → String) (div : K → K → K)
    (hdiv : ∀ x y, y ≠ 0 → div x y = x / y) (a b : Arr β K) (h : Fit a b) :
    ∃ X r, cascadeArr full fmt div a b = .ok X ∧ deembedleftArr full fmt div a X = .ok r ∧
      (∀ k, len1 r k = lenB (len1 a k) (len1 b k)) ∧
      ∀ c, r.InStack kI kJ c → (∃ M, cascadeS id (a.mat kI kJ c 2 2) (b.mat kI kJ c 2 2) [] = some M) →
        a.mat kI kJ c 2 2 0 1 * a.mat kI kJ c 2 2 1 0 ≠ 0 → r.mat kI kJ c 2 2 = b.mat kI kJ c 2 2 := by
  obtain ⟨X, eX, cX, mX⟩ := C102_cascade full fmt div hdiv a b h
  obtain ⟨r, er, cr, mr⟩ := C102_left full fmt div hdiv a X (cX.fit h).1
  have hl : ∀ k, len1 r k = lenB (len1 a k) (len1 b k) := by
    intro k
    rw [len1_bLen cr.len, len1_bLen cX.len]
    unfold lenB
    (repeat' split) <;> first | rfl | omega
  refine ⟨X, r, eX, er, hl, ?_⟩
  rintro c hc ⟨M, hM⟩ ht
  have hX : X.InStack kI kJ c := inStack_len (fun k => by rw [hl, len1_bLen cX.len]) cr.stack.wf cX.stack.wf hc
  apply mr c hc
  rw [mX c hX M hM]
  exact C29_left _ _ _ ht hM

/-- C102.  The same on the right. -/
theorem C102_right_again (full : Arr β K → Arr β K) (fmt : β → String) (div : K → K → K)
    (hdiv : ∀ x y, y ≠ 0 → div x y = x / y) (a b : Arr β K) (h : Fit a b) :
    ∃ X r, cascadeArr full fmt div a b = .ok X ∧ deembedrightArr full fmt div X b = .ok r ∧
      (∀ k, len1 r k = lenB (len1 a k) (len1 b k)) ∧
      ∀ c, r.InStack kI kJ c → (∃ M, cascadeS id (a.mat kI kJ c 2 2) (b.mat kI kJ c 2 2) [] = some M) →
        b.mat kI kJ c 2 2 0 1 * b.mat kI kJ c 2 2 1 0 ≠ 0 → r.mat kI kJ c 2 2 = a.mat kI kJ c 2 2 := by
  obtain ⟨X, eX, cX, mX⟩ := C102_cascade full fmt div hdiv a b h
  obtain ⟨r, er, cr, mr⟩ := C102_right full fmt div hdiv X b (cX.fit h).2
  have hl : ∀ k, len1 r k = lenB (len1 a k) (len1 b k) := by
    intro k
    have h0 : len1 a k = len1 b k ∨ len1 a k = 1 ∨ len1 b k = 1 := by
      by_cases h1 : k = kI
      · left; rw [h1, len1_of h.left.rows, len1_of h.right.rows]
      · by_cases h2 : k = kJ
        · left; rw [h2, len1_of h.left.cols, len1_of h.right.cols]
        · unfold len1
          cases ha : a.axisLen k with
          | none => right; left; rfl
          | some s =>
            cases hb : b.axisLen k with
            | none => right; right; rfl
            | some t => exact h.outer k s t h1 h2 ha hb
    rw [len1_bLen cr.len, len1_bLen cX.len]
    unfold lenB
    (repeat' split) <;> first | rfl | omega
  refine ⟨X, r, eX, er, hl, ?_⟩
  rintro c hc ⟨M, hM⟩ ht
  have hX : X.InStack kI kJ c := inStack_len (fun k => by rw [hl, len1_bLen cX.len]) cr.stack.wf cX.stack.wf hc
  apply mr c hc
  rw [mX c hX M hM]
  exact C29_right _ _ _ ht hM

/-! ### Correction of the switch -/

/-- C102.  `switch_correct(b, a)`: at every coordinate the matrix which maps the measured `a` to the
measured `b`. -/
theorem C102_switch (full : Arr β K → Arr β K) (b a : Arr β K) {pre : List (Dim β)} {i j : Dim β} {n : Nat}
    (ha : a.Last kI kJ n pre i j) (hb : b.IsStack kI kJ n) (hl : NoSub (b.dims ++ a.dims))
    (ho : OuterOk b a kI kJ) (hreg : a.Regular kI kJ n) :
    ∃ r, switchCorrect full b a = .ok r ∧ (∀ k, r.axisLen k = bLen (b.axisLen k) (a.axisLen k)) ∧
      ∀ c, r.InStack kI kJ c → r.mat kI kJ c n n * a.mat kI kJ c n n = b.mat kI kJ c n n := by
  obtain ⟨m, em, lm, nm, mm⟩ := C59_inverse a ha hreg
  have hl' : NoSub (b.dims ++ m.dims) := noSub_keys hl (by
    intro d hd
    rcases List.mem_append.1 hd with q | q
    · exact List.mem_map_of_mem (List.mem_append_left _ q)
    · have : d.key ∈ a.dims.map Dim.key := by
        by_contra hk
        have h1 := axisLen_none ha.stack.wf hk
        rw [← nm] at h1
        exact axisLen_ne_none lm.stack.wf (List.mem_map_of_mem q) h1
      rw [List.map_append]; exact List.mem_append_right _ this)
  obtain ⟨r, er, -, -, lr, mr⟩ := hb.mul full lm.stack hl' (by
    intro k s t h1 h2 h3 h4; rw [nm] at h4; exact ho k s t h1 h2 h3 h4)
  refine ⟨r, ?_, fun k => by rw [lr, nm], ?_⟩
  · unfold switchCorrect
    rw [em, ok_bind, er]
  · intro c hc
    have hca : a.InStack kI kJ c := by
      intro k s h1 h2 hs
      have hr := lr k
      rw [nm, hs] at hr
      cases hb' : b.axisLen k with
      | none => rw [hb'] at hr; exact hc k s h1 h2 hr
      | some t =>
        rw [hb'] at hr
        have h3 := ho k t s h1 h2 hb' hs
        simp only [bLen] at hr
        split at hr
        · exact hc k s h1 h2 hr
        · have h4 := hc k t h1 h2 hr
          omega
    rw [mr c hc, mm c hca, Matrix.mul_assoc, Matrix.nonsing_inv_mul _ (isUnit_iff_ne_zero.2 (hreg c hca)), Matrix.mul_one]

/-- C102.  There is an error if one of the matrices of `a` is singular. -/
theorem C102_switch_singular (full : Arr β K → Arr β K) (b a : Arr β K) {pre : List (Dim β)} {i j : Dim β} {n : Nat}
    (ha : a.Last kI kJ n pre i j) (hreg : ¬ a.Regular kI kJ n) : switchCorrect full b a = .error .linAlgError := by
  unfold switchCorrect
  rw [C59_singular a ha hreg]
  rfl

/-! ### Networks of any class -/

/-- Arrays of two-ports which can be combined. -/
structure FitNet (a b : NetArr β K) : Prop where
  left : ∃ pre, TwoPorts a pre ∧ SweepsFirst pre
  right : ∃ pre, TwoPorts b pre ∧ SweepsFirst pre
  nosub : NoSub (a.a.dims ++ b.a.dims)
  outer : OuterOk a.a b.a kI kJ
  empty : SameEmpty a.a b.a

omit [DecidableEq β] in
theorem FitNet.of {a b a' b' : NetArr β K} (h : FitNet a b) (d1 : a'.a.dims = a.a.dims)
    (s1 : a'.a.nd.shape = a.a.nd.shape) (d2 : b'.a.dims = b.a.dims) (s2 : b'.a.nd.shape = b.a.nd.shape) :
    Fit a'.a b'.a := by
  obtain ⟨p, hp, -⟩ := h.left
  obtain ⟨q, hq, -⟩ := h.right
  obtain ⟨⟨i, j, hL⟩, -⟩ := hp.same d1 s1
  obtain ⟨⟨i', j', hR⟩, -⟩ := hq.same d2 s2
  have l1 : ∀ k, a'.a.axisLen k = a.a.axisLen k := fun k => by unfold axisLen; rw [d1, s1]
  have l2 : ∀ k, b'.a.axisLen k = b.a.axisLen k := fun k => by unfold axisLen; rw [d2, s2]
  refine ⟨hL.stack, hR.stack, by rw [d1, d2]; exact h.nosub, ?_, ?_⟩
  · intro k s t h1 h2 h3 h4
    rw [l1] at h3; rw [l2] at h4
    exact h.outer k s t h1 h2 h3 h4
  · intro k h1 h2
    unfold len1
    rw [l1, l2]
    exact h.empty k h1 h2

omit [Field K] [DecidableEq K] [DecidableEq β] in
/-- A coordinate of the result is one of both arrays. -/
theorem Combined.inBoth {a b r : Arr β K} (h : Fit a b) (hc : Combined a b r) {c : Coord} (hin : r.InStack kI kJ c) :
    a.InStack kI kJ c ∧ b.InStack kI kJ c := by
  constructor
  · intro k s h1 h2 hs
    have hr := hc.len k
    rw [hs] at hr
    cases hb : b.axisLen k with
    | none => rw [hb] at hr; exact hin k s h1 h2 hr
    | some t =>
      rw [hb] at hr
      simp only [bLen] at hr
      split at hr
      · left; assumption
      · exact hin k s h1 h2 hr
  · intro k t h1 h2 ht
    have hr := hc.len k
    rw [ht] at hr
    cases ha : a.axisLen k with
    | none => rw [ha] at hr; exact hin k t h1 h2 hr
    | some s =>
      rw [ha] at hr
      have h3 := h.outer k s t h1 h2 ha ht
      simp only [bLen] at hr
      split at hr
      · exact hin k t h1 h2 hr
      · have := hin k s h1 h2 hr
        omega

omit [DecidableEq K] [DecidableEq β] in
theorem Combined.two {a b r : Arr β K} (h : Fit a b) (hc : Combined a b r) (rep : Rep) (z : Imp K) :
    ∃ pre, TwoPorts ⟨rep, z, r⟩ pre ∧ SweepsFirst pre := by
  obtain ⟨pre, i, j, hL, hs⟩ := hc.last
  exact ⟨pre, ⟨⟨i, j, hL⟩, h.nosub.mono hc.sub⟩, hs⟩

omit [DecidableEq β] in
/-- The conversions to S-parameters before, and the one back after. -/
theorem toS (h2 : (2 : K) ≠ 0) (full : Arr β K → Arr β K) (fmt : β → String) (ofIdx : Nat → β) (dflt : Imp K)
    (hd : dflt.Ok) (net : NetArr β K) (hz : net.z.Ok) (h : ∃ pre, TwoPorts net pre ∧ SweepsFirst pre) :
    (∃ a, constructArr full fmt ofIdx dflt .S none net = .ok a ∧ a.a.dims = net.a.dims ∧
      a.a.nd.shape = net.a.nd.shape ∧ (∀ k, a.a.axisLen k = net.a.axisLen k) ∧
      ∀ c, a.a.InStack kI kJ c → construct dflt .S none (net.at c) = some (a.at c)) ∨
    (constructArr full fmt ofIdx dflt .S none net = .error .linAlgError ∧
      ∃ c, net.In c ∧ construct dflt .S none (net.at c) = none) := by
  obtain ⟨p, hp, hps⟩ := h
  rcases each h2 full fmt ofIdx dflt hd .S none (by simp) net hz hp (.inl hps) with ⟨a, ea, da, sa, ma⟩ | q
  · have la : ∀ k, a.a.axisLen k = net.a.axisLen k := fun k => by unfold axisLen; rw [da, sa]
    exact .inl ⟨a, ea, da, sa, la, fun c hc => ma c ((inStack_congr la).1 hc)⟩
  · exact .inr q

omit [DecidableEq β] in
theorem fromS (h2 : (2 : K) ≠ 0) (full : Arr β K → Arr β K) (fmt : β → String) (ofIdx : Nat → β) (dflt : Imp K)
    (hd : dflt.Ok) (rep : Rep) {x a b : Arr β K} (hf : Fit a b) (cx : Combined a b x) :
    (∃ r, constructArr full fmt ofIdx dflt rep none ⟨.S, dflt, x⟩ = .ok r ∧ Combined a b r.a ∧
      (∀ k, r.a.axisLen k = x.axisLen k) ∧
      ∀ c, r.In c → x.InStack kI kJ c ∧
        construct dflt rep none (ofRaw dflt .S none (x.mat kI kJ c 2 2)) = some (r.at c)) ∨
    (constructArr full fmt ofIdx dflt rep none ⟨.S, dflt, x⟩ = .error .linAlgError ∧
      ∃ c, x.InStack kI kJ c ∧ construct dflt rep none (ofRaw dflt .S none (x.mat kI kJ c 2 2)) = none) := by
  obtain ⟨pre, ht, hts⟩ := cx.two hf .S dflt
  rcases each h2 full fmt ofIdx dflt hd rep none (by simp) ⟨.S, dflt, x⟩ hd ht (.inl hts) with
    ⟨r, e', d', s', m'⟩ | q
  · have lr : ∀ k, r.a.axisLen k = x.axisLen k := fun k => by unfold axisLen; rw [d', s']
    obtain ⟨⟨i, j, hL⟩, -⟩ := ht.same d' s'
    refine .inl ⟨r, e', ⟨⟨pre, i, j, hL, hts⟩, by rw [d']; exact cx.sub, fun k => by rw [lr, cx.len]⟩, lr, ?_⟩
    intro c hc
    have hcx : x.InStack kI kJ c := (inStack_congr lr).1 hc
    exact ⟨hcx, m' c hcx⟩
  · exact .inr q

omit [DecidableEq β] [DecidableEq K] [Field K] in
theorem Combined.of {a b a' b' r : Arr β K} (h : Combined a' b' r) (d1 : a'.dims = a.dims) (d2 : b'.dims = b.dims)
    (l1 : ∀ k, a'.axisLen k = a.axisLen k) (l2 : ∀ k, b'.axisLen k = b.axisLen k) : Combined a b r :=
  ⟨h.last, by rw [← d1, ← d2]; exact h.sub, fun k => by rw [h.len, l1, l2]⟩

/-- C102.  `self.cascade(other)` for arrays of any of the classes: whenever there is a result, at every
coordinate it describes the connection of the two networks at that coordinate, if their cascade
exists, and it is of the class of the first. -/
theorem C102_network (h2 : (2 : K) ≠ 0) (full : Arr β K → Arr β K) (fmt : β → String) (ofIdx : Nat → β)
    (div : K → K → K) (hdiv : ∀ x y, y ≠ 0 → div x y = x / y) (dflt : Imp K) (hd : dflt.Ok)
    (self other r : NetArr β K) (h : FitNet self other) (hs : self.z.Ok) (hz : other.z.Ok)
    (hr : cascadeNetArr full fmt ofIdx div dflt self other = .ok r) :
    Combined self.a other.a r.a ∧ ∀ c, r.In c → ∀ N, cascade dflt (self.at c) (other.at c) = some N →
      r.at c = N ∧ r.rep = self.rep ∧ ∀ w, Sat (r.at c) w ↔ Joined (Sat (self.at c)) (Sat (other.at c)) w := by
  unfold cascadeNetArr at hr
  rcases toS h2 full fmt ofIdx dflt hd self hs h.left with ⟨a, ea, da, sa, la, ma⟩ | ⟨ea, -⟩
  swap
  · rw [ea] at hr; cases hr
  rcases toS h2 full fmt ofIdx dflt hd other hz h.right with ⟨b, eb, db, sb, lb, mb⟩ | ⟨eb, -⟩
  swap
  · rw [ea, ok_bind, eb] at hr; cases hr
  have hf := h.of da sa db sb
  obtain ⟨x, ex, cx, mx⟩ := C102_cascade full fmt div hdiv a.a b.a hf
  rw [ea, ok_bind, eb, ok_bind, ex, ok_bind] at hr
  rcases fromS h2 full fmt ofIdx dflt hd self.rep hf cx with ⟨r', e', cr, lr, mr⟩ | ⟨e', -⟩
  swap
  · rw [hr] at e'; cases e'
  rw [hr] at e'
  obtain rfl := Except.ok.inj e'
  refine ⟨cr.of da db la lb, ?_⟩
  intro c hc N hN
  obtain ⟨hcx, h3⟩ := mr c hc
  obtain ⟨ia, ib⟩ := cx.inBoth hf hcx
  have hN' := hN
  simp only [cascade, ma c ia, mb c ib, Option.bind_some, Option.bind_eq_some_iff] at hN'
  obtain ⟨M, hM, hback⟩ := hN'
  rw [mx c hcx M hM] at h3
  have h5 : r.at c = N := Option.some.inj (h3.symm.trans hback)
  have h6 := C28_cascade h2 dflt hd _ _ _ hN
  refine ⟨h5, ?_, ?_⟩
  · have := h6.1
    rw [← h5] at this
    exact this
  · rw [h5]; exact h6.2.2

/-- C102.  `self.deembed(left)`: at every coordinate the network found, connected to the one taken away,
is the measured one, if the network taken away transmits. -/
theorem C102_network_left (h2 : (2 : K) ≠ 0) (full : Arr β K → Arr β K) (fmt : β → String) (ofIdx : Nat → β)
    (div : K → K → K) (hdiv : ∀ x y, y ≠ 0 → div x y = x / y) (dflt : Imp K) (hd : dflt.Ok)
    (self left r : NetArr β K) (h : FitNet self left) (hs : self.z.Ok) (hz : left.z.Ok)
    (hr : deembedNetArr full fmt ofIdx div dflt self (some left) none = .ok r) :
    Combined self.a left.a r.a ∧ ∀ c, r.In c → ∀ N, deembedNet dflt (self.at c) (some (left.at c)) none = some N →
      r.at c = N ∧ r.rep = self.rep ∧
      ((∀ e, construct dflt .S none (left.at c) = some e → e.m 0 1 * e.m 1 0 ≠ 0) →
        ∀ w, Sat (self.at c) w ↔ Joined (Sat (left.at c)) (Sat (r.at c)) w) := by
  simp only [deembedNetArr] at hr
  rcases toS h2 full fmt ofIdx dflt hd left hz h.right with ⟨b, eb, db, sb, lb, mb⟩ | ⟨eb, -⟩
  swap
  · rw [eb] at hr; cases hr
  rcases toS h2 full fmt ofIdx dflt hd self hs h.left with ⟨a, ea, da, sa, la, ma⟩ | ⟨ea, -⟩
  swap
  · rw [eb, ok_bind, ea] at hr; cases hr
  have hf := h.of da sa db sb
  obtain ⟨x, ex, cx, mx⟩ := C102_left full fmt div hdiv b.a a.a hf
  rw [eb, ok_bind, ea, ok_bind, ex, ok_bind] at hr
  rcases fromS h2 full fmt ofIdx dflt hd self.rep hf cx with ⟨r', e', cr, lr, mr⟩ | ⟨e', -⟩
  swap
  · rw [hr] at e'; cases e'
  rw [hr] at e'
  obtain rfl := Except.ok.inj e'
  refine ⟨cr.of da db la lb, ?_⟩
  intro c hc N hN
  obtain ⟨hcx, h3⟩ := mr c hc
  obtain ⟨ia, ib⟩ := cx.inBoth hf hcx
  have hN' := hN
  simp only [deembedNet, ma c ia, mb c ib, Option.bind_some, Option.bind_eq_some_iff] at hN'
  obtain ⟨M, hM, hback⟩ := hN'
  rw [mx c hcx M hM] at h3
  have h5 : r.at c = N := Option.some.inj (h3.symm.trans hback)
  refine ⟨h5, (construct_ofS (h5 ▸ hback)).1, fun hl => ?_⟩
  rw [h5]
  exact (C29_net h2 dflt hd _ _ _ _ hN (by intro l e; cases e; exact hl) (by simp)).2

/-- C102.  The same on the right. -/
theorem C102_network_right (h2 : (2 : K) ≠ 0) (full : Arr β K → Arr β K) (fmt : β → String) (ofIdx : Nat → β)
    (div : K → K → K) (hdiv : ∀ x y, y ≠ 0 → div x y = x / y) (dflt : Imp K) (hd : dflt.Ok)
    (self right r : NetArr β K) (h : FitNet self right) (hs : self.z.Ok) (hz : right.z.Ok)
    (hr : deembedNetArr full fmt ofIdx div dflt self none (some right) = .ok r) :
    Combined self.a right.a r.a ∧ ∀ c, r.In c → ∀ N, deembedNet dflt (self.at c) none (some (right.at c)) = some N →
      r.at c = N ∧ r.rep = self.rep ∧
      ((∀ e, construct dflt .S none (right.at c) = some e → e.m 0 1 * e.m 1 0 ≠ 0) →
        ∀ w, Sat (self.at c) w ↔ Joined (Sat (r.at c)) (Sat (right.at c)) w) := by
  simp only [deembedNetArr] at hr
  rcases toS h2 full fmt ofIdx dflt hd self hs h.left with ⟨a, ea, da, sa, la, ma⟩ | ⟨ea, -⟩
  swap
  · rw [ea] at hr; cases hr
  rcases toS h2 full fmt ofIdx dflt hd right hz h.right with ⟨b, eb, db, sb, lb, mb⟩ | ⟨eb, -⟩
  swap
  · rw [ea, ok_bind, eb] at hr; cases hr
  have hf := h.of da sa db sb
  obtain ⟨x, ex, cx, mx⟩ := C102_right full fmt div hdiv a.a b.a hf
  rw [ea, ok_bind, eb, ok_bind, ex, ok_bind] at hr
  rcases fromS h2 full fmt ofIdx dflt hd self.rep hf cx with ⟨r', e', cr, lr, mr⟩ | ⟨e', -⟩
  swap
  · rw [hr] at e'; cases e'
  rw [hr] at e'
  obtain rfl := Except.ok.inj e'
  refine ⟨cr.of da db la lb, ?_⟩
  intro c hc N hN
  obtain ⟨hcx, h3⟩ := mr c hc
  obtain ⟨ia, ib⟩ := cx.inBoth hf hcx
  have hN' := hN
  simp only [deembedNet, ma c ia, mb c ib, Option.bind_some, Option.bind_eq_some_iff] at hN'
  obtain ⟨M, hM, hback⟩ := hN'
  rw [mx c hcx M hM] at h3
  have h5 : r.at c = N := Option.some.inj (h3.symm.trans hback)
  refine ⟨h5, (construct_ofS (h5 ▸ hback)).1, fun hl => ?_⟩
  rw [h5]
  exact (C29_net h2 dflt hd _ _ _ _ hN (by simp) (by intro l e; cases e; exact hl)).2

/-- De-embedding on both sides works in two steps. -/
theorem both_steps (full : Arr β K → Arr β K) (fmt : β → String) (div : K → K → K)
    (hdiv : ∀ x y, y ≠ 0 → div x y = x / y) (e1 X e2 : Arr β K) (h1 : Fit X e1) (h2 : Fit X e2)
    (h12 : OuterOk e1 e2 kI kJ) (hl : NoSub (X.dims ++ e1.dims ++ e2.dims)) :
    ∃ y r, deembedArr full fmt div e1 X e2 = .ok r ∧ Combined X e1 y ∧ Fit y e2 ∧ Combined y e2 r ∧
      ∀ c, r.InStack kI kJ c → X.InStack kI kJ c ∧ e1.InStack kI kJ c ∧ e2.InStack kI kJ c ∧
        ∀ M, deembed id (e1.mat kI kJ c 2 2) (X.mat kI kJ c 2 2) (e2.mat kI kJ c 2 2) = some M →
          r.mat kI kJ c 2 2 = M := by
  obtain ⟨y, ey, cy, my⟩ := C102_left full fmt div hdiv e1 X h1
  have hf : Fit y e2 := by
    refine ⟨cy.stack, h2.right, hl.mono ?_, OuterOk.left cy.len h2.outer h12, ?_⟩
    · intro d hd
      exact (List.mem_append.1 hd).elim (fun q => List.mem_append_left _ (cy.sub q)) (fun q => List.mem_append_right _ q)
    · intro k q1 q2
      have g1 := h1.empty k q1 q2
      have g2 := h2.empty k q1 q2
      rw [len1_bLen cy.len]
      unfold lenB
      split <;> omega
  obtain ⟨r, er, cr, mr⟩ := C102_right full fmt div hdiv y e2 hf
  refine ⟨y, r, ?_, cy, hf, cr, ?_⟩
  · unfold deembedArr
    rw [ey, ok_bind, er]
  · intro c hc
    obtain ⟨iy, ie⟩ := cr.inBoth hf hc
    obtain ⟨ix, ie1⟩ := cy.inBoth h1 iy
    refine ⟨ix, ie1, ie, fun M hM => ?_⟩
    simp only [deembed, Option.bind_eq_some_iff] at hM
    obtain ⟨Y, hY, hM⟩ := hM
    apply mr c hc
    rw [my c iy Y hY]
    exact hM

/-- C102.  De-embedding on both sides. -/
theorem C102_both (full : Arr β K → Arr β K) (fmt : β → String) (div : K → K → K)
    (hdiv : ∀ x y, y ≠ 0 → div x y = x / y) (e1 X e2 : Arr β K) (h1 : Fit X e1) (h2 : Fit X e2)
    (h12 : OuterOk e1 e2 kI kJ) (hl : NoSub (X.dims ++ e1.dims ++ e2.dims)) :
    ∃ r, deembedArr full fmt div e1 X e2 = .ok r ∧
      (∀ k, r.axisLen k = bLen (bLen (X.axisLen k) (e1.axisLen k)) (e2.axisLen k)) ∧
      ∀ c, r.InStack kI kJ c →
        ∀ M, deembed id (e1.mat kI kJ c 2 2) (X.mat kI kJ c 2 2) (e2.mat kI kJ c 2 2) = some M →
          r.mat kI kJ c 2 2 = M := by
  obtain ⟨y, r, er, cy, -, cr, mr⟩ := both_steps full fmt div hdiv e1 X e2 h1 h2 h12 hl
  exact ⟨r, er, fun k => by rw [cr.len, cy.len], fun c hc => (mr c hc).2.2.2⟩

/-- C102.  `self.deembed(left, right)`: at every coordinate the network found, connected to those taken
away on its two sides, is the measured one, if the networks taken away transmit. -/
theorem C102_network_both (h2 : (2 : K) ≠ 0) (full : Arr β K → Arr β K) (fmt : β → String) (ofIdx : Nat → β)
    (div : K → K → K) (hdiv : ∀ x y, y ≠ 0 → div x y = x / y) (dflt : Imp K) (hd : dflt.Ok)
    (self left right r : NetArr β K) (hL : FitNet self left) (hR : FitNet self right)
    (hLR : OuterOk left.a right.a kI kJ) (hall : NoSub (self.a.dims ++ left.a.dims ++ right.a.dims))
    (hs : self.z.Ok) (hzl : left.z.Ok) (hzr : right.z.Ok)
    (hr : deembedNetArr full fmt ofIdx div dflt self (some left) (some right) = .ok r) :
    (∀ k, r.a.axisLen k = bLen (bLen (self.a.axisLen k) (left.a.axisLen k)) (right.a.axisLen k)) ∧
    ∀ c, r.In c → ∀ N, deembedNet dflt (self.at c) (some (left.at c)) (some (right.at c)) = some N →
      r.at c = N ∧ r.rep = self.rep ∧
      ((∀ e, construct dflt .S none (left.at c) = some e → e.m 0 1 * e.m 1 0 ≠ 0) →
        (∀ e, construct dflt .S none (right.at c) = some e → e.m 0 1 * e.m 1 0 ≠ 0) →
        ∀ w, Sat (self.at c) w ↔ Joined (Sat (left.at c)) (Joined (Sat (r.at c)) (Sat (right.at c))) w) := by
  simp only [deembedNetArr] at hr
  rcases toS h2 full fmt ofIdx dflt hd left hzl hL.right with ⟨b, eb, db, sb, lb, mb⟩ | ⟨eb, -⟩
  swap
  · rw [eb] at hr; cases hr
  rcases toS h2 full fmt ofIdx dflt hd self hs hL.left with ⟨a, ea, da, sa, la, ma⟩ | ⟨ea, -⟩
  swap
  · rw [eb, ok_bind, ea] at hr; cases hr
  rcases toS h2 full fmt ofIdx dflt hd right hzr hR.right with ⟨b', eb', db', sb', lb', mb'⟩ | ⟨eb', -⟩
  swap
  · rw [eb, ok_bind, ea, ok_bind, eb'] at hr; cases hr
  obtain ⟨y, x, ex, cy, hf, cx, mx⟩ := both_steps full fmt div hdiv b.a a.a b'.a (hL.of da sa db sb) (hR.of da sa db' sb')
    (fun k s t h1 h2 e1 e2 => hLR k s t h1 h2 ((lb k).symm.trans e1) ((lb' k).symm.trans e2)) (by rw [da, db, db']; exact hall)
  rw [eb, ok_bind, ea, ok_bind, eb', ok_bind, ex, ok_bind] at hr
  rcases fromS h2 full fmt ofIdx dflt hd self.rep hf cx with ⟨r', e', cr, lr, mr⟩ | ⟨e', -⟩
  swap
  · rw [hr] at e'; cases e'
  rw [hr] at e'
  obtain rfl := Except.ok.inj e'
  refine ⟨fun k => by rw [lr, cx.len, cy.len, la, lb, lb'], ?_⟩
  intro c hc N hN
  obtain ⟨hcx, h3⟩ := mr c hc
  obtain ⟨ia, ib, ib', mM⟩ := mx c hcx
  have hN' := hN
  simp only [deembedNet, ma c ia, mb c ib, mb' c ib', Option.bind_some, Option.bind_eq_some_iff] at hN'
  obtain ⟨M, hM, hback⟩ := hN'
  rw [mM M hM] at h3
  have h5 : r.at c = N := Option.some.inj (h3.symm.trans hback)
  refine ⟨h5, (construct_ofS (h5 ▸ hback)).1, fun hl hr' => ?_⟩
  rw [h5]
  exact (C29_net h2 dflt hd _ _ _ _ hN (by intro l e; cases e; exact hl) (by intro l e; cases e; exact hr')).2

omit [DecidableEq β] [DecidableEq K] [Field K] in
/-- Every network of the one array is met by one of the other. -/
theorem Fit.reach {a b : Arr β K} (h : Fit a b) {c : Coord} (hc : a.InStack kI kJ c) :
    ∃ c', a.InStack kI kJ c' ∧ b.InStack kI kJ c' ∧ a.mat kI kJ c' 2 2 = a.mat kI kJ c 2 2 := by
  refine ⟨fun k => if len1 a k = 1 then 0 else c k, ?_, ?_, ?_⟩
  · intro k s h1 h2 hs
    have := hc k s h1 h2 hs
    dsimp only
    rw [len1_of hs]
    by_cases e : s = 1
    · exact .inl e
    · rw [if_neg e]; exact this
  · intro k t h1 h2 ht
    have he := h.empty k h1 h2
    rw [len1_of ht] at he
    dsimp only
    by_cases e : len1 a k = 1
    · rw [if_pos e]
      right
      have : t ≠ 0 := fun q => by have := he.2 q; omega
      omega
    · rw [if_neg e]
      cases hs : a.axisLen k with
      | none => exact absurd (by unfold len1; rw [hs]; rfl) e
      | some s =>
        rw [len1_of hs] at e
        have g1 := h.outer k s t h1 h2 hs ht
        have g2 := hc k s h1 h2 hs
        rcases g1 with rfl | g | g
        · exact g2
        · exact absurd g e
        · exact .inl g
  · funext m n
    unfold mat
    refine atB_congr h.left.wf h.left.distinct ?_
    intro k s hs h1
    unfold upd
    dsimp only
    rw [len1_of hs, if_neg h1]

omit [DecidableEq β] [DecidableEq K] [Field K] in
theorem Fit.symm {a b : Arr β K} (h : Fit a b) : Fit b a :=
  ⟨h.right, h.left, h.nosub.mono (fun d hd => (List.mem_append.1 hd).elim (List.mem_append_right _) (List.mem_append_left _)),
    fun k s t h1 h2 e1 e2 => by have := h.outer k t s h1 h2 e2 e1; omega, fun k h1 h2 => (h.empty k h1 h2).symm⟩

/-- C102.  The cascade of two arrays exists if that of all networks that meet does. -/
theorem C102_exists (h2 : (2 : K) ≠ 0) (full : Arr β K → Arr β K) (fmt : β → String) (ofIdx : Nat → β)
    (div : K → K → K) (hdiv : ∀ x y, y ≠ 0 → div x y = x / y) (dflt : Imp K) (hd : dflt.Ok)
    (self other : NetArr β K) (h : FitNet self other) (hs : self.z.Ok) (hz : other.z.Ok)
    (hall : ∀ c, self.In c → other.In c → ∃ N, cascade dflt (self.at c) (other.at c) = some N) :
    ∃ r, cascadeNetArr full fmt ofIdx div dflt self other = .ok r := by
  have h0 : Fit self.a other.a := h.of rfl rfl rfl rfl
  unfold cascadeNetArr
  rcases toS h2 full fmt ofIdx dflt hd self hs h.left with ⟨a, ea, da, sa, la, ma⟩ | ⟨-, c, hc, hn⟩
  swap
  · obtain ⟨c', i1, i2, e⟩ := h0.reach hc
    have e' : self.at c' = self.at c := by unfold NetArr.at; rw [e]
    obtain ⟨N, hN⟩ := hall c' i1 i2
    rw [e'] at hN
    simp [cascade, hn] at hN
  rcases toS h2 full fmt ofIdx dflt hd other hz h.right with ⟨b, eb, db, sb, lb, mb⟩ | ⟨-, c, hc, hn⟩
  swap
  · obtain ⟨c', i1, i2, e⟩ := h0.symm.reach hc
    have e' : other.at c' = other.at c := by unfold NetArr.at; rw [e]
    obtain ⟨N, hN⟩ := hall c' i2 i1
    rw [e'] at hN
    simp [cascade, hn] at hN
  have hf := h.of da sa db sb
  obtain ⟨x, ex, cx, mx⟩ := C102_cascade full fmt div hdiv a.a b.a hf
  rw [ea, ok_bind, eb, ok_bind, ex, ok_bind]
  rcases fromS h2 full fmt ofIdx dflt hd self.rep hf cx with ⟨r', e', -⟩ | ⟨-, c, hc, hn⟩
  · exact ⟨r', e'⟩
  obtain ⟨ia, ib⟩ := cx.inBoth hf hc
  obtain ⟨N, hN⟩ := hall c ((inStack_congr la).1 ia) ((inStack_congr lb).1 ib)
  simp only [cascade, ma c ia, mb c ib, Option.bind_some, Option.bind_eq_some_iff] at hN
  obtain ⟨M, hM, hback⟩ := hN
  rw [mx c hc M hM] at hn
  have : construct dflt self.rep none (ofRaw dflt .S none M) = some N := hback
  rw [hn] at this
  cases this

/-- C102.  De-embedding on one side is possible if it is for all networks that meet. -/
theorem C102_deembed_exists (h2 : (2 : K) ≠ 0) (full : Arr β K → Arr β K) (fmt : β → String) (ofIdx : Nat → β)
    (div : K → K → K) (hdiv : ∀ x y, y ≠ 0 → div x y = x / y) (dflt : Imp K) (hd : dflt.Ok)
    (self e : NetArr β K) (h : FitNet self e) (hs : self.z.Ok) (hz : e.z.Ok) :
    ((∀ c, self.In c → e.In c → ∃ N, deembedNet dflt (self.at c) (some (e.at c)) none = some N) →
      ∃ r, deembedNetArr full fmt ofIdx div dflt self (some e) none = .ok r) ∧
    ((∀ c, self.In c → e.In c → ∃ N, deembedNet dflt (self.at c) none (some (e.at c)) = some N) →
      ∃ r, deembedNetArr full fmt ofIdx div dflt self none (some e) = .ok r) := by
  have h0 : Fit self.a e.a := h.of rfl rfl rfl rfl
  have n1 : ∀ c, self.In c → construct dflt .S none (self.at c) = none →
      ∃ c', self.In c' ∧ e.In c' ∧ deembedNet dflt (self.at c') (some (e.at c')) none = none ∧
        deembedNet dflt (self.at c') none (some (e.at c')) = none := by
    intro c hc hn
    obtain ⟨c', i1, i2, q⟩ := h0.reach hc
    have e' : self.at c' = self.at c := by unfold NetArr.at; rw [q]
    refine ⟨c', i1, i2, ?_, ?_⟩
    · rw [e']; simp [deembedNet, hn]
    · rw [e']; simp [deembedNet, hn]
  have n2 : ∀ c, e.In c → construct dflt .S none (e.at c) = none →
      ∃ c', self.In c' ∧ e.In c' ∧ deembedNet dflt (self.at c') (some (e.at c')) none = none ∧
        deembedNet dflt (self.at c') none (some (e.at c')) = none := by
    intro c hc hn
    obtain ⟨c', i1, i2, q⟩ := h0.symm.reach hc
    have e' : e.at c' = e.at c := by unfold NetArr.at; rw [q]
    refine ⟨c', i2, i1, ?_, ?_⟩
    · rw [e']; simp [deembedNet, hn]
    · rw [e']; simp [deembedNet, hn]
  simp only [deembedNetArr]
  rcases toS h2 full fmt ofIdx dflt hd self hs h.left with ⟨a, ea, da, sa, la, ma⟩ | ⟨-, c, hc, hn⟩
  swap
  · obtain ⟨c', i1, i2, q1, q2⟩ := n1 c hc hn
    refine ⟨fun hall => ?_, fun hall => ?_⟩ <;> obtain ⟨N, hN⟩ := hall c' i1 i2
    · rw [q1] at hN; cases hN
    · rw [q2] at hN; cases hN
  rcases toS h2 full fmt ofIdx dflt hd e hz h.right with ⟨b, eb, db, sb, lb, mb⟩ | ⟨-, c, hc, hn⟩
  swap
  · obtain ⟨c', i1, i2, q1, q2⟩ := n2 c hc hn
    refine ⟨fun hall => ?_, fun hall => ?_⟩ <;> obtain ⟨N, hN⟩ := hall c' i1 i2
    · rw [q1] at hN; cases hN
    · rw [q2] at hN; cases hN
  have hf := h.of da sa db sb
  constructor
  · intro hall
    obtain ⟨x, ex, cx, mx⟩ := C102_left full fmt div hdiv b.a a.a hf
    rw [eb, ok_bind, ea, ok_bind, ex, ok_bind]
    rcases fromS h2 full fmt ofIdx dflt hd self.rep hf cx with ⟨r', e', -⟩ | ⟨-, c, hc, hn⟩
    · exact ⟨r', e'⟩
    obtain ⟨ia, ib⟩ := cx.inBoth hf hc
    obtain ⟨N, hN⟩ := hall c ((inStack_congr la).1 ia) ((inStack_congr lb).1 ib)
    simp only [deembedNet, ma c ia, mb c ib, Option.bind_some, Option.bind_eq_some_iff] at hN
    obtain ⟨M, hM, hback⟩ := hN
    rw [mx c hc M hM] at hn
    have : construct dflt self.rep none (ofRaw dflt .S none M) = some N := hback
    rw [hn] at this
    cases this
  · intro hall
    obtain ⟨x, ex, cx, mx⟩ := C102_right full fmt div hdiv a.a b.a hf
    rw [ea, ok_bind, eb, ok_bind, ex, ok_bind]
    rcases fromS h2 full fmt ofIdx dflt hd self.rep hf cx with ⟨r', e', -⟩ | ⟨-, c, hc, hn⟩
    · exact ⟨r', e'⟩
    obtain ⟨ia, ib⟩ := cx.inBoth hf hc
    obtain ⟨N, hN⟩ := hall c ((inStack_congr la).1 ia) ((inStack_congr lb).1 ib)
    simp only [deembedNet, ma c ia, mb c ib, Option.bind_some, Option.bind_eq_some_iff] at hN
    obtain ⟨M, hM, hback⟩ := hN
    rw [mx c hc M hM] at hn
    have : construct dflt self.rep none (ofRaw dflt .S none M) = some N := hback
    rw [hn] at this
    cases this

/-! ### Empty axes -/

theorem err_bind {α γ : Type} (e : Nd.LErr) (f : α → Except Nd.LErr γ) :
    ((Except.error e : Except Nd.LErr α) >>= f) = .error e := by
  cases e <;> exact id rfl

omit [DecidableEq β] [DecidableEq K] [Field K] in
theorem set_error {x y : Arr β K} {pre : List (Dim β)} {i j : Dim β} {l1 l2 : Key → Nat} {F : Coord → Nat → Nat → K}
    {g : Coord → K} (hx : Mats x pre i j l1 F) (hy : Over y pre l2 g) (r c : Nat) {d : Dim β} (hd : d ∈ pre)
    (h1 : l1 d.key = 1) (h2 : l2 d.key = 0) : setElem x r c y = .error .valueError := by
  have hn : x.nd.shape.length - 2 = pre.length := by simp [hx.shape]
  have ht : x.nd.shape.take pre.length = pre.map fun u => l1 u.key := by
    rw [hx.shape]; exact (take_drop_two _ 2 2 _ (by simp)).1
  unfold setElem
  simp only [hn, ht, hy.shape]
  cases hb : Nd.bshape (pre.map fun u => l2 u.key) (pre.map fun u => l1 u.key) with
  | error _ => rfl
  | ok sh =>
    dsimp only
    rw [if_neg]
    intro e
    obtain ⟨k, hk, rfl⟩ := List.getElem_of_mem hd
    have := Nd.bshape_getD hb k
    rw [e, getD_map_key pre l1 hk, getD_map_key pre l2 hk, h1, h2] at this
    simp at this

/-- C102 is false if an axis is empty in one array while the other has it with length one or not at all:
there is an error instead of an empty array. -/
theorem C102_empty_refuted (full : Arr β K → Arr β K) (fmt : β → String) (div : K → K → K) (a b : Arr β K)
    (ha : a.IsStack kI kJ 2) (hb : b.IsStack kI kJ 2) (hl : NoSub (a.dims ++ b.dims)) (ho : OuterOk a b kI kJ)
    (k : Key) (h1 : k ≠ kI) (h2 : k ≠ kJ)
    (hk : a.axisLen k = some 0 ∧ len1 b k = 1 ∨ len1 a k = 1 ∧ b.axisLen k = some 0) :
    cascadeArr full fmt div a b = .error .valueError ∧ deembedleftArr full fmt div b a = .error .valueError ∧
      deembedrightArr full fmt div a b = .error .valueError := by
  obtain ⟨pre, i, j, S1, S2, eal, hU, hi, hj, hne, hO, hmem, gp, gP, m1, m2⟩ := aligned_spec full ha hb hl
  have hAB := outer_cond hne ho
  obtain ⟨d, hd, rfl⟩ : ∃ d ∈ pre, d.key = k := by
    have : k ∈ (pre ++ [i, j]).map Dim.key := by
      rw [hmem]
      rcases hk with hk | hk
      · left; exact axisLen_isSome ha.wf hk.1
      · right; exact axisLen_isSome hb.wf hk.2
    obtain ⟨d, hd, rfl⟩ := List.mem_map.1 this
    rcases List.mem_append.1 hd with hd | hd
    · exact ⟨d, hd, rfl⟩
    · simp only [List.mem_cons, List.not_mem_nil, or_false] at hd
      rcases hd with rfl | rfl
      · exact absurd hi h1
      · exact absurd hj h2
  have l0 : max (len1 a d.key) (len1 b d.key) = 1 ∧ lenAB a b d.key = 0 := by
    unfold lenAB lenB
    rcases hk with ⟨q1, q2⟩ | ⟨q1, q2⟩
    · rw [len1_of q1, q2]; simp
    · rw [len1_of q2, q1]; simp
  have fab : ∀ d ∈ pre, (len1 a d.key = len1 b d.key ∨ len1 a d.key = 1 ∨ len1 b d.key = 1) ∧
      lenAB a b d.key = lenB (len1 a d.key) (len1 b d.key) := fun d hd => ⟨hAB d hd, rfl⟩
  have fba : ∀ d ∈ pre, (len1 b d.key = len1 a d.key ∨ len1 b d.key = 1 ∨ len1 a d.key = 1) ∧
      lenAB a b d.key = lenB (len1 b d.key) (len1 a d.key) := fun d hd => by
    have := hAB d hd; unfold lenAB lenB; (repeat' split) <;> omega
  have fac : ∀ d ∈ pre, (len1 a d.key = lenAB a b d.key ∨ len1 a d.key = 1 ∨ lenAB a b d.key = 1) ∧
      lenAB a b d.key = lenB (len1 a d.key) (lenAB a b d.key) := fun d hd => by
    have := hAB d hd; unfold lenAB lenB; (repeat' split) <;> omega
  have fbc : ∀ d ∈ pre, (len1 b d.key = lenAB a b d.key ∨ len1 b d.key = 1 ∨ lenAB a b d.key = 1) ∧
      lenAB a b d.key = lenB (len1 b d.key) (lenAB a b d.key) := fun d hd => by
    have := hAB d hd; unfold lenAB lenB; (repeat' split) <;> omega
  have fb : ∀ d ∈ pre, (len1 b d.key = len1 b d.key ∨ len1 b d.key = 1 ∨ len1 b d.key = 1) ∧
      len1 b d.key = lenB (len1 b d.key) (len1 b d.key) := fun d _ => by unfold lenB; split <;> omega
  have fa : ∀ d ∈ pre, (len1 a d.key = len1 a d.key ∨ len1 a d.key = 1 ∨ len1 a d.key = 1) ∧
      len1 a d.key = lenB (len1 a d.key) (len1 a d.key) := fun d _ => by unfold lenB; split <;> omega
  obtain ⟨⟨a00, ea00, oa00⟩, ⟨a01, ea01, oa01⟩, ⟨a10, ea10, oa10⟩, ⟨a11, ea11, oa11⟩⟩ := m1.elems fmt
  obtain ⟨⟨b00, eb00, ob00⟩, ⟨b01, eb01, ob01⟩, ⟨b10, eb10, ob10⟩, ⟨b11, eb11, ob11⟩⟩ := m2.elems fmt
  obtain ⟨z, ez, mz⟩ := m1.zeros m2
  refine ⟨?_, ?_, ?_⟩
  · obtain ⟨p, ep, op⟩ := Over.op2 full (· * ·) (lenAB a b) gp oa11 ob00 fab
    obtain ⟨d1, ed1, od1⟩ := m1.det
    obtain ⟨d2, ed2, od2⟩ := m2.det
    obtain ⟨u1, eu1, ou1⟩ := Over.op2 full (· * ·) (lenAB a b) gp ob00 od1 fba
    obtain ⟨v1, ev1, ov1⟩ := Over.op2 full (· - ·) (lenAB a b) gp oa00 ou1 fac
    have hs := set_error mz ov1 0 0 hd l0.1 l0.2
    unfold cascadeArr
    simp only [eal, ok_bind, ea00, ea01, ea10, ea11, eb00, eb01, eb10, eb11, ep, ed1, ed2, ez, eu1, ev1, hs, err_bind]
  · obtain ⟨t1, et1, ot1⟩ := Over.op2 full (· * ·) (len1 b) gp ob01 ob10 fb
    obtain ⟨t2, et2, ot2⟩ := Over.op2 full (· * ·) (len1 b) gp ob00 ob11 fb
    obtain ⟨t3, et3, ot3⟩ := Over.op2 full (· * ·) (lenAB a b) gp ob11 oa00 fba
    obtain ⟨t4, et4, ot4⟩ := Over.op2 full (· - ·) (len1 b) gp ot1 ot2 fb
    obtain ⟨t5, et5, ot5⟩ := Over.op2 full (· + ·) (lenAB a b) gp ot4 ot3 fbc
    obtain ⟨u, eu, ou⟩ := Over.op2 full (· * ·) (len1 a) gp oa01.neg oa10 fa
    obtain ⟨v1, ev1, ov1⟩ := Over.op2 full (· - ·) (lenAB a b) gp oa00 ob00 fab
    obtain ⟨v2, ev2, ov2⟩ := Over.op2 full (· * ·) (lenAB a b) gp oa01 ob10 fab
    obtain ⟨v3, ev3, ov3⟩ := Over.op2 full (· * ·) (lenAB a b) gp oa10 ob01 fab
    obtain ⟨v4, ev4, ov4⟩ := Over.op2 full (· * ·) (lenAB a b) gp ou ob11 fab
    have hs := set_error mz ov1 0 0 hd l0.1 l0.2
    unfold deembedleftArr
    simp only [eal, ok_bind, ea00, ea01, ea10, ea11, eb00, eb01, eb10, eb11, et1, et2, et3, et4, et5, ez, eu, ev1, ev2, ev3,
      ev4, hs, err_bind]
  · obtain ⟨t1, et1, ot1⟩ := Over.op2 full (· * ·) (len1 b) gp ob01 ob10 fb
    obtain ⟨t2, et2, ot2⟩ := Over.op2 full (· * ·) (len1 b) gp ob00 ob11 fb
    obtain ⟨t3, et3, ot3⟩ := Over.op2 full (· * ·) (lenAB a b) gp ob00 oa11 fba
    obtain ⟨t4, et4, ot4⟩ := Over.op2 full (· - ·) (len1 b) gp ot1 ot2 fb
    obtain ⟨t5, et5, ot5⟩ := Over.op2 full (· + ·) (lenAB a b) gp ot4 ot3 fbc
    obtain ⟨u, eu, ou⟩ := Over.op2 full (· * ·) (len1 a) gp oa01.neg oa10 fa
    obtain ⟨v1, ev1, ov1⟩ := Over.op2 full (· * ·) (lenAB a b) gp ou ob00 fab
    have hs := set_error mz ov1 0 0 hd l0.1 l0.2
    unfold deembedrightArr
    simp only [eal, ok_bind, ea00, ea01, ea10, ea11, eb00, eb01, eb10, eb11, et1, et2, et3, et4, et5, ez, eu, ev1, hs, err_bind]

end HF.Networks
