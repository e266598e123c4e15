import Verif.HFArray.MakeMatrixProps
/-
C75: switch correction.
-/
namespace HF.Arr

variable {β α : Type}

/-- C75.  `switch_correct(b, a)` for stacks of square matrices of incident waves `a`, none of them
singular, and of reflected waves `b`: the result `S` has the axes of both, at every coordinate
`S * a = b`, and no other matrix has this property. -/
theorem C75_switch [Field α] [DecidableEq α] (full : Arr β α → Arr β α) (b a : Arr β α) {ki kj : Key} {n : Nat}
    {pre : List (Dim β)} {i j : Dim β} (hb : b.IsStack ki kj n) (ha : a.Last ki kj n pre i j)
    (hl : NoSub (b.dims ++ a.dims)) (ho : OuterOk b a ki kj) (hreg : a.Regular ki kj n) :
    ∃ S, switchCorrect full b a = .ok S ∧ S.IsStack ki kj n ∧
      (∀ k, S.axisLen k = bLen (b.axisLen k) (a.axisLen k)) ∧
      ∀ x, S.InStack ki kj x → S.mat ki kj x n n * a.mat ki kj x n n = b.mat ki kj x n n ∧
        ∀ M, M * a.mat ki kj x n n = b.mat ki kj x n n → M = S.mat ki kj x n n := by
  obtain ⟨v, hv, hlast, hlen, hinv⟩ := C59_inverse a ha hreg
  have hd : v.dims = a.dims := hlast.dims.trans ha.dims.symm
  have ho' : OuterOk b v ki kj := fun k s t h1 h2 hs ht => ho k s t h1 h2 hs (by rw [← hlen]; exact ht)
  obtain ⟨S, hS, hst, -, hSl, hm⟩ := hb.mul full hlast.stack (by rw [hd]; exact hl) ho'
  have hSl' : ∀ k, S.axisLen k = bLen (b.axisLen k) (a.axisLen k) := fun k => by rw [hSl, hlen]
  refine ⟨S, by simp only [switchCorrect, hv, hS], hst, hSl', ?_⟩
  intro x hx
  have hax := (InStack.of hSl' ho hx).2
  have hu : IsUnit (a.mat ki kj x n n).det := isUnit_iff_ne_zero.2 (hreg x hax)
  have e : S.mat ki kj x n n * a.mat ki kj x n n = b.mat ki kj x n n := by
    rw [hm x hx, hinv x hax, Matrix.mul_assoc, Matrix.nonsing_inv_mul _ hu, Matrix.mul_one]
  refine ⟨e, fun M hM => ?_⟩
  rw [hm x hx, hinv x hax, ← hM, Matrix.mul_assoc, Matrix.mul_nonsing_inv _ hu, Matrix.mul_one]

/-- C75.  If the incident waves of the two measurements are dependent somewhere there is no
result at all. -/
theorem C75_singular [Field α] [DecidableEq α] (full : Arr β α → Arr β α) (b a : Arr β α) {ki kj : Key} {n : Nat}
    {pre : List (Dim β)} {i j : Dim β} (ha : a.Last ki kj n pre i j) (hreg : ¬ a.Regular ki kj n) :
    switchCorrect full b a = .error .linAlgError := by
  simp only [switchCorrect, C59_singular a ha hreg]

/-- The coordinate lies inside of an array, axes of length one being repeated. -/
def Inside (z : Arr β α) (x : Coord) : Prop := ∀ k s, z.axisLen k = some s → s = 1 ∨ x k < s

theorem fold4_mem (s t u v : Option Nat) : bLen (bLen (bLen s t) u) v ∈ [s, t, u, v] := by
  have step : ∀ s t : Option Nat, bLen s t = s ∨ bLen s t = t := by
    intro s t
    cases s with
    | none => simp [bLen]
    | some m =>
      cases t with
      | none => simp [bLen]
      | some n => simp only [bLen]; split <;> simp
  simp only [List.mem_cons, List.not_mem_nil, or_false]
  rcases step (bLen (bLen s t) u) v with e | e <;> rw [e]
  · rcases step (bLen s t) u with e | e <;> rw [e]
    · rcases step s t with e | e <;> rw [e] <;> simp
    · simp
  · simp

/-- Sweeps and rows or columns have unrelated classes. -/
theorem nosub_matrix {l l' : List (Dim β)} (hl : NoSub l') (hs : ∀ d ∈ l', d.isa .dimSweep = true ∨ d.isa .dimRep = true)
    (hd : ∀ d ∈ l, d ∈ l' ∨ d.key = ("i", .matI) ∨ d.key = ("j", .matJ)) : NoSub l := by
  have prio : ∀ c : Cls, (c.isSub .dimSweep = true ∨ c.isSub .dimRep = true) →
      c.isSub .matI = false ∧ c.isSub .matJ = false ∧ Cls.isSub .matI c = false ∧ Cls.isSub .matJ c = false := by
    intro c; cases c <;> decide +kernel
  intro d h1 e h2 hn hc
  rcases hd d h1 with q1 | q1
  · rcases hd e h2 with q2 | q2
    · exact hl d q1 e q2 hn hc
    · have hp := prio d.cls (hs d q1)
      rcases q2 with q2 | q2
      · have : e.cls = .matI := congrArg Prod.snd q2
        rw [this, hp.1] at hc; cases hc
      · have : e.cls = .matJ := congrArg Prod.snd q2
        rw [this, hp.2.1] at hc; cases hc
  · rcases hd e h2 with q2 | q2
    · have hp := prio e.cls (hs e q2)
      rcases q1 with q1 | q1
      · have : d.cls = .matI := congrArg Prod.snd q1
        rw [this, hp.2.2.1] at hc; cases hc
      · have : d.cls = .matJ := congrArg Prod.snd q1
        rw [this, hp.2.2.2] at hc; cases hc
    · have n1 : d.name = d.key.1 := rfl
      have n2 : e.name = e.key.1 := rfl
      have c1 : d.cls = d.key.2 := rfl
      have c2 : e.cls = e.key.2 := rfl
      rw [n1, n2] at hn
      rcases q1 with q1 | q1 <;> rcases q2 with q2 | q2 <;> rw [c1, c2] <;> rw [q1, q2] at hn ⊢
      · exact absurd hn (by decide)
      · exact absurd hn (by decide)

/-- C75.  From waves to scattering parameters: waves `a1, a2` sent to and `b1, b2` returned from
a twoport in a first measurement, `a1', a2', b1', b2'` in a second one, each an array over its own
sweeps.  If the incident waves are independent at every coordinate, the matrices put together with
`make_matrix` and given to `switch_correct` yield `S` with `b1 = S11 a1 + S12 a2`,
`b2 = S21 a1 + S22 a2` in both measurements, at every coordinate. -/
theorem C75_waves [Field α] [DecidableEq α] (full : Arr β α → Arr β α) (cast : α → α) (ofIdx : Nat → β)
    (a1 a1' a2 a2' b1 b1' b2 b2' : Arr β α)
    (hwf : ∀ x ∈ [b1, b1', b2, b2', a1, a1', a2, a2'], x.WF)
    (hd : ∀ x ∈ [b1, b1', b2, b2', a1, a1', a2, a2'], Distinct x.dims)
    (hl : NoSub ([b1, b1', b2, b2', a1, a1', a2, a2'].map Arr.dims).flatten)
    (hs : ∀ e ∈ ([b1, b1', b2, b2', a1, a1', a2, a2'].map Arr.dims).flatten, e.isa .dimSweep = true ∨ e.isa .dimRep = true)
    (hc : LenOk [b1, b1', b2, b2', a1, a1', a2, a2'])
    (hcast : ∀ z, cast z = z)
    (hdet : ∀ x, (∀ z ∈ [a1, a1', a2, a2'], z.Inside x) → a1.atB x * a2'.atB x - a1'.atB x * a2.atB x ≠ 0) :
    ∃ B A S, makeMatrix full cast ofIdx b1 b1' b2 b2' = .ok B ∧ makeMatrix full cast ofIdx a1 a1' a2 a2' = .ok A ∧
      switchCorrect full B A = .ok S ∧ S.axisLen ("i", .matI) = some 2 ∧ S.axisLen ("j", .matJ) = some 2 ∧
      ∀ x, S.InStack ("i", .matI) ("j", .matJ) x →
        let s := S.mat ("i", .matI) ("j", .matJ) x 2 2
        b1.atB x = s 0 0 * a1.atB x + s 0 1 * a2.atB x ∧ b2.atB x = s 1 0 * a1.atB x + s 1 1 * a2.atB x ∧
        b1'.atB x = s 0 0 * a1'.atB x + s 0 1 * a2'.atB x ∧ b2'.atB x = s 1 0 * a1'.atB x + s 1 1 * a2'.atB x := by
  have sb : ∀ z ∈ [b1, b1', b2, b2'], z ∈ [b1, b1', b2, b2', a1, a1', a2, a2'] := by
    intro z hz; simp only [List.mem_cons, List.not_mem_nil, or_false] at hz ⊢; tauto
  have sa : ∀ z ∈ [a1, a1', a2, a2'], z ∈ [b1, b1', b2, b2', a1, a1', a2, a2'] := by
    intro z hz; simp only [List.mem_cons, List.not_mem_nil, or_false] at hz ⊢; tauto
  have fl : ∀ l : List (Arr β α), (∀ z ∈ l, z ∈ [b1, b1', b2, b2', a1, a1', a2, a2']) →
      (l.map Arr.dims).flatten ⊆ ([b1, b1', b2, b2', a1, a1', a2, a2'].map Arr.dims).flatten := by
    intro l h e he
    rw [List.mem_flatten] at he ⊢
    obtain ⟨m, hm, he⟩ := he
    obtain ⟨z, hz, rfl⟩ := List.mem_map.1 hm
    exact ⟨z.dims, List.mem_map_of_mem (h z hz), he⟩
  have ok : ∀ l : List (Arr β α), (∀ z ∈ l, z ∈ [b1, b1', b2, b2', a1, a1', a2, a2']) → LenOk l := fun l h =>
    ⟨fun x hx y hy => hc.1 x (h x hx) y (h y hy), fun x hx => hc.2 x (h x hx)⟩
  obtain ⟨B, iB, jB, pB, DB, hB, lB, -, -, mB⟩ := C74_det full cast ofIdx b1 b1' b2 b2' (fun x hx => hwf x (sb x hx))
    (fun x hx => hd x (sb x hx)) (hl.mono (fl _ sb)) (fun e he => hs e (fl _ sb he)) (ok _ sb) (fun _ _ y => hcast _)
  obtain ⟨A, iA, jA, pA, DA, hA, lA, -, -, mA⟩ := C74_det full cast ofIdx a1 a1' a2 a2' (fun x hx => hwf x (sa x hx))
    (fun x hx => hd x (sa x hx)) (hl.mono (fl _ sa)) (fun e he => hs e (fl _ sa he)) (ok _ sa) (fun _ _ y => hcast _)
  obtain ⟨B', preB, hB', -, -, dB, srcB, -, -, -, -, lenB, -⟩ := C74_elements full cast ofIdx b1 b1' b2 b2'
    (sweeps_free (fun x hx => hwf x (sb x hx)) (fun x hx => hd x (sb x hx)) (hl.mono (fl _ sb)) (fun e he => hs e (fl _ sb he))) (ok _ sb)
  obtain ⟨A', preA, hA', -, -, dA, srcA, -, -, -, -, lenA, -⟩ := C74_elements full cast ofIdx a1 a1' a2 a2'
    (sweeps_free (fun x hx => hwf x (sa x hx)) (fun x hx => hd x (sa x hx)) (hl.mono (fl _ sa)) (fun e he => hs e (fl _ sa he))) (ok _ sa)
  rw [hB] at hB'
  rw [hA] at hA'
  obtain rfl := Except.ok.inj hB'
  obtain rfl := Except.ok.inj hA'
  have axB : ∀ k s, k ≠ ("i", .matI) → k ≠ ("j", .matJ) → B.axisLen k = some s → ∃ z ∈ [b1, b1', b2, b2'], z.axisLen k = some s := by
    intro k s h1 h2 h3
    have := fold4_mem (b1.axisLen k) (b1'.axisLen k) (b2.axisLen k) (b2'.axisLen k)
    rw [← lenB k h1 h2, h3] at this
    simp only [List.mem_cons, List.not_mem_nil, or_false] at this
    rcases this with e | e | e | e
    · exact ⟨b1, by simp, e.symm⟩
    · exact ⟨b1', by simp, e.symm⟩
    · exact ⟨b2, by simp, e.symm⟩
    · exact ⟨b2', by simp, e.symm⟩
  have axA : ∀ k s, k ≠ ("i", .matI) → k ≠ ("j", .matJ) → A.axisLen k = some s → ∃ z ∈ [a1, a1', a2, a2'], z.axisLen k = some s := by
    intro k s h1 h2 h3
    have := fold4_mem (a1.axisLen k) (a1'.axisLen k) (a2.axisLen k) (a2'.axisLen k)
    rw [← lenA k h1 h2, h3] at this
    simp only [List.mem_cons, List.not_mem_nil, or_false] at this
    rcases this with e | e | e | e
    · exact ⟨a1, by simp, e.symm⟩
    · exact ⟨a1', by simp, e.symm⟩
    · exact ⟨a2, by simp, e.symm⟩
    · exact ⟨a2', by simp, e.symm⟩
  have ho : OuterOk B A ("i", .matI) ("j", .matJ) := by
    intro k s t h1 h2 h3 h4
    obtain ⟨z, hz, e⟩ := axB k s h1 h2 h3
    obtain ⟨w, hw, e'⟩ := axA k t h1 h2 h4
    exact hc.1 z (sb z hz) w (sa w hw) k s t e e'
  have hns : NoSub (B.dims ++ A.dims) := by
    refine nosub_matrix hl hs ?_
    intro d hd'
    rw [dB, dA] at hd'
    simp only [List.mem_append, List.mem_cons, List.not_mem_nil, or_false] at hd'
    rcases hd' with (q | q | q) | (q | q | q)
    · obtain ⟨z, hz, he⟩ := srcB d q
      exact Or.inl (fl _ sb (List.mem_flatten.2 ⟨z.dims, List.mem_map_of_mem hz, he⟩))
    · rw [q]; exact Or.inr (Or.inl rfl)
    · rw [q]; exact Or.inr (Or.inr rfl)
    · obtain ⟨z, hz, he⟩ := srcA d q
      exact Or.inl (fl _ sa (List.mem_flatten.2 ⟨z.dims, List.mem_map_of_mem hz, he⟩))
    · rw [q]; exact Or.inr (Or.inl rfl)
    · rw [q]; exact Or.inr (Or.inr rfl)
  have hin : ∀ x, A.InStack ("i", .matI) ("j", .matJ) x → ∀ z ∈ [a1, a1', a2, a2'], z.Inside x := by
    intro x hx z hz k s hk
    have hmem := axisLen_isSome (hwf z (sa z hz)) hk
    obtain ⟨e, he, rfl⟩ := List.mem_map.1 hmem
    have hf := (sweeps_free (fun x hx => hwf x (sa x hx)) (fun x hx => hd x (sa x hx)) (hl.mono (fl _ sa))
      (fun e he => hs e (fl _ sa he))).free e (List.mem_flatten.2 ⟨z.dims, List.mem_map_of_mem hz, he⟩)
    obtain ⟨t, ht⟩ : ∃ t, A.axisLen e.key = some t := by
      cases q : A.axisLen e.key with
      | some t => exact ⟨t, rfl⟩
      | none =>
        rw [lenA e.key hf.1 hf.2, bLen_ne, bLen_ne, bLen_ne] at q
        simp only [List.mem_cons, List.not_mem_nil, or_false] at hz
        rcases hz with rfl | rfl | rfl | rfl <;> simp_all
    have hxt := hx e.key t hf.1 hf.2 ht
    obtain ⟨w, hw, hwt⟩ := axA e.key t hf.1 hf.2 ht
    rcases hc.1 z (sa z hz) w (sa w hw) e.key s t hk hwt with q | q | q
    · rw [q]; exact hxt
    · exact Or.inl q
    · -- the result has length one, so all operands have
      have hm := max_bLen (a1.axisLen e.key) (a1'.axisLen e.key) (a2.axisLen e.key) (a2'.axisLen e.key)
        (by
          intro x hx
          simp only [List.mem_cons, List.not_mem_nil, or_false] at hx
          rcases hx with rfl | rfl | rfl | rfl <;> exact (ok _ sa).2 _ (by simp) _)
        (by
          intro x hx y hy m n
          simp only [List.mem_cons, List.not_mem_nil, or_false] at hx hy
          rcases hx with rfl | rfl | rfl | rfl <;> rcases hy with rfl | rfl | rfl | rfl <;>
            exact (ok _ sa).1 _ (by simp) _ (by simp) _ m n)
        (by
          rintro ⟨x1, x2, x3, x4⟩
          simp only [List.mem_cons, List.not_mem_nil, or_false] at hz
          rcases hz with rfl | rfl | rfl | rfl <;> simp_all)
      rw [← lenA e.key hf.1 hf.2, ht, q] at hm
      have hm := Option.some.inj hm
      have hz1 : len1 z e.key = s := len1_of hk
      have hz0 : s ≠ 0 := fun q => hc.2 z (sa z hz) e.key (by rw [hk, q])
      left
      unfold len1 at hz1
      simp only [List.mem_cons, List.not_mem_nil, or_false] at hz
      rcases hz with rfl | rfl | rfl | rfl <;> omega
  have hreg : A.Regular ("i", .matI) ("j", .matJ) 2 := by
    intro x hx
    rw [(mA x hx).1, Matrix.det_fin_two_of]
    exact hdet x (hin x hx)
  obtain ⟨S, hS, hst, hlen, hm⟩ := C75_switch full B A lB.stack lA hns ho hreg
  refine ⟨B, A, S, hB, hA, hS, hst.rows, hst.cols, ?_⟩
  intro x hx s
  obtain ⟨xb, xa⟩ := InStack.of hlen ho hx
  have e := (hm x hx).1
  rw [(mA x xa).1, (mB x xb).1] at e
  have q : ∀ p r, (S.mat ("i", .matI) ("j", .matJ) x 2 2 * !![a1.atB x, a1'.atB x; a2.atB x, a2'.atB x]) p r =
      !![b1.atB x, b1'.atB x; b2.atB x, b2'.atB x] p r := fun p r => by rw [e]
  have q1 := q 0 0
  have q2 := q 1 0
  have q3 := q 0 1
  have q4 := q 1 1
  simp [Matrix.mul_apply, Fin.sum_univ_two] at q1 q2 q3 q4
  exact ⟨q1.symm, q2.symm, q3.symm, q4.symm⟩

end HF.Arr
