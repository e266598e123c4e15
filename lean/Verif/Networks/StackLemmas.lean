import Verif.Networks.Stack
import Verif.Networks.ConvertProps
import Verif.HFArray.LinAlgProps
import Verif.HFArray.MakeMatrixProps
/-
Helper lemmas for C101.
-/
noncomputable section

namespace HF.Networks

open HF.Arr

variable {β K : Type}

def kI : Key := ("i", .matI)
def kJ : Key := ("j", .matJ)

/-! ### Order of the axes -/

theorem sorted_unique (l l' : List (Dim β)) (h : l.Pairwise fun x y => x.sortprio ≤ y.sortprio)
    (h' : l'.Pairwise fun x y => x.sortprio ≤ y.sortprio)
    (hf : ∀ p, l.filter (fun x => x.sortprio = p) = l'.filter (fun x => x.sortprio = p)) : l = l' := by
  induction l generalizing l' with
  | nil =>
    cases l' with
    | nil => rfl
    | cons y t =>
      have := hf y.sortprio
      simp at this
  | cons x t ih =>
    cases l' with
    | nil =>
      have := hf x.sortprio
      simp at this
    | cons y t' =>
      rw [List.pairwise_cons] at h h'
      have hx : x ∈ (y :: t').filter (fun u => u.sortprio = x.sortprio) := by
        rw [← hf]; simp
      have hy : y ∈ (x :: t).filter (fun u => u.sortprio = y.sortprio) := by
        rw [hf]; simp
      have hp : x.sortprio = y.sortprio := by
        have h1 := (List.mem_filter.1 hx).1
        have h2 := (List.mem_filter.1 hy).1
        rcases List.mem_cons.1 h1 with e | e
        · rw [e]
        · rcases List.mem_cons.1 h2 with e' | e'
          · rw [e']
          · have := h.1 _ e'; have := h'.1 _ e; omega
      have h1 := hf x.sortprio
      rw [List.filter_cons, List.filter_cons] at h1
      simp only [hp, decide_true, if_true] at h1
      obtain ⟨rfl, -⟩ := List.cons.inj h1
      congr 1
      refine ih t' h.2 h'.2 fun p => ?_
      have h2 := hf p
      rw [List.filter_cons, List.filter_cons] at h2
      split at h2
      · exact (List.cons.inj h2).2
      · exact h2

theorem sort_sorted {l : List (Dim β)} (h : l.Pairwise fun x y => x.sortprio ≤ y.sortprio) :
    sortByPrio l = l :=
  sorted_unique _ _ (sortByPrio_sorted l) h (sortByPrio_stable l)

theorem sort_sort (l : List (Dim β)) : sortByPrio (sortByPrio l) = sortByPrio l :=
  sort_sorted (sortByPrio_sorted l)

/-- Row and column come last. -/
theorem sort_mid (p q : List (Dim β)) (i j : Dim β) (hp : ∀ d ∈ p ++ q, d.sortprio < 1000)
    (hi : i.sortprio = 1000) (hj : j.sortprio = 1001) :
    sortByPrio (p ++ [i, j] ++ q) = sortByPrio (p ++ q) ++ [i, j] := by
  apply sorted_unique _ _ (sortByPrio_sorted _)
  · rw [List.pairwise_append]
    refine ⟨sortByPrio_sorted _, by simp [hi, hj], ?_⟩
    intro x hx y hy
    have := hp x ((sortByPrio_perm _).mem_iff.1 hx)
    simp only [List.mem_cons, List.not_mem_nil, or_false] at hy
    rcases hy with rfl | rfl <;> omega
  · intro n
    rw [sortByPrio_stable, List.filter_append, List.filter_append, List.filter_append, sortByPrio_stable,
      List.filter_append]
    by_cases hn : n < 1000
    · have : ([i, j].filter fun x => x.sortprio = n) = [] := by
        rw [List.filter_eq_nil_iff]
        intro y hy
        simp only [List.mem_cons, List.not_mem_nil, or_false] at hy
        rcases hy with rfl | rfl <;> simp <;> omega
      rw [this]; simp
    · have h0 : ∀ l, l ⊆ p ++ q → (l.filter fun x => x.sortprio = n) = [] := by
        intro l hl
        rw [List.filter_eq_nil_iff]
        intro y hy
        have := hp y (hl hy)
        simp only [decide_eq_true_eq]; omega
      rw [h0 p (by intro x hx; simp [hx]), h0 q (by intro x hx; simp [hx])]
      simp

theorem fold_contained {l : List (Dim β)} (hl : NoSub l) (b acc : List (Dim β)) (hb : b ⊆ l) (ha : acc ⊆ l)
    (h : ∀ d ∈ b, d.key ∈ acc.map Dim.key) : b.foldl unionStep acc = acc := by
  induction b with
  | nil => rfl
  | cons d t ih =>
    have h1 : unionStep acc d = acc := by
      unfold unionStep
      rw [if_pos ((containsDim_iff hl ha (hb (by simp))).2 (h d (by simp)))]
    rw [List.foldl_cons, h1]
    exact ih (fun x hx => hb (by simp [hx])) fun x hx => h x (by simp [hx])

theorem fold_new {l : List (Dim β)} (hl : NoSub l) (b acc : List (Dim β)) (hb : b ⊆ l) (ha : acc ⊆ l)
    (hd : Distinct (acc ++ b)) : b.foldl unionStep acc = acc ++ b := by
  induction b generalizing acc with
  | nil => simp
  | cons d t ih =>
    have h1 : unionStep acc d = acc ++ [d] := by
      unfold unionStep
      rw [if_neg]
      intro hc
      have := (containsDim_iff hl ha (hb (by simp))).1 hc
      unfold Distinct at hd
      rw [List.map_append, List.nodup_append] at hd
      exact hd.2.2 _ this d.key (by simp) rfl
    rw [List.foldl_cons, h1, ih (acc ++ [d]) (fun x hx => hb (by simp [hx]))]
    · simp
    · intro x hx
      rcases List.mem_append.1 hx with h | h
      · exact ha h
      · simp only [List.mem_singleton] at h; subst h; exact hb (by simp)
    · simpa using hd

theorem noSub_keys {l b : List (Dim β)} (h : NoSub b) (hk : ∀ d ∈ l, d.key ∈ b.map Dim.key) : NoSub l := by
  intro d hd e he hn hs
  obtain ⟨d', hd', ed⟩ := List.mem_map.1 (hk d hd)
  obtain ⟨e', he', ee⟩ := List.mem_map.1 (hk e he)
  have d1 := congrArg Prod.fst ed; have d2 := congrArg Prod.snd ed
  have e1 := congrArg Prod.fst ee; have e2 := congrArg Prod.snd ee
  simp only [Dim.key] at d1 d2 e1 e2
  rw [← d2, ← e2] at hs ⊢
  exact h d' hd' e' he' (by rw [d1, e1, hn]) hs

/-- Only sweeps and repetitions. -/
def Outer (pre : List (Dim β)) : Prop := ∀ d ∈ pre, d.isa .dimSweep = true ∨ d.isa .dimRep = true

theorem Outer.prio {pre : List (Dim β)} (h : Outer pre) : ∀ d ∈ pre, d.sortprio < 1000 := by
  have prio : ∀ c : Cls, (c.isSub .dimSweep = true ∨ c.isSub .dimRep = true) → c.sortprio < 1000 := by
    intro c; cases c <;> decide +kernel
  exact fun d hd => prio _ (h d hd)

theorem Outer.sort {pre : List (Dim β)} (h : Outer pre) : Outer (sortByPrio pre) :=
  fun d hd => h d ((sortByPrio_perm _).mem_iff.1 hd)

theorem prioI {i : Dim β} (h : i.key = kI) : i.sortprio = 1000 := by
  have := congrArg Prod.snd h
  simp only [Dim.key, kI] at this
  simp [Dim.sortprio, this, Cls.sortprio]

theorem prioJ {j : Dim β} (h : j.key = kJ) : j.sortprio = 1001 := by
  have := congrArg Prod.snd h
  simp only [Dim.key, kJ] at this
  simp [Dim.sortprio, this, Cls.sortprio]

theorem union_right {pre : List (Dim β)} {i j i' j' : Dim β} (ho : Outer pre)
    (hl : NoSub (pre ++ [i, j])) (hi : i.key = kI) (hj : j.key = kJ) (hi' : i'.key = kI) (hj' : j'.key = kJ) :
    dimsUnion (pre ++ [i, j]) [i', j'] = sortByPrio pre ++ [i, j] := by
  have hn : NoSub (pre ++ [i, j] ++ [i', j']) := noSub_keys hl (by
    intro d hd
    rcases List.mem_append.1 hd with h | h
    · exact List.mem_map_of_mem h
    · simp only [List.mem_cons, List.not_mem_nil, or_false] at h
      rcases h with rfl | rfl <;> simp [*])
  unfold dimsUnion
  rw [fold_contained hn _ _ (by intro x hx; simp at hx ⊢; tauto) (by intro x hx; simp at hx ⊢; tauto)]
  · have := sort_mid pre [] i j (by simpa using ho.prio) (prioI hi) (prioJ hj)
    simpa using this
  · intro d hd
    simp only [List.mem_cons, List.not_mem_nil, or_false] at hd
    rcases hd with rfl | rfl <;> simp [*]

theorem union_left {pre : List (Dim β)} {i j i' j' : Dim β} (ho : Outer pre) (hd : Distinct (pre ++ [i, j]))
    (hl : NoSub (pre ++ [i, j])) (hi : i.key = kI) (hj : j.key = kJ) (hi' : i'.key = kI) (hj' : j'.key = kJ) :
    dimsUnion [i', j'] (pre ++ [i, j]) = sortByPrio pre ++ [i', j'] := by
  have hn : NoSub (pre ++ [i, j] ++ [i', j']) := noSub_keys hl (by
    intro d hd
    rcases List.mem_append.1 hd with h | h
    · exact List.mem_map_of_mem h
    · simp only [List.mem_cons, List.not_mem_nil, or_false] at h
      rcases h with rfl | rfl <;> simp [*])
  have hd' : Distinct ([i', j'] ++ pre) := by
    unfold Distinct at hd ⊢
    rw [List.map_append] at hd ⊢
    have : ([i', j'].map Dim.key) = [i, j].map Dim.key := by simp [*]
    rw [this]
    exact (List.perm_append_comm.nodup_iff).1 hd
  unfold dimsUnion
  rw [List.foldl_append, fold_new hn pre [i', j'] (by intro x hx; simp [hx]) (by intro x hx; simp at hx ⊢; tauto) hd',
    fold_contained hn _ _ (by intro x hx; simp at hx ⊢; tauto) (by intro x hx; simp at hx ⊢; tauto)]
  · have := sort_mid [] pre i' j' (by simpa using ho.prio) (prioI hi') (prioJ hj')
    simpa using this
  · intro d hd
    simp only [List.mem_cons, List.not_mem_nil, or_false] at hd
    rcases hd with rfl | rfl <;> simp [*]

theorem union_same {pre : List (Dim β)} {i j i' j' : Dim β} (ho : Outer pre)
    (hl : NoSub (pre ++ [i, j])) (hi : i.key = kI) (hj : j.key = kJ) (hi' : i'.key = kI) (hj' : j'.key = kJ) :
    dimsUnion (pre ++ [i, j]) (pre ++ [i', j']) = sortByPrio pre ++ [i, j] := by
  have hk : ∀ d ∈ pre ++ [i', j'], d.key ∈ (pre ++ [i, j]).map Dim.key := by
    intro d hd
    rcases List.mem_append.1 hd with h | h
    · rw [List.map_append]; exact List.mem_append_left _ (List.mem_map_of_mem h)
    · simp only [List.mem_cons, List.not_mem_nil, or_false] at h
      rcases h with rfl | rfl <;> simp [*]
  have hn : NoSub (pre ++ [i, j] ++ (pre ++ [i', j'])) := noSub_keys hl (by
    intro d hd
    rcases List.mem_append.1 hd with h | h
    · exact List.mem_map_of_mem h
    · exact hk d h)
  unfold dimsUnion
  rw [fold_contained hn _ _ (by intro x hx; exact List.mem_append_right _ hx)
    (by intro x hx; exact List.mem_append_left _ hx) hk]
  have := sort_mid pre [] i j (by simpa using ho.prio) (prioI hi) (prioJ hj)
  simpa using this

/-! ### Stacks -/

theorem Last.outer {x : Arr β K} {n : Nat} {pre : List (Dim β)} {i j : Dim β} (h : x.Last kI kJ n pre i j) :
    Outer pre := fun d hd => h.stack.others d (by rw [h.dims]; exact List.mem_append_left _ hd)
      (h.pre_ne d hd).1 (h.pre_ne d hd).2

theorem inStack_congr {x y : Arr β K} (h : ∀ k, x.axisLen k = y.axisLen k) {c : Coord} :
    x.InStack kI kJ c ↔ y.InStack kI kJ c := by
  unfold InStack
  simp only [h]

/-- An array of a single matrix has no other axes. -/
theorem Last.single {x : Arr β K} {n : Nat} {i j : Dim β} (h : x.Last kI kJ n [] i j) {k : Key}
    (h1 : k ≠ kI) (h2 : k ≠ kJ) : x.axisLen k = none := by
  apply axisLen_none h.stack.wf
  rw [h.dims]
  simp [h.ikey, h.jkey, h1, h2]

theorem Last.inSingle {x : Arr β K} {n : Nat} {i j : Dim β} (h : x.Last kI kJ n [] i j) (c : Coord) :
    x.InStack kI kJ c := by
  intro k s h1 h2 h3
  rw [Last.single h h1 h2] at h3
  cases h3

theorem mul_gen [Semiring K] (full : Arr β K → Arr β K) {a b : Arr β K} {n : Nat} {p q r0 : List (Dim β)}
    {i j i' j' i0 j0 : Dim β} (ha : a.Last kI kJ n p i j) (hb : b.Last kI kJ n q i' j')
    (hl : NoSub (a.dims ++ b.dims)) (ho : OuterOk a b kI kJ)
    (hU : dimsUnion a.dims b.dims = r0 ++ [i0, j0]) (hi : i0.key = kI) (hj : j0.key = kJ) :
    ∃ r, matMul full a b = .ok r ∧ r.Last kI kJ n r0 i0 j0 ∧
      (∀ k, r.axisLen k = bLen (a.axisLen k) (b.axisLen k)) ∧
      ∀ c, r.InStack kI kJ c → r.mat kI kJ c n n = a.mat kI kJ c n n * b.mat kI kJ c n n := by
  obtain ⟨r, h1, h2, -, h4, h5⟩ := ha.stack.mul full hb.stack hl ho
  obtain ⟨r', pre, i2, j2, hr', -, -, hd, -⟩ := C58_product full a b
    (ha.stack.stacks hb.stack hl) ho ha.stack.rows ha.stack.cols hb.stack.rows hb.stack.cols
  rw [h1] at hr'
  obtain rfl := Except.ok.inj hr'
  exact ⟨r, h1, ⟨h2, hd.trans hU, hi, hj⟩, h4, h5⟩

theorem arith_gen [Field K] (full : Arr β K → Arr β K) (f : K → K → K) {a b : Arr β K} {n : Nat}
    {p q r0 : List (Dim β)} {i j i' j' i0 j0 : Dim β} (ha : a.Last kI kJ n p i j) (hb : b.Last kI kJ n q i' j')
    (hl : NoSub (a.dims ++ b.dims)) (ho : OuterOk a b kI kJ)
    (hU : dimsUnion a.dims b.dims = r0 ++ [i0, j0]) (hi : i0.key = kI) (hj : j0.key = kJ) :
    ∃ r, arith full f a b = .ok r ∧ r.Last kI kJ n r0 i0 j0 ∧
      (∀ k, r.axisLen k = bLen (a.axisLen k) (b.axisLen k)) ∧
      ∀ c, r.InStack kI kJ c → r.mat kI kJ c n n =
        Matrix.of fun m k => f (a.mat kI kJ c n n m k) (b.mat kI kJ c n n m k) := by
  have hst := ha.stack.stacks hb.stack hl
  have hcx := (union_matrix_last hst.na hst.nosub hst.row hst.col hst.rowCls hst.colCls hst.others).1
  have hcomp : Compatible a b := by
    intro k s t h1 h2
    by_cases e1 : k = kI
    · subst e1; rw [ha.stack.rows] at h1; rw [hb.stack.rows] at h2; left
      exact (Option.some.inj h1).symm.trans (Option.some.inj h2)
    · by_cases e2 : k = kJ
      · subst e2; rw [ha.stack.cols] at h1; rw [hb.stack.cols] at h2; left
        exact (Option.some.inj h1).symm.trans (Option.some.inj h2)
      · exact ho k s t e1 e2 h1 h2
  obtain ⟨r, h1, hwf, hdist, hd, hk, hlen, hat⟩ := C06_binop_aligns_by_name full f a b ha.stack.wf hb.stack.wf
    ha.stack.distinct hb.stack.distinct hl hcomp (by rw [hcx]; intro h; cases h)
  have hrow : r.axisLen kI = some n := by rw [hlen, ha.stack.rows, hb.stack.rows]; simp [bLen]
  have hcol : r.axisLen kJ = some n := by rw [hlen, ha.stack.cols, hb.stack.cols]; simp [bLen]
  have hsub : r.dims ⊆ a.dims ++ b.dims := by
    rw [hd]; exact (dimsUnion_spec hl ha.stack.distinct).1
  refine ⟨r, by simp [arith, h1], ⟨⟨hwf, hdist, hrow, hcol, rfl, rfl, fun d hd' => hst.others d (hsub hd')⟩,
    hd.trans hU, hi, hj⟩, hlen, ?_⟩
  intro c hc
  ext m k
  rw [Matrix.of_apply]
  show r.atB _ = f (a.atB _) (b.atB _)
  obtain ⟨e, he⟩ : ∃ e : Coord, e = upd c kI kJ m.1 k.1 := ⟨_, rfl⟩
  obtain ⟨c', hc'⟩ : ∃ c' : Coord, c' = fun q => if r.axisLen q = some 1 then 0 else e q := ⟨_, rfl⟩
  rw [← he]
  have hran : r.InRange c' := by
    unfold InRange
    rw [shape_map hwf hdist]
    refine (valid_map r.dims (len1 r) c').2 ?_
    intro u hu
    obtain ⟨s, hs⟩ := Option.ne_none_iff_exists'.1 (axisLen_ne_none hwf (List.mem_map_of_mem hu))
    rw [len1_of hs, hc']
    simp only [hs]
    split
    · rename_i h; have := Option.some.inj h; omega
    · rename_i h
      have h1 : s ≠ 1 := fun h' => h (by rw [h'])
      rw [he]
      unfold upd
      split
      · rename_i hq; rw [hq, hrow] at hs; have := Option.some.inj hs; have := m.2; omega
      · split
        · rename_i hq; rw [hq, hcol] at hs; have := Option.some.inj hs; have := k.2; omega
        · rename_i q1 q2
          have := hc _ s q1 q2 hs
          omega
  have er : r.atB e = r.atB c' := atB_congr hwf hdist fun q s hq hs => by
    rw [hc']
    simp only [hq]
    rw [if_neg (fun h => hs (Option.some.inj h))]
  have ea : a.atB e = a.atB c' := atB_congr ha.stack.wf ha.stack.distinct fun q s hq hs => by
    have : r.axisLen q ≠ some 1 := by
      rw [hlen, hq]
      cases b.axisLen q <;> simp [bLen, hs]
    rw [hc']
    simp only [this, if_false]
  have eb : b.atB e = b.atB c' := atB_congr hb.stack.wf hb.stack.distinct fun q s hq hs => by
    have : r.axisLen q ≠ some 1 := by
      rw [hlen, hq]
      cases a.axisLen q with
      | none => simp [bLen, hs]
      | some t => simp only [bLen]; split <;> simp [*]
    rw [hc']
    simp only [this, if_false]
  rw [er, ea, eb, atB_eq_at hwf hran]
  exact hat c' hran

/-- A single matrix and a stack, in either order, and two stacks of equal axes. -/
theorem outer_single {a t : Arr β K} {n : Nat} {i j : Dim β} (ht : t.Last kI kJ n [] i j) :
    OuterOk a t kI kJ ∧ OuterOk t a kI kJ := by
  constructor <;> intro k s t' h1 h2 h3 h4
  · rw [Last.single ht h1 h2] at h4; cases h4
  · rw [Last.single ht h1 h2] at h3; cases h3

theorem len_single {a t : Arr β K} {n : Nat} {p : List (Dim β)} {i j i' j' : Dim β}
    (ha : a.Last kI kJ n p i j) (ht : t.Last kI kJ n [] i' j') (k : Key) :
    bLen (a.axisLen k) (t.axisLen k) = a.axisLen k ∧ bLen (t.axisLen k) (a.axisLen k) = a.axisLen k := by
  by_cases e1 : k = kI
  · subst e1; rw [ha.stack.rows, ht.stack.rows]; simp [bLen]
  · by_cases e2 : k = kJ
    · subst e2; rw [ha.stack.cols, ht.stack.cols]; simp [bLen]
    · rw [Last.single ht e1 e2]; cases a.axisLen k <;> simp [bLen]

theorem noSub_two {p : List (Dim β)} {i j : Dim β} (h : NoSub (p ++ [i, j])) (hi : i.key = kI) (hj : j.key = kJ)
    {l l' : List (Dim β)} (hl : ∀ d ∈ l, d ∈ p ∨ d.key = kI ∨ d.key = kJ)
    (hl' : ∀ d ∈ l', d ∈ p ∨ d.key = kI ∨ d.key = kJ) : NoSub (l ++ l') := by
  refine noSub_keys h fun d hd => ?_
  rw [List.map_append, List.mem_append]
  rcases (List.mem_append.1 hd).elim (hl d) (hl' d) with q | q | q
  · exact Or.inl (List.mem_map_of_mem q)
  · right; simp [q, hi]
  · right; simp [q, hj]

theorem Last.mem {x : Arr β K} {n : Nat} {p : List (Dim β)} {i j : Dim β} (h : x.Last kI kJ n p i j) :
    ∀ d ∈ x.dims, d ∈ p ∨ d.key = kI ∨ d.key = kJ := by
  intro d hd
  rw [h.dims] at hd
  rcases List.mem_append.1 hd with q | q
  · exact Or.inl q
  · simp only [List.mem_cons, List.not_mem_nil, or_false] at q
    rcases q with rfl | rfl
    · exact Or.inr (Or.inl h.ikey)
    · exact Or.inr (Or.inr h.jkey)

theorem mem_sort {p : List (Dim β)} {d : Dim β} : d ∈ sortByPrio p ↔ d ∈ p := (sortByPrio_perm p).mem_iff

/-- `a t` for a stack `a` and a single matrix `t`. -/
theorem mul_single [Field K] (full : Arr β K → Arr β K) {a t : Arr β K} {n : Nat} {p : List (Dim β)}
    {i j i' j' : Dim β} (ha : a.Last kI kJ n p i j) (hl : NoSub a.dims) (ht : t.Last kI kJ n [] i' j') :
    ∃ r, matMul full a t = .ok r ∧ r.Last kI kJ n (sortByPrio p) i j ∧ (∀ k, r.axisLen k = a.axisLen k) ∧
      ∀ c, a.InStack kI kJ c → r.mat kI kJ c n n = a.mat kI kJ c n n * t.mat kI kJ c n n := by
  have hl' := hl
  rw [ha.dims] at hl'
  obtain ⟨r, h1, h2, h3, h4⟩ := mul_gen full ha ht
    (noSub_two hl' ha.ikey ha.jkey (Last.mem ha) (fun d hd => (Last.mem ht d hd).elim (by simp) Or.inr))
    (outer_single ht).1 (r0 := sortByPrio p) (i0 := i) (j0 := j)
    (by rw [ha.dims, ht.dims]; exact union_right (Last.outer ha) hl' ha.ikey ha.jkey ht.ikey ht.jkey) ha.ikey ha.jkey
  have hlen : ∀ k, r.axisLen k = a.axisLen k := fun k => by rw [h3, (len_single ha ht k).1]
  exact ⟨r, h1, h2, hlen, fun c hc => h4 c ((inStack_congr hlen).2 hc)⟩

/-- A difference or sum of a single matrix `t` and a stack `a`. -/
theorem arith_single [Field K] (full : Arr β K → Arr β K) (f : K → K → K) {a t : Arr β K} {n : Nat}
    {p : List (Dim β)} {i j i' j' : Dim β} (ha : a.Last kI kJ n p i j) (hl : NoSub a.dims)
    (ht : t.Last kI kJ n [] i' j') :
    ∃ r, arith full f t a = .ok r ∧ r.Last kI kJ n (sortByPrio p) i' j' ∧ (∀ k, r.axisLen k = a.axisLen k) ∧
      ∀ c, a.InStack kI kJ c → r.mat kI kJ c n n =
        Matrix.of fun m k => f (t.mat kI kJ c n n m k) (a.mat kI kJ c n n m k) := by
  have hl' := hl
  rw [ha.dims] at hl'
  obtain ⟨r, h1, h2, h3, h4⟩ := arith_gen full f ht ha
    (noSub_two hl' ha.ikey ha.jkey (fun d hd => (Last.mem ht d hd).elim (by simp) Or.inr) (Last.mem ha))
    (outer_single ht).2 (r0 := sortByPrio p) (i0 := i') (j0 := j')
    (by rw [ha.dims, ht.dims]; exact union_left (Last.outer ha) (by rw [← ha.dims]; exact ha.stack.distinct) hl'
          ha.ikey ha.jkey ht.ikey ht.jkey) ht.ikey ht.jkey
  have hlen : ∀ k, r.axisLen k = a.axisLen k := fun k => by rw [h3, (len_single ha ht k).2]
  exact ⟨r, h1, h2, hlen, fun c hc => h4 c ((inStack_congr hlen).2 hc)⟩

/-- The product of two stacks of the same axes. -/
theorem mul_same [Field K] (full : Arr β K → Arr β K) {a b : Arr β K} {n : Nat} {p : List (Dim β)}
    {i j i' j' : Dim β} (ha : a.Last kI kJ n p i j) (hl : NoSub a.dims) (hb : b.Last kI kJ n p i' j')
    (hlen : ∀ k, a.axisLen k = b.axisLen k) :
    ∃ r, matMul full a b = .ok r ∧ r.Last kI kJ n (sortByPrio p) i j ∧ (∀ k, r.axisLen k = a.axisLen k) ∧
      ∀ c, a.InStack kI kJ c → r.mat kI kJ c n n = a.mat kI kJ c n n * b.mat kI kJ c n n := by
  have hl' := hl
  rw [ha.dims] at hl'
  obtain ⟨r, h1, h2, h3, h4⟩ := mul_gen full ha hb
    (noSub_two hl' ha.ikey ha.jkey (Last.mem ha) (Last.mem hb))
    (by intro k s t _ _ e1 e2; rw [hlen, e2] at e1; exact Or.inl (Option.some.inj e1).symm)
    (r0 := sortByPrio p) (i0 := i) (j0 := j)
    (by rw [ha.dims, hb.dims]; exact union_same (Last.outer ha) hl' ha.ikey ha.jkey hb.ikey hb.jkey) ha.ikey ha.jkey
  have hlen' : ∀ k, r.axisLen k = a.axisLen k := fun k => by
    rw [h3, ← hlen]
    cases a.axisLen k <;> simp [bLen]
  exact ⟨r, h1, h2, hlen', fun c hc => h4 c ((inStack_congr hlen').2 hc)⟩

theorem neg_last [Field K] {x : Arr β K} {n : Nat} {p : List (Dim β)} {i j : Dim β} (h : x.Last kI kJ n p i j) :
    (negArr x).Last kI kJ n p i j ∧ (∀ k, (negArr x).axisLen k = x.axisLen k) ∧
      ∀ c, (negArr x).mat kI kJ c n n = -x.mat kI kJ c n n :=
  ⟨⟨⟨h.stack.wf, h.stack.distinct, h.stack.rows, h.stack.cols, rfl, rfl, h.stack.others⟩, h.dims, h.ikey, h.jkey⟩,
    fun _ => rfl, fun _ => rfl⟩

/-! ### Corners of a four by four matrix -/

theorem last_two {i j : Dim β} (n : Nat) (hi : i.key = kI) (hj : j.key = kJ) (g : List Nat → K) :
    (⟨[i, j], ⟨[n, n], g⟩⟩ : Arr β K).Last kI kJ n [] i j := by
  have hne : kI ≠ kJ := by decide
  refine ⟨⟨rfl, ?_, ?_, ?_, rfl, rfl, ?_⟩, rfl, hi, hj⟩
  · unfold Distinct; simp [hi, hj, hne]
  · simp [axisLen, hi]
  · simp [axisLen, hi, hj, hne]
  · intro d hd h1 h2
    simp only [List.mem_cons, List.not_mem_nil, or_false] at hd
    rcases hd with rfl | rfl
    · exact absurd hi h1
    · exact absurd hj h2

theorem mat_two {i j : Dim β} (n : Nat) (hi : i.key = kI) (hj : j.key = kJ) (g : List Nat → K) (c : Coord)
    (m k : Fin n) : (⟨[i, j], ⟨[n, n], g⟩⟩ : Arr β K).mat kI kJ c n n m k = g [m.1, k.1] := by
  have h := (last_two n hi hj g).matOf c
  rw [← h]
  rfl

/-- The positions a slice of four takes. -/
theorem corner_eq (fmt : β → String) (i j : Dim β) (hi : i.data.length = 4) (hj : j.data.length = 4)
    (g : List Nat → K) (hi' : i.key = kI) (hj' : j.key = kJ) (r c : Slice)
    (hr : r = low ∨ r = high) (hc : c = low ∨ c = high) :
    ∃ i' j', i'.key = kI ∧ j'.key = kJ ∧ corner fmt ⟨[i, j], ⟨[4, 4], g⟩⟩ r c =
      .ok ⟨[i', j'], ⟨[2, 2], fun idx => g [((r.indices 4).getD []).getD (idx.headD 0) 0,
        ((c.indices 4).getD []).getD (idx.tail.headD 0) 0]⟩⟩ := by
  have hs : ∀ (d : Dim β), d.data.length = 4 → ∀ s, (s = low ∨ s = high) →
      ∃ e : Dim β, e.key = d.key ∧ dimSlice fmt d s = .ok e := by
    intro d hd s hs
    obtain ⟨v, t, hv⟩ : ∃ v t, d.data = v :: t := by
      cases h : d.data with
      | nil => rw [h] at hd; simp at hd
      | cons v t => exact ⟨v, t, rfl⟩
    have ho : ∃ o, outputformatOf fmt d = .ok o := by
      unfold outputformatOf
      cases d.outputformat with
      | some o => exact ⟨o, rfl⟩
      | none => rw [hv]; exact ⟨fmt v, rfl⟩
    obtain ⟨o, ho⟩ := ho
    have h1 : s ≠ Slice.full := by rcases hs with rfl | rfl <;> decide
    have h2 : ∃ l, s.indices 4 = some l := by rcases hs with rfl | rfl <;> exact ⟨_, rfl⟩
    obtain ⟨l, hl⟩ := h2
    refine ⟨{ d with data := l.filterMap fun i => d.data[i]?, outputformat := some o }, rfl, ?_⟩
    unfold dimSlice
    rw [if_neg h1, hd, hl]
    simp only [ho]
  obtain ⟨i', hi1, hi2⟩ := hs i hi r hr
  obtain ⟨j', hj1, hj2⟩ := hs j hj c hc
  have hx : expandEllipsis 2 [Ix.ellipsis, .slice r, .slice c] = .ok [.slice r, .slice c] := by
    simp [expandEllipsis, Slice.full]
  have hrI : ∃ l, r.indices 4 = some l ∧ l.length = 2 := by rcases hr with rfl | rfl <;> exact ⟨_, rfl, rfl⟩
  have hcI : ∃ l, c.indices 4 = some l ∧ l.length = 2 := by rcases hc with rfl | rfl <;> exact ⟨_, rfl, rfl⟩
  obtain ⟨lr, hlr, nr⟩ := hrI
  obtain ⟨lc, hlc, nc⟩ := hcI
  refine ⟨i', j', hi1.trans hi', hj1.trans hj', ?_⟩
  unfold corner getitem
  simp [Nd.ndim, hx, indexDims, hi2, hj2, Nd.getBasic, Nd.resolve, hlr, hlc, Nd.selShape, Nd.selIdx, ofNd,
    mk?, nr, nc]

theorem corner_last [Field K] (fmt : β → String) {P : Arr β K} {i j : Dim β} (h : P.Last kI kJ 4 [] i j)
    (hi : i.data.length = 4) (hj : j.data.length = 4) (r c : Slice) (hr : r = low ∨ r = high)
    (hc : c = low ∨ c = high) :
    ∃ x i' j', corner fmt P r c = .ok x ∧ x.Last kI kJ 2 [] i' j' ∧
      ∀ c0, x.mat kI kJ c0 2 2 = Matrix.of fun m k => P.atB (upd c0 kI kJ
        (((r.indices 4).getD []).getD m.1 0) (((c.indices 4).getD []).getD k.1 0)) := by
  have hd := h.dims
  have hs := h.shape
  obtain ⟨dims, ⟨shape, g⟩⟩ := P
  simp only [List.nil_append, List.map_nil] at hd hs
  subst hd hs
  obtain ⟨i', j', e1, e2, e3⟩ := corner_eq fmt i j hi hj g h.ikey h.jkey r c hr hc
  refine ⟨_, i', j', e3, last_two 2 e1 e2 _, ?_⟩
  intro c0
  ext m k
  rw [mat_two 2 e1 e2, Matrix.of_apply]
  have hp : ∀ s : Slice, (s = low ∨ s = high) → ∀ m : Fin 2, ((s.indices 4).getD []).getD m.1 0 < 4 := by
    rintro s (rfl | rfl) m <;> fin_cases m <;> decide
  exact (mat_two 4 h.ikey h.jkey g c0 ⟨_, hp r hr m⟩ ⟨_, hp c hc k⟩).symm

theorem corners [Field K] (fmt : β → String) {P : Arr β K} {i j : Dim β} (h : P.Last kI kJ 4 [] i j)
    (hi : i.data.length = 4) (hj : j.data.length = 4) :
    (∃ x i' j', corner fmt P low low = .ok x ∧ x.Last kI kJ 2 [] i' j' ∧
      ∀ c, x.mat kI kJ c 2 2 = tl (P.mat kI kJ c 4 4)) ∧
    (∃ x i' j', corner fmt P low high = .ok x ∧ x.Last kI kJ 2 [] i' j' ∧
      ∀ c, x.mat kI kJ c 2 2 = tr (P.mat kI kJ c 4 4)) ∧
    (∃ x i' j', corner fmt P high low = .ok x ∧ x.Last kI kJ 2 [] i' j' ∧
      ∀ c, x.mat kI kJ c 2 2 = bl (P.mat kI kJ c 4 4)) ∧
    (∃ x i' j', corner fmt P high high = .ok x ∧ x.Last kI kJ 2 [] i' j' ∧
      ∀ c, x.mat kI kJ c 2 2 = br (P.mat kI kJ c 4 4)) := by
  refine ⟨?_, ?_, ?_, ?_⟩
  · obtain ⟨x, i', j', e1, e2, e3⟩ := corner_last fmt h hi hj low low (.inl rfl) (.inl rfl)
    refine ⟨x, i', j', e1, e2, fun c => ?_⟩
    rw [e3 c]; ext m k; fin_cases m <;> fin_cases k <;> rfl
  · obtain ⟨x, i', j', e1, e2, e3⟩ := corner_last fmt h hi hj low high (.inl rfl) (.inr rfl)
    refine ⟨x, i', j', e1, e2, fun c => ?_⟩
    rw [e3 c]; ext m k; fin_cases m <;> fin_cases k <;> rfl
  · obtain ⟨x, i', j', e1, e2, e3⟩ := corner_last fmt h hi hj high low (.inr rfl) (.inl rfl)
    refine ⟨x, i', j', e1, e2, fun c => ?_⟩
    rw [e3 c]; ext m k; fin_cases m <;> fin_cases k <;> rfl
  · obtain ⟨x, i', j', e1, e2, e3⟩ := corner_last fmt h hi hj high high (.inr rfl) (.inr rfl)
    refine ⟨x, i', j', e1, e2, fun c => ?_⟩
    rw [e3 c]; ext m k; fin_cases m <;> fin_cases k <;> rfl

/-! ### The conversion -/

def i4 (ofIdx : Nat → β) : Dim β := ⟨.matI, "i", (List.range 4).map ofIdx, none, none⟩
def j4 (ofIdx : Nat → β) : Dim β := ⟨.matJ, "j", (List.range 4).map ofIdx, none, none⟩

theorem ofMat_last [Field K] (ofIdx : Nat → β) (M : M4 K) :
    (ofMat ofIdx M).Last kI kJ 4 [] (i4 ofIdx) (j4 ofIdx) ∧ ∀ c, (ofMat ofIdx M).mat kI kJ c 4 4 = M := by
  refine ⟨last_two 4 rfl rfl _, fun c => ?_⟩
  ext m k
  refine (mat_two (i := i4 ofIdx) (j := j4 ofIdx) 4 rfl rfl _ c m k).trans ?_
  simp [Nd.elemOf]

variable [Field K] [DecidableEq K]

/-- The conversion of a stack is the conversion of each of its matrices; the axes of the result are in
the order of their priorities. -/
theorem convertArr_spec (full : Arr β K → Arr β K) (fmt : β → String) (ofIdx : Nat → β) (P Q : M4 K)
    (hQ : Q.det ≠ 0) {a : Arr β K} {p : List (Dim β)} {i j : Dim β} (ha : a.Last kI kJ 2 p i j)
    (hl : NoSub a.dims) :
    (∃ r i0 j0, convertArr full fmt (ofMat ofIdx P) (ofMat ofIdx Q) a = .ok r ∧
      r.Last kI kJ 2 (sortByPrio p) i0 j0 ∧ (∀ k, r.axisLen k = a.axisLen k) ∧
      ∀ c, a.InStack kI kJ c → ∃ A, convert P Q (a.mat kI kJ c 2 2) = some (r.mat kI kJ c 2 2, A)) ∨
    (convertArr full fmt (ofMat ofIdx P) (ofMat ofIdx Q) a = .error .linAlgError ∧
      ∃ c, a.InStack kI kJ c ∧ convert P Q (a.mat kI kJ c 2 2) = none) := by
  obtain ⟨hP1, hP2⟩ := ofMat_last ofIdx P
  obtain ⟨hQ1, hQ2⟩ := ofMat_last ofIdx Q
  obtain ⟨PB, e1, l1, -, m1⟩ := C59_inverse (ofMat ofIdx Q) hQ1 (fun c _ => by rw [hQ2]; exact hQ)
  have hns : NoSub (ofMat ofIdx P).dims := by
    show NoSub [i4 ofIdx, j4 ofIdx]
    intro d hd e he
    simp only [List.mem_cons, List.not_mem_nil, or_false] at hd he
    rcases hd with rfl | rfl <;> rcases he with rfl | rfl <;> simp [i4, j4]
  obtain ⟨R, e2, l2, -, m2⟩ := mul_single full hP1 hns l1
  have hR : ∀ c, R.mat kI kJ c 4 4 = P * Q⁻¹ := fun c => by
    rw [m2 c (Last.inSingle hP1 c), hP2, m1 c (Last.inSingle hQ1 c), hQ2]
  have hq : inv? Q = some Q⁻¹ := by simp [inv?, hQ]
  replace l2 : R.Last kI kJ 4 [] (i4 ofIdx) (j4 ofIdx) := l2
  obtain ⟨⟨t1, i1, j1, c1, lt1, mt1⟩, ⟨s1, i2, j2, c2, ls1, ms1⟩, ⟨t2, i3, j3, c3, lt2, mt2⟩,
    ⟨s2, i5, j5, c4, ls2, ms2⟩⟩ := corners fmt l2 (by simp [i4]) (by simp [j4])
  obtain ⟨x, ex, lx, nx, mx⟩ := mul_single full ha hl lt2
  obtain ⟨y, ey, ly, ny, my⟩ := mul_single full ha hl ls2
  have noSubOf : ∀ {w : Arr β K} {q : List (Dim β)} {i' j' : Dim β}, w.Last kI kJ 2 q i' j' → q ⊆ p →
      NoSub w.dims := by
    intro w q i' j' hw hq
    rw [ha.dims] at hl
    have := noSub_two hl ha.ikey ha.jkey (l := w.dims) (l' := [])
      (fun d hd => (Last.mem hw d hd).elim (fun h => Or.inl (hq h)) Or.inr) (by simp)
    simpa using this
  have hsp : sortByPrio p ⊆ p := fun d hd => mem_sort.1 hd
  obtain ⟨d, ed, ld, nd', md⟩ := arith_single full (· - ·) lx (noSubOf lx hsp) lt1
  obtain ⟨B, eB, lB, nB, mB⟩ := arith_single full (· + ·) ly (noSubOf ly hsp) (neg_last ls1).1
  rw [sort_sort] at ld lB
  have hdm : ∀ c, a.InStack kI kJ c → d.mat kI kJ c 2 2 =
      tl (P * Q⁻¹) - a.mat kI kJ c 2 2 * bl (P * Q⁻¹) := by
    intro c hc
    rw [md c ((inStack_congr nx).2 hc), mx c hc, mt1, mt2, hR]
    rfl
  have hBm : ∀ c, a.InStack kI kJ c → B.mat kI kJ c 2 2 =
      -tr (P * Q⁻¹) + a.mat kI kJ c 2 2 * br (P * Q⁻¹) := by
    intro c hc
    rw [mB c ((inStack_congr ny).2 hc), my c hc, (neg_last ls1).2.2, ms1, ms2, hR]
    rfl
  have hdl : ∀ k, d.axisLen k = a.axisLen k := fun k => (nd' k).trans (nx k)
  have hBl : ∀ k, B.axisLen k = a.axisLen k := fun k => (nB k).trans (ny k)
  by_cases hreg : d.Regular kI kJ 2
  · left
    obtain ⟨A, eA, lA, nA, mA⟩ := C59_inverse d ld hreg
    obtain ⟨r, er, lr, nr, mr⟩ := mul_same full lA (noSubOf lA hsp) lB
      (fun k => by rw [nA, hdl, hBl])
    rw [sort_sort] at lr
    refine ⟨r, i1, j1, ?_, lr, fun k => by rw [nr, nA, hdl], ?_⟩
    · simp only [convertArr, e1, e2, c1, c2, c3, c4, ex, ed, eA, ey, eB, er, bind, Except.bind]
    · intro c hc
      have hcd : d.InStack kI kJ c := (inStack_congr hdl).2 hc
      refine ⟨(d.mat kI kJ c 2 2)⁻¹, ?_⟩
      have hne := hreg c hcd
      rw [mr c ((inStack_congr nA).2 hcd), mA c hcd, hBm c hc]
      unfold convert
      rw [hq]
      simp only
      rw [← hdm c hc, inv?, if_neg hne]
  · right
    constructor
    · simp only [convertArr, e1, e2, c1, c2, c3, c4, ex, ed, C59_singular d ld hreg, bind, Except.bind]
    · unfold Regular at hreg
      push Not at hreg
      obtain ⟨c, hc, h0⟩ := hreg
      have hca : a.InStack kI kJ c := (inStack_congr hdl).1 hc
      refine ⟨c, hca, ?_⟩
      unfold convert
      rw [hq]
      simp only
      rw [← hdm c hca, inv?, if_pos h0]

end HF.Networks
