import Verif.HFArray.MakeMatrix
import Verif.HFArray.LinAlgProps
/-
C74: four arrays become an array of two by two matrices.
C75: switch correction.
-/
namespace HF.Arr

variable {β α : Type}

/-- Everything about `dims_union` of several arrays. -/
theorem dimsUnionL_spec {a : List (Dim β)} {t : List (List (Dim β))} (hl : NoSub (a ++ t.flatten))
    (ha : Distinct a) :
    dimsUnionL (a :: t) ⊆ a ++ t.flatten ∧ Distinct (dimsUnionL (a :: t)) ∧
    (∀ k, k ∈ (dimsUnionL (a :: t)).map Dim.key ↔ k ∈ a.map Dim.key ∨ k ∈ t.flatten.map Dim.key) ∧
    (∀ d ∈ dimsUnionL (a :: t), d ∈ a ∨ (d ∈ t.flatten ∧ d.key ∉ a.map Dim.key)) := by
  have e : dimsUnionL (a :: t) = dimsUnion a t.flatten := by
    show sortByPrio _ = sortByPrio _
    rw [List.foldl_flatten]
  rw [e]
  obtain ⟨h1, h2, h3, h4, -⟩ := dimsUnion_spec hl ha
  exact ⟨h1, h2, h3, h4⟩

/-- An operand as `make_same_dims_list` changes it. -/
theorem operand (full : Arr β α → Arr β α) {x : Arr β α} {l U : List (Dim β)} (hl : NoSub l)
    (hx : x.dims ⊆ l) (hU : U ⊆ l) (hwf : x.WF) (hn : Distinct x.dims) (hUn : Distinct U)
    (hsub : ∀ k ∈ x.dims.map Dim.key, k ∈ U.map Dim.key) (hcx : Dim.hasComplex l = false) :
    ∃ y, changeShape full x U = .ok y ∧ y.nd.shape = U.map (fun u => len1 x u.key) ∧
      ∀ c : Coord, (∀ u ∈ U, len1 x u.key = 1 ∨ c u.key < len1 x u.key) →
        y.nd.get (Nd.bidx y.nd.shape (U.map fun u => c u.key)) = x.atB c := by
  obtain ⟨y, e, -, s, g⟩ := changeShape_spec (full := full) (x := x) (l := l) (U := U)
    (fun h => by have := hasComplex_mono hU h; rw [hcx] at this; cases this) hl hx hU hwf hn hUn hsub
  have s' : y.nd.shape = U.map (fun u => len1 x u.key) := by
    rw [s, List.map_map]
    refine List.map_congr_left fun u hu => ?_
    simp only [Function.comp]
    rw [axisLen_eq hl hx hwf (hU hu)]; rfl
  refine ⟨y, e, s', fun c hc => g c ?_⟩
  rw [s', bidx_map U (len1 x) c]
  refine (valid_map U (len1 x) (fun k => if len1 x k = 1 then 0 else c k)).2 fun u hu => ?_
  have := hc u hu
  split <;> omega

theorem fits_map (U : List (Dim β)) (f g : Key → Nat) :
    fits (U.map fun u => f u.key) (U.map fun u => g u.key) = true ↔
      ∀ u ∈ U, f u.key = g u.key ∨ f u.key = 1 := by
  induction U with
  | nil => simp [fits]
  | cons d t ih =>
    simp only [List.map_cons, fits, Bool.and_eq_true, Bool.or_eq_true, beq_iff_eq, ih, List.forall_mem_cons]

/-- The longest of the four axes. -/
def max4 (a b c d : Arr β α) (k : Key) : Nat :=
  max (max (max (len1 a k) (len1 b k)) (len1 c k)) (len1 d k)

theorem maxShape_map (U : List (Dim β)) (a b c d : Arr β α) :
    maxShape (U.map fun u => len1 a u.key) (U.map fun u => len1 b u.key) (U.map fun u => len1 c u.key)
      (U.map fun u => len1 d u.key) = U.map fun u => max4 a b c d u.key := by
  unfold maxShape max4
  induction U with
  | nil => rfl
  | cons x t ih => simp only [List.map_cons, List.zipWith_cons_cons, ih]

/-- Arrays which `make_matrix` can put together: axes of the same name and class have the same
length, or length one; no axis is empty. -/
structure Mates (l : List (Arr β α)) : Prop where
  wf : ∀ x ∈ l, x.WF
  distinct : ∀ x ∈ l, Distinct x.dims
  nosub : NoSub (l.map Arr.dims).flatten
  real : Dim.hasComplex (l.map Arr.dims).flatten = false
  free : ∀ d ∈ (l.map Arr.dims).flatten, d.key ≠ ("i", .matI) ∧ d.key ≠ ("j", .matJ)

/-- Lengths that can be broadcast. -/
def LenOk (l : List (Arr β α)) : Prop :=
  (∀ x ∈ l, ∀ y ∈ l, ∀ k s t, x.axisLen k = some s → y.axisLen k = some t → s = t ∨ s = 1 ∨ t = 1) ∧
    ∀ x ∈ l, ∀ k, x.axisLen k ≠ some 0

/-- Which of four numbers stands at row `i`, column `j`. -/
def entry (i j : Nat) (a b c d : α) : α :=
  if i = 0 then (if j = 0 then a else b) else if j = 0 then c else d

theorem len_cond {l : List (Arr β α)} (h : LenOk l) {x y : Arr β α} (hx : x ∈ l) (hy : y ∈ l) (k : Key) :
    (len1 x k = len1 y k ∨ len1 x k = 1 ∨ len1 y k = 1) ∧ len1 x k ≠ 0 := by
  have h2 := h.2 x hx k
  unfold len1
  cases hx' : x.axisLen k with
  | none => simp
  | some s =>
    rw [hx'] at h2
    have hs : s ≠ 0 := fun e => h2 (by rw [e])
    cases hy' : y.axisLen k with
    | none => simp [hs]
    | some t => exact ⟨h.1 x hx y hy k s t hx' hy', hs⟩

theorem bLen_ne {s t : Option Nat} : bLen s t = none ↔ s = none ∧ t = none := by
  cases s <;> cases t <;> simp [bLen]
  split <;> simp

/-- The longest axis is the broadcast axis. -/
theorem max_bLen (s t u v : Option Nat)
    (h : ∀ x ∈ [s, t, u, v], x ≠ some 0) (hc : ∀ x ∈ [s, t, u, v], ∀ y ∈ [s, t, u, v], ∀ m n, x = some m → y = some n → m = n ∨ m = 1 ∨ n = 1)
    (hn : ¬ (s = none ∧ t = none ∧ u = none ∧ v = none)) :
    some (max (max (max (s.getD 1) (t.getD 1)) (u.getD 1)) (v.getD 1)) = bLen (bLen (bLen s t) u) v := by
  have step : ∀ s t : Option Nat, s ≠ some 0 → t ≠ some 0 → (∀ m n, s = some m → t = some n → m = n ∨ m = 1 ∨ n = 1) →
      max (s.getD 1) (t.getD 1) = (bLen s t).getD 1 ∧ (bLen s t = s ∨ bLen s t = t) := by
    intro s t hs ht hc
    cases s with
    | none =>
      cases t with
      | none => simp [bLen]
      | some n =>
        have : n ≠ 0 := fun e => ht (by rw [e])
        simp [bLen]; omega
    | some m =>
      have hm : m ≠ 0 := fun e => hs (by rw [e])
      cases t with
      | none => simp [bLen]; omega
      | some n =>
        have hn : n ≠ 0 := fun e => ht (by rw [e])
        have := hc m n rfl rfl
        simp only [bLen]
        split
        · rename_i e; subst e; simp; omega
        · simp; omega
  obtain ⟨e1, q1⟩ := step s t (h s (by simp)) (h t (by simp)) (hc s (by simp) t (by simp))
  have m1 : bLen s t ∈ [s, t, u, v] := by rcases q1 with e | e <;> rw [e] <;> simp
  obtain ⟨e2, q2⟩ := step (bLen s t) u (h _ m1) (h u (by simp)) (hc _ m1 u (by simp))
  have m2 : bLen (bLen s t) u ∈ [s, t, u, v] := by rcases q2 with e | e <;> rw [e] <;> first | exact m1 | simp
  obtain ⟨e3, q3⟩ := step (bLen (bLen s t) u) v (h _ m2) (h v (by simp)) (hc _ m2 v (by simp))
  rw [e1, e2, e3]
  cases hb : bLen (bLen (bLen s t) u) v with
  | some n => rfl
  | none =>
    rw [bLen_ne, bLen_ne, bLen_ne] at hb
    exact absurd ⟨hb.1.1.1, hb.1.1.2, hb.1.2, hb.2⟩ hn

/-- C74.  `make_matrix(a, b, c, d)` of four arrays with any sweeps, in any order of axes: the
result has the axes of all operands, then rows and columns; at *every* coordinate row and column
choose the operand, and its element at that coordinate is what is stored (converted to the dtype
of `a`).  Labels come from the operands. -/
theorem C74_elements (full : Arr β α → Arr β α) (cast : α → α) (ofIdx : Nat → β) (a b c d : Arr β α)
    (h : Mates [a, b, c, d]) (hc : LenOk [a, b, c, d]) :
    ∃ r pre, makeMatrix full cast ofIdx a b c d = .ok r ∧ r.WF ∧ Distinct r.dims ∧
      r.dims = pre ++ [⟨.matI, "i", [ofIdx 0, ofIdx 1], none, none⟩, ⟨.matJ, "j", [ofIdx 0, ofIdx 1], none, none⟩] ∧
      (∀ e ∈ pre, ∃ x ∈ [a, b, c, d], e ∈ x.dims) ∧
      (∀ e ∈ pre, e.key ∈ a.dims.map Dim.key → e ∈ a.dims) ∧
      (∀ k, k ∈ pre.map Dim.key ↔ ∃ x ∈ [a, b, c, d], k ∈ x.dims.map Dim.key) ∧
      r.axisLen ("i", .matI) = some 2 ∧ r.axisLen ("j", .matJ) = some 2 ∧
      (∀ k, k ≠ ("i", .matI) → k ≠ ("j", .matJ) →
        r.axisLen k = bLen (bLen (bLen (a.axisLen k) (b.axisLen k)) (c.axisLen k)) (d.axisLen k)) ∧
      ∀ x, r.InRange x →
        r.at_ x = cast (entry (x ("i", .matI)) (x ("j", .matJ)) (a.atB x) (b.atB x) (c.atB x) (d.atB x)) := by
  obtain ⟨L, hL⟩ : ∃ L, L = a.dims ++ [b.dims, c.dims, d.dims].flatten := ⟨_, rfl⟩
  have hL' : ([a, b, c, d].map Arr.dims).flatten = L := by rw [hL]; rfl
  have hl := h.nosub
  have hcx := h.real
  have hfree := h.free
  rw [hL'] at hl hcx hfree
  obtain ⟨U, hU⟩ : ∃ U, U = dimsUnionL [a.dims, b.dims, c.dims, d.dims] := ⟨_, rfl⟩
  obtain ⟨u1, u2, u3, u4⟩ := dimsUnionL_spec (a := a.dims) (t := [b.dims, c.dims, d.dims]) (hL ▸ hl) (h.distinct a (by simp))
  rw [← hU] at u1 u2 u3 u4
  rw [← hL] at u1
  have hmem : ∀ k, k ∈ U.map Dim.key ↔ ∃ x ∈ [a, b, c, d], k ∈ x.dims.map Dim.key := by
    intro k
    rw [u3]
    simp [or_assoc, or_and_right, exists_or]
  have hsub : ∀ x ∈ [a, b, c, d], x.dims ⊆ L := by
    intro x hx e he
    rw [← hL', List.mem_flatten]
    exact ⟨x.dims, List.mem_map_of_mem hx, he⟩
  have hop : ∀ x ∈ [a, b, c, d], ∃ y, changeShape full x U = .ok y ∧ y.nd.shape = U.map (fun u => len1 x u.key) ∧
      ∀ c : Coord, (∀ u ∈ U, len1 x u.key = 1 ∨ c u.key < len1 x u.key) →
        y.nd.get (Nd.bidx y.nd.shape (U.map fun u => c u.key)) = x.atB c := fun x hx =>
    operand full hl (hsub x hx) u1 (h.wf x hx) (h.distinct x hx) u2 (fun k hk => (hmem k).2 ⟨x, hx, hk⟩) hcx
  obtain ⟨a', ea, sa, ga⟩ := hop a (by simp)
  obtain ⟨b', eb, sb, gb⟩ := hop b (by simp)
  obtain ⟨c', ec, sc, gc⟩ := hop c (by simp)
  obtain ⟨d', ed, sd, gd⟩ := hop d (by simp)
  have hmax : maxShape a'.nd.shape b'.nd.shape c'.nd.shape d'.nd.shape = U.map fun u => max4 a b c d u.key := by
    rw [sa, sb, sc, sd, maxShape_map]
  have hle : ∀ x ∈ [a, b, c, d], ∀ k, len1 x k = max4 a b c d k ∨ len1 x k = 1 := by
    intro x hx k
    have ma := len_cond hc hx (y := a) (by simp) k
    have mb := len_cond hc hx (y := b) (by simp) k
    have mc := len_cond hc hx (y := c) (by simp) k
    have md := len_cond hc hx (y := d) (by simp) k
    have na := (len_cond hc (x := a) (by simp) hx k).2
    have nb := (len_cond hc (x := b) (by simp) hx k).2
    have nc := (len_cond hc (x := c) (by simp) hx k).2
    have nd := (len_cond hc (x := d) (by simp) hx k).2
    have hxm : len1 x k ≤ max4 a b c d k := by
      unfold max4
      simp only [List.mem_cons, List.not_mem_nil, or_false] at hx
      rcases hx with rfl | rfl | rfl | rfl <;> omega
    unfold max4 at hxm ⊢
    omega
  have hfit : ∀ x ∈ [a, b, c, d], fits (U.map fun u => len1 x u.key) (U.map fun u => max4 a b c d u.key) = true :=
    fun x hx => (fits_map U (len1 x) (max4 a b c d)).2 fun u _ => hle x hx u.key
  have hfits : (fits a'.nd.shape (U.map fun u => max4 a b c d u.key) && fits b'.nd.shape (U.map fun u => max4 a b c d u.key) &&
      fits c'.nd.shape (U.map fun u => max4 a b c d u.key) && fits d'.nd.shape (U.map fun u => max4 a b c d u.key)) = true := by
    rw [sa, sb, sc, sd, hfit a (by simp), hfit b (by simp), hfit c (by simp), hfit d (by simp)]; rfl
  obtain ⟨I, hI⟩ : ∃ I : Dim β, I = ⟨.matI, "i", [ofIdx 0, ofIdx 1], none, none⟩ := ⟨_, rfl⟩
  obtain ⟨J, hJ⟩ : ∃ J : Dim β, J = ⟨.matJ, "j", [ofIdx 0, ofIdx 1], none, none⟩ := ⟨_, rfl⟩
  have kI : I.key = ("i", .matI) := by rw [hI]; rfl
  have kJ : J.key = ("j", .matJ) := by rw [hJ]; rfl
  have kne : (("i", Cls.matI) : Key) ≠ ("j", .matJ) := by decide
  have hpre : ∀ e ∈ U, e.key ≠ ("i", .matI) ∧ e.key ≠ ("j", .matJ) := fun e he => hfree e (u1 he)
  have hdist : Distinct (U ++ [I, J]) := by
    unfold Distinct
    rw [List.map_append, List.nodup_append]
    refine ⟨u2, by simp [kI, kJ], ?_⟩
    intro x hx y hy
    obtain ⟨e, he, rfl⟩ := List.mem_map.1 hx
    simp only [List.map_cons, List.map_nil, kI, kJ, List.mem_cons, List.not_mem_nil, or_false] at hy
    rcases hy with rfl | rfl
    · exact (hpre e he).1
    · exact (hpre e he).2
  obtain ⟨g, hg⟩ : ∃ g : List Nat → α, g = fun idx =>
        match idx.getD (U.map fun u => max4 a b c d u.key).length 0, idx.getD ((U.map fun u => max4 a b c d u.key).length + 1) 0 with
        | 0, 0 => cast (a'.nd.get (Nd.bidx a'.nd.shape (idx.take (U.map fun u => max4 a b c d u.key).length)))
        | 0, _ => cast (b'.nd.get (Nd.bidx b'.nd.shape (idx.take (U.map fun u => max4 a b c d u.key).length)))
        | _, 0 => cast (c'.nd.get (Nd.bidx c'.nd.shape (idx.take (U.map fun u => max4 a b c d u.key).length)))
        | _, _ => cast (d'.nd.get (Nd.bidx d'.nd.shape (idx.take (U.map fun u => max4 a b c d u.key).length))) := ⟨_, rfl⟩
  obtain ⟨r, hr⟩ : ∃ r : Arr β α, r = ⟨U ++ [I, J], ⟨(U.map fun u => max4 a b c d u.key) ++ [2, 2], g⟩⟩ := ⟨_, rfl⟩
  have hrun : makeMatrix full cast ofIdx a b c d = .ok r := by
    unfold makeMatrix
    simp only [← hU, ea, eb, ec, ed, hmax, hfits, if_true]
    rw [hr, hg, hI, hJ]
    exact if_pos (by simp [Nd.ndim])
  let ln : Key → Nat := fun k => if k = ("i", .matI) then 2 else if k = ("j", .matJ) then 2 else max4 a b c d k
  have hsh : r.nd.shape = r.dims.map fun u => ln u.key := by
    rw [hr]
    simp only [List.map_append, List.map_cons, List.map_nil, ln, kI, kJ, if_true, Ne.symm kne, if_false]
    congr 1
    exact List.map_congr_left fun e he => by simp [(hpre e he).1, (hpre e he).2]
  have hwf : r.WF := by unfold WF; rw [hsh]; simp
  have hdims : r.dims = U ++ [I, J] := by rw [hr]
  refine ⟨r, U, hrun, hwf, by rw [hdims]; exact hdist, by rw [hdims, hI, hJ], ?_, ?_, hmem, ?_, ?_, ?_, ?_⟩
  · intro e he
    have := u1 he
    rw [← hL', List.mem_flatten] at this
    obtain ⟨l, hl, he⟩ := this
    obtain ⟨x, hx, rfl⟩ := List.mem_map.1 hl
    exact ⟨x, hx, he⟩
  · intro e he hk
    rcases u4 e he with q | q
    · exact q
    · exact absurd hk q.2
  · rw [axisLen_map ln hsh (by rw [hdims]; simp [kI])]; simp [ln]
  · rw [axisLen_map ln hsh (by rw [hdims]; simp [kJ])]; simp [ln]
  · intro k hi hj
    by_cases hk : k ∈ U.map Dim.key
    · rw [axisLen_map ln hsh (by rw [hdims, List.map_append]; exact List.mem_append_left _ hk)]
      simp only [ln, hi, hj, if_false]
      refine max_bLen _ _ _ _ ?_ ?_ ?_
      · intro x hx
        simp only [List.mem_cons, List.not_mem_nil, or_false] at hx
        rcases hx with rfl | rfl | rfl | rfl <;> exact hc.2 _ (by simp) k
      · intro x hx y hy m n
        simp only [List.mem_cons, List.not_mem_nil, or_false] at hx hy
        rcases hx with rfl | rfl | rfl | rfl <;> rcases hy with rfl | rfl | rfl | rfl <;>
          exact hc.1 _ (by simp) _ (by simp) k m n
      · rintro ⟨x1, x2, x3, x4⟩
        obtain ⟨x, hx, hkx⟩ := (hmem k).1 hk
        have := axisLen_ne_none (h.wf x hx) hkx
        simp only [List.mem_cons, List.not_mem_nil, or_false] at hx
        rcases hx with rfl | rfl | rfl | rfl <;> contradiction
    · have hno : ∀ x ∈ [a, b, c, d], x.axisLen k = none := fun x hx =>
        axisLen_none (h.wf x hx) fun q => hk ((hmem k).2 ⟨x, hx, q⟩)
      rw [hno a (by simp), hno b (by simp), hno c (by simp), hno d (by simp), axisLen_none hwf]
      · rfl
      · rw [hdims, List.map_append, List.mem_append, not_or]
        exact ⟨hk, by simp [kI, kJ, hi, hj]⟩
  · intro x hx
    have hv : ∀ e ∈ r.dims, x e.key < ln e.key := by
      unfold InRange at hx
      rw [hsh] at hx
      exact (valid_map r.dims ln x).1 hx
    have hvU : ∀ y ∈ [a, b, c, d], ∀ u ∈ U, len1 y u.key = 1 ∨ x u.key < len1 y u.key := by
      intro y hy u hu
      have h1 := hv u (by rw [hdims]; exact List.mem_append_left _ hu)
      simp only [ln, (hpre u hu).1, (hpre u hu).2, if_false] at h1
      have h2 := hle y hy u.key
      omega
    have hat : r.at_ x = g ((U.map fun u => x u.key) ++ [x ("i", .matI), x ("j", .matJ)]) := by
      unfold at_
      rw [hdims, List.map_append]
      simp only [List.map_cons, List.map_nil, kI, kJ]
      rw [hr]
    have hlen : (U.map fun u => max4 a b c d u.key).length = (U.map fun u => x u.key).length := by simp
    have t3 := take_getD (U.map fun u => x u.key) (x ("i", .matI)) (x ("j", .matJ))
    rw [hat, hg]
    simp only [hlen, t3.1, t3.2.1, t3.2.2]
    rw [ga x (hvU a (by simp)), gb x (hvU b (by simp)), gc x (hvU c (by simp)), gd x (hvU d (by simp))]
    unfold entry
    split <;> simp_all

/-- C74.  Arrays whose lengths do not fit are refused. -/
theorem C74_mismatch (full : Arr β α → Arr β α) (cast : α → α) (ofIdx : Nat → β) (a b c d : Arr β α)
    (h : Mates [a, b, c, d])
    (hbad : ∃ x ∈ [a, b, c, d], ∃ y ∈ [a, b, c, d], ∃ k s t, x.axisLen k = some s ∧ y.axisLen k = some t ∧
      s ≠ t ∧ s ≠ 1 ∧ t ≠ 1) :
    makeMatrix full cast ofIdx a b c d = .error .valueError := by
  obtain ⟨L, hL⟩ : ∃ L, L = a.dims ++ [b.dims, c.dims, d.dims].flatten := ⟨_, rfl⟩
  have hL' : ([a, b, c, d].map Arr.dims).flatten = L := by rw [hL]; rfl
  have hl := h.nosub
  have hcx := h.real
  rw [hL'] at hl hcx
  obtain ⟨U, hU⟩ : ∃ U, U = dimsUnionL [a.dims, b.dims, c.dims, d.dims] := ⟨_, rfl⟩
  obtain ⟨u1, u2, u3, u4⟩ := dimsUnionL_spec (a := a.dims) (t := [b.dims, c.dims, d.dims]) (hL ▸ hl) (h.distinct a (by simp))
  rw [← hU] at u1 u2 u3 u4
  rw [← hL] at u1
  have hmem : ∀ k, k ∈ U.map Dim.key ↔ ∃ x ∈ [a, b, c, d], k ∈ x.dims.map Dim.key := by
    intro k
    rw [u3]
    simp [or_assoc, or_and_right, exists_or]
  have hsub : ∀ x ∈ [a, b, c, d], x.dims ⊆ L := by
    intro x hx e he
    rw [← hL', List.mem_flatten]
    exact ⟨x.dims, List.mem_map_of_mem hx, he⟩
  have hop : ∀ x ∈ [a, b, c, d], ∃ y, changeShape full x U = .ok y ∧ y.nd.shape = U.map (fun u => len1 x u.key) := fun x hx => by
    obtain ⟨y, e, s, -⟩ := operand full hl (hsub x hx) u1 (h.wf x hx) (h.distinct x hx) u2
      (fun k hk => (hmem k).2 ⟨x, hx, hk⟩) hcx
    exact ⟨y, e, s⟩
  obtain ⟨a', ea, sa⟩ := hop a (by simp)
  obtain ⟨b', eb, sb⟩ := hop b (by simp)
  obtain ⟨c', ec, sc⟩ := hop c (by simp)
  obtain ⟨d', ed, sd⟩ := hop d (by simp)
  have hmax : maxShape a'.nd.shape b'.nd.shape c'.nd.shape d'.nd.shape = U.map fun u => max4 a b c d u.key := by
    rw [sa, sb, sc, sd, maxShape_map]
  have hfits : (fits a'.nd.shape (U.map fun u => max4 a b c d u.key) && fits b'.nd.shape (U.map fun u => max4 a b c d u.key) &&
      fits c'.nd.shape (U.map fun u => max4 a b c d u.key) && fits d'.nd.shape (U.map fun u => max4 a b c d u.key)) ≠ true := by
    rw [sa, sb, sc, sd]
    simp only [ne_eq, Bool.and_eq_true]
    rintro ⟨⟨⟨f1, f2⟩, f3⟩, f4⟩
    obtain ⟨x, hx, y, hy, k, s, t, hs, ht, n1, n2, n3⟩ := hbad
    obtain ⟨u, hu, rfl⟩ := List.mem_map.1 ((hmem k).2 ⟨x, hx, axisLen_isSome (h.wf x hx) hs⟩)
    have g1 := (fits_map U (len1 a) (max4 a b c d)).1 f1 u hu
    have g2 := (fits_map U (len1 b) (max4 a b c d)).1 f2 u hu
    have g3 := (fits_map U (len1 c) (max4 a b c d)).1 f3 u hu
    have g4 := (fits_map U (len1 d) (max4 a b c d)).1 f4 u hu
    have hall : ∀ z ∈ [a, b, c, d], len1 z u.key = max4 a b c d u.key ∨ len1 z u.key = 1 := by
      intro z hz
      simp only [List.mem_cons, List.not_mem_nil, or_false] at hz
      rcases hz with rfl | rfl | rfl | rfl <;> assumption
    have q1 := hall x hx
    have q2 := hall y hy
    rw [len1_of hs] at q1
    rw [len1_of ht] at q2
    omega
  unfold makeMatrix
  simp only [← hU, ea, eb, ec, ed, hmax]
  rw [if_neg hfits]

theorem sweeps_free {l : List (Arr β α)} (hwf : ∀ x ∈ l, x.WF) (hd : ∀ x ∈ l, Distinct x.dims)
    (hl : NoSub (l.map Arr.dims).flatten)
    (ho : ∀ e ∈ (l.map Arr.dims).flatten, e.isa .dimSweep = true ∨ e.isa .dimRep = true) : Mates l := by
  have prio : ∀ c : Cls, (c.isSub .dimSweep = true ∨ c.isSub .dimRep = true) →
      c ≠ .matI ∧ c ≠ .matJ ∧
      (c.isSub .complexDeriv || c.isSub .complexIndep || c.isSub .complexDiag) = false := by
    intro c; cases c <;> decide +kernel
  refine ⟨hwf, hd, hl, ?_, ?_⟩
  · simp only [Dim.hasComplex, List.any_eq_false, Dim.isa]
    intro e he
    simpa using (prio e.cls (ho e (List.mem_reverse.1 he))).2.2
  · intro e he
    have := prio e.cls (ho e he)
    exact ⟨fun q => this.1 (congrArg Prod.snd q), fun q => this.2.1 (congrArg Prod.snd q)⟩

theorem atB_congr {x : Arr β α} (hwf : x.WF) (hd : Distinct x.dims) {c c' : Coord}
    (h : ∀ k s, x.axisLen k = some s → s ≠ 1 → c k = c' k) : x.atB c = x.atB c' := by
  have hs := shape_map hwf hd
  rw [atB_map (len1 x) hs, atB_map (len1 x) hs]
  congr 1
  refine List.map_congr_left fun u hu => ?_
  obtain ⟨s, hk⟩ := Option.ne_none_iff_exists'.1 (axisLen_ne_none hwf (List.mem_map_of_mem (f := Dim.key) hu))
  rw [len1_of hk]
  split
  · rfl
  · rename_i e; exact h _ s hk e

/-- C74.  What is put together can be used as matrices: for sweeps and repetitions, and numbers
which the dtype of `a` can hold, the matrix at every coordinate of the stack is made of the four
elements there, and `det` of the result is `a * d - b * c`. -/
theorem C74_det [CommRing α] (full : Arr β α → Arr β α) (cast : α → α) (ofIdx : Nat → β) (a b c d : Arr β α)
    (hwf : ∀ x ∈ [a, b, c, d], x.WF) (hd : ∀ x ∈ [a, b, c, d], Distinct x.dims)
    (hl : NoSub ([a, b, c, d].map Arr.dims).flatten)
    (ho : ∀ e ∈ ([a, b, c, d].map Arr.dims).flatten, e.isa .dimSweep = true ∨ e.isa .dimRep = true)
    (hc : LenOk [a, b, c, d]) (hcast : ∀ x ∈ [a, b, c, d], ∀ y, cast (x.atB y) = x.atB y) :
    ∃ r i j pre D, makeMatrix full cast ofIdx a b c d = .ok r ∧
      r.Last ("i", .matI) ("j", .matJ) 2 pre i j ∧ det r = .ok D ∧ D.dims = pre ∧
      ∀ x, r.InStack ("i", .matI) ("j", .matJ) x →
        r.mat ("i", .matI) ("j", .matJ) x 2 2 = !![a.atB x, b.atB x; c.atB x, d.atB x] ∧
        D.atB x = a.atB x * d.atB x - b.atB x * c.atB x := by
  have hm' := sweeps_free hwf hd hl ho
  obtain ⟨r, pre, hr, rwf, rd, rdims, hsrc, -, -, l1, l2, l3, hat⟩ := C74_elements full cast ofIdx a b c d hm' hc
  have hp : ∀ e ∈ pre, e ∈ ([a, b, c, d].map Arr.dims).flatten := by
    intro e he
    obtain ⟨x, hx, hex⟩ := hsrc e he
    rw [List.mem_flatten]
    exact ⟨x.dims, List.mem_map_of_mem hx, hex⟩
  have hst : r.IsStack ("i", .matI) ("j", .matJ) 2 := by
    refine ⟨rwf, rd, l1, l2, rfl, rfl, ?_⟩
    intro e he h1 h2
    rw [rdims, List.mem_append] at he
    rcases he with he | he
    · exact ho e (hp e he)
    · simp only [List.mem_cons, List.not_mem_nil, or_false] at he
      rcases he with rfl | rfl
      · exact absurd rfl h1
      · exact absurd rfl h2
  have hlast : r.Last ("i", .matI) ("j", .matJ) 2 pre ⟨.matI, "i", [ofIdx 0, ofIdx 1], none, none⟩
      ⟨.matJ, "j", [ofIdx 0, ofIdx 1], none, none⟩ := ⟨hst, rdims, rfl, rfl⟩
  obtain ⟨D, hD, -, dd, -, hdet⟩ := C59_det r hlast
  refine ⟨r, _, _, pre, D, hr, hlast, hD, dd, ?_⟩
  intro x hx
  have hmat : r.mat ("i", .matI) ("j", .matJ) x 2 2 = !![a.atB x, b.atB x; c.atB x, d.atB x] := by
    have rs := shape_map rwf rd
    have key : ∀ m n, m < 2 → n < 2 → r.atB (upd x ("i", .matI) ("j", .matJ) m n) =
        entry m n (a.atB x) (b.atB x) (c.atB x) (d.atB x) := by
      intro m n hm hn
      obtain ⟨y, hy⟩ : ∃ y : Coord, y = fun k => if len1 r k = 1 then 0 else upd x ("i", .matI) ("j", .matJ) m n k :=
        ⟨_, rfl⟩
      have e1 : r.atB (upd x ("i", .matI) ("j", .matJ) m n) = r.at_ y := by
        rw [atB_map (len1 r) rs, at_, hy]
      have kne : (("j", Cls.matJ) : Key) ≠ ("i", .matI) := by decide
      have yi : y ("i", .matI) = m := by rw [hy]; simp [len1_of l1, upd]
      have yj : y ("j", .matJ) = n := by rw [hy]; simp [len1_of l2, upd]
      have hin : r.InRange y := by
        unfold InRange
        rw [rs]
        refine (valid_map r.dims (len1 r) y).2 fun u hu => ?_
        by_cases h1 : u.key = ("i", .matI)
        · rw [h1, yi, len1_of l1]; exact hm
        · by_cases h2 : u.key = ("j", .matJ)
          · rw [h2, yj, len1_of l2]; exact hn
          · obtain ⟨s, hk⟩ := Option.ne_none_iff_exists'.1 (axisLen_ne_none rwf (List.mem_map_of_mem (f := Dim.key) hu))
            have := hx u.key s h1 h2 hk
            rw [hy]
            simp only [len1_of hk, upd, h1, h2, if_false]
            split <;> omega
      have hop : ∀ z ∈ [a, b, c, d], z.atB y = z.atB x := by
        intro z hz
        refine atB_congr (hwf z hz) (hd z hz) ?_
        intro k s hk hs
        have hzk := axisLen_isSome (hwf z hz) hk
        obtain ⟨e, he, rfl⟩ := List.mem_map.1 hzk
        have hf := hm'.free e (by rw [List.mem_flatten]; exact ⟨z.dims, List.mem_map_of_mem hz, he⟩)
        have hr1 : len1 r e.key ≠ 1 := by
          unfold len1
          rw [l3 e.key hf.1 hf.2]
          rw [← max_bLen (a.axisLen e.key) (b.axisLen e.key) (c.axisLen e.key) (d.axisLen e.key)]
          · show max4 a b c d e.key ≠ 1
            have hz1 : len1 z e.key = s := len1_of hk
            have hz0 : s ≠ 0 := fun q => hc.2 z hz e.key (by rw [hk, q])
            unfold max4
            simp only [List.mem_cons, List.not_mem_nil, or_false] at hz
            rcases hz with rfl | rfl | rfl | rfl <;> omega
          · intro x hx
            simp only [List.mem_cons, List.not_mem_nil, or_false] at hx
            rcases hx with rfl | rfl | rfl | rfl <;> exact hc.2 _ (by simp) _
          · intro x hx y hy m n
            simp only [List.mem_cons, List.not_mem_nil, or_false] at hx hy
            rcases hx with rfl | rfl | rfl | rfl <;> rcases hy with rfl | rfl | rfl | rfl <;>
              exact hc.1 _ (by simp) _ (by simp) _ m n
          · rintro ⟨x1, x2, x3, x4⟩
            simp only [List.mem_cons, List.not_mem_nil, or_false] at hz
            rcases hz with rfl | rfl | rfl | rfl <;> simp_all
        rw [hy]
        simp only [hr1, if_false, upd, hf.1, hf.2]
      rw [e1, hat y hin, yi, yj, hop a (by simp), hop b (by simp), hop c (by simp), hop d (by simp)]
      unfold entry
      split <;> split <;> exact hcast _ (by simp) x
    ext m n
    refine (key m.1 n.1 m.2 n.2).trans ?_
    fin_cases m <;> fin_cases n <;> rfl
  refine ⟨hmat, ?_⟩
  rw [hdet x hx, hmat, Matrix.det_fin_two_of]

end HF.Arr
