import Verif.Networks.Chain
import Verif.Networks.StackProps
import Verif.HFArray.IndexLemmas
import Verif.HFArray.ReorderProps
/-
Helper lemmas: arrays given as functions of the coordinate.
-/
namespace HF.Networks

open HF.Arr

variable {β K : Type}

/-! ### Arrays over given axes -/

/-- The coordinate lies inside of axes of these lengths. -/
def Inside (P : List (Dim β)) (len : Key → Nat) (c : Coord) : Prop := ∀ d ∈ P, len d.key = 1 ∨ c d.key < len d.key

/-- The array has the axes `P` with the lengths `len` and the elements `f`. -/
structure Over (x : Arr β K) (P : List (Dim β)) (len : Key → Nat) (f : Coord → K) : Prop where
  dims : x.dims = P
  shape : x.nd.shape = P.map fun u => len u.key
  val : ∀ c, Inside P len c → x.atB c = f c

/-- Axes in the order in which operators leave them. -/
structure Good (P : List (Dim β)) : Prop where
  distinct : Distinct P
  nosub : NoSub P
  sorted : P.Pairwise fun x y => x.sortprio ≤ y.sortprio
  real : Dim.hasComplex P = false

theorem Over.wf {x : Arr β K} {P : List (Dim β)} {len : Key → Nat} {f : Coord → K} (h : Over x P len f) : x.WF := by
  unfold WF; rw [h.dims, h.shape]; simp

theorem Over.shape' {x : Arr β K} {P : List (Dim β)} {len : Key → Nat} {f : Coord → K} (h : Over x P len f) :
    x.nd.shape = x.dims.map fun u => len u.key := by rw [h.shape, h.dims]

theorem Over.len {x : Arr β K} {P : List (Dim β)} {len : Key → Nat} {f : Coord → K} (h : Over x P len f) {k : Key}
    (hk : k ∈ P.map Dim.key) : x.axisLen k = some (len k) :=
  axisLen_map len h.shape' (by rw [h.dims]; exact hk)

theorem Over.none {x : Arr β K} {P : List (Dim β)} {len : Key → Nat} {f : Coord → K} (h : Over x P len f) {k : Key}
    (hk : k ∉ P.map Dim.key) : x.axisLen k = none :=
  axisLen_none h.wf (by rw [h.dims]; exact hk)

theorem Over.congr {x : Arr β K} {P : List (Dim β)} {len len' : Key → Nat} {f f' : Coord → K} (h : Over x P len f)
    (hl : ∀ d ∈ P, len d.key = len' d.key) (hf : ∀ c, Inside P len c → f c = f' c) : Over x P len' f' where
  dims := h.dims
  shape := h.shape.trans (List.map_congr_left hl)
  val := by
    intro c hc
    have : Inside P len c := fun d hd => by rw [hl d hd]; exact hc d hd
    rw [h.val c this, hf c this]

/-- The union with fewer axes changes nothing. -/
theorem union_sub {P Q : List (Dim β)} (hP : Good P) (hQ : Q ⊆ P) : dimsUnion P Q = P := by
  unfold dimsUnion
  rw [fold_contained hP.nosub Q P hQ (fun _ h => h) fun d hd => List.mem_map_of_mem (hQ hd)]
  exact sort_sorted hP.sorted

theorem nosub_sub {P Q : List (Dim β)} (hP : NoSub P) (hQ : Q ⊆ P) : NoSub (P ++ Q) :=
  noSub_keys hP fun d hd => (List.mem_append.1 hd).elim (fun h => List.mem_map_of_mem h)
    fun h => List.mem_map_of_mem (hQ h)

theorem complex_sub {P Q : List (Dim β)} (hP : Dim.hasComplex P = false) (hQ : Q ⊆ P) :
    Dim.hasComplex (P ++ Q) = false := by
  cases h : Dim.hasComplex (P ++ Q) with
  | false => rfl
  | true =>
    rw [hasComplex_mono (U := P ++ Q) (l := P) (by intro d hd; exact (List.mem_append.1 hd).elim id fun h => hQ h) h] at hP
    cases hP

/-- Operators between arrays over `P` and over some of the axes of `P`. -/
theorem Over.op [Field K] (full : Arr β K → Arr β K) (f : K → K → K) {x y : Arr β K} {P Q : List (Dim β)}
    {l1 l2 L : Key → Nat} {g1 g2 : Coord → K} (hP : Good P) (hQ : Q ⊆ P) (dQ : Distinct Q)
    (hx : Over x P l1 g1) (hy : Over y Q l2 g2)
    (hc : ∀ d ∈ Q, l1 d.key = l2 d.key ∨ l1 d.key = 1 ∨ l2 d.key = 1)
    (hL : ∀ d ∈ P, L d.key = if d.key ∈ Q.map Dim.key then lenB (l1 d.key) (l2 d.key) else l1 d.key) :
    ∃ z, arith full f x y = .ok z ∧ Over z P L fun c => f (g1 c) (g2 c) := by
  have dx : Distinct x.dims := by rw [hx.dims]; exact hP.distinct
  have dy : Distinct y.dims := by rw [hy.dims]; exact dQ
  have hcomp : Compatible x y := by
    intro k s t h1 h2
    have hk : k ∈ Q.map Dim.key := by
      by_contra hk; rw [hy.none hk] at h2; cases h2
    have hk' : k ∈ P.map Dim.key := by
      obtain ⟨d, hd, rfl⟩ := List.mem_map.1 hk; exact List.mem_map_of_mem (hQ hd)
    rw [hx.len hk'] at h1
    rw [hy.len hk] at h2
    obtain rfl := Option.some.inj h1
    obtain rfl := Option.some.inj h2
    obtain ⟨d, hd, rfl⟩ := List.mem_map.1 hk
    exact hc d hd
  obtain ⟨r, h1, hwf, hdist, hd, hk, hlen, hat⟩ := C06_binop_aligns_by_name full f x y hx.wf hy.wf dx dy
    (by rw [hx.dims, hy.dims]; exact nosub_sub hP.nosub hQ) hcomp
    (by rw [hx.dims, hy.dims, complex_sub hP.real hQ]; intro h; cases h)
  rw [hx.dims, hy.dims, union_sub hP hQ] at hd
  have hlen' : ∀ d ∈ P, r.axisLen d.key = some (L d.key) := by
    intro d hd'
    rw [hlen, hx.len (List.mem_map_of_mem hd'), hL d hd']
    by_cases hq : d.key ∈ Q.map Dim.key
    · rw [hy.len hq, if_pos hq]
      simp only [bLen, lenB]
      split <;> simp_all
    · rw [hy.none hq, if_neg hq]; rfl
  have hs : r.nd.shape = P.map fun u => L u.key := by
    rw [shape_map hwf hdist, hd]
    exact List.map_congr_left fun d hd' => len1_of (hlen' d hd')
  refine ⟨r, by simp [arith, h1], hd, hs, ?_⟩
  intro c hin
  obtain ⟨c', hc'⟩ : ∃ c' : Coord, c' = fun q => if L q = 1 then 0 else c q := ⟨_, rfl⟩
  have hran : r.InRange c' := by
    unfold InRange
    rw [hs, hd]
    refine (valid_map P L c').2 ?_
    intro u hu
    have := hin u hu
    rw [hc']
    show (if L u.key = 1 then 0 else c u.key) < L u.key
    split <;> omega
  have er : r.atB c = r.atB c' := atB_congr hwf hdist fun q s hq hs1 => by
    have hk : q ∈ r.dims.map Dim.key := axisLen_isSome hwf hq
    rw [hd] at hk
    obtain ⟨d, hd', rfl⟩ := List.mem_map.1 hk
    rw [hlen' d hd'] at hq
    obtain rfl := Option.some.inj hq
    rw [hc']
    simp only [hs1, if_false]
  have hL1 : ∀ d ∈ P, l1 d.key ≠ 1 → L d.key ≠ 1 := by
    intro d hd' h
    rw [hL d hd']
    unfold lenB
    split
    · simp [h]
    · exact h
  have hL2 : ∀ d ∈ Q, l2 d.key ≠ 1 → L d.key ≠ 1 := by
    intro d hd' h
    rw [hL d (hQ hd'), if_pos (List.mem_map_of_mem hd')]
    have := hc d hd'
    unfold lenB
    split <;> omega
  have e1 : x.atB c = x.atB c' := atB_congr hx.wf dx fun q s hq hs1 => by
    have hk : q ∈ x.dims.map Dim.key := axisLen_isSome hx.wf hq
    rw [hx.dims] at hk
    obtain ⟨d, hd', rfl⟩ := List.mem_map.1 hk
    rw [hx.len hk] at hq
    obtain rfl := Option.some.inj hq
    rw [hc']
    simp only [hL1 d hd' hs1, if_false]
  have e2 : y.atB c = y.atB c' := atB_congr hy.wf dy fun q s hq hs1 => by
    have hk : q ∈ y.dims.map Dim.key := axisLen_isSome hy.wf hq
    rw [hy.dims] at hk
    obtain ⟨d, hd', rfl⟩ := List.mem_map.1 hk
    rw [hy.len hk] at hq
    obtain rfl := Option.some.inj hq
    rw [hc']
    simp only [hL2 d hd' hs1, if_false]
  have i1 : Inside P l1 c := by
    intro d hd'
    have h1 := hin d hd'
    rw [hL d hd'] at h1
    by_cases hq : d.key ∈ Q.map Dim.key
    · rw [if_pos hq] at h1
      obtain ⟨e, he, hke⟩ := List.mem_map.1 hq
      have h2 := hc e he
      rw [hke] at h2
      unfold lenB at h1
      split at h1 <;> omega
    · rw [if_neg hq] at h1; exact h1
  have i2 : Inside Q l2 c := by
    intro d hd'
    have h1 := hin d (hQ hd')
    rw [hL d (hQ hd'), if_pos (List.mem_map_of_mem hd')] at h1
    have h2 := hc d hd'
    unfold lenB at h1
    split at h1 <;> omega
  rw [er, atB_eq_at hwf hran, hat c' hran, ← e1, ← e2, hx.val c i1, hy.val c i2]

/-! ### Elements by position -/

theorem index_dims (fmt : β → String) (pre : List (Dim β)) (i j : Dim β) (r c : Int) :
    indexDims fmt (List.replicate pre.length (.slice Slice.full) ++ [.int r, .int c]) (pre ++ [i, j]) = .ok pre := by
  induction pre with
  | nil => simp [indexDims]
  | cons d t ih => simp [List.replicate_succ, indexDims, dimSlice, ih]

theorem resolve_elem (sh : List Nat) (r c : Nat) (hr : r < 2) (hc : c < 2) :
    Nd.resolve (List.replicate sh.length (.slice Slice.full) ++ [.int r, .int c]) (sh ++ [2, 2]) =
      .ok (sh.map (fun n => Sel.many (List.range n)) ++ [.one r, .one c]) := by
  induction sh with
  | nil =>
    have h1 : Nd.normAxis 2 (r : Int) = some r := by unfold Nd.normAxis; simp; omega
    have h2 : Nd.normAxis 2 (c : Int) = some c := by unfold Nd.normAxis; simp; omega
    simp [Nd.resolve, h1, h2]
  | cons n t ih => simp [List.replicate_succ, Nd.resolve, ih, Slice.indices_full]

theorem sel_shape (sh : List Nat) (r c : Nat) :
    Nd.selShape (sh.map (fun n => Sel.many (List.range n)) ++ [.one r, .one c]) = sh := by
  induction sh with
  | nil => rfl
  | cons n t ih => simp [Nd.selShape, ih]

theorem sel_idx (sh idx : List Nat) (r c : Nat) (h : Nd.Valid sh idx) :
    Nd.selIdx (sh.map (fun n => Sel.many (List.range n)) ++ [.one r, .one c]) idx = idx ++ [r, c] := by
  induction sh generalizing idx with
  | nil =>
    cases idx with
    | nil => rfl
    | cons _ _ => exact absurd h (by simp [Nd.Valid])
  | cons n t ih =>
    cases idx with
    | nil => exact absurd h (by simp [Nd.Valid])
    | cons k ks =>
      simp only [Nd.Valid] at h
      have hk : (List.range n).getD k 0 = k := by
        rw [List.getD_eq_getElem?_getD, List.getElem?_range h.1]; rfl
      simp only [List.map_cons, List.cons_append, Nd.selIdx, List.headD_cons, List.tail_cons, hk, ih ks h.2]

theorem expand (n : Nat) (r c : Int) :
    expandEllipsis (n + 2) [.ellipsis, .int r, .int c] =
      .ok (List.replicate n (.slice Slice.full) ++ [.int r, .int c]) := by
  simp [expandEllipsis]

/-! ### Arrays of matrices -/

/-- An array of two by two matrices over `pre`. -/
structure Mats (x : Arr β K) (pre : List (Dim β)) (i j : Dim β) (len : Key → Nat) (F : Coord → Nat → Nat → K) :
    Prop where
  dims : x.dims = pre ++ [i, j]
  shape : x.nd.shape = (pre.map fun u => len u.key) ++ [2, 2]
  val : ∀ c, Inside pre len c → ∀ m n, m < 2 → n < 2 →
    x.nd.get ((pre.map fun u => if len u.key = 1 then 0 else c u.key) ++ [m, n]) = F c m n

theorem inside_valid {pre : List (Dim β)} {len : Key → Nat} {c : Coord} (h : Inside pre len c) :
    Nd.Valid (pre.map fun u => len u.key) (pre.map fun u => if len u.key = 1 then 0 else c u.key) := by
  refine (valid_map pre len (fun k => if len k = 1 then 0 else c k)).2 ?_
  intro u hu
  have := h u hu
  show (if len u.key = 1 then 0 else c u.key) < len u.key
  split <;> omega

/-- The element of every matrix. -/
theorem Mats.elem [Field K] (fmt : β → String) {x : Arr β K} {pre : List (Dim β)} {i j : Dim β} {len : Key → Nat}
    {F : Coord → Nat → Nat → K} (h : Mats x pre i j len F) (r c : Nat) (hr : r < 2) (hc : c < 2) :
    ∃ y, elem fmt x r c = .ok y ∧ Over y pre len fun q => F q r c := by
  refine ⟨⟨pre, ⟨pre.map fun u => len u.key, fun idx => x.nd.get (Nd.selIdx
    ((pre.map fun u => len u.key).map (fun n => Sel.many (List.range n)) ++ [.one r, .one c]) idx)⟩⟩, ?_, rfl, rfl, ?_⟩
  · have hn : x.nd.ndim = pre.length + 2 := by simp [Nd.ndim, h.shape]
    have hres := resolve_elem (pre.map fun u => len u.key) r c hr hc
    rw [List.length_map] at hres
    unfold Networks.elem getitem
    rw [if_neg (by simp), if_neg (by simp), hn, expand]
    simp only [List.length_append, List.length_replicate, List.length_cons, List.length_nil, Nat.zero_add,
      Nat.reduceAdd, Nat.sub_self, List.replicate_zero, List.append_nil]
    rw [h.dims, index_dims]
    simp only [Nd.getBasic, h.shape, hres, ofNd, sel_shape, List.mem_cons, true_or, not_true_eq_false, and_false,
      if_false]
    simp [mk?, Nd.ndim]
  · intro q hq
    rw [atB_map len (x := ⟨pre, _⟩) rfl]
    show x.nd.get _ = _
    rw [sel_idx _ _ _ _ (inside_valid hq), h.val q hq r c hr hc]

theorem bidx_same {pre : List (Dim β)} {len : Key → Nat} (c : Coord) :
    Nd.bidx (pre.map fun u => len u.key) (pre.map fun u => if len u.key = 1 then 0 else c u.key) =
      pre.map fun u => if len u.key = 1 then 0 else c u.key := by
  rw [bidx_map pre len (fun k => if len k = 1 then 0 else c k)]
  exact List.map_congr_left fun u _ => by split <;> rfl

theorem take_drop_two (l : List Nat) (m n : Nat) (k : Nat) (h : l.length = k) :
    (l ++ [m, n]).take k = l ∧ (l ++ [m, n]).drop k = [m, n] := by
  subst h; simp

/-- Assignment to an element of every matrix. -/
theorem Mats.set [Field K] {x y : Arr β K} {pre : List (Dim β)} {i j : Dim β} {len : Key → Nat}
    {F : Coord → Nat → Nat → K} {g : Coord → K} (h : Mats x pre i j len F) (r c : Nat) (hy : Over y pre len g) :
    ∃ z, setElem x r c y = .ok z ∧ Mats z pre i j len fun q m n => if m = r ∧ n = c then g q else F q m n := by
  have hn : x.nd.shape.length - 2 = pre.length := by simp [h.shape]
  have ht : x.nd.shape.take pre.length = pre.map fun u => len u.key := by
    rw [h.shape]; exact (take_drop_two _ 2 2 _ (by simp)).1
  refine ⟨⟨x.dims, ⟨x.nd.shape, fun idx => if idx.drop pre.length = [r, c] then
    y.nd.get (Nd.bidx y.nd.shape (idx.take pre.length)) else x.nd.get idx⟩⟩, ?_, h.dims, h.shape, ?_⟩
  · unfold setElem
    simp only [hn, ht, hy.shape, bshape_self, if_true]
  · intro q hq m n hm hn'
    show (if _ then _ else _) = _
    rw [(take_drop_two _ m n _ (by simp)).1, (take_drop_two _ m n _ (by simp)).2]
    simp only [List.cons.injEq, and_true]
    by_cases e : m = r ∧ n = c
    · rw [if_pos e, if_pos e, hy.shape, bidx_same, ← hy.val q hq, atB_map len hy.shape', hy.dims]
    · rw [if_neg e, if_neg e, h.val q hq m n hm hn']

/-- The matrices as an array over all axes. -/
theorem Mats.over [Field K] {x : Arr β K} {pre : List (Dim β)} {i j : Dim β} {len : Key → Nat}
    {F : Coord → Nat → Nat → K} (h : Mats x pre i j len F) (hi : i.key = kI) (hj : j.key = kJ) (hp : ∀ d ∈ pre, d.key ≠ kI ∧ d.key ≠ kJ) :
    Over x (pre ++ [i, j]) (fun k => if k = kI ∨ k = kJ then 2 else len k) fun c => F c (c kI) (c kJ) := by
  have hs : x.nd.shape = (pre ++ [i, j]).map fun u => if u.key = kI ∨ u.key = kJ then 2 else len u.key := by
    rw [h.shape, List.map_append]
    congr 1
    · exact List.map_congr_left fun d hd => by simp [(hp d hd).1, (hp d hd).2]
    · simp [hi, hj]
  refine ⟨h.dims, hs, ?_⟩
  intro c hc
  rw [atB_map (fun k => if k = kI ∨ k = kJ then 2 else len k) (by rw [h.dims]; exact hs), h.dims, List.map_append]
  have h1 : (pre.map fun u => if (if u.key = kI ∨ u.key = kJ then 2 else len u.key) = 1 then 0 else c u.key) =
      pre.map fun u => if len u.key = 1 then 0 else c u.key :=
    List.map_congr_left fun d hd => by simp [(hp d hd).1, (hp d hd).2]
  have h2 : ([i, j].map fun u => if (if u.key = kI ∨ u.key = kJ then 2 else len u.key) = 1 then 0 else c u.key) =
      [c kI, c kJ] := by simp [hi, hj]
  rw [h1, h2]
  refine h.val c (fun d hd => ?_) _ _ ?_ ?_
  · have := hc d (by simp [hd])
    simpa [(hp d hd).1, (hp d hd).2] using this
  · have := hc i (by simp)
    simpa [hi] using this
  · have := hc j (by simp)
    simpa [hj] using this

theorem Over.mats [Field K] {x : Arr β K} {pre : List (Dim β)} {i j : Dim β} {len : Key → Nat} {g : Coord → K}
    (h : Over x (pre ++ [i, j]) (fun k => if k = kI ∨ k = kJ then 2 else len k) g)
    (hi : i.key = kI) (hj : j.key = kJ) (hp : ∀ d ∈ pre, d.key ≠ kI ∧ d.key ≠ kJ) :
    Mats x pre i j len fun c m n => g (upd c kI kJ m n) := by
  have hne : kJ ≠ kI := by decide
  refine ⟨h.dims, ?_, ?_⟩
  · rw [h.shape, List.map_append]
    congr 1
    · exact List.map_congr_left fun d hd => by simp [(hp d hd).1, (hp d hd).2]
    · simp [hi, hj]
  · intro c hc m n hm hn
    rw [← h.val (upd c kI kJ m n) (by
      intro d hd
      rcases List.mem_append.1 hd with hd | hd
      · have := hc d hd
        simpa [upd, (hp d hd).1, (hp d hd).2] using this
      · simp only [List.mem_cons, List.not_mem_nil, or_false] at hd
        rcases hd with rfl | rfl
        · simp [upd, hi, hm]
        · simp [upd, hj, hn, hne])]
    rw [atB_map (fun k => if k = kI ∨ k = kJ then 2 else len k) h.shape', h.dims, List.map_append]
    congr 1
    congr 1
    · exact List.map_congr_left fun d hd => by simp [upd, (hp d hd).1, (hp d hd).2]
    · simp [upd, hi, hj, hne]

theorem Mats.congr {x : Arr β K} {pre : List (Dim β)} {i j : Dim β} {len len' : Key → Nat}
    {F F' : Coord → Nat → Nat → K} (h : Mats x pre i j len F) (hl : ∀ d ∈ pre, len d.key = len' d.key)
    (hF : ∀ c, Inside pre len c → ∀ m n, m < 2 → n < 2 → F c m n = F' c m n) : Mats x pre i j len' F' where
  dims := h.dims
  shape := by rw [h.shape, List.map_congr_left hl]
  val := by
    intro c hc m n hm hn
    have hc' : Inside pre len c := fun d hd => by rw [hl d hd]; exact hc d hd
    rw [← hF c hc' m n hm hn, ← h.val c hc' m n hm hn]
    congr 2
    exact List.map_congr_left fun d hd => by rw [hl d hd]

/-- The determinants. -/
theorem Mats.det [Field K] {x : Arr β K} {pre : List (Dim β)} {i j : Dim β} {len : Key → Nat}
    {F : Coord → Nat → Nat → K} (h : Mats x pre i j len F) :
    ∃ y, Arr.det x = .ok y ∧ Over y pre len fun c => F c 0 0 * F c 1 1 - F c 0 1 * F c 1 0 := by
  have hdet : x.nd.det = .ok ⟨pre.map fun u => len u.key, fun o => (Nd.matOf x.nd o 2 2).det⟩ := by
    unfold Nd.det
    rw [h.shape, split2_append]
    simp
  have htake : x.dims.take (x.dims.length - 2) = pre := by
    rw [h.dims]; simp
  refine ⟨⟨pre, ⟨pre.map fun u => len u.key, fun o => (Nd.matOf x.nd o 2 2).det⟩⟩, ?_, rfl, rfl, ?_⟩
  · simp only [Arr.det, hdet, htake]
    rw [mkL_ok (by simp)]
  · intro c hc
    rw [atB_map len (x := ⟨pre, _⟩) rfl]
    show (Nd.matOf x.nd _ 2 2).det = _
    rw [Matrix.det_fin_two]
    simp only [Nd.matOf]
    rw [← h.val c hc 0 0 (by omega) (by omega), ← h.val c hc 0 1 (by omega) (by omega),
      ← h.val c hc 1 0 (by omega) (by omega), ← h.val c hc 1 1 (by omega) (by omega)]
    rfl

/-- The array of zeros. -/
theorem Mats.zeros [Field K] {x y : Arr β K} {pre : List (Dim β)} {i j i' j' : Dim β} {l1 l2 : Key → Nat}
    {F G : Coord → Nat → Nat → K} (hx : Mats x pre i j l1 F) (hy : Mats y pre i' j' l2 G) :
    ∃ z, zeros x y = .ok z ∧ Mats z pre i j (fun k => max (l1 k) (l2 k)) fun _ _ _ => 0 := by
  have hs : List.zipWith max x.nd.shape y.nd.shape = (pre.map fun u => max (l1 u.key) (l2 u.key)) ++ [2, 2] := by
    rw [hx.shape, hy.shape, List.zipWith_append (by simp)]
    congr 1
    induction pre with
    | nil => rfl
    | cons d t ih => simp
  refine ⟨⟨x.dims, ⟨List.zipWith max x.nd.shape y.nd.shape, fun _ => 0⟩⟩, ?_, hx.dims, hs, fun _ _ _ _ _ _ => rfl⟩
  unfold Networks.zeros
  rw [mkL_ok]
  rw [hs, hx.dims]
  simp

/-! ### Equal axes -/

variable [DecidableEq β]

theorem pyIndex_at (p q : List (Dim β)) (d : Dim β) (h : Distinct (p ++ d :: q)) :
    pyIndex (p ++ d :: q) (.dim d) = some p.length := by
  induction p with
  | nil => simp [pyIndex, Dim.pyEq, Dim.eqDim]
  | cons e t ih =>
    have h' := h
    unfold Distinct at h'
    rw [List.cons_append, List.map_cons, List.nodup_cons] at h'
    have hne : Dim.pyEq (.dim e) (.dim d) = false := by
      simp only [Dim.pyEq, Dim.eqDim, decide_eq_false_iff_not, Prod.mk.injEq, not_and]
      intro _ h1 h2
      exact absurd (show e.key ∈ (t ++ d :: q).map Dim.key from by
        rw [show e.key = d.key from by simp [Dim.key, h1, h2]]; simp) h'.1
    simp only [List.cons_append, pyIndex, hne, Bool.false_eq_true, if_false]
    rw [ih h'.2]
    simp

theorem loop_at (p q tl : List (Dim β)) (h : Distinct (p ++ q ++ tl)) :
    reorderLoop (p ++ q ++ tl) (q ++ tl) (q.map .dim) = some (List.range' p.length q.length, tl) := by
  induction q generalizing p with
  | nil => simp [reorderLoop]
  | cons d t ih =>
    have e : p ++ d :: t ++ tl = p ++ [d] ++ t ++ tl := by simp
    have h1 := pyIndex_at p (t ++ tl) d (by simpa using h)
    have h2 : pyIndex (d :: t ++ tl) (.dim d) = some 0 := by simp [pyIndex, Dim.pyEq, Dim.eqDim]
    have h3 := ih (p ++ [d]) (by rw [← e]; exact h)
    rw [← e] at h3
    rw [show p ++ d :: (t ++ tl) = p ++ d :: t ++ tl from by simp] at h1
    simp only [List.map_cons, reorderLoop, h1, h2]
    simp only [List.cons_append, List.eraseIdx_zero, List.tail_cons]
    rw [h3]
    simp [List.range'_succ]

/-- Reordering which puts first what is first. -/
theorem Mats.reorder [Field K] {x : Arr β K} {pre : List (Dim β)} {i j : Dim β} {len : Key → Nat}
    {F : Coord → Nat → Nat → K} (h : Mats x pre i j len F) (hd : Distinct (pre ++ [i, j])) :
    ∃ y, reorder x (pre.map .dim) = .ok y ∧ Mats y pre i j len F := by
  have hwf : x.WF := by unfold WF; rw [h.dims, h.shape]; simp
  have hl := loop_at [] pre [i, j] (by simpa using hd)
  simp only [List.nil_append, List.length_nil] at hl
  have hi : pyIndex (pre ++ [i, j]) (.dim i) = some pre.length := pyIndex_at pre [j] i hd
  have hj : pyIndex (pre ++ [i, j]) (.dim j) = some (pre.length + 1) := by
    have := pyIndex_at (pre ++ [i]) [] j (by simpa using hd)
    simpa using this
  have hord : List.range' 0 pre.length ++ [pre.length, pre.length + 1] = List.range (pre.length + 2) := by
    rw [← List.range_eq_range', List.range_succ, List.range_succ]; simp
  obtain ⟨y, hy, wy, dy, sy, ay⟩ := C07_transpose x hwf (List.range (pre.length + 2)) (by rw [h.dims]; simp)
  have hall : ∀ {γ : Type} (l : List γ), l.length = pre.length + 2 →
      (List.range (pre.length + 2)).map (fun k => l[k]?) = l.map some := by
    intro γ l hl
    rw [← hl]
    apply List.ext_getElem <;> simp
  have dy' : y.dims = x.dims := by
    rw [hall x.dims (by rw [h.dims]; simp)] at dy
    exact List.map_injective_iff.2 (Option.some_injective _) dy
  have sy' : y.nd.shape = x.nd.shape := by
    rw [hall x.nd.shape (by rw [h.shape]; simp)] at sy
    exact List.map_injective_iff.2 (Option.some_injective _) sy
  refine ⟨y, ?_, dy'.trans h.dims, sy'.trans h.shape, ?_⟩
  · unfold Networks.reorder reorderDimensions
    rw [h.dims, hl]
    simp only [List.mapM_cons, List.mapM_nil, hi, hj]
    have hb : (do let y ← some pre.length; let ys ← (do let y ← some (pre.length + 1); let ys ← pure []; pure (y :: ys)); pure (y :: ys) : Option (List Nat)) =
        some [pre.length, pre.length + 1] := rfl
    rw [hb]
    simp only [hord, hy]
  · intro c hc m n hm hn
    obtain ⟨c', hc'⟩ := exists_coord hd ((pre.map fun u => if len u.key = 1 then 0 else c u.key) ++ [m, n]) (by simp)
    have := ay c'
    unfold at_ at this
    rw [dy', h.dims, hc'] at this
    rw [this, h.val c hc m n hm hn]

/-- The beginning of the three functions: both arrays over the same axes, the matrix axes last. -/
theorem aligned_spec [Field K] (full : Arr β K → Arr β K) {a b : Arr β K} (ha : a.IsStack kI kJ 2)
    (hb : b.IsStack kI kJ 2) (hl : NoSub (a.dims ++ b.dims)) :
    ∃ pre i j S1 S2, aligned full a b = .ok (S1, S2) ∧ dimsUnion a.dims b.dims = pre ++ [i, j] ∧
      i.key = kI ∧ j.key = kJ ∧ (∀ d ∈ pre, d.key ≠ kI ∧ d.key ≠ kJ) ∧ Outer pre ∧
      (∀ k, k ∈ (pre ++ [i, j]).map Dim.key ↔ k ∈ a.dims.map Dim.key ∨ k ∈ b.dims.map Dim.key) ∧
      Good pre ∧ Good (pre ++ [i, j]) ∧
      Mats S1 pre i j (len1 a) (fun c m n => a.atB (upd c kI kJ m n)) ∧
      Mats S2 pre i j (len1 b) (fun c m n => b.atB (upd c kI kJ m n)) := by
  have hst := ha.stacks hb hl
  obtain ⟨hcx, -⟩ := union_matrix_last hst.na hst.nosub hst.row hst.col hst.rowCls hst.colCls hst.others
  obtain ⟨pre, i, j, a', b', ea, eb, h⟩ := same_dims full hst
  have hdim : ∀ {x x' : Arr β K} {nd}, changeShape full x nd = .ok x' → x'.dims = nd := by
    intro x x' nd hx
    unfold changeShape at hx
    dsimp only at hx
    repeat' (split at hx <;> try cases hx)
    all_goals rfl
  have da := hdim ea
  have db := hdim eb
  rw [h.dims] at da db
  have hsub : pre ++ [i, j] ⊆ a.dims ++ b.dims := by
    rw [← h.dims]; exact (dimsUnion_spec hl ha.distinct).1
  have gall : Good (pre ++ [i, j]) := by
    refine ⟨h.distinct, hl.mono hsub, ?_, ?_⟩
    · rw [← h.dims]; exact sortByPrio_sorted _
    · cases e : Dim.hasComplex (pre ++ [i, j]) with
      | false => rfl
      | true => rw [hasComplex_mono hsub e] at hcx; cases hcx
  have gpre : Good pre := by
    refine ⟨?_, gall.nosub.mono fun _ h => List.mem_append_left _ h, (List.pairwise_append.1 gall.sorted).1, ?_⟩
    · have := gall.distinct
      unfold Distinct at this ⊢
      rw [List.map_append, List.nodup_append] at this
      exact this.1
    · cases e : Dim.hasComplex pre with
      | false => rfl
      | true => have := gall.real; rw [hasComplex_mono (fun _ h => List.mem_append_left _ h) e] at this; cases this
  have ra := len1_of ha.rows
  have ca := len1_of ha.cols
  have rb := len1_of hb.rows
  have cb := len1_of hb.cols
  have ma : Mats a' pre i j (len1 a) (fun c m n => a.atB (upd c kI kJ m n)) :=
    ⟨da, by rw [h.shapeA, ra, ca], fun c hc m n hm hn => h.getA c m n hc (by rw [ra]; exact hm) (by rw [ca]; exact hn)⟩
  have mb : Mats b' pre i j (len1 b) (fun c m n => b.atB (upd c kI kJ m n)) :=
    ⟨db, by rw [h.shapeB, rb, cb], fun c hc m n hm hn => h.getB c m n hc (by rw [rb]; exact hm) (by rw [cb]; exact hn)⟩
  have hord : noMatrix a'.dims = pre.map .dim := by
    have hp : ∀ c : Cls, (c.isSub .dimSweep = true ∨ c.isSub .dimRep = true) → c.isSub .dimMatrix_ = false := by
      intro c; cases c <;> decide +kernel
    have h1 : pre.filter (fun d => !d.isa .dimMatrix_) = pre :=
      List.filter_eq_self.2 fun d hd => by simp only [Dim.isa, hp _ (h.pre_sweep d hd), Bool.not_false]
    have hi := congrArg Prod.snd h.ikey
    have hj := congrArg Prod.snd h.jkey
    simp only [Dim.key, kI, kJ] at hi hj
    have h2 : [i, j].filter (fun d => !d.isa .dimMatrix_) = [] := by
      have q1 : Cls.matI.isSub .dimMatrix_ = true := by decide +kernel
      have q2 : Cls.matJ.isSub .dimMatrix_ = true := by decide +kernel
      simp [List.filter_cons, Dim.isa, hi, hj, q1, q2]
    unfold noMatrix
    rw [da, List.filter_append, h1, h2, List.append_nil]
  obtain ⟨S1, e1, m1⟩ := ma.reorder h.distinct
  obtain ⟨S2, e2, m2⟩ := mb.reorder h.distinct
  refine ⟨pre, i, j, S1, S2, ?_, h.dims, h.ikey, h.jkey, h.pre_ne, h.pre_sweep, h.mem, gpre, gall, m1, m2⟩
  unfold aligned makeSame
  simp only [ea, eb]
  show (do let a'' ← reorder a' (noMatrix a'.dims); let b'' ← reorder b' (noMatrix a'.dims); pure (a'', b'')) = _
  rw [hord, e1]
  show (do let b'' ← reorder b' (pre.map .dim); pure (S1, b'')) = _
  rw [e2]
  rfl

/-! ### The three functions -/

omit [DecidableEq β] in
theorem Mats.elems [Field K] (fmt : β → String) {x : Arr β K} {pre : List (Dim β)} {i j : Dim β} {len : Key → Nat}
    {F : Coord → Nat → Nat → K} (h : Mats x pre i j len F) :
    (∃ y, Networks.elem fmt x 0 0 = .ok y ∧ Over y pre len fun q => F q 0 0) ∧
    (∃ y, Networks.elem fmt x 0 1 = .ok y ∧ Over y pre len fun q => F q 0 1) ∧
    (∃ y, Networks.elem fmt x 1 0 = .ok y ∧ Over y pre len fun q => F q 1 0) ∧
    (∃ y, Networks.elem fmt x 1 1 = .ok y ∧ Over y pre len fun q => F q 1 1) :=
  ⟨h.elem fmt 0 0 (by omega) (by omega), h.elem fmt 0 1 (by omega) (by omega),
    h.elem fmt 1 0 (by omega) (by omega), h.elem fmt 1 1 (by omega) (by omega)⟩

omit [DecidableEq β] in
/-- Operators between arrays over the same axes. -/
theorem Over.op2 [Field K] (full : Arr β K → Arr β K) (f : K → K → K) {x y : Arr β K} {P : List (Dim β)}
    {l1 l2 : Key → Nat} (L : Key → Nat) {g1 g2 : Coord → K} (hP : Good P) (hx : Over x P l1 g1) (hy : Over y P l2 g2)
    (hc : ∀ d ∈ P, (l1 d.key = l2 d.key ∨ l1 d.key = 1 ∨ l2 d.key = 1) ∧ L d.key = lenB (l1 d.key) (l2 d.key)) :
    ∃ z, arith full f x y = .ok z ∧ Over z P L fun c => f (g1 c) (g2 c) :=
  Over.op full f hP (fun _ h => h) hP.distinct hx hy (fun d hd => (hc d hd).1) fun d hd => by
    rw [(hc d hd).2, if_pos (List.mem_map_of_mem hd)]

theorem ok_bind {ε α γ : Type} (x : α) (f : α → Except ε γ) : (Except.ok x >>= f) = f x := rfl

omit [DecidableEq β] in
theorem Over.neg [Field K] {x : Arr β K} {P : List (Dim β)} {len : Key → Nat} {f : Coord → K} (h : Over x P len f) :
    Over (negArr x) P len fun c => - f c := by
  refine ⟨h.dims, h.shape, fun c hc => ?_⟩
  rw [← h.val c hc]
  rfl

omit [DecidableEq β] in
theorem Over.scalar [Field K] {x : Arr β K} {P : List (Dim β)} {len : Key → Nat} {f : Coord → K} (h : Over x P len f)
    (g : K → K → K) (s : K) : Over (scalarOp g x s) P len fun c => g (f c) s := by
  refine ⟨h.dims, h.shape, fun c hc => ?_⟩
  rw [← h.val c hc]
  rfl

/-- Lengths of the axes of both arrays. -/
def lenAB (a b : Arr β K) (k : Key) : Nat := lenB (len1 a k) (len1 b k)

/-- No axis of the stack is empty where the other array has length one. -/
def SameEmpty (a b : Arr β K) : Prop := ∀ k, k ≠ kI → k ≠ kJ → (len1 a k = 0 ↔ len1 b k = 0)

omit [DecidableEq β] in
/-- The quotient of an array of matrices and an array of numbers. -/
theorem Mats.div [Field K] (full : Arr β K → Arr β K) (dv : K → K → K) {x y : Arr β K} {pre : List (Dim β)} {i j : Dim β}
    {len : Key → Nat} {F : Coord → Nat → Nat → K} {g : Coord → K} (hp : Good pre) (hP : Good (pre ++ [i, j]))
    (hi : i.key = kI) (hj : j.key = kJ) (hne : ∀ d ∈ pre, d.key ≠ kI ∧ d.key ≠ kJ)
    (h : Mats x pre i j len F) (hy : Over y pre len g) (hF : ∀ c m n m' n', F (upd c kI kJ m n) m' n' = F c m' n')
    (hg : ∀ c m n, g (upd c kI kJ m n) = g c) :
    ∃ z, arith full dv x y = .ok z ∧ Mats z pre i j len fun c m n => dv (F c m n) (g c) := by
  obtain ⟨z, e, hz⟩ := Over.op full dv (L := fun k => if k = kI ∨ k = kJ then 2 else len k) hP
    (fun _ h => List.mem_append_left _ h) hp.distinct (h.over hi hj hne) hy
    (fun d hd => by left; simp [(hne d hd).1, (hne d hd).2])
    (by
      intro d hd
      by_cases hm : d.key ∈ pre.map Dim.key
      · rw [if_pos hm]
        obtain ⟨d', hd', e⟩ := List.mem_map.1 hm
        have := hne d' hd'
        rw [e] at this
        simp [this.1, this.2, lenB]
      · rw [if_neg hm])
  refine ⟨z, e, (hz.mats hi hj hne).congr (fun _ _ => rfl) ?_⟩
  intro c _ m n _ _
  have e1 : upd c kI kJ m n kI = m := by simp [upd]
  have e2 : upd c kI kJ m n kJ = n := by simp [upd, show kJ ≠ kI from by decide]
  simp only [e1, e2, hF, hg]

omit [DecidableEq β] in
theorem atB_upd (a : Arr β K) (c : Coord) (m n m' n' : Nat) :
    a.atB (upd (upd c kI kJ m n) kI kJ m' n') = a.atB (upd c kI kJ m' n') := by
  congr 1
  funext k
  unfold upd
  split
  · rfl
  · split <;> rfl

omit [DecidableEq β] in
theorem len_facts {a b : Arr β K} {pre : List (Dim β)} (hne : ∀ d ∈ pre, d.key ≠ kI ∧ d.key ≠ kJ) (ho : OuterOk a b kI kJ) :
    ∀ d ∈ pre, len1 a d.key = len1 b d.key ∨ len1 a d.key = 1 ∨ len1 b d.key = 1 := outer_cond hne ho

/-- `cascadeS` for every matrix. -/
theorem cascade_mats [Field K] [DecidableEq K] (full : Arr β K → Arr β K) (fmt : β → String) (dv : K → K → K)
    {a b : Arr β K} (ha : a.IsStack kI kJ 2) (hb : b.IsStack kI kJ 2) (hl : NoSub (a.dims ++ b.dims))
    (ho : OuterOk a b kI kJ) (he : SameEmpty a b) :
    ∃ pre i j r, cascadeArr full fmt dv a b = .ok r ∧ dimsUnion a.dims b.dims = pre ++ [i, j] ∧
      i.key = kI ∧ j.key = kJ ∧ (∀ d ∈ pre, d.key ≠ kI ∧ d.key ≠ kJ) ∧ Outer pre ∧ Good (pre ++ [i, j]) ∧
      (∀ k, k ∈ (pre ++ [i, j]).map Dim.key ↔ k ∈ a.dims.map Dim.key ∨ k ∈ b.dims.map Dim.key) ∧
      Mats r pre i j (lenAB a b) fun c m n =>
        let A := fun m n => a.atB (upd c kI kJ m n)
        let B := fun m n => b.atB (upd c kI kJ m n)
        dv (if m = 0 ∧ n = 0 then A 0 0 - B 0 0 * (A 0 0 * A 1 1 - A 0 1 * A 1 0)
          else if m = 0 ∧ n = 1 then A 0 1 * B 0 1
          else if m = 1 ∧ n = 0 then A 1 0 * B 1 0
          else B 1 1 - A 1 1 * (B 0 0 * B 1 1 - B 0 1 * B 1 0)) (1 - A 1 1 * B 0 0) := by
  obtain ⟨pre, i, j, S1, S2, eal, hU, hi, hj, hne, hO, hmem, gp, gP, m1, m2⟩ := aligned_spec full ha hb hl
  have hAB := outer_cond hne ho
  have hmax : ∀ d ∈ pre, max (len1 a d.key) (len1 b d.key) = lenAB a b d.key := by
    intro d hd
    have h1 := hAB d hd
    have h2 := he d.key (hne d hd).1 (hne d hd).2
    unfold lenAB lenB
    split <;> omega
  have hc : ∀ d ∈ pre, lenAB a b d.key = lenB (len1 a d.key) (len1 b d.key) := fun _ _ => rfl
  obtain ⟨⟨a00, ea00, oa00⟩, ⟨a01, ea01, oa01⟩, ⟨a10, ea10, oa10⟩, ⟨a11, ea11, oa11⟩⟩ := m1.elems fmt
  obtain ⟨⟨b00, eb00, ob00⟩, ⟨b01, eb01, ob01⟩, ⟨b10, eb10, ob10⟩, ⟨b11, eb11, ob11⟩⟩ := m2.elems fmt
  obtain ⟨p, ep, op⟩ := Over.op2 full (· * ·) (lenAB a b) gp oa11 ob00 fun d hd => ⟨hAB d hd, rfl⟩
  have od := op.scalar (fun x s => s - x) 1
  obtain ⟨d1, ed1, od1⟩ := m1.det
  obtain ⟨d2, ed2, od2⟩ := m2.det
  obtain ⟨z, ez, mz⟩ := m1.zeros m2
  replace mz := mz.congr (len' := lenAB a b) (F' := fun _ _ _ => 0) hmax fun _ _ _ _ _ _ => rfl
  obtain ⟨u1, eu1, ou1⟩ := Over.op2 full (· * ·) (lenAB a b) gp ob00 od1 fun d hd => by
    have := hAB d hd
    unfold lenAB lenB
    split <;> split <;> omega
  obtain ⟨v1, ev1, ov1⟩ := Over.op2 full (· - ·) (lenAB a b) gp oa00 ou1 fun d hd => by
    have := hAB d hd
    unfold lenAB lenB
    split <;> omega
  obtain ⟨v2, ev2, ov2⟩ := Over.op2 full (· * ·) (lenAB a b) gp oa01 ob01 fun d hd => ⟨hAB d hd, rfl⟩
  obtain ⟨v3, ev3, ov3⟩ := Over.op2 full (· * ·) (lenAB a b) gp oa10 ob10 fun d hd => ⟨hAB d hd, rfl⟩
  obtain ⟨u4, eu4, ou4⟩ := Over.op2 full (· * ·) (lenAB a b) gp oa11 od2 fun d hd => ⟨hAB d hd, rfl⟩
  obtain ⟨v4, ev4, ov4⟩ := Over.op2 full (· - ·) (lenAB a b) gp ob11 ou4 fun d hd => by
    have := hAB d hd
    unfold lenAB lenB
    split <;> split <;> omega
  obtain ⟨r1, er1, mr1⟩ := mz.set 0 0 ov1
  obtain ⟨r2, er2, mr2⟩ := mr1.set 0 1 ov2
  obtain ⟨r3, er3, mr3⟩ := mr2.set 1 0 ov3
  obtain ⟨r4, er4, mr4⟩ := mr3.set 1 1 ov4
  obtain ⟨r5, er5, mr5⟩ := mr4.div full dv gp gP hi hj hne od (by intro c m n m' n'; simp only [atB_upd])
    (by intro c m n; simp only [atB_upd])
  have hfin : mkL r5.nd S1.dims = .ok r5 := by
    rw [mkL_ok (by rw [m1.dims, mr5.shape]; simp), m1.dims, ← mr5.dims]
  refine ⟨pre, i, j, r5, ?_, hU, hi, hj, hne, hO, gP, hmem, mr5.congr (fun _ _ => rfl) ?_⟩
  · unfold cascadeArr
    simp only [eal, ok_bind, ea00, ea01, ea10, ea11, eb00, eb01, eb10, eb11, ep, ed1, ed2, ez, eu1, ev1, ev2, ev3, eu4,
      ev4, er1, er2, er3, er4, er5, hfin]
  · intro c _ m n hm hn
    dsimp only
    interval_cases m <;> interval_cases n <;> simp

/-- `deembedleft` for every matrix. -/
theorem left_mats [Field K] [DecidableEq K] (full : Arr β K → Arr β K) (fmt : β → String) (dv : K → K → K)
    {X e : Arr β K} (ha : X.IsStack kI kJ 2) (hb : e.IsStack kI kJ 2) (hl : NoSub (X.dims ++ e.dims))
    (ho : OuterOk X e kI kJ) (he : SameEmpty X e) :
    ∃ pre i j r, deembedleftArr full fmt dv e X = .ok r ∧ dimsUnion X.dims e.dims = pre ++ [i, j] ∧
      i.key = kI ∧ j.key = kJ ∧ (∀ d ∈ pre, d.key ≠ kI ∧ d.key ≠ kJ) ∧ Outer pre ∧ Good (pre ++ [i, j]) ∧
      (∀ k, k ∈ (pre ++ [i, j]).map Dim.key ↔ k ∈ X.dims.map Dim.key ∨ k ∈ e.dims.map Dim.key) ∧
      Mats r pre i j (lenAB X e) fun c m n =>
        let x := fun m n => X.atB (upd c kI kJ m n)
        let E := fun m n => e.atB (upd c kI kJ m n)
        dv (if m = 0 ∧ n = 0 then x 0 0 - E 0 0
            else if m = 0 ∧ n = 1 then x 0 1 * E 1 0
            else if m = 1 ∧ n = 0 then x 1 0 * E 0 1
            else -x 0 1 * x 1 0 * E 1 1) (E 0 1 * E 1 0 - E 0 0 * E 1 1 + E 1 1 * x 0 0) +
          if m = 1 ∧ n = 1 then x 1 1 else 0 := by
  obtain ⟨pre, i, j, S1, S2, eal, hU, hi, hj, hne, hO, hmem, gp, gP, m1, m2⟩ := aligned_spec full ha hb hl
  have hAB := outer_cond hne ho
  have hmax : ∀ d ∈ pre, max (len1 X d.key) (len1 e d.key) = lenAB X e d.key := by
    intro d hd
    have h1 := hAB d hd
    have h2 := he d.key (hne d hd).1 (hne d hd).2
    unfold lenAB lenB
    split <;> omega
  obtain ⟨⟨x00, ex00, ox00⟩, ⟨x01, ex01, ox01⟩, ⟨x10, ex10, ox10⟩, ⟨x11, ex11, ox11⟩⟩ := m1.elems fmt
  obtain ⟨⟨e00, ee00, oe00⟩, ⟨e01, ee01, oe01⟩, ⟨e10, ee10, oe10⟩, ⟨e11, ee11, oe11⟩⟩ := m2.elems fmt
  have fb : ∀ d ∈ pre, (len1 e d.key = len1 e d.key ∨ len1 e d.key = 1 ∨ len1 e d.key = 1) ∧
      len1 e d.key = lenB (len1 e d.key) (len1 e d.key) := fun d _ => by unfold lenB; split <;> omega
  have fa : ∀ d ∈ pre, (len1 X d.key = len1 X d.key ∨ len1 X d.key = 1 ∨ len1 X d.key = 1) ∧
      len1 X d.key = lenB (len1 X d.key) (len1 X d.key) := fun d _ => by unfold lenB; split <;> omega
  have fab : ∀ d ∈ pre, (len1 X d.key = len1 e d.key ∨ len1 X d.key = 1 ∨ len1 e d.key = 1) ∧
      lenAB X e d.key = lenB (len1 X d.key) (len1 e d.key) := fun d hd => ⟨hAB d hd, rfl⟩
  have fba : ∀ d ∈ pre, (len1 e d.key = len1 X d.key ∨ len1 e d.key = 1 ∨ len1 X d.key = 1) ∧
      lenAB X e d.key = lenB (len1 e d.key) (len1 X d.key) := fun d hd => by
    have := hAB d hd; unfold lenAB lenB; (repeat' split) <;> omega
  have fbc : ∀ d ∈ pre, (len1 e d.key = lenAB X e d.key ∨ len1 e d.key = 1 ∨ lenAB X e d.key = 1) ∧
      lenAB X e d.key = lenB (len1 e d.key) (lenAB X e d.key) := fun d hd => by
    have := hAB d hd; unfold lenAB lenB; (repeat' split) <;> omega
  have fca : ∀ d ∈ pre, (lenAB X e d.key = len1 X d.key ∨ lenAB X e d.key = 1 ∨ len1 X d.key = 1) ∧
      lenAB X e d.key = lenB (lenAB X e d.key) (len1 X d.key) := fun d hd => by
    have := hAB d hd; unfold lenAB lenB; (repeat' split) <;> omega
  obtain ⟨t1, et1, ot1⟩ := Over.op2 full (· * ·) (len1 e) gp oe01 oe10 fb
  obtain ⟨t2, et2, ot2⟩ := Over.op2 full (· * ·) (len1 e) gp oe00 oe11 fb
  obtain ⟨t3, et3, ot3⟩ := Over.op2 full (· * ·) (lenAB X e) gp oe11 ox00 fba
  obtain ⟨t4, et4, ot4⟩ := Over.op2 full (· - ·) (len1 e) gp ot1 ot2 fb
  obtain ⟨t5, et5, ot5⟩ := Over.op2 full (· + ·) (lenAB X e) gp ot4 ot3 fbc
  obtain ⟨z, ez, mz⟩ := m1.zeros m2
  replace mz := mz.congr (len' := lenAB X e) (F' := fun _ _ _ => 0) hmax fun _ _ _ _ _ _ => rfl
  obtain ⟨u, eu, ou⟩ := Over.op2 full (· * ·) (len1 X) gp ox01.neg ox10 fa
  obtain ⟨v1, ev1, ov1⟩ := Over.op2 full (· - ·) (lenAB X e) gp ox00 oe00 fab
  obtain ⟨v2, ev2, ov2⟩ := Over.op2 full (· * ·) (lenAB X e) gp ox01 oe10 fab
  obtain ⟨v3, ev3, ov3⟩ := Over.op2 full (· * ·) (lenAB X e) gp ox10 oe01 fab
  obtain ⟨v4, ev4, ov4⟩ := Over.op2 full (· * ·) (lenAB X e) gp ou oe11 fab
  obtain ⟨r1, er1, mr1⟩ := mz.set 0 0 ov1
  obtain ⟨r2, er2, mr2⟩ := mr1.set 0 1 ov2
  obtain ⟨r3, er3, mr3⟩ := mr2.set 1 0 ov3
  obtain ⟨r4, er4, mr4⟩ := mr3.set 1 1 ov4
  obtain ⟨r5, er5, mr5⟩ := mr4.div full dv gp gP hi hj hne ot5 (by intro c m n m' n'; simp only [atB_upd])
    (by intro c m n; simp only [atB_upd])
  obtain ⟨⟨y00, ey00, oy00⟩, -, -, ⟨y11, ey11, oy11⟩⟩ := mr5.elems fmt
  obtain ⟨w, ew, ow⟩ := Over.op2 full (· + ·) (lenAB X e) gp oy11 ox11 fca
  obtain ⟨r6, er6, mr6⟩ := mr5.set 1 1 ow
  have hfin : mkL r6.nd S1.dims = .ok r6 := by
    rw [mkL_ok (by rw [m1.dims, mr6.shape]; simp), m1.dims, ← mr6.dims]
  refine ⟨pre, i, j, r6, ?_, hU, hi, hj, hne, hO, gP, hmem, mr6.congr (fun _ _ => rfl) ?_⟩
  · unfold deembedleftArr
    simp only [eal, ok_bind, ex00, ex01, ex10, ex11, ee00, ee01, ee10, ee11, et1, et2, et3, et4, et5, ez, eu, ev1, ev2, ev3,
      ev4, er1, er2, er3, er4, er5, ey11, ew, er6, hfin]
  · intro c _ m n hm hn
    dsimp only
    interval_cases m <;> interval_cases n <;> simp

/-- `deembedright` for every matrix. -/
theorem right_mats [Field K] [DecidableEq K] (full : Arr β K → Arr β K) (fmt : β → String) (dv : K → K → K)
    {X e : Arr β K} (ha : X.IsStack kI kJ 2) (hb : e.IsStack kI kJ 2) (hl : NoSub (X.dims ++ e.dims))
    (ho : OuterOk X e kI kJ) (he : SameEmpty X e) :
    ∃ pre i j r, deembedrightArr full fmt dv X e = .ok r ∧ dimsUnion X.dims e.dims = pre ++ [i, j] ∧
      i.key = kI ∧ j.key = kJ ∧ (∀ d ∈ pre, d.key ≠ kI ∧ d.key ≠ kJ) ∧ Outer pre ∧ Good (pre ++ [i, j]) ∧
      (∀ k, k ∈ (pre ++ [i, j]).map Dim.key ↔ k ∈ X.dims.map Dim.key ∨ k ∈ e.dims.map Dim.key) ∧
      Mats r pre i j (lenAB X e) fun c m n =>
        let x := fun m n => X.atB (upd c kI kJ m n)
        let E := fun m n => e.atB (upd c kI kJ m n)
        dv (if m = 0 ∧ n = 0 then -x 0 1 * x 1 0 * E 0 0
            else if m = 0 ∧ n = 1 then x 0 1 * E 1 0
            else if m = 1 ∧ n = 0 then x 1 0 * E 0 1
            else x 1 1 - E 1 1) (E 0 1 * E 1 0 - E 0 0 * E 1 1 + E 0 0 * x 1 1) +
          if m = 0 ∧ n = 0 then x 0 0 else 0 := by
  obtain ⟨pre, i, j, S1, S2, eal, hU, hi, hj, hne, hO, hmem, gp, gP, m1, m2⟩ := aligned_spec full ha hb hl
  have hAB := outer_cond hne ho
  have hmax : ∀ d ∈ pre, max (len1 X d.key) (len1 e d.key) = lenAB X e d.key := by
    intro d hd
    have h1 := hAB d hd
    have h2 := he d.key (hne d hd).1 (hne d hd).2
    unfold lenAB lenB
    split <;> omega
  obtain ⟨⟨x00, ex00, ox00⟩, ⟨x01, ex01, ox01⟩, ⟨x10, ex10, ox10⟩, ⟨x11, ex11, ox11⟩⟩ := m1.elems fmt
  obtain ⟨⟨e00, ee00, oe00⟩, ⟨e01, ee01, oe01⟩, ⟨e10, ee10, oe10⟩, ⟨e11, ee11, oe11⟩⟩ := m2.elems fmt
  have fb : ∀ d ∈ pre, (len1 e d.key = len1 e d.key ∨ len1 e d.key = 1 ∨ len1 e d.key = 1) ∧
      len1 e d.key = lenB (len1 e d.key) (len1 e d.key) := fun d _ => by unfold lenB; split <;> omega
  have fa : ∀ d ∈ pre, (len1 X d.key = len1 X d.key ∨ len1 X d.key = 1 ∨ len1 X d.key = 1) ∧
      len1 X d.key = lenB (len1 X d.key) (len1 X d.key) := fun d _ => by unfold lenB; split <;> omega
  have fab : ∀ d ∈ pre, (len1 X d.key = len1 e d.key ∨ len1 X d.key = 1 ∨ len1 e d.key = 1) ∧
      lenAB X e d.key = lenB (len1 X d.key) (len1 e d.key) := fun d hd => ⟨hAB d hd, rfl⟩
  have fba : ∀ d ∈ pre, (len1 e d.key = len1 X d.key ∨ len1 e d.key = 1 ∨ len1 X d.key = 1) ∧
      lenAB X e d.key = lenB (len1 e d.key) (len1 X d.key) := fun d hd => by
    have := hAB d hd; unfold lenAB lenB; (repeat' split) <;> omega
  have fbc : ∀ d ∈ pre, (len1 e d.key = lenAB X e d.key ∨ len1 e d.key = 1 ∨ lenAB X e d.key = 1) ∧
      lenAB X e d.key = lenB (len1 e d.key) (lenAB X e d.key) := fun d hd => by
    have := hAB d hd; unfold lenAB lenB; (repeat' split) <;> omega
  have fca : ∀ d ∈ pre, (lenAB X e d.key = len1 X d.key ∨ lenAB X e d.key = 1 ∨ len1 X d.key = 1) ∧
      lenAB X e d.key = lenB (lenAB X e d.key) (len1 X d.key) := fun d hd => by
    have := hAB d hd; unfold lenAB lenB; (repeat' split) <;> omega
  obtain ⟨t1, et1, ot1⟩ := Over.op2 full (· * ·) (len1 e) gp oe01 oe10 fb
  obtain ⟨t2, et2, ot2⟩ := Over.op2 full (· * ·) (len1 e) gp oe00 oe11 fb
  obtain ⟨t3, et3, ot3⟩ := Over.op2 full (· * ·) (lenAB X e) gp oe00 ox11 fba
  obtain ⟨t4, et4, ot4⟩ := Over.op2 full (· - ·) (len1 e) gp ot1 ot2 fb
  obtain ⟨t5, et5, ot5⟩ := Over.op2 full (· + ·) (lenAB X e) gp ot4 ot3 fbc
  obtain ⟨z, ez, mz⟩ := m1.zeros m2
  replace mz := mz.congr (len' := lenAB X e) (F' := fun _ _ _ => 0) hmax fun _ _ _ _ _ _ => rfl
  obtain ⟨u, eu, ou⟩ := Over.op2 full (· * ·) (len1 X) gp ox01.neg ox10 fa
  obtain ⟨v1, ev1, ov1⟩ := Over.op2 full (· * ·) (lenAB X e) gp ou oe00 fab
  obtain ⟨v2, ev2, ov2⟩ := Over.op2 full (· * ·) (lenAB X e) gp ox01 oe10 fab
  obtain ⟨v3, ev3, ov3⟩ := Over.op2 full (· * ·) (lenAB X e) gp ox10 oe01 fab
  obtain ⟨v4, ev4, ov4⟩ := Over.op2 full (· - ·) (lenAB X e) gp ox11 oe11 fab
  obtain ⟨r1, er1, mr1⟩ := mz.set 0 0 ov1
  obtain ⟨r2, er2, mr2⟩ := mr1.set 0 1 ov2
  obtain ⟨r3, er3, mr3⟩ := mr2.set 1 0 ov3
  obtain ⟨r4, er4, mr4⟩ := mr3.set 1 1 ov4
  obtain ⟨r5, er5, mr5⟩ := mr4.div full dv gp gP hi hj hne ot5 (by intro c m n m' n'; simp only [atB_upd])
    (by intro c m n; simp only [atB_upd])
  obtain ⟨⟨y00, ey00, oy00⟩, -, -, ⟨y11, ey11, oy11⟩⟩ := mr5.elems fmt
  obtain ⟨w, ew, ow⟩ := Over.op2 full (· + ·) (lenAB X e) gp oy00 ox00 fca
  obtain ⟨r6, er6, mr6⟩ := mr5.set 0 0 ow
  have hfin : mkL r6.nd S1.dims = .ok r6 := by
    rw [mkL_ok (by rw [m1.dims, mr6.shape]; simp), m1.dims, ← mr6.dims]
  refine ⟨pre, i, j, r6, ?_, hU, hi, hj, hne, hO, gP, hmem, mr6.congr (fun _ _ => rfl) ?_⟩
  · unfold deembedrightArr
    simp only [eal, ok_bind, ex00, ex01, ex10, ex11, ee00, ee01, ee10, ee11, et1, et2, et3, et4, et5, ez, eu, ev1, ev2, ev3,
      ev4, er1, er2, er3, er4, er5, ey00, ew, er6, hfin]
  · intro c _ m n hm hn
    dsimp only
    interval_cases m <;> interval_cases n <;> simp

end HF.Networks
