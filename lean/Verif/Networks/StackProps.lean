import Verif.Networks.StackLemmas
/-
C101: conversion of arrays of two-ports between representations.

At every coordinate the result describes the network which the array describes there, provided that
the sweeps come before the repetitions.  If they do not, the result is put into the wrong places.
-/
noncomputable section

namespace HF.Networks

open HF.Arr

variable {β K : Type} [Field K] [DecidableEq K]

/-! ### Specification -/

/-- The two-port at a coordinate of an array. -/
def NetArr.at (net : NetArr β K) (c : Coord) : Net K := ⟨net.rep, net.z, net.a.mat kI kJ c 2 2⟩

/-- The coordinate lies inside of the array. -/
def NetArr.In (net : NetArr β K) (c : Coord) : Prop := net.a.InStack kI kJ c

/-- An array of two by two matrices: rows `i` and columns `j` come last, the other axes `pre` are
sweeps and repetitions. -/
structure TwoPorts (net : NetArr β K) (pre : List (Dim β)) : Prop where
  last : ∃ i j, net.a.Last kI kJ 2 pre i j
  nosub : NoSub net.a.dims

/-- No sweep comes after a repetition. -/
def SweepsFirst (pre : List (Dim β)) : Prop := pre.Pairwise fun x y => x.isa .dimRep = true → y.isa .dimSweep = false

/-- Conversions which invert the matrices and do not go through `convert`. -/
def Direct (src dst : Rep) : Prop := (src = .Z ∧ dst = .Y) ∨ (src = .Y ∧ dst = .Z)

/-! ### Helpers -/

theorem sweeps_sorted {pre : List (Dim β)} (ho : Outer pre) (h : SweepsFirst pre) :
    pre.Pairwise fun x y => x.sortprio ≤ y.sortprio := by
  have prio : ∀ c d : Cls, (c.isSub .dimSweep = true ∨ c.isSub .dimRep = true) →
      (d.isSub .dimSweep = true ∨ d.isSub .dimRep = true) → (c.isSub .dimRep = true → d.isSub .dimSweep = false) →
      c.sortprio ≤ d.sortprio := by
    intro c d; cases c <;> cases d <;> decide +kernel
  unfold SweepsFirst at h
  induction pre with
  | nil => exact List.Pairwise.nil
  | cons x t ih =>
    rw [List.pairwise_cons] at h ⊢
    exact ⟨fun y hy => prio _ _ (ho x (by simp)) (ho y (by simp [hy])) (h.1 y hy),
      ih (fun d hd => ho d (by simp [hd])) h.2⟩

theorem bshape_self (l : List Nat) : Nd.bshape l l = .ok l := by
  induction l with
  | nil => rfl
  | cons s t ih => simp [Nd.bshape, ih]

/-- Assignment by position, if the axes of both sides are the same. -/
theorem assign_same {n : Nat} {x y : Arr β K} {p : List (Dim β)} {i j i0 j0 : Dim β} (hx : x.Last kI kJ n p i j)
    (hy : y.Last kI kJ n p i0 j0) (hlen : ∀ k, y.axisLen k = x.axisLen k) :
    ∃ r, assignAll x y = .ok r ∧ r.dims = x.dims ∧ r.nd.shape = x.nd.shape ∧
      ∀ c, r.mat kI kJ c n n = y.mat kI kJ c n n := by
  have hs : y.nd.shape = x.nd.shape := by
    rw [hx.shape, hy.shape]
    unfold len1
    simp only [hlen]
  refine ⟨⟨x.dims, ⟨x.nd.shape, fun idx => y.nd.get (Nd.bidx y.nd.shape idx)⟩⟩, ?_, rfl, rfl, ?_⟩
  · unfold assignAll
    rw [hs, bshape_self]
    simp
  · intro c
    ext m k
    obtain ⟨e, he⟩ : ∃ e : Coord, e = upd c kI kJ m.1 k.1 := ⟨_, rfl⟩
    show Arr.atB _ _ = y.atB _
    rw [← he, atB_map (len1 y) (shape_map hy.stack.wf hy.stack.distinct)]
    have hsx : x.nd.shape = x.dims.map fun u => len1 y u.key := by
      rw [shape_map hx.stack.wf hx.stack.distinct]
      unfold len1
      simp only [hlen]
    rw [atB_map (x := ⟨x.dims, ⟨x.nd.shape, fun idx => y.nd.get (Nd.bidx y.nd.shape idx)⟩⟩) (len1 y) hsx]
    show y.nd.get _ = _
    rw [hs, hsx, bidx_map x.dims (len1 y) (fun q => if len1 y q = 1 then 0 else e q)]
    congr 1
    rw [hx.dims, hy.dims, List.map_append, List.map_append]
    congr 1
    · exact List.map_congr_left fun d _ => by split <;> rfl
    · simp only [List.map_cons, List.map_nil, hx.ikey, hx.jkey, hy.ikey, hy.jkey]
      congr 1
      · split <;> rfl
      · congr 1; split <;> rfl

theorem last_square {n : Nat} {x : Arr β K} {p : List (Dim β)} {i j : Dim β} (h : x.Last kI kJ n p i j) :
    squareMatrix x = true ∧ ∃ t, x.nd.shape.reverse = n :: n :: t := by
  have hi := congrArg Prod.snd h.ikey
  have hj := congrArg Prod.snd h.jkey
  simp only [Dim.key, kI, kJ] at hi hj
  constructor
  · unfold squareMatrix
    rw [h.dims, h.shape]
    simp [Dim.isa, hi, hj, isSub_refl]
  · rw [h.shape]
    simp

/-- The impedance of the result, as in `construct`. -/
def newImp (dflt : Imp K) (dst : Rep) (z : Option (Imp K)) (old : Imp K) : Imp K :=
  if dst = .S then z.getD dflt else old

theorem newImp_ok {dflt : Imp K} {dst : Rep} {z : Option (Imp K)} {old : Imp K} (hd : dflt.Ok)
    (hz : ∀ z' ∈ z, z'.Ok) (ho : old.Ok) : (newImp dflt dst z old).Ok := by
  unfold newImp
  split
  · cases z with
    | none => exact hd
    | some z0 => exact hz z0 rfl
  · exact ho

theorem Pmat_det (h2 : (2 : K) ≠ 0) (z : Imp K) (hz : z.Ok) (rep : Rep) : (Pmat z rep).det ≠ 0 := by
  intro h0
  have := congrArg Matrix.det (Pmat_Pinv h2 z hz rep)
  rw [Matrix.det_mul, h0, zero_mul, Matrix.det_one] at this
  exact zero_ne_one this

/-- The three ways of `constructArr` and `construct`. -/
theorem construct_cases (full : Arr β K → Arr β K) (fmt : β → String) (ofIdx : Nat → β) (dflt : Imp K)
    (dst : Rep) (z : Option (Imp K)) (net : NetArr β K) {p : List (Dim β)} {i j : Dim β}
    (hL : net.a.Last kI kJ 2 p i j) :
    (Direct net.rep dst ∧
      constructArr full fmt ofIdx dflt dst z net =
        ((Arr.inv net.a).bind fun m => (assignAll net.a m).map fun r => ⟨dst, dflt, r⟩) ∧
      ∀ m, construct dflt dst z ⟨net.rep, net.z, m⟩ = (inv? m).map fun m => ⟨dst, dflt, m⟩) ∨
    (¬ Direct net.rep dst ∧ (net.rep = dst ∧ dflt = net.z) ∧
      constructArr full fmt ofIdx dflt dst z net = .ok net ∧
      ∀ m, construct dflt dst z ⟨net.rep, net.z, m⟩ = some ⟨net.rep, net.z, m⟩) ∨
    (¬ Direct net.rep dst ∧ ¬ (net.rep = dst ∧ dflt = net.z) ∧
      constructArr full fmt ofIdx dflt dst z net =
        ((convertArr full fmt (ofMat ofIdx (Pmat net.z net.rep))
            (ofMat ofIdx (Pmat (newImp dflt dst z net.z) dst)) net.a).bind fun res =>
          (assignAll net.a res).map fun r => ⟨dst, newImp dflt dst z net.z, r⟩) ∧
      ∀ m, construct dflt dst z ⟨net.rep, net.z, m⟩ =
        (convert (Pmat net.z net.rep) (Pmat (newImp dflt dst z net.z) dst) m).map
          fun r => ⟨dst, newImp dflt dst z net.z, r.1⟩) := by
  obtain ⟨hsq, t, ht⟩ := last_square hL
  obtain ⟨rep, z0, a⟩ := net
  simp only at hsq ht hL ⊢
  by_cases hD : Direct rep dst
  · left
    refine ⟨hD, ?_, ?_⟩
    · rcases hD with ⟨rfl, rfl⟩ | ⟨rfl, rfl⟩
      · simp only [constructArr, ht, if_true]
        rfl
      · simp only [constructArr, hsq, if_true]
        rfl
    · intro m
      rcases hD with ⟨rfl, rfl⟩ | ⟨rfl, rfl⟩ <;> rfl
  · right
    by_cases hE : rep = dst ∧ dflt = z0
    · left
      refine ⟨hD, hE, ?_, ?_⟩
      · obtain ⟨rfl, rfl⟩ := hE
        cases rep <;> simp [constructArr]
      · intro m
        obtain ⟨rfl, rfl⟩ := hE
        cases rep <;> simp [construct]
    · right
      have g1 : constructArr full fmt ofIdx dflt dst z ⟨rep, z0, a⟩ =
          if rep = dst ∧ dflt = z0 then .ok ⟨rep, z0, a⟩
          else if squareMatrix a then
            ((convertArr full fmt (ofMat ofIdx (Pmat z0 rep)) (ofMat ofIdx (Pmat (newImp dflt dst z z0) dst)) a).bind
              fun res => (assignAll a res).map fun r => ⟨dst, newImp dflt dst z z0, r⟩)
          else .error .valueError := by
        cases rep <;> cases dst <;>
          first
          | exact absurd (Or.inl ⟨rfl, rfl⟩) hD
          | exact absurd (Or.inr ⟨rfl, rfl⟩) hD
          | rfl
      have g2 : ∀ m, construct dflt dst z ⟨rep, z0, m⟩ =
          if rep = dst ∧ dflt = z0 then some ⟨rep, z0, m⟩
          else (convert (Pmat z0 rep) (Pmat (newImp dflt dst z z0) dst) m).map
            fun r => ⟨dst, newImp dflt dst z z0, r.1⟩ := by
        intro m
        cases rep <;> cases dst <;>
          first
          | exact absurd (Or.inl ⟨rfl, rfl⟩) hD
          | exact absurd (Or.inr ⟨rfl, rfl⟩) hD
          | rfl
      refine ⟨hD, hE, ?_, fun m => ?_⟩
      · rw [g1, if_neg hE, if_pos hsq]
      · rw [g2, if_neg hE]

/-- Either every matrix of the stack is converted, or some matrix has no conversion and there is an
error. -/
theorem each (h2 : (2 : K) ≠ 0) (full : Arr β K → Arr β K) (fmt : β → String) (ofIdx : Nat → β) (dflt : Imp K)
    (hd : dflt.Ok) (dst : Rep) (z : Option (Imp K)) (hz : ∀ z' ∈ z, z'.Ok) (net : NetArr β K) (hn : net.z.Ok)
    {pre : List (Dim β)} (h : TwoPorts net pre) (ho : SweepsFirst pre ∨ Direct net.rep dst) :
    (∃ r, constructArr full fmt ofIdx dflt dst z net = .ok r ∧ r.a.dims = net.a.dims ∧
      r.a.nd.shape = net.a.nd.shape ∧
      ∀ c, net.In c → construct dflt dst z (net.at c) = some (r.at c)) ∨
    (constructArr full fmt ofIdx dflt dst z net = .error .linAlgError ∧
      ∃ c, net.In c ∧ construct dflt dst z (net.at c) = none) := by
  obtain ⟨⟨i, j, hL⟩, hns⟩ := h
  rcases construct_cases full fmt ofIdx dflt dst z net hL with ⟨hD, e1, e2⟩ | ⟨hD, hE, e1, e2⟩ | ⟨hD, hE, e1, e2⟩
  · by_cases hreg : net.a.Regular kI kJ 2
    · left
      obtain ⟨m, em, lm, nm, mm⟩ := C59_inverse net.a hL hreg
      obtain ⟨r, er, r1, r2, r3⟩ := assign_same hL lm nm
      refine ⟨⟨dst, dflt, r⟩, ?_, r1, r2, ?_⟩
      · rw [e1, em]; simp only [Except.bind, er]; rfl
      · intro c hc
        rw [NetArr.at, e2, inv?, if_neg (hreg c hc)]
        simp only [Option.map_some, NetArr.at, r3, mm c hc]
    · right
      constructor
      · rw [e1, C59_singular net.a hL hreg]; rfl
      · unfold Regular at hreg
        push Not at hreg
        obtain ⟨c, hc, h0⟩ := hreg
        refine ⟨c, hc, ?_⟩
        rw [NetArr.at, e2, inv?, if_pos h0]
        rfl
  · left
    exact ⟨net, e1, rfl, rfl, fun c _ => e2 _⟩
  · have hs : SweepsFirst pre := ho.resolve_right hD
    have hsort : sortByPrio pre = pre := sort_sorted (sweeps_sorted (Last.outer hL) hs)
    rcases convertArr_spec full fmt ofIdx (Pmat net.z net.rep) (Pmat (newImp dflt dst z net.z) dst)
      (Pmat_det h2 _ (newImp_ok hd hz hn) dst) hL hns with ⟨res, i0, j0, q1, q2, q3, q4⟩ | ⟨q1, c, hc, q2⟩
    · left
      rw [hsort] at q2
      obtain ⟨r, er, r1, r2, r3⟩ := assign_same hL q2 q3
      refine ⟨⟨dst, newImp dflt dst z net.z, r⟩, ?_, r1, r2, ?_⟩
      · rw [e1, q1]; simp only [Except.bind, er]; rfl
      · intro c hc
        obtain ⟨A, hA⟩ := q4 c hc
        rw [NetArr.at, e2, hA]
        simp only [Option.map_some, NetArr.at, r3]
    · right
      refine ⟨by rw [e1, q1]; rfl, c, hc, ?_⟩
      rw [NetArr.at, e2, q2]
      rfl

theorem TwoPorts.same {net r : NetArr β K} {pre : List (Dim β)} (h : TwoPorts net pre)
    (hd : r.a.dims = net.a.dims) (hs : r.a.nd.shape = net.a.nd.shape) : TwoPorts r pre := by
  obtain ⟨⟨i, j, hL⟩, hns⟩ := h
  have hlen : ∀ k, r.a.axisLen k = net.a.axisLen k := fun k => by unfold axisLen; rw [hd, hs]
  refine ⟨⟨i, j, ⟨⟨?_, ?_, ?_, ?_, rfl, rfl, ?_⟩, ?_, hL.ikey, hL.jkey⟩⟩, by rw [hd]; exact hns⟩
  · have := hL.stack.wf; unfold WF at this ⊢; rw [hd, hs]; exact this
  · rw [hd]; exact hL.stack.distinct
  · rw [hlen]; exact hL.stack.rows
  · rw [hlen]; exact hL.stack.cols
  · rw [hd]; exact hL.stack.others
  · rw [hd]; exact hL.dims

/-! ### The property -/

/-- C101.  Whenever the conversion of an array of two-ports succeeds, the result has the same axes in
the same order, is of the class asked for, and at every coordinate it describes the same network as
the array did there: exactly the same voltages and currents at the ports satisfy the equations. -/
theorem C101_same_network (h2 : (2 : K) ≠ 0) (full : Arr β K → Arr β K) (fmt : β → String) (ofIdx : Nat → β)
    (dflt : Imp K) (hd : dflt.Ok) (dst : Rep) (z : Option (Imp K)) (hz : ∀ z' ∈ z, z'.Ok) (net r : NetArr β K)
    (hn : net.z.Ok) {pre : List (Dim β)} (h : TwoPorts net pre) (ho : SweepsFirst pre ∨ Direct net.rep dst)
    (hr : constructArr full fmt ofIdx dflt dst z net = .ok r) :
    r.a.dims = net.a.dims ∧ r.a.nd.shape = net.a.nd.shape ∧
      ∀ c, net.In c → r.rep = dst ∧ ∀ w, Sat (net.at c) w ↔ Sat (r.at c) w := by
  rcases each h2 full fmt ofIdx dflt hd dst z hz net hn h ho with ⟨r', e, h1, h3, h4⟩ | ⟨e, -⟩
  · rw [hr] at e
    obtain rfl := Except.ok.inj e
    exact ⟨h1, h3, fun c hc => ⟨(C27_impedance dflt dst z _ _ (h4 c hc)).1,
      fun w => C27_same_network dflt dst z _ _ (h4 c hc) w⟩⟩
  · rw [hr] at e; cases e

/-- C101.  Class and reference impedance of the result, also of an array without any element: that of
the argument for S-parameters (or the default), otherwise that of the array, and the default after an
inversion. -/
theorem C101_class (full : Arr β K → Arr β K) (fmt : β → String) (ofIdx : Nat → β) (dflt : Imp K) (dst : Rep)
    (z : Option (Imp K)) (net r : NetArr β K) {pre : List (Dim β)} (h : TwoPorts net pre)
    (hr : constructArr full fmt ofIdx dflt dst z net = .ok r) :
    r.rep = dst ∧ r.z = if net.rep = dst ∧ net.z = dflt then dflt
      else if dst = .S then z.getD dflt
      else if (net.rep = .Z ∧ dst = .Y) ∨ (net.rep = .Y ∧ dst = .Z) then dflt else net.z := by
  obtain ⟨⟨i, j, hL⟩, -⟩ := h
  have inv : ∀ (x : Except Nd.LErr (Arr β K)) (g : Arr β K → Except Nd.LErr (Arr β K)) (q : Imp K),
      (x.bind fun m => (g m).map fun r => (⟨dst, q, r⟩ : NetArr β K)) = .ok r → r.rep = dst ∧ r.z = q := by
    intro x g q hx
    cases x with
    | error e => cases hx
    | ok m =>
      simp only [Except.bind] at hx
      cases hg : g m with
      | error e => rw [hg] at hx; cases hx
      | ok y => rw [hg] at hx; cases hx; exact ⟨rfl, rfl⟩
  rcases construct_cases full fmt ofIdx dflt dst z net hL with ⟨hD, e1, -⟩ | ⟨hD, hE, e1, -⟩ | ⟨hD, hE, e1, -⟩
  · rw [e1] at hr
    obtain ⟨h1, h2⟩ := inv _ _ _ hr
    refine ⟨h1, h2.trans ?_⟩
    have hne : ¬ (net.rep = dst ∧ net.z = dflt) := by
      rintro ⟨e, -⟩; rcases hD with ⟨a, b⟩ | ⟨a, b⟩ <;> · rw [a, b] at e; cases e
    have hs : dst ≠ .S := by rcases hD with ⟨-, b⟩ | ⟨-, b⟩ <;> rw [b] <;> intro e <;> cases e
    unfold Direct at hD
    rw [if_neg hne, if_neg hs, if_pos hD]
  · rw [e1] at hr
    obtain rfl := Except.ok.inj hr
    exact ⟨hE.1, by rw [if_pos ⟨hE.1, hE.2.symm⟩]; exact hE.2.symm⟩
  · rw [e1] at hr
    obtain ⟨h1, h2⟩ := inv _ _ _ hr
    refine ⟨h1, h2.trans ?_⟩
    unfold Direct at hD
    rw [if_neg (fun q => hE ⟨q.1, q.2.symm⟩), if_neg hD]
    rfl

/-- C101.  The conversion succeeds if at every coordinate the network has parameters in the
representation asked for. -/
theorem C101_exists (h2 : (2 : K) ≠ 0) (full : Arr β K → Arr β K) (fmt : β → String) (ofIdx : Nat → β)
    (dflt : Imp K) (hd : dflt.Ok) (dst : Rep) (z : Option (Imp K)) (hz : ∀ z' ∈ z, z'.Ok) (net : NetArr β K)
    (hn : net.z.Ok) {pre : List (Dim β)} (h : TwoPorts net pre) (ho : SweepsFirst pre ∨ Direct net.rep dst)
    (hex : ∀ c, net.In c → ∃ m', ∀ w, Sat (net.at c) w ↔
      Sat ⟨dst, if dst = .S then z.getD dflt else net.z, m'⟩ w) :
    ∃ r, constructArr full fmt ofIdx dflt dst z net = .ok r := by
  rcases each h2 full fmt ofIdx dflt hd dst z hz net hn h ho with ⟨r', e, -⟩ | ⟨-, c, hc, e⟩
  · exact ⟨r', e⟩
  · obtain ⟨m', hm⟩ := hex c hc
    obtain ⟨n', hn'⟩ := C27_exists h2 dflt hd dst z hz (net.at c) hn m' hm
    rw [e] at hn'
    cases hn'

/-- C101.  If the network at a single coordinate has no parameters in the representation asked for,
there is an error and no result at all. -/
theorem C101_singular (h2 : (2 : K) ≠ 0) (full : Arr β K → Arr β K) (fmt : β → String) (ofIdx : Nat → β)
    (dflt : Imp K) (hd : dflt.Ok) (dst : Rep) (z : Option (Imp K)) (hz : ∀ z' ∈ z, z'.Ok) (net : NetArr β K)
    (hn : net.z.Ok) {pre : List (Dim β)} (h : TwoPorts net pre) (ho : SweepsFirst pre ∨ Direct net.rep dst)
    (c : Coord) (hc : net.In c)
    (hno : ∀ z' m', ¬ ∀ w, Sat (net.at c) w ↔ Sat ⟨dst, z', m'⟩ w) :
    constructArr full fmt ofIdx dflt dst z net = .error .linAlgError := by
  rcases each h2 full fmt ofIdx dflt hd dst z hz net hn h ho with ⟨r, e, -, -, h4⟩ | ⟨e, -⟩
  · exfalso
    have h5 := C27_impedance dflt dst z _ _ (h4 c hc)
    refine hno r.z (r.at c).m fun w => ?_
    rw [C27_same_network dflt dst z _ _ (h4 c hc) w]
    have : (r.at c) = ⟨dst, r.z, (r.at c).m⟩ := by
      have := h5.1
      simp only [NetArr.at] at this ⊢
      rw [this]
    rw [← this]
  · exact e

/-- C101.  Converting there and back, to the same representation and impedance, gives every element
of the array one began with. -/
theorem C101_back (h2 : (2 : K) ≠ 0) (full : Arr β K → Arr β K) (fmt : β → String) (ofIdx : Nat → β)
    (dflt : Imp K) (hd : dflt.Ok) (dst src : Rep) (z z2 : Option (Imp K)) (hz : ∀ z' ∈ z, z'.Ok)
    (hz2 : ∀ z' ∈ z2, z'.Ok) (net r b : NetArr β K) (hn : net.z.Ok) (hrz : r.z.Ok) {pre : List (Dim β)}
    (h : TwoPorts net pre) (ho : SweepsFirst pre)
    (hr : constructArr full fmt ofIdx dflt dst z net = .ok r) (hb : constructArr full fmt ofIdx dflt src z2 r = .ok b)
    (hrep : b.rep = net.rep) (hbz : b.z = net.z) :
    b.a.dims = net.a.dims ∧ b.a.nd.shape = net.a.nd.shape ∧
      ∀ c, net.In c → ∀ m k : Fin 2, b.a.atB (upd c kI kJ m.1 k.1) = net.a.atB (upd c kI kJ m.1 k.1) := by
  have h1 := C101_same_network h2 full fmt ofIdx dflt hd dst z hz net r hn h (Or.inl ho) hr
  have hlen : ∀ k, r.a.axisLen k = net.a.axisLen k := fun k => by unfold axisLen; rw [h1.1, h1.2.1]
  have hr2 : TwoPorts r pre := h.same h1.1 h1.2.1
  have h3 := C101_same_network h2 full fmt ofIdx dflt hd src z2 hz2 r b hrz hr2 (Or.inl ho) hb
  refine ⟨h3.1.trans h1.1, h3.2.1.trans h1.2.1, ?_⟩
  intro c hc m k
  have hc' : r.In c := (inStack_congr hlen).2 hc
  have hu := C27_unique h2 net.rep net.z hn (net.at c).m (b.at c).m (fun w hw => by
    have e1 := (h1.2.2 c hc).2 w
    have e2 := (h3.2.2 c hc').2 w
    have : (b.at c) = ⟨net.rep, net.z, (b.at c).m⟩ := by
      simp only [NetArr.at]; rw [hrep, hbz]
    rw [← this]
    exact e2.1 (e1.1 hw))
  exact (congrFun (congrFun hu m) k).symm

end HF.Networks
