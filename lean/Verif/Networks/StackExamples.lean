import Verif.Networks.StackProps
import Mathlib.Tactic.NormNum
/-
C101: what goes wrong if a repetition comes before a sweep, and concrete arrays.
-/
noncomputable section

namespace HF.Networks

open HF.Arr

variable {β K : Type} [Field K] [DecidableEq K]

/-! ### What does not hold -/

/-- The coordinate with the indices of two axes exchanged. -/
def swapped (k l : Key) (c : Coord) : Coord := fun q => if q = k then c l else if q = l then c k else c q

theorem sort_rep_sweep {r f : Dim β} (hr : r.cls = .dimRep) (hf : f.cls = .dimSweep) :
    sortByPrio [r, f] = [f, r] := by
  simp [sortByPrio, insertByPrio, Dim.sortprio, hr, hf, Cls.sortprio]

/-- The hypotheses of the two theorems below: a repetition before a sweep, and a conversion that goes
through `convert`, possible at every coordinate. -/
structure RepFirst (dflt : Imp K) (dst : Rep) (z : Option (Imp K)) (net : NetArr β K) (r f i j : Dim β) : Prop where
  last : net.a.Last kI kJ 2 [r, f] i j
  nosub : NoSub net.a.dims
  rcls : r.cls = .dimRep
  fcls : f.cls = .dimSweep
  indirect : ¬ Direct net.rep dst
  other : ¬ (net.rep = dst ∧ dflt = net.z)
  possible : ∀ c, net.In c → ∃ n', construct dflt dst z (net.at c) = some n'

theorem RepFirst.result {dflt : Imp K} {dst : Rep} {z : Option (Imp K)} {net : NetArr β K} {r f i j : Dim β}
    (h : RepFirst dflt dst z net r f i j) (h2 : (2 : K) ≠ 0) (full : Arr β K → Arr β K) (fmt : β → String)
    (ofIdx : Nat → β) (hd : dflt.Ok) (hz : ∀ z' ∈ z, z'.Ok) (hn : net.z.Ok) :
    ∃ y i0 j0, y.Last kI kJ 2 [f, r] i0 j0 ∧ (∀ k, y.axisLen k = net.a.axisLen k) ∧
      constructArr full fmt ofIdx dflt dst z net =
        (assignAll net.a y).map (fun q => ⟨dst, newImp dflt dst z net.z, q⟩) ∧
      ∀ c, net.In c → construct dflt dst z (net.at c) = some ⟨dst, newImp dflt dst z net.z, y.mat kI kJ c 2 2⟩ := by
  rcases construct_cases full fmt ofIdx dflt dst z net h.last with ⟨hD, -⟩ | ⟨-, hE, -⟩ | ⟨-, -, e1, e2⟩
  · exact absurd hD h.indirect
  · exact absurd hE h.other
  · rcases convertArr_spec full fmt ofIdx (Pmat net.z net.rep) (Pmat (newImp dflt dst z net.z) dst)
      (Pmat_det h2 _ (newImp_ok hd hz hn) dst) h.last h.nosub with ⟨y, i0, j0, q1, q2, q3, q4⟩ | ⟨-, c, hc, q2⟩
    · rw [sort_rep_sweep h.rcls h.fcls] at q2
      refine ⟨y, i0, j0, q2, q3, by rw [e1, q1]; rfl, fun c hc => ?_⟩
      obtain ⟨A, hA⟩ := q4 c hc
      rw [NetArr.at, e2, hA]
      rfl
    · obtain ⟨n', hn'⟩ := h.possible c hc
      rw [NetArr.at, e2, q2] at hn'
      cases hn'

/-- C101 is false for an array with a repetition before a sweep of the same length: without any error
the networks are exchanged, at repetition `p` and point `q` of the sweep one finds the network of
repetition `q` and point `p`.  `convert` returns the axes in the order of their priorities, and the
result is copied by position. -/
theorem C101_order_refuted (h2 : (2 : K) ≠ 0) (full : Arr β K → Arr β K) (fmt : β → String)
    (ofIdx : Nat → β) (dflt : Imp K) (hd : dflt.Ok) (dst : Rep) (z : Option (Imp K)) (hz : ∀ z' ∈ z, z'.Ok)
    (net : NetArr β K) (hn : net.z.Ok) (r f i j : Dim β) (h : RepFirst dflt dst z net r f i j) (n : Nat)
    (hr : net.a.axisLen r.key = some n) (hf : net.a.axisLen f.key = some n) :
    ∃ res, constructArr full fmt ofIdx dflt dst z net = .ok res ∧ res.a.dims = net.a.dims ∧
      res.a.nd.shape = net.a.nd.shape ∧
      ∀ c, net.In (swapped r.key f.key c) →
        ∀ w, Sat (res.at c) w ↔ Sat (net.at (swapped r.key f.key c)) w := by
  obtain ⟨y, i0, j0, hy, hlen, e1, e2⟩ := h.result h2 full fmt ofIdx hd hz hn
  have hx := h.last
  have lr : len1 net.a r.key = n := len1_of hr
  have lf : len1 net.a f.key = n := len1_of hf
  have lr' : len1 y r.key = n := by unfold len1; rw [hlen, hr]; rfl
  have lf' : len1 y f.key = n := by unfold len1; rw [hlen, hf]; rfl
  have sx : net.a.nd.shape = [n, n, 2, 2] := by rw [hx.shape]; simp [lr, lf]
  have sy : y.nd.shape = [n, n, 2, 2] := by rw [hy.shape]; simp [lr', lf']
  have hne : r.key ≠ f.key := by
    intro e
    have := congrArg Prod.snd e
    simp only [Dim.key, h.rcls, h.fcls] at this
    cases this
  have nr := hx.pre_ne r (by simp)
  have nf := hx.pre_ne f (by simp)
  have ea : assignAll net.a y = .ok ⟨net.a.dims, ⟨net.a.nd.shape, fun idx => y.nd.get (Nd.bidx y.nd.shape idx)⟩⟩ := by
    unfold assignAll
    rw [sx, sy, bshape_self]
    simp
  refine ⟨⟨dst, newImp dflt dst z net.z, ⟨net.a.dims, ⟨net.a.nd.shape,
    fun idx => y.nd.get (Nd.bidx y.nd.shape idx)⟩⟩⟩, by rw [e1, ea]; rfl, rfl, rfl, ?_⟩
  intro c hc w
  rw [C27_same_network dflt dst z _ _ (e2 _ hc) w]
  have : (NetArr.at (⟨dst, newImp dflt dst z net.z, ⟨net.a.dims, ⟨net.a.nd.shape,
      fun idx => y.nd.get (Nd.bidx y.nd.shape idx)⟩⟩⟩ : NetArr β K) c) =
      ⟨dst, newImp dflt dst z net.z, y.mat kI kJ (swapped r.key f.key c) 2 2⟩ := by
    simp only [NetArr.at, Net.mk.injEq, true_and]
    ext m k
    show Arr.atB _ _ = Arr.atB _ _
    unfold atB
    simp only [sx, sy, hx.dims, hy.dims]
    simp [Nd.bidx, upd, swapped, hx.ikey, hx.jkey, hy.ikey, hy.jkey, nr.1, nr.2, nf.1, nf.2, hne, Ne.symm hne,
      show kJ ≠ kI by decide]
    split <;> rfl
  rw [this]

/-- C101 is false for an array with a repetition before a sweep of another length: the conversion ends
with a `ValueError` although it is possible at every coordinate. -/
theorem C101_order_error_refuted (h2 : (2 : K) ≠ 0) (full : Arr β K → Arr β K) (fmt : β → String)
    (ofIdx : Nat → β) (dflt : Imp K) (hd : dflt.Ok) (dst : Rep) (z : Option (Imp K)) (hz : ∀ z' ∈ z, z'.Ok)
    (net : NetArr β K) (hn : net.z.Ok) (r f i j : Dim β) (h : RepFirst dflt dst z net r f i j) (n m : Nat)
    (hr : net.a.axisLen r.key = some n) (hf : net.a.axisLen f.key = some m) (hnm : n ≠ m) :
    constructArr full fmt ofIdx dflt dst z net = .error .valueError := by
  obtain ⟨y, i0, j0, hy, hlen, e1, e2⟩ := h.result h2 full fmt ofIdx hd hz hn
  have lr : len1 net.a r.key = n := len1_of hr
  have lf : len1 net.a f.key = m := len1_of hf
  have lr' : len1 y r.key = n := by unfold len1; rw [hlen, hr]; rfl
  have lf' : len1 y f.key = m := by unfold len1; rw [hlen, hf]; rfl
  have sx : net.a.nd.shape = [n, m, 2, 2] := by rw [h.last.shape]; simp [lr, lf]
  have sy : y.nd.shape = [m, n, 2, 2] := by rw [hy.shape]; simp [lr', lf']
  have ea : assignAll net.a y = .error .valueError := by
    unfold assignAll
    rw [sx, sy]
    by_cases h1 : n = 1
    · subst h1
      simp [Nd.bshape, hnm, Ne.symm hnm]
    · by_cases h3 : m = 1
      · subst h3; simp [Nd.bshape, hnm, h1, Ne.symm h1]
      · simp [Nd.bshape, hnm, h1, h3, Ne.symm hnm]
  rw [e1, ea]
  rfl

/-! ### Concrete arrays -/

def eF (n : Nat) : Dim Nat := ⟨.dimSweep, "freq", List.range n, none, none⟩
def eR (n : Nat) : Dim Nat := ⟨.dimRep, "rep", List.range n, none, none⟩
def eI : Dim Nat := ⟨.matI, "i", [0, 1], none, none⟩
def eJ : Dim Nat := ⟨.matJ, "j", [0, 1], none, none⟩
def eZ : Imp ℚ := ⟨1 / 2, 1 / 2⟩

/-- Impedances `diag(1 + p + 2 q, 1)`, for indices `p` and `q`. -/
def eGet : List Nat → ℚ
  | [p, q, 0, 0] => 1 + p + 2 * q
  | [_, _, 1, 1] => 1
  | _ => 0

/-- Four networks, with the sweep first or the repetition first. -/
def eGood : NetArr Nat ℚ := ⟨.Z, eZ, ⟨[eF 2, eR 2, eI, eJ], ⟨[2, 2, 2, 2], eGet⟩⟩⟩
def eBad : NetArr Nat ℚ := ⟨.Z, eZ, ⟨[eR 2, eF 2, eI, eJ], ⟨[2, 2, 2, 2], eGet⟩⟩⟩
def eOdd : NetArr Nat ℚ := ⟨.Z, eZ, ⟨[eR 2, eF 3, eI, eJ], ⟨[2, 3, 2, 2], eGet⟩⟩⟩

theorem eZ_ok : eZ.Ok := by constructor <;> norm_num [eZ]

theorem eGood_ports : TwoPorts eGood [eF 2, eR 2] :=
  ⟨⟨eI, eJ, ⟨⟨rfl, by unfold Distinct; decide +kernel, by decide +kernel, by decide +kernel, rfl, rfl,
    by decide +kernel⟩, rfl, rfl, rfl⟩⟩, by unfold NoSub; decide +kernel⟩

theorem eBad_last : eBad.a.Last kI kJ 2 [eR 2, eF 2] eI eJ :=
  ⟨⟨rfl, by unfold Distinct; decide +kernel, by decide +kernel, by decide +kernel, rfl, rfl, by decide +kernel⟩,
    rfl, rfl, rfl⟩

theorem eOdd_last : eOdd.a.Last kI kJ 2 [eR 2, eF 3] eI eJ :=
  ⟨⟨rfl, by unfold Distinct; decide +kernel, by decide +kernel, by decide +kernel, rfl, rfl, by decide +kernel⟩,
    rfl, rfl, rfl⟩

/-- The H-parameters of a diagonal impedance. -/
theorem sat_H (z : Imp ℚ) (x : ℚ) (w : Port ℚ) :
    Sat ⟨.Z, z, !![x, 0; 0, 1]⟩ w ↔ Sat ⟨.H, z, !![x, 0; 0, 1]⟩ w := by
  simp only [Sat, Lin]
  simp
  intro _
  constructor <;> intro h <;> linarith

theorem e_mat (a : Arr Nat ℚ) (d e : Dim Nat) (n m : Nat) (hdI : d.key ≠ kI ∧ d.key ≠ kJ)
    (heI : e.key ≠ kI ∧ e.key ≠ kJ) (c : Coord) :
    ∃ x, (⟨[d, e, eI, eJ], ⟨[n, m, 2, 2], eGet⟩⟩ : Arr Nat ℚ).mat kI kJ c 2 2 = !![x, 0; 0, 1] := by
  refine ⟨1 + ((if n = 1 then 0 else c d.key : Nat) : ℚ) + 2 * ((if m = 1 then 0 else c e.key : Nat) : ℚ), ?_⟩
  ext p q
  show Arr.atB _ _ = _
  have k1 : eI.key = kI := rfl
  have k2 : eJ.key = kJ := rfl
  have k3 : kJ ≠ kI := by decide
  unfold atB
  fin_cases p <;> fin_cases q <;>
    simp [upd, hdI.1, hdI.2, heI.1, heI.2, k1, k2, k3, eGet]

theorem e_possible (net : NetArr Nat ℚ) (d e : Dim Nat) (n m : Nat) (hdI : d.key ≠ kI ∧ d.key ≠ kJ)
    (heI : e.key ≠ kI ∧ e.key ≠ kJ) (hnet : net = ⟨.Z, eZ, ⟨[d, e, eI, eJ], ⟨[n, m, 2, 2], eGet⟩⟩⟩) (c : Coord) :
    ∃ m', ∀ w, Sat (net.at c) w ↔ Sat ⟨.H, if Rep.H = .S then (none : Option (Imp ℚ)).getD eZ else net.z, m'⟩ w := by
  subst hnet
  obtain ⟨x, hx⟩ := e_mat ⟨[], ⟨[], fun _ => 0⟩⟩ d e n m hdI heI c
  refine ⟨!![x, 0; 0, 1], fun w => ?_⟩
  simp only [NetArr.at, hx]
  exact sat_H eZ x w

/-- The hypotheses of C101 hold for two sweep points and two repetitions, and the conversion to
H-parameters succeeds. -/
example : ∃ r, constructArr id toString id eZ .H none eGood = .ok r :=
  C101_exists (by norm_num) _ _ _ eZ eZ_ok .H none (by simp) eGood eZ_ok eGood_ports
    (Or.inl (by unfold SweepsFirst; decide +kernel)) fun c _ =>
      e_possible eGood (eF 2) (eR 2) 2 2 (by decide) (by decide) rfl c

/-- And back: the hypotheses of `C101_back`, up to the success of the second conversion, which follows
from `C101_exists` again. -/
example : ∃ r b, constructArr id toString id eZ .H none eGood = .ok r ∧
    constructArr id toString id eZ .Z none r = .ok b ∧ b.rep = eGood.rep ∧ b.z = eGood.z := by
  obtain ⟨r, hr⟩ := C101_exists (by norm_num) id toString id eZ eZ_ok .H none (by simp) eGood eZ_ok eGood_ports
    (Or.inl (by unfold SweepsFirst; decide +kernel)) fun c _ =>
      e_possible eGood (eF 2) (eR 2) 2 2 (by decide) (by decide) rfl c
  obtain ⟨h1, h2⟩ := C101_class id toString id eZ .H none eGood r eGood_ports hr
  have hg : SweepsFirst [eF 2, eR 2] := by unfold SweepsFirst; decide +kernel
  have h3 := C101_same_network (by norm_num) id toString id eZ eZ_ok .H none (by simp) eGood r eZ_ok eGood_ports
    (Or.inl hg) hr
  have hp : TwoPorts r [eF 2, eR 2] := eGood_ports.same h3.1 h3.2.1
  have hz : r.z = eZ := by rw [h2]; simp [eGood]
  have hlen : ∀ k, r.a.axisLen k = eGood.a.axisLen k := fun k => by unfold axisLen; rw [h3.1, h3.2.1]
  obtain ⟨b, hb⟩ := C101_exists (by norm_num) id toString id eZ eZ_ok .Z none (by simp) r (by rw [hz]; exact eZ_ok) hp
    (Or.inl hg) (fun c hc => ⟨(eGood.at c).m, fun w => by
      have := (h3.2.2 c ((inStack_congr hlen).1 hc)).2 w
      rw [← this]
      simp [hz, NetArr.at, eGood]⟩)
  obtain ⟨h4, h5⟩ := C101_class id toString id eZ .Z none r b hp hb
  exact ⟨r, b, hr, hb, h4, by rw [h5, h1]; simp [hz, eGood]⟩

/-- A short at both ports at every point: the hypotheses of `C101_singular`. -/
def eShort : NetArr Nat ℚ := ⟨.Z, eZ, ⟨[eF 2, eI, eJ], ⟨[2, 2, 2], fun _ => 0⟩⟩⟩

example : constructArr id toString id eZ .H none eShort = .error .linAlgError := by
  refine C101_singular (by norm_num) id toString id eZ eZ_ok .H none (by simp) eShort eZ_ok (pre := [eF 2])
    ⟨⟨eI, eJ, ⟨⟨rfl, by unfold Distinct; decide +kernel, by decide +kernel, by decide +kernel, rfl, rfl,
      by decide +kernel⟩, rfl, rfl, rfl⟩⟩, by unfold NoSub; decide +kernel⟩
    (Or.inl (by unfold SweepsFirst; simp)) (fun _ => 0) ?_ ?_
  · intro k s h1 h2 hk
    right
    have hm := axisLen_isSome (x := eShort.a) rfl hk
    have : ∀ d ∈ eShort.a.dims, eShort.a.axisLen d.key = some 2 := by decide +kernel
    obtain ⟨d, hd, rfl⟩ := List.mem_map.1 hm
    rw [this d hd] at hk
    have := Option.some.inj hk
    show 0 < s
    omega
  · intro z' m' h
    have h1 := (h ⟨0, 0, 0, 1⟩).1 (by
      have : ∀ p q, (eShort.at fun _ => 0).m p q = 0 := fun _ _ => rfl
      simp [Sat, Lin, NetArr.at, eShort, Arr.mat, atB])
    simp [Sat, Lin] at h1

theorem eBad_first : RepFirst eZ .H none eBad (eR 2) (eF 2) eI eJ where
  last := eBad_last
  nosub := by unfold NoSub; decide +kernel
  rcls := rfl
  fcls := rfl
  indirect := by unfold Direct; decide
  other := fun h => Rep.noConfusion h.1
  possible := fun c _ => by
    obtain ⟨m', hm⟩ := e_possible eBad (eR 2) (eF 2) 2 2 (by decide) (by decide) rfl c
    exact C27_exists (by norm_num) eZ eZ_ok .H none (by simp) (eBad.at c) eZ_ok m' hm

/-- The hypotheses of `C101_order_error_refuted` hold for two repetitions of three points. -/
example : RepFirst eZ .H none eOdd (eR 2) (eF 3) eI eJ ∧ eOdd.a.axisLen (eR 2).key = some 2 ∧
    eOdd.a.axisLen (eF 3).key = some 3 := by
  refine ⟨⟨eOdd_last, by unfold NoSub; decide +kernel, rfl, rfl, by unfold Direct; decide,
    fun h => Rep.noConfusion h.1, fun c _ => ?_⟩, by decide +kernel, by decide +kernel⟩
  obtain ⟨m', hm⟩ := e_possible eOdd (eR 2) (eF 3) 2 3 (by decide) (by decide) rfl c
  exact C27_exists (by norm_num) eZ eZ_ok .H none (by simp) (eOdd.at c) eZ_ok m' hm

/-- C101 is false: after the conversion of four networks, the one at the first repetition and second
point is another network than before. -/
theorem C101_exchanged_witness : ∃ (res : NetArr Nat ℚ) (c : Coord) (w : Port ℚ),
    constructArr id toString id eZ .H none eBad = .ok res ∧ eBad.In c ∧ Sat (eBad.at c) w ∧ ¬ Sat (res.at c) w := by
  obtain ⟨res, h1, -, -, h4⟩ := C101_order_refuted (by norm_num) id toString id eZ eZ_ok .H none (by simp) eBad eZ_ok
    (eR 2) (eF 2) eI eJ eBad_first 2 (by decide +kernel) (by decide +kernel)
  have hin : ∀ c : Coord, (∀ k, c k < 2) → eBad.In c := by
    intro c hc k s h1 h2 hk
    right
    have hm := axisLen_isSome eBad_last.stack.wf hk
    have hs : s = 2 := by
      have : ∀ d ∈ eBad.a.dims, eBad.a.axisLen d.key = some 2 := by decide +kernel
      obtain ⟨d, hd, rfl⟩ := List.mem_map.1 hm
      rw [this d hd] at hk
      exact (Option.some.inj hk).symm
    rw [hs]; exact hc k
  refine ⟨res, fun k => if k = (eF 2).key then 1 else 0, ⟨3, 0, 1, 0⟩, h1, ?_, ?_, ?_⟩
  · exact hin _ fun k => by show (if k = (eF 2).key then 1 else 0) < 2; split <;> omega
  · simp only [Sat, NetArr.at, Lin]
    have k1 : (1 : Fin 2) = ⟨1, by omega⟩ := rfl
    have g00 : eBad.a.mat kI kJ (fun k => if k = (eF 2).key then 1 else 0) 2 2 0 0 = 3 := by decide +kernel
    have g01 : eBad.a.mat kI kJ (fun k => if k = (eF 2).key then 1 else 0) 2 2 0 1 = 0 := by decide +kernel
    have g10 : eBad.a.mat kI kJ (fun k => if k = (eF 2).key then 1 else 0) 2 2 1 0 = 0 := by decide +kernel
    have g11 : eBad.a.mat kI kJ (fun k => if k = (eF 2).key then 1 else 0) 2 2 1 1 = 1 := by decide +kernel
    show (3 : ℚ) = _ ∧ (0 : ℚ) = _
    rw [g00, g01, g10, g11]
    norm_num
  · rw [h4 _ (hin _ fun k => by unfold swapped; dsimp only; split_ifs <;> omega)]
    simp only [Sat, NetArr.at, Lin]
    intro h
    have g00 : eBad.a.mat kI kJ (swapped (eR 2).key (eF 2).key fun k => if k = (eF 2).key then 1 else 0) 2 2 0 0 = 2 := by
      decide +kernel
    have g01 : eBad.a.mat kI kJ (swapped (eR 2).key (eF 2).key fun k => if k = (eF 2).key then 1 else 0) 2 2 0 1 = 0 := by
      decide +kernel
    have h1 : (3 : ℚ) = _ := h.1
    rw [g00, g01] at h1
    norm_num at h1

end HF.Networks
