import Verif.Networks.PortsLemmas
/-
C103: conversion of arrays of networks with any number of ports.

Between impedances and admittances it is as documented.  Scattering parameters are documented "of any
dimension", but can be converted for two ports only.
-/
noncomputable section

namespace HF.Networks

open HF.Arr

variable {β K : Type} [Field K] [DecidableEq K]

/-! ### Specification -/

/-- Voltages `v` and currents `i` at the ports of a network with these parameters: `v = Z i`, `i = Y v`,
and `b = S a` with the waves `a` and `b`. -/
def PortSat {n : Nat} (z : Imp K) (m : Matrix (Fin n) (Fin n) K) (v i : Fin n → K) : Kind → Prop
  | .Z => v = m.mulVec i
  | .Y => i = m.mulVec v
  | .S => (fun k => z.v * v k - z.i * i k) = m.mulVec fun k => z.v * v k + z.i * i k

/-- Parameters `m` and `m'` of the same network. -/
def SameNet {n : Nat} (k k' : Kind) (z z' : Imp K) (m m' : Matrix (Fin n) (Fin n) K) : Prop :=
  ∀ v i, PortSat z m v i k ↔ PortSat z' m' v i k'

/-- An array of `n` by `n` matrices: rows `i` and columns `j` come last, the other axes are sweeps and
repetitions. -/
structure Ports (net : PortArr β K) (n : Nat) : Prop where
  last : ∃ pre i j, net.a.Last kI kJ n pre i j
  nosub : NoSub net.a.dims

/-- The matrix at a coordinate. -/
def PortArr.at (net : PortArr β K) (n : Nat) (c : Coord) : Matrix (Fin n) (Fin n) K := net.a.mat kI kJ c n n

/-- The coordinate lies inside of the array. -/
def PortArr.In (net : PortArr β K) (c : Coord) : Prop := net.a.InStack kI kJ c

/-- Impedances and admittances. -/
def Immittance (k k' : Kind) : Prop := (k = .Z ∧ k' = .Y) ∨ (k = .Y ∧ k' = .Z)

/-! ### Helpers -/

theorem same_of_mul {n : Nat} {k k' : Kind} (h : Immittance k k') (z z' : Imp K) (m m' : Matrix (Fin n) (Fin n) K) :
    SameNet k k' z z' m m' ↔ m * m' = 1 ∧ m' * m = 1 := by
  have main : (∀ v i : Fin n → K, v = m.mulVec i ↔ i = m'.mulVec v) ↔ m * m' = 1 ∧ m' * m = 1 := by
    constructor
    · intro h
      have h1 : m * m' = 1 := by
        apply Matrix.ext_of_mulVec_single
        intro x
        rw [← Matrix.mulVec_mulVec, ← (h _ _).2 rfl, Matrix.one_mulVec]
      exact ⟨h1, mul_eq_one_comm.1 h1⟩
    · rintro ⟨h1, h2⟩ v i
      constructor
      · rintro rfl; rw [Matrix.mulVec_mulVec, h2, Matrix.one_mulVec]
      · rintro rfl; rw [Matrix.mulVec_mulVec, h1, Matrix.one_mulVec]
  rcases h with ⟨rfl, rfl⟩ | ⟨rfl, rfl⟩
  · exact main
  · rw [← main]
    unfold SameNet PortSat
    constructor
    · intro h v i; exact h i v
    · intro h v i; exact h i v

theorem immittance_eq (full : Arr β K → Arr β K) (fmt : β → String) (ofIdx : Nat → β) (dflt : Imp K) {dst : Kind}
    (z : Option (Imp K)) {net : PortArr β K} {n : Nat} (h : Ports net n) (hk : Immittance net.kind dst) :
    constructPorts full fmt ofIdx dflt dst z net =
      ((Arr.inv net.a).bind fun m => (assignAll net.a m).map fun r => ⟨dst, dflt, r⟩) := by
  obtain ⟨⟨pre, i, j, hL⟩, -⟩ := h
  obtain ⟨hsq, t, ht⟩ := last_square hL
  obtain ⟨k, z0, a⟩ := net
  simp only at hsq ht hL hk ⊢
  rcases hk with ⟨rfl, rfl⟩ | ⟨rfl, rfl⟩
  · simp only [constructPorts, ht, if_true]
    rfl
  · simp only [constructPorts, hsq, if_true]
    rfl

theorem other_eq (full : Arr β K → Arr β K) (fmt : β → String) (ofIdx : Nat → β) (dflt : Imp K) {dst : Kind}
    (z : Option (Imp K)) {net : PortArr β K} {n : Nat} (h : Ports net n) (hk : ¬ Immittance net.kind dst) :
    constructPorts full fmt ofIdx dflt dst z net =
      if net.kind = dst ∧ dflt = net.z then .ok net
      else ((convertArr full fmt (ofBlocks ofIdx (portP n net.z net.kind))
          (ofBlocks ofIdx (portP n (if dst = .S then z.getD dflt else net.z) dst)) net.a).bind fun res =>
        (assignAll net.a res).map fun r => ⟨dst, if dst = .S then z.getD dflt else net.z, r⟩) := by
  obtain ⟨⟨pre, i, j, hL⟩, -⟩ := h
  obtain ⟨hsq, t, ht⟩ := last_square hL
  have hl : net.a.nd.shape.getLastD 0 = n := by rw [hL.shape]; simp
  obtain ⟨k, z0, a⟩ := net
  simp only at hsq ht hL hk hl ⊢
  have g : constructPorts full fmt ofIdx dflt dst z ⟨k, z0, a⟩ =
      if k = dst ∧ dflt = z0 then .ok ⟨k, z0, a⟩
      else if squareMatrix a then
        ((convertArr full fmt (ofBlocks ofIdx (portP (a.nd.shape.getLastD 0) z0 k))
          (ofBlocks ofIdx (portP (a.nd.shape.getLastD 0) (if dst = .S then z.getD dflt else z0) dst)) a).bind
          fun res => (assignAll a res).map fun r => ⟨dst, if dst = .S then z.getD dflt else z0, r⟩)
      else .error .valueError := by
    cases k <;> cases dst <;>
      first
      | exact absurd (Or.inl ⟨rfl, rfl⟩) hk
      | exact absurd (Or.inr ⟨rfl, rfl⟩) hk
      | rfl
  rw [g, hsq, if_pos rfl, hl]

/-- Either every matrix is inverted or there is an error. -/
theorem immittance_cases (full : Arr β K → Arr β K) (fmt : β → String) (ofIdx : Nat → β) (dflt : Imp K) {dst : Kind}
    (z : Option (Imp K)) {net : PortArr β K} {n : Nat} (h : Ports net n) (hk : Immittance net.kind dst) :
    (∃ r, constructPorts full fmt ofIdx dflt dst z net = .ok r ∧ r.kind = dst ∧ r.z = dflt ∧
      r.a.dims = net.a.dims ∧ r.a.nd.shape = net.a.nd.shape ∧
      ∀ c, net.In c → SameNet net.kind dst net.z dflt (net.at n c) (r.at n c)) ∨
    (constructPorts full fmt ofIdx dflt dst z net = .error .linAlgError ∧
      ∃ c, net.In c ∧ ∀ z' m', ¬ SameNet net.kind dst net.z z' (net.at n c) m') := by
  have e1 := immittance_eq full fmt ofIdx dflt z h hk
  obtain ⟨⟨pre, i, j, hL⟩, -⟩ := h
  by_cases hreg : net.a.Regular kI kJ n
  · left
    obtain ⟨m, em, lm, nm, mm⟩ := C59_inverse net.a hL hreg
    obtain ⟨r, er, r1, r2, r3⟩ := assign_same hL lm nm
    refine ⟨⟨dst, dflt, r⟩, ?_, rfl, rfl, r1, r2, ?_⟩
    · rw [e1, em]; simp only [Except.bind, er]; rfl
    · intro c hc
      have hu := isUnit_iff_ne_zero.2 (hreg c hc)
      rw [same_of_mul hk]
      unfold PortArr.at
      rw [r3, mm c hc]
      exact ⟨Matrix.mul_nonsing_inv _ hu, Matrix.nonsing_inv_mul _ hu⟩
  · right
    constructor
    · rw [e1, C59_singular net.a hL hreg]; rfl
    · unfold Regular at hreg
      push Not at hreg
      obtain ⟨c, hc, h0⟩ := hreg
      refine ⟨c, hc, fun z' m' hs => ?_⟩
      rw [same_of_mul hk] at hs
      have := congrArg Matrix.det hs.1
      unfold PortArr.at at this
      rw [Matrix.det_mul, h0, zero_mul, Matrix.det_one] at this
      exact zero_ne_one this

/-! ### The property -/

/-- C103.  Converted from impedances to admittances or back, networks of any number of ports have the
same axes in the same order, and at every coordinate the result describes the same network: the same
voltages and currents satisfy the equations. -/
theorem C103_same_network (full : Arr β K → Arr β K) (fmt : β → String) (ofIdx : Nat → β) (dflt : Imp K) (dst : Kind)
    (z : Option (Imp K)) (net r : PortArr β K) {n : Nat} (h : Ports net n) (hk : Immittance net.kind dst)
    (hr : constructPorts full fmt ofIdx dflt dst z net = .ok r) :
    r.kind = dst ∧ r.z = dflt ∧ r.a.dims = net.a.dims ∧ r.a.nd.shape = net.a.nd.shape ∧
      ∀ c, net.In c → SameNet net.kind r.kind net.z r.z (net.at n c) (r.at n c) := by
  rcases immittance_cases full fmt ofIdx dflt z h hk with ⟨r', e, h1, h2, h3, h4, h5⟩ | ⟨e, -⟩
  · rw [hr] at e
    obtain rfl := Except.ok.inj e
    exact ⟨h1, h2, h3, h4, by rw [h1, h2]; exact h5⟩
  · rw [hr] at e; cases e

/-- C103.  This conversion succeeds if and only if every network has such parameters; otherwise there
is `LinAlgError` and no result at all. -/
theorem C103_exists (full : Arr β K → Arr β K) (fmt : β → String) (ofIdx : Nat → β) (dflt : Imp K) (dst : Kind)
    (z : Option (Imp K)) (net : PortArr β K) {n : Nat} (h : Ports net n) (hk : Immittance net.kind dst) :
    ((∀ c, net.In c → ∃ m', SameNet net.kind dst net.z dflt (net.at n c) m') →
      ∃ r, constructPorts full fmt ofIdx dflt dst z net = .ok r) ∧
    (¬ (∀ c, net.In c → ∃ m', SameNet net.kind dst net.z dflt (net.at n c) m') →
      constructPorts full fmt ofIdx dflt dst z net = .error .linAlgError) := by
  rcases immittance_cases full fmt ofIdx dflt z h hk with ⟨r', e, h1, h2, h3, h4, h5⟩ | ⟨e, c, hc, hno⟩
  · exact ⟨fun _ => ⟨r', e⟩, fun hn => absurd (fun c hc => ⟨_, h5 c hc⟩) hn⟩
  · refine ⟨fun hall => ?_, fun _ => e⟩
    obtain ⟨m', hm⟩ := hall c hc
    exact absurd hm (hno _ m')

/-- C103.  There and back gives every element of the array one began with. -/
theorem C103_back (full : Arr β K → Arr β K) (fmt : β → String) (ofIdx : Nat → β) (dflt : Imp K) (dst : Kind)
    (z z2 : Option (Imp K)) (net r : PortArr β K) {n : Nat} (h : Ports net n) (hk : Immittance net.kind dst)
    (hr : constructPorts full fmt ofIdx dflt dst z net = .ok r) :
    ∃ b, constructPorts full fmt ofIdx dflt net.kind z2 r = .ok b ∧ b.kind = net.kind ∧ b.a.dims = net.a.dims ∧
      b.a.nd.shape = net.a.nd.shape ∧ ∀ c, net.In c → ∀ m k : Fin n,
        b.a.atB (upd c kI kJ m.1 k.1) = net.a.atB (upd c kI kJ m.1 k.1) := by
  obtain ⟨h1, h2, h3, h4, h5⟩ := C103_same_network full fmt ofIdx dflt dst z net r h hk hr
  have hlen : ∀ k, r.a.axisLen k = net.a.axisLen k := fun k => by unfold axisLen; rw [h3, h4]
  obtain ⟨⟨pre, i, j, hL⟩, hns⟩ := h
  have hr2 : Ports r n := by
    refine ⟨⟨pre, i, j, ⟨⟨?_, ?_, ?_, ?_, rfl, rfl, ?_⟩, ?_, hL.ikey, hL.jkey⟩⟩, by rw [h3]; exact hns⟩
    · have := hL.stack.wf; unfold WF at this ⊢; rw [h3, h4]; exact this
    · rw [h3]; exact hL.stack.distinct
    · rw [hlen]; exact hL.stack.rows
    · rw [hlen]; exact hL.stack.cols
    · rw [h3]; exact hL.stack.others
    · rw [h3]; exact hL.dims
  have hk2 : Immittance r.kind net.kind := by
    rw [h1]
    rcases hk with ⟨a, b⟩ | ⟨a, b⟩
    · exact Or.inr ⟨b, a⟩
    · exact Or.inl ⟨b, a⟩
  rw [h1, h2] at h5
  rcases immittance_cases full fmt ofIdx dflt z2 hr2 hk2 with ⟨b, e, b1, b2, b3, b4, b5⟩ | ⟨e, c, hc, hno⟩
  · refine ⟨b, e, b1, b3.trans h3, b4.trans h4, fun c hc m k => ?_⟩
    have s1 := (same_of_mul hk _ _ _ _).1 (h5 c hc)
    have s2 := (same_of_mul hk2 _ _ _ _).1 (b5 c ((inStack_congr hlen).2 hc))
    have : b.at n c = net.at n c := by
      rw [← one_mul (b.at n c), ← s1.1, mul_assoc, s2.1, mul_one]
    exact congrFun (congrFun this m) k
  · have s1 := (same_of_mul hk _ _ _ _).1 (h5 c ((inStack_congr hlen).1 hc))
    exact absurd ((same_of_mul hk2 _ net.z _ (net.at n c)).2 ⟨s1.2, s1.1⟩) (hno _ _)

/-- C103.  An array of the class asked for, with the default impedance, is returned as it is. -/
theorem C103_same_class (full : Arr β K → Arr β K) (fmt : β → String) (ofIdx : Nat → β) (dflt : Imp K)
    (z : Option (Imp K)) (net : PortArr β K) {n : Nat} (h : Ports net n) (hz : net.z = dflt) :
    constructPorts full fmt ofIdx dflt net.kind z net = .ok net := by
  rw [other_eq full fmt ofIdx dflt z h, if_pos ⟨rfl, hz.symm⟩]
  rintro (⟨a, b⟩ | ⟨a, b⟩) <;> · rw [a] at b; cases b

theorem portP_two (ofIdx : Nat → β) (z : Imp K) (k : Kind) :
    ofBlocks ofIdx (portP 2 z k) = ofMat ofIdx (Pmat z k.rep) := by
  have : ∀ m l : Fin 4, (Matrix.reindex finSumFinEquiv finSumFinEquiv (portP 2 z k) : Matrix (Fin (2 + 2)) (Fin (2 + 2)) K) m l =
      Pmat z k.rep m l := by
    intro m l
    have hσ : ∀ m : Fin 4, finSumFinEquiv.symm (m : Fin (2 + 2)) =
        (![Sum.inl 0, Sum.inl 1, Sum.inr 0, Sum.inr 1] : Fin 4 → Fin 2 ⊕ Fin 2) m := by decide
    rw [Matrix.reindex_apply, Matrix.submatrix_apply]
    erw [hσ m, hσ l]
    cases k <;> fin_cases m <;> fin_cases l <;> simp [portP, Pmat, Kind.rep, Matrix.one_apply]
  unfold ofBlocks ofMat
  congr 2
  funext idx
  unfold Nd.elemOf
  split
  · exact this _ _
  · rfl

/-- C103.  For two ports this is the conversion of C101. -/
theorem C103_two_ports (full : Arr β K → Arr β K) (fmt : β → String) (ofIdx : Nat → β) (dflt : Imp K) (dst : Kind)
    (z : Option (Imp K)) (net : PortArr β K) (h : Ports net 2) :
    (constructPorts full fmt ofIdx dflt dst z net).map (fun r => (⟨r.kind.rep, r.z, r.a⟩ : NetArr β K)) =
      constructArr full fmt ofIdx dflt dst.rep z ⟨net.kind.rep, net.z, net.a⟩ := by
  obtain ⟨⟨pre, i, j, hL⟩, hns⟩ := id h
  have hrep : ∀ a b : Kind, a.rep = b.rep ↔ a = b := by intro a b; cases a <;> cases b <;> decide
  have hS : ∀ a : Kind, a.rep = .S ↔ a = .S := by intro a; cases a <;> decide
  have hD : Direct net.kind.rep dst.rep ↔ Immittance net.kind dst := by
    unfold Direct Immittance
    generalize net.kind = k
    cases k <;> cases dst <;> decide
  have hnew : newImp dflt dst.rep z net.z = if dst = .S then z.getD dflt else net.z := by
    unfold newImp
    simp only [hS]
  rcases construct_cases full fmt ofIdx dflt dst.rep z ⟨net.kind.rep, net.z, net.a⟩ hL with
    ⟨d, e1, -⟩ | ⟨d, hE, e1, -⟩ | ⟨d, hE, e1, -⟩
  · rw [e1, immittance_eq full fmt ofIdx dflt z h (hD.1 d)]
    cases Arr.inv net.a with
    | error e => rfl
    | ok m => simp only [Except.bind]; cases assignAll net.a m <;> rfl
  · rw [e1, other_eq full fmt ofIdx dflt z h (fun q => d (hD.2 q)), if_pos ⟨(hrep _ _).1 hE.1, hE.2⟩]
    rfl
  · rw [e1, other_eq full fmt ofIdx dflt z h (fun q => d (hD.2 q)),
      if_neg (fun q => hE ⟨(hrep _ _).2 q.1, q.2⟩), portP_two, portP_two, hnew]
    cases convertArr full fmt (ofMat ofIdx (Pmat net.z net.kind.rep))
      (ofMat ofIdx (Pmat (if dst = .S then z.getD dflt else net.z) dst.rep)) net.a with
    | error e => rfl
    | ok m => simp only [Except.bind]; cases assignAll net.a m <;> rfl

/-- C103, not as documented.  With scattering parameters on either side, no array of networks with one
port or with more than two ports can be converted, whatever its elements. -/
theorem C103_fails (full : Arr β K → Arr β K) (fmt : β → String) (ofIdx : Nat → β) (dflt : Imp K) (dst : Kind)
    (z : Option (Imp K)) (net : PortArr β K) {n : Nat} (h : Ports net n) (hn : 0 < n) (hn2 : n ≠ 2)
    (hS : net.kind ≠ dst) (hk : net.kind = .S ∨ dst = .S) :
    ∃ e, constructPorts full fmt ofIdx dflt dst z net = .error e := by
  have hi : ¬ Immittance net.kind dst := by
    rintro (⟨a, b⟩ | ⟨a, b⟩) <;> rcases hk with c | c <;> simp_all
  rw [other_eq full fmt ofIdx dflt z h hi, if_neg (fun q => hS q.1)]
  obtain ⟨⟨pre, i, j, hL⟩, hns⟩ := h
  obtain ⟨e, he⟩ := convert_fails full fmt ofIdx hn hn2 (portP n net.z net.kind)
    (portP n (if dst = .S then z.getD dflt else net.z) dst) hL hns
  refine ⟨e, ?_⟩
  cases q : convertArr full fmt (ofBlocks ofIdx (portP n net.z net.kind))
    (ofBlocks ofIdx (portP n (if dst = .S then z.getD dflt else net.z) dst)) net.a with
  | error e' => rw [q] at he; exact congrArg Except.error (Except.error.inj he)
  | ok res =>
    rw [q] at he
    simp only [Except.bind] at he ⊢
    rw [he]
    rfl

/-- C103.  Changing the reference impedance of scattering parameters fails as well. -/
theorem C103_impedance_fails (full : Arr β K → Arr β K) (fmt : β → String) (ofIdx : Nat → β) (dflt : Imp K)
    (z : Option (Imp K)) (net : PortArr β K) {n : Nat} (h : Ports net n) (hn : 0 < n) (hn2 : n ≠ 2)
    (hz : net.z ≠ dflt) :
    ∃ e, constructPorts full fmt ofIdx dflt net.kind z net = .error e := by
  have hi : ¬ Immittance net.kind net.kind := by
    rintro (⟨a, b⟩ | ⟨a, b⟩) <;> · rw [a] at b; cases b
  rw [other_eq full fmt ofIdx dflt z h hi, if_neg (fun q => hz q.2.symm)]
  obtain ⟨⟨pre, i, j, hL⟩, hns⟩ := h
  obtain ⟨e, he⟩ := convert_fails full fmt ofIdx hn hn2 (portP n net.z net.kind)
    (portP n (if net.kind = .S then z.getD dflt else net.z) net.kind) hL hns
  refine ⟨e, ?_⟩
  cases q : convertArr full fmt (ofBlocks ofIdx (portP n net.z net.kind))
    (ofBlocks ofIdx (portP n (if net.kind = .S then z.getD dflt else net.z) net.kind)) net.a with
  | error e' => rw [q] at he; exact congrArg Except.error (Except.error.inj he)
  | ok res =>
    rw [q] at he
    simp only [Except.bind] at he ⊢
    rw [he]
    rfl

/-- `n` resistors of resistance one. -/
def resistors (ofIdx : Nat → β) (z : Imp K) (n : Nat) : PortArr β K :=
  ⟨.Z, z, ⟨[⟨.matI, "i", (List.range n).map ofIdx, none, none⟩, ⟨.matJ, "j", (List.range n).map ofIdx, none, none⟩],
    ⟨[n, n], fun idx => if idx.getD 0 0 = idx.getD 1 0 then 1 else 0⟩⟩⟩

theorem resistors_ports (ofIdx : Nat → β) (z : Imp K) (n : Nat) : Ports (resistors ofIdx z n) n := by
  refine ⟨⟨[], _, _, last_two n rfl rfl _⟩, ?_⟩
  show NoSub [_, _]
  intro d hd e he
  simp only [List.mem_cons, List.not_mem_nil, or_false] at hd he
  rcases hd with rfl | rfl <;> rcases he with rfl | rfl <;> simp

theorem resistors_at (ofIdx : Nat → β) (z : Imp K) (n : Nat) (c : Coord) : (resistors ofIdx z n).at n c = 1 := by
  ext m k
  refine (mat_two n rfl rfl _ c m k).trans ?_
  simp [Matrix.one_apply, Fin.ext_iff]

/-- C103, not as documented.  Some networks for which the conversion fails do have scattering
parameters: resistors at each of the ports, matched to the reference impedance, have `S = 0`. -/
theorem C103_matched_refuted (full : Arr β K → Arr β K) (fmt : β → String) (ofIdx : Nat → β) (n : Nat) (hn : 0 < n)
    (hn2 : n ≠ 2) :
    Ports (resistors ofIdx (⟨1, 1⟩ : Imp K) n) n ∧
    (∀ c, SameNet .Z .S ⟨1, 1⟩ ⟨1, 1⟩ ((resistors ofIdx (⟨1, 1⟩ : Imp K) n).at n c) 0) ∧
      ∃ e, constructPorts full fmt ofIdx ⟨1, 1⟩ .S none (resistors ofIdx (⟨1, 1⟩ : Imp K) n) = .error e := by
  have hP := resistors_ports ofIdx (⟨1, 1⟩ : Imp K) n
  refine ⟨hP, fun c v i => ?_, C103_fails full fmt ofIdx _ .S none _ hP hn hn2 (by intro h; cases h) (Or.inr rfl)⟩
  rw [resistors_at]
  unfold PortSat
  simp only [Matrix.one_mulVec, Matrix.zero_mulVec, one_mul]
  constructor
  · rintro rfl; funext k; simp
  · intro h; funext k; exact sub_eq_zero.1 (congrFun h k)

/-- C103.  Matrices which are not square are refused, whatever their axes and elements. -/
theorem C103_not_square (full : Arr β K → Arr β K) (fmt : β → String) (ofIdx : Nat → β) (dflt : Imp K) (dst : Kind)
    (z : Option (Imp K)) (net : PortArr β K) (hne : net.kind ≠ dst) {s : List Nat} {m n : Nat}
    (hs : net.a.nd.shape = s ++ [m, n]) (hmn : m ≠ n) :
    constructPorts full fmt ofIdx dflt dst z net = .error .valueError := by
  have hr : net.a.nd.shape.reverse = n :: m :: s.reverse := by rw [hs]; simp
  have hq : squareMatrix net.a = false := by
    unfold squareMatrix
    rw [hr]
    split
    · rename_i h
      cases h
      simp [hmn]
    · rfl
  unfold constructPorts
  cases hk : net.kind <;> cases dst <;> first
    | exact absurd hk hne
    | simp [hq, hr, hmn, Ne.symm hmn]

example : ∃ net : PortArr Nat ℚ, net.kind ≠ .Y ∧ net.a.nd.shape = [3] ++ [1, 2] :=
  ⟨⟨.Z, ⟨1, 1⟩, ⟨[⟨.dimSweep, "freq", [1, 2, 3], none, none⟩, ⟨.matI, "i", [0], none, none⟩,
    ⟨.matJ, "j", [0, 1], none, none⟩], ⟨[3, 1, 2], fun _ => 1⟩⟩⟩, by decide, rfl⟩

/-- Three resistors: as admittances they are the same numbers. -/
example (full : Arr β K → Arr β K) (fmt : β → String) (ofIdx : Nat → β) (z : Imp K) :
    ∃ r, constructPorts full fmt ofIdx z .Y none (resistors ofIdx z 3) = .ok r ∧
      ∀ c, r.at 3 c = (resistors ofIdx z 3).at 3 c := by
  have hP := resistors_ports ofIdx z 3
  obtain ⟨r, hr⟩ := (C103_exists full fmt ofIdx z .Y none _ hP (Or.inl ⟨rfl, rfl⟩)).1 (fun c _ => ⟨1, by
    refine (same_of_mul (k := .Z) (k' := .Y) (Or.inl ⟨rfl, rfl⟩) _ _ _ _).2 ?_
    rw [resistors_at]; simp⟩)
  refine ⟨r, hr, fun c => ?_⟩
  have h := (C103_same_network full fmt ofIdx z .Y none _ r hP (Or.inl ⟨rfl, rfl⟩) hr)
  have hs := h.2.2.2.2 c (Last.inSingle (last_two 3 rfl rfl _) c)
  rw [h.1] at hs
  replace hs := (same_of_mul (k := .Z) (k' := .Y) (Or.inl ⟨rfl, rfl⟩) _ _ _ _).1 hs
  rw [resistors_at, one_mul] at hs
  rw [hs.1, resistors_at]

end HF.Networks
