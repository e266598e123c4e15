import Verif.Networks.Convert
import Mathlib.Tactic.FieldSimp
import Mathlib.Tactic.LinearCombination
import Mathlib.Tactic.FinCases
import Mathlib.Tactic.Ring
import Mathlib.Tactic.NormNum
import Mathlib.Algebra.Field.Rat
import Mathlib.Tactic.Linarith
/-
C27: conversion between representations keeps the network.
-/
noncomputable section

namespace HF.Networks

open Matrix

variable {K : Type} [Field K] [DecidableEq K]

/-! ### Specification: the network equations -/

/-- Voltages and currents at the two ports, currents into the network. -/
structure Port (K : Type) where
  v1 : K
  v2 : K
  i1 : K
  i2 : K

/-- Waves at the ports: `a` into the network, `b` out of it. -/
def Port.a1 (z : Imp K) (w : Port K) : K := z.v * w.v1 + z.i * w.i1
def Port.a2 (z : Imp K) (w : Port K) : K := z.v * w.v2 + z.i * w.i2
def Port.b1 (z : Imp K) (w : Port K) : K := z.v * w.v1 - z.i * w.i1
def Port.b2 (z : Imp K) (w : Port K) : K := z.v * w.v2 - z.i * w.i2

/-- `(y1, y2) = m (x1, x2)` -/
def Lin (m : M2 K) (y1 y2 x1 x2 : K) : Prop := y1 = m 0 0 * x1 + m 0 1 * x2 ∧ y2 = m 1 0 * x1 + m 1 1 * x2

/-- The equations of a two-port in each representation, as in the documentation of the classes. -/
def Sat (net : Net K) (w : Port K) : Prop :=
  match net.rep with
  | .Z => Lin net.m w.v1 w.v2 w.i1 w.i2
  | .Y => Lin net.m w.i1 w.i2 w.v1 w.v2
  | .S => Lin net.m (w.b1 net.z) (w.b2 net.z) (w.a1 net.z) (w.a2 net.z)
  | .G => Lin net.m w.i1 w.v2 w.v1 w.i2
  | .H => Lin net.m w.v1 w.i2 w.i1 w.v2
  | .ABCD => Lin net.m w.v1 w.i1 w.v2 (-w.i2)
  | .T => Lin net.m (w.b1 net.z) (w.a1 net.z) (w.a2 net.z) (w.b2 net.z)
  | .Tp => Lin net.m (w.a1 net.z) (w.b1 net.z) (w.b2 net.z) (w.a2 net.z)

/-- The reference impedance is proper. -/
def Imp.Ok (z : Imp K) : Prop := z.v ≠ 0 ∧ z.i ≠ 0

/-! ### The relation behind a pair of a matrix `P` and parameters -/

def Port.vec (w : Port K) : Fin 4 → K := ![w.v1, w.v2, w.i1, w.i2]

def ofVec (x : Fin 4 → K) : Port K := ⟨x 0, x 1, x 2, x 3⟩

theorem vec_ofVec (x : Fin 4 → K) : (ofVec x).vec = x := by
  funext k; fin_cases k <;> rfl

def top (x : Fin 4 → K) : Fin 2 → K := ![x 0, x 1]
def bot (x : Fin 4 → K) : Fin 2 → K := ![x 2, x 3]

def join (t s : Fin 2 → K) : Fin 4 → K := ![t 0, t 1, s 0, s 1]

theorem join_top_bot (x : Fin 4 → K) : join (top x) (bot x) = x := by
  funext k; fin_cases k <;> rfl

theorem top_join (t s : Fin 2 → K) : top (join t s) = t := by
  funext k; fin_cases k <;> rfl

theorem bot_join (t s : Fin 2 → K) : bot (join t s) = s := by
  funext k; fin_cases k <;> rfl

/-- `top (P w) = m (bot (P w)) + n`. -/
def Rel (P : M4 K) (m : M2 K) (n : Fin 2 → K) (w : Fin 4 → K) : Prop :=
  top (P *ᵥ w) = m *ᵥ bot (P *ᵥ w) + n

theorem top_mulVec (P : M4 K) (x : Fin 4 → K) : top (P *ᵥ x) = tl P *ᵥ top x + tr P *ᵥ bot x := by
  funext k
  fin_cases k <;>
  · simp [top, bot, tl, tr, Matrix.mulVec, dotProduct, Fin.sum_univ_succ]; ring

theorem bot_mulVec (P : M4 K) (x : Fin 4 → K) : bot (P *ᵥ x) = bl P *ᵥ top x + br P *ᵥ bot x := by
  funext k
  fin_cases k <;>
  · simp [top, bot, bl, br, Matrix.mulVec, dotProduct, Fin.sum_univ_succ]; ring

theorem inv?_some {n : Nat} {A B : Matrix (Fin n) (Fin n) K} (h : inv? A = some B) :
    A * B = 1 ∧ B * A = 1 := by
  unfold inv? at h
  split at h
  · simp at h
  · rename_i hd
    simp only [Option.some.injEq] at h
    subst h
    have : IsUnit A.det := isUnit_iff_ne_zero.2 hd
    exact ⟨Matrix.mul_nonsing_inv A this, Matrix.nonsing_inv_mul A this⟩

theorem inv?_of_mul {n : Nat} {A B : Matrix (Fin n) (Fin n) K} (h : A * B = 1) : inv? A = some B := by
  have hd : A.det ≠ 0 := by
    intro h0
    have := congrArg Matrix.det h
    rw [Matrix.det_mul, h0, zero_mul, Matrix.det_one] at this
    exact zero_ne_one this
  unfold inv?
  rw [if_neg hd, Matrix.inv_eq_right_inv h]

/-- Conversion in general, with sources `n`: the sources are multiplied by the factor `A`. -/
theorem convert_rel {P Q : M4 K} {m r A : M2 K} (h : convert P Q m = some (r, A)) (n : Fin 2 → K)
    (w : Fin 4 → K) : Rel P m n w ↔ Rel Q r (A *ᵥ n) w := by
  unfold convert at h
  cases hq : inv? Q with
  | none => rw [hq] at h; simp at h
  | some Qi =>
    rw [hq] at h
    simp only at h
    cases ha : inv? (tl (P * Qi) - m * bl (P * Qi)) with
    | none => rw [ha] at h; simp at h
    | some A' =>
      rw [ha] at h
      simp only [Option.some.injEq, Prod.mk.injEq] at h
      obtain ⟨hr, rfl⟩ := h
      have hA := inv?_some ha
      have hw : w = Qi *ᵥ (Q *ᵥ w) := by
        rw [Matrix.mulVec_mulVec, (inv?_some hq).2, Matrix.one_mulVec]
      have hP : P *ᵥ w = (P * Qi) *ᵥ (Q *ᵥ w) := by
        conv_lhs => rw [hw]
        rw [Matrix.mulVec_mulVec]
      unfold Rel
      rw [hP]
      generalize Q *ᵥ w = y
      rw [top_mulVec (P * Qi), bot_mulVec (P * Qi)]
      generalize P * Qi = R at *
      generalize top y = t
      generalize bot y = s
      have e1 : (tl R *ᵥ t + tr R *ᵥ s = m *ᵥ (bl R *ᵥ t + br R *ᵥ s) + n) ↔
          (tl R - m * bl R) *ᵥ t = (-tr R + m * br R) *ᵥ s + n := by
        rw [Matrix.sub_mulVec, Matrix.add_mulVec, Matrix.neg_mulVec, Matrix.mulVec_add,
          Matrix.mulVec_mulVec, Matrix.mulVec_mulVec]
        constructor
        · intro h
          have := congrArg (fun x => x - (m * bl R) *ᵥ t - tr R *ᵥ s) h
          calc tl R *ᵥ t - (m * bl R) *ᵥ t
              = tl R *ᵥ t + tr R *ᵥ s - (m * bl R) *ᵥ t - tr R *ᵥ s := by abel
            _ = _ := this
            _ = _ := by abel
        · intro h
          have := congrArg (fun x => x + (m * bl R) *ᵥ t + tr R *ᵥ s) h
          calc tl R *ᵥ t + tr R *ᵥ s
              = tl R *ᵥ t - (m * bl R) *ᵥ t + (m * bl R) *ᵥ t + tr R *ᵥ s := by abel
            _ = _ := this
            _ = _ := by abel
      rw [e1, ← hr]
      constructor
      · intro h
        have := congrArg (fun x => A' *ᵥ x) h
        simp only [Matrix.mulVec_add, Matrix.mulVec_mulVec, hA.2, Matrix.one_mulVec] at this
        rw [this]
      · intro h
        rw [h, Matrix.mulVec_add, Matrix.mulVec_mulVec, Matrix.mulVec_mulVec, ← Matrix.mul_assoc,
          hA.1, Matrix.one_mul, Matrix.one_mulVec]

/-- Conversion succeeds if there is a matrix in the target representation at all. -/
theorem convert_exists {P Q Qi : M4 K} (hQ : Q * Qi = 1) {m r : M2 K}
    (h : ∀ w, Rel P m 0 w → Rel Q r 0 w) : ∃ r' A, convert P Q m = some (r', A) := by
  have hQi : Qi * Q = 1 := mul_eq_one_comm.1 hQ
  unfold convert
  rw [inv?_of_mul hQ]
  simp only
  cases ha : inv? (tl (P * Qi) - m * bl (P * Qi)) with
  | some A => exact ⟨_, _, rfl⟩
  | none =>
    exfalso
    have hd : (tl (P * Qi) - m * bl (P * Qi)).det = 0 := by
      unfold inv? at ha
      split at ha
      · assumption
      · simp at ha
    obtain ⟨t, ht, h0⟩ := Matrix.exists_mulVec_eq_zero_iff.2 hd
    have hr := h (Qi *ᵥ join t 0) (by
      unfold Rel
      rw [Matrix.mulVec_mulVec, top_mulVec, bot_mulVec, top_join, bot_join, Matrix.mulVec_zero,
        Matrix.mulVec_zero, add_zero, add_zero, add_zero, Matrix.mulVec_mulVec]
      rw [Matrix.sub_mulVec] at h0
      exact sub_eq_zero.1 h0)
    unfold Rel at hr
    rw [Matrix.mulVec_mulVec, hQ, Matrix.one_mulVec, top_join, bot_join, Matrix.mulVec_zero,
      add_zero] at hr
    exact ht hr

/-- The parameters are determined by the network. -/
theorem rel_unique {Q Qi : M4 K} (hQ : Q * Qi = 1) {r r' : M2 K}
    (h : ∀ w, Rel Q r 0 w → Rel Q r' 0 w) : r = r' := by
  have key : ∀ s : Fin 2 → K, r *ᵥ s = r' *ᵥ s := by
    intro s
    have := h (Qi *ᵥ join (r *ᵥ s) s) (by
      unfold Rel
      rw [Matrix.mulVec_mulVec, hQ, Matrix.one_mulVec, top_join, bot_join, add_zero])
    unfold Rel at this
    rw [Matrix.mulVec_mulVec, hQ, Matrix.one_mulVec, top_join, bot_join, add_zero] at this
    exact this
  exact Matrix.ext_of_mulVec_single fun i => key _

/-! ### The eight representations -/

/-- Inverses of the matrices `P`. -/
def Pinv (z : Imp K) : Rep → M4 K
  | .Z => !![1, 0, 0, 0; 0, 1, 0, 0; 0, 0, 1, 0; 0, 0, 0, 1]
  | .Y => !![0, 0, 1, 0; 0, 0, 0, 1; 1, 0, 0, 0; 0, 1, 0, 0]
  | .S => !![1 / (2 * z.v), 0, 1 / (2 * z.v), 0; 0, 1 / (2 * z.v), 0, 1 / (2 * z.v);
      -1 / (2 * z.i), 0, 1 / (2 * z.i), 0; 0, -1 / (2 * z.i), 0, 1 / (2 * z.i)]
  | .G => !![0, 0, 1, 0; 0, 1, 0, 0; 1, 0, 0, 0; 0, 0, 0, 1]
  | .H => !![1, 0, 0, 0; 0, 0, 0, 1; 0, 0, 1, 0; 0, 1, 0, 0]
  | .ABCD => !![1, 0, 0, 0; 0, 0, 1, 0; 0, 1, 0, 0; 0, 0, 0, -1]
  | .T => !![1 / (2 * z.v), 1 / (2 * z.v), 0, 0; 0, 0, 1 / (2 * z.v), 1 / (2 * z.v);
      -1 / (2 * z.i), 1 / (2 * z.i), 0, 0; 0, 0, 1 / (2 * z.i), -1 / (2 * z.i)]
  | .Tp => !![1 / (2 * z.v), 1 / (2 * z.v), 0, 0; 0, 0, 1 / (2 * z.v), 1 / (2 * z.v);
      1 / (2 * z.i), -1 / (2 * z.i), 0, 0; 0, 0, -1 / (2 * z.i), 1 / (2 * z.i)]

theorem Pmat_Pinv (h2 : (2 : K) ≠ 0) (z : Imp K) (hz : z.Ok) (rep : Rep) : Pmat z rep * Pinv z rep = 1 := by
  obtain ⟨hv, hi⟩ := hz
  cases rep <;> ext a b <;> fin_cases a <;> fin_cases b <;>
    simp [Pmat, Pinv, Matrix.mul_apply, Fin.sum_univ_succ] <;> field_simp <;> norm_num

theorem sat_iff (net : Net K) (w : Port K) : Sat net w ↔ Rel (Pmat net.z net.rep) net.m 0 w.vec := by
  obtain ⟨rep, z, m⟩ := net
  unfold Rel
  rw [funext_iff, Fin.forall_fin_two]
  cases rep <;>
    simp [Sat, Lin, Pmat, Port.vec, top, bot, Matrix.mulVec, dotProduct, Fin.sum_univ_succ, Port.a1,
      Port.a2, Port.b1, Port.b2, sub_eq_add_neg]

theorem sat_ofVec (net : Net K) (x : Fin 4 → K) :
    Sat net (ofVec x) ↔ Rel (Pmat net.z net.rep) net.m 0 x := by
  rw [sat_iff, vec_ofVec]

/-! ### C27 -/

/-- C27: the parameters in a representation are determined by the network. -/
theorem C27_unique (h2 : (2 : K) ≠ 0) (rep : Rep) (z : Imp K) (hz : z.Ok) (m m' : M2 K)
    (h : ∀ w, Sat ⟨rep, z, m⟩ w → Sat ⟨rep, z, m'⟩ w) : m = m' :=
  rel_unique (Pmat_Pinv h2 z hz rep) fun x hx =>
    (sat_ofVec ⟨rep, z, m'⟩ x).1 (h _ ((sat_ofVec ⟨rep, z, m⟩ x).2 hx))

theorem inv_sat_ZY {m m' : M2 K} (h : inv? m = some m') (z z' : Imp K) (w : Port K) :
    Sat ⟨.Z, z, m⟩ w ↔ Sat ⟨.Y, z', m'⟩ w := by
  obtain ⟨h1, h2⟩ := inv?_some h
  have e1 := fun a b : Fin 2 => congrFun (congrFun h1 a) b
  have e2 := fun a b : Fin 2 => congrFun (congrFun h2 a) b
  have p00 := e1 0 0; have p01 := e1 0 1; have p10 := e1 1 0; have p11 := e1 1 1
  have q00 := e2 0 0; have q01 := e2 0 1; have q10 := e2 1 0; have q11 := e2 1 1
  simp [Matrix.mul_apply, Fin.sum_univ_succ] at p00 p01 p10 p11 q00 q01 q10 q11
  simp only [Sat, Lin]
  constructor
  · rintro ⟨h1, h2⟩
    rw [h1, h2]
    constructor
    · linear_combination (-w.i1) * q00 - w.i2 * q01
    · linear_combination (-w.i1) * q10 - w.i2 * q11
  · rintro ⟨h1, h2⟩
    rw [h1, h2]
    constructor
    · linear_combination (-w.v1) * p00 - w.v2 * p01
    · linear_combination (-w.v1) * p10 - w.v2 * p11

/-- C27: a conversion keeps the network: exactly the same port voltages and currents are possible
before and after. -/
theorem C27_same_network (dflt : Imp K) (dst : Rep) (z : Option (Imp K)) (net net' : Net K)
    (h : construct dflt dst z net = some net') (w : Port K) : Sat net w ↔ Sat net' w := by
  have conv : ∀ (z' : Imp K) (r : M2 K × M2 K), convert (Pmat net.z net.rep) (Pmat z' dst) net.m = some r →
      (Sat net w ↔ Sat ⟨dst, z', r.1⟩ w) := by
    intro z' r hr
    rw [sat_iff, sat_iff, convert_rel hr, Matrix.mulVec_zero]
  obtain ⟨rep, zn, m⟩ := net
  have gen : ∀ hgen : (if rep = dst ∧ dflt = zn then some (⟨rep, zn, m⟩ : Net K)
      else (convert (Pmat zn rep) (Pmat (if dst = .S then z.getD dflt else zn) dst) m).map
        fun r => ⟨dst, if dst = .S then z.getD dflt else zn, r.1⟩) = some net',
      Sat ⟨rep, zn, m⟩ w ↔ Sat net' w := by
    intro hgen
    split at hgen
    · simp only [Option.some.injEq] at hgen
      rw [hgen]
    · rw [Option.map_eq_some_iff] at hgen
      obtain ⟨r, hr, rfl⟩ := hgen
      exact conv _ r hr
  have hZY : ∀ a b : M2 K, inv? a = some b → ∀ z1 z2 : Imp K, Sat ⟨.Y, z1, a⟩ w ↔ Sat ⟨.Z, z2, b⟩ w := by
    intro a b hab z1 z2
    have : inv? b = some a := inv?_of_mul (inv?_some hab).2
    exact (inv_sat_ZY this z2 z1 w).symm
  cases dst <;> cases rep <;> dsimp only [construct] at h <;>
    first
    | exact gen h
    | (rw [Option.map_eq_some_iff] at h; obtain ⟨b, hb, rfl⟩ := h; exact inv_sat_ZY hb _ _ w)
    | (rw [Option.map_eq_some_iff] at h; obtain ⟨b, hb, rfl⟩ := h; exact hZY _ _ hb _ _)

/-- C27: a chain of conversions. -/
def chain (dflt : Imp K) : List (Rep × Option (Imp K)) → Net K → Option (Net K)
  | [], net => some net
  | s :: t, net => (construct dflt s.1 s.2 net).bind (chain dflt t)

theorem C27_chain (dflt : Imp K) (steps : List (Rep × Option (Imp K))) (net net' : Net K)
    (h : chain dflt steps net = some net') (w : Port K) : Sat net w ↔ Sat net' w := by
  induction steps generalizing net with
  | nil => simp only [chain, Option.some.injEq] at h; rw [h]
  | cons s t ih =>
    simp only [chain, Option.bind_eq_some_iff] at h
    obtain ⟨n1, h1, h2⟩ := h
    exact (C27_same_network dflt s.1 s.2 net n1 h1 w).trans (ih n1 h2)

/-- C27: a chain of conversions that comes back to the same representation and impedance gives the
parameters it began with. -/
theorem C27_back (h2 : (2 : K) ≠ 0) (dflt : Imp K) (steps : List (Rep × Option (Imp K)))
    (net net' : Net K) (h : chain dflt steps net = some net') (hr : net'.rep = net.rep)
    (hz : net'.z = net.z) (hok : net.z.Ok) : net' = net := by
  obtain ⟨rep, z, m⟩ := net
  obtain ⟨rep', z', m'⟩ := net'
  simp only at hr hz hok
  subst hr hz
  have := C27_unique h2 _ _ hok m m' fun w hw => (C27_chain dflt steps _ _ h w).1 hw
  rw [this]

/-- C27: a conversion raises an error only if the network has no parameters in the representation
asked for. -/
theorem C27_exists (h2 : (2 : K) ≠ 0) (dflt : Imp K) (hd : dflt.Ok) (dst : Rep) (z : Option (Imp K))
    (hz : ∀ z' ∈ z, z'.Ok) (net : Net K) (hn : net.z.Ok) (m' : M2 K)
    (h : ∀ w, Sat net w ↔ Sat ⟨dst, if dst = .S then z.getD dflt else net.z, m'⟩ w) :
    ∃ net', construct dflt dst z net = some net' := by
  have hz' : (if dst = .S then z.getD dflt else net.z).Ok := by
    split
    · cases z with
      | none => exact hd
      | some z0 => exact hz z0 rfl
    · exact hn
  obtain ⟨r, A, hr⟩ := convert_exists (Pmat_Pinv h2 _ hz' dst) (P := Pmat net.z net.rep) (m := net.m) (r := m')
    fun x hx => (sat_ofVec ⟨dst, _, m'⟩ x).1 ((h _).1 ((sat_ofVec net x).2 hx))
  obtain ⟨rep, zn, m⟩ := net
  have gen : ∃ net', (if rep = dst ∧ dflt = zn then some (⟨rep, zn, m⟩ : Net K)
      else (convert (Pmat zn rep) (Pmat (if dst = .S then z.getD dflt else zn) dst) m).map
        fun r => ⟨dst, if dst = .S then z.getD dflt else zn, r.1⟩) = some net' := by
    split
    · exact ⟨_, rfl⟩
    · rw [hr]; exact ⟨_, rfl⟩
  have inv : ∀ z1 : Imp K, (∀ w, Sat ⟨.Z, z1, m⟩ w ↔ Sat ⟨.Y, z1, m'⟩ w) → inv? m = some m' := by
    intro z1 h
    have key := fun s : Fin 2 → K => (h ⟨m 0 0 * s 0 + m 0 1 * s 1, m 1 0 * s 0 + m 1 1 * s 1, s 0, s 1⟩).1
      ⟨rfl, rfl⟩
    apply inv?_of_mul
    apply mul_eq_one_comm.1
    apply Matrix.ext_of_mulVec_single
    intro i
    have := key (Pi.single i 1)
    simp only [Sat, Lin] at this
    rw [← Matrix.mulVec_mulVec, Matrix.one_mulVec]
    funext k
    fin_cases k
    · simp [Matrix.mulVec, dotProduct, Fin.sum_univ_succ] at this ⊢
      exact this.1.symm
    · simp [Matrix.mulVec, dotProduct, Fin.sum_univ_succ] at this ⊢
      exact this.2.symm
  have swap : (∀ w, Sat ⟨.Y, zn, m⟩ w ↔ Sat ⟨.Z, zn, m'⟩ w) → (∀ w, Sat ⟨.Z, zn, m⟩ w ↔ Sat ⟨.Y, zn, m'⟩ w) :=
    fun h w => h ⟨w.i1, w.i2, w.v1, w.v2⟩
  cases dst <;> cases rep <;> dsimp only [construct] at h ⊢ <;>
    first
    | exact gen
    | (rw [inv zn h]; exact ⟨_, rfl⟩)
    | (rw [inv zn (swap h)]; exact ⟨_, rfl⟩)

/-- C27: the representation and the impedance of the result.  The impedance asked for is disregarded
if the network is given as S-parameters with the default impedance, and the impedance of the source
is lost between Z and Y. -/
theorem C27_impedance (dflt : Imp K) (dst : Rep) (z : Option (Imp K)) (net net' : Net K)
    (h : construct dflt dst z net = some net') :
    net'.rep = dst ∧
    net'.z = if net.rep = dst ∧ net.z = dflt then dflt
      else if dst = .S then z.getD dflt
      else if (net.rep = .Z ∧ dst = .Y) ∨ (net.rep = .Y ∧ dst = .Z) then dflt else net.z := by
  obtain ⟨rep, zn, m⟩ := net
  have gen : ∀ hgen : (if rep = dst ∧ dflt = zn then some (⟨rep, zn, m⟩ : Net K)
      else (convert (Pmat zn rep) (Pmat (if dst = .S then z.getD dflt else zn) dst) m).map
        fun r => ⟨dst, if dst = .S then z.getD dflt else zn, r.1⟩) = some net',
      net'.rep = dst ∧ net'.z = if rep = dst ∧ zn = dflt then dflt else if dst = .S then z.getD dflt else zn := by
    intro hgen
    split at hgen
    · rename_i hc
      simp only [Option.some.injEq] at hgen
      rw [← hgen]
      simp only
      rw [if_pos ⟨hc.1, hc.2.symm⟩]
      exact ⟨hc.1, hc.2.symm⟩
    · rename_i hc
      rw [Option.map_eq_some_iff] at hgen
      obtain ⟨r, -, rfl⟩ := hgen
      simp only [true_and]
      rw [if_neg (c := rep = dst ∧ zn = dflt) (fun hh => hc ⟨hh.1, hh.2.symm⟩)]
  cases dst <;> cases rep <;> dsimp only [construct] at h <;>
    first
    | (have := gen h; simpa using this)
    | (rw [Option.map_eq_some_iff] at h; obtain ⟨b, hb, rfl⟩ := h; simp)

/-! ### What does not hold -/

/-- 50 and 75 Ohm up to a common scale; over the rationals, squares are needed: 1 and 4. -/
def one4 : Imp ℚ × Imp ℚ := (⟨1 / 2, 1 / 2⟩, ⟨1 / 4, 1⟩)

/-- C27: parameters of another impedance than the default: indexing, `hfarray` methods and
everything else that makes an object from a plain array forgets the impedance, and with it the
network. -/
theorem C27_raw_refuted : ∃ (dflt z : Imp ℚ) (m : M2 ℚ) (w : Port ℚ), dflt.Ok ∧ z.Ok ∧
    Sat ⟨.S, z, m⟩ w ∧ ¬ Sat (ofRaw dflt .S (some z) m) w := by
  refine ⟨one4.1, one4.2, !![0, 0; 0, 0], ⟨4, 4, 1, 1⟩, ?_⟩
  simp [one4, Imp.Ok, Sat, Lin, ofRaw, Port.a1, Port.a2, Port.b1, Port.b2]
  norm_num

/-- C27: asking for another impedance has no effect on S-parameters of the default impedance. -/
theorem C27_renormalise_refuted (dflt z : Imp K) (m : M2 K) :
    construct dflt .S (some z) ⟨.S, dflt, m⟩ = some ⟨.S, dflt, m⟩ := by
  simp [construct]

/-! ### Storage -/

/-- The result is written into an array of the element type of the source.
repo: hftools/networks/multiports.py:111 and :264, :300 with hftools/dataset/arrayobj.py:382-387 -/
def constructStored (st : K → K) (dflt : Imp K) (dst : Rep) (z : Option (Imp K)) (net : Net K) :
    Option (Net K) :=
  (construct dflt dst z net).map fun n => { n with m := n.m.map st }

/-- Storing a number in an array of integers. -/
def intStore (q : ℚ) : ℚ := (Int.tdiv q.num q.den : ℤ)

/-- C27: arrays of integers are truncated on conversion. -/
theorem C27_integer_refuted : ∃ (dflt : Imp ℚ) (net net' : Net ℚ) (w : Port ℚ), dflt.Ok ∧
    (∀ i j, intStore (net.m i j) = net.m i j) ∧
    constructStored intStore dflt .Y none net = some net' ∧ Sat net w ∧ ¬ Sat net' w := by
  have hi : inv? (!![2, 0; 0, 2] : M2 ℚ) = some !![1 / 2, 0; 0, 1 / 2] := by
    apply inv?_of_mul
    ext a b; fin_cases a <;> fin_cases b <;> simp [Matrix.mul_apply, Fin.sum_univ_succ]
  refine ⟨one4.1, ⟨.Z, one4.1, !![2, 0; 0, 2]⟩, ⟨.Y, one4.1, !![0, 0; 0, 0]⟩, ⟨2, 2, 1, 1⟩, ?_, ?_, ?_, ?_, ?_⟩
  · simp [one4, Imp.Ok]
  · intro i j
    fin_cases i <;> fin_cases j <;> simp [intStore]
  · simp only [constructStored, construct, hi, Option.map_some, Option.some.injEq]
    congr 1
    ext a b
    fin_cases a <;> fin_cases b <;> simp [intStore] <;> decide +kernel
  · simp [Sat, Lin]
  · simp [Sat, Lin]

/-! ### More than two ports -/

/-- `matrix_multiply` on shapes: the inner sizes must be equal (sizes 1 are stretched).
repo: hftools/math.py:393-401 -/
def mulShape (a b : Nat × Nat) : Option (Nat × Nat) :=
  if a.2 = b.1 ∨ a.2 = 1 ∨ b.1 = 1 then some (a.1, b.2) else none

/-- The shapes in `convert` for `n` ports: `P` is `2n × 2n` and is cut at 2 whatever `n` is.
repo: hftools/networks/multiports.py:67-76 -/
def convertShape (n : Nat) : Option (Nat × Nat) :=
  (mulShape (n, n) (2 * n - 2, min 2 (2 * n))).bind fun at2 =>
    (mulShape (n, n) (2 * n - 2, 2 * n - 2)).bind fun as2 =>
      mulShape at2 as2

/-- C27: networks of more than two ports cannot be converted to or from S-parameters, although the
documentation says that the models may be of any dimension. -/
theorem C27_ports_refuted (n : Nat) (hn : 3 ≤ n) : convertShape n = none := by
  have : mulShape (n, n) (2 * n - 2, min 2 (2 * n)) = none := by
    unfold mulShape
    rw [if_neg]
    simp only
    omega
  simp [convertShape, this]

example : convertShape 2 = some (2, 2) := by decide

/-- C27: Z and Y of any number of ports are inverse to each other, so that converting back and forth
gives the matrix one began with. -/
theorem C27_zy_ports {n : Nat} (m m' : Matrix (Fin n) (Fin n) K) (h : inv? m = some m') :
    inv? m' = some m ∧ ∀ v i : Fin n → K, v = m *ᵥ i ↔ i = m' *ᵥ v := by
  obtain ⟨h1, h2⟩ := inv?_some h
  refine ⟨inv?_of_mul h2, fun v i => ⟨?_, ?_⟩⟩
  · rintro rfl
    rw [Matrix.mulVec_mulVec, h2, Matrix.one_mulVec]
  · rintro rfl
    rw [Matrix.mulVec_mulVec, h1, Matrix.one_mulVec]

/-! ### Non-vacuity -/

/-- A series resistor of 2 between the ports as Y, converted to ABCD. -/
example : ∃ net', construct (⟨1 / 2, 1 / 2⟩ : Imp ℚ) .ABCD none
    ⟨.Y, ⟨1 / 2, 1 / 2⟩, !![1 / 2, -1 / 2; -1 / 2, 1 / 2]⟩ = some net' := by
  refine C27_exists (by norm_num) _ ⟨by norm_num, by norm_num⟩ _ _ (by simp) _ ⟨by norm_num, by norm_num⟩
    !![1, 2; 0, 1] ?_
  intro w
  simp only [Sat, Lin, Matrix.of_apply, Matrix.cons_val', Matrix.cons_val_zero, Matrix.cons_val_one,
    Matrix.cons_val_fin_one]
  constructor
  · rintro ⟨h1, h2⟩; constructor <;> linarith
  · rintro ⟨h1, h2⟩; constructor <;> linarith

/-- It has no Z-parameters, and there the conversion fails. -/
example : construct (⟨1 / 2, 1 / 2⟩ : Imp ℚ) .Z none
    ⟨.Y, ⟨1 / 2, 1 / 2⟩, !![1 / 2, -1 / 2; -1 / 2, 1 / 2]⟩ = none := by
  simp only [construct, inv?, Matrix.det_fin_two_of]
  norm_num

end HF.Networks
