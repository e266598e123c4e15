import Verif.Networks.Noise
import Verif.Networks.ObjectsProps
import Mathlib.LinearAlgebra.Matrix.PosDef
import Mathlib.Analysis.Complex.Order
import Mathlib.Analysis.Matrix.Hermitian
/-
C30: noisy two-ports.
-/
noncomputable section

namespace HF.Networks

open Matrix ComplexOrder

/-! ### Specification -/

/-- `(y1, y2) = m (x1, x2) + n` -/
def LinN (m : M2 ℂ) (n : Fin 2 → ℂ) (y1 y2 x1 x2 : ℂ) : Prop :=
  y1 = m 0 0 * x1 + m 0 1 * x2 + n 0 ∧ y2 = m 1 0 * x1 + m 1 1 * x2 + n 1

/-- The equations of a two-port with noise sources added to the quantities on the left. -/
def SatN (net : Net ℂ) (n : Fin 2 → ℂ) (w : Port ℂ) : Prop :=
  match net.rep with
  | .Z => LinN net.m n w.v1 w.v2 w.i1 w.i2
  | .Y => LinN net.m n w.i1 w.i2 w.v1 w.v2
  | .S => LinN net.m n (w.b1 net.z) (w.b2 net.z) (w.a1 net.z) (w.a2 net.z)
  | .G => LinN net.m n w.i1 w.v2 w.v1 w.i2
  | .H => LinN net.m n w.v1 w.i2 w.i1 w.v2
  | .ABCD => LinN net.m n w.v1 w.i1 w.v2 (-w.i2)
  | .T => LinN net.m n (w.b1 net.z) (w.a1 net.z) (w.a2 net.z) (w.b2 net.z)
  | .Tp => LinN net.m n (w.a1 net.z) (w.b1 net.z) (w.b2 net.z) (w.a2 net.z)

/-- A finite ensemble of source values with weights; its correlation matrix. -/
def corr (e : List (ℝ × (Fin 2 → ℂ))) : M2 ℂ :=
  (e.map fun p => Matrix.of fun i j => (p.1 : ℂ) * p.2 i * star (p.2 j)).sum

/-! ### Lemmas -/

theorem satN_iff (net : Net ℂ) (n : Fin 2 → ℂ) (w : Port ℂ) :
    SatN net n w ↔ Rel (Pmat net.z net.rep) net.m n w.vec := by
  obtain ⟨rep, z, m⟩ := net
  unfold Rel
  rw [funext_iff, Fin.forall_fin_two]
  cases rep <;>
    simp [SatN, LinN, Pmat, Port.vec, top, bot, Matrix.mulVec, dotProduct, Fin.sum_univ_succ, Port.a1,
      Port.a2, Port.b1, Port.b2, sub_eq_add_neg]

theorem corr_nil : corr [] = 0 := rfl

theorem corr_cons (p : ℝ × (Fin 2 → ℂ)) (e : List (ℝ × (Fin 2 → ℂ))) :
    corr (p :: e) = (Matrix.of fun i j => (p.1 : ℂ) * p.2 i * star (p.2 j)) + corr e := by
  simp [corr]

theorem corr_map (A : M2 ℂ) (e : List (ℝ × (Fin 2 → ℂ))) :
    A * corr e * Aᴴ = corr (e.map fun p => (p.1, A *ᵥ p.2)) := by
  induction e with
  | nil => simp [corr_nil]
  | cons p e ih =>
    rw [List.map_cons, corr_cons, corr_cons, Matrix.mul_add, Matrix.add_mul, ih]
    congr 1
    ext i j
    simp [Matrix.mul_apply, Matrix.mulVec, dotProduct, Fin.sum_univ_two]
    ring

theorem realDiag_of_hermitian {C : M2 ℂ} (h : C.IsHermitian) : realDiag C = C := by
  have d : ∀ i, (((C i i).re : ℝ) : ℂ) = C i i := fun i => by
    have := congrFun (congrFun h i) i
    rw [Matrix.conjTranspose_apply] at this
    exact Complex.conj_eq_iff_re.1 this
  ext i j
  fin_cases i <;> fin_cases j
  · exact d 0
  · rfl
  · rfl
  · exact d 1

theorem corr_hermitian (e : List (ℝ × (Fin 2 → ℂ))) : (corr e).IsHermitian := by
  induction e with
  | nil => simp [corr_nil]
  | cons p e ih =>
    rw [corr_cons]
    refine Matrix.IsHermitian.add ?_ ih
    ext i j
    simp [Matrix.conjTranspose_apply]
    ring

/-- The conversion factor is determined by what it does to sources. -/
theorem convert_factor_unique {P Q Qi : M4 ℂ} (hQ : Q * Qi = 1) {m r : M2 ℂ} {A B : M2 ℂ}
    (hA : ∀ n w, Rel P m n w ↔ Rel Q r (A *ᵥ n) w) (hB : ∀ n w, Rel P m n w ↔ Rel Q r (B *ᵥ n) w) :
    A = B := by
  apply Matrix.ext_of_mulVec_single
  intro i
  have h1 : Rel Q r (A *ᵥ Pi.single i 1) (Qi *ᵥ join (A *ᵥ Pi.single i 1) 0) := by
    unfold Rel
    rw [Matrix.mulVec_mulVec, hQ, Matrix.one_mulVec, top_join, bot_join, Matrix.mulVec_zero, zero_add]
  have h2 := (hB _ _).1 ((hA _ _).2 h1)
  unfold Rel at h2
  rw [Matrix.mulVec_mulVec, hQ, Matrix.one_mulVec, top_join, bot_join, Matrix.mulVec_zero, zero_add] at h2
  exact h2

theorem construct_imp_ok {dflt : Imp ℂ} (hd : dflt.Ok) {dst : Rep} {net net' : Net ℂ} (hz : net.z.Ok)
    (h : construct dflt dst none net = some net') : net'.z.Ok := by
  rw [(C27_impedance _ _ _ _ _ h).2]
  repeat' split
  all_goals first | exact hd | exact hz

/-- What `convert` computes is what `construct` stores. -/
theorem construct_convert {dflt : Imp ℂ} (hd : dflt.Ok) {dst : Rep} {net net' : Net ℂ} (hz : net.z.Ok)
    (h : construct dflt dst none net = some net') {r A : M2 ℂ}
    (hr : convert (Pmat net.z net.rep) (Pmat net'.z net'.rep) net.m = some (r, A)) : net'.m = r := by
  refine rel_unique (Pmat_Pinv two_ne_zero _ (construct_imp_ok hd hz h) net'.rep) fun x hx => ?_
  rw [← sat_ofVec, ← C27_same_network _ _ _ _ _ h, sat_ofVec, convert_rel hr, Matrix.mulVec_zero] at hx
  exact hx

/-- Only S-parameters can be converted. -/
theorem noisy_convert_S {dflt : Imp ℂ} {dst : Rep} {s s' : Noisy} (h : s.convert dflt dst = some s') :
    s.N.rep = .S := by
  by_contra hS
  simp only [Noisy.convert, Option.bind_eq_some_iff, sameShape, view, if_neg hS] at h
  obtain ⟨_, _, h⟩ := h
  simp at h

/-- For the default impedance the array stays as it is. -/
theorem noisy_convert_dflt {dflt : Imp ℂ} (dst : Rep) {s : Noisy} (hS : s.N.rep = .S) (hz : s.N.z = dflt) :
    s.convert dflt dst = (construct dflt dst none s.N).bind fun N =>
      (HF.Networks.convert (Pmat s.N.z s.N.rep) (Pmat N.z N.rep) s.N.m).map fun r =>
        ⟨N, realDiag (r.2 * s.C * r.2ᴴ)⟩ := by
  have e : sameShape dflt [s.N.m] ⟨s.N.rep, s.N.z, 0⟩ = .ok ([s.N.m], ⟨.S, dflt, 0⟩) := by
    rw [hS, hz]; exact sameShape_dflt dflt [s.N.m] 0 s.N.m rfl
  simp only [Noisy.convert, e]
  rfl

/-- A conversion of a noisy network as a relation. -/
theorem noisy_convert_spec {dflt : Imp ℂ} (hd : dflt.Ok) {dst : Rep} {s s' : Noisy} (hz : s.N.z = dflt)
    (h : s.convert dflt dst = some s') :
    construct dflt dst none s.N = some s'.N ∧ s'.N.rep = dst ∧ s'.N.z = dflt ∧
    ∃ A : M2 ℂ, convert (Pmat s.N.z s.N.rep) (Pmat s'.N.z s'.N.rep) s.N.m = some (s'.N.m, A) ∧
      (∀ n w, SatN s.N n w ↔ SatN s'.N (A *ᵥ n) w) ∧ s'.C = realDiag (A * s.C * Aᴴ) := by
  have hzo : s.N.z.Ok := by rw [hz]; exact hd
  rw [noisy_convert_dflt dst (noisy_convert_S h) hz] at h
  simp only [Option.bind_eq_some_iff, Option.map_eq_some_iff] at h
  obtain ⟨N, hN, ⟨r, A⟩, hr, rfl⟩ := h
  have hm := construct_convert hd hzo hN hr
  have hi := C27_impedance _ _ _ _ _ hN
  refine ⟨hN, hi.1, ?_, A, ?_, fun n w => ?_, rfl⟩
  · rw [hi.2, hz]; simp
  · rw [hr, hm]
  · rw [satN_iff, satN_iff, convert_rel hr, hm]

/-- The conversion of the noise succeeds whenever that of the network does. -/
theorem noisy_convert_isSome {dflt : Imp ℂ} (hd : dflt.Ok) {dst : Rep} {s : Noisy} (hS : s.N.rep = .S)
    (hz : s.N.z = dflt) {N : Net ℂ} (h : construct dflt dst none s.N = some N) :
    ∃ s', s.convert dflt dst = some s' ∧ s'.N = N := by
  have hzo : s.N.z.Ok := by rw [hz]; exact hd
  obtain ⟨r, A, hr⟩ := convert_exists (Pmat_Pinv two_ne_zero _ (construct_imp_ok hd hzo h) N.rep)
    (P := Pmat s.N.z s.N.rep) (m := s.N.m) (r := N.m) fun x hx => by
      rw [← sat_ofVec] at hx ⊢
      exact (C27_same_network _ _ _ _ _ h _).1 hx
  exact ⟨⟨N, realDiag (A * s.C * Aᴴ)⟩, by rw [noisy_convert_dflt dst hS hz]; simp [h, hr], rfl⟩

/-! ### C30: conversion -/

/-- C30: conversion acts on every realisation of the sources by one and the same matrix, which keeps
the noisy network; the correlation matrix of the new sources is the one computed.  The network has to
be given with the default impedance. -/
theorem C30_convert (dflt : Imp ℂ) (hd : dflt.Ok) (dst : Rep) (s s' : Noisy) (hz : s.N.z = dflt)
    (e : List (ℝ × (Fin 2 → ℂ))) (hC : s.C = corr e) (h : s.convert dflt dst = some s') :
    ∃ f : (Fin 2 → ℂ) → Fin 2 → ℂ, (∀ n w, SatN s.N n w ↔ SatN s'.N (f n) w) ∧
      s'.C = corr (e.map fun p => (p.1, f p.2)) := by
  obtain ⟨-, -, -, A, -, h1, h2⟩ := noisy_convert_spec hd hz h
  exact ⟨fun n => A *ᵥ n, h1, by rw [h2, hC, corr_map, realDiag_of_hermitian (corr_hermitian _)]⟩

/-- C30: for S-parameters of the default impedance the conversion of noise fails only where the
conversion of the network fails. -/
theorem C30_defined (dflt : Imp ℂ) (hd : dflt.Ok) (dst : Rep) (s : Noisy) (hS : s.N.rep = .S)
    (hz : s.N.z = dflt) :
    (∃ s', s.convert dflt dst = some s') ↔ ∃ N, construct dflt dst none s.N = some N := by
  constructor
  · rintro ⟨s', h⟩
    exact ⟨_, (noisy_convert_spec hd hz h).1⟩
  · rintro ⟨N, h⟩
    obtain ⟨s', h', -⟩ := noisy_convert_isSome hd hS hz h
    exact ⟨s', h'⟩

/-- C30 fails for all other parameters: noise can not be converted, although the network can. -/
theorem C30_classes_refuted (dflt : Imp ℂ) :
    (∀ (dst : Rep) (s : Noisy), s.N.rep ≠ .S → s.convert dflt dst = none) ∧
    ∃ net N : Net ℂ, net.rep ≠ .S ∧ construct dflt .Z none net = some N := by
  refine ⟨fun dst s hS => ?_, ⟨.Y, dflt, 1⟩, ⟨.Z, dflt, 1⟩, by simp, ?_⟩
  · cases h : s.convert dflt dst with
    | none => rfl
    | some s' => exact absurd (noisy_convert_S h) hS
  · simp only [construct, inv?_of_mul (Matrix.mul_one (1 : M2 ℂ)), Option.map_some]

/-- C30: Hermitian positive semidefinite matrices stay so. -/
theorem C30_psd (dflt : Imp ℂ) (dst : Rep) (s s' : Noisy) (hC : s.C.PosSemidef)
    (h : s.convert dflt dst = some s') : s'.C.PosSemidef := by
  obtain ⟨A, h2⟩ : ∃ A : M2 ℂ, s'.C = realDiag (A * s.C * Aᴴ) := by
    simp only [Noisy.convert, Option.bind_eq_some_iff] at h
    obtain ⟨N, -, h⟩ := h
    split at h
    · simp at h
    · split at h
      · simp only [Option.map_eq_some_iff] at h
        obtain ⟨r, -, rfl⟩ := h
        exact ⟨r.2, rfl⟩
      · simp at h
  have := hC.mul_mul_conjTranspose_same A
  rw [h2, realDiag_of_hermitian this.1]
  exact this

/-- A chain of conversions. -/
def noisyChain (dflt : Imp ℂ) : List Rep → Noisy → Option Noisy
  | [], s => some s
  | d :: t, s => (s.convert dflt d).bind (noisyChain dflt t)

/-- C30: the result of a chain of conversions depends only on the network, not on the way: if two
chains end in the same representation, the correlation matrices are equal. -/
theorem C30_path (dflt : Imp ℂ) (hd : dflt.Ok) (s : Noisy) (hz : s.N.z = dflt) (hC : s.C.IsHermitian)
    (p q : List Rep) (a b : Noisy) (ha : noisyChain dflt p s = some a) (hb : noisyChain dflt q s = some b)
    (hr : a.N.rep = b.N.rep) : a = b := by
  have key : ∀ (l : List Rep) (s t : Noisy), s.N.z = dflt → s.C.IsHermitian → noisyChain dflt l s = some t →
      t.N.z = dflt ∧ ∃ A : M2 ℂ, (∀ n w, SatN s.N n w ↔ SatN t.N (A *ᵥ n) w) ∧ t.C = A * s.C * Aᴴ := by
    intro l
    induction l with
    | nil =>
      intro s t hz _ h
      simp only [noisyChain, Option.some.injEq] at h
      subst h
      exact ⟨hz, 1, by simp, by simp⟩
    | cons d l ih =>
      intro s t hz hC h
      simp only [noisyChain, Option.bind_eq_some_iff] at h
      obtain ⟨u, hu, h⟩ := h
      obtain ⟨-, -, hz', A, -, h1, h2⟩ := noisy_convert_spec hd hz hu
      have hh := Matrix.isHermitian_mul_mul_conjTranspose A hC
      rw [realDiag_of_hermitian hh] at h2
      obtain ⟨hz2, B, h3, h4⟩ := ih u t hz' (by rw [h2]; exact hh) h
      refine ⟨hz2, B * A, fun n w => ?_, ?_⟩
      · rw [h1, h3, Matrix.mulVec_mulVec]
      · rw [h4, h2, Matrix.conjTranspose_mul]
        simp only [Matrix.mul_assoc]
  obtain ⟨za, A, hA, hCa⟩ := key p s a hz hC ha
  obtain ⟨zb, B, hB, hCb⟩ := key q s b hz hC hb
  have sat0 : ∀ (t : Noisy) (X : M2 ℂ), (∀ n w, SatN s.N n w ↔ SatN t.N (X *ᵥ n) w) → ∀ x,
      Rel (Pmat s.N.z s.N.rep) s.N.m 0 x ↔ Rel (Pmat t.N.z t.N.rep) t.N.m 0 x := by
    intro t X hX x
    have := hX 0 (ofVec x)
    rw [satN_iff, satN_iff, vec_ofVec, Matrix.mulVec_zero] at this
    exact this
  obtain ⟨⟨ra, ia, ma⟩, Ca⟩ := a
  obtain ⟨⟨rb, ib, mb⟩, Cb⟩ := b
  simp only at hr za zb hCa hCb
  subst hr
  rw [← zb] at za
  subst za
  have zo : ia.Ok := by rw [zb]; exact hd
  have hm : ma = mb := rel_unique (Pmat_Pinv two_ne_zero _ zo ra) fun x hx =>
    (sat0 _ _ hB x).1 ((sat0 _ _ hA x).2 hx)
  subst hm
  have hAB : A = B := by
    refine convert_factor_unique (P := Pmat s.N.z s.N.rep) (m := s.N.m) (r := ma)
      (Pmat_Pinv two_ne_zero _ zo ra) (fun n x => ?_) (fun n x => ?_)
    · have := hA n (ofVec x)
      rw [satN_iff, satN_iff, vec_ofVec] at this
      exact this
    · have := hB n (ofVec x)
      rw [satN_iff, satN_iff, vec_ofVec] at this
      exact this
  subst hAB
  rw [hCa, hCb]

/-! ### C30: passive networks -/

/-- A positive resistance as reference impedance. -/
def Imp.Phys (z : Imp ℂ) : Prop :=
  ∃ r : ℝ, 0 < r ∧ z = ⟨((Real.sqrt (1 / r) / 2 : ℝ) : ℂ), ((Real.sqrt r / 2 : ℝ) : ℂ)⟩

/-- The network takes up no negative power. -/
def Passive (net : Net ℂ) : Prop :=
  ∀ w, Sat net w → 0 ≤ (star w.v1 * w.i1 + star w.v2 * w.i2).re

theorem Imp.Phys.facts {z : Imp ℂ} (h : z.Phys) :
    ∃ v i : ℝ, z = ⟨(v : ℂ), (i : ℂ)⟩ ∧ 0 < v ∧ 0 < i ∧ v * i = 1 / 4 := by
  obtain ⟨r, hr, rfl⟩ := h
  refine ⟨_, _, rfl, by positivity, by positivity, ?_⟩
  rw [div_mul_div_comm, ← Real.sqrt_mul (by positivity), one_div_mul_cancel hr.ne', Real.sqrt_one]
  norm_num

theorem Imp.Phys.ok {z : Imp ℂ} (h : z.Phys) : z.Ok := by
  obtain ⟨v, i, rfl, hv, hi, -⟩ := h.facts
  exact ⟨by simpa using hv.ne', by simpa using hi.ne'⟩

/-- `[1, -m]` -/
def rowm (m : M2 ℂ) : Matrix (Fin 2) (Fin 4) ℂ := !![1, 0, -m 0 0, -m 0 1; 0, 1, -m 1 0, -m 1 1]

theorem rowm_mul (m : M2 ℂ) (R : M4 ℂ) : rowm m * R =
    !![(tl R - m * bl R) 0 0, (tl R - m * bl R) 0 1, (tr R - m * br R) 0 0, (tr R - m * br R) 0 1;
      (tl R - m * bl R) 1 0, (tl R - m * bl R) 1 1, (tr R - m * br R) 1 0, (tr R - m * br R) 1 1] := by
  ext i j
  fin_cases i <;> fin_cases j <;>
    simp [rowm, Matrix.mul_apply, Fin.sum_univ_succ, tl, tr, bl, br] <;> ring

theorem mul_rows (A B C : M2 ℂ) :
    A * !![B 0 0, B 0 1, C 0 0, C 0 1; B 1 0, B 1 1, C 1 0, C 1 1] =
      !![(A * B) 0 0, (A * B) 0 1, (A * C) 0 0, (A * C) 0 1;
        (A * B) 1 0, (A * B) 1 1, (A * C) 1 0, (A * C) 1 1] := by
  ext i j
  fin_cases i <;> fin_cases j <;> simp [Matrix.mul_apply, Fin.sum_univ_succ]

theorem convert_rows {P Q : M4 ℂ} {m r A : M2 ℂ} (h : convert P Q m = some (r, A)) :
    rowm r * Q = A * (rowm m * P) := by
  unfold convert at h
  cases hq : inv? Q with
  | none => rw [hq] at h; simp at h
  | some Qi =>
    rw [hq] at h
    simp only at h
    cases ha : inv? (tl (P * Qi) - m * bl (P * Qi)) with
    | none => rw [ha] at h; simp at h
    | some A' =>
      rw [ha] at h
      simp only [Option.some.injEq, Prod.mk.injEq] at h
      obtain ⟨hr, rfl⟩ := h
      have hP : P = (P * Qi) * Q := by rw [Matrix.mul_assoc, (inv?_some hq).2, Matrix.mul_one]
      have key : A' * (rowm m * (P * Qi)) = rowm r := by
        rw [rowm_mul, mul_rows, (inv?_some ha).2]
        have : A' * (tr (P * Qi) - m * br (P * Qi)) = -r := by
          rw [← hr, ← Matrix.mul_neg]
          congr 1
          abel
        rw [this]
        ext i j
        fin_cases i <;> fin_cases j <;> simp [rowm]
      rw [← key]
      conv_rhs => rw [hP]
      simp only [Matrix.mul_assoc]

/-- The form of power. -/
def powJ : M4 ℂ := !![0, 0, 1, 0; 0, 0, 0, 1; 1, 0, 0, 0; 0, 1, 0, 0]

/-- The correlation matrix of a passive network in terms of its equations. -/
def passC (kT : ℝ) (P : M4 ℂ) (m : M2 ℂ) : M2 ℂ :=
  (-(2 * kT) : ℂ) • ((rowm m * P) * powJ * (rowm m * P)ᴴ)

theorem powJ_apply (X : Matrix (Fin 2) (Fin 4) ℂ) (i j : Fin 2) : (X * powJ * Xᴴ) i j =
    X i 2 * star (X j 0) + X i 3 * star (X j 1) + X i 0 * star (X j 2) + X i 1 * star (X j 3) := by
  simp [powJ, Matrix.mul_apply, Fin.sum_univ_four, Matrix.conjTranspose_apply]

theorem rowm_apply (m : M2 ℂ) (P : M4 ℂ) (i : Fin 2) (j : Fin 4) : (rowm m * P) i j =
    P (Fin.castLE (by decide) i) j - m i 0 * P 2 j - m i 1 * P 3 j := by
  fin_cases i <;> fin_cases j <;> simp [rowm, Matrix.mul_apply, Fin.sum_univ_four] <;> ring

def rowE (m : M2 ℂ) (P : M4 ℂ) (i : Fin 2) (j : Fin 4) : ℂ :=
  P (Fin.castLE (by decide) i) j - m i 0 * P 2 j - m i 1 * P 3 j

theorem passC_apply (kT : ℝ) (P : M4 ℂ) (m : M2 ℂ) (i j : Fin 2) : passC kT P m i j = (-(2 * kT) : ℂ) *
    (rowE m P i 2 * star (rowE m P j 0) + rowE m P i 3 * star (rowE m P j 1) +
      rowE m P i 0 * star (rowE m P j 2) + rowE m P i 1 * star (rowE m P j 3)) := by
  unfold passC
  rw [Matrix.smul_apply, powJ_apply]
  simp only [rowm_apply, rowE, smul_eq_mul]

theorem passC_convert (kT : ℝ) {P Q : M4 ℂ} {m r A : M2 ℂ} (h : convert P Q m = some (r, A)) :
    passC kT Q r = A * passC kT P m * Aᴴ := by
  unfold passC
  rw [convert_rows h, Matrix.conjTranspose_mul A, Matrix.mul_smul, Matrix.smul_mul]
  simp only [Matrix.mul_assoc]

theorem passC_Y (kT : ℝ) (z : Imp ℂ) (m : M2 ℂ) : passC kT (Pmat z .Y) m = (2 * kT : ℂ) • (m + mᴴ) := by
  ext a b
  fin_cases a <;> fin_cases b <;>
    simp [passC_apply, rowE, Pmat, Matrix.mul_apply, Fin.sum_univ_two, Matrix.conjTranspose_apply] <;> ring

theorem passC_Z (kT : ℝ) (z : Imp ℂ) (m : M2 ℂ) : passC kT (Pmat z .Z) m = (2 * kT : ℂ) • (m + mᴴ) := by
  ext a b
  fin_cases a <;> fin_cases b <;>
    simp [passC_apply, rowE, Pmat, Matrix.mul_apply, Fin.sum_univ_two, Matrix.conjTranspose_apply] <;> ring

theorem passC_S (kT : ℝ) (z : Imp ℂ) (hz : z.Phys) (m : M2 ℂ) :
    passC kT (Pmat z .S) m = (kT : ℂ) • (1 - m * mᴴ) := by
  obtain ⟨v, i, hz, hv, hi, hvi⟩ := hz.facts
  subst hz
  have hvi' : (v : ℂ) * i = 1 / 4 := by
    rw [← Complex.ofReal_mul, hvi]; norm_num
  symm
  ext a b
  fin_cases a <;> fin_cases b <;>
    simp [passC_apply, rowE, Pmat, Matrix.mul_apply, Fin.sum_univ_two, Matrix.conjTranspose_apply]
  · linear_combination (4 * kT * (m 0 0 * (starRingEnd ℂ) (m 0 0) + m 0 1 * (starRingEnd ℂ) (m 0 1) - 1) : ℂ) * hvi'
  · linear_combination (4 * kT * (m 0 0 * (starRingEnd ℂ) (m 1 0) + m 0 1 * (starRingEnd ℂ) (m 1 1)) : ℂ) * hvi'
  · linear_combination (4 * kT * (m 1 0 * (starRingEnd ℂ) (m 0 0) + m 1 1 * (starRingEnd ℂ) (m 0 1)) : ℂ) * hvi'
  · linear_combination (4 * kT * (m 1 0 * (starRingEnd ℂ) (m 1 0) + m 1 1 * (starRingEnd ℂ) (m 1 1) - 1) : ℂ) * hvi'

/-- The noise of a passive network is found for S-parameters of the default impedance only. -/
theorem passiveNoise_S {kT : ℝ} {dflt : Imp ℂ} {net : Net ℂ} {s : Noisy}
    (h : passiveNoise kT dflt net = some s) :
    net.rep = .S ∧ net.z = dflt ∧ s = ⟨net, (kT : ℂ) • (1 - net.m * net.mᴴ)⟩ := by
  have hp : net.rep ≠ .S → plusHconj dflt net = none := by
    intro hr
    unfold plusHconj
    rw [C61_other_classes_refuted dflt _ _ _ _ (by exact hr) net.mᴴ (by simp)]
  unfold passiveNoise at h
  split at h
  · rename_i hr
    rw [hp (by simp [hr])] at h
    simp at h
  · rename_i hr
    rw [hp (by simp [hr])] at h
    simp at h
  · rename_i hr
    split at h
    · rename_i hz
      exact ⟨hr, hz, (Option.some.inj h).symm⟩
    · simp at h
  · simp at h

theorem passC_hermitian (kT : ℝ) (P : M4 ℂ) (m : M2 ℂ) : (passC kT P m).IsHermitian := by
  ext i j
  rw [Matrix.conjTranspose_apply, passC_apply, passC_apply]
  simp only [star_mul', star_add, star_star, star_neg, Complex.star_def, Complex.conj_ofReal, map_ofNat, Complex.conj_conj]
  ring

/-- C30: the noise found for S-parameters of a passive network and converted to Y- or Z-parameters is
that of the real parts of these parameters, twice `2kT` times. -/
theorem C30_passive_convert (kT : ℝ) (dflt : Imp ℂ) (hd : dflt.Phys) (dst : Rep)
    (hdst : dst = .Y ∨ dst = .Z) (net : Net ℂ) (s s' : Noisy)
    (h : passiveNoise kT dflt net = some s) (h' : s.convert dflt dst = some s') :
    s'.C = (2 * kT : ℂ) • (s'.N.m + s'.N.mᴴ) ∧ s'.N.rep = dst ∧ ∀ w, Sat net w ↔ Sat s'.N w := by
  obtain ⟨hr, hz, rfl⟩ := passiveNoise_S h
  obtain ⟨hN, hrep, -, A, hA, -, hC⟩ := noisy_convert_spec (s := ⟨net, _⟩) hd.ok hz h'
  simp only at hA hC hN
  have hzp : net.z.Phys := by rw [hz]; exact hd
  rw [← passC_S kT net.z hzp, ← hr, ← passC_convert kT hA, realDiag_of_hermitian (passC_hermitian _ _ _), hrep] at hC
  refine ⟨?_, hrep, C27_same_network _ _ _ _ _ hN⟩
  rcases hdst with rfl | rfl
  · rw [hC, passC_Y]
  · rw [hC, passC_Z]

/-- C30 fails for Y- and Z-parameters: `passive_noise` has formulas for them but never gives a
result. -/
theorem C30_passive_refuted (kT : ℝ) (dflt : Imp ℂ) (net : Net ℂ) (h : net.rep = .Y ∨ net.rep = .Z) :
    passiveNoise kT dflt net = none := by
  cases hp : passiveNoise kT dflt net with
  | none => rfl
  | some s =>
    have := (passiveNoise_S hp).1
    rw [this] at h
    simp at h

theorem psd_of {C : M2 ℂ} (hC : C.IsHermitian)
    (h : ∀ x y : ℂ, 0 ≤ (star x * (C 0 0 * x + C 0 1 * y) + star y * (C 1 0 * x + C 1 1 * y)).re) :
    C.PosSemidef := by
  refine Matrix.PosSemidef.of_dotProduct_mulVec_nonneg hC fun x => ?_
  rw [Complex.le_def]
  refine ⟨?_, ?_⟩
  · have := h (x 0) (x 1)
    simpa [dotProduct, Matrix.mulVec, Fin.sum_univ_two] using this
  · exact (hC.im_star_dotProduct_mulVec_self x).symm

/-- C30: the correlation matrix of a passive network is positive semidefinite. -/
theorem C30_passive_psd (kT : ℝ) (hk : 0 ≤ kT) (dflt : Imp ℂ) (hd : dflt.Phys) (net : Net ℂ)
    (hp : Passive net) (s : Noisy) (h : passiveNoise kT dflt net = some s) : s.C.PosSemidef := by
  obtain ⟨hr, hz, rfl⟩ := passiveNoise_S h
  have hzp : net.z.Phys := by rw [hz]; exact hd
  have hC : ((kT : ℂ) • (1 - net.m * net.mᴴ)).IsHermitian := by
    rw [← passC_S kT net.z hzp]
    exact passC_hermitian _ _ _
  obtain ⟨v, i, hz, hv, hi, hvi⟩ := hzp.facts
  obtain ⟨rep, z, m⟩ := net
  simp only at hz hr
  subst hz hr
  refine psd_of hC fun x y => ?_
  · simp only
    obtain ⟨p, hp'⟩ : ∃ p, p = star (m 0 0) * x + star (m 1 0) * y := ⟨_, rfl⟩
    obtain ⟨q, hq'⟩ : ∃ q, q = star (m 0 1) * x + star (m 1 1) * y := ⟨_, rfl⟩
    obtain ⟨r, hr'⟩ : ∃ r, r = m 0 0 * p + m 0 1 * q := ⟨_, rfl⟩
    obtain ⟨t, ht'⟩ : ∃ t, t = m 1 0 * p + m 1 1 * q := ⟨_, rfl⟩
    have hv' : (v : ℂ) ≠ 0 := by simpa using hv.ne'
    have hi' : (i : ℂ) ≠ 0 := by simpa using hi.ne'
    have hpow := hp ⟨(p + r) / (2 * v), (q + t) / (2 * v), (p - r) / (2 * i), (q - t) / (2 * i)⟩ (by
      simp only [Sat, Lin, Port.a1, Port.a2, Port.b1, Port.b2]
      have e1 : ∀ a b : ℂ, (v : ℂ) * ((a + b) / (2 * v)) + i * ((a - b) / (2 * i)) = a := fun a b => by
        field_simp; ring
      have e2 : ∀ a b : ℂ, (v : ℂ) * ((a + b) / (2 * v)) - i * ((a - b) / (2 * i)) = b := fun a b => by
        field_simp; ring
      rw [e1, e1, e2, e2]
      exact ⟨hr', ht'⟩)
    have e3 : (star ((p + r) / (2 * v)) * ((p - r) / (2 * i)) + star ((q + t) / (2 * v)) * ((q - t) / (2 * i))).re
        = Complex.normSq p + Complex.normSq q - Complex.normSq r - Complex.normSq t := by
      have e4 : star ((p + r) / (2 * v)) * ((p - r) / (2 * i)) + star ((q + t) / (2 * v)) * ((q - t) / (2 * i))
          = (star (p + r) * (p - r) + star (q + t) * (q - t)) := by
        have e5 : (v : ℂ) * i = 1 / 4 := by rw [← Complex.ofReal_mul, hvi]; norm_num
        have e6 : star (2 * (v : ℂ)) = 2 * v := by simp
        rw [star_div₀, star_div₀, e6, div_mul_div_comm, div_mul_div_comm, ← add_div]
        have e7 : 2 * (v : ℂ) * (2 * i) = 1 := by linear_combination 4 * e5
        rw [e7, div_one]
      rw [e4]
      simp [Complex.normSq_apply]
      ring
    rw [e3] at hpow
    have n1 := Complex.normSq_nonneg (x - r)
    have n2 := Complex.normSq_nonneg (y - t)
    have e8 : Complex.normSq (x - r) + Complex.normSq (y - t) = Complex.normSq x + Complex.normSq y
        - 2 * (Complex.normSq p + Complex.normSq q) + Complex.normSq r + Complex.normSq t := by
      rw [hr', ht', hp', hq']
      simp [Complex.normSq_apply]
      ring
    have e9 : 0 ≤ Complex.normSq x + Complex.normSq y - Complex.normSq p - Complex.normSq q := by linarith
    refine le_of_le_of_eq (mul_nonneg hk e9) ?_
    rw [hp', hq']
    simp [Complex.normSq_apply, Matrix.mul_apply, Fin.sum_univ_two, Matrix.conjTranspose_apply]
    ring

end HF.Networks
