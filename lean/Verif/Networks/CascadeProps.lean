import Verif.Networks.Cascade
import Verif.Networks.ConvertProps
import Mathlib.Data.Complex.Basic
/-
C28: cascading.  C29: de-embedding.
-/
noncomputable section

namespace HF.Networks

open Matrix

variable {K : Type} [Field K] [DecidableEq K]

/-! ### Specification -/

/-- Port 2 of `A` is connected to port 1 of `B`: there is a voltage `v` and a current `i` out of `B`
into `A` at the connection. -/
def Joined (A B : Port K → Prop) (w : Port K) : Prop :=
  ∃ v i : K, A ⟨w.v1, v, w.i1, i⟩ ∧ B ⟨v, w.v2, -i, w.i2⟩

/-- The networks are the same. -/
def Same (A B : Port K → Prop) : Prop := ∀ w, A w ↔ B w

theorem joined_congr {A A' B B' : Port K → Prop} (hA : Same A A') (hB : Same B B') :
    Same (Joined A B) (Joined A' B') := fun w => by
  unfold Joined
  constructor
  · rintro ⟨v, i, h1, h2⟩; exact ⟨v, i, (hA _).1 h1, (hB _).1 h2⟩
  · rintro ⟨v, i, h1, h2⟩; exact ⟨v, i, (hA _).2 h1, (hB _).2 h2⟩

theorem joined_assoc (A B C : Port K → Prop) : Same (Joined (Joined A B) C) (Joined A (Joined B C)) := fun w => by
  unfold Joined
  constructor
  · rintro ⟨v, i, ⟨v', i', h1, h2⟩, h3⟩
    exact ⟨v', i', h1, v, i, h2, h3⟩
  · rintro ⟨v, i, h1, v', i', h2, h3⟩
    exact ⟨v', i', ⟨v, i, h1, h2⟩, h3⟩

/-! ### S-parameters -/

theorem cascadeS_joined (h2 : (2 : K) ≠ 0) (z : Imp K) (hz : z.Ok) (A B r : M2 K)
    (h : cascadeS id A B [] = some r) :
    Same (Sat ⟨.S, z, r⟩) (Joined (Sat ⟨.S, z, A⟩) (Sat ⟨.S, z, B⟩)) := by
  obtain ⟨hv, hi⟩ := hz
  unfold cascadeS at h
  simp only at h
  split at h
  · simp at h
  rename_i hd
  simp only [id, Option.some.injEq] at h
  subst h
  intro w
  simp only [Joined, Sat, Lin, Port.a1, Port.a2, Port.b1, Port.b2, Matrix.of_apply, Matrix.cons_val',
    Matrix.cons_val_zero, Matrix.cons_val_one, Matrix.cons_val_fin_one, Matrix.det_fin_two]
  obtain ⟨d, hdd⟩ : ∃ d, d = 1 - A 1 1 * B 0 0 := ⟨_, rfl⟩
  have hAB : A 1 1 * B 0 0 = 1 - d := by rw [hdd]; ring
  rw [← hdd] at hd ⊢
  generalize z.v * w.v1 + z.i * w.i1 = a1
  generalize z.v * w.v1 - z.i * w.i1 = b1
  generalize z.v * w.v2 + z.i * w.i2 = a2
  generalize z.v * w.v2 - z.i * w.i2 = b2
  constructor
  · rintro ⟨e1, e2⟩
    obtain ⟨y, hy⟩ : ∃ y, y = (A 1 0 * a1 + A 1 1 * B 0 1 * a2) / d := ⟨_, rfl⟩
    obtain ⟨x, hx⟩ : ∃ x, x = B 0 0 * y + B 0 1 * a2 := ⟨_, rfl⟩
    refine ⟨(x + y) / (2 * z.v), (x - y) / (2 * z.i), ?_, ?_⟩
    · have p1 : z.v * ((x + y) / (2 * z.v)) + z.i * ((x - y) / (2 * z.i)) = x := by field_simp; ring
      have p2 : z.v * ((x + y) / (2 * z.v)) - z.i * ((x - y) / (2 * z.i)) = y := by field_simp; ring
      rw [p1, p2]
      constructor
      · rw [e1, hx, hy]; field_simp; linear_combination (-(A 0 0 * a1 + A 0 1 * B 0 1 * a2)) * hAB
      · rw [hx, hy]; field_simp; linear_combination (-(A 1 0 * a1 + A 1 1 * B 0 1 * a2)) * hAB
    · have p1 : z.v * ((x + y) / (2 * z.v)) + z.i * -((x - y) / (2 * z.i)) = y := by field_simp; ring
      have p2 : z.v * ((x + y) / (2 * z.v)) - z.i * -((x - y) / (2 * z.i)) = x := by field_simp; ring
      rw [p1, p2]
      constructor
      · rw [hx]
      · rw [e2, hy]; field_simp; linear_combination (-(B 1 1 * a2)) * hAB
  · rintro ⟨v, i, ⟨f1, f2⟩, f3, f4⟩
    have q1 : z.v * v + z.i * -i = z.v * v - z.i * i := by ring
    have q2 : z.v * v - z.i * -i = z.v * v + z.i * i := by ring
    rw [q1] at f3 f4
    rw [q2] at f3
    generalize z.v * v + z.i * i = x at *
    generalize z.v * v - z.i * i = y at *
    subst f3
    have hy : y = (A 1 0 * a1 + A 1 1 * B 0 1 * a2) / d := by
      rw [eq_div_iff hd]
      linear_combination f2 + y * hAB
    subst f1 f4
    constructor
    · rw [hy]; field_simp; linear_combination (A 0 0 * a1 + A 0 1 * B 0 1 * a2) * hAB
    · rw [hy]; field_simp; linear_combination (B 1 1 * a2) * hAB

/-- C28: cascading S-parameters is undefined exactly if waves can circulate between the networks
with nothing coming in from outside. -/
theorem C28_defined (A B : M2 K) (rest : List (M2 K)) :
    cascadeS id A B rest = none ↔ ∃ x y : K, ¬ (x = 0 ∧ y = 0) ∧ y = A 1 1 * x ∧ x = B 0 0 * y := by
  unfold cascadeS
  simp only
  constructor
  · intro h
    split at h
    · rename_i hd
      refine ⟨B 0 0, 1, by simp, ?_, by ring⟩
      linear_combination hd
    · simp at h
  · rintro ⟨x, y, h0, h1, h2⟩
    rw [if_pos]
    by_contra hd
    apply h0
    have : (1 - A 1 1 * B 0 0) * y = 0 := by rw [h2] at h1; linear_combination h1
    rcases mul_eq_zero.1 this with h | h
    · exact absurd h hd
    · rw [h, mul_zero] at h2
      exact ⟨h2, h⟩

theorem construct_same (dflt : Imp K) (dst : Rep) (z : Option (Imp K)) (net net' : Net K)
    (h : construct dflt dst z net = some net') : Same (Sat net') (Sat net) :=
  fun w => (C27_same_network dflt dst z net net' h w).symm

theorem construct_S {dflt : Imp K} {net a : Net K} (h : construct dflt .S none net = some a) :
    a = ⟨.S, dflt, a.m⟩ := by
  have := C27_impedance _ _ _ _ _ h
  obtain ⟨rep, z, m⟩ := a
  simp at this
  obtain ⟨rfl, rfl⟩ := this
  rfl

theorem construct_ofS {dflt : Imp K} {rep : Rep} {r : M2 K} {net : Net K}
    (h : construct dflt rep none (ofRaw dflt .S none r) = some net) : net.rep = rep ∧ net.z = dflt := by
  have := C27_impedance _ _ _ _ _ h
  refine ⟨this.1, ?_⟩
  rw [this.2]
  simp [ofRaw]

/-- C28: cascading connects the networks, whatever representations and impedances they have. -/
theorem C28_cascade (h2 : (2 : K) ≠ 0) (dflt : Imp K) (hd : dflt.Ok) (self other r : Net K)
    (h : cascade dflt self other = some r) :
    r.rep = self.rep ∧ r.z = dflt ∧ Same (Sat r) (Joined (Sat self) (Sat other)) := by
  simp only [cascade, Option.bind_eq_some_iff] at h
  obtain ⟨a, ha, b, hb, m, hm, hr⟩ := h
  refine ⟨(construct_ofS hr).1, (construct_ofS hr).2, ?_⟩
  intro w
  rw [construct_same _ _ _ _ _ hr w]
  rw [show Sat (ofRaw dflt .S none m) w ↔ Joined (Sat ⟨.S, dflt, a.m⟩) (Sat ⟨.S, dflt, b.m⟩) w from
    cascadeS_joined h2 dflt hd a.m b.m m hm w]
  rw [← construct_S ha, ← construct_S hb]
  exact joined_congr (construct_same _ _ _ _ _ ha) (construct_same _ _ _ _ _ hb) w

theorem net_ext_of_same (h2 : (2 : K) ≠ 0) (a b : Net K) (hr : a.rep = b.rep) (hz : a.z = b.z)
    (hok : a.z.Ok) (h : Same (Sat a) (Sat b)) : a = b := by
  obtain ⟨rep, z, m⟩ := a
  obtain ⟨rep', z', m'⟩ := b
  simp only at hr hz hok
  subst hr hz
  rw [C27_unique h2 rep z hok m m' fun w hw => (h w).1 hw]

/-- C28: the order in which three networks are put together does not matter. -/
theorem C28_assoc (h2 : (2 : K) ≠ 0) (dflt : Imp K) (hd : dflt.Ok) (a b c ab bc r r' : Net K)
    (hab : cascade dflt a b = some ab) (hbc : cascade dflt b c = some bc)
    (h : cascade dflt ab c = some r) (h' : cascade dflt a bc = some r') : r = r' := by
  have e1 := C28_cascade h2 dflt hd _ _ _ hab
  have e2 := C28_cascade h2 dflt hd _ _ _ hbc
  have e3 := C28_cascade h2 dflt hd _ _ _ h
  have e4 := C28_cascade h2 dflt hd _ _ _ h'
  apply net_ext_of_same h2 _ _ (by rw [e3.1, e4.1, e1.1]) (by rw [e3.2.1, e4.2.1]) (by rw [e3.2.1]; exact hd)
  intro w
  rw [e3.2.2 w, e4.2.2 w, joined_congr e1.2.2 (fun _ => Iff.rfl) w, joined_assoc,
    ← joined_congr (fun _ => Iff.rfl) e2.2.2 w]

theorem cascadeS_isSome {A B : M2 K} : (∃ r, cascadeS id A B [] = some r) ↔ 1 - A 1 1 * B 0 0 ≠ 0 := by
  unfold cascadeS
  simp only
  split <;> simp_all

/-- C28: if both inner cascades are defined, both cascades of the whole are undefined or both are
defined and equal. -/
theorem C28_assoc_defined (h2 : (2 : K) ≠ 0) (A B C AB BC : M2 K) (hAB : cascadeS id A B [] = some AB)
    (hBC : cascadeS id B C [] = some BC) : cascadeS id AB C [] = cascadeS id A BC [] := by
  have z1 : (⟨1, 1⟩ : Imp K).Ok := ⟨one_ne_zero, one_ne_zero⟩
  have j1 := cascadeS_joined h2 _ z1 _ _ _ hAB
  have j2 := cascadeS_joined h2 _ z1 _ _ _ hBC
  have k1 := cascadeS_isSome.1 ⟨_, hAB⟩
  have k2 := cascadeS_isSome.1 ⟨_, hBC⟩
  have key : (1 - A 1 1 * B 0 0) * (1 - AB 1 1 * C 0 0) = (1 - B 1 1 * C 0 0) * (1 - A 1 1 * BC 0 0) := by
    unfold cascadeS at hAB hBC
    simp only [id, if_neg k1, if_neg k2, Option.some.injEq] at hAB hBC
    rw [← hAB, ← hBC]
    simp [Matrix.det_fin_two]
    generalize hd1 : 1 - A 1 1 * B 0 0 = d1 at *
    generalize hd2 : 1 - B 1 1 * C 0 0 = d2 at *
    field_simp
    rw [← hd1, ← hd2]
    ring
  cases h3 : cascadeS id AB C [] with
  | none =>
    cases h4 : cascadeS id A BC [] with
    | none => rfl
    | some r =>
      exfalso
      have k4 := cascadeS_isSome.1 ⟨_, h4⟩
      have k3 : 1 - AB 1 1 * C 0 0 ≠ 0 := fun h0 => by
        rw [h0, mul_zero] at key
        exact (mul_ne_zero k2 k4) key.symm
      obtain ⟨r', hr'⟩ := cascadeS_isSome.2 k3
      rw [h3] at hr'
      simp at hr'
  | some r =>
    have k3 := cascadeS_isSome.1 ⟨_, h3⟩
    have k4 : 1 - A 1 1 * BC 0 0 ≠ 0 := fun h0 => by
      rw [h0, mul_zero] at key
      exact (mul_ne_zero k1 k3) key
    obtain ⟨r', hr'⟩ := cascadeS_isSome.2 k4
    rw [hr']
    congr 1
    refine C27_unique h2 .S ⟨1, 1⟩ z1 r r' fun w => ?_
    rw [cascadeS_joined h2 _ z1 _ _ _ h3 w, cascadeS_joined h2 _ z1 _ _ _ hr' w,
      joined_congr j1 (fun _ => Iff.rfl) w, joined_assoc, ← joined_congr (fun _ => Iff.rfl) j2 w]
    exact id

/-- C28: the through is neutral for S-parameters. -/
theorem C28_through (dflt : Imp K) (A : M2 K) :
    cascadeS id A (unitS dflt).m [] = some A ∧ cascadeS id (unitS dflt).m A [] = some A := by
  constructor
  · unfold cascadeS unitS
    simp
    ext i j
    fin_cases i <;> fin_cases j <;> simp
  · unfold cascadeS unitS
    simp
    ext i j
    fin_cases i <;> fin_cases j <;> simp

/-- C28: cascading with the through gives the same network back, in every representation. -/
theorem C28_through_net (h2 : (2 : K) ≠ 0) (dflt : Imp K) (hd : dflt.Ok) (net r : Net K)
    (h : cascade dflt net (unitS dflt) = some r) : Same (Sat r) (Sat net) ∧ (net.z = dflt → r = net) := by
  obtain ⟨e1, e2, e3⟩ := C28_cascade h2 dflt hd _ _ _ h
  have hs : Same (Sat r) (Sat net) := by
    simp only [cascade, Option.bind_eq_some_iff] at h
    obtain ⟨a, ha, b, hb, m, hm, hr⟩ := h
    have : b = unitS dflt := by
      have : construct dflt .S none (unitS dflt) = some (unitS dflt) := by simp [construct, unitS]
      rw [this] at hb
      exact (Option.some.inj hb).symm
    subst this
    rw [(C28_through dflt a.m).1] at hm
    obtain rfl := Option.some.inj hm
    intro w
    rw [construct_same _ _ _ _ _ hr w, ← construct_same _ _ _ _ _ ha w]
    conv_rhs => rw [construct_S ha]
    rfl
  refine ⟨hs, fun hz => net_ext_of_same h2 _ _ e1 (by rw [e2, hz]) (by rw [e2]; exact hd) hs⟩

/-- Matrices of these kinds are multiplied when networks are put together. -/
theorem joined_mul (rep : Rep) (h : rep = .ABCD ∨ rep = .T ∨ rep = .Tp) (h2 : (2 : K) ≠ 0) (z : Imp K)
    (hz : z.Ok) (A B : M2 K) : Same (Sat ⟨rep, z, A * B⟩) (Joined (Sat ⟨rep, z, A⟩) (Sat ⟨rep, z, B⟩)) := by
  obtain ⟨hv, hi⟩ := hz
  intro w
  rcases h with rfl | rfl | rfl
  · simp only [Joined, Sat, Lin, Matrix.mul_apply, Fin.sum_univ_two]
    constructor
    · rintro ⟨e1, e2⟩
      refine ⟨B 0 0 * w.v2 + B 0 1 * -w.i2, -(B 1 0 * w.v2 + B 1 1 * -w.i2), ⟨?_, ?_⟩, ?_, ?_⟩
      · rw [e1]; ring
      · rw [e2]; ring
      · rfl
      · ring
    · rintro ⟨v, i, ⟨e1, e2⟩, e3, e4⟩
      rw [e1, e2, e3, e4]
      constructor <;> ring
  · simp only [Joined, Sat, Lin, Matrix.mul_apply, Fin.sum_univ_two, Port.a1, Port.a2, Port.b1, Port.b2]
    generalize z.v * w.v1 + z.i * w.i1 = a1
    generalize z.v * w.v1 - z.i * w.i1 = b1
    generalize z.v * w.v2 + z.i * w.i2 = a2
    generalize z.v * w.v2 - z.i * w.i2 = b2
    constructor
    · rintro ⟨e1, e2⟩
      obtain ⟨x, hx⟩ : ∃ x, x = B 0 0 * a2 + B 0 1 * b2 := ⟨_, rfl⟩
      obtain ⟨y, hy⟩ : ∃ y, y = B 1 0 * a2 + B 1 1 * b2 := ⟨_, rfl⟩
      have p1 : z.v * ((x + y) / (2 * z.v)) + z.i * ((x - y) / (2 * z.i)) = x := by field_simp; ring
      have p2 : z.v * ((x + y) / (2 * z.v)) - z.i * ((x - y) / (2 * z.i)) = y := by field_simp; ring
      have p3 : z.v * ((x + y) / (2 * z.v)) + z.i * -((x - y) / (2 * z.i)) = y := by field_simp; ring
      have p4 : z.v * ((x + y) / (2 * z.v)) - z.i * -((x - y) / (2 * z.i)) = x := by field_simp; ring
      refine ⟨(x + y) / (2 * z.v), (x - y) / (2 * z.i), ?_, ?_⟩
      · rw [p1, p2, e1, e2, hx, hy]; constructor <;> ring
      · rw [p3, p4]; exact ⟨hx, hy⟩
    · rintro ⟨v, i, ⟨f1, f2⟩, f3, f4⟩
      rw [show z.v * v - z.i * -i = z.v * v + z.i * i by ring] at f3
      rw [show z.v * v + z.i * -i = z.v * v - z.i * i by ring] at f4
      rw [f1, f2, f3, f4]
      constructor <;> ring
  · simp only [Joined, Sat, Lin, Matrix.mul_apply, Fin.sum_univ_two, Port.a1, Port.a2, Port.b1, Port.b2]
    generalize z.v * w.v1 + z.i * w.i1 = a1
    generalize z.v * w.v1 - z.i * w.i1 = b1
    generalize z.v * w.v2 + z.i * w.i2 = a2
    generalize z.v * w.v2 - z.i * w.i2 = b2
    constructor
    · rintro ⟨e1, e2⟩
      obtain ⟨x, hx⟩ : ∃ x, x = B 1 0 * b2 + B 1 1 * a2 := ⟨_, rfl⟩
      obtain ⟨y, hy⟩ : ∃ y, y = B 0 0 * b2 + B 0 1 * a2 := ⟨_, rfl⟩
      have p1 : z.v * ((x + y) / (2 * z.v)) + z.i * ((x - y) / (2 * z.i)) = x := by field_simp; ring
      have p2 : z.v * ((x + y) / (2 * z.v)) - z.i * ((x - y) / (2 * z.i)) = y := by field_simp; ring
      have p3 : z.v * ((x + y) / (2 * z.v)) + z.i * -((x - y) / (2 * z.i)) = y := by field_simp; ring
      have p4 : z.v * ((x + y) / (2 * z.v)) - z.i * -((x - y) / (2 * z.i)) = x := by field_simp; ring
      refine ⟨(x + y) / (2 * z.v), (x - y) / (2 * z.i), ?_, ?_⟩
      · rw [p1, p2, e1, e2, hx, hy]; constructor <;> ring
      · rw [p3, p4]; exact ⟨hy, hx⟩
    · rintro ⟨v, i, ⟨f1, f2⟩, f3, f4⟩
      rw [show z.v * v + z.i * -i = z.v * v - z.i * i by ring] at f3
      rw [show z.v * v - z.i * -i = z.v * v + z.i * i by ring] at f4
      rw [f1, f2, f3, f4]
      constructor <;> ring

/-- C28: cascading ABCD-, T- or Tp-matrices is multiplying them. -/
theorem C28_product (h2 : (2 : K) ≠ 0) (dflt : Imp K) (hd : dflt.Ok) (rep : Rep)
    (hrep : rep = .ABCD ∨ rep = .T ∨ rep = .Tp) (A B : M2 K) (r : Net K)
    (h : cascade dflt ⟨rep, dflt, A⟩ ⟨rep, dflt, B⟩ = some r) : r = ⟨rep, dflt, A * B⟩ := by
  obtain ⟨e1, e2, e3⟩ := C28_cascade h2 dflt hd _ _ _ h
  refine net_ext_of_same h2 _ _ e1 e2 (by rw [e2]; exact hd) fun w => ?_
  rw [e3 w, joined_mul rep hrep h2 dflt hd A B w]

/-- C28: the chain of `n` networks: cascading them one by one from the left connects all of them. -/
def cascadeAll (dflt : Imp K) : Net K → List (Net K) → Option (Net K)
  | a, [] => some a
  | a, b :: t => (cascade dflt a b).bind fun ab => cascadeAll dflt ab t

theorem C28_chain (h2 : (2 : K) ≠ 0) (dflt : Imp K) (hd : dflt.Ok) (a : Net K) (l : List (Net K)) (r : Net K)
    (h : cascadeAll dflt a l = some r) :
    r.rep = a.rep ∧ Same (Sat r) (l.foldl (fun P n => Joined P (Sat n)) (Sat a)) := by
  have cong : ∀ (l : List (Net K)) (P Q : Port K → Prop), Same P Q →
      Same (l.foldl (fun P n => Joined P (Sat n)) P) (l.foldl (fun P n => Joined P (Sat n)) Q) := by
    intro l
    induction l with
    | nil => exact fun P Q h => h
    | cons b t ih => exact fun P Q h => ih _ _ (joined_congr h fun _ => Iff.rfl)
  induction l generalizing a with
  | nil =>
    simp only [cascadeAll, Option.some.injEq] at h
    subst h
    exact ⟨rfl, fun _ => Iff.rfl⟩
  | cons b t ih =>
    simp only [cascadeAll, Option.bind_eq_some_iff] at h
    obtain ⟨ab, hab, hr⟩ := h
    obtain ⟨i1, i2⟩ := ih ab hr
    obtain ⟨e1, -, e3⟩ := C28_cascade h2 dflt hd _ _ _ hab
    refine ⟨i1.trans e1, fun w => ?_⟩
    rw [i2 w]
    exact cong t _ _ e3 w

/-! ### What does not hold -/

/-- C28: further arguments of `cascadeS` are accepted and dropped. -/
theorem C28_rest_refuted (st : K → K) (A B : M2 K) (rest : List (M2 K)) :
    cascadeS st A B rest = cascadeS st A B [] := rfl

/-- Writing a complex number into an array of real numbers. -/
def realStore (x : ℂ) : ℂ := (x.re : ℂ)

open Complex in
/-- C28: if the first network is stored in real numbers, the imaginary parts of the second are lost:
a through before a phase shifter transmits nothing at all. -/
theorem C28_real_refuted : ∃ A B r : M2 ℂ, (∀ i j, realStore (A i j) = A i j) ∧
    cascadeS realStore A B [] = some r ∧ cascadeS id A B [] = some B ∧ r ≠ B := by
  refine ⟨!![0, 1; 1, 0], !![0, I; I, 0], !![0, 0; 0, 0], ?_, ?_, ?_, ?_⟩
  · intro i j
    fin_cases i <;> fin_cases j <;> simp [realStore]
  · simp [cascadeS, realStore]
  · simp [cascadeS]
  · intro h
    have := congrFun (congrFun h 0) 1
    simp at this
    exact I_ne_zero this.symm

/-! ### C29 -/

theorem cascade_values {A B X : M2 K} (h : cascadeS id A B [] = some X) :
    ∃ d, d ≠ 0 ∧ d = 1 - A 1 1 * B 0 0 ∧ X 0 0 = (A 0 0 - B 0 0 * A.det) / d ∧ X 0 1 = A 0 1 * B 0 1 / d ∧
      X 1 0 = A 1 0 * B 1 0 / d ∧ X 1 1 = (B 1 1 - A 1 1 * B.det) / d := by
  have hd := cascadeS_isSome.1 ⟨_, h⟩
  unfold cascadeS at h
  simp only [id, if_neg hd, Option.some.injEq] at h
  refine ⟨_, hd, rfl, ?_⟩
  rw [← h]
  simp

/-- C29: de-embedding the left network from a cascade gives the right one. -/
theorem C29_left (A B X : M2 K) (hA : A 0 1 * A 1 0 ≠ 0) (h : cascadeS id A B [] = some X) :
    deembedleft id A X = some B := by
  obtain ⟨d, hd, hdd, h00, h01, h10, h11⟩ := cascade_values h
  have hAB : A 1 1 * B 0 0 = 1 - d := by rw [hdd]; ring
  have hden : A 0 1 * A 1 0 - A 0 0 * A 1 1 + A 1 1 * X 0 0 = A 0 1 * A 1 0 / d := by
    rw [h00, Matrix.det_fin_two]
    field_simp
    linear_combination (A 0 1 * A 1 0 - A 0 0 * A 1 1) * hAB
  unfold deembedleft
  simp only [id]
  rw [hden, if_neg (div_ne_zero hA hd), h00, h01, h10, h11]
  have ha1 := left_ne_zero_of_mul hA
  have ha2 := right_ne_zero_of_mul hA
  congr 1
  ext i j
  fin_cases i <;> fin_cases j <;> simp [Matrix.det_fin_two] <;> field_simp
  · linear_combination (-(A 0 0)) * hAB
  · linear_combination (-(B 1 1)) * hAB

/-- C29: de-embedding the right network from a cascade gives the left one. -/
theorem C29_right (A B X : M2 K) (hB : B 0 1 * B 1 0 ≠ 0) (h : cascadeS id A B [] = some X) :
    deembedright id X B = some A := by
  obtain ⟨d, hd, hdd, h00, h01, h10, h11⟩ := cascade_values h
  have hAB : A 1 1 * B 0 0 = 1 - d := by rw [hdd]; ring
  have hden : B 0 1 * B 1 0 - B 0 0 * B 1 1 + B 0 0 * X 1 1 = B 0 1 * B 1 0 / d := by
    rw [h11, Matrix.det_fin_two]
    field_simp
    linear_combination (B 0 1 * B 1 0 - B 0 0 * B 1 1) * hAB
  unfold deembedright
  simp only [id]
  rw [hden, if_neg (div_ne_zero hB hd), h00, h01, h10, h11]
  have ha1 := left_ne_zero_of_mul hB
  have ha2 := right_ne_zero_of_mul hB
  congr 1
  ext i j
  fin_cases i <;> fin_cases j <;> simp [Matrix.det_fin_two] <;> field_simp
  · linear_combination (-(A 0 0)) * hAB
  · linear_combination (-(B 1 1)) * hAB

/-- C29: cascading and de-embedding the other way round. -/
theorem C29_left_cascade (A X B : M2 K) (hA : A 0 1 * A 1 0 ≠ 0) (h : deembedleft id A X = some B) :
    cascadeS id A B [] = some X := by
  unfold deembedleft at h
  simp only [id] at h
  split at h
  · simp at h
  rename_i hden
  obtain ⟨D, hD⟩ : ∃ D, D = A 0 1 * A 1 0 - A 0 0 * A 1 1 + A 1 1 * X 0 0 := ⟨_, rfl⟩
  rw [← hD] at h hden
  simp only [Option.some.injEq] at h
  have ha1 := left_ne_zero_of_mul hA
  have ha2 := right_ne_zero_of_mul hA
  have hX : A 1 1 * X 0 0 = D - A 0 1 * A 1 0 + A 0 0 * A 1 1 := by rw [hD]; ring
  have hd : 1 - A 1 1 * B 0 0 = A 0 1 * A 1 0 / D := by
    rw [← h]
    simp
    field_simp
    linear_combination -hX
  unfold cascadeS
  simp only [id]
  rw [hd, if_neg (div_ne_zero hA hden), ← h]
  congr 1
  ext i j
  fin_cases i <;> fin_cases j <;> simp [Matrix.det_fin_two] <;> field_simp
  · linear_combination (-(A 0 0)) * hX
  · linear_combination (X 0 1 * X 1 0 * A 1 1 - D * X 1 1) * hX

/-- C29: the same on the right. -/
theorem C29_right_cascade (X B A : M2 K) (hB : B 0 1 * B 1 0 ≠ 0) (h : deembedright id X B = some A) :
    cascadeS id A B [] = some X := by
  unfold deembedright at h
  simp only [id] at h
  split at h
  · simp at h
  rename_i hden
  obtain ⟨D, hD⟩ : ∃ D, D = B 0 1 * B 1 0 - B 0 0 * B 1 1 + B 0 0 * X 1 1 := ⟨_, rfl⟩
  rw [← hD] at h hden
  simp only [Option.some.injEq] at h
  have ha1 := left_ne_zero_of_mul hB
  have ha2 := right_ne_zero_of_mul hB
  have hX : B 0 0 * X 1 1 = D - B 0 1 * B 1 0 + B 0 0 * B 1 1 := by rw [hD]; ring
  have hd : 1 - A 1 1 * B 0 0 = B 0 1 * B 1 0 / D := by
    rw [← h]
    simp
    field_simp
    linear_combination -hX
  unfold cascadeS
  simp only [id]
  rw [hd, if_neg (div_ne_zero hB hden), ← h]
  congr 1
  ext i j
  fin_cases i <;> fin_cases j <;> simp [Matrix.det_fin_two] <;> field_simp
  · linear_combination (X 0 1 * X 1 0 * B 0 0 - D * X 0 0) * hX
  · linear_combination (-(B 1 1)) * hX

/-- C29: de-embedding on both sides recovers the network in the middle; it is undefined only if
the cascade of the middle and the right network is. -/
theorem C29_both (h2' : (2 : K) ≠ 0) (A M B AM X : M2 K) (hA : A 0 1 * A 1 0 ≠ 0) (hB : B 0 1 * B 1 0 ≠ 0)
    (h1 : cascadeS id A M [] = some AM) (h2 : cascadeS id AM B [] = some X) :
    deembed id A X B = (cascadeS id M B []).map fun _ => M := by
  cases h3 : cascadeS id M B [] with
  | some MB =>
    have h4 := C28_assoc_defined h2' A M B AM MB h1 h3
    rw [h2] at h4
    unfold deembed
    rw [C29_left A MB X hA h4.symm, Option.bind_some, C29_right M B MB hB h3]
    rfl
  | none =>
    have h5 : 1 - M 1 1 * B 0 0 = 0 := by
      by_contra h
      obtain ⟨r, hr⟩ := cascadeS_isSome.2 h
      rw [h3] at hr
      simp at hr
    obtain ⟨d, hd, hdd, h00, h01, h10, h11⟩ := cascade_values h1
    obtain ⟨e, he, hee, k00, k01, k10, k11⟩ := cascade_values h2
    have hden : A 0 1 * A 1 0 - A 0 0 * A 1 1 + A 1 1 * X 0 0 = 0 := by
      have hdet : AM.det * d = A 0 0 * M 1 1 - A.det * M.det := by
        rw [Matrix.det_fin_two AM, h00, h01, h10, h11, Matrix.det_fin_two, Matrix.det_fin_two]
        field_simp
        rw [hdd]
        ring
      have hed : e * d = d - (M 1 1 - A 1 1 * M.det) * B 0 0 := by
        rw [hee, h11]; field_simp
      have hX : X 0 0 * (e * d) = A 0 0 - M 0 0 * A.det - B 0 0 * (A 0 0 * M 1 1 - A.det * M.det) := by
        rw [← hdet, k00, h00]; field_simp
      have h0 : (A 0 1 * A 1 0 - A 0 0 * A 1 1 + A 1 1 * X 0 0) * (e * d) = 0 := by
        have hA' : A.det = A 0 0 * A 1 1 - A 0 1 * A 1 0 := Matrix.det_fin_two A
        rw [hdd] at hed
        rw [hdd] at hX
        rw [hdd]
        linear_combination (A 1 1) * hX + (A 0 1 * A 1 0 - A 0 0 * A 1 1) * hed +
          (A 0 1 * A 1 0) * h5 + (- A 1 1 * M 0 0 + A 1 1 * B 0 0 * M.det) * hA'
      rcases mul_eq_zero.1 h0 with h | h
      · exact h
      · exact absurd h (mul_ne_zero he hd)
    unfold deembed deembedleft
    simp only
    rw [if_pos hden]
    rfl

theorem construct_ofS_same {dflt : Imp K} {rep : Rep} {r : M2 K} {net : Net K}
    (h : construct dflt rep none (ofRaw dflt .S none r) = some net) : Same (Sat ⟨.S, dflt, r⟩) (Sat net) :=
  fun w => (construct_same _ _ _ _ _ h w).symm

theorem construct_S_same {dflt : Imp K} {net a : Net K} (h : construct dflt .S none net = some a) :
    Same (Sat ⟨.S, dflt, a.m⟩) (Sat net) := by
  rw [← construct_S h]
  exact construct_same _ _ _ _ _ h

/-- C29: de-embedding at the level of networks: what is found completes the network, in every
representation. -/
theorem C29_net (h2 : (2 : K) ≠ 0) (dflt : Imp K) (hd : dflt.Ok) (self : Net K) (left right : Option (Net K))
    (r : Net K) (h : deembedNet dflt self left right = some r)
    (hl : ∀ l ∈ left, ∀ e, construct dflt .S none l = some e → e.m 0 1 * e.m 1 0 ≠ 0)
    (hr : ∀ l ∈ right, ∀ e, construct dflt .S none l = some e → e.m 0 1 * e.m 1 0 ≠ 0) :
    r.rep = self.rep ∧
    Same (Sat self) (match left, right with
      | none, none => Sat r
      | some l, none => Joined (Sat l) (Sat r)
      | none, some q => Joined (Sat r) (Sat q)
      | some l, some q => Joined (Sat l) (Joined (Sat r) (Sat q))) := by
  cases left with
  | none =>
    cases right with
    | none =>
      simp only [deembedNet, Option.some.injEq] at h
      subst h
      exact ⟨rfl, fun _ => Iff.rfl⟩
    | some q =>
      simp only [deembedNet, Option.bind_eq_some_iff] at h
      obtain ⟨x, hx, e, he, m, hm, hr'⟩ := h
      refine ⟨(construct_ofS hr').1, fun w => ?_⟩
      have c := cascadeS_joined h2 dflt hd _ _ _ (C29_right_cascade _ _ _ (hr q rfl e he) hm)
      rw [← construct_S_same hx w, c w]
      exact joined_congr (construct_ofS_same hr') (construct_S_same he) w
  | some l =>
    cases right with
    | none =>
      simp only [deembedNet, Option.bind_eq_some_iff] at h
      obtain ⟨e, he, x, hx, m, hm, hr'⟩ := h
      refine ⟨(construct_ofS hr').1, fun w => ?_⟩
      have c := cascadeS_joined h2 dflt hd _ _ _ (C29_left_cascade _ _ _ (hl l rfl e he) hm)
      rw [← construct_S_same hx w, c w]
      exact joined_congr (construct_S_same he) (construct_ofS_same hr') w
    | some q =>
      simp only [deembedNet, Option.bind_eq_some_iff] at h
      obtain ⟨e1, he1, x, hx, e2, he2, m, hm, hr'⟩ := h
      simp only [deembed, Option.bind_eq_some_iff] at hm
      obtain ⟨y, hy, hm⟩ := hm
      refine ⟨(construct_ofS hr').1, fun w => ?_⟩
      have c1 := cascadeS_joined h2 dflt hd _ _ _ (C29_left_cascade _ _ _ (hl l rfl e1 he1) hy)
      have c2 := cascadeS_joined h2 dflt hd _ _ _ (C29_right_cascade _ _ _ (hr q rfl e2 he2) hm)
      rw [← construct_S_same hx w, c1 w]
      refine joined_congr (construct_S_same he1) (fun w' => ?_) w
      rw [c2 w']
      exact joined_congr (construct_ofS_same hr') (construct_S_same he2) w'

/-- C29: if the network taken away does not transmit, numbers may come out although no network
whatsoever would give the measured one. -/
theorem C29_isolated_refuted : ∃ e X B : M2 ℚ, deembedleft id e X = some B ∧
    ∀ B', cascadeS id e B' [] ≠ some X := by
  refine ⟨!![0, 0; 0, 1], !![1, 0; 0, 0], !![1, 0; 0, 0], ?_, ?_⟩
  · simp [deembedleft]
  · intro B' h
    obtain ⟨d, hd, hdd, h00, -⟩ := cascade_values h
    simp [Matrix.det_fin_two] at h00

open Complex in
/-- C29: if the measured network is stored in real numbers, imaginary parts are lost. -/
theorem C29_real_refuted : ∃ (e X B : M2 ℂ), (∀ i j, realStore (X i j) = X i j) ∧
    cascadeS id e B [] = some X ∧ e 0 1 * e 1 0 ≠ 0 ∧ deembedleft realStore e X ≠ some B := by
  refine ⟨!![0, I; I, 0], !![0, 1; 1, 0], !![0, -I; -I, 0], ?_, ?_, ?_, ?_⟩
  · intro i j
    fin_cases i <;> fin_cases j <;> simp [realStore]
  · simp [cascadeS]
  · simp
  · intro h
    simp [deembedleft, realStore] at h

/-! ### Non-vacuity -/

example : ∃ r, cascadeS id (!![1 / 2, 1 / 2; 1 / 3, 1 / 4] : M2 ℚ) !![1 / 5, 1; 1, 1 / 3] [] = some r :=
  cascadeS_isSome.2 (by norm_num)

theorem construct_eq (h2 : (2 : K) ≠ 0) (dflt : Imp K) (hd : dflt.Ok) (rep dst : Rep) (m m' : M2 K)
    (h : ∀ w, Sat ⟨rep, dflt, m⟩ w ↔ Sat ⟨dst, dflt, m'⟩ w) :
    construct dflt dst none ⟨rep, dflt, m⟩ = some ⟨dst, dflt, m'⟩ := by
  obtain ⟨n, hn⟩ := C27_exists h2 dflt hd dst none (by simp) ⟨rep, dflt, m⟩ hd m'
    (by simpa using h)
  rw [hn]
  congr 1
  have := C27_impedance _ _ _ _ _ hn
  have hz : n.z = dflt := by rw [this.2]; simp
  refine net_ext_of_same h2 _ _ this.1 hz (by rw [hz]; exact hd) fun w => ?_
  rw [← C27_same_network _ _ _ _ _ hn w, h w]

/-- A series resistor and a shunt resistor put together, as ABCD-matrices. -/
example : cascade (⟨1, 1⟩ : Imp ℚ) ⟨.ABCD, ⟨1, 1⟩, !![1, 2; 0, 1]⟩
    ⟨.ABCD, ⟨1, 1⟩, !![1, 0; 2, 1]⟩ = some ⟨.ABCD, ⟨1, 1⟩, !![5, 2; 2, 1]⟩ := by
  have ok : (⟨1, 1⟩ : Imp ℚ).Ok := ⟨by norm_num, by norm_num⟩
  have e1 : construct (⟨1, 1⟩ : Imp ℚ) .S none ⟨.ABCD, ⟨1, 1⟩, !![1, 2; 0, 1]⟩ =
      some ⟨.S, ⟨1, 1⟩, !![1 / 2, 1 / 2; 1 / 2, 1 / 2]⟩ := by
    apply construct_eq (by norm_num) _ ok
    intro w
    simp only [Sat, Lin, Port.a1, Port.a2, Port.b1, Port.b2, Matrix.of_apply, Matrix.cons_val',
      Matrix.cons_val_zero, Matrix.cons_val_one, Matrix.cons_val_fin_one]
    constructor <;> rintro ⟨h1, h2⟩ <;> constructor <;> linarith
  have e2 : construct (⟨1, 1⟩ : Imp ℚ) .S none ⟨.ABCD, ⟨1, 1⟩, !![1, 0; 2, 1]⟩ =
      some ⟨.S, ⟨1, 1⟩, !![-1 / 2, 1 / 2; 1 / 2, -1 / 2]⟩ := by
    apply construct_eq (by norm_num) _ ok
    intro w
    simp only [Sat, Lin, Port.a1, Port.a2, Port.b1, Port.b2, Matrix.of_apply, Matrix.cons_val',
      Matrix.cons_val_zero, Matrix.cons_val_one, Matrix.cons_val_fin_one]
    constructor <;> rintro ⟨h1, h2⟩ <;> constructor <;> linarith
  have e3 : ∃ r, cascade (⟨1, 1⟩ : Imp ℚ) ⟨.ABCD, ⟨1, 1⟩, !![1, 2; 0, 1]⟩
      ⟨.ABCD, ⟨1, 1⟩, !![1, 0; 2, 1]⟩ = some r := by
    have e4 : cascadeS id (!![1 / 2, 1 / 2; 1 / 2, 1 / 2] : M2 ℚ) !![-1 / 2, 1 / 2; 1 / 2, -1 / 2] [] =
        some !![2 / 5, 1 / 5; 1 / 5, -2 / 5] := by
      simp [cascadeS, Matrix.det_fin_two]
      norm_num
    have e5 : construct (⟨1, 1⟩ : Imp ℚ) .ABCD none ⟨.S, ⟨1, 1⟩, !![2 / 5, 1 / 5; 1 / 5, -2 / 5]⟩ =
        some ⟨.ABCD, ⟨1, 1⟩, !![5, 2; 2, 1]⟩ := by
      apply construct_eq (by norm_num) _ ok
      intro w
      simp only [Sat, Lin, Port.a1, Port.a2, Port.b1, Port.b2, Matrix.of_apply, Matrix.cons_val',
        Matrix.cons_val_zero, Matrix.cons_val_one, Matrix.cons_val_fin_one]
      constructor <;> rintro ⟨h1, h2⟩ <;> constructor <;> linarith
    exact ⟨⟨.ABCD, ⟨1, 1⟩, !![5, 2; 2, 1]⟩, by simp only [cascade, e1, e2, Option.bind_some, e4, ofRaw, e5]⟩
  obtain ⟨r, hr⟩ := e3
  rw [hr, C28_product (by norm_num) _ ok .ABCD (Or.inl rfl) _ _ r hr]
  congr 2
  ext i j
  fin_cases i <;> fin_cases j <;> simp [Matrix.mul_apply, Fin.sum_univ_succ] <;> norm_num

end HF.Networks
