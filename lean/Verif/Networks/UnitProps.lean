import Verif.Networks.Unit
import Verif.Networks.PortsProps
import Verif.Networks.ChainProps
/-
C110: the unit matrices.

`unit_smatrix` connects the first two ports directly; cascading with it changes nothing.  `unit_matrix`
leaves all ports open, also if another class is asked for in which the unit matrix is a connection.
-/
noncomputable section

namespace HF.Networks

open HF.Arr

variable {β K : Type} [Field K] [DecidableEq K] [DecidableEq β]

/-! ### Specification -/

/-- No axis is empty. -/
def NonEmpty (a : Arr β K) : Prop := ∀ k, a.axisLen k ≠ some 0

/-- The first two ports are connected to each other, the others terminated with the reference
impedance. -/
def Through {n : Nat} (z : Imp K) (v i : Fin n → K) : Prop :=
  (∀ p q : Fin n, p.1 = 0 → q.1 = 1 → v p = v q ∧ i p = -i q) ∧ ∀ p : Fin n, 2 ≤ p.1 → z.v * v p = z.i * i p

/-! ### Helpers -/

theorem smatrix_some {ofIdx : Nat → β} {dflt : Imp K} {n : Nat} {cls : Rep} {r : PortArr β K}
    (h : unitSmatrix ofIdx dflt n cls = some r) : 2 ≤ n ∧ r.kind = .S ∧ r.z = dflt ∧
      r.a = ⟨unitDims ofIdx n, ⟨[n, n], fun idx => if idx = [1, 0] then 1 else if idx = [0, 1] then 1 else 0⟩⟩ := by
  unfold unitSmatrix setOne at h
  by_cases hn : 2 ≤ n
  · rw [if_pos ⟨by omega, by omega⟩] at h
    simp only [Option.bind_eq_bind, Option.bind_some] at h
    rw [if_pos ⟨by omega, by omega⟩] at h
    cases h
    exact ⟨hn, rfl, rfl, rfl⟩
  · rw [if_neg (by omega)] at h
    cases h

theorem smatrix_at {n : Nat} (ofIdx : Nat → β) (c : Coord) (m k : Fin n) :
    (⟨unitDims ofIdx n, ⟨[n, n], fun idx => if idx = [1, 0] then 1 else if idx = [0, 1] then 1 else 0⟩⟩ : Arr β K).mat
      kI kJ c n n m k = if (m.1 = 1 ∧ k.1 = 0) ∨ (m.1 = 0 ∧ k.1 = 1) then 1 else 0 := by
  refine (mat_two n rfl rfl _ c m k).trans ?_
  by_cases h1 : m.1 = 1 ∧ k.1 = 0
  · simp [h1]
  · by_cases h2 : m.1 = 0 ∧ k.1 = 1
    · simp [h2]
    · have e1 : ¬ ([m.1, k.1] = [1, 0]) := by simpa using h1
      have e2 : ¬ ([m.1, k.1] = [0, 1]) := by simpa using h2
      rw [if_neg e1, if_neg e2, if_neg (by tauto)]

/-- The row of a matrix with a single one. -/
theorem mulVec_one {n : Nat} {m : Matrix (Fin n) (Fin n) K} {x : Fin n → K} {p q : Fin n}
    (h : ∀ k, m p k = if k = q then 1 else 0) : m.mulVec x p = x q := by
  simp [Matrix.mulVec, dotProduct, h]

theorem two_stack (ofIdx : Nat → β) (g : List Nat → K) :
    (⟨unitDims ofIdx 2, ⟨[2, 2], g⟩⟩ : Arr β K).IsStack kI kJ 2 := (last_two 2 rfl rfl g).stack

theorem two_len (ofIdx : Nat → β) (g : List Nat → K) {k : Key} (h1 : k ≠ kI) (h2 : k ≠ kJ) :
    (⟨unitDims ofIdx 2, ⟨[2, 2], g⟩⟩ : Arr β K).axisLen k = none := by
  apply axisLen_none (two_stack ofIdx g).wf
  simp only [unitDims, List.map_cons, List.map_nil, List.mem_cons, List.not_mem_nil, or_false, not_or]
  exact ⟨h1, h2⟩

theorem len1_ne {a : Arr β K} (h : NonEmpty a) (k : Key) : len1 a k ≠ 0 := by
  unfold len1
  cases e : a.axisLen k with
  | none => simp
  | some s =>
    have := h k
    rw [e] at this
    simpa using this

theorem key_mem {a : Arr β K} (h : a.IsStack kI kJ 2) : kI ∈ a.dims.map Dim.key ∧ kJ ∈ a.dims.map Dim.key :=
  ⟨axisLen_isSome h.wf h.rows, axisLen_isSome h.wf h.cols⟩

theorem unit_fit (ofIdx : Nat → β) (g : List Nat → K) {a : Arr β K} (h : a.IsStack kI kJ 2) (hn : NoSub a.dims)
    (he : NonEmpty a) : Fit a ⟨unitDims ofIdx 2, ⟨[2, 2], g⟩⟩ ∧ Fit ⟨unitDims ofIdx 2, ⟨[2, 2], g⟩⟩ a := by
  have hk := key_mem h
  have keys : ∀ d ∈ (unitDims ofIdx 2 : List (Dim β)), d.key ∈ a.dims.map Dim.key := by
    intro d hd
    simp only [unitDims, List.mem_cons, List.not_mem_nil, or_false] at hd
    rcases hd with rfl | rfl
    · exact hk.1
    · exact hk.2
  have h1 : ∀ k, k ≠ kI → k ≠ kJ → len1 (⟨unitDims ofIdx 2, ⟨[2, 2], g⟩⟩ : Arr β K) k ≠ 0 := by
    intro k h1 h2
    unfold len1
    rw [two_len ofIdx g h1 h2]
    simp
  constructor
  · refine ⟨h, two_stack ofIdx g, noSub_keys hn ?_, ?_, fun k p q => ?_⟩
    · intro d hd
      rcases List.mem_append.1 hd with hd | hd
      · exact List.mem_map_of_mem hd
      · exact keys d hd
    · intro k s t p q _ ht
      rw [two_len ofIdx g p q] at ht; cases ht
    · exact ⟨fun e => absurd e (len1_ne he k), fun e => absurd e (h1 k p q)⟩
  · refine ⟨two_stack ofIdx g, h, noSub_keys hn ?_, ?_, fun k p q => ?_⟩
    · intro d hd
      rcases List.mem_append.1 hd with hd | hd
      · exact keys d hd
      · exact List.mem_map_of_mem hd
    · intro k s t p q hs _
      rw [two_len ofIdx g p q] at hs; cases hs
    · exact ⟨fun e => absurd e (h1 k p q), fun e => absurd e (len1_ne he k)⟩

theorem len_same (ofIdx : Nat → β) (g : List Nat → K) {a : Arr β K} (h : a.IsStack kI kJ 2) (k : Key) :
    bLen (a.axisLen k) ((⟨unitDims ofIdx 2, ⟨[2, 2], g⟩⟩ : Arr β K).axisLen k) = a.axisLen k ∧
    bLen ((⟨unitDims ofIdx 2, ⟨[2, 2], g⟩⟩ : Arr β K).axisLen k) (a.axisLen k) = a.axisLen k := by
  by_cases h1 : k = kI
  · subst h1; rw [h.rows, (two_stack ofIdx g).rows]; simp [bLen]
  · by_cases h2 : k = kJ
    · subst h2; rw [h.cols, (two_stack ofIdx g).cols]; simp [bLen]
    · rw [two_len ofIdx g h1 h2]
      cases a.axisLen k <;> simp [bLen]

theorem unit_two (ofIdx : Nat → β) (c : Coord) :
    (⟨unitDims ofIdx 2, ⟨[2, 2], fun idx => if idx = [1, 0] then 1 else if idx = [0, 1] then 1 else 0⟩⟩ :
      Arr β K).mat kI kJ c 2 2 = !![0, 1; 1, 0] := by
  ext m k
  rw [smatrix_at]
  fin_cases m <;> fin_cases k <;> simp

/-! ### Properties -/

/-- C110.  `unit_smatrix` of a size: a matrix exists for two and more ports, and it connects the first
two of them; the others are matched. -/
theorem C110_through (h2 : (2 : K) ≠ 0) (ofIdx : Nat → β) (dflt : Imp K) (hd : dflt.Ok) (n : Nat) (cls : Rep) :
    (unitSmatrix ofIdx dflt n cls = none ↔ n < 2) ∧
    ∀ r, unitSmatrix ofIdx dflt n cls = some r → Ports r n ∧ r.kind = .S ∧ r.z = dflt ∧
      ∀ c v i, PortSat r.z (r.at n c) v i .S ↔ Through dflt v i := by
  constructor
  · unfold unitSmatrix setOne
    by_cases hn : n < 2
    · rw [if_neg (by omega)]; simp [hn]
    · rw [if_pos ⟨by omega, by omega⟩]
      simp only [Option.bind_eq_bind, Option.bind_some]
      rw [if_pos ⟨by omega, by omega⟩]
      simp [hn]
  · intro r hr
    obtain ⟨hn, h1, h3, ha⟩ := smatrix_some hr
    refine ⟨⟨?_, ?_⟩, h1, h3, fun c v i => ?_⟩
    · rw [ha]; exact ⟨[], _, _, last_two n rfl rfl _⟩
    · rw [ha]
      show NoSub [_, _]
      intro d hd e he
      simp only [List.mem_cons, List.not_mem_nil, or_false] at hd he
      rcases hd with rfl | rfl <;> rcases he with rfl | rfl <;> simp
    · unfold PortArr.at PortSat
      rw [h3, ha]
      obtain ⟨p0, hp0⟩ : ∃ p : Fin n, p.1 = 0 := ⟨⟨0, by omega⟩, rfl⟩
      obtain ⟨p1, hp1⟩ : ∃ p : Fin n, p.1 = 1 := ⟨⟨1, by omega⟩, rfl⟩
      generalize hM : (⟨unitDims ofIdx n, ⟨[n, n], fun idx => if idx = [1, 0] then 1 else if idx = [0, 1] then 1 else 0⟩⟩ :
        Arr β K).mat kI kJ c n n = M
      have hent : ∀ m k, M m k = if (m.1 = 1 ∧ k.1 = 0) ∨ (m.1 = 0 ∧ k.1 = 1) then 1 else 0 := by
        intro m k; rw [← hM]; exact smatrix_at ofIdx c m k
      generalize hx : (fun k => dflt.v * v k + dflt.i * i k) = x
      have r0 : M.mulVec x p0 = x p1 := mulVec_one fun k => by
        rw [hent]
        by_cases h : k = p1
        · simp [h, hp0, hp1]
        · have : k.1 ≠ 1 := fun e => h (Fin.ext (by omega))
          simp [h, hp0, this]
      have r1 : M.mulVec x p1 = x p0 := mulVec_one fun k => by
        rw [hent]
        by_cases h : k = p0
        · simp [h, hp0, hp1]
        · have : k.1 ≠ 0 := fun e => h (Fin.ext (by omega))
          simp [h, hp1, this]
      have rk : ∀ p : Fin n, 2 ≤ p.1 → M.mulVec x p = 0 := by
        intro p hp
        have : ∀ k, M p k = 0 := fun k => by rw [hent, if_neg (by omega)]
        simp [Matrix.mulVec, dotProduct, this]
      have ex : ∀ k, x k = dflt.v * v k + dflt.i * i k := fun k => by rw [← hx]
      obtain ⟨hv, hi⟩ := hd
      constructor
      · intro h
        have e0 : dflt.v * v p0 - dflt.i * i p0 = x p1 := by rw [← r0]; exact congrFun h p0
        have e1 : dflt.v * v p1 - dflt.i * i p1 = x p0 := by rw [← r1]; exact congrFun h p1
        rw [ex] at e0 e1
        refine ⟨fun p q hp hq => ?_, fun p hp => ?_⟩
        · obtain rfl : p = p0 := Fin.ext (by omega)
          obtain rfl : q = p1 := Fin.ext (by omega)
          constructor
          · apply mul_left_cancel₀ (mul_ne_zero h2 hv)
            linear_combination e0 - e1
          · apply mul_left_cancel₀ (mul_ne_zero h2 hi)
            linear_combination -e0 - e1
        · have e := congrFun h p
          rw [rk p hp] at e
          exact sub_eq_zero.1 e
      · rintro ⟨h1, h3⟩
        obtain ⟨hvv, hii⟩ := h1 p0 p1 hp0 hp1
        funext p
        show dflt.v * v p - dflt.i * i p = M.mulVec x p
        by_cases q0 : p.1 = 0
        · obtain rfl : p = p0 := Fin.ext (by omega)
          rw [r0, ex, hvv, hii]; ring
        · by_cases q1 : p.1 = 1
          · obtain rfl : p = p1 := Fin.ext (by omega)
            rw [r1, ex, hvv, hii]; ring
          · rw [rk p (by omega), h3 p (by omega)]; ring

/-- C110.  Cascading any array of two-ports with `unit_smatrix`, on either side, changes nothing. -/
theorem C110_cascade (full : Arr β K → Arr β K) (fmt : β → String) (ofIdx : Nat → β) (dflt : Imp K) (cls : Rep)
    (div : K → K → K) (hdiv : ∀ x y, y ≠ 0 → div x y = x / y) (a : Arr β K) (h : a.IsStack kI kJ 2)
    (hn : NoSub a.dims) (he : NonEmpty a) (u : PortArr β K) (hu : unitSmatrix ofIdx dflt 2 cls = some u) :
    (∃ r, cascadeArr full fmt div u.a a = .ok r ∧ (∀ k, r.axisLen k = a.axisLen k) ∧
      ∀ c, a.InStack kI kJ c → r.mat kI kJ c 2 2 = a.mat kI kJ c 2 2) ∧
    ∃ r, cascadeArr full fmt div a u.a = .ok r ∧ (∀ k, r.axisLen k = a.axisLen k) ∧
      ∀ c, a.InStack kI kJ c → r.mat kI kJ c 2 2 = a.mat kI kJ c 2 2 := by
  obtain ⟨-, -, -, ha⟩ := smatrix_some hu
  rw [ha]
  obtain ⟨f1, f2⟩ := unit_fit ofIdx (fun idx => if idx = [1, 0] then 1 else if idx = [0, 1] then 1 else 0) h hn he
  constructor
  · obtain ⟨r, e, cr, mr⟩ := C102_cascade full fmt div hdiv _ _ f2
    have hl : ∀ k, r.axisLen k = a.axisLen k := fun k => (cr.len k).trans (len_same ofIdx _ h k).2
    refine ⟨r, e, hl, fun c hc => ?_⟩
    apply mr c ((inStack_congr hl).2 hc)
    rw [unit_two]
    unfold cascadeS
    simp only [Matrix.det_fin_two]
    rw [if_neg (by simp)]
    congr 1
    ext m k
    fin_cases m <;> fin_cases k <;> simp
  · obtain ⟨r, e, cr, mr⟩ := C102_cascade full fmt div hdiv _ _ f1
    have hl : ∀ k, r.axisLen k = a.axisLen k := fun k => (cr.len k).trans (len_same ofIdx _ h k).1
    refine ⟨r, e, hl, fun c hc => ?_⟩
    apply mr c ((inStack_congr hl).2 hc)
    rw [unit_two]
    unfold cascadeS
    simp only [Matrix.det_fin_two]
    rw [if_neg (by simp)]
    congr 1
    ext m k
    fin_cases m <;> fin_cases k <;> simp

/-- C110.  De-embedding `unit_smatrix`, on either side, changes nothing. -/
theorem C110_deembed (full : Arr β K → Arr β K) (fmt : β → String) (ofIdx : Nat → β) (dflt : Imp K) (cls : Rep)
    (div : K → K → K) (hdiv : ∀ x y, y ≠ 0 → div x y = x / y) (a : Arr β K) (h : a.IsStack kI kJ 2)
    (hn : NoSub a.dims) (he : NonEmpty a) (u : PortArr β K) (hu : unitSmatrix ofIdx dflt 2 cls = some u) :
    (∃ r, deembedleftArr full fmt div u.a a = .ok r ∧ (∀ k, r.axisLen k = a.axisLen k) ∧
      ∀ c, a.InStack kI kJ c → r.mat kI kJ c 2 2 = a.mat kI kJ c 2 2) ∧
    ∃ r, deembedrightArr full fmt div a u.a = .ok r ∧ (∀ k, r.axisLen k = a.axisLen k) ∧
      ∀ c, a.InStack kI kJ c → r.mat kI kJ c 2 2 = a.mat kI kJ c 2 2 := by
  obtain ⟨-, -, -, ha⟩ := smatrix_some hu
  rw [ha]
  obtain ⟨f1, f2⟩ := unit_fit ofIdx (fun idx => if idx = [1, 0] then 1 else if idx = [0, 1] then 1 else 0) h hn he
  constructor
  · obtain ⟨r, e, cr, mr⟩ := C102_left full fmt div hdiv _ _ f1
    have hl : ∀ k, r.axisLen k = a.axisLen k := fun k => (cr.len k).trans (len_same ofIdx _ h k).1
    refine ⟨r, e, hl, fun c hc => ?_⟩
    apply mr c ((inStack_congr hl).2 hc)
    rw [unit_two]
    unfold deembedleft
    rw [if_neg (by simp)]
    congr 1
    ext m k
    fin_cases m <;> fin_cases k <;> simp
  · obtain ⟨r, e, cr, mr⟩ := C102_right full fmt div hdiv _ _ f1
    have hl : ∀ k, r.axisLen k = a.axisLen k := fun k => (cr.len k).trans (len_same ofIdx _ h k).1
    refine ⟨r, e, hl, fun c hc => ?_⟩
    apply mr c ((inStack_congr hl).2 hc)
    rw [unit_two]
    unfold deembedright
    rw [if_neg (by simp)]
    congr 1
    ext m k
    fin_cases m <;> fin_cases k <;> simp

/-- C110.  `unit_matrix` of any size: all ports are open, for any class asked for. -/
theorem C110_open (h2 : (2 : K) ≠ 0) (ofIdx : Nat → β) (dflt : Imp K) (hd : dflt.Ok) (n : Nat) (cls : Rep) (c : Coord)
    (v i : Fin n → K) :
    PortSat (unitMatrix ofIdx dflt n cls).z ((unitMatrix ofIdx dflt n cls).at n c) v i (unitMatrix ofIdx dflt n cls).kind ↔
      i = 0 := by
  have hone : (unitMatrix ofIdx dflt n cls).at n c = 1 := by
    ext m k
    refine (mat_two n rfl rfl _ c m k).trans ?_
    simp [Matrix.one_apply, Fin.ext_iff]
  rw [hone]
  show (fun k => dflt.v * v k - dflt.i * i k) = (1 : Matrix (Fin n) (Fin n) K).mulVec _ ↔ _
  rw [Matrix.one_mulVec]
  constructor
  · intro h
    funext k
    have e : dflt.v * v k - dflt.i * i k = dflt.v * v k + dflt.i * i k := congrFun h k
    apply mul_left_cancel₀ (mul_ne_zero h2 hd.2)
    simp only [Pi.zero_apply]
    linear_combination -e
  · rintro rfl
    funext k
    show dflt.v * v k - dflt.i * 0 = dflt.v * v k + dflt.i * 0
    simp

/-- C110 is false for `unit_matrix(2, ABCDArray)`, as for all classes: the unit chain matrix connects the
ports, but the result does not. -/
theorem C110_class_refuted (h2 : (2 : K) ≠ 0) (ofIdx : Nat → β) (dflt : Imp K) (hd : dflt.Ok) (c : Coord) :
    (unitMatrix ofIdx dflt 2 .ABCD).kind = .S ∧ Sat ⟨.ABCD, dflt, (1 : M2 K)⟩ ⟨1, 1, 1, -1⟩ ∧
      ¬ PortSat (unitMatrix ofIdx dflt 2 .ABCD).z ((unitMatrix ofIdx dflt 2 .ABCD).at 2 c) ![1, 1] ![1, -1] .S := by
  refine ⟨rfl, ?_, ?_⟩
  · simp [Sat, Lin]
  · intro h
    have := (C110_open h2 ofIdx dflt hd 2 .ABCD c ![1, 1] ![1, -1]).1 h
    have e := congrFun this 0
    simp at e

/-! ### Examples -/

/-- Two matrices which can be cascaded with the unit matrix. -/
def unA : Arr Nat ℚ := ⟨[⟨.dimSweep, "freq", [1, 2], none, none⟩, ⟨.matI, "i", [0, 1], none, none⟩,
  ⟨.matJ, "j", [0, 1], none, none⟩], ⟨[2, 2, 2], fun idx => idx.getD 0 0 + idx.getD 1 0 + 2 * idx.getD 2 0⟩⟩

example : unA.IsStack kI kJ 2 ∧ NoSub unA.dims ∧ NonEmpty unA ∧
    ∃ u, unitSmatrix id (⟨1, 1⟩ : Imp ℚ) 2 .S = some u := by
  have hs : unA.IsStack kI kJ 2 := ⟨rfl, by unfold Distinct; decide +kernel, by decide +kernel, by decide +kernel, rfl, rfl,
      by decide +kernel⟩
  refine ⟨hs, by unfold NoSub; decide +kernel, fun k hk => ?_, ⟨_, rfl⟩⟩
  obtain ⟨d, hd, rfl⟩ := List.mem_map.1 (axisLen_isSome hs.wf hk)
  have : ∀ d ∈ unA.dims, unA.axisLen d.key ≠ some 0 := by decide +kernel
  exact this d hd hk

end HF.Networks
