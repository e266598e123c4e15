import Verif.Networks.Objects
import Verif.Networks.CascadeProps
/-
C61: arithmetic with port parameters.
-/
noncomputable section

namespace HF.Networks

open Matrix

variable {K : Type} [Field K] [DecidableEq K]

theorem construct_self (dflt : Imp K) (z : Option (Imp K)) (m : M2 K) :
    construct dflt .S z ⟨.S, dflt, m⟩ = some ⟨.S, dflt, m⟩ := by
  simp [construct]

/-- Bringing S-parameters of the default impedance to their own shape does nothing. -/
theorem sameShape_dflt (dflt : Imp K) (mem : Mem K) (k : Nat) (m : M2 K) (hm : mem[k]? = some m) :
    sameShape dflt mem ⟨.S, dflt, k⟩ = .ok (mem, ⟨.S, dflt, k⟩) := by
  obtain ⟨hk, hm'⟩ := List.getElem?_eq_some_iff.1 hm
  have hs : mem.set k m = mem := by rw [← hm']; exact List.set_getElem_self hk
  simp only [sameShape, view, if_true, share, hm, construct_self, hs, transposeKeep]

/-- S-parameters of another impedance: they are overwritten with those of the default impedance. -/
theorem sameShape_other (h2 : (2 : K) ≠ 0) (dflt : Imp K) (hd : dflt.Ok) (z : Imp K) (hz : z.Ok)
    (hne : z ≠ dflt) (mem : Mem K) (k : Nat) (m m' : M2 K) (hm : mem[k]? = some m)
    (h : ∀ w, Sat ⟨.S, z, m⟩ w ↔ Sat ⟨.S, dflt, m'⟩ w) :
    sameShape dflt mem ⟨.S, z, k⟩ = .ok (mem.set k m', ⟨.S, dflt, k⟩) := by
  have e1 : construct dflt .S (some z) ⟨.S, z, m⟩ = some ⟨.S, z, m⟩ := by
    obtain ⟨n, hn⟩ := C27_exists h2 dflt hd .S (some z) (by simpa using hz) ⟨.S, z, m⟩ hz m (by simp)
    rw [hn]
    have hi := C27_impedance _ _ _ _ _ hn
    refine congrArg some (C27_back h2 dflt [(.S, some z)] _ _ (by simp [chain, hn]) hi.1 ?_ hz)
    rw [hi.2]; simp [hne]
  have e2 : construct dflt .S none ⟨.S, z, m⟩ = some ⟨.S, dflt, m'⟩ := by
    obtain ⟨n, hn⟩ := C27_exists h2 dflt hd .S none (by simp) ⟨.S, z, m⟩ hz m' (by simpa using h)
    rw [hn]
    have hi := C27_impedance _ _ _ _ _ hn
    have hnz : n.z = dflt := by rw [hi.2]; simp
    refine congrArg some (net_ext_of_same h2 _ _ hi.1 hnz (by rw [hnz]; exact hd) fun w => ?_)
    rw [← C27_same_network _ _ _ _ _ hn w, h w]
  obtain ⟨hk, hm'⟩ := List.getElem?_eq_some_iff.1 hm
  have hs : mem.set k m = mem := by rw [← hm']; exact List.set_getElem_self hk
  simp only [sameShape, view, if_true, share, hm, e1, hs, transposeKeep, e2]

theorem fresh_S (h2 : (2 : K) ≠ 0) (dflt : Imp K) (hd : dflt.Ok) (mem : Mem K) (b : Obj K) (hz : b.z.Ok)
    (m m' : M2 K) (hm : mem[b.ref]? = some m)
    (h : ∀ w, Sat ⟨b.rep, b.z, m⟩ w ↔ Sat ⟨.S, dflt, m'⟩ w) :
    fresh dflt .S mem b = .ok (mem ++ [m'], ⟨.S, dflt, mem.length⟩) := by
  have e2 : construct dflt .S none ⟨b.rep, b.z, m⟩ = some ⟨.S, dflt, m'⟩ := by
    obtain ⟨n, hn⟩ := C27_exists h2 dflt hd .S none (by simp) ⟨b.rep, b.z, m⟩ hz m' (by simpa using h)
    rw [hn]
    have hi := C27_impedance _ _ _ _ _ hn
    have hnz : n.z = dflt := by rw [hi.2]; simp
    refine congrArg some (net_ext_of_same h2 _ _ hi.1 hnz (by rw [hnz]; exact hd) fun w => ?_)
    rw [← C27_same_network _ _ _ _ _ hn w, h w]
  simp only [fresh, hm, e2]

/-- C61: an operator with S-parameters of the default impedance on the left side gives a new array of
S-parameters of this impedance; its elements are computed from those of the left operand and of the
S-parameters of the right operand, whatever its class and impedance; all arrays that there are stay
as they are. -/
theorem C61_operator (h2 : (2 : K) ≠ 0) (dflt : Imp K) (hd : dflt.Ok) (f : K → K → K) (mem : Mem K)
    (a b : Obj K) (ha : a.rep = .S) (haz : a.z = dflt) (hbz : b.z.Ok) (ma mb sb : M2 K)
    (hma : mem[a.ref]? = some ma) (hmb : mem[b.ref]? = some mb)
    (hsb : ∀ w, Sat ⟨b.rep, b.z, mb⟩ w ↔ Sat ⟨.S, dflt, sb⟩ w) :
    ∃ mem' r, binop dflt f mem a b = .ok (mem', r) ∧ r.rep = .S ∧ r.z = dflt ∧
      (∀ k, k < mem.length → mem'[k]? = mem[k]?) ∧ mem.length ≤ r.ref ∧
      ∃ mr, mem'[r.ref]? = some mr ∧ ∀ i j, mr i j = f (ma i j) (sb i j) := by
  obtain ⟨rep, z, k⟩ := a
  simp only at ha haz hma
  subst ha haz
  have hk : k < mem.length := (List.getElem?_eq_some_iff.1 hma).1
  have hma' : (mem ++ [sb])[k]? = some ma := by rw [List.getElem?_append_left hk]; exact hma
  have hsb' : (mem ++ [sb])[mem.length]? = some sb := by
    rw [List.getElem?_append_right (Nat.le_refl _)]; simp
  refine ⟨mem ++ [sb] ++ [Matrix.of fun i j => f (ma i j) (sb i j)],
    ⟨.S, z, (mem ++ [sb]).length⟩, ?_, rfl, rfl, ?_, by simp, Matrix.of fun i j => f (ma i j) (sb i j),
    ?_, fun i j => rfl⟩
  · simp only [binop, fresh_S h2 z hd mem b hbz mb sb hmb hsb, sameShape_dflt z _ k ma hma',
      sameShape_dflt z _ mem.length sb hsb', hma', hsb']
  · intro j hj
    rw [List.append_assoc, List.getElem?_append_left hj]
  · rw [List.getElem?_append_right (Nat.le_refl _)]; simp

/-- C61 fails for all other classes: operators between arrays of Z-, Y-, G-, H-, ABCD-, T- or
Tp-parameters never give a result.  If the right operand can be converted to the class of the left
one it is a `TypeError`. -/
theorem C61_other_classes_refuted (dflt : Imp K) (f : K → K → K) (mem : Mem K) (a b : Obj K)
    (ha : a.rep ≠ .S) (mb : M2 K) (hmb : mem[b.ref]? = some mb) :
    binop dflt f mem a b =
      .error (if construct dflt a.rep none ⟨b.rep, b.z, mb⟩ = none then .linAlgError else .typeError) := by
  simp only [binop, fresh, hmb]
  cases h : construct dflt a.rep none ⟨b.rep, b.z, mb⟩ with
  | none => simp
  | some n => simp [sameShape, view, ha]

/-- C61: S-parameters of another impedance on the left side: the result has the default impedance, and
the left operand is overwritten with its S-parameters for the default impedance although it keeps its
impedance. -/
theorem C61_overwritten (h2 : (2 : K) ≠ 0) (dflt : Imp K) (hd : dflt.Ok) (f : K → K → K) (mem : Mem K)
    (a b : Obj K) (ha : a.rep = .S) (haz : a.z.Ok) (hne : a.z ≠ dflt) (hbz : b.z.Ok) (ma sa mb sb : M2 K)
    (hma : mem[a.ref]? = some ma) (hmb : mem[b.ref]? = some mb)
    (hsa : ∀ w, Sat ⟨.S, a.z, ma⟩ w ↔ Sat ⟨.S, dflt, sa⟩ w)
    (hsb : ∀ w, Sat ⟨b.rep, b.z, mb⟩ w ↔ Sat ⟨.S, dflt, sb⟩ w) :
    ∃ mem' r, binop dflt f mem a b = .ok (mem', r) ∧ r.rep = .S ∧ r.z = dflt ∧
      (∀ k, k < mem.length → k ≠ a.ref → mem'[k]? = mem[k]?) ∧ mem'[a.ref]? = some sa ∧
      ∃ mr, mem'[r.ref]? = some mr ∧ ∀ i j, mr i j = f (sa i j) (sb i j) := by
  obtain ⟨rep, z, k⟩ := a
  simp only at ha haz hma hne hsa
  subst ha
  have hk : k < mem.length := (List.getElem?_eq_some_iff.1 hma).1
  have hma' : (mem ++ [sb])[k]? = some ma := by rw [List.getElem?_append_left hk]; exact hma
  have e := sameShape_other h2 dflt hd z haz hne (mem ++ [sb]) k ma sa hma' hsa
  have hks : k ≠ mem.length := Nat.ne_of_lt hk
  have hsb' : ((mem ++ [sb]).set k sa)[mem.length]? = some sb := by
    rw [List.getElem?_set_ne hks, List.getElem?_append_right (Nat.le_refl _)]; simp
  have hsa' : ((mem ++ [sb]).set k sa)[k]? = some sa := by
    rw [List.getElem?_set_self (by simp; omega)]
  refine ⟨(mem ++ [sb]).set k sa ++ [Matrix.of fun i j => f (sa i j) (sb i j)],
    ⟨.S, dflt, ((mem ++ [sb]).set k sa).length⟩, ?_, rfl, rfl, ?_, ?_,
    Matrix.of fun i j => f (sa i j) (sb i j), ?_, fun i j => rfl⟩
  · simp only [binop, fresh_S h2 dflt hd mem b hbz mb sb hmb hsb, e,
      sameShape_dflt dflt _ mem.length sb hsb', hsa', hsb']
  · intro j hj hjk
    rw [List.getElem?_append_left (by simp; omega), List.getElem?_set_ne (Ne.symm hjk),
      List.getElem?_append_left hj]
  · rw [List.getElem?_append_left (by simp; omega)]; exact hsa'
  · rw [List.getElem?_append_right (Nat.le_refl _)]; simp

/-- C61 fails for other impedances: adding to a matched 4 Ohm network changes its parameters, so that
they are those of another network. -/
theorem C61_overwritten_refuted : ∃ (mem mem' : Mem ℚ) (a r : Obj ℚ) (m' : M2 ℚ) (w : Port ℚ),
    binop one4.1 (· + ·) mem a a = .ok (mem', r) ∧ mem'[a.ref]? = some m' ∧
    (∃ m, mem[a.ref]? = some m ∧ Sat ⟨a.rep, a.z, m⟩ w) ∧ ¬ Sat ⟨a.rep, a.z, m'⟩ w := by
  have ok1 : one4.1.Ok := by simp [one4, Imp.Ok]
  have ok2 : one4.2.Ok := by simp [one4, Imp.Ok]
  have hs : ∀ w : Port ℚ, Sat ⟨.S, one4.2, !![0, 0; 0, 0]⟩ w ↔ Sat ⟨.S, one4.1, !![3 / 5, 0; 0, 3 / 5]⟩ w := by
    intro w
    simp only [Sat, Lin, Port.a1, Port.a2, Port.b1, Port.b2, one4, Matrix.of_apply, Matrix.cons_val',
      Matrix.cons_val_zero, Matrix.cons_val_one, Matrix.cons_val_fin_one]
    constructor <;> rintro ⟨h1, h2⟩ <;> constructor <;> linarith
  obtain ⟨mem', r, h1, -, -, -, h2, -⟩ := C61_overwritten (by norm_num) one4.1 ok1 (· + ·)
    [!![0, 0; 0, 0]] ⟨.S, one4.2, 0⟩ ⟨.S, one4.2, 0⟩ rfl ok2 (by simp [one4]) ok2
    !![0, 0; 0, 0] !![3 / 5, 0; 0, 3 / 5] !![0, 0; 0, 0] !![3 / 5, 0; 0, 3 / 5] rfl rfl hs hs
  refine ⟨_, mem', _, r, _, ⟨4, 4, 1, 1⟩, h1, h2, ⟨_, rfl, ?_⟩, ?_⟩
  · simp [one4, Sat, Lin, Port.a1, Port.a2, Port.b1, Port.b2]
  · simp [one4, Sat, Lin, Port.a1, Port.a2, Port.b1, Port.b2]

/-- The hypotheses of `C61_operator` are met: S-parameters of a through and Y-parameters of a resistor
in series. -/
example : ∃ mem' r mr, binop one4.1 (· + ·) [!![0, 1; 1, 0], !![1, -1; -1, 1]] ⟨.S, one4.1, 0⟩ ⟨.Y, one4.1, 1⟩
    = .ok (mem', r) ∧ mem'[r.ref]? = some mr ∧ mr 0 1 = 5 / 3 := by
  have ok1 : one4.1.Ok := by simp [one4, Imp.Ok]
  obtain ⟨mem', r, h1, -, -, -, -, mr, h2, h3⟩ := C61_operator (K := ℚ) (by norm_num) one4.1 ok1 (· + ·)
    [!![0, 1; 1, 0], !![1, -1; -1, 1]] ⟨.S, one4.1, 0⟩ ⟨.Y, one4.1, 1⟩ rfl rfl ok1 !![0, 1; 1, 0]
    !![1, -1; -1, 1] !![1 / 3, 2 / 3; 2 / 3, 1 / 3] rfl rfl (by
      intro w
      simp only [Sat, Lin, Port.a1, Port.a2, Port.b1, Port.b2, one4, Matrix.of_apply, Matrix.cons_val',
        Matrix.cons_val_zero, Matrix.cons_val_one, Matrix.cons_val_fin_one]
      constructor <;> rintro ⟨h1, h2⟩ <;> constructor <;> linarith)
  refine ⟨mem', r, mr, h1, h2, ?_⟩
  rw [h3]
  norm_num

end HF.Networks
