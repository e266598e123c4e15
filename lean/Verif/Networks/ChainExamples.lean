import Verif.Networks.ChainProps
import Verif.Networks.StackExamples
/-
C102: concrete arrays which meet the hypotheses.
-/
noncomputable section

namespace HF.Networks

open HF.Arr

/-- An ideal amplifier of gain `1 + p`, both ways, at point `p`. -/
def cGet : List Nat → ℚ
  | [p, 0, 1] => 1 + p
  | [p, 1, 0] => 1 + p
  | _ => 0

/-- Two points of a sweep, and three repetitions. -/
def cA : NetArr Nat ℚ := ⟨.S, eZ, ⟨[eF 2, eI, eJ], ⟨[2, 2, 2], cGet⟩⟩⟩
def cB : NetArr Nat ℚ := ⟨.S, eZ, ⟨[eR 3, eI, eJ], ⟨[3, 2, 2], cGet⟩⟩⟩
/-- No points at all. -/
def cE : NetArr Nat ℚ := ⟨.S, eZ, ⟨[eF 0, eI, eJ], ⟨[0, 2, 2], cGet⟩⟩⟩

theorem c_ports (d : Dim Nat) (n : Nat) (hd : d.key ≠ kI ∧ d.key ≠ kJ)
    (hk : d.isa .dimSweep = true ∨ d.isa .dimRep = true) (hs : NoSub [d, eI, eJ]) :
    TwoPorts ⟨.S, eZ, ⟨[d, eI, eJ], ⟨[n, 2, 2], cGet⟩⟩⟩ [d] := by
  have k1 : eI.key = kI := rfl
  have k2 : eJ.key = kJ := rfl
  have k3 : kJ ≠ kI := by decide
  refine ⟨⟨eI, eJ, ⟨⟨rfl, ?_, ?_, ?_, rfl, rfl, ?_⟩, rfl, rfl, rfl⟩⟩, hs⟩
  · unfold Distinct
    simp [k1, k2, hd.1, hd.2, Ne.symm k3]
  · simp [axisLen, k1, hd.1]
  · simp [axisLen, k1, k2, hd.2, Ne.symm k3]
  · intro u hu h1 h2
    simp only [List.mem_cons, List.not_mem_nil, or_false] at hu
    rcases hu with rfl | rfl | rfl
    · exact hk
    · exact absurd k1 h1
    · exact absurd k2 h2

theorem cA_ports : TwoPorts cA [eF 2] :=
  c_ports (eF 2) 2 (by decide) (by decide +kernel) (by unfold NoSub; decide +kernel)

theorem cB_ports : TwoPorts cB [eR 3] :=
  c_ports (eR 3) 3 (by decide) (by decide +kernel) (by unfold NoSub; decide +kernel)

theorem c_len (d : Dim Nat) (n : Nat) (k : Key) (h1 : k ≠ kI) (h2 : k ≠ kJ) :
    (⟨[d, eI, eJ], ⟨[n, 2, 2], cGet⟩⟩ : Arr Nat ℚ).axisLen k = if d.key = k then some n else none := by
  have k1 : eI.key = kI := rfl
  have k2 : eJ.key = kJ := rfl
  unfold axisLen
  by_cases e : d.key = k
  · simp [e]
  · simp [e, k1, k2, Ne.symm h1, Ne.symm h2]

theorem c_fit : FitNet cA cB where
  left := ⟨_, cA_ports, by unfold SweepsFirst; simp⟩
  right := ⟨_, cB_ports, by unfold SweepsFirst; simp⟩
  nosub := by unfold NoSub; decide +kernel
  outer := by
    intro k s t h1 h2 hs ht
    simp only [cA, cB, c_len _ _ _ h1 h2] at hs ht
    have : (eF 2).key ≠ (eR 3).key := by decide
    split at hs
    · next e => rw [← e, if_neg (Ne.symm this)] at ht; cases ht
    · cases hs
  empty := by
    intro k h1 h2
    unfold len1
    simp only [cA, cB, c_len _ _ _ h1 h2]
    split <;> split <;> simp

theorem c_mat (d : Dim Nat) (n : Nat) (hd : d.key ≠ kI ∧ d.key ≠ kJ) (c : Coord) :
    ∃ x : ℚ, x ≠ 0 ∧ (⟨[d, eI, eJ], ⟨[n, 2, 2], cGet⟩⟩ : Arr Nat ℚ).mat kI kJ c 2 2 = !![0, x; x, 0] := by
  refine ⟨1 + ((if n = 1 then 0 else c d.key : Nat) : ℚ), by positivity, ?_⟩
  ext p q
  show Arr.atB _ _ = _
  have k1 : eI.key = kI := rfl
  have k2 : eJ.key = kJ := rfl
  have k3 : kJ ≠ kI := by decide
  unfold atB
  fin_cases p <;> fin_cases q <;> simp [upd, hd.1, hd.2, k1, k2, k3, cGet]

/-- The hypotheses of the theorems about `cascade` hold, and there is a cascade: two points and three
repetitions give six networks. -/
theorem c_cascade : ∃ r, cascadeNetArr id toString id (fun x y : ℚ => x / y) eZ cA cB = .ok r := by
  refine C102_exists (by norm_num) _ _ _ _ (fun _ _ _ => rfl) eZ eZ_ok cA cB c_fit eZ_ok eZ_ok fun c _ _ => ?_
  obtain ⟨x, -, hx⟩ := c_mat (eF 2) 2 (by decide) c
  obtain ⟨y, -, hy⟩ := c_mat (eR 3) 3 (by decide) c
  have ha : cA.at c = ⟨.S, eZ, !![0, x; x, 0]⟩ := by rw [← hx]; rfl
  have hb : cB.at c = ⟨.S, eZ, !![0, y; y, 0]⟩ := by rw [← hy]; rfl
  rw [ha, hb]
  simp [cascade, construct, ofRaw, cascadeS]

example : ∃ r, cascadeNetArr id toString id (fun x y : ℚ => x / y) eZ cA cB = .ok r ∧ Combined cA.a cB.a r.a := by
  obtain ⟨r, hr⟩ := c_cascade
  exact ⟨r, hr, (C102_network (by norm_num) _ _ _ _ (fun _ _ _ => rfl) eZ eZ_ok cA cB r c_fit eZ_ok eZ_ok hr).1⟩

/-- Its factors are found again at every coordinate: the hypotheses of `C102_left_again`. -/
example : Fit cA.a cB.a ∧ ∀ c, (∃ M, cascadeS id (cA.a.mat kI kJ c 2 2) (cB.a.mat kI kJ c 2 2) [] = some M) ∧
    cA.a.mat kI kJ c 2 2 0 1 * cA.a.mat kI kJ c 2 2 1 0 ≠ 0 := by
  refine ⟨c_fit.of rfl rfl rfl rfl, fun c => ?_⟩
  obtain ⟨x, h0, hx⟩ := c_mat (eF 2) 2 (by decide) c
  obtain ⟨y, -, hy⟩ := c_mat (eR 3) 3 (by decide) c
  have ha : cA.a.mat kI kJ c 2 2 = !![0, x; x, 0] := by rw [← hx]; rfl
  have hb : cB.a.mat kI kJ c 2 2 = !![0, y; y, 0] := by rw [← hy]; rfl
  rw [ha, hb]
  exact ⟨by simp [cascadeS], by simp [h0]⟩

/-- The hypotheses of the theorems about de-embedding, on both sides with the same three repetitions. -/
example : FitNet cA cB ∧ OuterOk cB.a cB.a kI kJ ∧ NoSub (cA.a.dims ++ cB.a.dims ++ cB.a.dims) ∧
    (∃ r, deembedNetArr id toString id (fun x y : ℚ => x / y) eZ cA (some cB) none = .ok r) ∧
    ∀ c, ∃ N, deembedNet eZ (cA.at c) (some (cB.at c)) (some (cB.at c)) = some N := by
  refine ⟨c_fit, fun k s t _ _ e1 e2 => ?_, by unfold NoSub; decide +kernel, ?_, fun c => ?_⟩
  · rw [e1] at e2; exact .inl (Option.some.inj e2)
  · refine (C102_deembed_exists (by norm_num) _ _ _ _ (fun _ _ _ => rfl) eZ eZ_ok cA cB c_fit eZ_ok eZ_ok).1 fun c _ _ => ?_
    obtain ⟨x, -, hx⟩ := c_mat (eF 2) 2 (by decide) c
    obtain ⟨y, h0, hy⟩ := c_mat (eR 3) 3 (by decide) c
    have ha : cA.at c = ⟨.S, eZ, !![0, x; x, 0]⟩ := by rw [← hx]; rfl
    have hb : cB.at c = ⟨.S, eZ, !![0, y; y, 0]⟩ := by rw [← hy]; rfl
    rw [ha, hb]
    simp [deembedNet, construct, ofRaw, deembedleft, h0]
  · obtain ⟨x, -, hx⟩ := c_mat (eF 2) 2 (by decide) c
    obtain ⟨y, h0, hy⟩ := c_mat (eR 3) 3 (by decide) c
    have ha : cA.at c = ⟨.S, eZ, !![0, x; x, 0]⟩ := by rw [← hx]; rfl
    have hb : cB.at c = ⟨.S, eZ, !![0, y; y, 0]⟩ := by rw [← hy]; rfl
    rw [ha, hb]
    simp [deembedNet, construct, ofRaw, deembed, deembedleft, deembedright, h0]

/-- The hypotheses of `C102_switch`: the matrices of both arrays can be inverted. -/
example : cA.a.Regular kI kJ 2 := by
  intro c _
  obtain ⟨x, h0, hx⟩ := c_mat (eF 2) 2 (by decide) c
  have ha : cA.a.mat kI kJ c 2 2 = !![0, x; x, 0] := by rw [← hx]; rfl
  rw [ha, Matrix.det_fin_two]
  simp [h0]

/-- C102 is false without the hypothesis on empty axes: no points and three repetitions. -/
theorem C102_empty_witness :
    cascadeArr id toString (fun x y : ℚ => x / y) cE.a cB.a = .error .valueError ∧
      deembedleftArr id toString (fun x y : ℚ => x / y) cB.a cE.a = .error .valueError ∧
      deembedrightArr id toString (fun x y : ℚ => x / y) cE.a cB.a = .error .valueError := by
  obtain ⟨i, j, hE⟩ := (c_ports (eF 0) 0 (by decide) (by decide +kernel) (by unfold NoSub; decide +kernel)).last
  obtain ⟨i', j', hB⟩ := cB_ports.last
  refine C102_empty_refuted _ _ _ cE.a cB.a hE.stack hB.stack (by unfold NoSub; decide +kernel) ?_ (eF 0).key (by decide)
    (by decide) (.inl ⟨by decide +kernel, by decide +kernel⟩)
  intro k s t h1 h2 hs ht
  simp only [cE, cB, c_len _ _ _ h1 h2] at hs ht
  have : (eF 0).key ≠ (eR 3).key := by decide
  split at hs
  · next e => rw [← e, if_neg (Ne.symm this)] at ht; cases ht
  · cases hs

end HF.Networks
