import Verif.HFArray.MaskProps
/-
Concrete cases for C90.
-/
namespace HF
namespace Arr

def mkF : Dim Nat := ⟨.dimSweep, "freq", [1, 2], none, none⟩
def mkI : Dim Nat := ⟨.matI, "i", [0, 1], none, none⟩
def mkJ : Dim Nat := ⟨.matJ, "j", [0, 1], none, none⟩

/-- `a(freq, i, j) = 100 freq + 10 i + j`. -/
def mkX : Arr Nat Nat := ⟨[mkF, mkI, mkJ], ⟨[2, 2, 2], fun idx => 100 * idx.getD 0 0 + 10 * idx.getD 1 0 + idx.getD 2 0⟩⟩

/-- A mask over `j` and `freq`: true at (j, freq) = (0, 1), (1, 0), (1, 1). -/
def mkM : Arr Nat Bool := ⟨[mkJ, mkF], ⟨[2, 2], fun idx => decide (idx ≠ [0, 0])⟩⟩

theorem anonOk_mkX : AnonOk mkX.dims := by
  intro d hd hc
  simp only [mkX, List.mem_cons, List.not_mem_nil, or_false] at hd
  rcases hd with rfl | rfl | rfl <;> simp [mkF, mkI, mkJ] at hc

/-- The hypotheses of `C90_mask` hold, with the new axis at the first place. -/
example : ∃ r a, mkX.getMaskMany Int.toNat mkM = .ok r ∧ r.dims = [a, mkI] ∧ a.data.length = 3 := by
  obtain ⟨r, a, h1, -, -, h4, -, h6, -⟩ := C90_mask Int.toNat mkX rfl (by rfl) (by decide) mkM (by decide) (by decide) (by rfl)
    (by decide) anonOk_mkX [] mkX.dims rfl (by simp) (by
      intro d hd
      cases Option.some.inj hd
      decide)
  exact ⟨r, a, h1, h4, h6⟩

/-- The values of `mkX[mkM]`, its first axis being the three positions. -/
example : (mkX.getMaskMany Int.toNat mkM).toOption.map (fun r => (r.nd.shape,
    [[0, 0], [1, 0], [2, 0], [0, 1], [1, 1], [2, 1]].map r.nd.get)) =
    some ([3, 2], [100, 1, 101, 110, 11, 111]) := by decide +kernel

/-- `b[b > 5]` for a matrix. -/
def mkB : Arr Nat Nat := ⟨[mkI, mkJ], ⟨[2, 2], fun idx => 10 * idx.getD 0 0 + idx.getD 1 0⟩⟩

def mkBig : Arr Nat Bool := ⟨[mkI, mkJ], ⟨[2, 2], fun idx => decide (mkB.nd.get idx > 5)⟩⟩

example : ∃ r a, mkB.getMaskMany Int.toNat mkBig = .ok r ∧ r.dims = [a] ∧
    (List.range a.data.length).map (fun j => r.nd.get [j]) = [10, 11] := by
  obtain ⟨r, a, h1, h2, -, h4⟩ := C90_select Int.toNat mkB rfl (by rfl) (by decide) mkBig rfl (by rfl) (by decide) (by
    intro d hd hc
    simp only [mkB, List.mem_cons, List.not_mem_nil, or_false] at hd
    rcases hd with rfl | rfl <;> simp [mkI, mkJ] at hc)
  exact ⟨r, a, h1, h2, h4.trans (by decide +kernel)⟩

/-- Too short a mask. -/
example : mkX.getMaskMany Int.toNat ⟨[mkJ, mkF], ⟨[1, 2], fun _ => true⟩⟩ = .error .indexError :=
  C90_shape Int.toNat mkX rfl (by rfl) (by decide) _ (by decide) (by decide) (by simp [Labelled, mkJ, mkF]) (by decide)
    anonOk_mkX [] mkX.dims rfl (by simp) (by
      intro d hd
      cases Option.some.inj hd
      decide)

/-- A dim `ANONYMOUS`. -/
def mkA : Dim Nat := ⟨.dimAnonymous, "ANONYMOUS", [0, 1], none, none⟩

def mkC : Arr Nat Nat := ⟨[mkI, mkA], ⟨[2, 2], fun _ => 0⟩⟩

example : mkC.getMaskMany Int.toNat ⟨[mkI, mkA], ⟨[2, 2], fun _ => true⟩⟩ = .error .valueError :=
  C90_name_refuted Int.toNat mkC rfl (by decide) _ (by decide) (by decide) (by decide) mkA (by decide) rfl "YMOUS".toList
    (by decide +kernel) (by decide +kernel)

/-- Two selections after each other: ANON1, then ANON2. -/
example : ((newAnonymous Int.toNat mkX.dims 3).toOption.map Dim.name,
    (newAnonymous Int.toNat [mkI, ⟨.dimAnonymous, "ANON1", [0, 1, 2], none, none⟩] 2).toOption.map Dim.name) =
    (some "ANON1", some "ANON2") := by decide +kernel

/-- Setting with the dims in another order: the mask is true at i = 0, j = 1; the element at i = 1, j = 0 is set. -/
def mkT : Arr Nat Bool := ⟨[mkJ, mkI], ⟨[2, 2], fun idx => decide (idx = [1, 0])⟩⟩

example : ∃ r, mkB.setMask mkT 99 = .ok r ∧
    r.at_ (fun k => if k = mkI.key then 1 else 0) = 99 ∧ mkT.at_ (fun k => if k = mkI.key then 1 else 0) = false ∧
    r.at_ (fun k => if k = mkJ.key then 1 else 0) = 1 ∧ mkT.at_ (fun k => if k = mkJ.key then 1 else 0) = true := by
  obtain ⟨r, h1, -, h3⟩ := C90_set_refuted mkB mkI mkJ rfl (by rfl) (by decide) rfl mkT rfl (by rfl) 99
  refine ⟨r, h1, ?_, by decide +kernel, ?_, by decide +kernel⟩
  · rw [h3]; decide +kernel
  · rw [h3]; decide +kernel

/-- Setting with the dims in the order of the array. -/
example : ∃ r, mkB.setMask mkBig 99 = .ok r ∧ ∀ c, r.at_ c = if mkBig.at_ c then 99 else mkB.at_ c := by
  obtain ⟨r, h1, -, -, h4⟩ := C90_set mkB (by rfl) mkBig (by rfl) [] rfl 99
  exact ⟨r, h1, h4⟩

end Arr
end HF
