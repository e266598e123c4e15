import Verif.Touchstone.Steps
import Verif.Readers.NoCalls
/-
C84: Touchstone files with all steps of the reader.
-/
namespace HF.Touchstone

open DataBlock (writes Enum addDims isMatrixName MatStack keys lookup_key lookup_isSome_iff)
open HF.DataDict.Spec
open HF.DataDict hiding rename delitem
open HF.Readers HF.Readers.Treat
open HF.Readers.FixUnit (UBlock)
open HF.Readers.Assemble (Form CompleteF Wins elemNmF)
open HF.Readers.Normalize (trtable label)
open HF.Comments (PVal)

variable {β α : Type}

/-! ### Specification -/

/-- The variables of a file. -/
def fileVars (par : List Char) (noise : Bool) : List String :=
  String.ofList par :: ((if noise then ["Rn", "Fmin", "Gopt"] else []) ++ ["Z0"])

/-- The dimensions, if the noise parameters have frequencies of their own or not. -/
def fileDims (own : Bool) : List String := ["freq", "i", "j"] ++ if own then ["freqn"] else []

/-- The properties that become variables have names that are no titles with units and no calls of functions, no two names
are to be replaced by the same one, and no property has the name of an element of the matrix or of a property. -/
structure QuietProps (ofProp : PVal → Option α) (vs ds : List String) (props : List (String × PVal)) : Prop where
  title : ∀ p ∈ givenOf ofProp (vs ++ ds) props, FixUnit.title p.1 = none
  calls : ∀ p ∈ givenOf ofProp (vs ++ ds) props, '(' ∉ p.1.toList
  clash : ∀ e ∈ trtable, ∀ e' ∈ trtable, e.1 ∈ namesOf ofProp vs ds props → e'.1 ∈ namesOf ofProp vs ds props →
    e.2 ∉ namesOf ofProp vs ds props → e.2 = e'.2 → e.1 = e'.1
  elems : ∀ p ∈ props, ∀ m i j, isMatrixName p.1 = some (m, i, j) → m ∉ vs ∧ m ∉ props.map Prod.fst
  noMatrix : ∀ v I J, ¬ CompleteF .digits (colsOf ofProp vs ds props) v I J

/-- What a block with the properties holds in the end. -/
structure Holds (V : Vals β α) (S : Steps β α) (b : Block) (own : Bool) (props : List (String × PVal)) (r : UBlock β α) : Prop where
  matrix : ∃ m d di dj, lookup r.blk.vars (String.ofList b.par) = some m ∧ lookup r.blk.ivars "freq" = some d ∧
    lookup r.blk.ivars "i" = some di ∧ lookup r.blk.ivars "j" = some dj ∧
    label d = ⟨"freq", .dimSweep, b.freq.map V.coord, some "Hz"⟩ ∧ di.name = "i" ∧ dj.name = "j" ∧
    MatStack m [d] di dj [b.freq.length] b.ports b.ports ∧ ∀ k i j z, b.elem k i j = some z → m.nd.get [k, i, j] = V.cplx z
  unit : r.units (String.ofList b.par) = S.guess (String.ofList b.par)
  noise : ∀ nz, b.noise = some nz → ∃ dn rn fmin gopt,
    lookup r.blk.ivars (if own then "freqn" else "freq") = some dn ∧
    (own = true → label dn = ⟨"freqn", .dimSweep, nz.map (fun x => V.coord x.1), some "Hz"⟩) ∧
    lookup r.blk.vars "Rn" = some rn ∧ lookup r.blk.vars "Fmin" = some fmin ∧ lookup r.blk.vars "Gopt" = some gopt ∧
    rn.dims = [dn] ∧ fmin.dims = [dn] ∧ gopt.dims = [dn] ∧
    rn.nd.shape = [nz.length] ∧ fmin.nd.shape = [nz.length] ∧ gopt.nd.shape = [nz.length] ∧
    ∀ (k : Nat) x, nz[k]? = some x → rn.nd.get [k] = V.real x.2.2.2 ∧ fmin.nd.get [k] = V.power x.2.1 ∧
      gopt.nd.get [k] = V.cplx x.2.2.1
  z0 : lookup r.blk.vars "Z0" = some ⟨[], ⟨[], fun _ => V.real b.z0⟩⟩ ∧ r.units "Z0" = some "Ohm"
  property : ∀ p ∈ givenOf S.ofProp (fileVars b.par b.noise.isSome ++ fileDims own) props,
    ∃ x, S.ofProp p.2 = some x ∧
      lookup r.blk.vars (canon (namesOf S.ofProp (fileVars b.par b.noise.isSome) (fileDims own) props) p.1) =
        some ⟨[], ⟨[], fun _ => x⟩⟩ ∧
      r.units (canon (namesOf S.ofProp (fileVars b.par b.noise.isSome) (fileDims own) props) p.1) = (unitOfProp p.2).or (S.guess p.1)
  nothing : ∀ n ∈ keys r.blk.vars, n ∈ colsOf S.ofProp (fileVars b.par b.noise.isSome) (fileDims own) props
  noDims : ∀ n ∈ keys r.blk.ivars, n ∈ fileDims own

/-- The frequencies of the noise parameters are those of the other parameters, up to the tolerance. -/
def Near (f fn : List ℚ) : Prop := List.Forall₂ (fun x y => |x - y| ≤ 1 / 10 ^ 8 + 1 / 10 ^ 5 * |y|) f fn

def kindsOfPar : List (List Char) := [['S'], ['Z'], ['Y'], ['G'], ['H']]

/-! ### Proof -/

theorem sameFreqs_iff (f fn : List ℚ) : sameFreqs f fn = true ↔ Near f fn := by
  unfold sameFreqs Near
  rw [List.forall₂_iff_zip]
  simp only [Bool.and_eq_true, decide_eq_true_eq, List.all_eq_true]
  constructor
  · rintro ⟨h1, h2⟩
    exact ⟨h1, fun {a b} h => h2 (a, b) h⟩
  · rintro ⟨h1, h2⟩
    exact ⟨h1, fun p hp => h2 hp⟩

/-- Do the noise parameters have frequencies of their own? -/
def ownFreqs (b : Block) : Bool := match b.noise with
  | none => false
  | some nz => !sameFreqs b.freq (nz.map fun x => x.1)

theorem par_names {par : List Char} (hp : par ∈ kindsOfPar) (noise own : Bool) :
    (fileVars par noise ++ fileDims own).Nodup ∧ (∀ k ∈ fileVars par noise ++ fileDims own, FixUnit.title k = none) ∧
    (∀ k ∈ fileVars par noise ++ fileDims own, '(' ∉ k.toList) ∧
    (∀ k ∈ fileVars par noise ++ fileDims own, ∀ e ∈ trtable, e.1 ≠ k) ∧
    ∀ k ∈ fileVars par noise, isMatrixName k = none := by
  revert noise own par
  decide +kernel

theorem canon_fixed (names : List String) {k : String} (h : ∀ e ∈ trtable, e.1 ≠ k) : canon names k = k := by
  rcases canon_cases names k with h1 | ⟨e, he, h1, -⟩
  · exact h1
  · exact absurd h1 (h e he)

theorem arrays_keys (V : Vals β α) (num : Nat → β) (b : Block) : keys (arrays V num b) = fileVars b.par b.noise.isSome := by
  unfold arrays fileVars
  cases b.noise <;> rfl

theorem dims_arrays (V : Vals β α) (num : Nat → β) (b : Block) :
    addDims [] ((arrays V num b).flatMap fun w => w.2.dims) =
      [("freq", freqDim V b), ("i", ⟨.matI, "i", (List.range b.ports).map num, none, none⟩),
        ("j", ⟨.matJ, "j", (List.range b.ports).map num, none, none⟩)] ++
      (match b.noise with
        | none => []
        | some nz => if sameFreqs b.freq (nz.map fun x => x.1) then [] else [("freqn", noiseDim V b nz)]) := by
  unfold arrays
  cases b.noise with
  | none => rfl
  | some nz =>
    simp only
    by_cases h : sameFreqs b.freq (nz.map fun x => x.1) = true
    · rw [if_pos h]
      simp only [noiseArr, noiseDim, if_pos h]
      rfl
    · rw [if_neg h]
      simp only [noiseArr, noiseDim, if_neg h]
      rfl

theorem dims_keys (V : Vals β α) (num : Nat → β) (b : Block) :
    keys (addDims [] ((arrays V num b).flatMap fun w => w.2.dims)) = fileDims (ownFreqs b) := by
  rw [dims_arrays]
  unfold fileDims ownFreqs
  cases b.noise with
  | none => rfl
  | some nz =>
    simp only
    by_cases h : sameFreqs b.freq (nz.map fun x => x.1) = true
    · simp only [h]; rfl
    · rw [Bool.not_eq_true] at h
      simp only [h]; rfl

theorem noiseDim_name (V : Vals β α) (b : Block) (nz : List (ℚ × ℚ × Cplx × ℚ)) :
    (noiseDim V b nz).name = if sameFreqs b.freq (nz.map fun x => x.1) then "freq" else "freqn" := by
  unfold noiseDim
  split <;> rfl

theorem arrays_dims (V : Vals β α) (num : Nat → β) (b : Block) :
    ∀ w ∈ arrays V num b, ∀ d ∈ w.2.dims, lookup (addDims [] ((arrays V num b).flatMap fun w => w.2.dims)) d.name = some d := by
  rw [dims_arrays]
  unfold arrays
  cases b.noise with
  | none =>
    intro w hw d hd
    simp only [List.append_nil, List.mem_append, List.mem_singleton] at hw
    rcases hw with rfl | rfl
    · simp only [matrixArr, List.mem_cons, List.not_mem_nil, or_false] at hd
      rcases hd with rfl | rfl | rfl <;> rfl
    · simp at hd
  | some nz =>
    intro w hw d hd
    have hn : lookup ([("freq", freqDim V b), ("i", ⟨.matI, "i", (List.range b.ports).map num, none, none⟩),
        ("j", ⟨.matJ, "j", (List.range b.ports).map num, none, none⟩)] ++
        if sameFreqs b.freq (nz.map fun x => x.1) then [] else [("freqn", noiseDim V b nz)]) (noiseDim V b nz).name =
        some (noiseDim V b nz) := by
      by_cases h : sameFreqs b.freq (nz.map fun x => x.1) = true
      · simp only [noiseDim, if_pos h]
        rfl
      · simp only [noiseDim, if_neg h]
        rfl
    simp only [List.mem_append, List.mem_singleton, List.mem_cons, List.not_mem_nil, or_false] at hw
    rcases hw with (rfl | rfl | rfl | rfl) | rfl
    · simp only [matrixArr, List.mem_cons, List.not_mem_nil, or_false] at hd
      rcases hd with rfl | rfl | rfl <;> rfl
    · rw [List.mem_singleton.1 hd]; exact hn
    · rw [List.mem_singleton.1 hd]; exact hn
    · rw [List.mem_singleton.1 hd]; exact hn
    · simp at hd

theorem toBlock_spec (env : DataBlock.Env β α) (V : Vals β α) (num : Nat → β) (b : Block) (hp : b.par ∈ kindsOfPar) :
    ∃ u, toBlock env V num b = .ok u ∧ u.blk.vars = arrays V num b ∧
      u.blk.ivars = addDims [] ((arrays V num b).flatMap fun w => w.2.dims) ∧
      u.units = fun k => if k = "Z0" then some "Ohm" else none := by
  obtain ⟨h1, -, -, -, h5⟩ := par_names hp b.noise.isSome (ownFreqs b)
  have hk := arrays_keys V num b
  obtain ⟨h6, -, h7⟩ := List.nodup_append.1 h1
  obtain ⟨d, e1, e2, e3⟩ := DataBlock.writes_new env (arrays V num b) {} (by simp [keys]) (by
      intro w hw w' hw' d hd e
      have hw : w.1 ∈ fileVars b.par b.noise.isSome := by rw [← hk]; exact List.mem_map_of_mem hw
      have hd' := arrays_dims V num b w' hw' d hd
      have hd' : d.name ∈ fileDims (ownFreqs b) := by
        rw [← dims_keys V num b]
        exact lookup_key hd'
      exact h7 _ hw _ (e ▸ hd') rfl) (by
      intro w hw m i j hm
      rw [h5 w.1 (by rw [← hk]; exact List.mem_map_of_mem hw)] at hm
      cases hm) (by rw [hk]; simpa [keys] using h6)
  refine ⟨⟨d, fun k => if k = "Z0" then some "Ohm" else none⟩, ?_, by simpa using e2, e3, rfl⟩
  unfold toBlock
  rw [e1]

theorem steps_block (fenv : Env) (env : DataBlock.Env β α) (V : Vals β α) (S : Steps β α) (htab : S.table.Perm trtable)
    (hcast : ∀ c c' : Arr β α, c.nd = c'.nd → S.cast c = S.cast c') (ls : List (List Char)) (p : Parsed) (b : Block)
    (hp : addLines fenv ⟨[], none, []⟩ ls = .ok p) (hb : read fenv ls = .ok b) (hpar : b.par ∈ kindsOfPar)
    (hq : QuietProps S.ofProp (fileVars b.par b.noise.isSome) (fileDims (ownFreqs b)) (Comments.properties p.comments)) :
    ∃ r, block fenv env V S ls = .ok r ∧ Holds V S b (ownFreqs b) (Comments.properties p.comments) r := by
  obtain ⟨u, u1, u2, u3, u4⟩ := toBlock_spec env V S.num b hpar
  have hkv : keys u.blk.vars = fileVars b.par b.noise.isSome := by rw [u2, arrays_keys]
  have hki : keys u.blk.ivars = fileDims (ownFreqs b) := by rw [u3, dims_keys]
  obtain ⟨f1, f2, f3, f4, f5⟩ := par_names hpar b.noise.isSome (ownFreqs b)
  have hcx : Complex.makeCplx env S.full S.rect S.polar u.blk = .ok u.blk :=
    Complex.makeCplx_plain env _ _ _ _ (by rw [hkv, hki]; exact f3)
  obtain ⟨n1, n2, n3⟩ := List.nodup_append.1 f1
  have hlink : Linked u.blk := by
    refine ⟨by rw [hki]; exact n2, ?_, ?_⟩
    · rw [u3, dims_arrays]
      intro q hq'
      cases hN : b.noise with
      | none =>
        rw [hN] at hq'
        simp only [List.append_nil, List.mem_cons, List.not_mem_nil, or_false] at hq'
        rcases hq' with rfl | rfl | rfl <;> rfl
      | some nz =>
        rw [hN] at hq'
        simp only at hq'
        split at hq'
        · simp only [List.append_nil, List.mem_cons, List.not_mem_nil, or_false] at hq'
          rcases hq' with rfl | rfl | rfl <;> rfl
        · rename_i h
          simp only [List.mem_append, List.mem_cons, List.not_mem_nil, or_false] at hq'
          rcases hq' with (rfl | rfl | rfl) | rfl
          · rfl
          · rfl
          · rfl
          · simp only [noiseDim, if_neg h]
    · rw [u2, u3]
      exact arrays_dims V S.num b
  generalize hprops : Comments.properties p.comments = props at hq
  have hpn : (props.map Prod.fst).Nodup := by rw [← hprops]; exact Comments.properties_nodup _
  have hmem : ∀ k, k ∈ namesOf S.ofProp (fileVars b.par b.noise.isSome) (fileDims (ownFreqs b)) props →
      k ∈ fileVars b.par b.noise.isSome ++ fileDims (ownFreqs b) ∨
      ∃ q ∈ givenOf S.ofProp (fileVars b.par b.noise.isSome ++ fileDims (ownFreqs b)) props, q.1 = k := by
    intro k hk
    unfold namesOf at hk
    simp only [List.mem_append] at hk ⊢
    rcases hk with (h | h) | h
    · exact Or.inl (Or.inl h)
    · exact Or.inr (List.mem_map.1 h)
    · exact Or.inl (Or.inr h)
  have hnw : ∀ fm v I J, ¬ Wins (colsOf S.ofProp (fileVars b.par b.noise.isSome) (fileDims (ownFreqs b)) props) [.digits] fm v I J := by
    rintro fm v I J ⟨bf, af, e, -, h, -⟩
    have : fm ∈ [Form.digits] := by rw [e]; simp
    rw [List.mem_singleton.1 this] at h
    exact hq.noMatrix v I J h
  obtain ⟨r, H, r1, r2⟩ := laterOn_given [.digits] env S htab hcast props u hpn hlink (by
      rw [hkv, hki]
      refine ⟨f1, ?_, ?_, hq.clash, hq.elems⟩
      · intro k hk
        rcases hmem k hk with h | ⟨q, h, rfl⟩
        · exact f2 k h
        · exact hq.title q h
      · intro k hk
        rcases hmem k hk with h | ⟨q, h, rfl⟩
        · exact f3 k h
        · exact hq.calls q h) (by
      rw [hkv, hki]
      exact fun fm v I J h => absurd h (hnw fm v I J))
  rw [hkv, hki] at r2
  have hc : ∀ k ∈ fileVars b.par b.noise.isSome ++ fileDims (ownFreqs b),
      canon (namesOf S.ofProp (fileVars b.par b.noise.isSome) (fileDims (ownFreqs b)) props) k = k :=
    fun k hk => canon_fixed _ (f4 k hk)
  have hdim : ∀ n d, lookup u.blk.ivars n = some d → lookup r.blk.ivars n = some (H d) ∧
      label (H d) = ⟨n, d.cls, d.data, d.unit.or (S.guess n)⟩ := by
    intro n d h
    have := r2.dims n d h
    rwa [hc n (List.mem_append_right _ (by rw [← hki]; exact lookup_key h))] at this
  have hvar : ∀ k a, lookup u.blk.vars k = some a → lookup r.blk.vars k = some ⟨a.dims.map H, a.nd⟩ ∧
      r.units k = (u.units k).or (S.guess k) := by
    intro k a h
    have := r2.plain k a h fun fm v I J h => absurd h (hnw fm v I J)
    rwa [hc k (List.mem_append_left _ (by rw [← hkv]; exact lookup_key h))] at this
  have hvmem : ∀ w ∈ arrays V S.num b, lookup u.blk.vars w.1 = some w.2 := by
    intro w hw
    refine DataBlock.mem_lookup ?_ (by rw [u2]; exact hw)
    show (keys u.blk.vars).Nodup
    rw [hkv]
    exact n1
  have hunit : ∀ k ∈ fileVars b.par b.noise.isSome, ∃ a, lookup u.blk.vars k = some a := by
    intro k hk
    rw [← hkv] at hk
    exact Option.isSome_iff_exists.1 ((lookup_isSome_iff _ _).2 hk)
  have hfreq : lookup u.blk.ivars "freq" = some (freqDim V b) ∧
      lookup u.blk.ivars "i" = some ⟨.matI, "i", (List.range b.ports).map S.num, none, none⟩ ∧
      lookup u.blk.ivars "j" = some ⟨.matJ, "j", (List.range b.ports).map S.num, none, none⟩ := by
    rw [u3, dims_arrays]
    exact ⟨rfl, rfl, rfl⟩
  have hM := hvar _ _ (hvmem (String.ofList b.par, matrixArr V S.num b) (by unfold arrays; simp))
  refine ⟨r, ?_, ?_, ?_, ?_, ?_, ?_, ?_, ?_⟩
  · unfold block
    rw [hp, hb]
    simp only [u1, hcx, hprops]
    exact r1
  · obtain ⟨a1, a2⟩ := hdim _ _ hfreq.1
    obtain ⟨b1, b2⟩ := hdim _ _ hfreq.2.1
    obtain ⟨c1, c2⟩ := hdim _ _ hfreq.2.2
    have hb2 := congrArg Normalize.Label.cls b2
    have hc2 := congrArg Normalize.Label.cls c2
    simp only [label] at hb2 hc2
    refine ⟨_, _, _, _, hM.1, a1, b1, c1, a2, congrArg Normalize.Label.name b2, congrArg Normalize.Label.name c2, ⟨rfl, rfl, ?_, ?_, rfl⟩, ?_⟩
    · unfold Dim.isa
      rw [hb2]
      decide +kernel
    · unfold Dim.isa
      rw [hc2]
      decide +kernel
    · intro k i j z h
      show V.cplx ((b.elem k i j).getD (0, 0)) = V.cplx z
      rw [h]
      rfl
  · rw [hM.2, u4]
    have : String.ofList b.par ≠ "Z0" := by
      revert hpar
      generalize b.par = par
      revert par
      decide +kernel
    simp only [if_neg this]
    rfl
  · intro nz hnz
    have hA : ∀ w ∈ [("Rn", noiseArr V b nz fun x => V.real x.2.2.2), ("Fmin", noiseArr V b nz fun x => V.power x.2.1),
          ("Gopt", noiseArr V b nz fun x => V.cplx x.2.2.1)], w ∈ arrays V S.num b := by
      intro w hw
      unfold arrays
      rw [hnz]
      exact List.mem_append_left _ (List.mem_append_right _ hw)
    have e1 := hvar _ _ (hvmem _ (hA ("Rn", noiseArr V b nz fun x => V.real x.2.2.2) (by simp)))
    have e2 := hvar _ _ (hvmem _ (hA ("Fmin", noiseArr V b nz fun x => V.power x.2.1) (by simp)))
    have e3 := hvar _ _ (hvmem _ (hA ("Gopt", noiseArr V b nz fun x => V.cplx x.2.2.1) (by simp)))
    have hd : lookup u.blk.ivars (if ownFreqs b then "freqn" else "freq") = some (noiseDim V b nz) := by
      rw [u3, dims_arrays]
      unfold ownFreqs
      rw [hnz]
      simp only
      by_cases h : sameFreqs b.freq (nz.map fun x => x.1) = true
      · simp only [h, noiseDim]
        rfl
      · rw [Bool.not_eq_true] at h
        simp only [h]
        rfl
    obtain ⟨d1, d2⟩ := hdim _ _ hd
    refine ⟨_, _, _, _, d1, ?_, e1.1, e2.1, e3.1, rfl, rfl, rfl, rfl, rfl, rfl, ?_⟩
    · intro ho
      rw [d2, ho]
      unfold ownFreqs at ho
      rw [hnz] at ho
      simp only [Bool.not_eq_true'] at ho
      simp only [noiseDim, ho]
      rfl
    · intro k x hx
      have : nz.getD ([k].getD 0 0) (0, 0, (0, 0), 0) = x := by
        show nz.getD k _ = x
        rw [List.getD_eq_getElem?_getD, hx]
        rfl
      simp only [noiseArr, this, and_self]
  · have := hvar _ _ (hvmem ("Z0", ⟨[], ⟨[], fun _ => V.real b.z0⟩⟩) (by unfold arrays; simp))
    refine ⟨this.1, ?_⟩
    rw [this.2, u4]
    rfl
  · intro q hq'
    have := r2.property q (by rw [hkv, hki]; exact hq') fun fm v I J h => absurd h (hnw fm v I J)
    exact this
  · intro n hn
    rcases r2.nothing n hn with ⟨fm, I, J, h⟩ | h
    · exact absurd h (hnw fm n I J)
    · exact h
  · intro n hn
    rcases r2.noDims n hn with h | ⟨-, rfl | rfl⟩
    · obtain ⟨k, hk, rfl⟩ := List.mem_map.1 h
      rw [hki] at hk
      rw [hc k (List.mem_append_right _ hk)]
      exact hk
    · simp [fileDims]
    · simp [fileDims]

theorem option_par {env : Env} {text : List Char} {m : ℚ} {par : List Char} {f : ℚ → ℚ → Cplx} {z0 : ℚ}
    (h : IsOption env text m par f z0) : par ∈ kindsOfPar := by
  obtain ⟨U, P, F, rest, -, -, ⟨p, hp, -, rfl⟩, -⟩ := h
  revert p
  decide +kernel

/-- C84: a Touchstone file with all steps of the reader.  The matrix is named as the option line says and has the numbers
of the records in the order of rows, for a two-port of columns, over the frequencies in hertz; `Z0` is the resistance of
the option line; comments with values become variables, unless their names are in use; there is nothing else. -/
theorem C84_read (fenv : Env) (env : DataBlock.Env β α) (V : Vals β α) (S : Steps β α) (htab : S.table.Perm trtable)
    (hcast : ∀ c c' : Arr β α, c.nd = c'.nd → S.cast c = S.cast c')
    (ls : List (List Char)) (its : List Item) (h : List.Forall₂ (Says fenv) ls its)
    (text : List Char) (ho : options its = [text]) (m : ℚ) (par : List Char) (f : ℚ → ℚ → Cplx) (z0 : ℚ)
    (hopt : IsOption fenv text m par f z0) (n : Nat) (hn : 1 ≤ n) (rs : List (Line ℚ × List (Line ℚ)))
    (hd : dataLines its = lines rs) (hF : 2 ≤ rs.length) (hr : ∀ r ∈ rs, IsRecord (2 * n ^ 2 + 1) r)
    (hinc : rs.Pairwise fun a b => a.1.1 < b.1.1)
    (hq : QuietProps S.ofProp (fileVars par false) (fileDims false) (Comments.properties (comments its))) :
    ∃ r a d di dj, block fenv env V S ls = .ok r ∧
      (lookup r.blk.vars (String.ofList par) = some a ∧ r.units (String.ofList par) = S.guess (String.ofList par) ∧
        lookup r.blk.ivars "freq" = some d ∧ label d = ⟨"freq", .dimSweep, rs.map (fun r => V.coord (r.1.1 * m)), some "Hz"⟩ ∧
        lookup r.blk.ivars "i" = some di ∧ lookup r.blk.ivars "j" = some dj ∧
        MatStack a [d] di dj [rs.length] n n ∧
        ∀ k r i j, rs[k]? = some r → i < n → j < n →
          ∃ x y, (numbers r).2[2 * (if n = 2 then j * n + i else i * n + j)]? = some x ∧
            (numbers r).2[2 * (if n = 2 then j * n + i else i * n + j) + 1]? = some y ∧ a.nd.get [k, i, j] = V.cplx (f x y)) ∧
      (lookup r.blk.vars "Z0" = some ⟨[], ⟨[], fun _ => V.real z0⟩⟩ ∧ r.units "Z0" = some "Ohm") ∧
      (∀ p ∈ givenOf S.ofProp (fileVars par false ++ fileDims false) (Comments.properties (comments its)),
        ∃ x, S.ofProp p.2 = some x ∧
          lookup r.blk.vars (canon (namesOf S.ofProp (fileVars par false) (fileDims false) (Comments.properties (comments its))) p.1) =
            some ⟨[], ⟨[], fun _ => x⟩⟩ ∧
          r.units (canon (namesOf S.ofProp (fileVars par false) (fileDims false) (Comments.properties (comments its))) p.1) =
            (unitOfProp p.2).or (S.guess p.1)) ∧
      (∀ k ∈ keys r.blk.vars, k ∈ colsOf S.ofProp (fileVars par false) (fileDims false) (Comments.properties (comments its))) ∧
      ∀ k ∈ keys r.blk.ivars, k ∈ ["freq", "i", "j"] := by
  obtain ⟨b, h1, h2, h3, h4, h5, h6, h7⟩ := C64_read fenv ls its h text ho m par f z0 hopt n hn rs hd hF hr hinc
  have hown : ownFreqs b = false := by unfold ownFreqs; rw [h6]
  obtain ⟨r, r1, r2⟩ := steps_block fenv env V S htab hcast ls _ b (C64_lines fenv ls its h text ho) h1
    (by rw [h2]; exact option_par hopt) (by rw [h2, h6, hown]; exact hq)
  obtain ⟨a, d, di, dj, m1, m2, m3, m4, m5, -, -, m8, m9⟩ := r2.matrix
  have hu := r2.unit
  have hz := r2.z0
  have hp := r2.property
  have hnn := r2.nothing
  have hnd := r2.noDims
  rw [h2] at m1 hu
  rw [h3, List.map_map] at m5
  rw [h3, h4, List.length_map] at m8
  rw [h2, h6, hown] at hp hnn
  rw [hown] at hnd
  rw [h5] at hz
  refine ⟨r, a, d, di, dj, r1, ⟨m1, hu, m2, m5, m3, m4, m8, ?_⟩, hz, hp, hnn, hnd⟩
  intro k q i j hk hi hj
  obtain ⟨x, y, e1, e2, e3⟩ := h7 k q i j hk hi hj
  exact ⟨x, y, e1, e2, m9 k i j _ e3⟩

/-- C84: a two-port with noise parameters.  `Rn` is the normalised resistance times the resistance of the option line,
`Fmin` the power ratio that belongs to the decibels, `Gopt` the complex number; they are over the frequencies of the other
parameters if theirs are the same up to a tolerance, and over their own otherwise. -/
theorem C84_noise (fenv : Env) (env : DataBlock.Env β α) (V : Vals β α) (S : Steps β α) (htab : S.table.Perm trtable)
    (hcast : ∀ c c' : Arr β α, c.nd = c'.nd → S.cast c = S.cast c')
    (ls : List (List Char)) (its : List Item) (h : List.Forall₂ (Says fenv) ls its)
    (text : List Char) (ho : options its = [text]) (m : ℚ) (par : List Char) (f : ℚ → ℚ → Cplx) (z0 : ℚ)
    (hopt : IsOption fenv text m par f z0) (rs ns : List (Line ℚ × List (Line ℚ)))
    (hd : dataLines its = lines rs ++ lines ns) (hF : 1 ≤ rs.length) (hG : 1 ≤ ns.length) (hFG : 3 ≤ rs.length + ns.length)
    (hr : ∀ r ∈ rs, IsRecord 9 r) (hn : ∀ r ∈ ns, IsRecord 5 r) (hinc : rs.Pairwise fun a b => a.1.1 < b.1.1)
    (hinc' : ns.Pairwise fun a b => a.1.1 < b.1.1) (hle : ∀ r ∈ rs.getLast?, ∀ s ∈ ns.head?, s.1.1 ≤ r.1.1)
    (own : Bool) (hown : own = false ↔ Near (rs.map fun r => r.1.1 * m) (ns.map fun r => r.1.1 * m))
    (hq : QuietProps S.ofProp (fileVars par true) (fileDims own) (Comments.properties (comments its))) :
    ∃ r a d di dj rn fmin gopt dn, block fenv env V S ls = .ok r ∧
      (lookup r.blk.vars (String.ofList par) = some a ∧ lookup r.blk.ivars "freq" = some d ∧
        label d = ⟨"freq", .dimSweep, rs.map (fun r => V.coord (r.1.1 * m)), some "Hz"⟩ ∧
        lookup r.blk.ivars "i" = some di ∧ lookup r.blk.ivars "j" = some dj ∧
        MatStack a [d] di dj [rs.length] 2 2 ∧
        ∀ k r i j, rs[k]? = some r → i < 2 → j < 2 →
          ∃ x y, (numbers r).2[2 * (j * 2 + i)]? = some x ∧ (numbers r).2[2 * (j * 2 + i) + 1]? = some y ∧
            a.nd.get [k, i, j] = V.cplx (f x y)) ∧
      (lookup r.blk.vars "Rn" = some rn ∧ lookup r.blk.vars "Fmin" = some fmin ∧ lookup r.blk.vars "Gopt" = some gopt ∧
        lookup r.blk.ivars (if own then "freqn" else "freq") = some dn ∧
        (own = true → label dn = ⟨"freqn", .dimSweep, ns.map (fun r => V.coord (r.1.1 * m)), some "Hz"⟩) ∧
        rn.dims = [dn] ∧ fmin.dims = [dn] ∧ gopt.dims = [dn] ∧
        rn.nd.shape = [ns.length] ∧ fmin.nd.shape = [ns.length] ∧ gopt.nd.shape = [ns.length] ∧
        ∀ (k : Nat) s, ns[k]? = some s → ∃ nf re im x, (numbers s).2 = [nf, re, im, x] ∧ rn.nd.get [k] = V.real (x * z0) ∧
          fmin.nd.get [k] = V.power nf ∧ gopt.nd.get [k] = V.cplx (f re im)) ∧
      (lookup r.blk.vars "Z0" = some ⟨[], ⟨[], fun _ => V.real z0⟩⟩ ∧ r.units "Z0" = some "Ohm") ∧
      (∀ p ∈ givenOf S.ofProp (fileVars par true ++ fileDims own) (Comments.properties (comments its)),
        ∃ x, S.ofProp p.2 = some x ∧
          lookup r.blk.vars (canon (namesOf S.ofProp (fileVars par true) (fileDims own) (Comments.properties (comments its))) p.1) =
            some ⟨[], ⟨[], fun _ => x⟩⟩) ∧
      (∀ k ∈ keys r.blk.vars, k ∈ colsOf S.ofProp (fileVars par true) (fileDims own) (Comments.properties (comments its))) ∧
      ∀ k ∈ keys r.blk.ivars, k ∈ fileDims own := by
  obtain ⟨b, nz, h1, h2, h3, h4, h5, h6, h6', h7, h8⟩ := C64_noise fenv ls its h text ho m par f z0 hopt rs ns hd hF hG hFG hr hn
    hinc hinc' hle
  have hfn : nz.map (fun x => x.1) = ns.map fun r => r.1.1 * m := by
    refine List.ext_getElem? fun k => ?_
    rw [List.getElem?_map, List.getElem?_map]
    cases hk : ns[k]? with
    | none =>
      rw [List.getElem?_eq_none (by rw [h6']; exact List.getElem?_eq_none_iff.1 hk)]
      rfl
    | some s =>
      obtain ⟨_, _, _, _, -, e⟩ := h7 k s hk
      rw [e]
      rfl
  have hown : ownFreqs b = own := by
    unfold ownFreqs
    rw [h6, h3]
    simp only
    rw [hfn]
    have := sameFreqs_iff (rs.map fun r => r.1.1 * m) (ns.map fun r => r.1.1 * m)
    rw [← hown] at this
    cases own with
    | false => rw [this.2 rfl]; rfl
    | true =>
      have : sameFreqs (rs.map fun r => r.1.1 * m) (ns.map fun r => r.1.1 * m) = false := by
        rw [Bool.eq_false_iff]
        intro hc
        have := this.1 hc
        cases this
      rw [this]
      rfl
  obtain ⟨r, r1, r2⟩ := steps_block fenv env V S htab hcast ls _ b (C64_lines fenv ls its h text ho) h1
    (by rw [h2]; exact option_par hopt) (by rw [h2, h6, hown]; exact hq)
  obtain ⟨a, d, di, dj, m1, m2, m3, m4, m5, -, -, m8, m9⟩ := r2.matrix
  obtain ⟨dn, rn, fmin, gopt, n1, n2, n3, n4, n5, n6, n7, n8, n9, n10, n11, n12⟩ := r2.noise nz h6
  have hz := r2.z0
  have hp := r2.property
  have hnn := r2.nothing
  have hnd := r2.noDims
  rw [h2] at m1
  rw [h3, List.map_map] at m5
  rw [h3, h4, List.length_map] at m8
  rw [h2, h6, hown] at hp hnn
  rw [hown] at hnd n1 n2
  rw [h5] at hz
  rw [h6'] at n9 n10 n11
  refine ⟨r, a, d, di, dj, rn, fmin, gopt, dn, r1, ⟨m1, m2, m5, m3, m4, m8, ?_⟩, ⟨n3, n4, n5, n1, ?_, n6, n7, n8, n9, n10, n11, ?_⟩, hz,
    ?_, hnn, hnd⟩
  · intro k q i j hk hi hj
    obtain ⟨x, y, e1, e2, e3⟩ := h8 k q i j hk hi hj
    exact ⟨x, y, e1, e2, m9 k i j _ e3⟩
  · intro e
    rw [n2 e]
    have : (nz.map fun x => V.coord x.1) = ns.map fun r => V.coord (r.1.1 * m) := by
      have := congrArg (List.map V.coord) hfn
      rwa [List.map_map, List.map_map] at this
    rw [this]
  · intro k s hk
    obtain ⟨nf, re, im, x, e1, e2⟩ := h7 k s hk
    obtain ⟨g1, g2, g3⟩ := n12 k _ e2
    exact ⟨nf, re, im, x, e1, g1, g2, g3⟩
  · intro p hp'
    obtain ⟨x, x1, x2, -⟩ := hp p hp'
    exact ⟨x, x1, x2⟩

/-- C84: `read_touchstone` of a file gives this, the name of the file and its index, unless the file has these itself. -/
theorem C84_file [DecidableEq β] (fenv : Env) (env : DataBlock.Env β α) (V : Vals β α) (S : Steps β α) (ofIdx : Nat → β)
    (en : Enum String) (ofName : String → α) (name : String) (ls : List (List Char)) (r : UBlock β α)
    (hr : block fenv env V S ls = .ok r) (hn : ∀ n ∈ ["FILEINDEX", "FILENAME"], n ∉ keys r.blk.vars ∧ n ∉ keys r.blk.ivars) :
    ∃ r', readTouchstone fenv env V S ofIdx en ofName name ls = .ok r' ∧
      (∀ k, lookup r'.vars k = if k = "FILENAME" then some ⟨[], ⟨[], fun _ => ofName name⟩⟩ else lookup r.blk.vars k) ∧
      ∀ k, lookup r'.ivars k = if k = "FILEINDEX" then some ⟨.dimPartial, "FILEINDEX", [ofIdx 0], none, none⟩
        else lookup r.blk.ivars k :=
  Files.single_file env ofIdx en ofName _ name ls r.blk (by simp only [hr]) (fun n h => (hn n h).1) fun n h => (hn n h).2

end HF.Touchstone
