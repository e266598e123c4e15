import Verif.Touchstone.Again
/-
C84: the hypotheses are met; what goes wrong.
-/
namespace HF.Touchstone

open DataBlock (isMatrixName keys Enum)
open HF.DataDict.Spec
open HF.Readers HF.Readers.Treat
open HF.Readers.FixUnit (UBlock)
open HF.Readers.Assemble (CompleteF)
open HF.Readers.Normalize (trtable label)

/-- Elements and coordinates are complex numbers; `10 ** (x / 10)` is not computed. -/
def exVals : Vals Cplx Cplx := ⟨fun x => (x, 0), fun x => (x, 0), id, fun x => (x, 1)⟩

def exBenv : DataBlock.Env Cplx Cplx := ⟨id, id, (0, 0), fun _ => "", fun _ => ""⟩

def exSteps : Steps Cplx Cplx where
  full := id
  rect x y := (x.1, y.1)
  polar x y := (x.1, y.1)
  mul m x := (m * x.1, m * x.2)
  cmul m x := (m * x.1, m * x.2)
  guess n := if n = "Temp" then some "K" else none
  table := trtable
  num n := (n, 0)
  cast _ x := x
  ofProp v := match v with
    | .arr x _ => some (x, 0)
    | .other _ => none

def view (r : Except DataBlock.Err (UBlock Cplx Cplx)) : Option (List (String × List String × Option String)) :=
  match r with
  | .ok u => some (u.blk.vars.map fun p => (p.1, p.2.dims.map Dim.name, u.units p.1))
  | .error _ => none

def at? (r : Except DataBlock.Err (UBlock Cplx Cplx)) (n : String) (idx : List Nat) : Option Cplx :=
  match r with
  | .ok u => (lookup u.blk.vars n).map fun a => a.nd.get idx
  | .error _ => none

theorem noMatrix_of {names : List String} (hn : names.Nodup) (h : Assemble.matchElements .digits names = []) :
    ∀ v I J, ¬ CompleteF .digits names v I J := by
  intro v I J hc
  have := (Assemble.groups_form .digits names hn ⟨v, (Assemble.grid .digits v I J).map fun t => t.2.2, I, J, .digits⟩).2 ⟨rfl, hc, rfl⟩
  rw [h] at this
  cases this

def exProps : List (String × Comments.PVal) := [("Temp", .arr 3 none)]

theorem exQuiet (par : List Char) (hp : par ∈ kindsOfPar) (noise own : Bool) :
    QuietProps exSteps.ofProp (fileVars par noise) (fileDims own) exProps where
  title := by revert par noise own; decide +kernel
  calls := by revert par noise own; decide +kernel
  clash := by revert par noise own; decide +kernel
  elems := by
    intro p hp m i j hm
    simp only [exProps, List.mem_singleton] at hp
    subst hp
    have : isMatrixName "Temp" = none := by decide +kernel
    rw [this] at hm
    cases hm
  noMatrix := by
    refine noMatrix_of ?_ ?_ <;> revert par noise own <;> decide +kernel

def tLines : List (List Char) := "! Temp: 3".toList :: "#gHz s\tMa r 50".toList :: [[1, 2, 3], [2, 4, 5]].map
  fun l => Text.join '\t' (l.map exEnv.fmt)

def tItems : List Item := [.comment "Temp: 3".toList, .option "gHz s\tMa r 50".toList, .data (1, [2, 3]), .data (2, [4, 5])]

theorem tSays : List.Forall₂ (Says exEnv) tLines tItems := by
  refine .cons (.comment [] _ _ (by simp [Text.Blank]) ((Text.strip_iff _ _).1 (by decide +kernel)))
    (.cons (.option [] _ _ _ _ _ _ (by simp [Text.Blank]) ((Text.strip_iff _ _).1 (by decide)) exOption)
    (.cons (says_row _ _ _ ?_) (.cons (says_row _ _ _ ?_) .nil)))
  all_goals
    intro y hy
    refine exEnv_survives y ?_
    simp only [List.mem_cons, List.not_mem_nil, or_false] at hy ⊢
    tauto

/-- The hypotheses of `C84_read` and `C84_file` are met. -/
example : ∃ r r' a d, block exEnv exBenv exVals exSteps tLines = .ok r ∧ lookup r.blk.vars "S" = some a ∧
    a.nd.get [1, 0, 0] = (4, 5) ∧ lookup r.blk.ivars "freq" = some d ∧ d.unit = some "Hz" ∧
    d.data = [(1 * 1000000000, 0), (2 * 1000000000, 0)] ∧ r.units "Temp" = some "K" ∧
    readTouchstone exEnv exBenv exVals exSteps (fun n => (n, 0)) ⟨id, fun _ => List.Perm.refl _⟩ (fun _ => (0, 0)) "a.s1p" tLines =
      .ok r' ∧ lookup r'.vars "S" = some a := by
  have hp : Comments.properties (comments tItems) = exProps := by decide +kernel
  obtain ⟨r, a, d, di, dj, h1, ⟨m1, -, m2, m3, -, -, -, m4⟩, -, hpr, hnn, hnd⟩ := C84_read exEnv exBenv exVals exSteps
    (List.Perm.refl _) (fun _ _ _ => rfl) tLines tItems tSays _ rfl _ _ _ _ exOption 1 (le_refl _)
    [((1, [2, 3]), []), ((2, [4, 5]), [])] rfl (by simp) (by
      intro r hr
      rcases List.mem_cons.1 hr with rfl | hr
      · exact ⟨by decide, by simp, by decide⟩
      · rw [List.mem_singleton.1 hr]; exact ⟨by decide, by simp, by decide⟩) (by simp)
    (by rw [hp]; exact exQuiet _ (by simp [kindsOfPar]) _ _)
  rw [hp] at hpr hnn
  obtain ⟨r', f1, f2, -⟩ := C84_file exEnv exBenv exVals exSteps (fun n => (n, 0)) ⟨id, fun _ => List.Perm.refl _⟩
    (fun _ => (0, 0)) "a.s1p" tLines r h1 (by
      intro n hn
      refine ⟨fun h => ?_, fun h => ?_⟩
      · exact (by decide +kernel : ∀ n ∈ ["FILEINDEX", "FILENAME"],
          n ∉ colsOf exSteps.ofProp (fileVars ['S'] false) (fileDims false) exProps) n hn (hnn n h)
      · exact (by decide : ∀ n ∈ ["FILEINDEX", "FILENAME"], n ∉ ["freq", "i", "j"]) n hn (hnd n h))
  refine ⟨r, r', a, d, h1, m1, ?_, m2, congrArg Normalize.Label.unit m3, congrArg Normalize.Label.data m3, ?_, f1, ?_⟩
  · obtain ⟨x, y, e1, e2, e3⟩ := m4 1 ((2, [4, 5]), []) 0 0 rfl (by decide) (by decide)
    simp [numbers] at e1 e2
    subst e1 e2
    exact e3
  · have hg : givenOf exSteps.ofProp (fileVars ['S'] false ++ fileDims false) exProps = exProps := by decide +kernel
    obtain ⟨x, -, -, h⟩ := hpr ("Temp", .arr 3 none) (by rw [hg]; simp [exProps])
    have e : canon (namesOf exSteps.ofProp (fileVars ['S'] false) (fileDims false) exProps) "Temp" = "Temp" := by decide +kernel
    rw [e] at h
    exact h
  · rw [f2, if_neg (by decide)]
    exact m1

/-- The hypotheses of `C84_noise` are met, with frequencies of their own. -/
example : ∃ r rn dn, block exEnv exBenv exVals exSteps ("#gHz s\tMa r 50".toList ::
      [[1, 2, 3, 4, 5, 6, 1, 2, 3], [1, 4, 5, 6, 2], [2, 4, 5, 6, 3]].map fun l => Text.join '\t' (l.map exEnv.fmt)) = .ok r ∧
    lookup r.blk.vars "Rn" = some rn ∧ rn.nd.get [1] = (3 * 50, 0) ∧ rn.dims = [dn] ∧ dn.name = "freqn" := by
  have h : List.Forall₂ (Says exEnv) ("#gHz s\tMa r 50".toList :: [[1, 2, 3, 4, 5, 6, 1, 2, 3], [1, 4, 5, 6, 2], [2, 4, 5, 6, 3]].map
      fun l => Text.join '\t' (l.map exEnv.fmt))
      [.option "gHz s\tMa r 50".toList, .data (1, [2, 3, 4, 5, 6, 1, 2, 3]), .data (1, [4, 5, 6, 2]), .data (2, [4, 5, 6, 3])] := by
    refine .cons (.option [] _ _ _ _ _ _ (by simp [Text.Blank]) ((Text.strip_iff _ _).1 (by decide)) exOption)
      (.cons (says_row _ _ _ ?_) (.cons (says_row _ _ _ ?_) (.cons (says_row _ _ _ ?_) .nil)))
    all_goals
      intro y hy
      refine exEnv_survives y ?_
      simp only [List.mem_cons, List.not_mem_nil, or_false] at hy ⊢
      tauto
  obtain ⟨r, a, d, di, dj, rn, fmin, gopt, dn, h1, -, ⟨n1, -, -, -, n5, n6, -, -, -, -, -, n12⟩, -⟩ := C84_noise exEnv exBenv exVals exSteps
    (List.Perm.refl _) (fun _ _ _ => rfl) _ _ h _ rfl _ _ _ _ exOption
    [((1, [2, 3, 4, 5, 6, 1, 2, 3]), [])] [((1, [4, 5, 6, 2]), []), ((2, [4, 5, 6, 3]), [])] rfl (by simp) (by simp) (by simp)
    (by
      intro r hr
      rw [List.mem_singleton.1 hr]; exact ⟨by decide, by simp, by decide⟩)
    (by
      intro r hr
      rcases List.mem_cons.1 hr with rfl | hr
      · exact ⟨by decide, by simp, by decide⟩
      · rw [List.mem_singleton.1 hr]; exact ⟨by decide, by simp, by decide⟩)
    (by simp) (by simp) (by simp) true ⟨by simp, fun hc => by have := hc.length_eq; simp at this⟩ (by
      refine ⟨by decide +kernel, by decide +kernel, by decide +kernel, ?_, ?_⟩
      · intro p hp
        have : Comments.properties (comments [.option "gHz s\tMa r 50".toList, .data (1, [2, 3, 4, 5, 6, 1, 2, 3]),
          .data (1, [4, 5, 6, 2]), .data (2, [4, 5, 6, 3])]) = [] := by decide +kernel
        rw [this] at hp
        cases hp
      · refine noMatrix_of ?_ ?_ <;> decide +kernel)
  obtain ⟨nf, re, im, x, e, hz, -⟩ := n12 1 ((2, [4, 5, 6, 3]), []) rfl
  simp only [numbers, List.flatMap_nil, List.append_nil, List.cons.injEq, and_true] at e
  obtain ⟨rfl, rfl, rfl, rfl⟩ := e
  exact ⟨r, rn, dn, h1, n1, hz, n6, congrArg Normalize.Label.name (n5 rfl)⟩

/-- The hypotheses of `C84_roundtrip` are met, for any number of ports. -/
example (n : Nat) (hn : 1 ≤ n) : ∃ r, block exEnv exBenv exVals exSteps (save exEnv ["Temp: 3".toList] n [exRow 1, exRow 2]) = .ok r ∧
    lookup r.blk.vars "Temp" = some ⟨[], ⟨[], fun _ => (3, 0)⟩⟩ := by
  have hp : Comments.properties ["Temp: 3".toList] = exProps := by decide +kernel
  obtain ⟨r, _, _, _, _, h1, -, -, -, -, -, -, -, h2⟩ := C84_roundtrip exEnv (by decide +kernel) exBenv exVals exSteps
    (List.Perm.refl _) (fun _ _ _ => rfl) ["Temp: 3".toList] ["Temp: 3".toList] (.cons ((Text.strip_iff _ _).1 (by decide +kernel)) .nil)
    n hn [exRow 1, exRow 2] (by simp) ex_inc (ex_survives n) (by rw [hp]; exact exQuiet _ (by simp [kindsOfPar]) _ _)
  rw [hp] at h2
  have hg : givenOf exSteps.ofProp (fileVars ['S'] false ++ fileDims false) exProps = exProps := by decide +kernel
  obtain ⟨x, x1, x2⟩ := h2 ("Temp", .arr 3 none) (by rw [hg]; simp [exProps])
  have e : canon (namesOf exSteps.ofProp (fileVars ['S'] false) (fileDims false) exProps) "Temp" = "Temp" := by decide +kernel
  rw [e] at x2
  cases x1
  exact ⟨r, h1, x2⟩

/-! ### What goes wrong -/

/-- C84, violated: a block whose reference impedance is 3 ohms is saved with the option line for 50 ohms, and what the
comment says about `Z0` is not looked at. -/
theorem C84_z0_refuted : at? (block exEnv exBenv exVals exSteps (save exEnv ["Z0: 3".toList] 1 [exRow 1, exRow 2])) "Z0" [] =
    some (50, 0) := by
  decide +kernel

/-- C84, violated: a comment which looks like a value for an element of the matrix replaces the numbers of the file. -/
theorem C84_element_refuted : at? (block exEnv exBenv exVals exSteps
      (["!S11: 3", "# HZ S RI R 50", "1 2 3", "2 4 5"].map String.toList)) "S" [1, 0, 0] = some (3, 0) ∧
    at? (block exEnv exBenv exVals exSteps (["# HZ S RI R 50", "1 2 3", "2 4 5"].map String.toList)) "S" [1, 0, 0] = some (4, 5) := by
  decide +kernel

end HF.Touchstone
