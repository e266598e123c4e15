import Verif.Citi.Props
import Verif.DataBlock.Convert
/-
C22: the hypotheses can be met; blocks that do not survive.
-/

namespace HF.Citi

open Units (isWs strip)
open Text DataBlock
open HF.DataDict.Spec

/-- A natural number in decimal notation. -/
def undec (w : List Char) : Option Nat :=
  if w ≠ [] ∧ w.all isDig then some (w.foldl (fun n c => 10 * n + digVal c) 0) else none

/-- Digits; natural numbers in decimal notation. -/
def exEnv : Env where
  fmt x := if x = 0 then ['0'] else if x = 1 then ['1'] else if x = 2 then ['2'] else if x = 3 then ['3']
    else if x = 4 then ['4'] else if x = 5 then ['5'] else ['6']
  parse w := if w = ['0'] then some 0 else if w = ['1'] then some 1 else if w = ['2'] then some 2
    else if w = ['3'] then some 3 else if w = ['4'] then some 4 else if w = ['5'] then some 5
    else if w = ['6'] then some 6 else none
  fmtNat := dec
  parseNat := undec
  magAngle a b := (a, b)

theorem exEnv_survives (x : ℚ) (h : x ∈ [0, 1, 2, 3, 4, 5, 6]) : Survives exEnv x := by
  simp at h
  rcases h with rfl | rfl | rfl | rfl | rfl | rfl | rfl <;>
    exact ⟨⟨_, _, rfl, by decide +kernel⟩, by decide +kernel, by decide +kernel, by decide +kernel⟩

theorem dig_dec (n : Nat) (h : n < 10) : isDig (digitChar n) = true ∧ digVal (digitChar n) = n ∧
    isWs (digitChar n) = false := by
  revert n
  decide

theorem dec_digits (n : Nat) : dec n ≠ [] ∧ (∀ c ∈ dec n, isDig c = true ∧ isWs c = false) ∧
    (dec n).foldl (fun n c => 10 * n + digVal c) 0 = n := by
  induction n using Nat.strongRecOn with
  | ind n ih =>
    rw [dec]
    split
    · rename_i h
      obtain ⟨h1, h2, h3⟩ := dig_dec n h
      refine ⟨by simp, ?_, by simp [h2]⟩
      intro c hc
      simp at hc
      subst hc
      exact ⟨h1, h3⟩
    · rename_i h
      obtain ⟨h1, h2, h3⟩ := dig_dec (n % 10) (by omega)
      obtain ⟨i1, i2, i3⟩ := ih (n / 10) (by omega)
      refine ⟨by simp, ?_, ?_⟩
      · intro c hc
        rcases List.mem_append.mp hc with hc | hc
        · exact i2 c hc
        · simp at hc
          subst hc
          exact ⟨h1, h3⟩
      · rw [List.foldl_append, i3]
        simp only [List.foldl_cons, List.foldl_nil, h2]
        omega

theorem exEnv_nat : NatSurvives exEnv := by
  intro n
  obtain ⟨h1, h2, h3⟩ := dec_digits n
  refine ⟨⟨h1, fun c hc => (h2 c hc).2⟩, ?_⟩
  show undec (dec n) = some n
  unfold undec
  rw [if_pos ⟨h1, by simpa using fun c hc => (h2 c hc).1⟩, h3]

/-- A sweep with the coordinates 1, 2. -/
def swp (n : String) : Dim Cplx := ⟨.dimSweep, n, [(1, 0), (2, 0)], none, none⟩

/-- A real variable and a matrix. -/
def exVars : List Var :=
  [⟨"V", ⟨[swp "f"], ⟨[2], fun idx => if idx = [0] then (3, 0) else (4, 0)⟩⟩, .plain⟩,
   ⟨"S", ⟨[swp "f", ⟨.matI, "i", [(0, 0), (1, 0)], none, none⟩, ⟨.matJ, "j", [(0, 0)], none, none⟩],
      ⟨[2, 2, 1], fun idx => if idx = [1, 0, 0] then (5, 6) else (1, 2)⟩⟩,
      .matrix ⟨.matI, "i", [(0, 0), (1, 0)], none, none⟩ ⟨.matJ, "j", [(0, 0)], none, none⟩ 2 1⟩]

theorem exSweeps : GoodSweeps exEnv [swp "f"] := by
  refine ⟨by decide +kernel, ?_, ?_, by decide +kernel⟩
  · intro d hd
    simp at hd
    subst hd
    exact ⟨by decide +kernel, by decide +kernel⟩
  · intro d hd z hz
    simp at hd
    subst hd
    simp [swp] at hz
    rcases hz with rfl | rfl
    · exact ⟨exEnv_survives _ (by decide +kernel), rfl⟩
    · exact ⟨exEnv_survives _ (by decide +kernel), rfl⟩

theorem exGoodVars : GoodVars [swp "f"] exVars := by
  refine ⟨by decide +kernel, by decide +kernel, ?_⟩
  intro v hv m i j e
  simp [exVars] at hv
  rcases hv with rfl | rfl
  · have : isMatrixName "V" = none := by decide +kernel
    rw [this] at e
    cases e
  · have : isMatrixName "S" = none := by decide +kernel
    rw [this] at e
    cases e

theorem exKinds : ∀ v ∈ exVars, v.kind.Is [swp "f"] v.arr ∧ GoodValues exEnv (v.name == "S") v.arr := by
  intro v hv
  simp [exVars] at hv
  rcases hv with rfl | rfl
  · refine ⟨⟨rfl, rfl⟩, ?_⟩
    intro idx _
    simp only
    split
    · exact ⟨exEnv_survives _ (by decide +kernel), fun h => absurd h (by decide +kernel), fun _ => rfl⟩
    · exact ⟨exEnv_survives _ (by decide +kernel), fun h => absurd h (by decide +kernel), fun _ => rfl⟩
  · refine ⟨⟨⟨rfl, rfl, by decide +kernel, by decide +kernel, rfl⟩, by decide +kernel, by decide +kernel⟩, ?_⟩
    intro idx _
    simp only
    split
    · exact ⟨exEnv_survives _ (by decide +kernel), fun _ => exEnv_survives _ (by decide +kernel),
        fun h => absurd h (by decide +kernel)⟩
    · exact ⟨exEnv_survives _ (by decide +kernel), fun _ => exEnv_survives _ (by decide +kernel),
        fun h => absurd h (by decide +kernel)⟩

theorem exColNames : (exVars.flatMap fun v => v.kind.names exEnv v.name) = [['V'], ['S', '1', '1'], ['S', '2', '1']] := by
  decide +kernel

theorem exGoodNames : GoodNames [swp "f"] (exVars.flatMap fun v => v.kind.names exEnv v.name) := by
  rw [exColNames]
  refine ⟨by simp, ?_, by decide +kernel, by decide +kernel, ?_⟩
  · intro n hn
    simp at hn
    rcases hn with rfl | rfl | rfl <;> exact ⟨by decide, by decide⟩
  · intro n hn m i j e
    simp only [List.mem_cons, List.not_mem_nil, or_false] at hn
    rcases hn with rfl | rfl | rfl
    · have k : isMatrixName (String.ofList ['V']) = none := by decide +kernel
      rw [k] at e
      cases e
    · have k : isMatrixName (String.ofList ['S', '1', '1']) = some ("S", 0, 0) := by decide +kernel
      rw [k] at e
      simp at e
      rw [← e.1]
      decide +kernel
    · have k : isMatrixName (String.ofList ['S', '2', '1']) = some ("S", 1, 0) := by decide +kernel
      rw [k] at e
      simp at e
      rw [← e.1]
      decide +kernel

theorem exNoTime : NoTime [['c']] := by
  intro c hc
  rw [List.mem_singleton.1 hc]
  decide +kernel

/-- The hypotheses of the round trip are met. -/
example : ∃ lines b', save exEnv ['x'] [['c']] (· == "S") { vars := exVars.map fun v => (v.name, v.arr) } = .ok lines ∧
    read exEnv lines = .ok (['x'], [['c']], b') ∧ ∃ r, lookup b'.vars "S21" = some r ∧ r.nd.get [0] = (1, 2) := by
  obtain ⟨lines, b', h1, h2, -, -, -, h3⟩ := C22_roundtrip exEnv_nat ['x'] [['c']] (· == "S") [swp "f"] exVars
    { vars := exVars.map fun v => (v.name, v.arr) } rfl exSweeps exGoodVars exKinds exGoodNames exNoTime
  obtain ⟨r, h4, h5⟩ := h3 _ (List.mem_cons_of_mem _ (List.mem_cons_self ..)) _ _ 2 1 rfl 1 (by omega) 0 (by omega)
  refine ⟨lines, b', h1, h2, r, ?_, ?_⟩
  · have : String.ofList (elemCol exEnv "S" 1 0) = "S21" := by decide +kernel
    rw [← this]
    exact h4
  · rw [h5.get [0] ⟨Nat.zero_lt_two, trivial⟩]
    decide +kernel

/-- All elements of a variable that has been read. -/
def viewVar (r : Except Err (List Char × List (List Char) × Block Cplx Cplx)) (n : String) : Option (List Cplx) :=
  match r with
  | .ok (_, _, b) => (lookup b.vars n).map flat
  | .error _ => none

/-- Saving and reading. -/
def again (cplx : String → Bool) (b : Block Cplx Cplx) : Except Err (List Char × List (List Char) × Block Cplx Cplx) :=
  match save exEnv ['x'] [] cplx b with
  | .ok lines => read exEnv lines
  | .error e => .error e

/-- C22, violated: a variable with the sweeps in another order is read as if it had the order of the
file, without notice. -/
theorem C22_order_refuted :
    let a : Arr Cplx Cplx := ⟨[swp "f", swp "g"], ⟨[2, 2], fun idx => (idx.headD 0, 0)⟩⟩
    let c : Arr Cplx Cplx := ⟨[swp "g", swp "f"], ⟨[2, 2], fun idx => (idx.headD 0, 0)⟩⟩
    viewVar (again (fun _ => false) { vars := [("A", a), ("C", c)] }) "C" = some [(0, 0), (0, 0), (1, 0), (1, 0)] ∧
    (match again (fun _ => false) { vars := [("A", a), ("C", c)] } with
      | .ok (_, _, b) => (lookup b.vars "C").map fun r => r.dims.map Dim.name
      | .error _ => none) = some ["f", "g"] := by
  decide +kernel

/-- C22, violated: if a variable does not have all the sweeps the file cannot be read. -/
theorem C22_fewer_refuted :
    let a : Arr Cplx Cplx := ⟨[swp "f", swp "g"], ⟨[2, 2], fun idx => (idx.headD 0, 0)⟩⟩
    let c : Arr Cplx Cplx := ⟨[swp "f"], ⟨[2], fun idx => (idx.headD 0, 0)⟩⟩
    again (fun _ => false) { vars := [("A", a), ("C", c)] } matches .error .value := by
  decide +kernel

/-- C22, violated: a block without variables cannot be read. -/
theorem C22_empty_refuted :
    again (fun _ => false) { ivars := [("f", swp "f")] } matches .error (.parser _) := by
  decide +kernel

/-- C22, violated: of matrices with eleven ports two elements have the same name. -/
theorem C22_ports_refuted (env : Env) (n : String) (h : ∀ k, env.fmtNat k = dec k) :
    elemCol env n 0 10 = elemCol env n 10 0 := by
  unfold elemCol
  simp only [h]
  have e1 : dec (0 + 1) = ['1'] := by decide +kernel
  have e2 : dec (10 + 1) = ['1', '1'] := by decide +kernel
  rw [e1, e2]
  simp

/-- C22, violated: a file with a number that is written as `nan`, `inf` or with a plus sign cannot be
read. -/
theorem C22_nan_refuted (env : Env) (c : Char) (hc : c ∈ ['n', 'i', '+']) (r : List Char) (before after : List (List Char))
    (hb : ∃ s, tokenize before = .ok s) : read env (before ++ (c :: r) :: after) = .error .citi := by
  have ht : tokenLine (c :: r) = .error .citi := by
    simp only [List.mem_cons, List.not_mem_nil, or_false] at hc
    rcases hc with rfl | rfl | rfl <;> rfl
  have : ∀ before, (∃ s, tokenize before = .ok s) → tokenize (before ++ (c :: r) :: after) = .error .citi := by
    intro before
    induction before with
    | nil =>
      intro _
      simp only [List.nil_append, tokenize, ht]
    | cons l ls ih =>
      rintro ⟨s, hs⟩
      simp only [List.cons_append, tokenize] at hs ⊢
      split at hs
      · cases hs
      · split at hs
        · cases hs
        · rename_i ts hts
          rw [ih ⟨ts, hts⟩]
  unfold read
  rw [this before hb]

end HF.Citi
