import Verif.Touchstone.File
import Verif.Touchstone.CutProps
import Verif.Hyper.Props
import Mathlib.Tactic.NormNum
import Mathlib.Tactic.IntervalCases
/-
C19: saving a Touchstone file and reading it back.
-/

namespace HF.Touchstone

open Units (isWs strip)
open Text

/-! ### Specification -/

/-- A number survives writing and reading, and is written as a single word that is neither a comment nor
an information line. -/
structure Survives (env : Env) (x : ℚ) : Prop where
  word : IsWord (env.fmt x)
  noComment : '!' ∉ env.fmt x
  noInfo : (env.fmt x).head? ≠ some '#'
  same : env.parse (env.fmt x) = some x

/-- All numbers of a block survive. -/
def AllSurvive (env : Env) (n : Nat) (rows : List (ℚ × (Nat → Nat → Cplx))) : Prop :=
  ∀ r ∈ rows, Survives env r.1 ∧ ∀ i j, i < n → j < n → Survives env (r.2 i j).1 ∧ Survives env (r.2 i j).2

/-! ### Lines -/

theorem mapM_parse (env : Env) : ∀ l : List ℚ, (∀ x ∈ l, Survives env x) →
    (l.map env.fmt).mapM env.parse = some l
  | [], _ => rfl
  | x :: l, h => by
    rw [List.map_cons, List.mapM_cons, (h x (by simp)).same, mapM_parse env l fun x hx => h x (by simp [hx])]
    rfl

theorem takeWhile_all {p : Char → Bool} : ∀ l : List Char, (∀ c ∈ l, p c = true) → l.takeWhile p = l
  | [], _ => rfl
  | c :: l, h => by
    rw [List.takeWhile_cons, h c (by simp), if_pos rfl, takeWhile_all l fun c hc => h c (by simp [hc])]

theorem add_data (env : Env) (p : Parsed) (x : ℚ) (l : List ℚ) (h : ∀ y ∈ x :: l, Survives env y) :
    addLine env p (join '\t' ((x :: l).map env.fmt)) = .ok { p with data := p.data ++ [(x, l)] } := by
  have hw : ∀ f ∈ (x :: l).map env.fmt, IsWord f := by
    intro f hf
    obtain ⟨y, hy, rfl⟩ := List.mem_map.1 hf
    exact (h y hy).word
  have hn : numbersOf env (join '\t' ((x :: l).map env.fmt)) = .ok (x, l) := by
    unfold numbersOf
    rw [takeWhile_all _ (by
      intro c hc
      rcases mem_join _ _ _ hc with rfl | ⟨f, hf, hcf⟩
      · decide
      · obtain ⟨y, hy, rfl⟩ := List.mem_map.1 hf
        have := (h y hy).noComment
        simp only [decide_eq_true_eq]
        rintro rfl
        exact this hcf), strip_join _ _ hw, words_join _ (by decide) _ hw, mapM_parse env _ h]
  unfold addLine
  rw [strip_join _ _ hw]
  have hx := h x (by simp)
  obtain ⟨r, hr⟩ := join_cons '\t' (env.fmt x) (l.map env.fmt)
  rw [← List.map_cons] at hr
  obtain ⟨c, t, hct⟩ := List.exists_cons_of_ne_nil hx.word.1
  have hj : join '\t' ((x :: l).map env.fmt) = c :: (t ++ r) := by rw [hr, hct]; rfl
  have h1 : c ≠ '!' := by
    rintro rfl
    exact hx.noComment (by rw [hct]; simp)
  have h2 : c ≠ '#' := by
    rintro rfl
    exact hx.noInfo (by rw [hct]; rfl)
  rw [hj] at hn ⊢
  split
  · rename_i e; cases e
  · rename_i e; injection e with e _; exact absurd e h1
  · rename_i e; injection e with e _; exact absurd e h2
  · rw [hn]

theorem add_rows (env : Env) (f : (ℚ × (Nat → Nat → Cplx)) → List ℚ) : ∀ (rows : List (ℚ × (Nat → Nat → Cplx)))
    (p : Parsed), (∀ r ∈ rows, ∀ y ∈ r.1 :: f r, Survives env y) →
    addLines env p (rows.map fun r => join '\t' ((r.1 :: f r).map env.fmt)) =
      .ok { p with data := p.data ++ rows.map fun r => (r.1, f r) }
  | [], p, _ => by simp [addLines]
  | r :: rows, p, h => by
    rw [List.map_cons, addLines, add_data env p _ _ (h r (by simp))]
    simp only
    rw [add_rows env f rows _ fun r hr => h r (by simp [hr])]
    simp

theorem add_comments (env : Env) : ∀ (cs : List (List Char)) (p : Parsed) (ls : List (List Char)),
    ∃ cs', addLines env p (cs.map ('!' :: ·) ++ ls) = addLines env { p with comments := p.comments ++ cs' } ls
  | [], p, ls => ⟨[], by simp⟩
  | c :: cs, p, ls => by
    have hs : ∃ r, strip ('!' :: c) = '!' :: r := by
      unfold strip
      rw [List.dropWhile_cons, show isWs '!' = false by decide]
      simp only [Bool.false_eq_true, if_false]
      have key : ∀ l : List Char, ∃ r, (l.dropWhile isWs) ++ ['!'] = r ++ ['!'] := fun l => ⟨_, rfl⟩
      have h2 : ∀ l : List Char, ∃ r, (l ++ ['!']).dropWhile isWs = r ++ ['!'] := by
        intro l
        induction l with
        | nil => exact ⟨[], by decide⟩
        | cons a l ih =>
          rw [List.cons_append, List.dropWhile_cons]
          split
          · exact ih
          · exact ⟨a :: l, rfl⟩
      obtain ⟨r, hr⟩ := h2 c.reverse
      rw [List.reverse_cons, hr]
      exact ⟨r.reverse, by simp⟩
    obtain ⟨r, hr⟩ := hs
    have h1 : addLine env p ('!' :: c) = .ok { p with comments := p.comments ++ [strip r] } := by
      unfold addLine
      rw [hr]
      rfl
    obtain ⟨cs', h2⟩ := add_comments env cs { p with comments := p.comments ++ [strip r] } ls
    refine ⟨strip r :: cs', ?_⟩
    rw [List.map_cons, List.cons_append, addLines, h1]
    simp only
    rw [h2]
    simp

theorem add_info (env : Env) (cs : List (List Char)) (ls : List (List Char)) :
    addLines env ⟨cs, none, []⟩ (infoLine :: ls) =
      addLines env ⟨cs, some ['H', 'Z', ' ', 'S', ' ', 'R', 'I', ' ', 'R', ' ', '5', '0'], []⟩ ls := by
  have h1 : strip infoLine = infoLine := by decide +kernel
  have h2 : isInfo infoLine = true := by decide +kernel
  have h3 : strip ['H', 'Z', ' ', 'S', ' ', 'R', 'I', ' ', 'R', ' ', '5', '0'] =
      ['H', 'Z', ' ', 'S', ' ', 'R', 'I', ' ', 'R', ' ', '5', '0'] := by decide +kernel
  have : addLine env ⟨cs, none, []⟩ infoLine =
      .ok ⟨cs, some ['H', 'Z', ' ', 'S', ' ', 'R', 'I', ' ', 'R', ' ', '5', '0'], []⟩ := by
    unfold addLine
    rw [h1]
    unfold infoLine at h2 ⊢
    simp only
    rw [if_pos h2, h3]
  rw [addLines, this]

/-- What has been read when the file is at its end. -/
theorem add_saved (env : Env) (comments : List (List Char)) (f : (ℚ × (Nat → Nat → Cplx)) → List ℚ)
    (rows : List (ℚ × (Nat → Nat → Cplx))) (h : ∀ r ∈ rows, ∀ y ∈ r.1 :: f r, Survives env y) :
    ∃ cs, addLines env ⟨[], none, []⟩ (comments.map ('!' :: ·) ++ infoLine ::
        rows.map fun r => join '\t' ((r.1 :: f r).map env.fmt)) =
      .ok ⟨cs, some ['H', 'Z', ' ', 'S', ' ', 'R', 'I', ' ', 'R', ' ', '5', '0'], rows.map fun r => (r.1, f r)⟩ := by
  obtain ⟨cs, hcs⟩ := add_comments env comments ⟨[], none, []⟩ (infoLine ::
        rows.map fun r => join '\t' ((r.1 :: f r).map env.fmt))
  refine ⟨cs, ?_⟩
  rw [hcs, List.nil_append, add_info, add_rows env f rows _ h]
  rfl

/-! ### Matrices -/

theorem pairUp_flat : ∀ l : List Cplx, pairUp (fun a b => (a, b)) (l.flatMap fun z => [z.1, z.2]) = l
  | [] => rfl
  | z :: l => by
    rw [List.flatMap_cons]
    simp only [List.cons_append, List.nil_append, pairUp]
    rw [pairUp_flat l]

theorem colOrder_length (n : Nat) (S : Nat → Nat → Cplx) : (colOrder n S).length = n * n := by
  unfold colOrder
  rw [List.length_flatMap]
  simp

theorem colOrder_get (n : Nat) (S : Nat → Nat → Cplx) (i j : Nat) (hi : i < n) (hj : j < n) :
    (colOrder n S)[i * n + j]? = some (S j i) := by
  unfold colOrder
  rw [Hyper.flatMap_get (fun i => (List.range n).map fun j => S j i) n (by simp) (List.range n) i j i
    (List.getElem?_range hi) hj, List.getElem?_map, List.getElem?_range hj]
  rfl

theorem colOrder_mem (n : Nat) (S : Nat → Nat → Cplx) (z : Cplx) (h : z ∈ colOrder n S) :
    ∃ i j, i < n ∧ j < n ∧ z = S i j := by
  unfold colOrder at h
  obtain ⟨i, hi, h⟩ := List.mem_flatMap.1 h
  obtain ⟨j, hj, rfl⟩ := List.mem_map.1 h
  exact ⟨j, i, by simpa using hj, by simpa using hi, rfl⟩

theorem flat_length (l : List Cplx) : (l.flatMap fun z => [z.1, z.2]).length = 2 * l.length := by
  induction l with
  | nil => rfl
  | cons z l ih => rw [List.flatMap_cons, List.length_append, ih]; simp; omega

theorem lines_single {K : Type} [LinearOrder K] (l : List (Line K)) : lines (l.map fun r => (r, [])) = l := by
  induction l with
  | nil => rfl
  | cons r l ih => simpa [lines] using ih

theorem numbers_single {K : Type} [LinearOrder K] (l : List (Line K)) : (l.map fun r => (r, [])).map numbers = l := by
  rw [List.map_map]
  conv_rhs => rw [← List.map_id l]
  exact List.map_congr_left fun r _ => by simp [numbers]

theorem ports_eq (n : Nat) : (if n * n = 1 then 1 else if n * n = 4 then 2 else Nat.sqrt (n * n)) = n := by
  split
  · rename_i h
    exact (Nat.eq_one_of_mul_eq_one_right h).symm
  · split
    · rename_i h
      have h1 : n < 3 := by
        by_contra hc
        have : 3 * 3 ≤ n * n := Nat.mul_le_mul (by omega) (by omega)
        omega
      interval_cases n <;> omega
    · exact Nat.sqrt_eq n

theorem save_survives {env : Env} {n : Nat} {rows : List (ℚ × (Nat → Nat → Cplx))} (h : AllSurvive env n rows) :
    ∀ r ∈ rows, ∀ y ∈ r.1 :: (colOrder n r.2).flatMap fun z => [z.1, z.2], Survives env y := by
  intro r hr y hy
  rcases List.mem_cons.1 hy with rfl | hy
  · exact (h r hr).1
  · obtain ⟨z, hz, hy⟩ := List.mem_flatMap.1 hy
    obtain ⟨i, j, hi, hj, rfl⟩ := colOrder_mem n r.2 z hz
    simp at hy
    rcases hy with rfl | rfl
    · exact ((h r hr).2 i j hi hj).1
    · exact ((h r hr).2 i j hi hj).2

/-- C19: what is read after saving an `n`-port at two or more increasing frequencies: the same for `n ≤ 2`,
the transposed matrices for larger `n`. -/
theorem C19_roundtrip (env : Env) (h50 : env.parse ['5', '0'] = some 50) (comments : List (List Char)) (n : Nat)
    (hn : 1 ≤ n) (rows : List (ℚ × (Nat → Nat → Cplx))) (hF : 2 ≤ rows.length)
    (hinc : rows.Pairwise fun a b => a.1 < b.1) (hs : AllSurvive env n rows) :
    ∃ b, read env (save env comments n rows) = .ok b ∧ b.par = ['S'] ∧ b.freq = rows.map (·.1) ∧ b.ports = n ∧
      b.noise = none ∧ b.z0 = 50 ∧
      ∀ k i j r, rows[k]? = some r → i < n → j < n →
        b.elem k i j = some (if n ≤ 2 then r.2 i j else r.2 j i) := by
  obtain ⟨cs, hcs⟩ := add_saved env comments (fun r => (colOrder n r.2).flatMap fun z => [z.1, z.2]) rows
    (save_survives hs)
  obtain ⟨data, hdata⟩ : ∃ data : List (Line ℚ),
      data = rows.map fun r => (r.1, (colOrder n r.2).flatMap fun z => [z.1, z.2]) := ⟨_, rfl⟩
  have hlen : ∀ r : ℚ × (Nat → Nat → Cplx), ((colOrder n r.2).flatMap fun z => [z.1, z.2]).length = 2 * (n * n) := by
    intro r
    rw [flat_length, colOrder_length]
  have hproc : processData data = .ok (data, []) := by
    have := C18_records n hn (data.map fun r => (r, [])) (by simp [hdata, hF]) (by
      intro r hr
      obtain ⟨l, hl, rfl⟩ := List.mem_map.1 hr
      rw [hdata] at hl
      obtain ⟨q, hq, rfl⟩ := List.mem_map.1 hl
      have e : n ^ 2 = n * n := Nat.pow_two n
      have hl : Line.len (q.1, (colOrder n q.2).flatMap fun z => [z.1, z.2]) = 2 * (n * n) + 1 := by
        unfold Line.len
        rw [hlen q]
      refine ⟨?_, by simp, ?_⟩
      · rw [hl]; omega
      · rw [hl, e]; simp [total]) (by
      rw [List.pairwise_map, hdata, List.pairwise_map]
      exact hinc)
    rwa [lines_single, numbers_single] at this
  have hw : words ((['H', 'Z', ' ', 'S', ' ', 'R', 'I', ' ', 'R', ' ', '5', '0'] : List Char).map Char.toUpper) =
      [['H', 'Z'], ['S'], ['R', 'I'], ['R'], ['5', '0']] := by decide +kernel
  have hcols : width data / 2 = n * n := by
    cases hr : rows with
    | nil => rw [hr] at hF; simp at hF
    | cons r rs =>
      rw [hdata, hr, List.map_cons, width, hlen r]
      omega
  have hread : read env (save env comments n rows) =
      procInfo env ['H', 'Z', ' ', 'S', ' ', 'R', 'I', ' ', 'R', ' ', '5', '0'] data [] := by
    unfold read save saveRow
    rw [hcs]
    simp only
    rw [← hdata, hproc]
  rw [hread]
  unfold procInfo
  rw [hw]
  simp only
  rw [h50]
  simp only
  rw [show freqMult.lookup ['H', 'Z'] = some 1 from rfl]
  simp only
  rw [show convFunc env ['R', 'I'] = some fun a b => (a, b) from rfl]
  simp only
  rw [hcols, ports_eq]
  refine ⟨_, rfl, rfl, ?_, rfl, by simp, rfl, ?_⟩
  · rw [hdata, List.map_map]
    exact List.map_congr_left fun r _ => by simp
  · intro k i j r hr hi hj
    simp only
    rw [hdata, List.map_map, List.getElem?_map, hr]
    simp only [Option.map_some, Function.comp_apply]
    rw [pairUp_flat, if_pos ⟨hi, hj⟩, colOrder_get n r.2 i j hi hj, colOrder_get n r.2 j i hj hi]
    by_cases h4 : n * n = 4
    · have h2 : n ≤ 2 := by
        by_contra hc
        have : 3 * 3 ≤ n * n := Nat.mul_le_mul (by omega) (by omega)
        omega
      rw [if_pos h4, if_pos h2]
    · rw [if_neg h4]
      by_cases h2 : n ≤ 2
      · have h1 : n = 1 := by
          interval_cases n
          · rfl
          · omega
        subst h1
        have : i = 0 := by omega
        have : j = 0 := by omega
        subst i j
        rw [if_pos h2]
      · rw [if_neg h2]

/-- C19, violated: a block with a single frequency is saved, but the file cannot be read. -/
theorem C19_single_refuted (env : Env) (comments : List (List Char)) (n : Nat) (hn : 1 ≤ n)
    (r : ℚ × (Nat → Nat → Cplx)) (hs : AllSurvive env n [r]) :
    read env (save env comments n [r]) = .error .touchstone := by
  obtain ⟨cs, hcs⟩ := add_saved env comments (fun r => (colOrder n r.2).flatMap fun z => [z.1, z.2]) [r]
    (save_survives hs)
  have hl : Line.len (r.1, (colOrder n r.2).flatMap fun z => [z.1, z.2]) = 2 * (n * n) + 1 := by
    unfold Line.len
    rw [flat_length, colOrder_length]
  have e : n ^ 2 = n * n := Nat.pow_two n
  have := C18_single_refuted n hn ((r.1, (colOrder n r.2).flatMap fun z => [z.1, z.2]), ([] : List (Line ℚ)))
    ⟨by rw [hl]; omega, by simp, by rw [hl, e]; simp [total]⟩
  unfold read save saveRow
  rw [hcs]
  simp only [List.map_cons, List.map_nil]
  simp only [lines, List.flatMap_cons, List.flatMap_nil, List.append_nil] at this
  rw [this]

/-! ### Concrete numbers -/

/-- Digits. -/
def exEnv : Env where
  fmt x := if x = 0 then ['0'] else if x = 1 then ['1'] else if x = 2 then ['2'] else if x = 3 then ['3']
    else if x = 4 then ['4'] else if x = 5 then ['5'] else ['6']
  parse w := if w = ['0'] then some 0 else if w = ['1'] then some 1 else if w = ['2'] then some 2
    else if w = ['3'] then some 3 else if w = ['4'] then some 4 else if w = ['5'] then some 5
    else if w = ['6'] then some 6 else if w = ['5', '0'] then some 50 else none
  dbAngle a b := (a, b)
  magAngle a b := (a, b)

theorem exEnv_survives (x : ℚ) (h : x ∈ [0, 1, 2, 3, 4, 5, 6]) : Survives exEnv x := by
  simp at h
  rcases h with rfl | rfl | rfl | rfl | rfl | rfl | rfl <;>
    exact ⟨⟨by decide +kernel, by decide +kernel⟩, by decide +kernel, by decide +kernel, by decide +kernel⟩

/-- A matrix that is not symmetric. -/
def exRow (f : ℚ) : ℚ × (Nat → Nat → Cplx) := (f, fun i j => if i = 0 ∧ j = 1 then (5, 6) else (3, 4))

theorem ex_survives (n : Nat) : AllSurvive exEnv n [exRow 1, exRow 2] := by
  intro r hr
  simp at hr
  rcases hr with rfl | rfl
  · refine ⟨exEnv_survives _ (by decide +kernel), fun i j _ _ => ?_⟩
    unfold exRow
    simp only
    split
    · exact ⟨exEnv_survives _ (by decide +kernel), exEnv_survives _ (by decide +kernel)⟩
    · exact ⟨exEnv_survives _ (by decide +kernel), exEnv_survives _ (by decide +kernel)⟩
  · refine ⟨exEnv_survives _ (by decide +kernel), fun i j _ _ => ?_⟩
    unfold exRow
    simp only
    split
    · exact ⟨exEnv_survives _ (by decide +kernel), exEnv_survives _ (by decide +kernel)⟩
    · exact ⟨exEnv_survives _ (by decide +kernel), exEnv_survives _ (by decide +kernel)⟩

theorem ex_inc : [exRow 1, exRow 2].Pairwise fun a b => a.1 < b.1 := by
  simp [exRow]

/-- The hypotheses of the round trip are met, for any number of ports. -/
example (n : Nat) (hn : 1 ≤ n) : ∃ b, read exEnv (save exEnv [['a']] n [exRow 1, exRow 2]) = .ok b ∧ b.ports = n := by
  obtain ⟨b, h1, -, -, h2, -⟩ := C19_roundtrip exEnv (by decide +kernel) [['a']] n hn [exRow 1, exRow 2] (by simp)
    ex_inc (ex_survives n)
  exact ⟨b, h1, h2⟩

/-- C19, violated: three-ports and larger are not read as they were saved. -/
theorem C19_transposed_refuted (n : Nat) (hn : 3 ≤ n) :
    ∃ b, read exEnv (save exEnv [] n [exRow 1, exRow 2]) = .ok b ∧
      b.elem 0 0 1 = some ((exRow 1).2 1 0) ∧ b.elem 0 0 1 ≠ some ((exRow 1).2 0 1) := by
  obtain ⟨b, h1, -, -, -, -, -, h2⟩ := C19_roundtrip exEnv (by decide +kernel) [] n (by omega) [exRow 1, exRow 2]
    (by simp) ex_inc (ex_survives n)
  have h3 := h2 0 0 1 (exRow 1) rfl (by omega) (by omega)
  rw [if_neg (by omega)] at h3
  refine ⟨b, h1, h3, ?_⟩
  rw [h3]
  decide +kernel

/-- C19, violated: a real four-port at six frequencies is read as a complex five-port at two. -/
theorem C19_real_refuted :
    ∃ b, read exEnv (saveReal exEnv [] 4 ((List.range 6).map fun (k : Nat) => ((k : ℚ) + 1, fun _ _ => (1, 0)))) = .ok b ∧
      b.ports = 5 ∧ b.freq = [1, 4] := by
  obtain ⟨rows, hrows⟩ : ∃ rows : List (ℚ × (Nat → Nat → Cplx)),
    rows = (List.range 6).map fun (k : Nat) => ((k : ℚ) + 1, fun _ _ => (1, 0)) := ⟨_, rfl⟩
  obtain ⟨cs, hcs⟩ := add_saved exEnv [] (fun r => (colOrder 4 r.2).map fun z => z.1) rows (by
    intro r hr y hy
    rw [hrows] at hr
    obtain ⟨k, hk, rfl⟩ := List.mem_map.1 hr
    have hk : k < 6 := by simpa using hk
    simp only [List.mem_cons] at hy
    rcases hy with rfl | hy
    · apply exEnv_survives
      interval_cases k <;> norm_num
    · obtain ⟨z, hz, rfl⟩ := List.mem_map.1 hy
      obtain ⟨i, j, -, -, rfl⟩ := colOrder_mem _ _ z hz
      exact exEnv_survives _ (by decide +kernel))
  rw [← hrows]
  unfold read saveReal saveRowReal
  rw [hcs]
  simp only
  have hp : processData (rows.map fun r => (r.1, (colOrder 4 r.2).map fun z => z.1)) =
      .ok ([((1 : ℚ), List.replicate 16 1 ++ 2 :: List.replicate 16 1 ++ 3 :: List.replicate 16 1),
        (4, List.replicate 16 1 ++ 5 :: List.replicate 16 1 ++ 6 :: List.replicate 16 1)], []) := by
    rw [hrows]
    decide +kernel
  rw [hp]
  have hw : words ((['H', 'Z', ' ', 'S', ' ', 'R', 'I', ' ', 'R', ' ', '5', '0'] : List Char).map Char.toUpper) =
      [['H', 'Z'], ['S'], ['R', 'I'], ['R'], ['5', '0']] := by decide +kernel
  simp only
  unfold procInfo
  rw [hw]
  simp only
  rw [show exEnv.parse ['5', '0'] = some 50 by decide +kernel]
  simp only
  rw [show freqMult.lookup ['H', 'Z'] = some 1 from rfl]
  simp only
  rw [show convFunc exEnv ['R', 'I'] = some fun a b => (a, b) from rfl]
  simp only
  exact ⟨_, rfl, by decide +kernel, by simp⟩

/-- C19, violated: frequencies in descending order are saved, but the file cannot be read. -/
theorem C19_descending_refuted :
    read exEnv (save exEnv [] 1 [exRow 2, exRow 1]) = .error .touchstone := by
  obtain ⟨cs, hcs⟩ := add_saved exEnv [] (fun r => (colOrder 1 r.2).flatMap fun z => [z.1, z.2]) [exRow 2, exRow 1]
    (save_survives (by
      have := ex_survives 1
      intro r hr
      exact this r (by simp at hr ⊢; tauto)))
  unfold read save saveRow
  rw [hcs]
  simp only
  have : processData ([exRow 2, exRow 1].map fun r => (r.1, (colOrder 1 r.2).flatMap fun z => [z.1, z.2])) =
      .error .touchstone := by decide +kernel
  rw [this]

end HF.Touchstone
