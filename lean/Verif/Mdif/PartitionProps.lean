import Verif.Mdif.ShortenProps
/-
C23: every column is used exactly once; examples and counterexamples.
-/

namespace HF.Mdif

open HF.DataDict.Spec
open DataBlock (dec)

variable {K X : Type} [DecidableEq K]

/-- All entries of a collection. -/
def entries (m : OMap K (List X)) : List (K × X) := m.flatMap fun p => p.2.map fun x => (p.1, x)

theorem entries_modify (m : OMap K (List X)) (k : K) (l : List X) (x : X) (hnd : (m.map Prod.fst).Nodup)
    (h : lookup m k = some l) : (entries (DataDict.Spec.modify m k (l ++ [x]))).Perm (entries m ++ [(k, x)]) := by
  induction m with
  | nil => cases h
  | cons p m ih =>
    rw [List.map_cons, List.nodup_cons] at hnd
    unfold DataDict.Spec.modify entries at *
    rw [List.map_cons, List.flatMap_cons, List.flatMap_cons]
    by_cases e : p.1 = k
    · have hl : p.2 = l := by
        unfold lookup at h
        rw [List.find?_cons] at h
        simpa [e] using h
      have hm : (m.map fun p => if p.1 = k then (k, l ++ [x]) else p) = m := by
        conv_rhs => rw [← List.map_id m]
        apply List.map_congr_left
        intro q hq
        rw [if_neg]
        · rfl
        · intro e'
          exact hnd.1 (List.mem_map.2 ⟨q, hq, by rw [e', e]⟩)
      rw [hm, if_pos e]
      simp only [List.map_append, List.map_cons, List.map_nil, e, hl]
      rw [List.append_assoc, List.append_assoc]
      exact List.Perm.append_left _ List.perm_append_comm
    · have h' : lookup m k = some l := by
        unfold lookup at h ⊢
        rw [List.find?_cons] at h
        simpa [e] using h
      rw [if_neg e, List.append_assoc]
      exact List.Perm.append_left _ (ih hnd.2 h')

theorem entries_push (m : OMap K (List X)) (k : K) (x : X) (hnd : (m.map Prod.fst).Nodup) :
    (entries (push m k x)).Perm (entries m ++ [(k, x)]) := by
  unfold push
  cases h : lookup m k with
  | none => simp [entries]
  | some l => exact entries_modify m k l x hnd h

theorem entries_collect (l : List (K × X)) : (entries (collect l)).Perm l := by
  have key : ∀ (l : List (K × X)) (m : OMap K (List X)), (m.map Prod.fst).Nodup →
      (entries (l.foldl (fun m p => push m p.1 p.2) m)).Perm (entries m ++ l) := by
    intro l
    induction l with
    | nil => intro m _; simp
    | cons p l ih =>
      intro m hnd
      rw [List.foldl_cons]
      refine (ih _ (nodup_push m p.1 p.2 hnd)).trans ?_
      refine ((entries_push m p.1 p.2 hnd).append_right l).trans ?_
      simp
  exact (key l [] (by simp)).trans (by simp [entries])

/-- The columns that the code uses, with name, offset and type: those of matrices, of vectors, and the others. -/
def used (f : Found) : List (List Char × Nat × List Char) :=
  (f.matrix.flatMap fun p => p.2.map fun e => (p.1, e.1, e.2.2.2)) ++
  (f.vector.flatMap fun p => p.2.map fun e => (p.1, e.1, e.2.2)) ++ f.scalar

theorem flatMap_filter_perm {δ ε : Type} (P : δ → Bool) (f : δ → List ε) (l : List δ) :
    ((l.filter P).flatMap f ++ (l.filter fun x => !P x).flatMap f).Perm (l.flatMap f) := by
  rw [← List.flatMap_append]
  exact (List.filter_append_perm P l).flatMap_right f

theorem split_columns (cols : List Column) :
    ((cols.filterMap matEntry).map (fun e => (e.1, e.2.1, e.2.2.2.2)) ++
      ((cols.filterMap vecEntry).map (fun e => (e.1, e.2.1, e.2.2.2)) ++ cols.filterMap scalarEntry)).Perm
      (cols.map fun c => (c.name, c.offset, c.type)) := by
  induction cols with
  | nil => simp
  | cons c cols ih =>
    obtain ⟨n, i, o, t⟩ := c
    rw [List.map_cons]
    cases i with
    | mat i j =>
      simp only [List.filterMap_cons, matEntry, vecEntry, scalarEntry, List.map_cons, List.cons_append]
      exact ih.cons _
    | vec i =>
      simp only [List.filterMap_cons, matEntry, vecEntry, scalarEntry, List.map_cons, List.cons_append]
      exact List.perm_middle.trans (ih.cons _)
    | scalar =>
      simp only [List.filterMap_cons, matEntry, vecEntry, scalarEntry, List.map_cons]
      refine (List.Perm.append_left _ List.perm_middle).trans ?_
      exact List.perm_middle.trans (ih.cons _)

theorem used_perm (header : List (List Char)) :
    (used (matchNames header)).Perm ((columnsFrom 0 header).map fun c => (c.name, c.offset, c.type)) := by
  refine List.Perm.trans ?_ (split_columns (columnsFrom 0 header))
  unfold used matchNames
  simp only
  obtain ⟨cols, hcols⟩ : ∃ cols, cols = columnsFrom 0 header := ⟨_, rfl⟩
  rw [← hcols]
  have h1 := flatMap_filter_perm (fun p => isMatrix p.2)
    (fun p : List Char × List MatEntry => p.2.map fun e => (p.1, e.1, e.2.2.2)) (collect (cols.filterMap matEntry))
  have h2 := flatMap_filter_perm (fun p => isVector p.2)
    (fun p : List Char × List VecEntry => p.2.map fun e => (p.1, e.1, e.2.2)) (collect (cols.filterMap vecEntry))
  have h3 : ((collect (cols.filterMap matEntry)).flatMap fun p => p.2.map fun e => (p.1, e.1, e.2.2.2)).Perm
      ((cols.filterMap matEntry).map fun e => (e.1, e.2.1, e.2.2.2.2)) := by
    have := (entries_collect (cols.filterMap matEntry)).map fun e => (e.1, e.2.1, e.2.2.2.2)
    refine List.Perm.trans ?_ this
    unfold entries
    rw [List.map_flatMap]
    simp only [List.map_map]
    exact List.Perm.refl _
  have h4 : ((collect (cols.filterMap vecEntry)).flatMap fun p => p.2.map fun e => (p.1, e.1, e.2.2)).Perm
      ((cols.filterMap vecEntry).map fun e => (e.1, e.2.1, e.2.2.2)) := by
    have := (entries_collect (cols.filterMap vecEntry)).map fun e => (e.1, e.2.1, e.2.2.2)
    refine List.Perm.trans ?_ this
    unfold entries
    rw [List.map_flatMap]
    simp only [List.map_map]
    exact List.Perm.refl _
  refine List.Perm.trans ?_ (List.Perm.append (h1.trans h3) (List.Perm.append (h2.trans h4) (List.Perm.refl _)))
  rw [List.perm_iff_count]
  intro a
  simp only [List.count_append]
  omega

/-- The number of columns of numbers that belong to an entry of the header: a complex number is written as two
numbers; the type may be written with capitals. -/
def headWidth (s : List Char) : Nat :=
  match parseHead s with
  | some (_, _, t) => if t.map Char.toLower = "complex".toList then 2 else 1
  | none => 0

theorem columnsFrom_eq (header : List (List Char)) (hv : ∀ s ∈ header, (parseHead s).isSome) : ∀ off,
    (columnsFrom off header).map (fun c => (c.name, c.offset, c.type)) =
      (List.range header.length).filterMap fun k =>
        match header[k]?.bind parseHead with
        | some (n, _, t) => some (n, off + ((header.take k).map headWidth).sum, t)
        | none => none := by
  induction header with
  | nil => intro off; rfl
  | cons s t ih =>
    intro off
    have hs := hv s (by simp)
    obtain ⟨⟨n, i, ty⟩, h⟩ := Option.isSome_iff_exists.1 hs
    have hw : headWidth s = width ty := by simp only [headWidth, h]; rfl
    rw [List.length_cons, List.range_succ_eq_map, List.filterMap_cons, List.filterMap_map]
    simp only [columnsFrom, h, List.getElem?_cons_zero, Option.bind_some, List.take_zero, List.map_nil, List.sum_nil,
      Nat.add_zero, List.map_cons]
    rw [ih (fun s hs => hv s (by simp [hs]))]
    congr 1
    apply List.filterMap_congr
    intro k _
    simp only [Function.comp, List.getElem?_cons_succ, List.take_succ_cons, List.map_cons, List.sum_cons, hw]
    cases t[k]?.bind parseHead with
    | none => rfl
    | some r => simp only [Nat.add_assoc]

/-- C23: when all names in the header are valid, every column is used exactly once: as an element of a matrix, of a
vector, or on its own; and its numbers are those at its place in the line (complex columns take two). -/
theorem C23_partition (header : List (List Char)) (hv : ∀ s ∈ header, (parseHead s).isSome) :
    (used (matchNames header)).Perm ((List.range header.length).filterMap fun k =>
      match header[k]?.bind parseHead with
      | some (n, _, t) => some (n, ((header.take k).map headWidth).sum, t)
      | none => none) := by
  refine (used_perm header).trans ?_
  rw [columnsFrom_eq header hv 0]
  simp only [Nat.zero_add]
  exact List.Perm.refl _

/-! ### Examples -/

/-- `S[1,1](complex) S[1,2](complex) f(real) S[2,1](complex) S[2,2](complex) V[2](real) V[1](real) W[2](real)` -/
def header1 : List (List Char) :=
  [['S', '[', '1', ',', '1', ']', '(', 'c', 'o', 'm', 'p', 'l', 'e', 'x', ')'],
   ['S', '[', '1', ',', '2', ']', '(', 'c', 'o', 'm', 'p', 'l', 'e', 'x', ')'],
   ['f', '(', 'r', 'e', 'a', 'l', ')'],
   ['S', '[', '2', ',', '1', ']', '(', 'c', 'o', 'm', 'p', 'l', 'e', 'x', ')'],
   ['S', '[', '2', ',', '2', ']', '(', 'c', 'o', 'm', 'p', 'l', 'e', 'x', ')'],
   ['V', '[', '2', ']', '(', 'r', 'e', 'a', 'l', ')'],
   ['V', '[', '1', ']', '(', 'r', 'e', 'a', 'l', ')'],
   ['W', '[', '2', ']', '(', 'r', 'e', 'a', 'l', ')']]

def vars1 : OMap (List Char) (Val Nat) :=
  [(['S', '[', '1', ',', '1', ']'], .column [11, 110]), (['S', '[', '1', ',', '2', ']'], .column [12, 120]),
   (['f'], .column [1, 2]), (['S', '[', '2', ',', '1', ']'], .column [21, 210]),
   (['S', '[', '2', ',', '2', ']'], .column [22, 220]), (['V', '[', '2', ']'], .column [2, 20]),
   (['V', '[', '1', ']'], .column [1, 10]), (['W', '[', '2', ']'], .column [5, 6])]

example : ∀ s ∈ header1, (parseHead s).isSome := by decide +kernel

theorem pairs1 : pairsOf header1 ['S'] = [(1, 1), (1, 2), (2, 1), (2, 2)] := by decide +kernel

example : (pairsOf header1 ['S']).Nodup := by rw [pairs1]; decide

theorem isMat1 : IsMat header1 ['S'] 2 2 := by
  refine ⟨by omega, by omega, fun i j => ?_⟩
  rw [pairs1]
  simp
  omega

theorem isVec1 : IsVec header1 ['V'] 2 := ⟨by omega, by
  have : indsOf header1 ['V'] = [2, 1] := by decide +kernel
  rw [this]
  decide⟩

theorem pairs_name {header : List (List Char)} {n : List Char} (names : List (List Char))
    (h : ∀ s ∈ header, ∀ r, parseHead s = some r → r.1 ∈ names) (hn : n ∉ names) :
    pairsOf header n = [] ∧ indsOf header n = [] := by
  constructor
  · unfold pairsOf
    rw [List.filterMap_eq_nil_iff]
    intro s hs
    split
    · rename_i m i j t e
      rw [if_neg]
      rintro rfl
      exact hn (h s hs _ e)
    · rfl
  · unfold indsOf
    rw [List.filterMap_eq_nil_iff]
    intro s hs
    split
    · rename_i m i t e
      rw [if_neg]
      rintro rfl
      exact hn (h s hs _ e)
    · rfl

theorem names1 : ∀ s ∈ header1, ∀ r, parseHead s = some r → r.1 ∈ [['S'], ['f'], ['V'], ['W']] := by
  have : (header1.all fun s => match parseHead s with
    | some r => [['S'], ['f'], ['V'], ['W']].contains r.1
    | none => true) = true := by decide +kernel
  intro s hs r hr
  have := List.all_eq_true.1 this s hs
  rw [hr] at this
  simpa using this

theorem pairs1_other {n : List Char} (h : n ≠ ['S']) : pairsOf header1 n = [] := by
  by_cases h2 : n ∈ [['S'], ['f'], ['V'], ['W']]
  · simp only [List.mem_cons, List.not_mem_nil, or_false] at h2
    rcases h2 with rfl | rfl | rfl | rfl
    · exact absurd rfl h
    · decide +kernel
    · decide +kernel
    · decide +kernel
  · exact (pairs_name _ names1 h2).1

theorem inds1 (n : List Char) : indsOf header1 n = if n = ['V'] then [2, 1] else if n = ['W'] then [2] else [] := by
  by_cases h2 : n ∈ [['S'], ['f'], ['V'], ['W']]
  · simp only [List.mem_cons, List.not_mem_nil, or_false] at h2
    rcases h2 with rfl | rfl | rfl | rfl
    · decide +kernel
    · decide +kernel
    · decide +kernel
    · decide +kernel
  · rw [(pairs_name _ names1 h2).2, if_neg, if_neg]
    · rintro rfl; exact h2 (by decide)
    · rintro rfl; exact h2 (by decide)

/-- The hypotheses of `C23_assembled` hold for a file with a matrix, a vector, and an incomplete vector. -/
theorem ready1 : Ready vars1 header1 2 := by
  refine ⟨?_, ?_, ?_, ?_⟩
  · intro n
    by_cases h : n = ['S']
    · rw [h, pairs1]; decide
    · rw [pairs1_other h]; simp
  · intro n i j hij
    by_cases h : n = ['S']
    · rw [h, pairs1] at hij
      subst h
      simp only [List.mem_cons, Prod.mk.injEq, List.not_mem_nil, or_false] at hij
      rcases hij with ⟨rfl, rfl⟩ | ⟨rfl, rfl⟩ | ⟨rfl, rfl⟩ | ⟨rfl, rfl⟩
      · exact ⟨[11, 110], by decide +kernel, rfl⟩
      · exact ⟨[12, 120], by decide +kernel, rfl⟩
      · exact ⟨[21, 210], by decide +kernel, rfl⟩
      · exact ⟨[22, 220], by decide +kernel, rfl⟩
    · rw [pairs1_other h] at hij
      simp at hij
  · intro n i hi
    rw [inds1] at hi
    by_cases h : n = ['V']
    · subst h
      simp only [if_true, List.mem_cons, List.not_mem_nil, or_false] at hi
      rcases hi with rfl | rfl
      · exact ⟨[2, 20], by decide +kernel, rfl⟩
      · exact ⟨[1, 10], by decide +kernel, rfl⟩
    · rw [if_neg h] at hi
      by_cases h : n = ['W']
      · subst h
        simp only [if_true, List.mem_cons, List.not_mem_nil, or_false] at hi
        subst hi
        exact ⟨[5, 6], by decide +kernel, rfl⟩
      · rw [if_neg h] at hi
        simp at hi
  · intro n p q k hM hV
    by_cases h : n = ['S']
    · have := (hV.2.mem_iff (a := 1)).2 (by rw [List.mem_range'_1]; have := hV.1; omega)
      rw [inds1, h] at this
      simp at this
    · have := (hM.2.2 1 1).2 ⟨⟨Nat.le_refl 1, hM.1⟩, Nat.le_refl 1, hM.2.1⟩
      rw [pairs1_other h] at this
      simp at this

example : makeMatrices vars1 header1 = .ok
    [(['S'], .matrix 2 2 [[11, 110], [12, 120], [21, 210], [22, 220]]), (['f'], .column [1, 2]),
     (['V'], .vector [[1, 10], [2, 20]]), (['W', '[', '2', ']'], .column [5, 6])] := by
  decide +kernel

/-- C23, counterexample: when an element is given twice, another may be missing. -/
theorem C23_twice_refuted : ∃ header : List (List Char), ['S'] ∈ (matchNames header).matrix.map Prod.fst ∧
    (2, 2) ∈ pairsOf header ['S'] ∧ (2, 1) ∉ pairsOf header ['S'] :=
  ⟨[['S', '[', '1', ',', '1', ']', '(', 'r', ')'], ['S', '[', '1', ',', '1', ']', '(', 'r', ')'],
    ['S', '[', '1', ',', '2', ']', '(', 'r', ')'], ['S', '[', '2', ',', '2', ']', '(', 'r', ')']],
    by decide +kernel⟩

/-- C23, counterexample: an index with a leading zero is recognised, but its column is not found. -/
theorem C23_zero_refuted : ∃ (header : List (List Char)) (vars : OMap (List Char) (Val Nat)),
    header = vars.map (fun p => p.1 ++ ['(', 'r', ')']) ∧ makeMatrices vars header = .error .key :=
  ⟨[['V', '[', '0', '1', ']', '(', 'r', ')']], [(['V', '[', '0', '1', ']'], .column [1])], by decide +kernel⟩

/-- C23, counterexample: a variable that has the name of the matrix is lost. -/
theorem C23_overwrite_refuted : ∃ (header : List (List Char)) (vars vars' : OMap (List Char) (Val Nat)),
    header = vars.map (fun p => p.1 ++ ['(', 'r', ')']) ∧ makeMatrices vars header = .ok vars' ∧
    lookup vars ['S'] = some (.column [7]) ∧ ∀ p ∈ vars', p.2 ≠ .column [7] :=
  ⟨[['S', '(', 'r', ')'], ['S', '[', '1', ',', '1', ']', '(', 'r', ')']],
    [(['S'], .column [7]), (['S', '[', '1', ',', '1', ']'], .column [1])],
    [(['S'], .matrix 1 1 [[1]])], by decide +kernel⟩

/-- C23, counterexample: a name that is not valid shifts the columns after it. -/
theorem C23_shift_refuted : ∃ header : List (List Char), header[1]? = some ['x', '(', 'r', ')'] ∧
    (['x'], 0, ['r']) ∈ (matchNames header).scalar :=
  ⟨[['b'], ['x', '(', 'r', ')']], by decide +kernel⟩

/-- C23, counterexample: taking `.m` away may overwrite another variable. -/
theorem C23_suffix_refuted : ∃ m m' : OMap (List Char) Nat, (m.map Prod.fst).Nodup ∧ fixnames m = m' ∧
    (∀ p ∈ m, ends 's' p.1 = false) ∧ m'.length < m.length :=
  ⟨[(['a', '.', 'm'], 1), (['a'], 2)], [(['a'], 1)], by decide +kernel⟩

/-- C23, counterexample: the same with a variable whose name has been shortened before. -/
theorem C23_shortened_refuted : ∃ m m' : OMap (List Char) Nat, (m.map Prod.fst).Nodup ∧ fixnames m = m' ∧
    (∀ p ∈ m, ends 's' p.1 = false) ∧ (∀ v ∈ m.map Prod.fst, ∀ w ∈ m.map Prod.fst, cut2 v ≠ w) ∧
    m'.length < m.length :=
  ⟨[(['x', '.', 'a'], 1), (['a', '.', 'm'], 2)], [(['a'], 2)], by decide +kernel⟩

/-- Names that meet the hypotheses of `C23_fixnames`. -/
def m1 : OMap (List Char) Nat :=
  [(['x', '.', 'a'], 1), (['y', '.', 'a'], 2), (['x', '.', 'b', '.', 'm'], 3), (['x', '.', 'b', '.', 's'], 4), (['c'], 5)]

theorem isTail_decide (t s : List Char) : IsTail t s ↔ t ∈ candidates s := (mem_candidates s t).symm

example : Clear (m1.map Prod.fst) := by
  unfold Clear
  simp only [isTail_decide]
  decide +kernel

example : fixnames m1 = [(['a'], 1), (['y', '.', 'a'], 2), (['b'], 3), (['c'], 5)] := by decide +kernel

example : (shorten m1 ['x', '.', 'a']).2 = ['a'] := by decide +kernel

end HF.Mdif
