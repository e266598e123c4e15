import Verif.Touchstone.StepsProps
/-
C84: saving a matrix and reading it with all steps of the reader.
-/
namespace HF.Touchstone

open DataBlock (isMatrixName MatStack keys lookup_key)
open HF.DataDict.Spec
open HF.Readers HF.Readers.Treat
open HF.Readers.FixUnit (UBlock)
open HF.Readers.Normalize (trtable label)
open Text

variable {β α : Type}

theorem info_option (env : Env) (h50 : env.parse ['5', '0'] = some 50) :
    IsOption env ['H', 'Z', ' ', 'S', ' ', 'R', 'I', ' ', 'R', ' ', '5', '0'] 1 ['S'] (fun a b => (a, b)) 50 := by
  refine ⟨['H', 'Z'], ['S'], ['R', 'I'], [['R'], ['5', '0']], (words_iff _ _).1 (by decide +kernel), ⟨[], by simp [prefixes], ?_⟩,
    ⟨'s', by simp, ?_, by decide⟩, Or.inl ⟨?_, rfl⟩, Or.inr ⟨_, _, rfl, ?_⟩⟩
  · exact .cons (Or.inr (by decide)) (.cons (Or.inr (by decide)) .nil)
  · exact .cons (Or.inr (by decide)) .nil
  · exact .cons (Or.inr (by decide)) (.cons (Or.inr (by decide)) .nil)
  · exact h50

theorem comments_append (a b : List Item) : comments (a ++ b) = comments a ++ comments b := List.filterMap_append
theorem options_append (a b : List Item) : options (a ++ b) = options a ++ options b := List.filterMap_append
theorem dataLines_append (a b : List Item) : dataLines (a ++ b) = dataLines a ++ dataLines b := List.filterMap_append

theorem items_comments (cs : List (List Char)) : comments (cs.map Item.comment) = cs ∧ options (cs.map Item.comment) = [] ∧
    dataLines (cs.map Item.comment) = [] := by
  unfold comments options dataLines
  simp [List.filterMap_map, Function.comp_def]

theorem items_data (l : List (Line ℚ)) : comments (l.map Item.data) = [] ∧ options (l.map Item.data) = [] ∧
    dataLines (l.map Item.data) = l := by
  unfold comments options dataLines
  simp [List.filterMap_map, Function.comp_def]

/-- C84: a complex `n`-port matrix over two or more increasing frequencies that is saved and read again: the same
frequencies in hertz and the same numbers, transposed from three ports on.  `Z0` is 50 ohms whatever it was.  Comments
and scalar variables, of which `comments` are the texts, come back as the properties they are taken for. -/
theorem C84_roundtrip (fenv : Env) (h50 : fenv.parse ['5', '0'] = some 50) (env : DataBlock.Env β α) (V : Vals β α) (S : Steps β α)
    (htab : S.table.Perm trtable) (hcast : ∀ c c' : Arr β α, c.nd = c'.nd → S.cast c = S.cast c')
    (texts cs : List (List Char)) (hc : List.Forall₂ Trim texts cs) (n : Nat) (hn : 1 ≤ n)
    (rows : List (ℚ × (Nat → Nat → Cplx))) (hF : 2 ≤ rows.length) (hinc : rows.Pairwise fun a b => a.1 < b.1)
    (hs : AllSurvive fenv n rows)
    (hq : QuietProps S.ofProp (fileVars ['S'] false) (fileDims false) (Comments.properties cs)) :
    ∃ r a d di dj, block fenv env V S (save fenv texts n rows) = .ok r ∧
      lookup r.blk.vars "S" = some a ∧ lookup r.blk.ivars "freq" = some d ∧
      label d = ⟨"freq", .dimSweep, rows.map (fun r => V.coord r.1), some "Hz"⟩ ∧
      MatStack a [d] di dj [rows.length] n n ∧
      (∀ k i j r, rows[k]? = some r → i < n → j < n →
        a.nd.get [k, i, j] = V.cplx (if n ≤ 2 then r.2 i j else r.2 j i)) ∧
      lookup r.blk.vars "Z0" = some ⟨[], ⟨[], fun _ => V.real 50⟩⟩ ∧ r.units "Z0" = some "Ohm" ∧
      ∀ p ∈ givenOf S.ofProp (fileVars ['S'] false ++ fileDims false) (Comments.properties cs),
        ∃ x, S.ofProp p.2 = some x ∧
          lookup r.blk.vars (canon (namesOf S.ofProp (fileVars ['S'] false) (fileDims false) (Comments.properties cs)) p.1) =
            some ⟨[], ⟨[], fun _ => x⟩⟩ := by
  obtain ⟨b, h1, h2, h3, h4, h5, h6, h7⟩ := C19_roundtrip fenv h50 texts n hn rows hF hinc hs
  have hown : ownFreqs b = false := by unfold ownFreqs; rw [h5]
  have hsays : List.Forall₂ (Says fenv) (save fenv texts n rows) (cs.map Item.comment ++
      Item.option ['H', 'Z', ' ', 'S', ' ', 'R', 'I', ' ', 'R', ' ', '5', '0'] ::
      (rows.map fun r => ((r.1, (colOrder n r.2).flatMap fun z => [z.1, z.2]) : Line ℚ)).map Item.data) := by
    unfold save
    refine List.rel_append ?_ (.cons ?_ ?_)
    · rw [List.forall₂_map_left_iff, List.forall₂_map_right_iff]
      exact hc.imp fun t c h => .comment [] t c (by simp [Blank]) h
    · refine .option [] _ _ 1 _ _ 50 (by simp [Blank]) ?_ (info_option fenv h50)
      exact (strip_iff _ _).1 (by decide +kernel)
    · rw [List.map_map, List.forall₂_map_left_iff, List.forall₂_map_right_iff, List.forall₂_same]
      intro r hr
      exact says_row fenv _ _ (save_survives hs r hr)
  have hopt : options (cs.map Item.comment ++
      Item.option ['H', 'Z', ' ', 'S', ' ', 'R', 'I', ' ', 'R', ' ', '5', '0'] ::
      (rows.map fun r => ((r.1, (colOrder n r.2).flatMap fun z => [z.1, z.2]) : Line ℚ)).map Item.data) =
      [['H', 'Z', ' ', 'S', ' ', 'R', 'I', ' ', 'R', ' ', '5', '0']] := by
    rw [options_append, (items_comments cs).2.1, List.nil_append]
    exact congrArg (_ :: ·) (items_data _).2.1
  have hcom : comments (cs.map Item.comment ++
      Item.option ['H', 'Z', ' ', 'S', ' ', 'R', 'I', ' ', 'R', ' ', '5', '0'] ::
      (rows.map fun r => ((r.1, (colOrder n r.2).flatMap fun z => [z.1, z.2]) : Line ℚ)).map Item.data) = cs := by
    rw [comments_append, (items_comments cs).1]
    have : comments (Item.option ['H', 'Z', ' ', 'S', ' ', 'R', 'I', ' ', 'R', ' ', '5', '0'] ::
      (rows.map fun r => ((r.1, (colOrder n r.2).flatMap fun z => [z.1, z.2]) : Line ℚ)).map Item.data) = [] := (items_data _).1
    rw [this, List.append_nil]
  have hl := C64_lines fenv _ _ hsays _ hopt
  rw [hcom] at hl
  obtain ⟨r, r1, r2⟩ := steps_block fenv env V S htab hcast _ _ b hl h1 (by rw [h2]; simp [kindsOfPar])
    (by rw [h2, h5, hown]; exact hq)
  obtain ⟨a, d, di, dj, m1, m2, m3, m4, m5, -, -, m8, m9⟩ := r2.matrix
  have hz := r2.z0
  have hp := r2.property
  rw [h2] at m1
  rw [h3, List.map_map] at m5
  rw [h3, h4, List.length_map] at m8
  rw [h2, h5, hown] at hp
  rw [h6] at hz
  refine ⟨r, a, d, di, dj, r1, m1, m2, m5, m8, ?_, hz.1, hz.2, ?_⟩
  · intro k i j q hk hi hj
    exact m9 k i j _ (h7 k i j q hk hi hj)
  · intro p hp'
    obtain ⟨x, x1, x2, -⟩ := hp p hp'
    exact ⟨x, x1, x2⟩

end HF.Touchstone
