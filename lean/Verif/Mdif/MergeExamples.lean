import Verif.Mdif.FilesProps
import Verif.Mdif.MergeSaved
import Verif.Mdif.WriteExamples
/-
C67: blocks that are put together, and witnesses.
-/
namespace HF.Mdif

open HF.DataDict.Spec HF.DataBlock
open HF.DataDict hiding rename delitem

/-- A block with a setting `t`, a column `x` over `f` and a number `a`. -/
def cell1 (f : List Nat) (t u : Nat) : Block Nat Nat :=
  { vars := [("x", ⟨[⟨.dimSweep, "f", f, none, none⟩], ⟨[2], fun i => u + i.getD 0 0⟩⟩), ("a", ⟨[], ⟨[], fun _ => u⟩⟩)],
    ivars := [("t", ⟨.dimPartial, "t", [t], none, none⟩), ("f", ⟨.dimSweep, "f", f, none, none⟩)] }

theorem cell1_settings (f : List Nat) (t u : Nat) : settingNames (cell1 f t u) = ["t"] := by
  unfold settingNames cell1
  have h1 : (⟨.dimPartial, "t", [t], none, none⟩ : Dim Nat).isa .dimPartial = true := by
    show Cls.isSub .dimPartial .dimPartial = true
    decide +kernel
  have h2 : (⟨.dimSweep, "f", f, none, none⟩ : Dim Nat).isa .dimPartial = false := by
    show Cls.isSub .dimSweep .dimPartial = false
    decide +kernel
  simp [h1, h2]

theorem cell1_stack (f : List Nat) (t u : Nat) (bs : List (Block Nat Nat)) (h : ∀ b ∈ bs, ∃ f t u, b = cell1 f t u) :
    Stackable (cell1 f t u) bs := by
  have hall : ∀ b ∈ cell1 f t u :: bs, ∃ f t u, b = cell1 f t u := by
    intro b hb
    rcases List.mem_cons.1 hb with rfl | hb
    · exact ⟨_, _, _, rfl⟩
    · exact h b hb
  have hn : (cell1 f t u).vars.map Prod.fst ++ settingNames (cell1 f t u) = ["x", "a", "t"] := by
    rw [cell1_settings]
    rfl
  refine ⟨?_, ?_, ?_, ?_, ?_, ?_, ?_, ?_⟩
  · intro b hb n x0 hx0
    obtain ⟨f', t', u', rfl⟩ := h b hb
    have hm := lookup_mem hx0
    simp only [cell1, List.mem_cons, Prod.mk.injEq, List.not_mem_nil, or_false] at hm
    rcases hm with ⟨rfl, rfl⟩ | ⟨rfl, rfl⟩
    · exact ⟨_, rfl, rfl⟩
    · exact ⟨_, rfl, rfl⟩
  · intro b hb n hn
    obtain ⟨f', t', u', rfl⟩ := hall b hb
    simp only [cell1, List.map_cons, List.map_nil, List.mem_cons, List.not_mem_nil, or_false] at hn ⊢
    rcases hn with rfl | rfl <;> decide
  · intro b hb k hk
    obtain ⟨f', t', u', rfl⟩ := hall b hb
    rw [cell1_settings, List.mem_singleton] at hk
    subst hk
    exact ⟨_, rfl, by simp⟩
  · intro p hp
    simp only [cell1, List.mem_cons, List.not_mem_nil, or_false] at hp
    rcases hp with rfl | rfl
    · exact ⟨rfl, by simp⟩
    · exact ⟨rfl, by simp⟩
  · rw [hn]
    decide +kernel
  · intro p hp d hd
    rw [hn]
    simp only [cell1, List.mem_cons, List.not_mem_nil, or_false] at hp
    rcases hp with rfl | rfl
    · simp only [List.mem_cons, List.not_mem_nil, or_false] at hd
      subst hd
      exact ⟨by simp, by simp⟩
    · cases hd
  · rw [hn]
    decide
  · rw [hn]
    intro n hn m i j hm
    have h0 : isMatrixName n = none := by
      simp only [List.mem_cons, List.not_mem_nil, or_false] at hn
      rcases hn with rfl | rfl | rfl <;> decide +kernel
    rw [h0] at hm
    cases hm

theorem cell1_fresh (f : List Nat) (t u : Nat) : Fresh (cell1 f t u) where
  vars := by simp [cell1]
  ivars := by simp [cell1]
  dims := by
    intro p hp d hd
    simp only [cell1, List.mem_cons, List.not_mem_nil, or_false] at hp
    rcases hp with rfl | rfl
    · simp only [List.mem_cons, List.not_mem_nil, or_false] at hd
      subst hd
      exact ⟨by simp, by simp⟩
    · cases hd
  elems := by
    intro n hn m i j hm
    have h0 : isMatrixName n = none := by
      rw [cell1_settings] at hn
      simp only [cell1, List.map_cons, List.map_nil, List.cons_append, List.nil_append, List.mem_cons,
        List.not_mem_nil, or_false] at hn
      rcases hn with rfl | rfl | rfl <;> decide +kernel
    rw [h0] at hm
    cases hm

/-- `C67_merge` applies: the values of the second block are at the second index. -/
example : ∃ r, simpleMerge envN id [⟨cell1 [1, 2] 7 10, [['c']]⟩, ⟨cell1 [1, 2] 8 20, []⟩] = .ok r ∧
    (∃ a, lookup r.block.vars "x" = some a ∧ a.nd.shape = [2, 2] ∧ a.nd.get [1, 1] = 21) ∧
    ∃ a, lookup r.block.vars "t" = some a ∧ a.nd.get [1] = 8 := by
  obtain ⟨r, h1, h2, -⟩ := C67_merge envN id ⟨cell1 [1, 2] 7 10, [['c']]⟩ ⟨cell1 [1, 2] 8 20, []⟩ []
    (cell1_stack _ _ _ _ (by simp only [List.map_cons, List.map_nil, List.mem_singleton]; rintro b rfl; exact ⟨_, _, _, rfl⟩))
  refine ⟨r, h1, ?_, ?_⟩
  · obtain ⟨a, a1, -, a3, a4⟩ := h2.columns "x" _ _ _ rfl rfl
    exact ⟨a, a1, a3 _ _ rfl, a4 1 _ _ rfl rfl 1 [] rfl⟩
  · obtain ⟨a, a1, -, -, a4⟩ := h2.settings "t" (by rw [cell1_settings]; simp)
    exact ⟨a, a1, a4 1 _ _ _ rfl rfl rfl⟩

/-- C67: the coordinates of the later blocks get lost, also when they are other ones. -/
theorem C67_grid_refuted : ∃ (b0 b1 : Block Nat Nat) (r : Commented Nat Nat) (a : Arr Nat Nat),
    simpleMerge envN id [⟨b0, []⟩, ⟨b1, []⟩] = .ok r ∧
    (lookup b0.ivars "f").map Dim.data = some [1, 2] ∧ (lookup b1.ivars "f").map Dim.data = some [3, 4] ∧
    lookup r.block.vars "x" = some a ∧ a.dims.map Dim.data = [[1, 2], [0, 1]] ∧
    (lookup r.block.ivars "f").map Dim.data = some [1, 2] := by
  obtain ⟨r, h1, h2, -⟩ := C67_merge envN id ⟨cell1 [1, 2] 7 10, []⟩ ⟨cell1 [3, 4] 8 20, []⟩ []
    (cell1_stack _ _ _ _ (by simp only [List.map_cons, List.map_nil, List.mem_singleton]; rintro b rfl; exact ⟨_, _, _, rfl⟩))
  obtain ⟨a, a1, a2, -, -⟩ := h2.columns "x" _ _ _ rfl rfl
  refine ⟨_, _, r, a, h1, rfl, rfl, a1, by rw [a2]; rfl, ?_⟩
  rw [h2.ivars "f" (by decide)]
  rfl

/-- C67: a variable that the first block does not have gets lost. -/
theorem C67_later_refuted : ∃ (b0 b1 : Block Nat Nat) (r : Commented Nat Nat),
    simpleMerge envN id [⟨b0, []⟩, ⟨b1, []⟩] = .ok r ∧ (lookup b1.vars "y").isSome ∧ lookup r.block.vars "y" = none := by
  refine ⟨⟨[("x", ⟨[], ⟨[], fun _ => 1⟩⟩)], [], none⟩, ⟨[("x", ⟨[], ⟨[], fun _ => 2⟩⟩), ("y", ⟨[], ⟨[], fun _ => 3⟩⟩)], [], none⟩,
    _, rfl, rfl, rfl⟩

/-- C67: a variable that a later block does not have: the whole file cannot be read. -/
theorem C67_missing_refuted : ∃ (b0 b1 : Block Nat Nat), simpleMerge envN id [⟨b0, []⟩, ⟨b1, []⟩] = .error .keyError :=
  ⟨⟨[("x", ⟨[], ⟨[], fun _ => 1⟩⟩)], [], none⟩, ⟨[("y", ⟨[], ⟨[], fun _ => 2⟩⟩)], [], none⟩, rfl⟩

/-- C67: there is no error if no block has the name asked for. -/
theorem C67_name_refuted {β α σ : Type} [DecidableEq β] (env : Env β α) (ofIdx : Nat → β) (ofName : String → α)
    (blocksOf : σ → Except FileErr (List (Parsed β α))) (files : List (String × σ)) (res : OMap (List Char) (Commented β α))
    (h : readFiles env ofIdx ofName blocksOf none files = .ok (.all res)) (n : List Char) (hn : n ≠ [])
    (hl : lookup res n = none) : readFiles env ofIdx ofName blocksOf (some n) files = .ok .none := by
  unfold readFiles at h ⊢
  cases h1 : loopFiles env ofIdx ofName blocksOf 0 [] files with
  | error e => rw [h1] at h; cases h
  | ok objs =>
    rw [h1] at h
    simp only at h ⊢
    cases h2 : mergeGroups env ofIdx objs with
    | error e => rw [h2] at h; cases h
    | ok r =>
      rw [h2] at h
      simp only [Except.ok.injEq, Result.all.injEq] at h ⊢
      subst h
      obtain ⟨x, xs, rfl⟩ := List.exists_cons_of_ne_nil hn
      simp only [hl]

/-- C67: there is no error if there are no files. -/
theorem C67_nothing_refuted {β α σ : Type} [DecidableEq β] (env : Env β α) (ofIdx : Nat → β) (ofName : String → α)
    (blocksOf : σ → Except FileErr (List (Parsed β α))) : readFiles env ofIdx ofName blocksOf none [] = .ok (.all []) := rfl

/-- C67: a file that cannot be read, or has no blocks, is an error. -/
theorem C67_refused {β α σ : Type} [DecidableEq β] (env : Env β α) (ofIdx : Nat → β) (ofName : String → α)
    (blocksOf : σ → Except FileErr (List (Parsed β α))) (blockname : Option (List Char)) (files : List (String × σ))
    (h : ∃ f ∈ files, blocksOf f.2 = .ok [] ∨ ∃ e, blocksOf f.2 = .error e) :
    ∃ e, readFiles env ofIdx ofName blocksOf blockname files = .error e := by
  have hl : ∀ k objs, ∃ e, loopFiles env ofIdx ofName blocksOf k objs files = .error e := by
    induction files with
    | nil => obtain ⟨f, hf, -⟩ := h; cases hf
    | cons g files ih =>
      intro k objs
      obtain ⟨f, text⟩ := g
      rw [loopFiles]
      cases hd : doFile ofIdx blocksOf k text with
      | error e => exact ⟨e, rfl⟩
      | ok res =>
        simp only
        cases hr : res.foldlM (extendObjs env ofName f) objs with
        | error e => exact ⟨e, rfl⟩
        | ok objs' =>
          simp only
          refine ih ?_ _ _
          obtain ⟨f', hf', hb⟩ := h
          rcases List.mem_cons.1 hf' with rfl | hf'
          · exfalso
            unfold doFile at hd
            rcases hb with hb | ⟨e, hb⟩ <;> rw [hb] at hd <;> cases hd
          · exact ⟨f', hf', hb⟩
  obtain ⟨e, he⟩ := hl 0 []
  exact ⟨e, by simp only [readFiles, he]⟩

/-- Two files: three blocks of the name `A`, and one of the name `B`. -/
def twoFiles : List (String × List (Parsed Nat Nat)) :=
  [("p.mdif", [⟨['A'], cell1 [1, 2] 7 10, []⟩, ⟨['B'], cell1 [1, 2] 8 20, []⟩, ⟨['A'], cell1 [1, 2] 9 30, []⟩]),
   ("q.mdif", [⟨['A'], cell1 [1, 2] 5 40, []⟩])]

/-- `C67_files` applies: the third block of the name `A` is in the second file. -/
example : ∃ c a a' x, readFiles envN id (fun s => s.length) (fun t => .ok t) (some ['A']) twoFiles = .ok (.one c) ∧
    lookup c.block.vars "FILEINDEX" = some a ∧ a.nd.shape = [3] ∧ a.nd.get [1] = 0 ∧ a.nd.get [2] = 1 ∧
    lookup c.block.vars "t" = some a' ∧ a'.nd.get [2] = 5 ∧
    lookup c.block.vars "x" = some x ∧ x.nd.get [1, 2] = 41 := by
  have hA : (located 0 twoFiles).filter (fun q => q.name = ['A']) =
      [⟨0, "p.mdif", ['A'], cell1 [1, 2] 7 10, []⟩, ⟨0, "p.mdif", ['A'], cell1 [1, 2] 9 30, []⟩,
        ⟨1, "q.mdif", ['A'], cell1 [1, 2] 5 40, []⟩] := rfl
  have hall : ∀ q ∈ located 0 twoFiles, ∃ f t u, q.block = cell1 f t u := by
    intro q hq
    simp only [located, twoFiles, List.map_cons, List.map_nil, List.cons_append, List.nil_append, List.mem_cons,
      List.not_mem_nil, or_false] at hq
    rcases hq with rfl | rfl | rfl | rfl <;> exact ⟨_, _, _, rfl⟩
  obtain ⟨res, -, -, h3, -, h5⟩ := C67_files envN id (fun s => s.length) (fun t => .ok t) twoFiles twoFiles
    (by
      unfold twoFiles
      exact .cons ⟨rfl, rfl, by simp⟩ (.cons ⟨rfl, rfl, by simp⟩ .nil))
    (by
      intro g hg p hp
      simp only [twoFiles, List.mem_cons, List.not_mem_nil, or_false] at hg
      rcases hg with rfl | rfl
      · simp only [List.mem_cons, List.not_mem_nil, or_false] at hp
        rcases hp with rfl | rfl | rfl <;> exact cell1_fresh _ _ _
      · simp only [List.mem_cons, List.not_mem_nil, or_false] at hp
        subst hp
        exact cell1_fresh _ _ _)
    (by
      intro n q0 q1 qs hm
      have hin : ∀ q ∈ q0 :: q1 :: qs, ∃ f t u, q.block = cell1 f t u := fun q hq =>
        hall q (List.mem_filter.1 (hm ▸ hq)).1
      obtain ⟨f, t, u, e⟩ := hin q0 (by simp)
      rw [e]
      refine cell1_stack f t u _ ?_
      intro b hb
      obtain ⟨q, hq, rfl⟩ := List.mem_map.1 hb
      exact hin q (by simp only [List.mem_cons] at hq ⊢; exact Or.inr hq))
  obtain ⟨c, c1, c2, -⟩ := h5 ['A'] _ _ _ hA
  obtain ⟨a, a1, -, a3, a4⟩ := c2.indices
  obtain ⟨a', b1, -, -, b4⟩ := c2.settings "t" (by rw [cell1_settings]; simp)
  obtain ⟨x, x1, -, -, x4⟩ := c2.columns "x" _ _ _ rfl rfl
  exact ⟨c, a, a', x, h3 _ c (by simp) c1, a1, a3, a4 1 _ rfl, a4 2 _ rfl, b1, b4 2 _ _ _ rfl rfl rfl, x1,
    x4 2 _ _ rfl rfl 1 [] rfl⟩

/-- `C67_saved` applies. -/
example (en : Enum (List (Dim Nat))) (time : List Char) : ∃ lines ps r a,
    save envN prS en time (saveB dimF (dimT [0, 1])) = (lines, none) ∧ read envN numS false lines = .ok ps ∧
    simpleMerge envN id (ps.map fun p => ⟨p.block, p.comments⟩) = .ok r ∧ lookup r.block.vars "x" = some a ∧
    a.nd.shape = [2, 2] ∧ a.nd.get [1, 1] = 6 := by
  obtain ⟨b1, h1, h2⟩ := saveB_convert [0, 1]
  obtain ⟨lines, ps, r, k1, k2, k3, k4, -⟩ := C67_saved envN prS numS en id time _ b1 h1 dimF [dimT [0, 1]]
    (by rw [h2]; exact saveB_savable) (by rw [h2]; decide +kernel)
    (by
      rw [h2]
      intro n hn m i j hm
      have h0 : isMatrixName n = none := by
        simp only [saveB, dimT, List.map_cons, List.map_nil, List.cons_append, List.nil_append, List.mem_cons,
          List.not_mem_nil, or_false] at hn
        rcases hn with rfl | rfl | rfl | rfl <;> decide +kernel
      rw [h0] at hm
      cases hm)
    (by decide +kernel)
  rw [h2] at k4
  obtain ⟨a, a1, -, a3, a4⟩ := k4.columns _ (List.mem_cons_self ..) rfl
  exact ⟨lines, ps, r, a, k1, k2, k3, a1, a3, a4 1 (by decide) 1 [1] (by decide +kernel)⟩

end HF.Mdif
