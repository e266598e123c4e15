import Verif.Hdf5.Model
/-
C26: HDF5 variable names and appending.
-/
namespace HF
namespace Hdf5

variable {α : Type}

/-- C26.  Escaping and unescaping gives the name back iff it has no backslash. -/
theorem C26_roundtrip (n : Name) : unescape (escape n) = n ↔ '\\' ∉ n := by
  induction n with
  | nil => simp [unescape, escape]
  | cons c n ih =>
    simp only [unescape, escape, List.map_cons, List.cons.injEq, List.mem_cons, not_or] at ih ⊢
    rw [ih]
    by_cases h1 : c = '/'
    · subst h1; simp
    · by_cases h2 : c = '\\'
      · subst h2; simp
      · have : ¬ '\\' = c := fun h => h2 h.symm
        simp [h1, h2, this]

/-- C26.  An escaped name is a legal dataset name. -/
theorem C26_no_slash (n : Name) : '/' ∉ escape n := by
  unfold escape
  rw [List.mem_map]
  rintro ⟨c, _, h⟩
  by_cases h1 : c = '/'
  · simp [h1] at h
  · simp [h1] at h

/-- C26.  Different names clash on disk only if one of them contains a backslash. -/
theorem C26_collision (a b : Name) (h : escape a = escape b) (hne : a ≠ b) :
    '\\' ∈ a ∨ '\\' ∈ b := by
  by_cases ha : '\\' ∈ a
  · exact Or.inl ha
  · by_cases hb : '\\' ∈ b
    · exact Or.inr hb
    · exact absurd (((C26_roundtrip a).2 ha).symm.trans ((congrArg unescape h).trans
        ((C26_roundtrip b).2 hb))) hne

/-- C26.  Such clashes exist, and then saving fails. -/
theorem C26_clash_refuted (p s : Name) (ivars : List Name) (dims : List Name) :
    saveNames ivars [(p ++ '/' :: s, dims), (p ++ '\\' :: s, dims)] = none := by
  have : escape (p ++ '/' :: s) = escape (p ++ '\\' :: s) := by simp [escape]
  unfold saveNames
  have : ¬ (ivars.map escape ++ [escape (p ++ '/' :: s), escape (p ++ '\\' :: s)]).Nodup := by
    rw [this, List.nodup_append]; simp
  simp [this]

/-- C26.  A block whose names contain no backslash, all different, can be saved as long as the
dimensions in use contain no slash, and the names can be recovered from the file. -/
theorem C26_save_names (ivars : List Name) (vars : List (Name × List Name))
    (hn : (ivars ++ vars.map Prod.fst).Nodup) (hb : ∀ n ∈ ivars ++ vars.map Prod.fst, '\\' ∉ n)
    (hd : ∀ v ∈ vars, ∀ d ∈ v.2, d ∈ ivars ∧ '/' ∉ d) :
    ∃ names, saveNames ivars vars = some names ∧
      names.map unescape = ivars ++ vars.map Prod.fst := by
  have hmap : (ivars.map escape ++ vars.map fun v => escape v.1) =
      (ivars ++ vars.map Prod.fst).map escape := by simp [Function.comp_def]
  have hun : ((ivars ++ vars.map Prod.fst).map escape).map unescape = ivars ++ vars.map Prod.fst := by
    rw [List.map_map]
    exact (List.map_congr_left fun n h => (C26_roundtrip n).2 (hb n h)).trans (List.map_id _)
  refine ⟨_, ?_, hun⟩
  unfold saveNames
  have h1 : ((ivars ++ vars.map Prod.fst).map escape).Nodup := by
    have := hn
    rw [← hun] at this
    generalize (ivars ++ vars.map Prod.fst).map escape = l at this
    clear hn hb hd hmap hun
    unfold List.Nodup at *
    rw [List.pairwise_map] at this
    exact this.imp fun h e => h (by rw [e])
  have h2 : (vars.all fun v => v.2.all fun d => decide (d ∈ ivars.map escape)) = true := by
    simp only [List.all_eq_true, decide_eq_true_eq]
    intro v hv d hd'
    obtain ⟨h3, h4⟩ := hd v hv d hd'
    have : escape d = d := by
      unfold escape
      refine (List.map_congr_left fun c hc => ?_).trans (List.map_id _)
      have : c ≠ '/' := fun e => h4 (e ▸ hc)
      simp [this]
    rw [← this]
    exact List.mem_map_of_mem h3
  simp only [hmap, h1, h2, decide_true, Bool.and_self, if_true]

/-- C26.  A variable along a dimension whose name contains a slash can not be saved. -/
theorem C26_slash_dim_refuted (ivars : List Name) (v d : Name) (hd : '/' ∈ d) :
    saveNames ivars [(v, [d])] = none := by
  have : d ∉ ivars.map escape := by
    intro h
    obtain ⟨x, _, rfl⟩ := List.mem_map.1 h
    exact C26_no_slash x hd
  unfold saveNames
  simp only [List.all_cons, List.all_nil, this, decide_false, Bool.false_and, Bool.and_false]
  simp

/-! ### Appending -/

/-- Slices of a variable in a file. -/
def slicesOf (items : List (Name × Entry α)) (k : Name) : Option (List (List α)) :=
  items.findSome? fun p => if p.1 = k then (match p.2 with | .var s => some s | .dim => none) else none

/-- One dataset after another: `new` has the same names as `old`, dimension scales untouched, and
each variable's slices begin with the old ones. -/
inductive Extends : List (Name × Entry α) → List (Name × Entry α) → Prop
  | nil : Extends [] []
  | dim {k old new} : Extends old new → Extends ((k, .dim) :: old) ((k, .dim) :: new)
  | var {k s t old new} : s <+: t → Extends old new → Extends ((k, .var s) :: old) ((k, .var t) :: new)

theorem Extends.refl (l : List (Name × Entry α)) : Extends l l := by
  induction l with
  | nil => exact .nil
  | cons p l ih =>
    obtain ⟨k, e⟩ := p
    cases e with
    | dim => exact .dim ih
    | var s => exact .var (List.prefix_refl s) ih

theorem Extends.trans {a b c : List (Name × Entry α)} (h1 : Extends a b) (h2 : Extends b c) :
    Extends a c := by
  induction h1 generalizing c with
  | nil => exact h2
  | dim _ ih => cases h2 with | dim h => exact .dim (ih h)
  | var hs _ ih => cases h2 with | var ht h => exact .var (hs.trans ht) (ih h)

theorem loop_extends (fill : α) (db : Block α) (ename : Name) (items : List (Name × Entry α)) :
    Extends items (appendLoop fill db ename items).1 := by
  induction items with
  | nil => exact .nil
  | cons p rest ih =>
    obtain ⟨k, e⟩ := p
    simp only [appendLoop]
    split
    · cases e with
      | dim => exact .dim ih
      | var s => exact .var (List.prefix_refl s) ih
    · split
      · exact Extends.refl _
      · split
        · exact Extends.refl _
        · split
          · exact .var (List.prefix_append _ _) ih
          · exact .var (List.prefix_append _ _) (Extends.refl _)

/-- C26.  Whatever is appended, and even if an append raises an exception, data already in the file
stay. -/
theorem C26_append_keeps (fill : α) (ename : Name) (f : File α) (bs : List (Block α)) :
    Extends f.items (appendAll fill ename f bs).1.items := by
  induction bs generalizing f with
  | nil => exact Extends.refl _
  | cons b bs ih =>
    have h1 : Extends f.items (append fill ename f b).1.items := by
      unfold append
      cases f.index with
      | none => exact Extends.refl _
      | some ix => exact loop_extends fill b ename f.items
    unfold appendAll
    split
    · rename_i f' h; rw [h] at h1; exact h1.trans (ih f')
    · rename_i f' e h; rw [h] at h1; exact h1

/-- Specification of a dataset after successful appends of `bs`. -/
def appended (ename : Name) (bs : List (Block α)) (p : Name × Entry α) : Name × Entry α :=
  match p.2 with
  | .dim => p
  | .var s => (p.1, .var (s ++ bs.filterMap fun b =>
      if b.isIvar (unescape p.1) || decide (unescape p.1 = ename) then none
      else b.vardata (unescape p.1)))

theorem loop_ok (fill : α) (db : Block α) (ename : Name) (items : List (Name × Entry α))
    (h : (appendLoop fill db ename items).2 = none) :
    (appendLoop fill db ename items).1 = items.map (appended ename [db]) := by
  induction items with
  | nil => rfl
  | cons p rest ih =>
    obtain ⟨k, e⟩ := p
    simp only [appendLoop] at h ⊢
    split
    · rename_i hc
      simp only [hc, if_true] at h
      rw [ih h]
      cases e with
      | dim => rfl
      | var s => simp only [List.map_cons, appended, List.filterMap_cons, hc, if_true,
          List.filterMap_nil, List.append_nil]
    · rename_i hc
      simp only [hc] at h
      split
      · rename_i hv; simp [hv] at h
      · rename_i data hv
        simp only [hv] at h
        cases e with
        | dim => simp at h
        | var s =>
          simp only at h ⊢
          split
          · rename_i hl
            simp only [hl, if_true] at h
            rw [ih (by simpa using h)]
            have hc' : (db.isIvar (unescape k) || decide (unescape k = ename)) = false := by simpa using hc
            simp only [List.map_cons, appended, List.filterMap_cons, hc', hv, List.filterMap_nil]
            rfl
          · rename_i hl; simp only [hl, if_false] at h; simp at h

/-- C26.  After successful appends every variable holds its old slices followed by those of the
appended blocks, in order; dimensions are unchanged. -/
theorem C26_append_history (fill : α) (ename : Name) (f f' : File α) (bs : List (Block α))
    (h : appendAll fill ename f bs = (f', none)) :
    f'.items = f.items.map (appended ename bs) := by
  induction bs generalizing f with
  | nil =>
    simp only [appendAll, Prod.mk.injEq] at h
    rw [← h.1]
    have : ∀ p : Name × Entry α, appended ename [] p = p := by
      rintro ⟨k, e⟩; cases e <;> simp [appended]
    exact ((List.map_congr_left fun p _ => this p).trans (List.map_id _)).symm
  | cons b bs ih =>
    unfold appendAll at h
    split at h
    · rename_i f1 h1
      rw [ih f1 h]
      have h2 : f1.items = f.items.map (appended ename [b]) := by
        unfold append at h1
        cases hi : f.index with
        | none => simp [hi] at h1
        | some ix =>
          simp only [hi, Prod.mk.injEq] at h1
          rw [← h1.1]
          exact loop_ok fill b ename f.items h1.2
      rw [h2, List.map_map]
      apply List.map_congr_left
      rintro ⟨k, e⟩ _
      cases e with
      | dim => rfl
      | var s => 
        simp only [appended, Function.comp_apply, List.append_assoc]
        rw [← List.filterMap_append]; rfl
    · rename_i f1 e h1; cases h

/-- C26.  The stored index is not advanced: all appended entries are 0. -/
theorem C26_index_refuted (fill : α) (ename : Name) (f f' : File α) (ix : List Int)
    (hix : f.index = some ix) (bs : List (Block α)) (h : appendAll fill ename f bs = (f', none)) :
    f'.index = some (ix ++ List.replicate bs.length 0) := by
  induction bs generalizing f ix with
  | nil => simp only [appendAll, Prod.mk.injEq] at h; rw [← h.1, hix]; simp
  | cons b bs ih =>
    unfold appendAll at h
    split at h
    · rename_i f1 h1
      unfold append at h1
      simp only [hix, Prod.mk.injEq] at h1
      have := ih f1 (ix ++ [0]) (by rw [← h1.1]) h
      rw [this]
      simp [List.replicate_succ]
    · cases h

/-- C26.  A failing append leaves the file inconsistent: the variable before the missing one and
the index have been extended. -/
theorem C26_failed_append_refuted (fill : α) (ename a b : Name) (ha : '\\' ∉ a) (hb : '\\' ∉ b)
    (hea : a ≠ ename) (heb : b ≠ ename) (x y z : List α) (hz : z.length = x.length)
    (db : Block α) (hi : ∀ n, db.isIvar n = false) (h1 : db.vardata a = some z)
    (h2 : db.vardata b = none) :
    append fill ename ⟨some [0], [(escape a, .var [x]), (escape b, .var [y])]⟩ db =
      (⟨some [0, 0], [(escape a, .var [x, z]), (escape b, .var [y])]⟩, some (.missing b)) := by
  simp [append, appendLoop, (C26_roundtrip a).2 ha, (C26_roundtrip b).2 hb, hi, hea, heb, h1, h2, hz]

/-- C26.  Appending a block to the file it was saved in fails for names with a backslash, if the
block has no variable by the name in which backslashes are replaced. -/
theorem C26_backslash_append_refuted (fill : α) (ename n : Name) 
    (hne : unescape (escape n) ≠ ename) (db : Block α) (hi : ∀ n, db.isIvar n = false)
    (h : db.vardata (unescape (escape n)) = none) (ix : List Int) (s : List (List α))
    (rest : List (Name × Entry α)) :
    (append fill ename ⟨some ix, (escape n, .var s) :: rest⟩ db).2 =
      some (.missing (unescape (escape n))) := by
  simp [append, appendLoop, hi, hne, h]

/-! Non-vacuity -/

example : escape "b1/a1".toList = "b1\\a1".toList ∧ unescape (escape "b1/a1".toList) = "b1/a1".toList := by
  decide
example : unescape (escape "a\\b".toList) ≠ "a\\b".toList := by decide
example : (saveNames ["freq".toList] [("b1/a1".toList, ["freq".toList])]).isSome = true := by decide
example : (appendAll (0 : Nat) "INDEX".toList ⟨some [0], [("freq".toList, .dim), ("S".toList, .var [[1, 2]])]⟩
    [⟨fun n => if n = "S".toList then some [3, 4] else none, fun n => n = "freq".toList⟩,
     ⟨fun n => if n = "S".toList then some [5, 6] else none, fun n => n = "freq".toList⟩]).2 = none := by
  decide

end Hdf5
end HF
