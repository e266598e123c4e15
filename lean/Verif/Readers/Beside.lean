import Verif.Readers.Given
/-
All steps after reading a file, for blocks with dimensions that only the arrays know.

The readers of some formats put arrays into the block without telling it their last dimensions.  These dimensions go
through all steps unchanged.
-/
namespace HF.Readers.Treat

open HF.DataDict.Spec HF.DataBlock
open HF.DataDict hiding rename delitem
open HF.Readers.FixUnit (UBlock title)
open HF.Readers.Assemble (Form CompleteF Wins)
open HF.Readers.Normalize (trtable)
open HF.Comments (PVal)

variable {β α : Type}

/-! ### Specification -/

/-- An array with further dimensions, which are found by its values. -/
def extend (ext : Nd α → List (Dim β)) (a : Arr β α) : Arr β α := ⟨a.dims ++ ext a.nd, a.nd⟩

/-- The block with further dimensions of its arrays. -/
def beside (ext : Nd α → List (Dim β)) (b : Block β α) : Block β α :=
  { b with vars := b.vars.map fun p => (p.1, extend ext p.2) }

def besideU (ext : Nd α → List (Dim β)) (b : UBlock β α) : UBlock β α := ⟨beside ext b.blk, b.units⟩

/-! ### Proof -/

variable {ext : Nd α → List (Dim β)}

theorem keys_beside (b : Block β α) : keys (beside ext b).vars = keys b.vars := by
  simp [beside, keys, Function.comp_def]

theorem fst_beside (b : Block β α) : (beside ext b).vars.map Prod.fst = b.vars.map Prod.fst := keys_beside b

theorem lookup_beside (b : Block β α) (k : String) :
    lookup (beside ext b).vars k = (lookup b.vars k).map (extend ext) := by
  unfold beside
  simp only
  induction b.vars with
  | nil => rfl
  | cons p t ih =>
    by_cases h : p.1 = k
    · simp [lookup, h]
    · simpa [lookup, h] using ih

theorem member_beside (b : Block β α) (k : String) : member (beside ext b).vars k = member b.vars k := by
  rw [Bool.eq_iff_iff, member_iff, member_iff, fst_beside]

/-- The dimensions of the block have their names, and none of them is one of the further dimensions. -/
def Free (ext : Nd α → List (Dim β)) (b : Block β α) : Prop :=
  ∀ p ∈ b.ivars, p.2.name = p.1 ∧ ∀ nd, ∀ e ∈ ext nd, e.name ≠ p.1

theorem Free.lookup {b : Block β α} (h : Free ext b) {k : String} {d : Dim β} (hl : lookup b.ivars k = some d) :
    d.name = k ∧ ∀ nd, ∀ e ∈ ext nd, e.name ≠ d.name := by
  have := h _ (lookup_mem hl)
  simp only at this
  exact ⟨this.1, fun nd e he => this.1 ▸ this.2 nd e he⟩

theorem replaceDim_beside (b : Block β α) (d d' : Dim β) (h : ∀ nd, ∀ e ∈ ext nd, e.name ≠ d.name) :
    replaceDim (beside ext b) d d' = (replaceDim b d d').map (beside ext) := by
  unfold replaceDim
  show (match renameIvar b.ivars d d' with | none => none | some iv => _) = _
  cases renameIvar b.ivars d d' with
  | none => rfl
  | some iv =>
    simp only [Option.map_some, beside, List.map_map, Option.some.injEq, Block.mk.injEq, and_true]
    refine List.map_congr_left fun p _ => ?_
    simp only [Function.comp, extend, replaceDimArr, List.map_append, Prod.mk.injEq, true_and, Arr.mk.injEq, and_true]
    congr 1
    refine (List.map_congr_left fun e he => ?_).trans (List.map_id _)
    simp [Ne.symm (h p.2.nd e he)]

theorem rename_map {γ δ : Type} (f : γ → δ) (m : List (String × γ)) (a b : String) (v : γ) :
    Spec.rename (m.map fun p => (p.1, f p.2)) a b (f v) = (Spec.rename m a b v).map fun p => (p.1, f p.2) := by
  have hm : member (m.map fun p => (p.1, f p.2)) b = member m b := by
    rw [Bool.eq_iff_iff, member_iff, member_iff]
    simp [Function.comp_def]
  unfold Spec.rename
  rw [hm]
  split
  · simp [Spec.remove, List.filter_map, Function.comp_def]
  · split
    · simp only [Spec.modify, Spec.remove, List.filter_map, List.map_map, Function.comp_def]
      refine List.map_congr_left fun p _ => ?_
      split <;> rfl
    · simp only [List.map_map]
      refine List.map_congr_left fun p _ => ?_
      simp only [Function.comp]
      split <;> rfl

theorem renameIvar_mem {iv iv' : OMap String (Dim β)} {d d' : Dim β} (h : renameIvar iv d d' = some iv') :
    ∀ p ∈ iv', p ∈ iv ∨ p = (d'.name, d') := by
  unfold renameIvar at h
  cases hl : lookup iv d.name with
  | none => rw [hl] at h; cases h
  | some v =>
    rw [hl] at h
    simp only [Option.some.injEq] at h
    subst h
    intro p hp
    have hr : ∀ q ∈ Spec.rename iv d.name d'.name v, q ∈ iv ∨ q.1 = d'.name := by
      intro q hq
      unfold Spec.rename at hq
      split at hq
      · rename_i e
        rcases List.mem_append.1 hq with h | h
        · exact Or.inl (List.mem_filter.1 h).1
        · rw [List.mem_singleton.1 h]; exact Or.inr e
      · split at hq
        · unfold Spec.modify at hq
          obtain ⟨q', h1, rfl⟩ := List.mem_map.1 hq
          by_cases e : q'.1 = d'.name
          · right; simp [e]
          · left; rw [if_neg e]; exact (List.mem_filter.1 h1).1
        · obtain ⟨q', h1, rfl⟩ := List.mem_map.1 hq
          by_cases e : q'.1 = d.name
          · right; simp [e]
          · left; rw [if_neg e]; exact h1
    unfold assign at hp
    split at hp
    · unfold Spec.modify at hp
      obtain ⟨q, h1, rfl⟩ := List.mem_map.1 hp
      by_cases e : q.1 = d'.name
      · right; simp [e]
      · rw [if_neg e]
        rcases hr q h1 with h | h
        · exact Or.inl h
        · exact absurd h e
    · rcases List.mem_append.1 hp with h | h
      · rcases hr p h with h' | h'
        · exact Or.inl h'
        · rename_i hm
          refine absurd ?_ hm
          rw [member_iff]
          exact List.mem_map.2 ⟨p, h, h'⟩
      · exact Or.inr (List.mem_singleton.1 h)

theorem replaceDim_free {b b' : Block β α} {d d' : Dim β} (h : Free ext b) (hd : ∀ nd, ∀ e ∈ ext nd, e.name ≠ d'.name)
    (hs : replaceDim b d d' = some b') : Free ext b' := by
  unfold replaceDim at hs
  split at hs
  · cases hs
  · rename_i iv hiv
    cases hs
    intro p hp
    rcases renameIvar_mem hiv p hp with h1 | rfl
    · exact h p h1
    · exact ⟨rfl, hd⟩

theorem guessOne_beside (env : Env β α) (guess : String → Option String) (b : UBlock β α) (v : String) (h : Free ext b.blk) :
    FixUnit.guessOne env guess (besideU ext b) v = (FixUnit.guessOne env guess b v).map (besideU ext) ∧
      ∀ b', FixUnit.guessOne env guess b v = .ok b' → Free ext b'.blk ∧ keys b'.blk.vars = keys b.blk.vars ∧
        ∀ k ∈ keys b'.blk.ivars, k ∈ keys b.blk.ivars := by
  unfold FixUnit.guessOne
  show (match lookup b.blk.ivars v with | some d => _ | none => _) = _ ∧ _
  cases hl : lookup b.blk.ivars v with
  | some d =>
    simp only
    split
    · have hd := h.lookup hl
      simp only [besideU, replaceDim_beside _ _ _ hd.2]
      cases hr : replaceDim b.blk d (Dim.copyFrom env.dfltDim d.cls d (unit := guess v)) with
      | none => exact ⟨rfl, by intro b' h; cases h⟩
      | some b1 =>
        refine ⟨rfl, ?_⟩
        intro b' hb'
        cases hb'
        refine ⟨replaceDim_free h (by simpa [Dim.copyFrom] using hd.2) hr, ?_, ?_⟩
        · unfold replaceDim at hr
          split at hr
          · cases hr
          · cases hr
            simp [keys, Function.comp_def]
        · unfold replaceDim at hr
          split at hr
          · cases hr
          · rename_i iv hiv
            cases hr
            intro k hk
            obtain ⟨p, hp, rfl⟩ := List.mem_map.1 hk
            rcases renameIvar_mem hiv p hp with h1 | rfl
            · exact List.mem_map_of_mem h1
            · have : (Dim.copyFrom env.dfltDim d.cls d (unit := guess v)).name = v := by simp [Dim.copyFrom, hd.1]
              rw [this]
              exact lookup_key hl
    · exact ⟨rfl, by intro b' h'; cases h'; exact ⟨h, rfl, fun _ h => h⟩⟩
  | none =>
    refine ⟨?_, ?_⟩
    · show (if (member (beside ext b.blk).vars v && decide (b.units v = none)) = true then _ else _) = _
      rw [member_beside]
      split <;> rfl
    · intro b' h'
      simp only at h'
      split at h' <;> cases h' <;> exact ⟨h, rfl, fun _ h => h⟩

theorem guess_beside (env : Env β α) (guess : String → Option String) (l : List String) : ∀ (b : UBlock β α), Free ext b.blk →
    FixUnit.each (FixUnit.guessOne env guess) (besideU ext b) l =
      (FixUnit.each (FixUnit.guessOne env guess) b l).map (besideU ext) ∧
      ∀ b', FixUnit.each (FixUnit.guessOne env guess) b l = .ok b' → Free ext b'.blk ∧ keys b'.blk.vars = keys b.blk.vars ∧
        ∀ k ∈ keys b'.blk.ivars, k ∈ keys b.blk.ivars := by
  induction l with
  | nil => intro b h; exact ⟨rfl, by intro b' h'; cases h'; exact ⟨h, rfl, fun _ h => h⟩⟩
  | cons v t ih =>
    intro b h
    obtain ⟨h1, h2⟩ := guessOne_beside (ext := ext) env guess b v h
    simp only [FixUnit.each, h1]
    cases hg : FixUnit.guessOne env guess b v with
    | error e => exact ⟨rfl, by intro b' h'; cases h'⟩
    | ok c =>
      obtain ⟨k1, k2, k3⟩ := h2 c hg
      obtain ⟨g1, g2⟩ := ih c k1
      refine ⟨g1, ?_⟩
      intro b' hb'
      obtain ⟨a1, a2, a3⟩ := g2 b' hb'
      exact ⟨a1, a2.trans k2, fun k hk => k3 k (a3 k hk)⟩

theorem allNames_beside (b : Block β α) : Complex.allNames (beside ext b) = Complex.allNames b := by
  unfold Complex.allNames
  rw [fst_beside]
  rfl

/-- Guessing units. -/
theorem guessUnit_beside (env : Env β α) (mul : ℚ → α → α) (cmul : ℚ → β → β) (guess : String → Option String)
    (b : UBlock β α) (h : Free ext b.blk) (ht : ∀ k ∈ keys b.blk.vars ++ keys b.blk.ivars, title k = none) :
    FixUnit.guessUnit env mul cmul guess (besideU ext b) = (FixUnit.guessUnit env mul cmul guess b).map (besideU ext) ∧
      ∀ b', FixUnit.guessUnit env mul cmul guess b = .ok b' → Free ext b'.blk ∧ keys b'.blk.vars = keys b.blk.vars ∧
        ∀ k ∈ keys b'.blk.ivars, k ∈ keys b.blk.ivars := by
  have hn : ∀ c : Block β α, (∀ k ∈ keys c.vars ++ keys c.ivars, title k = none) → ∀ k ∈ Complex.allNames c, title k = none := by
    intro c hc k hk
    unfold Complex.allNames at hk
    refine hc k ?_
    rcases List.mem_append.1 hk with hk | hk
    · exact List.mem_append_right _ hk
    · exact List.mem_append_left _ (List.mem_filter.1 hk).1
  obtain ⟨h1, h2⟩ := guess_beside (ext := ext) env guess (Complex.allNames b.blk) b h
  unfold FixUnit.guessUnit
  rw [show (besideU ext b).blk = beside ext b.blk from rfl, allNames_beside, h1]
  cases hg : FixUnit.each (FixUnit.guessOne env guess) b (Complex.allNames b.blk) with
  | error e => exact ⟨rfl, by intro b' h'; cases h'⟩
  | ok c =>
    obtain ⟨k1, k2, k3⟩ := h2 c hg
    have hc : ∀ k ∈ keys c.blk.vars ++ keys c.blk.ivars, title k = none := by
      intro k hk
      rw [k2] at hk
      rcases List.mem_append.1 hk with h | h
      · exact ht k (List.mem_append_left _ h)
      · exact ht k (List.mem_append_right _ (k3 k h))
    simp only [Except.map]
    rw [show (besideU ext c).blk = beside ext c.blk from rfl, allNames_beside, each_fix_calm env mul cmul _ (hn _ hc),
      each_fix_calm env mul cmul _ (hn _ hc)]
    exact ⟨rfl, by intro b' h'; cases h'; exact ⟨k1, k2, k3⟩⟩

theorem renameVar_beside (env : Env β α) (b : Block β α) (o n : String) (h : Free ext b)
    (hn : ∀ nd, ∀ e ∈ ext nd, e.name ≠ n) :
    (renameVar env (beside ext b) o n = (beside ext (renameVar env b o n).1, (renameVar env b o n).2)) ∧
      Free ext (renameVar env b o n).1 ∧ ∀ k ∈ keys (renameVar env b o n).1.vars, k ∈ keys b.vars ∨ k = n := by
  unfold renameVar
  show (match lookup b.ivars o with | some d => _ | none => _) = _ ∧ _
  cases hl : lookup b.ivars o with
  | some d =>
    have hd := h.lookup hl
    simp only [replaceDim_beside _ _ _ hd.2]
    cases hr : replaceDim b d (Dim.copyFrom env.dfltDim d.cls d (name := some n)) with
    | none => exact ⟨rfl, h, fun k hk => Or.inl hk⟩
    | some b1 =>
      refine ⟨rfl, replaceDim_free h (by simpa [Dim.copyFrom] using hn) hr, ?_⟩
      unfold replaceDim at hr
      split at hr
      · cases hr
      · cases hr
        intro k hk
        left
        simpa [keys, Function.comp_def] using hk
  | none =>
    simp only [lookup_beside]
    cases hv : lookup b.vars o with
    | none => exact ⟨rfl, h, fun k hk => Or.inl hk⟩
    | some v =>
      refine ⟨?_, h, ?_⟩
      · simp only [Option.map_some, beside, Prod.mk.injEq, and_true, Block.mk.injEq]
        exact rename_map (extend ext) b.vars o n v
      · intro k hk
        obtain ⟨p, hp, rfl⟩ := List.mem_map.1 hk
        simp only [Spec.rename] at hp
        split at hp
        · rename_i e
          rcases List.mem_append.1 hp with h' | h'
          · exact Or.inl (List.mem_map_of_mem (List.mem_filter.1 h').1)
          · rw [List.mem_singleton.1 h']
            exact Or.inr e
        · split at hp
          · obtain ⟨q, h1, rfl⟩ := List.mem_map.1 hp
            left
            split
            · rename_i e _ e'
              have := List.mem_map_of_mem (f := Prod.fst) (List.mem_filter.1 h1).1
              rw [← e']
              exact this
            · exact List.mem_map_of_mem (List.mem_filter.1 h1).1
          · obtain ⟨q, h1, rfl⟩ := List.mem_map.1 hp
            split
            · exact Or.inr rfl
            · exact Or.inl (List.mem_map_of_mem h1)

theorem tableStep_beside (env : Env β α) (data : Block β α) (t : List (String × String))
    (ht : ∀ e ∈ t, (∀ nd, ∀ x ∈ ext nd, x.name ≠ e.2) ∧ '(' ∉ e.2.toList) : ∀ (out : Block β α), Free ext out →
      Normalize.tableStep env (beside ext data) (beside ext out) t = (Normalize.tableStep env data out t).map (beside ext) ∧
        ∀ r, Normalize.tableStep env data out t = .ok r → (∀ k ∈ keys out.vars, '(' ∉ k.toList) →
          ∀ k ∈ keys r.vars, '(' ∉ k.toList := by
  induction t with
  | nil => intro out h; exact ⟨rfl, by intro r hr; cases hr; exact fun h => h⟩
  | cons e t ih =>
    intro out h
    have ht' := fun x hx => ht x (List.mem_cons_of_mem e hx)
    have hc : ∀ k, contains (beside ext data) k = contains data k := by
      intro k
      unfold contains
      rw [member_beside]
      rfl
    simp only [Normalize.tableStep, hc]
    split
    · exact ih ht' out h
    · obtain ⟨r1, r2, r3⟩ := renameVar_beside env out e.1 e.2 h (ht e (by simp)).1
      rw [r1]
      rcases hrv : renameVar env out e.1 e.2 with ⟨c, _ | _⟩
      · exact ⟨rfl, by intro r hr; cases hr⟩
      · rw [hrv] at r2 r3
        obtain ⟨g1, g2⟩ := ih ht' c r2
        refine ⟨g1, ?_⟩
        intro r hr hk
        refine g2 r hr fun k hk' => ?_
        rcases r3 k hk' with h' | rfl
        · exact hk k h'
        · exact (ht e (by simp)).2

/-- Normalising names. -/
theorem normalize_beside (env : Env β α) (table : List (String × String)) (htab : table.Perm trtable) (b : Block β α)
    (h : Free ext b) (hx : ∀ nd, ∀ e ∈ ext nd, e.name ∉ trtable.map Prod.snd) (hp : ∀ k ∈ keys b.vars, '(' ∉ k.toList) :
    Normalize.normalize env table (beside ext b) = (Normalize.normalize env table b).map (beside ext) := by
  have ht : ∀ e ∈ table, (∀ nd, ∀ x ∈ ext nd, x.name ≠ e.2) ∧ '(' ∉ e.2.toList := by
    intro e he
    have he' := htab.mem_iff.1 he
    refine ⟨fun nd x hx' hn => hx nd x hx' (hn ▸ List.mem_map_of_mem he'), ?_⟩
    have : ∀ e ∈ trtable, '(' ∉ e.2.toList := by decide
    exact this e he'
  obtain ⟨h1, h2⟩ := tableStep_beside env b table ht b h
  unfold Normalize.normalize
  rw [h1]
  cases hs : Normalize.tableStep env b b table with
  | error e => rfl
  | ok c =>
    have hk := h2 c hs hp
    have plain : ∀ c : Block β α, (∀ k ∈ keys c.vars, '(' ∉ k.toList) → ∀ f pre : String,
        Normalize.pass env (Normalize.translate f pre) c = .ok c := by
      intro c hc f pre
      exact pass_plain env (Normalize.translate f pre) c (c.vars.map Prod.fst)
        fun k hk => by simpa using translate_plain f.toList pre.toList (hc k hk)
    have hk' : ∀ k ∈ keys (beside ext c).vars, '(' ∉ k.toList := by rw [keys_beside]; exact hk
    simp only [Except.map, plain c hk, plain _ hk']

theorem makeMatricesBy_none (forms : List Form) (b : Block β α)
    (hn : (keys b.vars).Nodup) (hw : ∀ fm v I J, ¬ Wins (keys b.vars) forms fm v I J) :
    Assemble.matrices (b.vars.map Prod.fst) forms [] = [] := by
  rw [List.eq_nil_iff_forall_not_mem]
  intro g hg
  exact hw _ _ _ _ ((Assemble.matrices_iff _ hn forms g).1 hg).1

/-- Properties. -/
theorem values_beside (env : Env β α) (ofProp : PVal → Option α) (b : UBlock β α) (props : List (String × PVal))
    (hn : (props.map Prod.fst).Nodup) (hs : Separate b.blk props) (hx : ∀ x, ext ⟨[], fun _ => x⟩ = []) :
    ∃ r, valuesFromProperty env ofProp b props = .ok r ∧ valuesFromProperty env ofProp (besideU ext b) props = .ok (besideU ext r) ∧
      r.blk.ivars = b.blk.ivars ∧ keys r.blk.vars = keys b.blk.vars ++ (givenOf ofProp (keys b.blk.vars ++ keys b.blk.ivars) props).map Prod.fst := by
  have hN : ∀ p, New (beside ext b.blk) ofProp p = New b.blk ofProp p := by
    intro p
    unfold New
    rw [keys_beside]
    rfl
  have hNf : New (beside ext b.blk) ofProp = New b.blk ofProp := funext hN
  obtain ⟨r, v1, v2, v3, v4, v5, v6⟩ := C78_values env ofProp b props hn hs
  obtain ⟨r', w1, w2, w3, w4, w5, w6⟩ := C78_values env ofProp (besideU ext b) props hn (by
    intro p hp m i j h
    have := hs p hp m i j h
    rw [show (besideU ext b).blk = beside ext b.blk from rfl, keys_beside]
    exact this)
  rw [show (besideU ext b).blk = beside ext b.blk from rfl, hNf] at w2 w4 w5 w6
  refine ⟨r, v1, ?_, v3, ?_⟩
  · rw [w1]
    refine congrArg Except.ok ?_
    obtain ⟨⟨rv, ri, rx⟩, ru⟩ := r
    obtain ⟨⟨rv', ri', rx'⟩, ru'⟩ := r'
    simp only at v2 v3 v4 v5 v6 w2 w3 w4 w5 w6
    have hu : ru' = ru := by
      funext k
      by_cases hk : k ∈ (props.filterMap (New b.blk ofProp)).map Prod.fst
      · obtain ⟨q, hq, rfl⟩ := List.mem_map.1 hk
        obtain ⟨p, hp, hpq⟩ := List.mem_filterMap.1 hq
        have hne : New b.blk ofProp p ≠ none := by rw [hpq]; simp
        have hk1 : q.1 = p.1 := by
          unfold New at hpq
          split at hpq
          · cases hpq
          · split at hpq
            · cases hpq
            · cases hpq; rfl
        rw [hk1, v6 p hp hne, w6 p hp hne]
      · rw [v5 k hk, w5 k hk]
        rfl
    have hv : rv' = rv.map fun p => (p.1, extend ext p.2) := by
      rw [v2, w2, List.map_append]
      congr 1
      refine ((List.map_congr_left fun q hq => ?_).trans (List.map_id _)).symm
      obtain ⟨p, -, hpq⟩ := List.mem_filterMap.1 hq
      unfold New at hpq
      split at hpq
      · cases hpq
      · split at hpq
        · cases hpq
        · cases hpq
          simp [extend, hx]
    have hi : ri' = ri := by rw [v3, w3]; rfl
    have hxn : rx' = rx := by rw [v4, w4]; rfl
    rw [hu, hv, hi, hxn]
    rfl
  · rw [v2]
    have hg : ∀ S : Steps β α, S.ofProp = ofProp → (props.filterMap (New b.blk ofProp)).map Prod.fst =
        (givenOf ofProp (keys b.blk.vars ++ keys b.blk.ivars) props).map Prod.fst := by
      intro S e
      have := givenOf_keys S b.blk props
      rw [e] at this
      exact this
    have := hg ⟨id, fun x _ => x, fun x _ => x, fun _ x => x, fun _ x => x, fun _ => none, [], fun _ => env.toCoord env.junk, fun _ x => x, ofProp⟩ rfl
    rw [← this]
    simp [keys]

theorem names_nodup {ofProp : PVal → Option α} {vs ds : List String} {props : List (String × PVal)}
    (hpn : (props.map Prod.fst).Nodup) (hn : (vs ++ ds).Nodup) : (namesOf ofProp vs ds props).Nodup := by
  obtain ⟨n1, n2, n3⟩ := List.nodup_append.1 hn
  have hgm : ∀ k ∈ (givenOf ofProp (vs ++ ds) props).map Prod.fst, k ∉ vs ∧ k ∉ ds := by
    intro k hk
    obtain ⟨p, hp, rfl⟩ := List.mem_map.1 hk
    have := (List.mem_filter.1 hp).2
    rw [Bool.and_eq_true, decide_eq_true_eq, List.mem_append] at this
    exact ⟨fun h => this.1 (Or.inl h), fun h => this.1 (Or.inr h)⟩
  unfold namesOf
  rw [List.nodup_append, List.nodup_append]
  refine ⟨⟨n1, hpn.sublist (List.filter_sublist.map _), ?_⟩, n2, ?_⟩
  · intro x hx y hy e
    exact (hgm y hy).1 (e ▸ hx)
  · intro x hx y hy e
    rcases List.mem_append.1 hx with h | h
    · exact n3 x h y hy e
    · exact (hgm x h).2 (e ▸ hy)

/-- All steps for a block and its properties, with further dimensions of the arrays and without columns to be put
together: the further dimensions stay. -/
theorem laterOn_beside (forms : List Form) (env : Env β α) (S : Steps β α) (htab : S.table.Perm trtable)
    (hcast : ∀ c c' : Arr β α, c.nd = c'.nd → S.cast c = S.cast c') (props : List (String × PVal)) (b : UBlock β α)
    (hpn : (props.map Prod.fst).Nodup) (hlink : Linked b.blk)
    (hcalm : CalmNames S.ofProp (keys b.blk.vars) (keys b.blk.ivars) props)
    (hno : ∀ fm v I J, ¬ Wins (colsOf S.ofProp (keys b.blk.vars) (keys b.blk.ivars) props) forms fm v I J)
    (hx : ∀ x, ext ⟨[], fun _ => x⟩ = [])
    (hfree : ∀ nd, ∀ e ∈ ext nd, e.name ∉ keys b.blk.ivars ∧ e.name ∉ trtable.map Prod.snd) :
    ∃ r H, laterOn forms env S props (besideU ext b) = .ok (besideU ext r) ∧
      Comes S forms props b (namesOf S.ofProp (keys b.blk.vars) (keys b.blk.ivars) props)
      (colsOf S.ofProp (keys b.blk.vars) (keys b.blk.ivars) props) H r := by
  obtain ⟨r, H, h1, h2⟩ := laterOn_given forms env S htab hcast props b hpn hlink hcalm
    fun fm v I J hw => absurd hw (hno fm v I J)
  refine ⟨r, H, ?_, h2⟩
  obtain ⟨b2, v1, v2, v3, v4⟩ := values_beside (ext := ext) env S.ofProp b props hpn hcalm.props hx
  have hnames : keys b2.blk.vars ++ keys b2.blk.ivars = namesOf S.ofProp (keys b.blk.vars) (keys b.blk.ivars) props := by
    rw [v4, v3]
    rfl
  have hfr : Free ext b2.blk := by
    intro p hp
    rw [v3] at hp
    exact ⟨hlink.named p hp, fun nd e he hn => (hfree nd e he).1 (hn ▸ List.mem_map_of_mem hp)⟩
  obtain ⟨g1, g2⟩ := guessUnit_beside (ext := ext) env S.mul S.cmul S.guess b2 hfr (by rw [hnames]; exact hcalm.title)
  unfold laterOn at h1 ⊢
  rw [v1] at h1
  rw [v2]
  simp only at h1 ⊢
  rw [g1]
  cases hg : FixUnit.guessUnit env S.mul S.cmul S.guess b2 with
  | error e => rw [hg] at h1; cases h1
  | ok b3 =>
    rw [hg] at h1
    simp only [Except.map] at h1 ⊢
    obtain ⟨k1, k2, k3⟩ := g2 b3 hg
    rw [show (besideU ext b3).blk = beside ext b3.blk from rfl, normalize_beside env S.table htab b3.blk k1
      (fun nd e he => (hfree nd e he).2) (by
        intro k hk
        rw [k2] at hk
        exact hcalm.calls k (by rw [← hnames]; exact List.mem_append_left _ hk))]
    cases hn : Normalize.normalize env S.table b3.blk with
    | error e => rw [hn] at h1; cases h1
    | ok b4 =>
      rw [hn] at h1
      simp only [Except.map] at h1 ⊢
      obtain ⟨b2', c1, c2, c3, -⟩ := C78_values env S.ofProp b props hpn hcalm.props
      rw [v1] at c1
      cases c1
      have hlink2 : Linked b2.blk := by
        refine ⟨by rw [v3]; exact hlink.nodup, by rw [v3]; exact hlink.named, ?_⟩
        intro w hw d hdd
        rw [v3]
        rw [c2] at hw
        rcases List.mem_append.1 hw with hw | hw
        · exact hlink.known w hw d hdd
        · obtain ⟨p, hp, e⟩ := List.mem_filterMap.1 hw
          unfold New at e
          split at e
          · cases e
          · split at e
            · cases e
            · cases e
              simp at hdd
      have hnd : (namesOf S.ofProp (keys b.blk.vars) (keys b.blk.ivars) props).Nodup := names_nodup hpn hcalm.nodup
      have hcm : Calm b2.blk := by
        refine ⟨hlink2, by rw [hnames]; exact hnd, by rw [hnames]; exact hcalm.title, by rw [hnames]; exact hcalm.calls, ?_⟩
        have : Normalize.vnames b2.blk ++ Normalize.dnames b2.blk = _ := hnames
        unfold Normalize.NoClash
        rw [this]
        exact hcalm.clash
      obtain ⟨b3', b4', H', q1, q2, q3, q4, q5, q6, -⟩ := names_calm env S htab b2.blk b2.units hcm
      have q1 : FixUnit.guessUnit env S.mul S.cmul S.guess b2 = .ok b3' := q1
      rw [hg] at q1
      cases q1
      rw [hn] at q2
      cases q2
      have hT : Normalize.viaTable b2.blk trtable = canon (namesOf S.ofProp (keys b.blk.vars) (keys b.blk.ivars) props) := by
        funext k
        rw [← hnames]
        rfl
      have hk4 : keys b4.vars = colsOf S.ofProp (keys b.blk.vars) (keys b.blk.ivars) props := by
        rw [q6]
        unfold colsOf
        rw [← v4, ← hT]
        simp [keys, Function.comp_def]
      have hm4 := makeMatricesBy_none forms b4 (List.nodup_append.1 q4).1 (by rw [hk4]; exact hno)
      have hm : Assemble.makeMatricesBy forms env S.num S.cast b4 = .ok b4 := by
        unfold Assemble.makeMatricesBy
        rw [hm4]
        rfl
      have hm' : Assemble.makeMatricesBy forms env S.num S.cast (beside ext b4) = .ok (beside ext b4) := by
        unfold Assemble.makeMatricesBy
        rw [fst_beside, hm4]
        rfl
      rw [hm] at h1
      rw [hm']
      cases h1
      simp only [fst_beside, besideU]

end HF.Readers.Treat
