import Verif.Readers.Normalize
import Verif.DataBlock.Examples
import Mathlib.Data.List.Nodup
/-
C24: normalising names.
-/
namespace HF.Readers.Normalize

open HF.DataBlock
open HF.DataDict.Spec
open HF.DataDict hiding rename delitem

variable {β α : Type}

/-! ### Specification -/

/-- What a dimension says: its name, class, coordinates and unit. -/
structure Label (β : Type) where
  name : String
  cls : Cls
  data : List β
  unit : Option String

def label (d : Dim β) : Label β := ⟨d.name, d.cls, d.data, d.unit⟩

def Label.ren (g : String → String) (l : Label β) : Label β := ⟨g l.name, l.cls, l.data, l.unit⟩

/-- What a block holds: names, values and dimensions of the variables, and its dimensions. -/
def varView (b : Block β α) : List (String × Nd α × List (Label β)) :=
  b.vars.map fun p => (p.1, p.2.nd, p.2.dims.map label)

def dimView (b : Block β α) : List (String × Label β) := b.ivars.map fun p => (p.1, label p.2)

/-- `b'` is `b` with variables renamed by `f` and dimensions renamed by `g`; all else is the same:
number and order of the variables, values, coordinates and units. -/
structure Renamed (f g : String → String) (b b' : Block β α) : Prop where
  vars : varView b' = (varView b).map fun p => (f p.1, p.2.1, p.2.2.map (Label.ren g))
  dims : dimView b' = (dimView b).map fun p => (g p.1, p.2.ren g)

/-- Names of variables and dimensions. -/
def vnames (b : Block β α) : List String := b.vars.map Prod.fst
def dnames (b : Block β α) : List String := b.ivars.map Prod.fst

/-- Blocks as they are built by assignments: no name is used twice, every dimension is known under
its name, and the dimensions of the variables are those of the block. -/
structure WF (b : Block β α) : Prop where
  names : (vnames b ++ dnames b).Nodup
  named : ∀ p ∈ dimView b, p.2.name = p.1
  known : ∀ p ∈ varView b, ∀ l ∈ p.2.2, ∃ q ∈ dimView b, q.2 = l

/-! ### Lemmas -/

theorem vnames_view (b : Block β α) : vnames b = (varView b).map Prod.fst := by
  simp [vnames, varView, Function.comp_def]

theorem dnames_view (b : Block β α) : dnames b = (dimView b).map Prod.fst := by
  simp [dnames, dimView, Function.comp_def]

theorem Renamed.vnames {f g : String → String} {b b' : Block β α} (h : Renamed f g b b') :
    vnames b' = (vnames b).map f := by
  rw [vnames_view, vnames_view, h.vars]; simp [Function.comp_def]

theorem Renamed.dnames {f g : String → String} {b b' : Block β α} (h : Renamed f g b b') :
    dnames b' = (dnames b).map g := by
  rw [dnames_view, dnames_view, h.dims]; simp [Function.comp_def]

theorem Renamed.refl (b : Block β α) : Renamed id id b b := by
  have hr : ∀ l : Label β, l.ren id = l := fun _ => rfl
  refine ⟨?_, ?_⟩
  · refine (List.map_id'' ?_ _).symm
    intro p
    rw [List.map_id'' hr]; rfl
  · exact (List.map_id'' (fun _ => rfl) _).symm

theorem Renamed.trans {f g f' g' : String → String} {b b' b'' : Block β α} (h : Renamed f g b b')
    (h' : Renamed f' g' b' b'') : Renamed (f' ∘ f) (g' ∘ g) b b'' := by
  refine ⟨?_, ?_⟩
  · rw [h'.vars, h.vars, List.map_map]
    refine List.map_congr_left fun p _ => ?_
    simp only [Function.comp, List.map_map]
    rfl
  · rw [h'.dims, h.dims, List.map_map]
    rfl

theorem WF.label_mem {b : Block β α} (h : WF b) {p : String × Nd α × List (Label β)}
    (hp : p ∈ varView b) {l : Label β} (hl : l ∈ p.2.2) : l.name ∈ DataBlock.keys b.ivars := by
  obtain ⟨q, hq, rfl⟩ := h.known p hp l hl
  rw [h.named q hq]
  have := List.mem_map_of_mem (f := Prod.fst) hq
  rw [← dnames_view] at this
  exact this

theorem Renamed.congr {f g f' g' : String → String} {b b' : Block β α} (hw : WF b)
    (h : Renamed f g b b') (hf : ∀ k ∈ Normalize.vnames b, f k = f' k)
    (hg : ∀ k ∈ Normalize.dnames b, g k = g' k) : Renamed f' g' b b' := by
  refine ⟨?_, ?_⟩
  · rw [h.vars]
    refine List.map_congr_left fun p hp => ?_
    rw [hf p.1 (by rw [vnames_view]; exact List.mem_map_of_mem hp)]
    have : p.2.2.map (Label.ren g) = p.2.2.map (Label.ren g') := by
      refine List.map_congr_left fun l hl => ?_
      simp only [Label.ren, hg l.name (hw.label_mem hp hl)]
    rw [this]
  · rw [h.dims]
    refine List.map_congr_left fun p hp => ?_
    have e := hw.named p hp
    have e2 := hg p.1 (by rw [dnames_view]; exact List.mem_map_of_mem hp)
    simp only [Label.ren, e, e2]

theorem Renamed.wf {f g : String → String} {b b' : Block β α} (hw : WF b) (h : Renamed f g b b')
    (hn : (Normalize.vnames b' ++ Normalize.dnames b').Nodup) : WF b' where
  names := hn
  named := by
    rw [h.dims]
    intro p hp
    obtain ⟨q, hq, rfl⟩ := List.mem_map.1 hp
    simp only [Label.ren, hw.named q hq]
  known := by
    rw [h.vars, h.dims]
    intro p hp l hl
    obtain ⟨q, hq, rfl⟩ := List.mem_map.1 hp
    simp only [List.mem_map] at hl
    obtain ⟨l', hl', rfl⟩ := hl
    obtain ⟨r, hr, rfl⟩ := hw.known q hq l' hl'
    exact ⟨_, List.mem_map.2 ⟨r, hr, rfl⟩, rfl⟩

/-- One name replaced. -/
def swap (o n k : String) : String := if k = o then n else k

theorem swap_nodup {l : List String} (hl : l.Nodup) (o n : String) (hn : n ∉ l) :
    (l.map (swap o n)).Nodup := by
  refine (List.nodup_map_iff_inj_on hl).2 ?_
  intro x hx y hy h
  unfold swap at h
  split at h <;> split at h
  · simp_all
  · subst h; exact absurd hy hn
  · subst h; exact absurd hx hn
  · exact h

theorem swap_of_not_mem {l : List String} {o n : String} (h : o ∉ l) : l.map (swap o n) = l := by
  have := List.map_id'' (f := fun x : String => x) (fun _ => rfl) l
  conv_rhs => rw [← this]
  refine List.map_congr_left fun k hk => ?_
  have : k ≠ o := fun e => h (e ▸ hk)
  simp [swap, this]

/-- Renaming a dimension to a new name. -/
theorem rename_dim (env : Env β α) {b : Block β α} (hw : WF b) {o n : String} (ho : o ∈ dnames b)
    (hn : n ∉ vnames b) (hn' : n ∉ dnames b) :
    ∃ b', renameVar env b o n = (b', .ok ()) ∧ Renamed (swap o n) (swap o n) b b' ∧ WF b' := by
  have hon : o ≠ n := fun e => hn' (e ▸ ho)
  have hov : o ∉ vnames b := by
    intro h
    have := List.nodup_append.1 hw.names
    exact this.2.2 o h o ho rfl
  obtain ⟨d, hd⟩ : ∃ d, lookup b.ivars o = some d := by
    have := (lookup_isSome_iff b.ivars o).2 ho
    exact Option.isSome_iff_exists.1 this
  have hdn : d.name = o := hw.named (o, label d) (List.mem_map.2 ⟨(o, d), lookup_mem hd, rfl⟩)
  obtain ⟨d', hd'⟩ : ∃ d', d' = Dim.copyFrom env.dfltDim d.cls d (name := some n) := ⟨_, rfl⟩
  have hd'l : label d' = ⟨n, d.cls, d.data, d.unit⟩ := by
    subst hd'; simp [label, Dim.copyFrom]
  have hd'n : d'.name = n := congrArg Label.name hd'l
  have hmem : member b.ivars n = false := by
    rw [Bool.eq_false_iff]; intro h; exact hn' ((member_iff _ _).1 h)
  have huniq : ∀ p ∈ b.ivars, p.1 = o → p = (o, d) := by
    intro p hp e
    have hnd : (b.ivars.map Prod.fst).Nodup := (List.nodup_append.1 hw.names).2.1
    exact List.inj_on_of_nodup_map hnd hp (lookup_mem hd) e
  have hri : renameIvar b.ivars d d' = some (b.ivars.map fun p => if p.1 = o then (n, d') else p) := by
    unfold renameIvar
    rw [hdn, hd]
    simp only [hd'n, Spec.rename, hon, if_false, hmem, Bool.false_eq_true, Option.some.injEq]
    unfold assign
    have hm2 : member (b.ivars.map fun p => if p.1 = o then (n, d) else p) n = true := by
      rw [member_iff]
      simp only [List.map_map, List.mem_map, Function.comp]
      exact ⟨(o, d), lookup_mem hd, by simp⟩
    rw [if_pos hm2]
    unfold Spec.modify
    rw [List.map_map]
    refine List.map_congr_left fun p hp => ?_
    simp only [Function.comp]
    by_cases e : p.1 = o
    · simp [e]
    · have e2 : p.1 ≠ n := fun e2 => hn' (e2 ▸ List.mem_map_of_mem hp)
      simp [e, e2]
  refine ⟨{ b with ivars := b.ivars.map fun p => if p.1 = o then (n, d') else p, vars := b.vars.map fun p => (p.1, replaceDimArr d d' p.2) }, ?_, ?_⟩
  · unfold renameVar
    rw [hd]
    simp only [← hd', replaceDim, hri]
  · have hR : Renamed (swap o n) (swap o n) b { b with ivars := b.ivars.map fun p => if p.1 = o then (n, d') else p, vars := b.vars.map fun p => (p.1, replaceDimArr d d' p.2) } := by
      refine ⟨?_, ?_⟩
      · simp only [varView, List.map_map]
        refine List.map_congr_left fun p hp => ?_
        simp only [Function.comp]
        have e1 : swap o n p.1 = p.1 := by
          have : p.1 ≠ o := fun e => hov (e ▸ List.mem_map_of_mem hp)
          simp [swap, this]
        rw [e1]
        simp only [replaceDimArr, List.map_map, Prod.mk.injEq, true_and]
        refine List.map_congr_left fun c hc => ?_
        simp only [Function.comp, hdn, Label.ren, swap]
        have hk := hw.known (p.1, p.2.nd, p.2.dims.map label) (List.mem_map.2 ⟨p, hp, rfl⟩) (label c)
          (List.mem_map_of_mem hc)
        obtain ⟨q, hq, hql⟩ := hk
        by_cases e : c.name = o
        · have e' : o = c.name := e.symm
          simp only [← e', if_true, hd'l]
          -- the dimension is the one of the block
          obtain ⟨q', hq', rfl⟩ := List.mem_map.1 hq
          have hq1 : q'.1 = o := by
            have := hw.named _ hq
            simp only at this hql
            rw [hql] at this
            exact this.symm.trans e
          have := huniq q' hq' hq1
          subst this
          simp only at hql
          have h1 := congrArg Label.cls hql
          have h2 := congrArg Label.data hql
          have h3 := congrArg Label.unit hql
          simp only [label] at h1 h2 h3
          simp [label, h1, h2, h3, e]
        · have e' : ¬ o = c.name := fun h => e h.symm
          rw [if_neg e']
          show _ = Label.mk (if (label c).name = o then n else (label c).name) _ _ _
          rw [if_neg (show ¬ (label c).name = o from e)]
      · simp only [dimView, List.map_map]
        refine List.map_congr_left fun p hp => ?_
        simp only [Function.comp]
        by_cases e : p.1 = o
        · have := huniq p hp e
          subst this
          simp only [swap, if_true, hd'l, Label.ren]
          simp [label, hdn]
        · have hpn : p.2.name = p.1 := hw.named (p.1, label p.2) (List.mem_map.2 ⟨p, hp, rfl⟩)
          simp only [if_neg e, swap, Label.ren]
          simp [label, hpn, e]
    refine ⟨hR, hR.wf hw ?_⟩
    rw [hR.vnames, hR.dnames, ← List.map_append]
    refine swap_nodup hw.names o n ?_
    simp [hn, hn']

/-- Renaming a variable to a new name. -/
theorem rename_var (env : Env β α) {b : Block β α} (hw : WF b) {o n : String} (ho : o ∈ vnames b)
    (hn : n ∉ vnames b) (hn' : n ∉ dnames b) :
    ∃ b', renameVar env b o n = (b', .ok ()) ∧ Renamed (swap o n) id b b' ∧ WF b' := by
  have hon : o ≠ n := fun e => hn (e ▸ ho)
  have hod : o ∉ dnames b := by
    intro h
    have := List.nodup_append.1 hw.names
    exact this.2.2 o ho o h rfl
  obtain ⟨v, hv⟩ : ∃ v, lookup b.vars o = some v :=
    Option.isSome_iff_exists.1 ((lookup_isSome_iff b.vars o).2 ho)
  have hmem : member b.vars n = false := by
    rw [Bool.eq_false_iff]; intro h; exact hn ((member_iff _ _).1 h)
  have huniq : ∀ p ∈ b.vars, p.1 = o → p = (o, v) := by
    intro p hp e
    have hnd : (b.vars.map Prod.fst).Nodup := (List.nodup_append.1 hw.names).1
    exact List.inj_on_of_nodup_map hnd hp (lookup_mem hv) e
  refine ⟨{ b with vars := b.vars.map fun p => if p.1 = o then (n, v) else p }, ?_, ?_⟩
  · unfold renameVar
    rw [(lookup_none_iff' b.ivars o).2 hod]
    simp only [hv, Spec.rename, hon, if_false, hmem, Bool.false_eq_true]
  · have hR : Renamed (swap o n) id b { b with vars := b.vars.map fun p => if p.1 = o then (n, v) else p } := by
      refine ⟨?_, (List.map_id'' (fun _ => rfl) _).symm⟩
      simp only [varView, List.map_map]
      refine List.map_congr_left fun p hp => ?_
      have hr : ∀ l : Label β, l.ren id = l := fun _ => rfl
      simp only [Function.comp]
      rw [List.map_id'' hr]
      by_cases e : p.1 = o
      · have := huniq p hp e
        subst this
        simp [swap]
      · simp [swap, e]
    refine ⟨hR, hR.wf hw ?_⟩
    rw [hR.vnames, hR.dnames, List.map_id]
    have := swap_nodup hw.names o n (by simp [hn, hn'])
    rw [List.map_append, swap_of_not_mem hod] at this
    exact this

/-! ### The table -/

/-- The new name of `k` by the entries of `t`, unless the new name is already in use. -/
def viaTable (b : Block β α) (t : List (String × String)) (k : String) : String :=
  match t.find? (fun e => e.1 = k) with
  | some e => if e.2 ∈ vnames b ++ dnames b then k else e.2
  | none => k

/-- No two names in use are to be replaced by the same new name. -/
def NoClash (b : Block β α) (t : List (String × String)) : Prop :=
  ∀ e ∈ t, ∀ e' ∈ t, e.1 ∈ vnames b ++ dnames b → e'.1 ∈ vnames b ++ dnames b →
    e.2 ∉ vnames b ++ dnames b → e.2 = e'.2 → e.1 = e'.1

theorem contains_iff (b : Block β α) (k : String) : contains b k = true ↔ k ∈ vnames b ++ dnames b := by
  unfold contains
  rw [Bool.or_eq_true, member_iff, member_iff, List.mem_append]; rfl

theorem find_of_nodup {t : List (String × String)} (hn : (t.map Prod.fst).Nodup) {e : String × String}
    (he : e ∈ t) : t.find? (fun x => x.1 = e.1) = some e := by
  cases h : t.find? (fun x => x.1 = e.1) with
  | none =>
    have := List.find?_eq_none.1 h e he
    simp at this
  | some x =>
    have h1 := List.find?_some h
    have h2 := List.mem_of_find?_eq_some h
    simp only [decide_eq_true_eq] at h1
    rw [List.inj_on_of_nodup_map hn h2 he h1]

theorem viaTable_append (b : Block β α) (t : List (String × String)) (e : String × String) (k : String)
    (he : e.1 ∉ t.map Prod.fst) :
    viaTable b (t ++ [e]) k =
      if k = e.1 then (if e.2 ∈ vnames b ++ dnames b then k else e.2) else viaTable b t k := by
  unfold viaTable
  rw [List.find?_append]
  by_cases h : k = e.1
  · have : t.find? (fun x => x.1 = k) = none := by
      rw [List.find?_eq_none]
      intro x hx hc
      simp only [decide_eq_true_eq] at hc
      exact he (h ▸ hc ▸ List.mem_map_of_mem hx)
    rw [this]
    simp [h]
  · have h' : ¬ e.1 = k := fun e => h e.symm
    rw [if_neg h]
    cases t.find? (fun x => x.1 = k) with
    | some x => rfl
    | none => simp [h']

/-- The names after some entries of the table: old names or new names of these entries. -/
theorem viaTable_cases (b : Block β α) (t : List (String × String)) (k : String) :
    viaTable b t k = k ∨ ∃ e ∈ t, e.1 = k ∧ viaTable b t k = e.2 ∧ e.2 ∉ vnames b ++ dnames b := by
  unfold viaTable
  cases h : t.find? (fun x => x.1 = k) with
  | none => exact Or.inl rfl
  | some e =>
    have h1 := List.find?_some h
    have h2 := List.mem_of_find?_eq_some h
    simp only [decide_eq_true_eq] at h1
    simp only
    split
    · exact Or.inl rfl
    · rename_i h3
      exact Or.inr ⟨e, h2, h1, rfl, h3⟩

theorem tableStep_inv (env : Env β α) (P : Block β α → Prop)
    (hP : ∀ (b b' : Block β α) (o n : String), WF b → n ∉ vnames b ++ dnames b → renameVar env b o n = (b', .ok ()) →
      P b → P b')
    (b : Block β α) (hb : WF b) (todo : List (String × String)) :
    ∀ (done : List (String × String)) (out : Block β α),
    ((done ++ todo).map Prod.fst).Nodup →
    (∀ e ∈ done ++ todo, ∀ e' ∈ done ++ todo, e.2 ≠ e'.1) →
    NoClash b (done ++ todo) → WF out → Renamed (viaTable b done) (viaTable b done) b out →
    ∃ b', tableStep env b out todo = .ok b' ∧ WF b' ∧ (P out → P b') ∧
      Renamed (viaTable b (done ++ todo)) (viaTable b (done ++ todo)) b b' := by
  induction todo with
  | nil => intro done out _ _ _ hw hR; exact ⟨out, rfl, hw, id, by simpa using hR⟩
  | cons e t ih =>
    intro done out hn hnew hcl hw hR
    have happ : done ++ e :: t = (done ++ [e]) ++ t := by simp
    have hed : e.1 ∉ done.map Prod.fst := by
      rw [List.map_append, List.nodup_append] at hn
      intro h
      exact hn.2.2 _ h _ (by simp) rfl
    have hmem : e ∈ done ++ e :: t := by simp
    -- the names of the current block
    have hnames : vnames out ++ dnames out = (vnames b ++ dnames b).map (viaTable b done) := by
      rw [hR.vnames, hR.dnames, List.map_append]
    have hold : e.1 ∈ vnames out ++ dnames out ↔ e.1 ∈ vnames b ++ dnames b := by
      rw [hnames, List.mem_map]
      have hself : viaTable b done e.1 = e.1 := by
        unfold viaTable
        have : done.find? (fun x => x.1 = e.1) = none := by
          rw [List.find?_eq_none]
          intro x hx hc
          simp only [decide_eq_true_eq] at hc
          exact hed (hc ▸ List.mem_map_of_mem hx)
        rw [this]
      constructor
      · rintro ⟨k, hk, h⟩
        rcases viaTable_cases b done k with h1 | ⟨e', h1, h2, h3, _⟩
        · rw [h1] at h; exact h ▸ hk
        · exact absurd (h3.symm.trans h) (hnew e' (by simp [h1]) e hmem)
      · intro h; exact ⟨e.1, h, hself⟩
    have hselfo : viaTable b done e.1 = e.1 := by
      rcases viaTable_cases b done e.1 with h | ⟨e', h1, h2, _⟩
      · exact h
      · exact absurd (h2 ▸ List.mem_map_of_mem h1) hed
    -- conclusion for any next block
    have next : ∀ out', WF out' → Renamed (viaTable b (done ++ [e])) (viaTable b (done ++ [e])) b out' →
        ∃ b', tableStep env b out' t = .ok b' ∧ WF b' ∧ (P out' → P b') ∧
          Renamed (viaTable b (done ++ e :: t)) (viaTable b (done ++ e :: t)) b b' := by
      intro out' hw' hR'
      rw [happ]
      exact ih (done ++ [e]) out' (happ ▸ hn) (happ ▸ hnew) (happ ▸ hcl) hw' hR'
    -- if nothing is renamed
    have same : (e.1 ∉ vnames b ++ dnames b ∨ e.2 ∈ vnames b ++ dnames b) →
        Renamed (viaTable b (done ++ [e])) (viaTable b (done ++ [e])) b out := by
      intro h
      have hk : ∀ k ∈ vnames b ++ dnames b, viaTable b done k = viaTable b (done ++ [e]) k := by
        intro k hk
        rw [viaTable_append b done e k hed]
        split
        · rename_i hke
          subst hke
          rcases h with h | h
          · exact absurd hk h
          · rw [if_pos h, hselfo]
        · rfl
      exact hR.congr hb (fun k hk' => hk k (by simp [hk'])) (fun k hk' => hk k (by simp [hk']))
    unfold tableStep
    by_cases hskip : contains b e.1 = true ∧ contains b e.2 = true
    · rw [if_pos (by rw [hskip.1, hskip.2]; rfl)]
      exact next out hw (same (Or.inr ((contains_iff b e.2).1 hskip.2)))
    · rw [if_neg (by rw [Bool.and_eq_true]; exact hskip)]
      rw [contains_iff, contains_iff] at hskip
      by_cases ho : e.1 ∈ vnames b ++ dnames b
      · have hn2 : e.2 ∉ vnames b ++ dnames b := fun h => hskip ⟨ho, h⟩
        have hfresh : e.2 ∉ vnames out ++ dnames out := by
          rw [hnames, List.mem_map]
          rintro ⟨k, hk, h⟩
          rcases viaTable_cases b done k with h1 | ⟨e', h1, h2, h3, h4⟩
          · rw [h1] at h; exact hn2 (h ▸ hk)
          · have := hcl e' (by simp [h1]) e hmem (h2 ▸ hk) ho h4 (h3.symm.trans h)
            exact hed (this ▸ List.mem_map_of_mem h1)
        have hf := List.mem_append.not.1 hfresh
        have hkey : ∀ k ∈ vnames b ++ dnames b, swap e.1 e.2 (viaTable b done k) =
            viaTable b (done ++ [e]) k := by
          intro k hk
          rw [viaTable_append b done e k hed]
          by_cases h : k = e.1
          · rw [if_pos h, if_neg hn2, h, hselfo]; simp [swap]
          · rw [if_neg h]
            have : viaTable b done k ≠ e.1 := by
              rcases viaTable_cases b done k with h1 | ⟨e', h1, h2, h3, _⟩
              · rw [h1]; exact h
              · rw [h3]; exact hnew e' (by simp [h1]) e hmem
            simp [swap, this]
        rcases List.mem_append.1 (hold.2 ho) with hv | hd
        · obtain ⟨out', h1, h2, h3⟩ := rename_var env hw hv (fun h => hf (Or.inl h)) (fun h => hf (Or.inr h))
          rw [h1]
          have hp := hP out out' e.1 e.2 hw hfresh h1
          refine Exists.imp (fun _ h => ⟨h.1, h.2.1, fun x => h.2.2.1 (hp x), h.2.2.2⟩) (next out' h3 ?_)
          refine (hR.trans h2).congr hb ?_ ?_
          · intro k hk; exact hkey k (by simp [hk])
          · intro k hk
            rw [← hkey k (by simp [hk])]
            have : viaTable b done k ∈ dnames out := by
              rw [hR.dnames]; exact List.mem_map_of_mem hk
            have hne : viaTable b done k ≠ e.1 := by
              intro e'
              rw [e'] at this
              exact (List.nodup_append.1 hw.names).2.2 _ hv _ this rfl
            simp [swap, hne]
        · obtain ⟨out', h1, h2, h3⟩ := rename_dim env hw hd (fun h => hf (Or.inl h)) (fun h => hf (Or.inr h))
          rw [h1]
          have hp := hP out out' e.1 e.2 hw hfresh h1
          refine Exists.imp (fun _ h => ⟨h.1, h.2.1, fun x => h.2.2.1 (hp x), h.2.2.2⟩) (next out' h3 ?_)
          refine (hR.trans h2).congr hb ?_ ?_
          · intro k hk; exact hkey k (by simp [hk])
          · intro k hk; exact hkey k (by simp [hk])
      · -- nothing to rename
        have hno : e.1 ∉ vnames out ++ dnames out := fun h => ho (hold.1 h)
        have hno' := List.mem_append.not.1 hno
        have hr : renameVar env out e.1 e.2 = (out, .ok ()) := by
          unfold renameVar
          rw [(lookup_none_iff' out.ivars e.1).2 (fun h => hno' (Or.inr h))]
          simp only [(lookup_none_iff' out.vars e.1).2 (fun h => hno' (Or.inl h))]
        rw [hr]
        exact next out hw (same (Or.inl ho))

/-! ### Removing an enclosing function -/

theorem loopStep_spec (env : Env β α) (tr : String → String) (b : Block β α) (hb : WF b)
    (hd : ∀ k ∈ vnames b, tr k ≠ k → tr k ∉ dnames b) (todo : List String) :
    ∀ (done : List String) (out : Block β α), done ++ todo = vnames b → WF out →
    Renamed (fun k => if k ∈ done then tr k else k) id b out →
    (∃ b', loopStep env tr out todo = .ok b' ∧ WF b' ∧ Renamed tr id b b') ∨
    (loopStep env tr out todo = .error .valueError ∧
      ∃ k ∈ vnames b, tr k ≠ k ∧ ∃ k' ∈ vnames b, k' ≠ k ∧ (k' = tr k ∨ tr k' = tr k)) := by
  induction todo with
  | nil =>
    intro done out hdone hw hR
    refine Or.inl ⟨out, rfl, hw, hR.congr hb ?_ fun _ _ => rfl⟩
    intro k hk
    simp only [List.append_nil] at hdone
    simp [hdone, hk]
  | cons k t ih =>
    intro done out hdone hw hR
    have hn : (vnames b).Nodup := (List.nodup_append.1 hb.names).1
    have hkd : k ∉ done := by
      rw [← hdone, List.nodup_append] at hn
      intro h; exact hn.2.2 k h k (by simp) rfl
    have hkb : k ∈ vnames b := by rw [← hdone]; simp
    have hvn := hR.vnames
    have hdn : dnames out = dnames b := by rw [hR.dnames, List.map_id]
    have hko : k ∈ vnames out := by
      rw [hvn, List.mem_map]; exact ⟨k, hkb, by simp [hkd]⟩
    have happ : (done ++ [k]) ++ t = vnames b := by simpa using hdone
    unfold loopStep
    by_cases h1 : tr k = k
    · rw [if_pos h1]
      refine ih (done ++ [k]) out happ hw (hR.congr hb ?_ fun _ _ => rfl)
      intro x hx
      by_cases hxk : x = k
      · subst hxk; simp [h1]
      · simp [hxk]
    · rw [if_neg h1]
      by_cases h2 : member out.vars (tr k) = true
      · rw [if_pos h2]
        refine Or.inr ⟨rfl, k, hkb, h1, ?_⟩
        have := (member_iff _ _).1 h2
        have : tr k ∈ vnames out := this
        rw [hvn, List.mem_map] at this
        obtain ⟨x, hx, hxe⟩ := this
        refine ⟨x, hx, ?_, ?_⟩
        · rintro rfl
          rw [if_neg hkd] at hxe
          exact h1 hxe.symm
        · split at hxe
          · exact Or.inr hxe
          · exact Or.inl hxe
      · rw [if_neg h2]
        have hfr : tr k ∉ vnames out := fun h => h2 ((member_iff _ _).2 h)
        obtain ⟨out', e1, e2, e3⟩ := rename_var env hw hko hfr (hdn ▸ hd k hkb h1)
        rw [e1]
        refine ih (done ++ [k]) out' happ e3 ((hR.trans e2).congr hb ?_ fun _ _ => rfl)
        intro x hx
        simp only [Function.comp]
        by_cases hxk : x = k
        · subst hxk; simp [hkd, swap]
        · have hno : (vnames out).Nodup := (List.nodup_append.1 hw.names).1
          rw [hvn] at hno
          have hne : (if x ∈ done then tr x else x) ≠ k := by
            intro hc
            have := (List.nodup_map_iff_inj_on hn).1 hno x hx k hkb (by rw [hc, if_neg hkd])
            exact hxk this
          unfold swap
          rw [if_neg hne]
          simp [hxk]

theorem pass_spec (env : Env β α) (tr : String → String) (b : Block β α) (hb : WF b)
    (hd : ∀ k ∈ vnames b, tr k ≠ k → tr k ∉ dnames b) :
    (∃ b', pass env tr b = .ok b' ∧ WF b' ∧ Renamed tr id b b') ∨
    (pass env tr b = .error .valueError ∧
      ∃ k ∈ vnames b, tr k ≠ k ∧ ∃ k' ∈ vnames b, k' ≠ k ∧ (k' = tr k ∨ tr k' = tr k)) := by
  refine loopStep_spec env tr b hb hd (vnames b) [] b (by simp) hb ?_
  exact (Renamed.refl b).congr hb (fun k _ => by simp) fun _ _ => rfl

/-! ### C24 -/

/-- The table is a function, and no new name is an old name. -/
theorem trtable_ok : (trtable.map Prod.fst).Nodup ∧ ∀ e ∈ trtable, ∀ e' ∈ trtable, e.2 ≠ e'.1 := by
  decide +kernel

theorem table_inv (env : Env β α) (P : Block β α → Prop)
    (hP : ∀ (b b' : Block β α) (o n : String), WF b → n ∉ vnames b ++ dnames b → renameVar env b o n = (b', .ok ()) →
      P b → P b') (table : List (String × String)) (ht : table.Perm trtable)
    (b : Block β α) (hb : WF b) (hc : NoClash b trtable) :
    ∃ b', tableStep env b b table = .ok b' ∧ WF b' ∧ (P b → P b') ∧
      Renamed (viaTable b trtable) (viaTable b trtable) b b' := by
  have hn : (table.map Prod.fst).Nodup := (ht.map _).nodup_iff.2 trtable_ok.1
  obtain ⟨b', h1, h2, h0, h3⟩ := tableStep_inv env P hP b hb table [] b (by simpa using hn)
    (by
      simp only [List.nil_append]
      intro e he e' he'
      exact trtable_ok.2 e (ht.mem_iff.1 he) e' (ht.mem_iff.1 he'))
    (by
      simp only [List.nil_append]
      intro e he e' he'
      exact hc e (ht.mem_iff.1 he) e' (ht.mem_iff.1 he'))
    hb ((Renamed.refl b).congr hb (fun _ _ => rfl) fun _ _ => rfl)
  refine ⟨b', h1, h2, h0, h3.congr hb ?_ ?_⟩ <;>
  · intro k _
    simp only [List.nil_append]
    unfold viaTable
    have : table.find? (fun e => e.1 = k) = trtable.find? (fun e => e.1 = k) := by
      cases h : trtable.find? (fun e => e.1 = k) with
      | none =>
        rw [List.find?_eq_none] at h ⊢
        intro e he; exact h e (ht.mem_iff.1 he)
      | some e =>
        have h1 := List.find?_some h
        have h2 := List.mem_of_find?_eq_some h
        simp only [decide_eq_true_eq] at h1
        subst h1
        exact find_of_nodup hn (ht.mem_iff.2 h2)
    rw [this]

/-- C24, first part: replacing the names by the table, in whatever order. -/
theorem C24_table (env : Env β α) (table : List (String × String)) (ht : table.Perm trtable)
    (b : Block β α) (hb : WF b) (hc : NoClash b trtable) :
    ∃ b', tableStep env b b table = .ok b' ∧ WF b' ∧
      Renamed (viaTable b trtable) (viaTable b trtable) b b' := by
  obtain ⟨b', c1, c2, -, c3⟩ := table_inv env (fun _ => True) (by simp) table ht b hb hc
  exact ⟨b', c1, c2, c3⟩

/-- The new names of variables. -/
def newName (b : Block β α) (k : String) : String :=
  translate "Std" "s_" (translate "Mean" "" (viaTable b trtable k))

/-- No variable gets the name of a dimension by removing the function. -/
structure Clear (b : Block β α) : Prop where
  mean : ∀ k ∈ vnames b, ∀ d ∈ dnames b, translate "Mean" "" (viaTable b trtable k) ≠ viaTable b trtable k →
    translate "Mean" "" (viaTable b trtable k) ≠ viaTable b trtable d
  std : ∀ k ∈ vnames b, ∀ d ∈ dnames b, newName b k ≠ translate "Mean" "" (viaTable b trtable k) →
    newName b k ≠ viaTable b trtable d

/-- C24: normalising either raises an error because two variables would get the same name, or it
keeps number, order, values and dimensions of the variables, and changes the names only. -/
theorem C24_normalize (env : Env β α) (table : List (String × String)) (ht : table.Perm trtable)
    (b : Block β α) (hb : WF b) (hc : NoClash b trtable) (hcl : Clear b) :
    (∃ b', normalize env table b = .ok b' ∧ Renamed (newName b) (viaTable b trtable) b b') ∨
    (normalize env table b = .error .valueError ∧
      ∃ k ∈ vnames b, ∃ k' ∈ vnames b, k' ≠ k ∧ ∃ n ∈ [viaTable b trtable k', translate "Mean" "" (viaTable b trtable k'), newName b k'],
        n = translate "Mean" "" (viaTable b trtable k) ∨ n = newName b k) := by
  obtain ⟨b1, h1, w1, r1⟩ := C24_table env table ht b hb hc
  unfold normalize
  rw [h1]
  simp only
  have d1 : ∀ k ∈ vnames b1, translate "Mean" "" k ≠ k → translate "Mean" "" k ∉ dnames b1 := by
    intro k hk hne hd
    rw [r1.vnames] at hk
    obtain ⟨k0, hk0, rfl⟩ := List.mem_map.1 hk
    rw [r1.dnames] at hd
    obtain ⟨d0, hd0, e⟩ := List.mem_map.1 hd
    exact hcl.mean k0 hk0 d0 hd0 hne e.symm
  have hinj : ∀ k ∈ vnames b, ∀ k' ∈ vnames b, viaTable b trtable k' ≠ viaTable b trtable k → k' ≠ k :=
    fun k _ k' _ h e => h (e ▸ rfl)
  rcases pass_spec env (translate "Mean" "") b1 w1 d1 with ⟨b2, h2, w2, r2⟩ | ⟨h2, k, hk, _, k', hk', hne, hor⟩
  · rw [h2]
    simp only
    have r12 := r1.trans r2
    have d2 : ∀ k ∈ vnames b2, translate "Std" "s_" k ≠ k → translate "Std" "s_" k ∉ dnames b2 := by
      intro k hk hne hd
      rw [r12.vnames] at hk
      obtain ⟨k0, hk0, rfl⟩ := List.mem_map.1 hk
      rw [r12.dnames] at hd
      obtain ⟨d0, hd0, e⟩ := List.mem_map.1 hd
      exact hcl.std k0 hk0 d0 hd0 hne e.symm
    rcases pass_spec env (translate "Std" "s_") b2 w2 d2 with ⟨b3, h3, w3, r3⟩ | ⟨h3, k, hk, _, k', hk', hne, hor⟩
    · exact Or.inl ⟨b3, h3, r12.trans r3⟩
    · refine Or.inr ⟨h3, ?_⟩
      rw [r12.vnames] at hk hk'
      obtain ⟨k0, hk0, rfl⟩ := List.mem_map.1 hk
      obtain ⟨k1, hk1, rfl⟩ := List.mem_map.1 hk'
      refine ⟨k0, hk0, k1, hk1, fun e => hne (e ▸ rfl), ?_⟩
      rcases hor with h | h
      · exact ⟨_, by simp, Or.inr h⟩
      · exact ⟨newName b k1, by simp, Or.inr h⟩
  · rw [h2]
    refine Or.inr ⟨rfl, ?_⟩
    rw [r1.vnames] at hk hk'
    obtain ⟨k0, hk0, rfl⟩ := List.mem_map.1 hk
    obtain ⟨k1, hk1, rfl⟩ := List.mem_map.1 hk'
    refine ⟨k0, hk0, k1, hk1, hinj k0 hk0 k1 hk1 hne, ?_⟩
    rcases hor with h | h
    · exact ⟨viaTable b trtable k1, by simp, Or.inl h⟩
    · exact ⟨translate "Mean" "" (viaTable b trtable k1), by simp, Or.inl h⟩

/-- C24: what is taken off a name. -/
theorem C24_translate (f pre x : List Char) (hx : x ≠ []) (hnl : '\n' ∉ x) :
    translate (String.ofList f) (String.ofList pre) (String.ofList (f ++ '(' :: x ++ [')'])) =
      String.ofList (pre ++ x) := by
  have hp : (f ++ ['(']).isPrefixOf (f ++ '(' :: x ++ [')']) = true := by
    rw [List.isPrefixOf_iff_prefix]
    exact ⟨x ++ [')'], by simp⟩
  have hdrop : (f ++ '(' :: x ++ [')']).drop (f.length + 1) = x ++ [')'] := by
    have : f ++ '(' :: x ++ [')'] = (f ++ ['(']) ++ (x ++ [')']) := by simp
    rw [this]
    have hl : f.length + 1 = (f ++ ['(']).length := by simp
    rw [hl, List.drop_left]
  have hlen : 2 ≤ (x ++ [')']).length := by
    have := List.length_pos_iff.2 hx
    simp; omega
  have he : enclosed f (f ++ '(' :: x ++ [')']) = some x := by
    unfold enclosed
    rw [if_pos hp, hdrop]
    have h1 : (x ++ [')']).getLast? = some ')' := by simp
    have h2 : ¬ (x ++ [')']).getLast? = some '\n' := by rw [h1]; decide
    simp only [h2, if_false]
    simp only [h1, hlen, List.dropLast_concat, hnl, not_false_eq_true, and_self, if_true]
  unfold translate
  rw [String.toList_ofList, String.toList_ofList, String.toList_ofList, he]

/-- A call of `f` with argument `x`: on one line, which may be ended. -/
def CallOf (f x s : List Char) : Prop :=
  x ≠ [] ∧ '\n' ∉ x ∧ (s = f ++ ['('] ++ x ++ [')'] ∨ s = f ++ ['('] ++ x ++ [')', '\n'])

theorem enclosed_iff (f s x : List Char) : enclosed f s = some x ↔ CallOf f x s := by
  have split : ∀ t : List Char, t.getLast? = some ')' ∧ 2 ≤ t.length ∧ '\n' ∉ t.dropLast ∧ t.dropLast = x ↔
      x ≠ [] ∧ '\n' ∉ x ∧ t = x ++ [')'] := by
    intro t
    constructor
    · rintro ⟨h1, h2, h3, rfl⟩
      refine ⟨?_, h3, ?_⟩
      · intro h0
        have := congrArg List.length h0
        simp at this; omega
      · rw [List.getLast?_eq_some_iff] at h1
        obtain ⟨ys, rfl⟩ := h1
        simp
    · rintro ⟨h1, h2, rfl⟩
      have := List.length_pos_iff.2 h1
      simp only [List.getLast?_append, List.getLast?_singleton, Option.some_or, List.length_append,
        List.length_singleton, List.dropLast_concat, true_and, h2, not_false_eq_true, and_true]
      omega
  have body : ∀ t : List Char,
      (let t' := if t.getLast? = some '\n' then t.dropLast else t
       (if t'.getLast? = some ')' ∧ 2 ≤ t'.length ∧ '\n' ∉ t'.dropLast then some t'.dropLast else none) = some x) ↔
      x ≠ [] ∧ '\n' ∉ x ∧ (t = x ++ [')'] ∨ t = x ++ [')', '\n']) := by
    intro t
    simp only [Option.ite_none_right_eq_some, Option.some.injEq, and_assoc]
    rw [split]
    by_cases h : t.getLast? = some '\n'
    · rw [if_pos h]
      obtain ⟨ys, rfl⟩ := List.getLast?_eq_some_iff.1 h
      simp only [List.dropLast_concat]
      constructor
      · rintro ⟨h1, h2, rfl⟩
        exact ⟨h1, h2, Or.inr (by simp)⟩
      · rintro ⟨h1, h2, h3 | h3⟩
        · rw [h3] at h; simp at h
        · refine ⟨h1, h2, ?_⟩
          have : ys ++ ['\n'] = (x ++ [')']) ++ ['\n'] := by rw [h3]; simp
          exact List.append_cancel_right this
    · rw [if_neg h]
      constructor
      · rintro ⟨h1, h2, rfl⟩
        exact ⟨h1, h2, Or.inl rfl⟩
      · rintro ⟨h1, h2, h3 | h3⟩
        · exact ⟨h1, h2, h3⟩
        · rw [h3] at h; simp at h
  unfold enclosed CallOf
  by_cases hp : (f ++ ['(']).isPrefixOf s = true
  · rw [if_pos hp]
    obtain ⟨t, rfl⟩ := List.isPrefixOf_iff_prefix.1 hp
    have hd : (f ++ ['('] ++ t).drop (f.length + 1) = t := by
      have hl : f.length + 1 = (f ++ ['(']).length := by simp
      rw [hl, List.drop_left]
    rw [hd, body t]
    refine and_congr_right fun _ => and_congr_right fun _ => ?_
    rw [List.append_assoc (f ++ ['(']) x, List.append_assoc (f ++ ['(']) x]
    rw [List.append_right_inj, List.append_right_inj]
  · rw [if_neg hp]
    simp only [reduceCtorEq, false_iff]
    rintro ⟨-, -, rfl | rfl⟩ <;> apply hp <;> rw [List.isPrefixOf_iff_prefix]
    · exact ⟨x ++ [')'], by simp⟩
    · exact ⟨x ++ [')', '\n'], by simp⟩

/-- C24: exactly the names that are calls of `f` on one line are changed, and nothing but the argument
is kept of them. -/
theorem C24_translate_iff (f pre s : List Char) :
    (∃ x, CallOf f x s ∧ translate (String.ofList f) (String.ofList pre) (String.ofList s) =
      String.ofList (pre ++ x)) ∨
    ((∀ x, ¬ CallOf f x s) ∧ translate (String.ofList f) (String.ofList pre) (String.ofList s) =
      String.ofList s) := by
  unfold translate
  simp only [String.toList_ofList]
  cases h : enclosed f s with
  | some x => exact Or.inl ⟨x, (enclosed_iff f s x).1 h, rfl⟩
  | none =>
    refine Or.inr ⟨fun x hx => ?_, rfl⟩
    rw [(enclosed_iff f s x).2 hx] at h
    cases h

/-! ### Concrete cases -/

/-- A block with dimension `Freq`, and the names of its variables given. -/
def blk (dim : String) (names : List String) : Block Nat Nat :=
  { vars := names.map fun n => (n, sweepArr dim), ivars := [(dim, sweep dim)], xname := some dim }

/-- What can be seen. -/
def seenN (r : Except DataBlock.Err (Block Nat Nat)) : Option (List (String × List String) × List String) :=
  r.toOption.map fun b => (b.vars.map fun p => (p.1, p.2.dims.map Dim.name), b.ivars.map Prod.fst)

def exB : Block Nat Nat := blk "Freq" ["b1/a1", "Mean(x)", "Std(x)", "a22", "a2"]

example : WF exB where
  names := by decide +kernel
  named := by
    intro p hp
    simp only [dimView, exB, blk, List.map_cons, List.map_nil, List.mem_singleton] at hp
    subst hp; rfl
  known := by
    intro p hp l hl
    obtain ⟨q, hq, rfl⟩ := List.mem_map.1 hp
    obtain ⟨n, _, rfl⟩ := List.mem_map.1 hq
    simp only [sweepArr, List.map_cons, List.map_nil, List.mem_singleton] at hl
    exact ⟨("Freq", label (sweep "Freq")), by simp [dimView, exB, blk], hl.symm⟩

example : NoClash exB trtable := by unfold NoClash; decide +kernel

example : Clear exB := ⟨by decide +kernel, by decide +kernel⟩

example : seenN (normalize envN trtable exB) =
    some ([("b11", ["freq"]), ("x", ["freq"]), ("s_x", ["freq"]), ("a22", ["freq"]), ("a2", ["freq"])], ["freq"]) := by
  decide +kernel

/-- C24: two names with the same replacement: one variable is lost. -/
theorem C24_clash_refuted :
    seenN (normalize envN trtable (blk "t" ["Freq", "Frequency", "x"])) =
      some ([("freq", ["t"]), ("x", ["t"])], ["t"]) := by
  decide +kernel

/-- C24: a variable can get the name of a dimension; it can no longer be read by its name. -/
theorem C24_hidden_refuted :
    seenN (normalize envN trtable (blk "freq" ["Mean(freq)"])) = some ([("freq", ["freq"])], ["freq"]) := by
  decide +kernel

/-- C24: the name of the x axis is not adjusted: `xvalue` of the result does not exist. -/
theorem C24_xvalue_refuted :
    (normalize envN trtable (blk "Freq" ["x"])).toOption.map (fun b => (b.xname,
      ((getitem envN b (b.xname.getD "")).toOption.isSome))) = some (some "Freq", false) := by
  decide +kernel

end HF.Readers.Normalize
