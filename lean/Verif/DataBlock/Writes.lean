import Verif.DataBlock.Lemmas
/-
Sequences of assignments of arrays to a block: `for k, v in ...: out[k] = v`.
-/
namespace HF.DataBlock

open HF.DataDict.Spec
open HF.DataDict hiding rename delitem

variable {β α : Type}

/-- Assign one after the other, stop at the first error. -/
def writes (env : Env β α) : Block β α → List (String × Arr β α) → Except Err (Block β α)
  | b, [] => .ok b
  | b, w :: ws =>
    match setArr env b w.1 w.2 with
    | (b', .ok _) => writes env b' ws
    | (_, .error e) => .error e

/-- The names do not interfere: none is that of a dimension, and none is that of an element of
another one. -/
structure Calm (ws : List (String × Arr β α)) : Prop where
  dims : ∀ w ∈ ws, ∀ w' ∈ ws, ∀ d ∈ w'.2.dims, d.name ≠ w.1
  elems : ∀ w ∈ ws, ∀ w' ∈ ws, ∀ m i j, isMatrixName w.1 = some (m, i, j) → ismatrix w.2 = false →
    m ≠ w'.1

/-- In addition no name occurs twice. -/
structure Quiet (ws : List (String × Arr β α)) : Prop extends Calm ws where
  nodup : (ws.map Prod.fst).Nodup

/-- Assignments to an ordered map. -/
def assigns {V : Type} (m : OMap String V) (ws : List (String × V)) : OMap String V :=
  ws.foldl (fun m w => assign m w.1 w.2) m

theorem mem_keys_assigns {V : Type} (ws : List (String × V)) (m : OMap String V) (n : String) :
    n ∈ keys (assigns m ws) ↔ n ∈ keys m ∨ n ∈ keys ws := by
  induction ws generalizing m with
  | nil => simp [assigns, keys]
  | cons w ws ih =>
    have : assigns m (w :: ws) = assigns (assign m w.1 w.2) ws := rfl
    rw [this, ih, mem_keys_assign]
    simp only [keys, List.map_cons, List.mem_cons]
    tauto

theorem assigns_nodup {V : Type} (ws : List (String × V)) (m : OMap String V)
    (h : (keys (m ++ ws)).Nodup) : assigns m ws = m ++ ws := by
  induction ws generalizing m with
  | nil => simp [assigns]
  | cons w ws ih =>
    have hnv : member m w.1 = false := by
      rw [Bool.eq_false_iff]
      intro hc
      have := (member_iff _ _).1 hc
      rw [keys, List.map_append, List.map_cons, List.nodup_append] at h
      exact h.2.2 _ this _ (by simp) rfl
    have e : assigns m (w :: ws) = assigns (assign m w.1 w.2) ws := rfl
    rw [e, assign, hnv]
    simp only [Bool.false_eq_true, if_false]
    rw [ih (m ++ [(w.1, w.2)]) (by simpa using h)]
    simp

theorem keys_assigns_nodup {V : Type} (ws : List (String × V)) (m : OMap String V)
    (h : (keys m).Nodup) : (keys (assigns m ws)).Nodup := by
  induction ws generalizing m with
  | nil => exact h
  | cons w ws ih =>
    refine ih (assign m w.1 w.2) ?_
    unfold assign
    split
    · rw [keys, keys_modify]; exact h
    · rename_i hc
      rw [keys, List.map_append, List.nodup_append]
      refine ⟨h, by simp, ?_⟩
      rintro a ha b hb rfl
      simp only [List.map_cons, List.map_nil, List.mem_singleton] at hb
      exact hc ((member_iff _ _).2 (hb ▸ ha))

theorem lookup_assigns {V : Type} (ws : List (String × V)) (m : OMap String V) (n : String) :
    lookup (assigns m ws) n = (lookup ws.reverse n).or (lookup m n) := by
  induction ws generalizing m with
  | nil => simp [assigns, lookup]
  | cons w ws ih =>
    have e : assigns m (w :: ws) = assigns (assign m w.1 w.2) ws := rfl
    rw [e, ih, lookup_assign, List.reverse_cons, lookup_append]
    have hs : lookup [w] n = if w.1 = n then some w.2 else none := lookup_singleton w.1 w.2 n
    rw [hs]
    cases lookup ws.reverse n with
    | some v => simp
    | none =>
      by_cases hn : n = w.1
      · simp [hn]
      · simp [hn, Ne.symm hn]

theorem writes_gen' (env : Env β α) (all : List (String × Arr β α)) (hq : Calm all)
    (ws : List (String × Arr β α)) :
    ∀ (b : Block β α), (∀ w ∈ ws, w ∈ all) → (∀ w ∈ b.vars, w ∈ all) →
    (∀ n ∈ keys b.ivars, ∃ w ∈ all, ∃ d ∈ w.2.dims, d.name = n) →
    ∃ b', writes env b ws = .ok b' ∧ b'.vars = assigns b.vars ws ∧
      b'.ivars = addDims b.ivars (ws.flatMap fun w => w.2.dims) := by
  induction ws with
  | nil => intro b _ hi; exact fun _ => ⟨b, rfl, by simp [assigns], by simp [addDims]⟩
  | cons w ws ih =>
    intro b hws hv hi
    have hw : w ∈ all := hws w (by simp)
    have hni : lookup b.ivars w.1 = none := by
      rw [lookup_none_iff']
      intro h
      obtain ⟨w', h1, d, h2, h3⟩ := hi _ h
      exact hq.dims w hw w' h1 d h2 h3
    have het : elemTarget (member b.vars) w.1 w.2 = none := by
      unfold elemTarget
      split
      · rename_i m i j hm
        split
        · rename_i hc
          simp only [Bool.and_eq_true, Bool.not_eq_true'] at hc
          obtain ⟨w', h1, h2⟩ := List.mem_map.1 ((member_iff _ _).1 hc.1)
          exact absurd h2.symm (hq.elems w hw w' (hv w' h1) m i j hm hc.2)
        · rfl
      · rfl
    have hset : setArr env b w.1 w.2 = (⟨assign b.vars w.1 w.2, addDims b.ivars w.2.dims,
        nextXname b.xname w.2.dims⟩, .ok ()) := by
      simp only [setArr, het, hni]
    obtain ⟨b', h1, h2, h3⟩ := ih ⟨assign b.vars w.1 w.2, addDims b.ivars w.2.dims, nextXname b.xname w.2.dims⟩
      (fun x hx => hws x (by simp [hx])) (fun x hx => by
        rcases mem_assign hx with hx | rfl
        · exact hv x hx
        · exact hw) (by
        intro n hn
        rcases (mem_keys_addDims _ _ _).1 hn with hn | ⟨d, hd, rfl⟩
        · exact hi n hn
        · exact ⟨w, hw, d, hd, rfl⟩)
    refine ⟨b', ?_, h2, ?_⟩
    · simp only [writes, hset]; exact h1
    · rw [h3, List.flatMap_cons, addDims, addDims, addDims, List.foldl_append]

theorem writes_gen (env : Env β α) (all : List (String × Arr β α)) (hq : Calm all)
    (ws : List (String × Arr β α)) :
    ∀ (b : Block β α), (∀ w ∈ ws, w ∈ all) → (∀ w ∈ b.vars, w ∈ all) →
    (∀ n ∈ keys b.ivars, ∃ w ∈ all, ∃ d ∈ w.2.dims, d.name = n) →
    ∃ b', writes env b ws = .ok b' ∧ b'.vars = assigns b.vars ws ∧
      (∀ n, n ∈ keys b'.ivars ↔ (n ∈ keys b.ivars ∨ ∃ w ∈ ws, ∃ d ∈ w.2.dims, d.name = n)) := by
  intro b h1 h2 h3
  obtain ⟨b', e1, e2, e3⟩ := writes_gen' env all hq ws b h1 h2 h3
  refine ⟨b', e1, e2, fun n => ?_⟩
  rw [e3, mem_keys_addDims]
  simp only [List.mem_flatMap]
  constructor
  · rintro (h | ⟨d, ⟨w, hw, hd⟩, rfl⟩)
    · exact Or.inl h
    · exact Or.inr ⟨w, hw, d, hd, rfl⟩
  · rintro (h | ⟨w, hw, d, hd, rfl⟩)
    · exact Or.inl h
    · exact Or.inr ⟨d, ⟨w, hw, hd⟩, rfl⟩

/-- The dims of a block that was empty: of each name the first that occurs. -/
theorem lookup_addDims (iv : OMap String (Dim β)) (ds : List (Dim β)) (n : String) :
    lookup (addDims iv ds) n = (lookup iv n).or (ds.find? fun d => d.name == n) := by
  induction ds generalizing iv with
  | nil => simp [addDims]
  | cons d t ih =>
    have e : addDims iv (d :: t) =
        addDims (if member iv d.name then iv else assign iv d.name d) t := rfl
    rw [e, ih, List.find?_cons]
    by_cases hm : member iv d.name = true
    · rw [if_pos hm]
      by_cases hn : d.name = n
      · subst hn
        obtain ⟨v, hv⟩ := Option.isSome_iff_exists.1 ((lookup_isSome_iff _ _).2 ((member_iff _ _).1 hm))
        simp [hv]
      · have h2 : (d.name == n) = false := by simpa using hn
        rw [h2]
    · rw [if_neg hm, lookup_assign]
      by_cases hn : n = d.name
      · subst hn
        have : lookup iv d.name = none := (lookup_none_iff' _ _).2 fun h => hm ((member_iff _ _).2 h)
        simp [this]
      · have h2 : (d.name == n) = false := by simpa using Ne.symm hn
        simp [hn, h2]

/-- Into an empty block: like the assignments to an ordered map. -/
theorem writes_assigns (env : Env β α) (ws : List (String × Arr β α)) (hq : Calm ws) :
    ∃ b', writes env {} ws = .ok b' ∧ b'.vars = assigns [] ws ∧
      ∀ n, n ∈ keys b'.ivars ↔ ∃ w ∈ ws, ∃ d ∈ w.2.dims, d.name = n := by
  obtain ⟨b', h1, h2, h3⟩ := writes_gen env ws hq ws {} (fun _ h => h) (by simp) (by simp [keys])
  exact ⟨b', h1, h2, fun n => by rw [h3]; simp [keys]⟩

/-- Into an empty block, all names different: it holds exactly what was assigned, in order, and
exactly the dimensions of that. -/
theorem writes_empty (env : Env β α) (ws : List (String × Arr β α)) (hq : Quiet ws) :
    ∃ b', writes env {} ws = .ok b' ∧ b'.vars = ws ∧
      ∀ n, n ∈ keys b'.ivars ↔ ∃ w ∈ ws, ∃ d ∈ w.2.dims, d.name = n := by
  obtain ⟨b', h1, h2, h3⟩ := writes_assigns env ws hq.toCalm
  exact ⟨b', h1, by rw [h2, assigns_nodup _ _ (by simpa using hq.nodup)]; simp, h3⟩

theorem Quiet.sublist {ws ws' : List (String × Arr β α)} (h : Quiet ws') (hs : ws.Sublist ws') :
    Quiet ws where
  nodup := h.nodup.sublist (hs.map _)
  dims := fun w hw w' hw' => h.dims w (hs.subset hw) w' (hs.subset hw')
  elems := fun w hw w' hw' => h.elems w (hs.subset hw) w' (hs.subset hw')

theorem setArr_new (env : Env β α) (b : Block β α) (n : String) (a : Arr β α)
    (h1 : n ∉ keys b.ivars) (h2 : n ∉ keys b.vars)
    (h3 : ∀ m i j, isMatrixName n = some (m, i, j) → m ∉ keys b.vars) :
    setArr env b n a = (⟨b.vars ++ [(n, a)], addDims b.ivars a.dims, nextXname b.xname a.dims⟩, .ok ()) := by
  have hni : lookup b.ivars n = none := (lookup_none_iff' _ _).2 h1
  have het : elemTarget (member b.vars) n a = none := by
    unfold elemTarget
    split
    · rename_i m i j hm
      split
      · rename_i hc
        simp only [Bool.and_eq_true] at hc
        exact absurd ((member_iff _ _).1 hc.1) (h3 m i j hm)
      · rfl
    · rfl
  have hnv : member b.vars n = false := by
    rw [Bool.eq_false_iff]
    exact fun hc => h2 ((member_iff _ _).1 hc)
  simp only [setArr, het, hni, assign, hnv, Bool.false_eq_true, if_false]

/-- Assignment of arrays with new names which do not interfere. -/
theorem writes_new (env : Env β α) (ws : List (String × Arr β α)) :
    ∀ b : Block β α, (∀ w ∈ ws, w.1 ∉ keys b.ivars) →
      (∀ w ∈ ws, ∀ w' ∈ ws, ∀ d ∈ w'.2.dims, d.name ≠ w.1) →
      (∀ w ∈ ws, ∀ m i j, isMatrixName w.1 = some (m, i, j) → m ∉ keys b.vars ∧ m ∉ keys ws) →
      (keys b.vars ++ keys ws).Nodup →
      ∃ b', writes env b ws = .ok b' ∧ b'.vars = b.vars ++ ws ∧
        b'.ivars = addDims b.ivars (ws.flatMap fun w => w.2.dims) := by
  induction ws with
  | nil => intro b _ _ _ _; exact ⟨b, rfl, by simp, by simp [addDims]⟩
  | cons w ws ih =>
    intro b h1 h2 h3 h4
    have hw : w ∈ w :: ws := by simp
    have hset := setArr_new env b w.1 w.2 (h1 w hw)
      (fun hc => (List.nodup_append.1 h4).2.2 _ hc _ (by simp [keys]) rfl)
      (fun m i j hm => (h3 w hw m i j hm).1)
    obtain ⟨b', e1, e2, e3⟩ := ih ⟨b.vars ++ [w], addDims b.ivars w.2.dims, nextXname b.xname w.2.dims⟩
      (by
        intro x hx hc
        rcases (mem_keys_addDims _ _ _).1 hc with hc | ⟨d, hd, hc⟩
        · exact h1 x (by simp [hx]) hc
        · exact h2 x (by simp [hx]) w hw d hd hc)
      (fun x hx y hy => h2 x (by simp [hx]) y (by simp [hy]))
      (by
        intro x hx m i j hm
        obtain ⟨g1, g2⟩ := h3 x (by simp [hx]) m i j hm
        simp only [keys, List.map_append, List.map_cons, List.map_nil, List.mem_append,
          List.mem_singleton, List.mem_cons, not_or] at g1 g2 ⊢
        simp only [List.not_mem_nil, not_false_eq_true, and_true]
        exact ⟨⟨g1, g2.1⟩, g2.2⟩)
      (by simpa [keys] using h4)
    refine ⟨b', ?_, by rw [e2]; simp, ?_⟩
    · simp only [writes, hset]; exact e1
    · rw [e3, List.flatMap_cons, addDims, addDims, addDims, List.foldl_append]

end HF.DataBlock
