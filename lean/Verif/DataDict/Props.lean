import Verif.DataDict.Lemmas
/-
C01, C02: DataDict behaves as an ordered map; semantics of `rename`.
-/
namespace HF.DataDict

variable {K V : Type} [DecidableEq K]

/-- A `DataDict` which the caller can obtain from `DataDict()` by calls of
`__setitem__`, `__delitem__`, `setdefault`, `rename`, `copy`. -/
def Reachable (d : DD K V) : Prop := ∃ ops : List (Op K V), d = (run empty ops).1

theorem Reachable.rel {d : DD K V} (h : Reachable d) : ∃ m, Rel d m := by
  obtain ⟨ops, rfl⟩ := h
  exact ⟨_, ((Rel.empty').run' ops).1⟩

/-- C01.  Whatever calls are made on an initially empty `DataDict`, everything
the caller sees (results and exceptions) is what an ordered map shows. -/
theorem C01_history_refines_ordered_map (ops : List (Op K V)) :
    (run (empty : DD K V) ops).2 = (Spec.run [] ops).2 :=
  ((Rel.empty').run' ops).2

-- a history touching all branches: new keys, overwrite, delete, rename
example : (run (empty : DD Nat Nat) [.set 1 10, .set 2 20, .set 1 11, .rename 1 3, .del 2,
    .setdefault 3 0, .items]).2 =
    [.unit, .unit, .unit, .unit, .unit, .val 11, .items [(3, 11)]] := rfl

/-- C01.  In every reachable dictionary iteration yields each stored key exactly
once and nothing else, and `items()` pairs it with the stored value. -/
theorem C01_iteration_exact {d : DD K V} (h : Reachable d) :
    (iter d).Nodup ∧ (∀ k, k ∈ iter d ↔ ∃ v, dget d.dict k = some v) ∧
      (iter d).length = d.dict.length ∧
      ∃ l, items d = .ok l ∧ l.map Prod.fst = iter d ∧ ∀ p ∈ l, dget d.dict p.1 = some p.2 := by
  obtain ⟨m, hm⟩ := h.rel
  refine ⟨hm.iter' ▸ hm.nodup, ?_, ?_, m, hm.items', hm.iter'.symm, ?_⟩
  · intro k
    rw [hm.iter', ← hm.keys_iff, ← dget_isSome_iff, Option.isSome_iff_exists]
  · rw [hm.iter', hm.length]; simp
  · intro p hp
    rw [hm.same, lookup_eq_dget]
    have hnd := hm.nodup
    clear hm
    induction m with
    | nil => simp at hp
    | cons q t ih =>
      obtain ⟨a, w⟩ := q
      simp only [List.map_cons, List.nodup_cons] at hnd
      rcases List.mem_cons.1 hp with e | e
      · subst e; simp [dget]
      · have : ¬ a = p.1 := by
          intro e2; apply hnd.1; rw [e2]; exact List.mem_map_of_mem e
        simp only [dget, this, if_false]
        exact ih e hnd.2

example : Reachable (setitem (setitem (empty : DD Nat Nat) 1 5) 2 6) :=
  ⟨[.set 1 5, .set 2 6], rfl⟩

/-- C01.  Lookup after an assignment: the assigned key shows the new value, every
other key is untouched; iteration order is unchanged for a known key, and a new
key goes last. -/
theorem C01_assignment {d : DD K V} (h : Reachable d) (k : K) (v : V) :
    dget (setitem d k v).dict k = some v ∧
    (∀ k', k' ≠ k → dget (setitem d k v).dict k' = dget d.dict k') ∧
    iter (setitem d k v) = if k ∈ iter d then iter d else iter d ++ [k] := by
  obtain ⟨m, hm⟩ := h.rel
  refine ⟨?_, ?_, ?_⟩
  · simp [setitem, dget_dset]
  · intro k' hk; simp [setitem, dget_dset, Ne.symm hk]
  · rw [(hm.setitem' k v).iter', hm.iter', Spec.assign]
    by_cases e : Spec.member m k = true
    · rw [if_pos e, if_pos ((member_iff _ _).1 e), keys_modify]
    · rw [if_neg e, if_neg (fun x => e ((member_iff _ _).2 x))]; simp

/-- C01.  Deletion removes exactly the key and keeps the order of the others;
deleting a missing key changes nothing the caller can see. -/
theorem C01_deletion {d : DD K V} (h : Reachable d) (k : K) :
    dget (delitem d k).dict k = none ∧
    (∀ k', k' ≠ k → dget (delitem d k).dict k' = dget d.dict k') ∧
    iter (delitem d k) = (iter d).filter (fun a => a ≠ k) := by
  obtain ⟨m, hm⟩ := h.rel
  have hd := hm.delitem' k
  refine ⟨?_, ?_, ?_⟩
  · rw [hd.same, lookup_remove]; simp
  · intro k' hk; rw [hd.same, lookup_remove, hm.same]; simp [Ne.symm hk]
  · rw [hd.iter', hm.iter', keys_remove]

/-- C01.  Copies show the same entries in the same order; each value is the copy
of the original value. -/
theorem C01_copy {d : DD K V} (h : Reachable d) (f : V → V) :
    ∃ d', copyWith f d = .ok d' ∧ iter d' = iter d ∧
      ∀ k, dget d'.dict k = (dget d.dict k).map f := by
  obtain ⟨m, hm⟩ := h.rel
  obtain ⟨d', h1, h2⟩ := hm.copyWith' f
  refine ⟨d', h1, ?_, ?_⟩
  · rw [h2.iter', hm.iter']; simp
  · intro k; rw [h2.same, lookup_eq_dget, dget_map_snd, hm.same, lookup_eq_dget]

/-- C01 fails for the inherited `pop`: on *every* reachable dictionary, popping a
present key succeeds and leaves a dictionary whose `items()` raises `KeyError`,
although the popped key is no longer `in` it. -/
theorem C01_pop_refuted {d : DD K V} (h : Reachable d) (k : K) (v : V)
    (hk : dget d.dict k = some v) :
    ∃ d', pop d k = .ok (d', v) ∧ dhas d'.dict k = false ∧ k ∈ iter d' ∧
      items d' = .error .keyError := by
  obtain ⟨m, hm⟩ := h.rel
  refine ⟨⟨ddel d.dict k, d.order⟩, by simp [pop, hk], ?_, ?_, ?_⟩
  · simp [dhas, dget_ddel hm.dnodup]
  all_goals
    have hko : k ∈ d.order := by
      rw [hm.order, ← hm.keys_iff, ← dget_isSome_iff, hk]; rfl
    have hsub : ∀ p ∈ ddel d.dict k, p.1 ∈ d.order := by
      intro p hp
      have : p.1 ∈ (ddel d.dict k).map Prod.fst := List.mem_map_of_mem hp
      rw [keys_ddel] at this
      rw [hm.order, ← hm.keys_iff]
      exact List.mem_of_mem_erase this
    have hit : iter (⟨ddel d.dict k, d.order⟩ : DD K V) = d.order :=
      foldl_iter_of_subset _ _ hsub
  · rw [hit]; exact hko
  · unfold items
    rw [hit]
    have hg : dget (ddel d.dict k) k = none := by rw [dget_ddel hm.dnodup]; simp
    show lookupAll (ddel d.dict k) d.order = _
    revert hko
    generalize d.order = o
    intro hko
    induction o with
    | nil => simp at hko
    | cons x t ih =>
      by_cases e : x = k
      · subst e; simp [lookupAll, hg]
      · have : k ∈ t := by
          rcases List.mem_cons.1 hko with q | q
          · exact absurd q.symm e
          · exact q
        simp only [lookupAll, ih this]
        cases hx : dget (ddel d.dict k) x <;> simp

example : Reachable (setitem (empty : DD Nat Nat) 1 5) ∧
    dget (setitem (empty : DD Nat Nat) 1 5).dict 1 = some 5 := ⟨⟨[.set 1 5], rfl⟩, rfl⟩

theorem dget_of_mem {l : List (K × V)} (hn : (l.map Prod.fst).Nodup) {q : K × V} (hq : q ∈ l) :
    dget l q.1 = some q.2 := by
  induction l with
  | nil => cases hq
  | cons p t ih =>
    rw [List.map_cons, List.nodup_cons] at hn
    rcases List.mem_cons.1 hq with rfl | hq'
    · simp [dget]
    · have : p.1 ≠ q.1 := fun e => hn.1 (e ▸ List.mem_map_of_mem hq')
      simp only [dget, this, if_false]
      exact ih hn.2 hq'

/-- C01 fails for the inherited `popitem` in the same way, whichever entry the interpreter takes; on an
empty dictionary it raises `KeyError`. -/
theorem C01_popitem_refuted (pick : List (K × V) → Nat) {d : DD K V} (h : Reachable d) :
    (iter d = [] → popitem pick d = .error .keyError) ∧
    (iter d ≠ [] → ∃ d' k v, popitem pick d = .ok (d', (k, v)) ∧ dget d.dict k = some v ∧
      dhas d'.dict k = false ∧ k ∈ iter d' ∧ items d' = .error .keyError) := by
  obtain ⟨-, hex, hlen, -⟩ := C01_iteration_exact h
  constructor
  · intro hi
    rw [hi] at hlen
    have : d.dict = [] := List.eq_nil_of_length_eq_zero hlen.symm
    simp [popitem, this]
  · intro hi
    obtain ⟨m, hm⟩ := h.rel
    cases hd : d.dict with
    | nil =>
      rw [hd] at hlen
      exact absurd (List.eq_nil_of_length_eq_zero hlen) hi
    | cons p l =>
      obtain ⟨q, hq⟩ : ∃ q, q = (p :: l).getD (pick (p :: l)) p := ⟨_, rfl⟩
      have hqm : q ∈ d.dict := by
        rw [hd, hq, List.getD_eq_getElem?_getD]
        cases hg : (p :: l)[pick (p :: l)]? with
        | none => simp
        | some z => exact List.mem_of_getElem? hg
      have hget : dget d.dict q.1 = some q.2 := dget_of_mem hm.dnodup hqm
      obtain ⟨d', h1, h2, h3, h4⟩ := C01_pop_refuted h q.1 q.2 hget
      refine ⟨d', q.1, q.2, ?_, by rw [← hd]; exact hget, h2, h3, h4⟩
      simp only [pop, hget] at h1
      injection h1 with h1
      have h1' : (⟨ddel d.dict q.1, d.order⟩ : DD K V) = d' := congrArg Prod.fst h1
      simp only [popitem, hd, ← hq]
      rw [← h1', hd]

/-- C01 fails for the inherited `clear` in the same way. -/
theorem C01_clear_refuted {d : DD K V} (h : Reachable d) (hne : iter d ≠ []) :
    iter (clear d) = iter d ∧ items (clear d) = .error .keyError := by
  obtain ⟨m, hm⟩ := h.rel
  have h1 : iter (clear d) = iter d := by
    rw [hm.iter', ← hm.order]; rfl
  refine ⟨h1, ?_⟩
  unfold items
  rw [h1]
  cases hi : iter d with
  | nil => exact absurd hi hne
  | cons a t => simp [lookupAll, clear, dget]

/-- C01 fails for entries given to the constructor (or to the inherited
`update`): assigning to such a key moves it to the front. -/
theorem C01_constructor_order_refuted (a b : K) (hab : a ≠ b) (x y z : V) :
    iter (ofPairs [(a, x), (b, y)]) = [a, b] ∧
    iter (setitem (ofPairs [(a, x), (b, y)]) b z) = [b, a] := by
  have hba : ¬ b = a := fun e => hab e.symm
  constructor <;> simp [iter, ofPairs, setitem, dset, hab, hba]

/-- C02.  Renaming `a` to a key `b` not in the dictionary succeeds; `b` takes over
the value and the position of `a`, `a` is gone, all other entries are untouched. -/
theorem C02_rename_fresh {d : DD K V} (h : Reachable d) (a b : K) (v : V)
    (ha : dget d.dict a = some v) (hb : b ∉ iter d) :
    ∃ d', rename d a b = .ok d' ∧ Reachable d' ∧
      iter d' = (iter d).map (fun k => if k = a then b else k) ∧
      dget d'.dict b = some v ∧ dget d'.dict a = none ∧
      ∀ k, k ≠ a → k ≠ b → dget d'.dict k = dget d.dict k := by
  obtain ⟨m, hm⟩ := h.rel
  have hv : Spec.lookup m a = some v := by rw [← hm.same, ha]
  obtain ⟨d', h1, h2⟩ := hm.rename_some a b v hv
  have hbm : b ∉ m.map Prod.fst := by rw [← hm.iter']; exact hb
  have ham : a ∈ m.map Prod.fst := by
    rw [← dget_isSome_iff, ← lookup_eq_dget, hv]; rfl
  have hab : ¬ a = b := by intro e; subst e; exact hbm ham
  have hspec : Spec.rename m a b v = m.map fun p => if p.1 = a then (b, v) else p := by
    have : Spec.member m b = false := by rw [← Bool.not_eq_true, member_iff]; exact hbm
    simp [Spec.rename, hab, this]
  rw [hspec] at h2
  have hl := lookup_renamed m a b v hbm ham
  refine ⟨d', h1, ?_, ?_, ?_, ?_, ?_⟩
  · obtain ⟨ops, rfl⟩ := h
    refine ⟨ops ++ [.rename a b], ?_⟩
    have run_append : ∀ (o1 o2 : List (Op K V)) (d : DD K V),
        (run d (o1 ++ o2)).1 = (run (run d o1).1 o2).1 := by
      intro o1
      induction o1 with
      | nil => intros; rfl
      | cons q t ih => intro o2 d; exact ih o2 (step d q).1
    rw [run_append]
    simp [run, step, h1]
  · rw [h2.iter', hm.iter', List.map_map, List.map_map]
    apply List.map_congr_left
    intro p _
    by_cases e : p.1 = a <;> simp [e]
  · rw [h2.same, hl]; simp
  · rw [h2.same, hl]; simp [Ne.symm hab]
  · intro k hka hkb; rw [h2.same, hl, hm.same]; simp [Ne.symm hka, Ne.symm hkb]

example : ∃ d : DD Nat Nat, Reachable d ∧ iter d = [1, 2, 3] ∧ dget d.dict 2 = some 20 ∧
    4 ∉ iter d :=
  ⟨_, ⟨[.set 1 10, .set 2 20, .set 3 30], rfl⟩, rfl, rfl, by decide⟩

/-- C02.  Renaming `a` to another *existing* key `b` succeeds silently: `b`'s old
value is lost, the entry of `a` disappears, the others keep order and value. -/
theorem C02_rename_existing {d : DD K V} (h : Reachable d) (a b : K) (v w : V) (hab : a ≠ b)
    (ha : dget d.dict a = some v) (hb : dget d.dict b = some w) :
    ∃ d', rename d a b = .ok d' ∧ iter d' = (iter d).filter (fun k => k ≠ a) ∧
      dget d'.dict b = some v ∧ dget d'.dict a = none ∧
      ∀ k, k ≠ a → k ≠ b → dget d'.dict k = dget d.dict k := by
  obtain ⟨m, hm⟩ := h.rel
  have hv : Spec.lookup m a = some v := by rw [← hm.same, ha]
  obtain ⟨d', h1, h2⟩ := hm.rename_some a b v hv
  have hbm : Spec.member m b = true := by rw [member_eq_isSome, ← hm.same, hb]; rfl
  have hspec : Spec.rename m a b v = Spec.modify (Spec.remove m a) b v := by
    simp [Spec.rename, hab, hbm]
  have hmem : Spec.member (Spec.remove m a) b = true := by
    rw [member_eq_isSome, lookup_remove, if_neg hab, ← member_eq_isSome]; exact hbm
  rw [hspec] at h2
  refine ⟨d', h1, ?_, ?_, ?_, ?_⟩
  · rw [h2.iter', hm.iter', keys_modify, keys_remove]
  · rw [h2.same, lookup_modify]; simp [hmem]
  · rw [h2.same, lookup_modify, lookup_remove]; simp [Ne.symm hab]
  · intro k hka hkb
    rw [h2.same, lookup_modify, lookup_remove, hm.same]; simp [Ne.symm hka, Ne.symm hkb]

example : ∃ d : DD Nat Nat, Reachable d ∧ dget d.dict 1 = some 10 ∧ dget d.dict 2 = some 20 :=
  ⟨_, ⟨[.set 1 10, .set 2 20], rfl⟩, rfl, rfl⟩

/-- C02.  Renaming a key to itself keeps all values but moves the key last. -/
theorem C02_rename_self {d : DD K V} (h : Reachable d) (a : K) (v : V)
    (ha : dget d.dict a = some v) :
    ∃ d', rename d a a = .ok d' ∧ iter d' = (iter d).filter (fun k => k ≠ a) ++ [a] ∧
      ∀ k, dget d'.dict k = dget d.dict k := by
  obtain ⟨m, hm⟩ := h.rel
  have hv : Spec.lookup m a = some v := by rw [← hm.same, ha]
  obtain ⟨d', h1, h2⟩ := hm.rename_some a a v hv
  have hspec : Spec.rename m a a v = Spec.remove m a ++ [(a, v)] := by simp [Spec.rename]
  rw [hspec] at h2
  refine ⟨d', h1, ?_, ?_⟩
  · rw [h2.iter', hm.iter', List.map_append, keys_remove]; rfl
  · intro k
    rw [h2.same, lookup_append, lookup_remove, lookup_singleton, hm.same]
    by_cases e : a = k
    · subst e; simp [hv]
    · simp [e]

/-- C02.  Renaming a missing key raises `KeyError`, in every reachable state. -/
theorem C02_rename_missing (d : DD K V) (a b : K) (ha : dget d.dict a = none) :
    rename d a b = .error .keyError := by simp [rename, ha]

/-- C02 fails for entries given to the constructor: `rename` raises `ValueError`
on every such dictionary for every stored key and fresh new name. -/
theorem C02_rename_constructor_refuted (l : List (K × V)) (a b : K) (v : V)
    (ha : dget (ofPairs l).dict a = some v) :
    rename (ofPairs l) a b = .error .valueError := by
  simp only [rename, ha]
  simp [ofPairs, replaceFirst]

example : dget (ofPairs [((1 : Nat), (2 : Nat))]).dict 1 = some 2 := rfl

end HF.DataDict
