import Verif.DataDict.Spec
import Mathlib.Data.List.Nodup
import Mathlib.Data.List.Perm.Basic

namespace HF.DataDict

variable {K V : Type} [DecidableEq K]

theorem dget_isSome_iff (l : List (K × V)) (k : K) : (dget l k).isSome ↔ k ∈ l.map Prod.fst := by
  induction l with
  | nil => simp [dget]
  | cons p t ih =>
    obtain ⟨a, v⟩ := p
    by_cases h : a = k
    · simp [dget, h]
    · simp only [dget, h, if_false, ih, List.map_cons, List.mem_cons]
      constructor
      · exact Or.inr
      · rintro (h' | h')
        · exact absurd h'.symm h
        · exact h'

theorem dget_none_iff (l : List (K × V)) (k : K) : dget l k = none ↔ k ∉ l.map Prod.fst := by
  rw [← dget_isSome_iff]; cases dget l k <;> simp

theorem dget_dset (l : List (K × V)) (k k' : K) (v : V) :
    dget (dset l k v) k' = if k = k' then some v else dget l k' := by
  induction l with
  | nil => simp [dset, dget]
  | cons p t ih =>
    obtain ⟨a, w⟩ := p
    by_cases h : a = k
    · subst h; by_cases h2 : a = k' <;> simp [dset, dget, h2]
    · by_cases h2 : a = k'
      · subst h2; simp [dset, dget, h, Ne.symm h]
      · simp [dset, dget, h, h2, ih]

theorem keys_dset (l : List (K × V)) (k : K) (v : V) :
    (dset l k v).map Prod.fst = if k ∈ l.map Prod.fst then l.map Prod.fst
      else l.map Prod.fst ++ [k] := by
  induction l with
  | nil => simp [dset]
  | cons p t ih =>
    obtain ⟨a, w⟩ := p
    by_cases h : a = k
    · simp [dset, h]
    · have h' : ¬ k = a := fun e => h e.symm
      simp only [dset, h, if_false, List.map_cons, ih, List.mem_cons, h', false_or]
      split <;> simp

theorem nodup_keys_dset {l : List (K × V)} (h : (l.map Prod.fst).Nodup) (k : K) (v : V) :
    ((dset l k v).map Prod.fst).Nodup := by
  rw [keys_dset]; split
  · exact h
  · rename_i hk
    exact List.nodup_append.2 ⟨h, by simp, by
      intro a ha b hb; simp at hb; subst hb; intro e; subst e; exact hk ha⟩

theorem keys_ddel (l : List (K × V)) (k : K) :
    (ddel l k).map Prod.fst = (l.map Prod.fst).erase k := by
  induction l with
  | nil => simp [ddel]
  | cons p t ih =>
    obtain ⟨a, w⟩ := p
    by_cases h : a = k
    · simp [ddel, h]
    · simp [ddel, h, ih]

theorem dget_ddel {l : List (K × V)} (h : (l.map Prod.fst).Nodup) (k k' : K) :
    dget (ddel l k) k' = if k = k' then none else dget l k' := by
  induction l with
  | nil => simp [ddel, dget]
  | cons p t ih =>
    obtain ⟨a, w⟩ := p
    simp only [List.map_cons, List.nodup_cons] at h
    by_cases e : a = k
    · subst e
      by_cases e2 : a = k'
      · subst e2; simp only [ddel, if_true]; exact (dget_none_iff _ _).2 h.1
      · simp [ddel, dget, e2]
    · by_cases e2 : a = k'
      · subst e2; simp [ddel, dget, e, Ne.symm e]
      · simp [ddel, dget, e, e2, ih h.2]

theorem lookup_cons (p : K × V) (m : Spec.OMap K V) (k : K) :
    Spec.lookup (p :: m) k = if p.1 = k then some p.2 else Spec.lookup m k := by
  by_cases h : p.1 = k <;> simp [Spec.lookup, h]

theorem lookup_eq_dget (m : Spec.OMap K V) (k : K) : Spec.lookup m k = dget m k := by
  induction m with
  | nil => simp [Spec.lookup, dget]
  | cons p t ih =>
    obtain ⟨a, v⟩ := p
    rw [lookup_cons, ih, dget]

theorem member_iff (m : Spec.OMap K V) (k : K) : Spec.member m k = true ↔ k ∈ m.map Prod.fst := by
  simp only [Spec.member, List.any_eq_true, decide_eq_true_eq, List.mem_map]

theorem member_eq_isSome (m : Spec.OMap K V) (k : K) :
    Spec.member m k = (Spec.lookup m k).isSome := by
  rw [Bool.eq_iff_iff, member_iff, lookup_eq_dget, dget_isSome_iff]

theorem keys_modify (m : Spec.OMap K V) (k : K) (v : V) :
    (Spec.modify m k v).map Prod.fst = m.map Prod.fst := by
  simp only [Spec.modify, List.map_map]
  apply List.map_congr_left
  intro p _
  by_cases h : p.1 = k <;> simp [h]

theorem lookup_modify (m : Spec.OMap K V) (k : K) (v : V) (k' : K) :
    Spec.lookup (Spec.modify m k v) k' =
      if k = k' ∧ Spec.member m k then some v else Spec.lookup m k' := by
  induction m with
  | nil => simp [Spec.modify, Spec.lookup, Spec.member]
  | cons p t ih =>
    have hm : Spec.modify (p :: t) k v = (if p.1 = k then (k, v) else p) :: Spec.modify t k v := rfl
    have hmem : Spec.member (p :: t) k = (decide (p.1 = k) || Spec.member t k) := rfl
    rw [hm, lookup_cons, lookup_cons, ih, hmem]
    by_cases h : p.1 = k
    · by_cases h2 : k = k'
      · simp [h, h2]
      · simp [h, h2]
    · by_cases h2 : k = k'
      · subst h2; simp [h]
      · simp [h, h2]

theorem keys_remove (m : Spec.OMap K V) (k : K) :
    (Spec.remove m k).map Prod.fst = (m.map Prod.fst).filter (fun a => a ≠ k) := by
  induction m with
  | nil => simp [Spec.remove]
  | cons p t ih =>
    simp only [Spec.remove, ne_eq, decide_not] at ih ⊢
    by_cases h : p.1 = k <;> simp [h, ih]

theorem lookup_remove (m : Spec.OMap K V) (k k' : K) :
    Spec.lookup (Spec.remove m k) k' = if k = k' then none else Spec.lookup m k' := by
  induction m with
  | nil => simp [Spec.remove, Spec.lookup]
  | cons p t ih =>
    by_cases h : p.1 = k
    · have : Spec.remove (p :: t) k = Spec.remove t k := by simp [Spec.remove, h]
      rw [this, ih, lookup_cons]
      by_cases h2 : k = k' <;> simp [h, h2]
    · have : Spec.remove (p :: t) k = p :: Spec.remove t k := by simp [Spec.remove, h]
      rw [this, lookup_cons, lookup_cons, ih]
      by_cases h2 : k = k'
      · subst h2; simp [h]
      · simp [h2]

theorem lookup_append (m n : Spec.OMap K V) (k : K) :
    Spec.lookup (m ++ n) k = (Spec.lookup m k).or (Spec.lookup n k) := by
  induction m with
  | nil => simp [Spec.lookup]
  | cons p t ih =>
    rw [List.cons_append, lookup_cons, lookup_cons, ih]
    by_cases h : p.1 = k <;> simp [h]

theorem lookup_singleton (a : K) (v : V) (k : K) :
    Spec.lookup [(a, v)] k = if a = k then some v else none := by
  rw [lookup_cons]; simp [Spec.lookup]

theorem erase_eq_filter {l : List K} (h : l.Nodup) (k : K) :
    l.erase k = l.filter (fun a => a ≠ k) := by
  rw [h.erase_eq_filter]
  apply List.filter_congr; intro a _
  by_cases e : a = k <;> simp [e]

/-- The state invariant linking the implementation to the ordered map. -/
structure Rel (d : DD K V) (m : Spec.OMap K V) : Prop where
  nodup : (m.map Prod.fst).Nodup
  order : d.order = m.map Prod.fst
  dnodup : (d.dict.map Prod.fst).Nodup
  same : ∀ k, dget d.dict k = Spec.lookup m k

theorem Rel.keys_iff {d : DD K V} {m : Spec.OMap K V} (h : Rel d m) (k : K) :
    k ∈ d.dict.map Prod.fst ↔ k ∈ m.map Prod.fst := by
  rw [← dget_isSome_iff, h.same, lookup_eq_dget, dget_isSome_iff]

theorem Rel.perm {d : DD K V} {m : Spec.OMap K V} (h : Rel d m) :
    (d.dict.map Prod.fst).Perm (m.map Prod.fst) :=
  (List.perm_ext_iff_of_nodup h.dnodup h.nodup).2 h.keys_iff

theorem Rel.length {d : DD K V} {m : Spec.OMap K V} (h : Rel d m) :
    d.dict.length = m.length := by
  simpa using h.perm.length_eq

theorem foldl_iter_of_subset (l : List (K × V)) (o : List K)
    (h : ∀ p ∈ l, p.1 ∈ o) :
    l.foldl (fun out p => if p.1 ∈ out then out else out ++ [p.1]) o = o := by
  induction l with
  | nil => rfl
  | cons p t ih =>
    simp only [List.foldl_cons]
    rw [if_pos (h p (by simp))]
    exact ih fun q hq => h q (by simp [hq])

theorem Rel.iter' {d : DD K V} {m : Spec.OMap K V} (h : Rel d m) :
    iter d = m.map Prod.fst := by
  unfold iter
  rw [foldl_iter_of_subset, h.order]
  intro p hp
  rw [h.order]
  exact (h.keys_iff p.1).1 (List.mem_map_of_mem hp)

theorem lookupAll_eq (dict m : List (K × V)) (hn : (m.map Prod.fst).Nodup)
    (h : ∀ k ∈ m.map Prod.fst, dget dict k = dget m k) :
    lookupAll dict (m.map Prod.fst) = .ok m := by
  induction m with
  | nil => rfl
  | cons p t ih =>
    obtain ⟨a, v⟩ := p
    simp only [List.map_cons, List.nodup_cons] at hn
    have h1 : dget dict a = some v := by rw [h a (by simp)]; simp [dget]
    have h2 : lookupAll dict (t.map Prod.fst) = .ok t := by
      apply ih hn.2
      intro k hk
      rw [h k (by simp at hk ⊢; exact Or.inr hk)]
      have : ¬ a = k := by intro e; subst e; exact hn.1 hk
      simp [dget, this]
    simp [lookupAll, h1, h2]

theorem Rel.items' {d : DD K V} {m : Spec.OMap K V} (h : Rel d m) : items d = .ok m := by
  unfold items
  rw [h.iter']
  exact lookupAll_eq _ _ h.nodup fun k _ => by rw [h.same, lookup_eq_dget]

theorem Rel.empty' : Rel (empty : DD K V) [] :=
  ⟨by simp, by simp [empty], by simp [empty], by
    intro k; simp [empty, dget, Spec.lookup]⟩

theorem Rel.setitem' {d : DD K V} {m : Spec.OMap K V} (h : Rel d m) (k : K) (v : V) :
    Rel (setitem d k v) (Spec.assign m k v) := by
  by_cases hk : Spec.member m k
  · have hk' := (member_iff m k).1 hk
    refine ⟨?_, ?_, nodup_keys_dset h.dnodup k v, ?_⟩
    · simp only [Spec.assign, hk, if_true, keys_modify]; exact h.nodup
    · simp only [setitem, Spec.assign, hk, if_true, keys_modify, h.order, hk']
    · intro k'
      simp only [setitem, Spec.assign, hk, if_true, dget_dset, lookup_modify, and_true,
        h.same]
  · have hk' : k ∉ m.map Prod.fst := fun e => hk ((member_iff m k).2 e)
    have hnone : Spec.lookup m k = none := by
      rw [lookup_eq_dget, dget_none_iff]; exact hk'
    refine ⟨?_, ?_, nodup_keys_dset h.dnodup k v, ?_⟩
    · rw [Spec.assign, if_neg hk, List.map_append]
      exact List.nodup_append.2 ⟨h.nodup, by simp, by
        intro a ha b hb e; rw [List.mem_map] at hb; obtain ⟨q, hq, hq'⟩ := hb
        rw [List.mem_singleton] at hq; subst hq; subst e; subst hq'; exact hk' ha⟩
    · simp [setitem, Spec.assign, hk, h.order, hk']
    · intro k'
      simp only [setitem, Spec.assign, hk, dget_dset, h.same]
      by_cases e : k = k'
      · subst e; simp [lookup_append, hnone, lookup_singleton]
      · simp [e, lookup_append, lookup_singleton]

theorem Rel.delitem' {d : DD K V} {m : Spec.OMap K V} (h : Rel d m) (k : K) :
    Rel (delitem d k) (Spec.remove m k) := by
  have hd : (delitem d k).dict = ddel d.dict k := by
    simp only [delitem]
    by_cases hk : dhas d.dict k = true
    · rw [if_pos hk]
    · rw [if_neg hk]
      have : k ∉ d.dict.map Prod.fst := by rw [← dget_isSome_iff]; exact hk
      revert this
      generalize d.dict = l
      intro this
      induction l with
      | nil => rfl
      | cons p t ih =>
        obtain ⟨a, w⟩ := p
        simp only [List.map_cons, List.mem_cons, not_or] at this
        have h1 : ¬ a = k := fun e => this.1 e.symm
        simp only [ddel, h1, if_false]
        rw [← ih this.2]
  have ho : (delitem d k).order = d.order.erase k := by
    simp only [delitem]
    split
    · rfl
    · rename_i hk; exact (List.erase_of_not_mem hk).symm
  refine ⟨?_, ?_, ?_, ?_⟩
  · rw [keys_remove]; exact h.nodup.filter _
  · rw [ho, keys_remove, h.order, erase_eq_filter h.nodup]
  · rw [hd, keys_ddel]; exact h.dnodup.erase _
  · intro k'; rw [hd, dget_ddel h.dnodup, lookup_remove, h.same]

theorem replaceFirst_map (m : Spec.OMap K V) (a b : K) (v : V)
    (hn : (m.map Prod.fst).Nodup) (ha : a ∈ m.map Prod.fst) :
    replaceFirst (m.map Prod.fst) a b =
      some ((m.map fun p => if p.1 = a then (b, v) else p).map Prod.fst) := by
  induction m with
  | nil => simp at ha
  | cons p t ih =>
    simp only [List.map_cons, List.nodup_cons] at hn
    by_cases h : p.1 = a
    · have ht : t.map ((fun p => if p.1 = a then (b, v) else p)) = t := by
        conv_rhs => rw [← List.map_id t]
        apply List.map_congr_left
        intro q hq
        have : ¬ q.1 = a := by
          intro e; apply hn.1; rw [h, ← e]; exact List.mem_map_of_mem hq
        simp [this]
      simp only [List.map_cons, replaceFirst, h, if_true]
      rw [ht]
    · have ha' : a ∈ t.map Prod.fst := by
        simp only [List.map_cons, List.mem_cons] at ha
        rcases ha with e | e
        · exact absurd e.symm h
        · exact e
      simp only [List.map_cons, replaceFirst, h, if_false, ih hn.2 ha', Option.map_some]

theorem lookup_renamed (m : Spec.OMap K V) (a b : K) (v : V) (hb : b ∉ m.map Prod.fst)
    (ha : a ∈ m.map Prod.fst) (k : K) :
    Spec.lookup (m.map fun p => if p.1 = a then (b, v) else p) k =
      if b = k then some v else if a = k then none else Spec.lookup m k := by
  induction m with
  | nil => simp at ha
  | cons p t ih =>
    simp only [List.map_cons, List.mem_cons, not_or] at hb
    have hpb : ¬ p.1 = b := fun e => hb.1 e.symm
    rw [List.map_cons, lookup_cons, lookup_cons]
    by_cases ht : a ∈ t.map Prod.fst
    · rw [ih hb.2 ht]
      by_cases h : p.1 = a
      · by_cases h1 : b = k <;> by_cases h2 : a = k <;> simp [h, h1, h2]
      · by_cases h1 : b = k
        · subst h1; simp [h, hpb]
        · by_cases h2 : a = k
          · subst h2; simp [h, h1]
          · simp [h, h1, h2]
    · have h : p.1 = a := by
        simp only [List.map_cons, List.mem_cons] at ha
        rcases ha with e | e
        · exact e.symm
        · exact absurd e ht
      have htm : t.map (fun p => if p.1 = a then (b, v) else p) = t := by
        conv_rhs => rw [← List.map_id t]
        apply List.map_congr_left
        intro q hq
        have : ¬ q.1 = a := by
          intro e; apply ht; rw [← e]; exact List.mem_map_of_mem hq
        simp [this]
      rw [htm]
      have hnone : Spec.lookup t a = none := by
        rw [lookup_eq_dget, dget_none_iff]; exact ht
      by_cases h1 : b = k
      · simp [h, h1]
      · by_cases h2 : a = k
        · subst h2; simp [h, h1, hnone]
        · simp [h, h1, h2]

theorem Rel.rename_some {d : DD K V} {m : Spec.OMap K V} (h : Rel d m) (a b : K) (v : V)
    (hv : Spec.lookup m a = some v) :
    ∃ d', rename d a b = .ok d' ∧ Rel d' (Spec.rename m a b v) := by
  have hget : dget d.dict a = some v := by rw [h.same, hv]
  have ha : a ∈ m.map Prod.fst := by
    rw [← dget_isSome_iff, ← lookup_eq_dget, hv]; rfl
  by_cases hb : b ∈ m.map Prod.fst
  · refine ⟨setitem (delitem ⟨d.dict, m.map Prod.fst⟩ a) b v,
      by simp only [HF.DataDict.rename, hget, h.order, hb, if_true], ?_⟩
    have hdel := h.delitem' a
    have hd' : (⟨d.dict, m.map Prod.fst⟩ : DD K V) = d := by rw [← h.order]
    rw [hd']
    have hset := hdel.setitem' b v
    by_cases hab : a = b
    · subst hab
      have : Spec.member (Spec.remove m a) a = false := by
        rw [member_eq_isSome, lookup_remove]; simp
      have e : Spec.assign (Spec.remove m a) a v = Spec.rename m a a v := by
        simp [Spec.assign, Spec.rename, this]
      rw [← e]; exact hset
    · have hbm : Spec.member m b = true := (member_iff m b).2 hb
      have : Spec.member (Spec.remove m a) b = true := by
        rw [member_eq_isSome, lookup_remove]
        simp only [hab, if_false]
        rw [← member_eq_isSome]; exact hbm
      have e : Spec.assign (Spec.remove m a) b v = Spec.rename m a b v := by
        simp [Spec.assign, Spec.rename, this, hab, hbm]
      rw [← e]; exact hset
  · have hab : ¬ a = b := by intro e; subst e; exact hb ha
    have hbm : Spec.member m b = false := by
      rw [← Bool.not_eq_true, member_iff]; exact hb
    have hrep := replaceFirst_map m a b v h.nodup ha
    have hbo : b ∉ d.order := by rw [h.order]; exact hb
    refine ⟨setitem (delitem ⟨d.dict, (m.map fun p => if p.1 = a then (b, v) else p).map Prod.fst⟩ a)
      b v, ?_, ?_⟩
    · simp only [HF.DataDict.rename, hget, hbo, if_false]
      rw [h.order, hrep]
    · have hspec : Spec.rename m a b v = m.map fun p => if p.1 = a then (b, v) else p := by
        simp [Spec.rename, hab, hbm]
      rw [hspec]
      -- keys of the renamed map
      have hkeys : ∀ k, k ∈ (m.map fun p => if p.1 = a then (b, v) else p).map Prod.fst ↔
          k = b ∨ (k ≠ a ∧ k ∈ m.map Prod.fst) := by
        intro k
        rw [← dget_isSome_iff, ← lookup_eq_dget, lookup_renamed m a b v hb ha]
        by_cases h1 : b = k
        · simp [h1]
        · by_cases h2 : a = k
          · simp [h1, h2, Ne.symm h1]
          · have : (Spec.lookup m k).isSome ↔ k ∈ m.map Prod.fst := by
              rw [lookup_eq_dget, dget_isSome_iff]
            simp only [h1, h2, if_false, this]
            constructor
            · intro e; exact Or.inr ⟨fun q => h2 q.symm, e⟩
            · rintro (e | e)
              · exact absurd e.symm h1
              · exact e.2
      have hao : a ∉ (m.map fun p => if p.1 = a then (b, v) else p).map Prod.fst := by
        rw [hkeys]; rintro (e | e)
        · exact hab e
        · exact e.1 rfl
      have hbo' : b ∈ (m.map fun p => if p.1 = a then (b, v) else p).map Prod.fst := by
        rw [hkeys]; exact Or.inl rfl
      have hnd : ((m.map fun p => if p.1 = a then (b, v) else p).map Prod.fst).Nodup := by
        rw [List.map_map]
        rw [List.nodup_map_iff_inj_on (List.Nodup.of_map _ h.nodup)]
        intro x hx y hy hxy
        have inj := List.inj_on_of_nodup_map h.nodup
        have hxb : x.1 ≠ b := fun e => hb (e ▸ List.mem_map_of_mem hx)
        have hyb : y.1 ≠ b := fun e => hb (e ▸ List.mem_map_of_mem hy)
        by_cases hxa : x.1 = a <;> by_cases hya : y.1 = a
        · exact inj hx hy (hxa.trans hya.symm)
        · simp [hxa, hya] at hxy; exact absurd hxy.symm hyb
        · simp [hxa, hya] at hxy; exact absurd hxy hxb
        · simp [hxa, hya] at hxy; exact inj hx hy hxy
      have hdd : (delitem (⟨d.dict, (m.map fun p => if p.1 = a then (b, v) else p).map Prod.fst⟩ :
          DD K V) a).dict = (delitem d a).dict := rfl
      have hdel := h.delitem' a
      refine ⟨hnd, ?_, ?_, ?_⟩
      · simp only [setitem, delitem, hao, if_false, hbo', if_true]
      · exact nodup_keys_dset (hdd ▸ hdel.dnodup) b v
      · intro k
        simp only [setitem]
        rw [dget_dset, hdd, hdel.same, lookup_remove, lookup_renamed m a b v hb ha]

theorem Rel.setdefault' {d : DD K V} {m : Spec.OMap K V} (h : Rel d m) (k : K) (v : V) :
    Rel (setdefault d k v).1 (Spec.step m (.setdefault k v)).1 ∧
      Spec.step m (.setdefault k v) = ((Spec.step m (.setdefault k v)).1,
        .val (setdefault d k v).2) := by
  cases hl : Spec.lookup m k with
  | some w =>
    have hd : dget d.dict k = some w := by rw [h.same, hl]
    have hk : k ∈ d.order := by
      rw [h.order, ← dget_isSome_iff, ← lookup_eq_dget, hl]; rfl
    constructor
    · simp only [setdefault, hd, hk, if_true, Spec.step, hl]; exact h
    · simp [setdefault, hd, Spec.step, hl]
  | none =>
    have hd : dget d.dict k = none := by rw [h.same, hl]
    constructor
    · have := h.setitem' k v
      simp only [setdefault, hd, Spec.step, hl]
      exact this
    · simp [setdefault, hd, Spec.step, hl]

theorem foldl_dset_dget (l : List (K × V)) (hn : (l.map Prod.fst).Nodup) (d : List (K × V)) (k : K) :
    dget (l.foldl (fun d p => dset d p.1 p.2) d) k = (dget l k).or (dget d k) := by
  induction l generalizing d with
  | nil => simp [dget]
  | cons p t ih =>
    obtain ⟨a, v⟩ := p
    simp only [List.map_cons, List.nodup_cons] at hn
    simp only [List.foldl_cons, ih hn.2, dget_dset, dget]
    by_cases h : a = k
    · subst h
      have : dget t a = none := (dget_none_iff _ _).2 hn.1
      simp [this]
    · simp [h]

theorem foldl_dset_nodup (l : List (K × V)) (d : List (K × V)) (hd : (d.map Prod.fst).Nodup) :
    ((l.foldl (fun d p => dset d p.1 p.2) d).map Prod.fst).Nodup := by
  induction l generalizing d with
  | nil => exact hd
  | cons p t ih => exact ih _ (nodup_keys_dset hd _ _)

theorem dget_map_snd (l : List (K × V)) (f : V → V) (k : K) :
    dget (l.map fun p => (p.1, f p.2)) k = (dget l k).map f := by
  induction l with
  | nil => simp [dget]
  | cons p t ih =>
    obtain ⟨a, v⟩ := p
    simp only [List.map_cons, dget, ih]
    split <;> simp

theorem Rel.copyWith' {d : DD K V} {m : Spec.OMap K V} (h : Rel d m) (f : V → V) :
    ∃ d', copyWith f d = .ok d' ∧ Rel d' (m.map fun p => (p.1, f p.2)) := by
  refine ⟨⟨(ofPairs (m.map fun p => (p.1, f p.2))).dict, d.order⟩,
    by simp only [copyWith, h.items'], ?_⟩
  have hk : (m.map fun p => (p.1, f p.2)).map Prod.fst = m.map Prod.fst := by simp
  refine ⟨by rw [hk]; exact h.nodup, by rw [hk]; exact h.order, ?_, ?_⟩
  · exact foldl_dset_nodup _ _ (by simp)
  · intro k
    show dget (List.foldl _ _ _) k = _
    rw [foldl_dset_dget _ (by rw [hk]; exact h.nodup), lookup_eq_dget]
    simp [dget]

theorem Rel.step' {d : DD K V} {m : Spec.OMap K V} (h : Rel d m) (op : Op K V) :
    Rel (step d op).1 (Spec.step m op).1 ∧ (step d op).2 = (Spec.step m op).2 := by
  cases op with
  | set k v => exact ⟨h.setitem' k v, rfl⟩
  | del k => exact ⟨h.delitem' k, rfl⟩
  | setdefault k v =>
    refine ⟨(h.setdefault' k v).1, ?_⟩
    rw [(h.setdefault' k v).2]; rfl
  | rename a b =>
    cases hl : Spec.lookup m a with
    | none =>
      have : dget d.dict a = none := by rw [h.same, hl]
      simp only [step, HF.DataDict.rename, this, Spec.step, hl]
      exact ⟨h, trivial⟩
    | some v =>
      obtain ⟨d', h1, h2⟩ := h.rename_some a b v hl
      simp only [step, h1, Spec.step, hl]
      exact ⟨h2, trivial⟩
  | copy =>
    obtain ⟨d', h1, h2⟩ := h.copyWith' id
    simp only [step, h1, Spec.step]
    refine ⟨?_, trivial⟩
    simpa using h2
  | get k =>
    simp only [step, Spec.step, h.same]
    cases Spec.lookup m k <;> exact ⟨h, rfl⟩
  | contains k =>
    refine ⟨h, ?_⟩
    simp only [step, Spec.step, dhas, h.same, member_eq_isSome]
  | len => exact ⟨h, by simp only [step, Spec.step, h.length]⟩
  | keys => exact ⟨h, by simp only [step, Spec.step, h.iter']⟩
  | values =>
    simp only [step, Spec.step, HF.DataDict.values, h.items']
    exact ⟨h, trivial⟩
  | items =>
    simp only [step, Spec.step, h.items']
    exact ⟨h, trivial⟩

theorem Rel.run' {d : DD K V} {m : Spec.OMap K V} (h : Rel d m) (ops : List (Op K V)) :
    Rel (run d ops).1 (Spec.run m ops).1 ∧ (run d ops).2 = (Spec.run m ops).2 := by
  induction ops generalizing d m with
  | nil => exact ⟨h, rfl⟩
  | cons op ops ih =>
    obtain ⟨h1, h2⟩ := h.step' op
    obtain ⟨h3, h4⟩ := ih h1
    exact ⟨h3, by simp only [run, Spec.run]; rw [h2, h4]⟩

end HF.DataDict
