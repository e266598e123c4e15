import Verif.Config.Session
/-
Dictionaries as lists of keys and values, for the sessions with settings.
-/
namespace HF
namespace Config
namespace Session

variable {K V F : Type} [DecidableEq K] [DecidableEq F]

theorem lookup_map_set (es : List (K × V)) (k k' : K) (v : V) :
    (es.map fun p => if p.1 = k then (k, v) else p).lookup k' =
      if k' = k then (es.lookup k).map fun _ => v else es.lookup k' := by
  induction es with
  | nil => simp
  | cons p es ih =>
    obtain ⟨a, x⟩ := p
    by_cases ha : a = k
    · subst ha
      by_cases hk : k' = a
      · subst hk; simp [List.lookup]
      · have h1 : (k' == a) = false := by simpa using hk
        simp only [List.map_cons, if_true, List.lookup, h1, ih, if_neg hk]
    · by_cases hk : k' = k
      · subst hk
        have h1 : (k' == a) = false := by simpa using fun e : k' = a => ha e.symm
        simp only [List.map_cons, if_neg ha, List.lookup, h1, ih]
      · simp only [List.map_cons, if_neg ha, List.lookup, if_neg hk] at ih ⊢
        rw [ih]

theorem lookup_append (es fs : List (K × V)) (k : K) : (es ++ fs).lookup k = (es.lookup k).or (fs.lookup k) := by
  induction es with
  | nil => simp
  | cons p es ih =>
    obtain ⟨a, x⟩ := p
    by_cases hk : k = a
    · subst hk; simp [List.lookup]
    · have h1 : (k == a) = false := by simpa using hk
      simp only [List.cons_append, List.lookup, h1, ih]

theorem lookup_setKey (es : List (K × V)) (k k' : K) (v : V) :
    (setKey es k v).lookup k' = if k' = k then some v else es.lookup k' := by
  unfold setKey
  by_cases h : (es.lookup k).isSome
  · rw [if_pos h, lookup_map_set]
    split
    · obtain ⟨x, hx⟩ := Option.isSome_iff_exists.mp h
      simp [hx]
    · rfl
  · rw [if_neg h, lookup_append]
    have hn : es.lookup k = none := by cases e : es.lookup k with | none => rfl | some x => exact absurd (by simp [e]) h
    by_cases hk : k' = k
    · subst hk; simp [List.lookup, hn]
    · have h1 : (k' == k) = false := by simpa using hk
      simp [List.lookup, h1, hk]

theorem lookup_filter (es : List (K × V)) (k k' : K) :
    (es.filter fun p => p.1 ≠ k).lookup k' = if k' = k then none else es.lookup k' := by
  induction es with
  | nil => simp
  | cons p es ih =>
    obtain ⟨a, x⟩ := p
    by_cases ha : a = k
    · subst ha
      have : ((a, x) :: es).filter (fun p => p.1 ≠ a) = es.filter fun p => p.1 ≠ a := by simp
      rw [this, ih]
      by_cases hk : k' = a
      · simp [hk]
      · have h1 : (k' == a) = false := by simpa using hk
        simp [hk, List.lookup, h1]
    · have : ((a, x) :: es).filter (fun p => p.1 ≠ k) = (a, x) :: es.filter fun p => p.1 ≠ k := by simp [ha]
      rw [this]
      by_cases hk : k' = a
      · subst hk; simp [List.lookup, ha]
      · have h1 : (k' == a) = false := by simpa using hk
        simp only [List.lookup, h1, ih]

theorem lookup_foldl_setKey (new es : List (K × V)) (k : K) :
    (new.foldl (fun a p => setKey a p.1 p.2) es).lookup k = (new.reverse.lookup k).or (es.lookup k) := by
  induction new generalizing es with
  | nil => simp
  | cons p new ih =>
    rw [List.foldl_cons, ih, List.reverse_cons, lookup_append, lookup_setKey]
    by_cases hk : k = p.1
    · subst hk
      obtain ⟨a, x⟩ := p
      cases new.reverse.lookup a <;> simp [List.lookup]
    · obtain ⟨a, x⟩ := p
      have h1 : (k == a) = false := by simpa using hk
      cases new.reverse.lookup k <;> simp [List.lookup, h1, if_neg hk]

/-! ### Keys are there once -/

def Once (es : List (K × V)) : Prop := (es.map Prod.fst).Nodup

theorem lookup_none_mem (es : List (K × V)) (k : K) (h : es.lookup k = none) : k ∉ es.map Prod.fst := by
  induction es with
  | nil => simp
  | cons p es ih =>
    obtain ⟨a, x⟩ := p
    by_cases hk : k = a
    · subst hk; simp [List.lookup] at h
    · have h1 : (k == a) = false := by simpa using hk
      simp only [List.lookup, h1] at h
      simp only [List.map_cons, List.mem_cons, not_or]
      exact ⟨hk, ih h⟩

theorem once_setKey (es : List (K × V)) (k : K) (v : V) (h : Once es) : Once (setKey es k v) := by
  unfold setKey Once at *
  by_cases hs : (es.lookup k).isSome
  · rw [if_pos hs]
    have : (es.map fun p => if p.1 = k then (k, v) else p).map Prod.fst = es.map Prod.fst := by
      rw [List.map_map]
      apply List.map_congr_left
      intro p _
      by_cases hp : p.1 = k <;> simp [hp]
    rw [this]; exact h
  · rw [if_neg hs]
    have hn : es.lookup k = none := by cases e : es.lookup k with | none => rfl | some x => exact absurd (by simp [e]) hs
    have hm := lookup_none_mem es k hn
    rw [List.map_append, List.nodup_append]
    refine ⟨h, by simp, ?_⟩
    intro a ha b hb
    simp only [List.map_cons, List.map_nil, List.mem_singleton] at hb
    subst hb
    exact fun e => hm (e ▸ ha)

theorem once_filter (es : List (K × V)) (f : K × V → Bool) (h : Once es) : Once (es.filter f) := by
  unfold Once at *
  exact List.Sublist.nodup (List.Sublist.map _ List.filter_sublist) h

theorem once_foldl (new es : List (K × V)) (h : Once es) : Once (new.foldl (fun a p => setKey a p.1 p.2) es) := by
  induction new generalizing es with
  | nil => exact h
  | cons p new ih => exact ih _ (once_setKey es p.1 p.2 h)

theorem once_updatePairs (w : World K V F) (l : List V) (es : List (K × V)) (h : Once es) :
    Once (updatePairs w es l).1 := by
  induction l generalizing es with
  | nil => exact h
  | cons v l ih =>
    unfold updatePairs
    split
    · exact h
    · exact h
    · exact h
    · exact ih _ (once_setKey es _ _ h)

theorem once_reload (w : World K V F) (files : F → Option (Content K V)) (o : Obj K V F) :
    Once (reload w files o).1 := by
  have h0 : Once ([] : List (K × V)) := by simp [Once]
  unfold reload
  dsimp only
  split
  · exact h0
  · exact h0
  · next d _ =>
    cases d with
    | nothing => exact h0
    | map new => exact once_foldl new [] h0
    | seq l =>
      cases hc : o.cls
      · exact once_updatePairs w l [] h0
      · exact h0
    | text n =>
      cases hc : o.cls
      · simp only [update]; split <;> exact h0
      · exact h0
    | scalar => exact h0

/-- All objects have every key once. -/
def AllOnce (s : State K V F) : Prop := ∀ (i : Nat) (o : Obj K V F), s.objs[i]? = some o → Once o.entries

theorem allOnce_set (s : State K V F) (i : Nat) (o : Obj K V F) (h : AllOnce s) (ho : Once o.entries) :
    AllOnce { s with objs := s.objs.set i o } := by
  intro j o' hj
  simp only [List.getElem?_set] at hj
  split at hj
  · split at hj
    · cases hj; exact ho
    · cases hj
  · exact h j o' hj

theorem allOnce_append (s : State K V F) (o : Obj K V F) (h : AllOnce s) (ho : Once o.entries) :
    AllOnce { s with objs := s.objs ++ [o] } := by
  intro j o' hj
  simp only [List.getElem?_append] at hj
  split at hj
  · exact h j o' hj
  · have : o' = o := by
      cases hd : j - s.objs.length with
      | zero => simp [hd] at hj; exact hj.symm
      | succ m => simp [hd] at hj
    rw [this]; exact ho

theorem allOnce_step (w : World K V F) (s : State K V F) (op : Op K V F) (h : AllOnce s) :
    AllOnce (step w s op).1 := by
  cases op with
  | new cls f =>
    have hr := once_reload w s.files (⟨cls, f, []⟩ : Obj K V F)
    unfold step
    dsimp only
    split
    · next es he => rw [he] at hr; exact allOnce_append s _ h hr
    · next es he => rw [he] at hr; exact allOnce_append s _ h hr
    · exact h
  | set i k v =>
    unfold step
    dsimp only
    split
    · exact h
    · next o ho => exact allOnce_set s i _ h (once_setKey _ k v (h i o ho))
  | del i k =>
    unfold step
    dsimp only
    split
    · exact h
    · next o ho =>
      split
      · exact h
      · next es he =>
        refine allOnce_set s i _ h ?_
        unfold delKey at he
        split at he
        · cases he; exact once_filter _ _ (h i o ho)
        · cases he
  | rename i f =>
    unfold step
    dsimp only
    split
    · exact h
    · next o ho => exact allOnce_set s i _ h (h i o ho)
  | reload i =>
    unfold step
    dsimp only
    split
    · exact h
    · next o ho => exact allOnce_set s i _ h (once_reload w s.files o)
  | write i f =>
    unfold step
    dsimp only
    split
    · exact h
    · exact h
  | other f c => exact h

theorem allOnce_run (w : World K V F) (ops : List (Op K V F)) (s : State K V F) (h : AllOnce s) :
    AllOnce (run w s ops) := by
  induction ops generalizing s with
  | nil => exact h
  | cons op ops ih => exact ih _ (allOnce_step w s op h)

/-! ### Lists with every key once -/

theorem lookup_once (es : List (K × V)) (h : Once es) (k : K) (v : V) : es.lookup k = some v ↔ (k, v) ∈ es := by
  induction es with
  | nil => simp
  | cons p es ih =>
    obtain ⟨a, x⟩ := p
    have h' : Once es := by unfold Once at *; exact (List.nodup_cons.mp h).2
    have ha : a ∉ es.map Prod.fst := by unfold Once at h; exact (List.nodup_cons.mp h).1
    by_cases hk : k = a
    · subst hk
      simp only [List.lookup, beq_self_eq_true, List.mem_cons, Prod.mk.injEq, true_and, Option.some.injEq]
      constructor
      · exact fun e => Or.inl e.symm
      · rintro (e | e)
        · exact e.symm
        · exact absurd (List.mem_map_of_mem (f := Prod.fst) e) ha
    · have h1 : (k == a) = false := by simpa using hk
      simp only [List.lookup, h1, ih h', List.mem_cons, Prod.mk.injEq, hk, false_and, false_or]

theorem lookup_perm (es fs : List (K × V)) (h : Once es) (hp : fs.Perm es) (k : K) : fs.lookup k = es.lookup k := by
  have hf : Once fs := by unfold Once at *; exact (hp.map Prod.fst).nodup_iff.mpr h
  apply Option.ext
  intro v
  rw [lookup_once es h, lookup_once fs hf, hp.mem_iff]

theorem dumped_all (w : World K V F) (es : List (K × V)) (g : V → V) (h : ∀ p ∈ es, w.fate p.2 = .readAs (g p.2)) :
    dumped w es = some (some (es.map fun p => (p.1, g p.2))) := by
  induction es with
  | nil => rfl
  | cons p es ih =>
    obtain ⟨k, v⟩ := p
    have h1 : w.fate v = .readAs (g v) := h (k, v) (by simp)
    simp only [dumped, h1, ih fun p hp => h p (by simp [hp]), List.map_cons]

theorem dumped_refused (w : World K V F) (es : List (K × V)) (p : K × V) (hp : p ∈ es) (h : w.fate p.2 = .refused) :
    dumped w es = none := by
  induction es with
  | nil => simp at hp
  | cons q es ih =>
    obtain ⟨k, v⟩ := q
    rcases List.mem_cons.mp hp with e | e
    · subst e; simp only [dumped, h]
    · simp only [dumped, ih e]; cases w.fate v <;> rfl

theorem dumped_unreadable (w : World K V F) (es : List (K × V)) (p : K × V) (hp : p ∈ es)
    (h : w.fate p.2 = .unreadable) (hn : ∀ q ∈ es, w.fate q.2 ≠ .refused) : dumped w es = some none := by
  induction es with
  | nil => simp at hp
  | cons q es ih =>
    obtain ⟨k, v⟩ := q
    have hne : dumped w es ≠ none := by
      have hn' : ∀ q ∈ es, w.fate q.2 ≠ .refused := fun q hq => hn q (by simp [hq])
      clear ih hp hn
      induction es with
      | nil => simp [dumped]
      | cons r es ih =>
        obtain ⟨a, x⟩ := r
        have h1 := hn' (a, x) (by simp)
        have h2 := ih fun q hq => hn' q (by simp [hq])
        simp only [dumped]
        cases hf : w.fate x with
        | refused => exact absurd hf h1
        | unreadable => cases hd : dumped w es with
          | none => exact absurd hd h2
          | some r => simp
        | readAs y => cases hd : dumped w es with
          | none => exact absurd hd h2
          | some r => cases r <;> simp
    rcases List.mem_cons.mp hp with e | e
    · subst e
      have h' : w.fate v = .unreadable := h
      simp only [dumped, h']
      cases hd : dumped w es with
      | none => exact absurd hd hne
      | some r => rfl
    · have := ih e fun q hq => hn q (by simp [hq])
      have hv := hn (k, v) (by simp)
      simp only [dumped, this]
      cases hf : w.fate v with
      | refused => exact absurd hf hv
      | unreadable => rfl
      | readAs y => rfl

end Session
end Config
end HF
