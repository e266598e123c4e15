import Verif.Mdif.MakeProps
/-
C23: shortening of names.
-/

namespace HF.Mdif

open HF.DataDict.Spec

variable {X : Type}

/-- `t` is what is left of `s` when a number of leading parts (ending with a dot) are taken away. -/
def IsTail (t s : List Char) : Prop := t = s ∨ ∃ u, s = u ++ '.' :: t

theorem IsTail.trans {a b c : List Char} (h1 : IsTail a b) (h2 : IsTail b c) : IsTail a c := by
  rcases h1 with rfl | ⟨u, rfl⟩
  · exact h2
  · rcases h2 with rfl | ⟨w, rfl⟩
    · exact Or.inr ⟨u, rfl⟩
    · exact Or.inr ⟨w ++ '.' :: u, by simp⟩

theorem splitDot_ne (s : List Char) : splitDot s ≠ [] := by
  cases s with
  | nil => simp [splitDot]
  | cons c s =>
    rw [splitDot]
    split
    · simp
    · split <;> simp

theorem joinDot_cons (w : List Char) (ws : List (List Char)) (h : ws ≠ []) :
    joinDot (w :: ws) = w ++ '.' :: joinDot ws := by
  cases ws with
  | nil => exact absurd rfl h
  | cons a l => rfl

theorem joinDot_splitDot (s : List Char) : joinDot (splitDot s) = s := by
  induction s with
  | nil => rfl
  | cons c s ih =>
    rw [splitDot]
    split
    · rename_i h
      rw [joinDot_cons _ _ (splitDot_ne s), ih, h]
      rfl
    · split
      · rename_i h; exact absurd h (splitDot_ne s)
      · rename_i w ws h
        rw [h] at ih
        rw [← ih]
        cases ws with
        | nil => rfl
        | cons a l => rfl

theorem tail_drop (l : List (List Char)) : ∀ k, k < l.length → IsTail (joinDot (l.drop k)) (joinDot l) := by
  induction l with
  | nil => intro k h; simp at h
  | cons w l ih =>
    intro k h
    cases k with
    | zero => exact Or.inl rfl
    | succ k =>
      simp only [List.length_cons, Nat.add_lt_add_iff_right] at h
      rw [List.drop_succ_cons, joinDot_cons w l (by intro e; rw [e] at h; simp at h)]
      exact (ih k h).trans (Or.inr ⟨w, rfl⟩)

/-- All tails of a name are candidates. -/
theorem drop_of_tail (s t : List Char) (h : IsTail t s) : ∃ k, k < (splitDot s).length ∧ t = joinDot ((splitDot s).drop k) := by
  rcases h with rfl | ⟨u, rfl⟩
  · exact ⟨0, List.length_pos_iff.2 (splitDot_ne _), (joinDot_splitDot t).symm⟩
  · induction u with
    | nil =>
      refine ⟨1, ?_, ?_⟩
      · show 1 < (splitDot ('.' :: t)).length
        rw [splitDot, if_pos rfl, List.length_cons]
        have := List.length_pos_iff.2 (splitDot_ne t)
        omega
      · show t = joinDot ((splitDot ('.' :: t)).drop 1)
        rw [splitDot, if_pos rfl]
        exact (joinDot_splitDot t).symm
    | cons c u ih =>
      obtain ⟨k, hk, e⟩ := ih
      rw [List.cons_append, splitDot]
      split
      · exact ⟨k + 1, by simpa using hk, by simpa using e⟩
      · split
        · rename_i h; exact absurd h (splitDot_ne _)
        · rename_i w ws h
          rw [h] at hk e
          cases k with
          | zero =>
            exfalso
            have := congrArg joinDot h
            rw [joinDot_splitDot] at this
            simp only [List.drop_zero] at e
            rw [← e] at this
            have := congrArg List.length this
            simp at this
            omega
          | succ k => exact ⟨k + 1, by simpa using hk, by simpa using e⟩

theorem length_tail_le {t s : List Char} (h : IsTail t s) : t.length ≤ s.length := by
  rcases h with rfl | ⟨u, rfl⟩
  · exact Nat.le_refl _
  · simp; omega

theorem mem_candidates (s t : List Char) : t ∈ candidates s ↔ IsTail t s := by
  unfold candidates
  rw [List.mem_map]
  constructor
  · rintro ⟨i, hi, rfl⟩
    rw [List.mem_range] at hi
    have := tail_drop (splitDot s) ((splitDot s).length - (i + 1)) (by omega)
    rwa [joinDot_splitDot] at this
  · intro h
    obtain ⟨k, hk, rfl⟩ := drop_of_tail s t h
    refine ⟨(splitDot s).length - (k + 1), by rw [List.mem_range]; omega, ?_⟩
    congr 2
    omega

theorem candidates_sorted (s : List Char) : (candidates s).Pairwise fun a b => IsTail a b := by
  unfold candidates
  rw [List.pairwise_map]
  refine (List.pairwise_lt_range (n := (splitDot s).length)).imp_of_mem ?_
  intro a b ha hb h
  rw [List.mem_range] at ha hb
  have e : (splitDot s).drop ((splitDot s).length - (a + 1)) =
      ((splitDot s).drop ((splitDot s).length - (b + 1))).drop (b - a) := by
    rw [List.drop_drop]
    congr 1
    omega
  rw [e]
  apply tail_drop
  rw [List.length_drop]
  omega

/-- Rename the variable `a`, leaving everything in its place. -/
def relabel (m : OMap (List Char) X) (a b : List Char) : OMap (List Char) X :=
  m.map fun p => if p.1 = a then (b, p.2) else p

theorem relabel_self (m : OMap (List Char) X) (a : List Char) : relabel m a a = m := by
  unfold relabel
  conv_rhs => rw [← List.map_id m]
  apply List.map_congr_left
  intro p _
  simp only [id]
  split
  · rename_i h; rw [← h]
  · rfl

theorem rename_fresh {m : OMap (List Char) X} (hnd : (m.map Prod.fst).Nodup) {a b : List Char} {v : X}
    (hl : lookup m a = some v) (hb : b ∉ m.map Prod.fst) : rename m a b v = relabel m a b := by
  have hne : a ≠ b := by
    rintro rfl
    exact hb (mem_of_lookup hl)
  unfold rename relabel
  rw [if_neg hne, if_neg (by rw [member_iff]; exact hb)]
  apply List.map_congr_left
  intro p hp
  split
  · rename_i h
    have := (mem_iff_lookup hnd p.1 p.2).1 hp
    rw [h, hl] at this
    rw [Option.some.inj this]
  · rfl

theorem keys_relabel (m : OMap (List Char) X) (a b : List Char) :
    (relabel m a b).map Prod.fst = (m.map Prod.fst).map fun k => if k = a then b else k := by
  unfold relabel
  rw [List.map_map, List.map_map]
  apply List.map_congr_left
  intro p _
  simp only [Function.comp]
  split <;> rfl

theorem nodup_relabel {m : OMap (List Char) X} (hnd : (m.map Prod.fst).Nodup) {a b : List Char}
    (hb : b ∉ m.map Prod.fst ∨ b = a) : ((relabel m a b).map Prod.fst).Nodup := by
  rcases hb with hb | rfl
  · rw [keys_relabel]
    refine (List.nodup_map_iff_inj_on hnd).2 ?_
    intro x hx y hy h
    by_cases h1 : x = a <;> by_cases h2 : y = a
    · rw [h1, h2]
    · rw [if_pos h1, if_neg h2] at h
      rw [h] at hb
      exact absurd hy hb
    · rw [if_neg h1, if_pos h2] at h
      rw [← h] at hb
      exact absurd hx hb
    · rwa [if_neg h1, if_neg h2] at h
  · rw [relabel_self]
    exact hnd

/-- C23: shortening gives the variable the shortest tail of its name that is not in use (if there is none
but the name, the name is kept); values, number and order of the variables stay as they are. -/
theorem C23_shorten (m : OMap (List Char) X) (name : List Char) (hnd : (m.map Prod.fst).Nodup)
    (hin : name ∈ m.map Prod.fst) :
    (shorten m name).1 = relabel m name (shorten m name).2 ∧
    IsTail (shorten m name).2 name ∧
    ((shorten m name).2 ∉ m.map Prod.fst ∨ (shorten m name).2 = name) ∧
    (∀ t, IsTail t name → t.length < (shorten m name).2.length → t ∈ m.map Prod.fst) ∧
    ((shorten m name).1.map Prod.fst).Nodup := by
  obtain ⟨v, hv⟩ : ∃ v, lookup m name = some v := by
    cases h : lookup m name with
    | none => exact absurd hin (lookup_none.1 h)
    | some v => exact ⟨v, rfl⟩
  unfold shorten
  split
  · rename_i h
    refine ⟨(relabel_self m name).symm, Or.inl rfl, Or.inr rfl, ?_, hnd⟩
    intro t ht hlt
    obtain ⟨k, hk, rfl⟩ := drop_of_tail name t ht
    have : k = 0 := by omega
    subst this
    rw [List.drop_zero, joinDot_splitDot] at hlt
    exact absurd hlt (Nat.lt_irrefl _)
  · cases hf : (candidates name).find? fun n => !member m n with
    | none =>
      refine ⟨(relabel_self m name).symm, Or.inl rfl, Or.inr rfl, ?_, hnd⟩
      intro t ht _
      rw [List.find?_eq_none] at hf
      have := hf t ((mem_candidates name t).2 ht)
      rw [← member_iff]
      simpa using this
    | some n =>
      simp only [hv]
      obtain ⟨h1, l1, l2, h2, h3⟩ := List.find?_eq_some_iff_append.1 hf
      have hfresh : n ∉ m.map Prod.fst := by
        rw [← member_iff]
        simpa using h1
      have hre := rename_fresh hnd hv hfresh
      refine ⟨hre, ?_, Or.inl hfresh, ?_, ?_⟩
      · rw [← mem_candidates, h2]
        simp
      · intro t ht hlt
        have hc := (mem_candidates name t).2 ht
        have hs := candidates_sorted name
        rw [h2] at hc hs
        rcases List.mem_append.1 hc with hc | hc
        · rw [← member_iff]
          simpa using h3 t hc
        · rcases List.mem_cons.1 hc with rfl | hc
          · exact absurd hlt (Nat.lt_irrefl _)
          · have := (List.pairwise_cons.1 (List.pairwise_append.1 hs).2.1).1 t hc
            have := length_tail_le this
            omega
      · rw [hre]
        exact nodup_relabel hnd (Or.inl hfresh)

/-! ### All variables -/

/-- The name without `.m`. -/
def stripM (v : List Char) : List Char := if ends 'm' v then cut2 v else v

/-- Taking `.m` away makes no name that another variable has, or may get by shortening. -/
def Clear (keys : List (List Char)) : Prop :=
  ∀ v ∈ keys, ends 'm' v = true → ∀ w ∈ keys, w ≠ v → cut2 v ≠ w ∧ ¬IsTail (cut2 v) (stripM w)

theorem ends_iff (c : Char) (v : List Char) : ends c v = true ↔ ∃ u, v = u ++ ['.', c] := by
  unfold ends
  rw [List.isSuffixOf_iff_suffix]
  constructor
  · rintro ⟨u, h⟩; exact ⟨u, h.symm⟩
  · rintro ⟨u, h⟩; exact ⟨u, h.symm⟩

theorem cut2_ends {c : Char} {v : List Char} (h : ends c v = true) : v = cut2 v ++ ['.', c] := by
  obtain ⟨u, rfl⟩ := (ends_iff c v).1 h
  simp [cut2]

theorem ends_ms {v : List Char} (h : ends 's' v = true) : ends 'm' v = false := by
  rw [Bool.eq_false_iff]
  intro h'
  obtain ⟨u, rfl⟩ := (ends_iff _ _).1 h
  obtain ⟨w, e⟩ := (ends_iff _ _).1 h'
  have := congrArg List.getLast? e
  simp at this

theorem relabel_append (a b : OMap (List Char) X) (x y : List Char) :
    relabel (a ++ b) x y = relabel a x y ++ relabel b x y := List.map_append

theorem relabel_fresh {m : OMap (List Char) X} {x : List Char} (h : x ∉ m.map Prod.fst) (y : List Char) :
    relabel m x y = m := by
  unfold relabel
  conv_rhs => rw [← List.map_id m]
  apply List.map_congr_left
  intro p hp
  rw [if_neg]
  · rfl
  · rintro rfl
    exact h (List.mem_map.2 ⟨p, hp, rfl⟩)

/-- One step of the loop, on a variable that has not been treated. -/
theorem fixOne_step (done todo : OMap (List Char) X) (v : List Char) (x : X)
    (hnd : ((done ++ (v, x) :: todo).map Prod.fst).Nodup)
    (hclear : ends 'm' v = true → cut2 v ∉ (done ++ todo).map Prod.fst) :
    if ends 's' v then fixOne (done ++ (v, x) :: todo) v = done ++ todo
    else ∃ n, IsTail n (stripM v) ∧ fixOne (done ++ (v, x) :: todo) v = done ++ (n, x) :: todo ∧
      ((done ++ (n, x) :: todo).map Prod.fst).Nodup := by
  obtain ⟨m, hm⟩ : ∃ m, m = done ++ (v, x) :: todo := ⟨_, rfl⟩
  have hperm : (m.map Prod.fst).Perm (v :: (done ++ todo).map Prod.fst) := by
    rw [hm]
    exact (List.perm_middle.map Prod.fst)
  rw [← hm] at hnd ⊢
  have hv : v ∉ (done ++ todo).map Prod.fst := (List.nodup_cons.1 (hperm.nodup hnd)).1
  have hvd : v ∉ done.map Prod.fst := fun h => hv (by rw [List.map_append]; exact List.mem_append_left _ h)
  have hvt : v ∉ todo.map Prod.fst := fun h => hv (by rw [List.map_append]; exact List.mem_append_right _ h)
  have hmv : v ∈ m.map Prod.fst := hperm.mem_iff.2 (by simp)
  have hlook : lookup m v = some x := (mem_iff_lookup hnd v x).1 (by rw [hm]; simp)
  have hrel : ∀ n, relabel m v n = done ++ (n, x) :: todo := by
    intro n
    rw [hm, relabel_append, relabel_fresh hvd]
    congr 1
    show (if v = v then (n, x) else (v, x)) :: relabel todo v n = _
    rw [if_pos rfl, relabel_fresh hvt]
  unfold fixOne
  split
  · rename_i hs
    rw [hm]
    unfold remove
    rw [List.filter_append, List.filter_cons_of_neg (by simp)]
    congr 1
    · rw [List.filter_eq_self]
      intro p hp
      simp only [ne_eq, decide_eq_true_eq]
      rintro rfl
      exact hvd (List.mem_map.2 ⟨p, hp, rfl⟩)
    · rw [List.filter_eq_self]
      intro p hp
      simp only [ne_eq, decide_eq_true_eq]
      rintro rfl
      exact hvt (List.mem_map.2 ⟨p, hp, rfl⟩)
  · unfold stripM
    split
    · rename_i hM
      rw [hlook]
      simp only
      have hne : cut2 v ≠ v := by
        intro e
        have := congrArg List.length (cut2_ends hM)
        rw [e] at this
        simp at this
      have hfresh : cut2 v ∉ m.map Prod.fst := by
        rw [hperm.mem_iff, List.mem_cons]
        rintro (h | h)
        · exact hne h
        · exact hclear hM h
      rw [rename_fresh hnd hlook hfresh]
      have hnd1 := nodup_relabel hnd (a := v) (Or.inl hfresh)
      have hin1 : cut2 v ∈ (relabel m v (cut2 v)).map Prod.fst := by
        rw [hrel]
        simp
      obtain ⟨h1, h2, h3, _, h5⟩ := C23_shorten _ (cut2 v) hnd1 hin1
      have hfin : ∀ n, relabel (relabel m v (cut2 v)) (cut2 v) n = done ++ (n, x) :: todo := by
        intro n
        rw [hrel, relabel_append, relabel_fresh (m := done)]
        · congr 1
          show (if cut2 v = cut2 v then (n, x) else (cut2 v, x)) :: relabel todo (cut2 v) n = _
          rw [if_pos rfl, relabel_fresh]
          intro h
          exact hclear hM (by rw [List.map_append]; exact List.mem_append_right _ h)
        · intro h
          exact hclear hM (by rw [List.map_append]; exact List.mem_append_left _ h)
      refine ⟨_, h2, by rw [h1, hfin], ?_⟩
      rw [h1, hfin] at h5
      exact h5
    · obtain ⟨h1, h2, h3, _, h5⟩ := C23_shorten m v hnd hmv
      refine ⟨_, h2, ?_, ?_⟩
      · rw [h1, hrel]
      · rw [h1, hrel] at h5
        exact h5

/-- C23: names are fixed without loss: variables that end with `.s` are left out, every other variable keeps its
value and its place, and gets a name of its own that is a tail of its name without `.m`. -/
theorem C23_fixnames (m : OMap (List Char) X) (hnd : (m.map Prod.fst).Nodup) (hc : Clear (m.map Prod.fst)) :
    ∃ names : List (List Char), fixnames m = names.zip ((m.filter fun p => ends 's' p.1 = false).map Prod.snd) ∧
      List.Forall₂ (fun n p => IsTail n (stripM p.1)) names (m.filter fun p => ends 's' p.1 = false) ∧ names.Nodup := by
  -- what has been treated, with the old names
  have key : ∀ (todo old : OMap (List Char) X) (names : List (List Char)), old ++ todo = m →
      List.Forall₂ (fun n p => IsTail n (stripM p.1)) names (old.filter fun p => ends 's' p.1 = false) →
      ((names.zip ((old.filter fun p => ends 's' p.1 = false).map Prod.snd) ++ todo).map Prod.fst).Nodup →
      ∃ names', (todo.map Prod.fst).foldl fixOne
          (names.zip ((old.filter fun p => ends 's' p.1 = false).map Prod.snd) ++ todo) =
          names'.zip ((m.filter fun p => ends 's' p.1 = false).map Prod.snd) ∧
        List.Forall₂ (fun n p => IsTail n (stripM p.1)) names' (m.filter fun p => ends 's' p.1 = false) ∧ names'.Nodup := by
    intro todo
    induction todo with
    | nil =>
      intro old names e hf hn
      rw [List.append_nil] at e hn
      subst e
      refine ⟨names, by simp, hf, ?_⟩
      rwa [List.map_fst_zip (by rw [List.length_map, hf.length_eq])] at hn
    | cons vx todo ih =>
      obtain ⟨v, x⟩ := vx
      intro old names e hf hn
      obtain ⟨done, hd⟩ : ∃ done, done = names.zip ((old.filter fun p => ends 's' p.1 = false).map Prod.snd) := ⟨_, rfl⟩
      have hkeys : done.map Prod.fst = names := by
        rw [hd]
        exact List.map_fst_zip (by rw [List.length_map, hf.length_eq])
      have hvm : v ∈ m.map Prod.fst := by rw [← e]; simp
      have hmnd : v ∉ (old ++ todo).map Prod.fst := by
        rw [← e] at hnd
        have : ((old ++ (v, x) :: todo).map Prod.fst).Perm (v :: (old ++ todo).map Prod.fst) :=
          List.perm_middle.map Prod.fst
        exact (List.nodup_cons.1 (this.nodup hnd)).1
      rw [← hd] at hn
      have hs := fixOne_step done todo v x hn (by
        intro hM h
        rw [List.map_append, List.mem_append, hkeys] at h
        rcases h with h | h
        · obtain ⟨p, hp, ht⟩ : ∃ p ∈ old, IsTail (cut2 v) (stripM p.1) := by
            clear hn hkeys hd ih
            generalize hg : (old.filter fun p => ends 's' p.1 = false) = g at hf
            have : ∃ p ∈ g, IsTail (cut2 v) (stripM p.1) := by
              clear hg
              induction hf with
              | nil => simp at h
              | cons h1 h2 ih =>
                rcases List.mem_cons.1 h with rfl | h
                · exact ⟨_, by simp, h1⟩
                · obtain ⟨p, hp, ht⟩ := ih h
                  exact ⟨p, by simp [hp], ht⟩
            obtain ⟨p, hp, ht⟩ := this
            rw [← hg] at hp
            exact ⟨p, (List.mem_filter.1 hp).1, ht⟩
          refine (hc v hvm hM p.1 (by rw [← e]; simp; exact Or.inl ⟨_, hp⟩) ?_).2 ht
          rintro rfl
          exact hmnd (by rw [List.map_append]; exact List.mem_append_left _ (List.mem_map.2 ⟨p, hp, rfl⟩))
        · refine (hc v hvm hM (cut2 v) ?_ ?_).1 rfl
          · rw [← e, List.map_append, List.map_cons]
            simp only [List.mem_append, List.mem_cons]
            exact Or.inr (Or.inr h)
          · intro e'
            have := congrArg List.length (cut2_ends hM)
            rw [e'] at this
            simp at this)
      rw [← hd, List.map_cons, List.foldl_cons]
      by_cases hsv : ends 's' v = true
      · rw [if_pos hsv] at hs
        rw [hs]
        have e2 : (old ++ [(v, x)]).filter (fun p => ends 's' p.1 = false) = old.filter fun p => ends 's' p.1 = false := by
          rw [List.filter_append, List.filter_cons_of_neg (by simp [hsv])]
          simp
        have := ih (old ++ [(v, x)]) names (by simpa using e) (by rw [e2]; exact hf) (by
          rw [e2, ← hd]
          refine hn.sublist (List.Sublist.map _ ?_)
          exact List.Sublist.append_left (List.sublist_cons_self _ _) _)
        rw [e2, ← hd] at this
        exact this
      · rw [if_neg hsv] at hs
        obtain ⟨n, h1, h2, h3⟩ := hs
        rw [h2]
        have e2 : (old ++ [(v, x)]).filter (fun p => ends 's' p.1 = false) =
            (old.filter fun p => ends 's' p.1 = false) ++ [(v, x)] := by
          rw [List.filter_append, List.filter_cons_of_pos (by simpa using hsv)]
          simp
        have e3 : (names ++ [n]).zip (((old ++ [(v, x)]).filter fun p => ends 's' p.1 = false).map Prod.snd) =
            done ++ [(n, x)] := by
          rw [e2, List.map_append, List.zip_append (by rw [List.length_map, hf.length_eq]), ← hd]
          rfl
        have := ih (old ++ [(v, x)]) (names ++ [n]) (by simpa using e) (by
          rw [e2]
          exact List.rel_append hf (List.Forall₂.cons h1 .nil)) (by
          rw [e3]
          simpa using h3)
        rw [e3] at this
        simpa using this
  have := key m [] [] rfl List.Forall₂.nil (by simpa using hnd)
  simpa [fixnames] using this

end HF.Mdif
