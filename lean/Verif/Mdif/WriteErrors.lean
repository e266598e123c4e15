import Verif.Mdif.WriteProps
/-
C66: what cannot be saved.
-/
namespace HF.Mdif

open HF.DataDict.Spec HF.DataBlock
open HF.DataDict hiding rename delitem

variable {β α : Type} [DecidableEq β]

theorem andThen_err (a : Out) (b : Out) (e : SaveErr) (h : a.2 = some e) : Out.andThen a b = a := by
  obtain ⟨l, x⟩ := a
  simp only at h
  subst h
  rfl

theorem andThen_snd (a b : Out) (h : a.2 = none) : (Out.andThen a b).2 = b.2 := by
  obtain ⟨l, x⟩ := a
  simp only at h
  subst h
  rfl

theorem vars_snd (env : Env β α) (pr : Printer α β) (l : List (Dim β × β))
    (h : ∀ p ∈ l, (pr.num p.1.name (env.toVal p.2)).isSome) :
    (Out.all (l.map fun p => yieldLine (varLine env pr p))).2 = none := by
  rw [all_ok]
  intro o ho
  obtain ⟨p, hp, rfl⟩ := List.mem_map.1 ho
  obtain ⟨w, hw⟩ := Option.isSome_iff_exists.1 (h p hp)
  simp [varLine, hw, typeErr, Except.map, yieldLine]

theorem save_snd (env : Env β α) (pr : Printer α β) (en : Enum (List (Dim β))) (time : List Char) (b b1 : Block β α)
    (hc : convert env b = .ok b1) : (save env pr en time b).2 = (loopDb env pr en b1).2 := by
  unfold save
  rw [hc]
  rfl

/-- The first combination of coordinates. -/
theorem product_first (ds : List (Dim β)) (h : ∀ x ∈ ds, x.data ≠ []) :
    ∃ cs rest, product (ds.map fun x => x.data) = cs :: rest ∧ (∀ p ∈ ds.zip cs, p.1 ∈ ds ∧ p.2 ∈ p.1.data) ∧
      ∀ c ∈ cs.head?, ∀ x ∈ ds.head?, x.data.head? = some c := by
  induction ds with
  | nil => exact ⟨[], [], rfl, by simp, by simp⟩
  | cons x ds ih =>
    obtain ⟨cs, rest, e, h1, -⟩ := ih fun y hy => h y (List.mem_cons_of_mem _ hy)
    obtain ⟨c, t, hx⟩ := List.exists_cons_of_ne_nil (h x (List.mem_cons_self ..))
    refine ⟨c :: cs, rest.map (c :: ·) ++ t.flatMap fun y => (product (ds.map fun x => x.data)).map (y :: ·), ?_, ?_, ?_⟩
    · rw [List.map_cons, product, hx, List.flatMap_cons, e]
      rfl
    · intro p hp
      rw [List.zip_cons_cons] at hp
      rcases List.mem_cons.1 hp with rfl | hp
      · exact ⟨List.mem_cons_self .., by rw [hx]; exact List.mem_cons_self ..⟩
      · exact ⟨List.mem_cons_of_mem _ (h1 p hp).1, (h1 p hp).2⟩
    · intro c' hc' y hy
      simp only [List.head?_cons, Option.mem_def, Option.some.injEq] at hc' hy
      subst hc' hy
      rw [hx]
      rfl

/-- What is written of a block of which no variable is over all sweeps but the first. -/
theorem block_no_attrib (env : Env β α) (pr : Printer α β) (name : Option (List Char)) (d : Dim β) (ds : List (Dim β))
    (b : Block β α) (hne : ∀ x ∈ ds, x.data ≠ []) (hp : ∀ x ∈ ds, ∀ c ∈ x.data, (pr.num x.name (env.toVal c)).isSome)
    (ha : ∀ v ∈ b.vars, v.2.dims ≠ ds) : (fmtBlock env pr name d ds b).2 = some .valueError := by
  obtain ⟨cs, rest, e, h1, -⟩ := product_first ds hne
  have hf : (b.vars.filter fun v => v.2.dims = ds) = [] := by
    rw [List.filter_eq_nil_iff]
    intro v hv
    simpa using ha v hv
  have hc : (fmtCoord env pr name d ds b cs).2 = some .valueError := by
    unfold fmtCoord
    simp only
    rw [if_pos hf, all_append, all_append, all_append]
    have h2 := vars_snd env pr (ds.zip cs) fun p hp' => hp p.1 (h1 p hp').1 p.2 (h1 p hp').2
    generalize Out.all ((ds.zip cs).map fun p => yieldLine (varLine env pr p)) = V at h2 ⊢
    obtain ⟨l, x⟩ := V
    simp only at h2
    subst h2
    rfl
  unfold fmtBlock
  rw [e, List.map_cons, all_cons, andThen_err _ _ _ hc, hc]

/-- C66, violated: a block in which all variables are over the same sweeps, so that there is none over all but the
first (for one sweep: no number), cannot be saved. -/
theorem C66_no_attribute_refuted (env : Env β α) (pr : Printer α β) (en : Enum (List (Dim β))) (time : List Char)
    (b b1 : Block β α) (hc : convert env b = .ok b1) (hq : Quiet b1.vars) (d : Dim β) (ds : List (Dim β))
    (hnd : (d :: ds).Nodup) (hv : b1.vars ≠ []) (hd : ∀ v ∈ b1.vars, v.2.dims = d :: ds) (hne : ∀ x ∈ ds, x.data ≠ [])
    (hp : ∀ x ∈ ds, ∀ c ∈ x.data, (pr.num x.name (env.toVal c)).isSome) :
    (save env pr en time b).2 = some .valueError := by
  obtain ⟨v, vs, e⟩ := List.exists_cons_of_ne_nil hv
  obtain ⟨sub, h1, h2⟩ := loop_eq env pr en hq hnd (fun v hv => Or.inl (hd v hv)) ⟨v, by simp [e], hd v (by simp [e])⟩
  rw [save_snd env pr en time b b1 hc, h2]
  have := block_no_attrib env pr none d ds sub hne hp (by
    intro v hv hds
    rw [h1] at hv
    have := hd v (List.mem_filter.1 hv).1
    rw [hds] at this
    simpa using congrArg List.length this)
  rw [andThen_err _ _ _ this, this]

/-- C66, violated: if the second sweep begins with a coordinate that is not an integer, the block cannot be saved. -/
theorem C66_coordinates_refuted (env : Env β α) (pr : Printer α β) (en : Enum (List (Dim β))) (time : List Char)
    (b b1 : Block β α) (hc : convert env b = .ok b1) (hq : Quiet b1.vars) (d t : Dim β) (ds : List (Dim β))
    (hnd : (d :: t :: ds).Nodup) (hcol : ∃ v ∈ b1.vars, v.2.dims = d :: t :: ds)
    (hd : ∀ v ∈ b1.vars, v.2.dims = d :: t :: ds ∨ v.2.dims = t :: ds) (hne : ∀ x ∈ t :: ds, x.data ≠ [])
    (hsh : ∀ v ∈ b1.vars, v.2.nd.shape = v.2.dims.map fun x => x.data.length)
    (hp : ∀ x ∈ t :: ds, ∀ c ∈ x.data, (pr.num x.name (env.toVal c)).isSome) (hatt : ∃ v ∈ b1.vars, v.2.dims = t :: ds)
    (hi : ∀ c ∈ t.data.head?, pr.index c = none) : (save env pr en time b).2 = some .indexError := by
  obtain ⟨sub, h1, h2⟩ := loop_eq env pr en hq hnd (fun v hv => (hd v hv).imp_right Or.inl) hcol
  rw [save_snd env pr en time b b1 hc, h2]
  obtain ⟨cs, rest, e, k1, k2⟩ := product_first (t :: ds) hne
  have hcs : ∃ c cs', cs = c :: cs' := by
    cases cs with
    | cons c cs' => exact ⟨c, cs', rfl⟩
    | nil =>
      exfalso
      have : ∀ l ∈ product ((t :: ds).map fun x => x.data), l ≠ [] := by
        intro l hl
        rw [List.map_cons, product] at hl
        obtain ⟨x, -, hl⟩ := List.mem_flatMap.1 hl
        obtain ⟨y, -, rfl⟩ := List.mem_map.1 hl
        simp
      exact this [] (by rw [e]; exact List.mem_cons_self ..) rfl
  obtain ⟨c, cs', rfl⟩ := hcs
  have hic : pr.index c = none := hi c (k2 c rfl t rfl)
  have hat : (sub.vars.filter fun v => v.2.dims = t :: ds) ≠ [] := by
    obtain ⟨v, hv, hvd⟩ := hatt
    refine List.ne_nil_of_mem (a := v) (List.mem_filter.2 ⟨?_, by simpa using hvd⟩)
    rw [h1]
    exact List.mem_filter.2 ⟨hv, by simp [fitsDims, hvd, setEq_self]⟩
  have hf : (fmtCoord env pr none d (t :: ds) sub (c :: cs')).2 = some .indexError := by
    unfold fmtCoord
    simp only
    rw [if_neg hat, all_append, all_append, all_append]
    have h3 := vars_snd env pr ((t :: ds).zip (c :: cs')) fun p hp' => hp p.1 (k1 p hp').1 p.2 (k1 p hp').2
    have h4 : (Out.all ((sub.vars.filter fun v => v.2.dims = t :: ds).map fun v =>
        yieldLine (attribLine pr (c :: cs') v))).2 = some .indexError := by
      obtain ⟨v, vs, ev⟩ := List.exists_cons_of_ne_nil hat
      have hm := List.mem_filter.1 (ev ▸ List.mem_cons_self .. : v ∈ sub.vars.filter fun v => v.2.dims = t :: ds)
      have hvb : v ∈ b1.vars := by
        have := hm.1
        rw [h1] at this
        exact (List.mem_filter.1 this).1
      have hs : v.2.nd.shape = t.data.length :: ds.map fun x => x.data.length := by
        rw [hsh v hvb, (by simpa using hm.2 : v.2.dims = t :: ds)]
        rfl
      have : yieldLine (attribLine pr (c :: cs') v) = ([], some .indexError) := by
        simp only [attribLine, hs, indexOf, hic, yieldLine]
      rw [ev, List.map_cons, all_cons, this]
      rfl
    generalize Out.all (((t :: ds).zip (c :: cs')).map fun p => yieldLine (varLine env pr p)) = V at h3 ⊢
    generalize Out.all ((sub.vars.filter fun v => v.2.dims = t :: ds).map fun v =>
      yieldLine (attribLine pr (c :: cs') v)) = A at h4 ⊢
    obtain ⟨l, x⟩ := V
    obtain ⟨l', x'⟩ := A
    simp only at h3 h4
    subst h3 h4
    rfl
  have : (fmtBlock env pr none d (t :: ds) sub).2 = some .indexError := by
    unfold fmtBlock
    rw [e, List.map_cons, all_cons, andThen_err _ _ _ hf, hf]
  rw [andThen_err _ _ _ this, this]

theorem fmtCoord_congr (env : Env β α) (pr : Printer α β) (name : Option (List Char)) (d : Dim β) (ds : List (Dim β))
    (b b' : Block β α) (h : b.vars = b'.vars) : fmtCoord env pr name d ds b = fmtCoord env pr name d ds b' := by
  funext cs
  simp only [fmtCoord, h]

/-- C66, violated: numbers are left out without notice if there is more than one sweep. -/
theorem C66_scalars_refuted (env : Env β α) (pr : Printer α β) (en : Enum (List (Dim β))) (time : List Char)
    (b b' b1 b1' : Block β α) (hc : convert env b = .ok b1) (hc' : convert env b' = .ok b1') (hq : Quiet b1.vars)
    (d : Dim β) (ds : List (Dim β)) (hds : ds ≠ []) (hnd : (d :: ds).Nodup) (hcol : ∃ v ∈ b1.vars, v.2.dims = d :: ds)
    (hd : ∀ v ∈ b1.vars, v.2.dims = d :: ds ∨ v.2.dims = ds ∨ v.2.dims = [])
    (hb : b1'.vars = b1.vars.filter fun v => v.2.dims ≠ []) : save env pr en time b = save env pr en time b' := by
  obtain ⟨sub, h1, h2⟩ := loop_eq env pr en hq hnd hd hcol
  obtain ⟨sub', h1', h2'⟩ := loop_eq (b := b1') env pr en (by rw [hb]; exact hq.sublist List.filter_sublist) hnd
    (by intro v hv; rw [hb] at hv; exact hd v (List.mem_filter.1 hv).1)
    (by
      obtain ⟨v, hv, hvd⟩ := hcol
      exact ⟨v, by rw [hb]; exact List.mem_filter.2 ⟨hv, by simp [hvd]⟩, hvd⟩)
  have e : sub.vars = sub'.vars := by
    rw [h1, h1', hb, List.filter_filter]
    refine List.filter_congr fun v hv => ?_
    obtain ⟨y, ys, rfl⟩ := List.exists_cons_of_ne_nil hds
    by_cases h0 : v.2.dims = []
    · simp [fitsDims, h0, setEq]
    · simp [h0]
  unfold save
  rw [hc, hc']
  simp only [h2, h2', fmtBlock, fmtCoord_congr env pr none d ds sub sub' e]

end HF.Mdif
