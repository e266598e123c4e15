import Verif.DataBlock.RepProps
import Verif.Hyper.BlockErrors
/-
C70: from repetitions to a list and back.
-/
namespace HF.Hyper

open HF.DataDict.Spec
open HF.DataBlock
open HF.DataDict hiding rename delitem

variable {β α : Type}

/-! ### The values of a column -/

section Uniq
variable {K : Type} [DecidableEq K]

theorem fold_known (out m : List K) (h : ∀ a ∈ m, a ∈ out) :
    m.foldl (fun out x => if x ∈ out then out else out ++ [x]) out = out := by
  induction m with
  | nil => rfl
  | cons a m ih =>
    rw [List.foldl_cons, if_pos (h a (by simp))]
    exact ih fun b hb => h b (by simp [hb])

theorem fold_repeat (m : Nat) (hm : 0 < m) (l : List K) : ∀ out : List K, (out ++ l).Nodup →
    (l.flatMap (List.replicate m)).foldl (fun out x => if x ∈ out then out else out ++ [x]) out = out ++ l := by
  induction l with
  | nil => intro out _; simp
  | cons a l ih =>
    intro out h
    obtain ⟨m', rfl⟩ : ∃ m', m = m' + 1 := ⟨m - 1, by omega⟩
    have ha : a ∉ out := fun hc => (List.nodup_append.1 h).2.2 a hc a (by simp) rfl
    rw [List.flatMap_cons, List.foldl_append, List.replicate_succ, List.foldl_cons, if_neg ha, fold_known (out ++ [a])]
    · rw [ih _ (by simpa using h)]; simp
    · intro b hb; rw [List.eq_of_mem_replicate hb]; simp

theorem uniq_repeat (m : Nat) (hm : 0 < m) (l : List K) (h : l.Nodup) :
    Utils.stableUniq (l.flatMap (List.replicate m)) = l := by
  unfold Utils.stableUniq
  rw [fold_repeat m hm l [] (by simpa using h)]
  rfl

theorem uniq_cycle (n : Nat) (hn : 0 < n) (l : List K) :
    Utils.stableUniq ((List.range n).flatMap fun _ => l) = Utils.stableUniq l := by
  obtain ⟨n, rfl⟩ : ∃ m, n = m + 1 := ⟨n - 1, by omega⟩
  rw [List.range_succ_eq_map, List.flatMap_cons, Utils.stableUniq, List.foldl_append]
  refine fold_known _ _ fun a ha => ?_
  obtain ⟨_, _, ha⟩ := List.mem_flatMap.1 ha
  exact ((Utils.C15_stable_uniq l).2.1 a).2 ha

end Uniq

theorem range_mul (n m : Nat) : List.range (n * m) = (List.range n).flatMap fun q => (List.range m).map fun r => q * m + r := by
  induction n with
  | zero => simp
  | succ n ih =>
    rw [Nat.succ_mul, List.range_add, ih, List.range_succ, List.flatMap_append]
    simp

theorem size_pos : ∀ l : List Nat, (∀ n ∈ l, 0 < n) → 0 < Nd.size l
  | [], _ => by simp [Nd.size]
  | n :: l, h => Nat.mul_pos (h n (by simp)) (size_pos l fun m hm => h m (by simp [hm]))

/-- The coordinates `vals`, those of the axis `j`, one after the other. -/
def colOf (junk : α) (full : List Nat) (vals : List α) (j : Nat) : List α :=
  (List.range (Nd.size full)).map fun i => vals.getD ((Nd.unravel full i).getD j 0) junk

theorem uniq_colOf [DecidableEq α] (junk : α) : ∀ (full : List Nat) (j : Nat) (vals : List α), (∀ n ∈ full, 0 < n) →
    full[j]? = some vals.length → vals.Nodup → Utils.stableUniq (colOf junk full vals j) = vals
  | [], j, vals, _, h, _ => by simp at h
  | n :: ns, 0, vals, hp, h, hn => by
    have hm : 0 < Nd.size ns := size_pos _ fun x hx => hp x (by simp [hx])
    have e : colOf junk (n :: ns) vals 0 = vals.flatMap (List.replicate (Nd.size ns)) := by
      simp only [colOf, Nd.size]
      rw [range_mul, List.map_flatMap]
      simp only [List.getElem?_cons_zero, Option.some.injEq] at h
      have e2 : vals = (List.range n).map fun q => vals.getD q junk := by
        rw [h]
        apply List.ext_getElem
        · simp
        · intro i h1 h2; simp [h1]
      conv_rhs => rw [e2, List.flatMap_map]
      refine List.flatMap_congr fun q _ => ?_
      rw [List.map_map]
      apply List.eq_replicate_iff.2
      refine ⟨by simp, fun a ha => ?_⟩
      obtain ⟨r, hr, rfl⟩ := List.mem_map.1 ha
      rw [List.mem_range] at hr
      simp only [Function.comp, Nd.unravel, List.getD_cons_zero]
      rw [Nat.mul_comm, Nat.mul_add_div hm, Nat.div_eq_of_lt hr, Nat.add_zero]
    rw [e]
    exact uniq_repeat _ hm _ hn
  | n :: ns, j + 1, vals, hp, h, hn => by
    have e : colOf junk (n :: ns) vals (j + 1) = (List.range n).flatMap fun _ => colOf junk ns vals j := by
      simp only [colOf, Nd.size]
      rw [range_mul, List.map_flatMap]
      refine List.flatMap_congr fun q _ => ?_
      rw [List.map_map]
      refine List.map_congr_left fun r hr => ?_
      rw [List.mem_range] at hr
      simp only [Function.comp, Nd.unravel, List.getD_cons_succ]
      rw [Nat.mul_comm, Nat.mul_add_mod, Nat.mod_eq_of_lt hr]
    rw [e, uniq_cycle n (hp n (by simp))]
    exact uniq_colOf junk ns j vals (fun x hx => hp x (by simp [hx])) (by simpa using h) hn

theorem colOf_get (junk : α) (full : List Nat) (vals : List α) (j : Nat) (hj : full[j]? = some vals.length) (ks : List Nat)
    (hks : Nd.Valid full ks) : (colOf junk full vals j)[Nd.ravel full ks]? = vals[ks.getD j 0]? := by
  have hlt : ks.getD j 0 < vals.length := by
    obtain ⟨hl, h⟩ := Nd.valid_iff.1 hks
    have := h j (List.getElem?_eq_some_iff.1 hj).1
    simpa [List.getD_eq_getElem?_getD, hj] using this
  unfold colOf
  rw [List.getElem?_map, List.getElem?_range (Nd.ravel_lt hks), Option.map_some, Nd.unravel_ravel hks,
    List.getD_eq_getElem?_getD, List.getElem?_eq_getElem hlt]
  rfl

/-- The columns of all axes. -/
def gridCols (junk : α) (vals : List (List α)) : List (List α) :=
  vals.zipIdx.map fun p => colOf junk (vals.map List.length) p.1 p.2

theorem gridCols_get (junk : α) (vals : List (List α)) (j : Nat) (v : List α) (h : vals[j]? = some v) :
    (gridCols junk vals)[j]? = some (colOf junk (vals.map List.length) v j) := by
  unfold gridCols
  rw [List.getElem?_map, List.getElem?_zipIdx, h]
  simp

theorem gridCols_uniq [LinearOrder α] (junk : α) (vals : List (List α)) (h1 : ∀ v ∈ vals, v ≠ []) (h2 : ∀ v ∈ vals, v.Nodup) :
    newDims (gridCols junk vals) = vals := by
  apply List.ext_getElem?
  intro j
  cases h : vals[j]? with
  | none =>
    rw [List.getElem?_eq_none_iff] at h ⊢
    simpa [newDims, gridCols] using h
  | some v =>
    unfold newDims
    rw [List.getElem?_map, gridCols_get junk vals j v h, Option.map_some]
    congr 1
    refine uniq_colOf junk _ j v ?_ (by simp [h]) (h2 v (List.mem_of_getElem? h))
    intro n hn
    obtain ⟨v, hv, rfl⟩ := List.mem_map.1 hn
    exact List.length_pos_iff.2 (h1 v hv)

theorem gridCols_full (junk : α) (vals : List (List α)) (h0 : vals ≠ []) (h2 : ∀ v ∈ vals, v.Nodup) :
    FullGrid (gridCols junk vals) (Nd.size (vals.map List.length)) where
  nonempty := by simpa [gridCols] using h0
  length := by
    intro c hc
    obtain ⟨p, _, rfl⟩ := List.mem_map.1 hc
    simp [colOf]
  once := by
    intro i j hi hj h
    rw [← Nd.ravel_unravel hi, ← Nd.ravel_unravel hj]
    congr 1
    have vi := Nd.valid_unravel hi
    have vj := Nd.valid_unravel hj
    apply List.ext_getElem
    · rw [vi.length, vj.length]
    · intro k hk1 hk2
      have hk : k < vals.length := by rw [vi.length] at hk1; simpa using hk1
      have hv : vals[k]? = some vals[k] := List.getElem?_eq_getElem hk
      have hf : (vals.map List.length)[k]? = some vals[k].length := by simp [hv]
      have h' := h _ (List.mem_of_getElem? (gridCols_get junk vals k _ hv))
      rw [← Nd.ravel_unravel hi, ← Nd.ravel_unravel hj, colOf_get junk _ _ k hf _ vi, colOf_get junk _ _ k hf _ vj] at h'
      have l1 := (Nd.valid_iff.1 vi).2 k (by simpa using hk)
      have l2 := (Nd.valid_iff.1 vj).2 k (by simpa using hk)
      rw [List.getD_eq_getElem?_getD (l := vals.map List.length), hf, Option.getD_some] at l1 l2
      rw [List.getElem?_eq_getElem l1, List.getElem?_eq_getElem l2] at h'
      have := (List.Nodup.getElem_inj_iff (h2 _ (List.getElem_mem hk))).1 (Option.some.inj h')
      rw [List.getD_eq_getElem?_getD, List.getD_eq_getElem?_getD, List.getElem?_eq_getElem hk1,
        List.getElem?_eq_getElem hk2] at this
      exact this
  all := by
    intro r hr
    have hlen : r.length = vals.length := by simpa [gridCols] using hr.length_eq
    have hex : ∀ j, j < vals.length → ∃ i, i < Nd.size (vals.map List.length) ∧ ∀ v, vals[j]? = some v →
        (colOf junk (vals.map List.length) v j)[i]? = r[j]? := by
      intro j hj
      have hv : vals[j]? = some vals[j] := List.getElem?_eq_getElem hj
      have hc := gridCols_get junk vals j _ hv
      obtain ⟨hcl, hc⟩ := List.getElem?_eq_some_iff.1 hc
      have := (List.forall₂_iff_get.1 hr).2 j (by omega) hcl
      simp only [List.get_eq_getElem] at this
      rw [hc] at this
      obtain ⟨i, hi, he⟩ := List.getElem_of_mem this
      refine ⟨i, by simpa [colOf] using hi, ?_⟩
      intro v hv'
      rw [hv] at hv'
      cases hv'
      rw [List.getElem?_eq_getElem hi, he, List.getElem?_eq_getElem (by omega)]
    choose! f hf using hex
    let ks := (List.range vals.length).map fun j => (Nd.unravel (vals.map List.length) (f j)).getD j 0
    have hks : Nd.Valid (vals.map List.length) ks := by
      rw [Nd.valid_iff]
      refine ⟨by simp [ks], fun k hk => ?_⟩
      have hk' : k < vals.length := by simpa using hk
      have := (Nd.valid_iff.1 (Nd.valid_unravel (hf k hk').1)).2 k hk
      have e : ks.getD k 0 = (Nd.unravel (vals.map List.length) (f k)).getD k 0 := by
        simp only [ks]
        rw [List.getD_eq_getElem?_getD, List.getElem?_map, List.getElem?_range hk']
        rfl
      rw [e]; exact this
    refine ⟨Nd.ravel (vals.map List.length) ks, Nd.ravel_lt hks, ?_⟩
    rw [List.forall₂_iff_get]
    refine ⟨hr.length_eq, fun j hj1 hj2 => ?_⟩
    have hj : j < vals.length := by omega
    have hv : vals[j]? = some vals[j] := List.getElem?_eq_getElem hj
    have hfl : (vals.map List.length)[j]? = some vals[j].length := by simp [hv]
    have hc := gridCols_get junk vals j _ hv
    obtain ⟨hcl, hc⟩ := List.getElem?_eq_some_iff.1 hc
    simp only [List.get_eq_getElem]
    rw [hc, colOf_get junk _ _ j hfl _ hks]
    have e : ks.getD j 0 = (Nd.unravel (vals.map List.length) (f j)).getD j 0 := by
      simp only [ks]
      rw [List.getD_eq_getElem?_getD, List.getElem?_map, List.getElem?_range hj]
      rfl
    rw [e, ← colOf_get junk _ _ j hfl _ (Nd.valid_unravel (hf j hj).1), Nd.ravel_unravel (hf j hj).1, (hf j hj).2 _ hv,
      List.getElem?_eq_getElem hj1]

/-! ### There and back -/

theorem listed_table [DecidableEq β] (env : Env β α) (b : Block β α) (reps : List (Dim β)) (newname : String) (new : Dim β)
    (hb : Repeated b reps newname) (hn : new.name = newname) (r : Block β α) (ho : Orderly r) (hne : reps ≠ [])
    (hr : Listed env b reps new r) :
    IsTable r (reps.map Dim.name) (reps.map Dim.name) new (Nd.size (reps.map fun d => d.data.length))
      (gridCols env.junk (reps.map fun d => d.data.map env.toVal)) ∧
    ∀ p ∈ r.vars, (∃ d ∈ reps, p.1 = d.name ∧ p.2.dims = [new]) ∨
      (∃ v, (p.1, v) ∈ b.vars ∧ ((p.2 = v ∧ ∀ d ∈ v.dims, d.isa .dimRep = false) ∨
        ∃ pre post, v.dims = pre ++ reps ++ post ∧ p.2.dims = pre ++ new :: post ∧ ∀ d ∈ pre ++ post, d.isa .dimRep = false)) := by
  have hrep : ∀ d ∈ reps, d.isa .dimRep = true := by
    intro d hd; rw [← hb.known] at hd; exact (List.mem_filter.1 hd).2
  have hfull : (reps.map fun d => d.data.map env.toVal).map List.length = reps.map fun d => d.data.length := by
    rw [List.map_map]; exact List.map_congr_left fun d _ => by simp
  -- every variable of the list
  have hcase : ∀ p ∈ r.vars, (∃ d ∈ reps, p.1 = d.name ∧ p.2.dims = [new] ∧
        p.2.nd.shape = [Nd.size (reps.map fun d => d.data.length)]) ∨
      (∃ v, (p.1, v) ∈ b.vars ∧ ((p.2 = v ∧ ∀ d ∈ v.dims, d.isa .dimRep = false) ∨
        ∃ pre post sp sq, v.dims = pre ++ reps ++ post ∧ (∀ d ∈ pre ++ post, d.isa .dimRep = false) ∧
          sp.length = pre.length ∧ p.2.dims = pre ++ new :: post ∧
          p.2.nd.shape = sp ++ Nd.size (reps.map fun d => d.data.length) :: sq)) := by
    intro p hp
    have hk : p.1 ∈ reps.map Dim.name ++ b.vars.map Prod.fst := hr.order ▸ List.mem_map_of_mem hp
    have hpl : lookup r.vars p.1 = some p.2 := mem_lookup ho.vars hp
    rcases List.mem_append.1 hk with hk | hk
    · obtain ⟨d, hd, hdn⟩ := List.mem_map.1 hk
      obtain ⟨j, hj⟩ := List.mem_iff_getElem?.1 hd
      obtain ⟨a, h1, h2, h3, _⟩ := hr.columns j d hj
      rw [hdn, hpl] at h1
      cases h1
      exact Or.inl ⟨d, hd, hdn.symm, h2, h3⟩
    · obtain ⟨q, hq, hqn⟩ := List.mem_map.1 hk
      refine Or.inr ⟨q.2, by rw [← hqn]; exact hq, ?_⟩
      have hql : lookup b.vars q.1 = some q.2 := mem_lookup hb.orderly.vars hq
      rcases hb.over q hq with h | ⟨pre, post, sp, sq, h1, h2, h3, h4⟩
      · have := hr.rest q.1 q.2 hql h
        rw [hqn, hpl] at this
        exact Or.inl ⟨Option.some.inj this, h⟩
      · obtain ⟨a, g1, g2, g3, _⟩ := hr.vars q.1 q.2 pre post sp sq hne hql h1 h2 h3 h4
        rw [hqn, hpl] at g1
        cases g1
        exact Or.inr ⟨pre, post, sp, sq, h1, h2, h4, g2, g3⟩
  have hother : ∀ p v, (p, v) ∈ b.vars → ∀ d ∈ v.dims, d.isa .dimRep = false → d.name ≠ newname ∧ d.name ∉ reps.map Dim.name :=
    fun p v hv d hd h => hb.fresh.2.2 (p, v) hv d hd h
  refine ⟨⟨ho, ?_, ?_, ?_, ?_, ?_⟩, ?_⟩
  · rw [List.forall₂_iff_get]
    refine ⟨by simp [gridCols], fun j h1 h2 => ?_⟩
    have hj : j < reps.length := by simpa using h1
    have hd : reps[j]? = some reps[j] := List.getElem?_eq_getElem hj
    obtain ⟨a, g1, g2, g3, g4⟩ := hr.columns j _ hd
    have hc := gridCols_get env.junk (reps.map fun d => d.data.map env.toVal) j (reps[j].data.map env.toVal) (by simp [hd])
    obtain ⟨hcl, hc⟩ := List.getElem?_eq_some_iff.1 hc
    simp only [List.get_eq_getElem]
    rw [hc, hfull]
    refine ⟨a, by simpa using g1, g2, g3, by simp [colOf], fun i hi => ?_⟩
    have hv := Nd.valid_unravel hi
    have g := g4 _ hv
    rw [Nd.ravel_unravel hi] at g
    rw [g]
    conv_lhs => rw [← Nd.ravel_unravel hi]
    rw [colOf_get _ _ _ j (by simp [hd]) _ hv, List.getElem?_map]
  · intro p hp
    rcases hcase p hp with ⟨d, hd, _, h2, h3⟩ | ⟨v, hv, ⟨rfl, h2⟩ | ⟨pre, post, sp, sq, h1, h2, h3, h4, h5⟩⟩
    · rw [h2, h3]
      refine ⟨by simp, fun e m hm _ => ?_⟩
      simpa using hm
    · refine ⟨hb.axes _ hv, fun e m hm he => ?_⟩
      have hed := (List.of_mem_zip hm).1
      exact absurd (he.trans hn) (hother _ _ hv e hed (h2 e hed)).1
    · have hax := hb.axes _ hv
      have hpq : ∀ d ∈ pre ++ post, d.name ≠ newname := by
        intro d hd
        refine (hother _ _ hv d ?_ (h2 d hd)).1
        rw [h1]
        rcases List.mem_append.1 hd with hd | hd <;> simp [hd]
      rw [h4, h5]
      constructor
      · simp only [h1, List.map_append, List.map_cons] at hax ⊢
        rw [List.nodup_append, List.nodup_append] at hax
        rw [List.nodup_append, List.nodup_cons]
        refine ⟨hax.1.1, ⟨?_, hax.2.1⟩, ?_⟩
        · rw [hn]
          intro hc
          obtain ⟨d, hd, hdn⟩ := List.mem_map.1 hc
          exact hpq d (by simp [hd]) hdn
        · intro a ha c hc
          rcases List.mem_cons.1 hc with rfl | hc
          · rintro rfl
            obtain ⟨d, hd, hdn⟩ := List.mem_map.1 ha
            exact hpq d (by simp [hd]) (hdn.trans hn)
          · exact hax.2.2 a (by simp [ha]) c hc
      · intro e m hm he
        rw [List.zip_append h3.symm, List.zip_cons_cons] at hm
        rcases List.mem_append.1 hm with hm | hm
        · exact absurd (he.trans hn) (hpq e (by simp [(List.of_mem_zip hm).1]))
        · rcases List.mem_cons.1 hm with hm | hm
          · simpa using hm
          · exact absurd (he.trans hn) (hpq e (by simp [(List.of_mem_zip hm).1]))
  · have := ho.vars
    rw [hr.order, List.nodup_append] at this
    exact this.1
  · intro p hp d hd
    have hnew : new.name ∉ reps.map Dim.name := hn ▸ hb.fresh.2.1
    rcases hcase p hp with ⟨_, _, _, h2, _⟩ | ⟨v, hv, ⟨rfl, h2⟩ | ⟨pre, post, sp, sq, h1, h2, h3, h4, h5⟩⟩
    · rw [h2, List.mem_singleton] at hd
      exact hd ▸ hnew
    · exact (hother _ _ hv d hd (h2 d hd)).2
    · rw [h4, List.mem_append, List.mem_cons] at hd
      rcases hd with hd | rfl | hd
      · exact (hother _ _ hv d (by rw [h1]; simp [hd]) (h2 d (by simp [hd]))).2
      · exact hnew
      · exact (hother _ _ hv d (by rw [h1]; simp [hd]) (h2 d (by simp [hd]))).2
  · intro p hp hl
    obtain ⟨d, hd, hdn⟩ := List.mem_map.1 hl
    obtain ⟨j, hj⟩ := List.mem_iff_getElem?.1 hd
    obtain ⟨a, h1, h2, h3, _⟩ := hr.columns j d hj
    rw [hdn, mem_lookup ho.vars hp] at h1
    cases h1
    rw [h2]; simp
  · intro p hp
    rcases hcase p hp with ⟨d, hd, h1, h2, _⟩ | ⟨v, hv, h | ⟨pre, post, sp, sq, h1, h2, h3, h4, h5⟩⟩
    · exact Or.inl ⟨d, hd, h1, h2⟩
    · exact Or.inr ⟨v, hv, Or.inl h⟩
    · exact Or.inr ⟨v, hv, Or.inr ⟨pre, post, h1, h4, h2⟩⟩

/-- The repetition as a sweep. -/
def asSweep (d : Dim β) : Dim β := ⟨.dimSweep, d.name, d.data, none, none⟩

theorem cubeAxes_reps [LinearOrder α] (env : Env β α) (reps : List (Dim β)) (h1 : ∀ d ∈ reps, d.data ≠ [])
    (h2 : ∀ d ∈ reps, (d.data.map env.toVal).Nodup) (h3 : ∀ d ∈ reps, ∀ x ∈ d.data, env.toCoord (env.toVal x) = x) :
    cubeAxes env (reps.map Dim.name) (gridCols env.junk (reps.map fun d => d.data.map env.toVal)) = reps.map asSweep := by
  unfold cubeAxes
  rw [gridCols_uniq]
  · rw [List.zipWith_map, List.zipWith_self]
    refine List.map_congr_left fun d hd => ?_
    unfold asSweep
    congr 1
    rw [List.map_map]
    exact (List.map_congr_left fun x hx => h3 d hd x hx).trans (List.map_id _)
  · intro v hv
    obtain ⟨d, hd, rfl⟩ := List.mem_map.1 hv
    simpa using h1 d hd
  · intro v hv
    obtain ⟨d, hd, rfl⟩ := List.mem_map.1 hv
    exact h2 d hd

/-- C70: `hyper` makes the repetitions to dimensions again, if their coordinates are ascending: every variable has its
dimensions, now as sweeps, and all its elements back. -/
theorem C70_back [DecidableEq β] [LinearOrder α] (env : Env β α) (ofIdx : Nat → β) (b : Block β α) (reps : List (Dim β))
    (newname : String) (hb : Repeated b reps newname) (hne : reps ≠ [])
    (hval : ∀ d ∈ reps, d.data ≠ [] ∧ Ascending (d.data.map env.toVal) ∧ ∀ x ∈ d.data, env.toCoord (env.toVal x) = x) :
    ∃ r r', removeRepBlock env ofIdx b newname = .ok r ∧
      hyperName env r (reps.map Dim.name) newname false true = .ok r' ∧
      (∀ d ∈ reps, lookup r'.ivars d.name = some (asSweep d) ∧ lookup r'.vars d.name = none) ∧
      lookup r'.ivars newname = none ∧
      (∀ k, lookup b.vars k = none → lookup r'.vars k = none) ∧
      (∀ k v, lookup b.vars k = some v → (∀ d ∈ v.dims, d.isa .dimRep = false) → lookup r'.vars k = some v) ∧
      ∀ k v pre post sp sq, lookup b.vars k = some v → v.dims = pre ++ reps ++ post →
        (∀ d ∈ pre ++ post, d.isa .dimRep = false) →
        v.nd.shape = sp ++ reps.map (fun d => d.data.length) ++ sq → sp.length = pre.length →
        ∃ a, lookup r'.vars k = some a ∧ a.dims = pre ++ reps.map asSweep ++ post ∧ a.nd.shape = v.nd.shape ∧
          ∀ idx, Nd.Valid v.nd.shape idx → a.nd.get idx = v.nd.get idx := by
  obtain ⟨r, h1, ho, hr⟩ := C70_block env ofIdx b reps newname hb
  have hn2 : ∀ d ∈ reps, (d.data.map env.toVal).Nodup := fun d hd => (hval d hd).2.1.imp fun h => ne_of_lt h
  obtain ⟨ht, hcase⟩ := listed_table env b reps newname _ hb rfl r ho hne hr
  set full := reps.map fun d => d.data.length with hfulld
  set new := newRep ofIdx newname (Nd.size full) with hnew
  set vals := reps.map fun d => d.data.map env.toVal with hvals
  have hlens : vals.map List.length = full := by
    rw [hvals, hfulld, List.map_map]; exact List.map_congr_left fun d _ => by simp
  have hvn : ∀ v ∈ vals, v.Nodup := by
    intro v hv
    obtain ⟨d, hd, rfl⟩ := List.mem_map.1 hv
    exact hn2 d hd
  have hve : ∀ v ∈ vals, v ≠ [] := by
    intro v hv
    obtain ⟨d, hd, rfl⟩ := List.mem_map.1 hv
    simpa using (hval d hd).1
  have hnd : newDims (gridCols env.junk vals) = vals := gridCols_uniq env.junk vals hve hvn
  have hg : FullGrid (gridCols env.junk vals) (Nd.size full) := by
    rw [← hlens]
    exact gridCols_full env.junk vals (by simpa [hvals] using hne) hvn
  obtain ⟨r', g1, g2⟩ := C68_cube env r (reps.map Dim.name) new (Nd.size full) (gridCols env.junk vals) false true ht hg
    (by
      rw [hnd]
      intro v hv
      obtain ⟨d, hd, rfl⟩ := List.mem_map.1 hv
      exact (hval d hd).2.1)
  rw [show labels false (reps.map Dim.name) = reps.map Dim.name from rfl, hnd] at g2
  have haxes := cubeAxes_reps env reps (fun d hd => (hval d hd).1) hn2 fun d hd => (hval d hd).2.2
  rw [← hvals] at haxes
  -- the numbering is known
  have hnewl : lookup r.ivars newname = some new := by
    rw [hr.ivars]
    have hall : ∀ p ∈ r.vars, ∀ d ∈ p.2.dims, d.name = newname → d = new := by
      intro p hp d hd he
      obtain ⟨m, hm⟩ : ∃ m, (d, m) ∈ p.2.dims.zip p.2.nd.shape := by
        obtain ⟨i, hi⟩ := List.mem_iff_getElem?.1 hd
        have hwf : p.2.dims.length = p.2.nd.shape.length := ho.wf p hp
        have hil : i < p.2.nd.shape.length := by rw [← hwf]; exact (List.getElem?_eq_some_iff.1 hi).1
        exact ⟨p.2.nd.shape[i], List.mem_of_getElem? (i := i)
          (by rw [List.getElem?_zip_eq_some]; exact ⟨hi, List.getElem?_eq_getElem hil⟩)⟩
      exact (((ht.axes p hp).2 d m hm) (by rw [he]; rfl)).1
    cases hf : (r.vars.flatMap fun w => w.2.dims).find? fun d => d.name == newname with
    | some d =>
      obtain ⟨w, hw, hd⟩ := List.mem_flatMap.1 (List.mem_of_find?_eq_some hf)
      have := List.find?_some hf
      rw [hall w hw d hd (by simpa using this)]
    | none =>
      obtain ⟨d0, t, hd0⟩ := List.exists_cons_of_ne_nil hne
      obtain ⟨a, e1, e2, _⟩ := hr.columns 0 d0 (by rw [hd0]; rfl)
      have := List.find?_eq_none.1 hf new (List.mem_flatMap.2 ⟨(d0.name, a), lookup_mem e1, by rw [e2]; simp⟩)
      exact absurd (show (new.name == newname) = true by simp [hnew, newRep]) this
  refine ⟨r, r', h1, ?_, ?_, g2.gone, ?_, ?_, ?_⟩
  · unfold hyperName
    rw [hnewl]
    exact g1
  · intro d hd
    exact g2.coords (asSweep d) (by rw [haxes]; exact List.mem_map_of_mem hd)
  · intro k hk
    by_cases hkr : k ∈ reps.map Dim.name
    · obtain ⟨d, hd, rfl⟩ := List.mem_map.1 hkr
      exact (g2.coords (asSweep d) (by rw [haxes]; exact List.mem_map_of_mem hd)).2
    · refine g2.only k ?_
      rw [lookup_none_iff'] at hk ⊢
      show k ∉ r.vars.map Prod.fst
      rw [hr.order, List.mem_append]
      rintro (h | h)
      · exact hkr h
      · exact hk h
  · intro k v hk hno
    have := g2.rest k v (hr.rest k v hk hno) ?_
    · simpa using this
    · intro hc
      exact (hb.fresh.2.2 (k, v) (lookup_mem hk) new hc (hno new hc)).1 rfl
  · intro k v pre post sp sq hk hd hpp hs hsp
    obtain ⟨w, e1, e2, e3, e4⟩ := hr.vars k v pre post sp sq hne hk hd hpp hs hsp
    have hkn : k ∉ reps.map Dim.name := by
      intro hc
      have := ho.vars
      rw [hr.order, List.nodup_append] at this
      exact this.2.2 k hc k (List.mem_map_of_mem (lookup_mem hk)) rfl
    obtain ⟨a, f1, f2, f3, f4⟩ := g2.spread k w pre post sp sq hkn e1 e2 e3 hsp
    rw [hnd, hlens] at f3
    refine ⟨a, f1, by rw [f2, haxes], by rw [f3, hs], ?_⟩
    intro idx hidx
    rw [hs] at hidx
    obtain ⟨is, ks, js, rfl, i1, i2, i3⟩ : ∃ is ks js, idx = is ++ ks ++ js ∧ Nd.Valid sp is ∧ Nd.Valid full ks ∧ Nd.Valid sq js := by
      have hl := hidx.length
      simp only [List.length_append] at hl
      have e : idx = idx.take sp.length ++ (idx.drop sp.length).take full.length ++ (idx.drop sp.length).drop full.length := by
        rw [List.append_assoc, List.take_append_drop, List.take_append_drop]
      refine ⟨_, _, _, e, ?_⟩
      rw [e, List.append_assoc, List.append_assoc, Nd.valid_append (by simp; omega),
        Nd.valid_append (by simp; omega)] at hidx
      exact hidx
    have hrow : RowAt (gridCols env.junk vals) vals ks (Nd.ravel full ks) := by
      unfold RowAt
      rw [List.forall₂_iff_get]
      have hl := i2.length
      have hl2 : full.length = vals.length := by rw [← hlens]; simp
      refine ⟨by simp [gridCols, hl, hl2], fun j j1 j2 => ?_⟩
      have hj : j < vals.length := by simpa [gridCols] using j1
      have hv : vals[j]? = some vals[j] := List.getElem?_eq_getElem hj
      obtain ⟨hcl, hc⟩ := List.getElem?_eq_some_iff.1 (gridCols_get env.junk vals j _ hv)
      have hlt : ks.getD j 0 < vals[j].length := by
        have := (Nd.valid_iff.1 i2).2 j (by omega)
        rw [← hlens] at this
        simpa [List.getD_eq_getElem?_getD, hv] using this
      have hkj : ks.getD j 0 = ks[j] := by
        rw [List.getD_eq_getElem?_getD, List.getElem?_eq_getElem j2]; rfl
      simp only [List.get_eq_getElem, List.getElem_zip]
      rw [hc, hlens, ← hlens, colOf_get env.junk _ _ j (by simp [hv]) ks (by rw [hlens]; exact i2), hkj]
      rw [hkj] at hlt
      exact ⟨_, List.getElem?_eq_getElem hlt, List.getElem?_eq_getElem hlt⟩
    rw [f4 is ks js (Nd.ravel full ks) i1 (by rw [hnd, hlens, valid_nd]; exact i2) i3 (Nd.ravel_lt i2) hrow]
    exact e4 is ks js i1 i2 i3

end HF.Hyper
