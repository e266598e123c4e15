import Verif.Readers.TreatProps
import Verif.Readers.Given
/-
C77: SP files with properties.
-/
namespace HF.Readers.Treat

open HF.DataDict.Spec HF.DataBlock
open HF.DataDict hiding rename delitem
open HF.Readers.FixUnit (UBlock)
open HF.Readers.Assemble (IsBase elemNm Complete Wins CompleteF elemNmF Form)
open HF.Readers.Normalize (trtable label)
open HF.Comments (PVal)
open HF.Sp (Style Writable sweepTitle elements)

variable {β α : Type}

/-- No property has a name that is in use, that of an element, or one with another meaning for the reader. -/
def Aside (b : Block β α) (d : Dim β) (props : List (String × PVal)) : Prop :=
  ∀ q ∈ props, Ident q.1.toList ∧ q.1 ∉ ["a1", "a2", "Freq", "Frequency"] ∧ q.1 ∉ keys b.vars ∧ q.1 ≠ d.name ∧
    (∀ v i j, IsBase v → i < 10 → j < 10 → q.1 ≠ elemNm v i j) ∧
    ∀ m i j, isMatrixName q.1 = some (m, i, j) → m ∉ b.vars.flatMap columns ∧ m ∉ keys props

/-- `r` is the block with the properties as variables. -/
def AgainWith (S : Steps β α) (b : Block β α) (d : Dim β) (props : List (String × PVal)) (r : UBlock β α) : Prop :=
  ∃ sw, lookup r.blk.ivars d.name = some sw ∧ sw.name = d.name ∧ sw.cls = .dimSweep ∧ sw.data = d.data ∧
    sw.unit = S.guess d.name ∧
    (∀ w ∈ b.vars, ∃ a, lookup r.blk.vars w.1 = some a ∧ a.nd.shape = w.2.nd.shape ∧
      (∀ idx, Nd.Valid w.2.nd.shape idx → a.nd.get idx = w.2.nd.get idx) ∧
      if ismatrix w.2 then
        (∃ i j, a.dims = [sw, i, j] ∧ i.name = "i" ∧ j.name = "j" ∧ i.isa .matI = true ∧ j.isa .matJ = true) ∧
        r.units w.1 = none
      else a.dims = [sw] ∧ r.units w.1 = S.guess w.1) ∧
    (∀ n v x, lookup props n = some v → S.ofProp v = some x →
      lookup r.blk.vars n = some ⟨[], ⟨[], fun _ => x⟩⟩ ∧ r.units n = (unitOfProp v).or (S.guess n)) ∧
    (∀ n ∈ keys r.blk.vars, n ∈ keys b.vars ∨ ∃ v, lookup props n = some v ∧ (S.ofProp v).isSome) ∧
    ∀ n ∈ keys r.blk.ivars, n = d.name ∨ n = "i" ∨ n = "j"

theorem canon_settled (names : List String) {k : String} (h : Settled k) : canon names k = k := by
  rcases canon_cases names k with h1 | ⟨e, he, h1, -⟩
  · exact h1
  · exact absurd h1 (h.2 e he)

theorem complete_congr {l m : List String} (h : ∀ v i j, IsBase v → i < 10 → j < 10 → (elemNm v i j ∈ l ↔ elemNm v i j ∈ m))
    {v : String} {I J : List Nat} (hc : Complete l v I J) : Complete m v I J :=
  ⟨hc.base, hc.rows, hc.cols, hc.digits, fun i j hi hj => (h v i j hc.base hi hj).symm.trans (hc.mem i j hi hj), hc.many⟩

theorem wins_digits {names : List String} {fm : Form} {v : String} {I J : List Nat} :
    Wins names [.digits] fm v I J ↔ fm = .digits ∧ Complete names v I J := by
  constructor
  · rintro ⟨before, after, h1, -, h3, -⟩
    cases before with
    | nil =>
      rw [List.nil_append] at h1
      obtain ⟨rfl, rfl⟩ := List.cons.inj h1
      exact ⟨rfl, h3⟩
    | cons x t =>
      have := congrArg List.length h1
      simp at this
  · rintro ⟨rfl, h⟩
    exact ⟨[], [], rfl, by simp, h, by simp⟩

theorem treat_with (env : Env β α) (S : Steps β α) (st : Style β α) (re im : α → α) (hri : ∀ x, S.rect (re x) (im x) = x)
    (htab : S.table.Perm trtable) (hcast : ∀ c c' : Arr β α, c.nd = c'.nd → S.cast c = S.cast c')
    {b p : Block β α} {d : Dim β} (h : Tame st b d) (hk : (keys b.vars).Nodup)
    (hsize : ∀ w ∈ b.vars, w.2.nd.shape = w.2.dims.map fun d => d.data.length)
    (hkind : ∀ w ∈ b.vars, ismatrix w.2 = true → OneKind S d.data.length w)
    (hdu : (d.unit.map String.toList).getD [] = []) (hu : ∀ w ∈ b.vars, st.cplx w.1 = false → (st.unit w.1).getD [] = [])
    (props : List (String × PVal)) (hpn : (keys props).Nodup) (hp : Aside b d props)
    (ht : Tab p (sweep0 d) d.data.length ((b.vars.flatMap (itemsOf st)).flatMap (Item.cols re im))) :
    ∃ r, treat env S props p = .ok r ∧ AgainWith S b d props r := by
  obtain ⟨items, hitems⟩ : ∃ l, l = b.vars.flatMap (itemsOf st) := ⟨_, rfl⟩
  have hs := sober_items h hk
  have hnm := names_items h
  rw [← hitems] at hs hnm ht
  have hdn : d.name ∉ items.map Item.name := by rw [hnm]; exact h.sweep.2.2.2.1
  have hswn : (sweep0 d).name = d.name := by
    show String.ofList (Sp.titled d.name.toList (d.unit.map String.toList)) = d.name
    rw [titled_none hdu, String.ofList_toList]
  obtain ⟨b1, c1, t1⟩ := cplx_step env S.full S.rect S.polar re im hri ht hs
    (by
      show (Complex.outer (String.ofList (Sp.titled d.name.toList (d.unit.map String.toList)))).1 = ""
      rw [outer_titled h.sweep.1 h.sweep.2.1])
    (by rw [hswn]; exact hdn)
  have hmid : ∀ it ∈ items, (Item.mid it).1 = it.name := by
    intro it hit
    rw [hitems] at hit
    obtain ⟨w, hw, hi⟩ := List.mem_flatMap.1 hit
    obtain ⟨e, he, rfl⟩ := List.mem_map.1 hi
    unfold Item.mid Item.title
    cases hc : st.cplx w.1
    · simp only [Bool.false_eq_true, if_false, String.toList_ofList]
      rw [titled_none (hu w hw hc)]
    · simp
  have hkeys : ∀ n, n ∈ keys b1.vars ↔ n ∈ b.vars.flatMap columns := by
    intro n
    rw [t1.keys, ← hnm, List.map_map]
    have : items.map (Prod.fst ∘ Item.mid) = items.map Item.name := List.map_congr_left hmid
    rw [this]
  have hcol : ∀ w ∈ b.vars, ∀ e ∈ elements w, ∃ a, lookup b1.vars (String.ofList e.1) = some a ∧ a.dims = [sweep0 d] ∧
      a.nd.shape = [d.data.length] ∧ ∀ k < d.data.length, a.nd.get [k] = e.2 [k] := by
    intro w hw e he
    have hit : (⟨String.ofList e.1, st.cplx w.1, st.unit w.1, fun k => e.2 [k]⟩ : Item α) ∈ items := by
      rw [hitems]
      exact List.mem_flatMap.2 ⟨w, hw, List.mem_map.2 ⟨e, he, rfl⟩⟩
    obtain ⟨a, a1, a2, a3, a4⟩ := t1.col _ (List.mem_map_of_mem hit)
    rw [hmid _ hit] at a1
    exact ⟨a, a1, a2, a3, a4⟩
  have hmat : ∀ w ∈ b.vars, ismatrix w.2 = true → ∀ di dj, w.2.dims = [d, di, dj] → ∀ i < di.data.length, ∀ j < dj.data.length,
      ((elemNm w.1 (i + 1) (j + 1)).toList, fun p => w.2.nd.get (p ++ [i, j])) ∈ elements w := by
    intro w hw hm di dj hd i hi j hj
    obtain ⟨di', dj', hd', h1, h2, -⟩ := h.matrix w hw hm
    obtain ⟨rfl, rfl⟩ := dims_unique hd hd'
    exact (elements_matrix hm hd h1 h2 _).2 ⟨i, hi, j, hj, rfl⟩
  have hivk : keys b1.ivars = [d.name] := by rw [t1.ivars]; simp [keys, hswn]
  -- names
  have hset : ∀ n ∈ namesOf S.ofProp (keys b1.vars) (keys b1.ivars) props, Ident n.toList ∧ Settled n := by
    intro n hn
    unfold namesOf at hn
    rcases List.mem_append.1 hn with hn | hn
    · rcases List.mem_append.1 hn with hn | hn
      · have hc' := (hkeys n).1 hn
        exact ⟨ident_columns h hc', settled_names (ident_columns h hc') (h.column n hc').1⟩
      · obtain ⟨q, hq, rfl⟩ := List.mem_map.1 hn
        obtain ⟨g1, g2, -⟩ := hp q (List.mem_filter.1 hq).1
        exact ⟨g1, settled_names g1 g2⟩
    · rw [hivk, List.mem_singleton] at hn
      subst hn
      refine ⟨h.sweep.1, settled_names h.sweep.1 fun hm => h.sweep.2.2.1 ?_⟩
      simp only [List.mem_cons, List.not_mem_nil, or_false] at hm ⊢
      tauto
  have hcan : ∀ n ∈ namesOf S.ofProp (keys b1.vars) (keys b1.ivars) props,
      canon (namesOf S.ofProp (keys b1.vars) (keys b1.ivars) props) n = n := fun n hn => canon_settled _ (hset n hn).2
  have hpc : ∀ q ∈ props, q.1 ∉ b.vars.flatMap columns := by
    intro q hq hm
    obtain ⟨-, -, g3, -, g5, -⟩ := hp q hq
    obtain ⟨w, hw, ⟨-, e⟩ | ⟨m', ei, ej, hd2, x, hx, y, hy, e⟩⟩ := (mem_columns h _).1 hm
    · exact g3 (e ▸ List.mem_map_of_mem hw)
    · obtain ⟨di2, dj2, hd3, l1, l2, -, hb'⟩ := h.matrix w hw m'
      obtain ⟨rfl, rfl⟩ := dims_unique hd2 hd3
      exact g5 _ _ _ hb' (by omega) (by omega) e
  have hcols : colsOf S.ofProp (keys b1.vars) (keys b1.ivars) props =
      keys b1.vars ++ (givenOf S.ofProp (keys b1.vars ++ keys b1.ivars) props).map Prod.fst := by
    unfold colsOf
    conv_rhs => rw [← List.map_id (keys b1.vars ++ _)]
    apply List.map_congr_left
    intro n hn
    exact hcan n (List.mem_append.2 (.inl hn))
  have helem : ∀ v i j, IsBase v → i < 10 → j < 10 →
      (elemNm v i j ∈ colsOf S.ofProp (keys b1.vars) (keys b1.ivars) props ↔ elemNm v i j ∈ b.vars.flatMap columns) := by
    intro v i j hv hi hj
    rw [hcols, List.mem_append, hkeys]
    constructor
    · rintro (h1 | h1)
      · exact h1
      · obtain ⟨q, hq, e⟩ := List.mem_map.1 h1
        exact absurd e ((hp q (List.mem_filter.1 hq).1).2.2.2.2.1 v i j hv hi hj)
    · exact Or.inl
  have hwin : ∀ fm v I J, Wins (colsOf S.ofProp (keys b1.vars) (keys b1.ivars) props) [.digits] fm v I J →
      fm = .digits ∧ Complete (b.vars.flatMap columns) v I J := by
    intro fm v I J hw
    obtain ⟨h1, h2⟩ := wins_digits.1 hw
    exact ⟨h1, complete_congr helem h2⟩
  have hknown : ∀ w ∈ b1.vars, w.2.dims = [sweep0 d] := by
    intro w hw
    have := (t1.keys w.1).1 (List.mem_map_of_mem hw)
    obtain ⟨e, he, e1⟩ := List.mem_map.1 this
    obtain ⟨a, a1, a2, -⟩ := t1.col e he
    rw [e1, mem_lookup t1.nodup (p := (w.1, w.2)) hw] at a1
    cases a1
    exact a2
  have hlink : Linked b1 := by
    refine ⟨by rw [hivk]; simp, ?_, ?_⟩
    · intro q hq
      rw [t1.ivars, List.mem_singleton] at hq
      rw [hq]
    · intro w hw e he
      rw [hknown w hw, List.mem_singleton] at he
      subst he
      rw [t1.ivars, lookup_single, if_pos rfl]
  have hcalm : CalmNames S.ofProp (keys b1.vars) (keys b1.ivars) props := by
    refine ⟨?_, ?_, ?_, ?_, ?_⟩
    · rw [hivk, List.nodup_append']
      refine ⟨t1.nodup, by simp, ?_⟩
      intro n h1 h2
      rw [List.mem_singleton] at h2
      exact h.sweep.2.2.2.1 (h2 ▸ (hkeys n).1 h1)
    · intro n hn
      exact title_no_bracket ((hset n hn).1.none (by decide))
    · intro n hn
      exact (hset n hn).2.1
    · intro e he e' _ h1
      exact absurd rfl ((hset _ h1).2.2 e he)
    · intro q hq m i j hm
      obtain ⟨-, -, -, -, -, g6⟩ := hp q hq
      obtain ⟨l1, l2⟩ := g6 m i j hm
      exact ⟨fun hc => l1 ((hkeys m).1 hc), l2⟩
  have hcell : ∀ v I J, Complete (b.vars.flatMap columns) v I J → ∀ i ∈ I, ∀ j ∈ J, ∃ c,
      lookup b1.vars (elemNm v i j) = some c ∧ c.dims = [sweep0 d] ∧ c.nd.shape = [d.data.length] := by
    intro v I J hc i hi j hj
    have := (hkeys _).2 ((hc.mem i j (hc.digits.1 i hi) (hc.digits.2 j hj)).2 ⟨hi, hj⟩)
    rw [t1.keys] at this
    obtain ⟨e, he, e1⟩ := List.mem_map.1 this
    obtain ⟨a, a1, a2, a3, -⟩ := t1.col e he
    rw [e1] at a1
    exact ⟨a, a1, a2, a3⟩
  have hlk : ∀ n a, lookup b1.vars n = some a → canon (namesOf S.ofProp (keys b1.vars) (keys b1.ivars) props) n = n := by
    intro n a hl
    refine hcan n (List.mem_append.2 (.inl (List.mem_append.2 (.inl ?_))))
    rw [← lookup_isSome_iff, hl]
    rfl
  have hfit : ∀ fm v I J, Wins (colsOf S.ofProp (keys b1.vars) (keys b1.ivars) props) [.digits] fm v I J →
      ∃ D sh, Fits S.cast b1 (namesOf S.ofProp (keys b1.vars) (keys b1.ivars) props) fm v I J D sh := by
    intro fm v I J hw
    obtain ⟨rfl, hc⟩ := hwin fm v I J hw
    obtain ⟨w, hwm, hm, rfl⟩ := matrix_complete h (fun _ => Iff.rfl) hc
    refine ⟨[sweep0 d], [d.data.length], rfl, ⟨?_, ?_, ?_⟩, ?_, ?_⟩
    · rw [hivk]
      have : canon (namesOf S.ofProp (keys b1.vars) [d.name] props) d.name = d.name := by
        rw [← hivk]
        exact hcan _ (List.mem_append.2 (.inr (by rw [hivk]; simp)))
      rw [List.map_cons, List.map_nil, this, List.mem_singleton]
      intro e
      exact h.sweep.2.2.2.2 (e ▸ List.mem_map_of_mem hwm)
    · intro e; have := (h.names w hwm).2.2; rw [e] at this; simp at this
    · intro e; have := (h.names w hwm).2.2; rw [e] at this; simp at this
    · intro i hi j hj
      obtain ⟨c, k1, k2, k3⟩ := hcell _ I J hc i hi j hj
      exact ⟨elemNm w.1 i j, c, hlk _ _ k1, k1, k2, k3⟩
    · obtain ⟨P, p1, -, p3⟩ := hkind w hwm hm
      have hP : ∀ i ∈ I, ∀ j ∈ J, ∀ c, lookup b1.vars (elemNm w.1 i j) = some c → ∀ k < d.data.length, P (c.nd.get [k]) := by
        intro i hi j hj c hl k hk'
        obtain ⟨w', hw', ⟨m', e⟩ | ⟨m', ei, ej, hd2, x, hx, y, hy, e⟩⟩ := (mem_columns h _).1
          ((hc.mem i j (hc.digits.1 i hi) (hc.digits.2 j hj)).2 ⟨hi, hj⟩)
        · exact absurd e.symm ((h.plain w' hw' m').2 _ _ _ hc.base (hc.digits.1 i hi) (hc.digits.2 j hj))
        · obtain ⟨di2, dj2, hd3, g1, g2, -, hb'⟩ := h.matrix w' hw' m'
          obtain ⟨rfl, rfl⟩ := dims_unique hd2 hd3
          have e1 := (Assemble.elemNm_inj hc.base (hc.digits.1 i hi) (hc.digits.2 j hj) hb' (by omega) (by omega) e).1
          have : w' = w := List.inj_on_of_nodup_map hk hw' hwm e1.symm
          subst this
          obtain ⟨a, a1, -, -, a4⟩ := hcol w' hw' _ (hmat w' hw' hm ei ej hd2 x hx y hy)
          simp only [String.ofList_toList] at a1
          have e' : elemNm w'.1 i j = elemNm w'.1 (x + 1) (y + 1) := e
          rw [← e', hl] at a1
          cases a1
          rw [a4 k hk']
          refine p1 _ ?_
          rw [hsize w' hw', hd2]
          simp [Nd.Valid, hk', hx, hy]
      intro i hi j hj k hk' l hl n n' c c' e1 e2 hc1 hc2 idx hv
      rw [hlk _ _ hc1] at e1
      rw [hlk _ _ hc2] at e2
      subst e1
      subst e2
      obtain ⟨x, rfl, hx⟩ : ∃ x, idx = [x] ∧ x < d.data.length := by
        match idx, hv with
        | [x], hv => exact ⟨x, rfl, by simpa [Nd.Valid] using hv⟩
        | [], hv => simp [Nd.Valid] at hv
        | _ :: _ :: _, hv => simp [Nd.Valid] at hv
      exact p3 c (hP i hi j hj c hc1) _ (hP k hk' l hl c' hc2 x hx)
  obtain ⟨r, H, r1, hr⟩ := laterOn_given [.digits] env S htab hcast props ⟨b1, fun _ => none⟩ hpn hlink hcalm hfit
  simp only at hr
  obtain ⟨s1, s2⟩ := hr.dims d.name (sweep0 d) (by
    show lookup b1.ivars d.name = _
    rw [t1.ivars, lookup_single, if_pos hswn])
  rw [hcan d.name (List.mem_append.2 (.inr (by rw [hivk]; simp)))] at s1 s2
  simp only [label, Normalize.Label.mk.injEq] at s2
  obtain ⟨s2, s3, s4, s5⟩ := s2
  have hplain : ∀ n, n ∈ namesOf S.ofProp (keys b1.vars) (keys b1.ivars) props →
      (∀ v i j, IsBase v → i < 10 → j < 10 → n ≠ elemNm v i j) → (∀ w ∈ b.vars, ismatrix w.2 = true → n ≠ w.1) →
      ∀ fm v I J, Wins (colsOf S.ofProp (keys b1.vars) (keys b1.ivars) props) [.digits] fm v I J →
        canon (namesOf S.ofProp (keys b1.vars) (keys b1.ivars) props) n ≠ v ∧ ∀ i ∈ I, ∀ j ∈ J,
          canon (namesOf S.ofProp (keys b1.vars) (keys b1.ivars) props) n ≠ elemNmF fm v i j := by
    intro n hn h1 h2 fm v I J hw
    obtain ⟨rfl, hc⟩ := hwin fm v I J hw
    rw [hcan n hn]
    constructor
    · obtain ⟨w, hwm, hm, rfl⟩ := matrix_complete h (fun _ => Iff.rfl) hc
      exact h2 w hwm hm
    · intro i hi j hj
      exact h1 v i j hc.base (hc.digits.1 i hi) (hc.digits.2 j hj)
  refine ⟨r, ?_, H (sweep0 d), s1, s2, by rw [s3]; rfl, by rw [s4]; rfl, by rw [s5]; rfl, ?_, ?_, ?_, ?_⟩
  · simp only [treat, later, c1]
    exact r1
  · intro w hw
    cases hm : ismatrix w.2
    · obtain ⟨hdims, hne⟩ := h.plain w hw hm
      have hel : (w.1.toList, w.2.nd.get) ∈ elements w := by rw [elements_plain hm]; simp
      obtain ⟨a, a1, a2, a3, a4⟩ := hcol w hw _ hel
      simp only [String.ofList_toList] at a1
      have hn : w.1 ∈ namesOf S.ofProp (keys b1.vars) (keys b1.ivars) props := by
        refine List.mem_append.2 (.inl (List.mem_append.2 (.inl ?_)))
        rw [← lookup_isSome_iff, a1]; rfl
      obtain ⟨q1, q2⟩ := hr.plain w.1 a a1 (hplain w.1 hn hne (by
        intro w' hw' hm' e
        have : w' = w := List.inj_on_of_nodup_map hk hw' hw e.symm
        subst this
        rw [hm] at hm'
        cases hm'))
      rw [hcan w.1 hn] at q1 q2
      have hsh : w.2.nd.shape = [d.data.length] := by rw [hsize w hw, hdims]; rfl
      refine ⟨_, q1, by rw [hsh]; exact a3, ?_, ?_⟩
      · intro idx hv
        rw [hsh] at hv
        match idx, hv with
        | [x], hv => exact a4 x (by simpa [Nd.Valid] using hv)
        | [], hv => simp [Nd.Valid] at hv
        | _ :: _ :: _, hv => simp [Nd.Valid] at hv
      · rw [if_neg (by simp)]
        exact ⟨by simp [a2], by rw [q2]; rfl⟩
    · obtain ⟨di, dj, hdims, l1, l2, -, hb'⟩ := h.matrix w hw hm
      have hc := complete_matrix h hk (fun _ => Iff.rfl) hw hm hdims
      have hW : Wins (colsOf S.ofProp (keys b1.vars) (keys b1.ivars) props) [.digits] .digits w.1
          ((List.range di.data.length).map Nat.succ) ((List.range dj.data.length).map Nat.succ) :=
        wins_digits.2 ⟨rfl, complete_congr (fun v i j hv hi hj => (helem v i j hv hi hj).symm) hc⟩
      obtain ⟨m, D, sh, mi, mj, q1, q2, q3, q4, q5, q6, q7⟩ := hr.matrix _ _ _ _ hW
      have hsh : w.2.nd.shape = [d.data.length, di.data.length, dj.data.length] := by rw [hsize w hw, hdims]; rfl
      have hpos : 0 < di.data.length ∧ 0 < dj.data.length := by
        have := hc.many
        simp only [List.length_map, List.length_range] at this
        constructor
        · rcases Nat.eq_zero_or_pos di.data.length with h0 | h0
          · rw [h0] at this; simp at this
          · exact h0
        · rcases Nat.eq_zero_or_pos dj.data.length with h0 | h0
          · rw [h0] at this; simp at this
          · exact h0
      have hDs : D = [sweep0 d] ∧ sh = [d.data.length] := by
        obtain ⟨k, c, k1, k2, k3, k4⟩ := q3.cols 1 (List.mem_map.2 ⟨0, List.mem_range.2 hpos.1, rfl⟩) 1
          (List.mem_map.2 ⟨0, List.mem_range.2 hpos.2, rfl⟩)
        have hkm := hknown (k, c) (lookup_mem k2)
        obtain ⟨c', k5, k6, k7⟩ := hcell _ _ _ hc 1 (List.mem_map.2 ⟨0, List.mem_range.2 hpos.1, rfl⟩) 1
          (List.mem_map.2 ⟨0, List.mem_range.2 hpos.2, rfl⟩)
        rw [hlk _ _ k2] at k1
        subst k1
        have : c = c' := Option.some.inj (k2.symm.trans k5)
        subst this
        exact ⟨k3 ▸ k6, k4 ▸ k7⟩
      obtain ⟨rfl, rfl⟩ := hDs
      refine ⟨m, q1, ?_, ?_, ?_⟩
      · rw [q4.shape, hsh]
        simp
      · intro idx hv
        rw [hsh] at hv
        match idx, hv with
        | [k, i, j], hv =>
          have hv' : k < d.data.length ∧ i < di.data.length ∧ j < dj.data.length := by simpa [Nd.Valid] using hv
          obtain ⟨a, a1, -, -, a4⟩ := hcol w hw _ (hmat w hw hm di dj hdims i hv'.2.1 j hv'.2.2)
          simp only [String.ofList_toList] at a1
          have := q7 i j (by simpa using hv'.2.1) (by simpa using hv'.2.2) (elemNm w.1 (i + 1) (j + 1)) a
            (by rw [hlk _ _ a1]; simp) a1 [k] (by simp [Nd.Valid, hv'.1])
          simp only [List.cons_append, List.nil_append] at this
          rw [this, a4 k hv'.1]
          rfl
        | [], hv => simp [Nd.Valid] at hv
        | [_], hv => simp [Nd.Valid] at hv
        | [_, _], hv => simp [Nd.Valid] at hv
        | _ :: _ :: _ :: _ :: _, hv => simp [Nd.Valid] at hv
      · rw [if_pos rfl]
        exact ⟨⟨mi, mj, q4.dims, q5, q6, q4.isI, q4.isJ⟩, q2⟩
  · intro n v x hl hx
    have hq := lookup_mem hl
    obtain ⟨g1, g2, g3, g4, g5, -⟩ := hp _ hq
    simp only at g1 g2 g3 g4 g5
    have hgiven : (n, v) ∈ givenOf S.ofProp (keys b1.vars ++ keys b1.ivars) props := by
      refine List.mem_filter.2 ⟨hq, ?_⟩
      rw [Bool.and_eq_true, decide_eq_true_eq]
      refine ⟨?_, by rw [hx]; rfl⟩
      rw [List.mem_append, hkeys, hivk, List.mem_singleton]
      rintro (h1 | h1)
      · exact hpc _ hq h1
      · exact g4 h1
    have hn : n ∈ namesOf S.ofProp (keys b1.vars) (keys b1.ivars) props :=
      List.mem_append.2 (.inl (List.mem_append.2 (.inr (List.mem_map_of_mem hgiven))))
    obtain ⟨y, y1, y2, y3⟩ := hr.property (n, v) hgiven (hplain n hn g5 (by
      intro w hw _ e
      exact g3 (e ▸ List.mem_map_of_mem hw)))
    simp only at y1 y2 y3
    rw [hx] at y1
    cases y1
    rw [hcan n hn] at y2 y3
    exact ⟨y2, y3⟩
  · intro n hn
    rcases hr.nothing n hn with ⟨fm, I, J, hw⟩ | hc
    · obtain ⟨rfl, hc⟩ := hwin _ _ _ _ hw
      obtain ⟨w, hwm, -, rfl⟩ := matrix_complete h (fun _ => Iff.rfl) hc
      exact Or.inl (List.mem_map_of_mem hwm)
    · rw [hcols] at hc
      rcases List.mem_append.1 hc with h1 | h1
      · obtain ⟨w, hw, ⟨m', rfl⟩ | ⟨m', ei, ej, hd2, x, hx, y, hy, e⟩⟩ := (mem_columns h _).1 ((hkeys n).1 h1)
        · exact Or.inl (List.mem_map_of_mem hw)
        · exfalso
          have hc := complete_matrix h hk (fun _ => Iff.rfl) hw m' hd2
          have hW : Wins (colsOf S.ofProp (keys b1.vars) (keys b1.ivars) props) [.digits] .digits w.1
              ((List.range ei.data.length).map Nat.succ) ((List.range ej.data.length).map Nat.succ) :=
            wins_digits.2 ⟨rfl, complete_congr (fun v i j hv hi hj => (helem v i j hv hi hj).symm) hc⟩
          have := hr.gone _ _ _ _ hW (x + 1) (List.mem_map.2 ⟨x, List.mem_range.2 hx, rfl⟩) (y + 1)
            (List.mem_map.2 ⟨y, List.mem_range.2 hy, rfl⟩)
          have e' : n = elemNmF .digits w.1 (x + 1) (y + 1) := e
          rw [← e', lookup_none_iff'] at this
          exact this hn
      · obtain ⟨q, hq, rfl⟩ := List.mem_map.1 h1
        obtain ⟨q1, q2⟩ := List.mem_filter.1 hq
        rw [Bool.and_eq_true] at q2
        exact Or.inr ⟨q.2, mem_lookup hpn (p := q) q1, q2.2⟩
  · intro n hn
    rcases hr.noDims n hn with h1 | ⟨-, h1⟩
    · obtain ⟨k, hk1, rfl⟩ := List.mem_map.1 h1
      rw [hcan k (List.mem_append.2 (.inr hk1))]
      exact Or.inl (by simpa [hivk] using hk1)
    · exact Or.inr h1

/-- C77: comments that declare properties: a block without units that is saved as an SP file with comments and read is
the block again, and every property with a value is a variable of it. -/
theorem C77_properties {env : Env β α} {S : Steps β α} {ofRat : ℚ → β} {conv : List Char → α} {st : Style β α} {re im : α → α}
    {comments : List (List Char)} {b : Block β α} {d : Dim β} (hw : Writable env ofRat conv st re im comments b)
    (h : Tame st b d) (hri : ∀ x, S.rect (re x) (im x) = x) (hkind : ∀ w ∈ b.vars, ismatrix w.2 = true → OneKind S d.data.length w)
    (htab : S.table.Perm trtable) (hcast : ∀ c c' : Arr β α, c.nd = c'.nd → S.cast c = S.cast c')
    (hdu : (d.unit.map String.toList).getD [] = []) (hu : ∀ w ∈ b.vars, st.cplx w.1 = false → (st.unit w.1).getD [] = [])
    (hp : Aside b d (Comments.properties comments)) :
    ∃ ls r, Sp.save env st comments b = (ls, none) ∧ spBlocks env S ofRat conv ls = .ok [r] ∧
      AgainWith S b d (Comments.properties comments) r := by
  obtain ⟨ls, spots, p, ps, c1, c2, c3, c4, c5, c6, -⟩ := Sp.C56_roundtrip (S.num) hw
  have hspot : ∀ s ∈ spots, s = ([d], []) := by
    rintro ⟨D, idx⟩ hs
    obtain ⟨⟨w, hwm, e⟩, hidx⟩ := (c5 D idx).1 hs
    rw [axes_tame h w hwm] at e
    subst e
    simp only [List.tail_cons] at hidx
    cases hidx
    rfl
  have hsp : spots = [([d], [])] := by
    cases spots with
    | nil => cases c3
    | cons s t =>
      cases t with
      | nil => rw [hspot s (by simp)]
      | cons s' t' =>
        rw [hspot s (by simp), hspot s' (by simp)] at c4
        simp at c4
  subst hsp
  have hkey : ∀ n, n ∈ keys p.property ↔ n ∈ keys (Comments.properties comments) := by
    intro n
    rw [← lookup_isSome_iff, ← lookup_isSome_iff, c6.2.1]
  have hp' : Aside b d p.property := by
    intro q hq
    have hm : q.1 ∈ keys (Comments.properties comments) := (hkey _).1 (List.mem_map_of_mem hq)
    obtain ⟨q', hq', e⟩ := List.mem_map.1 hm
    obtain ⟨g1, g2, g3, g4, g5, g6⟩ := hp q' hq'
    rw [e] at g1 g2 g3 g4 g5 g6
    refine ⟨g1, g2, g3, g4, g5, fun m i j hmn => ?_⟩
    obtain ⟨l1, l2⟩ := g6 m i j hmn
    exact ⟨l1, fun hc => l2 ((hkey m).1 hc)⟩
  cases c3 with
  | cons hr ht =>
    cases ht
    obtain ⟨r, r1, r2⟩ := treat_with env S st re im hri htab hcast h hw.quiet.nodup hw.sized hkind hdu hu p.property c6.2.2 hp'
      (tab_restored hw h hr)
    refine ⟨ls, r, c1, ?_, ?_⟩
    · simp only [spBlocks, c2, List.mapM_cons, List.mapM_nil, r1]
      rfl
    · obtain ⟨sw, e1, e2, e3, e4, e5, e6, e7, e8, e9⟩ := r2
      refine ⟨sw, e1, e2, e3, e4, e5, e6, ?_, ?_, e9⟩
      · intro n v x hl
        exact e7 n v x (by rw [c6.2.1]; exact hl)
      · intro n hn
        rcases e8 n hn with g | ⟨v, g1, g2⟩
        · exact Or.inl g
        · exact Or.inr ⟨v, by rw [← c6.2.1]; exact g1, g2⟩

end HF.Readers.Treat
