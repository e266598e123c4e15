import Verif.Sp.WriteSpec
/-
SP data files: what is written, as tables.
-/
namespace HF.Sp

open HF.DataDict.Spec HF.DataBlock
open HF.DataDict hiding rename delitem
open Units (isWs strip)
open Text (join)

variable {β α : Type}

/-! ### Groups of variables -/

theorem assign_lookup {K V : Type} [DecidableEq K] (m : OMap K V) (k : K) (v : V) (a : K) :
    lookup (assign m k v) a = if a = k then some v else lookup m a := by
  unfold assign
  split
  · rename_i h
    rw [lookup_modify]
    by_cases e : k = a
    · simp [e] at h ⊢; simp [h]
    · have : ¬ a = k := fun h => e h.symm
      simp [e, this]
  · rename_i h
    rw [lookup_append, lookup_singleton]
    by_cases e : k = a
    · subst e
      have : lookup m k = none := by
        rw [lookup_eq_dget, dget_none_iff]; exact fun hk => h ((member_iff m k).2 hk)
      simp [this]
    · have : ¬ a = k := fun h => e h.symm
      simp [e, this]

theorem assign_keys {K V : Type} [DecidableEq K] (m : OMap K V) (k : K) (v : V) :
    (assign m k v).map Prod.fst = if k ∈ m.map Prod.fst then m.map Prod.fst else m.map Prod.fst ++ [k] := by
  unfold assign
  by_cases h : member m k = true
  · rw [if_pos h, if_pos ((member_iff m k).1 h), keys_modify]
  · rw [if_neg h, if_neg (fun hk => h ((member_iff m k).2 hk))]; simp

theorem entry_lookup {K V : Type} [DecidableEq K] {m : OMap K V} (h : (m.map Prod.fst).Nodup) {p : K × V}
    (hp : p ∈ m) : lookup m p.1 = some p.2 := by
  induction m with
  | nil => simp at hp
  | cons q t ih =>
    rw [List.map_cons, List.nodup_cons] at h
    rcases List.mem_cons.1 hp with rfl | hp
    · simp [lookup]
    · have : q.1 ≠ p.1 := fun e => h.1 (List.mem_map.2 ⟨p, hp, e.symm⟩)
      have := ih h.2 hp
      unfold lookup at *
      rw [List.find?_cons]
      simp only [*, decide_false, ne_eq, not_false_eq_true]

/-- The variables with the axes `k`. -/
def over (ws : List (String × Arr β α)) (k : List String) : List (String × Arr β α) :=
  ws.filter fun w => axisNames w.2 = k

theorem over_snoc (ws : List (String × Arr β α)) (w : String × Arr β α) (k : List String) :
    over (ws ++ [w]) k = over ws k ++ if axisNames w.2 = k then [w] else [] := by
  unfold over
  rw [List.filter_append]
  congr 1
  by_cases h : axisNames w.2 = k <;> simp [h]

structure Grouped (pre : List (String × Arr β α)) (m : OMap (List String) (Block β α)) : Prop where
  nodup : (m.map Prod.fst).Nodup
  keys : ∀ k, k ∈ m.map Prod.fst ↔ ∃ w ∈ pre, axisNames w.2 = k
  block : ∀ k q, lookup m k = some q → q.vars = over pre k ∧ q.ivars = addDims [] ((over pre k).flatMap fun w => w.2.dims)

theorem groupVars_spec (env : Env β α) (all : List (String × Arr β α)) (hq : Quiet all) :
    ∀ (ws pre : List (String × Arr β α)) (m : OMap (List String) (Block β α)), pre ++ ws = all → Grouped pre m →
    ∃ m', groupVars env ws m = .ok m' ∧ Grouped all m' := by
  intro ws
  induction ws with
  | nil => intro pre m e h; simp at e; subst e; exact ⟨m, rfl, h⟩
  | cons w ws ih =>
    intro pre m e h
    have hnd : (w.1 :: pre.map Prod.fst).Nodup := by
      have := hq.nodup
      rw [← e, List.map_append, List.map_cons, List.nodup_append] at this
      rw [List.nodup_cons]
      exact ⟨fun hm => this.2.2 _ hm _ (by simp) rfl, this.1⟩
    have hw : w ∈ all := by rw [← e]; simp
    have hpre : ∀ x ∈ pre, x ∈ all := fun x hx => by rw [← e]; simp [hx]
    obtain ⟨q, hqd, q1, q2⟩ : ∃ q, (lookup m (axisNames w.2)).getD {} = q ∧ q.vars = over pre (axisNames w.2) ∧
        q.ivars = addDims [] ((over pre (axisNames w.2)).flatMap fun w => w.2.dims) := by
      cases hl : lookup m (axisNames w.2) with
      | some q => exact ⟨q, rfl, h.block _ _ hl⟩
      | none =>
        have : over pre (axisNames w.2) = [] := by
          unfold over
          rw [List.filter_eq_nil_iff]
          intro x hx hk
          have hk' : axisNames w.2 ∈ m.map Prod.fst := (h.keys _).2 ⟨x, hx, of_decide_eq_true hk⟩
          rw [lookup_eq_dget, dget_none_iff] at hl
          exact hl hk'
        refine ⟨{}, rfl, ?_, ?_⟩ <;> rw [this] <;> rfl
    have hset : setArr env q w.1 w.2 = (⟨q.vars ++ [(w.1, w.2)], addDims q.ivars w.2.dims,
        nextXname q.xname w.2.dims⟩, .ok ()) := by
      have hni : lookup q.ivars w.1 = none := by
        rw [lookup_none_iff', q2, mem_keys_addDims]
        rintro (h | ⟨d, hd, hn⟩)
        · simp [HF.DataBlock.keys] at h
        · obtain ⟨x, hx, hd⟩ := List.mem_flatMap.1 hd
          exact hq.dims w hw x (hpre x (List.mem_of_mem_filter hx)) d hd hn
      have het : elemTarget (member q.vars) w.1 w.2 = none := by
        unfold elemTarget
        split
        · rename_i i j k hm
          split
          · rename_i hc
            simp only [Bool.and_eq_true, Bool.not_eq_true'] at hc
            rw [q1] at hc
            obtain ⟨x, h1, h2⟩ := List.mem_map.1 ((member_iff _ _).1 hc.1)
            exact absurd h2.symm (hq.elems w hw x (hpre x (List.mem_of_mem_filter h1)) _ _ _ hm hc.2)
          · rfl
        · rfl
      have hnv : member q.vars w.1 = false := by
        rw [Bool.eq_false_iff]
        intro hc
        rw [q1] at hc
        obtain ⟨x, h1, h2⟩ := List.mem_map.1 ((member_iff _ _).1 hc)
        exact (List.nodup_cons.1 hnd).1 (h2 ▸ List.mem_map_of_mem (List.mem_of_mem_filter h1))
      simp only [setArr, het, hni]
      rw [assign, hnv]
      simp
    rw [groupVars, hqd, hset]
    refine ih (pre ++ [w]) _ (by rw [← e]; simp) ⟨?_, ?_, ?_⟩
    · rw [assign_keys]
      split
      · exact h.nodup
      · rename_i hk
        rw [List.nodup_append]
        refine ⟨h.nodup, by simp, ?_⟩
        rintro a ha b hb rfl
        exact hk (List.mem_singleton.1 hb ▸ ha)
    · intro k
      rw [assign_keys]
      constructor
      · intro hk
        have : k ∈ m.map Prod.fst ∨ k = axisNames w.2 := by
          split at hk
          · exact Or.inl hk
          · rcases List.mem_append.1 hk with hk | hk
            · exact Or.inl hk
            · exact Or.inr (List.mem_singleton.1 hk)
        rcases this with hk | rfl
        · obtain ⟨x, hx, hk⟩ := (h.keys k).1 hk
          exact ⟨x, by simp [hx], hk⟩
        · exact ⟨w, by simp, rfl⟩
      · rintro ⟨x, hx, rfl⟩
        rcases List.mem_append.1 hx with hx | hx
        · have := (h.keys (axisNames x.2)).2 ⟨x, hx, rfl⟩
          split
          · exact this
          · exact List.mem_append_left _ this
        · rw [List.mem_singleton.1 hx]
          split
          · assumption
          · simp
    · intro k q' hl
      rw [assign_lookup] at hl
      by_cases hk : k = axisNames w.2
      · subst hk
        rw [if_pos rfl] at hl
        cases hl
        rw [over_snoc, if_pos rfl, q1, q2]
        refine ⟨rfl, ?_⟩
        rw [List.flatMap_append, addDims, addDims, addDims, List.foldl_append]
        simp
      · rw [if_neg hk] at hl
        rw [over_snoc, if_neg (fun h => hk h.symm), List.append_nil]
        exact h.block k q' hl

/-! ### Parts as tables -/

/-- A column of a file: title, number of blanks after it, and texts. -/
structure FileCol where
  title : List Char
  pad : Nat
  cell : Nat → List Char

/-- The table with these columns and `N` rows. -/
def flatTable (cs : List (List Char)) (E : List FileCol) (N : Nat) : Table :=
  ⟨cs, E.map fun e => (e.title, e.pad), (List.range N).map fun k => E.map fun e => e.cell k⟩

def fileCol (t : List Char) (w : Nat) (c : Nat → List Char) : FileCol := ⟨t, max t.length w - t.length, c⟩

def dimE (st : Style β α) (d : Dim β) : FileCol :=
  fileCol (sweepTitle d) (st.coordWidth d) fun k => (d.data[k]?.map (st.coordText d)).getD []

def varE (st : Style β α) (w : String × Arr β α) (idx : List Nat) : List FileCol :=
  (elements w).flatMap fun e =>
    if st.cplx w.1 then
      [fileCol (titled ("Re(".toList ++ e.1 ++ ")".toList) (st.unit w.1)) (st.width w.1)
          fun k => st.text w.1 false (e.2 (k :: idx)),
        fileCol (titled ("Im(".toList ++ e.1 ++ ")".toList) (st.unit w.1)) (st.width w.1)
          fun k => st.text w.1 true (e.2 (k :: idx))]
    else [fileCol (titled e.1 (st.unit w.1)) (st.width w.1) fun k => st.text w.1 false (e.2 (k :: idx))]

theorem unitHeader_eq (n : List Char) (u : Option (List Char)) : unitHeader n u = titled n u := by
  unfold unitHeader titled
  split
  · simp
  · simp
  · rename_i u h
    have : u ≠ [] := fun e => h (by rw [e])
    simp [this]

theorem header_eq (c : Col) : header c =
    if c.cplx then
      [padhead (titled ("Re(".toList ++ c.name ++ ")".toList) c.unit) c.width,
        padhead (titled ("Im(".toList ++ c.name ++ ")".toList) c.unit) c.width]
    else [padhead (titled c.name c.unit) c.width] := by
  unfold header
  rw [unitHeader_eq, unitHeader_eq, unitHeader_eq]
  rfl

/-- The columns of a variable in terms of its elements. -/
theorem varCols_eq (st : Style β α) (w : String × Arr β α) (idx : List Nat)
    (hs : w.2.nd.shape = w.2.dims.map fun d => d.data.length) :
    varCols st w idx = (elements w).map fun e => ⟨e.1, st.unit w.1, st.width w.1, st.cplx w.1,
      (List.range (w.2.nd.shape.headD 0)).map fun k => formatElem st w.1 (e.2 (k :: idx))⟩ := by
  unfold varCols elements
  by_cases h : ismatrix w.2 = true
  · simp only [h, if_true, List.map_flatMap, List.map_map]
    rw [List.map_reverse, ← hs]
    rfl
  · simp only [h]
    rfl

theorem cols_header (st : Style β α) (w : String × Arr β α) (idx : List Nat)
    (hs : w.2.nd.shape = w.2.dims.map fun d => d.data.length) :
    (varCols st w idx).flatMap header = (varE st w idx).map fun e => padded (e.title, e.pad) := by
  rw [varCols_eq st w idx hs, varE, List.map_flatMap, List.flatMap_map]
  congr 1
  funext e
  rw [header_eq]
  by_cases hc : st.cplx w.1 = true <;> simp [hc, padded, padhead, fileCol]

theorem cols_cells (st : Style β α) (w : String × Arr β α) (idx : List Nat)
    (hs : w.2.nd.shape = w.2.dims.map fun d => d.data.length) (k : Nat) (hk : k < w.2.nd.shape.headD 0) :
    (varCols st w idx).flatMap (fun c => c.cells.getD k []) = (varE st w idx).map fun e => e.cell k := by
  rw [varCols_eq st w idx hs, varE, List.map_flatMap, List.flatMap_map]
  congr 1
  funext e
  simp only [List.getD_eq_getElem?_getD, List.getElem?_map, List.getElem?_range hk, Option.map_some,
    Option.getD_some, formatElem]
  by_cases hc : st.cplx w.1 = true <;> simp [hc, fileCol]

theorem min_const (l : List Nat) (n : Nat) (hne : l ≠ []) (h : ∀ x ∈ l, x = n) : l.min?.getD 0 = n := by
  have : l.min? = some n := by
    rw [List.min?_eq_some_iff]
    obtain ⟨x, t, rfl⟩ := List.exists_cons_of_ne_nil hne
    exact ⟨by rw [← h x (by simp)]; simp, fun y hy => (h y hy).ge⟩
  rw [this]; rfl

/-- The comments of a part: those of the block, and the positions in the axes. -/
def sweepComments (st : Style β α) (outer : List (Dim β)) (idx : List Nat) : List (List Char) :=
  outer.zipWith (fun e i => '@' :: (e.name.toList ++ '=' :: (e.data[i]?.map (st.coordText e)).getD [])) idx

/-- The part of the file as a table. -/
def partTable (st : Style β α) (cs : List (List Char)) (vars : List (String × Arr β α)) (d : Dim β)
    (outer : List (Dim β)) (idx : List Nat) : Table :=
  flatTable (cs.map (fun c => c.dropWhile (· = '!')) ++ sweepComments st outer idx)
    (dimE st d :: vars.flatMap fun w => varE st w idx) d.data.length

theorem subBlock_eq (st : Style β α) (cs : List (List Char)) (vars : List (String × Arr β α)) (d : Dim β)
    (outer : List (Dim β)) (idx : List Nat)
    (hs : ∀ w ∈ vars, w.2.nd.shape = w.2.dims.map fun d => d.data.length)
    (hl : ∀ w ∈ vars, w.2.nd.shape.headD 0 = d.data.length) :
    subBlock st cs vars (d :: outer) idx = (partTable st cs vars d outer idx).lines := by
  unfold subBlock formatBlock Table.lines partTable flatTable
  simp only [List.map_append, List.map_map]
  congr 1
  · congr 1
    rw [sweepComments, List.map_zipWith, List.map_zipWith]
  congr 1
  · congr 1
    rw [List.flatMap_cons, List.flatMap_assoc, List.map_cons, List.map_flatMap]
    have : header (dimCol st d) = [padded ((dimE st d).title, (dimE st d).pad)] := by
      rw [header_eq]; rfl
    rw [this, List.singleton_append]
    congr 1
    apply List.flatMap_congr
    intro w hw
    exact cols_header st w idx (hs w hw)
  · have hmin : ((((dimCol st d :: vars.flatMap fun w => varCols st w idx).map Col.cells).map List.length).min?).getD 0 =
        d.data.length := by
      apply min_const
      · simp
      · intro x hx
        simp only [List.map_cons, List.mem_cons, List.map_map, List.mem_map, List.mem_flatMap, Function.comp] at hx
        rcases hx with rfl | ⟨c, ⟨w, hw, hc⟩, rfl⟩
        · simp [dimCol]
        · rw [varCols_eq st w idx (hs w hw)] at hc
          obtain ⟨e, -, rfl⟩ := List.mem_map.1 hc
          simpa using hl w hw
    rw [zipStar, hmin, List.map_map]
    apply List.map_congr_left
    intro k hk
    rw [List.mem_range] at hk
    simp only [Function.comp, List.map_map]
    congr 1
    rw [← List.flatMap_def, List.flatMap_cons, List.flatMap_assoc, List.map_cons, List.map_flatMap]
    have : (dimCol st d).cells.getD k [] = [(dimE st d).cell k] := by
      simp [dimCol, dimE, fileCol, List.getElem?_eq_getElem hk]
    rw [Function.comp, this, List.singleton_append]
    congr 1
    apply List.flatMap_congr
    intro w hw
    exact cols_cells st w idx (hs w hw) k (by rw [hl w hw]; exact hk)

/-! ### Reading the parts -/

/-- Columns that can be read. -/
structure Readable (E : List FileCol) (N : Nat) : Prop where
  fields : ∀ e ∈ E, Field e.title
  letter : ∀ e ∈ E.head?, ∀ c ∈ e.title.head?, isLetter c = true
  cells : ∀ e ∈ E, ∀ k < N, Field (e.cell k)
  start : ∀ e ∈ E.head?, ∀ k < N, ∀ c ∈ (e.cell k).head?, isLetter c = false ∧ c ≠ '!'
  nodup : (E.map fun e => String.ofList e.title).Nodup
  elem : ∀ n ∈ E.tail.map fun e => String.ofList e.title, ∀ m i j, isMatrixName n = some (m, i, j) →
    m ∉ E.tail.map fun e => String.ofList e.title
  rep : "rep" ∉ E.map fun e => String.ofList e.title
  ne : E ≠ []
  pos : 0 < N

theorem flat_cols (cs : List (List Char)) (E : List FileCol) (N : Nat) :
    (flatTable cs E N).cols = E.map fun e => String.ofList e.title := by
  simp [Table.cols, flatTable]

theorem flat_good (cs : List (List Char)) (E : List FileCol) (N : Nat) (h : Readable E N)
    (hc : ∀ c ∈ cs, (∀ x ∈ c.getLast?, isWs x = false) ∧ ¬ marker <+: c) : Good (flatTable cs E N) := by
  have hpos := h.pos
  obtain ⟨e0, es, rfl⟩ := List.exists_cons_of_ne_nil h.ne
  refine ⟨hc, by simp [flatTable], ?_, ?_, ?_, ?_, ?_, ?_⟩
  · intro p hp
    obtain ⟨e, he, rfl⟩ := List.mem_map.1 hp
    exact h.fields e he
  · intro p hp
    simp only [flatTable, List.map_cons, List.head?_cons, Option.mem_def, Option.some.injEq] at hp
    subst hp
    exact h.letter e0 (by simp)
  · simp [flatTable]; omega
  · intro r hr
    obtain ⟨k, -, rfl⟩ := List.mem_map.1 hr
    simp
  · intro r hr f hf
    obtain ⟨k, hk, rfl⟩ := List.mem_map.1 hr
    obtain ⟨e, he, rfl⟩ := List.mem_map.1 hf
    exact h.cells e he k (List.mem_range.1 hk)
  · intro r hr f hf
    obtain ⟨k, hk, rfl⟩ := List.mem_map.1 hr
    simp only [List.map_cons, List.head?_cons, Option.mem_def, Option.some.injEq] at hf
    subst hf
    exact h.start e0 (by simp) k (List.mem_range.1 hk)

theorem flat_plain (cs : List (List Char)) (E : List FileCol) (N : Nat) (h : Readable E N) :
    Plain (flatTable cs E N) := by
  have hnd := h.nodup
  have hel := h.elem
  have hr := h.rep
  rw [← flat_cols cs E N] at hnd hr
  rw [List.map_tail, ← flat_cols cs E N] at hel
  refine ⟨?_, hel, hr⟩
  intro n hn
  cases hc : (flatTable cs E N).cols with
  | nil => simp
  | cons x t =>
    rw [hc] at hn hnd
    simp at hn
    subst hn
    exact (List.nodup_cons.1 hnd).1

theorem flat_even (cs : List (List Char)) (E : List FileCol) (N : Nat) : Even (flatTable cs E N) := by
  intro r hr
  obtain ⟨k, -, rfl⟩ := List.mem_map.1 hr
  simp [flatTable]

theorem positions_one (b : Table) (hn : b.cols.Nodup) (j : Nat) (n : String) (hj : b.cols[j]? = some n) :
    b.positions b.names.length n = [j] := by
  have hlen : b.cols.length = b.names.length := by simp [Table.cols]
  have hjl : j < b.names.length := by
    rw [← hlen]; exact (List.getElem?_eq_some_iff.1 hj).1
  apply List.perm_singleton.1
  rw [List.perm_ext_iff_of_nodup]
  · intro x
    simp only [Table.positions, List.mem_filter, List.mem_range, decide_eq_true_eq, List.mem_singleton]
    constructor
    · rintro ⟨hx, h⟩
      obtain ⟨h1, h2⟩ := List.getElem?_eq_some_iff.1 h
      obtain ⟨h3, h4⟩ := List.getElem?_eq_some_iff.1 hj
      exact (List.Nodup.getElem_inj_iff hn).1 (h2.trans h4.symm)
    · rintro rfl; exact ⟨hjl, hj⟩
  · exact List.nodup_range.filter _
  · simp

theorem eraseDups_nodup {l : List String} (h : l.Nodup) : l.eraseDups = l := by
  induction l with
  | nil => rfl
  | cons a t ih =>
    rw [List.nodup_cons] at h
    rw [List.eraseDups_cons, List.filter_eq_self.2, ih h.2]
    intro x hx
    have : x ≠ a := fun e => h.1 (e ▸ hx)
    simpa using this

/-- What is read: one variable for each column after the first. -/
theorem flat_read (env : Env β α) (num : Nat → β) (ofRat : ℚ → β) (conv : List Char → α)
    (cs : List (List Char)) (e0 : FileCol) (es : List FileCol) (N : Nat) (h : Readable (e0 :: es) N)
    (p : Parsed β α) (hb : IsBlock env num ofRat conv (flatTable cs (e0 :: es) N) (flatTable cs (e0 :: es) N).names.length p)
    (xs : List β) (hx : xs = (List.range N).map fun k => env.toCoord (conv (e0.cell k)))
    (f : String) (hf : f = String.ofList e0.title) :
    HF.DataBlock.keys p.block.vars = es.map (fun e => String.ofList e.title) ∧
    (lookup (Comments.properties cs) (String.ofList ('@' :: e0.title)) = none →
      lookup p.block.ivars f = some ⟨.dimSweep, f, xs, none, none⟩) ∧
    (∀ e ∈ es, ∃ a, lookup p.block.vars (String.ofList e.title) = some a ∧ a.dims = [⟨.dimSweep, f, xs, none, none⟩] ∧
      a.nd.shape = [N] ∧ ∀ k < N, a.nd.get [k] = conv (e.cell k)) ∧
    ∀ n ∈ HF.DataBlock.keys p.block.ivars, n = f ∨
      (lookup (Comments.properties cs) (String.ofList ('@' :: n.toList))).isSome := by
  have hcols := flat_cols cs (e0 :: es) N
  have hlen : (flatTable cs (e0 :: es) N).names.length = (flatTable cs (e0 :: es) N).cols.length := by
    simp [Table.cols]
  have htake : (flatTable cs (e0 :: es) N).cols.take (flatTable cs (e0 :: es) N).names.length =
      (flatTable cs (e0 :: es) N).cols := by rw [hlen, List.take_length]
  have hnd : (flatTable cs (e0 :: es) N).cols.Nodup := by rw [hcols]; exact h.nodup
  have hhead : (flatTable cs (e0 :: es) N).cols.head? = some f := by rw [hcols, hf]; rfl
  have htail : (flatTable cs (e0 :: es) N).cols.tail = es.map (fun e => String.ofList e.title) := by rw [hcols]; rfl
  have hsweep : (flatTable cs (e0 :: es) N).sweep env conv f = ⟨.dimSweep, f, xs, none, none⟩ := by
    rw [hx]
    simp only [Table.sweep, Table.values, flatTable, List.map_map]
    rfl
  have hone : ∀ n ∈ (flatTable cs (e0 :: es) N).cols, ∃ j,
      (flatTable cs (e0 :: es) N).cols[j]? = some n ∧
      (flatTable cs (e0 :: es) N).positions (flatTable cs (e0 :: es) N).names.length n = [j] := by
    intro n hn
    obtain ⟨j, hj⟩ := List.getElem?_of_mem hn
    exact ⟨j, hj, positions_one _ hnd j n hj⟩
  refine ⟨?_, ?_, ?_, ?_⟩
  · rw [hb.vars, htake, htail]
    have : (es.map fun e => String.ofList e.title).Nodup := (List.nodup_cons.1 h.nodup).2
    exact eraseDups_nodup this
  · intro hl
    rw [hb.sweep f hhead (by rw [hf]; simpa [Table.props, flatTable] using hl), hsweep]
  · intro e he
    obtain ⟨j, hj, hp⟩ := hone (String.ofList e.title) (by
      rw [hcols]; exact List.mem_map.2 ⟨e, List.mem_cons_of_mem _ he, rfl⟩)
    obtain ⟨a, h1, h2⟩ := hb.var f (String.ofList e.title) hhead (by
      rw [htake, htail]; exact List.mem_map.2 ⟨e, he, rfl⟩) (by rw [hp]; simp)
    obtain ⟨h3, h4, h5⟩ := h2.one j hp
    refine ⟨a, h1, by rw [h3, hsweep], by rw [h4]; simp [Table.values, flatTable], ?_⟩
    intro k hk
    rw [hcols, List.getElem?_map, Option.map_eq_some_iff] at hj
    obtain ⟨e', hj, ht⟩ := hj
    have : e' = e := by
      have hi := List.inj_on_of_nodup_map h.nodup
      exact hi (List.mem_of_getElem? hj) (List.mem_cons_of_mem _ he) ht
    subst this
    refine h5 k ((e0 :: es).map fun e => conv (e.cell k)) _ ?_ ?_
    · simp [Table.values, flatTable, List.getElem?_range hk]
    · rw [List.getElem?_map, hj]; rfl
  · intro n hn
    rcases hb.dims n hn with h1 | ⟨-, v, hv, h1⟩ | h1
    · rw [hhead] at h1; simp at h1; exact Or.inl h1.symm
    · rw [htake] at hv
      obtain ⟨j, -, hp⟩ := hone v (List.mem_of_mem_tail hv)
      rw [hp] at h1; simp at h1
    · exact Or.inr h1

/-! ### Comments of the parts -/

theorem add_sweep (m : OMap String Comments.PVal) (n t : List Char) (hn : Comments.Name n) (hb : '[' ∉ n)
    (ht : t ≠ []) (hs : Comments.Trim t) :
    Comments.add m ('@' :: (n ++ '=' :: t)) = assign m (String.ofList ('@' :: n)) (Comments.value none t) := by
  have hlast : ('@' :: (n ++ '=' :: t)).getLast? = t.getLast? := by
    obtain ⟨x, r, rfl⟩ := List.exists_cons_of_ne_nil ht
    rw [show '@' :: (n ++ '=' :: x :: r) = ('@' :: (n ++ ['='])) ++ (x :: r) by simp, List.getLast?_append,
      List.getLast?_eq_some_getLast (List.cons_ne_nil x r)]
    rfl
  have hclean : Comments.clean ('@' :: (n ++ '=' :: t)) = '@' :: (n ++ '=' :: t) := by
    unfold Comments.clean
    rw [List.dropWhile_cons, if_neg (by decide)]
    apply Text.strip_id
    · simp; decide
    · rw [hlast]; exact hs.last
  have hname : Comments.Name ('@' :: n) := by
    refine ⟨⟨by simp; decide, ?_⟩, ?_, ?_⟩
    · intro c hc
      cases n with
      | nil => simp at hc; subst hc; decide
      | cons x r =>
        rw [List.getLast?_cons_cons] at hc
        exact hn.last c hc
    · intro h; rcases List.mem_cons.1 h with h | h
      · exact absurd h (by decide)
      · exact hn.sep.1 h
    · intro h; rcases List.mem_cons.1 h with h | h
      · exact absurd h (by decide)
      · exact hn.sep.2 h
  have hparse := Comments.C53_plain ('@' :: n) [] [] t '=' hname (by
    intro h; rcases List.mem_cons.1 h with h | h
    · exact absurd h (by decide)
    · exact hb h) (by intro c hc; simp at hc) (by intro c hc; simp at hc) (Or.inr rfl) ht hs
  simp only [List.append_nil, List.nil_append, List.cons_append] at hparse
  unfold Comments.add
  rw [hclean]
  simp only [hparse]

/-- The properties in the comments of a part. -/
theorem sweeps_props (st : Style β α) : ∀ (outer : List (Dim β)) (idx : List Nat) (cs : List (List Char)),
    List.Forall₂ (fun (e : Dim β) i => i < e.data.length) outer idx →
    (∀ e ∈ outer, Comments.Name e.name.toList ∧ '[' ∉ e.name.toList) →
    (∀ e ∈ outer, ∀ x ∈ e.data, st.coordText e x ≠ [] ∧ Comments.Trim (st.coordText e x)) →
    Comments.properties (cs ++ sweepComments st outer idx) = assigns (Comments.properties cs)
      (outer.zipWith (fun e i => (String.ofList ('@' :: e.name.toList),
        Comments.value none ((e.data[i]?.map (st.coordText e)).getD []))) idx)
  | [], _, cs, _, _, _ => by simp [sweepComments, assigns]
  | e :: outer, [], cs, h, _, _ => by cases h
  | e :: outer, i :: idx, cs, h, hn, ht => by
    cases h with
    | cons hi h =>
      have ih := sweeps_props st outer idx (cs ++ ['@' :: (e.name.toList ++ '=' ::
        (e.data[i]?.map (st.coordText e)).getD [])]) h (fun e he => hn e (by simp [he])) (fun e he => ht e (by simp [he]))
      have h1 := ht e (by simp) _ (List.getElem_mem hi)
      have hx : (e.data[i]?.map (st.coordText e)).getD [] = st.coordText e e.data[i] := by
        rw [List.getElem?_eq_getElem hi]; rfl
      have hadd := add_sweep (Comments.properties cs) e.name.toList (st.coordText e e.data[i]) (hn e (by simp)).1
        (hn e (by simp)).2 h1.1 h1.2
      have e1 : sweepComments st (e :: outer) (i :: idx) = ('@' :: (e.name.toList ++ '=' ::
        (e.data[i]?.map (st.coordText e)).getD [])) :: sweepComments st outer idx := rfl
      have e2 : Comments.properties (cs ++ ['@' :: (e.name.toList ++ '=' ::
        (e.data[i]?.map (st.coordText e)).getD [])]) = assign (Comments.properties cs)
          (String.ofList ('@' :: e.name.toList)) (Comments.value none (st.coordText e e.data[i])) := by
        rw [Comments.properties, List.foldl_append, hx]
        exact hadd
      rw [e1, List.append_cons, ih, e2, List.zipWith_cons_cons]
      simp only [hx]
      rfl

end HF.Sp
