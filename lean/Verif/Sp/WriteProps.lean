import Verif.Sp.WriteLemmas
/-
C56: a block saved as an SP data file is read back.
-/
namespace HF.Sp

open HF.DataDict.Spec HF.DataBlock
open HF.DataDict hiding rename delitem
open Units (isWs strip)
open Text (join)

variable {β α : Type}

theorem axesOf_prefix (a : Arr β α) : axesOf a <+: a.dims := by
  unfold axesOf
  split
  · exact (List.dropLast_prefix _).trans (List.dropLast_prefix _)
  · exact List.prefix_refl _

theorem axisNames_eq (a : Arr β α) : axisNames a = (axesOf a).map Dim.name := by
  unfold axisNames axesOf
  split
  · rw [← List.map_take, List.dropLast_eq_take, List.dropLast_eq_take, List.take_take]
    simp only [List.length_take, List.length_map]
    congr 2
    omega
  · rfl

theorem varE_titles (st : Style β α) (re im : α → α) (w : String × Arr β α) (idx : List Nat) :
    (varE st w idx).map FileCol.title = (entries st re im w).map Prod.fst := by
  unfold varE entries
  rw [List.map_flatMap, List.map_flatMap]
  congr 1
  funext e
  split <;> rfl

theorem varE_cells (st : Style β α) (re im : α → α) (conv : List Char → α) (w : String × Arr β α) (idx : List Nat)
    (hc : ∀ v, if st.cplx w.1 then conv (st.text w.1 false v) = re v ∧ conv (st.text w.1 true v) = im v
      else conv (st.text w.1 false v) = v) (e : List Char × (List Nat → α)) (he : e ∈ entries st re im w) :
    ∃ c ∈ varE st w idx, c.title = e.1 ∧ ∀ k, conv (c.cell k) = e.2 (k :: idx) := by
  unfold entries at he
  obtain ⟨x, hx, he⟩ := List.mem_flatMap.1 he
  unfold varE
  by_cases h : st.cplx w.1 = true
  · simp only [h, if_true] at he hc
    simp only [h, if_true, List.mem_flatMap]
    rcases List.mem_cons.1 he with rfl | he
    · exact ⟨_, ⟨x, hx, List.mem_cons_self⟩, rfl, fun k => (hc _).1⟩
    · rw [List.mem_singleton] at he
      subst he
      exact ⟨_, ⟨x, hx, List.mem_cons_of_mem _ (List.mem_singleton.2 rfl)⟩, rfl, fun k => (hc _).2⟩
  · simp only [h] at he hc
    simp only [h, List.mem_flatMap]
    simp only [Bool.false_eq_true, if_false, List.mem_singleton] at he hc ⊢
    subst he
    exact ⟨_, ⟨x, hx, rfl⟩, rfl, fun k => hc _⟩

theorem varE_field (st : Style β α) (w : String × Arr β α) (idx : List Nat)
    (hc : ∀ v i, Field (st.text w.1 i v)) (c : FileCol) (hm : c ∈ varE st w idx) (k : Nat) : Field (c.cell k) := by
  unfold varE at hm
  obtain ⟨x, hx, hm⟩ := List.mem_flatMap.1 hm
  by_cases h : st.cplx w.1 = true
  · simp only [h, if_true, List.mem_cons, List.not_mem_nil, or_false] at hm
    rcases hm with rfl | rfl <;> exact hc _ _
  · simp only [h] at hm
    simp only [Bool.false_eq_true, if_false, List.mem_singleton] at hm
    subst hm
    exact hc _ _

section
variable {env : Env β α} {ofRat : ℚ → β} {conv : List Char → α} {st : Style β α} {re im : α → α}
  {comments : List (List Char)} {b : Block β α}

/-- Arrays with axes of the same names have the same axes. -/
theorem Writable.same (h : Writable env ofRat conv st re im comments b) {w w' : String × Arr β α} (hw : w ∈ b.vars)
    (hw' : w' ∈ b.vars) (he : (axesOf w.2).map Dim.name = (axesOf w'.2).map Dim.name) : axesOf w.2 = axesOf w'.2 := by
  have key : ∀ x ∈ b.vars, (axesOf x.2).map some = ((axesOf x.2).map Dim.name).map fun n => lookup b.ivars n := by
    intro x hx
    rw [List.map_map]
    apply List.map_congr_left
    intro d hd
    exact (h.known x hx d ((axesOf_prefix x.2).subset hd)).symm
  have : (axesOf w.2).map some = (axesOf w'.2).map some := by rw [key w hw, key w' hw', he]
  exact List.map_injective_iff.2 (Option.some_injective _) this

theorem mem_varsOver (D : List (Dim β)) (w : String × Arr β α) :
    w ∈ varsOver b D ↔ w ∈ b.vars ∧ (axesOf w.2).map Dim.name = D.map Dim.name := by
  simp [varsOver]

/-- One part of the file: the table can be read and holds what it should. -/
theorem part_ok (num : Nat → β) (h : Writable env ofRat conv st re im comments b) (w0 : String × Arr β α) (hw0 : w0 ∈ b.vars) (d : Dim β)
    (outer : List (Dim β)) (hD : axesOf w0.2 = d :: outer) (idx : List Nat)
    (hidx : List.Forall₂ (fun (e : Dim β) i => i < e.data.length) outer idx)
    (cs : List (List Char)) (hcs : cs = comments ∨ cs = []) :
    Good (partTable st cs (varsOver b (d :: outer)) d outer idx) ∧
    Plain (partTable st cs (varsOver b (d :: outer)) d outer idx) ∧
    Even (partTable st cs (varsOver b (d :: outer)) d outer idx) ∧
    Swept (partTable st cs (varsOver b (d :: outer)) d outer idx) ∧
    ∀ p, IsBlock env num ofRat conv (partTable st cs (varsOver b (d :: outer)) d outer idx)
        (partTable st cs (varsOver b (d :: outer)) d outer idx).names.length p →
      Restored st re im b (d :: outer) idx p ∧ p.comments = cs ∧
        (∀ n, lookup p.property n = lookup (Comments.properties cs) n) ∧ (HF.DataBlock.keys p.property).Nodup := by
  have hhead : d ∈ (axesOf w0.2).head? := by rw [hD]; rfl
  obtain ⟨t1, t2, t3, t4, t5⟩ := h.titled w0 hw0 d hhead
  have hcoord := h.coord w0 hw0 d hhead
  have hout : ∀ e ∈ outer, e ∈ (axesOf w0.2).tail := by rw [hD]; exact fun e he => he
  have hpts : 0 < d.data.length := List.length_pos_of_ne_nil (h.points w0 hw0 d ((axesOf_prefix w0.2).subset (by rw [hD]; simp)))
  rw [hD] at t4 t5
  have htitles : (((varsOver b (d :: outer)).flatMap fun w => varE st w idx).map fun e => String.ofList e.title) =
      titles st re im b (d :: outer) := by
    rw [titles, List.map_flatMap]
    congr 1
    funext w
    have := varE_titles st re im w idx
    have h2 := congrArg (List.map String.ofList) this
    rw [List.map_map, List.map_map] at h2
    exact h2
  have hvars : ∀ w ∈ varsOver b (d :: outer), w ∈ b.vars := fun w hw => ((mem_varsOver _ _).1 hw).1
  have hcell0 : ∀ k < d.data.length, ∃ x ∈ d.data, d.data[k]? = some x ∧ (dimE st d).cell k = st.coordText d x := by
    intro k hk
    exact ⟨d.data[k], List.getElem_mem hk, List.getElem?_eq_getElem hk, by
      simp [dimE, fileCol, List.getElem?_eq_getElem hk]⟩
  have hR : Readable (dimE st d :: (varsOver b (d :: outer)).flatMap fun w => varE st w idx) d.data.length := by
    refine ⟨?_, ?_, ?_, ?_, ?_, ?_, ?_, by simp, hpts⟩
    · intro e he
      rcases List.mem_cons.1 he with rfl | he
      · exact t1
      · obtain ⟨w, hw, he⟩ := List.mem_flatMap.1 he
        have : e.title ∈ (entries st re im w).map Prod.fst := by
          rw [← varE_titles st re im w idx]; exact List.mem_map_of_mem he
        obtain ⟨x, hx, hx'⟩ := List.mem_map.1 this
        rw [← hx']
        exact h.title w (hvars w hw) x hx
    · intro e he
      simp at he
      subst he
      exact t2
    · intro e he k hk
      rcases List.mem_cons.1 he with rfl | he
      · obtain ⟨x, hx, -, hc⟩ := hcell0 k hk
        rw [hc]; exact (hcoord x hx).1
      · obtain ⟨w, hw, he⟩ := List.mem_flatMap.1 he
        exact varE_field st w idx (fun v i => (h.cell w (hvars w hw) v).1 i) e he k
    · intro e he k hk
      simp at he
      subst he
      obtain ⟨x, hx, -, hc⟩ := hcell0 k hk
      rw [hc]; exact (hcoord x hx).2.1
    · rw [List.map_cons, htitles, List.nodup_cons]
      refine ⟨t4, ?_⟩
      rw [← hD]; exact h.differ w0 hw0
    · intro n hn m i j hm
      rw [List.tail_cons, htitles, ← hD] at hn ⊢
      exact (h.elem w0 hw0 n hn).2 m i j hm
    · rw [List.map_cons, htitles, List.mem_cons]
      rintro (hr | hr)
      · exact t3 hr.symm
      · rw [← hD] at hr
        exact (h.elem w0 hw0 _ hr).1 rfl
  have hstrip : cs.map (fun c => c.dropWhile (· = '!')) = cs := by
    conv_rhs => rw [← List.map_id cs]
    apply List.map_congr_left
    intro c hc
    rcases hcs with rfl | rfl
    · have := (h.comment c hc).2.2.2
      cases c with
      | nil => rfl
      | cons x t => simp at this; simp [this]
    · simp at hc
  have hprops := sweeps_props st outer idx cs hidx (fun e he => h.outerName w0 hw0 e (hout e he))
    (fun e he x hx => ⟨(h.outer w0 hw0 e (hout e he) x hx).1, (h.outer w0 hw0 e (hout e he) x hx).2.1⟩)
  have hnoat : ∀ n ∈ HF.DataBlock.keys (Comments.properties cs), n.toList.head? ≠ some '@' := by
    rcases hcs with rfl | rfl
    · exact h.property
    · intro n hn; simp [Comments.properties, HF.DataBlock.keys] at hn
  -- the properties of one axis
  have hsw : ∀ q ∈ outer.zipWith (fun (e : Dim β) i => (String.ofList ('@' :: e.name.toList),
        Comments.value none ((e.data[i]?.map (st.coordText e)).getD []))) idx,
      ∃ e ∈ outer, ∃ r, q = (String.ofList ('@' :: e.name.toList), .arr r none) := by
    intro q hq
    rw [← List.map_uncurry_zip_eq_zipWith] at hq
    obtain ⟨⟨e, i⟩, hm, rfl⟩ := List.mem_map.1 hq
    have hi : i < e.data.length := by
      have := List.forall₂_iff_zip.1 hidx
      exact this.2 hm
    obtain ⟨-, -, r, hr, -⟩ := h.outer w0 hw0 e (hout e (List.of_mem_zip hm).1) _ (List.getElem_mem hi)
    refine ⟨e, (List.of_mem_zip hm).1, r, ?_⟩
    simp only [Function.uncurry, List.getElem?_eq_getElem hi, Option.map_some, Option.getD_some, hr]
  have hnd : (outer.map Dim.name).Nodup := by
    have := h.distinct w0 hw0
    have hp := (axesOf_prefix w0.2).map Dim.name
    have := this.sublist hp.sublist
    rw [hD] at this
    exact (List.nodup_cons.1 this).2
  have hnd' : (HF.DataBlock.keys (outer.zipWith (fun (e : Dim β) i => (String.ofList ('@' :: e.name.toList),
        Comments.value none ((e.data[i]?.map (st.coordText e)).getD []))) idx)).Nodup := by
    have e1 : HF.DataBlock.keys (outer.zipWith (fun (e : Dim β) i => (String.ofList ('@' :: e.name.toList),
        Comments.value none ((e.data[i]?.map (st.coordText e)).getD []))) idx) =
        (outer.map Dim.name).map fun n => String.ofList ('@' :: n.toList) := by
      clear * - hidx
      induction hidx with
      | nil => rfl
      | cons _ _ ih => simp only [HF.DataBlock.keys] at *; simp only [List.zipWith_cons_cons, List.map_cons, ih]
    rw [e1]
    refine hnd.map ?_
    intro x y hxy
    have := congrArg String.toList hxy
    simp at this
    exact String.toList_inj.1 this
  have hlook : ∀ (k : Nat) (e : Dim β) i, outer[k]? = some e → idx[k]? = some i →
      lookup (Comments.properties (cs ++ sweepComments st outer idx)) (String.ofList ('@' :: e.name.toList)) =
        some (Comments.value none ((e.data[i]?.map (st.coordText e)).getD [])) := by
    intro k e i he hi
    rw [hprops, lookup_assigns]
    have hm : (String.ofList ('@' :: e.name.toList), Comments.value none ((e.data[i]?.map (st.coordText e)).getD [])) ∈
        outer.zipWith (fun (e : Dim β) i => (String.ofList ('@' :: e.name.toList),
          Comments.value none ((e.data[i]?.map (st.coordText e)).getD []))) idx := by
      apply List.mem_of_getElem? (i := k)
      rw [List.getElem?_zipWith, he, hi]
    rw [mem_lookup (by show (List.map Prod.fst _).Nodup; rw [List.map_reverse]; exact List.nodup_reverse.2 hnd') (List.mem_reverse.2 hm)]
    rfl
  have hkeys : ∀ n, lookup (Comments.properties (cs ++ sweepComments st outer idx)) (String.ofList ('@' :: n.toList)) ≠ none →
      ∃ e ∈ outer, n = e.name := by
    intro n hn
    rw [hprops, lookup_assigns] at hn
    by_cases h1 : lookup (Comments.properties cs) (String.ofList ('@' :: n.toList)) = none
    · rw [h1, Option.or_none] at hn
      have hk := (lookup_isSome_iff _ _).1 (Option.isSome_iff_ne_none.2 hn)
      rw [HF.DataBlock.keys, List.map_reverse, List.mem_reverse] at hk
      obtain ⟨q, hq, hk⟩ := List.mem_map.1 hk
      obtain ⟨e, he, r, rfl⟩ := hsw q hq
      refine ⟨e, he, ?_⟩
      have := congrArg String.toList hk
      simp at this
      exact (String.toList_inj.1 this).symm
    · have hk := (lookup_isSome_iff _ _).1 (Option.isSome_iff_ne_none.2 h1)
      exact absurd (by simp) (hnoat _ hk)
  have hcom : (partTable st cs (varsOver b (d :: outer)) d outer idx).comments = cs ++ sweepComments st outer idx := by
    simp only [partTable, flatTable, hstrip]
  refine ⟨?_, flat_plain _ _ _ hR, flat_even _ _ _, ?_, ?_⟩
  · apply flat_good _ _ _ hR
    rw [hstrip]
    intro c hc
    rcases List.mem_append.1 hc with hc | hc
    · rcases hcs with rfl | rfl
      · exact ⟨(h.comment c hc).1, (h.comment c hc).2.1⟩
      · simp at hc
    · rw [sweepComments, ← List.map_uncurry_zip_eq_zipWith] at hc
      obtain ⟨⟨e, i⟩, hm, rfl⟩ := List.mem_map.1 hc
      have hi : i < e.data.length := (List.forall₂_iff_zip.1 hidx).2 hm
      obtain ⟨o1, o2, -⟩ := h.outer w0 hw0 e (hout e (List.of_mem_zip hm).1) _ (List.getElem_mem hi)
      simp only [Function.uncurry, List.getElem?_eq_getElem hi, Option.map_some, Option.getD_some]
      constructor
      · have : ('@' :: (e.name.toList ++ '=' :: st.coordText e e.data[i])).getLast? = (st.coordText e e.data[i]).getLast? := by
          rw [show '@' :: (e.name.toList ++ '=' :: st.coordText e e.data[i]) =
            ('@' :: (e.name.toList ++ ['='])) ++ st.coordText e e.data[i] by simp, List.getLast?_append,
            List.getLast?_eq_some_getLast o1]
          rfl
        rw [this]
        exact o2.last
      · rintro ⟨r, hr⟩
        simp [marker] at hr
  · intro n x hx hn
    rw [Table.props, hcom, hprops] at hx
    have : ∀ (l : List (String × Comments.PVal)) (m : OMap String Comments.PVal), (n, Comments.PVal.other x) ∈ assigns m l →
        (n, Comments.PVal.other x) ∈ m ∨ (n, Comments.PVal.other x) ∈ l := by
      intro l
      induction l with
      | nil => intro m hm; exact Or.inl hm
      | cons w l ih =>
        intro m hm
        rcases ih (assign m w.1 w.2) hm with hm | hm
        · rcases mem_assign hm with hm | hm
          · exact Or.inl hm
          · exact Or.inr (by rw [hm]; simp)
        · exact Or.inr (by simp [hm])
    rcases this _ _ hx with hx | hx
    · exact hnoat n (List.mem_map_of_mem hx) hn
    · obtain ⟨e, -, r, he⟩ := hsw _ hx
      simp at he
  · intro p hp
    obtain ⟨f1, f2, f3, f4⟩ := flat_read env num ofRat conv _ _ _ _ hR p hp d.data (by
      apply List.ext_getElem?
      intro k
      by_cases hk : k < d.data.length
      · obtain ⟨x, hx, h1, h2⟩ := hcell0 k hk
        rw [List.getElem?_map, List.getElem?_range hk, h1]
        simp only [Option.map_some, h2]
        rw [(hcoord x hx).2.2]
      · rw [List.getElem?_eq_none (by omega), List.getElem?_eq_none (by simpa using hk)])
      (String.ofList (sweepTitle d)) rfl
    rw [hstrip] at f2 f4
    refine ⟨⟨?_, ?_, ?_, ?_, hp.nodup, ?_⟩, ?_, ?_⟩
    · rw [f1, htitles]
    · rintro d' outer' ⟨⟩
      apply f2
      by_contra hc
      have hc' : lookup (Comments.properties (cs ++ sweepComments st outer idx))
        (String.ofList ('@' :: (String.ofList (sweepTitle d)).toList)) ≠ none := by
        rw [String.toList_ofList]; exact hc
      obtain ⟨e, he, h1⟩ := hkeys _ hc'
      exact t5 e he h1
    · rintro d' outer' ⟨⟩ w hw e he
      obtain ⟨c, hc, h1, h2⟩ := varE_cells st re im conv w idx (fun v => (h.cell w (hvars w hw) v).2) e he
      obtain ⟨a, a1, a2, a3, a4⟩ := f3 c (List.mem_flatMap.2 ⟨w, hw, hc⟩)
      refine ⟨a, by rw [← h1]; exact a1, a2, a3, fun k hk => ?_⟩
      rw [a4 k hk, h2]
    · intro k e i x he hi hx
      rw [List.tail_cons] at he
      have hl := hlook k e i he hi
      rw [hx] at hl
      obtain ⟨-, -, r, hr, hr'⟩ := h.outer w0 hw0 e (hout e (List.mem_of_getElem? he)) x (List.mem_of_getElem? hx)
      simp only [Option.map_some, Option.getD_some, hr] at hl
      have := hp.partials e.name r none (by
        rw [Table.props, hcom]; exact hl)
      rw [this, hr']
      rfl
    · intro n hn
      rcases f4 n hn with h1 | h1
      · exact Or.inl ⟨d, rfl, h1⟩
      · obtain ⟨e, he, h2⟩ := hkeys n (Option.isSome_iff_ne_none.1 h1)
        exact Or.inr ⟨e, he, h2⟩
    · rw [hp.comments, hcom]
      rw [List.filter_append, List.filter_eq_self.2, List.filter_eq_nil_iff.2, List.append_nil]
      · intro c hc
        rw [sweepComments, ← List.map_uncurry_zip_eq_zipWith] at hc
        obtain ⟨⟨e, i⟩, hm, rfl⟩ := List.mem_map.1 hc
        simp [Function.uncurry]
      · intro c hc
        rcases hcs with rfl | rfl
        · simpa using (h.comment c hc).2.2.1
        · simp at hc
    · refine ⟨?_, hp.properties⟩
      intro n
      rw [hp.property, Table.props, hcom, hprops, lookup_assigns]
      by_cases hn : n.toList.head? = some '@'
      · rw [if_pos hn]
        exact ((lookup_none_iff' _ _).2 fun hc => hnoat n hc hn).symm
      · rw [if_neg hn]
        have : lookup (outer.zipWith (fun (e : Dim β) i => (String.ofList ('@' :: e.name.toList),
            Comments.value none ((e.data[i]?.map (st.coordText e)).getD []))) idx).reverse n = none := by
          rw [lookup_none_iff', HF.DataBlock.keys, List.map_reverse, List.mem_reverse]
          intro hc
          obtain ⟨q, hq, rfl⟩ := List.mem_map.1 hc
          obtain ⟨e, -, r, rfl⟩ := hsw q hq
          exact hn (by simp)
        rw [this, Option.none_or]

/-! ### All parts -/

/-- The lines that count. -/
def nz (ls : List (List Char)) : List (List Char) := (ls.map strip).filter fun l => !Noise l

theorem nz_append (a b : List (List Char)) : nz (a ++ b) = nz a ++ nz b := by simp [nz]

theorem nz_spaced (first : Bool) (ps : List (List (List Char))) : nz (spaced first ps) = nz ps.flatten := by
  induction ps generalizing first with
  | nil => rfl
  | cons p ps ih =>
    rw [spaced, nz_append, nz_append, ih, List.flatten_cons, nz_append]
    have : nz (if first = true then [] else [[]]) = [] := by
      cases first <;> decide
    rw [this, List.nil_append]

theorem mem_combos (ns idx : List Nat) : idx ∈ combos ns ↔ List.Forall₂ (fun n i => i < n) ns idx := by
  induction ns generalizing idx with
  | nil =>
    rw [combos, List.mem_singleton]
    constructor
    · rintro rfl; exact .nil
    · intro h; cases h; rfl
  | cons n ns ih =>
    rw [combos, List.mem_flatMap]
    constructor
    · rintro ⟨i, hi, h⟩
      obtain ⟨t, ht, rfl⟩ := List.mem_map.1 h
      exact .cons (List.mem_range.1 hi) ((ih t).1 ht)
    · intro h
      cases h with
      | cons h1 h2 => exact ⟨_, List.mem_range.2 h1, List.mem_map.2 ⟨_, (ih _).2 h2, rfl⟩⟩

theorem combos_nodup (ns : List Nat) : (combos ns).Nodup := by
  induction ns with
  | nil => simp [combos]
  | cons n ns ih =>
    rw [combos, List.nodup_flatMap]
    refine ⟨fun i _ => ih.map fun _ _ h => (List.cons.inj h).2, ?_⟩
    refine List.Nodup.pairwise_of_forall_ne List.nodup_range ?_
    intro i _ j _ hij
    rw [Function.onFun, List.disjoint_left]
    rintro x hx hy
    obtain ⟨s, -, rfl⟩ := List.mem_map.1 hx
    obtain ⟨t, -, ht⟩ := List.mem_map.1 hy
    exact hij (List.cons.inj ht).1.symm

theorem combos_ne (ns : List Nat) (h : ∀ n ∈ ns, n ≠ 0) : combos ns ≠ [] := by
  intro hc
  have : List.replicate ns.length 0 ∈ combos ns := by
    rw [mem_combos]
    clear hc
    induction ns with
    | nil => exact .nil
    | cons n ns ih => exact .cons (Nat.pos_of_ne_zero (h n (by simp))) (ih fun n hn => h n (by simp [hn]))
  rw [hc] at this
  simp at this

theorem mapIdx_const {X Y : Type} (g : X → Y) (l : List X) : l.mapIdx (fun _ x => g x) = l.map g := by
  apply List.ext_getElem?
  intro i
  simp

/-- Positions of the parts with given axes. -/
def spotsOf (D : List (Dim β)) : List (List (Dim β) × List Nat) :=
  (combos (D.tail.map fun d => d.data.length)).map fun idx => (D, idx)

/-- The group of variables with the axes `D`. -/
structure IsGroup (b : Block β α) (q : Block β α) (D : List (Dim β)) : Prop where
  ex : ∃ w ∈ b.vars, axesOf w.2 = D
  vars : q.vars = varsOver b D
  ivars : ∀ e ∈ D, lookup q.ivars e.name = some e

theorem axes_ok (q : Block β α) (D : List (Dim β)) (h : ∀ e ∈ D, lookup q.ivars e.name = some e) :
    HF.Sp.axes q (D.map Dim.name) = .ok D := by
  induction D with
  | nil => rfl
  | cons d D ih =>
    rw [List.map_cons, HF.Sp.axes, h d (by simp)]
    simp only [ih fun e he => h e (by simp [he])]

/-- The table of a part. -/
def tab (st : Style β α) (b : Block β α) (s : (List (Dim β) × List Nat) × List (List Char)) : Table :=
  match s.1.1 with
  | [] => ⟨[], [], []⟩
  | d :: outer => partTable st s.2 (varsOver b (d :: outer)) d outer s.1.2

/-- Only the first part has comments. -/
def firstHas {X : Type} (cs : List (List Char)) : List X → List (X × List (List Char))
  | [] => []
  | x :: xs => (x, cs) :: xs.map fun y => (y, [])

theorem group_lines (h : Writable env ofRat conv st re im comments b) (q : Block β α) (D : List (Dim β))
    (hg : IsGroup b q D) (cs : List (List Char)) :
    subBlocks st cs q = .ok ((firstHas cs (spotsOf D)).map fun s => (tab st b s).lines) ∧ spotsOf D ≠ [] := by
  obtain ⟨w0, hw0, hD⟩ := hg.ex
  have hne := h.axes w0 hw0
  rw [hD] at hne
  obtain ⟨d, outer, rfl⟩ := List.exists_cons_of_ne_nil hne
  have hmem : w0 ∈ q.vars := by rw [hg.vars, mem_varsOver]; exact ⟨hw0, by rw [hD]⟩
  obtain ⟨w, ws, hws⟩ : ∃ w ws, q.vars = w :: ws := by
    cases hq : q.vars with
    | nil => rw [hq] at hmem; simp at hmem
    | cons w ws => exact ⟨w, ws, rfl⟩
  have hw : w ∈ varsOver b (d :: outer) := by rw [← hg.vars, hws]; simp
  have hax : axisNames w.2 = (d :: outer).map Dim.name := by
    rw [axisNames_eq]; exact ((mem_varsOver _ _).1 hw).2
  have hpts : ∀ n ∈ outer.map (fun d => d.data.length), n ≠ 0 := by
    intro n hn
    obtain ⟨e, he, rfl⟩ := List.mem_map.1 hn
    have := h.points w0 hw0 e ((axesOf_prefix w0.2).subset (by rw [hD]; simp [he]))
    simpa using this
  have hsub : ∀ cs idx, subBlock st cs q.vars (d :: outer) idx = (tab st b ((d :: outer, idx), cs)).lines := by
    intro cs idx
    rw [hg.vars]
    apply subBlock_eq
    · intro x hx
      exact h.sized x ((mem_varsOver _ _).1 hx).1
    · intro x hx
      obtain ⟨x1, x2⟩ := (mem_varsOver _ _).1 hx
      rw [← hD] at x2
      have hx3 := h.same x1 hw0 x2
      obtain ⟨r, hr⟩ := axesOf_prefix x.2
      rw [h.sized x x1, ← hr, hx3, hD]
      rfl
  obtain ⟨i0, is, hi⟩ := List.exists_cons_of_ne_nil (combos_ne _ hpts)
  constructor
  · unfold subBlocks
    rw [hws]
    simp only [hax, axes_ok q _ hg.ivars]
    rw [← hws]
    simp only [List.tail_cons, spotsOf, hi, List.mapIdx_cons, List.map_cons, firstHas, if_true, hsub]
    congr 2
    have : (fun (i : Nat) idx => (tab st b ((d :: outer, idx), if i + 1 = 0 then cs else [])).lines) =
        fun _ idx => (tab st b ((d :: outer, idx), [])).lines := by
      funext i idx; simp
    rw [this, mapIdx_const, List.map_map, List.map_map]
    rfl
  · simp [spotsOf, hi]

theorem groups_lines (h : Writable env ofRat conv st re im comments b) : ∀ (qs : List (Block β α)) (Ds : List (List (Dim β))),
    List.Forall₂ (IsGroup b) qs Ds → ∀ first : Bool,
    ∃ ls, writeGroups st comments first qs = (ls, first && qs.isEmpty, none) ∧
      nz ls = nz (((firstHas (if first then comments else []) (Ds.flatMap spotsOf)).map fun s =>
        (tab st b s).lines).flatten)
  | [], _, hf, first => by
    cases hf
    exact ⟨[], by simp [writeGroups], rfl⟩
  | q :: qs, D :: Ds, hf, first => by
    cases hf with
    | cons hg hf =>
      obtain ⟨g1, g2⟩ := group_lines h q D hg (if first then comments else [])
      obtain ⟨s0, ss, hs⟩ := List.exists_cons_of_ne_nil g2
      obtain ⟨ls, l1, l2⟩ := groups_lines h qs Ds hf false
      rw [hs] at g1
      refine ⟨spaced first ((firstHas (if first then comments else []) (s0 :: ss)).map fun s => (tab st b s).lines) ++ ls,
        ?_, ?_⟩
      · rw [writeGroups, g1]
        simp only [firstHas, List.map_cons, List.isEmpty_cons, Bool.and_false, l1, Bool.false_and]
      · rw [nz_append, nz_spaced, l2, ← nz_append, ← List.flatten_append, ← List.map_append, List.flatMap_cons, hs]
        congr 3
        simp only [firstHas, List.cons_append, List.map_append, Bool.false_eq_true, if_false]
        congr 2
        cases Ds.flatMap spotsOf <;> rfl

theorem forall₂_comp {X Y Z : Type} {R : X → Y → Prop} {f : Z → X} {l : List Z} {ys : List Y}
    (h : List.Forall₂ R (l.map f) ys) : List.Forall₂ (fun z y => R (f z) y) l ys :=
  List.forall₂_map_left_iff.1 h

/-- C56: a block that is saved is read again: one block for each set of axes and each position in all axes
but the first, each with exactly the variables over these axes and their values, and with the position. -/
theorem C56_roundtrip (num : Nat → β) (h : Writable env ofRat conv st re im comments b) :
    ∃ ls spots p ps, save env st comments b = (ls, none) ∧ read env num ofRat conv ls = .ok (p :: ps) ∧
      List.Forall₂ (fun s p => Restored st re im b s.1 s.2 p) spots (p :: ps) ∧ spots.Nodup ∧
      (∀ D idx, (D, idx) ∈ spots ↔ (∃ w ∈ b.vars, axesOf w.2 = D) ∧
        List.Forall₂ (fun (e : Dim β) i => i < e.data.length) D.tail idx) ∧
      (p.comments = comments ∧ (∀ n, lookup p.property n = lookup (Comments.properties comments) n) ∧
        (HF.DataBlock.keys p.property).Nodup) ∧
      ∀ q ∈ ps, q.comments = [] ∧ q.property = [] := by
  obtain ⟨m, hm, hgr⟩ := groupVars_spec env b.vars h.quiet b.vars [] [] rfl
    ⟨by simp, by simp, by intro k q hl; simp [lookup] at hl⟩
  have hgroup : ∀ p ∈ m, ∃ D : List (Dim β), IsGroup b p.2 D ∧ D.map Dim.name = p.1 := by
    intro p hp
    obtain ⟨w0, hw0, hk⟩ := (hgr.keys p.1).1 (List.mem_map_of_mem hp)
    obtain ⟨q1, q2⟩ := hgr.block p.1 p.2 (entry_lookup hgr.nodup hp)
    rw [axisNames_eq] at hk
    have hover : over b.vars p.1 = varsOver b (axesOf w0.2) := by
      unfold over varsOver
      apply List.filter_congr
      intro w _
      rw [axisNames_eq, hk]
    refine ⟨axesOf w0.2, ⟨⟨w0, hw0, rfl⟩, by rw [q1, hover], ?_⟩, hk⟩
    intro e he
    rw [q2, lookup_addDims]
    have hed : e ∈ w0.2.dims := (axesOf_prefix w0.2).subset he
    have hw0' : w0 ∈ over b.vars p.1 := by rw [hover, mem_varsOver]; exact ⟨hw0, rfl⟩
    cases hfd : List.find? (fun d => d.name == e.name) ((over b.vars p.1).flatMap fun w => w.2.dims) with
    | none =>
      rw [List.find?_eq_none] at hfd
      exact absurd (by simp) (hfd e (List.mem_flatMap.2 ⟨w0, hw0', hed⟩))
    | some d =>
      obtain ⟨w, hw, hd⟩ := List.mem_flatMap.1 (List.mem_of_find?_eq_some hfd)
      have hn : d.name = e.name := by simpa using List.find?_some hfd
      have k1 := h.known w (List.mem_of_mem_filter hw) d hd
      rw [hn, h.known w0 hw0 e hed] at k1
      cases k1
      rfl
  have horder : inOrder m = m.map Prod.snd := by
    unfold inOrder
    have hnil : ∀ p ∈ m, p.1 ≠ [] := by
      intro p hp hnil
      obtain ⟨w0, hw0, hk⟩ := (hgr.keys p.1).1 (List.mem_map_of_mem hp)
      rw [axisNames_eq, hnil, List.map_eq_nil_iff] at hk
      exact h.axes w0 hw0 hk
    rw [List.filter_eq_nil_iff.2, List.filter_eq_self.2]
    · rfl
    · intro p hp; simpa using hnil p hp
    · intro p hp; simpa using hnil p hp
  obtain ⟨Ds, hDs⟩ := forall₂_choose (l := m)
    (R := fun (p : List String × Block β α) (D : List (Dim β)) => IsGroup b p.2 D ∧ D.map Dim.name = p.1) hgroup
  have hDs1 : List.Forall₂ (IsGroup b) (m.map Prod.snd) Ds :=
    List.forall₂_map_left_iff.2 (hDs.imp fun _ _ h => h.1)
  have hnames : Ds.map (fun D => D.map Dim.name) = m.map Prod.fst := by
    clear * - hDs
    induction hDs with
    | nil => rfl
    | cons h _ ih => rw [List.map_cons, List.map_cons, ih, h.2]
  have hDnd : Ds.Nodup := List.Nodup.of_map _ (by rw [hnames]; exact hgr.nodup)
  have hDmem : ∀ D, D ∈ Ds ↔ ∃ w ∈ b.vars, axesOf w.2 = D := by
    intro D
    constructor
    · intro hD
      obtain ⟨p, hp, hg, -⟩ := forall₂_mem_right hDs hD
      exact hg.ex
    · rintro ⟨w, hw, rfl⟩
      have hk : (axesOf w.2).map Dim.name ∈ m.map Prod.fst := (hgr.keys _).2 ⟨w, hw, axisNames_eq _⟩
      rw [← hnames] at hk
      obtain ⟨D, hD, he⟩ := List.mem_map.1 hk
      obtain ⟨p, hp, hg, -⟩ := forall₂_mem_right hDs hD
      obtain ⟨w', hw', hD'⟩ := hg.ex
      rw [← hD'] at he
      rw [← h.same hw' hw he, hD']
      exact hD
  obtain ⟨ls, l1, l2⟩ := groups_lines h _ Ds hDs1 true
  have hspots : ∀ D idx, (D, idx) ∈ Ds.flatMap spotsOf ↔ (∃ w ∈ b.vars, axesOf w.2 = D) ∧
      List.Forall₂ (fun (e : Dim β) i => i < e.data.length) D.tail idx := by
    intro D idx
    simp only [List.mem_flatMap, spotsOf, List.mem_map, Prod.mk.injEq]
    constructor
    · rintro ⟨D', hD', i, hi, rfl, rfl⟩
      exact ⟨(hDmem _).1 hD', List.forall₂_map_left_iff.1 ((mem_combos _ _).1 hi)⟩
    · rintro ⟨h1, h2⟩
      exact ⟨D, (hDmem D).2 h1, idx, (mem_combos _ _).2 (List.forall₂_map_left_iff.2 h2), rfl, rfl⟩
  have hne : Ds.flatMap spotsOf ≠ [] := by
    obtain ⟨w, ws, hws⟩ := List.exists_cons_of_ne_nil h.ne
    have hw : w ∈ b.vars := by rw [hws]; simp
    intro hc
    have := hspots (axesOf w.2) (List.replicate (axesOf w.2).tail.length 0)
    rw [hc] at this
    simp only [List.not_mem_nil, false_iff, not_and] at this
    refine this ⟨w, hw, rfl⟩ ?_
    have hp : ∀ e ∈ (axesOf w.2).tail, 0 < e.data.length := fun e he =>
      List.length_pos_of_ne_nil (h.points w hw e ((axesOf_prefix w.2).subset (List.mem_of_mem_tail he)))
    revert hp
    generalize (axesOf w.2).tail = l
    intro hp
    induction l with
    | nil => exact .nil
    | cons e l ih => exact .cons (hp e (by simp)) (ih fun e he => hp e (by simp [he]))
  obtain ⟨s0, ss, hs⟩ := List.exists_cons_of_ne_nil hne
  have hparts : ∀ t ∈ firstHas comments (Ds.flatMap spotsOf), Good (tab st b t) ∧ Plain (tab st b t) ∧ Even (tab st b t) ∧
      Swept (tab st b t) ∧ ∀ p, IsBlock env num ofRat conv (tab st b t) (tab st b t).names.length p →
        Restored st re im b t.1.1 t.1.2 p ∧ p.comments = t.2 ∧
          (∀ n, lookup p.property n = lookup (Comments.properties t.2) n) ∧ (HF.DataBlock.keys p.property).Nodup := by
    intro t ht
    have ht1 : t.1 ∈ Ds.flatMap spotsOf ∧ (t.2 = comments ∨ t.2 = []) := by
      rw [hs] at ht ⊢
      rcases List.mem_cons.1 ht with rfl | ht
      · exact ⟨by simp, Or.inl rfl⟩
      · obtain ⟨x, hx, rfl⟩ := List.mem_map.1 ht
        exact ⟨by simp [hx], Or.inr rfl⟩
    obtain ⟨⟨D, idx⟩, cs⟩ := t
    obtain ⟨⟨w0, hw0, hD⟩, hidx⟩ := (hspots D idx).1 ht1.1
    have hDne := h.axes w0 hw0
    rw [hD] at hDne
    obtain ⟨d, outer, rfl⟩ := List.exists_cons_of_ne_nil hDne
    exact part_ok num h w0 hw0 d outer hD idx hidx cs ht1.2
  obtain ⟨ps, r1, r2⟩ := C52_read env num ofRat conv ls ((firstHas comments (Ds.flatMap spotsOf)).map (tab st b))
    (by rw [hs]; simp [firstHas]) (by
      have : nz ls = nz (((firstHas comments (Ds.flatMap spotsOf)).map (tab st b)).flatMap Table.lines) := by
        rw [l2, List.flatMap_def (f := Table.lines), List.map_map]; rfl
      exact this) (by
      intro t ht
      obtain ⟨s, hs, rfl⟩ := List.mem_map.1 ht
      obtain ⟨g1, g2, g3, g4, -⟩ := hparts s hs
      exact ⟨g1, g2, g3, g4⟩)
  have r3 : List.Forall₂ (fun t p => Restored st re im b t.1.1 t.1.2 p ∧ p.comments = t.2 ∧
        (∀ n, lookup p.property n = lookup (Comments.properties t.2) n) ∧ (HF.DataBlock.keys p.property).Nodup)
      (firstHas comments (Ds.flatMap spotsOf)) ps := by
    replace r2 := forall₂_comp r2
    clear r1
    revert hparts r2
    generalize firstHas comments (Ds.flatMap spotsOf) = L
    intro hparts r2
    induction r2 with
    | nil => exact .nil
    | cons h1 _ ih =>
      exact .cons ((hparts _ (by simp)).2.2.2.2 _ h1) (ih fun t ht => hparts t (by simp [ht]))
  rw [hs] at r3
  cases r3 with
  | @cons _ p _ ps r4 r5 =>
    have r5 := List.forall₂_map_left_iff.1 r5
    refine ⟨ls, s0 :: ss, p, ps, ?_, r1, .cons r4.1 (r5.imp fun _ _ h => h.1), ?_, ?_, r4.2, ?_⟩
    · have hd : dangling b = [] := by
        unfold dangling
        rw [List.map_eq_nil_iff, List.filter_eq_nil_iff]
        intro p hp hc
        obtain ⟨w, hw, d, hd, hn⟩ := h.used p hp
        simp only [Bool.not_eq_true', List.any_eq_false, decide_eq_true_eq] at hc
        exact hc w hw (by rw [List.any_eq_true]; exact ⟨d, hd, by simpa using hn⟩)
      unfold save
      simp only [hm, horder, l1, hd]
    · rw [← hs, List.nodup_flatMap]
      refine ⟨fun D _ => (combos_nodup _).map fun _ _ h => (Prod.mk.inj h).2, ?_⟩
      refine List.Nodup.pairwise_of_forall_ne hDnd ?_
      intro D _ D' _ hne
      rw [Function.onFun, List.disjoint_left]
      rintro x hx hy
      obtain ⟨s, -, rfl⟩ := List.mem_map.1 hx
      obtain ⟨t, -, ht⟩ := List.mem_map.1 hy
      exact hne (Prod.mk.inj ht).1.symm
    · rw [← hs]; exact hspots
    · intro q hq
      obtain ⟨t, -, ht⟩ := forall₂_mem_right r5 hq
      refine ⟨ht.2.1, ?_⟩
      have h0 : ∀ n, lookup q.property n = none := ht.2.2.1
      cases hq' : q.property with
      | nil => rfl
      | cons a l => have := h0 a.1; simp [hq', lookup] at this

/-! ### What is not kept -/

theorem groupVars_scalar (env : Env β α) (all : List (String × Arr β α)) (hq : Quiet all) (hne : all ≠ [])
    (hs : ∀ w ∈ all, axisNames w.2 = []) : ∃ q, groupVars env all [] = .ok [([], q)] ∧ q.vars = all := by
  obtain ⟨m, hm, hgr⟩ := groupVars_spec env all hq all [] [] rfl
    ⟨by simp, by simp, by intro k q hl; simp [lookup] at hl⟩
  obtain ⟨w, ws, hws⟩ := List.exists_cons_of_ne_nil hne
  have hk : ∀ k, k ∈ m.map Prod.fst ↔ k = [] := by
    intro k
    rw [hgr.keys]
    constructor
    · rintro ⟨x, hx, rfl⟩; exact hs x hx
    · rintro rfl; exact ⟨w, by rw [hws]; simp, hs w (by rw [hws]; simp)⟩
  have hone : m.map Prod.fst = [[]] := by
    apply List.perm_singleton.1
    rw [List.perm_ext_iff_of_nodup hgr.nodup (by simp)]
    intro k; rw [hk]; simp
  obtain ⟨p, rfl⟩ : ∃ p, m = [p] := by
    have : m.length = 1 := by have := congrArg List.length hone; simpa using this
    exact List.length_eq_one_iff.1 this
  have hp : p.1 = [] := by simpa using hone
  refine ⟨p.2, by rw [hm, ← hp], ?_⟩
  have := (hgr.block [] p.2 (by simp [lookup, hp])).1
  rw [this]
  unfold over
  rw [List.filter_eq_self]
  intro x hx
  simpa using hs x hx

/-- C56 fails for variables without axes: only the comments are written, no values and no names. -/
theorem C56_scalars_refuted (env : Env β α) (st : Style β α) (comments : List (List Char)) (b : Block β α)
    (hq : Quiet b.vars) (hne : b.vars ≠ []) (hs : ∀ w ∈ b.vars, axesOf w.2 = [])
    (hu : ∀ p ∈ b.ivars, ∃ w ∈ b.vars, ∃ d ∈ w.2.dims, d.name = p.1) :
    save env st comments b = (comments.map (fun c => '!' :: c.dropWhile (· = '!')) ++ [[]], none) := by
  have hs' : ∀ w ∈ b.vars, axisNames w.2 = [] := fun w hw => by rw [axisNames_eq, hs w hw]; rfl
  obtain ⟨q, h1, h2⟩ := groupVars_scalar env b.vars hq hne hs'
  obtain ⟨w, ws, hws⟩ := List.exists_cons_of_ne_nil hne
  have hd : dangling b = [] := by
    unfold dangling
    rw [List.map_eq_nil_iff, List.filter_eq_nil_iff]
    intro p hp hc
    obtain ⟨w, hw, d, hd, hn⟩ := hu p hp
    simp only [Bool.not_eq_true', List.any_eq_false, decide_eq_true_eq] at hc
    exact hc w hw (by rw [List.any_eq_true]; exact ⟨d, hd, by simpa using hn⟩)
  have hsub : subBlocks st comments q = .ok [formatBlock comments [] []] := by
    unfold subBlocks
    rw [h2, hws]
    simp only [hs' w (by rw [hws]; simp), HF.Sp.axes, List.tail_nil, List.map_nil, combos, List.mapIdx_cons, if_true,
      List.mapIdx_nil, subBlock]
  unfold save
  rw [h1]
  simp only [inOrder, writeGroups, hd, if_true, decide_true, List.filter_cons, List.filter_nil, List.map_cons, List.map_nil,
    ne_eq, not_true_eq_false, decide_false, Bool.false_eq_true, if_false, List.append_nil, hsub, spaced]
  simp [formatBlock, join, zipStar]

/-- C56 fails for an axis that no variable has: the writing ends with an exception. -/
theorem C56_dangling_refuted (env : Env β α) (st : Style β α) (comments : List (List Char)) (b : Block β α)
    (hv : b.vars = []) (p : String × Dim β) (ps : List (String × Dim β)) (hp : b.ivars = p :: ps) :
    (save env st comments b).2 = some .runtimeError := by
  unfold save
  simp only [hv, groupVars, inOrder, List.filter_nil, List.map_nil, List.append_nil, writeGroups, dangling, hp,
    List.any_nil, Bool.not_false, List.filter_cons, if_true, List.map_cons]

/-- C56: in general, whatever variables there are, writing does not end without an exception if the block has an
axis that no variable has. -/
theorem C56_dangling_any_refuted (env : Env β α) (st : Style β α) (comments : List (List Char)) (b : Block β α)
    (p : String × Dim β) (hp : p ∈ b.ivars) (hn : ∀ w ∈ b.vars, ∀ d ∈ w.2.dims, d.name ≠ p.1) :
    (save env st comments b).2 ≠ none := by
  have hd : dangling b ≠ [] := by
    intro h
    have : p.2 ∈ dangling b := by
      refine List.mem_map.2 ⟨p, List.mem_filter.2 ⟨hp, ?_⟩, rfl⟩
      rw [Bool.not_eq_true', List.any_eq_false]
      intro w hw
      rw [List.any_eq_true]
      rintro ⟨d, hd, h⟩
      exact hn w hw d hd (by simpa using h)
    rw [h] at this
    cases this
  unfold save
  split
  · simp
  · split
    · simp
    · split
      · contradiction
      · simp

/-- C56 fails for a matrix with more than ten ports: different elements get the same name. -/
theorem C56_ports_refuted (w : String × Arr β α) (hm : ismatrix w.2 = true)
    (h1 : 11 ≤ (w.2.dims.reverse.map fun d => d.data.length).getD 1 0)
    (h0 : 11 ≤ (w.2.dims.reverse.map fun d => d.data.length).getD 0 0) :
    ¬ ((elements w).map Prod.fst).Nodup := by
  unfold elements
  simp only [hm, if_true, List.map_flatMap, List.map_map]
  rw [List.nodup_flatMap]
  rintro ⟨-, h⟩
  have h10 := List.pairwise_iff_getElem.1 h 0 10 (by rw [List.length_range]; omega) (by rw [List.length_range]; omega) (by omega)
  rw [Function.onFun, List.disjoint_left] at h10
  simp only [List.getElem_range] at h10
  refine h10 (a := w.1.toList ++ ['1', '1', '1']) (List.mem_map.2 ⟨10, List.mem_range.2 (by omega), ?_⟩)
    (List.mem_map.2 ⟨0, List.mem_range.2 (by omega), ?_⟩)
  · simp [Nat.toDigits, Nat.toDigitsCore, Nat.digitChar]
  · simp [Nat.toDigits, Nat.toDigitsCore, Nat.digitChar]

end

end HF.Sp
