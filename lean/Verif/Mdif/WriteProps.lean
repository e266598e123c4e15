import Verif.Mdif.WriteTable
import Verif.DataBlock.SplitProps
/-
C66: saved MDIF files are read as they were.
-/
namespace HF.Mdif

open HF.DataDict.Spec HF.DataBlock
open HF.DataDict hiding rename delitem
open Units (isWs strip)
open Text (IsWord join words)

variable {β α : Type} [DecidableEq β]

/-- What is said of the part at a position. -/
def contentAt (env : Env β α) (d : Dim β) (ds : List (Dim β)) (vs : List (String × Arr β α)) (idx : List Nat) (cs : List β) :
    Content α where
  first := d.name.toList
  name := d.name.toList
  sweep := d.data.map env.toVal
  cols := ((vs.filter fun v => v.2.dims = d :: ds).map (colAt d.data.length idx)).map fun c => (c.1.toList, c.2)
  vars := settingsOf env ds cs
  attribs := (vs.filter fun v => v.2.dims = ds).map fun v => (v.1.toList, v.2.nd.get idx)

theorem settingsOf_names (env : Env β α) {ds : List (Dim β)} {idx : List Nat} {cs : List β} (h : Picks ds idx cs) :
    (settingsOf env ds cs).map Prod.fst = ds.map fun x => x.name.toList := by
  unfold settingsOf
  induction h with
  | nil => rfl
  | cons _ _ ih => simpa using ih

theorem contentAt_names (env : Env β α) (d : Dim β) (ds : List (Dim β)) (vs : List (String × Arr β α)) (idx : List Nat)
    (cs : List β) : (contentAt env d ds vs idx cs).names =
      ((vs.filter fun v => v.2.dims = d :: ds).map Prod.fst ++ (vs.filter fun v => v.2.dims = ds).map Prod.fst).map
        String.toList := by
  simp [Content.names, contentAt, colAt, Function.comp_def]

theorem separate_at (env : Env β α) (pr : Printer α β) (num : Num α) {d : Dim β} {ds : List (Dim β)}
    {vs : List (String × Arr β α)} (hs : Savable env pr num d ds vs) {idx : List Nat} {cs : List β} (h : Picks ds idx cs) :
    Separate (contentAt env d ds vs idx cs) := by
  have hmem : ∀ n, n ∈ (vs.filter fun v => v.2.dims = d :: ds).map Prod.fst ++ (vs.filter fun v => v.2.dims = ds).map Prod.fst →
      n ∈ vs.map Prod.fst := by
    intro n hn
    rcases List.mem_append.1 hn with hn | hn <;> obtain ⟨v, hv, rfl⟩ := List.mem_map.1 hn <;>
      exact List.mem_map_of_mem (List.mem_filter.1 hv).1
  have inj : ∀ {a b : String}, a.toList = b.toList → a = b := fun e => String.toList_inj.1 e
  refine ⟨?_, ?_, ?_, ?_, ?_⟩
  · rw [contentAt_names]
    refine List.Nodup.map (fun a b e => inj e) (List.nodup_append.2 ⟨?_, ?_, ?_⟩)
    · exact hs.nodup.sublist (List.filter_sublist.map _)
    · exact hs.nodup.sublist (List.filter_sublist.map _)
    · intro a ha b hb e
      subst e
      obtain ⟨v, hv, rfl⟩ := List.mem_map.1 ha
      obtain ⟨v', hv', e⟩ := List.mem_map.1 hb
      obtain ⟨m1, d1⟩ := List.mem_filter.1 hv
      obtain ⟨m2, d2⟩ := List.mem_filter.1 hv'
      have : v' = v := List.inj_on_of_nodup_map hs.nodup m2 m1 e
      subst this
      simp only [decide_eq_true_eq] at d1 d2
      rw [d1] at d2
      simpa using congrArg List.length d2
  · rw [contentAt_names]
    intro hm
    obtain ⟨n, hn, e⟩ := List.mem_map.1 hm
    obtain ⟨v, hv, rfl⟩ := List.mem_map.1 (hmem n hn)
    exact hs.disjoint v hv (inj e ▸ List.mem_cons_self ..)
  · rw [contentAt_names]
    intro n' hn' m i j hm hmm
    obtain ⟨n, hn, rfl⟩ := List.mem_map.1 hn'
    obtain ⟨v, hv, rfl⟩ := List.mem_map.1 (hmem n hn)
    rw [String.ofList_toList] at hm
    rw [List.map_map] at hmm
    obtain ⟨m', hm', e⟩ := List.mem_map.1 hmm
    simp only [Function.comp_apply, String.ofList_toList] at e
    exact hs.elems v hv m i j hm (e ▸ hmem m' hm')
  · show ((settingsOf env ds cs).map Prod.fst).Nodup
    rw [settingsOf_names env h]
    have := (List.nodup_cons.1 (by simpa using hs.nodupDims : (d.name :: ds.map Dim.name).Nodup)).2
    have := this.map (f := String.toList) fun a b e => inj e
    simpa [Function.comp_def] using this
  · show ∀ n ∈ ((vs.filter fun v => v.2.dims = ds).map fun v => (v.1.toList, v.2.nd.get idx)).map Prod.fst,
      n ∉ (settingsOf env ds cs).map Prod.fst
    rw [settingsOf_names env h]
    intro n hn hm
    obtain ⟨x, hx, e⟩ := List.mem_map.1 hm
    rw [List.map_map] at hn
    obtain ⟨v, hv, rfl⟩ := List.mem_map.1 hn
    simp only [Function.comp_apply] at e
    exact hs.disjoint v (List.mem_filter.1 hv).1 (inj e ▸ List.mem_cons_of_mem _ (List.mem_map_of_mem hx))

/-- The titles in the header are those of the sweep and of variables. -/
def TitlesOf (d : Dim β) (vs : List (String × Arr β α)) (s : Sheet) : Prop :=
  ∀ text ∈ s.header, ∀ w ∈ words text, ∃ n ∈ d.name :: vs.map Prod.fst, ∃ t, '[' ∉ t ∧ w = n.toList ++ t

/-- The lines at a position. -/
theorem coord_lines (env : Env β α) (pr : Printer α β) (num : Num α) {d : Dim β} {ds : List (Dim β)} {b : Block β α}
    (hs : Savable env pr num d ds b.vars) {idx : List Nat} {cs : List β} (h : Picks ds idx cs) :
    ∃ lines sheet, fmtCoord env pr none d ds b cs = (lines, none) ∧ List.Forall₂ Says lines sheet.toks ∧
      sheet.comments = [] ∧ sheet.name = "DATABLOCK".toList ∧ Describes num sheet (contentAt env d ds b.vars idx cs) ∧
      TitlesOf d b.vars sheet := by
  obtain ⟨vts, v1, v2⟩ := var_lines env pr num h hs.settings
    (fun x hx => hs.plain _ (List.mem_append_right _ (List.mem_cons_of_mem _ (List.mem_map_of_mem hx))))
  obtain ⟨ats, a1, a0, a2⟩ := attrib_lines env pr num hs h (b.vars.filter fun v => v.2.dims = ds)
    (fun v hv => by simpa using List.mem_filter.1 hv)
  obtain ⟨header, data, t1, t2, t3, t5, t4⟩ := table_lines env pr num hs h (b.vars.filter fun v => v.2.dims = d :: ds)
    (by
      obtain ⟨v, hv, hd⟩ := hs.column
      exact List.ne_nil_of_mem (List.mem_filter.2 ⟨hv, by simpa using hd⟩))
    (fun v hv => by simpa using List.mem_filter.1 hv) (hs.nodup.sublist (List.filter_sublist.map _))
  have hne : (b.vars.filter fun v => v.2.dims = ds) ≠ [] := by
    obtain ⟨v, hv, hd⟩ := hs.attrib
    exact List.ne_nil_of_mem (List.mem_filter.2 ⟨hv, by simpa using hd⟩)
  refine ⟨vts.map (['V', 'A', 'R', ' '] ++ ·) ++ [beginLine none] ++ ats.map (['#', ' '] ++ ·) ++ [['%', ' '] ++ header] ++
    data ++ [['E', 'N', 'D']], ⟨[], vts, "DATABLOCK".toList, ats, [header], data, []⟩, ?_, ?_, rfl, rfl, ?_, ?_⟩
  · unfold fmtCoord
    simp only
    rw [if_neg hne, all_append, all_append, all_append, v1]
    simp only [all_cons, a1, t1]
    simp [Out.all, Out.andThen]
  · simp only [Sheet.toks]
    have s0 : List.Forall₂ Says [beginLine none] [(⟨.start, "DATABLOCK".toList⟩ : Tok)] := by
      refine .cons ?_ .nil
      exact (C63_line _ _).1 (by decide)
    have s1 : List.Forall₂ Says [['%', ' '] ++ header] (toks .header [header]) := by
      refine .cons ?_ .nil
      have := Says.header [] (' ' :: header) (by simp)
      rwa [t2] at this
    have s2 : List.Forall₂ Says [['E', 'N', 'D']] [(⟨.stop, []⟩ : Tok)] := .cons ((C63_line _ _).1 (by decide)) .nil
    have := List.rel_append (List.rel_append (List.rel_append (List.rel_append (List.rel_append (says_vars vts) s0)
      (says_attribs ats a0)) s1) t3) s2
    simpa [toks] using this
  · refine ⟨?_, Or.inr ⟨hs.sweepDim, rfl⟩, v2, a2⟩
    obtain ⟨pss, p1, p2, p3, N, p4, p5, p6, p7⟩ := t4
    refine ⟨pss, p1, p2, p3, N, p4, p5, ?_, p7⟩
    rw [p6]
    simp [contentAt]
  · intro text ht w hw
    obtain rfl := List.mem_singleton.1 ht
    obtain ⟨n, hn, rfl⟩ := t5 w hw
    refine ⟨n, ?_, _, ?_, rfl⟩
    · rcases List.mem_cons.1 hn with rfl | hn
      · exact List.mem_cons_self ..
      · obtain ⟨v, hv, rfl⟩ := List.mem_map.1 hn
        exact List.mem_cons_of_mem _ (List.mem_map_of_mem (List.mem_filter.1 hv).1)
    · split <;> decide

theorem settingsOf_get (env : Env β α) {ds : List (Dim β)} {idx : List Nat} {cs : List β} (h : Picks ds idx cs) :
    ∀ (k : Nat) x i c, ds[k]? = some x → idx[k]? = some i → x.data[i]? = some c →
      (x.name.toList, env.toVal c) ∈ settingsOf env ds cs := by
  induction h with
  | nil => intro k x i c hk; simp at hk
  | cons h _ ih =>
    intro k x i c h1 h2 h3
    cases k with
    | zero =>
      simp only [List.getElem?_cons_zero, Option.some.injEq] at h1 h2
      subst h1 h2
      rw [h] at h3
      cases h3
      exact List.mem_cons_self ..
    | succ k =>
      exact List.mem_cons_of_mem _ (ih k x i c (by simpa using h1) (by simpa using h2) h3)

theorem slice_of (env : Env β α) (pr : Printer α β) (num : Num α) {d : Dim β} {ds : List (Dim β)}
    {vs : List (String × Arr β α)} (hs : Savable env pr num d ds vs) {idx : List Nat} {cs : List β} (h : Picks ds idx cs)
    (sheet : Sheet) (hn : sheet.name = "DATABLOCK".toList) (p : Parsed β α)
    (hp : IsBlock env sheet (contentAt env d ds vs idx cs) p) : IsSlice env d ds vs idx p := by
  have hsep := separate_at env pr num hs h
  have hdim : (contentAt env d ds vs idx cs).dim env =
      ⟨.dimSweep, d.name, d.data.map fun c => env.toCoord (env.toVal c), none, none⟩ := by
    simp [Content.dim, contentAt, Function.comp_def]
  have hcols : (contentAt env d ds vs idx cs).cols ≠ [] := by
    obtain ⟨v, hv, hd⟩ := hs.column
    have : v ∈ vs.filter fun v => v.2.dims = d :: ds := List.mem_filter.2 ⟨hv, by simpa using hd⟩
    simp only [contentAt, ne_eq, List.map_eq_nil_iff]
    exact List.ne_nil_of_mem this
  refine ⟨hp.name.trans hn, ?_, ?_, ?_, ?_, ?_, ?_, hp.once⟩
  · have := hp.keys
    rw [contentAt_names, List.map_map] at this
    simpa [keys, Function.comp_def] using this
  · intro v hv hd
    have hm : (v.1.toList, (List.range d.data.length).map fun r => v.2.nd.get (r :: idx)) ∈ (contentAt env d ds vs idx cs).cols := by
      refine List.mem_map.2 ⟨colAt d.data.length idx v, List.mem_map_of_mem (List.mem_filter.2 ⟨hv, by simpa using hd⟩), rfl⟩
    obtain ⟨a, h1, h2, h3, h4⟩ := hp.column _ _ hm
    rw [String.ofList_toList] at h1
    refine ⟨a, h1, by rw [h2, hdim], by simpa using h3, ?_⟩
    intro r hr
    exact h4 r _ (by simp [hr])
  · intro v hv hd
    have hm : (v.1.toList, v.2.nd.get idx) ∈ (contentAt env d ds vs idx cs).attribs :=
      List.mem_map.2 ⟨v, List.mem_filter.2 ⟨hv, by simpa using hd⟩, rfl⟩
    obtain ⟨a, h1, h2, h3, h4⟩ := hp.attrib _ _ hm
    rw [String.ofList_toList] at h1
    exact ⟨a, h1, h2, h3, h4⟩
  · have := hp.dims d.name.toList
    rw [String.ofList_toList] at this
    rw [this]
    have hnone : lookup (contentAt env d ds vs idx cs).vars d.name.toList = none := by
      rw [lookup_none]
      show d.name.toList ∉ (settingsOf env ds cs).map Prod.fst
      rw [settingsOf_names env h]
      intro hm
      obtain ⟨x, hx, e⟩ := List.mem_map.1 hm
      have := String.toList_inj.1 e
      refine (List.nodup_cons.1 (by simpa using hs.nodupDims : (d.name :: ds.map Dim.name).Nodup)).1 ?_
      rw [← this]
      exact List.mem_map_of_mem hx
    rw [hnone]
    simp only
    rw [if_pos ⟨hcols, rfl⟩, hdim]
  · intro k x i c h1 h2 h3
    have := hp.dims x.name.toList
    rw [String.ofList_toList] at this
    rw [this, (mem_iff_lookup hsep.vars _ _).1 (settingsOf_get env h k x i c h1 h2 h3)]
  · intro n hn
    have := hp.dims n.toList
    rw [String.ofList_toList] at this
    rw [this]
    have hnone : lookup (contentAt env d ds vs idx cs).vars n.toList = none := by
      rw [lookup_none]
      show n.toList ∉ (settingsOf env ds cs).map Prod.fst
      rw [settingsOf_names env h]
      intro hm
      obtain ⟨x, hx, e⟩ := List.mem_map.1 hm
      have := String.toList_inj.1 e
      refine hn (List.mem_cons_of_mem _ ?_)
      rw [← this]
      exact List.mem_map_of_mem hx
    rw [hnone]
    simp only
    rw [if_neg]
    rintro ⟨-, e⟩
    have : n = d.name := String.toList_inj.1 e
    exact hn (this ▸ List.mem_cons_self ..)

/-! ### The blocks that are written -/

theorem Savable.quiet {env : Env β α} {pr : Printer α β} {num : Num α} {d : Dim β} {ds : List (Dim β)}
    {vs : List (String × Arr β α)} (hs : Savable env pr num d ds vs) : Quiet vs where
  dims := by
    intro w hw w' hw' x hx e
    refine hs.disjoint w hw ?_
    rw [← e]
    rcases hs.dims w' hw' with h | h <;> rw [h] at hx
    · exact List.mem_map_of_mem hx
    · exact List.mem_cons_of_mem _ (List.mem_map_of_mem hx)
  elems := by
    intro w hw w' hw' m i j hm _ e
    exact hs.elems w hw m i j hm (e ▸ List.mem_map_of_mem hw')
  nodup := hs.nodup

theorem subset_ok (env : Env β α) (b : Block β α) (hq : Quiet b.vars) (l : List (Dim β)) (hl : l.Nodup) :
    ∃ sub, subsetByDims env b l = .ok sub ∧ sub.vars = b.vars.filter (fitsDims l) := by
  obtain ⟨b', h1, h2, -⟩ := writes_empty env (b.vars.filter (fitsDims l)) (hq.sublist List.filter_sublist)
  exact ⟨b', by rw [subsetByDims, if_pos hl, h1], h2⟩

theorem setEq_self (l : List (Dim β)) : setEq l l = true := by simp [setEq]

/-- One kind of blocks is written if all variables are over `d :: ds`, over `ds`, or numbers. -/
theorem loop_eq (env : Env β α) (pr : Printer α β) (en : Enum (List (Dim β))) {d : Dim β} {ds : List (Dim β)} {b : Block β α}
    (hq : Quiet b.vars) (hnd : (d :: ds).Nodup) (hd : ∀ v ∈ b.vars, v.2.dims = d :: ds ∨ v.2.dims = ds ∨ v.2.dims = [])
    (hc : ∃ v ∈ b.vars, v.2.dims = d :: ds) :
    ∃ sub : Block β α, sub.vars = b.vars.filter (fitsDims (d :: ds)) ∧
      loopDb env pr en b = Out.andThen (fmtBlock env pr none d ds sub) ([], none) := by
  have hmem : ∀ l ∈ (b.vars.map fun w => w.2.dims).dedup, l = d :: ds ∨ l = ds ∨ l = [] := by
    intro l hl
    rw [List.mem_dedup] at hl
    obtain ⟨v, hv, rfl⟩ := List.mem_map.1 hl
    exact hd v hv
  have hin : d :: ds ∈ (b.vars.map fun w => w.2.dims).dedup := by
    rw [List.mem_dedup]
    obtain ⟨v, hv, hd⟩ := hc
    exact List.mem_map.2 ⟨v, hv, hd⟩
  generalize hsd : (b.vars.map fun w => w.2.dims).dedup = s at hmem hin
  obtain ⟨l, hl⟩ : ∃ l, longest en s = some l := by
    cases h : longest en s with
    | some l => exact ⟨l, rfl⟩
    | none => rw [(longest_none en s).1 h] at hin; cases hin
  have hl' : l = d :: ds := by
    have hlen := longest_max en s l hl _ hin
    rcases hmem l (longest_mem en s l hl) with h | h | h
    · exact h
    · rw [h] at hlen
      simp at hlen
    · rw [h] at hlen
      simp at hlen
  subst hl'
  have hy := yields_of_longest en s _ hl
  have hrest : ∀ x ∈ yields en (discard s (d :: ds)), x = [] := by
    intro x hx
    have := (mem_discard _ _ _).1 (yields_sub en _ x hx)
    rcases hmem x this.1 with h | h | h
    · exact absurd h this.2.1
    · cases hds : ds with
      | nil => rw [h, hds]
      | cons y ys => exact absurd h (this.2.2 (by simp [hds]))
    · exact h
  obtain ⟨sub, h1, h2⟩ := subset_ok env b hq (d :: ds) hnd
  refine ⟨sub, h2, ?_⟩
  unfold loopDb splitBlock
  rw [hsd, hy, List.map_cons, List.map_cons, all_cons]
  congr 1
  · simp only [h1]
  · rw [List.map_map, all_ok]
    · simp only [Prod.mk.injEq, and_true]
      rw [List.flatMap_map, List.flatMap_eq_nil_iff]
      intro x hx
      rw [hrest x hx]
      obtain ⟨sub', h3, -⟩ := subset_ok env b hq [] List.nodup_nil
      simp only [Function.comp_apply, h3]
    · intro o ho
      obtain ⟨x, hx, rfl⟩ := List.mem_map.1 ho
      rw [hrest x hx]
      obtain ⟨sub', h3, -⟩ := subset_ok env b hq [] List.nodup_nil
      simp only [Function.comp_apply, h3]

theorem savable_split (env : Env β α) (pr : Printer α β) (num : Num α) (en : Enum (List (Dim β))) {d : Dim β}
    {ds : List (Dim β)} {b : Block β α} (hs : Savable env pr num d ds b.vars) :
    ∃ sub : Block β α, sub.vars = b.vars ∧ loopDb env pr en b = Out.andThen (fmtBlock env pr none d ds sub) ([], none) := by
  obtain ⟨sub, h1, h2⟩ := loop_eq env pr en hs.quiet (List.Nodup.of_map Dim.name hs.nodupDims)
    (fun v hv => (hs.dims v hv).imp_right Or.inl) hs.column
  refine ⟨sub, ?_, h2⟩
  rw [h1, List.filter_eq_self]
  intro v hv
  rcases hs.dims v hv with h | h <;> simp [fitsDims, h, setEq_self]

theorem says_nonblank {l : List Char} {t : Tok} (h : Says l t) : nonblank l = true := by
  by_contra hn
  have := (C63_blank l).2 (by simpa [nonblank] using hn)
  rw [(C63_line l t).2 h] at this
  cases this

theorem all_nonblank {ls : List (List Char)} {ts : List Tok} (h : List.Forall₂ Says ls ts) : ls.filter nonblank = ls := by
  rw [List.filter_eq_self]
  induction h with
  | nil => simp
  | cons h _ ih =>
    intro l hl
    rcases List.mem_cons.1 hl with rfl | hl
    · exact says_nonblank h
    · exact ih l hl

theorem positions_ne : ∀ l : List Nat, (∀ n ∈ l, n ≠ 0) → positions l ≠ []
  | [], _ => by simp [positions]
  | n :: ns, h => by
    obtain ⟨m, rfl⟩ := Nat.exists_eq_succ_of_ne_zero (h n (List.mem_cons_self ..))
    obtain ⟨p, ps, e⟩ := List.exists_cons_of_ne_nil (positions_ne ns fun n hn => h n (List.mem_cons_of_mem _ hn))
    rw [positions, e, List.range_succ_eq_map]
    simp

/-- What a part of the file is about. -/
structure Part (env : Env β α) (num : Num α) (d : Dim β) (ds : List (Dim β)) (vs : List (String × Arr β α)) where
  idx : List Nat
  cs : List β
  picks : Picks ds idx cs
  lines : List (List Char)
  sheet : Sheet
  said : List.Forall₂ Says lines sheet.toks
  comments : sheet.comments = []
  name : sheet.name = "DATABLOCK".toList
  describes : Describes num sheet (contentAt env d ds vs idx cs)
  titles : TitlesOf d vs sheet

/-- All parts. -/
theorem block_lines (env : Env β α) (pr : Printer α β) (num : Num α) {d : Dim β} {ds : List (Dim β)} {b : Block β α}
    (hs : Savable env pr num d ds b.vars) :
    ∃ parts : List (Part env num d ds b.vars), fmtBlock env pr none d ds b = (parts.flatMap Part.lines, none) ∧
      parts.map Part.idx = positions (ds.map fun x => x.data.length) := by
  unfold fmtBlock
  have := product_picks ds
  revert this
  generalize positions (ds.map fun x => x.data.length) = P
  generalize product (ds.map fun x => x.data) = C
  intro h
  induction h with
  | nil => exact ⟨[], rfl, rfl⟩
  | cons h _ ih =>
    obtain ⟨parts, h1, h2⟩ := ih
    obtain ⟨lines, sheet, k1, k2, k3, k4, k5, k6⟩ := coord_lines env pr num hs h
    refine ⟨⟨_, _, h, lines, sheet, k2, k3, k4, k5, k6⟩ :: parts, ?_, by rw [List.map_cons, h2]⟩
    rw [List.map_cons, all_cons, k1, h1]
    rfl

/-- C66: a saved file is read as one block for each position of the sweeps other than the first, each of them with the
values at its position; the time of saving is a comment. -/
theorem C66_roundtrip (env : Env β α) (pr : Printer α β) (num : Num α) (en : Enum (List (Dim β))) (time : List Char)
    (b b1 : Block β α) (hc : convert env b = .ok b1) (d : Dim β) (ds : List (Dim β))
    (hs : Savable env pr num d ds b1.vars) :
    ∃ lines, save env pr en time b = (lines, none) ∧
      ∃ ps, read env num false lines = .ok ps ∧
        List.Forall₂ (IsSlice env d ds b1.vars) (positions (ds.map fun x => x.data.length)) ps ∧
        ∀ (k : Nat) p, ps[k]? = some p → p.comments = if k = 0 then [strip ("Created: ".toList ++ time)] else [] := by
  obtain ⟨sub, e1, e2⟩ := savable_split env pr num en hs
  rw [← e1] at hs
  obtain ⟨parts, f1, f2⟩ := block_lines env pr num hs
  have hne : parts ≠ [] := by
    rintro rfl
    refine positions_ne (ds.map fun x => x.data.length) ?_ f2.symm
    intro n hn h0
    obtain ⟨x, hx, rfl⟩ := List.mem_map.1 hn
    exact hs.nonempty x (List.mem_cons_of_mem _ hx) (List.length_eq_zero_iff.1 h0)
  obtain ⟨p0, parts, rfl⟩ := List.exists_cons_of_ne_nil hne
  have hsave : save env pr en time b = (("!Created: ".toList ++ time) :: (p0 :: parts).flatMap Part.lines, none) := by
    unfold save
    rw [hc]
    simp only [e2, f1, andThen_ok]
    simp
  refine ⟨_, hsave, ?_⟩
  -- the first sheet has the comment
  obtain ⟨s0, hs0⟩ : ∃ s0 : Sheet, s0 = { p0.sheet with comments := [strip ("Created: ".toList ++ time)] } := ⟨_, rfl⟩
  have hsays : List.Forall₂ Says (("!Created: ".toList ++ time) :: (p0 :: parts).flatMap Part.lines)
      (((s0, contentAt env d ds sub.vars p0.idx p0.cs) ::
        parts.map fun p => (p.sheet, contentAt env d ds sub.vars p.idx p.cs)).flatMap (fun p => p.1.toks) ++ []) := by
    have h0 : Says ("!Created: ".toList ++ time) ⟨.comment, strip ("Created: ".toList ++ time)⟩ :=
      Says.comment [] ("Created: ".toList ++ time) (by simp)
    have h1 : s0.toks = ⟨.comment, strip ("Created: ".toList ++ time)⟩ :: p0.sheet.toks := by
      rw [hs0]
      simp [Sheet.toks, p0.comments, toks]
    rw [List.append_nil, List.flatMap_cons, List.flatMap_cons, h1, List.cons_append]
    refine .cons h0 (List.rel_append p0.said ?_)
    rw [List.flatMap_map]
    clear * -
    induction parts with
    | nil => exact .nil
    | cons p parts ih =>
      rw [List.flatMap_cons, List.flatMap_cons]
      exact List.rel_append p.said ih
  have hd0 : Describes num s0 (contentAt env d ds sub.vars p0.idx p0.cs) := by
    rw [hs0]
    exact ⟨p0.describes.table, p0.describes.name, p0.describes.vars, p0.describes.attribs⟩
  obtain ⟨ps, r1, r2⟩ := C63_read env num _ _ [] (by rw [all_nonblank hsays]; exact hsays) cut_nil (by simp)
    (by
      intro p hp
      rcases List.mem_cons.1 hp with rfl | hp
      · exact hd0
      · obtain ⟨q, -, rfl⟩ := List.mem_map.1 hp
        exact q.describes)
    (by
      intro p hp
      rcases List.mem_cons.1 hp with rfl | hp
      · exact separate_at env pr num hs p0.picks
      · obtain ⟨q, -, rfl⟩ := List.mem_map.1 hp
        exact separate_at env pr num hs q.picks)
  refine ⟨ps, r1, ?_, ?_⟩
  · rw [← f2, ← e1]
    cases r2 with
    | cons r3 r2 =>
      rw [List.map_cons]
      refine .cons (slice_of env pr num hs p0.picks s0 (by rw [hs0]; exact p0.name) _ r3) ?_
      rw [List.forall₂_map_left_iff] at r2 ⊢
      exact r2.imp fun q p hp => slice_of env pr num hs q.picks q.sheet q.name p hp
  · intro k p hk
    cases r2 with
    | cons r3 r2 =>
      cases k with
      | zero =>
        simp only [List.getElem?_cons_zero, Option.some.injEq] at hk
        subst hk
        rw [if_pos rfl, r3.comments, hs0]
      | succ k =>
        rw [List.getElem?_cons_succ] at hk
        rw [List.forall₂_map_left_iff] at r2
        obtain ⟨q, -, hq⟩ := forall2_get (P := fun p (q : Part env num d ds sub.vars) =>
          IsBlock env q.sheet (contentAt env d ds sub.vars q.idx q.cs) p) r2.flip k p hk
        rw [if_neg (by simp), hq.comments, q.comments]

end HF.Mdif
