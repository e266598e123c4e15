import Verif.Mdif.GroupProps
import Verif.Mdif.TableProps
import Verif.Sp.Text
import Verif.DataBlock.ConvertProps
/-
C63: the blocks read from an MDIF file.
-/
namespace HF.Mdif

open HF.DataDict.Spec HF.DataBlock
open HF.DataDict hiding rename delitem
open Units (isWs strip)

variable {β α : Type}

/-! ### Settings -/

/-- `name(real) = value`; `SWEEP.` before the name does not belong to it. -/
def Setting (num : Num α) (text : List Char) (p : List Char × α) : Prop :=
  ∃ l r full, text = l ++ '=' :: r ∧ '=' ∉ l ∧ '=' ∉ r ∧
    strip l = full ++ ['(', 'r', 'e', 'a', 'l', ')'] ∧ '(' ∉ full ∧
    (full = ['S', 'W', 'E', 'E', 'P', '.'] ++ p.1 ∨ ¬ ['S', 'W', 'E', 'E', 'P', '.'] <+: full ∧ full = p.1) ∧
    num.real (strip r) = some p.2

theorem setting_ok (num : Num α) (text : List Char) (p : List Char × α) (h : Setting num text p) :
    procPair num (splitEq text) = .ok p := by
  obtain ⟨l, r, full, rfl, h1, h2, h3, h4, h5, h6⟩ := h
  have e1 : splitEq (l ++ '=' :: r) = [full ++ ['(', 'r', 'e', 'a', 'l', ')'], strip r] := by
    rw [splitEq, Sp.splitOn_append _ _ _ h1, Sp.splitOn_field _ _ h2]
    simp [h3]
  have e2 : Sp.splitOn '(' (full ++ ['(', 'r', 'e', 'a', 'l', ')']) = [full, ['r', 'e', 'a', 'l', ')']] := by
    rw [Sp.splitOn_append '(' full ['r', 'e', 'a', 'l', ')'] h4]
    congr 1
  have e3 : stripP ['r', 'e', 'a', 'l', ')'] = Ty.real.text := by decide
  rw [e1]
  simp only [procPair, e2, e3, if_true, h6]
  have e4 : kwSWEEP = ['S', 'W', 'E', 'E', 'P', '.'] := by decide
  rw [e4]
  rcases h5 with h5 | ⟨h5, h5'⟩
  · rw [if_pos (List.isPrefixOf_iff_prefix.2 ⟨p.1, h5.symm⟩), h5]
    rfl
  · rw [if_neg (fun h => h5 (List.isPrefixOf_iff_prefix.1 h)), h5']

/-! ### One block -/

/-- What the text of a block says. -/
structure Content (α : Type) where
  /-- the title of the first column -/
  first : List Char
  /-- the name of the sweep -/
  name : List Char
  sweep : List α
  cols : List (List Char × List α)
  vars : List (List Char × α)
  attribs : List (List Char × α)

/-- `sweep.` in front of a title, in whatever case, does not belong to the name. -/
def SweepName (title name : List Char) : Prop :=
  (∃ pre, pre.map Char.toLower = ['s', 'w', 'e', 'e', 'p', '.'] ∧ title = pre ++ name) ∨
    (¬ ['s', 'w', 'e', 'e', 'p', '.'] <+: title.map Char.toLower) ∧ name = title

theorem cutSweep_iff (title name : List Char) : cutSweep title = name ↔ SweepName title name := by
  unfold cutSweep kwSweep SweepName
  by_cases h : ['s', 'w', 'e', 'e', 'p', '.'] <+: title.map Char.toLower
  · rw [if_pos (List.isPrefixOf_iff_prefix.2 h)]
    obtain ⟨r, hr⟩ := h
    have h6 : (title.take 6).map Char.toLower = ['s', 'w', 'e', 'e', 'p', '.'] := by
      rw [List.map_take, ← hr]; rfl
    constructor
    · rintro rfl
      exact Or.inl ⟨title.take 6, h6, (List.take_append_drop 6 title).symm⟩
    · rintro (⟨pre, hp, rfl⟩ | ⟨hn, -⟩)
      · have : pre.length = 6 := by simpa using congrArg List.length hp
        rw [← this, List.drop_left]
      · exact absurd ⟨r, hr⟩ hn
  · rw [if_neg (fun h' => h (List.isPrefixOf_iff_prefix.1 h'))]
    constructor
    · rintro rfl; exact Or.inr ⟨h, rfl⟩
    · rintro (⟨pre, hp, rfl⟩ | ⟨-, e⟩)
      · refine absurd ?_ h
        rw [List.map_append, hp]
        exact List.prefix_append _ _
      · exact e.symm

/-- The text of the block describes the content: the table with its first and its other columns (see
`C63_columns`), and the settings. -/
structure Describes (num : Num α) (s : Sheet) (c : Content α) : Prop where
  table : ∃ pss : List (List (List Char × Ty)),
    List.Forall₂ (fun text ps => List.Forall₂ (fun w p => Titled w p.1 p.2) (Text.words text) ps) s.header pss ∧
    (columns pss).Nodup ∧ (∀ ps ∈ pss.head?, ps ≠ []) ∧
    ∃ N, 0 < N ∧ s.data.length = N * pss.length ∧ columns pss = c.first :: c.cols.map Prod.fst ∧
      ∀ (i k : Nat) ps n t, pss[i]? = some ps → ps[k]? = some (n, t) →
        ∃ l, (n, l) ∈ (c.first, c.sweep) :: c.cols ∧ l.length = N ∧
          ∀ r < N, ∃ line, s.data[r * pss.length + i]? = some line ∧
            (valAt num t (Text.words line) (offset ps k)).isSome ∧
            valAt num t (Text.words line) (offset ps k) = l[r]?
  name : SweepName c.first c.name
  vars : List.Forall₂ (Setting num) s.vars c.vars
  attribs : List.Forall₂ (Setting num) s.attribs c.attribs

/-- The names of variables: columns and attributes. -/
def Content.names (c : Content α) : List (List Char) := c.cols.map Prod.fst ++ c.attribs.map Prod.fst

/-- Names do not interfere. -/
structure Separate (c : Content α) : Prop where
  nodup : c.names.Nodup
  sweep : c.name ∉ c.names
  elem : ∀ n ∈ c.names, ∀ m i j, isMatrixName (String.ofList n) = some (m, i, j) → m ∉ c.names.map String.ofList
  vars : (c.vars.map Prod.fst).Nodup
  attribs : ∀ n ∈ c.attribs.map Prod.fst, n ∉ c.vars.map Prod.fst

/-- The sweep. -/
def Content.dim (env : Env β α) (c : Content α) : Dim β :=
  ⟨.dimSweep, String.ofList c.name, c.sweep.map env.toCoord, none, none⟩

/-- A function of the sweep. -/
def IsColumn (d : Dim β) (l : List α) (a : Arr β α) : Prop :=
  a.dims = [d] ∧ a.nd.shape = [l.length] ∧ ∀ (r : Nat) x, l[r]? = some x → a.nd.get [r] = x

/-- A number. -/
def IsScalar (x : α) (a : Arr β α) : Prop := a.dims = [] ∧ a.nd.shape = [] ∧ a.nd.get [] = x

/-- The block that belongs to a text. -/
structure IsBlock (env : Env β α) (s : Sheet) (c : Content α) (p : Parsed β α) : Prop where
  name : p.name = s.name
  comments : p.comments = s.comments
  /-- the variables, in order: columns and attributes -/
  keys : keys p.block.vars = c.names.map String.ofList
  column : ∀ n l, (n, l) ∈ c.cols → ∃ a, lookup p.block.vars (String.ofList n) = some a ∧ IsColumn (c.dim env) l a
  attrib : ∀ n x, (n, x) ∈ c.attribs → ∃ a, lookup p.block.vars (String.ofList n) = some a ∧ IsScalar x a
  /-- the dimensions: partial sweeps and the sweep -/
  dims : ∀ n, lookup p.block.ivars (String.ofList n) =
    match lookup c.vars n with
    | some x => some ⟨.dimPartial, String.ofList n, [env.toCoord x], none, none⟩
    | none => if c.cols ≠ [] ∧ n = c.name then some (c.dim env) else none
  once : (p.block.ivars.map Prod.fst).Nodup

theorem mapM_some {X Y : Type} {f : X → Option Y} {l : List X} {l' : List Y}
    (h : List.Forall₂ (fun x y => f x = some y) l l') : l.mapM f = some l' := by
  induction h with
  | nil => rfl
  | cons h _ ih => rw [List.mapM_cons, h, ih]; rfl

theorem foldlM_vars (env : Env β α) (num : Num α) (ts : List (List Char)) (vs : List (List Char × α))
    (h : List.Forall₂ (Setting num) ts vs) : ∀ b : Block β α,
    ∃ b', (ts.map splitEq).foldlM (putVar env num) b = .ok b' ∧ b'.vars = b.vars ∧
      b'.ivars = assigns b.ivars (vs.map fun p => (String.ofList p.1,
        (⟨.dimPartial, String.ofList p.1, [env.toCoord p.2], none, none⟩ : Dim β))) := by
  induction h with
  | nil => intro b; exact ⟨b, rfl, rfl, rfl⟩
  | cons h _ ih =>
    intro b
    rename_i t p ts vs _
    have e : putVar env num b (splitEq t) = .ok (setDim b (String.ofList p.1)
        ⟨.dimPartial, String.ofList p.1, [env.toCoord p.2], none, none⟩) := by
      simp only [putVar, setting_ok num t p h]
    obtain ⟨b', h1, h2, h3⟩ := ih (setDim b (String.ofList p.1)
        ⟨.dimPartial, String.ofList p.1, [env.toCoord p.2], none, none⟩)
    refine ⟨b', ?_, h2, ?_⟩
    · rw [List.map_cons, List.foldlM_cons, e]; exact h1
    · rw [h3]; rfl

theorem foldlM_attribs (env : Env β α) (num : Num α) (ts : List (List Char)) (vs : List (List Char × α))
    (h : List.Forall₂ (Setting num) ts vs) : ∀ b b' : Block β α,
    writes env b (vs.map fun p => (String.ofList p.1, (⟨[], ⟨[], fun _ => p.2⟩⟩ : Arr β α))) = .ok b' →
    (ts.map splitEq).foldlM (putAttrib env num) b = .ok b' := by
  induction h with
  | nil =>
    intro b b' h
    simp only [List.map_nil, writes, Except.ok.injEq] at h
    subst h
    rfl
  | cons h _ ih =>
    intro b b' hw
    rename_i t p ts vs _
    rw [List.map_cons, writes] at hw
    rw [List.map_cons, List.foldlM_cons]
    simp only [putAttrib, setting_ok num t p h]
    split at hw
    · rename_i b1 _ h1
      rw [h1]
      exact ih b1 b' hw
    · cases hw

theorem ofList_inj {a b : List Char} (h : String.ofList a = String.ofList b) : a = b := by
  have := congrArg String.toList h
  simpa using this

theorem nodup_ofList {l : List (List Char)} (h : l.Nodup) : (l.map String.ofList).Nodup :=
  h.map_on fun _ _ _ _ e => ofList_inj e

/-- The table of a block. -/
theorem table_ok (env : Env β α) (num : Num α) (s : Sheet) (c : Content α) (h : Describes num s c) :
    procData env num s.raw.header s.raw.data = .ok (c.cols.map fun p => (String.ofList p.1, colArr env (c.dim env) p.2)) := by
  obtain ⟨pss, h1, h2, h4, N, hN, h5, h6, h7⟩ := h.table
  have h3 : (columns pss).head? = some c.first := by rw [h6]; rfl
  have hm : s.raw.header.mapM (fun hs => hs.mapM parseHeader) = some pss := by
    refine mapM_some ?_
    simp only [Sheet.raw, List.forall₂_map_left_iff]
    refine h1.imp fun t ps h => ?_
    refine mapM_some (h.imp fun w p h => ?_)
    exact (C63_title w p.1 p.2).2 h
  have hne : pss ≠ [] := by rintro rfl; simp [columns] at h3
  have hnd : (c.first :: c.cols.map Prod.fst).Nodup := h6 ▸ h2
  have hp : parseData num pss s.raw.data = .ok ((c.first, c.sweep) :: c.cols) := by
    refine (C63_columns num pss hne h2 _ _).2 ⟨N, hN, h5, by simp [h6], ?_⟩
    intro i k ps n t hi hk
    obtain ⟨l, a1, a2, a3⟩ := h7 i k ps n t hi hk
    exact ⟨l, (mem_iff_lookup (m := (c.first, c.sweep) :: c.cols) (by simpa using hnd) n l).1 a1, a2, a3⟩
  unfold procData
  rw [hm]
  simp only [hp]
  obtain ⟨ps, pss, rfl⟩ := List.exists_cons_of_ne_nil hne
  obtain ⟨p, ps, rfl⟩ := List.exists_cons_of_ne_nil (h4 ps rfl)
  obtain ⟨old, t⟩ := p
  have e : old = c.first := by simpa [columns] using h3
  subst e
  have hr : remove ((c.first, c.sweep) :: c.cols) c.first = c.cols := by
    unfold remove
    rw [List.filter_cons_of_neg (by simp), List.filter_eq_self]
    intro p hp
    have : p.1 ≠ c.first := fun e => (List.nodup_cons.1 hnd).1 (e ▸ List.mem_map_of_mem hp)
    simpa using this
  simp only [hr]
  simp [lookup, Content.dim, (cutSweep_iff _ _).2 h.name]

theorem isColumn_colArr (env : Env β α) (d : Dim β) (l : List α) : IsColumn d l (colArr env d l) := by
  refine ⟨rfl, rfl, fun r x h => ?_⟩
  simp only [colArr, List.headD_cons]
  rw [List.getD_eq_getElem?_getD, h]
  rfl

theorem keys_addDims_once (iv : OMap String (Dim β)) (ds : List (Dim β)) (h : (keys iv).Nodup) :
    (keys (addDims iv ds)).Nodup := by
  induction ds generalizing iv with
  | nil => exact h
  | cons d t ih =>
    refine ih (if member iv d.name then iv else assign iv d.name d) ?_
    split
    · exact h
    · exact keys_assigns_nodup [(d.name, d)] iv h

/-- The arrays of a block. -/
def Content.arrays (env : Env β α) (c : Content α) : List (String × Arr β α) :=
  (c.cols.map fun p => (String.ofList p.1, colArr env (c.dim env) p.2)) ++
    c.attribs.map fun p => (String.ofList p.1, (⟨[], ⟨[], fun _ => p.2⟩⟩ : Arr β α))

theorem block_exact (env : Env β α) (num : Num α) (s : Sheet) (c : Content α) (h : Describes num s c)
    (hs : Separate c) : ∃ p, parseBlock env num s.raw = .ok p ∧ IsBlock env s c p ∧ p.block.vars = c.arrays env := by
  have ht := table_ok env num s c h
  have hcn : (c.cols.map Prod.fst).Nodup := (List.nodup_append.1 hs.nodup).1
  obtain ⟨b1, e1, v1, i1⟩ := writes_new env (c.cols.map fun p => (String.ofList p.1, colArr env (c.dim env) p.2)) {}
    (by simp [keys]) (by
      intro w hw w' hw' d hd
      obtain ⟨p, hp, rfl⟩ := List.mem_map.1 hw
      obtain ⟨p', hp', rfl⟩ := List.mem_map.1 hw'
      simp only [colArr, List.mem_singleton] at hd
      subst hd
      intro e
      refine hs.sweep ?_
      rw [ofList_inj e]
      exact List.mem_append_left _ (List.mem_map_of_mem hp)) (by
      intro w hw m i j hm
      obtain ⟨p, hp, rfl⟩ := List.mem_map.1 hw
      refine ⟨by simp [keys], fun hk => ?_⟩
      refine hs.elem p.1 (List.mem_append_left _ (List.mem_map_of_mem hp)) m i j hm ?_
      rw [Content.names, List.map_append]
      refine List.mem_append_left _ ?_
      simpa [keys] using hk) (by
      have := nodup_ofList hcn
      simpa [keys, Function.comp_def] using this)
  have kw : keys (c.cols.map fun p => (String.ofList p.1, colArr env (c.dim env) p.2)) =
      (c.cols.map Prod.fst).map String.ofList := by simp [keys]
  obtain ⟨b2, e2, v2, i2⟩ := foldlM_vars env num s.vars c.vars h.vars b1
  simp only [List.nil_append] at v1
  -- the dimensions
  have d1 : ∀ n, lookup b1.ivars (String.ofList n) = if c.cols ≠ [] ∧ n = c.name then some (c.dim env) else none := by
    intro n
    rw [i1, lookup_addDims]
    simp only [lookup, Option.none_or]
    cases hc : c.cols with
    | nil => simp
    | cons p t =>
      simp only [List.map_cons, List.flatMap_cons, colArr, List.singleton_append, List.find?_cons, ne_eq, reduceCtorEq,
        not_false_eq_true, true_and]
      by_cases hn : n = c.name
      · subst hn; simp [Content.dim]
      · rw [if_neg hn]
        have : ∀ d : Dim β, d = c.dim env → (d.name == String.ofList n) = false := by
          rintro d rfl
          simp only [Content.dim, beq_eq_false_iff_ne, ne_eq]
          exact fun e => hn (ofList_inj e).symm
        rw [this _ rfl]
        simp only [List.find?_nil, Option.map_none, Option.none_or]
        rw [List.find?_eq_none]
        intro d hd
        obtain ⟨w, hw, hd⟩ := List.mem_flatMap.1 hd
        obtain ⟨q, hq, rfl⟩ := List.mem_map.1 hw
        simp only [List.mem_singleton] at hd
        rw [this d hd]
        simp
  have d2 : ∀ n, lookup b2.ivars (String.ofList n) = match lookup c.vars n with
      | some x => some ⟨.dimPartial, String.ofList n, [env.toCoord x], none, none⟩
      | none => if c.cols ≠ [] ∧ n = c.name then some (c.dim env) else none := by
    intro n
    rw [i2, lookup_assigns, d1]
    have hl : lookup (c.vars.map fun p => (String.ofList p.1,
        (⟨.dimPartial, String.ofList p.1, [env.toCoord p.2], none, none⟩ : Dim β))).reverse (String.ofList n) =
        (lookup c.vars n).map fun x => (⟨.dimPartial, String.ofList n, [env.toCoord x], none, none⟩ : Dim β) := by
      have hnd : ((c.vars.map fun p => (String.ofList p.1,
        (⟨.dimPartial, String.ofList p.1, [env.toCoord p.2], none, none⟩ : Dim β))).reverse.map Prod.fst).Nodup := by
        rw [List.map_reverse, List.nodup_reverse, List.map_map]
        have := nodup_ofList hs.vars
        simpa [Function.comp_def] using this
      cases hx : lookup c.vars n with
      | none =>
        rw [Option.map_none, lookup_none]
        intro hc
        rw [List.map_reverse, List.mem_reverse, List.map_map] at hc
        obtain ⟨p, hp, e⟩ := List.mem_map.1 hc
        have := ofList_inj e
        refine lookup_none.1 hx ?_
        rw [← this]
        exact List.mem_map_of_mem hp
      | some x =>
        rw [Option.map_some]
        refine (mem_iff_lookup hnd _ _).1 ?_
        rw [List.mem_reverse]
        exact List.mem_map.2 ⟨(n, x), (mem_iff_lookup hs.vars n x).2 hx, rfl⟩
    rw [hl]
    cases lookup c.vars n <;> simp
  -- attributes
  obtain ⟨b3, e3, v3, i3⟩ := writes_new env (c.attribs.map fun p => (String.ofList p.1, (⟨[], ⟨[], fun _ => p.2⟩⟩ : Arr β α))) b2
    (by
      intro w hw
      obtain ⟨p, hp, rfl⟩ := List.mem_map.1 hw
      rw [← lookup_none_iff', d2]
      have hpa : p.1 ∈ c.attribs.map Prod.fst := List.mem_map_of_mem hp
      rw [lookup_none.2 (hs.attribs p.1 hpa)]
      simp only
      rw [if_neg]
      rintro ⟨-, e⟩
      exact hs.sweep (e ▸ List.mem_append_right _ hpa)) (by
      intro w hw w' hw' d hd
      obtain ⟨p', hp', rfl⟩ := List.mem_map.1 hw'
      simp at hd) (by
      intro w hw m i j hm
      obtain ⟨p, hp, rfl⟩ := List.mem_map.1 hw
      have := hs.elem p.1 (List.mem_append_right _ (List.mem_map_of_mem hp)) m i j hm
      rw [Content.names, List.map_append, List.mem_append, not_or] at this
      rw [v2, v1, kw]
      refine ⟨this.1, ?_⟩
      simpa [keys] using this.2) (by
      have := nodup_ofList hs.nodup
      rw [Content.names, List.map_append] at this
      rw [v2, v1, kw]
      simpa [keys, Function.comp_def] using this)
  have hpart := foldlM_attribs env num s.attribs c.attribs h.attribs b2 b3 e3
  have hvars : b3.vars = (c.cols.map fun p => (String.ofList p.1, colArr env (c.dim env) p.2)) ++
      c.attribs.map fun p => (String.ofList p.1, (⟨[], ⟨[], fun _ => p.2⟩⟩ : Arr β α)) := by rw [v3, v2, v1]
  have hkeys : keys b3.vars = c.names.map String.ofList := by
    rw [hvars, Content.names]; simp [keys, Function.comp_def]
  have hivars : b3.ivars = b2.ivars := by
    rw [i3]
    have : (c.attribs.map fun p => (String.ofList p.1, (⟨[], ⟨[], fun _ => p.2⟩⟩ : Arr β α))).flatMap (fun w => w.2.dims) = [] := by
      simp [List.flatMap_map]
    rw [this]
    rfl
  have hnd : (keys b3.vars).Nodup := by rw [hkeys]; exact nodup_ofList hs.nodup
  refine ⟨⟨s.name, b3, s.comments⟩, ?_, ?_, hvars⟩
  · unfold parseBlock
    rw [ht]
    simp only [e1]
    have e2' : s.raw.vars.foldlM (putVar env num) b1 = .ok b2 := e2
    have e3' : s.raw.attribs.foldlM (putAttrib env num) b2 = .ok b3 := hpart
    simp only [e2', e3']
    rfl
  · refine ⟨rfl, rfl, hkeys, ?_, ?_, ?_, ?_⟩
    · intro n l hm
      refine ⟨colArr env (c.dim env) l, ?_, isColumn_colArr env _ l⟩
      refine mem_lookup hnd (p := (String.ofList n, colArr env (c.dim env) l)) ?_
      simp only [hvars]
      exact List.mem_append_left _ (List.mem_map.2 ⟨(n, l), hm, rfl⟩)
    · intro n x hm
      refine ⟨⟨[], ⟨[], fun _ => x⟩⟩, ?_, rfl, rfl, rfl⟩
      refine mem_lookup hnd (p := (String.ofList n, (⟨[], ⟨[], fun _ => x⟩⟩ : Arr β α))) ?_
      simp only [hvars]
      exact List.mem_append_right _ (List.mem_map.2 ⟨(n, x), hm, rfl⟩)
    · intro n
      simp only [hivars]
      exact d2 n
    · show (keys b3.ivars).Nodup
      rw [hivars, i2]
      refine keys_assigns_nodup _ _ ?_
      rw [i1]
      exact keys_addDims_once _ _ (by simp [keys])

/-- C63: a block has the columns of its table as functions of the first one, the attributes as numbers, and its
variables as partial sweeps. -/
theorem C63_block (env : Env β α) (num : Num α) (s : Sheet) (c : Content α) (h : Describes num s c)
    (hs : Separate c) : ∃ p, parseBlock env num s.raw = .ok p ∧ IsBlock env s c p := by
  obtain ⟨p, h1, h2, -⟩ := block_exact env num s c h hs
  exact ⟨p, h1, h2⟩

/-- C63: a block whose table has only one column loses it: the block has neither a variable nor a dimension
with these numbers. -/
theorem C63_single_refuted (env : Env β α) (num : Num α) (s : Sheet) (c : Content α) (h : Describes num s c)
    (hs : Separate c) (h1 : c.cols = []) (hv : c.name ∉ c.vars.map Prod.fst) :
    ∃ p, parseBlock env num s.raw = .ok p ∧ lookup p.block.ivars (String.ofList c.name) = none ∧
      keys p.block.vars = c.attribs.map fun a => String.ofList a.1 := by
  obtain ⟨p, hp, hb⟩ := C63_block env num s c h hs
  refine ⟨p, hp, ?_, ?_⟩
  · rw [hb.dims, lookup_none.2 hv]
    simp [h1]
  · rw [hb.keys, Content.names, h1]
    simp

/-! ### Files -/

/-- The file has something to say. -/
def nonblank (line : List Char) : Bool := line.any fun c => !isWs c

theorem tokenize_says {lines : List (List Char)} : ∀ {ts : List Tok},
    List.Forall₂ Says (lines.filter nonblank) ts → tokenize lines = ts := by
  induction lines with
  | nil => intro ts h; cases h; rfl
  | cons l ls ih =>
    intro ts h
    by_cases hb : nonblank l = true
    · rw [List.filter_cons_of_pos hb] at h
      cases h with
      | cons h1 h2 =>
        have := (C63_line l _).2 h1
        rw [tokenize, List.filterMap_cons, this]
        exact congrArg _ (ih h2)
    · rw [List.filter_cons_of_neg hb] at h
      have : tokenLine l = none := (C63_blank l).2 (by simpa [nonblank] using hb)
      rw [tokenize, List.filterMap_cons, this]
      exact ih h

theorem mapM_blocks (env : Env β α) (num : Num α) (scs : List (Sheet × Content α))
    (hd : ∀ p ∈ scs, Describes num p.1 p.2) (hs : ∀ p ∈ scs, Separate p.2) :
    ∃ ps, (scs.map fun p => p.1.raw).mapM (parseBlock env num) = .ok ps ∧
      List.Forall₂ (fun sc p => IsBlock env sc.1 sc.2 p) scs ps := by
  induction scs with
  | nil => exact ⟨[], rfl, .nil⟩
  | cons sc scs ih =>
    obtain ⟨ps, h1, h2⟩ := ih (fun p hp => hd p (List.mem_cons_of_mem _ hp)) (fun p hp => hs p (List.mem_cons_of_mem _ hp))
    obtain ⟨p, hp, hb⟩ := C63_block env num sc.1 sc.2 (hd sc (List.mem_cons_self ..)) (hs sc (List.mem_cons_self ..))
    exact ⟨p :: ps, by rw [List.map_cons, List.mapM_cons, hp, h1]; rfl, .cons hb h2⟩

/-- C63: the blocks of a file are read one after the other, each with what its own text says; what comes after
the last complete block is passed over. -/
theorem C63_read (env : Env β α) (num : Num α) (lines : List (List Char)) (scs : List (Sheet × Content α))
    (rest : List Tok)
    (said : List.Forall₂ Says (lines.filter nonblank) (scs.flatMap (fun p => p.1.toks) ++ rest)) (hr : Cut rest)
    (hne : scs ≠ []) (hd : ∀ p ∈ scs, Describes num p.1 p.2) (hs : ∀ p ∈ scs, Separate p.2) :
    ∃ ps, read env num false lines = .ok ps ∧ List.Forall₂ (fun sc p => IsBlock env sc.1 sc.2 p) scs ps := by
  obtain ⟨ps, h1, h2⟩ := mapM_blocks env num scs hd hs
  refine ⟨ps, ?_, h2⟩
  have e : tokenize lines = (scs.map Prod.fst).flatMap Sheet.toks ++ rest := by
    rw [tokenize_says said, List.flatMap_map]
  have g : groupBlocks false (tokenize lines) = (scs.map fun p => p.1.raw, none) := by
    rw [e, C63_blocks false _ rest hr]
    simp [atEnd, Function.comp_def]
  have hps : ps.isEmpty = false := by
    cases h2 with
    | nil => exact absurd rfl hne
    | cons _ _ => rfl
  unfold read
  simp only [g, h1, hps]
  rfl

/-- C63: a file without a complete block is an error. -/
theorem C63_read_none (env : Env β α) (num : Num α) (lines : List (List Char)) (rest : List Tok)
    (said : List.Forall₂ Says (lines.filter nonblank) rest) (hr : Cut rest) :
    read env num false lines = .error .parseError := by
  have g : groupBlocks false (tokenize lines) = ([], none) := by
    have := C63_blocks false [] rest hr
    rw [tokenize_says said]
    simpa [atEnd] using this
  unfold read
  simp only [g]
  rfl

/-- C63: one misplaced line makes the whole file unreadable, also the blocks before it. -/
theorem C63_read_wrong (env : Env β α) (num : Num α) (lines : List (List Char)) (scs : List (Sheet × Content α))
    (rest : List Tok)
    (said : List.Forall₂ Says (lines.filter nonblank) (scs.flatMap (fun p => p.1.toks) ++ rest)) (hr : Wrong rest)
    (hd : ∀ p ∈ scs, Describes num p.1 p.2) (hs : ∀ p ∈ scs, Separate p.2) :
    read env num false lines = .error .exception := by
  obtain ⟨ps, h1, -⟩ := mapM_blocks env num scs hd hs
  have e : tokenize lines = (scs.map Prod.fst).flatMap Sheet.toks ++ rest := by
    rw [tokenize_says said, List.flatMap_map]
  have g : groupBlocks false (tokenize lines) = (scs.map fun p => p.1.raw, some .exception) := by
    rw [e, C63_misplaced false _ rest hr]
    simp [Function.comp_def]
  unfold read
  simp only [g, h1]

/-! ### A file -/

def sheet1 : Sheet := ⟨[['h', 'i']], ["SWEEP.T(real) = 27".toList], "S".toList, ["n(real)=5".toList],
  ["Sweep.f(real) g(complex)".toList], ["1 22 333".toList, "333 4444 1".toList], []⟩

def content1 : Content Nat := ⟨"Sweep.f".toList, ['f'], [1, 3], [(['g'], [203, 401])], [(['T'], 2)], [(['n'], 1)]⟩

theorem describes1 : Describes num1 sheet1 content1 := by
  refine ⟨⟨[[("Sweep.f".toList, .real), (['g'], .complex)]], ?_, by decide, by simp, 2, by decide, rfl, by decide, ?_⟩,
    (cutSweep_iff _ _).1 (by decide), ?_, ?_⟩
  · refine .cons ?_ .nil
    have : Text.words "Sweep.f(real) g(complex)".toList = ["Sweep.f(real)".toList, "g(complex)".toList] := by decide
    rw [this]
    exact .cons ((C63_title _ _ _).1 (by decide)) (.cons ((C63_title _ _ _).1 (by decide)) .nil)
  · intro i k ps n t hi hk
    match i, hi with
    | 0, hi =>
      simp only [List.getElem?_cons_zero, Option.some.injEq] at hi
      subst hi
      match k, hk with
      | 0, hk =>
        cases hk
        refine ⟨[1, 3], by decide, rfl, ?_⟩
        intro r hr
        match r, hr with
        | 0, _ => exact ⟨"1 22 333".toList, by decide, by decide, by decide⟩
        | 1, _ => exact ⟨"333 4444 1".toList, by decide, by decide, by decide⟩
      | 1, hk =>
        cases hk
        refine ⟨[203, 401], by decide, rfl, ?_⟩
        intro r hr
        match r, hr with
        | 0, _ => exact ⟨"1 22 333".toList, by decide, by decide, by decide⟩
        | 1, _ => exact ⟨"333 4444 1".toList, by decide, by decide, by decide⟩
      | k + 2, hk => simp at hk
    | i + 1, hi => simp at hi
  · exact .cons ⟨"SWEEP.T(real) ".toList, " 27".toList, "SWEEP.T".toList, by decide, by decide, by decide, by decide, by decide,
      Or.inl (by decide), by decide⟩ .nil
  · exact .cons ⟨"n(real)".toList, "5".toList, "n".toList, by decide, by decide, by decide, by decide, by decide,
      Or.inr (by decide), by decide⟩ .nil

theorem separate1 : Separate content1 := by
  refine ⟨by decide, by decide, ?_, by decide, by decide⟩
  intro n hn m i j h
  have : n = ['g'] ∨ n = ['n'] := by simpa [Content.names, content1] using hn
  rcases this with rfl | rfl
  · rw [show isMatrixName (String.ofList ['g']) = none by decide] at h; cases h
  · rw [show isMatrixName (String.ofList ['n']) = none by decide] at h; cases h

example (env : Env β Nat) : ∃ ps, read env num1 false ["! hi".toList, [], "VAR SWEEP.T(real) = 27".toList, "BEGIN S".toList,
    "# n(real)=5".toList, "% Sweep.f(real) g(complex)".toList, "1 22 333".toList, "333 4444 1".toList, "END".toList] = .ok ps ∧
    List.Forall₂ (fun sc p => IsBlock env sc.1 sc.2 p) [(sheet1, content1)] ps := by
  refine C63_read env num1 _ [(sheet1, content1)] [] ?_ cut_nil (by simp) (by simpa using describes1) (by simpa using separate1)
  rw [show List.filter nonblank ["! hi".toList, [], "VAR SWEEP.T(real) = 27".toList, "BEGIN S".toList,
    "# n(real)=5".toList, "% Sweep.f(real) g(complex)".toList, "1 22 333".toList, "333 4444 1".toList, "END".toList] =
    ["! hi".toList, "VAR SWEEP.T(real) = 27".toList, "BEGIN S".toList,
    "# n(real)=5".toList, "% Sweep.f(real) g(complex)".toList, "1 22 333".toList, "333 4444 1".toList, "END".toList] by decide]
  simp only [List.flatMap_cons, List.flatMap_nil, List.append_nil, sheet1, Sheet.toks, toks, List.map_cons, List.map_nil,
    List.singleton_append, List.cons_append, List.nil_append]
  repeat' first | exact List.Forall₂.nil | refine List.Forall₂.cons ((C63_line _ _).1 (by decide)) ?_

end HF.Mdif
