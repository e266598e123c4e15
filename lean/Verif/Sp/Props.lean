import Verif.Sp.Parse
/-
C52: reading of SP data files.
-/
namespace HF.Sp

open HF.DataDict.Spec HF.DataBlock
open HF.DataDict hiding rename delitem
open Units (isWs strip)
open Text (join)

variable {β α : Type}

theorem isPrefixOf_at (c : List Char) : ['@'].isPrefixOf c = decide (c.head? = some '@') := by
  cases c with
  | nil => simp [List.isPrefixOf]
  | cons x t =>
    simp only [List.isPrefixOf, List.head?_cons, Option.some.injEq, Bool.and_true]
    by_cases h : x = '@'
    · subst h; rfl
    · have h' : ¬ '@' = x := fun e => h e.symm
      simp [h, h']

theorem at_key {s : String} (h : s.toList.head? = some '@') : ∃ n : String, s = String.ofList ('@' :: n.toList) := by
  cases e : s.toList with
  | nil => rw [e] at h; simp at h
  | cons c r =>
    rw [e] at h
    simp at h
    subst h
    exact ⟨String.ofList r, by rw [String.toList_ofList, ← e, String.ofList_toList]⟩

theorem at_inj {m n : String} (h : String.ofList ('@' :: m.toList) = String.ofList ('@' :: n.toList)) : m = n := by
  have := congrArg String.toList h
  simp only [String.toList_ofList, List.cons.injEq, true_and] at this
  rw [← String.ofList_toList (s := m), this, String.ofList_toList]

theorem parts_nodup (ofRat : ℚ → β) (props : OMap String Comments.PVal) (h : (keys props).Nodup) :
    (keys (parts ofRat props)).Nodup := by
  induction props with
  | nil => exact List.nodup_nil
  | cons p t ih =>
    have hn := List.nodup_cons.1 h
    have ih' := ih hn.2
    unfold parts at ih' ⊢
    rw [List.filterMap_cons]
    cases hp : part ofRat p with
    | none => exact ih'
    | some q =>
      simp only [keys, List.map_cons, List.nodup_cons]
      refine ⟨fun hc => ?_, ih'⟩
      obtain ⟨q', hq', e⟩ := List.mem_map.1 hc
      have h1 : (q.1, q.2) ∈ parts ofRat [p] := by simp [parts, hp]
      obtain ⟨x, u, h2, -⟩ := (mem_parts ofRat [p] q.1 q.2).1 h1
      obtain ⟨x', u', h3, -⟩ := (mem_parts ofRat t q'.1 q'.2).1 hq'
      simp only [List.mem_singleton] at h2
      apply hn.1
      rw [← h2]
      simp only
      rw [← e]
      exact List.mem_map.2 ⟨_, h3, rfl⟩

theorem coords_one (env : Env β α) (c : List α) : coords env [c] = c.map env.toCoord := by
  unfold coords
  simp only [List.headD_cons, List.map_cons, List.map_nil]
  rw [← List.map_eq_flatMap]
  apply List.ext_getElem
  · simp
  · intro i h1 h2
    have h3 : i < c.length := by simpa using h2
    simp [h3]

/-- The block made of a table of which all rows have at least `m` fields and one has no more. -/
theorem parse_table (env : Env β α) (num : Nat → β) (ofRat : ℚ → β) (conv : List Char → α) (b : Table)
    (hne : b.names ≠ []) (hfields : ∀ p ∈ b.names, Field p.1) (hp : Plain b)
    (hrow : ∀ r ∈ b.rows.head?, r.length = b.names.length) (hrows : b.rows ≠ [])
    (m : Nat) (hm1 : 1 ≤ m) (hle : ∀ r ∈ b.rows, m ≤ r.length) (hex : ∃ r ∈ b.rows, r.length = m) :
    ((∀ n x, (n, Comments.PVal.other x) ∈ b.props → n.toList.head? ≠ some '@') →
      ∃ p, parseBlock env num ofRat conv b.raw = .ok p ∧ IsBlock env num ofRat conv b m p ∧
        (b.rows.length = 1 → ∀ n ∈ (b.cols.take m).tail, 2 ≤ (b.positions m n).length →
          ∃ a, lookup p.block.vars n = some a ∧ a.dims = [repDim num (b.positions m n).length] ∧
            a.nd.shape = [(b.positions m n).length])) ∧
    ((∃ n x, (n, Comments.PVal.other x) ∈ b.props ∧ n.toList.head? = some '@') →
      parseBlock env num ofRat conv b.raw = .error .attributeError) := by
  obtain ⟨row, rs, hr⟩ := List.exists_cons_of_ne_nil hrows
  have hrow' : row.length = b.names.length := hrow row (by simp [hr])
  obtain ⟨-, -, -, hheader⟩ := header_line b.names hne hfields
  obtain ⟨n0, ns, hn⟩ := List.exists_cons_of_ne_nil hne
  have hfirst : b.cols.head? = some (String.ofList n0.1) := by simp [Table.cols, hn]
  have hh : (splitOn '\t' (strip b.raw.header)).map strip = b.names.map Prod.fst := by
    simp only [Table.raw, strip_strip]; exact hheader
  have hcols : (b.names.map Prod.fst).map String.ofList = b.cols := by simp [Table.cols]
  have hmin : ((b.values conv).map List.length).min? = some m := by
    rw [List.min?_eq_some_iff]
    constructor
    · obtain ⟨r, h1, h2⟩ := hex
      exact List.mem_map.2 ⟨r.map conv, List.mem_map.2 ⟨r, h1, rfl⟩, by simpa using h2⟩
    · intro k hk
      obtain ⟨r', h1, rfl⟩ := List.mem_map.1 hk
      obtain ⟨r, h2, rfl⟩ := List.mem_map.1 h1
      simpa using hle r h2
  have hmle : m ≤ b.cols.length := by
    have := hle row (by simp [hr])
    simp [Table.cols]; omega
  have hz := zipStar_cols env.junk (b.values conv) m hmin
  obtain ⟨l1, b', l2, l3, l4, l7, l5, l6⟩ := vars_spec env num b (b.values conv) (String.ofList n0.1) hfirst hp m hmle hm1
    (b.sweep env conv (String.ofList n0.1)) rfl _ rfl
  have hcoords : coords env [(b.values conv).map fun r => r.getD 0 env.junk] =
      (b.values conv).map fun r => env.toCoord (r.headD env.junk) := by
    rw [coords_one, List.map_map]
    apply List.map_congr_left
    intro r _
    cases r <;> rfl
  have hparse : parseBlock env num ofRat conv b.raw =
      match putPartials ofRat b' b.props with
      | .error e => .error e
      | .ok b'' => .ok ⟨b'', b.comments.filter fun c => !(['@'].isPrefixOf c),
            b.props.filter fun p => !(['@'].isPrefixOf p.1.toList)⟩ := by
    unfold parseBlock
    simp only [hh]
    have e1 : b.raw.data = row :: rs := hr
    have e2 : b.names.map Prod.fst = n0.1 :: ns.map Prod.fst := by rw [hn]; rfl
    have e3 : (b.raw.data.map fun f => f.map conv) = b.values conv := rfl
    rw [e3, hz, hcols]
    simp only [e1, e2]
    have e4 : ¬ ((n0.1 :: ns.map Prod.fst).length ≠ row.length) := by
      rw [← e2]; simp [hrow']
    rw [if_neg e4]
    simp only [l1, Option.getD_some]
    rw [hcoords]
    have e5 : (⟨.dimSweep, String.ofList n0.1, (b.values conv).map fun r => env.toCoord (r.headD env.junk),
        none, none⟩ : Dim β) = b.sweep env conv (String.ofList n0.1) := rfl
    rw [e5, l2]
    rfl
  constructor
  · intro hprops
    obtain ⟨b'', q1, q2, q3⟩ := putPartials_ok ofRat b.props (by
      intro p hp' r hr'
      cases hv : p.2 with
      | arr x u => exact ⟨x, u, rfl⟩
      | other x => exact absurd (by rw [hr']; rfl) (hprops p.1 x (by rw [← hv]; exact hp'))) b'
    rw [hparse, q1]
    have hnp : (keys b.props).Nodup := Comments.properties_nodup b.comments
    have hnparts := parts_nodup ofRat b.props hnp
    have hlook : ∀ n, lookup b''.ivars n = (lookup (parts ofRat b.props) n).or (lookup b'.ivars n) := by
      intro n
      rw [q3, lookup_assigns]
      congr 1
      cases hl : lookup (parts ofRat b.props) n with
      | none =>
        rw [lookup_none_iff'] at hl ⊢
        intro hc
        apply hl
        simpa [keys] using hc
      | some d =>
        have hmem := lookup_mem hl
        exact mem_lookup (m := (parts ofRat b.props).reverse) (p := (n, d))
          (by rw [List.map_reverse]; exact List.nodup_reverse.2 hnparts) (by simpa using hmem)
    have hparts : ∀ n, lookup b.props (String.ofList ('@' :: n.toList)) = none →
        lookup (parts ofRat b.props) n = none := by
      intro n h
      rw [lookup_none_iff'] at h ⊢
      intro hc
      obtain ⟨q, hq, rfl⟩ := List.mem_map.1 hc
      obtain ⟨x, u, h1, -⟩ := (mem_parts ofRat b.props q.1 q.2).1 hq
      exact h (List.mem_map.2 ⟨_, h1, rfl⟩)
    refine ⟨_, rfl, ?_, ?_⟩
    · constructor
      · rw [q2]; exact l3
      · intro first n hf hnm hone
        rw [hfirst] at hf
        simp only [Option.some.injEq] at hf
        subst hf
        obtain ⟨a, h1, h2⟩ := l4 n hnm
        have hpos : b.positions m n ≠ [] := by
          intro h
          rw [h] at h2
          simp only [List.map_nil, toVar, List.headD_nil] at h2
          obtain ⟨k, hk, e⟩ := List.getElem_of_mem (List.mem_of_mem_tail hnm)
          have hk1 : k < m := by simp at hk; omega
          have hk2 : k < b.cols.length := by omega
          have : k ∈ b.positions m n := by
            unfold Table.positions
            rw [List.mem_filter]
            refine ⟨by simpa using hk1, ?_⟩
            rw [List.getElem_take] at e
            simp [hk2, e]
          rw [h] at this
          simp at this
        obtain ⟨a', g1, -, g3, -⟩ := toVar_spec env num (b.sweep env conv (String.ofList n0.1)) (b.values conv)
          (b.positions m n) hpos
        rw [h2] at g1
        cases g1
        exact ⟨a, by rw [q2]; exact h1, g3 (by simpa [Table.values] using hone)⟩
      · intro first hf hno
        rw [hfirst] at hf
        simp only [Option.some.injEq] at hf
        subst hf
        rw [hlook, hparts _ hno, l5]; rfl
      · intro n x u h
        rw [hlook]
        have h1 : (n, (⟨.dimPartial, n, [ofRat x], u.map String.ofList, none⟩ : Dim β)) ∈ parts ofRat b.props :=
          (mem_parts ofRat b.props n _).2 ⟨x, u, lookup_mem h, rfl⟩
        rw [mem_lookup hnparts h1]; rfl
      · intro n hn'
        have h1 := (lookup_isSome_iff _ _).2 hn'
        rw [hlook] at h1
        by_cases h2 : (lookup (parts ofRat b.props) n).isSome = true
        · right; right
          by_contra h3
          rw [Bool.not_eq_true, Option.isSome_eq_false_iff, Option.isNone_iff_eq_none] at h3
          rw [hparts n h3] at h2
          simp at h2
        · rw [Bool.not_eq_true, Option.isSome_eq_false_iff, Option.isNone_iff_eq_none] at h2
          rw [h2, Option.none_or] at h1
          rcases l6 n ((lookup_isSome_iff _ _).1 h1) with rfl | h3
          · exact Or.inl hfirst
          · exact Or.inr (Or.inl h3)
      · simp only
        apply List.filter_congr
        intro c _
        rw [isPrefixOf_at]; simp
      · show (keys b''.ivars).Nodup
        rw [q3]
        exact keys_assigns_nodup _ _ l7
      · intro n
        simp only
        have : ∀ props : OMap String Comments.PVal,
            lookup (props.filter fun p => !(['@'].isPrefixOf p.1.toList)) n =
              if n.toList.head? = some '@' then none else lookup props n := by
          intro props
          induction props with
          | nil => simp [lookup]
          | cons p t ih =>
            obtain ⟨k, v⟩ := p
            by_cases hk : k.toList.head? = some '@'
            · rw [List.filter_cons_of_neg (by rw [isPrefixOf_at]; simp [hk]), ih]
              by_cases hnk : n = k
              · subst hnk; simp [hk]
              · simp [lookup, Ne.symm hnk]
            · rw [List.filter_cons_of_pos (by rw [isPrefixOf_at]; simp [hk])]
              by_cases hnk : n = k
              · subst hnk; simp [hk, lookup]
              · simpa [lookup, Ne.symm hnk] using ih
        exact this b.props
      · exact List.Nodup.sublist (List.Sublist.map _ List.filter_sublist) hnp
    · intro hone n hnm htwo
      obtain ⟨a, h1, h2⟩ := l4 n hnm
      obtain ⟨a', g1, -, -, g4⟩ := toVar_spec env num (b.sweep env conv (String.ofList n0.1)) (b.values conv)
        (b.positions m n) (by intro h; rw [h] at htwo; simp at htwo)
      rw [h2] at g1
      cases g1
      obtain ⟨k1, k2, -⟩ := g4 (by simpa [Table.values] using hone) htwo
      exact ⟨a, by rw [q2]; exact h1, k1, k2⟩
  · rintro ⟨n, x, h1, h2⟩
    obtain ⟨n', rfl⟩ := at_key h2
    rw [hparse, putPartials_error ofRat b.props _ x n'.toList (String.toList_ofList) h1 b']

/-! ### C52 -/

/-- The lines of a file are those of the tables; blank lines, the marker line, white space around
lines (line ends) do not count. -/
def Holds (ls : List (List Char)) (bs : List Table) : Prop :=
  (ls.map strip).filter (fun l => !Noise l) = ((bs.flatMap Table.lines).map strip).filter (fun l => !Noise l)

theorem tokenize_holds {ls : List (List Char)} {bs : List Table} (h : Holds ls bs) (hb : ∀ b ∈ bs, Good b) :
    tokenize ls = bs.flatMap Table.toks := by
  rw [tokenize_noise ls _ h]
  clear h
  induction bs with
  | nil => rfl
  | cons b bs ih =>
    rw [List.flatMap_cons, List.flatMap_cons, ← ih fun b h => hb b (by simp [h]),
      ← tokenize_table b (hb b (by simp))]
    simp [tokenize]

/-- A number of columns that is the same in all rows. -/
def Even (b : Table) : Prop := ∀ r ∈ b.rows, r.length = b.names.length

/-- No property with a name beginning with `@` lacks a number with unit. -/
def Swept (b : Table) : Prop := ∀ n x, (n, Comments.PVal.other x) ∈ b.props → n.toList.head? ≠ some '@'

theorem even_parse (env : Env β α) (num : Nat → β) (ofRat : ℚ → β) (conv : List Char → α) (b : Table)
    (hb : Good b) (hp : Plain b) (he : Even b) (hs : Swept b) :
    ∃ p, parseBlock env num ofRat conv b.raw = .ok p ∧ IsBlock env num ofRat conv b b.names.length p := by
  obtain ⟨row, rs, hr⟩ := List.exists_cons_of_ne_nil hb.rows
  have h1 : 1 ≤ b.names.length := List.length_pos_of_ne_nil hb.names
  obtain ⟨p, h2, h3, -⟩ := (parse_table env num ofRat conv b hb.names hb.fields hp
    (fun r h => he r (List.mem_of_mem_head? h)) hb.rows b.names.length h1
    (fun r h => (he r h).ge) ⟨row, by simp [hr], he row (by simp [hr])⟩).1 hs
  exact ⟨p, h2, h3⟩

/-- C52: every table of the file is read as a block with exactly its columns and its values. -/
theorem C52_read (env : Env β α) (num : Nat → β) (ofRat : ℚ → β) (conv : List Char → α)
    (ls : List (List Char)) (bs : List Table) (hne : bs ≠ []) (hl : Holds ls bs)
    (hb : ∀ b ∈ bs, Good b ∧ Plain b ∧ Even b ∧ Swept b) :
    ∃ ps, read env num ofRat conv ls = .ok ps ∧
      List.Forall₂ (fun b p => IsBlock env num ofRat conv b b.names.length p) bs ps := by
  have hg := groups_tables bs hne fun b h => (hb b h).1
  have hm : ∃ ps, (bs.map Table.raw).mapM (parseBlock env num ofRat conv) = .ok ps ∧
      List.Forall₂ (fun b p => IsBlock env num ofRat conv b b.names.length p) bs ps := by
    clear hl hne hg
    induction bs with
    | nil => exact ⟨[], rfl, .nil⟩
    | cons b bs ih =>
      obtain ⟨h1, h2, h3, h4⟩ := hb b (by simp)
      obtain ⟨p, e1, e2⟩ := even_parse env num ofRat conv b h1 h2 h3 h4
      obtain ⟨ps, e3, e4⟩ := ih fun b h => hb b (by simp [h])
      refine ⟨p :: ps, ?_, .cons e2 e4⟩
      rw [List.map_cons, List.mapM_cons, e1, e3]
      rfl
  obtain ⟨ps, e1, e2⟩ := hm
  refine ⟨ps, ?_, e2⟩
  simp only [read, tokenize_holds hl fun b h => (hb b h).1, hg, e1]

/-- C52: the number of names has to be that of the fields in the first row. -/
theorem C52_header_mismatch (env : Env β α) (num : Nat → β) (ofRat : ℚ → β) (conv : List Char → α)
    (ls : List (List Char)) (b : Table) (bs : List Table) (hl : Holds ls (b :: bs)) (hb : ∀ c ∈ b :: bs, Good c)
    (h : ∀ r ∈ b.rows.head?, r.length ≠ b.names.length) : read env num ofRat conv ls = .error .io := by
  have hg := groups_tables (b :: bs) (by simp) hb
  have h1 : parseBlock env num ofRat conv b.raw = .error .io := by
    have hgb := hb b (by simp)
    obtain ⟨row, rs, hr⟩ := List.exists_cons_of_ne_nil hgb.rows
    obtain ⟨n0, ns, hn⟩ := List.exists_cons_of_ne_nil hgb.names
    obtain ⟨-, -, -, hheader⟩ := header_line b.names hgb.names hgb.fields
    have hh : (splitOn '\t' (strip b.raw.header)).map strip = n0.1 :: ns.map Prod.fst := by
      simp only [Table.raw, strip_strip]; rw [hheader, hn]; rfl
    have e1 : b.raw.data = row :: rs := hr
    have h2 := h row (by simp [hr])
    rw [hn] at h2
    unfold parseBlock
    simp only [hh, e1]
    rw [if_pos]
    simpa using fun e => h2 e.symm
  simp only [read, tokenize_holds hl hb, hg, List.map_cons, List.mapM_cons, h1]
  rfl

/-- C52 fails for rows that are too short (other than the first one): they are not rejected, the
columns that are not in all rows are dropped silently. -/
theorem C52_short_row_refuted (env : Env β α) (num : Nat → β) (ofRat : ℚ → β) (conv : List Char → α)
    (ls : List (List Char)) (b : Table) (hl : Holds ls [b]) (hb : Good b) (hp : Plain b) (hs : Swept b)
    (hrow : ∀ r ∈ b.rows.head?, r.length = b.names.length) (short : List (List Char)) (hmem : short ∈ b.rows)
    (hmin : ∀ r ∈ b.rows, short.length ≤ r.length) (hlt : short.length < b.names.length) :
    ∃ p, read env num ofRat conv ls = .ok [p] ∧
      keys p.block.vars = (b.cols.take short.length).tail.eraseDups := by
  have hg := groups_tables [b] (by simp) (by simpa using hb)
  have h1 : 1 ≤ short.length := List.length_pos_of_ne_nil (hb.row short hmem)
  obtain ⟨p, h2, h3, -⟩ := (parse_table env num ofRat conv b hb.names hb.fields hp hrow hb.rows short.length h1
    hmin ⟨short, hmem, rfl⟩).1 hs
  refine ⟨p, ?_, h3.vars⟩
  simp only [read, tokenize_holds hl (by simpa using hb), hg, List.map_cons, List.map_nil, List.mapM_cons, h2]
  rfl

/-- C52 fails for tables with a single row: a variable that has several columns does not depend on
the sweep. -/
theorem C52_single_row_refuted (env : Env β α) (num : Nat → β) (ofRat : ℚ → β) (conv : List Char → α)
    (ls : List (List Char)) (b : Table) (hl : Holds ls [b]) (hb : Good b) (hp : Plain b) (he : Even b)
    (hs : Swept b) (h1 : b.rows.length = 1) (n : String) (hn : n ∈ b.cols.tail)
    (h2 : 2 ≤ (b.positions b.names.length n).length) :
    ∃ p a, read env num ofRat conv ls = .ok [p] ∧ lookup p.block.vars n = some a ∧
      a.dims = [repDim num (b.positions b.names.length n).length] := by
  have hg := groups_tables [b] (by simp) (by simpa using hb)
  obtain ⟨row, rs, hr⟩ := List.exists_cons_of_ne_nil hb.rows
  have h0 : 1 ≤ b.names.length := List.length_pos_of_ne_nil hb.names
  obtain ⟨p, e1, -, e3⟩ := (parse_table env num ofRat conv b hb.names hb.fields hp
    (fun r h => he r (List.mem_of_mem_head? h)) hb.rows b.names.length h0
    (fun r h => (he r h).ge) ⟨row, by simp [hr], he row (by simp [hr])⟩).1 hs
  have htake : b.cols.take b.names.length = b.cols := by
    apply List.take_of_length_le; simp [Table.cols]
  obtain ⟨a, f1, f2, -⟩ := e3 h1 n (by rw [htake]; exact hn) h2
  refine ⟨p, a, ?_, f1, f2⟩
  simp only [read, tokenize_holds hl (by simpa using hb), hg, List.map_cons, List.map_nil, List.mapM_cons, e1]
  rfl

/-- C52 fails for a sweep whose value is written with a signed exponent, as `%.16e` does: the file
can not be read at all. -/
theorem C52_exponent_refuted (env : Env β α) (num : Nat → β) (ofRat : ℚ → β) (conv : List Char → α)
    (ls : List (List Char)) (b : Table) (hl : Holds ls [b]) (hb : Good b) (hp : Plain b) (he : Even b)
    (n : String) (neg : Bool) (i f x : List Char) (s : Char)
    (hn : Comments.Name n.toList) (hnb : '[' ∉ n.toList) (hne : n.toList ≠ [])
    (hi : i.all Utils.isDigit = true) (hf : f.all Utils.isDigit = true) (hin : i ≠ [])
    (hs : s = '-' ∨ s = '+') (hx : x.all Utils.isDigit = true) (hxn : x ≠ [])
    (cs : List (List Char))
    (hc : b.comments = cs ++ [('@' :: n.toList) ++ '=' :: (Units.decimalText neg i (some f) ++ 'e' :: s :: x)]) :
    read env num ofRat conv ls = .error .attributeError := by
  have hg := groups_tables [b] (by simp) (by simpa using hb)
  obtain ⟨row, rs, hr⟩ := List.exists_cons_of_ne_nil hb.rows
  have h0 : 1 ≤ b.names.length := List.length_pos_of_ne_nil hb.names
  have hw : ∀ c, Utils.isDigit c = true → isWs c = false := by
    intro c h
    simp [isWs, Units.digit_ne h (by decide : Utils.isDigit ' ' = false),
      Units.digit_ne h (by decide : Utils.isDigit '\t' = false),
      Units.digit_ne h (by decide : Utils.isDigit '\n' = false),
      Units.digit_ne h (by decide : Utils.isDigit '\r' = false),
      Units.digit_ne h (by decide : Utils.isDigit '\x0b' = false),
      Units.digit_ne h (by decide : Utils.isDigit '\x0c' = false)]
  have htrim : Comments.Trim (Units.decimalText neg i (some f) ++ 'e' :: s :: x) := by
    constructor
    · obtain ⟨c, i', rfl⟩ := List.exists_cons_of_ne_nil hin
      simp only [List.all_cons, Bool.and_eq_true] at hi
      cases neg with
      | true => simp [Units.decimalText]; decide
      | false => simpa [Units.decimalText] using hw c hi.1
    · intro c h
      have e : Units.decimalText neg i (some f) ++ 'e' :: s :: x =
          (Units.decimalText neg i (some f) ++ ['e', s]) ++ x := by simp
      rw [e, List.getLast?_append, List.getLast?_eq_some_getLast hxn] at h
      simp only [Option.some_or, Option.mem_def, Option.some.injEq] at h
      subst h
      exact hw _ (List.all_eq_true.1 hx _ (List.getLast_mem hxn))
  have hname : Comments.Name ('@' :: n.toList) := by
    refine ⟨⟨by simp; decide, ?_⟩, ?_, ?_⟩
    · intro c h
      rw [List.getLast?_cons, List.getLast?_eq_some_getLast hne] at h
      apply hn.last
      rw [List.getLast?_eq_some_getLast hne]
      simpa using h
    · simp only [List.mem_cons, not_or]; exact ⟨by decide, hn.sep.1⟩
    · simp only [List.mem_cons, not_or]; exact ⟨by decide, hn.sep.2⟩
  have hparse := Comments.C53_plain ('@' :: n.toList) [] [] (Units.decimalText neg i (some f) ++ 'e' :: s :: x) '='
    hname (by simp only [List.mem_cons, not_or]; exact ⟨by decide, hnb⟩) (by simp [Comments.Blank])
    (by simp [Comments.Blank]) (Or.inr rfl) (by simp) htrim
  simp only [List.append_nil, List.nil_append] at hparse
  have hclean : Comments.clean (('@' :: n.toList) ++ '=' :: (Units.decimalText neg i (some f) ++ 'e' :: s :: x)) =
      ('@' :: n.toList) ++ '=' :: (Units.decimalText neg i (some f) ++ 'e' :: s :: x) := by
    have := Comments.clean_text 0 [] [] (('@' :: n.toList) ++ '=' :: (Units.decimalText neg i (some f) ++ 'e' :: s :: x))
      (by simp [Comments.Blank]) (by simp [Comments.Blank]) (by simp) ⟨by simp; decide, by
        have h := htrim.last
        intro c hc
        apply h c
        rw [List.getLast?_append, List.getLast?_cons] at hc
        obtain ⟨y, hy⟩ : ∃ y, (Units.decimalText neg i (some f) ++ 'e' :: s :: x).getLast? = some y :=
          ⟨_, List.getLast?_eq_some_getLast (by simp)⟩
        rw [hy] at hc ⊢
        simpa using hc⟩ (Or.inr (by simp))
    simpa using this
  have hlook := Comments.C53_declared cs _ _ _ _ (by rw [hclean]; exact hparse) (String.ofList ('@' :: n.toList))
  rw [if_pos rfl, ← hc, Comments.C53_signed_exponent_refuted neg i (some f) s x hi (by simpa using hf) (Or.inl hin) hs]
    at hlook
  have e := (parse_table env num ofRat conv b hb.names hb.fields hp
    (fun r h => he r (List.mem_of_mem_head? h)) hb.rows b.names.length h0
    (fun r h => (he r h).ge) ⟨row, by simp [hr], he row (by simp [hr])⟩).2
    ⟨_, _, lookup_mem hlook, by simp⟩
  simp only [read, tokenize_holds hl (by simpa using hb), hg, List.map_cons, List.map_nil, List.mapM_cons, e]
  rfl

/-- C52 fails for a table whose rows begin with a letter (`nan`, `inf`, names): the first such row is
taken for another header and the file is rejected. -/
theorem C52_letter_row_refuted (env : Env β α) (num : Nat → β) (ofRat : ℚ → β) (conv : List Char → α)
    (cs : List (List Char)) (hcs : ∀ c ∈ cs, (∀ x ∈ c.getLast?, isWs x = false) ∧ ¬ marker <+: c)
    (ns : List (List Char × Nat)) (hne : ns ≠ []) (hf : ∀ p ∈ ns, Field p.1)
    (hl : ∀ p ∈ ns.head?, ∀ c ∈ p.1.head?, isLetter c = true)
    (row : List Char) (c : Char) (hc : (strip row).head? = some c) (hlc : isLetter c = true)
    (rest : List (List Char)) :
    read env num ofRat conv (cs.map ('!' :: ·) ++ join '\t' (ns.map padded) :: row :: rest) =
      .error .indexError := by
  have ht : tokenize (cs.map ('!' :: ·) ++ join '\t' (ns.map padded) :: row :: rest) =
      cs.map (Tok.mk .comment) ++ ⟨.header, strip (join '\t' (ns.map padded))⟩ :: ⟨.header, strip row⟩ ::
        tokenize rest := by
    unfold tokenize
    rw [List.filterMap_append, List.filterMap_cons, header_tok _ hne hf hl, List.filterMap_cons,
      tokenLine_header hc hlc, List.filterMap_map,
      filterMap_some (f := tokenLine ∘ ('!' :: ·)) (g := Tok.mk .comment) cs fun c hc =>
      tokenLine_comment (hcs c hc).1 (hcs c hc).2]
  have hd : ∀ l : List Tok, (∀ t ∈ l, t.tag = .comment) → ∀ (t : Tok) (m : List Tok), t.tag ≠ .comment →
      (l ++ t :: m).dropWhile (fun t => decide (t.tag = .comment)) = t :: m := by
    intro l hl t m ht
    rw [List.dropWhile_append_of_pos (by simpa using hl), List.dropWhile_cons]; simp [ht]
  have hgb : ∀ l : List Tok, l ≠ [] → groupBlocks l = groups l := by
    intro l hl
    cases l with
    | nil => exact absurd rfl hl
    | cons t ts => rfl
  have hg := groups_eq _ _ _ _ (hd (cs.map (Tok.mk .comment)) (by simp)
    ⟨.header, strip (join '\t' (ns.map padded))⟩ (⟨.header, strip row⟩ :: tokenize rest) (by simp)) rfl
  simp only [List.dropWhile_cons, List.takeWhile_cons, reduceCtorEq, decide_false, Bool.false_eq_true, if_false,
    List.map_nil] at hg
  simp only [read, ht]
  rw [hgb _ (by simp), hg]
  simp only [List.mapM_cons, parseBlock]
  rfl

end HF.Sp
