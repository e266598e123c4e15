import Verif.Sp.Model
import Mathlib.Data.List.TakeWhile
import Mathlib.Data.List.DropRight
/-
Text of SP data files: what a file with given blocks looks like, and its tokens.
-/
namespace HF.Sp

open HF.DataDict.Spec HF.DataBlock
open Units (isWs strip)
open Text (join join_cons join_snoc strip_id)

/-! ### Specification -/

/-- Text of a field between tabs: not empty, no tab in it, no white space at its ends. -/
structure Field (f : List Char) : Prop where
  ne : f ≠ []
  tab : '\t' ∉ f
  head : ∀ c ∈ f.head?, isWs c = false
  last : ∀ c ∈ f.getLast?, isWs c = false

/-- A block of a file: comments, names of the columns each with a number of blanks that pad it,
and rows of fields. -/
structure Table where
  comments : List (List Char)
  names : List (List Char × Nat)
  rows : List (List (List Char))

/-- The name as it is in the file. -/
def padded (p : List Char × Nat) : List Char := p.1 ++ List.replicate p.2 ' '

/-- The lines of the file. -/
def Table.lines (b : Table) : List (List Char) :=
  b.comments.map ('!' :: ·) ++ join '\t' (b.names.map padded) :: b.rows.map (join '\t')

/-- `"Fullcomments"` -/
def marker : List Char := ['F', 'u', 'l', 'l', 'c', 'o', 'm', 'm', 'e', 'n', 't', 's']

structure Good (b : Table) : Prop where
  comments : ∀ c ∈ b.comments, (∀ x ∈ c.getLast?, isWs x = false) ∧ ¬ marker <+: c
  names : b.names ≠ []
  fields : ∀ p ∈ b.names, Field p.1
  letter : ∀ p ∈ b.names.head?, ∀ c ∈ p.1.head?, isLetter c = true
  rows : b.rows ≠ []
  row : ∀ r ∈ b.rows, r ≠ []
  cells : ∀ r ∈ b.rows, ∀ f ∈ r, Field f
  start : ∀ r ∈ b.rows, ∀ f ∈ r.head?, ∀ c ∈ f.head?, isLetter c = false ∧ c ≠ '!'

/-- Lines that say nothing: blank ones and the one above all comments. -/
def Noise (l : List Char) : Bool := l = [] || ('!' :: marker).isPrefixOf l

/-- The text of a block as the reader has it. -/
def Table.raw (b : Table) : Raw := ⟨b.comments, strip (join '\t' (b.names.map padded)), b.rows⟩

/-! ### Fields -/

theorem splitOn_ne (sep : Char) (s : List Char) : splitOn sep s ≠ [] := by
  cases s with
  | nil => simp [splitOn]
  | cons c t =>
    unfold splitOn
    split
    · simp
    · split <;> simp

theorem splitOn_field (sep : Char) (f : List Char) (hf : sep ∉ f) : splitOn sep f = [f] := by
  induction f with
  | nil => rfl
  | cons c t ih =>
    rw [splitOn, if_neg (fun h => hf (by simp [h])), ih (fun h => hf (by simp [h]))]

theorem splitOn_append (sep : Char) (f r : List Char) (hf : sep ∉ f) :
    splitOn sep (f ++ sep :: r) = f :: splitOn sep r := by
  induction f with
  | nil => simp [splitOn]
  | cons c t ih =>
    rw [List.cons_append, splitOn, if_neg (fun h => hf (by simp [h])), ih (fun h => hf (by simp [h]))]

theorem splitOn_join (sep : Char) : ∀ fs : List (List Char), fs ≠ [] → (∀ f ∈ fs, sep ∉ f) →
    splitOn sep (join sep fs) = fs
  | [], h, _ => absurd rfl h
  | [f], _, h => by rw [join, splitOn_field sep f (h f (by simp))]
  | f :: g :: fs, _, h => by
    rw [join, splitOn_append sep f _ (h f (by simp)),
      splitOn_join sep (g :: fs) (by simp) fun f hf => h f (by simp [hf])]

theorem join_head {sep : Char} {f : List Char} (fs : List (List Char)) (hf : f ≠ []) :
    (join sep (f :: fs)).head? = f.head? := by
  obtain ⟨r, hr⟩ := join_cons sep f fs
  rw [hr]
  cases f with
  | nil => exact absurd rfl hf
  | cons c t => rfl

theorem join_last {sep : Char} {f : List Char} (fs : List (List Char)) (hf : f ≠ []) :
    (join sep (fs ++ [f])).getLast? = f.getLast? := by
  obtain ⟨r, hr⟩ := join_snoc sep f fs
  rw [hr, List.getLast?_append, List.getLast?_eq_some_getLast hf]
  rfl

theorem strip_fields (sep : Char) (fs : List (List Char)) (h : ∀ f ∈ fs, Field f) :
    strip (join sep fs) = join sep fs := by
  apply strip_id
  · cases fs with
    | nil => simp [join]
    | cons f fs => rw [join_head fs (h f (by simp)).ne]; exact (h f (by simp)).head
  · rcases List.eq_nil_or_concat fs with rfl | ⟨gs, f, rfl⟩
    · simp [join]
    · rw [List.concat_eq_append] at *
      rw [join_last gs (h f (by simp)).ne]; exact (h f (by simp)).last

theorem dropWhile_head {p : Char → Bool} {l : List Char} (h : ∀ c ∈ l.head?, p c = false) :
    l.dropWhile p = l := by
  cases l with
  | nil => rfl
  | cons c l => rw [List.dropWhile_cons, h c (by simp)]; simp

theorem dropWhile_replicate (k : Nat) (l : List Char) :
    (List.replicate k ' ' ++ l).dropWhile isWs = l.dropWhile isWs := by
  induction k with
  | zero => rfl
  | succ k ih => rw [List.replicate_succ, List.cons_append, List.dropWhile_cons,
      if_pos (by decide)]; exact ih

/-- Blanks at the end are stripped. -/
theorem strip_pad (s : List Char) (k : Nat) (h1 : ∀ c ∈ s.head?, isWs c = false)
    (h2 : ∀ c ∈ s.getLast?, isWs c = false) : strip (s ++ List.replicate k ' ') = s := by
  cases s with
  | nil =>
    have := dropWhile_replicate k []
    rw [List.append_nil] at this
    simp [strip, this]
  | cons c t =>
    unfold strip
    rw [dropWhile_head (l := c :: t ++ List.replicate k ' ') (by simpa using h1), List.reverse_append,
      List.reverse_replicate, dropWhile_replicate,
      dropWhile_head (by rw [List.head?_reverse]; exact h2), List.reverse_reverse]

theorem strip_padded {p : List Char × Nat} (h : Field p.1) : strip (padded p) = p.1 :=
  strip_pad p.1 p.2 h.head h.last

theorem head_dropWhile {p : Char → Bool} {l : List Char} {c : Char} (h : (l.dropWhile p).head? = some c) :
    p c = false := by
  induction l with
  | nil => simp at h
  | cons d l ih =>
    rw [List.dropWhile_cons] at h
    split at h
    · exact ih h
    · rename_i hd; simp at h; subst h; simpa using hd

theorem strip_strip (s : List Char) : strip (strip s) = strip s := by
  apply strip_id
  · intro c hc
    have hpre := List.reverse_prefix.2 (List.dropWhile_suffix (l := (s.dropWhile isWs).reverse) isWs)
    rw [List.reverse_reverse] at hpre
    obtain ⟨r, hr⟩ := hpre
    apply head_dropWhile (l := s)
    unfold strip at hc
    rw [← hr, List.head?_append, Option.mem_def.1 hc]; rfl
  · intro c hc
    unfold strip at hc
    rw [List.getLast?_reverse] at hc
    exact head_dropWhile hc

/-- The header line: stripped, and its fields. -/
theorem header_line (ns : List (List Char × Nat)) (hne : ns ≠ []) (hf : ∀ p ∈ ns, Field p.1) :
    ∃ k, join '\t' (ns.map padded) = strip (join '\t' (ns.map padded)) ++ List.replicate k ' ' ∧
      (strip (join '\t' (ns.map padded))).head? = (ns.head?.bind fun p => p.1.head?) ∧
      (splitOn '\t' (strip (join '\t' (ns.map padded)))).map strip = ns.map Prod.fst := by
  obtain ⟨gs, p, rfl⟩ : ∃ gs p, ns = gs ++ [p] := by
    rcases List.eq_nil_or_concat ns with h | ⟨gs, p, h⟩
    · exact absurd h hne
    · exact ⟨gs, p, by simpa using h⟩
  have hp := hf p (by simp)
  have hg : ∀ q ∈ gs, Field q.1 := fun q hq => hf q (by simp [hq])
  have hpad : ∀ (l : List (List Char × Nat)), join '\t' ((l ++ [p]).map padded) =
      join '\t' (l.map padded ++ [p.1]) ++ List.replicate p.2 ' ' := by
    intro l
    induction l with
    | nil => simp [join, padded]
    | cons q l ih =>
      cases l with
      | nil => simp [join, padded]
      | cons q' l =>
        simp only [List.map_append, List.map_cons, List.map_nil, List.cons_append, join] at ih ⊢
        rw [ih]
        simp
  have hhead : (join '\t' (gs.map padded ++ [p.1])).head? = ((gs ++ [p]).head?.bind fun p => p.1.head?) := by
    cases gs with
    | nil => simp [join]
    | cons q gs =>
      have hq := hg q (by simp)
      have hqn : padded q ≠ [] := by simp [padded, hq.ne]
      rw [List.map_cons, List.cons_append, join_head _ hqn, padded, List.head?_append]
      simp only [List.cons_append, List.head?_cons, Option.bind_some]
      cases h : q.1 with
      | nil => exact absurd h hq.ne
      | cons c t => simp
  have hs : strip (join '\t' ((gs ++ [p]).map padded)) = join '\t' (gs.map padded ++ [p.1]) := by
    rw [hpad]
    apply strip_pad
    · rw [hhead]
      intro c hc
      cases gs with
      | nil => exact hp.head c (by simpa using hc)
      | cons q gs => exact (hg q (by simp)).head c (by simpa using hc)
    · rw [join_last _ hp.ne]; exact hp.last
  refine ⟨p.2, ?_, ?_, ?_⟩
  · rw [hs]; exact hpad gs
  · rw [hs, hhead]
  · rw [hs, splitOn_join _ _ (by simp)]
    · rw [List.map_append, List.map_append, List.map_map]
      congr 1
      · exact List.map_congr_left fun q hq => strip_padded (hg q hq)
      · simp only [List.map_cons, List.map_nil, List.cons.injEq, and_true]
        exact strip_id _ hp.head hp.last
    · intro f h
      rcases List.mem_append.1 h with h | h
      · obtain ⟨q, hq, rfl⟩ := List.mem_map.1 h
        simp [padded, (hg q hq).tab]
      · simp at h; subst h; exact hp.tab

/-! ### Tokens -/

theorem tokenLine_strip (l : List Char) : tokenLine (strip l) = tokenLine l := by
  simp only [tokenLine, strip_strip]

theorem tokenLine_noise {l : List Char} (h : Noise (strip l) = true) : tokenLine l = none := by
  unfold tokenLine
  cases h' : strip l with
  | nil => rfl
  | cons c r =>
    rw [h'] at h
    simp only [Noise, reduceCtorEq, decide_false, Bool.false_or] at h
    exact if_pos h

theorem tokenLine_comment {c : List Char} (h1 : ∀ x ∈ c.getLast?, isWs x = false) (h2 : ¬ marker <+: c) :
    tokenLine ('!' :: c) = some ⟨.comment, c⟩ := by
  have hs : strip ('!' :: c) = '!' :: c := by
    apply strip_id
    · simp; decide
    · intro x hx
      rw [List.getLast?_cons] at hx
      cases h : c.getLast? with
      | none => rw [h] at hx; simp at hx; subst hx; decide
      | some y => rw [h] at hx; simp at hx; subst hx; exact h1 _ (by simp [h])
  have hp : fullcomments.isPrefixOf ('!' :: c) = false := by
    rw [Bool.eq_false_iff, ne_eq, List.isPrefixOf_iff_prefix]
    intro h
    exact h2 ((List.cons_prefix_cons.1 h).2)
  simp only [tokenLine, hs, hp]
  simp

theorem tokenLine_header {l : List Char} {c : Char} (hc : (strip l).head? = some c)
    (h : isLetter c = true) : tokenLine l = some ⟨.header, strip l⟩ := by
  unfold tokenLine
  cases h' : strip l with
  | nil => rw [h'] at hc; simp at hc
  | cons d r =>
    rw [h'] at hc
    simp at hc
    subst hc
    have hne : d ≠ '!' := by rintro rfl; revert h; decide
    have hp : fullcomments.isPrefixOf (d :: r) = false := by
      rw [Bool.eq_false_iff, ne_eq, List.isPrefixOf_iff_prefix]
      intro h
      exact hne (List.cons_prefix_cons.1 h).1.symm
    simp [hp, hne, h]

theorem tokenLine_data {l : List Char} {c : Char} (hc : (strip l).head? = some c)
    (h : isLetter c = false) (hne : c ≠ '!') : tokenLine l = some ⟨.data, strip l⟩ := by
  unfold tokenLine
  cases h' : strip l with
  | nil => rw [h'] at hc; simp at hc
  | cons d r =>
    rw [h'] at hc
    simp at hc
    subst hc
    have hp : fullcomments.isPrefixOf (d :: r) = false := by
      rw [Bool.eq_false_iff, ne_eq, List.isPrefixOf_iff_prefix]
      intro h
      exact hne (List.cons_prefix_cons.1 h).1.symm
    simp [hp, hne, h]

/-- Tokens of the lines of a block. -/
def Table.toks (b : Table) : List Tok :=
  b.comments.map (Tok.mk .comment) ++ ⟨.header, strip (join '\t' (b.names.map padded))⟩ ::
    b.rows.map fun r => ⟨.data, join '\t' r⟩

theorem filterMap_some {X Y : Type} {f : X → Option Y} {g : X → Y} (l : List X) (h : ∀ x ∈ l, f x = some (g x)) :
    l.filterMap f = l.map g := by
  induction l with
  | nil => rfl
  | cons x l ih => rw [List.filterMap_cons, h x (by simp), ih fun y hy => h y (by simp [hy])]; rfl

theorem header_tok (ns : List (List Char × Nat)) (hne : ns ≠ []) (hf : ∀ p ∈ ns, Field p.1)
    (hl : ∀ p ∈ ns.head?, ∀ c ∈ p.1.head?, isLetter c = true) :
    tokenLine (join '\t' (ns.map padded)) = some ⟨.header, strip (join '\t' (ns.map padded))⟩ := by
  obtain ⟨k, -, h2, -⟩ := header_line ns hne hf
  cases ns with
  | nil => exact absurd rfl hne
  | cons p ns =>
    cases hp : p.1 with
    | nil => exact absurd hp (hf p (by simp)).ne
    | cons c t =>
      exact tokenLine_header (c := c) (by rw [h2]; simp [hp]) (hl p (by simp) c (by simp [hp]))

theorem row_tok (r : List (List Char)) (hne : r ≠ []) (hf : ∀ f ∈ r, Field f)
    (hs : ∀ f ∈ r.head?, ∀ c ∈ f.head?, isLetter c = false ∧ c ≠ '!') :
    tokenLine (join '\t' r) = some ⟨.data, join '\t' r⟩ := by
  cases r with
  | nil => exact absurd rfl hne
  | cons f fs =>
    have hff := hf f (by simp)
    cases hp : f with
    | nil => exact absurd hp hff.ne
    | cons c t =>
      subst hp
      obtain ⟨h1, h2⟩ := hs (c :: t) (by simp) c (by simp)
      have e := strip_fields '\t' ((c :: t) :: fs) hf
      have := tokenLine_data (l := join '\t' ((c :: t) :: fs)) (c := c) (by
        rw [e, join_head fs (by simp)]; rfl) h1 h2
      rw [e] at this
      exact this

theorem tokenize_table (b : Table) (hb : Good b) : tokenize b.lines = b.toks := by
  unfold tokenize Table.lines Table.toks
  rw [List.filterMap_append, List.filterMap_cons, header_tok _ hb.names hb.fields hb.letter,
    List.filterMap_map, List.filterMap_map]
  simp only
  rw [filterMap_some (f := tokenLine ∘ join '\t') (g := fun r => (⟨.data, join '\t' r⟩ : Tok)) b.rows fun r hr =>
      row_tok r (hb.row r hr) (hb.cells r hr) (hb.start r hr),
    filterMap_some (f := tokenLine ∘ ('!' :: ·)) (g := Tok.mk .comment) b.comments fun c hc =>
      tokenLine_comment (hb.comments c hc).1 (hb.comments c hc).2]

/-- Blank lines, indentation, line ends and the marker line do not matter. -/
theorem tokenize_noise (ls ls' : List (List Char))
    (h : (ls.map strip).filter (fun l => !Noise l) = (ls'.map strip).filter (fun l => !Noise l)) :
    tokenize ls = tokenize ls' := by
  have key : ∀ ls, tokenize ls = ((ls.map strip).filter (fun l => !Noise l)).filterMap tokenLine := by
    intro ls
    unfold tokenize
    induction ls with
    | nil => rfl
    | cons l ls ih =>
      rw [List.map_cons, List.filterMap_cons, List.filter_cons]
      cases hn : Noise (strip l) with
      | true => rw [tokenLine_noise hn, ih]; rfl
      | false =>
        rw [Bool.not_false, if_pos rfl, List.filterMap_cons, tokenLine_strip, ih]
  rw [key, key, h]

/-! ### Grouping -/

theorem groups_eq (ts : List Tok) (t r : Tok) (rest : List Tok)
    (h : ts.dropWhile (fun t => decide (t.tag = .comment)) = t :: r :: rest) (ht : t.tag = .header) :
    groups ts =
      if (r :: rest).dropWhile (fun t => decide (t.tag = .data)) = [] then
        ([⟨(ts.takeWhile fun t => decide (t.tag = .comment)).map Tok.rad, t.rad,
          ((r :: rest).takeWhile fun t => decide (t.tag = .data)).map fun d => splitOn '\t' d.rad⟩], none)
      else
        (⟨(ts.takeWhile fun t => decide (t.tag = .comment)).map Tok.rad, t.rad,
          ((r :: rest).takeWhile fun t => decide (t.tag = .data)).map fun d => splitOn '\t' d.rad⟩ ::
          (groups ((r :: rest).dropWhile fun t => decide (t.tag = .data))).1,
          (groups ((r :: rest).dropWhile fun t => decide (t.tag = .data))).2) := by
  rw [groups]
  split
  · rename_i h'; rw [h] at h'; simp at h'
  · rename_i t' rest1 h'
    rw [h] at h'
    rw [List.cons.injEq] at h'
    obtain ⟨rfl, rfl⟩ := h'
    rw [if_pos ht]
    simp only
    split
    · rename_i h'; rw [if_pos h']
    · rename_i u rest'' h'; rw [h', if_neg (by simp)]

theorem groups_table (b : Table) (hr : b.rows ≠ []) (hcell : ∀ r ∈ b.rows, r ≠ [] ∧ ∀ f ∈ r, Field f)
    (rest : List Tok) (hrest : ∀ t ∈ rest.head?, t.tag ≠ .data) :
    groups (b.toks ++ rest) =
      if rest = [] then ([b.raw], none) else (b.raw :: (groups rest).1, (groups rest).2) := by
  obtain ⟨r, rs, hrs⟩ := List.exists_cons_of_ne_nil hr
  have hd : ∀ l : List Tok, (∀ t ∈ l, t.tag = .comment) → ∀ (t : Tok) (m : List Tok), t.tag ≠ .comment →
      (l ++ t :: m).takeWhile (fun t => decide (t.tag = .comment)) = l ∧
      (l ++ t :: m).dropWhile (fun t => decide (t.tag = .comment)) = t :: m := by
    intro l hl t m ht
    constructor
    · rw [List.takeWhile_append_of_pos (by simpa using hl), List.takeWhile_cons]; simp [ht]
    · rw [List.dropWhile_append_of_pos (by simpa using hl), List.dropWhile_cons]; simp [ht]
  have hds : ∀ l : List Tok, (∀ t ∈ l, t.tag = .data) →
      (l ++ rest).takeWhile (fun t => decide (t.tag = .data)) = l ∧
      (l ++ rest).dropWhile (fun t => decide (t.tag = .data)) = rest := by
    intro l hl
    have e : rest.takeWhile (fun t => decide (t.tag = .data)) = [] ∧
        rest.dropWhile (fun t => decide (t.tag = .data)) = rest := by
      cases rest with
      | nil => exact ⟨rfl, rfl⟩
      | cons t m =>
        have := hrest t (by simp)
        simp [List.takeWhile_cons, List.dropWhile_cons, this]
    constructor
    · rw [List.takeWhile_append_of_pos (by simpa using hl), e.1, List.append_nil]
    · rw [List.dropWhile_append_of_pos (by simpa using hl), e.2]
  have hraw : (⟨(b.comments.map (Tok.mk .comment)).map Tok.rad, strip (join '\t' (b.names.map padded)),
      (b.rows.map fun r => (⟨.data, join '\t' r⟩ : Tok)).map fun d => splitOn '\t' d.rad⟩ : Raw) = b.raw := by
    simp only [Table.raw, List.map_map, Raw.mk.injEq, true_and]
    refine ⟨?_, ?_⟩
    · rw [show (Tok.rad ∘ Tok.mk .comment) = id from rfl, List.map_id]
    · conv => rhs; rw [← List.map_id b.rows]
      exact List.map_congr_left fun r hr => splitOn_join '\t' r (hcell r hr).1 fun f hf => ((hcell r hr).2 f hf).tab
  have hc := hd (b.comments.map (Tok.mk .comment)) (by simp) ⟨.header, strip (join '\t' (b.names.map padded))⟩
    (b.rows.map (fun r => (⟨.data, join '\t' r⟩ : Tok)) ++ rest) (by simp)
  have hdd := hds (b.rows.map fun r => (⟨.data, join '\t' r⟩ : Tok)) (by simp)
  have etoks : b.toks ++ rest = b.comments.map (Tok.mk .comment) ++
      ⟨.header, strip (join '\t' (b.names.map padded))⟩ ::
      (b.rows.map (fun r => (⟨.data, join '\t' r⟩ : Tok)) ++ rest) := by
    simp [Table.toks]
  rw [etoks]
  obtain ⟨r0, rest', e0⟩ : ∃ r0 rest', b.rows.map (fun r => (⟨.data, join '\t' r⟩ : Tok)) ++ rest = r0 :: rest' :=
    ⟨⟨.data, join '\t' r⟩, rs.map (fun r => (⟨.data, join '\t' r⟩ : Tok)) ++ rest, by rw [hrs]; rfl⟩
  rw [e0] at hc hdd ⊢
  rw [groups_eq _ _ _ _ hc.2 rfl, hc.1, hdd.1, hdd.2, hraw]

theorem groups_tables : ∀ bs : List Table, bs ≠ [] → (∀ b ∈ bs, Good b) →
    groupBlocks (bs.flatMap Table.toks) = (bs.map Table.raw, none)
  | [], h, _ => absurd rfl h
  | b :: bs, _, hb => by
    have hgood := hb b (by simp)
    have hg := groups_table b hgood.rows (fun r hr => ⟨hgood.row r hr, hgood.cells r hr⟩)
      (bs.flatMap Table.toks) (by
        cases bs with
        | nil => simp
        | cons b' bs =>
          intro t ht
          rw [List.flatMap_cons, Table.toks] at ht
          cases hc : b'.comments with
          | nil => rw [hc] at ht; simp at ht; subst ht; simp
          | cons c cs => rw [hc] at ht; simp at ht; subst ht; simp)
    have hcons : ∀ b : Table, ∃ t ts, b.toks = t :: ts := by
      intro b
      unfold Table.toks
      cases b.comments with
      | nil => exact ⟨_, _, rfl⟩
      | cons c cs => exact ⟨_, _, rfl⟩
    have hgb : ∀ l : List Tok, l ≠ [] → groupBlocks l = groups l := by
      intro l hl
      cases l with
      | nil => exact absurd rfl hl
      | cons t ts => rfl
    obtain ⟨t, ts, e⟩ := hcons b
    rw [List.flatMap_cons, hgb _ (by rw [e]; simp), hg]
    cases bs with
    | nil => simp
    | cons b' bs' =>
      obtain ⟨t', ts', e'⟩ := hcons b'
      have hne : (b' :: bs').flatMap Table.toks ≠ [] := by rw [List.flatMap_cons, e']; simp
      have ih := groups_tables (b' :: bs') (by simp) fun b h => hb b (by simp [h])
      rw [hgb _ hne] at ih
      rw [if_neg hne, ih]
      rfl

end HF.Sp
