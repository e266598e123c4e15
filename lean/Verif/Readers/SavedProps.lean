import Verif.Readers.SavedLemmas
import Verif.Touchstone.File
import Verif.Citi.Model
import Verif.Mdif.WriteErrors
import Verif.Sp.WriteProps
/-
C96: files that have been saved are recognised when they are read.
-/
namespace HF.Readers.Dispatch

open HF.DataDict.Spec HF.DataBlock
open HF.DataDict hiding rename delitem

/-! ### Touchstone and CITI -/

theorem touch_lines (comments rest : List (List Char)) (hc : ∀ c ∈ comments, OneLine c) :
    takenFor (comments.map ('!' :: ·) ++ Touchstone.infoLine :: rest) = .touchstone := by
  refine taken_line _ _ _ ?_ ⟨by decide, by decide⟩ ?_ _ fun f => .touchstone (by decide +kernel)
  · intro l hl
    obtain ⟨c, h, rfl⟩ := List.mem_map.1 hl
    have := hc c h
    exact ⟨by simpa using this.1, by simpa using this.2⟩
  · intro f h5 l hl
    obtain ⟨c, h, rfl⟩ := List.mem_map.1 hl
    exact quiet_cons h5 _ _ (by decide) (by decide)

/-- C96: every Touchstone file that is saved is recognised, whatever the numbers are. -/
theorem C96_touchstone (env : Touchstone.Env) (comments : List (List Char)) (n : Nat)
    (rows : List (ℚ × (Nat → Nat → Touchstone.Cplx))) (hc : ∀ c ∈ comments, OneLine c) :
    takenFor (Touchstone.save env comments n rows) = .touchstone ∧
      takenFor (Touchstone.saveReal env comments n rows) = .touchstone :=
  ⟨touch_lines comments _ hc, touch_lines comments _ hc⟩

/-- C96: every CITI file that is saved is recognised. -/
theorem C96_citi (env : Citi.Env) (name : List Char) (comments : List (List Char)) (cplx : String → Bool)
    (b : Block Citi.Cplx Citi.Cplx) (ls : List (List Char)) (h : Citi.save env name comments cplx b = .ok ls) :
    takenFor ls = .citi := by
  obtain ⟨rest, rfl⟩ : ∃ rest, ls = "CITIFILE A.01.01".toList :: rest := by
    unfold Citi.save at h
    split at h
    · cases h
    · split at h
      · cases h
      · cases h
        exact ⟨_, rfl⟩
  exact taken_line [] _ rest (by simp) ⟨by decide, by decide⟩ (by simp) _ fun f => .citi (by decide +kernel)

/-! ### MDIF -/

/-- Letters, digits, underscores and dots. -/
def PlainName (n : List Char) : Prop := ∀ c ∈ n, c.isAlphanum = true ∨ c = '_' ∨ c = '.'

theorem isVarChar_of {c : Char} (h : c.isAlphanum = true ∨ c = '_' ∨ c = '.') : isVarChar c = true := by
  rcases h with h | rfl | rfl
  · simp only [Char.isAlphanum, Char.isAlpha, Char.isUpper, Char.isLower, Char.isDigit, Bool.or_eq_true, Bool.and_eq_true,
      decide_eq_true_eq] at h
    simp only [isVarChar, isAlpha, isNum, Bool.or_eq_true, Bool.and_eq_true, decide_eq_true_eq, Char.le_def]
    rcases h with (h | h) | h
    · exact .inl (.inl (.inl (.inr h)))
    · exact .inl (.inl (.inl (.inl h)))
    · exact .inl (.inl (.inr h))
  · decide
  · decide

theorem plain_oneLine {n : List Char} (h : PlainName n) : OneLine n := by
  constructor <;> intro hm <;> have := h _ hm <;> revert this <;> decide

theorem isMdif_var (n r : List Char) (h : PlainName n) :
    isMdif ("VAR SWEEP.".toList ++ n ++ "(real) = ".toList ++ r) = true := by
  have e : "VAR SWEEP.".toList ++ n ++ "(real) = ".toList ++ r =
      'V' :: 'A' :: 'R' :: ' ' :: 'S' :: ("WEEP.".toList ++ n ++ '(' :: ("real".toList ++ ')' :: (" = ".toList ++ r))) := by
    simp
  have hv : plus isVarChar ('S' :: ("WEEP.".toList ++ n ++ '(' :: ("real".toList ++ ')' :: (" = ".toList ++ r)))) =
      some ('(' :: ("real".toList ++ ')' :: (" = ".toList ++ r))) := by
    rw [plus, if_pos (by decide), dropWhile_of_append _ (by decide)]
    intro c hc
    rcases List.mem_append.1 hc with hc | hc
    · have : ∀ c ∈ "WEEP.".toList, isVarChar c = true := by decide
      exact this c hc
    · exact isVarChar_of (h c hc)
  have ha : plus isAlpha ("real".toList ++ ')' :: (" = ".toList ++ r)) = some (')' :: (" = ".toList ++ r)) := by
    show plus isAlpha ('r' :: ("eal".toList ++ ')' :: (" = ".toList ++ r))) = _
    rw [plus, if_pos (by decide), dropWhile_of_append (by decide) (by decide)]
  have hd : List.dropWhile isTab (' ' :: 'S' :: ("WEEP.".toList ++ n ++ '(' :: ("real".toList ++ ')' :: (" = ".toList ++ r)))) =
      'S' :: ("WEEP.".toList ++ n ++ '(' :: ("real".toList ++ ')' :: (" = ".toList ++ r))) := by
    rw [List.dropWhile_cons_of_pos (by decide), List.dropWhile_cons_of_neg (by decide)]
  unfold isMdif
  rw [e, List.dropWhile_cons_of_neg (by decide)]
  simp only [hd, hv, ha]

section
variable {β α : Type} [DecidableEq β]

theorem andThen_prefix (a b : Mdif.Out) : a.1 <+: (Mdif.Out.andThen a b).1 := by
  unfold Mdif.Out.andThen
  split
  · exact List.prefix_append _ _
  · exact List.prefix_refl _

theorem all_prefix (o : Mdif.Out) (os : List Mdif.Out) : o.1 <+: (Mdif.Out.all (o :: os)).1 := andThen_prefix _ _

theorem mem_all {os : List Mdif.Out} {l : List Char} (h : l ∈ (Mdif.Out.all os).1) : ∃ o ∈ os, l ∈ o.1 := by
  induction os with
  | nil => cases h
  | cons o os ih =>
    change l ∈ (Mdif.Out.andThen o (Mdif.Out.all os)).1 at h
    unfold Mdif.Out.andThen at h
    split at h
    · rcases List.mem_append.1 h with h | h
      · exact ⟨o, by simp, h⟩
      · obtain ⟨o', h1, h2⟩ := ih h
        exact ⟨o', by simp [h1], h2⟩
    · exact ⟨o, by simp, h⟩

theorem save_lines (env : Env β α) (pr : Mdif.Printer α β) (en : Enum (List (Dim β))) (time : List Char) (b b1 : Block β α)
    (hc : convert env b = .ok b1) :
    (Mdif.save env pr en time b).1 = ("!Created: ".toList ++ time) :: (Mdif.loopDb env pr en b1).1 := by
  unfold Mdif.save
  rw [hc]
  rfl

/-- C96: an MDIF file is recognised if a variable has two or more sweeps and the names of the sweeps are plain. -/
theorem C96_mdif (env : Env β α) (pr : Mdif.Printer α β) (en : Enum (List (Dim β))) (time : List Char) (b b1 : Block β α)
    (hc : convert env b = .ok b1) (hq : Quiet b1.vars) (ht : OneLine time) (hnd : ∀ v ∈ b1.vars, v.2.dims.Nodup)
    (hp : ∀ v ∈ b1.vars, ∀ d ∈ v.2.dims, d.data ≠ [] ∧ PlainName d.name.toList ∧
      ∀ c ∈ d.data, ∃ w, pr.num d.name (env.toVal c) = some w ∧ OneLine w)
    (h2 : ∃ v ∈ b1.vars, 2 ≤ v.2.dims.length) : takenFor (Mdif.save env pr en time b).1 = .mdif := by
  -- the sweeps of the first part
  generalize hs : (b1.vars.map fun w => w.2.dims).dedup = s
  obtain ⟨v, hv, hv2⟩ := h2
  have hvs : v.2.dims ∈ s := by rw [← hs, List.mem_dedup]; exact List.mem_map_of_mem hv
  obtain ⟨l, hl, hy⟩ := yields_cons en s (by rintro rfl; cases hvs)
  have hlen := longest_max en s l hl _ hvs
  obtain ⟨v1, hv1, hd1⟩ : ∃ v ∈ b1.vars, v.2.dims = l := by
    have := longest_mem en s l hl
    rw [← hs, List.mem_dedup] at this
    exact List.mem_map.1 this
  match l, hlen, hd1, hy with
  | [], h, _, _ => exact absurd (Nat.le_trans hv2 h) (by simp)
  | [_], h, _, _ => exact absurd (Nat.le_trans hv2 h) (by simp)
  | d :: e :: es, _, hd1, hy =>
    obtain ⟨sub, h1, -⟩ := Mdif.subset_ok env b1 hq (d :: e :: es) (hd1 ▸ hnd v1 hv1)
    have hin : ∀ x ∈ d :: e :: es, x ∈ v1.2.dims := fun x hx => by rw [hd1]; exact hx
    obtain ⟨cs, rest, hprod, hcs, -⟩ := Mdif.product_first (e :: es) fun x hx => (hp v1 hv1 x (hin x (by simp [hx]))).1
    obtain ⟨-, hpl, hcd⟩ := hp v1 hv1 e (hin e (by simp))
    obtain ⟨c, cs, rfl⟩ : ∃ c cs', cs = c :: cs' := by
      cases cs with
      | cons c cs => exact ⟨c, cs, rfl⟩
      | nil =>
        exfalso
        have : ([] : List β) ∈ Mdif.product ((e :: es).map fun x => x.data) := by rw [hprod]; simp
        rw [List.map_cons, Mdif.product] at this
        obtain ⟨x, -, hx⟩ := List.mem_flatMap.1 this
        obtain ⟨y, -, hy⟩ := List.mem_map.1 hx
        cases hy
    obtain ⟨w, hw, hw1⟩ := hcd c (hcs (e, c) (by simp)).2
    have hvar : Mdif.varLine env pr (e, c) =
        .ok ("VAR SWEEP.".toList ++ e.name.toList ++ "(real) = ".toList ++ w) := by
      simp [Mdif.varLine, hw, Mdif.typeErr, Except.map]
    have p1 : [("VAR SWEEP.".toList ++ e.name.toList ++ "(real) = ".toList ++ w)] <+:
        (Mdif.fmtCoord env pr none d (e :: es) sub (c :: cs)).1 := by
      have := all_prefix (Mdif.yieldLine (Mdif.varLine env pr (e, c))) ((es.zip cs).map (fun p => Mdif.yieldLine (Mdif.varLine env pr p)) ++
        [([Mdif.beginLine none], none)] ++
        [if (sub.vars.filter fun v => v.2.dims = e :: es) = [] then ([], some .valueError) else
          Mdif.Out.all ((sub.vars.filter fun v => v.2.dims = e :: es).map fun v => Mdif.yieldLine (Mdif.attribLine pr (c :: cs) v))] ++
        [Mdif.fmtTable env pr d (sub.vars.filter fun v => v.2.dims = d :: e :: es) (c :: cs)])
      rw [hvar] at this
      refine List.IsPrefix.trans this ?_
      rw [Mdif.fmtCoord]
      simp [hvar, Mdif.yieldLine]
    have p2 : (Mdif.fmtCoord env pr none d (e :: es) sub (c :: cs)).1 <+: (Mdif.fmtBlock env pr none d (e :: es) sub).1 := by
      rw [Mdif.fmtBlock, hprod, List.map_cons]
      exact all_prefix _ _
    have p3 : (Mdif.fmtBlock env pr none d (e :: es) sub).1 <+: (Mdif.loopDb env pr en b1).1 := by
      rw [Mdif.loopDb, splitBlock, hs, hy, List.map_cons, List.map_cons]
      simp only [h1]
      exact all_prefix _ _
    obtain ⟨post, hpost⟩ := (p1.trans p2).trans p3
    rw [save_lines env pr en time b b1 hc, ← hpost]
    refine taken_line ["!Created: ".toList ++ time] _ post ?_ ?_ ?_ _ fun f => .mdif ?_
    · intro l hl
      rw [List.mem_singleton.1 hl]
      exact ⟨by simpa using ht.1, by simpa using ht.2⟩
    · have hn := plain_oneLine hpl
      constructor
      · simpa using ⟨hn.1, hw1.1⟩
      · simpa using ⟨hn.2, hw1.2⟩
    · intro f h5 l hl
      rw [List.mem_singleton.1 hl]
      exact quiet_cons h5 '!' _ (by decide) (by decide)
    · rw [List.append_assoc]
      exact isMdif_var _ _ hpl

theorem touchTail_word (n r : List Char) (h : ∀ c ∈ n, isSpace c = false) : touchTail (n ++ '(' :: r) = false := by
  match n with
  | [] =>
    cases r with
    | nil => rfl
    | cons c r => simp [touchTail, lower]
  | [a] =>
    simp [touchTail, lower]
  | [a, b] => simp [touchTail, plus, isSpace]
  | a :: b :: c :: n =>
    have hc : isSpace c = false := h c (by simp)
    simp [touchTail, plus, hc]

theorem isTouchstone_attrib (n r : List Char) (h : ∀ c ∈ n, isSpace c = false) :
    isTouchstone ('#' :: ' ' :: (n ++ '(' :: r)) = false := by
  have hd : (' ' :: (n ++ '(' :: r)).dropWhile isSpace = n ++ '(' :: r := by
    rw [List.dropWhile_cons_of_pos (by decide)]
    cases n with
    | nil => rw [List.nil_append, List.dropWhile_cons_of_neg (by decide)]
    | cons c n => rw [List.cons_append, List.dropWhile_cons_of_neg (by simp [h c (by simp)])]
  unfold isTouchstone
  rw [List.dropWhile_cons_of_neg (by decide)]
  simp only [hd]
  cases n with
  | nil =>
    rw [List.nil_append, touchMult, if_neg (by decide)]
    exact touchTail_word [] r (by simp)
  | cons c n =>
    rw [List.cons_append, touchMult]
    split
    · exact touchTail_word n r fun c hc => h c (by simp [hc])
    · exact touchTail_word (c :: n) r h

/-- A line with `#` at its beginning can only be that of a Touchstone file. -/
theorem quiet_hash {f : File} (h5 : f.hdf5 = false) (l : List Char) (h : isTouchstone ('#' :: l) = false) (a : Format) :
    ¬ Shows f ('#' :: l) a := by
  have hf : firstSign ('#' :: l) = some '#' := firstSign_cons _ _ (by decide)
  intro hs
  cases hs with
  | mdif e => have := isMdif_sign e; rw [hf] at this; cases this
  | hdf5 e => rw [h5] at e; cases e
  | citi e => have := isCiti_sign e; rw [hf] at this; cases this
  | touchstone e => rw [h] at e; cases e
  | muwave e => have := isMuwave_sign e; rw [hf] at this; cases this

theorem join_lead (sep : Char) (w : List Char) (ws : List (List Char)) :
    ∃ r, Text.join sep (w :: ws) = w ++ r ∧ ∀ c ∈ r.head?, c = sep := by
  cases ws with
  | nil => exact ⟨[], by simp [Text.join], by simp⟩
  | cons v ws => exact ⟨sep :: Text.join sep (v :: ws), rfl, by simp⟩

theorem mem_yield {x : Except Mdif.SaveErr (List Char)} {l : List Char} (h : l ∈ (Mdif.yieldLine x).1) : x = .ok l := by
  cases x with
  | error e => simp [Mdif.yieldLine] at h
  | ok y => simp [Mdif.yieldLine] at h; rw [h]

theorem cell_lead (pr : Mdif.Printer α β) (n : String) (x : α) (ws : List (List Char)) (h : Mdif.cell pr n x = .ok ws) :
    ∃ y w ws', pr.num n y = some w ∧ ws = w :: ws' := by
  unfold Mdif.cell at h
  split at h
  · split at h
    · rename_i u v h1 h2
      cases h
      exact ⟨_, u, [v], h1, rfl⟩
    · cases h
  · cases hx : pr.num n x with
    | none => simp [hx, Mdif.typeErr, Except.map] at h
    | some w =>
      simp only [hx, Mdif.typeErr, Except.map, Except.ok.injEq] at h
      exact ⟨x, w, [], hx, h.symm⟩

theorem attrib_ok (pr : Mdif.Printer α β) (cs : List β) (v : String × Arr β α) (l : List Char)
    (h : Mdif.attribLine pr cs v = .ok l) : ∃ w, l = "# ".toList ++ v.1.toList ++ "(real) = ".toList ++ w := by
  unfold Mdif.attribLine at h
  cases hi : Mdif.indexOf pr v.2.nd.shape cs with
  | error e => simp [hi] at h
  | ok idx =>
    by_cases hc : pr.cplx v.1 = true
    · simp [hi, hc] at h
    · cases hx : pr.num v.1 (v.2.nd.get idx) with
      | none => simp [hi, hc, hx, Mdif.typeErr, Except.map] at h
      | some w =>
        simp only [hi, hc, hx, Mdif.typeErr, Except.map, Bool.false_eq_true, if_false, Except.ok.injEq] at h
        exact ⟨w, by rw [← h]; simp [Mdif.title, hc]⟩

theorem row_ok (env : Env β α) (pr : Mdif.Printer α β) (n : String) (xs : List α) (cols : List (String × List α)) (r : Nat)
    (l : List Char) (h : Mdif.rowLine env pr ((n, xs) :: cols) r = .ok l) :
    ∃ y w t, pr.num n y = some w ∧ l = w ++ t ∧ ∀ c ∈ t.head?, c = '\t' := by
  unfold Mdif.rowLine at h
  rw [List.mapM_cons] at h
  cases hcell : Mdif.cell pr n (xs.getD r env.junk) with
  | error e =>
    rw [hcell] at h
    cases h
  | ok ws =>
    obtain ⟨y, w, ws', hw, rfl⟩ := cell_lead pr n _ ws hcell
    rw [hcell] at h
    cases hm : cols.mapM fun c => Mdif.cell pr c.1 (c.2.getD r env.junk) with
    | error e =>
      rw [hm] at h
      cases h
    | ok rs =>
      rw [hm] at h
      obtain ⟨t, ht, hts⟩ := join_lead '\t' w (ws' ++ rs.flatten)
      have hl : l = Text.join '\t' (w :: (ws' ++ rs.flatten)) := (Except.ok.inj h).symm
      exact ⟨y, w, t, hw, by rw [hl, ht], hts⟩

/-- C96, violated: an MDIF file with at most one sweep is taken for SP data. -/
theorem C96_mdif_flat_refuted (env : Env β α) (pr : Mdif.Printer α β) (en : Enum (List (Dim β))) (time : List Char)
    (b b1 : Block β α) (hc : convert env b = .ok b1) (hq : Quiet b1.vars) (hd : ∀ v ∈ b1.vars, v.2.dims.length ≤ 1)
    (hn : ∀ v ∈ b1.vars, v.2.dims = [] → ∀ c ∈ v.1.toList, isSpace c = false)
    (hnum : ∀ n x w, pr.num n x = some w → Harmless w)
    (h1 : ∀ l ∈ (Mdif.save env pr en time b).1, OneLine l) : takenFor (Mdif.save env pr en time b).1 = .sp := by
  refine taken_sp _ h1 ?_
  intro f h5 l hl
  rw [save_lines env pr en time b b1 hc] at hl
  rcases List.mem_cons.1 hl with rfl | hl
  · exact quiet_cons h5 '!' _ (by decide) (by decide)
  unfold Mdif.loopDb at hl
  obtain ⟨o, ho, hl⟩ := mem_all hl
  obtain ⟨p, hp, rfl⟩ := List.mem_map.1 ho
  obtain ⟨ds, hds, rfl⟩ := List.mem_map.1 hp
  have hds' : ds.length ≤ 1 := by
    have := yields_sub en _ ds hds
    rw [List.mem_dedup] at this
    obtain ⟨v, hv, rfl⟩ := List.mem_map.1 this
    exact hd v hv
  match ds, hds' with
  | [], _ =>
    obtain ⟨sub, h1, -⟩ := Mdif.subset_ok env b1 hq [] (by simp)
    simp only [h1] at hl
    cases hl
  | [d], _ =>
    obtain ⟨sub, h1, h2⟩ := Mdif.subset_ok env b1 hq [d] (by simp)
    simp only [h1] at hl
    unfold Mdif.fmtBlock at hl
    obtain ⟨o, ho, hl⟩ := mem_all hl
    obtain ⟨cs, -, rfl⟩ := List.mem_map.1 ho
    unfold Mdif.fmtCoord at hl
    obtain ⟨o, ho, hl⟩ := mem_all hl
    simp only [List.zip_nil_left, List.map_nil, List.nil_append, List.cons_append, List.mem_cons, List.not_mem_nil, or_false] at ho
    rcases ho with rfl | rfl | rfl
    · simp only [List.mem_singleton] at hl
      subst hl
      exact quiet_cons h5 'B' _ (by decide) (by decide)
    · split at hl
      · simp at hl
      · obtain ⟨o, ho, hl⟩ := mem_all hl
        obtain ⟨v, hv, rfl⟩ := List.mem_map.1 ho
        have hl := mem_yield hl
        obtain ⟨hv1, hv2⟩ := List.mem_filter.1 hv
        rw [h2] at hv1
        have hname := hn v (List.mem_filter.1 hv1).1 (by simpa using hv2)
        obtain ⟨w, rfl⟩ := attrib_ok pr cs v l hl
        have : isTouchstone ('#' :: ' ' :: (v.1.toList ++ '(' :: ("real) = ".toList ++ w ++ ['\n']))) = false :=
          isTouchstone_attrib _ _ hname
        have q := quiet_hash h5 _ this
        simpa using q
    · unfold Mdif.fmtTable at hl
      split at hl
      · simp at hl
      · split at hl
        · simp at hl
        · rename_i cols hcols
          obtain ⟨o, ho, hl⟩ := mem_all hl
          simp only [List.mem_append, List.mem_singleton, List.mem_map] at ho
          rcases ho with (rfl | ⟨r, -, rfl⟩) | rfl
          · simp only [List.mem_singleton] at hl
            subst hl
            exact quiet_cons h5 '%' _ (by decide) (by decide)
          · have hl := mem_yield hl
            obtain ⟨y, w, t, hw, rfl, hts⟩ := row_ok env pr _ _ _ _ _ hl
            rw [List.append_assoc]
            refine quiet_word h5 (hnum _ _ _ hw) ?_
            intro c hc
            cases t with
            | nil => simp at hc; subst hc; decide
            | cons x t => simp at hc; subst hc; rw [hts x rfl]; decide
          · simp only [List.mem_singleton] at hl
            subst hl
            exact quiet_cons h5 'E' _ (by decide) (by decide)

/-! ### SP data -/

/-- What is printed of a dimension in a first column is harmless. -/
def HarmlessDim (st : Sp.Style β α) (d : Dim β) : Prop :=
  Harmless d.name.toList ∧ ∀ x ∈ d.data, Harmless (st.coordText d x)

/-- A line that shows nothing, whatever follows it begins with a blank. -/
def Silent (l : List Char) : Prop := ∀ f : File, f.hdf5 = false → ∀ a, ¬ Shows f (l ++ ['\n']) a

theorem silent_bang (l : List Char) : Silent ('!' :: l) := fun _ h5 => quiet_cons h5 '!' _ (by decide) (by decide)

theorem silent_nil : Silent [] := by
  intro f h5
  refine quiet_sign h5 ?_
  intro c e
  have : firstSign ([] ++ ['\n']) = none := by decide
  rw [this] at e
  cases e

theorem silent_word {w t : List Char} (hw : Harmless w) (ht : ∀ c ∈ t.head?, isSpace c = true) : Silent (w ++ t) := by
  intro f h5
  rw [List.append_assoc]
  refine quiet_word h5 hw ?_
  intro c hc
  cases t with
  | nil => simp at hc; subst hc; decide
  | cons x t => exact ht c (by simpa using hc)

theorem silent_join {w t : List Char} (hw : Harmless w) (ht : ∀ c ∈ t.head?, isSpace c = true) (ws : List (List Char)) :
    Silent (Text.join '\t' ((w ++ t) :: ws)) := by
  obtain ⟨r, hr, hrs⟩ := join_lead '\t' (w ++ t) ws
  rw [hr, List.append_assoc]
  refine silent_word hw ?_
  intro c hc
  cases t with
  | nil => rw [hrs c (by simpa using hc)]; decide
  | cons x t => exact ht c (by simpa using hc)

theorem formatBlock_silent (st : Sp.Style β α) (comments : List (List Char)) (sweeps : List (String × List Char)) (d : Dim β)
    (cols : List Sp.Col) (hd : HarmlessDim st d) : ∀ l ∈ Sp.formatBlock comments sweeps (Sp.dimCol st d :: cols), Silent l := by
  intro l hl
  unfold Sp.formatBlock at hl
  rcases List.mem_append.1 hl with hl | hl
  · rcases List.mem_append.1 hl with hl | hl <;> obtain ⟨c, -, rfl⟩ := List.mem_map.1 hl <;> exact silent_bang _
  · rcases List.mem_cons.1 hl with rfl | hl
    · have : (Sp.dimCol st d :: cols).flatMap Sp.header =
          Sp.padhead (Sp.unitHeader d.name.toList (d.unit.map String.toList)) (st.coordWidth d) :: cols.flatMap Sp.header := by
        simp [Sp.dimCol, Sp.header]
      rw [this]
      have hrep : ∀ k, ∀ c ∈ (List.replicate k ' ').head?, isSpace c = true := by
        intro k c hc
        cases k with
        | zero => cases hc
        | succ k =>
          rw [List.replicate_succ] at hc
          cases hc
          decide
      unfold Sp.padhead Sp.unitHeader
      split
      · exact silent_join hd.1 (hrep _) _
      · exact silent_join hd.1 (hrep _) _
      · rw [List.append_assoc]
        refine silent_join hd.1 ?_ _
        intro c hc
        cases hc
        decide
    · obtain ⟨r, hr, rfl⟩ := List.mem_map.1 hl
      unfold Sp.zipStar at hr
      obtain ⟨j, hj, rfl⟩ := List.mem_map.1 hr
      have hj : j < d.data.length := by
        rw [List.mem_range] at hj
        cases e : (((Sp.dimCol st d :: cols).map Sp.Col.cells).map List.length).min? with
        | none => rw [e] at hj; simp at hj
        | some m =>
          rw [e] at hj
          have := (List.min?_eq_some_iff.1 e).2 d.data.length (by simp [Sp.dimCol])
          simp only [Option.getD_some] at hj
          omega
      have : ((Sp.dimCol st d :: cols).map Sp.Col.cells).map (fun r => r.getD j []) =
          [st.coordText d (d.data[j]'hj)] :: (cols.map Sp.Col.cells).map (fun r => r.getD j []) := by
        simp [Sp.dimCol, hj]
      rw [this, List.flatten_cons]
      have e : [st.coordText d (d.data[j]'hj)] ++ ((cols.map Sp.Col.cells).map (fun r => r.getD j [])).flatten =
          (st.coordText d (d.data[j]'hj) ++ []) :: ((cols.map Sp.Col.cells).map (fun r => r.getD j [])).flatten := by simp
      rw [e]
      exact silent_join (hd.2 _ (List.getElem_mem hj)) (by simp) _

theorem axes_mem (q : Block β α) : ∀ (ns : List String) (ds : List (Dim β)), Sp.axes q ns = .ok ds →
    ∀ d ∈ ds, ∃ n, lookup q.ivars n = some d
  | [], ds, h => by cases h; simp
  | n :: ns, ds, h => by
    unfold Sp.axes at h
    split at h
    · cases h
    · rename_i d hd
      split at h
      · cases h
      · rename_i ds' hds
        cases h
        intro x hx
        rcases List.mem_cons.1 hx with rfl | hx
        · exact ⟨n, hd⟩
        · exact axes_mem q ns ds' hds x hx

theorem subBlock_silent (st : Sp.Style β α) (comments : List (List Char)) (vars : List (String × Arr β α)) (ds : List (Dim β))
    (idx : List Nat) (hd : ∀ d ∈ ds, HarmlessDim st d) : ∀ l ∈ Sp.subBlock st comments vars ds idx, Silent l := by
  cases ds with
  | nil =>
    intro l hl
    have : Sp.subBlock st comments vars [] idx = (comments.map fun c => '!' :: c.dropWhile (· = '!')) ++ [[]] := by
      simp [Sp.subBlock, Sp.formatBlock, Sp.zipStar, Text.join]
    rw [this] at hl
    rcases List.mem_append.1 hl with hl | hl
    · obtain ⟨c, -, rfl⟩ := List.mem_map.1 hl
      exact silent_bang _
    · rw [List.mem_singleton.1 hl]
      exact silent_nil
  | cons d outer => exact formatBlock_silent st _ _ d _ (hd d (by simp))

theorem spaced_silent (first : Bool) (ps : List (List (List Char))) (h : ∀ p ∈ ps, ∀ l ∈ p, Silent l) :
    ∀ l ∈ Sp.spaced first ps, Silent l := by
  induction ps generalizing first with
  | nil => intro l hl; cases hl
  | cons p ps ih =>
    intro l hl
    unfold Sp.spaced at hl
    rcases List.mem_append.1 hl with hl | hl
    · rcases List.mem_append.1 hl with hl | hl
      · cases first with
        | true => simp at hl
        | false => simp at hl; rw [hl]; exact silent_nil
      · exact h p (by simp) l hl
    · exact ih false (fun p hp => h p (by simp [hp])) l hl

theorem writeGroups_silent (st : Sp.Style β α) (comments : List (List Char)) (qs : List (Block β α))
    (h : ∀ q ∈ qs, ∀ n d, lookup q.ivars n = some d → HarmlessDim st d) (first : Bool) :
    ∀ l ∈ (Sp.writeGroups st comments first qs).1, Silent l := by
  induction qs generalizing first with
  | nil => intro l hl; cases hl
  | cons q qs ih =>
    intro l hl
    unfold Sp.writeGroups at hl
    cases hs : Sp.subBlocks st (if first then comments else []) q with
    | error e => simp [hs] at hl
    | ok ps =>
      simp only [hs] at hl
      rcases List.mem_append.1 hl with hl | hl
      · refine spaced_silent first ps ?_ l hl
        unfold Sp.subBlocks at hs
        split at hs
        · cases hs; simp
        · split at hs
          · cases hs
          · rename_i ds hds
            cases hs
            intro p hp
            obtain ⟨i, hi, rfl⟩ := List.mem_mapIdx.1 hp
            refine subBlock_silent st _ _ ds _ ?_
            intro d hd
            obtain ⟨n, hn⟩ := axes_mem q _ ds hds d hd
            exact h q (by simp) n d hn
      · exact ih (fun q hq => h q (by simp [hq])) _ l hl

/-- C96: saved SP data are read as such if the names and the printed coordinates of the dimensions are harmless. -/
theorem C96_sp (env : Env β α) (st : Sp.Style β α) (comments : List (List Char)) (b : Block β α) (hq : Quiet b.vars)
    (hd : ∀ w ∈ b.vars, ∀ d ∈ w.2.dims, HarmlessDim st d) (hi : ∀ p ∈ b.ivars, HarmlessDim st p.2)
    (h1 : ∀ l ∈ (Sp.save env st comments b).1, OneLine l) : takenFor (Sp.save env st comments b).1 = .sp := by
  refine taken_sp _ h1 ?_
  suffices h : ∀ l ∈ (Sp.save env st comments b).1, Silent l from fun f h5 l hl => h l hl f h5
  obtain ⟨m, hm, hgr⟩ := Sp.groupVars_spec env b.vars hq b.vars [] [] rfl
    ⟨by simp, by simp, by intro k q hl; simp [lookup] at hl⟩
  have hgroups : ∀ q ∈ Sp.inOrder m, ∀ n d, lookup q.ivars n = some d → HarmlessDim st d := by
    intro q hq' n d hl
    obtain ⟨k, hk⟩ : ∃ k, (k, q) ∈ m := by
      unfold Sp.inOrder at hq'
      rcases List.mem_append.1 hq' with h | h <;> obtain ⟨p, hp, rfl⟩ := List.mem_map.1 h <;>
        exact ⟨p.1, (List.mem_filter.1 hp).1⟩
    obtain ⟨-, q2⟩ := hgr.block k q (Sp.entry_lookup hgr.nodup hk)
    rw [q2, lookup_addDims] at hl
    simp only [lookup] at hl
    have hf : List.find? (fun d => d.name == n) ((Sp.over b.vars k).flatMap fun w => w.2.dims) = some d := by
      simpa using hl
    obtain ⟨w, hw, hdw⟩ := List.mem_flatMap.1 (List.mem_of_find?_eq_some hf)
    exact hd w (List.mem_of_mem_filter hw) d hdw
  intro l hl
  unfold Sp.save at hl
  simp only [hm] at hl
  have hw := writeGroups_silent st comments (Sp.inOrder m) hgroups true
  obtain ⟨⟨ls, first, e⟩, hr⟩ : ∃ r, r = Sp.writeGroups st comments true (Sp.inOrder m) := ⟨_, rfl⟩
  rw [← hr] at hl hw
  cases e with
  | some e => exact hw l hl
  | none =>
    simp only at hl
    split at hl
    · exact hw l hl
    · rename_i d ds hdan
      rcases List.mem_append.1 hl with hl | hl
      · exact hw l hl
      · refine spaced_silent _ _ ?_ l hl
        intro p hp
        rw [List.mem_singleton.1 hp]
        refine formatBlock_silent st _ _ d _ ?_
        have : d ∈ Sp.dangling b := by rw [hdan]; simp
        unfold Sp.dangling at this
        obtain ⟨x, hx, rfl⟩ := List.mem_map.1 this
        exact hi x (List.mem_filter.1 hx).1

end

end HF.Readers.Dispatch
