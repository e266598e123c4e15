import Mathlib.Data.List.TakeWhile
import Verif.Readers.Complex
import Verif.DataBlock.Writes
import Verif.HFArray.BinopProps
/-
Lemmas about `make_cplx`.
-/
namespace HF.Readers.Complex

open HF.DataDict.Spec
open HF.DataDict hiding rename delitem
open HF.DataBlock

variable {β α : Type}

/-! ### Recognition of calls -/

theorem splitLast_none (s : List Char) : splitLast s = none ↔ ')' ∉ s := by
  induction s with
  | nil => simp [splitLast]
  | cons c t ih =>
    simp only [splitLast]
    cases h : splitLast t with
    | some p =>
      have : ')' ∈ t := by
        by_contra hc
        rw [ih.2 hc] at h; cases h
      simp [this]
    | none =>
      have := ih.1 h
      by_cases hc : c = ')'
      · simp [hc]
      · simp [hc, this, Ne.symm hc]

theorem splitLast_some (s x r : List Char) :
    splitLast s = some (x, r) ↔ s = x ++ ')' :: r ∧ ')' ∉ r := by
  constructor
  · induction s generalizing x with
    | nil => simp [splitLast]
    | cons c t ih =>
      intro h
      simp only [splitLast] at h
      cases ht : splitLast t with
      | some p =>
        obtain ⟨a, b⟩ := p
        rw [ht] at h
        simp only [Option.some.injEq, Prod.mk.injEq] at h
        obtain ⟨rfl, rfl⟩ := h
        obtain ⟨h1, h2⟩ := ih a ht
        exact ⟨by rw [h1]; rfl, h2⟩
      | none =>
        rw [ht] at h
        simp only at h
        split at h
        · rename_i hc
          simp only [Option.some.injEq, Prod.mk.injEq] at h
          obtain ⟨rfl, rfl⟩ := h
          exact ⟨by rw [hc]; rfl, (splitLast_none _).1 ht⟩
        · cases h
  · rintro ⟨rfl, hr⟩
    induction x with
    | nil =>
      rw [List.nil_append, splitLast, (splitLast_none r).2 hr]
      simp
    | cons c t ih => rw [List.cons_append, splitLast, ih]

theorem takeWhile_append_stop {p : Char → Bool} {a : List Char} {c : Char} {t : List Char}
    (ha : ∀ x ∈ a, p x = true) (hc : p c = false) :
    (a ++ c :: t).takeWhile p = a ∧ (a ++ c :: t).dropWhile p = c :: t := by
  induction a with
  | nil => simp [hc]
  | cons x a ih =>
    have := ih fun y hy => ha y (by simp [hy])
    simp [ha x (by simp), this.1, this.2]

theorem takeWhile_spec (p : Char → Bool) (s : List Char) :
    s = s.takeWhile p ++ s.dropWhile p ∧ (∀ x ∈ s.takeWhile p, p x = true) ∧
      (∀ c t, s.dropWhile p = c :: t → p c = false) := by
  refine ⟨(List.takeWhile_append_dropWhile).symm, fun x hx => List.mem_takeWhile_imp hx, ?_⟩
  intro c t h
  have hne : s.dropWhile p ≠ [] := by rw [h]; simp
  have := List.head_dropWhile_not p hne
  simpa [h] using this

/-- What the regular expression says: an identifier, blanks, and in parentheses an argument that
ends at the last closing parenthesis of the line. -/
def IsCall (s f x rest : List Char) : Prop :=
  ∃ c g k tail, s = f ++ (List.replicate k ' ' ++ ('(' :: (x ++ ')' :: (rest ++ tail)))) ∧
    f = c :: g ∧ isLetter c = true ∧ (∀ d ∈ g, isLetter d = true ∨ isDig d = true) ∧
    '\n' ∉ x ∧ '\n' ∉ rest ∧ ')' ∉ rest ∧ (tail = [] ∨ ∃ t, tail = '\n' :: t)

theorem not_ident_space : (isLetter ' ' || isDig ' ') = false := by decide
theorem not_ident_paren : (isLetter '(' || isDig '(') = false := by decide
theorem not_ident_nl : (isLetter '\n' || isDig '\n') = false := by decide

theorem parseCall_iff (s f x rest : List Char) :
    parseCall s = some (f, x, rest) ↔ IsCall s f x rest := by
  constructor
  · intro h
    obtain ⟨e1, n1, t1⟩ := takeWhile_spec (fun c => decide (c ≠ '\n')) s
    obtain ⟨e2, n2, -⟩ := takeWhile_spec (fun c => isLetter c || isDig c) (s.takeWhile fun c => decide (c ≠ '\n'))
    obtain ⟨e3, n3, -⟩ := takeWhile_spec (fun c => decide (c = ' '))
      ((s.takeWhile fun c => decide (c ≠ '\n')).dropWhile fun c => isLetter c || isDig c)
    simp only [parseCall] at h
    generalize hl : s.takeWhile (fun c => decide (c ≠ '\n')) = l at *
    generalize hf : l.takeWhile (fun c => isLetter c || isDig c) = f' at *
    generalize hg : l.dropWhile (fun c => isLetter c || isDig c) = g' at *
    generalize hr : g'.dropWhile (fun c => decide (c = ' ')) = r' at *
    generalize hb : g'.takeWhile (fun c => decide (c = ' ')) = b' at *
    generalize htl : s.dropWhile (fun c => decide (c ≠ '\n')) = tl at *
    split at h
    · rename_i c g t
      split at h
      · rename_i hc
        split at h
        · rename_i y z hz
          simp only [Option.some.injEq, Prod.mk.injEq] at h
          obtain ⟨rfl, rfl, rfl⟩ := h
          obtain ⟨e4, n4⟩ := (splitLast_some _ _ _).1 hz
          have hbr : b' = List.replicate b'.length ' ' :=
            List.eq_replicate_iff.2 ⟨rfl, fun a ha => by simpa using n3 a ha⟩
          have hnl : ∀ a ∈ l, a ≠ '\n' := fun a ha => by simpa using n1 a ha
          have hl' : l = (c :: g) ++ (b' ++ '(' :: (y ++ ')' :: z)) := by rw [e2, e3, e4]
          refine ⟨c, g, b'.length, tl, ?_, rfl, hc, fun d hd => by simpa using n2 d (by simp [hd]),
            fun hx => hnl _ (by rw [hl']; simp [hx]) rfl, fun hx => hnl _ (by rw [hl']; simp [hx]) rfl, n4, ?_⟩
          · rw [← hbr, e1, hl']; simp
          · cases tl with
            | nil => exact Or.inl rfl
            | cons a t =>
              have := t1 a t rfl
              simp only [ne_eq, decide_not, Bool.not_eq_eq_eq_not, Bool.not_false,
                decide_eq_true_eq] at this
              exact Or.inr ⟨t, by rw [this]⟩
        · cases h
      · cases h
    · cases h
  · rintro ⟨c, g, k, tail, rfl, rfl, hc, hg, hx, hrest, hp, htail⟩
    have hid : ∀ a ∈ c :: g, (isLetter a || isDig a) = true := by
      intro a ha
      rcases List.mem_cons.1 ha with rfl | ha
      · simp [hc]
      · simpa using hg a ha
    have hline : ((c :: g) ++ (List.replicate k ' ' ++ ('(' :: (x ++ ')' :: (rest ++ tail))))).takeWhile
        (fun c => decide (c ≠ '\n')) = (c :: g) ++ (List.replicate k ' ' ++ ('(' :: (x ++ ')' :: rest))) := by
      have hall : ∀ a ∈ (c :: g) ++ (List.replicate k ' ' ++ ('(' :: (x ++ ')' :: rest))),
          (fun c => decide (c ≠ '\n')) a = true := by
        intro a ha
        simp only [decide_eq_true_eq]
        rintro rfl
        simp only [List.mem_append, List.mem_cons, List.mem_replicate] at ha
        rcases ha with ha | ha | ha | ha | ha | ha
        · have := hid '\n' (List.mem_cons.2 ha); rw [not_ident_nl] at this; cases this
        · exact absurd ha.2 (by decide)
        · exact absurd ha (by decide)
        · exact hx ha
        · exact absurd ha (by decide)
        · exact hrest ha
      have hsplit : (c :: g) ++ (List.replicate k ' ' ++ ('(' :: (x ++ ')' :: (rest ++ tail)))) =
          ((c :: g) ++ (List.replicate k ' ' ++ ('(' :: (x ++ ')' :: rest)))) ++ tail := by simp
      rw [hsplit]
      rcases htail with rfl | ⟨t, rfl⟩
      · rw [List.append_nil]; exact List.takeWhile_eq_self_iff.2 hall
      · exact (takeWhile_append_stop hall (by decide)).1
    have hident : ∀ t', ((c :: g) ++ (List.replicate k ' ' ++ ('(' :: t'))).takeWhile
        (fun c => isLetter c || isDig c) = c :: g ∧
        ((c :: g) ++ (List.replicate k ' ' ++ ('(' :: t'))).dropWhile
        (fun c => isLetter c || isDig c) = List.replicate k ' ' ++ ('(' :: t') := by
      intro t'
      cases k with
      | zero => exact takeWhile_append_stop hid not_ident_paren
      | succ k =>
        rw [List.replicate_succ]
        exact takeWhile_append_stop hid not_ident_space
    have hblank : ∀ t', (List.replicate k ' ' ++ ('(' :: t')).dropWhile (fun c => decide (c = ' ')) =
        '(' :: t' := fun t' => (takeWhile_append_stop (fun a ha => by simpa using (List.mem_replicate.1 ha).2)
          (by decide)).2
    simp only [parseCall]
    rw [hline, (hident _).1, (hident _).2, hblank]
    simp only [hc, if_true]
    rw [(splitLast_some _ x rest).2 ⟨rfl, hp⟩]

/-! ### The table of names -/

/-- The last of the names that is a call of `f` with argument `v`. -/
def lastCall (names : List String) (f v : String) : Option String :=
  names.reverse.find? fun s => decide (outer s = (f, v))

/-- What the table says. -/
def entry (m : OMap String (OMap String String)) (v f : String) : Option String :=
  (lookup m v).bind fun a => lookup a f

theorem entry_addName (m : OMap String (OMap String String)) (s v f : String) :
    entry (addName m s) v f = if outer s = (f, v) then some s else entry m v f := by
  unfold entry addName
  rw [lookup_assign]
  by_cases hv : v = (outer s).2
  · subst hv
    simp only [if_true, Option.bind_some]
    rw [lookup_assign]
    by_cases hf : f = (outer s).1
    · subst hf; simp
    · rw [if_neg hf, if_neg (fun h => hf (by rw [h]))]
      cases lookup m (outer s).2 <;> simp [lookup]
  · rw [if_neg hv, if_neg (fun h => hv (by rw [h]))]

theorem entry_foldl (names : List String) (m : OMap String (OMap String String)) (v f : String) :
    entry (names.foldl addName m) v f = (lastCall names f v).or (entry m v f) := by
  induction names generalizing m with
  | nil => simp [lastCall]
  | cons s t ih =>
    rw [List.foldl_cons, ih, entry_addName]
    unfold lastCall
    rw [List.reverse_cons, List.find?_append]
    cases List.find? (fun s => decide (outer s = (f, v))) t.reverse with
    | some x => simp
    | none => by_cases h : outer s = (f, v) <;> simp [h]

theorem entry_varnames (names : List String) (v f : String) :
    entry (varnames names) v f = lastCall names f v := by
  rw [varnames, entry_foldl]
  simp [entry, lookup]

theorem keys_addName (m : OMap String (OMap String String)) (s : String) (h : (keys m).Nodup) :
    (keys (addName m s)).Nodup := by
  have := keys_assigns_nodup [((outer s).2, assign ((lookup m (outer s).2).getD []) (outer s).1 s)] m h
  exact this

theorem keys_varnames (names : List String) : (keys (varnames names)).Nodup := by
  have : ∀ (l : List String) (m : OMap String (OMap String String)), (keys m).Nodup →
      (keys (l.foldl addName m)).Nodup := by
    intro l
    induction l with
    | nil => intro m h; exact h
    | cons s t ih => intro m h; exact ih _ (keys_addName m s h)
  exact this names [] (by simp [keys])

theorem mem_keys_varnames (names : List String) (v : String) :
    v ∈ keys (varnames names) ↔ ∃ s ∈ names, (outer s).2 = v := by
  have : ∀ (l : List String) (m : OMap String (OMap String String)),
      v ∈ keys (l.foldl addName m) ↔ v ∈ keys m ∨ ∃ s ∈ l, (outer s).2 = v := by
    intro l
    induction l with
    | nil => intro m; simp
    | cons s t ih =>
      intro m
      rw [List.foldl_cons, ih, addName, mem_keys_assign]
      simp only [List.mem_cons, exists_eq_or_imp]
      constructor
      · rintro ((h | h) | h)
        · exact Or.inr (Or.inl h.symm)
        · exact Or.inl h
        · exact Or.inr (Or.inr h)
      · rintro (h | h | h)
        · exact Or.inl (Or.inr h)
        · exact Or.inl (Or.inl h.symm)
        · exact Or.inr h
  rw [varnames, this]
  simp [keys]

theorem lastCall_some {names : List String} {f v s : String} (h : lastCall names f v = some s) :
    s ∈ names ∧ outer s = (f, v) :=
  ⟨List.mem_reverse.1 (List.mem_of_find?_eq_some h), by simpa using List.find?_some h⟩

theorem lastCall_isSome {names : List String} {f v s : String} (hs : s ∈ names) (h : outer s = (f, v)) :
    ∃ p, lastCall names f v = some p := by
  have : (lastCall names f v).isSome := by
    rw [lastCall, List.find?_isSome]
    exact ⟨s, List.mem_reverse.2 hs, by simpa using h⟩
  exact Option.isSome_iff_exists.1 this

/-! ### The loop -/

/-- Which pair is combined, and how (`true`: magnitude and phase). -/
def choose (alt : OMap String String) : Option (Bool × String × String) :=
  match lookup alt "Re", lookup alt "Im" with
  | some p, some q => some (false, p, q)
  | _, _ =>
    match lookup alt "Mag", lookup alt "Arg" with
    | some p, some q => some (true, p, q)
    | _, _ => none

theorem step_eq (env : Env β α) (full : Arr β α → Arr β α) (rect polar : α → α → α) (b : Block β α)
    (v : String) (alt : OMap String String) :
    step env full rect polar b v alt = (match choose alt with
      | none => .ok b
      | some (k, p, q) =>
        if contains b v then .ok b else combine env full (if k then polar else rect) b v p q) := by
  unfold step choose
  cases lookup alt "Re" <;> cases lookup alt "Im" <;> cases lookup alt "Mag" <;>
    cases lookup alt "Arg" <;> simp

theorem delitem_vars (b : Block β α) (n : String) : delitem b n = { b with vars := remove b.vars n } := by
  unfold delitem
  split
  · rfl
  · rename_i h
    have : remove b.vars n = b.vars := by
      rw [remove, List.filter_eq_self]
      intro p hp
      simp only [ne_eq, decide_not, Bool.not_eq_eq_eq_not, Bool.not_true, decide_eq_false_iff_not]
      rintro rfl
      exact h ((member_iff _ _).2 (List.mem_map_of_mem hp))
    rw [this]

theorem addDims_known (iv : OMap String (Dim β)) (ds : List (Dim β))
    (h : ∀ d ∈ ds, d.name ∈ keys iv) : addDims iv ds = iv := by
  induction ds with
  | nil => rfl
  | cons d t ih =>
    have e : addDims iv (d :: t) = addDims (if member iv d.name then iv else assign iv d.name d) t := rfl
    rw [e, if_pos ((member_iff _ _).2 (h d (by simp))), ih fun x hx => h x (by simp [hx])]

theorem lookup_filter {V : Type} (m : OMap String V) (g : String → Bool) (n : String) (h : g n = true) :
    lookup (m.filter fun p => g p.1) n = lookup m n := by
  induction m with
  | nil => rfl
  | cons p t ih =>
    rw [List.filter_cons]
    by_cases hg : g p.1 = true
    · rw [if_pos hg]
      by_cases hn : p.1 = n
      · simp [lookup, List.find?_cons, hn]
      · have := ih
        simp only [lookup, List.find?_cons, hn, decide_false] at this ⊢
        exact this
    · rw [if_neg hg, ih]
      have hn : p.1 ≠ n := by rintro rfl; exact hg h
      simp [lookup, List.find?_cons, hn]

/-- A combination that has been made. -/
structure Job (β α : Type) where
  name : String
  polar : Bool
  fst : String
  snd : String
  val : Arr β α

/-- What is needed of the columns of one base name. -/
structure Ready (full : Arr β α → Arr β α) (rect polar : α → α → α) (c : Block β α)
    (v : String) (k : Bool) (p q : String) : Prop where
  vp : v ≠ p
  vq : v ≠ q
  ivp : p ∉ keys c.ivars
  ivq : q ∉ keys c.ivars
  fit : ∃ x y r, lookup c.vars p = some x ∧ lookup c.vars q = some y ∧
    Arr.binop full (if k then polar else rect) x y = .ok r ∧ ∀ d ∈ r.dims, d.name ∈ keys c.ivars
  elem : ∀ m i j, isMatrixName v = some (m, i, j) → m ∉ keys c.vars

/-- Two base names do not interfere. -/
def Apart (e e' : String × OMap String String) : Prop :=
  e.1 ≠ e'.1 ∧ ∀ k p q k' p' q', choose e.2 = some (k, p, q) → choose e'.2 = some (k', p', q') →
    (e'.1 ≠ p ∧ e'.1 ≠ q) ∧ (p' ≠ p ∧ p' ≠ q ∧ q' ≠ p ∧ q' ≠ q) ∧
      (∀ m i j, isMatrixName e'.1 = some (m, i, j) → m ≠ e.1) ∧ e.1 ≠ p' ∧ e.1 ≠ q'

/-- Which base names are combined. -/
def plan (c : Block β α) (e : String × OMap String String) : Option (String × Bool × String × String) :=
  match choose e.2 with
  | none => none
  | some (k, p, q) => if contains c e.1 then none else some (e.1, k, p, q)

def eaten (js : List (Job β α)) : List String := js.flatMap fun j => [j.fst, j.snd]

theorem contains_iff (c : Block β α) (n : String) :
    contains c n = true ↔ n ∈ keys c.vars ∨ n ∈ keys c.ivars := by
  rw [contains, Bool.or_eq_true, member_iff, member_iff]

theorem loop_spec (env : Env β α) (full : Arr β α → Arr β α) (rect polar : α → α → α)
    (L : List (String × OMap String String)) : ∀ (c : Block β α),
    L.Pairwise Apart →
    (∀ e ∈ L, ∀ k p q, choose e.2 = some (k, p, q) → contains c e.1 = false →
      Ready full rect polar c e.1 k p q) →
    ∃ c' js, loop env full rect polar c L = .ok c' ∧ c'.ivars = c.ivars ∧
      c'.vars = (c.vars.filter fun p => !decide (p.1 ∈ eaten js)) ++ js.map (fun j => (j.name, j.val)) ∧
      js.map (fun j => (j.name, j.polar, j.fst, j.snd)) = L.filterMap (plan c) ∧
      ∀ j ∈ js, ∃ x y, lookup c.vars j.fst = some x ∧ lookup c.vars j.snd = some y ∧
        Arr.binop full (if j.polar then polar else rect) x y = .ok j.val := by
  induction L with
  | nil =>
    intro c _ _
    refine ⟨c, [], rfl, rfl, ?_, rfl, by simp⟩
    simp [eaten]
  | cons e L ih =>
    intro c hp hr
    obtain ⟨v, alt⟩ := e
    obtain ⟨hpe, hpL⟩ := List.pairwise_cons.1 hp
    obtain hn | ⟨⟨k, p, q⟩, hch⟩ : choose alt = none ∨ ∃ x, choose alt = some x := by
      cases choose alt <;> simp
    · obtain ⟨c', js, h1, h2, h3, h4, h5⟩ := ih c hpL fun e he => hr e (by simp [he])
      refine ⟨c', js, ?_, h2, h3, ?_, h5⟩
      · rw [loop, step_eq, hn]; exact h1
      · rw [List.filterMap_cons, plan]; simp only [hn]; exact h4
    by_cases hc : contains c v = true
    · obtain ⟨c', js, h1, h2, h3, h4, h5⟩ := ih c hpL fun e he => hr e (by simp [he])
      refine ⟨c', js, ?_, h2, h3, ?_, h5⟩
      · rw [loop, step_eq, hch]; simp only [hc, if_true]; exact h1
      · rw [List.filterMap_cons, plan]; simp only [hch, hc, if_true]; exact h4
    · have hc' : contains c v = false := by simpa using hc
      obtain ⟨hvp, hvq, hip, hiq, ⟨x, y, r, hx, hy, hb, hd⟩, hel⟩ := hr (v, alt) (by simp) k p q hch hc'
      have hnv : v ∉ keys c.vars := fun h => hc ((contains_iff c v).2 (Or.inl h))
      have hni : v ∉ keys c.ivars := fun h => hc ((contains_iff c v).2 (Or.inr h))
      have gp : getitem env c p = .ok x := by
        rw [getitem, (lookup_none_iff' _ _).2 hip, hx]
      have gq : getitem env c q = .ok y := by
        rw [getitem, (lookup_none_iff' _ _).2 hiq, hy]
      have hset := setArr_new env c v r hni hnv hel
      rw [addDims_known _ _ hd] at hset
      let c1 : Block β α := ⟨(c.vars.filter fun w => !(decide (w.1 = p) || decide (w.1 = q))) ++ [(v, r)], c.ivars,
        nextXname c.xname r.dims⟩
      have hcomb : combine env full (if k then polar else rect) c v p q = .ok c1 := by
        simp only [combine, gp, gq, hb, ofArr, hset, delitem_vars]
        congr 2
        simp only [remove, List.filter_append, List.filter_filter, c1]
        congr 1
        · refine List.filter_congr fun w _ => ?_
          simp [Bool.and_comm]
        · simp [hvp, hvq]
      have hl1 : ∀ n, n ≠ v → n ≠ p → n ≠ q → lookup c1.vars n = lookup c.vars n := by
        intro n h1 h2 h3
        show lookup (_ ++ [(v, r)]) n = _
        rw [lookup_append, lookup_filter c.vars (fun w => !(decide (w = p) || decide (w = q))) n (by simp [h2, h3]),
          lookup_singleton, if_neg (Ne.symm h1)]
        simp
      have hk1 : ∀ n, n ∈ keys c1.vars → n = v ∨ n ∈ keys c.vars := by
        intro n hn
        obtain ⟨w, hw, rfl⟩ := List.mem_map.1 hn
        rcases List.mem_append.1 hw with h | h
        · exact Or.inr (List.mem_map_of_mem (List.mem_of_mem_filter h))
        · exact Or.inl (by rw [List.mem_singleton.1 h])
      have hcont : ∀ e ∈ L, ∀ z, choose e.2 = some z → contains c1 e.1 = contains c e.1 := by
        rintro e he ⟨k', p', q'⟩ hz
        obtain ⟨a1, a2⟩ := hpe e he
        obtain ⟨⟨a4, a5⟩, -⟩ := a2 k p q k' p' q' hch hz
        have h := hl1 e.1 (Ne.symm a1) a4 a5
        rw [Bool.eq_iff_iff, contains_iff, contains_iff, ← lookup_isSome_iff, h, lookup_isSome_iff]
      obtain ⟨c', js, h1, h2, h3, h4, h5⟩ := ih c1 hpL (by
        intro e he k' p' q' hch' hcn
        rw [hcont e he _ hch'] at hcn
        obtain ⟨a1, a2⟩ := hpe e he
        obtain ⟨⟨a4, a5⟩, ⟨b1, b2, b3, b4⟩, b5, a7, a8⟩ := a2 k p q k' p' q' hch hch'
        obtain ⟨r1, r2, r3, r4, ⟨x', y', r', f1, f2, f3, f4⟩, r6⟩ :=
          hr e (by simp [he]) k' p' q' hch' hcn
        refine ⟨r1, r2, r3, r4, ⟨x', y', r', ?_, ?_, f3, f4⟩, ?_⟩
        · rw [hl1 p' (Ne.symm a7) b1 b2]; exact f1
        · rw [hl1 q' (Ne.symm a8) b3 b4]; exact f2
        · intro m i j hm hmem
          rcases hk1 m hmem with h | h
          · exact b5 m i j hm h
          · exact r6 m i j hm h)
      have hplan : L.filterMap (plan c1) = L.filterMap (plan c) := by
        refine List.filterMap_congr fun e he => ?_
        unfold plan
        cases hz : choose e.2 with
        | none => rfl
        | some z => simp only [hcont e he z hz]
      have hjs : ∀ j ∈ js, ∃ e ∈ L, e.1 = j.name ∧ choose e.2 = some (j.polar, j.fst, j.snd) := by
        intro j hj
        have : (j.name, j.polar, j.fst, j.snd) ∈ L.filterMap (plan c1) := by
          rw [← h4]; exact List.mem_map.2 ⟨j, hj, rfl⟩
        obtain ⟨e, he, hpl⟩ := List.mem_filterMap.1 this
        unfold plan at hpl
        split at hpl
        · cases hpl
        · rename_i k' p' q' hch'
          split at hpl
          · cases hpl
          · simp only [Option.some.injEq, Prod.mk.injEq] at hpl
            obtain ⟨e1, rfl, rfl, rfl⟩ := hpl
            exact ⟨e, he, e1, hch'⟩
      refine ⟨c', ⟨v, k, p, q, r⟩ :: js, ?_, h2, ?_, ?_, ?_⟩
      · rw [loop, step_eq, hch]
        simp only [hc', Bool.false_eq_true, if_false, hcomb]
        exact h1
      · rw [h3]
        show List.filter _ (_ ++ [(v, r)]) ++ _ = _
        rw [List.filter_append, List.filter_filter]
        have hve : v ∉ eaten js := by
          intro h
          obtain ⟨j, hj, hm⟩ := List.mem_flatMap.1 h
          obtain ⟨e, he, -, hch'⟩ := hjs j hj
          obtain ⟨-, a2⟩ := hpe e he
          obtain ⟨-, -, -, a7, a8⟩ := a2 _ _ _ _ _ _ hch hch'
          simp only [List.mem_cons, List.not_mem_nil, or_false] at hm
          rcases hm with hm | hm
          · exact a7 hm
          · exact a8 hm
        have hf1 : [(v, r)].filter (fun w => !decide (w.1 ∈ eaten js)) = [(v, r)] := by simp [hve]
        rw [hf1, List.append_assoc]
        congr 1
        · refine List.filter_congr fun w _ => ?_
          have : eaten ((⟨v, k, p, q, r⟩ : Job β α) :: js) = p :: q :: eaten js := rfl
          rw [this]
          by_cases e1 : w.1 = p <;> by_cases e2 : w.1 = q <;> by_cases e3 : w.1 ∈ eaten js <;>
            simp [e1, e2, e3]
      · rw [List.map_cons, h4, hplan, List.filterMap_cons]
        have : plan c (v, alt) = some (v, k, p, q) := by
          unfold plan
          simp only [hch, hc', Bool.false_eq_true, if_false]
        rw [this]
      · intro j hj
        rcases List.mem_cons.1 hj with rfl | hj
        · exact ⟨x, y, hx, hy, hb⟩
        · obtain ⟨x', y', l1, l2, l3⟩ := h5 j hj
          obtain ⟨e, he, -, hch'⟩ := hjs j hj
          obtain ⟨a1, a2⟩ := hpe e he
          obtain ⟨-, ⟨b1, b2, b3, b4⟩, -, a7, a8⟩ := a2 _ _ _ _ _ _ hch hch'
          refine ⟨x', y', ?_, ?_, l3⟩
          · rw [← hl1 j.fst (Ne.symm a7) b1 b2]; exact l1
          · rw [← hl1 j.snd (Ne.symm a8) b3 b4]; exact l2

end HF.Readers.Complex
