import Verif.Mdif.Read
import Verif.Readers.StreamProps
/-
C63: lines of an MDIF file and the blocks they make up.
-/
namespace HF.Mdif

open Units (isWs strip)
open Readers (Token manyOptional one)

/-! ### Lines -/

/-- What a line says. -/
inductive Says : List Char → Tok → Prop where
  | comment (w r) (hw : ∀ c ∈ w, isWs c = true) : Says (w ++ '!' :: r) ⟨.comment, strip r⟩
  | header (w r) (hw : ∀ c ∈ w, isWs c = true) : Says (w ++ '%' :: r) ⟨.header, strip r⟩
  | attrib (w r) (hw : ∀ c ∈ w, isWs c = true) : Says (w ++ '#' :: r) ⟨.attrib, strip r⟩
  | start (w r) (hw : ∀ c ∈ w, isWs c = true) : Says (w ++ 'B' :: 'E' :: 'G' :: 'I' :: 'N' :: r) ⟨.start, strip (r.drop 1)⟩
  | stop (w r) (hw : ∀ c ∈ w, isWs c = true) : Says (w ++ 'E' :: 'N' :: 'D' :: r) ⟨.stop, r.drop 1⟩
  | var (w r) (hw : ∀ c ∈ w, isWs c = true) : Says (w ++ 'V' :: 'A' :: 'R' :: r) ⟨.var, r.drop 1⟩
  | data (w c r) (hw : ∀ c ∈ w, isWs c = true) (hc : isWs c = false) (h1 : c ∉ ['!', '%', '#'])
      (h2 : ∀ k ∈ [['B', 'E', 'G', 'I', 'N'], ['E', 'N', 'D'], ['V', 'A', 'R']], ¬ k <+: c :: r) :
      Says (w ++ c :: r) ⟨.data, c :: r⟩

theorem lead (line : List Char) : ∃ w, (∀ c ∈ w, isWs c = true) ∧ line = w ++ line.dropWhile isWs := by
  refine ⟨line.takeWhile isWs, ?_, List.takeWhile_append_dropWhile.symm⟩
  intro c hc
  have := List.all_takeWhile (p := isWs) (l := line)
  exact List.all_eq_true.1 this c hc

theorem drop_lead (w r : List Char) (c : Char) (hw : ∀ c ∈ w, isWs c = true) (hc : isWs c = false) :
    (w ++ c :: r).dropWhile isWs = c :: r := by
  rw [List.dropWhile_append_of_pos hw, List.dropWhile_cons]
  simp [hc]

/-- C63: what the lines of a file say. -/
theorem C63_line (line : List Char) (t : Tok) : tokenLine line = some t ↔ Says line t := by
  constructor
  · intro h
    obtain ⟨w, hw, hl⟩ := lead line
    unfold tokenLine at h
    split at h
    · cases h
    rename_i c r hr
    rw [hr] at hl
    have hc : isWs c = false := by
      have := List.head?_dropWhile_not (p := isWs) line
      rw [hr] at this
      simpa using this
    rw [hl]
    split at h
    · rename_i e; subst e; cases h; exact .comment w r hw
    rename_i n1
    split at h
    · rename_i e; subst e; cases h; exact .header w r hw
    rename_i n2
    split at h
    · rename_i e; subst e; cases h; exact .attrib w r hw
    rename_i n3
    split at h
    · rename_i e
      obtain ⟨r', e⟩ := List.isPrefixOf_iff_prefix.1 e
      rw [← e] at h ⊢
      cases h
      exact .start w r' hw
    rename_i n4
    split at h
    · rename_i e
      obtain ⟨r', e⟩ := List.isPrefixOf_iff_prefix.1 e
      rw [← e] at h ⊢
      cases h
      exact .stop w r' hw
    rename_i n5
    split at h
    · rename_i e
      obtain ⟨r', e⟩ := List.isPrefixOf_iff_prefix.1 e
      rw [← e] at h ⊢
      cases h
      exact .var w r' hw
    rename_i n6
    cases h
    refine .data w c r hw hc (by simp [n1, n2, n3]) ?_
    intro k hk hp
    have hp := List.isPrefixOf_iff_prefix.2 hp
    simp only [List.mem_cons, List.not_mem_nil, or_false] at hk
    rcases hk with rfl | rfl | rfl
    · exact n4 hp
    · exact n5 hp
    · exact n6 hp
  · intro h
    cases h with
    | comment w r hw => simp [tokenLine, drop_lead w r '!' hw (by decide)]
    | header w r hw => simp [tokenLine, drop_lead w r '%' hw (by decide)]
    | attrib w r hw => simp [tokenLine, drop_lead w r '#' hw (by decide)]
    | start w r hw =>
      simp [tokenLine, drop_lead w _ 'B' hw (by decide), kwBegin]
    | stop w r hw => simp [tokenLine, drop_lead w _ 'E' hw (by decide), kwBegin, kwEnd]
    | var w r hw => simp [tokenLine, drop_lead w _ 'V' hw (by decide), kwBegin, kwEnd, kwVar]
    | data w c r hw hc h1 h2 =>
      simp only [List.mem_cons, List.not_mem_nil, or_false, not_or] at h1
      simp only [List.mem_cons, List.not_mem_nil, or_false, forall_eq_or_imp, forall_eq] at h2
      simp only [tokenLine, drop_lead w r c hw hc, h1.1, h1.2.1, h1.2.2, if_false]
      have g : ∀ k, ¬ k <+: c :: r → k.isPrefixOf (c :: r) = false := by
        intro k hk
        rw [Bool.eq_false_iff]
        exact fun h => hk (List.isPrefixOf_iff_prefix.1 h)
      simp [kwBegin, kwEnd, kwVar, g _ h2.1, g _ h2.2.1, g _ h2.2.2]

/-- C63: lines that say nothing are those with only white space. -/
theorem C63_blank (line : List Char) : tokenLine line = none ↔ ∀ c ∈ line, isWs c = true := by
  have : line.dropWhile isWs = [] ↔ ∀ c ∈ line, isWs c = true := by
    constructor
    · intro h c hc
      obtain ⟨w, hw, hl⟩ := lead line
      rw [h, List.append_nil] at hl
      exact hw c (hl ▸ hc)
    · intro h
      have := List.dropWhile_append_of_pos (p := isWs) (l₁ := line) (l₂ := []) h
      simpa using this
  rw [← this]
  unfold tokenLine
  cases line.dropWhile isWs with
  | nil => simp
  | cons c r =>
    simp only [reduceCtorEq, iff_false]
    repeat' split
    all_goals simp

/-! ### Blocks -/

/-- The lines of a block of a file. -/
structure Sheet where
  comments : List (List Char)
  vars : List (List Char)
  name : List Char
  attribs : List (List Char)
  header : List (List Char)
  data : List (List Char)
  last : List Char
  deriving DecidableEq

def toks (t : Tag) (l : List (List Char)) : List Tok := l.map fun s => ⟨t, s⟩

/-- In their order. -/
def Sheet.toks (s : Sheet) : List Tok :=
  Mdif.toks .comment s.comments ++ Mdif.toks .var s.vars ++ [⟨.start, s.name⟩] ++ Mdif.toks .attrib s.attribs ++
    Mdif.toks .header s.header ++ Mdif.toks .data s.data ++ [⟨.stop, s.last⟩]

def Sheet.raw (s : Sheet) : Raw :=
  ⟨s.comments, s.vars.map splitEq, [s.name], s.attribs.map splitEq, s.header.map Text.words, s.data⟩

/-- A block that has been begun, perhaps, but not finished. -/
def Cut (p : List Tok) : Prop := ∃ s : Sheet, p <+: s.toks ∧ p ≠ s.toks

/-- Which line may follow which one. -/
def allowed : Option Tag → Tag → Bool
  | none, t => t = .comment || t = .var || t = .start
  | some .comment, t => t = .comment || t = .var || t = .start
  | some .var, t => t = .var || t = .start
  | some .start, t => t = .attrib || t = .header || t = .data || t = .stop
  | some .attrib, t => t = .attrib || t = .header || t = .data || t = .stop
  | some .header, t => t = .header || t = .data || t = .stop
  | some .data, t => t = .data || t = .stop
  | some .stop, _ => false

def path : Option Tag → List Tok → Bool
  | _, [] => true
  | o, t :: ts => allowed o t.tag && path (some t.tag) ts

theorem path_prefix {o : Option Tag} {a b : List Tok} (h : a <+: b) (hb : path o b = true) : path o a = true := by
  induction a generalizing o b with
  | nil => rfl
  | cons t a ih =>
    obtain ⟨r, rfl⟩ := h
    simp only [List.cons_append, path, Bool.and_eq_true] at hb ⊢
    exact ⟨hb.1, ih ⟨r, rfl⟩ hb.2⟩

theorem path_many (o : Option Tag) (t : Tag) (l : List (List Char)) (r : List Tok) (h1 : allowed o t = true)
    (h2 : allowed (some t) t = true) (ho : path o r = true) (hr : path (some t) r = true) :
    path o (toks t l ++ r) = true := by
  induction l generalizing o with
  | nil => exact ho
  | cons s l ih =>
    simp only [toks, List.map_cons, List.cons_append, path, h1, Bool.true_and]
    exact ih (some t) h2 hr

theorem sheet_path (s : Sheet) : path none s.toks = true := by
  have e6 : ∀ t, allowed (some t) .stop = true → path (some t) [⟨.stop, s.last⟩] = true := by
    intro t h; simp [path, h]
  have e5 : ∀ t, allowed (some t) .stop = true → allowed (some t) .data = true →
      path (some t) (toks .data s.data ++ [⟨.stop, s.last⟩]) = true := by
    intro t h h'; exact path_many _ _ _ _ h' rfl (e6 t h) (e6 _ rfl)
  have e4 : ∀ t, allowed (some t) .stop = true → allowed (some t) .data = true → allowed (some t) .header = true →
      path (some t) (toks .header s.header ++ (toks .data s.data ++ [⟨.stop, s.last⟩])) = true := by
    intro t h h' h''; exact path_many _ _ _ _ h'' rfl (e5 t h h') (e5 _ rfl rfl)
  have e3 : path (some .start) (toks .attrib s.attribs ++ (toks .header s.header ++
      (toks .data s.data ++ [⟨.stop, s.last⟩]))) = true :=
    path_many _ _ _ _ rfl rfl (e4 _ rfl rfl rfl) (e4 _ rfl rfl rfl)
  have e2 : ∀ o, allowed o .start = true → path o (⟨.start, s.name⟩ :: (toks .attrib s.attribs ++
      (toks .header s.header ++ (toks .data s.data ++ [⟨.stop, s.last⟩])))) = true := by
    intro o h; simp only [path, h, Bool.true_and]; exact e3
  have e1 : ∀ o, allowed o .start = true → allowed o .var = true → path o (toks .var s.vars ++
      (⟨.start, s.name⟩ :: (toks .attrib s.attribs ++ (toks .header s.header ++
      (toks .data s.data ++ [⟨.stop, s.last⟩]))))) = true := by
    intro o h h'; exact path_many _ _ _ _ h' rfl (e2 o h) (e2 _ rfl)
  have e0 := path_many none .comment s.comments _ rfl rfl (e1 none rfl rfl) (e1 (some .comment) rfl rfl)
  simpa [Sheet.toks] using e0

/-- Nothing follows `END`. -/
theorem path_stop {o : Option Tag} {p : List Tok} (h : path o p = true) {t : Tok} (ht : t ∈ p) (hs : t.tag = .stop) :
    p.getLast? = some t := by
  induction p generalizing o with
  | nil => simp at ht
  | cons u p ih =>
    simp only [path, Bool.and_eq_true] at h
    rcases List.mem_cons.1 ht with rfl | ht
    · cases p with
      | nil => rfl
      | cons v p => simp [path, hs, allowed] at h
    · have := ih h.2 ht
      cases p with
      | nil => simp at ht
      | cons v p => simpa [List.getLast?_cons_cons] using this

theorem cut_no_stop {p : List Tok} (h : Cut p) : ∀ t ∈ p, t.tag ≠ .stop := by
  obtain ⟨s, ⟨r, e⟩, hne⟩ := h
  intro t ht hs
  have hp := sheet_path s
  cases r with
  | nil => exact hne (by simpa using e)
  | cons u r =>
    -- `t` is not the last one
    obtain ⟨a, b, rfl⟩ := List.append_of_mem ht
    rw [← e] at hp
    have hq : ∀ (a : List Tok) (o : Option Tag), path o (a ++ t :: (b ++ u :: r)) = true → False := by
      intro a
      induction a with
      | nil =>
        intro o h
        simp only [List.nil_append, path, hs, Bool.and_eq_true] at h
        cases hbu : b ++ u :: r with
        | nil => simp at hbu
        | cons v l => rw [hbu] at h; simp [path, allowed] at h
      | cons x a ih =>
        intro o h
        simp only [List.cons_append, path, Bool.and_eq_true] at h
        exact ih _ h.2
    exact hq a none (by simpa using hp)

theorem sheet_stop (s : Sheet) : ∃ t ∈ s.toks, t.tag = .stop := ⟨⟨.stop, s.last⟩, by simp [Sheet.toks], rfl⟩

/-! ### One block -/

theorem many_nil {γ : Type} (n : Tag) (f : List Char → γ) : manyOptional n f ([] : Toks) = (.error .stopIteration, []) := rfl

/-- What `ManyOptional` does. -/
theorem many_cases {γ : Type} (n : Tag) (f : List Char → γ) (ts : Toks) :
    (ts = [] ∧ manyOptional n f ts = (.error .stopIteration, [])) ∨
    ∃ l rest, ts = toks n l ++ rest ∧ manyOptional n f ts = (.ok (l.map f), rest) ∧
      ∀ t ∈ rest.head?, t.tag ≠ n := by
  cases ts with
  | nil => exact Or.inl ⟨rfl, rfl⟩
  | cons t ts =>
    obtain ⟨cs, rest, e1, e2, e3, e4⟩ := Readers.C20_many n f (t :: ts) (by simp)
    refine Or.inr ⟨cs.map Token.rad, rest, ?_, ?_, e4⟩
    · rw [e1]
      congr 1
      unfold toks
      rw [List.map_map]
      clear e1 e2
      induction cs with
      | nil => rfl
      | cons c cs ih =>
        rw [List.map_cons, ← ih fun t h => e3 t (by simp [h])]
        have := e3 c (by simp)
        cases c
        simp only at this
        simp [this]
    · rw [e2, List.map_map]; rfl

theorem one_cases (n : Tag) (ts : Toks) :
    (ts = [] ∧ one n ts = (.error .stopIteration, [])) ∨
    (∃ s rest, ts = ⟨n, s⟩ :: rest ∧ one n ts = (.ok [s], rest)) ∨
    ∃ t rest, ts = t :: rest ∧ t.tag ≠ n ∧ one n ts = (.error .exception, rest) := by
  cases ts with
  | nil => exact Or.inl ⟨rfl, rfl⟩
  | cons t ts =>
    by_cases h : t.tag = n
    · refine Or.inr (Or.inl ⟨t.rad, ts, by cases t; simp only at h; rw [h], ?_⟩)
      simp [one, Readers.oneOf, Readers.next, h]
    · exact Or.inr (Or.inr ⟨t, ts, rfl, h, by simp [one, Readers.oneOf, Readers.next, h]⟩)

/-- The tokens are those of a block up to one that can not come there. -/
def Wrong (ts : List Tok) : Prop :=
  ∃ p t rest, ts = p ++ t :: rest ∧ Cut p ∧ ¬ ∃ s : Sheet, p ++ [t] <+: s.toks

theorem not_prefix {p : List Tok} {t : Tok} (h : path none (p ++ [t]) = false) :
    ¬ ∃ s : Sheet, p ++ [t] <+: s.toks := by
  rintro ⟨s, hs⟩
  rw [path_prefix hs (sheet_path s)] at h
  cases h

/-- The last tag. -/
def lastTag (o : Option Tag) : List Tok → Option Tag
  | [] => o
  | t :: ts => lastTag (some t.tag) ts

theorem path_snoc (o : Option Tag) (p : List Tok) (t : Tok) :
    path o (p ++ [t]) = (path o p && allowed (lastTag o p) t.tag) := by
  induction p generalizing o with
  | nil => simp [path, lastTag]
  | cons u p ih => simp [path, lastTag, ih, Bool.and_assoc]

theorem lastTag_append (o : Option Tag) (a b : List Tok) : lastTag o (a ++ b) = lastTag (lastTag o a) b := by
  induction a generalizing o with
  | nil => rfl
  | cons t a ih => exact ih _

theorem lastTag_toks (o : Option Tag) (t : Tag) (l : List (List Char)) :
    lastTag o (toks t l) = o ∧ l = [] ∨ lastTag o (toks t l) = some t ∧ l ≠ [] := by
  induction l generalizing o with
  | nil => exact Or.inl ⟨rfl, rfl⟩
  | cons s l ih =>
    right
    refine ⟨?_, by simp⟩
    rcases ih (some t) with h | h
    · exact h.1
    · exact h.1

theorem length_toks (t : Tag) (l : List (List Char)) : (toks t l).length = l.length := by simp [toks]

/-- What a pass of the loop does. -/
theorem group_cases (ts : Toks) :
    (∃ (s : Sheet) (rest : List Tok), ts = s.toks ++ rest ∧ group ts = (.ok s.raw, rest)) ∨
    (Cut ts ∧ (group ts).1 = .error .stopIteration) ∨
    (Wrong ts ∧ (group ts).1 = .error .exception) := by
  have stopCut : ∀ s : Sheet, ∀ p : List Tok, ∀ x : Tok, ∀ l, s.toks = p ++ x :: l → Cut p := by
    intro s p x l h
    exact ⟨s, ⟨x :: l, h.symm⟩, by rw [h]; simp⟩
  unfold group
  rcases many_cases .comment id ts with ⟨rfl, h1⟩ | ⟨cs, r1, e1, h1, g1⟩
  · right; left
    exact ⟨stopCut ⟨[], [], [], [], [], [], []⟩ [] _ _ rfl, by rw [h1]⟩
  simp only [h1, List.map_id]
  rcases many_cases .var splitEq r1 with ⟨rfl, h2⟩ | ⟨vs, r2, e2, h2, g2⟩
  · right; left
    refine ⟨?_, by rw [h2]⟩
    rw [e1, List.append_nil]
    exact stopCut ⟨cs, [], [], [], [], [], []⟩ (toks .comment cs) ⟨.start, []⟩ [⟨.stop, []⟩] (by simp [Sheet.toks, toks])
  simp only [h2]
  rcases one_cases .start r2 with ⟨rfl, h3⟩ | ⟨nm, r3, e3, h3⟩ | ⟨t, r3, e3, n3, h3⟩
  · right; left
    refine ⟨?_, by rw [h3]⟩
    rw [e1, e2, List.append_nil]
    exact stopCut ⟨cs, vs, [], [], [], [], []⟩ _ ⟨.start, []⟩ [⟨.stop, []⟩] (by simp [Sheet.toks, toks])
  case inr.inr.inr =>
    right; right
    refine ⟨⟨toks .comment cs ++ toks .var vs, t, r3, by rw [e1, e2, e3]; simp, ?_, ?_⟩, by rw [h3]⟩
    · exact stopCut ⟨cs, vs, [], [], [], [], []⟩ _ ⟨.start, []⟩ [⟨.stop, []⟩] (by simp [Sheet.toks, toks])
    · refine not_prefix ?_
      rw [path_snoc, Bool.and_eq_false_iff]
      right
      have ht2 : t.tag ≠ .var := g2 t (by rw [e3]; rfl)
      rw [lastTag_append]
      rcases lastTag_toks (lastTag none (toks .comment cs)) .var vs with ⟨hv, rfl⟩ | ⟨hv, -⟩
      · have ht1 : t.tag ≠ .comment := g1 t (by rw [e2, e3]; rfl)
        rw [hv]
        rcases lastTag_toks none .comment cs with ⟨hc, -⟩ | ⟨hc, -⟩ <;> rw [hc] <;> simp [allowed, n3, ht1, ht2]
      · rw [hv]; simp [allowed, n3, ht2]
  simp only [h3]
  have pre : ∀ r, toks .comment cs ++ (toks .var vs ++ ⟨.start, nm⟩ :: r) =
    (toks .comment cs ++ toks .var vs ++ [⟨.start, nm⟩]) ++ r := by intro r; simp
  have last0 : lastTag none (toks .comment cs ++ toks .var vs ++ [⟨.start, nm⟩]) = some .start := by
    rw [lastTag_append]; rfl
  rcases many_cases .attrib splitEq r3 with ⟨rfl, h4⟩ | ⟨as, r4, e4, h4, g4⟩
  · right; left
    refine ⟨?_, by rw [h4]⟩
    rw [e1, e2, e3, pre, List.append_nil]
    exact stopCut ⟨cs, vs, nm, [], [], [], []⟩ _ ⟨.stop, []⟩ [] (by simp [Sheet.toks, toks])
  simp only [h4]
  rcases many_cases .header Text.words r4 with ⟨rfl, h5⟩ | ⟨hs, r5, e5, h5, g5⟩
  · right; left
    refine ⟨?_, by rw [h5]⟩
    rw [e1, e2, e3, pre, e4, List.append_nil]
    exact stopCut ⟨cs, vs, nm, as, [], [], []⟩ _ ⟨.stop, []⟩ [] (by simp [Sheet.toks, toks])
  simp only [h5]
  rcases many_cases .data id r5 with ⟨rfl, h6⟩ | ⟨ds, r6, e6, h6, g6⟩
  · right; left
    refine ⟨?_, by rw [h6]⟩
    rw [e1, e2, e3, pre, e4, e5, List.append_nil]
    exact stopCut ⟨cs, vs, nm, as, hs, [], []⟩ _ ⟨.stop, []⟩ [] (by simp [Sheet.toks, toks])
  simp only [h6, List.map_id]
  have whole : ∀ r, toks .comment cs ++ (toks .var vs ++ ⟨.start, nm⟩ :: (toks .attrib as ++ (toks .header hs ++
      (toks .data ds ++ r)))) = (toks .comment cs ++ toks .var vs ++ [⟨.start, nm⟩] ++ toks .attrib as ++
      toks .header hs ++ toks .data ds) ++ r := by intro r; simp
  have hcut : ∀ l, Cut (toks .comment cs ++ toks .var vs ++ [⟨.start, nm⟩] ++ toks .attrib as ++
      toks .header hs ++ toks .data ds ++ l) ∨ l ≠ [] := by
    intro l
    cases l with
    | nil => left; exact stopCut ⟨cs, vs, nm, as, hs, ds, []⟩ _ ⟨.stop, []⟩ [] (by simp [Sheet.toks, toks])
    | cons => right; simp
  have hcut := (hcut []).resolve_right (by simp)
  rw [List.append_nil] at hcut
  rcases one_cases .stop r6 with ⟨rfl, h7⟩ | ⟨la, r7, e7, h7⟩ | ⟨t, r7, e7, n7, h7⟩
  · right; left
    refine ⟨?_, by rw [h7]⟩
    rw [e1, e2, e3, e4, e5, e6, whole, List.append_nil]
    exact hcut
  · left
    refine ⟨⟨cs, vs, nm, as, hs, ds, la⟩, r7, ?_, ?_⟩
    · rw [e1, e2, e3, e4, e5, e6, e7]; simp [Sheet.toks]
    · simp only [h7]; rfl
  · right; right
    refine ⟨⟨_, t, r7, by rw [e1, e2, e3, e4, e5, e6, e7, whole], hcut, ?_⟩, by rw [h7]⟩
    refine not_prefix ?_
    rw [path_snoc, Bool.and_eq_false_iff]
    right
    have t6 : t.tag ≠ .data := g6 t (by rw [e7]; rfl)
    rw [lastTag_append, lastTag_append, lastTag_append, last0]
    rcases lastTag_toks (lastTag (lastTag (some .start) (toks .attrib as)) (toks .header hs)) .data ds with
      ⟨hv, rfl⟩ | ⟨hv, -⟩
    · have t5 : t.tag ≠ .header := g5 t (by rw [e6, e7]; rfl)
      rw [hv]
      rcases lastTag_toks (lastTag (some .start) (toks .attrib as)) .header hs with ⟨hv, rfl⟩ | ⟨hv, -⟩
      · have t4 : t.tag ≠ .attrib := g4 t (by rw [e5, e6, e7]; rfl)
        rw [hv]
        rcases lastTag_toks (some .start) .attrib as with ⟨hv, -⟩ | ⟨hv, -⟩ <;> rw [hv] <;>
          simp [allowed, n7, t4, t5, t6]
      · rw [hv]; simp [allowed, n7, t5, t6]
    · rw [hv]; simp [allowed, n7, t6]

/-- These exclude each other. -/
theorem sheet_not_cut (s : Sheet) (rest : List Tok) : ¬ Cut (s.toks ++ rest) := by
  intro h
  obtain ⟨t, ht, hs⟩ := sheet_stop s
  exact cut_no_stop h t (by simp [ht]) hs

theorem wrong_not_cut {ts : List Tok} (h : Wrong ts) : ¬ Cut ts := by
  rintro ⟨s, ⟨r, e⟩, -⟩
  obtain ⟨p, t, rest, rfl, -, hn⟩ := h
  exact hn ⟨s, ⟨rest ++ r, by rw [← e]; simp⟩⟩

theorem sheet_not_wrong (s : Sheet) (rest : List Tok) : ¬ Wrong (s.toks ++ rest) := by
  rintro ⟨p, t, r, e, hc, hn⟩
  rcases List.prefix_or_prefix_of_prefix (l₁ := s.toks) (l₂ := p ++ [t]) (l₃ := s.toks ++ rest) ⟨rest, rfl⟩
    ⟨r, by rw [e]; simp⟩ with h | h
  · rcases List.prefix_concat_iff.1 h with h | h
    · exact hn ⟨s, by rw [h]; exact List.prefix_refl _⟩
    · obtain ⟨x, hx, hs⟩ := sheet_stop s
      exact cut_no_stop hc x (h.subset hx) hs
  · exact hn ⟨s, h⟩

theorem many_toks (t : Tag) {γ : Type} (f : List Char → γ) (l : List (List Char)) (r : List Tok) (hr : r ≠ [])
    (h : ∀ u ∈ r.head?, u.tag ≠ t) : manyOptional t f (toks t l ++ r) = (.ok (l.map f), r) := by
  obtain ⟨u, r, rfl⟩ := List.exists_cons_of_ne_nil hr
  have hu : u.tag ≠ t := h u rfl
  have hne : toks t l ++ u :: r ≠ [] := by simp
  cases h : toks t l ++ u :: r with
  | nil => exact absurd h hne
  | cons a b =>
    simp only [manyOptional, Readers.next, Readers.manyLoop_eq, ← h, List.nil_append]
    rw [List.takeWhile_append_of_pos (by simp [toks]), List.dropWhile_append_of_pos (by simp [toks])]
    simp [hu, toks]

theorem head_toks (t a : Tag) (l : List (List Char)) (r : List Tok) (ha : a ≠ t) (h : ∀ u ∈ r.head?, u.tag ≠ t) :
    ∀ u ∈ (toks a l ++ r).head?, u.tag ≠ t := by
  cases l with
  | nil => exact h
  | cons s l => intro u hu; simp [toks] at hu; rw [← hu]; exact ha

/-- The block at the beginning is found. -/
theorem group_sheet (s : Sheet) (rest : List Tok) : group (s.toks ++ rest) = (.ok s.raw, rest) := by
  have e : s.toks ++ rest = toks .comment s.comments ++ (toks .var s.vars ++ (⟨.start, s.name⟩ ::
      (toks .attrib s.attribs ++ (toks .header s.header ++ (toks .data s.data ++ ⟨.stop, s.last⟩ :: rest))))) := by
    simp [Sheet.toks]
  rw [e]
  unfold group
  rw [many_toks .comment id _ _ (by simp) (head_toks _ _ _ _ (by decide) (by simp))]
  simp only
  rw [many_toks .var splitEq _ _ (by simp) (by simp)]
  simp only [one, Readers.oneOf, Readers.next, List.mem_singleton, if_true]
  rw [many_toks .attrib splitEq _ _ (by simp) (head_toks _ _ _ _ (by decide) (head_toks _ _ _ _ (by decide) (by simp)))]
  simp only
  rw [many_toks .header Text.words _ _ (by simp) (head_toks _ _ _ _ (by decide) (by simp))]
  simp only
  rw [many_toks .data id _ _ (by simp) (by simp)]
  simp [Sheet.raw]

theorem group_cut {ts : List Tok} (h : Cut ts) : (group ts).1 = .error .stopIteration := by
  rcases group_cases ts with ⟨s, r, rfl, -⟩ | ⟨-, h'⟩ | ⟨h', -⟩
  · exact absurd h (sheet_not_cut s r)
  · exact h'
  · exact absurd h (wrong_not_cut h')

theorem group_wrong {ts : List Tok} (h : Wrong ts) : (group ts).1 = .error .exception := by
  rcases group_cases ts with ⟨s, r, rfl, -⟩ | ⟨h', -⟩ | ⟨-, h'⟩
  · exact absurd h (sheet_not_wrong s r)
  · exact absurd h' (wrong_not_cut h)
  · exact h'

/-! ### All blocks -/

/-- What ends the loop: the quiet end of the generator, or an error. -/
def atEnd (pep479 : Bool) : Option ReadErr := if pep479 then some .runtimeError else none

theorem groupBlocks_ok {pep : Bool} {ts : Toks} {r : Raw} {s' : Toks} (h : group ts = (.ok r, s')) :
    groupBlocks pep ts = (r :: (groupBlocks pep s').1, (groupBlocks pep s').2) := by
  rw [groupBlocks]
  split
  · rename_i r' s'' h'
    rw [h] at h'
    cases h'
    rfl
  · rename_i h'; rw [h] at h'; cases h'
  · rename_i h'; rw [h] at h'; cases h'

theorem groupBlocks_stop {pep : Bool} {ts : Toks} (h : (group ts).1 = .error .stopIteration) :
    groupBlocks pep ts = ([], atEnd pep) := by
  rw [groupBlocks]
  split
  · rename_i h'; rw [h'] at h; cases h
  · rfl
  · rename_i hn h'; rw [h'] at h; cases h; exact absurd rfl hn

theorem groupBlocks_exc {pep : Bool} {ts : Toks} (h : (group ts).1 = .error .exception) :
    groupBlocks pep ts = ([], some .exception) := by
  rw [groupBlocks]
  split
  · rename_i h'; rw [h'] at h; cases h
  · rename_i h'; rw [h'] at h; cases h
  · rfl

theorem groupBlocks_sheets (pep : Bool) (ss : List Sheet) (rest : List Tok) :
    groupBlocks pep (ss.flatMap Sheet.toks ++ rest) =
      (ss.map Sheet.raw ++ (groupBlocks pep rest).1, (groupBlocks pep rest).2) := by
  induction ss with
  | nil => simp
  | cons s ss ih =>
    rw [List.flatMap_cons, List.append_assoc, groupBlocks_ok (group_sheet s _), ih]
    rfl

/-- C63: the blocks of a file are found one after the other, without loss, for every number of lines of
each kind in each of them. -/
theorem C63_blocks (pep : Bool) (ss : List Sheet) (rest : List Tok) (h : Cut rest) :
    groupBlocks pep (ss.flatMap Sheet.toks ++ rest) = (ss.map Sheet.raw, atEnd pep) := by
  rw [groupBlocks_sheets, groupBlocks_stop (group_cut h)]
  simp

/-- C63: a line in the wrong place is an error. -/
theorem C63_misplaced (pep : Bool) (ss : List Sheet) (rest : List Tok) (h : Wrong rest) :
    groupBlocks pep (ss.flatMap Sheet.toks ++ rest) = (ss.map Sheet.raw, some .exception) := by
  rw [groupBlocks_sheets, groupBlocks_exc (group_wrong h)]
  simp

/-- C63: there are no other cases. -/
theorem C63_cases (ts : List Tok) : ∃ (ss : List Sheet) (rest : List Tok), ts = ss.flatMap Sheet.toks ++ rest ∧
    (Cut rest ∨ Wrong rest) := by
  obtain ⟨n, hn⟩ : ∃ n, ts.length = n := ⟨_, rfl⟩
  induction n using Nat.strongRecOn generalizing ts with
  | ind n ih =>
    rcases group_cases ts with ⟨s, r, rfl, -⟩ | ⟨h, -⟩ | ⟨h, -⟩
    · have : r.length < n := by rw [← hn]; simp [Sheet.toks]; omega
      obtain ⟨ss, rest, rfl, h⟩ := ih _ this r rfl
      exact ⟨s :: ss, rest, by simp, h⟩
    · exact ⟨[], ts, rfl, Or.inl h⟩
    · exact ⟨[], ts, rfl, Or.inr h⟩

/-- C63 fails for files that end within a block (with python before 3.7): the block is left out and the file is
taken to be complete. -/
theorem C63_truncated_refuted (ss : List Sheet) (s : Sheet) (k : Nat) (hk : k < s.toks.length) :
    groupBlocks false (ss.flatMap Sheet.toks ++ s.toks.take k) = (ss.map Sheet.raw, none) :=
  C63_blocks false ss _ ⟨s, List.take_prefix k _, fun h => by
    have := congrArg List.length h
    simp at this
    omega⟩

/-- C63 fails for python 3.7 and later: no file whatsoever can be read. -/
theorem C63_generator_refuted (ts : List Tok) : (groupBlocks true ts).2 ≠ none := by
  obtain ⟨ss, rest, rfl, h | h⟩ := C63_cases ts
  · rw [C63_blocks true ss rest h]; simp [atEnd]
  · rw [C63_misplaced true ss rest h]; simp

/-! ### Examples -/

/-- A complete file: nothing is left. -/
theorem cut_nil : Cut [] := ⟨⟨[], [], [], [], [], [], []⟩, List.nil_prefix, by simp [Sheet.toks]⟩

/-- Comments at the end of a file. -/
theorem cut_comments (cs : List (List Char)) : Cut (toks .comment cs) :=
  ⟨⟨cs, [], [], [], [], [], []⟩, ⟨[⟨.start, []⟩, ⟨.stop, []⟩], by simp [Sheet.toks, toks]⟩, by simp [Sheet.toks, toks]⟩

/-- A comment between `BEGIN` and `END`. -/
theorem wrong_comment (nm c : List Char) (rest : List Tok) : Wrong (⟨.start, nm⟩ :: ⟨.comment, c⟩ :: rest) :=
  ⟨[⟨.start, nm⟩], ⟨.comment, c⟩, rest, rfl, ⟨⟨[], [], nm, [], [], [], []⟩, ⟨[⟨.stop, []⟩], rfl⟩, by simp [Sheet.toks, toks]⟩,
    not_prefix (by simp [path, allowed])⟩

example (nm : List Char) : groupBlocks false [⟨.var, ['a', '=', '1']⟩, ⟨.start, nm⟩, ⟨.header, ['x']⟩, ⟨.data, ['1']⟩,
    ⟨.stop, []⟩, ⟨.start, nm⟩] = ([⟨[], [[['a'], ['1']]], [nm], [], [[['x']]], [['1']]⟩], none) :=
  C63_truncated_refuted [⟨[], [['a', '=', '1']], nm, [], [['x']], [['1']], []⟩] ⟨[], [], nm, [], [], [], []⟩ 1
    (by simp [Sheet.toks, toks])

example : Says [' ', '!', ' ', 'h', 'i', '\n'] ⟨.comment, ['h', 'i']⟩ := (C63_line _ _).1 (by decide)
example : Says ['B', 'E', 'G', 'I', 'N', ' ', 'S', '\n'] ⟨.start, ['S']⟩ := (C63_line _ _).1 (by decide)

end HF.Mdif
