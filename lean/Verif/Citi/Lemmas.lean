import Verif.Citi.Model
import Verif.Readers.StreamProps
import Verif.HFArray.NdLemmas
import Verif.DataBlock.Lemmas
import Mathlib.Data.List.Nodup
/-
Lemmas about CITI files: what is read from the lines that have been written.
-/

namespace HF.Citi

open Units (isWs strip)
open Text DataBlock
open HF.DataDict.Spec

/-! ### Specification -/

/-- A number survives writing and reading: it is written in one line, which begins like a number and has
no comma. -/
structure Survives (env : Env) (x : ℚ) : Prop where
  first : ∃ c r, env.fmt x = c :: r ∧ (isDig c = true ∨ c = '-' ∨ c = '.')
  last : ∀ c ∈ (env.fmt x).getLast?, isWs c = false
  noComma : ',' ∉ env.fmt x
  same : env.parse (env.fmt x) = some x

/-- So do all natural numbers. -/
def NatSurvives (env : Env) : Prop := ∀ n, IsWord (env.fmtNat n) ∧ env.parseNat (env.fmtNat n) = some n

/-! ### Tokens of the lines written -/

theorem strip_sp (s : List Char) : strip (' ' :: s) = strip s := by
  unfold strip
  rw [List.dropWhile_cons, show isWs ' ' = true by decide, if_pos rfl]

theorem tok_citi : tokenLine ['C', 'I', 'T', 'I', 'F', 'I', 'L', 'E', ' ', 'A', '.', '0', '1', '.', '0', '1'] =
    .ok (some ⟨.citifile, [['A', '.', '0', '1', '.', '0', '1']]⟩) := by decide +kernel

theorem tok_comment (c : List Char) : tokenLine ('!' :: c) = .ok (some ⟨.comment, [strip c]⟩) := rfl

theorem tok_name (n : List Char) : tokenLine (['N', 'A', 'M', 'E', ' '] ++ n) = .ok (some ⟨.name, [strip n]⟩) := by
  have : tokenLine (['N', 'A', 'M', 'E', ' '] ++ n) = .ok (some ⟨.name, [strip (' ' :: n)]⟩) := rfl
  rw [this, strip_sp]

theorem tok_var (a n : List Char) (ha : IsWord a) (hn : IsWord n) :
    tokenLine (['V', 'A', 'R', ' '] ++ a ++ [' ', 'M', 'A', 'G', ' '] ++ n) =
      .ok (some ⟨.vardef, [a, ['M', 'A', 'G'], n]⟩) := by
  have h1 : ['V', 'A', 'R', ' '] ++ a ++ [' ', 'M', 'A', 'G', ' '] ++ n =
      'V' :: 'A' :: 'R' :: ' ' :: join ' ' [a, ['M', 'A', 'G'], n] := by simp [join]
  have h2 : ∀ r, tokenLine ('V' :: 'A' :: 'R' :: ' ' :: r) = .ok (some ⟨.vardef, words (strip (' ' :: r))⟩) :=
    fun r => rfl
  have hw : ∀ f ∈ [a, ['M', 'A', 'G'], n], IsWord f := by
    intro f hf
    simp at hf
    rcases hf with rfl | rfl | rfl
    · exact ha
    · exact ⟨by simp, by decide⟩
    · exact hn
  rw [h1, h2, strip_sp, strip_join _ _ hw, words_join _ (by decide) _ hw]

theorem tok_data (a t : List Char) (ha : IsWord a) (ht : IsWord t) :
    tokenLine (['D', 'A', 'T', 'A', ' '] ++ a ++ ' ' :: t) = .ok (some ⟨.datadef, [a, t]⟩) := by
  have h1 : ['D', 'A', 'T', 'A', ' '] ++ a ++ ' ' :: t = 'D' :: 'A' :: 'T' :: 'A' :: ' ' :: join ' ' [a, t] := by
    simp [join]
  have h2 : ∀ r, tokenLine ('D' :: 'A' :: 'T' :: 'A' :: ' ' :: r) = .ok (some ⟨.datadef, words (strip (' ' :: r))⟩) :=
    fun r => rfl
  have hw : ∀ f ∈ [a, t], IsWord f := by
    intro f hf
    simp at hf
    rcases hf with rfl | rfl
    · exact ha
    · exact ht
  rw [h1, h2, strip_sp, strip_join _ _ hw, words_join _ (by decide) _ hw]

theorem begins_ne {a c : Char} {p r : List Char} (h : a ≠ c) : begins (a :: p) (c :: r) = false := by
  simp [begins, List.isPrefixOf, h]

theorem tok_num (c : Char) (r : List Char) (h : isDig c = true ∨ c = '-' ∨ c = '.') :
    tokenLine (c :: r) = .ok (some ⟨.data, [c :: r]⟩) := by
  have hc : ∀ d : Char, isDig d = false → d ≠ '-' → d ≠ '.' → d ≠ c := by
    rintro d h1 h2 h3 rfl
    rcases h with h | h | h
    · rw [h1] at h; cases h
    · exact h2 h
    · exact h3 h
  have hws : isWs c = false := by
    unfold isWs
    simp only [Bool.or_eq_false_iff, decide_eq_false_iff_not]
    refine ⟨⟨⟨⟨⟨?_, ?_⟩, ?_⟩, ?_⟩, ?_⟩, ?_⟩ <;> exact fun e => (hc _ (by decide) (by decide) (by decide)) e.symm
  have hd : isDataChar c = true := by
    unfold isDataChar
    rcases h with h | rfl | rfl
    · simp [h]
    · rfl
    · rfl
  unfold tokenLine
  rw [List.dropWhile_cons, hws]
  simp only [Bool.false_eq_true, if_false]
  rw [if_neg (by simp)]
  rw [begins_ne (hc 'N' (by decide) (by decide) (by decide)), begins_ne (hc 'V' (by decide) (by decide) (by decide)),
    begins_ne (hc 'D' (by decide) (by decide) (by decide)), begins_ne (hc 'V' (by decide) (by decide) (by decide)),
    begins_ne (hc 'V' (by decide) (by decide) (by decide)), begins_ne (hc 'S' (by decide) (by decide) (by decide)),
    begins_ne (hc 'S' (by decide) (by decide) (by decide)), begins_ne (hc 'S' (by decide) (by decide) (by decide)),
    begins_ne (hc 'B' (by decide) (by decide) (by decide)), begins_ne (hc 'E' (by decide) (by decide) (by decide))]
  simp [hd]

theorem tok_survives {env : Env} {x : ℚ} (h : Survives env x) (t : List Char) :
    tokenLine (env.fmt x ++ t) = .ok (some ⟨.data, [env.fmt x ++ t]⟩) := by
  obtain ⟨c, r, h1, h2⟩ := h.first
  rw [h1]
  exact tok_num c (r ++ t) h2

theorem tokenize_append {a b : List (List Char)} {x y : Strm} (ha : tokenize a = .ok x) (hb : tokenize b = .ok y) :
    tokenize (a ++ b) = .ok (x ++ y) := by
  induction a generalizing x with
  | nil =>
    simp only [tokenize] at ha
    injection ha with ha
    subst ha
    simpa using hb
  | cons l a ih =>
    rw [List.cons_append]
    simp only [tokenize] at ha ⊢
    split at ha
    · cases ha
    · rename_i t ht
      split at ha
      · cases ha
      · rename_i ts hts
        injection ha with ha
        subst ha
        rw [ih hts]
        simp

theorem tokenize_cons {l : List Char} {t : Tok} {ls : List (List Char)} {x : Strm}
    (h1 : tokenLine l = .ok (some t)) (h2 : tokenize ls = .ok x) : tokenize (l :: ls) = .ok (t :: x) := by
  simp only [tokenize, h1, h2]
  rfl

theorem tokenize_map {δ : Type} (f : δ → List Char) (g : δ → Tok) : ∀ l : List δ,
    (∀ x ∈ l, tokenLine (f x) = .ok (some (g x))) → tokenize (l.map f) = .ok (l.map g)
  | [], _ => rfl
  | x :: l, h => by
    rw [List.map_cons, List.map_cons]
    exact tokenize_cons (h x (by simp)) (tokenize_map f g l fun x hx => h x (by simp [hx]))

theorem tokenize_flatMap {δ : Type} (f : δ → List (List Char)) (g : δ → Strm) : ∀ l : List δ,
    (∀ x ∈ l, tokenize (f x) = .ok (g x)) → tokenize (l.flatMap f) = .ok (l.flatMap g)
  | [], _ => rfl
  | x :: l, h => by
    rw [List.flatMap_cons, List.flatMap_cons]
    exact tokenize_append (h x (by simp)) (tokenize_flatMap f g l fun x hx => h x (by simp [hx]))

/-! ### Combinators -/

theorem many_some (t : Tag) (ts rest : Strm) (h1 : ∀ u ∈ ts, u.tag = t) (h2 : ∃ u r, rest = u :: r ∧ u.tag ≠ t) :
    many t (ts ++ rest) = .ok (ts.map fun u => u.rad, rest) := by
  obtain ⟨u, r, rfl, hu⟩ := h2
  have ht : ∀ ts : Strm, (∀ u ∈ ts, u.tag = t) →
      (ts ++ u :: r).takeWhile (fun v => decide (v.tag = t)) = ts ∧
      (ts ++ u :: r).dropWhile (fun v => decide (v.tag = t)) = u :: r := by
    intro ts hts
    induction ts with
    | nil => simp [hu]
    | cons v ts ih =>
      have hv := hts v (by simp)
      obtain ⟨e1, e2⟩ := ih fun u hu => hts u (by simp [hu])
      rw [List.cons_append, List.takeWhile_cons, List.dropWhile_cons]
      simp [hv, e1, e2]
  unfold many run
  have hm : Readers.manyOptional t (id : List (List Char) → List (List Char)) (ts ++ u :: r) =
      (.ok (((ts ++ u :: r).takeWhile fun v => decide (v.tag = t)).map fun v => id v.rad),
        (ts ++ u :: r).dropWhile fun v => decide (v.tag = t)) := by
    cases h : ts ++ u :: r with
    | nil => simp at h
    | cons v s => simp only [Readers.manyOptional, Readers.next, Readers.manyLoop_eq, List.nil_append]
  rw [hm, (ht ts h1).1, (ht ts h1).2]
  rfl

theorem mapTag {δ : Type} (t : Tag) (f : δ → Tok) (l : List δ) (h : ∀ x, (f x).tag = t) : ∀ u ∈ l.map f, u.tag = t := by
  intro u hu
  obtain ⟨x, _, rfl⟩ := List.mem_map.mp hu
  exact h x

theorem many_none (t : Tag) (u : Tok) (r : Strm) (h : u.tag ≠ t) : many t (u :: r) = .ok ([], u :: r) :=
  many_some t [] (u :: r) (by simp) ⟨u, r, rfl, h⟩

theorem one_ok (t : Tag) (u : Tok) (r : Strm) (h : u.tag = t) : one t (u :: r) = .ok ([u.rad], r) := by
  unfold one run Readers.one Readers.oneOf Readers.next
  simp [h]

theorem oneOf_ok (ts : List Tag) (u : Tok) (r : Strm) (h : u.tag ∈ ts) : oneOf ts (u :: r) = .ok ([u.rad], r) := by
  unfold oneOf run Readers.oneOf Readers.next
  simp [h]

theorem opt_ok (t : Tag) (u : Tok) (r : Strm) (h : u.tag = t) : opt t (u :: r) = .ok (some u.rad, r) := by
  unfold opt run Readers.optional Readers.next
  simp [h]

/-! ### Numbers -/

theorem datum_fmt {env : Env} {c : Bool} {z : Cplx} (h1 : Survives env z.1) (h2 : c = true → Survives env z.2)
    (hz : c = false → z.2 = 0) : datum env (typeOf c) (fmtDatum env c z) = .ok z := by
  cases c with
  | false =>
    unfold datum typeOf fmtDatum
    simp only [Bool.false_eq_true, if_false, if_true]
    rw [h1.same]
    simp only
    rw [← hz rfl]
  | true =>
    replace h2 := h2 rfl
    unfold datum typeOf fmtDatum
    simp only [if_true]
    rw [if_neg (by decide)]
    unfold pairOf
    have hs : strip (env.fmt z.1 ++ ',' :: env.fmt z.2) = env.fmt z.1 ++ ',' :: env.fmt z.2 := by
      apply strip_id
      · obtain ⟨c, r, e, hc⟩ := h1.first
        rw [e]
        intro d hd
        simp at hd
        subst hd
        cases hw : isWs c with
        | false => rfl
        | true =>
          exfalso
          have : c ∈ [' ', '\t', '\n', '\r', '\x0b', '\x0c'] := by
            unfold isWs at hw
            simpa [or_assoc] using hw
          have key : ∀ d ∈ [' ', '\t', '\n', '\r', '\x0b', '\x0c'], isDig d = false ∧ d ≠ '-' ∧ d ≠ '.' := by decide
          obtain ⟨k1, k2, k3⟩ := key c this
          rcases hc with hc | hc | hc
          · rw [k1] at hc; cases hc
          · exact k2 hc
          · exact k3 hc
      · obtain ⟨c, r, e, hc⟩ := h2.first
        intro d hd
        have : (env.fmt z.1 ++ ',' :: env.fmt z.2).getLast? = (env.fmt z.2).getLast? := by
          rw [e]
          simp [List.getLast?_append, List.getLast?_cons]
        rw [this] at hd
        exact h2.last d hd
    rw [hs]
    have ht : ∀ a : List Char, ',' ∉ a → (a ++ ',' :: env.fmt z.2).takeWhile (fun x => decide (x ≠ ',')) = a ∧
        (a ++ ',' :: env.fmt z.2).dropWhile (fun x => decide (x ≠ ',')) = ',' :: env.fmt z.2 := by
      intro a ha
      induction a with
      | nil => simp
      | cons x a ih =>
        have hx : x ≠ ',' := fun e => ha (by simp [e])
        obtain ⟨e1, e2⟩ := ih fun e => ha (by simp [e])
        rw [List.cons_append, List.takeWhile_cons, List.dropWhile_cons]
        simp only [decide_eq_true hx, if_true, e1, e2, and_self]
    obtain ⟨e1, e2⟩ := ht _ h1.noComma
    simp only
    rw [e1, e2]
    simp only
    rw [if_neg h2.noComma, h1.same, h2.same]

theorem handle_fmt {env : Env} (c : Bool) : ∀ (l : List Cplx),
    (∀ z ∈ l, Survives env z.1 ∧ (c = true → Survives env z.2) ∧ (c = false → z.2 = 0)) →
    handleData env (typeOf c) (l.map fun z => [fmtDatum env c z]) = .ok l := by
  intro l hl
  unfold handleData
  rw [if_pos (by cases c <;> simp [typeOf])]
  induction l with
  | nil => rfl
  | cons z l ih =>
    obtain ⟨h1, h2, h3⟩ := hl z (by simp)
    rw [List.map_cons, List.mapM_cons, ih fun z hz => hl z (by simp [hz])]
    simp only [List.headD_cons]
    rw [datum_fmt h1 h2 h3]
    rfl

/-! ### Variables and data -/

/-- What is written for a sweep. -/
def varToks (env : Env) (d : Dim Cplx) : Strm :=
  ⟨.varBegin, [['V', 'A', 'R', '_', 'L', 'I', 'S', 'T', '_', 'B', 'E', 'G', 'I', 'N']]⟩ ::
    (d.data.map fun z => ⟨.data, [env.fmt z.1]⟩) ++
    [⟨.varEnd, [['V', 'A', 'R', '_', 'L', 'I', 'S', 'T', '_', 'E', 'N', 'D']]⟩]

/-- What is written for a column. -/
def colToks (env : Env) (c : Col) : Strm :=
  ⟨.dataBegin, [['B', 'E', 'G', 'I', 'N']]⟩ :: ((flat c.arr).map fun z => ⟨.data, [fmtDatum env c.cplx z]⟩) ++
    [⟨.dataEnd, [['E', 'N', 'D']]⟩]

/-- A sweep as it is read. -/
def plain (d : Dim Cplx) : Dim Cplx := ⟨.dimSweep, d.name, d.data, none, none⟩

theorem readVar_ok {env : Env} (d : Dim Cplx) (rest : Strm)
    (h : ∀ z ∈ d.data, Survives env z.1 ∧ z.2 = 0) :
    readVar env ['M', 'A', 'G'] (varToks env d ++ rest) = .ok (d.data, rest) := by
  unfold readVar varToks
  rw [List.cons_append, List.cons_append, oneOf_ok _ _ _ (by simp)]
  simp only [List.headD_cons]
  simp only [show begins ['V', 'A', 'R', '_', 'L', 'I', 'S', 'T']
    ['V', 'A', 'R', '_', 'L', 'I', 'S', 'T', '_', 'B', 'E', 'G', 'I', 'N'] = true by decide, if_true]
  rw [List.append_assoc, List.singleton_append, many_some .data _ _ (mapTag _ _ _ fun _ => rfl) ⟨_, _, rfl, by simp⟩]
  simp only [List.map_map]
  have := handle_fmt (env := env) false d.data (fun z hz => by
    obtain ⟨h1, h2⟩ := h z hz
    exact ⟨h1, by simp, fun _ => h2⟩)
  have e : d.data.map ((fun u : Tok => u.rad) ∘ fun z : Cplx => (⟨.data, [env.fmt z.1]⟩ : Tok)) =
      d.data.map fun z => [fmtDatum env false z] := by
    apply List.map_congr_left
    intro z _
    simp [fmtDatum]
  rw [e]
  simp only [typeOf] at this
  simp only [Bool.false_eq_true, if_false] at this
  rw [this]
  simp only
  rw [one_ok _ _ _ (by rfl)]

theorem assign_new {V : Type} (m : OMap String V) (k : String) (v : V) (h : k ∉ m.map Prod.fst) :
    assign m k v = m ++ [(k, v)] := by
  unfold assign
  rw [if_neg]
  unfold member
  simp only [List.any_eq_true, decide_eq_true_eq, not_exists, not_and]
  rintro p hp rfl
  exact h (List.mem_map_of_mem hp)

theorem readVars_ok {env : Env} (hn : NatSurvives env) : ∀ (D : List (Dim Cplx)) (b : Block Cplx Cplx) (rest : Strm),
    (∀ d ∈ D, ∀ z ∈ d.data, Survives env z.1 ∧ z.2 = 0) →
    (b.ivars.map Prod.fst ++ D.map Dim.name).Nodup →
    ∃ b', readVars env (D.map fun d => [d.name.toList, ['M', 'A', 'G'], env.fmtNat d.data.length]) b
        (D.flatMap (varToks env) ++ rest) = .ok (b', rest) ∧ b'.vars = b.vars ∧
      b'.ivars = b.ivars ++ D.map fun d => (d.name, plain d)
  | [], b, rest, _, _ => ⟨b, rfl, rfl, by simp⟩
  | d :: D, b, rest, h, hnd => by
    have hd : d.name ∉ b.ivars.map Prod.fst := by
      intro hm
      exact (List.nodup_append.mp hnd).2.2 _ hm d.name (by simp) rfl
    have ha : assign b.ivars d.name (plain d) = b.ivars ++ [(d.name, plain d)] := assign_new _ _ _ hd
    obtain ⟨b', h1, h2, h3⟩ := readVars_ok hn D (setDim b d.name (plain d)) rest
      (fun d hd => h d (by simp [hd])) (by
        unfold setDim
        simp only
        rw [ha]
        simpa using hnd)
    refine ⟨b', ?_, ?_, ?_⟩
    · rw [List.map_cons, List.flatMap_cons, List.append_assoc]
      simp only [readVars, (hn _).2]
      rw [readVar_ok d _ (h d (by simp))]
      simp only [String.ofList_toList]
      exact h1
    · rw [h2]; rfl
    · rw [h3]
      unfold setDim
      simp only
      rw [ha]
      simp

theorem lookup_map_of {V W : Type} (f : V → String) (g : V → W) : ∀ (l : List V), (l.map f).Nodup → ∀ x ∈ l,
    lookup (l.map fun x => (f x, g x)) (f x) = some (g x)
  | [], _, x, hx => by simp at hx
  | y :: l, hnd, x, hx => by
    rw [List.map_cons, List.nodup_cons] at hnd
    unfold lookup
    rw [List.map_cons, List.find?_cons]
    rcases List.mem_cons.mp hx with rfl | hx
    · simp
    · have : f y ≠ f x := fun e => hnd.1 (e ▸ List.mem_map_of_mem hx)
      simp only [decide_eq_false this]
      exact lookup_map_of f g l hnd.2 x hx

theorem mapM_ok {δ ε ζ : Type} (f : δ → Except ε ζ) (g : δ → ζ) : ∀ l : List δ, (∀ x ∈ l, f x = .ok (g x)) →
    l.mapM f = .ok (l.map g)
  | [], _ => rfl
  | x :: l, h => by
    rw [List.mapM_cons, h x (by simp), mapM_ok f g l fun x hx => h x (by simp [hx])]
    rfl

theorem dimsOf_ok (env : Env) (D : List (Dim Cplx)) (b : Block Cplx Cplx) (hnd : (D.map Dim.name).Nodup)
    (hb : b.ivars = D.map fun d => (d.name, plain d)) :
    dimsOf b (D.map fun d => [d.name.toList, ['M', 'A', 'G'], env.fmtNat d.data.length]) = .ok (D.map plain) := by
  unfold dimsOf
  rw [List.mapM_map]
  apply mapM_ok
  intro d hd
  simp only [List.headD_cons, String.ofList_toList, Function.comp]
  rw [hb, lookup_map_of Dim.name plain D hnd d hd]

/-- The array read for a column. -/
def arrRead (D : List (Dim Cplx)) (c : Col) : Arr Cplx Cplx :=
  ⟨D.map plain, ⟨D.map fun d => d.data.length, fun idx => (flat c.arr).getD
    ((Nd.unravel [(flat c.arr).length] (Nd.ravel (D.map fun d => d.data.length) idx)).headD 0) (0, 0)⟩⟩

theorem flat_length (a : Arr Cplx Cplx) : (flat a).length = Nd.size a.nd.shape := by simp [flat]

theorem toArr_ok (D : List (Dim Cplx)) (c : Col) (h : c.arr.nd.shape = D.map fun d => d.data.length) :
    toArr (D.map plain) (flat c.arr) = .ok (arrRead D c) := by
  unfold toArr
  have e : (D.map plain).map (fun d => d.data.length) = D.map fun d => d.data.length := by
    rw [List.map_map]; rfl
  rw [e]
  unfold Nd.reshape
  rw [if_pos (by rw [← h, ← flat_length]; simp [Nd.size])]
  simp only
  unfold Arr.mk?
  rw [if_pos (by simp [Nd.ndim])]
  rfl

theorem arrRead_get (D : List (Dim Cplx)) (c : Col) (h : c.arr.nd.shape = D.map fun d => d.data.length)
    (idx : List Nat) (hv : Nd.Valid (D.map fun d => d.data.length) idx) :
    (arrRead D c).nd.get idx = c.arr.nd.get idx := by
  have hl := Nd.ravel_lt hv
  have hs : (flat c.arr).length = Nd.size (D.map fun d => d.data.length) := by rw [flat_length, h]
  unfold arrRead
  simp only
  rw [hs]
  have hu : Nd.unravel [Nd.size (D.map fun d => d.data.length)] (Nd.ravel (D.map fun d => d.data.length) idx) =
      [Nd.ravel (D.map fun d => d.data.length) idx] := by
    simp only [Nd.unravel, Nd.size]
    simp
  rw [hu]
  unfold flat
  rw [List.headD_cons, List.getD_eq_getElem?_getD, List.getElem?_map, h, List.getElem?_range hl]
  simp [Nd.unravel_ravel hv]

theorem addDims_known (iv : OMap String (Dim Cplx)) : ∀ (dims : List (Dim Cplx)),
    (∀ d ∈ dims, d.name ∈ iv.map Prod.fst) → addDims iv dims = iv
  | [], _ => rfl
  | d :: dims, h => by
    have hm : member iv d.name = true := by
      obtain ⟨p, hp, e⟩ := List.mem_map.mp (h d (by simp))
      unfold member
      simp only [List.any_eq_true, decide_eq_true_eq]
      exact ⟨p, hp, e⟩
    have := addDims_known iv dims fun d hd => h d (by simp [hd])
    unfold addDims at this ⊢
    rw [List.foldl_cons, if_pos hm]
    exact this

/-- An assignment of a new variable. -/
theorem setArr_new (b : Block Cplx Cplx) (key : String) (v : Arr Cplx Cplx)
    (h1 : key ∉ b.vars.map Prod.fst) (h2 : key ∉ b.ivars.map Prod.fst)
    (h3 : ∀ m i j, isMatrixName key = some (m, i, j) → ismatrix v = true ∨ m ∉ b.vars.map Prod.fst) :
    ∃ b', setArr benv b key v = (b', .ok ()) ∧ b'.vars = b.vars ++ [(key, v)] ∧ b'.ivars = addDims b.ivars v.dims := by
  have he : elemTarget (member b.vars) key v = none := by
    unfold elemTarget
    split
    · rename_i m i j hm
      rcases h3 m i j hm with h | h
      · simp [h]
      · have : member b.vars m = false := by
          unfold member
          rw [List.any_eq_false]
          intro p hp
          simp only [decide_eq_true_eq]
          rintro rfl
          exact h (List.mem_map_of_mem hp)
        simp [this]
    · rfl
  have hl : lookup b.ivars key = none := by
    rw [lookup_none_iff']
    exact h2
  refine ⟨{ b with vars := assign b.vars key v, ivars := addDims b.ivars v.dims, xname := nextXname b.xname v.dims },
    ?_, ?_, ?_⟩
  · unfold setArr
    simp only [he, hl]
  · exact assign_new _ _ _ h1
  · rfl

/-- What has to be known of a column. -/
structure GoodCol (env : Env) (D : List (Dim Cplx)) (c : Col) : Prop where
  shape : c.arr.nd.shape = D.map fun d => d.data.length
  values : ∀ z ∈ flat c.arr, Survives env z.1 ∧ (c.cplx = true → Survives env z.2) ∧ (c.cplx = false → z.2 = 0)

theorem readData_ok {env : Env} (D : List (Dim Cplx)) : ∀ (cols : List Col) (b : Block Cplx Cplx),
    (∀ c ∈ cols, GoodCol env D c) →
    b.ivars.map Prod.fst = D.map Dim.name →
    (b.vars.map Prod.fst ++ cols.map fun c => String.ofList c.name).Nodup →
    (∀ c ∈ cols, String.ofList c.name ∉ D.map Dim.name) →
    (∀ c ∈ cols, ∀ m i j, isMatrixName (String.ofList c.name) = some (m, i, j) →
      m ∉ b.vars.map Prod.fst ++ cols.map fun c => String.ofList c.name) →
    ∃ b', readData env (D.map plain) (cols.map fun c => [c.name, typeOf c.cplx]) b (cols.flatMap (colToks env)) =
        .ok (b', []) ∧ b'.ivars = b.ivars ∧
      b'.vars = b.vars ++ cols.map fun c => (String.ofList c.name, arrRead D c)
  | [], b, _, _, _, _, _ => ⟨b, rfl, rfl, by simp⟩
  | c :: cols, b, hg, hiv, hnd, hD, hm => by
    have hc := hg c (by simp)
    have hn : String.ofList c.name ∉ b.vars.map Prod.fst := by
      intro h
      exact (List.nodup_append.mp hnd).2.2 _ h (String.ofList c.name) (by simp) rfl
    obtain ⟨b1, e1, e2, e3⟩ := setArr_new b (String.ofList c.name) (arrRead D c) hn
      (by rw [hiv]; exact hD c (by simp))
      (fun m i j h => Or.inr fun h' => hm c (by simp) m i j h (by simp at h' ⊢; exact Or.inl h'))
    have e3' : b1.ivars = b.ivars := by
      rw [e3]
      apply addDims_known
      intro d hd
      rw [hiv]
      obtain ⟨d', hd', rfl⟩ := List.mem_map.mp hd
      exact List.mem_map.mpr ⟨d', hd', rfl⟩
    have e2' : b1.vars.map Prod.fst ++ cols.map (fun c => String.ofList c.name) =
        b.vars.map Prod.fst ++ (c :: cols).map fun c => String.ofList c.name := by
      rw [e2]; simp
    obtain ⟨b', f1, f2, f3⟩ := readData_ok D cols b1 (fun c hc => hg c (by simp [hc])) (by rw [e3', hiv])
      (by rw [e2']; exact hnd) (fun c hc => hD c (by simp [hc]))
      (fun c hc m i j h => by rw [e2']; exact hm c (by simp [hc]) m i j h)
    refine ⟨b', ?_, by rw [f2, e3'], by rw [f3, e2]; simp⟩
    rw [List.map_cons, List.flatMap_cons]
    simp only [readData]
    unfold colToks
    rw [List.cons_append, List.cons_append, one_ok _ _ _ (by rfl)]
    simp only
    rw [List.append_assoc, List.singleton_append, many_some .data _ _ (mapTag _ _ _ fun _ => rfl) ⟨_, _, rfl, by simp⟩]
    simp only [List.map_map]
    have e : (flat c.arr).map ((fun u : Tok => u.rad) ∘ fun z : Cplx => (⟨.data, [fmtDatum env c.cplx z]⟩ : Tok)) =
        (flat c.arr).map fun z => [fmtDatum env c.cplx z] := rfl
    rw [e, handle_fmt c.cplx _ hc.values]
    simp only
    rw [toArr_ok D c hc.shape]
    simp only
    rw [e1]
    simp only
    rw [one_ok _ _ _ (by rfl)]
    exact f1

/-! ### The whole file -/

/-- The tokens of a file. -/
def toks (env : Env) (name : List Char) (comments : List (List Char)) (D : List (Dim Cplx)) (cols : List Col) : Strm :=
  ⟨.citifile, [['A', '.', '0', '1', '.', '0', '1']]⟩ ::
  ((comments.map fun c => ⟨.comment, [strip (c.dropWhile (· = '!'))]⟩) ++
  (⟨.name, [strip name]⟩ ::
  ((D.map fun d => ⟨.vardef, [d.name.toList, ['M', 'A', 'G'], env.fmtNat d.data.length]⟩) ++
  ((cols.map fun c => ⟨.datadef, [c.name, typeOf c.cplx]⟩) ++
  (D.flatMap (varToks env) ++ cols.flatMap (colToks env))))))

theorem tokenize_format {env : Env} (hn : NatSurvives env) (name : List Char) (comments : List (List Char))
    (D : List (Dim Cplx)) (cols : List Col)
    (hD : ∀ d ∈ D, IsWord d.name.toList ∧ ∀ z ∈ d.data, Survives env z.1)
    (hc : ∀ c ∈ cols, IsWord c.name ∧ ∀ z ∈ flat c.arr, Survives env z.1) :
    tokenize (format env name comments (D.map fun d => (d.name, d)) cols) = .ok (toks env name comments D cols) := by
  have hnum : ∀ c ∈ cols, ∀ z ∈ flat c.arr, tokenLine (fmtDatum env c.cplx z) =
      .ok (some ⟨.data, [fmtDatum env c.cplx z]⟩) := by
    intro c hcc z hz
    have := (hc c hcc).2 z hz
    unfold fmtDatum
    split
    · exact tok_survives this _
    · simpa using tok_survives this []
  unfold format toks
  simp only [List.append_assoc, List.cons_append]
  refine tokenize_cons tok_citi (tokenize_append (tokenize_map _ _ _ fun c _ => tok_comment _)
    (tokenize_cons ?_ (tokenize_append ?_ (tokenize_append ?_ (tokenize_append ?_ ?_)))))
  · exact tok_name name
  · rw [List.map_map]
    apply tokenize_map
    intro d hd
    have := tok_var d.name.toList (env.fmtNat d.data.length) (hD d hd).1 (hn _).1
    simpa using this
  · apply tokenize_map
    intro c hcc
    have := tok_data c.name (typeOf c.cplx) (hc c hcc).1 (by cases c.cplx <;> exact ⟨by simp [typeOf], by decide⟩)
    simpa using this
  · rw [List.flatMap_map]
    apply tokenize_flatMap
    intro d hd
    refine tokenize_cons (by decide +kernel) (tokenize_append (tokenize_map _ _ _ fun z hz => ?_) ?_)
    · simpa using tok_survives ((hD d hd).2 z hz) []
    · exact tokenize_cons (by decide +kernel) rfl
  · apply tokenize_flatMap
    intro c hcc
    refine tokenize_cons (by decide +kernel) (tokenize_append (tokenize_map _ _ _ fun z hz => hnum c hcc z hz) ?_)
    exact tokenize_cons (by decide +kernel) rfl

theorem parse_toks {env : Env} (hn : NatSurvives env) (name : List Char) (comments : List (List Char))
    (D : List (Dim Cplx)) (cols : List Col) (hne : cols ≠ [])
    (hnd : (D.map Dim.name).Nodup) (hcn : (cols.map fun c => String.ofList c.name).Nodup)
    (hdis : ∀ c ∈ cols, String.ofList c.name ∉ D.map Dim.name)
    (hm : ∀ c ∈ cols, ∀ m i j, isMatrixName (String.ofList c.name) = some (m, i, j) →
      m ∉ cols.map fun c => String.ofList c.name)
    (hD : ∀ d ∈ D, ∀ z ∈ d.data, Survives env z.1 ∧ z.2 = 0) (hc : ∀ c ∈ cols, GoodCol env D c)
    (hcom : ∀ c ∈ comments, begins "CONSTANT TIME".toList (strip (c.dropWhile (· = '!'))) = false) :
    ∃ b, parse env (toks env name comments D cols) =
        .ok (strip name, comments.map (fun c => strip (c.dropWhile (· = '!'))), b) ∧
      b.ivars = (D.map fun d => (d.name, plain d)) ∧
      b.vars = cols.map fun c => (String.ofList c.name, arrRead D c) := by
  obtain ⟨c0, cs, rfl⟩ := List.exists_cons_of_ne_nil hne
  -- the rest of the file, from the data on
  have hdata : ∀ P : Prop, (∀ u r, (c0 :: cs).flatMap (colToks env) = u :: r → u.tag = .dataBegin → P) → P :=
    fun P h => h _ _ rfl rfl
  obtain ⟨rest, hrest⟩ : ∃ s, s = (c0 :: cs).flatMap (colToks env) := ⟨_, rfl⟩
  have hr : ∃ u r, rest = u :: r ∧ u.tag = .dataBegin := ⟨_, _, hrest, rfl⟩
  obtain ⟨vr, hvr⟩ : ∃ s, s = D.flatMap (varToks env) ++ rest := ⟨_, rfl⟩
  have hv : ∃ u r, vr = u :: r ∧ (u.tag = .dataBegin ∨ u.tag = .varBegin) := by
    cases D with
    | nil => obtain ⟨u, r, e, h⟩ := hr; exact ⟨u, r, by rw [hvr, e]; rfl, Or.inl h⟩
    | cons d D => exact ⟨_, _, hvr, Or.inr rfl⟩
  obtain ⟨dr, hdr⟩ : ∃ s, s = ((c0 :: cs).map fun c => (⟨.datadef, [c.name, typeOf c.cplx]⟩ : Tok)) ++ vr := ⟨_, rfl⟩
  have hd : ∃ u r, dr = u :: r ∧ u.tag = .datadef := ⟨_, _, hdr, rfl⟩
  obtain ⟨ar, har⟩ : ∃ s, s = (D.map fun d => (⟨.vardef, [d.name.toList, ['M', 'A', 'G'], env.fmtNat d.data.length]⟩ : Tok)) ++ dr :=
    ⟨_, rfl⟩
  have ha : ∃ u r, ar = u :: r ∧ (u.tag = .datadef ∨ u.tag = .vardef) := by
    cases D with
    | nil => obtain ⟨u, r, e, h⟩ := hd; exact ⟨u, r, by rw [har, e]; rfl, Or.inl h⟩
    | cons d D => exact ⟨_, _, har, Or.inr rfl⟩
  obtain ⟨b1, r1, r2, r3⟩ := readVars_ok (env := env) hn D {} rest hD (by simpa using hnd)
  obtain ⟨b2, s1, s2, s3⟩ := readData_ok (env := env) D (c0 :: cs) b1 hc
    (by rw [r3]; simp [Function.comp_def]) (by rw [r2]; simpa using hcn) hdis
    (by rw [r2]; simpa using hm)
  have hskip : ∀ s : Strm, (∃ u r, s = u :: r ∧ u.tag ≠ .comment) → many .comment s = .ok ([], s) := by
    rintro s ⟨u, r, rfl, h⟩
    exact many_none _ _ _ h
  have k1 : many .comment ar = .ok ([], ar) := hskip _ (by
    obtain ⟨u, r, e, h⟩ := ha; exact ⟨u, r, e, by rcases h with h | h <;> simp [h]⟩)
  have k2 : many .vardef ar = .ok (D.map fun d => [d.name.toList, ['M', 'A', 'G'], env.fmtNat d.data.length], dr) := by
    rw [har, many_some .vardef _ _ (mapTag _ _ _ fun _ => rfl) (by obtain ⟨u, r, e, h⟩ := hd; exact ⟨u, r, e, by simp [h]⟩)]
    simp [List.map_map, Function.comp_def]
  have k3 : many .comment dr = .ok ([], dr) := hskip _ (by
    obtain ⟨u, r, e, h⟩ := hd; exact ⟨u, r, e, by simp [h]⟩)
  have k4 : many .datadef dr = .ok ((c0 :: cs).map fun c => [c.name, typeOf c.cplx], vr) := by
    rw [hdr, many_some .datadef _ _ (mapTag _ _ _ fun _ => rfl) (by
      obtain ⟨u, r, e, h⟩ := hv; exact ⟨u, r, e, by rcases h with h | h <;> simp [h]⟩)]
    simp [List.map_map, Function.comp_def]
  have k5 : many .comment vr = .ok ([], vr) := hskip _ (by
    obtain ⟨u, r, e, h⟩ := hv; exact ⟨u, r, e, by rcases h with h | h <;> simp [h]⟩)
  have k6 : many .comment rest = .ok ([], rest) := hskip _ (by
    obtain ⟨u, r, e, h⟩ := hr; exact ⟨u, r, e, by simp [h]⟩)
  have k7 : dimsOf b1 (D.map fun d => [d.name.toList, ['M', 'A', 'G'], env.fmtNat d.data.length]) = .ok (D.map plain) :=
    dimsOf_ok env D b1 hnd (by rw [r3]; simp)
  refine ⟨b2, ?_, by rw [s2, r3]; simp, by rw [s3, r2]; simp⟩
  unfold parse toks
  rw [← hrest, ← hvr, ← hdr, ← har, many_none _ _ _ (by simp)]
  simp only [bind, Except.bind]
  rw [opt_ok _ _ _ (by rfl)]
  simp only
  rw [many_some .comment _ _ (mapTag _ _ _ fun _ => rfl) ⟨_, _, rfl, by simp⟩]
  simp only
  rw [one_ok _ _ _ (by rfl)]
  simp only [k1, k2, k3, k4, k5]
  rw [hvr, r1]
  simp only [k6, k7]
  have k8 : (texts ([] ++ (comments.map fun c => (⟨.comment, [strip (c.dropWhile (· = '!'))]⟩ : Tok)).map (·.rad) ++ [] ++ [] ++ [] ++ [])).mapM
      timeComment = .ok (comments.map (fun c => strip (c.dropWhile (· = '!')))) := by
    simp only [List.nil_append, List.append_nil, texts, List.map_map, Function.comp_def, List.headD_cons]
    rw [List.mapM_map]
    refine mapM_ok _ _ _ fun c hc => ?_
    simp only [Function.comp, timeComment, hcom c hc, Bool.false_eq_true, if_false]
  rw [k8]
  simp only
  rw [hrest, s1]
  rfl

end HF.Citi
