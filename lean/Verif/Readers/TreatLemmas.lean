import Verif.Readers.TreatSpec
import Verif.Readers.ComplexProps
import Verif.Readers.FixUnitProps
import Verif.Readers.AssembleProps
import Verif.Sp.WriteSpec
/-
Lemmas about the steps of reading, for blocks of columns over one sweep.
-/
namespace HF.Readers.Treat

open HF.DataDict.Spec HF.DataBlock
open HF.DataDict hiding rename delitem
open HF.Readers.FixUnit (UBlock setUnit)

variable {β α : Type}

/-! ### One sweep -/

/-- All variables have just the dimension `d`, the only one of the block. -/
structure Exact (b : Block β α) (d : Dim β) : Prop where
  ivars : b.ivars = [(d.name, d)]
  cls : d.cls = .dimSweep
  dims : ∀ w ∈ b.vars, w.2.dims = [d]

theorem mem_assign {V : Type} (m : OMap String V) (n : String) (v : V) (p : String × V) (h : p ∈ assign m n v) :
    p ∈ m ∨ p = (n, v) := by
  unfold assign at h
  split at h
  · unfold Spec.modify at h
    obtain ⟨q, hq, rfl⟩ := List.mem_map.1 h
    by_cases e : q.1 = n
    · rw [if_pos e]; exact Or.inr (by rw [← e])
    · rw [if_neg e]; exact Or.inl hq
  · simpa using h

theorem lookup_single (k n : String) (d : Dim β) : lookup [(k, d)] n = if k = n then some d else none := by
  unfold lookup
  by_cases e : k = n <;> simp [e]

theorem Exact.lookup {b : Block β α} {d : Dim β} (h : Exact b d) {n : String} {e : Dim β}
    (hl : lookup b.ivars n = some e) : n = d.name ∧ e = d := by
  rw [h.ivars, lookup_single] at hl
  split at hl
  · rename_i hn; cases hl; exact ⟨hn.symm, rfl⟩
  · cases hl

theorem Exact.replace {b : Block β α} {d : Dim β} (h : Exact b d) (e : Dim β) (he : e.cls = .dimSweep) :
    ∃ b', replaceDim b d e = some b' ∧ Exact b' e := by
  have hr : renameIvar b.ivars d e = some [(e.name, e)] := by
    unfold renameIvar
    rw [h.ivars, lookup_single, if_pos rfl]
    simp only [Option.some.injEq]
    by_cases hn : e.name = d.name
    · rw [← hn]
      simp [Spec.rename, Spec.remove, assign, Spec.modify, member, lookup]
    · have hn' : ¬ d.name = e.name := fun h => hn h.symm
      simp [Spec.rename, Spec.remove, assign, Spec.modify, member, hn']
  refine ⟨_, by simp only [replaceDim, hr]; rfl, rfl, he, ?_⟩
  rintro w hw
  obtain ⟨p, hp, rfl⟩ := List.mem_map.1 hw
  simp [replaceDimArr, h.dims p hp]

theorem not_matrix {a : Arr β α} {d : Dim β} (h : a.dims = [d]) (hc : d.cls = .dimSweep) : ismatrix a = false := by
  unfold ismatrix Dim.isa
  rw [h]
  have : Cls.isSub .dimSweep .matI = false := by decide +kernel
  simp [hc, this]

theorem Exact.get {env : Env β α} {b : Block β α} {d : Dim β} (h : Exact b d) {n : String} {x : Arr β α}
    (hg : getitem env b n = .ok x) : x.dims = [d] := by
  unfold getitem at hg
  split at hg
  · rename_i e he
    obtain ⟨-, rfl⟩ := h.lookup he
    cases hg
    rfl
  · split at hg
    · rename_i a ha
      cases hg
      exact h.dims _ (lookup_mem ha)
    · split at hg
      · cases hg
      · split at hg
        · cases hg
        · rename_i data hd
          rw [not_matrix (h.dims _ (lookup_mem hd)) h.cls] at hg
          cases hg

theorem Exact.assign {b : Block β α} {d : Dim β} (h : Exact b d) {n : String} {x : Arr β α} (hx : x.dims = [d])
    (xn : Option String) : Exact { b with vars := assign b.vars n x, xname := xn } d :=
  ⟨h.ivars, h.cls, fun w hw => by
    rcases mem_assign _ _ _ _ hw with h' | rfl
    · exact h.dims _ h'
    · exact hx⟩

theorem Exact.known {b : Block β α} {d e : Dim β} (h : Exact b d) (he : e.name = d.name) : addDims b.ivars [e] = b.ivars := by
  simp [addDims, h.ivars, member, he]

theorem Exact.set {env : Env β α} {b b' : Block β α} {d : Dim β} (h : Exact b d) {n : String} {x : Arr β α} {u : Unit}
    (hx : x.dims = [d]) (hs : setArr env b n x = (b', .ok u)) : ∃ e, Exact b' e := by
  unfold setArr at hs
  simp only at hs
  split at hs
  · split at hs
    · cases hs
    · rename_i y hy
      split at hs
      · rename_i y' hy'
        cases hs
        have : y'.dims = y.dims := by
          unfold setElem at hy'
          split at hy'
          · split at hy'
            · split at hy'
              · cases hy'; rfl
              · cases hy'
            · cases hy'
          · cases hy'
        exact ⟨d, h.assign (by rw [this]; exact h.dims _ (lookup_mem hy)) _⟩
      · cases hs
  · split at hs
    · rename_i e he
      obtain ⟨hn, rfl⟩ := h.lookup he
      have h0 : Exact { b with xname := nextXname b.xname x.dims } e := ⟨h.ivars, h.cls, h.dims⟩
      obtain ⟨c, h1, h2⟩ := h0.replace (Dim.copyFrom env.dfltDim e.cls e (data := some (toCoords env x))) h.cls
      rw [h1] at hs
      simp only [hx, List.length_cons, List.length_nil, Nat.zero_add, if_true] at hs
      cases hs
      refine ⟨_, ?_, h2.cls, h2.dims⟩
      rw [h2.known (by simp [Dim.copyFrom])]
      exact h2.ivars
    · cases hs
      refine ⟨d, ?_⟩
      have := h.assign hx (n := n) (nextXname b.xname x.dims)
      rw [hx, h.known rfl]
      rw [hx] at this
      exact this

theorem exact_guessOne {env : Env β α} {guess : String → Option String} {b b' : UBlock β α} {v : String}
    (h : ∃ d, Exact b.blk d) (hs : FixUnit.guessOne env guess b v = .ok b') : ∃ d, Exact b'.blk d := by
  obtain ⟨d, h⟩ := h
  unfold FixUnit.guessOne at hs
  split at hs
  · rename_i e he
    obtain ⟨-, rfl⟩ := h.lookup he
    split at hs
    · obtain ⟨c, h1, h2⟩ := h.replace (Dim.copyFrom env.dfltDim e.cls e (unit := guess v)) h.cls
      rw [h1] at hs
      cases hs
      exact ⟨_, h2⟩
    · cases hs; exact ⟨_, h⟩
  · split at hs <;> cases hs <;> exact ⟨_, h⟩

theorem exact_rename {env : Env β α} {b b' : Block β α} {d : Dim β} {o n : String} {u : Unit} (h : Exact b d)
    (hs : renameVar env b o n = (b', .ok u)) : ∃ e, Exact b' e := by
  unfold renameVar at hs
  split at hs
  · rename_i e he
    obtain ⟨-, rfl⟩ := h.lookup he
    obtain ⟨c, h1, h2⟩ := h.replace (Dim.copyFrom env.dfltDim e.cls e (name := some n)) h.cls
    rw [h1] at hs
    cases hs
    exact ⟨_, h2⟩
  · split at hs
    · rename_i v hv
      cases hs
      refine ⟨d, h.ivars, h.cls, fun w hw => ?_⟩
      have hd := h.dims _ (lookup_mem hv)
      simp only [Spec.rename] at hw
      split at hw
      · rcases List.mem_append.1 hw with h' | h'
        · exact h.dims _ (List.mem_filter.1 h').1
        · rw [List.mem_singleton.1 h']; exact hd
      · split at hw
        · obtain ⟨q, hq, rfl⟩ := List.mem_map.1 hw
          split
          · exact hd
          · exact h.dims _ (List.mem_filter.1 hq).1
        · obtain ⟨q, hq, rfl⟩ := List.mem_map.1 hw
          split
          · exact hd
          · exact h.dims _ hq
    · cases hs; exact ⟨d, h⟩

theorem exact_fixUnit {env : Env β α} {mul : ℚ → α → α} {cmul : ℚ → β → β} {b b' : UBlock β α} {v : String}
    (h : ∃ d, Exact b.blk d) (hs : FixUnit.fixUnit env mul cmul b v = .ok b') : ∃ d, Exact b'.blk d := by
  obtain ⟨d, h⟩ := h
  unfold FixUnit.fixUnit at hs
  split at hs
  · cases hs; exact ⟨_, h⟩
  · rename_i n m u ht
    split at hs
    · rename_i e he
      obtain ⟨-, rfl⟩ := h.lookup he
      obtain ⟨c, h1, h2⟩ := h.replace (Dim.copyFrom env.dfltDim e.cls e (data := some (e.data.map (cmul m)))
          (unit := u) (name := some n)) h.cls
      rw [h1] at hs
      cases hs
      exact ⟨_, h2⟩
    · split at hs
      · cases hs
      · rename_i b1 w hr
        obtain ⟨e, he⟩ := exact_rename h hr
        simp only at hs
        split at hs
        · cases hs
        · rename_i x hx
          split at hs
          · cases hs
          · rename_i b2 w' hw
            cases hs
            have := he.set (x := FixUnit.times mul m x) (by show x.dims = [e]; exact he.get hx) hw
            unfold setUnit
            split
            · exact this
            · split <;> exact this

theorem exact_each {f : UBlock β α → String → Except DataBlock.Err (UBlock β α)}
    (hf : ∀ b b' v, (∃ d, Exact b.blk d) → f b v = .ok b' → ∃ d, Exact b'.blk d) (l : List String) :
    ∀ b b', (∃ d, Exact b.blk d) → FixUnit.each f b l = .ok b' → ∃ d, Exact b'.blk d := by
  induction l with
  | nil => intro b b' h hs; cases hs; exact h
  | cons v t ih =>
    intro b b' h hs
    unfold FixUnit.each at hs
    split at hs
    · cases hs
    · rename_i c hc
      exact ih c b' (hf b c v h hc) hs

theorem exact_guessUnit {env : Env β α} {mul : ℚ → α → α} {cmul : ℚ → β → β} {guess : String → Option String}
    {b b' : UBlock β α} (h : ∃ d, Exact b.blk d) (hs : FixUnit.guessUnit env mul cmul guess b = .ok b') :
    ∃ d, Exact b'.blk d := by
  unfold FixUnit.guessUnit at hs
  split at hs
  · cases hs
  · rename_i c hc
    exact exact_each (fun _ _ _ => exact_fixUnit) _ _ _ (exact_each (fun _ _ _ => exact_guessOne) _ _ _ h hc) hs

/-! ### Titles of columns -/

theorem Ident.all {s : List Char} (h : Ident s) : ∀ d ∈ s, isLetter d = true ∨ isDig d = true := by
  obtain ⟨c, g, rfl, h1, h2⟩ := h
  intro d hd
  rcases List.mem_cons.1 hd with rfl | hd
  · exact Or.inl h1
  · exact h2 d hd

theorem Ident.none {s : List Char} (h : Ident s) {c : Char} (hc : (isLetter c || isDig c) = false) : c ∉ s := by
  intro hm
  have := h.all c hm
  simp only [Bool.or_eq_false_iff] at hc
  rw [hc.1, hc.2] at this
  simp at this

theorem Word.none {u : Option (List Char)} (h : Word u) {c : Char} (hc : FixUnit.isAlpha c = false) : c ∉ u.getD [] := by
  intro hm
  have := (FixUnit.isAlpha_iff c).2 (h c hm)
  rw [hc] at this
  cases this

theorem titled_some {n : List Char} {u : Option (List Char)} (h : u.getD [] ≠ []) :
    Sp.titled n u = n ++ ([' '] ++ '[' :: (u.getD [] ++ (List.replicate 1 ']' ++ []))) := by
  unfold Sp.titled
  rw [if_neg h]
  simp

theorem titled_none {n : List Char} {u : Option (List Char)} (h : u.getD [] = []) : Sp.titled n u = n := by
  unfold Sp.titled
  rw [if_pos h]

/-- The text after a name. -/
def tailOf (u : Option (List Char)) : List Char := if u.getD [] = [] then [] else " [".toList ++ u.getD [] ++ "]".toList

theorem titled_eq (n : List Char) (u : Option (List Char)) : Sp.titled n u = n ++ tailOf u := by
  unfold Sp.titled tailOf
  split <;> simp

theorem mem_tailOf {u : Option (List Char)} {c : Char} (h : c ∈ tailOf u) :
    c = ' ' ∨ c = '[' ∨ c = ']' ∨ c ∈ u.getD [] := by
  unfold tailOf at h
  split at h
  · cases h
  · simp only [List.mem_append] at h
    rcases h with (h | h) | h
    · have : c = ' ' ∨ c = '[' := by simpa using h
      tauto
    · tauto
    · have : c = ']' := by simpa using h
      tauto

theorem outer_no_paren {s : String} (h : '(' ∉ s.toList) : Complex.outer s = ("", s) := by
  refine (Complex.C51_names s).2 ?_
  rintro ⟨f, x, rest, c, g, k, tail, h1, -⟩
  apply h
  rw [h1]
  simp

theorem outer_titled {n : List Char} {u : Option (List Char)} (hn : Ident n) (hu : Word u) :
    Complex.outer (String.ofList (Sp.titled n u)) = ("", String.ofList (Sp.titled n u)) := by
  apply outer_no_paren
  rw [String.toList_ofList, titled_eq, List.mem_append]
  rintro (h | h)
  · exact hn.none (by decide) h
  · rcases mem_tailOf h with h | h | h | h
    · revert h; decide
    · revert h; decide
    · revert h; decide
    · exact hu.none (by decide) h

theorem outer_call {f n : List Char} {u : Option (List Char)} (hf : Ident f) (hn : Ident n) (hu : Word u) :
    Complex.outer (String.ofList (Sp.titled (f ++ ['('] ++ n ++ [')']) u)) = (String.ofList f, String.ofList n) := by
  obtain ⟨c, g, rfl, h1, h2⟩ := hf
  refine (Complex.C51_names _).1 (c :: g) n (tailOf u) ⟨c, g, 0, [], ?_, rfl, h1, h2, hn.none (by decide), ?_, ?_, Or.inl rfl⟩
  · rw [String.toList_ofList, titled_eq]; simp
  · intro h
    rcases mem_tailOf h with h | h | h | h
    · revert h; decide
    · revert h; decide
    · revert h; decide
    · exact hu.none (by decide) h
  · intro h
    rcases mem_tailOf h with h | h | h | h
    · revert h; decide
    · revert h; decide
    · revert h; decide
    · exact hu.none (by decide) h

theorem matrixName_prefix {s m : String} {i j : Int} (h : isMatrixName s = some (m, i, j)) : m.toList <+: s.toList := by
  unfold isMatrixName at h
  split at h
  · rename_i m' i' j' hm
    simp only [Option.some.injEq, Prod.mk.injEq] at h
    obtain ⟨rfl, -, -⟩ := h
    unfold matrixName at hm
    split at hm
    · simp only [Option.some.injEq, Prod.mk.injEq] at hm
      rw [← hm.1, String.toList_ofList]
      exact List.take_prefix _ _
    · cases hm
  · cases h

/-- A title with a unit has a bracket. -/
theorem bracket_titled {n : List Char} {u : Option (List Char)} (h : u.getD [] ≠ []) : '[' ∈ Sp.titled n u := by
  rw [titled_some h]; simp

/-! ### Blocks of columns -/

/-- A block of columns over one sweep. -/
structure Tab (b : Block β α) (sw : Dim β) (n : Nat) (L : List (String × (Nat → α))) : Prop where
  ivars : b.ivars = [(sw.name, sw)]
  cls : sw.cls = .dimSweep
  nodup : (keys b.vars).Nodup
  keys : ∀ k, k ∈ keys b.vars ↔ k ∈ L.map Prod.fst
  apart : sw.name ∉ L.map Prod.fst
  col : ∀ e ∈ L, ∃ a, lookup b.vars e.1 = some a ∧ a.dims = [sw] ∧ a.nd.shape = [n] ∧ ∀ k < n, a.nd.get [k] = e.2 k

/-- What is in one or two columns. -/
structure Item (α : Type) where
  name : String
  cplx : Bool
  unit : Option (List Char)
  val : Nat → α

/-- The title of the column of a real item. -/
def Item.title (it : Item α) : String := String.ofList (Sp.titled it.name.toList it.unit)

/-- The title of one part of a complex item. -/
def Item.part (f : List Char) (it : Item α) : String :=
  String.ofList (Sp.titled (f ++ ['('] ++ it.name.toList ++ [')']) it.unit)

/-- The columns of an item. -/
def Item.cols (re im : α → α) (it : Item α) : List (String × (Nat → α)) :=
  if it.cplx then [(it.part ['R', 'e'], fun k => re (it.val k)), (it.part ['I', 'm'], fun k => im (it.val k))]
  else [(it.title, it.val)]

/-- The item after complex columns are put together. -/
def Item.mid (it : Item α) : String × (Nat → α) := (if it.cplx then it.name else it.title, it.val)

/-- Names and units of the items are words, and the names are different and none is that of an element
of another. -/
structure Sober (items : List (Item α)) : Prop where
  ident : ∀ it ∈ items, Ident it.name.toList
  word : ∀ it ∈ items, Word it.unit
  nodup : (items.map Item.name).Nodup
  elem : ∀ it ∈ items, ∀ it' ∈ items, ∀ i j, isMatrixName it.name ≠ some (it'.name, i, j)

theorem Sober.inj {items : List (Item α)} (h : Sober items) {a b : Item α} (ha : a ∈ items) (hb : b ∈ items)
    (e : a.name = b.name) : a = b := List.inj_on_of_nodup_map h.nodup ha hb e

theorem outer_title {it : Item α} (h1 : Ident it.name.toList) (h2 : Word it.unit) :
    Complex.outer it.title = ("", it.title) := outer_titled h1 h2

theorem outer_part {it : Item α} (h1 : Ident it.name.toList) (h2 : Word it.unit) (f : List Char) (hf : Ident f) :
    Complex.outer (it.part f) = (String.ofList f, it.name) := by
  have := outer_call hf h1 h2
  rw [String.ofList_toList] at this
  exact this

theorem identRe : Ident ['R', 'e'] := ⟨'R', ['e'], rfl, by decide, by decide⟩
theorem identIm : Ident ['I', 'm'] := ⟨'I', ['m'], rfl, by decide, by decide⟩

theorem mem_cols {re im : α → α} {items : List (Item α)} {e : String × (Nat → α)}
    (h : e ∈ items.flatMap (Item.cols re im)) : ∃ it ∈ items,
      (it.cplx = false ∧ e = (it.title, it.val)) ∨
      (it.cplx = true ∧ e = (it.part ['R', 'e'], fun k => re (it.val k))) ∨
      (it.cplx = true ∧ e = (it.part ['I', 'm'], fun k => im (it.val k))) := by
  obtain ⟨it, hi, he⟩ := List.mem_flatMap.1 h
  refine ⟨it, hi, ?_⟩
  unfold Item.cols at he
  cases hc : it.cplx
  · rw [hc] at he
    exact Or.inl ⟨rfl, by simpa using he⟩
  · rw [hc] at he
    have : e = (it.part ['R', 'e'], fun k => re (it.val k)) ∨ e = (it.part ['I', 'm'], fun k => im (it.val k)) := by
      simpa using he
    rcases this with h | h
    · exact Or.inr (Or.inl ⟨rfl, h⟩)
    · exact Or.inr (Or.inr ⟨rfl, h⟩)

/-- A name without brackets and parentheses is the title of an item only if it is its name. -/
theorem plain_title {re im : α → α} {items : List (Item α)} {m : String} (hb : '[' ∉ m.toList) (hp : '(' ∉ m.toList)
    (h : m ∈ (items.flatMap (Item.cols re im)).map Prod.fst) : ∃ it ∈ items, it.name = m ∧ it.cplx = false := by
  obtain ⟨e, he, rfl⟩ := List.mem_map.1 h
  obtain ⟨it, hi, ⟨hc, rfl⟩ | ⟨hc, rfl⟩ | ⟨hc, rfl⟩⟩ := mem_cols he
  · refine ⟨it, hi, ?_, hc⟩
    simp only [Item.title] at hb ⊢
    by_cases hu : it.unit.getD [] = []
    · rw [titled_none hu, String.ofList_toList]
    · rw [String.toList_ofList] at hb
      exact absurd (bracket_titled hu) hb
  · simp only [Item.part, String.toList_ofList, titled_eq] at hp
    exact absurd (by simp) hp
  · simp only [Item.part, String.toList_ofList, titled_eq] at hp
    exact absurd (by simp) hp

end HF.Readers.Treat
