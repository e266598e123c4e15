import Mathlib.Data.List.SplitBy
import Mathlib.Order.Defs.LinearOrder
import Mathlib.Data.Char
import Verif.Utils.Model
/-
C41: natural order of names (`lex_order`, used by `glob`).
-/
namespace HF
namespace Utils
open Py

/-- Total order on elements that agrees with python's where that one is defined. -/
def tokLt' : Tok → Tok → Bool
  | .num m, .num n => decide (m < n)
  | .str s, .str t => strLt s t
  | .num _, .str _ => true
  | .str _, .num _ => false

theorem char_total : StrictTotal (fun _ : Char => True) (fun a b => decide (a < b)) where
  irrefl := by intro a _; simp
  trans := by intro a b c _ _ _ h1 h2; simp at *; exact lt_trans h1 h2
  tri := by
    intro a b _ _ h
    rcases lt_or_gt_of_ne h with h | h <;> simp [h]

theorem strLt_total : StrictTotal (fun _ : List Char => True) strLt := by
  have h := lexLt_total char_total
  exact ⟨fun a _ => h.irrefl a (by simp), fun a b c _ _ _ => h.trans a b c (by simp) (by simp) (by simp),
    fun a b _ _ => h.tri a b (by simp) (by simp)⟩

theorem tokLt'_total : StrictTotal (fun _ : Tok => True) tokLt' where
  irrefl := by
    intro a _
    cases a with
    | num n => simp [tokLt']
    | str s => exact strLt_total.irrefl s trivial
  trans := by
    intro a b c _ _ _ h1 h2
    cases a with
    | num l => cases b with
      | num m => cases c with
        | num n => simp [tokLt'] at *; omega
        | str _ => rfl
      | str _ => cases c with
        | num n => simp [tokLt'] at h2
        | str _ => rfl
    | str l => cases b with
      | num m => simp [tokLt'] at h1
      | str m => cases c with
        | num n => simp [tokLt'] at h2
        | str n => exact strLt_total.trans l m n trivial trivial trivial h1 h2
  tri := by
    intro a b _ _ hne
    cases a with
    | num l => cases b with
      | num m =>
        have : l ≠ m := fun h => hne (by rw [h])
        simp [tokLt']; omega
      | str _ => exact Or.inl rfl
    | str l => cases b with
      | num m => exact Or.inr rfl
      | str m => exact strLt_total.tri l m trivial trivial fun h => hne (by rw [h])

theorem keyLt_eq {a b : List Tok} (h : (keyLt a b).isSome) : keyLt a b = some (lexLt tokLt' a b) := by
  induction a generalizing b with
  | nil => cases b <;> rfl
  | cons x a ih =>
    cases b with
    | nil => rfl
    | cons y b =>
      simp only [keyLt, lexLt] at h ⊢
      by_cases hxy : x = y
      · simp only [hxy, if_true] at h ⊢; exact ih h
      · simp only [hxy, if_false] at h ⊢
        cases x <;> cases y <;> simp [tokLt] at h <;> rfl

/-- The order behind `pairLt`. -/
def pairLt' (a b : List Char) : Bool :=
  if key a = key b then strLt a b else lexLt tokLt' (key a) (key b)

theorem pairLt_eq {a b : List Char} (h : (pairLt a b).isSome) : pairLt a b = some (pairLt' a b) := by
  unfold pairLt pairLt' at *
  split
  · rfl
  · rename_i hne
    simp only [hne, if_false] at h
    exact keyLt_eq h

theorem keyTotal : StrictTotal (fun _ : List Tok => True) (lexLt tokLt') := by
  have h := lexLt_total tokLt'_total
  exact ⟨fun a _ => h.irrefl a (by simp), fun a b c _ _ _ => h.trans a b c (by simp) (by simp) (by simp),
    fun a b _ _ => h.tri a b (by simp) (by simp)⟩

theorem pairLt'_total : StrictTotal (fun _ : List Char => True) pairLt' where
  irrefl := by intro a _; simp only [pairLt', if_true]; exact strLt_total.irrefl a trivial
  trans := by
    intro a b c _ _ _ h1 h2
    unfold pairLt' at *
    by_cases hab : key a = key b
    · simp only [hab, if_true] at h1 ⊢
      by_cases hbc : key b = key c
      · simp only [hbc, if_true] at h2 ⊢
        exact strLt_total.trans a b c trivial trivial trivial h1 h2
      · simp only [hbc, if_false] at h2 ⊢; exact h2
    · simp only [hab, if_false] at h1
      by_cases hbc : key b = key c
      · simp only [← hbc, hab, if_false]; exact h1
      · simp only [hbc, if_false] at h2
        have h3 := keyTotal.trans _ _ _ trivial trivial trivial h1 h2
        by_cases hac : key a = key c
        · rw [hac, keyTotal.irrefl _ trivial] at h3; cases h3
        · simp only [hac, if_false]; exact h3
  tri := by
    intro a b _ _ hne
    unfold pairLt'
    by_cases hab : key a = key b
    · simp only [hab, if_true]; exact strLt_total.tri a b trivial trivial hne
    · have hba : ¬ key b = key a := fun h => hab h.symm
      simp only [hab, hba, if_false]
      exact keyTotal.tri _ _ trivial trivial hab

/-- C41.  `lex_order` returns the same names, in ascending order of python's comparison of
`(key, name)`; the order does not depend on the order of the input. -/
theorem C41_sorted (names r : List (List Char)) (h : lexOrder names = some r) :
    r.Perm names ∧ r.Pairwise (fun a b => pairLt b a = some false) ∧
      ∀ names', names'.Perm names → lexOrder names' = some r := by
  unfold lexOrder at h
  split at h
  · rename_i hall
    simp only [Option.some.injEq] at h
    subst h
    have hall' : ∀ a ∈ names, ∀ b ∈ names, (pairLt a b).isSome := by
      simpa [List.all_eq_true] using hall
    have hcongr : ∀ l : List (List Char), (∀ a ∈ l, a ∈ names) →
        sortBy (fun a b => (pairLt a b).getD false) l = sortBy pairLt' l := by
      intro l hl
      apply sortBy_congr
      intro a ha b hb
      rw [pairLt_eq (hall' a (hl a ha) b (hl b hb))]; rfl
    have hs := sortBy_sorted_total pairLt'_total (l := names) (by simp)
    rw [hcongr names fun a h => h]
    have hp := sortBy_perm pairLt' names
    refine ⟨hp, ?_, ?_⟩
    · refine hs.imp_of_mem ?_
      intro a b ha hb hlt
      rw [pairLt_eq (hall' b (hp.mem_iff.1 hb) a (hp.mem_iff.1 ha)), hlt]
    · intro names' hperm
      have hmem : ∀ a ∈ names', a ∈ names := fun a ha => hperm.mem_iff.1 ha
      unfold lexOrder
      have : names'.all (fun a => names'.all fun b => (pairLt a b).isSome) = true := by
        simp only [List.all_eq_true]
        exact fun a ha b hb => hall' a (hmem a ha) b (hmem b hb)
      rw [this, if_pos rfl, hcongr names' hmem]
      congr 1
      apply sorted_unique pairLt'_total (by simp) (by simp)
      · exact (sortBy_perm _ _).trans (hperm.trans hp.symm)
      · exact sortBy_sorted_total pairLt'_total (by simp)
      · exact hs
  · cases h

/-- Every name begins with a character that is no digit. -/
def BeginsWithLetter (s : List Char) : Prop := ∃ c t, s = c :: t ∧ isDigit c = false

theorem run_kind {s r : List Char} (h : r ∈ splitRuns s) :
    ∃ hne : r ≠ [], r.all isDigit = isDigit (r.head hne) ∧ isDigit (r.getLast hne) = isDigit (r.head hne) := by
  have hne : r ≠ [] := List.ne_nil_of_mem_splitBy h
  have hc := List.isChain_of_mem_splitBy h
  clear h
  have : ∀ c ∈ r, isDigit c = isDigit (r.head hne) := by
    cases r with
    | nil => exact absurd rfl hne
    | cons a t =>
      simp only [List.head_cons]
      intro c hcm
      clear hne
      induction t generalizing a with
      | nil => simp at hcm; rw [hcm]
      | cons b t ih =>
        rw [List.isChain_cons_cons] at hc
        rcases List.mem_cons.1 hcm with rfl | hcm
        · rfl
        · rw [ih b hc.2 hcm]; have := hc.1; simp only [beq_iff_eq] at this; exact this.symm
  refine ⟨hne, ?_, this _ (List.getLast_mem hne)⟩
  cases hd : isDigit (r.head hne) with
  | true => rw [List.all_eq_true]; intro c hc; rw [this c hc, hd]
  | false =>
    rw [List.all_eq_false]
    exact ⟨r.head hne, List.head_mem hne, by simp [hd]⟩

def Tok.isNum : Tok → Bool
  | .num _ => true
  | .str _ => false

/-- Kinds alternate, beginning with kind `k`. -/
def Alt : Bool → List Tok → Prop
  | _, [] => True
  | k, x :: t => x.isNum = k ∧ Alt (!k) t

theorem toTok_isNum (r : List Char) : (toTok r).isNum = r.all isDigit := by
  unfold toTok; split <;> simp_all [Tok.isNum]

theorem alt_runs (l : List (List Char)) (s : List Char) (hl : ∀ r ∈ l, r ∈ splitRuns s)
    (hc : l.IsChain fun a b => ∃ ha hb, (isDigit (a.getLast ha) == isDigit (b.head hb)) = false)
    (k : Bool) (hk : ∀ r ∈ l.head?, r.all isDigit = k) : Alt k (l.map toTok) := by
  induction l generalizing k with
  | nil => trivial
  | cons r l ih =>
    have hr := hk r (by simp)
    refine ⟨by rw [toTok_isNum, hr], ?_⟩
    apply ih (fun x hx => hl x (by simp [hx]))
    · cases l with
      | nil => exact List.isChain_nil
      | cons r' l => exact (List.isChain_cons_cons.1 hc).2
    · intro r' hr'
      cases l with
      | nil => simp at hr'
      | cons r'' l =>
        simp at hr'; subst hr'
        obtain ⟨ha, hb, hne⟩ := (List.isChain_cons_cons.1 hc).1
        obtain ⟨h1, h2, h3⟩ := run_kind (hl r (by simp))
        obtain ⟨g1, g2, _⟩ := run_kind (hl r'' (by simp))
        rw [h3, ← h2, ← g2, hr] at hne
        cases k <;> cases hh : r''.all isDigit <;> simp [hh] at hne ⊢

theorem key_alt {s : List Char} (h : BeginsWithLetter s) : Alt false (key s) := by
  obtain ⟨c, t, rfl, hc⟩ := h
  apply alt_runs _ (c :: t) (fun r h => h)
    (List.isChain_getLast_head_splitBy (fun a b => isDigit a == isDigit b) (c :: t))
  intro r hr
  have hmem : r ∈ splitRuns (c :: t) := List.mem_of_mem_head? hr
  obtain ⟨h1, h2, _⟩ := run_kind hmem
  have := List.head_head_splitBy (fun a b => isDigit a == isDigit b) (l := c :: t) (by simp)
  have hrr : ((c :: t).splitBy fun a b => isDigit a == isDigit b).head
      (List.splitBy_ne_nil.2 (by simp)) = r := by
    have := List.head?_eq_some_head (List.splitBy_ne_nil.2 (by simp) :
      (c :: t).splitBy (fun a b => isDigit a == isDigit b) ≠ [])
    unfold splitRuns at hr
    rw [this] at hr
    simpa using hr
  rw [h2]
  have e : r.head h1 = c := by
    subst hrr; simpa using this
  rw [e, hc]

theorem keyLt_alt {a b : List Tok} {k : Bool} (ha : Alt k a) (hb : Alt k b) :
    (keyLt a b).isSome := by
  induction a generalizing b k with
  | nil => cases b <;> rfl
  | cons x a ih =>
    cases b with
    | nil => rfl
    | cons y b =>
      simp only [keyLt]
      split
      · exact ih ha.2 hb.2
      · have := ha.1.trans hb.1.symm
        cases x <;> cases y <;> simp [Tok.isNum] at this <;> rfl

/-- C41.  If every name begins with a character other than a digit, sorting succeeds. -/
theorem C41_no_error (names : List (List Char)) (h : ∀ s ∈ names, BeginsWithLetter s) :
    (lexOrder names).isSome := by
  unfold lexOrder
  have : names.all (fun a => names.all fun b => (pairLt a b).isSome) = true := by
    simp only [List.all_eq_true]
    intro a ha b hb
    unfold pairLt
    split
    · rfl
    · exact keyLt_alt (key_alt (h a ha)) (key_alt (h b hb))
  rw [this]; rfl

/-- C41.  Embedded numbers are ordered by value, not by their digits: of two names with the
same beginning `p`, the one with the smaller number comes first, whatever follows. -/
theorem C41_numeric (p m n s t : List Char) (hp : ∀ c ∈ p.getLast?, isDigit c = false)
    (hm : m ≠ []) (hn : n ≠ []) (hmd : m.all isDigit = true) (hnd : n.all isDigit = true)
    (hs : ∀ c ∈ s.head?, isDigit c = false) (ht : ∀ c ∈ t.head?, isDigit c = false)
    (hlt : decValue m < decValue n) : pairLt (p ++ m ++ s) (p ++ n ++ t) = some true := by
  have split : ∀ m s : List Char, m ≠ [] → m.all isDigit = true →
      (∀ c ∈ s.head?, isDigit c = false) →
      key (p ++ m ++ s) = key p ++ .num (decValue m) :: key s := by
    intro m s hm hmd hs
    unfold key splitRuns
    have hall : ∀ c ∈ m, isDigit c = true := by simpa [List.all_eq_true] using hmd
    rw [List.append_assoc, List.splitBy_append, List.splitBy_append, List.splitBy_of_isChain hm]
    · simp [toTok, hmd]
    · rw [List.isChain_iff_getElem]
      intro i hi
      simp [hall _ (List.getElem_mem _)]
    · intro x hx y hy
      simp [hall x (List.mem_of_mem_getLast? hx), hs y hy]
    · intro x hx y hy
      have : y ∈ m := by
        cases m with
        | nil => exact absurd rfl hm
        | cons a t => simp at hy; simp [hy]
      simp [hall y this, hp x hx]
  have hk : ∀ (a : List Tok) (x y : Tok) (b c : List Tok), x ≠ y →
      keyLt (a ++ x :: b) (a ++ y :: c) = tokLt x y := by
    intro a x y b c hne
    induction a with
    | nil => simp [keyLt, hne]
    | cons z a ih => simp [keyLt, ih]
  have hne : decValue m ≠ decValue n := by omega
  unfold pairLt
  rw [split m s hm hmd hs, split n t hn hnd ht]
  have : ¬ (key p ++ .num (decValue m) :: key s = key p ++ .num (decValue n) :: key t) := by
    simp [hne]
  rw [if_neg this, hk _ _ _ _ _ (by simpa using hne)]
  simp [tokLt, hlt]

/-- C41 fails in general: a name beginning with a digit can not be compared with one beginning
with a letter. -/
theorem C41_mixed_refuted (a b : List Char) (c d : Char) (s t : List Char) (ha : a = c :: s)
    (hb : b = d :: t) (hc : isDigit c = true) (hd : isDigit d = false) : pairLt a b = none := by
  have first : ∀ (c : Char) (s : List Char), ∃ r rest, splitRuns (c :: s) = r :: rest ∧
      r.all isDigit = isDigit c := by
    intro c s
    have hne : splitRuns (c :: s) ≠ [] := List.splitBy_ne_nil.2 (by simp)
    obtain ⟨r, rest, hr⟩ := List.exists_cons_of_ne_nil hne
    refine ⟨r, rest, hr, ?_⟩
    obtain ⟨h1, h2, _⟩ := run_kind (s := c :: s) (r := r) (by rw [hr]; simp)
    have := List.head_head_splitBy (fun a b => isDigit a == isDigit b) (l := c :: s) (by simp)
    unfold splitRuns at hr
    simp only [hr, List.head_cons] at this
    rw [h2, this]
  obtain ⟨r1, t1, h1, k1⟩ := first c s
  obtain ⟨r2, t2, h2, k2⟩ := first d t
  subst ha hb
  have e1 : key (c :: s) = .num (decValue r1) :: t1.map toTok := by
    simp [key, h1, toTok, k1, hc]
  have e2 : key (d :: t) = .str r2 :: t2.map toTok := by
    simp [key, h2, toTok, k2, hd]
  simp [pairLt, e1, e2, keyLt, tokLt]

/-! Non-vacuity -/

example : lexOrder ["f10".toList, "f9".toList, "f1a".toList] =
    some ["f1a".toList, "f9".toList, "f10".toList] := by decide +kernel

example : BeginsWithLetter "f10".toList := ⟨'f', "10".toList, rfl, by decide⟩

example : "9".toList.all isDigit = true ∧ decValue "9".toList < decValue "10".toList := by decide

end Utils
end HF
