import Verif.Config.Model
/-
C25: scoped configuration lookup.  C42: time intervals.
-/
namespace HF
namespace Config

variable {K V : Type} [DecidableEq K]

/-- Specification: the dictionaries among a container and its ancestors, innermost first. -/
def dictsOf : Scope K V → List (List (K × V))
  | [] => []
  | .dict es :: r => es :: dictsOf r
  | .list _ :: r => dictsOf r

omit [DecidableEq K] in
theorem dictsOf_findNext (s : Scope K V) : dictsOf (findNextDict s) = dictsOf s := by
  induction s with
  | nil => rfl
  | cons n r ih => cases n <;> simp [findNextDict, dictsOf, ih]

omit [DecidableEq K] in
theorem findNext_form (s : Scope K V) :
    findNextDict s = [] ∨ ∃ es r, findNextDict s = .dict es :: r := by
  induction s with
  | nil => exact Or.inl rfl
  | cons n r ih =>
    cases n with
    | dict es => exact Or.inr ⟨es, r, rfl⟩
    | list => exact ih

theorem getitem_eq (n : Nat) (es : List (K × V)) (parent : Scope K V) (hn : parent.length ≤ n)
    (k : K) : getitem (.dict es :: parent) k =
      (es :: dictsOf parent).findSome? fun e => e.lookup k := by
  induction n generalizing es parent with
  | zero =>
    have : parent = [] := List.length_eq_zero_iff.1 (by omega)
    subst this
    rw [getitem]
    simp only [dictsOf, List.findSome?_cons, List.findSome?_nil]
    cases es.lookup k with
    | some => rfl
    | none => rfl
  | succ n ih =>
    rw [getitem, List.findSome?_cons]
    cases es.lookup k with
    | some => rfl
    | none =>
      simp only
      rw [← dictsOf_findNext parent]
      have hl := findNextDict_length parent
      rcases findNext_form parent with h | ⟨es', r, h⟩
      · split
        · rw [h]; rfl
        · rename_i d r h'; rw [h] at h'; cases h'
      · split
        · rename_i h'; rw [h] at h'; cases h'
        · rename_i d r' h'
          rw [h] at h'
          cases h'
          rw [h]
          rw [h, List.length_cons] at hl
          exact ih es' r (by omega)

/-- C25.  Lookup gives the value of the innermost dictionary which defines the key, and
`KeyError` exactly when none does; lists in between are skipped. -/
theorem C25_lookup (es : List (K × V)) (parent : Scope K V) (k : K) :
    getitem (.dict es :: parent) k = (dictsOf (.dict es :: parent)).findSome? fun e => e.lookup k :=
  getitem_eq parent.length es parent (Nat.le_refl _) k

/-- C25 in words: the value `v` is returned iff it is that of a dictionary of the chain and no
dictionary further inside defines the key. -/
theorem C25_innermost (es : List (K × V)) (parent : Scope K V) (k : K) (v : V) :
    getitem (.dict es :: parent) k = some v ↔
      ∃ inner d outer, dictsOf (.dict es :: parent) = inner ++ d :: outer ∧ d.lookup k = some v ∧
        ∀ e ∈ inner, e.lookup k = none := by
  rw [C25_lookup, List.findSome?_eq_some_iff]

/-- C25.  `get` returns the default exactly when lookup fails. -/
theorem C25_get_default (es : List (K × V)) (parent : Scope K V) (k : K) (dflt : V) :
    (∀ d ∈ dictsOf (.dict es :: parent), d.lookup k = none) →
      get (.dict es :: parent) k dflt = dflt := by
  intro h
  unfold get
  rw [C25_lookup, List.findSome?_eq_none_iff.2 h]; rfl

/-- Ancestors are all dictionaries, none of them empty. -/
def FullDicts : Scope K V → Prop
  | [] => True
  | .dict es :: r => es ≠ [] ∧ FullDicts r
  | .list _ :: _ => False

omit [DecidableEq K] in
theorem truthy_full {s : Scope K V} (h : FullDicts s) : truthy s = !s.isEmpty := by
  cases s with
  | nil => rfl
  | cons n r => cases n with
    | dict es => simp [truthy, h.1]
    | list => cases h

/-- C25.  Membership agrees with lookup if all ancestors are nonempty dictionaries.  (The
dictionary itself may be empty.) -/
theorem C25_contains (asKey : V → Option K) (es : List (K × V)) (parent : Scope K V)
    (h : FullDicts parent) (k : K) :
    contains asKey (.dict es :: parent) k = (getitem (.dict es :: parent) k).isSome := by
  induction parent generalizing es with
  | nil =>
    rw [C25_lookup]
    simp only [contains, truthy, Bool.false_and, Bool.or_false, dictsOf, List.findSome?_cons,
      List.findSome?_nil]
    cases es.lookup k <;> rfl
  | cons n r ih =>
    cases n with
    | list => cases h
    | dict es' =>
      rw [C25_lookup, contains, truthy_full h, ih es' h.2, C25_lookup]
      simp only [dictsOf, List.findSome?_cons]
      cases es.lookup k <;> simp

/-- C25 fails with a list in between: a key found by lookup is not "in" the dictionary. -/
theorem C25_list_refuted (asKey : V → Option K) (k : K) (v e : V) (he : asKey e ≠ some k)
    (rest : Scope K V) :
    let s : Scope K V := .dict [] :: .list [e] :: .dict [(k, v)] :: rest
    getitem s k = some v ∧ contains asKey s k = false := by
  constructor
  · rw [C25_lookup]; simp [dictsOf, List.findSome?_cons, List.lookup]
  · simp [contains, truthy, he]

/-- The other way round: an element of a list in between counts as key although lookup fails. -/
theorem C25_list_element_refuted (asKey : V → Option K) (k : K) (e : V) (he : asKey e = some k) :
    let s : Scope K V := [.dict [], .list [e]]
    getitem s k = none ∧ contains asKey s k = true := by
  constructor
  · rw [C25_lookup]; simp [dictsOf, List.findSome?_cons, List.lookup]
  · simp [contains, truthy, he]

/-- C25 fails with an empty dictionary in between, since it counts as false. -/
theorem C25_empty_parent_refuted (asKey : V → Option K) (k : K) (v : V) (rest : Scope K V) :
    let s : Scope K V := .dict [] :: .dict [] :: .dict [(k, v)] :: rest
    getitem s k = some v ∧ contains asKey s k = false := by
  constructor
  · rw [C25_lookup]; simp [dictsOf, List.findSome?_cons, List.lookup]
  · simp [contains, truthy]

/-- C25.  A copy keeps the dictionary's own values but no longer sees its surroundings. -/
theorem C25_copy (es : List (K × V)) (parent : Scope K V) (k : K) :
    getitem (copy (.dict es :: parent)) k = es.lookup k := by
  rw [show copy (.dict es :: parent) = [.dict es] from rfl, C25_lookup]
  simp only [dictsOf, List.findSome?_cons, List.findSome?_nil]
  cases es.lookup k <;> rfl

omit [DecidableEq K] in
theorem merged_loop (m : Merged K V) (k : K) (l : List (Mapping K V)) :
    Merged.getitem.loop m k l = (l.findSome? fun d => d.get k).or (m.parent.bind fun p => p.get k) := by
  induction l with
  | nil => unfold Merged.getitem.loop; cases m.parent <;> rfl
  | cons d l ih =>
    unfold Merged.getitem.loop
    rw [List.findSome?_cons]
    cases d.get k with
    | some => rfl
    | none => exact ih

omit [DecidableEq K] in
/-- C25.  `MergedDicts(d1, ..., dn)[k]` is the value of the last argument that has the key; only if
none has it the parent is asked. -/
theorem C25_merged (before after : List (Mapping K V)) (d : Mapping K V) (parent : Option (Mapping K V))
    (k : K) (v : V) (hd : d.get k = some v) (ha : ∀ e ∈ after, e.get k = none) :
    (Merged.mk' (before ++ d :: after) parent).getitem k = some v := by
  unfold Merged.getitem
  rw [merged_loop]
  have : ((before ++ d :: after).reverse.findSome? fun d => d.get k) = some v := by
    rw [List.findSome?_eq_some_iff]
    refine ⟨after.reverse, d, before.reverse, by simp, hd, ?_⟩
    intro e he; exact ha e (by simpa using he)
  simp only [Merged.mk']
  rw [this]; rfl

omit [DecidableEq K] in
/-- C25.  If no argument has the key the parent decides. -/
theorem C25_merged_parent (args : List (Mapping K V)) (parent : Option (Mapping K V))
    (k : K) (h : ∀ e ∈ args, e.get k = none) :
    (Merged.mk' args parent).getitem k = parent.bind fun p => p.get k := by
  unfold Merged.getitem
  rw [merged_loop]
  have : (args.reverse.findSome? fun d => d.get k) = none := by
    rw [List.findSome?_eq_none_iff]
    intro e he; exact h e (by simpa using he)
  simp only [Merged.mk']
  rw [this]; rfl

omit [DecidableEq K] in
/-- C25.  Membership of `MergedDicts` agrees with lookup if it does for each dictionary. -/
theorem C25_merged_contains (m : Merged K V) (k : K)
    (h : ∀ d ∈ m.dicts, d.has k = (d.get k).isSome)
    (hp : ∀ p, m.parent = some p → p.has k = (p.get k).isSome) :
    m.contains k = (m.getitem k).isSome := by
  unfold Merged.contains Merged.getitem
  rw [merged_loop]
  have e : (m.dicts.any fun d => d.has k) = (m.dicts.findSome? fun d => d.get k).isSome := by
    generalize m.dicts = l at h
    induction l with
    | nil => rfl
    | cons d l ih =>
      rw [List.any_cons, List.findSome?_cons, h d (by simp), ih fun x hx => h x (by simp [hx])]
      cases d.get k <;> simp
  rw [e]
  cases (m.dicts.findSome? fun d => d.get k) with
  | some => rfl
  | none =>
    cases hq : m.parent with
    | none => rfl
    | some p => simp [hp p hq]

/-! ### C42 -/

/-- C42.  Splitting an interval: the parts add up, and hours, minutes and seconds are in range. -/
theorem C42_split (us : Int) :
    let (d, h, m, s) := splitInterval us
    d * 86400000000 + h * 3600000000 + m * 60000000 + s = us ∧
      (0 ≤ h ∧ h < 24) ∧ (0 ≤ m ∧ m < 60) ∧ (0 ≤ s ∧ s < 60000000) := by
  simp only [splitInterval]
  omega

/-- C42.  Writing and reading back a nonnegative interval gives the same interval, unless what is
left beyond whole minutes is less than 0.0001 seconds but not nothing. -/
theorem C42_roundtrip (us : Int) (h : 0 ≤ us) (ht : us % 60000000 = 0 ∨ 100 ≤ us % 60000000) :
    readWords (intervalWords us) = some us := by
  have hs := C42_split us
  unfold intervalWords
  generalize splitInterval us = q at hs
  obtain ⟨d, hh, m, s⟩ := q
  simp only at hs ⊢
  have hd : 0 ≤ d := by omega
  unfold readWords
  by_cases h1 : d = 0 <;> by_cases h2 : hh = 0 <;> by_cases h3 : m = 0 <;> by_cases h4 : s = 0 <;>
    simp [h1, h2, h3, h4] <;> omega

/-- C42 fails for such remainders. -/
theorem C42_tiny_refuted (us : Int) (h1 : 0 < us % 60000000) (h2 : us % 60000000 < 100) :
    readWords (intervalWords us) = none := by
  have hs := C42_split us
  unfold intervalWords
  generalize splitInterval us = q at hs
  obtain ⟨d, hh, m, s⟩ := q
  simp only at hs ⊢
  have hs0 : s ≠ 0 := by omega
  have hs1 : ¬ 100 ≤ s := by omega
  unfold readWords
  simp [hs0, hs1]

/-- C42 fails for negative intervals: what is written can not be read. -/
theorem C42_negative_refuted (us : Int) (h : us < 0) : readWords (intervalWords us) = none := by
  have hs := C42_split us
  unfold intervalWords
  generalize splitInterval us = q at hs
  obtain ⟨d, hh, m, s⟩ := q
  simp only at hs ⊢
  have hd : d < 0 := by omega
  have hd0 : d ≠ 0 := by omega
  unfold readWords
  simp [hd0]
  intro h'; omega

/-! Non-vacuity -/

example : getitem (K := Nat) (V := Nat) [.dict [(1, 10)], .list [7], .dict [(1, 20), (2, 30)]] 2 =
    some 30 := by rw [C25_lookup]; decide
example : FullDicts (K := Nat) (V := Nat) [.dict [(1, 20)], .dict [(2, 3)]] := by simp [FullDicts]
example : intervalWords 90061500000 = [(1, 86400000000), (1, 3600000000), (1, 60000000), (1500000, 1)] := by
  decide

end Config
end HF
