import Verif.Config.Layers
/-
C113: dictionaries of settings laid over each other.
-/
namespace HF
namespace Config
namespace Layers

variable {K V : Type} [DecidableEq K]

/-! ### Specification -/

/-- Dictionaries in dictionaries, none of the outer ones empty. -/
def Chain : Conf K V → Prop
  | .none => True
  | .dict es p => es ≠ [] ∧ Chain p
  | _ => False

mutual
/-- Trees as they are meant: dictionaries in dictionaries, laid over each other; parents of layers are not empty. -/
def Ordinary : Conf K V → Prop
  | .none => False
  | .dict _ p => Chain p
  | .list _ _ => False
  | .merged args p => AllOrdinary args ∧ (p = .none ∨ p.truthy = true ∧ Ordinary p)

def AllOrdinary : List (Conf K V) → Prop
  | [] => True
  | c :: cs => Ordinary c ∧ AllOrdinary cs
end

/-- The key has a value, or there is a KeyError. -/
def Answers (has : Bool) (r : Except Err V) : Prop :=
  (has = true ∧ ∃ v, r = .ok v) ∨ (has = false ∧ r = .error .keyError)

/-! ### Lemmas -/

theorem lookup_mem_key (es : List (K × V)) (k : K) (h : k ∈ es.map Prod.fst) : ∃ v, es.lookup k = some v := by
  induction es with
  | nil => simp at h
  | cons e t ih =>
    rw [List.lookup_cons]
    by_cases he : k = e.1
    · exact ⟨e.2, by simp [he]⟩
    · have : (k == e.1) = false := by simp [he]
      rw [this]
      rw [List.map_cons, List.mem_cons] at h
      exact ih (h.resolve_left he)

theorem chain_answers (asKey : V → Option K) (k : K) : ∀ c : Conf K V, Chain c →
    Answers (c.truthy && c.contains asKey k) (c.inDicts k)
  | .none, _ => Or.inr ⟨rfl, rfl⟩
  | .dict es p, h => by
    obtain ⟨h1, h2⟩ := h
    have ht : (Conf.dict es p).truthy = true := by
      cases es with
      | nil => exact absurd rfl h1
      | cons => rfl
    rw [ht, Bool.true_and]
    unfold Conf.contains Conf.inDicts
    cases hl : es.lookup k with
    | some v => exact Or.inl ⟨rfl, v, rfl⟩
    | none =>
      rw [Option.isSome_none, Bool.false_or]
      exact chain_answers asKey k p h2

theorem dict_answers (asKey : V → Option K) (k : K) (es : List (K × V)) (p : Conf K V) (h : Chain p) :
    Answers ((Conf.dict es p).contains asKey k) ((Conf.dict es p).getitem k) := by
  unfold Conf.contains Conf.getitem Conf.inDicts
  cases hl : es.lookup k with
  | some v => exact Or.inl ⟨rfl, v, rfl⟩
  | none =>
    rw [Option.isSome_none, Bool.false_or]
    exact chain_answers asKey k p h

mutual
theorem answers (asKey : V → Option K) (k : K) : ∀ c : Conf K V, Ordinary c → Answers (c.contains asKey k) (c.getitem k)
  | .none, h => by unfold Ordinary at h; exact h.elim
  | .dict es p, h => by unfold Ordinary at h; exact dict_answers asKey k es p h
  | .list _ _, h => by unfold Ordinary at h; exact h.elim
  | .merged args p, h => by
    unfold Ordinary at h
    obtain ⟨h1, h2⟩ := h
    unfold Conf.contains Conf.getitem
    rcases args_answer asKey k args h1 with ⟨e, v, hv⟩ | ⟨e, hv⟩
    · rw [e, hv]
      exact Or.inl ⟨rfl, v, rfl⟩
    · rw [e, hv, Bool.false_or]
      rcases h2 with h2 | ⟨h2, h3⟩
      · subst h2
        exact Or.inr ⟨rfl, rfl⟩
      · rw [h2, Bool.true_and]
        simp only [if_true]
        exact answers asKey k p h3

theorem args_answer (asKey : V → Option K) (k : K) : ∀ cs : List (Conf K V), AllOrdinary cs →
    (Conf.anyContains asKey cs k = true ∧ ∃ v, Conf.fromLast cs k = some (.ok v)) ∨
    (Conf.anyContains asKey cs k = false ∧ Conf.fromLast cs k = .none)
  | [], _ => Or.inr ⟨rfl, rfl⟩
  | c :: cs, h => by
    unfold AllOrdinary at h
    obtain ⟨h1, h2⟩ := h
    unfold Conf.anyContains Conf.fromLast
    rcases args_answer asKey k cs h2 with ⟨e, v, hv⟩ | ⟨e, hv⟩
    · rw [e, hv, Bool.or_true]
      exact Or.inl ⟨rfl, v, rfl⟩
    · rw [e, hv, Bool.or_false]
      rcases answers asKey k c h1 with ⟨e', v, hv'⟩ | ⟨e', hv'⟩
      · rw [e', hv']
        exact Or.inl ⟨rfl, v, rfl⟩
      · rw [e', hv']
        exact Or.inr ⟨rfl, rfl⟩
end

/-- The arguments after those which do not have the key do not matter. -/
theorem fromLast_append (l after : List (Conf K V)) (k : K) (h : ∀ e ∈ after, e.getitem k = .error .keyError) :
    Conf.fromLast (l ++ after) k = Conf.fromLast l k := by
  have ha : Conf.fromLast after k = .none := by
    induction after with
    | nil => rfl
    | cons c cs ih =>
      unfold Conf.fromLast
      rw [ih fun e he => h e (by simp [he]), h c (by simp)]
  induction l with
  | nil => rw [List.nil_append, ha]; rfl
  | cons c cs ih =>
    rw [List.cons_append]
    unfold Conf.fromLast
    rw [ih]

theorem fromLast_last (before : List (Conf K V)) (d : Conf K V) (k : K) (v : V) (h : d.getitem k = .ok v) :
    Conf.fromLast (before ++ [d]) k = some (.ok v) := by
  induction before with
  | nil =>
    rw [List.nil_append]
    unfold Conf.fromLast
    rw [h]
    rfl
  | cons c cs ih =>
    rw [List.cons_append]
    unfold Conf.fromLast
    rw [ih]

theorem fromLast_none (args : List (Conf K V)) (k : K) (h : ∀ e ∈ args, e.getitem k = .error .keyError) :
    Conf.fromLast args k = .none := by
  have := fromLast_append [] args k h
  rw [List.nil_append] at this
  exact this

/-! ### Theorems -/

/-- C113: `key in settings` says whether the key can be looked up, and if it cannot there is a KeyError. -/
theorem C113_contains (asKey : V → Option K) (c : Conf K V) (h : Ordinary c) (k : K) :
    (c.contains asKey k = true ↔ ∃ v, c.getitem k = .ok v) ∧
    (c.contains asKey k = false ↔ c.getitem k = .error .keyError) := by
  rcases answers asKey k c h with ⟨e, v, hv⟩ | ⟨e, hv⟩
  · rw [e, hv]
    simp
  · rw [e, hv]
    simp

/-- C113: the last of the arguments that finds the key decides. -/
theorem C113_layers (before after : List (Conf K V)) (d p : Conf K V) (k : K) (v : V)
    (h : ∀ e ∈ after, e.getitem k = .error .keyError) (hd : d.getitem k = .ok v) :
    (Conf.merged (before ++ d :: after) p).getitem k = .ok v := by
  unfold Conf.getitem
  rw [show before ++ d :: after = before ++ [d] ++ after by simp, fromLast_append _ _ _ h, fromLast_last _ _ _ _ hd]

/-- C113: if none does, the container around decides, unless it is empty or there is none. -/
theorem C113_outer (args : List (Conf K V)) (p : Conf K V) (k : K) (h : ∀ e ∈ args, e.getitem k = .error .keyError) :
    (Conf.merged args p).getitem k = if p.truthy then p.getitem k else .error .keyError := by
  rw [Conf.getitem, fromLast_none _ _ h]

/-- C113: what is around a later argument comes before what an earlier argument itself has. -/
theorem C113_shadow_refuted (before : List (Conf K V)) (es os : List (K × V)) (p q : Conf K V) (k : K) (w : V)
    (hes : es.lookup k = .none) (hos : os.lookup k = some w) :
    (Conf.merged (before ++ [.dict es (.dict os p)]) q).getitem k = .ok w := by
  refine C113_layers before [] (.dict es (.dict os p)) q k w (by simp) ?_
  simp [Conf.getitem, Conf.inDicts, hes, hos]

/-- C113: a list, in which no key can be looked up, is a TypeError as argument, unless a later argument finds the key, and
as the container around. -/
theorem C113_list (before after args : List (Conf K V)) (el : List V) (p q : Conf K V) (k : K)
    (h : ∀ e ∈ after, e.getitem k = .error .keyError) (ha : ∀ e ∈ args, e.getitem k = .error .keyError) (hel : el ≠ []) :
    (Conf.merged (before ++ .list el p :: after) q).getitem k = .error .typeError ∧
    (Conf.merged args (.list el p)).getitem k = .error .typeError := by
  constructor
  · unfold Conf.getitem
    rw [show before ++ .list el p :: after = before ++ [.list el p] ++ after by simp, fromLast_append _ _ _ h]
    have : Conf.fromLast (before ++ [.list el p]) k = some (.error .typeError) := by
      induction before with
      | nil => simp [Conf.fromLast, Conf.getitem]
      | cons c cs ih =>
        rw [List.cons_append]
        unfold Conf.fromLast
        rw [ih]
    rw [this]
  · rw [C113_outer args _ k ha]
    have : (Conf.list el p : Conf K V).truthy = true := by
      cases el with
      | nil => exact absurd rfl hel
      | cons => rfl
    rw [this, if_pos rfl]
    simp [Conf.getitem]

mutual
theorem keys_found (k : K) : ∀ c : Conf K V, Ordinary c → k ∈ c.keys → ∃ v, c.getitem k = .ok v
  | .none, h, _ => by unfold Ordinary at h; exact h.elim
  | .dict es p, _, hk => by
    unfold Conf.keys at hk
    obtain ⟨v, hv⟩ := lookup_mem_key es k hk
    refine ⟨v, ?_⟩
    unfold Conf.getitem Conf.inDicts
    rw [hv]
  | .list _ _, h, _ => by unfold Ordinary at h; exact h.elim
  | .merged args p, h, hk => by
    unfold Ordinary at h
    unfold Conf.keys at hk
    obtain ⟨v, hv⟩ := allKeys_found k args h.1 hk
    refine ⟨v, ?_⟩
    unfold Conf.getitem
    rw [hv]

theorem allKeys_found (k : K) : ∀ cs : List (Conf K V), AllOrdinary cs → k ∈ Conf.allKeys cs →
    ∃ v, Conf.fromLast cs k = some (.ok v)
  | [], _, hk => by simp [Conf.allKeys] at hk
  | c :: cs, h, hk => by
    unfold AllOrdinary at h
    unfold Conf.allKeys at hk
    unfold Conf.fromLast
    rcases args_answer (fun _ => .none) k cs h.2 with ⟨-, v, hv⟩ | ⟨-, hv⟩
    · exact ⟨v, by rw [hv]⟩
    · rcases List.mem_append.1 hk with hk | hk
      · obtain ⟨v, hv'⟩ := keys_found k c h.1 hk
        exact ⟨v, by rw [hv, hv']⟩
      · obtain ⟨v, hv'⟩ := allKeys_found k cs h.2 hk
        rw [hv] at hv'
        cases hv'
end

/-- C113: every key that `keys` gives can be looked up. -/
theorem C113_keys (c : Conf K V) (h : Ordinary c) (k : K) (hk : k ∈ c.keys) : ∃ v, c.getitem k = .ok v :=
  keys_found k c h hk

/-- C113: but not all that can be looked up are given: not what comes from around. -/
theorem C113_keys_refuted (args : List (Conf K V)) (ha : AllOrdinary args) (es : List (K × V)) (p : Conf K V) (k : K) (v : V)
    (h : ∀ e ∈ args, e.getitem k = .error .keyError) (hes : es.lookup k = some v) :
    (Conf.merged args (.dict es p)).getitem k = .ok v ∧ k ∉ (Conf.merged args (.dict es p)).keys := by
  constructor
  · rw [C113_outer args _ k h]
    have : (Conf.dict es p).truthy = true := by
      cases es with
      | nil => simp at hes
      | cons => rfl
    rw [this, if_pos rfl]
    unfold Conf.getitem Conf.inDicts
    rw [hes]
  · intro hk
    unfold Conf.keys at hk
    obtain ⟨v, hv⟩ := allKeys_found k args ha hk
    rw [fromLast_none _ _ h] at hv
    cases hv

/-- C113: a copy of layers has what the layers have, and the same keys. -/
theorem C113_copy (args : List (Conf K V)) (p : Conf K V) (k : K) :
    (Conf.merged args p).copy.keys = (Conf.merged args p).keys ∧
    ((∃ e ∈ args, e.getitem k ≠ .error .keyError) →
      (Conf.merged args p).copy.getitem k = (Conf.merged args p).getitem k) := by
  refine ⟨by simp [Conf.copy, Conf.keys], ?_⟩
  rintro ⟨e, he, hne⟩
  unfold Conf.copy Conf.getitem
  suffices h : Conf.fromLast args k ≠ .none by
    cases hf : Conf.fromLast args k with
    | none => exact absurd hf h
    | some r => rfl
  induction args with
  | nil => simp at he
  | cons c cs ih =>
    unfold Conf.fromLast
    cases hf : Conf.fromLast cs k with
    | some r => simp
    | none =>
      rcases List.mem_cons.1 he with rfl | he
      · simp only
        cases hg : e.getitem k with
        | ok v => simp
        | error x =>
          cases x with
          | keyError => exact absurd hg hne
          | typeError => simp
      · exact absurd hf (ih he)

/-- C113: but nothing of what is around. -/
theorem C113_copy_refuted (args : List (Conf K V)) (p : Conf K V) (k : K)
    (h : ∀ e ∈ args, e.getitem k = .error .keyError) : (Conf.merged args p).copy.getitem k = .error .keyError := by
  show (Conf.merged args .none).getitem k = _
  rw [C113_outer args _ k h]
  rfl

/-- C113: an empty dictionary around the layers hides everything around it, though it does not for a dictionary. -/
theorem C113_empty_refuted (asKey : V → Option K) (args : List (Conf K V)) (es os : List (K × V)) (p : Conf K V) (k : K)
    (v : V) (h : ∀ e ∈ args, e.getitem k = .error .keyError) (hes : es.lookup k = .none) (hos : os.lookup k = some v) :
    (Conf.merged args (.dict [] (.dict os p))).getitem k = .error .keyError ∧
    (Conf.dict es (.dict [] (.dict os p))).getitem k = .ok v ∧
    (Conf.dict es (.dict [] (.dict os p))).contains asKey k = false := by
  refine ⟨?_, ?_, ?_⟩
  · rw [C113_outer args _ k h]
    rfl
  · simp [Conf.getitem, Conf.inDicts, hes, hos]
  · unfold Conf.contains
    rw [hes]
    rfl

/-- C113: layers and lists around a dictionary are passed over when it is looked up. -/
theorem C113_past (args : List (Conf K V)) (el : List V) (es : List (K × V)) (p : Conf K V) (k : K) :
    (Conf.dict es (.merged args p)).getitem k = (Conf.dict es p).getitem k ∧
    (Conf.dict es (.list el p)).getitem k = (Conf.dict es p).getitem k := by
  constructor <;> simp [Conf.getitem, Conf.inDicts]

/-- C113: but the layers are not passed over by `in`. -/
theorem C113_around_refuted (asKey : V → Option K) (args : List (Conf K V)) (es : List (K × V)) (p : Conf K V) (k : K)
    (hp : (Conf.dict es p).getitem k = .error .keyError) (hk : ∃ e ∈ args, e.contains asKey k = true) :
    (Conf.dict es (.merged args p)).getitem k = .error .keyError ∧
    (Conf.dict es (.merged args p)).contains asKey k = true := by
  constructor
  · rw [(C113_past args [] es p k).1, hp]
  · have : Conf.anyContains asKey args k = true := by
      obtain ⟨e, he, hc⟩ := hk
      induction args with
      | nil => simp at he
      | cons c cs ih =>
        unfold Conf.anyContains
        rcases List.mem_cons.1 he with rfl | he
        · rw [hc, Bool.true_or]
        · rw [ih he, Bool.or_true]
    simp [Conf.contains, Conf.truthy, this]

/-! ### Concrete cases -/

/-- Settings of a user over those of a group, in a file. -/
def settings : Conf String Nat :=
  .merged [.dict [("a", 1), ("b", 2)] .none, .dict [("b", 3)] (.dict [("a", 4)] .none)] (.dict [("c", 5)] .none)

/-- `settings` meets the hypothesis of `C113_contains`; `a` is found around the last argument. -/
example : Ordinary settings ∧ settings.getitem "a" = .ok 4 ∧ settings.getitem "b" = .ok 3 ∧ settings.getitem "c" = .ok 5 ∧
    settings.getitem "d" = .error .keyError ∧ settings.copy.getitem "c" = .error .keyError ∧ settings.keys = ["a", "b", "b"] := by
  refine ⟨by simp [settings, Ordinary, AllOrdinary, Chain, Conf.truthy], ?_, ?_, ?_, ?_, ?_, ?_⟩ <;>
    simp [settings, Conf.getitem, Conf.fromLast, Conf.inDicts, Conf.truthy, Conf.copy, Conf.keys, Conf.allKeys, List.lookup]

/-- The hypotheses of `C113_empty_refuted`, `C113_around_refuted` and `C113_list` hold for simple settings. -/
example : (Conf.merged [.dict [("a", 1)] .none] (.dict [] (.dict [("c", 5)] .none)) : Conf String Nat).getitem "c" =
    .error .keyError :=
  (C113_empty_refuted (fun _ => none) [.dict [("a", 1)] .none] [] [("c", 5)] .none "c" 5
    (by intro e he; rw [List.mem_singleton] at he; subst he; simp [Conf.getitem, Conf.inDicts, List.lookup]) rfl rfl).1

example : (Conf.dict [] (.merged [.dict [("a", 1)] .none] .none) : Conf String Nat).contains (fun _ => none) "a" = true :=
  (C113_around_refuted (fun _ => none) [.dict [("a", 1)] .none] [] .none "a" (by simp [Conf.getitem, Conf.inDicts])
    ⟨_, List.mem_singleton.2 rfl, by decide +kernel⟩).2

example : (Conf.merged [.list [7] .none, .dict [("a", 1)] .none] .none : Conf String Nat).getitem "c" = .error .typeError :=
  (C113_list [] [.dict [("a", 1)] .none] [] [7] .none .none "c"
    (by intro e he; rw [List.mem_singleton] at he; subst he; simp [Conf.getitem, Conf.inDicts, List.lookup]) (by simp)
    (by simp)).1

end Layers
end Config
end HF
