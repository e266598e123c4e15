import Verif.Readers.Stream
import Mathlib.Data.List.Forall2
/-
C20: the combinators consume a prefix of the stream and return values for exactly the
consumed tokens in order.
-/
namespace HF.Readers

variable {τ α γ : Type} [DecidableEq τ]

theorem manyLoop_eq (name : τ) (f : α → γ) (s : Stream τ α) (t : Token τ α) (acc : List γ) :
    manyLoop name f s t acc =
      (acc ++ ((t :: s).takeWhile fun t => t.tag = name).map (fun t => f t.rad),
       (t :: s).dropWhile fun t => t.tag = name) := by
  induction s generalizing t acc with
  | nil =>
    rw [manyLoop]
    by_cases h : t.tag = name <;> simp [h, push]
  | cons u s ih =>
    rw [manyLoop]
    by_cases h : t.tag = name
    · simp only [h, if_true]; rw [ih]; simp [h]
    · simp [h, push]

/-- C20: on a stream that is not at its end `ManyOptional` returns the converted values of the
longest prefix of tokens with the wanted tag; the first other token stays available. -/
theorem C20_many (name : τ) (f : α → γ) (s : Stream τ α) (hs : s ≠ []) :
    ∃ consumed rest, s = consumed ++ rest
      ∧ manyOptional name f s = (.ok (consumed.map fun t => f t.rad), rest)
      ∧ (∀ t ∈ consumed, t.tag = name)
      ∧ (∀ t, rest.head? = some t → t.tag ≠ name) := by
  cases s with
  | nil => exact absurd rfl hs
  | cons t s =>
    refine ⟨(t :: s).takeWhile fun t => t.tag = name, (t :: s).dropWhile fun t => t.tag = name,
      (List.takeWhile_append_dropWhile).symm, ?_, ?_, ?_⟩
    · simp only [manyOptional, next, manyLoop_eq, List.nil_append]
    · intro u hu
      have := List.all_takeWhile (p := fun t : Token τ α => decide (t.tag = name)) (l := t :: s)
      simpa using List.all_eq_true.1 this u hu
    · intro u hu
      have := List.head?_dropWhile_not (p := fun t : Token τ α => decide (t.tag = name)) (t :: s)
      rw [hu] at this
      simpa using this

example : manyOptional 1 (· + 10) [⟨1, 5⟩, ⟨1, 6⟩, ⟨2, 7⟩, ⟨1, 8⟩] =
    ((.ok [15, 16], [⟨2, 7⟩, ⟨1, 8⟩]) : Except Err (List Nat) × Stream Nat Nat) := by
  simp [manyOptional, next, manyLoop, push]

/-- C20: at the end of the stream `ManyOptional` does not return the empty list but raises
`StopIteration`. -/
theorem C20_many_at_end_refuted (name : τ) (f : α → γ) :
    manyOptional name f ([] : Stream τ α) = (.error .stopIteration, []) := rfl

/-- C20: `Optional` returns the value of the first token if it has the wanted tag, and
otherwise returns nothing and leaves the stream as it was; it never fails. -/
theorem C20_optional (name : τ) (f : α → γ) (s : Stream τ α) :
    (∃ t rest, s = t :: rest ∧ t.tag = name ∧ optional name f s = (.ok (some (f t.rad)), rest))
    ∨ ((∀ t, s.head? = some t → t.tag ≠ name) ∧ optional name f s = (.ok none, s)) := by
  cases s with
  | nil => right; simp [optional, next]
  | cons t s =>
    by_cases h : t.tag = name
    · left; exact ⟨t, s, rfl, h, by simp [optional, next, h]⟩
    · right; simp [optional, next, h, push]

example : optional 1 (· + 10) [⟨2, 7⟩, ⟨1, 8⟩] =
    ((.ok none, [⟨2, 7⟩, ⟨1, 8⟩]) : Except Err (Option Nat) × Stream Nat Nat) := by
  simp [optional, next, push]

/-- C20: `OneOf`/`One` return exactly the first token's text if its tag is wanted and consume
that token; otherwise an exception is raised. -/
theorem C20_oneOf (names : List τ) (t : Token τ α) (rest : Stream τ α) :
    (t.tag ∈ names → oneOf names (t :: rest) = (.ok [t.rad], rest))
    ∧ (t.tag ∉ names → (oneOf names (t :: rest)).1 = .error .exception)
    ∧ oneOf names ([] : Stream τ α) = (.error .stopIteration, []) := by
  refine ⟨fun h => ?_, fun h => ?_, rfl⟩ <;> simp [oneOf, next, h]

/-- C20: `One` is `OneOf` a single tag. -/
theorem C20_one (name : τ) (t : Token τ α) (rest : Stream τ α) :
    (t.tag = name → one name (t :: rest) = (.ok [t.rad], rest))
    ∧ (t.tag ≠ name → (one name (t :: rest)).1 = .error .exception) := by
  constructor <;> intro h <;> simp [one, oneOf, next, h]

/-- C20: a token rejected by `OneOf` is lost: unlike the other combinators it does not put it
back. -/
theorem C20_rejected_token_lost_refuted (names : List τ) (t : Token τ α) (rest : Stream τ α)
    (h : t.tag ∉ names) : oneOf names (t :: rest) = (.error .exception, rest) := by
  simp [oneOf, next, h]

/-- C20: `ExpectEndOfFile` accepts the empty stream only. -/
theorem C20_expectEnd (s : Stream τ α) : (expectEnd s).1 = .ok () ↔ s = [] := by
  cases s <;> simp [expectEnd, next]

/-! ### Whole parsers -/

/-- Specification of a combinator that succeeds: the tokens it takes, and what it returns. -/
def Takes : Comb τ α → List (Token τ α) → List α → Prop
  | .many n f, seg, r => (∀ t ∈ seg, t.tag = n) ∧ r = seg.map fun t => f t.rad
  | .opt n f, seg, r => seg.length ≤ 1 ∧ (∀ t ∈ seg, t.tag = n) ∧ r = seg.map fun t => f t.rad
  | .oneOf ns, seg, r => seg.length = 1 ∧ (∀ t ∈ seg, t.tag ∈ ns) ∧ r = seg.map Token.rad
  | .expectEnd, seg, r => seg = [] ∧ r = []

/-- Specification: no further token is wanted by the combinator (`OneOf` takes exactly one and
`Optional` at most one, so there the count decides). -/
def Maximal : Comb τ α → List (Token τ α) → Stream τ α → Prop
  | .many n _, _, rest => ∀ t, rest.head? = some t → t.tag ≠ n
  | .opt n _, seg, rest => seg = [] → ∀ t, rest.head? = some t → t.tag ≠ n
  | .oneOf _, _, _ => True
  | .expectEnd, _, rest => rest = []

theorem comb_ok (c : Comb τ α) (s rest : Stream τ α) (r : List α)
    (h : c.run s = (.ok r, rest)) :
    ∃ seg, s = seg ++ rest ∧ Takes c seg r ∧ Maximal c seg rest := by
  cases c with
  | many n f =>
    by_cases hs : s = []
    · subst hs; simp [Comb.run, manyOptional, next] at h
    · obtain ⟨seg, rest', h1, h2, h3, h4⟩ := C20_many n f s hs
      simp only [Comb.run, h2, Prod.mk.injEq, Except.ok.injEq] at h
      obtain ⟨rfl, rfl⟩ := h
      exact ⟨seg, h1, ⟨h3, rfl⟩, h4⟩
  | opt n f =>
    rcases C20_optional n f s with ⟨t, rest', h1, h2, h3⟩ | ⟨h1, h2⟩
    · simp only [Comb.run, h3, Prod.mk.injEq, Except.ok.injEq] at h
      obtain ⟨rfl, rfl⟩ := h
      exact ⟨[t], by simpa using h1, by simp [Takes, h2], by simp [Maximal]⟩
    · simp only [Comb.run, h2, Prod.mk.injEq, Except.ok.injEq] at h
      obtain ⟨rfl, rfl⟩ := h
      exact ⟨[], by simp, by simp [Takes], fun _ => h1⟩
  | oneOf ns =>
    cases s with
    | nil => simp [Comb.run, oneOf, next] at h
    | cons t s =>
      by_cases hm : t.tag ∈ ns
      · simp only [Comb.run, oneOf, next, hm, if_true, Prod.mk.injEq, Except.ok.injEq] at h
        obtain ⟨rfl, rfl⟩ := h
        exact ⟨[t], by simp, by simp [Takes, hm], trivial⟩
      · simp [Comb.run, oneOf, next, hm] at h
  | expectEnd =>
    cases s with
    | nil =>
      simp only [Comb.run, expectEnd, next, Prod.mk.injEq, Except.ok.injEq] at h
      obtain ⟨rfl, rfl⟩ := h
      exact ⟨[], by simp, by simp [Takes], rfl⟩
    | cons t s => simp [Comb.run, expectEnd, next] at h

/-- One combinator, the tokens it took, its result and what came after it. -/
structure Step (τ α : Type) where
  comb : Comb τ α
  seg : List (Token τ α)
  out : List α
  rest : Stream τ α

/-- C20: for every parser written with the combinators and every stream: if it succeeds, the
stream is the concatenation of the segments taken by the combinators one after the other and
what is left; each combinator returned the values of exactly its segment in order and took as
much as it could.  No token is lost, duplicated or reordered. -/
theorem C20_parser (cs : List (Comb τ α)) (s rest : Stream τ α) (outs : List (List α))
    (h : runAll cs s = (.ok outs, rest)) :
    ∃ steps : List (Step τ α), steps.map Step.comb = cs ∧ steps.map Step.out = outs
      ∧ s = (steps.map Step.seg).flatten ++ rest
      ∧ (∀ st ∈ steps, Takes st.comb st.seg st.out ∧ Maximal st.comb st.seg st.rest)
      ∧ (∀ pre st post, steps = pre ++ st :: post →
          st.rest = (post.map Step.seg).flatten ++ rest) := by
  induction cs generalizing s outs with
  | nil =>
    simp only [runAll, Prod.mk.injEq, Except.ok.injEq] at h
    obtain ⟨rfl, rfl⟩ := h
    exact ⟨[], by simp⟩
  | cons c cs ih =>
    simp only [runAll] at h
    rcases hc : c.run s with ⟨r, s'⟩
    rw [hc] at h
    cases r with
    | error e => simp at h
    | ok r =>
      simp only at h
      rcases hcs : runAll cs s' with ⟨r', s''⟩
      rw [hcs] at h
      cases r' with
      | error e => simp at h
      | ok r' =>
        simp only [Prod.mk.injEq, Except.ok.injEq] at h
        obtain ⟨rfl, rfl⟩ := h
        obtain ⟨steps, h1, h2, h3, h4, h5⟩ := ih s' r' hcs
        obtain ⟨seg, g1, g2, g3⟩ := comb_ok c s s' r hc
        refine ⟨⟨c, seg, r, s'⟩ :: steps, by simp [h1], by simp [h2], ?_, ?_, ?_⟩
        · rw [g1, h3]; simp
        · intro st hst
          rcases List.mem_cons.1 hst with rfl | hst
          · exact ⟨g2, g3⟩
          · exact h4 st hst
        · intro pre st post hp
          cases pre with
          | nil =>
            simp only [List.nil_append, List.cons.injEq] at hp
            obtain ⟨rfl, rfl⟩ := hp
            exact h3
          | cons p pre =>
            simp only [List.cons_append, List.cons.injEq] at hp
            exact h5 pre st post hp.2

example : runAll [.oneOf ["HEAD"], .many "VAR" id, .opt "END" id, .expectEnd]
    [⟨"HEAD", "a"⟩, ⟨"VAR", "b"⟩, ⟨"VAR", "c"⟩, ⟨"END", "d"⟩] =
    (.ok [["a"], ["b", "c"], ["d"], []], []) := by
  simp [runAll, Comb.run, oneOf, manyOptional, optional, expectEnd, next, manyLoop, push]

/-- C20: a parser can only fail where `ManyOptional`/`OneOf` meet the end of the stream, `OneOf`
rejects a token, or the end of file is expected and there is a token left; whatever happens,
the stream that is left is a suffix of the stream it was given. -/
theorem C20_suffix (cs : List (Comb τ α)) (s : Stream τ α) :
    (runAll cs s).2 <:+ s := by
  have hcomb : ∀ (c : Comb τ α) (s : Stream τ α), (c.run s).2 <:+ s := by
    intro c s
    rcases hc : c.run s with ⟨r, s'⟩
    cases r with
    | ok r =>
      obtain ⟨seg, h, _⟩ := comb_ok c s s' r hc
      exact ⟨seg, h.symm⟩
    | error e =>
      cases s with
      | nil => cases c <;>
          simp [Comb.run, manyOptional, optional, oneOf, expectEnd, next] at hc <;> simp [hc]
      | cons t s =>
        cases c with
        | many n f => simp [Comb.run, manyOptional, next] at hc
        | opt n f =>
          by_cases h : t.tag = n <;> simp [Comb.run, optional, next, h] at hc
        | oneOf ns =>
          by_cases h : t.tag ∈ ns
          · simp [Comb.run, oneOf, next, h] at hc
          · simp only [Comb.run, oneOf, next, h, if_false, Prod.mk.injEq] at hc
            obtain ⟨_, rfl⟩ := hc
            exact List.suffix_cons _ _
        | expectEnd =>
          simp only [Comb.run, expectEnd, next, Prod.mk.injEq] at hc
          obtain ⟨_, rfl⟩ := hc
          exact List.suffix_cons _ _
  induction cs generalizing s with
  | nil => exact List.suffix_refl _
  | cons c cs ih =>
    have h1 := hcomb c s
    simp only [runAll]
    generalize c.run s = x at h1 ⊢
    obtain ⟨r, s'⟩ := x
    cases r with
    | error e => exact h1
    | ok r =>
      have h2 := ih s'
      simp only at h1 ⊢
      generalize runAll cs s' = y at h2 ⊢
      obtain ⟨r', s''⟩ := y
      cases r' <;> exact h2.trans h1

end HF.Readers
