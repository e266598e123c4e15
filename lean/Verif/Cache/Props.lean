import Verif.Cache.Model
/-
C39: reading through the cache.
-/
namespace HF.Cache

variable {δ : Type}

/-! ### Specification -/

/-- The cache file an operation is about. -/
def Op.key : Op δ → Option Key
  | .editSource _ _ => none
  | .enter f c d _ _ => some (keyOf f c d)
  | .readFrom c d => some (d, c)

/-- Asks for rereading. -/
def Op.rereads : Op δ → Bool
  | .enter _ _ _ r _ => r
  | _ => false

/-- Body and save are completed. -/
def Op.completes (env : Env δ) : Op δ → Prop
  | .enter _ _ _ _ (.done f killed) => killed = false ∧ ∀ d, env.storable (f d) = true
  | .enter _ _ _ _ .raises => False
  | _ => True

/-- Data came from the source. -/
def Out.fresh : Out δ → Bool
  | .yielded _ f _ => f
  | _ => false

/-- The data an operation gave to its caller. -/
def Out.got : Out δ → Option δ
  | .yielded d _ _ => some d
  | .data d => some d
  | _ => none

/-! ### C39 -/

/-- C39: without a cache file, or when asked to reread, the source is read; the data as the body
left it is stored. -/
theorem C39_miss (env : Env δ) (s : State δ) (filename : List Char) (cn : Option (List Char))
    (dir : List Char) (reread : Bool) (f : δ → δ) (d : δ)
    (hm : s.cache (keyOf filename cn dir) = none ∨ reread = true)
    (hs : s.source filename = some d) (hst : env.storable (f d) = true) :
    let r := step env s (.enter filename cn dir reread (.done f false))
    r.2 = .yielded d true true ∧ r.1.cache (keyOf filename cn dir) = some (.full (f d)) ∧
      r.1.source = s.source := by
  have : ((s.cache (keyOf filename cn dir)).isNone || reread) = true := by
    rcases hm with h | h <;> simp [h]
  simp [step, this, hs, hst, put]

/-- C39: otherwise the stored data is given, the source is not looked at, and nothing changes,
whatever the body does to the data. -/
theorem C39_hit (env : Env δ) (s : State δ) (filename : List Char) (cn : Option (List Char))
    (dir : List Char) (body : Body δ) (d : δ)
    (hc : s.cache (keyOf filename cn dir) = some (.full d)) :
    let r := step env s (.enter filename cn dir false body)
    r.1 = s ∧ ∃ ok, r.2 = .yielded d false ok := by
  cases body <;> simp [step, hc, load]

/-- C39: if the body raises (or the process dies in it), nothing is stored. -/
theorem C39_body_raises (env : Env δ) (s : State δ) (filename : List Char)
    (cn : Option (List Char)) (dir : List Char) (reread : Bool) :
    (step env s (.enter filename cn dir reread .raises)).1 = s := by
  simp only [step]
  split
  · split <;> rfl
  · split <;> rfl

/-- C39: no operation changes the cache files of other names, not even when it is interrupted. -/
theorem C39_other_names (env : Env δ) (s : State δ) (op : Op δ) (k : Key) (hk : op.key ≠ some k) :
    (step env s op).1.cache k = s.cache k := by
  cases op with
  | editSource p d => rfl
  | readFrom c d => simp only [step]; split <;> rfl
  | enter filename cn dir reread body =>
    have hk' : k ≠ keyOf filename cn dir := fun e => hk (by rw [e]; rfl)
    simp only [step]
    split
    · split
      · rfl
      · split
        · rfl
        · split <;> simp [put, hk']
    · split
      · rfl
      · split <;> rfl

theorem step_full (env : Env δ) (s : State δ) (op : Op δ) (k : Key) (d : δ)
    (hc : s.cache k = some (.full d)) (hr : op.key = some k → op.rereads = false) :
    (step env s op).1.cache k = some (.full d) ∧
    (op.key = some k → (step env s op).2.got = some d ∧ (step env s op).2.fresh = false) := by
  by_cases hk : op.key = some k
  · cases op with
    | editSource p d => simp [Op.key] at hk
    | readFrom c d' =>
      simp only [Op.key, Option.some.injEq] at hk
      subst hk
      simp [step, hc, load, Out.got, Out.fresh]
    | enter filename cn dir reread body =>
      have hrr := hr hk
      simp only [Op.rereads] at hrr
      simp only [Op.key, Option.some.injEq] at hk
      subst hk; subst hrr
      obtain ⟨h1, ok, h2⟩ := C39_hit env s filename cn dir body d hc
      rw [h1, h2]
      exact ⟨hc, fun _ => ⟨rfl, rfl⟩⟩
  · exact ⟨by rw [C39_other_names env s op k hk]; exact hc, fun h => absurd h hk⟩

/-- C39: once data is stored under a name it is what every later read under this name gives,
whatever happens in between to the sources and to other names, as long as nobody asks for
rereading under this name.  (So changes of the source are not noticed.) -/
theorem C39_stable (env : Env δ) (k : Key) (d : δ) (ops : List (Op δ)) :
    ∀ s : State δ, s.cache k = some (.full d) →
    (∀ op ∈ ops, op.key = some k → op.rereads = false) →
    (run env s ops).cache k = some (.full d) ∧
    ∀ p ∈ ops.zip (outs env s ops), p.1.key = some k → p.2.got = some d ∧ p.2.fresh = false := by
  induction ops with
  | nil => intro s hc _; exact ⟨hc, by simp [outs]⟩
  | cons op ops ih =>
    intro s hc hr
    obtain ⟨h1, h2⟩ := step_full env s op k d hc (hr op (by simp))
    obtain ⟨h3, h4⟩ := ih _ h1 fun o ho => hr o (by simp [ho])
    refine ⟨h3, ?_⟩
    simp only [outs, List.zip_cons_cons, List.mem_cons, forall_eq_or_imp]
    exact ⟨h2, h4⟩

/-- The number of times data for the name `k` was taken from a source. -/
def freshCount (k : Key) (h : List (Op δ × Out δ)) : Nat :=
  (h.filter fun p => decide (p.1.key = some k) && p.2.fresh).length

theorem freshCount_zero (k : Key) (h : List (Op δ × Out δ))
    (hf : ∀ p ∈ h, p.1.key = some k → p.2.fresh = false) : freshCount k h = 0 := by
  simp only [freshCount, List.length_eq_zero_iff, List.filter_eq_nil_iff, Bool.and_eq_true,
    decide_eq_true_eq, not_and]
  intro p hp hk
  simp [hf p hp hk]

/-- C39: if every body and save is completed and nobody asks for rereading, the source of a name is
read at most once, however long the history. -/
theorem C39_read_once (env : Env δ) (k : Key) (ops : List (Op δ)) :
    ∀ s : State δ, (s.cache k = none ∨ ∃ d, s.cache k = some (.full d)) →
    (∀ op ∈ ops, op.key = some k → op.rereads = false ∧ op.completes env) →
    freshCount k (ops.zip (outs env s ops)) ≤ 1 := by
  induction ops with
  | nil => intro s _ _; simp [outs, freshCount]
  | cons op ops ih =>
    intro s hc hr
    by_cases hfull : ∃ d, s.cache k = some (.full d)
    · obtain ⟨d, hd⟩ := hfull
      have := (C39_stable env k d (op :: ops) s hd fun o ho hk => (hr o ho hk).1).2
      rw [freshCount_zero k _ fun p hp hk => (this p hp hk).2]
      omega
    · have hn : s.cache k = none := by
        rcases hc with h | h
        · exact h
        · exact absurd h hfull
      by_cases hk : op.key = some k
      · -- the operation either stores the data or leaves everything as it is
        have hcases : (∃ d, (step env s op).1.cache k = some (.full d)) ∨
            ((step env s op).1.cache k = none ∧ (step env s op).2.fresh = false) := by
          obtain ⟨_, hcomp⟩ := hr op (by simp) hk
          cases op with
          | editSource p d => simp [Op.key] at hk
          | readFrom c d' =>
            right
            simp only [Op.key, Option.some.injEq] at hk
            subst hk
            simp [step, hn, Out.fresh]
          | enter filename cn dir reread body =>
            simp only [Op.key, Option.some.injEq] at hk
            subst hk
            cases body with
            | raises => exact absurd hcomp (by simp [Op.completes])
            | done f killed =>
              obtain ⟨rfl, hst⟩ := hcomp
              cases hs : s.source filename with
              | none => right; simp [step, hn, hs, Out.fresh]
              | some d =>
                left
                exact ⟨f d, (C39_miss env s filename cn dir reread f d (Or.inl hn) hs (hst d)).2.1⟩
        rcases hcases with ⟨d, hd⟩ | ⟨h1, h2⟩
        · have := (C39_stable env k d ops _ hd fun o ho hk => (hr o (by simp [ho]) hk).1).2
          have hz := freshCount_zero k _ fun p hp hk => (this p hp hk).2
          simp only [freshCount, outs, List.zip_cons_cons, List.filter_cons] at hz ⊢
          split <;> simp [hz]
        · have := ih _ (Or.inl h1) fun o ho => hr o (by simp [ho])
          simp only [freshCount, outs, List.zip_cons_cons, List.filter_cons, h2, Bool.and_false] at this ⊢
          simpa using this
      · have := ih (step env s op).1 (Or.inl (by rw [C39_other_names env s op k hk, hn]))
          fun o ho => hr o (by simp [ho])
        simp only [freshCount, outs, List.zip_cons_cons, List.filter_cons, hk, decide_false,
          Bool.false_and] at this ⊢
        simpa using this

/-- C39: in any history from empty caches, interrupted or not, a cache file that can be said to be
complete holds what some completed body left of data read from a source under this name. -/
theorem C39_origin (env : Env δ) (k : Key) (ops : List (Op δ)) :
    ∀ s : State δ, s.cache k = none → ∀ d, (run env s ops).cache k = some (.full d) →
    ∃ pre filename cn dir reread f post d0, ops = pre ++ .enter filename cn dir reread (.done f false) :: post ∧
      keyOf filename cn dir = k ∧ (run env s pre).source filename = some d0 ∧ d = f d0 ∧
      env.storable d = true := by
  have key : ∀ (ops : List (Op δ)) (s : State δ) d, (run env s ops).cache k = some (.full d) →
      s.cache k = some (.full d) ∨
      ∃ pre filename cn dir reread f post d0, ops = pre ++ .enter filename cn dir reread (.done f false) :: post ∧
      keyOf filename cn dir = k ∧ (run env s pre).source filename = some d0 ∧ d = f d0 ∧
      env.storable d = true := by
    intro ops
    induction ops with
    | nil => intro s d h; exact Or.inl h
    | cons op ops ih =>
      intro s d h
      rcases ih _ d h with h1 | ⟨pre, fn, cn, dir, rr, f, post, d0, e, h2, h3, h4⟩
      · by_cases hk : op.key = some k
        · cases op with
          | editSource p d => simp [Op.key] at hk
          | readFrom c d' =>
            left
            simp only [step] at h1
            split at h1 <;> exact h1
          | enter filename cn dir reread body =>
            simp only [Op.key, Option.some.injEq] at hk
            cases body with
            | raises => left; rw [C39_body_raises] at h1; exact h1
            | done f killed =>
              by_cases hmiss : ((s.cache (keyOf filename cn dir)).isNone || reread) = true
              · cases hs : s.source filename with
                | none => left; simpa [step, hmiss, hs] using h1
                | some d0 =>
                  by_cases hko : (killed || !env.storable (f d0)) = true
                  · simp only [step, hmiss, hs, hko, if_true] at h1
                    simp [put, hk] at h1
                  · rw [Bool.not_eq_true] at hko
                    simp only [step, hmiss, hs, hko, if_true, Bool.false_eq_true, if_false] at h1
                    simp [put, hk] at h1
                    simp at hko
                    right
                    refine ⟨[], filename, cn, dir, reread, f, ops, d0, ?_, hk, hs, h1.symm, ?_⟩
                    · simp [hko.1]
                    · rw [← h1]; exact hko.2
              · left
                rw [Bool.not_eq_true] at hmiss
                simp only [step, hmiss, Bool.false_eq_true, if_false] at h1
                split at h1 <;> exact h1
        · left; rw [C39_other_names env s op k hk] at h1; exact h1
      · right
        exact ⟨op :: pre, fn, cn, dir, rr, f, post, d0, by simp [e], h2, h3, h4⟩
  intro s hn d h
  rcases key ops s d h with h' | h'
  · rw [hn] at h'; simp at h'
  · exact h'

/-- C39: the name of the cache file if none is given: directories and the extension are taken off; the
extension begins with the last dot, but not with the dots at the beginning of the name. -/
theorem C39_name (d n e dir : List Char) (hd : d = [] ∨ d.getLast? = some '/') (hn : '/' ∉ n) (he : '/' ∉ e)
    (he' : '.' ∉ e) :
    keyOf (d ++ n ++ '.' :: e) none dir = (dir, if ∀ c ∈ n, c = '.' then n ++ '.' :: e else n) ∧
      ('.' ∉ n → keyOf (d ++ n) none dir = (dir, n)) := by
  have hb : ∀ x : List Char, '/' ∉ x → basename (d ++ x) = x := by
    intro x hx
    unfold basename
    rw [List.reverse_append]
    have h1 : ∀ c ∈ x.reverse, (decide (c ≠ '/')) = true := by
      intro c hc
      simp only [ne_eq, decide_not, Bool.not_eq_eq_eq_not, Bool.not_true, decide_eq_false_iff_not]
      rintro rfl
      exact hx (List.mem_reverse.1 hc)
    rw [List.takeWhile_append_of_pos h1]
    rcases hd with rfl | hd
    · simp
    · obtain ⟨ys, rfl⟩ := List.getLast?_eq_some_iff.1 hd
      simp
  constructor
  · have hs : '/' ∉ n ++ '.' :: e := by simp [hn, he]
    have hdw : (n ++ '.' :: e).reverse.dropWhile (fun c => decide (c ≠ '.')) = '.' :: n.reverse := by
      rw [List.reverse_append, List.reverse_cons, List.append_assoc]
      have h1 : ∀ c ∈ e.reverse, (decide (c ≠ '.')) = true := by
        intro c hc
        simp only [ne_eq, decide_not, Bool.not_eq_eq_eq_not, Bool.not_true, decide_eq_false_iff_not]
        rintro rfl
        exact he' (List.mem_reverse.1 hc)
      rw [List.dropWhile_append_of_pos h1]
      simp
    simp only [keyOf, namebase, List.append_assoc]
    rw [hb _ hs]
    unfold stem
    simp only [hdw, List.drop_succ_cons, List.drop_zero, List.reverse_reverse]
    by_cases hall : ∀ c ∈ n, c = '.'
    · rw [if_pos hall, if_neg]
      simp only [List.any_reverse, List.any_eq_true, decide_eq_true_eq, not_and, not_exists]
      intro _ c hc
      simpa using hall c hc
    · rw [if_neg hall, if_pos]
      refine ⟨by simp, ?_⟩
      obtain ⟨c, hc, hne⟩ : ∃ c, c ∈ n ∧ c ≠ '.' := by
        apply Classical.byContradiction
        intro hno
        exact hall fun c hc => Classical.byContradiction fun hne => hno ⟨c, hc, hne⟩
      rw [List.any_reverse, List.any_eq_true]
      exact ⟨c, hc, by simpa using hne⟩
  · intro hdot
    simp only [keyOf, namebase]
    rw [hb n hn]
    unfold stem
    simp [hdot]

example : keyOf "a/.b/x.y.s2p".toList none ['c'] = (['c'], "x.y".toList) ∧
    keyOf "a/.s2p".toList none ['c'] = (['c'], ".s2p".toList) := by decide +kernel

/-! ### What goes wrong -/

/-- C39: two sources with the same name apart from directory and extension share one cache file: the
second is never read. -/
theorem C39_collision_refuted (env : Env δ) (s : State δ) (p1 p2 dir : List Char)
    (hb : namebase p1 = namebase p2) (d1 : δ) (hst : env.storable d1 = true)
    (hn : ∀ k, s.cache k = none) (h1 : s.source p1 = some d1) :
    outs env s [.enter p1 none dir false (.done id false),
      .enter p2 none dir false (.done id false)] =
      [.yielded d1 true true, .yielded d1 false true] := by
  have hk : keyOf p2 none dir = keyOf p1 none dir := by simp only [keyOf, hb]
  obtain ⟨m1, m2, m3⟩ := C39_miss env s p1 none dir false id d1 (Or.inl (hn _)) h1 hst
  simp only [outs, m1, List.cons.injEq, true_and, and_true]
  generalize step env s (.enter p1 none dir false (.done id false)) = r at m2 ⊢
  rw [← hk] at m2
  simp [step, m2, load]

example : namebase "a/x.s2p".toList = namebase "b/x.citi".toList ∧
    namebase "/home/a/.x.tar.gz".toList = ".x.tar".toList ∧ namebase "a/.x".toList = ".x".toList := by
  decide +kernel

/-- C39: a save that fails after a successful read destroys what was stored before, and later reads
without rereading are at the mercy of the incomplete file. -/
theorem C39_failed_save_refuted (env : Env δ) (s : State δ) (k : Key) (filename dir : List Char)
    (hk : keyOf filename none dir = k) (old new : δ)
    (_hc : s.cache k = some (.full old)) (hs : s.source filename = some new)
    (hst : env.storable new = false) (hp : env.readPart new = none) :
    outs env s [.enter filename none dir true (.done id false),
      .enter filename none dir false (.done id false)] =
      [.yielded new true false, .failed] := by
  subst hk
  have h1 : step env s (.enter filename none dir true (.done id false)) =
      (put s (keyOf filename none dir) (.part new), .yielded new true false) := by
    simp [step, hs, hst]
  simp only [outs, h1]
  simp [step, put, load, hp]

/-! ### The hypotheses are met -/

def envN : Env Nat := ⟨fun _ => true, fun _ => none⟩

def s0 : State Nat := ⟨fun p => if p = "a/x.s2p".toList then some 1 else
  if p = "b/x.citi".toList then some 2 else none, fun _ => none⟩

/-- a history: read and change, edit the source, read twice, read the other file with the same base
name -/
def hist : List (Op Nat) :=
  [.enter "a/x.s2p".toList none ['c'] false (.done (· + 10) false), .editSource "a/x.s2p".toList (some 5),
    .enter "a/x.s2p".toList none ['c'] false (.done (· + 10) false), .readFrom ['x'] ['c'],
    .enter "b/x.citi".toList none ['c'] false (.done id false)]

example : outs envN s0 hist = [.yielded 1 true true, .unit, .yielded 11 false true, .data 11,
    .yielded 11 false true] := by decide +kernel

example : freshCount (['c'], ['x']) (hist.zip (outs envN s0 hist)) ≤ 1 := by
  refine C39_read_once envN _ hist s0 (Or.inl rfl) ?_
  intro op hop _
  simp only [hist, List.mem_cons, List.not_mem_nil, or_false] at hop
  rcases hop with rfl | rfl | rfl | rfl | rfl <;> simp [Op.rereads, Op.completes, envN]

end HF.Cache
