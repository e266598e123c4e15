import Verif.Logger.Model
/-
C40: after any history at most one stderr handler, printing iff started, application handlers
untouched.
-/
namespace HF
namespace Logger

/-- Specification: the stream that messages go to, if any.  It only looks at the history:
started and not stopped since, to whatever `sys.stderr` was at the start. -/
structure Abs where
  stderr : Nat
  out : Option Nat

def Abs.step (a : Abs) : Op → Abs
  | .start => ⟨a.stderr, some (a.out.getD a.stderr)⟩
  | .stop => ⟨a.stderr, none⟩
  | .redirect t => ⟨t, a.out⟩
  | .add _ => a
  | .remove _ => a

/-- Specification: what the application's own attach/detach calls produce. -/
def appStep (l : List Nat) : Op → List Nat
  | .add i => if i ∈ l then l else l ++ [i]
  | .remove i => l.erase i
  | _ => l

@[simp] theorem streamOf_app (i : Nat) : streamOf (.app i) = none := rfl
@[simp] theorem streamOf_null : streamOf .null = none := rfl
@[simp] theorem streamOf_stream (i t : Nat) : streamOf (.stream i t) = some t := rfl
@[simp] theorem appOf_app (i : Nat) : appOf (.app i) = some i := rfl
@[simp] theorem appOf_null : appOf .null = none := rfl
@[simp] theorem appOf_stream (i t : Nat) : appOf (.stream i t) = none := rfl

theorem printed_erase_app (l : List Handler) (i : Nat) :
    (l.erase (Handler.app i)).filterMap streamOf =
      l.filterMap streamOf := by
  induction l with
  | nil => rfl
  | cons h t ih =>
    by_cases e : h = Handler.app i
    · subst e; simp [List.filterMap_cons]
    · rw [List.erase_cons_tail (by simpa using e)]
      simp only [List.filterMap_cons, ih]

theorem app_erase_app (l : List Handler) (i : Nat) :
    (l.erase (Handler.app i)).filterMap appOf =
      (l.filterMap appOf).erase i := by
  induction l with
  | nil => rfl
  | cons h t ih =>
    by_cases e : h = Handler.app i
    · subst e; simp [List.filterMap_cons]
    · rw [List.erase_cons_tail (by simpa using e)]
      cases h with
      | null => simp [List.filterMap_cons, ih]
      | stream => simp [List.filterMap_cons, ih]
      | app j =>
        have : j ≠ i := fun h => e (by rw [h])
        simp [List.filterMap_cons, ih, List.erase_cons_tail, this]

theorem app_erase_stream (l : List Handler) (i t : Nat) :
    (l.erase (Handler.stream i t)).filterMap appOf =
      l.filterMap appOf := by
  induction l with
  | nil => rfl
  | cons h t ih =>
    by_cases e : h = Handler.stream i ‹_›
    · subst e; simp [List.filterMap_cons]
    · rw [List.erase_cons_tail (by simpa using e)]
      simp only [List.filterMap_cons, ih]

def isStream : Handler → Bool
  | .stream _ _ => true
  | _ => false

@[simp] theorem isStream_app (i : Nat) : isStream (.app i) = false := rfl
@[simp] theorem isStream_null : isStream .null = false := rfl
@[simp] theorem isStream_stream (i t : Nat) : isStream (.stream i t) = true := rfl

theorem filter_erase_stream (l : List Handler) (i t : Nat) :
    (l.erase (Handler.stream i t)).filter isStream = (l.filter isStream).erase (.stream i t) := by
  induction l with
  | nil => rfl
  | cons h l ih =>
    by_cases e : h = Handler.stream i t
    · subst e; simp [List.filter_cons]
    · rw [List.erase_cons_tail (by simpa using e)]
      cases hh : isStream h with
      | true => simp [hh, ih, List.erase_cons_tail, e]
      | false => simp [hh, ih]

theorem printed_eq (l : List Handler) :
    l.filterMap streamOf =
      (l.filter isStream).filterMap streamOf := by
  induction l with
  | nil => rfl
  | cons h l ih => cases h <;> simp [List.filter_cons, List.filterMap_cons, ih]

theorem streams_erase_app (l : List Handler) (i : Nat) :
    (l.erase (Handler.app i)).filter isStream = l.filter isStream := by
  induction l with
  | nil => rfl
  | cons h l ih =>
    by_cases e : h = Handler.app i
    · subst e; simp [List.filter_cons]
    · rw [List.erase_cons_tail (by simpa using e)]
      simp only [List.filter_cons, ih]

/-- The invariant: attached stream handlers are exactly `_stream_handler`. -/
def Inv (s : State) (a : Abs) : Prop :=
  s.stderr = a.stderr ∧
  match s.current with
  | none => s.handlers.filter isStream = [] ∧ a.out = none
  | some h => ∃ i t, h = .stream i t ∧ s.handlers.filter isStream = [h] ∧ a.out = some t

theorem inv_step {s : State} {a : Abs} (h : Inv s a) (op : Op) : Inv (step s op) (a.step op) := by
  obtain ⟨handlers, current, stderr, next⟩ := s
  obtain ⟨h0, h⟩ := h
  simp only at h0 h
  subst h0
  cases op with
  | start =>
    cases current with
    | none =>
      simp only at h
      obtain ⟨h1, h2⟩ := h
      refine ⟨rfl, next, a.stderr, rfl, ?_, by simp [Abs.step, h2]⟩
      have hn : Handler.stream next a.stderr ∉ handlers := by
        intro hm
        have : Handler.stream next a.stderr ∈ handlers.filter isStream :=
          List.mem_filter.2 ⟨hm, rfl⟩
        rw [h1] at this; cases this
      simp only [step, startLog, addHandler]; rw [if_neg hn, List.filter_append, h1]; rfl
    | some c =>
      simp only at h
      obtain ⟨i, t, rfl, h1, h2⟩ := h
      exact ⟨rfl, i, t, rfl, h1, by simp [Abs.step, h2]⟩
  | stop =>
    cases current with
    | none => exact ⟨rfl, h.1, rfl⟩
    | some c =>
      simp only at h
      obtain ⟨i, t, rfl, h1, h2⟩ := h
      refine ⟨rfl, ?_, rfl⟩
      simp only [step, stopLog, removeHandler, filter_erase_stream, h1]; simp
  | add i =>
    have e : (addHandler handlers (.app i)).filter isStream = handlers.filter isStream := by
      unfold addHandler; split <;> simp [List.filter_cons]
    refine ⟨rfl, ?_⟩
    cases current with
    | none => simp only [step]; rw [e]; exact h
    | some c => simp only [step]; rw [e]; exact h
  | remove i =>
    refine ⟨rfl, ?_⟩
    cases current with
    | none => simp only [step, removeHandler]; rw [streams_erase_app]; exact h
    | some c => simp only [step, removeHandler]; rw [streams_erase_app]; exact h
  | redirect t => exact ⟨rfl, h⟩

theorem inv_run {s : State} {a : Abs} (h : Inv s a) (ops : List Op) :
    Inv (run s ops) (ops.foldl Abs.step a) := by
  induction ops generalizing s a with
  | nil => exact h
  | cons op ops ih => exact ih (inv_step h op)

theorem inv_init (apps : List Nat) (t : Nat) : Inv (State.init apps t) ⟨t, none⟩ := by
  refine ⟨rfl, ?_, rfl⟩
  simp only [State.init, List.filter_append]
  have : ∀ l : List Nat, (l.map Handler.app).filter isStream = [] := by
    intro l; induction l with
    | nil => rfl
    | cons a l ih => simp [List.filter_cons, ih]
  rw [this]; rfl

/-- C40.  After any history a message is written exactly to the streams of the specification:
once if logging is on, never otherwise, to the `sys.stderr` of the effective `start_log`. -/
theorem C40_printed (apps : List Nat) (t : Nat) (ops : List Op) :
    printed (run (State.init apps t) ops) = (ops.foldl Abs.step ⟨t, none⟩).out.toList := by
  have h := inv_run (inv_init apps t) ops
  generalize run (State.init apps t) ops = s at h
  obtain ⟨handlers, current, stderr, next⟩ := s
  unfold printed
  simp only
  rw [printed_eq]
  obtain ⟨_, h⟩ := h
  cases current with
  | none => rw [h.1, h.2]; rfl
  | some c => obtain ⟨i, t, rfl, h1, h2⟩ := h; rw [h1, h2]; rfl

/-- C40.  No message is written twice. -/
theorem C40_at_most_once (apps : List Nat) (t : Nat) (ops : List Op) :
    (printed (run (State.init apps t) ops)).length ≤ 1 := by
  rw [C40_printed]
  cases (ops.foldl Abs.step ⟨t, none⟩).out <;> simp

/-- C40.  Messages are written iff the last of the `start_log`/`stop_log` calls was `start_log`. -/
theorem C40_on_iff (apps : List Nat) (t : Nat) (ops : List Op) :
    printed (run (State.init apps t) ops) ≠ [] ↔
      (ops.filter fun o => o = .start || o = .stop).getLast? = some .start := by
  rw [C40_printed]
  have key : ∀ (ops : List Op) (a : Abs), ((ops.foldl Abs.step a).out.isSome = true ↔
      ((ops.filter fun o => o = .start || o = .stop).getLast?.getD
        (if a.out.isSome then .start else .stop)) = .start) := by
    intro ops
    induction ops with
    | nil => intro a; cases h : a.out <;> simp [h]
    | cons o ops ih =>
      intro a
      rw [List.foldl_cons, ih]
      cases o <;> simp [Abs.step, List.getLast?_cons] <;> exact Iff.rfl
  have := key ops ⟨t, none⟩
  simp only [Option.isSome_none] at this
  cases h : (ops.foldl Abs.step ⟨t, none⟩).out with
  | none =>
    rw [h] at this
    simp at this ⊢
    intro e; rw [e] at this; simp at this
  | some x =>
    rw [h] at this
    simp only [Option.isSome_some, true_iff] at this
    simp only [Option.toList_some, ne_eq, List.cons_ne_self, not_false_eq_true, true_iff]
    cases e : (ops.filter fun o => o = .start || o = .stop).getLast? with
    | none => rw [e] at this; simp at this
    | some y => rw [e] at this; simp at this; rw [this]

/-- C40.  The application's handlers are those its own calls attached, in the same order. -/
theorem C40_app_untouched (apps : List Nat) (t : Nat) (ops : List Op) :
    appHandlers (run (State.init apps t) ops) = ops.foldl appStep apps := by
  have h0 : appHandlers (State.init apps t) = apps := by
    unfold appHandlers State.init
    simp only [List.filterMap_append, List.filterMap_map]
    have : ∀ l : List Nat, l.filterMap (appOf ∘ Handler.app) = l := by
      intro l; induction l with
      | nil => rfl
      | cons a l ih => simp [ih]
    rw [this]; simp
  have step_eq : ∀ (s : State) (a : Abs), Inv s a → ∀ op, appHandlers (step s op) = appStep (appHandlers s) op := by
    intro s a hi op
    obtain ⟨handlers, current, stderr, next⟩ := s
    cases op with
    | start =>
      cases current with
      | some => rfl
      | none =>
        simp only [step, startLog, appHandlers, appStep, addHandler]
        split <;> simp
    | stop =>
      cases current with
      | none => rfl
      | some c =>
        obtain ⟨_, i, t, rfl, _⟩ := hi
        simp only [step, stopLog, appHandlers, appStep, removeHandler]
        exact app_erase_stream _ _ _
    | add i =>
      have hm : Handler.app i ∈ handlers ↔
          i ∈ handlers.filterMap appOf := by
        rw [List.mem_filterMap]
        constructor
        · intro h; exact ⟨_, h, rfl⟩
        · rintro ⟨h, hmem, he⟩
          cases h with
          | app j => simp at he; subst he; exact hmem
          | _ => simp at he
      simp only [step, appHandlers, appStep, addHandler]
      by_cases h : Handler.app i ∈ handlers
      · have h' := hm.1 h
        simp only [h, h', if_true]
      · have h' : ¬ i ∈ handlers.filterMap appOf := fun g => h (hm.2 g)
        simp only [h, h', if_false]; simp
    | remove i => exact app_erase_app _ _
    | redirect => rfl
  have : ∀ (ops : List Op) (s : State) (a : Abs), Inv s a →
      appHandlers (run s ops) = ops.foldl appStep (appHandlers s) := by
    intro ops
    induction ops with
    | nil => intro s a _; rfl
    | cons o ops ih =>
      intro s a h
      rw [show run s (o :: ops) = run (step s o) ops from rfl, ih _ _ (inv_step h o),
        step_eq s a h o]; rfl
  rw [this ops _ _ (inv_init apps t), h0]

/-! Non-vacuity: two starts, one message; a redirect after the start is not followed. -/

example : printed (run (State.init [7] 2) [.start, .add 8, .redirect 5, .start]) = [2] := by decide
example : printed (run (State.init [7] 2) [.start, .start, .stop]) = [] := by decide
example : appHandlers (run (State.init [7] 2) [.start, .add 8, .stop, .remove 7]) = [8] := by decide

end Logger
end HF
