import Verif.Config.SessionLemmas
/-
C100: settings in memory and in their files, over any session.
-/
namespace HF
namespace Config
namespace Session

variable {K V F : Type} [DecidableEq K] [DecidableEq F]

/-! ### Specification -/

/-- What a list of keys and values says, where the last line for a key counts. -/
def told (es : List (K × V)) (k : K) : Option V := es.reverse.lookup k

/-- Settings changed by the assignments and deletions made on object `i`. -/
def changed (i : Nat) (base : K → Option V) : List (Op K V F) → K → Option V
  | [] => base
  | .set j k v :: ops => changed i (fun k' => if j = i ∧ k' = k then some v else base k') ops
  | .del j k :: ops => changed i (fun k' => if j = i ∧ k' = k then none else base k') ops
  | _ :: ops => changed i base ops

/-- The file name of object `i`. -/
def named (i : Nat) (f : F) : List (Op K V F) → F
  | [] => f
  | .rename j g :: ops => named i (if j = i then g else f) ops
  | _ :: ops => named i f ops

/-- Whether a step writes to file `f`. -/
def hits (f : F) (s : State K V F) : Op K V F → Prop
  | .write _ (some g) => g = f
  | .write i none => ∃ o, s.objs[i]? = some o ∧ o.filename = f
  | .other g _ => g = f
  | _ => False

/-- A session in which nobody writes to file `f`. -/
def Quiet (w : World K V F) (f : F) : State K V F → List (Op K V F) → Prop
  | _, [] => True
  | s, op :: ops => ¬ hits f s op ∧ Quiet w f (step w s op).1 ops

/-- The states that can be reached from any files, with no objects at first. -/
def Reached (w : World K V F) (s : State K V F) : Prop := ∃ files ops, s = run w ⟨files, []⟩ ops

/-- Outcomes without exception. -/
def Out.fine : Out → Prop
  | .done => True
  | .missing => True
  | _ => False

theorem reached_once (w : World K V F) (s : State K V F) (h : Reached w s) : AllOnce s := by
  obtain ⟨files, ops, rfl⟩ := h
  exact allOnce_run w ops _ fun i o ho => by simp at ho

/-! ### One step -/

theorem step_obj (w : World K V F) (s : State K V F) (op : Op K V F) (i : Nat) (o : Obj K V F)
    (ho : s.objs[i]? = some o) (hr : op ≠ .reload i) :
    ∃ o', (step w s op).1.objs[i]? = some o' ∧ o'.cls = o.cls ∧ o'.filename = named i o.filename [op] ∧
      ∀ k, o'.entries.lookup k = changed i (fun k => o.entries.lookup k) [op] k := by
  have hi : i < s.objs.length := by
    rcases Nat.lt_or_ge i s.objs.length with h | h
    · exact h
    · rw [List.getElem?_eq_none h] at ho; cases ho
  cases op with
  | new cls f =>
    refine ⟨o, ?_, rfl, rfl, fun k => rfl⟩
    unfold step
    dsimp only
    split
    · rw [List.getElem?_append_left hi]; exact ho
    · rw [List.getElem?_append_left hi]; exact ho
    · exact ho
  | set j k v =>
    by_cases hj : j = i
    · subst hj
      refine ⟨{ o with entries := setKey o.entries k v }, ?_, rfl, rfl, fun k' => ?_⟩
      · simp only [step, ho, List.getElem?_set_self hi]
      · simp only [lookup_setKey, changed, true_and]
    · refine ⟨o, ?_, rfl, rfl, fun k' => ?_⟩
      · simp only [step]
        cases s.objs[j]? with
        | none => exact ho
        | some p => simp only [List.getElem?_set_ne hj]; exact ho
      · simp only [changed, hj, false_and, if_false]
  | del j k =>
    by_cases hj : j = i
    · subst hj
      cases hl : o.entries.lookup k with
      | none =>
        refine ⟨o, ?_, rfl, rfl, fun k' => ?_⟩
        · simp only [step, ho, delKey, hl, Option.isSome_none, Bool.false_eq_true, if_false]
        · simp only [changed, true_and]
          by_cases hk : k' = k
          · rw [if_pos hk, hk, hl]
          · rw [if_neg hk]
      | some x =>
        refine ⟨{ o with entries := o.entries.filter fun p => p.1 ≠ k }, ?_, rfl, rfl, fun k' => ?_⟩
        · simp only [step, ho, delKey, hl, Option.isSome_some, if_true, List.getElem?_set_self hi]
        · simp only [lookup_filter, changed, true_and]
    · refine ⟨o, ?_, rfl, rfl, fun k' => ?_⟩
      · simp only [step]
        cases s.objs[j]? with
        | none => exact ho
        | some p =>
          dsimp only
          cases delKey p.entries k with
          | none => exact ho
          | some es => simp only [List.getElem?_set_ne hj]; exact ho
      · simp only [changed, hj, false_and, if_false]
  | rename j f =>
    by_cases hj : j = i
    · subst hj
      refine ⟨{ o with filename := f }, ?_, rfl, ?_, fun k' => rfl⟩
      · simp only [step, ho, List.getElem?_set_self hi]
      · simp only [named, if_true]
    · refine ⟨o, ?_, rfl, ?_, fun k' => rfl⟩
      · simp only [step]
        cases s.objs[j]? with
        | none => exact ho
        | some p => simp only [List.getElem?_set_ne hj]; exact ho
      · simp only [named, hj, if_false]
  | reload j =>
    have hj : j ≠ i := fun e => hr (by rw [e])
    refine ⟨o, ?_, rfl, rfl, fun k' => rfl⟩
    simp only [step]
    cases s.objs[j]? with
    | none => exact ho
    | some p => simp only [List.getElem?_set_ne hj]; exact ho
  | write j f =>
    refine ⟨o, ?_, rfl, rfl, fun k' => rfl⟩
    simp only [step]
    cases s.objs[j]? with
    | none => exact ho
    | some p => exact ho
  | other f c => exact ⟨o, ho, rfl, rfl, fun k' => rfl⟩

theorem changed_cons (i : Nat) (base : K → Option V) (op : Op K V F) (ops : List (Op K V F)) :
    changed i base (op :: ops) = changed i (changed i base [op]) ops := by
  cases op <;> rfl

theorem named_cons (i : Nat) (f : F) (op : Op K V F) (ops : List (Op K V F)) :
    named i f (op :: ops) = named i (named i f [op]) ops := by
  cases op <;> rfl

theorem step_files (w : World K V F) (s : State K V F) (op : Op K V F) (f : F) (h : ¬ hits f s op) :
    (step w s op).1.files f = s.files f := by
  cases op with
  | new cls g =>
    unfold step
    dsimp only
    split <;> rfl
  | set i k v => simp only [step]; cases s.objs[i]? <;> rfl
  | del i k =>
    simp only [step]
    cases s.objs[i]? with
    | none => rfl
    | some o => dsimp only; cases delKey o.entries k <;> rfl
  | rename i g => simp only [step]; cases s.objs[i]? <;> rfl
  | reload i => simp only [step]; cases s.objs[i]? <;> rfl
  | write i g =>
    simp only [step]
    cases ho : s.objs[i]? with
    | none => rfl
    | some o =>
      have hf : f ≠ g.getD o.filename := by
        cases g with
        | none => exact fun e => h ⟨o, ho, e.symm⟩
        | some g => exact fun e => h e.symm
      simp only [write]
      split
      · split <;> simp only [if_neg hf]
      · rfl
  | other g c =>
    have hf : f ≠ g := fun e => h e.symm
    simp only [step, if_neg hf]

theorem run_files (w : World K V F) (f : F) (ops : List (Op K V F)) (s : State K V F) (h : Quiet w f s ops) :
    (run w s ops).files f = s.files f := by
  induction ops generalizing s with
  | nil => rfl
  | cons op ops ih =>
    exact (ih _ h.2).trans (step_files w s op f h.1)

/-! ### The settings at any time -/

/-- The settings of an object are those it had, with the assignments and deletions made on it since, in their order,
whatever else happens (other objects, writing, files changed or removed); only reading the file again changes them
otherwise. -/
theorem C100_current (w : World K V F) (ops : List (Op K V F)) (s : State K V F) (i : Nat) (o : Obj K V F)
    (ho : s.objs[i]? = some o) (hr : .reload i ∉ ops) :
    ∃ o', (run w s ops).objs[i]? = some o' ∧ o'.cls = o.cls ∧ o'.filename = named i o.filename ops ∧
      ∀ k, o'.entries.lookup k = changed i (fun k => o.entries.lookup k) ops k := by
  induction ops generalizing s o with
  | nil => exact ⟨o, ho, rfl, rfl, fun k => rfl⟩
  | cons op ops ih =>
    simp only [List.mem_cons, not_or] at hr
    obtain ⟨o1, h1, hc, hf, hl⟩ := step_obj w s op i o ho fun e => hr.1 e.symm
    obtain ⟨o2, h2, hc2, hf2, hl2⟩ := ih (step w s op).1 o1 h1 hr.2
    refine ⟨o2, h2, hc2.trans hc, ?_, fun k => ?_⟩
    · rw [hf2, hf, ← named_cons]
    · rw [hl2, changed_cons]
      congr 1
      funext k'
      exact hl k'

theorem reload_map (w : World K V F) (files : F → Option (Content K V)) (o : Obj K V F) (es : List (K × V))
    (hf : files o.filename = some (.doc (.map es))) :
    (reload w files o).2 = .done ∧ ∀ k, (reload w files o).1.lookup k = told es k := by
  unfold reload
  simp only [hf, update, lookup_foldl_setKey, told]
  refine ⟨trivial, fun k => ?_⟩
  cases es.reverse.lookup k <;> simp

theorem step_reload (w : World K V F) (s : State K V F) (i : Nat) (o : Obj K V F) (ho : s.objs[i]? = some o) :
    (step w s (.reload i)).1.objs[i]? = some { o with entries := (reload w s.files o).1 } ∧
      (step w s (.reload i)).2 = (reload w s.files o).2 ∧ (step w s (.reload i)).1.files = s.files := by
  have hi : i < s.objs.length := by
    rcases Nat.lt_or_ge i s.objs.length with h | h
    · exact h
    · rw [List.getElem?_eq_none h] at ho; cases ho
  simp only [step, ho, List.getElem?_set_self hi, and_self]

/-- Reading a file with a dictionary: the settings are exactly what the file says now, whatever they were before and
whether or not they had been changed, and then follow the assignments and deletions. -/
theorem C100_reload (w : World K V F) (s : State K V F) (i : Nat) (o : Obj K V F) (es : List (K × V))
    (ops : List (Op K V F)) (ho : s.objs[i]? = some o) (hf : s.files o.filename = some (.doc (.map es)))
    (hr : .reload i ∉ ops) :
    (step w s (.reload i)).2 = .done ∧
    ∃ o', (run w s (.reload i :: ops)).objs[i]? = some o' ∧ ∀ k, o'.entries.lookup k = changed i (told es) ops k := by
  obtain ⟨h1, h2, _⟩ := step_reload w s i o ho
  obtain ⟨r1, r2⟩ := reload_map w s.files o es hf
  refine ⟨h2.trans r1, ?_⟩
  obtain ⟨o', ho', _, _, hl⟩ := C100_current w ops (step w s (.reload i)).1 i _ h1 hr
  refine ⟨o', ho', fun k => ?_⟩
  rw [hl]
  congr 1
  funext k'
  exact r2 k'

/-- A new object for a file with a dictionary has what the file says; it is known under a new number and the others
stay as they are. -/
theorem C100_new (w : World K V F) (s : State K V F) (cls : Cls) (f : F) (es : List (K × V))
    (hf : s.files f = some (.doc (.map es))) :
    (step w s (.new cls f)).2 = .done ∧ (step w s (.new cls f)).1.files = s.files ∧
    ∃ o', (step w s (.new cls f)).1.objs = s.objs ++ [o'] ∧ o'.cls = cls ∧ o'.filename = f ∧
      ∀ k, o'.entries.lookup k = told es k := by
  obtain ⟨r1, r2⟩ := reload_map w s.files ⟨cls, f, []⟩ es hf
  cases hr : reload w s.files (⟨cls, f, []⟩ : Obj K V F) with
  | mk e out =>
    rw [hr] at r1 r2
    have r1' : out = .done := r1
    subst r1'
    simp only [step, hr]
    exact ⟨trivial, trivial, _, rfl, rfl, rfl, r2⟩

/-! ### Writing -/

theorem write_target (w : World K V F) (s : State K V F) (i : Nat) (o : Obj K V F) (name : Option F)
    (ho : s.objs[i]? = some o) (hw : w.writable (name.getD o.filename) = true) (g : V → V)
    (hv : ∀ p ∈ o.entries, w.fate p.2 = .readAs (g p.2)) :
    (step w s (.write i name)).2 = .done ∧ (step w s (.write i name)).1.files (name.getD o.filename) =
      some (.doc (.map (w.order (o.entries.map fun p => (p.1, g p.2))))) := by
  simp only [step, ho, write, hw, if_true, dumped_all w o.entries g hv, and_self]

theorem once_map (es : List (K × V)) (g : V → V) (h : Once es) : Once (es.map fun p => (p.1, g p.2)) := by
  unfold Once at *
  rw [List.map_map]
  exact h

theorem lookup_map (es : List (K × V)) (g : V → V) (k : K) :
    (es.map fun p => (p.1, g p.2)).lookup k = (es.lookup k).map g := by
  induction es with
  | nil => rfl
  | cons p es ih =>
    obtain ⟨a, x⟩ := p
    cases hk : k == a
    · simp only [List.map_cons, List.lookup, hk, ih]
    · simp only [List.map_cons, List.lookup, hk, Option.map_some]

/-- What was written comes back: in any state that can be reached, the settings of an object are written to a file
(its own or another one), and after any session in which nobody else writes to this file, any object that belongs to
the file, of either class, that reads it has exactly these settings, each as its value is read from a file. -/
theorem C100_saved (w : World K V F) (hord : ∀ {Z : Type} (l : List (K × Z)), (w.order l).Perm l) (s : State K V F)
    (hs : Reached w s) (i j : Nat) (o o2 : Obj K V F) (name : Option F) (ops : List (Op K V F)) (g : V → V)
    (ho : s.objs[i]? = some o) (hw : w.writable (name.getD o.filename) = true)
    (hv : ∀ p ∈ o.entries, w.fate p.2 = .readAs (g p.2))
    (hq : Quiet w (name.getD o.filename) (step w s (.write i name)).1 ops)
    (h2 : (run w s (.write i name :: ops)).objs[j]? = some o2) (hn : o2.filename = name.getD o.filename) :
    (step w s (.write i name)).2 = .done ∧ (step w (run w s (.write i name :: ops)) (.reload j)).2 = .done ∧
    ∃ o3, (step w (run w s (.write i name :: ops)) (.reload j)).1.objs[j]? = some o3 ∧
      ∀ k, o3.entries.lookup k = (o.entries.lookup k).map g := by
  obtain ⟨t1, t2⟩ := write_target w s i o name ho hw g hv
  have hfile : (run w s (.write i name :: ops)).files o2.filename =
      some (.doc (.map (w.order (o.entries.map fun p => (p.1, g p.2))))) := by
    rw [hn]
    exact (run_files w _ ops _ hq).trans t2
  obtain ⟨a1, a2⟩ := C100_reload w _ j o2 _ [] h2 hfile (by simp)
  refine ⟨t1, a1, ?_⟩
  obtain ⟨o3, h3, hl⟩ := a2
  refine ⟨o3, h3, fun k => ?_⟩
  have honce : Once (o.entries.map fun p => (p.1, g p.2)) := once_map _ g (reached_once w s hs i o ho)
  rw [hl, ← lookup_map]
  show ((w.order _).reverse).lookup k = _
  exact lookup_perm _ _ honce ((List.reverse_perm _).trans (hord _)) k

/-- A step changes no file but the one it writes to; writing changes no object, and `write(filename)` leaves the file
of the object itself as it was. -/
theorem C100_other_files (w : World K V F) (s : State K V F) (i : Nat) (name : Option F) :
    (step w s (.write i name)).1.objs = s.objs ∧
    (∀ op f, ¬ hits f s op → (step w s op).1.files f = s.files f) ∧
    ∀ o f, s.objs[i]? = some o → f ≠ o.filename →
      (step w s (.write i (some f))).1.files o.filename = s.files o.filename := by
  refine ⟨?_, fun op f h => step_files w s op f h, fun o f ho hf => step_files w s _ _ hf⟩
  simp only [step]
  cases s.objs[i]? <;> rfl

/-- A file that cannot be opened for writing: an exception, and nothing has changed. -/
theorem C100_protected (w : World K V F) (s : State K V F) (i : Nat) (o : Obj K V F) (name : Option F)
    (ho : s.objs[i]? = some o) (hw : w.writable (name.getD o.filename) = false) :
    (step w s (.write i name)).2 = .ioError ∧ (step w s (.write i name)).1.objs = s.objs ∧
      ∀ f, (step w s (.write i name)).1.files f = s.files f := by
  simp [step, ho, write, hw]

/-! ### Files that are missing or cannot be read -/

/-- A missing file is reported by a message, not by an exception, and there are no settings then. -/
theorem C100_missing (w : World K V F) (s : State K V F) (i : Nat) (o : Obj K V F) (ho : s.objs[i]? = some o)
    (hf : s.files o.filename = none) :
    (step w s (.reload i)).2 = .missing ∧
    ∃ o', (step w s (.reload i)).1.objs[i]? = some o' ∧ o'.filename = o.filename ∧ ∀ k, o'.entries.lookup k = none := by
  obtain ⟨h1, h2, _⟩ := step_reload w s i o ho
  have hr : reload w s.files o = ([], .missing) := by simp only [reload, hf]
  rw [hr] at h1 h2
  exact ⟨h2, _, h1, rfl, fun k => rfl⟩

theorem updatePairs_done (w : World K V F) (l : List V) (es : List (K × V)) :
    (updatePairs w es l).2 = .done ↔ ∀ v ∈ l, ∃ k x, w.pair v = .two k x := by
  induction l generalizing es with
  | nil => simp [updatePairs]
  | cons v l ih =>
    unfold updatePairs
    cases hp : w.pair v with
    | notIterable => simp [hp]
    | otherLength => simp [hp]
    | unhashable => simp [hp]
    | two k x => simp [hp, ih]

/-- Exactly these files can be read: those that are missing; dictionaries; and, by `Config` only, the empty text and
lists of pairs. -/
theorem C100_accepted (w : World K V F) (s : State K V F) (i : Nat) (o : Obj K V F) (ho : s.objs[i]? = some o) :
    (step w s (.reload i)).2.fine ↔
      (s.files o.filename = none ∨ (∃ es, s.files o.filename = some (.doc (.map es))) ∨
        (o.cls = .plain ∧ (s.files o.filename = some (.doc (.text 0)) ∨
          ∃ l, s.files o.filename = some (.doc (.seq l)) ∧ ∀ v ∈ l, ∃ k x, w.pair v = .two k x))) := by
  obtain ⟨_, h2, _⟩ := step_reload w s i o ho
  rw [h2]
  unfold reload
  dsimp only
  cases hf : s.files o.filename with
  | none => simp [Out.fine]
  | some c =>
    cases c with
    | bad => simp [Out.fine]
    | doc d =>
      cases d with
      | nothing => cases hc : o.cls <;> simp [update, Out.fine]
      | map es => simp [update, Out.fine]
      | seq l =>
        cases hc : o.cls with
        | lexical => simp [update, Out.fine]
        | plain =>
          simp only [update]
          have hmiss : ∀ es : List (K × V), (updatePairs w es l).2 ≠ .missing := by
            clear hf
            induction l with
            | nil => simp [updatePairs]
            | cons v l ih =>
              intro es
              unfold updatePairs
              cases w.pair v <;> simp [ih]
          have hd := updatePairs_done w l ([] : List (K × V))
          have : ((updatePairs w ([] : List (K × V)) l).2.fine) ↔ (updatePairs w ([] : List (K × V)) l).2 = .done := by
            have := hmiss []
            revert this
            cases (updatePairs w ([] : List (K × V)) l).2 <;> simp [Out.fine]
          rw [this, hd]
          simp
      | text n =>
        cases hc : o.cls with
        | lexical => simp [update, Out.fine]
        | plain =>
          by_cases hn : n = 0
          · simp [update, hn, Out.fine]
          · simp [update, hn, Out.fine]
      | scalar => cases hc : o.cls <;> simp [update, Out.fine]

theorem updatePairs_lookup (w : World K V F) (ps : List (V × K × V)) (es : List (K × V))
    (hp : ∀ p ∈ ps, w.pair p.1 = .two p.2.1 p.2.2) :
    updatePairs w es (ps.map Prod.fst) = ((ps.map Prod.snd).foldl (fun a p => setKey a p.1 p.2) es, .done) := by
  induction ps generalizing es with
  | nil => rfl
  | cons p ps ih =>
    have h1 := hp p (by simp)
    simp only [List.map_cons, updatePairs, h1, List.foldl_cons]
    exact ih _ fun q hq => hp q (by simp [hq])

/-- `Config` takes a list of pairs for the settings, `LexicalConfig` refuses it. -/
theorem C100_pairs (w : World K V F) (s : State K V F) (i : Nat) (o : Obj K V F) (ps : List (V × K × V))
    (ho : s.objs[i]? = some o) (hf : s.files o.filename = some (.doc (.seq (ps.map Prod.fst))))
    (hp : ∀ p ∈ ps, w.pair p.1 = .two p.2.1 p.2.2) :
    (o.cls = .plain → (step w s (.reload i)).2 = .done ∧ ∃ o', (step w s (.reload i)).1.objs[i]? = some o' ∧
      ∀ k, o'.entries.lookup k = told (ps.map Prod.snd) k) ∧
    (o.cls = .lexical → (step w s (.reload i)).2 = .attributeError ∧
      ∃ o', (step w s (.reload i)).1.objs[i]? = some o' ∧ ∀ k, o'.entries.lookup k = none) := by
  obtain ⟨h1, h2, _⟩ := step_reload w s i o ho
  refine ⟨fun hc => ?_, fun hc => ?_⟩
  · have hr : reload w s.files o = ((ps.map Prod.snd).foldl (fun a p => setKey a p.1 p.2) [], .done) := by
      simp only [reload, hf, hc, update, updatePairs_lookup w ps [] hp]
    rw [hr] at h1 h2
    refine ⟨h2, _, h1, fun k => ?_⟩
    simp only [lookup_foldl_setKey, told]
    cases (ps.map Prod.snd).reverse.lookup k <;> simp
  · have hr : reload w s.files o = ([], .attributeError) := by simp only [reload, hf, hc, update]
    rw [hr] at h1 h2
    exact ⟨h2, _, h1, fun k => rfl⟩

/-- Construction fails with the exception that reading gives, and then there is no new object and nothing else has
changed. -/
theorem C100_new_failed (w : World K V F) (s : State K V F) (cls : Cls) (f : F) (h : ¬ (step w s (.new cls f)).2.fine) :
    (step w s (.new cls f)).1.objs = s.objs ∧ (step w s (.new cls f)).1.files = s.files := by
  revert h
  unfold step
  dsimp only
  split
  · simp [Out.fine]
  · simp [Out.fine]
  · intro _; exact ⟨rfl, rfl⟩

/-! ### Violations -/

/-- Violation: reading a file which YAML does not accept raises an exception and the settings that were there before
are gone, all of them; they cannot be written any more. -/
theorem C100_emptied_refuted (w : World K V F) (s : State K V F) (i : Nat) (o : Obj K V F)
    (ho : s.objs[i]? = some o) (hf : s.files o.filename = some .bad) :
    (step w s (.reload i)).2 = .yamlError ∧
    ∃ o', (step w s (.reload i)).1.objs[i]? = some o' ∧ ∀ k, o'.entries.lookup k = none := by
  obtain ⟨h1, h2, _⟩ := step_reload w s i o ho
  have hr : reload w s.files o = ([], .yamlError) := by simp only [reload, hf]
  rw [hr] at h1 h2
  exact ⟨h2, _, h1, fun k => rfl⟩

/-- Violation: if one value cannot be represented, writing raises an exception, but the file has been emptied: what it
held is lost.  From then on, as long as nobody writes to it, reading it and making an object for it raise an exception.
-/
theorem C100_lost_refuted (w : World K V F) (s : State K V F) (i : Nat) (o : Obj K V F) (name : Option F)
    (p : K × V) (ops : List (Op K V F)) (ho : s.objs[i]? = some o) (hw : w.writable (name.getD o.filename) = true)
    (hp : p ∈ o.entries) (hr : w.fate p.2 = .refused)
    (hq : Quiet w (name.getD o.filename) (step w s (.write i name)).1 ops) :
    (step w s (.write i name)).2 = .representerError ∧
    (run w s (.write i name :: ops)).files (name.getD o.filename) = some (.doc .nothing) ∧
    (∀ cls, (step w (run w s (.write i name :: ops)) (.new cls (name.getD o.filename))).2 =
      match cls with | .plain => .typeError | .lexical => .attributeError) ∧
    ∀ j o2, (run w s (.write i name :: ops)).objs[j]? = some o2 → o2.filename = name.getD o.filename →
      ¬ (step w (run w s (.write i name :: ops)) (.reload j)).2.fine := by
  have hd := dumped_refused w o.entries p hp hr
  have h1 : (step w s (.write i name)).2 = .representerError := by
    simp only [step, ho, write, hw, if_true, hd]
  have h2 : (step w s (.write i name)).1.files (name.getD o.filename) = some (.doc .nothing) := by
    simp only [step, ho, write, hw, if_true, hd, emptied]
  have h3 : (run w s (.write i name :: ops)).files (name.getD o.filename) = some (.doc .nothing) :=
    (run_files w _ ops _ hq).trans h2
  refine ⟨h1, h3, fun cls => ?_, fun j o2 hj hn => ?_⟩
  · generalize run w s (.write i name :: ops) = t at h3
    cases cls <;> simp only [step, reload, h3, update]
  · rw [C100_accepted w _ j o2 hj, hn, h3]
    simp

/-- Violation: a value that is written in a form that cannot be loaded (`path`): writing raises nothing, but the file
cannot be read any more, and reading it empties the settings. -/
theorem C100_unreadable_refuted (w : World K V F) (s : State K V F) (i : Nat) (o : Obj K V F) (p : K × V)
    (ho : s.objs[i]? = some o) (hw : w.writable o.filename = true) (hp : p ∈ o.entries)
    (hu : w.fate p.2 = .unreadable) (hn : ∀ q ∈ o.entries, w.fate q.2 ≠ .refused) :
    (step w s (.write i none)).2 = .done ∧
    (step w (step w s (.write i none)).1 (.reload i)).2 = .yamlError ∧
    ∃ o', (step w (step w s (.write i none)).1 (.reload i)).1.objs[i]? = some o' ∧ ∀ k, o'.entries.lookup k = none := by
  have hd := dumped_unreadable w o.entries p hp hu hn
  have h1 : step w s (.write i none) =
      (⟨fun g => if g = o.filename then some .bad else s.files g, s.objs⟩, .done) := by
    simp only [step, ho, write, Option.getD_none, hw, if_true, hd]
  rw [h1]
  refine ⟨rfl, ?_⟩
  exact C100_emptied_refuted w ⟨fun g => if g = o.filename then some .bad else s.files g, s.objs⟩ i o ho (by simp)

end Session
end Config
end HF
