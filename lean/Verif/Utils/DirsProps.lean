import Verif.Utils.Dirs
/-
C115: directories made by `make_dirs`.
-/
namespace HF
namespace Dirs

/-! ### Specification -/

/-- The root is a directory, and everything is in a directory. -/
def Tree (fs : FS) : Prop := fs [] = some .dir ∧ ∀ c par, (fs (c :: par)).isSome → fs par = some .dir

/-- `x` is `p` or one of the directories it is in. -/
def On (x p : Path) : Prop := x <:+ p

/-! ### Lemmas about trees -/

theorem tree_tail {fs : FS} (h : Tree fs) {p : Path} (hp : (fs p).isSome) : fs p.tail = some .dir := by
  cases p with
  | nil => exact h.1
  | cons c par => exact h.2 c par hp

theorem tree_up {fs : FS} (h : Tree fs) {x p : Path} (hx : On x p) (hne : x ≠ p) (hp : (fs p).isSome) : fs x = some .dir := by
  induction p with
  | nil => exact absurd (List.suffix_nil.1 hx) hne
  | cons c par ih =>
    rcases List.suffix_cons_iff.1 hx with rfl | hx'
    · exact absurd rfl hne
    · have hd := h.2 c par hp
      by_cases he : x = par
      · rw [he, hd]
      · exact ih hx' he (by rw [hd]; rfl)

theorem tree_set {fs : FS} (h : Tree fs) {c : String} {par : Path} (k : Kind) (hn : fs (c :: par) = none)
    (hp : fs par = some .dir) : Tree (fs.set (c :: par) k) := by
  constructor
  · simp [FS.set, h.1]
  · intro d q hq
    unfold FS.set at hq ⊢
    by_cases he : d :: q = c :: par
    · injection he with _ e2
      subst e2
      rw [if_neg (by simp), hp]
    · rw [if_neg he] at hq
      have hd := h.2 d q hq
      by_cases he' : q = c :: par
      · rw [he', hn] at hd; cases hd
      · rw [if_neg he', hd]

/-! ### A call alone -/

theorem alone_add (t : Path) (m n : Nat) (s : FS × Pc) : alone t (m + n) s = alone t n (alone t m s) := by
  induction m generalizing s with
  | zero => simp [alone]
  | succ m ih =>
    rw [Nat.succ_add]
    exact ih _

theorem mkdir_ok {fs : FS} {c : String} {par : Path} (hn : fs (c :: par) = none) (hp : fs par = some .dir) :
    mkdir fs (c :: par) = .ok (fs.set (c :: par) .dir) := by
  simp [mkdir, hn, hp]

theorem descend_ok (t : Path) {fs : FS} (h : Tree fs) (q : Path) (todo : List Path) (hq : fs q = none)
    (hf : ∀ x, On x q → fs x ≠ some .file) :
    ∃ n fs', alone t n (fs, .descend q todo) = (fs', next todo) ∧
      ∀ x, (On x q → fs' x = some .dir) ∧ (¬ On x q → fs' x = fs x) := by
  induction q generalizing todo with
  | nil => rw [h.1] at hq; cases hq
  | cons c par ih =>
    cases hp : fs par with
    | some k =>
      have hd : fs par = some .dir := by
        cases k with
        | dir => exact hp
        | file => exact absurd hp (hf par (List.suffix_cons c par))
      refine ⟨2, fs.set (c :: par) .dir, ?_, ?_⟩
      · simp [alone, step, hp, mkdir_ok hq hd]
      · intro x
        unfold FS.set
        constructor
        · intro hx
          by_cases he : x = c :: par
          · rw [if_pos he]
          · rw [if_neg he]
            rcases List.suffix_cons_iff.1 hx with rfl | hx
            · exact absurd rfl he
            · by_cases he' : x = par
              · rw [he', hd]
              · exact tree_up h hx he' (by rw [hd]; rfl)
        · intro hx
          rw [if_neg]
          rintro rfl
          exact hx (List.suffix_refl _)
    | none =>
      obtain ⟨n, fs', h1, h2⟩ := ih ((c :: par) :: todo) hp fun x hx => hf x (hx.trans (List.suffix_cons c par))
      have hno : ¬ On (c :: par) par := by
        intro hc
        have := hc.length_le
        rw [List.length_cons] at this
        omega
      have hq' : fs' (c :: par) = none := by rw [(h2 _).2 hno, hq]
      have hd' : fs' par = some .dir := (h2 par).1 (List.suffix_refl _)
      refine ⟨1 + (n + 1), fs'.set (c :: par) .dir, ?_, ?_⟩
      · rw [alone_add, alone_add]
        have : alone t 1 (fs, .descend (c :: par) todo) = (fs, .descend par ((c :: par) :: todo)) := by
          simp [alone, step, hp]
        rw [this, h1]
        simp [alone, step, next, mkdir_ok hq' hd']
      · intro x
        unfold FS.set
        constructor
        · intro hx
          by_cases he : x = c :: par
          · rw [if_pos he]
          · rw [if_neg he]
            rcases List.suffix_cons_iff.1 hx with rfl | hx
            · exact absurd rfl he
            · exact (h2 x).1 hx
        · intro hx
          rw [if_neg]
          · exact (h2 x).2 fun hc => hx (hc.trans (List.suffix_cons c par))
          · rintro rfl
            exact hx (List.suffix_refl _)

theorem descend_blocked (t : Path) {fs : FS} (h : Tree fs) (q f : Path) (todo : List Path) (hq : fs q = none)
    (hf : On f q) (hk : fs f = some .file) :
    ∃ n, alone t n (fs, .descend q todo) = (fs, .failed .notADirectory) := by
  induction q generalizing todo with
  | nil => rw [h.1] at hq; cases hq
  | cons c par ih =>
    have hf' : On f par := by
      rcases List.suffix_cons_iff.1 hf with rfl | hf
      · rw [hq] at hk; cases hk
      · exact hf
    cases hp : fs par with
    | some k =>
      have he : f = par := by
        refine Classical.byContradiction fun hne => ?_
        have := tree_up h hf' hne (by rw [hp]; rfl)
        rw [hk] at this
        cases this
      subst he
      rw [hk] at hp
      cases hp
      exact ⟨2, by simp [alone, step, hk, mkdir, hq]⟩
    | none =>
      obtain ⟨n, hn⟩ := ih ((c :: par) :: todo) hp hf'
      refine ⟨1 + n, ?_⟩
      rw [alone_add]
      have : alone t 1 (fs, .descend (c :: par) todo) = (fs, .descend par ((c :: par) :: todo)) := by
        simp [alone, step, hp]
      rw [this, hn]

/-! ### Theorems about a call alone -/

/-- C115: if no file is in the way the directory is made, with those it is in, and nothing else changes. -/
theorem C115_made (fs : FS) (h : Tree fs) (p : Path) (hf : ∀ x, On x p → fs x ≠ some .file) :
    ∃ n fs', alone p n (fs, .check) = (fs', .done) ∧
      ∀ x, (On x p → fs' x = some .dir) ∧ (¬ On x p → fs' x = fs x) := by
  cases hp : fs p with
  | some k =>
    have hd : fs p = some .dir := by
      cases k with
      | dir => exact hp
      | file => exact absurd hp (hf p (List.suffix_refl _))
    refine ⟨1, fs, by simp [alone, step, hd], fun x => ⟨fun hx => ?_, fun _ => rfl⟩⟩
    by_cases he : x = p
    · rw [he, hd]
    · exact tree_up h hx he (by rw [hd]; rfl)
  | none =>
    obtain ⟨n, fs', h1, h2⟩ := descend_ok p h p [] hp hf
    refine ⟨1 + n, fs', ?_, h2⟩
    rw [alone_add]
    have : alone p 1 (fs, .check) = (fs, .descend p []) := by simp [alone, step, hp]
    rw [this, h1]
    rfl

/-- C115: a directory that exists stays as it is, with everything else. -/
theorem C115_again (fs : FS) (p : Path) (h : fs p = some .dir) : alone p 1 (fs, .check) = (fs, .done) := by
  simp [alone, step, h]

/-- C115: a file in the way is an error, and nothing is made. -/
theorem C115_blocked (fs : FS) (h : Tree fs) (p f : Path) (hf : On f p) (hk : fs f = some .file) :
    ∃ n, alone p n (fs, .check) = (fs, .failed (if f = p then .fileExists else .notADirectory)) := by
  by_cases he : f = p
  · subst he
    rw [if_pos rfl]
    have hne : f ≠ [] := by
      rintro rfl
      rw [h.1] at hk
      cases hk
    obtain ⟨c, par, rfl⟩ := List.exists_cons_of_ne_nil hne
    have hd := h.2 c par (by rw [hk]; rfl)
    exact ⟨3, by simp [alone, step, hk, hd, mkdir]⟩
  · rw [if_neg he]
    have hp : fs p = none := by
      cases hp : fs p with
      | none => rfl
      | some k =>
        have := tree_up h hf he (by rw [hp]; rfl)
        rw [hk] at this
        cases this
    obtain ⟨n, hn⟩ := descend_blocked p h p f [] hp hf hk
    refine ⟨1 + n, ?_⟩
    rw [alone_add]
    have : alone p 1 (fs, .check) = (fs, .descend p []) := by simp [alone, step, hp]
    rw [this, hn]

/-- C115: the segments are put behind each other, from the last one that is absolute. -/
theorem C115_join (before after : List Seg) (s : Seg) (ha : ∀ a ∈ after, a.absolute = false) (hs : s.absolute = true) :
    join (before ++ s :: after) = ((s :: after).flatMap Seg.names).reverse ∧
    join after = (after.flatMap Seg.names).reverse := by
  have key : ∀ (l : List Seg) (acc : Path), (∀ a ∈ l, a.absolute = false) →
      l.foldl (fun acc s => if s.absolute then s.names.reverse else s.names.reverse ++ acc) acc =
        (l.flatMap Seg.names).reverse ++ acc := by
    intro l
    induction l with
    | nil => intro acc _; rfl
    | cons a l ih =>
      intro acc h
      rw [List.foldl_cons, h a (by simp), if_neg (by simp), ih _ fun b hb => h b (by simp [hb])]
      simp
  constructor
  · unfold join
    rw [List.foldl_append, List.foldl_cons, hs, if_pos rfl, key after _ ha]
    simp
  · unfold join
    rw [key after _ ha]
    simp

/-! ### Many callers -/

/-- The calls that wait: each makes a directory in that of the one before, the last one makes the target. -/
def Waits (q : Path) : List Path → Path → Prop
  | [], t => q = t
  | r :: rest, t => (∃ c, r = c :: q) ∧ Waits r rest t

theorem waits_on {q : Path} {todo : List Path} {t : Path} (h : Waits q todo t) : On q t := by
  induction todo generalizing q with
  | nil => cases h; exact List.suffix_refl _
  | cons r rest ih =>
    obtain ⟨⟨c, rfl⟩, h2⟩ := h
    exact (List.suffix_cons c q).trans (ih h2)

/-- What is known where a call is. -/
def Known (fs : FS) (t : Path) : Pc → Prop
  | .check => True
  | .descend q todo => Waits q todo t
  | .mk q todo => Waits q todo t ∧ (fs q.tail).isSome
  | .done => fs t = some .dir
  | .failed e => (e = .fileExists ∧ (fs t).isSome) ∨ (e = .notADirectory ∧ ∃ f, On f t ∧ f ≠ t ∧ fs f = some .file)

/-- Nothing is removed or changed. -/
def Grows (fs fs' : FS) : Prop := ∀ x k, fs x = some k → fs' x = some k

theorem Grows.isSome {fs fs' : FS} (h : Grows fs fs') {x : Path} (hx : (fs x).isSome) : (fs' x).isSome := by
  obtain ⟨k, hk⟩ := Option.isSome_iff_exists.1 hx
  rw [h x k hk]
  rfl

theorem grows_set {fs : FS} {p : Path} (k : Kind) (hn : fs p = none) : Grows fs (fs.set p k) := by
  intro x k' hx
  unfold FS.set
  rw [if_neg]
  · exact hx
  · rintro rfl
    rw [hn] at hx
    cases hx

theorem known_grows {fs fs' : FS} (h : Grows fs fs') {t : Path} {pc : Pc} (hk : Known fs t pc) : Known fs' t pc := by
  cases pc with
  | check => trivial
  | descend q todo => exact hk
  | mk q todo => exact ⟨hk.1, h.isSome hk.2⟩
  | done => exact h _ _ hk
  | failed e =>
    rcases hk with ⟨h1, h2⟩ | ⟨h1, f, h2, h3, h4⟩
    · exact .inl ⟨h1, h.isSome h2⟩
    · exact .inr ⟨h1, f, h2, h3, h _ _ h4⟩

theorem known_next {fs : FS} {q t : Path} {todo : List Path} (h : Waits q todo t) (hne : todo ≠ [] ∨ fs q = some .dir)
    (hq : (fs q).isSome) : Known fs t (next todo) := by
  cases todo with
  | nil =>
    cases h
    rcases hne with h | h
    · exact absurd rfl h
    · exact h
  | cons r rest =>
    obtain ⟨⟨c, rfl⟩, h2⟩ := h
    exact ⟨h2, hq⟩

theorem step_known {fs : FS} (h : Tree fs) {t : Path} {pc : Pc} (hk : Known fs t pc) :
    Tree (step t fs pc).1 ∧ Grows fs (step t fs pc).1 ∧ Known (step t fs pc).1 t (step t fs pc).2 ∧
    ∀ x, (step t fs pc).1 x ≠ fs x → On x t ∧ (step t fs pc).1 x = some .dir := by
  have same : Grows fs fs := fun _ _ h => h
  cases pc with
  | check =>
    unfold step
    by_cases hd : fs t = some .dir
    · simp only [if_pos hd]
      exact ⟨h, same, hd, fun x hx => absurd rfl hx⟩
    · simp only [if_neg hd]
      exact ⟨h, same, rfl, fun x hx => absurd rfl hx⟩
  | descend q todo =>
    simp only [step]
    by_cases hs : (fs q.tail).isSome
    · simp only [if_pos hs]
      exact ⟨h, same, ⟨hk, hs⟩, fun x hx => absurd rfl hx⟩
    · simp only [if_neg hs]
      refine ⟨h, same, ?_, fun x hx => absurd rfl hx⟩
      cases q with
      | nil => rw [List.tail_nil, h.1] at hs; exact absurd rfl hs
      | cons c par => exact ⟨⟨c, rfl⟩, hk⟩
  | mk q todo =>
    obtain ⟨hw, hs⟩ := hk
    simp only [step]
    cases q with
    | nil =>
      simp only [mkdir]
      refine ⟨h, same, ?_, fun x hx => absurd rfl hx⟩
      by_cases ht : todo = []
      · rw [if_pos ht]
        subst ht
        cases hw
        exact .inl ⟨rfl, by rw [h.1]; rfl⟩
      · rw [if_neg ht]
        exact known_next hw (.inl ht) (by rw [h.1]; rfl)
    | cons c par =>
      cases hq : fs (c :: par) with
      | some k =>
        have hm : mkdir fs (c :: par) = .error .fileExists := by simp [mkdir, hq]
        rw [hm]
        refine ⟨h, same, ?_, fun x hx => absurd rfl hx⟩
        by_cases ht : todo = []
        · simp only [if_pos ht]
          subst ht
          cases hw
          exact .inl ⟨rfl, by rw [hq]; rfl⟩
        · simp only [if_neg ht]
          exact known_next hw (.inl ht) (by rw [hq]; rfl)
      | none =>
        rw [List.tail_cons] at hs
        obtain ⟨k, hp⟩ := Option.isSome_iff_exists.1 hs
        cases k with
        | dir =>
          rw [mkdir_ok hq hp]
          have hd : (fs.set (c :: par) .dir) (c :: par) = some .dir := by simp [FS.set]
          refine ⟨tree_set h _ hq hp, grows_set _ hq, known_next hw (.inr hd) (Option.isSome_iff_exists.2 ⟨_, hd⟩), ?_⟩
          intro x hx
          by_cases he : x = c :: par
          · subst he
            exact ⟨waits_on hw, hd⟩
          · simp [FS.set, he] at hx
        | file =>
          have hm : mkdir fs (c :: par) = .error .notADirectory := by simp [mkdir, hq, hp]
          rw [hm]
          refine ⟨h, same, .inr ⟨rfl, par, (List.suffix_cons c par).trans (waits_on hw), ?_, hp⟩, fun x hx => absurd rfl hx⟩
          rintro rfl
          have := (waits_on hw).length_le
          rw [List.length_cons] at this
          omega
  | done => exact ⟨h, same, hk, fun x hx => absurd rfl hx⟩
  | failed e => exact ⟨h, same, hk, fun x hx => absurd rfl hx⟩

/-- What holds for all callers, with the file system at the beginning. -/
def Holds (fs0 : FS) (targets files : List Path) (w : World) : Prop :=
  Tree w.fs ∧ Grows fs0 w.fs ∧ w.pcs.map Prod.fst = targets ∧ (∀ t pc, (t, pc) ∈ w.pcs → Known w.fs t pc) ∧
  ∀ x, w.fs x ≠ fs0 x → (w.fs x = some .dir ∧ ∃ t ∈ targets, On x t) ∨ (w.fs x = some .file ∧ x ∈ files)

/-- The files that other programs make. -/
def filesOf : List Op → List Path
  | [] => []
  | .call _ :: ops => filesOf ops
  | .file p :: ops => p :: filesOf ops

theorem holds_step {fs0 : FS} {targets files : List Path} {w : World} (op : Op) (hop : ∀ p, op = .file p → p ∈ files)
    (h : Holds fs0 targets files w) : Holds fs0 targets files (w.step op) := by
  obtain ⟨h1, h2, h3, h4, h5⟩ := h
  cases op with
  | call i =>
    simp only [World.step]
    cases hi : w.pcs[i]? with
    | none => exact ⟨h1, h2, h3, h4, h5⟩
    | some e =>
      obtain ⟨t, pc⟩ := e
      simp only
      have hmem : (t, pc) ∈ w.pcs := List.mem_of_getElem? hi
      obtain ⟨a1, a2, a3, a4⟩ := step_known h1 (h4 t pc hmem)
      have ht : t ∈ targets := by
        rw [← h3]
        exact List.mem_map.2 ⟨_, hmem, rfl⟩
      refine ⟨a1, fun x k hx => a2 _ _ (h2 x k hx), ?_, ?_, ?_⟩
      · simp only
        rw [List.map_set, h3]
        refine List.ext_getElem? fun j => ?_
        rw [List.getElem?_set]
        split
        · next e =>
          subst e
          rw [← h3, List.getElem?_map, hi]
          split
          · rfl
          · next hl =>
            rw [List.length_map] at hl
            exact absurd (List.getElem?_eq_some_iff.1 hi).1 hl
        · rfl
      · intro t' pc' hm
        rcases List.mem_or_eq_of_mem_set hm with hm | hm
        · exact known_grows a2 (h4 t' pc' hm)
        · cases hm
          exact a3
      · intro x hx
        by_cases hc : (Dirs.step t w.fs pc).1 x = w.fs x
        · simp only [hc] at hx ⊢
          exact h5 x hx
        · exact .inl ⟨(a4 x hc).2, t, ht, (a4 x hc).1⟩
  | file p =>
    simp only [World.step]
    by_cases hc : (w.fs p).isNone ∧ w.fs p.tail = some .dir
    · simp only [if_pos hc]
      obtain ⟨c1, c2⟩ := hc
      have hn : w.fs p = none := Option.isNone_iff_eq_none.1 c1
      have hg : Grows w.fs (w.fs.set p .file) := grows_set _ hn
      refine ⟨?_, fun x k hx => hg _ _ (h2 x k hx), h3, fun t pc hm => known_grows hg (h4 t pc hm), ?_⟩
      · cases p with
        | nil => rw [h1.1] at hn; cases hn
        | cons c par => exact tree_set h1 _ hn c2
      · intro x hx
        by_cases he : x = p
        · subst he
          exact .inr ⟨by simp [FS.set], hop _ rfl⟩
        · simp only [FS.set, if_neg he] at hx ⊢
          exact h5 x hx
    · simp only [if_neg hc]
      exact ⟨h1, h2, h3, h4, h5⟩

theorem holds_run {fs0 : FS} {targets files : List Path} (ops : List Op) {w : World}
    (hf : ∀ p ∈ filesOf ops, p ∈ files) (h : Holds fs0 targets files w) : Holds fs0 targets files (w.run ops) := by
  induction ops generalizing w with
  | nil => exact h
  | cons op ops ih =>
    refine ih (w := w.step op) (fun p hp => hf p ?_) (holds_step op ?_ h)
    · cases op with
      | call i => exact hp
      | file q => exact List.mem_cons_of_mem _ hp
    · rintro p rfl
      exact hf p List.mem_cons_self

/-- C115: any number of callers and other programs that make files, in any order of their steps: nothing is lost; a call
that has returned has made its directory; a call that has raised an exception found its path there, or a file in the way;
only directories on the paths of the callers are made, and the files of the others. -/
theorem C115_schedule (fs : FS) (h : Tree fs) (targets : List Path) (ops : List Op) :
    let w := (World.start fs targets).run ops
    Tree w.fs ∧ (∀ x k, fs x = some k → w.fs x = some k) ∧ w.pcs.map Prod.fst = targets ∧
    (∀ t, (t, Pc.done) ∈ w.pcs → w.fs t = some .dir) ∧
    (∀ t e, (t, Pc.failed e) ∈ w.pcs → (e = .fileExists ∧ (w.fs t).isSome) ∨
      (e = .notADirectory ∧ ∃ f, On f t ∧ f ≠ t ∧ w.fs f = some .file)) ∧
    ∀ x, w.fs x ≠ fs x → (w.fs x = some .dir ∧ ∃ t ∈ targets, On x t) ∨ (w.fs x = some .file ∧ x ∈ filesOf ops) := by
  have h0 : Holds fs targets (filesOf ops) (World.start fs targets) := by
    refine ⟨h, fun _ _ h => h, ?_, ?_, fun x hx => absurd rfl hx⟩
    · unfold World.start
      rw [List.map_map]
      exact List.map_id' targets
    · intro t pc hm
      unfold World.start at hm
      obtain ⟨s, -, hs⟩ := List.mem_map.1 hm
      cases hs
      trivial
  obtain ⟨h1, h2, h3, h4, h5⟩ := holds_run ops (fun p hp => hp) h0
  exact ⟨h1, h2, h3, fun t hm => h4 t _ hm, fun t e hm => h4 t _ hm, h5⟩

/-- C115: two callers that make the same directory: one of them can get an error though no file is in the way and the
directory is there. -/
theorem C115_race_refuted (fs : FS) (c : String) (par : Path) (hn : fs (c :: par) = none) (hp : fs par = some .dir) :
    let w := (World.start fs [c :: par, c :: par]).run [.call 0, .call 1, .call 0, .call 0, .call 1, .call 1]
    w.fs (c :: par) = some .dir ∧ w.pcs = [(c :: par, .done), (c :: par, .failed .fileExists)] := by
  simp [World.run, World.start, World.step, step, hn, hp, mkdir, next, FS.set]

/-! ### Concrete cases -/

/-- A directory `a` and a file `b`. -/
def small : FS := fun x => if x = [] ∨ x = ["a"] then some .dir else if x = ["b"] then some .file else none

theorem small_tree : Tree small := by
  refine ⟨by simp [small], ?_⟩
  intro c par h
  unfold small at h ⊢
  by_cases hp : par = []
  · simp [hp]
  · simp [hp] at h

/-- `small` meets the hypotheses of `C115_made`, `C115_blocked`, `C115_schedule` and `C115_race_refuted`. -/
example : ∃ n fs', alone ["d", "c", "a"] n (small, .check) = (fs', .done) ∧ fs' ["c", "a"] = some .dir ∧ fs' ["b"] = some .file := by
  obtain ⟨n, fs', h1, h2⟩ := C115_made small small_tree ["d", "c", "a"] (by
    intro x hx
    rcases List.suffix_cons_iff.1 hx with rfl | hx
    · simp [small]
    rcases List.suffix_cons_iff.1 hx with rfl | hx
    · simp [small]
    rcases List.suffix_cons_iff.1 hx with rfl | hx
    · simp [small]
    · rw [List.suffix_nil.1 hx]; simp [small])
  exact ⟨n, fs', h1, (h2 _).1 ⟨["d"], rfl⟩, by rw [(h2 _).2 (by unfold On; decide)]; simp [small]⟩

example : ∃ n, alone ["d", "c", "b"] n (small, .check) = (small, .failed .notADirectory) :=
  C115_blocked small small_tree ["d", "c", "b"] ["b"] ⟨["d", "c"], rfl⟩ (by simp [small])

example : ((World.start small [["c", "a"], ["c", "a"]]).run [.call 0, .call 1, .call 0, .call 0, .call 1, .call 1]).pcs =
    [(["c", "a"], .done), (["c", "a"], .failed .fileExists)] :=
  (C115_race_refuted small "c" ["a"] (by simp [small]) (by simp [small])).2

end Dirs
end HF
