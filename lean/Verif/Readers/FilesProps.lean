import Verif.Readers.Files
import Verif.Merge.Props
/-
C60: reading several files.
-/
namespace HF.Readers.Files

open HF.DataDict.Spec
open HF.DataBlock
open HF.Merge

variable {β α σ : Type}

/-- Blocks of several files that fit together: none has a partial sweep, all have the variables
`vs` with the same shapes, and no name is used twice or reserved. -/
structure Fit (vs : List String) (bs : List (Block β α)) : Prop where
  uniform : Uniform [] vs bs
  reserved : ∀ n ∈ ["FILEINDEX", "FILENAME"], n ∉ vs ∧ ∀ b ∈ bs, n ∉ b.ivars.map Prod.fst ∧
    ∀ p ∈ b.vars, ∀ d ∈ p.2.dims, d.name ≠ n
  elems : ∀ n ∈ vs, ∀ m i j, isMatrixName n = some (m, i, j) → m ≠ "FILEINDEX" ∧ m ≠ "FILENAME"

/-- The block of file number `k`, with number and name of the file. -/
def marked (ofIdx : Nat → β) (ofName : String → α) (k : Nat) (name : String) (b : Block β α) : Block β α :=
  ⟨b.vars ++ [("FILENAME", ⟨[], ⟨[], fun _ => ofName name⟩⟩)],
    b.ivars ++ [("FILEINDEX", fileIndex ofIdx k)], none⟩

theorem assign_append {V : Type} (m : OMap String V) (k : String) (v : V) (h : k ∉ m.map Prod.fst) :
    assign m k v = m ++ [(k, v)] := by
  have : member m k = false := by
    rw [← Bool.not_eq_true]
    intro q
    exact h ((DataDict.member_iff _ _).1 q)
  simp [assign, this]

theorem name_plain : isMatrixName "FILENAME" = none ∧ isMatrixName "FILEINDEX" = none := by decide +kernel

theorem contains_false {b : Block β α} {n : String} (h1 : n ∉ b.vars.map Prod.fst)
    (h2 : n ∉ b.ivars.map Prod.fst) : contains b n = false := by
  unfold contains
  rw [Bool.or_eq_false_iff]
  constructor <;> rw [← Bool.not_eq_true] <;> intro q
  · exact h1 ((DataDict.member_iff _ _).1 q)
  · exact h2 ((DataDict.member_iff _ _).1 q)

variable [DecidableEq β]

/-- One file with one block. -/
theorem one_file (env : Env β α) (ofIdx : Nat → β) (en : Enum String) (ofName : String → α)
    (blocksOf : σ → Except DataBlock.Err (List (Block β α))) {k : Nat} {name : String} {text : σ}
    {b : Block β α} (hb : blocksOf text = .ok [b])
    (h : ∀ n ∈ ["FILEINDEX", "FILENAME"], n ∉ b.vars.map Prod.fst ∧ n ∉ b.ivars.map Prod.fst) :
    ∃ b', doFile env ofIdx en true blocksOf k text = .ok b' ∧
      addName env ofName name b' = .ok (marked ofIdx ofName k name b) := by
  have h1 := h "FILEINDEX" (by simp)
  have h2 := h "FILENAME" (by simp)
  refine ⟨setDim b "FILEINDEX" (fileIndex ofIdx k), ?_, ?_⟩
  · simp only [doFile, hb, mergeOf, if_true, addIndex, contains_false h1.1 h1.2, Bool.false_eq_true,
      if_false]
  · have hni : "FILENAME" ∉ (setDim b "FILEINDEX" (fileIndex ofIdx k)).ivars.map Prod.fst := by
      unfold setDim
      rw [assign_append _ _ _ h1.2]
      simpa using h2.2
    unfold addName
    rw [contains_false (b := setDim b "FILEINDEX" (fileIndex ofIdx k)) h2.1 hni, setArr_new env _ _ _ hni h2.1 (by
      intro m i j q; rw [name_plain.1] at q; cases q)]
    simp only [Bool.false_eq_true, if_false, marked, addDims, List.foldl_nil, setDim]
    rw [assign_append _ _ _ h1.2]
    rfl

/-- The blocks of all files. -/
def markedAll (ofIdx : Nat → β) (ofName : String → α) : Nat → List (String × Block β α) → List (Block β α)
  | _, [] => []
  | k, (name, b) :: t => marked ofIdx ofName k name b :: markedAll ofIdx ofName (k + 1) t

theorem all_files (env : Env β α) (ofIdx : Nat → β) (en : Enum String) (ofName : String → α)
    (blocksOf : σ → Except DataBlock.Err (List (Block β α))) (k : Nat) (files : List (String × σ))
    (nbs : List (String × Block β α))
    (hf : List.Forall₂ (fun f nb => f.1 = nb.1 ∧ blocksOf f.2 = .ok [nb.2] ∧
      ∀ n ∈ ["FILEINDEX", "FILENAME"], n ∉ nb.2.vars.map Prod.fst ∧ n ∉ nb.2.ivars.map Prod.fst) files nbs) :
    readEach env ofIdx en ofName true blocksOf k files = .ok (markedAll ofIdx ofName k nbs) := by
  induction hf generalizing k with
  | nil => rfl
  | @cons f nb fs t h _ ih =>
    obtain ⟨name, text⟩ := f
    obtain ⟨name', b⟩ := nb
    obtain ⟨rfl, h1, h2⟩ := h
    obtain ⟨b', e1, e2⟩ := one_file env ofIdx en ofName blocksOf (k := k) (name := name) h1 h2
    simp only [readEach, e1, e2, ih (k + 1), markedAll]

theorem markedAll_getElem (ofIdx : Nat → β) (ofName : String → α) (k : Nat) (l : List (String × Block β α))
    (i : Nat) : (markedAll ofIdx ofName k l)[i]? =
      l[i]?.map fun nb => marked ofIdx ofName (k + i) nb.1 nb.2 := by
  induction l generalizing k i with
  | nil => simp [markedAll]
  | cons nb t ih =>
    cases i with
    | zero => simp [markedAll]
    | succ i =>
      simp only [markedAll, List.getElem?_cons_succ, ih]
      congr 2
      funext nb
      congr 1
      omega

theorem mem_markedAll {ofIdx : Nat → β} {ofName : String → α} {k : Nat} {l : List (String × Block β α)}
    {b : Block β α} (h : b ∈ markedAll ofIdx ofName k l) :
    ∃ i nb, nb ∈ l ∧ b = marked ofIdx ofName i nb.1 nb.2 := by
  obtain ⟨i, hi⟩ := List.getElem?_of_mem h
  rw [markedAll_getElem] at hi
  cases hl : l[i]? with
  | none => rw [hl] at hi; cases hi
  | some nb =>
    rw [hl] at hi
    exact ⟨k + i, nb, List.mem_of_getElem? hl, (Option.some.inj hi).symm⟩

omit [DecidableEq β] in
theorem lookup_marked {ofIdx : Nat → β} {ofName : String → α} {k : Nat} {name : String} {b : Block β α}
    {n : String} (h : n ≠ "FILENAME") : lookup (marked ofIdx ofName k name b).vars n = lookup b.vars n := by
  unfold marked
  rw [DataDict.lookup_append]
  simp [lookup, Ne.symm h]

/-- The marked blocks fit together. -/
theorem uniform_marked (ofIdx : Nat → β) (ofName : String → α) (vs : List String)
    (l : List (String × Block β α)) (h : Fit vs (l.map Prod.snd)) (k : Nat) :
    Uniform ["FILEINDEX"] (vs ++ ["FILENAME"]) (markedAll ofIdx ofName k l) := by
  have hu := h.uniform
  have r1 := h.reserved "FILEINDEX" (by simp)
  have r2 := h.reserved "FILENAME" (by simp)
  have mem : ∀ {b}, b ∈ markedAll ofIdx ofName k l → ∃ i nm b0, b0 ∈ l.map Prod.snd ∧
      b = marked ofIdx ofName i nm b0 := by
    intro b hb
    obtain ⟨i, nb, hm, e⟩ := mem_markedAll hb
    exact ⟨i, nb.1, nb.2, List.mem_map_of_mem hm, e⟩
  refine ⟨?_, ?_, ?_, ?_, ?_, ?_, ?_, ?_, ?_, ?_⟩
  · intro b hb
    obtain ⟨i, nm, b0, hb0, rfl⟩ := mem hb
    have := hu.parts b0 hb0
    have e : (fileIndex ofIdx i).isa .dimPartial = true := by
      show Cls.isSub .dimPartial .dimPartial = true
      decide +kernel
    simp only [marked, List.filter_append, List.map_append, this, List.nil_append, List.filter_cons, e,
      if_true, List.filter_nil, List.map_cons, List.map_nil]
  · intro b hb p hp hq
    obtain ⟨i, nm, b0, hb0, rfl⟩ := mem hb
    rcases List.mem_append.1 hp with q | q
    · exact hu.vals b0 hb0 p q hq
    · rw [List.mem_singleton] at q; subst q; simp [fileIndex]
  · intro b hb n
    obtain ⟨i, nm, b0, hb0, rfl⟩ := mem hb
    simp only [marked, List.map_append, List.mem_append, hu.vars b0 hb0 n, List.map_cons, List.map_nil]
  · intro b hb n hn
    obtain ⟨i, nm, b0, hb0, rfl⟩ := mem hb
    simp only [marked, List.map_append, List.map_cons, List.map_nil, List.mem_append, List.mem_singleton,
      not_or]
    rcases List.mem_append.1 hn with q | q
    · exact ⟨hu.apart b0 hb0 n q, fun e => r1.1 (e ▸ q)⟩
    · rw [List.mem_singleton] at q; subst q
      exact ⟨(r2.2 b0 hb0).1, by decide⟩
  · intro b hb p hp
    obtain ⟨i, nm, b0, hb0, rfl⟩ := mem hb
    rcases List.mem_append.1 hp with q | q
    · exact hu.wf b0 hb0 p q
    · rw [List.mem_singleton] at q; subst q; exact ⟨rfl, by simp⟩
  · intro b hb b' hb' n x x' hx hx'
    obtain ⟨i, nm, b0, hb0, rfl⟩ := mem hb
    obtain ⟨i', nm', b0', hb0', rfl⟩ := mem hb'
    by_cases e : n = "FILENAME"
    · subst e
      have no : ∀ b1 ∈ l.map Prod.snd, lookup b1.vars "FILENAME" = none := fun b1 hb1 =>
        (lookup_none_iff' _ _).2 fun q => r2.1 ((hu.vars b1 hb1 _).1 q)
      simp only [marked, DataDict.lookup_append, no b0 hb0] at hx
      simp only [marked, DataDict.lookup_append, no b0' hb0'] at hx'
      simp [lookup] at hx hx'
      rw [← hx, ← hx']
    · rw [lookup_marked e] at hx hx'
      exact hu.shape b0 hb0 b0' hb0' n x x' hx hx'
  · have := hu.nodup
    simp only [List.nil_append] at this
    simp only [List.singleton_append, List.nodup_cons, List.mem_append, List.mem_singleton, not_or]
    refine ⟨⟨r1.1, by decide⟩, ?_⟩
    rw [List.nodup_append]
    refine ⟨this, by simp, ?_⟩
    intro a ha b hb e
    rw [List.mem_singleton] at hb
    subst hb; subst e
    exact r2.1 ha
  · intro b hb p hp d hd
    obtain ⟨i, nm, b0, hb0, rfl⟩ := mem hb
    rcases List.mem_append.1 hp with q | q
    · have := hu.dims b0 hb0 p q d hd
      have e1 := (r1.2 b0 hb0).2 p q d hd
      have e2 := (r2.2 b0 hb0).2 p q d hd
      refine ⟨?_, this.2⟩
      simp only [List.nil_append] at this
      simp only [List.singleton_append, List.mem_cons, List.mem_append, List.not_mem_nil, or_false, not_or]
      exact ⟨e1, this.1, e2⟩
    · rw [List.mem_singleton] at q; subst q; simp at hd
  · have := hu.index
    simp only [List.nil_append] at this
    simp only [List.singleton_append, List.mem_cons, List.mem_append, List.not_mem_nil, or_false, not_or]
    exact ⟨by decide, this, by decide⟩
  · intro n hn m i j hm
    simp only [List.singleton_append, List.mem_cons, List.mem_append, List.not_mem_nil, or_false] at hn
    rcases hn with rfl | hn | rfl
    · rw [name_plain.2] at hm; cases hm
    · have h1 := hu.elems n (by simpa using hn) m i j hm
      simp only [List.nil_append] at h1
      simp only [List.singleton_append, List.mem_cons, List.mem_append, List.not_mem_nil, or_false, not_or]
      exact ⟨(h.elems n hn m i j hm).1, h1, (h.elems n hn m i j hm).2⟩
    · rw [name_plain.1] at hm; cases hm

omit [DecidableEq β] in
theorem not_vars {vs : List String} {bs : List (Block β α)} (h : Fit vs bs) {b : Block β α} (hb : b ∈ bs) :
    ∀ n ∈ ["FILEINDEX", "FILENAME"], n ∉ b.vars.map Prod.fst ∧ n ∉ b.ivars.map Prod.fst :=
  fun n hn => ⟨fun q => (h.reserved n hn).1 ((h.uniform.vars b hb n).1 q), ((h.reserved n hn).2 b hb).1⟩

omit [DecidableEq β] in
theorem forall₂_and {δ ε : Type} {R : δ → ε → Prop} {p : ε → Prop} {l : List δ} {m : List ε}
    (h : List.Forall₂ R l m) (hp : ∀ b ∈ m, p b) : List.Forall₂ (fun a b => R a b ∧ p b) l m := by
  induction h with
  | nil => exact .nil
  | cons hr _ ih => exact .cons ⟨hr, hp _ (by simp)⟩ (ih fun b hb => hp b (by simp [hb]))

/-- C60.  Several files with one block each, which have the same variables in the same shapes,
become one block: all variables get the sweep `INDEX1` over the files, at its index `i` there
are the values of file number `i`, in the order of the files, `FILENAME` holds there the name of
this file and `FILEINDEX` its number.  All other axes are those of the first file. -/
theorem C60_files (env : Env β α) (ofIdx : Nat → β) (en : Enum String) (ofName : String → α)
    (blocksOf : σ → Except DataBlock.Err (List (Block β α))) (vs : List String)
    (files : List (String × σ)) (nb0 nb1 : String × Block β α) (t : List (String × Block β α))
    (hf : List.Forall₂ (fun f nb => f.1 = nb.1 ∧ blocksOf f.2 = .ok [nb.2]) files (nb0 :: nb1 :: t))
    (hfit : Fit vs ((nb0 :: nb1 :: t).map Prod.snd)) :
    let idx := blockIndex ofIdx (t.length + 2)
    ∃ r, readFiles env ofIdx en ofName true blocksOf files = .ok r ∧
      (r.vars.map Prod.fst).Perm ("FILEINDEX" :: (vs ++ ["FILENAME"])) ∧
      (∃ a, lookup r.vars "FILEINDEX" = some a ∧ a.dims = [idx] ∧
        ∀ i < t.length + 2, ∀ c, c idx.key = i → a.at_ c = env.toVal (ofIdx i)) ∧
      (∃ a, lookup r.vars "FILENAME" = some a ∧ a.dims = [idx] ∧
        ∀ (i : Nat) nb, (nb0 :: nb1 :: t)[i]? = some nb → ∀ c, c idx.key = i → a.at_ c = ofName nb.1) ∧
      (∀ n ∈ vs, ∀ x0, lookup nb0.2.vars n = some x0 → ∃ a, lookup r.vars n = some a ∧ a.WF ∧
        a.dims.zip a.nd.shape =
          (placed (idx, t.length + 2) (x0.dims.zip x0.nd.shape)).filter (fun p => p.2 ≠ 1) ∧
        ∀ (i : Nat) nb x, (nb0 :: nb1 :: t)[i]? = some nb → lookup nb.2.vars n = some x →
          ∀ c, c idx.key = i → (∀ e, (e, 1) ∈ x0.dims.zip x0.nd.shape → c e.key = 0) →
            a.at_ c = x.nd.get (x0.dims.map fun d => c d.key)) ∧
      ∀ n d, lookup nb0.2.ivars n = some d → n ≠ "INDEX1" → lookup r.ivars n = some d := by
  intro idx
  obtain ⟨l, hl⟩ : ∃ l, l = nb0 :: nb1 :: t := ⟨_, rfl⟩
  rw [← hl] at hf hfit ⊢
  have hall := all_files env ofIdx en ofName blocksOf 0 files l
    ((forall₂_and hf (p := fun nb => ∀ n ∈ ["FILEINDEX", "FILENAME"], n ∉ nb.2.vars.map Prod.fst ∧
      n ∉ nb.2.ivars.map Prod.fst) fun nb hnb => not_vars hfit (List.mem_map_of_mem hnb)).imp
      fun _ _ h => ⟨h.1.1, h.1.2, h.2⟩)
  have hne : files.isEmpty = false := by
    rw [hl] at hf
    cases hf
    rfl
  have hm : markedAll ofIdx ofName 0 l = marked ofIdx ofName 0 nb0.1 nb0.2 ::
      markedAll ofIdx ofName 1 (nb1 :: t) := by rw [hl]; rfl
  have hm2 : markedAll ofIdx ofName 1 (nb1 :: t) = marked ofIdx ofName 1 nb1.1 nb1.2 ::
      markedAll ofIdx ofName 2 t := rfl
  have hlen : ∀ k (l : List (String × Block β α)), (markedAll ofIdx ofName k l).length = l.length := by
    intro k l
    induction l generalizing k with
    | nil => rfl
    | cons nb t ih => simp [markedAll, ih]
  have hlen1 : (markedAll ofIdx ofName 1 (nb1 :: t)).length + 1 = t.length + 2 := by rw [hlen]; rfl
  have hu := uniform_marked ofIdx ofName vs l hfit 0
  rw [hm] at hu
  obtain ⟨r, hr, hperm, hks, hvs, hiv⟩ := C48_merge env ofIdx en _ _ _ _ (by simp) hu
  rw [hlen1] at hks hvs
  have hget : ∀ (i : Nat) nb, l[i]? = some nb →
      (marked ofIdx ofName 0 nb0.1 nb0.2 :: markedAll ofIdx ofName 1 (nb1 :: t))[i]? =
        some (marked ofIdx ofName i nb.1 nb.2) := by
    intro i nb hi
    rw [← hm, markedAll_getElem, hi]
    simp
  have hb0 : nb0.2 ∈ l.map Prod.snd := by rw [hl]; simp
  refine ⟨r, ?_, hperm, ?_, ?_, ?_, ?_⟩
  · simp only [readFiles, hne, Bool.false_eq_true, if_false, hall, mergeOf, if_true]
    rw [hm, hm2] at *
    simp only [hr]
  · obtain ⟨a, ha, hd, hv⟩ := hks "FILEINDEX" (by simp)
    rw [if_neg (by rw [hm2]; simp)] at hd
    refine ⟨a, ha, hd, ?_⟩
    intro i hi c hc
    obtain ⟨nb, hnb⟩ : ∃ nb, l[i]? = some nb := by
      rw [hl]
      exact ⟨_, List.getElem?_eq_getElem (by simpa using hi)⟩
    refine hv i _ (fileIndex ofIdx i) (ofIdx i) (hget i nb hnb) ?_ ?_ rfl c hc
    · simp [marked]
    · show Cls.isSub .dimPartial .dimPartial = true
      decide +kernel
  · have hn : ∀ k nm (b : Block β α), b ∈ l.map Prod.snd →
        lookup (marked ofIdx ofName k nm b).vars "FILENAME" = some ⟨[], ⟨[], fun _ => ofName nm⟩⟩ := by
      intro k nm b hb
      have no : lookup b.vars "FILENAME" = none :=
        (lookup_none_iff' _ _).2 (not_vars hfit hb "FILENAME" (by simp)).1
      simp only [marked, DataDict.lookup_append, no]
      simp [lookup]
    obtain ⟨a, ha, hwf, hz, hv⟩ := hvs "FILENAME" _ (hn 0 nb0.1 nb0.2 hb0)
    have hd : a.dims = [idx] := by
      have := congrArg (List.map Prod.fst) hz
      rw [List.map_fst_zip (by rw [hwf]), List.zip_nil_left] at this
      rw [this]
      simp only [placed]
      rw [List.filter_cons]
      simp [idx]
    refine ⟨a, ha, hd, ?_⟩
    intro i nb hi c hc
    refine hv i _ _ (hget i nb hi) (hn i nb.1 nb.2 (List.mem_map_of_mem (List.mem_of_getElem? hi))) c hc ?_
    intro e he
    simp at he
  · intro n hn x0 hx0
    have hne' : n ≠ "FILENAME" := fun e => (hfit.reserved "FILENAME" (by simp)).1 (e ▸ hn)
    obtain ⟨a, ha, hwf, hz, hv⟩ := hvs n x0 (by rw [lookup_marked hne']; exact hx0)
    refine ⟨a, ha, hwf, hz, ?_⟩
    intro i nb x hi hx c hc h1
    exact hv i _ x (hget i nb hi) (by rw [lookup_marked hne']; exact hx) c hc h1
  · intro n d hd hi
    have hk := lookup_key hd
    have hnf : n ≠ "FILEINDEX" := fun e => (not_vars hfit hb0 "FILEINDEX" (by simp)).2 (e ▸ hk)
    refine hiv n d ?_ (by simpa using hnf) hi
    simp only [marked, DataDict.lookup_append, hd]
    rfl

/-- C60.  One file with one block: its block, with number zero and name of the file. -/
theorem C60_one_file (env : Env β α) (ofIdx : Nat → β) (en : Enum String) (ofName : String → α)
    (blocksOf : σ → Except DataBlock.Err (List (Block β α))) (name : String) (text : σ) (b : Block β α)
    (hb : blocksOf text = .ok [b])
    (h : ∀ n ∈ ["FILEINDEX", "FILENAME"], n ∉ b.vars.map Prod.fst ∧ n ∉ b.ivars.map Prod.fst) :
    ∃ r, readFiles env ofIdx en ofName true blocksOf [(name, text)] = .ok r ∧
      (∀ n x, lookup b.vars n = some x → lookup r.vars n = some x) ∧
      (∀ n d, lookup b.ivars n = some d → lookup r.ivars n = some d) ∧
      (∃ a, lookup r.vars "FILENAME" = some a ∧ a.dims = [] ∧ ∀ c, a.at_ c = ofName name) ∧
      ∃ d, lookup r.ivars "FILEINDEX" = some d ∧ d.data = [ofIdx 0] ∧
        (∀ n, n ∈ r.vars.map Prod.fst ↔ n ∈ b.vars.map Prod.fst ∨ n = "FILENAME") ∧
        ∀ n, n ∈ r.ivars.map Prod.fst ↔ n ∈ b.ivars.map Prod.fst ∨ n = "FILEINDEX" := by
  obtain ⟨b', e1, e2⟩ := one_file env ofIdx en ofName blocksOf (k := 0) (name := name) hb h
  refine ⟨marked ofIdx ofName 0 name b, ?_, ?_, ?_, ?_, ?_⟩
  · simp [readFiles, readEach, e1, e2, mergeOf]
  · intro n x hx
    simp only [marked, DataDict.lookup_append, hx]; rfl
  · intro n x hx
    simp only [marked, DataDict.lookup_append, hx]; rfl
  · have no : lookup b.vars "FILENAME" = none := (lookup_none_iff' _ _).2 (h "FILENAME" (by simp)).1
    refine ⟨⟨[], ⟨[], fun _ => ofName name⟩⟩, ?_, rfl, fun _ => rfl⟩
    simp only [marked, DataDict.lookup_append, no]
    simp [lookup]
  · have no : lookup b.ivars "FILEINDEX" = none := (lookup_none_iff' _ _).2 (h "FILEINDEX" (by simp)).2
    refine ⟨fileIndex ofIdx 0, ?_, rfl, ?_, ?_⟩
    · simp only [marked, DataDict.lookup_append, no]
      simp [lookup]
    · intro n; simp [marked]
    · intro n; simp [marked]

/-- C60.  If a file cannot be read nothing is returned, whatever the others hold; there is
always at least one file. -/
theorem C60_all_or_nothing (env : Env β α) (ofIdx : Nat → β) (en : Enum String) (ofName : String → α)
    (merge : Bool) (blocksOf : σ → Except DataBlock.Err (List (Block β α))) (files : List (String × σ))
    (r : Block β α) (h : readFiles env ofIdx en ofName merge blocksOf files = .ok r) :
    files ≠ [] ∧ ∀ f ∈ files, ∃ bs, blocksOf f.2 = .ok bs ∧ bs ≠ [] := by
  have each : ∀ k (fs : List (String × σ)) bs, readEach env ofIdx en ofName merge blocksOf k fs = .ok bs →
      ∀ f ∈ fs, ∃ bs, blocksOf f.2 = .ok bs ∧ bs ≠ [] := by
    intro k fs
    induction fs generalizing k with
    | nil => intro bs _ f hf; cases hf
    | cons p t ih =>
      obtain ⟨name, text⟩ := p
      intro bs hbs f hf
      simp only [readEach] at hbs
      cases hd : doFile env ofIdx en merge blocksOf k text with
      | error e => rw [hd] at hbs; cases hbs
      | ok b =>
        rw [hd] at hbs
        simp only at hbs
        cases hn : addName env ofName name b with
        | error e => rw [hn] at hbs; cases hbs
        | ok b' =>
          rw [hn] at hbs
          simp only at hbs
          cases ht : readEach env ofIdx en ofName merge blocksOf (k + 1) t with
          | error e => rw [ht] at hbs; cases hbs
          | ok bs' =>
            rcases List.mem_cons.1 hf with rfl | hf
            · unfold doFile at hd
              cases hb : blocksOf text with
              | error e => rw [hb] at hd; cases hd
              | ok l =>
                cases l with
                | nil => rw [hb] at hd; cases hd
                | cons b0 l => exact ⟨_, rfl, by simp⟩
            · exact ih (k + 1) bs' ht f hf
  unfold readFiles at h
  cases files with
  | nil => cases h
  | cons f fs =>
    refine ⟨by simp, ?_⟩
    simp only [List.isEmpty_cons, Bool.false_eq_true, if_false] at h
    cases he : readEach env ofIdx en ofName merge blocksOf 0 (f :: fs) with
    | error e => rw [he] at h; cases h
    | ok bs => exact each 0 _ bs he

/-- C60, violated: with `merge=False` no file can be read at all. -/
theorem C60_unmerged_refuted (env : Env β α) (ofIdx : Nat → β) (en : Enum String) (ofName : String → α)
    (blocksOf : σ → Except DataBlock.Err (List (Block β α))) (name : String) (text : σ)
    (fs : List (String × σ)) (b : Block β α) (bs : List (Block β α)) (hb : blocksOf text = .ok (b :: bs)) :
    readFiles env ofIdx en ofName false blocksOf ((name, text) :: fs) = .error .attributeError := by
  simp [readFiles, readEach, doFile, hb, mergeOf]

end HF.Readers.Files
