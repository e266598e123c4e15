import Verif.Merge.Groups
import Verif.Merge.Props
/-
C48: merging blocks with different partial sweeps.
-/
namespace HF.Merge

open HF.DataDict.Spec
open HF.DataDict hiding rename delitem
open HF.DataBlock
open HF.Arr hiding Err ofNd getitem

variable {β α : Type} [DecidableEq β]

/-- C48 for blocks in several families: each family gets its own sweep, numbered in the order in which
the families appear, over which its partial sweeps and its variables are stacked.  At its index `i`
there are the values of block number `i` of the family.  All other dims are taken from the first
block that has them.  Axes of length one are dropped. -/
theorem C48_families (env : Env β α) (ofIdx : Nat → β) (en : Enum String)
    (gs : List (List String × List String)) (blocks : List (Block β α)) (hu : Families gs blocks) :
    ∃ r, merge env ofIdx en blocks = .ok r ∧
      (r.vars.map Prod.fst).Perm (gs.flatMap Prod.fst ++ gs.flatMap Prod.snd) ∧
      (∀ (j : Nat) ks vs b0 bs, gs[j]? = some (ks, vs) → family ks blocks = b0 :: bs →
        (∀ k ∈ ks, ∃ a, lookup r.vars k = some a ∧
          a.dims = (if bs = [] then [] else [familyIndex ofIdx j (bs.length + 1)]) ∧
          ∀ (i : Nat) b d x, (b0 :: bs)[i]? = some b → (k, d) ∈ b.ivars → d.isa .dimPartial = true →
            d.data.head? = some x → ∀ c, c (familyIndex ofIdx j (bs.length + 1)).key = i →
            a.at_ c = env.toVal x) ∧
        (∀ n x0, lookup b0.vars n = some x0 → ∃ a, lookup r.vars n = some a ∧ a.WF ∧
          a.dims.zip a.nd.shape =
            (placed (familyIndex ofIdx j (bs.length + 1), bs.length + 1) (x0.dims.zip x0.nd.shape)).filter
              (fun p => p.2 ≠ 1) ∧
          ∀ (i : Nat) b x, (b0 :: bs)[i]? = some b → lookup b.vars n = some x →
            ∀ c, c (familyIndex ofIdx j (bs.length + 1)).key = i →
              (∀ e, (e, 1) ∈ x0.dims.zip x0.nd.shape → c e.key = 0) →
              a.at_ c = x.nd.get (x0.dims.map fun d => c d.key))) ∧
      ∀ n d, lookup (blocks.flatMap fun b => b.ivars) n = some d → n ∉ gs.flatMap Prod.fst →
        (∀ i < gs.length, n ≠ familyName i) → lookup r.ivars n = some d := by
  obtain ⟨q, hq, hnames, hord, hivars, hf⟩ := merge_families env ofIdx en gs blocks hu
  obtain ⟨r, hr1, hr2, hr3⟩ := C49_block env q hord
  have hkeys : r.vars.map Prod.fst = q.vars.map Prod.fst :=
    keys_of_forall₂ (R := fun p w => w.1 = p.1 ∧ Squeezed p.2 w.2) hr2 fun p w h => h.1.symm
  have hrn : (r.vars.map Prod.fst).Nodup := hkeys ▸ hord.vars
  have find : ∀ n a, lookup q.vars n = some a → ∃ a', lookup r.vars n = some a' ∧ Squeezed a a' := by
    intro n a ha
    obtain ⟨w, hw, hw1, hw2⟩ := forall₂_mem_left hr2 (lookup_mem ha)
    exact ⟨w.2, by rw [show n = w.1 from hw1.symm]; exact mem_lookup hrn hw, hw2⟩
  refine ⟨r, by simp only [merge, hq, hr1], by rw [hkeys]; exact hnames, ?_, ?_⟩
  · intro j ks vs b0 bs hg hfam
    have hj : j < gs.length := (List.getElem?_eq_some_iff.1 hg).1
    have hb0 : b0 ∈ blocks := (List.mem_filter.1 (show b0 ∈ family ks blocks by rw [hfam]; simp)).1
    have hlast : ∀ (i : Nat) b, (b0 :: bs)[i]? = some b → i < bs.length + 1 := by
      intro i b hb
      obtain ⟨h, _⟩ := List.getElem?_eq_some_iff.1 hb
      simpa using h
    refine ⟨?_, ?_⟩
    · intro k hk
      obtain ⟨a, h1, h2, h3, h4⟩ := (hf j ks vs b0 bs hg hfam).parts k hk
      obtain ⟨a', h1', hs⟩ := find k a h1
      rw [List.length_cons] at h2 h3
      refine ⟨a', h1', ?_, ?_⟩
      · rw [hs.dims, h2, h3]
        by_cases hb : bs = []
        · subst hb; simp
        · have : bs.length ≠ 0 := by simpa using hb
          simp [hb]
      · intro i b d x hb hd hp hx c hc
        rw [hs.elems c]
        · rw [at_, h2, List.map_cons, List.map_nil, hc]
          exact h4 i b d x hb hd hp hx
        · intro e he
          rw [h2, h3] at he
          simp only [List.zip_cons_cons, List.zip_nil_left, List.mem_singleton, Prod.mk.injEq] at he
          rw [he.1, hc]
          have := hlast i b hb
          omega
    · intro n x0 hx0
      obtain ⟨a, h1, h2, h3, h4, h5, h6⟩ := (hf j ks vs b0 bs hg hfam).vars n x0 hx0
      obtain ⟨a', h1', hs⟩ := find n a h1
      have hmem := lookup_mem hx0
      have hw0 := hu.wf b0 hb0 _ hmem
      rw [List.length_cons] at h2 h4 h6
      have hpz := placed_zip (familyIndex ofIdx j (bs.length + 1)) (bs.length + 1) x0 a hw0.1
        (by
          rw [List.map_cons, List.nodup_cons]
          refine ⟨fun hc => ?_, hw0.2⟩
          obtain ⟨d, hd, he⟩ := List.mem_map.1 hc
          exact (hu.dims b0 hb0 _ hmem d hd).2 j hj he)
        h3 h2 h4 h5
      refine ⟨a', h1', hs.wf, ?_, ?_⟩
      · rw [← hpz, hs.dims, hs.shape]
        have : ∀ (ds : List (Dim β)) (sh : List Nat), ds.length = sh.length →
            (((ds.zip sh).filter fun p => p.2 ≠ 1).map Prod.fst).zip (sh.filter (· ≠ 1)) =
              (ds.zip sh).filter fun p => p.2 ≠ 1 := by
          intro ds
          induction ds with
          | nil => intro sh _; simp
          | cons d t ih =>
            intro sh hl
            cases sh with
            | nil => simp at hl
            | cons s u =>
              have := ih u (by simpa using hl)
              by_cases hs : s = 1
              · rw [List.zip_cons_cons, List.filter_cons_of_neg (by simpa using hs),
                  List.filter_cons_of_neg (by simpa using hs)]
                exact this
              · rw [List.zip_cons_cons, List.filter_cons_of_pos (by simpa using hs),
                  List.filter_cons_of_pos (by simpa using hs), List.map_cons, List.zip_cons_cons, this]
        exact this _ _ h3
      · intro i b x hb hx c hc h0
        rw [hs.elems c, h6 i b x hb hx c hc]
        intro e he
        rw [hpz] at he
        rcases (placed_mem _ _ _).1 he with h | h
        · simp only [Prod.mk.injEq] at h
          rw [h.1, hc]
          have := hlast i b hb
          omega
        · exact h0 e h
  · intro n d hd hnk hni
    rw [hr3, hivars n d hd hnk hni]
    rfl

end HF.Merge
