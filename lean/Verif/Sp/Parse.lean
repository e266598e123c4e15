import Verif.Sp.Spec
import Verif.Sp.CommentProps
import Verif.DataBlock.SqueezeProps
import Verif.DataBlock.ConvertProps
import Verif.Readers.ComplexLemmas
import Verif.Hyper.BlockProps
/-
SP data files: the block made of a table.
-/
namespace HF.Sp

open HF.DataDict.Spec HF.DataBlock
open HF.DataDict hiding rename delitem
open Units (isWs strip)
open Text (join)

variable {β α : Type}

theorem collect_nodup {X : Type} (l : List (String × X)) : (keys (collect l)).Nodup := by
  induction l using List.reverseRecOn with
  | nil => exact List.nodup_nil
  | append_singleton l c ih => rw [collect_snoc]; exact keys_assigns_nodup [(_, _)] _ ih

theorem getD_col (rows : List (List α)) (j i : Nat) (d : α) (r : List α) (x : α) (hi : rows[i]? = some r)
    (hj : r[j]? = some x) : (rows.map fun r => r.getD j d).getD i d = x := by
  rw [List.getD_eq_getElem?_getD, List.getElem?_map, hi]
  simp [hj]

/-- The variable made of columns. -/
theorem toVar_spec (env : Env β α) (num : Nat → β) (freq : Dim β) (rows : List (List α)) (js : List Nat)
    (hj : js ≠ []) :
    ∃ a, toVar env num freq (js.map fun j => rows.map fun r => r.getD j env.junk) = .ok a ∧
      (∀ d ∈ a.dims, d = freq ∨ d.name = "rep" ∧ 2 ≤ js.length) ∧
      ((rows.length = 1 → js.length = 1) → Columns num freq rows js a) ∧
      (rows.length = 1 → 2 ≤ js.length → a.dims = [repDim num js.length] ∧ a.nd.shape = [js.length] ∧
        ∀ (k : Nat) r x j, rows[0]? = some r → js[k]? = some j → r[j]? = some x → a.nd.get [k] = x) := by
  match js, hj with
  | [j], _ =>
    refine ⟨_, rfl, by simp, fun _ => ⟨?_, by simp⟩, by simp⟩
    rintro j' ⟨⟩
    refine ⟨rfl, by simp, fun i r x hi hr => ?_⟩
    exact getD_col rows j i env.junk r x hi hr
  | j :: j' :: js, _ =>
    by_cases h1 : rows.length = 1
    · obtain ⟨g, e, hg⟩ := toVar_single env num freq (rows.map fun r => r.getD j env.junk)
        (rows.map fun r => r.getD j' env.junk) (js.map fun j => rows.map fun r => r.getD j env.junk) (by simpa using h1)
      refine ⟨_, e, by simp [repDim], fun h => by simp at h; exact absurd h1 (by simp [h]), ?_⟩
      intro _ _
      refine ⟨by simp, by simp, fun k r x jk hi hk hr => ?_⟩
      refine (hg _).trans ?_
      have : ((rows.map fun r => r.getD j env.junk) :: (rows.map fun r => r.getD j' env.junk) ::
          js.map fun j => rows.map fun r => r.getD j env.junk) =
          (j :: j' :: js).map fun j => rows.map fun r => r.getD j env.junk := rfl
      have hc : ((j :: j' :: js).map fun j => rows.map fun r => r.getD j env.junk).getD k [] =
          rows.map fun r => r.getD jk env.junk := by
        rw [List.getD_eq_getElem?_getD, List.getElem?_map, hk]; rfl
      rw [this, hc]
      exact getD_col rows jk 0 env.junk r x hi hr
    · obtain ⟨g, e, hg⟩ := toVar_many env num freq (rows.map fun r => r.getD j env.junk)
        (rows.map fun r => r.getD j' env.junk) (js.map fun j => rows.map fun r => r.getD j env.junk) (by simpa using h1)
      refine ⟨_, e, by simp [repDim], fun _ => ⟨by simp, fun _ => ⟨by simp, by simp, ?_⟩⟩,
        fun h => absurd h h1⟩
      intro i k r x jk hi hk hr
      refine (hg _ _).trans ?_
      have : ((rows.map fun r => r.getD j env.junk) :: (rows.map fun r => r.getD j' env.junk) ::
          js.map fun j => rows.map fun r => r.getD j env.junk) =
          (j :: j' :: js).map fun j => rows.map fun r => r.getD j env.junk := rfl
      have hc : ((j :: j' :: js).map fun j => rows.map fun r => r.getD j env.junk).getD k [] =
          rows.map fun r => r.getD jk env.junk := by
        rw [List.getD_eq_getElem?_getD, List.getElem?_map, hk]; rfl
      rw [this, hc]
      exact getD_col rows jk i env.junk r x hi hr

/-- The variables of the block before partial sweeps are added. -/
theorem vars_spec (env : Env β α) (num : Nat → β) (b : Table) (rows : List (List α)) (first : String)
    (hfirst : b.cols.head? = some first) (hp : Plain b) (m : Nat) (hm : m ≤ b.cols.length) (hm1 : 1 ≤ m)
    (freq : Dim β) (hf : freq.name = first)
    (output : OMap String (List (List α)))
    (ho : output = collect (b.cols.zip ((List.range m).map fun j => rows.map fun r => r.getD j env.junk))) :
    lookup output first = some [rows.map fun r => r.getD 0 env.junk] ∧
    ∃ b', putVars env num freq (setDim {} first freq) output.tail = .ok b' ∧
      keys b'.vars = (b.cols.take m).tail.eraseDups ∧
      (∀ n ∈ (b.cols.take m).tail, ∃ a, lookup b'.vars n = some a ∧
        toVar env num freq ((b.positions m n).map fun j => rows.map fun r => r.getD j env.junk) = .ok a) ∧
      (keys b'.ivars).Nodup ∧ lookup b'.ivars first = some freq ∧ ∀ n ∈ keys b'.ivars, n = first ∨
        n = "rep" ∧ ∃ v ∈ (b.cols.take m).tail, 2 ≤ (b.positions m v).length := by
  obtain ⟨nt, hcols⟩ : ∃ nt, b.cols = first :: nt := by
    cases h : b.cols with
    | nil => rw [h] at hfirst; simp at hfirst
    | cons x nt => rw [h] at hfirst; simp at hfirst; exact ⟨nt, by rw [hfirst]⟩
  obtain ⟨m', rfl⟩ : ∃ m', m = m' + 1 := ⟨m - 1, by omega⟩
  have hnt : first ∉ nt := by have := hp.first first (by rw [hfirst]; rfl); rwa [hcols] at this
  have hkeys : keys output = first :: (nt.take m').eraseDups := by
    rw [ho, keys_collect, zip_fst, hcols, List.take_succ_cons, List.eraseDups_cons]
    congr 2
    rw [List.filter_eq_self]
    intro x hx
    have : x ≠ first := fun h => hnt (h ▸ List.mem_of_mem_take hx)
    simpa using this
  have hnd : (keys output).Nodup := by rw [ho]; exact collect_nodup _
  have hlook : ∀ n, n ∈ b.cols.take (m' + 1) → lookup output n =
      some ((b.positions (m' + 1) n).map fun j => rows.map fun r => r.getD j env.junk) := by
    intro n hn
    rw [ho, lookup_collect, zip_fst, if_pos hn, cols_of _ _ hm]
    rfl
  obtain ⟨cs0, tl, hout⟩ : ∃ cs0 tl, output = (first, cs0) :: tl := by
    cases h : output with
    | nil => rw [h] at hkeys; simp [keys] at hkeys
    | cons p tl =>
      rw [h] at hkeys
      simp only [keys, List.map_cons, List.cons.injEq] at hkeys
      exact ⟨p.2, tl, by rw [← hkeys.1]⟩
  have htl : keys tl = (nt.take m').eraseDups := by
    rw [hout] at hkeys
    simpa [keys] using hkeys
  have htlmem : ∀ p ∈ tl, p.1 ∈ nt.take m' := by
    intro p hp'
    have : p.1 ∈ keys tl := List.mem_map_of_mem hp'
    rwa [htl, List.mem_eraseDups] at this
  have hlooktl : ∀ p ∈ tl, p.2 = (b.positions (m' + 1) p.1).map fun j => rows.map fun r => r.getD j env.junk := by
    intro p hp'
    have h1 := mem_lookup (m := output) hnd (p := p) (by rw [hout]; simp [hp'])
    rw [hlook p.1 (by rw [hcols, List.take_succ_cons]; simp [htlmem p hp'])] at h1
    simpa using h1.symm
  have hpos : ∀ n ∈ nt.take m', b.positions (m' + 1) n ≠ [] := by
    intro n hn h
    obtain ⟨k, hk, e⟩ := List.getElem_of_mem hn
    have hk2 : k < m' := by simp at hk; omega
    have : k + 1 ∈ b.positions (m' + 1) n := by
      unfold Table.positions
      rw [List.mem_filter]
      refine ⟨by simp [hk2], ?_⟩
      rw [hcols]
      simp only [List.getElem?_cons_succ, decide_eq_true_eq]
      rw [List.getElem_take] at e
      rw [← e, List.getElem?_eq_getElem]
    rw [h] at this
    simp at this
  constructor
  · rw [hlook first (by rw [hcols]; simp)]
    have : b.positions (m' + 1) first = [0] := by
      unfold Table.positions
      rw [List.range_succ_eq_map, List.filter_cons_of_pos (by rw [hcols]; simp), List.filter_map]
      simp only [List.cons.injEq, List.map_eq_nil_iff, List.filter_eq_nil_iff, true_and]
      intro j _ h
      rw [hcols] at h
      simp only [Function.comp, Nat.succ_eq_add_one, List.getElem?_cons_succ, decide_eq_true_eq] at h
      exact hnt (List.mem_of_getElem? h)
    rw [this]; rfl
  · obtain ⟨ws, hws⟩ := forall₂_choose (l := tl)
      (R := fun (p : String × List (List α)) (w : String × Arr β α) => p.1 = w.1 ∧ toVar env num freq p.2 = .ok w.2) (by
        intro p hp'
        obtain ⟨a, ha, -⟩ := toVar_spec env num freq rows (b.positions (m' + 1) p.1) (hpos p.1 (htlmem p hp'))
        exact ⟨(p.1, a), rfl, by rw [hlooktl p hp']; exact ha⟩)
    have hkws : keys ws = keys tl := keys_of_forall₂ hws fun _ _ h => h.1
    have hwmem : ∀ w ∈ ws, w.1 ∈ nt.take m' := by
      intro w hw
      have : w.1 ∈ keys ws := List.mem_map_of_mem hw
      rwa [hkws, htl, List.mem_eraseDups] at this
    have hwvar : ∀ w ∈ ws, toVar env num freq ((b.positions (m' + 1) w.1).map fun j =>
        rows.map fun r => r.getD j env.junk) = .ok w.2 := by
      intro w hw
      obtain ⟨p, hp', h1, h2⟩ := forall₂_mem_right hws hw
      rw [hlooktl p hp', h1] at h2
      exact h2
    have hwdims : ∀ w ∈ ws, ∀ d ∈ w.2.dims, d.name = first ∨
        d.name = "rep" ∧ 2 ≤ (b.positions (m' + 1) w.1).length := by
      intro w hw d hd
      obtain ⟨a, ha, h2, -⟩ := toVar_spec env num freq rows (b.positions (m' + 1) w.1) (hpos w.1 (hwmem w hw))
      rw [hwvar w hw] at ha
      cases ha
      rcases h2 d hd with rfl | h
      · exact Or.inl hf
      · exact Or.inr h
    have hsub : ∀ n ∈ nt.take m', n ∈ b.cols.tail := by
      intro n hn; rw [hcols]; exact List.mem_of_mem_take hn
    obtain ⟨b', e1, e2, e3⟩ := writes_new env ws (setDim {} first freq) (by
        intro w hw hc
        simp only [setDim, assign, keys] at hc
        simp [member] at hc
        exact hnt (hc ▸ List.mem_of_mem_take (hwmem w hw)))
      (by
        intro w hw w' hw' d hd h
        rcases hwdims w' hw' d hd with h' | h'
        · exact hnt (h' ▸ h ▸ List.mem_of_mem_take (hwmem w hw))
        · exact hp.rep (h'.1 ▸ h ▸ List.mem_of_mem_tail (hsub _ (hwmem w hw))))
      (by
        intro w hw x i j hx
        refine ⟨by simp [setDim, keys], fun hc => ?_⟩
        rw [hkws, htl, List.mem_eraseDups] at hc
        exact hp.elem w.1 (hsub _ (hwmem w hw)) x i j hx (hsub _ hc))
      (by
        simp only [setDim, keys, List.map_nil, List.nil_append]
        have : (keys ws).Nodup := by
          rw [hkws]
          rw [hout] at hnd
          exact (List.nodup_cons.1 hnd).2
        exact this)
    simp only [setDim, List.nil_append] at e2
    have hnws : (keys ws).Nodup := by
      rw [hkws]; rw [hout] at hnd; exact (List.nodup_cons.1 hnd).2
    refine ⟨b', ?_, ?_, ?_, ?_, ?_, ?_⟩
    · rw [hout]; exact putVars_writes env num freq _ ws hws _ _ e1
    · rw [e2, hkws, htl, hcols, List.take_succ_cons]; rfl
    · intro n hn
      rw [hcols, List.take_succ_cons, List.tail_cons] at hn
      have : n ∈ keys ws := by rw [hkws, htl, List.mem_eraseDups]; exact hn
      obtain ⟨w, hw, rfl⟩ := List.mem_map.1 this
      exact ⟨w.2, by rw [e2]; exact mem_lookup hnws hw, hwvar w hw⟩
    · rw [e3]
      exact Hyper.keys_addDims_nodup _ _ (by simp [setDim, assign, member, keys])
    · rw [e3, lookup_addDims]
      simp [setDim, assign, member, lookup]
    · intro n hn
      rw [e3, mem_keys_addDims] at hn
      rcases hn with hn | ⟨d, hd, rfl⟩
      · left
        simpa [setDim, assign, member, keys] using hn
      · obtain ⟨w, hw, hd⟩ := List.mem_flatMap.1 hd
        rcases hwdims w hw d hd with h | ⟨h1, h2⟩
        · exact Or.inl h
        · refine Or.inr ⟨h1, w.1, ?_, h2⟩
          rw [hcols, List.take_succ_cons, List.tail_cons]
          exact hwmem w hw

end HF.Sp
