import Verif.Merge.Lemmas
import Verif.Merge.Spec
/-
The loop over the variables of `merge_blocks`.
-/
namespace HF.Merge

open HF.DataDict.Spec
open HF.DataDict hiding rename delitem
open HF.DataBlock
open HF.Arr hiding Err ofNd getitem

variable {β α : Type}

theorem withIndex_mem (idx : Dim β) (l : List (Dim β)) (d : Dim β) :
    d ∈ withIndex idx l ↔ d = idx ∨ d ∈ l := by
  cases l with
  | nil => simp [withIndex]
  | cons a t =>
    simp only [withIndex]
    split
    · simp only [List.mem_cons]; tauto
    · simp only [List.mem_cons]

/-- Result of an assignment as a value. -/
def done (r : Block β α × Except DataBlock.Err Unit) : Except DataBlock.Err (Block β α) :=
  match r with
  | (_, .error e) => .error e
  | (db', .ok _) => .ok db'

variable [DecidableEq β]

/-- One variable, as it is assigned. -/
theorem mergeVar_spec (env : Env β α) (idx : Dim β)
    (b0 : Block β α) (bs : List (Block β α)) (n k0 : String) (f : Block β α → Arr β α)
    (hk0 : ∀ b ∈ b0 :: bs, ∃ p t, partials b = p :: t ∧ p.1 = k0)
    (hf : ∀ b ∈ b0 :: bs, n ∉ keys b.ivars ∧ lookup b.vars n = some (f b))
    (hsh : ∀ b ∈ b0 :: bs, (f b).nd.shape = (f b0).nd.shape)
    (hwf : (f b0).WF) (hn : ((f b0).dims.map Dim.name).Nodup)
    (hd : ∀ d ∈ (f b0).dims, d.name ≠ idx.name) :
    ∃ a : Arr β α, a.dims = withIndex idx (f b0).dims ∧ a.WF ∧
      a.axisLen idx.key = some (bs.length + 1) ∧
      (∀ e m, (e, m) ∈ (f b0).dims.zip (f b0).nd.shape → a.axisLen e.key = some m) ∧
      (∀ (i : Nat) b, (b0 :: bs)[i]? = some b → ∀ c, c idx.key = i →
        a.at_ c = (f b).nd.get ((f b0).dims.map fun d => c d.key)) ∧
      ∀ db a0, getitem env db k0 = .ok a0 → a0.dims = [idx] →
        mergeVar env db (b0 :: bs) n = done (setArr env db n a) := by
  have hcol := collect_of env n (b0 :: bs) f hf
  have hcont : ∀ b ∈ b0 :: bs, contains b n = true := by
    intro b hb
    have : n ∈ keys b.vars := (lookup_isSome_iff _ _).1 (by rw [(hf b hb).2]; rfl)
    simp [contains, (member_iff _ _).2 this]
  have hfil : (b0 :: bs).filter (fun b => contains b n) = b0 :: bs :=
    List.filter_eq_self.2 hcont
  obtain ⟨bl, hbl⟩ : ∃ bl, (b0 :: bs).getLast? = some bl := ⟨_, List.getLast?_eq_some_getLast (by simp)⟩
  have hblm : bl ∈ b0 :: bs := List.mem_of_getLast? hbl
  have hri : ∀ db a0, getitem env db k0 = .ok a0 → a0.dims = [idx] →
      indexDims env db n (b0 :: bs) = .ok [idx] := by
    intro db a0 h1 h2
    obtain ⟨p, t, hp, hpk⟩ := hk0 bl hblm
    simp only [indexDims, hfil, hbl, hp, hpk, h1, h2]
  obtain ⟨y, hy⟩ : ∃ y : Arr β α, y = ⟨idx :: (f b0).dims, ⟨(f b0 :: bs.map f).length :: (f b0).nd.shape,
      fun i => ((f b0 :: bs.map f).getD (i.headD 0) (f b0)).nd.get i.tail⟩⟩ := ⟨_, rfl⟩
  have hstack : stack ([idx] ++ (f b0).dims) (f b0) (bs.map f) = .ok y := by
    rw [stack, if_pos, mk?, if_pos, hy]
    · rfl
    · simp only [Nd.ndim, List.length_cons, List.length_append, List.length_nil]
      have := hwf
      unfold WF at this
      omega
    · rw [List.all_eq_true]
      intro v hv
      have : ∃ b ∈ b0 :: bs, v = f b := by
        rcases List.mem_cons.1 hv with rfl | hv
        · exact ⟨b0, by simp, rfl⟩
        · obtain ⟨b, hb, rfl⟩ := List.mem_map.1 hv
          exact ⟨b, by simp [hb], rfl⟩
      obtain ⟨b, hb, rfl⟩ := this
      simpa using hsh b hb
  have hywf : y.WF := by rw [hy]; simp only [WF, List.length_cons]; rw [hwf]
  have hynm : (y.dims.map Dim.name).Nodup := by
    rw [hy]
    simp only [List.map_cons, List.nodup_cons, List.mem_map, not_exists, not_and]
    exact ⟨fun d hd' h => hd d hd' h, hn⟩
  have hydist := distinct_of_names hynm
  have hylen : y.axisLen idx.key = some (bs.length + 1) :=
    axisLen_eq_some hydist (by rw [hy]; simp)
  have hylen' : ∀ e m, (e, m) ∈ (f b0).dims.zip (f b0).nd.shape → y.axisLen e.key = some m :=
    fun e m h => axisLen_eq_some hydist (by rw [hy]; simp [h])
  have hyat : ∀ (i : Nat) b, (b0 :: bs)[i]? = some b → ∀ c, c idx.key = i →
      y.at_ c = (f b).nd.get ((f b0).dims.map fun d => c d.key) := by
    intro i b hb c hc
    rw [hy, at_]
    simp only [List.map_cons, List.headD_cons, List.tail_cons, hc]
    congr 2
    have : (f b0 :: bs.map f) = (b0 :: bs).map f := rfl
    rw [this, List.getD_eq_getElem?_getD, List.getElem?_map, hb]
    rfl
  have hmain : ∀ a, sweepFirst (f b0).dims y = .ok a → ∀ db a0, getitem env db k0 = .ok a0 → a0.dims = [idx] →
        mergeVar env db (b0 :: bs) n = done (setArr env db n a) := by
    intro a ha db a0 h1 h2
    simp only [mergeVar, hcol, List.map_cons, hri db a0 h1 h2]
    rw [hstack]
    simp only [ofArr]
    rw [ha]
    simp only
    rfl
  have keep : sweepFirst (f b0).dims y = .ok y → y.dims = withIndex idx (f b0).dims → _ := fun h1 h2 =>
    (⟨y, h2, hywf, hylen, hylen', hyat, hmain y h1⟩ :
      ∃ a : Arr β α, a.dims = withIndex idx (f b0).dims ∧ a.WF ∧
        a.axisLen idx.key = some (bs.length + 1) ∧
        (∀ e m, (e, m) ∈ (f b0).dims.zip (f b0).nd.shape → a.axisLen e.key = some m) ∧
        (∀ (i : Nat) b, (b0 :: bs)[i]? = some b → ∀ c, c idx.key = i →
          a.at_ c = (f b).nd.get ((f b0).dims.map fun d => c d.key)) ∧
        ∀ db a0, getitem env db k0 = .ok a0 → a0.dims = [idx] →
          mergeVar env db (b0 :: bs) n = done (setArr env db n a))
  have hcases : (f b0).dims = [] ∨ ∃ d t, (f b0).dims = d :: t := by
    cases (f b0).dims with
    | nil => exact Or.inl rfl
    | cons d t => exact Or.inr ⟨d, t, rfl⟩
  rcases hcases with hdims | ⟨d, t, hdims⟩
  · exact keep (by rw [hdims]; rfl) (by rw [hy]; simp [hdims, withIndex])
  · by_cases hs : d.isa .dimSweep = true
    · obtain ⟨a, h1, h2, h3, h4, h5⟩ := C07_reorder y hywf hynm [d] [.dim d]
        (.cons (Or.inl rfl) .nil) (by rw [hy, hdims]; simp) (by simp)
      refine ⟨a, ?_, h2, by rw [h4]; exact hylen, fun e m h => by rw [h4]; exact hylen' e m h,
        fun i b hb c hc => by rw [h5]; exact hyat i b hb c hc, hmain a ?_⟩
      · rw [h3, hy, hdims]
        simp only [withIndex, hs, if_true]
        have hne : idx ≠ d := by
          rintro rfl
          exact hd idx (by rw [hdims]; simp) rfl
        rw [hdims, List.map_cons, List.nodup_cons] at hn
        have hnt : ∀ e ∈ t, e ≠ d := by
          rintro e he rfl
          exact hn.1 (List.mem_map_of_mem he)
        have e1 : (idx :: d :: t).filter (fun e => decide (e ∉ [d])) = idx :: t := by
          rw [List.filter_cons_of_pos (by simpa using hne), List.filter_cons_of_neg (by simp),
            List.filter_eq_self.2 fun e he => by simpa using hnt e he]
        rw [e1]
        rfl
      · rw [hdims]
        simp only [sweepFirst, hs, if_true]
        exact h1
    · exact keep (by rw [hdims]; simp [sweepFirst, hs]) (by rw [hy, hdims]; simp [withIndex, hs])

/-- The loop over the variables. -/
theorem mergeVars_writes (env : Env β α) (blocks : List (Block β α)) (ps : List (String × Arr β α))
    (ns : List String) (ws : List (String × Arr β α))
    (h : List.Forall₂ (fun n w => n = w.1 ∧ ∃ p ∈ ps, ∀ db, getitem env db p.1 = .ok p.2 →
      mergeVar env db blocks n = done (setArr env db n w.2)) ns ws) :
    ∀ db : Block β α, (∀ w ∈ ws, w.1 ∉ keys db.ivars) →
      (∀ w ∈ ws, ∀ w' ∈ ws, ∀ d ∈ w'.2.dims, d.name ≠ w.1) →
      (∀ w ∈ ws, ∀ m i j, isMatrixName w.1 = some (m, i, j) → m ∉ keys db.vars ∧ m ∉ keys ws) →
      (keys db.vars ++ keys ws).Nodup → (∀ p ∈ ps, lookup db.vars p.1 = some p.2) →
      (∀ p ∈ ps, p.1 ∉ keys db.ivars) → (∀ p ∈ ps, ∀ w ∈ ws, ∀ d ∈ w.2.dims, d.name ≠ p.1) →
      mergeVars env blocks db ns = writes env db ws := by
  induction h with
  | nil => intro db _ _ _ _ _ _ _; rfl
  | @cons n w ns ws hr _ ih =>
    intro db h1 h2 h3 h4 h5 h6 h7
    obtain ⟨rfl, p, hp, hr⟩ := hr
    have hw : w ∈ w :: ws := by simp
    have hset := setArr_new env db w.1 w.2 (h1 w hw)
      (fun hc => (List.nodup_append.1 h4).2.2 _ hc _ (by simp [keys]) rfl)
      (fun m i j hm => (h3 w hw m i j hm).1)
    have hg : getitem env db p.1 = .ok p.2 := by
      simp only [getitem, (lookup_none_iff' _ _).2 (h6 p hp), h5 p hp]
    simp only [mergeVars, writes, hr db hg, hset, done]
    apply ih
    · intro x hx hc
      rcases (mem_keys_addDims _ _ _).1 hc with hc | ⟨d, hd, hc⟩
      · exact h1 x (by simp [hx]) hc
      · exact h2 x (by simp [hx]) w hw d hd hc
    · exact fun x hx y hy => h2 x (by simp [hx]) y (by simp [hy])
    · intro x hx m i j hm
      obtain ⟨g1, g2⟩ := h3 x (by simp [hx]) m i j hm
      simp only [keys, List.map_append, List.map_cons, List.map_nil, List.mem_append,
        List.mem_singleton, List.mem_cons, not_or] at g1 g2 ⊢
      simp only [List.not_mem_nil, not_false_eq_true, and_true]
      exact ⟨⟨g1, g2.1⟩, g2.2⟩
    · simpa [keys] using h4
    · intro q hq
      show lookup (db.vars ++ [(w.1, w.2)]) q.1 = some q.2
      rw [lookup_append, h5 q hq]; rfl
    · intro q hq hc
      rcases (mem_keys_addDims _ _ _).1 hc with hc | ⟨d, hd, hc⟩
      · exact h6 q hq hc
      · exact h7 q hq w hw d hd hc
    · exact fun q hq x hx => h7 q hq x (by simp [hx])

end HF.Merge
