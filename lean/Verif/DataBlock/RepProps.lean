import Verif.DataBlock.Rep
import Verif.DataBlock.RepSpec
import Verif.HFArray.RepProps
import Verif.Hyper.BlockProps
/-
C70: a block without repetitions.
-/
namespace HF.DataBlock

open HF.DataDict.Spec
open HF.DataDict hiding rename delitem
open HF.Arr hiding Err ofNd getitem

variable {β α : Type}

theorem writes_append (env : Env β α) (l m : List (String × Arr β α)) : ∀ b : Block β α,
    writes env b (l ++ m) = match writes env b l with
      | .error e => .error e
      | .ok b' => writes env b' m := by
  induction l with
  | nil => intro b; rfl
  | cons w l ih =>
    intro b
    simp only [List.cons_append, writes]
    split
    · rename_i e; simp [e, ih]
    · rename_i e; simp [e]

/-- The column of the coordinates of a repetition. -/
def repCol (env : Env β α) (ofIdx : Nat → β) (newname : String) (full : List Nat) (p : Dim β × Nat) : Arr β α :=
  ⟨[newRep ofIdx newname (Nd.size full)], ⟨[Nd.size full], fun idx =>
    (p.1.data.map env.toVal).getD ((Nd.unravel full (Nd.ravel [Nd.size full] idx)).getD p.2 0) env.junk⟩⟩

theorem repColumn_eq (env : Env β α) (ofIdx : Nat → β) (newname : String) (full : List Nat) (k : Nat) (d : Dim β) :
    repColumn env ofIdx newname full k d = .ok (repCol env ofIdx newname full (d, k)) := by
  simp [repColumn, Nd.reshape, Nd.size, Arr.ofNd, ofArr, repCol]

theorem repColumns_writes (env : Env β α) (ofIdx : Nat → β) (newname : String) (full : List Nat) :
    ∀ (l : List (Dim β × Nat)) (out : Block β α), repColumns env ofIdx newname full out l =
      writes env out (l.map fun p => (p.1.name, repCol env ofIdx newname full p))
  | [], _ => rfl
  | (d, k) :: t, out => by
    simp only [repColumns, repColumn_eq, List.map_cons, writes]
    cases h : setArr env out d.name (repCol env ofIdx newname full (d, k)) with
    | mk b r => cases r <;> simp [repColumns_writes env ofIdx newname full t]

theorem repVars_writes [DecidableEq β] (env : Env β α) (ofIdx : Nat → β) (newname : String) (b : Block β α)
    (ps ws : List (String × Arr β α))
    (h : List.Forall₂ (fun p w => p.1 = w.1 ∧ getitem env b p.1 = .ok p.2 ∧ p.2.removeRep ofIdx newname = .ok w.2) ps ws) :
    ∀ out, repVars env ofIdx newname b out (ps.map Prod.fst) = writes env out ws := by
  induction h with
  | nil => intro out; rfl
  | @cons p w ps ws hr _ ih =>
    intro out
    simp only [List.map_cons, repVars, writes, hr.2.1, hr.2.2, ofArr]
    rw [hr.1]
    split
    · rename_i e; simp [e]
    · rename_i e; simp [e, ih]

/-- An array with adjacent repetitions, index by index. -/
theorem removeRep_index [DecidableEq β] (ofIdx : Nat → β) (x : Arr β α) (hwf : x.WF) (name : String)
    (hn : (x.dims.map Dim.name).Nodup) (p reps q : List (Dim β)) (hdims : x.dims = p ++ reps ++ q) (hne : reps ≠ [])
    (hr : ∀ d ∈ reps, d.isa .dimRep = true) (hpq : ∀ d ∈ p ++ q, d.isa .dimRep = false)
    (sp sr sq : List Nat) (hsh : x.nd.shape = sp ++ sr ++ sq) (hsp : sp.length = p.length) (hsr : sr.length = reps.length) :
    ∃ r, removeRep ofIdx x name = .ok r ∧ r.WF ∧ r.dims = p ++ newRep ofIdx name (Nd.size sr) :: q ∧
      r.nd.shape = sp ++ Nd.size sr :: sq ∧
      ∀ is ks js, Nd.Valid sp is → Nd.Valid sr ks → Nd.Valid sq js →
        r.nd.get (is ++ Nd.ravel sr ks :: js) = x.nd.get (is ++ ks ++ js) := by
  obtain ⟨d0, t, rfl⟩ := List.exists_cons_of_ne_nil hne
  have hlast : (d0 :: t).getLast? = some ((d0 :: t).getLast hne) := List.getLast?_eq_some_getLast hne
  have heq := removeRep_eq ofIdx x hwf name hn p q d0 ((d0 :: t).getLast hne) (d0 :: t) hdims rfl hlast
    (hr _ (by simp)) (hr _ (List.getLast_mem hne)) (fun d hd => hpq d (by simp [hd])) (fun d hd => hpq d (by simp [hd]))
    sp sr sq hsh hsp hsr
  rw [repLens_all hsr hr] at heq
  have hsize : Nd.size (sp ++ Nd.size sr :: sq) = Nd.size x.nd.shape := by
    rw [hsh, Nd.size_append, Nd.size_append, Nd.size_append, Nd.size, Nat.mul_assoc]
  have hlen : p.length + (q.length + 1) = sp.length + (sq.length + 1) := by
    have : x.dims.length = x.nd.shape.length := hwf
    rw [hdims, hsh] at this
    simp only [List.length_append] at this
    omega
  unfold Nd.reshape at heq
  simp only [hsize, if_true, Arr.ofNd] at heq
  refine ⟨_, heq, by simp [WF, hlen], rfl, rfl, ?_⟩
  intro is ks js h1 h2 h3
  have hv : Nd.Valid x.nd.shape (is ++ ks ++ js) := by
    rw [hsh, List.append_assoc, List.append_assoc, Nd.valid_append (Nd.Valid.length h1), Nd.valid_append (Nd.Valid.length h2)]
    exact ⟨h1, h2, h3⟩
  show x.nd.get _ = _
  congr 1
  rw [← Nd.unravel_ravel hv]
  congr 1
  rw [hsh, List.append_assoc sp, List.append_assoc is, Nd.ravel_append h1, Nd.ravel_append h1, Nd.ravel_append h2]
  simp only [Nd.ravel, Nd.size, Nd.size_append]

theorem repCol_get (env : Env β α) (ofIdx : Nat → β) (newname : String) (reps : List (Dim β)) (j : Nat) (d : Dim β)
    (hj : reps[j]? = some d) (ks : List Nat) (hks : Nd.Valid (reps.map fun d => d.data.length) ks) :
    some ((repCol env ofIdx newname (reps.map fun d => d.data.length) (d, j)).nd.get
      [Nd.ravel (reps.map fun d => d.data.length) ks]) = (d.data[ks.getD j 0]?).map env.toVal := by
  have hlt : ks.getD j 0 < d.data.length := by
    obtain ⟨hl, h⟩ := Nd.valid_iff.1 hks
    have hjl : j < reps.length := (List.getElem?_eq_some_iff.1 hj).1
    have := h j (by simpa using hjl)
    simpa [List.getD_eq_getElem?_getD, hj] using this
  simp only [repCol, Nd.ravel, Nd.size]
  rw [Nat.mul_one, Nat.add_zero, Nd.unravel_ravel hks]
  rw [List.getD_eq_getElem?_getD, List.getElem?_map, List.getElem?_eq_getElem hlt]
  rfl

/-- C70: in the block without repetitions every element is found under the number of its repetitions, and for each
number the variables named like the repetitions tell which ones these are. -/
theorem C70_block [DecidableEq β] (env : Env β α) (ofIdx : Nat → β) (b : Block β α) (reps : List (Dim β)) (newname : String)
    (hb : Repeated b reps newname) :
    ∃ r, removeRepBlock env ofIdx b newname = .ok r ∧ Orderly r ∧
      Listed env b reps (newRep ofIdx newname (Nd.size (reps.map fun d => d.data.length))) r := by
  set full := reps.map fun d => d.data.length with hfull
  set new := newRep ofIdx newname (Nd.size full) with hnew
  have hrep : ∀ d ∈ reps, d.isa .dimRep = true := by
    intro d hd; rw [← hb.known] at hd; exact (List.mem_filter.1 hd).2
  have hrn : ∀ n ∈ reps.map Dim.name, n ∈ b.ivars.map Prod.fst := by
    intro n hn
    obtain ⟨d, hd, rfl⟩ := List.mem_map.1 hn
    rw [← hb.known] at hd
    obtain ⟨p, hp, rfl⟩ := List.mem_map.1 (List.mem_filter.1 hd).1
    rw [hb.names p hp]
    exact List.mem_map_of_mem hp
  have hrnd : (reps.map Dim.name).Nodup := by
    rw [← hb.known]
    have h1 : ((b.ivars.map Prod.snd).map Dim.name) = b.ivars.map Prod.fst := by
      rw [List.map_map]; exact List.map_congr_left fun p hp => hb.names p hp
    exact (h1 ▸ hb.orderly.ivars).sublist (List.filter_sublist.map _)
  -- the variables
  obtain ⟨ws, hws⟩ := forall₂_choose (l := b.vars)
    (R := fun p (w : String × Arr β α) => p.1 = w.1 ∧ getitem env b p.1 = .ok p.2 ∧
      p.2.removeRep ofIdx newname = .ok w.2 ∧ w.2.WF ∧
      (∀ d ∈ w.2.dims, d = new ∨ d ∈ p.2.dims ∧ d.isa .dimRep = false) ∧
      ((∀ d ∈ p.2.dims, d.isa .dimRep = false) → w.2 = p.2) ∧
      ∀ pre post sp sq, reps ≠ [] → p.2.dims = pre ++ reps ++ post →
        (∀ d ∈ pre ++ post, d.isa .dimRep = false) → p.2.nd.shape = sp ++ full ++ sq → sp.length = pre.length →
        w.2.dims = pre ++ new :: post ∧ w.2.nd.shape = sp ++ Nd.size full :: sq ∧
        ∀ is ks js, Nd.Valid sp is → Nd.Valid full ks → Nd.Valid sq js →
          w.2.nd.get (is ++ Nd.ravel full ks :: js) = p.2.nd.get (is ++ ks ++ js))
    (fun p hp => by
      have hni : lookup b.ivars p.1 = none := (lookup_none_iff' _ _).2 (hb.orderly.apart p hp)
      have hg : getitem env b p.1 = .ok p.2 := by
        simp only [getitem, hni, mem_lookup hb.orderly.vars hp]
      by_cases hno : ∀ d ∈ p.2.dims, d.isa .dimRep = false
      · refine ⟨p, rfl, hg, C10_no_rep ofIdx p.2 newname hno, hb.orderly.wf p hp, fun d hd => Or.inr ⟨hd, hno d hd⟩,
          fun _ => rfl, ?_⟩
        intro pre post sp sq hne hd
        obtain ⟨d0, t, rfl⟩ := List.exists_cons_of_ne_nil hne
        have h1 := hno d0 (by rw [hd]; simp)
        rw [hrep d0 (by simp)] at h1
        exact absurd h1 (by simp)
      · rcases hb.over p hp with h | ⟨pre, post, sp, sq, h1, h2, h3, h4⟩
        · exact absurd h hno
        · have hne : reps ≠ [] := by
            rintro rfl
            exact hno (by rw [h1]; simpa using h2)
          obtain ⟨w, e1, e2, e3, e4, e5⟩ := removeRep_index ofIdx p.2 (hb.orderly.wf p hp) newname (hb.axes p hp) pre reps post
            h1 hne hrep h2 sp full sq h3 h4 (by simp [hfull])
          refine ⟨(p.1, w), rfl, hg, e1, e2, ?_, fun h => absurd h hno, ?_⟩
          · intro d hd
            simp only [e3, List.mem_append, List.mem_cons] at hd
            rcases hd with hd | hd | hd
            · exact Or.inr ⟨by rw [h1]; simp [hd], h2 d (by simp [hd])⟩
            · exact Or.inl hd
            · exact Or.inr ⟨by rw [h1]; simp [hd], h2 d (by simp [hd])⟩
          · intro pre' post' sp' sq' _ g1 g2 g3 g4
            obtain ⟨w', f1, f2, f3, f4, f5⟩ := removeRep_index ofIdx p.2 (hb.orderly.wf p hp) newname (hb.axes p hp) pre' reps post'
              g1 hne hrep g2 sp' full sq' g3 g4 (by simp [hfull])
            rw [e1] at f1
            cases f1
            exact ⟨f3, f4, f5⟩)
  set cs : List (String × Arr β α) := reps.zipIdx.map fun p => (p.1.name, repCol env ofIdx newname full p) with hcs
  have hkc : cs.map Prod.fst = reps.map Dim.name := by
    rw [hcs, List.map_map]
    show reps.zipIdx.map (fun p => p.1.name) = _
    rw [show (fun p : Dim β × Nat => p.1.name) = Dim.name ∘ Prod.fst from rfl, ← List.map_map, List.zipIdx_map_fst]
  have hkw : ws.map Prod.fst = b.vars.map Prod.fst := keys_of_forall₂ hws fun p w h => h.1
  have hk : (cs ++ ws).map Prod.fst = reps.map Dim.name ++ b.vars.map Prod.fst := by rw [List.map_append, hkc, hkw]
  have hknd : ((cs ++ ws).map Prod.fst).Nodup := by
    rw [hk, List.nodup_append]
    refine ⟨hrnd, hb.orderly.vars, ?_⟩
    rintro n hn _ hv rfl
    obtain ⟨p, hp, rfl⟩ := List.mem_map.1 hv
    exact hb.orderly.apart p hp (hrn _ hn)
  have hdims : ∀ w ∈ cs ++ ws, ∀ d ∈ w.2.dims, d = new ∨ ∃ p ∈ b.vars, d ∈ p.2.dims ∧ d.isa .dimRep = false := by
    intro w hw d hd
    rcases List.mem_append.1 hw with hw | hw
    · obtain ⟨p, _, rfl⟩ := List.mem_map.1 hw
      exact Or.inl (by simpa [repCol] using hd)
    · obtain ⟨p, hp, hpw⟩ := forall₂_mem_right hws hw
      rcases hpw.2.2.2.2.1 d hd with h | h
      · exact Or.inl h
      · exact Or.inr ⟨p, hp, h⟩
  have hfree : ∀ w ∈ cs ++ ws, ∀ w' ∈ cs ++ ws, ∀ d ∈ w'.2.dims, d.name ≠ w.1 := by
    intro w hw w' hw' d hd he
    have hw1 : w.1 ∈ reps.map Dim.name ++ b.vars.map Prod.fst := hk ▸ List.mem_map_of_mem hw
    rw [← he] at hw1
    rcases hdims w' hw' d hd with rfl | ⟨p, hp, h1, h2⟩
    · rcases List.mem_append.1 hw1 with h | h
      · exact hb.fresh.2.1 h
      · exact hb.fresh.1 h
    · rcases List.mem_append.1 hw1 with h | h
      · exact (hb.fresh.2.2 p hp d h1 h2).2 h
      · obtain ⟨p', hp', h⟩ := List.mem_map.1 h
        exact hb.orderly.dims p' hp' p hp d h1 h.symm
  have hel : ∀ w ∈ cs ++ ws, ∀ m i j, isMatrixName w.1 = some (m, i, j) → m ∉ (cs ++ ws).map Prod.fst := by
    intro w hw m i j hm
    rw [hk]
    exact hb.elems w.1 (hk ▸ List.mem_map_of_mem hw) m i j hm
  obtain ⟨r, h1, h2, h3⟩ := writes_new env (cs ++ ws) ({} : Block β α) (fun w _ h => by simp [keys] at h) hfree
    (fun w hw m i j hm => ⟨by simp [keys], hel w hw m i j hm⟩) (by simpa [keys] using hknd)
  have hrv : r.vars = cs ++ ws := by rw [h2]; rfl
  have hri : ∀ n, lookup r.ivars n = (r.vars.flatMap fun w => w.2.dims).find? fun d => d.name == n := by
    intro n
    rw [h3, lookup_addDims, hrv]
    rfl
  refine ⟨r, ?_, ⟨?_, ?_, ?_, ?_, ?_, ?_⟩, ⟨?_, ?_, ?_, ?_, hri⟩⟩
  · unfold removeRepBlock
    rw [hb.known]
    simp only
    rw [repColumns_writes, ← hfull, ← hcs]
    rw [writes_append] at h1
    split at h1
    · cases h1
    · rename_i b' he
      rw [he]
      simp only
      rw [repVars_writes env ofIdx newname b b.vars ws (hws.imp fun p w h => ⟨h.1, h.2.1, h.2.2.1⟩)]
      exact h1
  · rw [hrv]
    intro w hw
    rcases List.mem_append.1 hw with hw | hw
    · obtain ⟨p, _, rfl⟩ := List.mem_map.1 hw
      rfl
    · obtain ⟨p, hp, hpw⟩ := forall₂_mem_right hws hw
      exact hpw.2.2.2.1
  · rw [hrv]; exact hknd
  · rw [h3]
    exact Hyper.keys_addDims_nodup _ _ (by simp [keys])
  · rw [hrv]
    intro w hw hc
    rw [h3] at hc
    rcases (mem_keys_addDims _ _ _).1 hc with hc | ⟨d, hd, hc⟩
    · simp [keys] at hc
    · obtain ⟨w', hw', hd⟩ := List.mem_flatMap.1 hd
      exact hfree w hw w' hw' d hd hc
  · rw [hrv]; exact hfree
  · rw [hrv]; exact hel
  · rw [hrv]; exact hk
  · intro j d hj
    refine ⟨repCol env ofIdx newname full (d, j), ?_, rfl, rfl, fun ks hks => repCol_get env ofIdx newname reps j d hj ks hks⟩
    rw [hrv]
    exact mem_lookup (p := (d.name, repCol env ofIdx newname full (d, j))) hknd
      (List.mem_append_left _ (List.mem_map.2 ⟨(d, j), List.mem_zipIdx_iff_getElem?.2 hj, rfl⟩))
  · intro k v pre post sp sq hne hl g1 g2 g3 g4
    obtain ⟨w, hw, hpw⟩ := forall₂_mem_left hws (lookup_mem hl)
    obtain ⟨f1, f2, f3⟩ := hpw.2.2.2.2.2.2 pre post sp sq hne g1 g2 g3 g4
    refine ⟨w.2, ?_, f1, f2, f3⟩
    rw [hrv, show k = w.1 from hpw.1]
    exact mem_lookup hknd (List.mem_append_right _ hw)
  · intro k v hl hno
    obtain ⟨w, hw, hpw⟩ := forall₂_mem_left hws (lookup_mem hl)
    have e := hpw.2.2.2.2.2.1 hno
    rw [hrv, show k = w.1 from hpw.1, ← show w.2 = v from e]
    exact mem_lookup hknd (List.mem_append_right _ hw)

end HF.DataBlock
