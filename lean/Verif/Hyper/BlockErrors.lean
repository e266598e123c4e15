import Verif.Hyper.BlockProps
/-
C68: tables that cannot become hypercubes.
-/
namespace HF.Hyper

open HF.DataDict.Spec HF.DataBlock
open HF.DataDict hiding rename delitem

variable {β α : Type}

theorem cubeLoop_error (env : Env β α) (order : List Nat) (dims : List (Dim β)) (rd : Dim β) (all : Bool)
    (ls : List String) (vs : List (String × Arr β α)) (hvn : (vs.map Prod.fst).Nodup)
    (hsp : ∀ p ∈ vs, Arr.containsDim p.2.dims rd = true → p.1 ∉ ls → spread order dims rd p.2 = .error .valueError)
    (hls : ∀ p ∈ vs, p.1 ∈ ls → Arr.containsDim p.2.dims rd = true)
    (hd : ∀ p ∈ vs, ∀ p' ∈ vs, ∀ d ∈ p'.2.dims, d.name ≠ p.1)
    (hex : ∃ p ∈ vs, Arr.containsDim p.2.dims rd = true ∧ p.1 ∉ ls) :
    ∀ out : Block β α, (∀ p ∈ vs, p.1 ∈ keys out.ivars ↔ p.1 ∈ ls) → (∀ p ∈ vs, p.1 ∉ keys out.vars) →
      (∀ p ∈ vs, ∀ m i j, isMatrixName p.1 = some (m, i, j) → m ∉ keys out.vars ∧ m ∉ vs.map Prod.fst) →
      cubeLoop env order dims rd all out vs = .error .valueError := by
  induction vs with
  | nil => simp at hex
  | cons p vs ih =>
    intro out hout hov hel
    obtain ⟨k, v⟩ := p
    rw [List.map_cons, List.nodup_cons] at hvn
    have hrest := ih hvn.2 (fun p hp => hsp p (by simp [hp])) (fun p hp => hls p (by simp [hp]))
      (fun p hp p' hp' => hd p (by simp [hp]) p' (by simp [hp']))
    have hk := hout (k, v) (by simp)
    have hskip : (∃ p ∈ vs, Arr.containsDim p.2.dims rd = true ∧ p.1 ∉ ls) →
        cubeLoop env order dims rd all out vs = .error .valueError := fun h =>
      hrest h out (fun p hp => hout p (by simp [hp])) (fun p hp => hov p (by simp [hp]))
        (fun p hp m i j hm => by
          have := hel p (by simp [hp]) m i j hm
          exact ⟨this.1, fun h => this.2 (by simp only [List.map_cons]; exact List.mem_cons_of_mem _ h)⟩)
    by_cases hc : Arr.containsDim v.dims rd = true
    · by_cases hkl : k ∈ ls
      · have hmem : member out.ivars k = true := (member_iff _ _).2 (hk.2 hkl)
        simp only [cubeLoop, hc, hmem, if_true]
        refine hskip ?_
        obtain ⟨p, hp, h1, h2⟩ := hex
        rcases List.mem_cons.1 hp with rfl | hp
        · exact absurd hkl h2
        · exact ⟨p, hp, h1, h2⟩
      · have ha := hsp (k, v) (by simp) hc hkl
        have hmem : member out.ivars k = false := by
          rw [Bool.eq_false_iff]
          exact fun hm => hkl (hk.1 ((member_iff _ _).1 hm))
        simp only at ha
        simp only [cubeLoop, hc, hmem, if_true, Bool.false_eq_true, if_false, ha]
    · have hkl : k ∉ ls := fun h => hc (hls (k, v) (by simp) h)
      have hex' : ∃ p ∈ vs, Arr.containsDim p.2.dims rd = true ∧ p.1 ∉ ls := by
        obtain ⟨p, hp, h1, h2⟩ := hex
        rcases List.mem_cons.1 hp with rfl | hp
        · exact absurd h1 hc
        · exact ⟨p, hp, h1, h2⟩
      cases all with
      | true =>
        have hset := setArr_new env out k v (fun h => hkl (hk.1 h)) (hov (k, v) (by simp))
          (fun m i j hm => (hel (k, v) (by simp) m i j hm).1)
        simp only [cubeLoop, hc, if_true, if_false, Bool.false_eq_true, hset]
        refine hrest hex' _ ?_ ?_ ?_
        · intro p hp
          simp only [mem_keys_addDims]
          rw [hout p (by simp [hp])]
          constructor
          · rintro (h | ⟨d, h1, h2⟩)
            · exact h
            · exact absurd h2 (hd p (by simp [hp]) (k, v) (by simp) d h1)
          · exact Or.inl
        · intro p hp h
          simp only [keys, List.map_append, List.map_cons, List.map_nil, List.mem_append, List.mem_singleton] at h
          rcases h with h | h
          · exact hov p (by simp [hp]) h
          · exact hvn.1 (List.mem_map.2 ⟨p, hp, h⟩)
        · intro p hp m i j hm
          obtain ⟨h1, h2⟩ := hel p (by simp [hp]) m i j hm
          simp only [List.map_cons, List.mem_cons, not_or] at h2
          refine ⟨fun h => ?_, h2.2⟩
          simp only [keys, List.map_append, List.map_cons, List.map_nil, List.mem_append, List.mem_singleton] at h
          rcases h with h | h
          · exact h1 h
          · exact h2.1 h
      | false =>
        simp only [cubeLoop, hc, if_false, Bool.false_eq_true]
        exact hskip hex'

/-- C68: if the number of rows is not the product of the numbers of different values, as when a combination is
missing, and some variable has to be spread, an error is raised. -/
theorem C68_size [LinearOrder α] (env : Env β α) (b : Block β α) (names : List String) (rd : Dim β) (n : Nat)
    (cols : List (List α)) (indexed all : Bool) (hb : IsTable b names (labels indexed names) rd n cols)
    (h0 : names ≠ []) (hn : n ≠ ((newDims cols).map List.length).prod)
    (hpos : ∀ p ∈ b.vars, ∀ m, m ∈ p.2.nd.shape → 0 < m)
    (hex : ∃ p ∈ b.vars, rd ∈ p.2.dims ∧ p.1 ∉ labels indexed names) :
    hyperBlock env b names rd indexed all = .error .valueError := by
  obtain ⟨ls, hls⟩ : ∃ ls, ls = labels indexed names := ⟨_, rfl⟩
  obtain ⟨dims, hdims⟩ : ∃ dims, dims = cubeAxes env ls cols := ⟨_, rfl⟩
  rw [← hls] at hb hex
  have hlen : ls.length = cols.length := by
    rw [← hb.cols.length_eq, hls]
    unfold labels
    split <;> simp
  obtain ⟨hdn, hdl⟩ := cubeAxes_names env ls cols hlen
  rw [← hdims] at hdn hdl
  have hc0 : cols ≠ [] := by
    rintro rfl
    have := hb.cols.length_eq
    simp at this
    exact h0 this
  have hcl : ∀ c ∈ cols, c.length = n := by
    intro c hc
    obtain ⟨x, -, a, -, -, -, h, -⟩ := forall₂_mem_right hb.cols hc
    exact h
  have hperm := order_perm cols n hc0 hcl
  have hcols := columns_ok env b hb.orderly rd n hb.cols
  have hposs : ∀ l : List Nat, (∀ m ∈ l, 0 < m) → 0 < Nd.size l := by
    intro l
    induction l with
    | nil => intro _; simp [Nd.size]
    | cons a l ih =>
      intro h
      exact Nat.mul_pos (h a (by simp)) (ih fun m hm => h m (by simp [hm]))
  have hbk : keys (dims.foldl (fun m d => assign m d.name d) ([] : OMap String (Dim β))) = ls := by
    have e : dims.foldl (fun m d => assign m d.name d) ([] : OMap String (Dim β)) =
        assigns [] (dims.map fun d => (d.name, d)) := by
      rw [assigns, List.foldl_map]
    rw [e, assigns_nodup]
    · rw [← hdn]
      simp [keys, Function.comp_def]
    · have := hb.nodup
      rw [← hdn] at this
      simpa [keys, Function.comp_def] using this
  have hloop := cubeLoop_error env (sortOrder cols) dims rd all ls b.vars hb.orderly.vars
    (fun p hp hc hpl => by
      obtain ⟨pre, post, sp, sq, h1, h2, h3, -⟩ := pieces hb hp ((containsDim_iff hb hp).1 hc)
      refine (spread_eq (sortOrder cols) dims rd p.2 pre post sp sq n h1 (hb.axes p hp).1 h2 h3
        (fun i hi => by simpa using hperm.mem_iff.1 hi) (by rw [hperm.length_eq, List.length_range])).2 ?_ ?_ ?_
      · rw [hdl, size_prod]
        exact fun e => hn e.symm
      · exact hposs sp fun m hm => hpos p hp m (by rw [h2]; simp [hm])
      · exact hposs sq fun m hm => hpos p hp m (by rw [h2]; simp [hm]))
    (fun p hp hpl => (containsDim_iff hb hp).2 (hb.over p hp hpl))
    hb.orderly.dims
    (by
      obtain ⟨p, hp, h1, h2⟩ := hex
      exact ⟨p, hp, (containsDim_iff hb hp).2 h1, h2⟩)
    { ivars := dims.foldl (fun m d => assign m d.name d) [] }
    (fun p _ => by
      show p.1 ∈ keys (dims.foldl (fun m d => assign m d.name d) ([] : OMap String (Dim β))) ↔ _
      rw [hbk])
    (fun p _ => by simp [keys])
    (fun p hp m i j hm => ⟨by simp [keys], hb.orderly.elems p hp m i j hm⟩)
  obtain ⟨c, cs, hc⟩ := List.exists_cons_of_ne_nil hc0
  unfold hyperBlock
  rw [hcols, hc]
  simp only
  rw [← hc, cubeDims_eq, ← hls, ← hdims, hloop]

/-- C68: without names, with an unknown name, and with an unknown dimension there is an error. -/
theorem C68_errors [LinearOrder α] (env : Env β α) (b : Block β α) (rd : Dim β) (indexed all : Bool) :
    hyperBlock env b [] rd indexed all = .error .indexError ∧
    (∀ x xs, getitem env b x = .error .keyError → hyperBlock env b (x :: xs) rd indexed all = .error .keyError) ∧
    (∀ names s, lookup b.ivars s = none → hyperName env b names s indexed all = .error .keyError) ∧
    ∀ names s, lookup b.ivars s = some rd →
      hyperName env b names s indexed all = hyperBlock env b names rd indexed all := by
  refine ⟨rfl, fun x xs h => ?_, fun names s h => ?_, fun names s h => ?_⟩
  · simp only [hyperBlock, columns, h]
  · simp only [hyperName, h]
  · simp only [hyperName, h]

end HF.Hyper
