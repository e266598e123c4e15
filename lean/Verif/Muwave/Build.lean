import Verif.Muwave.Spec
import Verif.Merge.Props
/-
Lemmas: the block of one measurement.
-/
namespace HF.Muwave

open HF.DataDict.Spec
open HF.DataDict hiding rename delitem
open HF.DataBlock

variable {β α : Type}

theorem first_of_starts {x : α} {c : Cell α} (h : Starts x c) : c.first = some x := by
  cases c with
  | text s => exact congrArg some h
  | matrix rows => obtain ⟨r, t, rfl⟩ := h; rfl

theorem row_of_starts {x : α} {c : Cell α} (h : Starts x c) : ∃ t, c.row = some (x :: t) := by
  cases c with
  | text s => exact ⟨[], congrArg (fun y => some [y]) h⟩
  | matrix rows => obtain ⟨r, t, rfl⟩ := h; exact ⟨r, rfl⟩

/-- The quantities of the state as arrays. -/
def stateVars (cv : Conv β α) (l : List (String × Cell α)) : List (String × Arr β α) :=
  l.map fun e => (e.1, scalar (cv.real (e.2.first.getD cv.blank)))

/-- The properties as arrays. -/
def measVars (cv : Conv β α) (l : List (String × Cell α)) : List (String × Arr β α) :=
  l.map fun e => (e.1, scalar (match e.2 with | .text s => textOf cv s | .matrix _ => cv.blank))

theorem buildState_writes (env : Env β α) (cv : Conv β α) (l : List (String × Cell α))
    (h1 : ∀ e ∈ l, e.1 ≠ "Index") (h2 : ∀ e ∈ l, ∃ x, Starts x e.2) :
    ∀ b, buildState env cv b l = writes env b (stateVars cv l) := by
  induction l with
  | nil => intro b; rfl
  | cons e t ih =>
    intro b
    obtain ⟨k, c⟩ := e
    obtain ⟨x, hx⟩ := h2 (k, c) (by simp)
    have hf := first_of_starts hx
    rw [buildState, if_neg (h1 (k, c) (by simp))]
    simp only [] at hf
    rw [hf]
    show _ = writes env b ((k, scalar (cv.real (c.first.getD cv.blank))) :: stateVars cv t)
    rw [hf]
    simp only [writes, Option.getD_some]
    cases hs : setArr env b k (scalar (cv.real x)) with
    | mk b' r =>
      cases r with
      | ok u => exact ih (fun e he => h1 e (by simp [he])) (fun e he => h2 e (by simp [he])) b'
      | error e => rfl

theorem buildState_append (env : Env β α) (cv : Conv β α) (l m : List (String × Cell α)) :
    ∀ b b', buildState env cv b l = .ok b' → buildState env cv b (l ++ m) = buildState env cv b' m := by
  induction l with
  | nil => intro b b' h; cases h; rfl
  | cons e t ih =>
    obtain ⟨k, c⟩ := e
    intro b b' h
    rw [List.cons_append, buildState]
    rw [buildState] at h
    split at h
    · rename_i hk
      rw [if_pos hk]
      cases hr : c.row with
      | none => rw [hr] at h; simp at h
      | some row => rw [hr] at h; exact ih _ _ h
    · rename_i hk
      rw [if_neg hk]
      cases hr : c.first with
      | none => rw [hr] at h; simp at h
      | some x =>
        rw [hr] at h
        simp only [] at h ⊢
        cases hs : setArr env b k (scalar (cv.real x)) with
        | mk b'' r =>
          rw [hs] at h
          cases r with
          | ok u => exact ih _ _ h
          | error e => simp at h

theorem buildMeasmnt_texts (cv : Conv β α) (l : List (String × Cell α))
    (h : ∀ e ∈ l, ∃ s, e.2 = .text s) : ∀ m,
    buildMeasmnt cv m l = .ok (assigns m (measVars cv l)) := by
  induction l with
  | nil => intro m; rfl
  | cons e t ih =>
    intro m
    obtain ⟨k, c⟩ := e
    obtain ⟨s, hs⟩ := h (k, c) (by simp)
    simp only [] at hs
    subst hs
    have : measOne cv (.text s) = .ok (scalar (textOf cv s) : Arr β α) := by
      simp only [measOne, Cell.truth, textOf]
      cases cv.truth s <;> rfl
    rw [buildMeasmnt, this]
    exact ih (fun e he => h e (by simp [he])) _

/-- The entries of a dictionary in some order. -/
def picked (m : OMap String (Arr β α)) (ks : List String) : List (String × Arr β α) :=
  ks.filterMap fun k => (lookup m k).map fun a => (k, a)

theorem putMeas_writes (env : Env β α) (m : OMap String (Arr β α)) (ks : List String) : ∀ b,
    putMeas env m b ks = writes env b (picked m ks) := by
  induction ks with
  | nil => intro b; rfl
  | cons k t ih =>
    intro b
    rw [putMeas]
    cases hl : lookup m k with
    | none => simp only [picked, List.filterMap_cons, hl, Option.map_none]; exact ih b
    | some a =>
      simp only [picked, List.filterMap_cons, hl, Option.map_some, writes]
      cases hs : setArr env b k a with
      | mk b' r =>
        cases r with
        | ok u => exact ih b'
        | error e => rfl

theorem picked_keys (m : OMap String (Arr β α)) (ks : List String) (h : ∀ k ∈ ks, k ∈ keys m) :
    keys (picked m ks) = ks := by
  induction ks with
  | nil => rfl
  | cons k t ih =>
    obtain ⟨a, ha⟩ := Option.isSome_iff_exists.1 ((lookup_isSome_iff m k).2 (h k (by simp)))
    have := ih (fun k hk => h k (by simp [hk]))
    simp only [picked, List.filterMap_cons, ha, Option.map_some, keys, List.map_cons] at this ⊢
    rw [this]

theorem picked_mem (m : OMap String (Arr β α)) (ks : List String) (w : String × Arr β α) :
    w ∈ picked m ks ↔ w.1 ∈ ks ∧ lookup m w.1 = some w.2 := by
  simp only [picked, List.mem_filterMap, Option.map_eq_some_iff]
  constructor
  · rintro ⟨k, hk, a, ha, rfl⟩; exact ⟨hk, ha⟩
  · rintro ⟨hk, ha⟩; exact ⟨w.1, hk, w.2, ha, rfl⟩

/-- The array of a matrix with the frequency last. -/
def matArr (cv : Conv β α) (fs : List β) (f p q : Nat) (g : List Nat → α) : Arr β α :=
  ⟨[freqDim fs, iDim cv p, jDim cv q], ⟨[f, p, q], fun i => g [i.getD 1 0, i.getD 2 0, i.getD 0 0]⟩⟩

theorem matrixOf_spec (cv : Conv β α) (fs : List β) (m : Nd α) (f p q : Nat) (h : m.shape = [p, q, f]) :
    matrixOf cv fs m = .ok (matArr cv fs f p q m.get) := by
  obtain ⟨sh, g⟩ := m
  simp only [] at h
  subst h
  rfl

/-- The dims and the shape of the variables of a measurement. -/
def formOf (cv : Conv β α) (fs : List β) (f p q : Nat) (csh : Option (Nat × Nat × Nat)) (n : String) :
    List (Dim β) × List Nat :=
  if n = "S" then ([freqDim fs, iDim cv p, jDim cv q], [f, p, q])
  else if n = "Scov" then
    match csh with
    | some s => ([freqDim fs, iDim cv s.2.1, jDim cv s.2.2], [s.1, s.2.1, s.2.2])
    | none => ([], [])
  else ([], [])

/-- The block of one measurement. -/
structure Built (env : Env β α) (cv : Conv β α) (sn mn : List String) (f p q : Nat)
    (csh : Option (Nat × Nat × Nat)) (m : Point β α) (b : Block β α) : Prop where
  names : (keys b.vars).Perm (sn ++ (mn ++ ["S", "Z0"] ++ (if csh.isSome then ["Scov"] else [])))
  index : ∃ c row, ("Index", c) ∈ m.state ∧ c.row = some row ∧
    b.ivars = [("Index", indexPart env row), ("freq", freqDim m.freq), ("i", iDim cv p), ("j", jDim cv q)]
  state : ∀ n c x, (n, c) ∈ m.state → n ≠ "Index" → Starts x c →
    (n, scalar (valueOf cv n (cv.real x))) ∈ b.vars
  meas : ∀ n s, (n, .text s) ∈ m.measmnt → (n, scalar (valueOf cv n (textOf cv s))) ∈ b.vars
  ref : ("Z0", scalar m.ref) ∈ b.vars
  data : ("S", matArr cv m.freq f p q m.mtrx.get) ∈ b.vars
  cov : ∀ s c, csh = some s → m.cov = some c → ("Scov", matArr cv m.freq s.1 s.2.1 s.2.2 c.get) ∈ b.vars
  form : ∀ w ∈ b.vars, (w.2.dims, w.2.nd.shape) = formOf cv m.freq f p q csh w.1

/-- What `readDate` does to a variable. -/
def redate (cv : Conv β α) (w : String × Arr β α) : String × Arr β α :=
  if w.1 = "Date" then (w.1, scalar (valueOf cv "Date" (w.2.nd.get []))) else w

theorem assign_scalar (env : Env β α) (b : Block β α) (n : String) (a : Arr β α) (ha : a.dims = [])
    (hm : isMatrixName n = none) (h1 : n ∉ keys b.ivars) (h2 : n ∈ keys b.vars) :
    setArr env b n a = (⟨modify b.vars n a, b.ivars, nextXname b.xname ([] : List (Dim β))⟩, .ok ()) := by
  have het : elemTarget (member b.vars) n a = none := by simp only [elemTarget, hm]
  have hni : lookup b.ivars n = none := (lookup_none_iff' _ _).2 h1
  simp only [setArr, het, hni, assign, (member_iff _ _).2 h2, if_true, ha, addDims, List.foldl_nil]

theorem date_name : isMatrixName "Date" = none := by decide +kernel

theorem readDate_spec (env : Env β α) (cv : Conv β α) (b : Block β α) (h1 : "Date" ∉ keys b.ivars)
    (hn : (keys b.vars).Nodup) (hs : ∀ w ∈ b.vars, w.1 = "Date" → w.2.dims = [] ∧ w.2.nd.shape = [] ∧ ∃ x, w.2 = scalar x) :
    ∃ x, readDate env cv b = .ok ⟨b.vars.map (redate cv), b.ivars, x⟩ := by
  by_cases hd : "Date" ∈ keys b.vars
  · obtain ⟨a, ha⟩ := Option.isSome_iff_exists.1 ((lookup_isSome_iff _ _).2 hd)
    obtain ⟨_, _, x, rfl⟩ : a.dims = [] ∧ a.nd.shape = [] ∧ ∃ x, a = scalar x := hs _ (lookup_mem ha) rfl
    have hni : lookup b.ivars "Date" = none := (lookup_none_iff' _ _).2 h1
    have hc : contains b "Date" = true := by simp [contains, (member_iff _ _).2 hd]
    have hmap : ∀ w ∈ b.vars, w.1 = "Date" → w = ("Date", scalar x) := by
      intro w hw he
      have := mem_lookup hn hw
      rw [he, ha] at this
      exact Prod.ext he (Option.some.inj this).symm
    simp only [readDate, hc, if_true, getitem, hni, ha]
    have hsz : Nd.size (scalar x : Arr β α).nd.shape ≠ 0 := by simp [scalar, Nd.size]
    rw [if_neg hsz]
    rw [show (scalar x : Arr β α).nd.get (Nd.unravel (scalar x : Arr β α).nd.shape 0) = x from rfl]
    cases hx : cv.date x with
    | none =>
      refine ⟨b.xname, congrArg Except.ok ?_⟩
      have : b.vars.map (redate cv) = b.vars := by
        refine (List.map_congr_left fun w hw => ?_).trans (List.map_id _)
        by_cases he : w.1 = "Date"
        · rw [hmap w hw he]
          simp [redate, valueOf, hx, scalar]
        · simp [redate, he]
      rw [this]
    | some d =>
      simp only [assign_scalar env b "Date" (scalar d) rfl date_name h1 hd]
      refine ⟨nextXname b.xname ([] : List (Dim β)), congrArg Except.ok ?_⟩
      congr 1
      refine List.map_congr_left fun w hw => ?_
      by_cases he : w.1 = "Date"
      · rw [hmap w hw he]
        simp [redate, valueOf, hx, scalar]
      · simp [redate, he]
  · have hc : contains b "Date" = false := by
      rw [Bool.eq_false_iff]
      intro hc
      simp only [contains, Bool.or_eq_true, member_iff] at hc
      exact hc.elim hd h1
    refine ⟨b.xname, ?_⟩
    simp only [readDate, hc, Bool.false_eq_true, if_false]
    have : b.vars.map (redate cv) = b.vars := by
      refine (List.map_congr_left fun w hw => ?_).trans (List.map_id _)
      have he : w.1 ≠ "Date" := fun he => hd (he ▸ List.mem_map_of_mem hw)
      simp [redate, he]
    rw [this]

theorem addDims_none (iv : OMap String (Dim β)) (ws : List (String × Arr β α)) (h : ∀ w ∈ ws, w.2.dims = []) :
    addDims iv (ws.flatMap fun w => w.2.dims) = iv := by
  rw [List.flatMap_eq_nil_iff.2 h]
  rfl

theorem built (env : Env β α) (cv : Conv β α) (en : Enum String) (sn mn : List String) (f p q : Nat)
    (csh : Option (Nat × Nat × Nat)) (ps : List (Point β α)) (hs : Sweep sn mn f p q csh ps)
    (m : Point β α) (hm : m ∈ ps) :
    ∃ b, buildData env cv en m = .ok b ∧ Built env cv sn mn f p q csh m b := by
  have hnd := hs.nodup
  -- the place of the index
  have hin : "Index" ∈ m.state.map Prod.fst := (hs.state m hm).mem_iff.2 (by simp)
  obtain ⟨⟨k, c⟩, hc, hk⟩ := List.mem_map.1 hin
  simp only [] at hk
  subst hk
  obtain ⟨l1, l2, hl⟩ := List.append_of_mem hc
  have hsn : (m.state.map Prod.fst).Nodup := by
    refine (hs.state m hm).nodup_iff.2 ?_
    exact hnd.sublist (List.Sublist.cons₂ _ (List.sublist_append_left _ _))
  have hp12 : ((l1 ++ l2).map Prod.fst).Perm sn := by
    have h1 : (m.state.map Prod.fst).Perm ("Index" :: (l1 ++ l2).map Prod.fst) := by
      rw [hl, List.map_append, List.map_append, List.map_cons]
      exact List.perm_middle
    exact List.Perm.cons_inv (h1.symm.trans (hs.state m hm))
  have hp12' : (keys (stateVars cv l1) ++ keys (stateVars cv l2)).Perm sn := by
    have : keys (stateVars cv l1) ++ keys (stateVars cv l2) = (l1 ++ l2).map Prod.fst := by
      simp [keys, stateVars, Function.comp_def]
    rw [this]; exact hp12
  have hmem1 : ∀ n, n ∈ keys (stateVars cv l1) → n ∈ sn := fun n h =>
    hp12'.mem_iff.1 (List.mem_append_left _ h)
  have hmem2 : ∀ n, n ∈ keys (stateVars cv l2) → n ∈ sn := fun n h =>
    hp12'.mem_iff.1 (List.mem_append_right _ h)
  obtain ⟨All, hAll⟩ : ∃ All, All = "Index" :: (sn ++ (mn ++ ["S", "Z0", "Scov"])) := ⟨_, rfl⟩
  have hapart : ∀ n ∈ sn ++ mn, n ≠ "Index" ∧ n ≠ "S" ∧ n ≠ "Z0" ∧ n ≠ "Scov" := by
    intro n hn
    rw [List.nodup_cons, ← List.append_assoc, List.nodup_append] at hnd
    refine ⟨?_, ?_, ?_, ?_⟩
    · rintro rfl; exact hnd.1 (List.mem_append_left _ hn)
    · exact hnd.2.2.2 n hn "S" (by simp)
    · exact hnd.2.2.2 n hn "Z0" (by simp)
    · exact hnd.2.2.2 n hn "Scov" (by simp)
  have hsnAll : ∀ n ∈ sn, n ∈ All := fun n h => by rw [hAll]; simp [h]
  have hmnAll : ∀ n ∈ mn, n ∈ All := fun n h => by rw [hAll]; simp [h]
  have helem : ∀ n ∈ sn ++ mn, ∀ a i j, isMatrixName n = some (a, i, j) → a ∉ All := hAll ▸ hs.elems
  have hdims1 : ∀ l, ∀ w ∈ stateVars (β := β) cv l, w.2.dims = [] := by
    intro l w hw
    obtain ⟨e, _, rfl⟩ := List.mem_map.1 hw
    rfl
  have hdm : ∀ l, ∀ w ∈ measVars (β := β) cv l, w.2.dims = [] := by
    intro l w hw
    obtain ⟨e, _, rfl⟩ := List.mem_map.1 hw
    rfl
  have hcells : ∀ e ∈ l1 ++ ("Index", c) :: l2, ∃ x, Starts x e.2 := hl ▸ hs.cells m hm
  have hne : ∀ e ∈ l1 ++ l2, e.1 ≠ "Index" := by
    intro e he
    exact (hapart e.1 (List.mem_append_left _ (hp12.mem_iff.1 (List.mem_map_of_mem he)))).1
  have hsnd : (keys (stateVars cv l1) ++ keys (stateVars cv l2)).Nodup := by
    refine hp12'.nodup_iff.2 ?_
    rw [List.nodup_cons, List.nodup_append] at hnd
    exact hnd.2.1
  -- before the index
  obtain ⟨b1, h11, h12, h13⟩ := writes_new env (stateVars cv l1) ({} : Block β α) (fun w _ h => by simp [keys] at h)
    (fun w hw w' hw' d hd => by rw [hdims1 l1 w' hw'] at hd; simp at hd)
    (fun w hw a i j ha => ⟨by simp [keys], fun hc => helem w.1
      (List.mem_append_left _ (hmem1 _ (List.mem_map_of_mem hw))) a i j ha (hsnAll _ (hmem1 _ hc))⟩)
    (by simpa [keys] using (List.nodup_append.1 hsnd).1)
  rw [addDims_none _ _ (hdims1 l1)] at h13
  have h12' : b1.vars = stateVars cv l1 := h12
  obtain ⟨x0, hx0⟩ := hcells ("Index", c) (by simp)
  obtain ⟨row, hrow⟩ : ∃ row, c.row = some row := (row_of_starts hx0).imp' _ fun _ h => h
  -- behind the index
  obtain ⟨b2, h21, h22, h23⟩ := writes_new env (stateVars cv l2) (setDim b1 "Index" (indexPart env row))
    (fun w hw h => by
      have : w.1 = "Index" := by simpa [keys, setDim, h13, assign, member] using h
      exact (hapart w.1 (List.mem_append_left _ (hmem2 _ (List.mem_map_of_mem hw)))).1 this)
    (fun w hw w' hw' d hd => by rw [hdims1 l2 w' hw'] at hd; simp at hd)
    (fun w hw a i j ha => by
      have := helem w.1 (List.mem_append_left _ (hmem2 _ (List.mem_map_of_mem hw))) a i j ha
      refine ⟨fun hc => this (hsnAll _ (hmem1 _ ?_)), fun hc => this (hsnAll _ (hmem2 _ hc))⟩
      rw [← h12']; exact hc)
    (by rw [show (setDim b1 "Index" (indexPart env row)).vars = stateVars cv l1 from h12']; exact hsnd)
  rw [addDims_none _ _ (hdims1 l2)] at h23
  have h22' : b2.vars = stateVars cv l1 ++ stateVars cv l2 := by rw [h22]; exact congrArg (· ++ _) h12'
  have h23' : b2.ivars = [("Index", indexPart env row)] := by
    rw [h23]
    simp [setDim, h13, assign, member]
  have hstate : buildState env cv {} m.state = .ok b2 := by
    rw [hl, buildState_append env cv l1 _ {} b1 (by
      rw [buildState_writes env cv l1 (fun e he => hne e (by simp [he])) (fun e he => hcells e (by simp [he]))]
      exact h11)]
    rw [buildState, if_pos rfl, hrow]
    simp only []
    rw [buildState_writes env cv l2 (fun e he => hne e (by simp [he])) (fun e he => hcells e (by simp [he]))]
    exact h21
  -- the properties
  obtain ⟨M, hM⟩ : ∃ M : List (String × Arr β α), M = measVars cv m.measmnt := ⟨_, rfl⟩
  have hkM : keys M = m.measmnt.map Prod.fst := by rw [hM]; simp [keys, measVars, Function.comp_def]
  have hMp : (keys M).Perm mn := hkM ▸ hs.meas m hm
  have hmnn : mn.Nodup := by
    rw [List.nodup_cons, List.nodup_append, List.nodup_append] at hnd
    exact hnd.2.2.1.1
  have hMn : (keys M).Nodup := hMp.nodup_iff.2 hmnn
  have hmeas : buildMeasmnt cv [] m.measmnt = .ok M := by
    rw [buildMeasmnt_texts cv _ (hs.texts m hm), ← hM, assigns_nodup M [] (by simpa using hMn)]
    rfl
  have hKp := en.perm (keys M)
  obtain ⟨W, hW⟩ : ∃ W, W = picked M (en.f (keys M)) := ⟨_, rfl⟩
  have hkW : keys W = en.f (keys M) := by
    rw [hW]; exact picked_keys M _ fun k hk => hKp.mem_iff.1 hk
  have hWp : (keys W).Perm mn := hkW ▸ hKp.trans hMp
  have hWm : ∀ w, w ∈ W ↔ w ∈ M := by
    intro w
    rw [hW, picked_mem, hKp.mem_iff]
    constructor
    · rintro ⟨_, h⟩; exact lookup_mem h
    · intro h; exact ⟨List.mem_map_of_mem h, mem_lookup hMn h⟩
  have hdW : ∀ w ∈ W, w.2.dims = [] := fun w hw => hdm _ w (hM ▸ (hWm w).1 hw)
  have hmemW : ∀ n, n ∈ keys W → n ∈ mn := fun n h => hWp.mem_iff.1 h
  have hk2 : ∀ n, n ∈ keys b2.vars → n ∈ sn := by
    intro n hn
    rw [h22'] at hn
    simp only [keys, List.map_append, List.mem_append] at hn
    exact hn.elim (hmem1 n) (hmem2 n)
  have hk2p : (keys b2.vars).Perm sn := by
    rw [h22']
    simpa [keys] using hp12'
  have hsm : (sn ++ mn).Nodup := by
    rw [List.nodup_cons, ← List.append_assoc, List.nodup_append] at hnd
    exact hnd.2.1
  obtain ⟨b3, h31, h32, h33⟩ := writes_new env W b2
    (fun w hw h => by
      rw [h23'] at h
      have : w.1 = "Index" := by simpa [keys] using h
      exact (hapart w.1 (List.mem_append_right _ (hmemW _ (List.mem_map_of_mem hw)))).1 this)
    (fun w hw w' hw' d hd => by rw [hdW w' hw'] at hd; simp at hd)
    (fun w hw a i j ha => by
      have := helem w.1 (List.mem_append_right _ (hmemW _ (List.mem_map_of_mem hw))) a i j ha
      exact ⟨fun hc => this (hsnAll _ (hk2 _ hc)), fun hc => this (hmnAll _ (hmemW _ hc))⟩)
    ((hk2p.append hWp).nodup_iff.2 hsm)
  rw [addDims_none _ _ hdW, h23'] at h33
  have hput : putMeas env M b2 (en.f (keys M)) = .ok b3 := by
    rw [putMeas_writes, ← hW]; exact h31
  have hk3p : (keys b3.vars).Perm (sn ++ mn) := by
    rw [h32]
    simpa [keys] using hk2p.append hWp
  -- the data
  have hmat := matrixOf_spec cv m.freq m.mtrx f p q (hs.shape m hm)
  have hset4 := setArr_new env b3 "S" (matArr cv m.freq f p q m.mtrx.get)
    (by rw [h33]; simp [keys])
    (fun h => (hapart "S" (hk3p.mem_iff.1 h)).2.1 rfl)
    (fun a i j ha => absurd ha (by rw [show isMatrixName "S" = none by decide +kernel]; simp))
  have hiv4 : addDims b3.ivars (matArr cv m.freq f p q m.mtrx.get).dims =
      [("Index", indexPart env row), ("freq", freqDim m.freq), ("i", iDim cv p), ("j", jDim cv q)] := by
    rw [h33]
    simp [addDims, matArr, member, assign, freqDim, iDim, jDim]
  obtain ⟨b4, hb4⟩ : ∃ b4 : Block β α, b4 = ⟨b3.vars ++ [("S", matArr cv m.freq f p q m.mtrx.get)],
    addDims b3.ivars (matArr cv m.freq f p q m.mtrx.get).dims, nextXname b3.xname (matArr cv m.freq f p q m.mtrx.get).dims⟩ := ⟨_, rfl⟩
  rw [← hb4] at hset4
  have hiv4' : b4.ivars = [("Index", indexPart env row), ("freq", freqDim m.freq), ("i", iDim cv p), ("j", jDim cv q)] := by
    rw [hb4]; exact hiv4
  have hv4 : b4.vars = b3.vars ++ [("S", matArr cv m.freq f p q m.mtrx.get)] := by rw [hb4]
  have hk4 : ∀ n, n ∈ keys b4.vars → n ∈ sn ++ mn ∨ n = "S" := by
    intro n hn
    rw [hv4] at hn
    simp only [keys, List.map_append, List.map_cons, List.map_nil, List.mem_append, List.mem_singleton] at hn
    exact hn.imp (fun h => hk3p.mem_iff.1 h) id
  have hset5 := setArr_new env b4 "Z0" (scalar m.ref)
    (by rw [hiv4']; simp [keys])
    (fun h => by
      rcases hk4 _ h with h | h
      · exact (hapart "Z0" h).2.2.1 rfl
      · exact absurd h (by decide))
    (fun a i j ha => absurd ha (by rw [show isMatrixName "Z0" = none by decide +kernel]; simp))
  obtain ⟨b5, hb5⟩ : ∃ b5 : Block β α, b5 = ⟨b4.vars ++ [("Z0", scalar m.ref)],
    addDims b4.ivars (scalar m.ref : Arr β α).dims, nextXname b4.xname (scalar m.ref : Arr β α).dims⟩ := ⟨_, rfl⟩
  rw [← hb5] at hset5
  have hiv5 : b5.ivars = [("Index", indexPart env row), ("freq", freqDim m.freq), ("i", iDim cv p), ("j", jDim cv q)] := by
    rw [hb5]; exact hiv4'
  have hv5 : b5.vars = b3.vars ++ [("S", matArr cv m.freq f p q m.mtrx.get), ("Z0", scalar m.ref)] := by
    rw [hb5]; show b4.vars ++ _ = _; rw [hv4]; simp
  have hk5p : (keys b5.vars).Perm (sn ++ mn ++ ["S", "Z0"]) := by
    rw [hv5]
    simpa [keys] using hk3p.append_right ["S", "Z0"]
  have hk5n : (keys b5.vars).Nodup := by
    refine hk5p.nodup_iff.2 ?_
    rw [List.nodup_cons, ← List.append_assoc] at hnd
    exact hnd.2.sublist (List.Sublist.append_left (by simp) _)
  -- all variables of the third block are numbers or texts
  have hsc : ∀ w ∈ b3.vars, ∃ x, w.2 = scalar x := by
    intro w hw
    rw [h32, h22'] at hw
    rcases List.mem_append.1 hw with hw | hw
    · rcases List.mem_append.1 hw with hw | hw
      · obtain ⟨e, _, rfl⟩ := List.mem_map.1 hw; exact ⟨_, rfl⟩
      · obtain ⟨e, _, rfl⟩ := List.mem_map.1 hw; exact ⟨_, rfl⟩
    · have := (hWm w).1 hw
      rw [hM] at this
      obtain ⟨e, _, rfl⟩ := List.mem_map.1 this; exact ⟨_, rfl⟩
  obtain ⟨x6, h6⟩ := readDate_spec env cv b5 (by rw [hiv5]; simp [keys]) hk5n (by
    intro w hw he
    rw [hv5] at hw
    rcases List.mem_append.1 hw with hw | hw
    · obtain ⟨x, hx⟩ := hsc w hw
      exact ⟨by rw [hx]; rfl, by rw [hx]; rfl, x, hx⟩
    · simp only [List.mem_cons, List.not_mem_nil, or_false] at hw
      rcases hw with rfl | rfl
      · exact absurd he (by simp)
      · exact absurd he (by simp))
  have hkeysr : ∀ l : List (String × Arr β α), keys (l.map (redate cv)) = keys l := by
    intro l
    simp only [keys, List.map_map]
    refine List.map_congr_left fun w _ => ?_
    simp only [Function.comp, redate]
    split <;> rfl
  have hv6 : b5.vars.map (redate cv) =
      b3.vars.map (redate cv) ++ [("S", matArr cv m.freq f p q m.mtrx.get), ("Z0", scalar m.ref)] := by
    rw [hv5, List.map_append]
    simp [redate]
  -- the values
  have hst : ∀ n c x, (n, c) ∈ m.state → n ≠ "Index" → Starts x c →
      (n, scalar (valueOf cv n (cv.real x))) ∈ b3.vars.map (redate cv) := by
    intro n c' x hmem hn hx
    have h12m : (n, c') ∈ l1 ++ l2 := by
      rw [hl] at hmem
      rcases List.mem_append.1 hmem with h | h
      · exact List.mem_append_left _ h
      · rcases List.mem_cons.1 h with h | h
        · exact absurd (congrArg Prod.fst h) hn
        · exact List.mem_append_right _ h
    refine List.mem_map.2 ⟨(n, scalar (cv.real x)), ?_, ?_⟩
    · rw [h32, h22']
      refine List.mem_append_left _ ?_
      have : stateVars cv l1 ++ stateVars (β := β) cv l2 = stateVars cv (l1 ++ l2) := by simp [stateVars]
      rw [this]
      exact List.mem_map.2 ⟨(n, c'), h12m, by rw [first_of_starts hx]; rfl⟩
    · by_cases hd : n = "Date"
      · subst hd; simp [redate, scalar]
      · simp [redate, hd, valueOf]
  have hme : ∀ n s, (n, .text s) ∈ m.measmnt → (n, scalar (valueOf cv n (textOf cv s))) ∈ b3.vars.map (redate cv) := by
    intro n s hmem
    refine List.mem_map.2 ⟨(n, scalar (textOf cv s)), ?_, ?_⟩
    · rw [h32]
      refine List.mem_append_right _ ((hWm _).2 ?_)
      rw [hM]
      exact List.mem_map.2 ⟨_, hmem, rfl⟩
    · by_cases hd : n = "Date"
      · subst hd; simp [redate, scalar]
      · simp [redate, hd, valueOf]
  have hform : ∀ w ∈ b5.vars.map (redate cv), w.1 ≠ "Scov" ∧
      (w.2.dims, w.2.nd.shape) = formOf cv m.freq f p q csh w.1 := by
    intro w hw
    rw [hv6] at hw
    rcases List.mem_append.1 hw with hw | hw
    · obtain ⟨v, hv, rfl⟩ := List.mem_map.1 hw
      have hvn : v.1 ∈ sn ++ mn := hk3p.mem_iff.1 (List.mem_map_of_mem hv)
      have hap := hapart _ hvn
      obtain ⟨x, hx⟩ := hsc v hv
      have e1 : (redate cv v).1 = v.1 := by unfold redate; split <;> rfl
      have e2 : ((redate cv v).2.dims, (redate cv v).2.nd.shape) = ([], []) := by
        unfold redate
        split
        · rfl
        · rw [hx]; rfl
      rw [e1, e2]
      exact ⟨hap.2.2.2, by simp [formOf, hap.2.1, hap.2.2.2]⟩
    · simp only [List.mem_cons, List.not_mem_nil, or_false] at hw
      rcases hw with rfl | rfl
      · exact ⟨by simp, by simp [formOf, matArr]⟩
      · exact ⟨by simp, by simp [formOf, scalar]⟩
  have hcovm := hs.cov m hm
  cases hcv : m.cov with
  | none =>
    rw [hcv] at hcovm
    have hbase : buildData env cv en m = .ok ⟨b5.vars.map (redate cv), b5.ivars, x6⟩ := by
      simp only [buildData, hstate, hmeas, hput, hmat, hs.type m hm, hset4, hset5, h6, hcv]
    have hcs : csh = none := by
      cases csh with
      | none => rfl
      | some s => simp at hcovm
    subst hcs
    refine ⟨_, hbase, ⟨?_, ⟨c, row, hc, hrow, hiv5⟩, ?_, ?_, ?_, ?_, ?_, fun w hw => (hform w hw).2⟩⟩
    · show (keys (b5.vars.map (redate cv))).Perm _
      rw [hkeysr]
      simpa using hk5p
    · intro n c' x h1 h2 h3
      show _ ∈ b5.vars.map (redate cv)
      rw [hv6]; exact List.mem_append_left _ (hst n c' x h1 h2 h3)
    · intro n s h1
      show _ ∈ b5.vars.map (redate cv)
      rw [hv6]; exact List.mem_append_left _ (hme n s h1)
    · show _ ∈ b5.vars.map (redate cv)
      rw [hv6]; simp
    · show _ ∈ b5.vars.map (redate cv)
      rw [hv6]; simp
    · intro s c' h; simp at h
  | some cc =>
    rw [hcv] at hcovm
    obtain ⟨s, rfl⟩ : ∃ s, csh = some s := by
      cases csh with
      | none => simp at hcovm
      | some s => exact ⟨s, rfl⟩
    simp only [Option.map_some, Option.some.injEq] at hcovm
    have hmc := matrixOf_spec cv m.freq cc s.1 s.2.1 s.2.2 hcovm
    have hset7 := setArr_new env ⟨b5.vars.map (redate cv), b5.ivars, x6⟩ "Scov" (matArr cv m.freq s.1 s.2.1 s.2.2 cc.get)
      (by rw [hiv5]; simp [keys])
      (fun h => by
        rw [hkeysr] at h
        have := hk5p.mem_iff.1 h
        rcases List.mem_append.1 this with h | h
        · exact (hapart _ h).2.2.2 rfl
        · simp at h)
      (fun a i j ha => absurd ha (by rw [show isMatrixName "Scov" = none by decide +kernel]; simp))
    have hiv7 : addDims b5.ivars (matArr cv m.freq s.1 s.2.1 s.2.2 cc.get).dims = b5.ivars := by
      rw [hiv5]
      simp [addDims, matArr, member, freqDim, iDim, jDim]
    simp only [hiv7] at hset7
    have hbase : buildData env cv en m = .ok ⟨b5.vars.map (redate cv) ++ [("Scov", matArr cv m.freq s.1 s.2.1 s.2.2 cc.get)],
        b5.ivars, nextXname x6 (matArr cv m.freq s.1 s.2.1 s.2.2 cc.get).dims⟩ := by
      simp only [buildData, hstate, hmeas, hput, hmat, hs.type m hm, hset4, hset5, h6, hcv, hmc,
        show "S" ++ "cov" = "Scov" from rfl, hset7]
    refine ⟨_, hbase, ⟨?_, ⟨c, row, hc, hrow, hiv5⟩, ?_, ?_, ?_, ?_, ?_, ?_⟩⟩
    · show (keys (b5.vars.map (redate cv) ++ _)).Perm _
      have e : keys (b5.vars.map (redate cv) ++ [("Scov", matArr cv m.freq s.1 s.2.1 s.2.2 cc.get)]) =
          keys b5.vars ++ ["Scov"] := by
        rw [← hkeysr b5.vars]; simp [keys]
      rw [e]
      simpa using hk5p.append_right ["Scov"]
    · intro n c' x h1 h2 h3
      show _ ∈ b5.vars.map (redate cv) ++ _
      rw [hv6]; exact List.mem_append_left _ (List.mem_append_left _ (hst n c' x h1 h2 h3))
    · intro n s h1
      show _ ∈ b5.vars.map (redate cv) ++ _
      rw [hv6]; exact List.mem_append_left _ (List.mem_append_left _ (hme n s h1))
    · show _ ∈ b5.vars.map (redate cv) ++ _
      rw [hv6]; simp
    · show _ ∈ b5.vars.map (redate cv) ++ _
      rw [hv6]; simp
    · intro s' c' h h'
      cases h
      rw [hcv] at h'
      cases h'
      show _ ∈ b5.vars.map (redate cv) ++ _
      simp
    · intro w hw
      rcases List.mem_append.1 (show w ∈ b5.vars.map (redate cv) ++ _ from hw) with hw | hw
      · exact (hform w hw).2
      · rw [List.mem_singleton.1 hw]
        simp [formOf, matArr]

end HF.Muwave
