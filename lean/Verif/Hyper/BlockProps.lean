import Verif.Hyper.BlockLemmas
import Verif.DataBlock.Writes
/-
C68: from a block with a table to a block with hypercubes.
-/
namespace HF.Hyper

open HF.DataDict.Spec HF.DataBlock
open HF.DataDict hiding rename delitem

variable {β α : Type}

theorem setArr_keys (env : Env β α) (b b' : Block β α) (k : String) (v : Arr β α) (u : Unit) (hk : lookup b.ivars k = none)
    (h : setArr env b k v = (b', .ok u)) (m : String) :
    (m ∈ keys b.ivars → m ∈ keys b'.ivars) ∧
      (m ∈ keys b'.ivars → m ∈ keys b.ivars ∨ ∃ d ∈ v.dims, d.name = m) := by
  unfold setArr at h
  simp only [hk] at h
  split at h
  · split at h
    · cases h
    · split at h
      · cases h
        exact ⟨id, Or.inl⟩
      · cases h
  · cases h
    simp only
    rw [mem_keys_addDims]
    exact ⟨Or.inl, id⟩

/-- What is assigned for a variable. -/
def outOf (order : List Nat) (dims : List (Dim β)) (rd : Dim β) (all : Bool) (ls : List String) (p : String × Arr β α) :
    Option (String × Arr β α) :=
  if Arr.containsDim p.2.dims rd then
    if p.1 ∈ ls then none
    else
      match spread order dims rd p.2 with
      | .error _ => none
      | .ok a => some (p.1, a)
  else if all then some p else none

theorem cubeLoop_writes (env : Env β α) (order : List Nat) (dims : List (Dim β)) (rd : Dim β) (all : Bool)
    (ls : List String) (vs : List (String × Arr β α))
    (hsp : ∀ p ∈ vs, Arr.containsDim p.2.dims rd = true → p.1 ∉ ls → ∃ a, spread order dims rd p.2 = .ok a)
    (hls : ∀ p ∈ vs, p.1 ∈ ls → Arr.containsDim p.2.dims rd = true)
    (hd : ∀ p ∈ vs, ∀ p' ∈ vs, ∀ w, outOf order dims rd all ls p' = some w → ∀ d ∈ w.2.dims, d.name = p.1 → p.1 ∈ ls) :
    ∀ out : Block β α, (∀ p ∈ vs, p.1 ∈ keys out.ivars ↔ p.1 ∈ ls) →
      cubeLoop env order dims rd all out vs = writes env out (vs.filterMap (outOf order dims rd all ls)) := by
  induction vs with
  | nil => intro out _; rfl
  | cons p vs ih =>
    intro out hout
    obtain ⟨k, v⟩ := p
    have hrest := ih (fun p hp => hsp p (by simp [hp])) (fun p hp => hls p (by simp [hp]))
      (fun p hp p' hp' => hd p (by simp [hp]) p' (by simp [hp']))
    have hk := hout (k, v) (by simp)
    have hnext : ∀ w, outOf order dims rd all ls (k, v) = some w → w.1 = k → k ∉ ls → 
        (match setArr env out k w.2 with
          | (_, .error e) => .error e
          | (out', .ok _) => cubeLoop env order dims rd all out' vs) =
        writes env out (w :: vs.filterMap (outOf order dims rd all ls)) := by
      intro w hw hwk hkl
      have hni : lookup out.ivars k = none := (lookup_none_iff' _ _).2 fun hc => hkl (hk.1 hc)
      rw [writes, hwk]
      cases hset : setArr env out k w.2 with
      | mk out' o =>
        cases o with
        | error e => rfl
        | ok u =>
          simp only
          refine hrest out' fun p hp => ?_
          have h1 := setArr_keys env out out' k w.2 u hni hset p.1
          constructor
          · intro hc
            rcases h1.2 hc with hc | ⟨d, hd1, hd2⟩
            · exact (hout p (by simp [hp])).1 hc
            · exact hd p (by simp [hp]) (k, v) (by simp) w hw d hd1 hd2
          · exact fun hc => h1.1 ((hout p (by simp [hp])).2 hc)
    rw [List.filterMap_cons]
    by_cases hc : Arr.containsDim v.dims rd = true
    · by_cases hkl : k ∈ ls
      · have h0 : outOf order dims rd all ls (k, v) = none := by simp [outOf, hc, hkl]
        have hmem : member out.ivars k = true := (member_iff _ _).2 (hk.2 hkl)
        simp only [cubeLoop, hc, hmem, if_true, h0]
        exact hrest out fun p hp => hout p (by simp [hp])
      · obtain ⟨a, ha⟩ := hsp (k, v) (by simp) hc hkl
        have h0 : outOf order dims rd all ls (k, v) = some (k, a) := by simp [outOf, hc, hkl, ha]
        have hmem : member out.ivars k = false := by
          rw [Bool.eq_false_iff]
          exact fun hm => hkl (hk.1 ((member_iff _ _).1 hm))
        simp only [cubeLoop, hc, hmem, if_true, h0, Bool.false_eq_true, if_false, ha]
        exact hnext _ h0 rfl hkl
    · have hkl : k ∉ ls := fun h => hc (hls (k, v) (by simp) h)
      cases all with
      | true =>
        have h0 : outOf order dims rd true ls (k, v) = some (k, v) := by simp [outOf, hc]
        simp only [cubeLoop, hc, if_true, h0, if_false, Bool.false_eq_true]
        exact hnext _ h0 rfl hkl
      | false =>
        have h0 : outOf order dims rd false ls (k, v) = none := by simp [outOf, hc]
        simp only [cubeLoop, hc, h0, if_false, Bool.false_eq_true]
        exact hrest out fun p hp => hout p (by simp [hp])

theorem addRest (rd : String) (iv : OMap String (Dim β)) (out : Block β α) :
    ∃ r, iv.foldl (fun (out : Block β α) p => if contains out p.1 || p.1 == rd then out else setDim out p.1 p.2) out = r ∧
      r.vars = out.vars ∧ ((keys out.ivars).Nodup → (keys r.ivars).Nodup) ∧
      ∀ m, lookup r.ivars m = (lookup out.ivars m).or
        (if m ∈ keys out.vars ∨ m = rd then none else lookup iv m) := by
  induction iv generalizing out with
  | nil => exact ⟨out, rfl, rfl, id, fun m => by simp [lookup]⟩
  | cons p t ih =>
    rw [List.foldl_cons]
    obtain ⟨k, d⟩ := p
    by_cases hc : (contains out k || k == rd) = true
    · rw [if_pos hc]
      obtain ⟨r, h1, h2, h3, h4⟩ := ih out
      refine ⟨r, h1, h2, h3, fun m => ?_⟩
      rw [h4 m]
      by_cases hm : k = m
      · subst hm
        simp only [Bool.or_eq_true, contains, member_iff, beq_iff_eq] at hc
        rcases hc with (hc | hc) | hc
        · simp [hc]
        · obtain ⟨v, hv⟩ := Option.isSome_iff_exists.1 ((lookup_isSome_iff _ _).2 hc)
          simp [hv]
        · simp [hc]
      · simp [lookup, hm]
    · rw [if_neg hc]
      obtain ⟨r, h1, h2, h3, h4⟩ := ih (setDim out k d)
      refine ⟨r, h1, h2, fun hn => h3 ?_, fun m => ?_⟩
      · exact keys_assigns_nodup [(k, d)] out.ivars hn
      · rw [h4 m]
        simp only [Bool.or_eq_true, contains, member_iff, beq_iff_eq, not_or] at hc
        have e1 : lookup (setDim out k d).ivars m = if m = k then some d else lookup out.ivars m := lookup_assign _ _ _ _
        have e2 : (setDim out k d).vars = out.vars := rfl
        rw [e1, e2]
        by_cases hm : m = k
        · subst hm
          have : lookup out.ivars m = none := (lookup_none_iff' _ _).2 hc.1.2
          have e3 : lookup ((m, d) :: t) m = some d := by simp [lookup]
          have h5 : ¬ (m ∈ keys out.vars ∨ m = rd) := by
            rintro (h | h)
            · exact hc.1.1 h
            · exact hc.2 h
          rw [if_pos rfl, this, e3, if_neg h5, if_neg h5]
          rfl
        · have : lookup ((k, d) :: t) m = lookup t m := by simp [lookup, Ne.symm hm]
          rw [if_neg hm, this]

theorem keys_addDims_nodup (iv : OMap String (Dim β)) (ds : List (Dim β)) (h : (keys iv).Nodup) :
    (keys (addDims iv ds)).Nodup := by
  induction ds generalizing iv with
  | nil => exact h
  | cons d t ih =>
    have e : addDims iv (d :: t) = addDims (if member iv d.name then iv else assign iv d.name d) t := rfl
    rw [e]
    refine ih _ ?_
    split
    · exact h
    · exact keys_assigns_nodup [(d.name, d)] iv h

theorem containsDim_iff {b : Block β α} {names ls : List String} {rd : Dim β} {n : Nat} {cols : List (List α)}
    (hb : IsTable b names ls rd n cols) {p : String × Arr β α} (hp : p ∈ b.vars) :
    Arr.containsDim p.2.dims rd = true ↔ rd ∈ p.2.dims := by
  constructor
  · intro h
    unfold Arr.containsDim at h
    rw [List.any_eq_true] at h
    obtain ⟨d, hd, hm⟩ := h
    simp only [Arr.matches_, Bool.and_eq_true, beq_iff_eq] at hm
    obtain ⟨i, hi, rfl⟩ := List.mem_iff_getElem.1 hd
    have hwf : p.2.dims.length = p.2.nd.shape.length := hb.orderly.wf p hp
    have := (hb.axes p hp).2 p.2.dims[i] (p.2.nd.shape[i]'(by omega))
      (List.mem_iff_getElem.2 ⟨i, by simp; omega, by simp⟩) hm.1
    rw [← this.1]
    exact hd
  · exact Arr.containsDim_mem

/-- The pieces of the dims and of the shape. -/
theorem pieces {b : Block β α} {names ls : List String} {rd : Dim β} {n : Nat} {cols : List (List α)}
    (hb : IsTable b names ls rd n cols) {p : String × Arr β α} (hp : p ∈ b.vars) (hrd : rd ∈ p.2.dims) :
    ∃ pre post sp sq, p.2.dims = pre ++ rd :: post ∧ p.2.nd.shape = sp ++ n :: sq ∧ sp.length = pre.length ∧
      sq.length = post.length := by
  obtain ⟨pre, post, hd⟩ := List.append_of_mem hrd
  have hwf : p.2.dims.length = p.2.nd.shape.length := hb.orderly.wf p hp
  have hl : p.2.nd.shape.length = pre.length + (post.length + 1) := by rw [← hwf, hd]; simp
  have hlt : pre.length < p.2.nd.shape.length := by omega
  have hz := (hb.axes p hp).2 rd p.2.nd.shape[pre.length]
    (List.mem_iff_getElem.2 ⟨pre.length, by simp; omega, by simp [hd]⟩) rfl
  refine ⟨pre, post, p.2.nd.shape.take pre.length, p.2.nd.shape.drop (pre.length + 1), hd, ?_, ?_, ?_⟩
  · have := List.take_append_drop pre.length p.2.nd.shape
    rw [List.drop_eq_getElem_cons hlt, hz.2] at this
    exact this.symm
  · simp; omega
  · simp; omega

/-- C68: `hyper` turns a table into hypercubes.  Every variable over the dimension of the rows is spread over the
new dimensions, and its element at a position is that of the row with the coordinates at this position, if these
are counted in ascending order; other variables stay or are left out; nothing else changes. -/
theorem C68_order [LinearOrder α] (env : Env β α) (b : Block β α) (names : List String) (rd : Dim β) (n : Nat)
    (cols vals : List (List α)) (indexed all : Bool) (hb : IsTable b names (labels indexed names) rd n cols)
    (hg : FullGrid cols n)
    (hvals : List.Forall₂ (fun c w => Ascending w ∧ ∀ a, a ∈ w ↔ a ∈ c) cols vals) :
    ∃ r, hyperBlock env b names rd indexed all = .ok r ∧ IsCube env b (labels indexed names) rd n cols vals all r := by
  obtain ⟨ls, hls⟩ : ∃ ls, ls = labels indexed names := ⟨_, rfl⟩
  obtain ⟨dims, hdims⟩ : ∃ dims, dims = cubeAxes env ls cols := ⟨_, rfl⟩
  rw [← hls] at hb ⊢
  have hlen : ls.length = cols.length := by
    rw [← hb.cols.length_eq, hls]
    unfold labels
    split <;> simp
  obtain ⟨hdn, hdl⟩ := cubeAxes_names env ls cols hlen
  rw [← hdims] at hdn hdl
  obtain ⟨hn, hord⟩ := order_get cols vals n hg hvals
  have hperm := order_perm cols n hg.nonempty hg.length
  have holt : ∀ i ∈ sortOrder cols, i < n := fun i hi => by simpa using hperm.mem_iff.1 hi
  have hol : (sortOrder cols).length = n := by rw [hperm.length_eq, List.length_range]
  have hmem : ∀ l, l ∈ ls ↔ ∃ d ∈ dims, d.name = l := by
    intro l
    rw [← hdn, List.mem_map]
  -- the columns
  have hcols := columns_ok env b hb.orderly rd n hb.cols
  have hrdls : rd.name ∉ ls := by
    obtain ⟨c, cs, hc⟩ := List.exists_cons_of_ne_nil hg.nonempty
    have hf := hb.cols
    rw [hc] at hf
    cases hf with
    | cons h1 _ =>
      obtain ⟨a, h2, h3, -⟩ := h1
      exact hb.fresh _ (lookup_mem h2) rd (by rw [h3]; simp)
  -- the axes
  have hsp : ∀ p ∈ b.vars, ∀ pre post sp sq, p.2.dims = pre ++ rd :: post → p.2.nd.shape = sp ++ n :: sq →
      sp.length = pre.length →
      ∃ a, spread (sortOrder cols) dims rd p.2 = .ok a ∧ a.dims = pre ++ dims ++ post ∧
        a.nd.shape = sp ++ (newDims cols).map List.length ++ sq ∧
        ∀ is ks js i, Nd.Valid sp is → Valid ((newDims cols).map List.length) ks → Nd.Valid sq js → i < n →
          RowAt cols vals ks i → a.nd.get (is ++ ks ++ js) = p.2.nd.get (is ++ i :: js) := by
    intro p hp pre post sp sq h1 h2 h3
    obtain ⟨a, e1, e2, e3, e4⟩ := (spread_eq (sortOrder cols) dims rd p.2 pre post sp sq n h1 (hb.axes p hp).1 h2 h3 holt hol).1
      (by rw [hdl, size_prod, ← hn])
    rw [hdl] at e3 e4
    refine ⟨a, e1, e2, e3, fun is ks js i g1 g2 g3 g4 g5 => e4 is ks js i g1 ((valid_nd _ _).1 g2) g3 ?_⟩
    rw [ravel_nd]
    exact hord ks i g2 g4 g5
  -- what is assigned
  obtain ⟨f, hf⟩ : ∃ f, f = outOf (α := α) (sortOrder cols) dims rd all ls := ⟨_, rfl⟩
  have hout : ∀ p ∈ b.vars, ∀ w, f p = some w → w.1 = p.1 ∧ p.1 ∉ ls ∧
      ((rd ∉ p.2.dims ∧ all = true ∧ w = p) ∨
        ∃ pre post sp sq, p.2.dims = pre ++ rd :: post ∧ p.2.nd.shape = sp ++ n :: sq ∧ sp.length = pre.length ∧
          sq.length = post.length ∧ w.2.dims = pre ++ dims ++ post ∧ w.2.nd.shape = sp ++ (newDims cols).map List.length ++ sq) := by
    intro p hp w hw
    rw [hf] at hw
    unfold outOf at hw
    by_cases hrd : rd ∈ p.2.dims
    · rw [if_pos ((containsDim_iff hb hp).2 hrd)] at hw
      by_cases hpl : p.1 ∈ ls
      · rw [if_pos hpl] at hw; cases hw
      · obtain ⟨pre, post, sp, sq, h1, h2, h3, h4⟩ := pieces hb hp hrd
        obtain ⟨a, e1, e2, e3, -⟩ := hsp p hp pre post sp sq h1 h2 h3
        rw [if_neg hpl, e1] at hw
        cases hw
        exact ⟨rfl, hpl, Or.inr ⟨pre, post, sp, sq, h1, h2, h3, h4, e2, e3⟩⟩
    · rw [if_neg fun h => hrd ((containsDim_iff hb hp).1 h)] at hw
      split at hw
      · rename_i hall
        cases hw
        exact ⟨rfl, fun h => hrd (hb.over p hp h), Or.inl ⟨hrd, hall, rfl⟩⟩
      · cases hw
  -- dims of what is assigned
  have hwd : ∀ p ∈ b.vars, ∀ w, f p = some w → ∀ d ∈ w.2.dims, d.name ≠ rd.name ∧ (d ∈ p.2.dims ∨ d ∈ dims) := by
    intro p hp w hw d hd
    rcases (hout p hp w hw).2.2 with ⟨h1, -, rfl⟩ | ⟨pre, post, sp, sq, h1, h2, h3, h4, h5, h6⟩
    · refine ⟨fun e => h1 ?_, Or.inl hd⟩
      obtain ⟨i, hi, rfl⟩ := List.mem_iff_getElem.1 hd
      have hwf : w.2.dims.length = w.2.nd.shape.length := hb.orderly.wf w hp
      have := (hb.axes w hp).2 w.2.dims[i] (w.2.nd.shape[i]'(by omega))
        (List.mem_iff_getElem.2 ⟨i, by simp; omega, by simp⟩) e
      rw [← this.1]
      exact hd
    · have hnd := (hb.axes p hp).1
      rw [h1, List.map_append, List.map_cons, List.nodup_append, List.nodup_cons] at hnd
      rw [h5, List.append_assoc, List.mem_append, List.mem_append] at hd
      rcases hd with hd | hd | hd
      · exact ⟨hnd.2.2 _ (List.mem_map_of_mem hd) _ (by simp), Or.inl (by rw [h1]; simp [hd])⟩
      · exact ⟨fun e => hrdls (e ▸ (hmem d.name).2 ⟨d, hd, rfl⟩), Or.inr hd⟩
      · exact ⟨fun e => hnd.2.1.1 (e ▸ List.mem_map_of_mem hd), Or.inl (by rw [h1]; simp [hd])⟩
  obtain ⟨ws, hws⟩ : ∃ ws, ws = b.vars.filterMap f := ⟨_, rfl⟩
  have hwsub : (keys ws).Sublist (keys b.vars) := by
    rw [hws, keys, keys]
    have : ∀ l : List (String × Arr β α), (∀ p ∈ l, p ∈ b.vars) →
        ((l.filterMap f).map Prod.fst).Sublist (l.map Prod.fst) := by
      intro l
      induction l with
      | nil => intro _; exact List.Sublist.refl _
      | cons p l ih =>
        intro hl
        have ih := ih fun q hq => hl q (by simp [hq])
        rw [List.filterMap_cons]
        cases hfp : f p with
        | none => exact ih.cons _
        | some w =>
          simp only [List.map_cons, (hout p (hl p (by simp)) w hfp).1]
          exact ih.cons₂ _
    exact this b.vars fun _ h => h
  have hwmem : ∀ w ∈ ws, ∃ p ∈ b.vars, f p = some w := by
    intro w hw
    rw [hws] at hw
    exact List.mem_filterMap.1 hw
  -- the dims at the start
  obtain ⟨base, hbase⟩ : ∃ base, base = dims.foldl (fun m d => assign m d.name d) ([] : OMap String (Dim β)) := ⟨_, rfl⟩
  have hbase' : base = dims.map fun d => (d.name, d) := by
    have : dims.foldl (fun m d => assign m d.name d) ([] : OMap String (Dim β)) =
        assigns [] (dims.map fun d => (d.name, d)) := by
      rw [assigns, List.foldl_map]
    rw [hbase, this, assigns_nodup]
    · simp
    · have := hb.nodup
      rw [← hdn] at this
      simpa [keys, Function.comp_def] using this
  have hbk : keys base = ls := by
    rw [hbase', ← hdn]
    simp [keys, Function.comp_def]
  -- the loop
  have hloop : cubeLoop env (sortOrder cols) dims rd all { ivars := base } b.vars = writes env { ivars := base } ws := by
    rw [hws, hf]
    refine cubeLoop_writes env (sortOrder cols) dims rd all ls b.vars ?_ ?_ ?_ _ ?_
    · intro p hp hc hpl
      obtain ⟨pre, post, sp, sq, h1, h2, h3, -⟩ := pieces hb hp ((containsDim_iff hb hp).1 hc)
      obtain ⟨a, e1, -⟩ := hsp p hp pre post sp sq h1 h2 h3
      exact ⟨a, e1⟩
    · exact fun p hp hpl => (containsDim_iff hb hp).2 (hb.over p hp hpl)
    · intro p hp p' hp' w hw d hd he
      rw [← hf] at hw
      rcases (hwd p' hp' w hw d hd).2 with hd | hd
      · exact absurd he (hb.orderly.dims p hp p' hp' d hd)
      · exact he ▸ (hmem d.name).2 ⟨d, hd, rfl⟩
    · intro p hp
      show p.1 ∈ keys base ↔ _
      rw [hbk]
  obtain ⟨out, hw1, hw2, hw3⟩ := writes_new env ws ({ ivars := base } : Block β α)
    (fun w hw => by
      show w.1 ∉ keys base
      rw [hbk]
      obtain ⟨p, hp, hpw⟩ := hwmem w hw
      obtain ⟨h1, h2, -⟩ := hout p hp w hpw
      rw [h1]
      exact h2)
    (fun w hw w' hw' d hd he => by
      obtain ⟨p, hp, hpw⟩ := hwmem w hw
      obtain ⟨p', hp', hpw'⟩ := hwmem w' hw'
      obtain ⟨h1, h2, -⟩ := hout p hp w hpw
      rw [h1] at he
      rcases (hwd p' hp' w' hpw' d hd).2 with hd | hd
      · exact hb.orderly.dims p hp p' hp' d hd he
      · exact h2 (he ▸ (hmem d.name).2 ⟨d, hd, rfl⟩))
    (fun w hw m i j hm => by
      obtain ⟨p, hp, hpw⟩ := hwmem w hw
      rw [(hout p hp w hpw).1] at hm
      exact ⟨by simp [keys], fun h => hb.orderly.elems p hp m i j hm (hwsub.subset h)⟩)
    (by
      have : (keys b.vars).Nodup := hb.orderly.vars
      simpa [keys] using this.sublist hwsub)
  have hw2 : out.vars = ws := by rw [hw2]; rfl
  obtain ⟨r, hr1, hr2, hr3, hr4⟩ := addRest rd.name b.ivars out
  have hrv : r.vars = ws := by rw [hr2, hw2]
  have hbnd : (keys base).Nodup := by rw [hbk]; exact hb.nodup
  have hrnd : (keys r.ivars).Nodup := by
    refine hr3 ?_
    rw [hw3]
    exact keys_addDims_nodup _ _ hbnd
  have hout' : ∀ m, lookup out.ivars m = (lookup base m).or ((ws.flatMap fun w => w.2.dims).find? fun d => d.name == m) := by
    intro m
    rw [hw3, lookup_addDims]
  have hwsn : (keys ws).Nodup := by
    have : (keys b.vars).Nodup := hb.orderly.vars
    exact this.sublist hwsub
  have hapart : ∀ k, k ∈ keys ws → lookup b.ivars k = none := by
    intro k hk
    obtain ⟨p, hp, rfl⟩ := List.mem_map.1 (hwsub.subset hk)
    exact (lookup_none_iff' _ _).2 (hb.orderly.apart p hp)
  have hlsn : ∀ k, k ∈ keys ws → k ∉ ls := by
    intro k hk
    obtain ⟨w, hw, rfl⟩ := List.mem_map.1 hk
    obtain ⟨p, hp, hpw⟩ := hwmem w hw
    obtain ⟨h1, h2, -⟩ := hout p hp w hpw
    rw [h1]
    exact h2
  have hdimn : ∀ k, k ∈ keys ws → ((ws.flatMap fun w => w.2.dims).find? fun d => d.name == k) = none := by
    intro k hk
    rw [List.find?_eq_none]
    intro d hd he
    simp only [beq_iff_eq] at he
    obtain ⟨w, hw, hdw⟩ := List.mem_flatMap.1 hd
    obtain ⟨p, hp, hpw⟩ := hwmem w hw
    rcases (hwd p hp w hpw d hdw).2 with h | h
    · obtain ⟨q, hq, rfl⟩ := List.mem_map.1 (hwsub.subset hk)
      exact hb.orderly.dims q hq p hp d h he
    · exact hlsn k hk (he ▸ (hmem d.name).2 ⟨d, h, rfl⟩)
  have hbls : ∀ k, k ∉ ls → lookup base k = none := fun k hk => (lookup_none_iff' _ _).2 (by rw [hbk]; exact hk)
  have hnotin : ∀ k, k ∈ keys ws → lookup r.ivars k = none := by
    intro k hk
    rw [hr4, hout', hbls k (hlsn k hk), hdimn k hk, hapart k hk]
    simp
  have hlook : ∀ k v, lookup b.vars k = some v → lookup ws k = (f (k, v)).map Prod.snd := by
    intro k v hkv
    have hm := lookup_mem hkv
    cases hfk : f (k, v) with
    | some w =>
      have hw : w ∈ ws := by rw [hws]; exact List.mem_filterMap.2 ⟨_, hm, hfk⟩
      have := mem_lookup hwsn hw
      rw [(hout _ hm w hfk).1] at this
      exact this
    | none =>
      rw [Option.map_none, lookup_none_iff']
      intro hc
      obtain ⟨w, hw, hwk⟩ := List.mem_map.1 hc
      obtain ⟨p, hp, hpw⟩ := hwmem w hw
      have h1 := (hout p hp w hpw).1
      have h2 := mem_lookup hb.orderly.vars hp
      rw [← h1, hwk, hkv] at h2
      have hpk : p = (k, v) := Prod.ext (h1.symm.trans hwk) (Option.some.inj h2).symm
      rw [hpk, hfk] at hpw
      cases hpw
  refine ⟨r, ?_, ?_⟩
  · obtain ⟨c, cs, hc⟩ := List.exists_cons_of_ne_nil hg.nonempty
    unfold hyperBlock
    rw [hcols, hc]
    simp only
    rw [← hc, cubeDims_eq, ← hls, ← hdims, ← hbase, hloop, hw1]
    simp only
    rw [hr1]
  · refine ⟨⟨?_, ?_, hrnd, ?_, ?_, ?_⟩, ?_, ?_, ?_, ?_, ?_, ?_, ?_⟩
    · intro w hw
      rw [hrv] at hw
      obtain ⟨p, hp, hpw⟩ := hwmem w hw
      rcases (hout p hp w hpw).2.2 with ⟨-, -, rfl⟩ | ⟨pre, post, sp, sq, h1, h2, h3, h4, h5, h6⟩
      · exact hb.orderly.wf _ hp
      · show w.2.dims.length = w.2.nd.shape.length
        rw [h5, h6, ← hdl]
        simp [h3, h4]
    · rw [hrv]; exact hwsn
    · intro w hw
      rw [hrv] at hw
      have := hnotin w.1 (List.mem_map_of_mem hw)
      exact (lookup_none_iff' _ _).1 this
    · intro w hw w' hw' d hd he
      rw [hrv] at hw hw'
      have := hdimn w.1 (List.mem_map_of_mem hw)
      rw [List.find?_eq_none] at this
      exact this d (List.mem_flatMap.2 ⟨w', hw', hd⟩) (by simpa using he)
    · intro w hw m i j hm
      rw [hrv] at hw ⊢
      obtain ⟨p, hp, hpw⟩ := hwmem w hw
      rw [(hout p hp w hpw).1] at hm
      exact fun h => hb.orderly.elems p hp m i j hm (hwsub.subset h)
    · intro d hd
      rw [← hdims] at hd
      have hdl' : d.name ∈ ls := (hmem d.name).2 ⟨d, hd, rfl⟩
      have h1 : lookup base d.name = some d := by
        have hm : (d.name, d) ∈ base := by
          rw [hbase']
          exact List.mem_map.2 ⟨d, hd, rfl⟩
        exact mem_lookup hbnd hm
      refine ⟨by rw [hr4, hout', h1]; rfl, ?_⟩
      rw [hrv, lookup_none_iff']
      exact fun hc => hlsn _ hc hdl'
    · intro k v pre post sp sq hk hkv h1 h2 h3
      have hm := lookup_mem hkv
      obtain ⟨a, e1, e2, e3, e4⟩ := hsp (k, v) hm pre post sp sq h1 h2 h3
      refine ⟨a, ?_, by rw [e2, hdims], e3, e4⟩
      rw [hrv, hlook k v hkv, hf]
      have hc : Arr.containsDim v.dims rd = true := (containsDim_iff hb hm).2 (by rw [h1]; simp)
      simp only at e1
      simp [outOf, hc, hk, e1]
    · intro k v hkv hrd
      have hm := lookup_mem hkv
      rw [hrv, hlook k v hkv, hf]
      have hc : ¬ Arr.containsDim v.dims rd = true := fun h => hrd ((containsDim_iff hb hm).1 h)
      simp only [outOf, hc, Bool.false_eq_true, if_false]
      cases all <;> rfl
    · intro k hk
      rw [lookup_none_iff'] at hk
      rw [hrv, lookup_none_iff']
      exact fun hc => hk (hwsub.subset hc)
    · rw [hrv]; exact hwsub
    · rw [hr4, hout', hbls _ hrdls]
      have : ((ws.flatMap fun w => w.2.dims).find? fun d => d.name == rd.name) = none := by
        rw [List.find?_eq_none]
        intro d hd he
        obtain ⟨w, hw, hdw⟩ := List.mem_flatMap.1 hd
        obtain ⟨p, hp, hpw⟩ := hwmem w hw
        exact (hwd p hp w hpw d hdw).1 (by simpa using he)
      rw [this]
      simp
    · intro m hm hmr
      rw [hr4, hout', hbls m hm, hrv, hw2]
      by_cases hk : m ∈ keys ws
      · rw [hapart m hk, hdimn m hk]
        simp
      · rw [if_neg (by simp [hk, hmr])]
        rfl

/-- C68: if the values of every column first appear in ascending order, the element with given values of the new
dimensions is that of the row with these values. -/
theorem C68_cube [LinearOrder α] (env : Env β α) (b : Block β α) (names : List String) (rd : Dim β) (n : Nat)
    (cols : List (List α)) (indexed all : Bool) (hb : IsTable b names (labels indexed names) rd n cols)
    (hg : FullGrid cols n) (hasc : ∀ d ∈ newDims cols, Ascending d) :
    ∃ r, hyperBlock env b names rd indexed all = .ok r ∧
      IsCube env b (labels indexed names) rd n cols (newDims cols) all r := by
  refine C68_order env b names rd n cols (newDims cols) indexed all hb hg ?_
  unfold newDims at hasc ⊢
  rw [List.forall₂_map_right_iff, List.forall₂_same]
  exact fun c hc => ⟨hasc _ (List.mem_map_of_mem hc), (Utils.C15_stable_uniq c).2.1⟩

end HF.Hyper
