import Verif.DataBlock.FilterSort
import Verif.DataBlock.Writes
import Verif.HFArray.IndexProps
/-
Lemmas for `filter` and `sort`: one variable.
-/
namespace HF.DataBlock

open HF.DataDict.Spec
open HF.Arr hiding Err ofNd

variable {β α : Type}

/-- `y` is what remains of `x` if along every axis called `name` the points at the positions
`pos` are taken, in this order, and the axis is described by `new`. -/
structure Picked (name : String) (new : Dim β) (pos : List Nat) (x y : Arr β α) : Prop where
  dims : y.dims = x.dims.map fun e => if e.name = name then new else e
  shape : y.nd.shape =
    List.zipWith (fun e n => if e.name = name then pos.length else n) x.dims x.nd.shape
  get : ∀ idx, Nd.Valid y.nd.shape idx → y.nd.get idx =
    x.nd.get (List.zipWith (fun e i => if e.name = name then pos.getD i 0 else i) x.dims idx)

theorem zipWith_snd {δ ε : Type} (l : List δ) (m : List ε) (h : l.length = m.length) :
    List.zipWith (fun _ n => n) l m = m := by
  induction l generalizing m with
  | nil => cases m <;> simp_all
  | cons a t ih => cases m <;> simp_all

theorem zipWith_congr_left' {δ ε ζ : Type} {f g : δ → ε → ζ} {l : List δ} {m : List ε}
    (h : ∀ e ∈ l, ∀ n, f e n = g e n) : List.zipWith f l m = List.zipWith g l m := by
  induction l generalizing m with
  | nil => rfl
  | cons a t ih =>
    cases m with
    | nil => rfl
    | cons b m =>
      simp only [List.zipWith_cons_cons]
      rw [h a (by simp), ih fun e he => h e (by simp [he])]

theorem Picked.untouched {name : String} {new : Dim β} {pos : List Nat} {x : Arr β α} (hwf : x.WF)
    (h : ∀ e ∈ x.dims, e.name ≠ name) : Picked name new pos x x where
  dims := by
    conv_lhs => rw [← List.map_id x.dims]
    exact List.map_congr_left fun e he => by simp [h e he]
  shape := by
    rw [zipWith_congr_left' (g := fun _ n => n) fun e he n => if_neg (h e he),
      zipWith_snd _ _ hwf]
  get := fun idx hv => by
    rw [zipWith_congr_left' (g := fun _ n => n) fun e he n => if_neg (h e he),
      zipWith_snd _ _ (by rw [hv.length]; exact hwf)]

theorem dimsIndex_none {dims : List (Dim β)} {n : String} :
    dimsIndex dims n = none ↔ ∀ e ∈ dims, e.name ≠ n := by
  induction dims with
  | nil => simp [dimsIndex]
  | cons d t ih =>
    simp only [dimsIndex]
    by_cases h : d.name = n
    · simp [h]
    · simp [h, ih]

theorem dimsIndex_some {dims : List (Dim β)} {n : String} {i : Nat} (h : dimsIndex dims n = some i) :
    ∃ p e q, dims = p ++ e :: q ∧ p.length = i ∧ e.name = n := by
  induction dims generalizing i with
  | nil => simp [dimsIndex] at h
  | cons d t ih =>
    simp only [dimsIndex] at h
    by_cases hn : d.name = n
    · rw [if_pos hn] at h
      exact ⟨[], d, t, rfl, by simpa using h, hn⟩
    · rw [if_neg hn] at h
      obtain ⟨j, hj, rfl⟩ := Option.map_eq_some_iff.1 h
      obtain ⟨p, e, q, h1, h2, h3⟩ := ih hj
      exact ⟨d :: p, e, q, by simp [h1], by simp [h2], h3⟩

theorem split_at {δ : Type} (l : List δ) (i : Nat) (h : i < l.length) :
    ∃ p e q, l = p ++ e :: q ∧ p.length = i :=
  ⟨l.take i, l[i], l.drop (i + 1), by simp, by simp; omega⟩

theorem distinct_of_names {dims : List (Dim β)} (hn : (dims.map Dim.name).Nodup) : Distinct dims := by
  unfold Distinct
  have : dims.map Dim.name = (dims.map Dim.key).map Prod.fst := by rw [List.map_map]; rfl
  exact List.Nodup.of_map Prod.fst (this ▸ hn)

theorem axisLen_eq_some {x : Arr β α} (hd : Distinct x.dims) {e : Dim β} {n : Nat}
    (h : (e, n) ∈ x.dims.zip x.nd.shape) : x.axisLen e.key = some n := by
  unfold axisLen
  unfold Distinct at hd
  revert h hd
  generalize x.dims = ds
  generalize x.nd.shape = sh
  intro hd h
  induction ds generalizing sh with
  | nil => simp at h
  | cons d t ih =>
    cases sh with
    | nil => simp at h
    | cons s ss =>
      rw [List.zip_cons_cons] at h ⊢
      rw [List.map_cons, List.nodup_cons] at hd
      rw [List.find?_cons]
      rcases List.mem_cons.1 h with he | he
      · cases he; simp
      · have hne : d.key ≠ e.key := fun hc => hd.1 (hc ▸ List.mem_map_of_mem (List.of_mem_zip he).1)
        simp only [hne, decide_false]
        exact ih ss hd.2 he

/-- The lengths of the axes determine the shape. -/
theorem shape_of_axisLen {r : Arr β α} (hwf : r.WF) (hd : Distinct r.dims) {sh : List Nat}
    (hl : sh.length = r.dims.length)
    (h : ∀ e n, (e, n) ∈ r.dims.zip sh → r.axisLen e.key = some n) : r.nd.shape = sh := by
  apply List.ext_getElem
  · rw [hl, ← hwf]
  · intro j h1 h2
    have hj : j < r.dims.length := hl ▸ h2
    have e1 := h r.dims[j] sh[j] (List.mem_iff_getElem.2 ⟨j, by simp [hj, h2], by simp⟩)
    have e2 := axisLen_eq_some hd (e := r.dims[j]) (n := r.nd.shape[j])
      (List.mem_iff_getElem.2 ⟨j, by simp [hj, h1], by simp⟩)
    exact Option.some.inj (e2.symm.trans e1)

theorem eraseIdx_append_cons {δ : Type} (p q : List δ) (e : δ) :
    (p ++ e :: q).eraseIdx p.length = p ++ q := by
  induction p with
  | nil => rfl
  | cons a t ih => simp [ih]

theorem range_split (i m : Nat) :
    List.range (i + (m + 1)) = List.range i ++ i :: (List.range m).map (i + 1 + ·) := by
  rw [show i + (m + 1) = (i + 1) + m by omega, List.range_add, List.range_succ]
  simp

theorem map_getElem?_split {δ : Type} (p q : List δ) (e : δ) :
    (p.length :: (List.range p.length ++ (List.range q.length).map (p.length + 1 + ·))).map
      (fun k => (p ++ e :: q)[k]?) = (e :: (p ++ q)).map some := by
  rw [List.map_cons, List.map_cons, List.map_append, List.map_append, List.map_map]
  congr 1
  · simp
  · congr 1
    · apply List.ext_getElem (by simp)
      intro j h1 h2
      have hj : j < p.length := by simpa using h2
      simp [List.getElem?_append_left hj]
    · apply List.ext_getElem (by simp)
      intro j h1 h2
      have hj : j < q.length := by simpa using h2
      simp only [List.getElem_map, List.getElem_range, Function.comp]
      rw [List.getElem?_append_right (by omega), show p.length + 1 + j - p.length = j + 1 by omega]
      simp [hj]

theorem map_some_inj {δ : Type} {l m : List δ} (h : l.map some = m.map some) : l = m :=
  List.map_injective_iff.2 (fun _ _ e => Option.some.inj e) h

/-- The variable as `filter` leaves it. -/
theorem filterArr_spec [DecidableEq β] (lenient : Bool) (d new : Dim β) (hnew : new.name = d.name)
    (mask : List Bool) (x : Arr β α) (hwf : x.WF) (hn : (x.dims.map Dim.name).Nodup)
    (hlen : ∀ e n, (e, n) ∈ x.dims.zip x.nd.shape → e.name = d.name → maskFits lenient mask n = true) :
    ∃ y, filterArr lenient d new mask x = .ok y ∧ Picked d.name new (maskIdx mask) x y := by
  unfold filterArr
  cases hi : dimsIndex x.dims d.name with
  | none => exact ⟨x, rfl, Picked.untouched hwf (dimsIndex_none.1 hi)⟩
  | some i =>
    obtain ⟨p, e, q, hx, rfl, hen⟩ := dimsIndex_some hi
    have hsl : x.nd.shape.length = p.length + (q.length + 1) := by
      rw [← hwf, hx]; simp
    obtain ⟨sp, s, sq, hsh, hspl⟩ := split_at x.nd.shape p.length (by omega)
    have hsql : sq.length = q.length := by
      have := congrArg List.length hsh
      simp at this; omega
    have hfits : maskFits lenient mask s = true := by
      refine hlen e s ?_ hen
      rw [hx, hsh, List.zip_append hspl.symm]; simp
    have horder : (p.length :: (List.range x.nd.ndim).eraseIdx p.length) =
        p.length :: (List.range p.length ++ (List.range q.length).map (p.length + 1 + ·)) := by
      have e1 : List.range x.nd.ndim =
          List.range p.length ++ p.length :: (List.range q.length).map (p.length + 1 + ·) := by
        rw [Nd.ndim, hsl, range_split]
      rw [e1]
      have := eraseIdx_append_cons (List.range p.length)
        ((List.range q.length).map (p.length + 1 + ·)) p.length
      rw [List.length_range] at this
      rw [this]
    have hperm : (p.length :: (List.range x.nd.ndim).eraseIdx p.length).Perm
        (List.range x.dims.length) := by
      rw [horder, hwf, hsl, range_split]
      exact List.perm_middle.symm
    obtain ⟨y, hy1, hy2, hy3, hy4, hy5⟩ := transpose_spec hwf hperm
    rw [horder, hx, map_getElem?_split] at hy3
    have hyd := map_some_inj hy3
    rw [horder, hsh, ← hspl, ← hsql, map_getElem?_split] at hy4
    have hys := map_some_inj hy4
    have hmask : maskFirst lenient y.nd mask = .ok ⟨(maskIdx mask).length :: (sp ++ sq), fun idx =>
        y.nd.get (pickIdx (maskIdx mask) idx)⟩ := by
      unfold maskFirst
      rw [hys]
      simp only [hfits, if_true]
    have hxer : x.dims.eraseIdx p.length = p ++ q := by rw [hx, eraseIdx_append_cons]
    simp only
    rw [hy1]
    simp only
    rw [hmask]
    simp only [Arr.ofNd, hxer]
    obtain ⟨u, hu⟩ : ∃ u : Arr β α, u = ⟨new :: (p ++ q), ⟨(maskIdx mask).length :: (sp ++ sq), fun idx =>
        y.nd.get (pickIdx (maskIdx mask) idx)⟩⟩ := ⟨_, rfl⟩
    have huwf : u.WF := by
      rw [hu]; simp [WF, hspl, hsql]
    have hmk : mk? (⟨(maskIdx mask).length :: (sp ++ sq), fun idx =>
        y.nd.get (pickIdx (maskIdx mask) idx)⟩ : Nd α) (new :: (p ++ q)) = .ok u := by
      rw [mk?, if_pos (by simp [Nd.ndim, hspl, hsql]), hu]
    rw [hmk]
    simp only
    have hud : u.dims = new :: (p ++ q) := by rw [hu]
    -- names
    have hnames : ((p ++ new :: q).map Dim.name) = x.dims.map Dim.name := by
      rw [hx]; simp [hnew, hen]
    have hds : ((p ++ new :: q).map Dim.name).Nodup := hnames ▸ hn
    have hperm2 : (p ++ new :: q).Perm u.dims := by rw [hud]; exact List.perm_middle
    have hun : (u.dims.map Dim.name).Nodup := ((hperm2.map Dim.name).nodup_iff).1 hds
    have href : List.Forall₂ RefersTo (p ++ new :: q) (x.dims.map fun e => .str e.name) := by
      have : (x.dims.map fun e => Dim.Obj.str (β := β) e.name) =
          (p ++ new :: q).map fun e => .str e.name := by
        rw [hx]; simp [hnew, hen]
      rw [this]
      generalize p ++ new :: q = l
      induction l with
      | nil => exact .nil
      | cons a t ih => exact .cons (Or.inr rfl) ih
    obtain ⟨r, hr1, hr2, hr3, hr4, hr5⟩ := C07_reorder u huwf hun (p ++ new :: q) _ href
      (fun a ha => hperm2.mem_iff.1 ha) (List.Nodup.of_map _ hds)
    have hrd : r.dims = p ++ new :: q := by
      rw [hr3]
      have : u.dims.filter (fun e => decide (e ∉ p ++ new :: q)) = [] := by
        rw [List.filter_eq_nil_iff]
        intro a ha
        simp only [decide_eq_true_eq, not_not]
        exact hperm2.mem_iff.2 ha
      rw [this, List.append_nil]
    have hrdist : Distinct r.dims := by rw [hrd]; exact distinct_of_names hds
    have hudist : Distinct u.dims := distinct_of_names hun
    have hrs : r.nd.shape = sp ++ (maskIdx mask).length :: sq := by
      apply shape_of_axisLen hr2 hrdist
      · rw [hrd]; simp [hspl, hsql]
      · intro a n ha
        rw [hr4]
        apply axisLen_eq_some hudist
        rw [hrd, List.zip_append hspl.symm] at ha
        rw [hu]
        simp only [List.zip_cons_cons]
        rw [List.zip_append hspl.symm]
        simp only [List.mem_append, List.mem_cons, List.zip_cons_cons] at ha ⊢
        tauto
    -- names other than the filtered one
    rw [hx, List.map_append, List.map_cons, List.nodup_append] at hn
    have hp : ∀ a ∈ p, a.name ≠ d.name := fun a ha hc =>
      hn.2.2 _ (List.mem_map_of_mem ha) _ (List.mem_cons_self) (hc.trans hen.symm)
    have hq : ∀ a ∈ q, a.name ≠ d.name := fun a ha hc =>
      (List.nodup_cons.1 hn.2.1).1 (by rw [hen, ← hc]; exact List.mem_map_of_mem ha)
    refine ⟨r, hr1, ?_, ?_, ?_⟩
    · rw [hrd, hx, List.map_append, List.map_cons, if_pos hen]
      congr 1
      · conv_lhs => rw [← List.map_id p]
        exact List.map_congr_left fun a ha => by simp [hp a ha]
      · congr 1
        conv_lhs => rw [← List.map_id q]
        exact List.map_congr_left fun a ha => by simp [hq a ha]
    · rw [hrs, hx, hsh, List.zipWith_append hspl.symm, List.zipWith_cons_cons, if_pos hen,
        zipWith_congr_left' (l := p) (g := fun _ n => n) fun a ha n => if_neg (hp a ha),
        zipWith_congr_left' (l := q) (g := fun _ n => n) fun a ha n => if_neg (hq a ha),
        zipWith_snd _ _ hspl.symm, zipWith_snd _ _ hsql.symm]
    · intro idx hv
      obtain ⟨c, hc⟩ := exists_coord hrdist idx (by rw [hv.length]; exact hr2.symm)
      have e1 : r.nd.get idx = u.at_ c := by rw [← hr5, at_, hc]
      have e2 : u.at_ c = y.at_ fun k => if k.1 = d.name then (maskIdx mask).getD (c new.key) 0 else c k := by
        rw [at_, at_, hyd, hu]
        simp only [List.map_cons, pickIdx]
        congr 1
        have : e.key.1 = d.name := hen
        rw [if_pos this]
        congr 1
        refine List.map_congr_left fun a ha => ?_
        have : a.key.1 ≠ d.name := by
          rcases List.mem_append.1 ha with h | h
          · exact hp a h
          · exact hq a h
        rw [if_neg this]
      rw [e1, e2, hy5, at_, ← hc, hrd, hx]
      congr 1
      simp only [List.map_append, List.map_cons]
      rw [List.zipWith_append (by simp), List.zipWith_cons_cons, if_pos hen, if_pos (show e.key.1 = d.name from hen),
        zipWith_congr_left' (l := p) (g := fun _ n => n) fun a ha n => if_neg (hp a ha),
        zipWith_congr_left' (l := q) (g := fun _ n => n) fun a ha n => if_neg (hq a ha),
        zipWith_snd _ _ (by simp), zipWith_snd _ _ (by simp)]
      congr 1
      · exact List.map_congr_left fun a ha => if_neg (hp a ha)
      · congr 1
        exact List.map_congr_left fun a ha => if_neg (hq a ha)

end HF.DataBlock
