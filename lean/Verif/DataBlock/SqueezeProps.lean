import Verif.DataBlock.Squeeze
import Verif.DataBlock.FilterProps
import Verif.DataBlock.ConvertProps
import Verif.HFArray.SqueezeProps
/-
C49: squeezing a whole block.
-/
namespace HF.DataBlock

open HF.DataDict.Spec
open HF.DataDict hiding rename delitem
open HF.Arr hiding Err ofNd getitem

variable {β α : Type}

theorem keys_of_forall₂ {γ δ : Type} {R : String × γ → String × δ → Prop}
    {l : List (String × γ)} {m : List (String × δ)} (h : List.Forall₂ R l m)
    (hR : ∀ p w, R p w → p.1 = w.1) : keys m = keys l := by
  induction h with
  | nil => rfl
  | cons hr _ ih =>
    simp only [keys, List.map_cons] at ih ⊢
    rw [ih, hR _ _ hr]

/-- `y` is `x` without the axes of length one. -/
structure Squeezed (x y : Arr β α) : Prop where
  wf : y.WF
  dims : y.dims = ((x.dims.zip x.nd.shape).filter fun p => p.2 ≠ 1).map Prod.fst
  shape : y.nd.shape = x.nd.shape.filter (· ≠ 1)
  elems : ∀ c, (∀ e, (e, 1) ∈ x.dims.zip x.nd.shape → c e.key = 0) → y.at_ c = x.at_ c

theorem Squeezed.mem {x y : Arr β α} (h : Squeezed x y) {d : Dim β} (hd : d ∈ y.dims) : d ∈ x.dims := by
  rw [h.dims, List.mem_map] at hd
  obtain ⟨p, hp, rfl⟩ := hd
  exact (List.of_mem_zip (List.mem_filter.1 hp).1).1

/-- The axes that are left keep their lengths. -/
theorem Squeezed.axisLen {x y : Arr β α} (h : Squeezed x y) (hwf : x.WF)
    (hn : (x.dims.map Dim.name).Nodup)
    {e : Dim β} {m : Nat} (hm : (e, m) ∈ x.dims.zip x.nd.shape) (h1 : m ≠ 1) :
    y.axisLen e.key = some m := by
  have hsub : y.dims.Sublist x.dims := by
    rw [h.dims]
    have h1 : ((x.dims.zip x.nd.shape).filter fun p => p.2 ≠ 1).map Prod.fst |>.Sublist
        ((x.dims.zip x.nd.shape).map Prod.fst) := List.filter_sublist.map _
    rw [List.map_fst_zip (le_of_eq hwf)] at h1
    exact h1
  have hyn : (y.dims.map Dim.name).Nodup := hn.sublist (hsub.map _)
  refine axisLen_eq_some (distinct_of_names hyn) ?_
  rw [h.dims, h.shape]
  have : ∀ (ds : List (Dim β)) (sh : List Nat), (e, m) ∈ ds.zip sh →
      (e, m) ∈ (((ds.zip sh).filter fun p => p.2 ≠ 1).map Prod.fst).zip (sh.filter (· ≠ 1)) := by
    intro ds
    induction ds with
    | nil => intro sh h; simp at h
    | cons d t ih =>
      intro sh hm
      cases sh with
      | nil => simp at hm
      | cons s u =>
        rw [List.zip_cons_cons] at hm ⊢
        by_cases hs : s = 1
        · rw [List.filter_cons_of_neg (by simpa using hs), List.filter_cons_of_neg (by simpa using hs)]
          rcases List.mem_cons.1 hm with he | hm
          · cases he; exact absurd hs h1
          · exact ih u hm
        · rw [List.filter_cons_of_pos (by simpa using hs), List.filter_cons_of_pos (by simpa using hs),
            List.map_cons, List.zip_cons_cons]
          rcases List.mem_cons.1 hm with he | hm
          · rw [he]; simp
          · exact List.mem_cons_of_mem _ (ih u hm)
  exact this _ _ hm

theorem squeezeLoop_writes (env : Env β α) (b : Block β α) (ps ws : List (String × Arr β α))
    (h : List.Forall₂ (fun p w => p.1 = w.1 ∧ getitem env b p.1 = .ok p.2 ∧
      p.2.squeezeIdx none = .ok w.2) ps ws) :
    ∀ db, squeezeLoop env b db (ps.map Prod.fst) = writes env db ws := by
  induction h with
  | nil => intro db; rfl
  | @cons p w ps ws hr _ ih =>
    intro db
    simp only [List.map_cons, squeezeLoop, writes, hr.2.1, hr.2.2, ofArr]
    rw [hr.1]
    split
    · rename_i e; simp [e]
    · rename_i e; simp [e, ih]

/-- A block whose names do not get into conflict. -/
structure Orderly (b : Block β α) : Prop where
  wf : ∀ p ∈ b.vars, p.2.WF
  vars : (b.vars.map Prod.fst).Nodup
  ivars : (b.ivars.map Prod.fst).Nodup
  apart : ∀ p ∈ b.vars, p.1 ∉ b.ivars.map Prod.fst
  dims : ∀ p ∈ b.vars, ∀ p' ∈ b.vars, ∀ d ∈ p'.2.dims, d.name ≠ p.1
  elems : ∀ p ∈ b.vars, ∀ m i j, isMatrixName p.1 = some (m, i, j) → m ∉ b.vars.map Prod.fst

theorem setDims_spec (iv : OMap String (Dim β)) (db : Block β α) :
    (iv.foldl (fun db p => setDim db p.1 p.2) db).vars = db.vars ∧
      (iv.foldl (fun db p => setDim db p.1 p.2) db).ivars = assigns db.ivars iv := by
  induction iv generalizing db with
  | nil => exact ⟨rfl, rfl⟩
  | cons p t ih =>
    rw [List.foldl_cons]
    exact ih (setDim db p.1 p.2)

/-- C49: `db.squeeze()` gives a block with the same variables in the same order, each without
its axes of length one; all dims of the block stay known, also those which no variable has
any more. -/
theorem C49_block (env : Env β α) (b : Block β α) (hb : Orderly b) :
    ∃ r, squeezeBlock env b = .ok r ∧
      List.Forall₂ (fun p w => w.1 = p.1 ∧ Squeezed p.2 w.2) b.vars r.vars ∧
      ∀ n, lookup r.ivars n =
        (lookup b.ivars n).or ((r.vars.flatMap fun w => w.2.dims).find? fun d => d.name == n) := by
  obtain ⟨ws, hws⟩ := forall₂_choose (l := b.vars)
    (R := fun p (w : String × Arr β α) => p.1 = w.1 ∧ getitem env b p.1 = .ok p.2 ∧
      p.2.squeezeIdx none = .ok w.2 ∧ Squeezed p.2 w.2)
    (fun p hp => by
      obtain ⟨y, h1, h2, h3, h4, h5⟩ := C49_squeeze p.2 (hb.wf p hp)
      refine ⟨(p.1, y), rfl, ?_, h1, h2, h3, h4, h5⟩
      have hni : lookup b.ivars p.1 = none := (lookup_none_iff' _ _).2 (hb.apart p hp)
      simp only [getitem, hni, mem_lookup hb.vars hp])
  have hk : keys ws = b.vars.map Prod.fst := keys_of_forall₂ hws fun p w h => h.1
  obtain ⟨db, h1, h2, h3⟩ := writes_new env ws ({} : Block β α) (fun w _ h => by simp [keys] at h)
    (fun w hw w' hw' d hd => by
      obtain ⟨p, hp, hpw⟩ := forall₂_mem_right hws hw
      obtain ⟨p', hp', hpw'⟩ := forall₂_mem_right hws hw'
      rw [← hpw.1]
      exact hb.dims p hp p' hp' d (hpw'.2.2.2.mem hd))
    (fun w hw m i j hm => by
      obtain ⟨p, hp, hpw⟩ := forall₂_mem_right hws hw
      rw [← hpw.1] at hm
      exact ⟨by simp [keys], hk ▸ hb.elems p hp m i j hm⟩)
    (by rw [hk]; simpa [keys] using hb.vars)
  obtain ⟨e1, e2⟩ := setDims_spec b.ivars db
  refine ⟨b.ivars.foldl (fun db p => setDim db p.1 p.2) db, by simp only [squeezeBlock, squeezeLoop_writes env b b.vars ws
    (hws.imp fun p w h => ⟨h.1, h.2.1, h.2.2.1⟩), h1], ?_, ?_⟩
  · rw [e1, h2]
    exact hws.imp fun p w h => ⟨h.1.symm, h.2.2.2⟩
  · intro n
    have h0 : db.vars = ws := by rw [h2]; rfl
    have : lookup b.ivars.reverse n = lookup b.ivars n := by
      cases hd : lookup b.ivars n with
      | some d =>
        exact mem_lookup (m := b.ivars.reverse) (p := (n, d))
          (by rw [List.map_reverse]; exact List.nodup_reverse.2 hb.ivars)
          (List.mem_reverse.2 (lookup_mem hd))
      | none =>
        rw [lookup_none_iff'] at hd ⊢
        simpa [keys] using hd
    rw [e2, lookup_assigns, this, e1, h0, h3, lookup_addDims]
    rfl

/-- C49 fails for networks with one port: they lose the dims that make them a matrix, and the
element that could be read before as `S11` is no longer there. -/
theorem C49_oneport_refuted (env : Env β α) (b : Block β α) (hb : Orderly b) (key m : String) (i j : Int)
    (x : Arr β α) (hx : (m, x) ∈ b.vars) (hkey : isMatrixName key = some (m, i, j))
    (hone : ∀ e n, (e, n) ∈ x.dims.zip x.nd.shape → e.isa .matI = true → n = 1)
    (hk1 : key ∉ b.vars.map Prod.fst) (hk2 : key ∉ b.ivars.map Prod.fst)
    (hk3 : ∀ p ∈ b.vars, ∀ d ∈ p.2.dims, d.name ≠ key) :
    ∃ r, squeezeBlock env b = .ok r ∧ getitem env r key = .error .keyError := by
  obtain ⟨r, h1, h2, h3⟩ := C49_block env b hb
  refine ⟨r, h1, ?_⟩
  have hkeys : r.vars.map Prod.fst = b.vars.map Prod.fst :=
    keys_of_forall₂ (R := fun p w => w.1 = p.1 ∧ Squeezed p.2 w.2) h2 fun p w h => h.1.symm
  have hi : lookup r.ivars key = none := by
    rw [h3, (lookup_none_iff' _ _).2 hk2, List.find?_eq_none.2]
    · rfl
    · intro d hd
      obtain ⟨w, hw, hwd⟩ := List.mem_flatMap.1 hd
      obtain ⟨p, hp, _, hs⟩ := forall₂_mem_right h2 hw
      simpa using hk3 p hp d (hs.mem hwd)
  have hv : lookup r.vars key = none := (lookup_none_iff' _ _).2 (by
    show key ∉ r.vars.map Prod.fst
    rw [hkeys]; exact hk1)
  obtain ⟨w, hw, hw1, hs⟩ := forall₂_mem_left h2 hx
  have hl : lookup r.vars m = some w.2 := by
    rw [show m = w.1 from hw1.symm]
    exact mem_lookup (hkeys ▸ hb.vars) hw
  have hnm : ismatrix w.2 = false := by
    rw [ismatrix, Bool.and_eq_false_iff]
    left
    rw [List.any_eq_false]
    intro d hd hc
    rw [hs.dims, List.mem_map] at hd
    obtain ⟨p, hp, rfl⟩ := hd
    obtain ⟨hp1, hp2⟩ := List.mem_filter.1 hp
    have := hone p.1 p.2 hp1 hc
    simp [this] at hp2
  simp only [getitem, hi, hv, hkey, hl, hnm, Bool.false_eq_true, if_false]

end HF.DataBlock
