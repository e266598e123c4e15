import Verif.Readers.TreatCplx
/-
Lemmas about units and names of columns over one sweep.
-/
namespace HF.Readers.Treat

open HF.DataDict.Spec HF.DataBlock
open HF.DataDict hiding rename delitem
open HF.Readers.FixUnit (UBlock title title_ne nameOf scaled relabelled guessed unitOf UnitWord Entitled C57_title)
open HF.Readers.Normalize (label varView dimView vnames dnames WF vnames_view dnames_view)

variable {β α : Type}

/-- The factor for a column by its title. -/
def scaleBy (mul : ℚ → α → α) (t : String) : α → α :=
  match title t with
  | none => id
  | some (_, m, _) => mul m

theorem scaled_get (mul : ℚ → α → α) (t : String) (x : Nd α) :
    (scaled mul t x).shape = x.shape ∧ ∀ i, (scaled mul t x).get i = scaleBy mul t (x.get i) := by
  unfold scaled scaleBy
  cases title t with
  | none => exact ⟨rfl, fun _ => rfl⟩
  | some p => exact ⟨rfl, fun _ => rfl⟩

theorem title_no_bracket {s : String} (h : '[' ∉ s.toList) : title s = none := by
  cases ht : title s with
  | none => rfl
  | some p =>
    obtain ⟨n, m, u⟩ := p
    obtain ⟨w, base, he, -⟩ := (C57_title s n m u).1 ht
    obtain ⟨ws, nl, k, e, -⟩ := he.text
    exact absurd (by rw [e]; simp) h

theorem title_titled {n : List Char} {u : Option (List Char)} (hn : Ident n) (hu : Word u) (h : u.getD [] ≠ []) :
    ∃ m base, UnitWord (u.getD []) m base ∧
      title (String.ofList (Sp.titled n u)) = some (String.ofList n, m, some (String.ofList base)) := by
  obtain ⟨m, base, -, hw⟩ := FixUnit.unitWord_total (u.getD []) h fun c hc => (FixUnit.isAlpha_iff c).2 (hu c hc)
  refine ⟨m, base, hw, (C57_title _ _ _ _).2 ⟨u.getD [], base, ⟨⟨[' '], [], 1, ?_, by simp, Or.inl rfl⟩, ⟨?_, ?_⟩, h, hu⟩, hw, rfl⟩⟩
  · rw [String.toList_ofList, String.toList_ofList, titled_some h]
  · rintro c hc rfl
    rw [String.toList_ofList] at hc
    exact hn.none (by decide) hc
  · intro c hc
    rw [String.toList_ofList] at hc
    have hm := List.mem_of_mem_getLast? hc
    constructor <;> rintro rfl <;> exact hn.none (by decide) hm

theorem nameOf_titled {n : List Char} {u : Option (List Char)} (hn : Ident n) (hu : Word u) :
    nameOf (String.ofList (Sp.titled n u)) = String.ofList n := by
  by_cases h : u.getD [] = []
  · rw [titled_none h]
    unfold nameOf
    rw [title_no_bracket (by rw [String.toList_ofList]; exact hn.none (by decide))]
  · obtain ⟨m, base, -, ht⟩ := title_titled hn hu h
    unfold nameOf
    rw [ht]

theorem nameOf_plain {n : String} (hn : Ident n.toList) : nameOf n = n := by
  unfold nameOf
  rw [title_no_bracket (hn.none (by decide))]

theorem nameOf_mid {it : Item α} (hn : Ident it.name.toList) (hu : Word it.unit) : nameOf it.mid.1 = it.name := by
  unfold Item.mid
  cases it.cplx
  · simp only [Bool.false_eq_true, if_false, Item.title]
    rw [nameOf_titled hn hu, String.ofList_toList]
  · simp only [if_true]
    exact nameOf_plain hn

theorem mid_plain {it : Item α} (h : '[' ∉ it.mid.1.toList) : it.mid.1 = it.name := by
  unfold Item.mid at h ⊢
  cases hc : it.cplx
  · simp only [hc, Bool.false_eq_true, if_false, Item.title, String.toList_ofList] at h ⊢
    by_cases hu : it.unit.getD [] = []
    · rw [titled_none hu, String.ofList_toList]
    · exact absurd (bracket_titled hu) h
  · simp

/-- The item after units are taken from the titles. -/
def Item.fin (mul : ℚ → α → α) (it : Item α) : String × (Nat → α) :=
  (it.name, fun k => scaleBy mul it.mid.1 (it.val k))

theorem unit_step (env : Env β α) (mul : ℚ → α → α) (cmul : ℚ → β → β) (guess : String → Option String)
    {b : Block β α} {sw : Dim β} {n : Nat} {items : List (Item α)} (ht : Tab b sw n (items.map Item.mid))
    (hs : Sober items) {dn : String} {du : Option (List Char)} (hd : Ident dn.toList) (hdu : Word du)
    (hsw : sw.name = String.ofList (Sp.titled dn.toList du)) (hdn : dn ∉ items.map Item.name) :
    ∃ b3 sw3, FixUnit.guessUnit env mul cmul guess ⟨b, fun _ => none⟩ = .ok b3 ∧
      label sw3 = relabelled cmul (guessed guess (label sw)) ∧ Tab b3.blk sw3 n (items.map (Item.fin mul)) ∧
      ∀ it ∈ items, b3.units it.name = unitOf it.mid.1 (guess it.mid.1) := by
  have hvn : ∀ k, k ∈ vnames b ↔ ∃ it ∈ items, it.mid.1 = k := by
    intro k
    rw [show vnames b = DataBlock.keys b.vars from rfl, ht.keys]
    simp
  have hdnm : dnames b = [sw.name] := by unfold dnames; rw [ht.ivars]; rfl
  have hswn : nameOf sw.name = dn := by rw [hsw, nameOf_titled hd hdu, String.ofList_toList]
  have hswp : '[' ∉ sw.name.toList → sw.name = dn := by
    intro h
    rw [hsw, String.toList_ofList] at h
    by_cases hu : du.getD [] = []
    · rw [hsw, titled_none hu, String.ofList_toList]
    · exact absurd (bracket_titled hu) h
  have hnames : (vnames b ++ dnames b).Nodup := by
    rw [hdnm]
    refine List.nodup_append.2 ⟨ht.nodup, by simp, ?_⟩
    rintro a ha c hc rfl
    rw [List.mem_singleton.1 hc] at ha
    exact ht.apart ((ht.keys _).1 ha)
  have hdv : dimView b = [(sw.name, label sw)] := by unfold dimView; rw [ht.ivars]; rfl
  have hwf : WF b := by
    refine ⟨hnames, ?_, ?_⟩
    · rw [hdv]; simp [label]
    · intro p hp l hl
      obtain ⟨w, hw, rfl⟩ := List.mem_map.1 hp
      simp only [ht.exact.dims w hw, List.map_cons, List.map_nil, List.mem_singleton] at hl
      exact ⟨_, by rw [hdv]; exact List.mem_singleton.2 rfl, hl.symm⟩
  have hname : ∀ k ∈ FixUnit.names b, (∃ it ∈ items, it.mid.1 = k ∧ nameOf k = it.name) ∨ k = sw.name ∧ nameOf k = dn := by
    intro k hk
    rcases List.mem_append.1 hk with h | h
    · obtain ⟨it, hi, rfl⟩ := (hvn k).1 h
      exact Or.inl ⟨it, hi, rfl, nameOf_mid (hs.ident it hi) (hs.word it hi)⟩
    · rw [hdnm] at h
      have := List.mem_singleton.1 h
      exact Or.inr ⟨this, by rw [this, hswn]⟩
  have hplain : ∀ n ∈ FixUnit.names b, '[' ∉ n.toList → (∃ it ∈ items, it.name = n ∧ it.mid.1 = n) ∨ n = sw.name ∧ n = dn := by
    intro k hk hb
    rcases List.mem_append.1 hk with h | h
    · obtain ⟨it, hi, rfl⟩ := (hvn k).1 h
      exact Or.inl ⟨it, hi, (mid_plain hb).symm, rfl⟩
    · rw [hdnm] at h
      have := List.mem_singleton.1 h
      exact Or.inr ⟨this, by rw [this]; exact hswp (this ▸ hb)⟩
  have hclear : FixUnit.Clear b := by
    refine ⟨?_, ?_, ?_⟩
    · intro k hk n m u htl hn
      have e : nameOf k = n := by unfold nameOf; rw [htl]
      have hne := title_ne htl
      rcases hname k hk with ⟨it, hi, e1, e2⟩ | ⟨e1, e2⟩
      · have hn' : n = it.name := e.symm.trans e2
        have hb : '[' ∉ n.toList := by rw [hn']; exact (hs.ident it hi).none (by decide)
        rcases hplain n hn hb with ⟨it', hi', f1, f2⟩ | ⟨f1, f2⟩
        · have := hs.inj hi' hi (f1.trans hn')
          subst this
          exact hne (f2.symm.trans e1)
        · exact hdn (f2 ▸ hn' ▸ List.mem_map_of_mem hi)
      · have hn' : n = dn := e.symm.trans e2
        have hb : '[' ∉ n.toList := by rw [hn']; exact hd.none (by decide)
        rcases hplain n hn hb with ⟨it', hi', f1, f2⟩ | ⟨f1, f2⟩
        · exact hdn (hn' ▸ f1 ▸ List.mem_map_of_mem hi')
        · exact hne (f1.trans e1.symm)
    · refine List.Nodup.map_on ?_ hnames
      intro a ha c hc e
      rcases hname a ha with ⟨it, hi, e1, e2⟩ | ⟨e1, e2⟩ <;> rcases hname c hc with ⟨it', hi', f1, f2⟩ | ⟨f1, f2⟩
      · have := hs.inj hi hi' (e2.symm.trans (e.trans f2))
        subst this
        exact e1.symm.trans f1
      · exact absurd ((e2.symm.trans (e.trans f2)) ▸ List.mem_map_of_mem hi) hdn
      · exact absurd ((f2.symm.trans (e.symm.trans e2)) ▸ List.mem_map_of_mem hi') hdn
      · exact e1.trans f1.symm
    · intro k hk n m u htl q i j hq
      have e : nameOf k = n := by unfold nameOf; rw [htl]
      obtain ⟨it, hi, rfl⟩ := (hvn k).1 hk
      rw [nameOf_mid (hs.ident it hi) (hs.word it hi)] at e
      subst e
      constructor
      · intro h
        obtain ⟨it', hi', f1⟩ := (hvn q).1 h
        have hb : '[' ∉ it'.mid.1.toList := by
          rw [f1]
          exact fun h => (hs.ident it hi).none (by decide) ((matrixName_prefix hq).subset h)
        rw [mid_plain hb] at f1
        rw [← f1] at hq
        exact hs.elem it hi it' hi' i j hq
      · intro h
        obtain ⟨k', hk', f1⟩ := List.mem_map.1 h
        obtain ⟨it', hi', rfl⟩ := (hvn k').1 hk'
        rw [nameOf_mid (hs.ident it' hi') (hs.word it' hi')] at f1
        rw [← f1] at hq
        exact hs.elem it hi it' hi' i j hq
  obtain ⟨b3, g1, g2, g3, g4, g5⟩ := FixUnit.C57_units env mul cmul guess ⟨b, fun _ => none⟩ hwf hclear
  obtain ⟨sw3, hex⟩ := exact_guessUnit (b := ⟨b, fun _ => none⟩) ⟨sw, ht.exact⟩ g1
  have hdv3 : dimView b3.blk = [(sw3.name, label sw3)] := by unfold dimView; rw [hex.ivars]; rfl
  simp only [hdv, hdv3, List.map_cons, List.map_nil] at g4
  have g4' := List.singleton_perm_singleton.1 g4
  simp only [Prod.mk.injEq] at g4'
  have hnd3 : (b3.blk.vars.map Prod.fst).Nodup := (List.nodup_append.1 g2.names).1
  refine ⟨b3, sw3, g1, g4'.2, ⟨hex.ivars, hex.cls, hnd3, ?_, ?_, ?_⟩, ?_⟩
  · intro k
    have : DataBlock.keys b3.blk.vars = (vnames b).map nameOf := by
      show vnames b3.blk = _
      rw [vnames_view, vnames_view, g3, List.map_map, List.map_map]; rfl
    rw [this]
    constructor
    · intro h
      obtain ⟨k', hk', rfl⟩ := List.mem_map.1 h
      obtain ⟨it, hi, rfl⟩ := (hvn k').1 hk'
      rw [nameOf_mid (hs.ident it hi) (hs.word it hi)]
      exact List.mem_map.2 ⟨it.fin mul, List.mem_map_of_mem hi, rfl⟩
    · intro h
      obtain ⟨e, he, rfl⟩ := List.mem_map.1 h
      obtain ⟨it, hi, rfl⟩ := List.mem_map.1 he
      exact List.mem_map.2 ⟨it.mid.1, (hvn _).2 ⟨it, hi, rfl⟩, nameOf_mid (hs.ident it hi) (hs.word it hi)⟩
  · intro h
    obtain ⟨e, he, e1⟩ := List.mem_map.1 h
    obtain ⟨it, hi, rfl⟩ := List.mem_map.1 he
    rw [g4'.1, hswn] at e1
    exact hdn (e1 ▸ List.mem_map_of_mem hi)
  · intro e he
    obtain ⟨it, hi, rfl⟩ := List.mem_map.1 he
    obtain ⟨a, ha, h1, h2, h3⟩ := ht.col it.mid (List.mem_map_of_mem hi)
    have hv : (it.mid.1, a.nd, a.dims.map label) ∈ varView b := List.mem_map.2 ⟨_, lookup_mem ha, rfl⟩
    have hv3 := List.mem_map_of_mem (f := fun p => (nameOf p.1, scaled mul p.1 p.2.1, p.2.2.map fun l => relabelled cmul (guessed guess l))) hv
    rw [← g3] at hv3
    obtain ⟨w, hw, hweq⟩ := List.mem_map.1 hv3
    simp only [Prod.mk.injEq, nameOf_mid (hs.ident it hi) (hs.word it hi)] at hweq
    refine ⟨w.2, ?_, hex.dims w hw, ?_, ?_⟩
    · have := mem_lookup hnd3 hw
      rw [hweq.1] at this
      exact this
    · rw [hweq.2.1, (scaled_get mul _ _).1, h2]
    · intro k hk
      rw [hweq.2.1, (scaled_get mul _ _).2, h3 k hk]
      rfl
  · intro it hi
    have := g5 it.mid.1 ((hvn _).2 ⟨it, hi, rfl⟩)
    rw [nameOf_mid (hs.ident it hi) (hs.word it hi)] at this
    rw [this]
    rfl

/-! ### Names -/

/-- Names that normalising leaves alone. -/
def Settled (k : String) : Prop := '(' ∉ k.toList ∧ ∀ e ∈ Normalize.trtable, e.1 ≠ k

theorem translate_plain (f pre : List Char) {k : String} (h : '(' ∉ k.toList) :
    Normalize.translate (String.ofList f) (String.ofList pre) k = k := by
  rcases Normalize.C24_translate_iff f pre k.toList with ⟨x, hx, -⟩ | ⟨-, h2⟩
  · rcases hx.2.2 with e | e <;> exact absurd (by rw [e]; simp) h
  · rwa [String.ofList_toList] at h2

theorem pass_plain (env : Env β α) (tr : String → String) (b : Block β α) (l : List String)
    (h : ∀ k ∈ l, tr k = k) : Normalize.loopStep env tr b l = .ok b := by
  induction l with
  | nil => rfl
  | cons k t ih =>
    rw [Normalize.loopStep, if_pos (h k (by simp))]
    exact ih fun k hk => h k (by simp [hk])

theorem normalize_plain (env : Env β α) (table : List (String × String)) (hp : table.Perm Normalize.trtable)
    (b : Block β α) (h : ∀ k, contains b k = true → Settled k) : Normalize.normalize env table b = .ok b := by
  have htab : ∀ t : List (String × String), (∀ e ∈ t, contains b e.1 = false) → Normalize.tableStep env b b t = .ok b := by
    intro t
    induction t with
    | nil => intro _; rfl
    | cons e t ih =>
      intro he
      have h1 := he e (by simp)
      unfold contains at h1
      rw [Bool.or_eq_false_iff] at h1
      have hr : renameVar env b e.1 e.2 = (b, .ok ()) := by
        unfold renameVar
        rw [(lookup_none_iff' b.ivars e.1).2 (fun hm => by rw [(member_iff _ _).2 hm] at h1; cases h1.2),
          (lookup_none_iff' b.vars e.1).2 (fun hm => by rw [(member_iff _ _).2 hm] at h1; cases h1.1)]
      rw [Normalize.tableStep, he e (by simp), Bool.false_and, if_neg (by simp), hr]
      exact ih fun e he' => he e (by simp [he'])
  have hpass : ∀ f pre : List Char, Normalize.pass env (Normalize.translate (String.ofList f) (String.ofList pre)) b = .ok b := by
    intro f pre
    refine pass_plain env _ b _ fun k hk => translate_plain f pre (h k ?_).1
    unfold contains
    rw [Bool.or_eq_true]
    exact Or.inl ((member_iff _ _).2 hk)
  unfold Normalize.normalize
  rw [htab table (fun e he => by
    rw [Bool.eq_false_iff]
    intro hc
    exact (h e.1 hc).2 e (hp.mem_iff.1 he) rfl)]
  simp only
  have e1 := hpass "Mean".toList "".toList
  have e2 := hpass "Std".toList "s_".toList
  rw [String.ofList_toList, String.ofList_toList] at e1 e2
  rw [e1]
  simp only [e2]

end HF.Readers.Treat
