import Verif.Mdif.WriteLemmas
/-
The table written for one combination of coordinates, and the block it is read as.
-/
namespace HF.Mdif

open HF.DataDict.Spec HF.DataBlock
open HF.DataDict hiding rename delitem
open Units (isWs strip)
open Text (IsWord join words)

variable {β α : Type}

theorem forall2_exists {X Y : Type} {P : X → Y → Prop} : ∀ (l : List X), (∀ x ∈ l, ∃ y, P x y) → ∃ l', List.Forall₂ P l l'
  | [], _ => ⟨[], .nil⟩
  | x :: l, h => by
    obtain ⟨y, hy⟩ := h x (List.mem_cons_self ..)
    obtain ⟨l', hl⟩ := forall2_exists l fun x hx => h x (List.mem_cons_of_mem _ hx)
    exact ⟨y :: l', .cons hy hl⟩

theorem forall2_get {X Y : Type} {P : X → Y → Prop} {l : List X} {l' : List Y} (h : List.Forall₂ P l l') :
    ∀ (k : Nat) x, l[k]? = some x → ∃ y, l'[k]? = some y ∧ P x y := by
  induction h with
  | nil => intro k x hk; simp at hk
  | cons h _ ih =>
    intro k x hk
    cases k with
    | zero => simp only [List.getElem?_cons_zero, Option.some.injEq] at hk; subst hk; exact ⟨_, rfl, h⟩
    | succ k => simpa using ih k x (by simpa using hk)

/-- A column at a position. -/
def colAt (N : Nat) (idx : List Nat) (v : String × Arr β α) : String × List α :=
  (v.1, (List.range N).map fun r => v.2.nd.get (r :: idx))

theorem columns_ok (pr : Printer α β) (d : Dim β) (ds : List (Dim β)) {idx : List Nat} {cs : List β}
    (hi : indexOf pr (ds.map fun x => x.data.length) cs = .ok idx) : ∀ (cols : List (String × Arr β α))
    (_ : ∀ v ∈ cols, v.2.nd.shape = (d :: ds).map fun x => x.data.length),
    cols.mapM (column pr cs) = .ok (cols.map (colAt d.data.length idx))
  | [], _ => rfl
  | v :: cols, hc => by
    have hv := hc v (List.mem_cons_self ..)
    have e : column pr cs v = .ok (colAt d.data.length idx v) := by
      unfold column
      rw [hv]
      simp only [List.map_cons, List.tail_cons, hi, List.headD_cons]
      rfl
    rw [List.mapM_cons, e, columns_ok pr d ds hi cols fun v hv => hc v (List.mem_cons_of_mem _ hv)]
    rfl

/-- All columns of the table. -/
def allCols (env : Env β α) (d : Dim β) (cols : List (String × Arr β α)) (idx : List Nat) : List (String × List α) :=
  (d.name, d.data.map env.toVal) :: cols.map (colAt d.data.length idx)

theorem strip_header {fs : List (List Char)} (h : ∀ g ∈ fs, IsWord g) :
    strip (' ' :: join ' ' fs) = join ' ' fs := by
  have h1 := Text.strip_join ' ' fs h
  obtain ⟨a, b, e, ha, hb, hh, hl⟩ := (Text.strip_iff _ _).1 h1
  exact (Text.strip_iff _ _).2 ⟨[' '], [], by simp, by intro c hc; rw [List.mem_singleton.1 hc]; decide,
    by simp [Text.Blank], hh, hl⟩

theorem table_lines (env : Env β α) (pr : Printer α β) (num : Num α) {d : Dim β} {ds : List (Dim β)}
    {vs : List (String × Arr β α)} (hs : Savable env pr num d ds vs) {idx : List Nat} {cs : List β} (h : Picks ds idx cs)
    (cols : List (String × Arr β α)) (hne : cols ≠ []) (hc : ∀ v ∈ cols, v ∈ vs ∧ v.2.dims = d :: ds)
    (hnd : (cols.map Prod.fst).Nodup) :
    ∃ header data, fmtTable env pr d cols cs = ((['%', ' '] ++ header) :: (data ++ [['E', 'N', 'D']]), none) ∧
      strip (' ' :: header) = header ∧ List.Forall₂ Says data (toks .data data) ∧
      (∀ w ∈ words header, ∃ n ∈ d.name :: cols.map Prod.fst, w = title pr n) ∧
      ∃ pss : List (List (List Char × Ty)),
        List.Forall₂ (fun text ps => List.Forall₂ (fun w p => Titled w p.1 p.2) (words text) ps) [header] pss ∧
        (columns pss).Nodup ∧ (∀ ps ∈ pss.head?, ps ≠ []) ∧
        ∃ N, 0 < N ∧ data.length = N * pss.length ∧
          columns pss = d.name.toList :: (cols.map (colAt d.data.length idx)).map (fun c => c.1.toList) ∧
          ∀ (i k : Nat) ps n t, pss[i]? = some ps → ps[k]? = some (n, t) →
            ∃ l, (n, l) ∈ (d.name.toList, d.data.map env.toVal) ::
                (cols.map (colAt d.data.length idx)).map (fun c => (c.1.toList, c.2)) ∧ l.length = N ∧
              ∀ r < N, ∃ line, data[r * pss.length + i]? = some line ∧
                (valAt num t (words line) (offset ps k)).isSome ∧
                valAt num t (words line) (offset ps k) = l[r]? := by
  obtain ⟨N, hN⟩ : ∃ N, d.data.length = N := ⟨_, rfl⟩
  have hNpos : 0 < N := by
    rw [← hN]
    exact List.length_pos_of_ne_nil (hs.nonempty d (List.mem_cons_self ..))
  have hshape : ∀ v ∈ cols, v.2.nd.shape = (d :: ds).map fun x => x.data.length := by
    intro v hv
    rw [hs.shape v (hc v hv).1, (hc v hv).2]
  have hcol := columns_ok pr d ds (indexOf_ok pr h hs.counted) cols hshape
  -- every cell survives
  have hcell : ∀ r < N, ∀ c ∈ allCols env d cols idx, ∃ x, c.2[r]? = some x ∧ Survives pr num c.1 x := by
    intro r hr c hcm
    rcases List.mem_cons.1 hcm with rfl | hcm
    · have hlt : r < d.data.length := by omega
      refine ⟨env.toVal d.data[r], by simp [hlt], hs.coords _ (List.getElem_mem _)⟩
    · obtain ⟨v, hv, rfl⟩ := List.mem_map.1 hcm
      refine ⟨v.2.nd.get (r :: idx), by simp [colAt, hN, hr], hs.values v (hc v hv).1 _ ?_⟩
      rw [hshape v hv, List.map_cons]
      exact ⟨by omega, h.valid⟩
  have hlen : ∀ c ∈ allCols env d cols idx, c.2.length = N := by
    intro c hcm
    rcases List.mem_cons.1 hcm with rfl | hcm
    · simpa using hN
    · obtain ⟨v, -, rfl⟩ := List.mem_map.1 hcm
      simpa [colAt] using hN
  -- the rows
  obtain ⟨data, hdata⟩ : ∃ data, List.Forall₂ (fun r line => rowLine env pr (allCols env d cols idx) r = .ok line ∧
      Says line ⟨.data, line⟩ ∧ ∀ xs, List.Forall₂ (fun (c : String × List α) x => c.2[r]? = some x) (allCols env d cols idx) xs →
        Cells num ((allCols env d cols idx).map fun c => (c.1.toList, tyOf pr c.1)) (words line) xs) (List.range N) data := by
    refine forall2_exists _ fun r hr => ?_
    rw [List.mem_range] at hr
    obtain ⟨wss, h1, -, h2, h3, h4, h5⟩ := row_ok env pr num (allCols env d cols idx) r (hcell r hr)
    refine ⟨join '\t' wss.flatten, ?_, ?_, ?_⟩
    · unfold rowLine
      rw [h1]
      rfl
    · obtain ⟨w, ws, e⟩ := List.exists_cons_of_ne_nil (h4 (by simp [allCols]))
      rw [e] at h2 h3 ⊢
      exact says_data w ws (h2 w (List.mem_cons_self ..)) (h3 w (List.mem_cons_self ..))
    · intro xs hxs
      rw [Text.words_join '\t' (by decide) _ h2]
      exact h5 xs hxs
  have hplain : ∀ c ∈ allCols env d cols idx, Plain c.1.toList := by
    intro c hcm
    rcases List.mem_cons.1 hcm with rfl | hcm
    · exact hs.plain _ (List.mem_append_right _ (List.mem_cons_self ..))
    · obtain ⟨v, hv, rfl⟩ := List.mem_map.1 hcm
      exact hs.plain _ (List.mem_append_left _ (List.mem_map_of_mem (hc v hv).1))
  have htitles : ∀ t ∈ (allCols env d cols idx).map (fun c => title pr c.1), IsWord t := by
    intro t ht
    obtain ⟨c, hcm, rfl⟩ := List.mem_map.1 ht
    exact title_word pr c.1 (hplain c hcm)
  refine ⟨join ' ' ((allCols env d cols idx).map fun c => title pr c.1), data, ?_, ?_, ?_, ?_,
    [(allCols env d cols idx).map fun c => (c.1.toList, tyOf pr c.1)], ?_, ?_, ?_, N, hNpos, ?_, ?_, ?_⟩
  · unfold fmtTable
    rw [if_neg hne, hcol]
    simp only
    rw [nRows_eq d.data.length _ (by
      intro c hcm
      rw [hN]
      exact hlen c (List.mem_cons_of_mem _ hcm)), hN]
    rw [all_append, all_append]
    have e1 := all_yields (rowLine env pr (allCols env d cols idx)) (List.range N) data (hdata.imp fun _ _ h => h.1)
    simp only [allCols] at e1 ⊢
    rw [hN] at e1 ⊢
    rw [e1]
    rfl
  · exact strip_header htitles
  · unfold toks
    rw [List.forall₂_map_right_iff, List.forall₂_same]
    intro l hl
    clear * - hdata hl
    generalize List.range N = R at hdata
    induction hdata with
    | nil => cases hl
    | cons h _ ih =>
      rcases List.mem_cons.1 hl with rfl | hl
      · exact h.2.1
      · exact ih hl
  · rw [Text.words_join ' ' (by decide) _ htitles]
    intro w hw
    obtain ⟨c, hcm, rfl⟩ := List.mem_map.1 hw
    refine ⟨c.1, ?_, rfl⟩
    rcases List.mem_cons.1 hcm with rfl | hcm
    · exact List.mem_cons_self ..
    · obtain ⟨v, hv, rfl⟩ := List.mem_map.1 hcm
      exact List.mem_cons_of_mem _ (List.mem_map_of_mem hv)
  · refine .cons ?_ .nil
    rw [Text.words_join ' ' (by decide) _ htitles, List.forall₂_map_left_iff, List.forall₂_map_right_iff, List.forall₂_same]
    intro c hcm
    rw [title_eq]
    exact titled_plain _ _ (hplain c hcm).word.1 (hplain c hcm).noPar
  · have : columns [(allCols env d cols idx).map fun c => (c.1.toList, tyOf pr c.1)] =
        (d.name :: cols.map Prod.fst).map String.toList := by
      simp [columns, allCols, colAt]
    rw [this]
    refine List.Nodup.map (fun a b e => String.toList_inj.1 e) (List.nodup_cons.2 ⟨?_, hnd⟩)
    intro hm
    obtain ⟨v, hv, e⟩ := List.mem_map.1 hm
    exact hs.disjoint v (hc v hv).1 (e ▸ List.mem_cons_self ..)
  · intro ps hps
    simp only [List.head?_cons, Option.mem_def, Option.some.injEq] at hps
    subst hps
    simp [allCols]
  · simpa using hdata.length_eq.symm
  · simp [columns, allCols, colAt]
  · intro i k ps n t hi hk
    have hi0 : i = 0 := by
      cases i with
      | zero => rfl
      | succ i => simp at hi
    subst hi0
    simp only [List.getElem?_cons_zero, Option.some.injEq] at hi
    subst hi
    rw [List.getElem?_map, Option.map_eq_some_iff] at hk
    obtain ⟨c, hck, e⟩ := hk
    cases e
    have hcm : c ∈ allCols env d cols idx := List.mem_of_getElem? hck
    refine ⟨c.2, ?_, hlen c hcm, ?_⟩
    · rcases List.mem_cons.1 hcm with rfl | hcm
      · exact List.mem_cons_self ..
      · exact List.mem_cons_of_mem _ (List.mem_map.2 ⟨c, hcm, rfl⟩)
    · intro r hr
      obtain ⟨line, hline, -, -, hcells⟩ := forall2_get hdata r r (by simp [hr])
      obtain ⟨xs, hxs⟩ := forall2_exists (P := fun (c : String × List α) x => c.2[r]? = some x) (allCols env d cols idx)
        (fun c hc => let ⟨x, hx, _⟩ := hcell r hr c hc; ⟨x, hx⟩)
      obtain ⟨x, hx1, hx2⟩ := forall2_get hxs k c hck
      have := (hcells xs hxs).2 k (c.1.toList, tyOf pr c.1) (by rw [List.getElem?_map, hck]; rfl)
      simp only at this
      refine ⟨line, by simpa using hline, ?_, ?_⟩
      · rw [this, hx1]; rfl
      · rw [this, hx1, hx2]

end HF.Mdif
