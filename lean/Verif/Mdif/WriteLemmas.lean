import Verif.Mdif.WriteSpec
import Verif.Readers.Words
/-
The lines written for one combination of coordinates.
-/
namespace HF.Mdif

open HF.DataDict.Spec HF.DataBlock
open HF.DataDict hiding rename delitem
open Units (isWs strip)
open Text (IsWord join words)

variable {β α : Type}

/-! ### Generators -/

theorem andThen_ok (a b : List (List Char)) (e : Option SaveErr) : Out.andThen (a, none) (b, e) = (a ++ b, e) := rfl

theorem all_cons (o : Out) (l : List Out) : Out.all (o :: l) = Out.andThen o (Out.all l) := rfl

theorem all_ok (l : List Out) (h : ∀ o ∈ l, o.2 = none) : Out.all l = (l.flatMap Prod.fst, none) := by
  induction l with
  | nil => rfl
  | cons o l ih =>
    obtain ⟨a, e⟩ := o
    have : e = none := h _ (List.mem_cons_self ..)
    subst this
    rw [all_cons, ih fun o ho => h o (List.mem_cons_of_mem _ ho)]
    rfl

theorem all_append (a b : List Out) : Out.all (a ++ b) = Out.andThen (Out.all a) (Out.all b) := by
  induction a with
  | nil => simp [Out.all, Out.andThen]
  | cons o a ih =>
    rw [List.cons_append, all_cons, all_cons, ih]
    obtain ⟨x, e⟩ := o
    cases e with
    | some e => rfl
    | none =>
      generalize Out.all a = A
      obtain ⟨y, e⟩ := A
      cases e with
      | some e => rfl
      | none => simp [Out.andThen]

theorem all_yields {γ : Type} (f : γ → Except SaveErr (List Char)) (l : List γ) (ts : List (List Char))
    (h : List.Forall₂ (fun x t => f x = .ok t) l ts) : Out.all (l.map fun x => yieldLine (f x)) = (ts, none) := by
  induction h with
  | nil => rfl
  | cons h _ ih =>
    rw [List.map_cons, all_cons, ih, h]
    rfl

/-! ### Coordinates -/

/-- The coordinates `cs` at the position `idx`. -/
inductive Picks : List (Dim β) → List Nat → List β → Prop where
  | nil : Picks [] [] []
  | cons {x : Dim β} {i : Nat} {c : β} {ds idx cs} (h : x.data[i]? = some c) (t : Picks ds idx cs) :
      Picks (x :: ds) (i :: idx) (c :: cs)

theorem Picks.valid {ds : List (Dim β)} {idx : List Nat} {cs : List β} (h : Picks ds idx cs) :
    Nd.Valid (ds.map fun x => x.data.length) idx := by
  induction h with
  | nil => trivial
  | cons h _ ih => exact ⟨(List.getElem?_eq_some_iff.1 h).1, ih⟩

theorem forall2_flatMap {X Y X' Y' : Type} {R : X → Y → Prop} {S : X' → Y' → Prop} {f : X → List X'} {g : Y → List Y'}
    {l : List X} {l' : List Y} (h : List.Forall₂ R l l') (hS : ∀ x y, R x y → List.Forall₂ S (f x) (g y)) :
    List.Forall₂ S (l.flatMap f) (l'.flatMap g) := by
  induction h with
  | nil => exact .nil
  | cons h _ ih =>
    rw [List.flatMap_cons, List.flatMap_cons]
    exact List.rel_append (hS _ _ h) ih

theorem forall2_range {X : Type} (l : List X) : List.Forall₂ (fun (i : Nat) x => l[i]? = some x) (List.range l.length) l := by
  rw [List.forall₂_iff_get]
  refine ⟨by simp, fun i h1 h2 => ?_⟩
  simp

theorem product_picks : ∀ ds : List (Dim β),
    List.Forall₂ (Picks ds) (positions (ds.map fun x => x.data.length)) (product (ds.map fun x => x.data))
  | [] => .cons .nil .nil
  | x :: ds => by
    rw [List.map_cons, List.map_cons, positions, product]
    refine forall2_flatMap (forall2_range x.data) fun i c h => ?_
    rw [List.forall₂_map_left_iff, List.forall₂_map_right_iff]
    exact (product_picks ds).imp fun idx cs t => .cons h t

theorem normAxis_nat {n k : Nat} (h : k < n) : Nd.normAxis n (k : Int) = some k := by
  unfold Nd.normAxis
  rw [if_pos ⟨by omega, by omega⟩]
  simp

theorem indexOf_ok (pr : Printer α β) {ds : List (Dim β)} {idx : List Nat} {cs : List β} (h : Picks ds idx cs)
    (hc : ∀ x ∈ ds, ∀ (k : Nat) c, x.data[k]? = some c → pr.index c = some (k : Int)) :
    indexOf pr (ds.map fun x => x.data.length) cs = .ok idx := by
  induction h with
  | nil => rfl
  | cons h _ ih =>
    rw [List.map_cons, indexOf, hc _ (List.mem_cons_self ..) _ _ h]
    simp only
    rw [normAxis_nat (List.getElem?_eq_some_iff.1 h).1]
    simp only
    rw [ih fun x hx => hc x (List.mem_cons_of_mem _ hx)]
    rfl

/-! ### Settings -/

theorem strip_word {w : List Char} (h : IsWord w) : strip w = w :=
  Text.strip_id w (fun c hc => h.2 c (List.mem_of_mem_head? hc)) (fun c hc => h.2 c (List.mem_of_mem_getLast? hc))

theorem isWord_append {a b : List Char} (ha : IsWord a) (hb : ∀ c ∈ b, isWs c = false) : IsWord (a ++ b) := by
  refine ⟨fun h => ha.1 (List.append_eq_nil_iff.1 h).1, fun c hc => ?_⟩
  rcases List.mem_append.1 hc with h | h
  · exact ha.2 c h
  · exact hb c h

theorem strip_space_word {w : List Char} (h : IsWord w) : strip (' ' :: w) = w :=
  (Text.strip_iff _ _).2 ⟨[' '], [], by simp, by intro c hc; rw [List.mem_singleton.1 hc]; decide, by simp [Text.Blank],
    fun c hc => h.2 c (List.mem_of_mem_head? hc), fun c hc => h.2 c (List.mem_of_mem_getLast? hc)⟩

theorem strip_word_space {w : List Char} (h : IsWord w) : strip (w ++ [' ']) = w :=
  (Text.strip_iff _ _).2 ⟨[], [' '], by simp, by simp [Text.Blank], by intro c hc; rw [List.mem_singleton.1 hc]; decide,
    fun c hc => h.2 c (List.mem_of_mem_head? hc), fun c hc => h.2 c (List.mem_of_mem_getLast? hc)⟩

theorem real_ws : ∀ c ∈ ['(', 'r', 'e', 'a', 'l', ')'], isWs c = false := by decide

/-- `name(real) = word` -/
theorem setting_of (num : Num α) (full n w : List Char) (x : α) (hf : Plain full) (hw : IsWord w) (he : '=' ∉ w)
    (hx : num.real w = some x)
    (hn : full = ['S', 'W', 'E', 'E', 'P', '.'] ++ n ∨ ¬ ['S', 'W', 'E', 'E', 'P', '.'] <+: full ∧ full = n) :
    Setting num (full ++ ['(', 'r', 'e', 'a', 'l', ')', ' ', '=', ' '] ++ w) (n, x) := by
  refine ⟨full ++ ['(', 'r', 'e', 'a', 'l', ')'] ++ [' '], ' ' :: w, full, by simp, ?_, ?_, ?_, hf.noPar, hn, ?_⟩
  · simp only [List.mem_append, not_or]
    exact ⟨⟨hf.noEq, by decide⟩, by decide⟩
  · simp only [List.mem_cons, not_or]
    exact ⟨by decide, he⟩
  · exact strip_word_space (isWord_append hf.word real_ws)
  · rw [strip_space_word hw]
    exact hx

/-- The settings at the coordinates. -/
def settingsOf (env : Env β α) (ds : List (Dim β)) (cs : List β) : List (List Char × α) :=
  (ds.zip cs).map fun p => (p.1.name.toList, env.toVal p.2)

theorem plain_sweep {n : List Char} (h : Plain n) : Plain (['S', 'W', 'E', 'E', 'P', '.'] ++ n) where
  word := isWord_append ⟨by simp, by decide⟩ h.word.2
  noPar := by simp only [List.mem_append, not_or]; exact ⟨by decide, h.noPar⟩
  noEq := by simp only [List.mem_append, not_or]; exact ⟨by decide, h.noEq⟩

theorem var_lines (env : Env β α) (pr : Printer α β) (num : Num α) {ds : List (Dim β)} {idx : List Nat} {cs : List β}
    (h : Picks ds idx cs) (hw : ∀ x ∈ ds, ∀ c ∈ x.data, ∃ w, Back pr num x.name (env.toVal c) w)
    (hp : ∀ x ∈ ds, Plain x.name.toList) :
    ∃ ts, Out.all ((ds.zip cs).map fun p => yieldLine (varLine env pr p)) = (ts.map (['V', 'A', 'R', ' '] ++ ·), none) ∧
      List.Forall₂ (Setting num) ts (settingsOf env ds cs) := by
  induction h with
  | nil => exact ⟨[], rfl, .nil⟩
  | cons h _ ih =>
    rename_i x i c ds idx cs _
    obtain ⟨ts, h1, h2⟩ := ih (fun x hx => hw x (List.mem_cons_of_mem _ hx)) (fun x hx => hp x (List.mem_cons_of_mem _ hx))
    obtain ⟨w, hb⟩ := hw x (List.mem_cons_self ..) c (List.mem_of_getElem? h)
    refine ⟨(['S', 'W', 'E', 'E', 'P', '.'] ++ x.name.toList ++ ['(', 'r', 'e', 'a', 'l', ')', ' ', '=', ' '] ++ w) :: ts, ?_,
      .cons ?_ h2⟩
    · rw [List.zip_cons_cons, List.map_cons, all_cons, h1]
      simp only [varLine, hb.printed, typeErr, Except.map, yieldLine]
      rw [andThen_ok]
      simp
    · exact setting_of num _ _ w _ (plain_sweep (hp x (List.mem_cons_self ..))) hb.word hb.noEq hb.back (Or.inl rfl)

theorem says_vars (ts : List (List Char)) : List.Forall₂ Says (ts.map (['V', 'A', 'R', ' '] ++ ·)) (toks .var ts) := by
  induction ts with
  | nil => exact .nil
  | cons t ts ih => exact .cons (Says.var [] (' ' :: t) (by simp)) ih

/-! ### Attributes -/

theorem attrib_lines [DecidableEq β] (env : Env β α) (pr : Printer α β) (num : Num α) {d : Dim β} {ds : List (Dim β)}
    {vs : List (String × Arr β α)} (hs : Savable env pr num d ds vs) {idx : List Nat} {cs : List β} (h : Picks ds idx cs)
    (as : List (String × Arr β α)) (ha : ∀ v ∈ as, v ∈ vs ∧ v.2.dims = ds) :
    ∃ ts, Out.all (as.map fun v => yieldLine (attribLine pr cs v)) = (ts.map (['#', ' '] ++ ·), none) ∧
      (∀ t ∈ ts, strip (' ' :: t) = t) ∧
      List.Forall₂ (Setting num) ts (as.map fun v => (v.1.toList, v.2.nd.get idx)) := by
  induction as with
  | nil => exact ⟨[], rfl, by simp, .nil⟩
  | cons v as ih =>
    obtain ⟨ts, h1, h0, h2⟩ := ih fun v hv => ha v (List.mem_cons_of_mem _ hv)
    obtain ⟨hv, hd⟩ := ha v (List.mem_cons_self ..)
    have hsh := hs.shape v hv
    rw [hd] at hsh
    have hval := hs.values v hv idx (by rw [hsh]; exact h.valid)
    have hr := hs.real v hv hd
    simp only [Survives, hr] at hval
    obtain ⟨w, hb⟩ := hval
    have hp : Plain v.1.toList := hs.plain _ (List.mem_append_left _ (List.mem_map_of_mem hv))
    refine ⟨(v.1.toList ++ ['(', 'r', 'e', 'a', 'l', ')', ' ', '=', ' '] ++ w) :: ts, ?_, ?_, .cons ?_ h2⟩
    · rw [List.map_cons, all_cons, h1]
      have e : indexOf pr v.2.nd.shape cs = .ok idx := by rw [hsh]; exact indexOf_ok pr h hs.counted
      simp only [attribLine, e, hr, hb.printed, typeErr, Except.map, yieldLine, title]
      simp [andThen_ok]
    · intro t ht
      rcases List.mem_cons.1 ht with rfl | ht
      · refine (Text.strip_iff _ _).2 ⟨[' '], [], by simp, by intro c hc; rw [List.mem_singleton.1 hc]; decide,
          by simp [Text.Blank], ?_, ?_⟩
        · intro c hc
          obtain ⟨a, r, e⟩ := List.exists_cons_of_ne_nil hp.word.1
          rw [e] at hc
          simp only [List.cons_append, List.head?_cons, Option.mem_def, Option.some.injEq] at hc
          exact hp.word.2 c (by rw [e, hc]; exact List.mem_cons_self ..)
        · intro c hc
          rw [List.getLast?_append_of_ne_nil _ hb.word.1] at hc
          exact hb.word.2 c (List.mem_of_mem_getLast? hc)
      · exact h0 t ht
    · exact setting_of num _ _ w _ hp hb.word hb.noEq hb.back (Or.inr ⟨hs.sweepAttrib v hv hd, rfl⟩)

theorem says_attribs (ts : List (List Char)) (h : ∀ t ∈ ts, strip (' ' :: t) = t) :
    List.Forall₂ Says (ts.map (['#', ' '] ++ ·)) (toks .attrib ts) := by
  induction ts with
  | nil => exact .nil
  | cons t ts ih =>
    refine .cons ?_ (ih fun t ht => h t (List.mem_cons_of_mem _ ht))
    have := Says.attrib [] (' ' :: t) (by simp)
    rwa [h t (List.mem_cons_self ..)] at this

/-! ### Tables -/

/-- The type of a column. -/
def tyOf (pr : Printer α β) (n : String) : Ty := if pr.cplx n then .complex else .real

theorem title_eq (pr : Printer α β) (n : String) : title pr n = n.toList ++ '(' :: (tyOf pr n).text ++ [')'] := by
  unfold title tyOf
  cases pr.cplx n <;> simp [Ty.text]

theorem title_word (pr : Printer α β) (n : String) (h : Plain n.toList) : IsWord (title pr n) := by
  unfold title
  refine isWord_append h.word ?_
  cases pr.cplx n <;> decide

theorem cell_ok (pr : Printer α β) (num : Num α) (n : String) (x : α) (h : Survives pr num n x) :
    ∃ ws, cell pr n x = .ok ws ∧ ws.length = (tyOf pr n).width ∧ (∀ w ∈ ws, IsWord w) ∧
      (∀ w ∈ ws, ∀ c ∈ w.head?, c ∉ ['!', '%', '#', 'B', 'E', 'V']) ∧
      ∀ r, valAt num (tyOf pr n) (ws ++ r) 0 = some x := by
  unfold Survives at h
  unfold cell tyOf
  cases hc : pr.cplx n with
  | true =>
    rw [hc, if_pos rfl] at h
    obtain ⟨u, v, hu, hv, e⟩ := h
    refine ⟨[u, v], by simp [hu.printed, hv.printed], rfl, ?_, ?_, ?_⟩
    · simp [hu.word, hv.word]
    · intro w hw
      rcases List.mem_cons.1 hw with rfl | hw
      · exact hu.first
      · rw [List.mem_singleton.1 hw]; exact hv.first
    · intro r
      simp [valAt, numAt, hu.quotes, hv.quotes, hu.back, hv.back, e]
  | false =>
    rw [hc, if_neg (by simp)] at h
    obtain ⟨w, hb⟩ := h
    refine ⟨[w], by simp [hb.printed, typeErr, Except.map], rfl, by simp [hb.word], by simpa using hb.first, ?_⟩
    intro r
    simp [valAt, numAt, hb.quotes, hb.back]

theorem row_ok (env : Env β α) (pr : Printer α β) (num : Num α) (cols : List (String × List α)) (r : Nat)
    (h : ∀ c ∈ cols, ∃ x, c.2[r]? = some x ∧ Survives pr num c.1 x) :
    ∃ wss : List (List (List Char)), cols.mapM (fun c => cell pr c.1 (c.2.getD r env.junk)) = .ok wss ∧ wss.length = cols.length ∧
      (∀ w ∈ wss.flatten, IsWord w) ∧ (∀ w ∈ wss.flatten, ∀ c ∈ w.head?, c ∉ ['!', '%', '#', 'B', 'E', 'V']) ∧
      (cols ≠ [] → wss.flatten ≠ []) ∧
      ∀ xs, List.Forall₂ (fun (c : String × List α) x => c.2[r]? = some x) cols xs →
        Cells num (cols.map fun c => (c.1.toList, tyOf pr c.1)) wss.flatten xs := by
  induction cols with
  | nil =>
    refine ⟨[], rfl, rfl, by simp, by simp, by simp, ?_⟩
    intro xs hxs
    cases hxs
    exact ⟨rfl, by simp⟩
  | cons c cols ih =>
    obtain ⟨wss, h1, hl, h2, h3, h4, h5⟩ := ih fun c hc => h c (List.mem_cons_of_mem _ hc)
    obtain ⟨x, hx, hsv⟩ := h c (List.mem_cons_self ..)
    obtain ⟨ws, k1, k2, k3, k4, k5⟩ := cell_ok pr num c.1 x hsv
    refine ⟨ws :: wss, ?_, by simp [hl], ?_, ?_, ?_, ?_⟩
    · rw [List.mapM_cons, h1, List.getD_eq_getElem?_getD, hx, Option.getD_some, k1]
      rfl
    · intro w hw
      rw [List.flatten_cons] at hw
      rcases List.mem_append.1 hw with hw | hw
      · exact k3 w hw
      · exact h2 w hw
    · intro w hw
      rw [List.flatten_cons] at hw
      rcases List.mem_append.1 hw with hw | hw
      · exact k4 w hw
      · exact h3 w hw
    · intro _ e
      rw [List.flatten_cons, List.append_eq_nil_iff] at e
      rw [e.1] at k2
      unfold tyOf at k2
      cases hc : pr.cplx c.1 <;> simp [hc, Ty.width] at k2
    · intro xs hxs
      cases hxs with
      | cons hy hxs =>
        rw [hx] at hy
        cases hy
        rw [List.map_cons, cells_cons, List.flatten_cons]
        refine ⟨k5 _, ?_⟩
        rw [← k2, List.drop_left]
        exact h5 _ hxs

theorem nRows_eq (N : Nat) (cols : List (String × List α)) (h : ∀ c ∈ cols, c.2.length = N) : nRows N cols = N := by
  unfold nRows
  induction cols with
  | nil => rfl
  | cons c cols ih =>
    rw [List.foldl_cons, h c (List.mem_cons_self ..), Nat.min_self]
    exact ih fun c hc => h c (List.mem_cons_of_mem _ hc)

theorem says_data (w : List Char) (ws : List (List Char)) (h1 : IsWord w)
    (h2 : ∀ c ∈ w.head?, c ∉ ['!', '%', '#', 'B', 'E', 'V']) :
    Says (join '\t' (w :: ws)) ⟨.data, join '\t' (w :: ws)⟩ := by
  obtain ⟨c, r, rfl⟩ := List.exists_cons_of_ne_nil h1.1
  have hc : c ∉ ['!', '%', '#', 'B', 'E', 'V'] := h2 c rfl
  simp only [List.mem_cons, List.not_mem_nil, or_false, not_or] at hc
  obtain ⟨r', e⟩ : ∃ r', join '\t' ((c :: r) :: ws) = c :: r' := by
    cases ws with
    | nil => exact ⟨r, rfl⟩
    | cons g ws => exact ⟨_, rfl⟩
  rw [e]
  refine Says.data [] c r' (by simp) (h1.2 c (List.mem_cons_self ..)) (by simp [hc]) ?_
  intro k hk hp
  obtain ⟨t, ht⟩ := hp
  simp only [List.mem_cons, List.not_mem_nil, or_false] at hk
  rcases hk with rfl | rfl | rfl <;> simp only [List.cons_append, List.cons.injEq] at ht
  · exact hc.2.2.2.1 ht.1.symm
  · exact hc.2.2.2.2.1 ht.1.symm
  · exact hc.2.2.2.2.2 ht.1.symm

end HF.Mdif
