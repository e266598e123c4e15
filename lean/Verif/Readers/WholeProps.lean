import Verif.Readers.Whole
import Verif.Readers.SavedProps
import Verif.Touchstone.Again
import Verif.Citi.Again
import Verif.Mdif.Again
import Verif.Readers.TreatProps
/-
C98: a block that is saved comes back from `read_data`.
-/
namespace HF.Readers.Dispatch

open HF.DataDict.Spec HF.DataBlock
open HF.DataDict hiding rename delitem
open HF.Readers HF.Readers.Treat
open HF.Readers.FixUnit (UBlock)
open HF.Readers.Normalize (trtable label)

/-! ### Lemmas -/

theorem chomp_line (l : List Char) : chomp (l ++ ['\n']) = l := by simp [chomp]

theorem lines_again (ls : List (List Char)) (h : ∀ l ∈ ls, OneLine l) : (fileLines (textOf ls)).map chomp = ls := by
  have e := fileLines_text ls [] h
  rw [List.append_nil] at e
  rw [e]
  simp [textOf, fileLines, Function.comp_def, chomp_line]

theorem readText_saved {δ : Type} (R : Readers δ) (ls : List (List Char)) (h : ∀ l ∈ ls, OneLine l) :
    readText R (textOf ls) = match takenFor ls with
      | .mdif => R.mdif ls
      | .hdf5 => R.hdf5 ls
      | .citi => R.citi ls
      | .touchstone => R.touchstone ls
      | .muwave => R.muwave ls
      | .sp => R.sp ls := by
  unfold readText takenFor
  simp only [lines_again ls h]
  cases guess isfile ⟨fileLines (textOf ls), false⟩ (fileLines (textOf ls)) <;> rfl

theorem word_oneLine {w : List Char} (h : Text.IsWord w) : OneLine w := by
  constructor
  · intro e; exact absurd (h.2 _ e) (by decide)
  · intro e; exact absurd (h.2 _ e) (by decide)

theorem join_oneLine (ws : List (List Char)) (h : ∀ w ∈ ws, OneLine w) : OneLine (Text.join '\t' ws) := by
  induction ws with
  | nil => simp [Text.join, OneLine]
  | cons w ws ih =>
    have h1 := h w (by simp)
    have h2 := ih fun w hw => h w (by simp [hw])
    cases ws with
    | nil => exact h1
    | cons v ws =>
      have e : Text.join '\t' (w :: v :: ws) = w ++ '\t' :: Text.join '\t' (v :: ws) := rfl
      rw [e]
      simp_all [OneLine]

theorem touch_oneLine (fenv : Touchstone.Env) (texts : List (List Char)) (n : Nat)
    (rows : List (ℚ × (Nat → Nat → Touchstone.Cplx))) (ht : ∀ t ∈ texts, OneLine t) (hs : Touchstone.AllSurvive fenv n rows) :
    ∀ l ∈ Touchstone.save fenv texts n rows, OneLine l := by
  intro l hl
  unfold Touchstone.save at hl
  simp only [List.mem_append, List.mem_cons, List.mem_map] at hl
  rcases hl with ⟨t, h1, rfl⟩ | rfl | ⟨r, h1, rfl⟩
  · have := ht t h1
    simpa [OneLine] using this
  · simp [OneLine, Touchstone.infoLine]
  · refine join_oneLine _ fun w hw => ?_
    obtain ⟨x, hx, rfl⟩ := List.mem_map.1 hw
    obtain ⟨s1, s2⟩ := hs r h1
    simp only [Touchstone.saveRow, Touchstone.colOrder, List.mem_cons, List.mem_flatMap, List.mem_map, List.mem_range] at hx
    rcases hx with rfl | ⟨z, ⟨i, hi, j, hj, rfl⟩, hx⟩
    · exact word_oneLine s1.word
    · simp only [List.mem_cons, List.not_mem_nil, or_false] at hx
      rcases hx with rfl | rfl
      · exact word_oneLine (s2 j i hj hi).1.word
      · exact word_oneLine (s2 j i hj hi).2.word

/-! ### Theorems -/

/-- C98: a matrix over two or more increasing frequencies is saved as a Touchstone file, and `read_data` gives the same
frequencies and the same numbers, transposed from three ports on. -/
theorem C98_touchstone {β α : Type} (fenv : Touchstone.Env) (h50 : fenv.parse ['5', '0'] = some 50) (env : DataBlock.Env β α)
    (V : Touchstone.Vals β α) (S : Steps β α) (htab : S.table.Perm trtable)
    (hcast : ∀ c c' : Arr β α, c.nd = c'.nd → S.cast c = S.cast c') (texts cs : List (List Char))
    (ht : ∀ t ∈ texts, OneLine t) (hc : List.Forall₂ Touchstone.Trim texts cs) (n : Nat) (hn : 1 ≤ n)
    (rows : List (ℚ × (Nat → Nat → Touchstone.Cplx))) (hF : 2 ≤ rows.length) (hinc : rows.Pairwise fun a b => a.1 < b.1)
    (hs : Touchstone.AllSurvive fenv n rows)
    (hq : Touchstone.QuietProps S.ofProp (Touchstone.fileVars ['S'] false) (Touchstone.fileDims false) (Comments.properties cs)) :
    ∃ r a d di dj,
      (∀ R : Readers (Except DataBlock.Err (UBlock β α)), R.touchstone = Touchstone.block fenv env V S →
        readText R (textOf (Touchstone.save fenv texts n rows)) = .ok r) ∧
      lookup r.blk.vars "S" = some a ∧ lookup r.blk.ivars "freq" = some d ∧
      label d = ⟨"freq", .dimSweep, rows.map (fun r => V.coord r.1), some "Hz"⟩ ∧
      MatStack a [d] di dj [rows.length] n n ∧
      ∀ k i j r, rows[k]? = some r → i < n → j < n →
        a.nd.get [k, i, j] = V.cplx (if n ≤ 2 then r.2 i j else r.2 j i) := by
  obtain ⟨r, a, d, di, dj, h1, h2, h3, h4, h5, h6, -⟩ :=
    Touchstone.C84_roundtrip fenv h50 env V S htab hcast texts cs hc n hn rows hF hinc hs hq
  refine ⟨r, a, d, di, dj, fun R hR => ?_, h2, h3, h4, h5, h6⟩
  rw [readText_saved R _ (touch_oneLine fenv texts n rows ht hs), (C96_touchstone fenv texts n rows ht).1]
  simp only [hR, h1]

/-- C98: a block of which all variables have the same sweeps is saved as a CITI file, and `read_data` gives every variable
under its name with its numbers, matrices as matrices, over the sweeps saved, and no other variable. -/
theorem C98_citi {env : Citi.Env} (hn : Citi.NatSurvives env) (hdig : ∀ n < 10, env.fmtNat n = [Assemble.digit n])
    (S : Steps Citi.Cplx Citi.Cplx) (htab : S.table.Perm trtable)
    (hcast : ∀ c c' : Arr Citi.Cplx Citi.Cplx, c.nd = c'.nd → S.cast c = S.cast c')
    (name : List Char) (comments : List (List Char)) (cplx : String → Bool) (D : List (Dim Citi.Cplx)) (vs : List Citi.Var)
    (b : Block Citi.Cplx Citi.Cplx) (hb : b.vars = vs.map fun v => (v.name, v.arr)) (hD : Citi.GoodSweeps env D)
    (hv : Citi.GoodVars D vs) (hk : ∀ v ∈ vs, v.kind.Is D v.arr ∧ Citi.GoodValues env (cplx v.name) v.arr)
    (hN : Citi.GoodNames D (vs.flatMap fun v => v.kind.names env v.name)) (ht : Citi.NoTime comments)
    (hprop : Comments.properties (comments.map Citi.asRead) = [])
    (hq : Citi.QuietNames (Citi.colNames env vs ++ D.map Dim.name)) (hf : ∀ v ∈ vs, v.kind.Found v.name)
    (htype : ∀ v ∈ vs, ∀ c c', Citi.Column D v c → Citi.Column D v c' → ∀ idx, Nd.Valid (D.map fun d => d.data.length) idx →
      S.cast c (c'.nd.get idx) = c'.nd.get idx)
    (h1 : ∀ ls, Citi.save env name comments cplx b = .ok ls → ∀ l ∈ ls, OneLine l) :
    ∃ lines r D', Citi.save env name comments cplx b = .ok lines ∧
      (∀ R : Readers (Except DataBlock.Err (UBlock Citi.Cplx Citi.Cplx)), R.citi = Citi.block env S →
        readText R (textOf lines) = .ok r) ∧
      List.Forall₂ (fun d d' => label d' = ⟨d.name, .dimSweep, d.data, S.guess d.name⟩ ∧
        lookup r.blk.ivars d.name = some d') D D' ∧
      (∀ n, n ∈ keys r.blk.vars ↔ n ∈ vs.map Citi.Var.name) ∧
      (∀ v ∈ vs, v.kind = .plain → ∃ a, lookup r.blk.vars v.name = some a ∧ a.dims = D' ∧
        a.nd.shape = v.arr.nd.shape ∧ ∀ idx, Nd.Valid v.arr.nd.shape idx → a.nd.get idx = v.arr.nd.get idx) ∧
      ∀ v ∈ vs, ∀ di dj p q, v.kind = .matrix di dj p q → ∃ a di' dj', lookup r.blk.vars v.name = some a ∧
        MatStack a D' di' dj' (D.map fun d => d.data.length) p q ∧
        a.nd.shape = v.arr.nd.shape ∧ ∀ idx, Nd.Valid v.arr.nd.shape idx → a.nd.get idx = v.arr.nd.get idx := by
  obtain ⟨lines, r, D', g1, g2, g3, g4, g5, g6⟩ := Citi.C83_roundtrip hn hdig S htab hcast name comments cplx D vs b hb hD hv hk
    hN ht hprop hq hf htype
  refine ⟨lines, r, D', g1, fun R hR => ?_, g3, g4, fun v hv' hp => ?_, fun v hv' di dj p q hm => ?_⟩
  · rw [readText_saved R _ (h1 lines g1), C96_citi env name comments cplx b lines g1]
    simp only [hR, g2]
  · obtain ⟨a, a1, a2, -, a3, a4⟩ := g5 v hv' hp
    exact ⟨a, a1, a2, a3, a4⟩
  · obtain ⟨a, di', dj', a1, -, -, a2, -, a3, a4⟩ := g6 v hv' di dj p q hm
    exact ⟨a, di', dj', a1, a2, a3, a4⟩

/-- C98: a block with a variable over two or more sweeps of plain names is saved as an MDIF file, and `read_data` finds one
block for each position of the sweeps but the first, with every variable and its values at the position. -/
theorem C98_mdif {β α : Type} [DecidableEq β] (env : Env β α) (pr : Mdif.Printer α β) (num : Mdif.Num α) (S : Steps β α)
    (htab : S.table.Perm trtable) (hcast : ∀ c c' : Arr β α, c.nd = c'.nd → S.cast c = S.cast c')
    (en : Enum (List (Dim β))) (time : List Char) (b b1 : Block β α) (hb : Convertible b) (hc : convert env b = .ok b1)
    (d : Dim β) (ds : List (Dim β)) (hds : ds ≠ []) (hs : Mdif.Savable env pr num d ds b1.vars) (hr : Mdif.Returns S d ds b b1)
    (hnum : ∀ c ∈ d.data, ∃ w, pr.num d.name (env.toVal c) = some w ∧ OneLine w)
    (hp : ∀ x ∈ d :: ds, PlainName x.name.toList) (h1 : ∀ l ∈ (Mdif.save env pr en time b).1, OneLine l) (ht : OneLine time) :
    ∃ ts, (Mdif.save env pr en time b).2 = none ∧
      (∀ R : Readers (Except Mdif.FileErr (List (Mdif.Treated β α))), R.mdif = Mdif.treatAll env num S false →
        readText R (textOf (Mdif.save env pr en time b).1) = .ok ts) ∧
      ts.length = (Mdif.positions (ds.map fun x => x.data.length)).length ∧
      ∀ (k : Nat) t, ts[k]? = some t → ∃ idx D, (Mdif.positions (ds.map fun x => x.data.length))[k]? = some idx ∧
        Mdif.ComesBack env S d ds b (if k = 0 then Mdif.createdAt time else none) idx D t.blk := by
  obtain ⟨lines, g1, ts, g2, g3, g4⟩ := Mdif.C85_roundtrip env pr num S htab hcast en time b b1 hb hc d ds hs hr
  have hdims : ∀ v ∈ b1.vars, ∀ x ∈ v.2.dims, x ∈ d :: ds := by
    intro v hv x hx
    rcases hs.dims v hv with e | e <;> rw [e] at hx
    · exact hx
    · exact List.mem_cons_of_mem _ hx
  have hnd : (d :: ds).Nodup := List.Nodup.of_map _ hs.nodupDims
  have htk : takenFor (Mdif.save env pr en time b).1 = .mdif := by
    refine C96_mdif env pr en time b b1 hc ?_ ht ?_ ?_ ?_
    · exact hs.quiet
    · intro v hv
      rcases hs.dims v hv with e | e <;> rw [e]
      · exact hnd
      · exact hnd.of_cons
    · intro v hv x hx
      have hx' := hdims v hv x hx
      refine ⟨hs.nonempty x hx', hp x hx', fun c hc' => ?_⟩
      rcases List.mem_cons.1 hx' with rfl | hx''
      · exact hnum c hc'
      · obtain ⟨w, hw⟩ := hs.settings x hx'' c hc'
        exact ⟨w, hw.printed, word_oneLine hw.word⟩
    · obtain ⟨v, hv, e⟩ := hs.column
      refine ⟨v, hv, ?_⟩
      rw [e]
      cases ds with
      | nil => exact absurd rfl hds
      | cons x t => simp
  refine ⟨ts, by rw [g1], fun R hR => ?_, g3, fun k t hk => ?_⟩
  · rw [readText_saved R _ h1, htk]
    simp only [hR]
    rw [g1, g2]
  · obtain ⟨idx, D, x1, -, x2⟩ := g4 k t hk
    exact ⟨idx, D, x1, x2⟩

/-- C98: a block over one sweep is saved as SP data, and `read_data` gives all its variables and its sweep. -/
theorem C98_sp {β α : Type} {env : Env β α} {S : Steps β α} {ofRat : ℚ → β} {conv : List Char → α} {st : Sp.Style β α}
    {re im : α → α} {comments : List (List Char)} {b : Block β α} {d : Dim β}
    (hw : Sp.Writable env ofRat conv st re im comments b) (h : Tame st b d) (hri : ∀ x, S.rect (re x) (im x) = x)
    (hkind : ∀ w ∈ b.vars, ismatrix w.2 = true → OneKind S d.data.length w) (htab : S.table.Perm trtable)
    (hc : Comments.properties comments = []) (hd : ∀ w ∈ b.vars, ∀ d ∈ w.2.dims, HarmlessDim st d)
    (hi : ∀ p ∈ b.ivars, HarmlessDim st p.2) (h1 : ∀ l ∈ (Sp.save env st comments b).1, OneLine l) :
    ∃ r, (Sp.save env st comments b).2 = none ∧
      (∀ R : Readers (Except DataBlock.Err (List (UBlock β α))), R.sp = spBlocks env S ofRat conv →
        readText R (textOf (Sp.save env st comments b).1) = .ok [r]) ∧ Again S st b d r := by
  classical
  obtain ⟨ls, r, g1, g2, g3⟩ := C77_roundtrip hw h hri hkind htab hc
  refine ⟨r, by rw [g1], fun R hR => ?_, g3⟩
  rw [readText_saved R _ h1, C96_sp env st comments b hw.quiet hd hi h1]
  simp only [hR]
  rw [g1, g2]

/-- C98 fails for MDIF files of a block with at most one sweep: `read_data` hands them to the reader of SP data. -/
theorem C98_mdif_flat_refuted {β α δ : Type} [DecidableEq β] (env : DataBlock.Env β α) (pr : Mdif.Printer α β) (en : Enum (List (Dim β)))
    (time : List Char) (b b1 : Block β α) (hc : convert env b = .ok b1) (hq : Quiet b1.vars)
    (hd : ∀ v ∈ b1.vars, v.2.dims.length ≤ 1)
    (hn : ∀ v ∈ b1.vars, v.2.dims = [] → ∀ c ∈ v.1.toList, isSpace c = false)
    (hnum : ∀ n x w, pr.num n x = some w → Harmless w)
    (h1 : ∀ l ∈ (Mdif.save env pr en time b).1, OneLine l) (R : Readers δ) :
    readText R (textOf (Mdif.save env pr en time b).1) = R.sp (Mdif.save env pr en time b).1 := by
  rw [readText_saved R _ h1, C96_mdif_flat_refuted env pr en time b b1 hc hq hd hn hnum h1]

end HF.Readers.Dispatch
