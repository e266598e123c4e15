import Verif.HFArray.BinopProps
import Verif.HFArray.ReorderProps
import Verif.HFArray.ReduceProps
/-
C07: transposition of matrices; C06: operations with numbers.
-/
namespace HF.Arr

variable {β α γ : Type}

theorem isa_matI {c : Cls} : c.isSub .matI = true ↔ c = .matI := by cases c <;> decide +kernel
theorem isa_matJ {c : Cls} : c.isSub .matJ = true ↔ c = .matJ := by cases c <;> decide +kernel

/-- `x` has exactly one row axis `di`, at position `i`, and exactly one column axis `dj`, at
position `j`. -/
structure IsMatrix (x : Arr β α) (i j : Nat) (di dj : Dim β) : Prop where
  row : x.dims[i]? = some di
  col : x.dims[j]? = some dj
  rowCls : di.cls = .matI
  colCls : dj.cls = .matJ
  oneRow : ∀ (k : Nat) e, x.dims[k]? = some e → e.cls = .matI → k = i
  oneCol : ∀ (k : Nat) e, x.dims[k]? = some e → e.cls = .matJ → k = j

/-- The last element that satisfies a predicate, if there is only one. -/
theorem foldl_last {δ : Type} (p : δ → Bool) (l : List δ) (i : Nat) (d : δ) (init : Option δ)
    (hd : l[i]? = some d) (hp : p d = true)
    (hu : ∀ (k : Nat) e, l[k]? = some e → p e = true → k = i) :
    l.foldl (fun acc d => if p d then some d else acc) init = some d := by
  induction l generalizing i init with
  | nil => simp at hd
  | cons x t ih =>
    rw [List.foldl_cons]
    cases i with
    | zero =>
      simp only [List.getElem?_cons_zero, Option.some.injEq] at hd
      subst hd
      rw [if_pos hp]
      have : ∀ (t : List δ) (o : Option δ), (∀ e ∈ t, p e = false) →
          t.foldl (fun acc d => if p d then some d else acc) o = o := by
        intro t
        induction t with
        | nil => intros; rfl
        | cons y t ih =>
          intro o h
          rw [List.foldl_cons, if_neg (by simp [h y (by simp)])]
          exact ih o fun e he => h e (by simp [he])
      apply this
      intro e he
      rw [← Bool.not_eq_true]
      intro q
      obtain ⟨k, hk, hke⟩ := List.getElem_of_mem he
      have := hu (k + 1) e (by simp [hk, hke]) q
      omega
    | succ i =>
      exact ih i _ (by simpa using hd) fun k e h1 h2 => by
        have := hu (k + 1) e (by simpa using h1) h2
        omega

/-- The coordinate with row and column index exchanged. -/
def swapCoord (c : Coord) (ki kj : Key) : Coord := fun k =>
  if k = ki then c kj else if k = kj then c ki else c k

theorem swap_perm {n i j : Nat} (hi : i < n) (hj : j < n) :
    (((List.range n).set i j).set j i).Perm (List.range n) := by
  rw [List.perm_ext_iff_of_nodup]
  · intro a
    simp only [List.mem_range]
    rw [List.mem_iff_getElem]
    constructor
    · rintro ⟨k, hk, rfl⟩
      simp only [List.length_set, List.length_range] at hk
      rw [List.getElem_set, List.getElem_set]
      split
      · exact hi
      · split
        · exact hj
        · simpa using hk
    · intro ha
      by_cases h1 : a = i
      · exact ⟨j, by simpa using hj, by rw [List.getElem_set, if_pos rfl, h1]⟩
      · by_cases h2 : a = j
        · have hne : j ≠ i := fun q => h1 (h2.trans q)
          exact ⟨i, by simpa using hi, by
            rw [List.getElem_set, if_neg hne, List.getElem_set, if_pos rfl, h2]⟩
        · exact ⟨a, by simpa using ha, by
            rw [List.getElem_set, if_neg (Ne.symm h2), List.getElem_set, if_neg (Ne.symm h1)]
            simp⟩
  · rw [List.Nodup, List.pairwise_iff_getElem]
    intro a b ha hb hab
    simp only [List.length_set, List.length_range] at ha hb
    simp only [List.getElem_set, List.getElem_range]
    split <;> split <;> (try split) <;> (try split) <;> omega
  · exact List.nodup_range

theorem getElem?_swap {n i j k : Nat} (hi : i < n) (hj : j < n) (hk : k < n) :
    (((List.range n).set i j).set j i)[k]? = some (if k = j then i else if k = i then j else k) := by
  rw [List.getElem?_eq_getElem (by simpa using hk), List.getElem_set, List.getElem_set]
  simp only [List.getElem_range, eq_comm (a := j), eq_comm (a := i)]

variable [DecidableEq β]

/-- C07.  `t`: in an array with one row and one column axis (anywhere, with any further
axes) the axes keep their places, names and classes, the coordinate values of rows and
columns are exchanged, and so are their indices in the elements. -/
theorem C07_matrix_transpose (x : Arr β α) (hwf : x.WF) (hn : (x.dims.map Dim.name).Nodup)
    (i j : Nat) (di dj : Dim β) (h : IsMatrix x i j di dj) :
    ∃ y, matT x = .ok y ∧ y.WF ∧
      y.dims = (x.dims.set i ⟨.matI, di.name, dj.data, none, none⟩).set j
        ⟨.matJ, dj.name, di.data, none, none⟩ ∧
      (∀ k : Nat, y.nd.shape[k]? = x.nd.shape[if k = j then i else if k = i then j else k]?) ∧
      ∀ c, y.at_ c = x.at_ (swapCoord c di.key dj.key) := by
  obtain ⟨hdi, hdj, ci, cj, ui, uj⟩ := h
  obtain ⟨hi, ei⟩ := List.getElem?_eq_some_iff.1 hdi
  obtain ⟨hj, ej⟩ := List.getElem?_eq_some_iff.1 hdj
  have hij : i ≠ j := by
    rintro rfl
    rw [hdi] at hdj
    obtain rfl := Option.some.inj hdj
    rw [ci] at cj; simp at cj
  have f1 : x.dims.foldl (fun acc d => if d.isa .matI then some d else acc) none = some di :=
    foldl_last (fun d => d.isa .matI) x.dims i di none hdi
      (by simpa [Dim.isa, isa_matI] using ci)
      (fun k e h1 h2 => ui k e h1 (by simpa [Dim.isa, isa_matI] using h2))
  have f2 : x.dims.foldl (fun acc d => if d.isa .matI then acc
      else if d.isa .matJ then some d else acc) none = some dj := by
    have : (fun (acc : Option (Dim β)) (d : Dim β) => if d.isa .matI then acc
        else if d.isa .matJ then some d else acc) =
        fun acc d => if d.isa .matJ then some d else acc := by
      funext acc d
      by_cases q : d.isa .matI = true
      · have : d.isa .matJ = false := by
          have q : d.cls = .matI := isa_matI.1 q
          unfold Dim.isa; rw [q]; decide +kernel
        rw [if_pos q, this]; simp
      · rw [if_neg q]
    rw [this]
    exact foldl_last (fun d => d.isa .matJ) x.dims j dj none hdj
      (by simpa [Dim.isa, isa_matJ] using cj)
      (fun k e h1 h2 => uj k e h1 (by simpa [Dim.isa, isa_matJ] using h2))
  have g1 : dimsIndex x.dims di.name = some i := ei ▸ dimsIndex_of hn hi
  have g2 : dimsIndex x.dims dj.name = some j := ej ▸ dimsIndex_of hn hj
  have hnd : x.nd.ndim = x.dims.length := hwf.symm
  obtain ⟨out, ho, howf, hod, hos, hov⟩ := transpose_spec hwf
    (order := ((List.range x.dims.length).set i j).set j i) (swap_perm hi hj)
  have hlen : out.dims.length = x.dims.length := by
    have := congrArg List.length hod; simpa using this
  have hslen : out.nd.shape.length = x.nd.shape.length := by
    rw [← howf, hlen]; exact hwf
  have odim : ∀ k, k < x.dims.length →
      out.dims[k]? = x.dims[if k = j then i else if k = i then j else k]? := by
    intro k hk
    have := congrArg (fun l => l[k]?) hod
    simp only [List.getElem?_map, getElem?_swap hi hj hk, Option.map_some] at this
    rw [List.getElem?_eq_getElem (by omega)] at this ⊢
    simpa using this
  refine ⟨⟨(out.dims.set i ⟨.matI, di.name, dj.data, none, none⟩).set j
    ⟨.matJ, dj.name, di.data, none, none⟩, out.nd⟩, ?_, ?_, ?_, ?_, ?_⟩
  · unfold matT
    simp only [f1, f2, g1, g2, hnd, ho]
  · show (List.set _ _ _).length = _
    simp only [List.length_set]; exact howf
  · apply List.ext_getElem?
    intro k
    simp only [List.getElem?_set, List.length_set, hlen]
    by_cases hk : k < x.dims.length
    · by_cases q1 : j = k
      · simp [q1]
      · by_cases q2 : i = k
        · simp [q1, q2]
        · simp only [q1, q2, if_false]
          rw [odim k hk, if_neg (Ne.symm q1), if_neg (Ne.symm q2)]
    · rw [List.getElem?_eq_none (by omega : out.dims.length ≤ k),
        List.getElem?_eq_none (by omega : x.dims.length ≤ k)]
  · intro k
    show out.nd.shape[k]? = _
    by_cases hk : k < x.dims.length
    · have := congrArg (fun l => l[k]?) hos
      simp only [List.getElem?_map, getElem?_swap hi hj hk, Option.map_some] at this
      have hk' : k < out.nd.shape.length := by rw [hslen, ← hwf]; exact hk
      rw [List.getElem?_eq_getElem hk'] at this ⊢
      simpa using this
    · have hsl : x.nd.shape.length = x.dims.length := hwf.symm
      rw [List.getElem?_eq_none (by omega), if_neg (by omega), if_neg (by omega),
        List.getElem?_eq_none (by omega)]
  · intro c
    rw [← hov]
    unfold at_
    show out.nd.get (List.map _ _) = _
    congr 1
    apply List.ext_getElem?
    intro k
    simp only [List.getElem?_map]
    by_cases hk : k < x.dims.length
    · rw [odim k hk]
      simp only [List.getElem?_set, List.length_set, hlen]
      have kij : di.key ≠ dj.key := by
        intro q
        have := congrArg Prod.snd q
        simp only [Dim.key, ci, cj] at this
        simp at this
      have hki : di.key = (di.name, Cls.matI) := by unfold Dim.key; rw [ci]
      have hkj : dj.key = (dj.name, Cls.matJ) := by unfold Dim.key; rw [cj]
      by_cases q1 : j = k
      · subst q1
        simp only [if_true, hdi, if_pos hj, Option.map_some, swapCoord]
        rw [hkj]; rfl
      · by_cases q2 : i = k
        · subst q2
          simp only [if_neg q1, if_true, hdj, if_pos hi, Option.map_some, swapCoord]
          rw [if_neg (Ne.symm q1), hdj]
          simp only [Option.map_some]
          rw [if_neg (Ne.symm kij), hki]; rfl
        · simp only [q1, q2, if_false]
          rw [if_neg (Ne.symm q1), if_neg (Ne.symm q2), odim k hk, if_neg (Ne.symm q1),
            if_neg (Ne.symm q2), List.getElem?_eq_getElem hk]
          simp only [Option.map_some, swapCoord, Option.some.injEq]
          have hne : ∀ m (hm : m < x.dims.length), m ≠ k → x.dims[k].key ≠ x.dims[m].key := by
            intro m hm hmk q
            have := (List.Nodup.getElem_inj_iff hn (hi := by simpa using hk)
              (hj := by simpa using hm)).1 (by
                simp only [List.getElem_map]; exact congrArg Prod.fst q)
            exact hmk this.symm
          rw [if_neg (ei ▸ hne i hi q2), if_neg (ej ▸ hne j hj q1)]
    · rw [List.getElem?_eq_none (by simp only [List.length_set]; omega),
        List.getElem?_eq_none (by omega)]
      rfl

/-- C07.  Without a row axis or without a column axis `t` returns the array itself. -/
theorem C07_matrix_transpose_none (x : Arr β α)
    (h : (∀ d ∈ x.dims, d.cls ≠ .matI) ∨ ∀ d ∈ x.dims, d.cls ≠ .matJ) : matT x = .ok x := by
  have none_of : ∀ (l : List (Dim β)) (g : Option (Dim β) → Dim β → Option (Dim β)),
      (∀ d ∈ l, g none d = none) → l.foldl g none = none := by
    intro l g
    induction l with
    | nil => intro _; rfl
    | cons d t ih =>
      intro hl
      rw [List.foldl_cons, hl d (by simp)]
      exact ih fun e he => hl e (by simp [he])
  unfold matT
  rcases h with h | h
  · have : x.dims.foldl (fun acc d => if d.isa .matI then some d else acc) none = none :=
      none_of x.dims _ fun d hd => by
        rw [if_neg]; intro q; exact h d hd (isa_matI.1 q)
    simp only [this]
  · have : x.dims.foldl (fun acc d => if d.isa .matI then acc
        else if d.isa .matJ then some d else acc) none = none :=
      none_of x.dims _ fun d hd => by
        have : ¬ d.isa .matJ = true := fun q => h d hd (isa_matJ.1 q)
        rw [if_neg this]; simp
    simp only [this]
    split
    · next h => simp at h
    · rfl

/-- C07.  Transposing twice restores the elements and the axes, except that unit and output
format of the two matrix axes are lost. -/
theorem C07_matrix_transpose_twice (x : Arr β α) (hwf : x.WF) (hn : (x.dims.map Dim.name).Nodup)
    (i j : Nat) (di dj : Dim β) (h : IsMatrix x i j di dj) :
    ∃ y z, matT x = .ok y ∧ matT y = .ok z ∧
      z.dims = (x.dims.set i { di with unit := none, outputformat := none }).set j
        { dj with unit := none, outputformat := none } ∧
      z.nd.shape = x.nd.shape ∧ ∀ c, z.at_ c = x.at_ c := by
  obtain ⟨y, hy, hywf, hyd, hys, hyv⟩ := C07_matrix_transpose x hwf hn i j di dj h
  obtain ⟨hi, ei⟩ := List.getElem?_eq_some_iff.1 h.row
  obtain ⟨hj, ej⟩ := List.getElem?_eq_some_iff.1 h.col
  have hij : i ≠ j := by
    rintro rfl
    have := h.row.symm.trans h.col
    obtain rfl := Option.some.inj this
    have := h.rowCls.symm.trans h.colCls
    simp at this
  have hnames : y.dims.map Dim.name = x.dims.map Dim.name := by
    rw [hyd]
    apply List.ext_getElem?
    intro k
    simp only [List.getElem?_map, List.getElem?_set, List.length_set]
    by_cases q1 : j = k
    · subst q1; simp [hj, ej]
    · by_cases q2 : i = k
      · subst q2; simp [q1, hi, ei]
      · simp [q1, q2]
  have hym : IsMatrix y i j ⟨.matI, di.name, dj.data, none, none⟩
      ⟨.matJ, dj.name, di.data, none, none⟩ := by
    refine ⟨?_, ?_, rfl, rfl, ?_, ?_⟩
    · rw [hyd, List.getElem?_set_ne (Ne.symm hij), List.getElem?_set_self hi]
    · rw [hyd, List.getElem?_set_self (by simpa using hj)]
    · intro k e hk hc
      rw [hyd] at hk
      by_cases q1 : j = k
      · subst q1
        rw [List.getElem?_set_self (by simpa using hj)] at hk
        obtain rfl := Option.some.inj hk; simp at hc
      · by_cases q2 : i = k
        · exact q2.symm
        · rw [List.getElem?_set_ne q1, List.getElem?_set_ne q2] at hk
          exact h.oneRow k e hk hc
    · intro k e hk hc
      rw [hyd] at hk
      by_cases q1 : j = k
      · exact q1.symm
      · by_cases q2 : i = k
        · subst q2
          rw [List.getElem?_set_ne q1, List.getElem?_set_self hi] at hk
          obtain rfl := Option.some.inj hk; simp at hc
        · rw [List.getElem?_set_ne q1, List.getElem?_set_ne q2] at hk
          exact h.oneCol k e hk hc
  obtain ⟨z, hz, -, hzd, hzs, hzv⟩ :=
    C07_matrix_transpose y hywf (hnames ▸ hn) i j _ _ hym
  refine ⟨y, z, hy, hz, ?_, ?_, ?_⟩
  · rw [hzd, hyd]
    apply List.ext_getElem?
    intro k
    simp only [List.getElem?_set, List.length_set]
    have c1 := h.rowCls
    have c2 := h.colCls
    by_cases q1 : j = k
    · subst q1; simp [hj, ← c2]
    · by_cases q2 : i = k
      · subst q2; simp [q1, hi, ← c1]
      · simp [q1, q2]
  · apply List.ext_getElem?
    intro k
    rw [hzs, hys]
    congr 1
    by_cases q1 : k = j
    · simp [q1, hij]
    · by_cases q2 : k = i
      · simp [q2, hij]
      · simp [q1, q2]
  · intro c
    rw [hzv, hyv]
    congr 1
    have hki : (⟨.matI, di.name, dj.data, none, none⟩ : Dim β).key = di.key := by
      unfold Dim.key; rw [h.rowCls]
    have hkj : (⟨.matJ, dj.name, di.data, none, none⟩ : Dim β).key = dj.key := by
      unfold Dim.key; rw [h.colCls]
    rw [hki, hkj]
    funext k
    unfold swapCoord
    by_cases q1 : k = di.key
    · subst q1
      by_cases q2 : dj.key = di.key
      · simp [q2]
      · simp [q2]
    · by_cases q2 : k = dj.key
      · subst q2; simp [q1]
      · simp [q1, q2]

/-- C06.  An operator between an array and a number: axes and shape are those of the array,
the number is the right operand everywhere, and the elements are the same as for the
operator with the array without axes that holds the number. -/
theorem C06_scalar (full : Arr β α → Arr β α) (f : α → α → γ) (a : Arr β α) (s : α)
    (ha : a.WF) (hna : Distinct a.dims) (hl : NoSub a.dims)
    (hfull : Dim.hasComplex a.dims = true → full a = a ∧ full ⟨[], ⟨[], fun _ => s⟩⟩ = ⟨[], ⟨[], fun _ => s⟩⟩) :
    (scalarOp f a s).dims = a.dims ∧ (scalarOp f a s).nd.shape = a.nd.shape ∧
    ∃ r, binop full f a ⟨[], ⟨[], fun _ => s⟩⟩ = .ok r ∧ r.dims = dimsUnion a.dims [] ∧
      (∀ k, k ∈ r.dims.map Dim.key ↔ k ∈ a.dims.map Dim.key) ∧
      (∀ k, r.axisLen k = a.axisLen k) ∧
      ∀ c, a.InRange c → r.InRange c →
        r.at_ c = f (a.at_ c) s ∧ (scalarOp f a s).at_ c = f (a.at_ c) s := by
  refine ⟨rfl, rfl, ?_⟩
  obtain ⟨r, h1, -, -, h4, h5, h6, h7⟩ := C06_binop_aligns_by_name full f a ⟨[], ⟨[], fun _ => s⟩⟩ ha
    rfl hna (by simp [Distinct]) (by simpa using hl)
    (by intro k s t _ h; simp [axisLen] at h) (by simpa using hfull)
  refine ⟨r, h1, h4, fun k => ?_, fun k => ?_, fun c hc hrc => ⟨?_, rfl⟩⟩
  · rw [h5]; simp
  · rw [h6]
    have : axisLen (⟨[], ⟨[], fun _ => s⟩⟩ : Arr β α) k = none := rfl
    rw [this]
    cases a.axisLen k <;> rfl
  · rw [h7 c hrc, atB_eq_at ha hc]
    rfl

/-- Two 2x3 matrices over a sweep. -/
def sampleM : Arr Nat Nat :=
  ⟨[⟨.dimSweep, "f", [10, 20], none, none⟩, ⟨.matI, "i", [0, 1], none, none⟩,
    ⟨.matJ, "j", [0, 1, 2], some "x", none⟩], ⟨[2, 2, 3], fun i => 100 * i.getD 0 0 + 10 * i.getD 1 0 + i.getD 2 0⟩⟩

example : sampleM.WF ∧ (sampleM.dims.map Dim.name).Nodup ∧
    IsMatrix sampleM 1 2 ⟨.matI, "i", [0, 1], none, none⟩ ⟨.matJ, "j", [0, 1, 2], some "x", none⟩ := by
  refine ⟨by unfold WF; decide, by decide +kernel, rfl, rfl, rfl, rfl, ?_, ?_⟩
  all_goals
    intro k e h1 h2
    match k, h1 with
    | 0, h1 => simp [sampleM] at h1; subst h1; simp at h2
    | 1, h1 => simp [sampleM] at h1; subst h1; simp at h2 <;> rfl
    | 2, h1 => simp [sampleM] at h1; subst h1; simp at h2 <;> rfl
    | k + 3, h1 => simp [sampleM] at h1

example : (matT sampleM).toOption.map (fun y => (y.nd.shape, y.nd.get [1, 2, 0])) =
    some ([2, 3, 2], 102) := by decide +kernel

example : Distinct sampleM.dims ∧ NoSub sampleM.dims ∧ Dim.hasComplex sampleM.dims = false := by
  unfold Distinct NoSub; decide +kernel

end HF.Arr
