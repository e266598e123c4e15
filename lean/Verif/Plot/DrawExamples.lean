import Verif.Plot.DrawHistory
/-
C79: examples, and what users would not expect.
-/
namespace HF.Plot.Draw

open HF.DataBlock (ismatrix)

/-- Numbers for examples: pairs of integers. -/
def Nz : Num Int (Int × Int) Int := ⟨Prod.fst, Prod.snd, fun i => (i, 0), fun k => k, fun r => (r, 0)⟩

def freq : Dim Int := ⟨.dimSweep, "freq", [10, 20, 30], some "Hz", none⟩
def bias : Dim Int := ⟨.dimSweep, "Vg", [5, 6], some "V", none⟩

/-- a real array with two dims -/
def yr : Data Int (Int × Int) :=
  ⟨⟨[freq, bias], ⟨[3, 2], fun idx => (100 * idx.headD 0 + idx.getD 1 0, 0)⟩⟩, false, some "A"⟩

/-- the same numbers, dims in the other order -/
def yrT : Data Int (Int × Int) :=
  ⟨⟨[bias, freq], ⟨[2, 3], fun idx => (100 * idx.getD 1 0 + idx.headD 0, 0)⟩⟩, false, some "A"⟩

/-- a complex array -/
def yc : Data Int (Int × Int) :=
  ⟨⟨[freq], ⟨[3], fun idx => (idx.headD 0, -1)⟩⟩, true, some "V"⟩

def ix : Nat → Int := fun k => k

/-- The hypotheses of `C79_sweep` are met, and what is drawn. -/
example : drawn Nz yr.cplx .none = some Nz.re ∧ Formats ([] : List (Arg Int (Int × Int))) ∧
    ismatrix yr.arr = false ∧ yr.arr.dims = freq :: [bias] ∧ yr.arr.nd.shape = 3 :: [2] ∧
    freq.data.length = 3 ∧ 0 < Nd.size [2] ∧
    (plot Nz ix .none {} [.data yr]).2.toOption =
      some [[(10, 0), (20, 100), (30, 200)], [(10, 1), (20, 101), (30, 201)]] ∧
    (plot Nz ix .none {} [.data yr]).1 = ⟨some "freq", some "Hz", some "A"⟩ :=
  ⟨rfl, .inl rfl, by decide +kernel, rfl, rfl, rfl, by decide, by decide +kernel, by decide +kernel⟩

/-- The hypotheses of `C79_xy` are met for x of one dim, and for x of the shape of y. -/
example :
    (plot Nz ix .none {} [.data (dimData Nz freq), .data yr]).2.toOption =
      some [[(10, 0), (20, 100), (30, 200)], [(10, 1), (20, 101), (30, 201)]] ∧
    (plot Nz ix .none {} [.data yr, .data yr, .text "r-"]).2.toOption =
      some [[(0, 0), (100, 100), (200, 200)], [(1, 1), (101, 101), (201, 201)]] ∧
    ismatrix (dimData Nz freq).arr = false ∧ (dimData Nz freq).arr.dims ≠ [] ∧
    (dimData Nz freq).arr.nd.shape = 3 :: [] :=
  ⟨by decide +kernel, by decide +kernel, by decide +kernel, by simp [dimData], rfl⟩

/-- The hypotheses of `C79_plane` are met. -/
example : yc.cplx = true ∧ ismatrix yc.arr = false ∧ yc.arr.dims = freq :: [] ∧ yc.arr.nd.shape = 3 :: [] ∧
    (plot Nz ix .none {} [.data yc]).2.toOption = some [[(0, -1), (1, -1), (2, -1)]] ∧
    (plot Nz ix .none {} [.data yc]).1 = ⟨some "freq", some "V", some "V"⟩ :=
  ⟨rfl, by decide +kernel, rfl, rfl, by decide +kernel, by decide +kernel⟩

/-- The hypotheses of `C79_length` are met. -/
example : plot Nz ix .none {} [.data (dimData Nz bias), .data yr] = ({}, .error .value) :=
  C79_length Nz ix .none {} (dimData Nz bias) yr [] Nz.re 2 3 [] [2] rfl (by simp [dimData])
    (by simp [yr]) rfl rfl (by decide)

/-- a matrix -/
def ym : Data Int (Int × Int) :=
  ⟨⟨[freq, ⟨.matI, "i", [0, 1], none, none⟩, ⟨.matJ, "j", [0, 1], none, none⟩],
    ⟨[3, 2, 2], fun _ => (1, 0)⟩⟩, false, none⟩

/-- The hypotheses of `C79_matrix_refuted` are met. -/
example : ∃ nm, plot Nz ix .none {} [.data ym] = ({ xname := some nm }, .error .value) :=
  C79_matrix_refuted Nz ix .none {} ym [] Nz.re rfl (.inl rfl) (by decide +kernel) rfl

/-- Not vacuous: the matrices above against their sweep. -/
example : ∃ e, plot Nz ix .none {} [.data (dimData Nz freq), .data ym] = ({}, .error e) :=
  C79_matrix_xy_refuted Nz ix .none {} (dimData Nz freq) ym [] (by intro _ _ h; cases h) (by decide +kernel) rfl

/-- C79, histories: the first array names the x axis, the last one with a unit labels the y axis, and a
call that fails does not. -/
example :
    run Nz ix {} [(.none, [.data yr]), (.none, [.data (dimData Nz bias), .data yr]), (.none, [.data yrT]),
      (.none, [.data yc])] = ⟨some "freq", some "V", some "V"⟩ ∧
    outcomes Nz ix {} [(.none, [.data yr]), (.none, [.data (dimData Nz bias), .data yr]),
      (.none, [.data yrT]), (.none, [.data yc])] = [true, false, true, true] :=
  ⟨by decide +kernel, by decide +kernel⟩

/-- C79 fails for formats that are byte strings, which is what `"r-"` is in Python 2 without
`unicode_literals`: an array is drawn against the numbers of its points instead of its first dim, and its
unit goes to the x axis. -/
theorem C79_bytes_refuted :
    (plot Nz ix .none {} [.data yr, .text "r-"]).2.toOption =
      some [[(10, 0), (20, 100), (30, 200)], [(10, 1), (20, 101), (30, 201)]] ∧
    (plot Nz ix .none {} [.data yr, .bytes "r-"]).2.toOption =
      some [[(0, 0), (1, 100), (2, 200)], [(0, 1), (1, 101), (2, 201)]] ∧
    (plot Nz ix .none {} [.data yr, .bytes "r-"]).1 = ⟨none, some "A", none⟩ :=
  ⟨by decide +kernel, by decide +kernel, by decide +kernel⟩

/-- C79 fails for formats that are byte strings: with a projection of elements the call fails. -/
theorem C79_bytes_projection_refuted {β α ρ : Type} (N : Num β α ρ) (ofIdx : Nat → β) (f : α → ρ) (s : St)
    (y : Data β α) (t : String) (r : List (Arg β α)) :
    plot N ofIdx (.point f) s (.data y :: .bytes t :: r) = (s, .error .type) := by
  simp [plot, plotXY]

/-- C79 fails for the dims of x: two arrays over the same two dims in different order are paired by position,
if the lengths allow it at all, so points belong to different coordinates. -/
theorem C79_names_refuted : ∃ x y : Data Int (Int × Int),
    x.arr.dims.map Dim.name = ["b", "a"] ∧ y.arr.dims.map Dim.name = ["a", "b"] ∧
    (∀ i j, x.arr.nd.get [j, i] = y.arr.nd.get [i, j]) ∧
    (plot Nz ix .none {} [.data x, .data y]).2.toOption = some [[(0, 0), (10, 1)], [(1, 10), (11, 11)]] := by
  refine ⟨⟨⟨[⟨.dimSweep, "b", [0, 1], none, none⟩, ⟨.dimSweep, "a", [0, 1], none, none⟩],
      ⟨[2, 2], fun idx => (10 * idx.headD 0 + idx.getD 1 0, 0)⟩⟩, false, none⟩,
    ⟨⟨[⟨.dimSweep, "a", [0, 1], none, none⟩, ⟨.dimSweep, "b", [0, 1], none, none⟩],
      ⟨[2, 2], fun idx => (10 * idx.getD 1 0 + idx.headD 0, 0)⟩⟩, false, none⟩, rfl, rfl, ?_, ?_⟩
  · intro i j; rfl
  · decide +kernel

/-- C79 fails for units: whatever the projection does to the numbers, the y axis gets the unit of the data, so that
decibels and degrees of volts are labelled volts. -/
theorem C79_unit_refuted {β : Type} (N : Num β ℂ ℝ) (ofIdx : Nat → β)
    (whole : String → (Arr β ℂ → Arr β ℂ → Arr β ℂ × Arr β ℂ) × (Arr β ℂ → Except PErr (Arr β ℂ)))
    (name : String) (hn : name ∈ ["db", "db10", "mag", "mag_square", "rad", "deg", "real", "imag"])
    (s : St) (y : Data β ℂ) (d : Dim β) (ds : List (Dim β)) (n : Nat) (ns : List Nat) (hm : ismatrix y.arr = false)
    (hd : y.arr.dims = d :: ds) (hs : y.arr.nd.shape = n :: ns) (hl : d.data.length = n) (h0 : 0 < Nd.size ns)
    (u : String) (hu : y.unit = some u) (hu0 : u ≠ "") :
    ∃ c s', plot N ofIdx (projfun whole (some name)) s [.data y] = (s', .ok c) ∧ s'.yunit = some u := by
  obtain ⟨f, hf, -⟩ := C79_projections whole name hn
  obtain ⟨c, s', h1, -, -, h4, -⟩ := C79_sweep N ofIdx (projfun whole (some name)) s y d ds n ns
    [] f (by rw [hf]; rfl) (.inl rfl) hm hd hs hl h0
  exact ⟨c, s', h1, by rw [h4, hu]; simp [hu0]⟩

/-- C79 fails for two axes of the package: `unity` and `wrapunwrapeddeg` are not in the table of projections,
so they draw complex numbers in the complex plane. -/
theorem C79_wrap_refuted {β : Type}
    (whole : String → (Arr β ℂ → Arr β ℂ → Arr β ℂ × Arr β ℂ) × (Arr β ℂ → Except PErr (Arr β ℂ))) :
    projfun whole (some "unity") = .none ∧ projfun whole (some "wrapunwrapeddeg") = .none := by
  constructor <;> rfl

end HF.Plot.Draw
