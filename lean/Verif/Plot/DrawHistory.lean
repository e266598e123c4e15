import Verif.Plot.DrawProps
import Mathlib.Analysis.SpecialFunctions.Log.Base
import Mathlib.Analysis.SpecialFunctions.Complex.Arg
/-
C79: the labels after any number of plots, and the meaning of what the projections draw.
-/
namespace HF.Plot.Draw

variable {β α ρ : Type}

/-! ### Labels -/

/-- A call of `plot`: projection and arguments. -/
abbrev Call (β α ρ : Type) := Kind β α ρ × List (Arg β α)

/-- A sequence of calls; exceptions are caught by the user. -/
def run (N : Num β α ρ) (ofIdx : Nat → β) : St → List (Call β α ρ) → St
  | s, [] => s
  | s, c :: cs => run N ofIdx (plot N ofIdx c.1 s c.2).1 cs

/-- Specification: the name that a call offers for the x axis. -/
def offered : List (Arg β α) → Option String
  | [.data y] => y.arr.dims.head?.map Dim.name
  | .data y :: .text _ :: _ => y.arr.dims.head?.map Dim.name
  | _ => none

/-- Specification: the unit of the y axis that a call asks for, which is that of the array it draws. -/
def asked : List (Arg β α) → Option String
  | [.data y] => if y.arr.dims = [] then none else y.unit
  | .data y :: .text _ :: _ => if y.arr.dims = [] then none else y.unit
  | .data _ :: .data y :: _ => y.unit
  | _ => none

theorem plotXY_xname (N : Num β α ρ) (ofIdx : Nat → β) (kind : Kind β α ρ) (s : St) (x : Data β α)
    (y : Arg β α) : (plotXY N ofIdx kind s x y).1.xname = s.xname := by
  unfold plotXY
  repeat' split
  all_goals rfl

theorem plot_xname (N : Num β α ρ) (ofIdx : Nat → β) (kind : Kind β α ρ) (s : St) (args : List (Arg β α)) :
    (plot N ofIdx kind s args).1.xname = (s.xname <|> offered args) := by
  match args with
  | [] => simp [plot, offered]
  | [.text _] => simp [plot, offered]
  | [.bytes _] => simp [plot, offered]
  | [.data y] =>
    cases hd : y.arr.dims with
    | nil => simp [plot, offered, hd]
    | cons d ds => cases hx : s.xname <;> simp [plot, offered, hd, plotXY_xname, hx]
  | .text _ :: .text _ :: _ => simp [plot, offered]
  | .text _ :: .bytes _ :: _ => simp [plot, offered]
  | .text _ :: .data _ :: _ => simp [plot, offered]
  | .bytes _ :: .text _ :: _ => simp [plot, offered]
  | .bytes _ :: .bytes _ :: _ => simp [plot, offered]
  | .bytes _ :: .data _ :: _ => simp [plot, offered]
  | .data y :: .text _ :: _ =>
    cases hd : y.arr.dims with
    | nil => simp [plot, offered, hd]
    | cons d ds => cases hx : s.xname <;> simp [plot, offered, hd, plotXY_xname, hx]
  | .data x :: .data y :: _ => simp [plot, offered, plotXY_xname]
  | .data x :: .bytes y :: _ => simp [plot, offered, plotXY_xname]

/-- C79.  The default label of the x axis is the name of the first dim of the first array that was drawn on
its own, whatever is drawn later, and even if it could not be drawn. -/
theorem C79_history (N : Num β α ρ) (ofIdx : Nat → β) (s : St) (calls : List (Call β α ρ)) :
    (run N ofIdx s calls).xname = (s.xname :: calls.map fun c => offered c.2).findSome? id := by
  induction calls generalizing s with
  | nil => cases h : s.xname <;> simp [run, h]
  | cons c cs ih =>
    rw [run, ih, plot_xname]
    cases h : s.xname <;> cases h' : offered c.2 <;> simp [h']

/-- the unit of the y axis after a call -/
theorem plotXY_yunit (N : Num β α ρ) (ofIdx : Nat → β) (kind : Kind β α ρ) (s : St) (x : Data β α)
    (y : Arg β α) : (plotXY N ofIdx kind s x y).1.yunit =
      match y, (plotXY N ofIdx kind s x y).2 with
      | .data y, .ok _ => if y.unit.getD "" = "" then s.yunit else y.unit
      | _, _ => s.yunit := by
  cases y with
  | text t =>
    cases kind with
    | none => simp only [plotXY]; cases axesPlot1 N.index (mapNd N.re x.arr.nd) <;> simp [setUnits]
    | keep => simp only [plotXY]; cases axesPlot1 N.index (mapNd N.re x.arr.nd) <;> simp [setUnits]
    | point f => rfl
    | whole g g1 => rfl
  | bytes t =>
    cases kind with
    | none => simp only [plotXY]; cases axesPlot1 N.index (mapNd N.re x.arr.nd) <;> simp [setUnits]
    | keep => simp only [plotXY]; cases axesPlot1 N.index (mapNd N.re x.arr.nd) <;> simp [setUnits]
    | point f => rfl
    | whole g g1 => rfl
  | data y =>
    simp only [plotXY]
    cases kind with
    | none =>
      simp only
      split
      · cases plotHelper ofIdx (mapArr N.re y.arr) (mapArr N.im y.arr) <;> rfl
      · cases plotHelper ofIdx (mapArr N.re x.arr) (mapArr N.re y.arr) <;> rfl
    | keep =>
      simp only
      cases plotHelper ofIdx (mapArr N.re x.arr) (mapArr N.re y.arr) <;> rfl
    | point f =>
      simp only
      cases plotHelper ofIdx (mapArr N.re x.arr) (mapArr f y.arr) <;> rfl
    | whole g g1 =>
      simp only
      cases plotHelper ofIdx (mapArr N.re (g x.arr y.arr).1) (mapArr N.re (g x.arr y.arr).2) <;> rfl

theorem plot_yunit (N : Num β α ρ) (ofIdx : Nat → β) (kind : Kind β α ρ) (s : St) (args : List (Arg β α)) :
    (plot N ofIdx kind s args).1.yunit =
      match (plot N ofIdx kind s args).2 with
      | .ok _ => if (asked args).getD "" = "" then s.yunit else asked args
      | .error _ => s.yunit := by
  have none_ : ∀ r : Except PErr (List (List (ρ × ρ))), s.yunit =
      match r with
      | .ok _ => s.yunit
      | .error _ => s.yunit := by intro r; cases r <;> rfl
  match args with
  | [] => simp [plot]
  | [.text _] => simp [plot]
  | [.bytes _] => simp [plot]
  | [.data y] =>
    cases hd : y.arr.dims with
    | nil => simpa [plot, asked, hd] using none_ _
    | cons d ds =>
      simp only [plot, asked, hd, List.take]
      rw [plotXY_yunit]
      cases (plotXY N ofIdx kind { s with xname := some (s.xname.getD d.name) } (dimData N d) (.data y)).2 <;> simp
  | .text _ :: .text _ :: _ => simp [plot]
  | .text _ :: .bytes _ :: _ => simp [plot]
  | .text _ :: .data _ :: _ => simp [plot]
  | .bytes _ :: .text _ :: _ => simp [plot]
  | .bytes _ :: .bytes _ :: _ => simp [plot]
  | .bytes _ :: .data _ :: _ => simp [plot]
  | .data y :: .text _ :: _ =>
    cases hd : y.arr.dims with
    | nil => simpa [plot, asked, hd] using none_ _
    | cons d ds =>
      simp only [plot, asked, hd, List.take]
      rw [plotXY_yunit]
      cases (plotXY N ofIdx kind { s with xname := some (s.xname.getD d.name) } (dimData N d) (.data y)).2 <;> simp
  | .data x :: .data y :: _ =>
    simp only [plot, asked, List.take]
    rw [plotXY_yunit]
    cases (plotXY N ofIdx kind s x (.data y)).2 <;> rfl
  | .data x :: .bytes y :: _ =>
    simp only [plot, asked, List.take]
    rw [plotXY_yunit]
    simpa using none_ _

/-- Specification: the unit that the last call which drew something and asked for one asks for. -/
def lastUnit : Option String → List (Bool × Option String) → Option String
  | u, [] => u
  | u, (ok, v) :: l => lastUnit (if ok = true ∧ v.getD "" ≠ "" then v else u) l

/-- What the calls of a history return, in turn. -/
def outcomes (N : Num β α ρ) (ofIdx : Nat → β) : St → List (Call β α ρ) → List Bool
  | _, [] => []
  | s, c :: cs =>
    (plot N ofIdx c.1 s c.2).2.isOk :: outcomes N ofIdx (plot N ofIdx c.1 s c.2).1 cs

/-- C79.  The unit on the y axis is that of the array drawn last among those that have a unit; calls that fail
and arrays without unit leave it as it is. -/
theorem C79_units (N : Num β α ρ) (ofIdx : Nat → β) (s : St) (calls : List (Call β α ρ)) :
    (run N ofIdx s calls).yunit =
      lastUnit s.yunit ((outcomes N ofIdx s calls).zip (calls.map fun c => asked c.2)) := by
  induction calls generalizing s with
  | nil => rfl
  | cons c cs ih =>
    rw [run, ih, plot_yunit]
    simp only [outcomes, List.map_cons, List.zip_cons_cons, lastUnit]
    congr 1
    cases (plot N ofIdx c.1 s c.2).2 with
    | error e => simp [Except.isOk, Except.toBool]
    | ok v =>
      by_cases h : (asked c.2).getD "" = "" <;> simp [Except.isOk, Except.toBool, h]

/-! ### Projections -/

/-- Specification of the projections: what the height `v` of a point says about the value `z`. -/
def Means : String → ℂ → ℝ → Prop
  | "db", z, v => (10 : ℝ) ^ (v / 20) = ‖z‖
  | "db10", z, v => (10 : ℝ) ^ (v / 10) = ‖z‖
  | "mag", z, v => 0 ≤ v ∧ v ^ 2 = z.re ^ 2 + z.im ^ 2
  | "mag_square", z, v => v = z.re ^ 2 + z.im ^ 2
  | "rad", z, v => (-Real.pi < v ∧ v ≤ Real.pi) ∧ z = ‖z‖ * Complex.exp (v * Complex.I)
  | "deg", z, v => (-180 < v ∧ v ≤ 180) ∧ z = ‖z‖ * Complex.exp (v * (Real.pi / 180) * Complex.I)
  | "real", z, v => ∃ w : ℝ, z = v + w * Complex.I
  | "imag", z, v => ∃ w : ℝ, z = w + v * Complex.I
  | _, _, _ => False

/-- C79.  Each of these projections draws a number for every element, with the meaning its name has. -/
theorem C79_projections
    (whole : String → (Arr β ℂ → Arr β ℂ → Arr β ℂ × Arr β ℂ) × (Arr β ℂ → Except PErr (Arr β ℂ)))
    (name : String) (hn : name ∈ ["db", "db10", "mag", "mag_square", "rad", "deg", "real", "imag"]) :
    ∃ f, projfun whole (some name) = .point f ∧ ∀ z : ℂ, z ≠ 0 → Means name z (f z) := by
  have hlog : ∀ z : ℂ, z ≠ 0 → (10 : ℝ) ^ Real.logb 10 ‖z‖ = ‖z‖ := fun z hz =>
    Real.rpow_logb (by norm_num) (by norm_num) (norm_pos_iff.2 hz)
  simp only [List.mem_cons, List.not_mem_nil, or_false] at hn
  rcases hn with rfl | rfl | rfl | rfl | rfl | rfl | rfl | rfl
  · refine ⟨_, rfl, fun z hz => ?_⟩
    simp only [Means, MathFns.dB]
    rw [mul_div_cancel_left₀ _ (by norm_num : (20 : ℝ) ≠ 0), hlog z hz]
  · refine ⟨_, rfl, fun z hz => ?_⟩
    simp only [Means]
    rw [mul_div_cancel_left₀ _ (by norm_num : (10 : ℝ) ≠ 0), hlog z hz]
  · refine ⟨_, rfl, fun z _ => ⟨norm_nonneg z, ?_⟩⟩
    rw [Complex.sq_norm, Complex.normSq_apply]; ring
  · refine ⟨_, rfl, fun z _ => ?_⟩
    simp only [Means]
    rw [Complex.sq_norm, Complex.normSq_apply]; ring
  · refine ⟨_, rfl, fun z _ => ⟨⟨Complex.neg_pi_lt_arg z, Complex.arg_le_pi z⟩, ?_⟩⟩
    exact (Complex.norm_mul_exp_arg_mul_I z).symm
  · refine ⟨_, rfl, fun z _ => ⟨⟨?_, ?_⟩, ?_⟩⟩
    · have := Complex.neg_pi_lt_arg z
      have hp := Real.pi_pos
      rw [mul_div_assoc', lt_div_iff₀ hp]
      linarith
    · have := Complex.arg_le_pi z
      have hp := Real.pi_pos
      rw [mul_div_assoc', div_le_iff₀ hp]
      linarith
    · have hp : (Real.pi : ℂ) ≠ 0 := by exact_mod_cast Real.pi_ne_zero
      have : ((Complex.arg z * (180 / Real.pi) : ℝ) : ℂ) * (Real.pi / 180) = Complex.arg z := by
        push_cast
        field_simp
      rw [this]
      exact (Complex.norm_mul_exp_arg_mul_I z).symm
  · exact ⟨_, rfl, fun z _ => ⟨z.im, (Complex.re_add_im z).symm⟩⟩
  · exact ⟨_, rfl, fun z _ => ⟨z.re, (Complex.re_add_im z).symm⟩⟩

end HF.Plot.Draw
