import Verif.HFArray.Tags
/-
C118: units and formats in calculations.
-/
namespace HF
namespace Tags

/-! ### Specification -/

/-- The array that stands first in a calculation. -/
def first : Ex → Nat
  | .arr i => i
  | .same _ e => first e
  | .reduce _ e => first e
  | .bin _ a _ => first a
  | .numR _ a => first a
  | .numL _ a => first a

/-- A sum, mean or the like is taken of something that begins with the first array. -/
def reduced : Ex → Bool
  | .arr _ => false
  | .same _ e => reduced e
  | .reduce _ _ => true
  | .bin _ a _ => reduced a
  | .numR _ a => reduced a
  | .numL _ a => reduced a

/-- The unit `u` is the right one for calculations in which quantities of one unit are added and scaled. -/
inductive Right (env : Nat → Tag) : Ex → Option String → Prop
  | arr (i : Nat) : Right env (.arr i) (env i).unit
  | same (op : Same) {e : Ex} {u : Option String} (h : Right env e u) : Right env (.same op e) u
  | add {a b : Ex} {u : Option String} (ha : Right env a u) (hb : Right env b u) : Right env (.bin .add a b) u
  | sub {a b : Ex} {u : Option String} (ha : Right env a u) (hb : Right env b u) : Right env (.bin .sub a b) u
  | scaled {a b : Ex} {u : Option String} (ha : Right env a u) (hb : Right env b none) : Right env (.bin .mul a b) u
  | divided {a b : Ex} {u : Option String} (ha : Right env a u) (hb : Right env b none) : Right env (.bin .div a b) u
  | times {a : Ex} {u : Option String} (ha : Right env a u) : Right env (.numR .mul a) u
  | over {a : Ex} {u : Option String} (ha : Right env a u) : Right env (.numR .div a) u
  | timesLeft {a : Ex} {u : Option String} (ha : Right env a u) : Right env (.numL .mul a) u
  | addNumber {a : Ex} (ha : Right env a none) (op : Bin) : Right env (.numR op a) none
  | addNumberLeft {a : Ex} (ha : Right env a none) (op : Bin) : Right env (.numL op a) none

/-! ### Theorems -/

theorem numLTag_eq (op : Bin) (t : Tag) : numLTag op t = t := by cases op <;> rfl

/-- C118: the result of a calculation has unit and format of the array that stands first in it, or neither if a sum, mean
or the like has been taken of that. -/
theorem C118_first (env : Nat → Tag) (e : Ex) :
    tag env e = if reduced e then ⟨none, none⟩ else env (first e) := by
  induction e with
  | arr i => rfl
  | same op e ih => exact ih
  | reduce op e ih => rfl
  | bin op a b iha ihb => exact iha
  | numR op a ih => exact ih
  | numL op a ih =>
    show numLTag op (tag env a) = _
    rw [numLTag_eq]
    exact ih

/-- C118: so the unit is right as long as quantities of one unit are added and scaled. -/
theorem C118_linear (env : Nat → Tag) (e : Ex) (u : Option String) (h : Right env e u) : (tag env e).unit = u := by
  induction h with
  | arr i => rfl
  | same op _ ih => exact ih
  | add _ _ ih _ => exact ih
  | sub _ _ ih _ => exact ih
  | scaled _ _ ih _ => exact ih
  | divided _ _ ih _ => exact ih
  | times _ ih => exact ih
  | over _ ih => exact ih
  | timesLeft _ ih => exact ih
  | addNumber _ _ ih => exact ih
  | addNumberLeft _ op ih =>
    show (numLTag op _).unit = _
    rw [numLTag_eq]
    exact ih

/-- C118: a product or quotient has the unit of the first factor, whatever that of the second is, and one divided by an
array that of the array. -/
theorem C118_product_refuted (env : Nat → Tag) (op : Bin) (i j : Nat) :
    (tag env (.bin op (.arr i) (.arr j))).unit = (env i).unit ∧ (tag env (.numL .div (.arr i))).unit = (env i).unit ∧
    (tag env (.numR .pow (.arr i))).unit = (env i).unit :=
  ⟨rfl, rfl, rfl⟩

/-- C118: a unitless array times one with a unit has no unit, and the other way round it has: products do not commute. -/
theorem C118_order_refuted (env : Nat → Tag) (i j : Nat) (u : String) (hi : (env i).unit = none) (hj : (env j).unit = some u) :
    (tag env (.bin .mul (.arr i) (.arr j))).unit = none ∧ (tag env (.bin .mul (.arr j) (.arr i))).unit = some u :=
  ⟨hi, hj⟩

/-- C118: sums, means, extremal values and so on of any calculation have no unit. -/
theorem C118_reduce_refuted (env : Nat → Tag) (op : Reduce) (e : Ex) : tag env (.reduce op e) = ⟨none, none⟩ := rfl

/-- C118: neither has the difference from the mean if the mean is written first, but the other way round it has. -/
theorem C118_mean_refuted (env : Nat → Tag) (i : Nat) :
    tag env (.bin .sub (.reduce .mean (.arr i)) (.arr i)) = ⟨none, none⟩ ∧
    tag env (.bin .sub (.arr i) (.reduce .mean (.arr i))) = env i :=
  ⟨rfl, rfl⟩

/-! ### Concrete cases -/

/-- A voltage, a current and a factor. -/
def lab : Nat → Tag
  | 0 => ⟨some "V", some "%.3f"⟩
  | 1 => ⟨some "A", none⟩
  | _ => ⟨none, none⟩

/-- `2 * (v0 + v0.T) * k` meets the hypothesis of `C118_linear` and is a voltage. -/
example : (tag lab (.numL .mul (.bin .mul (.bin .add (.arr 0) (.same .transpose (.arr 0))) (.arr 2)))).unit = some "V" :=
  C118_linear lab _ _ (.timesLeft (.scaled (.add (.arr 0) (.same _ (.arr 0))) (.arr 2)))

/-- Voltage times current is shown as a voltage, a factor times a current without unit. -/
example : (tag lab (.bin .mul (.arr 0) (.arr 1))).unit = some "V" ∧ (tag lab (.bin .mul (.arr 2) (.arr 1))).unit = none :=
  ⟨(C118_product_refuted lab .mul 0 1).1, (C118_order_refuted lab 2 1 "A" rfl rfl).1⟩

end Tags
end HF
