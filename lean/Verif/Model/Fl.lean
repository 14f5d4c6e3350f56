import Mathlib.Analysis.SpecialFunctions.Log.Base
import Mathlib.Analysis.SpecialFunctions.Pow.Real
import Mathlib.Algebra.Order.Round
import Mathlib.Algebra.BigOperators.Group.Finset.Basic

/-!
# float64 numbers as extended reals

`Fl` models the numpy/Python `float64` values used everywhere in templatefitter:
a finite real, `+inf`, `-inf` or `nan`, with the IEEE-754 rules for special
values.

Simplifications (stated once, valid for the whole model): no rounding, no
overflow to infinity, no signed zero (so `x / 0` is `+inf` for `x > 0`), decimal
literals such as `1e-14` denote the exact decimal number.
-/

namespace TF

open Classical

/-- A float64 value without rounding. -/
inductive Fl where
  | fin (r : ℝ)
  | pinf
  | ninf
  | nan

namespace Fl

noncomputable section

instance : Inhabited Fl := ⟨nan⟩
instance : Coe ℝ Fl := ⟨fin⟩
instance : Zero Fl := ⟨fin 0⟩
instance : One Fl := ⟨fin 1⟩

/-- unary minus -/
def neg : Fl → Fl
  | fin r => fin (-r)
  | pinf => ninf
  | ninf => pinf
  | nan => nan

/-- IEEE addition -/
def add : Fl → Fl → Fl
  | fin a, fin b => fin (a + b)
  | nan, _ => nan
  | _, nan => nan
  | pinf, ninf => nan
  | ninf, pinf => nan
  | pinf, _ => pinf
  | _, pinf => pinf
  | ninf, _ => ninf
  | _, ninf => ninf

/-- `r * (+inf)` -/
def mulPinf (r : ℝ) : Fl := if r = 0 then nan else if 0 < r then pinf else ninf

/-- IEEE multiplication -/
def mul : Fl → Fl → Fl
  | fin a, fin b => fin (a * b)
  | nan, _ => nan
  | _, nan => nan
  | fin a, pinf => mulPinf a
  | pinf, fin a => mulPinf a
  | fin a, ninf => neg (mulPinf a)
  | ninf, fin a => neg (mulPinf a)
  | pinf, pinf => pinf
  | ninf, ninf => pinf
  | pinf, ninf => ninf
  | ninf, pinf => ninf

/-- IEEE division (zero taken as `+0`) -/
def div : Fl → Fl → Fl
  | fin a, fin b => if b = 0 then (if a = 0 then nan else if 0 < a then pinf else ninf) else fin (a / b)
  | nan, _ => nan
  | _, nan => nan
  | fin _, pinf => fin 0
  | fin _, ninf => fin 0
  | pinf, fin b => if b < 0 then ninf else pinf
  | ninf, fin b => if b < 0 then pinf else ninf
  | pinf, pinf => nan
  | pinf, ninf => nan
  | ninf, pinf => nan
  | ninf, ninf => nan

instance : Neg Fl := ⟨neg⟩
instance : Add Fl := ⟨add⟩
instance : Mul Fl := ⟨mul⟩
instance : Sub Fl := ⟨fun a b => add a (neg b)⟩
instance : Div Fl := ⟨div⟩

/-- `x ** 2` -/
def sq (x : Fl) : Fl := x * x

/-- `np.abs` -/
def abs : Fl → Fl
  | fin r => fin |r|
  | pinf => pinf
  | ninf => pinf
  | nan => nan

/-- `np.sqrt` -/
def sqrt : Fl → Fl
  | fin r => if r < 0 then nan else fin (Real.sqrt r)
  | pinf => pinf
  | ninf => nan
  | nan => nan

/-- `np.log` -/
def log : Fl → Fl
  | fin r => if r < 0 then nan else if r = 0 then ninf else fin (Real.log r)
  | pinf => pinf
  | ninf => nan
  | nan => nan

/-- `np.log1p` -/
def log1p : Fl → Fl
  | fin r => if r < -1 then nan else if r = -1 then ninf else fin (Real.log (1 + r))
  | pinf => pinf
  | ninf => nan
  | nan => nan

/-- IEEE `<` -/
def lt : Fl → Fl → Prop
  | fin a, fin b => a < b
  | nan, _ => False
  | _, nan => False
  | fin _, pinf => True
  | fin _, ninf => False
  | pinf, _ => False
  | ninf, fin _ => True
  | ninf, pinf => True
  | ninf, ninf => False

/-- IEEE `==` -/
def beq : Fl → Fl → Prop
  | fin a, fin b => a = b
  | pinf, pinf => True
  | ninf, ninf => True
  | _, _ => False

/-- `np.isnan` -/
def isNan : Fl → Prop
  | nan => True
  | _ => False

/-- round half to even on reals -/
def rintR (r : ℝ) : ℝ :=
  if r - ⌊r⌋ < 1 / 2 then (⌊r⌋ : ℝ)
  else if 1 / 2 < r - ⌊r⌋ then (⌊r⌋ : ℝ) + 1
  else if Even ⌊r⌋ then (⌊r⌋ : ℝ) else (⌊r⌋ : ℝ) + 1

/-- `np.rint` -/
def rint : Fl → Fl
  | fin r => fin (rintR r)
  | x => x

/-- largest finite float64, the value `np.nan_to_num` substitutes for `+inf` -/
def maxFloat : ℝ := (2 - 2 ^ (-52 : ℤ)) * 2 ^ (1023 : ℕ)

/-- `np.nan_to_num(x)` with default arguments -/
def nanToNum : Fl → Fl
  | fin r => fin r
  | nan => fin 0
  | pinf => fin maxFloat
  | ninf => fin (-maxFloat)

/-- `np.nan_to_num(x, nan=np.inf)` -/
def nanToNumInf : Fl → Fl
  | fin r => fin r
  | nan => pinf
  | pinf => fin maxFloat
  | ninf => fin (-maxFloat)

/-! ### basic lemmas -/

@[simp] theorem fin_inj {a b : ℝ} : fin a = fin b ↔ a = b := by
  constructor
  · intro h; injection h
  · rintro rfl; rfl

theorem zero_def : (0 : Fl) = fin 0 := rfl
theorem one_def : (1 : Fl) = fin 1 := rfl
@[simp] theorem fin_add (a b : ℝ) : fin a + fin b = fin (a + b) := rfl
@[simp] theorem fin_mul (a b : ℝ) : fin a * fin b = fin (a * b) := rfl
@[simp] theorem fin_neg (a : ℝ) : -fin a = fin (-a) := rfl
@[simp] theorem fin_sub (a b : ℝ) : fin a - fin b = fin (a - b) := by
  show fin (a + -b) = fin (a - b); rw [sub_eq_add_neg]
theorem fin_div (a b : ℝ) (h : b ≠ 0) : fin a / fin b = fin (a / b) := by
  show div (fin a) (fin b) = _
  simp [div, h]
theorem fin_div_zero : fin 0 / fin 0 = nan := by
  show div (fin 0) (fin 0) = _
  simp [div]
theorem fin_pos_div_zero (a : ℝ) (h : 0 < a) : fin a / fin 0 = pinf := by
  show div (fin a) (fin 0) = _
  simp [div, h.ne', h]
@[simp] theorem nan_add (x : Fl) : nan + x = nan := by cases x <;> rfl
@[simp] theorem add_nan (x : Fl) : x + nan = nan := by cases x <;> rfl
@[simp] theorem nan_mul (x : Fl) : nan * x = nan := by cases x <;> rfl
@[simp] theorem mul_nan (x : Fl) : x * nan = nan := by cases x <;> rfl
@[simp] theorem nan_sub (x : Fl) : nan - x = nan := by cases x <;> rfl
@[simp] theorem sub_nan (x : Fl) : x - nan = nan := by cases x <;> rfl
@[simp] theorem nan_div (x : Fl) : nan / x = nan := by cases x <;> rfl
@[simp] theorem div_nan (x : Fl) : x / nan = nan := by cases x <;> rfl
@[simp] theorem neg_nan : -nan = nan := rfl
@[simp] theorem neg_pinf : -pinf = ninf := rfl
@[simp] theorem neg_ninf : -ninf = pinf := rfl
@[simp] theorem sq_fin (r : ℝ) : sq (fin r) = fin (r ^ 2) := by simp [sq, pow_two]
@[simp] theorem abs_fin (r : ℝ) : abs (fin r) = fin |r| := rfl
theorem sqrt_fin {r : ℝ} (h : 0 ≤ r) : sqrt (fin r) = fin (Real.sqrt r) := by
  simp [sqrt, not_lt.mpr h]
theorem sqrt_neg {r : ℝ} (h : r < 0) : sqrt (fin r) = nan := by simp [sqrt, h]
@[simp] theorem sqrt_nan : sqrt nan = nan := rfl
theorem log_fin {r : ℝ} (h : 0 < r) : log (fin r) = fin (Real.log r) := by
  simp [log, h.le.not_gt, h.ne']
theorem log1p_fin {r : ℝ} (h : -1 < r) : log1p (fin r) = fin (Real.log (1 + r)) := by
  simp [log1p, h.le.not_gt, h.ne']
@[simp] theorem lt_fin (a b : ℝ) : lt (fin a) (fin b) ↔ a < b := Iff.rfl
@[simp] theorem beq_fin (a b : ℝ) : beq (fin a) (fin b) ↔ a = b := Iff.rfl
@[simp] theorem rint_fin (a : ℝ) : rint (fin a) = fin (rintR a) := rfl

private theorem add_comm' (a b : Fl) : a + b = b + a := by
  cases a <;> cases b <;> first | rfl | (simp [add_comm])

private theorem add_assoc' (a b c : Fl) : a + b + c = a + (b + c) := by
  cases a <;> cases b <;> cases c <;> first | rfl | (simp [add_assoc])

private theorem zero_add' (a : Fl) : 0 + a = a := by
  cases a <;> first | rfl | (simp [zero_def])

/-- Extended-real addition is commutative and associative (also with
infinities and NaN), so the order in which numpy sums does not matter. -/
instance : AddCommMonoid Fl where
  add_assoc := add_assoc'
  zero_add := zero_add'
  add_zero a := by rw [add_comm']; exact zero_add' a
  add_comm := add_comm'
  nsmul := nsmulRec

theorem mul_comm' (a b : Fl) : a * b = b * a := by
  cases a <;> cases b <;> first | rfl | (simp [mul_comm])

theorem sum_fin {ι : Type*} (s : Finset ι) (f : ι → ℝ) :
    (∑ i ∈ s, fin (f i)) = fin (∑ i ∈ s, f i) := by
  induction s using Finset.induction_on with
  | empty => rfl
  | insert a s ha ih => rw [Finset.sum_insert ha, Finset.sum_insert ha, ih, fin_add]

theorem list_sum_fin (l : List ℝ) : (l.map fin).sum = fin l.sum := by
  induction l with
  | nil => rfl
  | cons a l ih => simp [ih]

end

end Fl

end TF
