import Verif.Num
import Mathlib.Algebra.Order.Field.Basic
import Mathlib.Tactic.Linarith
import Mathlib.Tactic.SplitIfs

/-!
# `Ext K`: exact arithmetic with NaN and infinities

IEEE-754 style special values on top of an ordered field `K`, without rounding and without signed
zeros (`1/0 = +inf`, `-1/0 = -inf`, `0/0 = nan`).
-/

set_option linter.unusedSectionVars false

namespace PyQ

/-- Numbers of an ordered field extended with `nan`, `+inf` and `-inf`. -/
inductive Ext (K : Type) where
  | nan | ninf | pinf
  | fin (x : K)
  deriving DecidableEq, Repr

namespace Ext
variable {K : Type}

section ops
variable [Field K] [LinearOrder K]

/-- IEEE addition (no rounding) -/
protected def add : Ext K → Ext K → Ext K
  | nan, _ => nan
  | _, nan => nan
  | fin a, fin b => fin (a + b)
  | fin _, y => y
  | x, fin _ => x
  | pinf, pinf => pinf
  | ninf, ninf => ninf
  | pinf, ninf => nan
  | ninf, pinf => nan

/-- IEEE negation -/
protected def neg : Ext K → Ext K
  | nan => nan
  | fin a => fin (-a)
  | pinf => ninf
  | ninf => pinf

/-- sign-based product with an infinity of sign `s` -/
def infMul (s : Bool) (a : K) : Ext K :=
  if a = 0 then nan else if decide (0 < a) = s then pinf else ninf

/-- IEEE multiplication (no rounding) -/
protected def mul : Ext K → Ext K → Ext K
  | nan, _ => nan
  | _, nan => nan
  | fin a, fin b => fin (a * b)
  | fin a, pinf => infMul true a
  | fin a, ninf => infMul false a
  | pinf, fin a => infMul true a
  | ninf, fin a => infMul false a
  | pinf, pinf => pinf
  | ninf, ninf => pinf
  | pinf, ninf => ninf
  | ninf, pinf => ninf

/-- IEEE division (no rounding, unsigned zero) -/
protected def div : Ext K → Ext K → Ext K
  | nan, _ => nan
  | _, nan => nan
  | fin a, fin b =>
      if b = 0 then (if a = 0 then nan else if 0 < a then pinf else ninf) else fin (a / b)
  | fin _, _ => fin 0
  | pinf, fin b => if b < 0 then ninf else pinf
  | ninf, fin b => if b < 0 then pinf else ninf
  | _, _ => nan

instance : Add (Ext K) := ⟨Ext.add⟩
instance : Neg (Ext K) := ⟨Ext.neg⟩
instance : Sub (Ext K) := ⟨fun x y => Ext.add x (Ext.neg y)⟩
instance : Mul (Ext K) := ⟨Ext.mul⟩
instance : Div (Ext K) := ⟨Ext.div⟩
instance : NatCast (Ext K) := ⟨fun n => fin (n : K)⟩
instance : Pow (Ext K) ℕ := ⟨fun x n => Nat.rec (fin 1) (fun _ y => Ext.mul y x) n⟩

/-- strict IEEE comparison -/
protected def lt : Ext K → Ext K → Bool
  | nan, _ => false
  | _, nan => false
  | fin a, fin b => decide (a < b)
  | ninf, ninf => false
  | ninf, _ => true
  | _, ninf => false
  | pinf, _ => false
  | fin _, pinf => true

/-- non-strict IEEE comparison -/
protected def le : Ext K → Ext K → Bool
  | nan, _ => false
  | _, nan => false
  | fin a, fin b => decide (a ≤ b)
  | ninf, _ => true
  | _, ninf => false
  | _, pinf => true
  | pinf, fin _ => false

/-- IEEE equality -/
protected def eqb : Ext K → Ext K → Bool
  | nan, _ => false
  | _, nan => false
  | fin a, fin b => decide (a = b)
  | pinf, pinf => true
  | ninf, ninf => true
  | _, _ => false

/-- absolute value -/
protected def absv : Ext K → Ext K
  | nan => nan
  | fin a => fin (if a < 0 then -a else a)
  | _ => pinf

/-- `np.sign` -/
protected def sgn : Ext K → Ext K
  | nan => nan
  | fin a => if a < 0 then fin (-1) else if 0 < a then fin 1 else fin 0
  | pinf => fin 1
  | ninf => fin (-1)

instance : PyOrd (Ext K) := ⟨Ext.lt, Ext.le, Ext.eqb, Ext.absv, Ext.sgn⟩

instance : PyNan (Ext K) := ⟨nan, fun x => match x with | nan => true | _ => false⟩

end ops

section lemmas
variable [Field K] [LinearOrder K]

@[simp] theorem fin_add (a b : K) : (fin a + fin b : Ext K) = fin (a + b) := rfl
@[simp] theorem fin_sub (a b : K) : (fin a - fin b : Ext K) = fin (a - b) := by
  show fin (a + -b) = fin (a - b); rw [sub_eq_add_neg]
@[simp] theorem fin_mul (a b : K) : (fin a * fin b : Ext K) = fin (a * b) := rfl
@[simp] theorem fin_neg (a : K) : (-fin a : Ext K) = fin (-a) := rfl
theorem fin_div (a b : K) (h : b ≠ 0) : (fin a / fin b : Ext K) = fin (a / b) := by
  show Ext.div (fin a) (fin b) = _; simp [Ext.div, h]
@[simp] theorem natCast_eq (n : ℕ) : ((n : ℕ) : Ext K) = fin (n : K) := rfl
@[simp] theorem lt_fin (a b : K) : PyOrd.lt (fin a : Ext K) (fin b) = decide (a < b) := rfl
@[simp] theorem le_fin (a b : K) : PyOrd.le (fin a : Ext K) (fin b) = decide (a ≤ b) := rfl
@[simp] theorem eq_fin (a b : K) : PyOrd.eq (fin a : Ext K) (fin b) = decide (a = b) := rfl
@[simp] theorem isnan_fin (a : K) : PyNan.isnan (fin a : Ext K) = false := rfl
@[simp] theorem isnan_nan : PyNan.isnan (nan : Ext K) = true := rfl
@[simp] theorem pynan_eq : (PyNan.nan : Ext K) = nan := rfl
@[simp] theorem nan_lt (x : Ext K) : PyOrd.lt (nan : Ext K) x = false := rfl
@[simp] theorem lt_nan (x : Ext K) : PyOrd.lt x (nan : Ext K) = false := by cases x <;> rfl
@[simp] theorem nan_le (x : Ext K) : PyOrd.le (nan : Ext K) x = false := rfl
@[simp] theorem le_nan (x : Ext K) : PyOrd.le x (nan : Ext K) = false := by cases x <;> rfl

variable [IsStrictOrderedRing K]

theorem abs_fin (a : K) : PyOrd.abs (fin a : Ext K) = fin |a| := by
  show fin (if a < 0 then -a else a) = fin |a|
  split_ifs with h
  · rw [abs_of_neg h]
  · rw [abs_of_nonneg (not_lt.mp h)]

theorem sign_pos {a : K} (h : 0 < a) : PyOrd.sign (fin a : Ext K) = fin 1 := by
  show (if a < 0 then fin (-1) else if 0 < a then fin 1 else fin 0) = _
  rw [if_neg (not_lt.mpr h.le), if_pos h]

theorem sign_neg {a : K} (h : a < 0) : PyOrd.sign (fin a : Ext K) = fin (-1) := by
  show (if a < 0 then fin (-1) else if 0 < a then fin 1 else fin 0) = _
  rw [if_pos h]

/-- The comparison of `Ext K` satisfies the IEEE laws. -/
instance : OrdLaws (Ext K) where
  isnan_nan := rfl
  le_left := by intro x y; cases x <;> cases y <;> simp [PyOrd.le, Ext.le, PyNan.isnan]
  le_right := by intro x y; cases x <;> cases y <;> simp [PyOrd.le, Ext.le, PyNan.isnan]
  le_refl := by intro x; cases x <;> simp [PyOrd.le, Ext.le, PyNan.isnan]
  le_trans := by
    intro x y z
    cases x <;> cases y <;> cases z <;> simp [PyOrd.le, Ext.le]
    exact _root_.le_trans
  le_total := by
    intro x y
    cases x <;> cases y <;> simp [PyOrd.le, Ext.le, PyNan.isnan]
    exact _root_.le_total _ _
  lt_iff := by
    intro x y
    cases x <;> cases y <;> simp [PyOrd.lt, PyOrd.le, Ext.lt, Ext.le, PyNan.isnan]

end lemmas
end Ext
end PyQ
