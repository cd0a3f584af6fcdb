import Verif.Ext

/-!
# `Rd K`: rounded arithmetic

Floating-point numbers as the representable elements of an ordered field `K` with `nan`, `+inf` and `-inf`:
every operation is the exact one followed by rounding. The rounding `rnd` is any monotone, odd, idempotent map
from `K` to `Ext K` (it may overflow to an infinity) that keeps 0 and 1; IEEE-754 round-to-nearest is one
(`Binary.lean`), and so is no rounding at all. There are no signed zeros. `**` and the elementary functions are
parameters.
-/

set_option linter.unusedSectionVars false

namespace PyQ

/-- a rounding rule -/
class Rounding (K : Type) [Field K] [LinearOrder K] where
  rnd : K → Ext K
  zero : rnd 0 = .fin 0
  one : rnd 1 = .fin 1
  mono : ∀ a b, a ≤ b → PyOrd.le (rnd a) (rnd b) = true
  odd : ∀ a, rnd (-a) = -rnd a
  idem : ∀ a b, rnd a = .fin b → rnd b = .fin b

section
variable {K : Type} [Field K] [LinearOrder K] [Rounding K]

open Rounding

/-- rounding of an extended number -/
def roundE : Ext K → Ext K
  | .fin a => rnd a
  | x => x

@[simp] theorem roundE_fin (a : K) : roundE (.fin a) = rnd a := rfl
@[simp] theorem roundE_nan : roundE (.nan : Ext K) = .nan := rfl
@[simp] theorem roundE_pinf : roundE (.pinf : Ext K) = .pinf := rfl
@[simp] theorem roundE_ninf : roundE (.ninf : Ext K) = .ninf := rfl

theorem roundE_idem (x : Ext K) : roundE (roundE x) = roundE x := by
  cases x with
  | fin a =>
    rw [roundE_fin]
    cases h : rnd a with
    | fin b => exact idem a b h
    | nan => rfl
    | pinf => rfl
    | ninf => rfl
  | _ => rfl

end

/-- the representable numbers -/
structure Rd (K : Type) [Field K] [LinearOrder K] [Rounding K] where
  val : Ext K
  rep : roundE val = val

namespace Rd
variable {K : Type} [Field K] [LinearOrder K] [Rounding K]

open Rounding

@[ext] theorem ext' {x y : Rd K} (h : x.val = y.val) : x = y := by
  cases x; cases y; cases h; rfl

/-- the float next to an extended number -/
def of (x : Ext K) : Rd K := ⟨roundE x, roundE_idem x⟩

instance : Add (Rd K) := ⟨fun x y => of (x.val + y.val)⟩
instance : Sub (Rd K) := ⟨fun x y => of (x.val - y.val)⟩
instance : Mul (Rd K) := ⟨fun x y => of (x.val * y.val)⟩
instance : Div (Rd K) := ⟨fun x y => of (x.val / y.val)⟩
instance : Neg (Rd K) := ⟨fun x => of (-x.val)⟩
instance : NatCast (Rd K) := ⟨fun n => of (n : Ext K)⟩
instance : PyOrd (Rd K) where
  lt x y := PyOrd.lt x.val y.val
  le x y := PyOrd.le x.val y.val
  eq x y := PyOrd.eq x.val y.val
  abs x := of (PyOrd.abs x.val)
  sign x := of (PyOrd.sign x.val)
instance : PyNan (Rd K) := ⟨⟨.nan, rfl⟩, fun x => PyNan.isnan x.val⟩

@[simp] theorem val_of (x : Ext K) : (of x).val = roundE x := rfl
@[simp] theorem val_add (x y : Rd K) : (x + y).val = roundE (x.val + y.val) := rfl
@[simp] theorem val_sub (x y : Rd K) : (x - y).val = roundE (x.val - y.val) := rfl
@[simp] theorem val_mul (x y : Rd K) : (x * y).val = roundE (x.val * y.val) := rfl
@[simp] theorem val_div (x y : Rd K) : (x / y).val = roundE (x.val / y.val) := rfl
@[simp] theorem val_natCast (n : ℕ) : ((n : ℕ) : Rd K).val = roundE (n : Ext K) := rfl
@[simp] theorem lt_val (x y : Rd K) : PyOrd.lt x y = PyOrd.lt x.val y.val := rfl
@[simp] theorem le_val (x y : Rd K) : PyOrd.le x y = PyOrd.le x.val y.val := rfl
@[simp] theorem eq_val (x y : Rd K) : PyOrd.eq x y = PyOrd.eq x.val y.val := rfl
@[simp] theorem isnan_val (x : Rd K) : PyNan.isnan x = PyNan.isnan x.val := rfl
@[simp] theorem val_nan : (PyNan.nan : Rd K).val = .nan := rfl
theorem abs_val (x : Rd K) : (PyOrd.abs x).val = roundE (PyOrd.abs x.val) := rfl
theorem sign_val (x : Rd K) : (PyOrd.sign x).val = roundE (PyOrd.sign x.val) := rfl
@[simp] theorem val_zero : ((0 : ℕ) : Rd K).val = .fin 0 := by
  simp [zero]

/-- finite floats are fixed by rounding -/
theorem rep_fin {x : Rd K} {a : K} (h : x.val = .fin a) : rnd a = .fin a := by
  have := x.rep
  rwa [h] at this

variable [IsStrictOrderedRing K]

/-- absolute values are exact -/
theorem val_abs (x : Rd K) : (PyOrd.abs x).val = PyOrd.abs x.val := by
  rw [abs_val]
  cases h : x.val with
  | fin a =>
    have ha := rep_fin h
    show roundE (.fin (if a < 0 then -a else a)) = .fin (if a < 0 then -a else a)
    rw [roundE_fin]
    split_ifs
    · rw [odd, ha]; rfl
    · exact ha
  | nan => rfl
  | pinf => rfl
  | ninf => rfl

/-- signs are exact -/
theorem val_sign (x : Rd K) : (PyOrd.sign x).val = PyOrd.sign x.val := by
  rw [sign_val]
  have h1 : rnd (-1 : K) = .fin (-1) := by rw [odd, one]; rfl
  cases h : x.val with
  | fin a =>
    show roundE (if a < 0 then .fin (-1) else if 0 < a then .fin 1 else .fin 0) =
      (if a < 0 then .fin (-1) else if 0 < a then .fin 1 else .fin 0)
    split_ifs
    · exact h1
    · exact one
    · exact zero
  | nan => rfl
  | pinf => exact one
  | ninf => exact h1

instance : OrdLaws (Rd K) where
  isnan_nan := rfl
  le_left x y h := OrdLaws.le_left x.val y.val h
  le_right x y h := OrdLaws.le_right x.val y.val h
  le_refl x h := OrdLaws.le_refl x.val h
  le_trans x y z h1 h2 := OrdLaws.le_trans x.val y.val z.val h1 h2
  le_total x y h1 h2 := OrdLaws.le_total x.val y.val h1 h2
  lt_iff x y := OrdLaws.lt_iff x.val y.val

/-- rounding is monotone for extended numbers -/
theorem roundE_mono {x y : Ext K} (h : PyOrd.le x y = true) :
    PyOrd.le (roundE x) (roundE y) = true := by
  have hn : ∀ a : K, rnd a ≠ .nan := by
    intro a ha
    have := mono a a le_rfl
    rw [ha] at this
    cases this
  cases x with
  | nan => cases h
  | ninf =>
    cases y with
    | nan => cases h
    | fin b =>
      rw [roundE_fin, roundE_ninf]
      cases hb : rnd b with
      | nan => exact absurd hb (hn b)
      | _ => rfl
    | _ => rfl
  | pinf =>
    cases y with
    | pinf => rfl
    | _ => cases h
  | fin a =>
    cases y with
    | nan => cases h
    | ninf => cases h
    | pinf =>
      rw [roundE_fin, roundE_pinf]
      cases ha : rnd a with
      | nan => exact absurd ha (hn a)
      | _ => rfl
    | fin b => exact mono a b (by simpa using h)

/-- a sum with a non-negative number is not smaller -/
theorem le_add_of_nonneg {x y : Rd K} {a : K} (hx : x.val = .fin a)
    (hy : PyOrd.le ((0 : ℕ) : Rd K) y = true) : PyOrd.le x (x + y) = true := by
  rw [le_val, val_zero] at hy
  rw [le_val, val_add, hx]
  have ha := rep_fin hx
  rw [← ha, ← roundE_fin]
  apply roundE_mono
  rw [roundE_fin, ha]
  cases hb : y.val with
  | nan => rw [hb] at hy; cases hy
  | ninf => rw [hb] at hy; cases hy
  | pinf => rfl
  | fin b =>
    rw [hb] at hy
    simp only [Ext.le_fin, decide_eq_true_eq, Ext.fin_add] at hy ⊢
    linarith

end Rd
end PyQ
