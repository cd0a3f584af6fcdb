import Mathlib.Data.Nat.Cast.Defs
import Mathlib.Data.Fin.VecNotation

/-!
# Number interface of the model

The numeric code of pyqlaw is transcribed once, over a number type `α` that offers exactly the
operations the Python code uses. No laws are attached to these classes: a theorem that needs a law
asks for it explicitly (`OrdLaws`) or is stated for a concrete instance (`Ext K`, `ℝ`).
-/

namespace PyQ

/-- Python exceptions that the modelled code can raise. `outOfBounds` stands for numba's unchecked
read past the end of an array (undefined behaviour in the real program). -/
inductive PyErr
  | zeroDivision | valueError | unboundLocal | assertion | typeError | outOfBounds | attributeError
  | indexError
  deriving DecidableEq, Repr

/-- Transcendental and other elementary functions (numpy / sympy `lambdify`). -/
class PyTrans (α : Type) where
  pi : α
  sqrt : α → α
  sin : α → α
  cos : α → α
  tan : α → α
  arctan : α → α
  arccos : α → α
  exp : α → α
  /-- `np.arctan2(y, x)` -/
  arctan2 : α → α → α
  /-- `x ** y` with a floating exponent -/
  rpow : α → α → α
  /-- Python's `x % y` on floats -/
  fmod : α → α → α

/-- Comparisons (as Booleans, so that NaN can compare false), absolute value and sign. -/
class PyOrd (α : Type) where
  lt : α → α → Bool
  le : α → α → Bool
  eq : α → α → Bool
  abs : α → α
  sign : α → α

/-- The NaN constant `np.nan` and the test `np.isnan`. -/
class PyNan (α : Type) where
  nan : α
  isnan : α → Bool

/-- `sympy.diff` of a one-variable expression, evaluated at a point. -/
class SymDiff (α : Type) where
  diff : (α → α) → α → α

/-- Laws of IEEE-754 comparison (they mention no arithmetic): NaN is unordered, and the other
values are totally preordered by `le`, with `lt` its strict part. -/
class OrdLaws (α : Type) [PyOrd α] [PyNan α] : Prop where
  isnan_nan : PyNan.isnan (PyNan.nan : α) = true
  le_left : ∀ x y : α, PyOrd.le x y = true → PyNan.isnan x = false
  le_right : ∀ x y : α, PyOrd.le x y = true → PyNan.isnan y = false
  le_refl : ∀ x : α, PyNan.isnan x = false → PyOrd.le x x = true
  le_trans : ∀ x y z : α, PyOrd.le x y = true → PyOrd.le y z = true → PyOrd.le x z = true
  le_total : ∀ x y : α, PyNan.isnan x = false → PyNan.isnan y = false →
    PyOrd.le x y = true ∨ PyOrd.le y x = true
  lt_iff : ∀ x y : α, PyOrd.lt x y = true ↔
    (PyNan.isnan x = false ∧ PyNan.isnan y = false ∧ PyOrd.le y x = false)

section
variable {α : Type} [NatCast α] [Div α]

/-- A decimal literal `p/q` of the source, e.g. `0.5 = rat 1 2`, `1e-12 = rat 1 (10^12)`. -/
def rat (p q : ℕ) : α := (p : α) / (q : α)

end

section
variable {α : Type} [NatCast α] [Div α] [PyOrd α]

/-- Scalar division inside an `@njit` function: numba's default `error_model='python'` raises
`ZeroDivisionError` on a zero divisor. -/
def ndiv (x y : α) : Except PyErr α :=
  if PyOrd.eq y ((0 : ℕ) : α) then .error .zeroDivision else .ok (x / y)

end

section
variable {α : Type} [PyOrd α]

/-- Python/numba `max(a, b)`: the second argument only if it compares greater. -/
def pymax (a b : α) : α := if PyOrd.lt a b then b else a

/-- Python/numba `min(a, b)`: the second argument only if it compares smaller. -/
def pymin (a b : α) : α := if PyOrd.lt b a then b else a

/-- Python `max(list)`; `ValueError` on the empty list. -/
def pymaxList : List α → Except PyErr α
  | [] => .error .valueError
  | x :: xs => .ok (xs.foldl pymax x)

/-- Python `min(list)`; `ValueError` on the empty list. -/
def pyminList : List α → Except PyErr α
  | [] => .error .valueError
  | x :: xs => .ok (xs.foldl pymin x)

end

section
variable {α : Type} [PyOrd α] [PyNan α]

/-- `np.maximum`: propagates NaN. -/
def npmax (a b : α) : α :=
  if PyNan.isnan a then a else if PyNan.isnan b then b else if PyOrd.lt a b then b else a

/-- `np.minimum`: propagates NaN. -/
def npmin (a b : α) : α :=
  if PyNan.isnan a then a else if PyNan.isnan b then b else if PyOrd.lt b a then b else a

/-- `np.clip(x, lo, hi) = np.minimum(np.maximum(x, lo), hi)`. -/
def npclip (x lo hi : α) : α := npmin (npmax x lo) hi

end

section vectors
variable {α : Type} [Add α] [Sub α] [Mul α] [Div α] [Pow α ℕ] [PyTrans α]

/-- elementwise sum of two arrays -/
def vadd {n : ℕ} (v w : Fin n → α) : Fin n → α := fun i => v i + w i
/-- elementwise difference of two arrays -/
def vsub {n : ℕ} (v w : Fin n → α) : Fin n → α := fun i => v i - w i
/-- scalar times array -/
def vsmul {n : ℕ} (c : α) (v : Fin n → α) : Fin n → α := fun i => c * v i
/-- array divided by scalar (a ufunc: never raises) -/
def vdivs {n : ℕ} (v : Fin n → α) (c : α) : Fin n → α := fun i => v i / c
/-- `np.dot` of two 3-vectors -/
def dot3 (v w : Fin 3 → α) : α := v 0 * w 0 + v 1 * w 1 + v 2 * w 2
/-- `np.cross` of two 3-vectors -/
def cross3 (v w : Fin 3 → α) : Fin 3 → α :=
  ![v 1 * w 2 - v 2 * w 1, v 2 * w 0 - v 0 * w 2, v 0 * w 1 - v 1 * w 0]
/-- `np.linalg.norm` of a 3-vector -/
def norm3 (v : Fin 3 → α) : α := PyTrans.sqrt (v 0 ^ 2 + v 1 ^ 2 + v 2 ^ 2)
/-- 3-by-3 matrix (function of row and column) times vector, `np.dot(M, v)` / `M @ v` -/
def mulVec3 (m : Fin 3 → Fin 3 → α) (v : Fin 3 → α) : Fin 3 → α := fun i => dot3 (m i) v
/-- `M.T` -/
def transpose3 (m : Fin 3 → Fin 3 → α) : Fin 3 → Fin 3 → α := fun i j => m j i

end vectors

section linspace
variable {α : Type} [Add α] [Sub α] [Mul α] [Div α] [NatCast α]

/-- `np.linspace(a, b, n)`: `a + k*step` with `step = (b-a)/(n-1)`, the last entry being exactly
`b` (for `n ≥ 2`); `[a + 0*...]` for `n = 1` (numpy returns `[a]`). -/
def linspace (a b : α) : ℕ → List α
  | 0 => []
  | 1 => [a]
  | n + 2 => (List.range (n + 1)).map
      (fun k : ℕ => (k : α) * ((b - a) / ((n + 1 : ℕ) : α)) + a) ++ [b]

end linspace

end PyQ
