import Verif.Ext
import Mathlib.Data.Rat.Floor
import Mathlib.Algebra.Order.Ring.Rat
import Mathlib.Algebra.Field.Rat
import Verif.Model.Qlaw

/-!
# A number type that the kernel can compute with

`Ext ℚ` with rational approximations of the elementary functions (about nine digits). It is used
only to *exhibit* runs of the model (satisfiability examples and counterexample runs): theorems
about `Ext K` leave the elementary functions arbitrary. All recursion is structural so that
`decide +kernel` can evaluate.
-/

namespace PyQ
namespace RatNum

/-- `10^12`, the denominator of the grid to which elementary functions round -/
def scale : ℕ := 1000000000000

/-- round down to a multiple of `10^-12` -/
def rnd (x : ℚ) : ℚ := mkRat (x.num * scale / x.den) scale

/-- Newton iteration for integer square roots -/
def isqrtIter (n : ℕ) : ℕ → ℕ → ℕ
  | 0, x => x
  | k + 1, x => let y := (x + n / x) / 2; if y < x then isqrtIter n k y else x

/-- integer square root -/
def isqrt (n : ℕ) : ℕ := if n = 0 then 0 else isqrtIter n 200 (2 ^ (n.log2 / 2 + 1))

/-- square root of a non-negative rational -/
def sqrtQ (x : ℚ) : ℚ := mkRat (isqrt (x.num.toNat * scale ^ 2 / x.den)) scale

/-- `π` -/
def piQ : ℚ := mkRat 3141592653590 1000000000000

/-- reduce an angle to `[-π, π)` -/
def reduceAngle (x : ℚ) : ℚ := rnd (x - 2 * piQ * ((x + piQ) / (2 * piQ)).floor)

/-- `Σ (-1)^k x^(2k+s)/(2k+s)!`, starting from term `t` -/
def altSeries (x2 : ℚ) : ℕ → ℕ → ℚ → ℚ → ℚ
  | 0, _, _, acc => acc
  | n + 1, k, t, acc => altSeries x2 n (k + 2) (rnd (-t * x2 / ((k + 1) * (k + 2) : ℕ))) (acc + t)

/-- sine -/
def sinQ (x : ℚ) : ℚ := let y := reduceAngle x; rnd (altSeries (rnd (y * y)) 14 1 y 0)
/-- cosine -/
def cosQ (x : ℚ) : ℚ := let y := reduceAngle x; rnd (altSeries (rnd (y * y)) 14 0 1 0)

/-- arctangent series for small argument -/
def atanSeries (x2 : ℚ) : ℕ → ℕ → ℚ → ℚ → ℚ
  | 0, _, _, acc => acc
  | n + 1, k, t, acc => atanSeries x2 n (k + 2) (rnd (-t * x2)) (acc + t / (k : ℕ))

/-- arctangent of a number in `[-1, 1]` by two argument halvings -/
def atanSmall (x : ℚ) : ℚ :=
  let y := rnd (x / (1 + sqrtQ (1 + x * x)))
  let z := rnd (y / (1 + sqrtQ (1 + y * y)))
  rnd (4 * atanSeries (rnd (z * z)) 20 1 z 0)

/-- arctangent -/
def atanQ (x : ℚ) : ℚ :=
  if 1 < x then piQ / 2 - atanSmall (1 / x)
  else if x < -1 then -(piQ / 2) - atanSmall (1 / x)
  else atanSmall x

/-- `arctan2` -/
def atan2Q (y x : ℚ) : ℚ :=
  if 0 < x then atanQ (y / x)
  else if x < 0 then (if 0 ≤ y then atanQ (y / x) + piQ else atanQ (y / x) - piQ)
  else if 0 < y then piQ / 2 else if y < 0 then -(piQ / 2) else 0

/-- exponential series -/
def expSeries (x : ℚ) : ℕ → ℕ → ℚ → ℚ → ℚ
  | 0, _, _, acc => acc
  | n + 1, k, t, acc => expSeries x n (k + 1) (rnd (t * x / ((k + 1 : ℕ)))) (acc + t)

/-- repeated squaring -/
def sqTimes : ℕ → ℚ → ℚ
  | 0, x => x
  | n + 1, x => sqTimes n (rnd (x * x))

/-- exponential, arguments up to about `64` -/
def expQ (x : ℚ) : ℚ := if x < -25 then 0 else sqTimes 6 (expSeries (x / 64) 12 0 1 0)

/-- repeated square root -/
def sqrtTimes : ℕ → ℚ → ℚ
  | 0, x => x
  | n + 1, x => sqrtTimes n (sqrtQ x)

/-- `artanh` series -/
def atanhSeries (x2 : ℚ) : ℕ → ℕ → ℚ → ℚ → ℚ
  | 0, _, _, acc => acc
  | n + 1, k, t, acc => atanhSeries x2 n (k + 2) (rnd (t * x2)) (acc + t / (k : ℕ))

/-- logarithm of a positive rational -/
def logQ (x : ℚ) : ℚ :=
  let y := sqrtTimes 4 x
  let z := rnd ((y - 1) / (y + 1))
  rnd (32 * atanhSeries (rnd (z * z)) 20 1 z 0)

/-- lift a function to `Ext ℚ`, `nan` outside the finite numbers -/
def lift (f : ℚ → ℚ) : Ext ℚ → Ext ℚ
  | .fin x => .fin (f x)
  | _ => .nan

/-- square root on `Ext ℚ` -/
def sqrtE : Ext ℚ → Ext ℚ
  | .fin x => if x < 0 then .nan else .fin (sqrtQ x)
  | .pinf => .pinf
  | _ => .nan

/-- arctangent on `Ext ℚ` -/
def atanE : Ext ℚ → Ext ℚ
  | .fin x => .fin (atanQ x)
  | .pinf => .fin (piQ / 2)
  | .ninf => .fin (-(piQ / 2))
  | .nan => .nan

/-- `arctan2` on `Ext ℚ` (infinite arguments give `nan`: a simplification) -/
def atan2E : Ext ℚ → Ext ℚ → Ext ℚ
  | .fin y, .fin x => .fin (atan2Q y x)
  | _, _ => .nan

/-- arccosine on `Ext ℚ` -/
def acosE : Ext ℚ → Ext ℚ
  | .fin x => if x < -1 ∨ 1 < x then .nan
      else .fin (rnd (2 * atan2Q (sqrtQ (1 - x)) (sqrtQ (1 + x))))
  | _ => .nan

/-- exponential on `Ext ℚ` -/
def expE : Ext ℚ → Ext ℚ
  | .fin x => .fin (expQ x)
  | .pinf => .pinf
  | .ninf => .fin 0
  | .nan => .nan

/-- `x ** y`: integer exponents exactly, other exponents by logarithm -/
def rpowE : Ext ℚ → Ext ℚ → Ext ℚ
  | .fin x, .fin y =>
    if y.den = 1 ∧ 0 ≤ y.num then .fin (rnd (x ^ y.num.toNat))
    else if x < 0 then .nan
    else if x = 0 then (if 0 < y then .fin 0 else .pinf)
    else .fin (expQ (rnd (y * logQ x)))
  | _, _ => .nan

/-- Python `%` for a positive modulus -/
def fmodE : Ext ℚ → Ext ℚ → Ext ℚ
  | .fin x, .fin y => if y = 0 then .nan else .fin (x - y * (x / y).floor)
  | _, _ => .nan

/-- `sin/cos` -/
def tanE : Ext ℚ → Ext ℚ
  | .fin x => (.fin (sinQ x) : Ext ℚ) / .fin (cosQ x)
  | _ => .nan

/-- central difference quotient -/
def diffE (f : Ext ℚ → Ext ℚ) (x : Ext ℚ) : Ext ℚ :=
  match (f (x + .fin (mkRat 1 1000)) - f (x - .fin (mkRat 1 1000))) / .fin (mkRat 2 1000) with
  | .fin y => .fin (rnd y)
  | y => y

instance : PyTrans (Ext ℚ) where
  pi := .fin piQ
  sqrt := sqrtE
  sin := lift sinQ
  cos := lift cosQ
  tan := tanE
  arctan := atanE
  arccos := acosE
  exp := expE
  arctan2 := atan2E
  rpow := rpowE
  fmod := fmodE

instance : SymDiff (Ext ℚ) := ⟨diffE⟩

instance : PyInf (Ext ℚ) := ⟨.pinf⟩

end RatNum
end PyQ
