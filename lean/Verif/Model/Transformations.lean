import Verif.Num

/-! # Model of `pyqlaw/_transformations.py` -/

set_option linter.unusedSectionVars false

namespace PyQ
variable {α : Type} [Add α] [Sub α] [Mul α] [Div α] [Neg α] [NatCast α] [Pow α ℕ]
  [PyTrans α] [PyOrd α]

local notation "ℓ" n:max => (Nat.cast (n : ℕ) : α)

open PyTrans

/-- `_transformations.py:9-12` `rotmat1(phi)` -/
def rotmat1 (phi : α) : Fin 3 → Fin 3 → α :=
  ![![ℓ 1, ℓ 0, ℓ 0],
    ![ℓ 0, cos phi, sin phi],
    ![ℓ 0, -sin phi, cos phi]]

/-- `_transformations.py:15-18` `rotmat2(phi)` -/
def rotmat2 (phi : α) : Fin 3 → Fin 3 → α :=
  ![![cos phi, ℓ 0, -sin phi],
    ![ℓ 0, ℓ 1, ℓ 0],
    ![sin phi, ℓ 0, cos phi]]

/-- `_transformations.py:21-24` `rotmat3(phi)` -/
def rotmat3 (phi : α) : Fin 3 → Fin 3 → α :=
  ![![cos phi, sin phi, ℓ 0],
    ![-sin phi, cos phi, ℓ 0],
    ![ℓ 0, ℓ 0, ℓ 1]]

/-- `_transformations.py:27-29` `wrap(alpha)`: Python parses
`(alpha + np.pi) % 2.0 * np.pi - np.pi` as `(((alpha + pi) % 2.0) * pi) - pi`. -/
def wrap (alpha : α) : α := fmod (alpha + pi) (ℓ 2) * pi - pi

end PyQ
