import Verif.Model.Transformations

/-! # Model of `pyqlaw/_elements.py`

All functions are `@njit`: scalar divisions are checked (`ndiv`), array-by-scalar divisions are not. -/

set_option linter.unusedSectionVars false

namespace PyQ
variable {α : Type} [Add α] [Sub α] [Mul α] [Div α] [Neg α] [NatCast α] [Pow α ℕ]
  [PyTrans α] [PyOrd α]

local notation "ℓ" n:max => (Nat.cast (n : ℕ) : α)

open PyTrans

/-- `state[0:3]` -/
def svPos (s : Fin 6 → α) : Fin 3 → α := ![s 0, s 1, s 2]
/-- `state[3:6]` -/
def svVel (s : Fin 6 → α) : Fin 3 → α := ![s 3, s 4, s 5]

/-- `_elements.py:11-27` -/
def getInclination (state : Fin 6 → α) : Except PyErr α := do
  let h := cross3 (svPos state) (svVel state)
  let c ← ndiv (h 2) (norm3 h)
  pure (arccos c)

/-- `_elements.py:30-50` -/
def getRaan (state : Fin 6 → α) : α :=
  let h := cross3 (svPos state) (svVel state)
  let zdir : Fin 3 → α := ![ℓ 0, ℓ 0, ℓ 1]
  let ndir := cross3 zdir h
  arctan2 (ndir 1) (ndir 0)

/-- `_elements.py:53-74`: `(1/mu) * np.cross(v,h) - r/la.norm(r)` -/
def getEccentricity (state : Fin 6 → α) (mu : α) : Except PyErr (Fin 3 → α) := do
  let r := svPos state
  let v := svVel state
  let h := cross3 r v
  let invMu ← ndiv (ℓ 1) mu
  pure (vsub (vsmul invMu (cross3 v h)) (vdivs r (norm3 r)))

/-- `_elements.py:77-105` -/
def getOmega (state : Fin 6 → α) (mu : α) : Except PyErr α := do
  let r := svPos state
  let v := svVel state
  let h := cross3 r v
  let zdir : Fin 3 → α := ![ℓ 0, ℓ 0, ℓ 1]
  let ndir := cross3 zdir h
  let invMu ← ndiv (ℓ 1) mu
  let ecc := vsub (vsmul invMu (cross3 v h)) (vdivs r (norm3 r))
  if PyOrd.le (rat 1 (10 ^ 12)) (PyOrd.abs (norm3 ndir * norm3 ecc)) then
    let c ← ndiv (dot3 ndir ecc) (norm3 ndir * norm3 ecc)
    let omega := arccos c
    if PyOrd.lt (ecc 2) (ℓ 0) then
      pure (ℓ 2 * pi - omega)
    else
      pure omega
  else
    pure (arctan2 (ecc 1) (ecc 0))

/-- `_elements.py:108-126` -/
def getTrueanom (state : Fin 6 → α) (mu : α) : Except PyErr α := do
  let r := svPos state
  let v := svVel state
  let h := norm3 (cross3 r v)
  let vr ← ndiv (dot3 v r) (norm3 r)
  let q ← ndiv (h ^ 2) (norm3 r)
  pure (arctan2 (h * vr) (q - mu))

/-- `_elements.py:129-148` -/
def getSemiMajorAxis (state : Fin 6 → α) (mu : α) : Except PyErr α := do
  let h := norm3 (cross3 (svPos state) (svVel state))
  let eccv ← getEccentricity state mu
  let e := norm3 eccv
  ndiv (h ^ 2) (mu * (ℓ 1 - e ^ 2))

/-- `_elements.py:151-167` -/
def getPeriod (state : Fin 6 → α) (mu : α) : Except PyErr α := do
  let a ← getSemiMajorAxis state mu
  if PyOrd.lt a (ℓ 0) then
    pure (-ℓ 1)
  else
    let q ← ndiv (a ^ 3) mu
    pure (ℓ 2 * pi * sqrt q)

/-- `_elements.py:170-188` -/
def sv2kep (state : Fin 6 → α) (mu : α) : Except PyErr (Fin 6 → α) := do
  let sma ← getSemiMajorAxis state mu
  let eccv ← getEccentricity state mu
  let ecc := norm3 eccv
  let inc ← getInclination state
  let raan := getRaan state
  let aop ← getOmega state mu
  let ta ← getTrueanom state mu
  pure ![sma, ecc, inc, raan, aop, ta]

/-- `_elements.py:191-228`. The three blocks `if angle != 0.0: rotate else: copy` are kept. -/
def kep2sv (kep : Fin 6 → α) (mu : α) : Except PyErr (Fin 6 → α) := do
  let sma := kep 0
  let ecc := kep 1
  let inc := kep 2
  let raan := kep 3
  let aop := kep 4
  let ta := kep 5
  let h := sqrt (sma * mu * (ℓ 1 - ecc ^ 2))
  let c ← ndiv (h ^ 2) (mu * (ℓ 1 + ecc * cos ta))
  let rPF := vsmul c ![cos ta, sin ta, ℓ 0]
  let m ← ndiv mu h
  let vPF := vsmul m ![-sin ta, ecc + cos ta, ℓ 0]
  let r1 := if !PyOrd.eq aop (ℓ 0) then mulVec3 (rotmat3 (-aop)) rPF else rPF
  let v1 := if !PyOrd.eq aop (ℓ 0) then mulVec3 (rotmat3 (-aop)) vPF else vPF
  let r2 := if !PyOrd.eq inc (ℓ 0) then mulVec3 (rotmat1 (-inc)) r1 else r1
  let v2 := if !PyOrd.eq inc (ℓ 0) then mulVec3 (rotmat1 (-inc)) v1 else v1
  let rI := if !PyOrd.eq raan (ℓ 0) then mulVec3 (rotmat3 (-raan)) r2 else r2
  let vI := if !PyOrd.eq raan (ℓ 0) then mulVec3 (rotmat3 (-raan)) v2 else v2
  pure ![rI 0, rI 1, rI 2, vI 0, vI 1, vI 2]

/-- `_elements.py:231-239`: the columns of the returned 6-by-`steps` array, in order. -/
def getOrbitCoordinates (oeKep : Fin 6 → α) (mu : α) (steps : ℕ) :
    Except PyErr (List (Fin 6 → α)) :=
  (linspace (ℓ 0) (ℓ 2 * pi) steps).mapM fun ta =>
    kep2sv ![oeKep 0, oeKep 1, oeKep 2, oeKep 3, oeKep 4, ta] mu

/-- `_elements.py:242-254` (no division: cannot raise) -/
def kep2mee (oeKep : Fin 6 → α) : Fin 6 → α :=
  let a := oeKep 0
  let e := oeKep 1
  let i := oeKep 2
  let raan := oeKep 3
  let om := oeKep 4
  let ta := oeKep 5
  ![a * (ℓ 1 - e ^ 2),
    e * cos (raan + om),
    e * sin (raan + om),
    tan (i / ℓ 2) * cos raan,
    tan (i / ℓ 2) * sin raan,
    raan + om + ta]

/-- `_elements.py:257-269` -/
def mee2kep (oeMee : Fin 6 → α) : Except PyErr (Fin 6 → α) := do
  let p := oeMee 0
  let f := oeMee 1
  let g := oeMee 2
  let h := oeMee 3
  let k := oeMee 4
  let l := oeMee 5
  let a ← ndiv p (ℓ 1 - f ^ 2 - g ^ 2)
  let e := sqrt (f ^ 2 + g ^ 2)
  let i := arctan2 (ℓ 2 * sqrt (h ^ 2 + k ^ 2)) (ℓ 1 - h ^ 2 - k ^ 2)
  let raan := arctan2 k h
  let om := arctan2 (g * h - f * k) (f * h + g * k)
  let ta := l - raan - om
  pure ![a, e, i, raan, om, ta]

/-- `_elements.py:272-277` -/
def meeWithA2mee (x : Fin 6 → α) : Fin 6 → α :=
  ![x 0 * (ℓ 1 - x 1 ^ 2 - x 2 ^ 2), x 1, x 2, x 3, x 4, x 5]

/-- `_elements.py:280-282` -/
def meeWithA2kep (x : Fin 6 → α) : Except PyErr (Fin 6 → α) := mee2kep (meeWithA2mee x)

/-- `_elements.py:285-291` -/
def mee2meeWithA (oeMee : Fin 6 → α) : Except PyErr (Fin 6 → α) := do
  let a ← ndiv (oeMee 0) (ℓ 1 - oeMee 1 ^ 2 - oeMee 2 ^ 2)
  pure ![a, oeMee 1, oeMee 2, oeMee 3, oeMee 4, oeMee 5]

/-- `_elements.py:294-306` -/
def kep2meeWithA (oeKep : Fin 6 → α) : Fin 6 → α :=
  let a := oeKep 0
  let e := oeKep 1
  let i := oeKep 2
  let raan := oeKep 3
  let om := oeKep 4
  let ta := oeKep 5
  ![a,
    e * cos (raan + om),
    e * sin (raan + om),
    tan (i / ℓ 2) * cos raan,
    tan (i / ℓ 2) * sin raan,
    raan + om + ta]

/-- `_elements.py:309-315` -/
def meeWithA2sv (x : Fin 6 → α) (mu : α) : Except PyErr (Fin 6 → α) := do
  let mee : Fin 6 → α := ![x 0 * (ℓ 1 - x 1 ^ 2 - x 2 ^ 2), x 1, x 2, x 3, x 4, x 5]
  let kep ← mee2kep mee
  kep2sv kep mu

/-- `_elements.py:318-322` -/
def ta2ea (ta ecc : α) : Except PyErr α := do
  let q ← ndiv (ℓ 1 - ecc) (ℓ 1 + ecc)
  pure (ℓ 2 * arctan (sqrt q * tan (ta / ℓ 2)))

/-- `_elements.py:325-329` -/
def mee2ea (mee : Fin 6 → α) : Except PyErr α :=
  let ecc := sqrt (mee 1 ^ 2 + mee 2 ^ 2)
  let ta := mee 5 - arctan2 (mee 2) (mee 1)
  ta2ea ta ecc

end PyQ
