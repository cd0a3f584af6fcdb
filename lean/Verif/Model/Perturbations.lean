import Verif.Model.Elements

/-! # Model of `pyqlaw/_perturbations.py` -/

set_option linter.unusedSectionVars false

namespace PyQ
variable {α : Type} [Add α] [Sub α] [Mul α] [Div α] [Neg α] [NatCast α] [Pow α ℕ]
  [PyTrans α] [PyOrd α]

local notation "ℓ" n:max => (Nat.cast (n : ℕ) : α)

open PyTrans

/-- `_perturbations.py:10-26` -/
def perturbationThirdBodyBattin (r s : Fin 3 → α) (muThird : α) : Except PyErr (Fin 3 → α) := do
  let d := vsub r s
  let dnorm := sqrt (dot3 d d)
  let q ← ndiv (dot3 r (vsub r (vsmul (ℓ 2) s))) (dot3 s s)
  let w ← ndiv (ℓ 3 + ℓ 3 * q + q ^ 2) (ℓ 1 + sqrt (ℓ 1 + q) ^ 3)
  let F := q * w
  let c ← ndiv (-muThird) (dnorm ^ 3)
  pure (vsmul c (vadd r (vsmul F s)))

/-- `_perturbations.py:29-51` -/
def perturbationJ2 (rECI : Fin 3 → α) (T : Fin 3 → Fin 3 → α) (mu J2 Re : α) :
    Except PyErr (Fin 3 → α) := do
  let r := norm3 rECI
  let coeff ← ndiv (-ℓ 3 * mu * J2 * Re ^ 2) (ℓ 2 * r ^ 5)
  let rPA := mulVec3 T rECI
  let aPA := vsmul coeff ![
    (ℓ 1 - ℓ 5 * rPA 2 ^ 2) * rPA 0,
    (ℓ 1 - ℓ 5 * rPA 2 ^ 2) * rPA 1,
    (ℓ 3 - ℓ 5 * rPA 2 ^ 2) * rPA 2]
  pure (mulVec3 (transpose3 T) aPA)

/-- `_perturbations.py:54-65` (not compiled: numpy division, never raises) -/
def perturbationSRP (rSun2sc : Fin 3 → α) (AU kSrp : α) : Fin 3 → α :=
  vdivs (vsmul (kSrp * AU ^ 2) rSun2sc) (norm3 rSun2sc ^ 3)

/-- `_perturbations.py:68-88`: rows `er`, `et`, `en` -/
def pxformECI2RTN (rECI vECI : Fin 3 → α) : Fin 3 → Fin 3 → α :=
  let er := vdivs rECI (norm3 rECI)
  let h := cross3 rECI vECI
  let en := vdivs h (norm3 h)
  let et := cross3 en er
  ![er, et, en]

/-- What the code obtains from SPICE (`bodvrd`, `spkpos`, `pxform`, `convrt`), as parameters:
positions in km of a body at an epoch, the rotation to the principal-axes frame at an epoch, and
the length of the astronomical unit in km. -/
structure Spice (α : Type) where
  spkpos : String → α → Fin 3 → α
  pxform : α → Fin 3 → Fin 3 → α
  auKm : α

/-- The fields of `SpicePerturbations` used by `get_perturbations_RTN`,
`_perturbations.py:127-150`. `thirdBodies` is `zip(third_bodies_gms, third_bodies_names)`,
`none` when either list is `None` (then `zip` raises `TypeError`). -/
structure SpicePerturbations (α : Type) where
  etRef : α
  LU : α
  TU : α
  obsMu : α
  J2 : α
  Re : α
  kSrp : α
  useJ2 : Bool
  useSRP : Bool
  thirdBodies : Option (List (α × String))

/-- `SpicePerturbations.__init__`, `_perturbations.py:127-151`. `gm id` is
`spice.bodvrd(id, "GM", 1)[1][0]`. Scalar divisions here are plain Python: a zero `LU` or `TU`
raises `ZeroDivisionError`. -/
def SpicePerturbations.mk' (gm : String → α) (etRef LU TU : α) (obsId : String)
    (names : Option (List String)) (gms : Option (List α)) (J2 ReKm pSRP crSRP amSI : α)
    (useJ2 useSRP : Bool) : Except PyErr (SpicePerturbations α) := do
  let re ← ndiv ReKm LU
  let acc ← ndiv (ℓ 1000 * LU) (TU ^ 2)
  let k ← ndiv (pSRP * crSRP * amSI) acc
  let vu ← ndiv LU TU
  let muRef := LU * vu ^ 2
  let obsMu ← ndiv (gm obsId) muRef
  let gms' : Option (List α) ←
    match gms, names with
    | none, some ns => do
        let l ← ns.mapM (fun id => ndiv (gm id) muRef)
        pure (some l)
    | g, _ => pure g
  pure { etRef := etRef, LU := LU, TU := TU, obsMu := obsMu, J2 := J2, Re := re, kSrp := k,
         useJ2 := useJ2, useSRP := useSRP,
         thirdBodies := match gms', names with
           | some gs, some ns => some (gs.zip ns)
           | _, _ => none }

/-- `_perturbations.py:153-195` for a Cartesian state already obtained from the elements
(lines 173-195). -/
def SpicePerturbations.fromCartesian (S : SpicePerturbations α) (sp : Spice α) (t : α)
    (rv : Fin 6 → α) : Except PyErr (Fin 3 → α) := do
  let r := svPos rv
  let acc0 : Fin 3 → α := ![ℓ 0, ℓ 0, ℓ 0]
  let et := S.etRef + t * S.TU
  let bodies ← match S.thirdBodies with
    | none => Except.error PyErr.typeError
    | some l => Except.ok l
  let acc1 ← bodies.foldlM (fun acc (b : α × String) => do
    let a3 ← perturbationThirdBodyBattin r (vdivs (sp.spkpos b.2 et) S.LU) b.1
    pure (vadd acc a3)) acc0
  let acc2 ← (if S.useJ2 then do
      let aj ← perturbationJ2 r (sp.pxform et) S.obsMu S.J2 S.Re
      pure (vadd acc1 aj)
    else pure acc1)
  let acc3 := if S.useSRP then
      vadd acc2 (perturbationSRP (vsub r (vdivs (sp.spkpos "10" et) S.LU)) (sp.auKm / S.LU) S.kSrp)
    else acc2
  pure (mulVec3 (pxformECI2RTN r (svVel rv)) acc3)

/-- `get_perturbations_RTN(t, oe, elements_type)`, `_perturbations.py:153-195`; any other
`elements_type` string raises `ValueError`. -/
def SpicePerturbations.getPerturbationsRTN (S : SpicePerturbations α) (sp : Spice α) (t : α)
    (oe : Fin 6 → α) (elementsType : String) : Except PyErr (Fin 3 → α) := do
  let rv ← if elementsType = "keplerian" then kep2sv oe S.obsMu
    else if elementsType = "mee_with_a" then meeWithA2sv oe S.obsMu
    else Except.error PyErr.valueError
  S.fromCartesian sp t rv

end PyQ
