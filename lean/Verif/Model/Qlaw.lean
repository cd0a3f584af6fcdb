import Verif.Model.Elements
import Verif.Model.Eom
import Verif.Model.Integrate
import Verif.Model.Convergence
import Verif.Model.Symbolic

/-!
# Model of `pyqlaw/_qlaw.py`: construction, setters, `set_problem`, `solve`

* `self.eom`, `self.lyap_fun`, `self.dqdt_fun`, `self.check_convergence` are function-valued
  attributes chosen by the constructor; they are the fields of `Dyn`. The loop uses whatever is stored there.
* The loop body is split at the comments of the source into phases; each cites its lines.
* `oe_iter` and `states[-1]` are one numpy object: the in-place clamp updates both `oe` and the last
  entry of `states`. Before the first step that object is also the caller's `oe0`.
* Printing (`verbosity`, `print_frequency`, `idx`) is left to `Model/Progress.lean`.
* Scalars inside `solve` are numpy floats (`np.sign(...)`, `np.clip(...)`, array entries), so `/` does not raise.
-/

set_option linter.unusedSectionVars false

namespace PyQ

/-- the two strings accepted by the `elements_type` setter, `_qlaw.py:230-234` -/
inductive ElemType | keplerian | meeWithA
  deriving DecidableEq, Repr

/-- the two strings accepted by the `integrator` setter, `_qlaw.py:240-244` -/
inductive Integrator | rk4 | rkf45
  deriving DecidableEq, Repr

/-- `_qlaw.py:232` -/
def ElemType.ofString : String → Except PyErr ElemType
  | "keplerian" => .ok .keplerian
  | "mee_with_a" => .ok .meeWithA
  | _ => .error .assertion

/-- `_qlaw.py:242` -/
def Integrator.ofString : String → Except PyErr Integrator
  | "rk4" => .ok .rk4
  | "rkf45" => .ok .rkf45
  | _ => .error .assertion

/-- the function-valued attributes chosen at `_qlaw.py:173-187` -/
structure Dyn (α : Type) where
  eom : α → (Fin 6 → α) → OdeParams α → Except PyErr (Fin 6 → α)
  lyapFun : LyapArgs α → LyapOut α
  dqdtFun : LyapArgs α → α
  checkConv : (Fin 6 → α) → (Fin 5 → α) → (Fin 5 → α) → (Fin 5 → α) → Bool

/-- attributes set by the constructor and read by `solve`, `_qlaw.py:123-205`. `perturbations` is
the method `get_perturbations_RTN` of the perturbation object, if any (any function, may raise). -/
structure Config (α : Type) where
  mu : α
  rpmin : α
  kPetro : α
  mPetro : α
  nPetro : α
  rPetro : α
  bPetro : α
  wp : α
  elementsType : ElemType
  integrator : Integrator
  anomalyGridSize : ℕ
  tolOe : Fin 5 → α
  tolOeRelaxed : Fin 5 → α
  exitAtRelaxed : ℤ
  oeMin : List α
  oeMax : List α
  nanAnglesThreshold : ℤ
  stepMin : α
  stepMax : α
  odeTol : α
  useSundman : Bool
  perturbations : Option (α → (Fin 6 → α) → ElemType → Except PyErr (Fin 3 → α))
  dyn : Dyn α

/-- attributes set by `set_problem`, `_qlaw.py:284-313` -/
structure Problem (α : Type) where
  oe0 : Fin 6 → α
  oeT : List α
  mass0 : α
  tmax : α
  mdot : α
  tfMax : α
  tStep : α
  massMin : α
  woe : Fin 5 → α
  dutyOn : α
  dutyOff : α
  batteryInitial : α
  capMin : α
  capMax : α
  chargeRate : α
  dischargeRate : α
  requireFullRecharge : Bool

/-- an `eta_a`/`eta_r` argument of `solve`: a float, a callable (pure, may raise), or anything
else, `_qlaw.py:332-339,469-477` -/
inductive EtaArg (α : Type)
  | flt (x : α)
  | fn (f : α → (Fin 6 → α) → α → α → Except PyErr α)
  | other

/-- everything `solve` reads -/
structure Env (α : Type) where
  cfg : Config α
  prob : Problem α
  etaA : EtaArg α
  etaR : EtaArg α

/-- the result attributes filled by `solve`, `_qlaw.py:348-356`; a control is
`[alpha, beta, throttle]` -/
structure Hist (α : Type) where
  times : List α
  states : List (Fin 6 → α)
  masses : List α
  battery : List α
  controls : List (α × α × ℕ)
  etas : List (α × α)
  etasBounds : List (α × α)
  qs : List α
  dqdts : List α

/-- local variables of the loop, `_qlaw.py:342-368`; `alpha`, `beta` are unbound (`none`) until
first assigned -/
structure LoopSt (α : Type) where
  t : α
  oe : Fin 6 → α
  mass : α
  battery : α
  hist : Hist α
  nRelaxed : ℕ
  nNan : ℕ
  duty : Bool
  tOn : α
  tOff : α
  charging : Bool
  alpha : Option α
  beta : Option α

/-- how one iteration of the `while` loop ends: next iteration, `break` with the exit code just
assigned, or an exception -/
inductive Outcome (α : Type)
  | cont (s : LoopSt α)
  | brk (s : LoopSt α) (code : ℤ)
  | err (s : LoopSt α) (e : PyErr)

/-- outcome of the control phase: a control for this step, or the NaN `break` -/
structure Ctl (α : Type) where
  alpha : Option α
  beta : Option α
  throttle : ℕ
  u : Fin 3 → α
  psi : Fin 3 → Fin 5 → α
  q : α
  qdot : α
  valA : α
  valR : α
  etaA : α
  etaR : α
  nNan : ℕ
  oeT : Fin 5 → α

/-- result of the control phase -/
inductive CtlRes (α : Type)
  | ctl (c : Ctl α)
  | nanBreak (nNan : ℕ)

variable {α : Type} [Add α] [Sub α] [Mul α] [Div α] [Neg α] [NatCast α] [Pow α ℕ]
  [PyTrans α] [PyOrd α] [PyNan α]

local notation "ℓ" n:max => (Nat.cast (n : ℕ) : α)

open PyTrans

/-- unpacking `oeT` into exactly five names in the lambdified functions (`_symbolic.py:38,159`);
any other length raises `ValueError` -/
def asVec5 : List α → Except PyErr (Fin 5 → α)
  | [a, b, c, d, e] => .ok ![a, b, c, d, e]
  | _ => .error .valueError

/-- `_qlaw.py:342-368` -/
def initLoop (P : Problem α) : LoopSt α where
  t := ℓ 0
  oe := P.oe0
  mass := P.mass0
  battery := P.batteryInitial
  hist := { times := [ℓ 0], states := [P.oe0], masses := [P.mass0], battery := [P.batteryInitial],
            controls := [], etas := [], etasBounds := [], qs := [], dqdts := [] }
  nRelaxed := 0
  nNan := 0
  duty := true
  tOn := ℓ 0
  tOff := ℓ 0
  charging := false
  alpha := none
  beta := none

/-- `times[-1]` -/
def Hist.lastTime (h : Hist α) : α := h.times.getLastD (ℓ 0)

/-- loop guard, `_qlaw.py:372` -/
def guardB (P : Problem α) (s : LoopSt α) : Bool :=
  PyOrd.lt (PyOrd.abs s.hist.lastTime) (PyOrd.abs P.tfMax)

/-- in-place clamp, `_qlaw.py:374-375`: `oe_iter` is the object `states[-1]` -/
def clampPhase (C : Config α) (s : LoopSt α) : Except PyErr (LoopSt α) :=
  match C.elementsType with
  | .keplerian => do
    let oe ← elementsSafety s.oe C.oeMin C.oeMax
    pure { s with oe := oe, hist := { s.hist with states := s.hist.states.dropLast ++ [oe] } }
  | .meeWithA => pure s

/-- Sundman time step from eccentricity, eccentric anomaly and period, `_qlaw.py:388-396` -/
def sundmanStep (tStep ecc E0 period : α) : α :=
  let E1 := E0 + tStep
  let M0 := E0 - ecc * sin E0
  let M1 := E1 - ecc * sin E1
  if PyOrd.lt M0 M1 then
    (M1 / (ℓ 2 * pi) - M0 / (ℓ 2 * pi)) * period
  else
    (M1 / (ℓ 2 * pi) + ℓ 1 - M0 / (ℓ 2 * pi)) * period

/-- local time step before battery limits, `_qlaw.py:378-398` -/
def chooseStep (C : Config α) (P : Problem α) (oe : Fin 6 → α) : Except PyErr α :=
  if C.useSundman then
    match C.elementsType with
    | .keplerian => do
      let E0 ← ta2ea (oe 5) (oe 1)
      let period := ℓ 2 * pi * sqrt (oe 0 ^ 3 / C.mu)
      pure (sundmanStep P.tStep (oe 1) E0 period)
    | .meeWithA => do
      let ecc := sqrt (oe 1 ^ 2 + oe 2 ^ 2)
      let E0 ← mee2ea oe
      let period := ℓ 2 * pi * sqrt (oe 0 ^ 3 / C.mu)
      pure (sundmanStep P.tStep ecc E0 period)
  else
    pure P.tStep

/-- result of the duty/battery phase -/
structure DutyRes (α : Type) where
  duty : Bool
  tOn : α
  tOff : α
  charging : Bool
  step : α

/-- duty cycle and battery, `_qlaw.py:401-423`. The division at `:418` is not checked: with a zero
discharge rate the branch needs `battery < capacity[0]`, which the previous branch excludes. -/
def dutyPhase (P : Problem α) (s : LoopSt α) (step : α) : DutyRes α :=
  -- 401-403
  let off := PyOrd.lt P.dutyOn (s.t - s.tOn) && s.duty
  let duty1 := if off then false else s.duty
  let tOff1 := if off then s.t else s.tOff
  -- 405-407
  let on := PyOrd.lt P.dutyOff (s.t - tOff1) && !duty1
  let duty2 := if on then true else duty1
  let tOn2 := if on then s.t else s.tOn
  -- 410-413
  let floor := PyOrd.le s.battery (P.capMin + rat 1 (10 ^ 12))
  let duty3 := if floor then false else duty2
  let tOff3 := if floor then s.t else tOff1
  let charging3 := if floor then true else s.charging
  -- 416-418
  let short := !floor && PyOrd.lt (s.battery - P.dischargeRate * step) P.capMin && !charging3
  let step3 := if short then (s.battery - P.capMin) / P.dischargeRate else step
  -- 421-423
  let lock := P.requireFullRecharge && charging3 && PyOrd.lt s.battery P.capMax
  let duty4 := if lock then false else duty3
  { duty := duty4, tOn := tOn2, tOff := tOff3, charging := charging3, step := step3 }

/-- arguments of the generated functions as passed at `_qlaw.py:433-447` and `:634-642` -/
def lyapArgs (C : Config α) (P : Problem α) (oeT : Fin 5 → α) (accel : α) (oe : Fin 6 → α) :
    LyapArgs α :=
  { mu := C.mu, f := accel, oe := oe, oeT := oeT, rpmin := C.rpmin, m := C.mPetro, n := C.nPetro,
    r := C.rPetro, b := C.bPetro, k := C.kPetro, wp := C.wp, woe := P.woe }

/-- `evaluate_osculating_qdot`, `_qlaw.py:614-645`: returns `(max, min)` of the rate over the grid
(the caller names them `qdot_min, qdot_max`). -/
def evaluateOsculatingQdot (C : Config α) (P : Problem α) (oeT : Fin 5 → α) (oe : Fin 6 → α)
    (accel : α) : Except PyErr (α × α) := do
  let pts := (linspace (oe 5) (oe 5 + ℓ 2 * pi) (C.anomalyGridSize + 1)).drop 1
  let qdots := pts.map fun anomaly =>
    C.dyn.dqdtFun (lyapArgs C P oeT accel ![oe 0, oe 1, oe 2, oe 3, oe 4, anomaly])
  let mx ← pymaxList qdots
  let mn ← pyminList qdots
  pure (mx, mn)

/-- value of a threshold argument at a step, `_qlaw.py:469-477`; neither float nor callable leaves
the initial `nan` of line 430 -/
def evalEta (e : EtaArg α) (t : α) (oe : Fin 6 → α) (mass battery : α) : Except PyErr α :=
  match e with
  | .flt x => .ok x
  | .fn f => f t oe mass battery
  | .other => .ok PyNan.nan

/-- the three components used at `_qlaw.py:462-466` -/
def dirOf (alpha beta : α) : Fin 3 → α :=
  ![cos beta * sin alpha, cos beta * cos alpha, sin beta]

/-- zero vector `np.zeros((3,))` -/
def zero3 : Fin 3 → α := ![ℓ 0, ℓ 0, ℓ 0]

/-- control phase, `_qlaw.py:426-511`. `s` holds the loop variables before the step, `d` the
result of the duty phase. -/
def controlPhase (E : Env α) (s : LoopSt α) (d : DutyRes α) : Except PyErr (CtlRes α) := do
  let C := E.cfg
  let P := E.prob
  -- 426
  let accel := PyOrd.sign d.step * P.tmax / s.mass
  let oeT ← asVec5 P.oeT
  -- 433-447, 497-511
  let o ← lyapunovControlAngles C.dyn.lyapFun (lyapArgs C P oeT accel s.oe)
  if d.duty then
    if PyNan.isnan o.alpha || PyNan.isnan o.beta then
      -- 451-460
      let n := s.nNan + 1
      if (n : ℤ) > C.nanAnglesThreshold then
        pure (.nanBreak n)
      else
        pure (.ctl { alpha := some (ℓ 0), beta := some (ℓ 0), throttle := 0, u := zero3,
                     psi := o.psi, q := o.q, qdot := o.dqdt, valA := PyNan.nan, valR := PyNan.nan,
                     etaA := PyNan.nan, etaR := PyNan.nan, nNan := n, oeT := oeT })
    else
      -- 462-491
      let ea ← evalEta E.etaA s.t s.oe s.mass s.battery
      let er ← evalEta E.etaR s.t s.oe s.mass s.battery
      let u := vsmul accel (dirOf o.alpha o.beta)
      if PyOrd.lt (ℓ 0) er || PyOrd.lt (ℓ 0) ea then
        let (qdotMin, qdotMax) ← evaluateOsculatingQdot C P oeT s.oe accel
        let valA := PyOrd.abs (o.dqdt / qdotMin)
        let valR := PyOrd.abs ((o.dqdt - qdotMax) / (qdotMin - qdotMax))
        let cut := PyOrd.lt valA ea || PyOrd.lt valR er
        pure (.ctl { alpha := some o.alpha, beta := some o.beta,
                     throttle := if cut then 0 else 1, u := if cut then zero3 else u,
                     psi := o.psi, q := o.q, qdot := o.dqdt, valA := valA, valR := valR,
                     etaA := ea, etaR := er, nNan := s.nNan, oeT := oeT })
      else
        pure (.ctl { alpha := some o.alpha, beta := some o.beta, throttle := 1, u := u,
                     psi := o.psi, q := o.q, qdot := o.dqdt, valA := PyNan.nan, valR := PyNan.nan,
                     etaA := ea, etaR := er, nNan := s.nNan, oeT := oeT })
  else
    -- 494-511: `alpha`, `beta` keep whatever value (or unboundness) they had
    pure (.ctl { alpha := s.alpha, beta := s.beta, throttle := 0, u := zero3,
                 psi := o.psi, q := o.q, qdot := o.dqdt, valA := PyNan.nan, valR := PyNan.nan,
                 etaA := PyNan.nan, etaR := PyNan.nan, nNan := s.nNan, oeT := oeT })

/-- perturbation and one integrator step, `_qlaw.py:514-547`; returns the next elements and the
value of `t_step_local` left for the battery update -/
def propagatePhase (E : Env α) (s : LoopSt α) (step : α) (c : Ctl α) :
    Except PyErr ((Fin 6 → α) × α) := do
  let C := E.cfg
  let ptrb ← match C.perturbations with
    | some f => f s.t s.oe C.elementsType
    | none => pure zero3
  let params : OdeParams α :=
    { mu := C.mu, u := c.u, psi0 := c.psi 0, psi1 := c.psi 1, psi2 := c.psi 2, ptrb := ptrb }
  match C.integrator with
  | .rk4 => do
    let oeNext ← PyQ.rk4 C.dyn.eom s.t step s.oe params
    pure (oeNext, step)
  | .rkf45 => do
    let (oeNext, hNext) ← PyQ.rkf45 C.dyn.eom s.t step s.oe params C.odeTol
    pure (oeNext, pymax C.stepMin (pymin C.stepMax hNext))

/-- battery update, `_qlaw.py:552-559`; returns the battery level and the charging flag -/
def batteryPhase (P : Problem α) (battery : α) (duty charging : Bool) (h : α) : α × Bool :=
  if duty then
    (npclip (battery - P.dischargeRate * h) P.capMin P.capMax, charging)
  else
    let b := npclip (battery + P.chargeRate * h) P.capMin P.capMax
    (b, if PyOrd.eq b P.capMax then false else charging)

/-- recording, `_qlaw.py:562-570`: unbound `alpha`/`beta` raise at line 565, when `times`,
`states` and `masses` have already been appended -/
def storePhase (h : Hist α) (t : α) (oe : Fin 6 → α) (mass battery : α) (c : Ctl α) :
    Hist α × Option PyErr :=
  let h1 := { h with times := h.times ++ [t], states := h.states ++ [oe],
                     masses := h.masses ++ [mass] }
  match c.alpha, c.beta with
  | some a, some b =>
    ({ h1 with controls := h.controls ++ [(a, b, c.throttle)],
               etas := h.etas ++ [(c.valA, c.valR)],
               etasBounds := h.etasBounds ++ [(c.etaA, c.etaR)],
               qs := h.qs ++ [c.q], dqdts := h.dqdts ++ [c.qdot],
               battery := h.battery ++ [battery] }, none)
  | _, _ => (h1, some .unboundLocal)

/-- exit checks, `_qlaw.py:573-598` -/
def exitPhase (E : Env α) (oeT : Fin 5 → α) (s : LoopSt α) : Outcome α :=
  let C := E.cfg
  let P := E.prob
  if C.dyn.checkConv s.oe oeT P.woe C.tolOe then .brk s 1
  else
    let relaxed := C.dyn.checkConv s.oe oeT P.woe C.tolOeRelaxed
    let n := if relaxed then s.nRelaxed + 1 else s.nRelaxed
    let s' := { s with nRelaxed := n }
    if relaxed && decide ((n : ℤ) ≥ C.exitAtRelaxed) then .brk s' 2
    else if PyOrd.le s.mass P.massMin then .brk s' (-1)
    else .cont s'

/-- the part of the loop body after the clamp, `_qlaw.py:377-598` -/
def bodyPhase (E : Env α) (s : LoopSt α) : Outcome α :=
  match chooseStep E.cfg E.prob s.oe with
  | .error e => .err s e
  | .ok step0 =>
    let d := dutyPhase E.prob s step0
    match controlPhase E s d with
    | .error e => .err s e
    | .ok (.nanBreak n) =>
      .brk { s with nNan := n, duty := d.duty, tOn := d.tOn, tOff := d.tOff,
                    charging := d.charging, alpha := some (ℓ 0), beta := some (ℓ 0) } (-3)
    | .ok (.ctl c) =>
      match propagatePhase E s d.step c with
      | .error e => .err s e
      | .ok (oeNext, hBat) =>
        let t' := s.t + d.step
        let mass' := if c.throttle = 1 then s.mass - E.prob.mdot * d.step else s.mass
        let (bat', charging') := batteryPhase E.prob s.battery d.duty d.charging hBat
        let (hist', oerr) := storePhase s.hist t' oeNext mass' bat' c
        let s' : LoopSt α :=
          { t := t', oe := oeNext, mass := mass', battery := bat', hist := hist',
            nRelaxed := s.nRelaxed, nNan := c.nNan, duty := d.duty, tOn := d.tOn, tOff := d.tOff,
            charging := charging', alpha := c.alpha, beta := c.beta }
        match oerr with
        | some e => .err s' e
        | none => exitPhase E c.oeT s'

/-- one iteration of the `while` loop, `_qlaw.py:372-601` (guard already true) -/
def iter (E : Env α) (s : LoopSt α) : Outcome α :=
  match clampPhase E.cfg s with
  | .error e => .err s e
  | .ok s1 => bodyPhase E s1

/-- how the `while` loop ends -/
inductive RunRes (α : Type)
  | timeout (s : LoopSt α)
  | exit (s : LoopSt α) (code : ℤ)
  | raised (s : LoopSt α) (e : PyErr)

/-- the `while` loop with `fuel` evaluations of the guard; `none` when the fuel runs out -/
def loop (E : Env α) : ℕ → LoopSt α → Option (RunRes α)
  | 0, _ => none
  | n + 1, s =>
    if guardB E.prob s then
      match iter E s with
      | .cont s' => loop E n s'
      | .brk s' c => some (.exit s' c)
      | .err s' e => some (.raised s' e)
    else some (.timeout s)

/-- final loop state of a run -/
def RunRes.st : RunRes α → LoopSt α
  | .timeout s => s
  | .exit s _ => s
  | .raised s _ => s

/-! ### The object -/

/-- a `QLaw` object: settings, problem (if `set_problem` has succeeded), `ready`, `converge`,
`exitcode`, and the result histories (if `solve` has started) -/
structure QLaw (α : Type) where
  cfg : Config α
  prob : Option (Problem α)
  ready : Bool
  converge : Bool
  exitcode : ℤ
  hist : Option (Hist α)

/-- constructor arguments, `_qlaw.py:98-121` (those that affect results) -/
structure CtorArgs (α : Type) where
  mu : α
  rpmin : α
  kPetro : α
  mPetro : α
  nPetro : α
  rPetro : α
  bPetro : α
  wp : α
  elementsType : String
  integrator : String
  anomalyGridSize : ℕ
  tolOe : Option (List α)
  oeMin : Option (List α)
  oeMax : Option (List α)
  nanAnglesThreshold : ℤ
  useSundman : Bool
  perturbations : Option (α → (Fin 6 → α) → ElemType → Except PyErr (Fin 3 → α))
  relaxedTolFactor : α
  exitAtRelaxed : ℤ

/-- IEEE infinity; the code writes `np.inf` in the default bounds -/
class PyInf (α : Type) where
  inf : α

section dyn
variable [SymDiff α]

/-- `_qlaw.py:173-187` -/
def dynOf : ElemType → Dyn α
  | .keplerian =>
    { eom := eomKepGauss, lyapFun := kepLyap, dqdtFun := kepDqdt,
      checkConv := checkConvergenceKeplerian }
  | .meeWithA =>
    { eom := eomMeeWithAGauss, lyapFun := meeLyap, dqdtFun := meeDqdt,
      checkConv := checkConvergenceMee }

end dyn

section ctor
variable [SymDiff α] [PyInf α]

/-- default lower bounds, `_qlaw.py:152-156` -/
def defaultOeMin : ElemType → List α
  | .keplerian => [rat 5 100, rat 1 (10 ^ 4), rat 1 (10 ^ 4), rat 1 (10 ^ 4), rat 1 (10 ^ 4),
                   rat 1 (10 ^ 8)]
  | .meeWithA => [rat 5 100, -PyInf.inf, -PyInf.inf, -PyInf.inf, -PyInf.inf]

/-- default upper bounds, `_qlaw.py:161-165` -/
def defaultOeMax : ElemType → List α
  | .keplerian => [ℓ 100, rat 95 100, pi, PyInf.inf, PyInf.inf, PyInf.inf]
  | .meeWithA => [ℓ 100, ℓ 10, ℓ 10, PyInf.inf, PyInf.inf, PyInf.inf]

/-- `_qlaw.py:143-147`: `tol_oe` default or five components (`assert`) -/
def ctorTol : Option (List α) → Except PyErr (Fin 5 → α)
  | none => .ok fun _ => rat 1 (10 ^ 3)
  | some [a, b, c, d, e] => .ok ![a, b, c, d, e]
  | some _ => .error .assertion

/-- `QLaw.__init__`, `_qlaw.py:98-214` -/
def QLaw.new (A : CtorArgs α) : Except PyErr (QLaw α) := do
  if PyOrd.le (ℓ 1) A.relaxedTolFactor then pure () else .error .assertion
  if PyOrd.lt (ℓ 0) A.mu then pure () else .error .assertion
  let et ← ElemType.ofString A.elementsType
  let ig ← Integrator.ofString A.integrator
  let tol ← ctorTol A.tolOe
  pure {
    cfg := {
      mu := A.mu, rpmin := A.rpmin, kPetro := A.kPetro, mPetro := A.mPetro, nPetro := A.nPetro,
      rPetro := A.rPetro, bPetro := A.bPetro, wp := A.wp, elementsType := et, integrator := ig,
      anomalyGridSize := A.anomalyGridSize, tolOe := tol,
      tolOeRelaxed := vsmul A.relaxedTolFactor tol, exitAtRelaxed := A.exitAtRelaxed,
      oeMin := A.oeMin.getD (defaultOeMin et), oeMax := A.oeMax.getD (defaultOeMax et),
      nanAnglesThreshold := A.nanAnglesThreshold,
      stepMin := rat 1 (10 ^ 4), stepMax := ℓ 2, odeTol := rat 1 (10 ^ 5),
      useSundman := A.useSundman, perturbations := A.perturbations, dyn := dynOf et },
    prob := none, ready := false, converge := false, exitcode := 0, hist := none }

end ctor

/-- `mu` setter, `_qlaw.py:220-224` -/
def QLaw.setMu (Q : QLaw α) (mu : α) : Except PyErr (QLaw α) :=
  if PyOrd.lt (ℓ 0) mu then .ok { Q with cfg := { Q.cfg with mu := mu } } else .error .assertion

/-- `elements_type` setter, `_qlaw.py:230-234`: only the string is replaced -/
def QLaw.setElementsType (Q : QLaw α) (s : String) : Except PyErr (QLaw α) := do
  let et ← ElemType.ofString s
  pure { Q with cfg := { Q.cfg with elementsType := et } }

/-- `integrator` setter, `_qlaw.py:240-244` -/
def QLaw.setIntegrator (Q : QLaw α) (s : String) : Except PyErr (QLaw α) := do
  let ig ← Integrator.ofString s
  pure { Q with cfg := { Q.cfg with integrator := ig } }

/-- arguments of `set_problem`, `_qlaw.py:246-262` -/
structure ProblemArgs (α : Type) where
  oe0 : List α
  oeT : List α
  mass0 : α
  tmax : α
  mdot : α
  tfMax : α
  tStep : α
  massMin : α
  woe : Option (List α)
  dutyOn : α
  dutyOff : α
  batteryInitial : α
  capMin : α
  capMax : α
  chargeRate : α
  dischargeRate : α
  requireFullRecharge : Bool

/-- `assert len(oe0)==6` and the six components, `_qlaw.py:281` -/
def asOe0 : List α → Except PyErr (Fin 6 → α)
  | [a, b, c, d, e, f] => .ok ![a, b, c, d, e, f]
  | _ => .error .assertion

/-- weights, `_qlaw.py:285-289` -/
def asWoe : Option (List α) → Except PyErr (Fin 5 → α)
  | none => .ok fun _ => ℓ 1
  | some [a, b, c, d, e] => .ok ![a, b, c, d, e]
  | some _ => .error .assertion

/-- the problem installed by `set_problem`, `_qlaw.py:281-313` -/
def mkProblem (A : ProblemArgs α) : Except PyErr (Problem α) := do
  let oe0 ← asOe0 A.oe0
  if PyOrd.le (rat 1 100) A.massMin then pure () else .error .assertion
  let woe ← asWoe A.woe
  pure { oe0 := oe0, oeT := if A.oeT.length = 6 then A.oeT.take 5 else A.oeT, mass0 := A.mass0,
         tmax := A.tmax, mdot := A.mdot, tfMax := A.tfMax, tStep := A.tStep, massMin := A.massMin,
         woe := woe, dutyOn := A.dutyOn, dutyOff := A.dutyOff, batteryInitial := A.batteryInitial,
         capMin := A.capMin, capMax := A.capMax, chargeRate := A.chargeRate,
         dischargeRate := A.dischargeRate, requireFullRecharge := A.requireFullRecharge }

/-- `set_problem`, `_qlaw.py:246-314`: all assertions precede all assignments -/
def QLaw.setProblem (Q : QLaw α) (A : ProblemArgs α) : Except PyErr (QLaw α) := do
  let P ← mkProblem A
  pure { Q with prob := some P, ready := true }

/-- `isinstance(eta_a, float) or callable(eta_a)`, `_qlaw.py:332-339` -/
def EtaArg.valid : EtaArg α → Bool
  | .other => false
  | _ => true

/-- end of `solve`, `_qlaw.py:574-575,582-583,597,603-611`: flags after the loop, from the flags
before it -/
def finishFlags (exitcode : ℤ) (converge : Bool) : RunRes α → ℤ × Bool
  | .raised _ _ => (exitcode, converge)
  | .exit _ code => (code, if code = 1 ∨ code = 2 then true else converge)
  | .timeout _ =>
    if converge = false ∧ exitcode = 0 then (-2, converge) else (exitcode, converge)

/-- the object after the loop: histories stored; the array `oe0` is `states[0]` -/
def QLaw.finish (Q : QLaw α) (P : Problem α) (r : RunRes α) : QLaw α :=
  let fl := finishFlags Q.exitcode Q.converge r
  { Q with
    prob := some { P with oe0 := r.st.hist.states.headD P.oe0 },
    exitcode := fl.1, converge := fl.2, hist := some r.st.hist }

/-- exception propagated by a run, if any -/
def RunRes.error? : RunRes α → Option PyErr
  | .raised _ e => some e
  | _ => none

/-- `solve(eta_a, eta_r)`, `_qlaw.py:317-611`, with `fuel` loop-guard evaluations; `none` if the
loop has not ended by then. Returns the object afterwards and the exception raised, if any. -/
def QLaw.solve (Q : QLaw α) (etaA etaR : EtaArg α) (fuel : ℕ) :
    Option (QLaw α × Option PyErr) :=
  match Q.ready, Q.prob with
  | true, some P =>
    if etaA.valid then
      (loop { cfg := Q.cfg, prob := P, etaA := etaA, etaR := etaR } fuel (initLoop P)).map
        fun r => (Q.finish P r, r.error?)
    else some (Q, some .valueError)
  | _, _ => some (Q, some .assertion)

end PyQ
