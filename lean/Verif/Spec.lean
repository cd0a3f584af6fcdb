import Verif.Model.Qlaw

/-!
# Specification vocabulary for runs of `solve`

Small definitions used in the statements of the property theorems about `QLaw.solve`.
-/

set_option linter.unusedSectionVars false

namespace PyQ

variable {α : Type} [Add α] [Sub α] [Mul α] [Div α] [Neg α] [NatCast α] [Pow α ℕ]
  [PyTrans α] [PyOrd α] [PyNan α]

/-- an object on which no `solve` has set the result flags: `exitcode == 0`, `converge == False` -/
def QLaw.Fresh (Q : QLaw α) : Prop := Q.exitcode = 0 ∧ Q.converge = false

/-- the same object with its result flags reset -/
def QLaw.reset (Q : QLaw α) : QLaw α := { Q with exitcode := 0, converge := false }

/-- what a call `solve(eta_a, eta_r)` on `Q` with problem `P` reads -/
def envOf (Q : QLaw α) (P : Problem α) (etaA etaR : EtaArg α) : Env α :=
  { cfg := Q.cfg, prob := P, etaA := etaA, etaR := etaR }

/-- the loop variables after `k` passes through the loop body -/
def Env.after (E : Env α) : ℕ → LoopSt α
  | 0 => initLoop E.prob
  | k + 1 =>
    match iter E (E.after k) with
    | .cont s => s
    | .brk s _ => s
    | .err s _ => s

/-- the histories record `n` steps: one more time, state, mass and battery level than controls,
effectivities, bounds, `Q` and `dQ/dt` values -/
structure Aligned (H : Hist α) (n : ℕ) : Prop where
  times : H.times.length = n + 1
  states : H.states.length = n + 1
  masses : H.masses.length = n + 1
  battery : H.battery.length = n + 1
  controls : H.controls.length = n
  etas : H.etas.length = n
  etasBounds : H.etasBounds.length = n
  qs : H.qs.length = n
  dqdts : H.dqdts.length = n

/-- state `x` passes the convergence check at tolerance `tol` -/
def Converged (E : Env α) (tol : Fin 5 → α) (x : Fin 6 → α) : Bool :=
  match asVec5 E.prob.oeT with
  | .ok oeT => E.cfg.dyn.checkConv x oeT E.prob.woe tol
  | .error _ => false

/-- at loop variables `s` the duty is on and the control law returns a NaN angle -/
def nanAt (E : Env α) (s : LoopSt α) : Bool :=
  match clampPhase E.cfg s with
  | .error _ => false
  | .ok s1 =>
    match chooseStep E.cfg E.prob s1.oe, asVec5 E.prob.oeT with
    | .ok st, .ok oeT =>
      let d := dutyPhase E.prob s1 st
      match lyapunovControlAngles E.cfg.dyn.lyapFun
          (lyapArgs E.cfg E.prob oeT (PyOrd.sign d.step * E.prob.tmax / s1.mass) s1.oe) with
      | .ok o => d.duty && (PyNan.isnan o.alpha || PyNan.isnan o.beta)
      | .error _ => false
    | _, _ => false

/-- at loop variables `s` the duty (cycle and battery) allows thrust -/
def dutyOnAt (E : Env α) (s : LoopSt α) : Bool :=
  match clampPhase E.cfg s with
  | .error _ => false
  | .ok s1 =>
    match chooseStep E.cfg E.prob s1.oe with
    | .ok st => (dutyPhase E.prob s1 st).duty
    | .error _ => false

end PyQ
