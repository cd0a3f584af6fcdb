import Verif.Model.Qlaw

/-!
# Model of what `solve` prints

The loop of `Model/Qlaw.lean` transcribed once more, with the printed messages: `_qlaw.py:360-362,457-458,587-598,603-610`.
A message carries the numbers it shows; how they are formatted is not modelled. `disable_tqdm` (`:361`) is not read
anywhere. `np.mod(idx, 0)` is 0 (with a warning), so a `print_frequency` of 0 prints every step; frequencies are
integers.
-/

set_option linter.unusedSectionVars false

namespace PyQ

variable {α : Type} [Add α] [Sub α] [Mul α] [Div α] [Neg α] [NatCast α] [Pow α ℕ]
  [PyTrans α] [PyOrd α] [PyNan α]

/-- what `solve` prints -/
inductive Msg (α : Type)
  /-- `_qlaw.py:362,589` -/
  | header
  /-- `_qlaw.py:591`: iteration, time, differences to the target, sixth element -/
  | line (idx : ℕ) (t : α) (del : Fin 5 → α) (el6 : α)
  /-- "Breaking as angles are nan", `_qlaw.py:458` -/
  | nanAngles
  /-- "Breaking as mass is now under mass_min", `_qlaw.py:596` -/
  | massMin
  /-- "Could not arrive to target elements within time", `_qlaw.py:606` -/
  | noTime
  /-- "Target elements successfully reached!", `_qlaw.py:610` -/
  | reached

/-- the attributes `verbosity` and `print_frequency`, `_qlaw.py:140,199` -/
structure Verb where
  verbosity : ℤ
  freq : ℤ

/-- `np.mod(idx, n) == 0` -/
def modZero (idx : ℕ) (n : ℤ) : Bool := if n = 0 then true else (idx : ℤ) % n == 0

/-- progress line, `_qlaw.py:587-591` -/
def progressMsgs (V : Verb) (idx : ℕ) (t : α) (oe : Fin 6 → α) (oeT : Fin 5 → α) : List (Msg α) :=
  if decide (V.verbosity ≥ 2) && modZero idx V.freq then
    (if modZero idx (20 * V.freq) then [.header] else []) ++
      [.line idx t (fun i => oe i.castSucc - oeT i) (oe 5)]
  else []

/-- a message printed when `verbosity > 0` -/
def say (V : Verb) (m : Msg α) : List (Msg α) := if V.verbosity > 0 then [m] else []

/-- exit checks with their output, `_qlaw.py:573-598` -/
def exitPhaseP (V : Verb) (E : Env α) (idx : ℕ) (oeT : Fin 5 → α) (s : LoopSt α) : Outcome α × List (Msg α) :=
  let C := E.cfg
  let P := E.prob
  if C.dyn.checkConv s.oe oeT P.woe C.tolOe then (.brk s 1, [])
  else
    let relaxed := C.dyn.checkConv s.oe oeT P.woe C.tolOeRelaxed
    let n := if relaxed then s.nRelaxed + 1 else s.nRelaxed
    let s' := { s with nRelaxed := n }
    if relaxed && decide ((n : ℤ) ≥ C.exitAtRelaxed) then (.brk s' 2, [])
    else
      let out := progressMsgs V idx s.t s.oe oeT
      if PyOrd.le s.mass P.massMin then (.brk s' (-1), out ++ say V .massMin)
      else (.cont s', out)

/-- the loop body after the clamp with its output, `_qlaw.py:377-598` -/
def bodyPhaseP (V : Verb) (E : Env α) (idx : ℕ) (s : LoopSt α) : Outcome α × List (Msg α) :=
  match chooseStep E.cfg E.prob s.oe with
  | .error e => (.err s e, [])
  | .ok step0 =>
    let d := dutyPhase E.prob s step0
    match controlPhase E s d with
    | .error e => (.err s e, [])
    | .ok (.nanBreak n) =>
      (.brk { s with nNan := n, duty := d.duty, tOn := d.tOn, tOff := d.tOff,
                     charging := d.charging, alpha := some ((0 : ℕ) : α), beta := some ((0 : ℕ) : α) } (-3),
        say V .nanAngles)
    | .ok (.ctl c) =>
      match propagatePhase E s d.step c with
      | .error e => (.err s e, [])
      | .ok (oeNext, hBat) =>
        let t' := s.t + d.step
        let mass' := if c.throttle = 1 then s.mass - E.prob.mdot * d.step else s.mass
        let (bat', charging') := batteryPhase E.prob s.battery d.duty d.charging hBat
        let (hist', oerr) := storePhase s.hist t' oeNext mass' bat' c
        let s' : LoopSt α :=
          { t := t', oe := oeNext, mass := mass', battery := bat', hist := hist',
            nRelaxed := s.nRelaxed, nNan := c.nNan, duty := d.duty, tOn := d.tOn, tOff := d.tOff,
            charging := charging', alpha := c.alpha, beta := c.beta }
        match oerr with
        | some e => (.err s' e, [])
        | none => exitPhaseP V E idx c.oeT s'

/-- one iteration with its output -/
def iterP (V : Verb) (E : Env α) (idx : ℕ) (s : LoopSt α) : Outcome α × List (Msg α) :=
  match clampPhase E.cfg s with
  | .error e => (.err s e, [])
  | .ok s1 => bodyPhaseP V E idx s1

/-- the `while` loop with its output; `idx` counts the iterations, `_qlaw.py:371,601` -/
def loopP (V : Verb) (E : Env α) : ℕ → ℕ → LoopSt α → Option (RunRes α × List (Msg α))
  | 0, _, _ => none
  | n + 1, idx, s =>
    if guardB E.prob s then
      match iterP V E idx s with
      | (.cont s', out) => (loopP V E n (idx + 1) s').map fun p => (p.1, out ++ p.2)
      | (.brk s' c, out) => some (.exit s' c, out)
      | (.err s' e, out) => some (.raised s' e, out)
    else some (.timeout s, [])

/-- the messages after the loop, `_qlaw.py:603-610`, from the flags before the run -/
def closing (V : Verb) (exitcode : ℤ) (converge : Bool) : RunRes α → List (Msg α)
  | .raised _ _ => []
  | .exit _ code =>
    let conv := if code = 1 ∨ code = 2 then true else converge
    if conv = false ∧ code = 0 then say V .noTime else if conv then say V .reached else []
  | .timeout _ =>
    if converge = false ∧ exitcode = 0 then say V .noTime else if converge then say V .reached else []

/-- `solve(eta_a, eta_r)` with its output -/
def QLaw.solveP (V : Verb) (Q : QLaw α) (etaA etaR : EtaArg α) (fuel : ℕ) :
    Option ((QLaw α × Option PyErr) × List (Msg α)) :=
  match Q.ready, Q.prob with
  | true, some P =>
    if etaA.valid then
      (loopP V { cfg := Q.cfg, prob := P, etaA := etaA, etaR := etaR } fuel 0 (initLoop P)).map
        fun p => ((Q.finish P p.1, p.1.error?), p.2 ++ closing V Q.exitcode Q.converge p.1)
    else some ((Q, some .valueError), [])
  | _, _ => some ((Q, some .assertion), [])

end PyQ
