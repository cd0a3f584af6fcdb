import Verif.Proofs.Exit
import Verif.Proofs.Sim

/-! # Two runs related by a change of variables (real arithmetic)

`E'` is `E` in other units of time, length and mass, or with an element measured from another origin: times
are multiplied by `g.t`, accelerations by `g.a`, masses by `g.m`, `Q` by `g.q`, and element `i` is replaced
by `g.s i * x i + g.c i`; for `g.n = -1` the normal component of accelerations is reversed. If the phases of the loop that depend on the dynamics respect the change, the
whole run does. -/

set_option linter.unusedSectionVars false

noncomputable section

namespace PyQ

variable [PyNan ℝ]

/-- a change of variables -/
structure Chg where
  t : ℝ
  a : ℝ
  m : ℝ
  q : ℝ
  s : Fin 6 → ℝ
  c : Fin 6 → ℝ
  n : ℝ := 1

namespace Chg
variable (g : Chg)

/-- elements in the new variables -/
def x (x : Fin 6 → ℝ) : Fin 6 → ℝ := fun i => g.s i * x i + g.c i

/-- direction in the new variables -/
def dir (d : Fin 3 → ℝ) : Fin 3 → ℝ := ![d 0, d 1, g.n * d 2]

omit [PyNan ℝ] in
theorem dir_one (h : g.n = 1) (d : Fin 3 → ℝ) : g.dir d = d := by
  funext c
  match c with
  | 0 | 1 | 2 => simp [dir, h]

omit [PyNan ℝ] in
theorem dir_dir (h : g.n = 1 ∨ g.n = -1) (d : Fin 3 → ℝ) : g.dir (g.dir d) = d := by
  funext c
  match c with
  | 0 | 1 | 2 => rcases h with h | h <;> simp [dir, h]

/-- Gauss matrix in the new variables -/
def psi (p : Fin 3 → Fin 5 → ℝ) : Fin 3 → Fin 5 → ℝ :=
  fun c j => g.s j.castSucc / (g.t * g.a) * g.dir (fun c => p c j) c

/-- acceleration in the new variables -/
def acc (u : Fin 3 → ℝ) : Fin 3 → ℝ := fun c => g.a * g.dir u c

/-- histories in the new variables -/
def hist (h : Hist ℝ) : Hist ℝ :=
  { h with times := h.times.map (g.t * ·), states := h.states.map g.x, masses := h.masses.map (g.m * ·),
           controls := h.controls.map fun c => (c.1, g.n * c.2.1, c.2.2), qs := h.qs.map (g.q * ·), dqdts := h.dqdts.map (g.q / g.t * ·) }

/-- loop variables in the new variables -/
def st (s : LoopSt ℝ) : LoopSt ℝ :=
  { s with t := g.t * s.t, oe := g.x s.oe, mass := g.m * s.mass, hist := g.hist s.hist,
           tOn := g.t * s.tOn, tOff := g.t * s.tOff, beta := s.beta.map (g.n * ·) }

/-- outcome of an iteration in the new variables -/
def outcome : Outcome ℝ → Outcome ℝ
  | .cont s => .cont (g.st s)
  | .brk s c => .brk (g.st s) c
  | .err s e => .err (g.st s) e

/-- end of a run in the new variables -/
def res : RunRes ℝ → RunRes ℝ
  | .timeout s => .timeout (g.st s)
  | .exit s c => .exit (g.st s) c
  | .raised s e => .raised (g.st s) e

/-- output of the control law in the new variables -/
def out (o : ControlOut ℝ) : ControlOut ℝ :=
  { o with beta := g.n * o.beta, u := g.dir o.u, psi := g.psi o.psi, q := g.q * o.q, dqdt := g.q / g.t * o.dqdt }

/-- a control in the new variables, with another target recorded -/
def ctl (v : Fin 5 → ℝ) (c : Ctl ℝ) : Ctl ℝ :=
  { c with beta := c.beta.map (g.n * ·), u := g.acc c.u, psi := g.psi c.psi, q := g.q * c.q, qdot := g.q / g.t * c.qdot, oeT := v }

/-- result of the control phase in the new variables -/
def ctlRes (v : Fin 5 → ℝ) : CtlRes ℝ → CtlRes ℝ
  | .ctl c => .ctl (g.ctl v c)
  | .nanBreak n => .nanBreak n

/-- result of the duty phase in the new variables -/
def duty (d : DutyRes ℝ) : DutyRes ℝ :=
  { d with tOn := g.t * d.tOn, tOff := g.t * d.tOff, step := g.t * d.step }

end Chg

/-- what the control law, the rate over the orbit and the convergence check of two problems must have
in common, for five-component targets `v` and `v'` -/
structure LawChange (g : Chg) (C C' : Config ℝ) (P P' : Problem ℝ) (v v' : Fin 5 → ℝ) : Prop where
  law : ∀ accel x, lyapunovControlAngles C'.dyn.lyapFun (lyapArgs C' P' v' (g.a * accel) (g.x x)) =
    (lyapunovControlAngles C.dyn.lyapFun (lyapArgs C P v accel x)).map g.out
  rate : ∀ accel x, C'.dyn.dqdtFun (lyapArgs C' P' v' (g.a * accel) (g.x x)) =
    g.q / g.t * C.dyn.dqdtFun (lyapArgs C P v accel x)
  conv : ∀ x, C'.dyn.checkConv (g.x x) v' P'.woe C'.tolOe = C.dyn.checkConv x v P.woe C.tolOe
  relaxed : ∀ x, C'.dyn.checkConv (g.x x) v' P'.woe C'.tolOeRelaxed =
    C.dyn.checkConv x v P.woe C.tolOeRelaxed

/-- the problem in the new variables, except for the initial state, the target, the weights and the
time step -/
structure ProbChange (g : Chg) (P P' : Problem ℝ) : Prop where
  tmax : P'.tmax = g.m * g.a * P.tmax
  mdot : P'.mdot = g.m / g.t * P.mdot
  tfMax : P'.tfMax = g.t * P.tfMax
  massMin : P'.massMin = g.m * P.massMin
  dutyOn : P'.dutyOn = g.t * P.dutyOn
  dutyOff : P'.dutyOff = g.t * P.dutyOff
  capMin : P'.capMin = P.capMin
  capMax : P'.capMax = P.capMax
  chargeRate : P'.chargeRate = P.chargeRate / g.t
  dischargeRate : P'.dischargeRate = P.dischargeRate / g.t
  requireFullRecharge : P'.requireFullRecharge = P.requireFullRecharge

/-- the second environment is the first in the new variables -/
structure Change (g : Chg) (E E' : Env ℝ) : Prop where
  t0 : 0 < g.t
  a0 : 0 < g.a
  m0 : 0 < g.m
  q0 : 0 < g.q
  s5 : g.s 5 = 1
  prob : ProbChange g E.prob E'.prob
  et : E'.cfg.elementsType = E.cfg.elementsType
  grid : E'.cfg.anomalyGridSize = E.cfg.anomalyGridSize
  nan : E'.cfg.nanAnglesThreshold = E.cfg.nanAnglesThreshold
  relaxedAt : E'.cfg.exitAtRelaxed = E.cfg.exitAtRelaxed
  n1 : g.n = 1 ∨ g.n = -1
  nanN : ∀ x : ℝ, PyNan.isnan (g.n * x) = PyNan.isnan x
  clamp : E.cfg.elementsType = .keplerian → ∀ x, elementsSafety (g.x x) E'.cfg.oeMin E'.cfg.oeMax =
    (elementsSafety x E.cfg.oeMin E.cfg.oeMax).map g.x
  choose : ∀ x, chooseStep E'.cfg E'.prob (g.x x) = (chooseStep E.cfg E.prob x).map (g.t * ·)
  prop : ∀ (s : LoopSt ℝ) (h : ℝ) (v : Fin 5 → ℝ) (c : Ctl ℝ), propagatePhase E' (g.st s) (g.t * h) (g.ctl v c) =
    (propagatePhase E s h c).map fun p => (g.x p.1, g.t * p.2)
  etaA : ∀ t x m b, evalEta E'.etaA (g.t * t) (g.x x) (g.m * m) b = evalEta E.etaA t x m b
  etaR : ∀ t x m b, evalEta E'.etaR (g.t * t) (g.x x) (g.m * m) b = evalEta E.etaR t x m b
  tgt : (∃ e, asVec5 E.prob.oeT = .error e ∧ asVec5 E'.prob.oeT = .error e) ∨
    ∃ v v', asVec5 E.prob.oeT = .ok v ∧ asVec5 E'.prob.oeT = .ok v' ∧
      LawChange g E.cfg E'.cfg E.prob E'.prob v v'

section
variable {g : Chg} {E E' : Env ℝ}

omit [PyNan ℝ] in
theorem sign_change {k : ℝ} (hk : 0 < k) (x : ℝ) :
    (PyOrd.sign (k * x) : ℝ) = PyOrd.sign x := by
  show (if k * x < 0 then (-1 : ℝ) else if 0 < k * x then 1 else 0) =
    if x < 0 then (-1 : ℝ) else if 0 < x then 1 else 0
  simp only [mul_pos_iff_of_pos_left hk, mul_neg_iff, hk, hk.not_gt, true_and, false_and, or_false]

omit [PyNan ℝ] in
theorem lt_change {k : ℝ} (hk : 0 < k) (x y : ℝ) : PyOrd.lt (k * x) (k * y) = PyOrd.lt x y := by
  simp only [lt_real, mul_lt_mul_iff_right₀ hk]

omit [PyNan ℝ] in
theorem le_change {k : ℝ} (hk : 0 < k) (x y : ℝ) : PyOrd.le (k * x) (k * y) = PyOrd.le x y := by
  simp only [le_real, mul_le_mul_iff_right₀ hk]

theorem duty_change (hC : Change g E E') (s : LoopSt ℝ) (h : ℝ) :
    dutyPhase E'.prob (g.st s) (g.t * h) = g.duty (dutyPhase E.prob s h) := by
  have ht := hC.t0
  have hP := hC.prob
  have e1 : ∀ x y z : ℝ, PyOrd.lt (g.t * x) (g.t * y - g.t * z) = PyOrd.lt x (y - z) := by
    intro x y z; rw [← mul_sub, lt_change ht]
  have e2 : ∀ x y : ℝ, x / g.t * (g.t * y) = x * y := by
    intro x y; field_simp
  have e3 : ∀ x y : ℝ, x / (y / g.t) = g.t * (x / y) := by
    intro x y; rw [div_div_eq_mul_div, mul_comm x, mul_div_assoc]
  have i1 : ∀ (b : Bool) (x y : ℝ), (if b = true then g.t * x else g.t * y) =
      g.t * (if b = true then x else y) := by
    intro b x y; split <;> rfl
  unfold dutyPhase
  simp only [hP.dutyOn, hP.dutyOff, hP.capMin, hP.capMax, hP.dischargeRate, hP.requireFullRecharge,
    Chg.st, Chg.duty, e1, e2, e3, i1]

omit [PyNan ℝ] in
theorem linspace_shift (a b c : ℝ) (n : ℕ) :
    linspace (a + c) (b + c) n = (linspace a b n).map (· + c) := by
  match n with
  | 0 => rfl
  | 1 => rfl
  | n + 2 =>
    simp only [linspace, List.map_append, List.map_map, List.map_cons, List.map_nil, add_sub_add_right_eq_sub]
    congr 1
    refine List.map_congr_left fun k _ => ?_
    simp only [Function.comp]
    ring

theorem osculating_change {C C' : Config ℝ} {P P' : Problem ℝ} {v v' : Fin 5 → ℝ}
    (h : LawChange g C C' P P' v v') (hg : C'.anomalyGridSize = C.anomalyGridSize)
    (hk : 0 < g.q / g.t) (h5 : g.s 5 = 1) (x : Fin 6 → ℝ) (accel : ℝ) :
    evaluateOsculatingQdot C' P' v' (g.x x) (g.a * accel) =
      (evaluateOsculatingQdot C P v x accel).map fun p => (g.q / g.t * p.1, g.q / g.t * p.2) := by
  unfold evaluateOsculatingQdot
  have e5 : g.x x 5 = x 5 + g.c 5 := by simp [Chg.x, h5]
  have ev : ∀ ν : ℝ, ![g.x x 0, g.x x 1, g.x x 2, g.x x 3, g.x x 4, ν + g.c 5] =
      g.x ![x 0, x 1, x 2, x 3, x 4, ν] := by
    intro ν
    funext i
    match i with
    | 0 => rfl
    | 1 => rfl
    | 2 => rfl
    | 3 => rfl
    | 4 => rfl
    | 5 =>
      show ν + g.c 5 = g.s 5 * ν + g.c 5
      rw [h5]; ring
  have el : linspace (x 5 + g.c 5) (x 5 + g.c 5 + ((2 : ℕ) : ℝ) * PyTrans.pi) (C.anomalyGridSize + 1) =
      (linspace (x 5) (x 5 + ((2 : ℕ) : ℝ) * PyTrans.pi) (C.anomalyGridSize + 1)).map (· + g.c 5) := by
    rw [add_right_comm]
    exact linspace_shift _ _ _ _
  simp only [e5, hg, el, ← List.map_drop, List.map_map, Function.comp_def, ev, h.rate]
  generalize ((linspace (x 5) (x 5 + ((2 : ℕ) : ℝ) * PyTrans.pi) (C.anomalyGridSize + 1)).drop 1) = pts
  have hm : (pts.map fun anomaly => g.q / g.t * C.dyn.dqdtFun
      (lyapArgs C P v accel ![x 0, x 1, x 2, x 3, x 4, anomaly])) =
      (pts.map fun anomaly => C.dyn.dqdtFun
      (lyapArgs C P v accel ![x 0, x 1, x 2, x 3, x 4, anomaly])).map (g.q / g.t * ·) := by
    rw [List.map_map]; rfl
  rw [hm]
  generalize (pts.map fun anomaly => C.dyn.dqdtFun
      (lyapArgs C P v accel ![x 0, x 1, x 2, x 3, x 4, anomaly])) = l
  cases l with
  | nil => rfl
  | cons x l =>
    simp only [List.map_cons, pymaxList, pyminList, foldl_pymax_scale hk, foldl_pymin_scale hk]
    rfl

omit [PyNan ℝ] in
theorem acc_smul (g : Chg) (f : ℝ) (d : Fin 3 → ℝ) : vsmul (g.a * f) (g.dir d) = g.acc (vsmul f d) := by
  funext c
  match c with
  | 0 => simp [vsmul, Chg.acc, Chg.dir, mul_assoc]
  | 1 => simp [vsmul, Chg.acc, Chg.dir, mul_assoc]
  | 2 =>
    simp only [vsmul, Chg.acc, Chg.dir, Matrix.cons_val]
    ring

omit [PyNan ℝ] in
theorem dir_change (h : g.n = 1 ∨ g.n = -1) (al be : ℝ) :
    dirOf al (g.n * be) = g.dir (dirOf al be) := by
  rcases h with h | h <;> funext c <;>
    match c with
    | 0 => simp [dirOf, Chg.dir, h]
    | 1 => simp [dirOf, Chg.dir, h]
    | 2 => simp [dirOf, Chg.dir, h]

omit [PyNan ℝ] in
theorem acc_zero (g : Chg) : (zero3 : Fin 3 → ℝ) = g.acc zero3 := by
  funext c
  match c with
  | 0 => simp [zero3, Chg.acc, Chg.dir]
  | 1 => simp [zero3, Chg.acc, Chg.dir]
  | 2 => simp [zero3, Chg.acc, Chg.dir]

theorem control_change (hC : Change g E E') {v v' : Fin 5 → ℝ} (h1 : asVec5 E.prob.oeT = .ok v)
    (h2 : asVec5 E'.prob.oeT = .ok v') (h : LawChange g E.cfg E'.cfg E.prob E'.prob v v')
    (s : LoopSt ℝ) (d : DutyRes ℝ) :
    controlPhase E' (g.st s) (g.duty d) = (controlPhase E s d).map (g.ctlRes v') := by
  have hk : 0 < g.q / g.t := div_pos hC.q0 hC.t0
  have hacc : PyOrd.sign (g.t * d.step) * (g.m * g.a * E.prob.tmax) / (g.m * s.mass) =
      g.a * (PyOrd.sign d.step * E.prob.tmax / s.mass) := by
    rw [sign_change hC.t0]
    have := hC.m0.ne'
    by_cases hm : s.mass = 0
    · simp [hm]
    · field_simp
  unfold controlPhase
  have e3 : (g.st s).mass = g.m * s.mass := rfl
  have e5 : (g.st s).oe = g.x s.oe := rfl
  have e9 : (g.st s).t = g.t * s.t := rfl
  have e10 : (g.st s).battery = s.battery := rfl
  have e11 : (g.st s).nNan = s.nNan := rfl
  have e12 : (g.st s).alpha = s.alpha := rfl
  have e13 : (g.st s).beta = s.beta.map (g.n * ·) := rfl
  have e14 : (g.duty d).step = g.t * d.step := rfl
  have e15 : (g.duty d).duty = d.duty := rfl
  simp only [hC.prob.tmax, e3, e5, e9, e10, e11, e12, e13, e14, e15, hacc, h1, h2, hC.nan, hC.etaA,
    hC.etaR, bind, Except.bind, pure, Except.pure]
  rw [h.law]
  cases lyapunovControlAngles E.cfg.dyn.lyapFun
      (lyapArgs E.cfg E.prob v (PyOrd.sign d.step * E.prob.tmax / s.mass) s.oe) with
  | error e => rfl
  | ok o =>
    simp only [Except.map, Chg.out, hC.nanN, dir_change hC.n1]
    cases hd : d.duty with
    | false =>
      simp only [Bool.false_eq_true, if_false, Chg.ctlRes, Chg.ctl, ← acc_zero]
    | true =>
      simp only [if_true]
      cases (PyNan.isnan o.alpha || PyNan.isnan o.beta) with
      | true =>
        simp only [if_true]
        split <;> simp [Chg.ctlRes, Chg.ctl, ← acc_zero]
      | false =>
        simp only [Bool.false_eq_true, if_false]
        cases evalEta E.etaA s.t s.oe s.mass s.battery with
        | error e => rfl
        | ok ea =>
          cases evalEta E.etaR s.t s.oe s.mass s.battery with
          | error e => rfl
          | ok er =>
            simp only
            cases (PyOrd.lt ((0 : ℕ) : ℝ) er || PyOrd.lt ((0 : ℕ) : ℝ) ea) with
            | false =>
              simp only [Bool.false_eq_true, if_false, Chg.ctlRes, Chg.ctl, acc_smul, Option.map]
            | true =>
              simp only [if_true]
              rw [osculating_change h hC.grid hk hC.s5]
              cases evaluateOsculatingQdot E.cfg E.prob v s.oe
                  (PyOrd.sign d.step * E.prob.tmax / s.mass) with
              | error e => rfl
              | ok p =>
                have q1 : g.q / g.t * o.dqdt / (g.q / g.t * p.1) = o.dqdt / p.1 :=
                  mul_div_mul_left _ _ hk.ne'
                have q2 : (g.q / g.t * o.dqdt - g.q / g.t * p.2) /
                    (g.q / g.t * p.1 - g.q / g.t * p.2) = (o.dqdt - p.2) / (p.1 - p.2) := by
                  rw [← mul_sub, ← mul_sub, mul_div_mul_left _ _ hk.ne']
                simp only [Except.map, q1, q2, Chg.ctlRes, Chg.ctl, acc_smul, Option.map]
                congr 3
                split
                · exact acc_zero g
                · rfl

theorem exit_change (hC : Change g E E') {v v' : Fin 5 → ℝ}
    (h : LawChange g E.cfg E'.cfg E.prob E'.prob v v') (s : LoopSt ℝ) :
    exitPhase E' v' (g.st s) = g.outcome (exitPhase E v s) := by
  unfold exitPhase
  have e5 : (g.st s).oe = g.x s.oe := rfl
  have e7 : (g.st s).nRelaxed = s.nRelaxed := rfl
  have e8 : (g.st s).mass = g.m * s.mass := rfl
  simp only [e5, e7, e8, h.conv, h.relaxed, hC.prob.massMin, le_change hC.m0, hC.relaxedAt]
  split
  · rfl
  · split
    · split
      · rfl
      · split <;> rfl
    · split
      · rfl
      · split <;> rfl

theorem clamp_change (hC : Change g E E') (s : LoopSt ℝ) :
    clampPhase E'.cfg (g.st s) = (clampPhase E.cfg s).map g.st := by
  unfold clampPhase
  rw [hC.et]
  cases hk : E.cfg.elementsType with
  | meeWithA => rfl
  | keplerian =>
    show (do let oe ← elementsSafety (g.x s.oe) E'.cfg.oeMin E'.cfg.oeMax; _) = _
    rw [hC.clamp hk]
    cases elementsSafety s.oe E.cfg.oeMin E.cfg.oeMax with
    | error e => rfl
    | ok y =>
      simp [Except.map, bind, Except.bind, pure, Except.pure, Chg.st, Chg.hist]

theorem store_change (h : Hist ℝ) (t : ℝ) (oe : Fin 6 → ℝ) (mass bat : ℝ) (c : Ctl ℝ) (v : Fin 5 → ℝ) :
    storePhase (g.hist h) (g.t * t) (g.x oe) (g.m * mass) bat (g.ctl v c) =
    (g.hist (storePhase h t oe mass bat c).1, (storePhase h t oe mass bat c).2) := by
  unfold storePhase
  dsimp only [Chg.ctl]
  cases c.alpha <;> cases c.beta <;> simp [Chg.hist]

theorem battery_change (hC : Change g E E') (b : ℝ) (d ch : Bool) (h : ℝ) :
    batteryPhase E'.prob b d ch (g.t * h) = batteryPhase E.prob b d ch h := by
  have e2 : ∀ x y : ℝ, x / g.t * (g.t * y) = x * y := by
    intro x y; have := hC.t0.ne'; field_simp
  unfold batteryPhase
  simp only [hC.prob.chargeRate, hC.prob.dischargeRate, hC.prob.capMin, hC.prob.capMax, e2]

theorem iter_change (hC : Change g E E') (s : LoopSt ℝ) :
    iter E' (g.st s) = g.outcome (iter E s) := by
  unfold iter
  rw [clamp_change hC]
  cases clampPhase E.cfg s with
  | error e => rfl
  | ok s1 =>
    show bodyPhase E' (g.st s1) = g.outcome (bodyPhase E s1)
    unfold bodyPhase
    have ec : chooseStep E'.cfg E'.prob (g.st s1).oe = (chooseStep E.cfg E.prob s1.oe).map (g.t * ·) :=
      hC.choose s1.oe
    rw [ec]
    cases chooseStep E.cfg E.prob s1.oe with
    | error e => rfl
    | ok st =>
      simp only [Except.map, duty_change hC]
      generalize dutyPhase E.prob s1 st = d
      rcases hC.tgt with ⟨e, h1, h2⟩ | ⟨v, v', h1, h2, h⟩
      · have c1 : controlPhase E s1 d = .error e := by
          unfold controlPhase
          simp only [h1, bind, Except.bind]
        have c2 : controlPhase E' (g.st s1) (g.duty d) = .error e := by
          unfold controlPhase
          simp only [h2, bind, Except.bind]
        rw [c1, c2]
        rfl
      · rw [control_change hC h1 h2 h]
        cases hc : controlPhase E s1 d with
        | error e => rfl
        | ok r =>
          cases r with
          | nanBreak n => simp [Except.map, Chg.ctlRes, Chg.outcome, Chg.st, Chg.duty]
          | ctl c =>
            have hv : c.oeT = v := by
              obtain ⟨o, ho, _⟩ := control_ctl hc
              rw [h1] at ho; injection ho with ho; exact ho.symm
            simp only [Except.map, Chg.ctlRes]
            have e0 : (g.duty d).step = g.t * d.step := rfl
            rw [e0, hC.prop]
            cases propagatePhase E s1 d.step c with
            | error e => rfl
            | ok p =>
              obtain ⟨oeNext, hBat⟩ := p
              simp only [Except.map]
              have em : (if (g.ctl v' c).throttle = 1 then (g.st s1).mass -
                  E'.prob.mdot * (g.t * d.step) else (g.st s1).mass) =
                  g.m * (if c.throttle = 1 then s1.mass - E.prob.mdot * d.step else s1.mass) := by
                show (if c.throttle = 1 then g.m * s1.mass - E'.prob.mdot * (g.t * d.step)
                  else g.m * s1.mass) = _
                rw [hC.prob.mdot]
                have := hC.t0.ne'
                split
                · field_simp
                · rfl
              rw [em]
              have eb : batteryPhase E'.prob (g.st s1).battery (g.duty d).duty (g.duty d).charging
                  (g.t * hBat) = batteryPhase E.prob s1.battery d.duty d.charging hBat :=
                battery_change hC s1.battery d.duty d.charging hBat
              rw [eb]
              generalize batteryPhase E.prob s1.battery d.duty d.charging hBat = bc
              generalize (if c.throttle = 1 then s1.mass - E.prob.mdot * d.step else s1.mass) = m'
              have es : (g.st s1).hist = g.hist s1.hist := rfl
              have et : (g.st s1).t + g.t * d.step = g.t * (s1.t + d.step) := by
                show g.t * s1.t + g.t * d.step = _
                ring
              rw [es, et, store_change]
              simp only
              cases (storePhase s1.hist (s1.t + d.step) oeNext m' bc.1 c).2 with
              | some e => rfl
              | none =>
                simp only
                rw [hv]
                exact exit_change hC h
                  { t := s1.t + d.step, oe := oeNext, mass := m', battery := bc.1,
                    hist := (storePhase s1.hist (s1.t + d.step) oeNext m' bc.1 c).1,
                    nRelaxed := s1.nRelaxed, nNan := c.nNan, duty := d.duty, tOn := d.tOn,
                    tOff := d.tOff, charging := bc.2, alpha := c.alpha, beta := c.beta }

theorem guard_change (hC : Change g E E') (s : LoopSt ℝ) :
    guardB E'.prob (g.st s) = guardB E.prob s := by
  have hl : (g.hist s.hist).lastTime = g.t * s.hist.lastTime := by
    simp only [Hist.lastTime, Chg.hist, List.getLastD_eq_getLast?, List.getLast?_map]
    cases s.hist.times.getLast? <;> simp
  unfold guardB
  show PyOrd.lt (PyOrd.abs (g.hist s.hist).lastTime) _ = _
  rw [hl, hC.prob.tfMax]
  simp only [abs_real, abs_mul, abs_of_pos hC.t0]
  exact lt_change hC.t0 _ _

theorem loop_change (hC : Change g E E') : ∀ (f : ℕ) (s : LoopSt ℝ),
    loop E' f (g.st s) = (loop E f s).map g.res := by
  intro f
  induction f with
  | zero => intro s; rfl
  | succ f ih =>
    intro s
    unfold loop
    rw [guard_change hC, iter_change hC]
    cases guardB E.prob s with
    | false => rfl
    | true =>
      simp only [if_true]
      cases iter E s with
      | cont s' => exact ih s'
      | brk s' c => rfl
      | err s' c => rfl

/-- the run of the second object is the run of the first in the new variables -/
theorem solve_change {Q Q1 Q' : QLaw ℝ} {P P1 : Problem ℝ} {etaA etaR etaA' etaR' : EtaArg ℝ} {fuel : ℕ}
    {e : Option PyErr} {H : Hist ℝ} (hP : Q.prob = some P) (hP1 : Q1.prob = some P1)
    (hr : Q.ready = true) (hr1 : Q1.ready = true) (hv : etaA.valid = true) (hv1 : etaA'.valid = true)
    (hx : Q1.exitcode = Q.exitcode ∧ Q1.converge = Q.converge)
    (h0 : P1.oe0 = g.x P.oe0) (hm : P1.mass0 = g.m * P.mass0) (hb : P1.batteryInitial = P.batteryInitial)
    (hC : Change g (envOf Q P etaA etaR) (envOf Q1 P1 etaA' etaR'))
    (h : Q.solve etaA etaR fuel = some (Q', e)) (hH : Q'.hist = some H) :
    ∃ Q'', Q1.solve etaA' etaR' fuel = some (Q'', e) ∧ Q''.hist = some (g.hist H) ∧
      Q''.exitcode = Q'.exitcode ∧ Q''.converge = Q'.converge := by
  simp only [QLaw.solve, hP, hr, hv, if_true, Option.map_eq_some_iff] at h
  obtain ⟨r, hl, h⟩ := h
  have hi : initLoop P1 = g.st (initLoop P) := by
    simp [initLoop, Chg.st, Chg.hist, h0, hm, hb]
  have hl' : loop (envOf Q P etaA etaR) fuel (initLoop P) = some r := hl
  have := loop_change hC fuel (initLoop P)
  rw [hl', ← hi] at this
  have hs : ∃ Q'', Q1.solve etaA' etaR' fuel = some (Q'', e) ∧
      Q''.hist = some (g.hist r.st.hist) ∧ Q''.exitcode = Q'.exitcode ∧ Q''.converge = Q'.converge := by
    have this' : loop { cfg := Q1.cfg, prob := P1, etaA := etaA', etaR := etaR' } fuel (initLoop P1) =
        some (g.res r) := this
    simp only [QLaw.solve, hP1, hr1, hv1, if_true, this', Option.map_some]
    have hf : finishFlags Q1.exitcode Q1.converge (g.res r) = finishFlags Q.exitcode Q.converge r := by
      rw [hx.1, hx.2]
      cases r <;> rfl
    cases h
    have he : (g.res r).error? = r.error? := by cases r <;> rfl
    have hst : (g.res r).st = g.st r.st := by cases r <;> rfl
    refine ⟨_, by rw [he], ?_, ?_, ?_⟩
    · simp only [QLaw.finish, hst]; rfl
    · simp only [QLaw.finish, hf]
    · simp only [QLaw.finish, hf]
  obtain ⟨Q'', a1, a2, a3⟩ := hs
  refine ⟨Q'', a1, ?_, a3⟩
  cases h
  have : H = r.st.hist := by
    injection hH with hH
    exact hH.symm
  rw [this]
  exact a2

end

end PyQ
