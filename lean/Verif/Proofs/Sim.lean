import Verif.Proofs.Exit
import Verif.RealInst

/-! # Two runs with the same dynamics whose problems differ in scale (real arithmetic)

`E` and `E'` differ in the target, the weights and by a common factor `km` in mass, thrust, mass flow
and mass limit; the control law of `E'` gives the same angles with `Q` and its rate multiplied by `kq`.
Then every iteration of `E'` is the iteration of `E` with masses multiplied by `km` and `Q` and `dQ/dt`
by `kq`. -/

set_option linter.unusedSectionVars false

namespace PyQ

variable [PyNan ℝ]

/-- histories with masses and `Q` values rescaled -/
def Hist.scaled (kq km : ℝ) (h : Hist ℝ) : Hist ℝ :=
  { h with masses := h.masses.map (km * ·), qs := h.qs.map (kq * ·), dqdts := h.dqdts.map (kq * ·) }

/-- loop variables with mass and histories rescaled -/
def LoopSt.scaled (kq km : ℝ) (s : LoopSt ℝ) : LoopSt ℝ :=
  { s with mass := km * s.mass, hist := s.hist.scaled kq km }

/-- outcome of an iteration, rescaled -/
def Outcome.scaled (kq km : ℝ) : Outcome ℝ → Outcome ℝ
  | .cont s => .cont (s.scaled kq km)
  | .brk s c => .brk (s.scaled kq km) c
  | .err s e => .err (s.scaled kq km) e

/-- end of a run, rescaled -/
def RunRes.scaled (kq km : ℝ) : RunRes ℝ → RunRes ℝ
  | .timeout s => .timeout (s.scaled kq km)
  | .exit s c => .exit (s.scaled kq km) c
  | .raised s e => .raised (s.scaled kq km) e

/-- the problem with another target and other weights, and all masses and forces multiplied by `km` -/
def Problem.scaled (km : ℝ) (oeT : List ℝ) (woe : Fin 5 → ℝ) (P : Problem ℝ) : Problem ℝ :=
  { P with oeT := oeT, woe := woe, mass0 := km * P.mass0, tmax := km * P.tmax,
           mdot := km * P.mdot, massMin := km * P.massMin }

/-- output of the control law with `Q` and its rate multiplied -/
def ControlOut.scaled (kq : ℝ) (o : ControlOut ℝ) : ControlOut ℝ :=
  { o with q := kq * o.q, dqdt := kq * o.dqdt }

/-- a control with `Q` and its rate multiplied, and another target recorded -/
def CtlRes.scaled (kq : ℝ) (v : Fin 5 → ℝ) : CtlRes ℝ → CtlRes ℝ
  | .ctl c => .ctl { c with q := kq * c.q, qdot := kq * c.qdot, oeT := v }
  | .nanBreak n => .nanBreak n

/-- what the control law, the rate over the orbit and the convergence check of two problems must have
in common, for five-component targets `v` and `v'` -/
structure LawSim (C : Config ℝ) (P P' : Problem ℝ) (kq : ℝ) (v v' : Fin 5 → ℝ) : Prop where
  law : ∀ accel oe, lyapunovControlAngles C.dyn.lyapFun (lyapArgs C P' v' accel oe) =
    (lyapunovControlAngles C.dyn.lyapFun (lyapArgs C P v accel oe)).map (ControlOut.scaled kq)
  rate : ∀ accel oe, C.dyn.dqdtFun (lyapArgs C P' v' accel oe) =
    kq * C.dyn.dqdtFun (lyapArgs C P v accel oe)
  conv : ∀ oe tol, C.dyn.checkConv oe v' P'.woe tol = C.dyn.checkConv oe v P.woe tol

/-- the two problems are comparable -/
structure Sim (E : Env ℝ) (kq km : ℝ) (oeT : List ℝ) (woe : Fin 5 → ℝ) : Prop where
  kq0 : 0 < kq
  km0 : 0 < km
  etaA : ∀ t oe m b, evalEta E.etaA t oe (km * m) b = evalEta E.etaA t oe m b
  etaR : ∀ t oe m b, evalEta E.etaR t oe (km * m) b = evalEta E.etaR t oe m b
  tgt : (∃ e, asVec5 E.prob.oeT = .error e ∧ asVec5 oeT = .error e) ∨
    ∃ v v', asVec5 E.prob.oeT = .ok v ∧ asVec5 oeT = .ok v' ∧
      LawSim E.cfg E.prob (E.prob.scaled km oeT woe) kq v v'

/-- the second environment -/
def Env.scaled (km : ℝ) (oeT : List ℝ) (woe : Fin 5 → ℝ) (E : Env ℝ) : Env ℝ :=
  { E with prob := E.prob.scaled km oeT woe }

theorem foldl_pymax_scale {k : ℝ} (hk : 0 < k) (l : List ℝ) : ∀ x : ℝ,
    (l.map (k * ·)).foldl pymax (k * x) = k * l.foldl pymax x := by
  induction l with
  | nil => intro x; rfl
  | cons y l ih =>
    intro x
    have h : pymax (k * x) (k * y) = k * pymax x y := by
      unfold pymax
      simp only [lt_real, decide_eq_true_eq, mul_lt_mul_iff_right₀ hk]
      split <;> rfl
    simp only [List.map_cons, List.foldl_cons, h, ih]

theorem foldl_pymin_scale {k : ℝ} (hk : 0 < k) (l : List ℝ) : ∀ x : ℝ,
    (l.map (k * ·)).foldl pymin (k * x) = k * l.foldl pymin x := by
  induction l with
  | nil => intro x; rfl
  | cons y l ih =>
    intro x
    have h : pymin (k * x) (k * y) = k * pymin x y := by
      unfold pymin
      simp only [lt_real, decide_eq_true_eq, mul_lt_mul_iff_right₀ hk]
      split <;> rfl
    simp only [List.map_cons, List.foldl_cons, h, ih]

theorem osculating_scale {C : Config ℝ} {P P' : Problem ℝ} {kq : ℝ} {v v' : Fin 5 → ℝ}
    (h : LawSim C P P' kq v v') (hk : 0 < kq) (oe : Fin 6 → ℝ) (accel : ℝ) :
    evaluateOsculatingQdot C P' v' oe accel =
      (evaluateOsculatingQdot C P v oe accel).map fun p => (kq * p.1, kq * p.2) := by
  unfold evaluateOsculatingQdot
  simp only [h.rate]
  generalize ((linspace (oe 5) (oe 5 + ((2 : ℕ) : ℝ) * PyTrans.pi) (C.anomalyGridSize + 1)).drop 1) = pts
  have hm : (pts.map fun anomaly => kq * C.dyn.dqdtFun
      (lyapArgs C P v accel ![oe 0, oe 1, oe 2, oe 3, oe 4, anomaly])) =
      (pts.map fun anomaly => C.dyn.dqdtFun
      (lyapArgs C P v accel ![oe 0, oe 1, oe 2, oe 3, oe 4, anomaly])).map (kq * ·) := by
    rw [List.map_map]; rfl
  rw [hm]
  generalize (pts.map fun anomaly => C.dyn.dqdtFun
      (lyapArgs C P v accel ![oe 0, oe 1, oe 2, oe 3, oe 4, anomaly])) = l
  cases l with
  | nil => rfl
  | cons x l =>
    simp only [List.map_cons, pymaxList, pyminList, foldl_pymax_scale hk, foldl_pymin_scale hk]
    rfl

theorem control_scale {E : Env ℝ} {kq km : ℝ} {oeT : List ℝ} {woe : Fin 5 → ℝ} {v v' : Fin 5 → ℝ}
    (hS : Sim E kq km oeT woe) (h1 : asVec5 E.prob.oeT = .ok v) (h2 : asVec5 oeT = .ok v')
    (h : LawSim E.cfg E.prob (E.prob.scaled km oeT woe) kq v v') (s : LoopSt ℝ) (d : DutyRes ℝ) :
    controlPhase (E.scaled km oeT woe) (s.scaled kq km) d =
      (controlPhase E s d).map (CtlRes.scaled kq v') := by
  have hacc : PyOrd.sign d.step * (km * E.prob.tmax) / (km * s.mass) =
      PyOrd.sign d.step * E.prob.tmax / s.mass := by
    rw [mul_left_comm, mul_div_mul_left _ _ hS.km0.ne']
  unfold controlPhase
  have e1 : (E.scaled km oeT woe).prob.oeT = oeT := rfl
  have e2 : (E.scaled km oeT woe).prob.tmax = km * E.prob.tmax := rfl
  have e3 : (s.scaled kq km).mass = km * s.mass := rfl
  have e4 : (E.scaled km oeT woe).cfg = E.cfg := rfl
  have e5 : (s.scaled kq km).oe = s.oe := rfl
  have e6 : (E.scaled km oeT woe).prob = E.prob.scaled km oeT woe := rfl
  have e7 : (E.scaled km oeT woe).etaA = E.etaA := rfl
  have e8 : (E.scaled km oeT woe).etaR = E.etaR := rfl
  have e9 : (s.scaled kq km).t = s.t := rfl
  have e10 : (s.scaled kq km).battery = s.battery := rfl
  have e11 : (s.scaled kq km).nNan = s.nNan := rfl
  have e12 : (s.scaled kq km).alpha = s.alpha := rfl
  have e13 : (s.scaled kq km).beta = s.beta := rfl
  simp only [e1, e2, e3, e4, e5, e7, e8, e9, e10, e11, e12, e13, hacc, h1, h2, bind, Except.bind, pure, Except.pure]
  rw [e6, h.law]
  cases lyapunovControlAngles E.cfg.dyn.lyapFun
      (lyapArgs E.cfg E.prob v (PyOrd.sign d.step * E.prob.tmax / s.mass) s.oe) with
  | error e => rfl
  | ok o =>
    simp only [Except.map, ControlOut.scaled, hS.etaA, hS.etaR]
    cases hd : d.duty with
    | false => simp [CtlRes.scaled]
    | true =>
      simp only [if_true]
      cases (PyNan.isnan o.alpha || PyNan.isnan o.beta) with
      | true =>
        simp only [if_true]
        split <;> simp [CtlRes.scaled]
      | false =>
        simp only [Bool.false_eq_true, if_false]
        cases evalEta E.etaA s.t s.oe s.mass s.battery with
        | error e => rfl
        | ok ea =>
          cases evalEta E.etaR s.t s.oe s.mass s.battery with
          | error e => rfl
          | ok er =>
            simp only
            cases (PyOrd.lt ((0 : ℕ) : ℝ) er || PyOrd.lt ((0 : ℕ) : ℝ) ea) with
            | false => simp [CtlRes.scaled]
            | true =>
              simp only [if_true]
              rw [osculating_scale h hS.kq0]
              cases evaluateOsculatingQdot E.cfg E.prob v s.oe
                  (PyOrd.sign d.step * E.prob.tmax / s.mass) with
              | error e => rfl
              | ok p =>
                have q1 : kq * o.dqdt / (kq * p.1) = o.dqdt / p.1 := mul_div_mul_left _ _ hS.kq0.ne'
                have q2 : (kq * o.dqdt - kq * p.2) / (kq * p.1 - kq * p.2) =
                    (o.dqdt - p.2) / (p.1 - p.2) := by
                  rw [← mul_sub, ← mul_sub, mul_div_mul_left _ _ hS.kq0.ne']
                simp only [Except.map, q1, q2, CtlRes.scaled]

theorem exit_scale {E : Env ℝ} {kq km : ℝ} {oeT : List ℝ} {woe : Fin 5 → ℝ} {v v' : Fin 5 → ℝ}
    (hS : Sim E kq km oeT woe)
    (h : LawSim E.cfg E.prob (E.prob.scaled km oeT woe) kq v v') (s : LoopSt ℝ) :
    exitPhase (E.scaled km oeT woe) v' (s.scaled kq km) = (exitPhase E v s).scaled kq km := by
  unfold exitPhase
  have e5 : (s.scaled kq km).oe = s.oe := rfl
  have e4 : (E.scaled km oeT woe).cfg = E.cfg := rfl
  have e6 : (E.scaled km oeT woe).prob = E.prob.scaled km oeT woe := rfl
  have e7 : (s.scaled kq km).nRelaxed = s.nRelaxed := rfl
  have e3 : PyOrd.le (s.scaled kq km).mass (E.prob.scaled km oeT woe).massMin =
      PyOrd.le s.mass E.prob.massMin := by
    show PyOrd.le (km * s.mass) (km * E.prob.massMin) = _
    simp only [le_real, mul_le_mul_iff_right₀ hS.km0]
  simp only [e5, e4, e6, e7, h.conv, e3]
  split
  · rfl
  · split
    · split
      · rfl
      · split <;> rfl
    · split
      · rfl
      · split <;> rfl

theorem clamp_scale (C : Config ℝ) (kq km : ℝ) (s : LoopSt ℝ) :
    clampPhase C (s.scaled kq km) = (clampPhase C s).map (LoopSt.scaled kq km) := by
  unfold clampPhase
  cases C.elementsType with
  | meeWithA => rfl
  | keplerian =>
    show (do let oe ← elementsSafety s.oe C.oeMin C.oeMax; _) = _
    cases elementsSafety s.oe C.oeMin C.oeMax <;> rfl

theorem store_scale (h : Hist ℝ) (t : ℝ) (oe : Fin 6 → ℝ) (mass bat : ℝ) (c : Ctl ℝ) (kq km : ℝ)
    (v : Fin 5 → ℝ) :
    storePhase (h.scaled kq km) t oe (km * mass) bat
      { c with q := kq * c.q, qdot := kq * c.qdot, oeT := v } =
    ((storePhase h t oe mass bat c).1.scaled kq km, (storePhase h t oe mass bat c).2) := by
  unfold storePhase
  dsimp only
  cases c.alpha <;> cases c.beta <;> simp [Hist.scaled]

theorem iter_scale {E : Env ℝ} {kq km : ℝ} {oeT : List ℝ} {woe : Fin 5 → ℝ}
    (hS : Sim E kq km oeT woe) (s : LoopSt ℝ) :
    iter (E.scaled km oeT woe) (s.scaled kq km) = (iter E s).scaled kq km := by
  unfold iter
  have e4 : (E.scaled km oeT woe).cfg = E.cfg := rfl
  rw [e4, clamp_scale]
  cases clampPhase E.cfg s with
  | error e => rfl
  | ok s1 =>
    show bodyPhase (E.scaled km oeT woe) (s1.scaled kq km) = (bodyPhase E s1).scaled kq km
    unfold bodyPhase
    have ec : chooseStep (E.scaled km oeT woe).cfg (E.scaled km oeT woe).prob (s1.scaled kq km).oe =
        chooseStep E.cfg E.prob s1.oe := rfl
    rw [ec]
    cases chooseStep E.cfg E.prob s1.oe with
    | error e => rfl
    | ok st =>
      have ed : dutyPhase (E.scaled km oeT woe).prob (s1.scaled kq km) st =
        dutyPhase E.prob s1 st := rfl
      simp only [ed]
      generalize dutyPhase E.prob s1 st = d
      rcases hS.tgt with ⟨e, h1, h2⟩ | ⟨v, v', h1, h2, h⟩
      · have c1 : controlPhase E s1 d = .error e := by
          unfold controlPhase
          simp only [h1, bind, Except.bind]
        have c2 : controlPhase (E.scaled km oeT woe) (s1.scaled kq km) d = .error e := by
          unfold controlPhase
          have : (E.scaled km oeT woe).prob.oeT = oeT := rfl
          simp only [this, h2, bind, Except.bind]
        rw [c1, c2]
        rfl
      · rw [control_scale hS h1 h2 h]
        cases hc : controlPhase E s1 d with
        | error e => rfl
        | ok r =>
          cases r with
          | nanBreak n => rfl
          | ctl c =>
            have hv : c.oeT = v := by
              obtain ⟨o, ho, _⟩ := control_ctl hc
              rw [h1] at ho; injection ho with ho; exact ho.symm
            simp only [Except.map, CtlRes.scaled]
            have ep : propagatePhase (E.scaled km oeT woe) (s1.scaled kq km) d.step
                { c with q := kq * c.q, qdot := kq * c.qdot, oeT := v' } =
                propagatePhase E s1 d.step c := rfl
            rw [ep]
            cases propagatePhase E s1 d.step c with
            | error e => rfl
            | ok p =>
              obtain ⟨oeNext, hBat⟩ := p
              simp only
              have em : (if c.throttle = 1 then (s1.scaled kq km).mass -
                  (E.scaled km oeT woe).prob.mdot * d.step else (s1.scaled kq km).mass) =
                  km * (if c.throttle = 1 then s1.mass - E.prob.mdot * d.step else s1.mass) := by
                show (if c.throttle = 1 then km * s1.mass - km * E.prob.mdot * d.step
                  else km * s1.mass) = _
                split
                · ring
                · rfl
              rw [em]
              have eb : batteryPhase (E.scaled km oeT woe).prob (s1.scaled kq km).battery d.duty
                  d.charging hBat = batteryPhase E.prob s1.battery d.duty d.charging hBat := rfl
              rw [eb]
              generalize batteryPhase E.prob s1.battery d.duty d.charging hBat = bc
              generalize (if c.throttle = 1 then s1.mass - E.prob.mdot * d.step else s1.mass) = m'
              have es : (s1.scaled kq km).hist = s1.hist.scaled kq km := rfl
              have et : (s1.scaled kq km).t = s1.t := rfl
              rw [es, et, store_scale]
              simp only
              cases (storePhase s1.hist (s1.t + d.step) oeNext m' bc.1 c).2 with
              | some e => rfl
              | none =>
                simp only
                rw [hv]
                exact exit_scale hS h
                  { t := s1.t + d.step, oe := oeNext, mass := m', battery := bc.1,
                    hist := (storePhase s1.hist (s1.t + d.step) oeNext m' bc.1 c).1,
                    nRelaxed := s1.nRelaxed, nNan := c.nNan, duty := d.duty, tOn := d.tOn,
                    tOff := d.tOff, charging := bc.2, alpha := c.alpha, beta := c.beta }

theorem loop_scale {E : Env ℝ} {kq km : ℝ} {oeT : List ℝ} {woe : Fin 5 → ℝ}
    (hS : Sim E kq km oeT woe) : ∀ (f : ℕ) (s : LoopSt ℝ),
    loop (E.scaled km oeT woe) f (s.scaled kq km) = (loop E f s).map (RunRes.scaled kq km) := by
  intro f
  induction f with
  | zero => intro s; rfl
  | succ f ih =>
    intro s
    have hg : guardB (E.scaled km oeT woe).prob (s.scaled kq km) = guardB E.prob s := rfl
    unfold loop
    rw [hg, iter_scale hS]
    cases guardB E.prob s with
    | false => rfl
    | true =>
      simp only [if_true]
      cases iter E s with
      | cont s' => exact ih s'
      | brk s' c => rfl
      | err s' c => rfl

/-- the object of the second problem -/
def QLaw.scaledProb (Q : QLaw ℝ) (km : ℝ) (oeT : List ℝ) (woe : Fin 5 → ℝ) : QLaw ℝ :=
  { Q with prob := Q.prob.map (Problem.scaled km oeT woe) }

/-- an object with its problem and its results rescaled -/
def QLaw.scaled (kq km : ℝ) (oeT : List ℝ) (woe : Fin 5 → ℝ) (Q : QLaw ℝ) : QLaw ℝ :=
  { Q with prob := Q.prob.map (Problem.scaled km oeT woe), hist := Q.hist.map (Hist.scaled kq km) }

theorem solve_scale {Q Q' : QLaw ℝ} {P : Problem ℝ} {kq km : ℝ} {oeT : List ℝ} {woe : Fin 5 → ℝ}
    {etaA etaR : EtaArg ℝ} {fuel : ℕ} {e : Option PyErr} (hP : Q.prob = some P)
    (hr : Q.ready = true) (hv : etaA.valid = true)
    (hS : Sim (envOf Q P etaA etaR) kq km oeT woe)
    (h : Q.solve etaA etaR fuel = some (Q', e)) :
    (Q.scaledProb km oeT woe).solve etaA etaR fuel = some (Q'.scaled kq km oeT woe, e) := by
  have hP' : (Q.scaledProb km oeT woe).prob = some (P.scaled km oeT woe) := by
    simp [QLaw.scaledProb, hP]
  have hr' : (Q.scaledProb km oeT woe).ready = true := hr
  simp only [QLaw.solve, hP, hr, hv, if_true, Option.map_eq_some_iff] at h
  simp only [QLaw.solve, hP', hr', hv, if_true, Option.map_eq_some_iff]
  obtain ⟨r, hl, h⟩ := h
  cases h
  refine ⟨r.scaled kq km, ?_, ?_⟩
  · have h0 : initLoop (P.scaled km oeT woe) = (initLoop P).scaled kq km := rfl
    have := loop_scale hS fuel (initLoop P)
    rw [h0]
    have hl' : loop (envOf Q P etaA etaR) fuel (initLoop P) = some r := hl
    rw [hl'] at this
    exact this
  · cases r <;> rfl

end PyQ
