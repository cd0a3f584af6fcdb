import Verif.Proofs.Trace

/-! # Case analysis of the control phase, and of one recorded step (law-free) -/

set_option linter.unusedSectionVars false

namespace PyQ

variable {α : Type} [Add α] [Sub α] [Mul α] [Div α] [Neg α] [NatCast α] [Pow α ℕ]
  [PyTrans α] [PyOrd α] [PyNan α]

/-- the thrust acceleration used at a step, `_qlaw.py:426` -/
def accelOf (E : Env α) (s : LoopSt α) (d : DutyRes α) : α :=
  PyOrd.sign d.step * E.prob.tmax / s.mass

/-- the control law evaluated at a step -/
def lawAt (E : Env α) (s : LoopSt α) (d : DutyRes α) (oeT : Fin 5 → α) :
    Except PyErr (ControlOut α) :=
  lyapunovControlAngles E.cfg.dyn.lyapFun (lyapArgs E.cfg E.prob oeT (accelOf E s d) s.oe)

/-- the four ways the control phase can produce a control -/
inductive CtlKind (E : Env α) (s : LoopSt α) (d : DutyRes α) (o : ControlOut α) (c : Ctl α) : Prop
  | off (hd : d.duty = false) (ha : c.alpha = s.alpha) (hb : c.beta = s.beta)
      (ht : c.throttle = 0) (hu : c.u = zero3) (hn : c.nNan = s.nNan)
      (hva : c.valA = PyNan.nan) (hvr : c.valR = PyNan.nan)
      (hea : c.etaA = PyNan.nan) (her : c.etaR = PyNan.nan)
  | nan (hd : d.duty = true) (hnan : (PyNan.isnan o.alpha || PyNan.isnan o.beta) = true)
      (hthr : ((s.nNan + 1 : ℕ) : ℤ) ≤ E.cfg.nanAnglesThreshold)
      (ha : c.alpha = some ((0 : ℕ) : α)) (hb : c.beta = some ((0 : ℕ) : α))
      (ht : c.throttle = 0) (hu : c.u = zero3) (hn : c.nNan = s.nNan + 1)
      (hva : c.valA = PyNan.nan) (hvr : c.valR = PyNan.nan)
      (hea : c.etaA = PyNan.nan) (her : c.etaR = PyNan.nan)
  | free (hd : d.duty = true) (hnan : (PyNan.isnan o.alpha || PyNan.isnan o.beta) = false)
      (hea : evalEta E.etaA s.t s.oe s.mass s.battery = .ok c.etaA)
      (her : evalEta E.etaR s.t s.oe s.mass s.battery = .ok c.etaR)
      (hpos : (PyOrd.lt ((0 : ℕ) : α) c.etaR || PyOrd.lt ((0 : ℕ) : α) c.etaA) = false)
      (ha : c.alpha = some o.alpha) (hb : c.beta = some o.beta) (ht : c.throttle = 1)
      (hu : c.u = vsmul (accelOf E s d) (dirOf o.alpha o.beta)) (hn : c.nNan = s.nNan)
      (hva : c.valA = PyNan.nan) (hvr : c.valR = PyNan.nan)
  | gated (mx mn : α) (hd : d.duty = true)
      (hnan : (PyNan.isnan o.alpha || PyNan.isnan o.beta) = false)
      (hea : evalEta E.etaA s.t s.oe s.mass s.battery = .ok c.etaA)
      (her : evalEta E.etaR s.t s.oe s.mass s.battery = .ok c.etaR)
      (hpos : (PyOrd.lt ((0 : ℕ) : α) c.etaR || PyOrd.lt ((0 : ℕ) : α) c.etaA) = true)
      (hq : evaluateOsculatingQdot E.cfg E.prob c.oeT s.oe (accelOf E s d) = .ok (mx, mn))
      (hva : c.valA = PyOrd.abs (o.dqdt / mx))
      (hvr : c.valR = PyOrd.abs ((o.dqdt - mn) / (mx - mn)))
      (ha : c.alpha = some o.alpha) (hb : c.beta = some o.beta)
      (ht : c.throttle = if PyOrd.lt c.valA c.etaA || PyOrd.lt c.valR c.etaR then 0 else 1)
      (hu : c.u = if PyOrd.lt c.valA c.etaA || PyOrd.lt c.valR c.etaR then zero3
        else vsmul (accelOf E s d) (dirOf o.alpha o.beta)) (hn : c.nNan = s.nNan)

theorem control_ctl {E : Env α} {s : LoopSt α} {d : DutyRes α} {c : Ctl α}
    (h : controlPhase E s d = .ok (.ctl c)) :
    ∃ o, asVec5 E.prob.oeT = .ok c.oeT ∧ lawAt E s d c.oeT = .ok o ∧
      c.psi = o.psi ∧ c.q = o.q ∧ c.qdot = o.dqdt ∧ CtlKind E s d o c := by
  unfold controlPhase at h
  dsimp only at h
  cases h1 : asVec5 E.prob.oeT with
  | error e => rw [h1] at h; cases h
  | ok oeT =>
    rw [h1] at h
    simp only [bind, Except.bind] at h
    cases h2 : lyapunovControlAngles E.cfg.dyn.lyapFun
        (lyapArgs E.cfg E.prob oeT (PyOrd.sign d.step * E.prob.tmax / s.mass) s.oe) with
    | error e => rw [h2] at h; cases h
    | ok o =>
      rw [h2] at h
      simp only [pure, Except.pure] at h
      cases hd : d.duty with
      | false =>
        simp only [hd] at h
        cases h
        exact ⟨o, rfl, h2, rfl, rfl, rfl, .off hd rfl rfl rfl rfl rfl rfl rfl rfl rfl⟩
      | true =>
        simp only [hd, if_true] at h
        cases hn : (PyNan.isnan o.alpha || PyNan.isnan o.beta) with
        | true =>
          simp only [hn, if_true] at h
          by_cases h3 : ((s.nNan + 1 : ℕ) : ℤ) > E.cfg.nanAnglesThreshold
          · simp only [h3, if_true] at h; cases h
          · simp only [h3, if_false] at h
            cases h
            exact ⟨o, rfl, h2, rfl, rfl, rfl,
              .nan hd hn (by omega) rfl rfl rfl rfl rfl rfl rfl rfl rfl⟩
        | false =>
          simp only [hn] at h
          cases h4 : evalEta E.etaA s.t s.oe s.mass s.battery with
          | error e => rw [h4] at h; cases h
          | ok ea =>
            cases h5 : evalEta E.etaR s.t s.oe s.mass s.battery with
            | error e => rw [h4, h5] at h; cases h
            | ok er =>
              rw [h4, h5] at h
              simp only at h
              cases hp : (PyOrd.lt ((0 : ℕ) : α) er || PyOrd.lt ((0 : ℕ) : α) ea) with
              | false =>
                simp only [hp] at h
                cases h
                exact ⟨o, rfl, h2, rfl, rfl, rfl,
                  .free hd hn h4 h5 hp rfl rfl rfl rfl rfl rfl rfl⟩
              | true =>
                simp only [hp] at h
                cases h6 : evaluateOsculatingQdot E.cfg E.prob oeT s.oe
                    (PyOrd.sign d.step * E.prob.tmax / s.mass) with
                | error e => rw [h6] at h; cases h
                | ok p =>
                  obtain ⟨mx, mn⟩ := p
                  rw [h6] at h
                  cases h
                  exact ⟨o, rfl, h2, rfl, rfl, rfl,
                    .gated mx mn hd hn h4 h5 hp h6 rfl rfl rfl rfl rfl rfl rfl⟩

theorem control_nanBreak {E : Env α} {s : LoopSt α} {d : DutyRes α} {n : ℕ}
    (h : controlPhase E s d = .ok (.nanBreak n)) :
    ∃ oeT o, asVec5 E.prob.oeT = .ok oeT ∧ lawAt E s d oeT = .ok o ∧ d.duty = true ∧
      (PyNan.isnan o.alpha || PyNan.isnan o.beta) = true ∧ n = s.nNan + 1 ∧
      ((s.nNan + 1 : ℕ) : ℤ) > E.cfg.nanAnglesThreshold := by
  unfold controlPhase at h
  dsimp only at h
  cases h1 : asVec5 E.prob.oeT with
  | error e => rw [h1] at h; cases h
  | ok oeT =>
    rw [h1] at h
    simp only [bind, Except.bind] at h
    cases h2 : lyapunovControlAngles E.cfg.dyn.lyapFun
        (lyapArgs E.cfg E.prob oeT (PyOrd.sign d.step * E.prob.tmax / s.mass) s.oe) with
    | error e => rw [h2] at h; cases h
    | ok o =>
      rw [h2] at h
      simp only [pure, Except.pure] at h
      cases hd : d.duty with
      | false => simp only [hd] at h; cases h
      | true =>
        simp only [hd, if_true] at h
        cases hn : (PyNan.isnan o.alpha || PyNan.isnan o.beta) with
        | true =>
          simp only [hn, if_true] at h
          by_cases h3 : ((s.nNan + 1 : ℕ) : ℤ) > E.cfg.nanAnglesThreshold
          · simp only [h3, if_true] at h
            cases h
            exact ⟨oeT, o, rfl, h2, rfl, hn, rfl, h3⟩
          · simp only [h3, if_false] at h; cases h
        | false =>
          simp only [hn] at h
          cases h4 : evalEta E.etaA s.t s.oe s.mass s.battery with
          | error e => rw [h4] at h; cases h
          | ok ea =>
            cases h5 : evalEta E.etaR s.t s.oe s.mass s.battery with
            | error e => rw [h4, h5] at h; cases h
            | ok er =>
              rw [h4, h5] at h
              simp only at h
              cases hp : (PyOrd.lt ((0 : ℕ) : α) er || PyOrd.lt ((0 : ℕ) : α) ea) with
              | false => simp only [hp] at h; cases h
              | true =>
                simp only [hp] at h
                cases h6 : evaluateOsculatingQdot E.cfg E.prob oeT s.oe
                    (PyOrd.sign d.step * E.prob.tmax / s.mass) with
                | error e => rw [h6] at h; cases h
                | ok p =>
                  rw [h6] at h; cases h

theorem control_throttle {E : Env α} {s : LoopSt α} {d : DutyRes α} {c : Ctl α}
    (h : controlPhase E s d = .ok (.ctl c)) : c.throttle = 0 ∨ c.throttle = 1 := by
  obtain ⟨o, _, _, _, _, _, hk⟩ := control_ctl h
  cases hk with
  | off hd ha hb ht => exact Or.inl ht
  | nan hd hnan hthr ha hb ht => exact Or.inl ht
  | free hd hnan hea her hpos ha hb ht => exact Or.inr ht
  | gated mx mn hd hnan hea her hpos hq hva hvr ha hb ht hu =>
    rw [ht]; split <;> simp

end PyQ
