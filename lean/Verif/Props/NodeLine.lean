import Verif.Props.Outcome
import Verif.Proofs.View
import Verif.Examples.Toy

/-! # Orbits with `f = 0` cannot be propagated (C110)

The equations of motion for equinoctial elements compute the true anomaly from `arctan(g/f)`
(`_eom.py:86`) although they do not use it, and in compiled code a division by zero raises. -/

set_option linter.unusedSectionVars false
set_option maxRecDepth 100000

namespace PyQ

variable {α : Type} [Add α] [Sub α] [Mul α] [Div α] [Neg α] [NatCast α] [Pow α ℕ]
  [PyTrans α] [PyOrd α] [PyNan α]

theorem eomMee_zero {t : α} {y : Fin 6 → α} (P : OdeParams α) (h : PyOrd.eq (y 1) ((0 : ℕ) : α) = true) :
    eomMeeWithAGauss t y P = .error .zeroDivision := by
  simp only [eomMeeWithAGauss, ndiv, h, if_true]
  rfl

theorem rk4_error {f : α → (Fin 6 → α) → OdeParams α → Except PyErr (Fin 6 → α)} {t h : α}
    {y : Fin 6 → α} {p : OdeParams α} {e : PyErr} (hf : f t y p = .error e) :
    rk4 f t h y p = .error e := by
  simp only [rk4, hf]; rfl

theorem rkf45_error {f : α → (Fin 6 → α) → OdeParams α → Except PyErr (Fin 6 → α)} {t h tol : α}
    {y : Fin 6 → α} {p : OdeParams α} {e : PyErr} (hf : f t y p = .error e) :
    rkf45 f t h y p tol = .error e := by
  simp only [rkf45, hf]; rfl

theorem propagate_zero {E : Env α} {s : LoopSt α} {step : α} {c : Ctl α}
    (hd : E.cfg.dyn.eom = eomMeeWithAGauss) (h : PyOrd.eq (s.oe 1) ((0 : ℕ) : α) = true) :
    ∃ e, propagatePhase E s step c = .error e ∧ (E.cfg.perturbations = none → e = .zeroDivision) := by
  unfold propagatePhase
  cases hp : E.cfg.perturbations with
  | none =>
    refine ⟨.zeroDivision, ?_, fun _ => rfl⟩
    cases hi : E.cfg.integrator with
    | rk4 => simp only [hd, hi, hp, pure_bind, rk4_error (eomMee_zero _ h)]; rfl
    | rkf45 => simp only [hd, hi, hp, pure_bind, rkf45_error (eomMee_zero _ h)]; rfl
  | some f =>
    cases hf : f s.t s.oe E.cfg.elementsType with
    | error e => exact ⟨e, by simp only [hp, hf]; rfl, by simp⟩
    | ok v =>
      refine ⟨.zeroDivision, ?_, by simp⟩
      cases hi : E.cfg.integrator with
      | rk4 => simp only [hd, hi, hp, hf, rk4_error (eomMee_zero _ h)]; rfl
      | rkf45 => simp only [hd, hi, hp, hf, rkf45_error (eomMee_zero _ h)]; rfl

/-- C110: in any arithmetic, no run ever takes a step from a state whose `f` equals zero: every
recorded state except the last has `f ≠ 0` -/
theorem C110_no_step {Q Q' : QLaw α} {etaA etaR : EtaArg α} {fuel : ℕ} {P : Problem α} {H : Hist α}
    (h : Q.solve etaA etaR fuel = some (Q', none)) (hP : Q.prob = some P) (hH : Q'.hist = some H)
    (hd : Q.cfg.dyn.eom = eomMeeWithAGauss) {k : ℕ} (hk : k + 1 < H.states.length) {y : Fin 6 → α}
    (hy : H.states[k]? = some y) : PyOrd.eq (y 1) ((0 : ℕ) : α) = false := by
  obtain ⟨n, tr, D, r, hr, -, v⟩ := solve_view h hP hH
  have hkn : k < n := by rw [v.statesLen] at hk; omega
  have hy' : H.states.dropLast[k]? = some y := by
    rw [List.getElem?_dropLast]
    simp only [show k < H.states.length - 1 by omega, if_true]
    exact hy
  rw [v.statesInit, List.getElem?_map, List.getElem?_range hkn] at hy'
  simp only [Option.map_some, Option.some.injEq] at hy'
  subst hy'
  by_contra hz
  rw [Bool.not_eq_false] at hz
  have hs := v.trace.step k hkn
  obtain ⟨e, he, -⟩ := propagate_zero (E := envOf Q P etaA etaR) (s := (D k).s1) (step := (D k).d.step)
    (c := (D k).c) hd hz
  have := hs.prop
  rw [he] at this
  cases this

/-- C110: a run that starts with `f` equal to zero records no step: unless `tf_max` is zero it raises,
or stops with exit code -3 -/
theorem C110_start {Q : QLaw α} {etaA etaR : EtaArg α} {fuel : ℕ} {P : Problem α}
    (hr : Q.ready = true) (hP : Q.prob = some P) (hv : etaA.valid = true)
    (he : Q.cfg.elementsType = .meeWithA) (hd : Q.cfg.dyn.eom = eomMeeWithAGauss)
    (hf : PyOrd.eq (P.oe0 1) ((0 : ℕ) : α) = true)
    (hg : PyOrd.lt (PyOrd.abs ((0 : ℕ) : α)) (PyOrd.abs P.tfMax) = true) :
    ∃ Q' e, Q.solve etaA etaR (fuel + 1) = some (Q', e) ∧
      Q'.hist = some (initLoop P).hist ∧ (e = none → Q'.exitcode = -3) := by
  have hguard : guardB P (initLoop P) = true := hg
  have hc : clampPhase Q.cfg (initLoop P) = .ok (initLoop P) := by
    simp only [clampPhase, he]; rfl
  have key : ∀ E : Env α, E.cfg = Q.cfg → E.prob = P →
      (∃ e, iter E (initLoop P) = .err (initLoop P) e) ∨
      (∃ s, iter E (initLoop P) = .brk s (-3) ∧ s.hist = (initLoop P).hist) := by
    intro E hE hEP
    unfold iter
    rw [hE, hc]
    simp only [bodyPhase]
    split
    · exact Or.inl ⟨_, rfl⟩
    · split
      · exact Or.inl ⟨_, rfl⟩
      · exact Or.inr ⟨_, rfl, rfl⟩
      · rename_i step0 _ _ c hcl
        obtain ⟨e, he, -⟩ := propagate_zero (E := E) (s := initLoop P)
          (step := (dutyPhase E.prob (initLoop P) step0).step) (c := c) (by rw [hE]; exact hd) hf
        rw [he]
        exact Or.inl ⟨_, rfl⟩
  unfold QLaw.solve
  simp only [hr, hP, hv, if_true, loop, hguard]
  rcases key { cfg := Q.cfg, prob := P, etaA := etaA, etaR := etaR } rfl rfl with ⟨e, h⟩ | ⟨s, h, hs⟩
  · simp only [h]
    exact ⟨_, _, rfl, rfl, by simp [RunRes.error?]⟩
  · simp only [h]
    refine ⟨_, _, rfl, ?_, ?_⟩
    · simp [QLaw.finish, RunRes.st, hs]
    · intro _
      simp [QLaw.finish, finishFlags]

theorem osculating_defined {C : Config α} (P : Problem α) (oeT : Fin 5 → α) (oe : Fin 6 → α) (accel : α)
    (hg : 0 < C.anomalyGridSize) : ∃ p, evaluateOsculatingQdot C P oeT oe accel = .ok p := by
  obtain ⟨n, hn⟩ : ∃ n, C.anomalyGridSize = n + 1 := ⟨C.anomalyGridSize - 1, by omega⟩
  unfold evaluateOsculatingQdot
  rw [hn]
  dsimp only
  generalize hl : ((linspace (oe 5) (oe 5 + ((2 : ℕ) : α) * PyTrans.pi) (n + 1 + 1)).drop 1).map _ = l
  cases l with
  | nil =>
    have := congrArg List.length hl
    simp [linspace] at this
  | cons x xs => exact ⟨_, rfl⟩

/-- the exceptions of the control phase when the target has five components, the thresholds are
numbers and the anomaly grid is not empty -/
theorem control_exception {E : Env α} {s : LoopSt α} {d : DutyRes α} {e : PyErr}
    (h : controlPhase E s d = .error e) (h5 : E.prob.oeT.length = 5)
    (ha : ∀ t y m b, ∃ x, evalEta E.etaA t y m b = .ok x)
    (hr : ∀ t y m b, ∃ x, evalEta E.etaR t y m b = .ok x) (hg : 0 < E.cfg.anomalyGridSize) :
    e = .zeroDivision := by
  have h1 : ∃ v, asVec5 E.prob.oeT = .ok v := by
    match hl : E.prob.oeT, h5 with
    | [a, b, c, d, e], _ => exact ⟨_, rfl⟩
  obtain ⟨v, h1⟩ := h1
  unfold controlPhase at h
  simp only [h1, Bind.bind, Except.bind] at h
  cases h2 : lyapunovControlAngles E.cfg.dyn.lyapFun
      (lyapArgs E.cfg E.prob v (PyOrd.sign d.step * E.prob.tmax / s.mass) s.oe) with
  | error e' =>
    rw [h2] at h
    cases h
    simp only [lyapunovControlAngles, uToThrustAngles, ndiv] at h2
    split at h2
    · cases h2; rfl
    · cases h2
  | ok o =>
    rw [h2] at h
    obtain ⟨ea, h3⟩ := ha s.t s.oe s.mass s.battery
    obtain ⟨er, h4⟩ := hr s.t s.oe s.mass s.battery
    obtain ⟨p, h6⟩ := osculating_defined E.prob v s.oe (PyOrd.sign d.step * E.prob.tmax / s.mass) hg
    simp only [h3, h4, h6, pure, Except.pure] at h
    split_ifs at h

/-- C110: without perturbations, with a target of five components, numbers as thresholds, a non-empty
anomaly grid and NaN angles tolerated at least once, the exception is `ZeroDivisionError` -/
theorem C110_raises {Q : QLaw α} {etaA etaR : EtaArg α} {fuel : ℕ} {P : Problem α}
    (hr : Q.ready = true) (hP : Q.prob = some P) (hv : etaA.valid = true)
    (he : Q.cfg.elementsType = .meeWithA) (hd : Q.cfg.dyn.eom = eomMeeWithAGauss)
    (hf : PyOrd.eq (P.oe0 1) ((0 : ℕ) : α) = true)
    (hg : PyOrd.lt (PyOrd.abs ((0 : ℕ) : α)) (PyOrd.abs P.tfMax) = true)
    (hp : Q.cfg.perturbations = none) (hS : Q.cfg.useSundman = false) (h5 : P.oeT.length = 5)
    (hea : ∀ t y m b, ∃ x, evalEta etaA t y m b = .ok x)
    (her : ∀ t y m b, ∃ x, evalEta etaR t y m b = .ok x) (hgr : 0 < Q.cfg.anomalyGridSize)
    (hn : 1 ≤ Q.cfg.nanAnglesThreshold) :
    ∃ Q', Q.solve etaA etaR (fuel + 1) = some (Q', some .zeroDivision) ∧
      Q'.hist = some (initLoop P).hist ∧ Q'.exitcode = Q.exitcode ∧ Q'.converge = Q.converge := by
  have hguard : guardB P (initLoop P) = true := hg
  have hc : clampPhase Q.cfg (initLoop P) = .ok (initLoop P) := by
    simp only [clampPhase, he]; rfl
  have key : iter { cfg := Q.cfg, prob := P, etaA := etaA, etaR := etaR } (initLoop P) =
      .err (initLoop P) .zeroDivision := by
    unfold iter
    rw [show (Env.cfg { cfg := Q.cfg, prob := P, etaA := etaA, etaR := etaR }) = Q.cfg from rfl, hc]
    simp only [bodyPhase, chooseStep, hS]
    cases hcl : controlPhase { cfg := Q.cfg, prob := P, etaA := etaA, etaR := etaR } (initLoop P)
        (dutyPhase P (initLoop P) P.tStep) with
    | error e =>
      have := control_exception hcl h5 hea her hgr
      subst this
      simp only [Bool.false_eq_true, if_false, pure, Except.pure, hcl]
    | ok c =>
      cases c with
      | nanBreak n =>
        obtain ⟨_, _, _, _, _, _, _, h⟩ := control_nanBreak hcl
        have : (initLoop P).nNan = 0 := rfl
        rw [this] at h
        change ((0 + 1 : ℕ) : ℤ) > Q.cfg.nanAnglesThreshold at h
        omega
      | ctl c =>
        obtain ⟨e, he, h0⟩ := propagate_zero (E := { cfg := Q.cfg, prob := P, etaA := etaA, etaR := etaR })
          (s := initLoop P) (step := (dutyPhase P (initLoop P) P.tStep).step) (c := c) hd hf
        rw [h0 hp] at he
        simp only [Bool.false_eq_true, if_false, pure, Except.pure, hcl, he]
  unfold QLaw.solve
  simp only [hr, hP, hv, if_true, loop, hguard, key]
  exact ⟨_, rfl, rfl, rfl, rfl⟩

/-! ## a concrete case: the toy transfer, which starts on a circular orbit, with the package's equations -/

example : ∃ Q', (Toy.obj { Toy.cfg with dyn := { Toy.cfg.dyn with eom := eomMeeWithAGauss } } Toy.prob).solve
    Toy.z Toy.z 5 = some (Q', some .zeroDivision) ∧ Q'.hist = some (initLoop Toy.prob).hist := by
  obtain ⟨Q', h, h', -⟩ := C110_raises (fuel := 4) (etaA := Toy.z) (etaR := Toy.z) (P := Toy.prob)
    (Q := Toy.obj { Toy.cfg with dyn := { Toy.cfg.dyn with eom := eomMeeWithAGauss } } Toy.prob)
    rfl rfl rfl rfl rfl (by decide) (by decide) rfl rfl rfl (fun _ _ _ _ => ⟨_, rfl⟩) (fun _ _ _ _ => ⟨_, rfl⟩)
    (by decide) (by decide)
  exact ⟨Q', h, h'⟩

end PyQ
