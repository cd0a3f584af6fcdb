import Verif.Props.Consulted
import Verif.Proofs.Agree
import Verif.Props.GenRun

/-! # Settings a run does not use (C138) -/

set_option linter.unusedSectionVars false
set_option maxRecDepth 100000
set_option synthInstance.maxSize 1000

namespace PyQ

section general
variable {α : Type} [Add α] [Sub α] [Mul α] [Div α] [Neg α] [NatCast α] [Pow α ℕ]
  [PyTrans α] [PyOrd α] [PyNan α]

/-- the same object with another configuration -/
def QLaw.withCfg (Q : QLaw α) (C : Config α) : QLaw α := { Q with cfg := C }

theorem loop_cfg {E E' : Env α} (hp : E'.prob = E.prob) (h : ∀ s, iter E' s = iter E s) :
    ∀ (f : ℕ) (s : LoopSt α), loop E' f s = loop E f s := by
  intro f
  induction f with
  | zero => intro s; rfl
  | succ f ih =>
    intro s
    rw [loop_succ, loop_succ, hp, h s]
    cases iter E s with
    | cont s' => simp only [ih s']
    | brk s' c => rfl
    | err s' e => rfl

theorem solve_cfg {Q : QLaw α} {C : Config α} {etaA etaR : EtaArg α}
    (h : ∀ P, Q.prob = some P → ∀ s, iter { cfg := C, prob := P, etaA := etaA, etaR := etaR } s =
      iter { cfg := Q.cfg, prob := P, etaA := etaA, etaR := etaR } s) (f : ℕ) :
    (Q.withCfg C).solve etaA etaR f = (Q.solve etaA etaR f).map fun p => (p.1.withCfg C, p.2) := by
  unfold QLaw.solve
  have h1 : (Q.withCfg C).ready = Q.ready := rfl
  have h2 : (Q.withCfg C).prob = Q.prob := rfl
  have h3 : (Q.withCfg C).cfg = C := rfl
  rw [h1, h2, h3]
  cases Q.ready with
  | false => rfl
  | true =>
    cases hP : Q.prob with
    | none => rfl
    | some P =>
      dsimp only
      cases etaA.valid with
      | false => rfl
      | true =>
        simp only [if_true]
        rw [loop_cfg (E' := { cfg := C, prob := P, etaA := etaA, etaR := etaR }) (E := { cfg := Q.cfg, prob := P, etaA := etaA, etaR := etaR }) rfl (h P hP), Option.map_map]
        rfl

/-- an iteration with two configurations whose phases agree -/
theorem iter_cfg {E E' : Env α} {s : LoopSt α} (hp : E'.prob = E.prob)
    (h1 : clampPhase E'.cfg s = clampPhase E.cfg s)
    (h2 : ∀ x, chooseStep E'.cfg E.prob x = chooseStep E.cfg E.prob x)
    (h3 : ∀ s d, controlPhase E' s d = controlPhase E s d)
    (h4 : ∀ s st c, propagatePhase E' s st c = propagatePhase E s st c)
    (h5 : ∀ oeT s, exitPhase E' oeT s = exitPhase E oeT s) : iter E' s = iter E s := by
  unfold iter
  rw [h1]
  cases clampPhase E.cfg s with
  | error e => rfl
  | ok s1 =>
    dsimp only
    unfold bodyPhase
    simp only [hp, h2, h3, h4, h5]

/-- **C138, rk4.** With the fixed-step integrator, `ode_tol`, `step_min` and `step_max` have no effect. -/
theorem C138_rk4 (Q : QLaw α) (etaA etaR : EtaArg α) (f : ℕ) (hi : Q.cfg.integrator = .rk4) (tol mn mx : α) :
    (Q.withCfg { Q.cfg with odeTol := tol, stepMin := mn, stepMax := mx }).solve etaA etaR f =
      (Q.solve etaA etaR f).map fun p =>
        (p.1.withCfg { Q.cfg with odeTol := tol, stepMin := mn, stepMax := mx }, p.2) := by
  apply solve_cfg
  intro P _ s
  refine iter_cfg rfl rfl (fun _ => rfl) (fun _ _ => rfl) ?_ (fun _ _ => rfl)
  intro s st c
  unfold propagatePhase
  simp only [hi]

/-- **C138, MEE.** With modified equinoctial elements, the element bounds have no effect. -/
theorem C138_bounds (Q : QLaw α) (etaA etaR : EtaArg α) (f : ℕ) (hi : Q.cfg.elementsType = .meeWithA)
    (lo hi' : List α) :
    (Q.withCfg { Q.cfg with oeMin := lo, oeMax := hi' }).solve etaA etaR f =
      (Q.solve etaA etaR f).map fun p => (p.1.withCfg { Q.cfg with oeMin := lo, oeMax := hi' }, p.2) := by
  apply solve_cfg
  intro P _ s
  refine iter_cfg rfl ?_ (fun _ => rfl) (fun _ _ => rfl) (fun _ _ _ => rfl) (fun _ _ => rfl)
  unfold clampPhase
  simp only [hi]

/-- **C138, thresholds off.** While no threshold is positive, the number of anomalies at which the orbit is sampled
has no effect. -/
theorem C138_grid (Q : QLaw α) (etaA etaR : EtaArg α) (f : ℕ)
    (hA : ∀ t x m b v, thresholdAt etaA t x m b = .ok v → PyOrd.lt ((0 : ℕ) : α) v = false)
    (hR : ∀ t x m b v, thresholdAt etaR t x m b = .ok v → PyOrd.lt ((0 : ℕ) : α) v = false) (n : ℕ) :
    (Q.withCfg { Q.cfg with anomalyGridSize := n }).solve etaA etaR f =
      (Q.solve etaA etaR f).map fun p => (p.1.withCfg { Q.cfg with anomalyGridSize := n }, p.2) := by
  apply solve_cfg
  intro P _ s
  refine iter_cfg rfl rfl (fun _ => rfl) ?_ (fun _ _ _ => rfl) (fun _ _ => rfl)
  intro s d
  unfold controlPhase
  dsimp only
  cases asVec5 P.oeT with
  | error e => rfl
  | ok oeT =>
    show (lyapunovControlAngles Q.cfg.dyn.lyapFun (lyapArgs Q.cfg P oeT (PyOrd.sign d.step * P.tmax / s.mass) s.oe)).bind _ =
      (lyapunovControlAngles Q.cfg.dyn.lyapFun (lyapArgs Q.cfg P oeT (PyOrd.sign d.step * P.tmax / s.mass) s.oe)).bind _
    cases lyapunovControlAngles Q.cfg.dyn.lyapFun (lyapArgs Q.cfg P oeT (PyOrd.sign d.step * P.tmax / s.mass) s.oe) with
    | error e => rfl
    | ok o =>
      simp only [Except.bind]
      cases d.duty with
      | false => rfl
      | true =>
        simp only [if_true]
        cases PyNan.isnan o.alpha || PyNan.isnan o.beta with
        | true => rfl
        | false =>
          simp only [Bool.false_eq_true, if_false]
          cases ha : evalEta etaA s.t s.oe s.mass s.battery with
          | error e => rfl
          | ok ea =>
            cases hr : evalEta etaR s.t s.oe s.mass s.battery with
            | error e => rfl
            | ok er =>
              rw [thresholdAt_eq] at ha hr
              have g1 := hA _ _ _ _ _ ha
              have g2 := hR _ _ _ _ _ hr
              show (if PyOrd.lt ((0 : ℕ) : α) er || PyOrd.lt ((0 : ℕ) : α) ea then _ else _) =
                (if PyOrd.lt ((0 : ℕ) : α) er || PyOrd.lt ((0 : ℕ) : α) ea then _ else _)
              simp only [g1, g2, Bool.or_false, Bool.false_eq_true, if_false]

theorem angles_args {f : LyapArgs α → LyapOut α} {A A' : LyapArgs α} (h : f A' = f A) (hf : A'.f = A.f) :
    lyapunovControlAngles f A' = lyapunovControlAngles f A := by
  unfold lyapunovControlAngles
  rw [h, hf]

/-- the control phase when the generated functions give the same for two settings -/
theorem control_args {C C' : Config α} {P : Problem α} {etaA etaR : EtaArg α} (hd : C'.dyn = C.dyn)
    (hn : C'.nanAnglesThreshold = C.nanAnglesThreshold) (hg : C'.anomalyGridSize = C.anomalyGridSize)
    (h1 : ∀ oeT a x, C.dyn.lyapFun (lyapArgs C' P oeT a x) = C.dyn.lyapFun (lyapArgs C P oeT a x))
    (h2 : ∀ oeT a x, C.dyn.dqdtFun (lyapArgs C' P oeT a x) = C.dyn.dqdtFun (lyapArgs C P oeT a x))
    (s : LoopSt α) (d : DutyRes α) :
    controlPhase { cfg := C', prob := P, etaA := etaA, etaR := etaR } s d =
      controlPhase { cfg := C, prob := P, etaA := etaA, etaR := etaR } s d := by
  have h3 : ∀ oeT a x, lyapunovControlAngles C.dyn.lyapFun (lyapArgs C' P oeT a x) =
      lyapunovControlAngles C.dyn.lyapFun (lyapArgs C P oeT a x) := fun oeT a x => angles_args (h1 oeT a x) rfl
  have h4 : ∀ oeT x a, evaluateOsculatingQdot C' P oeT x a = evaluateOsculatingQdot C P oeT x a := by
    intro oeT x a
    unfold evaluateOsculatingQdot
    simp only [hd, hg, h2]
  unfold controlPhase
  simp only [hd, hn, h3, h4]

theorem map_bind_fst {β γ δ : Type} (x : Except PyErr β) (g : β → Except PyErr (γ × δ)) :
    (x >>= g).map Prod.fst = x >>= fun b => (g b).map Prod.fst := by
  cases x <;> rfl

theorem ndiv_tol {γ δ : Type} (tol n : α) (y : γ) (g : α → δ) :
    (ndiv tol n >>= fun q => (pure (y, g q) : Except PyErr (γ × δ)).map Prod.fst) =
      if PyOrd.eq n ((0 : ℕ) : α) then .error .zeroDivision else .ok y := by
  unfold ndiv
  cases PyOrd.eq n ((0 : ℕ) : α) <;> rfl

/-- the state returned by `rkf45` does not depend on its tolerance -/
theorem rkf45_tol {n : ℕ} {P : Type} (rhs : α → (Fin n → α) → P → Except PyErr (Fin n → α)) (t h : α) (y : Fin n → α)
    (p : P) (tol tol' : α) : (rkf45 rhs t h y p tol').map Prod.fst = (rkf45 rhs t h y p tol).map Prod.fst := by
  unfold rkf45
  simp only [map_bind_fst, ndiv_tol]

variable [PyLog α]

/-- **C138, MEE and b_petro.** With modified equinoctial elements and the generated functions, `b_petro` has no
effect. -/
theorem C138_b_petro (Q : QLaw α) (etaA etaR : EtaArg α) (f : ℕ) (hd : Q.cfg.dyn = genDyn .meeWithA) (b : α) :
    (Q.withCfg { Q.cfg with bPetro := b }).solve etaA etaR f =
      (Q.solve etaA etaR f).map fun p => (p.1.withCfg { Q.cfg with bPetro := b }, p.2) := by
  apply solve_cfg
  intro P _ s
  refine iter_cfg rfl rfl (fun _ => rfl) ?_ (fun _ _ _ => rfl) (fun _ _ => rfl)
  refine control_args (hd := ?_) (hn := ?_) (hg := ?_) ?_ ?_
  · rfl
  · rfl
  · rfl
  · intro oeT a x
    rw [hd]; rfl
  · intro oeT a x
    rw [hd]; rfl

end general

noncomputable section penalty

theorem zero_jet {x y : SymJet ℝ} (h : x.der.isSome = y.der.isSome) :
    SymJet.const (0 : ℝ) * x = SymJet.const (0 : ℝ) * y := by
  obtain ⟨x, dx⟩ := x
  obtain ⟨y, dy⟩ := y
  show (⟨0 * x, _⟩ : SymJet ℝ) = ⟨0 * y, _⟩
  cases dx <;> cases dy <;> simp [SymJet.const, SymJet.oadd] at h ⊢

theorem kepPenalty_der (A : LyapArgs ℝ) (j : Fin 5) :
    (kepPenalty (A.jet j)).der.isSome = decide (j = 0 ∨ j = 1) := by
  fin_cases j <;> rfl

theorem meePenalty_der (A : LyapArgs ℝ) (j : Fin 5) :
    (meePenalty (A.jet j)).der.isSome = decide (j = 0 ∨ j = 1 ∨ j = 2) := by
  fin_cases j <;> rfl

theorem kepQ_free (A : LyapArgs ℝ) (hw : A.wp = 0) (rp k : ℝ) : kepQ { A with rpmin := rp, k := k } = kepQ A := by
  unfold kepQ
  simp only [hw, zero_mul]
  rfl

theorem meeQ_free (A : LyapArgs ℝ) (hw : A.wp = 0) (rp k : ℝ) : meeQ { A with rpmin := rp, k := k } = meeQ A := by
  unfold meeQ
  simp only [hw, zero_mul]
  rfl

theorem kepGrad_free (A : LyapArgs ℝ) (hw : A.wp = 0) (rp k : ℝ) (j : Fin 5) :
    kepGrad { A with rpmin := rp, k := k } j = kepGrad A j := by
  unfold kepGrad kepQ
  have h1 : ({ A with rpmin := rp, k := k } : LyapArgs ℝ).jet j =
    { A.jet j with rpmin := .const rp, k := .const k } := rfl
  have h2 : (({ A with rpmin := rp, k := k } : LyapArgs ℝ).jet j).wp = SymJet.const 0 := by
    simp only [LyapArgs.jet, hw]
  have h3 : (A.jet j).wp = SymJet.const 0 := by simp only [LyapArgs.jet, hw]
  have h4 : SymJet.const (0 : ℝ) * kepPenalty (({ A with rpmin := rp, k := k } : LyapArgs ℝ).jet j) =
      SymJet.const (0 : ℝ) * kepPenalty (A.jet j) := zero_jet (by rw [kepPenalty_der, kepPenalty_der])
  simp only [h2, h3, h4]
  rfl

theorem meeGrad_free (A : LyapArgs ℝ) (hw : A.wp = 0) (rp k : ℝ) (j : Fin 5) :
    meeGrad { A with rpmin := rp, k := k } j = meeGrad A j := by
  unfold meeGrad meeQ
  have h2 : (({ A with rpmin := rp, k := k } : LyapArgs ℝ).jet j).wp = SymJet.const 0 := by
    simp only [LyapArgs.jet, hw]
  have h3 : (A.jet j).wp = SymJet.const 0 := by simp only [LyapArgs.jet, hw]
  have h4 : SymJet.const (0 : ℝ) * meePenalty (({ A with rpmin := rp, k := k } : LyapArgs ℝ).jet j) =
      SymJet.const (0 : ℝ) * meePenalty (A.jet j) := zero_jet (by rw [meePenalty_der, meePenalty_der])
  simp only [h2, h3, h4]
  rfl

variable [PyNan ℝ]

/-- **C138, no penalty.** With `wp = 0` and the generated functions of either element set, `rpmin` and `k_petro` have
no effect. -/
theorem C138_penalty (Q : QLaw ℝ) (etaA etaR : EtaArg ℝ) (f : ℕ) (hd : Q.cfg.dyn = genDyn Q.cfg.elementsType)
    (hw : Q.cfg.wp = 0) (rp k : ℝ) :
    (Q.withCfg { Q.cfg with rpmin := rp, kPetro := k }).solve etaA etaR f =
      (Q.solve etaA etaR f).map fun p => (p.1.withCfg { Q.cfg with rpmin := rp, kPetro := k }, p.2) := by
  apply solve_cfg
  intro P _ s
  refine iter_cfg rfl rfl (fun _ => rfl) ?_ (fun _ _ _ => rfl) (fun _ _ => rfl)
  have hA : ∀ oeT a x, lyapArgs { Q.cfg with rpmin := rp, kPetro := k } P oeT a x =
      { lyapArgs Q.cfg P oeT a x with rpmin := rp, k := k } := fun _ _ _ => rfl
  cases ht : Q.cfg.elementsType with
  | keplerian =>
    rw [ht] at hd
    refine control_args (hd := ?_) (hn := ?_) (hg := ?_) ?_ ?_
    · rfl
    · rfl
    · rfl
    · intro oeT a x
      have g1 := kepQ_free (lyapArgs Q.cfg P oeT a x) hw rp k
      have g2 := funext fun j => kepGrad_free (lyapArgs Q.cfg P oeT a x) hw rp k j
      rw [hd, hA]
      simp only [genDyn, g1, g2]
      rfl
    · intro oeT a x
      have g2 := funext fun j => kepGrad_free (lyapArgs Q.cfg P oeT a x) hw rp k j
      rw [hd, hA]
      simp only [genDyn, g2]
      rfl
  | meeWithA =>
    rw [ht] at hd
    refine control_args (hd := ?_) (hn := ?_) (hg := ?_) ?_ ?_
    · rfl
    · rfl
    · rfl
    · intro oeT a x
      have g1 := meeQ_free (lyapArgs Q.cfg P oeT a x) hw rp k
      have g2 := funext fun j => meeGrad_free (lyapArgs Q.cfg P oeT a x) hw rp k j
      rw [hd, hA]
      simp only [genDyn, g1, g2]
      rfl
    · intro oeT a x
      have g2 := funext fun j => meeGrad_free (lyapArgs Q.cfg P oeT a x) hw rp k j
      rw [hd, hA]
      simp only [genDyn, g2]
      rfl

end penalty

section idle
variable {α : Type} [Add α] [Sub α] [Mul α] [Div α] [Neg α] [NatCast α] [Pow α ℕ]
  [PyTrans α] [PyOrd α] [PyNan α]

theorem propagate_tol (E : Env α) (tol mn mx : α) (s : LoopSt α) (st : α) (c : Ctl α) :
    (propagatePhase { E with cfg := { E.cfg with odeTol := tol, stepMin := mn, stepMax := mx } } s st c).map Prod.fst =
      (propagatePhase E s st c).map Prod.fst := by
  have key : ∀ (tol mn mx : α) (p : OdeParams α),
      ((rkf45 E.cfg.dyn.eom s.t st s.oe p tol >>= fun x =>
        (pure (x.1, pymax mn (pymin mx x.2)) : Except PyErr ((Fin 6 → α) × α))).map Prod.fst) =
      (rkf45 E.cfg.dyn.eom s.t st s.oe p tol).map Prod.fst := by
    intro tol mn mx p
    cases rkf45 E.cfg.dyn.eom s.t st s.oe p tol <;> rfl
  have key2 : ∀ p : OdeParams α,
      ((rkf45 E.cfg.dyn.eom s.t st s.oe p tol >>= fun x =>
        (pure (x.1, pymax mn (pymin mx x.2)) : Except PyErr ((Fin 6 → α) × α))).map Prod.fst) =
      ((rkf45 E.cfg.dyn.eom s.t st s.oe p E.cfg.odeTol >>= fun x =>
        (pure (x.1, pymax E.cfg.stepMin (pymin E.cfg.stepMax x.2)) : Except PyErr ((Fin 6 → α) × α))).map Prod.fst) :=
    fun p => (key tol mn mx p).trans ((rkf45_tol _ _ _ _ _ E.cfg.odeTol tol).trans (key _ _ _ p).symm)
  unfold propagatePhase
  dsimp only
  cases hI : E.cfg.integrator with
  | rk4 => rfl
  | rkf45 =>
    cases hp : E.cfg.perturbations with
    | none => exact key2 _
    | some f =>
      dsimp only
      cases f s.t s.oe E.cfg.elementsType with
      | error e => rfl
      | ok w => exact key2 _

theorem iter_tol {E : Env α} {tol mn mx : α} {s : LoopSt α}
    (hb : ∀ b du ch h h', batteryPhase E.prob b du ch h = batteryPhase E.prob b du ch h') :
    iter { E with cfg := { E.cfg with odeTol := tol, stepMin := mn, stepMax := mx } } s = iter E s := by
  unfold iter
  have h1 : clampPhase { E.cfg with odeTol := tol, stepMin := mn, stepMax := mx } s = clampPhase E.cfg s := rfl
  dsimp only
  rw [h1]
  cases clampPhase E.cfg s with
  | error e => rfl
  | ok s1 =>
    dsimp only
    unfold bodyPhase
    dsimp only
    have h2 : chooseStep { E.cfg with odeTol := tol, stepMin := mn, stepMax := mx } E.prob s1.oe =
      chooseStep E.cfg E.prob s1.oe := rfl
    rw [h2]
    cases chooseStep E.cfg E.prob s1.oe with
    | error e => rfl
    | ok st =>
      have h3 : controlPhase { E with cfg := { E.cfg with odeTol := tol, stepMin := mn, stepMax := mx } } s1
        (dutyPhase E.prob s1 st) = controlPhase E s1 (dutyPhase E.prob s1 st) := rfl
      dsimp only
      rw [h3]
      cases controlPhase E s1 (dutyPhase E.prob s1 st) with
      | error e => rfl
      | ok c =>
        cases c with
        | nanBreak n => rfl
        | ctl c =>
          dsimp only
          have hp := propagate_tol E tol mn mx s1 (dutyPhase E.prob s1 st).step c
          generalize propagatePhase { E with cfg := { E.cfg with odeTol := tol, stepMin := mn, stepMax := mx } } s1
            (dutyPhase E.prob s1 st).step c = a at hp ⊢
          cases hy : propagatePhase E s1 (dutyPhase E.prob s1 st).step c with
          | error e =>
            rw [hy] at hp
            cases a with
            | error e' => simp only [Except.map] at hp; injection hp with hp; subst hp; rfl
            | ok a => simp [Except.map] at hp
          | ok y =>
            rw [hy] at hp
            cases a with
            | error e' => simp [Except.map] at hp
            | ok a =>
              obtain ⟨a1, a2⟩ := a
              obtain ⟨y1, y2⟩ := y
              simp only [Except.map] at hp
              injection hp with hp
              subst hp
              dsimp only
              rw [hb s1.battery (dutyPhase E.prob s1 st).duty (dutyPhase E.prob s1 st).charging a2 y2]
              rfl

end idle

section real
variable [PyNan ℝ]

/-- **C138, rkf45.** With battery rates zero, `ode_tol`, `step_min` and `step_max` have no effect with either
integrator: the step suggested by the variable-step formula only enters the battery level. -/
theorem C138_rkf45 (Q : QLaw ℝ) (etaA etaR : EtaArg ℝ) (f : ℕ)
    (hr : ∀ P, Q.prob = some P → P.chargeRate = 0 ∧ P.dischargeRate = 0) (tol mn mx : ℝ) :
    (Q.withCfg { Q.cfg with odeTol := tol, stepMin := mn, stepMax := mx }).solve etaA etaR f =
      (Q.solve etaA etaR f).map fun p =>
        (p.1.withCfg { Q.cfg with odeTol := tol, stepMin := mn, stepMax := mx }, p.2) := by
  apply solve_cfg
  intro P hP s
  refine iter_tol (E := { cfg := Q.cfg, prob := P, etaA := etaA, etaR := etaR }) ?_
  intro b du ch h h'
  unfold batteryPhase
  rw [(hr P hP).1, (hr P hP).2]
  simp

end real

/-- the toy transfer, which uses rk4 and zero thresholds, does not look at the grid or at the integrator's tolerances;
with a positive threshold an empty grid raises `ValueError` -/
example : Toy.cfg.integrator = .rk4 ∧
    Toy.seen { Toy.cfg with anomalyGridSize := 0, odeTol := .nan, stepMax := .fin 0 } Toy.prob Toy.z Toy.z 10 =
      some (none, 1, true, 4) ∧
    (Toy.seen { Toy.cfg with anomalyGridSize := 0 } Toy.prob (.flt (.fin (1 / 2))) Toy.z 10).map (fun r => r.1) =
      some (some .valueError) := by
  refine ⟨rfl, ?_, ?_⟩ <;> decide +kernel

/-- zero thresholds are not positive -/
example : ∀ (t : Toy.N) x m b v, thresholdAt Toy.z t x m b = .ok v → PyOrd.lt ((0 : ℕ) : Toy.N) v = false := by
  intro t x m b v h
  have hv : v = .fin 0 := (Except.ok.inj h).symm
  subst hv
  decide +kernel

end PyQ
