import Verif.Props.Units

/-! # The origin of the angles (real arithmetic)

C83: measuring the RAAN from another direction changes nothing else. C85: target angles matter only modulo
full turns. -/

set_option linter.unusedSectionVars false
set_option maxRecDepth 100000

noncomputable section

namespace PyQ

/-- RAAN measured from a direction turned back by `φ` -/
def raanChg (φ : ℝ) : Chg where
  t := 1
  a := 1
  m := 1
  q := 1
  s := fun _ => 1
  c := ![0, 0, 0, φ, 0, 0]

/-- elements with the RAAN increased by `φ` -/
def turned (φ : ℝ) (x : Fin 6 → ℝ) : Fin 6 → ℝ := ![x 0, x 1, x 2, x 3 + φ, x 4, x 5]

theorem raanChg_dir (φ : ℝ) (d : Fin 3 → ℝ) : (raanChg φ).dir d = d :=
  Chg.dir_one _ rfl d

theorem raanChg_x (φ : ℝ) (x : Fin 6 → ℝ) : (raanChg φ).x x = turned φ x := by
  funext i
  match i with
  | 0 | 1 | 2 | 3 | 4 | 5 => simp [Chg.x, raanChg, turned]

theorem turned_vadd (φ : ℝ) (x : Fin 6 → ℝ) : turned φ x = vadd x ![0, 0, 0, φ, 0, 0] := by
  funext i
  match i with
  | 0 | 1 | 2 | 3 | 4 | 5 => simp [turned, vadd]

/-- a call with the RAAN and its target increased by `φ` -/
def LyapArgs.turn (φ : ℝ) (A : LyapArgs ℝ) : LyapArgs ℝ :=
  { A with oe := turned φ A.oe, oeT := ![A.oeT 0, A.oeT 1, A.oeT 2, A.oeT 3 + φ, A.oeT 4] }

theorem restates_raan (φ : ℝ) : Restates (raanChg φ) (LyapArgs.turn φ) := by
  refine ⟨fun _ => one_ne_zero, fun A => (raanChg_x φ A.oe).symm, ?_⟩
  intro A j y
  unfold LyapArgs.setOe LyapArgs.turn
  simp only
  congr 1
  funext i
  match i, j with
  | 0, 0 => simp [raanChg, turned]
  | 1, 0 | 2, 0 | 3, 0 | 4, 0 | 5, 0 => simp [turned]
  | 0, 1 | 2, 1 | 3, 1 | 4, 1 | 5, 1 => simp [turned]
  | 0, 2 | 1, 2 | 3, 2 | 4, 2 | 5, 2 => simp [turned]
  | 0, 3 | 1, 3 | 2, 3 | 4, 3 | 5, 3 => simp [turned]
  | 0, 4 | 1, 4 | 2, 4 | 3, 4 | 5, 4 => simp [turned]
  | 1, 1 => simp [raanChg, turned]
  | 2, 2 => simp [raanChg, turned]
  | 3, 3 => simp [raanChg, turned]
  | 4, 4 => simp [raanChg, turned]

theorem kepQ_raan (φ : ℝ) (A : LyapArgs ℝ) : kepQ (A.turn φ) = (raanChg φ).q * kepQ A := by
  have e1 : kepOedot (A.turn φ) = kepOedot A := rfl
  have e2 : kepPenalty (A.turn φ) = kepPenalty A := rfl
  have e3 : kepSoe (A.turn φ) = kepSoe A := rfl
  have e4 : kepDoe (A.turn φ) = kepDoe A := by
    funext i
    match i with
    | 0 | 1 | 2 | 4 => rfl
    | 3 => simp [kepDoe, LyapArgs.turn, turned]
  have ew : (A.turn φ).woe = A.woe := rfl
  have ep : (A.turn φ).wp = A.wp := rfl
  simp only [kepQ, e1, e2, e3, e4, ew, ep]
  simp [raanChg]

theorem raanChg_psi (φ : ℝ) (p : Fin 3 → Fin 5 → ℝ) : (raanChg φ).psi p = p := by
  funext c j
  simp only [Chg.psi, raanChg_dir]
  simp [raanChg]

theorem raanChg_acc (φ : ℝ) (u : Fin 3 → ℝ) : (raanChg φ).acc u = u := by
  funext c
  simp only [Chg.acc, raanChg_dir]
  simp [raanChg]

theorem kepPsi_raan (φ : ℝ) (A : LyapArgs ℝ) : kepPsi (A.turn φ) = (raanChg φ).psi (kepPsi A) := by
  rw [raanChg_psi]
  rfl

/-- the settings with the RAAN bounds increased by `φ` -/
def Config.turn (φ : ℝ) (pert : Option (ℝ → (Fin 6 → ℝ) → ElemType → Except PyErr (Fin 3 → ℝ)))
    (C : Config ℝ) : Config ℝ :=
  { C with oeMin := C.oeMin.modify 3 (· + φ), oeMax := C.oeMax.modify 3 (· + φ), perturbations := pert }

/-- the problem with initial and target RAAN increased by `φ` -/
def Problem.turn (φ : ℝ) (P : Problem ℝ) : Problem ℝ :=
  { P with oe0 := turned φ P.oe0, oeT := P.oeT.modify 3 (· + φ) }

/-- the two perturbations are the same function of the orbit -/
def PertTurned (φ : ℝ) (et : ElemType)
    (f f' : Option (ℝ → (Fin 6 → ℝ) → ElemType → Except PyErr (Fin 3 → ℝ))) : Prop :=
  match f, f' with
  | none, none => True
  | some f, some f' => ∀ t x, f' t (turned φ x) et = f t x et
  | _, _ => False

theorem pymin_shift (k x y : ℝ) : pymin (x + k) (y + k) = pymin x y + k := by
  unfold pymin
  simp only [lt_real, add_lt_add_iff_right]
  split <;> rfl

theorem pymax_shift (k x y : ℝ) : pymax (x + k) (y + k) = pymax x y + k := by
  unfold pymax
  simp only [lt_real, add_lt_add_iff_right]
  split <;> rfl

theorem safety_raan (φ : ℝ) (x : Fin 6 → ℝ) (lo hi : List ℝ) :
    elementsSafety (turned φ x) (lo.modify 3 (· + φ)) (hi.modify 3 (· + φ)) =
      (elementsSafety x lo hi).map (turned φ) := by
  match lo, hi with
  | l0 :: l1 :: l2 :: l3 :: l4 :: lo, u0 :: u1 :: u2 :: u3 :: u4 :: hi =>
    simp only [List.modify_succ_cons, List.modify_zero_cons, elementsSafety, turned, Matrix.cons_val,
      pymax_shift, pymin_shift, Except.map]
  | [], _ => simp [elementsSafety, Except.map]
  | [_], _ => simp [elementsSafety, Except.map]
  | [_, _], _ => simp [elementsSafety, Except.map]
  | [_, _, _], _ => simp [elementsSafety, Except.map]
  | [_, _, _, _], _ => simp [elementsSafety, Except.map]
  | _ :: _ :: _ :: _ :: _ :: _, [] => simp [elementsSafety, Except.map]
  | _ :: _ :: _ :: _ :: _ :: _, [_] => simp [elementsSafety, Except.map]
  | _ :: _ :: _ :: _ :: _ :: _, [_, _] => simp [elementsSafety, Except.map]
  | _ :: _ :: _ :: _ :: _ :: _, [_, _, _] => simp [elementsSafety, Except.map]
  | _ :: _ :: _ :: _ :: _ :: _, [_, _, _, _] => simp [elementsSafety, Except.map]

section runs
variable [PyNan ℝ]

theorem propagate_raan {φ : ℝ} {E : Env ℝ} (hd : E.cfg.dyn = dynOf .keplerian) {P' : Problem ℝ}
    {etaA' etaR' : EtaArg ℝ}
    {pert : Option (ℝ → (Fin 6 → ℝ) → ElemType → Except PyErr (Fin 3 → ℝ))}
    (hp : PertTurned φ E.cfg.elementsType E.cfg.perturbations pert) (s : LoopSt ℝ) (h : ℝ)
    (v : Fin 5 → ℝ) (c : Ctl ℝ) :
    propagatePhase { cfg := E.cfg.turn φ pert, prob := P', etaA := etaA', etaR := etaR' }
        ((raanChg φ).st s) ((raanChg φ).t * h) ((raanChg φ).ctl v c) =
      (propagatePhase E s h c).map fun p => ((raanChg φ).x p.1, (raanChg φ).t * p.2) := by
  have e1 : (raanChg φ).t * h = h := one_mul h
  have e2 : ((raanChg φ).st s).t = s.t := one_mul s.t
  have e3 : ((raanChg φ).st s).oe = turned φ s.oe := raanChg_x φ s.oe
  have e4 : ((raanChg φ).ctl v c).u = c.u := raanChg_acc φ c.u
  have e5 : ((raanChg φ).ctl v c).psi = c.psi := raanChg_psi φ c.psi
  have e6 : (fun p : (Fin 6 → ℝ) × ℝ => ((raanChg φ).x p.1, (raanChg φ).t * p.2)) =
      fun p => (turned φ p.1, p.2) := by
    funext p
    rw [raanChg_x]
    simp [raanChg]
  have heom : ∀ t y p, E.cfg.dyn.eom t (turned φ y) p = E.cfg.dyn.eom t y p := by
    intro t y p
    rw [hd]
    rfl
  have k4 : ∀ p : OdeParams ℝ, rk4 E.cfg.dyn.eom s.t h (turned φ s.oe) p =
      (rk4 E.cfg.dyn.eom s.t h s.oe p).map (turned φ) := by
    intro p
    have := rk4_change (g := raanChg φ) (p := p) (p' := p) (F := E.cfg.dyn.eom) (F' := E.cfg.dyn.eom)
      one_ne_zero (fun t y => by
        rw [raanChg_x, heom]
        simp only [raanChg, one_mul, div_one]
        cases E.cfg.dyn.eom t y p <;> rfl) s.t h s.oe
    rw [show (raanChg φ).x = turned φ from funext (raanChg_x φ), e1] at this
    rwa [show (raanChg φ).t * s.t = s.t from one_mul _] at this
  have k45 : ∀ p : OdeParams ℝ, rkf45 E.cfg.dyn.eom s.t h (turned φ s.oe) p E.cfg.odeTol =
      (rkf45 E.cfg.dyn.eom s.t h s.oe p E.cfg.odeTol).map fun q => (turned φ q.1, q.2) := by
    intro p
    simp only [turned_vadd]
    exact rkf45_shift (fun t y => by rw [← turned_vadd, heom]) s.t h E.cfg.odeTol s.oe
  unfold propagatePhase
  rw [e1, e2, e3, e4, e5, e6]
  simp only [Config.turn]
  have go : ∀ ptrb : Fin 3 → ℝ, (match E.cfg.integrator with
      | .rk4 => do
        let oeNext ← PyQ.rk4 E.cfg.dyn.eom s.t h (turned φ s.oe)
          { mu := E.cfg.mu, u := c.u, psi0 := c.psi 0, psi1 := c.psi 1, psi2 := c.psi 2, ptrb := ptrb }
        pure (oeNext, h)
      | .rkf45 => do
        let (oeNext, hNext) ← PyQ.rkf45 E.cfg.dyn.eom s.t h (turned φ s.oe)
          { mu := E.cfg.mu, u := c.u, psi0 := c.psi 0, psi1 := c.psi 1, psi2 := c.psi 2, ptrb := ptrb }
          E.cfg.odeTol
        pure (oeNext, pymax E.cfg.stepMin (pymin E.cfg.stepMax hNext)) :
        Except PyErr ((Fin 6 → ℝ) × ℝ)) =
      (match E.cfg.integrator with
      | .rk4 => do
        let oeNext ← PyQ.rk4 E.cfg.dyn.eom s.t h s.oe
          { mu := E.cfg.mu, u := c.u, psi0 := c.psi 0, psi1 := c.psi 1, psi2 := c.psi 2, ptrb := ptrb }
        pure (oeNext, h)
      | .rkf45 => do
        let (oeNext, hNext) ← PyQ.rkf45 E.cfg.dyn.eom s.t h s.oe
          { mu := E.cfg.mu, u := c.u, psi0 := c.psi 0, psi1 := c.psi 1, psi2 := c.psi 2, ptrb := ptrb }
          E.cfg.odeTol
        pure (oeNext, pymax E.cfg.stepMin (pymin E.cfg.stepMax hNext)) :
        Except PyErr ((Fin 6 → ℝ) × ℝ)).map fun p => (turned φ p.1, p.2) := by
    intro ptrb
    cases E.cfg.integrator with
    | rk4 =>
      simp only [k4]
      cases rk4 E.cfg.dyn.eom s.t h s.oe
        { mu := E.cfg.mu, u := c.u, psi0 := c.psi 0, psi1 := c.psi 1, psi2 := c.psi 2, ptrb := ptrb } <;> rfl
    | rkf45 =>
      simp only [k45]
      cases rkf45 E.cfg.dyn.eom s.t h s.oe
        { mu := E.cfg.mu, u := c.u, psi0 := c.psi 0, psi1 := c.psi 1, psi2 := c.psi 2, ptrb := ptrb }
        E.cfg.odeTol <;> rfl
  cases hq : E.cfg.perturbations with
  | none =>
    rw [hq] at hp
    cases pert with
    | some f => exact hp.elim
    | none => exact go zero3
  | some f =>
    rw [hq] at hp
    cases pert with
    | none => exact hp.elim
    | some f' =>
      have e := hp s.t s.oe
      simp only [e]
      cases f s.t s.oe E.cfg.elementsType with
      | error e => rfl
      | ok a => exact go a

theorem choose_raan (φ : ℝ) (C : Config ℝ) (P : Problem ℝ)
    (pert : Option (ℝ → (Fin 6 → ℝ) → ElemType → Except PyErr (Fin 3 → ℝ))) (x : Fin 6 → ℝ) :
    chooseStep (C.turn φ pert) (P.turn φ) (turned φ x) = chooseStep C P x := rfl

theorem conv_raan (φ : ℝ) (x : Fin 6 → ℝ) (v w tol : Fin 5 → ℝ) :
    checkConvergenceKeplerian (turned φ x) ![v 0, v 1, v 2, v 3 + φ, v 4] w tol =
      checkConvergenceKeplerian x v w tol := by
  unfold checkConvergenceKeplerian
  simp [turned]

theorem change_raan {φ : ℝ} {Q : QLaw ℝ} {P : Problem ℝ} {etaA etaR etaA' etaR' : EtaArg ℝ}
    {pert : Option (ℝ → (Fin 6 → ℝ) → ElemType → Except PyErr (Fin 3 → ℝ))}
    (hd : Q.cfg.dyn = dynOf .keplerian)
    (hp : PertTurned φ Q.cfg.elementsType Q.cfg.perturbations pert)
    (hA : ∀ t x m b, evalEta etaA' t (turned φ x) m b = evalEta etaA t x m b)
    (hR : ∀ t x m b, evalEta etaR' t (turned φ x) m b = evalEta etaR t x m b) :
    Change (raanChg φ) (envOf Q P etaA etaR)
      { cfg := Q.cfg.turn φ pert, prob := P.turn φ, etaA := etaA', etaR := etaR' } where
  t0 := one_pos
  a0 := one_pos
  m0 := one_pos
  q0 := one_pos
  s5 := rfl
  prob := by constructor <;> simp [raanChg, Problem.turn, envOf]
  et := rfl
  grid := rfl
  nan := rfl
  relaxedAt := rfl
  n1 := Or.inl rfl
  nanN := fun x => by rw [show (raanChg φ).n = 1 from rfl, one_mul]
  clamp := fun _ x => by
    have : (raanChg φ).x = turned φ := funext (raanChg_x φ)
    rw [this]
    exact safety_raan φ x Q.cfg.oeMin Q.cfg.oeMax
  choose := fun x => by
    rw [raanChg_x]
    have : (fun y : ℝ => (raanChg φ).t * y) = fun y => y := by funext y; simp [raanChg]
    rw [this]
    show chooseStep Q.cfg P x = _
    cases h : chooseStep Q.cfg P x <;> simp [envOf, h, Except.map]
  prop := fun s h v c => propagate_raan (E := envOf Q P etaA etaR) hd hp s h v c
  etaA := fun t x m b => by
    rw [raanChg_x]
    simp only [raanChg, one_mul]
    exact hA t x m b
  etaR := fun t x m b => by
    rw [raanChg_x]
    simp only [raanChg, one_mul]
    exact hR t x m b
  tgt := by
    rcases asVec5_modify P.oeT 3 (· + φ) with h | ⟨v, v', h1, h2, h3⟩
    · exact Or.inl h
    · have hv' : v' = ![v 0, v 1, v 2, v 3 + φ, v 4] := by
        funext i
        rw [h3 i]
        match i with
        | 0 | 1 | 2 | 3 | 4 => simp
      subst hv'
      refine Or.inr ⟨v, _, h1, h2, ?_⟩
      have hl : ∀ accel x, lyapArgs (Q.cfg.turn φ pert) (P.turn φ)
          ![v 0, v 1, v 2, v 3 + φ, v 4] ((raanChg φ).a * accel) ((raanChg φ).x x) =
          (lyapArgs Q.cfg P v accel x).turn φ := by
        intro accel x
        rw [raanChg_x, show (raanChg φ).a * accel = accel from one_mul _]
        rfl
      have law := fun A => law_change (g := raanChg φ) one_pos one_pos one_pos (Or.inl rfl) (restates_raan φ)
        (M := kepPsi) (Qf := kepQ) (fun A => (one_mul A.f).symm) (kepQ_raan φ) (kepPsi_raan φ) A
      constructor
      · intro accel x
        show lyapunovControlAngles Q.cfg.dyn.lyapFun _ = (lyapunovControlAngles Q.cfg.dyn.lyapFun _).map _
        rw [hl, hd]
        exact (law _).1
      · intro accel x
        show Q.cfg.dyn.dqdtFun _ = _ * Q.cfg.dyn.dqdtFun _
        rw [hl, hd]
        exact (law _).2
      · intro x
        rw [raanChg_x]
        show Q.cfg.dyn.checkConv _ _ _ _ = Q.cfg.dyn.checkConv _ _ _ _
        rw [hd]
        exact conv_raan φ x v P.woe Q.cfg.tolOe
      · intro x
        rw [raanChg_x]
        show Q.cfg.dyn.checkConv _ _ _ _ = Q.cfg.dyn.checkConv _ _ _ _
        rw [hd]
        exact conv_raan φ x v P.woe Q.cfg.tolOeRelaxed

/-- **C83** Increasing the initial RAAN, the target RAAN and the RAAN bounds by the same angle increases
the recorded RAANs by that angle and changes nothing else (for perturbations and thresholds that are the
same functions of the orbit), with either integrator. -/
theorem C83_raan_origin {φ : ℝ} {Q Q' : QLaw ℝ} {P : Problem ℝ} {etaA etaR etaA' etaR' : EtaArg ℝ}
    {fuel : ℕ} {e : Option PyErr} {H : Hist ℝ}
    {pert : Option (ℝ → (Fin 6 → ℝ) → ElemType → Except PyErr (Fin 3 → ℝ))}
    (hP : Q.prob = some P) (hr : Q.ready = true) (hv : etaA.valid = true) (hv' : etaA'.valid = true)
    (hd : Q.cfg.dyn = dynOf .keplerian)
    (hp : PertTurned φ Q.cfg.elementsType Q.cfg.perturbations pert)
    (hA : ∀ t x m b, evalEta etaA' t (turned φ x) m b = evalEta etaA t x m b)
    (hR : ∀ t x m b, evalEta etaR' t (turned φ x) m b = evalEta etaR t x m b)
    (h : Q.solve etaA etaR fuel = some (Q', e)) (hH : Q'.hist = some H) :
    ∃ Q'' H', (({ Q with
          cfg := Q.cfg.turn φ pert
          prob := some (P.turn φ) } : QLaw ℝ).solve etaA' etaR' fuel = some (Q'', e)) ∧
      Q''.hist = some H' ∧ Q''.exitcode = Q'.exitcode ∧ Q''.converge = Q'.converge ∧
      H'.times = H.times ∧ H'.states = H.states.map (turned φ) ∧
      H'.masses = H.masses ∧ H'.battery = H.battery ∧ H'.controls = H.controls ∧
      H'.etas = H.etas ∧ H'.etasBounds = H.etasBounds ∧ H'.qs = H.qs ∧ H'.dqdts = H.dqdts := by
  have hx : (raanChg φ).x = turned φ := funext (raanChg_x φ)
  obtain ⟨Q'', h1, h2, h3, h4⟩ := solve_change (g := raanChg φ)
    (Q1 := { Q with cfg := Q.cfg.turn φ pert, prob := some (P.turn φ) })
    hP rfl hr hr hv hv' ⟨rfl, rfl⟩ (by rw [hx]; rfl) (one_mul _).symm rfl
    (change_raan hd hp hA hR) h hH
  have hid : ∀ l : List ℝ, l.map ((1 : ℝ) * ·) = l := by intro l; simp
  refine ⟨Q'', _, h1, h2, h3, h4, hid _, ?_, hid _, rfl, ?_, rfl, rfl, hid _, ?_⟩
  rotate_left
  · simp [Chg.hist, show (raanChg φ).n = 1 from rfl]
  rotate_left
  · simp only [Chg.hist, hx]
  · simp [Chg.hist, raanChg]

/-- two targets with the same semi-major axis, eccentricity and inclination, whose RAANs and arguments of
periapsis differ by whole turns -/
def SameOrbit (l l' : List ℝ) : Prop :=
  ∃ a e i n w : ℝ, ∃ k j : ℤ, l = [a, e, i, n, w] ∧
    l' = [a, e, i, n + k * (2 * Real.pi), w + j * (2 * Real.pi)]

theorem kepQ_turns (a e i n w : ℝ) (k j : ℤ) (wt : Fin 5 → ℝ) :
    QScales kepQ ![a, e, i, n, w] wt
      ![a, e, i, n + k * (2 * Real.pi), w + j * (2 * Real.pi)] wt 1 := by
  rintro A hA rfl
  have e1 : kepDoe (A.retarget ![a, e, i, n + k * (2 * Real.pi), w + j * (2 * Real.pi)] A.woe) =
      kepDoe A := by
    funext c
    match c with
    | 0 => simp [kepDoe, LyapArgs.retarget, hA]
    | 1 => simp [kepDoe, LyapArgs.retarget, hA]
    | 2 => simp [kepDoe, LyapArgs.retarget, hA]
    | 3 =>
      simp only [kepDoe, LyapArgs.retarget, hA, Matrix.cons_val]
      rw [← sub_sub]
      simp only [cos_real, Real.cos_sub_int_mul_two_pi]
    | 4 =>
      simp only [kepDoe, LyapArgs.retarget, hA, Matrix.cons_val]
      rw [← sub_sub]
      simp only [cos_real, Real.cos_sub_int_mul_two_pi]
  have e2 : kepSoe (A.retarget ![a, e, i, n + k * (2 * Real.pi), w + j * (2 * Real.pi)] A.woe) =
      kepSoe A := by
    simp [kepSoe, LyapArgs.retarget, hA]
  have e3 : kepOedot (A.retarget ![a, e, i, n + k * (2 * Real.pi), w + j * (2 * Real.pi)] A.woe) =
      kepOedot A := rfl
  have e4 : kepPenalty (A.retarget ![a, e, i, n + k * (2 * Real.pi), w + j * (2 * Real.pi)] A.woe) =
      kepPenalty A := rfl
  have e5 : (A.retarget ![a, e, i, n + k * (2 * Real.pi), w + j * (2 * Real.pi)] A.woe).woe =
      A.woe := rfl
  have e6 : (A.retarget ![a, e, i, n + k * (2 * Real.pi), w + j * (2 * Real.pi)] A.woe).wp = A.wp := rfl
  simp only [kepQ, e1, e2, e3, e4, e5, e6, one_mul]

theorem conv_turns (a e i n w : ℝ) (k j : ℤ) (wt tol : Fin 5 → ℝ) (x : Fin 6 → ℝ) :
    checkConvergenceKeplerian x ![a, e, i, n + k * (2 * Real.pi), w + j * (2 * Real.pi)] wt tol =
      checkConvergenceKeplerian x ![a, e, i, n, w] wt tol := by
  unfold checkConvergenceKeplerian
  simp only [Matrix.cons_val, add_sub_right_comm, cos_real, Real.cos_add_int_mul_two_pi]

/-- **C85** In a Keplerian run, adding whole turns to the target RAAN or to the target argument of
periapsis has no effect: histories, exit code, convergence flag and exception are the same. -/
theorem C85_whole_turns {Q Q' : QLaw ℝ} {P : Problem ℝ} {oeT' : List ℝ}
    {etaA etaR : EtaArg ℝ} {fuel : ℕ} {e : Option PyErr} (hP : Q.prob = some P)
    (hr : Q.ready = true) (hv : etaA.valid = true)
    (hd : Q.cfg.dyn = dynOf .keplerian) (hT : SameOrbit P.oeT oeT')
    (h : Q.solve etaA etaR fuel = some (Q', e)) :
    ∃ Q'', ({ Q with prob := some { P with oeT := oeT' } }).solve etaA etaR fuel = some (Q'', e) ∧
      Q''.hist = Q'.hist ∧ Q''.exitcode = Q'.exitcode ∧ Q''.converge = Q'.converge := by
  obtain ⟨a, e, i, n, w, k, j, hl, hl'⟩ := hT
  have hS : Sim (envOf Q P etaA etaR) 1 1 oeT' P.woe := by
    refine ⟨one_pos, one_pos, by intros; rw [one_mul], by intros; rw [one_mul], ?_⟩
    refine Or.inr ⟨![a, e, i, n, w],
      ![a, e, i, n + k * (2 * Real.pi), w + j * (2 * Real.pi)], ?_, ?_, ?_⟩
    · show asVec5 P.oeT = _
      rw [hl]
      rfl
    · rw [hl']
      rfl
    · have hq := kepQ_turns a e i n w k j P.woe
      constructor
      · intro accel x
        show lyapunovControlAngles Q.cfg.dyn.lyapFun _ = (lyapunovControlAngles Q.cfg.dyn.lyapFun _).map _
        rw [hd]
        exact (kepLyap_scale one_pos hq (A := lyapArgs Q.cfg P ![a, e, i, n, w] accel x) rfl rfl).1
      · intro accel x
        show Q.cfg.dyn.dqdtFun _ = _ * Q.cfg.dyn.dqdtFun _
        rw [hd]
        exact (kepLyap_scale one_pos hq (A := lyapArgs Q.cfg P ![a, e, i, n, w] accel x) rfl rfl).2
      · intro x tol
        show Q.cfg.dyn.checkConv _ _ _ _ = Q.cfg.dyn.checkConv _ _ _ _
        rw [hd]
        exact conv_turns a e i n w k j P.woe tol x
  have := solve_scale hP hr hv hS h
  simp only [QLaw.scaledProb, hP, Option.map, Problem.scaled_one] at this
  refine ⟨_, this, ?_, rfl, rfl⟩
  simp only [QLaw.scaled]
  cases Q'.hist with
  | none => rfl
  | some H => simp [Hist.scaled]

end runs

section samples
open CoastSample

/-- C83: the thrusting run of `Burn` with the RAANs turned by a quarter turn -/
example : ∃ Q'' H', (({ Burn.obj false with
      cfg := (Burn.cfg false).turn (Real.pi / 2) none
      prob := some (Burn.prob.turn (Real.pi / 2)) } : QLaw ℝ).solve (.flt 0) (.flt 0) 2 = some (Q'', none)) ∧
    Q''.hist = some H' ∧ Q''.exitcode = 1 ∧ H'.controls = [(0, 0, 1)] ∧
    ∃ y, H'.states = [turned (Real.pi / 2) Burn.prob.oe0, y] := by
  obtain ⟨Q', H, y, h1, h2, h3, -, h4, h5, -⟩ := Burn.run
  obtain ⟨Q'', H', a1, a2, a3, -, -, a5, -, -, a6, -⟩ := C83_raan_origin (φ := Real.pi / 2)
    (Q := Burn.obj false) (P := Burn.prob) (pert := none) (etaA' := .flt 0) (etaR' := .flt 0) rfl rfl rfl rfl rfl trivial
    (fun _ _ _ _ => rfl) (fun _ _ _ _ => rfl) h1 h2
  exact ⟨Q'', H', a1, a2, by rw [a3, h3], by rw [a6, h4], _, by rw [a5, h5]; rfl⟩

/-- C85: the target of the run of `Burn` with a full turn added to the RAAN and two taken from the argument
of periapsis -/
example : ∃ Q'', ({ Burn.obj false with prob := some { Burn.prob with
      oeT := [2, 0, 0, 0 + (1 : ℤ) * (2 * Real.pi), 0 + (-2 : ℤ) * (2 * Real.pi)] } }).solve
    (.flt 0) (.flt 0) 2 = some (Q'', none) ∧ Q''.exitcode = 1 := by
  obtain ⟨Q', H, y, h1, h2, h3, -⟩ := Burn.run
  obtain ⟨Q'', h5, h6, h7, -⟩ := C85_whole_turns (P := Burn.prob) rfl rfl rfl rfl
    ⟨2, 0, 0, 0, 0, 1, -2, rfl, rfl⟩ h1
  exact ⟨Q'', h5, by rw [h7, h3]⟩

end samples

end PyQ
