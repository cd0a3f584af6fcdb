import Verif.Props.Mirror
import Verif.Proofs.Kepler
import Verif.Model.Perturbations
import Verif.Props.Inputs

/-! # C96: whole turns in the angles of the initial state (real arithmetic) -/

set_option linter.unusedSectionVars false
set_option maxRecDepth 100000

noncomputable section

namespace PyQ

/-- whole turns added to RAAN, argument of periapsis and anomaly, or to the true longitude -/
def turnsOf : ElemType → ℤ → ℤ → ℤ → Fin 6 → ℝ
  | .keplerian, k, j, n => ![0, 0, 0, k * (2 * Real.pi), j * (2 * Real.pi), n * (2 * Real.pi)]
  | .meeWithA, _, _, n => ![0, 0, 0, 0, 0, n * (2 * Real.pi)]

/-- elements with `k` turns added to the RAAN, `j` to the argument of periapsis and `n` to the anomaly; for
modified equinoctial elements only `n`, added to the true longitude, matters -/
def wound (et : ElemType) (k j n : ℤ) (x : Fin 6 → ℝ) : Fin 6 → ℝ := vadd x (turnsOf et k j n)

/-- a shift of the elements as a change of variables -/
def shiftChg (c : Fin 6 → ℝ) : Chg where
  t := 1
  a := 1
  m := 1
  q := 1
  s := fun _ => 1
  c := c

theorem shiftChg_x (c x : Fin 6 → ℝ) : (shiftChg c).x x = vadd x c := by
  funext i; simp [Chg.x, shiftChg, vadd]

theorem shiftChg_dir (c : Fin 6 → ℝ) (d : Fin 3 → ℝ) : (shiftChg c).dir d = d :=
  Chg.dir_one _ rfl d

theorem shiftChg_psi (c : Fin 6 → ℝ) (p : Fin 3 → Fin 5 → ℝ) : (shiftChg c).psi p = p := by
  funext i j
  simp only [Chg.psi, shiftChg_dir]
  simp [shiftChg]

theorem shiftChg_acc (c : Fin 6 → ℝ) (u : Fin 3 → ℝ) : (shiftChg c).acc u = u := by
  funext i
  simp only [Chg.acc, shiftChg_dir]
  simp [shiftChg]

/-- a call of the control law for a shifted state -/
def LyapArgs.shift (c : Fin 6 → ℝ) (A : LyapArgs ℝ) : LyapArgs ℝ := { A with oe := vadd A.oe c }

theorem restates_shift (c : Fin 6 → ℝ) : Restates (shiftChg c) (LyapArgs.shift c) := by
  refine ⟨fun _ => one_ne_zero, fun A => (shiftChg_x c A.oe).symm, ?_⟩
  intro A j y
  unfold LyapArgs.setOe LyapArgs.shift
  simp only
  congr 1
  funext i
  by_cases h : i = j.castSucc
  · subst h; simp [shiftChg, vadd]
  · simp [vadd, h]

theorem shift_oe (c : Fin 6 → ℝ) (A : LyapArgs ℝ) : (A.shift c).oe = vadd A.oe c := rfl
theorem shift_oeT (c : Fin 6 → ℝ) (A : LyapArgs ℝ) : (A.shift c).oeT = A.oeT := rfl
theorem shift_f (c : Fin 6 → ℝ) (A : LyapArgs ℝ) : (A.shift c).f = A.f := rfl
theorem shift_mu (c : Fin 6 → ℝ) (A : LyapArgs ℝ) : (A.shift c).mu = A.mu := rfl
theorem shift_b (c : Fin 6 → ℝ) (A : LyapArgs ℝ) : (A.shift c).b = A.b := rfl

variable {et : ElemType} {k j n : ℤ}

theorem kw0 (x : Fin 6 → ℝ) : wound .keplerian k j n x 0 = x 0 := by simp [wound, turnsOf, vadd]
theorem kw1 (x : Fin 6 → ℝ) : wound .keplerian k j n x 1 = x 1 := by simp [wound, turnsOf, vadd]
theorem kw2 (x : Fin 6 → ℝ) : wound .keplerian k j n x 2 = x 2 := by simp [wound, turnsOf, vadd]
theorem kw3 (x : Fin 6 → ℝ) : wound .keplerian k j n x 3 = x 3 + k * (2 * Real.pi) := rfl
theorem kw4 (x : Fin 6 → ℝ) : wound .keplerian k j n x 4 = x 4 + j * (2 * Real.pi) := rfl
theorem kw5 (x : Fin 6 → ℝ) : wound .keplerian k j n x 5 = x 5 + n * (2 * Real.pi) := rfl
theorem mw0 (x : Fin 6 → ℝ) : wound .meeWithA k j n x 0 = x 0 := by simp [wound, turnsOf, vadd]
theorem mw1 (x : Fin 6 → ℝ) : wound .meeWithA k j n x 1 = x 1 := by simp [wound, turnsOf, vadd]
theorem mw2 (x : Fin 6 → ℝ) : wound .meeWithA k j n x 2 = x 2 := by simp [wound, turnsOf, vadd]
theorem mw3 (x : Fin 6 → ℝ) : wound .meeWithA k j n x 3 = x 3 := by simp [wound, turnsOf, vadd]
theorem mw4 (x : Fin 6 → ℝ) : wound .meeWithA k j n x 4 = x 4 := by simp [wound, turnsOf, vadd]
theorem mw5 (x : Fin 6 → ℝ) : wound .meeWithA k j n x 5 = x 5 + n * (2 * Real.pi) := rfl

theorem kepOedot_wound (A : LyapArgs ℝ) : kepOedot (A.shift (turnsOf .keplerian k j n)) = kepOedot A := by
  have e : vadd A.oe (turnsOf .keplerian k j n) = wound .keplerian k j n A.oe := rfl
  simp only [kepOedot, shift_oe, shift_f, shift_mu, shift_b, e, kw0, kw1, kw2, kw4, cos_real,
    sin_real, Real.cos_add_int_mul_two_pi, Real.sin_add_int_mul_two_pi]

theorem kepDoe_wound (A : LyapArgs ℝ) : kepDoe (A.shift (turnsOf .keplerian k j n)) = kepDoe A := by
  have e : vadd A.oe (turnsOf .keplerian k j n) = wound .keplerian k j n A.oe := rfl
  simp only [kepDoe, shift_oe, shift_oeT, e, kw0, kw1, kw2, kw3, kw4, cos_real, add_sub_right_comm,
    Real.cos_add_int_mul_two_pi]

theorem kepQ_wound (A : LyapArgs ℝ) : kepQ (A.shift (turnsOf .keplerian k j n)) = kepQ A := by
  have e : vadd A.oe (turnsOf .keplerian k j n) = wound .keplerian k j n A.oe := rfl
  have e1 := kepOedot_wound (k := k) (j := j) (n := n) A
  have e2 : kepPenalty (A.shift (turnsOf .keplerian k j n)) = kepPenalty A := by
    simp only [kepPenalty, shift_oe, e, kw0, kw1]
    rfl
  have e3 : kepSoe (A.shift (turnsOf .keplerian k j n)) = kepSoe A := by
    simp only [kepSoe, shift_oe, e, kw0]
    rfl
  have e4 := kepDoe_wound (k := k) (j := j) (n := n) A
  have ew : (A.shift (turnsOf .keplerian k j n)).woe = A.woe := rfl
  have ep : (A.shift (turnsOf .keplerian k j n)).wp = A.wp := rfl
  simp only [kepQ, e1, e2, e3, e4, ew, ep]

theorem kepPsi_wound (A : LyapArgs ℝ) : kepPsi (A.shift (turnsOf .keplerian k j n)) = kepPsi A := by
  have e : vadd A.oe (turnsOf .keplerian k j n) = wound .keplerian k j n A.oe := rfl
  have h : ∀ a b : ℝ, a + n * (2 * Real.pi) + (b + j * (2 * Real.pi)) =
      a + b + (n + j : ℤ) * (2 * Real.pi) := by
    intro a b; push_cast; ring
  simp only [kepPsi, shift_oe, shift_mu, e, kw0, kw1, kw2, kw4, kw5, h, cos_real, sin_real,
    Real.cos_add_int_mul_two_pi, Real.sin_add_int_mul_two_pi]

theorem meeQ_wound (A : LyapArgs ℝ) : meeQ (A.shift (turnsOf .meeWithA k j n)) = meeQ A := by
  have e : vadd A.oe (turnsOf .meeWithA k j n) = wound .meeWithA k j n A.oe := rfl
  have e1 : meeOedot (A.shift (turnsOf .meeWithA k j n)) = meeOedot A := by
    simp only [meeOedot, shift_oe, shift_f, shift_mu, e, mw0, mw1, mw2, mw3, mw4]
  have e2 : meePenalty (A.shift (turnsOf .meeWithA k j n)) = meePenalty A := by
    simp only [meePenalty, shift_oe, e, mw0, mw1, mw2]
    rfl
  have e3 : meeSoe (A.shift (turnsOf .meeWithA k j n)) = meeSoe A := by
    simp only [meeSoe, shift_oe, e, mw0]
    rfl
  have e4 : meeDoe (A.shift (turnsOf .meeWithA k j n)) = meeDoe A := by
    simp only [meeDoe, shift_oe, shift_oeT, e, mw0, mw1, mw2, mw3, mw4]
  have ew : (A.shift (turnsOf .meeWithA k j n)).woe = A.woe := rfl
  have ep : (A.shift (turnsOf .meeWithA k j n)).wp = A.wp := rfl
  simp only [meeQ, e1, e2, e3, e4, ew, ep]

theorem meePsi_wound (A : LyapArgs ℝ) : meePsi (A.shift (turnsOf .meeWithA k j n)) = meePsi A := by
  have e : vadd A.oe (turnsOf .meeWithA k j n) = wound .meeWithA k j n A.oe := rfl
  simp only [meePsi, shift_oe, shift_mu, e, mw0, mw1, mw2, mw3, mw4, mw5, add_sub_right_comm, cos_real, sin_real,
    Real.cos_add_int_mul_two_pi, Real.sin_add_int_mul_two_pi]

theorem eom_wound (t : ℝ) (y : Fin 6 → ℝ) (p : OdeParams ℝ) :
    (dynOf (α := ℝ) et).eom t (wound et k j n y) p = (dynOf (α := ℝ) et).eom t y p := by
  cases et with
  | keplerian =>
    show eomKepGauss t _ p = eomKepGauss t y p
    simp only [eomKepGauss, kw0, kw1, kw5, cos_real, sin_real,
      Real.cos_add_int_mul_two_pi, Real.sin_add_int_mul_two_pi]
  | meeWithA =>
    show eomMeeWithAGauss t _ p = eomMeeWithAGauss t y p
    simp only [eomMeeWithAGauss, mw0, mw1, mw2, mw3, mw4, mw5, add_sub_right_comm, cos_real, sin_real,
      Real.cos_add_int_mul_two_pi, Real.sin_add_int_mul_two_pi]

theorem conv_wound (x : Fin 6 → ℝ) (v w tol : Fin 5 → ℝ) :
    (dynOf (α := ℝ) et).checkConv (wound et k j n x) v w tol = (dynOf (α := ℝ) et).checkConv x v w tol := by
  cases et with
  | keplerian =>
    show checkConvergenceKeplerian _ v w tol = checkConvergenceKeplerian x v w tol
    unfold checkConvergenceKeplerian
    simp only [kw0, kw1, kw2, kw3, kw4, ← sub_sub, cos_real, Real.cos_sub_int_mul_two_pi]
  | meeWithA =>
    show checkConvergenceMee _ v w tol = checkConvergenceMee x v w tol
    unfold checkConvergenceMee
    have : ∀ i : Fin 5, wound .meeWithA k j n x i.castSucc = x i.castSucc := by
      intro i
      match i with
      | 0 => exact mw0 x
      | 1 => exact mw1 x
      | 2 => exact mw2 x
      | 3 => exact mw3 x
      | 4 => exact mw4 x
    simp only [this]

theorem rotmat3_turn (z : ℝ) (k : ℤ) :
    (rotmat3 (-(z + k * (2 * Real.pi))) : Fin 3 → Fin 3 → ℝ) = rotmat3 (-z) := by
  unfold rotmat3
  simp only [cos_real, sin_real, Real.cos_neg, Real.sin_neg, Real.cos_add_int_mul_two_pi,
    Real.sin_add_int_mul_two_pi]

/-- position and velocity do not see whole turns -/
theorem kep2sv_wound (x : Fin 6 → ℝ) (mu : ℝ) : kep2sv (wound .keplerian k j n x) mu = kep2sv x mu := by
  simp only [kep2sv, rot3_skip, rot1_skip]
  simp only [kw0, kw1, kw2, kw3, kw4, kw5, rotmat3_turn, cos_real, sin_real,
    Real.cos_add_int_mul_two_pi, Real.sin_add_int_mul_two_pi]

theorem mee2sv_wound (x : Fin 6 → ℝ) (mu : ℝ) : meeWithA2sv (wound .meeWithA k j n x) mu = meeWithA2sv x mu := by
  simp only [meeWithA2sv, mw0, mw1, mw2, mw3, mw4, mw5, mee2kep, Matrix.cons_val]
  cases ndiv (x 0 * (((1 : ℕ) : ℝ) - x 1 ^ 2 - x 2 ^ 2)) (((1 : ℕ) : ℝ) - x 1 ^ 2 - x 2 ^ 2) with
  | error e => simp only [bind, Except.bind]
  | ok a =>
    simp only [bind, Except.bind, pure, Except.pure]
    have := kep2sv_wound (k := 0) (j := 0) (n := n)
      ![a, PyTrans.sqrt (x 1 ^ 2 + x 2 ^ 2),
        PyTrans.arctan2 (((2 : ℕ) : ℝ) * PyTrans.sqrt (x 3 ^ 2 + x 4 ^ 2)) (((1 : ℕ) : ℝ) - x 3 ^ 2 - x 4 ^ 2),
        PyTrans.arctan2 (x 4) (x 3), PyTrans.arctan2 (x 2 * x 3 - x 1 * x 4) (x 1 * x 3 + x 2 * x 4),
        x 5 - PyTrans.arctan2 (x 4) (x 3) - PyTrans.arctan2 (x 2 * x 3 - x 1 * x 4) (x 1 * x 3 + x 2 * x 4)] mu
    refine Eq.trans (congrArg (fun z => kep2sv z mu) ?_) this
    funext i
    match i with
    | 0 | 1 | 2 | 3 | 4 => simp [wound, turnsOf, vadd]
    | 5 => simp [wound, turnsOf, vadd]; ring

/-- the name of the element set in the interface, `_qlaw.py:173-189` -/
def typeName : ElemType → String
  | .keplerian => "keplerian"
  | .meeWithA => "mee_with_a"

/-- the perturbations of the package do not see whole turns -/
theorem C96_perturbations (S : SpicePerturbations ℝ) (sp : Spice ℝ) (et : ElemType) (k j n : ℤ) (t : ℝ)
    (x : Fin 6 → ℝ) : S.getPerturbationsRTN sp t (wound et k j n x) (typeName et) =
      S.getPerturbationsRTN sp t x (typeName et) := by
  cases et with
  | keplerian => simp only [SpicePerturbations.getPerturbationsRTN, typeName, if_true, kep2sv_wound]
  | meeWithA =>
    simp only [SpicePerturbations.getPerturbationsRTN, typeName, mee2sv_wound, if_true,
      show ("mee_with_a" = "keplerian") = False by decide, if_false]

/-- `l` with `a` added to the fourth and `b` to the fifth number -/
def shift34 (a b : ℝ) (l : List ℝ) : List ℝ := (l.modify 3 (· + a)).modify 4 (· + b)

theorem safety_wound (x : Fin 6 → ℝ) (lo hi : List ℝ) :
    elementsSafety (wound .keplerian k j n x) (shift34 (k * (2 * Real.pi)) (j * (2 * Real.pi)) lo)
        (shift34 (k * (2 * Real.pi)) (j * (2 * Real.pi)) hi) =
      (elementsSafety x lo hi).map (wound .keplerian k j n) := by
  unfold shift34
  match lo, hi with
  | l0 :: l1 :: l2 :: l3 :: l4 :: lo, u0 :: u1 :: u2 :: u3 :: u4 :: hi =>
    simp only [List.modify_succ_cons, List.modify_zero_cons, elementsSafety, kw0, kw1, kw2, kw3, kw4, kw5,
      pymax_shift, pymin_shift, Except.map]
    congr 1
    funext i
    match i with
    | 0 | 1 | 2 | 3 | 4 | 5 => simp [wound, turnsOf, vadd]
  | [], _ => simp [elementsSafety, Except.map]
  | [_], _ => simp [elementsSafety, Except.map]
  | [_, _], _ => simp [elementsSafety, Except.map]
  | [_, _, _], _ => simp [elementsSafety, Except.map]
  | [_, _, _, _], _ => simp [elementsSafety, Except.map]
  | _ :: _ :: _ :: _ :: _ :: _, [] => simp [elementsSafety, Except.map]
  | _ :: _ :: _ :: _ :: _ :: _, [_] => simp [elementsSafety, Except.map]
  | _ :: _ :: _ :: _ :: _ :: _, [_, _] => simp [elementsSafety, Except.map]
  | _ :: _ :: _ :: _ :: _ :: _, [_, _, _] => simp [elementsSafety, Except.map]
  | _ :: _ :: _ :: _ :: _ :: _, [_, _, _, _] => simp [elementsSafety, Except.map]

/-- the settings with `k` turns added to the RAAN bounds and `j` to the bounds of the argument of periapsis -/
def Config.wind (k j : ℤ) (C : Config ℝ) : Config ℝ :=
  { C with oeMin := shift34 (k * (2 * Real.pi)) (j * (2 * Real.pi)) C.oeMin
           oeMax := shift34 (k * (2 * Real.pi)) (j * (2 * Real.pi)) C.oeMax }

theorem Config.wind_zero (C : Config ℝ) : C.wind 0 0 = C := by
  have : ∀ l : List ℝ, shift34 ((0 : ℤ) * (2 * Real.pi)) ((0 : ℤ) * (2 * Real.pi)) l = l := by
    intro l
    have h : (fun x : ℝ => x + (0 : ℤ) * (2 * Real.pi)) = id := by funext x; simp
    simp only [shift34, h, List.modify_id]
  simp only [Config.wind, this]

section runs
variable [PyNan ℝ]

theorem propagate_wound {E : Env ℝ} (he : E.cfg.elementsType = et) (hd : E.cfg.dyn = dynOf et)
    {C' : Config ℝ} {P' : Problem ℝ} {etaA' etaR' : EtaArg ℝ}
    (hC : C' = E.cfg ∨ C' = E.cfg.wind k j)
    (hp : ∀ f, E.cfg.perturbations = some f → ∀ t x, f t (wound et k j n x) et = f t x et)
    (s : LoopSt ℝ) (h : ℝ) (v : Fin 5 → ℝ) (c : Ctl ℝ) :
    propagatePhase { cfg := C', prob := P', etaA := etaA', etaR := etaR' }
        ((shiftChg (turnsOf et k j n)).st s) ((shiftChg (turnsOf et k j n)).t * h)
        ((shiftChg (turnsOf et k j n)).ctl v c) =
      (propagatePhase E s h c).map fun p => ((shiftChg (turnsOf et k j n)).x p.1,
        (shiftChg (turnsOf et k j n)).t * p.2) := by
  set g := shiftChg (turnsOf et k j n) with hg
  have hx : g.x = wound et k j n := funext (shiftChg_x _)
  have e1 : g.t * h = h := one_mul h
  have e2 : (g.st s).t = s.t := one_mul s.t
  have e3 : (g.st s).oe = wound et k j n s.oe := shiftChg_x _ s.oe
  have e4 : (g.ctl v c).u = c.u := shiftChg_acc _ c.u
  have e5 : (g.ctl v c).psi = c.psi := shiftChg_psi _ c.psi
  have e6 : (fun p : (Fin 6 → ℝ) × ℝ => (g.x p.1, g.t * p.2)) = fun p => (wound et k j n p.1, p.2) := by
    funext p
    rw [hx]
    simp [hg, shiftChg]
  have heom : ∀ t y p, E.cfg.dyn.eom t (wound et k j n y) p = E.cfg.dyn.eom t y p := by
    intro t y p
    rw [hd]
    exact eom_wound t y p
  have k4 : ∀ p : OdeParams ℝ, rk4 E.cfg.dyn.eom s.t h (wound et k j n s.oe) p =
      (rk4 E.cfg.dyn.eom s.t h s.oe p).map (wound et k j n) := by
    intro p
    have := rk4_change (g := g) (p := p) (p' := p) (F := E.cfg.dyn.eom) (F' := E.cfg.dyn.eom)
      one_ne_zero (fun t y => by
        rw [hx, heom]
        simp only [hg, shiftChg, one_mul, div_one]
        cases E.cfg.dyn.eom t y p <;> rfl) s.t h s.oe
    rw [hx, e1] at this
    rwa [show g.t * s.t = s.t from one_mul _] at this
  have k45 : ∀ p : OdeParams ℝ, rkf45 E.cfg.dyn.eom s.t h (wound et k j n s.oe) p E.cfg.odeTol =
      (rkf45 E.cfg.dyn.eom s.t h s.oe p E.cfg.odeTol).map fun q => (wound et k j n q.1, q.2) := by
    intro p
    exact rkf45_shift (fun t y => heom t y p) s.t h E.cfg.odeTol s.oe
  unfold propagatePhase
  rw [e1, e2, e3, e4, e5, e6]
  have f1 : C'.dyn = E.cfg.dyn := by rcases hC with rfl | rfl <;> rfl
  have f2 : C'.mu = E.cfg.mu := by rcases hC with rfl | rfl <;> rfl
  have f3 : C'.odeTol = E.cfg.odeTol := by rcases hC with rfl | rfl <;> rfl
  have f4 : C'.stepMin = E.cfg.stepMin := by rcases hC with rfl | rfl <;> rfl
  have f5 : C'.stepMax = E.cfg.stepMax := by rcases hC with rfl | rfl <;> rfl
  have f6 : C'.integrator = E.cfg.integrator := by rcases hC with rfl | rfl <;> rfl
  have f7 : C'.perturbations = E.cfg.perturbations := by rcases hC with rfl | rfl <;> rfl
  have f8 : C'.elementsType = E.cfg.elementsType := by rcases hC with rfl | rfl <;> rfl
  simp only [f1, f2, f3, f4, f5, f6, f7, f8]
  have go : ∀ ptrb : Fin 3 → ℝ, (match E.cfg.integrator with
      | .rk4 => do
        let oeNext ← PyQ.rk4 E.cfg.dyn.eom s.t h (wound et k j n s.oe)
          { mu := E.cfg.mu, u := c.u, psi0 := c.psi 0, psi1 := c.psi 1, psi2 := c.psi 2, ptrb := ptrb }
        pure (oeNext, h)
      | .rkf45 => do
        let (oeNext, hNext) ← PyQ.rkf45 E.cfg.dyn.eom s.t h (wound et k j n s.oe)
          { mu := E.cfg.mu, u := c.u, psi0 := c.psi 0, psi1 := c.psi 1, psi2 := c.psi 2, ptrb := ptrb }
          E.cfg.odeTol
        pure (oeNext, pymax E.cfg.stepMin (pymin E.cfg.stepMax hNext)) :
        Except PyErr ((Fin 6 → ℝ) × ℝ)) =
      (match E.cfg.integrator with
      | .rk4 => do
        let oeNext ← PyQ.rk4 E.cfg.dyn.eom s.t h s.oe
          { mu := E.cfg.mu, u := c.u, psi0 := c.psi 0, psi1 := c.psi 1, psi2 := c.psi 2, ptrb := ptrb }
        pure (oeNext, h)
      | .rkf45 => do
        let (oeNext, hNext) ← PyQ.rkf45 E.cfg.dyn.eom s.t h s.oe
          { mu := E.cfg.mu, u := c.u, psi0 := c.psi 0, psi1 := c.psi 1, psi2 := c.psi 2, ptrb := ptrb }
          E.cfg.odeTol
        pure (oeNext, pymax E.cfg.stepMin (pymin E.cfg.stepMax hNext)) :
        Except PyErr ((Fin 6 → ℝ) × ℝ)).map fun p => (wound et k j n p.1, p.2) := by
    intro ptrb
    cases E.cfg.integrator with
    | rk4 =>
      simp only [k4]
      cases rk4 E.cfg.dyn.eom s.t h s.oe
        { mu := E.cfg.mu, u := c.u, psi0 := c.psi 0, psi1 := c.psi 1, psi2 := c.psi 2, ptrb := ptrb } <;> rfl
    | rkf45 =>
      simp only [k45]
      cases rkf45 E.cfg.dyn.eom s.t h s.oe
        { mu := E.cfg.mu, u := c.u, psi0 := c.psi 0, psi1 := c.psi 1, psi2 := c.psi 2, ptrb := ptrb }
        E.cfg.odeTol <;> rfl
  cases hq : E.cfg.perturbations with
  | none => exact go zero3
  | some f =>
    have e := hp f hq s.t s.oe
    simp only [he, e]
    cases f s.t s.oe et with
    | error e => rfl
    | ok a => exact go a

theorem choose_wound (C : Config ℝ) (P : Problem ℝ) (he : C.elementsType = et) (x : Fin 6 → ℝ) :
    chooseStep C P (wound et k j n x) = chooseStep C P x := by
  unfold chooseStep
  rw [he]
  cases et with
  | keplerian => simp only [kw0, kw1, kw5, ta2ea_turn]
  | meeWithA =>
    have : mee2ea (wound .meeWithA k j n x) = mee2ea x := by
      simp only [mee2ea, mw1, mw2, mw5, add_sub_right_comm, ta2ea_turn]
    simp only [mw0, mw1, mw2, this]

/-- the problem with whole turns added to the initial angles -/
def Problem.wind (et : ElemType) (k j n : ℤ) (P : Problem ℝ) : Problem ℝ :=
  { P with oe0 := wound et k j n P.oe0 }

theorem change_wound {Q : QLaw ℝ} {P : Problem ℝ} {etaA etaR : EtaArg ℝ}
    (he : Q.cfg.elementsType = et) (hd : Q.cfg.dyn = dynOf et)
    (hp : ∀ f, Q.cfg.perturbations = some f → ∀ t x, f t (wound et k j n x) et = f t x et)
    (hA : ∀ t x m b, evalEta etaA t (wound et k j n x) m b = evalEta etaA t x m b)
    (hR : ∀ t x m b, evalEta etaR t (wound et k j n x) m b = evalEta etaR t x m b) :
    Change (shiftChg (turnsOf et k j n)) (envOf Q P etaA etaR)
      { cfg := Q.cfg.wind k j, prob := P.wind et k j n, etaA := etaA, etaR := etaR } where
  t0 := one_pos
  a0 := one_pos
  m0 := one_pos
  q0 := one_pos
  s5 := rfl
  prob := by constructor <;> simp [shiftChg, Problem.wind, envOf]
  et := rfl
  grid := rfl
  nan := rfl
  relaxedAt := rfl
  n1 := Or.inl rfl
  nanN := fun x => by rw [show (shiftChg (turnsOf et k j n)).n = 1 from rfl, one_mul]
  clamp := fun hk x => by
    have : et = .keplerian := by rw [← he]; exact hk
    subst this
    rw [show (shiftChg (turnsOf .keplerian k j n)).x = wound .keplerian k j n from funext (shiftChg_x _)]
    exact safety_wound x Q.cfg.oeMin Q.cfg.oeMax
  choose := fun x => by
    rw [shiftChg_x]
    have : (fun y : ℝ => (shiftChg (turnsOf et k j n)).t * y) = fun y => y := by funext y; simp [shiftChg]
    rw [this]
    show chooseStep Q.cfg P (wound et k j n x) = _
    rw [choose_wound _ _ he]
    cases h : chooseStep Q.cfg P x <;> simp [envOf, h, Except.map]
  prop := fun s h v c => propagate_wound (E := envOf Q P etaA etaR) he hd (Or.inr rfl) hp s h v c
  etaA := fun t x m b => by
    rw [shiftChg_x]
    simp only [shiftChg, one_mul]
    exact hA t x m b
  etaR := fun t x m b => by
    rw [shiftChg_x]
    simp only [shiftChg, one_mul]
    exact hR t x m b
  tgt := by
    cases h : asVec5 P.oeT with
    | error e => exact Or.inl ⟨e, h, h⟩
    | ok v =>
      refine Or.inr ⟨v, v, h, h, ?_⟩
      have hl : ∀ accel x, lyapArgs (Q.cfg.wind k j) (P.wind et k j n) v
          ((shiftChg (turnsOf et k j n)).a * accel) ((shiftChg (turnsOf et k j n)).x x) =
          (lyapArgs Q.cfg P v accel x).shift (turnsOf et k j n) := by
        intro accel x
        rw [shiftChg_x, show (shiftChg (turnsOf et k j n)).a * accel = accel from one_mul _]
        rfl
      have law : ∀ A, lyapunovControlAngles (dynOf et : Dyn ℝ).lyapFun (A.shift (turnsOf et k j n)) =
            (lyapunovControlAngles (dynOf et : Dyn ℝ).lyapFun A).map (shiftChg (turnsOf et k j n)).out ∧
          (dynOf et : Dyn ℝ).dqdtFun (A.shift (turnsOf et k j n)) =
            (shiftChg (turnsOf et k j n)).q / (shiftChg (turnsOf et k j n)).t *
              (dynOf et : Dyn ℝ).dqdtFun A := by
        intro A
        cases et with
        | keplerian =>
          exact law_change (g := shiftChg (turnsOf .keplerian k j n)) one_pos one_pos one_pos (Or.inl rfl)
            (restates_shift _) (M := kepPsi) (Qf := kepQ) (fun A => (one_mul A.f).symm)
            (fun A => by rw [kepQ_wound]; exact (one_mul _).symm)
            (fun A => by rw [kepPsi_wound, shiftChg_psi]) A
        | meeWithA =>
          exact law_change (g := shiftChg (turnsOf .meeWithA k j n)) one_pos one_pos one_pos (Or.inl rfl)
            (restates_shift _) (M := meePsi) (Qf := meeQ) (fun A => (one_mul A.f).symm)
            (fun A => by rw [meeQ_wound]; exact (one_mul _).symm)
            (fun A => by rw [meePsi_wound, shiftChg_psi]) A
      constructor
      · intro accel x
        show lyapunovControlAngles Q.cfg.dyn.lyapFun _ = (lyapunovControlAngles Q.cfg.dyn.lyapFun _).map _
        rw [hl, hd]
        exact (law _).1
      · intro accel x
        show Q.cfg.dyn.dqdtFun _ = _ * Q.cfg.dyn.dqdtFun _
        rw [hl, hd]
        exact (law _).2
      · intro x
        rw [shiftChg_x]
        show Q.cfg.dyn.checkConv _ _ _ _ = Q.cfg.dyn.checkConv _ _ _ _
        rw [hd]
        exact conv_wound x v P.woe Q.cfg.tolOe
      · intro x
        rw [shiftChg_x]
        show Q.cfg.dyn.checkConv _ _ _ _ = Q.cfg.dyn.checkConv _ _ _ _
        rw [hd]
        exact conv_wound x v P.woe Q.cfg.tolOeRelaxed

/-- **C96** Whole turns added to the angles of the initial state, with the bounds of RAAN and argument of
periapsis moved along, are added to every recorded state and change nothing else. Perturbations and
thresholds must not see whole turns; either integrator, either set of elements. (Missing for the full
property: with the bounds left as they are the statement fails, see `C96_violated`.) -/
theorem C96_whole_turns_partial {Q Q' : QLaw ℝ} {P : Problem ℝ} {etaA etaR : EtaArg ℝ}
    {fuel : ℕ} {e : Option PyErr} {H : Hist ℝ}
    (hP : Q.prob = some P) (hr : Q.ready = true) (hv : etaA.valid = true)
    (he : Q.cfg.elementsType = et) (hd : Q.cfg.dyn = dynOf et)
    (hp : ∀ f, Q.cfg.perturbations = some f → ∀ t x, f t (wound et k j n x) et = f t x et)
    (hA : ∀ t x m b, evalEta etaA t (wound et k j n x) m b = evalEta etaA t x m b)
    (hR : ∀ t x m b, evalEta etaR t (wound et k j n x) m b = evalEta etaR t x m b)
    (h : Q.solve etaA etaR fuel = some (Q', e)) (hH : Q'.hist = some H) :
    ∃ Q'' H', (({ Q with
          cfg := Q.cfg.wind k j
          prob := some (P.wind et k j n) } : QLaw ℝ).solve etaA etaR fuel = some (Q'', e)) ∧
      Q''.hist = some H' ∧ Q''.exitcode = Q'.exitcode ∧ Q''.converge = Q'.converge ∧
      H'.times = H.times ∧ H'.states = H.states.map (wound et k j n) ∧
      H'.masses = H.masses ∧ H'.battery = H.battery ∧ H'.controls = H.controls ∧
      H'.etas = H.etas ∧ H'.etasBounds = H.etasBounds ∧ H'.qs = H.qs ∧ H'.dqdts = H.dqdts := by
  have hx : (shiftChg (turnsOf et k j n)).x = wound et k j n := funext (shiftChg_x _)
  obtain ⟨Q'', h1, h2, h3, h4⟩ := solve_change (g := shiftChg (turnsOf et k j n))
    (Q1 := { Q with cfg := Q.cfg.wind k j, prob := some (P.wind et k j n) })
    hP rfl hr hr hv hv ⟨rfl, rfl⟩ (by rw [hx]; rfl) (one_mul _).symm rfl
    (change_wound he hd hp hA hR) h hH
  have hid : ∀ l : List ℝ, l.map ((1 : ℝ) * ·) = l := by intro l; simp
  refine ⟨Q'', _, h1, h2, h3, h4, hid _, ?_, hid _, rfl, ?_, rfl, rfl, hid _, ?_⟩
  · simp only [Chg.hist, hx]
  · simp [Chg.hist, show (shiftChg (turnsOf et k j n)).n = 1 from rfl]
  · simp [Chg.hist, shiftChg]

/-- **C96**, true anomaly or true longitude: whole turns in the sixth element, with the object's settings
unchanged, are added to every recorded state and change nothing else. -/
theorem C96_anomaly {Q Q' : QLaw ℝ} {P : Problem ℝ} {etaA etaR : EtaArg ℝ}
    {fuel : ℕ} {e : Option PyErr} {H : Hist ℝ}
    (hP : Q.prob = some P) (hr : Q.ready = true) (hv : etaA.valid = true)
    (he : Q.cfg.elementsType = et) (hd : Q.cfg.dyn = dynOf et)
    (hp : ∀ f, Q.cfg.perturbations = some f → ∀ t x, f t (wound et 0 0 n x) et = f t x et)
    (hA : ∀ t x m b, evalEta etaA t (wound et 0 0 n x) m b = evalEta etaA t x m b)
    (hR : ∀ t x m b, evalEta etaR t (wound et 0 0 n x) m b = evalEta etaR t x m b)
    (h : Q.solve etaA etaR fuel = some (Q', e)) (hH : Q'.hist = some H) :
    ∃ Q'' H', ({ Q with prob := some { P with oe0 := wound et 0 0 n P.oe0 } } : QLaw ℝ).solve
        etaA etaR fuel = some (Q'', e) ∧
      Q''.hist = some H' ∧ Q''.exitcode = Q'.exitcode ∧ Q''.converge = Q'.converge ∧
      H'.times = H.times ∧ H'.states = H.states.map (wound et 0 0 n) ∧
      H'.masses = H.masses ∧ H'.battery = H.battery ∧ H'.controls = H.controls ∧
      H'.etas = H.etas ∧ H'.etasBounds = H.etasBounds ∧ H'.qs = H.qs ∧ H'.dqdts = H.dqdts := by
  have := C96_whole_turns_partial (k := 0) (j := 0) (n := n) hP hr hv he hd hp hA hR h hH
  rwa [Config.wind_zero] at this

end runs

section samples
open CoastSample

/-- the first recorded state of a Keplerian run that starts strictly inside the bounds is the given one -/
theorem first_inside {Q Q' : QLaw ℝ} {P : Problem ℝ} {etaA etaR : EtaArg ℝ} {fuel : ℕ} {e : Option PyErr}
    {H : Hist ℝ} (hP : Q.prob = some P) (hr : Q.ready = true) (hv : etaA.valid = true)
    (hc : elementsSafety P.oe0 Q.cfg.oeMin Q.cfg.oeMax = .ok P.oe0)
    (h : Q.solve etaA etaR fuel = some (Q', e)) (hH : Q'.hist = some H) :
    H.states.head? = some P.oe0 := by
  simp only [QLaw.solve, hP, hr, hv, if_true, Option.map_eq_some_iff] at h
  obtain ⟨r, hl, h⟩ := h
  cases h
  have hH' : H = r.st.hist := by
    injection hH with hH
    exact hH.symm
  obtain ⟨m, tr, D, hT, hE⟩ := loop_trace hl
  obtain ⟨x, l, hx, h1⟩ := run_head hT hE
  rw [hH', hx]
  rcases h1 with rfl | ⟨s1, h1, rfl⟩
  · rfl
  · rcases clamp_cases h1 with ⟨_, rfl⟩ | ⟨_, oe, h2, rfl⟩
    · rfl
    · have h2' : elementsSafety P.oe0 Q.cfg.oeMin Q.cfg.oeMax = .ok oe := h2
      rw [hc] at h2'
      cases h2'
      rfl

/-- the settings of `Burn` with the lower bound 1 for the RAAN -/
def boundedCfg : Config ℝ := { Burn.cfg false with oeMin := [0, 0, 0, 1, 0] }

/-- the problem of `Burn` with RAAN 1/2 -/
def lowProb : Problem ℝ := { Burn.prob with oe0 := ![1, 1 / 2, 1, 1 / 2, 1, 0] }

def lowObj : QLaw ℝ :=
  { cfg := boundedCfg, prob := some lowProb, ready := true, converge := false, exitcode := 0, hist := none }

theorem low_run : ∃ Q' H x, lowObj.solve (.flt 0) (.flt 0) 2 = some (Q', none) ∧ Q'.hist = some H ∧
    Q'.exitcode = 1 ∧ H.controls = [(0, 0, 1)] ∧ H.states.head? = some x ∧ x 3 = 1 := by
  obtain ⟨s', y, hb, -, -, h2, h3, -⟩ := Burn.body_of (b := false) one_pos le_rfl rfl
  have hcl : clampPhase boundedCfg (initLoop lowProb) = .ok (initLoop Burn.prob) := by
    have : elementsSafety lowProb.oe0 boundedCfg.oeMin boundedCfg.oeMax = .ok Burn.prob.oe0 := by
      simp only [elementsSafety, boundedCfg, Burn.cfg, lowProb, Burn.prob]
      congr 1
      funext i
      fin_cases i <;> simp [pymin, pymax]
      all_goals norm_num
    simp only [clampPhase, boundedCfg, Burn.cfg, initLoop, bind, Except.bind, pure, Except.pure] at this ⊢
    rw [this]
    rfl
  have hit : iter ⟨boundedCfg, lowProb, .flt 0, .flt 0⟩ (initLoop lowProb) = .brk s' 1 := by
    simp only [iter, hcl]
    exact hb
  have hg : guardB lowProb (initLoop lowProb) = true := by
    simp [guardB, initLoop, Hist.lastTime, lowProb, Burn.prob]
  refine ⟨lowObj.finish lowProb (.exit s' 1), s'.hist, Burn.prob.oe0, ?_, rfl, rfl, h2, by rw [h3]; rfl, ?_⟩
  · simp only [QLaw.solve, lowObj, EtaArg.valid, if_true, loop, hg, hit, Option.map]
    rfl
  · simp [Burn.prob]

/-- **C96 fails for RAAN (and argument of periapsis) with fixed bounds**: a run from RAAN 1/2 with the
lower bound 1 is flown from RAAN 1, while every run of the same object from the same orbit written with
RAAN `1/2 + 2π` starts from that RAAN. The two first recorded RAANs do not differ by whole turns. -/
theorem C96_violated : ∃ Q' H x, lowObj.solve (.flt 0) (.flt 0) 2 = some (Q', none) ∧ Q'.hist = some H ∧
    Q'.exitcode = 1 ∧ H.states.head? = some x ∧
    ∀ fuel Q'' e H', ({ lowObj with prob := some { lowProb with
        oe0 := wound .keplerian 1 0 0 lowProb.oe0 } } : QLaw ℝ).solve (.flt 0) (.flt 0) fuel = some (Q'', e) →
      Q''.hist = some H' → ∃ x', H'.states.head? = some x' ∧
        ∀ m : ℤ, x' 3 ≠ x 3 + m * (2 * Real.pi) := by
  obtain ⟨Q', H, x, h1, h2, h3, -, h5, h6⟩ := low_run
  refine ⟨Q', H, x, h1, h2, h3, h5, ?_⟩
  intro fuel Q'' e H' h hH
  have hpi := Real.pi_gt_three
  have hpi' := Real.pi_lt_four
  have hf := first_inside (Q := { lowObj with prob := some { lowProb with
      oe0 := wound .keplerian 1 0 0 lowProb.oe0 } }) rfl rfl rfl ?_ h hH
  · refine ⟨_, hf, fun m hm => ?_⟩
    have h7 : (1 / 2 : ℝ) + 1 * (2 * Real.pi) = 1 + m * (2 * Real.pi) := by
      have h8 : wound .keplerian 1 0 0 lowProb.oe0 3 = 1 / 2 + 1 * (2 * Real.pi) := by
        rw [kw3]; simp [lowProb]
      rw [h6] at hm
      exact h8.symm.trans hm
    have h9 : ((1 - m : ℤ) : ℝ) * (2 * Real.pi) = 1 / 2 := by push_cast; linarith
    rcases lt_or_ge 0 (1 - m) with h | h
    · have : (1 : ℝ) ≤ ((1 - m : ℤ) : ℝ) := by exact_mod_cast h
      nlinarith
    · have : ((1 - m : ℤ) : ℝ) ≤ 0 := by exact_mod_cast h
      nlinarith
  · have hp : Real.pi < 3.15 := Real.pi_lt_d2
    simp only [elementsSafety, lowObj, boundedCfg, Burn.cfg, kw0, kw1, kw2, kw3, kw4, kw5, lowProb]
    congr 1
    funext i
    match i with
    | 0 => simp [pymin, pymax, kw0]
    | 1 => simp [pymin, pymax, kw1]; norm_num
    | 2 => simp [pymin, pymax, kw2]
    | 3 =>
      have a1 : ¬ (1 / 2 + 1 * (2 * Real.pi) < 1) := by linarith
      have a2 : ¬ (9 < 1 / 2 + 1 * (2 * Real.pi)) := by linarith
      have a3 : (1 : ℝ) < 1 / 2 + 1 * (2 * Real.pi) := by linarith
      have a4 : wound .keplerian 1 0 0 ![1, 1 / 2, 1, 1 / 2, 1, 0] 3 = 1 / 2 + 1 * (2 * Real.pi) := by
        rw [kw3]; simp
      show pymin (pymax 1 (1 / 2 + ((1 : ℤ) : ℝ) * (2 * Real.pi))) 9 =
        wound .keplerian 1 0 0 ![1, 1 / 2, 1, 1 / 2, 1, 0] 3
      rw [a4, Int.cast_one]
      simp only [pymin, pymax, lt_real, a2, a3, decide_true, if_true]
      rw [if_neg (by simp)]
    | 4 => simp [pymin, pymax, kw4]
    | 5 => simp [kw5]

/-- C96: the thrusting run of `Burn` with a turn added to the RAAN, two taken from the argument of periapsis
and three added to the true anomaly -/
example : ∃ Q'' H', (({ Burn.obj false with
      cfg := (Burn.cfg false).wind 1 (-2)
      prob := some (Burn.prob.wind .keplerian 1 (-2) 3) } : QLaw ℝ).solve (.flt 0) (.flt 0) 2 =
        some (Q'', none)) ∧
    Q''.hist = some H' ∧ Q''.exitcode = 1 ∧ H'.controls = [(0, 0, 1)] ∧
    ∃ y, H'.states = [wound .keplerian 1 (-2) 3 Burn.prob.oe0, y] := by
  obtain ⟨Q', H, y, h1, h2, h3, -, h4, h5, -⟩ := Burn.run
  obtain ⟨Q'', H', a1, a2, a3, -, -, a5, -, -, a6, -⟩ := C96_whole_turns_partial (et := .keplerian)
    (k := 1) (j := -2) (n := 3) (Q := Burn.obj false) (P := Burn.prob) rfl rfl rfl rfl rfl
    (fun _ h => by cases h) (fun _ _ _ _ => rfl) (fun _ _ _ _ => rfl) h1 h2
  exact ⟨Q'', H', a1, a2, by rw [a3, h3], by rw [a6, h4], _, by rw [a5, h5]; rfl⟩

/-- C96: the thrusting run of `MeeBurn` with five turns added to the true longitude -/
example : ∃ Q'' H', (({ MeeBurn.obj with prob := some { MeeBurn.prob with
        oe0 := wound .meeWithA 0 0 5 MeeBurn.prob.oe0 } } : QLaw ℝ).solve (.flt 0) (.flt 0) 2 =
        some (Q'', none)) ∧
    Q''.hist = some H' ∧ Q''.exitcode = 1 ∧ H'.controls = [(0, 0, 1)] ∧
    ∃ y, H'.states = [wound .meeWithA 0 0 5 MeeBurn.prob.oe0, y] := by
  obtain ⟨Q', H, y, h1, h2, h3, -, h4, h5, -⟩ := MeeBurn.run
  obtain ⟨Q'', H', a1, a2, a3, -, -, a5, -, -, a6, -⟩ := C96_anomaly (et := .meeWithA)
    (n := 5) (Q := MeeBurn.obj) (P := MeeBurn.prob) rfl rfl rfl rfl rfl
    (fun _ h => by cases h) (fun _ _ _ _ => rfl) (fun _ _ _ _ => rfl) h1 h2
  exact ⟨Q'', H', a1, a2, by rw [a3, h3], by rw [a6, h4], _, by rw [a5, h5]; rfl⟩

end samples

end PyQ
