import Verif.Proofs.Reverse

/-! # The loop of a run backward in time (real arithmetic)

`Reverse.st et s` are the loop variables of the reversed run when `s` are those of the original one. With `rk4`, fixed time
steps, no thresholds, the duty on and the battery above its minimum, one iteration commutes with this map. -/

set_option linter.unusedSectionVars false
set_option maxRecDepth 100000

noncomputable section

namespace PyQ

/-- the bounds of the reversed problem: those of RAAN and argument of periapsis change sign and places -/
def reversedBounds : ElemType → List ℝ → List ℝ → List ℝ
  | .keplerian, l0 :: l1 :: l2 :: _ :: _ :: lo, _ :: _ :: _ :: u3 :: u4 :: _ => l0 :: l1 :: l2 :: -u3 :: -u4 :: lo
  | _, lo, _ => lo

/-- the target of the reversed problem -/
def reversedTarget : ElemType → List ℝ → List ℝ
  | .keplerian, l => (l.modify 3 (-·)).modify 4 (-·)
  | .meeWithA, l => (l.modify 2 (-·)).modify 4 (-·)

/-- the settings of the reversed problem -/
def Config.reversed (et : ElemType)
    (pert : Option (ℝ → (Fin 6 → ℝ) → ElemType → Except PyErr (Fin 3 → ℝ))) (C : Config ℝ) : Config ℝ :=
  { C with oeMin := reversedBounds et C.oeMin C.oeMax, oeMax := reversedBounds et C.oeMax C.oeMin, perturbations := pert }

/-- the reversed problem: everything that is a rate or a time changes sign -/
def Problem.reversed (et : ElemType) (P : Problem ℝ) : Problem ℝ :=
  { P with oe0 := PyQ.reversed et P.oe0, oeT := reversedTarget et P.oeT, mdot := -P.mdot, tfMax := -P.tfMax,
           tStep := -P.tStep, chargeRate := -P.chargeRate, dischargeRate := -P.dischargeRate }

/-- the second perturbation is the reversal of the first -/
def PertReversed (et : ElemType)
    (f f' : Option (ℝ → (Fin 6 → ℝ) → ElemType → Except PyErr (Fin 3 → ℝ))) : Prop :=
  match f, f' with
  | none, none => True
  | some f, some f' => ∀ t x, f' (-t) (reversed et x) et = (f t x et).map againstTime
  | _, _ => False

/-- the bounds of RAAN and argument of periapsis are in order -/
def BoundsOrdered (C : Config ℝ) : Prop :=
  ∀ k, k = 3 ∨ k = 4 → ∀ l u, C.oeMin[k]? = some l → C.oeMax[k]? = some u → l ≤ u

/-- the recorded histories of the reversed run -/
def Hist.reversed (et : ElemType) (h : Hist ℝ) : Hist ℝ :=
  { h with times := h.times.map (-·), states := h.states.map (PyQ.reversed et),
           controls := h.controls.map (fun c => (turnedAngle c.1, c.2.1, c.2.2)), dqdts := h.dqdts.map (-·) }

namespace Reverse

variable {et : ElemType}

theorem clip_neg {l u : ℝ} (h : l ≤ u) (x : ℝ) : pymin (pymax (-u) (-x)) (-l) = -pymin (pymax l x) u := by
  have e1 : ∀ a b : ℝ, pymax a b = max a b := by
    intro a b
    show (if decide (a < b) = true then b else a) = _
    by_cases h : a < b
    · simp [h, h.le]
    · simp [h, not_lt.1 h]
  have e2 : ∀ a b : ℝ, pymin a b = min a b := by
    intro a b
    show (if decide (b < a) = true then b else a) = _
    by_cases h : b < a
    · simp [h, h.le]
    · simp [h, not_lt.1 h]
  simp only [e1, e2, max_neg_neg, min_neg_neg, neg_inj]
  rcases le_total x l with h1 | h1 <;> rcases le_total x u with h2 | h2 <;> simp [h1, h2, h]
  · linarith

theorem safety_rev {C : Config ℝ} (h : BoundsOrdered C) (x : Fin 6 → ℝ) :
    elementsSafety (reversed .keplerian x) (reversedBounds .keplerian C.oeMin C.oeMax) (reversedBounds .keplerian C.oeMax C.oeMin) =
      (elementsSafety x C.oeMin C.oeMax).map (reversed .keplerian) := by
  unfold BoundsOrdered at h
  generalize C.oeMin = lo at *
  generalize C.oeMax = hi at *
  match lo, hi with
  | l0 :: l1 :: l2 :: l3 :: l4 :: lo, u0 :: u1 :: u2 :: u3 :: u4 :: hi =>
    have h3 : l3 ≤ u3 := h 3 (Or.inl rfl) _ _ rfl rfl
    have h4 : l4 ≤ u4 := h 4 (Or.inr rfl) _ _ rfl rfl
    simp only [reversedBounds, elementsSafety, reversed, Matrix.cons_val, clip_neg h3, clip_neg h4, Except.map]
  | [], _ => simp [reversedBounds, elementsSafety, Except.map]
  | [_], _ => simp [reversedBounds, elementsSafety, Except.map]
  | [_, _], _ => simp [reversedBounds, elementsSafety, Except.map]
  | [_, _, _], _ => simp [reversedBounds, elementsSafety, Except.map]
  | [_, _, _, _], _ => simp [reversedBounds, elementsSafety, Except.map]
  | _ :: _ :: _ :: _ :: _ :: _, [] => simp [reversedBounds, elementsSafety, Except.map]
  | _ :: _ :: _ :: _ :: _ :: _, [_] => simp [reversedBounds, elementsSafety, Except.map]
  | _ :: _ :: _ :: _ :: _ :: _, [_, _] => simp [reversedBounds, elementsSafety, Except.map]
  | _ :: _ :: _ :: _ :: _ :: _, [_, _, _] => simp [reversedBounds, elementsSafety, Except.map]
  | _ :: _ :: _ :: _ :: _ :: _, [_, _, _, _] => simp [reversedBounds, elementsSafety, Except.map]

theorem target (l : List ℝ) :
    (∃ e, asVec5 l = .error e ∧ asVec5 (reversedTarget et l) = .error e) ∨
      ∃ v, asVec5 l = .ok v ∧ asVec5 (reversedTarget et l) = .ok (reversed5 et v) := by
  by_cases hl : l.length = 5
  · match l, hl with
    | [a, b, c, d, e], _ =>
      refine Or.inr ⟨![a, b, c, d, e], rfl, ?_⟩
      cases et <;> rfl
  · have he : ∀ l : List ℝ, l.length ≠ 5 → asVec5 l = .error .valueError := by
      intro l hl
      unfold asVec5
      split
      · simp at hl
      · rfl
    exact Or.inl ⟨_, he l hl, he _ (by cases et <;> simpa [reversedTarget] using hl)⟩

theorem conv (x : Fin 6 → ℝ) (v w tol : Fin 5 → ℝ) :
    (dynOf et : Dyn ℝ).checkConv (reversed et x) (reversed5 et v) w tol = (dynOf et : Dyn ℝ).checkConv x v w tol := by
  have e : ∀ x y : ℝ, Real.cos (-x - -y) = Real.cos (x - y) := fun x y => by
    rw [← Real.cos_neg]; congr 1; ring
  have ea : ∀ x y : ℝ, PyOrd.abs (-x - -y) = PyOrd.abs (x - y) := fun x y => by
    rw [abs_real, abs_real, ← abs_neg]; congr 1; ring
  cases et with
  | keplerian =>
    show checkConvergenceKeplerian _ _ _ _ = checkConvergenceKeplerian _ _ _ _
    unfold checkConvergenceKeplerian
    simp only [reversed, reversed5, Matrix.cons_val, cos_real, e]
  | meeWithA =>
    show checkConvergenceMee _ _ _ _ = checkConvergenceMee _ _ _ _
    unfold checkConvergenceMee
    suffices h : (fun i : Fin 5 => PyOrd.abs (reversed5 .meeWithA v i - reversed .meeWithA x i.castSucc)) =
        fun i => PyOrd.abs (v i - x i.castSucc) by simp only [h]
    funext i
    match i with
    | 0 | 1 | 3 => rfl
    | 2 => exact ea (v 2) (x 2)
    | 4 => exact ea (v 4) (x 4)

theorem sign_neg (x : ℝ) : (PyOrd.sign (-x) : ℝ) = -PyOrd.sign x := by
  show (if -x < 0 then (-1 : ℝ) else if 0 < -x then 1 else 0) = -(if x < 0 then (-1 : ℝ) else if 0 < x then 1 else 0)
  rcases lt_trichotomy x 0 with h | h | h
  · simp [h, h.not_gt]
  · simp [h]
  · simp [h, h.not_gt]

theorem turned_sin (a : ℝ) : Real.sin (turnedAngle a) = -Real.sin a := by
  unfold turnedAngle
  split
  · next h => rw [h]; simp
  · exact Real.sin_neg a

theorem turned_cos (a : ℝ) : Real.cos (turnedAngle a) = Real.cos a := by
  unfold turnedAngle
  split
  · next h => rw [h]
  · exact Real.cos_neg a

theorem turned_zero : turnedAngle 0 = 0 := by
  unfold turnedAngle
  rw [if_neg Real.pi_pos.ne, neg_zero]

theorem thrust_rev (f a b : ℝ) : vsmul (-f) (dirOf (turnedAngle a) b) = againstTime (vsmul f (dirOf a b)) := by
  funext c
  match c with
  | 0 | 1 | 2 => simp [vsmul, dirOf, againstTime, turned_sin, turned_cos]

theorem zero_rev : againstTime (zero3 : Fin 3 → ℝ) = zero3 := by
  funext c
  match c with
  | 0 | 1 | 2 => simp [againstTime, zero3]

/-! ### The equations of motion -/

theorem gauss {p p' : OdeParams ℝ} {psi : Fin 3 → Fin 5 → ℝ}
    (h0 : p.psi0 = psi 0) (h1 : p.psi1 = psi 1) (h2 : p.psi2 = psi 2)
    (hu : p'.u = againstTime p.u) (hp : p'.ptrb = againstTime p.ptrb)
    (h0' : p'.psi0 = mat et psi 0) (h1' : p'.psi1 = mat et psi 1) (h2' : p'.psi2 = mat et psi 2) (row : Fin 3 → ℝ) (rate : ℝ) :
    gaussCombine p' (againstTime row) rate = fun i => revSign et i / -1 * gaussCombine p row rate i := by
  have h5 : revSign et 5 = -1 := by cases et <;> rfl
  funext i
  match i with
  | 0 | 1 | 2 | 3 | 4 =>
    simp only [gaussCombine, h0, h1, h2, hu, hp, h0', h1', h2', dot3, vadd, mat, back, againstTime, Matrix.cons_val]
    simp
    ring
  | 5 =>
    simp only [gaussCombine, hu, hp, dot3, vadd, againstTime, Matrix.cons_val, h5]
    ring

theorem eom {p p' : OdeParams ℝ} {psi : Fin 3 → Fin 5 → ℝ}
    (h0 : p.psi0 = psi 0) (h1 : p.psi1 = psi 1) (h2 : p.psi2 = psi 2)
    (hu : p'.u = againstTime p.u) (hp : p'.ptrb = againstTime p.ptrb) (hm : p'.mu = p.mu)
    (h0' : p'.psi0 = mat et psi 0) (h1' : p'.psi1 = mat et psi 1) (h2' : p'.psi2 = mat et psi 2) (t t' : ℝ) (y : Fin 6 → ℝ) :
    (dynOf et : Dyn ℝ).eom t' (reversed et y) p' =
      ((dynOf et : Dyn ℝ).eom t y p).map fun r i => revSign et i / -1 * r i := by
  have g := fun row rate => gauss (et := et) h0 h1 h2 hu hp h0' h1' h2' row rate
  cases et with
  | keplerian =>
    show eomKepGauss t' _ p' = (eomKepGauss t y p).map _
    unfold eomKepGauss
    have e0 : reversed .keplerian y 0 = y 0 := rfl
    have e1 : reversed .keplerian y 1 = y 1 := rfl
    have e5 : reversed .keplerian y 5 = -y 5 := rfl
    simp only [e0, e1, e5, hm, cos_real, sin_real, Real.cos_neg, Real.sin_neg]
    have gz : ∀ c0 c1 rate, gaussCombine p' ![c0, -c1, ((0 : ℕ) : ℝ)] rate =
        fun i => revSign .keplerian i / -1 * gaussCombine p ![c0, c1, ((0 : ℕ) : ℝ)] rate i := by
      intro c0 c1 rate
      rw [← g]
      congr 1
      funext i
      match i with
      | 0 | 1 | 2 => simp [againstTime]
    have nneg : ∀ x y : ℝ, ndiv (-x) y = (ndiv x y).map (-·) := by
      intro x y
      unfold ndiv
      split
      · rfl
      · simp [Except.map, neg_div]
    cases ndiv _ (p.mu * _) with
    | error e => rfl
    | ok r =>
      simp only [bind, Except.bind, mul_neg, nneg]
      cases ndiv (_ : ℝ) _ with
      | error e => rfl
      | ok c0 =>
        simp only
        cases ndiv (_ : ℝ) _ with
        | error e => rfl
        | ok c1 =>
          simp only [Except.map]
          cases ndiv _ (r ^ 2) with
          | error e => rfl
          | ok rate => simp only [pure, Except.pure, gz]
  | meeWithA =>
    show eomMeeWithAGauss t' _ p' = (eomMeeWithAGauss t y p).map _
    unfold eomMeeWithAGauss
    have e0 : reversed .meeWithA y 0 = y 0 := rfl
    have e1 : reversed .meeWithA y 1 = y 1 := rfl
    have e2 : reversed .meeWithA y 2 = -y 2 := rfl
    have e3 : reversed .meeWithA y 3 = y 3 := rfl
    have e4 : reversed .meeWithA y 4 = -y 4 := rfl
    have e5 : reversed .meeWithA y 5 = -y 5 := rfl
    have gz : ∀ sw rate : ℝ, gaussCombine p' ![((0 : ℕ) : ℝ), ((0 : ℕ) : ℝ),
        sw * (y 3 * -Real.sin (y 5) - -y 4 * Real.cos (y 5))] rate =
        fun i => revSign .meeWithA i / -1 * gaussCombine p ![((0 : ℕ) : ℝ), ((0 : ℕ) : ℝ),
          sw * (y 3 * Real.sin (y 5) - y 4 * Real.cos (y 5))] rate i := by
      intro sw rate
      rw [← g]
      congr 1
      funext i
      match i with
      | 0 | 1 => simp [againstTime]
      | 2 => simp [againstTime]; ring
    have nneg : ∀ x y : ℝ, ndiv (-x) y = (ndiv x y).map (-·) := by
      intro x y
      unfold ndiv
      split
      · rfl
      · simp [Except.map, neg_div]
    have et : ∀ x : ℝ, -y 5 - Real.arctan (-x) = -(y 5 - Real.arctan x) := fun x => by rw [Real.arctan_neg]; ring
    simp only [e0, e1, e2, e3, e4, e5, hm, cos_real, sin_real, Real.cos_neg, Real.sin_neg, neg_sq, nneg, neg_mul_neg]
    cases ndiv (y 2) _ with
    | error e => rfl
    | ok gf =>
      simp only [bind, Except.bind, Except.map, arctan_real, et, Real.cos_neg]
      cases ndiv _ (p.mu * _) with
      | error e => rfl
      | ok r =>
        simp only
        cases ndiv _ p.mu with
        | error e => rfl
        | ok q =>
          simp only
          cases ndiv (_ : ℝ) _ with
          | error e => rfl
          | ok sw =>
            simp only
            cases ndiv (_ : ℝ) _ with
            | error e => rfl
            | ok wp => simp only [pure, Except.pure, gz]

/-! ### The phases of an iteration -/

variable [PyNan ℝ]

/-- loop variables of the reversed run -/
def st (et : ElemType) (s : LoopSt ℝ) : LoopSt ℝ :=
  { s with t := -s.t, oe := reversed et s.oe, hist := s.hist.reversed et, alpha := s.alpha.map turnedAngle }

/-- a control of the reversed run -/
def ctl (et : ElemType) (v : Fin 5 → ℝ) (c : Ctl ℝ) : Ctl ℝ :=
  { c with alpha := c.alpha.map turnedAngle, u := againstTime c.u, psi := mat et c.psi, qdot := -c.qdot, oeT := v }

/-- result of the control phase of the reversed run -/
def ctlRes (et : ElemType) (v : Fin 5 → ℝ) : CtlRes ℝ → CtlRes ℝ
  | .ctl c => .ctl (ctl et v c)
  | .nanBreak n => .nanBreak n

/-- the second environment is the reversal of the first -/
structure Reversed (et : ElemType) (E E' : Env ℝ) : Prop where
  cfg : E'.cfg = E.cfg.reversed et E'.cfg.perturbations
  prob : E'.prob = E.prob.reversed et
  elems : E.cfg.elementsType = et
  dyn : E.cfg.dyn = dynOf et
  fixed : E.cfg.useSundman = false
  method : E.cfg.integrator = .rk4
  bounds : BoundsOrdered E.cfg
  pert : PertReversed et E.cfg.perturbations E'.cfg.perturbations
  etaA : ∀ t x m b, evalEta E'.etaA (-t) (PyQ.reversed et x) m b = evalEta E.etaA t x m b
  etaR : ∀ t x m b, evalEta E'.etaR (-t) (PyQ.reversed et x) m b = evalEta E.etaR t x m b
  offA : ∀ t x m b v, evalEta E.etaA t x m b = .ok v → PyOrd.lt ((0 : ℕ) : ℝ) v = false
  offR : ∀ t x m b v, evalEta E.etaR t x m b = .ok v → PyOrd.lt ((0 : ℕ) : ℝ) v = false
  nan : ∀ x : ℝ, PyNan.isnan (-x) = PyNan.isnan x
  w4 : et = .meeWithA → E.prob.woe 4 = 0

variable {E E' : Env ℝ}

theorem nan_turned (h : ∀ x : ℝ, PyNan.isnan (-x) = PyNan.isnan x) (a : ℝ) :
    PyNan.isnan (turnedAngle a) = PyNan.isnan a := by
  unfold turnedAngle
  split
  · next h => rw [h]
  · exact h a

theorem clamp (hE : Reversed et E E') (s : LoopSt ℝ) :
    clampPhase E'.cfg (st et s) = (clampPhase E.cfg s).map (st et) := by
  unfold clampPhase
  have e1 : E'.cfg.elementsType = E.cfg.elementsType := by rw [hE.cfg]; rfl
  rw [e1]
  cases hk : E.cfg.elementsType with
  | meeWithA => rfl
  | keplerian =>
    have het : et = .keplerian := by rw [← hE.elems]; exact hk
    subst het
    have e2 : E'.cfg.oeMin = reversedBounds .keplerian E.cfg.oeMin E.cfg.oeMax := by rw [hE.cfg]; rfl
    have e3 : E'.cfg.oeMax = reversedBounds .keplerian E.cfg.oeMax E.cfg.oeMin := by rw [hE.cfg]; rfl
    show (do let oe ← elementsSafety (reversed .keplerian s.oe) E'.cfg.oeMin E'.cfg.oeMax; _) = _
    rw [e2, e3, safety_rev hE.bounds]
    cases elementsSafety s.oe E.cfg.oeMin E.cfg.oeMax with
    | error e => rfl
    | ok y =>
      simp [Except.map, bind, Except.bind, pure, Except.pure, st, Hist.reversed]

theorem choose (hE : Reversed et E E') (x y : Fin 6 → ℝ) :
    chooseStep E.cfg E.prob x = .ok E.prob.tStep ∧ chooseStep E'.cfg E'.prob y = .ok (-E.prob.tStep) := by
  have e1 : E'.cfg.useSundman = false := by rw [hE.cfg]; exact hE.fixed
  have e2 : E'.prob.tStep = -E.prob.tStep := by rw [hE.prob]; rfl
  constructor
  · simp [chooseStep, hE.fixed, pure, Except.pure]
  · simp [chooseStep, e1, e2, pure, Except.pure]

theorem control (hE : Reversed et E E') {v : Fin 5 → ℝ} (h1 : asVec5 E.prob.oeT = .ok v)
    (h2 : asVec5 E'.prob.oeT = .ok (reversed5 et v)) (s : LoopSt ℝ) {d d' : DutyRes ℝ} (hd : d.duty = true)
    (hd' : d'.duty = true) (hst : d'.step = -d.step) :
    controlPhase E' (st et s) d' = (controlPhase E s d).map (ctlRes et (reversed5 et v)) := by
  have e0 : E'.cfg.dyn = dynOf et := by rw [hE.cfg]; exact hE.dyn
  have ef : PyOrd.sign d'.step * E'.prob.tmax / (st et s).mass = -(PyOrd.sign d.step * E.prob.tmax / s.mass) := by
    have e1 : E'.prob.tmax = E.prob.tmax := by rw [hE.prob]; rfl
    have e2 : (st et s).mass = s.mass := rfl
    rw [hst, e1, e2, sign_neg]
    ring
  have ea : ∀ f, lyapArgs E'.cfg E'.prob (reversed5 et v) (-f) (reversed et s.oe) = args et (lyapArgs E.cfg E.prob v f s.oe) := by
    intro f
    rw [hE.cfg, hE.prob]
    rfl
  have e3 : E'.cfg.nanAnglesThreshold = E.cfg.nanAnglesThreshold := by rw [hE.cfg]; rfl
  unfold controlPhase
  have e5 : (st et s).oe = reversed et s.oe := rfl
  have e9 : (st et s).t = -s.t := rfl
  have e10 : (st et s).battery = s.battery := rfl
  have e11 : (st et s).nNan = s.nNan := rfl
  have e12 : (st et s).mass = s.mass := rfl
  simp only [ef, e0, e3, e5, e9, e10, e11, h1, h2, hd, hd', hE.dyn, if_true, bind, Except.bind, pure, Except.pure]
  simp only [e12, hE.etaA, hE.etaR, ea]
  rw [law (A := lyapArgs E.cfg E.prob v (PyOrd.sign d.step * E.prob.tmax / s.mass) s.oe) hE.w4]
  cases lyapunovControlAngles (dynOf et : Dyn ℝ).lyapFun
      (lyapArgs E.cfg E.prob v (PyOrd.sign d.step * E.prob.tmax / s.mass) s.oe) with
  | error e => rfl
  | ok o =>
    simp only [Except.map, out, nan_turned hE.nan]
    cases (PyNan.isnan o.alpha || PyNan.isnan o.beta) with
    | true =>
      simp only [if_true]
      split <;> simp [ctlRes, ctl, zero_rev, turned_zero]
    | false =>
      simp only [Bool.false_eq_true, if_false]
      cases h3 : evalEta E.etaA s.t s.oe s.mass s.battery with
      | error e => rfl
      | ok ea =>
        cases h4 : evalEta E.etaR s.t s.oe s.mass s.battery with
        | error e => rfl
        | ok er =>
          have o1 := hE.offA _ _ _ _ _ h3
          have o2 := hE.offR _ _ _ _ _ h4
          simp only [o1, o2, Bool.or_false, Bool.false_eq_true, if_false, ctlRes, ctl, Option.map_some, thrust_rev]

theorem propagate (hE : Reversed et E E') (s : LoopSt ℝ) (h : ℝ) (v : Fin 5 → ℝ) (c : Ctl ℝ) :
    propagatePhase E' (st et s) (-h) (ctl et v c) =
      (propagatePhase E s h c).map fun p => (reversed et p.1, -p.2) := by
  have e1 : E'.cfg.elementsType = et := by rw [hE.cfg]; exact hE.elems
  have e2 : E'.cfg.integrator = .rk4 := by rw [hE.cfg]; exact hE.method
  have e3 : E'.cfg.dyn = dynOf et := by rw [hE.cfg]; exact hE.dyn
  have e4 : E'.cfg.mu = E.cfg.mu := by rw [hE.cfg]; rfl
  have k4 : ∀ ptrb : Fin 3 → ℝ, PyQ.rk4 (dynOf et : Dyn ℝ).eom (-s.t) (-h) (reversed et s.oe)
        (odeOf E.cfg.mu (againstTime c.u) (mat et c.psi) (againstTime ptrb)) =
      (PyQ.rk4 (dynOf et : Dyn ℝ).eom s.t h s.oe (odeOf E.cfg.mu c.u c.psi ptrb)).map (reversed et) := by
    intro ptrb
    have := rk4_change (g := revChg et) (p := odeOf E.cfg.mu c.u c.psi ptrb)
      (p' := odeOf E.cfg.mu (againstTime c.u) (mat et c.psi) (againstTime ptrb))
      (F := (dynOf et : Dyn ℝ).eom) (F' := (dynOf et : Dyn ℝ).eom) (by show (-1 : ℝ) ≠ 0; norm_num) (fun t y => by
        rw [chg_x]
        exact eom (p := odeOf E.cfg.mu c.u c.psi ptrb) (psi := c.psi)
          (p' := odeOf E.cfg.mu (againstTime c.u) (mat et c.psi) (againstTime ptrb))
          rfl rfl rfl rfl rfl rfl rfl rfl rfl t _ y) s.t h s.oe
    rw [chg_x, show (revChg et).t * s.t = -s.t from neg_one_mul _, show (revChg et).t * h = -h from neg_one_mul _] at this
    exact this
  have go : ∀ ptrb : Fin 3 → ℝ, (do
        let oeNext ← PyQ.rk4 (dynOf et : Dyn ℝ).eom (-s.t) (-h) (reversed et s.oe)
          (odeOf E.cfg.mu (againstTime c.u) (mat et c.psi) (againstTime ptrb))
        pure (oeNext, -h) : Except PyErr ((Fin 6 → ℝ) × ℝ)) =
      (do
        let oeNext ← PyQ.rk4 (dynOf et : Dyn ℝ).eom s.t h s.oe (odeOf E.cfg.mu c.u c.psi ptrb)
        pure (oeNext, h) : Except PyErr ((Fin 6 → ℝ) × ℝ)).map fun p => (reversed et p.1, -p.2) := by
    intro ptrb
    rw [k4]
    cases PyQ.rk4 (dynOf et : Dyn ℝ).eom s.t h s.oe (odeOf E.cfg.mu c.u c.psi ptrb) <;> rfl
  have hp := hE.pert
  unfold propagatePhase
  simp only [e1, e2, e3, e4, hE.method, hE.dyn, hE.elems]
  have f1 : (st et s).t = -s.t := rfl
  have f2 : (st et s).oe = reversed et s.oe := rfl
  have f3 : (ctl et v c).u = againstTime c.u := rfl
  have f4 : (ctl et v c).psi = mat et c.psi := rfl
  rw [f1, f2, f3, f4]
  cases hq : E.cfg.perturbations with
  | none =>
    cases hq' : E'.cfg.perturbations with
    | some f => rw [hq, hq'] at hp; exact hp.elim
    | none =>
      have := go zero3
      rw [zero_rev] at this
      exact this
  | some f =>
    cases hq' : E'.cfg.perturbations with
    | none => rw [hq, hq'] at hp; exact hp.elim
    | some f' =>
      rw [hq, hq'] at hp
      have e := hp s.t s.oe
      simp only [e]
      cases f s.t s.oe et with
      | error e => rfl
      | ok a => exact go a

theorem exit (hE : Reversed et E E') (v : Fin 5 → ℝ) (s : LoopSt ℝ) :
    exitPhase E' (reversed5 et v) (st et s) = Resume.out (st et) (exitPhase E v s) := by
  have e1 : E'.cfg.dyn = dynOf et := by rw [hE.cfg]; exact hE.dyn
  have e2 : E'.cfg.tolOe = E.cfg.tolOe := by rw [hE.cfg]; rfl
  have e3 : E'.cfg.tolOeRelaxed = E.cfg.tolOeRelaxed := by rw [hE.cfg]; rfl
  have e4 : E'.cfg.exitAtRelaxed = E.cfg.exitAtRelaxed := by rw [hE.cfg]; rfl
  have e5 : E'.prob.woe = E.prob.woe := by rw [hE.prob]; rfl
  have e6 : E'.prob.massMin = E.prob.massMin := by rw [hE.prob]; rfl
  have e7 : (st et s).oe = reversed et s.oe := rfl
  have e8 : (st et s).mass = s.mass := rfl
  have e9 : (st et s).nRelaxed = s.nRelaxed := rfl
  unfold exitPhase
  simp only [e1, e2, e3, e4, e5, e6, e7, e8, e9, conv, hE.dyn]
  split_ifs <;> rfl

theorem store (h : Hist ℝ) (t : ℝ) (oe : Fin 6 → ℝ) (mass bat : ℝ) (c : Ctl ℝ) (v : Fin 5 → ℝ) :
    storePhase (h.reversed et) (-t) (reversed et oe) mass bat (ctl et v c) =
      ((storePhase h t oe mass bat c).1.reversed et, (storePhase h t oe mass bat c).2) := by
  unfold storePhase
  dsimp only [ctl]
  cases c.alpha <;> cases c.beta <;> simp [Hist.reversed]

/-- the loop variables while nothing limits the thrust, in either direction -/
structure Free (E : Env ℝ) (s : LoopSt ℝ) : Prop where
  duty : s.duty = true
  charging : s.charging = false
  ahead : PyOrd.lt E.prob.dutyOn (s.t - s.tOn) = false
  behind : PyOrd.lt E.prob.dutyOn (-s.t - s.tOn) = false
  battery : PyOrd.le s.battery (E.prob.capMin + rat 1 (10 ^ 12)) = false

theorem duty_rev (hE : Reversed et E E') {s : LoopSt ℝ} (hF : Free E s) (step : ℝ) :
    ∃ d, dutyPhase E.prob s step = d ∧ d.duty = true ∧ d.charging = false ∧ d.tOn = s.tOn ∧
      dutyPhase E'.prob (st et s) (-step) = { d with step := -d.step } := by
  have hd := Resume.duty_on step hF.duty hF.charging hF.ahead hF.battery
  have h1 : E'.prob.dutyOn = E.prob.dutyOn := by rw [hE.prob]; rfl
  have h2 : E'.prob.capMin = E.prob.capMin := by rw [hE.prob]; rfl
  have h3 : E'.prob.dischargeRate = -E.prob.dischargeRate := by rw [hE.prob]; rfl
  have hd' := Resume.duty_on (P := E'.prob) (s := st et s) (-step) hF.duty hF.charging
    (by rw [h1]; exact hF.behind) (by rw [h2]; exact hF.battery)
  refine ⟨_, rfl, by rw [hd], by rw [hd], by rw [hd], ?_⟩
  rw [hd, hd', h2, h3]
  show DutyRes.mk true s.tOn s.tOff false (if PyOrd.lt (s.battery - -E.prob.dischargeRate * -step) E.prob.capMin = true then
    (s.battery - E.prob.capMin) / -E.prob.dischargeRate else -step) = _
  rw [neg_mul_neg]
  simp only [DutyRes.mk.injEq, true_and]
  split
  · rw [div_neg]
  · rfl

theorem iter_rev (hE : Reversed et E E') {s : LoopSt ℝ} (hF : Free E s) :
    iter E' (st et s) = Resume.out (st et) (iter E s) := by
  unfold iter
  rw [clamp hE]
  cases hc : clampPhase E.cfg s with
  | error e => rfl
  | ok s1 =>
    have hF1 : Free E s1 := ⟨by rw [clamp_duty hc]; exact hF.duty, by rw [clamp_charging hc]; exact hF.charging,
      by rw [clamp_t hc, clamp_tOn hc]; exact hF.ahead, by rw [clamp_t hc, clamp_tOn hc]; exact hF.behind,
      by rw [clamp_battery hc]; exact hF.battery⟩
    simp only [Except.map]
    unfold bodyPhase
    rw [(choose hE s1.oe (st et s1).oe).1, (choose hE s1.oe (st et s1).oe).2]
    simp only
    obtain ⟨d, hd, hd1, hd2, -, hd'⟩ := duty_rev hE hF1 E.prob.tStep
    rw [hd', hd]
    have hPt : E'.prob.oeT = reversedTarget et E.prob.oeT := by rw [hE.prob]; rfl
    rcases target (et := et) E.prob.oeT with ⟨e, h1, h2⟩ | ⟨v, h1, h2⟩
    · rw [← hPt] at h2
      have c1 : controlPhase E s1 d = .error e := by
        unfold controlPhase
        simp only [h1, bind, Except.bind]
      have c2 : controlPhase E' (st et s1) { d with step := -d.step } = .error e := by
        unfold controlPhase
        simp only [h2, bind, Except.bind]
      rw [c1, c2]
      rfl
    · rw [← hPt] at h2
      rw [control hE h1 h2 s1 hd1 (d' := { d with step := -d.step }) hd1 rfl]
      cases hctl : controlPhase E s1 d with
      | error e => rfl
      | ok r =>
        cases r with
        | nanBreak n => simp [Except.map, ctlRes, Resume.out, st, turned_zero]
        | ctl c =>
          have hv : c.oeT = v := by
            obtain ⟨o, ho, _⟩ := control_ctl hctl
            rw [h1] at ho; injection ho with ho; exact ho.symm
          simp only [Except.map, ctlRes]
          rw [propagate hE]
          cases propagatePhase E s1 d.step c with
          | error e => rfl
          | ok p =>
            obtain ⟨oeNext, hBat⟩ := p
            simp only [Except.map]
            have e1 : E'.prob.mdot = -E.prob.mdot := by rw [hE.prob]; rfl
            have e2 : (st et s1).t + -d.step = -(s1.t + d.step) := by show -s1.t + -d.step = _; ring
            have e3 : (st et s1).mass = s1.mass := rfl
            have e4 : (st et s1).battery = s1.battery := rfl
            have e5 : (st et s1).hist = s1.hist.reversed et := rfl
            have e6 : batteryPhase E'.prob s1.battery d.duty d.charging (-hBat) =
                batteryPhase E.prob s1.battery d.duty d.charging hBat := by
              have f1 : E'.prob.capMin = E.prob.capMin := by rw [hE.prob]; rfl
              have f2 : E'.prob.capMax = E.prob.capMax := by rw [hE.prob]; rfl
              have f3 : E'.prob.dischargeRate = -E.prob.dischargeRate := by rw [hE.prob]; rfl
              have f4 : E'.prob.chargeRate = -E.prob.chargeRate := by rw [hE.prob]; rfl
              unfold batteryPhase
              simp only [f1, f2, f3, f4, neg_mul_neg]
            have e7 : (ctl et (reversed5 et v) c).throttle = c.throttle := rfl
            simp only [e1, e2, e3, e4, e5, e6, e7, neg_mul_neg, store]
            generalize batteryPhase E.prob s1.battery d.duty d.charging hBat = bc
            generalize (if c.throttle = 1 then s1.mass - E.prob.mdot * d.step else s1.mass) = m'
            cases (storePhase s1.hist (s1.t + d.step) oeNext m' bc.1 c).2 with
            | some e => rfl
            | none =>
              simp only
              rw [hv]
              exact exit hE v
                { t := s1.t + d.step, oe := oeNext, mass := m', battery := bc.1,
                  hist := (storePhase s1.hist (s1.t + d.step) oeNext m' bc.1 c).1,
                  nRelaxed := s1.nRelaxed, nNan := c.nNan, duty := d.duty, tOn := d.tOn,
                  tOff := d.tOff, charging := bc.2, alpha := c.alpha, beta := c.beta }

/-- loop variables of a run that was never limited -/
structure Ongoing (s : LoopSt ℝ) : Prop where
  last : s.hist.times.getLastD 0 = s.t
  level : s.battery ∈ s.hist.battery
  duty : s.duty = true
  charging : s.charging = false
  tOn : s.tOn = 0

theorem Ongoing.next {s s' : LoopSt ℝ} (h : Ongoing s) (hF : Free E s) (hi : iter E s = .cont s') :
    Ongoing s' := by
  obtain ⟨D, hD⟩ := rec_of_cont hi
  have hs := hD.next.1 s' hi
  have hc := hD.clamp
  have hd := hD.duty
  rw [Resume.duty_on (P := E.prob) (s := D.s1) D.step0 (by rw [clamp_duty hc]; exact hF.duty)
    (by rw [clamp_charging hc]; exact hF.charging) (by rw [clamp_t hc, clamp_tOn hc]; exact hF.ahead)
    (by rw [clamp_battery hc]; exact hF.battery)] at hd
  have hdu : D.d.duty = true := by rw [hd]
  subst hs
  refine ⟨?_, ?_, hdu, ?_, ?_⟩
  · simp [postState]
  · simp [postState]
  · simp [postState, batteryPhase, hdu]; rw [hd]
  · simp [postState]; rw [hd]; show D.s1.tOn = 0; rw [clamp_tOn hc]; exact h.tOn

/-- the loop commutes with reversal -/
theorem loop_rev (hE : Reversed et E E') (hD : |E.prob.tfMax| ≤ E.prob.dutyOn) :
    ∀ (f : ℕ) (s : LoopSt ℝ) (r : RunRes ℝ), Ongoing s → loop E f s = some r →
    (∀ l ∈ r.st.hist.battery, E.prob.capMin + 1 / 10 ^ 12 < l) →
    loop E' f (st et s) = some (Resume.res (st et) r) := by
  intro f
  induction f with
  | zero => intro s r _ h; simp [loop] at h
  | succ f ih =>
    intro s r hs h hb
    have hx := loop_extends _ _ _ _ h
    have hl : s.hist.lastTime = s.t := by rw [Hist.lastTime, Nat.cast_zero]; exact hs.last
    have hl' : (st et s).hist.lastTime = -s.t := by
      rw [← hl]
      simp only [st, Hist.reversed, Hist.lastTime, List.getLastD_eq_getLast?, List.getLast?_map]
      cases s.hist.times.getLast? <;> simp
    have hg : guardB E'.prob (st et s) = guardB E.prob s := by
      unfold guardB
      have e1 : E'.prob.tfMax = -E.prob.tfMax := by rw [hE.prob]; rfl
      rw [hl, hl', e1]
      simp only [abs_real, abs_neg]
    rw [loop_succ] at h ⊢
    rw [hg]
    cases hgd : guardB E.prob s with
    | false =>
      rw [hgd] at h
      simp only [Bool.false_eq_true, if_false, Option.some.injEq] at h ⊢
      rw [← h]; rfl
    | true =>
      rw [hgd] at h
      simp only [if_true] at h ⊢
      have hlt : |s.t| < |E.prob.tfMax| := by
        unfold guardB at hgd
        rw [hl] at hgd
        exact of_decide_eq_true hgd
      have hF : Free E s := by
        refine ⟨hs.duty, hs.charging, ?_, ?_, ?_⟩
        · show decide (E.prob.dutyOn < s.t - s.tOn) = false
          rw [decide_eq_false_iff_not, hs.tOn]
          linarith [le_abs_self s.t]
        · show decide (E.prob.dutyOn < -s.t - s.tOn) = false
          rw [decide_eq_false_iff_not, hs.tOn]
          linarith [neg_abs_le s.t]
        · show decide (s.battery ≤ E.prob.capMin + rat 1 (10 ^ 12)) = false
          rw [decide_eq_false_iff_not, rat_real]
          have := hb _ (hx.battery.subset hs.level)
          push_cast
          linarith
      rw [iter_rev hE hF]
      cases hi : iter E s with
      | cont s' =>
        rw [hi] at h
        exact ih s' r (hs.next hF hi) h hb
      | brk s' c =>
        rw [hi] at h
        simp only [Option.some.injEq] at h
        rw [← h]; rfl
      | err s' c =>
        rw [hi] at h
        simp only [Option.some.injEq] at h
        rw [← h]; rfl

end Reverse

end PyQ
