import Verif.Proofs.ReverseLoop
import Verif.Props.Resume
import Verif.Props.Wound

/-! # C128: runs backward and forward in time -/

set_option linter.unusedSectionVars false
set_option maxRecDepth 100000

noncomputable section

namespace PyQ

/-! ### What reversal means in space -/

/-- a vector turned half a turn about the first axis -/
def halfTurn (v : Fin 3 → ℝ) : Fin 3 → ℝ := ![v 0, -v 1, -v 2]

/-- position and velocity after half a turn about the first axis, with the velocity reversed -/
def svReversed (rv : Fin 6 → ℝ) : Fin 6 → ℝ := ![rv 0, -rv 1, -rv 2, -rv 3, rv 4, rv 5]

theorem kep2sv_turned {k k' : Fin 6 → ℝ} (mu : ℝ) (h0 : k' 0 = k 0) (h1 : k' 1 = k 1) (h2 : k' 2 = k 2)
    (c : ∀ j : Fin 6, 3 ≤ j → Real.cos (k' j) = Real.cos (k j)) (s : ∀ j : Fin 6, 3 ≤ j → Real.sin (k' j) = -Real.sin (k j)) :
    kep2sv k' mu = (kep2sv k mu).map svReversed := by
  have e1 : ∀ c a b : ℝ, vsmul c ![a, b, ((0 : ℕ) : ℝ)] = ![c * a, c * b, 0] := by
    intro c a b; funext j; fin_cases j <;> simp [vsmul]
  simp only [kep2sv, rot3_skip, rot1_skip]
  simp only [h0, h1, h2, cos_real, sin_real, c 5 (by decide), s 5 (by decide), e1, rot_perifocal]
  cases ndiv _ (mu * (_ + k 1 * Real.cos (k 5))) with
  | error e => rfl
  | ok r =>
    simp only [bind, Except.bind]
    cases ndiv mu _ with
    | error e => rfl
    | ok m =>
      simp only [pure, Except.pure, Except.map, svReversed]
      congr 1
      funext j
      fin_cases j <;>
        simp [periP, periQ, c 3 (by decide), s 3 (by decide), c 4 (by decide), s 4 (by decide)] <;> ring

/-- **C128, the reversed orbit.** Position and velocity of the reversed elements are those of the original ones turned half a
turn about the first axis, with the velocity reversed; the conversions raise the same exceptions. -/
theorem C128_cartesian (x : Fin 6 → ℝ) (mu : ℝ) :
    kep2sv (reversed .keplerian x) mu = (kep2sv x mu).map svReversed ∧
    meeWithA2sv (reversed .meeWithA x) mu = (meeWithA2sv x mu).map svReversed := by
  constructor
  · refine kep2sv_turned mu rfl rfl rfl ?_ ?_
    · intro j hj
      match j, hj with
      | 3, _ | 4, _ | 5, _ => exact Real.cos_neg _
    · intro j hj
      match j, hj with
      | 3, _ | 4, _ | 5, _ => exact Real.sin_neg _
  · have e0 : reversed .meeWithA x 0 = x 0 := rfl
    have e1 : reversed .meeWithA x 1 = x 1 := rfl
    have e2 : reversed .meeWithA x 2 = -x 2 := rfl
    have e3 : reversed .meeWithA x 3 = x 3 := rfl
    have e4 : reversed .meeWithA x 4 = -x 4 := rfl
    have e5 : reversed .meeWithA x 5 = -x 5 := rfl
    simp only [meeWithA2sv, e0, e1, e2, e3, e4, e5, mee2kep, Matrix.cons_val, neg_sq]
    cases ndiv (x 0 * (((1 : ℕ) : ℝ) - x 1 ^ 2 - x 2 ^ 2)) (((1 : ℕ) : ℝ) - x 1 ^ 2 - x 2 ^ 2) with
    | error e => rfl
    | ok a =>
      simp only [bind, Except.bind, pure, Except.pure, arctan2_real]
      have f1 : -x 2 * x 3 - x 1 * -x 4 = -(x 2 * x 3 - x 1 * x 4) := by ring
      have f2 : x 1 * x 3 + -x 2 * -x 4 = x 1 * x 3 + x 2 * x 4 := by ring
      rw [f1, f2, Reverse.arg_turned, Reverse.arg_turned]
      generalize Complex.arg ⟨x 3, x 4⟩ = u
      generalize Complex.arg ⟨x 1 * x 3 + x 2 * x 4, x 2 * x 3 - x 1 * x 4⟩ = w
      refine kep2sv_turned mu rfl rfl rfl ?_ ?_
      · intro j hj
        match j, hj with
        | 3, _ => exact Reverse.turned_cos u
        | 4, _ => exact Reverse.turned_cos w
        | 5, _ =>
          show Real.cos (-x 5 - turnedAngle u - turnedAngle w) = Real.cos (x 5 - u - w)
          simp only [Real.cos_sub, Real.sin_sub, Real.cos_neg, Real.sin_neg, Reverse.turned_cos, Reverse.turned_sin]
          ring
      · intro j hj
        match j, hj with
        | 3, _ => exact Reverse.turned_sin u
        | 4, _ => exact Reverse.turned_sin w
        | 5, _ =>
          show Real.sin (-x 5 - turnedAngle u - turnedAngle w) = -Real.sin (x 5 - u - w)
          simp only [Real.cos_sub, Real.sin_sub, Real.cos_neg, Real.sin_neg, Reverse.turned_cos, Reverse.turned_sin]
          ring

/-! ### The perturbations of the package -/

/-- the second ephemerides are the first, half a turn about the first axis and backward in time about the epochs `e` and `e'` -/
structure SpiceReversed (e e' : ℝ) (sp sp' : Spice ℝ) : Prop where
  pos : ∀ b t, sp'.spkpos b (e' - t) = halfTurn (sp.spkpos b (e + t))
  frame : ∀ t i j, sp'.pxform (e' - t) i j = halfTurn (sp.pxform (e + t) i) j
  au : sp'.auKm = sp.auKm

namespace Reverse

theorem dot_half (v w : Fin 3 → ℝ) : dot3 (halfTurn v) (halfTurn w) = dot3 v w := by simp [dot3, halfTurn]
theorem norm_half (v : Fin 3 → ℝ) : norm3 (halfTurn v) = norm3 v := by simp [norm3, halfTurn]
theorem sub_half (v w : Fin 3 → ℝ) : vsub (halfTurn v) (halfTurn w) = halfTurn (vsub v w) := by
  funext i; match i with | 0 | 1 | 2 => simp [vsub, halfTurn]; try ring
theorem add_half (v w : Fin 3 → ℝ) : vadd (halfTurn v) (halfTurn w) = halfTurn (vadd v w) := by
  funext i; match i with | 0 | 1 | 2 => simp [vadd, halfTurn]; try ring
theorem smul_half (c : ℝ) (w : Fin 3 → ℝ) : vsmul c (halfTurn w) = halfTurn (vsmul c w) := by
  funext i; match i with | 0 | 1 | 2 => simp [vsmul, halfTurn]
theorem div_half (c : ℝ) (w : Fin 3 → ℝ) : vdivs (halfTurn w) c = halfTurn (vdivs w c) := by
  funext i; match i with | 0 | 1 | 2 => simp [vdivs, halfTurn, neg_div]

theorem battin (r s : Fin 3 → ℝ) (m : ℝ) :
    perturbationThirdBodyBattin (halfTurn r) (halfTurn s) m = (perturbationThirdBodyBattin r s m).map halfTurn := by
  unfold perturbationThirdBodyBattin
  simp only [sub_half, smul_half, dot_half]
  cases ndiv (_ : ℝ) (dot3 s s) with
  | error e => rfl
  | ok q =>
    simp only [bind, Except.bind]
    cases ndiv (_ + _ + q ^ 2 : ℝ) _ with
    | error e => rfl
    | ok w =>
      simp only
      cases ndiv (-m) _ with
      | error e => rfl
      | ok c => simp only [pure, Except.pure, Except.map, add_half, smul_half]

theorem j2 {T T' : Fin 3 → Fin 3 → ℝ} (hT : ∀ i j, T' i j = halfTurn (T i) j) (r : Fin 3 → ℝ) (mu J2 Re : ℝ) :
    perturbationJ2 (halfTurn r) T' mu J2 Re = (perturbationJ2 r T mu J2 Re).map halfTurn := by
  have h1 : mulVec3 T' (halfTurn r) = mulVec3 T r := by
    funext i
    have : T' i = halfTurn (T i) := funext (hT i)
    simp only [mulVec3, this, dot_half]
  have h2 : ∀ w, mulVec3 (transpose3 T') w = halfTurn (mulVec3 (transpose3 T) w) := by
    intro w
    funext i
    match i with
    | 0 | 1 | 2 => simp [mulVec3, transpose3, dot3, hT, halfTurn]; try ring
  unfold perturbationJ2
  simp only [norm_half, h1, h2]
  cases ndiv (_ : ℝ) _ <;> rfl

theorem srp (r : Fin 3 → ℝ) (AU k : ℝ) : perturbationSRP (halfTurn r) AU k = halfTurn (perturbationSRP r AU k) := by
  simp only [perturbationSRP, smul_half, norm_half, div_half]

theorem rtn (rv : Fin 6 → ℝ) (a : Fin 3 → ℝ) :
    mulVec3 (pxformECI2RTN (svPos (svReversed rv)) (svVel (svReversed rv))) (halfTurn a) =
      againstTime (mulVec3 (pxformECI2RTN (svPos rv) (svVel rv)) a) := by
  have e1 : svPos (svReversed rv) = halfTurn (svPos rv) := by
    funext i; match i with | 0 | 1 | 2 => simp [svPos, svReversed, halfTurn]
  have e2 : svVel (svReversed rv) = vsmul (-1) (halfTurn (svVel rv)) := by
    funext i; match i with | 0 | 1 | 2 => simp [svVel, svReversed, halfTurn, vsmul]
  have e3 : ∀ r v : Fin 3 → ℝ, cross3 (halfTurn r) (vsmul (-1) (halfTurn v)) = vsmul (-1) (halfTurn (cross3 r v)) := by
    intro r v
    funext i
    match i with
    | 0 | 1 | 2 => simp [cross3, halfTurn, vsmul]; try ring
  have e4 : ∀ h : Fin 3 → ℝ, norm3 (vsmul (-1) (halfTurn h)) = norm3 h := by
    intro h; simp [norm3, vsmul, halfTurn]
  have e5 : ∀ (h : Fin 3 → ℝ) (c : ℝ), vdivs (vsmul (-1) (halfTurn h)) c = vsmul (-1) (halfTurn (vdivs h c)) := by
    intro h c
    funext i
    match i with
    | 0 | 1 | 2 => simp [vdivs, halfTurn, vsmul, neg_div]
  have e6 : ∀ n r : Fin 3 → ℝ, cross3 (vsmul (-1) (halfTurn n)) (halfTurn r) = vsmul (-1) (halfTurn (cross3 n r)) := by
    intro r v
    funext i
    match i with
    | 0 | 1 | 2 => simp [cross3, halfTurn, vsmul]; try ring
  have e7 : ∀ h : Fin 3 → ℝ, dot3 (vsmul (-1) (halfTurn h)) (halfTurn a) = -dot3 h a := by
    intro h; simp [dot3, vsmul, halfTurn]; ring
  unfold pxformECI2RTN
  simp only [e1, e2, norm_half, div_half, e3, e4, e5, e6]
  funext i
  match i with
  | 0 => exact dot_half _ _
  | 1 => exact e7 _
  | 2 => exact e7 _

theorem zeroTurn : halfTurn (![((0 : ℕ) : ℝ), ((0 : ℕ) : ℝ), ((0 : ℕ) : ℝ)]) = ![((0 : ℕ) : ℝ), ((0 : ℕ) : ℝ), ((0 : ℕ) : ℝ)] := by
  funext i; match i with | 0 | 1 | 2 => simp [halfTurn]

theorem bodies {S : SpicePerturbations ℝ} {sp sp' : Spice ℝ} {e' : ℝ} (hs : SpiceReversed S.etRef e' sp sp') (t : ℝ)
    (r : Fin 3 → ℝ) : ∀ (l : List (ℝ × String)) (acc : Fin 3 → ℝ),
    l.foldlM (fun acc (b : ℝ × String) => do
      let a3 ← perturbationThirdBodyBattin (halfTurn r) (vdivs (sp'.spkpos b.2 (e' - t)) S.LU) b.1
      pure (vadd acc a3)) (halfTurn acc) =
    (l.foldlM (fun acc (b : ℝ × String) => do
      let a3 ← perturbationThirdBodyBattin r (vdivs (sp.spkpos b.2 (S.etRef + t)) S.LU) b.1
      pure (vadd acc a3)) acc : Except PyErr (Fin 3 → ℝ)).map halfTurn := by
  intro l
  induction l with
  | nil => intro acc; rfl
  | cons b l ih =>
    intro acc
    simp only [List.foldlM_cons, hs.pos, div_half, battin]
    cases perturbationThirdBodyBattin r (vdivs (sp.spkpos b.2 (S.etRef + t)) S.LU) b.1 with
    | error e => rfl
    | ok a =>
      simp only [Except.map, bind, Except.bind, pure, Except.pure, add_half]
      have := ih (vadd acc a)
      simp only [hs.pos, div_half, battin, Except.map, bind, Except.bind, pure, Except.pure] at this
      exact this

end Reverse

/-- **C128, perturbations.** `get_perturbations_RTN` with reversed ephemerides, at the opposite time and for the reversed
elements: the radial component is the original one, the transverse and normal components change sign. -/
theorem C128_perturbations (S : SpicePerturbations ℝ) {sp sp' : Spice ℝ} {e' : ℝ} (hs : SpiceReversed S.etRef e' sp sp')
    (et : ElemType) (t : ℝ) (x : Fin 6 → ℝ) :
    SpicePerturbations.getPerturbationsRTN { S with etRef := e' } sp' (-t) (reversed et x) (typeName et) =
      (S.getPerturbationsRTN sp t x (typeName et)).map againstTime := by
  have key : ∀ rv, SpicePerturbations.fromCartesian { S with etRef := e' } sp' (-t) (svReversed rv) =
      (S.fromCartesian sp t rv).map againstTime := by
    intro rv
    have e1 : svPos (svReversed rv) = halfTurn (svPos rv) := by
      funext i; match i with | 0 | 1 | 2 => simp [svPos, svReversed, halfTurn]
    have e2 : e' + -t * S.TU = e' - t * S.TU := by ring
    unfold SpicePerturbations.fromCartesian
    simp only [e2]
    cases S.thirdBodies with
    | none => rfl
    | some l =>
      simp only [bind, Except.bind]
      have hb := Reverse.bodies hs (t * S.TU) (svPos rv) l (![((0 : ℕ) : ℝ), ((0 : ℕ) : ℝ), ((0 : ℕ) : ℝ)])
      rw [Reverse.zeroTurn] at hb
      simp only [bind, Except.bind] at hb
      rw [e1, hb]
      cases List.foldlM (m := Except PyErr) _ _ l with
      | error e => rfl
      | ok acc1 =>
        simp only [Except.map, Reverse.j2 (hs.frame (t * S.TU)), hs.pos, hs.au, Reverse.div_half, Reverse.sub_half, Reverse.srp]
        cases S.useJ2 with
        | false =>
          cases S.useSRP with
          | false =>
            simp only [Bool.false_eq_true, if_false, pure, Except.pure, ← e1, Reverse.rtn]
          | true =>
            simp only [Bool.false_eq_true, if_false, if_true, pure, Except.pure, ← e1, Reverse.rtn, Reverse.add_half]
        | true =>
          simp only [if_true]
          cases perturbationJ2 (svPos rv) (sp.pxform (S.etRef + t * S.TU)) S.obsMu S.J2 S.Re with
          | error e => rfl
          | ok aj =>
            cases S.useSRP with
            | false =>
              simp only [Bool.false_eq_true, if_false, pure, Except.pure, ← e1, Reverse.rtn, Reverse.add_half]
            | true =>
              simp only [if_true, pure, Except.pure, ← e1, Reverse.rtn, Reverse.add_half]
  cases et with
  | keplerian =>
    simp only [SpicePerturbations.getPerturbationsRTN, typeName, if_true, (C128_cartesian x _).1]
    cases kep2sv x S.obsMu with
    | error e => rfl
    | ok rv => exact key rv
  | meeWithA =>
    simp only [SpicePerturbations.getPerturbationsRTN, typeName, if_true, show ("mee_with_a" = "keplerian") = False by decide,
      if_false, (C128_cartesian x _).2]
    cases meeWithA2sv x S.obsMu with
    | error e => rfl
    | ok rv => exact key rv

/-! ### Runs -/

section runs
variable [PyNan ℝ] {et : ElemType}

/-- the object set up for the reversed problem -/
def QLaw.reverse (Q : QLaw ℝ) (et : ElemType)
    (pert : Option (ℝ → (Fin 6 → ℝ) → ElemType → Except PyErr (Fin 3 → ℝ))) : QLaw ℝ :=
  { Q with cfg := Q.cfg.reversed et pert, prob := Q.prob.map (Problem.reversed et) }

/-- **C128.** The run of the reversed problem is the reversal of the run: every recorded time and rate of `Q` changes sign,
every recorded state is the reversed state, the in-plane thrust angles change sign (`pi` stays `pi`), and masses, battery
levels, out-of-plane angles, throttles, values of `Q`, exit code, flag and exceptions are the same. For `rk4` with a fixed
time step and no effectivity thresholds; the duty cycle must be on and the battery above its minimum throughout, and with
modified equinoctial elements `k` must have no weight. -/
theorem C128_reverse {Q Q' : QLaw ℝ} {P : Problem ℝ} {etaA etaR etaA' etaR' : EtaArg ℝ} {fuel : ℕ} {e : Option PyErr}
    {H : Hist ℝ} {pert : Option (ℝ → (Fin 6 → ℝ) → ElemType → Except PyErr (Fin 3 → ℝ))}
    (hnan : ∀ x : ℝ, PyNan.isnan (-x) = PyNan.isnan x)
    (hP : Q.prob = some P) (hr : Q.ready = true) (hv : etaA.valid = true) (hv' : etaA'.valid = true)
    (he : Q.cfg.elementsType = et) (hd : Q.cfg.dyn = dynOf et) (hs : Q.cfg.useSundman = false) (hi : Q.cfg.integrator = .rk4)
    (hb : BoundsOrdered Q.cfg) (hp : PertReversed et Q.cfg.perturbations pert)
    (hA : ∀ t x m b, evalEta etaA' (-t) (reversed et x) m b = evalEta etaA t x m b)
    (hR : ∀ t x m b, evalEta etaR' (-t) (reversed et x) m b = evalEta etaR t x m b)
    (hA0 : ∀ t x m b v, evalEta etaA t x m b = .ok v → v ≤ 0) (hR0 : ∀ t x m b v, evalEta etaR t x m b = .ok v → v ≤ 0)
    (hw : et = .meeWithA → P.woe 4 = 0) (hduty : |P.tfMax| ≤ P.dutyOn)
    (h : Q.solve etaA etaR fuel = some (Q', e)) (hH : Q'.hist = some H)
    (hbat : ∀ l ∈ H.battery, P.capMin + 1 / 10 ^ 12 < l) :
    ∃ Q'' H', (Q.reverse et pert).solve etaA' etaR' fuel = some (Q'', e) ∧
      Q''.hist = some H' ∧ Q''.exitcode = Q'.exitcode ∧ Q''.converge = Q'.converge ∧
      H'.times = H.times.map (-·) ∧ H'.states = H.states.map (reversed et) ∧
      H'.masses = H.masses ∧ H'.battery = H.battery ∧
      H'.controls = H.controls.map (fun c => (turnedAngle c.1, c.2.1, c.2.2)) ∧
      H'.etas = H.etas ∧ H'.etasBounds = H.etasBounds ∧ H'.qs = H.qs ∧ H'.dqdts = H.dqdts.map (-·) := by
  simp only [QLaw.solve, hP, hr, hv, if_true, Option.map_eq_some_iff] at h
  obtain ⟨r, hl, h⟩ := h
  have hQ' : Q' = Q.finish P r := (congrArg Prod.fst h).symm
  have hee : r.error? = e := congrArg Prod.snd h
  have hh : r.st.hist = H := by rw [hQ'] at hH; exact Option.some.inj hH
  have off : ∀ v : ℝ, v ≤ 0 → PyOrd.lt ((0 : ℕ) : ℝ) v = false := by
    intro v hv
    show decide (((0 : ℕ) : ℝ) < v) = false
    rw [decide_eq_false_iff_not, Nat.cast_zero]
    exact not_lt.2 hv
  have hE : Reverse.Reversed et (envOf Q P etaA etaR)
      { cfg := Q.cfg.reversed et pert, prob := P.reversed et, etaA := etaA', etaR := etaR' } :=
    { cfg := rfl, prob := rfl, elems := he, dyn := hd, fixed := hs, method := hi, bounds := hb, pert := hp, etaA := hA, etaR := hR
      offA := fun t x m b v h => off v (hA0 t x m b v h), offR := fun t x m b v h => off v (hR0 t x m b v h)
      nan := hnan, w4 := hw }
  have hon : Reverse.Ongoing (initLoop P) := ⟨by simp [initLoop], by simp [initLoop], rfl, rfl, by simp [initLoop]⟩
  have hloop := Reverse.loop_rev hE hduty fuel (initLoop P) r hon hl (by rw [hh]; exact hbat)
  have hin : Reverse.st et (initLoop P) = initLoop (P.reversed et) := by
    simp [Reverse.st, initLoop, Hist.reversed, Problem.reversed]
  rw [hin] at hloop
  have hP' : (Q.reverse et pert).prob = some (P.reversed et) := by simp [QLaw.reverse, hP]
  have hr' : (Q.reverse et pert).ready = true := hr
  have hst : (Resume.res (Reverse.st et) r).st = Reverse.st et r.st := by cases r <;> rfl
  have her : (Resume.res (Reverse.st et) r).error? = e := by rw [← hee]; cases r <;> rfl
  have hfl : finishFlags Q.exitcode Q.converge (Resume.res (Reverse.st et) r) = finishFlags Q.exitcode Q.converge r := by
    cases r <;> rfl
  have hsolve : (Q.reverse et pert).solve etaA' etaR' fuel =
      some ((Q.reverse et pert).finish (P.reversed et) (Resume.res (Reverse.st et) r), e) := by
    simp only [QLaw.solve, hP', hr', hv', if_true]
    have : loop { cfg := (Q.reverse et pert).cfg, prob := P.reversed et, etaA := etaA', etaR := etaR' } fuel
        (initLoop (P.reversed et)) = some (Resume.res (Reverse.st et) r) := hloop
    rw [this, Option.map_some, her]
  refine ⟨_, H.reversed et, hsolve, ?_, ?_, ?_, rfl, rfl, rfl, rfl, rfl, rfl, rfl, rfl, rfl⟩
  · show some (Resume.res (Reverse.st et) r).st.hist = _
    rw [hst, ← hh]; rfl
  · rw [hQ']
    show (finishFlags Q.exitcode Q.converge (Resume.res (Reverse.st et) r)).1 = _
    rw [hfl]; rfl
  · rw [hQ']
    show (finishFlags Q.exitcode Q.converge (Resume.res (Reverse.st et) r)).2 = _
    rw [hfl]; rfl

/-- **C128, every perturbation has a reversal**: read at the opposite time and for the reversed elements -/
theorem C128_pert (f : Option (ℝ → (Fin 6 → ℝ) → ElemType → Except PyErr (Fin 3 → ℝ))) :
    PertReversed et f (f.map fun f t x et => (f (-t) (reversed et x) et).map againstTime) := by
  cases f with
  | none => trivial
  | some f =>
    intro t x
    have : reversed et (reversed et x) = x := by
      cases et <;> funext i <;>
      match i with
      | 0 | 1 | 2 | 3 | 4 | 5 => simp [reversed]
    simp only [neg_neg, this]

end runs

/-! ### Where it fails

With a weight on `k` the modified equinoctial `Q` is not reversible: the denominator for `k` carries `g` without a square, so
the reversed orbit has another `Q`. The integrator `rkf45` multiplies its stages by the step twice, so it is not reversible
either, while `rk4` is. -/

/-- a modified equinoctial state with a weight on `k` only -/
def revSample : LyapArgs ℝ :=
  { mu := 1, f := 1, oe := ![1, 0, 1 / 2, 0, 0, 0], oeT := ![1, 0, 0, 0, 1], rpmin := 1, m := 3, n := 4, r := 2
    b := 1 / 100, k := 100, wp := 0, woe := ![0, 0, 0, 0, 1] }

/-- **C128, failure.** With a weight on `k` the reversed orbit has another `Q`. -/
theorem C128_k_weight : meeQ revSample = 12 ∧ meeQ (Reverse.args .meeWithA revSample) = 4 / 3 := by
  have h : (Real.sqrt (3 / 4)) ^ 2 = 3 / 4 := Real.sq_sqrt (by norm_num)
  have e : (1 : ℝ) - (2 ^ 2)⁻¹ = 3 / 4 := by norm_num
  constructor <;>
    simp [meeQ, meeDoe, meeOedot, revSample, Reverse.args, reversed, reversed5, rat_real] <;> rw [e] <;> field_simp <;> rw [h] <;> norm_num

/-- **C128, failure.** `rkf45` on `y' = y` from 1 with step 1, and on `y' = -y` with step -1: exact arithmetic gives different
results, where `rk4` gives the same. -/
theorem C128_rkf45 (tol : ℝ) :
    (∃ y z : (Fin 1 → ℝ) × ℝ, rkf45 (fun _ y (_ : Unit) => .ok y) 0 1 ![1] () tol = .ok y ∧
      rkf45 (fun _ y (_ : Unit) => .ok (fun i => -y i)) (-0) (-1) ![1] () tol = .ok z ∧ y.1 ≠ z.1) ∧
    rk4 (fun _ y (_ : Unit) => .ok y) (0 : ℝ) 1 ![1] () =
      rk4 (fun _ y (_ : Unit) => .ok (fun i => -y i)) (-0 : ℝ) (-1) ![1] () := by
  constructor
  · have key : ∀ (z y : Fin 1 → ℝ) (a b : ℝ) (w : ℝ → ℝ), z 0 = a → y 0 = b → a - b ≠ 0 →
        ∃ s, (do let q ← ndiv tol (normN (vsub z y)); pure (y, w q) : Except PyErr ((Fin 1 → ℝ) × ℝ)) = .ok (fun _ => b, s) := by
      intro z y a b w ha hb hab
      have hn : normN (vsub z y) = |a - b| := by
        simp [normN, vsub, List.finRange_succ, ha, hb, Real.sqrt_sq_eq_abs]
      rw [hn, ndiv_real (abs_ne_zero.2 hab)]
      refine ⟨w (tol / |a - b|), ?_⟩
      have : y = fun _ => b := by funext i; fin_cases i; exact hb
      rw [← this]; rfl
    obtain ⟨s, hs⟩ : ∃ s, rkf45 (fun _ y (_ : Unit) => .ok y) 0 1 ![1] () tol =
        (.ok (fun _ => 99149849 / 36466092, s) : Except PyErr ((Fin 1 → ℝ) × ℝ)) :=
      key _ _ (3391 / 1248) _ (fun q => 1 * rat 84 100 * PyTrans.rpow q (rat 1 4))
        (by simp [vadd, vsub, vsmul, rat_real]; norm_num) (by simp [vadd, vsub, vsmul, rat_real]; norm_num) (by norm_num)
    obtain ⟨s', hs'⟩ : ∃ s, rkf45 (fun _ y (_ : Unit) => .ok (fun i => -y i)) (-0) (-1) ![1] () tol =
        (.ok (fun _ => 59611883 / 36466092, s) : Except PyErr ((Fin 1 → ℝ) × ℝ)) :=
      key _ _ (10189 / 6240) _ (fun q => -1 * rat 84 100 * PyTrans.rpow q (rat 1 4))
        (by simp [vadd, vsub, vsmul, rat_real]; norm_num) (by simp [vadd, vsub, vsmul, rat_real]; norm_num) (by norm_num)
    refine ⟨_, _, hs, hs', fun hc => ?_⟩
    have := congrFun hc 0
    norm_num at this
  · simp only [rk4, bind, Except.bind, pure, Except.pure]
    congr 1
    funext i
    fin_cases i
    simp [vadd, vsmul]
    try ring

namespace Burn
open CoastSample

example : ∃ T > (0 : ℝ), ∃ δ > (0 : ℝ), ∀ h, 0 < h → h < δ → ∃ (fuel : ℕ) (pert : Option _) (Q' Q'' : QLaw ℝ) (H H' : Hist ℝ),
    (objN h T (T / 2)).solve (.flt 0) (.flt 0) fuel = some (Q', none) ∧ Q'.hist = some H ∧ H.controls ≠ [] ∧
    ((objN h T (T / 2)).reverse .keplerian pert).solve (.flt 0) (.flt 0) fuel = some (Q'', none) ∧ Q''.hist = some H' ∧
    H'.times = H.times.map (-·) ∧ H'.states = H.states.map (reversed .keplerian) ∧ pert.isSome = true := by
  obtain ⟨T, hT, δ, hδ, hδT, R⟩ := runs_N
  refine ⟨T, hT, δ, hδ, fun h hh hhd => ?_⟩
  obtain ⟨fuel, hfuel⟩ := exists_nat_ge (T / h + 2)
  obtain ⟨Q', H, n, a1, a2, a3, a4, a5, a6, a7⟩ := R h hh hhd fuel hfuel (T / 2) (by linarith) (by linarith)
  have hb := flat_battery (fun _ => rfl) a1 rfl a2 rfl rfl (by simp [probB, prob]) (by simp [probB, prob])
  obtain ⟨Q'', H', b1, b2, -, -, b3, b4, -⟩ := C128_reverse (et := .keplerian) (etaA' := .flt 0) (etaR' := .flt 0)
    (fun _ => rfl) rfl rfl rfl rfl rfl rfl rfl rfl
    (by
      intro k hk l u hl hu
      have hl' : ([0, 0, 0, 0, 0] : List ℝ)[k]? = some l := hl
      have hu' : ([9, 9, 9, 9, 9] : List ℝ)[k]? = some u := hu
      rcases hk with rfl | rfl <;> simp at hl' hu' <;> rw [← hl', ← hu'] <;> norm_num)
    (C128_pert _) (fun _ _ _ _ => rfl) (fun _ _ _ _ => rfl)
    (fun _ _ _ _ v hv => by simp [evalEta] at hv; exact hv ▸ le_rfl) (fun _ _ _ _ v hv => by simp [evalEta] at hv; exact hv ▸ le_rfl)
    (fun hc => by cases hc)
    (by simp only [probB]; rw [abs_neg, abs_of_pos (by linarith)]; linarith)
    a1 a2
    (by
      intro l hl
      rw [hb l hl]
      simp only [probB, prob]
      norm_num)
  refine ⟨fuel, _, Q', Q'', H, H', a1, a2, ?_, b1, b2, b3, b4, rfl⟩
  intro hc
  rw [hc] at a5
  rw [← a5] at a6
  simp at a6
  linarith

end Burn

end PyQ
