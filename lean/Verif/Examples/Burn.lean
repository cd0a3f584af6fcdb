import Verif.Props.Coast
import Verif.Props.Anomaly
import Verif.Props.ControlLaw

/-! # A run over the reals with the package's own control law

One step of a Keplerian transfer raising the semi-major axis from periapsis of an orbit of eccentricity
1/2, with the semi-major axis as the only target. The control law of the package asks for transverse
thrust, the step is flown with `rk4`, and the run converges. It shows that the hypotheses of the theorems
about `solve` over the reals can all be met by a run that thrusts. -/

set_option linter.unusedSectionVars false
set_option maxRecDepth 100000

namespace PyQ
namespace Burn
open CoastSample

/-- Keplerian object; `b` chooses whether `t_step` is an increment of eccentric anomaly -/
noncomputable def cfg (b : Bool) : Config ℝ where
  mu := 1
  rpmin := 1
  kPetro := 1
  mPetro := 3
  nPetro := 4
  rPetro := 1
  bPetro := 1
  wp := 0
  elementsType := .keplerian
  integrator := .rk4
  anomalyGridSize := 1
  tolOe := fun _ => 1
  tolOeRelaxed := fun _ => 10
  exitAtRelaxed := 5
  oeMin := [0, 0, 0, 0, 0]
  oeMax := [9, 9, 9, 9, 9]
  nanAnglesThreshold := 1
  stepMin := 0
  stepMax := 1
  odeTol := 1
  useSundman := b
  perturbations := none
  dyn := dynOf .keplerian

/-- raise the semi-major axis from 1 to 2 -/
noncomputable def prob : Problem ℝ where
  oe0 := ![1, 1 / 2, 1, 1, 1, 0]
  oeT := [2, 0, 0, 0, 0]
  mass0 := 1
  tmax := 1 / 100
  mdot := 1 / 100
  tfMax := 10
  tStep := 1
  massMin := 1 / 10
  woe := ![1, 0, 0, 0, 0]
  dutyOn := 9
  dutyOff := 9
  batteryInitial := 1
  capMin := 0
  capMax := 1
  chargeRate := 0
  dischargeRate := 0
  requireFullRecharge := false

noncomputable def obj (b : Bool) : QLaw ℝ :=
  { cfg := cfg b, prob := some prob, ready := true, converge := false, exitcode := 0, hist := none }

/-- arguments of the control law at the first step -/
noncomputable def args : LyapArgs ℝ := lyapArgs (cfg false) prob ![2, 0, 0, 0, 0] (1 / 100) prob.oe0

theorem q_eq (A : LyapArgs ℝ) (hw : A.woe = ![1, 0, 0, 0, 0]) (hwp : A.wp = 0) (hmu : A.mu = 1)
    (hf : A.f = 1 / 100) (hT : A.oeT = ![2, 0, 0, 0, 0]) (hm : A.m = 3) (hn : A.n = 4) (hr : A.r = 1)
    (ha : 0 < A.oe 0) (he0 : 0 < A.oe 1) (he1 : A.oe 1 < 1) :
    kepQ A = 2500 * (1 + ((A.oe 0 - 2) / 6) ^ 4) *
      ((A.oe 0 - 2) ^ 2 / A.oe 0 ^ 3) * ((1 - A.oe 1) / (1 + A.oe 1)) := by
  have h1 : 0 < 1 - A.oe 1 := by linarith
  have hs : Real.sqrt (A.oe 0 ^ 3 * (1 + A.oe 1) / (1 - A.oe 1)) ^ 2 =
      A.oe 0 ^ 3 * (1 + A.oe 1) / (1 - A.oe 1) := Real.sq_sqrt (by positivity)
  have hr4 : ∀ x : ℝ, x ^ (4 : ℝ) = x ^ 4 := fun x => by
    rw [← Real.rpow_natCast]; norm_num
  simp [kepQ, hw, hwp, kepSoe, kepDoe, kepOedot, hmu, hf, hT, hm, hn, hr, div_pow, mul_pow, hs, hr4]
  field_simp
  ring

theorem dq0_lt : partialQ kepQ args 0 < -4000 := by
  have h : (fun x => kepQ (args.setOe 0 x)) =ᶠ[nhds 1] fun x =>
      2500 / 3 * ((1 + ((x - 2) / 6) ^ 4) * ((x - 2) ^ 2 / x ^ 3)) := by
    filter_upwards [lt_mem_nhds (show (0 : ℝ) < 1 by norm_num)] with x hx
    rw [q_eq _ rfl rfl rfl rfl rfl rfl rfl rfl]
    · simp [LyapArgs.setOe, args, lyapArgs, prob]
      ring
    · simpa [LyapArgs.setOe] using hx
    · simp [LyapArgs.setOe, args, lyapArgs, prob]
    · simp [LyapArgs.setOe, args, lyapArgs, prob]
      norm_num
  have h2 : HasDerivAt (fun x : ℝ => 2500 / 3 * ((1 + ((x - 2) / 6) ^ 4) * ((x - 2) ^ 2 / x ^ 3)))
      (2500 / 3 * ((4 * ((1 - 2) / 6) ^ 3 * (1 / 6)) * ((1 - 2) ^ 2 / 1 ^ 3) +
        (1 + ((1 - 2) / 6) ^ 4) * ((2 * (1 - 2) * 1 ^ 3 - (1 - 2) ^ 2 * (3 * 1 ^ 2)) / (1 ^ 3) ^ 2)))
      (1 : ℝ) := by
    have a1 : HasDerivAt (fun x : ℝ => x - 2) 1 1 := (hasDerivAt_id _).sub_const _
    have a2 := ((a1.div_const 6).pow 4).const_add 1
    have a3 := ((a1.pow 2).div ((hasDerivAt_id (1 : ℝ)).pow 3) (by norm_num))
    have a4 := (a2.mul a3).const_mul (2500 / 3)
    refine a4.congr_deriv ?_
    simp
  have h3 : partialQ kepQ args 0 = _ := (h.deriv_eq).trans h2.deriv
  rw [h3]
  norm_num

theorem dq0 : ∃ d, d < 0 ∧ partialQ kepQ args 0 = d :=
  ⟨_, dq0_lt.trans (by norm_num), rfl⟩

theorem dq1_lt : -2500 < partialQ kepQ args 1 ∧ partialQ kepQ args 1 < 0 := by
  have h : (fun x => kepQ (args.setOe 1 x)) =ᶠ[nhds (1 / 2)] fun x =>
      2500 * (1 + 1 / 1296) * ((1 - x) / (1 + x)) := by
    filter_upwards [lt_mem_nhds (show (0 : ℝ) < 1 / 2 by norm_num),
      gt_mem_nhds (show (1 / 2 : ℝ) < 1 by norm_num)] with x hx hx1
    rw [q_eq _ rfl rfl rfl rfl rfl rfl rfl rfl]
    · simp [LyapArgs.setOe, args, lyapArgs, prob]
      norm_num
    · simp [LyapArgs.setOe, args, lyapArgs, prob]
    · simpa [LyapArgs.setOe] using hx
    · simpa [LyapArgs.setOe] using hx1
  have h2 : HasDerivAt (fun x : ℝ => 2500 * (1 + 1 / 1296) * ((1 - x) / (1 + x)))
      (2500 * (1 + 1 / 1296) * (((-1) * (1 + 1 / 2) - (1 - 1 / 2) * 1) / (1 + 1 / 2) ^ 2))
      (1 / 2 : ℝ) := by
    have a1 : HasDerivAt (fun x : ℝ => 1 - x) (-1) (1 / 2) := by
      simpa using (hasDerivAt_id (1 / 2 : ℝ)).const_sub 1
    have a2 : HasDerivAt (fun x : ℝ => 1 + x) 1 (1 / 2) := (hasDerivAt_id _).const_add _
    exact (a1.div a2 (by norm_num)).const_mul _
  have h3 : partialQ kepQ args 1 = _ := (h.deriv_eq).trans h2.deriv
  rw [h3]
  norm_num

theorem dq1 : ∃ d, d < 0 ∧ partialQ kepQ args 1 = d := ⟨_, dq1_lt.2, rfl⟩

theorem dq_rest (j : Fin 5) (h0 : j ≠ 0) (h1 : j ≠ 1) : partialQ kepQ args j = 0 := by
  have h : (fun x => kepQ (args.setOe j x)) = fun _ => kepQ args := by
    funext x
    have hA : 0 < (args.setOe j x).oe 0 ∧ (args.setOe j x).oe 0 = 1 ∧ (args.setOe j x).oe 1 = 1 / 2 := by
      match j with
      | 0 => exact absurd rfl h0
      | 1 => exact absurd rfl h1
      | 2 => simp [LyapArgs.setOe, args, lyapArgs, prob]
      | 3 => simp [LyapArgs.setOe, args, lyapArgs, prob]
      | 4 => simp [LyapArgs.setOe, args, lyapArgs, prob]
    rw [q_eq _ rfl rfl rfl rfl rfl rfl rfl rfl hA.1 (by rw [hA.2.2]; norm_num)
      (by rw [hA.2.2]; norm_num), q_eq args rfl rfl rfl rfl rfl rfl rfl rfl, hA.2.1, hA.2.2]
    · simp [args, lyapArgs, prob]
    all_goals simp [args, lyapArgs, prob]
    norm_num
  unfold partialQ
  simp only [diff_real, h]
  exact deriv_const _ _

/-- the raw control is transverse -/
theorem raw : ∃ T, T < 0 ∧ rawControl (kepPsi args) (partialQ kepQ args) = ![0, T, 0] := by
  obtain ⟨d0, n0, e0⟩ := dq0
  obtain ⟨d1, n1, e1⟩ := dq1
  have e2 := dq_rest 2 (by decide) (by decide)
  have e3 := dq_rest 3 (by decide) (by decide)
  have e4 := dq_rest 4 (by decide) (by decide)
  have hh : 0 < Real.sqrt (1 - (1 / 2) ^ 2) := Real.sqrt_pos.2 (by norm_num)
  refine ⟨rawControl (kepPsi args) (partialQ kepQ args) 1, ?_, ?_⟩
  · simp only [rawControl, e0, e1, e2, e3, e4]
    simp [kepPsi, args, lyapArgs, prob, cfg]
    have hp : ∀ c1 c2 : ℝ, 0 < c1 → 0 < c2 → c1 * d0 + c2 * d1 < 0 := by
      intro c1 c2 h1 h2
      have := mul_pos_of_neg_of_neg (neg_neg_of_pos h1) n0
      have := mul_pos_of_neg_of_neg (neg_neg_of_pos h2) n1
      linarith
    simp at hh
    have h14 : (0 : ℝ) < 1 - (2 ^ 2)⁻¹ := by norm_num
    have h12 : (0 : ℝ) < 1 + 2⁻¹ := by norm_num
    exact hp _ _ (by positivity) (by positivity)
  · funext c
    match c with
    | 0 =>
      simp only [rawControl, e0, e1, e2, e3, e4]
      simp [kepPsi, args, lyapArgs, prob]
    | 1 => rfl
    | 2 =>
      simp only [rawControl, e0, e1, e2, e3, e4]
      simp [kepPsi]

/-- the control law asks for full thrust along the direction of motion -/
theorem law : ∃ q dqdt, lyapunovControlAngles kepLyap args =
    .ok { alpha := 0, beta := 0, u := ![0, -1, 0], psi := kepPsi args, q := q, dqdt := dqdt } := by
  obtain ⟨T, hT, hr⟩ := raw
  have hu : uToThrustAngles ![0, T, 0] = .ok (![0, -1, 0], (0 : ℝ), (0 : ℝ)) := by
    have hs : Real.sqrt (T ^ 2) = -T := by rw [Real.sqrt_sq_eq_abs, abs_of_neg hT]
    have hv : vdivs ![0, T, 0] (-T) = ![0, -1, (0 : ℝ)] := by
      funext i
      match i with
      | 0 => simp [vdivs]
      | 1 => simp [vdivs, hT.ne]
      | 2 => simp [vdivs]
    have ha : Complex.arg ⟨1, 0⟩ = 0 := by
      rw [Complex.arg_eq_zero_iff]; simp
    simp [uToThrustAngles, hs, hv, bind, Except.bind, pure, Except.pure, ndiv_real, ha]
  have hk : (kepLyap args).uRaw = ![0, T, 0] := hr
  unfold lyapunovControlAngles
  simp only [hk, hu, bind, Except.bind, pure, Except.pure]
  exact ⟨_, _, rfl⟩

/-- parameters of the equations of motion during the step -/
noncomputable def params : OdeParams ℝ :=
  { mu := 1, u := vsmul (1 / 100) (dirOf 0 0), psi0 := kepPsi args 0, psi1 := kepPsi args 1,
    psi2 := kepPsi args 2, ptrb := zero3 }

/-- rates of the five slow elements, constant during the step -/
noncomputable def slow (j : Fin 5) : ℝ := 1 / 100 * kepPsi args 1 j

theorem slow_eq : ∃ w : ℝ, 3 / 4 < w ∧ slow 0 = 3 / 100 / w ∧ slow 1 = 3 / 200 / w := by
  obtain ⟨w, hw⟩ : ∃ w, w = Real.sqrt (3 / 4) := ⟨_, rfl⟩
  have h2 : 3 / 4 < w := by rw [hw, Real.lt_sqrt (by norm_num)]; norm_num
  have h3 : 0 < w := by linarith
  have e1 : (1 : ℝ) - (2 ^ 2)⁻¹ = 3 / 4 := by norm_num
  have e2 : w ^ 2 = 3 / 4 := by rw [hw]; exact Real.sq_sqrt (by norm_num)
  refine ⟨w, h2, ?_, ?_⟩
  · simp [slow, kepPsi, args, lyapArgs, prob, cfg]
    rw [e1, ← hw, e2]
    field_simp
    norm_num
  · simp [slow, kepPsi, args, lyapArgs, prob, cfg]
    rw [e1, ← hw, e2]
    field_simp
    norm_num

theorem slow0 : 0 < slow 0 ∧ slow 0 < 1 := by
  obtain ⟨w, hw, e, -⟩ := slow_eq
  have h3 : 0 < w := by linarith
  rw [e]
  constructor
  · positivity
  · rw [div_lt_one h3]; linarith

theorem slow1 : 0 < slow 1 ∧ slow 1 < 1 / 4 := by
  obtain ⟨w, hw, -, e⟩ := slow_eq
  have h3 : 0 < w := by linarith
  rw [e]
  constructor
  · positivity
  · rw [div_lt_iff₀ h3]; linarith

theorem combine (row : Fin 3 → ℝ) (r : ℝ) : gaussCombine params row r =
    ![slow 0, slow 1, slow 2, slow 3, slow 4, gaussCombine params row r 5] := by
  funext i
  match i with
  | 0 => simp [gaussCombine, params, slow, dirOf, vsmul, vadd, zero3, dot3, mul_comm]
  | 1 => simp [gaussCombine, params, slow, dirOf, vsmul, vadd, zero3, dot3, mul_comm]
  | 2 => simp [gaussCombine, params, slow, dirOf, vsmul, vadd, zero3, dot3, mul_comm]
  | 3 => simp [gaussCombine, params, slow, dirOf, vsmul, vadd, zero3, dot3, mul_comm]
  | 4 => simp [gaussCombine, params, slow, dirOf, vsmul, vadd, zero3, dot3, mul_comm]
  | 5 => rfl

theorem rate (y : Fin 6 → ℝ) (t : ℝ) (H : KepState 1 y) :
    ∃ r, eomKepGauss t y params = .ok ![slow 0, slow 1, slow 2, slow 3, slow 4, r] := by
  have he : 0 < 1 - y 1 ^ 2 := by nlinarith [H.e0, H.e1]
  have hh : 0 < Real.sqrt (y 0 * 1 * (1 - y 1 ^ 2)) :=
    Real.sqrt_pos.2 (by have := H.a; positivity)
  have hw : 0 < 1 + y 1 * Real.cos (y 5) := by nlinarith [H.e0, H.e1, Real.neg_one_le_cos (y 5)]
  have hr : 0 < Real.sqrt (y 0 * 1 * (1 - y 1 ^ 2)) ^ 2 / (1 * (1 + y 1 * Real.cos (y 5))) := by
    positivity
  have hm : params.mu = 1 := rfl
  have h2 := H.e0
  simp only [eomKepGauss, sqrt_real, cos_real, sin_real, hm, Nat.cast_one, bind, Except.bind]
  rw [ndiv_real (by positivity)]
  simp only []
  rw [ndiv_real (by positivity)]
  simp only []
  rw [ndiv_real (by positivity)]
  simp only []
  rw [ndiv_real (by positivity)]
  simp only [pure, Except.pure]
  exact ⟨_, congrArg _ (combine _ _)⟩

/-- a step of length up to 1 does not raise -/
theorem flown' {h : ℝ} (hh : 0 < h) (h1 : h ≤ 1) :
    ∃ y, rk4 eomKepGauss 0 h prob.oe0 params = .ok y ∧ y 0 = 1 + h * slow 0 ∧
      y 1 = 1 / 2 + h * slow 1 ∧ y 3 = 1 + h * slow 3 := by
  have keep : ∀ c r : ℝ, 0 ≤ c → c ≤ 1 →
      KepState 1 (vadd prob.oe0 (vsmul c ![slow 0, slow 1, slow 2, slow 3, slow 4, r])) := by
    intro c r h0 h1
    refine ⟨one_pos, ?_, ?_, ?_⟩
    · have := mul_nonneg h0 slow0.1.le
      simp [vadd, vsmul, prob]; linarith
    · have := mul_nonneg h0 slow1.1.le
      simp [vadd, vsmul, prob]; linarith
    · have := mul_le_mul h1 slow1.2.le slow1.1.le zero_le_one
      simp [vadd, vsmul, prob]; linarith
  have hr : (rat 1 2 : ℝ) = 1 / 2 := by simp [rat]
  obtain ⟨r1, e1⟩ := rate prob.oe0 0 ⟨one_pos, by simp [prob], by simp [prob], by simp [prob]; norm_num⟩
  obtain ⟨r2, e2⟩ := rate _ (0 + rat 1 2 * h) (keep (h * rat 1 2) r1 (by rw [hr]; linarith) (by rw [hr]; linarith))
  obtain ⟨r3, e3⟩ := rate _ (0 + rat 1 2 * h) (keep (h * rat 1 2) r2 (by rw [hr]; linarith) (by rw [hr]; linarith))
  obtain ⟨r4, e4⟩ := rate _ (0 + h) (keep h r3 hh.le h1)
  have hz : rk4 eomKepGauss 0 h prob.oe0 params = .ok (fun i => prob.oe0 i + h / 6 *
      (![slow 0, slow 1, slow 2, slow 3, slow 4, r1] i +
        2 * ![slow 0, slow 1, slow 2, slow 3, slow 4, r2] i +
        2 * ![slow 0, slow 1, slow 2, slow 3, slow 4, r3] i +
        ![slow 0, slow 1, slow 2, slow 3, slow 4, r4] i)) := by
    simp only [rk4, e1, e2, e3, e4, bind, Except.bind, pure, Except.pure, Nat.cast_ofNat]
    rfl
  refine ⟨_, hz, ?_, ?_, ?_⟩
  · simp [prob]
    ring
  · simp [prob]
    ring
  · simp [prob]
    ring

theorem flown {h : ℝ} (hh : 0 < h) (h1 : h ≤ 1) :
    ∃ y, rk4 eomKepGauss 0 h prob.oe0 params = .ok y ∧ y 0 = 1 + h * slow 0 :=
  let ⟨y, h2, h3, _, _⟩ := flown' hh h1
  ⟨y, h2, h3⟩

/-- the loop body at the initial state: one step of full thrust along the motion, converged -/
theorem body_of {b : Bool} {h : ℝ} (hh : 0 < h) (h1 : h ≤ 1)
    (hch : chooseStep (cfg b) prob prob.oe0 = .ok h) :
    ∃ s' y, bodyPhase ⟨cfg b, prob, .flt 0, .flt 0⟩ (initLoop prob) = .brk s' 1 ∧ y 0 = 1 + h * slow 0 ∧
      s'.hist.times = [0, h] ∧ s'.hist.controls = [(0, 0, 1)] ∧
      s'.hist.states = [prob.oe0, y] ∧ s'.hist.masses = [1, 1 - 1 / 100 * h] ∧
      s'.hist.battery = [1, 1] := by
  obtain ⟨y, hy, hy0⟩ := flown hh h1
  obtain ⟨q, dqdt, hlaw⟩ := law
  have hch' : chooseStep (cfg b) prob (initLoop prob).oe = .ok h := hch
  have hdu : dutyPhase prob (initLoop prob) h =
      { duty := true, tOn := 0, tOff := 0, charging := false, step := h } := by
    simp [dutyPhase, prob, initLoop, rat]
    norm_num
  have hco : ∃ c : Ctl ℝ, controlPhase ⟨cfg b, prob, .flt 0, .flt 0⟩ (initLoop prob)
      { duty := true, tOn := 0, tOff := 0, charging := false, step := h } = .ok (.ctl c) ∧
      c.alpha = some 0 ∧ c.beta = some 0 ∧ c.throttle = 1 ∧ c.u = vsmul (1 / 100) (dirOf 0 0) ∧
      c.psi = kepPsi args ∧ c.oeT = ![2, 0, 0, 0, 0] := by
    have ha : PyOrd.sign h * prob.tmax / (initLoop prob).mass = 1 / 100 := by
      simp [prob, initLoop, PyOrd.sign, hh, hh.le]
    have hv : asVec5 prob.oeT = .ok ![2, 0, 0, 0, 0] := rfl
    have hlaw' : lyapunovControlAngles (cfg b).dyn.lyapFun
        (lyapArgs (cfg b) prob ![2, 0, 0, 0, 0] (1 / 100) (initLoop prob).oe) = _ := hlaw
    unfold controlPhase
    simp only [hv, ha, hlaw', bind, Except.bind, pure, Except.pure, if_true, evalEta]
    simp [PyNan.isnan]
  obtain ⟨c, hc, hal, hbe, hth, hcu, hpsi, hct⟩ := hco
  have hpr : propagatePhase ⟨cfg b, prob, .flt 0, .flt 0⟩ (initLoop prob) h c = .ok (y, h) := by
    simp only [propagatePhase, cfg, bind, Except.bind, pure, Except.pure, hcu, hpsi]
    have h0 : (initLoop prob).t = 0 := by simp [initLoop]
    have h1 : (initLoop prob).oe = prob.oe0 := rfl
    rw [h0, h1]
    have h2 : (dynOf (α := ℝ) .keplerian).eom = eomKepGauss := rfl
    rw [h2]
    have hy' := hy
    simp only [params] at hy'
    rw [hy']
  have hconv : (dynOf (α := ℝ) .keplerian).checkConv y ![2, 0, 0, 0, 0] prob.woe (fun _ => 1) = true := by
    have h3 := slow0
    have h4 := mul_pos hh h3.1
    have h5 : h * slow 0 ≤ 1 := by nlinarith [h3.2, h3.1]
    have h2 : |2 - y 0| ≤ 1 := by rw [hy0, abs_le]; constructor <;> linarith
    simp [dynOf, checkConvergenceKeplerian, checkFlags, prob, List.finRange, h2]
  simp only [bodyPhase, hch', hdu, hc, hpr, storePhase, hal, hbe, exitPhase, hth, hct]
  rw [if_pos (show (cfg b).dyn.checkConv y ![2, 0, 0, 0, 0] prob.woe (cfg b).tolOe = true from hconv)]
  refine ⟨_, y, rfl, hy0, ?_, ?_, ?_, ?_, ?_⟩ <;> simp [initLoop, prob, batteryPhase, npclip, npmin, npmax, PyNan.isnan]

/-- the run: one step of full thrust along the motion, converged -/
theorem run_of {b : Bool} {h : ℝ} (hh : 0 < h) (h1 : h ≤ 1)
    (hch : chooseStep (cfg b) prob prob.oe0 = .ok h) :
    ∃ Q' H y, (obj b).solve (.flt 0) (.flt 0) 2 = some (Q', none) ∧ Q'.hist = some H ∧
    Q'.exitcode = 1 ∧ Q'.converge = true ∧ H.controls = [(0, 0, 1)] ∧
    H.states = [prob.oe0, y] ∧ y 0 = 1 + h * slow 0 ∧ H.times = [0, h] ∧
    H.masses = [1, 1 - 1 / 100 * h] ∧ H.battery = [1, 1] := by
  obtain ⟨s', y, hbody, hy0, ht, hcs, hss, hms, hbs⟩ := body_of hh h1 hch
  have hcl : clampPhase (cfg b) (initLoop prob) = .ok (initLoop prob) := by
    have : elementsSafety prob.oe0 (cfg b).oeMin (cfg b).oeMax = .ok prob.oe0 := by
      simp only [elementsSafety, cfg, prob]
      congr 1
      funext i
      fin_cases i <;> simp [pymin, pymax]
      all_goals norm_num
    simp only [clampPhase, cfg, initLoop, bind, Except.bind, pure, Except.pure] at this ⊢
    rw [this]
    rfl
  have hit : iter ⟨cfg b, prob, .flt 0, .flt 0⟩ (initLoop prob) = .brk s' 1 := by
    simp only [iter, hcl, hbody]
  have hg : guardB prob (initLoop prob) = true := by
    simp [guardB, initLoop, Hist.lastTime, prob]
  refine ⟨(obj b).finish prob (.exit s' 1), s'.hist, y, ?_, rfl, rfl, rfl, hcs, hss, hy0, ht, hms, hbs⟩
  simp only [QLaw.solve, obj, EtaArg.valid, if_true, loop, hg, hit, Option.map]
  rfl

/-- the run with a fixed time step -/
theorem run : ∃ Q' H y, (obj false).solve (.flt 0) (.flt 0) 2 = some (Q', none) ∧ Q'.hist = some H ∧
    Q'.exitcode = 1 ∧ Q'.converge = true ∧ H.controls = [(0, 0, 1)] ∧
    H.states = [prob.oe0, y] ∧ y 0 = 1 + 1 * slow 0 ∧ H.times = [0, 1] ∧
    H.masses = [1, 1 - 1 / 100 * 1] ∧ H.battery = [1, 1] :=
  run_of one_pos le_rfl rfl

/-- the run with a fixed step of eccentric anomaly -/
theorem run_sundman : ∃ Q' H y h, (obj true).solve (.flt 0) (.flt 0) 2 = some (Q', none) ∧
    Q'.hist = some H ∧ Q'.exitcode = 1 ∧ Q'.converge = true ∧ H.controls = [(0, 0, 1)] ∧
    H.states = [prob.oe0, y] ∧ y 0 = 1 + h * slow 0 ∧ H.times = [0, h] ∧
    H.masses = [1, 1 - 1 / 100 * h] ∧ H.battery = [1, 1] ∧ 0 < h := by
  have hs0 : 0 ≤ Real.sin 1 := Real.sin_nonneg_of_nonneg_of_le_pi zero_le_one
    (by linarith [Real.pi_gt_three])
  have hs1 := Real.sin_le_one 1
  have hch : chooseStep (cfg true) prob prob.oe0 = .ok (1 - 1 / 2 * Real.sin 1) := by
    have hE : ta2ea (prob.oe0 5) (prob.oe0 1) = .ok 0 := by
      simp only [ta2ea, prob, bind, Except.bind]
      rw [ndiv_real (by norm_num)]
      simp
      rfl
    have hb : ∀ x : ℝ, (∀ y, ta2ea (prob.oe0 5) (prob.oe0 1) = .ok y →
        sundmanStep prob.tStep (prob.oe0 1) y
          (((2 : ℕ) : ℝ) * PyTrans.pi * PyTrans.sqrt (prob.oe0 0 ^ 3 / 1)) = x) →
        chooseStep (cfg true) prob prob.oe0 = .ok x := by
      intro x hx
      have := hx 0 hE
      simp only [chooseStep, cfg, if_true, bind, Except.bind, hE, pure, Except.pure, this]
    refine hb _ fun y hy => ?_
    rw [hE] at hy
    cases hy
    have h0 : (0 : ℝ) ≤ prob.oe0 1 := by simp [prob]
    have h1 : prob.oe0 1 < 1 := by simp [prob]; norm_num
    have h2 : 0 < prob.tStep := by simp [prob]
    rw [sundmanStep_pos h0 h1 0 h2]
    simp [timeOfFlight, prob]
  obtain ⟨Q', H, y, hrun⟩ := run_of (b := true) (h := 1 - 1 / 2 * Real.sin 1) (by linarith)
    (by linarith) hch
  exact ⟨Q', H, y, _, hrun.1, hrun.2.1, hrun.2.2.1, hrun.2.2.2.1, hrun.2.2.2.2.1, hrun.2.2.2.2.2.1,
    hrun.2.2.2.2.2.2.1, hrun.2.2.2.2.2.2.2.1, hrun.2.2.2.2.2.2.2.2.1, hrun.2.2.2.2.2.2.2.2.2,
    by linarith⟩

/-- the hypotheses of C31 are met by this run -/
example : ∃ Q' H t t' b x, (obj true).solve (.flt 0) (.flt 0) 2 = some (Q', none) ∧
    (obj true).prob = some prob ∧ Q'.hist = some H ∧ (obj true).cfg.useSundman = true ∧
    (obj true).cfg.elementsType = .keplerian ∧ 0 < (obj true).cfg.mu ∧ 0 < prob.tStep ∧
    H.times[0]? = some t ∧ H.times[1]? = some t' ∧ H.battery[0]? = some b ∧
    H.states[0]? = some x ∧ 0 < x 0 ∧ 0 ≤ x 1 ∧ x 1 < 1 ∧ Real.cos (x 5 / 2) ≠ 0 := by
  obtain ⟨Q', H, y, h, h1, h2, -, -, -, h3, -, h4, -, h5, -⟩ := run_sundman
  refine ⟨Q', H, 0, h, 1, prob.oe0, h1, rfl, h2, rfl, rfl, ?_, ?_, ?_, ?_, ?_, ?_, ?_, ?_, ?_, ?_⟩
  · simp [obj, cfg]
  · simp [prob]
  · simp [h4]
  · simp [h4]
  · simp [h5]
  · simp [h3]
  · simp [prob]
  · simp [prob]
  · simp [prob]; norm_num
  · simp [prob]

end Burn
end PyQ
