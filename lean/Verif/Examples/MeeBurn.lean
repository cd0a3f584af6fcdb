import Verif.Examples.Burn

/-! # A run over the reals with the package's own control law, in equinoctial elements

The same transfer as in `Burn`, in the reference plane (`h = k = 0`). -/

set_option linter.unusedSectionVars false
set_option maxRecDepth 100000

namespace PyQ
namespace MeeBurn
open CoastSample

/-- MEE object -/
noncomputable def cfg : Config ℝ :=
  { Burn.cfg false with elementsType := .meeWithA, dyn := dynOf .meeWithA }

/-- raise the semi-major axis from 1 to 2 -/
noncomputable def prob : Problem ℝ := { Burn.prob with oe0 := ![1, 1 / 2, 0, 0, 0, 0] }

noncomputable def obj : QLaw ℝ :=
  { cfg := cfg, prob := some prob, ready := true, converge := false, exitcode := 0, hist := none }

/-- arguments of the control law at the first step -/
noncomputable def args : LyapArgs ℝ := lyapArgs cfg prob ![2, 0, 0, 0, 0] (1 / 100) prob.oe0

theorem q_eq (A : LyapArgs ℝ) (hw : A.woe = ![1, 0, 0, 0, 0]) (hwp : A.wp = 0) (hmu : A.mu = 1)
    (hf : A.f = 1 / 100) (hT : A.oeT = ![2, 0, 0, 0, 0]) (hm : A.m = 3) (hn : A.n = 4) (hr : A.r = 1)
    (ha : 0 < A.oe 0) (he1 : A.oe 1 ^ 2 + A.oe 2 ^ 2 < 1) :
    meeQ A = 2500 * (1 + ((A.oe 0 - 2) / 6) ^ 4) *
      ((A.oe 0 - 2) ^ 2 / A.oe 0 ^ 3) * ((1 - Real.sqrt (A.oe 1 ^ 2 + A.oe 2 ^ 2)) /
        (1 + Real.sqrt (A.oe 1 ^ 2 + A.oe 2 ^ 2))) := by
  have he0 : 0 ≤ Real.sqrt (A.oe 1 ^ 2 + A.oe 2 ^ 2) := Real.sqrt_nonneg _
  have he : Real.sqrt (A.oe 1 ^ 2 + A.oe 2 ^ 2) < 1 := by
    rw [Real.sqrt_lt' one_pos]; simpa using he1
  generalize hs : Real.sqrt (A.oe 1 ^ 2 + A.oe 2 ^ 2) = e at *
  have h1 : 0 < 1 - e := by linarith
  have hs1 : Real.sqrt (A.oe 0) ^ 2 = A.oe 0 := Real.sq_sqrt ha.le
  have hs2 : Real.sqrt ((1 + e) / (1 - e)) ^ 2 = (1 + e) / (1 - e) := Real.sq_sqrt (by positivity)
  have hr4 : ∀ x : ℝ, x ^ (4 : ℝ) = x ^ 4 := fun x => by
    rw [← Real.rpow_natCast]; norm_num
  have habs : |A.oe 0 - 2| ^ 4 = (A.oe 0 - 2) ^ 4 := by
    rw [show (4 : ℕ) = 2 * 2 from rfl, pow_mul, sq_abs, ← pow_mul]
  have hoed : meeOedot A 0 = 2 * (1 / 100) * A.oe 0 * Real.sqrt (A.oe 0) * Real.sqrt ((1 + e) / (1 - e)) := by
    simp [meeOedot, hmu, hf, hs]
  have hsoe : meeSoe A = 1 + ((A.oe 0 - 2) / 6) ^ 4 := by
    simp only [meeSoe, hT, hm, hn, hr, rpow_real, sqrt_real, Nat.cast_one, Matrix.cons_val_zero,
      Real.sqrt_sq_eq_abs, hr4, div_one, Real.rpow_one, div_pow, habs]
    norm_num
  have hq : meeQ A = meeSoe A * ((A.oe 0 - 2) / meeOedot A 0) ^ 2 := by
    simp [meeQ, hw, hwp, meeDoe, hT]
  have hden : (2 * (1 / 100) * A.oe 0 * Real.sqrt (A.oe 0) * Real.sqrt ((1 + e) / (1 - e))) ^ 2 =
      (1 / 50) ^ 2 * A.oe 0 ^ 3 * ((1 + e) / (1 - e)) := by
    rw [mul_pow, mul_pow, mul_pow, hs1, hs2]; ring
  rw [hq, hsoe, hoed, div_pow (A.oe 0 - 2) (2 * _ * _ * _ * _) 2, hden]
  field_simp
  ring

theorem dq0 : ∃ d, d < 0 ∧ partialQ meeQ args 0 = d := by
  refine ⟨_, ?_, rfl⟩
  have hs : Real.sqrt ((1 / 2) ^ 2 + 0 ^ 2) = 1 / 2 := by
    rw [show ((1 / 2 : ℝ)) ^ 2 + 0 ^ 2 = (1 / 2) ^ 2 by ring]; exact Real.sqrt_sq (by norm_num)
  have h : (fun x => meeQ (args.setOe 0 x)) =ᶠ[nhds 1] fun x =>
      2500 / 3 * ((1 + ((x - 2) / 6) ^ 4) * ((x - 2) ^ 2 / x ^ 3)) := by
    filter_upwards [lt_mem_nhds (show (0 : ℝ) < 1 by norm_num)] with x hx
    have e0 : (args.setOe 0 x).oe 0 = x := rfl
    have e1 : (args.setOe 0 x).oe 1 = 1 / 2 := rfl
    have e2 : (args.setOe 0 x).oe 2 = 0 := rfl
    rw [q_eq _ rfl rfl rfl rfl rfl rfl rfl rfl (by rw [e0]; exact hx) (by rw [e1, e2]; norm_num), e0, e1,
      e2, hs]
    ring
  have h2 : HasDerivAt (fun x : ℝ => 2500 / 3 * ((1 + ((x - 2) / 6) ^ 4) * ((x - 2) ^ 2 / x ^ 3)))
      (2500 / 3 * ((4 * ((1 - 2) / 6) ^ 3 * (1 / 6)) * ((1 - 2) ^ 2 / 1 ^ 3) +
        (1 + ((1 - 2) / 6) ^ 4) * ((2 * (1 - 2) * 1 ^ 3 - (1 - 2) ^ 2 * (3 * 1 ^ 2)) / (1 ^ 3) ^ 2)))
      (1 : ℝ) := by
    have a1 : HasDerivAt (fun x : ℝ => x - 2) 1 1 := (hasDerivAt_id _).sub_const _
    have a2 := ((a1.div_const 6).pow 4).const_add 1
    have a3 := ((a1.pow 2).div ((hasDerivAt_id (1 : ℝ)).pow 3) (by norm_num))
    have a4 := (a2.mul a3).const_mul (2500 / 3)
    refine a4.congr_deriv ?_
    simp
  have h3 : partialQ meeQ args 0 = _ := (h.deriv_eq).trans h2.deriv
  rw [h3]
  norm_num

theorem dq1 : ∃ d, d < 0 ∧ partialQ meeQ args 1 = d := by
  refine ⟨_, ?_, rfl⟩
  have h : (fun x => meeQ (args.setOe 1 x)) =ᶠ[nhds (1 / 2)] fun x =>
      2500 * (1 + 1 / 1296) * ((1 - x) / (1 + x)) := by
    filter_upwards [lt_mem_nhds (show (0 : ℝ) < 1 / 2 by norm_num),
      gt_mem_nhds (show (1 / 2 : ℝ) < 1 by norm_num)] with x hx hx1
    have e0 : (args.setOe 1 x).oe 0 = 1 := rfl
    have e1 : (args.setOe 1 x).oe 1 = x := rfl
    have e2 : (args.setOe 1 x).oe 2 = 0 := rfl
    have hs : Real.sqrt (x ^ 2 + 0 ^ 2) = x := by
      rw [show x ^ 2 + 0 ^ 2 = x ^ 2 by ring]; exact Real.sqrt_sq hx.le
    rw [q_eq _ rfl rfl rfl rfl rfl rfl rfl rfl (by rw [e0]; norm_num) (by rw [e1, e2]; nlinarith), e0, e1,
      e2, hs]
    norm_num
  have h2 : HasDerivAt (fun x : ℝ => 2500 * (1 + 1 / 1296) * ((1 - x) / (1 + x)))
      (2500 * (1 + 1 / 1296) * (((-1) * (1 + 1 / 2) - (1 - 1 / 2) * 1) / (1 + 1 / 2) ^ 2))
      (1 / 2 : ℝ) := by
    have a1 : HasDerivAt (fun x : ℝ => 1 - x) (-1) (1 / 2) := by
      simpa using (hasDerivAt_id (1 / 2 : ℝ)).const_sub 1
    have a2 : HasDerivAt (fun x : ℝ => 1 + x) 1 (1 / 2) := (hasDerivAt_id _).const_add _
    exact (a1.div a2 (by norm_num)).const_mul _
  have h3 : partialQ meeQ args 1 = _ := (h.deriv_eq).trans h2.deriv
  rw [h3]
  norm_num

theorem dq2 : partialQ meeQ args 2 = 0 := by
  have h : (fun x => meeQ (args.setOe 2 x)) =ᶠ[nhds 0] fun x =>
      2500 * (1 + 1 / 1296) * ((1 - Real.sqrt (1 / 4 + x ^ 2)) / (1 + Real.sqrt (1 / 4 + x ^ 2))) := by
    filter_upwards [lt_mem_nhds (show (-1 / 2 : ℝ) < 0 by norm_num),
      gt_mem_nhds (show (0 : ℝ) < 1 / 2 by norm_num)] with x hx hx1
    have e0 : (args.setOe 2 x).oe 0 = 1 := rfl
    have e1 : (args.setOe 2 x).oe 1 = 1 / 2 := rfl
    have e2 : (args.setOe 2 x).oe 2 = x := rfl
    rw [q_eq _ rfl rfl rfl rfl rfl rfl rfl rfl (by rw [e0]; norm_num) (by rw [e1, e2]; nlinarith), e0, e1,
      e2, show ((1 / 2 : ℝ)) ^ 2 = 1 / 4 by norm_num]
    norm_num
  have a0 : HasDerivAt (fun x : ℝ => Real.sqrt (1 / 4 + x ^ 2)) 0 0 := by
    have b1 : HasDerivAt (fun x : ℝ => 1 / 4 + x ^ 2) (2 * (0 : ℝ) ^ 1 * 1) 0 :=
      ((hasDerivAt_id (0 : ℝ)).pow 2).const_add _
    have := b1.sqrt (by norm_num)
    simpa using this
  have a1 : HasDerivAt (fun x : ℝ => 1 - Real.sqrt (1 / 4 + x ^ 2)) 0 0 := by
    simpa using a0.const_sub 1
  have a2 : HasDerivAt (fun x : ℝ => 1 + Real.sqrt (1 / 4 + x ^ 2)) 0 0 := a0.const_add 1
  have a3 := (a1.div a2 (by positivity)).const_mul (2500 * (1 + 1 / 1296))
  have h3 : partialQ meeQ args 2 = _ := (h.deriv_eq).trans a3.deriv
  rw [h3]
  simp

theorem dq_rest (j : Fin 5) (hj : 3 ≤ j) : partialQ meeQ args j = 0 := by
  have h : (fun x => meeQ (args.setOe j x)) = fun _ => meeQ args := by
    funext x
    have hA : (args.setOe j x).oe 0 = args.oe 0 ∧ (args.setOe j x).oe 1 = args.oe 1 ∧
        (args.setOe j x).oe 2 = args.oe 2 := by
      match j with
      | 0 => exact absurd hj (by decide)
      | 1 => exact absurd hj (by decide)
      | 2 => exact absurd hj (by decide)
      | 3 => exact ⟨rfl, rfl, rfl⟩
      | 4 => exact ⟨rfl, rfl, rfl⟩
    have e0 : args.oe 0 = 1 := rfl
    have e1 : args.oe 1 = 1 / 2 := rfl
    have e2 : args.oe 2 = 0 := rfl
    rw [q_eq _ rfl rfl rfl rfl rfl rfl rfl rfl, q_eq args rfl rfl rfl rfl rfl rfl rfl rfl, hA.1, hA.2.1,
      hA.2.2]
    · rw [e0]; norm_num
    · rw [e1, e2]; norm_num
    · rw [hA.1, e0]; norm_num
    · rw [hA.2.1, hA.2.2, e1, e2]; norm_num
  unfold partialQ
  simp only [diff_real, h]
  exact deriv_const _ _

theorem sq_half : Real.sqrt ((1 / 2 : ℝ) ^ 2 + 0 ^ 2) = 1 / 2 := by
  rw [show ((1 / 2 : ℝ)) ^ 2 + 0 ^ 2 = (1 / 2) ^ 2 by ring]; exact Real.sqrt_sq (by norm_num)

/-- the Gauss matrix at the first state -/
theorem psi_eq : ∃ w : ℝ, 3 / 4 < w ∧ w < 1 ∧
    meePsi args = ![![0, 0, -w, 0, 0], ![3 / w, 2 * w, 0, 0, 0], ![0, 0, 0, w / 3, 0]] := by
  refine ⟨Real.sqrt (3 / 4), by rw [Real.lt_sqrt (by norm_num)]; norm_num,
    by rw [Real.sqrt_lt' one_pos]; norm_num, ?_⟩
  have h0 : 0 < Real.sqrt (3 / 4) := Real.sqrt_pos.2 (by norm_num)
  have e1 : Real.sqrt (3 / 4) ^ 2 = 3 / 4 := Real.sq_sqrt (by norm_num)
  have k1 : (1 : ℝ) * (1 - (1 / 2) ^ 2 - 0 ^ 2) / 1 = 3 / 4 := by norm_num
  have k2 : (1 : ℝ) * (1 - (1 / 2) ^ 2) = 3 / 4 := by norm_num
  unfold meePsi
  simp only [args, lyapArgs, cfg, Burn.cfg, prob, Matrix.cons_val, Nat.cast_one, Nat.cast_ofNat,
    Nat.cast_zero, sqrt_real, cos_real, sin_real, arctan_real, sq_half, k1, k2, zero_div,
    Real.arctan_zero, sub_zero, Real.cos_zero, Real.sin_zero, mul_zero, mul_one, rat_real]
  generalize Real.sqrt (3 / 4) = w at *
  funext c j
  match c with
  | 0 => fin_cases j <;> simp
  | 1 =>
    fin_cases j <;> simp
    · rw [e1]; field_simp; norm_num
    · norm_num; ring
  | 2 =>
    fin_cases j <;> simp
    norm_num
    ring

/-- the raw control is transverse -/
theorem raw : ∃ T, T < 0 ∧ (meeLyap args).uRaw = ![0, T, 0] := by
  obtain ⟨d0, n0, e0⟩ := dq0
  obtain ⟨d1, n1, e1⟩ := dq1
  have e2 := dq2
  have e3 := dq_rest 3 (by decide)
  have e4 := dq_rest 4 (by decide)
  obtain ⟨w, hw, -, hpsi⟩ := psi_eq
  have hw0 : 0 < w := by linarith
  refine ⟨3 / w * d0 + 2 * w * d1, ?_, ?_⟩
  · have := mul_neg_of_pos_of_neg (show 0 < 3 / w by positivity) n0
    have := mul_neg_of_pos_of_neg (show 0 < 2 * w by positivity) n1
    linarith
  · funext c
    simp only [meeLyap, rawControl, e0, e1, e2, e3, e4, hpsi]
    match c with
    | 0 => simp
    | 1 => simp
    | 2 => simp

/-- the control law asks for full thrust along the direction of motion -/
theorem law : ∃ q dqdt, lyapunovControlAngles meeLyap args =
    .ok { alpha := 0, beta := 0, u := ![0, -1, 0], psi := meePsi args, q := q, dqdt := dqdt } := by
  obtain ⟨T, hT, hk⟩ := raw
  have hu : uToThrustAngles ![0, T, 0] = .ok (![0, -1, 0], (0 : ℝ), (0 : ℝ)) := by
    have hs : Real.sqrt (T ^ 2) = -T := by rw [Real.sqrt_sq_eq_abs, abs_of_neg hT]
    have hv : vdivs ![0, T, 0] (-T) = ![0, -1, (0 : ℝ)] := by
      funext i
      match i with
      | 0 => simp [vdivs]
      | 1 => simp [vdivs, hT.ne]
      | 2 => simp [vdivs]
    have ha : Complex.arg ⟨1, 0⟩ = 0 := by
      rw [Complex.arg_eq_zero_iff]; simp
    simp [uToThrustAngles, hs, hv, bind, Except.bind, pure, Except.pure, ndiv_real, ha]
  unfold lyapunovControlAngles
  simp only [hk, hu, bind, Except.bind, pure, Except.pure]
  exact ⟨_, _, rfl⟩

/-- parameters of the equations of motion during the step -/
noncomputable def params : OdeParams ℝ :=
  { mu := 1, u := vsmul (1 / 100) (dirOf 0 0), psi0 := meePsi args 0, psi1 := meePsi args 1,
    psi2 := meePsi args 2, ptrb := zero3 }

theorem rates : ∃ s0 s1 : ℝ, 0 < s0 ∧ s0 < 1 ∧ 0 < s1 ∧ s1 < 1 / 4 ∧
    ∀ row r, gaussCombine params row r = ![s0, s1, 0, 0, 0, gaussCombine params row r 5] := by
  obtain ⟨w, hw, hw1, hpsi⟩ := psi_eq
  have hw0 : 0 < w := by linarith
  refine ⟨3 / w / 100, 2 * w / 100, by positivity, ?_, by positivity, by linarith, ?_⟩
  · rw [div_div, div_lt_one (by positivity)]; linarith
  · intro row r
    funext i
    match i with
    | 0 => simp [gaussCombine, params, dirOf, vsmul, vadd, zero3, dot3, hpsi]; ring
    | 1 => simp [gaussCombine, params, dirOf, vsmul, vadd, zero3, dot3, hpsi]; ring
    | 2 => simp [gaussCombine, params, dirOf, vsmul, vadd, zero3, dot3, hpsi]
    | 3 => simp [gaussCombine, params, dirOf, vsmul, vadd, zero3, dot3, hpsi]
    | 4 => simp [gaussCombine, params, dirOf, vsmul, vadd, zero3, dot3, hpsi]
    | 5 => rfl

/-- the step does not raise -/
theorem flown : ∃ y, rk4 eomMeeWithAGauss 0 1 prob.oe0 params = .ok y ∧ 1 < y 0 ∧ y 0 < 2 := by
  obtain ⟨s0, s1, p0, q0, p1, q1, hg⟩ := rates
  have step : ∀ y t, MeeState 1 y → ∃ r, eomMeeWithAGauss t y params = .ok ![s0, s1, 0, 0, 0, r] := by
    intro y t H
    rw [eomMee_real (P := params) H t]
    exact ⟨_, congrArg _ (hg _ _)⟩
  have keep : ∀ c r : ℝ, 0 ≤ c → c ≤ 1 →
      MeeState 1 (vadd prob.oe0 (vsmul c ![s0, s1, 0, 0, 0, r])) := by
    intro c r h0 h1
    have h2 := mul_nonneg h0 p0.le
    have h3 := mul_nonneg h0 p1.le
    have h4 := mul_le_mul h1 q1.le p1.le zero_le_one
    refine ⟨one_pos, ?_, ?_, ?_⟩
    · show 0 < 1 + c * s0
      linarith
    · show (1 / 2 + c * s1) ^ 2 + (0 + c * 0) ^ 2 < 1
      nlinarith
    · show 1 / 2 + c * s1 ≠ 0
      positivity
  have hr : (1 : ℝ) * rat 1 2 = 1 / 2 := by simp [rat]
  obtain ⟨r1, e1⟩ := step prob.oe0 0 ⟨one_pos, by simp [prob], by simp [prob]; norm_num, by simp [prob]⟩
  obtain ⟨r2, e2⟩ := step _ (0 + rat 1 2 * 1) (keep (1 * rat 1 2) r1 (by rw [hr]; norm_num) (by rw [hr]; norm_num))
  obtain ⟨r3, e3⟩ := step _ (0 + rat 1 2 * 1) (keep (1 * rat 1 2) r2 (by rw [hr]; norm_num) (by rw [hr]; norm_num))
  obtain ⟨r4, e4⟩ := step _ (0 + 1) (keep 1 r3 zero_le_one le_rfl)
  have hz : rk4 eomMeeWithAGauss 0 1 prob.oe0 params = .ok (fun i => prob.oe0 i + 1 / 6 *
      (![s0, s1, 0, 0, 0, r1] i + 2 * ![s0, s1, 0, 0, 0, r2] i + 2 * ![s0, s1, 0, 0, 0, r3] i +
        ![s0, s1, 0, 0, 0, r4] i)) := by
    simp only [rk4, e1, e2, e3, e4, bind, Except.bind, pure, Except.pure, Nat.cast_ofNat]
    rfl
  refine ⟨_, hz, ?_, ?_⟩
  · show 1 < 1 + 1 / 6 * (s0 + 2 * s0 + 2 * s0 + s0)
    linarith
  · show 1 + 1 / 6 * (s0 + 2 * s0 + 2 * s0 + s0) < 2
    linarith

/-- the run: one step of full thrust along the motion, converged -/
theorem run : ∃ Q' H y, obj.solve (.flt 0) (.flt 0) 2 = some (Q', none) ∧ Q'.hist = some H ∧
    Q'.exitcode = 1 ∧ Q'.converge = true ∧ H.controls = [(0, 0, 1)] ∧
    H.states = [prob.oe0, y] ∧ 1 < y 0 ∧ y 0 < 2 ∧ H.times = [0, 1] ∧
    H.masses = [1, 1 - 1 / 100 * 1] ∧ H.battery = [1, 1] := by
  obtain ⟨y, hy, hy0, hy1⟩ := flown
  obtain ⟨q, dqdt, hlaw⟩ := law
  have hcl : clampPhase cfg (initLoop prob) = .ok (initLoop prob) := rfl
  have hch : chooseStep cfg prob (initLoop prob).oe = .ok 1 := rfl
  have hdu : dutyPhase prob (initLoop prob) 1 =
      { duty := true, tOn := 0, tOff := 0, charging := false, step := 1 } := by
    simp [dutyPhase, prob, Burn.prob, initLoop, rat]
    norm_num
  have hco : ∃ c : Ctl ℝ, controlPhase ⟨cfg, prob, .flt 0, .flt 0⟩ (initLoop prob)
      { duty := true, tOn := 0, tOff := 0, charging := false, step := 1 } = .ok (.ctl c) ∧
      c.alpha = some 0 ∧ c.beta = some 0 ∧ c.throttle = 1 ∧ c.u = vsmul (1 / 100) (dirOf 0 0) ∧
      c.psi = meePsi args ∧ c.oeT = ![2, 0, 0, 0, 0] := by
    have ha : PyOrd.sign (1 : ℝ) * prob.tmax / (initLoop prob).mass = 1 / 100 := by
      have : (PyOrd.sign (1 : ℝ)) = 1 := by
        show (if (1 : ℝ) < 0 then (-1 : ℝ) else if (0 : ℝ) < 1 then 1 else 0) = 1
        norm_num
      rw [this]
      simp [prob, Burn.prob, initLoop]
    have hv : asVec5 prob.oeT = .ok ![2, 0, 0, 0, 0] := rfl
    have hlaw' : lyapunovControlAngles cfg.dyn.lyapFun
        (lyapArgs cfg prob ![2, 0, 0, 0, 0] (1 / 100) (initLoop prob).oe) = _ := hlaw
    unfold controlPhase
    simp only [hv, ha, hlaw', bind, Except.bind, pure, Except.pure, if_true, evalEta]
    simp [PyNan.isnan]
  obtain ⟨c, hc, hal, hbe, hth, hcu, hpsi, hct⟩ := hco
  have hpr : propagatePhase ⟨cfg, prob, .flt 0, .flt 0⟩ (initLoop prob) 1 c = .ok (y, 1) := by
    simp only [propagatePhase, cfg, Burn.cfg, bind, Except.bind, pure, Except.pure, hcu, hpsi]
    have h0 : (initLoop prob).t = 0 := by simp [initLoop]
    have h1 : (initLoop prob).oe = prob.oe0 := rfl
    rw [h0, h1]
    have h2 : (dynOf (α := ℝ) .meeWithA).eom = eomMeeWithAGauss := rfl
    rw [h2]
    have hy' := hy
    simp only [params] at hy'
    rw [hy']
  have hconv : (dynOf (α := ℝ) .meeWithA).checkConv y ![2, 0, 0, 0, 0] prob.woe (fun _ => 1) = true := by
    have h2 : |2 - y 0| ≤ 1 := by rw [abs_le]; constructor <;> linarith
    simp [dynOf, checkConvergenceMee, checkFlags, prob, Burn.prob, List.finRange, h2]
  have hit : ∃ s', iter ⟨cfg, prob, .flt 0, .flt 0⟩ (initLoop prob) = .brk s' 1 ∧
      s'.hist.times = [0, 1] ∧ s'.hist.controls = [(0, 0, 1)] ∧
      s'.hist.states = [prob.oe0, y] ∧ s'.hist.masses = [1, 1 - 1 / 100 * 1] ∧
      s'.hist.battery = [1, 1] := by
    simp only [iter, hcl, bodyPhase, hch, hdu, hc, hpr, storePhase, hal, hbe, exitPhase, hth, hct]
    rw [if_pos (show cfg.dyn.checkConv y ![2, 0, 0, 0, 0] prob.woe cfg.tolOe = true from hconv)]
    refine ⟨_, rfl, ?_, ?_, ?_, ?_, ?_⟩ <;>
      simp [initLoop, prob, Burn.prob, batteryPhase, npclip, npmin, npmax, PyNan.isnan]
  obtain ⟨s', hit, ht, hcs, hss, hms, hbs⟩ := hit
  have hg : guardB prob (initLoop prob) = true := by
    simp [guardB, initLoop, Hist.lastTime, prob, Burn.prob]
  refine ⟨obj.finish prob (.exit s' 1), s'.hist, y, ?_, rfl, rfl, rfl, hcs, hss, hy0, hy1, ht, hms, hbs⟩
  simp only [QLaw.solve, obj, EtaArg.valid, if_true, loop, hg, hit, Option.map]
  rfl

end MeeBurn
end PyQ
