import Verif.Examples.Burn

/-! # A run over the reals whose target RAAN is one whole turn away

The run of `Verif.Examples.Burn`, with the RAAN weighted as well and its target one turn above the initial
RAAN. The control law measures no RAAN difference, so it asks for the same thrust, and the run converges. -/

set_option linter.unusedSectionVars false
set_option maxRecDepth 100000

namespace PyQ
namespace Turn
open CoastSample

/-- target of the run: the RAAN is one turn above the initial one -/
noncomputable def tgt : Fin 5 → ℝ := ![2, 0, 0, 1 + 2 * Real.pi, 0]

noncomputable def prob : Problem ℝ :=
  { Burn.prob with oeT := [2, 0, 0, 1 + 2 * Real.pi, 0], woe := ![1, 0, 0, 1, 0] }

noncomputable def obj : QLaw ℝ :=
  { cfg := Burn.cfg false, prob := some prob, ready := true, converge := false, exitcode := 0,
    hist := none }

noncomputable def args : LyapArgs ℝ := lyapArgs (Burn.cfg false) prob tgt (1 / 100) prob.oe0

theorem oedot_congr {A B : LyapArgs ℝ} (h0 : A.oe 0 = B.oe 0) (h1 : A.oe 1 = B.oe 1)
    (h2 : A.oe 2 = B.oe 2) (h4 : A.oe 4 = B.oe 4) (hf : A.f = B.f) (hm : A.mu = B.mu)
    (hb : A.b = B.b) :
    kepOedot A = kepOedot B := by
  simp only [kepOedot, h0, h1, h2, h4, hf, hm, hb]

theorem q_split (j : Fin 5) (x : ℝ) : kepQ (args.setOe j x) = kepQ (Burn.args.setOe j x) +
    (Real.arccos (Real.cos ((args.setOe j x).oe 3 - (1 + 2 * Real.pi))) /
      kepOedot (args.setOe j x) 3) ^ 2 := by
  have h0 : kepOedot (args.setOe j x) = kepOedot (Burn.args.setOe j x) :=
    oedot_congr rfl rfl rfl rfl rfl rfl rfl
  have h1 : kepSoe (args.setOe j x) = kepSoe (Burn.args.setOe j x) := rfl
  have h2 : kepDoe (args.setOe j x) 0 = kepDoe (Burn.args.setOe j x) 0 := by
    show (args.setOe j x).oe 0 - 2 = (Burn.args.setOe j x).oe 0 - 2
    rfl
  have h3 : kepDoe (args.setOe j x) 3 =
      Real.arccos (Real.cos ((args.setOe j x).oe 3 - (1 + 2 * Real.pi))) := rfl
  have w : (args.setOe j x).woe = ![1, 0, 0, 1, 0] := rfl
  have w' : (Burn.args.setOe j x).woe = ![1, 0, 0, 0, 0] := rfl
  have p : (args.setOe j x).wp = 0 := rfl
  have p' : (Burn.args.setOe j x).wp = 0 := rfl
  simp only [kepQ, w, w', p, p', h0, h1, h2, h3]
  simp

theorem turn_zero : Real.arccos (Real.cos (1 - (1 + 2 * Real.pi))) = 0 := by
  have : (1 : ℝ) - (1 + 2 * Real.pi) = -(2 * Real.pi) := by ring
  rw [this, Real.cos_neg, Real.cos_two_pi, Real.arccos_one]

theorem dq_same (j : Fin 5) : partialQ kepQ args j = partialQ kepQ Burn.args j := by
  by_cases hj : j = 3
  · subst hj
    rw [Burn.dq_rest 3 (by decide) (by decide)]
    have hb : ∀ x, kepQ (Burn.args.setOe 3 x) = kepQ (Burn.args.setOe 3 1) := by
      intro x
      rw [Burn.q_eq _ rfl rfl rfl rfl rfl rfl rfl rfl, Burn.q_eq _ rfl rfl rfl rfl rfl rfl rfl rfl]
      all_goals simp [LyapArgs.setOe, Burn.args, lyapArgs, Burn.prob]
      all_goals norm_num
    have hd : ∀ x, kepOedot (args.setOe 3 x) 3 = kepOedot (args.setOe 3 1) 3 := fun x => by
      rw [oedot_congr (A := args.setOe 3 x) (B := args.setOe 3 1) rfl rfl rfl rfl rfl rfl rfl]
    have h : (fun x => kepQ (args.setOe 3 x)) =ᶠ[nhds 1] fun x =>
        kepQ (Burn.args.setOe 3 1) + (x - 1) ^ 2 / kepOedot (args.setOe 3 1) 3 ^ 2 := by
      filter_upwards [lt_mem_nhds (show (0 : ℝ) < 1 by norm_num),
        gt_mem_nhds (show (1 : ℝ) < 2 by norm_num)] with x hx hx1
      rw [q_split, hb x, hd x, div_pow]
      have h3 : (args.setOe 3 x).oe 3 = x := rfl
      have h4 : x - (1 + 2 * Real.pi) = (x - 1) - 2 * Real.pi := by ring
      have h5 : |x - 1| ≤ Real.pi := by
        rw [abs_le]; constructor <;> linarith [Real.pi_gt_three]
      rw [h3, h4, Real.cos_sub_two_pi, ← Real.cos_abs, Real.arccos_cos (abs_nonneg _) h5, sq_abs]
    have h2 : HasDerivAt (fun x : ℝ => kepQ (Burn.args.setOe 3 1) +
        (x - 1) ^ 2 / kepOedot (args.setOe 3 1) 3 ^ 2) 0 1 := by
      have a1 : HasDerivAt (fun x : ℝ => x - 1) 1 1 := (hasDerivAt_id _).sub_const _
      have a2 := ((a1.pow 2).div_const (kepOedot (args.setOe 3 1) 3 ^ 2)).const_add
        (kepQ (Burn.args.setOe 3 1))
      refine a2.congr_deriv ?_
      simp
    exact (h.deriv_eq).trans h2.deriv
  · have h : (fun x => kepQ (args.setOe j x)) = fun x => kepQ (Burn.args.setOe j x) := by
      funext x
      have h3 : (args.setOe j x).oe 3 = 1 := by
        match j with
        | 0 => simp [LyapArgs.setOe, args, lyapArgs, prob, Burn.prob]
        | 1 => simp [LyapArgs.setOe, args, lyapArgs, prob, Burn.prob]
        | 2 => simp [LyapArgs.setOe, args, lyapArgs, prob, Burn.prob]
        | 3 => exact absurd rfl hj
        | 4 => simp [LyapArgs.setOe, args, lyapArgs, prob, Burn.prob]
      rw [q_split, h3, turn_zero]
      simp
    have h0 : args.oe j.castSucc = Burn.args.oe j.castSucc := rfl
    unfold partialQ
    simp only [diff_real, h]
    rfl

theorem lyap_same : (kepLyap args).uRaw = (kepLyap Burn.args).uRaw ∧
    (kepLyap args).psi = (kepLyap Burn.args).psi := by
  have : partialQ kepQ args = partialQ kepQ Burn.args := funext dq_same
  have hp : kepPsi args = kepPsi Burn.args := rfl
  refine ⟨?_, hp⟩
  simp only [kepLyap, this, hp]

theorem law : ∃ q dqdt, lyapunovControlAngles kepLyap args =
    .ok { alpha := 0, beta := 0, u := ![0, -1, 0], psi := kepPsi Burn.args, q := q, dqdt := dqdt } := by
  obtain ⟨q, d, h⟩ := Burn.law
  obtain ⟨h1, h2⟩ := lyap_same
  unfold lyapunovControlAngles at h ⊢
  simp only [h1, h2, bind, Except.bind, pure, Except.pure] at h ⊢
  cases hu : uToThrustAngles (kepLyap Burn.args).uRaw with
  | error e => rw [hu] at h; cases h
  | ok v =>
    rw [hu] at h
    simp only [Except.ok.injEq, ControlOut.mk.injEq] at h ⊢
    exact ⟨_, _, h.1, h.2.1, h.2.2.1, h.2.2.2.1, rfl, rfl⟩

theorem slow3 : Burn.slow 3 = 0 := by
  simp [Burn.slow, kepPsi]

/-- the run: one step of full thrust along the motion, converged with the RAAN one turn off the target -/
theorem run : ∃ Q' H y, obj.solve (.flt 0) (.flt 0) 2 = some (Q', none) ∧ Q'.hist = some H ∧
    Q'.exitcode = 1 ∧ H.controls = [(0, 0, 1)] ∧ H.states = [prob.oe0, y] ∧ y 3 = 1 ∧
    1 < y 0 ∧ 1 / 2 < y 1 ∧ y 1 < 3 / 4 := by
  obtain ⟨y, hy, hy0, hy1, hy3⟩ := Burn.flown' one_pos le_rfl
  rw [slow3, mul_zero, add_zero] at hy3
  obtain ⟨q, dqdt, hlaw⟩ := law
  have hcl : clampPhase (Burn.cfg false) (initLoop prob) = .ok (initLoop prob) := by
    have : elementsSafety prob.oe0 (Burn.cfg false).oeMin (Burn.cfg false).oeMax = .ok prob.oe0 := by
      simp only [elementsSafety, Burn.cfg, prob, Burn.prob]
      congr 1
      funext i
      fin_cases i <;> simp [pymin, pymax]
      all_goals norm_num
    simp only [clampPhase, Burn.cfg, initLoop, bind, Except.bind, pure, Except.pure] at this ⊢
    rw [this]
    rfl
  have hch' : chooseStep (Burn.cfg false) prob (initLoop prob).oe = .ok 1 := rfl
  have hdu : dutyPhase prob (initLoop prob) 1 =
      { duty := true, tOn := 0, tOff := 0, charging := false, step := 1 } := by
    simp [dutyPhase, prob, Burn.prob, initLoop, rat]
    norm_num
  have hco : ∃ c : Ctl ℝ, controlPhase ⟨Burn.cfg false, prob, .flt 0, .flt 0⟩ (initLoop prob)
      { duty := true, tOn := 0, tOff := 0, charging := false, step := 1 } = .ok (.ctl c) ∧
      c.alpha = some 0 ∧ c.beta = some 0 ∧ c.throttle = 1 ∧ c.u = vsmul (1 / 100) (dirOf 0 0) ∧
      c.psi = kepPsi Burn.args ∧ c.oeT = tgt := by
    have ha : PyOrd.sign (1 : ℝ) * prob.tmax / (initLoop prob).mass = 1 / 100 := by
      simp [prob, Burn.prob, initLoop, PyOrd.sign]
    have hv : asVec5 prob.oeT = .ok tgt := rfl
    have hlaw' : lyapunovControlAngles (Burn.cfg false).dyn.lyapFun
        (lyapArgs (Burn.cfg false) prob tgt (1 / 100) (initLoop prob).oe) = _ := hlaw
    unfold controlPhase
    simp only [hv, ha, hlaw', bind, Except.bind, pure, Except.pure, if_true, evalEta]
    simp [PyNan.isnan]
  obtain ⟨c, hc, hal, hbe, hth, hcu, hpsi, hct⟩ := hco
  have hpr : propagatePhase ⟨Burn.cfg false, prob, .flt 0, .flt 0⟩ (initLoop prob) 1 c =
      .ok (y, 1) := by
    simp only [propagatePhase, Burn.cfg, bind, Except.bind, pure, Except.pure, hcu, hpsi]
    have h0 : (initLoop prob).t = 0 := by simp [initLoop]
    have h1 : (initLoop prob).oe = Burn.prob.oe0 := rfl
    rw [h0, h1]
    have h2 : (dynOf (α := ℝ) .keplerian).eom = eomKepGauss := rfl
    rw [h2]
    have hy' := hy
    simp only [Burn.params] at hy'
    rw [hy']
  have hconv : (dynOf (α := ℝ) .keplerian).checkConv y tgt prob.woe (fun _ => 1) = true := by
    have h3 := Burn.slow0
    have h2 : |2 - y 0| ≤ 1 := by rw [hy0, abs_le]; constructor <;> linarith
    have h4 : Real.arccos (Real.cos (1 + 2 * Real.pi - y 3)) ≤ 1 := by
      rw [hy3, add_sub_cancel_left, Real.cos_two_pi, Real.arccos_one]; exact zero_le_one
    simp [dynOf, checkConvergenceKeplerian, checkFlags, prob, tgt, List.finRange, h2,
      abs_of_nonneg (Real.arccos_nonneg _), h4]
  have hit : ∃ s', iter ⟨Burn.cfg false, prob, .flt 0, .flt 0⟩ (initLoop prob) = .brk s' 1 ∧
      s'.hist.controls = [(0, 0, 1)] ∧ s'.hist.states = [prob.oe0, y] := by
    simp only [iter, hcl, bodyPhase, hch', hdu, hc, hpr, storePhase, hal, hbe, exitPhase, hth, hct]
    rw [if_pos (show (Burn.cfg false).dyn.checkConv y tgt prob.woe (Burn.cfg false).tolOe = true
      from hconv)]
    refine ⟨_, rfl, ?_, ?_⟩ <;> simp [initLoop, prob]
  obtain ⟨s', hit, hcs, hss⟩ := hit
  have hg : guardB prob (initLoop prob) = true := by
    simp [guardB, initLoop, Hist.lastTime, prob, Burn.prob]
  refine ⟨obj.finish prob (.exit s' 1), s'.hist, y, ?_, rfl, rfl, hcs, hss, hy3,
    by rw [hy0]; linarith [Burn.slow0.1], by rw [hy1]; linarith [Burn.slow1.1],
    by rw [hy1]; linarith [Burn.slow1.2]⟩
  simp only [QLaw.solve, obj, EtaArg.valid, if_true, loop, hg, hit, Option.map]
  rfl

end Turn
end PyQ
