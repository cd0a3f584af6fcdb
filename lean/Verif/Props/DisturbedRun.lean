import Verif.Props.DisturbedNewton

/-!
C115: the motions of the theorem exist, and a perturbed run of the package's law backwards in time that meets its hypotheses.
-/

set_option linter.unusedSectionVars false
set_option maxRecDepth 100000

open Set Metric Topology

namespace PyQ

theorem law_defined_signed {C : Config ℝ} {et : ElemType} {oeT woe : Fin 5 → ℝ} {f : ℝ} {x : Fin 6 → ℝ} (hf : f ≠ 0)
    (hg : lawGrad et (unitCall C oeT woe x) 0 ≠ 0 ∨ lawGrad et (unitCall C oeT woe x) 1 ≠ 0) :
    ∃ o, lyapunovControlAngles (dynOf (α := ℝ) et).lyapFun (callAt C oeT woe f x) = .ok o := by
  have hu := dyn_lyap et (callAt C oeT woe f x)
  have e : ((dynOf (α := ℝ) et).lyapFun (callAt C oeT woe f x)).uRaw =
      vsmul (1 / f ^ 2) (lawGrad et (unitCall C oeT woe x)) := by
    rw [hu.1, ← lawGrad_call]; rfl
  have hk : 1 / f ^ 2 ≠ 0 := by positivity
  obtain ⟨o, h, -⟩ := control_value (dynOf (α := ℝ) et).lyapFun (callAt C oeT woe f x)
    (by rw [hu.1, hu.2.2.1, hu.2.2.2]) (by
      rw [e]
      exact hg.imp (mul_ne_zero hk) (mul_ne_zero hk))
  exact ⟨o, h⟩

theorem pertSmooth_near {C : Config ℝ} {σ s : ℝ} {x : Fin 6 → ℝ} (h : PertSmooth C σ s x) :
    ∀ᶠ y in 𝓝 (s, x), PertSmooth C σ y.1 y.2 := by
  obtain ⟨p, h1, h2⟩ := h
  filter_upwards [h1.eventually (by simp), h2.eventually_nhds] with y h3 h4
  exact ⟨p, h3, h4⟩

/-- **C115, existence.** From every state at which the law and the perturbations are smooth and the law asks for thrust
there is a motion of C115 for some time, in either direction of time; it stays in every open set around the state. -/
theorem C115_exists {C : Config ℝ} {et : ElemType} {oeT woe : Fin 5 → ℝ} {tmax m0 mdot σ g : ℝ} {x : Fin 6 → ℝ}
    (hσ : σ = 1 ∨ σ = -1) (H : LawSmooth et (unitCall C oeT woe x))
    (hg : ∃ c : Fin 3, c ≠ 2 ∧ ∑ j : Fin 5, candPsi et (unitCall C oeT woe x) c j *
      partialQ (candQ et) (unitCall C oeT woe x) j ≠ 0)
    (hp : PertSmooth C σ 0 x) {U : Set (Fin 6 → ℝ)} (hU : IsOpen U) (hxU : x ∈ U) (hT : 0 < tmax) (hm : 0 < m0) :
    ∃ T > 0, ∃ γ, γ 0 = x ∧ DisturbedMotion C et oeT woe tmax m0 mdot σ g T γ ∧
      ∀ s ∈ Icc 0 T, 0 < m0 - mdot * (σ * s) ∧ LawSmooth et (unitCall C oeT woe (γ s)) ∧ PertSmooth C σ s (γ s) ∧
        γ s ∈ U := by
  have hσ0 : σ ≠ 0 := by rcases hσ with rfl | rfl <;> norm_num
  have hg' : lawGrad et (unitCall C oeT woe x) 0 ≠ 0 ∨ lawGrad et (unitCall C oeT woe x) 1 ≠ 0 := by
    obtain ⟨c, h1, h2⟩ := hg
    fin_cases c
    · exact Or.inl h2
    · exact Or.inr h2
    · exact absurd rfl h1
  have hg0 : lawGrad et (unitCall C oeT woe x) ≠ 0 := by
    intro h
    rcases hg' with h1 | h1 <;> exact h1 (by rw [h]; rfl)
  have hV := disturbed_c1 H hg0 tmax m0 mdot σ g (p := pertOf C) (pert_c1 hp) (by rw [mul_zero, mul_zero, sub_zero]; exact hm.ne')
  obtain ⟨α, α0, ε, hε, hα⟩ := hV.exists_forall_mem_closedBall_exists_eq_forall_mem_Ioo_hasDerivAt₀ 0
  simp only [zero_sub, zero_add] at hα
  have h00 : (0 : ℝ) ∈ Ioo (-ε) ε := ⟨by linarith, hε⟩
  have hfst : ∀ t ∈ Ioo (-ε) ε, (α t).1 = t := by
    have hd : ∀ t ∈ Ioo (-ε) ε, HasDerivAt (fun t => (α t).1 - t) 0 t := by
      intro t ht
      have h1 : HasDerivAt (fun t => (α t).1) 1 t := (hα t ht).fst
      have h2 : HasDerivAt (fun t => (α t).1 - t) (1 - 1) t := h1.sub (hasDerivAt_id t)
      rwa [sub_self] at h2
    intro t ht
    have := (isOpen_Ioo (a := -ε) (b := ε)).is_const_of_deriv_eq_zero (convex_Ioo (-ε) ε).isPreconnected
      (fun s hs => (hd s hs).differentiableAt.differentiableWithinAt) (fun s hs => (hd s hs).deriv) ht h00
    simp only [α0] at this
    linarith
  have hsnd : ∀ t ∈ Ioo (-ε) ε, HasDerivAt (fun t => (α t).2)
      ((σ * g) • accRate et (unitCall C oeT woe (α t).2) (fun c => σ * fullThrust tmax m0 mdot (σ * t) *
        lawDir et (unitCall C oeT woe (α t).2) c + pertOf C (σ * t) (α t).2 c)) t := by
    intro t ht
    have := (hα t ht).snd
    rw [hfst t ht] at this
    exact this
  have hc : ContinuousAt (fun t => (α t).2) 0 := (hsnd 0 h00).continuousAt
  have hx0 : (α 0).2 = x := by rw [α0]
  have ev : ∀ᶠ y in 𝓝 x, LawSmooth et (unitCall C oeT woe y) ∧
      (lawGrad et (unitCall C oeT woe y) 0 ≠ 0 ∨ lawGrad et (unitCall C oeT woe y) 1 ≠ 0) ∧ y ∈ U := by
    have hG := lawGrad_cont H
    refine (lawSmooth_near H).and (Filter.Eventually.and ?_ (hU.mem_nhds hxU))
    rcases hg' with h | h
    · exact ((hG 0).eventually_ne h).mono fun y hy => Or.inl hy
    · exact ((hG 1).eventually_ne h).mono fun y hy => Or.inr hy
  have ev2 : ∀ᶠ t in 𝓝 (0 : ℝ), 0 < m0 - mdot * (σ * t) := by
    have : Continuous fun t : ℝ => m0 - mdot * (σ * t) := by fun_prop
    exact this.continuousAt.eventually (lt_mem_nhds (by simpa using hm))
  have ev4 : ∀ᶠ t in 𝓝 (0 : ℝ), PertSmooth C σ t (α t).2 := by
    have hc2 : ContinuousAt (fun t => (t, (α t).2)) 0 := continuousAt_id.prodMk hc
    have := hc2.eventually (p := fun y : ℝ × (Fin 6 → ℝ) => PertSmooth C σ y.1 y.2) (by
      show ∀ᶠ y in 𝓝 ((0 : ℝ), (α 0).2), _
      rw [hx0]; exact pertSmooth_near hp)
    exact this
  rw [← hx0] at ev
  have ev3 := ((hc.eventually ev).and ev4).and ev2
  obtain ⟨η, hη, hall⟩ := Metric.eventually_nhds_iff.1 ev3
  obtain ⟨T, hTdef⟩ : ∃ T, T = min ε η / 2 := ⟨_, rfl⟩
  have hT0 : 0 < T := by rw [hTdef]; positivity
  have hTε : T < ε := by rw [hTdef]; linarith [min_le_left ε η, lt_min hε hη]
  have hTη : T < η := by rw [hTdef]; linarith [min_le_right ε η, lt_min hε hη]
  have hnear : ∀ t ∈ Icc 0 T, _ := fun t (ht : t ∈ Icc 0 T) =>
    hall (y := t) (by rw [Real.dist_eq, sub_zero, abs_of_nonneg ht.1]; linarith [ht.2])
  refine ⟨T, hT0, fun t => (α t).2, hx0, fun t ht => ?_, fun t ht =>
    ⟨(hnear t ht).2, (hnear t ht).1.1.1, (hnear t ht).1.2, (hnear t ht).1.1.2.2⟩⟩
  obtain ⟨⟨⟨h1, h2, -⟩, h4⟩, h3⟩ := hnear t ht
  have hf : σ * fullThrust tmax m0 mdot (σ * t) ≠ 0 := mul_ne_zero hσ0 (div_pos hT h3).ne'
  obtain ⟨o, ho⟩ := law_defined_signed (x := (α t).2) hf h2
  obtain ⟨p, -, hp2⟩ := h4
  have hq := hp2.self_of_nhds
  have hq' := pertOf_eq hq
  obtain ⟨v, hv⟩ := eom_defined (P :=
    { mu := C.mu, u := fun c => σ * fullThrust tmax m0 mdot (σ * t) * unitDir o.alpha o.beta c,
      psi0 := o.psi 0, psi1 := o.psi 1, psi2 := o.psi 2, ptrb := p (t, (α t).2) }) h1.1 (σ * t) rfl
  refine ⟨o, v, _, hq, ho, hv, ?_⟩
  have hv' := eom_accRate (A := unitCall C oeT woe (α t).2) rfl (by
      rw [← law_psi ho]; funext c; fin_cases c <;> rfl) hv
  simp only [law_direction_signed hf ho] at hv'
  have hs := hsnd t ⟨by linarith [ht.1], by linarith [ht.2]⟩
  simp only at hq'
  rw [← hq', ← hv'] at hs
  exact hs.hasDerivWithinAt

/-- a short enough step of `rk4` is defined where the rates are defined and continuous nearby -/
theorem rk4_defined {P : Type} {rhs : ℝ → (Fin 6 → ℝ) → P → Except PyErr (Fin 6 → ℝ)} {x : Fin 6 → ℝ} {p : P}
    {R : (Fin 6 → ℝ) → Fin 6 → ℝ} (hR : ContinuousAt R x) (h : ∀ᶠ y in 𝓝 x, ∀ t, rhs t y p = .ok (R y)) (t : ℝ) :
    ∀ᶠ k in 𝓝 (0 : ℝ), ∃ y, rk4 rhs t k x p = .ok y := by
  have stage : ∀ (c : ℝ) (s : ℝ → Fin 6 → ℝ), ContinuousAt s 0 → ∀ w, w = (fun k => vadd x (vsmul (k * c) (s k))) →
      ContinuousAt w 0 ∧ w 0 = x := by
    rintro c s hs w rfl
    constructor
    · refine continuousAt_pi.2 fun i => ?_
      simp only [vadd, vsmul]
      exact continuousAt_const.add ((continuousAt_id.mul continuousAt_const).mul (continuousAt_pi.1 hs i))
    · funext i; simp [vadd, vsmul]
  obtain ⟨w2, hw2⟩ : ∃ w, w = fun k : ℝ => vadd x (vsmul (k * (1 / 2)) (R x)) := ⟨_, rfl⟩
  obtain ⟨c2, e2⟩ := stage (1 / 2) (fun _ => R x) continuousAt_const w2 hw2
  have r2 : ContinuousAt (fun k => R (w2 k)) 0 := ContinuousAt.comp (g := R) (by rw [e2]; exact hR) c2
  obtain ⟨w3, hw3⟩ : ∃ w, w = fun k : ℝ => vadd x (vsmul (k * (1 / 2)) (R (w2 k))) := ⟨_, rfl⟩
  obtain ⟨c3, e3⟩ := stage (1 / 2) _ r2 w3 hw3
  have r3 : ContinuousAt (fun k => R (w3 k)) 0 := ContinuousAt.comp (g := R) (by rw [e3]; exact hR) c3
  obtain ⟨w4, hw4⟩ : ∃ w, w = fun k : ℝ => vadd x (vsmul (k * 1) (R (w3 k))) := ⟨_, rfl⟩
  obtain ⟨c4, e4⟩ := stage 1 _ r3 w4 hw4
  filter_upwards [c2.eventually (by rw [e2]; exact h), c3.eventually (by rw [e3]; exact h), c4.eventually (by rw [e4]; exact h)]
    with k h2 h3 h4
  simp only [hw4, hw3, hw2, mul_one] at h2 h3 h4
  have hr : (rat 1 2 : ℝ) = 1 / 2 := by norm_num [rat]
  simp only [rk4, hr, h.self_of_nhds t, h2, h3, h4, bind, Except.bind, pure, Except.pure]
  exact ⟨_, rfl⟩

/-- the equations of motion are defined and continuous near a smooth state, for fixed accelerations and coefficients -/
theorem eom_near {C : Config ℝ} {et : ElemType} {oeT woe : Fin 5 → ℝ} {x : Fin 6 → ℝ}
    (H : LawSmooth et (unitCall C oeT woe x)) (P : OdeParams ℝ) (hP : P.mu = C.mu) : ∃ R : (Fin 6 → ℝ) → Fin 6 → ℝ,
    ContinuousAt R x ∧ ∀ᶠ y in 𝓝 x, ∀ t, (dynOf (α := ℝ) et).eom t y P = .ok (R y) := by
  obtain ⟨h3, h4⟩ := fast_smooth (N := 1) H.1
  refine ⟨fun y i => Fin.lastCases (∑ c : Fin 3, fastRow et P.mu y c * (P.u c + P.ptrb c) + fastSelf et P.mu y)
    (fun j : Fin 5 => P.psi0 j * (P.u 0 + P.ptrb 0) + P.psi1 j * (P.u 1 + P.ptrb 1) + P.psi2 j * (P.u 2 + P.ptrb 2)) i, ?_, ?_⟩
  · refine continuousAt_pi.2 fun i => ?_
    induction i using Fin.lastCases with
    | last =>
      simp only [Fin.lastCases_last, hP]
      refine ContinuousAt.add (tendsto_finsetSum _ fun c _ => ?_) h4.continuousAt
      exact (h3 c).continuousAt.mul continuousAt_const
    | cast j =>
      simp only [Fin.lastCases_castSucc]
      exact continuousAt_const
  · filter_upwards [lawSmooth_near H] with y hy t
    obtain ⟨v, hv⟩ := eom_defined (P := P) hy.1 t hP
    have hv' : (dynOf (α := ℝ) et).eom t y P = .ok v := hv
    rw [hv']
    congr 1
    funext i
    induction i using Fin.lastCases with
    | last => rw [Fin.lastCases_last]; exact eom_fast hv'
    | cast j => rw [Fin.lastCases_castSucc]; exact dyn_slow et _ _ _ v hv' j

namespace Burn
open CoastSample

/-- the object of `Burn` with the perturbations of a third body (the Sun, also pushing by radiation) and of oblateness -/
noncomputable def cfgD : Config ℝ :=
  { cfg false with perturbations := some fun t x e => samplePert.getPerturbationsRTN sampleSpice t x (typeName e) }

noncomputable def probD (h : ℝ) : Problem ℝ := { prob with tStep := -h, tfMax := -h }

noncomputable def objD (h : ℝ) : QLaw ℝ := { obj false with cfg := cfgD, prob := some (probD h) }

theorem oe0_box : prob.oe0 ∈ burnBox := by
  refine ⟨fun i => ?_, fun i => ?_⟩ <;> fin_cases i <;> simp [prob] <;> norm_num

theorem unit_d (x : Fin 6 → ℝ) : unitCall cfgD ![2, 0, 0, 0, 0] ![1, 0, 0, 0, 0] x =
    unitCall (cfg false) ![2, 0, 0, 0, 0] ![1, 0, 0, 0, 0] x := rfl

theorem smooth_d : LawSmooth .keplerian (unitCall cfgD ![2, 0, 0, 0, 0] ![1, 0, 0, 0, 0] prob.oe0) := by
  rw [unit_d]
  exact ⟨burn_region.smooth _ oe0_box, fun h => by cases h⟩

theorem radius_d : norm3 (svPos (cartFormula .keplerian 1 prob.oe0)) = 1 / 2 := by
  have hk := law_state smooth_d (fun h => by cases h)
  obtain ⟨c, hc, ho⟩ := C48_on_orbit prob.oe0 1 ⟨one_pos, by norm_num [semiLatus, prob], by
    have : prob.oe0 5 = 0 := rfl
    rw [this, Real.cos_zero]; norm_num [prob]⟩
  have hk' : kep2sv prob.oe0 1 = .ok (cartFormula .keplerian 1 prob.oe0) := cart_formula (et := .keplerian) hk
  rw [hk'] at hc
  injection hc with hc
  have h5 : prob.oe0 5 = 0 := rfl
  rw [hc, ho.radius, h5, Real.cos_zero]
  norm_num [semiLatus, prob]

theorem body_d (t : ℝ) (id : String) : bodyPos samplePert sampleSpice t id = ![2, 0, 0] := by
  funext i; simp [bodyPos, vdivs, samplePert, sampleSpice]

theorem apart_d {r : Fin 3 → ℝ} (h : norm3 r < 2) : r ≠ ![2, 0, 0] := by
  rintro rfl
  simp [norm3] at h

theorem pert_d (σ : ℝ) : PertSmooth cfgD σ 0 prob.oe0 := by
  have hk := law_state smooth_d (fun h => by cases h)
  refine C115_package_smooth (S := samplePert) (sp := sampleSpice) (bodies := [(1, "10")]) rfl rfl rfl hk ?_
  have hne : svPos (cartFormula .keplerian samplePert.obsMu prob.oe0) ≠ ![2, 0, 0] :=
    apart_d (radius_d.trans_lt (by norm_num))
  refine ⟨fun b _ => ?_, fun _ => ?_, fun _ => contDiffAt_const, fun b _ => ?_, fun _ => ?_⟩
  · simp only [body_d]; exact contDiffAt_const
  · simp only [body_d]; exact contDiffAt_const
  · rw [body_d]
    exact ⟨fun e => by have := congrFun e 0; simp at this, hne⟩
  · rw [body_d]; exact hne

theorem run_d : ∃ δ > 0, ∀ h, 0 < h → h < δ → ∃ Q' H a b y, (objD h).solve (.flt 0) (.flt 0) 2 = some (Q', none) ∧
    Q'.hist = some H ∧ H.controls = [(a, b, 1)] ∧ H.states = [prob.oe0, y] ∧ H.times = [0, -h] := by
  obtain ⟨o, ho⟩ := law_defined_signed (C := cfgD) (et := .keplerian) (oeT := ![2, 0, 0, 0, 0]) (woe := ![1, 0, 0, 0, 0])
    (x := prob.oe0) (f := -1 / 100) (by norm_num) (Or.inr (burn_grad _ oe0_box))
  obtain ⟨p, -, hp⟩ := pert_d (-1)
  have hq := hp.self_of_nhds
  simp only [PerturbationIs, cfgD, mul_zero] at hq
  obtain ⟨R, hR, hR'⟩ := eom_near smooth_d
    { mu := 1, u := vsmul (-1 / 100) (dirOf o.alpha o.beta), psi0 := o.psi 0, psi1 := o.psi 1, psi2 := o.psi 2,
      ptrb := p (0, prob.oe0) } rfl
  obtain ⟨δ, hδ, hall⟩ := Metric.eventually_nhds_iff.1 (rk4_defined hR hR' 0)
  refine ⟨min δ 1, by positivity, fun h hh hhδ => ?_⟩
  obtain ⟨y, hy⟩ := hall (y := -h) (by
    rw [Real.dist_eq, sub_zero, abs_neg, abs_of_pos hh]; exact hhδ.trans_le (min_le_left _ _))
  have h1 : h < 1 := hhδ.trans_le (min_le_right _ _)
  have hcl : clampPhase cfgD (initLoop (probD h)) = .ok (initLoop (probD h)) := by
    have : elementsSafety prob.oe0 (cfg false).oeMin (cfg false).oeMax = .ok prob.oe0 := by
      simp only [elementsSafety, cfg, prob]
      congr 1
      funext i
      fin_cases i <;> simp [pymin, pymax]
      all_goals norm_num
    simp only [clampPhase, cfgD, cfg, initLoop, probD, bind, Except.bind, pure, Except.pure] at this ⊢
    rw [this]
    rfl
  have hch : chooseStep cfgD (probD h) (initLoop (probD h)).oe = .ok (-h) := rfl
  have hdu : dutyPhase (probD h) (initLoop (probD h)) (-h) =
      { duty := true, tOn := 0, tOff := 0, charging := false, step := -h } := by
    simp [dutyPhase, probD, prob, initLoop, rat]
    norm_num
  have hco : ∃ c : Ctl ℝ, controlPhase ⟨cfgD, probD h, .flt 0, .flt 0⟩ (initLoop (probD h))
      { duty := true, tOn := 0, tOff := 0, charging := false, step := -h } = .ok (.ctl c) ∧
      c.alpha = some o.alpha ∧ c.beta = some o.beta ∧ c.throttle = 1 ∧ c.u = vsmul (-1 / 100) (dirOf o.alpha o.beta) ∧
      c.psi = o.psi ∧ c.oeT = ![2, 0, 0, 0, 0] := by
    have ha : PyOrd.sign (-h) * (probD h).tmax / (initLoop (probD h)).mass = -1 / 100 := by
      have : ¬ (0 < -h) := by linarith
      simp [probD, prob, initLoop, sign_real, hh, this]
      norm_num
    have hv : asVec5 (probD h).oeT = .ok ![2, 0, 0, 0, 0] := rfl
    have hlaw' : lyapunovControlAngles cfgD.dyn.lyapFun
        (lyapArgs cfgD (probD h) ![2, 0, 0, 0, 0] (-1 / 100) (initLoop (probD h)).oe) = _ := ho
    unfold controlPhase
    simp only [hv, ha, hlaw', bind, Except.bind, pure, Except.pure, if_true, evalEta]
    simp [PyNan.isnan]
  obtain ⟨c, hc, hal, hbe, hth, hcu, hpsi, hct⟩ := hco
  have hpr : propagatePhase ⟨cfgD, probD h, .flt 0, .flt 0⟩ (initLoop (probD h)) (-h) c = .ok (y, -h) := by
    have h0 : (initLoop (probD h)).t = 0 := by simp [initLoop]
    have h1 : (initLoop (probD h)).oe = prob.oe0 := rfl
    have h2 : cfgD.perturbations = some fun t x e => samplePert.getPerturbationsRTN sampleSpice t x (typeName e) := rfl
    have h3 : cfgD.integrator = .rk4 := rfl
    have h4 : cfgD.dyn.eom = (dynOf (α := ℝ) .keplerian).eom := rfl
    have h5 : cfgD.mu = 1 := rfl
    have h6 : cfgD.elementsType = (cfg false).elementsType := rfl
    simp only [propagatePhase, bind, Except.bind, pure, Except.pure, hcu, hpsi, h0, h1, h2, h3, h4, h5, h6, hq, hy]
  obtain ⟨s', hbody, k1, k2, k3⟩ : ∃ s', bodyPhase ⟨cfgD, probD h, .flt 0, .flt 0⟩ (initLoop (probD h)) =
      exitPhase ⟨cfgD, probD h, .flt 0, .flt 0⟩ ![2, 0, 0, 0, 0] s' ∧ s'.hist.times = [0, -h] ∧
      s'.hist.controls = [(o.alpha, o.beta, 1)] ∧ s'.hist.states = [prob.oe0, y] := by
    simp only [bodyPhase, hch, hdu, hc, hpr, storePhase, hal, hbe, hth, hct]
    refine ⟨_, rfl, ?_, ?_, ?_⟩ <;> simp [initLoop, probD, prob]
  have hg : guardB (probD h) (initLoop (probD h)) = true := by
    simp [guardB, initLoop, Hist.lastTime, probD, hh.ne']
  have hg' : ∀ n, guardB (probD h) { s' with nRelaxed := n } = false := fun n => by
    simp [guardB, Hist.lastTime, probD, k1]
  have hit : iter ⟨cfgD, probD h, .flt 0, .flt 0⟩ (initLoop (probD h)) =
      exitPhase ⟨cfgD, probD h, .flt 0, .flt 0⟩ ![2, 0, 0, 0, 0] s' := by
    simp only [iter, hcl]
    exact hbody
  have hl : ∃ r n, loop ⟨cfgD, probD h, .flt 0, .flt 0⟩ 2 (initLoop (probD h)) = some r ∧ r.error? = none ∧
      r.st = { s' with nRelaxed := n } := by
    simp only [loop, hg, if_true, hit]
    rcases exitPhase_cases ⟨cfgD, probD h, .flt 0, .flt 0⟩ ![2, 0, 0, 0, 0] s' with e | e | e | e
    · rw [e.1]
      simp only [hg', Bool.false_eq_true, if_false]
      exact ⟨_, _, rfl, rfl, rfl⟩
    all_goals
      rw [e.1]
      exact ⟨_, _, rfl, rfl, rfl⟩
  obtain ⟨r, n, l1, l2, l3⟩ := hl
  refine ⟨(objD h).finish (probD h) r, s'.hist, _, _, y, ?_, ?_, k2, k3, k1⟩
  · have e : (objD h).cfg = cfgD := rfl
    simp only [QLaw.solve, objD, obj, EtaArg.valid, if_true, Option.map] at l1 ⊢
    rw [l1]
    simp only [l2]
  · simp only [QLaw.finish, l3]

/-- C115: the run of `Burn` with one short step backwards in time, disturbed by a third body, radiation pressure and
oblateness, ends close to a motion under the law and these forces that, in forward time, arrives at the initial state of
the run; the motion satisfies Newton's law -/
example : ∃ T > 0, ∃ γ sv, γ 0 = prob.oe0 ∧
    DisturbedMotion cfgD .keplerian ![2, 0, 0, 0, 0] ![1, 0, 0, 0, 0] (1 / 100) 1 (1 / 100) (-1) 1 T γ ∧
    FliesDisturbed cfgD .keplerian ![2, 0, 0, 0, 0] ![1, 0, 0, 0, 0] (1 / 100) 1 (1 / 100) (-1) 1 T γ sv ∧
    (∀ s ∈ Ioo 0 T, ∃ F, norm3 F = fullThrust (1 / 100) 1 (1 / 100) (-1 * s) ∧ NewtonAt 1 1 (fun j => F j +
        enabledSum samplePert [(1, "10")] sampleSpice (-1 * s) (svPos (sv (-1 * s))) j) sv (-1 * s)) ∧
    ∃ δ > 0, ∃ K, ∀ h, 0 < h → h < δ → h ≤ T → ∃ (Q' : QLaw ℝ) (H : Hist ℝ) (x : Fin 6 → ℝ),
      (objD h).solve (.flt 0) (.flt 0) 2 = some (Q', none) ∧ Q'.hist = some H ∧ H.times[1]? = some (-h) ∧
      H.states[1]? = some x ∧ (∀ i, |x i - γ h i| ≤ K * h) ∧
      ∀ cols c, Q'.getCartesianHistory = .ok cols → cols[1]? = some c → ∀ i, |c i - sv (-h) i| ≤ K * h := by
  have hopen : IsOpen ({x : Fin 6 → ℝ | CartOk .keplerian 1 x} ∩
      (fun x => norm3 (svPos (cartFormula .keplerian 1 x))) ⁻¹' Iio 2) := by
    refine ContinuousOn.isOpen_inter_preimage (fun x hx => ContinuousAt.continuousWithinAt ?_) (cartOk_open _ _) isOpen_Iio
    have hx : CartOk .keplerian 1 x := hx
    exact (norm3_c1 (sv_parts_c1 (cart_c1 hx)).1 (norm3_ne (cart_nonzero hx).1)).continuousAt
  have hbox : IsOpen {x : Fin 6 → ℝ | ∀ j : Fin 5, 0 < x j.castSucc ∧ x j.castSucc < 9} := by
    simp only [Set.ofPred_forall]
    refine isOpen_iInter_of_finite fun j => ?_
    exact (isOpen_lt continuous_const (continuous_apply _)).inter (isOpen_lt (continuous_apply _) continuous_const)
  obtain ⟨T, hT, γ, h0, hM, hS⟩ := C115_exists (C := cfgD) (et := .keplerian) (oeT := ![2, 0, 0, 0, 0])
    (woe := ![1, 0, 0, 0, 0]) (tmax := 1 / 100) (m0 := 1) (mdot := 1 / 100) (σ := -1) (g := 1) (x := prob.oe0) (Or.inr rfl)
    smooth_d ⟨1, by decide, burn_grad _ oe0_box⟩ (pert_d _) (hopen.inter hbox)
    ⟨⟨law_state smooth_d (fun h => by cases h), radius_d.trans_lt (by norm_num)⟩, burn_region.inside _ oe0_box⟩
    (by norm_num) (by norm_num)
  have hl : cfgD.elementsType = .keplerian → BoundsAre cfgD.oeMin (fun _ => (0 : ℝ)) ∧ BoundsAre cfgD.oeMax (fun _ => (9 : ℝ)) := by
    intro _; constructor <;> intro j <;> fin_cases j <;> rfl
  obtain ⟨sv, hF, δ, hδ, K, hK, hN⟩ := C115_newton (C := cfgD) (et := .keplerian) rfl rfl (Or.inr rfl) hl hM
    (fun s hs => ⟨(hS s hs).2.1, (fun h => by cases h), (hS s hs).2.2.1, fun _ => (hS s hs).2.2.2.2⟩) (by norm_num)
    (fun s hs => (hS s hs).1)
  obtain ⟨δ', hδ', K', hK', hL⟩ := C115_limit (C := cfgD) (et := .keplerian) rfl (Or.inr rfl) hl hM
    (fun s hs => ⟨(hS s hs).2.1, (hS s hs).2.2.1, fun _ => (hS s hs).2.2.2.2⟩) (by norm_num)
    (fun s hs => (hS s hs).1)
  obtain ⟨δ'', hδ'', hrun⟩ := run_d
  have hsv : ∀ s ∈ Icc 0 T, sv (-1 * s) = cartFormula .keplerian 1 (γ s) := fun s hs => by
    have := hF.image s hs
    have hk : cartOf .keplerian (γ s) cfgD.mu = .ok (cartFormula .keplerian 1 (γ s)) := cart_formula (hS s hs).2.2.2.1.1
    rw [hk] at this
    injection this with this
    exact this.symm
  refine ⟨T, hT, γ, sv, h0, hM, hF, ?_, min (min δ δ') δ'', by positivity, max K K', fun h hh hhd hhT => ?_⟩
  · refine C115_package (S := samplePert) (sp := sampleSpice) (bodies := [(1, "10")]) rfl rfl rfl rfl hF
      (fun s hs => (hS s hs).2.2.2.1.1) fun s hs b _ => ?_
    rw [body_d, hsv s hs]
    exact ⟨fun e => by have := congrFun e 0; simp at this, apart_d (hS s hs).2.2.2.1.2⟩
  · obtain ⟨Q', H, a, b, y, k1, k2, k3, k4, k5⟩ := hrun h hh (hhd.trans_le (min_le_right _ _))
    have hthr : BurnsUpTo (-1) H 1 h := by
      intro k hk
      obtain rfl : k = 0 := by omega
      exact ⟨a, b, 0, -h, by rw [k3]; rfl, by rw [k5]; rfl, by rw [k5]; rfl, by linarith, by linarith⟩
    have hTh : -1 * -h ≤ T := by linarith
    have e1 : K' * h ≤ max K K' * h := by gcongr; exact le_max_right _ _
    have e2 : K * h ≤ max K K' * h := by gcongr; exact le_max_left _ _
    refine ⟨Q', H, y, k1, k2, by rw [k5]; rfl, by rw [k4]; rfl, fun i => ?_, fun cols c hc1 hc2 i => ?_⟩
    · have := hL h hh (hhd.trans_le ((min_le_left _ _).trans (min_le_right _ _))) (objD h) Q' (probD h) (.flt 0) (.flt 0) 2 H
        rfl rfl (by simp [probD, prob]) rfl rfl rfl rfl h0.symm k1 k2 1 (-h) y (by rw [k5]; rfl) hTh (by rw [k4]; rfl) hthr i
      rw [neg_mul_neg, one_mul] at this
      exact this.trans e1
    · exact (hN h hh (hhd.trans_le ((min_le_left _ _).trans (min_le_left _ _))) (objD h) Q' (probD h) (.flt 0) (.flt 0) 2 H cols
        rfl rfl (by simp [probD, prob]) rfl rfl rfl rfl h0.symm k1 k2 hc1 1 (-h) c (by rw [k5]; rfl) hTh hc2 hthr i).trans e2

end Burn

end PyQ
