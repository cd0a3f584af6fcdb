import Verif.Props.GenRun
import Verif.Props.SwitchedNewton

/-!
C121: with its generated gradient the package flies the law of steepest descent under perturbations, backwards in time,
with a duty cycle and with Sundman steps: C116, C118, C119 and C120 for the generated functions.
-/

set_option linter.unusedSectionVars false
set_option maxRecDepth 100000

open Set Metric Topology

namespace PyQ

/-- `γ` and `μ` are state and mass of a motion under the generated law of the object with the thrust switched by `θ`: as in
C117, with the generated functions -/
def GenSwitched (C : Config ℝ) (oeT woe : Fin 5 → ℝ) (tmax mdot σ g T : ℝ) (θ : ℝ → Bool)
    (γ : ℝ → Fin 6 → ℝ) (μ : ℝ → ℝ) : Prop :=
  ContinuousOn γ (Icc 0 T) ∧ ContinuousOn μ (Icc 0 T) ∧
  ∀ s ∈ Icc 0 T, ∃ o v q, PerturbationIs C (σ * s) (γ s) q ∧
    lyapunovControlAngles C.dyn.lyapFun (callAt C oeT woe (σ * (tmax / μ s)) (γ s)) = .ok o ∧
    C.dyn.eom (σ * s) (γ s)
      { mu := C.mu, u := fun c => switchedThrust (θ s) (σ * (tmax / μ s)) * unitDir o.alpha o.beta c,
        psi0 := o.psi 0, psi1 := o.psi 1, psi2 := o.psi 2, ptrb := q } = .ok v ∧
    (s < T → HasDerivWithinAt γ ((σ * g) • v) (Ici s) s ∧
      HasDerivWithinAt μ (-switchedThrust (θ s) (mdot * σ)) (Ici s) s)

theorem genSwitched_law {C : Config ℝ} {et : ElemType} (hd : C.dyn = genDyn et) {oeT woe : Fin 5 → ℝ}
    {tmax mdot σ g T : ℝ} {θ : ℝ → Bool} {γ : ℝ → Fin 6 → ℝ} {μ : ℝ → ℝ} (hσ : σ = 1 ∨ σ = -1)
    (hS : ∀ t ∈ Icc 0 T, Regular et (unitCall C oeT woe (γ t))) (hT : 0 < tmax) (hm : ∀ t ∈ Icc 0 T, 0 < μ t) :
    GenSwitched C oeT woe tmax mdot σ g T θ γ μ ↔ SwitchedMotion C et oeT woe tmax mdot σ g T θ γ μ := by
  unfold GenSwitched SwitchedMotion
  refine and_congr_right fun _ => and_congr_right fun _ => forall₂_congr fun t ht => ?_
  have hm1 := hm t ht
  have hf : σ * (tmax / μ t) ≠ 0 := by
    have : 0 < tmax / μ t := by positivity
    rcases hσ with rfl | rfl
    · simpa using this.ne'
    · simpa using this.ne'
  have hr : Regular et (callAt C oeT woe (σ * (tmax / μ t)) (γ t)) := regular_f (hS t ht) hf
  have e1 := angles_congr (regular_agree hr).1.law
  have e2 := (same_motion et).1.eom
  rw [hd, e1, e2]

/-- `γ` is a motion under the generated law of the object, with continuous thrust: as in C115, with the generated functions -/
def GenDisturbed (C : Config ℝ) (oeT woe : Fin 5 → ℝ) (tmax m0 mdot σ g T : ℝ) (γ : ℝ → Fin 6 → ℝ) : Prop :=
  ∀ s ∈ Icc 0 T, ∃ o v q, PerturbationIs C (σ * s) (γ s) q ∧
    lyapunovControlAngles C.dyn.lyapFun (callAt C oeT woe (σ * fullThrust tmax m0 mdot (σ * s)) (γ s)) = .ok o ∧
    C.dyn.eom (σ * s) (γ s)
      { mu := C.mu, u := fun c => σ * fullThrust tmax m0 mdot (σ * s) * unitDir o.alpha o.beta c,
        psi0 := o.psi 0, psi1 := o.psi 1, psi2 := o.psi 2, ptrb := q } = .ok v ∧
    HasDerivWithinAt γ ((σ * g) • v) (Icc 0 T) s

theorem genDisturbed_law {C : Config ℝ} {et : ElemType} (hd : C.dyn = genDyn et) {oeT woe : Fin 5 → ℝ}
    {tmax m0 mdot σ g T : ℝ} {γ : ℝ → Fin 6 → ℝ} (hσ : σ = 1 ∨ σ = -1)
    (hS : ∀ t ∈ Icc 0 T, Regular et (unitCall C oeT woe (γ t))) (hT : 0 < tmax)
    (hm : ∀ s ∈ Icc 0 T, 0 < m0 - mdot * (σ * s)) :
    GenDisturbed C oeT woe tmax m0 mdot σ g T γ ↔ DisturbedMotion C et oeT woe tmax m0 mdot σ g T γ := by
  unfold GenDisturbed DisturbedMotion
  refine forall₂_congr fun t ht => ?_
  have hm1 := hm t ht
  have hf : σ * fullThrust tmax m0 mdot (σ * t) ≠ 0 := by
    have : 0 < fullThrust tmax m0 mdot (σ * t) := by unfold fullThrust; positivity
    rcases hσ with rfl | rfl
    · simpa using this.ne'
    · simpa using this.ne'
  have hr : Regular et (callAt C oeT woe (σ * fullThrust tmax m0 mdot (σ * t)) (γ t)) := regular_f (hS t ht) hf
  have e1 := angles_congr (regular_agree hr).1.law
  have e2 := (same_motion et).1.eom
  rw [hd, e1, e2]

/-- a tube of regular states around a continuous curve -/
theorem regular_tube_of {C : Config ℝ} {et : ElemType} {oeT woe : Fin 5 → ℝ} {T : ℝ} {γ : ℝ → Fin 6 → ℝ}
    (hc : ContinuousOn γ (Icc 0 T)) (hS : ∀ t ∈ Icc 0 T, Regular et (unitCall C oeT woe (γ t))) :
    ∃ ρ > 0, ∀ t ∈ Icc 0 T, ∀ x, (∀ i, |x i - γ t i| < ρ) → Regular et (unitCall C oeT woe x) := by
  obtain ⟨ρ, hρ, ho⟩ := tube_open hc (regular_open et C oeT woe) hS
  refine ⟨ρ, hρ, fun t ht x hx => ho t ht (mem_ball.2 ?_)⟩
  rw [dist_pi_lt_iff hρ]
  exact hx

theorem regular_ecc {et : ElemType} {A : LyapArgs ℝ} (H : Regular et A) :
    0 < A.mu ∧ 0 < A.oe 0 ∧ 0 ≤ eccOf et A.oe ∧ eccOf et A.oe < 1 := by
  cases et with
  | keplerian =>
    have K : KepRegular A := H
    exact ⟨K.mu, K.a, K.e0.le, K.e1⟩
  | meeWithA =>
    have K : MeeRegular A := H
    refine ⟨K.mu, K.a, Real.sqrt_nonneg _, ?_⟩
    have := Real.sqrt_lt_sqrt K.ecc0.le K.ecc
    rwa [Real.sqrt_one] at this

section run
variable [PyNan ℝ]

/-- at a regular state neither a fixed nor a Sundman step is zero -/
theorem regular_step {C : Config ℝ} {et : ElemType} (hE : C.useSundman = true → C.elementsType = et) {oeT woe : Fin 5 → ℝ}
    {x : Fin 6 → ℝ} (H : Regular et (unitCall C oeT woe x)) {P : Problem ℝ} (h0 : P.tStep ≠ 0)
    (hpos : C.useSundman = true → 0 < P.tStep) {st : ℝ} (hst : chooseStep C P x = .ok st) : st ≠ 0 := by
  cases hs : C.useSundman with
  | false =>
    unfold chooseStep at hst
    rw [hs] at hst
    have h1 : P.tStep = st := by simpa [pure, Except.pure] using hst
    rwa [← h1]
  | true =>
    obtain ⟨r1, r2, r3, r4⟩ := regular_ecc H
    have hh := hpos hs
    obtain ⟨E, hE⟩ := sundman_choose (hE hs) hs (P := P) (x := x) r3 r4 hh
    rw [hst] at hE
    injection hE with hE
    rw [hE]
    exact (timeOfFlight_pos r2 r1 r3 r4 E hh).ne'

/-- a run of the ideal law near a motion is a run of the generated law -/
theorem near_gen {C : Config ℝ} {et : ElemType} (hd : C.dyn = genDyn et) (hE : C.useSundman = true → C.elementsType = et)
    {oeT woe : Fin 5 → ℝ} {Q Q' : QLaw ℝ} {P : Problem ℝ} {ea er : ℝ} {fuel : ℕ} {H : Hist ℝ}
    (hC : Q.cfg = C) (hP : Q.prob = some P) (hready : Q.ready = true) (hoe : P.oeT = List.ofFn oeT) (hw : P.woe = woe)
    (hT : 0 < P.tmax) (h0 : P.tStep ≠ 0) (hpos : C.useSundman = true → 0 < P.tStep)
    (hsol : ({ Q with cfg := C.withDyn (dynOf et) } : QLaw ℝ).solve (.flt ea) (.flt er) fuel = some (Q', none))
    (hH : Q'.hist = some H)
    (hx : ∀ (k : ℕ) (x : Fin 6 → ℝ) (m : ℝ), H.states[k]? = some x → H.masses[k]? = some m →
      Regular et (unitCall C oeT woe x) ∧ 0 < m) :
    Q.solve (.flt ea) (.flt er) fuel = some ({ Q' with cfg := C }, none) := by
  have hR : RegularRun et (C.withDyn (dynOf et)) P oeT H := by
    intro k x m hk hkm
    obtain ⟨h1, h2⟩ := hx k x m hk hkm
    refine ⟨?_, fun st hst => regular_step (C := C) hE h1 h0 hpos hst⟩
    rw [hw]
    exact regular_f h1 (div_pos hT h2).ne'
  have := (C114_same_run (Q := { Q with cfg := C.withDyn (dynOf et) }) hP hready rfl hoe hsol hH hR).2 rfl
  have e1 : ((C.withDyn (dynOf et)).withDyn (genDyn et)) = C := by
    show ({ C with dyn := genDyn et } : Config ℝ) = C
    rw [← hd]
  have e2 : Q'.cfg = C.withDyn (dynOf et) := (solve_prob' (P := P) hsol hP hH).2
  simp only [e1, e2] at this
  have e3 : ({ Q with cfg := C } : QLaw ℝ) = Q := by rw [← hC]
  rwa [e3] at this

/-- the Cartesian history does not depend on the law -/
theorem cartesian_law {C : Config ℝ} {et : ElemType} {Q' : QLaw ℝ} (h : Q'.cfg = C.withDyn (dynOf et)) :
    ({ Q' with cfg := C } : QLaw ℝ).getCartesianHistory = Q'.getCartesianHistory := by
  have : ∀ (D : Config ℝ) (H : Option (Hist ℝ)), D.elementsType = C.elementsType → D.mu = C.mu →
      ({ Q' with cfg := D, hist := H } : QLaw ℝ).getCartesianHistory =
        ({ Q' with cfg := C, hist := H } : QLaw ℝ).getCartesianHistory := by
    intro D H a b
    simp only [QLaw.getCartesianHistory, QLaw.histories, toCartesian, a, b]
  exact (this Q'.cfg Q'.hist (by rw [h]; rfl) (by rw [h]; rfl)).symm

theorem duty_ideal {C : Config ℝ} {et : ElemType} {oeT woe : Fin 5 → ℝ} {tmax m0 mdot on off ml h T : ℝ} {x0 : Fin 6 → ℝ}
    {Q : QLaw ℝ} {P : Problem ℝ} (hQ : StartsDuty C oeT woe tmax m0 mdot on off ml h T x0 Q P) :
    StartsDuty (C.withDyn (dynOf et)) oeT woe tmax m0 mdot on off ml h T x0
      ({ Q with cfg := C.withDyn (dynOf et) } : QLaw ℝ) P :=
  ⟨rfl, hQ.prob, hQ.ready, hQ.fresh, hQ.target, hQ.weights, hQ.thrust, hQ.startMass, hQ.massRate, hQ.start, hQ.step,
    hQ.dutyOn, hQ.dutyOff, hQ.battery, hQ.massMin⟩

theorem run_ideal {C : Config ℝ} {et : ElemType} {oeT woe : Fin 5 → ℝ} {tmax m0 mdot σ h T : ℝ} {x0 : Fin 6 → ℝ}
    {Q : QLaw ℝ} {P : Problem ℝ} (hQ : StartsRun C oeT woe tmax m0 mdot σ h T x0 Q P) :
    StartsRun (C.withDyn (dynOf et)) oeT woe tmax m0 mdot σ h T x0
      ({ Q with cfg := C.withDyn (dynOf et) } : QLaw ℝ) P :=
  ⟨rfl, hQ.prob, hQ.ready, hQ.fresh, hQ.target, hQ.weights, hQ.thrust, hQ.startMass, hQ.massRate, hQ.start, hQ.step,
    hQ.thrusts, hQ.massLeft, hQ.battery⟩

/-- a continuous positive mass on a compact interval has a positive lower bound -/
theorem mass_floor {T : ℝ} {μ : ℝ → ℝ} (hc : ContinuousOn μ (Icc 0 T)) (hm : ∀ s ∈ Icc 0 T, 0 < μ s) :
    ∃ b > 0, ∀ s ∈ Icc 0 T, b ≤ μ s := by
  rcases (Icc (0 : ℝ) T).eq_empty_or_nonempty with h | h
  · exact ⟨1, one_pos, fun s hs => by rw [h] at hs; exact absurd hs (notMem_empty s)⟩
  · obtain ⟨s, hs, hmin⟩ := isCompact_Icc.exists_isMinOn h hc
    exact ⟨μ s, hm s hs, fun t ht => hmin ht⟩

/-- times that begin at 0 and grow stay between 0 and the last one -/
theorem spaced_mem {B T : ℝ} (hB : 0 < B) {n : ℕ} {τ : ℕ → ℝ} (h0 : τ 0 = 0) (h : ∀ k < n, B ≤ τ (k + 1) - τ k)
    (hn : τ n ≤ T) : ∀ k ≤ n, τ k ∈ Icc 0 T := fun k hk => by
  have hgap : ∀ k < n, τ k + B ≤ τ (k + 1) := fun k hk => by linarith [h k hk]
  have e1 := spaced_le hgap (Nat.zero_le k) hk
  have e2 := spaced_le hgap hk le_rfl
  have p1 : (0 : ℝ) ≤ (k - 0 : ℕ) * B := by positivity
  have p2 : (0 : ℝ) ≤ (n - k : ℕ) * B := by positivity
  exact ⟨by linarith, by linarith⟩

section duty
variable (hnan : ∀ x : ℝ, PyNan.isnan x = false) {C : Config ℝ} {et : ElemType} (hd : C.dyn = genDyn et)
  (hE : C.elementsType = et) (hi : C.integrator = .rk4) (hrp : 0 < C.rpmin)
  {oeT woe l u : Fin 5 → ℝ} {tmax mdot on off ml T : ℝ} {γ : ℝ → Fin 6 → ℝ} {μ : ℝ → ℝ}
  (hl : C.elementsType = .keplerian → BoundsAre C.oeMin l ∧ BoundsAre C.oeMax u)
  (hon : 0 < on) (hoff : 0 < off)
  (hM : GenSwitched C oeT woe tmax mdot 1 (gain C.integrator) T (dutySchedule on off) γ μ)
  (hS : ∀ s ∈ Icc 0 T, Regular et (unitCall C oeT woe (γ s)) ∧ (et = .meeWithA → γ s 1 ≠ 0) ∧ PertSmooth C 1 s (γ s) ∧
    (C.elementsType = .keplerian → ∀ j : Fin 5, l j < γ s j.castSucc ∧ γ s j.castSucc < u j))
  (hT0 : 0 < T) (hT : 0 < tmax) (hm : ∀ s ∈ Icc 0 T, 0 < μ s ∧ ml < μ s)

/-- the conditions under which the ideal law is followed, a tube of regular states and a step length below which states
and masses within `K h` of the motion are in it and positive -/
theorem gen_setting (hd : C.dyn = genDyn et) (hrp : 0 < C.rpmin)
    (hM : GenSwitched C oeT woe tmax mdot 1 (gain C.integrator) T (dutySchedule on off) γ μ)
    (hS : ∀ s ∈ Icc 0 T, Regular et (unitCall C oeT woe (γ s)) ∧ (et = .meeWithA → γ s 1 ≠ 0) ∧ PertSmooth C 1 s (γ s) ∧
      (C.elementsType = .keplerian → ∀ j : Fin 5, l j < γ s j.castSucc ∧ γ s j.castSucc < u j))
    (hT : 0 < tmax) (hm : ∀ s ∈ Icc 0 T, 0 < μ s ∧ ml < μ s) :
    SwitchedMotion (C.withDyn (dynOf et)) et oeT woe tmax mdot 1 (gain C.integrator) T (dutySchedule on off) γ μ ∧
    (∀ s ∈ Icc 0 T, LawSmooth et (unitCall (C.withDyn (dynOf et)) oeT woe (γ s)) ∧ PertSmooth (C.withDyn (dynOf et)) 1 s (γ s) ∧
      ((C.withDyn (dynOf et)).elementsType = .keplerian → ∀ j : Fin 5, l j < γ s j.castSucc ∧ γ s j.castSucc < u j)) ∧
    ∀ K ≥ 0, ∃ δ > 0, ∀ h, 0 < h → h < δ → ∀ s ∈ Icc 0 T, ∀ (x : Fin 6 → ℝ) (m : ℝ),
      (∀ i, |x i - γ s i| ≤ K * h) ∧ |m - μ s| ≤ K * h → Regular et (unitCall C oeT woe x) ∧ 0 < m := by
  have hM' := (genSwitched_law hd (Or.inl rfl) (fun t ht => (hS t ht).1) hT fun s hs => (hm s hs).1).1 hM
  obtain ⟨ρ, hρ, htube⟩ := regular_tube_of hM.1 fun t ht => (hS t ht).1
  obtain ⟨b, hb, hmb⟩ := mass_floor hM.2.1 fun s hs => (hm s hs).1
  refine ⟨hM', fun s hs => ⟨regular_smooth (hS s hs).1 hrp (hS s hs).2.1, (hS s hs).2.2.1, (hS s hs).2.2.2⟩,
    fun K hK => ⟨min ρ b / (K + 1), by positivity, fun h hh hhd s hs x m hx => ?_⟩⟩
  have h1 : K * h < min ρ b := by
    rw [lt_div_iff₀ (by positivity)] at hhd
    nlinarith
  have h2 := h1.trans_le (min_le_left _ _)
  have h3 := h1.trans_le (min_le_right _ _)
  refine ⟨htube s hs x fun i => (hx.1 i).trans_lt h2, ?_⟩
  have := hmb s hs
  have := (abs_le.1 hx.2).1
  linarith

include hnan hd hE hi hrp hl hon hoff hM hS hT0 hT hm

/-- **C121.** C118 for the generated functions: where the switched motion under the generated law is regular, runs with this
duty cycle and short fixed steps return without exception, follow the cycle, stay within `K h` of the motion, and converge
or reach the time limit. -/
theorem C121_duty (hsun : C.useSundman = false) :
    ∃ δ > 0, ∃ K ≥ 0, ∀ h, 0 < h → h < δ → ∀ (Q : QLaw ℝ) (P : Problem ℝ) (ea er : ℝ) (fuel : ℕ),
    ea ≤ 0 → er ≤ 0 → StartsDuty C oeT woe tmax (μ 0) mdot on off ml h T (γ 0) Q P → P.tfMax ≠ 0 → |P.tfMax| + h ≤ T →
    |P.tfMax| / h + 2 ≤ fuel →
    ∃ Q' H n, Q.solve (.flt ea) (.flt er) fuel = some (Q', none) ∧ Q'.hist = some H ∧
      H.times = (List.range (n + 1)).map (fun k : ℕ => (k : ℝ) * h) ∧ (n : ℝ) * h < |P.tfMax| + h ∧
      H.states.length = n + 1 ∧ H.masses.length = n + 1 ∧ H.controls.length = n ∧
      (∀ k c, H.controls[k]? = some c →
        c.2.2 = if k % (⌊on / h⌋₊ + 1 + (⌊off / h⌋₊ + 1)) < ⌊on / h⌋₊ + 1 then 1 else 0) ∧
      (∀ (k : ℕ) (x : Fin 6 → ℝ) (m : ℝ), H.states[k]? = some x → H.masses[k]? = some m →
        (∀ i, |x i - γ (k * h) i| ≤ K * h) ∧ |m - μ (k * h)| ≤ K * h) ∧
      ((Q'.exitcode = 1 ∨ Q'.exitcode = 2) ∧ Q'.converge = true ∨
        Q'.exitcode = -2 ∧ Q'.converge = false ∧ |P.tfMax| ≤ n * h) := by
  obtain ⟨hM', hS', hgen⟩ := gen_setting hd hrp hM hS hT hm
  obtain ⟨δ, hδ, K, hK, hrun⟩ := C118_completes (C := C.withDyn (dynOf et)) hnan rfl hsun hi hl hon hoff hM' hS' hT0 hT hm
  obtain ⟨δ2, hδ2, hgen⟩ := hgen K hK
  refine ⟨min δ δ2, by positivity, K, hK, ?_⟩
  intro h hh hhδ Q P ea er fuel hea her hQ htf htfT hfuel
  obtain ⟨Q', H, n, g1, g2, g3, g4, g5, g6, g7, g8, g9, g10⟩ :=
    hrun h hh (hhδ.trans_le (min_le_left _ _)) _ P ea er fuel hea her (duty_ideal hQ) htf htfT hfuel
  refine ⟨_, H, n, near_gen hd (fun _ => hE) hQ.cfg hQ.prob hQ.ready hQ.target hQ.weights (by rw [hQ.thrust]; exact hT)
    (by rw [hQ.step]; exact hh.ne') (fun _ => by rw [hQ.step]; exact hh) g1 g2 (fun k x m hx hm => ?_),
    g2, g3, g4, g5, g6, g7, g8, g9, g10⟩
  have hk : k ≤ n := by
    have := (List.getElem?_eq_some_iff.1 hx).1
    omega
  have hk' : (k : ℝ) ≤ n := by exact_mod_cast hk
  exact hgen h hh (hhδ.trans_le (min_le_right _ _)) (k * h) ⟨by positivity, by nlinarith⟩ x m (g9 k x m hx hm)

/-- **C121.** C118 for the generated functions: if the switched motion is strictly inside the tolerances at a time `tc`,
every short-step run returns with `converge` set and exit code 1 or 2, at the latest one step after `tc`. -/
theorem C121_duty_reaches (hsun : C.useSundman = false) {tc : ℝ} (htc : 0 ≤ tc) (htcT : tc < T)
    (hin : StrictlyInside et oeT woe C.tolOe (γ tc)) :
    ∃ δ > 0, ∃ K ≥ 0, ∀ h, 0 < h → h < δ → ∀ (Q : QLaw ℝ) (P : Problem ℝ) (ea er : ℝ) (fuel : ℕ),
    ea ≤ 0 → er ≤ 0 → StartsDuty C oeT woe tmax (μ 0) mdot on off ml h T (γ 0) Q P → P.tfMax ≠ 0 → tc ≤ |P.tfMax| →
    tc / h + 2 ≤ fuel →
    ∃ Q' H n, Q.solve (.flt ea) (.flt er) fuel = some (Q', none) ∧ Q'.hist = some H ∧
      Q'.converge = true ∧ (Q'.exitcode = 1 ∨ Q'.exitcode = 2) ∧
      H.times = (List.range (n + 1)).map (fun k : ℕ => (k : ℝ) * h) ∧ (n : ℝ) * h ≤ tc + h ∧
      H.states.length = n + 1 ∧ H.masses.length = n + 1 ∧
      (∀ (k : ℕ) (x : Fin 6 → ℝ) (m : ℝ), H.states[k]? = some x → H.masses[k]? = some m →
        (∀ i, |x i - γ (k * h) i| ≤ K * h) ∧ |m - μ (k * h)| ≤ K * h) := by
  obtain ⟨hM', hS', hgen⟩ := gen_setting hd hrp hM hS hT hm
  obtain ⟨δ, hδ, K, hK, hrun⟩ := C118_reaches (C := C.withDyn (dynOf et)) hnan rfl hsun hi hl hon hoff hM' hS' hT0 hT hm
    htc htcT hin
  obtain ⟨δ2, hδ2, hgen⟩ := hgen K hK
  have hTc : 0 < T - tc := by linarith
  refine ⟨min δ (min δ2 (T - tc)), by positivity, K, hK, ?_⟩
  intro h hh hhδ Q P ea er fuel hea her hQ htf htfT hfuel
  have hh3 : h < T - tc := hhδ.trans_le ((min_le_right _ _).trans (min_le_right _ _))
  obtain ⟨Q', H, n, g1, g2, g3, g4, g5, g6, g7, g8, g9, g10⟩ :=
    hrun h hh (hhδ.trans_le (min_le_left _ _)) _ P ea er fuel hea her (duty_ideal hQ) htf htfT hfuel
  refine ⟨_, H, n, near_gen hd (fun _ => hE) hQ.cfg hQ.prob hQ.ready hQ.target hQ.weights (by rw [hQ.thrust]; exact hT)
    (by rw [hQ.step]; exact hh.ne') (fun _ => by rw [hQ.step]; exact hh) g1 g2 (fun k x m hx hm => ?_),
    g2, g3, g4, g5, g6, g7, g8, g10⟩
  have hk : k ≤ n := by
    have := (List.getElem?_eq_some_iff.1 hx).1
    omega
  have hk' : (k : ℝ) ≤ n := by exact_mod_cast hk
  exact hgen h hh (hhδ.trans_le ((min_le_right _ _).trans (min_le_left _ _))) (k * h) ⟨by positivity, by nlinarith⟩ x m
    (g10 k x m hx hm)

/-- **C121.** C119 for the generated functions: the same with Sundman steps. -/
theorem C121_sundman (hsun : C.useSundman = true) :
    ∃ δ > 0, ∃ K ≥ 0, ∃ A > 0, ∃ B > 0, ∃ N : ℕ, ∀ h, 0 < h → h < δ →
    ∀ (Q : QLaw ℝ) (P : Problem ℝ) (ea er : ℝ) (fuel : ℕ),
    ea ≤ 0 → er ≤ 0 → StartsDuty C oeT woe tmax (μ 0) mdot on off ml h T (γ 0) Q P → P.tfMax ≠ 0 →
    |P.tfMax| + A * h ≤ T → |P.tfMax| / (B * h) + 2 ≤ fuel →
    ∃ Q' H n τ, Q.solve (.flt ea) (.flt er) fuel = some (Q', none) ∧ Q'.hist = some H ∧
      H.times = (List.range (n + 1)).map τ ∧ τ 0 = 0 ∧ (∀ k < n, B * h ≤ τ (k + 1) - τ k ∧ τ (k + 1) - τ k ≤ A * h) ∧
      τ n ≤ |P.tfMax| + A * h ∧
      H.states.length = n + 1 ∧ H.masses.length = n + 1 ∧ H.controls.length = n ∧
      SwitchesUpTo 1 (dutySchedule on off) H n N (A * h) ∧
      (∀ (k : ℕ) (x : Fin 6 → ℝ) (m : ℝ), H.states[k]? = some x → H.masses[k]? = some m →
        (∀ i, |x i - γ (τ k) i| ≤ K * h) ∧ |m - μ (τ k)| ≤ K * h) ∧
      ((Q'.exitcode = 1 ∨ Q'.exitcode = 2) ∧ Q'.converge = true ∨
        Q'.exitcode = -2 ∧ Q'.converge = false ∧ |P.tfMax| ≤ τ n) := by
  obtain ⟨hM', hS', hgen⟩ := gen_setting hd hrp hM hS hT hm
  obtain ⟨δ, hδ, K, hK, A, hA, B, hB, N, hrun⟩ := C119_completes (C := C.withDyn (dynOf et)) hnan rfl hE hsun hi hl hon hoff
    hM' hS' hT0 hT hm
  obtain ⟨δ2, hδ2, hgen⟩ := hgen K hK
  refine ⟨min δ δ2, by positivity, K, hK, A, hA, B, hB, N, ?_⟩
  intro h hh hhδ Q P ea er fuel hea her hQ htf htfT hfuel
  obtain ⟨Q', H, n, τ, g1, g2, g3, g4, g5, g6, g7, g8, g9, g10, g11, g12⟩ :=
    hrun h hh (hhδ.trans_le (min_le_left _ _)) _ P ea er fuel hea her (duty_ideal hQ) htf htfT hfuel
  refine ⟨_, H, n, τ, near_gen hd (fun _ => hE) hQ.cfg hQ.prob hQ.ready hQ.target hQ.weights (by rw [hQ.thrust]; exact hT)
    (by rw [hQ.step]; exact hh.ne') (fun _ => by rw [hQ.step]; exact hh) g1 g2 (fun k x m hx hm => ?_),
    g2, g3, g4, g5, g6, g7, g8, g9, g10, g11, g12⟩
  have hk : k ≤ n := by
    have := (List.getElem?_eq_some_iff.1 hx).1
    omega
  exact hgen h hh (hhδ.trans_le (min_le_right _ _)) (τ k) (spaced_mem (by positivity) g4 (fun k hk => (g5 k hk).1) (g6.trans htfT) k hk)
    x m (g11 k x m hx hm)

/-- **C121.** C119 for the generated functions: with Sundman steps too, short-step runs converge at the latest one step
after the motion is strictly inside the tolerances. -/
theorem C121_sundman_reaches (hsun : C.useSundman = true) {tc : ℝ} (htc : 0 < tc) (htcT : tc < T)
    (hin : StrictlyInside et oeT woe C.tolOe (γ tc)) :
    ∃ δ > 0, ∃ K ≥ 0, ∃ A > 0, ∃ B > 0, ∀ h, 0 < h → h < δ → ∀ (Q : QLaw ℝ) (P : Problem ℝ) (ea er : ℝ) (fuel : ℕ),
    ea ≤ 0 → er ≤ 0 → StartsDuty C oeT woe tmax (μ 0) mdot on off ml h T (γ 0) Q P → tc ≤ |P.tfMax| →
    tc / (B * h) + 2 ≤ fuel →
    ∃ Q' H n τ, Q.solve (.flt ea) (.flt er) fuel = some (Q', none) ∧ Q'.hist = some H ∧
      Q'.converge = true ∧ (Q'.exitcode = 1 ∨ Q'.exitcode = 2) ∧
      H.times = (List.range (n + 1)).map τ ∧ τ 0 = 0 ∧ (∀ k < n, B * h ≤ τ (k + 1) - τ k ∧ τ (k + 1) - τ k ≤ A * h) ∧
      τ n ≤ tc + A * h ∧
      H.states.length = n + 1 ∧ H.masses.length = n + 1 ∧
      (∀ (k : ℕ) (x : Fin 6 → ℝ) (m : ℝ), H.states[k]? = some x → H.masses[k]? = some m →
        (∀ i, |x i - γ (τ k) i| ≤ K * h) ∧ |m - μ (τ k)| ≤ K * h) := by
  obtain ⟨hM', hS', hgen⟩ := gen_setting hd hrp hM hS hT hm
  obtain ⟨δ, hδ, K, hK, A, hA, B, hB, hrun⟩ := C119_reaches (C := C.withDyn (dynOf et)) hnan rfl hE hsun hi hl hon hoff
    hM' hS' hT0 hT hm htc htcT hin
  obtain ⟨δ2, hδ2, hgen⟩ := hgen K hK
  have hTc : 0 < T - tc := by linarith
  refine ⟨min δ (min δ2 ((T - tc) / A)), by positivity, K, hK, A, hA, B, hB, ?_⟩
  intro h hh hhδ Q P ea er fuel hea her hQ htfT hfuel
  have hh3 : A * h < T - tc := by
    have := hhδ.trans_le ((min_le_right _ _).trans (min_le_right _ _))
    rw [lt_div_iff₀ hA] at this
    linarith
  obtain ⟨Q', H, n, τ, g1, g2, g3, g4, g5, g6, g7, g8, g9, g10, g11⟩ :=
    hrun h hh (hhδ.trans_le (min_le_left _ _)) _ P ea er fuel hea her (duty_ideal hQ) htfT hfuel
  refine ⟨_, H, n, τ, near_gen hd (fun _ => hE) hQ.cfg hQ.prob hQ.ready hQ.target hQ.weights (by rw [hQ.thrust]; exact hT)
    (by rw [hQ.step]; exact hh.ne') (fun _ => by rw [hQ.step]; exact hh) g1 g2 (fun k x m hx hm => ?_),
    g2, g3, g4, g5, g6, g7, g8, g9, g10, g11⟩
  have hk : k ≤ n := by
    have := (List.getElem?_eq_some_iff.1 hx).1
    omega
  exact hgen h hh (hhδ.trans_le ((min_le_right _ _).trans (min_le_left _ _))) (τ k)
    (spaced_mem (by positivity) g6 (fun k hk => (g7 k hk).1) (by linarith) k hk) x m (g11 k x m hx hm)

/-- **C121.** C120 for the generated functions: the Cartesian histories of short-step runs with a duty cycle are within
`K h` of a trajectory that obeys Newton's law with the perturbations and, exactly while the schedule is on, the thrust of
the law of steepest descent; with fixed steps and with Sundman steps. -/
theorem C121_newton (hN : ∀ t ∈ Icc 0 T, NewtonRegion et (γ t)) :
    ∃ sv, FliesSwitched C et oeT woe tmax 1 (gain C.integrator) T (dutySchedule on off) γ μ sv ∧
    ∃ δ > 0, ∃ K ≥ 0, ∃ A > 0, ∃ B > 0, ∀ h, 0 < h → h < δ → ∀ (Q : QLaw ℝ) (P : Problem ℝ) (ea er : ℝ) (fuel : ℕ),
    ea ≤ 0 → er ≤ 0 → StartsDuty C oeT woe tmax (μ 0) mdot on off ml h T (γ 0) Q P → P.tfMax ≠ 0 →
    |P.tfMax| + A * h ≤ T → |P.tfMax| / (B * h) + 2 ≤ fuel →
    ∃ Q' H cols, Q.solve (.flt ea) (.flt er) fuel = some (Q', none) ∧ Q'.hist = some H ∧
      Q'.getCartesianHistory = .ok cols ∧ cols.length = H.times.length ∧
      (∀ (k : ℕ) (t : ℝ) (c : Fin 6 → ℝ), H.times[k]? = some t → cols[k]? = some c →
        t ∈ Icc 0 T ∧ ∀ i, |c i - sv t i| ≤ K * h) ∧
      (Q'.converge = true ∨ ∃ t, H.times.getLast? = some t ∧ |P.tfMax| ≤ t) := by
  obtain ⟨hM', hS', -⟩ := gen_setting hd hrp hM hS hT hm
  have hS1 : ∀ t ∈ Icc 0 T, LawSmooth et (unitCall (C.withDyn (dynOf et)) oeT woe (γ t)) ∧ NewtonRegion et (γ t) :=
    fun t ht => ⟨(hS' t ht).1, hN t ht⟩
  have hfly := switched_flies (C := C.withDyn (dynOf et)) (Or.inl rfl) hM' hS1 hT (fun s hs => (hm s hs).1)
  obtain ⟨L, hL, ρ, hρ, htube⟩ := cart_tube (mu := C.mu) hM.1 (fun t ht => law_state (hS1 t ht).1 (hS1 t ht).2)
  refine ⟨_, ⟨hfly.1, hfly.2, hfly.3⟩, ?_⟩
  -- the Cartesian history of a run that is close to the motion
  have main : ∀ K ≥ 0, ∀ h, 0 < h → K * h < ρ → ∀ (Q Q' : QLaw ℝ) (P : Problem ℝ) (ea er : ℝ) (fuel : ℕ) (H : Hist ℝ) (n : ℕ) (τ : ℕ → ℝ),
      Q.cfg = C → Q.prob = some P → Q.solve (.flt ea) (.flt er) fuel = some (Q', none) → Q'.hist = some H →
      H.times = (List.range (n + 1)).map τ → H.states.length = n + 1 → H.masses.length = n + 1 → (∀ k ≤ n, τ k ∈ Icc 0 T) →
      (∀ (k : ℕ) (x : Fin 6 → ℝ) (m : ℝ), H.states[k]? = some x → H.masses[k]? = some m →
        (∀ i, |x i - γ (τ k) i| ≤ K * h) ∧ |m - μ (τ k)| ≤ K * h) →
      ∃ cols, Q'.getCartesianHistory = .ok cols ∧ cols.length = H.times.length ∧
        (∀ (k : ℕ) (t : ℝ) (c : Fin 6 → ℝ), H.times[k]? = some t → cols[k]? = some c →
          t ∈ Icc 0 T ∧ ∀ i, |c i - cartFormula et C.mu (γ t) i| ≤ L * K * h) ∧ H.times.getLast? = some (τ n) := by
    intro K hK h hh hKh Q Q' P ea er fuel H n τ q1 q2 q3 q4 q5 q6 q7 q8 q9
    obtain ⟨cols, c1, c2, c3⟩ := cols_follow htube hE (by positivity) hKh q1 q2 q3 q4 (τ := τ) q6 q7 q8
      (fun k x m hx hm => (q9 k x m hx hm).1)
    refine ⟨cols, c1, by rw [c2, q5]; simp, fun k t c hk hc => ?_, ?_⟩
    · have hk' : k < n + 1 := by
        have := (List.getElem?_eq_some_iff.1 hk).1
        rw [q5] at this
        simpa using this
      have ht : t = τ k := by
        rw [q5, List.getElem?_map, List.getElem?_range hk'] at hk
        simpa using hk.symm
      rw [ht]
      exact ⟨q8 k (by omega), c3 k c hc⟩
    · rw [q5, List.getLast?_eq_getElem?]
      simp
  cases hsun : C.useSundman with
  | false =>
    obtain ⟨δ, hδ, K, hK, hrun⟩ := C121_duty hnan hd hE hi hrp hl hon hoff hM hS hT0 hT hm hsun
    refine ⟨min δ (ρ / (K + 1)), by positivity, L * K, by positivity, 1, one_pos, 1, one_pos, ?_⟩
    intro h hh hhδ Q P ea er fuel hea her hQ htf htfT hfuel
    rw [one_mul] at htfT hfuel
    have hh2 : K * h < ρ := by
      have := hhδ.trans_le (min_le_right _ _)
      rw [lt_div_iff₀ (by positivity)] at this
      nlinarith
    obtain ⟨Q', H, n, g1, g2, g3, g4, g5, g6, g7, g8, g9, g10⟩ :=
      hrun h hh (hhδ.trans_le (min_le_left _ _)) Q P ea er fuel hea her hQ htf htfT hfuel
    obtain ⟨cols, c1, c2, c3, c4⟩ := main K hK h hh hh2 Q Q' P ea er fuel H n _ hQ.cfg hQ.prob g1 g2 g3 g5 g6 (fun k hk => by
      have hk' : (k : ℝ) ≤ n := by exact_mod_cast hk
      exact ⟨by positivity, by nlinarith⟩) g9
    refine ⟨Q', H, cols, g1, g2, c1, c2, c3, ?_⟩
    rcases g10 with ⟨-, g⟩ | ⟨-, -, g⟩
    · exact Or.inl g
    · exact Or.inr ⟨_, c4, g⟩
  | true =>
    obtain ⟨δ, hδ, K, hK, A, hA, B, hB, N, hrun⟩ := C121_sundman hnan hd hE hi hrp hl hon hoff hM hS hT0 hT hm hsun
    refine ⟨min δ (ρ / (K + 1)), by positivity, L * K, by positivity, A, hA, B, hB, ?_⟩
    intro h hh hhδ Q P ea er fuel hea her hQ htf htfT hfuel
    have hh2 : K * h < ρ := by
      have := hhδ.trans_le (min_le_right _ _)
      rw [lt_div_iff₀ (by positivity)] at this
      nlinarith
    obtain ⟨Q', H, n, τ, g1, g2, g3, g4, g5, g6, g7, g8, g9, g10, g11, g12⟩ :=
      hrun h hh (hhδ.trans_le (min_le_left _ _)) Q P ea er fuel hea her hQ htf htfT hfuel
    obtain ⟨cols, c1, c2, c3, c4⟩ := main K hK h hh hh2 Q Q' P ea er fuel H n τ hQ.cfg hQ.prob g1 g2 g3 g7 g8
      (spaced_mem (by positivity) g4 (fun k hk => (g5 k hk).1) (g6.trans htfT)) g11
    refine ⟨Q', H, cols, g1, g2, c1, c2, c3, ?_⟩
    rcases g12 with ⟨-, g⟩ | ⟨-, -, g⟩
    · exact Or.inl g
    · exact Or.inr ⟨_, c4, g⟩

end duty

section disturbed
variable (hnan : ∀ x : ℝ, PyNan.isnan x = false) {C : Config ℝ} {et : ElemType} (hd : C.dyn = genDyn et)
  (hsun : C.useSundman = false) (hrp : 0 < C.rpmin)
  {oeT woe l u : Fin 5 → ℝ} {tmax m0 mdot σ T : ℝ} (hσ : σ = 1 ∨ σ = -1) {γ : ℝ → Fin 6 → ℝ}
  (hl : C.elementsType = .keplerian → BoundsAre C.oeMin l ∧ BoundsAre C.oeMax u)
  (hM : GenDisturbed C oeT woe tmax m0 mdot σ (gain C.integrator) T γ)
  (hS : ∀ s ∈ Icc 0 T, Regular et (unitCall C oeT woe (γ s)) ∧ (et = .meeWithA → γ s 1 ≠ 0) ∧ PertSmooth C σ s (γ s) ∧
    (C.elementsType = .keplerian → ∀ j : Fin 5, l j < γ s j.castSucc ∧ γ s j.castSucc < u j))
  (hR : C.integrator = .rkf45 → ∀ s ∈ Icc 0 T, ∃ j : Fin 5, derivWithin γ (Icc 0 T) s j.castSucc ≠ 0)
  (hT0 : 0 < T) (hT : 0 < tmax) (hm : ∀ s ∈ Icc 0 T, 0 < m0 - mdot * (σ * s))

/-- a thrusting run of the ideal law near the motion is a run of the generated law -/
theorem near_disturbed (hd : C.dyn = genDyn et) (hsun : C.useSundman = false) (hσ : σ = 1 ∨ σ = -1) (hT : 0 < tmax)
    (hm : ∀ s ∈ Icc 0 T, 0 < m0 - mdot * (σ * s)) {ρ K h : ℝ}
    (htube : ∀ t ∈ Icc 0 T, ∀ x, (∀ i, |x i - γ t i| < ρ) → Regular et (unitCall C oeT woe x)) (hh : 0 < h) (hKh : K * h < ρ)
    {Q Q' : QLaw ℝ} {P : Problem ℝ} {ea er : ℝ} {fuel : ℕ} {H : Hist ℝ} {n : ℕ}
    (hQ : StartsRun C oeT woe tmax m0 mdot σ h T (γ 0) Q P)
    (hsol : ({ Q with cfg := C.withDyn (dynOf et) } : QLaw ℝ).solve (.flt ea) (.flt er) fuel = some (Q', none))
    (hH : Q'.hist = some H) (htm : H.times = (List.range (n + 1)).map fun k : ℕ => σ * ((k : ℝ) * h)) (hnT : (n : ℝ) * h ≤ T)
    (hc : ∀ c ∈ H.controls, c.2.2 = 1)
    (hx : ∀ (k : ℕ) (x : Fin 6 → ℝ), H.states[k]? = some x → ∀ i, |x i - γ (k * h) i| ≤ K * h) :
    Q.solve (.flt ea) (.flt er) fuel = some ({ Q' with cfg := C }, none) := by
  have al := C01_histories_aligned hsol
  obtain ⟨H1, P1, P1', N, g1, g2, -, al, -⟩ := al
  rw [hH] at g1; injection g1 with g1; subst g1
  have hlen : H.times.length = n + 1 := by rw [htm]; simp
  have hstep0 : P.tStep ≠ 0 := by
    rw [hQ.step]
    rcases hσ with rfl | rfl
    · simpa using hh.ne'
    · simpa using hh.ne'
  refine near_gen hd (fun h => by rw [hsun] at h; cases h) hQ.cfg hQ.prob hQ.ready hQ.target hQ.weights
    (by rw [hQ.thrust]; exact hT) hstep0 (fun h => by rw [hsun] at h; cases h) hsol hH fun k x m hk hkm => ?_
  have hkn : k ≤ n := by
    have h1 := (List.getElem?_eq_some_iff.1 hk).1
    rw [al.states, ← al.times, hlen] at h1
    omega
  have hkT : (k : ℝ) * h ∈ Icc 0 T := by
    have : (k : ℝ) ≤ n := by exact_mod_cast hkn
    exact ⟨by positivity, by nlinarith⟩
  have htk : H.times[k]? = some (σ * ((k : ℝ) * h)) := by
    rw [htm, List.getElem?_map, List.getElem?_range (by omega)]; rfl
  have hmass : m = P.mass0 - P.mdot * (σ * (k * h)) := by
    refine mass_stretch hsol (P := P) hQ.prob hH (n := k) (fun j hj => ?_) k le_rfl _ _ htk hkm
    have hjl : j < H.controls.length := by
      have h1 := al.controls
      have h2 := al.times
      omega
    refine ⟨H.controls[j].1, H.controls[j].2.1, ?_⟩
    rw [List.getElem?_eq_getElem hjl]
    have := hc _ (List.getElem_mem hjl)
    rw [← this]
  refine ⟨htube _ hkT x fun i => (hx k x hk i).trans_lt hKh, ?_⟩
  rw [hmass, hQ.startMass, hQ.massRate]
  exact hm _ hkT

include hnan hd hsun hrp hσ hl hM hS hR hT0 hT hm

/-- **C121.** C116 for the generated functions: perturbed runs, forward and backward, with short steps complete and follow
the motion under the generated law. -/
theorem C121_disturbed : ∃ δ > 0, ∃ K ≥ 0, ∀ h, 0 < h → h < δ → ∀ (Q : QLaw ℝ) (P : Problem ℝ) (ea er : ℝ) (fuel : ℕ),
    ea ≤ 0 → er ≤ 0 → StartsRun C oeT woe tmax m0 mdot σ h T (γ 0) Q P → P.tfMax ≠ 0 → |P.tfMax| + h ≤ T →
    |P.tfMax| / h + 2 ≤ fuel →
    ∃ Q' H n, Q.solve (.flt ea) (.flt er) fuel = some (Q', none) ∧ Q'.hist = some H ∧
      H.times = (List.range (n + 1)).map (fun k : ℕ => σ * ((k : ℝ) * h)) ∧ (n : ℝ) * h < |P.tfMax| + h ∧
      H.states.length = n + 1 ∧ H.controls.length = n ∧ (∀ c ∈ H.controls, c.2.2 = 1) ∧
      (∀ (k : ℕ) (x : Fin 6 → ℝ), H.states[k]? = some x → ∀ i, |x i - γ (k * h) i| ≤ K * h) ∧
      ((Q'.exitcode = 1 ∨ Q'.exitcode = 2) ∧ Q'.converge = true ∨
        Q'.exitcode = -2 ∧ Q'.converge = false ∧ |P.tfMax| ≤ n * h) := by
  have hM' := (genDisturbed_law hd hσ (fun t ht => (hS t ht).1) hT hm).1 hM
  have hcont : ContinuousOn γ (Icc 0 T) := fun t ht => by
    obtain ⟨o, v, q, -, -, -, h3⟩ := hM t ht
    exact h3.continuousWithinAt
  obtain ⟨ρ, hρ, htube⟩ := regular_tube_of hcont fun t ht => (hS t ht).1
  obtain ⟨δ, hδ, K, hK, hrun⟩ := C116_completes (C := C.withDyn (dynOf et)) (et := et) hnan rfl hsun hσ hl hM'
    (fun t ht => ⟨regular_smooth (hS t ht).1 hrp (hS t ht).2.1, (hS t ht).2.2⟩) hR hT0 hT hm
  refine ⟨min δ (ρ / (K + 1)), by positivity, K, hK, ?_⟩
  intro h hh hhδ Q P ea er fuel hea her hQ htf htfT hfuel
  have hh2 : K * h < ρ := by
    have := hhδ.trans_le (min_le_right _ _)
    rw [lt_div_iff₀ (by positivity)] at this
    nlinarith
  obtain ⟨Q', H, n, g1, g2, g3, g4, g5, g6, g7, g8, g9⟩ :=
    hrun h hh (hhδ.trans_le (min_le_left _ _)) _ P ea er fuel hea her (run_ideal hQ) htf htfT hfuel
  exact ⟨_, H, n, near_disturbed hd hsun hσ hT hm htube hh hh2 hQ g1 g2 g3 (by linarith) g7 g8,
    g2, g3, g4, g5, g6, g7, g8, g9⟩

/-- **C121.** C116 for the generated functions: perturbed runs, forward and backward, converge at the latest one step after
the motion is strictly inside the tolerances. -/
theorem C121_disturbed_reaches {tc : ℝ} (htc : 0 ≤ tc) (htcT : tc < T) (hin : StrictlyInside et oeT woe C.tolOe (γ tc)) :
    ∃ δ > 0, ∃ K ≥ 0, ∀ h, 0 < h → h < δ → ∀ (Q : QLaw ℝ) (P : Problem ℝ) (ea er : ℝ) (fuel : ℕ),
    ea ≤ 0 → er ≤ 0 → StartsRun C oeT woe tmax m0 mdot σ h T (γ 0) Q P → P.tfMax ≠ 0 → tc ≤ |P.tfMax| →
    tc / h + 2 ≤ fuel →
    ∃ Q' H n, Q.solve (.flt ea) (.flt er) fuel = some (Q', none) ∧ Q'.hist = some H ∧
      Q'.converge = true ∧ (Q'.exitcode = 1 ∨ Q'.exitcode = 2) ∧
      H.times = (List.range (n + 1)).map (fun k : ℕ => σ * ((k : ℝ) * h)) ∧ (n : ℝ) * h ≤ tc + h ∧
      H.states.length = n + 1 ∧ (∀ c ∈ H.controls, c.2.2 = 1) ∧
      ∀ (k : ℕ) (x : Fin 6 → ℝ), H.states[k]? = some x → ∀ i, |x i - γ (k * h) i| ≤ K * h := by
  have hM' := (genDisturbed_law hd hσ (fun t ht => (hS t ht).1) hT hm).1 hM
  have hcont : ContinuousOn γ (Icc 0 T) := fun t ht => by
    obtain ⟨o, v, q, -, -, -, h3⟩ := hM t ht
    exact h3.continuousWithinAt
  obtain ⟨ρ, hρ, htube⟩ := regular_tube_of hcont fun t ht => (hS t ht).1
  obtain ⟨δ, hδ, K, hK, hrun⟩ := C116_reaches (C := C.withDyn (dynOf et)) (et := et) hnan rfl hsun hσ hl hM'
    (fun t ht => ⟨regular_smooth (hS t ht).1 hrp (hS t ht).2.1, (hS t ht).2.2⟩) hR hT0 hT hm htc htcT hin
  have hTc : 0 < T - tc := by linarith
  refine ⟨min δ (min (T - tc) (ρ / (K + 1))), by positivity, K, hK, ?_⟩
  intro h hh hhδ Q P ea er fuel hea her hQ htf htfT hfuel
  have hh3 : h < T - tc := hhδ.trans_le ((min_le_right _ _).trans (min_le_left _ _))
  have hh2 : K * h < ρ := by
    have := hhδ.trans_le ((min_le_right _ _).trans (min_le_right _ _))
    rw [lt_div_iff₀ (by positivity)] at this
    nlinarith
  obtain ⟨Q', H, n, g1, g2, g3, g4, g5, g6, g7, g8, g9⟩ :=
    hrun h hh (hhδ.trans_le (min_le_left _ _)) _ P ea er fuel hea her (run_ideal hQ) htf htfT hfuel
  exact ⟨_, H, n, near_disturbed hd hsun hσ hT hm htube hh hh2 hQ g1 g2 g5 (by linarith) g8 g9,
    g2, g3, g4, g5, g6, g7, g8, g9⟩

/-- **C121.** C116 for the generated functions: their Cartesian histories are within `K h` of a trajectory obeying Newton's
law with the perturbations and the thrust of the law of steepest descent. -/
theorem C121_disturbed_newton (hE : C.elementsType = et) (hN : ∀ t ∈ Icc 0 T, NewtonRegion et (γ t)) :
    ∃ sv, FliesDisturbed C et oeT woe tmax m0 mdot σ (gain C.integrator) T γ sv ∧
      ∃ δ > 0, ∃ K ≥ 0, ∀ h, 0 < h → h < δ → ∀ (Q : QLaw ℝ) (P : Problem ℝ) (ea er : ℝ) (fuel : ℕ),
      ea ≤ 0 → er ≤ 0 → StartsRun C oeT woe tmax m0 mdot σ h T (γ 0) Q P → P.tfMax ≠ 0 → |P.tfMax| + h ≤ T →
      |P.tfMax| / h + 2 ≤ fuel →
      ∃ Q' cols n, Q.solve (.flt ea) (.flt er) fuel = some (Q', none) ∧ Q'.getCartesianHistory = .ok cols ∧
        cols.length = n + 1 ∧ (n : ℝ) * h < |P.tfMax| + h ∧
        (∀ (k : ℕ) (c : Fin 6 → ℝ), cols[k]? = some c → ∀ i, |c i - sv (σ * (k * h)) i| ≤ K * h) ∧
        (Q'.converge = true ∨ |P.tfMax| ≤ n * h) := by
  have hM' := (genDisturbed_law hd hσ (fun t ht => (hS t ht).1) hT hm).1 hM
  have hcont : ContinuousOn γ (Icc 0 T) := fun t ht => by
    obtain ⟨o, v, q, -, -, -, h3⟩ := hM t ht
    exact h3.continuousWithinAt
  obtain ⟨ρ, hρ, htube⟩ := regular_tube_of hcont fun t ht => (hS t ht).1
  have hsm := fun t ht => regular_smooth (hS t ht).1 hrp (hS t ht).2.1
  obtain ⟨δ, hδ, K, hK, hrun⟩ := C116_completes (C := C.withDyn (dynOf et)) (et := et) hnan rfl hsun hσ hl hM'
    (fun t ht => ⟨hsm t ht, (hS t ht).2.2⟩) hR hT0 hT hm
  obtain ⟨sv, hsv, δ2, hδ2, K2, hK2, hrun2⟩ := C116_newton (C := C.withDyn (dynOf et)) (et := et) hnan rfl hE hsun hσ hl hM'
    (fun t ht => ⟨hsm t ht, hN t ht, (hS t ht).2.2⟩) hR hT0 hT hm
  refine ⟨sv, ⟨hsv.image, hsv.newton⟩, min δ2 (min δ (ρ / (K + 1))), by positivity, K2, hK2, ?_⟩
  intro h hh hhδ Q P ea er fuel hea her hQ htf htfT hfuel
  have hh2 : K * h < ρ := by
    have := hhδ.trans_le ((min_le_right _ _).trans (min_le_right _ _))
    rw [lt_div_iff₀ (by positivity)] at this
    nlinarith
  obtain ⟨Q', H, n, g1, g2, g3, g4, g5, g6, g7, g8, g9⟩ :=
    hrun h hh (hhδ.trans_le ((min_le_right _ _).trans (min_le_left _ _))) _ P ea er fuel hea her (run_ideal hQ) htf htfT hfuel
  obtain ⟨Q2, cols, n2, k1, k2, k3, k4, k5, k6⟩ :=
    hrun2 h hh (hhδ.trans_le (min_le_left _ _)) _ P ea er fuel hea her (run_ideal hQ) htf htfT hfuel
  rw [g1] at k1
  injection k1 with k1
  obtain rfl : Q' = Q2 := congrArg Prod.fst k1
  refine ⟨_, cols, n2, near_disturbed hd hsun hσ hT hm htube hh hh2 hQ g1 g2 g3 (by linarith) g7 g8, ?_, k3, k4, k5, k6⟩
  rw [← k2]
  exact cartesian_law (solve_prob' (P := P) g1 hQ.prob g2).2

end disturbed

end run

/-- **C121, existence.** From every regular state at which thrust can change `Q` there is a duration for which every schedule
with finitely many switches has a regular motion under the generated law, inside any given open set around the state. -/
theorem C121_exists {C : Config ℝ} {et : ElemType} (hd : C.dyn = genDyn et) (hrp : 0 < C.rpmin) {oeT woe : Fin 5 → ℝ}
    {tmax m0 ml mdot σ g : ℝ} {x : Fin 6 → ℝ} (hσ : σ = 1 ∨ σ = -1) (H : Regular et (unitCall C oeT woe x))
    (hf : et = .meeWithA → x 1 ≠ 0)
    (hg : ∃ c : Fin 3, c ≠ 2 ∧ ∑ j : Fin 5, candPsi et (unitCall C oeT woe x) c j *
      partialQ (candQ et) (unitCall C oeT woe x) j ≠ 0)
    (hp : PertSmooth C σ 0 x) {U : Set (Fin 6 → ℝ)} (hU : IsOpen U) (hxU : x ∈ U) (hT : 0 < tmax) (hm : 0 < m0)
    (hml : ml < m0) :
    ∃ T > 0, ∀ θ : ℝ → Bool, PiecewiseConst θ T → ∃ γ μ, γ 0 = x ∧ μ 0 = m0 ∧
      GenSwitched C oeT woe tmax mdot σ g T θ γ μ ∧
      ∀ s ∈ Icc 0 T, 0 < μ s ∧ ml < μ s ∧ Regular et (unitCall C oeT woe (γ s)) ∧ (et = .meeWithA → γ s 1 ≠ 0) ∧
        PertSmooth C σ s (γ s) ∧ γ s ∈ U := by
  have hU2 : IsOpen {y : Fin 6 → ℝ | et = .meeWithA → y 1 ≠ 0} := by
    by_cases h : et = .meeWithA
    · simp only [h, true_imp_iff]
      exact isOpen_ne_fun (continuous_apply _) continuous_const
    · simp [h]
  obtain ⟨T, hT0, hex⟩ := C117_exists (C := C) (et := et) (mdot := mdot) (g := g) hσ (regular_smooth H hrp hf) hg hp
    ((hU.inter hU2).inter (regular_open et C oeT woe)) ⟨⟨hxU, hf⟩, H⟩ hT hm hml
  refine ⟨T, hT0, fun θ hθ => ?_⟩
  obtain ⟨γ, μ, h0, h1, h2, h3⟩ := hex θ hθ
  exact ⟨γ, μ, h0, h1, (genSwitched_law hd hσ (fun t ht => (h3 t ht).2.2.2.2.2) hT fun t ht => (h3 t ht).1).2 h2,
    fun s hs => ⟨(h3 s hs).1, (h3 s hs).2.1, (h3 s hs).2.2.2.2.2, (h3 s hs).2.2.2.2.1.2, (h3 s hs).2.2.2.1,
      (h3 s hs).2.2.2.2.1.1⟩⟩

/-! ### A run with everything switched on -/

namespace Burn
open CoastSample

/-- the Keplerian sample with generated functions, third body, radiation pressure, oblateness and Sundman steps or not -/
noncomputable def cfgG (sun : Bool) (τ : ℝ) : Config ℝ := { (cfgDTol τ).withDyn (genDyn .keplerian) with useSundman := sun }

noncomputable def objG (sun : Bool) (τ h T tf : ℝ) : QLaw ℝ :=
  { cfg := cfgG sun τ, prob := some (probC h T tf), ready := true, converge := false, exitcode := 0, hist := none }

theorem starts_G (sun : Bool) (τ h T tf : ℝ) :
    StartsDuty (cfgG sun τ) ![2, 0, 0, 0, 0] ![1, 0, 0, 0, 0] (1 / 100) 1 (1 / 10) (T / 5) (T / 7) 0 h T prob.oe0
      (objG sun τ h T tf) (probC h T tf) :=
  have hst := starts_C τ h T tf
  ⟨rfl, hst.prob, hst.ready, hst.fresh, hst.target, hst.weights, hst.thrust, hst.startMass, hst.massRate,
    hst.start, hst.step, hst.dutyOn, hst.dutyOff, hst.battery, hst.massMin⟩

theorem regular_d : Regular .keplerian (unitCall (cfgG true 1) ![2, 0, 0, 0, 0] ![1, 0, 0, 0, 0] prob.oe0) := by
  have hpi := Real.pi_gt_three
  have b : ∀ j : Fin 5, 0 < prob.oe0 j.castSucc ∧ prob.oe0 j.castSucc < 3 / 2 := by
    intro j; fin_cases j <;> simp [prob] <;> norm_num
  have K : KepSmooth (unitCall cfgD ![2, 0, 0, 0, 0] ![1, 0, 0, 0, 0] prob.oe0) := smooth_d.1
  have hs : ∀ x : ℝ, 0 < x → x < 3 / 2 → Real.sin x ≠ 0 := fun x h1 h2 =>
    (Real.sin_pos_of_pos_of_lt_pi h1 (by linarith)).ne'
  have hc : ∀ x : ℝ, 0 < x → x < 3 / 2 → Real.cos x ≠ 0 := fun x h1 h2 =>
    (Real.cos_pos_of_mem_Ioo ⟨by linarith, by linarith⟩).ne'
  refine ⟨K.mu, K.f, K.a, K.e0, K.e1, K.i0, K.i1, hc _ (b 2).1 (b 2).2, hs _ (b 4).1 (b 4).2, hc _ (b 4).1 (b 4).2,
    K.aT, K.m, ?_, K.b, ?_, ?_, Or.inl (Or.inr ⟨2, ?_⟩), ?_, ?_⟩
  · show (1 : ℝ) ≠ 0
    norm_num
  · show (cfg false).rpmin ≠ 0
    simp [cfg]
  · show prob.oe0 0 ≠ 2
    intro h
    have : prob.oe0 0 < 3 / 2 := (b 0).2
    linarith
  · show (4 : ℝ) = 2 * (2 : ℕ)
    norm_num
  · show Real.sin (prob.oe0 3 - 0) ≠ 0
    rw [sub_zero]
    exact hs _ (b 3).1 (b 3).2
  · show Real.sin (prob.oe0 4 - 0) ≠ 0
    rw [sub_zero]
    exact hs _ (b 4).1 (b 4).2

/-- C121: from the initial state of `Burn` there is a motion under the generated law with the package's perturbations
whose thrust is switched off and on; with fixed or Sundman steps, runs of the generated law with this duty cycle
complete, their Cartesian history follows a trajectory under Newton's law, and with a tolerance just above the distance
of the motion from the target at half time they converge by then -/
example : ∃ T > 0, ∃ γ μ, γ 0 = prob.oe0 ∧ μ 0 = 1 ∧
    GenSwitched (cfgG true 1) ![2, 0, 0, 0, 0] ![1, 0, 0, 0, 0] (1 / 100) (1 / 10) 1 1 T (dutySchedule (T / 5) (T / 7)) γ μ ∧
    ∀ sun τ, (∃ sv, FliesSwitched (cfgG sun τ) .keplerian ![2, 0, 0, 0, 0] ![1, 0, 0, 0, 0] (1 / 100) 1 1 T
        (dutySchedule (T / 5) (T / 7)) γ μ sv ∧
      ∃ δ > 0, ∃ K, ∃ B > 0, ∀ h, 0 < h → h < δ → ∀ fuel : ℕ, T / 2 / (B * h) + 2 ≤ fuel → ∃ Q' H cols,
        (objG sun τ h T (T / 2)).solve (.flt 0) (.flt 0) fuel = some (Q', none) ∧ Q'.hist = some H ∧
        Q'.getCartesianHistory = .ok cols ∧ cols ≠ [] ∧
        ∀ (k : ℕ) (t : ℝ) (c : Fin 6 → ℝ), H.times[k]? = some t → cols[k]? = some c → ∀ i, |c i - sv t i| ≤ K * h) ∧
      (|2 - γ (T / 2) 0| < τ → ∃ δ > 0, ∃ B > 0, ∀ h, 0 < h → h < δ → ∀ fuel : ℕ, T / 2 / (B * h) + 2 ≤ fuel → ∃ Q',
        (objG sun τ h T T).solve (.flt 0) (.flt 0) fuel = some (Q', none) ∧ Q'.converge = true) := by
  have hbox : IsOpen {x : Fin 6 → ℝ | ∀ j : Fin 5, 0 < x j.castSucc ∧ x j.castSucc < 9} := by
    simp only [Set.ofPred_forall]
    refine isOpen_iInter_of_finite fun j => ?_
    exact (isOpen_lt continuous_const (continuous_apply _)).inter (isOpen_lt (continuous_apply _) continuous_const)
  obtain ⟨T, hT, hex⟩ := C121_exists (C := cfgG true 1) (et := .keplerian) rfl (by simp [cfgG, Config.withDyn, cfgDTol, cfgD, cfg])
    (tmax := 1 / 100) (m0 := 1) (ml := 0) (mdot := 1 / 10) (σ := 1) (g := 1) (Or.inl rfl) regular_d (fun h => by cases h)
    ⟨1, by decide, burn_grad _ oe0_box⟩ (pert_d _) hbox (burn_region.inside _ oe0_box) (by norm_num) (by norm_num) (by norm_num)
  have hon : 0 < T / 5 := by positivity
  have hoff : 0 < T / 7 := by positivity
  obtain ⟨γ, μ, h0, h0', hM, hS⟩ := hex _ (dutySchedule_piecewise hon hoff hT.le)
  have hbd : ∀ sun τ, (cfgG sun τ).elementsType = .keplerian →
      BoundsAre (cfgG sun τ).oeMin (fun _ => (0 : ℝ)) ∧ BoundsAre (cfgG sun τ).oeMax (fun _ => (9 : ℝ)) := by
    intro sun τ _; constructor <;> intro j <;> fin_cases j <;> rfl
  have hm : ∀ s ∈ Icc 0 T, 0 < μ s ∧ 0 < μ s := fun s hs => ⟨(hS s hs).1, (hS s hs).1⟩
  have hS' : ∀ sun τ, ∀ s ∈ Icc 0 T, Regular .keplerian (unitCall (cfgG sun τ) ![2, 0, 0, 0, 0] ![1, 0, 0, 0, 0] (γ s)) ∧
      (ElemType.keplerian = .meeWithA → γ s 1 ≠ 0) ∧ PertSmooth (cfgG sun τ) 1 s (γ s) ∧
      ((cfgG sun τ).elementsType = .keplerian → ∀ j : Fin 5, 0 < γ s j.castSucc ∧ γ s j.castSucc < 9) := fun sun τ s hs =>
    ⟨(hS s hs).2.2.1, (fun h => by cases h), (hS s hs).2.2.2.2.1, fun _ => (hS s hs).2.2.2.2.2⟩
  have hrp : ∀ sun τ, 0 < (cfgG sun τ).rpmin := fun sun τ => by simp [cfgG, Config.withDyn, cfgDTol, cfgD, cfg]
  have etf : ∀ h, |(probC h T (T / 2)).tfMax| = T / 2 := fun h => abs_of_pos (show 0 < T / 2 by positivity)
  have etf0 : ∀ h, (probC h T (T / 2)).tfMax ≠ 0 := fun h => by simp only [probC]; linarith
  have etf1 : ∀ h, |(probC h T T).tfMax| = T := fun h => abs_of_pos (show 0 < T by positivity)
  refine ⟨T, hT, γ, μ, h0, h0', hM, fun sun τ => ⟨?_, fun hτ => ?_⟩⟩
  · obtain ⟨sv, hF, δ, hδ, K, hK, A, hA, B, hB, hrun⟩ := C121_newton (C := cfgG sun τ) (et := .keplerian) (fun _ => rfl) rfl rfl rfl
      (hrp sun τ) (hbd sun τ) hon hoff hM (hS' sun τ) hT (by norm_num) hm (fun t ht h => by cases h)
    refine ⟨sv, hF, min δ (T / 2 / A), by positivity, K, B, hB, fun h hh hhd fuel hf => ?_⟩
    have e2 : h * A < T / 2 := by
      have := hhd.trans_le (min_le_right _ _)
      rwa [lt_div_iff₀ hA] at this
    obtain ⟨Q', H, cols, k1, k2, k3, k4, k5, -⟩ := hrun h hh (hhd.trans_le (min_le_left _ _))
      (objG sun τ h T (T / 2)) (probC h T (T / 2)) 0 0 fuel le_rfl le_rfl (by rw [h0, h0']; exact starts_G _ _ _ _ _) (etf0 h)
      (by rw [etf]; linarith) (by rw [etf]; exact hf)
    refine ⟨Q', H, cols, k1, k2, k3, fun h0 => ?_, fun k t c ht hc => (k5 k t c ht hc).2⟩
    obtain ⟨H1, P1, P1', N, g1, g2, -, al, -⟩ := C01_histories_aligned k1
    rw [k2] at g1; injection g1 with g1; subst g1
    have := al.times
    rw [← k4, h0] at this
    simp at this
  · have hin : StrictlyInside .keplerian ![2, 0, 0, 0, 0] ![1, 0, 0, 0, 0] (cfgG sun τ).tolOe (γ (T / 2)) := by
      intro j
      fin_cases j
      · right; exact ⟨0, Or.inl rfl, by simpa [cfgG, cfgDTol, Config.withDyn] using hτ⟩
      all_goals (left; rfl)
    cases sun with
    | false =>
      obtain ⟨δ, hδ, K, hK, hrun⟩ := C121_duty_reaches (C := cfgG false τ) (et := .keplerian) (fun _ => rfl) rfl rfl rfl
        (hrp false τ) (hbd false τ) hon hoff hM (hS' false τ) hT (by norm_num) hm rfl (tc := T / 2) (by linarith) (by linarith) hin
      refine ⟨δ, hδ, 1, one_pos, fun h hh hhd fuel hf => ?_⟩
      rw [one_mul] at hf
      obtain ⟨Q', H, n, k1, -, k2, -⟩ := hrun h hh hhd (objG false τ h T T) (probC h T T) 0 0 fuel le_rfl le_rfl
        (by rw [h0, h0']; exact starts_G _ _ _ _ _) (by simp only [probC]; linarith) (by rw [etf1]; linarith) hf
      exact ⟨Q', k1, k2⟩
    | true =>
      obtain ⟨δ, hδ, K, hK, A, hA, B, hB, hrun⟩ := C121_sundman_reaches (C := cfgG true τ) (et := .keplerian) (fun _ => rfl) rfl rfl rfl
        (hrp true τ) (hbd true τ) hon hoff hM (hS' true τ) hT (by norm_num) hm rfl (tc := T / 2) (by linarith) (by linarith) hin
      refine ⟨δ, hδ, B, hB, fun h hh hhd fuel hf => ?_⟩
      obtain ⟨Q', H, n, τ', k1, -, k2, -⟩ := hrun h hh hhd (objG true τ h T T) (probC h T T) 0 0 fuel le_rfl le_rfl
        (by rw [h0, h0']; exact starts_G _ _ _ _ _) (by rw [etf1]; linarith) hf
      exact ⟨Q', k1, k2⟩

end Burn

end PyQ
