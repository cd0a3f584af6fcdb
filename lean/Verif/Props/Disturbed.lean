import Verif.Proofs.Signed

/-!
C115: with perturbations and backwards in time, the recorded states still tend to the continuous motion.
-/

set_option linter.unusedSectionVars false
set_option maxRecDepth 100000

open Set Metric Topology

namespace PyQ

/-- the acceleration left at time `t` by a thruster that has burnt continuously since time zero (before time zero: that
burns continuously until time zero) -/
noncomputable def fullThrust (tmax m0 mdot t : ℝ) : ℝ := tmax / (m0 - mdot * t)

/-- `γ s` is the state at time `σ s` of a motion under the law, at `g` times the true speed: the law is called with the
acceleration `σ` times the available one, its direction times this acceleration and the perturbing acceleration of the
object at this time and state drive the equations of motion, and time runs in direction `σ`. -/
def DisturbedMotion (C : Config ℝ) (et : ElemType) (oeT woe : Fin 5 → ℝ)
    (tmax m0 mdot σ g T : ℝ) (γ : ℝ → Fin 6 → ℝ) : Prop :=
  ∀ s ∈ Icc 0 T, ∃ o v q, PerturbationIs C (σ * s) (γ s) q ∧
    lyapunovControlAngles (dynOf (α := ℝ) et).lyapFun
      (callAt C oeT woe (σ * fullThrust tmax m0 mdot (σ * s)) (γ s)) = .ok o ∧
    (dynOf (α := ℝ) et).eom (σ * s) (γ s)
      { mu := C.mu, u := fun c => σ * fullThrust tmax m0 mdot (σ * s) * unitDir o.alpha o.beta c,
        psi0 := o.psi 0, psi1 := o.psi 1, psi2 := o.psi 2, ptrb := q } = .ok v ∧
    HasDerivWithinAt γ ((σ * g) • v) (Icc 0 T) s

/-- the perturbing acceleration of the object does not raise near time `σ s` and state `x`, and is a continuously
differentiable function of both -/
def PertSmooth (C : Config ℝ) (σ s : ℝ) (x : Fin 6 → ℝ) : Prop :=
  ∃ p : ℝ × (Fin 6 → ℝ) → Fin 3 → ℝ, ContDiffAt ℝ 1 p (s, x) ∧
    ∀ᶠ y in 𝓝 (s, x), PerturbationIs C (σ * y.1) y.2 (p y)

/-- the perturbing acceleration of the object, zero where it raises -/
noncomputable def pertOf (C : Config ℝ) (t : ℝ) (x : Fin 6 → ℝ) : Fin 3 → ℝ :=
  match C.perturbations with
  | none => 0
  | some f => match f t x C.elementsType with
    | .ok q => q
    | .error _ => 0

theorem pertOf_eq {C : Config ℝ} {t : ℝ} {x : Fin 6 → ℝ} {q : Fin 3 → ℝ} (h : PerturbationIs C t x q) : q = pertOf C t x := by
  cases hc : C.perturbations with
  | none =>
    simp only [PerturbationIs, hc] at h
    simp only [pertOf, hc, h]
    funext i; fin_cases i <;> simp
  | some f =>
    simp only [PerturbationIs, hc] at h
    simp only [pertOf, hc, h]

theorem pert_c1 {C : Config ℝ} {σ s : ℝ} {x : Fin 6 → ℝ} (h : PertSmooth C σ s x) :
    ContDiffAt ℝ 1 (fun y : ℝ × (Fin 6 → ℝ) => pertOf C (σ * y.1) y.2) (s, x) := by
  obtain ⟨p, h1, h2⟩ := h
  exact h1.congr_of_eventuallyEq (h2.mono fun y hy => (pertOf_eq hy).symm)

theorem pertSmooth_none {C : Config ℝ} (h : C.perturbations = none) (σ s : ℝ) (x : Fin 6 → ℝ) : PertSmooth C σ s x := by
  refine ⟨fun _ => 0, contDiffAt_const, Filter.Eventually.of_forall fun y => ?_⟩
  simp only [PerturbationIs, h]
  funext i; fin_cases i <;> simp

/-- the same in terms of a given field `p` of perturbing accelerations -/
def FieldMotion (C : Config ℝ) (et : ElemType) (oeT woe : Fin 5 → ℝ) (p : ℝ → (Fin 6 → ℝ) → Fin 3 → ℝ)
    (tmax m0 mdot σ g T : ℝ) (γ : ℝ → Fin 6 → ℝ) : Prop :=
  ∀ s ∈ Icc 0 T, ∃ o v,
    lyapunovControlAngles (dynOf (α := ℝ) et).lyapFun
      (callAt C oeT woe (σ * fullThrust tmax m0 mdot (σ * s)) (γ s)) = .ok o ∧
    (dynOf (α := ℝ) et).eom (σ * s) (γ s)
      { mu := C.mu, u := fun c => σ * fullThrust tmax m0 mdot (σ * s) * unitDir o.alpha o.beta c,
        psi0 := o.psi 0, psi1 := o.psi 1, psi2 := o.psi 2, ptrb := p (σ * s) (γ s) } = .ok v ∧
    HasDerivWithinAt γ ((σ * g) • v) (Icc 0 T) s

theorem disturbed_field {C : Config ℝ} {et : ElemType} {oeT woe : Fin 5 → ℝ} {tmax m0 mdot σ g T : ℝ} {γ : ℝ → Fin 6 → ℝ}
    (h : DisturbedMotion C et oeT woe tmax m0 mdot σ g T γ) : FieldMotion C et oeT woe (pertOf C) tmax m0 mdot σ g T γ := by
  intro s hs
  obtain ⟨o, v, q, h0, h1, h2, h3⟩ := h s hs
  rw [pertOf_eq h0] at h2
  exact ⟨o, v, h1, h2, h3⟩

/-- without perturbations and forward in time these are the motions of C107 -/
theorem disturbed_law {C : Config ℝ} (hp : C.perturbations = none) {et : ElemType} {oeT woe : Fin 5 → ℝ}
    {tmax m0 mdot g T : ℝ} {γ : ℝ → Fin 6 → ℝ} :
    DisturbedMotion C et oeT woe tmax m0 mdot 1 g T γ ↔ LawMotion C et oeT woe tmax m0 mdot g T γ := by
  have h0 : ∀ t x (q : Fin 3 → ℝ), PerturbationIs C t x q ↔ q = 0 := by
    intro t x q
    have : (![((0 : ℕ) : ℝ), ((0 : ℕ) : ℝ), ((0 : ℕ) : ℝ)] : Fin 3 → ℝ) = 0 := by
      funext i; fin_cases i <;> simp
    simp only [PerturbationIs, hp, this]
  simp only [DisturbedMotion, LawMotion, fullThrust, one_mul, h0]
  refine forall₂_congr fun t ht => ⟨?_, ?_⟩
  · rintro ⟨o, v, q, rfl, h1, h2, h3⟩
    exact ⟨o, v, h1, h2, h3⟩
  · rintro ⟨o, v, h1, h2, h3⟩
    exact ⟨o, v, 0, rfl, h1, h2, h3⟩

theorem sign_signed {σ x : ℝ} (hσ : σ = 1 ∨ σ = -1) (h : 0 < σ * x) : PyOrd.sign x = σ := by
  rw [sign_real]
  rcases hσ with rfl | rfl
  · rw [if_pos (by linarith)]
  · rw [if_neg (by linarith), if_pos (by linarith)]

/-- what one thrusting step records, in either direction of time and with perturbations -/
theorem step_rates_signed [PyNan ℝ] {C : Config ℝ} {et : ElemType} (hd : C.dyn = dynOf et)
    {oeT woe : Fin 5 → ℝ} {tmax σ : ℝ} (hT : 0 < tmax) (hσ : σ = 1 ∨ σ = -1) {Q Q' : QLaw ℝ} {P : Problem ℝ}
    {etaA etaR : EtaArg ℝ} {fuel : ℕ}
    {H : Hist ℝ} (hC : Q.cfg = C) (hP : Q.prob = some P) (hoe : P.oeT = List.ofFn oeT) (hw : P.woe = woe)
    (ht0 : P.tmax = tmax) (h : Q.solve etaA etaR fuel = some (Q', none)) (hH : Q'.hist = some H) {k : ℕ}
    {a b t t' m : ℝ} {x y : Fin 6 → ℝ} (hc : H.controls[k]? = some (a, b, 1)) (ht : H.times[k]? = some t)
    (ht' : H.times[k + 1]? = some t') (hx : H.states[k]? = some x) (hm : H.masses[k]? = some m) (hm0 : 0 < m)
    (hy : H.states[k + 1]? = some y) (hlt : 0 < σ * (t' - t)) :
    (∀ c, |lawDir et (unitCall C oeT woe x) c| ≤ 1) ∧
    ∃ z psi u ptrb, Propagates C t (t' - t) x u psi ptrb z ∧ psi = candPsi et (unitCall C oeT woe x) ∧
      PerturbationIs C t x ptrb ∧ (∀ c, u c = σ * (tmax / m) * lawDir et (unitCall C oeT woe x) c) ∧
      (y = z ∨ C.elementsType = .keplerian ∧ elementsSafety z C.oeMin C.oeMax = .ok y) := by
  subst hC hw ht0
  obtain ⟨st, oeT', o, ptrb, u, g1, g2, g3, -, -, -, g7, g8, g9⟩ := C80_law_applied h hP hH hc ht hx hm
  rw [ht'] at g1; injection g1 with g1
  have hst : st = t' - t := by linarith
  subst hst
  have : oeT' = oeT := List.ofFn_injective (g2.symm.trans hoe)
  subst this
  have hcall : recArgs Q.cfg P oeT' x m (t' - t) = callAt Q.cfg oeT' P.woe (σ * (P.tmax / m)) x := by
    simp only [recArgs, sign_signed hσ hlt, callAt, unitCall, mul_div_assoc]
  rw [hcall, hd] at g3
  have hf : σ * (P.tmax / m) ≠ 0 := mul_ne_zero (by rcases hσ with rfl | rfl <;> norm_num) (div_pos hT hm0).ne'
  have hdir := law_direction_signed hf g3
  have hu : ∀ c, u c = σ * (P.tmax / m) * lawDir et (unitCall Q.cfg oeT' P.woe x) c := by
    intro c
    rcases g9 with ⟨g9, -⟩ | ⟨-, g9⟩
    · omega
    · have : dirOf o.alpha o.beta = unitDir o.alpha o.beta := by
        funext c; fin_cases c <;> simp [dirOf, unitDir]
      rw [g9, sign_signed hσ hlt, this]
      simp only [vsmul, hdir, mul_div_assoc]
  refine ⟨fun c => by rw [← hdir]; exact unitDir_le _ _ c, ((envOf Q P etaA etaR).after (k + 1)).oe, o.psi, u, ptrb, g8,
    law_psi g3, g7, hu, ?_⟩
  obtain ⟨n, tr, D, r, hr, hrH, v⟩ := solve_view h hP hH
  obtain ⟨hk1, hy'⟩ := state_or_clamp hr hrH v hy
  rw [← v.trace.after (k + 1) hk1]
  rcases hy' with hy' | ⟨s1, hs1, hy'⟩
  · exact Or.inl hy'
  · rcases clamp_cases hs1 with ⟨-, h2⟩ | ⟨hE, oe, h2, h3⟩
    · left; rw [hy', h2]
    · right
      exact ⟨hE, by rw [h2, hy', h3]⟩

/-- the first `n` steps of a history thrust, each in direction `σ` of time and no longer than `h` -/
def BurnsUpTo (σ : ℝ) (H : Hist ℝ) (n : ℕ) (h : ℝ) : Prop :=
  ∀ k < n, ∃ a b t t', H.controls[k]? = some (a, b, 1) ∧ H.times[k]? = some t ∧ H.times[k + 1]? = some t' ∧
    0 < σ * (t' - t) ∧ σ * (t' - t) ≤ h

/-- the field of a disturbed motion is continuously differentiable -/
theorem disturbed_c1 {C : Config ℝ} {oeT woe : Fin 5 → ℝ} {et : ElemType} {x : Fin 6 → ℝ}
    (H : LawSmooth et (unitCall C oeT woe x)) (hg : lawGrad et (unitCall C oeT woe x) ≠ 0)
    {p : ℝ → (Fin 6 → ℝ) → Fin 3 → ℝ} (tmax m0 mdot σ g : ℝ)
    {s : ℝ} (hp : ContDiffAt ℝ 1 (fun y : ℝ × (Fin 6 → ℝ) => p (σ * y.1) y.2) (s, x)) (hm : m0 - mdot * (σ * s) ≠ 0) :
    ContDiffAt ℝ 1 (fun y : ℝ × (Fin 6 → ℝ) => ((1 : ℝ),
      (σ * g) • accRate et (unitCall C oeT woe y.2) (fun c => σ * fullThrust tmax m0 mdot (σ * y.1) *
        lawDir et (unitCall C oeT woe y.2) c + p (σ * y.1) y.2 c))) (s, x) := by
  obtain ⟨h1, -⟩ := law_c1 H hg
  obtain ⟨h3, h4⟩ := fast_smooth (N := 1) H.1
  have hP : ∀ c j, ContDiffAt ℝ 1 (fun x => candPsi et (unitCall C oeT woe x) c j) x :=
    fun c j => candPsi_smooth (N := 1) H.1 c j
  have hf : ContDiffAt ℝ 1 (fun y : ℝ × (Fin 6 → ℝ) => σ * fullThrust tmax m0 mdot (σ * y.1)) (s, x) := by
    unfold fullThrust
    fun_prop (disch := assumption)
  have lift : ∀ φ : (Fin 6 → ℝ) → ℝ, ContDiffAt ℝ 1 φ x → ContDiffAt ℝ 1 (fun y : ℝ × (Fin 6 → ℝ) => φ y.2) (s, x) :=
    fun φ hφ => ContDiffAt.comp (g := φ) (f := fun y : ℝ × (Fin 6 → ℝ) => y.2) (s, x) hφ contDiffAt_snd
  have ha : ∀ c, ContDiffAt ℝ 1 (fun y : ℝ × (Fin 6 → ℝ) => σ * fullThrust tmax m0 mdot (σ * y.1) *
      lawDir et (unitCall C oeT woe y.2) c + p (σ * y.1) y.2 c) (s, x) := fun c =>
    (hf.mul (lift _ (h1 c))).add (contDiffAt_pi.1 hp c)
  refine contDiffAt_const.prodMk (ContDiffAt.const_smul (σ * g) (contDiffAt_pi.2 fun i => ?_))
  induction i using Fin.lastCases with
  | last =>
    simp only [accRate, Fin.lastCases_last]
    exact (ContDiffAt.sum fun c _ => (lift _ (h3 c)).mul (ha c)).add (lift _ h4)
  | cast j =>
    simp only [accRate, Fin.lastCases_castSucc]
    exact ContDiffAt.sum fun c _ => (lift _ (hP c j)).mul (ha c)

set_option maxHeartbeats 1000000 in
theorem field_limit [PyNan ℝ] {C : Config ℝ} {et : ElemType} (hd : C.dyn = dynOf et)
    {p : ℝ → (Fin 6 → ℝ) → Fin 3 → ℝ} (hp : ∀ t x q, PerturbationIs C t x q → q = p t x)
    {oeT woe l u : Fin 5 → ℝ} {tmax m0 mdot σ T : ℝ} (hσ : σ = 1 ∨ σ = -1) {γ : ℝ → Fin 6 → ℝ}
    (hl : C.elementsType = .keplerian → BoundsAre C.oeMin l ∧ BoundsAre C.oeMax u)
    (hM : FieldMotion C et oeT woe p tmax m0 mdot σ (gain C.integrator) T γ)
    (hS : ∀ s ∈ Icc 0 T, LawSmooth et (unitCall C oeT woe (γ s)) ∧
      ContDiffAt ℝ 1 (fun y : ℝ × (Fin 6 → ℝ) => p (σ * y.1) y.2) (s, γ s) ∧
      (C.elementsType = .keplerian → ∀ j : Fin 5, l j < γ s j.castSucc ∧ γ s j.castSucc < u j))
    (hT : 0 < tmax) (hm : ∀ s ∈ Icc 0 T, 0 < m0 - mdot * (σ * s)) :
    ∃ δ > 0, ∃ K ≥ 0, ∀ h, 0 < h → h < δ →
      ∀ (Q Q' : QLaw ℝ) (P : Problem ℝ) (etaA etaR : EtaArg ℝ) (fuel : ℕ) (H : Hist ℝ),
      Q.cfg = C → Q.prob = some P → P.oeT = List.ofFn oeT → P.woe = woe → P.tmax = tmax → P.mass0 = m0 →
      P.mdot = mdot → P.oe0 = γ 0 → Q.solve etaA etaR fuel = some (Q', none) → Q'.hist = some H →
      ∀ (n : ℕ) (t : ℝ) (x : Fin 6 → ℝ), H.times[n]? = some t → σ * t ≤ T → H.states[n]? = some x → BurnsUpTo σ H n h →
        ∀ i, |x i - γ (σ * t) i| ≤ K * h := by
  have hσσ : σ * σ = 1 := by rcases hσ with rfl | rfl <;> norm_num
  have hσa : |σ| = 1 := by rcases hσ with rfl | rfl <;> norm_num
  have hg : 0 < gain C.integrator := gain_pos _
  have hg2 : gain C.integrator ≤ 2 := by cases C.integrator <;> norm_num [gain]
  obtain ⟨g, hgdef⟩ : ∃ g, g = gain C.integrator := ⟨_, rfl⟩
  rw [← hgdef] at hM hg hg2
  have hcont : ContinuousOn γ (Icc 0 T) := fun t ht => by
    obtain ⟨o, v, -, -, h3⟩ := hM t ht
    exact h3.continuousWithinAt
  have hgrad : ∀ t ∈ Icc 0 T, lawGrad et (unitCall C oeT woe (γ t)) ≠ 0 := fun t ht => by
    obtain ⟨o, v, h1, -⟩ := hM t ht
    exact lawGrad_ne h1
  have hfpos : ∀ s ∈ Icc 0 T, 0 < fullThrust tmax m0 mdot (σ * s) := fun s hs => div_pos hT (hm s hs)
  have hσf : ∀ s ∈ Icc 0 T, σ * fullThrust tmax m0 mdot (σ * s) ≠ 0 := fun s hs =>
    mul_ne_zero (by rcases hσ with rfl | rfl <;> norm_num) (hfpos s hs).ne'
  -- the field
  set V : ℝ × (Fin 6 → ℝ) → ℝ × (Fin 6 → ℝ) := fun y => ((1 : ℝ),
      (σ * g) • accRate et (unitCall C oeT woe y.2) (fun c => σ * fullThrust tmax m0 mdot (σ * y.1) *
        lawDir et (unitCall C oeT woe y.2) c + p (σ * y.1) y.2 c)) with hVdef
  have hΓ : ∀ t ∈ Icc 0 T, HasDerivWithinAt (fun t => (t, γ t)) (V (t, γ t)) (Icc 0 T) t := by
    intro t ht
    obtain ⟨o, v, h1, h2, h3⟩ := hM t ht
    have hv := eom_accRate (A := unitCall C oeT woe (γ t)) rfl (by
      rw [← law_psi h1]; funext c; fin_cases c <;> rfl) h2
    simp only [law_direction_signed (hσf t ht) h1] at hv
    rw [hv] at h3
    exact (hasDerivWithinAt_id t _).prodMk h3
  have hV : ∀ t ∈ Icc 0 T, ContDiffAt ℝ 1 V (t, γ t) := fun t ht =>
    disturbed_c1 (hS t ht).1 (hgrad t ht) tmax m0 mdot σ g (hS t ht).2.1 (hm t ht).ne'
  -- a tube around the motion
  have hcont2 : ContinuousOn (fun t => (t, γ t)) (Icc 0 T) := continuousOn_id.prodMk hcont
  obtain ⟨L, hL, ρ1, hρ1, hΦ⟩ := tube_lipschitz (f := fun y : ℝ × (Fin 6 → ℝ) => (fastRow et C.mu y.2, fastSelf et C.mu y.2,
      (fun c j => candPsi et (unitCall C oeT woe y.2) c j : Fin 3 → Fin 5 → ℝ), p (σ * y.1) y.2)) hcont2 (fun t ht => by
    have e1 := fast_smooth (N := 1) (hS t ht).1.1
    have lift : ∀ φ : (Fin 6 → ℝ) → ℝ, ContDiffAt ℝ 1 φ (γ t) →
        ContDiffAt ℝ 1 (fun y : ℝ × (Fin 6 → ℝ) => φ y.2) (t, γ t) :=
      fun φ hφ => ContDiffAt.comp (g := φ) (f := fun y : ℝ × (Fin 6 → ℝ) => y.2) (t, γ t) hφ contDiffAt_snd
    refine (contDiffAt_pi.2 fun c => lift _ (e1.1 c)).prodMk ((lift _ e1.2).prodMk (ContDiffAt.prodMk ?_ (hS t ht).2.1))
    exact contDiffAt_pi.2 fun c => contDiffAt_pi.2 fun j => lift (fun x => candPsi et (unitCall C oeT woe x) c j)
      (candPsi_smooth (N := 1) (hS t ht).1.1 c j))
  have hU : IsOpen {x : Fin 6 → ℝ | C.elementsType = .keplerian → ∀ j : Fin 5, l j < x j.castSucc ∧ x j.castSucc < u j} := by
    by_cases hk : C.elementsType = .keplerian
    · simp only [hk, true_imp_iff, Set.ofPred_forall]
      refine isOpen_iInter_of_finite fun j => ?_
      exact (isOpen_lt continuous_const (continuous_apply _)).inter (isOpen_lt (continuous_apply _) continuous_const)
    · simp [hk]
  obtain ⟨ρ2, hρ2, hin⟩ := tube_open hcont hU fun t ht => (hS t ht).2.2
  obtain ⟨ρ, hρdef⟩ : ∃ ρ, ρ = min ρ1 ρ2 := ⟨_, rfl⟩
  have hρ : 0 < ρ := by rw [hρdef]; exact lt_min hρ1 hρ2
  -- bounds
  obtain ⟨fM, hfM0, hf⟩ : ∃ fM > 0, ∀ s ∈ Icc 0 T, fullThrust tmax m0 mdot (σ * s) ≤ fM := by
    have hc : ContinuousOn (fun s => fullThrust tmax m0 mdot (σ * s)) (Icc 0 T) := by
      unfold fullThrust
      exact continuousOn_const.div (by fun_prop) fun s hs => (hm s hs).ne'
    obtain ⟨B, hB⟩ := (isCompact_Icc.image_of_continuousOn hc).bddAbove
    exact ⟨max B 1, by positivity, fun s hs => (hB (mem_image_of_mem _ hs)).trans (le_max_left _ _)⟩
  obtain ⟨U, hUdef⟩ : ∃ U, U = fM + L := ⟨_, rfl⟩
  have hU0 : 0 < U := by rw [hUdef]; positivity
  obtain ⟨M, hMdef⟩ : ∃ M, M = (3 * U + 1) * L := ⟨_, rfl⟩
  have hM0 : 0 < M := by rw [hMdef]; positivity
  have hrow : ∀ t ∈ Icc 0 T, ∀ y ∈ ball (γ t) ρ, (∀ c, |fastRow et C.mu y c| ≤ L) ∧ |fastSelf et C.mu y| ≤ L ∧
      (∀ c j, |candPsi et (unitCall C oeT woe y) c j| ≤ L) ∧ (∀ c, |p (σ * t) y c| ≤ L) ∧ ∀ z ∈ ball (γ t) ρ,
        (∀ c, |fastRow et C.mu y c - fastRow et C.mu z c| ≤ L * ‖y - z‖) ∧
        |fastSelf et C.mu y - fastSelf et C.mu z| ≤ L * ‖y - z‖ := by
    intro t ht y hy
    have hsub : ∀ y ∈ ball (γ t) ρ, ((t, y) : ℝ × (Fin 6 → ℝ)) ∈ ball (t, γ t) ρ1 := fun y hy => by
      rw [mem_ball] at hy ⊢
      rw [Prod.dist_eq, dist_self, max_eq_right dist_nonneg]
      exact hy.trans_le (by rw [hρdef]; exact min_le_left _ _)
    obtain ⟨h1, h2⟩ := hΦ t ht (t, y) (hsub y hy)
    rw [Prod.norm_def, Prod.norm_def, Prod.norm_def, max_le_iff, max_le_iff, max_le_iff] at h1
    refine ⟨fun c => (norm_le_pi_norm (fastRow et C.mu y) c).trans h1.1, h1.2.1, fun c j => ?_,
      fun c => (norm_le_pi_norm (p (σ * t) y) c).trans h1.2.2.2, fun z hz => ?_⟩
    · have e := (norm_le_pi_norm (fun c j => candPsi et (unitCall C oeT woe y) c j : Fin 3 → Fin 5 → ℝ) c).trans h1.2.2.1
      exact (norm_le_pi_norm (fun j => candPsi et (unitCall C oeT woe y) c j) j).trans e
    have h3 := h2 (t, z) (hsub z hz)
    rw [Prod.norm_def, Prod.norm_def, max_le_iff, max_le_iff] at h3
    have h4 : ‖((t, y) : ℝ × (Fin 6 → ℝ)) - (t, z)‖ = ‖y - z‖ := by
      rw [Prod.norm_def]
      simp
    rw [h4] at h3
    exact ⟨fun c => (norm_le_pi_norm (fastRow et C.mu y - fastRow et C.mu z) c).trans h3.1, h3.2.1⟩
  obtain ⟨W, hW⟩ : ∃ W, W = 22 * M + 40 * M * M := ⟨_, rfl⟩
  have hW0 : 0 < W := by rw [hW]; positivity
  obtain ⟨δ0, hδ0, K, hK, hE⟩ := euler_converges (B := 40 * M * M) (ρ0 := ρ / 2) hΓ hV (by positivity) (by positivity)
  refine ⟨min (min δ0 1) (ρ / (2 * W)), by positivity, K, hK, ?_⟩
  intro h hh hhδ Q Q' P etaA etaR fuel H hC hP hoe hw ht0 hm0 hmd0 hoe0 hsol hH n tn xn htn htT hxn hthr
  have hh0 : h < δ0 := hhδ.trans_le ((min_le_left _ _).trans (min_le_left _ _))
  have hh1 : h < 1 := hhδ.trans_le ((min_le_left _ _).trans (min_le_right _ _))
  have hhW : h * W < ρ / 2 := by
    have := hhδ.trans_le (min_le_right _ _)
    rw [lt_div_iff₀ (by positivity)] at this
    linarith
  obtain ⟨H1, P1, P1', N, a1, a2, -, al, at0, -, am0, -⟩ := C01_histories_aligned hsol
  rw [hH] at a1; injection a1 with a1; subst a1
  rw [hP] at a2; injection a2 with a2; subst a2
  have hnN : n ≤ N := by
    have := (List.getElem?_eq_some_iff.1 htn).1
    rw [al.times] at this; omega
  have getT : ∀ k ≤ n, H.times[k]? = some (H.times.getD k 0) := fun k hk => by
    have hlt : k < H.times.length := by rw [al.times]; omega
    simp [List.getD_eq_getElem?_getD, List.getElem?_eq_getElem hlt]
  have getX : ∀ k ≤ n, H.states[k]? = some (H.states.getD k 0) := fun k hk => by
    have hlt : k < H.states.length := by rw [al.states]; omega
    simp [List.getD_eq_getElem?_getD, List.getElem?_eq_getElem hlt]
  have getM : ∀ k ≤ n, ∃ m, H.masses[k]? = some m := fun k hk => by
    have hlt : k < H.masses.length := by rw [al.masses]; omega
    exact ⟨_, List.getElem?_eq_getElem hlt⟩
  obtain ⟨τ, hτ⟩ : ∃ τ : ℕ → ℝ, τ = fun k => σ * H.times.getD k 0 := ⟨_, rfl⟩
  obtain ⟨X, hX⟩ : ∃ X : ℕ → Fin 6 → ℝ, X = fun k => H.states.getD k 0 := ⟨_, rfl⟩
  have gT : ∀ k ≤ n, H.times[k]? = some (σ * τ k) := fun k hk => by
    rw [getT k hk, hτ]; simp only; rw [← mul_assoc, hσσ, one_mul]
  have gX : ∀ k ≤ n, H.states[k]? = some (X k) := by rw [hX]; exact getX
  have hτ0 : τ 0 = 0 := by
    have := gT 0 (Nat.zero_le _)
    rw [List.head?_eq_getElem?, this] at at0
    injection at0 with at0
    rw [Nat.cast_zero] at at0
    calc τ 0 = σ * (σ * τ 0) := by rw [← mul_assoc, hσσ, one_mul]
      _ = 0 := by rw [at0, mul_zero]
  have hstep : ∀ k < n, τ k < τ (k + 1) ∧ τ (k + 1) ≤ τ k + h ∧ ∃ a b, H.controls[k]? = some (a, b, 1) := by
    intro k hk
    obtain ⟨a, b, t, t', h1, h2, h3, h4, h5⟩ := hthr k hk
    rw [gT k hk.le] at h2; injection h2 with h2
    rw [gT (k + 1) hk] at h3; injection h3 with h3
    subst h2 h3
    have e : σ * (σ * τ (k + 1) - σ * τ k) = τ (k + 1) - τ k := by
      rw [mul_sub, ← mul_assoc, ← mul_assoc, hσσ, one_mul, one_mul]
    rw [e] at h4 h5
    exact ⟨by linarith, by linarith, a, b, h1⟩
  have hmono : ∀ j ≤ n, 0 ≤ τ j ∧ ∀ k ≤ j, τ k ≤ τ j := by
    intro j
    induction j with
    | zero => intro _; exact ⟨hτ0.ge, fun k hk => by rw [Nat.le_zero.1 hk]⟩
    | succ j ih =>
      intro hj
      have h1 := ih (by omega)
      have h2 := (hstep j (by omega)).1.le
      refine ⟨h1.1.trans h2, fun k hk => ?_⟩
      rcases Nat.lt_or_ge k (j + 1) with h3 | h3
      · exact (h1.2 k (by omega)).trans h2
      · rw [le_antisymm hk h3]
  have hτn : τ n = σ * tn := by
    have := gT n le_rfl
    rw [htn] at this; injection this with this
    rw [this, ← mul_assoc, hσσ, one_mul]
  have hmem : ∀ k ≤ n, τ k ∈ Icc 0 T := fun k hk =>
    ⟨(hmono k hk).1, ((hmono n le_rfl).2 k hk).trans (by rw [hτn]; exact htT)⟩
  have hX0 : X 0 = γ 0 := by
    rw [← hoe0]
    subst hC
    refine first_state hP hsol hH hl (fun hk j => ?_) (gX 0 (Nat.zero_le _))
    rw [hoe0]
    have h00 : (0 : ℝ) ∈ Icc 0 T := by
      have := hmem 0 (Nat.zero_le _)
      rwa [hτ0] at this
    have := (hS 0 h00).2.2 hk j
    exact ⟨this.1.le, this.2.le⟩
  have key : ∀ k < n, ‖(τ k, X k) - (τ k, γ (τ k))‖ < ρ / 2 →
      ‖(τ (k + 1), X (k + 1)) - (τ k, X k) - (τ (k + 1) - τ k) • V (τ k, X k)‖ ≤
        40 * M * M * (τ (k + 1) - τ k) ^ 2 := by
    intro k hk hnear
    have ht := hmem k hk.le
    obtain ⟨h1, h2, a, b, hc⟩ := hstep k hk
    have hd1 : ‖X k - γ (τ k)‖ < ρ / 2 := by
      refine lt_of_le_of_lt ?_ hnear
      exact (norm_snd_le ((τ k, X k) - (τ k, γ (τ k))))
    have hball : ∀ z, ‖z - X k‖ < ρ / 2 → z ∈ ball (γ (τ k)) ρ := by
      intro z hz
      rw [mem_ball, dist_eq_norm]
      have : z - γ (τ k) = (z - X k) + (X k - γ (τ k)) := by abel
      rw [this]
      linarith [norm_add_le (z - X k) (X k - γ (τ k))]
    obtain ⟨s, hs⟩ : ∃ s, s = τ (k + 1) - τ k := ⟨_, rfl⟩
    have hs0 : 0 < s := by linarith
    have hsh : s ≤ h := by linarith
    obtain ⟨m, hmk⟩ := getM k hk.le
    have hmv : m = m0 - mdot * (σ * τ k) := by
      rw [← hm0, ← hmd0]
      exact mass_stretch hsol hP hH (n := n) (fun j hj => (hstep j hj).2.2) k hk.le _ _ (gT k hk.le) hmk
    have hmp : 0 < m := by rw [hmv]; exact hm _ ht
    have hf0 := hfpos _ ht
    have hf1 := hf _ ht
    have hfm : fullThrust tmax m0 mdot (σ * τ k) = tmax / m := by rw [fullThrust, hmv]
    rw [hfm] at hf0 hf1
    have hstep' : σ * τ (k + 1) - σ * τ k = σ * s := by rw [hs]; ring
    have hsa : |σ * s| = s := by rw [abs_mul, hσa, one_mul, abs_of_pos hs0]
    obtain ⟨hdir, z, psi, uu, ptrb, hprop, hpsi, hpt, hu, hclamp⟩ := step_rates_signed hd hT hσ hC hP hoe hw ht0 hsol hH hc
      (gT k hk.le) (gT (k + 1) hk) (gX k hk.le) hmk hmp (gX (k + 1) hk) (by
        rw [hstep', ← mul_assoc, hσσ, one_mul]; exact hs0)
    rw [hstep'] at hprop
    have hpt' := hp _ _ _ hpt
    have hxk : X k ∈ ball (γ (τ k)) ρ := hball _ (by rw [sub_self, norm_zero]; linarith)
    obtain ⟨b1, b2, b3, b4, b5⟩ := hrow _ ht _ hxk
    have hub : ∀ c, |uu c + ptrb c| ≤ U := by
      intro c
      have e1 : |uu c| ≤ fM := by
        rw [hu c, abs_mul, abs_mul, hσa, one_mul, abs_of_pos hf0]
        calc _ ≤ fM * 1 := by gcongr; exact hdir c
          _ = fM := mul_one _
      have e2 : |ptrb c| ≤ L := by rw [hpt']; exact b4 c
      rw [hUdef]
      exact (abs_add_le _ _).trans (add_le_add e1 e2)
    have hslowM : ∀ j, |∑ c : Fin 3, psi c j * (uu c + ptrb c)| ≤ M := by
      intro j
      refine (Finset.abs_sum_le_sum_abs _ _).trans ?_
      have : ∀ c ∈ Finset.univ, |psi c j * (uu c + ptrb c)| ≤ L * U := fun c _ => by
        rw [abs_mul, hpsi]
        exact mul_le_mul (b3 c j) (hub c) (abs_nonneg _) hL.le
      refine (Finset.sum_le_card_nsmul _ _ _ this).trans ?_
      rw [Finset.card_univ, Fintype.card_fin, hMdef]
      simp only [nsmul_eq_mul, Nat.cast_ofNat]
      linarith [show (3 * U + 1) * L = 3 * (L * U) + L by ring]
    have hfastM : ∀ z, ‖z - X k‖ < ρ / 2 →
        |∑ c : Fin 3, fastRow et C.mu z c * (uu c + ptrb c) + fastSelf et C.mu z| ≤ M ∧
        |∑ c : Fin 3, fastRow et C.mu z c * (uu c + ptrb c) + fastSelf et C.mu z -
          (∑ c : Fin 3, fastRow et C.mu (X k) c * (uu c + ptrb c) + fastSelf et C.mu (X k))| ≤
          M * ‖z - X k‖ := by
      intro z hz
      obtain ⟨c1, c2, -, -, c4⟩ := hrow _ ht _ (hball z hz)
      obtain ⟨d1, d2⟩ := c4 _ hxk
      simp only [Fin.sum_univ_three]
      have p1 : ∀ c, |fastRow et C.mu z c * (uu c + ptrb c)| ≤ L * U := fun c => by
        rw [abs_mul]; exact mul_le_mul (c1 c) (hub c) (abs_nonneg _) hL.le
      have p2 : ∀ c, |(fastRow et C.mu z c - fastRow et C.mu (X k) c) * (uu c + ptrb c)| ≤ L * ‖z - X k‖ * U := fun c => by
        rw [abs_mul]; exact mul_le_mul (d1 c) (hub c) (abs_nonneg _) (by positivity)
      constructor
      · have q0 := abs_le.1 (p1 0)
        have q1 := abs_le.1 (p1 1)
        have q2 := abs_le.1 (p1 2)
        have q3 := abs_le.1 c2
        rw [hMdef]
        refine abs_le.2 ⟨by linarith [q0.1, q1.1, q2.1, q3.1], by linarith [q0.2, q1.2, q2.2, q3.2]⟩
      · have q0 := abs_le.1 (p2 0)
        have q1 := abs_le.1 (p2 1)
        have q2 := abs_le.1 (p2 2)
        have q3 := abs_le.1 d2
        have e : M * ‖z - X k‖ = L * ‖z - X k‖ * U + L * ‖z - X k‖ * U + L * ‖z - X k‖ * U + L * ‖z - X k‖ := by
          rw [hMdef]; ring
        rw [e]
        refine abs_le.2 ⟨by linarith [q0.1, q1.1, q2.1, q3.1], by linarith [q0.2, q1.2, q2.2, q3.2]⟩
    have hsW : s * W < ρ / 2 := lt_of_le_of_lt (by gcongr) hhW
    have hsM : 0 ≤ s * M := by positivity
    have hsMM : 0 ≤ s * (M * M) := by positivity
    have hsWe : s * W = 22 * (s * M) + 40 * (s * (M * M)) := by rw [hW]; ring
    have hfast := propagates_fast_signed hd hprop (by rw [hsa]; exact hsh.trans hh1.le) hM0.le (r := ρ / 2) (M := M) (L := M)
      (by rw [hsa]; linarith) hslowM hfastM
    have hsl := propagates_slow hd hprop
    have hsq : (σ * s) ^ 2 = s ^ 2 := by rw [mul_pow, pow_two σ, hσσ, one_mul]
    rw [← hgdef, hsq] at hfast
    have hacc : (fun c => uu c + ptrb c) = fun c => σ * fullThrust tmax m0 mdot (σ * τ k) *
        lawDir et (unitCall C oeT woe (X k)) c + p (σ * τ k) (X k) c := by
      funext c
      rw [hu c, hpt', hfm]
    -- the rates of the field
    have hrs : ∀ j : Fin 5, z j.castSucc - X k j.castSucc - s * (V (τ k, X k)).2 j.castSucc = 0 := by
      intro j
      rw [hsl j, ← hgdef]
      simp only [hVdef, Pi.smul_apply, smul_eq_mul, ← hacc, accRate_slow, hpsi]
      ring
    have hrf : |z 5 - X k 5 - s * (V (τ k, X k)).2 5| ≤ 40 * M * M * s ^ 2 := by
      refine le_trans (le_of_eq ?_) hfast
      congr 1
      simp only [hVdef, Pi.smul_apply, smul_eq_mul, ← hacc, accRate_fast]
      have : ∀ c : Fin 3, fastRow et (unitCall C oeT woe (X k)).mu (unitCall C oeT woe (X k)).oe c = fastRow et C.mu (X k) c :=
        fun _ => rfl
      have e2 : fastSelf et (unitCall C oeT woe (X k)).mu (unitCall C oeT woe (X k)).oe = fastSelf et C.mu (X k) := rfl
      simp only [this, e2]
      ring
    -- no clamp
    have hzx : ‖z - X k‖ < ρ / 2 := by
      refine lt_of_le_of_lt ((pi_norm_le_iff_of_nonneg (r := s * W) (by positivity)).2 fun i => ?_) hsW
      have hgs : g * s ≤ 2 * s := by gcongr
      rw [Real.norm_eq_abs, Pi.sub_apply]
      induction i using Fin.lastCases with
      | last =>
        have e5 : |z 5 - X k 5| ≤ s * W := by
          have q1 := (hfastM (X k) (by rw [sub_self, norm_zero]; linarith)).1
          have q2 : |g * (σ * s) * (∑ c : Fin 3, fastRow et C.mu (X k) c * (uu c + ptrb c) +
              fastSelf et C.mu (X k))| ≤ 2 * s * M := by
            rw [abs_mul, abs_mul, hsa, abs_of_pos hg]
            gcongr
          have q3 := abs_le.1 q2
          have q4 := abs_le.1 hfast
          have q5 : 40 * M * M * s ^ 2 ≤ 40 * (s * (M * M)) := by
            have : s ^ 2 ≤ s * 1 := by rw [sq]; gcongr; linarith
            calc 40 * M * M * s ^ 2 = 40 * (M * M) * s ^ 2 := by ring
              _ ≤ 40 * (M * M) * (s * 1) := by gcongr
              _ = _ := by ring
          rw [hsWe]
          refine abs_le.2 ⟨by linarith [q3.1, q4.1], by linarith [q3.2, q4.2]⟩
        exact e5
      | cast j =>
        have q1 := hslowM j
        rw [hsl j, ← hgdef, add_sub_cancel_left, ← mul_assoc, abs_mul, abs_mul, hsa, abs_of_pos hg]
        calc _ ≤ 2 * s * M := by gcongr
          _ ≤ s * W := by rw [hsWe]; linarith
    have hyz : X (k + 1) = z := by
      rcases hclamp with hy | ⟨hk', hy⟩
      · exact hy
      · refine safety_same (hl hk').1 (hl hk').2 (fun j => ?_) hy
        have hz2 : z ∈ ball (γ (τ k)) ρ2 := ball_subset_ball (by rw [hρdef]; exact min_le_right _ _) (hball z hzx)
        have := hin _ ht hz2 hk' j
        exact ⟨this.1.le, this.2.le⟩
    rw [hyz, ← hs, Prod.norm_def, max_le_iff]
    constructor
    · have : ((τ (k + 1), z) - (τ k, X k) - s • V (τ k, X k)).1 = 0 := by
        simp [hVdef, hs]
      rw [this, norm_zero]; positivity
    · refine (pi_norm_le_iff_of_nonneg (by positivity)).2 fun i => ?_
      have e : ((τ (k + 1), z) - (τ k, X k) - s • V (τ k, X k)).2 i = z i - X k i - s * (V (τ k, X k)).2 i := rfl
      rw [e, Real.norm_eq_abs]
      induction i using Fin.lastCases with
      | last => exact hrf
      | cast j => rw [hrs j, abs_zero]; positivity
  have hfin := (hE h hh hh0 n τ (fun k => (τ k, X k)) hτ0 (by simp [hτ0, hX0])
    (fun k hk => ⟨(hstep k hk).1.le, (hstep k hk).2.1⟩) (by rw [hτn]; exact htT) key n le_rfl).1
  have hXn : X n = xn := by
    have := gX n le_rfl
    rw [hxn] at this; injection this with this; exact this.symm
  intro i
  have e1 : ‖X n - γ (τ n)‖ ≤ K * h := (norm_snd_le ((τ n, X n) - (τ n, γ (τ n)))).trans hfin
  rw [hXn, hτn] at e1
  exact (norm_le_pi_norm (xn - γ (σ * tn)) i).trans e1


/-- **C115.** Let `γ` be a motion under the law and the perturbations of the object, in direction `σ` of time, along
which `Q` is smooth, the perturbing acceleration is continuously differentiable, the elements stay strictly inside
their bounds and mass remains. Then there are a step length and a constant such that every run from the same state
and mass whose steps thrust in direction `σ` of time and are no longer than `h` is at most `K h` away from the
motion, in every element and at every recorded time. -/
theorem C115_limit [PyNan ℝ] {C : Config ℝ} {et : ElemType} (hd : C.dyn = dynOf et)
    {oeT woe l u : Fin 5 → ℝ} {tmax m0 mdot σ T : ℝ} (hσ : σ = 1 ∨ σ = -1) {γ : ℝ → Fin 6 → ℝ}
    (hl : C.elementsType = .keplerian → BoundsAre C.oeMin l ∧ BoundsAre C.oeMax u)
    (hM : DisturbedMotion C et oeT woe tmax m0 mdot σ (gain C.integrator) T γ)
    (hS : ∀ s ∈ Icc 0 T, LawSmooth et (unitCall C oeT woe (γ s)) ∧ PertSmooth C σ s (γ s) ∧
      (C.elementsType = .keplerian → ∀ j : Fin 5, l j < γ s j.castSucc ∧ γ s j.castSucc < u j))
    (hT : 0 < tmax) (hm : ∀ s ∈ Icc 0 T, 0 < m0 - mdot * (σ * s)) :
    ∃ δ > 0, ∃ K ≥ 0, ∀ h, 0 < h → h < δ →
      ∀ (Q Q' : QLaw ℝ) (P : Problem ℝ) (etaA etaR : EtaArg ℝ) (fuel : ℕ) (H : Hist ℝ),
      Q.cfg = C → Q.prob = some P → P.oeT = List.ofFn oeT → P.woe = woe → P.tmax = tmax → P.mass0 = m0 →
      P.mdot = mdot → P.oe0 = γ 0 → Q.solve etaA etaR fuel = some (Q', none) → Q'.hist = some H →
      ∀ (n : ℕ) (t : ℝ) (x : Fin 6 → ℝ), H.times[n]? = some t → σ * t ≤ T → H.states[n]? = some x → BurnsUpTo σ H n h →
        ∀ i, |x i - γ (σ * t) i| ≤ K * h :=
  field_limit hd (fun _ _ _ => pertOf_eq) hσ hl (disturbed_field hM)
    (fun s hs => ⟨(hS s hs).1, pert_c1 (hS s hs).2.1, (hS s hs).2.2⟩) hT hm

end PyQ
