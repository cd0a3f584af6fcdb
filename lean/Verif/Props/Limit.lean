import Verif.Proofs.ClosedLoop
import Verif.Props.Converges
import Verif.Props.Coast
import Mathlib.Analysis.ODE.ExistUnique

/-!
C107: the recorded states tend to the continuous motion under the law as the steps become short.
-/

set_option linter.unusedSectionVars false
set_option maxRecDepth 100000

open Set Metric Topology

namespace PyQ

/-- `γ` is a motion under the law with continuous thrust, at `g` times the true speed: at every instant `t` of
`[0, T]` the control law is called with the state `γ t` and the acceleration available at the mass
`m0 - mdot t`, and `g` times the right-hand side of the equations of motion, for the thrust it commands and the
Gauss coefficients at `γ t`, is the derivative of `γ`. -/
def LawMotion (C : Config ℝ) (et : ElemType) (oeT woe : Fin 5 → ℝ) (tmax m0 mdot g T : ℝ) (γ : ℝ → Fin 6 → ℝ) : Prop :=
  ∀ t ∈ Icc 0 T, ∃ o v,
    lyapunovControlAngles (dynOf (α := ℝ) et).lyapFun (callAt C oeT woe (tmax / (m0 - mdot * t)) (γ t)) = .ok o ∧
    (dynOf (α := ℝ) et).eom t (γ t)
      { mu := C.mu, u := fun c => tmax / (m0 - mdot * t) * unitDir o.alpha o.beta c,
        psi0 := o.psi 0, psi1 := o.psi 1, psi2 := o.psi 2, ptrb := 0 } = .ok v ∧
    HasDerivWithinAt γ (g • v) (Icc 0 T) t

theorem lawGrad_ne {C : Config ℝ} {et : ElemType} {oeT woe : Fin 5 → ℝ} {f : ℝ} {x : Fin 6 → ℝ}
    {o : ControlOut ℝ} (h : lyapunovControlAngles (dynOf (α := ℝ) et).lyapFun (callAt C oeT woe f x) = .ok o) :
    lawGrad et (unitCall C oeT woe x) ≠ 0 := by
  intro h0
  have h1 := control_defined h
  have h2 : ((dynOf (α := ℝ) et).lyapFun (callAt C oeT woe f x)).uRaw = lawGrad et (callAt C oeT woe f x) :=
    (dyn_lyap et _).1
  rw [h2, lawGrad_call, h0] at h1
  simp [vsmul] at h1

theorem law_psi {C : Config ℝ} {et : ElemType} {oeT woe : Fin 5 → ℝ} {f : ℝ} {x : Fin 6 → ℝ}
    {o : ControlOut ℝ} (h : lyapunovControlAngles (dynOf (α := ℝ) et).lyapFun (callAt C oeT woe f x) = .ok o) :
    o.psi = candPsi et (unitCall C oeT woe x) := by
  rw [(angles_psi h).1, (dyn_lyap et _).2.2.2, candPsi_call]

theorem motion_rate {C : Config ℝ} {et : ElemType} {oeT woe : Fin 5 → ℝ} {f t : ℝ} {x v : Fin 6 → ℝ} (hf : 0 < f)
    {o : ControlOut ℝ} (h : lyapunovControlAngles (dynOf (α := ℝ) et).lyapFun (callAt C oeT woe f x) = .ok o)
    (hv : (dynOf (α := ℝ) et).eom t x
      { mu := C.mu, u := fun c => f * unitDir o.alpha o.beta c,
        psi0 := o.psi 0, psi1 := o.psi 1, psi2 := o.psi 2, ptrb := 0 } = .ok v) :
    v = loopRate et (unitCall C oeT woe x) f := by
  have hdir := law_direction hf h
  funext i
  induction i using Fin.lastCases with
  | last =>
    refine (eom_fast hv).trans (Eq.trans ?_ (loopRate_fast et (unitCall C oeT woe x) f).symm)
    simp only [hdir, Pi.zero_apply, add_zero, Finset.mul_sum, lawDir]
    congr 1
    refine Finset.sum_congr rfl fun c _ => ?_
    simp only [unitCall]; ring
  | cast j =>
    rw [dyn_slow et _ _ _ v hv j, loopRate_slow, law_psi h]
    simp only [hdir, Pi.zero_apply, add_zero, lawRates, Fin.sum_univ_three]
    ring

theorem safety_same {l u : Fin 5 → ℝ} {L U : List ℝ} (hl : BoundsAre L l) (hu : BoundsAre U u)
    {z y : Fin 6 → ℝ} (hz : ∀ j : Fin 5, l j ≤ z j.castSucc ∧ z j.castSucc ≤ u j)
    (h : elementsSafety z L U = .ok y) : y = z := by
  funext i
  induction i using Fin.lastCases with
  | last =>
    obtain ⟨lt, rfl⟩ := bounds_list hl
    obtain ⟨ut, rfl⟩ := bounds_list hu
    simp only [elementsSafety] at h
    injection h with h
    rw [← h]; rfl
  | cast j => exact safety_inside hl hu hz h j

/-- the mass after a stretch of thrusting steps from the start -/
theorem mass_stretch [PyNan ℝ] {Q Q' : QLaw ℝ} {etaA etaR : EtaArg ℝ} {fuel : ℕ} {P : Problem ℝ} {H : Hist ℝ}
    (h : Q.solve etaA etaR fuel = some (Q', none)) (hP : Q.prob = some P) (hH : Q'.hist = some H) {n : ℕ}
    (hθ : ∀ k < n, ∃ a b, H.controls[k]? = some (a, b, 1)) (k : ℕ) (hk : k ≤ n) :
    ∀ t m, H.times[k]? = some t → H.masses[k]? = some m → m = P.mass0 - P.mdot * t := by
  obtain ⟨H1, P1, P1', n, g1, g2, -, g3, g4, -, g5, -⟩ := C01_histories_aligned h
  rw [hH] at g1; injection g1 with g1; subst g1
  rw [hP] at g2; injection g2 with g2; subst g2
  induction k with
  | zero =>
    intro t m ht hm
    rw [List.head?_eq_getElem?, ht] at g4; injection g4 with g4
    rw [List.head?_eq_getElem?, hm] at g5; injection g5 with g5
    rw [g4, g5]; simp
  | succ k ih =>
    intro t m ht hm
    obtain ⟨a, b, hc⟩ := hθ k (by omega)
    obtain ⟨t1, st, m1, e1, e2, e3, e4⟩ := C13_step_mass h hP hH hc
    rw [ht] at e2; injection e2 with e2
    rcases e4 with ⟨-, e4⟩ | ⟨e4, -⟩
    · rw [hm] at e4; injection e4 with e4
      rw [e4, ih (by omega) t1 m1 e1 e3, e2]; ring
    · omega

/-- what one thrusting step records, in terms of the law at the recorded state -/
theorem step_rates [PyNan ℝ] {C : Config ℝ} {et : ElemType} (hd : C.dyn = dynOf et) (hp : C.perturbations = none)
    {oeT woe : Fin 5 → ℝ} {tmax : ℝ} (hT : 0 < tmax) {Q Q' : QLaw ℝ} {P : Problem ℝ} {etaA etaR : EtaArg ℝ} {fuel : ℕ}
    {H : Hist ℝ} (hC : Q.cfg = C) (hP : Q.prob = some P) (hoe : P.oeT = List.ofFn oeT) (hw : P.woe = woe)
    (ht0 : P.tmax = tmax) (h : Q.solve etaA etaR fuel = some (Q', none)) (hH : Q'.hist = some H) {k : ℕ}
    {a b t t' m : ℝ} {x y : Fin 6 → ℝ} (hc : H.controls[k]? = some (a, b, 1)) (ht : H.times[k]? = some t)
    (ht' : H.times[k + 1]? = some t') (hx : H.states[k]? = some x) (hm : H.masses[k]? = some m) (hm0 : 0 < m)
    (hy : H.states[k + 1]? = some y) (hlt : t < t') :
    (∀ c, |lawDir et (unitCall C oeT woe x) c| ≤ 1) ∧
    ∃ z psi u, Propagates C t (t' - t) x u psi 0 z ∧ psi = candPsi et (unitCall C oeT woe x) ∧
      (∀ c, u c = tmax / m * lawDir et (unitCall C oeT woe x) c) ∧
      (y = z ∨ C.elementsType = .keplerian ∧ elementsSafety z C.oeMin C.oeMax = .ok y) := by
  subst hC hw ht0
  obtain ⟨st, oeT', o, ptrb, u, g1, g2, g3, -, -, -, g7, g8, g9⟩ := C80_law_applied h hP hH hc ht hx hm
  rw [ht'] at g1; injection g1 with g1
  have hst : st = t' - t := by linarith
  subst hst
  have : oeT' = oeT := List.ofFn_injective (g2.symm.trans hoe)
  subst this
  have hs : 0 < t' - t := by linarith
  rw [recArgs_call hs, hd] at g3
  have hf : 0 < P.tmax / m := div_pos hT hm0
  have hdir := law_direction hf g3
  have hpt : ptrb = 0 := by
    simp only [PerturbationIs, hp] at g7
    rw [g7]; funext i; fin_cases i <;> simp
  subst hpt
  have hu : ∀ c, u c = P.tmax / m * lawDir et (unitCall Q.cfg oeT' P.woe x) c := by
    intro c
    rcases g9 with ⟨g9, -⟩ | ⟨-, g9⟩
    · omega
    · have : dirOf o.alpha o.beta = unitDir o.alpha o.beta := by
        funext c; fin_cases c <;> simp [dirOf, unitDir]
      rw [g9, sign_pos hs, this]
      simp only [vsmul, hdir, one_mul, lawDir]
  refine ⟨fun c => ?_, ((envOf Q P etaA etaR).after (k + 1)).oe, o.psi, u, g8, law_psi g3, hu, ?_⟩
  · have e : lawDir et (unitCall Q.cfg oeT' P.woe x) c = unitDir o.alpha o.beta c := (hdir c).symm
    rw [e]
    have h1 := Real.abs_cos_le_one o.beta
    have h2 := Real.abs_sin_le_one o.alpha
    have h3 := Real.abs_cos_le_one o.alpha
    fin_cases c <;> simp [unitDir, abs_mul]
    · exact mul_le_one₀ h1 (abs_nonneg _) h2
    · exact mul_le_one₀ h1 (abs_nonneg _) h3
    · exact Real.abs_sin_le_one _
  · obtain ⟨n, tr, D, r, hr, hrH, v⟩ := solve_view h hP hH
    obtain ⟨hk1, hy'⟩ := state_or_clamp hr hrH v hy
    rw [← v.trace.after (k + 1) hk1]
    rcases hy' with hy' | ⟨s1, hs1, hy'⟩
    · exact Or.inl hy'
    · rcases clamp_cases hs1 with ⟨-, h2⟩ | ⟨hE, oe, h2, h3⟩
      · left; rw [hy', h2]
      · right
        exact ⟨hE, by rw [h2, hy', h3]⟩

/-- the first recorded state is the initial one if that lies within the bounds -/
theorem first_state [PyNan ℝ] {Q Q' : QLaw ℝ} {P : Problem ℝ} {etaA etaR : EtaArg ℝ} {fuel : ℕ}
    {H : Hist ℝ} (hP : Q.prob = some P) (h : Q.solve etaA etaR fuel = some (Q', none)) (hH : Q'.hist = some H)
    {l u : Fin 5 → ℝ} (hl : Q.cfg.elementsType = .keplerian → BoundsAre Q.cfg.oeMin l ∧ BoundsAre Q.cfg.oeMax u)
    (hb : Q.cfg.elementsType = .keplerian → ∀ j : Fin 5, l j ≤ P.oe0 j.castSucc ∧ P.oe0 j.castSucc ≤ u j)
    {x : Fin 6 → ℝ} (hx : H.states[0]? = some x) : x = P.oe0 := by
  obtain ⟨n, tr, D, r, hr, hrH, v⟩ := solve_view h hP hH
  obtain ⟨-, hx⟩ := state_or_clamp hr hrH v hx
  have h0 : (tr 0).oe = P.oe0 := by
    rw [show tr 0 = initLoop P from v.trace.init]; rfl
  rcases hx with hx | ⟨s1, hs1, hx⟩
  · rw [hx, h0]
  · rcases clamp_cases hs1 with ⟨-, h2⟩ | ⟨hE, oe, h2, h3⟩
    · rw [hx, h2, h0]
    · rw [hx, h3]
      rw [h0] at h2
      exact safety_same (hl hE).1 (hl hE).2 (hb hE) h2

/-- the first `n` steps of a history thrust forward, each no longer than `h` -/
def ThrustsUpTo (H : Hist ℝ) (n : ℕ) (h : ℝ) : Prop :=
  ∀ k < n, ∃ a b t t', H.controls[k]? = some (a, b, 1) ∧ H.times[k]? = some t ∧ H.times[k + 1]? = some t' ∧
    t < t' ∧ t' ≤ t + h

set_option maxHeartbeats 1000000 in
/-- **C107.** For an object without perturbations and a motion under the law with continuous thrust, along which
`Q` is smooth, the elements stay strictly inside their bounds and mass remains, there are a step length and a
constant such that every run from the same state and mass whose steps thrust and are no longer than `h` is at
most `K h` away from the motion, in every element and at every recorded time. With `rk4` the motion is the
true one; with `rkf45` it runs at `1 + 2197/5610168` times the speed. -/
theorem C107_limit [PyNan ℝ] {C : Config ℝ} {et : ElemType} (hd : C.dyn = dynOf et) (hp : C.perturbations = none)
    {oeT woe l u : Fin 5 → ℝ} {tmax m0 mdot T : ℝ} {γ : ℝ → Fin 6 → ℝ}
    (hl : C.elementsType = .keplerian → BoundsAre C.oeMin l ∧ BoundsAre C.oeMax u)
    (hM : LawMotion C et oeT woe tmax m0 mdot (gain C.integrator) T γ)
    (hS : ∀ t ∈ Icc 0 T, LawSmooth et (unitCall C oeT woe (γ t)) ∧
      (C.elementsType = .keplerian → ∀ j : Fin 5, l j < γ t j.castSucc ∧ γ t j.castSucc < u j))
    (hT : 0 < tmax) (hmd : 0 ≤ mdot) (hm : 0 < m0 - mdot * T) :
    ∃ δ > 0, ∃ K ≥ 0, ∀ h, 0 < h → h < δ →
      ∀ (Q Q' : QLaw ℝ) (P : Problem ℝ) (etaA etaR : EtaArg ℝ) (fuel : ℕ) (H : Hist ℝ),
      Q.cfg = C → Q.prob = some P → P.oeT = List.ofFn oeT → P.woe = woe → P.tmax = tmax → P.mass0 = m0 →
      P.mdot = mdot → P.oe0 = γ 0 → Q.solve etaA etaR fuel = some (Q', none) → Q'.hist = some H →
      ∀ (n : ℕ) (t : ℝ) (x : Fin 6 → ℝ), H.times[n]? = some t → t ≤ T → H.states[n]? = some x → ThrustsUpTo H n h →
        ∀ i, |x i - γ t i| ≤ K * h := by
  have hg : 0 < gain C.integrator := gain_pos _
  have hg2 : gain C.integrator ≤ 2 := by cases C.integrator <;> norm_num [gain]
  obtain ⟨g, hgdef⟩ : ∃ g, g = gain C.integrator := ⟨_, rfl⟩
  rw [← hgdef] at hM hg hg2
  have hmass : ∀ t ∈ Icc 0 T, 0 < m0 - mdot * t := fun t ht => by
    have := mul_le_mul_of_nonneg_left ht.2 hmd
    linarith
  have hcont : ContinuousOn γ (Icc 0 T) := fun t ht => by
    obtain ⟨o, v, -, -, h3⟩ := hM t ht
    exact h3.continuousWithinAt
  have hgrad : ∀ t ∈ Icc 0 T, lawGrad et (unitCall C oeT woe (γ t)) ≠ 0 := fun t ht => by
    obtain ⟨o, v, h1, -⟩ := hM t ht
    exact lawGrad_ne h1
  -- the field
  set V : ℝ × (Fin 6 → ℝ) → ℝ × (Fin 6 → ℝ) := fun y => ((1 : ℝ),
      g • loopRate et (unitCall C oeT woe y.2) (tmax / (m0 - mdot * y.1))) with hVdef
  have hΓ : ∀ t ∈ Icc 0 T, HasDerivWithinAt (fun t => (t, γ t)) (V (t, γ t)) (Icc 0 T) t := by
    intro t ht
    obtain ⟨o, v, h1, h2, h3⟩ := hM t ht
    have := motion_rate (div_pos hT (hmass t ht)) h1 h2
    rw [this] at h3
    exact (hasDerivWithinAt_id t _).prodMk h3
  have hV : ∀ t ∈ Icc 0 T, ContDiffAt ℝ 1 V (t, γ t) := fun t ht =>
    loop_c1 (hS t ht).1 (hgrad t ht) tmax m0 mdot g (hmass t ht).ne'
  -- a tube around the motion
  obtain ⟨L, hL, ρ1, hρ1, hΦ⟩ := tube_lipschitz (f := fun x => (fastRow et C.mu x, fastSelf et C.mu x,
      lawRates et (unitCall C oeT woe x))) hcont (fun t ht => by
    have e1 := fast_smooth (N := 1) (hS t ht).1.1
    exact (contDiffAt_pi.2 e1.1).prodMk (e1.2.prodMk (contDiffAt_pi.2 (law_c1 (hS t ht).1 (hgrad t ht)).2)))
  have hU : IsOpen {x : Fin 6 → ℝ | C.elementsType = .keplerian → ∀ j : Fin 5, l j < x j.castSucc ∧ x j.castSucc < u j} := by
    by_cases hk : C.elementsType = .keplerian
    · simp only [hk, true_imp_iff, Set.ofPred_forall]
      refine isOpen_iInter_of_finite fun j => ?_
      exact (isOpen_lt continuous_const (continuous_apply _)).inter (isOpen_lt (continuous_apply _) continuous_const)
    · simp [hk]
  obtain ⟨ρ2, hρ2, hin⟩ := tube_open hcont hU fun t ht => (hS t ht).2
  obtain ⟨ρ, hρdef⟩ : ∃ ρ, ρ = min ρ1 ρ2 := ⟨_, rfl⟩
  have hρ : 0 < ρ := by rw [hρdef]; exact lt_min hρ1 hρ2
  -- bounds
  obtain ⟨fM, hfM⟩ : ∃ fM, fM = tmax / (m0 - mdot * T) := ⟨_, rfl⟩
  have hfM0 : 0 < fM := by rw [hfM]; exact div_pos hT hm
  have hf : ∀ t ∈ Icc 0 T, 0 < tmax / (m0 - mdot * t) ∧ tmax / (m0 - mdot * t) ≤ fM := by
    intro t ht
    refine ⟨div_pos hT (hmass t ht), ?_⟩
    rw [hfM]
    have := ht.2
    gcongr
  obtain ⟨M, hMdef⟩ : ∃ M, M = (3 * fM + 1) * L := ⟨_, rfl⟩
  have hM0 : 0 < M := by rw [hMdef]; positivity
  have hrow : ∀ t ∈ Icc 0 T, ∀ y ∈ ball (γ t) ρ, (∀ c, |fastRow et C.mu y c| ≤ L) ∧ |fastSelf et C.mu y| ≤ L ∧
      (∀ j, |lawRates et (unitCall C oeT woe y) j| ≤ L) ∧ ∀ z ∈ ball (γ t) ρ,
        (∀ c, |fastRow et C.mu y c - fastRow et C.mu z c| ≤ L * ‖y - z‖) ∧
        |fastSelf et C.mu y - fastSelf et C.mu z| ≤ L * ‖y - z‖ := by
    intro t ht y hy
    have hsub : ball (γ t) ρ ⊆ ball (γ t) ρ1 := ball_subset_ball (by rw [hρdef]; exact min_le_left _ _)
    obtain ⟨h1, h2⟩ := hΦ t ht y (hsub hy)
    rw [Prod.norm_def, Prod.norm_def, max_le_iff, max_le_iff] at h1
    refine ⟨fun c => (norm_le_pi_norm (fastRow et C.mu y) c).trans h1.1, h1.2.1, fun j =>
      (norm_le_pi_norm (lawRates et (unitCall C oeT woe y)) j).trans h1.2.2, fun z hz => ?_⟩
    have h3 := h2 z (hsub hz)
    rw [Prod.norm_def, Prod.norm_def, max_le_iff, max_le_iff] at h3
    exact ⟨fun c => (norm_le_pi_norm (fastRow et C.mu y - fastRow et C.mu z) c).trans h3.1, h3.2.1⟩
  obtain ⟨W, hW⟩ : ∃ W, W = 22 * M + 40 * M * M := ⟨_, rfl⟩
  have hW0 : 0 < W := by rw [hW]; positivity
  obtain ⟨δ0, hδ0, K, hK, hE⟩ := euler_converges (B := 40 * M * M) (ρ0 := ρ / 2) hΓ hV (by positivity) (by positivity)
  refine ⟨min (min δ0 1) (ρ / (2 * W)), by positivity, K, hK, ?_⟩
  intro h hh hhδ Q Q' P etaA etaR fuel H hC hP hoe hw ht0 hm0 hmd0 hoe0 hsol hH n tn xn htn htT hxn hthr
  have hh0 : h < δ0 := hhδ.trans_le ((min_le_left _ _).trans (min_le_left _ _))
  have hh1 : h < 1 := hhδ.trans_le ((min_le_left _ _).trans (min_le_right _ _))
  have hhW : h * W < ρ / 2 := by
    have := hhδ.trans_le (min_le_right _ _)
    rw [lt_div_iff₀ (by positivity)] at this
    linarith
  obtain ⟨H1, P1, P1', N, a1, a2, -, al, at0, -, am0, -⟩ := C01_histories_aligned hsol
  rw [hH] at a1; injection a1 with a1; subst a1
  rw [hP] at a2; injection a2 with a2; subst a2
  have hnN : n ≤ N := by
    have := (List.getElem?_eq_some_iff.1 htn).1
    rw [al.times] at this; omega
  have getT : ∀ k ≤ n, H.times[k]? = some (H.times.getD k 0) := fun k hk => by
    have hlt : k < H.times.length := by rw [al.times]; omega
    simp [List.getD_eq_getElem?_getD, List.getElem?_eq_getElem hlt]
  have getX : ∀ k ≤ n, H.states[k]? = some (H.states.getD k 0) := fun k hk => by
    have hlt : k < H.states.length := by rw [al.states]; omega
    simp [List.getD_eq_getElem?_getD, List.getElem?_eq_getElem hlt]
  have getM : ∀ k ≤ n, ∃ m, H.masses[k]? = some m := fun k hk => by
    have hlt : k < H.masses.length := by rw [al.masses]; omega
    exact ⟨_, List.getElem?_eq_getElem hlt⟩
  obtain ⟨τ, hτ⟩ : ∃ τ : ℕ → ℝ, τ = fun k => H.times.getD k 0 := ⟨_, rfl⟩
  obtain ⟨X, hX⟩ : ∃ X : ℕ → Fin 6 → ℝ, X = fun k => H.states.getD k 0 := ⟨_, rfl⟩
  have gT : ∀ k ≤ n, H.times[k]? = some (τ k) := by rw [hτ]; exact getT
  have gX : ∀ k ≤ n, H.states[k]? = some (X k) := by rw [hX]; exact getX
  have hτ0 : τ 0 = 0 := by
    have := gT 0 (Nat.zero_le _)
    rw [List.head?_eq_getElem?, this] at at0
    injection at0 with at0
    rw [at0]; simp
  have hstep : ∀ k < n, τ k < τ (k + 1) ∧ τ (k + 1) ≤ τ k + h ∧ ∃ a b, H.controls[k]? = some (a, b, 1) := by
    intro k hk
    obtain ⟨a, b, t, t', h1, h2, h3, h4, h5⟩ := hthr k hk
    rw [gT k hk.le] at h2; injection h2 with h2
    rw [gT (k + 1) hk] at h3; injection h3 with h3
    subst h2 h3
    exact ⟨h4, h5, a, b, h1⟩
  have hmono : ∀ j ≤ n, 0 ≤ τ j ∧ ∀ k ≤ j, τ k ≤ τ j := by
    intro j
    induction j with
    | zero => intro _; exact ⟨hτ0.ge, fun k hk => by rw [Nat.le_zero.1 hk]⟩
    | succ j ih =>
      intro hj
      have h1 := ih (by omega)
      have h2 := (hstep j (by omega)).1.le
      refine ⟨h1.1.trans h2, fun k hk => ?_⟩
      rcases Nat.lt_or_ge k (j + 1) with h3 | h3
      · exact (h1.2 k (by omega)).trans h2
      · rw [le_antisymm hk h3]
  have hτn : τ n = tn := by
    have := gT n le_rfl
    rw [htn] at this; injection this with this; exact this.symm
  have hmem : ∀ k ≤ n, τ k ∈ Icc 0 T := fun k hk =>
    ⟨(hmono k hk).1, ((hmono n le_rfl).2 k hk).trans (by rw [hτn]; exact htT)⟩
  have hX0 : X 0 = γ 0 := by
    rw [← hoe0]
    subst hC
    refine first_state hP hsol hH hl (fun hk j => ?_) (gX 0 (Nat.zero_le _))
    rw [hoe0]
    have h00 : (0 : ℝ) ∈ Icc 0 T := by
      have := hmem 0 (Nat.zero_le _)
      rwa [hτ0] at this
    have := (hS 0 h00).2 hk j
    exact ⟨this.1.le, this.2.le⟩
  have key : ∀ k < n, ‖(τ k, X k) - (τ k, γ (τ k))‖ < ρ / 2 →
      ‖(τ (k + 1), X (k + 1)) - (τ k, X k) - (τ (k + 1) - τ k) • V (τ k, X k)‖ ≤
        40 * M * M * (τ (k + 1) - τ k) ^ 2 := by
    intro k hk hnear
    have ht := hmem k hk.le
    obtain ⟨h1, h2, a, b, hc⟩ := hstep k hk
    have hd1 : ‖X k - γ (τ k)‖ < ρ / 2 := by
      refine lt_of_le_of_lt ?_ hnear
      exact (norm_snd_le ((τ k, X k) - (τ k, γ (τ k))))
    have hball : ∀ z, ‖z - X k‖ < ρ / 2 → z ∈ ball (γ (τ k)) ρ := by
      intro z hz
      rw [mem_ball, dist_eq_norm]
      have : z - γ (τ k) = (z - X k) + (X k - γ (τ k)) := by abel
      rw [this]
      linarith [norm_add_le (z - X k) (X k - γ (τ k))]
    obtain ⟨s, hs⟩ : ∃ s, s = τ (k + 1) - τ k := ⟨_, rfl⟩
    have hs0 : 0 < s := by linarith
    have hsh : s ≤ h := by linarith
    obtain ⟨m, hmk⟩ := getM k hk.le
    have hmv : m = m0 - mdot * τ k := by
      rw [← hm0, ← hmd0]
      exact mass_stretch hsol hP hH (n := n) (fun j hj => (hstep j hj).2.2) k hk.le _ _ (gT k hk.le) hmk
    have hmp : 0 < m := by rw [hmv]; exact hmass _ ht
    obtain ⟨hf0, hf1⟩ := hf _ ht
    rw [← hmv] at hf0 hf1
    obtain ⟨hdir, z, psi, uu, hprop, hpsi, hu, hclamp⟩ := step_rates hd hp hT hC hP hoe hw ht0 hsol hH hc (gT k hk.le)
      (gT (k + 1) hk) (gX k hk.le) hmk hmp (gX (k + 1) hk) h1
    rw [← hs] at hprop
    have hxk : X k ∈ ball (γ (τ k)) ρ := hball _ (by rw [sub_self, norm_zero]; linarith)
    obtain ⟨b1, b2, b3, b4⟩ := hrow _ ht _ hxk
    have hub : ∀ c, |uu c| ≤ fM := by
      intro c
      rw [hu c, abs_mul, abs_of_pos hf0]
      calc _ ≤ fM * 1 := by gcongr; exact hdir c
        _ = fM := mul_one _
    have hslow : ∀ j, ∑ c : Fin 3, psi c j * (uu c + (0 : Fin 3 → ℝ) c) =
        tmax / m * lawRates et (unitCall C oeT woe (X k)) j := by
      intro j
      rw [lawRates, Finset.mul_sum]
      refine Finset.sum_congr rfl fun c _ => ?_
      rw [hpsi, hu c, Pi.zero_apply, lawDir]; ring
    have hslowM : ∀ j, |∑ c : Fin 3, psi c j * (uu c + (0 : Fin 3 → ℝ) c)| ≤ M := by
      intro j
      rw [hslow j, abs_mul, abs_of_pos hf0]
      calc _ ≤ fM * L := by gcongr; exact b3 j
        _ ≤ M := by rw [hMdef]; nlinarith
    have hfastM : ∀ z, ‖z - X k‖ < ρ / 2 →
        |∑ c : Fin 3, fastRow et C.mu z c * (uu c + (0 : Fin 3 → ℝ) c) + fastSelf et C.mu z| ≤ M ∧
        |∑ c : Fin 3, fastRow et C.mu z c * (uu c + (0 : Fin 3 → ℝ) c) + fastSelf et C.mu z -
          (∑ c : Fin 3, fastRow et C.mu (X k) c * (uu c + (0 : Fin 3 → ℝ) c) + fastSelf et C.mu (X k))| ≤
          M * ‖z - X k‖ := by
      intro z hz
      obtain ⟨c1, c2, -, c4⟩ := hrow _ ht _ (hball z hz)
      obtain ⟨d1, d2⟩ := c4 _ hxk
      simp only [Pi.zero_apply, add_zero, Fin.sum_univ_three]
      have p1 : ∀ c, |fastRow et C.mu z c * uu c| ≤ L * fM := fun c => by
        rw [abs_mul]; exact mul_le_mul (c1 c) (hub c) (abs_nonneg _) hL.le
      have p2 : ∀ c, |(fastRow et C.mu z c - fastRow et C.mu (X k) c) * uu c| ≤ L * ‖z - X k‖ * fM := fun c => by
        rw [abs_mul]; exact mul_le_mul (d1 c) (hub c) (abs_nonneg _) (by positivity)
      constructor
      · have q0 := abs_le.1 (p1 0)
        have q1 := abs_le.1 (p1 1)
        have q2 := abs_le.1 (p1 2)
        have q3 := abs_le.1 c2
        rw [hMdef]
        refine abs_le.2 ⟨by linarith [q0.1, q1.1, q2.1, q3.1], by linarith [q0.2, q1.2, q2.2, q3.2]⟩
      · have q0 := abs_le.1 (p2 0)
        have q1 := abs_le.1 (p2 1)
        have q2 := abs_le.1 (p2 2)
        have q3 := abs_le.1 d2
        have e : M * ‖z - X k‖ = L * ‖z - X k‖ * fM + L * ‖z - X k‖ * fM + L * ‖z - X k‖ * fM + L * ‖z - X k‖ := by
          rw [hMdef]; ring
        rw [e]
        refine abs_le.2 ⟨by linarith [q0.1, q1.1, q2.1, q3.1], by linarith [q0.2, q1.2, q2.2, q3.2]⟩
    have hsW : s * W < ρ / 2 := lt_of_le_of_lt (by gcongr) hhW
    have hfast := propagates_fast hd hprop hs0.le (hsh.trans hh1.le) hM0.le (r := ρ / 2) (M := M) (L := M)
      (by rw [hW] at hsW; nlinarith [mul_pos hs0 hM0, mul_pos hs0 (mul_pos hM0 hM0)]) hslowM hfastM
    have hsl := propagates_slow hd hprop
    rw [← hgdef] at hfast
    -- the rates of the field
    have hrs : ∀ j : Fin 5, z j.castSucc - X k j.castSucc - s * (V (τ k, X k)).2 j.castSucc = 0 := by
      intro j
      rw [hsl j, hslow j, ← hgdef]
      simp only [hVdef, Pi.smul_apply, smul_eq_mul, loopRate_slow, ← hmv]
      ring
    have hrf : |z 5 - X k 5 - s * (V (τ k, X k)).2 5| ≤ 40 * M * M * s ^ 2 := by
      refine le_trans (le_of_eq ?_) hfast
      congr 1
      simp only [hVdef, Pi.smul_apply, smul_eq_mul, loopRate_fast, ← hmv, Pi.zero_apply, add_zero, hu, Finset.mul_sum]
      have : ∀ c : Fin 3, fastRow et (unitCall C oeT woe (X k)).mu (unitCall C oeT woe (X k)).oe c = fastRow et C.mu (X k) c :=
        fun _ => rfl
      have e2 : fastSelf et (unitCall C oeT woe (X k)).mu (unitCall C oeT woe (X k)).oe = fastSelf et C.mu (X k) := rfl
      simp only [this, e2, Fin.sum_univ_three]
      ring
    -- no clamp
    have hzx : ‖z - X k‖ < ρ / 2 := by
      refine lt_of_le_of_lt ((pi_norm_le_iff_of_nonneg (r := s * W) (by positivity)).2 fun i => ?_) hsW
      have hgs : g * s ≤ 2 * s := by gcongr
      rw [Real.norm_eq_abs, Pi.sub_apply]
      have hsM : 0 ≤ s * M := by positivity
      have hsMM : 0 ≤ s * (M * M) := by positivity
      induction i using Fin.lastCases with
      | last =>
        have e5 : |z 5 - X k 5| ≤ s * W := by
          have q1 := (hfastM (X k) (by rw [sub_self, norm_zero]; linarith)).1
          have q2 : |g * s * (∑ c : Fin 3, fastRow et C.mu (X k) c * (uu c + (0 : Fin 3 → ℝ) c) +
              fastSelf et C.mu (X k))| ≤ 2 * s * M := by
            rw [abs_mul, abs_of_pos (by positivity)]
            gcongr
          have q3 := abs_le.1 q2
          have q4 := abs_le.1 hfast
          have q5 : 40 * M * M * s ^ 2 ≤ 40 * (s * (M * M)) := by
            have : s ^ 2 ≤ s * 1 := by rw [sq]; gcongr; linarith
            nlinarith [mul_pos hM0 hM0]
          rw [hW]
          refine abs_le.2 ⟨by linarith [q3.1, q4.1], by linarith [q3.2, q4.2]⟩
        exact e5
      | cast j =>
        have q1 := hslowM j
        rw [hsl j, ← hgdef, add_sub_cancel_left, ← mul_assoc, abs_mul, abs_of_pos (by positivity)]
        calc _ ≤ 2 * s * M := by gcongr
          _ ≤ s * W := by rw [hW]; nlinarith
    have hyz : X (k + 1) = z := by
      rcases hclamp with hy | ⟨hk', hy⟩
      · exact hy
      · refine safety_same (hl hk').1 (hl hk').2 (fun j => ?_) hy
        have hz2 : z ∈ ball (γ (τ k)) ρ2 := ball_subset_ball (by rw [hρdef]; exact min_le_right _ _) (hball z hzx)
        have := hin _ ht hz2 hk' j
        exact ⟨this.1.le, this.2.le⟩
    rw [hyz, ← hs, Prod.norm_def, max_le_iff]
    constructor
    · have : ((τ (k + 1), z) - (τ k, X k) - s • V (τ k, X k)).1 = 0 := by
        simp [hVdef, hs]
      rw [this, norm_zero]; positivity
    · refine (pi_norm_le_iff_of_nonneg (by positivity)).2 fun i => ?_
      have e : ((τ (k + 1), z) - (τ k, X k) - s • V (τ k, X k)).2 i = z i - X k i - s * (V (τ k, X k)).2 i := rfl
      rw [e, Real.norm_eq_abs]
      induction i using Fin.lastCases with
      | last => exact hrf
      | cast j => rw [hrs j, abs_zero]; positivity
  have hfin := (hE h hh hh0 n τ (fun k => (τ k, X k)) hτ0 (by simp [hτ0, hX0])
    (fun k hk => ⟨(hstep k hk).1.le, (hstep k hk).2.1⟩) (by rw [hτn]; exact htT) key n le_rfl).1
  have hXn : X n = xn := by
    have := gX n le_rfl
    rw [hxn] at this; injection this with this; exact this.symm
  intro i
  have e1 : ‖X n - γ (τ n)‖ ≤ K * h := (norm_snd_le ((τ n, X n) - (τ n, γ (τ n)))).trans hfin
  rw [hXn, hτn] at e1
  exact (norm_le_pi_norm (xn - γ tn) i).trans e1

/-! ## such motions exist -/

theorem lawSmooth_near {C : Config ℝ} {oeT woe : Fin 5 → ℝ} {et : ElemType} {x : Fin 6 → ℝ}
    (H : LawSmooth et (unitCall C oeT woe x)) : ∀ᶠ y in 𝓝 x, LawSmooth et (unitCall C oeT woe y) := by
  have c : ∀ i : Fin 6, ContinuousAt (fun y : Fin 6 → ℝ => y i) x := fun i => (continuous_apply i).continuousAt
  have ltc : ∀ {φ : (Fin 6 → ℝ) → ℝ} {a : ℝ}, ContinuousAt φ x → a < φ x → ∀ᶠ y in 𝓝 x, a < φ y :=
    fun h1 h2 => h1.eventually (lt_mem_nhds h2)
  have gtc : ∀ {φ : (Fin 6 → ℝ) → ℝ} {a : ℝ}, ContinuousAt φ x → φ x < a → ∀ᶠ y in 𝓝 x, φ y < a :=
    fun h1 h2 => h1.eventually (gt_mem_nhds h2)
  have nec : ∀ {φ : (Fin 6 → ℝ) → ℝ} {a : ℝ}, ContinuousAt φ x → φ x ≠ a → ∀ᶠ y in 𝓝 x, φ y ≠ a :=
    fun h1 h2 => h1.eventually_ne h2
  cases et with
  | keplerian =>
    have K : KepSmooth (unitCall C oeT woe x) := H.1
    have s1 : ∀ᶠ y in 𝓝 x, (oeT 0 < y 0 ∨ ∃ j : ℕ, C.nPetro = 2 * j) ∨ WholeScale (unitCall C oeT woe y) := by
      rcases K.sma with (h | h) | h
      · exact (ltc (c 0) h).mono fun y hy => Or.inl (Or.inl hy)
      · exact Filter.Eventually.of_forall fun y => Or.inl (Or.inr h)
      · exact Filter.Eventually.of_forall fun y => Or.inr h
    have s2 : ∀ᶠ y in 𝓝 x, woe 2 = 0 ∨ Real.cos (y 4) ≠ 0 := by
      rcases K.inc with h | h
      · exact Filter.Eventually.of_forall fun y => Or.inl h
      · exact (nec (Real.continuous_cos.continuousAt.comp (c 4)) h).mono fun y hy => Or.inr hy
    have s3 : ∀ᶠ y in 𝓝 x, woe 3 = 0 ∨ Real.sin (y 4) ≠ 0 ∧ Real.cos (y 3 - oeT 3) ≠ -1 := by
      rcases K.raan with h | ⟨h1, h2⟩
      · exact Filter.Eventually.of_forall fun y => Or.inl h
      · exact ((nec (Real.continuous_sin.continuousAt.comp (c 4)) h1).and
          (nec (Real.continuous_cos.continuousAt.comp ((c 3).sub continuousAt_const)) h2)).mono fun y hy => Or.inr hy
    have s4 : ∀ᶠ y in 𝓝 x, woe 4 = 0 ∨ Real.sin (y 4) ≠ 0 ∧ Real.cos (y 2) ≠ 0 ∧ Real.cos (y 4 - oeT 4) ≠ -1 := by
      rcases K.aop with h | ⟨h1, h2, h3⟩
      · exact Filter.Eventually.of_forall fun y => Or.inl h
      · exact ((nec (Real.continuous_sin.continuousAt.comp (c 4)) h1).and
          ((nec (Real.continuous_cos.continuousAt.comp (c 2)) h2).and
          (nec (Real.continuous_cos.continuousAt.comp ((c 4).sub continuousAt_const)) h3))).mono fun y hy => Or.inr hy
    filter_upwards [ltc (c 0) K.a, ltc (c 1) K.e0, gtc (c 1) K.e1, ltc (c 2) K.i0, gtc (c 2) K.i1, s1, s2, s3, s4]
      with y h1 h2 h3 h4 h5 h6 h7 h8 h9
    exact ⟨⟨K.mu, K.f, h1, h2, h3, h4, h5, K.aT, K.m, K.b, K.rpmin, h6, h7, h8, h9⟩, fun h => by cases h⟩
  | meeWithA =>
    obtain ⟨K, hf⟩ := H.1
    have cc : ContinuousAt (fun y : Fin 6 → ℝ => y 1 ^ 2 + y 2 ^ 2) x := ((c 1).pow 2).add ((c 2).pow 2)
    have s1 : ∀ᶠ y in 𝓝 x, y 0 ≠ oeT 0 ∨ 1 < C.nPetro := by
      rcases K.sma with h | h
      · exact (nec (c 0) h).mono fun y hy => Or.inl hy
      · exact Filter.Eventually.of_forall fun y => Or.inr h
    have s2 : ∀ᶠ y in 𝓝 x, y 0 ≠ oeT 0 ∨ ∃ j : ℕ, C.nPetro = 2 * j := by
      rcases H.2 rfl with h | h
      · exact (nec (c 0) h).mono fun y hy => Or.inl hy
      · exact Filter.Eventually.of_forall fun y => Or.inr h
    filter_upwards [ltc (c 0) K.a, ltc cc K.ecc0, gtc cc K.ecc, nec (c 1) hf, s1, s2] with y h1 h2 h3 h4 h5 h6
    exact ⟨⟨⟨K.mu, K.f, h1, h2, h3, K.aT, K.m, K.rpmin, h5⟩, h4⟩, fun _ => h6⟩

theorem lawGrad_cont {C : Config ℝ} {oeT woe : Fin 5 → ℝ} {et : ElemType} {x : Fin 6 → ℝ}
    (H : LawSmooth et (unitCall C oeT woe x)) (c : Fin 3) :
    ContinuousAt (fun y => lawGrad et (unitCall C oeT woe y) c) x := by
  simp only [lawGrad, thrustGrad]
  refine tendsto_finsetSum _ fun j _ => ContinuousAt.mul (candPsi_cont H.1 c j) ?_
  have hF : ContDiffAt ℝ 2 (fun x => candQ et (unitCall C oeT woe x)) x := candQ_smooth (N := 2) H
  have h1 : ContinuousAt (fun y => fderiv ℝ (fun x => candQ et (unitCall C oeT woe x)) y
      (Pi.single j.castSucc 1)) x :=
    ((hF.fderiv_right (m := 1) (by norm_num)).clm_apply contDiffAt_const).continuousAt
  refine h1.congr ?_
  filter_upwards [hF.eventually (by simp)] with y hy
  exact (partialQ_fderiv (A := unitCall C oeT woe y) (hy.differentiableAt (by norm_num)) j).symm

theorem eom_defined {et : ElemType} {A : LyapArgs ℝ} (H : CandSmooth et A) (t : ℝ) {P : OdeParams ℝ}
    (hP : P.mu = A.mu) : ∃ v, (dynOf (α := ℝ) et).eom t A.oe P = .ok v := by
  cases et with
  | keplerian =>
    have H : KepSmooth A := H
    exact ⟨_, eomKep_real (P := P) ⟨hP ▸ H.mu, H.a, H.e0, H.e1⟩ t⟩
  | meeWithA => exact ⟨_, eomMee_real (P := P) ⟨hP ▸ H.1.mu, H.1.a, H.1.ecc, H.2⟩ t⟩

theorem law_defined {C : Config ℝ} {et : ElemType} {oeT woe : Fin 5 → ℝ} {f : ℝ} {x : Fin 6 → ℝ} (hf : 0 < f)
    (hg : lawGrad et (unitCall C oeT woe x) 0 ≠ 0 ∨ lawGrad et (unitCall C oeT woe x) 1 ≠ 0) :
    ∃ o, lyapunovControlAngles (dynOf (α := ℝ) et).lyapFun (callAt C oeT woe f x) = .ok o := by
  have hu := dyn_lyap et (callAt C oeT woe f x)
  have e : ((dynOf (α := ℝ) et).lyapFun (callAt C oeT woe f x)).uRaw =
      vsmul (1 / f ^ 2) (lawGrad et (unitCall C oeT woe x)) := by
    rw [hu.1, ← lawGrad_call]; rfl
  have hk : 1 / f ^ 2 ≠ 0 := by positivity
  obtain ⟨o, h, -⟩ := control_value (dynOf (α := ℝ) et).lyapFun (callAt C oeT woe f x)
    (by rw [hu.1, hu.2.2.1, hu.2.2.2]) (by
      rw [e]
      exact hg.imp (mul_ne_zero hk) (mul_ne_zero hk))
  exact ⟨o, h⟩

/-- **C107, existence.** From every state strictly inside the bounds at which `Q` is smooth and in-plane thrust
can change it, there is a motion under the law with continuous thrust, for some time. -/
theorem C107_exists {C : Config ℝ} {et : ElemType} {oeT woe l u : Fin 5 → ℝ} {tmax m0 mdot g : ℝ} {x : Fin 6 → ℝ}
    (H : LawSmooth et (unitCall C oeT woe x))
    (hg : ∃ c : Fin 3, c ≠ 2 ∧ ∑ j : Fin 5, candPsi et (unitCall C oeT woe x) c j *
      partialQ (candQ et) (unitCall C oeT woe x) j ≠ 0)
    (hb : ∀ j : Fin 5, l j < x j.castSucc ∧ x j.castSucc < u j) (hT : 0 < tmax) (hm : 0 < m0) :
    ∃ T > 0, ∃ γ, γ 0 = x ∧ LawMotion C et oeT woe tmax m0 mdot g T γ ∧ 0 < m0 - mdot * T ∧
      ∀ t ∈ Icc 0 T, LawSmooth et (unitCall C oeT woe (γ t)) ∧
        ∀ j : Fin 5, l j < γ t j.castSucc ∧ γ t j.castSucc < u j := by
  have hg' : lawGrad et (unitCall C oeT woe x) 0 ≠ 0 ∨ lawGrad et (unitCall C oeT woe x) 1 ≠ 0 := by
    obtain ⟨c, h1, h2⟩ := hg
    fin_cases c
    · exact Or.inl h2
    · exact Or.inr h2
    · exact absurd rfl h1
  have hg0 : lawGrad et (unitCall C oeT woe x) ≠ 0 := by
    intro h
    rcases hg' with h1 | h1 <;> exact h1 (by rw [h]; rfl)
  have hV := loop_c1 H hg0 tmax m0 mdot g (t := 0) (by rw [mul_zero, sub_zero]; exact hm.ne')
  obtain ⟨α, α0, ε, hε, hα⟩ := hV.exists_forall_mem_closedBall_exists_eq_forall_mem_Ioo_hasDerivAt₀ 0
  simp only [zero_sub, zero_add] at hα
  have h00 : (0 : ℝ) ∈ Ioo (-ε) ε := ⟨by linarith, hε⟩
  -- the first component is the time
  have hfst : ∀ t ∈ Ioo (-ε) ε, (α t).1 = t := by
    have hd : ∀ t ∈ Ioo (-ε) ε, HasDerivAt (fun t => (α t).1 - t) 0 t := by
      intro t ht
      have h1 : HasDerivAt (fun t => (α t).1) 1 t := (hα t ht).fst
      have h2 : HasDerivAt (fun t => (α t).1 - t) (1 - 1) t := h1.sub (hasDerivAt_id t)
      rwa [sub_self] at h2
    intro t ht
    have := (isOpen_Ioo (a := -ε) (b := ε)).is_const_of_deriv_eq_zero (convex_Ioo (-ε) ε).isPreconnected
      (fun s hs => (hd s hs).differentiableAt.differentiableWithinAt) (fun s hs => (hd s hs).deriv) ht h00
    simp only [α0] at this
    linarith
  have hsnd : ∀ t ∈ Ioo (-ε) ε, HasDerivAt (fun t => (α t).2)
      (g • loopRate et (unitCall C oeT woe (α t).2) (tmax / (m0 - mdot * t))) t := by
    intro t ht
    have := (hα t ht).snd
    rw [hfst t ht] at this
    exact this
  have hc : ContinuousAt (fun t => (α t).2) 0 := (hsnd 0 h00).continuousAt
  have hx0 : (α 0).2 = x := by rw [α0]
  -- the open conditions
  have ev : ∀ᶠ y in 𝓝 x, LawSmooth et (unitCall C oeT woe y) ∧
      (lawGrad et (unitCall C oeT woe y) 0 ≠ 0 ∨ lawGrad et (unitCall C oeT woe y) 1 ≠ 0) ∧
      ∀ j : Fin 5, l j < y j.castSucc ∧ y j.castSucc < u j := by
    have hG := lawGrad_cont H
    refine (lawSmooth_near H).and (Filter.Eventually.and ?_ ?_)
    · rcases hg' with h | h
      · exact ((hG 0).eventually_ne h).mono fun y hy => Or.inl hy
      · exact ((hG 1).eventually_ne h).mono fun y hy => Or.inr hy
    · rw [Filter.eventually_all]
      intro j
      exact ((continuous_apply _).continuousAt.eventually (lt_mem_nhds (hb j).1)).and
        ((continuous_apply _).continuousAt.eventually (gt_mem_nhds (hb j).2))
  have ev2 : ∀ᶠ t in 𝓝 (0 : ℝ), 0 < m0 - mdot * t := by
    have : Continuous fun t : ℝ => m0 - mdot * t := by fun_prop
    exact this.continuousAt.eventually (lt_mem_nhds (by simpa using hm))
  rw [← hx0] at ev
  have ev3 := (hc.eventually ev).and ev2
  obtain ⟨η, hη, hall⟩ := Metric.eventually_nhds_iff.1 ev3
  obtain ⟨T, hTdef⟩ : ∃ T, T = min ε η / 2 := ⟨_, rfl⟩
  have hT0 : 0 < T := by rw [hTdef]; positivity
  have hTε : T < ε := by rw [hTdef]; linarith [min_le_left ε η, lt_min hε hη]
  have hTη : T < η := by rw [hTdef]; linarith [min_le_right ε η, lt_min hε hη]
  have hnear : ∀ t ∈ Icc 0 T, _ := fun t (ht : t ∈ Icc 0 T) =>
    hall (y := t) (by rw [Real.dist_eq, sub_zero, abs_of_nonneg ht.1]; linarith [ht.2])
  refine ⟨T, hT0, fun t => (α t).2, hx0, fun t ht => ?_, (hnear T ⟨hT0.le, le_rfl⟩).2, fun t ht =>
    ⟨(hnear t ht).1.1, (hnear t ht).1.2.2⟩⟩
  obtain ⟨⟨h1, h2, -⟩, h3⟩ := hnear t ht
  have hf := div_pos hT h3
  obtain ⟨o, ho⟩ := law_defined hf h2
  obtain ⟨v, hv⟩ := eom_defined (P :=
    { mu := C.mu, u := fun c => tmax / (m0 - mdot * t) * unitDir o.alpha o.beta c,
      psi0 := o.psi 0, psi1 := o.psi 1, psi2 := o.psi 2, ptrb := 0 }) h1.1 t rfl
  refine ⟨o, v, ho, hv, ?_⟩
  rw [motion_rate hf ho hv]
  exact (hsnd t ⟨by linarith [ht.1], by linarith [ht.2]⟩).hasDerivWithinAt

namespace Burn
open CoastSample

/-- C107: the run of `Burn` with a short step ends close to the motion under the law from its initial state -/
example : ∃ T > 0, ∃ γ, LawMotion (cfg false) .keplerian ![2, 0, 0, 0, 0] ![1, 0, 0, 0, 0] (1 / 100) 1 (1 / 10) 1 T γ ∧
    γ 0 = prob.oe0 ∧ ∃ δ > 0, ∃ K, ∀ h, 0 < h → h < δ → h ≤ T → ∃ (Q' : QLaw ℝ) (H : Hist ℝ) (x : Fin 6 → ℝ),
      (objH h 1).solve (.flt 0) (.flt 0) 2 = some (Q', none) ∧ Q'.hist = some H ∧ H.times[1]? = some h ∧
      H.states[1]? = some x ∧ ∀ i, |x i - γ h i| ≤ K * h := by
  have hbox : prob.oe0 ∈ burnBox := by
    refine ⟨fun i => ?_, fun i => ?_⟩ <;> fin_cases i <;> simp [prob] <;> norm_num
  have hR := burn_region
  obtain ⟨T, hT, γ, h0, h1, h2, h3⟩ := C107_exists (C := cfg false) (et := .keplerian) (oeT := ![2, 0, 0, 0, 0])
    (woe := ![1, 0, 0, 0, 0]) (l := fun _ => 0) (u := fun _ => 9) (tmax := 1 / 100) (m0 := 1) (mdot := 1 / 10) (g := 1)
    (x := prob.oe0) ⟨hR.smooth _ hbox, fun h => by cases h⟩ ⟨1, by decide, burn_grad _ hbox⟩ (hR.inside _ hbox) (by norm_num)
    (by norm_num)
  refine ⟨T, hT, γ, h1, h0, ?_⟩
  obtain ⟨δ, hδ, K, -, hL⟩ := C107_limit (C := cfg false) (et := .keplerian) rfl rfl (l := fun _ => 0) (u := fun _ => 9)
    (by intro _; constructor <;> intro j <;> fin_cases j <;> rfl) h1 (fun t ht => ⟨(h3 t ht).1, fun _ => (h3 t ht).2⟩)
    (by norm_num) (by norm_num) h2
  refine ⟨min δ 1, by positivity, K, fun h hh hhd hhT => ?_⟩
  obtain ⟨Q', H, y, k1, k2, k3, k4, k5⟩ := run_h (h := h) (T := 1) hh (hhd.trans_le (min_le_right _ _)).le one_pos
  refine ⟨Q', H, y, k1, k2, by rw [k5]; rfl, by rw [k4]; rfl, ?_⟩
  refine hL h hh (hhd.trans_le (min_le_left _ _)) (objH h 1) Q' (probH h 1) (.flt 0) (.flt 0) 2 H rfl rfl
    (by simp [probH, prob]) rfl rfl rfl (by simp [probH]) h0.symm k1 k2 1 h y (by rw [k5]; rfl) hhT (by rw [k4]; rfl) ?_
  intro k hk
  obtain rfl : k = 0 := by omega
  exact ⟨0, 0, 0, h, by rw [k3]; rfl, by rw [k5]; rfl, by rw [k5]; rfl, hh, by linarith⟩

end Burn

end PyQ
