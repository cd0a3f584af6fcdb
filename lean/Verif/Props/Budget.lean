import Verif.Props.Recorded
import Verif.Props.Rates
import Verif.Props.Mass
import Verif.Props.Converges
import Mathlib.Analysis.SpecialFunctions.Log.Basic

/-! # C103, C104: what a run can do with its propellant and in its time -/

set_option linter.unusedSectionVars false
set_option maxRecDepth 100000

namespace PyQ

/-- records `i, …, i + n` of a run: times, masses and throttles -/
structure Stretch (H : Hist ℝ) (i n : ℕ) (t m : ℕ → ℝ) (θ : ℕ → ℕ) : Prop where
  times : ∀ k ≤ n, H.times[i + k]? = some (t k)
  masses : ∀ k ≤ n, H.masses[i + k]? = some (m k)
  throttle : ∀ k < n, ∃ a b, H.controls[i + k]? = some (a, b, θ k)

/-- the velocity change of a stretch: accelerations `tmax / m` of the thrusting steps times their
lengths -/
noncomputable def velocityChange (tmax : ℝ) (n : ℕ) (t m : ℕ → ℝ) (θ : ℕ → ℕ) : ℝ :=
  ∑ k ∈ Finset.range n, if θ k = 1 then tmax / m k * (t (k + 1) - t k) else 0

theorem Stretch.step [PyNan ℝ] {Q Q' : QLaw ℝ} {etaA etaR : EtaArg ℝ} {fuel : ℕ} {P : Problem ℝ}
    {H : Hist ℝ} (h : Q.solve etaA etaR fuel = some (Q', none)) (hP : Q.prob = some P)
    (hH : Q'.hist = some H) {i n : ℕ} {t m : ℕ → ℝ} {θ : ℕ → ℕ} (S : Stretch H i n t m θ) :
    ∀ k < n, m (k + 1) = m k - if θ k = 1 then P.mdot * (t (k + 1) - t k) else 0 := by
  intro k hk
  obtain ⟨a, b, hc⟩ := S.throttle k hk
  obtain ⟨t0, st, m0, h1, h2, h3, h4⟩ := C13_step_mass h hP hH hc
  rw [S.times k hk.le] at h1
  have e1 := S.times (k + 1) hk
  have e2 := S.masses (k + 1) hk
  rw [← add_assoc] at e1 e2
  rw [e1] at h2
  rw [S.masses k hk.le] at h3
  injection h1 with h1; injection h2 with h2; injection h3 with h3
  subst h1 h3
  have hst : st = t (k + 1) - t k := by linarith
  rcases h4 with ⟨h5, h6⟩ | ⟨h5, h6⟩
  · rw [e2] at h6; injection h6 with h6
    rw [h6, h5, if_pos rfl, hst]
  · rw [e2] at h6; injection h6 with h6
    rw [h6, h5, if_neg (by norm_num), sub_zero]

/-- **C103.** The velocity change of any stretch of a run with non-decreasing times, `mdot > 0` and a
positive mass at its end is at most that of the rocket equation, and falls short of it by at most
`tmax δ (1/m_end - 1/m_start)` if no step is longer than `δ`. -/
theorem C103_rocket [PyNan ℝ] {Q Q' : QLaw ℝ} {etaA etaR : EtaArg ℝ} {fuel : ℕ} {P : Problem ℝ}
    {H : Hist ℝ} (h : Q.solve etaA etaR fuel = some (Q', none)) (hP : Q.prob = some P)
    (hH : Q'.hist = some H) {i n : ℕ} {t m : ℕ → ℝ} {θ : ℕ → ℕ} (S : Stretch H i n t m θ)
    (hq : 0 < P.mdot) (hT : 0 ≤ P.tmax) (hmn : 0 < m n) {δ : ℝ}
    (ht : ∀ k < n, t k ≤ t (k + 1) ∧ t (k + 1) - t k ≤ δ) :
    velocityChange P.tmax n t m θ ≤ P.tmax / P.mdot * Real.log (m 0 / m n) ∧
    P.tmax / P.mdot * Real.log (m 0 / m n) - velocityChange P.tmax n t m θ ≤
      P.tmax * δ * (1 / m n - 1 / m 0) := by
  have hstep := S.step h hP hH
  have hdec : ∀ k < n, m (k + 1) ≤ m k := by
    intro k hk
    rw [hstep k hk]
    split_ifs
    · have := mul_nonneg hq.le (sub_nonneg.2 (ht k hk).1)
      linarith
    · simp
  have hpos : ∀ j, j ≤ n → 0 < m (n - j) := by
    intro j
    induction j with
    | zero => intro _; simpa using hmn
    | succ j ih =>
      intro hj
      have h1 := hdec (n - (j + 1)) (by omega)
      rw [show n - (j + 1) + 1 = n - j by omega] at h1
      exact (ih (by omega)).trans_le h1
  have hpos' : ∀ k ≤ n, 0 < m k := fun k hk => by
    have := hpos (n - k) (by omega)
    rwa [show n - (n - k) = k by omega] at this
  -- one step
  have one : ∀ k < n,
      (if θ k = 1 then P.tmax / m k * (t (k + 1) - t k) else 0) ≤
        P.tmax / P.mdot * Real.log (m k / m (k + 1)) ∧
      P.tmax / P.mdot * Real.log (m k / m (k + 1)) -
        (if θ k = 1 then P.tmax / m k * (t (k + 1) - t k) else 0) ≤
        P.tmax * δ * (1 / m (k + 1) - 1 / m k) := by
    intro k hk
    have p0 := hpos' k hk.le
    have p1 := hpos' (k + 1) hk
    have hs := hstep k hk
    by_cases hθ : θ k = 1
    · rw [if_pos hθ] at hs ⊢
      have hh : t (k + 1) - t k = (m k - m (k + 1)) / P.mdot := by rw [hs]; field_simp; ring
      have hd := (ht k hk).2
      have hd0 : 0 ≤ t (k + 1) - t k := sub_nonneg.2 (ht k hk).1
      have l1 : 1 - m (k + 1) / m k ≤ Real.log (m k / m (k + 1)) := by
        have := Real.one_sub_inv_le_log_of_pos (div_pos p0 p1)
        rwa [inv_div] at this
      have l2 : Real.log (m k / m (k + 1)) ≤ m k / m (k + 1) - 1 :=
        Real.log_le_sub_one_of_pos (div_pos p0 p1)
      have hTq : 0 ≤ P.tmax / P.mdot := div_nonneg hT hq.le
      have hdm : m (k + 1) ≤ m k := hdec k hk
      have e1 : P.tmax / m k * (t (k + 1) - t k) = P.tmax / P.mdot * (1 - m (k + 1) / m k) := by
        rw [hh]; field_simp
      have e2 : P.tmax / P.mdot * (m k / m (k + 1) - 1) - P.tmax / m k * (t (k + 1) - t k) =
          P.tmax * (t (k + 1) - t k) * (1 / m (k + 1) - 1 / m k) := by
        rw [hh]; field_simp
      constructor
      · rw [e1]; exact mul_le_mul_of_nonneg_left l1 hTq
      · have l3 := mul_le_mul_of_nonneg_left l2 hTq
        have l4 : P.tmax * (t (k + 1) - t k) * (1 / m (k + 1) - 1 / m k) ≤
            P.tmax * δ * (1 / m (k + 1) - 1 / m k) := by
          have : 0 ≤ 1 / m (k + 1) - 1 / m k := sub_nonneg.2 (one_div_le_one_div_of_le p1 hdm)
          gcongr
        linarith
    · rw [if_neg hθ] at hs ⊢
      rw [hs, sub_zero, div_self p0.ne', Real.log_one]
      simp
  have main : ∀ j ≤ n,
      velocityChange P.tmax j t m θ ≤ P.tmax / P.mdot * Real.log (m 0 / m j) ∧
      P.tmax / P.mdot * Real.log (m 0 / m j) - velocityChange P.tmax j t m θ ≤
        P.tmax * δ * (1 / m j - 1 / m 0) := by
    intro j
    induction j with
    | zero => intro _; simp [velocityChange, (hpos' 0 (by omega)).ne']
    | succ j ih =>
      intro hj
      obtain ⟨a1, a2⟩ := ih (by omega)
      obtain ⟨b1, b2⟩ := one j hj
      have p0 := hpos' 0 (by omega)
      have p1 := hpos' j (by omega)
      have p2 := hpos' (j + 1) hj
      have e : Real.log (m 0 / m (j + 1)) = Real.log (m 0 / m j) + Real.log (m j / m (j + 1)) := by
        rw [← Real.log_mul (by positivity) (by positivity)]
        congr 1; field_simp
      have e2 : velocityChange P.tmax (j + 1) t m θ = velocityChange P.tmax j t m θ +
          if θ j = 1 then P.tmax / m j * (t (j + 1) - t j) else 0 := Finset.sum_range_succ _ _
      rw [e, e2, mul_add]
      constructor
      · linarith
      · linarith
  exact main n le_rfl

/-! ## C104 -/

theorem unitDir_unit (a b : ℝ) : norm3 (unitDir a b) = 1 := by
  have : norm3 (unitDir a b) ^ 2 = 1 := by
    rw [norm3_sq]
    simp only [dot3, unitDir, Matrix.cons_val]
    linear_combination Real.cos b ^ 2 * Real.sin_sq_add_cos_sq a + Real.sin_sq_add_cos_sq b
  have h0 : 0 ≤ norm3 (unitDir a b) := Real.sqrt_nonneg _
  nlinarith

/-- clamping does not move away from a point within the bounds -/
theorem clamp_near {l x u z : ℝ} (hx : pymin (pymax l x) u = x) :
    |pymin (pymax l z) u - x| ≤ |z - x| := by
  simp only [pymin, pymax, lt_real, decide_eq_true_eq] at hx ⊢
  rw [abs_le]
  have := neg_abs_le (z - x)
  have := le_abs_self (z - x)
  constructor <;> split_ifs at hx ⊢ <;> linarith

theorem safety_near {oe x z y : Fin 6 → ℝ} {L U : List ℝ} (hx : elementsSafety oe L U = .ok x)
    (hy : elementsSafety z L U = .ok y) (j : Fin 5) :
    |y j.castSucc - x j.castSucc| ≤ |z j.castSucc - x j.castSucc| := by
  unfold elementsSafety at hx hy
  split at hx
  · injection hx with hx
    injection hy with hy
    subst hx hy
    fin_cases j <;> simp only [Fin.zero_eta, Fin.mk_one, Fin.reduceFinMk, Fin.castSucc_zero,
      Fin.castSucc_one, Matrix.cons_val] <;> exact clamp_near (clamp_idem _ _ _)
  · cases hx

/-- **C104.** In an unperturbed completed run no step changes a slow element by more than its length
times the greatest rate `M` that the acceleration `tmax / m` can give this element anywhere on the orbit
of the recorded state; a coasting step does not change it. (`gain` is 1 for `rk4` and `1 + 2197/5610168`
for `rkf45`.) -/
theorem C104_rate_limit [PyNan ℝ] {Q Q' : QLaw ℝ} {etaA etaR : EtaArg ℝ} {fuel : ℕ} {P : Problem ℝ}
    {H : Hist ℝ} (h : Q.solve etaA etaR fuel = some (Q', none)) (hP : Q.prob = some P)
    (hH : Q'.hist = some H) {et : ElemType} (hd : Q.cfg.dyn = dynOf et)
    (hpt : Q.cfg.perturbations = none) {k : ℕ} {a b t t' m : ℝ}
    {θ : ℕ} {x y : Fin 6 → ℝ} (hc : H.controls[k]? = some (a, b, θ))
    (ht : H.times[k]? = some t) (ht' : H.times[k + 1]? = some t') (hx : H.states[k]? = some x)
    (hm : H.masses[k]? = some m) (hy : H.states[k + 1]? = some y) {A : LyapArgs ℝ}
    (hA : A.oe = x ∧ A.mu = Q.cfg.mu ∧ A.f = P.tmax / m) (j : Fin 5) {M : ℝ}
    (hM : IsMaxRate (candPsi et) A j M) :
    |y j.castSucc - x j.castSucc| ≤
      gain Q.cfg.integrator * (if θ = 1 then |t' - t| * M else 0) := by
  obtain ⟨oeT, ptrb, z, -, hpi, hz, hyz⟩ := C81_slow_step h hP hH hd hc ht ht' hx hm hy
  simp only [PerturbationIs, hpt] at hpi
  have hg : 0 ≤ gain Q.cfg.integrator := by
    cases Q.cfg.integrator <;> simp [gain]; norm_num
  have key : |z j.castSucc - x j.castSucc| ≤
      gain Q.cfg.integrator * (if θ = 1 then |t' - t| * M else 0) := by
    rw [hz j, add_sub_cancel_left, abs_mul, abs_of_nonneg hg]
    refine mul_le_mul_of_nonneg_left ?_ hg
    rw [abs_mul, hpi]
    have hps : candPsi et (recArgs Q.cfg P oeT x m (t' - t)) = candPsi et (A.atAnomaly (x 5)) := by
      have hat : (A.atAnomaly (x 5)).oe = x := by
        funext i; fin_cases i <;> simp [LyapArgs.atAnomaly, hA.1]
      have hmu : (A.atAnomaly (x 5)).mu = Q.cfg.mu := hA.2.1
      cases et with
      | keplerian =>
        show kepPsi _ = kepPsi _
        unfold kepPsi
        rw [hat, hmu]; rfl
      | meeWithA =>
        show meePsi _ = meePsi _
        unfold meePsi
        rw [hat, hmu]; rfl
    rw [hps]
    by_cases hθ : θ = 1
    · simp only [if_pos hθ]
      refine mul_le_mul_of_nonneg_left ?_ (abs_nonneg _)
      have hb := hM.1 (x 5) (unitDir a b) (unitDir_unit a b)
      have e : ∑ c : Fin 3, candPsi et (A.atAnomaly (x 5)) c j *
          ((recArgs Q.cfg P oeT x m (t' - t)).f * unitDir a b c +
            ![((0 : ℕ) : ℝ), ((0 : ℕ) : ℝ), ((0 : ℕ) : ℝ)] c) =
          PyOrd.sign (t' - t) * elementRate A.f (candPsi et (A.atAnomaly (x 5))) j (unitDir a b) := by
        rw [Fin.sum_univ_three]
        simp only [elementRate, recArgs, hA.2.2, Nat.cast_zero, Matrix.cons_val, add_zero]
        ring
      rw [e, abs_mul]
      refine (mul_le_of_le_one_left (abs_nonneg _) ?_).trans hb
      rw [sign_real]
      split_ifs <;> norm_num
    · simp only [if_neg hθ]
      rw [Fin.sum_univ_three]
      simp
  rcases hyz with rfl | ⟨hE, hs⟩
  · exact key
  · refine le_trans ?_ key
    obtain ⟨n, tr, D, r, hr, hrH, v⟩ := solve_view h hP hH
    obtain ⟨hkn, -⟩ := v.controls_lt hc
    rw [v.states_get hkn] at hx
    injection hx with hx
    rcases clamp_cases (v.trace.step k hkn).clamp with ⟨h4, -⟩ | ⟨-, oe', h5, h6⟩
    · change Q.cfg.elementsType = _ at h4; rw [hE] at h4; cases h4
    · have hxo : x = oe' := by rw [← hx, h6]
      rw [← hxo] at h5
      exact safety_near h5 hs j

/-- **C104.** The bounds in closed form for a Keplerian run at an elliptic state with `0 < i < π`: a step
of length `|t' - t|` that thrusts (`τ = |t' - t|`; coasting: `τ = 0`) changes `a`, `e`, `i` and `Ω` by at
most this. -/
theorem C104_keplerian [PyNan ℝ] {Q Q' : QLaw ℝ} {etaA etaR : EtaArg ℝ} {fuel : ℕ} {P : Problem ℝ}
    {H : Hist ℝ} (h : Q.solve etaA etaR fuel = some (Q', none)) (hP : Q.prob = some P)
    (hH : Q'.hist = some H) (hd : Q.cfg.dyn = dynOf .keplerian)
    (hpt : Q.cfg.perturbations = none) {k : ℕ} {a b t t' m : ℝ}
    {θ : ℕ} {x y : Fin 6 → ℝ} (hc : H.controls[k]? = some (a, b, θ))
    (ht : H.times[k]? = some t) (ht' : H.times[k + 1]? = some t') (hx : H.states[k]? = some x)
    (hm : H.masses[k]? = some m) (hy : H.states[k + 1]? = some y) (hmu : 0 < Q.cfg.mu)
    (hf : 0 < P.tmax / m) (ha : 0 < x 0) (he0 : 0 ≤ x 1) (he1 : x 1 < 1) (hi0 : 0 < x 2)
    (hi1 : x 2 < Real.pi) {τ : ℝ} (hτ : τ = if θ = 1 then |t' - t| else 0) :
    |y 0 - x 0| ≤ gain Q.cfg.integrator * (τ * (2 * (P.tmax / m) *
      Real.sqrt (x 0 ^ 3 * (1 + x 1) / (Q.cfg.mu * (1 - x 1))))) ∧
    |y 1 - x 1| ≤ gain Q.cfg.integrator * (τ * (2 * (P.tmax / m) *
      Real.sqrt (x 0 * (1 - x 1 ^ 2) / Q.cfg.mu))) ∧
    |y 2 - x 2| ≤ gain Q.cfg.integrator * (τ * (P.tmax / m *
      Real.sqrt (x 0 * (1 - x 1 ^ 2) / Q.cfg.mu) /
      (Real.sqrt (1 - x 1 ^ 2 * Real.sin (x 4) ^ 2) - x 1 * |Real.cos (x 4)|))) ∧
    |y 3 - x 3| ≤ gain Q.cfg.integrator * (τ * (P.tmax / m *
      Real.sqrt (x 0 * (1 - x 1 ^ 2) / Q.cfg.mu) / (Real.sin (x 2) *
      (Real.sqrt (1 - x 1 ^ 2 * Real.cos (x 4) ^ 2) - x 1 * |Real.sin (x 4)|)))) := by
  have K := C104_rate_limit h hP hH hd hpt hc ht ht' hx hm hy
    (A := { recArgs Q.cfg P (fun _ => 0) x m 1 with f := P.tmax / m }) ⟨rfl, rfl, rfl⟩
  have E : KepEllipse { recArgs Q.cfg P (fun _ => 0) x m 1 with f := P.tmax / m } :=
    ⟨hmu, hf, ha, he0, he1, hi0, hi1⟩
  have k0 := K 0 (C42_a E)
  have k1 := K 1 (C42_e E)
  have k2 := K 2 (C42_i E)
  have k3 := K 3 (C42_raan E)
  have hτ' : ∀ M : ℝ, (if θ = 1 then |t' - t| * M else 0) = τ * M := by
    intro M; rw [hτ]; split_ifs <;> simp
  rw [hτ'] at k0 k1 k2 k3
  have e2 : 0 < 1 - x 1 ^ 2 := by nlinarith
  have hhp := Real.sqrt_pos.2 (show 0 < x 0 * Q.cfg.mu * (1 - x 1 ^ 2) by positivity)
  have ps : x 0 * (1 - x 1 ^ 2) / Real.sqrt (x 0 * Q.cfg.mu * (1 - x 1 ^ 2)) =
      Real.sqrt (x 0 * (1 - x 1 ^ 2) / Q.cfg.mu) := by
    rw [eq_comm, Real.sqrt_eq_iff_eq_sq (by positivity) (by positivity), div_pow,
      Real.sq_sqrt (by positivity)]
    field_simp
  refine ⟨?_, ?_, ?_, ?_⟩
  · simpa [kepOedot, recArgs] using k0
  · have : kepOedot { recArgs Q.cfg P (fun _ => 0) x m 1 with f := P.tmax / m } 1 =
        2 * (P.tmax / m) * Real.sqrt (x 0 * (1 - x 1 ^ 2) / Q.cfg.mu) := by
      rw [← ps]
      simp [kepOedot, recArgs]
      ring
    rw [this] at k1
    exact k1
  · have : kepOedot { recArgs Q.cfg P (fun _ => 0) x m 1 with f := P.tmax / m } 2 =
        P.tmax / m * Real.sqrt (x 0 * (1 - x 1 ^ 2) / Q.cfg.mu) /
        (Real.sqrt (1 - x 1 ^ 2 * Real.sin (x 4) ^ 2) - x 1 * |Real.cos (x 4)|) := by
      rw [← ps]
      simp [kepOedot, recArgs, Real.sqrt_sq_eq_abs]
      field_simp
    rw [this] at k2
    exact k2
  · have : kepOedot { recArgs Q.cfg P (fun _ => 0) x m 1 with f := P.tmax / m } 3 =
        P.tmax / m * Real.sqrt (x 0 * (1 - x 1 ^ 2) / Q.cfg.mu) / (Real.sin (x 2) *
        (Real.sqrt (1 - x 1 ^ 2 * Real.cos (x 4) ^ 2) - x 1 * |Real.sin (x 4)|)) := by
      rw [← ps]
      simp [kepOedot, recArgs, Real.sqrt_sq_eq_abs]
      field_simp
    rw [this] at k3
    exact k3

/-- **C104.** Propellant bounds the eccentricity change: if the states of a stretch are ellipses with
`0 < i < π` and semi-major axis at most `amax`, then
`|e_end - e_start| ≤ gain · 2 √(amax/mu) (tmax/mdot) ln(m_start/m_end)`. -/
theorem C104_eccentricity_cost [PyNan ℝ] {Q Q' : QLaw ℝ} {etaA etaR : EtaArg ℝ} {fuel : ℕ}
    {P : Problem ℝ} {H : Hist ℝ} (h : Q.solve etaA etaR fuel = some (Q', none))
    (hP : Q.prob = some P) (hH : Q'.hist = some H) (hd : Q.cfg.dyn = dynOf .keplerian)
    (hpt : Q.cfg.perturbations = none) {i n : ℕ} {t m : ℕ → ℝ} {θ : ℕ → ℕ}
    (S : Stretch H i n t m θ) {x : ℕ → Fin 6 → ℝ}
    (hx : ∀ k ≤ n, H.states[i + k]? = some (x k)) (hmu : 0 < Q.cfg.mu) (hT : 0 < P.tmax)
    (hq : 0 < P.mdot) (hmn : 0 < m n) (ht : ∀ k < n, t k ≤ t (k + 1)) {amax : ℝ}
    (hell : ∀ k < n, 0 < x k 0 ∧ x k 0 ≤ amax ∧ 0 ≤ x k 1 ∧ x k 1 < 1 ∧ 0 < x k 2 ∧
      x k 2 < Real.pi) :
    |x n 1 - x 0 1| ≤ gain Q.cfg.integrator * (2 * Real.sqrt (amax / Q.cfg.mu) *
      (P.tmax / P.mdot * Real.log (m 0 / m n))) := by
  have hg : 0 ≤ gain Q.cfg.integrator := by
    cases Q.cfg.integrator <;> simp [gain]; norm_num
  have hstep := S.step h hP hH
  have hdec : ∀ k < n, m (k + 1) ≤ m k := by
    intro k hk
    rw [hstep k hk]
    split_ifs
    · have := mul_nonneg hq.le (sub_nonneg.2 (ht k hk))
      linarith
    · simp
  have hpos : ∀ j, j ≤ n → 0 < m (n - j) := by
    intro j
    induction j with
    | zero => intro _; simpa using hmn
    | succ j ih =>
      intro hj
      have h1 := hdec (n - (j + 1)) (by omega)
      rw [show n - (j + 1) + 1 = n - j by omega] at h1
      exact (ih (by omega)).trans_le h1
  have hpos' : ∀ k ≤ n, 0 < m k := fun k hk => by
    have := hpos (n - k) (by omega)
    rwa [show n - (n - k) = k by omega] at this
  have hdv : velocityChange P.tmax n t m θ ≤ P.tmax / P.mdot * Real.log (m 0 / m n) := by
    refine (C103_rocket h hP hH S hq hT.le hmn
      (δ := ∑ k ∈ Finset.range n, (t (k + 1) - t k)) fun k hk => ⟨ht k hk, ?_⟩).1
    exact Finset.single_le_sum (f := fun k => t (k + 1) - t k)
      (fun j hj => sub_nonneg.2 (ht j (Finset.mem_range.1 hj))) (Finset.mem_range.2 hk)
  have main : ∀ j ≤ n, |x j 1 - x 0 1| ≤ gain Q.cfg.integrator *
      (2 * Real.sqrt (amax / Q.cfg.mu) * velocityChange P.tmax j t m θ) := by
    intro j
    induction j with
    | zero => intro _; simp [velocityChange]
    | succ j ih =>
      intro hj
      obtain ⟨h1, h2, h3, h4, h5, h6⟩ := hell j hj
      obtain ⟨a, b, hc⟩ := S.throttle j hj
      have hp := hpos' j (by omega)
      have K := (C104_keplerian h hP hH hd hpt hc (S.times j (by omega)) (S.times (j + 1) hj)
        (hx j (by omega)) (S.masses j (by omega)) (hx (j + 1) hj) hmu (div_pos hT hp) h1 h3 h4 h5 h6
        rfl).2.1
      have hs : Real.sqrt (x j 0 * (1 - x j 1 ^ 2) / Q.cfg.mu) ≤ Real.sqrt (amax / Q.cfg.mu) := by
        refine Real.sqrt_le_sqrt (div_le_div_of_nonneg_right ?_ hmu.le)
        nlinarith [mul_nonneg h1.le (sq_nonneg (x j 1))]
      have K' : |x (j + 1) 1 - x j 1| ≤ gain Q.cfg.integrator * (2 * Real.sqrt (amax / Q.cfg.mu) *
          (if θ j = 1 then P.tmax / m j * (t (j + 1) - t j) else 0)) := by
        refine K.trans (mul_le_mul_of_nonneg_left ?_ hg)
        split_ifs
        · rw [abs_of_nonneg (sub_nonneg.2 (ht j hj))]
          have : 0 ≤ (t (j + 1) - t j) * (2 * (P.tmax / m j)) :=
            mul_nonneg (sub_nonneg.2 (ht j hj)) (by positivity)
          calc _ = (t (j + 1) - t j) * (2 * (P.tmax / m j)) *
                Real.sqrt (x j 0 * (1 - x j 1 ^ 2) / Q.cfg.mu) := by ring
            _ ≤ (t (j + 1) - t j) * (2 * (P.tmax / m j)) * Real.sqrt (amax / Q.cfg.mu) :=
                mul_le_mul_of_nonneg_left hs this
            _ = _ := by ring
        · simp
      have e2 : velocityChange P.tmax (j + 1) t m θ = velocityChange P.tmax j t m θ +
          if θ j = 1 then P.tmax / m j * (t (j + 1) - t j) else 0 := Finset.sum_range_succ _ _
      rw [e2, mul_add, mul_add]
      exact (abs_sub_le _ (x j 1) _).trans (by linarith [ih (by omega)])
  refine (main n le_rfl).trans ?_
  gcongr

namespace Burn
open CoastSample

/-- C103 and C104: one thrusting step of length `h` of the `Burn` transfer, for every `h` up to 1 -/
example (h : ℝ) (h0 : 0 < h) (h1 : h ≤ 1) : ∃ (Q' : QLaw ℝ) (H : Hist ℝ) (x : ℕ → Fin 6 → ℝ),
    (objH h 1).solve (.flt 0) (.flt 0) 2 = some (Q', none) ∧
    Q'.hist = some H ∧
    Stretch H 0 1 (fun k => k * h) (fun k => 1 - 1 / 10 * (k * h)) (fun _ => 1) ∧
    0 < (probH h 1).mdot ∧ 0 < (probH h 1).tmax ∧
    velocityChange (probH h 1).tmax 1 (fun k => k * h) (fun k => 1 - 1 / 10 * (k * h)) (fun _ => 1) =
      1 / 100 * h ∧
    1 / 100 * h ≤ 1 / 10 * Real.log (1 / (1 - 1 / 10 * h)) ∧
    (∀ k ≤ 1, H.states[0 + k]? = some (x k)) ∧ x 0 = prob.oe0 ∧
    |x 1 1 - 1 / 2| ≤ 2 * (1 / 10 * Real.log (1 / (1 - 1 / 10 * h))) := by
  obtain ⟨Q', H, y, k1, k2, k3, k4, k5⟩ := run_h (h := h) (T := 1) h0 h1 one_pos
  have hc : H.controls[0]? = some (0, 0, 1) := by rw [k3]; rfl
  obtain ⟨t0, st, m0, g1, g2, g3, g4⟩ := C13_step_mass k1 rfl k2 hc
  rw [k5] at g1 g2
  simp only [List.getElem?_cons_zero, List.getElem?_cons_succ, Option.some.injEq] at g1 g2
  subst g1
  have hm0 : m0 = 1 := by
    obtain ⟨n, tr, D, r, hr, hrH, v⟩ := solve_view k1 rfl k2
    rw [v.masses_get (Nat.zero_le _), v.trace.init] at g3
    injection g3 with g3
    rw [← g3]
    rfl
  have S : Stretch H 0 1 (fun k => k * h) (fun k => 1 - 1 / 10 * (k * h)) (fun _ => 1) := by
    refine ⟨fun k hk => ?_, fun k hk => ?_, fun k hk => ?_⟩
    · interval_cases k <;> simp [k5]
    · interval_cases k
      · simpa [hm0] using g3
      · rcases g4 with ⟨-, g4⟩ | ⟨g4, -⟩
        · rw [zero_add] at g4 ⊢
          rw [g4, hm0, g2]
          simp [probH]
        · omega
    · interval_cases k
      exact ⟨0, 0, hc⟩
  have hx : ∀ k ≤ 1, H.states[0 + k]? = some ((fun k => if k = 0 then prob.oe0 else y) k) := by
    intro k hk
    interval_cases k <;> simp [k4]
  have hq : 0 < (probH h 1).mdot := by simp [probH]
  have hT : 0 < (probH h 1).tmax := by simp [probH, prob]
  have hTq : (probH h 1).tmax / (probH h 1).mdot = 1 / 10 := by simp [probH, prob]; norm_num
  have hv : velocityChange (probH h 1).tmax 1 (fun k => k * h) (fun k => 1 - 1 / 10 * (k * h))
      (fun _ => 1) = 1 / 100 * h := by
    simp [velocityChange, probH, prob]
  have ht : ∀ k : ℕ, k < 1 → (k : ℝ) * h ≤ ((k + 1 : ℕ) : ℝ) * h ∧ ((k + 1 : ℕ) : ℝ) * h - k * h ≤ h := by
    intro k hk
    interval_cases k
    simp [h0.le]
  have hmn : 0 < 1 - 1 / 10 * (((1 : ℕ) : ℝ) * h) := by push_cast; linarith
  have R := (C103_rocket k1 rfl k2 S hq hT.le hmn ht).1
  have E := C104_eccentricity_cost k1 rfl k2 rfl rfl S hx (by simp [objH, obj, cfg]) hT hq hmn
    (fun k hk => (ht k hk).1) (amax := 1) (by
      intro k hk
      interval_cases k
      simp [prob]
      norm_num
      linarith [Real.pi_gt_three])
  rw [hv, hTq] at R
  rw [hTq] at E
  refine ⟨Q', H, _, k1, k2, S, hq, hT, hv, by simpa using R, hx, rfl, ?_⟩
  simpa [objH, obj, cfg, gain, prob] using E

end Burn

end PyQ
