import Verif.Proofs.Flow
import Verif.Props.Coast
import Verif.Props.Newton

/-! # C102: a coast arc follows the Kepler motion

Recorded anomalies of an unperturbed coast arc against the exact solution of `θ' = h/r²`, which by C58 is
the anomaly of a Newtonian two-body motion. -/

set_option linter.unusedSectionVars false
set_option maxRecDepth 100000

namespace PyQ

/-- `h/r²` on the orbit with semi-major axis `a` and eccentricity vector `(f, g)`:
`p = a (1 - f² - g²)`, `h = √(μ p)`, `r = p/(1 + f cos θ + g sin θ)` -/
noncomputable def keplerRate (mu a f g θ : ℝ) : ℝ :=
  Real.sqrt (mu * (a * (1 - f ^ 2 - g ^ 2))) /
    (a * (1 - f ^ 2 - g ^ 2) / (1 + f * Real.cos θ + g * Real.sin θ)) ^ 2

/-- `θ` is the anomaly (true anomaly if `g = 0`, true longitude in general) on that orbit -/
def KeplerMotion (mu a f g : ℝ) (θ : ℝ → ℝ) : Prop :=
  ∀ s, HasDerivAt θ (keplerRate mu a f g (θ s)) s

theorem keplerRate_eq {mu a f g : ℝ} (ha : 0 < a) (he : f ^ 2 + g ^ 2 < 1) (θ : ℝ) :
    keplerRate mu a f g θ = Real.sqrt (mu * (a * (1 - f ^ 2 - g ^ 2))) /
      (a * (1 - f ^ 2 - g ^ 2)) ^ 2 * (1 + f * Real.cos θ + g * Real.sin θ) ^ 2 := by
  have hw := fg_w_pos he θ
  have hp : 0 < a * (1 - f ^ 2 - g ^ 2) := mul_pos ha (by linarith)
  unfold keplerRate
  generalize a * (1 - f ^ 2 - g ^ 2) = p at *
  generalize 1 + f * Real.cos θ + g * Real.sin θ = w at *
  generalize Real.sqrt _ = s
  field_simp

/-- the Kepler rate has bounded derivatives and is bounded away from zero -/
theorem kepler_Rate {mu a f g : ℝ} (hmu : 0 < mu) (ha : 0 < a) (he : f ^ 2 + g ^ 2 < 1) :
    ∃ g1 g2 g3 g4, Rate (keplerRate mu a f g) g1 g2 g3 g4 := by
  have hp : 0 < a * (1 - f ^ 2 - g ^ 2) := mul_pos ha (by linarith)
  obtain ⟨κ, hκ, hrate⟩ : ∃ κ > 0, keplerRate mu a f g = fun θ =>
      κ * (1 + f * Real.cos θ + g * Real.sin θ) ^ 2 :=
    ⟨_, div_pos (Real.sqrt_pos.2 (mul_pos hmu hp)) (pow_pos hp 2), funext fun θ =>
      keplerRate_eq ha he θ⟩
  rw [hrate]
  obtain ⟨w, hw⟩ : ∃ w : ℝ → ℝ, w = fun θ => 1 + f * Real.cos θ + g * Real.sin θ := ⟨_, rfl⟩
  obtain ⟨v, hv⟩ : ∃ v : ℝ → ℝ, v = fun θ => -f * Real.sin θ + g * Real.cos θ := ⟨_, rfl⟩
  have dw : ∀ x, HasDerivAt w (v x) x := by
    intro x
    rw [hw, hv]
    have := (((Real.hasDerivAt_cos x).const_mul f).const_add 1).add ((Real.hasDerivAt_sin x).const_mul g)
    refine this.congr_deriv ?_
    ring
  have dv : ∀ x, HasDerivAt v (1 - w x) x := by
    intro x
    rw [hw, hv]
    have := ((Real.hasDerivAt_sin x).const_mul (-f)).add ((Real.hasDerivAt_cos x).const_mul g)
    refine this.congr_deriv ?_
    ring
  have hpy : ∀ x, (w x - 1) ^ 2 + v x ^ 2 = f ^ 2 + g ^ 2 := by
    intro x
    rw [hw, hv]
    linear_combination (f ^ 2 + g ^ 2) * Real.sin_sq_add_cos_sq x
  have e0 : (fun θ => κ * (1 + f * Real.cos θ + g * Real.sin θ) ^ 2) = fun θ => κ * w θ ^ 2 := by
    rw [hw]
  rw [e0]
  clear e0
  have hw2 : ∀ x, 0 ≤ w x ∧ w x ≤ 2 ∧ -1 ≤ v x ∧ v x ≤ 1 := by
    intro x
    have h := hpy x
    have h1 : (w x - 1) ^ 2 ≤ 1 := by nlinarith [sq_nonneg (v x)]
    have h2 : v x ^ 2 ≤ 1 := by nlinarith [sq_nonneg (w x - 1)]
    have h3 := abs_le.1 ((sq_le_one_iff_abs_le_one _).1 h1)
    have h4 := abs_le.1 ((sq_le_one_iff_abs_le_one _).1 h2)
    exact ⟨by linarith, by linarith, h4.1, h4.2⟩
  refine ⟨fun x => κ * (2 * w x * v x), fun x => κ * (2 * v x ^ 2 + 2 * w x - 2 * w x ^ 2),
    fun x => κ * (6 * v x - 8 * (w x * v x)),
    fun x => κ * (6 - 14 * w x + 8 * w x ^ 2 - 8 * v x ^ 2), ?_, ?_, ?_, ?_, ?_, ?_⟩
  · intro x
    refine (((dw x).pow 2).const_mul κ).congr_deriv ?_
    simp
  · intro x
    refine ((((dw x).const_mul 2).mul (dv x)).const_mul κ).congr_deriv ?_
    ring
  · intro x
    refine ((((((dv x).pow 2).const_mul 2).add ((dw x).const_mul 2)).sub
      (((dw x).pow 2).const_mul 2)).const_mul κ).congr_deriv ?_
    push_cast
    ring
  · intro x
    refine ((((dv x).const_mul 6).sub (((dw x).mul (dv x)).const_mul 8)).const_mul κ).congr_deriv ?_
    ring
  · refine ⟨κ * 100, fun x => ?_⟩
    obtain ⟨a1, a2, a3, a4⟩ := hw2 x
    generalize w x = w at *
    generalize v x = v at *
    have q1 : w ^ 2 ≤ 4 := by nlinarith
    have q2 : v ^ 2 ≤ 1 := by nlinarith
    have q3 := sq_nonneg w
    have q4 := sq_nonneg v
    have q5 : w * v ≤ 2 := by nlinarith
    have q6 : -2 ≤ w * v := by nlinarith
    have key : ∀ z : ℝ, |z| ≤ 100 → |κ * z| ≤ κ * 100 := by
      intro z hz
      rw [abs_mul, abs_of_pos hκ]
      gcongr
    refine ⟨key _ ?_, key _ ?_, key _ ?_, key _ ?_, key _ ?_⟩ <;> rw [abs_le] <;>
      constructor <;> linarith
  · have hs1 : Real.sqrt (f ^ 2 + g ^ 2) < 1 := by
      rw [← Real.sqrt_one]; exact Real.sqrt_lt_sqrt (by positivity) he
    refine ⟨κ * (1 - Real.sqrt (f ^ 2 + g ^ 2)) ^ 2, mul_pos hκ (pow_pos (by linarith) 2), fun x => ?_⟩
    have h1 : |w x - 1| ≤ Real.sqrt (f ^ 2 + g ^ 2) :=
      Real.abs_le_sqrt (by nlinarith [hpy x, sq_nonneg (v x)])
    have h2 := (abs_le.1 h1).1
    have h3 : 1 - Real.sqrt (f ^ 2 + g ^ 2) ≤ w x := by linarith
    have h4 : 0 ≤ 1 - Real.sqrt (f ^ 2 + g ^ 2) := by linarith
    gcongr

/-- the Kepler motion exists through every point -/
theorem kepler_exists {mu a f g : ℝ} (hmu : 0 < mu) (ha : 0 < a) (he : f ^ 2 + g ^ 2 < 1)
    (t0 x0 : ℝ) : ∃ θ, θ t0 = x0 ∧ KeplerMotion mu a f g θ := by
  obtain ⟨g1, g2, g3, g4, R⟩ := kepler_Rate hmu ha he
  obtain ⟨c, hc, hb⟩ := R.below
  obtain ⟨B, hB⟩ := R.bound
  exact exists_flow (continuous_iff_continuousAt.2 fun x => (R.d0 x).continuousAt)
    (fun x => hc.trans_le (hb x)) (fun x => (le_abs_self _).trans (hB x).1) t0 x0

/-! ## one step -/

/-- the coasting right-hand side is the Kepler rate -/
theorem kepler_rhs {P : OdeParams ℝ} (hP : Coasting P) {x : Fin 6 → ℝ} (H : KepState P.mu x)
    (t : ℝ) : eomKepGauss t x P = .ok ![0, 0, 0, 0, 0, keplerRate P.mu (x 0) (x 1) 0 (x 5)] := by
  obtain ⟨h, r, hh, hr, h2, h3, e⟩ := C57_keplerian P hP x H t
  rw [e]
  have hw := H.w_pos (x 5)
  have e1 : keplerRate P.mu (x 0) (x 1) 0 (x 5) = h / r ^ 2 := by
    unfold keplerRate
    have : x 0 * (1 - x 1 ^ 2 - 0 ^ 2) = x 0 * (1 - x 1 ^ 2) := by ring
    rw [this, ← h2, Real.sqrt_sq hh.le, ← h3]
    congr 2
    rw [zero_mul, add_zero]
    field_simp
  rw [e1]

theorem kepler_rhs_mee {P : OdeParams ℝ} (hP : Coasting P) {x : Fin 6 → ℝ} (H : MeeState P.mu x)
    (t : ℝ) :
    eomMeeWithAGauss t x P = .ok ![0, 0, 0, 0, 0, keplerRate P.mu (x 0) (x 1) (x 2) (x 5)] := by
  obtain ⟨h, r, hh, hr, h2, h3, e⟩ := C57_mee P hP x H t
  rw [e]
  have hw := fg_w_pos H.ecc (x 5)
  have e1 : keplerRate P.mu (x 0) (x 1) (x 2) (x 5) = h / r ^ 2 := by
    unfold keplerRate
    rw [← h2, Real.sqrt_sq hh.le, ← h3]
    congr 2
    field_simp
  rw [e1]

/-- `rk4` when only the last component moves, at a rate that depends on it alone -/
theorem rk4_scalar {eom : ℝ → (Fin 6 → ℝ) → OdeParams ℝ → Except PyErr (Fin 6 → ℝ)}
    {P : OdeParams ℝ} {g : ℝ → ℝ} {x : Fin 6 → ℝ}
    (hg : ∀ (t : ℝ) (y : Fin 6 → ℝ), (∀ j : Fin 5, y j.castSucc = x j.castSucc) →
      eom t y P = .ok ![0, 0, 0, 0, 0, g (y 5)]) (t h : ℝ) :
    ∃ y, rk4 eom t h x P = .ok y ∧ y 5 = rkScalar g (x 5) h := by
  have keep : ∀ c r : ℝ, ∀ j : Fin 5, (vadd x (vsmul c ![0, 0, 0, 0, 0, r])) j.castSucc =
      x j.castSucc := by
    intro c r j; fin_cases j <;> simp [vadd, vsmul]
  have e1 := hg t x fun _ => rfl
  have e2 := hg (t + rat 1 2 * h) _ (keep (h * rat 1 2) (g (x 5)))
  obtain ⟨r2, hr2⟩ : ∃ r, r = g (vadd x (vsmul (h * rat 1 2) ![0, 0, 0, 0, 0, g (x 5)]) 5) :=
    ⟨_, rfl⟩
  rw [← hr2] at e2
  have e3 := hg (t + rat 1 2 * h) _ (keep (h * rat 1 2) r2)
  obtain ⟨r3, hr3⟩ : ∃ r, r = g (vadd x (vsmul (h * rat 1 2) ![0, 0, 0, 0, 0, r2]) 5) := ⟨_, rfl⟩
  rw [← hr3] at e3
  have e4 := hg (t + h) _ (keep h r3)
  obtain ⟨r4, hr4⟩ : ∃ r, r = g (vadd x (vsmul h ![0, 0, 0, 0, 0, r3]) 5) := ⟨_, rfl⟩
  rw [← hr4] at e4
  have hz : rk4 eom t h x P = .ok (fun i => x i + h / 6 *
      (![0, 0, 0, 0, 0, g (x 5)] i + 2 * ![0, 0, 0, 0, 0, r2] i + 2 * ![0, 0, 0, 0, 0, r3] i +
        ![0, 0, 0, 0, 0, r4] i)) := by
    simp only [rk4, e1, e2, e3, e4, bind, Except.bind, pure, Except.pure, Nat.cast_ofNat]
    rfl
  refine ⟨_, hz, ?_⟩
  have hh : h * (rat 1 2 : ℝ) = h / 2 := by simp [rat]; ring
  simp only [vadd, vsmul, hh, Matrix.cons_val] at hr2 hr3 hr4 ⊢
  rw [hr4, hr3, hr2]
  rfl

/-- **C102, the reference.** The Kepler motion of the anomaly at fixed slow elements is the two-body
motion: its Cartesian image under `kep2sv` satisfies `r' = v` and `v' = -μ r/|r|³`. -/
theorem C102_newton {mu : ℝ} {x : Fin 6 → ℝ} (S : KepState mu x) (hi : Real.sin (x 2) ≠ 0) {θ : ℝ → ℝ}
    (hθ : KeplerMotion mu (x 0) (x 1) 0 θ) {sv : ℝ → Fin 6 → ℝ}
    (hsv : ∀ s, kep2sv ![x 0, x 1, x 2, x 3, x 4, θ s] mu = .ok (sv s)) (t : ℝ) (j : Fin 3) :
    HasDerivAt (fun s => svPos (sv s) j) (svVel (sv t) j) t ∧
    HasDerivAt (fun s => svVel (sv s) j)
      (-mu / norm3 (svPos (sv t)) ^ 3 * svPos (sv t) j) t := by
  have S' : KepState mu ((fun s => ![x 0, x 1, x 2, x 3, x 4, θ s]) t) := ⟨S.mu, S.a, S.e0, S.e1⟩
  have M : KepMotion mu (fun s => ![x 0, x 1, x 2, x 3, x 4, θ s]) ![0, 0, 0] t := by
    let A : LyapArgs ℝ := { mu := mu, f := 1, oe := ![x 0, x 1, x 2, x 3, x 4, θ t], oeT := 0,
                            rpmin := 1, m := 1, n := 1, r := 1, b := 1, k := 1, wp := 1, woe := 0 }
    let P : OdeParams ℝ := { mu := mu, u := ![0, 0, 0], psi0 := kepPsi A 0, psi1 := kepPsi A 1,
                             psi2 := kepPsi A 2, ptrb := 0 }
    refine ⟨A, P, _, rfl, rfl, rfl, rfl, rfl, rfl, fun i => by simp [P],
      kepler_rhs (P := P) (fun i => ⟨by fin_cases i <;> rfl, rfl⟩) S' t, fun j => ?_⟩
    fin_cases j
    · exact hasDerivAt_const t (x 0)
    · exact hasDerivAt_const t (x 1)
    · exact hasDerivAt_const t (x 2)
    · exact hasDerivAt_const t (x 3)
    · exact hasDerivAt_const t (x 4)
    · exact hθ t
  have hv : ∀ᶠ s in nhds t, kep2sv ((fun s => ![x 0, x 1, x 2, x 3, x 4, θ s]) s) mu = .ok (sv s) :=
    Filter.Eventually.of_forall hsv
  have hi' : Real.sin ((fun s => ![x 0, x 1, x 2, x 3, x 4, θ s]) t 2) ≠ 0 := hi
  generalize (fun s => ![x 0, x 1, x 2, x 3, x 4, θ s]) = k at M hv hi' S'
  obtain ⟨h1, h2⟩ := C58_newton mu k _ t S' hi' M sv hv j
  refine ⟨h1, h2.congr_deriv ?_⟩
  simp only [Matrix.cons_val]
  ring

/-! ## a recorded stretch -/

/-- one recorded coast step by `rk4` -/
theorem coast_step [PyNan ℝ] {Q Q' : QLaw ℝ} {etaA etaR : EtaArg ℝ} {fuel : ℕ} {P : Problem ℝ}
    {H : Hist ℝ} (h : Q.solve etaA etaR fuel = some (Q', none)) (hP : Q.prob = some P)
    (hH : Q'.hist = some H) (hi : Q.cfg.integrator = .rk4)
    (hpt : Q.cfg.perturbations = none) {k : ℕ} {a b t t' : ℝ} {x y : Fin 6 → ℝ} {g : ℝ → ℝ}
    (hg : ∀ pp : OdeParams ℝ, pp.mu = Q.cfg.mu → Coasting pp → ∀ (t : ℝ) (y : Fin 6 → ℝ),
      (∀ j : Fin 5, y j.castSucc = x j.castSucc) →
      Q.cfg.dyn.eom t y pp = .ok ![0, 0, 0, 0, 0, g (y 5)])
    (hc : H.controls[k]? = some (a, b, 0)) (hx : H.states[k]? = some x)
    (hy : H.states[k + 1]? = some y) (ht : H.times[k]? = some t)
    (ht' : H.times[k + 1]? = some t') : y 5 = rkScalar g (x 5) (t' - t) := by
  obtain ⟨n, tr, D, r, hr, hrH, v⟩ := solve_view h hP hH
  obtain ⟨hkn, -⟩ := v.controls_lt hc
  have hm := v.masses_get hkn.le
  obtain ⟨st, u, psi, ptrb, htn, hpi, hprop, hu, -⟩ := C25_thrust_vector h hP hH hc ht hx hm
  have hu := hu rfl
  simp only [PerturbationIs, hpt] at hpi
  have hPz : Coasting { mu := Q.cfg.mu, u := u, psi0 := psi 0, psi1 := psi 1, psi2 := psi 2,
                        ptrb := ptrb } := by
    intro i; rw [hu, hpi]; fin_cases i <;> simp
  rw [ht'] at htn
  injection htn with htn
  have hst : st = t' - t := by linarith
  have h5 : ((envOf Q P etaA etaR).after (k + 1)).oe 5 = rkScalar g (x 5) (t' - t) := by
    unfold Propagates at hprop
    simp only [hi] at hprop
    obtain ⟨z, hz, hz5⟩ := rk4_scalar (hg _ rfl hPz) t st
    rw [hz] at hprop
    injection hprop with hprop
    rw [← hprop, hz5, hst]
  obtain ⟨hk1, hy'⟩ := state_or_clamp hr hrH v hy
  rw [← v.trace.after (k + 1) hk1] at h5
  rcases hy' with hy' | ⟨s1, hs1, hy'⟩
  · rw [hy']; exact h5
  · rcases clamp_cases hs1 with ⟨-, h2⟩ | ⟨hE, oe, h2, h3⟩
    · rw [hy', h2]; exact h5
    · rw [hy', h3, ← h5]
      unfold elementsSafety at h2
      split at h2
      · injection h2 with h2; rw [← h2]; rfl
      · cases h2

/-- the records `i, …, i + n` of a run: states `x`, times `t`, all steps coasting and at most `δ` long -/
structure CoastArc (H : Hist ℝ) (i n : ℕ) (x : ℕ → Fin 6 → ℝ) (t : ℕ → ℝ) (δ : ℝ) : Prop where
  states : ∀ k ≤ n, H.states[i + k]? = some (x k)
  times : ∀ k ≤ n, H.times[i + k]? = some (t k)
  coast : ∀ k < n, ∃ a b, H.controls[i + k]? = some (a, b, 0)
  short : ∀ k < n, |t (k + 1) - t k| ≤ δ

theorem CoastArc.slow [PyNan ℝ] {Q Q' : QLaw ℝ} {etaA etaR : EtaArg ℝ} {fuel : ℕ} {P : Problem ℝ}
    {H : Hist ℝ} (h : Q.solve etaA etaR fuel = some (Q', none)) (hP : Q.prob = some P)
    (hH : Q'.hist = some H)
    (he : Q.cfg.dyn.eom = eomKepGauss ∨ Q.cfg.dyn.eom = eomMeeWithAGauss)
    (hpt : Q.cfg.perturbations = none) {i n : ℕ} {x : ℕ → Fin 6 → ℝ} {t : ℕ → ℝ} {δ : ℝ}
    (A : CoastArc H i n x t δ) : ∀ k ≤ n, ∀ j : Fin 5, x k j.castSucc = x 0 j.castSucc := by
  intro k
  induction k with
  | zero => intro _ _; rfl
  | succ k ih =>
    intro hk j
    obtain ⟨a, b, hc⟩ := A.coast k (by omega)
    rw [← ih (by omega) j]
    exact C57_solve h hP hH he hpt hc (A.states k (by omega)) (A.states (k + 1) hk) j

/-- **C102, Keplerian elements, `rk4`.** For every orbit there is a constant `C` such that in every
completed unperturbed run every coast arc on that orbit, whatever its number of steps, keeps the slow
elements, and its true anomaly stays within `C δ⁴` times the time covered of the Kepler motion that starts
with it; `δ ≤ 1` bounds the step lengths. -/
theorem C102_keplerian_partial {mu a e : ℝ} (hmu : 0 < mu) (ha : 0 < a) (he0 : 0 < e) (he1 : e < 1) :
    ∃ C, 0 ≤ C ∧ ∀ [PyNan ℝ] (Q Q' : QLaw ℝ) (etaA etaR : EtaArg ℝ) (fuel : ℕ) (P : Problem ℝ)
      (H : Hist ℝ), Q.solve etaA etaR fuel = some (Q', none) → Q.prob = some P → Q'.hist = some H →
      Q.cfg.mu = mu → Q.cfg.dyn.eom = eomKepGauss → Q.cfg.integrator = .rk4 →
      Q.cfg.perturbations = none →
      ∀ (i n : ℕ) (x : ℕ → Fin 6 → ℝ) (t : ℕ → ℝ) (δ : ℝ), CoastArc H i n x t δ → δ ≤ 1 →
        x 0 0 = a → x 0 1 = e →
        (∀ k ≤ n, ∀ j : Fin 5, x k j.castSucc = x 0 j.castSucc) ∧
        ∀ θ, KeplerMotion mu a e 0 θ → θ (t 0) = x 0 5 →
          |x n 5 - θ (t n)| ≤ C * δ ^ 4 * ∑ k ∈ Finset.range n, |t (k + 1) - t k| := by
  have hecc : e ^ 2 + (0 : ℝ) ^ 2 < 1 := by nlinarith
  obtain ⟨g1, g2, g3, g4, R⟩ := kepler_Rate hmu ha hecc
  obtain ⟨C, hC0, hC⟩ := rk_global R
  refine ⟨C, hC0, ?_⟩
  intro _ Q Q' etaA etaR fuel P H h hP hH hm heom hint hpt i n x t δ A hδ hxa hxe
  have hslow := A.slow h hP hH (Or.inl heom) hpt
  refine ⟨hslow, fun θ hθ hθ0 => ?_⟩
  refine hC n (fun k => x k 5) t δ hδ A.short (fun k hk => ?_) θ hθ hθ0
  obtain ⟨b, c, hc⟩ := A.coast k hk
  refine coast_step h hP hH hint hpt ?_ hc (A.states k hk.le) (A.states (k + 1) hk) (A.times k hk.le)
    (A.times (k + 1) hk)
  intro pp hpm hpc t y hy
  have y0 : y 0 = a := by have := hy 0; have h2 := hslow k hk.le 0; simp at this h2; rw [this, h2, hxa]
  have y1 : y 1 = e := by have := hy 1; have h2 := hslow k hk.le 1; simp at this h2; rw [this, h2, hxe]
  rw [heom, kepler_rhs hpc ⟨by rw [hpm, hm]; exact hmu, by rw [y0]; exact ha, by rw [y1]; exact he0,
    by rw [y1]; exact he1⟩ t, hpm, hm, y0, y1]

/-- **C102, MEE, `rk4`.** The same for the true longitude. -/
theorem C102_mee_partial {mu a f g : ℝ} (hmu : 0 < mu) (ha : 0 < a) (hf : f ≠ 0)
    (he1 : f ^ 2 + g ^ 2 < 1) :
    ∃ C, 0 ≤ C ∧ ∀ [PyNan ℝ] (Q Q' : QLaw ℝ) (etaA etaR : EtaArg ℝ) (fuel : ℕ) (P : Problem ℝ)
      (H : Hist ℝ), Q.solve etaA etaR fuel = some (Q', none) → Q.prob = some P → Q'.hist = some H →
      Q.cfg.mu = mu → Q.cfg.dyn.eom = eomMeeWithAGauss → Q.cfg.integrator = .rk4 →
      Q.cfg.perturbations = none →
      ∀ (i n : ℕ) (x : ℕ → Fin 6 → ℝ) (t : ℕ → ℝ) (δ : ℝ), CoastArc H i n x t δ → δ ≤ 1 →
        x 0 0 = a → x 0 1 = f → x 0 2 = g →
        (∀ k ≤ n, ∀ j : Fin 5, x k j.castSucc = x 0 j.castSucc) ∧
        ∀ θ, KeplerMotion mu a f g θ → θ (t 0) = x 0 5 →
          |x n 5 - θ (t n)| ≤ C * δ ^ 4 * ∑ k ∈ Finset.range n, |t (k + 1) - t k| := by
  obtain ⟨g1, g2, g3, g4, R⟩ := kepler_Rate hmu ha he1
  obtain ⟨C, hC0, hC⟩ := rk_global R
  refine ⟨C, hC0, ?_⟩
  intro _ Q Q' etaA etaR fuel P H h hP hH hm heom hint hpt i n x t δ A hδ hxa hxf hxg
  have hslow := A.slow h hP hH (Or.inr heom) hpt
  refine ⟨hslow, fun θ hθ hθ0 => ?_⟩
  refine hC n (fun k => x k 5) t δ hδ A.short (fun k hk => ?_) θ hθ hθ0
  obtain ⟨b, c, hc⟩ := A.coast k hk
  refine coast_step h hP hH hint hpt ?_ hc (A.states k hk.le) (A.states (k + 1) hk) (A.times k hk.le)
    (A.times (k + 1) hk)
  intro pp hpm hpc t y hy
  have y0 : y 0 = a := by have := hy 0; have h2 := hslow k hk.le 0; simp at this h2; rw [this, h2, hxa]
  have y1 : y 1 = f := by have := hy 1; have h2 := hslow k hk.le 1; simp at this h2; rw [this, h2, hxf]
  have y2 : y 2 = g := by have := hy 2; have h2 := hslow k hk.le 2; simp at this h2; rw [this, h2, hxg]
  rw [heom, kepler_rhs_mee hpc ⟨by rw [hpm, hm]; exact hmu, by rw [y0]; exact ha,
    by rw [y1, y2]; exact he1, by rw [y1]; exact hf⟩ t, hpm, hm, y0, y1, y2]

end PyQ
