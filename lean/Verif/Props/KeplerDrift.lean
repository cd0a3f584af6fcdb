import Verif.Props.KeplerMotion
import Verif.Props.Integrators

/-! # C102 with `rkf45`: coast arcs drift away from the Kepler motion

The wrong weight of `rkf45` multiplies every advance of the anomaly by `1 + 2197/5610168`, so shorter
steps do not help. -/

set_option linter.unusedSectionVars false
set_option maxRecDepth 100000

namespace PyQ

/-- a bounded function with a bounded derivative is Lipschitz -/
theorem Rate.lipschitz {g g1 g2 g3 g4 : ℝ → ℝ} (H : Rate g g1 g2 g3 g4) :
    ∃ B > 0, (∀ x, |g x| ≤ B) ∧ ∀ x y, |g x - g y| ≤ B * |x - y| := by
  obtain ⟨B, hB⟩ := H.bound
  have hB0 : 0 ≤ B := (abs_nonneg _).trans (hB 0).1
  refine ⟨B + 1, by linarith, fun x => (hB x).1.trans (by linarith), fun x y => ?_⟩
  have := Convex.norm_image_sub_le_of_norm_hasDerivWithin_le (f := g) (f' := g1) (s := Set.univ)
    (x := y) (y := x) (C := B + 1) (fun z _ => (H.d0 z).hasDerivWithinAt)
    (fun z _ => by rw [Real.norm_eq_abs]; exact (hB z).2.1.trans (by linarith)) convex_univ
    (Set.mem_univ _) (Set.mem_univ _)
  simpa [Real.norm_eq_abs] using this

/-- `rkf45` when only the last component moves, at a rate that depends on it alone: it multiplies the
advance by `1 + 2197/5610168` up to an error of order `h³`, and for short steps it returns -/
theorem rkf45_scalar {g g1 g2 g3 g4 : ℝ → ℝ} (R : Rate g g1 g2 g3 g4) :
    ∃ K > 0, ∃ h0 > 0, ∀ (eom : ℝ → (Fin 6 → ℝ) → OdeParams ℝ → Except PyErr (Fin 6 → ℝ))
      (P : OdeParams ℝ) (x : Fin 6 → ℝ),
      (∀ (t : ℝ) (y : Fin 6 → ℝ), (∀ j : Fin 5, y j.castSucc = x j.castSucc) →
        eom t y P = .ok ![0, 0, 0, 0, 0, g (y 5)]) → ∀ t h tol : ℝ, |h| ≤ 1 →
      (h ≠ 0 → |h| ≤ h0 → ∃ r, rkf45 eom t h x P tol = .ok r) ∧
      ∀ y hn, rkf45 eom t h x P tol = .ok (y, hn) →
        |y 5 - x 5 - (1 + 2197 / 5610168) * (h * g (x 5))| ≤ K * |h| ^ 3 := by
  obtain ⟨B, hB0, hB, hL⟩ := R.lipschitz
  obtain ⟨c, hc0, hc⟩ := R.below
  obtain ⟨ε, hε⟩ : ∃ ε : ℝ, ε = 2197 / 5610168 := ⟨_, rfl⟩
  have hε0 : 0 < ε := by rw [hε]; norm_num
  obtain ⟨K, hK⟩ : ∃ K, K = 100 * (B * (100 * B)) := ⟨_, rfl⟩
  have hK0 : 0 < K := by rw [hK]; positivity
  refine ⟨K, hK0, min 1 (ε * c / (2 * K)), by positivity, ?_⟩
  intro eom P x hg t h tol hh
  have keep : ∀ y r : Fin 6 → ℝ, (∀ j : Fin 5, y j.castSucc = x j.castSucc) →
      (∀ j : Fin 5, r j.castSucc = 0) → ∀ c : ℝ,
      (∀ j : Fin 5, vadd y (vsmul c r) j.castSucc = x j.castSucc) ∧
      (∀ j : Fin 5, vsub y (vsmul c r) j.castSucc = x j.castSucc) := by
    intro y r hy hr c
    exact ⟨fun j => by simp [vadd, vsmul, hy j, hr j], fun j => by simp [vsub, vsmul, hy j, hr j]⟩
  have kz : ∀ r : ℝ, ∀ j : Fin 5, vsmul h ![0, 0, 0, 0, 0, r] j.castSucc = 0 := by
    intro r j; fin_cases j <;> simp [vsmul]
  obtain ⟨d1, hd1⟩ : ∃ r, r = g (x 5) := ⟨_, rfl⟩
  have e1 := hg t x fun _ => rfl
  rw [← hd1] at e1
  have near : ∀ (z s : ℝ), |s| ≤ 100 * B → |g (z + h ^ 2 * s) - g z| ≤ B * (100 * B) * h ^ 2 := by
    intro z s hs
    refine (hL _ _).trans ?_
    rw [add_sub_cancel_left, abs_mul, abs_of_nonneg (sq_nonneg h)]
    have : B * (h ^ 2 * |s|) ≤ B * (h ^ 2 * (100 * B)) := by gcongr
    linarith
  have e2 := hg (t + rat 1 4 * h) _ (keep x _ (fun _ => rfl) (kz d1) (rat 1 4 * h)).1
  obtain ⟨d2, hd2⟩ : ∃ r, r = g (vadd x (vsmul (rat 1 4 * h) (vsmul h ![0, 0, 0, 0, 0, d1])) 5) :=
    ⟨_, rfl⟩
  rw [← hd2] at e2
  have e3 := hg (t + rat 3 8 * h) _ (keep _ _ (keep x _ (fun _ => rfl) (kz d1) (rat 3 32 * h)).1 (kz d2)
    (rat 9 32 * h)).1
  obtain ⟨d3, hd3⟩ : ∃ r, r = g (vadd (vadd x (vsmul (rat 3 32 * h) (vsmul h ![0, 0, 0, 0, 0, d1])))
      (vsmul (rat 9 32 * h) (vsmul h ![0, 0, 0, 0, 0, d2])) 5) := ⟨_, rfl⟩
  rw [← hd3] at e3
  have e4 := hg (t + rat 12 13 * h) _ (keep _ _ (keep _ _ (keep x _ (fun _ => rfl) (kz d1)
    (rat 1932 2197 * h)).1 (kz d2) (rat 7200 2197 * h)).2 (kz d3) (rat 7296 2197 * h)).1
  obtain ⟨d4, hd4⟩ : ∃ r, r = g (vadd (vsub (vadd x (vsmul (rat 1932 2197 * h)
      (vsmul h ![0, 0, 0, 0, 0, d1]))) (vsmul (rat 7200 2197 * h) (vsmul h ![0, 0, 0, 0, 0, d2])))
      (vsmul (rat 7296 2197 * h) (vsmul h ![0, 0, 0, 0, 0, d3])) 5) := ⟨_, rfl⟩
  rw [← hd4] at e4
  have e5 := hg (t + h) _ (keep _ _ (keep _ _ (keep _ _ (keep x _ (fun _ => rfl) (kz d1)
    (rat 439 216 * h)).1 (kz d2) (((8 : ℕ) : ℝ) * h)).2 (kz d3) (rat 3680 513 * h)).1 (kz d4)
    (rat 845 4104 * h)).2
  obtain ⟨d5, hd5⟩ : ∃ r, r = g (vsub (vadd (vsub (vadd x (vsmul (rat 439 216 * h)
      (vsmul h ![0, 0, 0, 0, 0, d1]))) (vsmul (((8 : ℕ) : ℝ) * h) (vsmul h ![0, 0, 0, 0, 0, d2])))
      (vsmul (rat 3680 513 * h) (vsmul h ![0, 0, 0, 0, 0, d3])))
      (vsmul (rat 845 4104 * h) (vsmul h ![0, 0, 0, 0, 0, d4])) 5) := ⟨_, rfl⟩
  rw [← hd5] at e5
  have e6 := hg (t + rat 1 2 * h) _ (keep _ _ (keep _ _ (keep _ _ (keep _ _ (keep x _ (fun _ => rfl)
    (kz d1) (rat 8 27 * h)).2 (kz d2) (((2 : ℕ) : ℝ) * h)).1 (kz d3) (rat 3544 2565 * h)).2 (kz d4)
    (rat 1859 4104 * h)).1 (kz d5) (rat 11 40 * h)).2
  obtain ⟨d6, hd6⟩ : ∃ r, r = g (vsub (vadd (vsub (vadd (vsub x (vsmul (rat 8 27 * h)
      (vsmul h ![0, 0, 0, 0, 0, d1]))) (vsmul (((2 : ℕ) : ℝ) * h) (vsmul h ![0, 0, 0, 0, 0, d2])))
      (vsmul (rat 3544 2565 * h) (vsmul h ![0, 0, 0, 0, 0, d3])))
      (vsmul (rat 1859 4104 * h) (vsmul h ![0, 0, 0, 0, 0, d4])))
      (vsmul (rat 11 40 * h) (vsmul h ![0, 0, 0, 0, 0, d5])) 5) := ⟨_, rfl⟩
  rw [← hd6] at e6
  have b1 : |d1| ≤ B := by rw [hd1]; exact hB _
  have b2 : |d2| ≤ B := by rw [hd2]; exact hB _
  have b3 : |d3| ≤ B := by rw [hd3]; exact hB _
  have b4 : |d4| ≤ B := by rw [hd4]; exact hB _
  have b5 : |d5| ≤ B := by rw [hd5]; exact hB _
  have c1 := abs_le.1 b1
  have c2 := abs_le.1 b2
  have c3 := abs_le.1 b3
  have c4 := abs_le.1 b4
  have c5 := abs_le.1 b5
  have n2 : |d2 - d1| ≤ B * (100 * B) * h ^ 2 := by
    have := near (x 5) (1 / 4 * d1) (by rw [abs_le]; constructor <;> linarith)
    rw [hd2, hd1]
    convert this using 4
    simp [vadd, vsmul, rat, ← hd1]; ring
  have n3 : |d3 - d1| ≤ B * (100 * B) * h ^ 2 := by
    have := near (x 5) (3 / 32 * d1 + 9 / 32 * d2) (by rw [abs_le]; constructor <;> linarith)
    rw [hd3, hd1]
    convert this using 4
    simp [vadd, vsmul, rat, ← hd1]; ring
  have n4 : |d4 - d1| ≤ B * (100 * B) * h ^ 2 := by
    have := near (x 5) (1932 / 2197 * d1 - 7200 / 2197 * d2 + 7296 / 2197 * d3)
      (by rw [abs_le]; constructor <;> linarith)
    rw [hd4, hd1]
    convert this using 4
    simp [vadd, vsub, vsmul, rat, ← hd1]; ring
  have n5 : |d5 - d1| ≤ B * (100 * B) * h ^ 2 := by
    have := near (x 5) (439 / 216 * d1 - 8 * d2 + 3680 / 513 * d3 - 845 / 4104 * d4)
      (by rw [abs_le]; constructor <;> linarith)
    rw [hd5, hd1]
    convert this using 4
    simp [vadd, vsub, vsmul, rat, ← hd1]; ring
  have n6 : |d6 - d1| ≤ B * (100 * B) * h ^ 2 := by
    have := near (x 5) (-(8 / 27) * d1 + 2 * d2 - 3544 / 2565 * d3 + 1859 / 4104 * d4 - 11 / 40 * d5)
      (by rw [abs_le]; constructor <;> linarith)
    rw [hd6, hd1]
    convert this using 4
    simp [vadd, vsub, vsmul, rat, ← hd1]; ring
  have c3 := abs_le.1 n3
  have c4 := abs_le.1 n4
  have c5 := abs_le.1 n5
  have c6 := abs_le.1 n6
  have hM : 0 ≤ B * (100 * B) * h ^ 2 := by positivity
  have hKM : K * h ^ 2 = 100 * (B * (100 * B) * h ^ 2) := by rw [hK]; ring
  generalize B * (100 * B) * h ^ 2 = M at *
  obtain ⟨Y, hY⟩ : ∃ Y, Y = vsub (vadd (vadd (vadd x (vsmul (rat 25 216) (vsmul h ![0, 0, 0, 0, 0, d1])))
      (vsmul (rat 1408 2565) (vsmul h ![0, 0, 0, 0, 0, d3])))
      (vsmul (rat 2197 4101) (vsmul h ![0, 0, 0, 0, 0, d4])))
      (vsmul (rat 1 5) (vsmul h ![0, 0, 0, 0, 0, d5])) := ⟨_, rfl⟩
  obtain ⟨Z, hZ⟩ : ∃ Z, Z = vadd (vsub (vadd (vadd (vadd x (vsmul (rat 16 135)
      (vsmul h ![0, 0, 0, 0, 0, d1]))) (vsmul (rat 6656 12825) (vsmul h ![0, 0, 0, 0, 0, d3])))
      (vsmul (rat 28561 56430) (vsmul h ![0, 0, 0, 0, 0, d4])))
      (vsmul (rat 9 50) (vsmul h ![0, 0, 0, 0, 0, d5])))
      (vsmul (rat 2 55) (vsmul h ![0, 0, 0, 0, 0, d6])) := ⟨_, rfl⟩
  have hval : rkf45 eom t h x P tol = (match ndiv tol (normN (vsub Z Y)) with
      | .error e => .error e
      | .ok q => .ok (Y, h * rat 84 100 * PyTrans.rpow q (rat 1 4))) := by
    simp only [rkf45, e1, e2, e3, e4, e5, e6, bind, Except.bind, pure, Except.pure]
    rw [← hY, ← hZ]
    cases ndiv tol (normN (vsub Z Y)) <;> rfl
  have hY5 : Y 5 = x 5 + h * (25 / 216 * d1 + 1408 / 2565 * d3 + 2197 / 4101 * d4 - 1 / 5 * d5) := by
    rw [hY]; simp [vadd, vsub, vsmul, rat]; ring
  have hZ5 : Z 5 = x 5 + h * (16 / 135 * d1 + 6656 / 12825 * d3 + 28561 / 56430 * d4 - 9 / 50 * d5 +
      2 / 55 * d6) := by
    rw [hZ]; simp [vadd, vsub, vsmul, rat]; ring
  constructor
  · intro hne hh0
    have hnn : normN (vsub Z Y) ≠ 0 := by
      intro h0
      have h5 := congrFun (normN_eq_zero.1 h0) 5
      simp only [vsub, hY5, hZ5, Pi.zero_apply] at h5
      have h6 : h * (-ε * d1 + ((6656 / 12825 - 1408 / 2565) * (d3 - d1) +
          (28561 / 56430 - 2197 / 4101) * (d4 - d1) + (1 / 5 - 9 / 50) * (d5 - d1) +
          2 / 55 * (d6 - d1))) = 0 := by
        rw [← h5, hε]; ring
      have h7 := (mul_eq_zero.1 h6).resolve_left hne
      have h8 : K * h ^ 2 ≤ ε * c / 2 := by
        have hs : h ^ 2 ≤ |h| := by
          rw [← sq_abs]; nlinarith [abs_nonneg h]
        calc K * h ^ 2 ≤ K * (ε * c / (2 * K)) := by
              gcongr; exact hs.trans (hh0.trans (min_le_right _ _))
          _ = ε * c / 2 := by field_simp
      have h9 : ε * c ≤ ε * d1 := by gcongr; rw [hd1]; exact hc _
      have h10 : 0 < ε * c := by positivity
      linarith
    rw [hval, ndiv_real hnn]
    exact ⟨_, rfl⟩
  · intro y hn he
    rw [hval] at he
    split at he
    · cases he
    · injection he with he
      injection he with he _
      rw [← he, hY5, ← hd1]
      have : x 5 + h * (25 / 216 * d1 + 1408 / 2565 * d3 + 2197 / 4101 * d4 - 1 / 5 * d5) - x 5 -
          (1 + 2197 / 5610168) * (h * d1) = h * (1408 / 2565 * (d3 - d1) + 2197 / 4101 * (d4 - d1) -
          1 / 5 * (d5 - d1)) := by ring
      rw [this, abs_mul]
      have h2 : |1408 / 2565 * (d3 - d1) + 2197 / 4101 * (d4 - d1) - 1 / 5 * (d5 - d1)| ≤
          K * h ^ 2 := by
        rw [abs_le]; constructor <;> linarith
      calc |h| * _ ≤ |h| * (K * h ^ 2) := by gcongr
        _ = K * |h| ^ 3 := by rw [← sq_abs]; ring

/-- a recorded coast step by `rkf45` -/
theorem coast_step_rkf45 [PyNan ℝ] {Q Q' : QLaw ℝ} {etaA etaR : EtaArg ℝ} {fuel : ℕ} {P : Problem ℝ}
    {H : Hist ℝ} (h : Q.solve etaA etaR fuel = some (Q', none)) (hP : Q.prob = some P)
    (hH : Q'.hist = some H) (hi : Q.cfg.integrator = .rkf45)
    (hpt : Q.cfg.perturbations = none) {k : ℕ} {a b t t' : ℝ} {x y : Fin 6 → ℝ}
    (hc : H.controls[k]? = some (a, b, 0)) (hx : H.states[k]? = some x)
    (hy : H.states[k + 1]? = some y) (ht : H.times[k]? = some t)
    (ht' : H.times[k + 1]? = some t') :
    ∃ pp : OdeParams ℝ, pp.mu = Q.cfg.mu ∧ Coasting pp ∧
      ∃ z hn, rkf45 Q.cfg.dyn.eom t (t' - t) x pp Q.cfg.odeTol = .ok (z, hn) ∧ y 5 = z 5 := by
  obtain ⟨n, tr, D, r, hr, hrH, v⟩ := solve_view h hP hH
  obtain ⟨hkn, -⟩ := v.controls_lt hc
  have hm := v.masses_get hkn.le
  obtain ⟨st, u, psi, ptrb, htn, hpi, hprop, hu, -⟩ := C25_thrust_vector h hP hH hc ht hx hm
  have hu := hu rfl
  simp only [PerturbationIs, hpt] at hpi
  have hPz : Coasting { mu := Q.cfg.mu, u := u, psi0 := psi 0, psi1 := psi 1, psi2 := psi 2,
                        ptrb := ptrb } := by
    intro i; rw [hu, hpi]; fin_cases i <;> simp
  rw [ht'] at htn
  injection htn with htn
  have hst : st = t' - t := by linarith
  unfold Propagates at hprop
  simp only [hi] at hprop
  obtain ⟨hn, hprop⟩ := hprop
  rw [hst] at hprop
  refine ⟨_, rfl, hPz, _, hn, hprop, ?_⟩
  obtain ⟨hk1, hy'⟩ := state_or_clamp hr hrH v hy
  rw [← v.trace.after (k + 1) hk1]
  rcases hy' with hy' | ⟨s1, hs1, hy'⟩
  · rw [hy']
  · rcases clamp_cases hs1 with ⟨-, h2⟩ | ⟨hE, oe, h2, h3⟩
    · rw [hy', h2]
    · rw [hy', h3]
      unfold elementsSafety at h2
      split at h2
      · injection h2 with h2; rw [← h2]; rfl
      · cases h2

/-- the exact solution moves by `h g` to first order -/
theorem flow_first {g θ : ℝ → ℝ} {B : ℝ} (hB0 : 0 < B) (hB : ∀ x, |g x| ≤ B)
    (hL : ∀ x y, |g x - g y| ≤ B * |x - y|) (hθ : ∀ s, HasDerivAt θ (g (θ s)) s) (t t' : ℝ) :
    |θ t' - θ t - (t' - t) * g (θ t)| ≤ B ^ 2 * |t' - t| ^ 2 := by
  have h1 : ∀ s, |θ s - θ t| ≤ B * |s - t| := by
    intro s
    have := Convex.norm_image_sub_le_of_norm_hasDerivWithin_le (f := θ) (f' := fun s => g (θ s))
      (s := Set.univ) (x := t) (y := s) (C := B) (fun z _ => (hθ z).hasDerivWithinAt)
      (fun z _ => by rw [Real.norm_eq_abs]; exact hB _) convex_univ (Set.mem_univ _) (Set.mem_univ _)
    simpa [Real.norm_eq_abs] using this
  have h2 : ∀ s, HasDerivAt (fun s => θ s - s * g (θ t)) (g (θ s) - 1 * g (θ t)) s := fun s =>
    (hθ s).sub ((hasDerivAt_id s).mul_const _)
  have := Convex.norm_image_sub_le_of_norm_hasDerivWithin_le (f := fun s => θ s - s * g (θ t))
      (f' := fun s => g (θ s) - 1 * g (θ t)) (s := Set.uIcc t t') (x := t) (y := t')
      (C := B * (B * |t' - t|)) (fun z _ => (h2 z).hasDerivWithinAt)
      (fun z hz => by
        rw [Real.norm_eq_abs, one_mul]
        refine (hL _ _).trans ?_
        have h3 : |z - t| ≤ |t' - t| := Set.abs_sub_left_of_mem_uIcc hz
        have := h1 z
        gcongr
        exact this.trans (by gcongr)) (convex_uIcc _ _) Set.left_mem_uIcc Set.right_mem_uIcc
  simp only [Real.norm_eq_abs] at this
  calc |θ t' - θ t - (t' - t) * g (θ t)| = |θ t' - t' * g (θ t) - (θ t - t * g (θ t))| := by
        congr 1; ring
    _ ≤ B * (B * |t' - t|) * |t' - t| := this
    _ = _ := by ring

/-- **C102, `rkf45`: not of any order.** On every orbit there are `c > 0` and `h₀ > 0` such that every
recorded coast step by `rkf45` of length `0 < |h| ≤ h₀` misses the Kepler motion through its start by at
least `c |h|`. -/
theorem C102_rkf45 {mu a e : ℝ} (hmu : 0 < mu) (ha : 0 < a) (he0 : 0 < e) (he1 : e < 1) :
    ∃ c > 0, ∃ h0 > 0, ∀ [PyNan ℝ] (Q Q' : QLaw ℝ) (etaA etaR : EtaArg ℝ) (fuel : ℕ) (P : Problem ℝ)
      (H : Hist ℝ), Q.solve etaA etaR fuel = some (Q', none) → Q.prob = some P → Q'.hist = some H →
      Q.cfg.mu = mu → Q.cfg.dyn.eom = eomKepGauss → Q.cfg.integrator = .rkf45 →
      Q.cfg.perturbations = none →
      ∀ (i : ℕ) (x : ℕ → Fin 6 → ℝ) (t : ℕ → ℝ), CoastArc H i 1 x t h0 → x 0 0 = a → x 0 1 = e →
        ∀ θ, KeplerMotion mu a e 0 θ → θ (t 0) = x 0 5 → c * |t 1 - t 0| ≤ |x 1 5 - θ (t 1)| := by
  have hecc : e ^ 2 + (0 : ℝ) ^ 2 < 1 := by nlinarith
  obtain ⟨g1, g2, g3, g4, R⟩ := kepler_Rate hmu ha hecc
  obtain ⟨K, hK0, _, _, hK⟩ := rkf45_scalar R
  obtain ⟨B, hB0, hB, hL⟩ := R.lipschitz
  obtain ⟨c, hc0, hc⟩ := R.below
  obtain ⟨ε, hε⟩ : ∃ ε : ℝ, ε = 2197 / 5610168 := ⟨_, rfl⟩
  have hε0 : 0 < ε := by rw [hε]; norm_num
  refine ⟨ε * c / 2, by positivity, min 1 (ε * c / (2 * (K + B ^ 2))), by positivity, ?_⟩
  intro _ Q Q' etaA etaR fuel P H h hP hH hm heom hint hpt i x t A hxa hxe θ hθ hθ0
  obtain ⟨b, d, hcon⟩ := A.coast 0 (by omega)
  obtain ⟨pp, hpm, hpc, z, hn, hz, hy⟩ := coast_step_rkf45 h hP hH hint hpt hcon (A.states 0 (by omega))
    (A.states 1 le_rfl) (A.times 0 (by omega)) (A.times 1 le_rfl)
  have hsh := A.short 0 (by omega)
  simp only [zero_add] at hsh
  have hrhs : ∀ (t : ℝ) (y : Fin 6 → ℝ), (∀ j : Fin 5, y j.castSucc = x 0 j.castSucc) →
      Q.cfg.dyn.eom t y pp = .ok ![0, 0, 0, 0, 0, keplerRate mu a e 0 (y 5)] := by
    intro t y hy
    have y0 : y 0 = a := by have := hy 0; simp at this; rw [this, hxa]
    have y1 : y 1 = e := by have := hy 1; simp at this; rw [this, hxe]
    rw [heom, kepler_rhs hpc ⟨by rw [hpm, hm]; exact hmu, by rw [y0]; exact ha, by rw [y1]; exact he0,
      by rw [y1]; exact he1⟩ t, hpm, hm, y0, y1]
  have h1 := (hK _ pp (x 0) hrhs (t 0) (t 1 - t 0) Q.cfg.odeTol (hsh.trans (min_le_left _ _))).2 _ _ hz
  rw [← hy] at h1
  have h2 := flow_first hB0 hB hL hθ (t 0) (t 1)
  rw [hθ0] at h2
  have hg := hc (x 0 5)
  generalize keplerRate mu a e 0 (x 0 5) = g at *
  obtain ⟨s, hs⟩ : ∃ s, s = t 1 - t 0 := ⟨_, rfl⟩
  rw [← hs] at h1 h2 hsh ⊢
  have hs0 := abs_nonneg s
  have h3 : |s| ^ 3 ≤ |s| ^ 2 := by
    have : |s| ≤ 1 := hsh.trans (min_le_left _ _)
    nlinarith [sq_nonneg |s|]
  have h4 : (K + B ^ 2) * |s| ≤ ε * c / 2 := by
    calc (K + B ^ 2) * |s| ≤ (K + B ^ 2) * (ε * c / (2 * (K + B ^ 2))) := by
          gcongr; exact hsh.trans (min_le_right _ _)
      _ = ε * c / 2 := by field_simp
  have h5 : |ε * (s * g)| ≤ |x 1 5 - θ (t 1)| + K * |s| ^ 3 + B ^ 2 * |s| ^ 2 := by
    have e1 : ε * (s * g) = (x 1 5 - θ (t 1)) - (x 1 5 - x 0 5 - (1 + 2197 / 5610168) * (s * g)) +
        (θ (t 1) - x 0 5 - s * g) := by rw [hε]; ring
    rw [e1]
    refine (abs_add_le _ _).trans (add_le_add ((abs_sub _ _).trans ?_) h2)
    gcongr
  have h6 : |ε * (s * g)| = ε * (|s| * g) := by
    rw [abs_mul, abs_mul, abs_of_pos hε0, abs_of_pos (hc0.trans_le hg)]
  rw [h6] at h5
  have h7 : ε * (|s| * c) ≤ ε * (|s| * g) := by gcongr
  have h8 : (K + B ^ 2) * |s| * |s| ≤ ε * c / 2 * |s| := by gcongr
  have h9 : K * |s| ^ 3 ≤ K * |s| ^ 2 := by gcongr
  nlinarith

/-! ## runs with one step -/

namespace DriftSample

open CoastSample

/-- the sample of C57 with any integrator and step length -/
noncomputable def cfg (i : Integrator) : Config ℝ := { CoastSample.cfg with integrator := i }

noncomputable def prob (h : ℝ) : Problem ℝ := { CoastSample.prob with tfMax := h, tStep := h }

noncomputable def obj (i : Integrator) (h : ℝ) : QLaw ℝ :=
  { cfg := cfg i, prob := some (prob h), ready := true, converge := false, exitcode := 0, hist := none }

/-- the parameters of the step -/
noncomputable def params : OdeParams ℝ :=
  { mu := 1, u := zero3, psi0 := fun _ => 1, psi1 := fun _ => 1, psi2 := fun _ => 1, ptrb := zero3 }

/-- if the integrator returns, the run consists of one coast step of length `h` -/
theorem run {i : Integrator} {h : ℝ} (h0 : 0 < h) {y : Fin 6 → ℝ} {hn : ℝ}
    (hi : (i = .rk4 ∧ rk4 eomKepGauss 0 h (prob h).oe0 params = .ok y) ∨
      (i = .rkf45 ∧ rkf45 eomKepGauss 0 h (prob h).oe0 params 1 = .ok (y, hn))) :
    ∃ Q' H a b, (obj i h).solve (.flt 2) (.flt 0) 2 = some (Q', none) ∧ Q'.hist = some H ∧
    H.controls = [(a, b, 0)] ∧ H.states = [(prob h).oe0, y] ∧ H.times = [0, h] := by
  obtain ⟨al, be, hu⟩ := control
  have hcl : clampPhase (cfg i) (initLoop (prob h)) = .ok (initLoop (prob h)) := by
    have : elementsSafety (prob h).oe0 (cfg i).oeMin (cfg i).oeMax = .ok (prob h).oe0 := by
      simp only [elementsSafety, cfg, prob, CoastSample.cfg, CoastSample.prob]
      congr 1
      funext i
      fin_cases i <;> simp [pymin, pymax]
      all_goals norm_num
    simp only [clampPhase, cfg, CoastSample.cfg, initLoop, bind, Except.bind, pure, Except.pure] at this ⊢
    rw [this]
    rfl
  have hch : chooseStep (cfg i) (prob h) (initLoop (prob h)).oe = .ok h := rfl
  have hdu : dutyPhase (prob h) (initLoop (prob h)) h =
      { duty := true, tOn := 0, tOff := 0, charging := false, step := h } := by
    simp [dutyPhase, prob, CoastSample.prob, initLoop, rat]
    norm_num
  have hco : ∃ c : Ctl ℝ, controlPhase ⟨cfg i, prob h, .flt 2, .flt 0⟩ (initLoop (prob h))
      { duty := true, tOn := 0, tOff := 0, charging := false, step := h } = .ok (.ctl c) ∧
      c.alpha = some al ∧ c.beta = some be ∧ c.throttle = 0 ∧ c.u = zero3 ∧
      c.psi = fun _ _ => 1 := by
    have hl : linspace (1 : ℝ) (1 + 2 * Real.pi) (1 + 1) =
      [((0 : ℕ) : ℝ) * ((1 + 2 * Real.pi - 1) / ((1 : ℕ) : ℝ)) + 1] ++ [1 + 2 * Real.pi] := rfl
    simp [controlPhase, cfg, prob, CoastSample.cfg, CoastSample.prob, initLoop, asVec5,
      lyapunovControlAngles, hu, bind, Except.bind,
      pure, Except.pure, evalEta, evaluateOsculatingQdot, PyNan.isnan, dot5, dot3, vsmul, hl,
      pymaxList, pyminList]
  obtain ⟨c, hc, ha, hb, hth, hcu, hpsi⟩ := hco
  have hpr : ∃ z, propagatePhase ⟨cfg i, prob h, .flt 2, .flt 0⟩ (initLoop (prob h)) h c =
      .ok (y, z) := by
    have ht : (initLoop (prob h)).t = 0 := by simp [initLoop]
    have ho : (initLoop (prob h)).oe = (prob h).oe0 := rfl
    have hp : (⟨1, c.u, c.psi 0, c.psi 1, c.psi 2, zero3⟩ : OdeParams ℝ) = params := by
      rw [hcu, hpsi]; rfl
    rcases hi with ⟨rfl, hi⟩ | ⟨rfl, hi⟩
    · refine ⟨h, ?_⟩
      simp only [propagatePhase, cfg, CoastSample.cfg, bind, Except.bind, pure, Except.pure, ht, ho]
      rw [hp, hi]
    · refine ⟨pymax 0 (pymin 1 hn), ?_⟩
      simp only [propagatePhase, cfg, CoastSample.cfg, bind, Except.bind, pure, Except.pure, ht, ho]
      rw [hp, hi]
  obtain ⟨z, hpr⟩ := hpr
  have hit : ∃ s', iter ⟨cfg i, prob h, .flt 2, .flt 0⟩ (initLoop (prob h)) = .cont s' ∧
      s'.hist.times = [0, h] ∧ s'.hist.controls = [(al, be, 0)] ∧
      s'.hist.states = [(prob h).oe0, y] := by
    simp only [iter, hcl, bodyPhase, hch, hdu, hc, hpr, storePhase, ha, hb, exitPhase, hth]
    simp [cfg, prob, CoastSample.cfg, CoastSample.prob, initLoop]
    rw [if_neg (by norm_num)]
    exact ⟨_, rfl, rfl, rfl, rfl⟩
  obtain ⟨s', hit, ht, hcs, hss⟩ := hit
  have hg : guardB (prob h) (initLoop (prob h)) = true := by
    simp [guardB, initLoop, Hist.lastTime, prob, CoastSample.prob, h0.ne']
  have hg' : guardB (prob h) s' = false := by
    simp [guardB, Hist.lastTime, ht, prob]
  refine ⟨(obj i h).finish (prob h) (.timeout s'), s'.hist, al, be, ?_, rfl, hcs, hss, ht⟩
  simp only [QLaw.solve, obj, EtaArg.valid, if_true, loop, hg, hit, hg', Option.map]
  rfl

/-- the run as a coast arc -/
theorem arc {i : Integrator} {h : ℝ} (h0 : 0 < h) {y : Fin 6 → ℝ} {hn : ℝ}
    (hi : (i = .rk4 ∧ rk4 eomKepGauss 0 h (prob h).oe0 params = .ok y) ∨
      (i = .rkf45 ∧ rkf45 eomKepGauss 0 h (prob h).oe0 params 1 = .ok (y, hn))) {δ : ℝ} (hδ : h ≤ δ) :
    ∃ Q' H, (obj i h).solve (.flt 2) (.flt 0) 2 = some (Q', none) ∧ Q'.hist = some H ∧
      CoastArc H 0 1 (fun k => if k = 0 then (prob h).oe0 else y) (fun k => if k = 0 then 0 else h)
        δ := by
  obtain ⟨Q', H, a, b, hs, hH, hc, hst, ht⟩ := run h0 hi
  refine ⟨Q', H, hs, hH, ⟨?_, ?_, ?_, ?_⟩⟩
  · intro k hk
    rw [hst]
    obtain rfl | rfl : k = 0 ∨ k = 1 := by omega
    · rfl
    · rfl
  · intro k hk
    rw [ht]
    obtain rfl | rfl : k = 0 ∨ k = 1 := by omega
    · rfl
    · rfl
  · intro k hk
    obtain rfl : k = 0 := by omega
    exact ⟨a, b, by rw [hc]; rfl⟩
  · intro k hk
    obtain rfl : k = 0 := by omega
    simpa [abs_of_pos h0] using hδ

theorem rhs (h t : ℝ) (y : Fin 6 → ℝ)
    (hy : ∀ j : Fin 5, y j.castSucc = (prob h).oe0 j.castSucc) :
    eomKepGauss t y params = .ok ![0, 0, 0, 0, 0, keplerRate 1 1 (1 / 2) 0 (y 5)] := by
  have y0 : y 0 = 1 := by have := hy 0; simpa [prob, CoastSample.prob] using this
  have y1 : y 1 = 1 / 2 := by have := hy 1; simpa [prob, CoastSample.prob] using this
  rw [kepler_rhs (P := params) (by intro i; fin_cases i <;> simp [params, zero3])
    ⟨by norm_num [params], by rw [y0]; norm_num, by rw [y1]; norm_num, by rw [y1]; norm_num⟩ t, y0, y1]
  rfl

/-- the hypotheses of `C102_keplerian_partial` are met for every step length up to 1 -/
example (h : ℝ) (h0 : 0 < h) : ∃ Q' H x t,
    (obj .rk4 h).solve (.flt 2) (.flt 0) 2 = some (Q', none) ∧ Q'.hist = some H ∧
    CoastArc H 0 1 x t h ∧ x 0 0 = 1 ∧ x 0 1 = 1 / 2 ∧ t 1 - t 0 = h ∧
    ∃ θ, KeplerMotion 1 1 (1 / 2) 0 θ ∧ θ (t 0) = x 0 5 := by
  obtain ⟨y, hy, -⟩ := rk4_scalar (rhs h) 0 h
  obtain ⟨Q', H, hs, hH, A⟩ := arc (hn := 0) h0 (Or.inl ⟨rfl, hy⟩) le_rfl
  obtain ⟨θ, hθ0, hθ⟩ := kepler_exists (mu := 1) (a := 1) (f := 1 / 2) (g := 0) (by norm_num)
    (by norm_num) (by norm_num) 0 1
  exact ⟨Q', H, _, _, hs, hH, A, rfl, rfl, by simp, θ, hθ, hθ0⟩

end DriftSample

open DriftSample CoastSample in
/-- **C102 is violated by `rkf45`.** On the orbit `μ = 1`, `a = 1`, `e = 1/2` no constant `C` bounds the
anomaly error of all coast arcs by `C δ⁴` times the time covered. -/
theorem C102_violated : ¬ ∃ C, ∀ (Q Q' : QLaw ℝ) (etaA etaR : EtaArg ℝ) (fuel : ℕ) (P : Problem ℝ)
      (H : Hist ℝ), Q.solve etaA etaR fuel = some (Q', none) → Q.prob = some P → Q'.hist = some H →
      Q.cfg.mu = 1 → Q.cfg.dyn.eom = eomKepGauss → Q.cfg.integrator = .rkf45 →
      Q.cfg.perturbations = none →
      ∀ (i n : ℕ) (x : ℕ → Fin 6 → ℝ) (t : ℕ → ℝ) (δ : ℝ), CoastArc H i n x t δ → δ ≤ 1 →
        x 0 0 = 1 → x 0 1 = 1 / 2 →
        ∀ θ, KeplerMotion 1 1 (1 / 2) 0 θ → θ (t 0) = x 0 5 →
          |x n 5 - θ (t n)| ≤ C * δ ^ 4 * ∑ k ∈ Finset.range n, |t (k + 1) - t k| := by
  rintro ⟨C, hC⟩
  obtain ⟨g1, g2, g3, g4, R⟩ := kepler_Rate (mu := 1) (a := 1) (f := 1 / 2) (g := 0) (by norm_num)
    (by norm_num) (by norm_num)
  obtain ⟨_, _, h2, h20, hret⟩ := rkf45_scalar R
  obtain ⟨c, hc0, h1, h10, hlow⟩ := C102_rkf45 (mu := 1) (a := 1) (e := 1 / 2) (by norm_num)
    (by norm_num) (by norm_num) (by norm_num)
  obtain ⟨h, hh⟩ : ∃ h, h = min (min h1 h2) (min 1 (c / (|C| + 1) / 2)) := ⟨_, rfl⟩
  have hh0 : 0 < h := by rw [hh]; positivity
  have hh1 : h ≤ 1 := by rw [hh]; exact (min_le_right _ _).trans (min_le_left _ _)
  have hha : h ≤ h1 := by rw [hh]; exact (min_le_left _ _).trans (min_le_left _ _)
  have hhb : h ≤ h2 := by rw [hh]; exact (min_le_left _ _).trans (min_le_right _ _)
  have hhc : h ≤ c / (|C| + 1) / 2 := by rw [hh]; exact (min_le_right _ _).trans (min_le_right _ _)
  obtain ⟨⟨y, hn⟩, hy⟩ := (hret _ params (prob h).oe0 (rhs h) 0 h 1 (by rw [abs_of_pos hh0]; exact hh1)).1
    hh0.ne' (by rw [abs_of_pos hh0]; exact hhb)
  obtain ⟨Q', H, hs, hH, A⟩ := arc hh0 (Or.inr ⟨rfl, hy⟩) (le_refl h)
  obtain ⟨Q'', H', hs', hH', A'⟩ := arc hh0 (Or.inr ⟨rfl, hy⟩) hha
  obtain ⟨θ, hθ0, hθ⟩ := kepler_exists (mu := 1) (a := 1) (f := 1 / 2) (g := 0) (by norm_num)
    (by norm_num) (by norm_num) 0 1
  have e1 := hC _ _ _ _ _ _ _ hs rfl hH rfl rfl rfl rfl 0 1 _ _ h A hh1 rfl rfl θ hθ hθ0
  have e2 := hlow _ _ _ _ _ _ _ hs' rfl hH' rfl rfl rfl rfl 0 _ _ A' rfl rfl θ hθ hθ0
  simp only [Finset.range_one, Finset.sum_singleton, zero_add, one_ne_zero, if_false, if_true, sub_zero,
    abs_of_pos hh0] at e1 e2
  have e3 : c * h ≤ C * h ^ 4 * h := e2.trans e1
  have e4 : c ≤ C * h ^ 4 := le_of_mul_le_mul_right e3 hh0
  have e5 : C * h ^ 4 ≤ |C| * h := by
    have : h ^ 4 ≤ h := by
      calc h ^ 4 = h * h ^ 3 := by ring
        _ ≤ h * 1 := by gcongr; exact pow_le_one₀ hh0.le hh1
        _ = h := mul_one h
    calc C * h ^ 4 ≤ |C| * h ^ 4 := by gcongr; exact le_abs_self C
      _ ≤ |C| * h := by gcongr
  have e6 : |C| * h ≤ (|C| + 1) * (c / (|C| + 1) / 2) := by
    gcongr
    linarith
  have e7 : (|C| + 1) * (c / (|C| + 1) / 2) = c / 2 := by
    have : |C| + 1 ≠ 0 := by positivity
    field_simp
  linarith

end PyQ
