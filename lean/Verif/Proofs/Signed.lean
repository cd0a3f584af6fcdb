import Verif.Props.Limit

/-!
One step of either integrator in either direction of time, with any constant perturbing acceleration, against the
rates of all six elements.
-/

set_option linter.unusedSectionVars false
set_option maxRecDepth 100000

open Filter Topology

namespace PyQ

section step
variable {P : Type} {rhs : ℝ → (Fin 6 → ℝ) → P → Except PyErr (Fin 6 → ℝ)} {p : P} {x z : Fin 6 → ℝ}
  {t h R M φ ε : ℝ}

/-- the sixth component of an `rk4` step whose stages stay where the rate is close to `φ` -/
theorem rk4_near_signed (hS : ∀ t v k, ‖v‖ ≤ R → rhs t (x + v) p = .ok k → ‖k‖ ≤ M ∧ |k 5 - φ| ≤ ε)
    (hM : 0 ≤ M) (hR : |h| * M ≤ R) (hz : rk4 rhs t h x p = .ok z) : |z 5 - x 5 - h * φ| ≤ |h| * ε := by
  have hh := abs_nonneg h
  unfold rk4 at hz
  simp only [Bind.bind, Except.bind, pure, Except.pure] at hz
  repeat' (split at hz <;> try cases hz)
  rename_i _ k1 h1 _ k2 h2 _ k3 h3 _ k4 h4
  have half : h * rat 1 2 = (h / 2 : ℝ) := by rw [rat_real]; ring
  rw [half] at h2 h3
  have st : ∀ (c : ℝ) (k : Fin 6 → ℝ), |c| ≤ |h| → ‖k‖ ≤ M → ‖c • k‖ ≤ R := by
    intro c k c1 hk
    rw [norm_smul, Real.norm_eq_abs]
    exact (mul_le_mul c1 hk (norm_nonneg _) hh).trans hR
  have e1 := hS t 0 k1 (by rw [norm_zero]; exact (mul_nonneg hh hM).trans hR) (by rw [add_zero]; exact h1)
  have h2' : |h / 2| ≤ |h| := by rw [abs_div, abs_two]; linarith
  have e2 := hS _ ((h / 2) • k1) k2 (st _ _ h2' e1.1) h2
  have e3 := hS _ ((h / 2) • k2) k3 (st _ _ h2' e2.1) h3
  have e4 := hS _ (h • k3) k4 (st _ _ le_rfl e3.1) h4
  have e : vadd x (vsmul (h / ((6 : ℕ) : ℝ)) (vadd (vadd (vadd k1 (vsmul ((2 : ℕ) : ℝ) k2)) (vsmul ((2 : ℕ) : ℝ) k3)) k4)) 5
      - x 5 - h * φ = h / 6 * ((k1 5 - φ) + 2 * (k2 5 - φ) + 2 * (k3 5 - φ) + (k4 5 - φ)) := by
    simp only [vadd, vsmul]; push_cast; ring
  rw [e, abs_mul, abs_div, abs_of_pos (show (0 : ℝ) < 6 by norm_num)]
  obtain ⟨a1, b1⟩ := abs_le.1 e1.2
  obtain ⟨a2, b2⟩ := abs_le.1 e2.2
  obtain ⟨a3, b3⟩ := abs_le.1 e3.2
  obtain ⟨a4, b4⟩ := abs_le.1 e4.2
  have : |(k1 5 - φ) + 2 * (k2 5 - φ) + 2 * (k3 5 - φ) + (k4 5 - φ)| ≤ 6 * ε :=
    abs_le.2 ⟨by linarith, by linarith⟩
  calc _ ≤ |h| / 6 * (6 * ε) := by gcongr
    _ = _ := by ring

/-- the same for `rkf45`, whose weights do not add up to one -/
theorem rkf45_near_signed {tol hn : ℝ} (hS : ∀ t v k, ‖v‖ ≤ R → rhs t (x + v) p = .ok k → ‖k‖ ≤ M ∧ |k 5 - φ| ≤ ε)
    (h1' : |h| ≤ 1) (hM : 0 ≤ M) (hε : 0 ≤ ε) (hR : 20 * (|h| * M) ≤ R)
    (hz : rkf45 rhs t h x p tol = .ok (z, hn)) :
    |z 5 - x 5 - (1 + 2197 / 5610168) * h * φ| ≤ 2 * (|h| * ε) := by
  have hh := abs_nonneg h
  unfold rkf45 at hz
  simp only [Bind.bind, Except.bind, pure, Except.pure] at hz
  split at hz
  · cases hz
  rename_i k1 h1
  split at hz
  · cases hz
  rename_i k2 h2
  split at hz
  · cases hz
  rename_i k3 h3
  split at hz
  · cases hz
  rename_i k4 h4
  split at hz
  · cases hz
  rename_i k5 h5
  split at hz
  · cases hz
  split at hz
  · cases hz
  injection hz with hz
  injection hz with hz _
  have hM0 : 0 ≤ |h| * M := mul_nonneg hh hM
  have st : ∀ (c : ℝ) (k : Fin 6 → ℝ), 0 ≤ c → ‖k‖ ≤ M → ‖(c * h) • (h • k)‖ ≤ c * (|h| * M) := by
    intro c k c0 hk
    rw [norm_smul, norm_smul, Real.norm_eq_abs, Real.norm_eq_abs, abs_mul, abs_of_nonneg c0]
    have : |h| * (|h| * ‖k‖) ≤ 1 * (|h| * M) := by gcongr
    calc c * |h| * (|h| * ‖k‖) = c * (|h| * (|h| * ‖k‖)) := by ring
      _ ≤ c * (1 * (|h| * M)) := by gcongr
      _ = _ := by ring
  have e1 := hS t 0 k1 (by rw [norm_zero]; linarith) (by rw [add_zero]; exact h1)
  have r1 := fun c hc => st c k1 hc e1.1
  have e2 := hS _ ((1 / 4 * h) • (h • k1)) k2 ((r1 _ (by norm_num)).trans (by linarith)) (by
    rw [← h2]; congr 1; funext i; simp only [vadd, vsmul, rat_real, Pi.add_apply, Pi.smul_apply, smul_eq_mul]; norm_num)
  have r2 := fun c hc => st c k2 hc e2.1
  have e3 := hS _ ((3 / 32 * h) • (h • k1) + (9 / 32 * h) • (h • k2)) k3
    ((norm_add_le _ _).trans (by linarith [r1 (3 / 32) (by norm_num), r2 (9 / 32) (by norm_num)])) (by
    rw [← h3]; congr 1; funext i
    simp only [vadd, vsmul, rat_real, Pi.add_apply, Pi.smul_apply, smul_eq_mul]; push_cast; ring)
  have r3 := fun c hc => st c k3 hc e3.1
  have e4 := hS _ ((1932 / 2197 * h) • (h • k1) - (7200 / 2197 * h) • (h • k2) + (7296 / 2197 * h) • (h • k3)) k4
    ((norm_add_le _ _).trans (by
      linarith [norm_sub_le ((1932 / 2197 * h) • (h • k1)) ((7200 / 2197 * h) • (h • k2)),
        r1 (1932 / 2197) (by norm_num), r2 (7200 / 2197) (by norm_num), r3 (7296 / 2197) (by norm_num)])) (by
    rw [← h4]; congr 1; funext i
    simp only [vadd, vsub, vsmul, rat_real, Pi.add_apply, Pi.sub_apply, Pi.smul_apply, smul_eq_mul]; push_cast; ring)
  have r4 := fun c hc => st c k4 hc e4.1
  have e5 := hS _ ((439 / 216 * h) • (h • k1) - (8 * h) • (h • k2) + (3680 / 513 * h) • (h • k3) -
      (845 / 4104 * h) • (h • k4)) k5
    ((norm_sub_le _ _).trans (by
      linarith [norm_add_le ((439 / 216 * h) • (h • k1) - (8 * h) • (h • k2)) ((3680 / 513 * h) • (h • k3)),
        norm_sub_le ((439 / 216 * h) • (h • k1)) ((8 * h) • (h • k2)),
        r1 (439 / 216) (by norm_num), r2 8 (by norm_num), r3 (3680 / 513) (by norm_num),
        r4 (845 / 4104) (by norm_num)])) (by
    rw [← h5]; congr 1; funext i
    simp only [vadd, vsub, vsmul, rat_real, Pi.add_apply, Pi.sub_apply, Pi.smul_apply, smul_eq_mul]; push_cast; ring)
  have e : z 5 - x 5 - (1 + 2197 / 5610168) * h * φ = h * (25 / 216 * (k1 5 - φ) + 1408 / 2565 * (k3 5 - φ) +
      2197 / 4101 * (k4 5 - φ) - 1 / 5 * (k5 5 - φ)) := by
    rw [← hz]
    simp only [vadd, vsub, vsmul, rat_real]; push_cast; ring
  rw [e, abs_mul]
  obtain ⟨a1, b1⟩ := abs_le.1 e1.2
  obtain ⟨a3, b3⟩ := abs_le.1 e3.2
  obtain ⟨a4, b4⟩ := abs_le.1 e4.2
  obtain ⟨a5, b5⟩ := abs_le.1 e5.2
  have : |25 / 216 * (k1 5 - φ) + 1408 / 2565 * (k3 5 - φ) + 2197 / 4101 * (k4 5 - φ) - 1 / 5 * (k5 5 - φ)| ≤ 2 * ε :=
    abs_le.2 ⟨by linarith, by linarith⟩
  calc _ ≤ |h| * (2 * ε) := by gcongr
    _ = _ := by ring

end step

/-- one propagation step of the anomaly, where the rates are bounded by `M` and Lipschitz -/
theorem propagates_fast_signed {C : Config ℝ} {et : ElemType} (hd : C.dyn = dynOf et) {t st r M L : ℝ}
    {x y : Fin 6 → ℝ} {u ptrb : Fin 3 → ℝ} {psi : Fin 3 → Fin 5 → ℝ}
    (h : Propagates C t st x u psi ptrb y) (h1 : |st| ≤ 1) (hL : 0 ≤ L) (hr : 20 * (|st| * M) < r)
    (hM : ∀ j, |∑ c : Fin 3, psi c j * (u c + ptrb c)| ≤ M)
    (hF : ∀ z, ‖z - x‖ < r → |∑ c : Fin 3, fastRow et C.mu z c * (u c + ptrb c) + fastSelf et C.mu z| ≤ M ∧
      |∑ c : Fin 3, fastRow et C.mu z c * (u c + ptrb c) + fastSelf et C.mu z -
        (∑ c : Fin 3, fastRow et C.mu x c * (u c + ptrb c) + fastSelf et C.mu x)| ≤ L * ‖z - x‖) :
    |y 5 - x 5 - gain C.integrator * st * (∑ c : Fin 3, fastRow et C.mu x c * (u c + ptrb c) + fastSelf et C.mu x)| ≤
      40 * L * M * st ^ 2 := by
  unfold Propagates at h
  rw [hd] at h
  have hM0 : 0 ≤ M := (abs_nonneg _).trans (hM 0)
  have h0 := abs_nonneg st
  have hsq := sq_abs st
  have hS : ∀ t v k, ‖v‖ ≤ 20 * (|st| * M) → (dynOf (α := ℝ) et).eom t (x + v)
      { mu := C.mu, u := u, psi0 := psi 0, psi1 := psi 1, psi2 := psi 2, ptrb := ptrb } = .ok k → ‖k‖ ≤ M ∧
      |k 5 - (∑ c : Fin 3, fastRow et C.mu x c * (u c + ptrb c) + fastSelf et C.mu x)| ≤ L * (20 * (|st| * M)) := by
    intro t v k hv hk
    have e5 := eom_fast hk
    have es := fun j => dyn_slow et _ _ _ k hk j
    have hxv : x + v - x = v := add_sub_cancel_left x v
    obtain ⟨f1, f2⟩ := hF (x + v) (by rw [hxv]; linarith)
    rw [hxv] at f2
    refine ⟨(pi_norm_le_iff_of_nonneg hM0).2 fun i => ?_, ?_⟩
    · rw [Real.norm_eq_abs]
      induction i using Fin.lastCases with
      | last =>
        have e5' : k (Fin.last 5) = _ := e5
        rw [e5']; exact f1
      | cast j =>
        rw [es j]
        have := hM j
        rw [Fin.sum_univ_three] at this
        exact this
    · rw [e5]
      refine f2.trans ?_
      gcongr
  cases hi : C.integrator with
  | rk4 =>
    simp only [hi] at h
    have := rk4_near_signed hS hM0 (by nlinarith [mul_nonneg h0 hM0]) h
    simp only [gain, one_mul]
    refine this.trans ?_
    have : 0 ≤ L * M * st ^ 2 := by positivity
    rw [← hsq] at this ⊢
    nlinarith
  | rkf45 =>
    simp only [hi] at h
    obtain ⟨hn, h⟩ := h
    have := rkf45_near_signed hS h1 hM0 (by positivity) le_rfl h
    simp only [gain]
    refine this.trans (le_of_eq ?_)
    rw [← hsq]
    ring


/-! ## rates under an arbitrary acceleration -/

/-- the rates of all six elements under an acceleration `a` in the radial, transverse, normal frame -/
noncomputable def accRate (et : ElemType) (A : LyapArgs ℝ) (a : Fin 3 → ℝ) (i : Fin 6) : ℝ :=
  Fin.lastCases (∑ c : Fin 3, fastRow et A.mu A.oe c * a c + fastSelf et A.mu A.oe)
    (fun j : Fin 5 => ∑ c : Fin 3, candPsi et A c j * a c) i

theorem accRate_slow (et : ElemType) (A : LyapArgs ℝ) (a : Fin 3 → ℝ) (j : Fin 5) :
    accRate et A a j.castSucc = ∑ c : Fin 3, candPsi et A c j * a c := Fin.lastCases_castSucc ..

theorem accRate_fast (et : ElemType) (A : LyapArgs ℝ) (a : Fin 3 → ℝ) : accRate et A a 5 =
    ∑ c : Fin 3, fastRow et A.mu A.oe c * a c + fastSelf et A.mu A.oe := Fin.lastCases_last ..

theorem eom_accRate {et : ElemType} {t : ℝ} {A : LyapArgs ℝ} {P : OdeParams ℝ} {v : Fin 6 → ℝ} (hmu : P.mu = A.mu)
    (hpsi : ![P.psi0, P.psi1, P.psi2] = candPsi et A) (h : (dynOf (α := ℝ) et).eom t A.oe P = .ok v) :
    v = accRate et A (fun c => P.u c + P.ptrb c) := by
  funext i
  induction i using Fin.lastCases with
  | last => exact (eom_fast h).trans ((accRate_fast et A _).trans (by rw [hmu])).symm
  | cast j =>
    rw [dyn_slow et _ _ _ v h j, accRate_slow, ← hpsi]
    simp only [Fin.sum_univ_three, Matrix.cons_val]

/-- the direction of the law does not depend on the size or the sign of the acceleration it is called with -/
theorem law_direction_signed {et : ElemType} {C : Config ℝ} {oeT woe : Fin 5 → ℝ} {f : ℝ} {x : Fin 6 → ℝ} (hf : f ≠ 0)
    {o : ControlOut ℝ} (h : lyapunovControlAngles (dynOf (α := ℝ) et).lyapFun (callAt C oeT woe f x) = .ok o)
    (c : Fin 3) : unitDir o.alpha o.beta c = lawDir et (unitCall C oeT woe x) c := by
  have hu := dyn_lyap et (callAt C oeT woe f x)
  obtain ⟨o', g1, g2, -⟩ := control_value (dynOf (α := ℝ) et).lyapFun (callAt C oeT woe f x)
    (by rw [hu.1, hu.2.2.1, hu.2.2.2]) (control_defined h)
  rw [h] at g1; injection g1 with g1; subst g1
  have e : ((dynOf (α := ℝ) et).lyapFun (callAt C oeT woe f x)).uRaw =
      vsmul (1 / f ^ 2) (lawGrad et (unitCall C oeT woe x)) := by
    rw [hu.1, ← lawGrad_call]; rfl
  have hk : 0 < 1 / f ^ 2 := by positivity
  rw [g2, e, norm3_smul, abs_of_pos hk, lawDir]
  simp only [vsmul]
  field_simp

theorem unitDir_le (α β : ℝ) (c : Fin 3) : |unitDir α β c| ≤ 1 := by
  have h1 := Real.abs_cos_le_one β
  have h2 := Real.abs_sin_le_one α
  have h3 := Real.abs_cos_le_one α
  fin_cases c <;> simp [unitDir, abs_mul]
  · exact mul_le_one₀ h1 (abs_nonneg _) h2
  · exact mul_le_one₀ h1 (abs_nonneg _) h3
  · exact Real.abs_sin_le_one _

end PyQ
