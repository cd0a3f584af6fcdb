import Verif.Props.Uniform
import Verif.Proofs.Euler

/-!
The motion of all six elements under the package's law, as a smooth field, and the defect of one step of
either integrator against it.
-/

set_option linter.unusedSectionVars false
set_option maxRecDepth 100000

open Filter Topology

namespace PyQ

/-! ## the anomaly -/

/-- the last row of the Gauss matrix: what an acceleration does to the anomaly -/
noncomputable def fastRow (et : ElemType) (mu : ℝ) (x : Fin 6 → ℝ) : Fin 3 → ℝ :=
  match et with
  | .keplerian =>
    let p := x 0 * (1 - x 1 ^ 2)
    let h := Real.sqrt (x 0 * mu * (1 - x 1 ^ 2))
    let r := h ^ 2 / (mu * (1 + x 1 * Real.cos (x 5)))
    ![p * Real.cos (x 5) / (x 1 * h), -(p + r) * Real.sin (x 5) / (x 1 * h), 0]
  | .meeWithA =>
    let p := x 0 * (1 - Real.sqrt (x 1 ^ 2 + x 2 ^ 2) ^ 2)
    let w := 1 + x 1 * Real.cos (x 5) + x 2 * Real.sin (x 5)
    ![0, 0, Real.sqrt (p / mu) / w * (x 3 * Real.sin (x 5) - x 4 * Real.cos (x 5))]

/-- the rate of the anomaly of a coasting body -/
noncomputable def fastSelf (et : ElemType) (mu : ℝ) (x : Fin 6 → ℝ) : ℝ :=
  match et with
  | .keplerian =>
    let h := Real.sqrt (x 0 * mu * (1 - x 1 ^ 2))
    h / (h ^ 2 / (mu * (1 + x 1 * Real.cos (x 5)))) ^ 2
  | .meeWithA =>
    let p := x 0 * (1 - Real.sqrt (x 1 ^ 2 + x 2 ^ 2) ^ 2)
    let w := 1 + x 1 * Real.cos (x 5) + x 2 * Real.sin (x 5)
    Real.sqrt (mu * p) * (w / p) ^ 2

theorem ndiv_ok {x y z : ℝ} (h : ndiv x y = .ok z) : z = x / y := by
  unfold ndiv at h
  split at h
  · cases h
  · injection h with h; exact h.symm

/-- a call of the equations of motion that does not raise -/
theorem eom_value {et : ElemType} {t : ℝ} {x : Fin 6 → ℝ} {P : OdeParams ℝ} {k : Fin 6 → ℝ}
    (h : (dynOf (α := ℝ) et).eom t x P = .ok k) : k = gaussCombine P (fastRow et P.mu x) (fastSelf et P.mu x) := by
  cases et with
  | keplerian =>
    change eomKepGauss t x P = .ok k at h
    simp only [eomKepGauss, Bind.bind, Except.bind, pure, Except.pure] at h
    repeat' (split at h <;> try cases h)
    rename_i _ r hr _ c0 h0 _ c1 h1 _ rate h2
    rw [ndiv_ok h0, ndiv_ok h1, ndiv_ok h2, ndiv_ok hr]
    simp [fastRow, fastSelf]
  | meeWithA =>
    change eomMeeWithAGauss t x P = .ok k at h
    simp only [eomMeeWithAGauss, Bind.bind, Except.bind, pure, Except.pure] at h
    repeat' (split at h <;> try cases h)
    rename_i _ gf hgf _ r hr _ q hq _ sw hsw _ wp hwp
    rw [ndiv_ok hwp, ndiv_ok hsw, ndiv_ok hq]
    simp [fastRow, fastSelf]

theorem eom_fast {et : ElemType} {t : ℝ} {x : Fin 6 → ℝ} {P : OdeParams ℝ} {k : Fin 6 → ℝ}
    (h : (dynOf (α := ℝ) et).eom t x P = .ok k) :
    k 5 = ∑ c : Fin 3, fastRow et P.mu x c * (P.u c + P.ptrb c) + fastSelf et P.mu x := by
  rw [eom_value h]
  simp [gaussCombine, dot3, vadd, Fin.sum_univ_three]

theorem fast_smooth {N : ℕ∞} {et : ElemType} {A : LyapArgs ℝ} (H : CandSmooth et A) :
    (∀ c, ContDiffAt ℝ N (fun x => fastRow et A.mu x c) A.oe) ∧ ContDiffAt ℝ N (fastSelf et A.mu) A.oe := by
  cases et with
  | keplerian =>
    have H : KepSmooth A := H
    have hmu := H.mu
    have ha := H.a
    have he0 := H.e0
    have he1 := H.e1
    have hp : 0 < 1 - A.oe 1 ^ 2 := by nlinarith
    have hh : 0 < Real.sqrt (A.oe 0 * A.mu * (1 - A.oe 1 ^ 2)) := Real.sqrt_pos.2 (by positivity)
    have hc : 0 < 1 + A.oe 1 * Real.cos (A.oe 5) := by nlinarith [Real.neg_one_le_cos (A.oe 5)]
    constructor
    · intro c
      fin_cases c <;> simp only [fastRow, Fin.zero_eta, Fin.mk_one, Fin.reduceFinMk, Matrix.cons_val] <;>
        fun_prop (disch := positivity)
    · unfold fastSelf
      simp only
      fun_prop (disch := positivity)
  | meeWithA =>
    have hmu := H.1.mu
    have ha := H.1.a
    have hecc := H.1.ecc
    have hecc0 := H.1.ecc0
    have he : Real.sqrt (A.oe 1 ^ 2 + A.oe 2 ^ 2) ^ 2 = A.oe 1 ^ 2 + A.oe 2 ^ 2 := Real.sq_sqrt hecc0.le
    have hq : 0 < 1 - Real.sqrt (A.oe 1 ^ 2 + A.oe 2 ^ 2) ^ 2 := by rw [he]; linarith
    have hpm : 0 < A.oe 0 * (1 - Real.sqrt (A.oe 1 ^ 2 + A.oe 2 ^ 2) ^ 2) / A.mu := by positivity
    have hw : 0 < 1 + A.oe 1 * Real.cos (A.oe 5) + A.oe 2 * Real.sin (A.oe 5) := by
      nlinarith [sq_nonneg (A.oe 1 + Real.cos (A.oe 5)), sq_nonneg (A.oe 2 + Real.sin (A.oe 5)),
        Real.sin_sq_add_cos_sq (A.oe 5)]
    constructor
    · intro c
      fin_cases c <;> simp only [fastRow, Fin.zero_eta, Fin.mk_one, Fin.reduceFinMk, Matrix.cons_val] <;>
        fun_prop (disch := positivity)
    · unfold fastSelf
      simp only
      fun_prop (disch := positivity)

/-! ## the law -/

/-- the states at which the Gauss matrix is smooth and `Q` has continuous second derivatives: with modified
equinoctial elements away from the target semi-major axis, or with an even exponent `n` -/
def LawSmooth (et : ElemType) (A : LyapArgs ℝ) : Prop :=
  CandSmooth et A ∧ (et = .meeWithA → A.oe 0 ≠ A.oeT 0 ∨ ∃ j : ℕ, A.n = 2 * j)

theorem candQ_smooth {N : ℕ∞} {et : ElemType} {A : LyapArgs ℝ} (H : LawSmooth et A) :
    ContDiffAt ℝ N (fun x => candQ et (A.withOe x)) A.oe := by
  cases et with
  | keplerian => exact kepQ_smooth A H.1
  | meeWithA =>
    refine meeQ_smooth A H.1.1 ?_
    rcases H.2 rfl with h | ⟨j, h⟩
    · exact meeSoe_off H.1.1 h
    · exact meeSoe_even H.1.1 h

/-- the direction chosen by the law: against the gradient -/
noncomputable def lawDir (et : ElemType) (A : LyapArgs ℝ) (c : Fin 3) : ℝ :=
  -1 / norm3 (lawGrad et A) * lawGrad et A c

/-- the rates of all six elements under an acceleration `f` along the direction of the law -/
noncomputable def loopRate (et : ElemType) (A : LyapArgs ℝ) (f : ℝ) (i : Fin 6) : ℝ :=
  Fin.lastCases (f * (∑ c : Fin 3, fastRow et A.mu A.oe c * lawDir et A c) + fastSelf et A.mu A.oe)
    (fun j : Fin 5 => f * lawRates et A j) i

theorem loopRate_slow (et : ElemType) (A : LyapArgs ℝ) (f : ℝ) (j : Fin 5) :
    loopRate et A f j.castSucc = f * lawRates et A j := Fin.lastCases_castSucc ..

theorem loopRate_fast (et : ElemType) (A : LyapArgs ℝ) (f : ℝ) : loopRate et A f 5 =
    f * (∑ c : Fin 3, fastRow et A.mu A.oe c * lawDir et A c) + fastSelf et A.mu A.oe := Fin.lastCases_last ..

/-- the direction and the rates are continuously differentiable functions of the state -/
theorem law_c1 {C : Config ℝ} {oeT woe : Fin 5 → ℝ} {et : ElemType} {x : Fin 6 → ℝ}
    (H : LawSmooth et (unitCall C oeT woe x)) (hg : lawGrad et (unitCall C oeT woe x) ≠ 0) :
    (∀ c, ContDiffAt ℝ 1 (fun x => lawDir et (unitCall C oeT woe x) c) x) ∧
    ∀ j, ContDiffAt ℝ 1 (fun x => lawRates et (unitCall C oeT woe x) j) x := by
  have hP : ∀ c j, ContDiffAt ℝ 1 (fun x => candPsi et (unitCall C oeT woe x) c j) x :=
    fun c j => candPsi_smooth (N := 1) H.1 c j
  have hF : ContDiffAt ℝ 2 (fun x => candQ et (unitCall C oeT woe x)) x := candQ_smooth (N := 2) H
  have hq : ∀ j, ContDiffAt ℝ 1 (fun x => partialQ (candQ et) (unitCall C oeT woe x) j) x := by
    intro j
    have h1 : ContDiffAt ℝ 1 (fun y => fderiv ℝ (fun x => candQ et (unitCall C oeT woe x)) y
        (Pi.single j.castSucc 1)) x :=
      (hF.fderiv_right (m := 1) (by norm_num)).clm_apply contDiffAt_const
    refine h1.congr_of_eventuallyEq ?_
    filter_upwards [hF.eventually (by simp)] with y hy
    exact partialQ_fderiv (A := unitCall C oeT woe y) (hy.differentiableAt (by norm_num)) j
  have hG : ∀ c, ContDiffAt ℝ 1 (fun x => lawGrad et (unitCall C oeT woe x) c) x := by
    intro c
    simp only [lawGrad, thrustGrad]
    exact ContDiffAt.sum fun j _ => (hP c j).mul (hq j)
  have hn := norm3_pos hg
  have hN : ContDiffAt ℝ 1 (fun x => norm3 (lawGrad et (unitCall C oeT woe x))) x := by
    have h0 := hn
    simp only [norm3, sqrt_real] at h0 ⊢
    exact ((((hG 0).pow 2).add ((hG 1).pow 2)).add ((hG 2).pow 2)).sqrt (Real.sqrt_pos.1 h0).ne'
  have hD : ∀ c, ContDiffAt ℝ 1 (fun x => lawDir et (unitCall C oeT woe x) c) x := by
    intro c
    exact (contDiffAt_const.div hN hn.ne').mul (hG c)
  refine ⟨hD, fun j => ?_⟩
  simp only [lawRates]
  exact ContDiffAt.sum fun c _ => (hP c j).mul (hD c)

theorem loop_c1 {C : Config ℝ} {oeT woe : Fin 5 → ℝ} {et : ElemType} {x : Fin 6 → ℝ}
    (H : LawSmooth et (unitCall C oeT woe x)) (hg : lawGrad et (unitCall C oeT woe x) ≠ 0) (tmax m0 mdot g : ℝ)
    {t : ℝ} (hm : m0 - mdot * t ≠ 0) :
    ContDiffAt ℝ 1 (fun y : ℝ × (Fin 6 → ℝ) => ((1 : ℝ),
      g • loopRate et (unitCall C oeT woe y.2) (tmax / (m0 - mdot * y.1)))) (t, x) := by
  obtain ⟨h1, h2⟩ := law_c1 H hg
  obtain ⟨h3, h4⟩ := fast_smooth (N := 1) H.1
  have hf : ContDiffAt ℝ 1 (fun y : ℝ × (Fin 6 → ℝ) => tmax / (m0 - mdot * y.1)) (t, x) := by
    fun_prop (disch := assumption)
  have lift : ∀ φ : (Fin 6 → ℝ) → ℝ, ContDiffAt ℝ 1 φ x → ContDiffAt ℝ 1 (fun y : ℝ × (Fin 6 → ℝ) => φ y.2) (t, x) :=
    fun φ hφ => ContDiffAt.comp (g := φ) (f := fun y : ℝ × (Fin 6 → ℝ) => y.2) (t, x) hφ contDiffAt_snd
  refine contDiffAt_const.prodMk (ContDiffAt.const_smul g (contDiffAt_pi.2 fun i => ?_))
  induction i using Fin.lastCases with
  | last =>
    simp only [loopRate, Fin.lastCases_last]
    exact (hf.mul (ContDiffAt.sum fun c _ => (lift _ (h3 c)).mul (lift _ (h1 c)))).add (lift _ h4)
  | cast j =>
    simp only [loopRate, Fin.lastCases_castSucc]
    exact hf.mul (lift _ (h2 j))

/-! ## one step of an integrator -/

section step
variable {P : Type} {rhs : ℝ → (Fin 6 → ℝ) → P → Except PyErr (Fin 6 → ℝ)} {p : P} {x z : Fin 6 → ℝ}
  {t h R M φ ε : ℝ}

/-- the sixth component of an `rk4` step whose stages stay where the rate is close to `φ` -/
theorem rk4_near (hS : ∀ t v k, ‖v‖ ≤ R → rhs t (x + v) p = .ok k → ‖k‖ ≤ M ∧ |k 5 - φ| ≤ ε)
    (hh : 0 ≤ h) (hM : 0 ≤ M) (hR : h * M ≤ R) (hz : rk4 rhs t h x p = .ok z) : |z 5 - x 5 - h * φ| ≤ h * ε := by
  unfold rk4 at hz
  simp only [Bind.bind, Except.bind, pure, Except.pure] at hz
  repeat' (split at hz <;> try cases hz)
  rename_i _ k1 h1 _ k2 h2 _ k3 h3 _ k4 h4
  have half : h * rat 1 2 = (h / 2 : ℝ) := by rw [rat_real]; ring
  rw [half] at h2 h3
  have st : ∀ (c : ℝ) (k : Fin 6 → ℝ), 0 ≤ c → c ≤ h → ‖k‖ ≤ M → ‖c • k‖ ≤ R := by
    intro c k c0 c1 hk
    rw [norm_smul, Real.norm_eq_abs, abs_of_nonneg c0]
    exact (mul_le_mul c1 hk (norm_nonneg _) hh).trans hR
  have e1 := hS t 0 k1 (by rw [norm_zero]; exact (mul_nonneg hh hM).trans hR) (by rw [add_zero]; exact h1)
  have e2 := hS _ ((h / 2) • k1) k2 (st _ _ (by linarith) (by linarith) e1.1) h2
  have e3 := hS _ ((h / 2) • k2) k3 (st _ _ (by linarith) (by linarith) e2.1) h3
  have e4 := hS _ (h • k3) k4 (st _ _ hh le_rfl e3.1) h4
  have e : vadd x (vsmul (h / ((6 : ℕ) : ℝ)) (vadd (vadd (vadd k1 (vsmul ((2 : ℕ) : ℝ) k2)) (vsmul ((2 : ℕ) : ℝ) k3)) k4)) 5
      - x 5 - h * φ = h / 6 * ((k1 5 - φ) + 2 * (k2 5 - φ) + 2 * (k3 5 - φ) + (k4 5 - φ)) := by
    simp only [vadd, vsmul]; push_cast; ring
  rw [e, abs_mul, abs_of_nonneg (by positivity)]
  obtain ⟨a1, b1⟩ := abs_le.1 e1.2
  obtain ⟨a2, b2⟩ := abs_le.1 e2.2
  obtain ⟨a3, b3⟩ := abs_le.1 e3.2
  obtain ⟨a4, b4⟩ := abs_le.1 e4.2
  have : |(k1 5 - φ) + 2 * (k2 5 - φ) + 2 * (k3 5 - φ) + (k4 5 - φ)| ≤ 6 * ε :=
    abs_le.2 ⟨by linarith, by linarith⟩
  calc _ ≤ h / 6 * (6 * ε) := by gcongr
    _ = _ := by ring

/-- the same for `rkf45`, whose weights do not add up to one -/
theorem rkf45_near {tol hn : ℝ} (hS : ∀ t v k, ‖v‖ ≤ R → rhs t (x + v) p = .ok k → ‖k‖ ≤ M ∧ |k 5 - φ| ≤ ε)
    (hh : 0 ≤ h) (h1' : h ≤ 1) (hM : 0 ≤ M) (hε : 0 ≤ ε) (hR : 20 * (h * M) ≤ R)
    (hz : rkf45 rhs t h x p tol = .ok (z, hn)) :
    |z 5 - x 5 - (1 + 2197 / 5610168) * h * φ| ≤ 2 * (h * ε) := by
  unfold rkf45 at hz
  simp only [Bind.bind, Except.bind, pure, Except.pure] at hz
  split at hz
  · cases hz
  rename_i k1 h1
  split at hz
  · cases hz
  rename_i k2 h2
  split at hz
  · cases hz
  rename_i k3 h3
  split at hz
  · cases hz
  rename_i k4 h4
  split at hz
  · cases hz
  rename_i k5 h5
  split at hz
  · cases hz
  split at hz
  · cases hz
  injection hz with hz
  injection hz with hz _
  have hM0 : 0 ≤ h * M := mul_nonneg hh hM
  have st : ∀ (c : ℝ) (k : Fin 6 → ℝ), 0 ≤ c → ‖k‖ ≤ M → ‖(c * h) • (h • k)‖ ≤ c * (h * M) := by
    intro c k c0 hk
    rw [norm_smul, norm_smul, Real.norm_eq_abs, Real.norm_eq_abs, abs_of_nonneg hh, abs_of_nonneg (by positivity)]
    have : h * (h * ‖k‖) ≤ 1 * (h * M) := by gcongr
    calc c * h * (h * ‖k‖) = c * (h * (h * ‖k‖)) := by ring
      _ ≤ c * (1 * (h * M)) := by gcongr
      _ = _ := by ring
  have e1 := hS t 0 k1 (by rw [norm_zero]; linarith) (by rw [add_zero]; exact h1)
  have r1 := fun c hc => st c k1 hc e1.1
  have e2 := hS _ ((1 / 4 * h) • (h • k1)) k2 ((r1 _ (by norm_num)).trans (by linarith)) (by
    rw [← h2]; congr 1; funext i; simp only [vadd, vsmul, rat_real, Pi.add_apply, Pi.smul_apply, smul_eq_mul]; norm_num)
  have r2 := fun c hc => st c k2 hc e2.1
  have e3 := hS _ ((3 / 32 * h) • (h • k1) + (9 / 32 * h) • (h • k2)) k3
    ((norm_add_le _ _).trans (by linarith [r1 (3 / 32) (by norm_num), r2 (9 / 32) (by norm_num)])) (by
    rw [← h3]; congr 1; funext i
    simp only [vadd, vsmul, rat_real, Pi.add_apply, Pi.smul_apply, smul_eq_mul]; push_cast; ring)
  have r3 := fun c hc => st c k3 hc e3.1
  have e4 := hS _ ((1932 / 2197 * h) • (h • k1) - (7200 / 2197 * h) • (h • k2) + (7296 / 2197 * h) • (h • k3)) k4
    ((norm_add_le _ _).trans (by
      linarith [norm_sub_le ((1932 / 2197 * h) • (h • k1)) ((7200 / 2197 * h) • (h • k2)),
        r1 (1932 / 2197) (by norm_num), r2 (7200 / 2197) (by norm_num), r3 (7296 / 2197) (by norm_num)])) (by
    rw [← h4]; congr 1; funext i
    simp only [vadd, vsub, vsmul, rat_real, Pi.add_apply, Pi.sub_apply, Pi.smul_apply, smul_eq_mul]; push_cast; ring)
  have r4 := fun c hc => st c k4 hc e4.1
  have e5 := hS _ ((439 / 216 * h) • (h • k1) - (8 * h) • (h • k2) + (3680 / 513 * h) • (h • k3) -
      (845 / 4104 * h) • (h • k4)) k5
    ((norm_sub_le _ _).trans (by
      linarith [norm_add_le ((439 / 216 * h) • (h • k1) - (8 * h) • (h • k2)) ((3680 / 513 * h) • (h • k3)),
        norm_sub_le ((439 / 216 * h) • (h • k1)) ((8 * h) • (h • k2)),
        r1 (439 / 216) (by norm_num), r2 8 (by norm_num), r3 (3680 / 513) (by norm_num),
        r4 (845 / 4104) (by norm_num)])) (by
    rw [← h5]; congr 1; funext i
    simp only [vadd, vsub, vsmul, rat_real, Pi.add_apply, Pi.sub_apply, Pi.smul_apply, smul_eq_mul]; push_cast; ring)
  have e : z 5 - x 5 - (1 + 2197 / 5610168) * h * φ = h * (25 / 216 * (k1 5 - φ) + 1408 / 2565 * (k3 5 - φ) +
      2197 / 4101 * (k4 5 - φ) - 1 / 5 * (k5 5 - φ)) := by
    rw [← hz]
    simp only [vadd, vsub, vsmul, rat_real]; push_cast; ring
  rw [e, abs_mul, abs_of_nonneg hh]
  obtain ⟨a1, b1⟩ := abs_le.1 e1.2
  obtain ⟨a3, b3⟩ := abs_le.1 e3.2
  obtain ⟨a4, b4⟩ := abs_le.1 e4.2
  obtain ⟨a5, b5⟩ := abs_le.1 e5.2
  have : |25 / 216 * (k1 5 - φ) + 1408 / 2565 * (k3 5 - φ) + 2197 / 4101 * (k4 5 - φ) - 1 / 5 * (k5 5 - φ)| ≤ 2 * ε :=
    abs_le.2 ⟨by linarith, by linarith⟩
  calc _ ≤ h * (2 * ε) := by gcongr
    _ = _ := by ring

end step

/-- one propagation step of the anomaly, where the rates are bounded by `M` and Lipschitz -/
theorem propagates_fast {C : Config ℝ} {et : ElemType} (hd : C.dyn = dynOf et) {t st r M L : ℝ}
    {x y : Fin 6 → ℝ} {u ptrb : Fin 3 → ℝ} {psi : Fin 3 → Fin 5 → ℝ}
    (h : Propagates C t st x u psi ptrb y) (h0 : 0 ≤ st) (h1 : st ≤ 1) (hL : 0 ≤ L) (hr : 20 * (st * M) < r)
    (hM : ∀ j, |∑ c : Fin 3, psi c j * (u c + ptrb c)| ≤ M)
    (hF : ∀ z, ‖z - x‖ < r → |∑ c : Fin 3, fastRow et C.mu z c * (u c + ptrb c) + fastSelf et C.mu z| ≤ M ∧
      |∑ c : Fin 3, fastRow et C.mu z c * (u c + ptrb c) + fastSelf et C.mu z -
        (∑ c : Fin 3, fastRow et C.mu x c * (u c + ptrb c) + fastSelf et C.mu x)| ≤ L * ‖z - x‖) :
    |y 5 - x 5 - gain C.integrator * st * (∑ c : Fin 3, fastRow et C.mu x c * (u c + ptrb c) + fastSelf et C.mu x)| ≤
      40 * L * M * st ^ 2 := by
  unfold Propagates at h
  rw [hd] at h
  have hM0 : 0 ≤ M := (abs_nonneg _).trans (hM 0)
  have hS : ∀ t v k, ‖v‖ ≤ 20 * (st * M) → (dynOf (α := ℝ) et).eom t (x + v)
      { mu := C.mu, u := u, psi0 := psi 0, psi1 := psi 1, psi2 := psi 2, ptrb := ptrb } = .ok k → ‖k‖ ≤ M ∧
      |k 5 - (∑ c : Fin 3, fastRow et C.mu x c * (u c + ptrb c) + fastSelf et C.mu x)| ≤ L * (20 * (st * M)) := by
    intro t v k hv hk
    have e5 := eom_fast hk
    have es := fun j => dyn_slow et _ _ _ k hk j
    have hxv : x + v - x = v := add_sub_cancel_left x v
    obtain ⟨f1, f2⟩ := hF (x + v) (by rw [hxv]; linarith)
    rw [hxv] at f2
    refine ⟨(pi_norm_le_iff_of_nonneg hM0).2 fun i => ?_, ?_⟩
    · rw [Real.norm_eq_abs]
      induction i using Fin.lastCases with
      | last =>
        have e5' : k (Fin.last 5) = _ := e5
        rw [e5']; exact f1
      | cast j =>
        rw [es j]
        have := hM j
        rw [Fin.sum_univ_three] at this
        exact this
    · rw [e5]
      refine f2.trans ?_
      gcongr
  cases hi : C.integrator with
  | rk4 =>
    simp only [hi] at h
    have := rk4_near hS h0 hM0 (by nlinarith [mul_nonneg h0 hM0]) h
    simp only [gain, one_mul]
    refine this.trans ?_
    have : 0 ≤ L * M * st ^ 2 := by positivity
    nlinarith
  | rkf45 =>
    simp only [hi] at h
    obtain ⟨hn, h⟩ := h
    have := rkf45_near hS h0 h1 hM0 (by positivity) le_rfl h
    simp only [gain]
    refine this.trans (le_of_eq ?_)
    ring

end PyQ
