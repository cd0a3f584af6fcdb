import Verif.Props.Limit

/-!
C108: short-step runs along a regular motion complete, and when the motion reaches the target so does the run.
-/

set_option linter.unusedSectionVars false
set_option maxRecDepth 100000

open Set Metric Topology

namespace PyQ

/-! ## one step -/

theorem rk4_returns {P : Type} {rhs : ℝ → (Fin 6 → ℝ) → P → Except PyErr (Fin 6 → ℝ)} {p : P} {x : Fin 6 → ℝ}
    {t h R M : ℝ} (hS : ∀ t v, ‖v‖ ≤ R → ∃ k, rhs t (x + v) p = .ok k ∧ ‖k‖ ≤ M) (hh : 0 ≤ h) (hM : 0 ≤ M)
    (hR : h * M ≤ R) : ∃ z, rk4 rhs t h x p = .ok z := by
  have half : h * rat 1 2 = (h / 2 : ℝ) := by rw [rat_real]; ring
  have st : ∀ (c : ℝ) (k : Fin 6 → ℝ), 0 ≤ c → c ≤ h → ‖k‖ ≤ M → ‖c • k‖ ≤ R := by
    intro c k c0 c1 hk
    rw [norm_smul, Real.norm_eq_abs, abs_of_nonneg c0]
    exact (mul_le_mul c1 hk (norm_nonneg _) hh).trans hR
  obtain ⟨k1, h1, b1⟩ := hS t 0 (by rw [norm_zero]; exact (mul_nonneg hh hM).trans hR)
  rw [add_zero] at h1
  obtain ⟨k2, h2, b2⟩ := hS (t + rat 1 2 * h) ((h / 2) • k1) (st _ _ (by linarith) (by linarith) b1)
  obtain ⟨k3, h3, b3⟩ := hS (t + rat 1 2 * h) ((h / 2) • k2) (st _ _ (by linarith) (by linarith) b2)
  obtain ⟨k4, h4, b4⟩ := hS (t + h) (h • k3) (st _ _ hh le_rfl b3)
  have e2 : rhs (t + rat 1 2 * h) (vadd x (vsmul (h * rat 1 2) k1)) p = .ok k2 := by rw [half]; exact h2
  have e3 : rhs (t + rat 1 2 * h) (vadd x (vsmul (h * rat 1 2) k2)) p = .ok k3 := by rw [half]; exact h3
  have e4 : rhs (t + h) (vadd x (vsmul h k3)) p = .ok k4 := h4
  unfold rk4
  simp only [h1, e2, e3, e4, Bind.bind, Except.bind, pure, Except.pure]
  exact ⟨_, rfl⟩

/-- `rkf45` steps are defined too: the error estimate by which it divides is not zero, because its two weight sets have
different sums -/
theorem rkf45_returns {P : Type} {rhs : ℝ → (Fin 6 → ℝ) → P → Except PyErr (Fin 6 → ℝ)} {p : P} {x : Fin 6 → ℝ}
    {t h R M φ tol : ℝ} {j : Fin 6}
    (hS : ∀ t v, ‖v‖ ≤ R → ∃ k, rhs t (x + v) p = .ok k ∧ ‖k‖ ≤ M ∧ k j = φ) (hφ : φ ≠ 0) (hh : 0 < h) (h1' : h ≤ 1)
    (hM : 0 ≤ M) (hR : 20 * (h * M) ≤ R) : ∃ z hn, rkf45 rhs t h x p tol = .ok (z, hn) := by
  have hM0 : 0 ≤ h * M := mul_nonneg hh.le hM
  have st : ∀ (c : ℝ) (k : Fin 6 → ℝ), 0 ≤ c → ‖k‖ ≤ M → ‖(c * h) • (h • k)‖ ≤ c * (h * M) := by
    intro c k c0 hk
    rw [norm_smul, norm_smul, Real.norm_eq_abs, Real.norm_eq_abs, abs_of_nonneg hh.le, abs_of_nonneg (by positivity)]
    have : h * (h * ‖k‖) ≤ 1 * (h * M) := by gcongr
    calc c * h * (h * ‖k‖) = c * (h * (h * ‖k‖)) := by ring
      _ ≤ c * (1 * (h * M)) := by gcongr
      _ = _ := by ring
  obtain ⟨k1, h1, b1, v1⟩ := hS t 0 (by rw [norm_zero]; linarith)
  rw [add_zero] at h1
  have r1 := fun c hc => st c k1 hc b1
  obtain ⟨k2, h2, b2, v2⟩ := hS (t + rat 1 4 * h) ((1 / 4 * h) • (h • k1)) ((r1 _ (by norm_num)).trans (by linarith))
  have r2 := fun c hc => st c k2 hc b2
  obtain ⟨k3, h3, b3, v3⟩ := hS (t + rat 3 8 * h) ((3 / 32 * h) • (h • k1) + (9 / 32 * h) • (h • k2))
    ((norm_add_le _ _).trans (by linarith [r1 (3 / 32) (by norm_num), r2 (9 / 32) (by norm_num)]))
  have r3 := fun c hc => st c k3 hc b3
  obtain ⟨k4, h4, b4, v4⟩ := hS (t + rat 12 13 * h)
    ((1932 / 2197 * h) • (h • k1) - (7200 / 2197 * h) • (h • k2) + (7296 / 2197 * h) • (h • k3))
    ((norm_add_le _ _).trans (by
      linarith [norm_sub_le ((1932 / 2197 * h) • (h • k1)) ((7200 / 2197 * h) • (h • k2)),
        r1 (1932 / 2197) (by norm_num), r2 (7200 / 2197) (by norm_num), r3 (7296 / 2197) (by norm_num)]))
  have r4 := fun c hc => st c k4 hc b4
  obtain ⟨k5, h5, b5, v5⟩ := hS (t + h) ((439 / 216 * h) • (h • k1) - (8 * h) • (h • k2) + (3680 / 513 * h) • (h • k3) -
      (845 / 4104 * h) • (h • k4))
    ((norm_sub_le _ _).trans (by
      linarith [norm_add_le ((439 / 216 * h) • (h • k1) - (8 * h) • (h • k2)) ((3680 / 513 * h) • (h • k3)),
        norm_sub_le ((439 / 216 * h) • (h • k1)) ((8 * h) • (h • k2)),
        r1 (439 / 216) (by norm_num), r2 8 (by norm_num), r3 (3680 / 513) (by norm_num),
        r4 (845 / 4104) (by norm_num)]))
  have r5 := fun c hc => st c k5 hc b5
  obtain ⟨k6, h6, b6, v6⟩ := hS (t + rat 1 2 * h) (-((8 / 27 * h) • (h • k1)) + (2 * h) • (h • k2) -
      (3544 / 2565 * h) • (h • k3) + (1859 / 4104 * h) • (h • k4) - (11 / 40 * h) • (h • k5))
    ((norm_sub_le _ _).trans (by
      linarith [norm_add_le (-((8 / 27 * h) • (h • k1)) + (2 * h) • (h • k2) - (3544 / 2565 * h) • (h • k3))
          ((1859 / 4104 * h) • (h • k4)),
        norm_sub_le (-((8 / 27 * h) • (h • k1)) + (2 * h) • (h • k2)) ((3544 / 2565 * h) • (h • k3)),
        norm_add_le (-((8 / 27 * h) • (h • k1))) ((2 * h) • (h • k2)), (norm_neg ((8 / 27 * h) • (h • k1))).le,
        r1 (8 / 27) (by norm_num), r2 2 (by norm_num), r3 (3544 / 2565) (by norm_num),
        r4 (1859 / 4104) (by norm_num), r5 (11 / 40) (by norm_num)]))
  have e2 : rhs (t + rat 1 4 * h) (vadd x (vsmul (rat 1 4 * h) (vsmul h k1))) p = .ok k2 := by
    rw [← h2]; congr 1; funext i; simp only [vadd, vsmul, rat_real, Pi.add_apply, Pi.smul_apply, smul_eq_mul]; norm_num
  have e3 : rhs (t + rat 3 8 * h) (vadd (vadd x (vsmul (rat 3 32 * h) (vsmul h k1))) (vsmul (rat 9 32 * h) (vsmul h k2))) p =
      .ok k3 := by
    rw [← h3]; congr 1; funext i
    simp only [vadd, vsmul, rat_real, Pi.add_apply, Pi.smul_apply, smul_eq_mul]; push_cast; ring
  have e4 : rhs (t + rat 12 13 * h) (vadd (vsub (vadd x (vsmul (rat 1932 2197 * h) (vsmul h k1)))
      (vsmul (rat 7200 2197 * h) (vsmul h k2))) (vsmul (rat 7296 2197 * h) (vsmul h k3))) p = .ok k4 := by
    rw [← h4]; congr 1; funext i
    simp only [vadd, vsub, vsmul, rat_real, Pi.add_apply, Pi.sub_apply, Pi.smul_apply, smul_eq_mul]; push_cast; ring
  have e5 : rhs (t + h) (vsub (vadd (vsub (vadd x (vsmul (rat 439 216 * h) (vsmul h k1)))
      (vsmul (((8 : ℕ) : ℝ) * h) (vsmul h k2))) (vsmul (rat 3680 513 * h) (vsmul h k3)))
      (vsmul (rat 845 4104 * h) (vsmul h k4))) p = .ok k5 := by
    rw [← h5]; congr 1; funext i
    simp only [vadd, vsub, vsmul, rat_real, Pi.add_apply, Pi.sub_apply, Pi.smul_apply, smul_eq_mul]; push_cast; ring
  have e6 : rhs (t + rat 1 2 * h) (vsub (vadd (vsub (vadd (vsub x (vsmul (rat 8 27 * h) (vsmul h k1)))
      (vsmul (((2 : ℕ) : ℝ) * h) (vsmul h k2))) (vsmul (rat 3544 2565 * h) (vsmul h k3)))
      (vsmul (rat 1859 4104 * h) (vsmul h k4))) (vsmul (rat 11 40 * h) (vsmul h k5))) p = .ok k6 := by
    rw [← h6]; congr 1; funext i
    simp only [vadd, vsub, vsmul, rat_real, Pi.add_apply, Pi.sub_apply, Pi.neg_apply, Pi.smul_apply, smul_eq_mul]
    push_cast; ring
  unfold rkf45
  simp only [h1, e2, e3, e4, e5, e6, Bind.bind, Except.bind, pure, Except.pure]
  rw [ndiv_real]
  · exact ⟨_, _, rfl⟩
  · intro hn0
    have h0 := congrFun (normN_eq_zero.1 hn0) j
    simp only [vadd, vsub, vsmul, rat_real, v1, v3, v4, v5, v6, Pi.zero_apply] at h0
    push_cast at h0
    have h7 : h * φ * (2197 / 5610168) = 0 := by linear_combination -h0
    have h8 : h * φ ≠ 0 := mul_ne_zero hh.ne' hφ
    have h9 : (2197 / 5610168 : ℝ) ≠ 0 := by norm_num
    exact mul_ne_zero h8 h9 h7

/-- where thrust can change `Q`, the law changes some slow element -/
theorem lawRates_ne {et : ElemType} {A : LyapArgs ℝ} (h : lawGrad et A ≠ 0) : ∃ j, lawRates et A j ≠ 0 := by
  by_contra hno
  push Not at hno
  have h1 : ∑ j : Fin 5, lawRates et A j * partialQ (candQ et) A j = 0 :=
    Finset.sum_eq_zero fun j _ => by rw [hno j, zero_mul]
  have h2 : ∑ j : Fin 5, lawRates et A j * partialQ (candQ et) A j =
      -1 / norm3 (lawGrad et A) * ∑ c : Fin 3, lawGrad et A c * lawGrad et A c := by
    simp only [lawRates, Finset.sum_mul, Finset.mul_sum]
    rw [Finset.sum_comm]
    refine Finset.sum_congr rfl fun c _ => ?_
    have e : lawGrad et A c = ∑ j : Fin 5, candPsi et A c j * partialQ (candQ et) A j := rfl
    conv_rhs => rw [← mul_assoc, e, Finset.mul_sum]
    refine Finset.sum_congr rfl fun j _ => ?_
    rw [← e]; ring
  rw [h1] at h2
  have hpos : 0 < ∑ c : Fin 3, lawGrad et A c * lawGrad et A c := by
    obtain ⟨c, hc⟩ := Function.ne_iff.1 h
    exact Finset.sum_pos' (fun c _ => mul_self_nonneg _) ⟨c, Finset.mem_univ c, mul_self_pos.2 hc⟩
  have hn : 0 < norm3 (lawGrad et A) := norm3_pos h
  have : -1 / norm3 (lawGrad et A) * ∑ c : Fin 3, lawGrad et A c * lawGrad et A c < 0 :=
    mul_neg_of_neg_of_pos (div_neg_of_neg_of_pos (by norm_num) hn) hpos
  linarith

/-- around a motion under the law, the law and short steps are defined -/
theorem tube_fine {C : Config ℝ} {et : ElemType} {oeT woe l u : Fin 5 → ℝ} {tmax m0 mdot g T : ℝ} {γ : ℝ → Fin 6 → ℝ}
    (hM : LawMotion C et oeT woe tmax m0 mdot g T γ)
    (hS : ∀ t ∈ Icc 0 T, LawSmooth et (unitCall C oeT woe (γ t)) ∧
      (C.elementsType = .keplerian → ∀ j : Fin 5, l j < γ t j.castSucc ∧ γ t j.castSucc < u j))
    (hT : 0 < tmax) (hmd : 0 ≤ mdot) (hm : 0 < m0 - mdot * T) :
    ∃ ρ > 0, ∃ δ > 0, ∀ t ∈ Icc 0 T, ∀ x ∈ ball (γ t) ρ,
      (C.elementsType = .keplerian → ∀ j : Fin 5, l j < x j.castSucc ∧ x j.castSucc < u j) ∧
      ∃ o, lyapunovControlAngles (dynOf (α := ℝ) et).lyapFun (callAt C oeT woe (tmax / (m0 - mdot * t)) x) = .ok o ∧
        ∀ h, 0 < h → h < δ → ∀ τ p, p =
            { mu := C.mu, u := vsmul (tmax / (m0 - mdot * t)) (dirOf o.alpha o.beta),
              psi0 := o.psi 0, psi1 := o.psi 1, psi2 := o.psi 2, ptrb := zero3 } →
          (∃ z, rk4 (dynOf (α := ℝ) et).eom τ h x p = .ok z) ∧
          ∀ tol, ∃ z hn, rkf45 (dynOf (α := ℝ) et).eom τ h x p tol = .ok (z, hn) := by
  have hmass : ∀ t ∈ Icc 0 T, 0 < m0 - mdot * t := fun t ht => by
    have := mul_le_mul_of_nonneg_left ht.2 hmd
    linarith
  have hcont : ContinuousOn γ (Icc 0 T) := fun t ht => by
    obtain ⟨o, v, -, -, h3⟩ := hM t ht
    exact h3.continuousWithinAt
  have hgrad : ∀ t ∈ Icc 0 T, lawGrad et (unitCall C oeT woe (γ t)) 0 ≠ 0 ∨ lawGrad et (unitCall C oeT woe (γ t)) 1 ≠ 0 := by
    intro t ht
    obtain ⟨o, v, h1, -⟩ := hM t ht
    have h2 := control_defined h1
    rw [(dyn_lyap et _).1] at h2
    have h3 := lawGrad_call et C oeT woe (tmax / (m0 - mdot * t)) (γ t)
    unfold lawGrad at h3
    rw [h3] at h2
    exact h2.imp right_ne_zero_of_mul right_ne_zero_of_mul
  have hgrad' : ∀ t ∈ Icc 0 T, lawGrad et (unitCall C oeT woe (γ t)) ≠ 0 := fun t ht h0 => by
    rcases hgrad t ht with h | h <;> exact h (by rw [h0]; rfl)
  -- an open set of good states
  have hopen : ∀ t ∈ Icc 0 T, γ t ∈ interior {y | LawSmooth et (unitCall C oeT woe y) ∧
      (lawGrad et (unitCall C oeT woe y) 0 ≠ 0 ∨ lawGrad et (unitCall C oeT woe y) 1 ≠ 0) ∧
      (C.elementsType = .keplerian → ∀ j : Fin 5, l j < y j.castSucc ∧ y j.castSucc < u j)} := by
    intro t ht
    rw [mem_interior_iff_mem_nhds]
    obtain ⟨H, hb⟩ := hS t ht
    refine (lawSmooth_near H).and (Filter.Eventually.and ?_ ?_)
    · rcases hgrad t ht with h | h
      · exact ((lawGrad_cont H 0).eventually_ne h).mono fun y hy => Or.inl hy
      · exact ((lawGrad_cont H 1).eventually_ne h).mono fun y hy => Or.inr hy
    · by_cases hk : C.elementsType = .keplerian
      · simp only [hk, true_imp_iff]
        rw [Filter.eventually_all]
        intro j
        exact ((continuous_apply _).continuousAt.eventually (lt_mem_nhds (hb hk j).1)).and
          ((continuous_apply _).continuousAt.eventually (gt_mem_nhds (hb hk j).2))
      · exact Filter.Eventually.of_forall fun y h => absurd h hk
  obtain ⟨ρ1, hρ1, hin⟩ := tube_open hcont isOpen_interior hopen
  obtain ⟨L, hL, ρ2, hρ2, hΦ⟩ := tube_lipschitz (f := fun x => (fastRow et C.mu x, fastSelf et C.mu x,
      lawRates et (unitCall C oeT woe x))) hcont (fun t ht => by
    have e1 := fast_smooth (N := 1) (hS t ht).1.1
    exact (contDiffAt_pi.2 e1.1).prodMk (e1.2.prodMk (contDiffAt_pi.2 (law_c1 (hS t ht).1 (hgrad' t ht)).2)))
  obtain ⟨ρ, hρdef⟩ : ∃ ρ, ρ = min ρ1 ρ2 / 2 := ⟨_, rfl⟩
  have hρ : 0 < ρ := by rw [hρdef]; positivity
  have hρ1' : ρ + ρ ≤ ρ1 := by rw [hρdef]; linarith [min_le_left ρ1 ρ2]
  have hρ2' : ρ + ρ ≤ ρ2 := by rw [hρdef]; linarith [min_le_right ρ1 ρ2]
  obtain ⟨fM, hfM⟩ : ∃ fM, fM = tmax / (m0 - mdot * T) := ⟨_, rfl⟩
  have hfM0 : 0 < fM := by rw [hfM]; exact div_pos hT hm
  have hf : ∀ t ∈ Icc 0 T, 0 < tmax / (m0 - mdot * t) ∧ tmax / (m0 - mdot * t) ≤ fM := by
    intro t ht
    refine ⟨div_pos hT (hmass t ht), ?_⟩
    rw [hfM]
    have := ht.2
    gcongr
  obtain ⟨M, hMdef⟩ : ∃ M, M = (3 * fM + 1) * L := ⟨_, rfl⟩
  have hM0 : 0 < M := by rw [hMdef]; positivity
  refine ⟨ρ, hρ, min (ρ / (20 * M)) 1, by positivity, fun t ht x hx => ?_⟩
  have hball : ∀ v : Fin 6 → ℝ, ‖v‖ ≤ ρ → ‖x + v - γ t‖ < ρ + ρ := by
    intro v hv
    have h1 : ‖x - γ t‖ < ρ := by rwa [mem_ball, dist_eq_norm] at hx
    have : x + v - γ t = (x - γ t) + v := by abel
    rw [this]
    exact (norm_add_le _ _).trans_lt (by linarith)
  have good : ∀ v : Fin 6 → ℝ, ‖v‖ ≤ ρ → x + v ∈ ball (γ t) ρ1 ∧ x + v ∈ ball (γ t) ρ2 := by
    intro v hv
    have := hball v hv
    constructor <;> rw [mem_ball, dist_eq_norm] <;> linarith
  have h0 := good 0 (by rw [norm_zero]; exact hρ.le)
  rw [add_zero] at h0
  obtain ⟨-, k2, k3⟩ := interior_subset (hin t ht h0.1)
  obtain ⟨hf0, hf1⟩ := hf t ht
  obtain ⟨o, ho⟩ := law_defined hf0 k2
  refine ⟨k3, o, ho, fun h hh hhδ τ p hpar => ?_⟩
  subst hpar
  have hdir := law_direction hf0 ho
  have hdu : dirOf o.alpha o.beta = unitDir o.alpha o.beta := by
    funext c; fin_cases c <;> simp [dirOf, unitDir]
  have hub : ∀ c, |tmax / (m0 - mdot * t) * unitDir o.alpha o.beta c| ≤ fM := by
    intro c
    have hc1 : |unitDir o.alpha o.beta c| ≤ 1 := by
      have h1 := Real.abs_cos_le_one o.beta
      have h2 := Real.abs_sin_le_one o.alpha
      have h3 := Real.abs_cos_le_one o.alpha
      fin_cases c <;> simp [unitDir, abs_mul]
      · exact mul_le_one₀ h1 (abs_nonneg _) h2
      · exact mul_le_one₀ h1 (abs_nonneg _) h3
      · exact Real.abs_sin_le_one _
    rw [abs_mul, abs_of_pos hf0]
    calc _ ≤ fM * 1 := by gcongr
      _ = fM := mul_one _
  have h20 : 20 * (h * M) ≤ ρ := by
    have := hhδ.trans_le (min_le_left _ _)
    rw [lt_div_iff₀ (by positivity)] at this
    linarith
  have hh1 : h ≤ 1 := (hhδ.trans_le (min_le_right _ _)).le
  have hgx : lawGrad et (unitCall C oeT woe x) ≠ 0 := fun h0 => by
    rcases k2 with h | h <;> exact h (by rw [h0]; rfl)
  obtain ⟨jn, hjn⟩ := lawRates_ne hgx
  have rhs : ∀ τ (v : Fin 6 → ℝ), ‖v‖ ≤ ρ → ∃ k, (dynOf (α := ℝ) et).eom τ (x + v)
      { mu := C.mu, u := vsmul (tmax / (m0 - mdot * t)) (dirOf o.alpha o.beta),
        psi0 := o.psi 0, psi1 := o.psi 1, psi2 := o.psi 2, ptrb := zero3 } = .ok k ∧ ‖k‖ ≤ M ∧
      k jn.castSucc = tmax / (m0 - mdot * t) * lawRates et (unitCall C oeT woe x) jn := ?rhs
  · refine ⟨rk4_returns (R := ρ) (M := M) (fun τ v hv => ?_) hh.le hM0.le (by nlinarith), fun tol =>
      rkf45_returns (R := ρ) (M := M) (j := jn.castSucc) rhs (mul_ne_zero hf0.ne' hjn) hh hh1 hM0.le h20⟩
    obtain ⟨k, h1, h2, -⟩ := rhs τ v hv
    exact ⟨k, h1, h2⟩
  intro τ v hv
  obtain ⟨g1, g2⟩ := good v hv
  obtain ⟨c1, -, -⟩ := interior_subset (hin t ht g1)
  obtain ⟨k, hk⟩ := eom_defined (A := unitCall C oeT woe (x + v)) c1.1 τ (P :=
    { mu := C.mu, u := vsmul (tmax / (m0 - mdot * t)) (dirOf o.alpha o.beta),
      psi0 := o.psi 0, psi1 := o.psi 1, psi2 := o.psi 2, ptrb := zero3 }) rfl
  have hk' : (dynOf (α := ℝ) et).eom τ (x + v)
    { mu := C.mu, u := vsmul (tmax / (m0 - mdot * t)) (dirOf o.alpha o.beta),
      psi0 := o.psi 0, psi1 := o.psi 1, psi2 := o.psi 2, ptrb := zero3 } = .ok k := hk
  have z3 : ∀ c : Fin 3, (zero3 : Fin 3 → ℝ) c = 0 := fun c => by fin_cases c <;> simp [zero3]
  have hslow : ∀ j : Fin 5, k j.castSucc = tmax / (m0 - mdot * t) * lawRates et (unitCall C oeT woe x) j := by
    intro j
    rw [dyn_slow et _ _ _ k hk' j, law_psi ho]
    simp only [vsmul, hdu, hdir, z3, add_zero, lawRates, Fin.sum_univ_three]
    ring
  refine ⟨k, hk', (pi_norm_le_iff_of_nonneg hM0.le).2 fun i => ?_, hslow jn⟩
  obtain ⟨b1, -⟩ := hΦ t ht (x + v) g2
  obtain ⟨b2, -⟩ := hΦ t ht x h0.2
  rw [Prod.norm_def, Prod.norm_def, max_le_iff, max_le_iff] at b1 b2
  rw [Real.norm_eq_abs]
  induction i using Fin.lastCases with
  | last =>
    have e5 : k (Fin.last 5) = _ := eom_fast hk'
    have r1 : ∀ c, |fastRow et C.mu (x + v) c| ≤ L := fun c => (norm_le_pi_norm (fastRow et C.mu (x + v)) c).trans b1.1
    have r2 : |fastSelf et C.mu (x + v)| ≤ L := b1.2.1
    rw [e5]
    simp only [vsmul, hdu, z3, add_zero, Fin.sum_univ_three]
    have p1 : ∀ c, |fastRow et C.mu (x + v) c * (tmax / (m0 - mdot * t) * unitDir o.alpha o.beta c)| ≤ L * fM := fun c => by
      rw [abs_mul]; exact mul_le_mul (r1 c) (hub c) (abs_nonneg _) hL.le
    have q0 := abs_le.1 (p1 0)
    have q1 := abs_le.1 (p1 1)
    have q2 := abs_le.1 (p1 2)
    have q3 := abs_le.1 r2
    rw [hMdef]
    exact abs_le.2 ⟨by linarith [q0.1, q1.1, q2.1, q3.1], by linarith [q0.2, q1.2, q2.2, q3.2]⟩
  | cast j =>
    have r3 : |lawRates et (unitCall C oeT woe x) j| ≤ L :=
      (norm_le_pi_norm (lawRates et (unitCall C oeT woe x)) j).trans b2.2.2
    rw [hslow j, abs_mul, abs_of_pos hf0, hMdef]
    calc _ ≤ fM * L := by gcongr
      _ ≤ _ := by nlinarith

/-- neither the duty cycle nor the battery inhibits thrust before time `T` -/
structure NeverInhibits (P : Problem ℝ) (T : ℝ) : Prop where
  duty : T ≤ P.dutyOn
  rate : 0 ≤ P.dischargeRate
  level : P.capMin + 1 / 10 ^ 12 + P.dischargeRate * T < P.batteryInitial
  cap : P.batteryInitial ≤ P.capMax

/-- the loop variables after `n` thrusting steps of length `h` -/
structure OnTime (P : Problem ℝ) (h : ℝ) (n : ℕ) (s : LoopSt ℝ) : Prop where
  t : s.t = n * h
  mass : s.mass = P.mass0 - P.mdot * (n * h)
  battery : s.battery = P.batteryInitial - P.dischargeRate * (n * h)
  duty : s.duty = true
  tOn : s.tOn = 0
  charging : s.charging = false
  times : s.hist.times = (List.range (n + 1)).map fun k : ℕ => (k : ℝ) * h
  controls : s.hist.controls.length = n ∧ ∀ c ∈ s.hist.controls, c.2.2 = 1
  states : ∃ l, s.hist.states = l ++ [s.oe] ∧ l.length = n

theorem onTime_init (P : Problem ℝ) (h : ℝ) : OnTime P h 0 (initLoop P) := by
  constructor <;> simp [initLoop]

theorem OnTime.relaxed {P : Problem ℝ} {h : ℝ} {n : ℕ} {s : LoopSt ℝ} (H : OnTime P h n s) (r : ℕ) :
    OnTime P h n { s with nRelaxed := r } := ⟨H.1, H.2, H.3, H.4, H.5, H.6, H.7, H.8, H.9⟩

theorem OnTime.lastTime {P : Problem ℝ} {h : ℝ} {n : ℕ} {s : LoopSt ℝ} (H : OnTime P h n s) :
    s.hist.lastTime = n * h := by
  simp [Hist.lastTime, H.times, List.range_succ]

theorem npclip_in [PyNan ℝ] (hnan : ∀ x : ℝ, PyNan.isnan x = false) {x a b : ℝ} (h1 : a ≤ x) (h2 : x ≤ b) :
    npclip x a b = x := by
  simp [npclip, npmin, npmax, hnan, not_lt.2 h1, not_lt.2 h2]

/-- one step of the loop at a state where the law and the integrator are defined -/
theorem step_fine [PyNan ℝ] (hnan : ∀ x : ℝ, PyNan.isnan x = false) {E : Env ℝ} {et : ElemType}
    (hd : E.cfg.dyn = dynOf et) (hp : E.cfg.perturbations = none)
    (hbt : E.cfg.integrator = .rk4 ∨ E.prob.dischargeRate = 0) (hsun : E.cfg.useSundman = false) {oeT l u : Fin 5 → ℝ} {h T ea er : ℝ} {n : ℕ} {s : LoopSt ℝ}
    (hl : E.cfg.elementsType = .keplerian → BoundsAre E.cfg.oeMin l ∧ BoundsAre E.cfg.oeMax u)
    (hst : E.prob.tStep = h) (hoe : E.prob.oeT = List.ofFn oeT) (hea : E.etaA = .flt ea) (her : E.etaR = .flt er)
    (hea0 : ea ≤ 0) (her0 : er ≤ 0) (hB : NeverInhibits E.prob T) (hh : 0 < h) (hn : (n + 1 : ℝ) * h ≤ T)
    (hO : OnTime E.prob h n s)
    (hb : E.cfg.elementsType = .keplerian → ∀ j : Fin 5, l j < s.oe j.castSucc ∧ s.oe j.castSucc < u j)
    {o : ControlOut ℝ} (ho : lyapunovControlAngles (dynOf (α := ℝ) et).lyapFun
      (callAt E.cfg oeT E.prob.woe (E.prob.tmax / s.mass) s.oe) = .ok o)
    (hz : ∀ p, p =
        { mu := E.cfg.mu, u := vsmul (E.prob.tmax / s.mass) (dirOf o.alpha o.beta),
          psi0 := o.psi 0, psi1 := o.psi 1, psi2 := o.psi 2, ptrb := zero3 } →
      (∃ z, rk4 (dynOf (α := ℝ) et).eom s.t h s.oe p = .ok z) ∧
      ∀ tol, ∃ z hn, rkf45 (dynOf (α := ℝ) et).eom s.t h s.oe p tol = .ok (z, hn)) :
    ∃ D, RecStep E s D ∧ OnTime E.prob h (n + 1) (postState E D) ∧ D.c.oeT = oeT := by
  have hcl : clampPhase E.cfg s = .ok s := by
    unfold clampPhase
    cases hE : E.cfg.elementsType with
    | meeWithA => rfl
    | keplerian =>
      obtain ⟨h1, h2⟩ := hl hE
      obtain ⟨L, hL⟩ := bounds_list h1
      obtain ⟨U, hU⟩ := bounds_list h2
      have h3 : elementsSafety s.oe E.cfg.oeMin E.cfg.oeMax = .ok s.oe := by
        cases hs : elementsSafety s.oe E.cfg.oeMin E.cfg.oeMax with
        | error e => rw [hL, hU] at hs; simp [elementsSafety] at hs
        | ok y => rw [safety_same h1 h2 (fun j => ⟨(hb hE j).1.le, (hb hE j).2.le⟩) hs]
      obtain ⟨m, hm, -⟩ := hO.states
      simp only [h3, Bind.bind, Except.bind, pure, Except.pure, hm, List.dropLast_concat]
      rw [← hm]
  have hch : chooseStep E.cfg E.prob s.oe = .ok h := by
    simp [chooseStep, hsun, hst, pure, Except.pure]
  have hnh : (n : ℝ) * h ≤ T := by nlinarith
  have hdt1 : E.prob.dischargeRate * (n * h) ≤ E.prob.dischargeRate * T := mul_le_mul_of_nonneg_left hnh hB.rate
  have hdt2 : E.prob.dischargeRate * ((n + 1) * h) ≤ E.prob.dischargeRate * T := mul_le_mul_of_nonneg_left hn hB.rate
  have hlev := hB.level
  have hdut := hB.duty
  have e12 : (0 : ℝ) < 1 / 10 ^ 12 := by positivity
  have f1 : ¬ E.prob.dutyOn < s.t - s.tOn := by rw [hO.t, hO.tOn]; linarith
  have f2 : ¬ s.battery ≤ E.prob.capMin + rat 1 (10 ^ 12) := by
    rw [hO.battery, rat_real]; push_cast; linarith
  have f3 : ¬ s.battery - E.prob.dischargeRate * h < E.prob.capMin := by
    rw [hO.battery]; linarith
  have hdu : ∃ toff, dutyPhase E.prob s h = { duty := true, tOn := 0, tOff := toff, charging := false, step := h } := by
    refine ⟨s.tOff, ?_⟩
    rw [hO.tOn] at f1
    simp only [dutyPhase, lt_real, le_real, hO.duty, hO.charging, hO.tOn, decide_eq_false f1, decide_eq_false f2,
      decide_eq_false f3]
    simp
  obtain ⟨toff, hdu⟩ := hdu
  have hacc : lyapArgs E.cfg E.prob oeT (PyOrd.sign h * E.prob.tmax / s.mass) s.oe =
      callAt E.cfg oeT E.prob.woe (E.prob.tmax / s.mass) s.oe := by
    rw [sign_pos hh, one_mul]; rfl
  have hv5 : asVec5 E.prob.oeT = .ok oeT := by
    rw [hoe]
    simp only [List.ofFn_succ, List.ofFn_zero, asVec5]
    congr 1
    funext j; fin_cases j <;> rfl
  obtain ⟨c, hc, c1, c2, c3, c4, c5, c6⟩ : ∃ c, controlPhase E s (dutyPhase E.prob s h) = .ok (.ctl c) ∧
      c.alpha = some o.alpha ∧ c.beta = some o.beta ∧ c.throttle = 1 ∧
      c.u = vsmul (E.prob.tmax / s.mass) (dirOf o.alpha o.beta) ∧ c.psi = o.psi ∧ c.oeT = oeT := by
    rw [hdu]
    have hs1 : (PyOrd.sign h * E.prob.tmax / s.mass : ℝ) = E.prob.tmax / s.mass := by rw [sign_pos hh, one_mul]
    rw [hs1] at hacc
    simp only [controlPhase, hs1, hv5, hd, hacc, ho, hnan, hea, her, evalEta, Bind.bind, Except.bind, lt_real,
      Nat.cast_zero, not_lt.2 hea0, not_lt.2 her0, pure, Except.pure]
    exact ⟨_, rfl, rfl, rfl, rfl, rfl, rfl, rfl⟩
  obtain ⟨z, hb', hpr, hbt'⟩ : ∃ z hb, propagatePhase E s h c = .ok (z, hb) ∧
      E.prob.dischargeRate * hb = E.prob.dischargeRate * h := by
    obtain ⟨⟨z, hz1⟩, hz2⟩ := hz _ rfl
    cases hi : E.cfg.integrator with
    | rk4 =>
      refine ⟨z, h, ?_, rfl⟩
      simp only [propagatePhase, hp, hi, hd, c4, c5, Bind.bind, Except.bind, pure, Except.pure, hz1]
    | rkf45 =>
      obtain ⟨z', hn', hz3⟩ := hz2 E.cfg.odeTol
      refine ⟨z', pymax E.cfg.stepMin (pymin E.cfg.stepMax hn'), ?_, ?_⟩
      · simp only [propagatePhase, hp, hi, hd, c4, c5, Bind.bind, Except.bind, pure, Except.pure, hz3]
      · rcases hbt with h1 | h1
        · rw [hi] at h1; cases h1
        · rw [h1, zero_mul, zero_mul]
  refine ⟨⟨s, h, dutyPhase E.prob s h, c, z, hb', o.alpha, o.beta⟩,
    ⟨hcl, hch, rfl, hc, by simpa only [hdu] using hpr, c1, c2⟩, ?_, c6⟩
  have hbat : batteryPhase E.prob s.battery true false hb' =
      (E.prob.batteryInitial - E.prob.dischargeRate * ((n + 1 : ℕ) * h), false) := by
    have hc := hB.cap
    have : E.prob.dischargeRate * h ≥ 0 := mul_nonneg hB.rate hh.le
    have h0 : 0 ≤ E.prob.dischargeRate * (n * h) := mul_nonneg hB.rate (by positivity)
    simp only [batteryPhase, if_true, hbt']
    rw [npclip_in hnan (by linarith) (by rw [hO.battery]; linarith), hO.battery]
    push_cast
    congr 1; ring
  constructor
  · simp only [postState, hdu, hO.t]; push_cast; ring
  · simp only [postState, hdu, c3, if_true, hO.mass]; push_cast; ring
  · simp only [postState, hdu, hbat]
  · simp only [postState, hdu]
  · simp only [postState, hdu]
  · simp only [postState, hdu, hbat]
  · simp only [postState, hdu, hO.times, hO.t]
    rw [List.range_succ (n := n + 1), List.map_append]
    simp only [List.map_cons, List.map_nil]
    congr 2; push_cast; ring
  · simp only [postState, c3]
    refine ⟨by simp [hO.controls.1], fun c hc => ?_⟩
    rcases List.mem_append.1 hc with hc | hc
    · exact hO.controls.2 c hc
    · rw [List.mem_singleton.1 hc]
  · obtain ⟨m, hm, hm2⟩ := hO.states
    exact ⟨m ++ [s.oe], by simp only [postState, hm], by simp [hm2]⟩

theorem loop_prefix [PyNan ℝ] {E : Env ℝ} {n : ℕ} (hg : ∀ k < n, guardB E.prob (E.after k) = true)
    (hc : ∀ k < n, iter E (E.after k) = .cont (E.after (k + 1))) (f : ℕ) :
    loop E (n + f) (initLoop E.prob) = loop E f (E.after n) := by
  induction n generalizing f with
  | zero => rw [Nat.zero_add]; rfl
  | succ n ih =>
    have h1 := ih (fun k hk => hg k (by omega)) (fun k hk => hc k (by omega)) (f + 1)
    rw [show n + 1 + f = n + (f + 1) by omega, h1]
    simp only [loop, hg n (by omega), if_true, hc n (by omega)]

theorem after_tf [PyNan ℝ] (E : Env ℝ) (T : ℝ) (k : ℕ) :
    Env.after { E with prob := { E.prob with tfMax := T } } k = E.after k := by
  induction k with
  | zero => rfl
  | succ k ih =>
    rw [Env.after, Env.after, ih]
    rfl

/-- the start of a run with steps of length `h` under the law: an object with settings `C`, the target `oeT` and
weights `woe`, the state `x0`, the thrust and mass data, no result flags yet, and nothing that inhibits thrust or
exhausts the mass before time `T` -/
structure StartsAt (C : Config ℝ) (oeT woe : Fin 5 → ℝ) (tmax m0 mdot h T : ℝ) (x0 : Fin 6 → ℝ) (Q : QLaw ℝ)
    (P : Problem ℝ) : Prop where
  cfg : Q.cfg = C
  prob : Q.prob = some P
  ready : Q.ready = true
  fresh : Q.Fresh
  target : P.oeT = List.ofFn oeT
  weights : P.woe = woe
  thrust : P.tmax = tmax
  startMass : P.mass0 = m0
  massRate : P.mdot = mdot
  start : P.oe0 = x0
  step : P.tStep = h
  thrusts : NeverInhibits P T
  massLeft : P.massMin < m0 - mdot * T
  battery : C.integrator = .rk4 ∨ P.dischargeRate = 0

theorem solve_of_loop [PyNan ℝ] {Q : QLaw ℝ} {P : Problem ℝ} (hP : Q.prob = some P) (hr : Q.ready = true)
    {ea : ℝ} {etaR : EtaArg ℝ} {fuel : ℕ} {r : RunRes ℝ}
    (h : loop (envOf Q P (.flt ea) etaR) fuel (initLoop P) = some r) :
    Q.solve (.flt ea) etaR fuel = some (Q.finish P r, r.error?) := by
  have hv : (EtaArg.flt ea).valid = true := rfl
  simp only [QLaw.solve, hP, hr, hv, if_true]
  unfold envOf at h
  rw [h]; rfl

theorem OnTime.thrusts {P : Problem ℝ} {h : ℝ} (hh : 0 < h) {n : ℕ} {s : LoopSt ℝ} (H : OnTime P h n s) {k : ℕ} (hk : k ≤ n) :
    ThrustsUpTo s.hist k h ∧ s.hist.times[k]? = some (k * h) := by
  have ht : ∀ j ≤ n, s.hist.times[j]? = some (j * h) := by
    intro j hj
    rw [H.times, List.getElem?_map, List.getElem?_range (by omega)]; rfl
  refine ⟨fun j hj => ?_, ht k hk⟩
  have hlt : j < s.hist.controls.length := by rw [H.controls.1]; omega
  have h1 := H.controls.2 _ (List.getElem_mem hlt)
  refine ⟨s.hist.controls[j].1, s.hist.controls[j].2.1, j * h, (j + 1 : ℕ) * h, ?_, ht j (by omega), ht (j + 1) (by omega), ?_, ?_⟩
  · rw [List.getElem?_eq_getElem hlt, ← h1]
  · push_cast; linarith
  · push_cast; linarith

section progress
variable [PyNan ℝ] (hnan : ∀ x : ℝ, PyNan.isnan x = false) {C : Config ℝ} {et : ElemType} (hd : C.dyn = dynOf et)
  (hp : C.perturbations = none) (hsun : C.useSundman = false)
  {oeT woe l u : Fin 5 → ℝ} {tmax m0 mdot T : ℝ} {γ : ℝ → Fin 6 → ℝ}
  (hl : C.elementsType = .keplerian → BoundsAre C.oeMin l ∧ BoundsAre C.oeMax u)
  (hM : LawMotion C et oeT woe tmax m0 mdot (gain C.integrator) T γ)
  (hS : ∀ t ∈ Icc 0 T, LawSmooth et (unitCall C oeT woe (γ t)) ∧
    (C.elementsType = .keplerian → ∀ j : Fin 5, l j < γ t j.castSucc ∧ γ t j.castSucc < u j))
  (hT : 0 < tmax) (hmd : 0 ≤ mdot) (hm : 0 < m0 - mdot * T)
include hnan hd hp hsun hl hM hS hT hmd hm

/-- with short steps every iteration up to time `T` is recorded, thrusts, and either continues or converges -/
theorem progress : ∃ δ > 0, ∃ K ≥ 0, ∀ h, 0 < h → h < δ → ∀ (Q : QLaw ℝ) (P : Problem ℝ) (ea er : ℝ),
    ea ≤ 0 → er ≤ 0 → StartsAt C oeT woe tmax m0 mdot h T (γ 0) Q P → ∀ E, E = envOf Q P (.flt ea) (.flt er) →
    (∀ n : ℕ, (n : ℝ) * h ≤ T → (∀ k < n, iter E (E.after k) = .cont (E.after (k + 1))) →
      OnTime P h n (E.after n) ∧ ‖(E.after n).oe - γ (n * h)‖ ≤ K * h ∧
      ((n + 1 : ℝ) * h ≤ T → ∃ s, OnTime P h (n + 1) s ∧
        (iter E (E.after n) = .cont s ∧ (dynOf (α := ℝ) et).checkConv s.oe oeT woe C.tolOe = false ∨
         iter E (E.after n) = .brk s 1 ∨ iter E (E.after n) = .brk s 2))) ∧
    ∀ (fuel : ℕ) (Q' : QLaw ℝ) (H : Hist ℝ), Q.solve (.flt ea) (.flt er) fuel = some (Q', none) → Q'.hist = some H →
      ∀ (n : ℕ) (x : Fin 6 → ℝ), H.times[n]? = some (n * h) → n * h ≤ T → H.states[n]? = some x → ThrustsUpTo H n h →
        ∀ i, |x i - γ (n * h) i| ≤ K * h := by
  obtain ⟨ρ, hρ, δ1, hδ1, htube⟩ := tube_fine hM hS hT hmd hm
  obtain ⟨δ2, hδ2, K, hK, hlim⟩ := C107_limit hd hp hl hM hS hT hmd hm
  refine ⟨min (min δ1 δ2) (ρ / (K + 1)), by positivity, K, hK, ?_⟩
  intro h hh hhδ Q P ea er hea her hQ E hE
  have hh1 : h < δ1 := hhδ.trans_le ((min_le_left _ _).trans (min_le_left _ _))
  have hh2 : h < δ2 := hhδ.trans_le ((min_le_left _ _).trans (min_le_right _ _))
  have hhρ : K * h < ρ := by
    have := hhδ.trans_le (min_le_right _ _)
    rw [lt_div_iff₀ (by positivity)] at this
    nlinarith
  have hEC : E.cfg = C := by rw [hE]; exact hQ.cfg
  have hEP : E.prob = P := by rw [hE]; rfl
  refine ⟨?_, fun fuel Q' H hsol hH n x hn hnT hx hth =>
    hlim h hh hh2 Q Q' P _ _ fuel H hQ.cfg hQ.prob hQ.target hQ.weights hQ.thrust hQ.startMass hQ.massRate hQ.start hsol hH n _ x hn hnT hx hth⟩
  -- what a step does from a state close to the motion
  have stepping : ∀ n : ℕ, OnTime P h n (E.after n) → ‖(E.after n).oe - γ (n * h)‖ ≤ K * h → (n + 1 : ℝ) * h ≤ T →
      ∃ s, OnTime P h (n + 1) s ∧
        (iter E (E.after n) = .cont s ∧ (dynOf (α := ℝ) et).checkConv s.oe oeT woe C.tolOe = false ∨
         iter E (E.after n) = .brk s 1 ∨ iter E (E.after n) = .brk s 2) := by
    intro n hO hcl hn
    have ht : (n : ℝ) * h ∈ Icc 0 T := ⟨by positivity, by nlinarith⟩
    have hball : (E.after n).oe ∈ ball (γ (n * h)) ρ := by
      rw [mem_ball, dist_eq_norm]; linarith
    obtain ⟨hb, o, ho, hrk⟩ := htube _ ht _ hball
    have hz := hrk h hh hh1 (E.after n).t
    have hmass : (E.after n).mass = m0 - mdot * (n * h) := by rw [hO.mass, hQ.startMass, hQ.massRate]
    obtain ⟨D, hD, hO', hoT⟩ := step_fine hnan (E := E) (s := E.after n) (et := et) (oeT := oeT) (l := l) (u := u)
      (o := o) (by rw [hEC]; exact hd) (by rw [hEC]; exact hp) (by rw [hEC, hEP]; exact hQ.battery)
      (by rw [hEC]; exact hsun) (by rw [hEC]; exact hl) (by rw [hEP]; exact hQ.step) (by rw [hEP]; exact hQ.target)
      (by rw [hE]; rfl) (by rw [hE]; rfl) hea her (by rw [hEP]; exact hQ.thrusts) hh hn
      (by rw [hEP]; exact hO) (by rw [hEC]; exact hb)
      (by rw [hEC, hEP, hQ.weights, hQ.thrust, hmass]; exact ho) (by rw [hEC, hEP, hQ.thrust, hmass]; exact hz)
    rw [hEP] at hO'
    refine ⟨_, hO'.relaxed (relaxedAfter E D.c.oeT (postState E D)), ?_⟩
    rw [hD.iter_eq]
    rcases exitPhase_cases E D.c.oeT (postState E D) with h1 | h1 | h1 | h1
    · left
      refine ⟨h1.1, ?_⟩
      have := h1.2.1
      rwa [hEC, hEP, hd, hQ.weights, hoT] at this
    · exact Or.inr (Or.inl h1.1)
    · exact Or.inr (Or.inr h1.1)
    · exfalso
      have h2 := h1.2.2.2
      rw [le_real, decide_eq_true_eq, hEP, hO'.mass, hQ.startMass, hQ.massRate] at h2
      have h3 := hQ.massLeft
      have h4 := mul_le_mul_of_nonneg_left hn hmd
      push_cast at h2
      linarith
  -- all earlier iterations continued: the run limited to `n h` completes
  have main : ∀ n : ℕ, (n : ℝ) * h ≤ T → (∀ k < n, iter E (E.after k) = .cont (E.after (k + 1))) →
      (∀ k ≤ n, OnTime P h k (E.after k)) ∧ ‖(E.after n).oe - γ (n * h)‖ ≤ K * h := by
    intro n
    induction n with
    | zero =>
      intro _ _
      have h0 : E.after 0 = initLoop P := by rw [hE]; rfl
      refine ⟨fun k hk => ?_, ?_⟩
      · rw [Nat.le_zero.1 hk, h0]; exact onTime_init P h
      · rw [h0]
        have : (initLoop P).oe = γ 0 := hQ.start
        rw [this]; simp; positivity
    | succ n ih =>
      intro hn hc
      push_cast at hn
      obtain ⟨i1, i2⟩ := ih (by nlinarith) (fun k hk => hc k (by omega))
      obtain ⟨s, hs, hcase⟩ := stepping n (i1 n le_rfl) i2 hn
      have hcn := hc n (by omega)
      have hss : E.after (n + 1) = s := by
        rcases hcase with ⟨h1, -⟩ | h1 | h1 <;> rw [hcn] at h1
        · injection h1
        · cases h1
        · cases h1
      have hO : ∀ k ≤ n + 1, OnTime P h k (E.after k) := by
        intro k hk
        rcases Nat.lt_or_ge k (n + 1) with h1 | h1
        · exact i1 k (by omega)
        · rw [le_antisymm hk h1, hss]; exact hs
      refine ⟨hO, ?_⟩
      -- the limited run
      set P' : Problem ℝ := { P with tfMax := (n + 1 : ℕ) * h } with hP'
      set Q1 : QLaw ℝ := { Q with prob := some P' } with hQ1
      set E' : Env ℝ := { E with prob := { E.prob with tfMax := (n + 1 : ℕ) * h } } with hE'
      have hEE : E' = envOf Q1 P' (.flt ea) (.flt er) := by
        rw [hE', hE]; rfl
      have haf : ∀ k, E'.after k = E.after k := after_tf E _
      have hpos : (0 : ℝ) < (n + 1 : ℕ) * h := by positivity
      have hloop := loop_prefix (E := E') (n := n + 1) (fun k hk => by
        rw [haf]
        simp only [guardB, lt_real, abs_real, (hO k (by omega)).lastTime, decide_eq_true_eq]
        rw [abs_of_nonneg (by positivity : (0 : ℝ) ≤ k * h)]
        show (k : ℝ) * h < |((n + 1 : ℕ) : ℝ) * h|
        rw [abs_of_pos hpos]
        have : (k : ℝ) < (n + 1 : ℕ) := by exact_mod_cast hk
        exact mul_lt_mul_of_pos_right this hh) (fun k hk => by
        rw [haf, haf]; exact hc k hk) 1
      have hend : loop E' 1 (E'.after (n + 1)) = some (.timeout (E'.after (n + 1))) := by
        have hg : guardB E'.prob (E'.after (n + 1)) = false := by
          rw [haf]
          simp only [guardB, lt_real, abs_real, (hO (n + 1) le_rfl).lastTime]
          exact decide_eq_false (lt_irrefl _)
        simp only [loop, hg, Bool.false_eq_true, if_false]
      rw [hend, haf] at hloop
      have hini : initLoop E'.prob = initLoop P' := by rw [hEE]; rfl
      rw [hini, hEE] at hloop
      have hsol := solve_of_loop (Q := Q1) (P := P') rfl hQ.ready hloop
      have hH : (Q1.finish P' (.timeout (E.after (n + 1)))).hist = some (E.after (n + 1)).hist := rfl
      obtain ⟨t1, t2⟩ := (hO (n + 1) le_rfl).thrusts hh le_rfl
      obtain ⟨m, hm1, hm2⟩ := (hO (n + 1) le_rfl).states
      have hx : (E.after (n + 1)).hist.states[n + 1]? = some (E.after (n + 1)).oe := by
        rw [hm1, List.getElem?_append_right (by omega), hm2]; simp
      have := hlim h hh hh2 Q1 _ P' _ _ _ _ hQ.cfg rfl hQ.target hQ.weights hQ.thrust hQ.startMass hQ.massRate hQ.start hsol hH
        (n + 1) _ _ t2 (by push_cast; exact hn) hx t1
      rw [pi_norm_le_iff_of_nonneg (by positivity)]
      intro i
      rw [Real.norm_eq_abs]
      exact this i
  intro n hn hc
  obtain ⟨m1, m2⟩ := main n hn hc
  exact ⟨m1 n le_rfl, m2, fun hn1 => stepping n (m1 n le_rfl) m2 hn1⟩

/-- up to step `N`, either every iteration continues or the first one that does not converges -/
theorem first_break : ∃ δ > 0, ∃ K ≥ 0, ∀ h, 0 < h → h < δ → ∀ (Q : QLaw ℝ) (P : Problem ℝ) (ea er : ℝ),
    ea ≤ 0 → er ≤ 0 → StartsAt C oeT woe tmax m0 mdot h T (γ 0) Q P → ∀ E, E = envOf Q P (.flt ea) (.flt er) →
    ∀ N : ℕ, (N : ℝ) * h ≤ T → (∀ k < N, (k : ℝ) * h < |P.tfMax|) →
      (OnTime P h N (E.after N) ∧ ‖(E.after N).oe - γ (N * h)‖ ≤ K * h ∧
        (0 < N → (dynOf (α := ℝ) et).checkConv (E.after N).oe oeT woe C.tolOe = false) ∧
        (|P.tfMax| ≤ N * h → ∀ f, loop E (N + 1 + f) (initLoop P) = some (.timeout (E.after N)))) ∨
      ∃ m < N, ∃ s c, OnTime P h (m + 1) s ∧ (c = 1 ∨ c = 2) ∧
        ∀ f, loop E (m + 1 + f) (initLoop P) = some (.exit s c) := by
  obtain ⟨δ, hδ, K, hK, hpr⟩ := progress hnan hd hp hsun hl hM hS hT hmd hm
  refine ⟨δ, hδ, K, hK, fun h hh hhδ Q P ea er hea her hQ E hE N hN hg => ?_⟩
  obtain ⟨hpr, -⟩ := hpr h hh hhδ Q P ea er hea her hQ E hE
  have hEP : E.prob = P := by rw [hE]; rfl
  have hle : ∀ k ≤ N, (k : ℝ) * h ≤ T := fun k hk => by
    have : (k : ℝ) ≤ N := by exact_mod_cast hk
    nlinarith
  have hguard : ∀ n ≤ N, (∀ k < n, iter E (E.after k) = .cont (E.after (k + 1))) → n < N →
      guardB E.prob (E.after n) = true := by
    intro n hn hc hlt
    have h1 := (hpr n (hle n hn) hc).1.lastTime
    simp only [guardB, lt_real, abs_real, h1, decide_eq_true_eq, hEP]
    rw [abs_of_nonneg (by positivity)]
    exact hg n hlt
  by_cases hall : ∀ k < N, iter E (E.after k) = .cont (E.after (k + 1))
  · left
    obtain ⟨h1, h2, -⟩ := hpr N hN hall
    refine ⟨h1, h2, fun h0 => ?_, fun htf f => ?_⟩
    · obtain ⟨M, rfl⟩ : ∃ M, N = M + 1 := ⟨N - 1, by omega⟩
      obtain ⟨-, -, h3⟩ := hpr M (hle M (by omega)) (fun k hk => hall k (by omega))
      obtain ⟨s, -, h4⟩ := h3 (by exact_mod_cast hN)
      have h5 := hall M (by omega)
      rcases h4 with ⟨h6, h7⟩ | h6 | h6 <;> rw [h5] at h6
      · injection h6 with h6; rw [h6]; exact h7
      · cases h6
      · cases h6
    · have := loop_prefix (E := E) (n := N) (fun k hk => hguard k hk.le (fun j hj => hall j (by omega)) hk) hall (1 + f)
      rw [hEP, ← add_assoc] at this
      rw [this]
      have hgf : guardB E.prob (E.after N) = false := by
        simp only [guardB, lt_real, abs_real, h1.lastTime, hEP]
        rw [abs_of_nonneg (by positivity)]
        exact decide_eq_false (not_lt.2 htf)
      rw [show 1 + f = f + 1 by omega]
      simp only [loop, hgf, Bool.false_eq_true, if_false]
  · right
    have hex : ∃ k, k < N ∧ iter E (E.after k) ≠ .cont (E.after (k + 1)) := by
      by_contra hno
      exact hall fun k hk => by
        by_contra hne
        exact hno ⟨k, hk, hne⟩
    classical
    obtain ⟨hmN, hm1⟩ := Nat.find_spec hex
    have hpre : ∀ k < Nat.find hex, iter E (E.after k) = .cont (E.after (k + 1)) := fun k hk => by
      have := Nat.find_min hex hk
      by_contra hne
      exact this ⟨by omega, hne⟩
    generalize Nat.find hex = m at hmN hm1 hpre
    obtain ⟨-, -, h3⟩ := hpr m (hle m hmN.le) hpre
    obtain ⟨s, h4, h5⟩ := h3 (by have := hle (m + 1) hmN; push_cast at this; exact this)
    have fin : ∀ c, iter E (E.after m) = .brk s c → ∀ f, loop E (m + 1 + f) (initLoop P) = some (.exit s c) := by
      intro c hc f
      have := loop_prefix (E := E) (n := m) (fun k hk => hguard k (by omega) (fun j hj => hpre j (by omega)) (by omega))
        hpre (1 + f)
      rw [hEP, ← add_assoc] at this
      rw [this, show 1 + f = f + 1 by omega]
      simp only [loop, hguard m hmN.le hpre hmN, if_true, hc]
    refine ⟨m, hmN, s, ?_⟩
    rcases h5 with ⟨h6, -⟩ | h6 | h6
    · exact absurd (by simp only [Env.after, h6]) hm1
    · exact ⟨1, h4, Or.inl rfl, fin 1 h6⟩
    · exact ⟨2, h4, Or.inr rfl, fin 2 h6⟩

/-- **C108.** For an object without perturbations and Sundman steps, and a motion under the law with continuous
thrust (as in C107) along which `Q` is smooth, the elements stay strictly inside their bounds and mass remains, there are a step
length and a constant such that every run from the same state with shorter steps `h`, effectivity thresholds not
positive and a time limit inside the motion's interval returns without exception. Its recorded times are the
multiples of `h` up to the limit or up to convergence, every step thrusts, every recorded state is within `K h` of
the motion, and the run has converged (exit code 1 or 2) or reached the limit (exit code -2). -/
theorem C108_completes : ∃ δ > 0, ∃ K ≥ 0, ∀ h, 0 < h → h < δ → ∀ (Q : QLaw ℝ) (P : Problem ℝ) (ea er : ℝ) (fuel : ℕ),
    ea ≤ 0 → er ≤ 0 → StartsAt C oeT woe tmax m0 mdot h T (γ 0) Q P → 0 < P.tfMax → P.tfMax + h ≤ T →
    P.tfMax / h + 2 ≤ fuel →
    ∃ Q' H n, Q.solve (.flt ea) (.flt er) fuel = some (Q', none) ∧ Q'.hist = some H ∧
      H.times = (List.range (n + 1)).map (fun k : ℕ => (k : ℝ) * h) ∧ (n : ℝ) * h < P.tfMax + h ∧
      H.states.length = n + 1 ∧ H.controls.length = n ∧ (∀ c ∈ H.controls, c.2.2 = 1) ∧
      (∀ (k : ℕ) (x : Fin 6 → ℝ), H.states[k]? = some x → ∀ i, |x i - γ (k * h) i| ≤ K * h) ∧
      ((Q'.exitcode = 1 ∨ Q'.exitcode = 2) ∧ Q'.converge = true ∨
        Q'.exitcode = -2 ∧ Q'.converge = false ∧ P.tfMax ≤ n * h) := by
  obtain ⟨δ1, hδ1, K1, hK1, hpr⟩ := progress hnan hd hp hsun hl hM hS hT hmd hm
  obtain ⟨δ2, hδ2, K2, hK2, hfb⟩ := first_break hnan hd hp hsun hl hM hS hT hmd hm
  refine ⟨min δ1 δ2, by positivity, K1, hK1, ?_⟩
  intro h hh hhδ Q P ea er fuel hea her hQ htf htfT hfuel
  obtain ⟨-, hlim⟩ := hpr h hh (hhδ.trans_le (min_le_left _ _)) Q P ea er hea her hQ _ rfl
  have hab : |P.tfMax| = P.tfMax := abs_of_pos htf
  obtain ⟨N, hN⟩ : ∃ N, N = ⌈P.tfMax / h⌉₊ := ⟨_, rfl⟩
  have hN1 : P.tfMax ≤ N * h := by
    have := Nat.le_ceil (P.tfMax / h)
    rw [← hN, div_le_iff₀ hh] at this
    exact this
  have hN2 : (N : ℝ) < P.tfMax / h + 1 := by rw [hN]; exact Nat.ceil_lt_add_one (by positivity)
  have hN3 : (N : ℝ) * h < P.tfMax + h := by
    have := mul_lt_mul_of_pos_right hN2 hh
    rwa [add_mul, div_mul_cancel₀ _ hh.ne', one_mul] at this
  have hNg : ∀ k < N, (k : ℝ) * h < |P.tfMax| := by
    intro k hk
    rw [hN, Nat.lt_ceil, lt_div_iff₀ hh] at hk
    rw [hab]; exact hk
  have hNf : N + 1 ≤ fuel := by
    have : ((N + 1 : ℕ) : ℝ) < fuel := by push_cast; linarith
    exact_mod_cast this.le
  -- a finished run of `n` steps
  have fin : ∀ (n : ℕ) (s : LoopSt ℝ) (r : RunRes ℝ), n ≤ N → OnTime P h n s → r.st = s → r.error? = none →
      loop (envOf Q P (.flt ea) (.flt er)) fuel (initLoop P) = some r →
      ((Q.finish P r).exitcode = 1 ∨ (Q.finish P r).exitcode = 2) ∧ (Q.finish P r).converge = true ∨
        (Q.finish P r).exitcode = -2 ∧ (Q.finish P r).converge = false ∧ P.tfMax ≤ n * h →
      ∃ Q' H n, Q.solve (.flt ea) (.flt er) fuel = some (Q', none) ∧ Q'.hist = some H ∧
        H.times = (List.range (n + 1)).map (fun k : ℕ => (k : ℝ) * h) ∧ (n : ℝ) * h < P.tfMax + h ∧
        H.states.length = n + 1 ∧ H.controls.length = n ∧ (∀ c ∈ H.controls, c.2.2 = 1) ∧
        (∀ (k : ℕ) (x : Fin 6 → ℝ), H.states[k]? = some x → ∀ i, |x i - γ (k * h) i| ≤ K1 * h) ∧
        ((Q'.exitcode = 1 ∨ Q'.exitcode = 2) ∧ Q'.converge = true ∨
          Q'.exitcode = -2 ∧ Q'.converge = false ∧ P.tfMax ≤ n * h) := by
    intro n s r hn hO hrs hre hlo hcode
    have hsol := solve_of_loop hQ.prob hQ.ready hlo
    rw [hre] at hsol
    have hH : (Q.finish P r).hist = some s.hist := by rw [← hrs]; rfl
    have hnN : (n : ℝ) ≤ N := by exact_mod_cast hn
    obtain ⟨ls, hs1, hs2⟩ := hO.states
    have hlen : s.hist.states.length = n + 1 := by rw [hs1, List.length_append, hs2]; rfl
    refine ⟨_, _, n, hsol, hH, hO.times, ?_, hlen, hO.controls.1, hO.controls.2, ?_, hcode⟩
    · nlinarith
    · intro k x hx
      have hk : k ≤ n := by
        have := (List.getElem?_eq_some_iff.1 hx).1
        omega
      obtain ⟨t1, t2⟩ := hO.thrusts hh hk
      have hkN : (k : ℝ) ≤ N := by exact_mod_cast hk.trans hn
      exact hlim fuel _ _ hsol hH k x t2 (by nlinarith) hx t1
  rcases hfb h hh (hhδ.trans_le (min_le_right _ _)) Q P ea er hea her hQ _ rfl N (by linarith) hNg with
    ⟨h1, -, -, h2⟩ | ⟨m, hmN, s, c, h1, hc, h2⟩
  · have h3 := h2 (by rw [hab]; exact hN1) (fuel - (N + 1))
    rw [show N + 1 + (fuel - (N + 1)) = fuel by omega] at h3
    obtain ⟨f1, f2, -⟩ := finish_timeout Q P ((envOf Q P (.flt ea) (.flt er)).after N) hQ.fresh.1 hQ.fresh.2
    exact fin N _ _ le_rfl h1 rfl rfl h3 (Or.inr ⟨f1, f2, hN1⟩)
  · have h3 := h2 (fuel - (m + 1))
    rw [show m + 1 + (fuel - (m + 1)) = fuel by omega] at h3
    obtain ⟨f1, f2, -⟩ := finish_exit Q P s c
    exact fin (m + 1) s _ hmN h1 rfl rfl h3 (Or.inl ⟨by rw [f1]; exact hc, by rw [f2, if_pos hc]⟩)

end progress

/-- strictly inside the tolerances: every weighted element is less than its tolerance away from the target, the
Keplerian angles modulo full turns -/
def StrictlyInside (et : ElemType) (oeT woe tol : Fin 5 → ℝ) (x : Fin 6 → ℝ) : Prop :=
  ∀ j : Fin 5, woe j = 0 ∨ ∃ k : ℤ, (k = 0 ∨ et = .keplerian ∧ 3 ≤ j) ∧ |oeT j - x j.castSucc + k * (2 * Real.pi)| < tol j

theorem inside_conv {et : ElemType} {oeT woe tol : Fin 5 → ℝ} {x : Fin 6 → ℝ} (h : StrictlyInside et oeT woe tol x) :
    (dynOf (α := ℝ) et).checkConv x oeT woe tol = true := by
  cases et with
  | keplerian =>
    refine (C35_keplerian_check x oeT woe tol).2 ⟨?_, ?_, ?_, ?_, ?_⟩
    · refine (h 0).imp_right fun ⟨k, hk, h1⟩ => ?_
      have : k = 0 := hk.resolve_right (by decide)
      subst this; simpa using h1.le
    · refine (h 1).imp_right fun ⟨k, hk, h1⟩ => ?_
      have : k = 0 := hk.resolve_right (by decide)
      subst this; simpa using h1.le
    · refine (h 2).imp_right fun ⟨k, hk, h1⟩ => ?_
      have : k = 0 := hk.resolve_right (by decide)
      subst this; simpa using h1.le
    · exact (h 3).imp_right fun ⟨k, _, h1⟩ => ⟨k, h1.le⟩
    · exact (h 4).imp_right fun ⟨k, _, h1⟩ => ⟨k, h1.le⟩
  | meeWithA =>
    refine (C34_mee_box_test x oeT woe tol).2 fun j => (h j).imp_right fun ⟨k, hk, h1⟩ => ?_
    have : k = 0 := hk.resolve_right (by rintro ⟨h2, -⟩; cases h2)
    subst this; simpa using h1.le

theorem inside_open (et : ElemType) (oeT woe tol : Fin 5 → ℝ) : IsOpen {x | StrictlyInside et oeT woe tol x} := by
  simp only [StrictlyInside, Set.ofPred_forall]
  refine isOpen_iInter_of_finite fun j => ?_
  by_cases h0 : woe j = 0
  · simp [h0]
  · simp only [h0, false_or, Set.ofPred_exists, Set.ofPred_and]
    refine isOpen_iUnion fun k => IsOpen.inter (by exact isOpen_const) ?_
    exact isOpen_lt (by fun_prop) continuous_const

section reach
variable [PyNan ℝ] (hnan : ∀ x : ℝ, PyNan.isnan x = false) {C : Config ℝ} {et : ElemType} (hd : C.dyn = dynOf et)
  (hp : C.perturbations = none) (hsun : C.useSundman = false)
  {oeT woe l u : Fin 5 → ℝ} {tmax m0 mdot T : ℝ} {γ : ℝ → Fin 6 → ℝ}
  (hl : C.elementsType = .keplerian → BoundsAre C.oeMin l ∧ BoundsAre C.oeMax u)
  (hM : LawMotion C et oeT woe tmax m0 mdot (gain C.integrator) T γ)
  (hS : ∀ t ∈ Icc 0 T, LawSmooth et (unitCall C oeT woe (γ t)) ∧
    (C.elementsType = .keplerian → ∀ j : Fin 5, l j < γ t j.castSucc ∧ γ t j.castSucc < u j))
  (hT : 0 < tmax) (hmd : 0 ≤ mdot) (hm : 0 < m0 - mdot * T)
include hnan hd hp hsun hl hM hS hT hmd hm

/-- **C108.** If moreover the motion is strictly inside the tolerances of the target at some time `tc` before `T`,
every run with shorter steps and a time limit not before `tc` converges: it returns without exception, with
`converge` set and exit code 1 or 2, at the latest one step after `tc`, having thrust at every step and followed the
motion. -/
theorem C108_reaches {tc : ℝ} (htc : 0 ≤ tc) (htcT : tc < T) (hin : StrictlyInside et oeT woe C.tolOe (γ tc)) :
    ∃ δ > 0, ∃ K ≥ 0, ∀ h, 0 < h → h < δ → ∀ (Q : QLaw ℝ) (P : Problem ℝ) (ea er : ℝ) (fuel : ℕ),
    ea ≤ 0 → er ≤ 0 → StartsAt C oeT woe tmax m0 mdot h T (γ 0) Q P → 0 < P.tfMax → tc ≤ P.tfMax →
    tc / h + 2 ≤ fuel →
    ∃ Q' H n, Q.solve (.flt ea) (.flt er) fuel = some (Q', none) ∧ Q'.hist = some H ∧
      Q'.converge = true ∧ (Q'.exitcode = 1 ∨ Q'.exitcode = 2) ∧
      H.times = (List.range (n + 1)).map (fun k : ℕ => (k : ℝ) * h) ∧ (n : ℝ) * h ≤ tc + h ∧
      H.states.length = n + 1 ∧ (∀ c ∈ H.controls, c.2.2 = 1) ∧
      ∀ (k : ℕ) (x : Fin 6 → ℝ), H.states[k]? = some x → ∀ i, |x i - γ (k * h) i| ≤ K * h := by
  obtain ⟨δ1, hδ1, K, hK, hfb⟩ := first_break hnan hd hp hsun hl hM hS hT hmd hm
  obtain ⟨δ2, hδ2, K2, hK2, hpr⟩ := progress hnan hd hp hsun hl hM hS hT hmd hm
  -- a neighbourhood of the motion at `tc` that passes the check
  obtain ⟨ε, hε, hball⟩ := Metric.isOpen_iff.1 (inside_open et oeT woe C.tolOe) _ hin
  have hct : ContinuousWithinAt γ (Icc 0 T) tc := by
    obtain ⟨o, v, -, -, h3⟩ := hM tc ⟨htc, htcT.le⟩
    exact h3.continuousWithinAt
  obtain ⟨η, hη, hcl⟩ := Metric.continuousWithinAt_iff.1 hct (ε / 2) (by positivity)
  refine ⟨min δ2 (min (min δ1 η) (min (T - tc) (ε / 2 / (K + 1)))), by
    have : 0 < T - tc := by linarith
    positivity, K2, hK2, ?_⟩
  intro h hh hhδ0 Q P ea er fuel hea her hQ htf htcf hfuel
  obtain ⟨-, hlim⟩ := hpr h hh (hhδ0.trans_le (min_le_left _ _)) Q P ea er hea her hQ _ rfl
  have hhδ := hhδ0.trans_le (min_le_right _ _)
  have d1 : h < δ1 := hhδ.trans_le ((min_le_left _ _).trans (min_le_left _ _))
  have d2 : h < η := hhδ.trans_le ((min_le_left _ _).trans (min_le_right _ _))
  have d3 : h < T - tc := hhδ.trans_le ((min_le_right _ _).trans (min_le_left _ _))
  have d4 : K * h < ε / 2 := by
    have := hhδ.trans_le ((min_le_right _ _).trans (min_le_right _ _))
    rw [lt_div_iff₀ (by positivity)] at this
    nlinarith
  obtain ⟨N, hN⟩ : ∃ N, N = max 1 ⌈tc / h⌉₊ := ⟨_, rfl⟩
  have hN0 : 0 < N := by rw [hN]; exact lt_of_lt_of_le one_pos (le_max_left _ _)
  have hN1 : tc ≤ N * h := by
    have h1 := Nat.le_ceil (tc / h)
    rw [div_le_iff₀ hh] at h1
    have h2 : ((⌈tc / h⌉₊ : ℕ) : ℝ) ≤ N := by rw [hN]; exact_mod_cast le_max_right _ _
    nlinarith
  have hN2 : (N : ℝ) ≤ tc / h + 1 := by
    rw [hN, Nat.cast_max]
    refine max_le ?_ (Nat.ceil_lt_add_one (by positivity)).le
    have : 0 ≤ tc / h := by positivity
    push_cast; linarith
  have hN3 : (N : ℝ) * h ≤ tc + h := by
    have := mul_le_mul_of_nonneg_right hN2 hh.le
    rwa [add_mul, div_mul_cancel₀ _ hh.ne', one_mul] at this
  have hNg : ∀ k < N, (k : ℝ) * h < |P.tfMax| := by
    intro k hk
    rw [abs_of_pos htf]
    rw [hN, lt_max_iff] at hk
    rcases hk with hk | hk
    · have : k = 0 := by omega
      subst this; simpa using htf
    · rw [Nat.lt_ceil, lt_div_iff₀ hh] at hk
      linarith
  have hNf : N + 1 ≤ fuel := by
    have : ((N + 1 : ℕ) : ℝ) ≤ fuel := by push_cast; linarith
    exact_mod_cast this
  rcases hfb h hh d1 Q P ea er hea her hQ _ rfl N (by linarith) hNg with
    ⟨-, h1, h2, -⟩ | ⟨m, hmN, s, c, h1, hc, h2⟩
  · exfalso
    have h3 : dist (γ (N * h)) (γ tc) < ε / 2 := by
      refine hcl ⟨by positivity, by linarith⟩ ?_
      rw [Real.dist_eq, abs_of_nonneg (by linarith)]
      linarith
    rw [dist_eq_norm] at h3
    have h4 : ((envOf Q P (.flt ea) (.flt er)).after N).oe ∈ ball (γ tc) ε := by
      rw [mem_ball, dist_eq_norm]
      have e : ((envOf Q P (.flt ea) (.flt er)).after N).oe - γ tc =
        (((envOf Q P (.flt ea) (.flt er)).after N).oe - γ (N * h)) + (γ (N * h) - γ tc) := by abel
      rw [e]
      exact (norm_add_le _ _).trans_lt (by linarith)
    have h5 := inside_conv (hball h4)
    rw [h2 hN0] at h5
    cases h5
  · have h3 := h2 (fuel - (m + 1))
    rw [show m + 1 + (fuel - (m + 1)) = fuel by omega] at h3
    obtain ⟨f1, f2, f3⟩ := finish_exit Q P s c
    have hsol := solve_of_loop hQ.prob hQ.ready h3
    have hmN' : ((m + 1 : ℕ) : ℝ) ≤ N := by exact_mod_cast hmN
    obtain ⟨ls, hs1, hs2⟩ := h1.states
    have hlen : s.hist.states.length = m + 1 + 1 := by rw [hs1, List.length_append, hs2]; rfl
    refine ⟨_, _, m + 1, hsol, f3, by rw [f2, if_pos hc], by rw [f1]; exact hc, h1.times, by nlinarith, hlen,
      h1.controls.2, fun k x hx => ?_⟩
    have hk : k ≤ m + 1 := by
      have := (List.getElem?_eq_some_iff.1 hx).1
      omega
    obtain ⟨t1, t2⟩ := h1.thrusts hh hk
    have hkN : (k : ℝ) ≤ N := by exact_mod_cast hk.trans hmN
    exact hlim fuel _ _ hsol f3 k x t2 (by nlinarith) hx t1

end reach

namespace Burn
open CoastSample

/-- the sample with a given tolerance -/
noncomputable def cfgTol (τ : ℝ) : Config ℝ := { cfg false with tolOe := fun _ => τ }

/-- the sample with a given step and limits -/
noncomputable def probR (h T tf : ℝ) : Problem ℝ :=
  { prob with tStep := h, tfMax := tf, mdot := 1 / 10, massMin := 0, dutyOn := T }

noncomputable def objR (τ h T tf : ℝ) : QLaw ℝ :=
  { cfg := cfgTol τ, prob := some (probR h T tf), ready := true, converge := false, exitcode := 0, hist := none }

theorem starts_R (τ h T tf : ℝ) (hT : 0 < (1 : ℝ) - 1 / 10 * T) :
    StartsAt (cfgTol τ) ![2, 0, 0, 0, 0] ![1, 0, 0, 0, 0] (1 / 100) 1 (1 / 10) h T prob.oe0 (objR τ h T tf) (probR h T tf) := by
  refine ⟨rfl, rfl, rfl, ⟨rfl, rfl⟩, by simp [probR, prob], rfl, rfl, rfl, rfl, rfl, rfl, ⟨le_rfl, ?_, ?_, ?_⟩, ?_, ?_⟩
  · simp [probR, prob]
  · simp only [probR, prob]; norm_num
  · simp [probR, prob]
  · simpa [probR] using hT
  · exact Or.inl rfl

/-- C108: from the initial state of `Burn` there is a motion under the law such that, whatever the tolerance, short-step
runs complete and follow it, and such that with a tolerance just above the distance of the motion from the target
at half time short-step runs converge by then -/
example : ∃ T > 0, ∃ γ, LawMotion (cfg false) .keplerian ![2, 0, 0, 0, 0] ![1, 0, 0, 0, 0] (1 / 100) 1 (1 / 10) 1 T γ ∧
    γ 0 = prob.oe0 ∧
    (∀ τ, ∃ δ > 0, ∃ K, ∀ h, 0 < h → h < δ → ∀ fuel : ℕ, T / 2 / h + 2 ≤ fuel → ∃ Q' H,
      (objR τ h T (T / 2)).solve (.flt 0) (.flt 0) fuel = some (Q', none) ∧ Q'.hist = some H ∧
      ∀ (k : ℕ) (x : Fin 6 → ℝ), H.states[k]? = some x → ∀ i, |x i - γ (k * h) i| ≤ K * h) ∧
    ∀ τ, |2 - γ (T / 2) 0| < τ → ∃ δ > 0, ∀ h, 0 < h → h < δ → ∀ fuel : ℕ, T / 2 / h + 2 ≤ fuel → ∃ Q',
      (objR τ h T T).solve (.flt 0) (.flt 0) fuel = some (Q', none) ∧ Q'.converge = true := by
  have hbox : prob.oe0 ∈ burnBox := by
    refine ⟨fun i => ?_, fun i => ?_⟩ <;> fin_cases i <;> simp [prob] <;> norm_num
  have hR := burn_region
  obtain ⟨T, hT, γ, h0, h1, h2, h3⟩ := C107_exists (C := cfg false) (et := .keplerian) (oeT := ![2, 0, 0, 0, 0])
    (woe := ![1, 0, 0, 0, 0]) (l := fun _ => 0) (u := fun _ => 9) (tmax := 1 / 100) (m0 := 1) (mdot := 1 / 10) (g := 1)
    (x := prob.oe0) ⟨hR.smooth _ hbox, fun h => by cases h⟩ ⟨1, by decide, burn_grad _ hbox⟩ (hR.inside _ hbox) (by norm_num)
    (by norm_num)
  have hbd : ∀ τ, (cfgTol τ).elementsType = .keplerian →
      BoundsAre (cfgTol τ).oeMin (fun _ => 0) ∧ BoundsAre (cfgTol τ).oeMax (fun _ => 9) := by
    intro τ _; constructor <;> intro j <;> fin_cases j <;> rfl
  refine ⟨T, hT, γ, h1, h0, fun τ => ?_, fun τ hτ => ?_⟩
  · obtain ⟨δ, hδ, K, -, hL⟩ := C108_completes (C := cfgTol τ) (et := .keplerian) (fun _ => rfl) rfl rfl rfl (hbd τ) h1
      (fun t ht => ⟨(h3 t ht).1, fun _ => (h3 t ht).2⟩) (by norm_num) (by norm_num) h2
    refine ⟨min δ (T / 2), by positivity, K, fun h hh hhd fuel hf => ?_⟩
    have e2 := hhd.trans_le (min_le_right _ _)
    obtain ⟨Q', H, n, k1, k2, -, -, -, -, -, k3, -⟩ := hL h hh (hhd.trans_le (min_le_left _ _)) (objR τ h T (T / 2))
      (probR h T (T / 2)) 0 0 fuel le_rfl le_rfl (by rw [h0]; exact starts_R _ _ _ _ h2) (by simp only [probR]; linarith)
      (by simp only [probR]; linarith) hf
    exact ⟨Q', H, k1, k2, k3⟩
  · obtain ⟨δ, hδ, K, -, hL⟩ := C108_reaches (C := cfgTol τ) (et := .keplerian) (fun _ => rfl) rfl rfl rfl (hbd τ) h1
      (fun t ht => ⟨(h3 t ht).1, fun _ => (h3 t ht).2⟩) (by norm_num) (by norm_num) h2 (tc := T / 2) (by linarith)
      (by linarith) (by
        intro j
        fin_cases j
        · right; exact ⟨0, Or.inl rfl, by simpa [cfgTol] using hτ⟩
        all_goals (left; rfl))
    refine ⟨δ, hδ, fun h hh hhd fuel hf => ?_⟩
    obtain ⟨Q', H, n, k1, -, k2, -⟩ := hL h hh hhd (objR τ h T T) (probR h T T) 0 0 fuel le_rfl le_rfl
      (by rw [h0]; exact starts_R _ _ _ _ h2) (by simp only [probR]; linarith) (by simp only [probR]; linarith) hf
    exact ⟨Q', k1, k2⟩

end Burn

end PyQ
