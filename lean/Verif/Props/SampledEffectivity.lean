import Verif.Props.PackageRates
import Verif.Props.Uniform
import Verif.Props.Thrust
import Mathlib.Topology.Instances.Real.Lemmas
import Mathlib.Analysis.Calculus.MeanValue

/-!
C130: the effectivities a run records, computed from a finite number of sampled anomalies, differ from the
effectivities of the whole orbit by at most a constant of the orbit divided by the number of samples.
-/

set_option linter.unusedSectionVars false
set_option maxRecDepth 100000

namespace PyQ

/-- the slow elements are those of an ellipse on which the entries of the Gauss matrix are defined -/
structure EllipticAt (et : ElemType) (A : LyapArgs ℝ) : Prop where
  mu : 0 < A.mu
  a : 0 < A.oe 0
  kep : et = .keplerian → 0 < A.oe 1 ∧ A.oe 1 < 1 ∧ Real.sin (A.oe 2) ≠ 0
  mee : et = .meeWithA → A.oe 1 ≠ 0 ∧ A.oe 1 ^ 2 + A.oe 2 ^ 2 < 1

/-! ## smooth periodic functions and regular grids -/

theorem periodic_lipschitz {g : ℝ → ℝ} (hg : ContDiff ℝ 1 g) (hp : Function.Periodic g (2 * Real.pi)) :
    ∃ L, 0 ≤ L ∧ ∀ x y, |g x - g y| ≤ L * |x - y| := by
  have hd : Continuous (deriv g) := hg.continuous_deriv le_rfl
  have hdp : Function.Periodic (deriv g) (2 * Real.pi) := by
    intro x
    rw [← deriv_comp_add_const]
    congr 1
    funext y
    exact hp y
  obtain ⟨L, hL⟩ := (hdp.compact_of_continuous Real.two_pi_pos.ne' hd).isBounded.exists_norm_le
  refine ⟨L, (norm_nonneg _).trans (hL (deriv g 0) ⟨0, rfl⟩), fun x y => ?_⟩
  have := Convex.norm_image_sub_le_of_norm_deriv_le (f := g) (s := Set.univ) (C := L)
    (fun z _ => (hg.differentiable one_ne_zero) z) (fun z _ => hL _ ⟨z, rfl⟩) convex_univ
    (Set.mem_univ y) (Set.mem_univ x)
  simpa [Real.norm_eq_abs] using this

theorem norm3_sub_le (u v : Fin 3 → ℝ) : |norm3 u - norm3 v| ≤ |u 0 - v 0| + |u 1 - v 1| + |u 2 - v 2| := by
  have key : ∀ u v : Fin 3 → ℝ, norm3 u - norm3 v ≤ |u 0 - v 0| + |u 1 - v 1| + |u 2 - v 2| := by
    intro u v
    have h1 : norm3 u ≤ norm3 v + (|u 0 - v 0| + |u 1 - v 1| + |u 2 - v 2|) := by
      have hn := norm3_nonneg v
      have hv := norm3_sq v
      have h0 : |v 0| ≤ norm3 v := abs_le_of_sq_le_sq (by rw [hv]; simp only [dot3]; nlinarith [sq_nonneg (v 1), sq_nonneg (v 2)]) hn
      have h1 : |v 1| ≤ norm3 v := abs_le_of_sq_le_sq (by rw [hv]; simp only [dot3]; nlinarith [sq_nonneg (v 0), sq_nonneg (v 2)]) hn
      have h2 : |v 2| ≤ norm3 v := abs_le_of_sq_le_sq (by rw [hv]; simp only [dot3]; nlinarith [sq_nonneg (v 0), sq_nonneg (v 1)]) hn
      have e : ∀ i, u i * u i ≤ v i * v i + 2 * norm3 v * |u i - v i| + |u i - v i| ^ 2 := by
        intro i
        have hi : |v i| ≤ norm3 v := by fin_cases i <;> assumption
        have a1 : v i * (u i - v i) ≤ norm3 v * |u i - v i| :=
          (le_abs_self _).trans (by rw [abs_mul]; exact mul_le_mul_of_nonneg_right hi (abs_nonneg _))
        have a2 : |u i - v i| ^ 2 = (u i - v i) ^ 2 := sq_abs _
        nlinarith
      have hu := norm3_sq u
      have b0 := abs_nonneg (u 0 - v 0)
      have b1 := abs_nonneg (u 1 - v 1)
      have b2 := abs_nonneg (u 2 - v 2)
      apply le_of_sq_le_sq _ (by positivity)
      rw [hu]
      simp only [dot3] at hv ⊢
      have e0 := e 0
      have e1 := e 1
      have e2 := e 2
      nlinarith [mul_nonneg b0 b1, mul_nonneg b0 b2, mul_nonneg b1 b2]
    linarith
  rw [abs_le]
  constructor
  · have := key v u
    rw [abs_sub_comm (v 0), abs_sub_comm (v 1), abs_sub_comm (v 2)] at this
    linarith
  · exact key u v

/-- every anomaly is, up to whole turns, at most half a grid step from a sampled one -/
theorem near_sample (ν x : ℝ) {n : ℕ} (hn : 0 < n) :
    ∃ y ∈ sampledSet ν n, ∃ q : ℤ, |y + q * (2 * Real.pi) - x| ≤ Real.pi / n := by
  have hn' : (0 : ℝ) < n := by exact_mod_cast hn
  have hpi := Real.pi_pos
  set z : ℝ := (x - ν) * n / (2 * Real.pi) with hz
  have hr := abs_sub_round z
  set k := round z with hk
  have hnz : (n : ℤ) ≠ 0 := by exact_mod_cast hn.ne'
  obtain ⟨j, hj⟩ : ∃ j : ℕ, (j : ℤ) = (k - 1) % n + 1 :=
    ⟨((k - 1) % n + 1).toNat, Int.toNat_of_nonneg (by have := Int.emod_nonneg (k - 1) hnz; omega)⟩
  have h1 := Int.emod_nonneg (k - 1) hnz
  have h2 := Int.emod_lt_of_pos (k - 1) (by exact_mod_cast hn : (0 : ℤ) < n)
  have h3 := Int.emod_add_mul_ediv (k - 1) n
  refine ⟨ν + 2 * Real.pi * j / n, ⟨j, by omega, by omega, rfl⟩, (k - 1) / n, ?_⟩
  have hkk : (k : ℝ) = j + n * ((k - 1) / n : ℤ) := by
    have : k = j + n * ((k - 1) / n) := by omega
    exact_mod_cast this
  have e : ν + 2 * Real.pi * j / n + ((k - 1) / n : ℤ) * (2 * Real.pi) - x = 2 * Real.pi / n * (k - z) := by
    rw [hkk, hz]; field_simp; ring
  rw [e, abs_mul, abs_sub_comm, abs_of_pos (by positivity)]
  calc 2 * Real.pi / n * |z - k| ≤ 2 * Real.pi / n * (1 / 2) := by gcongr
    _ = Real.pi / n := by ring

/-! ## the rate as a function of the anomaly -/

theorem grad_anomaly (et : ElemType) (A : LyapArgs ℝ) (ν : ℝ) :
    partialQ (candQ et) (A.atAnomaly ν) = partialQ (candQ et) A := by
  funext j
  have h : ∀ x, candQ et ((A.atAnomaly ν).setOe j x) = candQ et (A.setOe j x) := by
    intro x
    have h1 : (A.setOe j x).atAnomaly ν = (A.atAnomaly ν).setOe j x := by
      unfold LyapArgs.atAnomaly LyapArgs.setOe
      simp only
      congr 1
      funext i
      fin_cases j <;> fin_cases i <;> simp
    rw [← h1]
    exact candQ_anomaly et _ ν
  have he : (A.atAnomaly ν).oe j.castSucc = A.oe j.castSucc := by
    unfold LyapArgs.atAnomaly
    simp only
    fin_cases j <;> simp
  unfold partialQ
  simp only [h, he]

theorem psi_anomaly_smooth {et : ElemType} {A : LyapArgs ℝ} (H : EllipticAt et A) (c : Fin 3) (j : Fin 5) :
    ContDiff ℝ 1 fun ν => candPsi et (A.atAnomaly ν) c j := by
  rw [contDiff_iff_contDiffAt]
  intro ν
  have hmu := H.mu
  have ha := H.a
  cases et with
  | keplerian =>
    obtain ⟨he0, he1, hi⟩ := H.kep rfl
    have hp : 0 < 1 - A.oe 1 ^ 2 := by nlinarith
    have hh : 0 < Real.sqrt (A.oe 0 * A.mu * (1 - A.oe 1 ^ 2)) := Real.sqrt_pos.2 (by positivity)
    have hc : 0 < 1 + A.oe 1 * Real.cos ν := by nlinarith [Real.neg_one_le_cos ν]
    have hr : 0 < Real.sqrt (A.oe 0 * A.mu * (1 - A.oe 1 ^ 2)) ^ 2 / (A.mu * (1 + A.oe 1 * Real.cos ν)) := by
      positivity
    fin_cases c <;> fin_cases j <;>
      simp only [candPsi, kepPsi, LyapArgs.atAnomaly, Fin.zero_eta, Fin.mk_one, Fin.reduceFinMk, Matrix.cons_val,
        Matrix.cons_val_zero, Matrix.cons_val_one,
        cos_real, sin_real, sqrt_real, Nat.cast_one, Nat.cast_ofNat, Nat.cast_zero] <;>
      fun_prop (disch := positivity)
  | meeWithA =>
    obtain ⟨hf, hecc⟩ := H.mee rfl
    have hecc0 : 0 < A.oe 1 ^ 2 + A.oe 2 ^ 2 := by positivity
    have hp : 0 < 1 - A.oe 1 ^ 2 - A.oe 2 ^ 2 := by linarith
    have hpm : 0 < A.oe 0 * (1 - A.oe 1 ^ 2 - A.oe 2 ^ 2) / A.mu := by positivity
    have he : Real.sqrt (A.oe 1 ^ 2 + A.oe 2 ^ 2) ^ 2 = A.oe 1 ^ 2 + A.oe 2 ^ 2 := Real.sq_sqrt hecc0.le
    have hq : 0 < 1 - Real.sqrt (A.oe 1 ^ 2 + A.oe 2 ^ 2) ^ 2 := by rw [he]; linarith
    have e1 : Real.sqrt (A.oe 1 ^ 2 + A.oe 2 ^ 2) < 1 := by
      rw [Real.sqrt_lt' one_pos]; linarith
    have e0 := Real.sqrt_nonneg (A.oe 1 ^ 2 + A.oe 2 ^ 2)
    have hh : 0 < Real.sqrt (A.oe 0 * A.mu * (1 - Real.sqrt (A.oe 1 ^ 2 + A.oe 2 ^ 2) ^ 2)) :=
      Real.sqrt_pos.2 (by positivity)
    have hc : 0 < 1 + Real.sqrt (A.oe 1 ^ 2 + A.oe 2 ^ 2) * Real.cos (ν - Real.arctan (A.oe 2 / A.oe 1)) := by
      nlinarith [Real.neg_one_le_cos (ν - Real.arctan (A.oe 2 / A.oe 1))]
    have hr : 0 < Real.sqrt (A.oe 0 * A.mu * (1 - Real.sqrt (A.oe 1 ^ 2 + A.oe 2 ^ 2) ^ 2)) ^ 2 /
        (A.mu * (1 + Real.sqrt (A.oe 1 ^ 2 + A.oe 2 ^ 2) * Real.cos (ν - Real.arctan (A.oe 2 / A.oe 1)))) := by
      positivity
    have hw : 0 < 1 + A.oe 1 * Real.cos ν + A.oe 2 * Real.sin ν := by
      nlinarith [sq_nonneg (A.oe 1 + Real.cos ν), sq_nonneg (A.oe 2 + Real.sin ν),
        Real.sin_sq_add_cos_sq ν]
    fin_cases c <;> fin_cases j <;>
      simp only [candPsi, meePsi, LyapArgs.atAnomaly, Fin.zero_eta, Fin.mk_one, Fin.reduceFinMk, Matrix.cons_val,
        Matrix.cons_val_zero, Matrix.cons_val_one, rat_real,
        cos_real, sin_real, sqrt_real, arctan_real, Nat.cast_one, Nat.cast_ofNat, Nat.cast_zero] <;>
      fun_prop (disch := positivity)

theorem psi_anomaly_periodic (et : ElemType) (A : LyapArgs ℝ) (ν : ℝ) :
    candPsi et (A.atAnomaly (ν + 2 * Real.pi)) = candPsi et (A.atAnomaly ν) := by
  have e : A.atAnomaly (ν + 2 * Real.pi) = (A.atAnomaly ν).shift (turnsOf et 0 0 1) := by
    unfold LyapArgs.atAnomaly LyapArgs.shift
    simp only
    congr 1
    funext i
    cases et <;> fin_cases i <;> simp [vadd, turnsOf]
  rw [e]
  cases et
  · exact kepPsi_wound _
  · exact meePsi_wound _

/-- how much the best rate can change from one anomaly to another -/
theorem rate_lipschitz {et : ElemType} {A : LyapArgs ℝ} (H : EllipticAt et A) :
    Function.Periodic (fun ν => (dynOf (α := ℝ) et).dqdtFun (A.atAnomaly ν)) (2 * Real.pi) ∧
    ∃ L, 0 ≤ L ∧ ∀ x y, |(dynOf (α := ℝ) et).dqdtFun (A.atAnomaly x) -
      (dynOf (α := ℝ) et).dqdtFun (A.atAnomaly y)| ≤ L * |x - y| := by
  set G : ℝ → Fin 3 → ℝ := fun ν => thrustGrad (partialQ (candQ et) A) (candPsi et (A.atAnomaly ν)) with hG
  have hr : ∀ ν, (dynOf (α := ℝ) et).dqdtFun (A.atAnomaly ν) = A.f * norm3 (G ν) := by
    intro ν
    rw [dqdt_norm, grad_anomaly]; rfl
  have hper : ∀ ν, G (ν + 2 * Real.pi) = G ν := by
    intro ν; simp only [hG, psi_anomaly_periodic]
  have hc : ∀ c, ContDiff ℝ 1 fun ν => G ν c := by
    intro c
    have e : (fun ν => G ν c) = fun ν => rawControl (candPsi et (A.atAnomaly ν)) (partialQ (candQ et) A) c := by
      funext ν
      simp only [hG]
      rw [← rawControl_eq]
    rw [e]
    have h := psi_anomaly_smooth H
    fin_cases c <;> simp only [rawControl, Fin.zero_eta, Fin.mk_one, Fin.reduceFinMk, Matrix.cons_val,
      Matrix.cons_val_zero, Matrix.cons_val_one] <;> fun_prop
  have hl := fun c => periodic_lipschitz (hc c) (fun ν => by show G _ c = G _ c; rw [hper])
  obtain ⟨L0, h0, l0⟩ := hl 0
  obtain ⟨L1, h1, l1⟩ := hl 1
  obtain ⟨L2, h2, l2⟩ := hl 2
  refine ⟨fun ν => by simp only [hr, hper], |A.f| * (L0 + L1 + L2), by positivity, fun x y => ?_⟩
  rw [hr, hr, ← mul_sub, abs_mul, mul_assoc]
  refine mul_le_mul_of_nonneg_left ?_ (abs_nonneg _)
  have := norm3_sub_le (G x) (G y)
  linarith [l0 x y, l1 x y, l2 x y, show (L0 + L1 + L2) * |x - y| = L0 * |x - y| + L1 * |x - y| + L2 * |x - y| by ring]

/-! ## errors of the sampled effectivities -/

theorem abs_eff_error {d mx M δ : ℝ} (hd : 0 < d) (hdm : d ≤ mx) (h1 : mx ≤ M) (h2 : M - mx ≤ δ) :
    0 ≤ d / mx - d / M ∧ d / mx - d / M ≤ δ / M := by
  have hmx : 0 < mx := hd.trans_le hdm
  have hM : 0 < M := hmx.trans_le h1
  constructor
  · rw [sub_nonneg]; exact div_le_div_of_nonneg_left hd.le hmx h1
  · have e : d / mx - d / M = d / mx * ((M - mx) / M) := by field_simp
    rw [e]
    have h3 : d / mx ≤ 1 := (div_le_one hmx).2 hdm
    have h4 : 0 ≤ (M - mx) / M := div_nonneg (by linarith) hM.le
    have h5 : (M - mx) / M ≤ δ / M := div_le_div_of_nonneg_right h2 hM.le
    nlinarith

theorem rel_eff_error {d mx mn M m0 δ : ℝ} (hmd : mn ≤ d) (hdm : d ≤ mx) (h1 : mx ≤ M) (h2 : M - mx ≤ δ)
    (h3 : m0 ≤ mn) (h4 : mn - m0 ≤ δ) (hlt : mn < mx) :
    |(d - mn) / (mx - mn) - (d - m0) / (M - m0)| ≤ δ / (M - m0) := by
  have hS : 0 < mx - mn := by linarith
  have hR : 0 < M - m0 := by linarith
  have e : (d - mn) / (mx - mn) - (d - m0) / (M - m0) =
      ((d - mn) / (mx - mn) * (M - mx) - (1 - (d - mn) / (mx - mn)) * (mn - m0)) / (M - m0) := by
    field_simp; ring
  have s0 : 0 ≤ (d - mn) / (mx - mn) := div_nonneg (by linarith) hS.le
  have s1 : (d - mn) / (mx - mn) ≤ 1 := (div_le_one hS).2 (by linarith)
  rw [e, abs_div, abs_of_pos hR]
  refine div_le_div_of_nonneg_right ?_ hR.le
  generalize (d - mn) / (mx - mn) = s at s0 s1
  rw [abs_le]
  constructor <;> nlinarith

/-- the run records the step `k` at the slow elements, mass and direction of time of `A`, with a positive
threshold: `d` is the recorded rate, `(vA, vR)` are the recorded effectivities -/
structure SampledStep [PyNan ℝ] (et : ElemType) (A : LyapArgs ℝ) (Q Q' : QLaw ℝ) (etaA etaR : EtaArg ℝ) (fuel : ℕ) (P : Problem ℝ)
    (H : Hist ℝ) (k : ℕ) (eA eR vA vR d : ℝ) : Prop where
  solved : Q.solve etaA etaR fuel = some (Q', none)
  prob : Q.prob = some P
  hist : Q'.hist = some H
  dyn : Q.cfg.dyn = dynOf et
  grid : 0 < Q.cfg.anomalyGridSize
  etas : H.etas[k]? = some (vA, vR)
  bounds : H.etasBounds[k]? = some (eA, eR)
  pos : 0 < eA ∨ 0 < eR
  rate : H.dqdts[k]? = some d
  thrust : 0 < P.tmax
  args : ∃ t t' m x oeT, P.oeT = List.ofFn oeT ∧ H.times[k]? = some t ∧ H.times[k + 1]? = some t' ∧ t < t' ∧
    H.states[k]? = some x ∧ H.masses[k]? = some m ∧ 0 < m ∧ A = recArgs Q.cfg P oeT x m (t' - t)

/-- **C130.** For an elliptic osculating orbit on which thrust has some influence on `Q` at every anomaly, the
best rate of decrease of `Q` has a greatest and a least value over the whole orbit, and there is a constant
such that every run that evaluates its effectivities on that orbit, whatever its grid, records an absolute
effectivity that is at least the exact one and exceeds it by no more than the constant over the number of
samples; and once there are enough samples a relative effectivity whose error is as small. -/
theorem C130_sampled [PyNan ℝ] (hnan : ¬ 0 < (PyNan.nan : ℝ)) {et : ElemType} {A : LyapArgs ℝ}
    (hA : EllipticAt et A) (hf : 0 < A.f)
    (hg : ∀ ν, thrustGrad (partialQ (candQ et) (A.atAnomaly ν)) (candPsi et (A.atAnomaly ν)) ≠ 0) :
    ∃ (rate : ℝ → ℝ) (M m0 L : ℝ), (∀ ν, BestRate et (A.atAnomaly ν) (rate ν)) ∧
      IsGreatest (Set.range rate) M ∧ IsLeast (Set.range rate) m0 ∧ 0 < m0 ∧ 0 ≤ L ∧
      ∀ {Q Q' etaA etaR fuel P H k eA eR vA vR d},
        SampledStep et A Q Q' etaA etaR fuel P H k eA eR vA vR d →
        d = rate (A.oe 5) ∧
        0 ≤ vA - d / M ∧ vA - d / M ≤ L / (Q.cfg.anomalyGridSize * M) ∧
        (2 * L < Q.cfg.anomalyGridSize * (M - m0) →
          |vR - (d - m0) / (M - m0)| ≤ L / (Q.cfg.anomalyGridSize * (M - m0))) := by
  obtain ⟨hper, L, hL, hlip⟩ := rate_lipschitz hA
  set rate : ℝ → ℝ := fun ν => (dynOf (α := ℝ) et).dqdtFun (A.atAnomaly ν) with hrate
  have hbest : ∀ ν, BestRate et (A.atAnomaly ν) (rate ν) := fun ν => best_dqdt et _ hf.le (hg ν)
  have hcont : Continuous rate :=
    (LipschitzWith.of_dist_le_mul (K := ⟨L, hL⟩) fun x y => by
      rw [Real.dist_eq, Real.dist_eq]; exact hlip x y).continuous
  have hcpt := hper.compact_of_continuous Real.two_pi_pos.ne' hcont
  have hne : (Set.range rate).Nonempty := Set.range_nonempty _
  obtain ⟨M, hM⟩ := hcpt.exists_isGreatest hne
  obtain ⟨m0, hm0⟩ := hcpt.exists_isLeast hne
  have hposr : ∀ ν, 0 < rate ν := fun ν => by
    show 0 < (dynOf (α := ℝ) et).dqdtFun (A.atAnomaly ν)
    rw [dqdt_norm]; exact mul_pos hf (norm3_pos (hg ν))
  refine ⟨rate, M, m0, Real.pi * L, hbest, hM, hm0, ?_, by positivity, ?_⟩
  · obtain ⟨ν, hν⟩ := hm0.1; rw [← hν]; exact hposr ν
  intro Q Q' etaA etaR fuel P H k eA eR vA vR d S
  obtain ⟨t, t', m, x, oeT, hoeT, ht, ht', hlt, hx, hm, hmp, hAe⟩ := S.args
  have hat : ∀ ν, A.atAnomaly ν = recArgs Q.cfg P oeT ![x 0, x 1, x 2, x 3, x 4, ν] m (t' - t) := by
    intro ν; rw [hAe]; rfl
  have h5 : A.oe 5 = x 5 := by rw [hAe]; rfl
  obtain ⟨r', mx, mn, b1, b2, b3, b4, b5, b6, b7, -, b9⟩ := C23_package hnan S.solved S.prob S.hist S.dyn S.grid hoeT
    S.etas S.bounds S.pos ht ht' hx hm S.rate hlt S.thrust hmp hat (fun ν _ => hg ν)
  set n := Q.cfg.anomalyGridSize with hn
  have hn' : (0 : ℝ) < n := by exact_mod_cast S.grid
  have hreq : ∀ ν ∈ sampledSet (x 5) n, r' ν = rate ν := fun ν hν => (b1 ν hν).unique (hbest ν)
  rw [Set.image_congr hreq] at b3 b4
  have hd : d = rate (x 5) := b2.unique (hbest _)
  have hmemT : x 5 + 2 * Real.pi ∈ sampledSet (x 5) n := ⟨n, S.grid, le_rfl, by field_simp⟩
  have hdT : d = rate (x 5 + 2 * Real.pi) := by rw [hd]; exact (hper _).symm
  have hdmx : d ≤ mx := b3.2 ⟨_, hmemT, hdT.symm⟩
  have hmnd : mn ≤ d := b4.2 ⟨_, hmemT, hdT.symm⟩
  have hd0 : 0 < d := hd ▸ hposr _
  obtain ⟨ν3, _, hν3⟩ := b3.1
  obtain ⟨ν4, _, hν4⟩ := b4.1
  have hmxM : mx ≤ M := hM.2 ⟨ν3, hν3⟩
  have hmm : m0 ≤ mn := hm0.2 ⟨ν4, hν4⟩
  have close : ∀ ν, ∃ y ∈ sampledSet (x 5) n, |rate y - rate ν| ≤ Real.pi * L / n := by
    intro ν
    obtain ⟨y, hy, q, hq⟩ := near_sample (x 5) ν S.grid
    refine ⟨y, hy, ?_⟩
    have e : rate y = rate (y + q * (2 * Real.pi)) := (hper.int_mul q y).symm
    rw [e]
    refine (hlip _ _).trans ((mul_le_mul_of_nonneg_left hq hL).trans (le_of_eq ?_))
    ring
  have hMx : M - mx ≤ Real.pi * L / n := by
    obtain ⟨ν, hν⟩ := hM.1
    obtain ⟨y, hy, hc⟩ := close ν
    have := b3.2 ⟨y, hy, rfl⟩
    rw [hν] at hc
    linarith [(abs_le.1 hc).1]
  have hMn : mn - m0 ≤ Real.pi * L / n := by
    obtain ⟨ν, hν⟩ := hm0.1
    obtain ⟨y, hy, hc⟩ := close ν
    have := b4.2 ⟨y, hy, rfl⟩
    rw [hν] at hc
    linarith [(abs_le.1 hc).2]
  obtain ⟨c1, c2⟩ := abs_eff_error hd0 hdmx hmxM hMx
  rw [b5]
  refine ⟨by rw [h5]; exact hd, c1, by rwa [div_div] at c2, fun hbig => ?_⟩
  have hlt' : mn < mx := by
    have : 2 * (Real.pi * L / n) < M - m0 := by
      rw [← mul_div_assoc, div_lt_iff₀ hn', mul_comm (M - m0)]; exact hbig
    linarith
  have := rel_eff_error hmnd hdmx hmxM hMx hmm hMn hlt'
  rwa [div_div, ← (b9 hlt').1] at this

/-- **C130, decisions.** With the same constants: where the duty cycle lets the run thrust and the law is
defined, the recorded throttle is the one the exact effectivities call for, unless one of these is closer to
its threshold than the sampling error. -/
theorem C130_decision [PyNan ℝ] (hnan : ¬ 0 < (PyNan.nan : ℝ)) {et : ElemType} {A : LyapArgs ℝ}
    (hA : EllipticAt et A) (hf : 0 < A.f)
    (hg : ∀ ν, thrustGrad (partialQ (candQ et) (A.atAnomaly ν)) (candPsi et (A.atAnomaly ν)) ≠ 0) :
    ∃ (rate : ℝ → ℝ) (M m0 L : ℝ), (∀ ν, BestRate et (A.atAnomaly ν) (rate ν)) ∧
      IsGreatest (Set.range rate) M ∧ IsLeast (Set.range rate) m0 ∧ 0 < m0 ∧ 0 ≤ L ∧
      ∀ {Q Q' etaA etaR fuel P H k eA eR vA vR d a b θ},
        SampledStep et A Q Q' etaA etaR fuel P H k eA eR vA vR d → etaR.valid = true →
        H.controls[k]? = some (a, b, θ) →
        dutyOnAt (envOf Q P etaA etaR) ((envOf Q P etaA etaR).after k) = true →
        nanAt (envOf Q P etaA etaR) ((envOf Q P etaA etaR).after k) = false →
        2 * L < Q.cfg.anomalyGridSize * (M - m0) →
        L / (Q.cfg.anomalyGridSize * M) < |d / M - eA| →
        L / (Q.cfg.anomalyGridSize * (M - m0)) < |(d - m0) / (M - m0) - eR| →
        (θ = 0 ∨ θ = 1) ∧ (θ = 0 ↔ d / M < eA ∨ (d - m0) / (M - m0) < eR) := by
  obtain ⟨rate, M, m0, L, h1, h2, h3, h4, h5, h6⟩ := C130_sampled hnan hA hf hg
  refine ⟨rate, M, m0, L, h1, h2, h3, h4, h5, ?_⟩
  intro Q Q' etaA etaR fuel P H k eA eR vA vR d a b θ S hR hc hon hn hbig hcA hcR
  obtain ⟨-, k2, k3, k4⟩ := h6 S
  have k4 := k4 hbig
  obtain ⟨t, t', m, x, oeT, hoeT, ht, ht', hlt, hx, hm, hmp, hAe⟩ := S.args
  obtain ⟨l, hl⟩ : ∃ l, H.battery[k]? = some l := by
    obtain ⟨n, tr, D, r, hr, _, v⟩ := solve_view S.solved S.prob S.hist
    exact ⟨_, v.battery_get (v.controls_lt hc).1.le⟩
  obtain ⟨g1, g2, -, -⟩ := C22_thrust_coast S.solved S.prob S.hist hR hon hn hc S.etas S.bounds ht hx hm hl
  refine ⟨g1, g2.trans ?_⟩
  simp only [lt_real, Nat.cast_zero]
  have sA : vA < eA ↔ d / M < eA := by
    rcases lt_abs.1 hcA with q | q
    · constructor <;> intro <;> linarith
    · constructor <;> intro <;> linarith
  have sR : vR < eR ↔ (d - m0) / (M - m0) < eR := by
    have := abs_le.1 k4
    rcases lt_abs.1 hcR with q | q
    · constructor <;> intro <;> linarith
    · constructor <;> intro <;> linarith
  simp only [decide_eq_true_eq, sA, sR]
  exact ⟨fun q => q.2, fun q => ⟨S.pos, q⟩⟩

namespace Burn
open CoastSample

/-- the object of `Burn` with any number of sampled anomalies -/
noncomputable def cfgSamp (N : ℕ) : Config ℝ := { cfg false with anomalyGridSize := N }

noncomputable def objSamp (N : ℕ) : QLaw ℝ :=
  { cfg := cfgSamp N, prob := some prob, ready := true, converge := false, exitcode := 0, hist := none }

/-- the gradient at any anomaly -/
theorem raw_all (ν : ℝ) : thrustGrad (partialQ kepQ (argsAt ν)) (kepPsi (argsAt ν)) =
    ![Real.sin ν * (partialQ kepQ args 0 + 3 / 4 * partialQ kepQ args 1) / Real.sqrt (3 / 4),
      ((2 + Real.cos ν) * partialQ kepQ args 0 +
        3 / 4 * (Real.cos ν ^ 2 + 4 * Real.cos ν + 1) / (2 + Real.cos ν) * partialQ kepQ args 1) / Real.sqrt (3 / 4),
      0] := by
  have e2 := dq_rest 2 (by decide) (by decide)
  have e3 := dq_rest 3 (by decide) (by decide)
  have e4 := dq_rest 4 (by decide) (by decide)
  have e1 : (1 : ℝ) - (2 ^ 2)⁻¹ = 3 / 4 := by norm_num
  obtain ⟨w, hw⟩ : ∃ w, w = Real.sqrt (3 / 4) := ⟨_, rfl⟩
  have hw0 : 0 < w := by rw [hw]; exact Real.sqrt_pos.2 (by norm_num)
  have hw2 : w ^ 2 = 3 / 4 := by rw [hw]; exact Real.sq_sqrt (by norm_num)
  have hc : 0 < 2 + Real.cos ν := by linarith [Real.neg_one_le_cos ν]
  have hc' : 0 < 1 + 2⁻¹ * Real.cos ν := by linarith
  rw [grad_at, ← rawControl_eq, ← hw]
  funext i
  fin_cases i
  · simp only [rawControl, e2, e3, e4]
    simp [kepPsi, argsAt, lyapArgs, prob, cfg]
    rw [e1, ← hw, ← hw2]
    field_simp
  · simp only [rawControl, e2, e3, e4]
    simp [kepPsi, argsAt, lyapArgs, prob, cfg]
    rw [e1, ← hw, hw2]
    field_simp
    ring
  · simp only [rawControl, e2, e3, e4]
    simp [kepPsi]

/-- the rate is greatest at periapsis and nowhere else, and nowhere zero -/
theorem rate_all (ν : ℝ) : 0 < kepDqdt (argsAt ν) ∧ kepDqdt (argsAt ν) ≤ kepDqdt args ∧
    (Real.cos ν < 1 → kepDqdt (argsAt ν) < kepDqdt args) := by
  have h0 := dq0_lt
  have h1 := dq1_lt
  have n1 := dqdt_norm .keplerian (argsAt ν)
  have n2 := dqdt_norm .keplerian (argsAt 0)
  change kepDqdt (argsAt ν) = 1 / 100 * norm3 (thrustGrad (partialQ kepQ (argsAt ν)) (kepPsi (argsAt ν))) at n1
  change kepDqdt (argsAt 0) = 1 / 100 * norm3 (thrustGrad (partialQ kepQ (argsAt 0)) (kepPsi (argsAt 0))) at n2
  rw [raw_all] at n1 n2
  rw [argsAt_zero] at n2
  rw [n1, n2, Real.sin_zero, Real.cos_zero]
  obtain ⟨w, hw⟩ : ∃ w, w = Real.sqrt (3 / 4) := ⟨_, rfl⟩
  have hw0 : 0 < w := by rw [hw]; exact Real.sqrt_pos.2 (by norm_num)
  rw [← hw]
  obtain ⟨p, hp⟩ : ∃ p, p = -partialQ kepQ args 0 := ⟨_, rfl⟩
  obtain ⟨q, hq⟩ : ∃ q, q = -partialQ kepQ args 1 := ⟨_, rfl⟩
  rw [show partialQ kepQ args 0 = -p by rw [hp]; ring, show partialQ kepQ args 1 = -q by rw [hq]; ring]
  have hp0 : 0 < p := by linarith
  have hq0 : 0 < q := by linarith [h1.2]
  have hpq : q < p := by linarith [h1.1]
  clear n1 n2
  have hs := Real.sin_sq_add_cos_sq ν
  have hc1 := Real.cos_le_one ν
  have hc2 := Real.neg_one_le_cos ν
  generalize Real.cos ν = c at *
  generalize Real.sin ν = s at *
  obtain ⟨k, hk⟩ : ∃ k, k = 3 / 4 * (c ^ 2 + 4 * c + 1) / (2 + c) := ⟨_, rfl⟩
  have hk' : k * (2 + c) = 3 / 4 * (c ^ 2 + 4 * c + 1) := by rw [hk]; field_simp [show (2 + c) ≠ 0 by linarith]
  have e0 : (3 / 4 * (1 ^ 2 + 4 * 1 + 1) / (2 + 1) : ℝ) = 3 / 2 := by norm_num
  rw [← hk, e0]
  have sq1 : norm3 ![s * (-p + 3 / 4 * -q) / w, ((2 + c) * -p + k * -q) / w, 0] ^ 2 =
      (s ^ 2 * (p + 3 / 4 * q) ^ 2 + ((2 + c) * p + k * q) ^ 2) / w ^ 2 := by
    rw [norm3_sq]; simp only [dot3, Matrix.cons_val_zero, Matrix.cons_val_one, Matrix.cons_val]; field_simp; ring
  have sq2 : norm3 ![0 * (-p + 3 / 4 * -q) / w, ((2 + 1) * -p + 3 / 2 * -q) / w, 0] ^ 2 =
      (3 * p + 3 / 2 * q) ^ 2 / w ^ 2 := by
    rw [norm3_sq]; simp only [dot3, Matrix.cons_val_zero, Matrix.cons_val_one, Matrix.cons_val]; field_simp; ring
  have hk2 : k ^ 2 ≤ 9 / 16 * (3 + c ^ 2) := by
    have h2 : 0 < (2 + c) ^ 2 := by nlinarith
    have : k ^ 2 * (2 + c) ^ 2 ≤ 9 / 16 * (3 + c ^ 2) * (2 + c) ^ 2 := by
      have e : k ^ 2 * (2 + c) ^ 2 = 9 / 16 * (c ^ 2 + 4 * c + 1) ^ 2 := by
        rw [← mul_pow, hk']; ring
      rw [e]
      nlinarith [mul_nonneg (mul_nonneg (by linarith : (0 : ℝ) ≤ 1 - c) (by linarith : (0 : ℝ) ≤ 1 + c))
        (by linarith : (0 : ℝ) ≤ 11 + 4 * c)]
    exact le_of_mul_le_mul_right this h2
  have gap : s ^ 2 * (p + 3 / 4 * q) ^ 2 + ((2 + c) * p + k * q) ^ 2 + 4 * (1 - c) * p ^ 2 ≤ (3 * p + 3 / 2 * q) ^ 2 := by
    have e : s ^ 2 = 1 - c ^ 2 := by linarith
    have e3 : (3 * p + 3 / 2 * q) ^ 2 - (s ^ 2 * (p + 3 / 4 * q) ^ 2 + ((2 + c) * p + k * q) ^ 2 + 4 * (1 - c) * p ^ 2) =
        2 * p * q * (9 / 2 - k * (2 + c) - 3 / 4 * (1 - c ^ 2)) + q ^ 2 * (9 / 4 - k ^ 2 - 9 / 16 * (1 - c ^ 2)) := by
      rw [e]; ring
    rw [hk'] at e3
    have a1 : 0 ≤ 2 * p * q * (9 / 2 - 3 / 4 * (c ^ 2 + 4 * c + 1) - 3 / 4 * (1 - c ^ 2)) :=
      mul_nonneg (by positivity) (by linarith)
    have a2 : 0 ≤ q ^ 2 * (9 / 4 - k ^ 2 - 9 / 16 * (1 - c ^ 2)) := mul_nonneg (by positivity) (by linarith)
    linarith
  have n0 := norm3_nonneg ![s * (-p + 3 / 4 * -q) / w, ((2 + c) * -p + k * -q) / w, 0]
  have m0 := norm3_nonneg ![0 * (-p + 3 / 4 * -q) / w, ((2 + 1) * -p + 3 / 2 * -q) / w, 0]
  generalize norm3 ![s * (-p + 3 / 4 * -q) / w, ((2 + c) * -p + k * -q) / w, 0] = X at *
  generalize norm3 ![0 * (-p + 3 / 4 * -q) / w, ((2 + 1) * -p + 3 / 2 * -q) / w, 0] = Y at *
  have hle : X ^ 2 ≤ Y ^ 2 := by
    rw [sq1, sq2]
    apply div_le_div_of_nonneg_right _ (by positivity)
    have : 0 ≤ 4 * (1 - c) * p ^ 2 := mul_nonneg (by linarith) (by positivity)
    linarith
  have hX : 0 < X ^ 2 := by
    rw [sq1]
    apply div_pos _ (by positivity)
    by_cases hs0 : s = 0
    · have hc3 : c = 1 ∨ c = -1 := by
        have : (c - 1) * (c + 1) = 0 := by rw [hs0] at hs; linarith [show (c - 1) * (c + 1) = c ^ 2 - 1 by ring]
        rcases mul_eq_zero.1 this with h | h
        · left; linarith
        · right; linarith
      rcases hc3 with rfl | rfl
      · have : k = 3 / 2 := by linarith
        rw [this]; positivity
      · have : k = -(3 / 2) := by linarith
        rw [this, hs0]
        have : 0 < ((2 + -1) * p + -(3 / 2) * q) ^ 2 := by
          apply sq_pos_of_pos
          linarith [h1.1]
        linarith [sq_nonneg (0 * (p + 3 / 4 * q)), show (0 : ℝ) ^ 2 * (p + 3 / 4 * q) ^ 2 = 0 by ring]
    · positivity
  refine ⟨?_, ?_, ?_⟩
  · have : X ≠ 0 := by rintro rfl; simp at hX
    positivity
  · have := abs_le_of_sq_le_sq' hle m0
    linarith [this.2]
  · intro hc
    have : X ^ 2 < Y ^ 2 := by
      rw [sq1, sq2]
      apply div_lt_div_of_pos_right _ (by positivity)
      have : 0 < 4 * (1 - c) * p ^ 2 := mul_pos (by linarith) (by positivity)
      linarith
    linarith [lt_of_pow_lt_pow_left₀ 2 m0 this]

theorem cos_lt_one_of {ν : ℝ} (h0 : 0 < ν) (h1 : ν < 2 * Real.pi) : Real.cos ν < 1 := by
  rcases (Real.cos_le_one ν).lt_or_eq with h | h
  · exact h
  · exfalso
    have := (Real.cos_eq_one_iff_of_lt_of_lt (by linarith) h1).1 h
    linarith

theorem sampledSamp {N : ℕ} (hN : 2 ≤ N) : ∃ mn, mn < kepDqdt args ∧
    evaluateOsculatingQdot (cfgSamp N) prob ![2, 0, 0, 0, 0] prob.oe0 (1 / 100) = .ok (kepDqdt args, mn) := by
  have h5 : prob.oe0 5 = 0 := by simp [prob]
  have hN' : (0 : ℝ) < N := by exact_mod_cast (by omega : 0 < N)
  have hm1 : 2 * Real.pi ∈ sampledAnomalies (prob.oe0 5) N := by
    rw [mem_samples, h5]
    exact ⟨N, by omega, le_rfl, by field_simp; ring⟩
  have hm2 : 2 * Real.pi / N ∈ sampledAnomalies (prob.oe0 5) N := by
    rw [mem_samples, h5]
    exact ⟨1, le_rfl, by omega, by push_cast; ring⟩
  have hne : (sampledAnomalies (prob.oe0 5) N).map (fun ν => kepDqdt (argsAt ν)) ≠ [] := by
    intro h0
    rw [List.map_eq_nil_iff] at h0
    rw [h0] at hm1
    cases hm1
  obtain ⟨Mx, Mn, e1, e2, m1, m2, hall⟩ := real_max_min hne
  have hpi := Real.pi_pos
  have hlt : kepDqdt (argsAt (2 * Real.pi / N)) < kepDqdt args := by
    refine (rate_all _).2.2 (cos_lt_one_of (by positivity) ?_)
    have : (2 : ℝ) ≤ N := by exact_mod_cast hN
    rw [div_lt_iff₀ hN']
    nlinarith
  have hMx : Mx = kepDqdt args := by
    obtain ⟨ν, -, hν⟩ := List.mem_map.1 m1
    apply le_antisymm
    · rw [← hν]; exact (rate_all ν).2.1
    · rw [← rates2.1]
      exact (hall _ (List.mem_map.2 ⟨_, hm1, rfl⟩)).2
  refine ⟨Mn, ((hall _ (List.mem_map.2 ⟨_, hm2, rfl⟩)).1).trans_lt hlt, ?_⟩
  unfold evaluateOsculatingQdot
  change (do
      let mx ← pymaxList ((sampledAnomalies (prob.oe0 5) N).map fun ν => kepDqdt (argsAt ν))
      let mn ← pyminList ((sampledAnomalies (prob.oe0 5) N).map fun ν => kepDqdt (argsAt ν))
      pure (mx, mn)) = _
  rw [e1, e2, hMx]
  rfl

/-- the loop body: both thresholds are 1/2 and both effectivities are 1 -/
theorem bodySamp {N : ℕ} (hN : 2 ≤ N) :
    ∃ s' y, bodyPhase ⟨cfgSamp N, prob, .flt (1 / 2), .flt (1 / 2)⟩ (initLoop prob) = .brk s' 1 ∧
      s'.hist.times = [0, 1] ∧ s'.hist.controls = [(0, 0, 1)] ∧
      s'.hist.states = [prob.oe0, y] ∧ s'.hist.masses = [1, 1 - 1 / 100 * 1] ∧
      s'.hist.etas = [(1, 1)] ∧ s'.hist.etasBounds = [(1 / 2, 1 / 2)] ∧ s'.hist.dqdts = [kepDqdt args] := by
  obtain ⟨y, hy, hy0⟩ := flown (h := 1) one_pos le_rfl
  obtain ⟨q, dqdt, hlaw⟩ := law
  have hd : dqdt = kepDqdt args := by
    obtain ⟨o, e1, e2⟩ := (C39_rates_agree args).1 (control_defined hlaw)
    rw [hlaw] at e1
    injection e1 with e1
    rw [← e2, ← e1]
  have hch' : chooseStep (cfgSamp N) prob (initLoop prob).oe = .ok 1 := rfl
  have hdu : dutyPhase prob (initLoop prob) 1 =
      { duty := true, tOn := 0, tOff := 0, charging := false, step := 1 } := by
    simp [dutyPhase, prob, initLoop, rat]
    norm_num
  obtain ⟨mn, hmn, hsam0⟩ := sampledSamp hN
  have hpos : 0 < kepDqdt args := by have := (rate_all 0).1; rwa [argsAt_zero] at this
  have hco : ∃ c : Ctl ℝ, controlPhase ⟨cfgSamp N, prob, .flt (1 / 2), .flt (1 / 2)⟩ (initLoop prob)
      { duty := true, tOn := 0, tOff := 0, charging := false, step := 1 } = .ok (.ctl c) ∧
      c.alpha = some 0 ∧ c.beta = some 0 ∧ c.throttle = 1 ∧ c.u = vsmul (1 / 100) (dirOf 0 0) ∧
      c.psi = kepPsi args ∧ c.oeT = ![2, 0, 0, 0, 0] ∧ c.valA = 1 ∧ c.valR = 1 ∧ c.etaA = 1 / 2 ∧
      c.etaR = 1 / 2 ∧ c.qdot = kepDqdt args := by
    have ha : PyOrd.sign (1 : ℝ) * prob.tmax / (initLoop prob).mass = 1 / 100 := by
      simp [prob, initLoop, PyOrd.sign]
    have hv : asVec5 prob.oeT = .ok ![2, 0, 0, 0, 0] := rfl
    have hlaw' : lyapunovControlAngles (cfgSamp N).dyn.lyapFun
        (lyapArgs (cfgSamp N) prob ![2, 0, 0, 0, 0] (1 / 100) (initLoop prob).oe) = _ := hlaw
    have hsam : evaluateOsculatingQdot (cfgSamp N) prob ![2, 0, 0, 0, 0] (initLoop prob).oe (1 / 100) = _ := hsam0
    have v1 : PyOrd.abs (dqdt / kepDqdt args) = 1 := by
      rw [hd, div_self (by linarith)]; simp
    have v2 : PyOrd.abs ((dqdt - mn) / (kepDqdt args - mn)) = 1 := by
      rw [hd, div_self (by linarith)]; simp
    have hp : (PyOrd.lt ((0 : ℕ) : ℝ) (1 / 2)) = true := by simp
    have hn : (PyOrd.lt (1 : ℝ) (1 / 2)) = false := by simp; norm_num
    unfold controlPhase
    simp only [hv, ha, hlaw', bind, Except.bind, pure, Except.pure, if_true, evalEta, hsam, v1, v2, hp, hn,
      Bool.or_self, PyNan.isnan, if_false, Bool.false_eq_true]
    exact ⟨_, rfl, rfl, rfl, rfl, rfl, rfl, rfl, rfl, rfl, rfl, rfl, hd⟩
  obtain ⟨c, hc, hal, hbe, hth, hcu, hpsi, hct, hvA, hvR, heA, heR, hqd⟩ := hco
  have hpr : propagatePhase ⟨cfgSamp N, prob, .flt (1 / 2), .flt (1 / 2)⟩ (initLoop prob) 1 c = .ok (y, 1) := by
    simp only [propagatePhase, cfgSamp, cfg, bind, Except.bind, pure, Except.pure, hcu, hpsi]
    have h0 : (initLoop prob).t = 0 := by simp [initLoop]
    have h1 : (initLoop prob).oe = prob.oe0 := rfl
    rw [h0, h1]
    have h2 : (dynOf (α := ℝ) .keplerian).eom = eomKepGauss := rfl
    rw [h2]
    have hy' := hy
    simp only [params] at hy'
    rw [hy']
  have hconv : (dynOf (α := ℝ) .keplerian).checkConv y ![2, 0, 0, 0, 0] prob.woe (fun _ => 1) = true := by
    have h3 := slow0
    have h2 : |2 - y 0| ≤ 1 := by rw [hy0, abs_le]; constructor <;> linarith [h3.1, h3.2]
    simp [dynOf, checkConvergenceKeplerian, checkFlags, prob, List.finRange, h2]
  simp only [bodyPhase, hch', hdu, hc, hpr, storePhase, hal, hbe, exitPhase, hth, hct]
  rw [if_pos (show (cfgSamp N).dyn.checkConv y ![2, 0, 0, 0, 0] prob.woe (cfgSamp N).tolOe = true from hconv)]
  refine ⟨_, y, rfl, ?_, ?_, ?_, ?_, ?_, ?_, ?_⟩ <;>
    simp [initLoop, prob, hvA, hvR, heA, heR, hqd]

theorem args_at (ν : ℝ) : args.atAnomaly ν = argsAt ν := by
  unfold LyapArgs.atAnomaly args argsAt lyapArgs
  simp only
  congr 1

theorem elliptic : EllipticAt .keplerian args where
  mu := by simp [args, lyapArgs, cfg]
  a := by simp [args, lyapArgs, prob]
  kep := fun _ => by
    refine ⟨by simp [args, lyapArgs, prob], by simp [args, lyapArgs, prob]; norm_num, ?_⟩
    simp only [args, lyapArgs, prob]
    exact (Real.sin_pos_of_pos_of_lt_pi one_pos (by linarith [Real.pi_gt_three])).ne'
  mee := fun h => by cases h

theorem influence (ν : ℝ) : thrustGrad (partialQ (candQ .keplerian) (args.atAnomaly ν))
    (candPsi .keplerian (args.atAnomaly ν)) ≠ 0 := by
  intro h0
  have e := dqdt_norm .keplerian (args.atAnomaly ν)
  rw [h0, norm3_eq_zero.2 rfl, mul_zero, args_at] at e
  exact absurd e (rate_all ν).1.ne'

/-- with any number of samples from two on the first step of this run is one C130 speaks of -/
theorem sampled_step {N : ℕ} (hN : 2 ≤ N) : ∃ Q' H,
    SampledStep .keplerian args (objSamp N) Q' (.flt (1 / 2)) (.flt (1 / 2)) 2 prob H 0 (1 / 2) (1 / 2) 1 1
      (kepDqdt args) ∧ H.controls[0]? = some (0, 0, 1) := by
  obtain ⟨s', y, hbody, ht, hcs, hss, hms, hes, hbs, hqs⟩ := bodySamp hN
  have hcl : clampPhase (cfgSamp N) (initLoop prob) = .ok (initLoop prob) := by
    have : elementsSafety prob.oe0 (cfgSamp N).oeMin (cfgSamp N).oeMax = .ok prob.oe0 := by
      simp only [elementsSafety, cfgSamp, cfg, prob]
      congr 1
      funext i
      fin_cases i <;> simp [pymin, pymax]
      all_goals norm_num
    simp only [clampPhase, cfgSamp, cfg, initLoop, bind, Except.bind, pure, Except.pure] at this ⊢
    rw [this]
    rfl
  have hit : iter ⟨cfgSamp N, prob, .flt (1 / 2), .flt (1 / 2)⟩ (initLoop prob) = .brk s' 1 := by
    simp only [iter, hcl, hbody]
  have hg : guardB prob (initLoop prob) = true := by
    simp [guardB, initLoop, Hist.lastTime, prob]
  refine ⟨(objSamp N).finish prob (.exit s' 1), s'.hist, ⟨?_, rfl, rfl, rfl, ?_, by rw [hes]; rfl, by rw [hbs]; rfl,
    Or.inl (by norm_num), by rw [hqs]; rfl, by simp [prob], 0, 1, 1, prob.oe0, ![2, 0, 0, 0, 0], rfl,
    by rw [ht]; rfl, by rw [ht]; rfl, one_pos, by rw [hss]; rfl, by rw [hms]; rfl, one_pos, ?_⟩, by rw [hcs]; rfl⟩
  · simp only [QLaw.solve, objSamp, EtaArg.valid, if_true, loop, hg, hit, Option.map]
    rfl
  · simp [objSamp, cfgSamp]; omega
  · have e : PyOrd.sign ((1 : ℝ) - 0) * prob.tmax / 1 = 1 / 100 := by simp [prob, PyOrd.sign]
    unfold args lyapArgs recArgs
    rw [e]
    rfl

/-- the hypotheses of C130 are met, by runs with any number of samples; and with enough of them the sampled
effectivities of this step decide as the exact ones do, which are both 1 -/
example : ∃ (M m0 L : ℝ), m0 < M ∧ ∃ N0 : ℕ, ∀ N ≥ N0, ∃ Q' H,
    SampledStep .keplerian args (objSamp N) Q' (.flt (1 / 2)) (.flt (1 / 2)) 2 prob H 0 (1 / 2) (1 / 2) 1 1
      (kepDqdt args) ∧ H.controls[0]? = some (0, 0, 1) ∧
    kepDqdt args = M ∧ 2 * L < (objSamp N).cfg.anomalyGridSize * (M - m0) ∧
    L / ((objSamp N).cfg.anomalyGridSize * M) < |kepDqdt args / M - 1 / 2| ∧
    L / ((objSamp N).cfg.anomalyGridSize * (M - m0)) < |(kepDqdt args - m0) / (M - m0) - 1 / 2| := by
  have hf : 0 < args.f := by simp [args, lyapArgs]
  obtain ⟨rate, M, m0, L, h1, h2, h3, h4, h5, h6⟩ := C130_sampled (by simp [PyNan.nan]) elliptic hf influence
  have hr : ∀ ν, rate ν = kepDqdt (argsAt ν) := fun ν => by
    have := best_dqdt .keplerian (args.atAnomaly ν) hf.le (influence ν)
    rw [(h1 ν).unique this, args_at]; rfl
  have hM : kepDqdt args = M := by
    apply le_antisymm
    · have := h2.2 ⟨0, hr 0⟩
      rwa [argsAt_zero] at this
    · obtain ⟨ν, hν⟩ := h2.1
      rw [← hν, hr]; exact (rate_all ν).2.1
  have hlt : m0 < M := by
    have := h3.2 ⟨Real.pi, hr _⟩
    rw [← hM]; exact this.trans_lt rates2.2.2
  have hM0 : 0 < M := h4.trans hlt
  have hgap : 0 < M - m0 := by linarith
  obtain ⟨N0, hN0⟩ := exists_nat_gt (2 * L / (M - m0))
  refine ⟨M, m0, L, hlt, N0 + 2, fun N hN => ?_⟩
  obtain ⟨Q', H, hS, hc⟩ := sampled_step (show 2 ≤ N by omega)
  have hNr : 2 * L / (M - m0) < (N : ℝ) := hN0.trans_le (by exact_mod_cast (by omega : N0 ≤ N))
  have hN1 : (0 : ℝ) < N := by exact_mod_cast (by omega : 0 < N)
  have k1 : 2 * L < N * (M - m0) := by rwa [div_lt_iff₀ hgap] at hNr
  have k2 : N * (M - m0) < N * M := by nlinarith
  refine ⟨Q', H, hS, hc, hM, k1, ?_, ?_⟩
  · rw [hM, div_self hM0.ne', show |(1 : ℝ) - 1 / 2| = 1 / 2 by norm_num [abs_of_pos]]
    show L / (N * M) < 1 / 2
    rw [div_lt_iff₀ (by positivity)]; linarith
  · rw [hM, div_self hgap.ne', show |(1 : ℝ) - 1 / 2| = 1 / 2 by norm_num [abs_of_pos]]
    show L / (N * (M - m0)) < 1 / 2
    rw [div_lt_iff₀ (by positivity)]; linarith

end Burn

end PyQ
