import Verif.Proofs.RkOrder
import Mathlib.MeasureTheory.Integral.IntervalIntegral.FundThmCalculus
import Mathlib.Analysis.Calculus.Deriv.Inverse
import Mathlib.Analysis.Calculus.Deriv.MeanValue
import Mathlib.Topology.Order.IntermediateValue
import Mathlib.Algebra.BigOperators.Intervals

/-! # Repeated Runge-Kutta steps against the exact flow of a scalar equation

The time of flight `τ` turns the exact flow of `x' = g x` into a translation, so the errors of the steps add
up. -/

namespace PyQ

open Filter Topology

/-- an antiderivative of `1/g` -/
theorem exists_tau {g : ℝ → ℝ} (hg : Continuous g) (h0 : ∀ x, g x ≠ 0) :
    ∃ τ : ℝ → ℝ, ∀ x, HasDerivAt τ (1 / g x) x :=
  ⟨fun x => ∫ t in (0 : ℝ)..x, 1 / g t, fun x =>
    ((continuous_const.div hg h0).integral_hasStrictDerivAt 0 x).hasDerivAt⟩

/-- distances are at most `B` times differences of the time of flight -/
theorem tau_expand {g τ : ℝ → ℝ} {B : ℝ} (hτ : ∀ x, HasDerivAt τ (1 / g x) x)
    (hB : ∀ x, g x ≤ B) (h0 : ∀ x, 0 < g x) (x y : ℝ) : |x - y| ≤ B * |τ x - τ y| := by
  have hmono : Monotone fun z => B * τ z - z := by
    have hd : ∀ z, HasDerivAt (fun z => B * τ z - z) (B * (1 / g z) - 1) z := fun z =>
      ((hτ z).const_mul B).sub (hasDerivAt_id z)
    refine monotone_of_deriv_nonneg (fun z => (hd z).differentiableAt) fun z => ?_
    · rw [(hd z).deriv]
      have : 1 ≤ B / g z := (one_le_div (h0 z)).2 (hB z)
      rw [mul_one_div]; linarith
  have key : ∀ x y : ℝ, y ≤ x → |x - y| ≤ B * |τ x - τ y| := by
    intro x y hxy
    have h1 := hmono hxy
    simp only at h1
    have hBp : 0 < B := (h0 0).trans_le (hB 0)
    rw [abs_of_nonneg (by linarith)]
    have h2 : τ x - τ y ≤ |τ x - τ y| := le_abs_self _
    nlinarith
  rcases le_total y x with h | h
  · exact key x y h
  · rw [abs_sub_comm x, abs_sub_comm (τ x)]; exact key y x h

/-- the exact flow is a translation of the time of flight -/
theorem tau_flow {g τ θ : ℝ → ℝ} (h0 : ∀ x, g x ≠ 0) (hτ : ∀ x, HasDerivAt τ (1 / g x) x)
    (hθ : ∀ s, HasDerivAt θ (g (θ s)) s) (s t : ℝ) : τ (θ s) - τ (θ t) = s - t := by
  have hd : ∀ s, HasDerivAt (fun s => τ (θ s) - s) 0 s := by
    intro s
    have h1 := ((hτ (θ s)).comp s (hθ s)).sub (hasDerivAt_id s)
    have e : 1 / g (θ s) * g (θ s) - 1 = 0 := by rw [one_div_mul_cancel (h0 _), sub_self]
    rw [e] at h1
    exact h1
  have := is_const_of_deriv_eq_zero (fun s => (hd s).differentiableAt) (fun s => (hd s).deriv) s t
  linarith

/-- the equation has a solution through every point -/
theorem exists_flow {g : ℝ → ℝ} {B : ℝ} (hg : Continuous g) (h0 : ∀ x, 0 < g x)
    (hB : ∀ x, g x ≤ B) (t0 x0 : ℝ) :
    ∃ θ : ℝ → ℝ, θ t0 = x0 ∧ ∀ s, HasDerivAt θ (g (θ s)) s := by
  obtain ⟨τ, hτ⟩ := exists_tau hg fun x => (h0 x).ne'
  have hBp : 0 < B := (h0 0).trans_le (hB 0)
  have hex := tau_expand hτ hB h0
  have hsm : StrictMono τ := strictMono_of_deriv_pos fun x => by
    rw [(hτ x).deriv]; exact one_div_pos.2 (h0 x)
  have hcont : Continuous τ := continuous_iff_continuousAt.2 fun x => (hτ x).continuousAt
  have htop : Tendsto τ atTop atTop := by
    refine tendsto_atTop.2 fun b => ?_
    filter_upwards [eventually_ge_atTop (max 0 (B * (b - τ 0)))] with x hx
    have hx0 : 0 ≤ x := (le_max_left _ _).trans hx
    have h1 := hex x 0
    rw [sub_zero, abs_of_nonneg hx0, abs_of_nonneg (by linarith [hsm.monotone hx0])] at h1
    have h2 : B * (b - τ 0) ≤ B * (τ x - τ 0) := ((le_max_right _ _).trans hx).trans h1
    have := le_of_mul_le_mul_left h2 hBp
    linarith
  have hbot : Tendsto τ atBot atBot := by
    refine tendsto_atBot.2 fun b => ?_
    filter_upwards [eventually_le_atBot (min 0 (-(B * (τ 0 - b))))] with x hx
    have hx0 : x ≤ 0 := hx.trans (min_le_left _ _)
    have h1 := hex 0 x
    rw [zero_sub, abs_of_nonneg (by linarith), abs_of_nonneg (by linarith [hsm.monotone hx0])] at h1
    have h2 : B * (τ 0 - b) ≤ B * (τ 0 - τ x) := by
      have := hx.trans (min_le_right _ _)
      linarith
    have := le_of_mul_le_mul_left h2 hBp
    linarith
  have hsurj : Function.Surjective τ := hcont.surjective htop hbot
  choose σ hσ using hsurj
  have hσd : ∀ s, HasDerivAt σ (g (σ s)) s := by
    intro s
    have hc : ContinuousAt σ s := by
      refine Metric.continuousAt_iff.2 fun ε hε => ⟨ε / B, by positivity, fun {y} hy => ?_⟩
      rw [Real.dist_eq] at hy ⊢
      calc |σ y - σ s| ≤ B * |τ (σ y) - τ (σ s)| := hex _ _
        _ = B * |y - s| := by rw [hσ, hσ]
        _ < B * (ε / B) := by gcongr
        _ = ε := by field_simp
    have := HasDerivAt.of_local_left_inverse hc (hτ (σ s)) (one_div_ne_zero (h0 _).ne')
      (Eventually.of_forall hσ)
    rwa [one_div, inv_inv] at this
  refine ⟨fun s => σ (s - t0 + τ x0), ?_, fun s => ?_⟩
  · apply hsm.injective; simp only; rw [hσ]; ring
  · have h1 : HasDerivAt (fun s : ℝ => s - t0 + τ x0) 1 s :=
      ((hasDerivAt_id s).sub_const t0).add_const _
    have := (hσd (s - t0 + τ x0)).comp s h1
    rw [mul_one] at this
    exact this

/-- `n` classical Runge-Kutta steps, none longer than `δ ≤ 1`, stay within `C δ⁴` times the time
covered of the exact solution. -/
theorem rk_global {g g1 g2 g3 g4 : ℝ → ℝ} (H : Rate g g1 g2 g3 g4) :
    ∃ C, 0 ≤ C ∧ ∀ (n : ℕ) (x t : ℕ → ℝ) (δ : ℝ), δ ≤ 1 →
      (∀ k < n, |t (k + 1) - t k| ≤ δ) →
      (∀ k < n, x (k + 1) = rkScalar g (x k) (t (k + 1) - t k)) →
      ∀ θ : ℝ → ℝ, (∀ s, HasDerivAt θ (g (θ s)) s) → θ (t 0) = x 0 →
        |x n - θ (t n)| ≤ C * δ ^ 4 * ∑ k ∈ Finset.range n, |t (k + 1) - t k| := by
  obtain ⟨c0, hc0, hc⟩ := H.below
  obtain ⟨B, hB⟩ := H.bound
  have h0 : ∀ x, 0 < g x := fun x => hc0.trans_le (hc x)
  have hBg : ∀ x, g x ≤ B := fun x => (le_abs_self _).trans (hB x).1
  have hBp : 0 < B := (h0 0).trans_le (hBg 0)
  obtain ⟨τ, hτ⟩ := exists_tau (continuous_iff_continuousAt.2 fun x => (H.d0 x).continuousAt)
    fun x => (h0 x).ne'
  obtain ⟨C, hC0, hC⟩ := rk_order H hτ
  refine ⟨B * C, by positivity, fun n x t δ hδ1 hstep hx θ hθ hθ0 => ?_⟩
  have hsum : ∀ m ≤ n, |τ (x m) - τ (x 0) - (t m - t 0)| ≤
      C * δ ^ 4 * ∑ k ∈ Finset.range m, |t (k + 1) - t k| := by
    intro m
    induction m with
    | zero => intro _; simp
    | succ m ih =>
      intro hm
      have h1 := ih (by omega)
      have hd := hstep m (by omega)
      have h2 := hC (x m) (t (m + 1) - t m) (hd.trans hδ1)
      rw [← hx m (by omega)] at h2
      have h3 : C * |t (m + 1) - t m| ^ 5 ≤ C * δ ^ 4 * |t (m + 1) - t m| := by
        have : |t (m + 1) - t m| ^ 4 ≤ δ ^ 4 := pow_le_pow_left₀ (abs_nonneg _) hd 4
        calc C * |t (m + 1) - t m| ^ 5 = C * |t (m + 1) - t m| ^ 4 * |t (m + 1) - t m| := by ring
          _ ≤ C * δ ^ 4 * |t (m + 1) - t m| := by gcongr
      rw [Finset.sum_range_succ, mul_add]
      calc |τ (x (m + 1)) - τ (x 0) - (t (m + 1) - t 0)|
          = |(τ (x m) - τ (x 0) - (t m - t 0)) +
              (τ (x (m + 1)) - τ (x m) - (t (m + 1) - t m))| := by congr 1; ring
        _ ≤ _ := (abs_add_le _ _).trans (add_le_add h1 (h2.trans h3))
  have hfl := tau_flow (fun x => (h0 x).ne') hτ hθ (t n) (t 0)
  rw [hθ0] at hfl
  calc |x n - θ (t n)| ≤ B * |τ (x n) - τ (θ (t n))| := tau_expand hτ hBg h0 _ _
    _ = B * |τ (x n) - τ (x 0) - (t n - t 0)| := by congr 2; linarith
    _ ≤ B * (C * δ ^ 4 * ∑ k ∈ Finset.range n, |t (k + 1) - t k|) := by
        gcongr; exact hsum n le_rfl
    _ = _ := by ring

end PyQ
