import Mathlib.Analysis.Calculus.ContDiff.RCLike
import Mathlib.Analysis.Calculus.MeanValue
import Mathlib.Analysis.SpecialFunctions.Exp

/-!
Convergence of one-step methods along a given motion.

A motion `γ` with `γ' = V γ` on `[0, T]`, `V` continuously differentiable at its points; a sequence of points
that starts at `γ 0` and moves by `s V(y)` up to `B s²` in each step of length `s ≤ h`. Then the sequence stays
within a constant times `h` of the motion.
-/

open Set Filter Topology Metric

set_option linter.unusedSectionVars false

namespace PyQ

variable {E F : Type} [NormedAddCommGroup E] [NormedSpace ℝ E] [NormedAddCommGroup F] [NormedSpace ℝ F]

/-- an open set around a motion contains a tube of constant width -/
theorem tube_open {c : ℝ → E} {T : ℝ} (hc : ContinuousOn c (Icc 0 T)) {U : Set E} (hU : IsOpen U)
    (h : ∀ t ∈ Icc 0 T, c t ∈ U) : ∃ ρ > 0, ∀ t ∈ Icc 0 T, ball (c t) ρ ⊆ U := by
  have hK : IsCompact (c '' Icc 0 T) := isCompact_Icc.image_of_continuousOn hc
  obtain ⟨ρ, h1, h2⟩ := hK.exists_thickening_subset_open hU (image_subset_iff.2 h)
  refine ⟨ρ, h1, fun t ht y hy => h2 ?_⟩
  rw [mem_thickening_iff]
  exact ⟨c t, mem_image_of_mem c ht, hy⟩

/-- a continuously differentiable function is Lipschitz and bounded in a tube around a motion -/
theorem tube_lipschitz {c : ℝ → E} {T : ℝ} (hc : ContinuousOn c (Icc 0 T)) {f : E → F}
    (hf : ∀ t ∈ Icc 0 T, ContDiffAt ℝ 1 f (c t)) : ∃ L > 0, ∃ ρ > 0, ∀ t ∈ Icc 0 T, ∀ y ∈ ball (c t) ρ,
      ‖f y‖ ≤ L ∧ ∀ z ∈ ball (c t) ρ, ‖f y - f z‖ ≤ L * ‖y - z‖ := by
  refine isCompact_Icc.induction_on (s := Icc 0 T) (p := fun S => ∃ L > 0, ∃ ρ > 0, ∀ t ∈ S, ∀ y ∈ ball (c t) ρ,
      ‖f y‖ ≤ L ∧ ∀ z ∈ ball (c t) ρ, ‖f y - f z‖ ≤ L * ‖y - z‖) ?_ ?_ ?_ ?_
  · exact ⟨1, one_pos, 1, one_pos, by simp⟩
  · rintro s t hst ⟨L, h1, ρ, h2, h3⟩
    exact ⟨L, h1, ρ, h2, fun r hr => h3 r (hst hr)⟩
  · rintro s t ⟨L, h1, ρ, h2, h3⟩ ⟨L', h1', ρ', h2', h3'⟩
    refine ⟨max L L', lt_max_of_lt_left h1, min ρ ρ', lt_min h2 h2', ?_⟩
    rintro r (hr | hr) y hy
    · obtain ⟨e1, e2⟩ := h3 r hr y (ball_subset_ball (min_le_left _ _) hy)
      refine ⟨e1.trans (le_max_left _ _), fun z hz => (e2 z (ball_subset_ball (min_le_left _ _) hz)).trans ?_⟩
      gcongr; exact le_max_left _ _
    · obtain ⟨e1, e2⟩ := h3' r hr y (ball_subset_ball (min_le_right _ _) hy)
      refine ⟨e1.trans (le_max_right _ _), fun z hz => (e2 z (ball_subset_ball (min_le_right _ _) hz)).trans ?_⟩
      gcongr; exact le_max_right _ _
  · intro t ht
    obtain ⟨K, s, hs, hK⟩ := (hf t ht).exists_lipschitzOnWith
    have hb : ∀ᶠ y in 𝓝 (c t), ‖f y‖ < ‖f (c t)‖ + 1 :=
      (hf t ht).continuousAt.norm.eventually (gt_mem_nhds (lt_add_one _))
    obtain ⟨r, hr, hrs⟩ := Metric.mem_nhds_iff.1 (inter_mem hs hb)
    refine ⟨c ⁻¹' ball (c t) (r / 2), (hc t ht) (ball_mem_nhds _ (by positivity)),
      max (K + 1) (‖f (c t)‖ + 1), by positivity, r / 2, by positivity, fun t' ht' y hy => ?_⟩
    have key : ∀ y ∈ ball (c t') (r / 2), y ∈ ball (c t) r := by
      intro y hy
      have h1 := mem_ball.1 hy
      have h2 := mem_ball.1 (mem_preimage.1 ht')
      have := dist_triangle y (c t') (c t)
      exact mem_ball.2 (by linarith)
    refine ⟨(le_of_lt (hrs (key y hy)).2).trans (le_max_right _ _), fun z hz => ?_⟩
    have := hK.dist_le_mul y (hrs (key y hy)).1 z (hrs (key z hz)).1
    rw [dist_eq_norm, dist_eq_norm] at this
    refine this.trans ?_
    gcongr
    exact le_max_of_le_left (by linarith)

/-- one-step methods that are consistent to first order converge to the motion to first order -/
theorem euler_converges {γ : ℝ → E} {V : E → E} {T B ρ0 : ℝ}
    (hγ : ∀ t ∈ Icc 0 T, HasDerivWithinAt γ (V (γ t)) (Icc 0 T) t) (hV : ∀ t ∈ Icc 0 T, ContDiffAt ℝ 1 V (γ t))
    (hB : 0 ≤ B) (hρ0 : 0 < ρ0) :
    ∃ δ > 0, ∃ C ≥ 0, ∀ h, 0 < h → h < δ → ∀ (n : ℕ) (τ : ℕ → ℝ) (y : ℕ → E), τ 0 = 0 → y 0 = γ 0 →
      (∀ k < n, τ k ≤ τ (k + 1) ∧ τ (k + 1) ≤ τ k + h) → τ n ≤ T →
      (∀ k < n, ‖y k - γ (τ k)‖ < ρ0 → ‖y (k + 1) - y k - (τ (k + 1) - τ k) • V (y k)‖ ≤ B * (τ (k + 1) - τ k) ^ 2) →
      ∀ k ≤ n, ‖y k - γ (τ k)‖ ≤ C * h ∧ ‖y k - γ (τ k)‖ < ρ0 := by
  have hc : ContinuousOn γ (Icc 0 T) := fun t ht => (hγ t ht).continuousWithinAt
  obtain ⟨L, hL, ρ, hρ, hl⟩ := tube_lipschitz hc hV
  have hself : ∀ t, γ t ∈ ball (γ t) ρ := fun t => mem_ball_self hρ
  have hlip : ∀ s ∈ Icc 0 T, ∀ t ∈ Icc 0 T, ‖γ t - γ s‖ ≤ L * |t - s| := fun s hs t ht =>
    Convex.norm_image_sub_le_of_norm_hasDerivWithin_le (s := Icc 0 T) hγ
      (fun r hr => (hl r hr _ (hself r)).1) (convex_Icc 0 T) hs ht
  -- the defect of the motion itself
  have hdef : ∀ s ∈ Icc 0 T, ∀ t ∈ Icc 0 T, s ≤ t → L * (t - s) < ρ →
      ‖γ t - γ s - (t - s) • V (γ s)‖ ≤ L ^ 2 * (t - s) ^ 2 := by
    intro s hs t ht hst hsm
    have hsub : Icc s t ⊆ Icc 0 T := Icc_subset_Icc hs.1 ht.2
    have h1 : ∀ r ∈ Icc s t, HasDerivWithinAt (fun r => γ r - r • V (γ s)) (V (γ r) - (1 : ℝ) • V (γ s)) (Icc s t) r :=
      fun r hr => ((hγ r (hsub hr)).mono hsub).sub ((hasDerivWithinAt_id r _).smul_const _)
    have h2 : ∀ r ∈ Icc s t, ‖V (γ r) - (1 : ℝ) • V (γ s)‖ ≤ L * (L * (t - s)) := by
      intro r hr
      have e1 : ‖γ r - γ s‖ ≤ L * (t - s) := by
        refine (hlip s hs r (hsub hr)).trans ?_
        rw [abs_of_nonneg (by linarith [hr.1])]
        have := hr.2
        gcongr
      rw [one_smul]
      refine ((hl s hs (γ r) (mem_ball.2 (by rw [dist_eq_norm]; linarith))).2 (γ s) (hself s)).trans ?_
      gcongr
    have := Convex.norm_image_sub_le_of_norm_hasDerivWithin_le h1 h2 (convex_Icc s t)
      (left_mem_Icc.2 hst) (right_mem_Icc.2 hst)
    rw [Real.norm_eq_abs, abs_of_nonneg (by linarith)] at this
    calc ‖γ t - γ s - (t - s) • V (γ s)‖ = ‖γ t - t • V (γ s) - (γ s - s • V (γ s))‖ := by
          congr 1; rw [sub_smul]; abel
      _ ≤ L * (L * (t - s)) * (t - s) := this
      _ = _ := by ring
  by_cases hT : 0 ≤ T
  swap
  · refine ⟨1, one_pos, 0, le_rfl, fun h h0 _ n τ y e0 _ e1 e2 => ?_⟩
    have : ∀ k ≤ n, 0 ≤ τ k := by
      intro k
      induction k with
      | zero => intro _; exact e0.ge
      | succ k ih => intro hk; exact (ih (by omega)).trans (e1 k (by omega)).1
    exact absurd ((this n le_rfl).trans e2) hT
  set D := B + L ^ 2 with hD
  set C := D * T * Real.exp (L * T) with hC
  have hD0 : 0 ≤ D := by positivity
  have hC0 : 0 ≤ C := by positivity
  refine ⟨min (min ρ ρ0 / (C + 1)) (ρ / (L + 1)), by positivity, C, hC0, ?_⟩
  intro h h0 hδ n τ y e0 y0 e1 e2 hy
  have hh1 : C * h < min ρ ρ0 := by
    have := hδ.trans_le (min_le_left _ _)
    rw [lt_div_iff₀ (by positivity)] at this
    nlinarith
  have hh2 : L * h < ρ := by
    have := hδ.trans_le (min_le_right _ _)
    rw [lt_div_iff₀ (by positivity)] at this
    nlinarith
  have hmono : ∀ j ≤ n, ∀ k ≤ j, τ k ≤ τ j := by
    intro j
    induction j with
    | zero => intro _ k hk; rw [Nat.le_zero.1 hk]
    | succ j ih =>
      intro hj k hk
      rcases Nat.lt_or_ge k (j + 1) with h1 | h1
      · exact (ih (by omega) k (by omega)).trans (e1 j (by omega)).1
      · rw [le_antisymm hk h1]
  have hmem : ∀ k ≤ n, τ k ∈ Icc 0 T := fun k hk =>
    ⟨by rw [← e0]; exact hmono k hk 0 (Nat.zero_le _), (hmono n le_rfl k hk).trans e2⟩
  have main : ∀ k ≤ n, ‖y k - γ (τ k)‖ ≤ D * h * τ k * Real.exp (L * τ k) := by
    intro k
    induction k with
    | zero => intro _; simp [e0, y0]
    | succ k ih =>
      intro hk
      have hk' : k < n := by omega
      have m1 := hmem k hk'.le
      have m2 := hmem (k + 1) hk
      obtain ⟨s1, s2⟩ := e1 k hk'
      have hb := ih hk'.le
      have hsm : ‖y k - γ (τ k)‖ ≤ C * h := by
        refine hb.trans ?_
        have i1 := m1.1
        have i2 := m1.2
        calc D * h * τ k * Real.exp (L * τ k) ≤ D * h * T * Real.exp (L * T) := by gcongr
          _ = C * h := by rw [hC]; ring
      have hlt : ‖y k - γ (τ k)‖ < ρ := (hsm.trans_lt hh1).trans_le (min_le_left _ _)
      have hlt0 : ‖y k - γ (τ k)‖ < ρ0 := (hsm.trans_lt hh1).trans_le (min_le_right _ _)
      set s := τ (k + 1) - τ k with hs
      have hs0 : 0 ≤ s := by linarith
      have hsh : s ≤ h := by linarith
      have t1 := hy k hk' hlt0
      have t2 := hdef _ m1 _ m2 s1 (lt_of_le_of_lt (by gcongr) hh2)
      have t3 := (hl _ m1 (y k) (mem_ball.2 (by rw [dist_eq_norm]; exact hlt))).2 _ (hself _)
      have split : y (k + 1) - γ (τ (k + 1)) = (y (k + 1) - y k - s • V (y k)) -
          (γ (τ (k + 1)) - γ (τ k) - s • V (γ (τ k))) + (y k - γ (τ k)) + s • (V (y k) - V (γ (τ k))) := by
        rw [smul_sub]; abel
      have bound : ‖y (k + 1) - γ (τ (k + 1))‖ ≤ D * s ^ 2 + (1 + L * s) * ‖y k - γ (τ k)‖ := by
        rw [split]
        refine (norm_add_le _ _).trans ?_
        refine (add_le_add_left (norm_add_le _ _) _).trans ?_
        refine (add_le_add_left (add_le_add_left (norm_sub_le _ _) _) _).trans ?_
        rw [norm_smul, Real.norm_eq_abs, abs_of_nonneg hs0]
        have := mul_le_mul_of_nonneg_left t3 hs0
        rw [hD]
        linarith
      have g1 : 1 + L * s ≤ Real.exp (L * s) := by linarith [Real.add_one_le_exp (L * s)]
      have g2 : Real.exp (L * τ (k + 1)) = Real.exp (L * s) * Real.exp (L * τ k) := by
        rw [← Real.exp_add]; congr 1; rw [hs]; ring
      have g3 : 1 ≤ Real.exp (L * τ (k + 1)) := Real.one_le_exp (mul_nonneg hL.le m2.1)
      refine bound.trans ?_
      have i1 := m1.1
      calc D * s ^ 2 + (1 + L * s) * ‖y k - γ (τ k)‖
          ≤ D * (s * h) + Real.exp (L * s) * (D * h * τ k * Real.exp (L * τ k)) := by
            have : s ^ 2 ≤ s * h := by rw [sq]; gcongr
            gcongr
        _ = D * h * s * 1 + D * h * τ k * Real.exp (L * τ (k + 1)) := by rw [g2]; ring
        _ ≤ D * h * s * Real.exp (L * τ (k + 1)) + D * h * τ k * Real.exp (L * τ (k + 1)) := by gcongr
        _ = D * h * τ (k + 1) * Real.exp (L * τ (k + 1)) := by rw [hs]; ring
  intro k hk
  have hb := main k hk
  have i1 := (hmem k hk).1
  have i2 := (hmem k hk).2
  have hfin : ‖y k - γ (τ k)‖ ≤ C * h := by
    refine hb.trans ?_
    calc D * h * τ k * Real.exp (L * τ k) ≤ D * h * T * Real.exp (L * T) := by gcongr
      _ = C * h := by rw [hC]; ring
  exact ⟨hfin, (hfin.trans_lt hh1).trans_le (min_le_right _ _)⟩

end PyQ
