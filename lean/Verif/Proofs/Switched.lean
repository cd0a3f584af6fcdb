import Verif.Proofs.Euler

/-!
Convergence of one-step methods along a motion whose field is switched.

There are two fields `V true`, `V false` and a schedule `θ`; the motion `γ` is continuous and has the right derivative
`V (θ t) (γ t)`. A sequence of points moves in its `k`-th step by `s V(b k)(y)` up to `B s²`. If all but `N` of the
steps use the field that the schedule prescribes during the whole step, the sequence stays within a constant (that
depends on `N`) times `h` of the motion.
-/

open Set Filter Topology Metric

set_option linter.unusedSectionVars false

namespace PyQ

variable {E : Type} [NormedAddCommGroup E] [NormedSpace ℝ E]

/-- the `k`-th step uses the flag that the schedule prescribes during the whole step -/
def Matches (θ : ℝ → Bool) (τ : ℕ → ℝ) (b : ℕ → Bool) (k : ℕ) : Prop := ∀ t ∈ Ico (τ k) (τ (k + 1)), θ t = b k

open Classical in
/-- number of the first `n` steps that deviate from the schedule -/
noncomputable def mismatches (θ : ℝ → Bool) (τ : ℕ → ℝ) (b : ℕ → Bool) : ℕ → ℕ
  | 0 => 0
  | n + 1 => mismatches θ τ b n + if Matches θ τ b n then 0 else 1

theorem mismatches_mono (θ : ℝ → Bool) (τ : ℕ → ℝ) (b : ℕ → Bool) {j n : ℕ} (h : j ≤ n) :
    mismatches θ τ b j ≤ mismatches θ τ b n := by
  induction h with
  | refl => exact le_rfl
  | step _ ih => exact ih.trans (by rw [mismatches]; omega)

theorem euler_switched {γ : ℝ → E} {V : Bool → E → E} {θ : ℝ → Bool} {T B ρ0 : ℝ} (N : ℕ)
    (hc : ContinuousOn γ (Icc 0 T))
    (hγ : ∀ t ∈ Ico 0 T, HasDerivWithinAt γ (V (θ t) (γ t)) (Ici t) t)
    (hV : ∀ c, ∀ t ∈ Icc 0 T, ContDiffAt ℝ 1 (V c) (γ t)) (hB : 0 ≤ B) (hρ0 : 0 < ρ0) :
    ∃ δ > 0, ∃ C ≥ 0, ∀ h, 0 < h → h < δ → ∀ (n : ℕ) (τ : ℕ → ℝ) (b : ℕ → Bool) (y : ℕ → E), τ 0 = 0 → y 0 = γ 0 →
      (∀ k < n, τ k ≤ τ (k + 1) ∧ τ (k + 1) ≤ τ k + h) → τ n ≤ T → mismatches θ τ b n ≤ N →
      (∀ k < n, ‖y k - γ (τ k)‖ < ρ0 →
        ‖y (k + 1) - y k - (τ (k + 1) - τ k) • V (b k) (y k)‖ ≤ B * (τ (k + 1) - τ k) ^ 2) →
      ∀ k ≤ n, ‖y k - γ (τ k)‖ ≤ C * h ∧ ‖y k - γ (τ k)‖ < ρ0 := by
  obtain ⟨L1, hL1, ρ1, hρ1, hl1⟩ := tube_lipschitz hc (hV true)
  obtain ⟨L2, hL2, ρ2, hρ2, hl2⟩ := tube_lipschitz hc (hV false)
  obtain ⟨L, hL, ρ, hρ, hl⟩ : ∃ L > 0, ∃ ρ > 0, ∀ c, ∀ t ∈ Icc 0 T, ∀ y ∈ ball (γ t) ρ,
      ‖V c y‖ ≤ L ∧ ∀ z ∈ ball (γ t) ρ, ‖V c y - V c z‖ ≤ L * ‖y - z‖ := by
    refine ⟨max L1 L2, lt_max_of_lt_left hL1, min ρ1 ρ2, lt_min hρ1 hρ2, fun c t ht y hy => ?_⟩
    cases c
    · obtain ⟨e1, e2⟩ := hl2 t ht y (ball_subset_ball (min_le_right _ _) hy)
      refine ⟨e1.trans (le_max_right _ _), fun z hz => (e2 z (ball_subset_ball (min_le_right _ _) hz)).trans ?_⟩
      gcongr; exact le_max_right _ _
    · obtain ⟨e1, e2⟩ := hl1 t ht y (ball_subset_ball (min_le_left _ _) hy)
      refine ⟨e1.trans (le_max_left _ _), fun z hz => (e2 z (ball_subset_ball (min_le_left _ _) hz)).trans ?_⟩
      gcongr; exact le_max_left _ _
  have hself : ∀ t, γ t ∈ ball (γ t) ρ := fun t => mem_ball_self hρ
  have hlip : ∀ s t, 0 ≤ s → s ≤ t → t ≤ T → ‖γ t - γ s‖ ≤ L * (t - s) := fun s t hs hst ht =>
    norm_image_sub_le_of_norm_deriv_right_le_segment (f := γ) (f' := fun r => V (θ r) (γ r))
      (hc.mono (Icc_subset_Icc hs ht)) (fun r hr => hγ r ⟨hs.trans hr.1, hr.2.trans_le ht⟩)
      (fun r hr => (hl _ r ⟨hs.trans hr.1, hr.2.le.trans ht⟩ _ (hself r)).1) t (right_mem_Icc.2 hst)
  -- the defect of the motion itself, while one field is active
  have hdef : ∀ c s t, 0 ≤ s → s ≤ t → t ≤ T → L * (t - s) < ρ → (∀ r ∈ Ico s t, θ r = c) →
      ‖γ t - γ s - (t - s) • V c (γ s)‖ ≤ L ^ 2 * (t - s) ^ 2 := by
    intro c s t hs hst ht hsm hθ
    have h1 : ∀ r ∈ Ico s t, HasDerivWithinAt (fun r => γ r - r • V c (γ s)) (V c (γ r) - (1 : ℝ) • V c (γ s)) (Ici r) r := by
      intro r hr
      have := hγ r ⟨hs.trans hr.1, hr.2.trans_le ht⟩
      rw [hθ r hr] at this
      exact this.sub ((hasDerivWithinAt_id r _).smul_const _)
    have h0 : ContinuousOn (fun r => γ r - r • V c (γ s)) (Icc s t) :=
      (hc.mono (Icc_subset_Icc hs ht)).sub (continuousOn_id.smul continuousOn_const)
    have h2 : ∀ r ∈ Ico s t, ‖V c (γ r) - (1 : ℝ) • V c (γ s)‖ ≤ L * (L * (t - s)) := by
      intro r hr
      have e1 : ‖γ r - γ s‖ ≤ L * (t - s) := by
        refine (hlip s r hs hr.1 (hr.2.le.trans ht)).trans ?_
        have := hr.2.le
        gcongr
      rw [one_smul]
      refine ((hl c s ⟨hs, hst.trans ht⟩ (γ r) (mem_ball.2 (by rw [dist_eq_norm]; linarith))).2 (γ s) (hself s)).trans ?_
      gcongr
    have := norm_image_sub_le_of_norm_deriv_right_le_segment h0 h1 h2 t (right_mem_Icc.2 hst)
    calc ‖γ t - γ s - (t - s) • V c (γ s)‖ = ‖γ t - t • V c (γ s) - (γ s - s • V c (γ s))‖ := by
          congr 1; rw [sub_smul]; abel
      _ ≤ L * (L * (t - s)) * (t - s) := this
      _ = _ := by ring
  by_cases hT : 0 ≤ T
  swap
  · refine ⟨1, one_pos, 0, le_rfl, fun h h0 _ n τ b y e0 _ e1 e2 => ?_⟩
    have : ∀ k ≤ n, 0 ≤ τ k := by
      intro k
      induction k with
      | zero => intro _; exact e0.ge
      | succ k ih => intro hk; exact (ih (by omega)).trans (e1 k (by omega)).1
    exact absurd ((this n le_rfl).trans e2) hT
  set D := B + L ^ 2 with hD
  set A := 2 * L with hA
  set C := (D * T + A * N) * Real.exp (L * T) with hC
  have hD0 : 0 ≤ D := by positivity
  have hA0 : 0 ≤ A := by positivity
  have hC0 : 0 ≤ C := by positivity
  refine ⟨min (min ρ ρ0 / (C + 1)) (ρ / (L + 1)), by positivity, C, hC0, ?_⟩
  intro h h0 hδ n τ b y e0 y0 e1 e2 hN hy
  have hh1 : C * h < min ρ ρ0 := by
    have := hδ.trans_le (min_le_left _ _)
    rw [lt_div_iff₀ (by positivity)] at this
    nlinarith
  have hh2 : L * h < ρ := by
    have := hδ.trans_le (min_le_right _ _)
    rw [lt_div_iff₀ (by positivity)] at this
    nlinarith
  have hmono : ∀ j ≤ n, ∀ k ≤ j, τ k ≤ τ j := by
    intro j
    induction j with
    | zero => intro _ k hk; rw [Nat.le_zero.1 hk]
    | succ j ih =>
      intro hj k hk
      rcases Nat.lt_or_ge k (j + 1) with h1 | h1
      · exact (ih (by omega) k (by omega)).trans (e1 j (by omega)).1
      · rw [le_antisymm hk h1]
  have hmem : ∀ k ≤ n, τ k ∈ Icc 0 T := fun k hk =>
    ⟨by rw [← e0]; exact hmono k hk 0 (Nat.zero_le _), (hmono n le_rfl k hk).trans e2⟩
  have hfinal : ∀ k ≤ n, ‖y k - γ (τ k)‖ ≤ (D * h * τ k + A * h * mismatches θ τ b k) * Real.exp (L * τ k) →
      ‖y k - γ (τ k)‖ ≤ C * h := by
    intro k hk hb
    refine hb.trans ?_
    have i1 := (hmem k hk).1
    have i2 := (hmem k hk).2
    have i3 : (mismatches θ τ b k : ℝ) ≤ N := by exact_mod_cast (mismatches_mono θ τ b hk).trans hN
    calc (D * h * τ k + A * h * mismatches θ τ b k) * Real.exp (L * τ k)
        ≤ (D * h * T + A * h * N) * Real.exp (L * T) := by gcongr
      _ = C * h := by rw [hC]; ring
  have main : ∀ k ≤ n, ‖y k - γ (τ k)‖ ≤ (D * h * τ k + A * h * mismatches θ τ b k) * Real.exp (L * τ k) := by
    intro k
    induction k with
    | zero => intro _; simp [e0, y0, mismatches]
    | succ k ih =>
      intro hk
      have hk' : k < n := by omega
      have m1 := hmem k hk'.le
      have m2 := hmem (k + 1) hk
      obtain ⟨s1, s2⟩ := e1 k hk'
      have hb := ih hk'.le
      have hsm := hfinal k hk'.le hb
      have hlt : ‖y k - γ (τ k)‖ < ρ := (hsm.trans_lt hh1).trans_le (min_le_left _ _)
      have hlt0 : ‖y k - γ (τ k)‖ < ρ0 := (hsm.trans_lt hh1).trans_le (min_le_right _ _)
      set s := τ (k + 1) - τ k with hs
      have hs0 : 0 ≤ s := by linarith
      have hsh : s ≤ h := by linarith
      have hyb : y k ∈ ball (γ (τ k)) ρ := mem_ball.2 (by rw [dist_eq_norm]; exact hlt)
      have t1 := hy k hk' hlt0
      have t3 := (hl (b k) _ m1 (y k) hyb).2 _ (hself _)
      have g1 : 1 + L * s ≤ Real.exp (L * s) := by linarith [Real.add_one_le_exp (L * s)]
      have g2 : Real.exp (L * τ (k + 1)) = Real.exp (L * s) * Real.exp (L * τ k) := by
        rw [← Real.exp_add]; congr 1; rw [hs]; ring
      have g3 : 1 ≤ Real.exp (L * τ (k + 1)) := Real.one_le_exp (mul_nonneg hL.le m2.1)
      have i1 := m1.1
      have hsq : s ^ 2 ≤ s * h := by rw [sq]; gcongr
      -- the error grows by `J`, the defect of the step
      have close : ∀ J : ℝ, 0 ≤ J → ‖y (k + 1) - γ (τ (k + 1))‖ ≤ J + (1 + L * s) * ‖y k - γ (τ k)‖ →
          J ≤ D * (s * h) + A * h * ((mismatches θ τ b (k + 1) : ℝ) - mismatches θ τ b k) →
          ‖y (k + 1) - γ (τ (k + 1))‖ ≤ (D * h * τ (k + 1) + A * h * mismatches θ τ b (k + 1)) * Real.exp (L * τ (k + 1)) := by
        intro J hJ0 hJ hJ'
        refine hJ.trans ?_
        calc J + (1 + L * s) * ‖y k - γ (τ k)‖
            ≤ J * 1 + Real.exp (L * s) * ((D * h * τ k + A * h * mismatches θ τ b k) * Real.exp (L * τ k)) := by
              rw [mul_one]; gcongr
          _ = J * 1 + (D * h * τ k + A * h * mismatches θ τ b k) * Real.exp (L * τ (k + 1)) := by rw [g2]; ring
          _ ≤ J * Real.exp (L * τ (k + 1)) + (D * h * τ k + A * h * mismatches θ τ b k) * Real.exp (L * τ (k + 1)) := by
              gcongr
          _ ≤ (D * (s * h) + A * h * ((mismatches θ τ b (k + 1) : ℝ) - mismatches θ τ b k)) * Real.exp (L * τ (k + 1)) +
                (D * h * τ k + A * h * mismatches θ τ b k) * Real.exp (L * τ (k + 1)) := by gcongr
          _ = _ := by rw [hs]; ring
      by_cases hm : Matches θ τ b k
      · have t2 := hdef (b k) _ _ m1.1 s1 m2.2 (lt_of_le_of_lt (by gcongr) hh2) hm
        have split : y (k + 1) - γ (τ (k + 1)) = (y (k + 1) - y k - s • V (b k) (y k)) -
            (γ (τ (k + 1)) - γ (τ k) - s • V (b k) (γ (τ k))) + (y k - γ (τ k)) + s • (V (b k) (y k) - V (b k) (γ (τ k))) := by
          rw [smul_sub]; abel
        refine close (D * s ^ 2) (by positivity) ?_ ?_
        · rw [split]
          refine (norm_add_le _ _).trans ?_
          refine (add_le_add_left (norm_add_le _ _) _).trans ?_
          refine (add_le_add_left (add_le_add_left (norm_sub_le _ _) _) _).trans ?_
          rw [norm_smul, Real.norm_eq_abs, abs_of_nonneg hs0]
          have := mul_le_mul_of_nonneg_left t3 hs0
          rw [hD]
          linarith
        · rw [mismatches, if_pos hm, Nat.add_zero, sub_self, mul_zero, add_zero]
          gcongr
      · have t2 := hlip _ _ m1.1 s1 m2.2
        have t4 := (hl (b k) _ m1 (y k) hyb).1
        have split : y (k + 1) - γ (τ (k + 1)) = (y (k + 1) - y k - s • V (b k) (y k)) -
            (γ (τ (k + 1)) - γ (τ k)) + (y k - γ (τ k)) + s • V (b k) (y k) := by
          abel
        refine close (D * s ^ 2 + A * s) (by positivity) ?_ ?_
        · rw [split]
          refine (norm_add_le _ _).trans ?_
          refine (add_le_add_left (norm_add_le _ _) _).trans ?_
          refine (add_le_add_left (add_le_add_left (norm_sub_le _ _) _) _).trans ?_
          rw [norm_smul, Real.norm_eq_abs, abs_of_nonneg hs0]
          have := mul_le_mul_of_nonneg_left t4 hs0
          have p1 : 0 ≤ L * s * ‖y k - γ (τ k)‖ := by positivity
          have p2 : 0 ≤ L ^ 2 * s ^ 2 := by positivity
          rw [hD, hA]
          linarith
        · rw [mismatches, if_neg hm]
          push_cast
          have : A * s ≤ A * h := by gcongr
          have : D * s ^ 2 ≤ D * (s * h) := by gcongr
          linarith
  intro k hk
  have hfin := hfinal k hk (main k hk)
  exact ⟨hfin, (hfin.trans_lt hh1).trans_le (min_le_right _ _)⟩

end PyQ
