import Mathlib.Analysis.ODE.ExistUnique
import Verif.Proofs.Switched

/-!
Motions with a switched field exist: near a point at which both fields are continuously differentiable there is a
duration for which every schedule with finitely many switches has a motion.
-/

open Set Filter Topology Metric
open scoped NNReal

set_option linter.unusedSectionVars false

namespace PyQ

variable {E : Type} [NormedAddCommGroup E] [NormedSpace ℝ E] [CompleteSpace E]

/-- one arc, inside the ball in which the field is bounded and Lipschitz -/
theorem arc_exists {f : E → E} {y : E} {a K L : ℝ≥0} (hK : LipschitzOnWith K f (closedBall y a))
    (hL : ∀ x ∈ closedBall y a, ‖f x‖ ≤ L) {t0 t1 : ℝ} (h : t0 ≤ t1) (hT : L * (t1 - t0) ≤ a) :
    ∃ α : ℝ → E, α t0 = y ∧ (∀ t ∈ Icc t0 t1, α t ∈ closedBall y a) ∧
      ∀ t ∈ Icc t0 t1, HasDerivWithinAt α (f (α t)) (Icc t0 t1) t := by
  have hf : IsPicardLindelof (fun _ => f) (tmin := t0) (tmax := t1) ⟨t0, left_mem_Icc.2 h⟩ y a 0 L K :=
    { lipschitzOnWith := fun _ _ => hK
      continuousOn := fun _ _ => continuousOn_const
      norm_le := fun _ _ => hL
      mul_max_le := by
        simp only [sub_self, NNReal.coe_zero, sub_zero]
        rw [max_eq_left (by linarith)]
        exact hT }
  have hx : y ∈ closedBall y ((0 : ℝ≥0) : ℝ) := mem_closedBall_self le_rfl
  obtain ⟨α, hα⟩ := ODE.FunSpace.exists_isFixedPt_next hf hx
  refine ⟨α.compProj, ?_, fun t _ => α.compProj_mem_closedBall hf.mul_max_le, fun t ht => ?_⟩
  · have := ODE.FunSpace.compProj_val (α := α) (t := ⟨t0, left_mem_Icc.2 h⟩)
    simp only at this
    rw [this, ← hα, ODE.FunSpace.next_apply₀]
  · apply ODE.hasDerivWithinAt_picard_Icc (left_mem_Icc.2 h) hf.continuousOn_uncurry
      α.continuous_compProj.continuousOn (fun _ ht' => α.compProj_mem_closedBall hf.mul_max_le)
      y ht |>.congr_of_mem _ ht
    intro t' ht'
    nth_rw 1 [← hα]
    rw [ODE.FunSpace.compProj_of_mem ht', ODE.FunSpace.next_apply]

/-- a schedule with finitely many switches on `[0, T)`: it is constant between consecutive members of a finite sequence
of times -/
def PiecewiseConst (θ : ℝ → Bool) (T : ℝ) : Prop :=
  ∃ (N : ℕ) (s : ℕ → ℝ), s 0 = 0 ∧ s N = T ∧ (∀ i < N, s i ≤ s (i + 1)) ∧
    ∀ i < N, ∀ t ∈ Ico (s i) (s (i + 1)), θ t = θ (s i)

theorem switched_exists {V : Bool → E → E} {x0 : E} (hV : ∀ c, ContDiffAt ℝ 1 (V c) x0) {U : Set E} (hU : U ∈ 𝓝 x0) :
    ∃ T > 0, ∀ θ : ℝ → Bool, PiecewiseConst θ T → ∃ γ : ℝ → E, γ 0 = x0 ∧ ContinuousOn γ (Icc 0 T) ∧
      (∀ t ∈ Icc 0 T, γ t ∈ U) ∧ ∀ t ∈ Ico 0 T, HasDerivWithinAt γ (V (θ t) (γ t)) (Ici t) t := by
  obtain ⟨K1, s1, hs1, hK1⟩ := (hV true).exists_lipschitzOnWith
  obtain ⟨K2, s2, hs2, hK2⟩ := (hV false).exists_lipschitzOnWith
  obtain ⟨B, hB⟩ : ∃ B : ℝ, B = max (‖V true x0‖) (‖V false x0‖) + 1 := ⟨_, rfl⟩
  have hB0 : 0 < B := by
    rw [hB]
    have := (norm_nonneg (V true x0)).trans (le_max_left _ (‖V false x0‖))
    linarith
  have hb : ∀ c, ∀ᶠ y in 𝓝 x0, ‖V c y‖ < B := fun c => by
    refine (hV c).continuousAt.norm.eventually (gt_mem_nhds ?_)
    rw [hB]
    cases c
    · exact lt_of_le_of_lt (le_max_right _ _) (lt_add_one _)
    · exact lt_of_le_of_lt (le_max_left _ _) (lt_add_one _)
  obtain ⟨r, hr, hrs⟩ := Metric.nhds_basis_closedBall.mem_iff.1
    (inter_mem (inter_mem hs1 hs2) (inter_mem (inter_mem (hb true) (hb false)) hU))
  have hlip : ∀ c, LipschitzOnWith (max K1 K2) (V c) (closedBall x0 r) := fun c => by
    cases c
    · exact (hK2.mono fun y hy => (hrs hy).1.2).weaken (le_max_right _ _)
    · exact (hK1.mono fun y hy => (hrs hy).1.1).weaken (le_max_left _ _)
  have hbd : ∀ c, ∀ y ∈ closedBall x0 r, ‖V c y‖ ≤ B := fun c y hy => by
    cases c
    · exact le_of_lt (hrs hy).2.1.2
    · exact le_of_lt (hrs hy).2.1.1
  obtain ⟨T, hTdef⟩ : ∃ T, T = r / (2 * B) := ⟨_, rfl⟩
  have hT : 0 < T := by rw [hTdef]; positivity
  have hBT : B * T = r / 2 := by rw [hTdef]; field_simp
  refine ⟨T, hT, fun θ hθ => ?_⟩
  obtain ⟨N, s, hs0, hsN, hmono, hconst⟩ := hθ
  have hm : ∀ j ≤ N, ∀ i ≤ j, s i ≤ s j := by
    intro j
    induction j with
    | zero => intro _ i hi; rw [Nat.le_zero.1 hi]
    | succ j ih =>
      intro hj i hi
      rcases Nat.lt_or_ge i (j + 1) with h1 | h1
      · exact (ih (by omega) i (by omega)).trans (hmono j (by omega))
      · rw [le_antisymm hi h1]
  have main : ∀ i ≤ N, ∃ γ : ℝ → E, γ 0 = x0 ∧ ContinuousOn γ (Icc 0 (s i)) ∧
      (∀ t ∈ Icc 0 (s i), dist (γ t) x0 ≤ B * t) ∧
      ∀ t ∈ Ico 0 (s i), HasDerivWithinAt γ (V (θ t) (γ t)) (Ici t) t := by
    intro i
    induction i with
    | zero =>
      intro _
      refine ⟨fun _ => x0, rfl, continuousOn_const, fun t ht => ?_, fun t ht => ?_⟩
      · rw [dist_self]; exact mul_nonneg hB0.le ht.1
      · rw [hs0] at ht; exact absurd ht.2 (not_lt.2 ht.1)
    | succ i ih =>
      intro hi
      obtain ⟨γ, h0, hc, hd, hder⟩ := ih (by omega)
      have p0 : 0 ≤ s i := by rw [← hs0]; exact hm i (by omega) 0 (by omega)
      have p1 : s i ≤ s (i + 1) := hmono i (by omega)
      have p2 : s (i + 1) ≤ T := by rw [← hsN]; exact hm N le_rfl _ hi
      have hy := hd (s i) (right_mem_Icc.2 p0)
      have hsub : closedBall (γ (s i)) (r / 2) ⊆ closedBall x0 r := by
        intro z hz
        rw [mem_closedBall] at hz ⊢
        have : B * s i ≤ B * T := by gcongr; exact p1.trans p2
        linarith [dist_triangle z (γ (s i)) x0]
      obtain ⟨α, a0, amem, ader⟩ := arc_exists (f := V (θ (s i))) (y := γ (s i)) (a := ⟨r / 2, by positivity⟩)
        (L := ⟨B, hB0.le⟩) ((hlip _).mono hsub) (fun x hx => hbd _ x (hsub hx)) p1 (by
          show B * (s (i + 1) - s i) ≤ r / 2
          rw [← hBT]; gcongr; linarith)
      obtain ⟨γ', hγ'⟩ : ∃ γ' : ℝ → E, γ' = fun t => if t < s i then γ t else α t := ⟨_, rfl⟩
      have e1 : ∀ t, t ≤ s i → γ' t = γ t := by
        intro t ht
        rw [hγ']
        rcases ht.lt_or_eq with h1 | h1
        · simp [h1]
        · simp [h1, a0]
      have e2 : ∀ t, s i ≤ t → γ' t = α t := by
        intro t ht
        rw [hγ']
        simp [not_lt.2 ht]
      refine ⟨γ', ?_, ?_, ?_, ?_⟩
      · rw [e1 0 p0, h0]
      · have : Icc 0 (s (i + 1)) = Icc 0 (s i) ∪ Icc (s i) (s (i + 1)) := (Icc_union_Icc_eq_Icc p0 p1).symm
        rw [this]
        refine ContinuousOn.union_of_isClosed ?_ ?_ isClosed_Icc isClosed_Icc
        · exact hc.congr fun t ht => e1 t ht.2
        · exact ContinuousOn.congr (fun t ht => (ader t ht).continuousWithinAt) fun t ht => e2 t ht.1
      · intro t ht
        rcases le_total t (s i) with h1 | h1
        · rw [e1 t h1]; exact hd t ⟨ht.1, h1⟩
        · rw [e2 t h1]
          have q : ‖α t - α (s i)‖ ≤ B * (t - s i) :=
            norm_image_sub_le_of_norm_deriv_right_le_segment (f := α) (f' := fun t => V (θ (s i)) (α t))
              (a := s i) (b := s (i + 1)) (fun t ht => (ader t ht).continuousWithinAt)
              (fun t ht => (ader t ⟨ht.1, ht.2.le⟩).mono_of_mem_nhdsWithin (Icc_mem_nhdsGE_of_mem ht))
              (fun t ht => hbd _ _ (hsub (amem t ⟨ht.1, ht.2.le⟩))) t ⟨h1, ht.2⟩
          rw [a0, ← dist_eq_norm] at q
          linarith [dist_triangle (α t) (γ (s i)) x0]
      · intro t ht
        rcases lt_or_ge t (s i) with h1 | h1
        · rw [e1 t h1.le]
          refine (hder t ⟨ht.1, h1⟩).congr_of_eventuallyEq ?_ (e1 t h1.le)
          exact (eventually_nhdsWithin_of_eventually_nhds (gt_mem_nhds h1)).mono fun t' ht' => e1 t' (le_of_lt ht')
        · have hθt := hconst i (by omega) t ⟨h1, ht.2⟩
          rw [e2 t h1, hθt]
          refine ((ader t ⟨h1, ht.2.le⟩).mono_of_mem_nhdsWithin (Icc_mem_nhdsGE_of_mem ⟨h1, ht.2⟩)).congr
            (fun t' ht' => e2 t' (h1.trans ht')) (e2 t h1)
  obtain ⟨γ, h0, hc, hd, hder⟩ := main N le_rfl
  rw [hsN] at hc hd hder
  refine ⟨γ, h0, hc, fun t ht => (hrs ?_).2.2, hder⟩
  rw [mem_closedBall]
  have : B * t ≤ B * T := by gcongr; exact ht.2
  linarith [hd t ht]

end PyQ
