import Verif.Props.Descent

/-! # An odd `n_petro` works while `m_petro` is at least one (C142)

With an odd `n_petro` the power `((a-aT)/(m_petro*aT))**n_petro` is negative below the target, and `soe[0]`
(`_symbolic.py:84`) is a root of one plus a negative number. C40, C41 and what follows from them cover this case
through `WholeScale`. -/

set_option linter.unusedSectionVars false

namespace PyQ

/-- the number of which `soe[0]` is a root, `_symbolic.py:84` -/
noncomputable def underRoot (A : LyapArgs ℝ) : ℝ := 1 + ((A.oe 0 - A.oeT 0) / (A.m * A.oeT 0)) ^ A.n

theorem kepSoe_underRoot (A : LyapArgs ℝ) : kepSoe A = underRoot A ^ (1 / A.r) := by
  simp only [kepSoe, underRoot, rpow_real, Nat.cast_one]

/-- **C142.** With a whole `n_petro` and `m_petro ≥ 1` the root is taken of a positive number, at every
semi-major axis; `Q` is a Lyapunov candidate and, away from the kinks of the other terms, differentiable. -/
theorem C142_candidate (A : LyapArgs ℝ) (H : KepEllipse A) (he : 0 < A.oe 1) (hT : 0 < A.oeT 0) (hm : 1 ≤ A.m)
    (hn : ∃ j : ℕ, A.n = j) (hr : A.r ≠ 0) (hb : 0 ≤ A.b) (hp : 0 < A.rpmin) (hwp : 0 ≤ A.wp) (hw : ∀ j, 0 ≤ A.woe j) :
    kepSoe A = underRoot A ^ (1 / A.r) ∧ 0 < underRoot A ∧ 0 ≤ kepQ A ∧ (kepQ A = 0 ↔ KepAtTarget A) ∧
    ((A.woe 2 = 0 ∨ Real.cos (A.oe 4) ≠ 0) → (A.woe 3 = 0 ∨ Real.sin (A.oe 4) ≠ 0 ∧ Real.cos (A.oe 3 - A.oeT 3) ≠ -1) →
      (A.woe 4 = 0 ∨ Real.sin (A.oe 4) ≠ 0 ∧ Real.cos (A.oe 2) ≠ 0 ∧ Real.cos (A.oe 4 - A.oeT 4) ≠ -1) →
      DifferentiableAt ℝ (fun x => kepQ (A.withOe x)) A.oe) := by
  have hW : WholeScale A := ⟨hm, hn⟩
  have hm0 : 0 < A.m := by linarith
  have hA : KepAdmissible A := by
    refine ⟨H, he, hT, hm0, ?_, hr, hb, hp, hwp, hw, Or.inr hW⟩
    obtain ⟨j, hj⟩ := hn
    rw [hj]; positivity
  obtain ⟨h1, h2⟩ := C40_keplerian A hA
  refine ⟨kepSoe_underRoot A, hW.pos H.a hT, h1, h2, fun h3 h4 h5 => ?_⟩
  exact C41_kep_differentiable A ⟨H.mu, H.f.ne', H.a, he, H.e1, H.i0, H.i1, hT, hm0, hb, hp, Or.inr hW, h3, h4, h5⟩

/-- **C142, lowered.** With an odd `n_petro` the scaling lowers the term of the semi-major axis below the target,
where an even one raises it. -/
theorem C142_lowered (A : LyapArgs ℝ) (ha : 0 < A.oe 0) (hT : A.oe 0 < A.oeT 0) (hm : 1 ≤ A.m)
    {j : ℕ} (hr : 0 < A.r) :
    (A.n = ((2 * j + 1 : ℕ) : ℝ) → kepSoe A < 1) ∧ (A.n = ((2 * j : ℕ) : ℝ) → 1 < kepSoe A) := by
  have hT0 : 0 < A.oeT 0 := ha.trans hT
  have hd : 0 < A.m * A.oeT 0 := mul_pos (by linarith) hT0
  have hx : (A.oe 0 - A.oeT 0) / (A.m * A.oeT 0) < 0 := div_neg_of_neg_of_pos (by linarith) hd
  rw [kepSoe_underRoot]
  constructor
  · intro hn
    have h0 : 0 < underRoot A := WholeScale.pos ⟨hm, _, hn⟩ ha hT0
    refine Real.rpow_lt_one h0.le ?_ (by positivity)
    rw [underRoot, hn, Real.rpow_natCast]
    have := Odd.pow_neg (⟨j, rfl⟩ : Odd (2 * j + 1)) hx
    linarith
  · intro hn
    refine Real.one_lt_rpow ?_ (by positivity)
    rw [underRoot, hn, Real.rpow_natCast, pow_mul]
    have : 0 < (((A.oe 0 - A.oeT 0) / (A.m * A.oeT 0)) ^ 2) ^ j := by
      have := sq_pos_of_neg hx
      positivity
    linarith

/-- **C142, sharp.** For every `m_petro` below one and every odd `n_petro` the number under the root is negative
at all small semi-major axes. -/
theorem C142_sharp (A : LyapArgs ℝ) (hT : 0 < A.oeT 0) (hm : 0 < A.m) {j : ℕ}
    (hn : A.n = ((2 * j + 1 : ℕ) : ℝ)) (h1 : A.oe 0 < (1 - A.m) * A.oeT 0) :
    kepSoe A = underRoot A ^ (1 / A.r) ∧ underRoot A < 0 := by
  refine ⟨kepSoe_underRoot A, ?_⟩
  have hd : 0 < A.m * A.oeT 0 := mul_pos hm hT
  rw [underRoot, hn, Real.rpow_natCast]
  have h1 : 1 < (A.oeT 0 - A.oe 0) / (A.m * A.oeT 0) := by
    rw [lt_div_iff₀ hd]
    linarith
  have h2 : 1 < ((A.oeT 0 - A.oe 0) / (A.m * A.oeT 0)) ^ (2 * j + 1) := one_lt_pow₀ h1 (Nat.succ_ne_zero (2 * j))
  have h3 : (A.oe 0 - A.oeT 0) / (A.m * A.oeT 0) = -((A.oeT 0 - A.oe 0) / (A.m * A.oeT 0)) := by ring
  rw [h3, Odd.neg_pow ⟨j, rfl⟩]
  linarith

/-- an orbit below its target with `n_petro = 3`: `m_petro = 3` is safe, `m_petro = 1/2` is not -/
example : ∃ A : LyapArgs ℝ, KepEllipse A ∧ 0 < A.oe 1 ∧ A.n = ((2 * 1 + 1 : ℕ) : ℝ) ∧ A.oe 0 < A.oeT 0 ∧ 1 ≤ A.m ∧ 0 < A.r ∧
    A.oe 0 < (1 - 1 / 2) * A.oeT 0 := by
  refine ⟨{ sampleKep with n := 3, oeT := ![5, 1 / 2, 1, 1, 1], m := 3 }, ⟨sampleKep_ellipse.mu, sampleKep_ellipse.f,
    sampleKep_ellipse.a, sampleKep_ellipse.e0, sampleKep_ellipse.e1, sampleKep_ellipse.i0, sampleKep_ellipse.i1⟩, ?_, ?_, ?_, ?_, ?_, ?_⟩
  all_goals simp [sampleKep]
  all_goals norm_num

end PyQ
