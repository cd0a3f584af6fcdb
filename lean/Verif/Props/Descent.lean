import Verif.Props.Candidate
import Verif.Props.Coast
import Mathlib.Analysis.SpecialFunctions.Trigonometric.InverseDeriv
import Mathlib.Analysis.SpecialFunctions.Pow.Deriv
import Mathlib.Analysis.SpecialFunctions.Sqrt
import Mathlib.Analysis.Calculus.Deriv.MeanValue
import Mathlib.Analysis.Calculus.Deriv.Abs
import Mathlib.Analysis.Calculus.Deriv.Pi
import Mathlib.Analysis.InnerProductSpace.NormPow

/-! # C41: `Q` decreases along the controlled motion -/

set_option linter.unusedSectionVars false

namespace PyQ

open Topology

/-- the same arguments at other osculating elements -/
def LyapArgs.withOe (A : LyapArgs ℝ) (x : Fin 6 → ℝ) : LyapArgs ℝ := { A with oe := x }

/-! ## where `Q` is differentiable -/

theorem arccos_cos_sq_diff {y : ℝ} (h : Real.cos y ≠ -1) :
    DifferentiableAt ℝ (fun s => Real.arccos (Real.cos s) ^ 2) y := by
  by_cases h1 : Real.cos y = 1
  · obtain ⟨n, hn⟩ := (Real.cos_eq_one_iff y).1 h1
    have e : (fun s => Real.arccos (Real.cos s) ^ 2) =ᶠ[𝓝 y] fun s => (s - n * (2 * Real.pi)) ^ 2 := by
      filter_upwards [Metric.ball_mem_nhds y Real.pi_pos] with s hs
      rw [Metric.mem_ball, Real.dist_eq, ← hn] at hs
      have e1 : Real.cos s = Real.cos |s - n * (2 * Real.pi)| := by
        rw [Real.cos_abs, Real.cos_sub_int_mul_two_pi]
      rw [e1, Real.arccos_cos (abs_nonneg _) hs.le, sq_abs]
    exact DifferentiableAt.congr_of_eventuallyEq (by fun_prop) e
  · have := (Real.differentiableAt_arccos.2 ⟨h, h1⟩).comp y Real.differentiable_cos.differentiableAt
    exact this.pow 2

/-- Keplerian arguments at which `Q` is differentiable in the elements: an inclined, non-circular
ellipse, away from the kinks of the terms with non-zero weight -/
structure KepSmooth (A : LyapArgs ℝ) : Prop where
  mu : 0 < A.mu
  f : A.f ≠ 0
  a : 0 < A.oe 0
  e0 : 0 < A.oe 1
  e1 : A.oe 1 < 1
  i0 : 0 < A.oe 2
  i1 : A.oe 2 < Real.pi
  aT : 0 < A.oeT 0
  m : 0 < A.m
  b : 0 ≤ A.b
  rpmin : 0 < A.rpmin
  sma : (A.oeT 0 < A.oe 0 ∨ ∃ j : ℕ, A.n = 2 * j) ∨ WholeScale A
  inc : A.woe 2 = 0 ∨ Real.cos (A.oe 4) ≠ 0
  raan : A.woe 3 = 0 ∨ Real.sin (A.oe 4) ≠ 0 ∧ Real.cos (A.oe 3 - A.oeT 3) ≠ -1
  aop : A.woe 4 = 0 ∨ Real.sin (A.oe 4) ≠ 0 ∧ Real.cos (A.oe 2) ≠ 0 ∧
    Real.cos (A.oe 4 - A.oeT 4) ≠ -1

theorem KepSmooth.ellipse {A : LyapArgs ℝ} (H : KepSmooth A) :
    KepEllipse { A with f := |A.f| } :=
  ⟨H.mu, abs_pos.2 H.f, H.a, H.e0.le, H.e1, H.i0, H.i1⟩

/-- the five rates as functions of the elements -/
theorem kepOedot_diff {A : LyapArgs ℝ} (H : KepEllipse A) (he0 : 0 < A.oe 1) :
    DifferentiableAt ℝ (fun x => kepOedot (A.withOe x) 0) A.oe ∧
    DifferentiableAt ℝ (fun x => kepOedot (A.withOe x) 1) A.oe ∧
    (Real.cos (A.oe 4) ≠ 0 → DifferentiableAt ℝ (fun x => kepOedot (A.withOe x) 2) A.oe) ∧
    (Real.sin (A.oe 4) ≠ 0 → DifferentiableAt ℝ (fun x => kepOedot (A.withOe x) 3) A.oe) ∧
    (Real.sin (A.oe 4) ≠ 0 → Real.cos (A.oe 2) ≠ 0 →
      DifferentiableAt ℝ (fun x => kepOedot (A.withOe x) 4) A.oe) := by
  have hp := H.p_pos
  have hh := H.h_pos
  have hf := H.f
  have hmu := H.mu
  have ha := H.a
  have he1 := H.e1
  have hi := Real.sin_pos_of_pos_of_lt_pi H.i0 H.i1
  have hG1 := gap_pos (c := Real.cos (A.oe 4)) (s := Real.sin (A.oe 4)) he0.le he1
    (Real.cos_sq_add_sin_sq _)
  have hG2 := gap_pos (c := Real.sin (A.oe 4)) (s := Real.cos (A.oe 4)) he0.le he1
    (Real.sin_sq_add_cos_sq _)
  have h1e : 0 < 1 - A.oe 1 := by linarith
  have h1e2 : 0 < 1 - A.oe 1 ^ 2 := by nlinarith
  have hs1 : 0 < 1 - A.oe 1 ^ 2 * Real.cos (A.oe 4) ^ 2 := by
    nlinarith [Real.cos_sq_le_one (A.oe 4), sq_nonneg (A.oe 1)]
  have hs2 : 0 < 1 - A.oe 1 ^ 2 * Real.sin (A.oe 4) ^ 2 := by
    nlinarith [Real.sin_sq_le_one (A.oe 4), sq_nonneg (A.oe 1)]
  have hq : 0 < A.oe 0 * A.mu * (1 - A.oe 1 ^ 2) := by positivity
  have dh : DifferentiableAt ℝ (fun x : Fin 6 → ℝ => Real.sqrt (x 0 * A.mu * (1 - x 1 ^ 2))) A.oe :=
    DifferentiableAt.sqrt (by fun_prop) hq.ne'
  have d3 : Real.sin (A.oe 4) ≠ 0 → DifferentiableAt ℝ (fun x => kepOedot (A.withOe x) 3) A.oe := by
    intro hs
    simp only [kepOedot, LyapArgs.withOe, Matrix.cons_val, Nat.cast_one, sqrt_real, cos_real,
      sin_real]
    fun_prop (disch := first | assumption | positivity)
  refine ⟨?_, ?_, ?_, d3, ?_⟩
  · simp only [kepOedot, LyapArgs.withOe, Matrix.cons_val, Nat.cast_one, Nat.cast_ofNat, sqrt_real]
    fun_prop (disch := first | assumption | positivity)
  · simp only [kepOedot, LyapArgs.withOe, Matrix.cons_val, Nat.cast_one, Nat.cast_ofNat, sqrt_real]
    fun_prop (disch := first | assumption | positivity)
  · intro hc
    simp only [kepOedot, LyapArgs.withOe, Matrix.cons_val, Nat.cast_one, sqrt_real, cos_real,
      sin_real]
    fun_prop (disch := first | assumption | positivity)
  · intro hs hc
    have d3 := d3 hs
    obtain ⟨hc1, hc2⟩ := cosTaXx_range he0 he1
    have hom : (fun x => kepOedot (A.withOe x) 4) = fun x : Fin 6 → ℝ =>
        (A.f / (x 1 * Real.sqrt (x 0 * A.mu * (1 - x 1 ^ 2))) *
        Real.sqrt ((x 0 * (1 - x 1 ^ 2)) ^ 2 * cosTaXx (x 1) ^ 2 +
          (x 0 * (1 - x 1 ^ 2) + x 0 * (1 - x 1 ^ 2) /
            (1 + x 1 * cosTaXx (x 1))) ^ 2 * (1 - cosTaXx (x 1) ^ 2)) +
        A.b * (kepOedot (A.withOe x) 3 * Real.sqrt (Real.cos (x 2) ^ 2))) / (1 + A.b) := by
      funext x
      simp only [kepOedot, cosTaXx, LyapArgs.withOe, Matrix.cons_val, Nat.cast_one, Nat.cast_ofNat,
        sqrt_real, cos_real, sin_real, rpow_real, rat_real]
    rw [hom]
    have dc0 : DifferentiableAt ℝ cosTaXx (A.oe 1) := by
      obtain ⟨s, hs⟩ : ∃ s, s = (1 - A.oe 1 ^ 2) / A.oe 1 ^ 3 := ⟨_, rfl⟩
      have hs0 : 0 < s := by rw [hs]; positivity
      have e1 : (1 - A.oe 1 ^ 2) / (2 * A.oe 1 ^ 3) = s / 2 := by rw [hs]; field_simp
      have e2 : -(1 - A.oe 1 ^ 2) / (2 * A.oe 1 ^ 3) = -(s / 2) := by rw [← e1]; ring
      have hR : 0 < 1 / 4 * s ^ 2 + 1 / 27 := by positivity
      have hlt : s / 2 < Real.sqrt (1 / 4 * s ^ 2 + 1 / 27) := by
        apply Real.lt_sqrt_of_sq_lt; nlinarith
      have ne3 : A.oe 1 ^ 3 ≠ 0 := by positivity
      have ne23 : 2 * A.oe 1 ^ 3 ≠ 0 := by positivity
      have dS : DifferentiableAt ℝ (fun e : ℝ =>
          Real.sqrt (1 / 4 * ((1 - e ^ 2) / e ^ 3) ^ 2 + 1 / 27)) (A.oe 1) := by
        fun_prop (disch := first | assumption | positivity)
      unfold cosTaXx
      have n1 : (1 - A.oe 1 ^ 2) / (2 * A.oe 1 ^ 3) +
          Real.sqrt (1 / 4 * ((1 - A.oe 1 ^ 2) / A.oe 1 ^ 3) ^ 2 + 1 / 27) ≠ 0 := by
        rw [e1, ← hs]; positivity
      have n2 : -(1 - A.oe 1 ^ 2) / (2 * A.oe 1 ^ 3) +
          Real.sqrt (1 / 4 * ((1 - A.oe 1 ^ 2) / A.oe 1 ^ 3) ^ 2 + 1 / 27) ≠ 0 := by
        rw [e2, ← hs]; linarith
      fun_prop (disch := first | assumption | positivity)
    have dc : DifferentiableAt ℝ (fun x : Fin 6 → ℝ => cosTaXx (x 1)) A.oe :=
      DifferentiableAt.comp (g := cosTaXx) (f := fun x : Fin 6 → ℝ => x 1) A.oe dc0 (by fun_prop)
    have hw : 0 < 1 + A.oe 1 * cosTaXx (A.oe 1) := by nlinarith
    have dp : DifferentiableAt ℝ (fun x : Fin 6 → ℝ => x 0 * (1 - x 1 ^ 2)) A.oe := by fun_prop
    have hc0 : 0 < cosTaXx (A.oe 1) ^ 2 := by nlinarith
    have hc3 : 0 ≤ 1 - cosTaXx (A.oe 1) ^ 2 := by nlinarith
    fun_prop (disch := first | assumption | positivity)

theorem kepQ_neg (A : LyapArgs ℝ) : kepQ { A with f := |A.f| } = kepQ A := by
  rcases abs_choice A.f with h | h
  · rw [h]
  · have := (C40_scaling A (-1)).1
    rw [h, show -A.f = -1 * A.f by ring, this]; norm_num

theorem meeQ_neg (A : LyapArgs ℝ) : meeQ { A with f := |A.f| } = meeQ A := by
  rcases abs_choice A.f with h | h
  · rw [h]
  · have := (C40_scaling A (-1)).2
    rw [h, show -A.f = -1 * A.f by ring, this]; norm_num

/-- a weighted term of `Q` is differentiable if its weight vanishes or its parts are -/
theorem term_diff {w : ℝ} {s d o : (Fin 6 → ℝ) → ℝ} {x : Fin 6 → ℝ}
    (h : w = 0 ∨ DifferentiableAt ℝ s x ∧ DifferentiableAt ℝ (fun y => d y ^ 2) x ∧
      DifferentiableAt ℝ o x ∧ o x ≠ 0) :
    DifferentiableAt ℝ (fun y => w * s y * (d y / o y) ^ 2) x := by
  rcases h with rfl | ⟨hs, hd, ho, hn⟩
  · simp
  · simp only [div_pow]
    have hn2 := pow_ne_zero 2 hn
    fun_prop (disch := assumption)

theorem kepSoe_diff {A : LyapArgs ℝ} (H : KepSmooth A) :
    DifferentiableAt ℝ (fun x => kepSoe (A.withOe x)) A.oe := by
  have hd : 0 < A.m * A.oeT 0 := mul_pos H.m H.aT
  simp only [kepSoe, LyapArgs.withOe, rpow_real, Nat.cast_one]
  have hb : DifferentiableAt ℝ (fun x : Fin 6 → ℝ => (x 0 - A.oeT 0) / (A.m * A.oeT 0)) A.oe := by
    fun_prop
  rcases H.sma with (h | ⟨j, h⟩) | h
  · have hpos : 0 < (A.oe 0 - A.oeT 0) / (A.m * A.oeT 0) := div_pos (by linarith) hd
    refine DifferentiableAt.rpow_const ((hb.rpow_const (Or.inl hpos.ne')).const_add 1) (Or.inl ?_)
    positivity
  · rw [h, show ((2 : ℝ) * (j : ℝ)) = ((2 * j : ℕ) : ℝ) by push_cast; ring]
    simp only [Real.rpow_natCast]
    refine DifferentiableAt.rpow_const ((hb.pow _).const_add 1) (Or.inl ?_)
    rw [pow_mul]; positivity
  · have hp := h.pos H.a H.aT
    obtain ⟨-, j, h⟩ := h
    rw [h] at hp ⊢
    simp only [Real.rpow_natCast] at hp ⊢
    exact DifferentiableAt.rpow_const ((hb.pow _).const_add 1) (Or.inl hp.ne')

theorem kepPenalty_diff {A : LyapArgs ℝ} :
    DifferentiableAt ℝ (fun x => kepPenalty (A.withOe x)) A.oe := by
  simp only [kepPenalty, LyapArgs.withOe, Nat.cast_one, exp_real]
  fun_prop

/-- C41: the Keplerian `Q` is differentiable (jointly, in the elements) on `KepSmooth` -/
theorem C41_kep_differentiable (A : LyapArgs ℝ) (H : KepSmooth A) :
    DifferentiableAt ℝ (fun x => kepQ (A.withOe x)) A.oe := by
  have e : (fun x => kepQ (A.withOe x)) =
      fun x => kepQ (({ A with f := |A.f| } : LyapArgs ℝ).withOe x) := by
    funext x; exact (kepQ_neg (A.withOe x)).symm
  rw [e]
  obtain ⟨B, hB⟩ : ∃ B : LyapArgs ℝ, B = { A with f := |A.f| } := ⟨_, rfl⟩
  have HB : KepEllipse B := hB ▸ H.ellipse
  have HS : KepSmooth B := by
    subst hB
    exact ⟨H.mu, (abs_pos.2 H.f).ne', H.a, H.e0, H.e1, H.i0, H.i1, H.aT, H.m, H.b, H.rpmin, H.sma,
      H.inc, H.raan, H.aop⟩
  rw [← hB, show A.oe = B.oe by rw [hB]]
  obtain ⟨d0, d1, d2, d3, d4⟩ := kepOedot_diff HB HS.e0
  have pos := fun j => (kepOedot_pos HB HS.e0 HS.b j).ne'
  have hT : ∀ (j : Fin 6) (c : ℝ), Real.cos (B.oe j - c) ≠ -1 →
      DifferentiableAt ℝ (fun x : Fin 6 → ℝ => Real.arccos (Real.cos (x j - c)) ^ 2) B.oe := by
    intro j c h
    exact DifferentiableAt.comp (g := fun s => Real.arccos (Real.cos s) ^ 2)
      (f := fun x : Fin 6 → ℝ => x j - c) B.oe (arccos_cos_sq_diff h) (by fun_prop)
  simp only [kepQ]
  refine DifferentiableAt.fun_mul (DifferentiableAt.const_add _ (kepPenalty_diff.const_mul _))
    (DifferentiableAt.fun_add (DifferentiableAt.fun_add (DifferentiableAt.fun_add
      (DifferentiableAt.fun_add
      (term_diff (Or.inr ⟨kepSoe_diff HS, ?_, d0, pos 0⟩))
      (term_diff (Or.inr ⟨by fun_prop, ?_, d1, pos 1⟩))) (term_diff ?_)) (term_diff ?_))
      (term_diff ?_))
  · simp only [kepDoe, LyapArgs.withOe, Matrix.cons_val]; fun_prop
  · simp only [kepDoe, LyapArgs.withOe, Matrix.cons_val]; fun_prop
  · refine HS.inc.imp id fun h => ⟨by fun_prop, ?_, d2 h, pos 2⟩
    simp only [kepDoe, LyapArgs.withOe, Matrix.cons_val]; fun_prop
  · refine HS.raan.imp id fun h => ⟨by fun_prop, ?_, d3 h.1, pos 3⟩
    simp only [kepDoe, LyapArgs.withOe, Matrix.cons_val, cos_real, arccos_real]
    exact hT 3 _ h.2
  · refine HS.aop.imp id fun h => ⟨by fun_prop, ?_, d4 h.1 h.2.1, pos 4⟩
    simp only [kepDoe, LyapArgs.withOe, Matrix.cons_val, cos_real, arccos_real]
    exact hT 4 _ h.2.2

/-- MEE arguments at which `Q` is differentiable in the elements: a non-circular ellipse, and the
power of `|a - aT|` is smooth at zero or `a ≠ aT` -/
structure MeeSmooth (A : LyapArgs ℝ) : Prop where
  mu : 0 < A.mu
  f : A.f ≠ 0
  a : 0 < A.oe 0
  ecc0 : 0 < A.oe 1 ^ 2 + A.oe 2 ^ 2
  ecc : A.oe 1 ^ 2 + A.oe 2 ^ 2 < 1
  aT : 0 < A.oeT 0
  m : 0 < A.m
  rpmin : 0 < A.rpmin
  sma : A.oe 0 ≠ A.oeT 0 ∨ 1 < A.n

theorem meeOedot_diff {A : LyapArgs ℝ} (H : MeeEllipse A) (he0 : 0 < A.oe 1 ^ 2 + A.oe 2 ^ 2)
    (j : Fin 5) : DifferentiableAt ℝ (fun x => meeOedot (A.withOe x) j) A.oe := by
  have hs := mee_s_pos H
  have hp := H.p_pos
  have hf := H.f
  have hmu := H.mu
  have ha := H.a
  have he1 := H.e_lt
  have hecc := H.ecc
  have e0 := Real.sqrt_nonneg (A.oe 1 ^ 2 + A.oe 2 ^ 2)
  have hG1 := fg_gap_pos H.ecc
  have hG2 := fg_gap_pos (show A.oe 2 ^ 2 + A.oe 1 ^ 2 < 1 by linarith [H.ecc])
  have h1 : 0 < Real.sqrt (1 - A.oe 2 ^ 2) + A.oe 1 := by
    have := neg_abs_le (A.oe 1); linarith
  have h2 : 0 < Real.sqrt (1 - A.oe 1 ^ 2) + A.oe 2 := by
    have := neg_abs_le (A.oe 2); linarith
  have h3 : 0 < 1 - Real.sqrt (A.oe 1 ^ 2 + A.oe 2 ^ 2) := by linarith
  have h4 : 0 < 1 - A.oe 2 ^ 2 := by nlinarith [sq_nonneg (A.oe 1)]
  have h5 : 0 < 1 - A.oe 1 ^ 2 := by nlinarith [sq_nonneg (A.oe 2)]
  have dE : DifferentiableAt ℝ (fun x : Fin 6 → ℝ => Real.sqrt (x 1 ^ 2 + x 2 ^ 2)) A.oe :=
    DifferentiableAt.sqrt (by fun_prop) he0.ne'
  have dS : DifferentiableAt ℝ
      (fun x : Fin 6 → ℝ => Real.sqrt (x 0 * (1 - x 1 ^ 2 - x 2 ^ 2) / A.mu)) A.oe :=
    DifferentiableAt.sqrt (by fun_prop) (by positivity)
  match j with
  | 0 =>
    simp only [meeOedot, LyapArgs.withOe, Matrix.cons_val, Nat.cast_one, Nat.cast_ofNat, sqrt_real]
    fun_prop (disch := first | assumption | positivity)
  | 1 =>
    simp only [meeOedot, LyapArgs.withOe, Matrix.cons_val, Nat.cast_one, Nat.cast_ofNat, sqrt_real]
    exact dS.const_mul _
  | 2 =>
    simp only [meeOedot, LyapArgs.withOe, Matrix.cons_val, Nat.cast_one, Nat.cast_ofNat, sqrt_real]
    exact dS.const_mul _
  | 3 =>
    simp only [meeOedot, LyapArgs.withOe, Matrix.cons_val, Nat.cast_one, Nat.cast_ofNat, sqrt_real,
      rat_real]
    fun_prop (disch := first | assumption | positivity)
  | 4 =>
    simp only [meeOedot, LyapArgs.withOe, Matrix.cons_val, Nat.cast_one, Nat.cast_ofNat, sqrt_real,
      rat_real]
    fun_prop (disch := first | assumption | positivity)

theorem meeSoe_diff {A : LyapArgs ℝ} (H : MeeSmooth A) :
    DifferentiableAt ℝ (fun x => meeSoe (A.withOe x)) A.oe := by
  have hd : 0 < A.m * A.oeT 0 := mul_pos H.m H.aT
  simp only [meeSoe, LyapArgs.withOe, rpow_real, sqrt_real, Nat.cast_one, Real.sqrt_sq_eq_abs]
  have hpos : 0 < 1 + (|A.oe 0 - A.oeT 0| / (A.m * A.oeT 0)) ^ A.n := by
    have : 0 ≤ (|A.oe 0 - A.oeT 0| / (A.m * A.oeT 0)) ^ A.n := by positivity
    linarith
  refine DifferentiableAt.rpow_const (DifferentiableAt.const_add 1 ?_) (Or.inl hpos.ne')
  rcases H.sma with h | h
  · have hne : A.oe 0 - A.oeT 0 ≠ 0 := sub_ne_zero.2 h
    have := abs_pos.2 hne
    have dA : DifferentiableAt ℝ (fun x : Fin 6 → ℝ => |x 0 - A.oeT 0|) A.oe :=
      DifferentiableAt.comp (g := fun s : ℝ => |s|) (f := fun x : Fin 6 → ℝ => x 0 - A.oeT 0)
        A.oe (differentiableAt_abs hne) (by fun_prop)
    exact DifferentiableAt.rpow_const (by fun_prop) (Or.inl (by positivity))
  · have e : (fun x : Fin 6 → ℝ => (|x 0 - A.oeT 0| / (A.m * A.oeT 0)) ^ A.n) =
        fun x => |x 0 - A.oeT 0| ^ A.n / (A.m * A.oeT 0) ^ A.n := by
      funext x; rw [Real.div_rpow (abs_nonneg _) hd.le]
    rw [e]
    have dA : DifferentiableAt ℝ (fun x : Fin 6 → ℝ => |x 0 - A.oeT 0| ^ A.n) A.oe :=
      DifferentiableAt.comp (g := fun s : ℝ => |s| ^ A.n)
        (f := fun x : Fin 6 → ℝ => x 0 - A.oeT 0) A.oe
        (hasDerivAt_abs_rpow _ h).differentiableAt (by fun_prop)
    fun_prop

/-- C41: the MEE `Q` is differentiable (jointly, in the elements) on `MeeSmooth` -/
theorem C41_mee_differentiable (A : LyapArgs ℝ) (H : MeeSmooth A) :
    DifferentiableAt ℝ (fun x => meeQ (A.withOe x)) A.oe := by
  have e : (fun x => meeQ (A.withOe x)) =
      fun x => meeQ (({ A with f := |A.f| } : LyapArgs ℝ).withOe x) := by
    funext x; exact (meeQ_neg (A.withOe x)).symm
  rw [e]
  obtain ⟨B, hB⟩ : ∃ B : LyapArgs ℝ, B = { A with f := |A.f| } := ⟨_, rfl⟩
  have HB : MeeEllipse B := hB ▸ ⟨H.mu, abs_pos.2 H.f, H.a, H.ecc⟩
  have HS : MeeSmooth B := by
    subst hB
    exact ⟨H.mu, (abs_pos.2 H.f).ne', H.a, H.ecc0, H.ecc, H.aT, H.m, H.rpmin, H.sma⟩
  rw [← hB, show A.oe = B.oe by rw [hB]]
  have d := meeOedot_diff HB HS.ecc0
  have pos := fun j => (meeOedot_pos HB j).ne'
  have dP : DifferentiableAt ℝ (fun x => meePenalty (B.withOe x)) B.oe := by
    have dE : DifferentiableAt ℝ (fun x : Fin 6 → ℝ => Real.sqrt (x 1 ^ 2 + x 2 ^ 2)) B.oe :=
      DifferentiableAt.sqrt (by fun_prop) HS.ecc0.ne'
    simp only [meePenalty, LyapArgs.withOe, Nat.cast_one, exp_real, sqrt_real]
    fun_prop
  simp only [meeQ]
  refine DifferentiableAt.fun_mul (DifferentiableAt.const_add _ (dP.const_mul _))
    (DifferentiableAt.fun_add (DifferentiableAt.fun_add (DifferentiableAt.fun_add
      (DifferentiableAt.fun_add
      (term_diff (Or.inr ⟨meeSoe_diff HS, ?_, d 0, pos 0⟩))
      (term_diff (Or.inr ⟨by fun_prop, ?_, d 1, pos 1⟩)))
      (term_diff (Or.inr ⟨by fun_prop, ?_, d 2, pos 2⟩)))
      (term_diff (Or.inr ⟨by fun_prop, ?_, d 3, pos 3⟩)))
      (term_diff (Or.inr ⟨by fun_prop, ?_, d 4, pos 4⟩))) <;>
  · simp only [meeDoe, LyapArgs.withOe, Matrix.cons_val]; fun_prop

/-! ## the chain rule -/

theorem chain_rule (Q : LyapArgs ℝ → ℝ) (hQ : ∀ A ta, Q (A.atAnomaly ta) = Q A) (A : LyapArgs ℝ)
    (hD : DifferentiableAt ℝ (fun x => Q (A.withOe x)) A.oe) (k : ℝ → Fin 6 → ℝ) (t : ℝ)
    (hk : k t = A.oe) (d : Fin 6 → ℝ) (hd : ∀ j, HasDerivAt (fun s => k s j) (d j) t) :
    HasDerivAt (fun s => Q (A.withOe (k s))) (∑ j : Fin 5, partialQ Q A j * d j.castSucc) t := by
  have hF := hD.hasFDerivAt
  set L := fderiv ℝ (fun x => Q (A.withOe x)) A.oe
  have hK : HasDerivAt k d t := hasDerivAt_pi.2 hd
  rw [← hk] at hF
  have h1 := hF.comp_hasDerivAt t hK
  refine h1.congr_deriv ?_
  have hline : ∀ j : Fin 6, HasDerivAt (fun s => Q (A.withOe (Function.update A.oe j s)))
      (L (Pi.single j 1)) (A.oe j) := by
    intro j
    have h2 : HasFDerivAt (fun x => Q (A.withOe x)) L (Function.update A.oe j (A.oe j)) := by
      rw [Function.update_eq_self]; rw [hk] at hF; exact hF
    exact h2.comp_hasDerivAt (A.oe j) (hasDerivAt_update A.oe j (A.oe j))
  have hp : ∀ j : Fin 5, partialQ Q A j = L (Pi.single j.castSucc 1) := by
    intro j
    rw [← (hline j.castSucc).deriv]
    simp only [partialQ, diff_real]
    congr 1
    funext s
    congr 1
    simp only [LyapArgs.setOe, LyapArgs.withOe, LyapArgs.mk.injEq, true_and, and_true]
    funext i
    simp only [Function.update_apply]
  have h5 : L (Pi.single 5 1) = 0 := by
    rw [← (hline 5).deriv]
    have e : (fun s => Q (A.withOe (Function.update A.oe 5 s))) = fun _ => Q A := by
      funext s
      rw [← hQ A s]
      congr 2
      funext i
      fin_cases i <;> rfl
    rw [e]; simp
  have hsum : d = ∑ j : Fin 6, d j • (Pi.single j (1 : ℝ) : Fin 6 → ℝ) := by
    rw [← pi_eq_sum_univ' d]
  calc L d = L (∑ j : Fin 6, d j • (Pi.single j (1 : ℝ) : Fin 6 → ℝ)) := by rw [← hsum]
    _ = ∑ j : Fin 6, d j * L (Pi.single j 1) := by rw [map_sum]; simp
    _ = _ := by
      rw [Fin.sum_univ_castSucc]
      have : (Fin.last 5) = (5 : Fin 6) := rfl
      rw [this, h5, mul_zero, add_zero]
      exact Finset.sum_congr rfl fun j _ => by rw [hp, mul_comm]

/-! ## the controlled motion -/

/-- At time `t`, the elements `k` move with the rates that the equations of motion `eom` of the package
give for the thrust the control law `L` commands there, without perturbation: acceleration `f` along
the direction of the returned angles, and the returned Gauss matrix (`_qlaw.py:433-466,514-547`). -/
def ControlledMotion (eom : ℝ → (Fin 6 → ℝ) → OdeParams ℝ → Except PyErr (Fin 6 → ℝ))
    (L : LyapArgs ℝ → LyapOut ℝ) (A : LyapArgs ℝ) (k : ℝ → Fin 6 → ℝ) (t : ℝ) : Prop :=
  ∃ (o : ControlOut ℝ) (d : Fin 6 → ℝ),
    lyapunovControlAngles L (A.withOe (k t)) = .ok o ∧
    eom t (k t) { mu := A.mu, u := vsmul A.f (unitDir o.alpha o.beta), psi0 := o.psi 0,
                  psi1 := o.psi 1, psi2 := o.psi 2, ptrb := 0 } = .ok d ∧
    ∀ j, HasDerivAt (fun s => k s j) (d j) t

/-- the control law returns angles only if the gradient has a component in the orbit plane -/
theorem control_defined {L : LyapArgs ℝ → LyapOut ℝ} {A : LyapArgs ℝ} {o : ControlOut ℝ}
    (h : lyapunovControlAngles L A = .ok o) : (L A).uRaw 0 ≠ 0 ∨ (L A).uRaw 1 ≠ 0 := by
  by_contra hc
  push Not at hc
  simp only [lyapunovControlAngles, C37_out_of_plane _ hc.1 hc.2, bind, Except.bind] at h
  exact absurd h (by simp)

/-- the slow rates of both equations of motion are `psi (u + ptrb)` -/
def SlowRates (eom : ℝ → (Fin 6 → ℝ) → OdeParams ℝ → Except PyErr (Fin 6 → ℝ)) : Prop :=
  ∀ t x P d, eom t x P = .ok d → ∀ j : Fin 5, d j.castSucc =
    P.psi0 j * (P.u 0 + P.ptrb 0) + P.psi1 j * (P.u 1 + P.ptrb 1) + P.psi2 j * (P.u 2 + P.ptrb 2)

theorem gaussCombine_slow (P : OdeParams ℝ) (row : Fin 3 → ℝ) (rate : ℝ) (j : Fin 5) :
    gaussCombine P row rate j.castSucc = P.psi0 j * (P.u 0 + P.ptrb 0) +
      P.psi1 j * (P.u 1 + P.ptrb 1) + P.psi2 j * (P.u 2 + P.ptrb 2) := by
  fin_cases j <;> simp [gaussCombine, dot3, vadd]

theorem kep_slowRates : SlowRates eomKepGauss := by
  intro t x P d h j
  simp only [eomKepGauss, bind, Except.bind] at h
  repeat' split at h
  all_goals first | contradiction | skip
  injection h with h
  rw [← h]; exact gaussCombine_slow _ _ _ j

theorem mee_slowRates : SlowRates eomMeeWithAGauss := by
  intro t x P d h j
  simp only [eomMeeWithAGauss, bind, Except.bind] at h
  repeat' split at h
  all_goals first | contradiction | skip
  injection h with h
  rw [← h]; exact gaussCombine_slow _ _ _ j

theorem descent_aux {eom : ℝ → (Fin 6 → ℝ) → OdeParams ℝ → Except PyErr (Fin 6 → ℝ)}
    (he : SlowRates eom) {L : LyapArgs ℝ → LyapOut ℝ} {Q : LyapArgs ℝ → ℝ}
    (hQ : ∀ A ta, Q (A.atAnomaly ta) = Q A)
    (hL : ∀ A, (L A).uRaw = thrustGrad (L A).dqdoe (L A).psi) (hdq : ∀ A, (L A).dqdoe = partialQ Q A)
    {A : LyapArgs ℝ} {k : ℝ → Fin 6 → ℝ} {t : ℝ}
    (hD : DifferentiableAt ℝ (fun x => Q (A.withOe x)) (k t)) (M : ControlledMotion eom L A k t) :
    0 < norm3 (L (A.withOe (k t))).uRaw ∧
    HasDerivAt (fun s => Q (A.withOe (k s))) (-A.f * norm3 (L (A.withOe (k t))).uRaw) t := by
  obtain ⟨o, d, ho, hd, hk⟩ := M
  have hg := control_defined ho
  have hu : (L (A.withOe (k t))).uRaw ≠ 0 := by intro e; rw [e] at hg; simp at hg
  refine ⟨norm3_pos hu, ?_⟩
  obtain ⟨o', ho', hdir, hpsi, -, -⟩ := control_value L (A.withOe (k t)) (hL _) hg
  rw [ho] at ho'; injection ho' with ho'; subst ho'
  have hc := chain_rule Q hQ (A.withOe (k t)) hD k t rfl d hk
  refine hc.congr_deriv ?_
  have hslow := he _ _ _ _ hd
  have hn := norm3_pos hu
  have hsq := norm3_sq (L (A.withOe (k t))).uRaw
  rw [← hdq]
  simp only [hslow, hdir, hpsi, vsmul, Fin.sum_univ_five, Pi.zero_apply, add_zero]
  have e : ∀ c, (L (A.withOe (k t))).uRaw c = thrustGrad (L (A.withOe (k t))).dqdoe
      (L (A.withOe (k t))).psi c := fun c => by rw [← hL]
  have e0 := e 0
  have e1 := e 1
  have e2 := e 2
  simp only [thrustGrad, Fin.sum_univ_five] at e0 e1 e2
  generalize norm3 (L (A.withOe (k t))).uRaw = n at *
  simp only [dot3] at hsq
  generalize (L (A.withOe (k t))).uRaw 0 = g0 at *
  generalize (L (A.withOe (k t))).uRaw 1 = g1 at *
  generalize (L (A.withOe (k t))).uRaw 2 = g2 at *
  have hn' := hn.ne'
  field_simp
  rw [show n ^ 2 = g0 * g0 + g1 * g1 + g2 * g2 by linarith]
  linear_combination A.f * (g0 * e0 + g1 * e1 + g2 * e2)

/-- **C41, Keplerian.** Along a motion under the commanded thrust, `Q` changes at the rate `-f |g|`,
where `g ≠ 0` is the gradient of `Q` in the thrust directions, wherever `Q` is differentiable. -/
theorem C41_kep_rate (A : LyapArgs ℝ) (k : ℝ → Fin 6 → ℝ) (t : ℝ)
    (hD : DifferentiableAt ℝ (fun x => kepQ (A.withOe x)) (k t))
    (M : ControlledMotion eomKepGauss kepLyap A k t) :
    0 < norm3 (thrustGrad (partialQ kepQ (A.withOe (k t))) (kepPsi (A.withOe (k t)))) ∧
    HasDerivAt (fun s => kepQ (A.withOe (k s))) (-A.f *
      norm3 (thrustGrad (partialQ kepQ (A.withOe (k t))) (kepPsi (A.withOe (k t))))) t := by
  have := descent_aux (L := kepLyap) (Q := kepQ) kep_slowRates (fun A ta => (C40_anomaly A ta).1)
    (fun A => (C38_raw_control A).1) (fun A => rfl) hD M
  rwa [(C38_raw_control _).1] at this

/-- **C41, MEE.** -/
theorem C41_mee_rate (A : LyapArgs ℝ) (k : ℝ → Fin 6 → ℝ) (t : ℝ)
    (hD : DifferentiableAt ℝ (fun x => meeQ (A.withOe x)) (k t))
    (M : ControlledMotion eomMeeWithAGauss meeLyap A k t) :
    0 < norm3 (thrustGrad (partialQ meeQ (A.withOe (k t))) (meePsi (A.withOe (k t)))) ∧
    HasDerivAt (fun s => meeQ (A.withOe (k s))) (-A.f *
      norm3 (thrustGrad (partialQ meeQ (A.withOe (k t))) (meePsi (A.withOe (k t))))) t := by
  have := descent_aux (L := meeLyap) (Q := meeQ) mee_slowRates (fun A ta => (C40_anomaly A ta).2)
    (fun A => (C38_raw_control A).2) (fun A => rfl) hD M
  rwa [(C38_raw_control _).2] at this

/-- **C41.** On an interval of controlled motion inside the region of differentiability, `Q` strictly
decreases in time if the acceleration is positive, and strictly increases (so it decreases when
integrated backwards) if it is negative. -/
theorem C41_decrease (A : LyapArgs ℝ) (k : ℝ → Fin 6 → ℝ) (T : Set ℝ) (hT : Convex ℝ T) :
    ((∀ t ∈ T, KepSmooth (A.withOe (k t)) ∧ ControlledMotion eomKepGauss kepLyap A k t) →
      (0 < A.f → StrictAntiOn (fun s => kepQ (A.withOe (k s))) T) ∧
      (A.f < 0 → StrictMonoOn (fun s => kepQ (A.withOe (k s))) T)) ∧
    ((∀ t ∈ T, MeeSmooth (A.withOe (k t)) ∧ ControlledMotion eomMeeWithAGauss meeLyap A k t) →
      (0 < A.f → StrictAntiOn (fun s => meeQ (A.withOe (k s))) T) ∧
      (A.f < 0 → StrictMonoOn (fun s => meeQ (A.withOe (k s))) T)) := by
  have key : ∀ (q : ℝ → ℝ) (n : ℝ → ℝ), (∀ t ∈ T, 0 < n t ∧ HasDerivAt q (-A.f * n t) t) →
      (0 < A.f → StrictAntiOn q T) ∧ (A.f < 0 → StrictMonoOn q T) := by
    intro q n h
    have hc : ContinuousOn q T := fun t ht => (h t ht).2.continuousAt.continuousWithinAt
    constructor
    · intro hf
      refine strictAntiOn_of_deriv_neg hT hc fun t ht => ?_
      have ht := interior_subset ht
      rw [(h t ht).2.deriv]
      nlinarith [mul_pos hf (h t ht).1]
    · intro hf
      refine strictMonoOn_of_deriv_pos hT hc fun t ht => ?_
      have ht := interior_subset ht
      rw [(h t ht).2.deriv]
      exact mul_pos (by linarith) (h t ht).1
  constructor
  · intro h
    exact key _ (fun t => norm3 (thrustGrad (partialQ kepQ (A.withOe (k t)))
      (kepPsi (A.withOe (k t))))) fun t ht =>
      C41_kep_rate A k t (C41_kep_differentiable (A.withOe (k t)) (h t ht).1) (h t ht).2
  · intro h
    exact key _ (fun t => norm3 (thrustGrad (partialQ meeQ (A.withOe (k t)))
      (meePsi (A.withOe (k t))))) fun t ht =>
      C41_mee_rate A k t (C41_mee_differentiable (A.withOe (k t)) (h t ht).1) (h t ht).2

/-! ## satisfiability -/

/-- only the eccentricity is targeted; `ν = π/2` -/
noncomputable def descentSample : LyapArgs ℝ :=
  { mu := 1, f := 1, oe := ![1, 1 / 2, 1, 0, 0, Real.pi / 2], oeT := ![1, 0, 0, 0, 0], rpmin := 1,
    m := 3, n := 4, r := 2, b := 1 / 100, k := 1, wp := 0, woe := ![0, 1, 0, 0, 0] }

theorem descentSample_smooth : KepSmooth descentSample := by
  have := Real.pi_gt_three
  refine ⟨?_, ?_, ?_, ?_, ?_, ?_, ?_, ?_, ?_, ?_, ?_, Or.inl (Or.inr ⟨2, ?_⟩), Or.inl ?_, Or.inl ?_, Or.inl ?_⟩
    <;> simp [descentSample] <;> norm_num
  linarith

theorem descentSample_q {x : Fin 6 → ℝ} (h0 : 0 < x 0) (h1 : x 1 ^ 2 < 1) :
    kepQ (descentSample.withOe x) = x 1 ^ 2 / (4 * (x 0 * (1 - x 1 ^ 2))) := by
  have hp : 0 < x 0 * (1 - x 1 ^ 2) := mul_pos h0 (by linarith)
  have hs := Real.sq_sqrt hp.le
  have hs0 := Real.sqrt_pos.2 hp
  simp [kepQ, descentSample, LyapArgs.withOe, kepDoe, kepOedot]
  generalize Real.sqrt (x 0 * (1 - x 1 ^ 2)) = s at *
  rw [← hs]
  field_simp
  norm_num

theorem descentSample_grad :
    partialQ kepQ descentSample 0 = -1 / 12 ∧ partialQ kepQ descentSample 1 = 4 / 9 := by
  constructor
  · have hx : descentSample.oe (Fin.castSucc 0) = 1 := by simp [descentSample]
    have e : (fun x => kepQ (descentSample.setOe 0 x)) =ᶠ[𝓝 1] fun x => 1 / 12 * x⁻¹ := by
      filter_upwards [lt_mem_nhds (show (0 : ℝ) < 1 by norm_num)] with x hx
      have := descentSample_q (x := ![x, 1 / 2, 1, 0, 0, Real.pi / 2]) (by simpa using hx)
        (by simp; norm_num)
      have e2 : descentSample.setOe 0 x =
          descentSample.withOe ![x, 1 / 2, 1, 0, 0, Real.pi / 2] := by
        simp only [LyapArgs.setOe, LyapArgs.withOe, LyapArgs.mk.injEq, true_and, and_true]
        funext i; fin_cases i <;> simp [descentSample]
      rw [e2, this]
      simp
      field_simp
      norm_num
    rw [partialQ, diff_real, hx, e.deriv_eq]
    have := ((hasDerivAt_inv (one_ne_zero (α := ℝ))).const_mul (1 / 12)).deriv
    rw [this]; norm_num
  · have hx : descentSample.oe (Fin.castSucc 1) = 1 / 2 := by simp [descentSample]
    have e : (fun x => kepQ (descentSample.setOe 1 x)) =ᶠ[𝓝 (1 / 2)]
        fun x => x ^ 2 / (4 * (1 - x ^ 2)) := by
      filter_upwards [Ioo_mem_nhds (show (0 : ℝ) < 1 / 2 by norm_num)
        (show (1 / 2 : ℝ) < 1 by norm_num)] with x hx
      have := descentSample_q (x := ![1, x, 1, 0, 0, Real.pi / 2]) (by simp)
        (by simp only [Matrix.cons_val]; nlinarith [hx.1, hx.2])
      have e2 : descentSample.setOe 1 x =
          descentSample.withOe ![1, x, 1, 0, 0, Real.pi / 2] := by
        simp only [LyapArgs.setOe, LyapArgs.withOe, LyapArgs.mk.injEq, true_and, and_true]
        funext i; fin_cases i <;> simp [descentSample]
      rw [e2, this]
      simp
    rw [partialQ, diff_real, hx, e.deriv_eq]
    have h := ((hasDerivAt_pow 2 (1 / 2 : ℝ)).div ((((hasDerivAt_pow 2 (1 / 2 : ℝ)).const_sub
      1).const_mul 4)) (by norm_num)).deriv
    refine Eq.trans h ?_
    norm_num

/-- the hypotheses of the theorems are met: a state in the smooth region, with a motion under the
commanded thrust -/
example : KepSmooth (descentSample.withOe descentSample.oe) ∧
    ∃ k : ℝ → Fin 6 → ℝ, k 0 = descentSample.oe ∧
      ControlledMotion eomKepGauss kepLyap descentSample k 0 := by
  refine ⟨descentSample_smooth, ?_⟩
  obtain ⟨g0, g1⟩ := descentSample_grad
  have hu : (kepLyap descentSample).uRaw 0 ≠ 0 := by
    have : (kepLyap descentSample).uRaw 0 = kepPsi descentSample 0 0 * (-1 / 12) +
        kepPsi descentSample 0 1 * (4 / 9) + kepPsi descentSample 0 2 *
          partialQ kepQ descentSample 2 + kepPsi descentSample 0 3 *
          partialQ kepQ descentSample 3 + kepPsi descentSample 0 4 *
          partialQ kepQ descentSample 4 := by
      rw [← g0, ← g1]; rfl
    rw [this]
    have hs : 0 < Real.sqrt (1 - 4⁻¹) := Real.sqrt_pos.2 (by norm_num)
    simp [kepPsi, descentSample]
    field_simp
    norm_num
    rw [div_pow, Real.sq_sqrt (by norm_num), Real.sq_sqrt (by norm_num)]
    norm_num
  obtain ⟨o, ho, -⟩ := control_value kepLyap descentSample (C38_raw_control _).1 (Or.inl hu)
  let P : OdeParams ℝ := { mu := descentSample.mu,
                           u := vsmul descentSample.f (unitDir o.alpha o.beta), psi0 := o.psi 0,
                           psi1 := o.psi 1, psi2 := o.psi 2, ptrb := 0 }
  have S : KepState P.mu descentSample.oe :=
    ⟨descentSample_smooth.mu, descentSample_smooth.a, descentSample_smooth.e0,
      descentSample_smooth.e1⟩
  obtain ⟨d, hd⟩ : ∃ d, eomKepGauss 0 descentSample.oe P = .ok d := ⟨_, eomKep_real (P := P) S 0⟩
  have h0 : (fun j => descentSample.oe j + 0 * d j) = descentSample.oe := by funext j; ring
  refine ⟨fun s j => descentSample.oe j + s * d j, h0, o, d, ?_, ?_, ?_⟩
  · show lyapunovControlAngles kepLyap
      (descentSample.withOe (fun j => descentSample.oe j + 0 * d j)) = _
    rw [h0]; exact ho
  · show eomKepGauss 0 (fun j => descentSample.oe j + 0 * d j) P = _
    rw [h0, hd]
  · intro j
    exact (((hasDerivAt_id (0 : ℝ)).mul_const (d j)).const_add _).congr_deriv (by simp)

example : MeeSmooth { sampleMee (1 / 2) with f := -1 } := by
  refine ⟨?_, ?_, ?_, ?_, ?_, ?_, ?_, ?_, Or.inr ?_⟩ <;> simp [sampleMee] <;> norm_num

end PyQ
