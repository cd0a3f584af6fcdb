import Verif.Props.Descent
import Mathlib.Analysis.SpecialFunctions.Trigonometric.InverseDeriv
import Mathlib.Analysis.InnerProductSpace.NormPow

/-! # `Q` is smooth, to any order, where C41 shows it differentiable

The exception is the factor of the semi-major axis with modified equinoctial elements, which at the target value
is only once continuously differentiable for a general exponent `n > 1`. -/

set_option linter.unusedSectionVars false

open Filter Topology

namespace PyQ

variable {N : ℕ∞}

theorem arccos_cos_sq_smooth {y : ℝ} (h : Real.cos y ≠ -1) :
    ContDiffAt ℝ N (fun s => Real.arccos (Real.cos s) ^ 2) y := by
  by_cases h1 : Real.cos y = 1
  · obtain ⟨n, hn⟩ := (Real.cos_eq_one_iff y).1 h1
    have e : (fun s => Real.arccos (Real.cos s) ^ 2) =ᶠ[𝓝 y] fun s => (s - n * (2 * Real.pi)) ^ 2 := by
      filter_upwards [Metric.ball_mem_nhds y Real.pi_pos] with s hs
      rw [Metric.mem_ball, Real.dist_eq, ← hn] at hs
      have e1 : Real.cos s = Real.cos |s - n * (2 * Real.pi)| := by
        rw [Real.cos_abs, Real.cos_sub_int_mul_two_pi]
      rw [e1, Real.arccos_cos (abs_nonneg _) hs.le, sq_abs]
    exact ContDiffAt.congr_of_eventuallyEq (by fun_prop) e
  · have := (Real.contDiffAt_arccos (n := N) h h1).comp y Real.contDiff_cos.contDiffAt
    exact this.pow 2

/-- the five rates as functions of the elements -/
theorem kepOedot_smooth {A : LyapArgs ℝ} (H : KepEllipse A) (he0 : 0 < A.oe 1) :
    ContDiffAt ℝ N (fun x => kepOedot (A.withOe x) 0) A.oe ∧
    ContDiffAt ℝ N (fun x => kepOedot (A.withOe x) 1) A.oe ∧
    (Real.cos (A.oe 4) ≠ 0 → ContDiffAt ℝ N (fun x => kepOedot (A.withOe x) 2) A.oe) ∧
    (Real.sin (A.oe 4) ≠ 0 → ContDiffAt ℝ N (fun x => kepOedot (A.withOe x) 3) A.oe) ∧
    (Real.sin (A.oe 4) ≠ 0 → Real.cos (A.oe 2) ≠ 0 →
      ContDiffAt ℝ N (fun x => kepOedot (A.withOe x) 4) A.oe) := by
  have hp := H.p_pos
  have hh := H.h_pos
  have hf := H.f
  have hmu := H.mu
  have ha := H.a
  have he1 := H.e1
  have hi := Real.sin_pos_of_pos_of_lt_pi H.i0 H.i1
  have hG1 := gap_pos (c := Real.cos (A.oe 4)) (s := Real.sin (A.oe 4)) he0.le he1
    (Real.cos_sq_add_sin_sq _)
  have hG2 := gap_pos (c := Real.sin (A.oe 4)) (s := Real.cos (A.oe 4)) he0.le he1
    (Real.sin_sq_add_cos_sq _)
  have h1e : 0 < 1 - A.oe 1 := by linarith
  have h1e2 : 0 < 1 - A.oe 1 ^ 2 := by nlinarith
  have hs1 : 0 < 1 - A.oe 1 ^ 2 * Real.cos (A.oe 4) ^ 2 := by
    nlinarith [Real.cos_sq_le_one (A.oe 4), sq_nonneg (A.oe 1)]
  have hs2 : 0 < 1 - A.oe 1 ^ 2 * Real.sin (A.oe 4) ^ 2 := by
    nlinarith [Real.sin_sq_le_one (A.oe 4), sq_nonneg (A.oe 1)]
  have hq : 0 < A.oe 0 * A.mu * (1 - A.oe 1 ^ 2) := by positivity
  have dh : ContDiffAt ℝ N (fun x : Fin 6 → ℝ => Real.sqrt (x 0 * A.mu * (1 - x 1 ^ 2))) A.oe :=
    ContDiffAt.sqrt (by fun_prop) hq.ne'
  have d3 : Real.sin (A.oe 4) ≠ 0 → ContDiffAt ℝ N (fun x => kepOedot (A.withOe x) 3) A.oe := by
    intro hs
    simp only [kepOedot, LyapArgs.withOe, Matrix.cons_val, Nat.cast_one, sqrt_real, cos_real,
      sin_real]
    fun_prop (disch := first | assumption | positivity)
  refine ⟨?_, ?_, ?_, d3, ?_⟩
  · simp only [kepOedot, LyapArgs.withOe, Matrix.cons_val, Nat.cast_one, Nat.cast_ofNat, sqrt_real]
    fun_prop (disch := first | assumption | positivity)
  · simp only [kepOedot, LyapArgs.withOe, Matrix.cons_val, Nat.cast_one, Nat.cast_ofNat, sqrt_real]
    fun_prop (disch := first | assumption | positivity)
  · intro hc
    simp only [kepOedot, LyapArgs.withOe, Matrix.cons_val, Nat.cast_one, sqrt_real, cos_real,
      sin_real]
    fun_prop (disch := first | assumption | positivity)
  · intro hs hc
    have d3 := d3 hs
    obtain ⟨hc1, hc2⟩ := cosTaXx_range he0 he1
    have hom : (fun x => kepOedot (A.withOe x) 4) = fun x : Fin 6 → ℝ =>
        (A.f / (x 1 * Real.sqrt (x 0 * A.mu * (1 - x 1 ^ 2))) *
        Real.sqrt ((x 0 * (1 - x 1 ^ 2)) ^ 2 * cosTaXx (x 1) ^ 2 +
          (x 0 * (1 - x 1 ^ 2) + x 0 * (1 - x 1 ^ 2) /
            (1 + x 1 * cosTaXx (x 1))) ^ 2 * (1 - cosTaXx (x 1) ^ 2)) +
        A.b * (kepOedot (A.withOe x) 3 * Real.sqrt (Real.cos (x 2) ^ 2))) / (1 + A.b) := by
      funext x
      simp only [kepOedot, cosTaXx, LyapArgs.withOe, Matrix.cons_val, Nat.cast_one, Nat.cast_ofNat,
        sqrt_real, cos_real, sin_real, rpow_real, rat_real]
    rw [hom]
    have dc0 : ContDiffAt ℝ N cosTaXx (A.oe 1) := by
      obtain ⟨s, hs⟩ : ∃ s, s = (1 - A.oe 1 ^ 2) / A.oe 1 ^ 3 := ⟨_, rfl⟩
      have hs0 : 0 < s := by rw [hs]; positivity
      have e1 : (1 - A.oe 1 ^ 2) / (2 * A.oe 1 ^ 3) = s / 2 := by rw [hs]; field_simp
      have e2 : -(1 - A.oe 1 ^ 2) / (2 * A.oe 1 ^ 3) = -(s / 2) := by rw [← e1]; ring
      have hR : 0 < 1 / 4 * s ^ 2 + 1 / 27 := by positivity
      have hlt : s / 2 < Real.sqrt (1 / 4 * s ^ 2 + 1 / 27) := by
        apply Real.lt_sqrt_of_sq_lt; nlinarith
      have ne3 : A.oe 1 ^ 3 ≠ 0 := by positivity
      have ne23 : 2 * A.oe 1 ^ 3 ≠ 0 := by positivity
      have dS : ContDiffAt ℝ N (fun e : ℝ =>
          Real.sqrt (1 / 4 * ((1 - e ^ 2) / e ^ 3) ^ 2 + 1 / 27)) (A.oe 1) := by
        fun_prop (disch := first | assumption | positivity)
      unfold cosTaXx
      have n1 : (1 - A.oe 1 ^ 2) / (2 * A.oe 1 ^ 3) +
          Real.sqrt (1 / 4 * ((1 - A.oe 1 ^ 2) / A.oe 1 ^ 3) ^ 2 + 1 / 27) ≠ 0 := by
        rw [e1, ← hs]; positivity
      have n2 : -(1 - A.oe 1 ^ 2) / (2 * A.oe 1 ^ 3) +
          Real.sqrt (1 / 4 * ((1 - A.oe 1 ^ 2) / A.oe 1 ^ 3) ^ 2 + 1 / 27) ≠ 0 := by
        rw [e2, ← hs]; linarith
      fun_prop (disch := first | assumption | positivity)
    have dc : ContDiffAt ℝ N (fun x : Fin 6 → ℝ => cosTaXx (x 1)) A.oe :=
      ContDiffAt.comp (g := cosTaXx) (f := fun x : Fin 6 → ℝ => x 1) A.oe dc0 (by fun_prop)
    have hw : 0 < 1 + A.oe 1 * cosTaXx (A.oe 1) := by nlinarith
    have dp : ContDiffAt ℝ N (fun x : Fin 6 → ℝ => x 0 * (1 - x 1 ^ 2)) A.oe := by fun_prop
    have hc0 : 0 < cosTaXx (A.oe 1) ^ 2 := by nlinarith
    have hc3 : 0 ≤ 1 - cosTaXx (A.oe 1) ^ 2 := by nlinarith
    fun_prop (disch := first | assumption | positivity)

/-- a weighted term of `Q` is smooth if its weight vanishes or its parts are -/
theorem term_smooth {w : ℝ} {s d o : (Fin 6 → ℝ) → ℝ} {x : Fin 6 → ℝ}
    (h : w = 0 ∨ ContDiffAt ℝ N s x ∧ ContDiffAt ℝ N (fun y => d y ^ 2) x ∧
      ContDiffAt ℝ N o x ∧ o x ≠ 0) :
    ContDiffAt ℝ N (fun y => w * s y * (d y / o y) ^ 2) x := by
  rcases h with rfl | ⟨hs, hd, ho, hn⟩
  · simp only [zero_mul]; exact contDiffAt_const
  · simp only [div_pow]
    have hn2 := pow_ne_zero 2 hn
    fun_prop (disch := assumption)

theorem kepSoe_smooth {A : LyapArgs ℝ} (H : KepSmooth A) :
    ContDiffAt ℝ N (fun x => kepSoe (A.withOe x)) A.oe := by
  have hd : 0 < A.m * A.oeT 0 := mul_pos H.m H.aT
  simp only [kepSoe, LyapArgs.withOe, rpow_real, Nat.cast_one]
  have hb : ContDiffAt ℝ N (fun x : Fin 6 → ℝ => (x 0 - A.oeT 0) / (A.m * A.oeT 0)) A.oe := by
    fun_prop
  rcases H.sma with (h | ⟨j, h⟩) | h
  · have hpos : 0 < (A.oe 0 - A.oeT 0) / (A.m * A.oeT 0) := div_pos (by linarith) hd
    refine ContDiffAt.rpow_const_of_ne (contDiffAt_const.add (hb.rpow_const_of_ne hpos.ne')) ?_
    positivity
  · rw [h, show ((2 : ℝ) * (j : ℝ)) = ((2 * j : ℕ) : ℝ) by push_cast; ring]
    simp only [Real.rpow_natCast]
    refine ContDiffAt.rpow_const_of_ne (contDiffAt_const.add (hb.pow _)) ?_
    rw [pow_mul]; positivity
  · have hp := h.pos H.a H.aT
    obtain ⟨-, j, h⟩ := h
    rw [h] at hp ⊢
    simp only [Real.rpow_natCast] at hp ⊢
    exact ContDiffAt.rpow_const_of_ne (contDiffAt_const.add (hb.pow _)) hp.ne'

theorem kepPenalty_smooth {A : LyapArgs ℝ} :
    ContDiffAt ℝ N (fun x => kepPenalty (A.withOe x)) A.oe := by
  simp only [kepPenalty, LyapArgs.withOe, Nat.cast_one, exp_real]
  fun_prop

/-- the Keplerian `Q` is smooth (jointly, in the elements) on `KepSmooth` -/
theorem kepQ_smooth (A : LyapArgs ℝ) (H : KepSmooth A) :
    ContDiffAt ℝ N (fun x => kepQ (A.withOe x)) A.oe := by
  have e : (fun x => kepQ (A.withOe x)) =
      fun x => kepQ (({ A with f := |A.f| } : LyapArgs ℝ).withOe x) := by
    funext x; exact (kepQ_neg (A.withOe x)).symm
  rw [e]
  obtain ⟨B, hB⟩ : ∃ B : LyapArgs ℝ, B = { A with f := |A.f| } := ⟨_, rfl⟩
  have HB : KepEllipse B := hB ▸ H.ellipse
  have HS : KepSmooth B := by
    subst hB
    exact ⟨H.mu, (abs_pos.2 H.f).ne', H.a, H.e0, H.e1, H.i0, H.i1, H.aT, H.m, H.b, H.rpmin, H.sma,
      H.inc, H.raan, H.aop⟩
  rw [← hB, show A.oe = B.oe by rw [hB]]
  obtain ⟨d0, d1, d2, d3, d4⟩ := kepOedot_smooth HB HS.e0
  have pos := fun j => (kepOedot_pos HB HS.e0 HS.b j).ne'
  have hT : ∀ (j : Fin 6) (c : ℝ), Real.cos (B.oe j - c) ≠ -1 →
      ContDiffAt ℝ N (fun x : Fin 6 → ℝ => Real.arccos (Real.cos (x j - c)) ^ 2) B.oe := by
    intro j c h
    exact ContDiffAt.comp (g := fun s => Real.arccos (Real.cos s) ^ 2)
      (f := fun x : Fin 6 → ℝ => x j - c) B.oe (arccos_cos_sq_smooth h) (by fun_prop)
  simp only [kepQ]
  refine ContDiffAt.mul (contDiffAt_const.add (contDiffAt_const.mul kepPenalty_smooth))
    (ContDiffAt.add (ContDiffAt.add (ContDiffAt.add
      (ContDiffAt.add
      (term_smooth (Or.inr ⟨kepSoe_smooth HS, ?_, d0, pos 0⟩))
      (term_smooth (Or.inr ⟨by fun_prop, ?_, d1, pos 1⟩))) (term_smooth ?_)) (term_smooth ?_))
      (term_smooth ?_))
  · simp only [kepDoe, LyapArgs.withOe, Matrix.cons_val]; fun_prop
  · simp only [kepDoe, LyapArgs.withOe, Matrix.cons_val]; fun_prop
  · refine HS.inc.imp id fun h => ⟨by fun_prop, ?_, d2 h, pos 2⟩
    simp only [kepDoe, LyapArgs.withOe, Matrix.cons_val]; fun_prop
  · refine HS.raan.imp id fun h => ⟨by fun_prop, ?_, d3 h.1, pos 3⟩
    simp only [kepDoe, LyapArgs.withOe, Matrix.cons_val, cos_real, arccos_real]
    exact hT 3 _ h.2
  · refine HS.aop.imp id fun h => ⟨by fun_prop, ?_, d4 h.1 h.2.1, pos 4⟩
    simp only [kepDoe, LyapArgs.withOe, Matrix.cons_val, cos_real, arccos_real]
    exact hT 4 _ h.2.2

theorem meeOedot_smooth {A : LyapArgs ℝ} (H : MeeEllipse A) (he0 : 0 < A.oe 1 ^ 2 + A.oe 2 ^ 2)
    (j : Fin 5) : ContDiffAt ℝ N (fun x => meeOedot (A.withOe x) j) A.oe := by
  have hs := mee_s_pos H
  have hp := H.p_pos
  have hf := H.f
  have hmu := H.mu
  have ha := H.a
  have he1 := H.e_lt
  have hecc := H.ecc
  have e0 := Real.sqrt_nonneg (A.oe 1 ^ 2 + A.oe 2 ^ 2)
  have hG1 := fg_gap_pos H.ecc
  have hG2 := fg_gap_pos (show A.oe 2 ^ 2 + A.oe 1 ^ 2 < 1 by linarith [H.ecc])
  have h1 : 0 < Real.sqrt (1 - A.oe 2 ^ 2) + A.oe 1 := by
    have := neg_abs_le (A.oe 1); linarith
  have h2 : 0 < Real.sqrt (1 - A.oe 1 ^ 2) + A.oe 2 := by
    have := neg_abs_le (A.oe 2); linarith
  have h3 : 0 < 1 - Real.sqrt (A.oe 1 ^ 2 + A.oe 2 ^ 2) := by linarith
  have h4 : 0 < 1 - A.oe 2 ^ 2 := by nlinarith [sq_nonneg (A.oe 1)]
  have h5 : 0 < 1 - A.oe 1 ^ 2 := by nlinarith [sq_nonneg (A.oe 2)]
  have dE : ContDiffAt ℝ N (fun x : Fin 6 → ℝ => Real.sqrt (x 1 ^ 2 + x 2 ^ 2)) A.oe :=
    ContDiffAt.sqrt (by fun_prop) he0.ne'
  have dS : ContDiffAt ℝ N
      (fun x : Fin 6 → ℝ => Real.sqrt (x 0 * (1 - x 1 ^ 2 - x 2 ^ 2) / A.mu)) A.oe :=
    ContDiffAt.sqrt (by fun_prop) (by positivity)
  match j with
  | 0 =>
    simp only [meeOedot, LyapArgs.withOe, Matrix.cons_val, Nat.cast_one, Nat.cast_ofNat, sqrt_real]
    fun_prop (disch := first | assumption | positivity)
  | 1 =>
    simp only [meeOedot, LyapArgs.withOe, Matrix.cons_val, Nat.cast_one, Nat.cast_ofNat, sqrt_real]
    exact contDiffAt_const.mul dS
  | 2 =>
    simp only [meeOedot, LyapArgs.withOe, Matrix.cons_val, Nat.cast_one, Nat.cast_ofNat, sqrt_real]
    exact contDiffAt_const.mul dS
  | 3 =>
    simp only [meeOedot, LyapArgs.withOe, Matrix.cons_val, Nat.cast_one, Nat.cast_ofNat, sqrt_real,
      rat_real]
    fun_prop (disch := first | assumption | positivity)
  | 4 =>
    simp only [meeOedot, LyapArgs.withOe, Matrix.cons_val, Nat.cast_one, Nat.cast_ofNat, sqrt_real,
      rat_real]
    fun_prop (disch := first | assumption | positivity)

theorem meeSoe_of {A : LyapArgs ℝ} (H : MeeSmooth A)
    (h : ContDiffAt ℝ N (fun x : Fin 6 → ℝ => (|x 0 - A.oeT 0| / (A.m * A.oeT 0)) ^ A.n) A.oe) :
    ContDiffAt ℝ N (fun x => meeSoe (A.withOe x)) A.oe := by
  have hd : 0 < A.m * A.oeT 0 := mul_pos H.m H.aT
  simp only [meeSoe, LyapArgs.withOe, rpow_real, sqrt_real, Nat.cast_one, Real.sqrt_sq_eq_abs]
  have hpos : 0 < 1 + (|A.oe 0 - A.oeT 0| / (A.m * A.oeT 0)) ^ A.n := by
    have : 0 ≤ (|A.oe 0 - A.oeT 0| / (A.m * A.oeT 0)) ^ A.n := by positivity
    linarith
  exact ContDiffAt.rpow_const_of_ne (contDiffAt_const.add h) hpos.ne'

theorem meeSoe_off {A : LyapArgs ℝ} (H : MeeSmooth A) (h : A.oe 0 ≠ A.oeT 0) :
    ContDiffAt ℝ N (fun x => meeSoe (A.withOe x)) A.oe := by
  refine meeSoe_of H ?_
  have hd : 0 < A.m * A.oeT 0 := mul_pos H.m H.aT
  have hne : A.oe 0 - A.oeT 0 ≠ 0 := sub_ne_zero.2 h
  have := abs_pos.2 hne
  have dA : ContDiffAt ℝ N (fun x : Fin 6 → ℝ => |x 0 - A.oeT 0|) A.oe :=
    ContDiffAt.comp (g := fun s : ℝ => |s|) (f := fun x : Fin 6 → ℝ => x 0 - A.oeT 0)
      A.oe (contDiffAt_abs hne) (by fun_prop)
  exact ContDiffAt.rpow_const_of_ne (by fun_prop) (by positivity)

theorem meeSoe_even {A : LyapArgs ℝ} (H : MeeSmooth A) {j : ℕ} (h : A.n = 2 * j) :
    ContDiffAt ℝ N (fun x => meeSoe (A.withOe x)) A.oe := by
  refine meeSoe_of H ?_
  rw [h, show ((2 : ℝ) * (j : ℝ)) = ((2 * j : ℕ) : ℝ) by push_cast; ring]
  simp only [Real.rpow_natCast, pow_mul, div_pow, sq_abs]
  fun_prop

theorem meeSoe_c1 {A : LyapArgs ℝ} (H : MeeSmooth A) :
    ContDiffAt ℝ 1 (fun x => meeSoe (A.withOe x)) A.oe := by
  rcases H.sma with h | h
  · exact meeSoe_off (N := 1) H h
  · refine meeSoe_of H ?_
    have hd : 0 < A.m * A.oeT 0 := mul_pos H.m H.aT
    have e : (fun x : Fin 6 → ℝ => (|x 0 - A.oeT 0| / (A.m * A.oeT 0)) ^ A.n) =
        fun x => |x 0 - A.oeT 0| ^ A.n / (A.m * A.oeT 0) ^ A.n := by
      funext x; rw [Real.div_rpow (abs_nonneg _) hd.le]
    rw [e]
    have dA : ContDiffAt ℝ 1 (fun x : Fin 6 → ℝ => |x 0 - A.oeT 0| ^ A.n) A.oe :=
      ContDiffAt.comp (g := fun s : ℝ => |s| ^ A.n)
        (f := fun x : Fin 6 → ℝ => x 0 - A.oeT 0) A.oe
        (by simpa [Real.norm_eq_abs] using (contDiff_norm_rpow (E := ℝ) h).contDiffAt) (by fun_prop)
    fun_prop

/-- the MEE `Q` is smooth (jointly, in the elements) on `MeeSmooth`,
if the factor of the semi-major axis is -/
theorem meeQ_smooth (A : LyapArgs ℝ) (H : MeeSmooth A)
    (hS : ContDiffAt ℝ N (fun x => meeSoe (A.withOe x)) A.oe) :
    ContDiffAt ℝ N (fun x => meeQ (A.withOe x)) A.oe := by
  have e : (fun x => meeQ (A.withOe x)) =
      fun x => meeQ (({ A with f := |A.f| } : LyapArgs ℝ).withOe x) := by
    funext x; exact (meeQ_neg (A.withOe x)).symm
  rw [e]
  obtain ⟨B, hB⟩ : ∃ B : LyapArgs ℝ, B = { A with f := |A.f| } := ⟨_, rfl⟩
  have HB : MeeEllipse B := hB ▸ ⟨H.mu, abs_pos.2 H.f, H.a, H.ecc⟩
  have HS : MeeSmooth B := by
    subst hB
    exact ⟨H.mu, (abs_pos.2 H.f).ne', H.a, H.ecc0, H.ecc, H.aT, H.m, H.rpmin, H.sma⟩
  have hS' : ContDiffAt ℝ N (fun x => meeSoe (B.withOe x)) B.oe := by subst hB; exact hS
  rw [← hB, show A.oe = B.oe by rw [hB]]
  have d := meeOedot_smooth (N := N) HB HS.ecc0
  have pos := fun j => (meeOedot_pos HB j).ne'
  have dP : ContDiffAt ℝ N (fun x => meePenalty (B.withOe x)) B.oe := by
    have dE : ContDiffAt ℝ N (fun x : Fin 6 → ℝ => Real.sqrt (x 1 ^ 2 + x 2 ^ 2)) B.oe :=
      ContDiffAt.sqrt (by fun_prop) HS.ecc0.ne'
    simp only [meePenalty, LyapArgs.withOe, Nat.cast_one, exp_real, sqrt_real]
    fun_prop
  simp only [meeQ]
  refine ContDiffAt.mul (contDiffAt_const.add (contDiffAt_const.mul dP))
    (ContDiffAt.add (ContDiffAt.add (ContDiffAt.add
      (ContDiffAt.add
      (term_smooth (Or.inr ⟨hS', ?_, d 0, pos 0⟩))
      (term_smooth (Or.inr ⟨by fun_prop, ?_, d 1, pos 1⟩)))
      (term_smooth (Or.inr ⟨by fun_prop, ?_, d 2, pos 2⟩)))
      (term_smooth (Or.inr ⟨by fun_prop, ?_, d 3, pos 3⟩)))
      (term_smooth (Or.inr ⟨by fun_prop, ?_, d 4, pos 4⟩))) <;>
  · simp only [meeDoe, LyapArgs.withOe, Matrix.cons_val]; fun_prop

theorem kepQ_c1 (A : LyapArgs ℝ) (H : KepSmooth A) :
    ContDiffAt ℝ 1 (fun x => kepQ (A.withOe x)) A.oe := kepQ_smooth (N := 1) A H

theorem meeQ_c1 (A : LyapArgs ℝ) (H : MeeSmooth A) :
    ContDiffAt ℝ 1 (fun x => meeQ (A.withOe x)) A.oe := meeQ_smooth (N := 1) A H (meeSoe_c1 H)

end PyQ
