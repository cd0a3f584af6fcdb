import Mathlib.Analysis.Calculus.MeanValue
import Mathlib.Analysis.Calculus.Deriv.Inv
import Mathlib.Analysis.Calculus.Deriv.Pow
import Mathlib.Tactic.FieldSimp
import Mathlib.Tactic.Ring
import Mathlib.Tactic.Linarith
import Mathlib.Tactic.Positivity

/-! # The classical Runge-Kutta step on a scalar equation

For `x' = g x` with `g` bounded away from zero and four bounded derivatives, a step of length `h` changes the
time of flight `τ`, an antiderivative of `1/g`, by `h` up to an error of order `h ^ 5`, uniformly in the
starting point. -/

namespace PyQ

/-! ## Bounded functions and expansions in the step length -/

/-- bounded for steps of length at most one -/
def Bdd (c : ℝ → ℝ → ℝ) : Prop := ∃ C, ∀ x h, |h| ≤ 1 → |c x h| ≤ C

theorem Bdd.add {a b : ℝ → ℝ → ℝ} (ha : Bdd a) (hb : Bdd b) : Bdd fun x h => a x h + b x h := by
  obtain ⟨A, hA⟩ := ha
  obtain ⟨B, hB⟩ := hb
  exact ⟨A + B, fun x h hh => (abs_add_le _ _).trans (add_le_add (hA x h hh) (hB x h hh))⟩

theorem Bdd.mul {a b : ℝ → ℝ → ℝ} (ha : Bdd a) (hb : Bdd b) : Bdd fun x h => a x h * b x h := by
  obtain ⟨A, hA⟩ := ha
  obtain ⟨B, hB⟩ := hb
  refine ⟨A * B, fun x h hh => ?_⟩
  rw [abs_mul]
  exact mul_le_mul (hA x h hh) (hB x h hh) (abs_nonneg _) ((abs_nonneg _).trans (hA x h hh))

theorem Bdd.neg {a : ℝ → ℝ → ℝ} (ha : Bdd a) : Bdd fun x h => -a x h := by
  obtain ⟨A, hA⟩ := ha
  exact ⟨A, fun x h hh => by rw [abs_neg]; exact hA x h hh⟩

theorem Bdd.sub {a b : ℝ → ℝ → ℝ} (ha : Bdd a) (hb : Bdd b) : Bdd fun x h => a x h - b x h := by
  simpa only [sub_eq_add_neg] using ha.add hb.neg

theorem Bdd.const (c : ℝ) : Bdd fun _ _ => c := ⟨|c|, fun _ _ _ => le_rfl⟩

theorem Bdd.step : Bdd fun _ h => h := ⟨1, fun _ _ hh => hh⟩

theorem Bdd.pow {a : ℝ → ℝ → ℝ} (ha : Bdd a) (n : ℕ) : Bdd fun x h => a x h ^ n := by
  induction n with
  | zero => simpa only [pow_zero] using Bdd.const 1
  | succ n ih => simpa only [pow_succ] using ih.mul ha

theorem Bdd.div {a : ℝ → ℝ → ℝ} (ha : Bdd a) (c : ℝ) : Bdd fun x h => a x h / c := by
  simpa only [div_eq_mul_inv] using ha.mul (Bdd.const c⁻¹)

/-- closes goals `Bdd (polynomial in bounded functions)` -/
macro "bdd" : tactic => `(tactic| repeat' first
  | assumption | exact Bdd.const _ | exact Bdd.step | apply Bdd.add | apply Bdd.sub | apply Bdd.mul
  | apply Bdd.neg | apply Bdd.pow | apply Bdd.div)

/-- `u x h = a₀ + a₁ h + a₂ h² + a₃ h³ + O(h⁴)` with bounded coefficients, uniformly in `x` -/
structure Jet (u : ℝ → ℝ → ℝ) (a0 a1 a2 a3 : ℝ → ℝ) : Prop where
  b0 : Bdd fun x _ => a0 x
  b1 : Bdd fun x _ => a1 x
  b2 : Bdd fun x _ => a2 x
  b3 : Bdd fun x _ => a3 x
  rest : ∃ c, Bdd c ∧ ∀ x h, |h| ≤ 1 → u x h = a0 x + a1 x * h + a2 x * h ^ 2 + a3 x * h ^ 3 + c x h * h ^ 4

theorem Jet.add {u v : ℝ → ℝ → ℝ} {a0 a1 a2 a3 b0 b1 b2 b3 : ℝ → ℝ} (hu : Jet u a0 a1 a2 a3)
    (hv : Jet v b0 b1 b2 b3) : Jet (fun x h => u x h + v x h) (fun x => a0 x + b0 x)
      (fun x => a1 x + b1 x) (fun x => a2 x + b2 x) (fun x => a3 x + b3 x) := by
  obtain ⟨p0, p1, p2, p3, c, hc, ec⟩ := hu
  obtain ⟨q0, q1, q2, q3, d, hd, ed⟩ := hv
  refine ⟨p0.add q0, p1.add q1, p2.add q2, p3.add q3, fun x h => c x h + d x h, hc.add hd, ?_⟩
  intro x h hh
  simp only [ec x h hh, ed x h hh]
  ring

theorem Jet.smul {u : ℝ → ℝ → ℝ} {a0 a1 a2 a3 : ℝ → ℝ} (hu : Jet u a0 a1 a2 a3) (k : ℝ) :
    Jet (fun x h => k * u x h) (fun x => k * a0 x) (fun x => k * a1 x) (fun x => k * a2 x)
      (fun x => k * a3 x) := by
  obtain ⟨p0, p1, p2, p3, c, hc, ec⟩ := hu
  refine ⟨(Bdd.const k).mul p0, (Bdd.const k).mul p1, (Bdd.const k).mul p2, (Bdd.const k).mul p3,
    fun x h => k * c x h, (Bdd.const k).mul hc, ?_⟩
  intro x h hh
  simp only [ec x h hh]
  ring

theorem Jet.bdd {u : ℝ → ℝ → ℝ} {a0 a1 a2 a3 : ℝ → ℝ} (hu : Jet u a0 a1 a2 a3) : Bdd u := by
  obtain ⟨p0, p1, p2, p3, c, hc, ec⟩ := hu
  have : Bdd fun x h => a0 x + a1 x * h + a2 x * h ^ 2 + a3 x * h ^ 3 + c x h * h ^ 4 := by bdd
  obtain ⟨C, hC⟩ := this
  exact ⟨C, fun x h hh => by rw [ec x h hh]; exact hC x h hh⟩

/-! ## Taylor expansion with a uniform remainder -/

theorem growth {u u' : ℝ → ℝ} {B : ℝ} {k : ℕ} (hB : 0 ≤ B) (hu : ∀ s, HasDerivAt u (u' s) s)
    (h0 : u 0 = 0) (hb : ∀ s, |u' s| ≤ B * |s| ^ k) (s : ℝ) : |u s| ≤ B * |s| ^ (k + 1) := by
  have hseg : ∀ r ∈ Set.uIcc 0 s, |r| ≤ |s| := by
    intro r hr
    have := Set.abs_sub_left_of_mem_uIcc hr
    simpa using this
  have := Convex.norm_image_sub_le_of_norm_hasDerivWithin_le (f := u) (f' := u') (s := Set.uIcc 0 s)
    (C := B * |s| ^ k) (fun r _ => (hu r).hasDerivWithinAt)
    (fun r hr => (hb r).trans (mul_le_mul_of_nonneg_left
      (pow_le_pow_left₀ (abs_nonneg _) (hseg r hr) k) hB))
    (convex_uIcc 0 s) Set.left_mem_uIcc Set.right_mem_uIcc
  rw [h0, sub_zero, sub_zero, Real.norm_eq_abs, Real.norm_eq_abs] at this
  rw [pow_succ, ← mul_assoc]
  exact this

theorem shifted {f f1 : ℝ → ℝ} (h : ∀ x, HasDerivAt f (f1 x) x) (x s : ℝ) :
    HasDerivAt (fun s => f (x + s)) (f1 (x + s)) s := by
  have := (h (x + s)).comp s ((hasDerivAt_id s).const_add x)
  rw [mul_one] at this
  exact this

theorem taylor4 {f f1 f2 f3 f4 : ℝ → ℝ} {B : ℝ} (h0 : ∀ x, HasDerivAt f (f1 x) x)
    (h1 : ∀ x, HasDerivAt f1 (f2 x) x) (h2 : ∀ x, HasDerivAt f2 (f3 x) x)
    (h3 : ∀ x, HasDerivAt f3 (f4 x) x) (hB : ∀ x, |f4 x| ≤ B) (x s : ℝ) :
    |f (x + s) - (f x + f1 x * s + f2 x * s ^ 2 / 2 + f3 x * s ^ 3 / 6)| ≤ B * |s| ^ 4 := by
  have hB0 : 0 ≤ B := (abs_nonneg _).trans (hB x)
  have e3 : ∀ s, |f3 (x + s) - f3 x| ≤ B * |s| ^ 1 := fun s =>
    growth (u := fun s => f3 (x + s) - f3 x) (k := 0) hB0
      (fun s => (shifted h3 x s).sub_const _) (by simp) (fun s => by simpa using hB (x + s)) s
  have e2 : ∀ s, |f2 (x + s) - (f2 x + f3 x * s)| ≤ B * |s| ^ 2 := fun s =>
    growth (u := fun s => f2 (x + s) - (f2 x + f3 x * s)) (k := 1) hB0
      (fun s => by
        have := (shifted h2 x s).sub (((hasDerivAt_id s).const_mul (f3 x)).const_add (f2 x))
        exact this.congr_deriv (by ring)) (by simp) e3 s
  have e1 : ∀ s, |f1 (x + s) - (f1 x + f2 x * s + f3 x * s ^ 2 / 2)| ≤ B * |s| ^ 3 := fun s =>
    growth (u := fun s => f1 (x + s) - (f1 x + f2 x * s + f3 x * s ^ 2 / 2)) (k := 2) hB0
      (fun s => by
        have := (shifted h1 x s).sub ((((hasDerivAt_id s).const_mul (f2 x)).const_add (f1 x)).add
          (((hasDerivAt_pow 2 s).const_mul (f3 x)).div_const 2))
        exact this.congr_deriv (by norm_num; ring)) (by simp) e2 s
  exact growth (u := fun s => f (x + s) - (f x + f1 x * s + f2 x * s ^ 2 / 2 + f3 x * s ^ 3 / 6)) (k := 3) hB0
      (fun s => by
        have := (shifted h0 x s).sub (((((hasDerivAt_id s).const_mul (f1 x)).const_add (f x)).add
          (((hasDerivAt_pow 2 s).const_mul (f2 x)).div_const 2)).add
          (((hasDerivAt_pow 3 s).const_mul (f3 x)).div_const 6))
        exact this.congr_deriv (by norm_num; ring)) (by simp) e1 s

theorem taylor5 {f f1 f2 f3 f4 f5 : ℝ → ℝ} {B : ℝ} (h0 : ∀ x, HasDerivAt f (f1 x) x)
    (h1 : ∀ x, HasDerivAt f1 (f2 x) x) (h2 : ∀ x, HasDerivAt f2 (f3 x) x)
    (h3 : ∀ x, HasDerivAt f3 (f4 x) x) (h4 : ∀ x, HasDerivAt f4 (f5 x) x) (hB : ∀ x, |f5 x| ≤ B)
    (x s : ℝ) :
    |f (x + s) - (f x + f1 x * s + f2 x * s ^ 2 / 2 + f3 x * s ^ 3 / 6 + f4 x * s ^ 4 / 24)| ≤
      B * |s| ^ 5 := by
  have hB0 : 0 ≤ B := (abs_nonneg _).trans (hB x)
  have e1 := fun s => taylor4 h1 h2 h3 h4 hB x s
  exact growth (u := fun s => f (x + s) -
      (f x + f1 x * s + f2 x * s ^ 2 / 2 + f3 x * s ^ 3 / 6 + f4 x * s ^ 4 / 24)) (k := 4) hB0
      (fun s => by
        have := (shifted h0 x s).sub ((((((hasDerivAt_id s).const_mul (f1 x)).const_add (f x)).add
          (((hasDerivAt_pow 2 s).const_mul (f2 x)).div_const 2)).add
          (((hasDerivAt_pow 3 s).const_mul (f3 x)).div_const 6)).add
          (((hasDerivAt_pow 4 s).const_mul (f4 x)).div_const 24))
        exact this.congr_deriv (by norm_num; ring)) (by simp) e1 s

/-- the remainder as a bounded factor -/
theorem remainder {u : ℝ → ℝ → ℝ} {B : ℝ} {n : ℕ} (hn : n ≠ 0) (h : ∀ x s, |u x s| ≤ B * |s| ^ n) :
    ∃ r : ℝ → ℝ → ℝ, (∀ x s, |r x s| ≤ |B|) ∧ ∀ x s, u x s = r x s * s ^ n := by
  refine ⟨fun x s => if s = 0 then 0 else u x s / s ^ n, ?_, ?_⟩
  · intro x s
    by_cases hs : s = 0
    · simp [hs]
    · simp only [if_neg hs, abs_div, abs_pow]
      have hp : 0 < |s| ^ n := by positivity
      rw [div_le_iff₀ hp]
      exact (h x s).trans (mul_le_mul_of_nonneg_right (le_abs_self B) hp.le)
  · intro x s
    by_cases hs : s = 0
    · have := h x s
      simp only [hs, abs_zero, zero_pow hn, mul_zero] at this
      simp only [hs, if_true, zero_mul]
      exact abs_nonpos_iff.1 this
    · simp only [if_neg hs]
      have : s ^ n ≠ 0 := pow_ne_zero _ hs
      field_simp

/-- a function of the start moved by `h` times an expansion -/
theorem Jet.comp {f f1 f2 f3 f4 : ℝ → ℝ} {B : ℝ} (h0 : ∀ x, HasDerivAt f (f1 x) x)
    (h1 : ∀ x, HasDerivAt f1 (f2 x) x) (h2 : ∀ x, HasDerivAt f2 (f3 x) x)
    (h3 : ∀ x, HasDerivAt f3 (f4 x) x) (hB : ∀ x, |f4 x| ≤ B) (p0 : Bdd fun x _ => f x)
    (p1 : Bdd fun x _ => f1 x) (p2 : Bdd fun x _ => f2 x) (p3 : Bdd fun x _ => f3 x)
    {w : ℝ → ℝ → ℝ} {a0 a1 a2 a3 : ℝ → ℝ} (hw : Jet w a0 a1 a2 a3) :
    Jet (fun x h => f (x + h * w x h)) f (fun x => f1 x * a0 x)
      (fun x => f1 x * a1 x + f2 x * a0 x ^ 2 / 2)
      (fun x => f1 x * a2 x + f2 x * (a0 x * a1 x) + f3 x * a0 x ^ 3 / 6) := by
  obtain ⟨r, hr, er⟩ := remainder (n := 4) (by norm_num) (taylor4 h0 h1 h2 h3 hB)
  have hwb := hw.bdd
  obtain ⟨q0, q1, q2, q3, c, hc, ec⟩ := hw
  have hrb : Bdd fun x h => r x (h * w x h) := ⟨|B|, fun x h _ => hr x _⟩
  refine ⟨p0, by bdd, by bdd, by bdd, fun x h =>
    f1 x * (a3 x + c x h * h) +
    f2 x / 2 * (2 * a0 x * (a2 x + (a3 x + c x h * h) * h) +
      (a1 x + a2 x * h + (a3 x + c x h * h) * h ^ 2) ^ 2) +
    f3 x / 6 * (3 * a0 x ^ 2 * (a1 x + a2 x * h + (a3 x + c x h * h) * h ^ 2) +
      3 * a0 x * h * (a1 x + a2 x * h + (a3 x + c x h * h) * h ^ 2) ^ 2 +
      h ^ 2 * (a1 x + a2 x * h + (a3 x + c x h * h) * h ^ 2) ^ 3) +
    r x (h * w x h) * w x h ^ 4, by bdd, ?_⟩
  intro x h hh
  beta_reduce
  have e := er x (h * w x h)
  have e' : f (x + h * w x h) = f x + f1 x * (h * w x h) + f2 x * (h * w x h) ^ 2 / 2 +
      f3 x * (h * w x h) ^ 3 / 6 + r x (h * w x h) * (h * w x h) ^ 4 := by linarith
  rw [e']
  generalize r x (h * w x h) = R
  rw [ec x h hh]
  ring

/-! ## The step -/

/-- one classical Runge-Kutta step of length `h` for `x' = g x` -/
noncomputable def rkScalar (g : ℝ → ℝ) (x h : ℝ) : ℝ :=
  let k1 := g x
  let k2 := g (x + h / 2 * k1)
  let k3 := g (x + h / 2 * k2)
  let k4 := g (x + h * k3)
  x + h / 6 * (k1 + 2 * k2 + 2 * k3 + k4)

/-- `g` with four derivatives, all bounded, `g` bounded away from zero -/
structure Rate (g g1 g2 g3 g4 : ℝ → ℝ) : Prop where
  d0 : ∀ x, HasDerivAt g (g1 x) x
  d1 : ∀ x, HasDerivAt g1 (g2 x) x
  d2 : ∀ x, HasDerivAt g2 (g3 x) x
  d3 : ∀ x, HasDerivAt g3 (g4 x) x
  bound : ∃ B, ∀ x, |g x| ≤ B ∧ |g1 x| ≤ B ∧ |g2 x| ≤ B ∧ |g3 x| ≤ B ∧ |g4 x| ≤ B
  below : ∃ c > 0, ∀ x, c ≤ g x

theorem rk_order {g g1 g2 g3 g4 τ : ℝ → ℝ} (H : Rate g g1 g2 g3 g4)
    (hτ : ∀ x, HasDerivAt τ (1 / g x) x) :
    ∃ C, 0 ≤ C ∧ ∀ x h, |h| ≤ 1 → |τ (rkScalar g x h) - τ x - h| ≤ C * |h| ^ 5 := by
  obtain ⟨B, hB⟩ := H.bound
  obtain ⟨c0, hc0, hc⟩ := H.below
  have hg : ∀ x, g x ≠ 0 := fun x => (hc0.trans_le (hc x)).ne'
  have b0 : Bdd fun x _ => g x := ⟨B, fun x _ _ => (hB x).1⟩
  have b1 : Bdd fun x _ => g1 x := ⟨B, fun x _ _ => (hB x).2.1⟩
  have b2 : Bdd fun x _ => g2 x := ⟨B, fun x _ _ => (hB x).2.2.1⟩
  have b3 : Bdd fun x _ => g3 x := ⟨B, fun x _ _ => (hB x).2.2.2.1⟩
  have b4 : Bdd fun x _ => g4 x := ⟨B, fun x _ _ => (hB x).2.2.2.2⟩
  have bi : Bdd fun x _ => (g x)⁻¹ := ⟨c0⁻¹, fun x _ _ => by
    have hp : 0 < g x := hc0.trans_le (hc x)
    rw [abs_of_pos (by positivity)]
    exact inv_anti₀ hc0 (hc x)⟩
  -- the stages
  have j1 : Jet (fun x _ => g x) g (fun _ => 0) (fun _ => 0) (fun _ => 0) :=
    ⟨b0, by bdd, by bdd, by bdd, fun _ _ => 0, by bdd, fun x h _ => by ring⟩
  have j2 := Jet.comp H.d0 H.d1 H.d2 H.d3 (fun x => (hB x).2.2.2.2) b0 b1 b2 b3 (j1.smul (1 / 2))
  have j3 := Jet.comp H.d0 H.d1 H.d2 H.d3 (fun x => (hB x).2.2.2.2) b0 b1 b2 b3 (j2.smul (1 / 2))
  have j4 := Jet.comp H.d0 H.d1 H.d2 H.d3 (fun x => (hB x).2.2.2.2) b0 b1 b2 b3 j3
  have jw := (((j1.add (j2.smul 2)).add (j3.smul 2)).add j4).smul (1 / 6)
  -- derivatives of the time of flight
  let m1 : ℝ → ℝ := fun x => 1 / g x
  let m2 : ℝ → ℝ := fun x => -g1 x / g x ^ 2
  let m3 : ℝ → ℝ := fun x => -g2 x / g x ^ 2 + 2 * g1 x ^ 2 / g x ^ 3
  let m4 : ℝ → ℝ := fun x => -g3 x / g x ^ 2 + 6 * g1 x * g2 x / g x ^ 3 - 6 * g1 x ^ 3 / g x ^ 4
  let m5 : ℝ → ℝ := fun x => -g4 x / g x ^ 2 + (8 * g1 x * g3 x + 6 * g2 x ^ 2) / g x ^ 3 -
    36 * g1 x ^ 2 * g2 x / g x ^ 4 + 24 * g1 x ^ 4 / g x ^ 5
  have d1 : ∀ x, HasDerivAt m1 (m2 x) x := fun x => by
    have := (hasDerivAt_const x (1 : ℝ)).div (H.d0 x) (hg x)
    exact this.congr_deriv (by simp only [m2]; ring)
  have pw : ∀ (n : ℕ) x, HasDerivAt (fun x => g x ^ n) (n * g x ^ (n - 1) * g1 x) x :=
    fun n x => (H.d0 x).pow n
  have d2 : ∀ x, HasDerivAt m2 (m3 x) x := fun x => by
    have := (H.d1 x).neg.div (pw 2 x) (pow_ne_zero 2 (hg x))
    refine this.congr_deriv ?_
    have := hg x
    simp only [m3, Pi.neg_apply]
    norm_num
    field_simp
  have d3 : ∀ x, HasDerivAt m3 (m4 x) x := fun x => by
    have := ((H.d2 x).neg.div (pw 2 x) (pow_ne_zero 2 (hg x))).add
      ((((H.d1 x).pow 2).const_mul 2).div (pw 3 x) (pow_ne_zero 3 (hg x)))
    refine this.congr_deriv ?_
    have := hg x
    simp only [m4, Pi.neg_apply, Pi.pow_apply]
    norm_num
    field_simp
    ring
  have d4 : ∀ x, HasDerivAt m4 (m5 x) x := fun x => by
    have := (((H.d3 x).neg.div (pw 2 x) (pow_ne_zero 2 (hg x))).add
      ((((H.d1 x).const_mul 6).mul (H.d2 x)).div (pw 3 x) (pow_ne_zero 3 (hg x)))).sub
      ((((H.d1 x).pow 3).const_mul 6).div (pw 4 x) (pow_ne_zero 4 (hg x)))
    refine this.congr_deriv ?_
    have := hg x
    simp only [m5, Pi.neg_apply, Pi.pow_apply]
    norm_num
    field_simp
    ring
  have q1 : Bdd fun x _ => m1 x := by
    simpa only [m1, div_eq_mul_inv, one_mul] using bi
  have q2 : Bdd fun x _ => m2 x := by
    have : Bdd fun x _ => -g1 x * (g x)⁻¹ ^ 2 := by bdd
    simpa only [m2, div_eq_mul_inv, inv_pow] using this
  have q3 : Bdd fun x _ => m3 x := by
    have : Bdd fun x _ => -g2 x * (g x)⁻¹ ^ 2 + 2 * g1 x ^ 2 * (g x)⁻¹ ^ 3 := by bdd
    simpa only [m3, div_eq_mul_inv, inv_pow] using this
  have q4 : Bdd fun x _ => m4 x := by
    have : Bdd fun x _ => -g3 x * (g x)⁻¹ ^ 2 + 6 * g1 x * g2 x * (g x)⁻¹ ^ 3 -
      6 * g1 x ^ 3 * (g x)⁻¹ ^ 4 := by bdd
    simpa only [m4, div_eq_mul_inv, inv_pow] using this
  have q5 : Bdd fun x _ => m5 x := by
    have : Bdd fun x _ => -g4 x * (g x)⁻¹ ^ 2 + (8 * g1 x * g3 x + 6 * g2 x ^ 2) * (g x)⁻¹ ^ 3 -
      36 * g1 x ^ 2 * g2 x * (g x)⁻¹ ^ 4 + 24 * g1 x ^ 4 * (g x)⁻¹ ^ 5 := by bdd
    simpa only [m5, div_eq_mul_inv, inv_pow] using this
  obtain ⟨M, hM⟩ := q5
  obtain ⟨r, hr, er⟩ := remainder (n := 5) (by norm_num)
    (taylor5 hτ d1 d2 d3 d4 (fun x => hM x 0 (by simp)))
  -- collect
  have key : ∀ {w : ℝ → ℝ → ℝ} {a0 a1 a2 a3 : ℝ → ℝ}, Jet w a0 a1 a2 a3 →
      (∀ x, m1 x * a0 x = 1) → (∀ x, m1 x * a1 x + m2 x * a0 x ^ 2 / 2 = 0) →
      (∀ x, m1 x * a2 x + m2 x * (a0 x * a1 x) + m3 x * a0 x ^ 3 / 6 = 0) →
      (∀ x, m1 x * a3 x + m2 x * (a0 x * a2 x + a1 x ^ 2 / 2) + m3 x * a0 x ^ 2 * a1 x / 2 +
        m4 x * a0 x ^ 4 / 24 = 0) →
      ∃ C, 0 ≤ C ∧ ∀ x h, |h| ≤ 1 → |τ (x + h * w x h) - τ x - h| ≤ C * |h| ^ 5 := by
    intro w a0 a1 a2 a3 hw z0 z1 z2 z3
    have hwb := hw.bdd
    obtain ⟨p0, p1, p2, p3, c, hcb, ec⟩ := hw
    have hrb : Bdd fun x h => r x (h * w x h) := ⟨|M|, fun x h _ => hr x _⟩
    let v : ℝ → ℝ → ℝ := fun x h => a1 x + a2 x * h + a3 x * h ^ 2 + c x h * h ^ 3
    have hv : Bdd v := by simp only [v]; bdd
    have hrest : Bdd fun x h =>
        m1 x * c x h +
        m2 x / 2 * (2 * a0 x * (a3 x + c x h * h) + 2 * a1 x * (a2 x + a3 x * h + c x h * h ^ 2) +
          h * (a2 x + a3 x * h + c x h * h ^ 2) ^ 2) +
        m3 x / 6 * (3 * a0 x ^ 2 * (a2 x + a3 x * h + c x h * h ^ 2) + 3 * a0 x * v x h ^ 2 +
          h * v x h ^ 3) +
        m4 x / 24 * (4 * a0 x ^ 3 * v x h + 6 * a0 x ^ 2 * h * v x h ^ 2 + 4 * a0 x * h ^ 2 * v x h ^ 3 +
          h ^ 3 * v x h ^ 4) +
        r x (h * w x h) * w x h ^ 5 := by bdd
    obtain ⟨C, hC⟩ := hrest
    refine ⟨|C|, abs_nonneg _, fun x h hh => ?_⟩
    have e := er x (h * w x h)
    have e' : τ (x + h * w x h) - τ x = m1 x * (h * w x h) + m2 x * (h * w x h) ^ 2 / 2 +
        m3 x * (h * w x h) ^ 3 / 6 + m4 x * (h * w x h) ^ 4 / 24 +
        r x (h * w x h) * (h * w x h) ^ 5 := by
      simp only [m1] at *
      linarith
    have e2 : τ (x + h * w x h) - τ x - h = (m1 x * c x h +
        m2 x / 2 * (2 * a0 x * (a3 x + c x h * h) + 2 * a1 x * (a2 x + a3 x * h + c x h * h ^ 2) +
          h * (a2 x + a3 x * h + c x h * h ^ 2) ^ 2) +
        m3 x / 6 * (3 * a0 x ^ 2 * (a2 x + a3 x * h + c x h * h ^ 2) + 3 * a0 x * v x h ^ 2 +
          h * v x h ^ 3) +
        m4 x / 24 * (4 * a0 x ^ 3 * v x h + 6 * a0 x ^ 2 * h * v x h ^ 2 + 4 * a0 x * h ^ 2 * v x h ^ 3 +
          h ^ 3 * v x h ^ 4) +
        r x (h * w x h) * w x h ^ 5) * h ^ 5 := by
      rw [e']
      generalize r x (h * w x h) = R
      rw [ec x h hh]
      simp only [v]
      have y0 := z0 x
      have y1 := z1 x
      have y2 := z2 x
      have y3 := z3 x
      generalize m1 x = n1 at *
      generalize m2 x = n2 at *
      generalize m3 x = n3 at *
      generalize m4 x = n4 at *
      linear_combination h * y0 + h ^ 2 * y1 + h ^ 3 * y2 + h ^ 4 * y3
    rw [e2, abs_mul, abs_pow]
    exact mul_le_mul_of_nonneg_right ((hC x h hh).trans (le_abs_self C)) (by positivity)
  obtain ⟨C, hC0, hC⟩ := key jw
    (fun x => by have := hg x; simp only [m1]; field_simp; ring)
    (fun x => by have := hg x; simp only [m1, m2]; field_simp; ring)
    (fun x => by have := hg x; simp only [m1, m2, m3]; field_simp; ring)
    (fun x => by have := hg x; simp only [m1, m2, m3, m4]; field_simp; ring)
  refine ⟨C, hC0, fun x h hh => ?_⟩
  have : rkScalar g x h = x + h * (1 / 6 * (g x + 2 * g (x + h * (1 / 2 * g x)) +
      2 * g (x + h * (1 / 2 * g (x + h * (1 / 2 * g x)))) +
      g (x + h * g (x + h * (1 / 2 * g (x + h * (1 / 2 * g x))))))) := by
    simp only [rkScalar]
    have e1 : ∀ y, h / 2 * y = h * (1 / 2 * y) := fun y => by ring
    simp only [e1]
    ring
  rw [this]
  exact hC x h hh

end PyQ
