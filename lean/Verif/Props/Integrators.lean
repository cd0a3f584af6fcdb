import Verif.Model.Integrate
import Verif.RealInst
import Mathlib.Data.Matrix.Mul
import Mathlib.Algebra.BigOperators.Fin
import Mathlib.Algebra.Order.BigOperators.Group.Finset
import Mathlib.LinearAlgebra.Matrix.Notation
import Mathlib.Algebra.Algebra.Rat
import Mathlib.Tactic.LinearCombination
import Mathlib.Tactic.Module
import Mathlib.Tactic.Positivity

/-! # C61, C62: the integrators, over the reals and in every dimension -/

set_option linter.unusedSectionVars false

namespace PyQ

variable {n : ℕ} {P : Type}

/-- the value of `rk4` when no stage raises -/
theorem rk4_ok (f : ℝ → (Fin n → ℝ) → Fin n → ℝ) (t h : ℝ) (y : Fin n → ℝ) (p : P) :
    rk4 (fun t y _ => .ok (f t y)) t h y p = .ok (
      let k1 := f t y
      let k2 := f (t + 1 / 2 * h) (fun i => y i + h * (1 / 2) * k1 i)
      let k3 := f (t + 1 / 2 * h) (fun i => y i + h * (1 / 2) * k2 i)
      let k4 := f (t + h) (fun i => y i + h * k3 i)
      fun i => y i + h / 6 * (k1 i + 2 * k2 i + 2 * k3 i + k4 i)) := by
  simp only [rk4, bind, Except.bind, pure, Except.pure, rat, Nat.cast_ofNat, Nat.cast_one]
  rfl

/-- C61: exact on `y' = c₀ + c₁ t + c₂ t² + c₃ t³` (each component its own polynomial). -/
theorem C61_exact_cubic (c0 c1 c2 c3 : Fin n → ℝ) (t h : ℝ) (y : Fin n → ℝ) (p : P) :
    rk4 (fun t _ _ => .ok (fun i => c0 i + c1 i * t + c2 i * t ^ 2 + c3 i * t ^ 3)) t h y p =
    .ok (fun i => y i +
      ((c0 i * (t + h) + c1 i * (t + h) ^ 2 / 2 + c2 i * (t + h) ^ 3 / 3 + c3 i * (t + h) ^ 4 / 4) -
       (c0 i * t + c1 i * t ^ 2 / 2 + c2 i * t ^ 3 / 3 + c3 i * t ^ 4 / 4))) := by
  rw [rk4_ok (fun t _ i => c0 i + c1 i * t + c2 i * t ^ 2 + c3 i * t ^ 3)]
  congr 1
  funext i
  dsimp only
  ring

/-- C61: on a linear system `y' = A y` one step multiplies by the degree-4 Taylor polynomial of
`exp (h A)`. -/
theorem C61_linear (A : Matrix (Fin n) (Fin n) ℝ) (t h : ℝ) (y : Fin n → ℝ) (p : P) :
    rk4 (fun _ y _ => .ok (A.mulVec y)) t h y p =
    .ok ((1 + h • A + (h ^ 2 / 2) • A ^ 2 + (h ^ 3 / 6) • A ^ 3 + (h ^ 4 / 24) • A ^ 4).mulVec y) := by
  rw [rk4_ok (fun _ y => A.mulVec y)]
  congr 1
  have e : ∀ (v w : Fin n → ℝ) (c : ℝ), (fun i => v i + c * w i) = v + c • w := by
    intro v w c; funext i; simp
  simp only [e, Matrix.mulVec_add, Matrix.mulVec_smul, Matrix.add_mulVec, Matrix.smul_mulVec,
    pow_succ, pow_zero, one_mul, Matrix.one_mulVec, ← Matrix.mulVec_mulVec]
  funext i
  simp only [Pi.add_apply, Pi.smul_apply, smul_eq_mul]
  ring

/-- C61: a zero step is the identity (whenever the right-hand side evaluates at all). -/
theorem C61_zero_step (rhs : ℝ → (Fin n → ℝ) → P → Except PyErr (Fin n → ℝ)) (t : ℝ)
    (y : Fin n → ℝ) (p : P) (k : Fin n → ℝ) (hk : rhs t y p = .ok k) :
    rk4 rhs t 0 y p = .ok y := by
  have e : ∀ k : Fin n → ℝ, vadd y (vsmul 0 k) = y := by
    intro k; funext i; simp [vadd, vsmul]
  simp only [rk4, mul_zero, zero_mul, add_zero, hk, bind, Except.bind, pure, Except.pure, e,
    zero_div]

/-- C61: equilibria are kept. -/
theorem C61_equilibrium (rhs : ℝ → (Fin n → ℝ) → P → Except PyErr (Fin n → ℝ)) (t h : ℝ)
    (y : Fin n → ℝ) (p : P) (hk : ∀ s, rhs s y p = .ok 0) :
    rk4 rhs t h y p = .ok y := by
  have e : ∀ c : ℝ, vadd y (vsmul c 0) = y := by
    intro k; funext i; simp [vadd, vsmul]
  simp only [rk4, hk, bind, Except.bind, pure, Except.pure, e]
  congr 1; funext i; simp [vadd, vsmul]

/-- C61: an affine change of variables `x = M y + b` (between spaces of any two dimensions) that maps
one right-hand side to the other maps the steps to each other, exceptions included. -/
theorem C61_affine {m : ℕ} (rhs : ℝ → (Fin n → ℝ) → P → Except PyErr (Fin n → ℝ))
    (rhs' : ℝ → (Fin m → ℝ) → P → Except PyErr (Fin m → ℝ)) (M : Matrix (Fin m) (Fin n) ℝ)
    (b : Fin m → ℝ) (p : P)
    (hrhs : ∀ t y, rhs' t (M.mulVec y + b) p = (rhs t y p).map M.mulVec)
    (t h : ℝ) (y : Fin n → ℝ) :
    rk4 rhs' t h (M.mulVec y + b) p = (rk4 rhs t h y p).map (fun z => M.mulVec z + b) := by
  have e : ∀ (c : ℝ) (k : Fin n → ℝ),
      vadd (M.mulVec y + b) (vsmul c (M.mulVec k)) = M.mulVec (vadd y (vsmul c k)) + b := by
    intro c k
    have : vadd y (vsmul c k) = y + c • k := by funext i; simp [vadd, vsmul]
    rw [this, Matrix.mulVec_add, Matrix.mulVec_smul]
    funext i; simp [vadd, vsmul]; ring
  have e2 : ∀ k1 k2 k3 k4 : Fin n → ℝ,
      vadd (vadd (vadd (M.mulVec k1) (vsmul 2 (M.mulVec k2))) (vsmul 2 (M.mulVec k3)))
        (M.mulVec k4) =
      M.mulVec (vadd (vadd (vadd k1 (vsmul 2 k2)) (vsmul 2 k3)) k4) := by
    intro k1 k2 k3 k4
    have : vadd (vadd (vadd k1 (vsmul 2 k2)) (vsmul 2 k3)) k4 =
        k1 + (2 : ℝ) • k2 + (2 : ℝ) • k3 + k4 := by funext i; simp [vadd, vsmul]
    rw [this]
    simp only [Matrix.mulVec_add, Matrix.mulVec_smul]
    funext i; simp [vadd, vsmul]
  simp only [rk4, hrhs, bind, Except.bind, pure, Except.pure, Nat.cast_ofNat]
  cases h1 : rhs t y p with
  | error x => rfl
  | ok k1 =>
    simp only [Except.map, e, hrhs]
    cases h2 : rhs (t + rat 1 2 * h) (vadd y (vsmul (h * rat 1 2) k1)) p with
    | error x => rfl
    | ok k2 =>
      simp only [Except.map, e, hrhs]
      cases h3 : rhs (t + rat 1 2 * h) (vadd y (vsmul (h * rat 1 2) k2)) p with
      | error x => rfl
      | ok k3 =>
        simp only [Except.map, e, hrhs]
        cases h4 : rhs (t + h) (vadd y (vsmul h k3)) p with
        | error x => rfl
        | ok k4 => simp only [e, e2]

/-- one step of the harmonic oscillator, `h = 1/2` -/
example : ∃ z, rk4 (fun _ y (_ : Unit) => .ok (Matrix.mulVec !![0, 1; -1, 0] y)) (0 : ℝ) (1 / 2)
    ![1, 0] () = .ok z ∧ z 0 = 1 - 1 / 8 + 1 / 384 := by
  refine ⟨_, C61_linear _ _ _ _ _, ?_⟩
  simp [pow_succ, Matrix.mulVec, dotProduct, Fin.sum_univ_two,
    Matrix.one_fin_two]
  norm_num

/-! ## C62 -/

theorem normN_eq (v : Fin n → ℝ) : normN v = Real.sqrt (∑ i, v i ^ 2) := by
  simp only [normN, sqrt_real, Nat.cast_zero]
  congr 1
  rw [← List.sum_eq_foldl, Fin.sum_univ_def]

theorem normN_eq_zero {v : Fin n → ℝ} : normN v = 0 ↔ v = 0 := by
  rw [normN_eq, Real.sqrt_eq_zero (Finset.sum_nonneg fun i _ => sq_nonneg _)]
  rw [Finset.sum_eq_zero_iff_of_nonneg (fun i _ => sq_nonneg _)]
  constructor
  · intro h; funext i; simpa using h i (Finset.mem_univ i)
  · rintro rfl i _; simp

/-- what `rkf45` does to `y' = c` -/
theorem rkf45_constant (c : Fin n → ℝ) (t h tol : ℝ) (y : Fin n → ℝ) (p : P) :
    rkf45 (fun _ _ _ => .ok c) t h y p tol =
      if h = 0 ∨ c = 0 then .error .zeroDivision else
        .ok (fun i => y i + (1 + 2197 / 5610168) * (h * c i),
          h * (84 / 100) * (tol / (|h| * (2197 / 5610168) * normN c)) ^ (1 / 4 : ℝ)) := by
  have hdiff : vsub
      (vadd (vsub (vadd (vadd (vadd y (vsmul (rat 16 135) (vsmul h c)))
        (vsmul (rat 6656 12825) (vsmul h c))) (vsmul (rat 28561 56430) (vsmul h c)))
        (vsmul (rat 9 50) (vsmul h c))) (vsmul (rat 2 55) (vsmul h c)))
      (vsub (vadd (vadd (vadd y (vsmul (rat 25 216) (vsmul h c))) (vsmul (rat 1408 2565) (vsmul h c)))
        (vsmul (rat 2197 4101) (vsmul h c))) (vsmul (rat 1 5) (vsmul h c))) =
      (-(h * (2197 / 5610168))) • c := by
    funext i
    simp [vsub, vadd, vsmul, rat]
    ring
  have hnorm : normN ((-(h * (2197 / 5610168))) • c) = |h| * (2197 / 5610168) * normN c := by
    rw [normN_eq, normN_eq]
    have : ∑ i, ((-(h * (2197 / 5610168))) • c) i ^ 2 =
        (|h| * (2197 / 5610168)) ^ 2 * ∑ i, c i ^ 2 := by
      rw [Finset.mul_sum]
      apply Finset.sum_congr rfl
      intro i _
      rw [mul_pow, sq_abs]
      simp only [Pi.smul_apply, smul_eq_mul]
      ring
    rw [this, Real.sqrt_mul (by positivity), Real.sqrt_sq (by positivity)]
  have hy : vsub (vadd (vadd (vadd y (vsmul (rat 25 216) (vsmul h c)))
      (vsmul (rat 1408 2565) (vsmul h c))) (vsmul (rat 2197 4101) (vsmul h c)))
      (vsmul (rat 1 5) (vsmul h c)) = fun i => y i + (1 + 2197 / 5610168) * (h * c i) := by
    funext i
    simp [vsub, vadd, vsmul, rat]
    ring
  simp only [rkf45, bind, Except.bind, pure, Except.pure]
  rw [hdiff, hnorm, hy]
  by_cases hz : h = 0 ∨ c = 0
  · rw [if_pos hz]
    have : |h| * (2197 / 5610168) * normN c = 0 := by
      rcases hz with rfl | rfl
      · simp
      · rw [normN_eq_zero.2 rfl]; simp
    rw [this, ndiv_zero_real]
  · rw [if_neg hz]
    push Not at hz
    have : |h| * (2197 / 5610168) * normN c ≠ 0 := by
      have h1 := abs_pos.2 hz.1
      have h2 : normN c ≠ 0 := fun e => hz.2 (normN_eq_zero.1 e)
      positivity
    rw [ndiv_real this]
    simp [rat]

/-- C62, what holds: for `y' = c` a returned step is right up to the relative error
`2197/5610168 < 0.04 %`, and the time step suggestion scales like the fourth root of the
tolerance over the (spurious) error. -/
theorem C62_constant_partial (c : Fin n → ℝ) (t h tol : ℝ) (y : Fin n → ℝ) (p : P) (hh : h ≠ 0)
    (hc : c ≠ 0) :
    ∃ hn, rkf45 (fun _ _ _ => .ok c) t h y p tol =
      .ok (fun i => y i + (1 + 2197 / 5610168) * (h * c i), hn) := by
  rw [rkf45_constant, if_neg (by tauto)]
  exact ⟨_, rfl⟩

/-- C62 is violated at every constant right-hand side, step and tolerance: the exact solution is
never returned. -/
theorem C62_violated (c : Fin n → ℝ) (t h tol : ℝ) (y : Fin n → ℝ) (p : P) :
    ¬ ∃ hn, rkf45 (fun _ _ _ => .ok c) t h y p tol = .ok (fun i => y i + h * c i, hn) := by
  rintro ⟨hn, e⟩
  rw [rkf45_constant] at e
  by_cases hz : h = 0 ∨ c = 0
  · rw [if_pos hz] at e; cases e
  · rw [if_neg hz] at e
    push Not at hz
    injection e with e
    injection e with e1 _
    apply hz.2
    funext i
    have := congrFun e1 i
    have h2 : h * c i = 0 := by linear_combination (5610168 / 2197) * this
    exact (mul_eq_zero.1 h2).resolve_left hz.1

/-- C62: standing still raises. -/
theorem C62_zero_error (t h tol : ℝ) (y : Fin n → ℝ) (p : P) :
    rkf45 (fun _ _ _ => .ok 0) t h y p tol = .error .zeroDivision := by
  rw [rkf45_constant, if_pos (Or.inr rfl)]

/-- C62: because the stages carry the factor `h` twice, on `y' = A y` the advanced state has no even
powers of `h` at all: the steps `h` and `-h` average to `y`, where the exact solutions (and any method
of order 2 or more) average to `y + h²/2 A² y + ...`. -/
theorem C62_no_second_order (A : Matrix (Fin n) (Fin n) ℝ) (t h tol : ℝ) (y : Fin n → ℝ) (p : P)
    (y1 y2 : Fin n → ℝ) (h1 h2 : ℝ)
    (e1 : rkf45 (fun _ y _ => .ok (A.mulVec y)) t h y p tol = .ok (y1, h1))
    (e2 : rkf45 (fun _ y _ => .ok (A.mulVec y)) t (-h) y p tol = .ok (y2, h2)) :
    ∀ i, y1 i + y2 i = 2 * y i := by
  simp only [rkf45, bind, Except.bind, pure, Except.pure] at e1 e2
  split at e1
  · cases e1
  split at e2
  · cases e2
  injection e1 with e1
  injection e1 with e1 _
  injection e2 with e2
  injection e2 with e2 _
  rw [← e1, ← e2]
  have kk : ∀ (c : ℝ) (v : Fin n → ℝ), vsmul (c * -h) (vsmul (-h) v) = vsmul (c * h) (vsmul h v) := by
    intro c v; funext i; simp only [vsmul]; ring
  simp only [kk]
  intro i
  simp only [vsub, vadd, vsmul]
  ring

/-- the hypotheses of `C62_no_second_order` are met by `y' = y`, `y = 1`, `h = ±1` -/
example : (∃ r, rkf45 (fun _ y (_ : Unit) => .ok (Matrix.mulVec !![1] y)) (0 : ℝ) 1 ![1] () 1 = .ok r) ∧
    ∃ r, rkf45 (fun _ y (_ : Unit) => .ok (Matrix.mulVec !![1] y)) (0 : ℝ) (-1) ![1] () 1 = .ok r := by
  constructor
  all_goals
    simp only [rkf45, bind, Except.bind, pure, Except.pure]
    rw [ndiv_real]
    · exact ⟨_, rfl⟩
    · rw [Ne, normN_eq_zero]
      intro e
      have := congrFun e 0
      simp [vsub, vadd, vsmul, rat, Matrix.mulVec, dotProduct] at this
      norm_num at this

/-! ## The tableaux, for every right-hand side -/

/-- nodes of Fehlberg's 4(5) method -/
noncomputable def fehlbergC : Fin 6 → ℝ := ![0, 1 / 4, 3 / 8, 12 / 13, 1, 1 / 2]

/-- coefficients of its stages -/
noncomputable def fehlbergA : Fin 6 → Fin 6 → ℝ :=
  ![![0, 0, 0, 0, 0, 0],
    ![1 / 4, 0, 0, 0, 0, 0],
    ![3 / 32, 9 / 32, 0, 0, 0, 0],
    ![1932 / 2197, -7200 / 2197, 7296 / 2197, 0, 0, 0],
    ![439 / 216, -8, 3680 / 513, -845 / 4104, 0, 0],
    ![-8 / 27, 2, -3544 / 2565, 1859 / 4104, -11 / 40, 0]]

/-- weights of the fourth-order solution -/
noncomputable def fehlbergB4 : Fin 6 → ℝ := ![25 / 216, 0, 1408 / 2565, 2197 / 4104, -1 / 5, 0]

/-- weights of the fifth-order solution -/
noncomputable def fehlbergB5 : Fin 6 → ℝ := ![16 / 135, 0, 6656 / 12825, 28561 / 56430, -9 / 50, 2 / 55]

/-- C62, for every right-hand side: a returned step of `rkf45` is the step of Fehlberg's method except that
the stages are displaced by `h²` instead of `h`, and that the weight of the fourth stage exceeds Fehlberg's
by `2197/5610168`. The proposed next step is `0.84 h (tol/ε)^(1/4)` with `ε` the norm of the difference of
the two solutions. -/
theorem C62_tableau_partial {rhs : ℝ → (Fin n → ℝ) → P → Except PyErr (Fin n → ℝ)} {t h tol : ℝ}
    {y : Fin n → ℝ} {p : P} {y' : Fin n → ℝ} {h' : ℝ} (e : rkf45 rhs t h y p tol = .ok (y', h')) :
    ∃ d : Fin 6 → Fin n → ℝ,
      (∀ i, rhs (t + fehlbergC i * h) (y + ∑ j, (h ^ 2 * fehlbergA i j) • d j) p = .ok (d i)) ∧
      y' = y + h • ∑ i, fehlbergB4 i • d i + (h * (2197 / 5610168)) • d 3 ∧
      ∃ ε, ε = Real.sqrt (∑ l, (y l + h * ∑ i, fehlbergB5 i * d i l - y' l) ^ 2) ∧ ε ≠ 0 ∧
        h' = 84 / 100 * h * (tol / ε) ^ (1 / 4 : ℝ) := by
  simp only [rkf45, bind, Except.bind, pure, Except.pure] at e
  split at e
  · cases e
  rename_i d1 e1
  split at e
  · cases e
  rename_i d2 e2
  split at e
  · cases e
  rename_i d3 e3
  split at e
  · cases e
  rename_i d4 e4
  split at e
  · cases e
  rename_i d5 e5
  split at e
  · cases e
  rename_i d6 e6
  split at e
  · cases e
  rename_i q eq
  injection e with e
  injection e with ey eh
  have key : ∀ {a a' : ℝ} {b b' : Fin n → ℝ}, a = a' → b = b' → rhs a b p = rhs a' b' p := by
    rintro a _ b _ rfl rfl; rfl
  have hn := eq
  have hε : normN (vsub (vadd (vsub (vadd (vadd (vadd y (vsmul (rat 16 135) (vsmul h d1)))
      (vsmul (rat 6656 12825) (vsmul h d3))) (vsmul (rat 28561 56430) (vsmul h d4)))
      (vsmul (rat 9 50) (vsmul h d5))) (vsmul (rat 2 55) (vsmul h d6))) y') ≠ 0 := by
    intro h0
    rw [ey, h0, ndiv_zero_real] at eq
    cases eq
  rw [ey, ndiv_real hε] at eq
  injection eq with eq
  refine ⟨![d1, d2, d3, d4, d5, d6], ?_, ?_, _, rfl, ?_, ?_⟩
  · intro i
    match i with
    | 0 =>
      refine (key ?_ ?_).trans e1
      · simp [fehlbergC]
      · funext l; simp [fehlbergA, Fin.sum_univ_succ]
    | 1 =>
      refine (key ?_ ?_).trans e2
      · simp [fehlbergC, rat]
      · funext l; simp [fehlbergA, Fin.sum_univ_succ, vadd, vsmul, rat]; ring
    | 2 =>
      refine (key ?_ ?_).trans e3
      · simp [fehlbergC, rat]
      · funext l; simp [fehlbergA, Fin.sum_univ_succ, vadd, vsmul, rat]; ring
    | 3 =>
      refine (key ?_ ?_).trans e4
      · simp [fehlbergC, rat]
      · funext l; simp [fehlbergA, Fin.sum_univ_succ, vadd, vsub, vsmul, rat]; ring
    | 4 =>
      refine (key ?_ ?_).trans e5
      · simp [fehlbergC]
      · funext l; simp [fehlbergA, Fin.sum_univ_succ, vadd, vsub, vsmul, rat]; ring
    | 5 =>
      refine (key ?_ ?_).trans e6
      · simp [fehlbergC, rat]
      · funext l; simp [fehlbergA, Fin.sum_univ_succ, vadd, vsub, vsmul, rat]; ring
  · rw [← ey]
    funext l
    simp [fehlbergB4, Fin.sum_univ_succ, vadd, vsub, vsmul, rat]
    ring
  all_goals
    have hs : Real.sqrt (∑ l, (y l + h * ∑ i, fehlbergB5 i * (![d1, d2, d3, d4, d5, d6] : Fin 6 → Fin n → ℝ) i l
        - y' l) ^ 2) = normN (vsub (vadd (vsub (vadd (vadd (vadd y (vsmul (rat 16 135) (vsmul h d1)))
      (vsmul (rat 6656 12825) (vsmul h d3))) (vsmul (rat 28561 56430) (vsmul h d4)))
      (vsmul (rat 9 50) (vsmul h d5))) (vsmul (rat 2 55) (vsmul h d6))) y') := by
      rw [normN_eq]
      congr 1
      refine Finset.sum_congr rfl fun l _ => ?_
      congr 1
      simp [fehlbergB5, Fin.sum_univ_succ, vadd, vsub, vsmul, rat]
      ring
    rw [hs]
  · exact hε
  · rw [← eh, ← eq]
    simp only [rpow_real, rat, Nat.cast_ofNat, Nat.cast_one]
    ring

/-- C61, for every right-hand side: a returned step of `rk4` is the step of the classical method. -/
theorem C61_tableau {rhs : ℝ → (Fin n → ℝ) → P → Except PyErr (Fin n → ℝ)} {t h : ℝ}
    {y : Fin n → ℝ} {p : P} {y' : Fin n → ℝ} (e : rk4 rhs t h y p = .ok y') :
    ∃ k : Fin 4 → Fin n → ℝ, rhs t y p = .ok (k 0) ∧
      rhs (t + h / 2) (y + (h / 2) • k 0) p = .ok (k 1) ∧
      rhs (t + h / 2) (y + (h / 2) • k 1) p = .ok (k 2) ∧
      rhs (t + h) (y + h • k 2) p = .ok (k 3) ∧
      y' = y + h • ((1 / 6 : ℝ) • k 0 + (1 / 3 : ℝ) • k 1 + (1 / 3 : ℝ) • k 2 + (1 / 6 : ℝ) • k 3) := by
  simp only [rk4, bind, Except.bind, pure, Except.pure] at e
  split at e
  · cases e
  rename_i d1 e1
  split at e
  · cases e
  rename_i d2 e2
  split at e
  · cases e
  rename_i d3 e3
  split at e
  · cases e
  rename_i d4 e4
  injection e with e
  have key : ∀ {a a' : ℝ} {b b' : Fin n → ℝ}, a = a' → b = b' → rhs a b p = rhs a' b' p := by
    rintro a _ b _ rfl rfl; rfl
  refine ⟨![d1, d2, d3, d4], e1, (key ?_ ?_).trans e2, (key ?_ ?_).trans e3, (key ?_ ?_).trans e4, ?_⟩
  · simp [rat]; ring
  · funext l
    simp only [vadd, vsmul, rat, Pi.add_apply, Pi.smul_apply, smul_eq_mul, Matrix.cons_val, Nat.cast_ofNat,
      Nat.cast_one]
    ring
  · simp [rat]; ring
  · funext l
    simp only [vadd, vsmul, rat, Pi.add_apply, Pi.smul_apply, smul_eq_mul, Matrix.cons_val, Nat.cast_ofNat,
      Nat.cast_one]
    ring
  · rfl
  · rfl
  · rw [← e]
    funext l
    simp [vadd, vsmul]
    ring

/-- the hypotheses of the two theorems are met by `y' = t`, `y = 1`, `h = 1` -/
example : (∃ r, rk4 (fun t _ (_ : Unit) => .ok ![t]) (0 : ℝ) 1 ![1] () = .ok r) ∧
    ∃ r, rkf45 (fun t _ (_ : Unit) => .ok ![t]) (0 : ℝ) 1 ![1] () 1 = .ok r := by
  constructor
  · exact ⟨_, rfl⟩
  · simp only [rkf45, bind, Except.bind, pure, Except.pure]
    rw [ndiv_real]
    · exact ⟨_, rfl⟩
    · rw [Ne, normN_eq_zero]
      intro e
      have := congrFun e 0
      simp [vsub, vadd, vsmul, rat] at this
      norm_num at this

end PyQ
