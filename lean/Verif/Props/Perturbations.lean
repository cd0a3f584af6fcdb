import Verif.Model.Perturbations
import Verif.Proofs.Vec3
import Mathlib.LinearAlgebra.Matrix.Determinant.Basic
import Mathlib.LinearAlgebra.Matrix.Notation
import Mathlib.LinearAlgebra.Matrix.NonsingularInverse
import Mathlib.Analysis.SpecialFunctions.Sqrt
import Mathlib.Analysis.Calculus.Deriv.Inv
import Mathlib.Analysis.Calculus.Deriv.Add
import Mathlib.Analysis.Calculus.Deriv.Mul
import Mathlib.Analysis.Calculus.Deriv.Pow

/-! # C63-C67: perturbing accelerations, over the reals -/

set_option linter.unusedSectionVars false

namespace PyQ

open Matrix

/-- the attraction of a third body minus the acceleration of the central body, written directly -/
noncomputable def thirdBodyDirect (r s : Fin 3 → ℝ) (mu3 : ℝ) : Fin 3 → ℝ := fun i =>
  -mu3 * ((r i - s i) / norm3 (vsub r s) ^ 3 + s i / norm3 s ^ 3)

/-- C63: Battin's form equals the direct formula. -/
theorem C63_third_body (r s : Fin 3 → ℝ) (mu3 : ℝ) (hs : s ≠ 0) (hrs : r ≠ s) :
    perturbationThirdBodyBattin r s mu3 = .ok (thirdBodyDirect r s mu3) := by
  have hd0 : vsub r s ≠ 0 := by
    intro h; apply hrs; ext i
    have := congrFun h i; simp only [vsub, Pi.zero_apply] at this; linarith
  have hs1 := norm3_pos hs
  have hd1 := norm3_pos hd0
  have hss : dot3 s s = norm3 s ^ 2 := (norm3_sq s).symm
  have hdd : Real.sqrt (dot3 (vsub r s) (vsub r s)) = norm3 (vsub r s) := (norm3_eq_sqrt _).symm
  have hd2 := norm3_sq (vsub r s)
  set S := norm3 s with hS
  set D := norm3 (vsub r s) with hD
  have hq : dot3 r (vsub r (vsmul 2 s)) = D ^ 2 - S ^ 2 := by
    rw [hd2, ← hss]; simp only [dot3, vsub, vsmul]; ring
  have hsq : Real.sqrt (1 + (D ^ 2 - S ^ 2) / S ^ 2) = D / S := by
    rw [show 1 + (D ^ 2 - S ^ 2) / S ^ 2 = (D / S) ^ 2 by field_simp; ring]
    exact Real.sqrt_sq (by positivity)
  simp only [perturbationThirdBodyBattin, Nat.cast_ofNat, Nat.cast_one, hq, hss, sqrt_real, hdd]
  rw [ndiv_real (by positivity)]
  simp only [bind, Except.bind, hsq]
  rw [ndiv_real (by positivity)]
  dsimp only
  rw [ndiv_real (by positivity)]
  simp only [pure, Except.pure]
  congr 1
  ext i
  simp only [vsmul, vadd, thirdBodyDirect]
  have hne : (1 : ℝ) + (D / S) ^ 3 ≠ 0 := by positivity
  have key : (D ^ 2 - S ^ 2) / S ^ 2 *
      ((3 + 3 * ((D ^ 2 - S ^ 2) / S ^ 2) + ((D ^ 2 - S ^ 2) / S ^ 2) ^ 2) / (1 + (D / S) ^ 3)) =
      (D / S) ^ 3 - 1 := by
    rw [mul_div_assoc', div_eq_iff hne]
    field_simp
    ring
  rw [key, ← hS, ← hD]
  field_simp
  ring

/-- the two divisions that fail: the third body at the central body, or at the spacecraft -/
theorem C63_singular (r s : Fin 3 → ℝ) (mu3 : ℝ) (h : s = 0 ∨ r = s) :
    perturbationThirdBodyBattin r s mu3 = .error .zeroDivision := by
  by_cases hs : s = 0
  · subst hs
    simp [perturbationThirdBodyBattin, dot3, ndiv_zero_real, bind, Except.bind]
  · have hrs : r = s := h.resolve_left hs
    subst hrs
    have hr1 := norm3_pos hs
    have h0 : dot3 (vsub r r) (vsub r r) = 0 := by simp [dot3, vsub]
    have hq : dot3 r (vsub r (vsmul 2 r)) = - norm3 r ^ 2 := by
      rw [norm3_sq]; simp only [dot3, vsub, vsmul]; ring
    simp only [perturbationThirdBodyBattin, Nat.cast_ofNat, Nat.cast_one, sqrt_real, h0, hq,
      ← norm3_sq r]
    rw [ndiv_real (by positivity)]
    simp only [bind, Except.bind]
    rw [show (-norm3 r ^ 2 / norm3 r ^ 2) = -1 by field_simp]
    rw [ndiv_real (by norm_num)]
    simp [ndiv_zero_real]

example : ∃ a, perturbationThirdBodyBattin ![1, 0, 0] ![0, 2, (0 : ℝ)] 3 = .ok a ∧
    a 1 = -(3 * ((-2) / norm3 (vsub ![1, 0, 0] ![0, 2, (0 : ℝ)]) ^ 3 + 2 / norm3 ![0, 2, (0 : ℝ)] ^ 3)) := by
  refine ⟨_, C63_third_body _ _ 3 ?_ ?_, ?_⟩
  · intro h; have := congrFun h 1; simp at this
  · intro h; have := congrFun h 0; simp at this
  · simp [thirdBodyDirect]

/-! ## C64 -/

/-- `T` is orthogonal -/
def Orthogonal3 (T : Fin 3 → Fin 3 → ℝ) : Prop := Matrix.of T * (Matrix.of T)ᵀ = 1

theorem Orthogonal3.dot {T : Fin 3 → Fin 3 → ℝ} (h : Orthogonal3 T) (v w : Fin 3 → ℝ) :
    dot3 (mulVec3 T v) (mulVec3 T w) = dot3 v w := by
  have h' : (Matrix.of T)ᵀ * Matrix.of T = 1 := mul_eq_one_comm.1 h
  have e : ∀ i j : Fin 3, T 0 i * T 0 j + T 1 i * T 1 j + T 2 i * T 2 j = if i = j then 1 else 0 := by
    intro i j
    have := congrFun (congrFun h' i) j
    simpa [Matrix.mul_apply, Fin.sum_univ_three, Matrix.one_apply] using this
  have e00 := e 0 0
  have e11 := e 1 1
  have e22 := e 2 2
  have e01 := e 0 1
  have e02 := e 0 2
  have e12 := e 1 2
  simp only [if_true, if_neg (by decide : ¬ (0 : Fin 3) = 1), if_neg (by decide : ¬ (0 : Fin 3) = 2),
    if_neg (by decide : ¬ (1 : Fin 3) = 2)] at e00 e11 e22 e01 e02 e12
  simp only [mulVec3, dot3]
  linear_combination v 0 * w 0 * e00 + v 1 * w 1 * e11 + v 2 * w 2 * e22 +
    (v 0 * w 1 + v 1 * w 0) * e01 + (v 0 * w 2 + v 2 * w 0) * e02 + (v 1 * w 2 + v 2 * w 1) * e12

theorem Orthogonal3.norm {T : Fin 3 → Fin 3 → ℝ} (h : Orthogonal3 T) (v : Fin 3 → ℝ) :
    norm3 (mulVec3 T v) = norm3 v := by
  rw [norm3_eq_sqrt, norm3_eq_sqrt, h.dot]

theorem Orthogonal3.transpose {T : Fin 3 → Fin 3 → ℝ} (h : Orthogonal3 T) :
    Orthogonal3 (transpose3 T) := by
  have h' : (Matrix.of T)ᵀ * Matrix.of T = 1 := mul_eq_one_comm.1 h
  exact h'

/-- the oblateness potential in principal axes, `-μ J2 Re²/(2 r³) (3 z²/r² - 1)` -/
noncomputable def j2Potential (mu J2 Re : ℝ) (x : Fin 3 → ℝ) : ℝ :=
  -(mu * J2 * Re ^ 2 / (2 * norm3 x ^ 3)) * (3 * (x 2 / norm3 x) ^ 2 - 1)

/-- `a` is the gradient of `U` at `x`: it gives the derivative in every direction -/
def IsGradient (U : (Fin 3 → ℝ) → ℝ) (x a : Fin 3 → ℝ) : Prop :=
  ∀ w : Fin 3 → ℝ, HasDerivAt (fun ε : ℝ => U (fun i => x i + ε * w i)) (dot3 a w) 0

theorem IsGradient.unique {U : (Fin 3 → ℝ) → ℝ} {x a b : Fin 3 → ℝ} (ha : IsGradient U x a)
    (hb : IsGradient U x b) : a = b := by
  have e : ∀ w, dot3 a w = dot3 b w := fun w => (ha w).unique (hb w)
  have e0 := e ![1, 0, 0]
  have e1 := e ![0, 1, 0]
  have e2 := e ![0, 0, 1]
  simp [dot3] at e0 e1 e2
  ext i; fin_cases i <;> assumption

/-- the acceleration a correct implementation returns -/
noncomputable def j2Exact (r : Fin 3 → ℝ) (T : Fin 3 → Fin 3 → ℝ) (mu J2 Re : ℝ) : Fin 3 → ℝ :=
  let x := mulVec3 T r
  let s := (x 2 / norm3 r) ^ 2
  mulVec3 (transpose3 T) (vsmul (-3 * mu * J2 * Re ^ 2 / (2 * norm3 r ^ 5))
    ![(1 - 5 * s) * x 0, (1 - 5 * s) * x 1, (3 - 5 * s) * x 2])

theorem dot3_transpose (T : Fin 3 → Fin 3 → ℝ) (a w : Fin 3 → ℝ) :
    dot3 (mulVec3 (transpose3 T) a) w = dot3 a (mulVec3 T w) := by
  simp only [dot3, mulVec3, transpose3]; ring

theorem hasDerivAt_j2 (k : ℝ) {n z : ℝ → ℝ} {n' z' : ℝ} (hn : HasDerivAt n n' 0)
    (hz : HasDerivAt z z' 0) (h0 : n 0 ≠ 0) :
    HasDerivAt (fun ε => -(k / (2 * n ε ^ 3)) * (3 * (z ε / n ε) ^ 2 - 1))
      (-(k / 2) * (6 * z 0 * z' / n 0 ^ 5 - 15 * z 0 ^ 2 * n' / n 0 ^ 6 + 3 * n' / n 0 ^ 4)) 0 := by
  have hA := ((hasDerivAt_const (0 : ℝ) k).div ((hn.pow 3).const_mul 2)
    (by simpa using h0)).neg
  have hB := ((((hz.div hn h0).pow 2).const_mul 3).sub_const 1)
  refine (hA.mul hB).congr_deriv ?_
  simp
  field_simp
  ring

/-- the reference formula is the gradient of the potential -/
theorem j2Exact_gradient (r : Fin 3 → ℝ) (T : Fin 3 → Fin 3 → ℝ) (mu J2 Re : ℝ)
    (hT : Orthogonal3 T) (hr : r ≠ 0) :
    IsGradient (fun x => j2Potential mu J2 Re (mulVec3 T x)) r (j2Exact r T mu J2 Re) := by
  intro w
  have hR := norm3_pos hr
  have hnorm : ∀ ε : ℝ, norm3 (mulVec3 T (fun i => r i + ε * w i)) =
      Real.sqrt (dot3 r r + 2 * ε * dot3 r w + ε ^ 2 * dot3 w w) := by
    intro ε
    rw [hT.norm, norm3_eq_sqrt]; congr 1; simp only [dot3]; ring
  have hz : ∀ ε : ℝ, mulVec3 T (fun i => r i + ε * w i) 2 = mulVec3 T r 2 + ε * mulVec3 T w 2 := by
    intro ε; simp only [mulVec3, dot3]; ring
  have hn : HasDerivAt (fun ε : ℝ => Real.sqrt (dot3 r r + 2 * ε * dot3 r w + ε ^ 2 * dot3 w w))
      (dot3 r w / norm3 r) 0 := by
    have h1 : HasDerivAt (fun ε : ℝ => dot3 r r + 2 * ε * dot3 r w + ε ^ 2 * dot3 w w)
        (2 * dot3 r w) 0 := by
      have a1 := ((hasDerivAt_id (0 : ℝ)).const_mul 2).mul_const (dot3 r w)
      have a2 := ((hasDerivAt_id (0 : ℝ)).pow 2).mul_const (dot3 w w)
      refine ((a1.const_add (dot3 r r)).add a2).congr_deriv ?_
      simp
    have := h1.sqrt (by
      rw [show dot3 r r + 2 * 0 * dot3 r w + 0 ^ 2 * dot3 w w = norm3 r ^ 2 by
        rw [norm3_sq]; ring]
      positivity)
    convert this using 1
    rw [show dot3 r r + 2 * 0 * dot3 r w + 0 ^ 2 * dot3 w w = dot3 r r by ring,
      ← norm3_eq_sqrt]
    field_simp
  have hzd : HasDerivAt (fun ε : ℝ => mulVec3 T r 2 + ε * mulVec3 T w 2) (mulVec3 T w 2) 0 := by
    have := ((hasDerivAt_id (0 : ℝ)).mul_const (mulVec3 T w 2)).const_add (mulVec3 T r 2)
    simpa using this
  have hn0 : Real.sqrt (dot3 r r + 2 * 0 * dot3 r w + 0 ^ 2 * dot3 w w) = norm3 r := by
    rw [norm3_eq_sqrt]; congr 1; ring
  have hne : Real.sqrt (dot3 r r + 2 * 0 * dot3 r w + 0 ^ 2 * dot3 w w) ≠ 0 := by
    rw [hn0]; exact hR.ne'
  have hU : (fun ε : ℝ => j2Potential mu J2 Re (mulVec3 T (fun i => r i + ε * w i))) =
      fun ε : ℝ => -(mu * J2 * Re ^ 2 /
        (2 * Real.sqrt (dot3 r r + 2 * ε * dot3 r w + ε ^ 2 * dot3 w w) ^ 3)) *
        (3 * ((mulVec3 T r 2 + ε * mulVec3 T w 2) /
          Real.sqrt (dot3 r r + 2 * ε * dot3 r w + ε ^ 2 * dot3 w w)) ^ 2 - 1) := by
    funext ε
    simp only [j2Potential, hnorm, hz]
  rw [hU]
  refine (hasDerivAt_j2 (mu * J2 * Re ^ 2) hn hzd hne).congr_deriv ?_
  rw [j2Exact]
  simp only [dot3_transpose, hn0]
  have hdot : dot3 r w = dot3 (mulVec3 T r) (mulVec3 T w) := (hT.dot r w).symm
  rw [hdot]
  have := hR.ne'
  generalize norm3 r = R at *
  simp [dot3, vsmul]
  field_simp
  ring

/-- C64, the part that holds: on the unit sphere, and in the equatorial plane. -/
theorem C64_partial (r : Fin 3 → ℝ) (T : Fin 3 → Fin 3 → ℝ) (mu J2 Re : ℝ) (hT : Orthogonal3 T)
    (hr : r ≠ 0) (h : norm3 r = 1 ∨ mulVec3 T r 2 = 0) :
    ∃ a, perturbationJ2 r T mu J2 Re = .ok a ∧
      IsGradient (fun x => j2Potential mu J2 Re (mulVec3 T x)) r a := by
  have hR := norm3_pos hr
  refine ⟨j2Exact r T mu J2 Re, ?_, j2Exact_gradient r T mu J2 Re hT hr⟩
  simp only [perturbationJ2, Nat.cast_ofNat, Nat.cast_one]
  rw [ndiv_real (by positivity)]
  simp only [bind, Except.bind, pure, Except.pure, j2Exact]
  rcases h with h | h <;> simp [h]

/-- C64: exactly when the returned acceleration is right. -/
theorem C64_right_iff (r : Fin 3 → ℝ) (T : Fin 3 → Fin 3 → ℝ) (mu J2 Re : ℝ) (hT : Orthogonal3 T)
    (hr : r ≠ 0) (hk : mu * J2 * Re ^ 2 ≠ 0) :
    (∃ a, perturbationJ2 r T mu J2 Re = .ok a ∧
      IsGradient (fun x => j2Potential mu J2 Re (mulVec3 T x)) r a) ↔
    (norm3 r = 1 ∨ mulVec3 T r 2 = 0) := by
  refine ⟨?_, C64_partial r T mu J2 Re hT hr⟩
  rintro ⟨a, ha, hg⟩
  have hR := norm3_pos hr
  have hex := hg.unique (j2Exact_gradient r T mu J2 Re hT hr)
  simp only [perturbationJ2, Nat.cast_ofNat, Nat.cast_one] at ha
  rw [ndiv_real (by positivity)] at ha
  simp only [bind, Except.bind, pure, Except.pure] at ha
  injection ha with ha
  rw [hex, j2Exact] at ha
  by_contra hcon
  push Not at hcon
  obtain ⟨h1, hz⟩ := hcon
  have hinj : ∀ v w : Fin 3 → ℝ, mulVec3 (transpose3 T) v = mulVec3 (transpose3 T) w → v = w := by
    intro v w e
    have e2 : dot3 (vsub v w) (vsub v w) = 0 := by
      rw [← hT.transpose.dot]
      have : mulVec3 (transpose3 T) (vsub v w) = 0 := by
        ext i
        have := congrFun e i
        simp only [mulVec3, dot3, vsub, Pi.zero_apply] at this ⊢
        linarith
      rw [this]; simp [dot3]
    ext i
    have := congrFun (dot3_self_eq_zero.1 e2) i
    simp only [vsub, Pi.zero_apply] at this; linarith
  have e := congrFun (hinj _ _ ha) 2
  simp [vsmul] at e
  have hk' : mu ≠ 0 ∧ J2 ≠ 0 ∧ Re ≠ 0 := by
    refine ⟨?_, ?_, ?_⟩ <;> rintro rfl <;> simp at hk
  obtain ⟨hmu, hJ, hRe⟩ := hk'
  simp [hmu, hJ, hRe, hR.ne', hz] at e
  have : (norm3 r - 1) * (norm3 r + 1) = 0 := by
    field_simp at e
    linear_combination e
  rcases mul_eq_zero.1 this with h | h
  · exact h1 (by linarith)
  · linarith

/-- the identity frame -/
def id3 : Fin 3 → Fin 3 → ℝ := ![![1, 0, 0], ![0, 1, 0], ![0, 0, 1]]

theorem id3_orthogonal : Orthogonal3 id3 := by
  unfold Orthogonal3
  ext i j; fin_cases i <;> fin_cases j <;> simp [id3, Matrix.mul_apply, Fin.sum_univ_three]

/-- C64 is violated: two length units above the pole. -/
theorem C64_violated : ¬ ∃ a, perturbationJ2 ![0, 0, 2] id3 1 1 1 = .ok a ∧
    IsGradient (fun x => j2Potential 1 1 1 (mulVec3 id3 x)) ![0, 0, 2] a := by
  have hn : norm3 ![0, 0, (2 : ℝ)] = 2 := by simp [norm3]
  rw [C64_right_iff _ _ _ _ _ id3_orthogonal (by intro h; have := congrFun h 2; simp at this)
    (by norm_num)]
  rw [hn]
  simp [id3, mulVec3, dot3]

/-- a case of the part that holds: off the equator on the unit sphere -/
example : ∃ a, perturbationJ2 ![0, 0, 1] id3 1 1 1 = .ok a ∧
    IsGradient (fun x => j2Potential 1 1 1 (mulVec3 id3 x)) ![0, 0, 1] a :=
  C64_partial _ _ _ _ _ id3_orthogonal (by intro h; have := congrFun h 2; simp at this)
    (Or.inl (by simp [norm3]))

/-! ## C65 -/

/-- C65: a push along the Sun-spacecraft direction of magnitude `k (AU/d)²`. -/
theorem C65_srp (d : Fin 3 → ℝ) (AU k : ℝ) (hd : d ≠ 0) (hk : 0 ≤ k) :
    perturbationSRP d AU k = vsmul (k * (AU / norm3 d) ^ 2) (vsmul (1 / norm3 d) d) ∧
    norm3 (perturbationSRP d AU k) = k * (AU / norm3 d) ^ 2 := by
  have h := norm3_pos hd
  have h1 : perturbationSRP d AU k = vsmul (k * (AU / norm3 d) ^ 2) (vsmul (1 / norm3 d) d) := by
    ext i
    simp only [perturbationSRP, vdivs, vsmul]
    field_simp
  refine ⟨h1, ?_⟩
  rw [h1, norm3_smul, norm3_smul, abs_of_nonneg (by positivity), abs_of_nonneg (by positivity)]
  field_simp

/-- inverse-square law: at `c` times the distance the acceleration is `1/c²` of it -/
theorem C65_inverse_square (d : Fin 3 → ℝ) (AU k c : ℝ) (hd : d ≠ 0) (hc : 0 < c) :
    perturbationSRP (vsmul c d) AU k = vsmul (1 / c ^ 2) (perturbationSRP d AU k) := by
  have h := norm3_pos hd
  ext i
  simp only [perturbationSRP, vdivs, norm3_smul, abs_of_pos hc]
  simp only [vsmul, vdivs]
  field_simp

example : perturbationSRP ![2, 0, (0 : ℝ)] 4 3 = ![12, 0, 0] := by
  have : norm3 ![2, 0, (0 : ℝ)] = 2 := by
    simp [norm3]
  ext i; fin_cases i <;> simp [perturbationSRP, vdivs, vsmul, this]; norm_num

/-! ## C66 -/

theorem rotation_of_frame (er en : Fin 3 → ℝ) (e1 : dot3 er er = 1) (e2 : dot3 en en = 1)
    (e3 : dot3 er en = 0) :
    Matrix.of ![er, cross3 en er, en] * (Matrix.of ![er, cross3 en er, en])ᵀ = 1 ∧
    (Matrix.of ![er, cross3 en er, en]).det = 1 := by
  simp only [dot3] at e1 e2 e3
  constructor
  · ext i j
    fin_cases i <;> fin_cases j <;>
      simp [Matrix.mul_apply, Fin.sum_univ_three, cross3]
    · linear_combination e1
    · ring
    · linear_combination e3
    · ring
    · linear_combination (er 0 * er 0 + er 1 * er 1 + er 2 * er 2) * e2 + e1 -
        (er 0 * en 0 + er 1 * en 1 + er 2 * en 2) * e3
    · ring
    · linear_combination e3
    · ring
    · linear_combination e2
  · simp [Matrix.det_fin_three, cross3]
    linear_combination (er 0 * er 0 + er 1 * er 1 + er 2 * er 2) * e2 + e1 -
        (er 0 * en 0 + er 1 * en 1 + er 2 * en 2) * e3

/-- C66: the matrix is a proper rotation, and it sends position, velocity and angular momentum to
their radial-transverse-normal components. -/
theorem C66_rtn (r v : Fin 3 → ℝ) (h : cross3 r v ≠ 0) :
    Matrix.of (pxformECI2RTN r v) * (Matrix.of (pxformECI2RTN r v))ᵀ = 1 ∧
    (Matrix.of (pxformECI2RTN r v)).det = 1 ∧
    mulVec3 (pxformECI2RTN r v) r = ![norm3 r, 0, 0] ∧
    mulVec3 (pxformECI2RTN r v) v =
      ![dot3 r v / norm3 r, norm3 (cross3 r v) / norm3 r, 0] ∧
    0 < norm3 (cross3 r v) / norm3 r ∧
    mulVec3 (pxformECI2RTN r v) (cross3 r v) = ![0, 0, norm3 (cross3 r v)] := by
  have hr : r ≠ 0 := by rintro rfl; exact h (cross3_zero_left v)
  have hr1 := norm3_pos hr
  have hh1 := norm3_pos h
  have hRne := hr1.ne'
  have hHne := hh1.ne'
  set R := norm3 r with hR
  set H := norm3 (cross3 r v) with hH
  have hrr : dot3 r r = R ^ 2 := (norm3_sq r).symm
  have hhh : dot3 (cross3 r v) (cross3 r v) = H ^ 2 := (norm3_sq _).symm
  have e1 : dot3 (vdivs r R) (vdivs r R) = 1 := by
    rw [vdivs_eq_smul, dot3_smul_left, dot3_smul_right, hrr]; field_simp
  have e2 : dot3 (vdivs (cross3 r v) H) (vdivs (cross3 r v) H) = 1 := by
    rw [vdivs_eq_smul, dot3_smul_left, dot3_smul_right, hhh]; field_simp
  have e3 : dot3 (vdivs r R) (vdivs (cross3 r v) H) = 0 := by
    rw [vdivs_eq_smul, vdivs_eq_smul, dot3_smul_left, dot3_smul_right, dot3_cross3_left]; ring
  obtain ⟨o1, o2⟩ := rotation_of_frame _ _ e1 e2 e3
  refine ⟨o1, o2, ?_, ?_, by positivity, ?_⟩
  · ext i; fin_cases i <;>
      simp [pxformECI2RTN, mulVec3, ← hR, ← hH, vdivs_eq_smul, cross3_smul_left, cross3_smul_right,
        hrr, dot3_comm _ r, dot3_cross3_left, dot3_cross3_right, dot3_smul_right]
    field_simp
  · ext i; fin_cases i <;>
      simp [pxformECI2RTN, mulVec3, ← hR, ← hH, vdivs_eq_smul, cross3_smul_left, cross3_smul_right,
        dot3_smul_left, dot3_cross3_cyc, hhh]
    · ring
    · field_simp
    · right; rw [← dot3_cross3_cyc, dot3_comm, dot3_cross3_right]
  · ext i; fin_cases i <;>
      simp [pxformECI2RTN, mulVec3, ← hR, ← hH, vdivs_eq_smul, cross3_smul_left, cross3_smul_right,
        dot3_smul_left, hhh, dot3_cross3_left]
    · right; right; rw [dot3_comm, dot3_cross3_left]
    · field_simp

/-- a rendez-vous of all hypotheses: position along x, velocity in the xy-plane -/
example : mulVec3 (pxformECI2RTN ![2, 0, 0] ![1, 3, (0 : ℝ)]) ![1, 3, 0] = ![1, 3, 0] := by
  have h : cross3 ![2, 0, 0] ![1, 3, (0 : ℝ)] = ![0, 0, 6] := by
    ext i; fin_cases i <;> simp [cross3]; norm_num
  have hne : cross3 ![2, 0, 0] ![1, 3, (0 : ℝ)] ≠ 0 := by
    rw [h]; intro e; have := congrFun e 2; simp at this
  have n1 : norm3 ![2, 0, (0 : ℝ)] = 2 := by simp [norm3]
  have n2 : norm3 ![0, 0, (6 : ℝ)] = 6 := by simp [norm3]
  rw [(C66_rtn _ _ hne).2.2.2.1, h, n1, n2]
  ext i; fin_cases i <;> simp [dot3]; norm_num

/-! ## C67 -/

/-- the acceleration `perturbation_J2` returns, as coded -/
noncomputable def j2Coded (r : Fin 3 → ℝ) (T : Fin 3 → Fin 3 → ℝ) (mu J2 Re : ℝ) : Fin 3 → ℝ :=
  let x := mulVec3 T r
  mulVec3 (transpose3 T) (vsmul (-3 * mu * J2 * Re ^ 2 / (2 * norm3 r ^ 5))
    ![(1 - 5 * x 2 ^ 2) * x 0, (1 - 5 * x 2 ^ 2) * x 1, (3 - 5 * x 2 ^ 2) * x 2])

theorem perturbationJ2_eq (r : Fin 3 → ℝ) (T : Fin 3 → Fin 3 → ℝ) (mu J2 Re : ℝ) (hr : r ≠ 0) :
    perturbationJ2 r T mu J2 Re = .ok (j2Coded r T mu J2 Re) := by
  have hR := norm3_pos hr
  simp only [perturbationJ2, Nat.cast_ofNat, Nat.cast_one]
  rw [ndiv_real (by positivity)]
  rfl

/-- position of a body relative to the centre, in length units, at time `t` of the run -/
noncomputable def bodyPos (S : SpicePerturbations ℝ) (sp : Spice ℝ) (t : ℝ) (id : String) :
    Fin 3 → ℝ := vdivs (sp.spkpos id (S.etRef + t * S.TU)) S.LU

/-- the sum of the enabled accelerations in the inertial frame -/
noncomputable def enabledSum (S : SpicePerturbations ℝ) (bodies : List (ℝ × String)) (sp : Spice ℝ)
    (t : ℝ) (r : Fin 3 → ℝ) : Fin 3 → ℝ := fun i =>
  (bodies.map fun b => thirdBodyDirect r (bodyPos S sp t b.2) b.1 i).sum +
  (if S.useJ2 then j2Coded r (sp.pxform (S.etRef + t * S.TU)) S.obsMu S.J2 S.Re i else 0) +
  (if S.useSRP then
    perturbationSRP (vsub r (bodyPos S sp t "10")) (sp.auKm / S.LU) S.kSrp i else 0)

theorem foldlM_third (r : Fin 3 → ℝ) (pos : String → Fin 3 → ℝ) (bodies : List (ℝ × String))
    (h : ∀ b ∈ bodies, pos b.2 ≠ 0 ∧ r ≠ pos b.2) (acc : Fin 3 → ℝ) :
    bodies.foldlM (fun acc (b : ℝ × String) => do
      let a3 ← perturbationThirdBodyBattin r (pos b.2) b.1
      pure (vadd acc a3)) acc =
    (Except.ok (fun i => acc i + (bodies.map fun b => thirdBodyDirect r (pos b.2) b.1 i).sum) :
      Except PyErr (Fin 3 → ℝ)) := by
  induction bodies generalizing acc with
  | nil => simp [pure, Except.pure]
  | cons b l ih =>
    have hb := h b (by simp)
    simp only [List.foldlM_cons, C63_third_body r (pos b.2) b.1 hb.1 hb.2]
    simp only [bind, Except.bind, pure, Except.pure] at ih ⊢
    rw [ih (fun c hc => h c (by simp [hc]))]
    congr 1; ext i
    simp only [vadd, List.map_cons, List.sum_cons]; ring

/-- C67: for every ephemeris, flag setting and state: the value is the sum of the enabled
accelerations rotated into the radial-transverse-normal frame, so it has the same magnitude. -/
theorem C67_sum_partial (S : SpicePerturbations ℝ) (bodies : List (ℝ × String)) (sp : Spice ℝ)
    (t : ℝ) (oe rv : Fin 6 → ℝ) (ty : String)
    (hS : S.thirdBodies = some bodies)
    (hrv : ty = "keplerian" ∧ kep2sv oe S.obsMu = .ok rv ∨
      ty = "mee_with_a" ∧ meeWithA2sv oe S.obsMu = .ok rv)
    (hh : cross3 (svPos rv) (svVel rv) ≠ 0)
    (hb : ∀ b ∈ bodies, bodyPos S sp t b.2 ≠ 0 ∧ svPos rv ≠ bodyPos S sp t b.2) :
    ∃ a, S.getPerturbationsRTN sp t oe ty = .ok a ∧
      a = mulVec3 (pxformECI2RTN (svPos rv) (svVel rv))
        (enabledSum S bodies sp t (svPos rv)) ∧
      norm3 a = norm3 (enabledSum S bodies sp t (svPos rv)) := by
  have hr : svPos rv ≠ 0 := by intro e; rw [e] at hh; exact hh (cross3_zero_left _)
  have hO : Orthogonal3 (pxformECI2RTN (svPos rv) (svVel rv)) := (C66_rtn _ _ hh).1
  refine ⟨_, ?_, rfl, hO.norm _⟩
  have hcart : S.fromCartesian sp t rv = .ok (mulVec3 (pxformECI2RTN (svPos rv) (svVel rv))
        (enabledSum S bodies sp t (svPos rv))) := by
    simp only [SpicePerturbations.fromCartesian, hS]
    simp only [bind, Except.bind, pure, Except.pure]
    have hf := foldlM_third (svPos rv) (bodyPos S sp t) bodies hb
      ![((0 : ℕ) : ℝ), ((0 : ℕ) : ℝ), ((0 : ℕ) : ℝ)]
    simp only [bind, Except.bind, pure, Except.pure] at hf
    unfold bodyPos at hf
    rw [hf]
    rw [perturbationJ2_eq _ _ _ _ _ hr]
    cases hJ : S.useJ2 <;> cases hP : S.useSRP <;>
      (simp only [Bool.false_eq_true, if_true, if_false]
       congr 2
       funext i
       simp only [enabledSum, hJ, hP, vadd, Bool.false_eq_true, if_true, if_false]
       fin_cases i <;> simp [bodyPos])
  rcases hrv with ⟨rfl, h⟩ | ⟨rfl, h⟩
  · simp [SpicePerturbations.getPerturbationsRTN, h, bind, Except.bind, hcart]
  · simp [SpicePerturbations.getPerturbationsRTN, h, bind, Except.bind, hcart]

/-- an object with one third body, J2 and solar radiation pressure enabled -/
noncomputable def samplePert : SpicePerturbations ℝ :=
  { etRef := 0, LU := 1, TU := 1, obsMu := 1, J2 := 1, Re := 1, kSrp := 1, useJ2 := true,
    useSRP := true, thirdBodies := some [(1, "10")] }

/-- an ephemeris with the Sun at rest two length units away -/
noncomputable def sampleSpice : Spice ℝ :=
  { spkpos := fun _ _ => ![2, 0, 0], pxform := fun _ => id3, auKm := 1 }

/-- the hypotheses of `C67_sum_partial` are met by a circular orbit of radius 1; the frames coincide
at the starting point -/
example : samplePert.getPerturbationsRTN sampleSpice 5 ![1, 0, 0, 0, 0, 0] "keplerian" =
    .ok (enabledSum samplePert [(1, "10")] sampleSpice 5 ![1, 0, 0]) := by
  have hk : kep2sv ![1, 0, 0, 0, 0, 0] (1 : ℝ) = .ok ![1, 0, 0, 0, 1, 0] := by
    simp [kep2sv, ndiv_real, bind, Except.bind, pure, Except.pure, vsmul]
  have hp : svPos ![1, 0, 0, 0, 1, (0 : ℝ)] = ![1, 0, 0] := by simp [svPos]
  have hv : svVel ![1, 0, 0, 0, 1, (0 : ℝ)] = ![0, 1, 0] := by
    funext i; fin_cases i <;> simp [svVel]
  have hx : cross3 ![1, 0, (0 : ℝ)] ![0, 1, 0] = ![0, 0, 1] := by
    ext i; fin_cases i <;> simp [cross3]
  obtain ⟨a, h1, h2, -⟩ := C67_sum_partial samplePert [(1, "10")] sampleSpice 5
    ![1, 0, 0, 0, 0, 0] _ "keplerian" rfl (Or.inl ⟨rfl, hk⟩)
    (by rw [hp, hv, hx]; intro e; have := congrFun e 2; simp at this)
    (by
      intro b _
      constructor
      · intro e; have := congrFun e 0; simp [bodyPos, vdivs, samplePert, sampleSpice] at this
      · intro e; have := congrFun e 0; simp [bodyPos, vdivs, svPos, samplePert, sampleSpice] at this)
  rw [h1, h2, hp, hv]
  generalize enabledSum _ _ _ _ _ = w
  have n1 : norm3 ![1, 0, (0 : ℝ)] = 1 := by simp [norm3]
  have n2 : norm3 ![0, 0, (1 : ℝ)] = 1 := by simp [norm3]
  congr 1
  funext i
  fin_cases i <;> simp [mulVec3, pxformECI2RTN, hx, n1, n2, vdivs, dot3]; simp [cross3, vdivs]

/-- C67: disabled terms contribute nothing. -/
theorem C67_disabled (S : SpicePerturbations ℝ) (sp : Spice ℝ) (t : ℝ) (r : Fin 3 → ℝ)
    (hJ : S.useJ2 = false) (hP : S.useSRP = false) : enabledSum S [] sp t r = 0 := by
  funext i; simp [enabledSum, hJ, hP]

/-- C67: any other element type is rejected. -/
theorem C67_other_type (S : SpicePerturbations ℝ) (sp : Spice ℝ) (t : ℝ) (oe : Fin 6 → ℝ)
    (ty : String) (h1 : ty ≠ "keplerian") (h2 : ty ≠ "mee_with_a") :
    S.getPerturbationsRTN sp t oe ty = .error .valueError := by
  simp [SpicePerturbations.getPerturbationsRTN, h1, h2, bind, Except.bind]

/-- C67, violated part: an object built with `third_bodies_names=None` and
`third_bodies_gms=None` raises `TypeError` at every state. -/
theorem C67_violated (gm : String → ℝ) (etRef LU TU : ℝ) (obsId : String)
    (J2 ReKm pSRP crSRP amSI : ℝ) (useJ2 useSRP : Bool) (hLU : LU ≠ 0) (hTU : TU ≠ 0)
    (sp : Spice ℝ) (t : ℝ) :
    ∃ S, SpicePerturbations.mk' gm etRef LU TU obsId none none J2 ReKm pSRP crSRP amSI useJ2 useSRP
        = .ok S ∧
      ∀ oe rv ty, (ty = "keplerian" ∧ kep2sv oe S.obsMu = .ok rv ∨
        ty = "mee_with_a" ∧ meeWithA2sv oe S.obsMu = .ok rv) →
      S.getPerturbationsRTN sp t oe ty = .error .typeError := by
  have hc : ∃ S, SpicePerturbations.mk' gm etRef LU TU obsId none none J2 ReKm pSRP crSRP amSI useJ2
      useSRP = .ok S ∧ S.thirdBodies = none := by
    simp only [SpicePerturbations.mk', Nat.cast_ofNat]
    rw [ndiv_real hLU, ndiv_real (pow_ne_zero 2 hTU), ndiv_real hTU]
    simp only [bind, Except.bind]
    rw [ndiv_real (div_ne_zero (by positivity) (pow_ne_zero 2 hTU))]
    simp only
    rw [ndiv_real (mul_ne_zero hLU (pow_ne_zero 2 (div_ne_zero hLU hTU)))]
    exact ⟨_, rfl, rfl⟩
  obtain ⟨S, hS, hn⟩ := hc
  refine ⟨S, hS, ?_⟩
  intro oe rv ty h
  rcases h with ⟨rfl, h⟩ | ⟨rfl, h⟩ <;>
  · simp [SpicePerturbations.getPerturbationsRTN, h, bind, Except.bind,
      SpicePerturbations.fromCartesian, hn]

end PyQ
