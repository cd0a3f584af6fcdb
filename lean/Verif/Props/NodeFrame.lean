import Verif.Props.Rates
import Verif.Props.Convergence
import Verif.Model.Elements

/-! # C139: modified equinoctial elements and the direction from which longitudes are measured

Measuring longitudes from another direction turns `(f, g)` and `(h, k)` and shifts the longitude. -/

set_option linter.unusedSectionVars false

noncomputable section

namespace PyQ

/-- modified equinoctial elements of the orbit turned by `φ` about the pole -/
def meeTurned (φ : ℝ) (x : Fin 6 → ℝ) : Fin 6 → ℝ :=
  ![x 0, x 1 * Real.cos φ - x 2 * Real.sin φ, x 1 * Real.sin φ + x 2 * Real.cos φ,
    x 3 * Real.cos φ - x 4 * Real.sin φ, x 3 * Real.sin φ + x 4 * Real.cos φ, x 5 + φ]

/-- the target turned by `φ` about the pole -/
def meeTurnedT (φ : ℝ) (x : Fin 5 → ℝ) : Fin 5 → ℝ :=
  ![x 0, x 1 * Real.cos φ - x 2 * Real.sin φ, x 1 * Real.sin φ + x 2 * Real.cos φ,
    x 3 * Real.cos φ - x 4 * Real.sin φ, x 3 * Real.sin φ + x 4 * Real.cos φ]

/-- a call with the orbit and the target turned by `φ` -/
def LyapArgs.meeTurn (φ : ℝ) (A : LyapArgs ℝ) : LyapArgs ℝ :=
  { A with oe := meeTurned φ A.oe, oeT := meeTurnedT φ A.oeT }

/-- C139: turned modified equinoctial elements are those of the orbit whose RAAN is increased by `φ`. -/
theorem C139_turned (φ : ℝ) (k : Fin 6 → ℝ) :
    kep2meeWithA ![k 0, k 1, k 2, k 3 + φ, k 4, k 5] = meeTurned φ (kep2meeWithA k) := by
  funext i
  fin_cases i
  · simp [kep2meeWithA, meeTurned]
  · simp [kep2meeWithA, meeTurned]
    rw [show k 3 + φ + k 4 = k 3 + k 4 + φ by ring, Real.cos_add]; ring
  · simp [kep2meeWithA, meeTurned]
    rw [show k 3 + φ + k 4 = k 3 + k 4 + φ by ring, Real.sin_add]; ring
  · simp [kep2meeWithA, meeTurned]
    rw [Real.cos_add]; ring
  · simp [kep2meeWithA, meeTurned]
    rw [Real.sin_add]; ring
  · simp [kep2meeWithA, meeTurned]; ring

theorem turn_sq (c s x y : ℝ) (h : c ^ 2 + s ^ 2 = 1) : (x * c - y * s) ^ 2 + (x * s + y * c) ^ 2 = x ^ 2 + y ^ 2 := by
  linear_combination (x ^ 2 + y ^ 2) * h

/-- the part of `Q` that depends on the eccentricity only -/
def fgP (A : LyapArgs ℝ) (u : ℝ) : ℝ :=
  (1 + A.wp * Real.exp (A.k * (1 - A.oe 0 * (1 - Real.sqrt u) / A.rpmin))) *
    (A.woe 0 * meeSoe A * ((A.oe 0 - A.oeT 0) / (2 * A.f * A.oe 0 * Real.sqrt (A.oe 0 / A.mu) *
      Real.sqrt ((1 + Real.sqrt u) / (1 - Real.sqrt u)))) ^ 2)

/-- the factor of the squared distance of `(f, g)` from its target -/
def fgR (A : LyapArgs ℝ) (u : ℝ) : ℝ :=
  (1 + A.wp * Real.exp (A.k * (1 - A.oe 0 * (1 - Real.sqrt u) / A.rpmin))) *
    (A.woe 1 * (1 / (2 * A.f * Real.sqrt (A.oe 0 * (1 - u) / A.mu))) ^ 2)

/-- with equal weights of `f` and `g` and none on `h` and `k` -/
theorem meeQ_plane {A : LyapArgs ℝ} (h12 : A.woe 2 = A.woe 1) (h3 : A.woe 3 = 0) (h4 : A.woe 4 = 0) :
    meeQ A = fgP A (A.oe 1 ^ 2 + A.oe 2 ^ 2) + fgR A (A.oe 1 ^ 2 + A.oe 2 ^ 2) *
      ((A.oe 1 - A.oeT 1) ^ 2 + (A.oe 2 - A.oeT 2) ^ 2) := by
  simp only [meeQ, meeOedot, meePenalty, meeDoe, fgP, fgR, h12, h3, h4, Matrix.cons_val, sqrt_real, Nat.cast_ofNat,
    Nat.cast_one, exp_real, zero_mul, add_zero, mul_one]
  rw [show A.oe 0 * (1 - A.oe 1 ^ 2 - A.oe 2 ^ 2) = A.oe 0 * (1 - (A.oe 1 ^ 2 + A.oe 2 ^ 2)) by ring]
  ring

/-- **C139, the quotient (partial).** If `f` and `g` have the same weight and `h` and `k` have none, `Q` does not depend
on the direction from which longitudes are measured. -/
theorem C139_quotient_partial (φ : ℝ) {A : LyapArgs ℝ} (h12 : A.woe 2 = A.woe 1) (h3 : A.woe 3 = 0)
    (h4 : A.woe 4 = 0) : meeQ (A.meeTurn φ) = meeQ A := by
  rw [meeQ_plane h12 h3 h4, meeQ_plane (A := A.meeTurn φ) h12 h3 h4]
  have hcs := Real.cos_sq_add_sin_sq φ
  have e1 : (A.meeTurn φ).oe 1 ^ 2 + (A.meeTurn φ).oe 2 ^ 2 = A.oe 1 ^ 2 + A.oe 2 ^ 2 := turn_sq _ _ _ _ hcs
  have e2 : ((A.meeTurn φ).oe 1 - (A.meeTurn φ).oeT 1) ^ 2 + ((A.meeTurn φ).oe 2 - (A.meeTurn φ).oeT 2) ^ 2 =
      (A.oe 1 - A.oeT 1) ^ 2 + (A.oe 2 - A.oeT 2) ^ 2 := by
    rw [← turn_sq _ _ (A.oe 1 - A.oeT 1) (A.oe 2 - A.oeT 2) hcs]
    simp [LyapArgs.meeTurn, meeTurned, meeTurnedT]
    ring
  rw [e1, e2]
  rfl

theorem fgP_diff {A : LyapArgs ℝ} (H : MeeEllipse A) {u : ℝ} (h0 : 0 < u) (h1 : u < 1) :
    DifferentiableAt ℝ (fgP A) u := by
  have hs : Real.sqrt u < 1 := by rw [Real.sqrt_lt' one_pos]; linarith
  have hs0 : 0 < Real.sqrt u := Real.sqrt_pos.2 h0
  have hq : (1 + Real.sqrt u) / (1 - Real.sqrt u) ≠ 0 := by
    have : 0 < 1 - Real.sqrt u := by linarith
    positivity
  have hd : 1 - Real.sqrt u ≠ 0 := by linarith
  have hr : 2 * A.f * A.oe 0 * Real.sqrt (A.oe 0 / A.mu) * Real.sqrt ((1 + Real.sqrt u) / (1 - Real.sqrt u)) ≠ 0 := by
    have : 0 < 1 - Real.sqrt u := by linarith
    have := H.f; have := H.a; have := H.mu
    positivity
  have hu : u ≠ 0 := h0.ne'
  unfold fgP
  fun_prop (disch := assumption)

theorem fgR_diff {A : LyapArgs ℝ} (H : MeeEllipse A) {u : ℝ} (h0 : 0 < u) (h1 : u < 1) :
    DifferentiableAt ℝ (fgR A) u := by
  have hq : A.oe 0 * (1 - u) / A.mu ≠ 0 := by
    have : 0 < 1 - u := by linarith
    have := H.a; have := H.mu
    positivity
  have hr : 2 * A.f * Real.sqrt (A.oe 0 * (1 - u) / A.mu) ≠ 0 := by
    have : 0 < 1 - u := by linarith
    have := H.f; have := H.a; have := H.mu
    positivity
  have hu : u ≠ 0 := h0.ne'
  unfold fgR
  fun_prop (disch := assumption)

/-- the gradient of `Q` with respect to `f` and `g` -/
theorem grad_plane {A : LyapArgs ℝ} (H : MeeEllipse A) (he : 0 < A.oe 1 ^ 2 + A.oe 2 ^ 2)
    (h12 : A.woe 2 = A.woe 1) (h3 : A.woe 3 = 0) (h4 : A.woe 4 = 0) :
    let u := A.oe 1 ^ 2 + A.oe 2 ^ 2
    let X := deriv (fgP A) u + deriv (fgR A) u * ((A.oe 1 - A.oeT 1) ^ 2 + (A.oe 2 - A.oeT 2) ^ 2)
    partialQ meeQ A 1 = 2 * A.oe 1 * X + 2 * (A.oe 1 - A.oeT 1) * fgR A u ∧
    partialQ meeQ A 2 = 2 * A.oe 2 * X + 2 * (A.oe 2 - A.oeT 2) * fgR A u := by
  intro u X
  have hP := (fgP_diff H he H.ecc).hasDerivAt
  have hR := (fgR_diff H he H.ecc).hasDerivAt
  constructor
  · have e : (fun y => meeQ (A.setOe 1 y)) = fun y => fgP A (y ^ 2 + A.oe 2 ^ 2) + fgR A (y ^ 2 + A.oe 2 ^ 2) *
        ((y - A.oeT 1) ^ 2 + (A.oe 2 - A.oeT 2) ^ 2) := by
      funext y
      rw [meeQ_plane (A := A.setOe 1 y) h12 h3 h4]
      rfl
    show deriv (fun y => meeQ (A.setOe 1 y)) (A.oe 1) = _
    rw [e]
    have hu : HasDerivAt (fun y : ℝ => y ^ 2 + A.oe 2 ^ 2) (2 * A.oe 1) (A.oe 1) := by
      simpa using (hasDerivAt_pow 2 (A.oe 1)).add_const (A.oe 2 ^ 2)
    have hd : HasDerivAt (fun y : ℝ => (y - A.oeT 1) ^ 2 + (A.oe 2 - A.oeT 2) ^ 2) (2 * (A.oe 1 - A.oeT 1)) (A.oe 1) := by
      simpa using (((hasDerivAt_id (A.oe 1)).sub_const (A.oeT 1)).pow 2).add_const ((A.oe 2 - A.oeT 2) ^ 2)
    have := (hP.comp (A.oe 1) hu).add ((hR.comp (A.oe 1) hu).mul hd)
    have h2 := this.deriv
    refine Eq.trans h2 ?_
    simp only [X, u, Function.comp]
    ring
  · have e : (fun y => meeQ (A.setOe 2 y)) = fun y => fgP A (A.oe 1 ^ 2 + y ^ 2) + fgR A (A.oe 1 ^ 2 + y ^ 2) *
        ((A.oe 1 - A.oeT 1) ^ 2 + (y - A.oeT 2) ^ 2) := by
      funext y
      rw [meeQ_plane (A := A.setOe 2 y) h12 h3 h4]
      rfl
    show deriv (fun y => meeQ (A.setOe 2 y)) (A.oe 2) = _
    rw [e]
    have hu : HasDerivAt (fun y : ℝ => A.oe 1 ^ 2 + y ^ 2) (2 * A.oe 2) (A.oe 2) := by
      simpa using (hasDerivAt_pow 2 (A.oe 2)).const_add (A.oe 1 ^ 2)
    have hd : HasDerivAt (fun y : ℝ => (A.oe 1 - A.oeT 1) ^ 2 + (y - A.oeT 2) ^ 2) (2 * (A.oe 2 - A.oeT 2)) (A.oe 2) := by
      simpa using (((hasDerivAt_id (A.oe 2)).sub_const (A.oeT 2)).pow 2).const_add ((A.oe 1 - A.oeT 1) ^ 2)
    have := (hP.comp (A.oe 2) hu).add ((hR.comp (A.oe 2) hu).mul hd)
    have h2 := this.deriv
    refine Eq.trans h2 ?_
    simp only [X, u, Function.comp]
    ring

theorem grad_hk {A : LyapArgs ℝ} (h12 : A.woe 2 = A.woe 1) (h3 : A.woe 3 = 0) (h4 : A.woe 4 = 0) :
    partialQ meeQ A 3 = 0 ∧ partialQ meeQ A 4 = 0 := by
  constructor
  · have e : (fun y => meeQ (A.setOe 3 y)) = fun _ => meeQ A := by
      funext y
      rw [meeQ_plane (A := A.setOe 3 y) h12 h3 h4, meeQ_plane h12 h3 h4]
      rfl
    show deriv (fun y => meeQ (A.setOe 3 y)) _ = _
    rw [e]; exact deriv_const _ _
  · have e : (fun y => meeQ (A.setOe 4 y)) = fun _ => meeQ A := by
      funext y
      rw [meeQ_plane (A := A.setOe 4 y) h12 h3 h4, meeQ_plane h12 h3 h4]
      rfl
    show deriv (fun y => meeQ (A.setOe 4 y)) _ = _
    rw [e]; exact deriv_const _ _

theorem meeTurn_setOe_zero (φ y : ℝ) (A : LyapArgs ℝ) : (A.meeTurn φ).setOe 0 y = (A.setOe 0 y).meeTurn φ := by
  unfold LyapArgs.setOe LyapArgs.meeTurn
  simp only
  congr 1
  funext i
  fin_cases i <;> simp [meeTurned]

theorem MeeEllipse.meeTurn {A : LyapArgs ℝ} (H : MeeEllipse A) (φ : ℝ) : MeeEllipse (A.meeTurn φ) :=
  ⟨H.mu, H.f, H.a, by
    have : (A.meeTurn φ).oe 1 ^ 2 + (A.meeTurn φ).oe 2 ^ 2 = A.oe 1 ^ 2 + A.oe 2 ^ 2 :=
      turn_sq _ _ _ _ (Real.cos_sq_add_sin_sq φ)
    rw [this]; exact H.ecc⟩

theorem evalDqdt_dot (f : ℝ) (psi : Fin 3 → Fin 5 → ℝ) (dq : Fin 5 → ℝ) :
    evalDqdt f psi dq = f * (rawControl psi dq 0 * (rawControl psi dq 0 / Real.sqrt (rawControl psi dq 0 ^ 2 +
        rawControl psi dq 1 ^ 2 + rawControl psi dq 2 ^ 2)) +
      rawControl psi dq 1 * (rawControl psi dq 1 / Real.sqrt (rawControl psi dq 0 ^ 2 +
        rawControl psi dq 1 ^ 2 + rawControl psi dq 2 ^ 2)) +
      rawControl psi dq 2 * (rawControl psi dq 2 / Real.sqrt (rawControl psi dq 0 ^ 2 +
        rawControl psi dq 1 ^ 2 + rawControl psi dq 2 ^ 2))) := by
  simp only [evalDqdt, vdivs, sqrt_real]
  generalize Real.sqrt _ = n
  unfold rawControl
  ring

section psi
variable (A : LyapArgs ℝ)

theorem meePsi_plane :
    meePsi A 0 1 = Real.sqrt (A.oe 0 * (1 - A.oe 1 ^ 2 - A.oe 2 ^ 2) / A.mu) * Real.sin (A.oe 5) ∧
    meePsi A 0 2 = -Real.sqrt (A.oe 0 * (1 - A.oe 1 ^ 2 - A.oe 2 ^ 2) / A.mu) * Real.cos (A.oe 5) ∧
    meePsi A 1 1 = Real.sqrt (A.oe 0 * (1 - A.oe 1 ^ 2 - A.oe 2 ^ 2) / A.mu) /
      (1 + A.oe 1 * Real.cos (A.oe 5) + A.oe 2 * Real.sin (A.oe 5)) *
      ((1 + A.oe 1 * Real.cos (A.oe 5) + A.oe 2 * Real.sin (A.oe 5) + 1) * Real.cos (A.oe 5) + A.oe 1) ∧
    meePsi A 1 2 = Real.sqrt (A.oe 0 * (1 - A.oe 1 ^ 2 - A.oe 2 ^ 2) / A.mu) /
      (1 + A.oe 1 * Real.cos (A.oe 5) + A.oe 2 * Real.sin (A.oe 5)) *
      ((1 + A.oe 1 * Real.cos (A.oe 5) + A.oe 2 * Real.sin (A.oe 5) + 1) * Real.sin (A.oe 5) + A.oe 2) ∧
    meePsi A 2 0 = 0 ∧
    meePsi A 2 1 = Real.sqrt (A.oe 0 * (1 - A.oe 1 ^ 2 - A.oe 2 ^ 2) / A.mu) /
      (1 + A.oe 1 * Real.cos (A.oe 5) + A.oe 2 * Real.sin (A.oe 5)) *
      (-A.oe 2 * (A.oe 3 * Real.sin (A.oe 5) - A.oe 4 * Real.cos (A.oe 5))) ∧
    meePsi A 2 2 = Real.sqrt (A.oe 0 * (1 - A.oe 1 ^ 2 - A.oe 2 ^ 2) / A.mu) /
      (1 + A.oe 1 * Real.cos (A.oe 5) + A.oe 2 * Real.sin (A.oe 5)) *
      (A.oe 1 * (A.oe 3 * Real.sin (A.oe 5) - A.oe 4 * Real.cos (A.oe 5))) := by
  simp only [meePsi, Matrix.cons_val, sqrt_real, Nat.cast_one, Nat.cast_zero, sin_real, cos_real, and_self]

variable (φ : ℝ)

theorem mt0 : (A.meeTurn φ).oe 0 = A.oe 0 := rfl
theorem mt1 : (A.meeTurn φ).oe 1 = A.oe 1 * Real.cos φ - A.oe 2 * Real.sin φ := rfl
theorem mt2 : (A.meeTurn φ).oe 2 = A.oe 1 * Real.sin φ + A.oe 2 * Real.cos φ := rfl
theorem mt3 : (A.meeTurn φ).oe 3 = A.oe 3 * Real.cos φ - A.oe 4 * Real.sin φ := rfl
theorem mt4 : (A.meeTurn φ).oe 4 = A.oe 3 * Real.sin φ + A.oe 4 * Real.cos φ := rfl
theorem mt5 : (A.meeTurn φ).oe 5 = A.oe 5 + φ := rfl
theorem mtT1 : (A.meeTurn φ).oeT 1 = A.oeT 1 * Real.cos φ - A.oeT 2 * Real.sin φ := rfl
theorem mtT2 : (A.meeTurn φ).oeT 2 = A.oeT 1 * Real.sin φ + A.oeT 2 * Real.cos φ := rfl
theorem mt_mu : (A.meeTurn φ).mu = A.mu := rfl
theorem mt_f : (A.meeTurn φ).f = A.f := rfl

/-- the gradient turns along -/
theorem grad_turn (H : MeeEllipse A) (he : 0 < A.oe 1 ^ 2 + A.oe 2 ^ 2)
    (h12 : A.woe 2 = A.woe 1) (h3 : A.woe 3 = 0) (h4 : A.woe 4 = 0) :
    partialQ meeQ (A.meeTurn φ) 0 = partialQ meeQ A 0 ∧
    partialQ meeQ (A.meeTurn φ) 1 = partialQ meeQ A 1 * Real.cos φ - partialQ meeQ A 2 * Real.sin φ ∧
    partialQ meeQ (A.meeTurn φ) 2 = partialQ meeQ A 1 * Real.sin φ + partialQ meeQ A 2 * Real.cos φ := by
  have hcs := Real.cos_sq_add_sin_sq φ
  have hu : (A.meeTurn φ).oe 1 ^ 2 + (A.meeTurn φ).oe 2 ^ 2 = A.oe 1 ^ 2 + A.oe 2 ^ 2 := turn_sq _ _ _ _ hcs
  obtain ⟨g1, g2⟩ := grad_plane H he h12 h3 h4
  obtain ⟨g1', g2'⟩ := grad_plane (H.meeTurn φ) (by rw [hu]; exact he) h12 h3 h4
  have ed : ((A.meeTurn φ).oe 1 - (A.meeTurn φ).oeT 1) ^ 2 + ((A.meeTurn φ).oe 2 - (A.meeTurn φ).oeT 2) ^ 2 =
      (A.oe 1 - A.oeT 1) ^ 2 + (A.oe 2 - A.oeT 2) ^ 2 := by
    rw [← turn_sq _ _ (A.oe 1 - A.oeT 1) (A.oe 2 - A.oeT 2) hcs, mt1, mt2, mtT1, mtT2]
    ring
  have k1 : fgP (A.meeTurn φ) = fgP A := rfl
  have k2 : fgR (A.meeTurn φ) = fgR A := rfl
  rw [hu, ed, k1, k2, mt1, mtT1] at g1'
  rw [hu, ed, k1, k2, mt2, mtT2] at g2'
  refine ⟨?_, ?_, ?_⟩
  · show deriv (fun y => meeQ ((A.meeTurn φ).setOe 0 y)) (A.oe 0) = deriv (fun y => meeQ (A.setOe 0 y)) (A.oe 0)
    congr 1
    funext y
    rw [meeTurn_setOe_zero]
    exact C139_quotient_partial φ (A := A.setOe 0 y) h12 h3 h4
  · rw [g1', g1, g2]; ring
  · rw [g2', g1, g2]; ring

theorem psi_a_turn (H : MeeEllipse A) (hf : 0 < A.oe 1) (hf' : 0 < A.oe 1 * Real.cos φ - A.oe 2 * Real.sin φ) :
    meePsi (A.meeTurn φ) 0 0 = meePsi A 0 0 ∧ meePsi (A.meeTurn φ) 1 0 = meePsi A 1 0 := by
  have hcs := Real.cos_sq_add_sin_sq φ
  obtain ⟨p0, p1⟩ := C44_partial H (A.oe 5) hf
  obtain ⟨p0', p1'⟩ := C44_partial (H.meeTurn φ) (A.oe 5 + φ) hf'
  have aA : A.atAnomaly (A.oe 5) = A := by
    unfold LyapArgs.atAnomaly
    congr 1
    funext i
    fin_cases i <;> rfl
  have aA' : (A.meeTurn φ).atAnomaly (A.oe 5 + φ) = A.meeTurn φ := rfl
  rw [aA] at p0 p1
  rw [aA'] at p0' p1'
  have hK : 1 - (A.oe 1 * Real.cos φ - A.oe 2 * Real.sin φ) ^ 2 - (A.oe 1 * Real.sin φ + A.oe 2 * Real.cos φ) ^ 2 =
      1 - A.oe 1 ^ 2 - A.oe 2 ^ 2 := by
    linarith [turn_sq (Real.cos φ) (Real.sin φ) (A.oe 1) (A.oe 2) hcs]
  rw [mt_mu, mt0, mt1, mt2, hK] at p0' p1'
  constructor
  · rw [p0, p0', Real.sin_add, Real.cos_add]
    congr 1
    linear_combination (A.oe 1 * Real.sin (A.oe 5) - A.oe 2 * Real.cos (A.oe 5)) * hcs
  · rw [p1, p1', Real.sin_add, Real.cos_add]
    congr 1
    linear_combination (A.oe 1 * Real.cos (A.oe 5) + A.oe 2 * Real.sin (A.oe 5)) * hcs

/-- **C139, the control law (partial).** Under the same weights, with `f > 0` in both descriptions of the orbit, the
thrust vector and the rate of `Q` do not depend on the direction from which longitudes are measured. -/
theorem C139_control_partial (H : MeeEllipse A) (hf : 0 < A.oe 1)
    (hf' : 0 < A.oe 1 * Real.cos φ - A.oe 2 * Real.sin φ)
    (h12 : A.woe 2 = A.woe 1) (h3 : A.woe 3 = 0) (h4 : A.woe 4 = 0) :
    (meeLyap (A.meeTurn φ)).uRaw = (meeLyap A).uRaw ∧ meeDqdt (A.meeTurn φ) = meeDqdt A := by
  have hcs := Real.cos_sq_add_sin_sq φ
  have he : 0 < A.oe 1 ^ 2 + A.oe 2 ^ 2 := by positivity
  obtain ⟨t0, t1, t2⟩ := grad_turn A φ H he h12 h3 h4
  obtain ⟨g3, g4⟩ := grad_hk h12 h3 h4
  obtain ⟨g3', g4'⟩ := grad_hk (A := A.meeTurn φ) h12 h3 h4
  obtain ⟨q0, q1⟩ := psi_a_turn A φ H hf hf'
  obtain ⟨a1, a2, a3, a4, a5, a6, a7⟩ := meePsi_plane A
  obtain ⟨b1, b2, b3, b4, b5, b6, b7⟩ := meePsi_plane (A.meeTurn φ)
  have hK : 1 - (A.meeTurn φ).oe 1 ^ 2 - (A.meeTurn φ).oe 2 ^ 2 = 1 - A.oe 1 ^ 2 - A.oe 2 ^ 2 := by
    rw [mt1, mt2]
    linarith [turn_sq (Real.cos φ) (Real.sin φ) (A.oe 1) (A.oe 2) hcs]
  have hw : 1 + (A.meeTurn φ).oe 1 * Real.cos ((A.meeTurn φ).oe 5) + (A.meeTurn φ).oe 2 * Real.sin ((A.meeTurn φ).oe 5) =
      1 + A.oe 1 * Real.cos (A.oe 5) + A.oe 2 * Real.sin (A.oe 5) := by
    rw [mt1, mt2, mt5, Real.sin_add, Real.cos_add]
    linear_combination (A.oe 1 * Real.cos (A.oe 5) + A.oe 2 * Real.sin (A.oe 5)) * hcs
  have hx : (A.meeTurn φ).oe 3 * Real.sin ((A.meeTurn φ).oe 5) - (A.meeTurn φ).oe 4 * Real.cos ((A.meeTurn φ).oe 5) =
      A.oe 3 * Real.sin (A.oe 5) - A.oe 4 * Real.cos (A.oe 5) := by
    rw [mt3, mt4, mt5, Real.sin_add, Real.cos_add]
    linear_combination (A.oe 3 * Real.sin (A.oe 5) - A.oe 4 * Real.cos (A.oe 5)) * hcs
  rw [hK, mt0, mt_mu] at b1 b2
  rw [hK, hw, mt0, mt_mu] at b3 b4
  rw [hK, hw, hx, mt0, mt_mu] at b6 b7
  rw [mt5, Real.sin_add] at b1
  rw [mt5, Real.cos_add] at b2
  rw [mt5, mt1, Real.cos_add] at b3
  rw [mt5, mt2, Real.sin_add] at b4
  rw [mt2] at b6
  rw [mt1] at b7
  have key : rawControl (meePsi (A.meeTurn φ)) (partialQ meeQ (A.meeTurn φ)) =
      rawControl (meePsi A) (partialQ meeQ A) := by
    generalize A.meeTurn φ = B at *
    generalize hd : partialQ meeQ B = dB at *
    generalize hp : meePsi B = pB at *
    generalize hd' : partialQ meeQ A = dA at *
    generalize hp' : meePsi A = pA at *
    generalize Real.sqrt _ = S at *
    generalize 1 + A.oe 1 * Real.cos (A.oe 5) + A.oe 2 * Real.sin (A.oe 5) = w at *
    generalize A.oe 3 * Real.sin (A.oe 5) - A.oe 4 * Real.cos (A.oe 5) = x at *
    have r0 : rawControl pB dB 0 = rawControl pA dA 0 := by
      unfold rawControl
      rw [q0, t0, t1, t2, g3, g4, g3', g4', a1, a2, b1, b2]
      linear_combination S * (Real.sin (A.oe 5) * dA 1 - Real.cos (A.oe 5) * dA 2) * hcs
    have r1 : rawControl pB dB 1 = rawControl pA dA 1 := by
      unfold rawControl
      rw [q1, t0, t1, t2, g3, g4, g3', g4', a3, a4, b3, b4]
      linear_combination S / w * (((w + 1) * Real.cos (A.oe 5) + A.oe 1) * dA 1 +
        ((w + 1) * Real.sin (A.oe 5) + A.oe 2) * dA 2) * hcs
    have r2 : rawControl pB dB 2 = rawControl pA dA 2 := by
      unfold rawControl
      rw [a5, b5, t0, t1, t2, g3, g4, g3', g4', a6, a7, b6, b7]
      linear_combination S / w * x * (A.oe 1 * dA 2 - A.oe 2 * dA 1) * hcs
    funext c
    fin_cases c
    · exact r0
    · exact r1
    · exact r2
  refine ⟨key, ?_⟩
  unfold meeDqdt
  rw [evalDqdt_dot, evalDqdt_dot, key, mt_f]

end psi

/-- an orbit with eccentricity `√13/5`, and a target in another plane -/
def frameCase : LyapArgs ℝ :=
  { mu := 1, f := 1, oe := ![1, 2 / 5, 3 / 5, 0, 0, 0], oeT := ![1, 2 / 5, 3 / 5, 1, 0], rpmin := 1, m := 3, n := 4,
    r := 2, b := 1, k := 1, wp := 0, woe := fun _ => 1 }

theorem frameCase_turned : (frameCase.meeTurn (-(Real.pi / 2))) =
    { frameCase with oe := ![1, 3 / 5, -(2 / 5), 0, 0, -(Real.pi / 2)], oeT := ![1, 3 / 5, -(2 / 5), 0, -1] } := by
  simp [LyapArgs.meeTurn, meeTurned, meeTurnedT, frameCase]

/-- **C139 is violated**: turned by a quarter turn, the same transfer (`f > 0` in both descriptions) has a `Q` nine
times smaller, because the maximum rates of `h` and `k` do not turn along. -/
theorem C139_differs : MeeEllipse frameCase ∧ 0 < frameCase.oe 1 ∧ 0 < (frameCase.meeTurn (-(Real.pi / 2))).oe 1 ∧
    0 < meeQ (frameCase.meeTurn (-(Real.pi / 2))) ∧
    meeQ frameCase = 9 * meeQ (frameCase.meeTurn (-(Real.pi / 2))) := by
  have h45 : Real.sqrt (1 - (3 / 5) ^ 2) = 4 / 5 := by
    rw [show (1 : ℝ) - (3 / 5) ^ 2 = (4 / 5) ^ 2 by norm_num]
    exact Real.sqrt_sq (by norm_num)
  have hs : Real.sqrt (1 - (2 / 5) ^ 2 - (3 / 5) ^ 2) ^ 2 = 12 / 25 := by
    rw [Real.sq_sqrt (by norm_num)]; norm_num
  have hs' : Real.sqrt (1 - (3 / 5) ^ 2 - (2 / 5) ^ 2) ^ 2 = 12 / 25 := by
    rw [Real.sq_sqrt (by norm_num)]; norm_num
  have e1 : meeQ frameCase = 12 := by
    simp only [meeQ, meeOedot, meeDoe, frameCase, Matrix.cons_val, sqrt_real, Nat.cast_one, h45, rat]
    simp only [zero_mul, add_zero, sub_self, zero_div, ne_eq, OfNat.ofNat_ne_zero, not_false_eq_true, zero_pow, mul_zero,
      zero_add, one_mul, mul_one, div_one, zero_sub]
    generalize Real.sqrt (1 - (2 / 5) ^ 2 - (3 / 5) ^ 2) = S at hs ⊢
    simp only [div_pow, mul_pow, hs]
    norm_num
  have e2 : meeQ (frameCase.meeTurn (-(Real.pi / 2))) = 4 / 3 := by
    rw [frameCase_turned]
    simp only [meeQ, meeOedot, meeDoe, frameCase, Matrix.cons_val, sqrt_real, Nat.cast_one, h45, rat, neg_sq]
    simp only [zero_mul, add_zero, sub_self, zero_div, ne_eq, OfNat.ofNat_ne_zero, not_false_eq_true, zero_pow, mul_zero,
      zero_add, one_mul, mul_one, div_one, sub_neg_eq_add]
    generalize Real.sqrt (1 - (3 / 5) ^ 2 - (2 / 5) ^ 2) = S at hs' ⊢
    simp only [div_pow, mul_pow, hs']
    norm_num
  refine ⟨⟨?_, ?_, ?_, ?_⟩, ?_, ?_, ?_, ?_⟩
  · norm_num [frameCase]
  · norm_num [frameCase]
  · norm_num [frameCase]
  · simp only [frameCase, Matrix.cons_val]; norm_num
  · norm_num [frameCase]
  · rw [frameCase_turned]; norm_num
  · rw [e2]; norm_num
  · rw [e1, e2]; norm_num

theorem turn_le {c s x y t : ℝ} (h : c ^ 2 + s ^ 2 = 1) (hx : |x| ≤ t) (hy : |y| ≤ t) :
    |x * c - y * s| ≤ Real.sqrt 2 * t ∧ |x * s + y * c| ≤ Real.sqrt 2 * t := by
  have ht : 0 ≤ t := (abs_nonneg x).trans hx
  have h1 : x ^ 2 ≤ t ^ 2 := by rw [← sq_abs x]; exact pow_le_pow_left₀ (abs_nonneg x) hx 2
  have h2 : y ^ 2 ≤ t ^ 2 := by rw [← sq_abs y]; exact pow_le_pow_left₀ (abs_nonneg y) hy 2
  have h3 := turn_sq c s x y h
  have hr : (Real.sqrt 2 * t) ^ 2 = 2 * t ^ 2 := by rw [mul_pow, Real.sq_sqrt (by norm_num)]
  constructor <;> apply abs_le_of_sq_le_sq _ (by positivity) <;> rw [hr] <;> nlinarith [sq_nonneg (x * c - y * s),
    sq_nonneg (x * s + y * c)]

/-- **C139, the convergence check (partial).** A state that is converged for the same tolerance `t` in the four
elements is converged, after turning, for `√2 t`. -/
theorem C139_check_partial (φ t : ℝ) {oe : Fin 6 → ℝ} {oeT woe tol : Fin 5 → ℝ} (ht : ∀ i, i ≠ 0 → tol i = t)
    (hw : ∀ i, i ≠ 0 → woe i ≠ 0) (h : checkConvergenceMee oe oeT woe tol = true) :
    checkConvergenceMee (meeTurned φ oe) (meeTurnedT φ oeT) woe ![tol 0, Real.sqrt 2 * t, Real.sqrt 2 * t,
      Real.sqrt 2 * t, Real.sqrt 2 * t] = true := by
  rw [C34_mee_box_test] at h ⊢
  have hcs := Real.cos_sq_add_sin_sq φ
  have g : ∀ i : Fin 5, i ≠ 0 → |oeT i - oe i.castSucc| ≤ t := by
    intro i hi
    rw [← ht i hi]
    exact (h i).resolve_left (hw i hi)
  have g1 : |oeT 1 - oe 1| ≤ t := g 1 (by decide)
  have g2 : |oeT 2 - oe 2| ≤ t := g 2 (by decide)
  have g3 : |oeT 3 - oe 3| ≤ t := g 3 (by decide)
  have g4 : |oeT 4 - oe 4| ≤ t := g 4 (by decide)
  obtain ⟨a1, a2⟩ := turn_le hcs g1 g2
  obtain ⟨a3, a4⟩ := turn_le hcs g3 g4
  intro i
  match i with
  | 0 => exact h 0
  | 1 =>
    right
    show |oeT 1 * Real.cos φ - oeT 2 * Real.sin φ - (oe 1 * Real.cos φ - oe 2 * Real.sin φ)| ≤ Real.sqrt 2 * t
    convert a1 using 2; ring
  | 2 =>
    right
    show |oeT 1 * Real.sin φ + oeT 2 * Real.cos φ - (oe 1 * Real.sin φ + oe 2 * Real.cos φ)| ≤ Real.sqrt 2 * t
    convert a2 using 2; ring
  | 3 =>
    right
    show |oeT 3 * Real.cos φ - oeT 4 * Real.sin φ - (oe 3 * Real.cos φ - oe 4 * Real.sin φ)| ≤ Real.sqrt 2 * t
    convert a3 using 2; ring
  | 4 =>
    right
    show |oeT 3 * Real.sin φ + oeT 4 * Real.cos φ - (oe 3 * Real.sin φ + oe 4 * Real.cos φ)| ≤ Real.sqrt 2 * t
    convert a4 using 2; ring

/-- **C139 is violated by the convergence check** too: the same state and target are converged in one description and
not in the one turned by an eighth of a turn. -/
theorem C139_check_differs : ∃ (oe : Fin 6 → ℝ) (oeT woe tol : Fin 5 → ℝ),
    checkConvergenceMee oe oeT woe tol = true ∧
    checkConvergenceMee (meeTurned (Real.pi / 4) oe) (meeTurnedT (Real.pi / 4) oeT) woe tol = false := by
  refine ⟨![1, 1 / 10, 1 / 10, 0, 0, 0], ![1, 0, 0, 0, 0], fun _ => 1, fun _ => 1 / 10, ?_, ?_⟩
  · rw [C34_mee_box_test]
    intro i
    right
    fin_cases i <;> norm_num [Fin.castSucc, Fin.castAdd, Fin.castLE, abs_of_pos]
  · rw [Bool.eq_false_iff, Ne, C34_mee_box_test]
    intro h
    have h2 := (h 2).resolve_left one_ne_zero
    have h3 : |0 * Real.sin (Real.pi / 4) + 0 * Real.cos (Real.pi / 4) -
        (1 / 10 * Real.sin (Real.pi / 4) + 1 / 10 * Real.cos (Real.pi / 4))| ≤ (1 / 10 : ℝ) := h2
    rw [Real.sin_pi_div_four, Real.cos_pi_div_four, abs_le] at h3
    have h4 : 1 < Real.sqrt 2 := by
      rw [Real.lt_sqrt (by norm_num)]; norm_num
    linarith [h3.1]

/-- the hypotheses of the positive part hold for the orbit of the counterexample with weights on `a`, `f`, `g` only,
turned by a quarter turn; the gradient is not zero if the target is circular -/
example : ∃ A : LyapArgs ℝ, MeeEllipse A ∧ 0 < A.oe 1 ∧
    0 < A.oe 1 * Real.cos (-(Real.pi / 2)) - A.oe 2 * Real.sin (-(Real.pi / 2)) ∧
    A.woe 2 = A.woe 1 ∧ A.woe 3 = 0 ∧ A.woe 4 = 0 ∧ A.woe 1 ≠ 0 ∧ A.oeT 1 ≠ A.oe 1 := by
  refine ⟨{ frameCase with woe := ![1, 1, 1, 0, 0], oeT := ![1, 0, 0, 0, 0] }, ⟨?_, ?_, ?_, ?_⟩, ?_, ?_, ?_, ?_, ?_, ?_, ?_⟩ <;>
    simp only [frameCase, Matrix.cons_val, Real.cos_neg, Real.sin_neg, Real.cos_pi_div_two, Real.sin_pi_div_two] <;> norm_num

end PyQ
