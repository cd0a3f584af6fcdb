import Verif.Model.Symbolic
import Verif.Model.Eom
import Verif.Proofs.Vec3
import Verif.Proofs.Angles
import Verif.RatInst
import Mathlib.Analysis.SpecialFunctions.Trigonometric.Bounds

/-! # C37-C39 and C60: thrust angles, steepest descent, superposition -/

set_option linter.unusedSectionVars false

namespace PyQ

/-- the direction with in-plane angle `a` (from the transverse axis) and out-of-plane angle `b` -/
noncomputable def unitDir (a b : ℝ) : Fin 3 → ℝ :=
  ![Real.cos b * Real.sin a, Real.cos b * Real.cos a, Real.sin b]

theorem u_angles (u : Fin 3 → ℝ) (h : u 0 ≠ 0 ∨ u 1 ≠ 0) :
    uToThrustAngles u = .ok (vsmul (1 / norm3 u) u,
      Complex.arg ⟨-(u 1 / norm3 u), -(u 0 / norm3 u)⟩,
      Real.arctan (-(u 2 / norm3 u) /
        Real.sqrt ((u 0 / norm3 u) ^ 2 + (u 1 / norm3 u) ^ 2))) := by
  have hu : u ≠ 0 := by rintro rfl; simp at h
  have hn := norm3_pos hu
  have hN : Real.sqrt (u 0 ^ 2 + u 1 ^ 2 + u 2 ^ 2) = norm3 u := rfl
  have hp : 0 < (u 0 / norm3 u) ^ 2 + (u 1 / norm3 u) ^ 2 := by
    rcases h with h | h
    · have : 0 < (u 0 / norm3 u) ^ 2 := by positivity
      positivity
    · have : 0 < (u 1 / norm3 u) ^ 2 := by positivity
      positivity
  simp only [uToThrustAngles, sqrt_real, hN, vdivs]
  rw [ndiv_real (Real.sqrt_pos.2 hp).ne']
  simp only [bind, Except.bind, pure, Except.pure, arctan2_real, arctan_real]
  congr 2
  funext i; simp only [vsmul, vdivs]; ring

/-- C37: the angles reproduce the unit vector opposite to `u`, within the stated ranges. -/
theorem C37_angles (u : Fin 3 → ℝ) (h : u 0 ≠ 0 ∨ u 1 ≠ 0) :
    ∃ w a b, uToThrustAngles u = .ok (w, a, b) ∧
      w = vsmul (1 / norm3 u) u ∧
      unitDir a b = vsmul (-1 / norm3 u) u ∧
      -Real.pi < a ∧ a ≤ Real.pi ∧ -(Real.pi / 2) < b ∧ b < Real.pi / 2 := by
  have hu : u ≠ 0 := by rintro rfl; simp at h
  have hn := norm3_pos hu
  have hsq := norm3_sq u
  refine ⟨_, _, _, u_angles u h, rfl, ?_, Complex.neg_pi_lt_arg _, Complex.arg_le_pi _,
    Real.neg_pi_div_two_lt_arctan _, Real.arctan_lt_pi_div_two _⟩
  set N := norm3 u with hN
  have hp : 0 < (u 0 / N) ^ 2 + (u 1 / N) ^ 2 := by
    rcases h with h | h
    · have : 0 < (u 0 / N) ^ 2 := by positivity
      positivity
    · have : 0 < (u 1 / N) ^ 2 := by positivity
      positivity
  have hunit : (u 0 / N) ^ 2 + (u 1 / N) ^ 2 + (u 2 / N) ^ 2 = 1 := by
    simp only [dot3] at hsq
    field_simp; linarith
  have hvec : vsmul (-1 / N) u = ![-(u 0 / N), -(u 1 / N), -(u 2 / N)] := by
    funext i; fin_cases i <;> simp [vsmul] <;> ring
  rw [hvec]
  generalize u 0 / N = x at *
  generalize u 1 / N = y at *
  generalize u 2 / N = z at *
  obtain ⟨hc, hs⟩ := arg_sincos (-y) (-x) (by nlinarith)
  have hρ : Real.sqrt ((-y) ^ 2 + (-x) ^ 2) = Real.sqrt (x ^ 2 + y ^ 2) := by
    congr 1; ring
  rw [hρ] at hc hs
  have hρ0 := Real.sqrt_pos.2 hp
  have hρ2 := Real.sq_sqrt hp.le
  set ρ := Real.sqrt (x ^ 2 + y ^ 2) with hρdef
  have hz : 1 + (-z / ρ) ^ 2 = (1 / ρ) ^ 2 := by
    field_simp; linarith
  have hcb : Real.cos (Real.arctan (-z / ρ)) = ρ := by
    rw [Real.cos_arctan, hz, Real.sqrt_sq (by positivity)]; field_simp
  have hsb : Real.sin (Real.arctan (-z / ρ)) = -z := by
    rw [Real.sin_arctan, hz, Real.sqrt_sq (by positivity)]; field_simp
  funext i
  fin_cases i <;> simp [unitDir, hc, hs, hcb, hsb]
  · field_simp
  · field_simp

/-- C37: a purely out-of-plane vector raises (the quotient in the out-of-plane angle). -/
theorem C37_out_of_plane (u : Fin 3 → ℝ) (h0 : u 0 = 0) (h1 : u 1 = 0) :
    uToThrustAngles u = .error .zeroDivision := by
  simp [uToThrustAngles, vdivs, h0, h1, ndiv_zero_real, bind, Except.bind]

/-- C37: the zero vector gives two NaN angles, in exact arithmetic with NaN and infinities, for every
choice of elementary functions that propagates NaN and has `sqrt 0 = 0`. -/
theorem C37_zero_nan {K : Type} [Field K] [LinearOrder K] [IsStrictOrderedRing K]
    [PyTrans (Ext K)] (hs0 : PyTrans.sqrt (.fin 0 : Ext K) = .fin 0)
    (hsn : PyTrans.sqrt (.nan : Ext K) = .nan) (han : PyTrans.arctan (.nan : Ext K) = .nan)
    (ha2 : PyTrans.arctan2 (.nan : Ext K) .nan = .nan) :
    uToThrustAngles ![(.fin 0 : Ext K), .fin 0, .fin 0] =
      .ok (![.nan, .nan, .nan], .nan, .nan) := by
  have hp : ∀ a : K, (Ext.fin a : Ext K) ^ 2 = .fin (a * a) := by
    intro a
    show Ext.mul (Ext.mul (Ext.fin 1) (Ext.fin a)) (Ext.fin a) = _
    simp [Ext.mul]
  have hpn : (Ext.nan : Ext K) ^ 2 = .nan := rfl
  have hnn : (Ext.nan + Ext.nan : Ext K) = .nan := rfl
  have hneg : (-Ext.nan : Ext K) = .nan := rfl
  have hd : (Ext.fin 0 / Ext.fin 0 : Ext K) = .nan := by
    show Ext.div _ _ = _
    simp [Ext.div]
  have hdn : ndiv (Ext.nan : Ext K) .nan = .ok .nan := by
    simp only [ndiv]; rfl
  have hv : (vdivs ![(Ext.fin 0 : Ext K), .fin 0, .fin 0] (.fin 0)) = ![.nan, .nan, .nan] := by
    funext i; fin_cases i <;> simp [vdivs, hd]
  simp only [uToThrustAngles, Matrix.cons_val, hp, mul_zero, Ext.fin_add, add_zero, hs0, hv, hpn,
    hnn, hsn, hneg, hdn, ha2, bind, Except.bind, pure, Except.pure, han]

example : uToThrustAngles ![(.fin 0 : Ext ℚ), .fin 0, .fin 0] =
    .ok (![.nan, .nan, .nan], .nan, .nan) := by
  apply C37_zero_nan <;> decide +kernel

/-- thrust wanted to the right, transverse backward and up: a concrete value -/
example : ∃ w a b, uToThrustAngles ![3, 0, (4 : ℝ)] = .ok (w, a, b) ∧
    unitDir a b = ![-(3 / 5), 0, -(4 / 5)] := by
  obtain ⟨w, a, b, h, -, hd, -⟩ := C37_angles ![3, 0, 4] (Or.inl (by simp))
  have hn : norm3 ![3, 0, (4 : ℝ)] = 5 := by
    simp only [norm3, sqrt_real]; rw [show (![3, 0, (4 : ℝ)] 0 ^ 2 + ![3, 0, (4 : ℝ)] 1 ^ 2 +
      ![3, 0, (4 : ℝ)] 2 ^ 2) = 5 ^ 2 by simp; norm_num]
    exact Real.sqrt_sq (by norm_num)
  refine ⟨w, a, b, h, ?_⟩
  rw [hd, hn]
  funext i; fin_cases i <;> simp [vsmul] <;> norm_num

/-! ## C38 -/

/-- the rate of change of `Q` under thrust of magnitude `f` in direction `d`, when `Q` has gradient
`dq` and the elements respond to accelerations through the columns `psi` -/
def thrustRate (f : ℝ) (dq : Fin 5 → ℝ) (psi : Fin 3 → Fin 5 → ℝ) (d : Fin 3 → ℝ) : ℝ :=
  ∑ j : Fin 5, dq j * ∑ c : Fin 3, psi c j * (f * d c)

/-- the gradient of `Q` along the three thrust directions -/
def thrustGrad (dq : Fin 5 → ℝ) (psi : Fin 3 → Fin 5 → ℝ) : Fin 3 → ℝ :=
  fun c => ∑ j : Fin 5, psi c j * dq j

theorem thrustRate_eq (f : ℝ) (dq : Fin 5 → ℝ) (psi : Fin 3 → Fin 5 → ℝ) (d : Fin 3 → ℝ) :
    thrustRate f dq psi d = f * dot3 (thrustGrad dq psi) d := by
  simp only [thrustRate, thrustGrad, dot3, Fin.sum_univ_five, Fin.sum_univ_three]; ring

theorem rawControl_eq (psi : Fin 3 → Fin 5 → ℝ) (dq : Fin 5 → ℝ) :
    rawControl psi dq = thrustGrad dq psi := by
  funext c; simp only [rawControl, thrustGrad, Fin.sum_univ_five]

/-- both generated functions return, besides their gradient and Gauss matrix, the product of the
two as raw control -/
theorem C38_raw_control (A : LyapArgs ℝ) :
    (kepLyap A).uRaw = thrustGrad (kepLyap A).dqdoe (kepLyap A).psi ∧
    (meeLyap A).uRaw = thrustGrad (meeLyap A).dqdoe (meeLyap A).psi :=
  ⟨rawControl_eq _ _, rawControl_eq _ _⟩

theorem control_value (L : LyapArgs ℝ → LyapOut ℝ) (A : LyapArgs ℝ)
    (hL : (L A).uRaw = thrustGrad (L A).dqdoe (L A).psi)
    (hg : (L A).uRaw 0 ≠ 0 ∨ (L A).uRaw 1 ≠ 0) :
    ∃ o, lyapunovControlAngles L A = .ok o ∧
      unitDir o.alpha o.beta = vsmul (-1 / norm3 (L A).uRaw) (L A).uRaw ∧
      o.psi = (L A).psi ∧ o.q = (L A).q ∧
      o.dqdt = A.f * norm3 (L A).uRaw := by
  obtain ⟨w, a, b, h, hw, hd, -⟩ := C37_angles _ hg
  have ho : lyapunovControlAngles L A = .ok
      { alpha := a, beta := b, u := w, psi := (L A).psi, q := (L A).q,
        dqdt := dot3 (fun c => dot5 (L A).dqdoe ((L A).psi c)) (vsmul A.f w) } := by
    simp only [lyapunovControlAngles, h, bind, Except.bind, pure, Except.pure]
  refine ⟨_, ho, hd, rfl, rfl, ?_⟩
  have hu : (L A).uRaw ≠ 0 := by intro e; rw [e] at hg; simp at hg
  have hn := norm3_pos hu
  have hrow : (fun c => dot5 (L A).dqdoe ((L A).psi c)) = (L A).uRaw := by
    rw [hL]; funext c; simp only [dot5, thrustGrad, Fin.sum_univ_five]; ring
  simp only [hrow, hw]
  rw [dot3_smul_right, dot3_smul_right, ← norm3_sq]
  generalize norm3 (L A).uRaw = N at hn
  generalize A.f = f
  field_simp

/-- C38: for every gradient and Gauss matrix and every magnitude `f ≥ 0`, the commanded direction has
unit length, reaches the rate `-dqdt`, and no other unit direction gives a lower one; `dqdt` is
positive for positive thrust. -/
theorem C38_steepest_descent (L : LyapArgs ℝ → LyapOut ℝ) (A : LyapArgs ℝ)
    (hL : (L A).uRaw = thrustGrad (L A).dqdoe (L A).psi) (hf : 0 ≤ A.f)
    (hg : (L A).uRaw 0 ≠ 0 ∨ (L A).uRaw 1 ≠ 0) :
    ∃ o, lyapunovControlAngles L A = .ok o ∧
      norm3 (unitDir o.alpha o.beta) = 1 ∧
      thrustRate A.f (L A).dqdoe (L A).psi (unitDir o.alpha o.beta) = -o.dqdt ∧
      (∀ d, norm3 d = 1 → -o.dqdt ≤ thrustRate A.f (L A).dqdoe (L A).psi d) ∧
      (0 < A.f → 0 < o.dqdt) := by
  obtain ⟨o, h, hd, -, -, hq⟩ := control_value L A hL hg
  have hu : (L A).uRaw ≠ 0 := by intro e; rw [e] at hg; simp at hg
  have hn := norm3_pos hu
  refine ⟨o, h, ?_, ?_, ?_, ?_⟩
  · rw [hd, norm3_smul, abs_div, abs_neg, abs_one, abs_of_pos hn]; field_simp
  · rw [thrustRate_eq, ← hL, hd, dot3_smul_right, ← norm3_sq, hq]; field_simp
  · intro d hd1
    rw [thrustRate_eq, ← hL, hq]
    have := abs_dot3_le (L A).uRaw d
    rw [hd1, mul_one] at this
    have h2 := (abs_le.1 this).1
    nlinarith
  · intro hf; rw [hq]; positivity

/-- C38: the optimal direction is unique. -/
theorem C38_unique (L : LyapArgs ℝ → LyapOut ℝ) (A : LyapArgs ℝ)
    (hL : (L A).uRaw = thrustGrad (L A).dqdoe (L A).psi) (hf : 0 < A.f)
    (hg : (L A).uRaw 0 ≠ 0 ∨ (L A).uRaw 1 ≠ 0) (o : ControlOut ℝ)
    (ho : lyapunovControlAngles L A = .ok o) (d : Fin 3 → ℝ) (hd : norm3 d = 1)
    (hr : thrustRate A.f (L A).dqdoe (L A).psi d = -o.dqdt) : d = unitDir o.alpha o.beta := by
  obtain ⟨o', h, hd', -, -, hq⟩ := control_value L A hL hg
  rw [ho] at h; injection h with h; subst h
  have hu : (L A).uRaw ≠ 0 := by intro e; rw [e] at hg; simp at hg
  have hn := norm3_pos hu
  rw [thrustRate_eq, ← hL, hq] at hr
  have h1 : dot3 (L A).uRaw d = -norm3 (L A).uRaw := by
    have : A.f * (dot3 (L A).uRaw d + norm3 (L A).uRaw) = 0 := by linarith
    rcases mul_eq_zero.1 this with h | h <;> linarith
  have h2 : dot3 (vsub d (unitDir o.alpha o.beta)) (vsub d (unitDir o.alpha o.beta)) = 0 := by
    have e : dot3 (vsub d (unitDir o.alpha o.beta)) (vsub d (unitDir o.alpha o.beta)) =
        dot3 d d - 2 * dot3 d (unitDir o.alpha o.beta) +
          dot3 (unitDir o.alpha o.beta) (unitDir o.alpha o.beta) := by
      simp only [dot3, vsub]; ring
    rw [e, hd', dot3_smul_right, dot3_smul_right, dot3_smul_left, dot3_comm d (L A).uRaw, h1,
      ← norm3_sq, ← norm3_sq, hd]
    field_simp; ring
  funext i
  have := congrFun (dot3_self_eq_zero.1 h2) i
  simp only [vsub, Pi.zero_apply] at this; linarith

/-- C38: the rate function used for sampling the orbit is never negative for `f > 0`, and vanishes
exactly where the gradient along all thrust directions does. -/
theorem C38_sampled_rate (f : ℝ) (psi : Fin 3 → Fin 5 → ℝ) (dq : Fin 5 → ℝ) (hf : 0 < f) :
    0 ≤ evalDqdt f psi dq ∧ (evalDqdt f psi dq = 0 ↔ thrustGrad dq psi = 0) := by
  have e : evalDqdt f psi dq = f * norm3 (thrustGrad dq psi) := by
    rw [← rawControl_eq]
    have h1 : evalDqdt f psi dq = f * (dot3 (rawControl psi dq) (rawControl psi dq) /
        norm3 (rawControl psi dq)) := by
      simp only [evalDqdt, vdivs, dot3, rawControl, norm3, sqrt_real]; ring
    rw [h1, ← norm3_sq]
    by_cases h : norm3 (rawControl psi dq) = 0
    · simp [h]
    · field_simp
  rw [e]
  refine ⟨mul_nonneg hf.le (norm3_nonneg _), ?_⟩
  rw [mul_eq_zero, norm3_eq_zero]
  constructor
  · rintro (h | h)
    · exact absurd h hf.ne'
    · exact h
  · exact Or.inr

/-- a control law whose `Q` grows with the first element, which responds to transverse thrust -/
noncomputable def sampleLyap (_ : LyapArgs ℝ) : LyapOut ℝ :=
  { uRaw := ![0, 6, 0], psi := ![![0, 0, 0, 0, 0], ![3, 0, 0, 0, 0], ![0, 0, 0, 0, 0]],
    q := 1, dqdoe := ![2, 0, 0, 0, 0] }

/-- arguments with unit acceleration -/
noncomputable def sampleArgs : LyapArgs ℝ :=
  { mu := 1, f := 1, oe := 0, oeT := 0, rpmin := 1, m := 1, n := 1, r := 1, b := 1, k := 1, wp := 1,
    woe := 0 }

/-- the hypotheses of C38 are met: thrust against the direction of flight -/
example : ∃ o, lyapunovControlAngles sampleLyap sampleArgs = .ok o ∧ o.dqdt = 6 ∧
    unitDir o.alpha o.beta = ![0, -1, (0 : ℝ)] := by
  obtain ⟨o, h, hd, -, -, hq⟩ := control_value sampleLyap sampleArgs (by
        funext i; fin_cases i <;> simp [sampleLyap, thrustGrad, Fin.sum_univ_five]; norm_num)
      (Or.inr (by simp [sampleLyap]))
  have hn : norm3 (sampleLyap sampleArgs).uRaw = 6 := by simp [sampleLyap, norm3]
  refine ⟨o, h, ?_, ?_⟩
  · rw [hq, hn]; simp [sampleArgs]
  · rw [hd, hn]; funext i; fin_cases i <;> simp [sampleLyap, vsmul]

/-! ## C39 -/

/-- C39: wherever the gradient has an in-plane part (elsewhere the control angles raise), the rate
returned with the control angles is the rate used for sampling, for both element types. -/
theorem C39_rates_agree (A : LyapArgs ℝ) :
    (((kepLyap A).uRaw 0 ≠ 0 ∨ (kepLyap A).uRaw 1 ≠ 0) →
      ∃ o, lyapunovControlAngles kepLyap A = .ok o ∧ o.dqdt = kepDqdt A) ∧
    (((meeLyap A).uRaw 0 ≠ 0 ∨ (meeLyap A).uRaw 1 ≠ 0) →
      ∃ o, lyapunovControlAngles meeLyap A = .ok o ∧ o.dqdt = meeDqdt A) := by
  have key : ∀ (f : ℝ) psi dq, evalDqdt f psi dq = f * norm3 (rawControl psi dq) := by
    intro f psi dq
    have h1 : evalDqdt f psi dq = f * (dot3 (rawControl psi dq) (rawControl psi dq) /
        norm3 (rawControl psi dq)) := by
      simp only [evalDqdt, vdivs, dot3, rawControl, norm3, sqrt_real]; ring
    rw [h1, ← norm3_sq]
    by_cases h : norm3 (rawControl psi dq) = 0
    · simp [h]
    · field_simp
  constructor
  · intro hg
    obtain ⟨o, h, -, -, -, hq⟩ := control_value kepLyap A (C38_raw_control A).1 hg
    exact ⟨o, h, by rw [hq, kepDqdt, key]; rfl⟩
  · intro hg
    obtain ⟨o, h, -, -, -, hq⟩ := control_value meeLyap A (C38_raw_control A).2 hg
    exact ⟨o, h, by rw [hq, meeDqdt, key]; rfl⟩

/-! ## C60 -/

/-- C60 (law-free): only the sum of thrust and perturbation enters the equations of motion. -/
theorem C60_only_sum {α : Type} [Add α] [Sub α] [Mul α] [Div α] [Neg α] [NatCast α] [Pow α ℕ]
    [PyTrans α] [PyOrd α] (P : OdeParams α) (u' ptrb' : Fin 3 → α)
    (h : ∀ i, u' i + ptrb' i = P.u i + P.ptrb i) (t : α) (s : Fin 6 → α) :
    eomKepGauss t s { P with u := u', ptrb := ptrb' } = eomKepGauss t s P ∧
    eomMeeWithAGauss t s { P with u := u', ptrb := ptrb' } = eomMeeWithAGauss t s P ∧
    eomMeeGauss t s { P with u := u', ptrb := ptrb' } = eomMeeGauss t s P := by
  have e : vadd u' ptrb' = vadd P.u P.ptrb := funext h
  refine ⟨?_, ?_, ?_⟩
  · simp only [eomKepGauss, gaussCombine, e]
  · simp only [eomMeeWithAGauss, gaussCombine, e]
  · simp only [eomMeeGauss, e]

/-- a right-hand side that is affine in the acceleration, or raises whatever the acceleration is -/
def AffineInAcc (F : (Fin 3 → ℝ) → (Fin 3 → ℝ) → Except PyErr (Fin 6 → ℝ)) : Prop :=
  (∃ e, ∀ u a, F u a = .error e) ∨
  ∃ (M : Fin 6 → Fin 3 → ℝ) (b : Fin 6 → ℝ), ∀ u a, F u a =
    .ok (fun i => b i + dot3 (M i) (vadd u a))

theorem AffineInAcc.bind {X : Type} (x : Except PyErr X)
    (F : X → (Fin 3 → ℝ) → (Fin 3 → ℝ) → Except PyErr (Fin 6 → ℝ)) (h : ∀ v, AffineInAcc (F v)) :
    AffineInAcc (fun u a => x.bind (fun v => F v u a)) := by
  cases x with
  | error e => exact Or.inl ⟨e, fun _ _ => rfl⟩
  | ok v => exact h v

theorem AffineInAcc.combine (P : OdeParams ℝ) (row : Fin 3 → ℝ) (rate : ℝ) :
    AffineInAcc (fun u a => .ok (gaussCombine { P with u := u, ptrb := a } row rate)) := by
  refine Or.inr ⟨![![P.psi0 0, P.psi1 0, P.psi2 0], ![P.psi0 1, P.psi1 1, P.psi2 1],
    ![P.psi0 2, P.psi1 2, P.psi2 2], ![P.psi0 3, P.psi1 3, P.psi2 3],
    ![P.psi0 4, P.psi1 4, P.psi2 4], row], ![0, 0, 0, 0, 0, rate], fun u a => ?_⟩
  show Except.ok _ = _
  congr 1
  funext i
  fin_cases i <;> simp [gaussCombine]
  ring

/-- C60: at every state and for all coefficients the rates are affine in thrust plus perturbation. -/
theorem C60_affine (P : OdeParams ℝ) (t : ℝ) (s : Fin 6 → ℝ) :
    AffineInAcc (fun u a => eomKepGauss t s { P with u := u, ptrb := a }) ∧
    AffineInAcc (fun u a => eomMeeWithAGauss t s { P with u := u, ptrb := a }) := by
  constructor
  · simp only [eomKepGauss, Bind.bind]
    refine AffineInAcc.bind _ _ fun r => ?_
    refine AffineInAcc.bind _ _ fun c0 => ?_
    refine AffineInAcc.bind _ _ fun c1 => ?_
    refine AffineInAcc.bind _ _ fun rate => ?_
    exact AffineInAcc.combine P _ _
  · simp only [eomMeeWithAGauss, Bind.bind]
    refine AffineInAcc.bind _ _ fun gf => ?_
    refine AffineInAcc.bind _ _ fun r => ?_
    refine AffineInAcc.bind _ _ fun q => ?_
    refine AffineInAcc.bind _ _ fun sw => ?_
    refine AffineInAcc.bind _ _ fun wp => ?_
    exact AffineInAcc.combine P _ _

/-- the non-raising case occurs -/
example : ∃ x, eomKepGauss (0 : ℝ) ![1, 1 / 2, 0, 0, 0, 0]
    { mu := 1, u := 0, psi0 := 0, psi1 := 0, psi2 := 0, ptrb := 0 } = .ok x := by
  have h : Real.sqrt (1 * 1 * (1 - (1 / 2) ^ 2)) ≠ 0 := by
    apply (Real.sqrt_pos.2 _).ne'; norm_num
  have h2 : Real.sqrt (1 * 1 * (1 - (1 / 2) ^ 2)) ^ 2 = 3 / 4 := by
    rw [Real.sq_sqrt (by norm_num)]; norm_num
  simp only [eomKepGauss, Nat.cast_one, sqrt_real, cos_real, sin_real, Matrix.cons_val, Real.cos_zero,
    Real.sin_zero, h2]
  rw [ndiv_real (by norm_num), ndiv_real (by simpa using h)]
  simp only [bind, Except.bind]
  rw [ndiv_real (by simpa using h), ndiv_real (by norm_num)]
  exact ⟨_, rfl⟩

end PyQ
