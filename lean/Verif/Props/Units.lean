import Verif.Proofs.Change
import Verif.Props.Weights
import Mathlib.Analysis.Calculus.Deriv.Shift
import Mathlib.Tactic.FieldSimp

/-! # Units of time, length and mass, and the origin of RAAN (real arithmetic)

C83: measuring the RAAN from another direction changes nothing else. C84: a problem stated in other units
of time, length and mass has the same solution in these units (with `rk4`). -/

set_option linter.unusedSectionVars false
set_option maxRecDepth 100000

noncomputable section

namespace PyQ

/-! ### The control law -/

/-- `K` restates a call in the new variables: the elements change as prescribed and so do single
replacements of an element -/
structure Restates (g : Chg) (K : LyapArgs ℝ → LyapArgs ℝ) : Prop where
  s0 : ∀ j : Fin 5, g.s j.castSucc ≠ 0
  oe : ∀ A, (K A).oe = g.x A.oe
  set : ∀ A j y, (K A).setOe j (g.s j.castSucc * y + g.c j.castSucc) = K (A.setOe j y)

theorem partialQ_change {g : Chg} {K : LyapArgs ℝ → LyapArgs ℝ} (hK : Restates g K)
    {Qf : LyapArgs ℝ → ℝ} (hQ : ∀ A, Qf (K A) = g.q * Qf A) (A : LyapArgs ℝ) (j : Fin 5) :
    partialQ Qf (K A) j = g.q / g.s j.castSucc * partialQ Qf A j := by
  have hs := hK.s0 j
  unfold partialQ
  simp only [diff_real]
  have e : (fun y => Qf ((K A).setOe j y)) =
      fun y => g.q * (fun z => (fun w => Qf (A.setOe j w)) ((g.s j.castSucc)⁻¹ * z)) (y - g.c j.castSucc) := by
    funext y
    have := hK.set A j ((g.s j.castSucc)⁻¹ * (y - g.c j.castSucc))
    rw [← hQ, ← this]
    congr 2
    field_simp
    ring
  rw [e, deriv_const_mul_field,
    deriv_comp_sub_const (f := fun z => (fun w => Qf (A.setOe j w)) ((g.s j.castSucc)⁻¹ * z)),
    deriv_comp_mul_left (g.s j.castSucc)⁻¹ (fun w => Qf (A.setOe j w)), hK.oe]
  have : (g.s j.castSucc)⁻¹ * (g.x A.oe j.castSucc - g.c j.castSucc) = A.oe j.castSucc := by
    simp only [Chg.x]
    field_simp
    ring
  rw [this, smul_eq_mul]
  ring

theorem rawControl_change {g : Chg} (hs : ∀ j : Fin 5, g.s j.castSucc ≠ 0) (psi : Fin 3 → Fin 5 → ℝ)
    (dq : Fin 5 → ℝ) : rawControl (g.psi psi) (fun j => g.q / g.s j.castSucc * dq j) =
      fun c => g.q / (g.t * g.a) * g.dir (rawControl psi dq) c := by
  have e : ∀ j : Fin 5, ∀ x y : ℝ, g.s j.castSucc / (g.t * g.a) * x * (g.q / g.s j.castSucc * y) =
      g.q / (g.t * g.a) * (x * y) := by
    intro j x y
    rw [show g.s j.castSucc / (g.t * g.a) * x * (g.q / g.s j.castSucc * y) =
      g.s j.castSucc * (g.s j.castSucc)⁻¹ * (g.q / (g.t * g.a) * (x * y)) by ring, mul_inv_cancel₀ (hs j),
      one_mul]
  funext c
  simp only [rawControl, Chg.psi, e]
  match c with
  | 0 | 1 | 2 =>
    simp only [Chg.dir, Matrix.cons_val, rawControl]
    ring

theorem norm_dir {g : Chg} (hn : g.n = 1 ∨ g.n = -1) (u : Fin 3 → ℝ) :
    g.dir u 0 ^ 2 + g.dir u 1 ^ 2 + g.dir u 2 ^ 2 = u 0 ^ 2 + u 1 ^ 2 + u 2 ^ 2 := by
  rcases hn with h | h <;> simp [Chg.dir, h]

theorem vdivs_dir (g : Chg) (u : Fin 3 → ℝ) (k : ℝ) : vdivs (g.dir u) k = g.dir (vdivs u k) := by
  funext c
  match c with
  | 0 | 1 | 2 => simp [vdivs, Chg.dir, mul_div_assoc]

theorem angles_dir {g : Chg} (hn : g.n = 1 ∨ g.n = -1) (u : Fin 3 → ℝ) :
    uToThrustAngles (g.dir u) =
      (uToThrustAngles u).map fun p => (g.dir p.1, p.2.1, g.n * p.2.2) := by
  unfold uToThrustAngles
  simp only [norm_dir hn, vdivs_dir]
  generalize vdivs u (PyTrans.sqrt (u 0 ^ 2 + u 1 ^ 2 + u 2 ^ 2)) = w
  have e0 : g.dir w 0 = w 0 := rfl
  have e1 : g.dir w 1 = w 1 := rfl
  have e2 : g.dir w 2 = g.n * w 2 := rfl
  simp only [e0, e1, e2]
  by_cases h0 : (PyTrans.sqrt (w 0 ^ 2 + w 1 ^ 2) : ℝ) = 0
  · rw [h0]
    simp only [ndiv_zero_real]
    rfl
  · simp only [ndiv_real h0, bind, Except.bind, pure, Except.pure, Except.map]
    rcases hn with h | h <;> simp [h, neg_div]

theorem dot3_dir {g : Chg} (hn : g.n = 1 ∨ g.n = -1) (v w : Fin 3 → ℝ) :
    dot3 (g.dir v) (g.dir w) = dot3 v w := by
  rcases hn with h | h <;> simp [dot3, Chg.dir, h]

/-- the control law with Gauss matrix `M` and Lyapunov candidate `Qf` -/
def lawOf (M : LyapArgs ℝ → Fin 3 → Fin 5 → ℝ) (Qf : LyapArgs ℝ → ℝ) (A : LyapArgs ℝ) : LyapOut ℝ :=
  { uRaw := rawControl (M A) (partialQ Qf A), psi := M A, q := Qf A, dqdoe := partialQ Qf A }

theorem law_change {g : Chg} (ht : 0 < g.t) (ha : 0 < g.a) (hq : 0 < g.q) (hn : g.n = 1 ∨ g.n = -1)
    {K : LyapArgs ℝ → LyapArgs ℝ}
    (hK : Restates g K) {Qf : LyapArgs ℝ → ℝ} {M : LyapArgs ℝ → Fin 3 → Fin 5 → ℝ}
    (hf : ∀ A, (K A).f = g.a * A.f) (hQ : ∀ A, Qf (K A) = g.q * Qf A)
    (hM : ∀ A, M (K A) = g.psi (M A)) (A : LyapArgs ℝ) :
    lyapunovControlAngles (lawOf M Qf) (K A) =
      (lyapunovControlAngles (lawOf M Qf) A).map g.out ∧
    evalDqdt (K A).f (M (K A)) (partialQ Qf (K A)) = g.q / g.t * evalDqdt A.f (M A) (partialQ Qf A) := by
  have hp : partialQ Qf (K A) = fun j => g.q / g.s j.castSucc * partialQ Qf A j :=
    funext fun j => partialQ_change hK hQ A j
  have hk : 0 < g.q / (g.t * g.a) := by positivity
  have ha' := ha.ne'
  have ht' := ht.ne'
  have hrow : (fun c => dot5 (fun j => g.q / g.s j.castSucc * partialQ Qf A j) (g.psi (M A) c)) =
      fun c => g.q / (g.t * g.a) * g.dir (fun c => dot5 (partialQ Qf A) (M A c)) c := by
    have e : ∀ (p : Fin 3 → Fin 5 → ℝ) (d : Fin 5 → ℝ), (fun c => dot5 d (p c)) = rawControl p d := by
      intro p d
      funext c
      simp only [dot5, rawControl]
      ring
    rw [e, e]
    exact rawControl_change hK.s0 (M A) (partialQ Qf A)
  constructor
  · unfold lyapunovControlAngles
    simp only [lawOf, hp, hM, hf, hQ, rawControl_change hK.s0, angles_scale hk, angles_dir hn, hrow, bind,
      Except.bind, pure, Except.pure]
    cases uToThrustAngles (rawControl (M A) (partialQ Qf A)) with
    | error e => rfl
    | ok p =>
      obtain ⟨u, al, be⟩ := p
      simp only [Except.map, Chg.out]
      congr 2
      rw [show dot3 (fun c => g.q / (g.t * g.a) * g.dir (fun c => dot5 (partialQ Qf A) (M A c)) c)
          (vsmul (g.a * A.f) (g.dir u)) = g.q / (g.t * g.a) * (g.a * A.f) *
          dot3 (g.dir fun c => dot5 (partialQ Qf A) (M A c)) (g.dir u) by simp only [dot3, vsmul]; ring,
        dot3_dir hn]
      simp only [dot3, vsmul]
      field_simp
  · have hr := rawControl_change hK.s0 (M A) (partialQ Qf A)
    have e : ∀ (j : Fin 5) (w : Fin 3 → ℝ), g.q / g.s j.castSucc * partialQ Qf A j *
        (g.psi (M A) 0 j * g.dir w 0 + g.psi (M A) 1 j * g.dir w 1 + g.psi (M A) 2 j * g.dir w 2) =
        g.q / (g.t * g.a) * (partialQ Qf A j *
        (M A 0 j * w 0 + M A 1 j * w 1 + M A 2 j * w 2)) := by
      intro j w
      have := hK.s0 j
      have hd := dot3_dir hn (fun c => M A c j) w
      simp only [dot3] at hd
      rw [← hd]
      simp only [Chg.psi]
      field_simp
    simp only [evalDqdt, hp, hM, hf, hr, sqrt_real, unit_scale hk, norm_dir hn, vdivs_dir, e]
    field_simp

/-! ### The integrators -/

theorem rk4_change {p p' : OdeParams ℝ} {g : Chg} (ht : g.t ≠ 0)
    {F F' : ℝ → (Fin 6 → ℝ) → OdeParams ℝ → Except PyErr (Fin 6 → ℝ)}
    (h : ∀ t y, F' (g.t * t) (g.x y) p' = (F t y p).map fun r i => g.s i / g.t * r i)
    (t st : ℝ) (y : Fin 6 → ℝ) :
    rk4 F' (g.t * t) (g.t * st) (g.x y) p' = (rk4 F t st y p).map g.x := by
  have e1 : ∀ k : Fin 6 → ℝ, ∀ c : ℝ, vadd (g.x y) (vsmul (g.t * st * c) fun i => g.s i / g.t * k i) =
      g.x (vadd y (vsmul (st * c) k)) := by
    intro k c
    funext i
    simp only [vadd, vsmul, Chg.x]
    field_simp
    ring
  have e2 : ∀ k : Fin 6 → ℝ, vadd (g.x y) (vsmul (g.t * st) fun i => g.s i / g.t * k i) =
      g.x (vadd y (vsmul st k)) := by
    intro k
    have := e1 k 1
    simpa using this
  have e3 : ∀ c : ℝ, g.t * t + c * (g.t * st) = g.t * (t + c * st) := by intro c; ring
  have e4 : g.t * t + g.t * st = g.t * (t + st) := by ring
  unfold rk4
  rw [h]
  cases F t y p with
  | error e => rfl
  | ok k1 =>
    simp only [Except.map, bind, Except.bind, pure, Except.pure, e1, e3, h]
    cases F (t + rat 1 2 * st) (vadd y (vsmul (st * rat 1 2) k1)) p with
    | error e => rfl
    | ok k2 =>
      simp only [e1, h]
      cases F (t + rat 1 2 * st) (vadd y (vsmul (st * rat 1 2) k2)) p with
      | error e => rfl
      | ok k3 =>
        simp only [Except.map, e2, e4, h]
        cases F (t + st) (vadd y (vsmul st k3)) p with
        | error e => rfl
        | ok k4 =>
          show Except.ok _ = Except.ok _
          congr 1
          funext i
          simp only [vadd, vsmul, Chg.x]
          field_simp
          ring

theorem rkf45_shift {p p' : OdeParams ℝ} {c : Fin 6 → ℝ}
    {F F' : ℝ → (Fin 6 → ℝ) → OdeParams ℝ → Except PyErr (Fin 6 → ℝ)}
    (h : ∀ t y, F' t (vadd y c) p' = F t y p) (t st tol : ℝ) (y : Fin 6 → ℝ) :
    rkf45 F' t st (vadd y c) p' tol = (rkf45 F t st y p tol).map fun q => (vadd q.1 c, q.2) := by
  have a1 : ∀ k : Fin 6 → ℝ, vadd (vadd y c) k = vadd (vadd y k) c := by
    intro k; funext i; simp only [vadd]; ring
  have a2 : ∀ x k : Fin 6 → ℝ, vadd (vadd x c) k = vadd (vadd x k) c := by
    intro x k; funext i; simp only [vadd]; ring
  have a3 : ∀ x k : Fin 6 → ℝ, vsub (vadd x c) k = vadd (vsub x k) c := by
    intro x k; funext i; simp only [vadd, vsub]; ring
  have a5 : ∀ x k : Fin 6 → ℝ, vadd (vsub x (vadd k c)) c = vsub x k := by
    intro x k; funext i; simp only [vadd, vsub]; ring
  unfold rkf45
  rw [h]
  cases F t y p with
  | error e => rfl
  | ok k1 =>
    simp only [bind, Except.bind, pure, Except.pure]
    rw [a2, h]
    cases F _ _ p with
    | error e => rfl
    | ok k2 =>
      simp only
      rw [a2, a2, h]
      cases F _ _ p with
      | error e => rfl
      | ok k3 =>
        simp only
        rw [a2, a3, a2, h]
        cases F _ _ p with
        | error e => rfl
        | ok k4 =>
          simp only
          rw [a2, a3, a2, a3, h]
          cases F _ _ p with
          | error e => rfl
          | ok k5 =>
            simp only
            rw [a3, a2, a3, a2, a3, h]
            cases F _ _ p with
            | error e => rfl
            | ok k6 =>
              simp only
              simp only [a2, a3, a5]
              cases ndiv tol _ with
              | error e => rfl
              | ok q => rfl

/-! ### Units -/

/-- units of time, length and mass divided by `T`, `L` and `M` -/
def unitsChg (T L M : ℝ) : Chg where
  t := T
  a := L / T ^ 2
  m := M
  q := T ^ 2
  s := ![L, 1, 1, 1, 1, 1]
  c := fun _ => 0

/-- a call in the new units -/
def LyapArgs.inUnits (T L : ℝ) (A : LyapArgs ℝ) : LyapArgs ℝ :=
  { A with mu := L ^ 3 / T ^ 2 * A.mu, f := L / T ^ 2 * A.f,
           oe := ![L * A.oe 0, A.oe 1, A.oe 2, A.oe 3, A.oe 4, A.oe 5],
           oeT := ![L * A.oeT 0, A.oeT 1, A.oeT 2, A.oeT 3, A.oeT 4], rpmin := L * A.rpmin }

theorem unitsChg_dir (T L M : ℝ) (d : Fin 3 → ℝ) : (unitsChg T L M).dir d = d :=
  Chg.dir_one _ rfl d

theorem unitsChg_x (T L M : ℝ) (x : Fin 6 → ℝ) :
    (unitsChg T L M).x x = ![L * x 0, x 1, x 2, x 3, x 4, x 5] := by
  funext i
  match i with
  | 0 => simp [Chg.x, unitsChg]
  | 1 => simp [Chg.x, unitsChg]
  | 2 => simp [Chg.x, unitsChg]
  | 3 => simp [Chg.x, unitsChg]
  | 4 => simp [Chg.x, unitsChg]
  | 5 => simp [Chg.x, unitsChg]

theorem restates_units {T L M : ℝ} (hL : 0 < L) :
    Restates (unitsChg T L M) (LyapArgs.inUnits T L) := by
  refine ⟨?_, fun A => (unitsChg_x T L M A.oe).symm, ?_⟩
  · intro j
    match j with
    | 0 => simpa [unitsChg] using hL.ne'
    | 1 => simp [unitsChg]
    | 2 => simp [unitsChg]
    | 3 => simp [unitsChg]
    | 4 => simp [unitsChg]
  · intro A j y
    unfold LyapArgs.setOe LyapArgs.inUnits
    simp only
    congr 1
    funext i
    match i, j with
    | 0, 0 => simp [unitsChg]
    | 1, 0 | 2, 0 | 3, 0 | 4, 0 | 5, 0 => simp
    | 0, 1 | 2, 1 | 3, 1 | 4, 1 | 5, 1 => simp
    | 0, 2 | 1, 2 | 3, 2 | 4, 2 | 5, 2 => simp
    | 0, 3 | 1, 3 | 2, 3 | 4, 3 | 5, 3 => simp
    | 0, 4 | 1, 4 | 2, 4 | 3, 4 | 5, 4 => simp
    | 1, 1 => simp [unitsChg]
    | 2, 2 => simp [unitsChg]
    | 3, 3 => simp [unitsChg]
    | 4, 4 => simp [unitsChg]

theorem sqrt_sq_mul {k : ℝ} (hk : 0 ≤ k) (x : ℝ) : Real.sqrt (k ^ 2 * x) = k * Real.sqrt x := by
  rw [Real.sqrt_mul (sq_nonneg k), Real.sqrt_sq hk]

section
variable {T L M : ℝ} (hT : 0 < T) (hL : 0 < L)
include hT hL

/-- angular momentum in the new units -/
theorem angMom_units (a mu z : ℝ) :
    Real.sqrt (L * a * (L ^ 3 / T ^ 2 * mu) * z) = L ^ 2 / T * Real.sqrt (a * mu * z) := by
  rw [← sqrt_sq_mul (by positivity)]
  congr 1
  field_simp

theorem sqrtP_units (p mu : ℝ) : Real.sqrt (L * p / (L ^ 3 / T ^ 2 * mu)) = T / L * Real.sqrt (p / mu) := by
  rw [← sqrt_sq_mul (by positivity)]
  congr 1
  by_cases h : mu = 0
  · simp [h]
  · field_simp

theorem kepOedot_units (A : LyapArgs ℝ) (j : Fin 5) :
    kepOedot (A.inUnits T L) j = (if j = 0 then L / T else 1 / T) * kepOedot A j := by
  have hT' := hT.ne'
  have hL' := hL.ne'
  have e0 : ∀ z w : ℝ, Real.sqrt ((L * A.oe 0) ^ 3 * z / (L ^ 3 / T ^ 2 * A.mu * w)) =
      T * Real.sqrt (A.oe 0 ^ 3 * z / (A.mu * w)) := by
    intro z w
    rw [← sqrt_sq_mul hT.le]
    congr 1
    simp only [div_eq_mul_inv, mul_inv, inv_inv]
    field_simp
  have eh := angMom_units hT hL (A.oe 0) A.mu (1 - A.oe 1 ^ 2)
  have es : ∀ p r c z : ℝ, Real.sqrt ((L * p) ^ 2 * c ^ 2 + (L * p + L * p / r) ^ 2 * z) =
      L * Real.sqrt (p ^ 2 * c ^ 2 + (p + p / r) ^ 2 * z) := by
    intro p r c z
    rw [← sqrt_sq_mul hL.le]
    congr 1
    rw [mul_div_assoc]
    ring
  have er : ∀ h x : ℝ, ∀ p f : ℝ, L * p * (L / T ^ 2 * f) / (L ^ 2 / T * h * x) = 1 / T * (p * f / (h * x)) := by
    intro h x p f
    simp only [div_eq_mul_inv, mul_inv, inv_inv]
    field_simp
  have ep : L * A.oe 0 * (1 - A.oe 1 ^ 2) = L * (A.oe 0 * (1 - A.oe 1 ^ 2)) := by ring
  have hrad : kepOedot (A.inUnits T L) 3 = 1 / T * kepOedot A 3 := by
    simp only [kepOedot, LyapArgs.inUnits, sqrt_real, cos_real, sin_real, Nat.cast_one, Matrix.cons_val]
    rw [eh, ep, mul_assoc (L ^ 2 / T * _), er, ← mul_assoc (Real.sqrt (A.oe 0 * A.mu * (1 - A.oe 1 ^ 2)))]
  match j with
  | 0 =>
    simp only [kepOedot, LyapArgs.inUnits, sqrt_real, Nat.cast_one, Matrix.cons_val, if_true]
    rw [e0]
    field_simp
  | 1 =>
    simp only [kepOedot, LyapArgs.inUnits, sqrt_real, Nat.cast_one, Matrix.cons_val]
    rw [eh, ep, if_neg (by decide)]
    generalize Real.sqrt _ = h
    simp only [div_eq_mul_inv, mul_inv, inv_inv]
    generalize h⁻¹ = h'
    field_simp
  | 2 =>
    simp only [kepOedot, LyapArgs.inUnits, sqrt_real, cos_real, sin_real, Nat.cast_one, Matrix.cons_val]
    rw [eh, ep, er, if_neg (by decide)]
  | 3 => simpa using hrad
  | 4 =>
    have eo : ∀ f e h x : ℝ, L / T ^ 2 * f / (e * (L ^ 2 / T * h)) * (L * x) = 1 / T * (f / (e * h) * x) := by
      intro f e h x
      simp only [div_eq_mul_inv, mul_inv, inv_inv]
      generalize h⁻¹ = h'
      generalize e⁻¹ = e'
      field_simp
    simp only [kepOedot, LyapArgs.inUnits, sqrt_real, cos_real, sin_real, rpow_real, rat_real,
      Nat.cast_one, Matrix.cons_val] at hrad ⊢
    rw [hrad, eh, ep, es, eo, if_neg (by decide)]
    ring

theorem ratio_units (d r : ℝ) : L * d / (L / T * r) = T * (d / r) := by
  rw [show L / T * r = L * (r / T) by ring, mul_div_mul_left _ _ hL.ne', div_div_eq_mul_div]
  ring

theorem ratio_units' (d r : ℝ) : d / (1 / T * r) = T * (d / r) := by
  rw [show 1 / T * r = r / T by ring, div_div_eq_mul_div]
  ring

theorem kepQ_units (A : LyapArgs ℝ) : kepQ (A.inUnits T L) = T ^ 2 * kepQ A := by
  have e := kepOedot_units hT hL A
  have e1 : kepPenalty (A.inUnits T L) = kepPenalty A := by
    simp only [kepPenalty, LyapArgs.inUnits, Matrix.cons_val, mul_assoc, mul_div_mul_left _ _ hL.ne']
  have e2 : kepSoe (A.inUnits T L) = kepSoe A := by
    simp only [kepSoe, LyapArgs.inUnits, Matrix.cons_val, ← mul_sub, mul_left_comm A.m L,
      mul_div_mul_left _ _ hL.ne']
  have d0 : kepDoe (A.inUnits T L) 0 = L * kepDoe A 0 := by
    simp only [kepDoe, LyapArgs.inUnits, Matrix.cons_val, mul_sub]
  have d : ∀ j : Fin 5, j ≠ 0 → kepDoe (A.inUnits T L) j = kepDoe A j := by
    intro j hj
    match j with
    | 0 => exact absurd rfl hj
    | 1 | 2 | 3 | 4 => simp [kepDoe, LyapArgs.inUnits]
  have ew : (A.inUnits T L).woe = A.woe := rfl
  have ep : (A.inUnits T L).wp = A.wp := rfl
  simp only [kepQ, e1, e2, d0, d 1 (by decide), d 2 (by decide), d 3 (by decide), d 4 (by decide), e, ew, ep,
    if_true, if_neg (by decide : ¬ (1 : Fin 5) = 0), if_neg (by decide : ¬ (2 : Fin 5) = 0),
    if_neg (by decide : ¬ (3 : Fin 5) = 0), if_neg (by decide : ¬ (4 : Fin 5) = 0),
    ratio_units hT hL, ratio_units' hT hL]
  ring

theorem meeOedot_units (A : LyapArgs ℝ) (j : Fin 5) :
    meeOedot (A.inUnits T L) j = (if j = 0 then L / T else 1 / T) * meeOedot A j := by
  have hT' := hT.ne'
  have hL' := hL.ne'
  have ep : ∀ z : ℝ, L * A.oe 0 * z = L * (A.oe 0 * z) := fun z => mul_assoc _ _ _
  match j with
  | 0 =>
    simp only [meeOedot, LyapArgs.inUnits, sqrt_real, Nat.cast_one, Matrix.cons_val, if_true,
      sqrtP_units hT hL]
    field_simp
  | 1 | 2 =>
    simp only [meeOedot, LyapArgs.inUnits, sqrt_real, Nat.cast_one, Matrix.cons_val, ep,
      sqrtP_units hT hL]
    rw [if_neg (by decide)]
    field_simp
  | 3 | 4 =>
    simp only [meeOedot, LyapArgs.inUnits, sqrt_real, Nat.cast_one, Matrix.cons_val, ep,
      sqrtP_units hT hL]
    rw [if_neg (by decide)]
    simp only [mul_div_assoc _ (1 + A.oe 3 ^ 2 + A.oe 4 ^ 2)]
    generalize (1 + A.oe 3 ^ 2 + A.oe 4 ^ 2) / _ = z
    field_simp

theorem meeQ_units (A : LyapArgs ℝ) : meeQ (A.inUnits T L) = T ^ 2 * meeQ A := by
  have e := meeOedot_units hT hL A
  have e1 : meePenalty (A.inUnits T L) = meePenalty A := by
    simp only [meePenalty, LyapArgs.inUnits, Matrix.cons_val, mul_assoc, mul_div_mul_left _ _ hL.ne']
  have e2 : meeSoe (A.inUnits T L) = meeSoe A := by
    simp only [meeSoe, LyapArgs.inUnits, Matrix.cons_val, ← mul_sub, mul_left_comm A.m L, mul_pow, sqrt_real,
      sqrt_sq_mul hL.le, mul_div_mul_left _ _ hL.ne']
  have d0 : meeDoe (A.inUnits T L) 0 = L * meeDoe A 0 := by
    simp only [meeDoe, LyapArgs.inUnits, Matrix.cons_val, mul_sub]
  have d : ∀ j : Fin 5, j ≠ 0 → meeDoe (A.inUnits T L) j = meeDoe A j := by
    intro j hj
    match j with
    | 0 => exact absurd rfl hj
    | 1 | 2 | 3 | 4 => simp [meeDoe, LyapArgs.inUnits]
  have ew : (A.inUnits T L).woe = A.woe := rfl
  have ep : (A.inUnits T L).wp = A.wp := rfl
  simp only [meeQ, e1, e2, d0, d 1 (by decide), d 2 (by decide), d 3 (by decide), d 4 (by decide), e, ew, ep,
    if_true, if_neg (by decide : ¬ (1 : Fin 5) = 0), if_neg (by decide : ¬ (2 : Fin 5) = 0),
    if_neg (by decide : ¬ (3 : Fin 5) = 0), if_neg (by decide : ¬ (4 : Fin 5) = 0),
    ratio_units hT hL, ratio_units' hT hL]
  ring

theorem psi_units (M : ℝ) (c : Fin 3) (p : Fin 3 → Fin 5 → ℝ) (j : Fin 5) :
    (unitsChg T L M).psi p c j = (if j = 0 then T else T / L) * p c j := by
  have hT' := hT.ne'
  have hL' := hL.ne'
  match j with
  | 0 =>
    simp [Chg.psi, unitsChg_dir]
    simp [unitsChg]
    exact Or.inl (by field_simp)
  | 1 | 2 | 3 | 4 =>
    simp [Chg.psi, unitsChg_dir]
    simp [unitsChg]
    exact Or.inl (by field_simp)

theorem kepPsi_units (M : ℝ) (A : LyapArgs ℝ) :
    kepPsi (A.inUnits T L) = (unitsChg T L M).psi (kepPsi A) := by
  have hT' := hT.ne'
  have hL' := hL.ne'
  have eh := angMom_units hT hL (A.oe 0) A.mu (1 - A.oe 1 ^ 2)
  have ep : L * A.oe 0 * (1 - A.oe 1 ^ 2) = L * (A.oe 0 * (1 - A.oe 1 ^ 2)) := by ring
  have er : ∀ h z : ℝ, (L ^ 2 / T * h) ^ 2 / (L ^ 3 / T ^ 2 * A.mu * z) = L * (h ^ 2 / (A.mu * z)) := by
    intro h z
    simp only [div_eq_mul_inv, mul_inv, inv_inv]
    generalize A.mu⁻¹ = m'
    generalize z⁻¹ = z'
    field_simp
  funext c j
  rw [psi_units hT hL]
  match c, j with
  | 0, 0 | 0, 1 | 0, 4 | 1, 0 | 1, 1 | 1, 4 | 2, 2 | 2, 3 | 2, 4 =>
    simp only [kepPsi, LyapArgs.inUnits, sqrt_real, cos_real, sin_real, Nat.cast_one, Matrix.cons_val, eh, ep, er]
    generalize Real.sqrt _ = h
    generalize h ^ 2 / _ = r
    first
    | rw [if_pos trivial]
    | rw [if_neg (by decide)]
    simp only [div_eq_mul_inv, mul_inv, inv_inv]
    generalize h⁻¹ = h'
    generalize r⁻¹ = r'
    generalize (A.oe 1)⁻¹ = e'
    generalize (Real.sin (A.oe 2))⁻¹ = s'
    field_simp
    try ring
  | 0, 2 | 0, 3 | 1, 2 | 1, 3 | 2, 0 | 2, 1 => simp [kepPsi]

theorem meePsi_units (M : ℝ) (A : LyapArgs ℝ) :
    meePsi (A.inUnits T L) = (unitsChg T L M).psi (meePsi A) := by
  have hT' := hT.ne'
  have hL' := hL.ne'
  have eh := angMom_units hT hL (A.oe 0) A.mu
  have ep : ∀ z : ℝ, L * A.oe 0 * z = L * (A.oe 0 * z) := fun z => mul_assoc _ _ _
  have er : ∀ h z : ℝ, (L ^ 2 / T * h) ^ 2 / (L ^ 3 / T ^ 2 * A.mu * z) = L * (h ^ 2 / (A.mu * z)) := by
    intro h z
    simp only [div_eq_mul_inv, mul_inv, inv_inv]
    generalize A.mu⁻¹ = m'
    generalize z⁻¹ = z'
    field_simp
  funext c j
  rw [psi_units hT hL]
  match c, j with
  | 0, 0 | 1, 0 =>
    simp only [meePsi, LyapArgs.inUnits, sqrt_real, cos_real, sin_real, arctan_real, Nat.cast_one,
      Matrix.cons_val, eh, er]
    rw [if_pos trivial]
    generalize Real.sqrt (A.oe 0 * A.mu * _) = h
    generalize h ^ 2 / _ = r
    simp only [div_eq_mul_inv, mul_inv, inv_inv]
    generalize h⁻¹ = h'
    generalize r⁻¹ = r'
    field_simp
    try ring
  | 0, 1 | 0, 2 | 1, 1 | 1, 2 | 2, 1 | 2, 2 | 2, 3 | 2, 4 =>
    simp only [meePsi, LyapArgs.inUnits, sqrt_real, cos_real, sin_real, arctan_real, Nat.cast_one,
      Matrix.cons_val, ep, sqrtP_units hT hL]
    rw [if_neg (by decide)]
    ring
  | 0, 3 | 0, 4 | 1, 3 | 1, 4 | 2, 0 => simp [meePsi]

/-! ### Equations of motion -/

theorem ndiv_scale {k l : ℝ} (hl : l ≠ 0) (x y : ℝ) :
    ndiv (k * x) (l * y) = (ndiv x y).map (k / l * ·) := by
  by_cases hy : y = 0
  · subst hy
    simp [ndiv, Except.map]
  · rw [ndiv_real hy, ndiv_real (mul_ne_zero hl hy), Except.map, mul_div_mul_comm]

omit hL in
theorem ndiv_map {k l x y : ℝ} (hl : l ≠ 0) {x' y' : ℝ} (hx : x' = k * x) (hy : y' = l * y) :
    ndiv x' y' = (ndiv x y).map (k / l * ·) := by
  rw [hx, hy, ndiv_scale hT hT hl]

theorem gauss_units (M : ℝ) {p p' : OdeParams ℝ} {psi : Fin 3 → Fin 5 → ℝ}
    (h0 : p.psi0 = psi 0) (h1 : p.psi1 = psi 1) (h2 : p.psi2 = psi 2)
    (hu : p'.u = (unitsChg T L M).acc p.u) (hp : p'.ptrb = (unitsChg T L M).acc p.ptrb)
    (h0' : p'.psi0 = (unitsChg T L M).psi psi 0) (h1' : p'.psi1 = (unitsChg T L M).psi psi 1)
    (h2' : p'.psi2 = (unitsChg T L M).psi psi 2) (row : Fin 3 → ℝ) (rate : ℝ) {row' : Fin 3 → ℝ} {rate' : ℝ}
    (hr : row' = fun c => T / L * row c) (hrate : rate' = 1 / T * rate) :
    gaussCombine p' row' rate' = fun i => (unitsChg T L M).s i / (unitsChg T L M).t *
      gaussCombine p row rate i := by
  have hT' := hT.ne'
  have hL' := hL.ne'
  have es : ∀ j : Fin 5, (unitsChg T L M).s j.castSucc = if j = 0 then L else 1 := by
    intro j
    match j with
    | 0 | 1 | 2 | 3 | 4 => simp [unitsChg]
  funext i
  match i with
  | 0 | 1 | 2 | 3 | 4 =>
    simp only [gaussCombine, h0, h1, h2, hu, hp, h0', h1', h2', dot3, vadd, psi_units hT hL]
    simp only [Chg.acc, unitsChg_dir]
    simp [unitsChg]
    field_simp
  | 5 =>
    simp only [gaussCombine, hu, hp, hr, hrate, dot3, vadd]
    simp only [Chg.acc, unitsChg_dir]
    simp [unitsChg]
    field_simp

theorem eomKep_units (M : ℝ) {p p' : OdeParams ℝ} {psi : Fin 3 → Fin 5 → ℝ}
    (h0 : p.psi0 = psi 0) (h1 : p.psi1 = psi 1) (h2 : p.psi2 = psi 2)
    (hu : p'.u = (unitsChg T L M).acc p.u) (hp : p'.ptrb = (unitsChg T L M).acc p.ptrb)
    (h0' : p'.psi0 = (unitsChg T L M).psi psi 0) (h1' : p'.psi1 = (unitsChg T L M).psi psi 1)
    (h2' : p'.psi2 = (unitsChg T L M).psi psi 2) (hm : p'.mu = L ^ 3 / T ^ 2 * p.mu) (t t' : ℝ)
    (y : Fin 6 → ℝ) :
    eomKepGauss t' ((unitsChg T L M).x y) p' = (eomKepGauss t y p).map fun r i =>
      (unitsChg T L M).s i / (unitsChg T L M).t * r i := by
  have hT' := hT.ne'
  have hL' := hL.ne'
  have eh := angMom_units hT hL (y 0) p.mu
  have ep : ∀ z : ℝ, L * y 0 * z = L * (y 0 * z) := fun z => mul_assoc _ _ _
  unfold eomKepGauss
  simp only [unitsChg_x, Matrix.cons_val, hm, sqrt_real, cos_real, sin_real, eh]
  generalize hh : Real.sqrt (y 0 * p.mu * _) = h
  rw [ndiv_map hT (k := (L ^ 2 / T) ^ 2) (l := L ^ 3 / T ^ 2) (x := h ^ 2)
    (y := p.mu * (((1 : ℕ) : ℝ) + y 1 * Real.cos (y 5))) (by positivity) (by ring) (by ring)]
  cases ndiv (h ^ 2) (p.mu * (((1 : ℕ) : ℝ) + y 1 * Real.cos (y 5))) with
  | error e => rfl
  | ok r =>
    have er : (L ^ 2 / T) ^ 2 / (L ^ 3 / T ^ 2) * r = L * r := by field_simp
    simp only [Except.map, bind, Except.bind, er]
    rw [ndiv_map hT (k := L) (l := L ^ 2 / T) (x := y 0 * (((1 : ℕ) : ℝ) - y 1 ^ 2) * Real.cos (y 5))
      (y := y 1 * h) (by positivity) (by ring) (by ring)]
    cases ndiv (y 0 * (((1 : ℕ) : ℝ) - y 1 ^ 2) * Real.cos (y 5)) (y 1 * h) with
    | error e => rfl
    | ok c0 =>
      simp only [Except.map]
      rw [ndiv_map hT (k := L) (l := L ^ 2 / T)
        (x := -(y 0 * (((1 : ℕ) : ℝ) - y 1 ^ 2) + r) * Real.sin (y 5))
        (y := y 1 * h) (by positivity) (by ring) (by ring)]
      cases ndiv (-(y 0 * (((1 : ℕ) : ℝ) - y 1 ^ 2) + r) * Real.sin (y 5)) (y 1 * h) with
      | error e => rfl
      | ok c1 =>
        simp only [Except.map]
        rw [ndiv_map hT (k := L ^ 2 / T) (l := L ^ 2) (x := h) (y := r ^ 2) (by positivity) (by ring)
          (by ring)]
        cases ndiv h (r ^ 2) with
        | error e => rfl
        | ok rate =>
          simp only [Except.map, pure, Except.pure]
          congr 1
          refine gauss_units hT hL M h0 h1 h2 hu hp h0' h1' h2' _ rate ?_ ?_
          · funext c
            match c with
            | 0 | 1 => simp; exact Or.inl (by field_simp)
            | 2 => simp
          · field_simp

theorem eomMee_units (M : ℝ) {p p' : OdeParams ℝ} {psi : Fin 3 → Fin 5 → ℝ}
    (h0 : p.psi0 = psi 0) (h1 : p.psi1 = psi 1) (h2 : p.psi2 = psi 2)
    (hu : p'.u = (unitsChg T L M).acc p.u) (hp : p'.ptrb = (unitsChg T L M).acc p.ptrb)
    (h0' : p'.psi0 = (unitsChg T L M).psi psi 0) (h1' : p'.psi1 = (unitsChg T L M).psi psi 1)
    (h2' : p'.psi2 = (unitsChg T L M).psi psi 2) (hm : p'.mu = L ^ 3 / T ^ 2 * p.mu) (t t' : ℝ)
    (y : Fin 6 → ℝ) :
    eomMeeWithAGauss t' ((unitsChg T L M).x y) p' = (eomMeeWithAGauss t y p).map fun r i =>
      (unitsChg T L M).s i / (unitsChg T L M).t * r i := by
  have hT' := hT.ne'
  have hL' := hL.ne'
  have eh := angMom_units hT hL (y 0) p.mu
  have em : ∀ z : ℝ, Real.sqrt (L ^ 3 / T ^ 2 * p.mu * (L * z)) = L ^ 2 / T * Real.sqrt (p.mu * z) := by
    intro z
    rw [← sqrt_sq_mul (by positivity)]
    congr 1
    field_simp
  have ep : ∀ z : ℝ, L * y 0 * z = L * (y 0 * z) := fun z => mul_assoc _ _ _
  unfold eomMeeWithAGauss
  simp only [unitsChg_x, Matrix.cons_val, hm, sqrt_real, cos_real, sin_real, arctan_real, eh]
  simp only [ep, em]
  cases ndiv (y 2) (y 1) with
  | error e => rfl
  | ok gf =>
    simp only [bind, Except.bind]
    generalize Real.sqrt (y 1 ^ 2 + y 2 ^ 2) = ecc
    generalize hh : Real.sqrt (y 0 * p.mu * _) = h
    rw [ndiv_map hT (k := (L ^ 2 / T) ^ 2) (l := L ^ 3 / T ^ 2) (x := h ^ 2)
      (y := p.mu * (((1 : ℕ) : ℝ) + ecc * Real.cos (y 5 - Real.arctan gf))) (by positivity) (by ring) (by ring)]
    cases ndiv (h ^ 2) (p.mu * (((1 : ℕ) : ℝ) + ecc * Real.cos (y 5 - Real.arctan gf))) with
    | error e => rfl
    | ok r =>
      simp only [Except.map]
      rw [ndiv_map hT (k := L) (l := L ^ 3 / T ^ 2) (x := y 0 * (((1 : ℕ) : ℝ) - ecc ^ 2)) (y := p.mu)
        (by positivity) (by ring) (by ring)]
      cases ndiv (y 0 * (((1 : ℕ) : ℝ) - ecc ^ 2)) p.mu with
      | error e => rfl
      | ok q =>
        have eq : Real.sqrt (L / (L ^ 3 / T ^ 2) * q) = T / L * Real.sqrt q := by
          rw [← sqrt_sq_mul (by positivity)]
          congr 1
          field_simp
        simp only [Except.map, eq]
        rw [ndiv_map hT (k := T / L) (l := 1) (x := Real.sqrt q)
          (y := ((1 : ℕ) : ℝ) + y 1 * Real.cos (y 5) + y 2 * Real.sin (y 5)) one_ne_zero rfl
          (by ring)]
        cases ndiv (Real.sqrt q) (((1 : ℕ) : ℝ) + y 1 * Real.cos (y 5) + y 2 * Real.sin (y 5)) with
        | error e => rfl
        | ok sw =>
          simp only [Except.map]
          rw [ndiv_map hT (k := 1) (l := L)
            (x := ((1 : ℕ) : ℝ) + y 1 * Real.cos (y 5) + y 2 * Real.sin (y 5))
            (y := y 0 * (((1 : ℕ) : ℝ) - ecc ^ 2)) hL' (by ring) rfl]
          cases ndiv (((1 : ℕ) : ℝ) + y 1 * Real.cos (y 5) + y 2 * Real.sin (y 5))
            (y 0 * (((1 : ℕ) : ℝ) - ecc ^ 2)) with
          | error e => rfl
          | ok wp =>
            simp only [Except.map, pure, Except.pure]
            congr 1
            refine gauss_units hT hL M h0 h1 h2 hu hp h0' h1' h2' _ _ ?_ ?_
            · funext c
              match c with
              | 0 | 1 => simp
              | 2 => simp; ring
            · field_simp

end

/-! ### The run in other units -/

/-- elements in the new unit of length -/
def stateIn (L : ℝ) (x : Fin 6 → ℝ) : Fin 6 → ℝ := ![L * x 0, x 1, x 2, x 3, x 4, x 5]

/-- the settings in the new units: gravitational parameter, minimum periapsis radius, and the bounds and
tolerances of the semi-major axis; `pert` is the perturbation in the new units -/
def Config.inUnits (T L : ℝ) (pert : Option (ℝ → (Fin 6 → ℝ) → ElemType → Except PyErr (Fin 3 → ℝ)))
    (C : Config ℝ) : Config ℝ :=
  { C with mu := L ^ 3 / T ^ 2 * C.mu, rpmin := L * C.rpmin, oeMin := C.oeMin.modify 0 (L * ·),
           oeMax := C.oeMax.modify 0 (L * ·),
           tolOe := ![L * C.tolOe 0, C.tolOe 1, C.tolOe 2, C.tolOe 3, C.tolOe 4],
           tolOeRelaxed := ![L * C.tolOeRelaxed 0, C.tolOeRelaxed 1, C.tolOeRelaxed 2,
             C.tolOeRelaxed 3, C.tolOeRelaxed 4], perturbations := pert }

/-- the problem in the new units; with `use_sundman` the step is an angle and keeps its value -/
def Problem.inUnits (T L M : ℝ) (sundman : Bool) (P : Problem ℝ) : Problem ℝ :=
  { P with oe0 := stateIn L P.oe0, oeT := P.oeT.modify 0 (L * ·), mass0 := M * P.mass0,
           tmax := M * (L / T ^ 2) * P.tmax, mdot := M / T * P.mdot, tfMax := T * P.tfMax,
           tStep := if sundman then P.tStep else T * P.tStep, massMin := M * P.massMin,
           dutyOn := T * P.dutyOn, dutyOff := T * P.dutyOff, chargeRate := P.chargeRate / T,
           dischargeRate := P.dischargeRate / T }

/-- the two perturbations are the same acceleration in the old and in the new units -/
def PertInUnits (T L : ℝ) (et : ElemType)
    (f f' : Option (ℝ → (Fin 6 → ℝ) → ElemType → Except PyErr (Fin 3 → ℝ))) : Prop :=
  match f, f' with
  | none, none => True
  | some f, some f' => ∀ t x, f' (T * t) (stateIn L x) et = (f t x et).map fun a c => L / T ^ 2 * a c
  | _, _ => False

theorem pymin_scale {k : ℝ} (hk : 0 < k) (x y : ℝ) : pymin (k * x) (k * y) = k * pymin x y := by
  unfold pymin
  rw [lt_change hk]
  split <;> rfl

theorem pymax_scale {k : ℝ} (hk : 0 < k) (x y : ℝ) : pymax (k * x) (k * y) = k * pymax x y := by
  unfold pymax
  rw [lt_change hk]
  split <;> rfl

theorem safety_units {L : ℝ} (hL : 0 < L) (x : Fin 6 → ℝ) (lo hi : List ℝ) :
    elementsSafety (stateIn L x) (lo.modify 0 (L * ·)) (hi.modify 0 (L * ·)) =
      (elementsSafety x lo hi).map (stateIn L) := by
  match lo, hi with
  | l0 :: l1 :: l2 :: l3 :: l4 :: lo, u0 :: u1 :: u2 :: u3 :: u4 :: hi =>
    simp only [List.modify_zero_cons, elementsSafety, stateIn, Matrix.cons_val, pymax_scale hL,
      pymin_scale hL, Except.map]
  | [], _ => simp [elementsSafety, Except.map]
  | [_], _ => simp [elementsSafety, Except.map]
  | [_, _], _ => simp [elementsSafety, Except.map]
  | [_, _, _], _ => simp [elementsSafety, Except.map]
  | [_, _, _, _], _ => simp [elementsSafety, Except.map]
  | _ :: _ :: _ :: _ :: _ :: _, [] => simp [elementsSafety, Except.map]
  | _ :: _ :: _ :: _ :: _ :: _, [_] => simp [elementsSafety, Except.map]
  | _ :: _ :: _ :: _ :: _ :: _, [_, _] => simp [elementsSafety, Except.map]
  | _ :: _ :: _ :: _ :: _ :: _, [_, _, _] => simp [elementsSafety, Except.map]
  | _ :: _ :: _ :: _ :: _ :: _, [_, _, _, _] => simp [elementsSafety, Except.map]

theorem choose_units {T L : ℝ} (hT : 0 < T) (hL : 0 < L) (C : Config ℝ) (P : Problem ℝ) (M : ℝ)
    (pert : Option (ℝ → (Fin 6 → ℝ) → ElemType → Except PyErr (Fin 3 → ℝ))) (x : Fin 6 → ℝ) :
    chooseStep (C.inUnits T L pert) (P.inUnits T L M C.useSundman) (stateIn L x) =
      (chooseStep C P x).map (T * ·) := by
  have es : Real.sqrt ((L * x 0) ^ 3 / (L ^ 3 / T ^ 2 * C.mu)) = T * Real.sqrt (x 0 ^ 3 / C.mu) := by
    rw [← sqrt_sq_mul hT.le]
    congr 1
    simp only [div_eq_mul_inv, mul_inv, inv_inv]
    generalize C.mu⁻¹ = m'
    field_simp
  have hsun : ∀ st ecc E0 p : ℝ, sundmanStep st ecc E0 (T * p) = T * sundmanStep st ecc E0 p := by
    intro st ecc E0 p
    unfold sundmanStep
    simp only
    split <;> ring
  unfold chooseStep
  have e1 : (C.inUnits T L pert).useSundman = C.useSundman := rfl
  have e2 : (C.inUnits T L pert).elementsType = C.elementsType := rfl
  have e3 : (C.inUnits T L pert).mu = L ^ 3 / T ^ 2 * C.mu := rfl
  rw [e1, e2, e3]
  cases hu : C.useSundman with
  | false => simp [Problem.inUnits, Except.map, pure, Except.pure]
  | true =>
    simp only [if_true]
    cases C.elementsType with
    | keplerian =>
      simp only [stateIn, Matrix.cons_val, sqrt_real, es, mul_left_comm _ T]
      cases ta2ea (x 5) (x 1) with
      | error e => rfl
      | ok E0 =>
        simp [bind, Except.bind, pure, Except.pure, Except.map, Problem.inUnits, hsun]
    | meeWithA =>
      have em : mee2ea ![L * x 0, x 1, x 2, x 3, x 4, x 5] = mee2ea x := rfl
      simp only [stateIn, Matrix.cons_val, sqrt_real, es, mul_left_comm _ T, em]
      cases mee2ea x with
      | error e => rfl
      | ok E0 =>
        simp [bind, Except.bind, pure, Except.pure, Except.map, Problem.inUnits, hsun]

theorem flags_units {L : ℝ} (hL : 0 < L) (d d' w tol : Fin 5 → ℝ) (h0 : d' 0 = L * d 0)
    (h : ∀ j, j ≠ 0 → d' j = d j) :
    checkFlags d' w ![L * tol 0, tol 1, tol 2, tol 3, tol 4] = checkFlags d w tol := by
  unfold checkFlags
  have : (fun idx : Fin 5 => if PyOrd.eq (w idx) ((0 : ℕ) : ℝ) then 1
      else if PyOrd.le (d' idx) (![L * tol 0, tol 1, tol 2, tol 3, tol 4] idx) then (1 : ℕ) else 0) =
      fun idx => if PyOrd.eq (w idx) ((0 : ℕ) : ℝ) then 1
      else if PyOrd.le (d idx) (tol idx) then 1 else 0 := by
    funext i
    match i with
    | 0 => simp only [Matrix.cons_val, h0, le_change hL]
    | 1 => simp only [Matrix.cons_val, h 1 (by decide)]
    | 2 => simp only [Matrix.cons_val, h 2 (by decide)]
    | 3 => simp only [Matrix.cons_val, h 3 (by decide)]
    | 4 => simp only [Matrix.cons_val, h 4 (by decide)]
  rw [this]

theorem conv_units {L : ℝ} (hL : 0 < L) (et : ElemType) (x : Fin 6 → ℝ) (v w tol : Fin 5 → ℝ) :
    (dynOf (α := ℝ) et).checkConv (stateIn L x) ![L * v 0, v 1, v 2, v 3, v 4] w
      ![L * tol 0, tol 1, tol 2, tol 3, tol 4] = (dynOf (α := ℝ) et).checkConv x v w tol := by
  cases et with
  | keplerian =>
    refine flags_units hL _ _ w tol ?_ ?_
    · simp only [stateIn, Matrix.cons_val, ← mul_sub, abs_real, abs_mul, abs_of_pos hL]
    · intro j hj
      match j with
      | 0 => exact absurd rfl hj
      | 1 | 2 | 3 | 4 => rfl
  | meeWithA =>
    refine flags_units hL _ _ w tol ?_ ?_
    · show PyOrd.abs (L * v 0 - L * x 0) = L * PyOrd.abs (v 0 - x 0)
      simp only [← mul_sub, abs_real, abs_mul, abs_of_pos hL]
    · intro j hj
      match j with
      | 0 => exact absurd rfl hj
      | 1 | 2 | 3 | 4 => rfl

theorem asVec5_modify (l : List ℝ) (k : ℕ) (f : ℝ → ℝ) :
    (∃ e, asVec5 l = .error e ∧ asVec5 (l.modify k f) = .error e) ∨
      ∃ v v' : Fin 5 → ℝ, asVec5 l = .ok v ∧ asVec5 (l.modify k f) = .ok v' ∧
        ∀ i : Fin 5, v' i = if (i : ℕ) = k then f (v i) else v i := by
  by_cases hl : l.length = 5
  · match l, hl with
    | [a, b, c, d, e], _ =>
      refine Or.inr ⟨![a, b, c, d, e], ?_⟩
      match k with
      | 0 | 1 | 2 | 3 | 4 =>
        refine ⟨_, rfl, rfl, fun i => ?_⟩
        match i with
        | 0 | 1 | 2 | 3 | 4 => simp
      | k + 5 =>
        refine ⟨_, rfl, by simp [asVec5]; rfl, fun i => ?_⟩
        have : ¬ (i : ℕ) = k + 5 := by omega
        rw [if_neg this]
  · have he : ∀ l : List ℝ, l.length ≠ 5 → asVec5 l = .error .valueError := by
      intro l hl
      unfold asVec5
      split
      · simp at hl
      · rfl
    exact Or.inl ⟨_, he l hl, he _ (by simpa using hl)⟩

section runs
variable [PyNan ℝ] {T L M : ℝ}

theorem propagate_units (hT : 0 < T) (hL : 0 < L) {E : Env ℝ} {et : ElemType} (hd : E.cfg.dyn = dynOf et)
    (hi : E.cfg.integrator = .rk4) {P' : Problem ℝ} {etaA' etaR' : EtaArg ℝ}
    {pert : Option (ℝ → (Fin 6 → ℝ) → ElemType → Except PyErr (Fin 3 → ℝ))}
    (hp : PertInUnits T L E.cfg.elementsType E.cfg.perturbations pert) (s : LoopSt ℝ) (h : ℝ)
    (v : Fin 5 → ℝ) (c : Ctl ℝ) :
    propagatePhase { cfg := E.cfg.inUnits T L pert, prob := P', etaA := etaA', etaR := etaR' }
        ((unitsChg T L M).st s) ((unitsChg T L M).t * h) ((unitsChg T L M).ctl v c) =
      (propagatePhase E s h c).map fun p => ((unitsChg T L M).x p.1, (unitsChg T L M).t * p.2) := by
  have key : ∀ ptrb : Fin 3 → ℝ,
      rk4 E.cfg.dyn.eom ((unitsChg T L M).t * s.t) ((unitsChg T L M).t * h) ((unitsChg T L M).x s.oe)
        { mu := L ^ 3 / T ^ 2 * E.cfg.mu, u := (unitsChg T L M).acc c.u,
          psi0 := (unitsChg T L M).psi c.psi 0, psi1 := (unitsChg T L M).psi c.psi 1,
          psi2 := (unitsChg T L M).psi c.psi 2, ptrb := (unitsChg T L M).acc ptrb } =
      (rk4 E.cfg.dyn.eom s.t h s.oe
        { mu := E.cfg.mu, u := c.u, psi0 := c.psi 0, psi1 := c.psi 1, psi2 := c.psi 2,
          ptrb := ptrb }).map (unitsChg T L M).x := by
    intro ptrb
    refine rk4_change hT.ne' ?_ s.t h s.oe
    intro t y
    rw [hd]
    cases et with
    | keplerian =>
      exact eomKep_units hT hL M (psi := c.psi) rfl rfl rfl rfl rfl rfl rfl rfl rfl t ((unitsChg T L M).t * t) y
    | meeWithA =>
      exact eomMee_units hT hL M (psi := c.psi) rfl rfl rfl rfl rfl rfl rfl rfl rfl t ((unitsChg T L M).t * t) y
  unfold propagatePhase
  simp only [Config.inUnits, hi]
  have go : ∀ ptrb : Fin 3 → ℝ, (do
      let oeNext ← rk4 E.cfg.dyn.eom ((unitsChg T L M).t * s.t) ((unitsChg T L M).t * h)
        ((unitsChg T L M).x s.oe)
        { mu := L ^ 3 / T ^ 2 * E.cfg.mu, u := (unitsChg T L M).acc c.u,
          psi0 := (unitsChg T L M).psi c.psi 0, psi1 := (unitsChg T L M).psi c.psi 1,
          psi2 := (unitsChg T L M).psi c.psi 2, ptrb := (unitsChg T L M).acc ptrb }
      pure (oeNext, (unitsChg T L M).t * h)) =
      (do
        let oeNext ← rk4 E.cfg.dyn.eom s.t h s.oe
          { mu := E.cfg.mu, u := c.u, psi0 := c.psi 0, psi1 := c.psi 1, psi2 := c.psi 2, ptrb := ptrb }
        pure (oeNext, h) : Except PyErr _).map fun p => ((unitsChg T L M).x p.1, (unitsChg T L M).t * p.2) := by
    intro ptrb
    rw [key]
    cases rk4 E.cfg.dyn.eom s.t h s.oe
      { mu := E.cfg.mu, u := c.u, psi0 := c.psi 0, psi1 := c.psi 1, psi2 := c.psi 2, ptrb := ptrb } <;> rfl
  cases hq : E.cfg.perturbations with
  | none =>
    rw [hq] at hp
    cases pert with
    | some f => exact hp.elim
    | none =>
      have := go zero3
      rw [← acc_zero] at this
      exact this
  | some f =>
    rw [hq] at hp
    cases pert with
    | none => exact hp.elim
    | some f' =>
      have e := hp s.t s.oe
      rw [show stateIn L s.oe = (unitsChg T L M).x s.oe from (unitsChg_x T L M s.oe).symm] at e
      show (f' ((unitsChg T L M).t * s.t) ((unitsChg T L M).x s.oe) E.cfg.elementsType).bind _ = _
      rw [show (unitsChg T L M).t = T from rfl, e]
      cases hf : f s.t s.oe E.cfg.elementsType with
      | error e => simp only [hf]; rfl
      | ok a =>
        simp only [hf]
        have := go a
        rw [show (unitsChg T L M).acc a = fun c => L / T ^ 2 * a c by
          unfold Chg.acc; rw [unitsChg_dir]; rfl] at this
        exact this

theorem change_units (hT : 0 < T) (hL : 0 < L) (hM : 0 < M) {Q : QLaw ℝ} {P : Problem ℝ} {et : ElemType}
    {etaA etaR etaA' etaR' : EtaArg ℝ}
    {pert : Option (ℝ → (Fin 6 → ℝ) → ElemType → Except PyErr (Fin 3 → ℝ))}
    (hd : Q.cfg.dyn = dynOf et) (hi : Q.cfg.integrator = .rk4)
    (hp : PertInUnits T L Q.cfg.elementsType Q.cfg.perturbations pert)
    (hA : ∀ t x m b, evalEta etaA' (T * t) (stateIn L x) (M * m) b = evalEta etaA t x m b)
    (hR : ∀ t x m b, evalEta etaR' (T * t) (stateIn L x) (M * m) b = evalEta etaR t x m b) :
    Change (unitsChg T L M) (envOf Q P etaA etaR)
      { cfg := Q.cfg.inUnits T L pert, prob := P.inUnits T L M Q.cfg.useSundman, etaA := etaA',
        etaR := etaR' } where
  t0 := hT
  a0 := by show 0 < L / T ^ 2; positivity
  m0 := hM
  q0 := by show 0 < T ^ 2; positivity
  s5 := rfl
  prob := ⟨rfl, rfl, rfl, rfl, rfl, rfl, rfl, rfl, rfl, rfl, rfl⟩
  et := rfl
  grid := rfl
  nan := rfl
  relaxedAt := rfl
  n1 := Or.inl rfl
  nanN := fun x => by rw [show (unitsChg T L M).n = 1 from rfl, one_mul]
  clamp := fun _ x => by
    rw [unitsChg_x]
    have : (unitsChg T L M).x = stateIn L := funext (unitsChg_x T L M)
    rw [this]
    exact safety_units hL x Q.cfg.oeMin Q.cfg.oeMax
  choose := fun x => by
    rw [unitsChg_x]
    exact choose_units hT hL Q.cfg P M pert x
  prop := fun s h v c => propagate_units (E := envOf Q P etaA etaR) hT hL hd hi hp s h v c
  etaA := fun t x m b => by rw [unitsChg_x]; exact hA t x m b
  etaR := fun t x m b => by rw [unitsChg_x]; exact hR t x m b
  tgt := by
    rcases asVec5_modify P.oeT 0 (L * ·) with h | ⟨v, v', h1, h2, h3⟩
    · exact Or.inl h
    · have hv' : v' = ![L * v 0, v 1, v 2, v 3, v 4] := by
        funext i
        rw [h3 i]
        match i with
        | 0 | 1 | 2 | 3 | 4 => simp
      subst hv'
      refine Or.inr ⟨v, _, h1, h2, ?_⟩
      have hl : ∀ accel x, lyapArgs (Q.cfg.inUnits T L pert) (P.inUnits T L M Q.cfg.useSundman)
          ![L * v 0, v 1, v 2, v 3, v 4] ((unitsChg T L M).a * accel) ((unitsChg T L M).x x) =
          (lyapArgs Q.cfg P v accel x).inUnits T L := by
        intro accel x
        rw [unitsChg_x]
        rfl
      have ha : 0 < (unitsChg T L M).a := by show 0 < L / T ^ 2; positivity
      have hq : 0 < (unitsChg T L M).q := by show 0 < T ^ 2; positivity
      have law := fun A => law_change (g := unitsChg T L M) hT ha hq (Or.inl rfl) (restates_units hL) (M := kepPsi)
        (Qf := kepQ) (fun _ => rfl) (kepQ_units hT hL) (kepPsi_units hT hL M) A
      have law' := fun A => law_change (g := unitsChg T L M) hT ha hq (Or.inl rfl) (restates_units hL) (M := meePsi)
        (Qf := meeQ) (fun _ => rfl) (meeQ_units hT hL) (meePsi_units hT hL M) A
      constructor
      · intro accel x
        show lyapunovControlAngles Q.cfg.dyn.lyapFun _ = (lyapunovControlAngles Q.cfg.dyn.lyapFun _).map _
        rw [hl, hd]
        cases et with
        | keplerian => exact (law _).1
        | meeWithA => exact (law' _).1
      · intro accel x
        show Q.cfg.dyn.dqdtFun _ = _ * Q.cfg.dyn.dqdtFun _
        rw [hl, hd]
        cases et with
        | keplerian => exact (law _).2
        | meeWithA => exact (law' _).2
      · intro x
        rw [unitsChg_x]
        show Q.cfg.dyn.checkConv _ _ _ _ = Q.cfg.dyn.checkConv _ _ _ _
        rw [hd]
        exact conv_units hL et x v P.woe Q.cfg.tolOe
      · intro x
        rw [unitsChg_x]
        show Q.cfg.dyn.checkConv _ _ _ _ = Q.cfg.dyn.checkConv _ _ _ _
        rw [hd]
        exact conv_units hL et x v P.woe Q.cfg.tolOeRelaxed

/-- **C84** A problem restated in other units of time, length and mass has the same solution: the second
run ends in the same way; its times, semi-major axes and masses are those of the first in the new units,
the other elements, the controls, effectivities, thresholds and battery levels are equal, and `Q`, a time
squared, and its rate, a time, are converted as such. The integrator is `rk4`; the perturbation and the
thresholds are the same functions in the new units. -/
theorem C84_units (hT : 0 < T) (hL : 0 < L) (hM : 0 < M) {Q Q' : QLaw ℝ} {P : Problem ℝ} {et : ElemType}
    {etaA etaR etaA' etaR' : EtaArg ℝ} {fuel : ℕ} {e : Option PyErr} {H : Hist ℝ}
    {pert : Option (ℝ → (Fin 6 → ℝ) → ElemType → Except PyErr (Fin 3 → ℝ))}
    (hP : Q.prob = some P) (hr : Q.ready = true) (hv : etaA.valid = true) (hv' : etaA'.valid = true)
    (hd : Q.cfg.dyn = dynOf et) (hi : Q.cfg.integrator = .rk4)
    (hp : PertInUnits T L Q.cfg.elementsType Q.cfg.perturbations pert)
    (hA : ∀ t x m b, evalEta etaA' (T * t) (stateIn L x) (M * m) b = evalEta etaA t x m b)
    (hR : ∀ t x m b, evalEta etaR' (T * t) (stateIn L x) (M * m) b = evalEta etaR t x m b)
    (h : Q.solve etaA etaR fuel = some (Q', e)) (hH : Q'.hist = some H) :
    ∃ Q'' H', (({ Q with
          cfg := Q.cfg.inUnits T L pert
          prob := some (P.inUnits T L M Q.cfg.useSundman) } : QLaw ℝ).solve etaA' etaR' fuel =
        some (Q'', e)) ∧ Q''.hist = some H' ∧ Q''.exitcode = Q'.exitcode ∧ Q''.converge = Q'.converge ∧
      H'.times = H.times.map (T * ·) ∧ H'.states = H.states.map (stateIn L) ∧
      H'.masses = H.masses.map (M * ·) ∧ H'.battery = H.battery ∧ H'.controls = H.controls ∧
      H'.etas = H.etas ∧ H'.etasBounds = H.etasBounds ∧ H'.qs = H.qs.map (T ^ 2 * ·) ∧
      H'.dqdts = H.dqdts.map (T * ·) := by
  have hx : (unitsChg T L M).x = stateIn L := funext (unitsChg_x T L M)
  obtain ⟨Q'', h1, h2, h3, h4⟩ := solve_change (g := unitsChg T L M)
    (Q1 := { Q with cfg := Q.cfg.inUnits T L pert, prob := some (P.inUnits T L M Q.cfg.useSundman) })
    hP rfl hr hr hv hv' ⟨rfl, rfl⟩ (by rw [hx]; rfl) rfl rfl
    (change_units hT hL hM hd hi hp hA hR) h hH
  refine ⟨Q'', _, h1, h2, h3, h4, rfl, ?_, rfl, rfl, ?_, rfl, rfl, rfl, ?_⟩
  rotate_left
  · simp [Chg.hist, show (unitsChg T L M).n = 1 from rfl]
  rotate_left
  · simp only [Chg.hist, hx]
  · have : T ^ 2 / T = T := by have := hT.ne'; field_simp
    simp only [Chg.hist, unitsChg, this]

end runs

section samples
open CoastSample

/-- C84: the thrusting run of `Burn` restated with a unit of time three times, a unit of length twice and a
unit of mass five times as small -/
example : ∃ Q'' H', (({ Burn.obj false with
      cfg := (Burn.cfg false).inUnits 3 2 none
      prob := some (Burn.prob.inUnits 3 2 5 false) } : QLaw ℝ).solve (.flt 0) (.flt 0) 2 = some (Q'', none)) ∧
    Q''.hist = some H' ∧ Q''.exitcode = 1 ∧ H'.times = [3 * 0, 3 * 1] ∧ H'.controls = [(0, 0, 1)] ∧
    H'.masses = [5 * 1, 5 * (1 - 1 / 100 * 1)] := by
  obtain ⟨Q', H, y, h1, h2, h3, -, h4, -, -, ht, hm, -⟩ := Burn.run
  obtain ⟨Q'', H', a1, a2, a3, -, a4, -, a5, -, a6, -⟩ := C84_units (T := 3) (L := 2) (M := 5)
    (by norm_num) (by norm_num) (by norm_num) (Q := Burn.obj false) (P := Burn.prob) (et := .keplerian) (pert := none)
    (etaA' := .flt 0) (etaR' := .flt 0) rfl rfl rfl rfl rfl rfl trivial (fun _ _ _ _ => rfl)
    (fun _ _ _ _ => rfl) h1 h2
  exact ⟨Q'', H', a1, a2, by rw [a3, h3], by rw [a4, ht]; rfl, by rw [a6, h4], by rw [a5, hm]; rfl⟩

end samples

end PyQ
