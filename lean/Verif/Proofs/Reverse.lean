import Verif.Props.Mirror
import Verif.Proofs.Resume

/-! # Runs backward and forward in time (real arithmetic)

Time reversal and half a turn about the reference direction: RAAN, argument of periapsis and true
anomaly change sign (`g`, `k` and the true longitude), velocities are reversed. Accelerations keep their radial component,
the transverse and normal components change sign. -/

set_option linter.unusedSectionVars false
set_option maxRecDepth 100000

noncomputable section

namespace PyQ

/-- the elements of the reversed orbit -/
def reversed : ElemType → (Fin 6 → ℝ) → Fin 6 → ℝ
  | .keplerian, x => ![x 0, x 1, x 2, -x 3, -x 4, -x 5]
  | .meeWithA, x => ![x 0, x 1, -x 2, x 3, -x 4, -x 5]

/-- the target of the reversed problem -/
def reversed5 : ElemType → (Fin 5 → ℝ) → Fin 5 → ℝ
  | .keplerian, x => ![x 0, x 1, x 2, -x 3, -x 4]
  | .meeWithA, x => ![x 0, x 1, -x 2, x 3, -x 4]

/-- an acceleration in the radial, transverse, normal frame, reversed -/
def againstTime (u : Fin 3 → ℝ) : Fin 3 → ℝ := ![u 0, -u 1, -u 2]

/-- the in-plane angle of the reversed thrust: `np.arctan2` returns `pi`, never `-pi` -/
def turnedAngle (a : ℝ) : ℝ := if a = Real.pi then Real.pi else -a

/-- the signs of the elements -/
def revSign : ElemType → Fin 6 → ℝ
  | .keplerian => ![1, 1, 1, -1, -1, -1]
  | .meeWithA => ![1, 1, -1, 1, -1, -1]

/-- reversal as a change of variables -/
def revChg (et : ElemType) : Chg where
  t := -1
  a := -1
  m := 1
  q := 1
  s := revSign et
  c := fun _ => 0
  n := 1

namespace Reverse
variable {et : ElemType}

theorem chg_x : (revChg et).x = reversed et := by
  funext x i
  cases et <;>
    match i with
    | 0 | 1 | 2 | 3 | 4 | 5 => simp [Chg.x, revChg, revSign, reversed]

/-- a direction, reversed: the signs of the columns of the Gauss matrix -/
def back (u : Fin 3 → ℝ) : Fin 3 → ℝ := ![-u 0, u 1, u 2]

/-- the Gauss matrix of the reversed orbit -/
def mat (et : ElemType) (p : Fin 3 → Fin 5 → ℝ) : Fin 3 → Fin 5 → ℝ :=
  fun c j => revSign et j.castSucc * back (fun c => p c j) c

/-- a call of the control law for the reversed orbit and target, with the acceleration in the opposite direction -/
def args (et : ElemType) (A : LyapArgs ℝ) : LyapArgs ℝ :=
  { A with oe := reversed et A.oe, oeT := reversed5 et A.oeT, f := -A.f }

theorem restates : Restates (revChg et) (args et) := by
  refine ⟨?_, fun A => by rw [chg_x]; rfl, ?_⟩
  · intro j
    cases et <;>
    match j with
    | 0 | 1 | 2 | 3 | 4 => simp [revChg, revSign]
  intro A j y
  unfold LyapArgs.setOe args
  simp only
  congr 1
  funext i
  cases et <;>
  match i, j with
  | 0, 0 | 1, 0 | 2, 0 | 3, 0 | 4, 0 | 5, 0 => simp [revChg, revSign, reversed]
  | 0, 1 | 1, 1 | 2, 1 | 3, 1 | 4, 1 | 5, 1 => simp [revChg, revSign, reversed]
  | 0, 2 | 1, 2 | 2, 2 | 3, 2 | 4, 2 | 5, 2 => simp [revChg, revSign, reversed]
  | 0, 3 | 1, 3 | 2, 3 | 3, 3 | 4, 3 | 5, 3 => simp [revChg, revSign, reversed]
  | 0, 4 | 1, 4 | 2, 4 | 3, 4 | 4, 4 | 5, 4 => simp [revChg, revSign, reversed]

theorem args_oe (A : LyapArgs ℝ) : (args et A).oe = reversed et A.oe := rfl
theorem args_oeT (A : LyapArgs ℝ) : (args et A).oeT = reversed5 et A.oeT := rfl
theorem args_f (A : LyapArgs ℝ) : (args et A).f = -A.f := rfl
theorem args_mu (A : LyapArgs ℝ) : (args et A).mu = A.mu := rfl
theorem args_b (A : LyapArgs ℝ) : (args et A).b = A.b := rfl

theorem kepOedot_rev (A : LyapArgs ℝ) (j : Fin 5) : kepOedot (args .keplerian A) j = -kepOedot A j := by
  match j with
  | 0 | 1 | 2 | 3 =>
    simp only [kepOedot, args_oe, args_f, args_mu, args_b, reversed, Matrix.cons_val, cos_real, sin_real, Real.cos_neg,
      Real.sin_neg, neg_sq]
    ring
  | 4 =>
    simp only [kepOedot, args_oe, args_f, args_mu, args_b, reversed, Matrix.cons_val, cos_real, sin_real, Real.cos_neg,
      Real.sin_neg, neg_sq, mul_neg, neg_mul, neg_div]
    rw [← neg_add, neg_div]

theorem kepDoe_rev (A : LyapArgs ℝ) : kepDoe (args .keplerian A) = kepDoe A := by
  have e : ∀ x y : ℝ, Real.cos (-x - -y) = Real.cos (x - y) := fun x y => by
    rw [← Real.cos_neg]; congr 1; ring
  simp only [kepDoe, args_oe, args_oeT, reversed, reversed5, Matrix.cons_val, cos_real, e]

theorem kepQ_rev (A : LyapArgs ℝ) : kepQ (args .keplerian A) = (revChg .keplerian).q * kepQ A := by
  have e1 := kepOedot_rev A
  have e2 : kepPenalty (args .keplerian A) = kepPenalty A := rfl
  have e3 : kepSoe (args .keplerian A) = kepSoe A := rfl
  have e4 := kepDoe_rev A
  have ew : (args .keplerian A).woe = A.woe := rfl
  have ep : (args .keplerian A).wp = A.wp := rfl
  simp only [kepQ, e1, e2, e3, e4, ew, ep, div_neg, neg_sq]
  simp [revChg]

/-- the Lyapunov candidate for modified equinoctial elements without its term for `k` -/
def meeQ4 (A : LyapArgs ℝ) : ℝ := meeQ { A with woe := Function.update A.woe 4 0 }

theorem meeQ_rev (A : LyapArgs ℝ) : meeQ4 (args .meeWithA A) = (revChg .meeWithA).q * meeQ4 A := by
  have n1 : ∀ j : Fin 5, j ≠ 4 → meeOedot (args .meeWithA A) j = -meeOedot A j := by
    intro j hj
    match j, hj with
    | 0, _ | 1, _ | 2, _ | 3, _ =>
      simp only [meeOedot, args_oe, args_f, args_mu, reversed, Matrix.cons_val, neg_sq]
      ring
    | 4, h => exact absurd rfl h
  have e2 : meePenalty (args .meeWithA A) = meePenalty A := by
    simp only [meePenalty, args, reversed, Matrix.cons_val, neg_sq]
  have e3 : meeSoe (args .meeWithA A) = meeSoe A := rfl
  have d0 : meeDoe (args .meeWithA A) 0 = meeDoe A 0 := rfl
  have d1 : meeDoe (args .meeWithA A) 1 = meeDoe A 1 := rfl
  have d2 : meeDoe (args .meeWithA A) 2 = -meeDoe A 2 := by
    simp [meeDoe, args, reversed, reversed5]; ring
  have d3 : meeDoe (args .meeWithA A) 3 = meeDoe A 3 := rfl
  have key : ∀ (B : LyapArgs ℝ), meeQ4 B = (1 + B.wp * meePenalty B) * (
      B.woe 0 * meeSoe B * (meeDoe B 0 / meeOedot B 0) ^ 2 + B.woe 1 * (meeDoe B 1 / meeOedot B 1) ^ 2 +
      B.woe 2 * (meeDoe B 2 / meeOedot B 2) ^ 2 + B.woe 3 * (meeDoe B 3 / meeOedot B 3) ^ 2) := by
    intro B
    have w : ∀ j : Fin 5, j ≠ 4 → Function.update B.woe 4 0 j = B.woe j := fun j h => Function.update_of_ne h _ _
    have w4 : Function.update B.woe 4 0 4 = 0 := Function.update_self _ _ _
    unfold meeQ4 meeQ
    simp only [w 0 (by decide), w 1 (by decide), w 2 (by decide), w 3 (by decide), w4, Nat.cast_one, zero_mul, mul_one, add_zero]
    rfl
  have ew : (args .meeWithA A).woe = A.woe := rfl
  have ep : (args .meeWithA A).wp = A.wp := rfl
  rw [key, key]
  simp only [n1 0 (by decide), n1 1 (by decide), n1 2 (by decide), n1 3 (by decide), e2, e3, d0, d1, d2, d3, ew, ep, neg_div,
    div_neg, neg_sq]
  simp [revChg]

theorem meeQ4_eq {A : LyapArgs ℝ} (h : A.woe 4 = 0) : meeQ4 A = meeQ A := by
  have : Function.update A.woe 4 0 = A.woe := by rw [← h]; exact Function.update_eq_self _ _
  unfold meeQ4
  rw [this]

theorem partialQ4 {A : LyapArgs ℝ} (h : A.woe 4 = 0) : partialQ meeQ4 A = partialQ meeQ A := by
  funext j
  unfold partialQ
  congr 1
  funext x
  exact meeQ4_eq (A := A.setOe j x) h

theorem kepPsi_rev (A : LyapArgs ℝ) : kepPsi (args .keplerian A) = mat .keplerian (kepPsi A) := by
  have e : ∀ x y : ℝ, -x + -y = -(x + y) := fun x y => by ring
  funext c j
  simp only [mat, kepPsi, args, reversed, Matrix.cons_val, e, cos_real, sin_real, Real.cos_neg, Real.sin_neg]
  match c, j with
  | 0, 0 | 0, 1 | 0, 2 | 0, 3 | 0, 4 => simp [revSign, back]
  | 1, 0 | 1, 1 | 1, 2 | 1, 3 => simp [revSign, back]
  | 1, 4 => simp [revSign, back, neg_div]
  | 2, 0 | 2, 1 | 2, 2 => simp [revSign, back]
  | 2, 3 | 2, 4 => simp [revSign, back, neg_div]

theorem meePsi_rev (A : LyapArgs ℝ) : meePsi (args .meeWithA A) = mat .meeWithA (meePsi A) := by
  have e : ∀ x y z : ℝ, -x - Real.arctan (-y / z) = -(x - Real.arctan (y / z)) := fun x y z => by
    rw [neg_div, Real.arctan_neg]; ring
  funext c j
  simp only [mat, meePsi, args, reversed, Matrix.cons_val, e, cos_real, sin_real, arctan_real, Real.cos_neg, Real.sin_neg, neg_sq]
  match c, j with
  | 0, 0 | 0, 1 | 0, 2 | 0, 3 | 0, 4 => simp [revSign, back]
  | 1, 0 | 1, 1 | 1, 3 | 1, 4 => simp [revSign, back]
  | 1, 2 => simp [revSign, back]; ring
  | 2, 0 => simp [revSign, back]
  | 2, 1 => simp [revSign, back]; ring
  | 2, 2 => simp [revSign, back]; ring
  | 2, 3 | 2, 4 => simp [revSign, back]

/-! ### The control law -/

theorem sign_sq (j : Fin 6) : revSign et j * revSign et j = 1 := by
  cases et <;>
  match j with
  | 0 | 1 | 2 | 3 | 4 | 5 => simp [revSign]

theorem sign_div (j : Fin 5) : (revChg et).q / (revChg et).s j.castSucc = revSign et j.castSucc := by
  have := sign_sq (et := et) j.castSucc
  show 1 / revSign et j.castSucc = _
  rw [div_eq_iff (by intro h; rw [h] at this; simp at this), this]

theorem control_rev (psi : Fin 3 → Fin 5 → ℝ) (dq : Fin 5 → ℝ) :
    rawControl (mat et psi) (fun j => revSign et j.castSucc * dq j) = back (rawControl psi dq) := by
  have e : ∀ (j : Fin 5) (x y : ℝ), revSign et j.castSucc * x * (revSign et j.castSucc * y) = x * y := by
    intro j x y
    linear_combination (x * y) * sign_sq (et := et) j.castSucc
  funext c
  simp only [rawControl, mat, e]
  match c with
  | 0 =>
    simp only [back, Matrix.cons_val, rawControl]
    ring
  | 1 | 2 => simp only [back, Matrix.cons_val, rawControl]

theorem vdivs_back (u : Fin 3 → ℝ) (k : ℝ) : vdivs (back u) k = back (vdivs u k) := by
  funext c
  match c with
  | 0 | 1 | 2 => simp [vdivs, back, neg_div]

theorem arg_turned (y x : ℝ) : Complex.arg ⟨x, -y⟩ = turnedAngle (Complex.arg ⟨x, y⟩) := by
  have := Complex.arg_conj ⟨x, y⟩
  exact this

theorem angles_back (u : Fin 3 → ℝ) :
    uToThrustAngles (back u) = (uToThrustAngles u).map fun p => (back p.1, turnedAngle p.2.1, p.2.2) := by
  have hn : back u 0 ^ 2 + back u 1 ^ 2 + back u 2 ^ 2 = u 0 ^ 2 + u 1 ^ 2 + u 2 ^ 2 := by simp [back]
  unfold uToThrustAngles
  simp only [hn, vdivs_back]
  generalize vdivs u (PyTrans.sqrt (u 0 ^ 2 + u 1 ^ 2 + u 2 ^ 2)) = w
  have e0 : back w 0 = -w 0 := rfl
  have e1 : back w 1 = w 1 := rfl
  have e2 : back w 2 = w 2 := rfl
  simp only [e0, e1, e2, neg_sq, arctan2_real, arg_turned]
  cases ndiv (-w 2) (PyTrans.sqrt (w 0 ^ 2 + w 1 ^ 2)) <;> rfl

/-- output of the control law for the reversed orbit -/
def out (et : ElemType) (o : ControlOut ℝ) : ControlOut ℝ :=
  { o with alpha := turnedAngle o.alpha, u := back o.u, psi := mat et o.psi, dqdt := -o.dqdt }

theorem law_lawOf {M : LyapArgs ℝ → Fin 3 → Fin 5 → ℝ} {Qf : LyapArgs ℝ → ℝ}
    (hQ : ∀ A, Qf (args et A) = (revChg et).q * Qf A) (hM : ∀ A, M (args et A) = mat et (M A)) (A : LyapArgs ℝ) :
    lyapunovControlAngles (lawOf M Qf) (args et A) = (lyapunovControlAngles (lawOf M Qf) A).map (out et) := by
  have hp : partialQ Qf (args et A) = fun j => revSign et j.castSucc * partialQ Qf A j := by
    funext j
    rw [partialQ_change restates hQ, sign_div]
  have e : ∀ (p : Fin 3 → Fin 5 → ℝ) (d : Fin 5 → ℝ), (fun c => dot5 d (p c)) = rawControl p d := by
    intro p d
    funext c
    simp only [dot5, rawControl]
    ring
  have hq : Qf (args et A) = Qf A := by rw [hQ]; exact one_mul _
  unfold lyapunovControlAngles
  simp only [lawOf, hp, hM, hq, control_rev, angles_back, e, bind, Except.bind, pure, Except.pure]
  cases uToThrustAngles (rawControl (M A) (partialQ Qf A)) with
  | error e => rfl
  | ok p =>
    obtain ⟨u, al, be⟩ := p
    simp only [Except.map, out, args_f]
    congr 2
    simp [dot3, vsmul, back]
    ring

/-- the control law reverses; for modified equinoctial elements `k` must have no weight -/
theorem law {A : LyapArgs ℝ} (h4 : et = .meeWithA → A.woe 4 = 0) :
    lyapunovControlAngles (dynOf et : Dyn ℝ).lyapFun (args et A) =
      (lyapunovControlAngles (dynOf et : Dyn ℝ).lyapFun A).map (out et) := by
  cases et with
  | keplerian => exact law_lawOf (M := kepPsi) (Qf := kepQ) kepQ_rev kepPsi_rev A
  | meeWithA =>
    have h := law_lawOf (M := meePsi) (Qf := meeQ4) meeQ_rev meePsi_rev A
    have e : ∀ B : LyapArgs ℝ, B.woe 4 = 0 → lyapunovControlAngles (lawOf meePsi meeQ4) B = lyapunovControlAngles meeLyap B := by
      intro B hB
      unfold lyapunovControlAngles lawOf meeLyap
      simp only [partialQ4 hB, meeQ4_eq hB]
    rw [e _ (h4 rfl), e (args .meeWithA A) (h4 rfl)] at h
    exact h

end Reverse

end PyQ
