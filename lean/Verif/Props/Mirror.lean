import Verif.Props.Origin
import Verif.Examples.MeeBurn

/-! # C94: reflection in the reference plane (real arithmetic)

Reflecting an orbit in the reference plane adds half a turn to its RAAN and argument of periapsis (changes
the sign of `h` and `k`); accelerations of the reflected problem have the opposite normal component. -/

set_option linter.unusedSectionVars false
set_option maxRecDepth 100000

noncomputable section

namespace PyQ

/-- the reflected orbit -/
def mirrored : ElemType → (Fin 6 → ℝ) → Fin 6 → ℝ
  | .keplerian, x => ![x 0, x 1, x 2, x 3 + Real.pi, x 4 + Real.pi, x 5]
  | .meeWithA, x => ![x 0, x 1, x 2, -x 3, -x 4, x 5]

/-- the reflected target -/
def mirrored5 : ElemType → (Fin 5 → ℝ) → Fin 5 → ℝ
  | .keplerian, x => ![x 0, x 1, x 2, x 3 + Real.pi, x 4 + Real.pi]
  | .meeWithA, x => ![x 0, x 1, x 2, -x 3, -x 4]

/-- an acceleration in the radial, transverse, normal frame, reflected -/
def flipped (u : Fin 3 → ℝ) : Fin 3 → ℝ := ![u 0, u 1, -u 2]

/-- reflection as a change of variables -/
def mirrorChg (et : ElemType) : Chg where
  t := 1
  a := 1
  m := 1
  q := 1
  s := match et with
    | .keplerian => fun _ => 1
    | .meeWithA => ![1, 1, 1, -1, -1, 1]
  c := match et with
    | .keplerian => ![0, 0, 0, Real.pi, Real.pi, 0]
    | .meeWithA => fun _ => 0
  n := -1

variable {et : ElemType}

theorem mirrorChg_x (x : Fin 6 → ℝ) : (mirrorChg et).x x = mirrored et x := by
  cases et <;> funext i <;>
    match i with
    | 0 | 1 | 2 | 3 | 4 | 5 => simp [Chg.x, mirrorChg, mirrored]

theorem mirrorChg_dir (u : Fin 3 → ℝ) : (mirrorChg et).dir u = flipped u := by
  funext c
  match c with
  | 0 | 1 | 2 => simp [Chg.dir, mirrorChg, flipped]

theorem mirrorChg_acc (u : Fin 3 → ℝ) : (mirrorChg et).acc u = flipped u := by
  funext c
  simp only [Chg.acc, mirrorChg_dir]
  simp [mirrorChg]

theorem mirrorChg_psi (p : Fin 3 → Fin 5 → ℝ) (c : Fin 3) (j : Fin 5) :
    (mirrorChg et).psi p c j = (mirrorChg et).s j.castSucc * flipped (fun c => p c j) c := by
  simp only [Chg.psi, mirrorChg_dir]
  simp [mirrorChg]

/-- a call of the control law for the reflected orbit and target -/
def LyapArgs.mirror (et : ElemType) (A : LyapArgs ℝ) : LyapArgs ℝ :=
  { A with oe := mirrored et A.oe, oeT := mirrored5 et A.oeT }

theorem restates_mirror : Restates (mirrorChg et) (LyapArgs.mirror et) := by
  refine ⟨?_, fun A => (mirrorChg_x A.oe).symm, ?_⟩
  · intro j
    cases et with
    | keplerian => exact one_ne_zero
    | meeWithA =>
      match j with
      | 0 | 1 | 2 | 3 | 4 => simp [mirrorChg]
  intro A j y
  unfold LyapArgs.setOe LyapArgs.mirror
  simp only
  congr 1
  funext i
  cases et <;>
  match i, j with
  | 0, 0 | 1, 0 | 2, 0 | 3, 0 | 4, 0 | 5, 0 => simp [mirrorChg, mirrored]
  | 0, 1 | 1, 1 | 2, 1 | 3, 1 | 4, 1 | 5, 1 => simp [mirrorChg, mirrored]
  | 0, 2 | 1, 2 | 2, 2 | 3, 2 | 4, 2 | 5, 2 => simp [mirrorChg, mirrored]
  | 0, 3 | 1, 3 | 2, 3 | 3, 3 | 4, 3 | 5, 3 => simp [mirrorChg, mirrored]
  | 0, 4 | 1, 4 | 2, 4 | 3, 4 | 4, 4 | 5, 4 => simp [mirrorChg, mirrored]

theorem mirror_oe (A : LyapArgs ℝ) : (A.mirror et).oe = mirrored et A.oe := rfl
theorem mirror_oeT (A : LyapArgs ℝ) : (A.mirror et).oeT = mirrored5 et A.oeT := rfl
theorem mirror_f (A : LyapArgs ℝ) : (A.mirror et).f = A.f := rfl
theorem mirror_mu (A : LyapArgs ℝ) : (A.mirror et).mu = A.mu := rfl
theorem mirror_b (A : LyapArgs ℝ) : (A.mirror et).b = A.b := rfl

theorem kepOedot_mirror (A : LyapArgs ℝ) : kepOedot (A.mirror .keplerian) = kepOedot A := by
  simp only [kepOedot, mirror_oe, mirror_f, mirror_mu, mirror_b, mirrored, Matrix.cons_val, cos_real,
    sin_real, Real.cos_add_pi, Real.sin_add_pi, neg_sq]

theorem kepDoe_mirror (A : LyapArgs ℝ) : kepDoe (A.mirror .keplerian) = kepDoe A := by
  simp only [kepDoe, mirror_oe, mirror_oeT, mirrored, mirrored5, Matrix.cons_val, add_sub_add_right_eq_sub]

theorem kepQ_mirror (A : LyapArgs ℝ) :
    kepQ (A.mirror .keplerian) = (mirrorChg .keplerian).q * kepQ A := by
  have e1 := kepOedot_mirror A
  have e2 : kepPenalty (A.mirror .keplerian) = kepPenalty A := rfl
  have e3 : kepSoe (A.mirror .keplerian) = kepSoe A := rfl
  have e4 := kepDoe_mirror A
  have ew : (A.mirror .keplerian).woe = A.woe := rfl
  have ep : (A.mirror .keplerian).wp = A.wp := rfl
  simp only [kepQ, e1, e2, e3, e4, ew, ep]
  simp [mirrorChg]

theorem meeQ_mirror (A : LyapArgs ℝ) :
    meeQ (A.mirror .meeWithA) = (mirrorChg .meeWithA).q * meeQ A := by
  have e1 : meeOedot (A.mirror .meeWithA) = meeOedot A := by
    simp only [meeOedot, LyapArgs.mirror, mirrored, Matrix.cons_val, neg_sq]
  have e2 : meePenalty (A.mirror .meeWithA) = meePenalty A := rfl
  have e3 : meeSoe (A.mirror .meeWithA) = meeSoe A := rfl
  have d0 : meeDoe (A.mirror .meeWithA) 0 = meeDoe A 0 := rfl
  have d1 : meeDoe (A.mirror .meeWithA) 1 = meeDoe A 1 := rfl
  have d2 : meeDoe (A.mirror .meeWithA) 2 = meeDoe A 2 := rfl
  have d3 : meeDoe (A.mirror .meeWithA) 3 = -meeDoe A 3 := by
    simp [meeDoe, LyapArgs.mirror, mirrored, mirrored5]; ring
  have d4 : meeDoe (A.mirror .meeWithA) 4 = -meeDoe A 4 := by
    simp [meeDoe, LyapArgs.mirror, mirrored, mirrored5]; ring
  have ew : (A.mirror .meeWithA).woe = A.woe := rfl
  have ep : (A.mirror .meeWithA).wp = A.wp := rfl
  simp only [meeQ, e1, e2, e3, d0, d1, d2, d3, d4, ew, ep, neg_div, neg_sq]
  simp [mirrorChg]

theorem kepPsi_mirror (A : LyapArgs ℝ) :
    kepPsi (A.mirror .keplerian) = (mirrorChg .keplerian).psi (kepPsi A) := by
  funext c j
  rw [mirrorChg_psi]
  simp only [kepPsi, LyapArgs.mirror, mirrored, Matrix.cons_val, ← add_assoc, cos_real, sin_real,
    Real.cos_add_pi, Real.sin_add_pi]
  match c, j with
  | 0, 0 | 0, 1 | 0, 2 | 0, 3 | 0, 4 => simp [mirrorChg, flipped]
  | 1, 0 | 1, 1 | 1, 2 | 1, 3 | 1, 4 => simp [mirrorChg, flipped]
  | 2, 0 | 2, 1 => simp [mirrorChg, flipped]
  | 2, 2 | 2, 3 | 2, 4 => simp [mirrorChg, flipped, neg_div]

theorem meePsi_mirror (A : LyapArgs ℝ) :
    meePsi (A.mirror .meeWithA) = (mirrorChg .meeWithA).psi (meePsi A) := by
  funext c j
  rw [mirrorChg_psi]
  simp only [meePsi, LyapArgs.mirror, mirrored, Matrix.cons_val, neg_sq]
  match c, j with
  | 0, 0 | 0, 1 | 0, 2 | 0, 3 | 0, 4 => simp [mirrorChg, flipped]
  | 1, 0 | 1, 1 | 1, 2 | 1, 3 | 1, 4 => simp [mirrorChg, flipped]
  | 2, 0 => simp [mirrorChg, flipped]
  | 2, 1 =>
    simp only [mirrorChg, flipped, Matrix.cons_val, Fin.castSucc_one, Fin.isValue]
    ring
  | 2, 2 =>
    simp [mirrorChg, flipped]
    ring
  | 2, 3 | 2, 4 => simp [mirrorChg, flipped]

/-! ### The integrators -/

/-- a change of sign of some components -/
def lin (s : Fin 6 → ℝ) (k : Fin 6 → ℝ) : Fin 6 → ℝ := fun i => s i * k i

theorem normN_lin {s : Fin 6 → ℝ} (hs : ∀ i, s i = 1 ∨ s i = -1) (k : Fin 6 → ℝ) :
    normN (lin s k) = normN k := by
  have : (fun i => lin s k i ^ 2) = fun i => k i ^ 2 := by
    funext i
    rcases hs i with h | h <;> simp [lin, h]
  simp only [normN, this]

theorem rkf45_lin {p p' : OdeParams ℝ} {g : Chg} (hs : ∀ i, g.s i = 1 ∨ g.s i = -1)
    {F F' : ℝ → (Fin 6 → ℝ) → OdeParams ℝ → Except PyErr (Fin 6 → ℝ)}
    (h : ∀ t y, F' t (g.x y) p' = (F t y p).map (lin g.s)) (t st tol : ℝ) (y : Fin 6 → ℝ) :
    rkf45 F' t st (g.x y) p' tol = (rkf45 F t st y p tol).map fun q => (g.x q.1, q.2) := by
  have a0 : ∀ (c : ℝ) (k : Fin 6 → ℝ), vsmul c (lin g.s k) = lin g.s (vsmul c k) := by
    intro c k; funext i; simp only [vsmul, lin]; ring
  have a1 : ∀ x k : Fin 6 → ℝ, vadd (g.x x) (lin g.s k) = g.x (vadd x k) := by
    intro x k; funext i; simp only [vadd, lin, Chg.x]; ring
  have a2 : ∀ x k : Fin 6 → ℝ, vsub (g.x x) (lin g.s k) = g.x (vsub x k) := by
    intro x k; funext i; simp only [vsub, lin, Chg.x]; ring
  have a3 : ∀ x k : Fin 6 → ℝ, vsub (g.x x) (g.x k) = lin g.s (vsub x k) := by
    intro x k; funext i; simp only [vsub, lin, Chg.x]; ring
  unfold rkf45
  rw [h]
  cases F t y p with
  | error e => rfl
  | ok k1 =>
    simp only [bind, Except.bind, pure, Except.pure, Except.map]
    simp only [a0, a1, a2, h]
    cases F _ _ p with
    | error e => rfl
    | ok k2 =>
      simp only [Except.map]
      simp only [a0, a1, a2, h]
      cases F _ _ p with
      | error e => rfl
      | ok k3 =>
        simp only [Except.map]
        simp only [a0, a1, a2, h]
        cases F _ _ p with
        | error e => rfl
        | ok k4 =>
          simp only [Except.map]
          simp only [a0, a1, a2, h]
          cases F _ _ p with
          | error e => rfl
          | ok k5 =>
            simp only [Except.map]
            simp only [a0, a2, h]
            cases F _ _ p with
            | error e => rfl
            | ok k6 =>
              simp only [Except.map]
              simp only [a0, a1, a2, a3, normN_lin hs]
              cases ndiv tol _ with
              | error e => rfl
              | ok q => rfl

theorem gauss_mirror {p p' : OdeParams ℝ} {psi : Fin 3 → Fin 5 → ℝ}
    (h0 : p.psi0 = psi 0) (h1 : p.psi1 = psi 1) (h2 : p.psi2 = psi 2)
    (hu : p'.u = flipped p.u) (hp : p'.ptrb = flipped p.ptrb)
    (h0' : p'.psi0 = (mirrorChg et).psi psi 0) (h1' : p'.psi1 = (mirrorChg et).psi psi 1)
    (h2' : p'.psi2 = (mirrorChg et).psi psi 2) (row : Fin 3 → ℝ) (rate : ℝ) :
    gaussCombine p' (flipped row) rate = lin (mirrorChg et).s (gaussCombine p row rate) := by
  have h5 : (mirrorChg et).s 5 = 1 := by cases et <;> simp [mirrorChg]
  funext i
  match i with
  | 0 | 1 | 2 | 3 | 4 =>
    simp only [gaussCombine, h0, h1, h2, hu, hp, h0', h1', h2', dot3, vadd, mirrorChg_psi, lin, flipped,
      Matrix.cons_val]
    simp
    ring
  | 5 =>
    simp only [gaussCombine, hu, hp, dot3, vadd, lin, flipped, Matrix.cons_val, h5]
    ring

theorem eom_mirror {p p' : OdeParams ℝ} {psi : Fin 3 → Fin 5 → ℝ}
    (h0 : p.psi0 = psi 0) (h1 : p.psi1 = psi 1) (h2 : p.psi2 = psi 2)
    (hu : p'.u = flipped p.u) (hp : p'.ptrb = flipped p.ptrb) (hm : p'.mu = p.mu)
    (h0' : p'.psi0 = (mirrorChg et).psi psi 0) (h1' : p'.psi1 = (mirrorChg et).psi psi 1)
    (h2' : p'.psi2 = (mirrorChg et).psi psi 2) (t : ℝ) (y : Fin 6 → ℝ) :
    (dynOf et : Dyn ℝ).eom t (mirrored et y) p' =
      ((dynOf et : Dyn ℝ).eom t y p).map (lin (mirrorChg et).s) := by
  have g := fun row rate => gauss_mirror (et := et) h0 h1 h2 hu hp h0' h1' h2' row rate
  cases et with
  | keplerian =>
    show eomKepGauss t _ p' = (eomKepGauss t y p).map _
    unfold eomKepGauss
    have e0 : mirrored .keplerian y 0 = y 0 := rfl
    have e1 : mirrored .keplerian y 1 = y 1 := rfl
    have e5 : mirrored .keplerian y 5 = y 5 := rfl
    simp only [e0, e1, e5, hm]
    have gz : ∀ c0 c1 rate, gaussCombine p' ![c0, c1, ((0 : ℕ) : ℝ)] rate =
        lin (mirrorChg .keplerian).s (gaussCombine p ![c0, c1, ((0 : ℕ) : ℝ)] rate) := by
      intro c0 c1 rate
      rw [← g]
      congr 1
      funext i
      match i with
      | 0 | 1 | 2 => simp [flipped]
    simp only [gz]
    cases ndiv _ (p.mu * _) with
    | error e => rfl
    | ok r =>
      simp only [bind, Except.bind]
      cases ndiv (_ : ℝ) _ with
      | error e => rfl
      | ok c0 =>
        simp only
        cases ndiv (_ : ℝ) _ with
        | error e => rfl
        | ok c1 =>
          simp only
          cases ndiv _ (r ^ 2) with
          | error e => rfl
          | ok rate => rfl
  | meeWithA =>
    show eomMeeWithAGauss t _ p' = (eomMeeWithAGauss t y p).map _
    unfold eomMeeWithAGauss
    have e0 : mirrored .meeWithA y 0 = y 0 := rfl
    have e1 : mirrored .meeWithA y 1 = y 1 := rfl
    have e2 : mirrored .meeWithA y 2 = y 2 := rfl
    have e3 : mirrored .meeWithA y 3 = -y 3 := rfl
    have e4 : mirrored .meeWithA y 4 = -y 4 := rfl
    have e5 : mirrored .meeWithA y 5 = y 5 := rfl
    simp only [e0, e1, e2, e3, e4, e5, hm]
    have gz : ∀ sw rate, gaussCombine p' ![((0 : ℕ) : ℝ), ((0 : ℕ) : ℝ),
        sw * (-y 3 * PyTrans.sin (y 5) - -y 4 * PyTrans.cos (y 5))] rate =
        lin (mirrorChg .meeWithA).s (gaussCombine p ![((0 : ℕ) : ℝ), ((0 : ℕ) : ℝ),
          sw * (y 3 * PyTrans.sin (y 5) - y 4 * PyTrans.cos (y 5))] rate) := by
      intro sw rate
      rw [← g]
      congr 1
      funext i
      match i with
      | 0 | 1 => simp [flipped]
      | 2 => simp [flipped]; ring
    simp only [gz]
    cases ndiv (y 2) _ with
    | error e => rfl
    | ok gf =>
      simp only [bind, Except.bind]
      cases ndiv _ (p.mu * _) with
      | error e => rfl
      | ok r =>
        simp only
        cases ndiv _ p.mu with
        | error e => rfl
        | ok q =>
          simp only
          cases ndiv (_ : ℝ) _ with
          | error e => rfl
          | ok sw =>
            simp only
            cases ndiv (_ : ℝ) _ with
            | error e => rfl
            | ok wp => rfl

/-! ### Runs -/

/-- the bounds of the reflected problem -/
def mirroredBounds : ElemType → List ℝ → List ℝ
  | .keplerian, l => (l.modify 3 (· + Real.pi)).modify 4 (· + Real.pi)
  | .meeWithA, l => l

/-- the target of the reflected problem -/
def mirroredTarget : ElemType → List ℝ → List ℝ
  | .keplerian, l => (l.modify 3 (· + Real.pi)).modify 4 (· + Real.pi)
  | .meeWithA, l => (l.modify 3 (-·)).modify 4 (-·)

/-- the settings of the reflected problem -/
def Config.mirror (et : ElemType)
    (pert : Option (ℝ → (Fin 6 → ℝ) → ElemType → Except PyErr (Fin 3 → ℝ))) (C : Config ℝ) : Config ℝ :=
  { C with oeMin := mirroredBounds et C.oeMin, oeMax := mirroredBounds et C.oeMax, perturbations := pert }

/-- the reflected problem -/
def Problem.mirror (et : ElemType) (P : Problem ℝ) : Problem ℝ :=
  { P with oe0 := mirrored et P.oe0, oeT := mirroredTarget et P.oeT }

/-- the second perturbation is the reflection of the first -/
def PertMirrored (et : ElemType)
    (f f' : Option (ℝ → (Fin 6 → ℝ) → ElemType → Except PyErr (Fin 3 → ℝ))) : Prop :=
  match f, f' with
  | none, none => True
  | some f, some f' => ∀ t x, f' t (mirrored et x) et = (f t x et).map flipped
  | _, _ => False

theorem safety_mirror (x : Fin 6 → ℝ) (lo hi : List ℝ) :
    elementsSafety (mirrored .keplerian x) (mirroredBounds .keplerian lo) (mirroredBounds .keplerian hi) =
      (elementsSafety x lo hi).map (mirrored .keplerian) := by
  match lo, hi with
  | l0 :: l1 :: l2 :: l3 :: l4 :: lo, u0 :: u1 :: u2 :: u3 :: u4 :: hi =>
    simp only [mirroredBounds, List.modify_succ_cons, List.modify_zero_cons, elementsSafety, mirrored,
      Matrix.cons_val, pymax_shift, pymin_shift, Except.map]
  | [], _ => simp [mirroredBounds, elementsSafety, Except.map]
  | [_], _ => simp [mirroredBounds, elementsSafety, Except.map]
  | [_, _], _ => simp [mirroredBounds, elementsSafety, Except.map]
  | [_, _, _], _ => simp [mirroredBounds, elementsSafety, Except.map]
  | [_, _, _, _], _ => simp [mirroredBounds, elementsSafety, Except.map]
  | _ :: _ :: _ :: _ :: _ :: _, [] => simp [mirroredBounds, elementsSafety, Except.map]
  | _ :: _ :: _ :: _ :: _ :: _, [_] => simp [mirroredBounds, elementsSafety, Except.map]
  | _ :: _ :: _ :: _ :: _ :: _, [_, _] => simp [mirroredBounds, elementsSafety, Except.map]
  | _ :: _ :: _ :: _ :: _ :: _, [_, _, _] => simp [mirroredBounds, elementsSafety, Except.map]
  | _ :: _ :: _ :: _ :: _ :: _, [_, _, _, _] => simp [mirroredBounds, elementsSafety, Except.map]

theorem target_mirror (l : List ℝ) :
    (∃ e, asVec5 l = .error e ∧ asVec5 (mirroredTarget et l) = .error e) ∨
      ∃ v, asVec5 l = .ok v ∧ asVec5 (mirroredTarget et l) = .ok (mirrored5 et v) := by
  by_cases hl : l.length = 5
  · match l, hl with
    | [a, b, c, d, e], _ =>
      refine Or.inr ⟨![a, b, c, d, e], rfl, ?_⟩
      cases et <;> rfl
  · have he : ∀ l : List ℝ, l.length ≠ 5 → asVec5 l = .error .valueError := by
      intro l hl
      unfold asVec5
      split
      · simp at hl
      · rfl
    exact Or.inl ⟨_, he l hl, he _ (by cases et <;> simpa [mirroredTarget] using hl)⟩

theorem conv_mirror (x : Fin 6 → ℝ) (v w tol : Fin 5 → ℝ) :
    (dynOf et : Dyn ℝ).checkConv (mirrored et x) (mirrored5 et v) w tol =
      (dynOf et : Dyn ℝ).checkConv x v w tol := by
  cases et with
  | keplerian =>
    show checkConvergenceKeplerian _ _ _ _ = checkConvergenceKeplerian _ _ _ _
    unfold checkConvergenceKeplerian
    simp [mirrored, mirrored5]
  | meeWithA =>
    show checkConvergenceMee _ _ _ _ = checkConvergenceMee _ _ _ _
    unfold checkConvergenceMee
    suffices h : (fun i : Fin 5 => PyOrd.abs (mirrored5 .meeWithA v i - mirrored .meeWithA x i.castSucc)) =
        fun i => PyOrd.abs (v i - x i.castSucc) by simp only [h]
    funext i
    match i with
    | 0 | 1 | 2 => rfl
    | 3 =>
      show PyOrd.abs (-v 3 - -x 3) = PyOrd.abs (v 3 - x 3)
      rw [abs_real, abs_real, ← abs_neg]; congr 1; ring
    | 4 =>
      show PyOrd.abs (-v 4 - -x 4) = PyOrd.abs (v 4 - x 4)
      rw [abs_real, abs_real, ← abs_neg]; congr 1; ring

section runs
variable [PyNan ℝ]

/-- the parameters of the equations of motion in one step -/
def odeOf (mu : ℝ) (u : Fin 3 → ℝ) (psi : Fin 3 → Fin 5 → ℝ) (ptrb : Fin 3 → ℝ) : OdeParams ℝ :=
  { mu := mu, u := u, psi0 := psi 0, psi1 := psi 1, psi2 := psi 2, ptrb := ptrb }

theorem propagate_mirror {E : Env ℝ} (he : E.cfg.elementsType = et) (hd : E.cfg.dyn = dynOf et)
    {P' : Problem ℝ} {etaA' etaR' : EtaArg ℝ}
    {pert : Option (ℝ → (Fin 6 → ℝ) → ElemType → Except PyErr (Fin 3 → ℝ))}
    (hp : PertMirrored et E.cfg.perturbations pert) (s : LoopSt ℝ) (h : ℝ)
    (v : Fin 5 → ℝ) (c : Ctl ℝ) :
    propagatePhase { cfg := E.cfg.mirror et pert, prob := P', etaA := etaA', etaR := etaR' }
        ((mirrorChg et).st s) ((mirrorChg et).t * h) ((mirrorChg et).ctl v c) =
      (propagatePhase E s h c).map fun p => ((mirrorChg et).x p.1, (mirrorChg et).t * p.2) := by
  have e1 : (mirrorChg et).t * h = h := one_mul h
  have e2 : ((mirrorChg et).st s).t = s.t := one_mul s.t
  have e3 : ((mirrorChg et).st s).oe = mirrored et s.oe := mirrorChg_x s.oe
  have e4 : ((mirrorChg et).ctl v c).u = flipped c.u := mirrorChg_acc c.u
  have e5 : ((mirrorChg et).ctl v c).psi = (mirrorChg et).psi c.psi := rfl
  have e6 : (fun p : (Fin 6 → ℝ) × ℝ => ((mirrorChg et).x p.1, (mirrorChg et).t * p.2)) =
      fun p => (mirrored et p.1, p.2) := by
    funext p
    rw [mirrorChg_x]
    simp [mirrorChg]
  have hx : (mirrorChg et).x = mirrored et := funext mirrorChg_x
  have hs : ∀ i, (mirrorChg et).s i = 1 ∨ (mirrorChg et).s i = -1 := by
    intro i
    cases et with
    | keplerian => exact Or.inl rfl
    | meeWithA =>
      match i with
      | 0 | 1 | 2 | 5 => exact Or.inl rfl
      | 3 | 4 => exact Or.inr rfl
  have heom : ∀ (ptrb : Fin 3 → ℝ) t y, E.cfg.dyn.eom t (mirrored et y)
        (odeOf E.cfg.mu (flipped c.u) ((mirrorChg et).psi c.psi) (flipped ptrb)) =
      (E.cfg.dyn.eom t y
        (odeOf E.cfg.mu c.u c.psi ptrb)).map (lin (mirrorChg et).s) := by
    intro ptrb t y
    rw [hd]
    exact eom_mirror (p := odeOf E.cfg.mu c.u c.psi ptrb) (psi := c.psi)
      (p' := odeOf E.cfg.mu (flipped c.u) ((mirrorChg et).psi c.psi) (flipped ptrb))
      rfl rfl rfl rfl rfl rfl rfl rfl rfl t y
  have k4 : ∀ ptrb : Fin 3 → ℝ, rk4 E.cfg.dyn.eom s.t h (mirrored et s.oe)
        (odeOf E.cfg.mu (flipped c.u) ((mirrorChg et).psi c.psi) (flipped ptrb)) =
      (rk4 E.cfg.dyn.eom s.t h s.oe
        (odeOf E.cfg.mu c.u c.psi ptrb)).map (mirrored et) := by
    intro ptrb
    have := rk4_change (g := mirrorChg et)
      (p := odeOf E.cfg.mu c.u c.psi ptrb)
      (p' := odeOf E.cfg.mu (flipped c.u) ((mirrorChg et).psi c.psi) (flipped ptrb))
      (F := E.cfg.dyn.eom) (F' := E.cfg.dyn.eom) one_ne_zero (fun t y => by
        rw [mirrorChg_x, show (mirrorChg et).t = 1 from rfl, one_mul, heom]
        simp only [div_one]
        rfl) s.t h s.oe
    rw [hx, e1, show (mirrorChg et).t * s.t = s.t from one_mul _] at this
    exact this
  have k45 : ∀ ptrb : Fin 3 → ℝ, rkf45 E.cfg.dyn.eom s.t h (mirrored et s.oe)
        (odeOf E.cfg.mu (flipped c.u) ((mirrorChg et).psi c.psi) (flipped ptrb))
        E.cfg.odeTol =
      (rkf45 E.cfg.dyn.eom s.t h s.oe
        (odeOf E.cfg.mu c.u c.psi ptrb) E.cfg.odeTol).map fun q => (mirrored et q.1, q.2) := by
    intro ptrb
    have := rkf45_lin (g := mirrorChg et) hs
      (p := odeOf E.cfg.mu c.u c.psi ptrb)
      (p' := odeOf E.cfg.mu (flipped c.u) ((mirrorChg et).psi c.psi) (flipped ptrb))
      (F := E.cfg.dyn.eom) (F' := E.cfg.dyn.eom) (fun t y => by rw [mirrorChg_x]; exact heom ptrb t y)
      s.t h E.cfg.odeTol s.oe
    rwa [hx] at this
  unfold propagatePhase
  rw [e1, e2, e3, e4, e5, e6]
  simp only [Config.mirror]
  have go : ∀ ptrb : Fin 3 → ℝ, (match E.cfg.integrator with
      | .rk4 => do
        let oeNext ← PyQ.rk4 E.cfg.dyn.eom s.t h (mirrored et s.oe)
          (odeOf E.cfg.mu (flipped c.u) ((mirrorChg et).psi c.psi) (flipped ptrb))
        pure (oeNext, h)
      | .rkf45 => do
        let (oeNext, hNext) ← PyQ.rkf45 E.cfg.dyn.eom s.t h (mirrored et s.oe)
          (odeOf E.cfg.mu (flipped c.u) ((mirrorChg et).psi c.psi) (flipped ptrb))
          E.cfg.odeTol
        pure (oeNext, pymax E.cfg.stepMin (pymin E.cfg.stepMax hNext)) :
        Except PyErr ((Fin 6 → ℝ) × ℝ)) =
      (match E.cfg.integrator with
      | .rk4 => do
        let oeNext ← PyQ.rk4 E.cfg.dyn.eom s.t h s.oe
          (odeOf E.cfg.mu c.u c.psi ptrb)
        pure (oeNext, h)
      | .rkf45 => do
        let (oeNext, hNext) ← PyQ.rkf45 E.cfg.dyn.eom s.t h s.oe
          (odeOf E.cfg.mu c.u c.psi ptrb)
          E.cfg.odeTol
        pure (oeNext, pymax E.cfg.stepMin (pymin E.cfg.stepMax hNext)) :
        Except PyErr ((Fin 6 → ℝ) × ℝ)).map fun p => (mirrored et p.1, p.2) := by
    intro ptrb
    cases E.cfg.integrator with
    | rk4 =>
      simp only [k4]
      cases rk4 E.cfg.dyn.eom s.t h s.oe
        (odeOf E.cfg.mu c.u c.psi ptrb) <;> rfl
    | rkf45 =>
      simp only [k45]
      cases rkf45 E.cfg.dyn.eom s.t h s.oe
        (odeOf E.cfg.mu c.u c.psi ptrb)
        E.cfg.odeTol <;> rfl
  cases hq : E.cfg.perturbations with
  | none =>
    rw [hq] at hp
    cases pert with
    | some f => exact hp.elim
    | none =>
      have := go zero3
      rw [show flipped zero3 = zero3 by funext i; match i with | 0 | 1 | 2 => simp [flipped, zero3]] at this
      exact this
  | some f =>
    rw [hq] at hp
    cases pert with
    | none => exact hp.elim
    | some f' =>
      have e := hp s.t s.oe
      simp only [he, e]
      cases f s.t s.oe et with
      | error e => rfl
      | ok a => exact go a

theorem change_mirror {Q : QLaw ℝ} {P : Problem ℝ} {etaA etaR etaA' etaR' : EtaArg ℝ}
    {pert : Option (ℝ → (Fin 6 → ℝ) → ElemType → Except PyErr (Fin 3 → ℝ))}
    (hnan : ∀ x : ℝ, PyNan.isnan (-x) = PyNan.isnan x)
    (he : Q.cfg.elementsType = et) (hd : Q.cfg.dyn = dynOf et)
    (hp : PertMirrored et Q.cfg.perturbations pert)
    (hA : ∀ t x m b, evalEta etaA' t (mirrored et x) m b = evalEta etaA t x m b)
    (hR : ∀ t x m b, evalEta etaR' t (mirrored et x) m b = evalEta etaR t x m b) :
    Change (mirrorChg et) (envOf Q P etaA etaR)
      { cfg := Q.cfg.mirror et pert, prob := P.mirror et, etaA := etaA', etaR := etaR' } where
  t0 := one_pos
  a0 := one_pos
  m0 := one_pos
  q0 := one_pos
  s5 := by cases et <;> rfl
  prob := by constructor <;> simp [mirrorChg, Problem.mirror, envOf]
  et := rfl
  grid := rfl
  nan := rfl
  relaxedAt := rfl
  n1 := Or.inr rfl
  nanN := fun x => by rw [show (mirrorChg et).n = -1 from rfl, neg_one_mul, hnan]
  clamp := fun hk x => by
    have : et = .keplerian := by rw [← he]; exact hk
    subst this
    rw [show (mirrorChg .keplerian).x = mirrored .keplerian from funext mirrorChg_x]
    exact safety_mirror x Q.cfg.oeMin Q.cfg.oeMax
  choose := fun x => by
    rw [mirrorChg_x]
    have : (fun y : ℝ => (mirrorChg et).t * y) = fun y => y := by funext y; simp [mirrorChg]
    rw [this]
    have h0 : chooseStep (Q.cfg.mirror et pert) (P.mirror et) (mirrored et x) = chooseStep Q.cfg P x := by
      unfold chooseStep
      show (if Q.cfg.useSundman then match Q.cfg.elementsType with
        | .keplerian => _
        | .meeWithA => _ else _) = _
      rw [he]
      cases et <;> rfl
    show chooseStep (Q.cfg.mirror et pert) (P.mirror et) (mirrored et x) = _
    rw [h0]
    cases h : chooseStep Q.cfg P x <;> simp [envOf, h, Except.map]
  prop := fun s h v c => propagate_mirror (E := envOf Q P etaA etaR) he hd hp s h v c
  etaA := fun t x m b => by
    rw [mirrorChg_x]
    simp only [mirrorChg, one_mul]
    exact hA t x m b
  etaR := fun t x m b => by
    rw [mirrorChg_x]
    simp only [mirrorChg, one_mul]
    exact hR t x m b
  tgt := by
    rcases target_mirror (et := et) P.oeT with h | ⟨v, h1, h2⟩
    · exact Or.inl h
    · refine Or.inr ⟨v, _, h1, h2, ?_⟩
      have hl : ∀ accel x, lyapArgs (Q.cfg.mirror et pert) (P.mirror et)
          (mirrored5 et v) ((mirrorChg et).a * accel) ((mirrorChg et).x x) =
          (lyapArgs Q.cfg P v accel x).mirror et := by
        intro accel x
        rw [mirrorChg_x, show (mirrorChg et).a * accel = accel from one_mul _]
        rfl
      have law : ∀ A, lyapunovControlAngles (dynOf et : Dyn ℝ).lyapFun (A.mirror et) =
            (lyapunovControlAngles (dynOf et : Dyn ℝ).lyapFun A).map (mirrorChg et).out ∧
          (dynOf et : Dyn ℝ).dqdtFun (A.mirror et) =
            (mirrorChg et).q / (mirrorChg et).t * (dynOf et : Dyn ℝ).dqdtFun A := by
        intro A
        cases et with
        | keplerian =>
          exact law_change (g := mirrorChg .keplerian) one_pos one_pos one_pos (Or.inr rfl) restates_mirror
            (M := kepPsi) (Qf := kepQ) (fun A => (one_mul A.f).symm) kepQ_mirror kepPsi_mirror A
        | meeWithA =>
          exact law_change (g := mirrorChg .meeWithA) one_pos one_pos one_pos (Or.inr rfl) restates_mirror
            (M := meePsi) (Qf := meeQ) (fun A => (one_mul A.f).symm) meeQ_mirror meePsi_mirror A
      constructor
      · intro accel x
        show lyapunovControlAngles Q.cfg.dyn.lyapFun _ = (lyapunovControlAngles Q.cfg.dyn.lyapFun _).map _
        rw [hl, hd]
        exact (law _).1
      · intro accel x
        show Q.cfg.dyn.dqdtFun _ = _ * Q.cfg.dyn.dqdtFun _
        rw [hl, hd]
        exact (law _).2
      · intro x
        rw [mirrorChg_x]
        show Q.cfg.dyn.checkConv _ _ _ _ = Q.cfg.dyn.checkConv _ _ _ _
        rw [hd]
        exact conv_mirror x v P.woe Q.cfg.tolOe
      · intro x
        rw [mirrorChg_x]
        show Q.cfg.dyn.checkConv _ _ _ _ = Q.cfg.dyn.checkConv _ _ _ _
        rw [hd]
        exact conv_mirror x v P.woe Q.cfg.tolOeRelaxed

/-- **C94** The run of the problem reflected in the reference plane is the reflection of the run: half a
turn is added to every recorded RAAN and argument of periapsis (every recorded `h` and `k` changes sign),
the out-of-plane angles `beta` change sign, and nothing else changes. Perturbations must be reflected and
thresholds unaffected by reflection; either integrator, either set of elements. -/
theorem C94_mirror {Q Q' : QLaw ℝ} {P : Problem ℝ} {etaA etaR etaA' etaR' : EtaArg ℝ}
    {fuel : ℕ} {e : Option PyErr} {H : Hist ℝ}
    {pert : Option (ℝ → (Fin 6 → ℝ) → ElemType → Except PyErr (Fin 3 → ℝ))}
    (hnan : ∀ x : ℝ, PyNan.isnan (-x) = PyNan.isnan x)
    (hP : Q.prob = some P) (hr : Q.ready = true) (hv : etaA.valid = true) (hv' : etaA'.valid = true)
    (he : Q.cfg.elementsType = et) (hd : Q.cfg.dyn = dynOf et)
    (hp : PertMirrored et Q.cfg.perturbations pert)
    (hA : ∀ t x m b, evalEta etaA' t (mirrored et x) m b = evalEta etaA t x m b)
    (hR : ∀ t x m b, evalEta etaR' t (mirrored et x) m b = evalEta etaR t x m b)
    (h : Q.solve etaA etaR fuel = some (Q', e)) (hH : Q'.hist = some H) :
    ∃ Q'' H', (({ Q with
          cfg := Q.cfg.mirror et pert
          prob := some (P.mirror et) } : QLaw ℝ).solve etaA' etaR' fuel = some (Q'', e)) ∧
      Q''.hist = some H' ∧ Q''.exitcode = Q'.exitcode ∧ Q''.converge = Q'.converge ∧
      H'.times = H.times ∧ H'.states = H.states.map (mirrored et) ∧
      H'.masses = H.masses ∧ H'.battery = H.battery ∧
      H'.controls = H.controls.map (fun c => (c.1, -c.2.1, c.2.2)) ∧
      H'.etas = H.etas ∧ H'.etasBounds = H.etasBounds ∧ H'.qs = H.qs ∧ H'.dqdts = H.dqdts := by
  have hx : (mirrorChg et).x = mirrored et := funext mirrorChg_x
  obtain ⟨Q'', h1, h2, h3, h4⟩ := solve_change (g := mirrorChg et)
    (Q1 := { Q with cfg := Q.cfg.mirror et pert, prob := some (P.mirror et) })
    hP rfl hr hr hv hv' ⟨rfl, rfl⟩ (by rw [hx]; rfl) (one_mul _).symm rfl
    (change_mirror hnan he hd hp hA hR) h hH
  have hid : ∀ l : List ℝ, l.map ((1 : ℝ) * ·) = l := by intro l; simp
  refine ⟨Q'', _, h1, h2, h3, h4, hid _, ?_, hid _, rfl, ?_, rfl, rfl, hid _, ?_⟩
  · simp only [Chg.hist, hx]
  · simp [Chg.hist, mirrorChg]
  · simp [Chg.hist, mirrorChg]

end runs

section samples
open CoastSample

/-- C94: the thrusting run of `Burn` (Keplerian elements) reflected in the reference plane -/
example : ∃ Q'' H', (({ Burn.obj false with
      cfg := (Burn.cfg false).mirror .keplerian none
      prob := some (Burn.prob.mirror .keplerian) } : QLaw ℝ).solve (.flt 0) (.flt 0) 2 = some (Q'', none)) ∧
    Q''.hist = some H' ∧ Q''.exitcode = 1 ∧ H'.controls = [(0, -0, 1)] ∧
    ∃ y, H'.states = [mirrored .keplerian Burn.prob.oe0, y] := by
  obtain ⟨Q', H, y, h1, h2, h3, -, h4, h5, -⟩ := Burn.run
  obtain ⟨Q'', H', a1, a2, a3, -, -, a5, -, -, a6, -⟩ := C94_mirror (et := .keplerian)
    (Q := Burn.obj false) (P := Burn.prob) (pert := none) (etaA' := .flt 0) (etaR' := .flt 0)
    (fun _ => rfl) rfl rfl rfl rfl rfl rfl trivial
    (fun _ _ _ _ => rfl) (fun _ _ _ _ => rfl) h1 h2
  exact ⟨Q'', H', a1, a2, by rw [a3, h3], by rw [a6, h4]; rfl, _, by rw [a5, h5]; rfl⟩

/-- C94: the thrusting run of `MeeBurn` (modified equinoctial elements) reflected in the reference plane -/
example : ∃ Q'' H', (({ MeeBurn.obj with
      cfg := MeeBurn.cfg.mirror .meeWithA none
      prob := some (MeeBurn.prob.mirror .meeWithA) } : QLaw ℝ).solve (.flt 0) (.flt 0) 2 = some (Q'', none)) ∧
    Q''.hist = some H' ∧ Q''.exitcode = 1 ∧ H'.controls = [(0, -0, 1)] ∧
    ∃ y, H'.states = [mirrored .meeWithA MeeBurn.prob.oe0, y] := by
  obtain ⟨Q', H, y, h1, h2, h3, -, h4, h5, -⟩ := MeeBurn.run
  obtain ⟨Q'', H', a1, a2, a3, -, -, a5, -, -, a6, -⟩ := C94_mirror (et := .meeWithA)
    (Q := MeeBurn.obj) (P := MeeBurn.prob) (pert := none) (etaA' := .flt 0) (etaR' := .flt 0)
    (fun _ => rfl) rfl rfl rfl rfl rfl rfl trivial
    (fun _ _ _ _ => rfl) (fun _ _ _ _ => rfl) h1 h2
  exact ⟨Q'', H', a1, a2, by rw [a3, h3], by rw [a6, h4]; rfl, _, by rw [a5, h5]; rfl⟩

end samples

end PyQ
