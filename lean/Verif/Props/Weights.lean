import Verif.Proofs.Sim
import Verif.Proofs.View
import Verif.Examples.Burn
import Mathlib.Analysis.Calculus.Deriv.Mul

/-! # What the weights, the unweighted targets and the unit of mass do to a run (real arithmetic)

C77: a target component whose weight is zero has no influence on the run. C78: only the ratios of the
weights matter; `Q` and its rate are multiplied by the common factor. C79: only the ratios of mass, thrust,
mass flow and mass limit matter. -/

set_option linter.unusedSectionVars false
set_option maxRecDepth 100000

namespace PyQ

/-- the target and the weights of a call replaced -/
def LyapArgs.retarget (A : LyapArgs ℝ) (oeT woe : Fin 5 → ℝ) : LyapArgs ℝ :=
  { A with oeT := oeT, woe := woe }

/-- `Q` for the other target and weights is `k` times `Q` -/
def QScales (Qf : LyapArgs ℝ → ℝ) (T w T' w' : Fin 5 → ℝ) (k : ℝ) : Prop :=
  ∀ A : LyapArgs ℝ, A.oeT = T → A.woe = w → Qf (A.retarget T' w') = k * Qf A

theorem partialQ_scale {Qf : LyapArgs ℝ → ℝ} {T w T' w' : Fin 5 → ℝ} {k : ℝ}
    (h : QScales Qf T w T' w' k) {A : LyapArgs ℝ} (h1 : A.oeT = T) (h2 : A.woe = w) (j : Fin 5) :
    partialQ Qf (A.retarget T' w') j = k * partialQ Qf A j := by
  unfold partialQ
  simp only [diff_real]
  have : (fun x => Qf ((A.retarget T' w').setOe j x)) = fun x => k * Qf (A.setOe j x) := by
    funext x
    exact h (A.setOe j x) h1 h2
  rw [this, deriv_const_mul_field]
  rfl

theorem rawControl_scale (psi : Fin 3 → Fin 5 → ℝ) (dq : Fin 5 → ℝ) (k : ℝ) :
    rawControl psi (fun j => k * dq j) = fun c => k * rawControl psi dq c := by
  funext c
  simp only [rawControl]
  ring

theorem norm_scale {k : ℝ} (hk : 0 < k) (x y z : ℝ) :
    Real.sqrt ((k * x) ^ 2 + (k * y) ^ 2 + (k * z) ^ 2) = k * Real.sqrt (x ^ 2 + y ^ 2 + z ^ 2) := by
  have : (k * x) ^ 2 + (k * y) ^ 2 + (k * z) ^ 2 = k ^ 2 * (x ^ 2 + y ^ 2 + z ^ 2) := by ring
  rw [this, Real.sqrt_mul (by positivity), Real.sqrt_sq hk.le]

theorem unit_scale {k : ℝ} (hk : 0 < k) (u : Fin 3 → ℝ) :
    vdivs (fun c => k * u c) (Real.sqrt ((k * u 0) ^ 2 + (k * u 1) ^ 2 + (k * u 2) ^ 2)) =
      vdivs u (Real.sqrt (u 0 ^ 2 + u 1 ^ 2 + u 2 ^ 2)) := by
  funext c
  simp only [vdivs, norm_scale hk, mul_div_mul_left _ _ hk.ne']

theorem angles_scale {k : ℝ} (hk : 0 < k) (u : Fin 3 → ℝ) :
    uToThrustAngles (fun c => k * u c) = uToThrustAngles u := by
  simp only [uToThrustAngles, sqrt_real, unit_scale hk]

theorem evalDqdt_scale {k : ℝ} (hk : 0 < k) (f : ℝ) (psi : Fin 3 → Fin 5 → ℝ) (dq : Fin 5 → ℝ) :
    evalDqdt f psi (fun j => k * dq j) = k * evalDqdt f psi dq := by
  simp only [evalDqdt, rawControl_scale, sqrt_real, unit_scale hk]
  ring

theorem dot5_scale (k : ℝ) (v w : Fin 5 → ℝ) : dot5 (fun j => k * v j) w = k * dot5 v w := by
  simp only [dot5]; ring

theorem angles_law_scale {k : ℝ} (hk : 0 < k) {F : LyapArgs ℝ → LyapOut ℝ} {A A' : LyapArgs ℝ}
    (hf : A'.f = A.f) (h1 : (F A').psi = (F A).psi) (h2 : (F A').q = k * (F A).q)
    (h3 : (F A').dqdoe = fun j => k * (F A).dqdoe j)
    (h4 : (F A').uRaw = fun c => k * (F A).uRaw c) :
    lyapunovControlAngles F A' = (lyapunovControlAngles F A).map (ControlOut.scaled k) := by
  unfold lyapunovControlAngles
  simp only [h1, h2, h3, h4, hf, angles_scale hk, bind, Except.bind, pure, Except.pure]
  cases uToThrustAngles (F A).uRaw with
  | error e => rfl
  | ok p =>
    obtain ⟨u, al, be⟩ := p
    simp only [Except.map, ControlOut.scaled, dot5_scale, dot3]
    congr 2
    ring

theorem kepPsi_retarget (A : LyapArgs ℝ) (T w : Fin 5 → ℝ) : kepPsi (A.retarget T w) = kepPsi A := by
  simp only [kepPsi, LyapArgs.retarget]

theorem meePsi_retarget (A : LyapArgs ℝ) (T w : Fin 5 → ℝ) : meePsi (A.retarget T w) = meePsi A := by
  simp only [meePsi, LyapArgs.retarget]

theorem kepLyap_scale {k : ℝ} (hk : 0 < k) {T w T' w' : Fin 5 → ℝ} (hq : QScales kepQ T w T' w' k)
    {A : LyapArgs ℝ} (h1 : A.oeT = T) (h2 : A.woe = w) :
    lyapunovControlAngles kepLyap (A.retarget T' w') =
        (lyapunovControlAngles kepLyap A).map (ControlOut.scaled k) ∧
      kepDqdt (A.retarget T' w') = k * kepDqdt A := by
  have hp : partialQ kepQ (A.retarget T' w') = fun j => k * partialQ kepQ A j :=
    funext fun j => partialQ_scale hq h1 h2 j
  have hA : (A.retarget T' w').f = A.f := rfl
  constructor
  · refine angles_law_scale hk hA ?_ ?_ ?_ ?_ <;> simp only [kepLyap]
    · exact kepPsi_retarget A T' w'
    · exact hq A h1 h2
    · exact hp
    · rw [hp, kepPsi_retarget, rawControl_scale]
  · simp only [kepDqdt]
    rw [hp, kepPsi_retarget, evalDqdt_scale hk, hA]

theorem meeLyap_scale {k : ℝ} (hk : 0 < k) {T w T' w' : Fin 5 → ℝ} (hq : QScales meeQ T w T' w' k)
    {A : LyapArgs ℝ} (h1 : A.oeT = T) (h2 : A.woe = w) :
    lyapunovControlAngles meeLyap (A.retarget T' w') =
        (lyapunovControlAngles meeLyap A).map (ControlOut.scaled k) ∧
      meeDqdt (A.retarget T' w') = k * meeDqdt A := by
  have hp : partialQ meeQ (A.retarget T' w') = fun j => k * partialQ meeQ A j :=
    funext fun j => partialQ_scale hq h1 h2 j
  have hA : (A.retarget T' w').f = A.f := rfl
  constructor
  · refine angles_law_scale hk hA ?_ ?_ ?_ ?_ <;> simp only [meeLyap]
    · exact meePsi_retarget A T' w'
    · exact hq A h1 h2
    · exact hp
    · rw [hp, meePsi_retarget, rawControl_scale]
  · simp only [meeDqdt]
    rw [hp, meePsi_retarget, evalDqdt_scale hk, hA]

theorem lawSim_of {C : Config ℝ} {et : ElemType} (hd : C.dyn = dynOf et) {P P' : Problem ℝ} {k : ℝ}
    (hk : 0 < k) {v v' : Fin 5 → ℝ}
    (hkep : QScales kepQ v P.woe v' P'.woe k) (hmee : QScales meeQ v P.woe v' P'.woe k)
    (hconv : ∀ oe tol, (dynOf (α := ℝ) et).checkConv oe v' P'.woe tol =
      (dynOf (α := ℝ) et).checkConv oe v P.woe tol) :
    LawSim C P P' k v v' := by
  have e1 : ∀ accel oe, lyapArgs C P' v' accel oe = (lyapArgs C P v accel oe).retarget v' P'.woe :=
    fun _ _ => rfl
  have e2 : ∀ accel oe, (lyapArgs C P v accel oe).oeT = v := fun _ _ => rfl
  have e3 : ∀ accel oe, (lyapArgs C P v accel oe).woe = P.woe := fun _ _ => rfl
  constructor
  · intro accel oe
    rw [hd, e1]
    cases et with
    | keplerian => exact (kepLyap_scale hk hkep (e2 _ _) (e3 _ _)).1
    | meeWithA => exact (meeLyap_scale hk hmee (e2 _ _) (e3 _ _)).1
  · intro accel oe
    rw [hd, e1]
    cases et with
    | keplerian => exact (kepLyap_scale hk hkep (e2 _ _) (e3 _ _)).2
    | meeWithA => exact (meeLyap_scale hk hmee (e2 _ _) (e3 _ _)).2
  · rw [hd]; exact hconv

theorem kepQ_weights (T w : Fin 5 → ℝ) (k : ℝ) :
    QScales kepQ T w T (fun i => k * w i) k := by
  rintro A rfl rfl
  simp only [kepQ, LyapArgs.retarget, kepDoe, kepOedot, kepPenalty, kepSoe]
  ring

theorem meeQ_weights (T w : Fin 5 → ℝ) (k : ℝ) :
    QScales meeQ T w T (fun i => k * w i) k := by
  rintro A rfl rfl
  simp only [meeQ, LyapArgs.retarget, meeDoe, meeOedot, meePenalty, meeSoe]
  ring

theorem kepQ_target {T T' w : Fin 5 → ℝ} (h : ∀ i, w i ≠ 0 → T' i = T i) :
    QScales kepQ T w T' w 1 := by
  rintro A rfl rfl
  have t : ∀ i, ∀ x y : ℝ, (A.woe i ≠ 0 → x = y) → A.woe i * x = A.woe i * y := by
    intro i x y hxy
    by_cases hw : A.woe i = 0
    · simp [hw]
    · rw [hxy hw]
  have e0 : kepOedot (A.retarget T' A.woe) = kepOedot A := rfl
  have e1 : kepPenalty (A.retarget T' A.woe) = kepPenalty A := rfl
  have e2 : (A.retarget T' A.woe).woe = A.woe := rfl
  have e3 : (A.retarget T' A.woe).wp = A.wp := rfl
  simp only [kepQ, e0, e1, e2, e3, one_mul, Nat.cast_one, mul_one, mul_assoc]
  rw [t 0 (kepSoe (A.retarget T' A.woe) * (kepDoe (A.retarget T' A.woe) 0 / kepOedot A 0) ^ 2)
      (kepSoe A * (kepDoe A 0 / kepOedot A 0) ^ 2)
      (fun hw => by simp [kepSoe, kepDoe, LyapArgs.retarget, h 0 hw]),
    t 1 ((kepDoe (A.retarget T' A.woe) 1 / kepOedot A 1) ^ 2) ((kepDoe A 1 / kepOedot A 1) ^ 2)
      (fun hw => by simp [kepDoe, LyapArgs.retarget, h 1 hw]),
    t 2 ((kepDoe (A.retarget T' A.woe) 2 / kepOedot A 2) ^ 2) ((kepDoe A 2 / kepOedot A 2) ^ 2)
      (fun hw => by simp [kepDoe, LyapArgs.retarget, h 2 hw]),
    t 3 ((kepDoe (A.retarget T' A.woe) 3 / kepOedot A 3) ^ 2) ((kepDoe A 3 / kepOedot A 3) ^ 2)
      (fun hw => by simp [kepDoe, LyapArgs.retarget, h 3 hw]),
    t 4 ((kepDoe (A.retarget T' A.woe) 4 / kepOedot A 4) ^ 2) ((kepDoe A 4 / kepOedot A 4) ^ 2)
      (fun hw => by simp [kepDoe, LyapArgs.retarget, h 4 hw])]

theorem meeQ_target {T T' w : Fin 5 → ℝ} (h : ∀ i, w i ≠ 0 → T' i = T i) :
    QScales meeQ T w T' w 1 := by
  rintro A rfl rfl
  have t : ∀ i, ∀ x y : ℝ, (A.woe i ≠ 0 → x = y) → A.woe i * x = A.woe i * y := by
    intro i x y hxy
    by_cases hw : A.woe i = 0
    · simp [hw]
    · rw [hxy hw]
  have e0 : meeOedot (A.retarget T' A.woe) = meeOedot A := rfl
  have e1 : meePenalty (A.retarget T' A.woe) = meePenalty A := rfl
  have e2 : (A.retarget T' A.woe).woe = A.woe := rfl
  have e3 : (A.retarget T' A.woe).wp = A.wp := rfl
  simp only [meeQ, e0, e1, e2, e3, one_mul, Nat.cast_one, mul_one, mul_assoc]
  rw [t 0 (meeSoe (A.retarget T' A.woe) * (meeDoe (A.retarget T' A.woe) 0 / meeOedot A 0) ^ 2)
      (meeSoe A * (meeDoe A 0 / meeOedot A 0) ^ 2)
      (fun hw => by simp [meeSoe, meeDoe, LyapArgs.retarget, h 0 hw]),
    t 1 ((meeDoe (A.retarget T' A.woe) 1 / meeOedot A 1) ^ 2) ((meeDoe A 1 / meeOedot A 1) ^ 2)
      (fun hw => by simp [meeDoe, LyapArgs.retarget, h 1 hw]),
    t 2 ((meeDoe (A.retarget T' A.woe) 2 / meeOedot A 2) ^ 2) ((meeDoe A 2 / meeOedot A 2) ^ 2)
      (fun hw => by simp [meeDoe, LyapArgs.retarget, h 2 hw]),
    t 3 ((meeDoe (A.retarget T' A.woe) 3 / meeOedot A 3) ^ 2) ((meeDoe A 3 / meeOedot A 3) ^ 2)
      (fun hw => by simp [meeDoe, LyapArgs.retarget, h 3 hw]),
    t 4 ((meeDoe (A.retarget T' A.woe) 4 / meeOedot A 4) ^ 2) ((meeDoe A 4 / meeOedot A 4) ^ 2)
      (fun hw => by simp [meeDoe, LyapArgs.retarget, h 4 hw])]

theorem checkFlags_congr {d d' w w' tol : Fin 5 → ℝ} (h0 : ∀ i, w' i = 0 ↔ w i = 0)
    (h : ∀ i, w i ≠ 0 → d' i = d i) : checkFlags d' w' tol = checkFlags d w tol := by
  unfold checkFlags
  have : (fun idx : Fin 5 => if PyOrd.eq (w' idx) ((0 : ℕ) : ℝ) then 1
      else if PyOrd.le (d' idx) (tol idx) then (1 : ℕ) else 0) =
      fun idx => if PyOrd.eq (w idx) ((0 : ℕ) : ℝ) then 1
      else if PyOrd.le (d idx) (tol idx) then 1 else 0 := by
    funext i
    by_cases hw : w i = 0
    · have hw' := (h0 i).2 hw
      simp [hw, hw']
    · have hw' : w' i ≠ 0 := fun h => hw ((h0 i).1 h)
      rw [h i hw]
      simp [hw, hw']
  rw [this]

theorem conv_congr (et : ElemType) {T T' w w' tol : Fin 5 → ℝ} {oe : Fin 6 → ℝ}
    (h0 : ∀ i, w' i = 0 ↔ w i = 0) (h : ∀ i, w i ≠ 0 → T' i = T i) :
    (dynOf (α := ℝ) et).checkConv oe T' w' tol = (dynOf (α := ℝ) et).checkConv oe T w tol := by
  cases et with
  | keplerian =>
    refine checkFlags_congr h0 fun i hw => ?_
    have := h i hw
    match i with
    | 0 => simp [this]
    | 1 => simp [this]
    | 2 => simp [this]
    | 3 => simp [this]
    | 4 => simp [this]
  | meeWithA =>
    refine checkFlags_congr h0 fun i hw => ?_
    simp only [h i hw]

theorem asVec5_congr {l l' : List ℝ} {w : Fin 5 → ℝ} (hl : l'.length = l.length)
    (h : ∀ i : Fin 5, w i ≠ 0 → l'[(i : ℕ)]? = l[(i : ℕ)]?) :
    (∃ e, asVec5 l = .error e ∧ asVec5 l' = .error e) ∨
      ∃ v v', asVec5 l = .ok v ∧ asVec5 l' = .ok v' ∧ ∀ i, w i ≠ 0 → v' i = v i := by
  match l, l', hl with
  | [], [], _ => exact Or.inl ⟨_, rfl, rfl⟩
  | [_], [_], _ => exact Or.inl ⟨_, rfl, rfl⟩
  | [_, _], [_, _], _ => exact Or.inl ⟨_, rfl, rfl⟩
  | [_, _, _], [_, _, _], _ => exact Or.inl ⟨_, rfl, rfl⟩
  | [_, _, _, _], [_, _, _, _], _ => exact Or.inl ⟨_, rfl, rfl⟩
  | [a, b, c, d, e], [a', b', c', d', e'], _ =>
    refine Or.inr ⟨_, _, rfl, rfl, fun i hw => ?_⟩
    have := h i hw
    match i with
    | 0 => simpa using this
    | 1 => simpa using this
    | 2 => simpa using this
    | 3 => simpa using this
    | 4 => simpa using this
  | _ :: _ :: _ :: _ :: _ :: _ :: _, _ :: _ :: _ :: _ :: _ :: _ :: _, _ =>
    exact Or.inl ⟨_, rfl, rfl⟩

section runs
variable [PyNan ℝ]

theorem Problem.scaled_one (P : Problem ℝ) (oeT : List ℝ) (woe : Fin 5 → ℝ) :
    P.scaled 1 oeT woe = { P with oeT := oeT, woe := woe } := by
  simp [Problem.scaled]

/-- **C77** Let the weights of some target components be zero, and let `oeT'` be a target of the same
length that agrees with the target of the problem in all components with a nonzero weight. Then solving
the problem with target `oeT'` gives the same histories, exit code, convergence flag and exception,
whichever the element set, the integrator, the thresholds and the perturbation. -/
theorem C77_zero_weight_partial {Q Q' : QLaw ℝ} {P : Problem ℝ} {et : ElemType} {oeT' : List ℝ}
    {etaA etaR : EtaArg ℝ} {fuel : ℕ} {e : Option PyErr} (hP : Q.prob = some P)
    (hd : Q.cfg.dyn = dynOf et) (hl : oeT'.length = P.oeT.length)
    (hT : ∀ i : Fin 5, P.woe i ≠ 0 → oeT'[(i : ℕ)]? = P.oeT[(i : ℕ)]?)
    (h : Q.solve etaA etaR fuel = some (Q', e)) :
    ∃ Q'', ({ Q with prob := some { P with oeT := oeT' } }).solve etaA etaR fuel = some (Q'', e) ∧
      Q''.hist = Q'.hist ∧ Q''.exitcode = Q'.exitcode ∧ Q''.converge = Q'.converge := by
  cases hr : Q.ready with
  | false =>
    have h' : Q.solve etaA etaR fuel = some (Q, some .assertion) := by simp [QLaw.solve, hr]
    rw [h'] at h
    cases h
    exact ⟨_, rfl, rfl, rfl, rfl⟩
  | true =>
    cases hv : etaA.valid with
    | false =>
      have h' : Q.solve etaA etaR fuel = some (Q, some .valueError) := by
        simp [QLaw.solve, hr, hP, hv]
      rw [h'] at h
      cases h
      refine ⟨{ Q with prob := some { P with oeT := oeT' } }, ?_, rfl, rfl, rfl⟩
      simp [QLaw.solve, hv, hr]
    | true =>
      have hS : Sim (envOf Q P etaA etaR) 1 1 oeT' P.woe := by
        refine ⟨one_pos, one_pos, by intros; rw [one_mul], by intros; rw [one_mul], ?_⟩
        rcases asVec5_congr hl hT with h1 | ⟨v, v', h1, h2, h3⟩
        · exact Or.inl h1
        · refine Or.inr ⟨v, v', h1, h2, lawSim_of hd one_pos (kepQ_target h3)
            (meeQ_target h3) ?_⟩
          intro oe tol
          exact conv_congr et (fun _ => Iff.rfl) h3
      have := solve_scale hP hr hv hS h
      simp only [QLaw.scaledProb, hP, hr, Option.map, Problem.scaled_one] at this
      refine ⟨_, this, ?_, rfl, rfl⟩
      simp only [QLaw.scaled]
      cases Q'.hist with
      | none => rfl
      | some H => simp [Hist.scaled]

/-- **C78** Multiplying all weights by the same positive number does not change the trajectory: times,
states, masses, battery levels, controls, effectivities, thresholds, exit code, convergence flag and
exception are the same; the recorded values of `Q` and of its rate are multiplied by that number. -/
theorem C78_weight_ratio {Q Q' : QLaw ℝ} {P : Problem ℝ} {et : ElemType} {k : ℝ} (hk : 0 < k)
    {etaA etaR : EtaArg ℝ} {fuel : ℕ} {e : Option PyErr} {H : Hist ℝ} (hP : Q.prob = some P)
    (hr : Q.ready = true) (hv : etaA.valid = true)
    (hd : Q.cfg.dyn = dynOf et)
    (h : Q.solve etaA etaR fuel = some (Q', e)) (hH : Q'.hist = some H) :
    ∃ Q'' H', ({ Q with prob := some { P with woe := fun i => k * P.woe i } }).solve etaA etaR fuel =
        some (Q'', e) ∧ Q''.hist = some H' ∧ Q''.exitcode = Q'.exitcode ∧
      Q''.converge = Q'.converge ∧ H'.times = H.times ∧ H'.states = H.states ∧
      H'.masses = H.masses ∧ H'.battery = H.battery ∧ H'.controls = H.controls ∧
      H'.etas = H.etas ∧ H'.etasBounds = H.etasBounds ∧
      H'.qs = H.qs.map (k * ·) ∧ H'.dqdts = H.dqdts.map (k * ·) := by
  have hS : Sim (envOf Q P etaA etaR) k 1 P.oeT fun i => k * P.woe i := by
    refine ⟨hk, one_pos, by intros; rw [one_mul], by intros; rw [one_mul], ?_⟩
    show (∃ e, asVec5 P.oeT = .error e ∧ asVec5 P.oeT = .error e) ∨ ∃ v v', asVec5 P.oeT = .ok v ∧ asVec5 P.oeT = .ok v' ∧ _
    cases hv : asVec5 P.oeT with
    | error e => exact Or.inl ⟨_, rfl, rfl⟩
    | ok v =>
      refine Or.inr ⟨v, v, rfl, rfl, lawSim_of hd hk (kepQ_weights _ _ _)
        (meeQ_weights _ _ _) ?_⟩
      intro oe tol
      exact conv_congr et (fun i => by
        show k * P.woe i = 0 ↔ P.woe i = 0
        simp [hk.ne']) (fun _ _ => rfl)
  have := solve_scale hP hr hv hS h
  simp only [QLaw.scaledProb, hP, Option.map, Problem.scaled_one] at this
  refine ⟨_, H.scaled k 1, this, ?_⟩
  simp [QLaw.scaled, hH, Hist.scaled]

/-- **C79** Multiplying initial mass, thrust, mass flow rate and mass limit by the same positive number
(for instance, changing the unit of mass) multiplies the recorded masses by that number and changes
nothing else, provided the values of callable thresholds do not change either. No assumption is made about
the dynamics, the control law or the perturbation. -/
theorem C79_mass_unit {Q Q' : QLaw ℝ} {P : Problem ℝ} {k : ℝ} (hk : 0 < k)
    {etaA etaR : EtaArg ℝ} {fuel : ℕ} {e : Option PyErr} {H : Hist ℝ} (hP : Q.prob = some P)
    (hr : Q.ready = true) (hv : etaA.valid = true)
    (hA : ∀ t oe m b, evalEta etaA t oe (k * m) b = evalEta etaA t oe m b)
    (hR : ∀ t oe m b, evalEta etaR t oe (k * m) b = evalEta etaR t oe m b)
    (h : Q.solve etaA etaR fuel = some (Q', e)) (hH : Q'.hist = some H) :
    ∃ Q'' H', ({ Q with prob := some { P with
          mass0 := k * P.mass0, tmax := k * P.tmax, mdot := k * P.mdot, massMin := k * P.massMin } }).solve
        etaA etaR fuel = some (Q'', e) ∧
      Q''.hist = some H' ∧ Q''.exitcode = Q'.exitcode ∧ Q''.converge = Q'.converge ∧
      H' = { H with masses := H.masses.map (k * ·) } := by
  have hS : Sim (envOf Q P etaA etaR) 1 k P.oeT P.woe := by
    refine ⟨one_pos, hk, hA, hR, ?_⟩
    show (∃ e, asVec5 P.oeT = .error e ∧ asVec5 P.oeT = .error e) ∨ ∃ v v', asVec5 P.oeT = .ok v ∧ asVec5 P.oeT = .ok v' ∧ _
    cases hv : asVec5 P.oeT with
    | error e => exact Or.inl ⟨_, rfl, rfl⟩
    | ok v =>
      refine Or.inr ⟨v, v, rfl, rfl, ⟨fun accel oe => ?_, fun accel oe => ?_, fun _ _ => rfl⟩⟩
      · show lyapunovControlAngles _ (lyapArgs Q.cfg P v accel oe) = _
        generalize hx : lyapunovControlAngles (envOf Q P etaA etaR).cfg.dyn.lyapFun
          (lyapArgs Q.cfg P v accel oe) = x
        have hx' : lyapunovControlAngles (envOf Q P etaA etaR).cfg.dyn.lyapFun
          (lyapArgs (envOf Q P etaA etaR).cfg (envOf Q P etaA etaR).prob v accel oe) = x := hx
        rw [hx']
        cases x with
        | error e => rfl
        | ok o => simp [Except.map, ControlOut.scaled]
      · rw [one_mul]; rfl
  have := solve_scale hP hr hv hS h
  simp only [QLaw.scaledProb, hP, Option.map, Problem.scaled] at this
  refine ⟨_, H.scaled 1 k, this, ?_⟩
  simp [QLaw.scaled, hH, Hist.scaled]

end runs

section samples
open CoastSample

/-- C77: in the transfer of `Burn` only the semi-major axis has a nonzero weight, so the other target
components can be anything; the run thrusts and converges -/
example : ∃ Q'' H, ({ Burn.obj false with prob := some { Burn.prob with oeT := [2, 7, -7, 7, -7] } }).solve
    (.flt 0) (.flt 0) 2 = some (Q'', none) ∧ Q''.hist = some H ∧ H.controls = [(0, 0, 1)] ∧
    Q''.exitcode = 1 := by
  obtain ⟨Q', H, y, h1, h2, h3, -, h4, -⟩ := Burn.run
  obtain ⟨Q'', h5, h6, h7, -⟩ := C77_zero_weight_partial (P := Burn.prob) (et := .keplerian)
    (oeT' := [2, 7, -7, 7, -7]) rfl rfl rfl (by
      intro i hi
      match i with
      | 0 => rfl
      | 1 => exact absurd rfl hi
      | 2 => exact absurd rfl hi
      | 3 => exact absurd rfl hi
      | 4 => exact absurd rfl hi) h1
  exact ⟨Q'', H, h5, by rw [h6, h2], h4, by rw [h7, h3]⟩

/-- C78 and C79: the same run with weights three times as large, and with masses and thrust twice as
large -/
example : (∃ Q'' H, ({ Burn.obj false with prob := some { Burn.prob with
        woe := fun i => 3 * Burn.prob.woe i } }).solve (.flt 0) (.flt 0) 2 = some (Q'', none) ∧
      Q''.hist = some H ∧ H.controls = [(0, 0, 1)] ∧ Q''.exitcode = 1) ∧
    ∃ Q'' H, ({ Burn.obj false with prob := some { Burn.prob with
        mass0 := 2 * Burn.prob.mass0, tmax := 2 * Burn.prob.tmax, mdot := 2 * Burn.prob.mdot,
        massMin := 2 * Burn.prob.massMin } }).solve (.flt 0) (.flt 0) 2 = some (Q'', none) ∧
      Q''.hist = some H ∧ H.controls = [(0, 0, 1)] ∧ H.masses = [2 * 1, 2 * (1 - 1 / 100 * 1)] ∧
      Q''.exitcode = 1 := by
  obtain ⟨Q', H, y, h1, h2, h3, -, h4, -, -, -, hm, -⟩ := Burn.run
  constructor
  · obtain ⟨Q'', H', h5, h6, h7, h8⟩ := C78_weight_ratio (P := Burn.prob) (et := .keplerian)
      (k := 3) (by norm_num) rfl rfl rfl rfl h1 h2
    exact ⟨Q'', H', h5, h6, by rw [h8.2.2.2.2.2.1, h4], by rw [h7, h3]⟩
  · obtain ⟨Q'', H', h5, h6, h7, -, h8⟩ := C79_mass_unit (P := Burn.prob)
      (k := 2) (by norm_num) rfl rfl rfl (fun _ _ _ _ => rfl) (fun _ _ _ _ => rfl) h1 h2
    exact ⟨Q'', H', h5, h6, by rw [h8, ← h4], by rw [h8, hm]; rfl, by rw [h7, h3]⟩

end samples

end PyQ
