import Verif.Props.Thrust
import Verif.Props.Integrators
import Verif.Props.Rates

/-! # C57: coasting -/

set_option linter.unusedSectionVars false
set_option maxRecDepth 100000
set_option synthInstance.maxSize 1000

namespace PyQ

/-! ## the equations of motion over the reals -/

/-- an elliptic, non-circular Keplerian state -/
structure KepState (mu : ℝ) (x : Fin 6 → ℝ) : Prop where
  mu : 0 < mu
  a : 0 < x 0
  e0 : 0 < x 1
  e1 : x 1 < 1

/-- an elliptic MEE state at which `g/f` can be formed -/
structure MeeState (mu : ℝ) (x : Fin 6 → ℝ) : Prop where
  mu : 0 < mu
  a : 0 < x 0
  ecc : x 1 ^ 2 + x 2 ^ 2 < 1
  f : x 1 ≠ 0

theorem KepState.w_pos {mu : ℝ} {x : Fin 6 → ℝ} (H : KepState mu x) (t : ℝ) :
    0 < 1 + x 1 * Real.cos t := by
  have := H.e0; have := H.e1; nlinarith [Real.neg_one_le_cos t]

theorem KepState.h_pos {mu : ℝ} {x : Fin 6 → ℝ} (H : KepState mu x) :
    0 < x 0 * mu * (1 - x 1 ^ 2) := by
  have := H.e0; have := H.e1; have := H.a; have := H.mu
  have : 0 < 1 - x 1 ^ 2 := by nlinarith
  positivity

/-- value of the Keplerian equations of motion: nothing raises -/
theorem eomKep_real {P : OdeParams ℝ} {x : Fin 6 → ℝ} (H : KepState P.mu x) (t : ℝ) :
    eomKepGauss t x P = .ok (
      let p := x 0 * (1 - x 1 ^ 2)
      let h := Real.sqrt (x 0 * P.mu * (1 - x 1 ^ 2))
      let r := h ^ 2 / (P.mu * (1 + x 1 * Real.cos (x 5)))
      gaussCombine P ![p * Real.cos (x 5) / (x 1 * h), -(p + r) * Real.sin (x 5) / (x 1 * h), 0]
        (h / r ^ 2)) := by
  have hw := H.w_pos (x 5)
  have hh := Real.sqrt_pos.2 H.h_pos
  have hmu := H.mu
  have he := H.e0
  have h1 : P.mu * (1 + x 1 * Real.cos (x 5)) ≠ 0 := by positivity
  have h2 : x 1 * Real.sqrt (x 0 * P.mu * (1 - x 1 ^ 2)) ≠ 0 := by positivity
  have h3 : (Real.sqrt (x 0 * P.mu * (1 - x 1 ^ 2)) ^ 2 /
      (P.mu * (1 + x 1 * Real.cos (x 5)))) ^ 2 ≠ 0 := by positivity
  simp only [eomKepGauss, Nat.cast_one, Nat.cast_zero, sqrt_real, cos_real, sin_real]
  rw [ndiv_real h1]
  simp only [bind, Except.bind]
  rw [ndiv_real h2]
  simp only []
  rw [ndiv_real h2]
  simp only []
  rw [ndiv_real h3]
  rfl

/-- value of the MEE equations of motion: nothing raises -/
theorem eomMee_real {P : OdeParams ℝ} {x : Fin 6 → ℝ} (H : MeeState P.mu x) (t : ℝ) :
    eomMeeWithAGauss t x P = .ok (
      let p := x 0 * (1 - (x 1 ^ 2 + x 2 ^ 2))
      let w := 1 + x 1 * Real.cos (x 5) + x 2 * Real.sin (x 5)
      gaussCombine P ![0, 0, Real.sqrt (p / P.mu) / w *
          (x 3 * Real.sin (x 5) - x 4 * Real.cos (x 5))]
        (Real.sqrt (P.mu * p) * (w / p) ^ 2)) := by
  have hw := fg_w_pos H.ecc (x 5)
  have hmu := H.mu
  have ha := H.a
  have hecc := H.ecc
  have hsq : Real.sqrt (x 1 ^ 2 + x 2 ^ 2) ^ 2 = x 1 ^ 2 + x 2 ^ 2 := Real.sq_sqrt (by positivity)
  have hs1 : Real.sqrt (x 1 ^ 2 + x 2 ^ 2) < 1 := by
    rw [← Real.sqrt_one]; exact Real.sqrt_lt_sqrt (by positivity) hecc
  have hs0 := Real.sqrt_nonneg (x 1 ^ 2 + x 2 ^ 2)
  have hp : 0 < 1 - (x 1 ^ 2 + x 2 ^ 2) := by linarith
  have h1 : P.mu * (1 + Real.sqrt (x 1 ^ 2 + x 2 ^ 2) *
      Real.cos (x 5 - Real.arctan (x 2 / x 1))) ≠ 0 := by
    have : 0 < 1 + Real.sqrt (x 1 ^ 2 + x 2 ^ 2) * Real.cos (x 5 - Real.arctan (x 2 / x 1)) := by
      nlinarith [Real.neg_one_le_cos (x 5 - Real.arctan (x 2 / x 1))]
    positivity
  simp only [eomMeeWithAGauss, Nat.cast_one, Nat.cast_zero, sqrt_real, cos_real, sin_real,
    arctan_real]
  rw [ndiv_real H.f]
  simp only [bind, Except.bind]
  rw [ndiv_real h1]
  simp only [hsq]
  rw [ndiv_real hmu.ne']
  simp only []
  rw [ndiv_real hw.ne']
  simp only []
  rw [ndiv_real (by positivity)]
  rfl

/-- no thrust and no perturbation -/
def Coasting (P : OdeParams ℝ) : Prop := ∀ i, P.u i = 0 ∧ P.ptrb i = 0

theorem gauss_coast {P : OdeParams ℝ} (hP : Coasting P) (row : Fin 3 → ℝ) (rate : ℝ) :
    gaussCombine P row rate = ![0, 0, 0, 0, 0, rate] := by
  have hu := fun i => (hP i).1
  have hp := fun i => (hP i).2
  funext i; fin_cases i <;> simp [gaussCombine, dot3, vadd, hu, hp]

/-- C57: coasting, the Keplerian equations of motion give zero slow rates and the anomaly rate `h/r²`,
where `r = p/(1 + e cos ν)` and `h² = μ p`. -/
theorem C57_keplerian (P : OdeParams ℝ) (hP : Coasting P) (x : Fin 6 → ℝ) (H : KepState P.mu x)
    (t : ℝ) : ∃ h r, 0 < h ∧ 0 < r ∧ h ^ 2 = P.mu * (x 0 * (1 - x 1 ^ 2)) ∧
      r * (1 + x 1 * Real.cos (x 5)) = x 0 * (1 - x 1 ^ 2) ∧
      eomKepGauss t x P = .ok ![0, 0, 0, 0, 0, h / r ^ 2] := by
  have hw := H.w_pos (x 5)
  have hh := Real.sqrt_pos.2 H.h_pos
  have hmu := H.mu
  have hs := Real.sq_sqrt H.h_pos.le
  refine ⟨Real.sqrt (x 0 * P.mu * (1 - x 1 ^ 2)), Real.sqrt (x 0 * P.mu * (1 - x 1 ^ 2)) ^ 2 /
    (P.mu * (1 + x 1 * Real.cos (x 5))), hh, ?_, ?_, ?_, by rw [eomKep_real H t]; simp only [gauss_coast hP]⟩
  · positivity
  · rw [hs]; ring
  · rw [hs]; field_simp

/-- C57: the same for MEE; `p = a (1 - f² - g²)`, `w = 1 + f cos L + g sin L`. -/
theorem C57_mee (P : OdeParams ℝ) (hP : Coasting P) (x : Fin 6 → ℝ) (H : MeeState P.mu x)
    (t : ℝ) : ∃ h r, 0 < h ∧ 0 < r ∧ h ^ 2 = P.mu * (x 0 * (1 - x 1 ^ 2 - x 2 ^ 2)) ∧
      r * (1 + x 1 * Real.cos (x 5) + x 2 * Real.sin (x 5)) = x 0 * (1 - x 1 ^ 2 - x 2 ^ 2) ∧
      eomMeeWithAGauss t x P = .ok ![0, 0, 0, 0, 0, h / r ^ 2] := by
  have hw := fg_w_pos H.ecc (x 5)
  have hmu := H.mu
  have ha := H.a
  have hecc := H.ecc
  have hp0 : 0 < 1 - (x 1 ^ 2 + x 2 ^ 2) := by linarith
  have hp : 0 < x 0 * (1 - (x 1 ^ 2 + x 2 ^ 2)) := by positivity
  have hmp : 0 < P.mu * (x 0 * (1 - (x 1 ^ 2 + x 2 ^ 2))) := by positivity
  refine ⟨Real.sqrt (P.mu * (x 0 * (1 - (x 1 ^ 2 + x 2 ^ 2)))),
    x 0 * (1 - (x 1 ^ 2 + x 2 ^ 2)) / (1 + x 1 * Real.cos (x 5) + x 2 * Real.sin (x 5)),
    Real.sqrt_pos.2 hmp, by positivity, by rw [Real.sq_sqrt hmp.le]; ring, ?_, ?_⟩
  · field_simp; ring
  · rw [eomMee_real H t]
    simp only [gauss_coast hP]
    congr 2
    generalize Real.sqrt (P.mu * (x 0 * (1 - (x 1 ^ 2 + x 2 ^ 2)))) = h
    generalize x 0 * (1 - (x 1 ^ 2 + x 2 ^ 2)) = p at *
    generalize 1 + x 1 * Real.cos (x 5) + x 2 * Real.sin (x 5) = w at *
    rw [show h * (w / p) ^ 2 = h / (p / w) ^ 2 by field_simp]

/-- C57: whenever they return, both right-hand sides leave the slow elements alone when coasting -/
theorem eom_coast_slow {P : OdeParams ℝ} (hP : Coasting P)
    {eom : ℝ → (Fin 6 → ℝ) → OdeParams ℝ → Except PyErr (Fin 6 → ℝ)}
    (he : eom = eomKepGauss ∨ eom = eomMeeWithAGauss) (t : ℝ) (x : Fin 6 → ℝ) {k : Fin 6 → ℝ}
    (hk : eom t x P = .ok k) (j : Fin 5) : k j.castSucc = 0 := by
  have key : ∃ row rate, k = gaussCombine P row rate := by
    rcases he with rfl | rfl
    · unfold eomKepGauss at hk
      simp only [bind, Except.bind, pure, Except.pure] at hk
      repeat' (split at hk <;> try cases hk)
      exact ⟨_, _, rfl⟩
    · unfold eomMeeWithAGauss at hk
      simp only [bind, Except.bind, pure, Except.pure] at hk
      repeat' (split at hk <;> try cases hk)
      exact ⟨_, _, rfl⟩
  obtain ⟨row, rate, rfl⟩ := key
  rw [gauss_coast hP]
  fin_cases j <;> rfl

/-- if a component of the right-hand side is always zero, `rk4` leaves it alone -/
theorem rk4_component {n : ℕ} {P : Type} {rhs : ℝ → (Fin n → ℝ) → P → Except PyErr (Fin n → ℝ)}
    {p : P} {j : Fin n} (h0 : ∀ t y k, rhs t y p = .ok k → k j = 0) {t h : ℝ} {y z : Fin n → ℝ}
    (hz : rk4 rhs t h y p = .ok z) : z j = y j := by
  unfold rk4 at hz
  simp only [bind, Except.bind, pure, Except.pure] at hz
  repeat' (split at hz <;> try cases hz)
  rename_i _ k1 h1 _ k2 h2 _ k3 h3 _ k4 h4
  simp [vadd, vsmul, h0 _ _ _ h1, h0 _ _ _ h2, h0 _ _ _ h3, h0 _ _ _ h4]

/-- the same for `rkf45` -/
theorem rkf45_component {n : ℕ} {P : Type} {rhs : ℝ → (Fin n → ℝ) → P → Except PyErr (Fin n → ℝ)}
    {p : P} {j : Fin n} (h0 : ∀ t y k, rhs t y p = .ok k → k j = 0) {t h tol hn : ℝ}
    {y z : Fin n → ℝ} (hz : rkf45 rhs t h y p tol = .ok (z, hn)) : z j = y j := by
  unfold rkf45 at hz
  simp only [bind, Except.bind, pure, Except.pure] at hz
  split at hz
  · cases hz
  rename_i k1 h1
  split at hz
  · cases hz
  rename_i k2 h2
  split at hz
  · cases hz
  rename_i k3 h3
  split at hz
  · cases hz
  rename_i k4 h4
  split at hz
  · cases hz
  rename_i k5 h5
  split at hz
  · cases hz
  rename_i k6 h6
  split at hz
  · cases hz
  rename_i q hq
  injection hz with hz
  injection hz with hz _
  rw [← hz]
  simp [vadd, vsub, vsmul, h0 _ _ _ h1, h0 _ _ _ h3, h0 _ _ _ h4, h0 _ _ _ h5]

/-- C57: a coasting `rk4` step from an elliptic non-circular Keplerian state never raises, keeps the
five slow elements exactly, and with a positive step advances the anomaly. -/
theorem C57_rk4_keplerian (P : OdeParams ℝ) (hP : Coasting P) (x : Fin 6 → ℝ)
    (H : KepState P.mu x) (t h : ℝ) :
    ∃ y, rk4 eomKepGauss t h x P = .ok y ∧ (∀ j : Fin 5, y j.castSucc = x j.castSucc) ∧
      (0 < h → x 5 < y 5) := by
  have step : ∀ (y : Fin 6 → ℝ) (s : ℝ), KepState P.mu y →
      ∃ r, 0 < r ∧ eomKepGauss s y P = .ok ![0, 0, 0, 0, 0, r] := by
    intro y s Hy
    obtain ⟨h, r, hh, hr, -, -, e⟩ := C57_keplerian P hP y Hy s
    exact ⟨_, by positivity, e⟩
  have keep : ∀ c r : ℝ, KepState P.mu (vadd x (vsmul c ![0, 0, 0, 0, 0, r])) := by
    intro c r
    exact ⟨H.mu, by simpa [vadd, vsmul] using H.a, by simpa [vadd, vsmul] using H.e0,
      by simpa [vadd, vsmul] using H.e1⟩
  obtain ⟨r1, p1, e1⟩ := step x t H
  obtain ⟨r2, p2, e2⟩ := step _ (t + rat 1 2 * h) (keep (h * rat 1 2) r1)
  obtain ⟨r3, p3, e3⟩ := step _ (t + rat 1 2 * h) (keep (h * rat 1 2) r2)
  obtain ⟨r4, p4, e4⟩ := step _ (t + h) (keep h r3)
  have hz : rk4 eomKepGauss t h x P = .ok (fun i => x i + h / 6 *
      (![0, 0, 0, 0, 0, r1] i + 2 * ![0, 0, 0, 0, 0, r2] i + 2 * ![0, 0, 0, 0, 0, r3] i +
        ![0, 0, 0, 0, 0, r4] i)) := by
    simp only [rk4, e1, e2, e3, e4, bind, Except.bind, pure, Except.pure, Nat.cast_ofNat]
    rfl
  refine ⟨_, hz, ?_, ?_⟩
  · intro j; fin_cases j <;> simp
  · intro hh
    have : 0 < h / 6 * (r1 + 2 * r2 + 2 * r3 + r4) := by positivity
    simpa using this

/-! ## recorded states -/

section lawfree
variable {α : Type} [Add α] [Sub α] [Mul α] [Div α] [Neg α] [NatCast α] [Pow α ℕ]
  [PyTrans α] [PyOrd α] [PyNan α]

/-- a recorded state is the loop's state at that step, or its clamp -/
theorem state_or_clamp {Q Q' : QLaw α} {etaA etaR : EtaArg α} {P : Problem α} {H : Hist α}
    {n : ℕ} {tr : ℕ → LoopSt α} {D : ℕ → StepData α} {r : RunRes α}
    (hr : SolveRun Q etaA etaR Q' none P n tr D r) (hH : r.st.hist = H)
    (v : View (envOf Q P etaA etaR) H n tr D) {k : ℕ} {y : Fin 6 → α}
    (hy : H.states[k]? = some y) :
    k ≤ n ∧ (y = (tr k).oe ∨ ∃ s1, clampPhase Q.cfg (tr k) = .ok s1 ∧ y = s1.oe) := by
  have hk : k < n + 1 := by
    have := (List.getElem?_eq_some_iff.mp hy).1
    rwa [v.statesLen] at this
  refine ⟨by omega, ?_⟩
  by_cases hkn : k < n
  · rw [v.states_get hkn] at hy
    injection hy with hy
    exact Or.inr ⟨_, (v.trace.step k hkn).clamp, hy.symm⟩
  · have : k = n := by omega
    subst this
    have hlast : (tr k).hist.states[k]? = some (tr k).oe := by
      rw [v.trace.hist.states]
      simp
    have he := hr.err
    cases hr.ends with
    | timeout =>
      left
      change (tr k).hist = H at hH
      rw [← hH, hlast] at hy
      injection hy with hy
      exact hy.symm
    | exit =>
      left
      change (tr k).hist = H at hH
      rw [← hH, hlast] at hy
      injection hy with hy
      exact hy.symm
    | nan s s1 st m _ _ hc _ _ hhs _ =>
      right
      refine ⟨s1, hc, ?_⟩
      change s.hist = H at hH
      obtain ⟨l, hl1, hl2⟩ := clamp_states hc ⟨_, v.trace.hist.states⟩
      have hlen : l.length = k := by
        have h1 := congrArg List.length hl1
        rw [v.trace.hist.states] at h1
        simpa using h1.symm
      rw [← hH, hhs, hl2, List.getElem?_append_right (by omega), hlen] at hy
      simp at hy
      exact hy.symm
    | raised s e => simp [RunRes.error?] at he

end lawfree

/-- clamping twice is clamping once -/
theorem clamp_idem (l x u : ℝ) :
    pymin (pymax l (pymin (pymax l x) u)) u = pymin (pymax l x) u := by
  simp only [pymin, pymax, lt_real, decide_eq_true_eq]
  repeat' split_ifs
  all_goals linarith

theorem safety_idem {oe y : Fin 6 → ℝ} {L U : List ℝ} (h : elementsSafety oe L U = .ok y) :
    ∀ z : Fin 6 → ℝ, (∀ j : Fin 5, z j.castSucc = y j.castSucc) →
      ∀ w, elementsSafety z L U = .ok w → ∀ j : Fin 5, w j.castSucc = y j.castSucc := by
  unfold elementsSafety at h
  split at h
  · rename_i l0 l1 l2 l3 l4 tl u0 u1 u2 u3 u4 tu
    injection h with h
    subst h
    intro z hz w hw j
    injection hw with hw
    subst hw
    have z0 := hz 0; have z1 := hz 1; have z2 := hz 2; have z3 := hz 3; have z4 := hz 4
    simp at z0 z1 z2 z3 z4
    fin_cases j <;> simp [z0, z1, z2, z3, z4, clamp_idem]
  · cases h

/-- **C57.** In a completed run without perturbations, a step recorded with throttle 0 leaves the five
slow elements of the recorded state exactly unchanged, with either integrator and either element
type. -/
theorem C57_solve [PyNan ℝ] {Q Q' : QLaw ℝ} {etaA etaR : EtaArg ℝ} {fuel : ℕ} {P : Problem ℝ}
    {H : Hist ℝ} (h : Q.solve etaA etaR fuel = some (Q', none)) (hP : Q.prob = some P)
    (hH : Q'.hist = some H)
    (he : Q.cfg.dyn.eom = eomKepGauss ∨ Q.cfg.dyn.eom = eomMeeWithAGauss)
    (hpt : Q.cfg.perturbations = none) {k : ℕ} {a b : ℝ} {x y : Fin 6 → ℝ}
    (hc : H.controls[k]? = some (a, b, 0)) (hx : H.states[k]? = some x)
    (hy : H.states[k + 1]? = some y) (j : Fin 5) : y j.castSucc = x j.castSucc := by
  obtain ⟨n, tr, D, r, hr, hrH, v⟩ := solve_view h hP hH
  obtain ⟨hkn, -⟩ := v.controls_lt hc
  have ht := v.times_get hkn.le
  have hm := v.masses_get hkn.le
  obtain ⟨st, u, psi, ptrb, -, hpi, hprop, hu, -⟩ := C25_thrust_vector h hP hH hc ht hx hm
  have hu := hu rfl
  simp only [PerturbationIs, hpt] at hpi
  have hPz : Coasting { mu := Q.cfg.mu, u := u, psi0 := psi 0, psi1 := psi 1, psi2 := psi 2,
                        ptrb := ptrb } := by
    intro i; rw [hu, hpi]; fin_cases i <;> simp
  have hslow : ∀ j : Fin 5, ((envOf Q P etaA etaR).after (k + 1)).oe j.castSucc =
      x j.castSucc := by
    intro j
    unfold Propagates at hprop
    cases hi : Q.cfg.integrator with
    | rk4 =>
      simp only [hi] at hprop
      exact rk4_component (fun t y k hk => eom_coast_slow hPz he t y hk j) hprop
    | rkf45 =>
      simp only [hi] at hprop
      obtain ⟨hn, hprop⟩ := hprop
      exact rkf45_component (fun t y k hk => eom_coast_slow hPz he t y hk j) hprop
  obtain ⟨hk1, hy'⟩ := state_or_clamp hr hrH v hy
  rw [← v.trace.after (k + 1) hk1] at hslow
  rcases hy' with hy' | ⟨s1, hs1, hy'⟩
  · rw [hy']; exact hslow j
  · rcases clamp_cases hs1 with ⟨-, h2⟩ | ⟨hE, oe, h2, h3⟩
    · rw [hy', h2]; exact hslow j
    · rw [v.states_get hkn] at hx
      injection hx with hx
      rcases clamp_cases (v.trace.step k hkn).clamp with ⟨h4, -⟩ | ⟨-, oe', h5, h6⟩
      · change Q.cfg.elementsType = _ at h4; rw [hE] at h4; cases h4
      · have hxo : x = oe' := by rw [← hx, h6]
        have hyo : y = oe := by rw [hy', h3]
        rw [hyo, hxo]
        refine safety_idem h5 (tr (k + 1)).oe ?_ oe h2 j
        intro j; rw [hslow j, hxo]

/-! ## a run over the reals -/

namespace CoastSample

/-- no real number is NaN -/
noncomputable scoped instance : PyNan ℝ := ⟨0, fun _ => false⟩

/-- the package's Keplerian dynamics with a control law that always asks for radial thrust -/
noncomputable def cfg : Config ℝ where
  mu := 1
  rpmin := 1
  kPetro := 1
  mPetro := 1
  nPetro := 1
  rPetro := 1
  bPetro := 1
  wp := 1
  elementsType := .keplerian
  integrator := .rk4
  anomalyGridSize := 1
  tolOe := fun _ => 1
  tolOeRelaxed := fun _ => 1
  exitAtRelaxed := 1
  oeMin := [0, 0, 0, 0, 0]
  oeMax := [9, 9, 9, 9, 9]
  nanAnglesThreshold := 1
  stepMin := 0
  stepMax := 1
  odeTol := 1
  useSundman := false
  perturbations := none
  dyn := { eom := eomKepGauss,
           lyapFun := fun _ => { uRaw := ![1, 0, 0], psi := fun _ _ => 1, q := 1, dqdoe := fun _ => 0 },
           dqdtFun := fun _ => -1,
           checkConv := fun _ _ _ _ => false }

/-- one step of length 1 from an orbit of eccentricity 1/2 -/
noncomputable def prob : Problem ℝ where
  oe0 := ![1, 1 / 2, 1, 1, 1, 1]
  oeT := [1, 0, 0, 0, 0]
  mass0 := 1
  tmax := 1
  mdot := 1
  tfMax := 1
  tStep := 1
  massMin := 0
  woe := fun _ => 1
  dutyOn := 9
  dutyOff := 9
  batteryInitial := 1
  capMin := 0
  capMax := 1
  chargeRate := 0
  dischargeRate := 0
  requireFullRecharge := false

noncomputable def obj : QLaw ℝ :=
  { cfg := cfg, prob := some prob, ready := true, converge := false, exitcode := 0, hist := none }

theorem control : ∃ al be, uToThrustAngles ![1, 0, (0 : ℝ)] = .ok (![1, 0, 0], al, be) := by
  obtain ⟨w, a, b, h, hw, -⟩ := C37_angles ![1, 0, 0] (Or.inl (by simp))
  refine ⟨a, b, ?_⟩
  rw [h, hw]
  have : norm3 ![1, 0, (0 : ℝ)] = 1 := by simp [norm3]
  rw [this]
  congr 2
  funext i; fin_cases i <;> simp [vsmul]

/-- with a threshold of 2 the single step coasts, and the run ends normally -/
theorem run : ∃ Q' H a b y, obj.solve (.flt 2) (.flt 0) 2 = some (Q', none) ∧ Q'.hist = some H ∧
    H.controls = [(a, b, 0)] ∧ H.states = [prob.oe0, y] ∧ H.times = [0, 1] := by
  obtain ⟨al, be, hu⟩ := control
  obtain ⟨y, hy, -⟩ := C57_rk4_keplerian
    { mu := 1, u := zero3, psi0 := fun _ => 1, psi1 := fun _ => 1, psi2 := fun _ => 1, ptrb := zero3 }
    (by intro i; fin_cases i <;> simp [zero3]) prob.oe0
    ⟨by norm_num, by simp [prob], by simp [prob], by simp [prob]; norm_num⟩ 0 1
  have hcl : clampPhase cfg (initLoop prob) = .ok (initLoop prob) := by
    have : elementsSafety prob.oe0 cfg.oeMin cfg.oeMax = .ok prob.oe0 := by
      simp only [elementsSafety, cfg, prob]
      congr 1
      funext i
      fin_cases i <;> simp [pymin, pymax]
      all_goals norm_num
    simp only [clampPhase, cfg, initLoop, bind, Except.bind, pure, Except.pure] at this ⊢
    rw [this]
    rfl
  have hch : chooseStep cfg prob (initLoop prob).oe = .ok 1 := rfl
  have hdu : dutyPhase prob (initLoop prob) 1 =
      { duty := true, tOn := 0, tOff := 0, charging := false, step := 1 } := by
    simp [dutyPhase, prob, initLoop, rat]
    norm_num
  have hco : ∃ c : Ctl ℝ, controlPhase ⟨cfg, prob, .flt 2, .flt 0⟩ (initLoop prob)
      { duty := true, tOn := 0, tOff := 0, charging := false, step := 1 } = .ok (.ctl c) ∧
      c.alpha = some al ∧ c.beta = some be ∧ c.throttle = 0 ∧ c.u = zero3 ∧
      c.psi = fun _ _ => 1 := by
    have hl : linspace (1 : ℝ) (1 + 2 * Real.pi) (1 + 1) =
      [((0 : ℕ) : ℝ) * ((1 + 2 * Real.pi - 1) / ((1 : ℕ) : ℝ)) + 1] ++ [1 + 2 * Real.pi] := rfl
    simp [controlPhase, cfg, prob, initLoop, asVec5, lyapunovControlAngles, hu, bind, Except.bind,
      pure, Except.pure, evalEta, evaluateOsculatingQdot, PyNan.isnan, dot5, dot3, vsmul, hl,
      pymaxList, pyminList]
  obtain ⟨c, hc, ha, hb, hth, hcu, hpsi⟩ := hco
  have hpr : propagatePhase ⟨cfg, prob, .flt 2, .flt 0⟩ (initLoop prob) 1 c = .ok (y, 1) := by
    simp only [propagatePhase, cfg, bind, Except.bind, pure, Except.pure, hcu, hpsi]
    have : (initLoop prob).t = 0 := by simp [initLoop]
    rw [this]
    have : (initLoop prob).oe = prob.oe0 := rfl
    rw [this, hy]
  have hit : ∃ s', iter ⟨cfg, prob, .flt 2, .flt 0⟩ (initLoop prob) = .cont s' ∧
      s'.hist.times = [0, 1] ∧ s'.hist.controls = [(al, be, 0)] ∧
      s'.hist.states = [prob.oe0, y] := by
    simp only [iter, hcl, bodyPhase, hch, hdu, hc, hpr, storePhase, ha, hb, exitPhase, hth]
    simp [cfg, prob, initLoop]
    rw [if_neg (by norm_num)]
    exact ⟨_, rfl, rfl, rfl, rfl⟩
  obtain ⟨s', hit, ht, hcs, hss⟩ := hit
  have hg : guardB prob (initLoop prob) = true := by
    simp [guardB, initLoop, Hist.lastTime, prob]
  have hg' : guardB prob s' = false := by
    simp [guardB, Hist.lastTime, ht, prob]
  refine ⟨obj.finish prob (.timeout s'), s'.hist, al, be, y, ?_, rfl, hcs, hss, ht⟩
  simp only [QLaw.solve, obj, EtaArg.valid, if_true, loop, hg, hit, hg', Option.map]
  rfl

end CoastSample

end PyQ
