import Verif.Props.Uniform

/-!
C99: a thrusting run with short steps that stays in a region away from the singularities converges.
-/

set_option linter.unusedSectionVars false
set_option maxRecDepth 100000

namespace PyQ

/-- every step of a history thrusts forward for less than `δ` from a state in `K`, up to whole turns of the
anomaly -/
def StaysIn (et : ElemType) (K : Set (Fin 6 → ℝ)) (δ : ℝ) (H : Hist ℝ) : Prop :=
  ∀ (k : ℕ) (a b t t' : ℝ) (θ : ℕ) (x : Fin 6 → ℝ), H.controls[k]? = some (a, b, θ) → H.times[k]? = some t →
    H.times[k + 1]? = some t' → H.states[k]? = some x →
    θ = 1 ∧ (∃ n : ℤ, wound et 0 0 n x ∈ K) ∧ t < t' ∧ t' < t + δ

/-- with thrust in every step the propellant used is the mass flow times the time -/
theorem mass_thrusting [PyNan ℝ] {Q Q' : QLaw ℝ} {etaA etaR : EtaArg ℝ} {fuel : ℕ} {P : Problem ℝ} {H : Hist ℝ}
    (h : Q.solve etaA etaR fuel = some (Q', none)) (hP : Q.prob = some P) (hH : Q'.hist = some H)
    (hθ : ∀ (k : ℕ) (a b : ℝ) (θ : ℕ), H.controls[k]? = some (a, b, θ) → θ = 1) (k : ℕ) :
    ∀ t m, H.times[k]? = some t → H.masses[k]? = some m → m = P.mass0 - P.mdot * t := by
  obtain ⟨H1, P1, P1', n, g1, g2, -, g3, g4, -, g5, -⟩ := C01_histories_aligned h
  rw [hH] at g1; injection g1 with g1; subst g1
  rw [hP] at g2; injection g2 with g2; subst g2
  induction k with
  | zero =>
    intro t m ht hm
    rw [List.head?_eq_getElem?, ht] at g4; injection g4 with g4
    rw [List.head?_eq_getElem?, hm] at g5; injection g5 with g5
    rw [g4, g5]; simp
  | succ k ih =>
    intro t m ht hm
    have hk : k < H.controls.length := by
      have := (List.getElem?_eq_some_iff.1 ht).1
      rw [g3.times] at this; rw [g3.controls]; omega
    obtain ⟨a, b, θ, hc⟩ : ∃ a b θ, H.controls[k]? = some (a, b, θ) :=
      ⟨_, _, _, List.getElem?_eq_getElem hk⟩
    obtain ⟨t1, st, m1, e1, e2, e3, e4⟩ := C13_step_mass h hP hH hc
    rw [ht] at e2; injection e2 with e2
    rcases e4 with ⟨-, e4⟩ | ⟨e4, -⟩
    · rw [hm] at e4; injection e4 with e4
      rw [e4, ih t1 m1 e1 e3, e2]; ring
    · exact absurd (hθ k a b θ hc) (by omega)

/-- **C99.** For an object without perturbations, a target, weights, a thrust and a compact set of states on
which the law works, there are a step length and a time such that every run that thrusts in steps shorter than
that from states in the set converges, provided `tf_max` exceeds the time and the propellant lasts for it:
the run ends with exit code 1 or 2 and neither times out nor runs out of mass. -/
theorem C99_converges [PyNan ℝ] (hnan : ∀ x : ℝ, PyNan.isnan x = false) {C : Config ℝ} {et : ElemType}
    (hd : C.dyn = dynOf et) (hp : C.perturbations = none) {oeT woe l u : Fin 5 → ℝ} {tmax massMin : ℝ}
    {K : Set (Fin 6 → ℝ)} (hl : C.elementsType = .keplerian → BoundsAre C.oeMin l ∧ BoundsAre C.oeMax u)
    (R : DescentRegion C et oeT woe l u K) (hT : 0 < tmax) (hm0 : 0 < massMin) :
    ∃ δ > 0, ∀ mmax, ∃ T ≥ 0, ∀ (Q Q' : QLaw ℝ) (P : Problem ℝ) (etaA etaR : EtaArg ℝ) (fuel : ℕ) (H : Hist ℝ),
      Q.cfg = C → Q.prob = some P → Q.Fresh → P.oeT = List.ofFn oeT → P.tmax = tmax → 0 ≤ P.mdot → P.woe = woe →
      P.massMin = massMin → P.mass0 ≤ mmax → T < P.tfMax → massMin < P.mass0 - P.mdot * T →
      Q.solve etaA etaR fuel = some (Q', none) → Q'.hist = some H → StaysIn et K δ H →
      (Q'.exitcode = 1 ∨ Q'.exitcode = 2) ∧ Q'.converge = true ∧ ∀ t ∈ H.times, t ≤ T := by
  obtain ⟨δ, hδ, c, hc, hs⟩ := C98_stretch hd hp hl R hT hm0
  refine ⟨δ, hδ, fun mmax => ?_⟩
  obtain ⟨T, hs⟩ := hs mmax
  refine ⟨max T 0, le_max_right _ _, ?_⟩
  intro Q Q' P etaA etaR fuel H hC hP hF hoe h1 h2 h3 h4 h5 h6 h7 h hH hS
  obtain ⟨H1, P1, P1', n, g1, g2, -, g3, g4, -, g5, -⟩ := C01_histories_aligned h
  rw [hH] at g1; injection g1 with g1; subst g1
  rw [hP] at g2; injection g2 with g2; subst g2
  rw [List.head?_eq_getElem?] at g4 g5
  have hθ : ∀ (k : ℕ) (a b : ℝ) (θ : ℕ), H.controls[k]? = some (a, b, θ) → θ = 1 := by
    intro k a b θ hk
    have : k < n := by have := (List.getElem?_eq_some_iff.1 hk).1; rwa [g3.controls] at this
    exact (hS k a b _ _ θ _ hk (List.getElem?_eq_getElem (by rw [g3.times]; omega))
      (List.getElem?_eq_getElem (by rw [g3.times]; omega)) (List.getElem?_eq_getElem (by rw [g3.states]; omega))).1
  have hmass := fun k => mass_thrusting h hP hH hθ k
  have hst : ShortThrusts et K massMin δ H 0 n := by
    intro k _ hk
    obtain ⟨a, b, θ, hc⟩ : ∃ a b θ, H.controls[k]? = some (a, b, θ) :=
      ⟨_, _, _, List.getElem?_eq_getElem (by rw [g3.controls]; omega)⟩
    have e1 : H.times[k]? = some _ := List.getElem?_eq_getElem (by rw [g3.times]; omega)
    have e2 : H.times[k + 1]? = some _ := List.getElem?_eq_getElem (by rw [g3.times]; omega)
    have e3 : H.states[k]? = some _ := List.getElem?_eq_getElem (by rw [g3.states]; omega)
    have e4 : H.masses[k]? = some _ := List.getElem?_eq_getElem (by rw [g3.masses]; omega)
    obtain ⟨f1, ⟨j, f2⟩, f3, f4⟩ := hS k a b _ _ θ _ hc e1 e2 e3
    subst f1
    refine ⟨a, b, _, _, _, _, j, hc, e1, e2, e3, e4, f2, ?_, f3, f4⟩
    rcases Nat.eq_zero_or_pos k with rfl | hk0
    · rw [e4] at g5; injection g5 with g5
      rw [g5]
      have : 0 ≤ P.mdot * max T 0 := mul_nonneg h2 (le_max_right _ _)
      linarith
    · obtain ⟨m, k1, k2⟩ := C14_above_threshold h hP hH (k := k) hk0 (by rw [g3.masses]; omega)
      rw [e4] at k1; injection k1 with k1
      rw [k1, ← h4]
      simp only [le_real, decide_eq_false_iff_not, not_le] at k2
      exact k2.le
  have htime : ∀ (k : ℕ) t, H.times[k]? = some t → 0 ≤ t ∧ t ≤ max T 0 := by
    intro k t ht
    have hk : k ≤ n := by
      have := (List.getElem?_eq_some_iff.1 ht).1
      rw [g3.times] at this; omega
    constructor
    · have : ∀ (k : ℕ) t, H.times[k]? = some t → 0 ≤ t := by
        intro k
        induction k with
        | zero =>
          intro t ht
          rw [ht] at g4; injection g4 with g4
          rw [g4]; simp
        | succ k ih =>
          intro t ht
          have hk : k < n := by
            have := (List.getElem?_eq_some_iff.1 ht).1
            rw [g3.times] at this; omega
          obtain ⟨a, b, s, s', m, x, j, -, f2, f3, -, -, -, -, f4, -⟩ := hst k (Nat.zero_le _) hk
          rw [ht] at f3; injection f3 with f3
          have := ih s f2
          linarith
      exact this k t ht
    · have e := (hs Q Q' P etaA etaR fuel H hC hP hoe h1 h2 h3 h hH 0 k _ t (Nat.zero_le _) g4 ht
        (fun i hi hik => hst i hi (by omega))).2 P.mass0 g5 h5
      have : T ≤ max T 0 := le_max_left _ _
      simp at e
      linarith
  have hmem : ∀ t ∈ H.times, 0 ≤ t ∧ t ≤ max T 0 := by
    intro t ht
    obtain ⟨k, hk⟩ := List.mem_iff_getElem?.1 ht
    exact htime k t hk
  have hcode := C02_exit_codes hF h
  have hfin : Q'.exitcode = 1 ∨ Q'.exitcode = 2 := by
    rcases hcode.1 with e | e | e | e | e
    · exact Or.inl e
    · exact Or.inr e
    · exfalso
      obtain ⟨P2, H2, n2, f1, f2, f3, ⟨m, f4, f5⟩, -⟩ := C05_mass_depleted hF h e
      rw [hP] at f1; injection f1 with f1; subst f1
      rw [hH] at f2; injection f2 with f2; subst f2
      rw [List.getLast?_eq_getElem?, g3.masses] at f4
      have e1 : H.times[n]? = some _ := List.getElem?_eq_getElem (by rw [g3.times]; omega)
      have e2 := hmass n _ m e1 f4
      have e3 := (htime n _ e1).2
      simp only [le_real, decide_eq_true_eq] at f5
      rw [h4] at f5
      have := mul_le_mul_of_nonneg_left e3 h2
      linarith
    · exfalso
      obtain ⟨P2, H2, n2, f1, f2, f3, ⟨t, f4, f5⟩, -⟩ := C06_time_out h e
      rw [hP] at f1; injection f1 with f1; subst f1
      rw [hH] at f2; injection f2 with f2; subst f2
      obtain ⟨k1, k2⟩ := hmem t (List.mem_of_getLast? f4)
      simp only [lt_real, abs_real, decide_eq_false_iff_not, not_lt] at f5
      have : 0 ≤ max T 0 := le_max_right _ _
      rw [abs_of_nonneg k1, abs_of_nonneg (by linarith)] at f5
      linarith
    · exfalso
      obtain ⟨P2, H2, n2, f1, f2, f3, f4, -⟩ := C07_nan_abort hF h e
      unfold nanAt at f4
      simp only [hnan, Bool.or_self, Bool.and_false] at f4
      repeat' split at f4
      all_goals cases f4
  exact ⟨hfin, hcode.2.2 hfin, fun t ht => (hmem t ht).2⟩

/-! ## a run -/

namespace Burn
open CoastSample

/-- the problem of `Burn` with another time step, mass flow and time limit -/
noncomputable def probH (h T : ℝ) : Problem ℝ := { prob with tStep := h, tfMax := T, mdot := 1 / (10 * T) }

noncomputable def objH (h T : ℝ) : QLaw ℝ := { obj false with prob := some (probH h T) }

theorem body_h {h T : ℝ} (hh : 0 < h) (h1 : h ≤ 1) :
    ∃ s' y, bodyPhase ⟨cfg false, probH h T, .flt 0, .flt 0⟩ (initLoop (probH h T)) = .brk s' 1 ∧
      s'.hist.times = [0, h] ∧ s'.hist.controls = [(0, 0, 1)] ∧ s'.hist.states = [prob.oe0, y] := by
  obtain ⟨y, hy, hy0⟩ := flown hh h1
  obtain ⟨q, dqdt, hlaw⟩ := law
  have hch' : chooseStep (cfg false) (probH h T) (initLoop (probH h T)).oe = .ok h := rfl
  have hdu : dutyPhase (probH h T) (initLoop (probH h T)) h =
      { duty := true, tOn := 0, tOff := 0, charging := false, step := h } := by
    simp [dutyPhase, probH, prob, initLoop, rat]
    norm_num
  have hco : ∃ c : Ctl ℝ, controlPhase ⟨cfg false, probH h T, .flt 0, .flt 0⟩ (initLoop (probH h T))
      { duty := true, tOn := 0, tOff := 0, charging := false, step := h } = .ok (.ctl c) ∧
      c.alpha = some 0 ∧ c.beta = some 0 ∧ c.throttle = 1 ∧ c.u = vsmul (1 / 100) (dirOf 0 0) ∧
      c.psi = kepPsi args ∧ c.oeT = ![2, 0, 0, 0, 0] := by
    have ha : PyOrd.sign h * (probH h T).tmax / (initLoop (probH h T)).mass = 1 / 100 := by
      simp [probH, prob, initLoop, PyOrd.sign, hh, hh.le]
    have hv : asVec5 (probH h T).oeT = .ok ![2, 0, 0, 0, 0] := rfl
    have hlaw' : lyapunovControlAngles (cfg false).dyn.lyapFun
        (lyapArgs (cfg false) (probH h T) ![2, 0, 0, 0, 0] (1 / 100) (initLoop (probH h T)).oe) = _ := hlaw
    unfold controlPhase
    simp only [hv, ha, hlaw', bind, Except.bind, pure, Except.pure, if_true, evalEta]
    simp [PyNan.isnan]
  obtain ⟨c, hc, hal, hbe, hth, hcu, hpsi, hct⟩ := hco
  have hpr : propagatePhase ⟨cfg false, probH h T, .flt 0, .flt 0⟩ (initLoop (probH h T)) h c = .ok (y, h) := by
    simp only [propagatePhase, cfg, bind, Except.bind, pure, Except.pure, hcu, hpsi]
    have h0 : (initLoop (probH h T)).t = 0 := by simp [initLoop]
    have h1 : (initLoop (probH h T)).oe = prob.oe0 := rfl
    rw [h0, h1]
    have h2 : (dynOf (α := ℝ) .keplerian).eom = eomKepGauss := rfl
    rw [h2]
    have hy' := hy
    simp only [params] at hy'
    rw [hy']
  have hconv : (dynOf (α := ℝ) .keplerian).checkConv y ![2, 0, 0, 0, 0] (probH h T).woe (fun _ => 1) = true := by
    have h3 := slow0
    have h4 := mul_pos hh h3.1
    have h5 : h * slow 0 ≤ 1 := by nlinarith [h3.2, h3.1]
    have h2 : |2 - y 0| ≤ 1 := by rw [hy0, abs_le]; constructor <;> linarith
    simp [dynOf, checkConvergenceKeplerian, checkFlags, probH, prob, List.finRange, h2]
  simp only [bodyPhase, hch', hdu, hc, hpr, storePhase, hal, hbe, exitPhase, hth, hct]
  rw [if_pos (show (cfg false).dyn.checkConv y ![2, 0, 0, 0, 0] (probH h T).woe (cfg false).tolOe = true from hconv)]
  refine ⟨_, y, rfl, ?_, ?_, ?_⟩ <;> simp [initLoop, probH, prob]

theorem run_h {h T : ℝ} (hh : 0 < h) (h1 : h ≤ 1) (hT : 0 < T) :
    ∃ Q' H y, (objH h T).solve (.flt 0) (.flt 0) 2 = some (Q', none) ∧ Q'.hist = some H ∧
    H.controls = [(0, 0, 1)] ∧ H.states = [prob.oe0, y] ∧ H.times = [0, h] := by
  obtain ⟨s', y, hbody, ht, hcs, hss⟩ := body_h (T := T) hh h1
  have hcl : clampPhase (cfg false) (initLoop (probH h T)) = .ok (initLoop (probH h T)) := by
    have : elementsSafety prob.oe0 (cfg false).oeMin (cfg false).oeMax = .ok prob.oe0 := by
      simp only [elementsSafety, cfg, prob]
      congr 1
      funext i
      fin_cases i <;> simp [pymin, pymax]
      all_goals norm_num
    simp only [clampPhase, cfg, initLoop, probH, bind, Except.bind, pure, Except.pure] at this ⊢
    rw [this]
    rfl
  have hit : iter ⟨cfg false, probH h T, .flt 0, .flt 0⟩ (initLoop (probH h T)) = .brk s' 1 := by
    simp only [iter, hcl, hbody]
  have hg : guardB (probH h T) (initLoop (probH h T)) = true := by
    simp [guardB, initLoop, Hist.lastTime, probH, hT.ne']
  refine ⟨(objH h T).finish (probH h T) (.exit s' 1), s'.hist, y, ?_, rfl, hcs, hss, ht⟩
  simp only [QLaw.solve, objH, obj, EtaArg.valid, if_true, loop, hg, hit, Option.map]
  rfl

/-- C99: there are runs of the package's own law that meet the hypotheses and therefore converge: the object
of `Burn` flown with a time step below the bound and a time limit above it -/
example : ∃ δ > 0, ∃ T ≥ 0, ∃ (h tf : ℝ) (Q' : QLaw ℝ) (H : Hist ℝ), 0 < h ∧ h < δ ∧ T < tf ∧
    (objH h tf).solve (.flt 0) (.flt 0) 2 = some (Q', none) ∧ Q'.hist = some H ∧
    StaysIn .keplerian burnBox δ H ∧ 0 < (probH h tf).mdot ∧ Q'.converge = true := by
  obtain ⟨δ, h0, h⟩ := C99_converges (fun _ => rfl) (C := cfg false) (et := .keplerian) rfl rfl (tmax := 1 / 100)
    (massMin := 1 / 10) (by intro _; constructor <;> intro j <;> fin_cases j <;> rfl) burn_region
    (by norm_num) (by norm_num)
  obtain ⟨T, hT, h⟩ := h 1
  have hm : 0 < min (δ / 2) 1 := lt_min (by linarith) one_pos
  obtain ⟨Q', H, y, k1, k2, k3, k4, k5⟩ := run_h (h := min (δ / 2) 1) (T := T + 1) hm (min_le_right _ _) (by linarith)
  have hlt : min (δ / 2) 1 < δ := (min_le_left _ _).trans_lt (by linarith)
  have hbox : prob.oe0 ∈ burnBox := by
    refine ⟨fun i => ?_, fun i => ?_⟩ <;> fin_cases i <;> simp [prob] <;> norm_num
  have hS : StaysIn .keplerian burnBox δ H := by
    intro k a b t t' θ x hc ht ht' hx
    rw [k3] at hc; rw [k4] at hx; rw [k5] at ht ht'
    match k with
    | 0 =>
      simp at hc hx ht ht'
      obtain ⟨-, -, rfl⟩ := hc
      refine ⟨rfl, ⟨0, ?_⟩, ?_, ?_⟩
      · have : wound .keplerian 0 0 0 x = prob.oe0 := by
          rw [← hx]
          funext i
          fin_cases i <;> simp [wound, turnsOf, vadd]
        rw [this]; exact hbox
      · rw [← ht, ← ht']; exact hm
      · rw [← ht, ← ht']; linarith
    | k + 1 => simp at hc
  have hT1 : 0 < T + 1 := by linarith
  have hmd : 0 < (probH (min (δ / 2) 1) (T + 1)).mdot := by
    simp only [probH]; positivity
  have hfuel : 1 / 10 < (probH (min (δ / 2) 1) (T + 1)).mass0 - (probH (min (δ / 2) 1) (T + 1)).mdot * T := by
    have e : 1 / (10 * (T + 1)) * T ≤ 1 / 10 := by
      rw [one_div_mul_eq_div, div_le_iff₀ (by positivity)]
      linarith
    simp only [probH, prob]
    linarith
  refine ⟨δ, h0, T, hT, _, T + 1, Q', H, hm, hlt, by linarith, k1, k2, hS, hmd, ?_⟩
  exact (h (objH (min (δ / 2) 1) (T + 1)) Q' (probH (min (δ / 2) 1) (T + 1)) (.flt 0) (.flt 0) 2 H rfl rfl ⟨rfl, rfl⟩
    (by simp [probH, prob]) rfl hmd.le rfl rfl (by simp [probH, prob]) (by simp [probH]) hfuel k1 k2 hS).2.1

end Burn

end PyQ
