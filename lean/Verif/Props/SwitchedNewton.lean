import Verif.Props.SundmanRun

/-!
C120: the Cartesian image of a motion whose thrust is switched on and off obeys Newton's law with the thrust while it is
on and without it while it is off, and the Cartesian history of a short-step run follows it.
-/

set_option linter.unusedSectionVars false
set_option maxRecDepth 100000

open Set Metric Topology

namespace PyQ

/-- `r' = k v` and `v' = k (-μ r/|r|³ + F)` from time `s` onwards (derivatives from the right), for a force per unit mass
`F` -/
def NewtonFrom (mu k : ℝ) (F : Fin 3 → ℝ) (sv : ℝ → Fin 6 → ℝ) (s : ℝ) : Prop :=
  ∀ j, HasDerivWithinAt (fun r => svPos (sv r) j) (k * svVel (sv s) j) (Ici s) s ∧
    HasDerivWithinAt (fun r => svVel (sv r) j)
      (k * (-mu / norm3 (svPos (sv s)) ^ 3 * svPos (sv s) j + F j)) (Ici s) s

/-- elements that move by the equations of motion from some time onwards, at any speed, obey Newton's law from then on -/
theorem elements_newton_from {et : ElemType} {x : ℝ → Fin 6 → ℝ} {s τ k : ℝ} {A : LyapArgs ℝ} {P : OdeParams ℝ} {v : Fin 6 → ℝ}
    (hmu : P.mu = A.mu) (hx : A.oe = x s) (hS : CandSmooth et A) (hR : NewtonRegion et (x s))
    (hpsi : ![P.psi0, P.psi1, P.psi2] = candPsi et A) (hv : (dynOf (α := ℝ) et).eom τ (x s) P = .ok v)
    (hd : HasDerivWithinAt x (k • v) (Ici s) s) :
    CartOk et A.mu (x s) ∧ NewtonFrom A.mu k (rtnAcc (cartFormula et A.mu (x s)) (fun c => P.u c + P.ptrb c))
      (fun r => cartFormula et A.mu (x r)) s := by
  have hline : HasDerivAt (fun r : ℝ => x s + (r - s) • v) ((1 : ℝ) • v) s :=
    (((hasDerivAt_id s).sub_const s).smul_const v).const_add (x s)
  have hls : x s + (s - s) • v = x s := by simp
  obtain ⟨hst, hN⟩ := elements_newton (et := et) (x := fun r => x s + (r - s) • v) (t := s) (τ := τ) (A := A) (P := P) (v := v)
    (g := 1) hmu (by simp only [hls]; exact hx) hS (by simp only [hls]; exact hR) hpsi (by simp only [hls]; exact hv) one_pos hline
  simp only [hls] at hst hN
  refine ⟨hst, fun j => ?_⟩
  have hc : DifferentiableAt ℝ (cartFormula et A.mu) (x s) := (cart_c1 hst).differentiableAt one_ne_zero
  have hci : ∀ i, DifferentiableAt ℝ (fun y => cartFormula et A.mu y i) (x s) := fun i => differentiableAt_pi.1 hc i
  -- a differentiable quantity that changes at rate `d` along the straight line changes at rate `k d` along the motion
  have key : ∀ (φ : (Fin 6 → ℝ) → ℝ) (d : ℝ), DifferentiableAt ℝ φ (x s) →
      HasDerivAt (fun r : ℝ => φ (x s + (r - s) • v)) (1 * d) s →
      HasDerivWithinAt (fun r => φ (x r)) (k * d) (Ici s) s := by
    intro φ d hφ h1
    have h2 : HasFDerivAt φ (fderiv ℝ φ (x s)) ((fun r : ℝ => x s + (r - s) • v) s) := by
      simp only [hls]; exact hφ.hasFDerivAt
    have h3 := h2.comp_hasDerivAt s hline
    have h4 := h1.unique h3
    rw [one_smul, one_mul] at h4
    have h5 := hφ.hasFDerivAt.comp_hasDerivWithinAt s hd
    rw [map_smul, ← h4, smul_eq_mul] at h5
    exact h5
  obtain ⟨n1, n2⟩ := hN j
  simp only [hls] at n1 n2
  constructor
  · refine key (fun y => svPos (cartFormula et A.mu y) j) _ ?_ n1
    fin_cases j
    · exact hci 0
    · exact hci 1
    · exact hci 2
  · refine key (fun y => svVel (cartFormula et A.mu y) j) _ ?_ n2
    fin_cases j
    · exact hci 3
    · exact hci 4
    · exact hci 5

/-- the Cartesian trajectory `sv` of a switched motion: it is the continuous image of the elements, and from every time
onwards it satisfies Newton's law in direction `σ` of time (with the clock running at `g`) with the perturbing acceleration
of the object and, while the schedule is on, the full thrust of the mass at that time along the direction returned by the
law (backwards in time: against that direction) -/
structure FliesSwitched (C : Config ℝ) (et : ElemType) (oeT woe : Fin 5 → ℝ) (tmax σ g T : ℝ) (θ : ℝ → Bool)
    (γ : ℝ → Fin 6 → ℝ) (μ : ℝ → ℝ) (sv : ℝ → Fin 6 → ℝ) : Prop where
  image : ∀ s ∈ Icc 0 T, cartOf et (γ s) C.mu = .ok (sv s)
  cont : ContinuousOn sv (Icc 0 T)
  newton : ∀ s ∈ Ico 0 T, ∃ o q F,
    lyapunovControlAngles (dynOf (α := ℝ) et).lyapFun (callAt C oeT woe (σ * (tmax / μ s)) (γ s)) = .ok o ∧
    PerturbationIs C (σ * s) (γ s) q ∧
    F = rtnForce (sv s) (switchedThrust (θ s) (σ * (tmax / μ s))) o.alpha o.beta ∧
    norm3 F = switchedThrust (θ s) (tmax / μ s) ∧
    NewtonFrom C.mu (σ * g) (fun j => F j + rtnAcc (sv s) q j) sv s

section newton
variable {C : Config ℝ} {et : ElemType} {oeT woe l u : Fin 5 → ℝ} {tmax mdot σ g T : ℝ} {θ : ℝ → Bool}
  {γ : ℝ → Fin 6 → ℝ} {μ : ℝ → ℝ}

theorem switched_flies (hσ : σ = 1 ∨ σ = -1) (hM : SwitchedMotion C et oeT woe tmax mdot σ g T θ γ μ)
    (hS : ∀ s ∈ Icc 0 T, LawSmooth et (unitCall C oeT woe (γ s)) ∧ NewtonRegion et (γ s))
    (hT : 0 < tmax) (hm : ∀ s ∈ Icc 0 T, 0 < μ s) :
    FliesSwitched C et oeT woe tmax σ g T θ γ μ (fun s => cartFormula et C.mu (γ s)) := by
  have hst : ∀ s ∈ Icc 0 T, CartOk et C.mu (γ s) := fun s hs => law_state (hS s hs).1 (hS s hs).2
  refine ⟨fun s hs => cart_formula (hst s hs), fun s hs => ?_, fun s hs => ?_⟩
  · exact (cart_c1 (hst s hs)).continuousAt.comp_continuousWithinAt (hM.1 s hs)
  · have hs' := Ico_subset_Icc_self hs
    obtain ⟨o, v, q, h0, h1, h2, h3⟩ := hM.2.2 s hs'
    obtain ⟨hsm, hR⟩ := hS s hs'
    obtain ⟨-, hN⟩ := elements_newton_from (x := γ) (s := s) (τ := σ * s) (k := σ * g) (A := unitCall C oeT woe (γ s))
      (P := { mu := C.mu, u := fun c => switchedThrust (θ s) (σ * (tmax / μ s)) * unitDir o.alpha o.beta c,
              psi0 := o.psi 0, psi1 := o.psi 1, psi2 := o.psi 2, ptrb := q }) rfl rfl hsm.1 hR
      (by rw [← law_psi h1]; funext c; fin_cases c <;> rfl) h2 (h3 hs.2).1
    obtain ⟨n1, n2⟩ := cart_nonzero (hst s hs')
    refine ⟨o, q, _, h1, h0, rfl, ?_, ?_⟩
    · have hf := (div_pos hT (hm s hs')).le
      cases θ s with
      | true => exact rtnForce_norm_signed hσ hf n1 n2
      | false =>
        have := rtnForce_norm (s := cartFormula et C.mu (γ s)) (f := 0) (α := o.alpha) (β := o.beta) le_rfl n1 n2
        simpa only [switchedThrust, Bool.false_eq_true, if_false] using this
    · have : (rtnAcc (cartFormula et (unitCall C oeT woe (γ s)).mu (γ s)) fun c =>
          switchedThrust (θ s) (σ * (tmax / μ s)) * unitDir o.alpha o.beta c + q c) =
          fun j => rtnForce (cartFormula et C.mu (γ s)) (switchedThrust (θ s) (σ * (tmax / μ s))) o.alpha o.beta j +
            rtnAcc (cartFormula et C.mu (γ s)) q j := by
        have e : (unitCall C oeT woe (γ s)).mu = C.mu := rfl
        funext j
        simp only [e, rtnAcc, rtnForce, unitDir, Matrix.cons_val]
        ring
      rw [this] at hN
      exact hN

/-- **C120.** For a switched motion as in C117, in modified equinoctial elements with `f > 0` and off the equator, there is
a Cartesian trajectory `sv` that satisfies Newton's law with the perturbations of the object and with the full thrust
exactly while the schedule is on (`rk4`: exactly; `rkf45`: with the clock `1 + 2197/5610168` times too fast), and for every
`N` the Cartesian history of every run whose steps go in direction `σ` of time, are no longer than `h`, and all but `N` of
which have the throttle of the schedule, is within `K h` of it at every recorded time. -/
theorem C120_newton [PyNan ℝ] (hd : C.dyn = dynOf et) (hE : C.elementsType = et) (hσ : σ = 1 ∨ σ = -1)
    (hl : C.elementsType = .keplerian → BoundsAre C.oeMin l ∧ BoundsAre C.oeMax u)
    (hM : SwitchedMotion C et oeT woe tmax mdot σ (gain C.integrator) T θ γ μ)
    (hS : ∀ s ∈ Icc 0 T, LawSmooth et (unitCall C oeT woe (γ s)) ∧ NewtonRegion et (γ s) ∧ PertSmooth C σ s (γ s) ∧
      (C.elementsType = .keplerian → ∀ j : Fin 5, l j < γ s j.castSucc ∧ γ s j.castSucc < u j))
    (hT : 0 < tmax) (hm : ∀ s ∈ Icc 0 T, 0 < μ s) :
    ∃ sv, FliesSwitched C et oeT woe tmax σ (gain C.integrator) T θ γ μ sv ∧
      ∀ N : ℕ, ∃ δ > 0, ∃ K ≥ 0, ∀ h, 0 < h → h < δ →
      ∀ (Q Q' : QLaw ℝ) (P : Problem ℝ) (etaA etaR : EtaArg ℝ) (fuel : ℕ) (H : Hist ℝ) (cols : List (Fin 6 → ℝ)),
      Q.cfg = C → Q.prob = some P → P.oeT = List.ofFn oeT → P.woe = woe → P.tmax = tmax → P.mass0 = μ 0 →
      P.mdot = mdot → P.oe0 = γ 0 → Q.solve etaA etaR fuel = some (Q', none) → Q'.hist = some H →
      Q'.getCartesianHistory = .ok cols →
      ∀ (n : ℕ) (t : ℝ) (c : Fin 6 → ℝ), H.times[n]? = some t → σ * t ≤ T → cols[n]? = some c →
        SwitchesUpTo σ θ H n N h → ∀ i, |c i - sv (σ * t) i| ≤ K * h := by
  have hS1 : ∀ t ∈ Icc 0 T, LawSmooth et (unitCall C oeT woe (γ t)) ∧ NewtonRegion et (γ t) :=
    fun t ht => ⟨(hS t ht).1, (hS t ht).2.1⟩
  obtain ⟨L, hL, ρ, hρ, htube⟩ := cart_tube (mu := C.mu) hM.1 (fun t ht => law_state (hS1 t ht).1 (hS1 t ht).2)
  refine ⟨_, switched_flies hσ hM hS1 hT hm, fun N => ?_⟩
  obtain ⟨δ, hδ, K, hK, hrun⟩ := C117_limit hd hσ hl hM (fun t ht => ⟨(hS t ht).1, (hS t ht).2.2⟩) hT hm N
  refine ⟨min δ (ρ / (K + 1)), by positivity, L * K, by positivity, ?_⟩
  intro h hh hhδ Q Q' P etaA etaR fuel H cols hC hP h1 h2 h3 h4 h5 h6 hsol hH hcols n t c hn htT hc hthr i
  have hh1 : h < δ := hhδ.trans_le (min_le_left _ _)
  have hh2 : K * h < ρ := by
    have := hhδ.trans_le (min_le_right _ _)
    rw [lt_div_iff₀ (by positivity)] at this
    nlinarith
  have hcfg : Q'.cfg = C := (solve_prob' hsol hP hH).2.trans hC
  obtain ⟨hx, -⟩ := C70_columns hsol hH (conv := fun x => cartOf et x C.mu) (by intro x; rw [hcfg, hE]; cases et <;> simp [cartOf])
  obtain ⟨hlen, hx⟩ := hx cols hcols
  obtain ⟨H1, P1, P1', N1, a1, a2, -, al, at0, -⟩ := C01_histories_aligned hsol
  rw [hH] at a1; injection a1 with a1; subst a1
  have hnN : n < N1 + 1 := by rw [← al.times]; exact (List.getElem?_eq_some_iff.1 hn).1
  obtain ⟨x, hxn⟩ : ∃ x, H.states[n]? = some x := ⟨_, List.getElem?_eq_getElem (by rw [al.states]; exact hnN)⟩
  obtain ⟨m, hmn⟩ : ∃ m, H.masses[n]? = some m := ⟨_, List.getElem?_eq_getElem (by rw [al.masses]; exact hnN)⟩
  have ht0 : 0 ≤ σ * t := by
    obtain ⟨S, -, hsw⟩ := hthr
    have key : ∀ k ≤ n, ∀ s, H.times[k]? = some s → 0 ≤ σ * s := by
      intro k
      induction k with
      | zero =>
        intro _ s hs
        rw [List.head?_eq_getElem?, hs] at at0
        injection at0 with at0
        rw [at0]; simp
      | succ k ih =>
        intro hk s hs
        obtain ⟨a, b, c, t1, t2, -, q1, q2, q3, -⟩ := hsw k (by omega)
        rw [hs] at q2; injection q2 with q2; subst q2
        have := ih (by omega) t1 q1
        linarith [mul_sub σ s t1]
    exact key n le_rfl t hn
  obtain ⟨hb, -⟩ := hrun h hh hh1 Q Q' P etaA etaR fuel H hC hP h1 h2 h3 h4 h5 h6 hsol hH n t m x hn htT hxn hmn hthr
  obtain ⟨c', hc', hcv⟩ := hx n x hxn
  rw [hc] at hc'
  injection hc' with hc'
  subst hc'
  obtain ⟨c2, e1, e2⟩ := htube _ ⟨ht0, htT⟩ x fun i => (hb i).trans_lt hh2
  rw [hcv] at e1
  injection e1 with e1
  subst e1
  rw [mul_assoc]
  exact e2 (K * h) (by positivity) hb i

/-- the Cartesian history of a run that stays close to a motion at its recorded times -/
theorem cols_follow {L ρ K h : ℝ} (htube : ∀ t ∈ Icc 0 T, ∀ x, (∀ i, |x i - γ t i| < ρ) →
      ∃ c, cartOf et x C.mu = .ok c ∧ ∀ ε ≥ 0, (∀ i, |x i - γ t i| ≤ ε) → ∀ i, |c i - cartFormula et C.mu (γ t) i| ≤ L * ε)
    (hE : C.elementsType = et) (hKh : 0 ≤ K * h) (hρ : K * h < ρ) {Q Q' : QLaw ℝ} {P : Problem ℝ} {etaA etaR : EtaArg ℝ} {fuel : ℕ}
    [PyNan ℝ] {H : Hist ℝ} (hC : Q.cfg = C) (hP : Q.prob = some P) (hsol : Q.solve etaA etaR fuel = some (Q', none))
    (hH : Q'.hist = some H) {n : ℕ} {τ : ℕ → ℝ} (hs : H.states.length = n + 1) (hm : H.masses.length = n + 1)
    (hτ : ∀ k ≤ n, τ k ∈ Icc 0 T)
    (hf : ∀ (k : ℕ) (x : Fin 6 → ℝ) (m : ℝ), H.states[k]? = some x → H.masses[k]? = some m → ∀ i, |x i - γ (τ k) i| ≤ K * h) :
    ∃ cols, Q'.getCartesianHistory = .ok cols ∧ cols.length = n + 1 ∧
      ∀ (k : ℕ) (c : Fin 6 → ℝ), cols[k]? = some c → ∀ i, |c i - cartFormula et C.mu (γ (τ k)) i| ≤ L * K * h := by
  have hcfg : Q'.cfg = C := (solve_prob' hsol hP hH).2.trans hC
  obtain ⟨hx, hdef⟩ := C70_columns hsol hH (conv := fun x => cartOf et x C.mu) (by intro x; rw [hcfg, hE]; cases et <;> simp [cartOf])
  have hcl : ∀ (k : ℕ) (x : Fin 6 → ℝ), H.states[k]? = some x → τ k ∈ Icc 0 T ∧ ∀ i, |x i - γ (τ k) i| ≤ K * h := fun k x hk => by
    have hlt : k < n + 1 := by rw [← hs]; exact (List.getElem?_eq_some_iff.1 hk).1
    exact ⟨hτ k (by omega), hf k x _ hk (List.getElem?_eq_getElem (by rw [hm]; exact hlt))⟩
  obtain ⟨cols, hcols⟩ := hdef fun x hx => by
    obtain ⟨k, hk⟩ := List.getElem?_of_mem hx
    obtain ⟨c, hc, -⟩ := htube _ (hcl k x hk).1 x fun i => ((hcl k x hk).2 i).trans_lt hρ
    exact ⟨c, hc⟩
  obtain ⟨hlen, hx⟩ := hx cols hcols
  obtain ⟨H1, P1, P1', N1, a1, a2, -, al, at0, -⟩ := C01_histories_aligned hsol
  rw [hH] at a1; injection a1 with a1; subst a1
  have hlen' : cols.length = n + 1 := by rw [hlen, al.times, ← al.states, hs]
  refine ⟨cols, hcols, hlen', fun k c hk i => ?_⟩
  have hk1 : k < H.states.length := by rw [hs, ← hlen']; exact (List.getElem?_eq_some_iff.1 hk).1
  have hxk := List.getElem?_eq_getElem hk1
  generalize H.states[k] = x at hxk
  obtain ⟨c', hc', hcv⟩ := hx k x hxk
  rw [hk] at hc'
  injection hc' with hc'
  subst hc'
  obtain ⟨c2, e1, e2⟩ := htube _ (hcl k x hxk).1 x fun i => ((hcl k x hxk).2 i).trans_lt hρ
  rw [hcv] at e1
  injection e1 with e1
  subst e1
  rw [mul_assoc]
  exact e2 (K * h) hKh (hcl k x hxk).2 i

end newton

section completes
variable [PyNan ℝ] (hnan : ∀ x : ℝ, PyNan.isnan x = false) {C : Config ℝ} {et : ElemType} (hd : C.dyn = dynOf et)
  (hE : C.elementsType = et) (hi : C.integrator = .rk4)
  {oeT woe l u : Fin 5 → ℝ} {tmax mdot on off ml T : ℝ} {γ : ℝ → Fin 6 → ℝ} {μ : ℝ → ℝ}
  (hl : C.elementsType = .keplerian → BoundsAre C.oeMin l ∧ BoundsAre C.oeMax u)
  (hon : 0 < on) (hoff : 0 < off)
  (hM : SwitchedMotion C et oeT woe tmax mdot 1 (gain C.integrator) T (dutySchedule on off) γ μ)
  (hS : ∀ s ∈ Icc 0 T, LawSmooth et (unitCall C oeT woe (γ s)) ∧ NewtonRegion et (γ s) ∧ PertSmooth C 1 s (γ s) ∧
    (C.elementsType = .keplerian → ∀ j : Fin 5, l j < γ s j.castSucc ∧ γ s j.castSucc < u j))
  (hT0 : 0 < T) (hT : 0 < tmax) (hm : ∀ s ∈ Icc 0 T, 0 < μ s ∧ ml < μ s)
include hnan hd hE hi hl hon hoff hM hS hT0 hT hm

/-- **C120, runs with a duty cycle.** Under the hypotheses of C118, and in modified equinoctial elements with `f > 0` and
off the equator, every run of C118 has a Cartesian history, one column for each of its times `0, h, 2h, ...`, which follows
the trajectory under Newton's law with the switched thrust within `K h` until convergence or the time limit. -/
theorem C120_duty (hsun : C.useSundman = false) :
    ∃ sv, FliesSwitched C et oeT woe tmax 1 (gain C.integrator) T (dutySchedule on off) γ μ sv ∧
    ∃ δ > 0, ∃ K ≥ 0, ∀ h, 0 < h → h < δ → ∀ (Q : QLaw ℝ) (P : Problem ℝ) (ea er : ℝ) (fuel : ℕ),
    ea ≤ 0 → er ≤ 0 → StartsDuty C oeT woe tmax (μ 0) mdot on off ml h T (γ 0) Q P → P.tfMax ≠ 0 → |P.tfMax| + h ≤ T →
    |P.tfMax| / h + 2 ≤ fuel →
    ∃ Q' cols n, Q.solve (.flt ea) (.flt er) fuel = some (Q', none) ∧ Q'.getCartesianHistory = .ok cols ∧
      cols.length = n + 1 ∧ (n : ℝ) * h < |P.tfMax| + h ∧
      (∀ (k : ℕ) (c : Fin 6 → ℝ), cols[k]? = some c → ∀ i, |c i - sv (k * h) i| ≤ K * h) ∧
      (Q'.converge = true ∨ |P.tfMax| ≤ n * h) := by
  have hS1 : ∀ t ∈ Icc 0 T, LawSmooth et (unitCall C oeT woe (γ t)) ∧ NewtonRegion et (γ t) :=
    fun t ht => ⟨(hS t ht).1, (hS t ht).2.1⟩
  obtain ⟨L, hL, ρ, hρ, htube⟩ := cart_tube (mu := C.mu) hM.1 (fun t ht => law_state (hS1 t ht).1 (hS1 t ht).2)
  obtain ⟨δ, hδ, K, hK, hrun⟩ := C118_completes hnan hd hsun hi hl hon hoff hM (fun t ht => ⟨(hS t ht).1, (hS t ht).2.2⟩) hT0 hT hm
  refine ⟨_, switched_flies (Or.inl rfl) hM hS1 hT (fun s hs => (hm s hs).1), min δ (ρ / (K + 1)), by positivity, L * K,
    by positivity, ?_⟩
  intro h hh hhδ Q P ea er fuel hea her hQ htf htfT hfuel
  have hh1 : h < δ := hhδ.trans_le (min_le_left _ _)
  have hh2 : K * h < ρ := by
    have := hhδ.trans_le (min_le_right _ _)
    rw [lt_div_iff₀ (by positivity)] at this
    nlinarith
  obtain ⟨Q', H, n, g1, g2, g3, g4, g5, g6, g7, g8, g9, g10⟩ := hrun h hh hh1 Q P ea er fuel hea her hQ htf htfT hfuel
  obtain ⟨cols, c1, c2, c3⟩ := cols_follow htube hE (by positivity) hh2 hQ.cfg hQ.prob g1 g2 (τ := fun k : ℕ => (k : ℝ) * h) g5 g6
    (fun k hk => by
      have : (k : ℝ) ≤ n := by exact_mod_cast hk
      exact ⟨by positivity, by nlinarith⟩) (fun k x m hx hm => (g9 k x m hx hm).1)
  refine ⟨Q', cols, n, g1, c1, c2, g4, c3, ?_⟩
  rcases g10 with ⟨-, g⟩ | ⟨-, -, g⟩
  · exact Or.inl g
  · exact Or.inr g

/-- **C120, runs with Sundman steps.** The same for the runs of C119: their Cartesian history has one column for each
recorded time and follows the trajectory at that time. -/
theorem C120_sundman (hsun : C.useSundman = true) :
    ∃ sv, FliesSwitched C et oeT woe tmax 1 (gain C.integrator) T (dutySchedule on off) γ μ sv ∧
    ∃ δ > 0, ∃ K ≥ 0, ∃ A > 0, ∃ B > 0, ∀ h, 0 < h → h < δ → ∀ (Q : QLaw ℝ) (P : Problem ℝ) (ea er : ℝ) (fuel : ℕ),
    ea ≤ 0 → er ≤ 0 → StartsDuty C oeT woe tmax (μ 0) mdot on off ml h T (γ 0) Q P → P.tfMax ≠ 0 →
    |P.tfMax| + A * h ≤ T → |P.tfMax| / (B * h) + 2 ≤ fuel →
    ∃ Q' H cols, Q.solve (.flt ea) (.flt er) fuel = some (Q', none) ∧ Q'.hist = some H ∧
      Q'.getCartesianHistory = .ok cols ∧ cols.length = H.times.length ∧
      (∀ (k : ℕ) (t : ℝ) (c : Fin 6 → ℝ), H.times[k]? = some t → cols[k]? = some c →
        t ∈ Icc 0 T ∧ ∀ i, |c i - sv t i| ≤ K * h) ∧
      (Q'.converge = true ∨ ∃ t, H.times.getLast? = some t ∧ |P.tfMax| ≤ t) := by
  have hS1 : ∀ t ∈ Icc 0 T, LawSmooth et (unitCall C oeT woe (γ t)) ∧ NewtonRegion et (γ t) :=
    fun t ht => ⟨(hS t ht).1, (hS t ht).2.1⟩
  obtain ⟨L, hL, ρ, hρ, htube⟩ := cart_tube (mu := C.mu) hM.1 (fun t ht => law_state (hS1 t ht).1 (hS1 t ht).2)
  obtain ⟨δ, hδ, K, hK, A, hA, B, hB, N, hrun⟩ := C119_completes hnan hd hE hsun hi hl hon hoff hM
    (fun t ht => ⟨(hS t ht).1, (hS t ht).2.2⟩) hT0 hT hm
  refine ⟨_, switched_flies (Or.inl rfl) hM hS1 hT (fun s hs => (hm s hs).1), min δ (ρ / (K + 1)), by positivity, L * K,
    by positivity, A, hA, B, hB, ?_⟩
  intro h hh hhδ Q P ea er fuel hea her hQ htf htfT hfuel
  have hh1 : h < δ := hhδ.trans_le (min_le_left _ _)
  have hh2 : K * h < ρ := by
    have := hhδ.trans_le (min_le_right _ _)
    rw [lt_div_iff₀ (by positivity)] at this
    nlinarith
  obtain ⟨Q', H, n, τ, g1, g2, g3, g4, g5, g6, g7, g8, -, -, g9, g10⟩ :=
    hrun h hh hh1 Q P ea er fuel hea her hQ htf htfT hfuel
  have hBh : 0 < B * h := by positivity
  have hgap : ∀ k < n, τ k + B * h ≤ τ (k + 1) := fun k hk => by linarith [(g5 k hk).1]
  have hτ : ∀ k ≤ n, τ k ∈ Icc 0 T := fun k hk => by
    have e1 := spaced_le hgap (Nat.zero_le k) hk
    have e2 := spaced_le hgap hk le_rfl
    have p1 : (0 : ℝ) ≤ (k - 0 : ℕ) * (B * h) := by positivity
    have p2 : (0 : ℝ) ≤ (n - k : ℕ) * (B * h) := by positivity
    exact ⟨by linarith, by linarith⟩
  have ht : ∀ (k : ℕ) t, H.times[k]? = some t → t = τ k := fun k t hk => by
    rw [g3, List.getElem?_map] at hk
    obtain ⟨i, h1, h2⟩ := Option.map_eq_some_iff.1 hk
    obtain ⟨_, h4⟩ := List.getElem?_eq_some_iff.1 h1
    rw [List.getElem_range] at h4
    rw [← h2, h4]
  obtain ⟨cols, c1, c2, c3⟩ := cols_follow htube hE (by positivity) hh2 hQ.cfg hQ.prob g1 g2 (τ := τ) g7 g8 hτ
    (fun k x m hx hm => (g9 k x m hx hm).1)
  refine ⟨Q', H, cols, g1, g2, c1, by rw [c2, g3]; simp, fun k t c hk hc => ?_, ?_⟩
  · have hk' : k < n + 1 := by
      have := (List.getElem?_eq_some_iff.1 hk).1
      rw [g3] at this
      simpa using this
    rw [ht k t hk]
    exact ⟨hτ k (by omega), c3 k c hc⟩
  · rcases g10 with ⟨-, g⟩ | ⟨-, -, g⟩
    · exact Or.inl g
    · refine Or.inr ⟨τ n, ?_, g⟩
      rw [g3, List.range_succ, List.map_append]; simp

end completes

/-- **C120, the package's perturbations.** With the perturbations of the package (constructed with the same gravitational
parameter), the trajectory satisfies Newton's law with the attraction of the third bodies, the oblateness term as coded and
the radiation pressure of the Sun in the inertial frame, and with the thrust exactly while the schedule is on. -/
theorem C120_package {C : Config ℝ} {et : ElemType} {S : SpicePerturbations ℝ} {bodies : List (ℝ × String)} {sp : Spice ℝ}
    (hE : C.elementsType = et) (hp : C.perturbations = some fun t x e => S.getPerturbationsRTN sp t x (typeName e))
    (hb : S.thirdBodies = some bodies) (hmu : S.obsMu = C.mu) {oeT woe : Fin 5 → ℝ} {tmax σ g T : ℝ} {θ : ℝ → Bool}
    {γ sv : ℝ → Fin 6 → ℝ} {μ : ℝ → ℝ} (hF : FliesSwitched C et oeT woe tmax σ g T θ γ μ sv)
    (hx : ∀ s ∈ Icc 0 T, CartOk et C.mu (γ s))
    (h : ∀ s ∈ Icc 0 T, ∀ b ∈ bodies, bodyPos S sp (σ * s) b.2 ≠ 0 ∧ svPos (sv s) ≠ bodyPos S sp (σ * s) b.2) :
    ∀ s ∈ Ico 0 T, ∃ F, norm3 F = switchedThrust (θ s) (tmax / μ s) ∧
      NewtonFrom C.mu (σ * g) (fun j => F j + enabledSum S bodies sp (σ * s) (svPos (sv s)) j) sv s := by
  intro s hs
  have hs' := Ico_subset_Icc_self hs
  have hi := hF.image s hs'
  obtain ⟨o, q, F, -, h2, -, h4, h5⟩ := hF.newton s hs
  have hk := hx s hs'
  rw [cart_formula hk] at hi
  injection hi with hi
  rw [← hmu] at hk hi
  simp only [PerturbationIs, hp, hE] at h2
  have h' := h s hs'
  rw [← hi] at h'
  rw [spiceRtn_ok hb hk h'] at h2
  injection h2 with h2
  refine ⟨F, h4, ?_⟩
  rw [← hi, ← h2, rtnAcc_spice hk, hi] at h5
  exact h5

namespace Burn
open CoastSample

/-- C120: from the initial state of `Burn` there is a trajectory obeying Newton's law with a third body, radiation pressure
and oblateness and with the thrust switched off and on again; the Cartesian histories of runs with this duty cycle follow
it, with short fixed steps and with short Sundman steps -/
example : ∃ T > 0, ∃ γ μ sv, γ 0 = prob.oe0 ∧ μ 0 = 1 ∧
    FliesSwitched cfgD .keplerian ![2, 0, 0, 0, 0] ![1, 0, 0, 0, 0] (1 / 100) 1 1 T (dutySchedule (T / 5) (T / 7)) γ μ sv ∧
    (∀ s ∈ Ico 0 T, ∃ F, norm3 F = (if dutySchedule (T / 5) (T / 7) s then 1 / 100 / μ s else 0) ∧
      NewtonFrom 1 1 (fun j => F j + enabledSum samplePert [(1, "10")] sampleSpice s (svPos (sv s)) j) sv s) ∧
    (∃ δ > 0, ∃ K, ∀ h, 0 < h → h < δ → ∀ fuel : ℕ, T / 2 / h + 2 ≤ fuel → ∃ Q' cols,
      (objC 1 h T (T / 2)).solve (.flt 0) (.flt 0) fuel = some (Q', none) ∧ Q'.getCartesianHistory = .ok cols ∧
      ∀ (k : ℕ) (c : Fin 6 → ℝ), cols[k]? = some c → ∀ i, |c i - sv (k * h) i| ≤ K * h) ∧
    ∃ δ > 0, ∃ K, ∃ B > 0, ∀ h, 0 < h → h < δ → ∀ fuel : ℕ, T / 2 / (B * h) + 2 ≤ fuel → ∃ Q' H cols,
      (objS 1 h T (T / 2)).solve (.flt 0) (.flt 0) fuel = some (Q', none) ∧ Q'.hist = some H ∧
      Q'.getCartesianHistory = .ok cols ∧
      ∀ (k : ℕ) (t : ℝ) (c : Fin 6 → ℝ), H.times[k]? = some t → cols[k]? = some c → ∀ i, |c i - sv t i| ≤ K * h := by
  have hopen : IsOpen ({x : Fin 6 → ℝ | CartOk .keplerian 1 x} ∩
      (fun x => norm3 (svPos (cartFormula .keplerian 1 x))) ⁻¹' Iio 2) := by
    refine ContinuousOn.isOpen_inter_preimage (fun x hx => ContinuousAt.continuousWithinAt ?_) (cartOk_open _ _) isOpen_Iio
    have hx : CartOk .keplerian 1 x := hx
    exact (norm3_c1 (sv_parts_c1 (cart_c1 hx)).1 (norm3_ne (cart_nonzero hx).1)).continuousAt
  have hbox : IsOpen {x : Fin 6 → ℝ | ∀ j : Fin 5, 0 < x j.castSucc ∧ x j.castSucc < 9} := by
    simp only [Set.ofPred_forall]
    refine isOpen_iInter_of_finite fun j => ?_
    exact (isOpen_lt continuous_const (continuous_apply _)).inter (isOpen_lt (continuous_apply _) continuous_const)
  obtain ⟨T, hT, hex⟩ := C117_exists (C := cfgD) (et := .keplerian) (oeT := ![2, 0, 0, 0, 0])
    (woe := ![1, 0, 0, 0, 0]) (tmax := 1 / 100) (m0 := 1) (ml := 0) (mdot := 1 / 10) (σ := 1) (g := 1) (x := prob.oe0)
    (Or.inl rfl) smooth_d ⟨1, by decide, burn_grad _ oe0_box⟩ (pert_d _) (hopen.inter hbox)
    ⟨⟨law_state smooth_d (fun h => by cases h), radius_d.trans_lt (by norm_num)⟩, burn_region.inside _ oe0_box⟩
    (by norm_num) (by norm_num) (by norm_num)
  have hon : 0 < T / 5 := by positivity
  have hoff : 0 < T / 7 := by positivity
  obtain ⟨γ, μ, h0, h0', hM, hS⟩ := hex _ (dutySchedule_piecewise hon hoff hT.le)
  have hbd : (cfgS 1).elementsType = .keplerian →
      BoundsAre (cfgS 1).oeMin (fun _ => (0 : ℝ)) ∧ BoundsAre (cfgS 1).oeMax (fun _ => (9 : ℝ)) := by
    intro _; constructor <;> intro j <;> fin_cases j <;> rfl
  have hm : ∀ s ∈ Icc 0 T, 0 < μ s ∧ 0 < μ s := fun s hs => ⟨(hS s hs).1, (hS s hs).1⟩
  have hS' : ∀ s ∈ Icc 0 T, LawSmooth .keplerian (unitCall (cfgS 1) ![2, 0, 0, 0, 0] ![1, 0, 0, 0, 0] (γ s)) ∧
      NewtonRegion .keplerian (γ s) ∧ PertSmooth (cfgS 1) 1 s (γ s) ∧
      ((cfgS 1).elementsType = .keplerian → ∀ j : Fin 5, 0 < γ s j.castSucc ∧ γ s j.castSucc < 9) := fun s hs =>
    ⟨(hS s hs).2.2.1, (fun h => by cases h), (hS s hs).2.2.2.1, fun _ => (hS s hs).2.2.2.2.2⟩
  have hsv : ∀ sv, FliesSwitched cfgD .keplerian ![2, 0, 0, 0, 0] ![1, 0, 0, 0, 0] (1 / 100) 1 1 T
      (dutySchedule (T / 5) (T / 7)) γ μ sv → ∀ s ∈ Icc 0 T, sv s = cartFormula .keplerian 1 (γ s) := fun sv hF s hs => by
    have := hF.image s hs
    have hk : cartOf .keplerian (γ s) cfgD.mu = .ok (cartFormula .keplerian 1 (γ s)) := cart_formula (hS s hs).2.2.2.2.1.1
    rw [hk] at this
    injection this with this
    exact this.symm
  obtain ⟨sv, hF, δ, hδ, K, hK, hrun⟩ := C120_duty (C := cfgDTol 1) (et := .keplerian) (fun _ => rfl) rfl rfl rfl hbd hon hoff hM
    hS' hT (by norm_num) hm rfl
  obtain ⟨sv', hF', δ', hδ', K', hK', A, hA, B, hB, hrun'⟩ := C120_sundman (C := cfgS 1) (et := .keplerian) (fun _ => rfl) rfl rfl rfl
    hbd hon hoff hM hS' hT (by norm_num) hm rfl
  have hF : FliesSwitched cfgD .keplerian ![2, 0, 0, 0, 0] ![1, 0, 0, 0, 0] (1 / 100) 1 1 T
      (dutySchedule (T / 5) (T / 7)) γ μ sv := ⟨hF.1, hF.2, hF.3⟩
  have hF' : FliesSwitched cfgD .keplerian ![2, 0, 0, 0, 0] ![1, 0, 0, 0, 0] (1 / 100) 1 1 T
      (dutySchedule (T / 5) (T / 7)) γ μ sv' := ⟨hF'.1, hF'.2, hF'.3⟩
  refine ⟨T, hT, γ, μ, sv, h0, h0', hF, ?_, ⟨min δ (T / 2), by positivity, K, fun h hh hhd fuel hf => ?_⟩,
    min δ' (T / 2 / A), by positivity, K', B, hB, fun h hh hhd fuel hf => ?_⟩
  · have := C120_package (S := samplePert) (sp := sampleSpice) (bodies := [(1, "10")]) rfl rfl rfl rfl hF
      (fun s hs => (hS s hs).2.2.2.2.1.1) fun s hs b _ => by
        rw [body_d, hsv sv hF s hs]
        exact ⟨fun e => by have := congrFun e 0; simp at this, apart_d (hS s hs).2.2.2.2.1.2⟩
    intro s hs
    obtain ⟨F, f1, f2⟩ := this s hs
    simp only [one_mul] at f2
    exact ⟨F, f1, f2⟩
  · have e2 := hhd.trans_le (min_le_right _ _)
    have etf : |(probC h T (T / 2)).tfMax| = T / 2 := abs_of_pos (show 0 < T / 2 by positivity)
    have etf0 : (probC h T (T / 2)).tfMax ≠ 0 := by simp only [probC]; linarith
    obtain ⟨Q', cols, n, k1, k2, -, -, k3, -⟩ := hrun h hh (hhd.trans_le (min_le_left _ _))
      (objC 1 h T (T / 2)) (probC h T (T / 2)) 0 0 fuel le_rfl le_rfl (by rw [h0, h0']; exact starts_C _ _ _ _) etf0
      (by rw [etf]; linarith) (by rw [etf]; exact hf)
    exact ⟨Q', cols, k1, k2, k3⟩
  · have e2 : h * A < T / 2 := by
      have := hhd.trans_le (min_le_right _ _)
      rwa [lt_div_iff₀ hA] at this
    have etf : |(probC h T (T / 2)).tfMax| = T / 2 := abs_of_pos (show 0 < T / 2 by positivity)
    have etf0 : (probC h T (T / 2)).tfMax ≠ 0 := by simp only [probC]; linarith
    obtain ⟨Q', H, cols, k1, k2, k3, k4, k5, k6⟩ := hrun' h hh (hhd.trans_le (min_le_left _ _))
      (objS 1 h T (T / 2)) (probC h T (T / 2)) 0 0 fuel le_rfl le_rfl (by rw [h0, h0']; exact starts_S _ _ _ _) etf0
      (by rw [etf]; linarith) (by rw [etf]; exact hf)
    refine ⟨Q', H, cols, k1, k2, k3, fun k t c ht hc i => ?_⟩
    obtain ⟨hin, e⟩ := k5 k t c ht hc
    have e := e i
    rw [hsv sv' hF' t hin, ← hsv sv hF t hin] at e
    exact e

end Burn

end PyQ
