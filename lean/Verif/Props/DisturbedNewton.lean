import Verif.Props.Disturbed
import Verif.Props.Inertial
import Verif.Props.PerturbUnits
import Verif.Props.Wound

/-!
C115: the Cartesian image of a motion with perturbations, forwards or backwards in time, obeys Newton's law with thrust
and perturbations, and the Cartesian history of a short-step run follows it.
-/

set_option linter.unusedSectionVars false
set_option maxRecDepth 100000

open Set Metric Topology

namespace PyQ

/-! ## Newton's law -/

/-- an acceleration given in the radial, transverse, normal frame of the Cartesian state `s`, in the inertial frame -/
noncomputable def rtnAcc (s : Fin 6 → ℝ) (a : Fin 3 → ℝ) : Fin 3 → ℝ := fun j =>
  a 0 * dirR s j + a 1 * dirT s j + a 2 * dirN s j

section newton
variable {C : Config ℝ} {et : ElemType} {oeT woe l u : Fin 5 → ℝ} {tmax m0 mdot σ g T : ℝ} {γ : ℝ → Fin 6 → ℝ}

/-- an instant at which six elements move by the equations of motion is an instant of Newton's law -/
theorem elements_newton {x : ℝ → Fin 6 → ℝ} {t τ : ℝ} {A : LyapArgs ℝ} {P : OdeParams ℝ} {v : Fin 6 → ℝ}
    (hmu : P.mu = A.mu) (hx : A.oe = x t) (hS : CandSmooth et A) (hR : NewtonRegion et (x t))
    (hpsi : ![P.psi0, P.psi1, P.psi2] = candPsi et A) (hv : (dynOf (α := ℝ) et).eom τ (x t) P = .ok v) (hg : 0 < g)
    (hd : HasDerivAt x (g • v) t) :
    CartOk et A.mu (x t) ∧ NewtonAt A.mu g (rtnAcc (cartFormula et A.mu (x t)) (fun c => P.u c + P.ptrb c))
      (fun s => cartFormula et A.mu (x s)) t := by
  have hst : CartOk et A.mu (x t) := by
    rw [← hx] at hR ⊢
    cases et with
    | keplerian =>
      have H : KepSmooth A := hS
      exact ⟨H.mu, H.a, H.e0, H.e1⟩
    | meeWithA =>
      have H : MeeSmooth A := hS.1
      refine ⟨H.mu, H.a, H.ecc, H.ecc0, ?_⟩
      rcases (hR rfl).2 with h | h <;> positivity
  refine ⟨hst, ?_⟩
  have hclock : HasDerivAt (fun s : ℝ => t + (s - t) / g) (1 / g) t := by
    exact (((hasDerivAt_id t).sub_const t).div_const g).const_add t
  have hback : t + (t - t) / g = t := by simp
  have hk : HasDerivAt (fun s => x (t + (s - t) / g)) v t := by
    have h4 : HasDerivAt x (g • v) ((fun s : ℝ => t + (s - t) / g) t) := by simpa using hd
    have := HasDerivAt.scomp t h4 hclock
    refine this.congr_deriv ?_
    rw [smul_smul, one_div, inv_mul_cancel₀ hg.ne', one_smul]
  have hev : ∀ᶠ s in 𝓝 t, cartOf et (x (t + (s - t) / g)) A.mu = .ok (cartFormula et A.mu (x (t + (s - t) / g))) := by
    have := hk.continuousAt.eventually_mem ((cartOk_open et A.mu).mem_nhds (by simpa using hst))
    exact this.mono fun s hs => cart_formula hs
  have p0 : P.psi0 = candPsi et A 0 := by rw [← hpsi]; rfl
  have p1 : P.psi1 = candPsi et A 1 := by rw [← hpsi]; rfl
  have p2 : P.psi2 = candPsi et A 2 := by rw [← hpsi]; rfl
  have hN : ∀ j, HasDerivAt (fun s => svPos (cartFormula et A.mu (x (t + (s - t) / g))) j) (svVel (cartFormula et A.mu (x t)) j) t ∧
      HasDerivAt (fun s => svVel (cartFormula et A.mu (x (t + (s - t) / g))) j)
        (-A.mu / norm3 (svPos (cartFormula et A.mu (x t))) ^ 3 * svPos (cartFormula et A.mu (x t)) j +
          rtnAcc (cartFormula et A.mu (x t)) (fun c => P.u c + P.ptrb c) j) t := by
    cases et with
    | keplerian =>
      have hi : Real.sin (x t 2) ≠ 0 := by
        have H : KepSmooth A := hS
        rw [← hx]
        exact (Real.sin_pos_of_pos_of_lt_pi H.i0 H.i1).ne'
      have hm : KepMotion A.mu (fun s => x (t + (s - t) / g)) (fun c => P.u c + P.ptrb c) t := by
        refine ⟨A, P, v, rfl, by simpa using hx, hmu, p0, p1, p2, fun _ => rfl, ?_, fun j => hasDerivAt_pi.1 hk j⟩
        show eomKepGauss t (x (t + (t - t) / g)) P = _
        rw [hback]; exact hv
      intro j
      have := C58_newton A.mu _ _ t (by rw [hback]; exact hst) (by simpa using hi) hm
        (fun s => cartFormula .keplerian A.mu (x (t + (s - t) / g))) hev j
      simp only [hback] at this
      exact this
    | meeWithA =>
      obtain ⟨hf, hhk⟩ := hR rfl
      have hm : MeeMotion A.mu (fun s => x (t + (s - t) / g)) (fun c => P.u c + P.ptrb c) t univ := by
        refine ⟨A, P, v, rfl, by simpa using hx, hmu, p0, p1, p2, fun _ => rfl, ?_, fun j _ => hasDerivAt_pi.1 hk j⟩
        show eomMeeWithAGauss t (x (t + (t - t) / g)) P = _
        rw [hback]; exact hv
      intro j
      have := C113_newton A.mu _ _ t hst.mu (by simpa using hst.a) (by simpa using hst.ecc) (by simpa using hf)
        (by simpa using hhk) hm (fun s => cartFormula .meeWithA A.mu (x (t + (s - t) / g))) hev j
      simp only [hback] at this
      exact this
  intro j
  obtain ⟨n1, n2⟩ := hN j
  exact ⟨unslow hg n1, unslow hg n2⟩

/-- the Cartesian trajectory `sv` of a motion with perturbations: it is the image of the elements, and at every time
inside the interval it satisfies Newton's law (with the clock running at `g`) with the perturbing acceleration of the
object and the full thrust of the mass at that time along the direction returned by the law (backwards in time: against
that direction) -/
structure FliesDisturbed (C : Config ℝ) (et : ElemType) (oeT woe : Fin 5 → ℝ) (tmax m0 mdot σ g T : ℝ)
    (γ sv : ℝ → Fin 6 → ℝ) : Prop where
  image : ∀ s ∈ Icc 0 T, cartOf et (γ s) C.mu = .ok (sv (σ * s))
  newton : ∀ s ∈ Ioo 0 T, ∃ o q F,
    lyapunovControlAngles (dynOf (α := ℝ) et).lyapFun
      (callAt C oeT woe (σ * fullThrust tmax m0 mdot (σ * s)) (γ s)) = .ok o ∧
    PerturbationIs C (σ * s) (γ s) q ∧
    F = rtnForce (sv (σ * s)) (σ * fullThrust tmax m0 mdot (σ * s)) o.alpha o.beta ∧
    norm3 F = fullThrust tmax m0 mdot (σ * s) ∧
    NewtonAt C.mu g (fun j => F j + rtnAcc (sv (σ * s)) q j) sv (σ * s)

theorem rtnForce_norm_signed {s : Fin 6 → ℝ} {f σ α β : ℝ} (hσ : σ = 1 ∨ σ = -1) (hf : 0 ≤ f) (hr : norm3 (svPos s) ≠ 0)
    (hn : norm3 (cross3 (svPos s) (svVel s)) ≠ 0) : norm3 (rtnForce s (σ * f) α β) = f := by
  have h1 : rtnForce s (σ * f) α β = vsmul σ (rtnForce s f α β) := by
    funext j; simp only [rtnForce, vsmul]; ring
  have h2 : |σ| = 1 := by rcases hσ with rfl | rfl <;> norm_num
  rw [h1, norm3_smul, h2, one_mul, rtnForce_norm hf hr hn]

theorem disturbed_flies (hσ : σ = 1 ∨ σ = -1) (hM : DisturbedMotion C et oeT woe tmax m0 mdot σ g T γ) (hg : 0 < g)
    (hS : ∀ s ∈ Icc 0 T, LawSmooth et (unitCall C oeT woe (γ s)) ∧ NewtonRegion et (γ s))
    (hT : 0 < tmax) (hm : ∀ s ∈ Icc 0 T, 0 < m0 - mdot * (σ * s)) :
    FliesDisturbed C et oeT woe tmax m0 mdot σ g T γ (fun t => cartFormula et C.mu (γ (σ * t))) := by
  have hσσ : σ * σ = 1 := by rcases hσ with rfl | rfl <;> norm_num
  have hb : ∀ s, σ * (σ * s) = s := fun s => by rw [← mul_assoc, hσσ, one_mul]
  refine ⟨fun s hs => by simp only [hb]; exact cart_formula (law_state (hS s hs).1 (hS s hs).2), fun s hs => ?_⟩
  have hs' := Ioo_subset_Icc_self hs
  obtain ⟨o, v, q, h0, h1, h2, h3⟩ := hM s hs'
  obtain ⟨hsm, hR⟩ := hS s hs'
  have hd : HasDerivAt γ ((σ * g) • v) s := h3.hasDerivAt (Icc_mem_nhds hs.1 hs.2)
  have hd2 : HasDerivAt (fun t => γ (σ * t)) (g • v) (σ * s) := by
    have e1 : HasDerivAt (fun t : ℝ => σ * t) σ (σ * s) := by simpa using (hasDerivAt_id (σ * s)).const_mul σ
    have e2 : HasDerivAt γ ((σ * g) • v) ((fun t : ℝ => σ * t) (σ * s)) := by simpa only [hb] using hd
    have := HasDerivAt.scomp (σ * s) e2 e1
    refine this.congr_deriv ?_
    rw [smul_smul, ← mul_assoc, hσσ, one_mul]
  obtain ⟨hst, hN⟩ := elements_newton (x := fun t => γ (σ * t)) (t := σ * s) (τ := σ * s) (A := unitCall C oeT woe (γ s))
    (P := { mu := C.mu, u := fun c => σ * fullThrust tmax m0 mdot (σ * s) * unitDir o.alpha o.beta c,
            psi0 := o.psi 0, psi1 := o.psi 1, psi2 := o.psi 2, ptrb := q }) rfl (by simp only [hb]; rfl) hsm.1
    (by simp only [hb]; exact hR) (by rw [← law_psi h1]; funext c; fin_cases c <;> rfl) (by simp only [hb]; exact h2) hg hd2
  simp only [hb] at hst hN ⊢
  obtain ⟨n1, n2⟩ := cart_nonzero hst
  refine ⟨o, q, _, h1, h0, rfl, rtnForce_norm_signed hσ (div_pos hT (hm s hs')).le n1 n2, ?_⟩
  have : (rtnAcc (cartFormula et (unitCall C oeT woe (γ s)).mu (γ s)) fun c =>
      σ * fullThrust tmax m0 mdot (σ * s) * unitDir o.alpha o.beta c + q c) =
      fun j => rtnForce (cartFormula et C.mu (γ s)) (σ * fullThrust tmax m0 mdot (σ * s)) o.alpha o.beta j +
        rtnAcc (cartFormula et C.mu (γ s)) q j := by
    have e : (unitCall C oeT woe (γ s)).mu = C.mu := rfl
    funext j
    simp only [e, rtnAcc, rtnForce, unitDir, Matrix.cons_val]
    ring
  rw [this] at hN
  exact hN

/-- the Cartesian image is Lipschitz in a tube around a motion -/
theorem cart_tube {mu : ℝ} (hcont : ContinuousOn γ (Icc 0 T)) (hS : ∀ t ∈ Icc 0 T, CartOk et mu (γ t)) :
    ∃ L > 0, ∃ ρ > 0, ∀ t ∈ Icc 0 T, ∀ x, (∀ i, |x i - γ t i| < ρ) →
      ∃ c, cartOf et x mu = .ok c ∧ ∀ ε ≥ 0, (∀ i, |x i - γ t i| ≤ ε) → ∀ i, |c i - cartFormula et mu (γ t) i| ≤ L * ε := by
  obtain ⟨ρ1, hρ1, ho⟩ := tube_open hcont (cartOk_open et mu) hS
  obtain ⟨L, hL, ρ2, hρ2, hlip⟩ := tube_lipschitz hcont (f := cartFormula et mu) (fun t ht => cart_c1 (hS t ht))
  refine ⟨L, hL, min ρ1 ρ2, by positivity, fun t ht x hx => ?_⟩
  have hd : dist x (γ t) < min ρ1 ρ2 := by
    rw [dist_pi_lt_iff (by positivity)]
    exact hx
  refine ⟨_, cart_formula (ho t ht (mem_ball.2 (hd.trans_le (min_le_left _ _)))), fun ε hε hxe i => ?_⟩
  have h1 := (hlip t ht x (mem_ball.2 (hd.trans_le (min_le_right _ _)))).2 (γ t) (mem_ball_self hρ2)
  have h2 : ‖x - γ t‖ ≤ ε := (pi_norm_le_iff_of_nonneg hε).2 fun i => hxe i
  calc |cartFormula et mu x i - cartFormula et mu (γ t) i| = ‖(cartFormula et mu x - cartFormula et mu (γ t)) i‖ := rfl
    _ ≤ ‖cartFormula et mu x - cartFormula et mu (γ t)‖ := norm_le_pi_norm _ _
    _ ≤ L * ‖x - γ t‖ := h1
    _ ≤ L * ε := by gcongr

/-- **C115, Newton's law.** Under the hypotheses of C115, and in modified equinoctial elements with `f > 0` and off the
equator, there is a Cartesian trajectory `sv` that satisfies Newton's law with the full thrust and the perturbations of
the object (`rk4`: exactly; `rkf45`: with the clock `1 + 2197/5610168` times too fast), and the Cartesian history of
every run whose steps thrust in direction `σ` of time and are no longer than `h` is within `K h` of it at every
recorded time. -/
theorem C115_newton [PyNan ℝ] (hd : C.dyn = dynOf et) (hE : C.elementsType = et) (hσ : σ = 1 ∨ σ = -1)
    (hl : C.elementsType = .keplerian → BoundsAre C.oeMin l ∧ BoundsAre C.oeMax u)
    (hM : DisturbedMotion C et oeT woe tmax m0 mdot σ (gain C.integrator) T γ)
    (hS : ∀ s ∈ Icc 0 T, LawSmooth et (unitCall C oeT woe (γ s)) ∧ NewtonRegion et (γ s) ∧ PertSmooth C σ s (γ s) ∧
      (C.elementsType = .keplerian → ∀ j : Fin 5, l j < γ s j.castSucc ∧ γ s j.castSucc < u j))
    (hT : 0 < tmax) (hm : ∀ s ∈ Icc 0 T, 0 < m0 - mdot * (σ * s)) :
    ∃ sv, FliesDisturbed C et oeT woe tmax m0 mdot σ (gain C.integrator) T γ sv ∧
      ∃ δ > 0, ∃ K ≥ 0, ∀ h, 0 < h → h < δ →
      ∀ (Q Q' : QLaw ℝ) (P : Problem ℝ) (etaA etaR : EtaArg ℝ) (fuel : ℕ) (H : Hist ℝ) (cols : List (Fin 6 → ℝ)),
      Q.cfg = C → Q.prob = some P → P.oeT = List.ofFn oeT → P.woe = woe → P.tmax = tmax → P.mass0 = m0 →
      P.mdot = mdot → P.oe0 = γ 0 → Q.solve etaA etaR fuel = some (Q', none) → Q'.hist = some H →
      Q'.getCartesianHistory = .ok cols →
      ∀ (n : ℕ) (t : ℝ) (c : Fin 6 → ℝ), H.times[n]? = some t → σ * t ≤ T → cols[n]? = some c → BurnsUpTo σ H n h →
        ∀ i, |c i - sv t i| ≤ K * h := by
  have hσσ : σ * σ = 1 := by rcases hσ with rfl | rfl <;> norm_num
  have hS1 : ∀ t ∈ Icc 0 T, LawSmooth et (unitCall C oeT woe (γ t)) ∧ NewtonRegion et (γ t) :=
    fun t ht => ⟨(hS t ht).1, (hS t ht).2.1⟩
  have hcont : ContinuousOn γ (Icc 0 T) := fun t ht => by
    obtain ⟨o, v, q, -, -, -, h3⟩ := hM t ht
    exact h3.continuousWithinAt
  obtain ⟨L, hL, ρ, hρ, htube⟩ := cart_tube (mu := C.mu) hcont (fun t ht => law_state (hS1 t ht).1 (hS1 t ht).2)
  obtain ⟨δ, hδ, K, hK, hrun⟩ := C115_limit hd hσ hl hM (fun t ht => ⟨(hS t ht).1, (hS t ht).2.2⟩) hT hm
  refine ⟨_, disturbed_flies hσ hM (gain_pos _) hS1 hT hm, min δ (ρ / (K + 1)), by positivity, L * K, by positivity, ?_⟩
  intro h hh hhδ Q Q' P etaA etaR fuel H cols hC hP h1 h2 h3 h4 h5 h6 hsol hH hcols n t c hn htT hc hthr i
  have hh1 : h < δ := hhδ.trans_le (min_le_left _ _)
  have hh2 : K * h < ρ := by
    have := hhδ.trans_le (min_le_right _ _)
    rw [lt_div_iff₀ (by positivity)] at this
    nlinarith
  have hcfg : Q'.cfg = C := (solve_prob' hsol hP hH).2.trans hC
  obtain ⟨hx, -⟩ := C70_columns hsol hH (conv := fun x => cartOf et x C.mu) (by intro x; rw [hcfg, hE]; cases et <;> simp [cartOf])
  obtain ⟨hlen, hx⟩ := hx cols hcols
  obtain ⟨H1, P1, P1', N, a1, a2, -, al, at0, -⟩ := C01_histories_aligned hsol
  rw [hH] at a1; injection a1 with a1; subst a1
  have hnN : n < N + 1 := by rw [← al.times]; exact (List.getElem?_eq_some_iff.1 hn).1
  obtain ⟨x, hxn⟩ : ∃ x, H.states[n]? = some x := ⟨_, List.getElem?_eq_getElem (by rw [al.states]; exact hnN)⟩
  have ht0 : 0 ≤ σ * t := by
    have key : ∀ k ≤ n, ∀ s, H.times[k]? = some s → 0 ≤ σ * s := by
      intro k
      induction k with
      | zero =>
        intro _ s hs
        rw [List.head?_eq_getElem?, hs] at at0
        injection at0 with at0
        rw [at0]; simp
      | succ k ih =>
        intro hk s hs
        obtain ⟨a, b, t1, t2, -, q1, q2, q3, -⟩ := hthr k (by omega)
        rw [hs] at q2; injection q2 with q2; subst q2
        have := ih (by omega) t1 q1
        linarith [mul_sub σ s t1]
    exact key n le_rfl t hn
  have hb := hrun h hh hh1 Q Q' P etaA etaR fuel H hC hP h1 h2 h3 h4 h5 h6 hsol hH n t x hn htT hxn hthr
  obtain ⟨c', hc', hcv⟩ := hx n x hxn
  rw [hc] at hc'
  injection hc' with hc'
  subst hc'
  obtain ⟨c2, e1, e2⟩ := htube _ ⟨ht0, htT⟩ x fun i => (hb i).trans_lt hh2
  rw [hcv] at e1
  injection e1 with e1
  subst e1
  rw [mul_assoc]
  exact e2 (K * h) (by positivity) hb i

end newton

/-! ## the perturbations of the package -/

/-- the acceleration of `SpicePerturbations` in the radial, transverse, normal frame, in closed form -/
noncomputable def spiceRtn (S : SpicePerturbations ℝ) (bodies : List (ℝ × String)) (sp : Spice ℝ) (et : ElemType) (t : ℝ)
    (x : Fin 6 → ℝ) : Fin 3 → ℝ :=
  mulVec3 (pxformECI2RTN (svPos (cartFormula et S.obsMu x)) (svVel (cartFormula et S.obsMu x)))
    (enabledSum S bodies sp t (svPos (cartFormula et S.obsMu x)))

/-- the instants and positions at which the perturbations are smooth: ephemerides and orientation are, no body (nor the
Sun, if radiation pressure is on) is at the position or at the centre -/
structure SpiceRegular (S : SpicePerturbations ℝ) (bodies : List (ℝ × String)) (sp : Spice ℝ) (t : ℝ) (r : Fin 3 → ℝ) : Prop where
  eph : ∀ b ∈ bodies, ContDiffAt ℝ 1 (fun t => bodyPos S sp t b.2) t
  sun : S.useSRP = true → ContDiffAt ℝ 1 (fun t => bodyPos S sp t "10") t
  frame : S.useJ2 = true → ContDiffAt ℝ 1 (fun t => sp.pxform (S.etRef + t * S.TU)) t
  apart : ∀ b ∈ bodies, bodyPos S sp t b.2 ≠ 0 ∧ r ≠ bodyPos S sp t b.2
  apartSun : S.useSRP = true → r ≠ bodyPos S sp t "10"

theorem norm3_c1 {E : Type} [NormedAddCommGroup E] [NormedSpace ℝ E] {φ : E → Fin 3 → ℝ} {y : E} (h : ContDiffAt ℝ 1 φ y)
    (h0 : φ y ≠ 0) : ContDiffAt ℝ 1 (fun y => norm3 (φ y)) y := by
  have hn := norm3_pos h0
  have hc := contDiffAt_pi.1 h
  simp only [norm3, sqrt_real] at hn ⊢
  exact ((((hc 0).pow 2).add ((hc 1).pow 2)).add ((hc 2).pow 2)).sqrt (Real.sqrt_pos.1 hn).ne'

theorem third_c1 {E : Type} [NormedAddCommGroup E] [NormedSpace ℝ E] {φ ψ : E → Fin 3 → ℝ} {y : E} {m : ℝ}
    (h : ContDiffAt ℝ 1 φ y) (h' : ContDiffAt ℝ 1 ψ y) (h0 : ψ y ≠ 0) (h1 : φ y ≠ ψ y) (i : Fin 3) :
    ContDiffAt ℝ 1 (fun y => thirdBodyDirect (φ y) (ψ y) m i) y := by
  have hd : ContDiffAt ℝ 1 (fun y => vsub (φ y) (ψ y)) y :=
    contDiffAt_pi.2 fun j => (contDiffAt_pi.1 h j).sub (contDiffAt_pi.1 h' j)
  have hd0 : vsub (φ y) (ψ y) ≠ 0 := fun e => h1 (funext fun j => by
    have := congrFun e j; simp only [vsub, Pi.zero_apply] at this; linarith)
  have n1 := norm3_c1 hd hd0
  have n2 := norm3_c1 h' h0
  simp only [thirdBodyDirect]
  exact contDiffAt_const.mul ((((contDiffAt_pi.1 h i).sub (contDiffAt_pi.1 h' i)).div (n1.pow 3)
    (pow_pos (norm3_pos hd0) 3).ne').add ((contDiffAt_pi.1 h' i).div (n2.pow 3) (pow_pos (norm3_pos h0) 3).ne'))

theorem mulVec_c1 {E : Type} [NormedAddCommGroup E] [NormedSpace ℝ E] {M : E → Fin 3 → Fin 3 → ℝ} {φ : E → Fin 3 → ℝ} {y : E}
    (hM : ContDiffAt ℝ 1 M y) (h : ContDiffAt ℝ 1 φ y) : ContDiffAt ℝ 1 (fun y => mulVec3 (M y) (φ y)) y := by
  refine contDiffAt_pi.2 fun i => ?_
  have hm : ∀ j, ContDiffAt ℝ 1 (fun y => M y i j) y := fun j => contDiffAt_pi.1 (contDiffAt_pi.1 hM i) j
  have hc := contDiffAt_pi.1 h
  simp only [mulVec3, dot3]
  exact (((hm 0).mul (hc 0)).add ((hm 1).mul (hc 1))).add ((hm 2).mul (hc 2))

theorem j2_c1 {E : Type} [NormedAddCommGroup E] [NormedSpace ℝ E] {M : E → Fin 3 → Fin 3 → ℝ} {φ : E → Fin 3 → ℝ} {y : E}
    {mu J2 Re : ℝ} (hM : ContDiffAt ℝ 1 M y) (h : ContDiffAt ℝ 1 φ y) (h0 : φ y ≠ 0) :
    ContDiffAt ℝ 1 (fun y => j2Coded (φ y) (M y) mu J2 Re) y := by
  have hx := contDiffAt_pi.1 (mulVec_c1 hM h)
  have hMt : ContDiffAt ℝ 1 (fun y => transpose3 (M y)) y :=
    contDiffAt_pi.2 fun i => contDiffAt_pi.2 fun j => contDiffAt_pi.1 (contDiffAt_pi.1 hM j) i
  have n1 := norm3_c1 h h0
  have n0 := norm3_pos h0
  simp only [j2Coded]
  refine mulVec_c1 hMt (contDiffAt_pi.2 fun i => ?_)
  simp only [vsmul]
  refine (contDiffAt_const.div (contDiffAt_const.mul (n1.pow 5)) (by positivity)).mul ?_
  fin_cases i
  · exact (contDiffAt_const.sub (contDiffAt_const.mul ((hx 2).pow 2))).mul (hx 0)
  · exact (contDiffAt_const.sub (contDiffAt_const.mul ((hx 2).pow 2))).mul (hx 1)
  · exact (contDiffAt_const.sub (contDiffAt_const.mul ((hx 2).pow 2))).mul (hx 2)

theorem list_sum_c1 {E β : Type} [NormedAddCommGroup E] [NormedSpace ℝ E] {f : β → E → ℝ} {y : E} (l : List β)
    (h : ∀ b ∈ l, ContDiffAt ℝ 1 (f b) y) : ContDiffAt ℝ 1 (fun y => (l.map fun b => f b y).sum) y := by
  induction l with
  | nil => simpa using contDiffAt_const
  | cons b l ih =>
    simp only [List.map_cons, List.sum_cons]
    exact (h b (by simp)).add (ih fun c hc => h c (by simp [hc]))

theorem enabledSum_c1 {E : Type} [NormedAddCommGroup E] [NormedSpace ℝ E] {S : SpicePerturbations ℝ}
    {bodies : List (ℝ × String)} {sp : Spice ℝ} {φ : E → Fin 3 → ℝ} {τ : E → ℝ} {y : E} (hφ : ContDiffAt ℝ 1 φ y)
    (hτ : ContDiffAt ℝ 1 τ y) (h : SpiceRegular S bodies sp (τ y) (φ y)) (h0 : φ y ≠ 0) :
    ContDiffAt ℝ 1 (fun y => enabledSum S bodies sp (τ y) (φ y)) y := by
  refine contDiffAt_pi.2 fun i => ?_
  simp only [enabledSum]
  refine ((list_sum_c1 bodies fun b hb => ?_).add ?_).add ?_
  · exact third_c1 hφ ((h.eph b hb).comp y hτ) (h.apart b hb).1 (h.apart b hb).2 i
  · cases hJ : S.useJ2
    · simpa using contDiffAt_const
    · simp only [if_true]
      exact contDiffAt_pi.1 (j2_c1 ((h.frame hJ).comp y hτ) hφ h0) i
  · cases hP : S.useSRP
    · simpa using contDiffAt_const
    · simp only [if_true]
      have hs := (h.sun hP).comp y hτ
      have hd : ContDiffAt ℝ 1 (fun y => vsub (φ y) (bodyPos S sp (τ y) "10")) y :=
        contDiffAt_pi.2 fun j => (contDiffAt_pi.1 hφ j).sub (contDiffAt_pi.1 hs j)
      have hd0 : vsub (φ y) (bodyPos S sp (τ y) "10") ≠ 0 := fun e => h.apartSun hP (funext fun j => by
        have := congrFun e j; simp only [vsub, Pi.zero_apply] at this; linarith)
      simp only [perturbationSRP, vdivs, vsmul]
      exact (contDiffAt_const.mul (contDiffAt_pi.1 hd i)).div ((norm3_c1 hd hd0).pow 3) (pow_pos (norm3_pos hd0) 3).ne'

theorem cross_c1 {E : Type} [NormedAddCommGroup E] [NormedSpace ℝ E] {φ ψ : E → Fin 3 → ℝ} {y : E}
    (h : ContDiffAt ℝ 1 φ y) (h' : ContDiffAt ℝ 1 ψ y) : ContDiffAt ℝ 1 (fun y => cross3 (φ y) (ψ y)) y := by
  have a := contDiffAt_pi.1 h
  have b := contDiffAt_pi.1 h'
  refine contDiffAt_pi.2 fun i => ?_
  fin_cases i
  · exact ((a 1).mul (b 2)).sub ((a 2).mul (b 1))
  · exact ((a 2).mul (b 0)).sub ((a 0).mul (b 2))
  · exact ((a 0).mul (b 1)).sub ((a 1).mul (b 0))

theorem unit_c1 {E : Type} [NormedAddCommGroup E] [NormedSpace ℝ E] {φ : E → Fin 3 → ℝ} {y : E} (h : ContDiffAt ℝ 1 φ y)
    (h0 : φ y ≠ 0) : ContDiffAt ℝ 1 (fun y => vdivs (φ y) (norm3 (φ y))) y :=
  contDiffAt_pi.2 fun i => (contDiffAt_pi.1 h i).div (norm3_c1 h h0) (norm3_pos h0).ne'

theorem rtn_c1 {E : Type} [NormedAddCommGroup E] [NormedSpace ℝ E] {φ ψ : E → Fin 3 → ℝ} {y : E}
    (h : ContDiffAt ℝ 1 φ y) (h' : ContDiffAt ℝ 1 ψ y) (h0 : φ y ≠ 0) (h1 : cross3 (φ y) (ψ y) ≠ 0) :
    ContDiffAt ℝ 1 (fun y => pxformECI2RTN (φ y) (ψ y)) y := by
  have e1 := unit_c1 h h0
  have e2 := unit_c1 (cross_c1 h h') h1
  refine contDiffAt_pi.2 fun i => ?_
  fin_cases i
  · exact e1
  · exact cross_c1 e2 e1
  · exact e2

theorem norm3_ne {v : Fin 3 → ℝ} (h : norm3 v ≠ 0) : v ≠ 0 := by
  rintro rfl
  exact h (by simp [norm3])

theorem spiceRtn_ok {S : SpicePerturbations ℝ} {bodies : List (ℝ × String)} {sp : Spice ℝ} {et : ElemType} {t : ℝ}
    {x : Fin 6 → ℝ} (hb : S.thirdBodies = some bodies) (hx : CartOk et S.obsMu x)
    (h : ∀ b ∈ bodies, bodyPos S sp t b.2 ≠ 0 ∧ svPos (cartFormula et S.obsMu x) ≠ bodyPos S sp t b.2) :
    S.getPerturbationsRTN sp t x (typeName et) = .ok (spiceRtn S bodies sp et t x) := by
  obtain ⟨n1, n2⟩ := cart_nonzero hx
  have hc := cart_formula hx
  obtain ⟨a, h1, h2, -⟩ := C67_sum_partial S bodies sp t x (cartFormula et S.obsMu x) (typeName et) hb
    (by cases et with
      | keplerian => exact Or.inl ⟨rfl, hc⟩
      | meeWithA => exact Or.inr ⟨rfl, hc⟩) (norm3_ne n2) h
  rw [h1, h2]; rfl

theorem sv_parts_c1 {E : Type} [NormedAddCommGroup E] [NormedSpace ℝ E] {φ : E → Fin 6 → ℝ} {y : E} (h : ContDiffAt ℝ 1 φ y) :
    ContDiffAt ℝ 1 (fun y => svPos (φ y)) y ∧ ContDiffAt ℝ 1 (fun y => svVel (φ y)) y := by
  have a := contDiffAt_pi.1 h
  constructor <;> refine contDiffAt_pi.2 fun i => ?_ <;> fin_cases i
  · exact a 0
  · exact a 1
  · exact a 2
  · exact a 3
  · exact a 4
  · exact a 5

/-- **C115, the package's perturbations.** The perturbing acceleration of `SpicePerturbations` is continuously
differentiable near every elliptic state and time at which the ephemerides are and no body is at the spacecraft or at
the centre -/
theorem C115_package_smooth {C : Config ℝ} {et : ElemType} {S : SpicePerturbations ℝ} {bodies : List (ℝ × String)} {sp : Spice ℝ}
    (hE : C.elementsType = et) (hp : C.perturbations = some fun t x e => S.getPerturbationsRTN sp t x (typeName e))
    (hb : S.thirdBodies = some bodies) {σ s : ℝ} {x : Fin 6 → ℝ} (hx : CartOk et S.obsMu x)
    (h : SpiceRegular S bodies sp (σ * s) (svPos (cartFormula et S.obsMu x))) : PertSmooth C σ s x := by
  obtain ⟨n1, n2⟩ := cart_nonzero hx
  have hc : ContDiffAt ℝ 1 (fun y : ℝ × (Fin 6 → ℝ) => cartFormula et S.obsMu y.2) (s, x) :=
    (cart_c1 hx).comp (s, x) contDiffAt_snd
  obtain ⟨hr, hv⟩ := sv_parts_c1 hc
  have hτ : ContDiffAt ℝ 1 (fun y : ℝ × (Fin 6 → ℝ) => σ * y.1) (s, x) := contDiffAt_const.mul contDiffAt_fst
  refine ⟨fun y => spiceRtn S bodies sp et (σ * y.1) y.2,
    mulVec_c1 (rtn_c1 hr hv (norm3_ne n1) (norm3_ne n2)) (enabledSum_c1 hr hτ h (norm3_ne n1)), ?_⟩
  have e1 : ∀ᶠ y : ℝ × (Fin 6 → ℝ) in 𝓝 (s, x), CartOk et S.obsMu y.2 :=
    continuous_snd.continuousAt.eventually ((cartOk_open et S.obsMu).mem_nhds hx)
  have e2 : ∀ᶠ y : ℝ × (Fin 6 → ℝ) in 𝓝 (s, x), ∀ b ∈ bodies,
      bodyPos S sp (σ * y.1) b.2 ≠ 0 ∧ svPos (cartFormula et S.obsMu y.2) ≠ bodyPos S sp (σ * y.1) b.2 := by
    refine (Filter.eventually_all_finite bodies.finite_toSet).2 fun b hb => ?_
    have c1 : ContinuousAt (fun y : ℝ × (Fin 6 → ℝ) => bodyPos S sp (σ * y.1) b.2) (s, x) :=
      ContinuousAt.comp (g := fun t => bodyPos S sp t b.2) (f := fun y : ℝ × (Fin 6 → ℝ) => σ * y.1)
        (h.eph b hb).continuousAt hτ.continuousAt
    exact (c1.eventually_ne (h.apart b hb).1).and
      ((ContinuousAt.ne_iff_eventually_ne hr.continuousAt c1).1 (h.apart b hb).2)
  filter_upwards [e1, e2] with y h1 h2
  simp only [PerturbationIs, hp, hE]
  exact spiceRtn_ok hb h1 h2

/-- rotated back from the frame, it is the sum of the accelerations in the inertial frame -/
theorem rtnAcc_spice {S : SpicePerturbations ℝ} {bodies : List (ℝ × String)} {sp : Spice ℝ} {et : ElemType} {t : ℝ}
    {x : Fin 6 → ℝ} (hx : CartOk et S.obsMu x) : rtnAcc (cartFormula et S.obsMu x) (spiceRtn S bodies sp et t x) =
      enabledSum S bodies sp t (svPos (cartFormula et S.obsMu x)) := by
  obtain ⟨n1, n2⟩ := cart_nonzero hx
  simp only [spiceRtn]
  generalize cartFormula et S.obsMu x = c at *
  generalize enabledSum S bodies sp t (svPos c) = w
  have h' := mul_eq_one_comm.1 (C66_rtn (svPos c) (svVel c) (norm3_ne n2)).1
  have d0 : pxformECI2RTN (svPos c) (svVel c) 0 = dirR c := by
    simp only [pxformECI2RTN, dirR, Matrix.cons_val]; funext j; simp only [vdivs, vsmul]; ring
  have d2 : pxformECI2RTN (svPos c) (svVel c) 2 = dirN c := by
    simp only [pxformECI2RTN, dirN, Matrix.cons_val]; funext j; simp only [vdivs, vsmul]; ring
  have d1 : pxformECI2RTN (svPos c) (svVel c) 1 = dirT c := by
    rw [dirT, ← d0, ← d2]; rfl
  funext j
  simp only [rtnAcc, ← d0, ← d1, ← d2]
  generalize pxformECI2RTN (svPos c) (svVel c) = M at *
  have e : ∀ i j : Fin 3, M 0 i * M 0 j + M 1 i * M 1 j + M 2 i * M 2 j = if i = j then 1 else 0 := by
    intro i j
    have := congrFun (congrFun h' i) j
    simpa [Matrix.mul_apply, Fin.sum_univ_three, Matrix.one_apply] using this
  have e0 := e 0 j
  have e1 := e 1 j
  have e2 := e 2 j
  simp only [mulVec3, dot3]
  have : w j = w 0 * (if (0 : Fin 3) = j then 1 else 0) + w 1 * (if (1 : Fin 3) = j then 1 else 0) +
      w 2 * (if (2 : Fin 3) = j then 1 else 0) := by fin_cases j <;> simp
  rw [this, ← e0, ← e1, ← e2]
  ring

/-- **C115, the package's perturbations.** With the perturbations of the package (constructed with the same gravitational
parameter), the trajectory of C115 satisfies Newton's law with the attraction of the third bodies, the oblateness term as
coded and the radiation pressure of the Sun in the inertial frame -/
theorem C115_package {C : Config ℝ} {et : ElemType} {S : SpicePerturbations ℝ} {bodies : List (ℝ × String)} {sp : Spice ℝ}
    (hE : C.elementsType = et) (hp : C.perturbations = some fun t x e => S.getPerturbationsRTN sp t x (typeName e))
    (hb : S.thirdBodies = some bodies) (hmu : S.obsMu = C.mu) {oeT woe : Fin 5 → ℝ} {tmax m0 mdot σ g T : ℝ}
    {γ sv : ℝ → Fin 6 → ℝ} (hF : FliesDisturbed C et oeT woe tmax m0 mdot σ g T γ sv)
    (hx : ∀ s ∈ Icc 0 T, CartOk et C.mu (γ s))
    (h : ∀ s ∈ Icc 0 T, ∀ b ∈ bodies, bodyPos S sp (σ * s) b.2 ≠ 0 ∧ svPos (sv (σ * s)) ≠ bodyPos S sp (σ * s) b.2) :
    ∀ s ∈ Ioo 0 T, ∃ F, norm3 F = fullThrust tmax m0 mdot (σ * s) ∧
      NewtonAt C.mu g (fun j => F j + enabledSum S bodies sp (σ * s) (svPos (sv (σ * s))) j) sv (σ * s) := by
  intro s hs
  have hs' := Ioo_subset_Icc_self hs
  have hi := hF.image s hs'
  obtain ⟨o, q, F, -, h2, -, h4, h5⟩ := hF.newton s hs
  have hk := hx s hs'
  rw [cart_formula hk] at hi
  injection hi with hi
  rw [← hmu] at hk hi
  simp only [PerturbationIs, hp, hE] at h2
  have h' := h s hs'
  rw [← hi] at h'
  rw [spiceRtn_ok hb hk h'] at h2
  injection h2 with h2
  refine ⟨F, h4, ?_⟩
  rw [← hi, ← h2, rtnAcc_spice hk, hi] at h5
  exact h5

end PyQ
