import Verif.Props.NewtonMee
import Verif.Props.Reach
import Verif.Props.Report
import Verif.Examples.MeeBurn

/-!
C112: the Cartesian history of a short-step run follows Newton's law with full thrust along the
direction of the control law.
-/

set_option linter.unusedSectionVars false
set_option maxRecDepth 100000

open Set Metric Topology

namespace PyQ

/-- `r' = g v` and `v' = g (-μ r/|r|³ + F)` at time `t`, for a force per unit mass `F` -/
def NewtonAt (mu g : ℝ) (F : Fin 3 → ℝ) (sv : ℝ → Fin 6 → ℝ) (t : ℝ) : Prop :=
  ∀ j, HasDerivAt (fun s => svPos (sv s) j) (g * svVel (sv t) j) t ∧
    HasDerivAt (fun s => svVel (sv s) j)
      (g * (-mu / norm3 (svPos (sv t)) ^ 3 * svPos (sv t) j + F j)) t

/-- thrust `f` in the direction with in-plane angle `α` and out-of-plane angle `β` in the radial, transverse, normal
frame of the Cartesian state `s` -/
noncomputable def rtnForce (s : Fin 6 → ℝ) (f α β : ℝ) : Fin 3 → ℝ := fun j =>
  f * (Real.cos β * Real.sin α * dirR s j + Real.cos β * Real.cos α * dirT s j + Real.sin β * dirN s j)

theorem rtnForce_norm {s : Fin 6 → ℝ} {f α β : ℝ} (hf : 0 ≤ f) (hr : norm3 (svPos s) ≠ 0)
    (hn : norm3 (cross3 (svPos s) (svVel s)) ≠ 0) : norm3 (rtnForce s f α β) = f := by
  have hsq : ∀ v : Fin 3 → ℝ, norm3 v ^ 2 = dot3 v v := fun v => by
    rw [norm3_eq_sqrt, Real.sq_sqrt (by simp only [dot3]; nlinarith [sq_nonneg (v 0), sq_nonneg (v 1), sq_nonneg (v 2)])]
  have hR : dot3 (dirR s) (dirR s) = 1 := by
    have := hsq (svPos s)
    simp only [dirR, dot3, vsmul] at *
    field_simp
    linarith
  have hN : dot3 (dirN s) (dirN s) = 1 := by
    have := hsq (cross3 (svPos s) (svVel s))
    simp only [dirN, dot3, vsmul] at *
    field_simp
    linarith
  have hRN : dot3 (dirR s) (dirN s) = 0 := by
    simp [dirR, dirN, dot3, vsmul, cross3]
    ring
  have hT : dirT s = cross3 (dirN s) (dirR s) := rfl
  have key : dot3 (rtnForce s f α β) (rtnForce s f α β) = f ^ 2 := by
    have h1 := Real.sin_sq_add_cos_sq α
    have h2 := Real.sin_sq_add_cos_sq β
    have e : dot3 (rtnForce s f α β) (rtnForce s f α β) = f ^ 2 * (Real.cos β ^ 2 * (Real.sin α ^ 2 * dot3 (dirR s) (dirR s) +
        Real.cos α ^ 2 * (dot3 (dirN s) (dirN s) * dot3 (dirR s) (dirR s) - dot3 (dirR s) (dirN s) ^ 2)) +
        Real.sin β ^ 2 * dot3 (dirN s) (dirN s) + 2 * Real.cos β * Real.sin α * Real.sin β * dot3 (dirR s) (dirN s)) := by
      unfold rtnForce
      rw [hT]
      generalize dirR s = R
      generalize dirN s = N
      simp [dot3, cross3]
      ring
    rw [e, hR, hN, hRN]
    linear_combination f ^ 2 * Real.cos β ^ 2 * h1 + f ^ 2 * h2
  have h0 : 0 ≤ norm3 (rtnForce s f α β) := Real.sqrt_nonneg _
  nlinarith [hsq (rtnForce s f α β)]

/-- undo a change of clock -/
theorem unslow {f : ℝ → ℝ} {d g t : ℝ} (hg : 0 < g) (h : HasDerivAt (fun s => f (t + (s - t) / g)) d t) :
    HasDerivAt f (g * d) t := by
  have hfwd : HasDerivAt (fun s : ℝ => t + (s - t) * g) g t := by
    simpa using (((hasDerivAt_id t).sub_const t).mul_const g).const_add t
  have hinv : ∀ s, t + ((t + (s - t) * g) - t) / g = s := fun s => by field_simp; ring
  have h4 : HasDerivAt (fun s => f (t + (s - t) / g)) d ((fun s : ℝ => t + (s - t) * g) t) := by simpa using h
  have := HasDerivAt.scomp t h4 hfwd
  simpa only [Function.comp_def, hinv, smul_eq_mul] using this

/-! ## the two element sets -/

/-- the conversion to Cartesian states used by the package for an element set -/
noncomputable def cartOf : ElemType → (Fin 6 → ℝ) → ℝ → Except PyErr (Fin 6 → ℝ)
  | .keplerian => kep2sv
  | .meeWithA => meeWithA2sv

noncomputable def cartFormula : ElemType → ℝ → (Fin 6 → ℝ) → Fin 6 → ℝ
  | .keplerian => svFormula
  | .meeWithA => meeSv

def CartOk : ElemType → ℝ → (Fin 6 → ℝ) → Prop
  | .keplerian => KepState
  | .meeWithA => MeeOffPlane

theorem cart_formula {et : ElemType} {mu : ℝ} {x : Fin 6 → ℝ} (S : CartOk et mu x) :
    cartOf et x mu = .ok (cartFormula et mu x) := by
  cases et with
  | keplerian => exact kep2sv_formula S
  | meeWithA => exact mee2sv_formula S

theorem cart_c1 {et : ElemType} {mu : ℝ} {x : Fin 6 → ℝ} (S : CartOk et mu x) :
    ContDiffAt ℝ 1 (cartFormula et mu) x := by
  cases et with
  | keplerian => exact svFormula_c1 S
  | meeWithA => exact meeSv_c1 S.mu S.a S.ecc

theorem cartOk_open (et : ElemType) (mu : ℝ) : IsOpen {x | CartOk et mu x} := by
  cases et with
  | keplerian => exact kepState_open mu
  | meeWithA => exact meeOffPlane_open mu

/-- an elliptic state has a radius and an angular momentum -/
theorem svFormula_nonzero {mu : ℝ} {k : Fin 6 → ℝ} (S : KepState mu k) : norm3 (svPos (svFormula mu k)) ≠ 0 ∧
    norm3 (cross3 (svPos (svFormula mu k)) (svVel (svFormula mu k))) ≠ 0 := by
  have h1 := S.mu
  have h2 := S.w_pos (k 5)
  have hp : 0 < semiLatus k := by
    have := S.a
    have := S.e0
    have := S.e1
    have : 0 < 1 - k 1 ^ 2 := by nlinarith
    simp only [semiLatus]; positivity
  obtain ⟨c, hc, ho⟩ := C48_on_orbit k mu ⟨h1, hp, h2⟩
  rw [kep2sv_formula S] at hc
  injection hc with hc
  rw [← hc] at ho
  constructor
  · rw [ho.radius]; positivity
  · rw [ho.angular, norm3_smul_pos (by positivity) ?_]
    · positivity
    · have a1 := Real.sin_sq_add_cos_sq (k 2)
      have a2 := Real.sin_sq_add_cos_sq (k 3)
      simp [dot3]
      linear_combination a1 + Real.sin (k 2) ^ 2 * a2

theorem cart_nonzero {et : ElemType} {mu : ℝ} {x : Fin 6 → ℝ} (S : CartOk et mu x) :
    norm3 (svPos (cartFormula et mu x)) ≠ 0 ∧
    norm3 (cross3 (svPos (cartFormula et mu x)) (svVel (cartFormula et mu x))) ≠ 0 := by
  cases et with
  | keplerian => exact svFormula_nonzero S
  | meeWithA =>
    obtain ⟨k, rfl, hk, i0, i1⟩ := MeeOffPlane.kep S
    have : cartFormula .meeWithA mu (kep2meeWithA k) = svFormula mu k := (svFormula_mee hk
      (Real.cos_pos_of_mem_Ioo ⟨by linarith [Real.pi_pos], by linarith⟩).ne').symm
    rw [this]
    exact svFormula_nonzero hk

section inertial
variable {C : Config ℝ} {et : ElemType} {oeT woe l u : Fin 5 → ℝ} {tmax m0 mdot g T : ℝ} {γ : ℝ → Fin 6 → ℝ}

/-- where the equations of motion of an element set are Newton's law: no further condition in Keplerian elements;
`f > 0` and not equatorial in modified equinoctial elements -/
def NewtonRegion (et : ElemType) (x : Fin 6 → ℝ) : Prop := et = .meeWithA → 0 < x 1 ∧ (x 3 ≠ 0 ∨ x 4 ≠ 0)

theorem law_state {x : Fin 6 → ℝ} (hS : LawSmooth et (unitCall C oeT woe x)) (hR : NewtonRegion et x) : CartOk et C.mu x := by
  cases et with
  | keplerian =>
    have H : KepSmooth (unitCall C oeT woe x) := hS.1
    exact ⟨H.mu, H.a, H.e0, H.e1⟩
  | meeWithA =>
    have H : MeeSmooth (unitCall C oeT woe x) := hS.1.1
    refine ⟨H.mu, H.a, H.ecc, H.ecc0, ?_⟩
    rcases (hR rfl).2 with h | h <;> positivity

/-- the Cartesian image of a motion under the law obeys Newton's law -/
theorem law_newton (hM : LawMotion C et oeT woe tmax m0 mdot g T γ) (hg : 0 < g)
    (hS : ∀ t ∈ Icc 0 T, LawSmooth et (unitCall C oeT woe (γ t)) ∧ NewtonRegion et (γ t))
    {t : ℝ} (ht : t ∈ Ioo 0 T) :
    ∃ o, lyapunovControlAngles (dynOf (α := ℝ) et).lyapFun (callAt C oeT woe (tmax / (m0 - mdot * t)) (γ t)) = .ok o ∧
      NewtonAt C.mu g (rtnForce (cartFormula et C.mu (γ t)) (tmax / (m0 - mdot * t)) o.alpha o.beta)
        (fun s => cartFormula et C.mu (γ s)) t := by
  obtain ⟨o, v, h1, h2, h3⟩ := hM t (Ioo_subset_Icc_self ht)
  obtain ⟨hsm, hR⟩ := hS t (Ioo_subset_Icc_self ht)
  have hst := law_state hsm hR
  have hd : HasDerivAt γ (g • v) t := h3.hasDerivAt (Icc_mem_nhds ht.1 ht.2)
  refine ⟨o, h1, ?_⟩
  -- the same motion with the clock slowed down by `g`
  have hclock : HasDerivAt (fun s : ℝ => t + (s - t) / g) (1 / g) t := by
    exact (((hasDerivAt_id t).sub_const t).div_const g).const_add t
  have hback : t + (t - t) / g = t := by simp
  have hk : HasDerivAt (fun s => γ (t + (s - t) / g)) v t := by
    have h4 : HasDerivAt γ (g • v) ((fun s : ℝ => t + (s - t) / g) t) := by simpa using hd
    have := HasDerivAt.scomp t h4 hclock
    refine this.congr_deriv ?_
    rw [smul_smul, one_div, inv_mul_cancel₀ hg.ne', one_smul]
  have hpsi := law_psi h1
  have hev : ∀ᶠ s in 𝓝 t, cartOf et (γ (t + (s - t) / g)) C.mu = .ok (cartFormula et C.mu (γ (t + (s - t) / g))) := by
    have := hk.continuousAt.eventually_mem ((cartOk_open et C.mu).mem_nhds (by simpa using hst))
    exact this.mono fun s hs => cart_formula hs
  have hN : ∀ j, HasDerivAt (fun s => svPos (cartFormula et C.mu (γ (t + (s - t) / g))) j) (svVel (cartFormula et C.mu (γ t)) j) t ∧
      HasDerivAt (fun s => svVel (cartFormula et C.mu (γ (t + (s - t) / g))) j)
        (-C.mu / norm3 (svPos (cartFormula et C.mu (γ t))) ^ 3 * svPos (cartFormula et C.mu (γ t)) j +
          rtnForce (cartFormula et C.mu (γ t)) (tmax / (m0 - mdot * t)) o.alpha o.beta j) t := by
    have hforce : ∀ (s : Fin 6 → ℝ) j, rtnForce s (tmax / (m0 - mdot * t)) o.alpha o.beta j =
        tmax / (m0 - mdot * t) * unitDir o.alpha o.beta 0 * dirR s j + tmax / (m0 - mdot * t) * unitDir o.alpha o.beta 1 * dirT s j +
          tmax / (m0 - mdot * t) * unitDir o.alpha o.beta 2 * dirN s j := fun s j => by
      simp only [rtnForce, unitDir, Matrix.cons_val]
      ring
    cases et with
    | keplerian =>
      have hi : Real.sin (γ t 2) ≠ 0 := by
        have H : KepSmooth (unitCall C oeT woe (γ t)) := hsm.1
        exact (Real.sin_pos_of_pos_of_lt_pi H.i0 H.i1).ne'
      have hm : KepMotion C.mu (fun s => γ (t + (s - t) / g))
          (fun c => tmax / (m0 - mdot * t) * unitDir o.alpha o.beta c) t := by
        refine ⟨unitCall C oeT woe (γ t), ⟨C.mu, fun c => tmax / (m0 - mdot * t) * unitDir o.alpha o.beta c,
          o.psi 0, o.psi 1, o.psi 2, 0⟩, v, rfl, by simp [unitCall], rfl, ?_, ?_, ?_,
          fun i => ?_, ?_, fun j => ?_⟩
        · rw [hpsi]; rfl
        · rw [hpsi]; rfl
        · rw [hpsi]; rfl
        · simp
        · simpa [dynOf] using h2
        · exact hasDerivAt_pi.1 hk j
      intro j
      have := C58_newton C.mu _ _ t (by rw [hback]; exact hst) (by simpa using hi) hm
        (fun s => cartFormula .keplerian C.mu (γ (t + (s - t) / g))) hev j
      simp only [hback, ← hforce] at this
      exact this
    | meeWithA =>
      obtain ⟨hf, hhk⟩ := hR rfl
      have hm : MeeMotion C.mu (fun s => γ (t + (s - t) / g))
          (fun c => tmax / (m0 - mdot * t) * unitDir o.alpha o.beta c) t univ := by
        refine ⟨unitCall C oeT woe (γ t), ⟨C.mu, fun c => tmax / (m0 - mdot * t) * unitDir o.alpha o.beta c,
          o.psi 0, o.psi 1, o.psi 2, 0⟩, v, rfl, by simp [unitCall], rfl, ?_, ?_, ?_,
          fun i => ?_, ?_, fun j _ => ?_⟩
        · rw [hpsi]; rfl
        · rw [hpsi]; rfl
        · rw [hpsi]; rfl
        · simp
        · simpa [dynOf] using h2
        · exact hasDerivAt_pi.1 hk j
      intro j
      have := C113_newton C.mu _ _ t hst.mu (by simpa using hst.a) (by simpa using hst.ecc) (by simpa using hf)
        (by simpa using hhk) hm (fun s => cartFormula .meeWithA C.mu (γ (t + (s - t) / g))) hev j
      simp only [hback, ← hforce] at this
      exact this
  intro j
  obtain ⟨n1, n2⟩ := hN j
  exact ⟨unslow hg n1, unslow hg n2⟩

/-- the Cartesian trajectory `sv` of a motion under the law: it is the image of the elements, and at every time inside
the interval it satisfies Newton's law (with the clock running at `g`) with the full thrust along the direction
returned by the law for the elements at that time -/
structure FliesByNewton (C : Config ℝ) (et : ElemType) (oeT woe : Fin 5 → ℝ) (tmax m0 mdot g T : ℝ) (γ sv : ℝ → Fin 6 → ℝ) : Prop where
  image : ∀ t ∈ Icc 0 T, cartOf et (γ t) C.mu = .ok (sv t)
  newton : ∀ t ∈ Ioo 0 T, ∃ o F,
    lyapunovControlAngles (dynOf (α := ℝ) et).lyapFun (callAt C oeT woe (tmax / (m0 - mdot * t)) (γ t)) = .ok o ∧
    F = rtnForce (sv t) (tmax / (m0 - mdot * t)) o.alpha o.beta ∧ norm3 F = tmax / (m0 - mdot * t) ∧
    NewtonAt C.mu g F sv t

theorem law_flies (hM : LawMotion C et oeT woe tmax m0 mdot g T γ) (hg : 0 < g)
    (hS : ∀ t ∈ Icc 0 T, LawSmooth et (unitCall C oeT woe (γ t)) ∧ NewtonRegion et (γ t))
    (hT : 0 < tmax) (hmd : 0 ≤ mdot) (hm : 0 < m0 - mdot * T) :
    FliesByNewton C et oeT woe tmax m0 mdot g T γ (fun s => cartFormula et C.mu (γ s)) := by
  refine ⟨fun t ht => cart_formula (law_state (hS t ht).1 (hS t ht).2), fun t ht => ?_⟩
  obtain ⟨o, h1, h2⟩ := law_newton hM hg hS ht
  obtain ⟨n1, n2⟩ := cart_nonzero (law_state (hS t (Ioo_subset_Icc_self ht)).1 (hS t (Ioo_subset_Icc_self ht)).2)
  refine ⟨o, _, h1, rfl, rtnForce_norm ?_ n1 n2, h2⟩
  have := mul_le_mul_of_nonneg_left ht.2.le hmd
  exact div_nonneg hT.le (by linarith)

/-- the Cartesian image is Lipschitz in a tube around the motion -/
theorem sv_tube (hM : LawMotion C et oeT woe tmax m0 mdot g T γ)
    (hS : ∀ t ∈ Icc 0 T, LawSmooth et (unitCall C oeT woe (γ t)) ∧ NewtonRegion et (γ t)) :
    ∃ L > 0, ∃ ρ > 0, ∀ t ∈ Icc 0 T, ∀ x, (∀ i, |x i - γ t i| < ρ) →
      ∃ c, cartOf et x C.mu = .ok c ∧ ∀ ε ≥ 0, (∀ i, |x i - γ t i| ≤ ε) → ∀ i, |c i - cartFormula et C.mu (γ t) i| ≤ L * ε := by
  have hcont : ContinuousOn γ (Icc 0 T) := fun t ht => by
    obtain ⟨o, v, -, -, h3⟩ := hM t ht
    exact h3.continuousWithinAt
  obtain ⟨ρ1, hρ1, ho⟩ := tube_open hcont (cartOk_open et C.mu) (fun t ht => law_state (hS t ht).1 (hS t ht).2)
  obtain ⟨L, hL, ρ2, hρ2, hlip⟩ := tube_lipschitz hcont (f := cartFormula et C.mu)
    (fun t ht => cart_c1 (law_state (hS t ht).1 (hS t ht).2))
  refine ⟨L, hL, min ρ1 ρ2, by positivity, fun t ht x hx => ?_⟩
  have hd : dist x (γ t) < min ρ1 ρ2 := by
    rw [dist_pi_lt_iff (by positivity)]
    exact hx
  refine ⟨_, cart_formula (ho t ht (mem_ball.2 (hd.trans_le (min_le_left _ _)))), fun ε hε hxe i => ?_⟩
  have h1 := (hlip t ht x (mem_ball.2 (hd.trans_le (min_le_right _ _)))).2 (γ t) (mem_ball_self hρ2)
  have h2 : ‖x - γ t‖ ≤ ε := (pi_norm_le_iff_of_nonneg hε).2 fun i => hxe i
  calc |cartFormula et C.mu x i - cartFormula et C.mu (γ t) i| = ‖(cartFormula et C.mu x - cartFormula et C.mu (γ t)) i‖ := rfl
    _ ≤ ‖cartFormula et C.mu x - cartFormula et C.mu (γ t)‖ := norm_le_pi_norm _ _
    _ ≤ L * ‖x - γ t‖ := h1
    _ ≤ L * ε := by gcongr

/-- **C112.** Under the hypotheses of C107, and in modified equinoctial elements with `f > 0` and off the equator, there is a Cartesian trajectory `sv` that satisfies
Newton's law with the full thrust along the direction of the control law (`rk4`: exactly; `rkf45`: with the clock
`1 + 2197/5610168` times too fast), and the Cartesian history of every run whose steps thrust and are no longer than
`h` is within `K h` of it at every recorded time. -/
theorem C112_follows [PyNan ℝ] (hd : C.dyn = dynOf et) (hE : C.elementsType = et)
    (hp : C.perturbations = none) (hl : C.elementsType = .keplerian → BoundsAre C.oeMin l ∧ BoundsAre C.oeMax u)
    (hM : LawMotion C et oeT woe tmax m0 mdot (gain C.integrator) T γ)
    (hS : ∀ t ∈ Icc 0 T, LawSmooth et (unitCall C oeT woe (γ t)) ∧ NewtonRegion et (γ t) ∧
      (C.elementsType = .keplerian → ∀ j : Fin 5, l j < γ t j.castSucc ∧ γ t j.castSucc < u j))
    (hT : 0 < tmax) (hmd : 0 ≤ mdot) (hm : 0 < m0 - mdot * T) :
    ∃ sv, FliesByNewton C et oeT woe tmax m0 mdot (gain C.integrator) T γ sv ∧
      ∃ δ > 0, ∃ K ≥ 0, ∀ h, 0 < h → h < δ →
      ∀ (Q Q' : QLaw ℝ) (P : Problem ℝ) (etaA etaR : EtaArg ℝ) (fuel : ℕ) (H : Hist ℝ) (cols : List (Fin 6 → ℝ)),
      Q.cfg = C → Q.prob = some P → P.oeT = List.ofFn oeT → P.woe = woe → P.tmax = tmax → P.mass0 = m0 →
      P.mdot = mdot → P.oe0 = γ 0 → Q.solve etaA etaR fuel = some (Q', none) → Q'.hist = some H →
      Q'.getCartesianHistory = .ok cols →
      ∀ (n : ℕ) (t : ℝ) (c : Fin 6 → ℝ), H.times[n]? = some t → t ≤ T → cols[n]? = some c → ThrustsUpTo H n h →
        ∀ i, |c i - sv t i| ≤ K * h := by
  have hS1 : ∀ t ∈ Icc 0 T, LawSmooth et (unitCall C oeT woe (γ t)) ∧ NewtonRegion et (γ t) :=
    fun t ht => ⟨(hS t ht).1, (hS t ht).2.1⟩
  obtain ⟨L, hL, ρ, hρ, htube⟩ := sv_tube hM hS1
  obtain ⟨δ, hδ, K, hK, hrun⟩ := C107_limit hd hp hl hM (fun t ht => ⟨(hS t ht).1, (hS t ht).2.2⟩) hT hmd hm
  refine ⟨_, law_flies hM (gain_pos _) hS1 hT hmd hm, min δ (ρ / (K + 1)), by positivity, L * K, by positivity, ?_⟩
  intro h hh hhδ Q Q' P etaA etaR fuel H cols hC hP h1 h2 h3 h4 h5 h6 hsol hH hcols n t c hn htT hc hthr i
  have hh1 : h < δ := hhδ.trans_le (min_le_left _ _)
  have hh2 : K * h < ρ := by
    have := hhδ.trans_le (min_le_right _ _)
    rw [lt_div_iff₀ (by positivity)] at this
    nlinarith
  have hcfg : Q'.cfg = C := (solve_prob' hsol hP hH).2.trans hC
  obtain ⟨hx, -⟩ := C70_columns hsol hH (conv := fun x => cartOf et x C.mu) (by intro x; rw [hcfg, hE]; cases et <;> simp [cartOf])
  obtain ⟨hlen, hx⟩ := hx cols hcols
  obtain ⟨H1, P1, P1', N, a1, a2, -, al, at0, -⟩ := C01_histories_aligned hsol
  rw [hH] at a1; injection a1 with a1; subst a1
  have hnN : n < N + 1 := by rw [← al.times]; exact (List.getElem?_eq_some_iff.1 hn).1
  obtain ⟨x, hxn⟩ : ∃ x, H.states[n]? = some x := ⟨_, List.getElem?_eq_getElem (by rw [al.states]; exact hnN)⟩
  have ht0 : 0 ≤ t := by
    have key : ∀ k ≤ n, ∀ s, H.times[k]? = some s → 0 ≤ s := by
      intro k
      induction k with
      | zero =>
        intro _ s hs
        rw [List.head?_eq_getElem?, hs] at at0
        injection at0 with at0
        rw [at0]; simp
      | succ k ih =>
        intro hk s hs
        obtain ⟨a, b, t1, t2, -, q1, q2, q3, -⟩ := hthr k (by omega)
        rw [hs] at q2; injection q2 with q2; subst q2
        exact (ih (by omega) t1 q1).trans q3.le
    exact key n le_rfl t hn
  have hb := hrun h hh hh1 Q Q' P etaA etaR fuel H hC hP h1 h2 h3 h4 h5 h6 hsol hH n t x hn htT hxn hthr
  obtain ⟨c', hc', hcv⟩ := hx n x hxn
  rw [hc] at hc'
  injection hc' with hc'
  subst hc'
  obtain ⟨c2, e1, e2⟩ := htube t ⟨ht0, htT⟩ x fun i => (hb i).trans_lt hh2
  rw [hcv] at e1
  injection e1 with e1
  subst e1
  rw [mul_assoc]
  exact e2 (K * h) (by positivity) hb i

/-- **C112.** Under the hypotheses of C108, and in modified equinoctial elements with `f > 0` and off the equator, short-step runs return without exception and their
whole Cartesian history, at the multiples of `h`, is within `K h` of the trajectory `sv`. -/
theorem C112_completes [PyNan ℝ] (hnan : ∀ x : ℝ, PyNan.isnan x = false) (hd : C.dyn = dynOf et)
    (hE : C.elementsType = et) (hp : C.perturbations = none) (hsun : C.useSundman = false)
    (hl : C.elementsType = .keplerian → BoundsAre C.oeMin l ∧ BoundsAre C.oeMax u)
    (hM : LawMotion C et oeT woe tmax m0 mdot (gain C.integrator) T γ)
    (hS : ∀ t ∈ Icc 0 T, LawSmooth et (unitCall C oeT woe (γ t)) ∧ NewtonRegion et (γ t) ∧
      (C.elementsType = .keplerian → ∀ j : Fin 5, l j < γ t j.castSucc ∧ γ t j.castSucc < u j))
    (hT : 0 < tmax) (hmd : 0 ≤ mdot) (hm : 0 < m0 - mdot * T) :
    ∃ sv, FliesByNewton C et oeT woe tmax m0 mdot (gain C.integrator) T γ sv ∧
      ∃ δ > 0, ∃ K ≥ 0, ∀ h, 0 < h → h < δ → ∀ (Q : QLaw ℝ) (P : Problem ℝ) (ea er : ℝ) (fuel : ℕ),
      ea ≤ 0 → er ≤ 0 → StartsAt C oeT woe tmax m0 mdot h T (γ 0) Q P → 0 < P.tfMax → P.tfMax + h ≤ T →
      P.tfMax / h + 2 ≤ fuel →
      ∃ Q' cols n, Q.solve (.flt ea) (.flt er) fuel = some (Q', none) ∧ Q'.getCartesianHistory = .ok cols ∧
        cols.length = n + 1 ∧ (n : ℝ) * h < P.tfMax + h ∧
        (∀ (k : ℕ) (c : Fin 6 → ℝ), cols[k]? = some c → ∀ i, |c i - sv (k * h) i| ≤ K * h) ∧
        (Q'.converge = true ∨ P.tfMax ≤ n * h) := by
  have hS1 : ∀ t ∈ Icc 0 T, LawSmooth et (unitCall C oeT woe (γ t)) ∧ NewtonRegion et (γ t) :=
    fun t ht => ⟨(hS t ht).1, (hS t ht).2.1⟩
  obtain ⟨L, hL, ρ, hρ, htube⟩ := sv_tube hM hS1
  obtain ⟨δ, hδ, K, hK, hrun⟩ := C108_completes hnan hd hp hsun hl hM (fun t ht => ⟨(hS t ht).1, (hS t ht).2.2⟩) hT hmd hm
  refine ⟨_, law_flies hM (gain_pos _) hS1 hT hmd hm, min δ (ρ / (K + 1)), by positivity, L * K, by positivity, ?_⟩
  intro h hh hhδ Q P ea er fuel hea her hQ htf htfT hfuel
  have hh1 : h < δ := hhδ.trans_le (min_le_left _ _)
  have hh2 : K * h < ρ := by
    have := hhδ.trans_le (min_le_right _ _)
    rw [lt_div_iff₀ (by positivity)] at this
    nlinarith
  obtain ⟨Q', H, n, g1, g2, g3, g4, g5, g6, g7, g8, g9⟩ := hrun h hh hh1 Q P ea er fuel hea her hQ htf htfT hfuel
  have hcfg : Q'.cfg = C := (solve_prob' g1 hQ.prob g2).2.trans hQ.cfg
  obtain ⟨hx, hdef⟩ := C70_columns g1 g2 (conv := fun x => cartOf et x C.mu) (by intro x; rw [hcfg, hE]; cases et <;> simp [cartOf])
  have hin : ∀ (k : ℕ) (x : Fin 6 → ℝ), H.states[k]? = some x → (k : ℝ) * h ∈ Icc 0 T := fun k x hk => by
    have : k < H.states.length := (List.getElem?_eq_some_iff.1 hk).1
    rw [g5] at this
    have : (k : ℝ) ≤ n := by exact_mod_cast Nat.lt_succ_iff.1 this
    exact ⟨by positivity, by nlinarith⟩
  obtain ⟨cols, hcols⟩ := hdef fun x hx => by
    obtain ⟨k, hk⟩ := List.getElem?_of_mem hx
    obtain ⟨c, hc, -⟩ := htube _ (hin k x hk) x fun i => (g8 k x hk i).trans_lt hh2
    exact ⟨c, hc⟩
  obtain ⟨hlen, hx⟩ := hx cols hcols
  have hlen' : cols.length = n + 1 := by rw [hlen, g3]; simp
  refine ⟨Q', cols, n, g1, hcols, hlen', g4, fun k c hk i => ?_, ?_⟩
  · have hk1 : k < H.states.length := by
      rw [g5, ← hlen']; exact (List.getElem?_eq_some_iff.1 hk).1
    have hxk := List.getElem?_eq_getElem hk1
    generalize H.states[k] = x at hxk
    obtain ⟨c', hc', hcv⟩ := hx k x hxk
    rw [hk] at hc'
    injection hc' with hc'
    subst hc'
    obtain ⟨c2, e1, e2⟩ := htube _ (hin k x hxk) x fun i => (g8 k x hxk i).trans_lt hh2
    rw [hcv] at e1
    injection e1 with e1
    subst e1
    rw [mul_assoc]
    exact e2 (K * h) (by positivity) (g8 k x hxk) i
  · rcases g9 with ⟨-, g⟩ | ⟨-, -, g⟩
    · exact Or.inl g
    · exact Or.inr g

end inertial

namespace Burn
open CoastSample

/-- C112: from the initial state of `Burn` there is a trajectory flying by Newton's law with full thrust, and the
Cartesian histories of short-step runs follow it -/
example : ∃ T > 0, ∃ γ sv, γ 0 = prob.oe0 ∧
    FliesByNewton (cfg false) .keplerian ![2, 0, 0, 0, 0] ![1, 0, 0, 0, 0] (1 / 100) 1 (1 / 10) 1 T γ sv ∧
    ∃ δ > 0, ∃ K, ∀ h, 0 < h → h < δ → ∀ fuel : ℕ, T / 2 / h + 2 ≤ fuel → ∃ Q' cols,
      (objR 1 h T (T / 2)).solve (.flt 0) (.flt 0) fuel = some (Q', none) ∧ Q'.getCartesianHistory = .ok cols ∧
      cols ≠ [] ∧ ∀ (k : ℕ) c, cols[k]? = some c → ∀ i, |c i - sv (k * h) i| ≤ K * h := by
  have hbox : prob.oe0 ∈ burnBox := by
    refine ⟨fun i => ?_, fun i => ?_⟩ <;> fin_cases i <;> simp [prob] <;> norm_num
  have hR := burn_region
  obtain ⟨T, hT, γ, h0, h1, h2, h3⟩ := C107_exists (C := cfg false) (et := .keplerian) (oeT := ![2, 0, 0, 0, 0])
    (woe := ![1, 0, 0, 0, 0]) (l := fun _ => 0) (u := fun _ => 9) (tmax := 1 / 100) (m0 := 1) (mdot := 1 / 10) (g := 1)
    (x := prob.oe0) ⟨hR.smooth _ hbox, fun h => by cases h⟩ ⟨1, by decide, burn_grad _ hbox⟩ (hR.inside _ hbox) (by norm_num)
    (by norm_num)
  obtain ⟨sv, hsv, δ, hδ, K, -, hL⟩ := C112_completes (C := cfgTol 1) (et := .keplerian) (l := fun _ => 0) (u := fun _ => 9) (fun _ => rfl)
    rfl rfl rfl rfl (fun _ => by constructor <;> intro j <;> fin_cases j <;> rfl) h1
    (fun t ht => ⟨(h3 t ht).1, fun h => by (cases h), fun _ => (h3 t ht).2⟩) (by norm_num) (by norm_num) h2
  refine ⟨T, hT, γ, sv, h0, ⟨hsv.image, hsv.newton⟩, min δ (T / 2), by positivity, K, fun h hh hhd fuel hf => ?_⟩
  have e2 := hhd.trans_le (min_le_right _ _)
  obtain ⟨Q', cols, n, k1, k2, k3, -, k4, -⟩ := hL h hh (hhd.trans_le (min_le_left _ _)) (objR 1 h T (T / 2))
    (probR h T (T / 2)) 0 0 fuel le_rfl le_rfl (by rw [h0]; exact starts_R _ _ _ _ h2) (by simp only [probR]; linarith)
    (by simp only [probR]; linarith) hf
  exact ⟨Q', cols, k1, k2, by intro h; simp [h] at k3, k4⟩

end Burn

namespace MeeBurn
open CoastSample

/-- the sample off the reference plane -/
noncomputable def tilted : Fin 6 → ℝ := ![1, 1 / 2, 0, 1 / 2, 0, 0]

theorem q_tilted (j : Fin 5) (y : ℝ) : meeQ ((unitCall cfg ![2, 0, 0, 0, 0] ![1, 0, 0, 0, 0] tilted).setOe j y) =
    meeQ (args.setOe j y) * (1 / 100) ^ 2 := by
  have hq : ∀ A : LyapArgs ℝ, A.woe = ![1, 0, 0, 0, 0] → A.wp = 0 → A.oeT = ![2, 0, 0, 0, 0] →
      meeQ A = meeSoe A * ((A.oe 0 - 2) / meeOedot A 0) ^ 2 := by
    intro A hw hwp hT
    simp [meeQ, hw, hwp, meeDoe, hT]
  rw [hq _ rfl rfl rfl, hq _ rfl rfl rfl]
  have e : ∀ i : Fin 6, i = 0 ∨ i = 1 ∨ i = 2 →
      ((unitCall cfg ![2, 0, 0, 0, 0] ![1, 0, 0, 0, 0] tilted).setOe j y).oe i = (args.setOe j y).oe i := by
    rintro i (rfl | rfl | rfl) <;> rfl
  have h1 : meeSoe ((unitCall cfg ![2, 0, 0, 0, 0] ![1, 0, 0, 0, 0] tilted).setOe j y) = meeSoe (args.setOe j y) := by
    simp only [meeSoe, e 0 (Or.inl rfl)]
    rfl
  have h2 : meeOedot ((unitCall cfg ![2, 0, 0, 0, 0] ![1, 0, 0, 0, 0] tilted).setOe j y) 0 =
      100 * meeOedot (args.setOe j y) 0 := by
    simp only [meeOedot, e 0 (Or.inl rfl), e 1 (Or.inr (Or.inl rfl)), e 2 (Or.inr (Or.inr rfl)), Matrix.cons_val_zero]
    have f1 : ((unitCall cfg ![2, 0, 0, 0, 0] ![1, 0, 0, 0, 0] tilted).setOe j y).f = 1 := rfl
    have f2 : (args.setOe j y).f = 1 / 100 := rfl
    have f3 : ((unitCall cfg ![2, 0, 0, 0, 0] ![1, 0, 0, 0, 0] tilted).setOe j y).mu = (args.setOe j y).mu := rfl
    rw [f1, f2, f3]
    ring
  rw [h1, h2, e 0 (Or.inl rfl)]
  ring

theorem partial_tilted (j : Fin 5) : partialQ meeQ (unitCall cfg ![2, 0, 0, 0, 0] ![1, 0, 0, 0, 0] tilted) j =
    partialQ meeQ args j * (1 / 100) ^ 2 := by
  have hrest : ∀ j : Fin 5, 3 ≤ j → partialQ meeQ (unitCall cfg ![2, 0, 0, 0, 0] ![1, 0, 0, 0, 0] tilted) j = 0 := by
    intro j hj
    unfold partialQ
    simp only [diff_real, q_tilted]
    have : (fun x => meeQ (args.setOe j x) * (1 / 100) ^ 2) = fun _ => meeQ (args.setOe j (args.oe j.castSucc)) * (1 / 100) ^ 2 := by
      funext x
      rw [← q_tilted, ← q_tilted]
      match j with
      | 0 => exact absurd hj (by decide)
      | 1 => exact absurd hj (by decide)
      | 2 => exact absurd hj (by decide)
      | 3 => simp [meeQ, meeDoe, meeSoe, meeOedot, unitCall, LyapArgs.setOe, cfg, Burn.cfg]
      | 4 => simp [meeQ, meeDoe, meeSoe, meeOedot, unitCall, LyapArgs.setOe, cfg, Burn.cfg]
    rw [this]
    exact deriv_const _ _
  by_cases hj : 3 ≤ j
  · rw [hrest j hj, dq_rest j hj, zero_mul]
  · have : (unitCall cfg ![2, 0, 0, 0, 0] ![1, 0, 0, 0, 0] tilted).oe j.castSucc = args.oe j.castSucc := by
      match j with
      | 0 => rfl
      | 1 => rfl
      | 2 => rfl
      | 3 => exact absurd (by decide) hj
      | 4 => exact absurd (by decide) hj
    unfold partialQ
    simp only [diff_real, q_tilted, this]
    exact deriv_mul_const_field _

theorem grad_tilted : ∑ j : Fin 5, candPsi .meeWithA (unitCall cfg ![2, 0, 0, 0, 0] ![1, 0, 0, 0, 0] tilted) 1 j *
      partialQ (candQ .meeWithA) (unitCall cfg ![2, 0, 0, 0, 0] ![1, 0, 0, 0, 0] tilted) j ≠ 0 := by
  obtain ⟨d0, n0, e0⟩ := dq0
  obtain ⟨d1, n1, e1⟩ := dq1
  obtain ⟨w, hw, -, hpsi⟩ := psi_eq
  have hP : ∀ A B : LyapArgs ℝ, A.mu = B.mu → A.oe 0 = B.oe 0 → A.oe 1 = B.oe 1 → A.oe 2 = B.oe 2 → A.oe 5 = B.oe 5 →
      meePsi A 1 0 = meePsi B 1 0 ∧ meePsi A 1 1 = meePsi B 1 1 := by
    intro A B h0 h1 h2 h3 h4
    constructor <;> simp only [meePsi, Matrix.cons_val, h0, h1, h2, h3, h4]
  obtain ⟨p0, p1⟩ := hP (unitCall cfg ![2, 0, 0, 0, 0] ![1, 0, 0, 0, 0] tilted) args rfl rfl rfl rfl rfl
  have q0 : meePsi args 1 0 = 3 / w := by rw [hpsi]; rfl
  have q1 : meePsi args 1 1 = 2 * w := by rw [hpsi]; rfl
  rw [q0] at p0
  rw [q1] at p1
  simp only [Fin.sum_univ_five, candPsi, candQ, partial_tilted, e0, e1, dq2, dq_rest 3 (by decide), dq_rest 4 (by decide),
    p0, p1, zero_mul, mul_zero, add_zero]
  have h1 : 3 / w * (d0 * (1 / 100) ^ 2) < 0 :=
    mul_neg_of_pos_of_neg (div_pos (by norm_num) (by linarith)) (by nlinarith)
  have h2 : 2 * w * (d1 * (1 / 100) ^ 2) < 0 := mul_neg_of_pos_of_neg (by linarith) (by nlinarith)
  linarith

/-- the sample with a given step and limits -/
noncomputable def probR (h T tf : ℝ) : Problem ℝ :=
  { prob with oe0 := tilted, tStep := h, tfMax := tf, mdot := 1 / 10, massMin := 0, dutyOn := T }

noncomputable def objR (h T tf : ℝ) : QLaw ℝ :=
  { cfg := cfg, prob := some (probR h T tf), ready := true, converge := false, exitcode := 0, hist := none }

theorem starts_R (h T tf : ℝ) (hT : 0 < (1 : ℝ) - 1 / 10 * T) :
    StartsAt cfg ![2, 0, 0, 0, 0] ![1, 0, 0, 0, 0] (1 / 100) 1 (1 / 10) h T tilted (objR h T tf) (probR h T tf) := by
  refine ⟨rfl, rfl, rfl, ⟨rfl, rfl⟩, by simp [probR, prob, Burn.prob], rfl, rfl, rfl, rfl, rfl, rfl, ⟨le_rfl, ?_, ?_, ?_⟩, ?_, ?_⟩
  · simp [probR, prob, Burn.prob]
  · simp only [probR, prob, Burn.prob]; norm_num
  · simp [probR, prob, Burn.prob]
  · simpa [probR] using hT
  · exact Or.inl rfl

/-- C112 in equinoctial elements: from `tilted` there is a trajectory flying by Newton's law with full thrust, and the
Cartesian histories of short-step runs follow it -/
example : ∃ T > 0, ∃ γ sv, γ 0 = tilted ∧
    FliesByNewton cfg .meeWithA ![2, 0, 0, 0, 0] ![1, 0, 0, 0, 0] (1 / 100) 1 (1 / 10) 1 T γ sv ∧
    ∃ δ > 0, ∃ K, ∀ h, 0 < h → h < δ → ∀ fuel : ℕ, T / 2 / h + 2 ≤ fuel → ∃ Q' cols,
      (objR h T (T / 2)).solve (.flt 0) (.flt 0) fuel = some (Q', none) ∧ Q'.getCartesianHistory = .ok cols ∧
      cols ≠ [] ∧ ∀ (k : ℕ) c, cols[k]? = some c → ∀ i, |c i - sv (k * h) i| ≤ K * h := by
  obtain ⟨T, hT, γ, h0, h1, h2, h3⟩ := C107_exists (C := cfg) (et := .meeWithA) (oeT := ![2, 0, 0, 0, 0])
    (woe := ![1, 0, 0, 0, 0]) (l := ![0, 0, -1, 0, -1]) (u := fun _ => 9) (tmax := 1 / 100) (m0 := 1) (mdot := 1 / 10) (g := 1)
    (x := tilted) (by
      refine ⟨⟨⟨?_, ?_, ?_, ?_, ?_, ?_, ?_, ?_, Or.inr ?_⟩, ?_⟩, fun _ => Or.inr ⟨2, ?_⟩⟩ <;>
        simp [unitCall, cfg, Burn.cfg, tilted] <;> norm_num) ⟨1, by decide, grad_tilted⟩
    (by intro j; fin_cases j <;> simp [tilted] <;> norm_num) (by norm_num) (by norm_num)
  obtain ⟨sv, hsv, δ, hδ, K, -, hL⟩ := C112_completes (C := cfg) (et := .meeWithA) (l := fun _ => 0) (u := fun _ => 9) (fun _ => rfl)
    rfl rfl rfl rfl (fun h => by cases h) h1
    (fun t ht => ⟨(h3 t ht).1, fun _ => ⟨((h3 t ht).2 1).1, Or.inl ((h3 t ht).2 3).1.ne'⟩, fun h => by cases h⟩)
    (by norm_num) (by norm_num) h2
  refine ⟨T, hT, γ, sv, h0, hsv, min δ (T / 2), by positivity, K, fun h hh hhd fuel hf => ?_⟩
  have e2 := hhd.trans_le (min_le_right _ _)
  obtain ⟨Q', cols, n, k1, k2, k3, -, k4, -⟩ := hL h hh (hhd.trans_le (min_le_left _ _)) (objR h T (T / 2))
    (probR h T (T / 2)) 0 0 fuel le_rfl le_rfl (by rw [h0]; exact starts_R _ _ _ h2) (by simp only [probR]; linarith)
    (by simp only [probR]; linarith) hf
  exact ⟨Q', cols, k1, k2, by intro h; simp [h] at k3, k4⟩

end MeeBurn

end PyQ
