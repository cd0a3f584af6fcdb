import Verif.Props.Recorded
import Verif.Props.Mass
import Verif.Examples.Burn
import Mathlib.Analysis.Calculus.Deriv.Slope

/-!
C95: a thrusting step of the package's own law that is short enough lowers `Q`.
-/

set_option linter.unusedSectionVars false
set_option maxRecDepth 100000

open Filter Topology

namespace PyQ

theorem candQ_anomaly (et : ElemType) (A : LyapArgs ℝ) (ta : ℝ) : candQ et (A.atAnomaly ta) = candQ et A := by
  cases et with
  | keplerian => exact (C40_anomaly A ta).1
  | meeWithA => exact (C40_anomaly A ta).2

theorem candQ_scaling (et : ElemType) (A : LyapArgs ℝ) (c : ℝ) :
    candQ et { A with f := c * A.f } = candQ et A / c ^ 2 := by
  cases et with
  | keplerian => exact (C40_scaling A c).1
  | meeWithA => exact (C40_scaling A c).2

/-- `Q` does not depend on the sixth element -/
theorem candQ_slow (et : ElemType) (A : LyapArgs ℝ) {x y : Fin 6 → ℝ}
    (h : ∀ j : Fin 5, x j.castSucc = y j.castSucc) :
    candQ et (A.withOe x) = candQ et (A.withOe y) := by
  rw [← candQ_anomaly et (A.withOe x) (y 5)]
  congr 1
  simp only [LyapArgs.atAnomaly, LyapArgs.withOe, LyapArgs.mk.injEq, true_and, and_true]
  funext i
  fin_cases i
  · exact h 0
  · exact h 1
  · exact h 2
  · exact h 3
  · exact h 4
  · rfl

theorem gain_pos (i : Integrator) : 0 < gain i := by
  cases i <;> norm_num [gain]

/-- a function with negative derivative takes smaller values just to the right -/
theorem eventually_lt_of_deriv_neg {g : ℝ → ℝ} {d : ℝ} (h : HasDerivAt g d 0) (hd : d < 0) :
    ∃ δ > 0, ∀ s, 0 < s → s < δ → g s < g 0 := by
  have h1 := (hasDerivAt_iff_tendsto_slope.1 h).eventually (gt_mem_nhds hd)
  rw [eventually_nhdsWithin_iff, Metric.eventually_nhds_iff] at h1
  obtain ⟨δ, h0, h1⟩ := h1
  refine ⟨δ, h0, fun s hs hsd => ?_⟩
  have := h1 (y := s) (by rw [Real.dist_eq, sub_zero, abs_of_pos hs]; exact hsd) (by simpa using hs.ne')
  rw [slope_def_field, sub_zero] at this
  rcases div_neg_iff.1 this with h2 | h2 <;> linarith [h2.1, h2.2]

/-- the slow elements after a step of length `s` with constant rates `v` -/
def advance (x : Fin 6 → ℝ) (v : Fin 5 → ℝ) (s : ℝ) : Fin 6 → ℝ :=
  ![x 0 + s * v 0, x 1 + s * v 1, x 2 + s * v 2, x 3 + s * v 3, x 4 + s * v 4, x 5]

theorem advance_slow (x : Fin 6 → ℝ) (v : Fin 5 → ℝ) (s : ℝ) (j : Fin 5) :
    advance x v s j.castSucc = x j.castSucc + s * v j := by
  fin_cases j <;> rfl

/-- moving the slow elements along the commanded acceleration lowers `Q` at first -/
theorem advance_lt {et : ElemType} {A : LyapArgs ℝ} {d : Fin 3 → ℝ}
    (hD : DifferentiableAt ℝ (fun x => candQ et (A.withOe x)) A.oe) (hr : candRate et A d < 0) :
    ∃ δ > 0, ∀ s, 0 < s → s < δ →
      candQ et (A.withOe (advance A.oe (fun j => ∑ c : Fin 3, candPsi et A c j * (A.f * d c)) s)) <
        candQ et A := by
  set v : Fin 5 → ℝ := fun j => ∑ c : Fin 3, candPsi et A c j * (A.f * d c) with hv
  have h0 : advance A.oe v 0 = A.oe := by
    funext i; fin_cases i <;> simp [advance]
  have hd : ∀ j, HasDerivAt (fun s => advance A.oe v s j) ((![v 0, v 1, v 2, v 3, v 4, 0] : Fin 6 → ℝ) j) 0 := by
    have key : ∀ x w : ℝ, HasDerivAt (fun s => x + s * w) w 0 := by
      intro x w
      simpa using ((hasDerivAt_id (0 : ℝ)).mul_const w).const_add x
    intro j
    fin_cases j
    · exact key _ _
    · exact key _ _
    · exact key _ _
    · exact key _ _
    · exact key _ _
    · exact hasDerivAt_const _ _
  have h1 := chain_rule (candQ et) (candQ_anomaly et) A hD (advance A.oe v) 0 h0 _ hd
  have e : ∑ j : Fin 5, partialQ (candQ et) A j * (![v 0, v 1, v 2, v 3, v 4, 0] : Fin 6 → ℝ) j.castSucc =
      candRate et A d := by
    simp only [candRate, thrustRate, Fin.sum_univ_five, Fin.sum_univ_three, hv]
    simp
  rw [e] at h1
  obtain ⟨δ, hδ, h2⟩ := eventually_lt_of_deriv_neg h1 hr
  refine ⟨δ, hδ, fun s hs hsd => ?_⟩
  have := h2 s hs hsd
  rwa [h0] at this

theorem safety_inside {l u : Fin 5 → ℝ} {L U : List ℝ} (hl : BoundsAre L l) (hu : BoundsAre U u)
    {z y : Fin 6 → ℝ} (hz : ∀ j : Fin 5, l j ≤ z j.castSucc ∧ z j.castSucc ≤ u j)
    (h : elementsSafety z L U = .ok y) (j : Fin 5) : y j.castSucc = z j.castSucc := by
  obtain ⟨lt, rfl⟩ := bounds_list hl
  obtain ⟨ut, rfl⟩ := bounds_list hu
  simp only [elementsSafety] at h
  injection h with h
  have hb := hz j
  have key : ∀ a x b : ℝ, a ≤ x → x ≤ b → pymin (pymax a x) b = x := by
    intro a x b h1 h2
    simp only [pymin, pymax, lt_real, decide_eq_true_eq]
    repeat' split_ifs
    all_goals linarith
  rw [← h]
  match j with
  | 0 => exact key _ _ _ hb.1 hb.2
  | 1 => exact key _ _ _ hb.1 hb.2
  | 2 => exact key _ _ _ hb.1 hb.2
  | 3 => exact key _ _ _ hb.1 hb.2
  | 4 => exact key _ _ _ hb.1 hb.2

theorem sign_pos {x : ℝ} (h : 0 < x) : PyOrd.sign x = (1 : ℝ) := by
  rw [sign_real, if_pos h]

theorem recArgs_sign {C : Config ℝ} {P : Problem ℝ} {oeT : Fin 5 → ℝ} {x : Fin 6 → ℝ} {m s s' : ℝ}
    (h : 0 < s) (h' : 0 < s') : recArgs C P oeT x m s = recArgs C P oeT x m s' := by
  simp only [recArgs, sign_pos h, sign_pos h']

/-- a bound on the step below which slow elements strictly inside their bounds stay inside -/
theorem stays_inside {l u : Fin 5 → ℝ} {x : Fin 6 → ℝ} (hb : ∀ j : Fin 5, l j < x j.castSucc ∧ x j.castSucc < u j)
    (v : Fin 5 → ℝ) : ∃ δ > 0, ∀ s, 0 < s → s < δ →
      ∀ j : Fin 5, l j ≤ advance x v s j.castSucc ∧ advance x v s j.castSucc ≤ u j := by
  have h : ∀ᶠ s in 𝓝 (0 : ℝ), ∀ j : Fin 5, l j < x j.castSucc + s * v j ∧ x j.castSucc + s * v j < u j := by
    rw [eventually_all]
    intro j
    have hc : Tendsto (fun s : ℝ => x j.castSucc + s * v j) (𝓝 0) (𝓝 (x j.castSucc)) := by
      have : Continuous fun s : ℝ => x j.castSucc + s * v j := by fun_prop
      simpa using this.tendsto 0
    exact (hc.eventually (lt_mem_nhds (hb j).1)).and (hc.eventually (gt_mem_nhds (hb j).2))
  obtain ⟨δ, h0, h1⟩ := Metric.eventually_nhds_iff.1 h
  refine ⟨δ, h0, fun s hs hsd j => ?_⟩
  have := h1 (y := s) (by rw [Real.dist_eq, sub_zero, abs_of_pos hs]; exact hsd) j
  rw [advance_slow]
  exact ⟨this.1.le, this.2.le⟩

/-- **C95.** For an object without perturbations and a state and mass at which `Q` is differentiable, with the
state strictly inside the bounds of the elements, there is a length below which every forward thrusting step
from that state lowers `Q`, in every run that gets there: `Q` at the new state is below the value recorded
for the step, and so is the value recorded for the next step. -/
theorem C95_short_step [PyNan ℝ] {C : Config ℝ} {et : ElemType} (hd : C.dyn = dynOf et)
    (hp : C.perturbations = none) {oeT : Fin 5 → ℝ} {tmax mdot m : ℝ} {woe : Fin 5 → ℝ} {x : Fin 6 → ℝ}
    {l u : Fin 5 → ℝ} (hl : C.elementsType = .keplerian → BoundsAre C.oeMin l ∧ BoundsAre C.oeMax u)
    (hb : ∀ j : Fin 5, l j < x j.castSucc ∧ x j.castSucc < u j)
    (hT : 0 < tmax) (hm0 : 0 < m) (hmd : 0 ≤ mdot) {A : LyapArgs ℝ}
    (hA : A = { mu := C.mu, f := tmax / m, oe := x, oeT := oeT, rpmin := C.rpmin, m := C.mPetro,
                n := C.nPetro, r := C.rPetro, b := C.bPetro, k := C.kPetro, wp := C.wp, woe := woe })
    (hD : DifferentiableAt ℝ (fun x => candQ et (A.withOe x)) x) (h0 : 0 ≤ candQ et A) :
    ∃ δ > 0, ∀ (Q Q' : QLaw ℝ) (P : Problem ℝ) (etaA etaR : EtaArg ℝ) (fuel : ℕ) (H : Hist ℝ),
      Q.cfg = C → Q.prob = some P → P.oeT = List.ofFn oeT → P.tmax = tmax → P.mdot = mdot → P.woe = woe →
      Q.solve etaA etaR fuel = some (Q', none) → Q'.hist = some H →
      ∀ (k : ℕ) (a b t t' q : ℝ) (y : Fin 6 → ℝ), H.controls[k]? = some (a, b, 1) →
        H.times[k]? = some t → H.times[k + 1]? = some t' → H.states[k]? = some x → H.masses[k]? = some m →
        H.states[k + 1]? = some y → H.qs[k]? = some q → t < t' → t' < t + δ →
        candQ et (A.withOe y) < q ∧
        ∀ (m' t'' q' : ℝ), H.masses[k + 1]? = some m' → 0 < m' → H.times[k + 2]? = some t'' → t' < t'' →
          H.qs[k + 1]? = some q' → q' < q := by
  by_cases hlaw : ∃ o, lyapunovControlAngles C.dyn.lyapFun A = .ok o
  swap
  · refine ⟨1, one_pos, ?_⟩
    rintro Q Q' P etaA etaR fuel H rfl hP hoe rfl rfl rfl h hH k a b t t' q y hc ht ht' hx hm hy hq h1 h2
    exfalso
    obtain ⟨st, oeT', o, ptrb, u, g1, g2, g3, -⟩ := C80_law_applied h hP hH hc ht hx hm
    rw [ht'] at g1; injection g1 with g1
    have : oeT' = oeT := List.ofFn_injective (g2.symm.trans hoe)
    subst this
    refine hlaw ⟨o, ?_⟩
    rw [← g3]
    congr 1
    rw [hA]
    simp only [recArgs, sign_pos (show 0 < st by linarith), one_mul]
  obtain ⟨o, ho⟩ := hlaw
  have hf : 0 < A.f := by rw [hA]; exact div_pos hT hm0
  have hr : candRate et A (unitDir o.alpha o.beta) < 0 := by
    rw [hd] at ho
    have hu := dyn_lyap et A
    obtain ⟨o', g1, -, g3, -, g5⟩ := C38_steepest_descent (dynOf (α := ℝ) et).lyapFun A
      (by rw [hu.1, hu.2.2.1, hu.2.2.2]) hf.le (control_defined ho)
    rw [ho] at g1; injection g1 with g1; subst g1
    rw [hu.2.2.1, hu.2.2.2] at g3
    rw [candRate, g3]
    linarith [g5 hf]
  have hx0 : A.oe = x := by rw [hA]
  rw [← hx0] at hD
  obtain ⟨δ1, hδ1, k1⟩ := advance_lt hD hr
  obtain ⟨δ2, hδ2, k2⟩ := stays_inside hb (fun j => ∑ c : Fin 3, candPsi et A c j * (A.f * unitDir o.alpha o.beta c))
  have hg := gain_pos C.integrator
  refine ⟨min δ1 δ2 / gain C.integrator, div_pos (lt_min hδ1 hδ2) hg, ?_⟩
  rintro Q Q' P etaA etaR fuel H rfl hP hoe rfl rfl rfl h hH k a b t t' q y hc ht ht' hx hm hy hq h1 h2
  have hAr : recArgs Q.cfg P oeT x m (t' - t) = A := by
    rw [hA]
    simp only [recArgs, sign_pos (show 0 < t' - t by linarith), one_mul]
  have hq0 : q = candQ et A := by
    obtain ⟨st, oeT', o', -, -, g1, g2, g3, g4, -⟩ := C80_law_applied h hP hH hc ht hx hm
    rw [ht'] at g1; injection g1 with g1
    have : oeT' = oeT := List.ofFn_injective (g2.symm.trans hoe)
    subst this
    rw [hq] at g4; injection g4 with g4
    rw [show st = t' - t by linarith, hAr, hd] at g3
    rw [g4, (angles_psi g3).2, (dyn_lyap et A).2.1]
  have hab : a = o.alpha ∧ b = o.beta := by
    obtain ⟨st, oeT', o', -, -, g1, g2, g3, -, -, g4, -⟩ := C80_law_applied h hP hH hc ht hx hm
    rw [ht'] at g1; injection g1 with g1
    have : oeT' = oeT := List.ofFn_injective (g2.symm.trans hoe)
    subst this
    rw [show st = t' - t by linarith, hAr, ho] at g3
    injection g3 with g3
    rw [g3]
    exact g4 rfl
  obtain ⟨oeT', ptrb, z, g1, g2, g3, g4⟩ := C81_slow_step h hP hH hd hc ht ht' hx hm hy
  have : oeT' = oeT := List.ofFn_injective (g1.symm.trans hoe)
  subst this
  have hpt : ptrb = 0 := by
    simp only [PerturbationIs, hp] at g2
    rw [g2]; funext i; fin_cases i <;> simp
  set s := gain Q.cfg.integrator * (t' - t) with hs
  have hs0 : 0 < s := mul_pos hg (by linarith)
  have hs1 : s < min δ1 δ2 := by
    have : t' - t < min δ1 δ2 / gain Q.cfg.integrator := by linarith
    rw [lt_div_iff₀ hg] at this
    rw [hs]; linarith
  have hz : ∀ j : Fin 5, z j.castSucc =
      advance x (fun j => ∑ c : Fin 3, candPsi et A c j * (A.f * unitDir o.alpha o.beta c)) s j.castSucc := by
    intro j
    rw [g3 j, advance_slow, hAr, hab.1, hab.2, hpt, hs]
    simp only [if_pos, Pi.zero_apply, add_zero]
    ring
  have hyz : ∀ j : Fin 5, y j.castSucc = z j.castSucc := by
    rcases g4 with rfl | ⟨hK, g4⟩
    · exact fun _ => rfl
    · obtain ⟨b1, b2⟩ := hl hK
      refine safety_inside b1 b2 (fun j => ?_) g4
      rw [hz j]
      exact k2 s hs0 (hs1.trans_le (min_le_right _ _)) j
  have hlt : candQ et (A.withOe y) < q := by
    rw [hq0, candQ_slow et A (fun j => (hyz j).trans (hz j))]
    have := k1 s hs0 (hs1.trans_le (min_le_left _ _))
    rwa [hx0] at this
  refine ⟨hlt, ?_⟩
  intro m' t'' q' hm' hm'0 ht'' htt hq'
  have hcc : ∃ c, H.controls[k + 1]? = some c := by
    obtain ⟨H1, P1, P1', n, g5, -, -, g6, -⟩ := C01_histories_aligned h
    rw [hH] at g5; injection g5 with g5; subst g5
    have : k + 1 < H.qs.length := (List.getElem?_eq_some_iff.1 hq').1
    exact ⟨_, List.getElem?_eq_getElem (by rw [g6.controls]; rw [g6.qs] at this; exact this)⟩
  obtain ⟨⟨a', b', θ'⟩, hc'⟩ := hcc
  have hq1 : q' = candQ et (recArgs Q.cfg P oeT' y m' (t'' - t')) := by
    obtain ⟨st, oeT2, o', -, -, g5, g6, g7, g8, -⟩ := C80_law_applied h hP hH hc' ht' hy hm'
    rw [ht''] at g5; injection g5 with g5
    have : oeT2 = oeT' := List.ofFn_injective (g6.symm.trans hoe)
    subst this
    rw [hq'] at g8; injection g8 with g8
    rw [show st = t'' - t' by linarith, hd] at g7
    rw [g8, (angles_psi g7).2, (dyn_lyap et _).2.1]
  have hmm : m' ≤ m := by
    obtain ⟨t1, st, m1, g5, g6, g7, g8⟩ := C13_step_mass h hP hH hc
    rw [ht] at g5; injection g5 with g5; subst g5
    rw [hm] at g7; injection g7 with g7; subst g7
    rw [ht'] at g6; injection g6 with g6
    rcases g8 with ⟨-, g8⟩ | ⟨g8, -⟩
    · rw [hm'] at g8; injection g8 with g8
      have : 0 ≤ P.mdot * st := mul_nonneg hmd (by linarith)
      linarith
    · exact absurd g8 one_ne_zero
  have hr2 : recArgs Q.cfg P oeT' y m' (t'' - t') = { A.withOe y with f := (m / m') * (A.withOe y).f } := by
    rw [hA]
    simp only [recArgs, sign_pos (show 0 < t'' - t' by linarith), LyapArgs.withOe, LyapArgs.mk.injEq,
      true_and, and_true, one_mul]
    field_simp
  rw [hq1, hr2, candQ_scaling]
  have hc1 : 1 ≤ m / m' := (one_le_div hm'0).2 hmm
  have hc2 : 1 ≤ (m / m') ^ 2 := one_le_pow₀ hc1
  rw [← hq0] at h0
  rw [div_lt_iff₀ (by positivity)]
  nlinarith

open CoastSample in
/-- C95: the object and the initial state of the thrusting run of `Burn` meet the hypotheses -/
example : ∃ A : LyapArgs ℝ, KepSmooth A ∧ KepAdmissible A ∧ A = Burn.args ∧
    (∃ o, lyapunovControlAngles (Burn.cfg false).dyn.lyapFun A = .ok o) ∧
    ∃ δ > 0, ∀ (Q Q' : QLaw ℝ) (P : Problem ℝ) (fuel : ℕ) (H : Hist ℝ), Q.cfg = Burn.cfg false → Q.prob = some P →
      (∃ h, P = { Burn.prob with tStep := h }) → Q.solve (.flt 0) (.flt 0) fuel = some (Q', none) →
      Q'.hist = some H → ∀ (a b t' q : ℝ) (y : Fin 6 → ℝ), H.controls[0]? = some (a, b, 1) →
        H.times[0]? = some 0 → H.times[1]? = some t' → H.states[0]? = some Burn.prob.oe0 →
        H.masses[0]? = some 1 → H.states[1]? = some y → H.qs[0]? = some q → 0 < t' → t' < δ →
        kepQ (A.withOe y) < q := by
  have hs : KepSmooth Burn.args := by
    have := Real.pi_gt_three
    refine ⟨?_, ?_, ?_, ?_, ?_, ?_, ?_, ?_, ?_, ?_, ?_, Or.inl (Or.inr ⟨2, ?_⟩), Or.inl ?_, Or.inl ?_, Or.inl ?_⟩
      <;> simp [Burn.args, lyapArgs, Burn.cfg, Burn.prob] <;> norm_num
    linarith
  have ha : KepAdmissible Burn.args :=
    { toKepEllipse := ⟨hs.mu, by simp [Burn.args, lyapArgs], hs.a, hs.e0.le, hs.e1, hs.i0, hs.i1⟩
      e_pos := hs.e0
      aT := hs.aT
      m := hs.m
      n := by simp [Burn.args, lyapArgs, Burn.cfg]
      r := by simp [Burn.args, lyapArgs, Burn.cfg]
      b := hs.b
      rpmin := hs.rpmin
      wp := by simp [Burn.args, lyapArgs, Burn.cfg]
      woe := by intro j; fin_cases j <;> simp [Burn.args, lyapArgs, Burn.prob]
      scale := Or.inl (Or.inr ⟨2, by simp [Burn.args, lyapArgs, Burn.cfg]; norm_num⟩) }
  refine ⟨Burn.args, hs, ha, rfl, ?_, ?_⟩
  · obtain ⟨q, d, h⟩ := Burn.law
    exact ⟨_, h⟩
  obtain ⟨δ, h0, h⟩ := C95_short_step (C := Burn.cfg false) (et := .keplerian) rfl rfl (oeT := ![2, 0, 0, 0, 0])
    (tmax := 1 / 100) (mdot := 1 / 100) (m := 1) (woe := ![1, 0, 0, 0, 0]) (x := Burn.prob.oe0)
    (l := fun _ => 0) (u := fun _ => 9) (A := Burn.args)
    (by intro _; constructor <;> intro j <;> fin_cases j <;> rfl)
    (by intro j; fin_cases j <;> simp [Burn.prob] <;> norm_num) (by norm_num) one_pos (by norm_num)
    (by simp [Burn.args, lyapArgs, Burn.cfg, Burn.prob]) (C41_kep_differentiable _ hs) (C40_keplerian _ ha).1
  refine ⟨δ, h0, ?_⟩
  rintro Q Q' P fuel H hC hP ⟨s, rfl⟩ hsol hH a b t' q y h1 h2 h3 h4 h5 h6 h7 h8 h9
  exact (h Q Q' _ (.flt 0) (.flt 0) fuel H hC hP (by simp [Burn.prob]) rfl rfl rfl hsol hH 0 a b 0 t' q y h1 h2 h3 h4 h5 h6
    h7 h8 (by linarith)).1

end PyQ
