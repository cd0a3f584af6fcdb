import Verif.Props.Effectivity
import Verif.Props.Wound
import Verif.Props.Recorded
import Verif.Props.PlotGeometry
import Verif.Examples.Burn

/-! # Effectivities with the control laws of the package (C23) -/

set_option linter.unusedSectionVars false
set_option maxRecDepth 100000

namespace PyQ

/-- `r` is the fastest decrease of `Q` any direction of thrust gives -/
def BestRate (et : ElemType) (A : LyapArgs ℝ) (r : ℝ) : Prop :=
  IsGreatest ((fun w => -candRate et A w) '' {w | norm3 w = 1}) r

theorem dqdt_norm (et : ElemType) (A : LyapArgs ℝ) : (dynOf (α := ℝ) et).dqdtFun A =
    A.f * norm3 (thrustGrad (partialQ (candQ et) A) (candPsi et A)) := by
  have e : ∀ (f : ℝ) (psi : Fin 3 → Fin 5 → ℝ) (dq : Fin 5 → ℝ),
      evalDqdt f psi dq = f * norm3 (thrustGrad dq psi) := by
    intro f psi dq
    rw [← rawControl_eq]
    have h1 : evalDqdt f psi dq = f * (dot3 (rawControl psi dq) (rawControl psi dq) /
        norm3 (rawControl psi dq)) := by
      simp only [evalDqdt, vdivs, dot3, rawControl, norm3, sqrt_real]; ring
    rw [h1, ← norm3_sq]
    by_cases h : norm3 (rawControl psi dq) = 0
    · simp [h]
    · field_simp
  cases et <;> exact e _ _ _

theorem best_dqdt (et : ElemType) (A : LyapArgs ℝ) (hf : 0 ≤ A.f)
    (hg : thrustGrad (partialQ (candQ et) A) (candPsi et A) ≠ 0) :
    BestRate et A ((dynOf (α := ℝ) et).dqdtFun A) := by
  rw [dqdt_norm]
  generalize hG : thrustGrad (partialQ (candQ et) A) (candPsi et A) = g at hg
  have hn := norm3_pos hg
  have hc : ∀ w, candRate et A w = A.f * dot3 g w := fun w => by
    rw [← hG]; exact thrustRate_eq _ _ _ _
  constructor
  · refine ⟨vsmul (-1 / norm3 g) g, ?_, ?_⟩
    · have h1 : norm3 (vsmul (-1 / norm3 g) g) ^ 2 = 1 := by
        rw [norm3_sq, dot3_smul_left, dot3_smul_right, ← norm3_sq]
        field_simp
      have h2 := norm3_nonneg (vsmul (-1 / norm3 g) g)
      show norm3 (vsmul (-1 / norm3 g) g) = 1
      nlinarith
    · show -candRate et A _ = _
      rw [hc, dot3_smul_right, ← norm3_sq]
      field_simp
  · rintro _ ⟨w, hw, rfl⟩
    have hw' : norm3 w = 1 := hw
    show -candRate et A w ≤ _
    rw [hc]
    have h1 : -dot3 g w ≤ norm3 g := by
      have h0 : 0 ≤ dot3 (vadd (vsmul (1 / norm3 g) g) w) (vadd (vsmul (1 / norm3 g) g) w) := by
        rw [← norm3_sq]; positivity
      have e : dot3 (vadd (vsmul (1 / norm3 g) g) w) (vadd (vsmul (1 / norm3 g) g) w) =
          (1 / norm3 g) ^ 2 * dot3 g g + 2 * (1 / norm3 g) * dot3 g w + dot3 w w := by
        simp only [dot3, vadd, vsmul]; ring
      rw [e, ← norm3_sq, ← norm3_sq, hw'] at h0
      have e2 : (1 / norm3 g) ^ 2 * norm3 g ^ 2 = 1 := by field_simp
      rw [e2] at h0
      have e3 : 0 ≤ norm3 g * (1 + 2 * (1 / norm3 g) * dot3 g w + 1 ^ 2) := mul_nonneg hn.le h0
      have e4 : norm3 g * (1 + 2 * (1 / norm3 g) * dot3 g w + 1 ^ 2) = 2 * norm3 g + 2 * dot3 g w := by
        field_simp; ring
      linarith
    nlinarith

/-- one turn later the law gives the same rate -/
theorem dqdt_turn (et : ElemType) (A : LyapArgs ℝ) (n : ℤ) :
    (dynOf (α := ℝ) et).dqdtFun (A.shift (turnsOf et 0 0 n)) = (dynOf (α := ℝ) et).dqdtFun A := by
  have hp : partialQ (candQ et) (A.shift (turnsOf et 0 0 n)) = partialQ (candQ et) A := by
    funext j
    have hQ : ∀ B, candQ et (B.shift (turnsOf et 0 0 n)) = (shiftChg (turnsOf et 0 0 n)).q * candQ et B := by
      intro B
      rw [show (shiftChg (turnsOf et 0 0 n)).q = 1 from rfl, one_mul]
      cases et
      · exact kepQ_wound B
      · exact meeQ_wound B
    rw [partialQ_change (restates_shift (turnsOf et 0 0 n)) hQ]
    simp [shiftChg]
  have hs : candPsi et (A.shift (turnsOf et 0 0 n)) = candPsi et A := by
    cases et
    · exact kepPsi_wound A
    · exact meePsi_wound A
  rw [dqdt_norm, dqdt_norm, hp, hs]; rfl

/-- the anomalies at which a rate is sampled -/
def sampledSet (ν : ℝ) (n : ℕ) : Set ℝ := {ν' | ∃ j : ℕ, 1 ≤ j ∧ j ≤ n ∧ ν' = ν + 2 * Real.pi * j / n}

theorem mem_samples (ν : ℝ) (n : ℕ) (y : ℝ) : y ∈ sampledAnomalies ν n ↔ y ∈ sampledSet ν n := by
  cases n with
  | zero =>
    constructor
    · intro h; cases h
    · rintro ⟨j, h1, h2, -⟩; omega
  | succ m =>
    have hne : ((m : ℝ) + 1) ≠ 0 := by positivity
    have e : sampledAnomalies ν (m + 1) =
        (List.range (m + 1)).map fun j : ℕ => ν + 2 * Real.pi * ((j : ℝ) + 1) / ((m + 1 : ℕ) : ℝ) := by
      unfold sampledAnomalies
      simp only [linspace]
      rw [List.drop_append_of_le_length (by simp), ← List.map_drop, List.range_succ_eq_map, List.drop_succ_cons,
        List.drop_zero, List.map_map, ← List.range_succ_eq_map, List.range_succ, List.map_append]
      congr 1
      · apply List.map_congr_left
        intro j _
        simp
        field_simp
        ring
      · simp
        field_simp
    rw [e, List.mem_map]
    constructor
    · rintro ⟨j, hj, rfl⟩
      exact ⟨j + 1, by omega, by have := List.mem_range.mp hj; omega, by push_cast; ring⟩
    · rintro ⟨j, h1, h2, rfl⟩
      refine ⟨j - 1, List.mem_range.mpr (by omega), ?_⟩
      obtain ⟨i, rfl⟩ : ∃ i, j = i + 1 := ⟨j - 1, by omega⟩
      simp

/-- **C23 for the control laws of the package.** Take a forward step of a run at which a threshold is
positive. Wherever the orbit is sampled let thrust have some influence on `Q` (elsewhere the rate is 0/0).
The sampled rates are the fastest decreases of `Q` any direction of thrust gives there, the recorded rate is
that of the current anomaly; with `mx` and `mn` the greatest and the least of them, the recorded absolute
effectivity is `d/mx`, positive and at most 1, and 1 exactly when the current rate is the best; and if
`mn < mx` the recorded relative effectivity is `(d-mn)/(mx-mn)`, between 0 and 1, and 1 (0) exactly when the
current rate is the best (worst). -/
theorem C23_package [PyNan ℝ] (hnan : ¬ 0 < (PyNan.nan : ℝ)) {Q Q' : QLaw ℝ} {etaA etaR : EtaArg ℝ} {fuel : ℕ}
    {P : Problem ℝ} {H : Hist ℝ} (h : Q.solve etaA etaR fuel = some (Q', none)) (hP : Q.prob = some P)
    (hH : Q'.hist = some H) {et : ElemType} (hd : Q.cfg.dyn = dynOf et) (hgrid : 0 < Q.cfg.anomalyGridSize)
    {k : ℕ} {vA vR eA eR t t' m d : ℝ} {x : Fin 6 → ℝ} {oeT : Fin 5 → ℝ} (hoeT : P.oeT = List.ofFn oeT)
    (hv : H.etas[k]? = some (vA, vR)) (he : H.etasBounds[k]? = some (eA, eR)) (hpos : 0 < eA ∨ 0 < eR)
    (ht : H.times[k]? = some t) (ht' : H.times[k + 1]? = some t') (hx : H.states[k]? = some x)
    (hm : H.masses[k]? = some m) (hqd : H.dqdts[k]? = some d) (hlt : t < t') (hT : 0 < P.tmax) (hm0 : 0 < m)
    {A : ℝ → LyapArgs ℝ}
    (hA : ∀ ν, A ν = recArgs Q.cfg P oeT ![x 0, x 1, x 2, x 3, x 4, ν] m (t' - t))
    (hg : ∀ ν ∈ sampledSet (x 5) Q.cfg.anomalyGridSize,
      thrustGrad (partialQ (candQ et) (A ν)) (candPsi et (A ν)) ≠ 0) :
    ∃ (rate : ℝ → ℝ) (mx mn : ℝ),
      (∀ ν ∈ sampledSet (x 5) Q.cfg.anomalyGridSize, BestRate et (A ν) (rate ν)) ∧
      BestRate et (A (x 5)) d ∧
      IsGreatest (rate '' sampledSet (x 5) Q.cfg.anomalyGridSize) mx ∧
      IsLeast (rate '' sampledSet (x 5) Q.cfg.anomalyGridSize) mn ∧
      vA = d / mx ∧ 0 < vA ∧ vA ≤ 1 ∧ (vA = 1 ↔ d = mx) ∧
      (mn < mx → vR = (d - mn) / (mx - mn) ∧ 0 ≤ vR ∧ vR ≤ 1 ∧ (vR = 1 ↔ d = mx) ∧ (vR = 0 ↔ d = mn)) := by
  obtain ⟨n, tr, D, r, hsr, _, v⟩ := solve_view h hP hH
  have hkn : k < n := by
    have h1 := (List.getElem?_eq_some_iff.mp hv).1
    rw [v.etas] at h1
    simpa using h1
  have hrec := v.trace.step k hkn
  rw [v.etas_get hkn] at hv
  rw [v.etasBounds_get hkn] at he
  rw [v.times_get hkn.le] at ht
  rw [v.states_get hkn] at hx
  rw [v.masses_get hkn.le] at hm
  rw [v.dqdts_get hkn] at hqd
  injection hv with hv; injection hv with hv1 hv2
  injection he with he; injection he with he1 he2
  injection ht with ht; injection hx with hx; injection hm with hm; injection hqd with hqd
  have hst : (D k).d.step = t' - t := by
    rw [v.times_get hkn, step_t v.trace hkn, ht] at ht'
    injection ht' with ht'
    linarith
  obtain ⟨o, hoeT', ho, _, _, hqo, hkind⟩ := control_ctl hrec.ctl
  have hvec : (D k).c.oeT = oeT := by
    have h1 := asVec5_ok hoeT'
    have h2 : P.oeT = List.ofFn (D k).c.oeT := h1
    rw [hoeT] at h2
    exact (List.ofFn_injective h2).symm
  have hacc : accelOf (envOf Q P etaA etaR) (D k).s1 (D k).d = PyOrd.sign (t' - t) * P.tmax / m := by
    unfold accelOf
    rw [clamp_mass hrec.clamp, hm, hst]; rfl
  have hxe : x = ![x 0, x 1, x 2, x 3, x 4, x 5] := by
    funext i; fin_cases i <;> rfl
  have hxx : A (x 5) = recArgs Q.cfg P oeT x m (t' - t) := by rw [hA, ← hxe]
  have ho' : lyapunovControlAngles (dynOf et).lyapFun (A (x 5)) = .ok o := by
    rw [hxx, ← hd, ← ho]; unfold lawAt; rw [hacc, hx, hvec]; rfl
  have hf : ∀ ν, 0 < (A ν).f := by
    intro ν
    have : 0 < t' - t := by linarith
    rw [hA]
    simp only [recArgs, sign_real, if_pos this]
    positivity
  have hturn : (dynOf (α := ℝ) et).dqdtFun (A (x 5 + 2 * Real.pi)) = (dynOf (α := ℝ) et).dqdtFun (A (x 5)) := by
    rw [← dqdt_turn et (A (x 5)) 1]
    congr 1
    rw [hA, hA]
    unfold recArgs LyapArgs.shift
    simp only
    congr 1
    funext i
    cases et <;> fin_cases i <;> simp [vadd, turnsOf]
  have hod : o.dqdt = (dynOf (α := ℝ) et).dqdtFun (A (x 5)) := by
    have h1 := control_defined ho'
    cases et with
    | keplerian =>
      obtain ⟨o', e1, e2⟩ := (C39_rates_agree (A (x 5))).1 h1
      rw [show (dynOf (α := ℝ) .keplerian).lyapFun = kepLyap from rfl, e1] at ho'
      injection ho' with ho'
      rw [← ho']; exact e2
    | meeWithA =>
      obtain ⟨o', e1, e2⟩ := (C39_rates_agree (A (x 5))).2 h1
      rw [show (dynOf (α := ℝ) .meeWithA).lyapFun = meeLyap from rfl, e1] at ho'
      injection ho' with ho'
      rw [← ho']; exact e2
  have hdd : d = (dynOf (α := ℝ) et).dqdtFun (A (x 5)) := by rw [← hod, ← hqo, hqd]
  have hmemT : x 5 + 2 * Real.pi ∈ sampledSet (x 5) Q.cfg.anomalyGridSize := by
    refine ⟨_, hgrid, le_rfl, ?_⟩
    have : (Q.cfg.anomalyGridSize : ℝ) ≠ 0 := by positivity
    field_simp
  cases hkind with
  | off _ _ _ _ _ _ _ _ hea her =>
    rw [he1] at hea; rw [he2] at her
    rcases hpos with h1 | h1
    · exact absurd (hea ▸ h1) hnan
    · exact absurd (her ▸ h1) hnan
  | nan _ _ _ _ _ _ _ _ _ _ hea her =>
    rw [he1] at hea; rw [he2] at her
    rcases hpos with h1 | h1
    · exact absurd (hea ▸ h1) hnan
    · exact absurd (her ▸ h1) hnan
  | free _ _ _ _ hp =>
    rw [he1, he2, Bool.or_eq_false_iff] at hp
    rcases hpos with h1 | h1
    · have := hp.2; simp at this; linarith
    · have := hp.1; simp at this; linarith
  | gated mx mn _ _ _ _ _ hev hva hvr =>
    rw [hacc, hx, hvec] at hev
    change evaluateOsculatingQdot Q.cfg P oeT x _ = _ at hev
    unfold evaluateOsculatingQdot at hev
    change (do
      let mx ← pymaxList ((sampledAnomalies (x 5) Q.cfg.anomalyGridSize).map _)
      let mn ← pyminList ((sampledAnomalies (x 5) Q.cfg.anomalyGridSize).map _)
      pure (mx, mn)) = _ at hev
    have hlist : (sampledAnomalies (x 5) Q.cfg.anomalyGridSize).map (fun ν =>
        Q.cfg.dyn.dqdtFun (lyapArgs Q.cfg P oeT (PyOrd.sign (t' - t) * P.tmax / m)
          ![x 0, x 1, x 2, x 3, x 4, ν])) =
        (sampledAnomalies (x 5) Q.cfg.anomalyGridSize).map fun ν => (dynOf (α := ℝ) et).dqdtFun (A ν) := by
      apply List.map_congr_left
      intro ν hν
      rw [hd, hA]; rfl
    rw [hlist] at hev
    have hne : (sampledAnomalies (x 5) Q.cfg.anomalyGridSize).map
        (fun ν => (dynOf (α := ℝ) et).dqdtFun (A ν)) ≠ [] := by
      have := (mem_samples (x 5) _ _).mpr hmemT
      intro h0
      rw [List.map_eq_nil_iff] at h0
      rw [h0] at this
      cases this
    obtain ⟨Mx, Mn, e1, e2, m1, m2, hall⟩ := real_max_min hne
    rw [e1, e2] at hev
    injection hev with hev
    injection hev with hmx hmn
    subst hmx hmn
    obtain ⟨ν1, g1, g1'⟩ := List.mem_map.mp m1
    obtain ⟨ν2, g2, g2'⟩ := List.mem_map.mp m2
    rw [mem_samples] at g1 g2
    have hall' : ∀ ν ∈ sampledSet (x 5) Q.cfg.anomalyGridSize,
        Mn ≤ (dynOf (α := ℝ) et).dqdtFun (A ν) ∧ (dynOf (α := ℝ) et).dqdtFun (A ν) ≤ Mx := fun ν hν =>
      hall _ (List.mem_map.mpr ⟨ν, (mem_samples _ _ _).mpr hν, rfl⟩)
    have hb : ∀ ν ∈ sampledSet (x 5) Q.cfg.anomalyGridSize,
        BestRate et (A ν) ((dynOf (α := ℝ) et).dqdtFun (A ν)) := fun ν hν => best_dqdt et _ (hf ν).le (hg ν hν)
    have hpos' : ∀ ν ∈ sampledSet (x 5) Q.cfg.anomalyGridSize, 0 < (dynOf (α := ℝ) et).dqdtFun (A ν) := by
      intro ν hν
      rw [dqdt_norm]
      exact mul_pos (hf ν) (norm3_pos (hg ν hν))
    have hdT : d = (dynOf (α := ℝ) et).dqdtFun (A (x 5 + 2 * Real.pi)) := by rw [hdd, hturn]
    have hd0 : 0 < d := hdT ▸ hpos' _ hmemT
    have hdm : Mn ≤ d ∧ d ≤ Mx := hdT ▸ hall' _ hmemT
    have hMx : 0 < Mx := lt_of_lt_of_le hd0 hdm.2
    have hvA : vA = d / Mx := by
      rw [← hv1, hva, ← hqo, hqd, abs_real, abs_of_nonneg (by positivity)]
    refine ⟨fun ν => (dynOf (α := ℝ) et).dqdtFun (A ν), Mx, Mn, hb, ?_, ⟨⟨ν1, g1, g1'⟩, ?_⟩, ⟨⟨ν2, g2, g2'⟩, ?_⟩,
      hvA, ?_, ?_, ?_, ?_⟩
    · rw [hdd]
      apply best_dqdt et _ (hf _).le
      intro h0
      have : d = 0 := by
        rw [hdd, dqdt_norm, h0, norm3_eq_zero.2 rfl, mul_zero]
      linarith
    · rintro _ ⟨ν, hν, rfl⟩; exact (hall' ν hν).2
    · rintro _ ⟨ν, hν, rfl⟩; exact (hall' ν hν).1
    · rw [hvA]; positivity
    · rw [hvA]; exact (div_le_one hMx).mpr hdm.2
    · rw [hvA, div_eq_one_iff_eq hMx.ne']
    · intro hlt'
      have hd' : 0 < Mx - Mn := by linarith
      have hvR : vR = (d - Mn) / (Mx - Mn) := by
        rw [← hv2, hvr, ← hqo, hqd, abs_real, abs_of_nonneg (div_nonneg (by linarith) hd'.le)]
      refine ⟨hvR, ?_, ?_, ?_, ?_⟩
      · rw [hvR]; exact div_nonneg (by linarith) hd'.le
      · rw [hvR]; exact (div_le_one hd').mpr (by linarith)
      · rw [hvR, div_eq_one_iff_eq hd'.ne']; constructor <;> intro h8 <;> linarith
      · rw [hvR, div_eq_zero_iff]
        constructor
        · rintro (h8 | h8) <;> linarith
        · intro h8; left; linarith


namespace Burn
open CoastSample

/-- the object of `Burn` with two sampled anomalies -/
noncomputable def cfg2 : Config ℝ := { cfg false with anomalyGridSize := 2 }

noncomputable def obj2 : QLaw ℝ :=
  { cfg := cfg2, prob := some prob, ready := true, converge := false, exitcode := 0, hist := none }

/-- the call of the control law at another anomaly -/
noncomputable def argsAt (ν : ℝ) : LyapArgs ℝ :=
  lyapArgs (cfg false) prob ![2, 0, 0, 0, 0] (1 / 100) ![1, 1 / 2, 1, 1, 1, ν]

theorem argsAt_zero : argsAt 0 = args := rfl

theorem grad_at (ν : ℝ) : partialQ kepQ (argsAt ν) = partialQ kepQ args := by
  funext j
  have h : ∀ x, kepQ ((argsAt ν).setOe j x) = kepQ (args.setOe j x) := by
    intro x
    have h1 : (args.setOe j x).atAnomaly ν = (argsAt ν).setOe j x := by
      unfold LyapArgs.atAnomaly LyapArgs.setOe args argsAt lyapArgs
      simp only
      congr 1
      funext i
      fin_cases j <;> fin_cases i <;> simp [prob]
    rw [← h1]
    exact (C40_anomaly (args.setOe j x) ν).1
  have he : (argsAt ν).oe j.castSucc = args.oe j.castSucc := by
    unfold argsAt args lyapArgs
    simp only
    fin_cases j <;> simp [prob]
  unfold partialQ
  simp only [h, he]

/-- the transverse component of the gradient at an anomaly on the line of apsides -/
theorem raw_at {ν c w : ℝ} (hw : w = Real.sqrt (3 / 4)) (hc : Real.cos ν = c) (hs : Real.sin ν = 0) (hc' : c = 1 ∨ c = -1) :
    thrustGrad (partialQ kepQ (argsAt ν)) (kepPsi (argsAt ν)) =
      ![0, ((2 + c) * partialQ kepQ args 0 + 3 / 2 * c * partialQ kepQ args 1) / w, 0] := by
  have e2 := dq_rest 2 (by decide) (by decide)
  have e3 := dq_rest 3 (by decide) (by decide)
  have e4 := dq_rest 4 (by decide) (by decide)
  have e1 : (1 : ℝ) - (2 ^ 2)⁻¹ = 3 / 4 := by norm_num
  have hw0 : 0 < w := by rw [hw]; exact Real.sqrt_pos.2 (by norm_num)
  have hw2 : w ^ 2 = 3 / 4 := by rw [hw]; exact Real.sq_sqrt (by norm_num)
  rw [grad_at, ← rawControl_eq]
  funext i
  fin_cases i
  · simp only [rawControl, e2, e3, e4]
    simp [kepPsi, argsAt, lyapArgs, prob, cfg, hs]
  · simp only [rawControl, e2, e3, e4]
    simp [kepPsi, argsAt, lyapArgs, prob, cfg, hc]
    rw [e1, ← hw, hw2]
    rcases hc' with rfl | rfl
    · field_simp; ring
    · norm_num; field_simp; ring
  · simp only [rawControl, e2, e3, e4]
    simp [kepPsi]

/-- rates at periapsis and at apoapsis -/
theorem rates2 : kepDqdt (argsAt (2 * Real.pi)) = kepDqdt args ∧ 0 < kepDqdt (argsAt Real.pi) ∧
    kepDqdt (argsAt Real.pi) < kepDqdt args := by
  have h0 := dq0_lt
  have h1 := dq1_lt
  obtain ⟨w, hw⟩ : ∃ w, w = Real.sqrt (3 / 4) := ⟨_, rfl⟩
  have hw0 : 0 < w := by rw [hw]; exact Real.sqrt_pos.2 (by norm_num)
  have hn : ∀ (ν T : ℝ), thrustGrad (partialQ kepQ (argsAt ν)) (kepPsi (argsAt ν)) = ![0, T, 0] → T < 0 →
      kepDqdt (argsAt ν) = -T / 100 := by
    intro ν T e hT
    have e1 := dqdt_norm .keplerian (argsAt ν)
    have e2 : kepDqdt (argsAt ν) = 1 / 100 * norm3 ![0, T, 0] := by
      rw [← e]; exact e1
    have e3 : norm3 ![0, T, 0] = -T := by
      simp [norm3, Real.sqrt_sq_eq_abs, abs_of_neg hT]
    rw [e2, e3]; ring
  have r0 := raw_at hw Real.cos_zero Real.sin_zero (Or.inl rfl)
  have r1 := raw_at hw Real.cos_pi Real.sin_pi (Or.inr rfl)
  have r2 := raw_at hw Real.cos_two_pi Real.sin_two_pi (Or.inl rfl)
  have n0 : ((2 + 1) * partialQ kepQ args 0 + 3 / 2 * 1 * partialQ kepQ args 1) / w < 0 :=
    div_neg_of_neg_of_pos (by linarith [h1.2]) hw0
  have n1 : ((2 + -1) * partialQ kepQ args 0 + 3 / 2 * -1 * partialQ kepQ args 1) / w < 0 :=
    div_neg_of_neg_of_pos (by linarith [h1.1]) hw0
  have q0 := hn _ _ r0 n0
  have q1 := hn _ _ r1 n1
  have q2 := hn _ _ r2 n0
  rw [argsAt_zero] at q0
  have hlt : ((2 + 1) * partialQ kepQ args 0 + 3 / 2 * 1 * partialQ kepQ args 1) / w <
      ((2 + -1) * partialQ kepQ args 0 + 3 / 2 * -1 * partialQ kepQ args 1) / w :=
    div_lt_div_of_pos_right (by linarith [h1.2]) hw0
  refine ⟨by rw [q0, q2], by rw [q1]; linarith, by rw [q0, q1]; linarith⟩

theorem sampled2 : evaluateOsculatingQdot cfg2 prob ![2, 0, 0, 0, 0] prob.oe0 (1 / 100) =
    .ok (kepDqdt args, kepDqdt (argsAt Real.pi)) := by
  have hs : sampledAnomalies (prob.oe0 5) 2 = [Real.pi, 2 * Real.pi] := by
    have h5 : prob.oe0 5 = 0 := by simp [prob]
    rw [h5]
    simp [sampledAnomalies, linspace, List.range_succ]
  obtain ⟨h1, -, h3⟩ := rates2
  unfold evaluateOsculatingQdot
  change (do
      let mx ← pymaxList ((sampledAnomalies (prob.oe0 5) 2).map fun ν => kepDqdt (argsAt ν))
      let mn ← pyminList ((sampledAnomalies (prob.oe0 5) 2).map fun ν => kepDqdt (argsAt ν))
      pure (mx, mn)) = _
  rw [hs]
  simp only [List.map, pymaxList, pyminList, List.foldl, h1, pymax, pymin, bind, Except.bind, pure, Except.pure]
  simp [h3, not_lt.mpr h3.le]

/-- the loop body: both thresholds are 1/2 and both effectivities are 1 -/
theorem body2 : ∃ s' y d, bodyPhase ⟨cfg2, prob, .flt (1 / 2), .flt (1 / 2)⟩ (initLoop prob) = .brk s' 1 ∧
      s'.hist.times = [0, 1] ∧ s'.hist.controls = [(0, 0, 1)] ∧
      s'.hist.states = [prob.oe0, y] ∧ s'.hist.masses = [1, 1 - 1 / 100 * 1] ∧
      s'.hist.etas = [(1, 1)] ∧ s'.hist.etasBounds = [(1 / 2, 1 / 2)] ∧ s'.hist.dqdts = [d] := by
  obtain ⟨y, hy, hy0⟩ := flown (h := 1) one_pos le_rfl
  obtain ⟨q, dqdt, hlaw⟩ := law
  have hd : dqdt = kepDqdt args := by
    obtain ⟨o, e1, e2⟩ := (C39_rates_agree args).1 (control_defined hlaw)
    rw [hlaw] at e1
    injection e1 with e1
    rw [← e2, ← e1]
  have hch' : chooseStep cfg2 prob (initLoop prob).oe = .ok 1 := rfl
  have hdu : dutyPhase prob (initLoop prob) 1 =
      { duty := true, tOn := 0, tOff := 0, charging := false, step := 1 } := by
    simp [dutyPhase, prob, initLoop, rat]
    norm_num
  obtain ⟨-, h2, h3⟩ := rates2
  have hco : ∃ c : Ctl ℝ, controlPhase ⟨cfg2, prob, .flt (1 / 2), .flt (1 / 2)⟩ (initLoop prob)
      { duty := true, tOn := 0, tOff := 0, charging := false, step := 1 } = .ok (.ctl c) ∧
      c.alpha = some 0 ∧ c.beta = some 0 ∧ c.throttle = 1 ∧ c.u = vsmul (1 / 100) (dirOf 0 0) ∧
      c.psi = kepPsi args ∧ c.oeT = ![2, 0, 0, 0, 0] ∧ c.valA = 1 ∧ c.valR = 1 ∧ c.etaA = 1 / 2 ∧
      c.etaR = 1 / 2 := by
    have ha : PyOrd.sign (1 : ℝ) * prob.tmax / (initLoop prob).mass = 1 / 100 := by
      simp [prob, initLoop, PyOrd.sign]
    have hv : asVec5 prob.oeT = .ok ![2, 0, 0, 0, 0] := rfl
    have hlaw' : lyapunovControlAngles cfg2.dyn.lyapFun
        (lyapArgs cfg2 prob ![2, 0, 0, 0, 0] (1 / 100) (initLoop prob).oe) = _ := hlaw
    have hsam : evaluateOsculatingQdot cfg2 prob ![2, 0, 0, 0, 0] (initLoop prob).oe (1 / 100) = _ := sampled2
    have v1 : PyOrd.abs (dqdt / kepDqdt args) = 1 := by
      rw [hd, div_self (by linarith)]; simp
    have v2 : PyOrd.abs ((dqdt - kepDqdt (argsAt Real.pi)) / (kepDqdt args - kepDqdt (argsAt Real.pi))) = 1 := by
      rw [hd, div_self (by linarith)]; simp
    have hp : (PyOrd.lt ((0 : ℕ) : ℝ) (1 / 2)) = true := by simp
    have hn : (PyOrd.lt (1 : ℝ) (1 / 2)) = false := by simp; norm_num
    unfold controlPhase
    simp only [hv, ha, hlaw', bind, Except.bind, pure, Except.pure, if_true, evalEta, hsam, v1, v2, hp, hn,
      Bool.or_self, PyNan.isnan, if_false, Bool.false_eq_true]
    exact ⟨_, rfl, rfl, rfl, rfl, rfl, rfl, rfl, rfl, rfl, rfl, rfl⟩
  obtain ⟨c, hc, hal, hbe, hth, hcu, hpsi, hct, hvA, hvR, heA, heR⟩ := hco
  have hpr : propagatePhase ⟨cfg2, prob, .flt (1 / 2), .flt (1 / 2)⟩ (initLoop prob) 1 c = .ok (y, 1) := by
    simp only [propagatePhase, cfg2, cfg, bind, Except.bind, pure, Except.pure, hcu, hpsi]
    have h0 : (initLoop prob).t = 0 := by simp [initLoop]
    have h1 : (initLoop prob).oe = prob.oe0 := rfl
    rw [h0, h1]
    have h2 : (dynOf (α := ℝ) .keplerian).eom = eomKepGauss := rfl
    rw [h2]
    have hy' := hy
    simp only [params] at hy'
    rw [hy']
  have hconv : (dynOf (α := ℝ) .keplerian).checkConv y ![2, 0, 0, 0, 0] prob.woe (fun _ => 1) = true := by
    have h3 := slow0
    have h2 : |2 - y 0| ≤ 1 := by rw [hy0, abs_le]; constructor <;> linarith [h3.1, h3.2]
    simp [dynOf, checkConvergenceKeplerian, checkFlags, prob, List.finRange, h2]
  simp only [bodyPhase, hch', hdu, hc, hpr, storePhase, hal, hbe, exitPhase, hth, hct]
  rw [if_pos (show cfg2.dyn.checkConv y ![2, 0, 0, 0, 0] prob.woe cfg2.tolOe = true from hconv)]
  refine ⟨_, y, c.qdot, rfl, ?_, ?_, ?_, ?_, ?_, ?_, ?_⟩ <;>
    simp [initLoop, prob, hvA, hvR, heA, heR]

/-- the hypotheses of C23 are met by this run with two samples, whose best rate is greater than the worst -/
example : ∃ Q' H x t t' m d, ∃ A : ℝ → LyapArgs ℝ, obj2.solve (.flt (1 / 2)) (.flt (1 / 2)) 2 = some (Q', none) ∧
    obj2.prob = some prob ∧ Q'.hist = some H ∧ obj2.cfg.dyn = dynOf .keplerian ∧
    ¬ 0 < (PyNan.nan : ℝ) ∧ 0 < obj2.cfg.anomalyGridSize ∧ prob.oeT = List.ofFn ![2, 0, 0, 0, 0] ∧
    H.etas[0]? = some (1, 1) ∧ H.etasBounds[0]? = some (1 / 2, 1 / 2) ∧ H.times[0]? = some t ∧
    H.times[1]? = some t' ∧ H.states[0]? = some x ∧ H.masses[0]? = some m ∧ H.dqdts[0]? = some d ∧
    t < t' ∧ 0 < prob.tmax ∧ 0 < m ∧
    (∀ ν, A ν = recArgs obj2.cfg prob ![2, 0, 0, 0, 0] ![x 0, x 1, x 2, x 3, x 4, ν] m (t' - t)) ∧
    (∀ ν ∈ sampledSet (x 5) obj2.cfg.anomalyGridSize,
      thrustGrad (partialQ (candQ .keplerian) (A ν)) (candPsi .keplerian (A ν)) ≠ 0) ∧
    (dynOf (α := ℝ) .keplerian).dqdtFun (A Real.pi) < (dynOf (α := ℝ) .keplerian).dqdtFun (A (2 * Real.pi)) := by
  obtain ⟨s', y, d, hbody, ht, hcs, hss, hms, hes, hbs, hqs⟩ := body2
  have hcl : clampPhase cfg2 (initLoop prob) = .ok (initLoop prob) := by
    have : elementsSafety prob.oe0 cfg2.oeMin cfg2.oeMax = .ok prob.oe0 := by
      simp only [elementsSafety, cfg2, cfg, prob]
      congr 1
      funext i
      fin_cases i <;> simp [pymin, pymax]
      all_goals norm_num
    simp only [clampPhase, cfg2, cfg, initLoop, bind, Except.bind, pure, Except.pure] at this ⊢
    rw [this]
    rfl
  have hit : iter ⟨cfg2, prob, .flt (1 / 2), .flt (1 / 2)⟩ (initLoop prob) = .brk s' 1 := by
    simp only [iter, hcl, hbody]
  have hg : guardB prob (initLoop prob) = true := by
    simp [guardB, initLoop, Hist.lastTime, prob]
  have hA : ∀ ν, argsAt ν = recArgs obj2.cfg prob ![2, 0, 0, 0, 0]
      ![prob.oe0 0, prob.oe0 1, prob.oe0 2, prob.oe0 3, prob.oe0 4, ν] 1 (1 - 0) := by
    intro ν
    have e : PyOrd.sign ((1 : ℝ) - 0) * prob.tmax / 1 = 1 / 100 := by simp [prob, PyOrd.sign]
    unfold argsAt lyapArgs recArgs
    rw [e]
    rfl
  obtain ⟨r1, r2, r3⟩ := rates2
  refine ⟨obj2.finish prob (.exit s' 1), s'.hist, prob.oe0, 0, 1, 1, d, argsAt, ?_, rfl, rfl, rfl, ?_, ?_, rfl,
    by rw [hes]; rfl, by rw [hbs]; rfl, by rw [ht]; rfl, by rw [ht]; rfl, by rw [hss]; rfl, by rw [hms]; rfl,
    by rw [hqs]; rfl, one_pos, by simp [prob], one_pos, hA, ?_, ?_⟩
  · simp only [QLaw.solve, obj2, EtaArg.valid, if_true, loop, hg, hit, Option.map]
    rfl
  · simp [PyNan.nan]
  · simp [obj2, cfg2]
  · rintro ν ⟨j, j1, j2, rfl⟩ h0
    have h5 : prob.oe0 5 = 0 := by simp [prob]
    rw [h5] at h0
    have hz : kepDqdt (argsAt (0 + 2 * Real.pi * j / ((obj2.cfg.anomalyGridSize : ℕ) : ℝ))) = 0 := by
      have e1 := dqdt_norm .keplerian (argsAt (0 + 2 * Real.pi * j / ((obj2.cfg.anomalyGridSize : ℕ) : ℝ)))
      rw [h0, norm3_eq_zero.2 rfl, mul_zero] at e1
      exact e1
    have e2 : ((obj2.cfg.anomalyGridSize : ℕ) : ℝ) = 2 := by simp [obj2, cfg2]
    have j2' : j ≤ 2 := j2
    rw [e2] at hz
    have hj : j = 1 ∨ j = 2 := by omega
    rcases hj with rfl | rfl
    · have : 0 + 2 * Real.pi * ((1 : ℕ) : ℝ) / 2 = Real.pi := by push_cast; ring
      rw [this] at hz; linarith
    · have : 0 + 2 * Real.pi * ((2 : ℕ) : ℝ) / 2 = 2 * Real.pi := by push_cast; ring
      rw [this, r1] at hz; linarith
  · show kepDqdt (argsAt Real.pi) < kepDqdt (argsAt (2 * Real.pi))
    rw [r1]; exact r3

end Burn

end PyQ
