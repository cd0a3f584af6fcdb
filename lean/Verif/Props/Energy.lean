import Verif.Props.Battery
import Mathlib.Tactic.IntervalCases
import Mathlib.Algebra.BigOperators.Group.Finset.Basic
import Mathlib.Algebra.BigOperators.Intervals

/-!
# Recharging and the energy budget (C123, C124)
-/

set_option linter.unusedSectionVars false
set_option maxRecDepth 100000
set_option synthInstance.maxSize 1000

namespace PyQ

variable {K : Type} [Field K] [LinearOrder K] [IsStrictOrderedRing K] [PyTrans (Ext K)]

/-- levels are finite and inside the capacity, for a forward run with `rk4` -/
theorem trace_levels {E : Env (Ext K)} {n : ℕ} {tr : ℕ → LoopSt (Ext K)} {D : ℕ → StepData (Ext K)} (hT : IsTrace E n tr D)
    {b0 cm cM c d h : K} (hB : FinBattery E.prob b0 cm cM c d) (hb1 : cm ≤ b0) (hb2 : b0 ≤ cM)
    (hS : E.cfg.useSundman = false) (hI : E.cfg.integrator = .rk4) (hst : E.prob.tStep = .fin h) (hh : 0 < h) (hd : 0 ≤ d) :
    ∀ k ≤ n, ∃ l, (tr k).battery = .fin l ∧ cm ≤ l ∧ l ≤ cM := by
  have hcap : cm ≤ cM := hb1.trans hb2
  intro k
  induction k with
  | zero =>
    intro _
    rw [hT.init]
    exact ⟨b0, hB.initial, hb1, hb2⟩
  | succ k ih =>
    intro hk
    obtain ⟨l, hl, -, -⟩ := ih (by omega)
    obtain ⟨st, hs, -⟩ := step_clock hT hB hS hst hh hd hk
    rw [step_battery hT hk, hBat_rk4 hT hk hI, hs, hl]
    unfold batteryPhase
    rw [hB.capMin, hB.capMax, hB.charge, hB.discharge]
    cases (D k).d.duty
    · simp only [Bool.false_eq_true, if_false, Ext.fin_mul, Ext.fin_add, npclip_fin]
      exact ⟨_, rfl, le_min (le_max_right _ _) hcap, min_le_right _ _⟩
    · simp only [if_true, Ext.fin_mul, Ext.fin_sub, npclip_fin]
      exact ⟨_, rfl, le_min (le_max_right _ _) hcap, min_le_right _ _⟩

/-- the law returns angles that are numbers wherever it returns -/
def AnglesDefined (C : Config (Ext K)) : Prop :=
  ∀ A o, lyapunovControlAngles C.dyn.lyapFun A = .ok o → (PyNan.isnan o.alpha || PyNan.isnan o.beta) = false

/-- without thresholds and NaN angles, the throttle is the duty -/
theorem throttle_duty {E : Env (Ext K)} {n : ℕ} {tr : ℕ → LoopSt (Ext K)} {D : ℕ → StepData (Ext K)} (hT : IsTrace E n tr D)
    {ea er : K} (hA : E.etaA = .flt (.fin ea)) (hR : E.etaR = .flt (.fin er)) (hea : ea ≤ 0) (her : er ≤ 0)
    (hlaw : AnglesDefined E.cfg) {k : ℕ} (hk : k < n) : (D k).c.throttle = if (D k).d.duty then 1 else 0 := by
  obtain ⟨o, _, ho, _, _, _, hkind⟩ := control_ctl (hT.step k hk).ctl
  cases hkind with
  | off hd ha hb ht => rw [hd, ht]; rfl
  | nan hd hnan => rw [hlaw _ _ ho] at hnan; cases hnan
  | free hd hnan hea her hpos ha hb ht => rw [hd, ht]; rfl
  | gated mx mn hd hnan h1 h2 hpos =>
    exfalso
    rw [hA, evalEta] at h1
    rw [hR, evalEta] at h2
    injection h1 with h1
    injection h2 with h2
    rw [← h1, ← h2, Ext.natCast_eq, Ext.lt_fin, Ext.lt_fin, Nat.cast_zero, decide_eq_false (not_lt.2 hea),
      decide_eq_false (not_lt.2 her)] at hpos
    cases hpos

/-! ## C123 -/

/-- **C123 (partial).** With `rk4`, a forward problem, an initial level inside the capacity, float thresholds that are not
positive and a control law that does not return NaN: on every step with throttle 0 the battery is charged at the charge
rate for the elapsed time, up to the capacity. Missing: steps that coast because of the thresholds or because of NaN
angles; they discharge the battery as if they thrust, see `C123_discharges`. -/
theorem C123_recharges_partial {Q Q' : QLaw (Ext K)} {ea er : K} {fuel : ℕ} {P : Problem (Ext K)} {H : Hist (Ext K)}
    {b0 cm cM c d h : K} (hs : Q.solve (.flt (.fin ea)) (.flt (.fin er)) fuel = some (Q', none)) (hP : Q.prob = some P)
    (hH : Q'.hist = some H) (hB : FinBattery P b0 cm cM c d) (hb1 : cm ≤ b0) (hb2 : b0 ≤ cM)
    (hS : Q.cfg.useSundman = false) (hI : Q.cfg.integrator = .rk4) (hst : P.tStep = .fin h)
    (hh : 0 < h) (hd : 0 ≤ d) (hc : 0 ≤ c) (hea : ea ≤ 0) (her : er ≤ 0) (hlaw : AnglesDefined Q.cfg)
    {k : ℕ} {a b : Ext K} (hk : H.controls[k]? = some (a, b, 0)) :
    ∃ t t' l, H.times[k]? = some (.fin t) ∧ H.times[k + 1]? = some (.fin t') ∧
      H.battery[k]? = some (.fin l) ∧ H.battery[k + 1]? = some (.fin (min (l + c * (t' - t)) cM)) := by
  obtain ⟨n, tr, D, r, hr, _, v⟩ := solve_view hs hP hH
  have step := fun k (hk : k < n) => step_clock v.trace hB hS hst hh hd hk
  have hfin : ∀ k < n, ∃ st, (D k).d.step = .fin st := fun k hk => by
    obtain ⟨st, h1, _⟩ := step k hk; exact ⟨st, h1⟩
  have ht := trace_clock v.trace hfin
  obtain ⟨hkn, hx⟩ := v.controls_lt hk
  injection hx with _ hx
  injection hx with _ hθ
  have hdu : (D k).d.duty = false := by
    rw [throttle_duty v.trace rfl rfl hea her hlaw hkn] at hθ
    cases hdd : (D k).d.duty
    · rfl
    · rw [hdd] at hθ; cases hθ
  obtain ⟨l, hl1, hl2, hl3⟩ := trace_levels v.trace hB hb1 hb2 hS hI hst hh hd k hkn.le
  obtain ⟨st, hst1, hst2, -⟩ := step k hkn
  have h5 := trace_clock_step v.trace hfin hkn hst1
  refine ⟨(tr k).t.val, (tr (k + 1)).t.val, l, ?_, ?_, ?_, ?_⟩
  · rw [v.times_get hkn.le, ← ht k hkn.le]
  · rw [v.times_get hkn, ← ht (k + 1) hkn]
  · rw [v.battery_get hkn.le, hl1]
  · rw [v.battery_get hkn, step_battery v.trace hkn, hBat_rk4 v.trace hkn hI, hst1, hl1, h5]
    show some (batteryPhase P _ _ _ _).1 = _
    unfold batteryPhase
    rw [hdu]
    simp only [Bool.false_eq_true, if_false]
    rw [hB.capMin, hB.capMax, hB.charge, Ext.fin_mul, Ext.fin_add, npclip_fin]
    have := mul_nonneg hc hst2.le
    rw [max_eq_left (by linarith), add_sub_cancel_left]

/-- **C123 is violated** by steps that coast because of the effectivity thresholds: with `rk4`, a forward problem and an
initial level inside the capacity, every step with throttle 0 for which thresholds were recorded discharges the battery at
the discharge rate for the elapsed time, down to the minimum. -/
theorem C123_discharges {Q Q' : QLaw (Ext K)} {etaA etaR : EtaArg (Ext K)} {fuel : ℕ} {P : Problem (Ext K)}
    {H : Hist (Ext K)} {b0 cm cM c d h : K} (hs : Q.solve etaA etaR fuel = some (Q', none)) (hP : Q.prob = some P)
    (hH : Q'.hist = some H) (hB : FinBattery P b0 cm cM c d) (hb1 : cm ≤ b0) (hb2 : b0 ≤ cM)
    (hS : Q.cfg.useSundman = false) (hI : Q.cfg.integrator = .rk4) (hst : P.tStep = .fin h) (hh : 0 < h) (hd : 0 ≤ d)
    {k : ℕ} {a b : Ext K} (_hk : H.controls[k]? = some (a, b, 0)) {x y : Ext K} (he : H.etasBounds[k]? = some (x, y))
    (hxy : PyNan.isnan x = false ∨ PyNan.isnan y = false) :
    ∃ t t' l, H.times[k]? = some (.fin t) ∧ H.times[k + 1]? = some (.fin t') ∧
      H.battery[k]? = some (.fin l) ∧ H.battery[k + 1]? = some (.fin (max (l - d * (t' - t)) cm)) := by
  obtain ⟨n, tr, D, r, hr, _, v⟩ := solve_view hs hP hH
  have step := fun k (hk : k < n) => step_clock v.trace hB hS hst hh hd hk
  have hfin : ∀ k < n, ∃ st, (D k).d.step = .fin st := fun k hk => by
    obtain ⟨st, h1, _⟩ := step k hk; exact ⟨st, h1⟩
  have ht := trace_clock v.trace hfin
  have hkn : k < n := by
    have := (List.getElem?_eq_some_iff.1 he).1
    rw [v.etasBounds] at this
    simpa using this
  have hex : x = (D k).c.etaA ∧ y = (D k).c.etaR := by
    rw [v.etasBounds, List.getElem?_map, List.getElem?_range hkn] at he
    simp only [Option.map_some, Option.some.injEq, Prod.mk.injEq] at he
    exact ⟨he.1.symm, he.2.symm⟩
  have hdu : (D k).d.duty = true := by
    obtain ⟨o, _, ho, _, _, _, hkind⟩ := control_ctl (v.trace.step k hkn).ctl
    cases hkind with
    | off hd ha hb ht hu hn hva hvr h1 h2 =>
      rw [hex.1, hex.2, h1, h2] at hxy
      rcases hxy with h | h <;> cases h
    | nan hd => exact hd
    | free hd => exact hd
    | gated mx mn hd => exact hd
  obtain ⟨l, hl1, hl2, hl3⟩ := trace_levels v.trace hB hb1 hb2 hS hI hst hh hd k hkn.le
  obtain ⟨st, hst1, hst2, -⟩ := step k hkn
  have h5 := trace_clock_step v.trace hfin hkn hst1
  refine ⟨(tr k).t.val, (tr (k + 1)).t.val, l, ?_, ?_, ?_, ?_⟩
  · rw [v.times_get hkn.le, ← ht k hkn.le]
  · rw [v.times_get hkn, ← ht (k + 1) hkn]
  · rw [v.battery_get hkn.le, hl1]
  · rw [v.battery_get hkn, step_battery v.trace hkn, hBat_rk4 v.trace hkn hI, hst1, hl1, h5]
    show some (batteryPhase P _ _ _ _).1 = _
    unfold batteryPhase
    rw [hdu, if_pos rfl, hB.capMin, hB.capMax, hB.discharge, Ext.fin_mul, Ext.fin_sub, npclip_fin]
    have := mul_nonneg hd hst2.le
    rw [add_sub_cancel_left, min_eq_left (max_le (by linarith) (hb1.trans hb2))]

/-! ## C124 -/

/-- energy drawn by the thrusting ones of the first `k` steps -/
def spent (d : K) (τ : ℕ → K) (θ : ℕ → ℕ) (k : ℕ) : K :=
  ∑ j ∈ Finset.range k, if θ j = 1 then d * (τ (j + 1) - τ j) else 0

/-- energy supplied during the others -/
def supplied (c : K) (τ : ℕ → K) (θ : ℕ → ℕ) (k : ℕ) : K :=
  ∑ j ∈ Finset.range k, if θ j = 1 then 0 else c * (τ (j + 1) - τ j)

/-- **C124 (partial).** With `rk4`, `require_full_recharge=True`, a forward problem and an initial level inside the
capacity: after every number `k` of steps, the energy drawn by the thrusting steps is at most the initial level above the
minimum plus the energy supplied during the other steps; more precisely, the recorded level is at most the initial level
plus the energy supplied less the energy drawn. Missing: `require_full_recharge=False`, where it fails, see
`C124_free`. -/
theorem C124_budget_partial {Q Q' : QLaw (Ext K)} {etaA etaR : EtaArg (Ext K)} {fuel : ℕ}
    {P : Problem (Ext K)} {H : Hist (Ext K)} {b0 cm cM c d h : K}
    (hs : Q.solve etaA etaR fuel = some (Q', none)) (hP : Q.prob = some P)
    (hH : Q'.hist = some H) (hB : FinBattery P b0 cm cM c d) (hb1 : cm ≤ b0) (hb2 : b0 ≤ cM)
    (hS : Q.cfg.useSundman = false) (hI : Q.cfg.integrator = .rk4) (hst : P.tStep = .fin h)
    (hh : 0 < h) (hd : 0 ≤ d) (hc : 0 ≤ c) (hR : P.requireFullRecharge = true) {τ : ℕ → K} {θ : ℕ → ℕ} {k : ℕ}
    (hτ : ∀ j ≤ k, H.times[j]? = some (.fin (τ j))) (hθ : ∀ j < k, ∃ a b, H.controls[j]? = some (a, b, θ j)) :
    (∃ l, H.battery[k]? = some (.fin l) ∧ l ≤ b0 + supplied c τ θ k - spent d τ θ k) ∧
    spent d τ θ k ≤ b0 - cm + supplied c τ θ k := by
  obtain ⟨n, tr, D, r, hr, _, v⟩ := solve_view hs hP hH
  have step := fun k (hk : k < n) => step_clock v.trace hB hS hst hh hd hk
  have hfin : ∀ k < n, ∃ st, (D k).d.step = .fin st := fun k hk => by
    obtain ⟨st, h1, _⟩ := step k hk; exact ⟨st, h1⟩
  have ht := trace_clock v.trace hfin
  have hlev := trace_levels v.trace hB hb1 hb2 hS hI hst hh hd
  have hkn : k ≤ n := (v.times_lt (hτ k le_rfl)).1
  have main : ∀ i ≤ k, ∃ l, H.battery[i]? = some (.fin l) ∧ cm ≤ l ∧ l ≤ b0 + supplied c τ θ i - spent d τ θ i := by
    intro i
    induction i with
    | zero =>
      intro _
      obtain ⟨l, h1, h2, h3⟩ := hlev 0 (Nat.zero_le _)
      refine ⟨l, by rw [v.battery_get (Nat.zero_le _), h1], h2, ?_⟩
      rw [v.trace.init] at h1
      have h4 : (.fin b0 : Ext K) = .fin l := hB.initial.symm.trans h1
      injection h4 with h4
      simp [supplied, spent, h4]
    | succ i ih =>
      intro hi
      have hin : i < n := by omega
      obtain ⟨l, h1, h2, h3⟩ := ih (by omega)
      obtain ⟨l', g1, g2, g3⟩ := hlev (i + 1) hin
      refine ⟨l', by rw [v.battery_get hin, g1], g2, ?_⟩
      obtain ⟨a, b, hcon⟩ := hθ i (by omega)
      have t0 := hτ i (by omega)
      have t1 := hτ (i + 1) hi
      rw [supplied, spent, Finset.sum_range_succ, Finset.sum_range_succ]
      change _ ≤ b0 + (supplied c τ θ i + _) - (spent d τ θ i + _)
      by_cases hone : θ i = 1
      · rw [hone] at hcon
        obtain ⟨t, t', m, k1, k2, k3, k4⟩ := C18_thrust_is_paid_partial hs hP hH hB hb1 hb2 hS hI hst hh hd hR hcon
        rw [t0] at k1; rw [t1] at k2; rw [h1] at k3
        rw [v.battery_get hin, g1] at k4
        injection k1 with k1; injection k1 with k1
        injection k2 with k2; injection k2 with k2
        injection k3 with k3; injection k3 with k3
        injection k4 with k4; injection k4 with k4
        rw [if_pos hone, if_pos hone, k4, k1, k2, ← k3]
        linarith
      · obtain ⟨st, s1, s2, -⟩ := step i hin
        have s3 := trace_clock_step v.trace hfin hin s1
        have e0 : τ i = (tr i).t.val := by
          rw [v.times_get hin.le, ht i hin.le] at t0
          injection t0 with t0; injection t0 with t0; exact t0.symm
        have e1 : τ (i + 1) = (tr (i + 1)).t.val := by
          rw [v.times_get hin, ht (i + 1) hin] at t1
          injection t1 with t1; injection t1 with t1; exact t1.symm
        have e2 : τ (i + 1) - τ i = st := by rw [e0, e1, s3]; ring
        rw [if_neg hone, if_neg hone, e2]
        rw [v.battery_get hin.le] at h1
        injection h1 with h1
        rw [step_battery v.trace hin, hBat_rk4 v.trace hin hI, s1, h1] at g1
        change (batteryPhase P _ _ _ _).1 = _ at g1
        unfold batteryPhase at g1
        rw [hB.capMin, hB.capMax, hB.charge, hB.discharge] at g1
        have p1 := mul_nonneg hc s2.le
        have p2 := mul_nonneg hd s2.le
        cases hdu : (D i).d.duty
        · rw [hdu] at g1
          simp only [Bool.false_eq_true, if_false, Ext.fin_mul, Ext.fin_add, npclip_fin] at g1
          injection g1 with g1
          have : l' ≤ l + c * st := by
            rw [← g1]; exact (min_le_left _ _).trans (max_le le_rfl (by linarith))
          linarith
        · rw [hdu] at g1
          simp only [if_true, Ext.fin_mul, Ext.fin_sub, npclip_fin] at g1
          injection g1 with g1
          have : l' ≤ l := by
            rw [← g1]; exact (min_le_left _ _).trans (max_le (by linarith) h2)
          linarith
  obtain ⟨l, h1, h2, h3⟩ := main k le_rfl
  exact ⟨⟨l, h1, h3⟩, by linarith⟩

/-- **C124 is violated** with `require_full_recharge=False`. With `rk4`, a forward problem, an initial level inside the
capacity, thresholds not positive, angles that are numbers, and a duty cycle off for less than one
step: if more than 1e-12, but at least 1e-12 less than a step of thrust draws, is charged during one step, then from the first
record at which the battery is found depleted on, the steps alternately coast and thrust, each for the full `t_step`; the
level is charged from the minimum during the one and falls back to the minimum, not below, during the other. -/
theorem C124_free {Q Q' : QLaw (Ext K)} {ea er : K} {fuel : ℕ} {P : Problem (Ext K)} {H : Hist (Ext K)}
    {b0 cm cM c d h off : K} (hs : Q.solve (.flt (.fin ea)) (.flt (.fin er)) fuel = some (Q', none))
    (hP : Q.prob = some P) (hH : Q'.hist = some H) (hB : FinBattery P b0 cm cM c d) (hb1 : cm ≤ b0) (hb2 : b0 ≤ cM)
    (hS : Q.cfg.useSundman = false) (hI : Q.cfg.integrator = .rk4) (hst : P.tStep = .fin h)
    (hh : 0 < h) (hd : 0 ≤ d) (hea : ea ≤ 0) (her : er ≤ 0) (hlaw : AnglesDefined Q.cfg)
    (hR : P.requireFullRecharge = false) (hoff : P.dutyOff = .fin off)
    (hoff1 : off < h) (hc1 : 1 / 10 ^ 12 < c * h) (hc2 : c * h + 1 / 10 ^ 12 ≤ d * h)
    (hc3 : cm + 1 / 10 ^ 12 + c * h < cM) {k : ℕ} {l : K} (hk : H.battery[k]? = some (.fin l)) (hl : l ≤ cm + 1 / 10 ^ 12)
    (j : ℕ) (hj : k + j < H.controls.length) :
    ∃ a b t, H.controls[k + j]? = some (a, b, j % 2) ∧ H.times[k + j]? = some (.fin t) ∧
      H.times[k + j + 1]? = some (.fin (t + h)) ∧
      H.battery[k + j + 1]? = some (.fin (if j % 2 = 0 then (if j = 0 then l else cm) + c * h else cm)) := by
  obtain ⟨n, tr, D, r, hr, _, v⟩ := solve_view hs hP hH
  have step := fun k (hk : k < n) => step_clock v.trace hB hS hst hh hd hk
  have hfin : ∀ k < n, ∃ st, (D k).d.step = .fin st := fun k hk => by
    obtain ⟨st, h1, _⟩ := step k hk; exact ⟨st, h1⟩
  have ht := trace_clock v.trace hfin
  have hlev := trace_levels v.trace hB hb1 hb2 hS hI hst hh hd
  rw [v.controls_length] at hj
  have hkn : k ≤ n := by omega
  have e12 : (0 : K) < 1 / 10 ^ 12 := by positivity
  have hl0 : cm ≤ l ∧ (tr k).battery = .fin l := by
    obtain ⟨l', h1, h2, -⟩ := hlev k hkn
    rw [v.battery_get hkn, h1] at hk
    injection hk with hk; injection hk with hk
    exact ⟨by rw [← hk]; exact h2, by rw [h1, hk]⟩
  have hs0 : ∀ i < n, (D i).d = dutyPhase P (tr i) (.fin h) := fun i hi => by
    have h1 := step_dutyPhase v.trace hi
    rw [step0_eq v.trace hi hS] at h1
    have h2 : (envOf Q P (.flt (.fin ea)) (.flt (.fin er))).prob.tStep = .fin h := hst
    rw [h2] at h1; exact h1
  -- the loop variables before an even and before an odd step
  have main : ∀ i, k + i ≤ n →
      (i % 2 = 0 → ∃ m, (tr (k + i)).battery = .fin m ∧ cm ≤ m ∧ m ≤ cm + 1 / 10 ^ 12 ∧ (m = if i = 0 then l else cm)) ∧
      (i % 2 = 1 → ∃ m, (tr (k + i)).battery = .fin (m + c * h) ∧ cm ≤ m ∧ m ≤ cm + 1 / 10 ^ 12 ∧
        (m = if i = 1 then l else cm) ∧ (tr (k + i)).duty = false ∧ (tr (k + i)).charging = true ∧
        (tr (k + i)).tOff + .fin h = (tr (k + i)).t) ∧
      (i % 2 = 1 → k + i < n → (D (k + i)).d.duty = true ∧ (D (k + i)).d.step = .fin h) ∧
      (i % 2 = 0 → k + i < n → (D (k + i)).d.duty = false ∧ (D (k + i)).d.step = .fin h) := by
    intro i
    have even : ∀ i, k + i < n → ∀ m, (tr (k + i)).battery = .fin m → m ≤ cm + 1 / 10 ^ 12 →
        (D (k + i)).d.duty = false ∧ (D (k + i)).d.step = .fin h ∧ (D (k + i)).d.charging = true ∧
        (D (k + i)).d.tOff = (tr (k + i)).t := by
      intro i hi m hm hm2
      have hf : atFloor P (tr (k + i)) = true := by rw [atFloor_fin hB hm, decide_eq_true hm2]
      rw [hs0 _ hi, duty_floor hf]
      exact ⟨rfl, rfl, rfl, rfl⟩
    have odd : ∀ i, k + i < n → ∀ m, (tr (k + i)).battery = .fin (m + c * h) → cm ≤ m →
        (tr (k + i)).duty = false → (tr (k + i)).charging = true → (tr (k + i)).tOff + .fin h = (tr (k + i)).t →
        (D (k + i)).d.duty = true ∧ (D (k + i)).d.step = .fin h ∧ (D (k + i)).d.charging = true := by
      intro i hi m hm hm1 hdu hch hto
      have hf : atFloor P (tr (k + i)) = false := by
        rw [atFloor_fin hB hm]; exact decide_eq_false (by linarith)
      obtain ⟨τ0, hτ0⟩ : ∃ τ0, (tr (k + i)).tOff = .fin τ0 := by
        have h1 := ht (k + i) hi.le
        rw [← hto] at h1
        cases hx : (tr (k + i)).tOff with
        | fin x => exact ⟨x, rfl⟩
        | nan => rw [hx] at h1; cases h1
        | pinf => rw [hx] at h1; cases h1
        | ninf => rw [hx] at h1; cases h1
      have hsub : (tr (k + i)).t - (tr (k + i)).tOff = .fin h := by
        rw [← hto, hτ0, Ext.fin_add, Ext.fin_sub]; congr 1; ring
      have hso : switchOff P (tr (k + i)) = false := by simp [switchOff, hdu]
      have hsn : switchOn P (tr (k + i)) = true := by
        simp [switchOn, hso, hsub, hoff, hdu, hoff1]
      rw [hs0 _ hi, duty_noFloor hf]
      simp [hR, hch, hsn]
    induction i with
    | zero =>
      intro _
      refine ⟨fun _ => ⟨l, hl0.2, hl0.1, hl, by simp⟩, fun h => by omega, fun h => by omega, fun _ hi => ?_⟩
      obtain ⟨h1, h2, -⟩ := even 0 hi l hl0.2 hl
      exact ⟨h1, h2⟩
    | succ i ih =>
      intro hi
      have hin : k + i < n := by omega
      obtain ⟨i1, i2, i3, i4⟩ := ih (by omega)
      rw [show k + (i + 1) = k + i + 1 by omega]
      rcases Nat.mod_two_eq_zero_or_one i with he | he
      · obtain ⟨m, m1, m2, m3, m4⟩ := i1 he
        obtain ⟨e1, e2, e3, e4⟩ := even i hin m m1 m3
        have b1 : (tr (k + i + 1)).battery = .fin (m + c * h) := by
          rw [step_battery v.trace hin, hBat_rk4 v.trace hin hI, e1, e2, m1]
          change (batteryPhase P _ _ _ _).1 = _
          unfold batteryPhase
          simp only [Bool.false_eq_true, if_false, hB.capMin, hB.capMax, hB.charge, Ext.fin_mul, Ext.fin_add, npclip_fin]
          rw [max_eq_left (by linarith), min_eq_left (by linarith)]
        have b2 : (tr (k + i + 1)).charging = true := by
          rw [step_charging v.trace hin, hBat_rk4 v.trace hin hI, e1, e2, e3, m1]
          change (batteryPhase P _ _ _ _).2 = _
          unfold batteryPhase
          simp only [Bool.false_eq_true, if_false, hB.capMin, hB.capMax, hB.charge, Ext.fin_mul, Ext.fin_add, npclip_fin]
          rw [max_eq_left (by linarith), min_eq_left (by linarith), Ext.eq_fin, decide_eq_false (by linarith : m + c * h ≠ cM)]
          rfl
        have b3 : (tr (k + i + 1)).duty = false := by rw [step_duty v.trace hin, e1]
        have b4 : (tr (k + i + 1)).tOff + .fin h = (tr (k + i + 1)).t := by
          rw [step_tOff v.trace hin, e4, step_t v.trace hin, e2]
        refine ⟨fun h => by omega, fun _ => ⟨m, b1, m2, m3, ?_, b3, b2, b4⟩, fun _ hi2 => ?_, fun h => by omega⟩
        · rw [m4]; split_ifs <;> first | rfl | omega
        · obtain ⟨o1, o2, -⟩ := odd (i + 1) hi2 m b1 m2 b3 b2 b4
          exact ⟨o1, o2⟩
      · obtain ⟨m, m1, m2, m3, m4, m5, m6, m7⟩ := i2 he
        obtain ⟨o1, o2, o3⟩ := odd i hin m m1 m2 m5 m6 m7
        have b1 : (tr (k + i + 1)).battery = .fin cm := by
          rw [step_battery v.trace hin, hBat_rk4 v.trace hin hI, o1, o2, m1]
          change (batteryPhase P _ _ _ _).1 = _
          unfold batteryPhase
          simp only [if_true, hB.capMin, hB.capMax, hB.discharge, Ext.fin_mul, Ext.fin_sub, npclip_fin]
          rw [max_eq_right (by linarith), min_eq_left (by linarith)]
        refine ⟨fun _ => ⟨cm, b1, le_rfl, by linarith, by simp⟩, fun h => by omega, fun h => by omega, fun _ hi2 => ?_⟩
        obtain ⟨h1, h2, -⟩ := even (i + 1) hi2 cm b1 (by linarith)
        exact ⟨h1, h2⟩
  have hkj : k + j < n := hj
  obtain ⟨i1, i2, i3, i4⟩ := main j hkj.le
  obtain ⟨n1, n2, -⟩ := main (j + 1) (by omega)
  have hthr := throttle_duty v.trace rfl rfl hea her hlaw hkj
  have hstep : (D (k + j)).d.step = .fin h ∧ (D (k + j)).d.duty = decide (j % 2 = 1) := by
    rcases Nat.mod_two_eq_zero_or_one j with he | he
    · obtain ⟨h1, h2⟩ := i4 he hkj; exact ⟨h2, by rw [h1, he]; rfl⟩
    · obtain ⟨h1, h2⟩ := i3 he hkj; exact ⟨h2, by rw [h1, he]; rfl⟩
  refine ⟨(D (k + j)).a, (D (k + j)).b, (tr (k + j)).t.val, ?_, ?_, ?_, ?_⟩
  · rw [v.controls_get hkj, hthr, hstep.2]
    rcases Nat.mod_two_eq_zero_or_one j with he | he <;> rw [he] <;> rfl
  · rw [v.times_get hkj.le, ← ht _ hkj.le]
  · rw [v.times_get hkj, ht _ hkj, trace_clock_step v.trace hfin hkj hstep.1]
  · rw [v.battery_get hkj]
    rcases Nat.mod_two_eq_zero_or_one j with he | he
    · obtain ⟨m, m1, -, -, m4, -⟩ := n2 (by omega)
      change some (tr (k + (j + 1))).battery = _
      rw [m1, m4, if_pos he]
      congr 3
      split_ifs <;> first | rfl | omega
    · obtain ⟨m, m1, -, -, m4⟩ := n1 (by omega)
      change some (tr (k + (j + 1))).battery = _
      rw [m1, m4, if_neg (by omega), if_neg (by omega)]

/-- **C124 is violated without bound**: under the same hypotheses, the `2 m` steps after the first record at which the battery
is found depleted draw `m · d · h` while `m · c · h` is supplied, for every `m` for which the run lasts. -/
theorem C124_unbounded {Q Q' : QLaw (Ext K)} {ea er : K} {fuel : ℕ} {P : Problem (Ext K)} {H : Hist (Ext K)}
    {b0 cm cM c d h off : K} (hs : Q.solve (.flt (.fin ea)) (.flt (.fin er)) fuel = some (Q', none))
    (hP : Q.prob = some P) (hH : Q'.hist = some H) (hB : FinBattery P b0 cm cM c d) (hb1 : cm ≤ b0) (hb2 : b0 ≤ cM)
    (hS : Q.cfg.useSundman = false) (hI : Q.cfg.integrator = .rk4) (hst : P.tStep = .fin h)
    (hh : 0 < h) (hd : 0 ≤ d) (hea : ea ≤ 0) (her : er ≤ 0) (hlaw : AnglesDefined Q.cfg)
    (hR : P.requireFullRecharge = false) (hoff : P.dutyOff = .fin off)
    (hoff1 : off < h) (hc1 : 1 / 10 ^ 12 < c * h) (hc2 : c * h + 1 / 10 ^ 12 ≤ d * h)
    (hc3 : cm + 1 / 10 ^ 12 + c * h < cM) {k : ℕ} {l : K} (hk : H.battery[k]? = some (.fin l)) (hl : l ≤ cm + 1 / 10 ^ 12)
    {τ : ℕ → K} {θ : ℕ → ℕ} {m : ℕ} (hm : k + 2 * m ≤ H.controls.length)
    (hτ : ∀ j ≤ 2 * m, H.times[k + j]? = some (.fin (τ j)))
    (hθ : ∀ j < 2 * m, ∃ a b, H.controls[k + j]? = some (a, b, θ j)) :
    spent d τ θ (2 * m) = m * (d * h) ∧ supplied c τ θ (2 * m) = m * (c * h) := by
  have each : ∀ j < 2 * m, θ j = j % 2 ∧ τ (j + 1) - τ j = h := by
    intro j hj
    obtain ⟨a, b, t, h1, h2, h3, -⟩ := C124_free hs hP hH hB hb1 hb2 hS hI hst hh hd hea her hlaw hR hoff hoff1 hc1 hc2
      hc3 hk hl j (by omega)
    obtain ⟨a', b', h4⟩ := hθ j hj
    rw [h1] at h4
    injection h4 with h4; injection h4 with _ h4; injection h4 with _ h4
    have h5 := hτ j hj.le
    have h6 := hτ (j + 1) hj
    rw [h2] at h5
    rw [← Nat.add_assoc, h3] at h6
    injection h5 with h5; injection h5 with h5
    injection h6 with h6; injection h6 with h6
    exact ⟨h4.symm, by rw [← h5, ← h6]; ring⟩
  have sums : ∀ i ≤ m, spent d τ θ (2 * i) = i * (d * h) ∧ supplied c τ θ (2 * i) = i * (c * h) := by
    intro i
    induction i with
    | zero => intro _; simp [spent, supplied]
    | succ i ih =>
      intro hi
      obtain ⟨i1, i2⟩ := ih (by omega)
      obtain ⟨a1, a2⟩ := each (2 * i) (by omega)
      obtain ⟨a3, a4⟩ := each (2 * i + 1) (by omega)
      rw [show 2 * i % 2 = 0 by omega] at a1
      rw [show (2 * i + 1) % 2 = 1 by omega] at a3
      unfold spent at i1 ⊢
      unfold supplied at i2 ⊢
      rw [show 2 * (i + 1) = 2 * i + 1 + 1 by ring, Finset.sum_range_succ, Finset.sum_range_succ, Finset.sum_range_succ,
        Finset.sum_range_succ, i1, i2, a1, a3, a4, a2]
      simp only [Nat.zero_ne_one, if_false, if_true, Nat.cast_add, Nat.cast_one]
      exact ⟨by ring, by ring⟩
  exact sums m le_rfl

/-! ## Runs meeting the hypotheses -/

/-- the constant law of the toy object returns numbers -/
theorem Toy.angles : AnglesDefined (K := ℚ) Toy.cfg := by
  have key : ∀ r, uToThrustAngles (α := Ext ℚ) ![.fin 0, .fin (-1), .fin 0] = .ok r →
      (PyNan.isnan r.2.1 || PyNan.isnan r.2.2) = false := by
    have h : ((uToThrustAngles (α := Ext ℚ) ![.fin 0, .fin (-1), .fin 0]).toOption.map fun r =>
      (PyNan.isnan r.2.1 || PyNan.isnan r.2.2)) = some false := by decide +kernel
    intro r hr
    rw [hr] at h
    injection h
  intro A o h
  cases hu : uToThrustAngles (α := Ext ℚ) ![.fin 0, .fin (-1), .fin 0] with
  | error e =>
    have : lyapunovControlAngles Toy.cfg.dyn.lyapFun A = .error e := by
      unfold lyapunovControlAngles
      change (uToThrustAngles (α := Ext ℚ) ![.fin 0, .fin (-1), .fin 0] >>= _) = _
      rw [hu]; rfl
    rw [this] at h; cases h
  | ok r =>
    have : ∃ o', lyapunovControlAngles Toy.cfg.dyn.lyapFun A = .ok o' ∧ o'.alpha = r.2.1 ∧ o'.beta = r.2.2 := by
      unfold lyapunovControlAngles
      change ∃ o', (uToThrustAngles (α := Ext ℚ) ![.fin 0, .fin (-1), .fin 0] >>= _) = _ ∧ _
      rw [hu]; exact ⟨_, rfl, rfl, rfl⟩
    obtain ⟨o', h1, h2, h3⟩ := this
    rw [h1] at h
    injection h with h
    rw [← h, h2, h3]; exact key r hu

/-- a battery of capacity 1, half full, charged half as fast as it is drained -/
def Toy.bat (full : Bool) : Problem Toy.N :=
  { Toy.prob with
    oeT := [.fin 100, .fin 0, .fin 0, .fin 0, .fin 0]
    batteryInitial := .fin (1 / 2)
    chargeRate := .fin (1 / 2)
    dischargeRate := .fin 1
    tfMax := .fin (5 / 2)
    requireFullRecharge := full }

/-- what is seen of a run -/
theorem Toy.bat_of {P : Problem Toy.N} {a : EtaArg Toy.N} {n : ℕ} {θs : List ℕ} {ts bs : List Toy.N}
    {es : List (Toy.N × Toy.N)}
    (h : (((Toy.obj Toy.cfg P).solve a Toy.z n).bind fun p => p.1.hist.map fun H =>
      (p.2, H.controls.map (fun x => x.2.2), H.times, H.battery, H.etasBounds)) = some (none, θs, ts, bs, es)) :
    ∃ Q' H, (Toy.obj Toy.cfg P).solve a Toy.z n = some (Q', none) ∧ Q'.hist = some H ∧
      H.controls.length = θs.length ∧ (∀ (j : ℕ) (θ : ℕ), θs[j]? = some θ → ∃ x y, H.controls[j]? = some (x, y, θ)) ∧
      H.times = ts ∧ H.battery = bs ∧ H.etasBounds = es := by
  rw [Option.bind_eq_some_iff] at h
  obtain ⟨⟨Q', e⟩, h1, h2⟩ := h
  rw [Option.map_eq_some_iff] at h2
  obtain ⟨H, h2, h3⟩ := h2
  simp only [Prod.mk.injEq] at h3
  obtain ⟨h3, h4, h5, h6, h7⟩ := h3
  subst h3
  refine ⟨Q', H, h1, h2, by rw [← h4, List.length_map], fun j θ hj => ?_, h5, h6, h7⟩
  rw [← h4, List.getElem?_map, Option.map_eq_some_iff] at hj
  obtain ⟨⟨x, y, z⟩, h8, rfl⟩ := hj
  exact ⟨x, y, h8⟩

/-- C123: a run whose second step coasts with the battery depleted, so that it is recharged -/
example : ∃ (Q' : QLaw (Ext ℚ)) (H : Hist (Ext ℚ)), (Toy.obj Toy.cfg (Toy.bat true)).solve Toy.z Toy.z 10 = some (Q', none) ∧
    Q'.hist = some H ∧ FinBattery (Toy.bat true) (1 / 2) 0 1 (1 / 2) 1 ∧ AnglesDefined (K := ℚ) Toy.cfg ∧
    (∃ a b, H.controls[1]? = some (a, b, 0)) ∧ H.battery[1]? = some (.fin 0) ∧ H.battery[2]? = some (.fin (1 / 4)) := by
  obtain ⟨Q', H, h1, h2, -, h4, h5, h6, h7⟩ := Toy.bat_of (P := Toy.bat true) (a := Toy.z) (n := 10) (θs := [1, 0, 0, 0, 0])
    (ts := [.fin 0, .fin (1 / 2), .fin 1, .fin (3 / 2), .fin 2, .fin (5 / 2)])
    (bs := [.fin (1 / 2), .fin 0, .fin (1 / 4), .fin (1 / 2), .fin (3 / 4), .fin 1])
    (es := [(.fin 0, .fin 0), (.nan, .nan), (.nan, .nan), (.nan, .nan), (.nan, .nan)]) (by decide +kernel)
  exact ⟨Q', H, h1, h2, ⟨rfl, rfl, rfl, rfl, rfl⟩, Toy.angles, h4 1 0 rfl, by rw [h6]; rfl, by rw [h6]; rfl⟩

/-- **C123 is violated**: a run that never thrusts, because of the threshold, and still drains its battery -/
theorem C123_drained : ∃ (Q Q' : QLaw (Ext ℚ)) (P : Problem (Ext ℚ)) (H : Hist (Ext ℚ)),
    Q.solve (.flt (.fin 2)) Toy.z 10 = some (Q', none) ∧ Q.prob = some P ∧ Q'.hist = some H ∧
    FinBattery P (1 / 2) 0 1 (1 / 2) 1 ∧ P.tStep = .fin (1 / 2) ∧ Q.cfg.integrator = .rk4 ∧ Q.cfg.useSundman = false ∧
    (∃ a b, H.controls[0]? = some (a, b, 0)) ∧ H.etasBounds[0]? = some (.fin 2, .fin 0) ∧
    H.battery[0]? = some (.fin (1 / 2)) ∧ H.battery[1]? = some (.fin 0) := by
  obtain ⟨Q', H, h1, h2, -, h4, h5, h6, h7⟩ := Toy.bat_of (P := Toy.bat true) (a := .flt (.fin 2)) (n := 10)
    (θs := [0, 0, 0, 0, 0])
    (ts := [.fin 0, .fin (1 / 2), .fin 1, .fin (3 / 2), .fin 2, .fin (5 / 2)])
    (bs := [.fin (1 / 2), .fin 0, .fin (1 / 4), .fin (1 / 2), .fin (3 / 4), .fin 1])
    (es := [(.fin 2, .fin 0), (.nan, .nan), (.nan, .nan), (.nan, .nan), (.nan, .nan)]) (by decide +kernel)
  exact ⟨_, Q', _, H, h1, rfl, h2, ⟨rfl, rfl, rfl, rfl, rfl⟩, rfl, rfl, rfl, h4 0 0 rfl, by rw [h7]; rfl, by rw [h6]; rfl,
    by rw [h6]; rfl⟩

/-- C124: a run that thrusts, waits for the full recharge and would thrust again; half a unit is drawn, one is supplied -/
example : ∃ (Q' : QLaw (Ext ℚ)) (H : Hist (Ext ℚ)), (Toy.obj Toy.cfg (Toy.bat true)).solve Toy.z Toy.z 10 = some (Q', none) ∧
    Q'.hist = some H ∧ spent (1 : ℚ) (fun j => j / 2) (fun j => if j = 0 then 1 else 0) 5 = 1 / 2 ∧
    supplied (1 / 2 : ℚ) (fun j => j / 2) (fun j => if j = 0 then 1 else 0) 5 = 1 ∧
    (∀ j ≤ 5, H.times[j]? = some (.fin ((j : ℚ) / 2))) ∧
    ∀ j < 5, ∃ a b, H.controls[j]? = some (a, b, if j = 0 then 1 else 0) := by
  obtain ⟨Q', H, h1, h2, -, h4, h5, h6, h7⟩ := Toy.bat_of (P := Toy.bat true) (a := Toy.z) (n := 10) (θs := [1, 0, 0, 0, 0])
    (ts := [.fin 0, .fin (1 / 2), .fin 1, .fin (3 / 2), .fin 2, .fin (5 / 2)])
    (bs := [.fin (1 / 2), .fin 0, .fin (1 / 4), .fin (1 / 2), .fin (3 / 4), .fin 1])
    (es := [(.fin 0, .fin 0), (.nan, .nan), (.nan, .nan), (.nan, .nan), (.nan, .nan)]) (by decide +kernel)
  refine ⟨Q', H, h1, h2, by simp [spent], ?_, fun j hj => ?_, fun j hj => h4 j _ ?_⟩
  · simp [supplied, Finset.sum_range_succ]; norm_num
  · rw [h5]; interval_cases j <;> simp <;> norm_num
  · interval_cases j <;> rfl

/-- **C124 is violated**: a run without `require_full_recharge` whose thrusting steps draw 3/2 from a battery that held 1/2
and was supplied 1/2 -/
theorem C124_overdrawn : ∃ (Q Q' : QLaw (Ext ℚ)) (P : Problem (Ext ℚ)) (H : Hist (Ext ℚ)) (τ : ℕ → ℚ) (θ : ℕ → ℕ),
    Q.solve Toy.z Toy.z 10 = some (Q', none) ∧ Q.prob = some P ∧ Q'.hist = some H ∧
    FinBattery P (1 / 2) 0 1 (1 / 2) 1 ∧ P.tStep = .fin (1 / 2) ∧ P.requireFullRecharge = false ∧
    Q.cfg.integrator = .rk4 ∧ Q.cfg.useSundman = false ∧ AnglesDefined Q.cfg ∧ P.dutyOff = .fin 0 ∧
    H.battery[1]? = some (.fin 0) ∧ H.controls.length = 5 ∧
    (∀ j ≤ 5, H.times[j]? = some (.fin (τ j))) ∧ (∀ j < 5, ∃ a b, H.controls[j]? = some (a, b, θ j)) ∧
    spent 1 τ θ 5 = 3 / 2 ∧ supplied (1 / 2) τ θ 5 = 1 / 2 := by
  obtain ⟨Q', H, h1, h2, h3, h4, h5, h6, h7⟩ := Toy.bat_of (P := Toy.bat false) (a := Toy.z) (n := 10)
    (θs := [1, 0, 1, 0, 1])
    (ts := [.fin 0, .fin (1 / 2), .fin 1, .fin (3 / 2), .fin 2, .fin (5 / 2)])
    (bs := [.fin (1 / 2), .fin 0, .fin (1 / 4), .fin 0, .fin (1 / 4), .fin 0])
    (es := [(.fin 0, .fin 0), (.nan, .nan), (.fin 0, .fin 0), (.nan, .nan), (.fin 0, .fin 0)]) (by decide +kernel)
  refine ⟨_, Q', _, H, fun j => j / 2, fun j => (j + 1) % 2, h1, rfl, h2, ⟨rfl, rfl, rfl, rfl, rfl⟩, rfl, rfl, rfl, rfl,
    Toy.angles, rfl, by rw [h6]; rfl, h3, fun j hj => ?_, fun j hj => h4 j _ ?_, ?_, ?_⟩
  · rw [h5]; interval_cases j <;> simp <;> norm_num
  · interval_cases j <;> rfl
  · simp [spent, Finset.sum_range_succ]; norm_num
  · simp [supplied, Finset.sum_range_succ]; norm_num

end PyQ
