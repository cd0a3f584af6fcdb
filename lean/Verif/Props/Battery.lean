import Verif.Props.Mass
import Verif.Props.Outcome

/-! # Battery and duty (C15–C18, C20, C21) -/

set_option linter.unusedSectionVars false
set_option maxRecDepth 100000

namespace PyQ

section lawfree
variable {α : Type} [Add α] [Sub α] [Mul α] [Div α] [Neg α] [NatCast α] [Pow α ℕ]
  [PyTrans α] [PyOrd α] [PyNan α]

theorem dutyOnAt_rec {E : Env α} {s : LoopSt α} {D : StepData α} (hr : RecStep E s D) :
    dutyOnAt E s = D.d.duty := by
  unfold dutyOnAt
  simp only [hr.clamp, hr.choose, ← hr.duty]

/-! ## C15 -/

/-- `np.clip` stays between ordered bounds, or returns NaN -/
theorem npclip_ord [OrdLaws α] {lo hi : α} (h : PyOrd.le lo hi = true) (x : α) :
    PyNan.isnan (npclip x lo hi) = true ∨
    (PyOrd.le lo (npclip x lo hi) = true ∧ PyOrd.le (npclip x lo hi) hi = true) := by
  have hlo := OrdLaws.le_left lo hi h
  have hhi := OrdLaws.le_right lo hi h
  unfold npclip npmin npmax
  cases hx : PyNan.isnan x with
  | true => simp [hx]
  | false =>
    cases h1 : PyOrd.lt x lo with
    | true =>
      simp only [hlo, h1, if_true, hhi, Bool.false_eq_true, if_false]
      cases h2 : PyOrd.lt hi lo with
      | true =>
        have := ((OrdLaws.lt_iff hi lo).mp h2).2.2
        rw [h] at this; cases this
      | false => right; simp [OrdLaws.le_refl lo hlo, h]
    | false =>
      simp only [hlo, h1, hx, hhi, Bool.false_eq_true, if_false]
      have hlx : PyOrd.le lo x = true := by
        cases h3 : PyOrd.le lo x with
        | true => rfl
        | false => rw [(OrdLaws.lt_iff x lo).mpr ⟨hx, hlo, h3⟩] at h1; cases h1
      cases h2 : PyOrd.lt hi x with
      | true => right; simp [OrdLaws.le_refl hi hhi, h]
      | false =>
        right
        have hxh : PyOrd.le x hi = true := by
          cases h3 : PyOrd.le x hi with
          | true => rfl
          | false => rw [(OrdLaws.lt_iff hi x).mpr ⟨hhi, hx, h3⟩] at h2; cases h2
        simp [hlx, hxh]

/-- **C15, any arithmetic with IEEE comparison.** With ordered capacity bounds, every battery level
recorded after a step is NaN or lies in the capacity interval. Both integrators. -/
theorem C15_battery_in_capacity [OrdLaws α] {Q Q' : QLaw α} {etaA etaR : EtaArg α} {fuel : ℕ}
    {P : Problem α} {H : Hist α} (h : Q.solve etaA etaR fuel = some (Q', none))
    (hP : Q.prob = some P) (hH : Q'.hist = some H) (hc : PyOrd.le P.capMin P.capMax = true) :
    ∀ b ∈ H.battery.drop 1, PyNan.isnan b = true ∨
      (PyOrd.le P.capMin b = true ∧ PyOrd.le b P.capMax = true) := by
  obtain ⟨n, tr, D, r, hr, _, v⟩ := solve_view h hP hH
  intro b hb
  obtain ⟨k, hk⟩ := List.mem_iff_getElem?.mp hb
  rw [List.getElem?_drop] at hk
  obtain ⟨h1, h2⟩ := v.battery_lt hk
  have hk' : k < n := by omega
  rw [show 1 + k = k + 1 by omega, step_battery v.trace hk'] at h2
  rw [h2]
  unfold batteryPhase
  cases (D k).d.duty
  · exact npclip_ord hc _
  · exact npclip_ord hc _

/-! ## C16 -/

/-- **C16, any arithmetic.** A step with throttle 1 started from a battery level that is not at its
floor (`battery <= capacity[0] + 1e-12` is false). -/
theorem C16_no_thrust_depleted {Q Q' : QLaw α} {etaA etaR : EtaArg α} {fuel : ℕ}
    {P : Problem α} {H : Hist α} (h : Q.solve etaA etaR fuel = some (Q', none))
    (hP : Q.prob = some P) (hH : Q'.hist = some H) {k : ℕ} {a b : α}
    (hk : H.controls[k]? = some (a, b, 1)) :
    ∃ l, H.battery[k]? = some l ∧ PyOrd.le l (P.capMin + rat 1 (10 ^ 12)) = false := by
  obtain ⟨n, tr, D, r, hr, _, v⟩ := solve_view h hP hH
  obtain ⟨hkn, hx⟩ := v.controls_lt hk
  injection hx with _ hx
  injection hx with _ hθ
  refine ⟨_, v.battery_get hkn.le, ?_⟩
  have hd := duty_of_throttle v.trace hkn hθ.symm
  cases hf : PyOrd.le (tr k).battery (P.capMin + rat 1 (10 ^ 12)) with
  | false => rfl
  | true =>
    rw [step_dutyPhase v.trace hkn] at hd
    change (dutyPhase P (tr k) (D k).step0).duty = true at hd
    rw [duty_floor hf] at hd
    cases hd

/-- a run that drains its battery, coasts at the floor and thrusts again -/
example : (((Toy.obj Toy.cfg { Toy.prob with tfMax := .fin 2, dischargeRate := .fin 1, chargeRate := .fin 1, oeT := [.fin 9, .fin 0, .fin 0, .fin 0, .fin 0] }).solve
    Toy.z Toy.z 10).bind fun p => p.1.hist.map fun H =>
      (H.battery, H.controls.map fun x => x.2.2)) =
    some ([.fin 1, .fin (1 / 2), .fin 0, .fin (1 / 2), .fin 0], [1, 1, 0, 1]) := by decide +kernel

/-! ## C17 -/

theorem charging_after_off {E : Env α} {n : ℕ} {tr : ℕ → LoopSt α} {D : ℕ → StepData α}
    (hT : IsTrace E n tr D) {k : ℕ} (hk : k < n) (hd : (D k).d.duty = false)
    (hc : (D k).d.charging = true) (hne : PyOrd.eq (tr (k + 1)).battery E.prob.capMax = false) :
    (tr (k + 1)).charging = true := by
  have h1 := step_battery hT hk
  rw [step_charging hT hk]
  unfold batteryPhase at h1 ⊢
  rw [hd] at h1 ⊢
  simp only [Bool.false_eq_true, if_false] at h1 ⊢
  rw [← h1, hne, hc]
  rfl

/-- **C17, any arithmetic.** With `require_full_recharge=True`: if step `j` found the battery at its
floor and step `k ≥ j` thrusts, then some level recorded strictly after step `j` started and not
after step `k` started is full: it equals `capacity[1]`, or at least is not below it. -/
theorem C17_full_recharge {Q Q' : QLaw α} {etaA etaR : EtaArg α} {fuel : ℕ}
    {P : Problem α} {H : Hist α} (h : Q.solve etaA etaR fuel = some (Q', none))
    (hP : Q.prob = some P) (hH : Q'.hist = some H) (hR : P.requireFullRecharge = true)
    {j k : ℕ} (hjk : j ≤ k) {l : α} (hj : H.battery[j]? = some l)
    (hfl : PyOrd.le l (P.capMin + rat 1 (10 ^ 12)) = true) {a b : α}
    (hk : H.controls[k]? = some (a, b, 1)) :
    ∃ i l', j < i ∧ i ≤ k ∧ H.battery[i]? = some l' ∧
      (PyOrd.eq l' P.capMax = true ∨ PyOrd.lt l' P.capMax = false) := by
  obtain ⟨n, tr, D, r, hr, _, v⟩ := solve_view h hP hH
  obtain ⟨hkn, hx⟩ := v.controls_lt hk
  injection hx with _ hx
  injection hx with _ hθ
  obtain ⟨hjn, hl⟩ := v.battery_lt hj
  have hdk := duty_of_throttle v.trace hkn hθ.symm
  by_contra hno
  push Not at hno
  have hno' : ∀ i, j < i → i ≤ k → PyOrd.eq (tr i).battery P.capMax = false ∧
      PyOrd.lt (tr i).battery P.capMax = true := by
    intro i h1 h2
    have := hno i _ h1 h2 (v.battery_get (by omega))
    simpa using this
  have hfloorj : atFloor P (tr j) = true := by unfold atFloor; rw [← hl]; exact hfl
  -- while charging, every step is off
  have hoff : ∀ i, j ≤ i → i ≤ k → (i = j ∨ (tr i).charging = true) →
      (D i).d.duty = false ∧ (D i).d.charging = true := by
    intro i h1 h2 h3
    have hin : i < n := by omega
    rw [step_dutyPhase v.trace hin]
    show (dutyPhase P (tr i) (D i).step0).duty = false ∧ (dutyPhase P (tr i) (D i).step0).charging = true
    cases hf : atFloor P (tr i) with
    | true => rw [duty_floor hf]; exact ⟨rfl, rfl⟩
    | false =>
      rcases h3 with rfl | h3
      · rw [hfloorj] at hf; cases hf
      · have hij : j < i := by
          rcases Nat.lt_or_ge j i with h4 | h4
          · exact h4
          · have : i = j := by omega
            subst this; rw [hfloorj] at hf; cases hf
        rw [duty_noFloor hf]
        simp [hR, h3, (hno' i hij h2).2]
  have hch : ∀ i, j < i → i ≤ k → (tr i).charging = true := by
    intro i h1
    induction i, h1 using Nat.le_induction with
    | base =>
      intro h2
      obtain ⟨h3, h4⟩ := hoff j le_rfl hjk (Or.inl rfl)
      exact charging_after_off v.trace (by omega) h3 h4 (hno' (j + 1) (by omega) h2).1
    | succ i h1 ih =>
      intro h2
      obtain ⟨h3, h4⟩ := hoff i (by omega) (by omega) (Or.inr (ih (by omega)))
      exact charging_after_off v.trace (by omega) h3 h4 (hno' (i + 1) (by omega) h2).1
  have : (D k).d.duty = false := by
    rcases Nat.lt_or_ge j k with h1 | h1
    · exact (hoff k hjk le_rfl (Or.inr (hch k h1 le_rfl))).1
    · have : k = j := by omega
      exact (hoff k hjk le_rfl (Or.inl this)).1
  rw [this] at hdk
  cases hdk

/-! ## C21 -/

/-- the first iteration from a battery at its floor never completes -/
theorem floor_start_iter {E : Env α}
    (hfl : PyOrd.le E.prob.batteryInitial (E.prob.capMin + rat 1 (10 ^ 12)) = true) :
    ∃ s e, iter E (initLoop E.prob) = .err s e ∧ s.hist.controls = [] ∧
      ((∃ s1 st c y, clampPhase E.cfg (initLoop E.prob) = .ok s1 ∧
        chooseStep E.cfg E.prob s1.oe = .ok st ∧
        controlPhase E s1 (dutyPhase E.prob s1 st) = .ok (.ctl c) ∧
        propagatePhase E s1 (dutyPhase E.prob s1 st).step c = .ok y) → e = .unboundLocal) := by
  have hduty : ∀ s1 st, clampPhase E.cfg (initLoop E.prob) = .ok s1 →
      (dutyPhase E.prob s1 st).duty = false := by
    intro s1 st hc
    have : atFloor E.prob s1 = true := by
      unfold atFloor; rw [clamp_battery hc]; exact hfl
    rw [duty_floor this]
  rcases iter_cases E (initLoop E.prob) with ⟨e, h1, h2⟩ | ⟨s1, e, h1, h2, h3⟩ |
    ⟨s1, st, n, h1, h2, h3, _⟩ | ⟨s1, st, c, oe, hb, h1, h2, h3, h4, h5, s', h6, h7⟩ | ⟨D, hD⟩
  · refine ⟨_, e, h2, rfl, ?_⟩
    rintro ⟨s1, _, _, _, h3, _⟩
    rw [h1] at h3; cases h3
  · refine ⟨s1, e, h2, by rw [clamp_controls h1]; rfl, ?_⟩
    rintro ⟨s1', st', c', y, g1, g2, g3, g4⟩
    rw [h1] at g1; cases g1
    rcases h3 with h3 | ⟨st, h3, h5 | ⟨c, h5, h6⟩⟩
    · rw [h3] at g2; cases g2
    · rw [h3] at g2; cases g2
      rw [h5] at g3; cases g3
    · rw [h3] at g2; cases g2
      rw [h5] at g3; cases g3
      rw [h6] at g4; cases g4
  · obtain ⟨_, _, _, _, hd, _⟩ := control_nanBreak h3
    rw [hduty s1 st h1] at hd; cases hd
  · refine ⟨s', .unboundLocal, h6, ?_, fun _ => rfl⟩
    rw [h7]
    show s1.hist.controls = []
    rw [clamp_controls h1]; rfl
  · exfalso
    have hd : D.d.duty = false := by rw [hD.duty]; exact hduty _ _ hD.clamp
    obtain ⟨o, _, _, _, _, _, hk⟩ := control_ctl hD.ctl
    cases hk with
    | off _ ha =>
      have h1 := hD.alpha
      rw [ha, clamp_alpha hD.clamp] at h1
      cases h1
    | nan hd' => rw [hd] at hd'; cases hd'
    | free hd' => rw [hd] at hd'; cases hd'
    | gated _ _ hd' => rw [hd] at hd'; cases hd'

/-- **C21 is violated, in general.** A problem that starts with the battery at its floor and has time
left never completes its first step: the loop raises and records no control. If the clamp, the
step choice, the control law and the propagation of that step all succeed, the exception is
`UnboundLocalError`. -/
theorem C21_floor_start_raises {Q Q' : QLaw α} {etaA etaR : EtaArg α} {fuel : ℕ} {e : Option PyErr}
    {P : Problem α} (h : Q.solve etaA etaR fuel = some (Q', e)) (hR : Q.ready = true)
    (hv : etaA.valid = true) (hP : Q.prob = some P)
    (hfl : PyOrd.le P.batteryInitial (P.capMin + rat 1 (10 ^ 12)) = true)
    (hg : PyOrd.lt (PyOrd.abs ((0 : ℕ) : α)) (PyOrd.abs P.tfMax) = true) :
    e ≠ none ∧ (∃ H, Q'.hist = some H ∧ H.controls = []) ∧
    ((∃ s1 st c y, clampPhase Q.cfg (initLoop P) = .ok s1 ∧ chooseStep Q.cfg P s1.oe = .ok st ∧
        controlPhase (envOf Q P etaA etaR) s1 (dutyPhase P s1 st) = .ok (.ctl c) ∧
        propagatePhase (envOf Q P etaA etaR) s1 (dutyPhase P s1 st).step c = .ok y) →
      e = some .unboundLocal) := by
  obtain ⟨s, e', h1, h2, h3⟩ := floor_start_iter (E := envOf Q P etaA etaR) hfl
  unfold QLaw.solve at h
  rw [hR, hP] at h
  simp only [hv, if_true] at h
  change Option.map _ (loop (envOf Q P etaA etaR) fuel (initLoop P)) = _ at h
  cases fuel with
  | zero => cases h
  | succ fuel =>
    unfold loop at h
    have hg' : guardB (envOf Q P etaA etaR).prob (initLoop P) = true := hg
    rw [hg', if_pos rfl] at h
    change iter (envOf Q P etaA etaR) (initLoop P) = _ at h1
    rw [h1] at h
    simp only [Option.map_some, Option.some.injEq, Prod.mk.injEq, RunRes.error?] at h
    obtain ⟨hQ, he⟩ := h
    subst hQ he
    refine ⟨by simp, ⟨s.hist, rfl, h2⟩, ?_⟩
    intro hex
    rw [h3 hex]

/-- the toy problem with an empty battery -/
example : Toy.seen Toy.cfg { Toy.prob with batteryInitial := .fin 0 } Toy.z Toy.z 10 =
    some (some .unboundLocal, 0, false, 0) := by decide +kernel

/-- **C21 (partial).** Once one step has been recorded, coasting imposed by the battery or the duty
cycle never raises: whatever exception ends the run, the histories are aligned. Missing: the first
step, see `C21_floor_start_raises`. -/
theorem C21_later_coast_partial {Q Q' : QLaw α} {etaA etaR : EtaArg α} {fuel : ℕ}
    {e : Option PyErr} {H : Hist α} (h : Q.solve etaA etaR fuel = some (Q', e))
    (h0 : Q.hist = none) (hH : Q'.hist = some H) (hne : H.controls ≠ []) :
    ∃ n, Aligned H n := by
  rcases solve_cases h with ⟨h1, _⟩ | ⟨h1, _⟩ | ⟨P, n, tr, D, r, hr⟩
  · rw [h1, h0] at hH; cases hH
  · rw [h1, h0] at hH; cases hH
  · have hr2 : r.st.hist = H := by
      have := hr.obj
      rw [this] at hH
      have h3 : some r.st.hist = some H := hH
      injection h3
    by_cases hu : r.error? = some .unboundLocal
    · refine ⟨n, ?_⟩
      have hA := aligned_of_trace hr.trace
      cases hr.ends with
      | timeout => cases hu
      | exit => cases hu
      | nan => cases hu
      | raised s e' hC hg hi =>
        rcases iter_cases (envOf Q P etaA etaR) (tr n) with ⟨e', _, h1⟩ | ⟨s1, e', h2, h1, _⟩ |
          ⟨s1, st, k, _, _, _, s2, h1, _⟩ | ⟨s1, st, c, oe, hb, hc1, _, hc2, _, hc3, s2, h1, hh⟩ |
          ⟨D', h1⟩
        · rw [h1] at hi; injection hi with ha hb; subst ha; rw [← hr2]; exact hA
        · rw [h1] at hi; injection hi with ha hb; subst ha; rw [← hr2]; exact aligned_clamp hA h2
        · rw [h1] at hi; cases hi
        · exfalso
          rw [h1] at hi; injection hi with ha hb; subst ha
          cases n with
          | zero =>
            apply hne
            rw [← hr2]
            show s2.hist.controls = []
            rw [hh]
            show s1.hist.controls = []
            rw [clamp_controls hc1, hr.trace.init]
            rfl
          | succ m =>
            have hs := hr.trace.succ_eq (Nat.lt_succ_self m)
            have hal : s1.alpha = some (D m).a := by
              rw [clamp_alpha hc1, hs]; exact (hr.trace.step m (Nat.lt_succ_self m)).alpha
            have hbe : s1.beta = some (D m).b := by
              rw [clamp_beta hc1, hs]; exact (hr.trace.step m (Nat.lt_succ_self m)).beta
            obtain ⟨o, _, _, _, _, _, hk⟩ := control_ctl hc2
            cases hk with
            | off _ ha hb =>
              rw [ha, hb, hal, hbe] at hc3
              rcases hc3 with h | h <;> cases h
            | nan _ _ _ ha hb =>
              rw [ha, hb] at hc3
              rcases hc3 with h | h <;> cases h
            | free _ _ _ _ _ ha hb =>
              rw [ha, hb] at hc3
              rcases hc3 with h | h <;> cases h
            | gated _ _ _ _ _ _ _ _ _ _ ha hb =>
              rw [ha, hb] at hc3
              rcases hc3 with h | h <;> cases h
        · rw [h1.iter_eq] at hi
          rcases exitPhase_cases (envOf Q P etaA etaR) D'.c.oeT
            (postState (envOf Q P etaA etaR) D') with h2 | h2 | h2 | h2 <;>
            rw [h2.1] at hi <;> cases hi
    · exact ⟨n, by rw [← hr2]; exact ends_aligned hr.trace hr.ends hu⟩

/-- a run that reaches the battery floor after one step and coasts -/
example : Toy.seen Toy.cfg
    { Toy.prob with batteryInitial := .fin (1 / 2), dischargeRate := .fin 1, tfMax := .fin 1 } Toy.z Toy.z 10 =
    some (none, -2, false, 2) := by decide +kernel

end lawfree

variable {K : Type} [Field K] [LinearOrder K] [IsStrictOrderedRing K] [PyTrans (Ext K)]

/-! ## C15, finiteness -/

theorem clampStep_fin (a b : K) (x : Ext K) :
    ∃ y, pymax (.fin a) (pymin (.fin b) x) = Ext.fin y := by
  have h1 : pymin (.fin b) x = .ninf ∨ ∃ y, pymin (.fin b) x = Ext.fin y := by
    unfold pymin
    cases x with
    | nan => right; exact ⟨b, by simp⟩
    | ninf => left; rfl
    | pinf => right; exact ⟨b, rfl⟩
    | fin z =>
      right
      by_cases h : z < b
      · exact ⟨z, by simp [h]⟩
      · exact ⟨b, by simp [h]⟩
  rcases h1 with h1 | ⟨y, h1⟩
  · exact ⟨a, by rw [h1]; rfl⟩
  · rw [h1]
    unfold pymax
    by_cases h : a < y
    · exact ⟨y, by simp [h]⟩
    · exact ⟨a, by simp [h]⟩

/-- the step used by the battery update is finite when the recorded times and the step limits are -/
theorem hBat_fin {E : Env (Ext K)} {n : ℕ} {tr : ℕ → LoopSt (Ext K)} {D : ℕ → StepData (Ext K)}
    (hT : IsTrace E n tr D) {τ : ℕ → K} (ht : ∀ k ≤ n, (tr k).t = .fin (τ k)) {s1 s2 : K}
    (h1 : E.cfg.stepMin = .fin s1) (h2 : E.cfg.stepMax = .fin s2) {k : ℕ} (hk : k < n) :
    ∃ y, (D k).hBat = .fin y := by
  cases hi : E.cfg.integrator with
  | rk4 =>
    rw [hBat_rk4 hT hk hi]
    have h3 := step_t hT hk
    rw [ht k hk.le, ht (k + 1) hk] at h3
    exact ⟨_, fin_add_fin h3.symm⟩
  | rkf45 =>
    obtain ⟨x, hx⟩ := hBat_rkf45 hT hk hi
    rw [hx, h1, h2]
    exact clampStep_fin _ _ _

theorem View.t_of_times {E : Env (Ext K)} {H : Hist (Ext K)} {n m : ℕ} {tr : ℕ → LoopSt (Ext K)}
    {D : ℕ → StepData (Ext K)} (v : View E H n tr D) {τ : ℕ → K}
    (hτ : H.times = (List.range (m + 1)).map fun k => Ext.fin (τ k)) :
    n = m ∧ ∀ k ≤ n, (tr k).t = .fin (τ k) := by
  have hn : n = m := by
    have := v.times_length
    rw [hτ] at this
    simpa using this.symm
  subst hn
  refine ⟨rfl, ?_⟩
  intro k hk
  have h1 := v.times_get hk
  rw [hτ, List.getElem?_map, List.getElem?_range (by omega)] at h1
  simpa using h1.symm

theorem battery_fin {E : Env (Ext K)} {n : ℕ} {tr : ℕ → LoopSt (Ext K)} {D : ℕ → StepData (Ext K)}
    (hT : IsTrace E n tr D) {τ : ℕ → K} (ht : ∀ k ≤ n, (tr k).t = .fin (τ k)) {s1 s2 : K}
    (h1 : E.cfg.stepMin = .fin s1) (h2 : E.cfg.stepMax = .fin s2) {b0 cm cM c d : K}
    (hB : FinBattery E.prob b0 cm cM c d) : ∀ k ≤ n, ∃ b, (tr k).battery = .fin b := by
  intro k
  induction k with
  | zero => intro _; rw [hT.init]; exact ⟨b0, hB.initial⟩
  | succ k ih =>
    intro hk
    obtain ⟨b, hb⟩ := ih (by omega)
    obtain ⟨y, hy⟩ := hBat_fin hT ht h1 h2 (show k < n by omega)
    rw [step_battery hT hk, hb, hy]
    unfold batteryPhase
    rw [hB.capMin, hB.capMax, hB.charge, hB.discharge]
    cases (D k).d.duty
    · simp only [Bool.false_eq_true, if_false, Ext.fin_mul, Ext.fin_add, npclip_fin]
      exact ⟨_, rfl⟩
    · simp only [if_true, Ext.fin_mul, Ext.fin_sub, npclip_fin]
      exact ⟨_, rfl⟩

/-- **C15, finite inputs.** With finite battery parameters and `capacity[0] ≤ capacity[1]`, finite
recorded times (see C09, C12) and the finite step limits of the object, every level recorded after a
step is a finite number in the capacity interval. Both integrators. -/
theorem C15_battery_finite {Q Q' : QLaw (Ext K)} {etaA etaR : EtaArg (Ext K)} {fuel : ℕ}
    {P : Problem (Ext K)} {H : Hist (Ext K)} {b0 cm cM c d s1 s2 : K} {n : ℕ} {τ : ℕ → K}
    (hs : Q.solve etaA etaR fuel = some (Q', none)) (hP : Q.prob = some P)
    (hH : Q'.hist = some H) (hB : FinBattery P b0 cm cM c d) (hcap : cm ≤ cM)
    (hτ : H.times = (List.range (n + 1)).map fun k => Ext.fin (τ k))
    (h1 : Q.cfg.stepMin = .fin s1) (h2 : Q.cfg.stepMax = .fin s2) :
    H.battery.head? = some (.fin b0) ∧
    ∀ b ∈ H.battery.drop 1, ∃ x, b = .fin x ∧ cm ≤ x ∧ x ≤ cM := by
  obtain ⟨n', tr, D, r, hr, _, v⟩ := solve_view hs hP hH
  obtain ⟨rfl, ht⟩ := v.t_of_times hτ
  refine ⟨?_, ?_⟩
  · rw [List.head?_eq_getElem?, v.battery_get (Nat.zero_le _), v.trace.init]
    show some P.batteryInitial = _
    rw [hB.initial]
  · intro b hb
    obtain ⟨k, hk⟩ := List.mem_iff_getElem?.mp hb
    rw [List.getElem?_drop] at hk
    obtain ⟨g1, g2⟩ := v.battery_lt hk
    have hk' : k < n' := by omega
    obtain ⟨x, hx⟩ := battery_fin v.trace ht h1 h2 hB (k + 1) (by omega)
    rw [show 1 + k = k + 1 by omega, hx] at g2
    refine ⟨x, g2, ?_⟩
    rw [step_battery v.trace hk'] at hx
    rcases batteryPhase_mem hB hcap (tr k).battery (D k).d.duty (D k).d.charging (D k).hBat with
      h3 | ⟨y, h3, h4⟩
    · exact absurd (hx.symm.trans h3) (by simp)
    · have := hx.symm.trans h3
      injection this with this
      rw [this]; exact h4

/-- discharge, shortened step to the floor, recharge clipped at capacity, discharge -/
example :
    Toy.clock Toy.cfg { Toy.prob with batteryInitial := .fin (3 / 4), dischargeRate := .fin 1, chargeRate := .fin 3, tfMax := .fin (7 / 4) } 10 =
    some (none, [.fin 0, .fin (1 / 2), .fin (3 / 4), .fin (5 / 4), .fin (7 / 4)],
      [.fin (3 / 4), .fin (1 / 4), .fin 0, .fin 1, .fin (1 / 2)]) := by decide +kernel

/-! ## C17, exact levels -/

/-- **C17.** With finite data (as in C15) and `require_full_recharge=True`: after a step that found the
battery at its floor, no step thrusts until a recorded level equals `capacity[1]`. -/
theorem C17_full_recharge_exact {Q Q' : QLaw (Ext K)} {etaA etaR : EtaArg (Ext K)} {fuel : ℕ}
    {P : Problem (Ext K)} {H : Hist (Ext K)} {b0 cm cM c d s1 s2 : K} {n : ℕ} {τ : ℕ → K}
    (hs : Q.solve etaA etaR fuel = some (Q', none)) (hP : Q.prob = some P)
    (hH : Q'.hist = some H) (hB : FinBattery P b0 cm cM c d) (hcap : cm ≤ cM)
    (hτ : H.times = (List.range (n + 1)).map fun k => Ext.fin (τ k))
    (h1 : Q.cfg.stepMin = .fin s1) (h2 : Q.cfg.stepMax = .fin s2)
    (hR : P.requireFullRecharge = true) {j k : ℕ} (hjk : j ≤ k) {l : K}
    (hj : H.battery[j]? = some (.fin l)) (hfl : l ≤ cm + 1 / 10 ^ 12) {a b : Ext K}
    (hk : H.controls[k]? = some (a, b, 1)) :
    ∃ i, j < i ∧ i ≤ k ∧ H.battery[i]? = some (.fin cM) := by
  have hfl' : PyOrd.le (Ext.fin l) (P.capMin + rat 1 (10 ^ 12)) = true := by
    rw [hB.capMin, tiny_fin, Ext.fin_add, Ext.le_fin, decide_eq_true_eq]; exact hfl
  obtain ⟨i, l', h3, h4, h5, h6⟩ := C17_full_recharge hs hP hH hR hjk hj hfl' hk
  refine ⟨i, h3, h4, ?_⟩
  obtain ⟨_, hmem⟩ := C15_battery_finite hs hP hH hB hcap hτ h1 h2
  obtain ⟨x, rfl, hx1, hx2⟩ := hmem l' (by
    rw [List.mem_iff_getElem?]
    exact ⟨i - 1, by rw [List.getElem?_drop, show 1 + (i - 1) = i by omega]; exact h5⟩)
  rw [h5]
  rw [hB.capMax] at h6
  congr 2
  rcases h6 with h6 | h6
  · simpa using h6
  · have : cM ≤ x := by simpa using h6
    exact le_antisymm hx2 this

/-- floor reached at the third time, two charging steps, then thrust again -/
example : (((Toy.obj Toy.cfg { Toy.prob with batteryInitial := .fin 1, dischargeRate := .fin 1, chargeRate := .fin 1, requireFullRecharge := true, tfMax := .fin (5 / 2), oeT := [.fin 9, .fin 0, .fin 0, .fin 0, .fin 0] }).solve Toy.z Toy.z 10).bind
    fun p => p.1.hist.map fun H => (H.battery, H.controls.map fun x => x.2.2)) =
    some ([.fin 1, .fin (1 / 2), .fin 0, .fin (1 / 2), .fin 1, .fin (1 / 2)], [1, 1, 0, 0, 1]) := by
  decide +kernel

/-! ## C18 -/

/-- **C18 (partial).** With `rk4`, `require_full_recharge=True`, a forward problem and an initial level
inside the capacity: on every step with throttle 1 the battery drops by exactly the discharge rate
times the elapsed time. Missing: `require_full_recharge=False`, where it fails, see
`C18_free_energy`. -/
theorem C18_thrust_is_paid_partial {Q Q' : QLaw (Ext K)} {etaA etaR : EtaArg (Ext K)} {fuel : ℕ}
    {P : Problem (Ext K)} {H : Hist (Ext K)} {b0 cm cM c d h : K}
    (hs : Q.solve etaA etaR fuel = some (Q', none)) (hP : Q.prob = some P)
    (hH : Q'.hist = some H) (hB : FinBattery P b0 cm cM c d) (hb1 : cm ≤ b0) (hb2 : b0 ≤ cM)
    (hS : Q.cfg.useSundman = false) (hI : Q.cfg.integrator = .rk4) (hst : P.tStep = .fin h)
    (hh : 0 < h) (hd : 0 ≤ d) (hR : P.requireFullRecharge = true) {k : ℕ} {a b : Ext K}
    (hk : H.controls[k]? = some (a, b, 1)) :
    ∃ t t' l, H.times[k]? = some (.fin t) ∧ H.times[k + 1]? = some (.fin t') ∧
      H.battery[k]? = some (.fin l) ∧ H.battery[k + 1]? = some (.fin (l - d * (t' - t))) := by
  obtain ⟨n, tr, D, r, hr, _, v⟩ := solve_view hs hP hH
  have step := fun k (hk : k < n) => step_clock v.trace hB hS hst hh hd hk
  have hfin : ∀ k < n, ∃ st, (D k).d.step = .fin st := fun k hk => by
    obtain ⟨st, h1, _⟩ := step k hk; exact ⟨st, h1⟩
  have ht := trace_clock v.trace hfin
  have hcap : cm ≤ cM := hb1.trans hb2
  -- levels stay in the interval, and below capacity while charging
  have inv : ∀ k ≤ n, ∃ l, (tr k).battery = .fin l ∧ cm ≤ l ∧ l ≤ cM ∧
      ((tr k).charging = true → l < cM) := by
    intro k
    induction k with
    | zero =>
      intro _
      rw [v.trace.init]
      exact ⟨b0, hB.initial, hb1, hb2, fun h => by cases h⟩
    | succ k ih =>
      intro hk
      have hkn : k < n := by omega
      obtain ⟨l, hl1, hl2, hl3, hl4⟩ := ih (by omega)
      obtain ⟨st, hst1, hst2, _⟩ := step k hkn
      have hb := step_battery v.trace hkn
      have hc := step_charging v.trace hkn
      rw [hBat_rk4 v.trace hkn hI, hst1, hl1] at hb hc
      have hmem := batteryPhase_mem hB hcap (.fin l) (D k).d.duty (D k).d.charging (.fin st)
      have hdp := step_dutyPhase v.trace hkn
      change (D k).d = dutyPhase P (tr k) _ at hdp
      change _ = (batteryPhase P _ _ _ _).1 at hb
      change _ = (batteryPhase P _ _ _ _).2 at hc
      cases hdu : (D k).d.duty with
      | true =>
        -- thrust allowed: not charging
        have hnc : (D k).d.charging = false := by
          rw [hdp] at hdu ⊢
          cases hf : atFloor P (tr k) with
          | true => rw [duty_floor hf] at hdu; cases hdu
          | false =>
            rw [duty_noFloor hf] at hdu ⊢
            simp only at hdu ⊢
            cases hch : (tr k).charging with
            | false => rfl
            | true =>
              have : PyOrd.lt (tr k).battery P.capMax = true := by
                rw [hl1, hB.capMax]; simpa using hl4 hch
              simp [hR, hch, this] at hdu
        unfold batteryPhase at hb hc hmem
        rw [hdu] at hb hc hmem
        simp only [if_true] at hb hc hmem
        rw [hB.capMin, hB.capMax, hB.discharge, Ext.fin_mul, Ext.fin_sub, npclip_fin] at hb hmem
        refine ⟨_, hb, ?_, ?_, ?_⟩
        · exact le_min (le_max_right _ _) hcap
        · exact min_le_right _ _
        · intro h; rw [hc, hnc] at h; cases h
      | false =>
        unfold batteryPhase at hb hc
        rw [hdu] at hb hc
        simp only [Bool.false_eq_true, if_false] at hb hc
        rw [hB.capMin, hB.capMax, hB.charge, Ext.fin_mul, Ext.fin_add, npclip_fin] at hb hc
        refine ⟨_, hb, le_min (le_max_right _ _) hcap, min_le_right _ _, ?_⟩
        intro h
        rw [h] at hc
        rw [Ext.eq_fin] at hc
        by_contra hlt
        have heq : min (max (l + c * st) cm) cM = cM := le_antisymm (min_le_right _ _) (not_lt.mp hlt)
        rw [heq] at hc
        simp at hc
  obtain ⟨hkn, hx⟩ := v.controls_lt hk
  injection hx with _ hx
  injection hx with _ hθ
  have hdu := duty_of_throttle v.trace hkn hθ.symm
  obtain ⟨l, hl1, hl2, hl3, hl4⟩ := inv k hkn.le
  obtain ⟨st, hst1, hst2, hst3, hst4, _⟩ := step k hkn
  have h5 := trace_clock_step v.trace hfin hkn hst1
  refine ⟨(tr k).t.val, (tr (k + 1)).t.val, l, ?_, ?_, ?_, ?_⟩
  · rw [v.times_get hkn.le, ← ht k hkn.le]
  · rw [v.times_get hkn, ← ht (k + 1) hkn]
  · rw [v.battery_get hkn.le, hl1]
  · rw [v.battery_get hkn, step_battery v.trace hkn, hBat_rk4 v.trace hkn hI, hst1, hl1, h5]
    show some (batteryPhase P _ _ _ _).1 = _
    unfold batteryPhase
    rw [hdu, if_pos rfl, hB.capMin, hB.capMax, hB.discharge, Ext.fin_mul, Ext.fin_sub, npclip_fin]
    have hlow : cm ≤ l - d * st := by
      rcases hst3.eq_or_lt with he | hlt
      · -- full step: the limit did not apply
        have hdp := step_dutyPhase v.trace hkn
        change (D k).d = dutyPhase P (tr k) _ at hdp
        have hs0 : (D k).step0 = .fin h := by rw [step0_eq v.trace hkn hS]; exact hst
        rw [hs0] at hdp
        cases hf : atFloor P (tr k) with
        | true => rw [hdp, duty_floor hf] at hdu; cases hdu
        | false =>
          have hnc : (tr k).charging = false := by
            cases hch : (tr k).charging with
            | false => rfl
            | true =>
              have h6 : PyOrd.lt (tr k).battery P.capMax = true := by
                rw [hl1, hB.capMax]; simpa using hl4 hch
              rw [hdp, duty_noFloor hf] at hdu
              simp [hR, hch, h6] at hdu
          by_contra hlt
          rw [not_le] at hlt
          rw [hdp, duty_noFloor hf] at hst1
          rw [he] at hlt
          rw [hl1, hB.capMin, hB.discharge, Ext.fin_mul, Ext.fin_sub, Ext.lt_fin,
            decide_eq_true hlt, hnc] at hst1
          simp only [Bool.not_false, Bool.and_self, if_true] at hst1
          have hd' : d ≠ 0 := by
            intro h0; rw [h0] at hlt; linarith
          rw [Ext.fin_sub, Ext.fin_div _ _ hd'] at hst1
          injection hst1 with hst1
          have : l - cm = d * st := by rw [← hst1]; field_simp
          rw [he] at this
          linarith
      · obtain ⟨hd', b', hb', _, _, h6⟩ := hst4 hlt
        rw [hl1] at hb'
        injection hb' with hb'
        subst hb'
        have : d * st = l - cm := by rw [h6]; field_simp
        linarith
    have hhigh : l - d * st ≤ cM := by
      have := mul_nonneg hd hst2.le
      linarith
    rw [max_eq_left hlow, min_eq_left hhigh]
    congr 3
    ring

/-- **C18 is violated** with `require_full_recharge=False`: step 2 thrusts for 1/2 at discharge rate 1
while still recharging; the level only drops by 1/4. -/
theorem C18_free_energy : ∃ (Q Q' : QLaw (Ext ℚ)) (P : Problem (Ext ℚ)) (H : Hist (Ext ℚ)),
    Q.solve Toy.z Toy.z 10 = some (Q', none) ∧ Q.prob = some P ∧ Q'.hist = some H ∧
    FinBattery P (1 / 2) 0 1 (1 / 2) 1 ∧ P.tStep = .fin (1 / 2) ∧ P.requireFullRecharge = false ∧
    Q.cfg.integrator = .rk4 ∧ Q.cfg.useSundman = false ∧ (∃ a b, H.controls[2]? = some (a, b, 1)) ∧
    H.times[2]? = some (.fin 1) ∧ H.times[3]? = some (.fin (3 / 2)) ∧
    H.battery[2]? = some (.fin (1 / 4)) ∧ H.battery[3]? = some (.fin 0) := by
  have h : (((Toy.obj Toy.cfg { Toy.prob with batteryInitial := .fin (1 / 2), chargeRate := .fin (1 / 2), dischargeRate := .fin 1, tfMax := .fin (3 / 2) }).solve Toy.z Toy.z 10).bind
      fun p => p.1.hist.map fun H => (p.2, H.controls.map (fun x => x.2.2), H.times, H.battery)) =
      some (none, [1, 0, 1], [.fin 0, .fin (1 / 2), .fin 1, .fin (3 / 2)],
        [.fin (1 / 2), .fin 0, .fin (1 / 4), .fin 0]) := by decide +kernel
  rw [Option.bind_eq_some_iff] at h
  obtain ⟨⟨Q', e⟩, h1, h2⟩ := h
  rw [Option.map_eq_some_iff] at h2
  obtain ⟨H, h2, h3⟩ := h2
  simp only [Prod.mk.injEq] at h3
  obtain ⟨h3, h4, h5, h6⟩ := h3
  subst h3
  refine ⟨_, Q', _, H, h1, rfl, h2, ⟨rfl, rfl, rfl, rfl, rfl⟩, rfl, rfl, rfl, rfl, ?_, ?_, ?_, ?_, ?_⟩
  · have h7 := congrArg (fun l : List ℕ => l[2]?) h4
    simp only [List.getElem?_map] at h7
    have h8 : Option.map (fun x : Toy.N × Toy.N × ℕ => x.2.2) H.controls[2]? = some 1 := h7
    rw [Option.map_eq_some_iff] at h8
    obtain ⟨⟨a, b, θ⟩, h9, rfl⟩ := h8
    exact ⟨a, b, h9⟩
  · rw [h5]; rfl
  · rw [h5]; rfl
  · rw [h6]; rfl
  · rw [h6]; rfl

end PyQ
