import Verif.Proofs.View
import Verif.Examples.Toy

/-! # Step-size control inside `solve` (C32) -/

set_option linter.unusedSectionVars false
set_option maxRecDepth 100000
set_option synthInstance.maxSize 1000

namespace PyQ

variable {α : Type} [Add α] [Sub α] [Mul α] [Div α] [Neg α] [NatCast α] [Pow α ℕ]
  [PyTrans α] [PyOrd α] [PyNan α]

/-- **C32 is violated: the step is not adapted.** With either integrator and without the Sundman
transformation every recorded step is `t_step` long, or ends where the battery is predicted to be
empty; the integrator's suggestion plays no role. -/
theorem C32_step_not_adapted {Q Q' : QLaw α} {etaA etaR : EtaArg α} {fuel : ℕ} {P : Problem α}
    {H : Hist α} (h : Q.solve etaA etaR fuel = some (Q', none)) (hP : Q.prob = some P)
    (hH : Q'.hist = some H) (hS : Q.cfg.useSundman = false) {k : ℕ} {t t' b : α}
    (ht : H.times[k]? = some t) (ht' : H.times[k + 1]? = some t') (hb : H.battery[k]? = some b) :
    t' = t + P.tStep ∨ (t' = t + (b - P.capMin) / P.dischargeRate ∧
      PyOrd.lt (b - P.dischargeRate * P.tStep) P.capMin = true) := by
  obtain ⟨n, tr, D, r, hr, _, v⟩ := solve_view h hP hH
  have hk : k < n := by have := (v.times_lt ht').1; omega
  rw [(v.times_lt ht).2, (v.times_lt ht').2, (v.battery_lt hb).2, step_t v.trace hk,
    step_dutyPhase v.trace hk]
  have h0 : (D k).step0 = P.tStep := step0_eq v.trace hk hS
  rw [h0]
  change _ + (dutyPhase P (tr k) P.tStep).step = _ ∨ _ + (dutyPhase P (tr k) P.tStep).step = _ ∧ _
  cases hf : atFloor P (tr k) with
  | true => left; rw [duty_floor hf]
  | false =>
    rw [duty_noFloor hf]
    simp only
    split
    · rename_i h1
      rw [Bool.and_eq_true] at h1
      exact Or.inr ⟨rfl, h1.1⟩
    · exact Or.inl rfl

/-- the battery level after a step during which `h` of time is booked -/
def Booked (P : Problem α) (b b' h : α) : Prop :=
  b' = npclip (b - P.dischargeRate * h) P.capMin P.capMax ∨
  b' = npclip (b + P.chargeRate * h) P.capMin P.capMax

/-- **C32 (partial).** With `rk4` the battery is charged or discharged for the elapsed time of each
step. Missing: `rkf45`, see `C32_rkf45_books_suggestion` and `C32_violated`. -/
theorem C32_rk4_books_elapsed_partial {Q Q' : QLaw α} {etaA etaR : EtaArg α} {fuel : ℕ}
    {P : Problem α} {H : Hist α} (h : Q.solve etaA etaR fuel = some (Q', none))
    (hP : Q.prob = some P) (hH : Q'.hist = some H) (hi : Q.cfg.integrator = .rk4) {k : ℕ}
    {t t' b b' : α} (ht : H.times[k]? = some t) (ht' : H.times[k + 1]? = some t')
    (hb : H.battery[k]? = some b) (hb' : H.battery[k + 1]? = some b') :
    ∃ h, t' = t + h ∧ Booked P b b' h := by
  obtain ⟨n, tr, D, r, hr, _, v⟩ := solve_view h hP hH
  have hk : k < n := by have := (v.times_lt ht').1; omega
  rw [(v.times_lt ht).2, (v.times_lt ht').2, (v.battery_lt hb).2, (v.battery_lt hb').2]
  refine ⟨(D k).d.step, step_t v.trace hk, ?_⟩
  rw [step_battery v.trace hk, hBat_rk4 v.trace hk hi]
  unfold Booked batteryPhase
  cases (D k).d.duty
  · right; rfl
  · left; rfl

/-- **C32 is violated: the battery is charged for a different time.** With `rkf45` each step books
not the elapsed time but the integrator's suggestion for the next step, clamped to
`[step_min, step_max]`. -/
theorem C32_rkf45_books_suggestion {Q Q' : QLaw α} {etaA etaR : EtaArg α} {fuel : ℕ}
    {P : Problem α} {H : Hist α} (h : Q.solve etaA etaR fuel = some (Q', none))
    (hP : Q.prob = some P) (hH : Q'.hist = some H) (hi : Q.cfg.integrator = .rkf45) {k : ℕ}
    {b b' : α} (hb : H.battery[k]? = some b) (hb' : H.battery[k + 1]? = some b') :
    ∃ suggested, Booked P b b' (pymax Q.cfg.stepMin (pymin Q.cfg.stepMax suggested)) := by
  obtain ⟨n, tr, D, r, hr, _, v⟩ := solve_view h hP hH
  have hk : k < n := by have := (v.battery_lt hb').1; omega
  rw [(v.battery_lt hb).2, (v.battery_lt hb').2]
  obtain ⟨x, hx⟩ := hBat_rkf45 v.trace hk hi
  refine ⟨x, ?_⟩
  rw [step_battery v.trace hk, hx]
  unfold Booked batteryPhase
  cases (D k).d.duty
  · right; rfl
  · left; rfl

/-- times and battery levels of a run -/
def Toy.stepClock (C : Config Toy.N) (P : Problem Toy.N) (fuel : ℕ) :
    Option (Option PyErr × List Toy.N × List Toy.N) :=
  ((Toy.obj C P).solve Toy.z Toy.z fuel).bind fun p => p.1.hist.map fun H =>
    (p.2, H.times, H.battery)

/-- **C32 is violated, concretely.** One step of length 1/2 with discharge rate 1: `rk4` takes 1/2
out of the battery; `rkf45` with a generous tolerance also steps by 1/2 but takes out 2, the largest
allowed suggestion. -/
theorem C32_violated :
    Toy.stepClock Toy.cfg { Toy.prob with batteryInitial := .fin 4, capMax := .fin 5, dischargeRate := .fin 1, tfMax := .fin (1 / 2) } 10 =
      some (none, [.fin 0, .fin (1 / 2)], [.fin 4, .fin (7 / 2)]) ∧
    Toy.stepClock { Toy.cfg with integrator := .rkf45, odeTol := .fin 1000 } { Toy.prob with batteryInitial := .fin 4, capMax := .fin 5, dischargeRate := .fin 1, tfMax := .fin (1 / 2) } 10 =
      some (none, [.fin 0, .fin (1 / 2)], [.fin 4, .fin 2]) := by
  constructor <;> decide +kernel

end PyQ
