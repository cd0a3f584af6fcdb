import Verif.Proofs.Exit

/-! # What a completed `solve` exposes, in terms of its trace (law-free) -/

set_option linter.unusedSectionVars false

namespace PyQ

variable {α : Type} [Add α] [Sub α] [Mul α] [Div α] [Neg α] [NatCast α] [Pow α ℕ]
  [PyTrans α] [PyOrd α] [PyNan α]

/-- the recorded lists, entry by entry, for a normal return -/
structure View (E : Env α) (H : Hist α) (n : ℕ) (tr : ℕ → LoopSt α) (D : ℕ → StepData α) :
    Prop where
  trace : IsTrace E n tr D
  times : H.times = (List.range (n + 1)).map fun k => (tr k).t
  masses : H.masses = (List.range (n + 1)).map fun k => (tr k).mass
  battery : H.battery = (List.range (n + 1)).map fun k => (tr k).battery
  statesInit : H.states.dropLast = (List.range n).map fun k => (D k).s1.oe
  statesLen : H.states.length = n + 1
  controls : H.controls = (List.range n).map fun k => ((D k).a, (D k).b, (D k).c.throttle)
  etas : H.etas = (List.range n).map fun k => ((D k).c.valA, (D k).c.valR)
  etasBounds : H.etasBounds = (List.range n).map fun k => ((D k).c.etaA, (D k).c.etaR)
  qs : H.qs = (List.range n).map fun k => (D k).c.q
  dqdts : H.dqdts = (List.range n).map fun k => (D k).c.qdot

theorem solve_view {Q Q' : QLaw α} {etaA etaR : EtaArg α} {fuel : ℕ} {P : Problem α} {H : Hist α}
    (h : Q.solve etaA etaR fuel = some (Q', none)) (hP : Q.prob = some P)
    (hH : Q'.hist = some H) :
    ∃ n tr D r, SolveRun Q etaA etaR Q' none P n tr D r ∧ r.st.hist = H ∧
      View (envOf Q P etaA etaR) H n tr D := by
  obtain ⟨P', n, tr, D, r, hr⟩ := solve_return h
  have : P' = P := by have := hr.prob; rw [hP] at this; injection this with this; exact this.symm
  subst this
  have hobj := hr.obj
  have : r.st.hist = H := by
    rw [hobj] at hH
    have : some r.st.hist = some H := hH
    injection this
  subst this
  refine ⟨n, tr, D, r, hr, rfl, ?_⟩
  have hT := hr.trace
  have hh := hT.hist
  have base : View (envOf Q P' etaA etaR) (tr n).hist n tr D :=
    ⟨hT, hh.times, hh.masses, hh.battery, by rw [hh.states]; simp, by rw [hh.states]; simp,
      hh.controls, hh.etas, hh.etasBounds, hh.qs, hh.dqdts⟩
  have he := hr.err
  cases hr.ends with
  | timeout => exact base
  | exit => exact base
  | nan s s1 st k _ _ hc _ _ hhs _ =>
    simp only [RunRes.st, hhs]
    obtain ⟨l, hl1, hl2⟩ := clamp_states hc ⟨_, hh.states⟩
    refine ⟨hT, by rw [clamp_times hc]; exact hh.times, by rw [clamp_masses hc]; exact hh.masses,
      by rw [clamp_batteryH hc]; exact hh.battery, ?_, ?_,
      by rw [clamp_controls hc]; exact hh.controls, by rw [clamp_etas hc]; exact hh.etas,
      by rw [clamp_etasBounds hc]; exact hh.etasBounds, by rw [clamp_qs hc]; exact hh.qs,
      by rw [clamp_dqdts hc]; exact hh.dqdts⟩
    · have hb := base.statesInit
      rw [hl1] at hb
      rw [hl2]
      simpa using hb
    · have hb := base.statesLen
      rw [hl1] at hb
      rw [hl2]
      simpa using hb
  | raised s e => simp [RunRes.error?] at he

section lookups
variable {E : Env α} {H : Hist α} {n : ℕ} {tr : ℕ → LoopSt α} {D : ℕ → StepData α}
  (v : View E H n tr D)
include v

theorem View.times_get {k : ℕ} (hk : k ≤ n) : H.times[k]? = some (tr k).t := by
  rw [v.times, List.getElem?_map, List.getElem?_range (by omega)]; rfl
theorem View.masses_get {k : ℕ} (hk : k ≤ n) : H.masses[k]? = some (tr k).mass := by
  rw [v.masses, List.getElem?_map, List.getElem?_range (by omega)]; rfl
theorem View.battery_get {k : ℕ} (hk : k ≤ n) : H.battery[k]? = some (tr k).battery := by
  rw [v.battery, List.getElem?_map, List.getElem?_range (by omega)]; rfl
theorem View.controls_get {k : ℕ} (hk : k < n) :
    H.controls[k]? = some ((D k).a, (D k).b, (D k).c.throttle) := by
  rw [v.controls, List.getElem?_map, List.getElem?_range hk]; rfl
theorem View.controls_length : H.controls.length = n := by rw [v.controls]; simp
theorem View.times_length : H.times.length = n + 1 := by rw [v.times]; simp
theorem View.controls_lt {k : ℕ} {x : α × α × ℕ} (h : H.controls[k]? = some x) :
    k < n ∧ x = ((D k).a, (D k).b, (D k).c.throttle) := by
  have hk : k < n := by
    have := (List.getElem?_eq_some_iff.mp h).1
    rwa [v.controls_length] at this
  rw [v.controls_get hk] at h
  injection h with h
  exact ⟨hk, h.symm⟩
theorem View.times_lt {k : ℕ} {x : α} (h : H.times[k]? = some x) : k ≤ n ∧ x = (tr k).t := by
  have hk : k < n + 1 := by
    have := (List.getElem?_eq_some_iff.mp h).1
    rwa [v.times_length] at this
  rw [v.times_get (by omega)] at h
  injection h with h
  exact ⟨by omega, h.symm⟩
theorem View.masses_lt {k : ℕ} {x : α} (h : H.masses[k]? = some x) : k ≤ n ∧ x = (tr k).mass := by
  have hk : k < n + 1 := by
    have := (List.getElem?_eq_some_iff.mp h).1
    rw [v.masses] at this
    simpa using this
  rw [v.masses_get (by omega)] at h
  injection h with h
  exact ⟨by omega, h.symm⟩
theorem View.battery_lt {k : ℕ} {x : α} (h : H.battery[k]? = some x) :
    k ≤ n ∧ x = (tr k).battery := by
  have hk : k < n + 1 := by
    have := (List.getElem?_eq_some_iff.mp h).1
    rw [v.battery] at this
    simpa using this
  rw [v.battery_get (by omega)] at h
  injection h with h
  exact ⟨by omega, h.symm⟩

end lookups

/-! ### The scalar recurrences of one recorded step -/

theorem propagate_rk4 {E : Env α} {s : LoopSt α} {st : α} {c : Ctl α} {x : Fin 6 → α} {hb : α}
    (hi : E.cfg.integrator = .rk4) (h : propagatePhase E s st c = .ok (x, hb)) : hb = st := by
  unfold propagatePhase at h
  simp only [bind, Except.bind, pure, Except.pure, hi] at h
  split at h
  · split at h
    · cases h
    · split at h
      · cases h
      · injection h with h
        exact (congrArg Prod.snd h).symm
  · split at h
    · cases h
    · injection h with h
      exact (congrArg Prod.snd h).symm

theorem propagate_rkf45 {E : Env α} {s : LoopSt α} {st : α} {c : Ctl α} {x : Fin 6 → α} {hb : α}
    (hi : E.cfg.integrator = .rkf45) (h : propagatePhase E s st c = .ok (x, hb)) :
    ∃ y, hb = pymax E.cfg.stepMin (pymin E.cfg.stepMax y) := by
  unfold propagatePhase at h
  simp only [bind, Except.bind, pure, Except.pure, hi] at h
  split at h
  · split at h
    · cases h
    · split at h
      · cases h
      · injection h with h
        exact ⟨_, (congrArg Prod.snd h).symm⟩
  · split at h
    · cases h
    · injection h with h
      exact ⟨_, (congrArg Prod.snd h).symm⟩

section scalars
variable {E : Env α} {n : ℕ} {tr : ℕ → LoopSt α} {D : ℕ → StepData α}
  (hT : IsTrace E n tr D) {k : ℕ} (hk : k < n)
include hT hk

theorem step_t : (tr (k + 1)).t = (tr k).t + (D k).d.step := by
  rw [hT.succ_eq hk]
  show (D k).s1.t + _ = _
  rw [clamp_t (hT.step k hk).clamp]

theorem step_mass : (tr (k + 1)).mass =
    if (D k).c.throttle = 1 then (tr k).mass - E.prob.mdot * (D k).d.step else (tr k).mass := by
  rw [hT.succ_eq hk]
  show (if (D k).c.throttle = 1 then (D k).s1.mass - E.prob.mdot * (D k).d.step
    else (D k).s1.mass) = _
  rw [clamp_mass (hT.step k hk).clamp]

theorem step_battery : (tr (k + 1)).battery =
    (batteryPhase E.prob (tr k).battery (D k).d.duty (D k).d.charging (D k).hBat).1 := by
  rw [hT.succ_eq hk]
  show (batteryPhase E.prob (D k).s1.battery (D k).d.duty (D k).d.charging (D k).hBat).1 = _
  rw [clamp_battery (hT.step k hk).clamp]

theorem step_charging : (tr (k + 1)).charging =
    (batteryPhase E.prob (tr k).battery (D k).d.duty (D k).d.charging (D k).hBat).2 := by
  rw [hT.succ_eq hk]
  show (batteryPhase E.prob (D k).s1.battery (D k).d.duty (D k).d.charging (D k).hBat).2 = _
  rw [clamp_battery (hT.step k hk).clamp]

theorem step_duty : (tr (k + 1)).duty = (D k).d.duty := by rw [hT.succ_eq hk]; rfl
theorem step_tOn : (tr (k + 1)).tOn = (D k).d.tOn := by rw [hT.succ_eq hk]; rfl
theorem step_tOff : (tr (k + 1)).tOff = (D k).d.tOff := by rw [hT.succ_eq hk]; rfl

/-- the duty phase only looks at time, battery and duty variables, which the clamp leaves alone -/
theorem step_dutyPhase : (D k).d = dutyPhase E.prob (tr k) (D k).step0 := by
  have hc := (hT.step k hk).clamp
  rw [(hT.step k hk).duty]
  unfold dutyPhase
  rw [clamp_t hc, clamp_battery hc, clamp_duty hc, clamp_tOn hc, clamp_tOff hc, clamp_charging hc]

/-- throttle 1 needs the duty on -/
theorem duty_of_throttle (h : (D k).c.throttle = 1) : (D k).d.duty = true := by
  obtain ⟨o, _, _, _, _, _, hkind⟩ := control_ctl (hT.step k hk).ctl
  cases hkind with
  | off hd ha hb ht => rw [ht] at h; cases h
  | nan hd => exact hd
  | free hd => exact hd
  | gated _ _ hd => exact hd

/-- without the Sundman transformation the step before battery limits is `t_step` -/
theorem step0_eq (h : E.cfg.useSundman = false) : (D k).step0 = E.prob.tStep := by
  have := (hT.step k hk).choose
  unfold chooseStep at this
  rw [h] at this
  simp [pure, Except.pure] at this
  exact this.symm

/-- with `rk4` the battery update uses the step taken -/
theorem hBat_rk4 (h : E.cfg.integrator = .rk4) : (D k).hBat = (D k).d.step := by
  have := (hT.step k hk).prop
  exact propagate_rk4 h this

/-- with `rkf45` the battery update uses the clamped suggested step -/
theorem hBat_rkf45 (h : E.cfg.integrator = .rkf45) :
    ∃ x, (D k).hBat = pymax E.cfg.stepMin (pymin E.cfg.stepMax x) :=
  propagate_rkf45 h (hT.step k hk).prop

end scalars

/-! ### The duty phase, by whether the battery is at its floor -/

/-- the battery counts as depleted at loop variables `s` -/
def atFloor (P : Problem α) (s : LoopSt α) : Bool :=
  PyOrd.le s.battery (P.capMin + rat 1 (10 ^ 12))

/-- the duty cycle switches off at `s` -/
def switchOff (P : Problem α) (s : LoopSt α) : Bool := PyOrd.lt P.dutyOn (s.t - s.tOn) && s.duty

/-- the duty cycle, being off, switches on at `s` -/
def switchOn (P : Problem α) (s : LoopSt α) : Bool :=
  PyOrd.lt P.dutyOff (s.t - (if switchOff P s then s.t else s.tOff)) &&
    !(if switchOff P s then false else s.duty)

theorem duty_floor {P : Problem α} {s : LoopSt α} (h : atFloor P s = true) (st : α) :
    dutyPhase P s st = { duty := false, tOn := if switchOn P s then s.t else s.tOn, tOff := s.t,
                         charging := true, step := st } := by
  unfold atFloor at h
  unfold dutyPhase
  simp only [h]
  simp [switchOn, switchOff]

theorem duty_noFloor {P : Problem α} {s : LoopSt α} (h : atFloor P s = false) (st : α) :
    dutyPhase P s st =
      { duty := if P.requireFullRecharge && s.charging && PyOrd.lt s.battery P.capMax then false
                else if switchOn P s then true
                else if switchOff P s then false else s.duty,
        tOn := if switchOn P s then s.t else s.tOn,
        tOff := if switchOff P s then s.t else s.tOff, charging := s.charging,
        step := if PyOrd.lt (s.battery - P.dischargeRate * st) P.capMin && !s.charging then
                  (s.battery - P.capMin) / P.dischargeRate else st } := by
  unfold atFloor at h
  unfold dutyPhase
  simp only [h]
  simp [switchOn, switchOff]

theorem trace_lastTime {E : Env α} {n : ℕ} {tr : ℕ → LoopSt α} {D : ℕ → StepData α}
    (hT : IsTrace E n tr D) : (tr n).hist.lastTime = (tr n).t := by
  unfold Hist.lastTime
  rw [hT.hist.times, List.range_succ]
  simp

end PyQ
