import Verif.Props.Repeat
import Verif.RealInst

/-! # A run continued from one of its records (real arithmetic)

`s.resumed pre T0 a b` are the loop variables of the uninterrupted run when `s` are those of a run started from
the last record of `pre`, at time `T0`. As long as the duty is on and the battery is above its minimum, one iteration
commutes with this map, hence the whole loop does. -/

set_option linter.unusedSectionVars false

noncomputable section

namespace PyQ

section
variable {α : Type} [Add α]

/-- the histories `pre` continued by those of a run that started from the last record of `pre`, at time `T0` -/
def Hist.continued (pre : Hist α) (T0 : α) (h : Hist α) : Hist α :=
  { times := pre.times ++ h.times.tail.map (T0 + ·)
    states := pre.states.dropLast ++ h.states
    masses := pre.masses ++ h.masses.tail
    battery := pre.battery ++ h.battery.tail
    controls := pre.controls ++ h.controls
    etas := pre.etas ++ h.etas
    etasBounds := pre.etasBounds ++ h.etasBounds
    qs := pre.qs ++ h.qs
    dqdts := pre.dqdts ++ h.dqdts }

/-- a threshold, read at a time measured from `T0` -/
def EtaArg.since (T0 : α) : EtaArg α → EtaArg α
  | .flt x => .flt x
  | .fn f => .fn fun t => f (T0 + t)
  | .other => .other

/-- the settings, with the perturbations read at a time measured from `T0` -/
def Config.since (T0 : α) (C : Config α) : Config α :=
  { C with perturbations := C.perturbations.map fun f t => f (T0 + t) }

/-- the problem started from other elements, mass and battery level, with another time limit -/
def Problem.since (P : Problem α) (x : Fin 6 → α) (m b tf : α) : Problem α :=
  { P with oe0 := x, mass0 := m, batteryInitial := b, tfMax := tf }

/-- the environment of the continued run -/
def Env.since (E : Env α) (T0 : α) (x : Fin 6 → α) (m b tf : α) : Env α :=
  { cfg := E.cfg.since T0, prob := E.prob.since x m b tf, etaA := E.etaA.since T0, etaR := E.etaR.since T0 }

end

variable [PyNan ℝ]

namespace Resume

/-- loop variables of the uninterrupted run -/
def st (pre : Hist ℝ) (T0 : ℝ) (a b : Option ℝ) (s : LoopSt ℝ) : LoopSt ℝ :=
  { s with t := T0 + s.t, hist := pre.continued T0 s.hist, alpha := s.alpha.or a, beta := s.beta.or b }

def out (f : LoopSt ℝ → LoopSt ℝ) : Outcome ℝ → Outcome ℝ
  | .cont s => .cont (f s)
  | .brk s c => .brk (f s) c
  | .err s e => .err (f s) e

def res (f : LoopSt ℝ → LoopSt ℝ) : RunRes ℝ → RunRes ℝ
  | .timeout s => .timeout (f s)
  | .exit s c => .exit (f s) c
  | .raised s e => .raised (f s) e

variable {E : Env ℝ} {pre : Hist ℝ} {T0 : ℝ} {a b : Option ℝ} {x : Fin 6 → ℝ} {m bt tf : ℝ}

/-- the duty phase while the duty is on and the battery above its minimum -/
theorem duty_on {P : Problem ℝ} {s : LoopSt ℝ} (step : ℝ) (h1 : s.duty = true) (h2 : s.charging = false)
    (h3 : PyOrd.lt P.dutyOn (s.t - s.tOn) = false) (h4 : PyOrd.le s.battery (P.capMin + rat 1 (10 ^ 12)) = false) :
    dutyPhase P s step = ⟨true, s.tOn, s.tOff, false,
      if PyOrd.lt (s.battery - P.dischargeRate * step) P.capMin then (s.battery - P.capMin) / P.dischargeRate else step⟩ := by
  simp only [dutyPhase, h1, h2, h3, h4, Bool.false_and, Bool.and_false, Bool.true_and, Bool.and_true, Bool.not_true,
    Bool.not_false, Bool.false_eq_true, if_false]

theorem eta_from (e : EtaArg ℝ) (t : ℝ) (oe : Fin 6 → ℝ) (mass battery : ℝ) :
    evalEta e (T0 + t) oe mass battery = evalEta (e.since T0) t oe mass battery := by
  cases e <;> rfl

/-- the control phase does not see the interruption -/
theorem control_from {s : LoopSt ℝ} {d : DutyRes ℝ} (hd : d.duty = true) :
    controlPhase E (st pre T0 a b s) d = controlPhase (E.since T0 x m bt tf) s d := by
  unfold controlPhase
  simp only [hd, if_true]
  have e1 := eta_from (T0 := T0) E.etaA s.t s.oe s.mass s.battery
  have e2 := eta_from (T0 := T0) E.etaR s.t s.oe s.mass s.battery
  simp only [st, e1, e2]
  rfl

/-- with the duty on the angles are bound -/
theorem control_some {s : LoopSt ℝ} {d : DutyRes ℝ} {c : Ctl ℝ} (hd : d.duty = true)
    (h : controlPhase E s d = .ok (.ctl c)) : ∃ u v, c.alpha = some u ∧ c.beta = some v := by
  obtain ⟨o, -, -, -, -, -, hk⟩ := control_ctl h
  cases hk with
  | off h1 => rw [hd] at h1; cases h1
  | nan _ _ _ h1 h2 => exact ⟨_, _, h1, h2⟩
  | free _ _ _ _ _ h1 h2 => exact ⟨_, _, h1, h2⟩
  | gated _ _ _ _ _ _ _ _ _ _ h1 h2 => exact ⟨_, _, h1, h2⟩

theorem rk4_time {f : ℝ → (Fin 6 → ℝ) → OdeParams ℝ → Except PyErr (Fin 6 → ℝ)} (hf : ∀ t t', f t = f t') (t t' h : ℝ)
    (y : Fin 6 → ℝ) (p : OdeParams ℝ) : rk4 f t h y p = rk4 f t' h y p := by
  obtain ⟨g, rfl⟩ : ∃ g, f = fun _ => g := ⟨f 0, by funext t; exact hf t 0⟩
  rfl

theorem rkf45_time {f : ℝ → (Fin 6 → ℝ) → OdeParams ℝ → Except PyErr (Fin 6 → ℝ)} (hf : ∀ t t', f t = f t') (t t' h : ℝ)
    (y : Fin 6 → ℝ) (p : OdeParams ℝ) (tol : ℝ) : rkf45 f t h y p tol = rkf45 f t' h y p tol := by
  obtain ⟨g, rfl⟩ : ∃ g, f = fun _ => g := ⟨f 0, by funext t; exact hf t 0⟩
  rfl

theorem propagate_from (hf : ∀ t t', E.cfg.dyn.eom t = E.cfg.dyn.eom t') (s : LoopSt ℝ) (h : ℝ) (c : Ctl ℝ) :
    propagatePhase E (st pre T0 a b s) h c = propagatePhase (E.since T0 x m bt tf) s h c := by
  have e2 : (st pre T0 a b s).t = T0 + s.t := rfl
  have e3 : (st pre T0 a b s).oe = s.oe := rfl
  have e4 : (E.since T0 x m bt tf).cfg.elementsType = E.cfg.elementsType := rfl
  have e5 : (E.since T0 x m bt tf).cfg.integrator = E.cfg.integrator := rfl
  have e6 : (E.since T0 x m bt tf).cfg.dyn = E.cfg.dyn := rfl
  have e7 : (E.since T0 x m bt tf).cfg.mu = E.cfg.mu := rfl
  have e8 : (E.since T0 x m bt tf).cfg.odeTol = E.cfg.odeTol := rfl
  have e9 : (E.since T0 x m bt tf).cfg.stepMin = E.cfg.stepMin := rfl
  have e10 : (E.since T0 x m bt tf).cfg.stepMax = E.cfg.stepMax := rfl
  unfold propagatePhase
  cases hp : E.cfg.perturbations with
  | none =>
    have hp' : (E.since T0 x m bt tf).cfg.perturbations = none := by simp [Env.since, Config.since, hp]
    simp only [e2, e3, e5, e6, e7, e8, e9, e10, hp, hp', rk4_time hf (T0 + s.t) s.t, rkf45_time hf (T0 + s.t) s.t]
  | some f =>
    have hp' : (E.since T0 x m bt tf).cfg.perturbations = some fun t => f (T0 + t) := by simp [Env.since, Config.since, hp]
    simp only [e2, e3, e4, e5, e6, e7, e8, e9, e10, hp, hp', rk4_time hf (T0 + s.t) s.t, rkf45_time hf (T0 + s.t) s.t]

theorem exit_from (f : LoopSt ℝ → LoopSt ℝ) (hf : f = st pre T0 a b) (oeT : Fin 5 → ℝ) (s : LoopSt ℝ) :
    exitPhase E oeT (f s) = out f (exitPhase (E.since T0 x m bt tf) oeT s) := by
  subst hf
  have e1 : (E.since T0 x m bt tf).cfg.dyn = E.cfg.dyn := rfl
  have e2 : (E.since T0 x m bt tf).cfg.tolOe = E.cfg.tolOe := rfl
  have e3 : (E.since T0 x m bt tf).cfg.tolOeRelaxed = E.cfg.tolOeRelaxed := rfl
  have e4 : (E.since T0 x m bt tf).cfg.exitAtRelaxed = E.cfg.exitAtRelaxed := rfl
  have e5 : (E.since T0 x m bt tf).prob.woe = E.prob.woe := rfl
  have e6 : (E.since T0 x m bt tf).prob.massMin = E.prob.massMin := rfl
  have e7 : (st pre T0 a b s).oe = s.oe := rfl
  have e8 : (st pre T0 a b s).mass = s.mass := rfl
  have e9 : (st pre T0 a b s).nRelaxed = s.nRelaxed := rfl
  unfold exitPhase
  simp only [e1, e2, e3, e4, e5, e6, e7, e8, e9]
  split_ifs <;> rfl

/-- the lists that start with the last record of `pre` are not empty -/
structure Started (h : Hist ℝ) : Prop where
  times : h.times ≠ []
  states : h.states ≠ []
  masses : h.masses ≠ []
  battery : h.battery ≠ []

theorem store_from {h : Hist ℝ} (hs : Started h) (t : ℝ) (oe : Fin 6 → ℝ) (mass bat : ℝ) (c : Ctl ℝ) :
    storePhase (pre.continued T0 h) (T0 + t) oe mass bat c =
      (pre.continued T0 (storePhase h t oe mass bat c).1, (storePhase h t oe mass bat c).2) := by
  unfold storePhase
  cases c.alpha <;> cases c.beta <;>
    simp [Hist.continued, List.tail_append_of_ne_nil hs.times, List.tail_append_of_ne_nil hs.masses,
      List.tail_append_of_ne_nil hs.battery, List.append_assoc]

theorem clamp_from {s : LoopSt ℝ} (hs : s.hist.states ≠ []) :
    clampPhase E.cfg (st pre T0 a b s) = (clampPhase (E.since T0 x m bt tf).cfg s).map (st pre T0 a b) := by
  unfold clampPhase
  have e1 : (E.since T0 x m bt tf).cfg.elementsType = E.cfg.elementsType := rfl
  have e2 : (E.since T0 x m bt tf).cfg.oeMin = E.cfg.oeMin := rfl
  have e3 : (E.since T0 x m bt tf).cfg.oeMax = E.cfg.oeMax := rfl
  have e4 : (st pre T0 a b s).oe = s.oe := rfl
  simp only [e1, e2, e3, e4]
  cases E.cfg.elementsType with
  | meeWithA => rfl
  | keplerian =>
    cases elementsSafety s.oe E.cfg.oeMin E.cfg.oeMax with
    | error e => rfl
    | ok oe =>
      simp only [bind, Except.bind, pure, Except.pure, Except.map, st, Hist.continued]
      rw [List.dropLast_append_of_ne_nil hs, List.append_assoc]

/-- the loop variables while nothing limits the thrust -/
structure Free (E : Env ℝ) (T0 : ℝ) (s : LoopSt ℝ) : Prop where
  duty : s.duty = true
  charging : s.charging = false
  short : PyOrd.lt E.prob.dutyOn (s.t - s.tOn) = false
  long : PyOrd.lt E.prob.dutyOn (T0 + s.t - s.tOn) = false
  battery : PyOrd.le s.battery (E.prob.capMin + rat 1 (10 ^ 12)) = false

theorem iter_from (hf : ∀ t t', E.cfg.dyn.eom t = E.cfg.dyn.eom t') {s : LoopSt ℝ} (hF : Free E T0 s) (hs : Started s.hist) :
    iter E (st pre T0 a b s) = out (st pre T0 a b) (iter (E.since T0 x m bt tf) s) := by
  unfold iter
  rw [clamp_from (x := x) (m := m) (bt := bt) (tf := tf) hs.states]
  cases hc : clampPhase (E.since T0 x m bt tf).cfg s with
  | error e => rfl
  | ok s1 =>
    have hs1 : Started s1.hist := by
      refine ⟨by rw [clamp_times hc]; exact hs.times, ?_, by rw [clamp_masses hc]; exact hs.masses,
        by rw [clamp_batteryH hc]; exact hs.battery⟩
      rcases clamp_cases hc with ⟨_, rfl⟩ | ⟨_, oe, _, rfl⟩
      · exact hs.states
      · simp
    have hd1 : ∀ step, dutyPhase (E.since T0 x m bt tf).prob s1 step = _ := fun step =>
      duty_on (P := (E.since T0 x m bt tf).prob) (s := s1) step (by rw [clamp_duty hc]; exact hF.duty)
        (by rw [clamp_charging hc]; exact hF.charging) (by rw [clamp_t hc, clamp_tOn hc]; exact hF.short)
        (by rw [clamp_battery hc]; exact hF.battery)
    have hd2 : ∀ step, dutyPhase E.prob (st pre T0 a b s1) step = _ := fun step =>
      duty_on (P := E.prob) (s := st pre T0 a b s1) step (by show s1.duty = true; rw [clamp_duty hc]; exact hF.duty)
        (by show s1.charging = false; rw [clamp_charging hc]; exact hF.charging)
        (by show PyOrd.lt E.prob.dutyOn (T0 + s1.t - s1.tOn) = false; rw [clamp_t hc, clamp_tOn hc]; exact hF.long)
        (by show PyOrd.le s1.battery _ = false; rw [clamp_battery hc]; exact hF.battery)
    simp only [Except.map]
    unfold bodyPhase
    have e1 : chooseStep E.cfg E.prob (st pre T0 a b s1).oe = chooseStep (E.since T0 x m bt tf).cfg (E.since T0 x m bt tf).prob s1.oe :=
      rfl
    rw [e1]
    cases chooseStep (E.since T0 x m bt tf).cfg (E.since T0 x m bt tf).prob s1.oe with
    | error e => rfl
    | ok step0 =>
      simp only
      have hdd : dutyPhase E.prob (st pre T0 a b s1) step0 = dutyPhase (E.since T0 x m bt tf).prob s1 step0 := by
        rw [hd1, hd2]; rfl
      have hdu : (dutyPhase (E.since T0 x m bt tf).prob s1 step0).duty = true := by rw [hd1]
      rw [hdd]
      obtain ⟨d, hd⟩ : ∃ d, d = dutyPhase (E.since T0 x m bt tf).prob s1 step0 := ⟨_, rfl⟩
      rw [← hd] at hdu ⊢
      rw [control_from (x := x) (m := m) (bt := bt) (tf := tf) hdu]
      cases hctl : controlPhase (E.since T0 x m bt tf) s1 d with
      | error e => rfl
      | ok r =>
        cases r with
        | nanBreak n => rfl
        | ctl c =>
          simp only
          rw [propagate_from (x := x) (m := m) (bt := bt) (tf := tf) hf]
          cases propagatePhase (E.since T0 x m bt tf) s1 d.step c with
          | error e => rfl
          | ok p =>
            obtain ⟨oeNext, hBat⟩ := p
            have e2 : (st pre T0 a b s1).t + d.step = T0 + (s1.t + d.step) := add_assoc _ _ _
            have e3 : (st pre T0 a b s1).mass = s1.mass := rfl
            have e4 : (st pre T0 a b s1).battery = s1.battery := rfl
            have e5 : (st pre T0 a b s1).hist = pre.continued T0 s1.hist := rfl
            have e6 : (st pre T0 a b s1).nRelaxed = s1.nRelaxed := rfl
            have e7 : (E.since T0 x m bt tf).prob.mdot = E.prob.mdot := rfl
            have e8 : batteryPhase (E.since T0 x m bt tf).prob = batteryPhase E.prob := rfl
            simp only [e2, e3, e4, e5, e6, e7, e8, store_from hs1]
            obtain ⟨u, v, hu, hv⟩ := control_some hdu hctl
            have hst : ∀ (h : Hist ℝ) t oe m b, (storePhase h t oe m b c).2 = none := by
              intros; simp [storePhase, hu, hv]
            simp only [hst]
            rw [← exit_from (x := x) (m := m) (bt := bt) (tf := tf) (E := E) (st pre T0 a b) rfl]
            simp only [st, hu, hv, Option.some_or]

/-- loop variables of a run that started from the last record of `pre` and was never limited -/
structure Ongoing (pre : Hist ℝ) (s : LoopSt ℝ) : Prop where
  times : ∃ tl, s.hist.times = 0 :: tl
  last : s.hist.times.getLastD 0 = s.t
  states : s.hist.states ≠ []
  masses : s.hist.masses ≠ []
  battery : s.hist.battery ≠ []
  level : s.battery ∈ pre.battery ++ s.hist.battery.tail
  duty : s.duty = true
  charging : s.charging = false
  tOn : s.tOn = 0

theorem Ongoing.started {s : LoopSt ℝ} (h : Ongoing pre s) : Started s.hist := by
  obtain ⟨tl, ht⟩ := h.times
  exact ⟨by rw [ht]; simp, h.states, h.masses, h.battery⟩

/-- a continued iteration leaves such loop variables -/
theorem Ongoing.next {s s' : LoopSt ℝ} (h : Ongoing pre s) (hF : Free E T0 s)
    (hi : iter (E.since T0 x m bt tf) s = .cont s') : Ongoing pre s' := by
  obtain ⟨D, hD⟩ := rec_of_cont hi
  have hs := hD.next.1 s' hi
  have hc := hD.clamp
  have hd := hD.duty
  rw [duty_on (P := (E.since T0 x m bt tf).prob) (s := D.s1) D.step0 (by rw [clamp_duty hc]; exact hF.duty)
    (by rw [clamp_charging hc]; exact hF.charging) (by rw [clamp_t hc, clamp_tOn hc]; exact hF.short)
    (by rw [clamp_battery hc]; exact hF.battery)] at hd
  have hdu : D.d.duty = true := by rw [hd]
  subst hs
  obtain ⟨tl, ht⟩ := h.times
  refine ⟨⟨tl ++ [D.s1.t + D.d.step], ?_⟩, ?_, ?_, ?_, ?_, ?_, hdu, ?_, ?_⟩
  · simp [postState, clamp_times hc, ht]
  · simp [postState]
  · simp [postState]
  · simp [postState]
  · simp [postState]
  · simp [postState, clamp_batteryH hc, List.tail_append_of_ne_nil h.battery]
  · simp [postState, batteryPhase, hdu]; rw [hd]
  · simp [postState]; rw [hd]; show D.s1.tOn = 0; rw [clamp_tOn hc]; exact h.tOn

theorem last_cons (l : List ℝ) (z : ℝ) : (0 :: l.concat z).getLastD 0 = z := by
  have : 0 :: l.concat z = (0 :: l) ++ [z] := by simp
  rw [this, List.getLastD_concat]

theorem lastTime_from {s : LoopSt ℝ} (h : Ongoing pre s) (hT0 : pre.times.getLastD 0 = T0) :
    (st pre T0 a b s).hist.lastTime = T0 + s.t := by
  obtain ⟨tl, ht⟩ := h.times
  have hl := h.last
  rw [ht] at hl
  simp only [Hist.lastTime, st, Hist.continued, ht, List.tail_cons]
  rcases List.eq_nil_or_concat tl with rfl | ⟨l, z, rfl⟩
  · simp only [List.map_nil, List.append_nil, Nat.cast_zero]
    rw [hT0, ← hl]
    simp
  · rw [last_cons] at hl
    rw [← hl]
    simp

/-- the loop commutes with the interruption -/
theorem loop_from (hf : ∀ t t', E.cfg.dyn.eom t = E.cfg.dyn.eom t') {σ : ℝ} (hσ : σ = 1 ∨ σ = -1)
    (hT0 : pre.times.getLastD 0 = T0) (h0 : 0 ≤ σ * T0) (hT : σ * T0 < σ * E.prob.tfMax) (hD : σ * E.prob.tfMax ≤ E.prob.dutyOn) :
    ∀ (f : ℕ) (a b : Option ℝ) (s : LoopSt ℝ) (r : RunRes ℝ), Ongoing pre s → loop E f (st pre T0 a b s) = some r →
    (∀ t ∈ r.st.hist.times.drop pre.times.length, σ * T0 ≤ σ * t) →
    (∀ l ∈ r.st.hist.battery, E.prob.capMin + 1 / 10 ^ 12 < l) →
    ∃ r', loop (E.since T0 x m bt (E.prob.tfMax - T0)) f s = some r' ∧ r = res (st pre T0 a b) r' := by
  intro f
  induction f with
  | zero => intro a b s r _ h; simp [loop] at h
  | succ f ih =>
    intro a b s r hs h ht hb
    have hx := loop_extends _ _ _ _ h
    obtain ⟨tl, htl⟩ := hs.times
    have hpos : 0 ≤ σ * s.t := by
      have hl := hs.last
      rw [htl] at hl
      rcases List.eq_nil_or_concat tl with rfl | ⟨l, z, rfl⟩
      · simp at hl; rw [← hl]; simp
      · have hz : z = s.t := by rw [last_cons] at hl; exact hl
        have h1 : T0 + z ∈ (st pre T0 a b s).hist.times.drop pre.times.length := by
          simp [st, Hist.continued, htl]
        have h2 := ht _ ((hx.times.drop _).subset h1)
        rw [← hz]
        linarith [show σ * (T0 + z) = σ * T0 + σ * z by ring]
    have habs : ∀ y : ℝ, 0 ≤ σ * y → |y| = σ * y := fun y hy => by
      rcases hσ with rfl | rfl
      · rw [one_mul] at hy ⊢; exact abs_of_nonneg hy
      · rw [abs_of_nonpos (by linarith)]; ring
    have hle : ∀ y : ℝ, 0 ≤ σ * y → y ≤ σ * y := fun y hy => by
      rcases hσ with rfl | rfl <;> linarith
    have hadd : σ * (T0 + s.t) = σ * T0 + σ * s.t := by ring
    have hsub : σ * (E.prob.tfMax - T0) = σ * E.prob.tfMax - σ * T0 := by ring
    have hg : guardB E.prob (st pre T0 a b s) = guardB (E.since T0 x m bt (E.prob.tfMax - T0)).prob s := by
      unfold guardB
      rw [lastTime_from hs hT0]
      have e1 : s.hist.lastTime = s.t := by rw [Hist.lastTime, Nat.cast_zero]; exact hs.last
      have e2 : (E.since T0 x m bt (E.prob.tfMax - T0)).prob.tfMax = E.prob.tfMax - T0 := rfl
      rw [e1, e2, Bool.eq_iff_iff]
      show decide (|T0 + s.t| < |E.prob.tfMax|) = true ↔ decide (|s.t| < |E.prob.tfMax - T0|) = true
      rw [decide_eq_true_iff, decide_eq_true_iff, habs _ (by linarith), habs _ (by linarith), habs _ hpos, habs _ (by linarith)]
      constructor <;> intro h <;> linarith
    rw [loop_succ] at h ⊢
    rw [← hg]
    cases hgd : guardB E.prob (st pre T0 a b s) with
    | false =>
      rw [hgd] at h
      simp only [Bool.false_eq_true, if_false, Option.some.injEq] at h ⊢
      exact ⟨_, rfl, h.symm⟩
    | true =>
      rw [hgd] at h
      simp only [if_true] at h ⊢
      have hlt : σ * (T0 + s.t) < σ * E.prob.tfMax := by
        unfold guardB at hgd
        rw [lastTime_from hs hT0] at hgd
        have hgd : decide (|T0 + s.t| < |E.prob.tfMax|) = true := hgd
        rw [decide_eq_true_iff, habs _ (by linarith), habs _ (by linarith)] at hgd
        exact hgd
      have hF : Free E T0 s := by
        refine ⟨hs.duty, hs.charging, ?_, ?_, ?_⟩
        · show decide (E.prob.dutyOn < s.t - s.tOn) = false
          rw [decide_eq_false_iff_not, hs.tOn]
          have := hle _ hpos
          linarith
        · show decide (E.prob.dutyOn < T0 + s.t - s.tOn) = false
          rw [decide_eq_false_iff_not, hs.tOn]
          have := hle (T0 + s.t) (by linarith)
          linarith
        · show decide (s.battery ≤ E.prob.capMin + rat 1 (10 ^ 12)) = false
          rw [decide_eq_false_iff_not, rat_real]
          have h1 : s.battery ∈ (st pre T0 a b s).hist.battery := hs.level
          have := hb _ (hx.battery.subset h1)
          push_cast
          linarith
      rw [iter_from (x := x) (m := m) (bt := bt) (tf := E.prob.tfMax - T0) hf hF hs.started] at h
      cases hi : iter (E.since T0 x m bt (E.prob.tfMax - T0)) s with
      | cont s' =>
        rw [hi] at h
        exact ih a b s' r (hs.next hF hi) h ht hb
      | brk s' c =>
        rw [hi] at h
        simp only [out, Option.some.injEq] at h
        exact ⟨_, rfl, h.symm⟩
      | err s' c =>
        rw [hi] at h
        simp only [out, Option.some.injEq] at h
        exact ⟨_, rfl, h.symm⟩

end Resume

end PyQ
