import Verif.Props.Repeat
import Verif.Props.Outcome
import Verif.Props.Duty

/-! # A battery acts only through the steps at which it is short (C134) -/

set_option linter.unusedSectionVars false
set_option maxRecDepth 100000
set_option synthInstance.maxSize 1000

namespace PyQ

variable {α : Type} [Add α] [Sub α] [Mul α] [Div α] [Neg α] [NatCast α] [Pow α ℕ]
  [PyTrans α] [PyOrd α] [PyNan α]

/-- the battery arguments of `set_problem` -/
structure BatArgs (α : Type) where
  initial : α
  capMin : α
  capMax : α
  chargeRate : α
  dischargeRate : α
  requireFullRecharge : Bool

/-- the same problem with another battery -/
def Problem.withBat (P : Problem α) (B : BatArgs α) : Problem α :=
  { P with batteryInitial := B.initial, capMin := B.capMin, capMax := B.capMax, chargeRate := B.chargeRate,
           dischargeRate := B.dischargeRate, requireFullRecharge := B.requireFullRecharge }

/-- the same object with another battery -/
def QLaw.withBat (Q : QLaw α) (B : BatArgs α) : QLaw α :=
  { Q with prob := Q.prob.map fun P => P.withBat B }

/-- battery level `b` is short for a nominal step `h`: at its minimum (up to the margin of 1e-12 the code uses), or
unable to supply the step -/
def BatArgs.Short (B : BatArgs α) (b h : α) : Prop :=
  PyOrd.le b (B.capMin + rat 1 (10 ^ 12)) = true ∨ PyOrd.lt (b - B.dischargeRate * h) B.capMin = true

/-- the battery is short at the start of step `n` of a run: `battery[n]` and the nominal step (`t_step`, or the
Sundman step at `states[n]`) -/
def BatArgs.ShortAt (B : BatArgs α) (C : Config α) (P : Problem α) (H : Hist α) (n : ℕ) : Prop :=
  ∃ x b h, H.states[n]? = some x ∧ H.battery[n]? = some b ∧ chooseStep C P x = .ok h ∧ B.Short b h

/-- a threshold that does not look at the battery level -/
def EtaArg.BatteryBlind (e : EtaArg α) : Prop :=
  ∀ t x m b b', evalEta e t x m b = evalEta e t x m b'

def Hist.setB (h : Hist α) (l : List α) : Hist α := { h with battery := l }

def LoopSt.setB (s : LoopSt α) (b : α) (l : List α) : LoopSt α := { s with battery := b, hist := s.hist.setB l }

def Outcome.setB : Outcome α → α → List α → Outcome α
  | .cont s, b, l => .cont (s.setB b l)
  | .brk s c, b, l => .brk (s.setB b l) c
  | .err s x, b, l => .err (s.setB b l) x

def RunRes.setB : RunRes α → α → List α → RunRes α
  | .timeout s, b, l => .timeout (s.setB b l)
  | .exit s c, b, l => .exit (s.setB b l) c
  | .raised s x, b, l => .raised (s.setB b l) x

def Env.withBat (E : Env α) (B : BatArgs α) : Env α := { E with prob := E.prob.withBat B }

/-- the duty phase when the battery is not short: the duty-cycle clock alone -/
def clockPhase (P : Problem α) (s : LoopSt α) (step : α) : DutyRes α :=
  let off := PyOrd.lt P.dutyOn (s.t - s.tOn) && s.duty
  let duty1 := if off then false else s.duty
  let tOff1 := if off then s.t else s.tOff
  let on := PyOrd.lt P.dutyOff (s.t - tOff1) && !duty1
  { duty := if on then true else duty1, tOn := if on then s.t else s.tOn, tOff := tOff1, charging := false,
    step := step }

theorem duty_clock {P : Problem α} {B : BatArgs α} {s : LoopSt α} {h : α} (hc : s.charging = false)
    (hs : ¬ B.Short s.battery h) : dutyPhase (P.withBat B) s h = clockPhase P s h := by
  unfold BatArgs.Short at hs
  push Not at hs
  have h1 : PyOrd.le s.battery (B.capMin + rat 1 (10 ^ 12)) = false := Bool.eq_false_iff.mpr hs.1
  have h2 : PyOrd.lt (s.battery - B.dischargeRate * h) B.capMin = false := Bool.eq_false_iff.mpr hs.2
  unfold dutyPhase clockPhase
  simp only [Problem.withBat, h1, h2, hc, Bool.false_eq_true, if_false, Bool.and_false, Bool.false_and,
    Bool.not_false]
  rfl

theorem control_bat (E : Env α) (B1 B2 : BatArgs α) (hA : E.etaA.BatteryBlind) (hR : E.etaR.BatteryBlind)
    (s : LoopSt α) (b : α) (l : List α) (d : DutyRes α) :
    controlPhase (E.withBat B2) (s.setB b l) d = controlPhase (E.withBat B1) s d := by
  unfold controlPhase
  have h1 : evalEta (E.withBat B2).etaA (s.setB b l).t (s.setB b l).oe (s.setB b l).mass (s.setB b l).battery =
    evalEta (E.withBat B1).etaA s.t s.oe s.mass s.battery := hA _ _ _ _ _
  have h2 : evalEta (E.withBat B2).etaR (s.setB b l).t (s.setB b l).oe (s.setB b l).mass (s.setB b l).battery =
    evalEta (E.withBat B1).etaR s.t s.oe s.mass s.battery := hR _ _ _ _ _
  simp only [h1, h2]
  rfl

theorem clamp_setB (C : Config α) (s : LoopSt α) (b : α) (l : List α) :
    clampPhase C (s.setB b l) = (clampPhase C s).map fun s1 => s1.setB b l := by
  unfold clampPhase
  cases C.elementsType with
  | meeWithA => rfl
  | keplerian =>
    have h : (s.setB b l).oe = s.oe := rfl
    simp only [h]
    cases elementsSafety s.oe C.oeMin C.oeMax <;> rfl

theorem exit_setB (E : Env α) (B1 B2 : BatArgs α) (oeT : Fin 5 → α) (s : LoopSt α) (b : α) (l : List α) :
    exitPhase (E.withBat B2) oeT (s.setB b l) = (exitPhase (E.withBat B1) oeT s).setB b l := by
  unfold exitPhase
  have h1 : (s.setB b l).oe = s.oe := rfl
  have h2 : (s.setB b l).mass = s.mass := rfl
  have h3 : (s.setB b l).nRelaxed = s.nRelaxed := rfl
  have h4 : (E.withBat B2).cfg = E.cfg := rfl
  have h5 : (E.withBat B2).prob.woe = E.prob.woe := rfl
  have h6 : (E.withBat B2).prob.massMin = E.prob.massMin := rfl
  have h4' : (E.withBat B1).cfg = E.cfg := rfl
  have h5' : (E.withBat B1).prob.woe = E.prob.woe := rfl
  have h6' : (E.withBat B1).prob.massMin = E.prob.massMin := rfl
  simp only [h1, h2, h3, h4, h5, h6, h4', h5', h6']
  cases E.cfg.dyn.checkConv s.oe oeT E.prob.woe E.cfg.tolOe with
  | true => rfl
  | false =>
    simp only [Bool.false_eq_true, if_false]
    generalize (if E.cfg.dyn.checkConv s.oe oeT E.prob.woe E.cfg.tolOeRelaxed = true then s.nRelaxed + 1
      else s.nRelaxed) = n
    cases (E.cfg.dyn.checkConv s.oe oeT E.prob.woe E.cfg.tolOeRelaxed && decide ((n : ℤ) ≥ E.cfg.exitAtRelaxed)) with
    | true => rfl
    | false =>
      cases PyOrd.le s.mass E.prob.massMin <;> rfl

theorem battery_flag (P : Problem α) (x : α) (d : Bool) (h : α) : (batteryPhase P x d false h).2 = false := by
  unfold batteryPhase
  cases d with
  | true => rfl
  | false => simp

/-- one iteration with two batteries neither of which is short -/
theorem iter_bat {E : Env α} {B1 B2 : BatArgs α} (hA : E.etaA.BatteryBlind) (hR : E.etaR.BatteryBlind)
    {s : LoopSt α} (hc : s.charging = false) (b : α) (l : List α)
    (h1 : ∀ s1 h, clampPhase E.cfg s = .ok s1 → chooseStep E.cfg E.prob s1.oe = .ok h → ¬ B1.Short s.battery h)
    (h2 : ∀ s1 h, clampPhase E.cfg s = .ok s1 → chooseStep E.cfg E.prob s1.oe = .ok h → ¬ B2.Short b h) :
    ∃ b' l', iter (E.withBat B2) (s.setB b l) = (iter (E.withBat B1) s).setB b' l' := by
  have hcl : clampPhase (E.withBat B2).cfg (s.setB b l) = (clampPhase E.cfg s).map fun s1 => s1.setB b l :=
    clamp_setB _ _ _ _
  have hcl1 : clampPhase (E.withBat B1).cfg s = clampPhase E.cfg s := rfl
  unfold iter
  rw [hcl, hcl1]
  cases hk : clampPhase E.cfg s with
  | error e => exact ⟨b, l, rfl⟩
  | ok s1 =>
    have hb1 : s1.battery = s.battery := clamp_battery hk
    have hch : s1.charging = false := by rw [clamp_charging hk, hc]
    simp only [Except.map]
    unfold bodyPhase
    have e1 : chooseStep (E.withBat B2).cfg (E.withBat B2).prob (s1.setB b l).oe = chooseStep E.cfg E.prob s1.oe := rfl
    have e2 : chooseStep (E.withBat B1).cfg (E.withBat B1).prob s1.oe = chooseStep E.cfg E.prob s1.oe := rfl
    rw [e1, e2]
    cases hs : chooseStep E.cfg E.prob s1.oe with
    | error e => exact ⟨b, l, rfl⟩
    | ok h =>
      have d1 : dutyPhase (E.withBat B1).prob s1 h = clockPhase E.prob s1 h :=
        duty_clock hch (by rw [hb1]; exact h1 s1 h hk hs)
      have d2 : dutyPhase (E.withBat B2).prob (s1.setB b l) h = clockPhase E.prob s1 h :=
        duty_clock (s := s1.setB b l) hch (h2 s1 h hk hs)
      simp only [d1, d2, control_bat E B1 B2 hA hR]
      cases controlPhase (E.withBat B1) s1 (clockPhase E.prob s1 h) with
      | error e => exact ⟨b, l, rfl⟩
      | ok c =>
        cases c with
        | nanBreak n => exact ⟨b, l, rfl⟩
        | ctl c =>
          have p1 : propagatePhase (E.withBat B2) (s1.setB b l) (clockPhase E.prob s1 h).step c =
            propagatePhase (E.withBat B1) s1 (clockPhase E.prob s1 h).step c := rfl
          simp only [p1]
          cases propagatePhase (E.withBat B1) s1 (clockPhase E.prob s1 h).step c with
          | error e => exact ⟨b, l, rfl⟩
          | ok p =>
            obtain ⟨oe, hb⟩ := p
            have hf : (clockPhase E.prob s1 h).charging = false := rfl
            simp only [hf]
            have f1 := battery_flag (E.withBat B1).prob s1.battery (clockPhase E.prob s1 h).duty hb
            have f2 := battery_flag (E.withBat B2).prob (s1.setB b l).battery (clockPhase E.prob s1 h).duty hb
            generalize batteryPhase (E.withBat B1).prob s1.battery (clockPhase E.prob s1 h).duty false hb = q1 at f1 ⊢
            generalize batteryPhase (E.withBat B2).prob (s1.setB b l).battery (clockPhase E.prob s1 h).duty false hb = q2 at f2 ⊢
            obtain ⟨q1, _⟩ := q1
            obtain ⟨q2, _⟩ := q2
            dsimp only at f1 f2
            subst f1 f2
            unfold storePhase
            cases c.alpha with
            | none => exact ⟨q2, l, rfl⟩
            | some a =>
              cases c.beta with
              | none => exact ⟨q2, l, rfl⟩
              | some be =>
                refine ⟨q2, l ++ [q2], ?_⟩
                dsimp only
                rw [← exit_setB E B1 B2]
                rfl

/-- the loop variables at the start of step `n`, the battery never having been short before -/
structure BatInv (s : LoopSt α) (n : ℕ) : Prop where
  charging : s.charging = false
  aligned : Aligned s.hist n
  states : ∃ l, s.hist.states = l ++ [s.oe]
  battery : ∃ l, s.hist.battery = l ++ [s.battery]

theorem batInv_cont {E : Env α} {B : BatArgs α} {s s' : LoopSt α} {n : ℕ} (hi : BatInv s n)
    (hs : ∀ s1 h, clampPhase E.cfg s = .ok s1 → chooseStep E.cfg E.prob s1.oe = .ok h → ¬ B.Short s.battery h)
    (h : iter (E.withBat B) s = .cont s') : BatInv s' (n + 1) := by
  obtain ⟨D, hD⟩ := rec_of_cont h
  have hA := aligned_clamp hi.aligned hD.clamp
  have hk : clampPhase E.cfg s = .ok D.s1 := hD.clamp
  have hch : chooseStep E.cfg E.prob D.s1.oe = .ok D.step0 := hD.choose
  have hd : D.d = clockPhase E.prob D.s1 D.step0 := by
    rw [hD.duty]
    exact duty_clock (by rw [clamp_charging hk, hi.charging])
      (by rw [clamp_battery hk]; exact hs _ _ hk hch)
  rw [hD.next.1 s' h]
  refine ⟨?_, ?_, ⟨_, rfl⟩, ⟨_, rfl⟩⟩
  · have hf : D.d.charging = false := by rw [hd]; rfl
    simp only [postState, hf]
    exact battery_flag _ _ _ _
  · constructor <;> simp [postState, hA.times, hA.states, hA.masses, hA.battery, hA.controls, hA.etas,
      hA.etasBounds, hA.qs, hA.dqdts]

/-- the states an iteration leaves include the (clamped) one it started from, and so does every later record -/
theorem states_kept {E : Env α} {s s1 : LoopSt α} {r : RunRes α} {f : ℕ} (hk : clampPhase E.cfg s = .ok s1)
    (hg : guardB E.prob s = true) (h : loop E (f + 1) s = some r) : s1.hist.states <+: r.st.hist.states := by
  rw [loop_succ, hg] at h
  simp only [if_true] at h
  rcases iter_cases E s with ⟨e, h2, h1⟩ | ⟨s1', e, h2, h1, _⟩ | ⟨s1', st, n, h2, _, _, s2, h1, h3, _⟩ |
    ⟨s1', st, c, oe, hb, h2, _, _, _, _, s2, h1, h3⟩ | ⟨D, hD⟩
  · rw [hk] at h2; cases h2
  · rw [hk] at h2; cases h2
    rw [h1] at h; simp at h; subst h; exact List.prefix_rfl
  · rw [hk] at h2; cases h2
    rw [h1] at h; simp at h; subst h
    simp only [RunRes.st, h3]; exact List.prefix_rfl
  · rw [hk] at h2; cases h2
    rw [h1] at h; simp at h; subst h
    simp only [RunRes.st, h3]; exact List.prefix_append _ _
  · have h2 := hD.clamp
    rw [hk] at h2
    injection h2 with h2
    cases hi : iter E s with
    | cont s' =>
      rw [hi] at h
      have hs := hD.next.1 s' hi
      have hx := (loop_extends E f s' r h).states
      have hd : s'.hist.states.dropLast = s1.hist.states := by
        rw [hs, h2]; simp [postState]
      rw [hd] at hx
      exact hx
    | brk s' c =>
      rw [hi] at h; simp at h; subst h
      simp only [RunRes.st]
      rw [hD.next.2 s' c hi, h2]
      exact List.prefix_append _ _
    | err s' e =>
      rw [hD.iter_eq] at hi
      rcases exitPhase_cases E D.c.oeT (postState E D) with h3 | h3 | h3 | h3 <;> rw [h3.1] at hi <;> cases hi

theorem prefix_last {β : Type} {l m a : List β} {x : β} {n : ℕ} (hl : l = m ++ [x]) (hn : l.length = n + 1)
    (h : l <+: a) : a[n]? = some x := by
  obtain ⟨t, rfl⟩ := h
  have hm : m.length = n := by rw [hl] at hn; simpa using hn
  subst hl hm
  simp

/-- the battery is short at the start of the iteration, hence shown by the result lists -/
theorem short_shown {E : Env α} {B : BatArgs α} {s s1 : LoopSt α} {n f : ℕ} {r : RunRes α} {h : α}
    (hi : BatInv s n) (hk : clampPhase E.cfg s = .ok s1) (hch : chooseStep E.cfg E.prob s1.oe = .ok h)
    (hs : B.Short s.battery h) (hg : guardB E.prob s = true) (hr : loop (E.withBat B) (f + 1) s = some r) :
    B.ShortAt E.cfg E.prob r.st.hist n := by
  obtain ⟨lb, hlb⟩ := hi.battery
  obtain ⟨ls, hls⟩ := clamp_states hk hi.states
  refine ⟨s1.oe, s.battery, h, ?_, ?_, hch, hs⟩
  · exact prefix_last hls.2 (aligned_clamp hi.aligned hk).states
      (states_kept (E := E.withBat B) hk hg hr)
  · exact prefix_last hlb hi.aligned.battery (loop_extends _ _ _ _ hr).battery

theorem loop_bat {E : Env α} {B1 B2 : BatArgs α} (hA : E.etaA.BatteryBlind) (hR : E.etaR.BatteryBlind) :
    ∀ (f g : ℕ) (s : LoopSt α) (b : α) (l : List α) (n : ℕ) (r r2 : RunRes α), BatInv s n → BatInv (s.setB b l) n →
    loop (E.withBat B1) f s = some r → loop (E.withBat B2) g (s.setB b l) = some r2 →
    (∃ b' l', r2 = r.setB b' l') ∨
    ∃ (k : ℕ) (h : Hist α) (l' : List α),
      (B1.ShortAt E.cfg E.prob r.st.hist k ∨ B2.ShortAt E.cfg E.prob r2.st.hist k) ∧
      Aligned h k ∧ ExtendsS h r.st.hist ∧ ExtendsS (h.setB l') r2.st.hist := by
  intro f
  induction f with
  | zero => intro g s b l n r r2 _ _ h; simp [loop] at h
  | succ f ih =>
    intro g s b l n r r2 i1 i2 h h2
    cases g with
    | zero => simp [loop] at h2
    | succ g =>
      have hh := h
      have hh2 := h2
      have g1 : guardB (E.withBat B1).prob s = guardB E.prob s := rfl
      have g2 : guardB (E.withBat B2).prob (s.setB b l) = guardB E.prob s := rfl
      rw [loop_succ, g1] at h
      rw [loop_succ, g2] at h2
      cases hg : guardB E.prob s with
      | false => simp [hg] at h h2; subst h; subst h2; exact Or.inl ⟨b, l, rfl⟩
      | true =>
        by_cases n1 : ∀ s1 h, clampPhase E.cfg s = .ok s1 → chooseStep E.cfg E.prob s1.oe = .ok h →
            ¬ B1.Short s.battery h
        · by_cases n2 : ∀ s1 h, clampPhase E.cfg s = .ok s1 → chooseStep E.cfg E.prob s1.oe = .ok h →
            ¬ B2.Short b h
          · obtain ⟨b', l', hz⟩ := iter_bat hA hR i1.charging b l n1 n2
            simp only [hg, if_true] at h h2
            rw [hz] at h2
            cases hi : iter (E.withBat B1) s with
            | cont s' =>
              rw [hi] at h h2 hz
              refine ih g s' b' l' (n + 1) r r2 (batInv_cont i1 n1 hi) (batInv_cont i2 ?_ hz) h h2
              intro s1 h hk hc
              rw [clamp_setB] at hk
              cases hk0 : clampPhase E.cfg s with
              | error e => rw [hk0] at hk; cases hk
              | ok s0 =>
                rw [hk0] at hk
                cases hk
                exact n2 s0 h hk0 hc
            | brk s' c =>
              rw [hi] at h h2
              simp [Outcome.setB] at h h2; subst h; subst h2; exact Or.inl ⟨b', l', rfl⟩
            | err s' x =>
              rw [hi] at h h2
              simp [Outcome.setB] at h h2; subst h; subst h2; exact Or.inl ⟨b', l', rfl⟩
          · right
            push Not at n2
            obtain ⟨s1, st, hk, hc, hsh⟩ := n2
            have hk2 : clampPhase E.cfg (s.setB b l) = .ok (s1.setB b l) := by rw [clamp_setB, hk]; rfl
            exact ⟨n, s.hist, l, Or.inr (short_shown i2 hk2 hc hsh hg hh2), i1.aligned,
              loop_extends _ _ _ _ hh, loop_extends _ _ _ _ hh2⟩
        · right
          push Not at n1
          obtain ⟨s1, st, hk, hc, hsh⟩ := n1
          exact ⟨n, s.hist, l, Or.inl (short_shown i1 hk hc hsh hg hh), i1.aligned,
            loop_extends _ _ _ _ hh, loop_extends _ _ _ _ hh2⟩

/-- all that a run reports is the same apart from the battery levels -/
structure SameButBattery (Q Q' : QLaw α) (H H' : Hist α) : Prop where
  exitcode : Q'.exitcode = Q.exitcode
  converge : Q'.converge = Q.converge
  times : H'.times = H.times
  states : H'.states = H.states
  masses : H'.masses = H.masses
  controls : H'.controls = H.controls
  etas : H'.etas = H.etas
  etasBounds : H'.etasBounds = H.etasBounds
  qs : H'.qs = H.qs
  dqdts : H'.dqdts = H.dqdts

/-- everything recorded for the first `n` steps is the same apart from the battery levels -/
structure SameButBatteryUpTo (n : ℕ) (H H' : Hist α) : Prop where
  times : H'.times.take (n + 1) = H.times.take (n + 1)
  states : H'.states.take n = H.states.take n
  masses : H'.masses.take (n + 1) = H.masses.take (n + 1)
  controls : H'.controls.take n = H.controls.take n
  etas : H'.etas.take n = H.etas.take n
  etasBounds : H'.etasBounds.take n = H.etasBounds.take n
  qs : H'.qs.take n = H.qs.take n
  dqdts : H'.dqdts.take n = H.dqdts.take n

theorem take_of_prefix {β : Type} {l a b : List β} {n : ℕ} (hl : l.length = n) (ha : l <+: a) (hb : l <+: b) :
    b.take n = a.take n := by
  rw [← hl, ← List.prefix_iff_eq_take.mp ha, ← List.prefix_iff_eq_take.mp hb]

theorem upTo_of {h H H' : Hist α} {l : List α} {n : ℕ} (ha : Aligned h n) (h1 : Extends h H)
    (h2 : Extends (h.setB l) H') : SameButBatteryUpTo n H H' :=
  ⟨take_of_prefix ha.times h1.times h2.times,
   take_of_prefix (by rw [List.length_dropLast, ha.states]; rfl) h1.states h2.states,
   take_of_prefix ha.masses h1.masses h2.masses,
   take_of_prefix ha.controls h1.controls h2.controls, take_of_prefix ha.etas h1.etas h2.etas,
   take_of_prefix ha.etasBounds h1.etasBounds h2.etasBounds, take_of_prefix ha.qs h1.qs h2.qs,
   take_of_prefix ha.dqdts h1.dqdts h2.dqdts⟩

/-- **C134.** Two runs of objects that differ only in their battery, with thresholds that do not look at it: they
report the same exception, exit code, flag and histories apart from the battery levels, or they record the same
up to a step at which one of the batteries was short. -/
theorem C134_battery {Q Q1 Q2 : QLaw α} {B1 B2 : BatArgs α} {etaA etaR : EtaArg α} {f1 f2 : ℕ}
    {e1 e2 : Option PyErr} {P : Problem α} {H1 H2 : Hist α} (hP : Q.prob = some P) (hr : Q.ready = true)
    (hv : etaA.valid = true) (hA : etaA.BatteryBlind) (hR : etaR.BatteryBlind)
    (h1 : (Q.withBat B1).solve etaA etaR f1 = some (Q1, e1))
    (h2 : (Q.withBat B2).solve etaA etaR f2 = some (Q2, e2)) (hH1 : Q1.hist = some H1) (hH2 : Q2.hist = some H2) :
    (e2 = e1 ∧ SameButBattery Q1 Q2 H1 H2) ∨
    ∃ n, (B1.ShortAt Q.cfg P H1 n ∨ B2.ShortAt Q.cfg P H2 n) ∧ SameButBatteryUpTo n H1 H2 := by
  have hP1 : (Q.withBat B1).prob = some (P.withBat B1) := by simp [QLaw.withBat, hP]
  have hP2 : (Q.withBat B2).prob = some (P.withBat B2) := by simp [QLaw.withBat, hP]
  have hr1 : (Q.withBat B1).ready = true := hr
  have hr2 : (Q.withBat B2).ready = true := hr
  simp only [QLaw.solve, hP1, hr1, hv, if_true, Option.map_eq_some_iff] at h1
  simp only [QLaw.solve, hP2, hr2, hv, if_true, Option.map_eq_some_iff] at h2
  obtain ⟨r1, hl1, h1⟩ := h1
  obtain ⟨r2, hl2, h2⟩ := h2
  have q1 : Q1 = _ := (congrArg Prod.fst h1).symm
  have q2 : Q2 = _ := (congrArg Prod.fst h2).symm
  have he1 : r1.error? = e1 := congrArg Prod.snd h1
  have he2 : r2.error? = e2 := congrArg Prod.snd h2
  subst q1 q2 he1 he2
  have hh1 : r1.st.hist = H1 := Option.some.inj hH1
  have hh2 : r2.st.hist = H2 := Option.some.inj hH2
  subst hh1 hh2
  have inv : ∀ B : BatArgs α, BatInv (initLoop (P.withBat B)) 0 := fun B =>
    ⟨rfl, ⟨rfl, rfl, rfl, rfl, rfl, rfl, rfl, rfl, rfl⟩, ⟨[], rfl⟩, ⟨[], rfl⟩⟩
  rcases loop_bat (E := envOf Q P etaA etaR) (B1 := B1) (B2 := B2) hA hR f1 f2 (initLoop (P.withBat B1))
    B2.initial [B2.initial] 0 r1 r2 (inv B1) (inv B2) hl1 hl2 with ⟨b', l', hz⟩ | ⟨k, h, l', k1, k2, k3, k4⟩
  · left
    subst hz
    cases r1 <;> exact ⟨rfl, rfl, rfl, rfl, rfl, rfl, rfl, rfl, rfl, rfl, rfl⟩
  · exact Or.inr ⟨k, k1, upTo_of k2 k3.toExtends k4.toExtends⟩

section unlimited
variable {K : Type} [Field K] [LinearOrder K] [IsStrictOrderedRing K] [PyTrans (Ext K)]

/-- a battery that starts above its minimum and has no rates, as the default of `set_problem` -/
structure BatArgs.Idle (B : BatArgs (Ext K)) (b0 cm cM : K) : Prop where
  initial : B.initial = .fin b0
  capMin : B.capMin = .fin cm
  capMax : B.capMax = .fin cM
  charge : B.chargeRate = .fin 0
  discharge : B.dischargeRate = .fin 0
  above : cm + 1 / 10 ^ 12 < b0
  below : b0 ≤ cM

theorem idle_step {B : BatArgs (Ext K)} {b0 cm cM : K} (hB : B.Idle b0 cm cM) (P : Problem (Ext K)) (x y : Ext K)
    (du ch : Bool) (hx : x = .nan ∨ x = .fin b0) :
    (batteryPhase (P.withBat B) x du ch y).1 = .nan ∨ (batteryPhase (P.withBat B) x du ch y).1 = .fin b0 := by
  have hpos : (0 : K) < 1 / 10 ^ 12 := by positivity
  have hab := hB.above
  have clip0 : npclip (.fin b0 : Ext K) (.fin cm) (.fin cM) = .fin b0 := by
    rw [npclip_fin, max_eq_left (by linarith), min_eq_left hB.below]
  have h0 : (.fin 0 * y : Ext K) = .nan ∨ (.fin 0 * y : Ext K) = .fin 0 := by
    cases y with
    | nan => left; rfl
    | fin z => right; rw [Ext.fin_mul, zero_mul]
    | pinf => left; show Ext.infMul true 0 = _; simp [Ext.infMul]
    | ninf => left; show Ext.infMul false 0 = _; simp [Ext.infMul]
  have c1 : (P.withBat B).capMin = .fin cm := hB.capMin
  have c2 : (P.withBat B).capMax = .fin cM := hB.capMax
  have c3 : (P.withBat B).chargeRate = .fin 0 := hB.charge
  have c4 : (P.withBat B).dischargeRate = .fin 0 := hB.discharge
  unfold batteryPhase
  rw [c1, c2, c3, c4]
  rcases hx with rfl | rfl
  · left
    cases du
    · simp only [Bool.false_eq_true, if_false]
      rw [show (.nan + .fin 0 * y : Ext K) = .nan by cases (.fin 0 * y : Ext K) <;> rfl, npclip_nan]
    · simp only [if_true]
      rw [nan_sub, npclip_nan]
  · rcases h0 with h0 | h0
    · left
      cases du
      · simp only [Bool.false_eq_true, if_false]
        rw [h0, show (.fin b0 + .nan : Ext K) = .nan from rfl, npclip_nan]
      · simp only [if_true]
        rw [h0, show (.fin b0 - .nan : Ext K) = .nan from rfl, npclip_nan]
    · right
      cases du
      · simp only [Bool.false_eq_true, if_false]
        rw [h0, Ext.fin_add, add_zero, clip0]
      · simp only [if_true]
        rw [h0, Ext.fin_sub, sub_zero, clip0]

theorem idle_loop {E : Env (Ext K)} {B : BatArgs (Ext K)} {b0 cm cM : K} (hB : B.Idle b0 cm cM) :
    ∀ (f : ℕ) (s : LoopSt (Ext K)) (r : RunRes (Ext K)), (s.battery = .nan ∨ s.battery = .fin b0) →
    (∀ x ∈ s.hist.battery, x = .nan ∨ x = .fin b0) → loop (E.withBat B) f s = some r →
    ∀ x ∈ r.st.hist.battery, x = .nan ∨ x = .fin b0 := by
  intro f
  induction f with
  | zero => intro s r _ _ h; simp [loop] at h
  | succ f ih =>
    intro s r hb hl h
    rw [loop_succ] at h
    cases hg : guardB (E.withBat B).prob s with
    | false => simp [hg] at h; subst h; exact hl
    | true =>
      simp only [hg, if_true] at h
      have rec_post : ∀ D : StepData (Ext K), RecStep (E.withBat B) s D →
          ((postState (E.withBat B) D).battery = .nan ∨ (postState (E.withBat B) D).battery = .fin b0) ∧
          ∀ x ∈ (postState (E.withBat B) D).hist.battery, x = .nan ∨ x = .fin b0 := by
        intro D hD
        have h1 := idle_step hB E.prob D.s1.battery D.hBat D.d.duty D.d.charging
          (by rw [clamp_battery hD.clamp]; exact hb)
        refine ⟨h1, ?_⟩
        intro x hx
        simp only [postState, List.mem_append, List.mem_singleton] at hx
        rcases hx with hx | rfl
        · rw [clamp_batteryH hD.clamp] at hx; exact hl x hx
        · exact h1
      rcases iter_cases (E.withBat B) s with ⟨e, h2, h1⟩ | ⟨s1', e, h2, h1, _⟩ |
        ⟨s1', st, n, h2, _, _, s2, h1, h3, _⟩ | ⟨s1', st, c, oe, hb', h2, _, _, _, _, s2, h1, h3⟩ | ⟨D, hD⟩
      · rw [h1] at h; simp at h; subst h; exact hl
      · rw [h1] at h; simp at h; subst h
        simp only [RunRes.st, clamp_batteryH h2]; exact hl
      · rw [h1] at h; simp at h; subst h
        simp only [RunRes.st, h3, clamp_batteryH h2]; exact hl
      · rw [h1] at h; simp at h; subst h
        simp only [RunRes.st, h3, clamp_batteryH h2]; exact hl
      · obtain ⟨p1, p2⟩ := rec_post D hD
        cases hi : iter (E.withBat B) s with
        | cont s' =>
          rw [hi] at h
          have hs := hD.next.1 s' hi
          exact ih s' r (by rw [hs]; exact p1) (by rw [hs]; exact p2) h
        | brk s' c =>
          rw [hi] at h; simp at h; subst h
          simp only [RunRes.st]
          rw [hD.next.2 s' c hi]; exact p2
        | err s' e =>
          rw [hD.iter_eq] at hi
          rcases exitPhase_cases (E.withBat B) D.c.oeT (postState (E.withBat B) D) with h3 | h3 | h3 | h3 <;>
            rw [h3.1] at hi <;> cases hi

theorem idle_not_short {B : BatArgs (Ext K)} {b0 cm cM : K} (hB : B.Idle b0 cm cM) {b h : Ext K}
    (hb : b = .nan ∨ b = .fin b0) : ¬ B.Short b h := by
  have hpos : (0 : K) < 1 / 10 ^ 12 := by positivity
  have hab := hB.above
  rintro (h1 | h1)
  · rw [hB.capMin] at h1
    rcases hb with rfl | rfl
    · cases h1
    · rw [rat_fin _ _ (by norm_num), Ext.fin_add, Ext.le_fin, decide_eq_true_eq] at h1
      push_cast at h1
      linarith
  · rw [hB.capMin, hB.discharge] at h1
    rcases hb with rfl | rfl
    · rw [nan_sub] at h1; cases h1
    · cases h with
      | nan => cases h1
      | fin z => rw [Ext.fin_mul, zero_mul, Ext.fin_sub, sub_zero, Ext.lt_fin, decide_eq_true_eq] at h1; linarith
      | pinf =>
        rw [show (.fin 0 * .pinf : Ext K) = .nan by show Ext.infMul true 0 = _; simp [Ext.infMul]] at h1; cases h1
      | ninf =>
        rw [show (.fin 0 * .ninf : Ext K) = .nan by show Ext.infMul false 0 = _; simp [Ext.infMul]] at h1; cases h1

/-- **C134, a sufficient battery.** A run whose battery is never short is the run without one (the default battery,
or any other that starts above its minimum and has no rates): same exception, exit code, flag and histories, apart
from the battery levels. In general the two record the same up to a step at which the battery was short. -/
theorem C134_sufficient {Q Q1 Q2 : QLaw (Ext K)} {B1 B2 : BatArgs (Ext K)} {etaA etaR : EtaArg (Ext K)} {f1 f2 : ℕ}
    {e1 e2 : Option PyErr} {P : Problem (Ext K)} {H1 H2 : Hist (Ext K)} {b0 cm cM : K}
    (hB : B2.Idle b0 cm cM) (hP : Q.prob = some P)
    (hr : Q.ready = true) (hv : etaA.valid = true) (hA : etaA.BatteryBlind) (hR : etaR.BatteryBlind)
    (h1 : (Q.withBat B1).solve etaA etaR f1 = some (Q1, e1))
    (h2 : (Q.withBat B2).solve etaA etaR f2 = some (Q2, e2)) (hH1 : Q1.hist = some H1) (hH2 : Q2.hist = some H2) :
    (e2 = e1 ∧ SameButBattery Q1 Q2 H1 H2) ∨ ∃ n, B1.ShortAt Q.cfg P H1 n ∧ SameButBatteryUpTo n H1 H2 := by
  rcases C134_battery hP hr hv hA hR h1 h2 hH1 hH2 with h | ⟨n, hs | hs, hu⟩
  · exact Or.inl h
  · exact Or.inr ⟨n, hs, hu⟩
  · exfalso
    have hP2 : (Q.withBat B2).prob = some (P.withBat B2) := by simp [QLaw.withBat, hP]
    have hr2 : (Q.withBat B2).ready = true := hr
    simp only [QLaw.solve, hP2, hr2, hv, if_true, Option.map_eq_some_iff] at h2
    obtain ⟨r2, hl2, h2⟩ := h2
    have q2 : Q2 = _ := (congrArg Prod.fst h2).symm
    subst q2
    have hh2 : r2.st.hist = H2 := Option.some.inj hH2
    subst hh2
    obtain ⟨x, b, h, _, g2, _, g4⟩ := hs
    refine idle_not_short hB ?_ g4
    exact idle_loop (E := envOf Q P etaA etaR) hB f2 (initLoop (P.withBat B2)) r2 (Or.inr hB.initial)
      (by intro x hx; simp [initLoop] at hx; rw [hx]; exact Or.inr hB.initial) hl2 b (List.mem_of_getElem? g2)

/-- float thresholds, and the callable of this kind, do not look at the battery -/
example : (EtaArg.flt (.fin (1 / 2)) : EtaArg Toy.N).BatteryBlind ∧
    (EtaArg.fn fun _ _ m _ => .ok m : EtaArg Toy.N).BatteryBlind :=
  ⟨fun _ _ _ _ _ => rfl, fun _ _ _ _ _ => rfl⟩

/-- the default battery is idle -/
example : (⟨.fin 1, .fin (1 / 5), .fin 1, .fin 0, .fin 0, false⟩ : BatArgs Toy.N).Idle 1 (1 / 5) 1 :=
  ⟨rfl, rfl, rfl, rfl, rfl, by norm_num, le_rfl⟩

/-- a battery that loses 1/20 at each of the four steps of the toy transfer is never short, and the transfer is the
one with the default battery; one that loses 1/4 at each step leaves too little for the fourth -/
example :
    Toy.clock Toy.cfg (Toy.prob.withBat ⟨.fin 1, .fin (1 / 5), .fin 1, .fin 0, .fin (1 / 10), false⟩) 10 =
      some (none, [.fin 0, .fin (1 / 2), .fin 1, .fin (3 / 2), .fin 2],
        [.fin 1, .fin (19 / 20), .fin (9 / 10), .fin (17 / 20), .fin (4 / 5)]) ∧
    Toy.clock Toy.cfg (Toy.prob.withBat ⟨.fin 1, .fin (1 / 5), .fin 1, .fin 0, .fin 0, false⟩) 10 =
      some (none, [.fin 0, .fin (1 / 2), .fin 1, .fin (3 / 2), .fin 2], [.fin 1, .fin 1, .fin 1, .fin 1, .fin 1]) ∧
    (Toy.clock Toy.cfg (Toy.prob.withBat ⟨.fin 1, .fin (1 / 5), .fin 1, .fin 0, .fin (1 / 2), false⟩) 40).map
      (fun r => (r.2.1.take 5, r.2.2.take 5)) =
      some ([.fin 0, .fin (1 / 2), .fin 1, .fin (3 / 2), .fin (8 / 5)],
        [.fin 1, .fin (3 / 4), .fin (1 / 2), .fin (1 / 4), .fin (1 / 5)]) := by
  refine ⟨?_, ?_, ?_⟩ <;> decide +kernel

end unlimited

end PyQ
