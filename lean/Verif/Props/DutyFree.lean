import Verif.Props.BatteryFree
import Verif.Props.Thresholds

/-! # A duty cycle acts only once its first on-time is over (C136) -/

set_option linter.unusedSectionVars false
set_option maxRecDepth 100000
set_option synthInstance.maxSize 1000

namespace PyQ

variable {α : Type} [Add α] [Sub α] [Mul α] [Div α] [Neg α] [NatCast α] [Pow α ℕ]
  [PyTrans α] [PyOrd α] [PyNan α]

/-- the same problem with the duty cycle `(on, off)` -/
def Problem.withDuty (P : Problem α) (D : α × α) : Problem α := { P with dutyOn := D.1, dutyOff := D.2 }

/-- the same object with the duty cycle `(on, off)` -/
def QLaw.withDuty (Q : QLaw α) (D : α × α) : QLaw α := { Q with prob := Q.prob.map fun P => P.withDuty D }

def Env.withDuty (E : Env α) (D : α × α) : Env α := { E with prob := E.prob.withDuty D }

/-- step `n` of a run starts after the on-time `on` has elapsed since the start -/
def Hist.LateAt (H : Hist α) (on : α) (n : ℕ) : Prop :=
  ∃ t, H.times[n]? = some t ∧ PyOrd.lt on (t - ((0 : ℕ) : α)) = true

/-- step `n` of a run starts with the battery at its minimum, up to the margin of 1e-12 the code uses -/
def Hist.FloorAt (H : Hist α) (P : Problem α) (n : ℕ) : Prop :=
  ∃ b, H.battery[n]? = some b ∧ PyOrd.le b (P.capMin + rat 1 (10 ^ 12)) = true

theorem duty_early {P : Problem α} {D : α × α} {s : LoopSt α} {h : α} (hd : s.duty = true)
    (hl : PyOrd.lt D.1 (s.t - s.tOn) = false) (hf : PyOrd.le s.battery (P.capMin + rat 1 (10 ^ 12)) = false)
    (hc : s.charging = false) :
    dutyPhase (P.withDuty D) s h =
      { duty := true, tOn := s.tOn, tOff := s.tOff, charging := false,
        step := if PyOrd.lt (s.battery - P.dischargeRate * h) P.capMin then (s.battery - P.capMin) / P.dischargeRate
          else h } := by
  have hf' : PyOrd.le s.battery ((P.withDuty D).capMin + rat 1 (10 ^ 12)) = false := hf
  have hl' : PyOrd.lt (P.withDuty D).dutyOn (s.t - s.tOn) = false := hl
  unfold dutyPhase
  simp only [hl', hf', hd, hc, Bool.false_and, Bool.false_eq_true, if_false, Bool.not_true, Bool.and_false,
    Bool.not_false, Bool.true_and, Bool.and_true]
  rfl

/-- loop variables at the start of step `n` of a run that has neither paused nor recharged -/
structure DutyInv (s : LoopSt α) (n : ℕ) : Prop where
  duty : s.duty = true
  tOn : s.tOn = ((0 : ℕ) : α)
  charging : s.charging = false
  aligned : Aligned s.hist n
  times : ∃ l, s.hist.times = l ++ [s.t]
  battery : ∃ l, s.hist.battery = l ++ [s.battery]

theorem iter_duty {E : Env α} {D1 D2 : α × α} {s : LoopSt α} {n : ℕ} (hi : DutyInv s n)
    (h1 : PyOrd.lt D1.1 (s.t - s.tOn) = false) (h2 : PyOrd.lt D2.1 (s.t - s.tOn) = false)
    (hf : PyOrd.le s.battery (E.prob.capMin + rat 1 (10 ^ 12)) = false) :
    iter (E.withDuty D2) s = iter (E.withDuty D1) s := by
  unfold iter
  have e : clampPhase (E.withDuty D2).cfg s = clampPhase (E.withDuty D1).cfg s := rfl
  rw [e]
  cases hk : clampPhase (E.withDuty D1).cfg s with
  | error e => rfl
  | ok s1 =>
    have k1 : s1.duty = true := by rw [clamp_duty hk, hi.duty]
    have k2 : s1.charging = false := by rw [clamp_charging hk, hi.charging]
    have k3 : s1.battery = s.battery := clamp_battery hk
    have k4 : s1.t = s.t := clamp_t hk
    have k5 : s1.tOn = s.tOn := clamp_tOn hk
    unfold bodyPhase
    have e1 : chooseStep (E.withDuty D2).cfg (E.withDuty D2).prob s1.oe =
      chooseStep (E.withDuty D1).cfg (E.withDuty D1).prob s1.oe := rfl
    dsimp only
    rw [e1]
    cases chooseStep (E.withDuty D1).cfg (E.withDuty D1).prob s1.oe with
    | error e => rfl
    | ok h =>
      have d1 : dutyPhase (E.withDuty D1).prob s1 h = _ :=
        duty_early (P := E.prob) (D := D1) k1 (by rw [k4, k5]; exact h1) (by rw [k3]; exact hf) k2
      have d2 : dutyPhase (E.withDuty D2).prob s1 h = _ :=
        duty_early (P := E.prob) (D := D2) k1 (by rw [k4, k5]; exact h2) (by rw [k3]; exact hf) k2
      dsimp only
      rw [d1, d2]
      rfl

theorem dutyInv_cont {E : Env α} {D : α × α} {s s' : LoopSt α} {n : ℕ} (hi : DutyInv s n)
    (h1 : PyOrd.lt D.1 (s.t - s.tOn) = false)
    (hf : PyOrd.le s.battery (E.prob.capMin + rat 1 (10 ^ 12)) = false)
    (h : iter (E.withDuty D) s = .cont s') : DutyInv s' (n + 1) := by
  obtain ⟨X, hX⟩ := rec_of_cont h
  have hA := aligned_clamp hi.aligned hX.clamp
  have hk := hX.clamp
  have hd : X.d = _ := hX.duty.trans (duty_early (P := E.prob) (D := D) (s := X.s1) (h := X.step0)
    (by rw [clamp_duty hk, hi.duty]) (by rw [clamp_t hk, clamp_tOn hk]; exact h1)
    (by rw [clamp_battery hk]; exact hf) (by rw [clamp_charging hk, hi.charging]))
  rw [hX.next.1 s' h]
  refine ⟨?_, ?_, ?_, ?_, ⟨_, rfl⟩, ⟨_, rfl⟩⟩
  · simp only [postState, hd]
  · simp only [postState, hd]
    rw [clamp_tOn hk, hi.tOn]
  · have hc : X.d.charging = false := by rw [hd]
    simp only [postState, hc]
    exact battery_flag _ _ _ _
  · constructor <;> simp [postState, hA.times, hA.states, hA.masses, hA.battery, hA.controls, hA.etas,
      hA.etasBounds, hA.qs, hA.dqdts]

theorem loop_duty {E : Env α} {D1 D2 : α × α} :
    ∀ (f g : ℕ) (s : LoopSt α) (n : ℕ) (r r2 : RunRes α), DutyInv s n →
    loop (E.withDuty D1) f s = some r → loop (E.withDuty D2) g s = some r2 → r2 = r ∨
    ∃ (k : ℕ) (h : Hist α), ((r.st.hist.LateAt D1.1 k ∨ r.st.hist.LateAt D2.1 k) ∨ r.st.hist.FloorAt E.prob k) ∧
      Aligned h k ∧ ExtendsS h r.st.hist ∧ ExtendsS h r2.st.hist := by
  intro f
  induction f with
  | zero => intro g s n r r2 _ h; simp [loop] at h
  | succ f ih =>
    intro g s n r r2 hi h h2
    cases g with
    | zero => simp [loop] at h2
    | succ g =>
      have hh := h
      have hh2 := h2
      have g2 : guardB (E.withDuty D2).prob s = guardB (E.withDuty D1).prob s := rfl
      rw [loop_succ] at h
      rw [loop_succ, g2] at h2
      obtain ⟨lt, hlt⟩ := hi.times
      obtain ⟨lb, hlb⟩ := hi.battery
      have x1 := loop_extends _ _ _ _ hh
      have x2 := loop_extends _ _ _ _ hh2
      have ht := prefix_last hlt hi.aligned.times x1.times
      have hb := prefix_last hlb hi.aligned.battery x1.battery
      have stop : ((r.st.hist.LateAt D1.1 n ∨ r.st.hist.LateAt D2.1 n) ∨ r.st.hist.FloorAt E.prob n) →
          ∃ (k : ℕ) (h : Hist α), ((r.st.hist.LateAt D1.1 k ∨ r.st.hist.LateAt D2.1 k) ∨ r.st.hist.FloorAt E.prob k) ∧
          Aligned h k ∧ ExtendsS h r.st.hist ∧ ExtendsS h r2.st.hist :=
        fun hx => ⟨n, s.hist, hx, hi.aligned, x1, x2⟩
      cases hg : guardB (E.withDuty D1).prob s with
      | false => simp [hg] at h h2; subst h; subst h2; exact Or.inl rfl
      | true =>
        cases l1 : PyOrd.lt D1.1 (s.t - s.tOn) with
        | true => exact Or.inr (stop (Or.inl (Or.inl ⟨s.t, ht, by rw [← hi.tOn]; exact l1⟩)))
        | false =>
          cases l2 : PyOrd.lt D2.1 (s.t - s.tOn) with
          | true => exact Or.inr (stop (Or.inl (Or.inr ⟨s.t, ht, by rw [← hi.tOn]; exact l2⟩)))
          | false =>
            cases hf : PyOrd.le s.battery (E.prob.capMin + rat 1 (10 ^ 12)) with
            | true => exact Or.inr (stop (Or.inr ⟨s.battery, hb, hf⟩))
            | false =>
              simp only [hg, if_true] at h h2
              rw [iter_duty hi l1 l2 hf] at h2
              cases ht : iter (E.withDuty D1) s with
              | cont s' =>
                rw [ht] at h h2
                exact ih g s' (n + 1) r r2 (dutyInv_cont hi l1 hf ht) h h2
              | brk s' c => rw [ht] at h h2; simp at h h2; subst h; subst h2; exact Or.inl rfl
              | err s' x => rw [ht] at h h2; simp at h h2; subst h; subst h2; exact Or.inl rfl

/-- two histories record the same before step `n` -/
structure AllSameUpTo (n : ℕ) (H H' : Hist α) : Prop where
  times : H.times.take (n + 1) = H'.times.take (n + 1)
  states : H.states.take n = H'.states.take n
  masses : H.masses.take (n + 1) = H'.masses.take (n + 1)
  battery : H.battery.take (n + 1) = H'.battery.take (n + 1)
  controls : H.controls.take n = H'.controls.take n
  etas : H.etas.take n = H'.etas.take n
  etasBounds : H.etasBounds.take n = H'.etasBounds.take n
  qs : H.qs.take n = H'.qs.take n
  dqdts : H.dqdts.take n = H'.dqdts.take n

/-- **C136.** Two runs of objects that differ only in their duty cycle report the same exception, exit code, flag and
histories, or record the same up to a step that starts later than one of the two on-times, or with the battery at
its minimum. -/
theorem C136_duty {Q Q1 Q2 : QLaw α} {D1 D2 : α × α} {etaA etaR : EtaArg α} {f1 f2 : ℕ}
    {e1 e2 : Option PyErr} {P : Problem α} {H1 H2 : Hist α} (hP : Q.prob = some P)
    (h1 : (Q.withDuty D1).solve etaA etaR f1 = some (Q1, e1))
    (h2 : (Q.withDuty D2).solve etaA etaR f2 = some (Q2, e2)) (hr : Q.ready = true) (hv : etaA.valid = true)
    (hH1 : Q1.hist = some H1) (hH2 : Q2.hist = some H2) :
    (e2 = e1 ∧ Q2.exitcode = Q1.exitcode ∧ Q2.converge = Q1.converge ∧ H2 = H1) ∨
    ∃ n, (H1.LateAt D1.1 n ∨ H1.LateAt D2.1 n ∨ H1.FloorAt P n) ∧ AllSameUpTo n H1 H2 := by
  have hP1 : (Q.withDuty D1).prob = some (P.withDuty D1) := by simp [QLaw.withDuty, hP]
  have hP2 : (Q.withDuty D2).prob = some (P.withDuty D2) := by simp [QLaw.withDuty, hP]
  have hr1 : (Q.withDuty D1).ready = true := hr
  have hr2 : (Q.withDuty D2).ready = true := hr
  simp only [QLaw.solve, hP1, hr1, hv, if_true, Option.map_eq_some_iff] at h1
  simp only [QLaw.solve, hP2, hr2, hv, if_true, Option.map_eq_some_iff] at h2
  obtain ⟨r1, hl1, h1⟩ := h1
  obtain ⟨r2, hl2, h2⟩ := h2
  have q1 : Q1 = _ := (congrArg Prod.fst h1).symm
  have q2 : Q2 = _ := (congrArg Prod.fst h2).symm
  have he1 : r1.error? = e1 := congrArg Prod.snd h1
  have he2 : r2.error? = e2 := congrArg Prod.snd h2
  subst q1 q2 he1 he2
  have hh1 : r1.st.hist = H1 := Option.some.inj hH1
  have hh2 : r2.st.hist = H2 := Option.some.inj hH2
  subst hh1 hh2
  have inv : DutyInv (initLoop (P.withDuty D1)) 0 :=
    ⟨rfl, rfl, rfl, ⟨rfl, rfl, rfl, rfl, rfl, rfl, rfl, rfl, rfl⟩, ⟨[], rfl⟩, ⟨[], rfl⟩⟩
  rcases loop_duty (E := envOf Q P etaA etaR) (D1 := D1) (D2 := D2) f1 f2 (initLoop (P.withDuty D1)) 0 r1 r2 inv
    hl1 hl2 with hz | ⟨k, h, k1, k2, k3, k4⟩
  · left
    subst hz
    exact ⟨rfl, rfl, rfl, rfl⟩
  · refine Or.inr ⟨k, or_assoc.mp k1, ?_⟩
    have x3 := k3.toExtends
    have x4 := k4.toExtends
    exact ⟨take_of_prefix k2.times x4.times x3.times,
      take_of_prefix (by rw [List.length_dropLast, k2.states]; rfl) x4.states x3.states,
      take_of_prefix k2.masses x4.masses x3.masses, take_of_prefix k2.battery x4.battery x3.battery,
      take_of_prefix k2.controls x4.controls x3.controls, take_of_prefix k2.etas x4.etas x3.etas,
      take_of_prefix k2.etasBounds x4.etasBounds x3.etasBounds, take_of_prefix k2.qs x4.qs x3.qs,
      take_of_prefix k2.dqdts x4.dqdts x3.dqdts⟩

/-- **C136, a run within its on-time.** If no step of a run starts later than its on-time or with the battery at its
minimum, the duty cycle might as well be any other whose on-time is not exceeded either. -/
theorem C136_within {Q Q1 Q2 : QLaw α} {D1 D2 : α × α} {etaA etaR : EtaArg α} {f1 f2 : ℕ}
    {e1 e2 : Option PyErr} {P : Problem α} {H1 H2 : Hist α} (hP : Q.prob = some P)
    (h1 : (Q.withDuty D1).solve etaA etaR f1 = some (Q1, e1))
    (h2 : (Q.withDuty D2).solve etaA etaR f2 = some (Q2, e2)) (hr : Q.ready = true) (hv : etaA.valid = true)
    (hH1 : Q1.hist = some H1) (hH2 : Q2.hist = some H2)
    (ht : ∀ t ∈ H1.times, PyOrd.lt D1.1 (t - ((0 : ℕ) : α)) = false ∧ PyOrd.lt D2.1 (t - ((0 : ℕ) : α)) = false)
    (hb : ∀ b ∈ H1.battery, PyOrd.le b (P.capMin + rat 1 (10 ^ 12)) = false) :
    e2 = e1 ∧ Q2.exitcode = Q1.exitcode ∧ Q2.converge = Q1.converge ∧ H2 = H1 := by
  rcases C136_duty hP h1 h2 hr hv hH1 hH2 with h | ⟨n, ⟨t, g1, g2⟩ | ⟨t, g1, g2⟩ | ⟨b, g1, g2⟩, _⟩
  · exact h
  · rw [(ht t (List.mem_of_getElem? g1)).1] at g2; cases g2
  · rw [(ht t (List.mem_of_getElem? g1)).2] at g2; cases g2
  · rw [hb b (List.mem_of_getElem? g1)] at g2; cases g2

/-- the toy transfer takes until time 2: an on-time of 3/2 covers the starts of its four steps, one of 1 does not, and
the run pauses at its fourth step -/
example :
    (Toy.clock Toy.cfg (Toy.prob.withDuty (.fin (3 / 2), .fin 1)) 10).map (fun r => r.2.1) =
      (Toy.clock Toy.cfg (Toy.prob.withDuty (.fin 100, .fin 7)) 10).map (fun r => r.2.1) ∧
    (Toy.decisions Toy.cfg (Toy.prob.withDuty (.fin (3 / 2), .fin 1)) Toy.z Toy.z 10).map (fun r => r.1) = some [1, 1, 1, 1] ∧
    ((Toy.decisions Toy.cfg (Toy.prob.withDuty (.fin 1, .fin (1 / 4))) Toy.z Toy.z 20).map fun r => r.1.take 4) =
      some [1, 1, 1, 0] := by
  refine ⟨?_, ?_, ?_⟩ <;> decide +kernel

end PyQ
