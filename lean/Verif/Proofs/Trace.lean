import Verif.Model.Qlaw

/-!
# Executions of the `while` loop as traces

A run of the loop is a sequence `tr 0, tr 1, …, tr n` of loop states, `tr 0` being the initial one and
each `tr (k+1)` being what one *recorded* iteration makes of `tr k`; `D k` collects the intermediate values of
iteration `k`. Everything here is free of arithmetic laws.
-/

set_option linter.unusedSectionVars false

namespace PyQ

/-- intermediate values of one recorded iteration -/
structure StepData (α : Type) where
  s1 : LoopSt α
  step0 : α
  d : DutyRes α
  c : Ctl α
  oeNext : Fin 6 → α
  hBat : α
  a : α
  b : α

variable {α : Type} [Add α] [Sub α] [Mul α] [Div α] [Neg α] [NatCast α] [Pow α ℕ]
  [PyTrans α] [PyOrd α] [PyNan α]

/-- the loop variables after recording a step, before the exit checks -/
def postState (E : Env α) (D : StepData α) : LoopSt α :=
  { t := D.s1.t + D.d.step
    oe := D.oeNext
    mass := if D.c.throttle = 1 then D.s1.mass - E.prob.mdot * D.d.step else D.s1.mass
    battery := (batteryPhase E.prob D.s1.battery D.d.duty D.d.charging D.hBat).1
    hist :=
      { times := D.s1.hist.times ++ [D.s1.t + D.d.step]
        states := D.s1.hist.states ++ [D.oeNext]
        masses := D.s1.hist.masses ++
          [if D.c.throttle = 1 then D.s1.mass - E.prob.mdot * D.d.step else D.s1.mass]
        battery := D.s1.hist.battery ++
          [(batteryPhase E.prob D.s1.battery D.d.duty D.d.charging D.hBat).1]
        controls := D.s1.hist.controls ++ [(D.a, D.b, D.c.throttle)]
        etas := D.s1.hist.etas ++ [(D.c.valA, D.c.valR)]
        etasBounds := D.s1.hist.etasBounds ++ [(D.c.etaA, D.c.etaR)]
        qs := D.s1.hist.qs ++ [D.c.q]
        dqdts := D.s1.hist.dqdts ++ [D.c.qdot] }
    nRelaxed := D.s1.nRelaxed
    nNan := D.c.nNan
    duty := D.d.duty
    tOn := D.d.tOn
    tOff := D.d.tOff
    charging := (batteryPhase E.prob D.s1.battery D.d.duty D.d.charging D.hBat).2
    alpha := D.c.alpha
    beta := D.c.beta }

/-- `D` describes a recorded iteration from `s` -/
structure RecStep (E : Env α) (s : LoopSt α) (D : StepData α) : Prop where
  clamp : clampPhase E.cfg s = .ok D.s1
  choose : chooseStep E.cfg E.prob D.s1.oe = .ok D.step0
  duty : D.d = dutyPhase E.prob D.s1 D.step0
  ctl : controlPhase E D.s1 D.d = .ok (.ctl D.c)
  prop : propagatePhase E D.s1 D.d.step D.c = .ok (D.oeNext, D.hBat)
  alpha : D.c.alpha = some D.a
  beta : D.c.beta = some D.b

/-- a recorded iteration ends with the exit checks on the recorded state -/
theorem RecStep.iter_eq {E : Env α} {s : LoopSt α} {D : StepData α} (h : RecStep E s D) :
    iter E s = exitPhase E D.c.oeT (postState E D) := by
  obtain ⟨h1, h2, h3, h4, h5, h6, h7⟩ := h
  simp only [iter, h1, bodyPhase, h2, ← h3, h4, h5, storePhase, h6, h7, postState]

/-- a state reached by `n` recorded iterations, all but possibly the last continuing -/
structure IsTrace (E : Env α) (n : ℕ) (tr : ℕ → LoopSt α) (D : ℕ → StepData α) : Prop where
  init : tr 0 = initLoop E.prob
  guard : ∀ k < n, guardB E.prob (tr k) = true
  step : ∀ k < n, RecStep E (tr k) (D k)
  cont : ∀ k, k + 1 < n → iter E (tr k) = .cont (tr (k + 1))
  last : ∀ k, k + 1 = n → iter E (tr k) = .cont (tr n) ∨ ∃ c, iter E (tr k) = .brk (tr n) c

/-- all `n` iterations continued -/
def AllCont (E : Env α) (n : ℕ) (tr : ℕ → LoopSt α) : Prop :=
  ∀ k < n, iter E (tr k) = .cont (tr (k + 1))

/-- the counter of relaxed convergences after the exit checks -/
def relaxedAfter (E : Env α) (oeT : Fin 5 → α) (s : LoopSt α) : ℕ :=
  if E.cfg.dyn.checkConv s.oe oeT E.prob.woe E.cfg.tolOe then s.nRelaxed
  else if E.cfg.dyn.checkConv s.oe oeT E.prob.woe E.cfg.tolOeRelaxed then s.nRelaxed + 1
  else s.nRelaxed

theorem exitPhase_cases (E : Env α) (oeT : Fin 5 → α) (s : LoopSt α) :
    (exitPhase E oeT s = .cont { s with nRelaxed := relaxedAfter E oeT s } ∧
      E.cfg.dyn.checkConv s.oe oeT E.prob.woe E.cfg.tolOe = false ∧
      (E.cfg.dyn.checkConv s.oe oeT E.prob.woe E.cfg.tolOeRelaxed = true →
        ((relaxedAfter E oeT s : ℕ) : ℤ) < E.cfg.exitAtRelaxed) ∧
      PyOrd.le s.mass E.prob.massMin = false) ∨
    (exitPhase E oeT s = .brk { s with nRelaxed := relaxedAfter E oeT s } 1 ∧
      E.cfg.dyn.checkConv s.oe oeT E.prob.woe E.cfg.tolOe = true) ∨
    (exitPhase E oeT s = .brk { s with nRelaxed := relaxedAfter E oeT s } 2 ∧
      E.cfg.dyn.checkConv s.oe oeT E.prob.woe E.cfg.tolOe = false ∧
      E.cfg.dyn.checkConv s.oe oeT E.prob.woe E.cfg.tolOeRelaxed = true ∧
      E.cfg.exitAtRelaxed ≤ ((relaxedAfter E oeT s : ℕ) : ℤ)) ∨
    (exitPhase E oeT s = .brk { s with nRelaxed := relaxedAfter E oeT s } (-1) ∧
      E.cfg.dyn.checkConv s.oe oeT E.prob.woe E.cfg.tolOe = false ∧
      (E.cfg.dyn.checkConv s.oe oeT E.prob.woe E.cfg.tolOeRelaxed = true →
        ((relaxedAfter E oeT s : ℕ) : ℤ) < E.cfg.exitAtRelaxed) ∧
      PyOrd.le s.mass E.prob.massMin = true) := by
  unfold exitPhase relaxedAfter
  dsimp only
  cases h1 : E.cfg.dyn.checkConv s.oe oeT E.prob.woe E.cfg.tolOe
  · cases h2 : E.cfg.dyn.checkConv s.oe oeT E.prob.woe E.cfg.tolOeRelaxed
    · cases h3 : PyOrd.le s.mass E.prob.massMin <;> simp
    · by_cases h4 : E.cfg.exitAtRelaxed ≤ ((s.nRelaxed + 1 : ℕ) : ℤ)
      · have h4' := h4; push_cast at h4'; simp [h4']
      · have h4' := h4; push_cast at h4'
        cases h3 : PyOrd.le s.mass E.prob.massMin <;> simp [h4'] <;> omega
  · simp

/-- the state after a recorded iteration, whether it continued or broke -/
theorem RecStep.next {E : Env α} {s : LoopSt α} {D : StepData α} (h : RecStep E s D) :
    (∀ s', iter E s = .cont s' →
      s' = { postState E D with nRelaxed := relaxedAfter E D.c.oeT (postState E D) }) ∧
    (∀ s' c, iter E s = .brk s' c →
      s' = { postState E D with nRelaxed := relaxedAfter E D.c.oeT (postState E D) }) := by
  rw [h.iter_eq]
  rcases exitPhase_cases E D.c.oeT (postState E D) with h | h | h | h <;> rw [h.1] <;> simp


theorem IsTrace.succ_eq {E : Env α} {n : ℕ} {tr : ℕ → LoopSt α} {D : ℕ → StepData α}
    (h : IsTrace E n tr D) {k : ℕ} (hk : k < n) :
    tr (k + 1) = { postState E (D k) with
      nRelaxed := relaxedAfter E (D k).c.oeT (postState E (D k)) } := by
  have hr := (h.step k hk).next
  rcases Nat.lt_or_ge (k + 1) n with h1 | h1
  · exact hr.1 _ (h.cont k h1)
  · have hkn : k + 1 = n := by omega
    rcases h.last k hkn with h2 | ⟨c, h2⟩
    · rw [hkn]; exact hr.1 _ h2
    · rw [hkn]; exact hr.2 _ _ h2

/-- a prefix of a trace is a trace all of whose iterations continued -/
theorem IsTrace.prefix {E : Env α} {n : ℕ} {tr : ℕ → LoopSt α} {D : ℕ → StepData α}
    (h : IsTrace E n tr D) {m : ℕ} (hm : m < n) : IsTrace E m tr D ∧ AllCont E m tr :=
  ⟨⟨h.init, fun k hk => h.guard k (by omega), fun k hk => h.step k (by omega),
    fun k hk => h.cont k (by omega),
    fun k hk => Or.inl (by rw [← hk]; exact h.cont k (by omega))⟩,
   fun k hk => h.cont k (by omega)⟩

/-- every iteration is of one of four kinds -/
theorem iter_cases (E : Env α) (s : LoopSt α) :
    (∃ e, clampPhase E.cfg s = .error e ∧ iter E s = .err s e) ∨
    (∃ s1 e, clampPhase E.cfg s = .ok s1 ∧ iter E s = .err s1 e ∧
      ((chooseStep E.cfg E.prob s1.oe = .error e) ∨
       ∃ st, chooseStep E.cfg E.prob s1.oe = .ok st ∧
        (controlPhase E s1 (dutyPhase E.prob s1 st) = .error e ∨
         ∃ c, controlPhase E s1 (dutyPhase E.prob s1 st) = .ok (.ctl c) ∧
           propagatePhase E s1 (dutyPhase E.prob s1 st).step c = .error e))) ∨
    (∃ s1 st n, clampPhase E.cfg s = .ok s1 ∧ chooseStep E.cfg E.prob s1.oe = .ok st ∧
      controlPhase E s1 (dutyPhase E.prob s1 st) = .ok (.nanBreak n) ∧
      ∃ s', iter E s = .brk s' (-3) ∧ s'.hist = s1.hist ∧ s'.nNan = n) ∨
    (∃ s1 st c oe hb, clampPhase E.cfg s = .ok s1 ∧ chooseStep E.cfg E.prob s1.oe = .ok st ∧
      controlPhase E s1 (dutyPhase E.prob s1 st) = .ok (.ctl c) ∧
      propagatePhase E s1 (dutyPhase E.prob s1 st).step c = .ok (oe, hb) ∧
      (c.alpha = none ∨ c.beta = none) ∧
      ∃ s', iter E s = .err s' .unboundLocal ∧
        s'.hist = { s1.hist with
          times := s1.hist.times ++ [s1.t + (dutyPhase E.prob s1 st).step]
          states := s1.hist.states ++ [oe]
          masses := s1.hist.masses ++ [if c.throttle = 1
            then s1.mass - E.prob.mdot * (dutyPhase E.prob s1 st).step else s1.mass] }) ∨
    (∃ D, RecStep E s D) := by
  cases h1 : clampPhase E.cfg s with
  | error e => left; exact ⟨e, rfl, by simp [iter, h1]⟩
  | ok s1 =>
    right
    cases h2 : chooseStep E.cfg E.prob s1.oe with
    | error e => left; exact ⟨s1, e, rfl, by simp [iter, h1, bodyPhase, h2], Or.inl h2⟩
    | ok st =>
      cases h3 : controlPhase E s1 (dutyPhase E.prob s1 st) with
      | error e =>
        left
        exact ⟨s1, e, rfl, by simp [iter, h1, bodyPhase, h2, h3], Or.inr ⟨st, h2, Or.inl h3⟩⟩
      | ok r =>
        cases r with
        | nanBreak n =>
          right; left
          have hI : iter E s = .brk { s1 with
              nNan := n, duty := (dutyPhase E.prob s1 st).duty,
              tOn := (dutyPhase E.prob s1 st).tOn, tOff := (dutyPhase E.prob s1 st).tOff,
              charging := (dutyPhase E.prob s1 st).charging,
              alpha := some ((0 : ℕ) : α), beta := some ((0 : ℕ) : α) } (-3) := by
            simp only [iter, h1, bodyPhase, h2, h3]
          exact ⟨s1, st, n, rfl, h2, h3, _, hI, rfl, rfl⟩
        | ctl c =>
          cases h4 : propagatePhase E s1 (dutyPhase E.prob s1 st).step c with
          | error e =>
            left
            exact ⟨s1, e, rfl, by simp [iter, h1, bodyPhase, h2, h3, h4],
              Or.inr ⟨st, h2, Or.inr ⟨c, h3, h4⟩⟩⟩
          | ok p =>
            obtain ⟨oe, hb⟩ := p
            right; right
            cases ha : c.alpha with
            | none =>
              left
              exact ⟨s1, st, c, oe, hb, rfl, h2, h3, h4, Or.inl ha, _,
                by simp only [iter, h1, bodyPhase, h2, h3, h4, storePhase, ha]; exact rfl, rfl⟩
            | some a =>
              cases hbe : c.beta with
              | none =>
                left
                exact ⟨s1, st, c, oe, hb, rfl, h2, h3, h4, Or.inr hbe, _,
                  by simp only [iter, h1, bodyPhase, h2, h3, h4, storePhase, ha, hbe]; exact rfl, rfl⟩
              | some b =>
                right
                exact ⟨⟨s1, st, dutyPhase E.prob s1 st, c, oe, hb, a, b⟩,
                  ⟨h1, h2, rfl, h3, h4, ha, hbe⟩⟩

/-- an iteration that continues is a recorded one -/
theorem rec_of_cont {E : Env α} {s s' : LoopSt α} (h : iter E s = .cont s') :
    ∃ D, RecStep E s D := by
  rcases iter_cases E s with ⟨e, _, h1⟩ | ⟨s1, e, _, h1, _⟩ | ⟨s1, st, n, _, _, _, s2, h1, _⟩ |
    ⟨s1, st, c, oe, hb, _, _, _, _, _, s2, h1, _⟩ | h1
  · simp [h1] at h
  · simp [h1] at h
  · simp [h1] at h
  · simp [h1] at h
  · exact h1

/-- an iteration that breaks is the NaN break (exit code -3) or a recorded one (1, 2 or -1) -/
theorem rec_of_brk {E : Env α} {s s' : LoopSt α} {c : ℤ} (h : iter E s = .brk s' c) :
    (c = -3 ∧ ∃ s1 st n, clampPhase E.cfg s = .ok s1 ∧ chooseStep E.cfg E.prob s1.oe = .ok st ∧
      controlPhase E s1 (dutyPhase E.prob s1 st) = .ok (.nanBreak n) ∧
      s'.hist = s1.hist ∧ s'.nNan = n) ∨
    ((c = 1 ∨ c = 2 ∨ c = -1) ∧ ∃ D, RecStep E s D) := by
  rcases iter_cases E s with ⟨e, _, h1⟩ | ⟨s1, e, _, h1, _⟩ | ⟨s1, st, n, h2, h3, h4, s2, h1, h5⟩ |
    ⟨s1, st, c, oe, hb, _, _, _, _, _, s2, h1, _⟩ | ⟨D, h1⟩
  · simp [h1] at h
  · simp [h1] at h
  · rw [h1] at h
    injection h with ha hb
    subst ha; subst hb
    exact Or.inl ⟨rfl, s1, st, n, h2, h3, h4, h5⟩
  · simp [h1] at h
  · right
    refine ⟨?_, D, h1⟩
    rw [h1.iter_eq] at h
    rcases exitPhase_cases E D.c.oeT (postState E D) with h2 | h2 | h2 | h2 <;> rw [h2.1] at h <;>
      simp at h <;> simp [← h.2]

/-- how a run ends, in terms of its trace -/
inductive Ends (E : Env α) (n : ℕ) (tr : ℕ → LoopSt α) (D : ℕ → StepData α) : RunRes α → Prop
  | timeout : AllCont E n tr → guardB E.prob (tr n) = false → Ends E n tr D (.timeout (tr n))
  | exit (m : ℕ) (c : ℤ) : n = m + 1 → (c = 1 ∨ c = 2 ∨ c = -1) →
      iter E (tr m) = .brk (tr n) c → Ends E n tr D (.exit (tr n) c)
  | nan (s s1 : LoopSt α) (st : α) (k : ℕ) : AllCont E n tr → guardB E.prob (tr n) = true →
      clampPhase E.cfg (tr n) = .ok s1 → chooseStep E.cfg E.prob s1.oe = .ok st →
      controlPhase E s1 (dutyPhase E.prob s1 st) = .ok (.nanBreak k) →
      s.hist = s1.hist → s.nNan = k → Ends E n tr D (.exit s (-3))
  | raised (s : LoopSt α) (e : PyErr) : AllCont E n tr → guardB E.prob (tr n) = true →
      iter E (tr n) = .err s e → Ends E n tr D (.raised s e)

theorem loop_trace_aux (E : Env α) (r : RunRes α) : ∀ (fuel m : ℕ) (tr : ℕ → LoopSt α)
    (D : ℕ → StepData α), IsTrace E m tr D → AllCont E m tr → loop E fuel (tr m) = some r →
    ∃ n tr' D', IsTrace E n tr' D' ∧ Ends E n tr' D' r := by
  intro fuel
  induction fuel with
  | zero => intro m tr D _ _ h; simp [loop] at h
  | succ f ih =>
    intro m tr D hT hC h
    unfold loop at h
    cases hg : guardB E.prob (tr m) with
    | false =>
      simp [hg] at h
      subst h
      exact ⟨m, tr, D, hT, Ends.timeout hC hg⟩
    | true =>
      simp only [hg, if_true] at h
      -- extend the trace by one recorded state
      have ext : ∀ (s' : LoopSt α) (D1 : StepData α), RecStep E (tr m) D1 →
          (iter E (tr m) = .cont s' ∨ ∃ c, iter E (tr m) = .brk s' c) →
          IsTrace E (m + 1) (fun k => if k ≤ m then tr k else s')
            (fun k => if k < m then D k else D1) := by
        intro s' D1 hr hi
        refine ⟨by simp [hT.init], ?_, ?_, ?_, ?_⟩
        · intro k hk
          have : k ≤ m := by omega
          simp only [this, if_true]
          rcases Nat.lt_or_ge k m with h1 | h1
          · exact hT.guard k h1
          · have : k = m := by omega
            rw [this]; exact hg
        · intro k hk
          have hkm : k ≤ m := by omega
          simp only [hkm, if_true]
          rcases Nat.lt_or_ge k m with h1 | h1
          · simp only [h1, if_true]; exact hT.step k h1
          · have : k = m := by omega
            subst this; simpa using hr
        · intro k hk
          have h1 : k ≤ m := by omega
          have h2 : k + 1 ≤ m := by omega
          simp only [h1, h2, if_true]
          exact hC k (by omega)
        · intro k hk
          have h1 : k = m := by omega
          subst h1
          simpa [Nat.not_succ_le_self] using hi
      cases hit : iter E (tr m) with
      | cont s' =>
        rw [hit] at h
        obtain ⟨D1, hr⟩ := rec_of_cont hit
        have hT' := ext s' D1 hr (Or.inl hit)
        refine ih (m + 1) _ _ hT' ?_ ?_
        · intro k hk
          have h1 : k ≤ m := by omega
          rcases Nat.lt_or_ge k m with h2 | h2
          · have h3 : k + 1 ≤ m := by omega
            simp only [h1, h3, if_true]; exact hC k h2
          · have : k = m := by omega
            subst this; simpa [Nat.not_succ_le_self] using hit
        · simpa [Nat.not_succ_le_self] using h
      | brk s' c =>
        rw [hit] at h
        simp at h
        subst h
        rcases rec_of_brk hit with ⟨hc, s1, st, n, h1, h2, h3, h4, h5⟩ | ⟨hc, D1, hr⟩
        · subst hc
          exact ⟨m, tr, D, hT, Ends.nan s' s1 st n hC hg h1 h2 h3 h4 h5⟩
        · have hT' := ext s' D1 hr (Or.inr ⟨c, hit⟩)
          have := Ends.exit (E := E) (n := m + 1) (tr := fun k => if k ≤ m then tr k else s')
            (D := fun k => if k < m then D k else D1) m c rfl hc (by simpa [Nat.not_succ_le_self] using hit)
          refine ⟨m + 1, _, _, hT', ?_⟩
          simpa [Nat.not_succ_le_self] using this
      | err s' e =>
        rw [hit] at h
        simp at h
        subst h
        exact ⟨m, tr, D, hT, Ends.raised s' e hC hg hit⟩

/-- every completed run of the loop has a trace -/
theorem loop_trace {E : Env α} {fuel : ℕ} {r : RunRes α}
    (h : loop E fuel (initLoop E.prob) = some r) :
    ∃ n tr D, IsTrace E n tr D ∧ Ends E n tr D r := by
  have hT : IsTrace E 0 (fun _ => initLoop E.prob)
      (fun _ => ⟨initLoop E.prob, E.prob.tStep, dutyPhase E.prob (initLoop E.prob) E.prob.tStep,
        ⟨none, none, 0, zero3, fun _ _ => E.prob.tStep, E.prob.tStep, E.prob.tStep, E.prob.tStep,
          E.prob.tStep, E.prob.tStep, E.prob.tStep, 0, fun _ => E.prob.tStep⟩,
        E.prob.oe0, E.prob.tStep, E.prob.tStep, E.prob.tStep⟩) :=
    ⟨rfl, by intro k hk; omega, by intro k hk; omega, by intro k hk; omega, by intro k hk; omega⟩
  exact loop_trace_aux E r fuel 0 _ _ hT (by intro k hk; omega) h

/-! ### What the clamp leaves alone -/

theorem clamp_cases {C : Config α} {s s1 : LoopSt α} (h : clampPhase C s = .ok s1) :
    (C.elementsType = .meeWithA ∧ s1 = s) ∨
    (C.elementsType = .keplerian ∧ ∃ oe, elementsSafety s.oe C.oeMin C.oeMax = .ok oe ∧
      s1 = { s with oe := oe, hist := { s.hist with states := s.hist.states.dropLast ++ [oe] } }) := by
  unfold clampPhase at h
  cases hE : C.elementsType with
  | meeWithA => simp [hE] at h; left; exact ⟨rfl, by cases h; rfl⟩
  | keplerian =>
    right
    simp only [hE] at h
    cases hs : elementsSafety s.oe C.oeMin C.oeMax with
    | error e => rw [hs] at h; cases h
    | ok oe => rw [hs] at h; cases h; exact ⟨rfl, oe, rfl, rfl⟩

section clampfields
variable {C : Config α} {s s1 : LoopSt α} (h : clampPhase C s = .ok s1)
include h

theorem clamp_t : s1.t = s.t := by
  rcases clamp_cases h with ⟨_, rfl⟩ | ⟨_, oe, _, rfl⟩ <;> rfl
theorem clamp_mass : s1.mass = s.mass := by
  rcases clamp_cases h with ⟨_, rfl⟩ | ⟨_, oe, _, rfl⟩ <;> rfl
theorem clamp_battery : s1.battery = s.battery := by
  rcases clamp_cases h with ⟨_, rfl⟩ | ⟨_, oe, _, rfl⟩ <;> rfl
theorem clamp_nRelaxed : s1.nRelaxed = s.nRelaxed := by
  rcases clamp_cases h with ⟨_, rfl⟩ | ⟨_, oe, _, rfl⟩ <;> rfl
theorem clamp_nNan : s1.nNan = s.nNan := by
  rcases clamp_cases h with ⟨_, rfl⟩ | ⟨_, oe, _, rfl⟩ <;> rfl
theorem clamp_duty : s1.duty = s.duty := by
  rcases clamp_cases h with ⟨_, rfl⟩ | ⟨_, oe, _, rfl⟩ <;> rfl
theorem clamp_tOn : s1.tOn = s.tOn := by
  rcases clamp_cases h with ⟨_, rfl⟩ | ⟨_, oe, _, rfl⟩ <;> rfl
theorem clamp_tOff : s1.tOff = s.tOff := by
  rcases clamp_cases h with ⟨_, rfl⟩ | ⟨_, oe, _, rfl⟩ <;> rfl
theorem clamp_charging : s1.charging = s.charging := by
  rcases clamp_cases h with ⟨_, rfl⟩ | ⟨_, oe, _, rfl⟩ <;> rfl
theorem clamp_alpha : s1.alpha = s.alpha := by
  rcases clamp_cases h with ⟨_, rfl⟩ | ⟨_, oe, _, rfl⟩ <;> rfl
theorem clamp_beta : s1.beta = s.beta := by
  rcases clamp_cases h with ⟨_, rfl⟩ | ⟨_, oe, _, rfl⟩ <;> rfl
theorem clamp_times : s1.hist.times = s.hist.times := by
  rcases clamp_cases h with ⟨_, rfl⟩ | ⟨_, oe, _, rfl⟩ <;> rfl
theorem clamp_masses : s1.hist.masses = s.hist.masses := by
  rcases clamp_cases h with ⟨_, rfl⟩ | ⟨_, oe, _, rfl⟩ <;> rfl
theorem clamp_batteryH : s1.hist.battery = s.hist.battery := by
  rcases clamp_cases h with ⟨_, rfl⟩ | ⟨_, oe, _, rfl⟩ <;> rfl
theorem clamp_controls : s1.hist.controls = s.hist.controls := by
  rcases clamp_cases h with ⟨_, rfl⟩ | ⟨_, oe, _, rfl⟩ <;> rfl
theorem clamp_etas : s1.hist.etas = s.hist.etas := by
  rcases clamp_cases h with ⟨_, rfl⟩ | ⟨_, oe, _, rfl⟩ <;> rfl
theorem clamp_etasBounds : s1.hist.etasBounds = s.hist.etasBounds := by
  rcases clamp_cases h with ⟨_, rfl⟩ | ⟨_, oe, _, rfl⟩ <;> rfl
theorem clamp_qs : s1.hist.qs = s.hist.qs := by
  rcases clamp_cases h with ⟨_, rfl⟩ | ⟨_, oe, _, rfl⟩ <;> rfl
theorem clamp_dqdts : s1.hist.dqdts = s.hist.dqdts := by
  rcases clamp_cases h with ⟨_, rfl⟩ | ⟨_, oe, _, rfl⟩ <;> rfl

/-- the clamp keeps the number of recorded states, and afterwards the last one is `oe_iter` -/
theorem clamp_states (hs : ∃ l, s.hist.states = l ++ [s.oe]) :
    ∃ l, s.hist.states = l ++ [s.oe] ∧ s1.hist.states = l ++ [s1.oe] := by
  obtain ⟨l, hl⟩ := hs
  rcases clamp_cases h with ⟨_, rfl⟩ | ⟨_, oe, _, rfl⟩
  · exact ⟨l, hl, hl⟩
  · exact ⟨l, hl, by simp [hl]⟩

end clampfields

/-! ### Histories of a trace -/

/-- the lists recorded after `n` iterations, entry by entry -/
structure HistOf (E : Env α) (n : ℕ) (tr : ℕ → LoopSt α) (D : ℕ → StepData α) : Prop where
  times : (tr n).hist.times = (List.range (n + 1)).map fun k => (tr k).t
  masses : (tr n).hist.masses = (List.range (n + 1)).map fun k => (tr k).mass
  battery : (tr n).hist.battery = (List.range (n + 1)).map fun k => (tr k).battery
  states : (tr n).hist.states = ((List.range n).map fun k => (D k).s1.oe) ++ [(tr n).oe]
  controls : (tr n).hist.controls =
    (List.range n).map fun k => ((D k).a, (D k).b, (D k).c.throttle)
  etas : (tr n).hist.etas = (List.range n).map fun k => ((D k).c.valA, (D k).c.valR)
  etasBounds : (tr n).hist.etasBounds = (List.range n).map fun k => ((D k).c.etaA, (D k).c.etaR)
  qs : (tr n).hist.qs = (List.range n).map fun k => (D k).c.q
  dqdts : (tr n).hist.dqdts = (List.range n).map fun k => (D k).c.qdot

theorem IsTrace.hist {E : Env α} : ∀ {n : ℕ} {tr : ℕ → LoopSt α} {D : ℕ → StepData α},
    IsTrace E n tr D → HistOf E n tr D := by
  intro n
  induction n with
  | zero =>
    intro tr D h
    constructor <;> simp [h.init, initLoop]
  | succ n ih =>
    intro tr D h
    have hp := ih (h.prefix (Nat.lt_succ_self n)).1
    have hc := (h.step n (Nat.lt_succ_self n)).clamp
    have hs := h.succ_eq (Nat.lt_succ_self n)
    obtain ⟨l, hl1, hl2⟩ := clamp_states hc ⟨_, hp.states⟩
    rw [hp.states] at hl1
    have hl := List.append_cancel_right hl1
    constructor
    · rw [List.range_succ, List.map_append, ← hp.times]
      simp only [hs, postState, List.map_cons, List.map_nil, clamp_times hc]
    · rw [List.range_succ, List.map_append, ← hp.masses]
      simp only [hs, postState, List.map_cons, List.map_nil, clamp_masses hc]
    · rw [List.range_succ, List.map_append, ← hp.battery]
      simp only [hs, postState, List.map_cons, List.map_nil, clamp_batteryH hc]
    · rw [List.range_succ, List.map_append, hl]
      simp only [hs, postState, List.map_cons, List.map_nil, hl2]
    · rw [List.range_succ, List.map_append, ← hp.controls]
      simp only [hs, postState, List.map_cons, List.map_nil, clamp_controls hc]
    · rw [List.range_succ, List.map_append, ← hp.etas]
      simp only [hs, postState, List.map_cons, List.map_nil, clamp_etas hc]
    · rw [List.range_succ, List.map_append, ← hp.etasBounds]
      simp only [hs, postState, List.map_cons, List.map_nil, clamp_etasBounds hc]
    · rw [List.range_succ, List.map_append, ← hp.qs]
      simp only [hs, postState, List.map_cons, List.map_nil, clamp_qs hc]
    · rw [List.range_succ, List.map_append, ← hp.dqdts]
      simp only [hs, postState, List.map_cons, List.map_nil, clamp_dqdts hc]

end PyQ
