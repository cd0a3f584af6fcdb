import Verif.Proofs.View

/-! # Two control laws that agree along a run give the same run

Law-free: the second object differs only in the generated functions, and they have the same values
at the arguments met along the run of the first. -/

set_option linter.unusedSectionVars false

namespace PyQ

variable {α : Type} [Add α] [Sub α] [Mul α] [Div α] [Neg α] [NatCast α] [Pow α ℕ]
  [PyTrans α] [PyOrd α] [PyNan α]

/-- the settings with other generated functions -/
def Config.withDyn (C : Config α) (D : Dyn α) : Config α := { C with dyn := D }

/-- the environment with other generated functions -/
def Env.withDyn (E : Env α) (D : Dyn α) : Env α := { E with cfg := E.cfg.withDyn D }

/-- the generated functions `D` and `D'` have the same values at `A`, and at `A` with any other fast variable -/
structure AgreeAt (D D' : Dyn α) (A : LyapArgs α) : Prop where
  law : D'.lyapFun A = D.lyapFun A
  rate : ∀ ν, D'.dqdtFun { A with oe := ![A.oe 0, A.oe 1, A.oe 2, A.oe 3, A.oe 4, ν] } =
    D.dqdtFun { A with oe := ![A.oe 0, A.oe 1, A.oe 2, A.oe 3, A.oe 4, ν] }

omit [PyNan α] in
theorem angles_congr {f g : LyapArgs α → LyapOut α} {A : LyapArgs α} (h : f A = g A) :
    lyapunovControlAngles f A = lyapunovControlAngles g A := by
  unfold lyapunovControlAngles
  rw [h]

theorem control_agree {E : Env α} {D' : Dyn α} {s : LoopSt α} {d : DutyRes α}
    (h : ∀ v, asVec5 E.prob.oeT = .ok v → AgreeAt E.cfg.dyn D'
      (lyapArgs E.cfg E.prob v (PyOrd.sign d.step * E.prob.tmax / s.mass) s.oe)) :
    controlPhase (E.withDyn D') s d = controlPhase E s d := by
  unfold controlPhase
  have e1 : (E.withDyn D').prob = E.prob := rfl
  have e2 : (E.withDyn D').etaA = E.etaA := rfl
  have e3 : (E.withDyn D').etaR = E.etaR := rfl
  have e4 : (E.withDyn D').cfg.nanAnglesThreshold = E.cfg.nanAnglesThreshold := rfl
  simp only [e1, e2, e3, e4, bind, Except.bind, pure, Except.pure]
  cases hv : asVec5 E.prob.oeT with
  | error e => rfl
  | ok v =>
    simp only
    have H := h v hv
    have hl : lyapunovControlAngles (E.withDyn D').cfg.dyn.lyapFun
        (lyapArgs (E.withDyn D').cfg E.prob v (PyOrd.sign d.step * E.prob.tmax / s.mass) s.oe) =
        lyapunovControlAngles E.cfg.dyn.lyapFun
        (lyapArgs E.cfg E.prob v (PyOrd.sign d.step * E.prob.tmax / s.mass) s.oe) := by
      exact angles_congr H.law
    have hq : evaluateOsculatingQdot (E.withDyn D').cfg E.prob v s.oe (PyOrd.sign d.step * E.prob.tmax / s.mass) =
        evaluateOsculatingQdot E.cfg E.prob v s.oe (PyOrd.sign d.step * E.prob.tmax / s.mass) := by
      unfold evaluateOsculatingQdot
      have : ∀ ν, (E.withDyn D').cfg.dyn.dqdtFun (lyapArgs (E.withDyn D').cfg E.prob v
          (PyOrd.sign d.step * E.prob.tmax / s.mass) ![s.oe 0, s.oe 1, s.oe 2, s.oe 3, s.oe 4, ν]) =
          E.cfg.dyn.dqdtFun (lyapArgs E.cfg E.prob v
          (PyOrd.sign d.step * E.prob.tmax / s.mass) ![s.oe 0, s.oe 1, s.oe 2, s.oe 3, s.oe 4, ν]) := H.rate
      simp only [this]
      rfl
    rw [hl, hq]

/-- the functions that are not generated are the same -/
structure SameMotion (D D' : Dyn α) : Prop where
  eom : D'.eom = D.eom
  conv : D'.checkConv = D.checkConv

/-- the laws agree at the arguments of the iteration starting at `s` -/
def AgreeIter (E : Env α) (D' : Dyn α) (s : LoopSt α) : Prop :=
  ∀ s1 st v, clampPhase E.cfg s = .ok s1 → chooseStep E.cfg E.prob s1.oe = .ok st → asVec5 E.prob.oeT = .ok v →
    AgreeAt E.cfg.dyn D'
      (lyapArgs E.cfg E.prob v (PyOrd.sign (dutyPhase E.prob s1 st).step * E.prob.tmax / s1.mass) s1.oe)

theorem iter_agree {E : Env α} {D' : Dyn α} (hm : SameMotion E.cfg.dyn D') {s : LoopSt α}
    (h : AgreeIter E D' s) : iter (E.withDyn D') s = iter E s := by
  unfold iter
  have e1 : clampPhase (E.withDyn D').cfg s = clampPhase E.cfg s := rfl
  rw [e1]
  cases hc : clampPhase E.cfg s with
  | error e => rfl
  | ok s1 =>
    simp only
    unfold bodyPhase
    have e2 : chooseStep (E.withDyn D').cfg (E.withDyn D').prob s1.oe = chooseStep E.cfg E.prob s1.oe := rfl
    have e3 : (E.withDyn D').prob = E.prob := rfl
    rw [e2, e3]
    cases hs : chooseStep E.cfg E.prob s1.oe with
    | error e => rfl
    | ok st =>
      simp only
      rw [control_agree fun v hv => h s1 st v hc hs hv]
      have ep : ∀ c, propagatePhase (E.withDyn D') s1 (dutyPhase E.prob s1 st).step c =
          propagatePhase E s1 (dutyPhase E.prob s1 st).step c := by
        intro c
        unfold propagatePhase
        have : (E.withDyn D').cfg.dyn.eom = E.cfg.dyn.eom := hm.eom
        dsimp only
        rw [this]
        rfl
      have ex : ∀ v s', exitPhase (E.withDyn D') v s' = exitPhase E v s' := by
        intro v s'
        unfold exitPhase
        have : (E.withDyn D').cfg.dyn.checkConv = E.cfg.dyn.checkConv := hm.conv
        dsimp only
        rw [this]
        rfl
      simp only [ep, ex]

/-- what the loop keeps: the last recorded state and mass are the current ones -/
structure Recorded (s : LoopSt α) : Prop where
  oe : ∃ l, s.hist.states = l ++ [s.oe]
  mass : ∃ l, s.hist.masses = l ++ [s.mass]
  len : s.hist.states.length = s.hist.masses.length

theorem Recorded.init (P : Problem α) : Recorded (initLoop P) := ⟨⟨[], rfl⟩, ⟨[], rfl⟩, rfl⟩

theorem Recorded.clamp {C : Config α} {s s1 : LoopSt α} (H : Recorded s) (h : clampPhase C s = .ok s1) : Recorded s1 := by
  unfold clampPhase at h
  cases hC : C.elementsType with
  | meeWithA =>
    rw [hC] at h
    have : s = s1 := by simpa [pure, Except.pure] using h
    exact this ▸ H
  | keplerian =>
    rw [hC] at h
    simp only [bind, Except.bind, pure, Except.pure] at h
    split at h
    · cases h
    · injection h with h
      subst h
      obtain ⟨l, hl⟩ := H.oe
      refine ⟨⟨l, by simp [hl]⟩, H.mass, ?_⟩
      have := H.len
      simp only [hl] at this ⊢
      simpa using this

/-- an iteration appends to the clamped histories, and keeps `Recorded` if it goes on -/
theorem iter_recorded {E : Env α} {s s1 : LoopSt α} (H : Recorded s) (h : clampPhase E.cfg s = .ok s1) :
    (∀ s', iter E s = .cont s' → Recorded s' ∧ s'.hist.states = s1.hist.states ++ [s'.oe] ∧
      s1.hist.masses <+: s'.hist.masses) ∧
    (∀ s' c, iter E s = .brk s' c → s1.hist.states <+: s'.hist.states ∧ s1.hist.masses <+: s'.hist.masses) ∧
    ∀ s' e, iter E s = .err s' e → s1.hist.states <+: s'.hist.states ∧ s1.hist.masses <+: s'.hist.masses := by
  have H1 := H.clamp h
  have same : ∀ {s2}, clampPhase E.cfg s = .ok s2 → s2 = s1 := by
    intro s2 h2
    rw [h] at h2; injection h2 with h2; exact h2.symm
  rcases iter_cases E s with ⟨e, h1, -⟩ | ⟨s2, e, h1, h2, -⟩ | ⟨s2, st, n, h1, -, -, s', h2, h3, -⟩ |
    ⟨s2, st, c, oe, hb, h1, -, -, -, -, s', h2, h3⟩ | ⟨D, hD⟩
  · rw [h] at h1; cases h1
  · have := same h1
    subst this
    rw [h2]
    refine ⟨fun _ h => (by cases h), fun _ _ h => (by cases h), fun s' e h => ?_⟩
    injection h with h
    exact h ▸ ⟨List.prefix_refl _, List.prefix_refl _⟩
  · have := same h1
    subst this
    rw [h2]
    refine ⟨fun _ h => (by cases h), fun s' e h => ?_, fun _ _ h => (by cases h)⟩
    injection h with h
    rw [← h, h3]
    exact ⟨List.prefix_refl _, List.prefix_refl _⟩
  · have := same h1
    subst this
    rw [h2]
    refine ⟨fun _ h => (by cases h), fun _ _ h => (by cases h), fun s' e h => ?_⟩
    injection h with h
    rw [← h, h3]
    exact ⟨List.prefix_append _ _, List.prefix_append _ _⟩
  · have := same hD.clamp
    subst this
    have hn := hD.next
    refine ⟨fun s' h => ?_, fun s' c h => ?_, fun s' e h => ?_⟩
    · rw [hn.1 s' h]
      refine ⟨⟨⟨_, rfl⟩, ⟨_, rfl⟩, ?_⟩, rfl, List.prefix_append _ _⟩
      show (D.s1.hist.states ++ [_]).length = (D.s1.hist.masses ++ [_]).length
      simp [H1.len]
    · rw [hn.2 s' c h]
      exact ⟨List.prefix_append _ _, List.prefix_append _ _⟩
    · rw [hD.iter_eq] at h
      rcases exitPhase_cases E D.c.oeT (postState E D) with h1 | h1 | h1 | h1 <;> rw [h1.1] at h <;> cases h

/-- the histories at the end of a loop extend those at the start of each iteration, after its clamp -/
theorem loop_recorded {E : Env α} {r : RunRes α} : ∀ (fuel : ℕ) (s s1 : LoopSt α), Recorded s →
    loop E fuel s = some r → guardB E.prob s = true → clampPhase E.cfg s = .ok s1 →
    s1.hist.states <+: r.st.hist.states ∧ s1.hist.masses <+: r.st.hist.masses := by
  intro fuel
  induction fuel with
  | zero => intro s s1 _ h; simp [loop] at h
  | succ n ih =>
    intro s s1 H h hg hc
    obtain ⟨h1, h2, h3⟩ := iter_recorded H hc
    unfold loop at h
    rw [hg, if_pos rfl] at h
    cases hi : iter E s with
    | brk s' c =>
      rw [hi] at h
      injection h with h
      rw [← h]
      exact h2 s' c hi
    | err s' e =>
      rw [hi] at h
      injection h with h
      rw [← h]
      exact h3 s' e hi
    | cont s' =>
      rw [hi] at h
      simp only at h
      obtain ⟨R, e1, e2⟩ := h1 s' hi
      cases hg' : guardB E.prob s' with
      | false =>
        cases n with
        | zero => simp [loop] at h
        | succ n =>
          unfold loop at h
          rw [hg'] at h
          simp only [Bool.false_eq_true, if_false] at h
          injection h with h
          rw [← h]
          exact ⟨by show _ <+: s'.hist.states; rw [e1]; exact List.prefix_append _ _, e2⟩
      | true =>
        cases hc' : clampPhase E.cfg s' with
        | error e =>
          cases n with
          | zero => simp [loop] at h
          | succ n =>
            unfold loop at h
            simp only [hg', if_true, iter, hc'] at h
            injection h with h
            rw [← h]
            exact ⟨by show _ <+: s'.hist.states; rw [e1]; exact List.prefix_append _ _, e2⟩
        | ok s2 =>
          obtain ⟨p1, p2⟩ := ih s' s2 R h hg' hc'
          have e3 : s1.hist.states <+: s2.hist.states ∧ s2.hist.masses = s'.hist.masses := by
            unfold clampPhase at hc'
            cases hC : E.cfg.elementsType with
            | meeWithA =>
              rw [hC] at hc'
              have : s' = s2 := by simpa [pure, Except.pure] using hc'
              rw [← this, e1]
              exact ⟨List.prefix_append _ _, rfl⟩
            | keplerian =>
              rw [hC] at hc'
              simp only [bind, Except.bind, pure, Except.pure] at hc'
              split at hc'
              · cases hc'
              · injection hc' with hc'
                rw [← hc']
                simp [e1]
          exact ⟨e3.1.trans p1, e2.trans (e3.2 ▸ p2)⟩

/-- the laws agree at every recorded state and mass of a run -/
def AgreeAlong (E : Env α) (D' : Dyn α) (H : Hist α) : Prop :=
  ∀ (k : ℕ) (s1 : LoopSt α) (st : α) (v : Fin 5 → α), H.states[k]? = some s1.oe → H.masses[k]? = some s1.mass →
    chooseStep E.cfg E.prob s1.oe = .ok st → asVec5 E.prob.oeT = .ok v →
    AgreeAt E.cfg.dyn D'
      (lyapArgs E.cfg E.prob v (PyOrd.sign (dutyPhase E.prob s1 st).step * E.prob.tmax / s1.mass) s1.oe)

theorem loop_agree {E : Env α} {D' : Dyn α} (hm : SameMotion E.cfg.dyn D') {r : RunRes α} :
    ∀ (fuel : ℕ) (s : LoopSt α), Recorded s → loop E fuel s = some r → AgreeAlong E D' r.st.hist →
    loop (E.withDyn D') fuel s = some r := by
  intro fuel
  induction fuel with
  | zero => intro s _ h; simp [loop] at h
  | succ n ih =>
    intro s R h hA
    have hl := h
    unfold loop at h ⊢
    have hg' : guardB (E.withDyn D').prob s = guardB E.prob s := rfl
    rw [hg']
    cases hg : guardB E.prob s with
    | false => rw [hg] at h; exact h
    | true =>
      rw [hg] at h
      simp only [if_true] at h ⊢
      have hI : AgreeIter E D' s := by
        intro s1 st v h1 h2 h3
        obtain ⟨p1, p2⟩ := loop_recorded _ s s1 R hl hg h1
        have R1 := R.clamp h1
        obtain ⟨l1, q1⟩ := R1.oe
        obtain ⟨l2, q2⟩ := R1.mass
        have hlen : l1.length = l2.length := by
          have := R1.len
          rw [q1, q2] at this
          simpa using this
        obtain ⟨t1, ht1⟩ := p1
        obtain ⟨t2, ht2⟩ := p2
        refine hA l1.length s1 st v ?_ ?_ h2 h3
        · rw [← ht1, q1]; simp
        · rw [← ht2, q2, hlen]; simp
      rw [iter_agree hm hI]
      cases hi : iter E s with
      | brk s' c => rw [hi] at h; exact h
      | err s' e => rw [hi] at h; exact h
      | cont s' =>
        rw [hi] at h
        simp only at h ⊢
        refine ih s' ?_ h hA
        cases hc : clampPhase E.cfg s with
        | error e => simp [iter, hc] at hi
        | ok s1 => exact ((iter_recorded R hc).1 s' hi).1

/-- **the same run**: an object whose generated functions agree with those of `Q` at the states recorded by `Q` -/
theorem solve_agree {Q Q' : QLaw α} {P : Problem α} {D' : Dyn α} {etaA etaR : EtaArg α} {fuel : ℕ} {e : Option PyErr}
    {H : Hist α} (hm : SameMotion Q.cfg.dyn D') (hP : Q.prob = some P) (h : Q.solve etaA etaR fuel = some (Q', e))
    (hr : Q.ready = true) (hH : Q'.hist = some H) (hA : AgreeAlong (envOf Q P etaA etaR) D' H)
    (hv : etaA.valid = true) :
    ({ Q with cfg := Q.cfg.withDyn D' } : QLaw α).solve etaA etaR fuel =
      some ({ Q' with cfg := Q'.cfg.withDyn D' }, e) := by
  unfold QLaw.solve at h ⊢
  simp only [hP, hr, hv, if_true] at h ⊢
  obtain ⟨r, h1, h2⟩ := Option.map_eq_some_iff.1 h
  injection h2 with h2 h3
  have hst : r.st.hist = H := by
    rw [← h2] at hH
    have : some r.st.hist = some H := hH
    injection this
  have := loop_agree (E := envOf Q P etaA etaR) hm fuel (initLoop P) (Recorded.init P) h1 (hst ▸ hA)
  have h4 : loop { cfg := Q.cfg.withDyn D', prob := P, etaA := etaA, etaR := etaR } fuel (initLoop P) = some r := this
  rw [h4, ← h2, ← h3]
  simp only [Option.map_some, QLaw.finish, hr]

end PyQ
