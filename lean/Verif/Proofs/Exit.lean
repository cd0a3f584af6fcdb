import Verif.Proofs.Control
import Verif.Spec

/-! # Runs of `solve` and exit conditions (law-free helper lemmas) -/

set_option linter.unusedSectionVars false

namespace PyQ

variable {α : Type} [Add α] [Sub α] [Mul α] [Div α] [Neg α] [NatCast α] [Pow α ℕ]
  [PyTrans α] [PyOrd α] [PyNan α]

/-- a `solve` call that entered the loop, with its execution -/
structure SolveRun (Q : QLaw α) (etaA etaR : EtaArg α) (Q' : QLaw α) (e : Option PyErr)
    (P : Problem α) (n : ℕ) (tr : ℕ → LoopSt α) (D : ℕ → StepData α) (r : RunRes α) : Prop where
  ready : Q.ready = true
  prob : Q.prob = some P
  valid : etaA.valid = true
  trace : IsTrace (envOf Q P etaA etaR) n tr D
  ends : Ends (envOf Q P etaA etaR) n tr D r
  obj : Q' = Q.finish P r
  err : e = r.error?

theorem solve_cases {Q Q' : QLaw α} {etaA etaR : EtaArg α} {fuel : ℕ} {e : Option PyErr}
    (h : Q.solve etaA etaR fuel = some (Q', e)) :
    (Q' = Q ∧ e = some .assertion ∧ (Q.ready = false ∨ Q.prob = none)) ∨
    (Q' = Q ∧ e = some .valueError ∧ etaA.valid = false) ∨
    ∃ P n tr D r, SolveRun Q etaA etaR Q' e P n tr D r := by
  unfold QLaw.solve at h
  cases hr : Q.ready with
  | false => simp [hr] at h; left; exact ⟨h.1.symm, h.2.symm, Or.inl rfl⟩
  | true =>
    cases hp : Q.prob with
    | none => simp [hr, hp] at h; left; exact ⟨h.1.symm, h.2.symm, Or.inr rfl⟩
    | some P =>
      simp only [hr, hp] at h
      cases hv : etaA.valid with
      | false => simp [hv] at h; right; left; exact ⟨h.1.symm, h.2.symm, rfl⟩
      | true =>
        right; right
        simp only [hv, if_true, Option.map_eq_some_iff] at h
        obtain ⟨r, hl, hr'⟩ := h
        obtain ⟨n, tr, D, hT, hE⟩ := loop_trace (E := envOf Q P etaA etaR) hl
        refine ⟨P, n, tr, D, r, hr, hp, hv, hT, hE, ?_, ?_⟩
        · exact (congrArg Prod.fst hr').symm
        · exact (congrArg Prod.snd hr').symm

/-- a normal return comes from a run of the loop -/
theorem solve_return {Q Q' : QLaw α} {etaA etaR : EtaArg α} {fuel : ℕ}
    (h : Q.solve etaA etaR fuel = some (Q', none)) :
    ∃ P n tr D r, SolveRun Q etaA etaR Q' none P n tr D r := by
  rcases solve_cases h with ⟨_, h1, _⟩ | ⟨_, h1, _⟩ | h1
  · cases h1
  · cases h1
  · exact h1

/-- facts about an iteration that continued -/
theorem cont_facts {E : Env α} {s s' : LoopSt α} {D : StepData α} (hr : RecStep E s D)
    (h : iter E s = .cont s') :
    E.cfg.dyn.checkConv s'.oe D.c.oeT E.prob.woe E.cfg.tolOe = false ∧
    (E.cfg.dyn.checkConv s'.oe D.c.oeT E.prob.woe E.cfg.tolOeRelaxed = true →
      ((s'.nRelaxed : ℕ) : ℤ) < E.cfg.exitAtRelaxed) ∧
    PyOrd.le s'.mass E.prob.massMin = false := by
  have hs := hr.next.1 s' h
  rw [hr.iter_eq] at h
  rcases exitPhase_cases E D.c.oeT (postState E D) with h2 | h2 | h2 | h2
  · rw [hs]; exact ⟨h2.2.1, h2.2.2.1, h2.2.2.2⟩
  · rw [h2.1] at h; cases h
  · rw [h2.1] at h; cases h
  · rw [h2.1] at h; cases h

/-- facts about a recorded iteration that broke -/
theorem brk_facts {E : Env α} {s s' : LoopSt α} {D : StepData α} {c : ℤ} (hr : RecStep E s D)
    (h : iter E s = .brk s' c) :
    (c = 1 ∧ E.cfg.dyn.checkConv s'.oe D.c.oeT E.prob.woe E.cfg.tolOe = true) ∨
    (c = 2 ∧ E.cfg.dyn.checkConv s'.oe D.c.oeT E.prob.woe E.cfg.tolOe = false ∧
      E.cfg.dyn.checkConv s'.oe D.c.oeT E.prob.woe E.cfg.tolOeRelaxed = true ∧
      E.cfg.exitAtRelaxed ≤ ((s'.nRelaxed : ℕ) : ℤ)) ∨
    (c = -1 ∧ E.cfg.dyn.checkConv s'.oe D.c.oeT E.prob.woe E.cfg.tolOe = false ∧
      (E.cfg.dyn.checkConv s'.oe D.c.oeT E.prob.woe E.cfg.tolOeRelaxed = true →
        ((s'.nRelaxed : ℕ) : ℤ) < E.cfg.exitAtRelaxed) ∧
      PyOrd.le s'.mass E.prob.massMin = true) := by
  have hs := hr.next.2 s' c h
  rw [hr.iter_eq] at h
  rcases exitPhase_cases E D.c.oeT (postState E D) with h2 | h2 | h2 | h2
  · rw [h2.1] at h; cases h
  · rw [h2.1] at h; injection h with _ hc; rw [hs]; exact Or.inl ⟨hc.symm, h2.2⟩
  · rw [h2.1] at h; injection h with _ hc; rw [hs]; exact Or.inr (Or.inl ⟨hc.symm, h2.2⟩)
  · rw [h2.1] at h; injection h with _ hc; rw [hs]; exact Or.inr (Or.inr ⟨hc.symm, h2.2⟩)

theorem RecStep.oeT {E : Env α} {s : LoopSt α} {D : StepData α} (hr : RecStep E s D) :
    asVec5 E.prob.oeT = .ok D.c.oeT := by
  obtain ⟨o, h, _⟩ := control_ctl hr.ctl
  exact h

/-- the relaxed counter equals the number of recorded results inside the relaxed tolerance but not
inside the strict one -/
theorem nRelaxed_count {E : Env α} {oeT : Fin 5 → α} (hoeT : asVec5 E.prob.oeT = .ok oeT) :
    ∀ {n : ℕ} {tr : ℕ → LoopSt α} {D : ℕ → StepData α}, IsTrace E n tr D →
    (tr n).nRelaxed = (List.range n).countP fun k =>
      !E.cfg.dyn.checkConv (tr (k + 1)).oe oeT E.prob.woe E.cfg.tolOe &&
      E.cfg.dyn.checkConv (tr (k + 1)).oe oeT E.prob.woe E.cfg.tolOeRelaxed := by
  intro n
  induction n with
  | zero => intro tr D h; simp [h.init, initLoop]
  | succ n ih =>
    intro tr D h
    have hp := ih (h.prefix (Nat.lt_succ_self n)).1
    have hr := h.step n (Nat.lt_succ_self n)
    have ho : (D n).c.oeT = oeT := by
      have := hr.oeT; rw [hoeT] at this; injection this with this; exact this.symm
    have hs := h.succ_eq (Nat.lt_succ_self n)
    rw [List.range_succ, List.countP_append, ← hp]
    have h1 : (tr (n + 1)).oe = (postState E (D n)).oe := by rw [hs]
    have h2 : (tr (n + 1)).nRelaxed = relaxedAfter E oeT (postState E (D n)) := by rw [hs, ho]
    rw [h2, relaxedAfter]
    simp only [List.countP_cons, List.countP_nil, h1]
    have h3 : (postState E (D n)).nRelaxed = (tr n).nRelaxed := by
      show (D n).s1.nRelaxed = _
      exact clamp_nRelaxed hr.clamp
    rw [h3]
    cases E.cfg.dyn.checkConv (postState E (D n)).oe oeT E.prob.woe E.cfg.tolOe <;>
      cases E.cfg.dyn.checkConv (postState E (D n)).oe oeT E.prob.woe E.cfg.tolOeRelaxed <;> simp

/-- in MEE mode the recorded states are the results of the steps -/
theorem states_mee {E : Env α} (hE : E.cfg.elementsType = .meeWithA) {n : ℕ}
    {tr : ℕ → LoopSt α} {D : ℕ → StepData α} (h : IsTrace E n tr D) :
    (tr n).hist.states = (List.range (n + 1)).map fun k => (tr k).oe := by
  rw [h.hist.states, List.range_succ, List.map_append]
  congr 1
  apply List.map_congr_left
  intro k hk
  have hk' := List.mem_range.mp hk
  rcases clamp_cases (h.step k hk').clamp with ⟨_, h1⟩ | ⟨h1, _⟩
  · rw [h1]
  · rw [hE] at h1; cases h1

theorem finish_exit (Q : QLaw α) (P : Problem α) (s : LoopSt α) (c : ℤ) :
    (Q.finish P (.exit s c)).exitcode = c ∧
    (Q.finish P (.exit s c)).converge = (if c = 1 ∨ c = 2 then true else Q.converge) ∧
    (Q.finish P (.exit s c)).hist = some s.hist := ⟨rfl, rfl, rfl⟩

theorem finish_timeout (Q : QLaw α) (P : Problem α) (s : LoopSt α) (h0 : Q.exitcode = 0)
    (h1 : Q.converge = false) :
    (Q.finish P (.timeout s)).exitcode = -2 ∧ (Q.finish P (.timeout s)).converge = false ∧
    (Q.finish P (.timeout s)).hist = some s.hist := by
  simp [QLaw.finish, finishFlags, h0, h1, RunRes.st]

/-- the number of recorded or aborting evaluations of the control law with NaN angles -/
theorem nNan_count {E : Env α} :
    ∀ {n : ℕ} {tr : ℕ → LoopSt α} {D : ℕ → StepData α} (p : ℕ → Bool), IsTrace E n tr D →
    (∀ k < n, p k = true ↔ ((D k).d.duty = true ∧ ∃ o, lawAt E (D k).s1 (D k).d (D k).c.oeT = .ok o ∧
      (PyNan.isnan o.alpha || PyNan.isnan o.beta) = true)) →
    (tr n).nNan = (List.range n).countP p := by
  intro n
  induction n with
  | zero => intro tr D p h _; simp [h.init, initLoop]
  | succ n ih =>
    intro tr D p h hp
    have h0 := ih p (h.prefix (Nat.lt_succ_self n)).1 (fun k hk => hp k (by omega))
    have hr := h.step n (Nat.lt_succ_self n)
    have hs := h.succ_eq (Nat.lt_succ_self n)
    have h1 : (tr (n + 1)).nNan = (D n).c.nNan := by rw [hs]; rfl
    have h2 := clamp_nNan hr.clamp
    have h3 := hp n (Nat.lt_succ_self n)
    rw [h1, List.range_succ, List.countP_append, ← h0, ← h2]
    simp only [List.countP_cons, List.countP_nil]
    obtain ⟨o, ho1, ho2, _, _, _, hk⟩ := control_ctl hr.ctl
    cases hk with
    | off hd ha hb ht hu hn =>
      have : p n = false := by
        rw [Bool.eq_false_iff]; intro h4; rw [h3] at h4; rw [hd] at h4; exact absurd h4.1 (by simp)
      simp [this, hn]
    | nan hd hnan hthr ha hb ht hu hn =>
      have : p n = true := h3.mpr ⟨hd, o, ho2, hnan⟩
      simp [this, hn]
    | free hd hnan hea her hpos ha hb ht hu hn =>
      have : p n = false := by
        rw [Bool.eq_false_iff]; intro h4; rw [h3] at h4
        obtain ⟨_, o', h5, h6⟩ := h4
        rw [ho2] at h5; injection h5 with h5; subst h5; rw [hnan] at h6; cases h6
      simp [this, hn]
    | gated mx mn hd hnan hea her hpos hq hva hvr ha hb ht hu hn =>
      have : p n = false := by
        rw [Bool.eq_false_iff]; intro h4; rw [h3] at h4
        obtain ⟨_, o', h5, h6⟩ := h4
        rw [ho2] at h5; injection h5 with h5; subst h5; rw [hnan] at h6; cases h6
      simp [this, hn]

/-- while the loop continues the NaN counter has not exceeded the threshold (if it ever counted) -/
theorem nNan_bound {E : Env α} :
    ∀ {n : ℕ} {tr : ℕ → LoopSt α} {D : ℕ → StepData α}, IsTrace E n tr D →
    ((tr n).nNan : ℤ) ≤ max E.cfg.nanAnglesThreshold 0 := by
  intro n
  induction n with
  | zero => intro tr D h; simp [h.init, initLoop]
  | succ n ih =>
    intro tr D h
    have h0 := ih (h.prefix (Nat.lt_succ_self n)).1
    have hr := h.step n (Nat.lt_succ_self n)
    have hs := h.succ_eq (Nat.lt_succ_self n)
    have h1 : (tr (n + 1)).nNan = (D n).c.nNan := by rw [hs]; rfl
    have h2 := clamp_nNan hr.clamp
    rw [h1]
    obtain ⟨o, ho1, ho2, _, _, _, hk⟩ := control_ctl hr.ctl
    cases hk with
    | off hd ha hb ht hu hn => rw [hn, h2]; exact h0
    | nan hd hnan hthr ha hb ht hu hn => rw [hn]; exact le_trans hthr (le_max_left _ _)
    | free hd hnan hea her hpos ha hb ht hu hn => rw [hn, h2]; exact h0
    | gated mx mn hd hnan hea her hpos hq hva hvr ha hb ht hu hn => rw [hn, h2]; exact h0


/-- the trace of a run is the sequence of loop states -/
theorem IsTrace.after {E : Env α} {n : ℕ} {tr : ℕ → LoopSt α} {D : ℕ → StepData α}
    (h : IsTrace E n tr D) : ∀ k ≤ n, tr k = E.after k := by
  intro k
  induction k with
  | zero => intro _; rw [h.init]; rfl
  | succ k ih =>
    intro hk
    have h1 := ih (by omega)
    unfold Env.after
    rw [← h1]
    rcases Nat.lt_or_ge (k + 1) n with h2 | h2
    · rw [h.cont k h2]
    · have : k + 1 = n := by omega
      rcases h.last k this with h3 | ⟨c, h3⟩
      · rw [h3, this]
      · rw [h3, this]

/-- the NaN predicate of a recorded step -/
theorem nanAt_rec {E : Env α} {s : LoopSt α} {D : StepData α} (hr : RecStep E s D) :
    nanAt E s = true ↔ (D.d.duty = true ∧ ∃ o, lawAt E D.s1 D.d D.c.oeT = .ok o ∧
      (PyNan.isnan o.alpha || PyNan.isnan o.beta) = true) := by
  obtain ⟨o, ho1, ho2, _⟩ := control_ctl hr.ctl
  have ho3 := ho2
  unfold lawAt accelOf at ho3
  unfold nanAt
  simp only [hr.clamp, hr.choose, ho1, ← hr.duty, ho3, ho2]
  simp

end PyQ
