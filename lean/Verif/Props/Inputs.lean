import Verif.Proofs.View
import Verif.Props.Convergence

/-! # `solve` and its inputs: the `oe0` array, element bounds, targets (C26, C27, C30) -/

set_option linter.unusedSectionVars false
set_option maxRecDepth 100000
set_option synthInstance.maxSize 1000

namespace PyQ

variable {α : Type} [Add α] [Sub α] [Mul α] [Div α] [Neg α] [NatCast α] [Pow α ℕ]
  [PyTrans α] [PyOrd α] [PyNan α]

/-! ## C26 -/

/-- the first recorded state of a trace -/
theorem trace_head {E : Env α} {n : ℕ} {tr : ℕ → LoopSt α} {D : ℕ → StepData α}
    (h : IsTrace E n tr D) :
    (n = 0 ∧ (tr n).hist.states = [E.prob.oe0]) ∨
    (0 < n ∧ ∃ s1 l, clampPhase E.cfg (initLoop E.prob) = .ok s1 ∧ l ≠ [] ∧
      (tr n).hist.states = s1.oe :: l) := by
  cases n with
  | zero => left; simp [h.init, initLoop]
  | succ n =>
    right
    have hc := (h.step 0 (by omega)).clamp
    rw [h.init] at hc
    refine ⟨by omega, _, _, hc, ?_, by rw [h.hist.states, List.range_succ_eq_map]; simp; rfl⟩
    simp

/-- clamping the last state leaves the head of a longer list alone -/
theorem clamp_head {C : Config α} {s s1 : LoopSt α} {x : Fin 6 → α} {l : List (Fin 6 → α)}
    (h : clampPhase C s = .ok s1) (hl : l ≠ []) (hs : s.hist.states = x :: l) :
    ∃ l', l' ≠ [] ∧ s1.hist.states = x :: l' := by
  rcases clamp_cases h with ⟨_, rfl⟩ | ⟨_, oe, _, rfl⟩
  · exact ⟨l, hl, hs⟩
  · cases l with
    | nil => exact absurd rfl hl
    | cons y l => exact ⟨(y :: l).dropLast ++ [oe], by simp, by simp [hs]⟩

/-- the first recorded state of any run, including those that raise: the given initial state, or its
clamped version -/
theorem run_head {E : Env α} {n : ℕ} {tr : ℕ → LoopSt α} {D : ℕ → StepData α} {r : RunRes α}
    (hT : IsTrace E n tr D) (hE : Ends E n tr D r) :
    ∃ x l, r.st.hist.states = x :: l ∧ (x = E.prob.oe0 ∨
      ∃ s1, clampPhase E.cfg (initLoop E.prob) = .ok s1 ∧ x = s1.oe) := by
  have h0 : ∃ x l, (tr n).hist.states = x :: l ∧ (x = E.prob.oe0 ∨
      ∃ s1, clampPhase E.cfg (initLoop E.prob) = .ok s1 ∧ x = s1.oe) := by
    rcases trace_head hT with ⟨_, h1⟩ | ⟨_, s1, l, h1, _, h2⟩
    · exact ⟨_, _, h1, Or.inl rfl⟩
    · exact ⟨_, _, h2, Or.inr ⟨s1, h1, rfl⟩⟩
  have h2 : ∀ s1, clampPhase E.cfg (tr n) = .ok s1 → ∃ x l, s1.hist.states = x :: l ∧
      (x = E.prob.oe0 ∨ ∃ s1, clampPhase E.cfg (initLoop E.prob) = .ok s1 ∧ x = s1.oe) := by
    intro s1 hc
    rcases trace_head hT with ⟨hn, h1⟩ | ⟨_, s2, l, h1, hl, h2⟩
    · subst hn
      rw [hT.init] at hc
      obtain ⟨l, hl, hl'⟩ := clamp_states hc ⟨[], rfl⟩
      have hnil : l = [] := by
        cases l with
        | nil => rfl
        | cons a l => simp [initLoop] at hl
      subst hnil
      exact ⟨_, _, hl', Or.inr ⟨s1, hc, rfl⟩⟩
    · obtain ⟨l', _, h3⟩ := clamp_head hc hl h2
      exact ⟨_, _, h3, Or.inr ⟨s2, h1, rfl⟩⟩
  cases hE with
  | timeout => exact h0
  | exit => exact h0
  | nan s s1 st k _ _ hc _ _ hh _ => simp only [RunRes.st, hh]; exact h2 s1 hc
  | raised s e _ _ hi =>
    rcases iter_cases E (tr n) with ⟨e', _, h1⟩ | ⟨s1, e', hc, h1, _⟩ |
      ⟨s1, st, k, _, _, _, s2, h1, _⟩ | ⟨s1, st, c, oe, hb, hc, _, _, _, _, s2, h1, hh⟩ | ⟨D', h1⟩
    · rw [h1] at hi; injection hi with ha hb; subst ha; exact h0
    · rw [h1] at hi; injection hi with ha hb; subst ha; exact h2 _ hc
    · rw [h1] at hi; cases hi
    · rw [h1] at hi; injection hi with ha hb; subst ha
      obtain ⟨x, l, hl, hx⟩ := h2 _ hc
      exact ⟨x, l ++ [oe], by simp [RunRes.st, hh, hl], hx⟩
    · rw [h1.iter_eq] at hi
      rcases exitPhase_cases E D'.c.oeT (postState E D') with h2 | h2 | h2 | h2 <;>
        rw [h2.1] at hi <;> cases hi

/-- **C26 (partial), modified equinoctial elements.** Whatever happens in `solve` (also if it
raises), the settings and the problem, including the caller's `oe0` array, are as before, and
(whenever the run started) the first recorded state is `oe0`. Missing: keplerian elements, see
`C26_keplerian_partial` and `C26_violated`. -/
theorem C26_mee_partial {Q Q' : QLaw α} {etaA etaR : EtaArg α} {fuel : ℕ} {e : Option PyErr}
    (h : Q.solve etaA etaR fuel = some (Q', e)) (hE : Q.cfg.elementsType = .meeWithA) :
    Q'.cfg = Q.cfg ∧ Q'.prob = Q.prob ∧ Q'.ready = Q.ready ∧
      (Q' = Q ∨ ∃ P H, Q.prob = some P ∧ Q'.hist = some H ∧ H.states.head? = some P.oe0) := by
  rcases solve_cases h with ⟨h1, _⟩ | ⟨h1, _⟩ | ⟨P, n, tr, D, r, hr⟩
  · subst h1; exact ⟨rfl, rfl, rfl, Or.inl rfl⟩
  · subst h1; exact ⟨rfl, rfl, rfl, Or.inl rfl⟩
  · obtain ⟨x, l, hl, hx⟩ := run_head hr.trace hr.ends
    have hx' : x = P.oe0 := by
      rcases hx with hx | ⟨s1, hc, hx⟩
      · exact hx
      · rcases clamp_cases hc with ⟨_, rfl⟩ | ⟨h2, _⟩
        · exact hx
        · change Q.cfg.elementsType = _ at h2; rw [hE] at h2; cases h2
    subst hx'
    rw [hr.obj]
    refine ⟨rfl, ?_, rfl, Or.inr ⟨P, r.st.hist, hr.prob, rfl, by rw [hl]; rfl⟩⟩
    rw [hr.prob]
    show some { P with oe0 := r.st.hist.states.headD P.oe0 } = some P
    rw [hl]; rfl

/-- **C26 (partial), keplerian elements.** Nothing but the caller's `oe0` array can change; the
first recorded state is the array's new contents, which are the old contents or their clamped
version. -/
theorem C26_keplerian_partial {Q Q' : QLaw α} {etaA etaR : EtaArg α} {fuel : ℕ} {e : Option PyErr}
    (h : Q.solve etaA etaR fuel = some (Q', e)) (hE : Q.cfg.elementsType = .keplerian) :
    Q'.cfg = Q.cfg ∧ Q'.ready = Q.ready ∧
      (Q' = Q ∨ ∃ P H x, Q.prob = some P ∧ Q'.prob = some { P with oe0 := x } ∧ Q'.hist = some H ∧
        H.states.head? = some x ∧
        (x = P.oe0 ∨ elementsSafety P.oe0 Q.cfg.oeMin Q.cfg.oeMax = .ok x)) := by
  rcases solve_cases h with ⟨h1, _⟩ | ⟨h1, _⟩ | ⟨P, n, tr, D, r, hr⟩
  · subst h1; exact ⟨rfl, rfl, Or.inl rfl⟩
  · subst h1; exact ⟨rfl, rfl, Or.inl rfl⟩
  · obtain ⟨x, l, hl, hx⟩ := run_head hr.trace hr.ends
    rw [hr.obj]
    refine ⟨rfl, rfl, Or.inr ⟨P, r.st.hist, x, hr.prob, ?_, rfl, by rw [hl]; rfl, ?_⟩⟩
    · show some { P with oe0 := r.st.hist.states.headD P.oe0 } = _
      rw [hl]; rfl
    · rcases hx with hx | ⟨s1, hc, hx⟩
      · exact Or.inl hx
      · rcases clamp_cases hc with ⟨h2, _⟩ | ⟨_, oe, h2, rfl⟩
        · change Q.cfg.elementsType = _ at h2; rw [hE] at h2; cases h2
        · right; rw [hx]; exact h2

/-- **C26 (partial), keplerian elements within bounds**, in exact arithmetic: the array is
unchanged and is the first recorded state. -/
theorem C26_in_bounds_partial {K : Type} [Field K] [LinearOrder K] [IsStrictOrderedRing K]
    [PyTrans (Ext K)] {Q Q' : QLaw (Ext K)} {etaA etaR : EtaArg (Ext K)} {fuel : ℕ}
    {e : Option PyErr} {P : Problem (Ext K)} {l u : Fin 5 → Ext K}
    (h : Q.solve etaA etaR fuel = some (Q', e)) (hP : Q.prob = some P)
    (hl : BoundsAre Q.cfg.oeMin l) (hu : BoundsAre Q.cfg.oeMax u)
    (hin : ∀ i : Fin 5, PyOrd.le (l i) (P.oe0 i.castSucc) = true ∧
      PyOrd.le (P.oe0 i.castSucc) (u i) = true) :
    Q'.prob = some P ∧ (Q' = Q ∨ ∃ H, Q'.hist = some H ∧ H.states.head? = some P.oe0) := by
  cases hE : Q.cfg.elementsType with
  | meeWithA =>
    obtain ⟨_, h2, _, h3⟩ := C26_mee_partial h hE
    refine ⟨h2.trans hP, ?_⟩
    rcases h3 with h3 | ⟨P', H, h4, h5, h6⟩
    · exact Or.inl h3
    · rw [hP] at h4; injection h4 with h4; subst h4
      exact Or.inr ⟨H, h5, h6⟩
  | keplerian =>
    obtain ⟨_, _, h3⟩ := C26_keplerian_partial h hE
    rcases h3 with h3 | ⟨P', H, x, h4, h5, h6, h7, h8⟩
    · subst h3; exact ⟨hP, Or.inl rfl⟩
    · rw [hP] at h4; injection h4 with h4; subst h4
      have hx : x = P.oe0 := by
        rcases h8 with h8 | h8
        · exact h8
        · obtain ⟨y, hy, _, hy2⟩ := C36_elements_safety_exact (oe := P.oe0) hl hu
            (fun i => OrdLaws.le_trans _ _ _ (hin i).1 (hin i).2)
          rw [hy] at h8; injection h8 with h8
          rw [← h8]; exact hy2 hin
      subst hx
      exact ⟨h5, Or.inr ⟨H, h6, h7⟩⟩

/-- keplerian settings with bounds -/
def Toy.kepCfg : Config Toy.N :=
  { Toy.cfg with elementsType := .keplerian, oeMin := [.fin 2, .fin (-9), .fin (-9), .fin (-9), .fin (-9)], oeMax := [.fin 9, .fin 9, .fin 9, .fin 9, .fin 9] }

/-- **C26 is violated.** Keplerian elements and an initial semi-major axis of 1 below the bound 2:
after `solve` the caller's array and the first recorded state hold 2. -/
theorem C26_violated :
    (((Toy.obj Toy.kepCfg Toy.prob).solve Toy.z Toy.z 10).bind fun p => p.1.prob.bind fun P =>
      p.1.hist.map fun H => (p.2, P.oe0 0, (H.states.map fun x => x 0))) =
    some (none, .fin 2, [.fin 2, .fin (5 / 2), .fin 3]) ∧ Toy.prob.oe0 0 = .fin 1 := by
  constructor <;> decide +kernel

/-! ## C27 -/

/-- **C27.** Keplerian elements, bounds of at least five entries with lower at most upper: every
recorded state but the last has its first five elements within the bounds, whatever the dynamics
produced (also NaN). -/
theorem C27_states_in_bounds [OrdLaws α] {Q Q' : QLaw α} {etaA etaR : EtaArg α} {fuel : ℕ}
    {H : Hist α} {l u : Fin 5 → α} (h : Q.solve etaA etaR fuel = some (Q', none))
    (hH : Q'.hist = some H) (hE : Q.cfg.elementsType = .keplerian)
    (hl : BoundsAre Q.cfg.oeMin l) (hu : BoundsAre Q.cfg.oeMax u)
    (hlu : ∀ i, PyOrd.le (l i) (u i) = true) {k : ℕ} {x : Fin 6 → α}
    (hk : k + 1 < H.states.length) (hx : H.states[k]? = some x) (i : Fin 5) :
    PyOrd.le (l i) (x i.castSucc) = true ∧ PyOrd.le (x i.castSucc) (u i) = true := by
  obtain ⟨P, n, tr, D, r, hr⟩ := solve_return h
  obtain ⟨n, tr, D, r, hr, _, v⟩ := solve_view h hr.prob hH
  have hkn : k < n := by rw [v.statesLen] at hk; omega
  have hs : H.states.dropLast[k]? = some (D k).s1.oe := by
    rw [v.statesInit, List.getElem?_map, List.getElem?_range hkn]; rfl
  have hx' : H.states.dropLast[k]? = some x := by
    rw [List.getElem?_dropLast, if_pos (by omega)]; exact hx
  rw [hx'] at hs
  injection hs with hs
  rcases clamp_cases (v.trace.step k hkn).clamp with ⟨h2, _⟩ | ⟨_, oe, h2, h3⟩
  · change Q.cfg.elementsType = _ at h2; rw [hE] at h2; cases h2
  · obtain ⟨y, hy, _, hb, _⟩ := C36_elements_safety (oe := (tr k).oe) hl hu hlu
    change elementsSafety (tr k).oe Q.cfg.oeMin Q.cfg.oeMax = _ at h2
    rw [hy] at h2; injection h2 with h2
    rw [hs, h3, ← h2]
    exact hb i

/-- a run whose dynamics produce NaN: the recorded states but the last are within bounds -/
example :
    (((Toy.obj { Toy.kepCfg with dyn := { Toy.dyn with eom := fun _ _ _ => .ok fun _ => .nan } } { Toy.prob with tfMax := .fin 1 }).solve Toy.z Toy.z 10).bind
      fun p => p.1.hist.map fun H => (p.2, (H.states.map fun x => (x 0, x 1)))) =
    some (none, [(.fin 2, .fin 0), (.fin 2, .fin (-9)), (.nan, .nan)]) := by decide +kernel

/-- two settings with the same loop body and the same guard run the same loop -/
theorem loop_congr {E E' : Env α} (hp : E.prob = E'.prob) (hi : ∀ s, iter E s = iter E' s) (f : ℕ) :
    ∀ s : LoopSt α, loop E f s = loop E' f s := by
  induction f with
  | zero => intro s; rfl
  | succ f ih =>
    intro s
    unfold loop
    rw [hp, hi s]
    cases iter E' s with
    | cont s' => simp only [ih s']
    | brk => rfl
    | err => rfl

/-- **C27**, modified equinoctial elements: the bounds are never read. Replacing them by any others
changes no result of `solve`. -/
theorem C27_mee_bounds_unused {Q : QLaw α} {etaA etaR : EtaArg α} {fuel : ℕ} (L U : List α)
    (hE : Q.cfg.elementsType = .meeWithA) :
    ({ Q with cfg := { Q.cfg with oeMin := L, oeMax := U } }.solve etaA etaR fuel) =
      (Q.solve etaA etaR fuel).map fun p =>
        ({ p.1 with cfg := { p.1.cfg with oeMin := L, oeMax := U } }, p.2) := by
  obtain ⟨cfg, prob, ready, conv, ec, hist⟩ := Q
  obtain ⟨_, _, _, _, _, _, _, _, et, _, _, _, _, _, lo, hi, _, _, _, _, _, _, _⟩ := cfg
  change et = _ at hE
  subst hE
  unfold QLaw.solve
  cases ready with
  | false => rfl
  | true =>
    cases prob with
    | none => rfl
    | some P =>
      cases hv : etaA.valid with
      | false => simp
      | true =>
        simp only [if_true]
        rw [Option.map_map]
        refine congrArg₂ _ ?_ ?_
        · rfl
        · apply loop_congr
          · rfl
          · intro s; rfl

/-! ## C30 -/

/-- **C30.** A six-component target sets the same problem as its first five components, so every
later call behaves identically. -/
theorem C30_six_components (Q : QLaw α) (A : ProblemArgs α) (h : A.oeT.length = 6) :
    Q.setProblem A = Q.setProblem { A with oeT := A.oeT.take 5 } := by
  unfold QLaw.setProblem mkProblem
  have h5 : (A.oeT.take 5).length ≠ 6 := by simp [h]
  simp only [if_pos h, if_neg h5]

/-- **C30**, wrong length: any target of length other than five or six is accepted by
`set_problem` (if the rest is), and the next `solve` with non-zero `tf_max` raises in its first
iteration, before recording a step. -/
theorem C30_wrong_length {Q Q1 : QLaw α} {A : ProblemArgs α} (h : Q.setProblem A = .ok Q1)
    (h5 : A.oeT.length ≠ 5) (h6 : A.oeT.length ≠ 6) {etaA etaR : EtaArg α} (hv : etaA.valid = true)
    (htf : PyOrd.lt (PyOrd.abs ((0 : ℕ) : α)) (PyOrd.abs A.tfMax) = true) (fuel : ℕ) :
    ∃ Q' e H, Q1.solve etaA etaR (fuel + 1) = some (Q', some e) ∧ Q'.hist = some H ∧
      H.times = [((0 : ℕ) : α)] ∧ H.states.length = 1 ∧ H.controls = [] := by
  unfold QLaw.setProblem at h
  simp only [bind, Except.bind, pure, Except.pure] at h
  cases hm : mkProblem A with
  | error e => rw [hm] at h; cases h
  | ok P =>
    rw [hm] at h
    injection h with h
    have hP : P.oeT = A.oeT ∧ P.tfMax = A.tfMax := by
      unfold mkProblem at hm
      simp only [bind, Except.bind, pure, Except.pure] at hm
      split at hm
      · cases hm
      · by_cases hmm : PyOrd.le (rat 1 100) A.massMin = true
        · simp only [hmm, if_true] at hm
          split at hm
          · cases hm
          · cases hm
            exact ⟨if_neg h6, rfl⟩
        · simp [hmm] at hm
    have hv5 : asVec5 P.oeT = .error .valueError := by
      rw [hP.1]
      unfold asVec5
      split
      · rename_i h7
        rw [h7] at h5
        simp at h5
      · rfl
    subst h
    set E : Env α := { cfg := Q.cfg, prob := P, etaA := etaA, etaR := etaR } with hE
    have hg : guardB P (initLoop P) = true := by
      show PyOrd.lt (PyOrd.abs ((0 : ℕ) : α)) (PyOrd.abs P.tfMax) = true
      rw [hP.2]; exact htf
    have hi : ∃ s e, iter E (initLoop P) = .err s e ∧ s.hist.times = [((0 : ℕ) : α)] ∧
        s.hist.states.length = 1 ∧ s.hist.controls = [] := by
      unfold iter
      cases hc : clampPhase E.cfg (initLoop P) with
      | error e => exact ⟨_, e, rfl, rfl, rfl, rfl⟩
      | ok s1 =>
        have f1 : s1.hist.times = [((0 : ℕ) : α)] := clamp_times hc
        have f2 : s1.hist.controls = [] := clamp_controls hc
        have f3 : s1.hist.states.length = 1 := by
          obtain ⟨l, h1, h2⟩ := clamp_states hc ⟨[], rfl⟩
          rw [h2]
          have := congrArg List.length h1
          simpa [initLoop] using this.symm
        simp only
        unfold bodyPhase
        cases hs : chooseStep E.cfg E.prob s1.oe with
        | error e => exact ⟨_, e, rfl, f1, f3, f2⟩
        | ok st =>
          have hctl : controlPhase E s1 (dutyPhase E.prob s1 st) = .error .valueError := by
            unfold controlPhase
            simp only [bind, Except.bind]
            rw [show asVec5 E.prob.oeT = .error .valueError from hv5]
          simp only [hctl]
          exact ⟨_, _, rfl, f1, f3, f2⟩
    obtain ⟨s, e, h1, h2, h3, h4⟩ := hi
    refine ⟨QLaw.finish { Q with prob := some P, ready := true } P (.raised s e), e, s.hist, ?_, rfl,
      h2, h3, h4⟩
    · unfold QLaw.solve
      simp only [hv, if_true]
      unfold loop
      rw [show guardB ({ cfg := Q.cfg, prob := P, etaA := etaA, etaR := etaR } : Env α).prob (initLoop P) = true from hg]
      simp only [if_true]
      rw [show iter ({ cfg := Q.cfg, prob := P, etaA := etaA, etaR := etaR } : Env α) (initLoop P) = .err s e from h1]
      rfl

/-- targets of three components -/
example : ((((Toy.obj Toy.cfg Toy.prob).setProblem { Toy.args with oeT := [.fin 1, .fin 2, .fin 3] }).toOption.bind
      fun Q => Q.solve Toy.z Toy.z 10).map fun p => (p.2, p.1.exitcode)) = some (some .valueError, 0) := by
  decide +kernel

/-- targets of six components, with the same run as five -/
example : ((((Toy.obj Toy.cfg Toy.prob).setProblem
    { Toy.args with oeT := [.fin 3, .fin 0, .fin 0, .fin 0, .fin 0, .fin 77] }).toOption.bind
      fun Q => Q.solve Toy.z Toy.z 10).map fun p => (p.2, p.1.exitcode)) = some (none, 1) := by
  decide +kernel

end PyQ
