import Verif.Proofs.Exit
import Verif.Examples.Toy

/-!
# Outcome of `solve`: aligned histories and exit codes (C01–C08, C72)

All theorems here hold for every number type (no arithmetic law is used), every equations of
motion, control law, convergence check, integrator and perturbation.
-/

set_option linter.unusedSectionVars false
set_option maxRecDepth 100000

namespace PyQ

variable {α : Type} [Add α] [Sub α] [Mul α] [Div α] [Neg α] [NatCast α] [Pow α ℕ]
  [PyTrans α] [PyOrd α] [PyNan α]

/-! ## C01 -/

theorem aligned_of_trace {E : Env α} {n : ℕ} {tr : ℕ → LoopSt α} {D : ℕ → StepData α}
    (hT : IsTrace E n tr D) : Aligned (tr n).hist n := by
  have h := hT.hist
  constructor
  · simp [h.times]
  · simp [h.states]
  · simp [h.masses]
  · simp [h.battery]
  · simp [h.controls]
  · simp [h.etas]
  · simp [h.etasBounds]
  · simp [h.qs]
  · simp [h.dqdts]

theorem aligned_clamp {C : Config α} {s s1 : LoopSt α} {n : ℕ} (hs : Aligned s.hist n)
    (h : clampPhase C s = .ok s1) : Aligned s1.hist n := by
  rcases clamp_cases h with ⟨_, rfl⟩ | ⟨_, oe, _, rfl⟩
  · exact hs
  · refine ⟨hs.times, ?_, hs.masses, hs.battery, hs.controls, hs.etas, hs.etasBounds, hs.qs,
      hs.dqdts⟩
    have := hs.states
    simp [this]

theorem ends_aligned {E : Env α} {n : ℕ} {tr : ℕ → LoopSt α} {D : ℕ → StepData α} {r : RunRes α}
    (hT : IsTrace E n tr D) (hE : Ends E n tr D r) (hr : r.error? ≠ some .unboundLocal) :
    Aligned r.st.hist n := by
  have hA := aligned_of_trace hT
  cases hE with
  | timeout => exact hA
  | exit => exact hA
  | nan s s1 st k _ _ hc _ _ hh _ =>
    have := aligned_clamp hA hc
    simpa [RunRes.st, hh] using this
  | raised s e _ _ hi =>
    rcases iter_cases E (tr n) with ⟨e', _, h1⟩ | ⟨s1, e', h2, h1, _⟩ |
      ⟨s1, st, k, _, _, _, s2, h1, _⟩ | ⟨s1, st, c, oe, hb, _, _, _, _, _, s2, h1, _⟩ | ⟨D', h1⟩
    · rw [h1] at hi; injection hi with ha hb; subst ha; exact hA
    · rw [h1] at hi; injection hi with ha hb; subst ha; exact aligned_clamp hA h2
    · rw [h1] at hi; cases hi
    · rw [h1] at hi; injection hi with ha hb; subst hb; exact absurd rfl hr
    · rw [h1.iter_eq] at hi
      rcases exitPhase_cases E D'.c.oeT (postState E D') with h2 | h2 | h2 | h2 <;>
        rw [h2.1] at hi <;> cases hi

theorem headD_append {β : Type} (l m : List β) (d : β) (h : l ≠ []) :
    (l ++ m).headD d = l.headD d := by
  cases l with
  | nil => exact absurd rfl h
  | cons a l => rfl

/-- **C01.** Whenever `solve` returns normally, whatever the exit code, the histories record the
same number of steps, and entry 0 holds the initial time, mass and battery, and the array `oe0` of
the problem. -/
theorem C01_histories_aligned {Q Q' : QLaw α} {etaA etaR : EtaArg α} {fuel : ℕ}
    (h : Q.solve etaA etaR fuel = some (Q', none)) :
    ∃ H P P' n, Q'.hist = some H ∧ Q.prob = some P ∧ Q'.prob = some P' ∧ Aligned H n ∧
      H.times.head? = some ((0 : ℕ) : α) ∧ H.states.head? = some P'.oe0 ∧
      H.masses.head? = some P.mass0 ∧ H.battery.head? = some P.batteryInitial := by
  obtain ⟨P, n, tr, D, r, hr⟩ := solve_return h
  have hA : Aligned r.st.hist n := ends_aligned hr.trace hr.ends (by rw [← hr.err]; simp)
  have hcommon : (tr n).hist.times.head? = some ((0 : ℕ) : α) ∧
      (tr n).hist.masses.head? = some P.mass0 ∧
      (tr n).hist.battery.head? = some P.batteryInitial := by
    have h1 := hr.trace.hist
    have h0 : tr 0 = initLoop P := hr.trace.init
    rw [h1.times, h1.masses, h1.battery]
    simp [List.range_succ_eq_map, h0, initLoop]
  have hst : r.st.hist.times = (tr n).hist.times ∧ r.st.hist.masses = (tr n).hist.masses ∧
      r.st.hist.battery = (tr n).hist.battery := by
    have he := hr.err
    cases hr.ends with
    | timeout => exact ⟨rfl, rfl, rfl⟩
    | exit => exact ⟨rfl, rfl, rfl⟩
    | nan s s1 st k _ _ hc _ _ hh _ =>
      simp only [RunRes.st, hh]
      exact ⟨clamp_times hc, clamp_masses hc, clamp_batteryH hc⟩
    | raised s e => simp [RunRes.error?] at he
  refine ⟨r.st.hist, P, { P with oe0 := r.st.hist.states.headD P.oe0 }, n, ?_, hr.prob, ?_, hA,
    ?_, ?_, ?_, ?_⟩
  · rw [hr.obj]; rfl
  · rw [hr.obj]; rfl
  · rw [hst.1]; exact hcommon.1
  · have := hA.states
    cases hs : r.st.hist.states with
    | nil => rw [hs] at this; simp at this
    | cons a l => rfl
  · rw [hst.2.1]; exact hcommon.2.1
  · rw [hst.2.2]; exact hcommon.2.2

/-- four recorded steps -/
example : ∃ Q', (Toy.obj Toy.cfg Toy.prob).solve Toy.z Toy.z 10 = some (Q', none) ∧
    (Q'.hist.map fun h => h.controls.length).getD 0 = 4 := by
  obtain ⟨Q', h1, _, _, h2⟩ := Toy.of_seen (C := Toy.cfg) (P := Toy.prob) (a := Toy.z) (r := Toy.z)
    (fuel := 10) (e := none) (x := 1) (c := true) (n := 4) (by decide +kernel)
  exact ⟨Q', h1, h2⟩

/-! ## C72 -/

/-- **C72 (partial).** After an exception other than `UnboundLocalError` the histories are aligned
(they record the steps completed before it). Missing: the `UnboundLocalError` case, in which they
are not, see `C72_misaligned`. -/
theorem C72_aligned_after_exception_partial {Q Q' : QLaw α} {etaA etaR : EtaArg α} {fuel : ℕ}
    {e : PyErr} (h : Q.solve etaA etaR fuel = some (Q', some e)) (he : e ≠ .unboundLocal) :
    Q' = Q ∨ ∃ H n, Q'.hist = some H ∧ Aligned H n := by
  rcases solve_cases h with ⟨h1, _⟩ | ⟨h1, _⟩ | ⟨P, n, tr, D, r, hr⟩
  · exact Or.inl h1
  · exact Or.inl h1
  · right
    refine ⟨r.st.hist, n, by rw [hr.obj]; rfl, ends_aligned hr.trace hr.ends ?_⟩
    rw [← hr.err]
    simpa using he

/-- a run that raises after two recorded steps: the perturbation callable fails from time 1 on -/
example :
    let bad : Toy.N → (Fin 6 → Toy.N) → ElemType → Except PyErr (Fin 3 → Toy.N) := fun t _ _ =>
      if PyOrd.lt t (.fin 1) then .ok zero3 else .error .valueError
    Toy.seen { Toy.cfg with perturbations := some bad } Toy.prob Toy.z Toy.z 10 =
    some (some .valueError, 0, false, 2) := by decide +kernel

/-- **C72 is violated.** When the first step is a coast imposed by the battery, `times`, `states`
and `masses` have been extended but `controls` and `battery` have not when `UnboundLocalError` is
raised. -/
theorem C72_misaligned : ∃ Q Q' : QLaw (Ext ℚ), ∃ H,
    Q.solve Toy.z Toy.z 10 = some (Q', some .unboundLocal) ∧ Q'.hist = some H ∧
    H.times.length = 2 ∧ H.battery.length = 1 ∧ H.controls.length = 0 ∧ ∀ n, ¬ Aligned H n := by
  have h : (((Toy.obj Toy.cfg { Toy.prob with batteryInitial := .fin 0 }).solve Toy.z Toy.z 10).bind
      fun p => p.1.hist.map fun H => (p.2, H.times.length, H.battery.length, H.controls.length)) =
      some (some .unboundLocal, 2, 1, 0) := by decide +kernel
  rw [Option.bind_eq_some_iff] at h
  obtain ⟨⟨Q', e⟩, h1, h2⟩ := h
  rw [Option.map_eq_some_iff] at h2
  obtain ⟨H, h3, h4⟩ := h2
  simp only [Prod.mk.injEq] at h4
  obtain ⟨rfl, h5, h6, h7⟩ := h4
  refine ⟨_, Q', H, h1, h3, h5, h6, h7, ?_⟩
  intro n hn
  have := hn.times
  have := hn.battery
  omega

/-! ## C02 -/

/-- **C02.** On a fresh object a normal return leaves one of the five exit codes, and `converge` is
`True` exactly for 1 and 2. -/
theorem C02_exit_codes {Q Q' : QLaw α} {etaA etaR : EtaArg α} {fuel : ℕ} (hf : Q.Fresh)
    (h : Q.solve etaA etaR fuel = some (Q', none)) :
    (Q'.exitcode = 1 ∨ Q'.exitcode = 2 ∨ Q'.exitcode = -1 ∨ Q'.exitcode = -2 ∨
      Q'.exitcode = -3) ∧
    (Q'.converge = true ↔ (Q'.exitcode = 1 ∨ Q'.exitcode = 2)) := by
  obtain ⟨P, n, tr, D, r, hr⟩ := solve_return h
  have he := hr.err
  rw [hr.obj]
  cases hr.ends with
  | timeout => 
    have := finish_timeout Q P (tr n) hf.1 hf.2
    rw [this.1, this.2.1]; simp
  | exit m c hn hc _ =>
    have := finish_exit Q P (tr n) c
    rw [this.1, this.2.1, hf.2]
    rcases hc with rfl | rfl | rfl <;> simp
  | nan s =>
    have := finish_exit Q P s (-3)
    rw [this.1, this.2.1, hf.2]; simp
  | raised s e => simp [RunRes.error?] at he

example : (Toy.obj Toy.cfg Toy.prob).Fresh := ⟨rfl, rfl⟩

/-- all five codes occur -/
example :
    Toy.seen Toy.cfg Toy.prob Toy.z Toy.z 10 = some (none, 1, true, 4) ∧
    Toy.seen { Toy.cfg with exitAtRelaxed := 2, tolOeRelaxed := fun _ => .fin 1 }
      { Toy.prob with tStep := .fin (3 / 4) } Toy.z Toy.z 10 =
      some (none, 2, true, 3) ∧
    Toy.seen Toy.cfg { Toy.prob with massMin := .fin (99 / 100) } Toy.z Toy.z 10 =
      some (none, -1, false, 2) ∧
    Toy.seen Toy.cfg { Toy.prob with tfMax := .fin 1 } Toy.z Toy.z 10 =
      some (none, -2, false, 2) ∧
    Toy.seen { Toy.cfg with dyn := Toy.nanDyn } Toy.prob Toy.z Toy.z 10 =
      some (none, -3, false, 2) := by
  refine ⟨?_, ?_, ?_, ?_, ?_⟩ <;> decide +kernel

/-! ## C03 -/

theorem converged_eq {E : Env α} {oeT : Fin 5 → α} (h : asVec5 E.prob.oeT = .ok oeT)
    (tol : Fin 5 → α) (x : Fin 6 → α) :
    Converged E tol x = E.cfg.dyn.checkConv x oeT E.prob.woe tol := by
  simp [Converged, h]

/-- a step that is not the last one continued, hence failed all exit checks -/
theorem earlier_facts {E : Env α} {n : ℕ} {tr : ℕ → LoopSt α} {D : ℕ → StepData α}
    (hT : IsTrace E n tr D) {k : ℕ} (hk : k < n) (hc : iter E (tr k) = .cont (tr (k + 1))) :
    Converged E E.cfg.tolOe (tr (k + 1)).oe = false ∧
    (Converged E E.cfg.tolOeRelaxed (tr (k + 1)).oe = true →
      (((tr (k + 1)).nRelaxed : ℕ) : ℤ) < E.cfg.exitAtRelaxed) ∧
    PyOrd.le (tr (k + 1)).mass E.prob.massMin = false := by
  have hr := hT.step k hk
  have := cont_facts hr hc
  rw [converged_eq hr.oeT, converged_eq hr.oeT]
  exact this

theorem nRelaxed_le {E : Env α} {n : ℕ} {tr : ℕ → LoopSt α} {D : ℕ → StepData α}
    (hT : IsTrace E n tr D) :
    (tr n).nRelaxed = (List.range n).countP fun k =>
      !Converged E E.cfg.tolOe (tr (k + 1)).oe && Converged E E.cfg.tolOeRelaxed (tr (k + 1)).oe := by
  cases n with
  | zero => simp [hT.init, initLoop]
  | succ n =>
    have ho := (hT.step n (Nat.lt_succ_self n)).oeT
    rw [nRelaxed_count ho hT]
    simp only [converged_eq ho]

/-- **C03.** On a fresh object: exit code 1 is reported exactly when the state produced by the last
step passes the check at `tol_oe`; no state produced by an earlier step passes it; and that last
state is the last recorded one. In `mee_with_a` mode the recorded states are exactly the
produced ones (in Keplerian mode an earlier state is clamped before it is used). (`(envOf ..).after k` is the state of the loop after `k` steps; its
`oe` is what step `k` produced.) -/
theorem C03_strict_convergence {Q Q' : QLaw α} {etaA etaR : EtaArg α} {fuel : ℕ} (hf : Q.Fresh)
    (h : Q.solve etaA etaR fuel = some (Q', none)) :
    ∃ P H n, Q.prob = some P ∧ Q'.hist = some H ∧ Aligned H n ∧
      (Q'.exitcode = 1 ↔ 0 < n ∧
        Converged (envOf Q P etaA etaR) Q.cfg.tolOe ((envOf Q P etaA etaR).after n).oe = true) ∧
      (Q'.exitcode ≠ -3 → H.states.getLast? = some ((envOf Q P etaA etaR).after n).oe) ∧
      (∀ k, 0 < k → k < n →
        Converged (envOf Q P etaA etaR) Q.cfg.tolOe ((envOf Q P etaA etaR).after k).oe = false) ∧
      (Q.cfg.elementsType = .meeWithA →
        H.states = (List.range (n + 1)).map fun k => ((envOf Q P etaA etaR).after k).oe) := by
  obtain ⟨P, n, tr, D, r, hr⟩ := solve_return h
  have hA : Aligned r.st.hist n := ends_aligned hr.trace hr.ends (by rw [← hr.err]; simp)
  have he := hr.err
  have hT := hr.trace
  have haft := hT.after
  refine ⟨P, r.st.hist, n, hr.prob, by rw [hr.obj]; rfl, hA, ?_, ?_, ?_, ?_⟩
  · rw [hr.obj, ← haft n le_rfl]
    have hAll : AllCont (envOf Q P etaA etaR) n tr → 0 < n →
        Converged (envOf Q P etaA etaR) Q.cfg.tolOe (tr n).oe = false := by
      intro hC hn
      obtain ⟨m, rfl⟩ : ∃ m, n = m + 1 := ⟨n - 1, by omega⟩
      exact (earlier_facts hT (Nat.lt_succ_self m) (hC m (Nat.lt_succ_self m))).1
    cases hr.ends with
    | timeout hC _ =>
      have := finish_timeout Q P (tr n) hf.1 hf.2
      rw [this.1]
      constructor
      · intro h; cases h
      · intro h; rw [hAll hC h.1] at h; cases h.2
    | exit m c hn hc hi =>
      rw [(finish_exit Q P (tr n) c).1]
      subst hn
      have hm := hT.step m (Nat.lt_succ_self m)
      rw [converged_eq hm.oeT]
      rcases brk_facts hm hi with ⟨rfl, h1⟩ | ⟨rfl, h1, _⟩ | ⟨rfl, h1, _⟩
      · exact ⟨fun _ => ⟨Nat.succ_pos m, h1⟩, fun _ => rfl⟩
      · constructor
        · intro h; cases h
        · intro h; rw [show Q.cfg.tolOe = (envOf Q P etaA etaR).cfg.tolOe from rfl, h1] at h
          cases h.2
      · constructor
        · intro h; cases h
        · intro h; rw [show Q.cfg.tolOe = (envOf Q P etaA etaR).cfg.tolOe from rfl, h1] at h
          cases h.2
    | nan s s1 st k hC =>
      rw [(finish_exit Q P s (-3)).1]
      constructor
      · intro h; cases h
      · intro h; rw [hAll hC h.1] at h; cases h.2
    | raised s e => simp [RunRes.error?] at he
  · rw [hr.obj, ← haft n le_rfl]
    have h1 : (tr n).hist.states.getLast? = some (tr n).oe := by
      rw [hT.hist.states]; simp
    intro hne
    cases hr.ends with
    | timeout hC _ => exact h1
    | exit m c hn hc hi => exact h1
    | nan s s1 st k hC => exact absurd (finish_exit Q P s (-3)).1 hne
    | raised s e => simp [RunRes.error?] at he
  · intro k h0 hk
    obtain ⟨m, rfl⟩ : ∃ m, k = m + 1 := ⟨k - 1, by omega⟩
    rw [← haft _ (by omega)]
    exact (earlier_facts hT (by omega) (hT.cont m hk)).1
  · intro hE
    have h1 := states_mee (E := envOf Q P etaA etaR) hE hT
    have h2 : r.st.hist.states = (tr n).hist.states := by
      cases hr.ends with
      | timeout hC _ => rfl
      | exit m c hn hc hi => rfl
      | nan s s1 st k hC hg hc _ _ hh =>
        rcases clamp_cases hc with ⟨_, h3⟩ | ⟨h3, _⟩
        · simp only [RunRes.st, hh, h3]
        · rw [show (envOf Q P etaA etaR).cfg.elementsType = Q.cfg.elementsType from rfl, hE] at h3
          cases h3
      | raised s e => simp [RunRes.error?] at he
    rw [h2, h1]
    apply List.map_congr_left
    intro k hk
    have := List.mem_range.mp hk
    rw [haft k (by omega)]

/-! ## C04 -/

theorem countP_relaxed {E : Env α} {n : ℕ} {tr : ℕ → LoopSt α}
    (hs : ∀ k < n, Converged E E.cfg.tolOe (tr (k + 1)).oe = false) :
    ((List.range n).countP fun k =>
      !Converged E E.cfg.tolOe (tr (k + 1)).oe && Converged E E.cfg.tolOeRelaxed (tr (k + 1)).oe) =
    (List.range n).countP fun k => Converged E E.cfg.tolOeRelaxed (tr (k + 1)).oe := by
  apply List.countP_congr
  intro k hk
  rw [hs k (List.mem_range.mp hk)]
  simp

/-- **C04.** On a fresh object exit code 2 is reported only if the state produced by the last step
is inside the relaxed tolerance and not inside the strict one, and exactly `max 1 exit_at_relaxed`
steps produced a state inside the relaxed tolerance. -/
theorem C04_relaxed_convergence {Q Q' : QLaw α} {etaA etaR : EtaArg α} {fuel : ℕ} (hf : Q.Fresh)
    (h : Q.solve etaA etaR fuel = some (Q', none)) (hx : Q'.exitcode = 2) :
    ∃ P H n, Q.prob = some P ∧ Q'.hist = some H ∧ Aligned H (n + 1) ∧
      H.states.getLast? = some ((envOf Q P etaA etaR).after (n + 1)).oe ∧
      Converged (envOf Q P etaA etaR) Q.cfg.tolOe ((envOf Q P etaA etaR).after (n + 1)).oe =
        false ∧
      Converged (envOf Q P etaA etaR) Q.cfg.tolOeRelaxed
        ((envOf Q P etaA etaR).after (n + 1)).oe = true ∧
      (((List.range (n + 1)).countP fun k => Converged (envOf Q P etaA etaR) Q.cfg.tolOeRelaxed
        ((envOf Q P etaA etaR).after (k + 1)).oe : ℕ) : ℤ) = max 1 Q.cfg.exitAtRelaxed := by
  obtain ⟨P, n, tr, D, r, hr⟩ := solve_return h
  have hA : Aligned r.st.hist n := ends_aligned hr.trace hr.ends (by rw [← hr.err]; simp)
  have he := hr.err
  have hT := hr.trace
  have haft := hT.after
  have hobj := hr.obj
  rw [hobj] at hx
  cases hr.ends with
  | timeout hC _ => rw [(finish_timeout Q P (tr n) hf.1 hf.2).1] at hx; cases hx
  | nan s s1 st k hC => rw [(finish_exit Q P s (-3)).1] at hx; cases hx
  | raised s e => simp [RunRes.error?] at he
  | exit m c hn hc hi =>
    rw [(finish_exit Q P (tr n) c).1] at hx
    subst hx
    subst hn
    have hm := hT.step m (Nat.lt_succ_self m)
    have hE : ∀ k < m, Converged (envOf Q P etaA etaR) (envOf Q P etaA etaR).cfg.tolOe
        (tr (k + 1)).oe = false := fun k hk =>
      (earlier_facts hT (by omega) (hT.cont k (by omega))).1
    rcases brk_facts hm hi with ⟨h0, h1⟩ | ⟨_, h1, h2, h3⟩ | ⟨h0, h1, _⟩
    · cases h0
    · rw [← converged_eq hm.oeT] at h1 h2
      refine ⟨P, _, m, hr.prob, by rw [hobj]; rfl, hA, ?_, ?_, ?_, ?_⟩
      · rw [← haft (m + 1) le_rfl]
        show (tr (m + 1)).hist.states.getLast? = _
        rw [hT.hist.states]; simp
      · rw [← haft (m + 1) le_rfl]; exact h1
      · rw [← haft (m + 1) le_rfl]; exact h2
      · have hall : ∀ k < m + 1, Converged (envOf Q P etaA etaR)
            (envOf Q P etaA etaR).cfg.tolOe (tr (k + 1)).oe = false := by
          intro k hk
          rcases Nat.lt_or_ge k m with h4 | h4
          · exact hE k h4
          · have : k = m := by omega
            subst this; exact h1
        have hcnt := nRelaxed_le hT
        rw [countP_relaxed hall] at hcnt
        have hcg : ((List.range (m + 1)).countP fun k => Converged (envOf Q P etaA etaR)
            Q.cfg.tolOeRelaxed ((envOf Q P etaA etaR).after (k + 1)).oe) =
            (List.range (m + 1)).countP fun k => Converged (envOf Q P etaA etaR)
            (envOf Q P etaA etaR).cfg.tolOeRelaxed (tr (k + 1)).oe := by
          apply List.countP_congr
          intro k hk
          have := List.mem_range.mp hk
          rw [haft (k + 1) (by omega)]
          simp [envOf]
        rw [hcg, ← hcnt]
        -- lower bound from the exit test, upper bound from the last earlier relaxed step
        have hup : ∀ j ≤ m, ((tr j).nRelaxed : ℤ) ≤ max 0 ((envOf Q P etaA etaR).cfg.exitAtRelaxed - 1) := by
          intro j
          induction j with
          | zero => intro _; rw [hT.init]; simp [initLoop]
          | succ j ih =>
            intro hj
            have hj' := ih (by omega)
            have hf := earlier_facts hT (k := j) (by omega) (hT.cont j (by omega))
            have h5 := nRelaxed_le (hT.prefix (m := j + 1) (by omega)).1
            have h6 := nRelaxed_le (hT.prefix (m := j) (by omega)).1
            rw [List.range_succ, List.countP_append, ← h6] at h5
            cases hrel : Converged (envOf Q P etaA etaR)
                (envOf Q P etaA etaR).cfg.tolOeRelaxed (tr (j + 1)).oe with
            | true =>
              have := hf.2.1 hrel
              omega
            | false =>
              simp [hrel] at h5
              rw [h5]; exact hj'
        have h7 := nRelaxed_le (hT.prefix (m := m) (by omega)).1
        have h8 := nRelaxed_le hT
        rw [List.range_succ, List.countP_append, ← h7] at h8
        simp [h1, h2] at h8
        have := hup m le_rfl
        have h3' : Q.cfg.exitAtRelaxed ≤ ((tr (m + 1)).nRelaxed : ℤ) := h3
        have : (envOf Q P etaA etaR).cfg.exitAtRelaxed = Q.cfg.exitAtRelaxed := rfl
        omega
    · cases h0

/-- exit code 2 after three steps, two of which were within relaxed tolerance -/
example : Toy.seen { Toy.cfg with exitAtRelaxed := 2, tolOeRelaxed := fun _ => .fin 1 }
    { Toy.prob with tStep := .fin (3 / 4) } Toy.z Toy.z 10 = some (none, 2, true, 3) := by
  decide +kernel

/-! ## C05 -/

/-- **C05.** On a fresh object exit code -1 is reported only if the last recorded mass is
`<= mass_min`, no mass recorded after an earlier step is, and the last step did not converge:
its state is not inside the strict tolerance, and not inside the relaxed tolerance for the
`exit_at_relaxed`-th time. -/
theorem C05_mass_depleted {Q Q' : QLaw α} {etaA etaR : EtaArg α} {fuel : ℕ} (hf : Q.Fresh)
    (h : Q.solve etaA etaR fuel = some (Q', none)) (hx : Q'.exitcode = -1) :
    ∃ P H n, Q.prob = some P ∧ Q'.hist = some H ∧ Aligned H (n + 1) ∧
      (∃ m, H.masses.getLast? = some m ∧ PyOrd.le m P.massMin = true) ∧
      (∀ m ∈ H.masses.tail.dropLast, PyOrd.le m P.massMin = false) ∧
      Converged (envOf Q P etaA etaR) Q.cfg.tolOe ((envOf Q P etaA etaR).after (n + 1)).oe =
        false ∧
      (Converged (envOf Q P etaA etaR) Q.cfg.tolOeRelaxed
          ((envOf Q P etaA etaR).after (n + 1)).oe = true →
        (((List.range (n + 1)).countP fun k => Converged (envOf Q P etaA etaR)
          Q.cfg.tolOeRelaxed ((envOf Q P etaA etaR).after (k + 1)).oe : ℕ) : ℤ) <
            Q.cfg.exitAtRelaxed) := by
  obtain ⟨P, n, tr, D, r, hr⟩ := solve_return h
  have hA : Aligned r.st.hist n := ends_aligned hr.trace hr.ends (by rw [← hr.err]; simp)
  have he := hr.err
  have hT := hr.trace
  have haft := hT.after
  have hobj := hr.obj
  rw [hobj] at hx
  cases hr.ends with
  | timeout hC _ => rw [(finish_timeout Q P (tr n) hf.1 hf.2).1] at hx; cases hx
  | nan s s1 st k hC => rw [(finish_exit Q P s (-3)).1] at hx; cases hx
  | raised s e => simp [RunRes.error?] at he
  | exit m c hn hc hi =>
    rw [(finish_exit Q P (tr n) c).1] at hx
    subst hx
    subst hn
    have hm := hT.step m (Nat.lt_succ_self m)
    rcases brk_facts hm hi with ⟨h0, h1⟩ | ⟨h0, h1, _⟩ | ⟨_, h1, h2, h3⟩
    · cases h0
    · cases h0
    · rw [← converged_eq hm.oeT] at h1 h2
      have hall : ∀ k < m + 1, Converged (envOf Q P etaA etaR)
          (envOf Q P etaA etaR).cfg.tolOe (tr (k + 1)).oe = false := by
        intro k hk
        rcases Nat.lt_or_ge k m with h4 | h4
        · exact (earlier_facts hT (by omega) (hT.cont k (by omega))).1
        · have : k = m := by omega
          subst this; exact h1
      refine ⟨P, _, m, hr.prob, by rw [hobj]; rfl, hA, ⟨(tr (m + 1)).mass, ?_, h3⟩, ?_, ?_, ?_⟩
      · show (tr (m + 1)).hist.masses.getLast? = _
        rw [hT.hist.masses, List.range_succ]; simp
      · show ∀ x ∈ (tr (m + 1)).hist.masses.tail.dropLast, _
        intro x hx
        rw [hT.hist.masses, List.range_succ, List.range_succ_eq_map] at hx
        simp only [List.map_append, List.map_cons, List.map_nil, List.cons_append, List.tail_cons,
          List.map_map, List.dropLast_concat, List.mem_map, List.mem_range] at hx
        obtain ⟨k, hk, rfl⟩ := hx
        exact (earlier_facts hT (k := k) (by omega) (hT.cont k (by omega))).2.2
      · rw [← haft (m + 1) le_rfl]; exact h1
      · rw [← haft (m + 1) le_rfl]
        intro h4
        have h5 := h2 h4
        rw [nRelaxed_le hT, countP_relaxed hall] at h5
        have hcg : ((List.range (m + 1)).countP fun k => Converged (envOf Q P etaA etaR)
            Q.cfg.tolOeRelaxed ((envOf Q P etaA etaR).after (k + 1)).oe) =
            (List.range (m + 1)).countP fun k => Converged (envOf Q P etaA etaR)
            (envOf Q P etaA etaR).cfg.tolOeRelaxed (tr (k + 1)).oe := by
          apply List.countP_congr
          intro k hk
          have := List.mem_range.mp hk
          rw [haft (k + 1) (by omega)]
          simp [envOf]
        rw [hcg]
        exact h5

example : Toy.seen Toy.cfg { Toy.prob with massMin := .fin (99 / 100) } Toy.z Toy.z 10 =
    some (none, -1, false, 2) := by decide +kernel

/-! ## C06 -/

/-- **C06.** Exit code -2 is reported only if `abs(times[-1]) < abs(tf_max)` is
false, no step produced a state inside the strict tolerance, fewer than `max 1 exit_at_relaxed`
steps produced one inside the relaxed tolerance, and no recorded mass after a step is
`<= mass_min`. -/
theorem C06_time_out {Q Q' : QLaw α} {etaA etaR : EtaArg α} {fuel : ℕ}
    (h : Q.solve etaA etaR fuel = some (Q', none)) (hx : Q'.exitcode = -2) :
    ∃ P H n, Q.prob = some P ∧ Q'.hist = some H ∧ Aligned H n ∧
      (∃ t, H.times.getLast? = some t ∧ PyOrd.lt (PyOrd.abs t) (PyOrd.abs P.tfMax) = false) ∧
      (∀ k, 0 < k → k ≤ n →
        Converged (envOf Q P etaA etaR) Q.cfg.tolOe ((envOf Q P etaA etaR).after k).oe = false) ∧
      (((List.range n).countP fun k => Converged (envOf Q P etaA etaR) Q.cfg.tolOeRelaxed
        ((envOf Q P etaA etaR).after (k + 1)).oe : ℕ) : ℤ) < max 1 Q.cfg.exitAtRelaxed ∧
      (∀ m ∈ H.masses.tail, PyOrd.le m P.massMin = false) := by
  obtain ⟨P, n, tr, D, r, hr⟩ := solve_return h
  have hA : Aligned r.st.hist n := ends_aligned hr.trace hr.ends (by rw [← hr.err]; simp)
  have he := hr.err
  have hT := hr.trace
  have haft := hT.after
  have hobj := hr.obj
  rw [hobj] at hx
  cases hr.ends with
  | nan s s1 st k hC => rw [(finish_exit Q P s (-3)).1] at hx; cases hx
  | raised s e => simp [RunRes.error?] at he
  | exit m c hn hc hi =>
    rw [(finish_exit Q P (tr n) c).1] at hx
    subst hx
    rcases hc with h | h | h <;> cases h
  | timeout hC hg =>
    have hall : ∀ k < n, Converged (envOf Q P etaA etaR)
        (envOf Q P etaA etaR).cfg.tolOe (tr (k + 1)).oe = false := fun k hk =>
      (earlier_facts hT hk (hC k hk)).1
    refine ⟨P, _, n, hr.prob, by rw [hobj]; rfl, hA, ⟨(tr n).hist.lastTime, ?_, hg⟩, ?_, ?_, ?_⟩
    · show (tr n).hist.times.getLast? = _
      unfold Hist.lastTime
      rw [hT.hist.times, List.range_succ]; simp
    · intro k h0 hk
      obtain ⟨m, rfl⟩ : ∃ m, k = m + 1 := ⟨k - 1, by omega⟩
      rw [← haft _ (by omega)]
      exact hall m (by omega)
    · have hcg : ((List.range n).countP fun k => Converged (envOf Q P etaA etaR)
          Q.cfg.tolOeRelaxed ((envOf Q P etaA etaR).after (k + 1)).oe) =
          (List.range n).countP fun k => Converged (envOf Q P etaA etaR)
          (envOf Q P etaA etaR).cfg.tolOeRelaxed (tr (k + 1)).oe := by
        apply List.countP_congr
        intro k hk
        have := List.mem_range.mp hk
        rw [haft (k + 1) (by omega)]
        simp [envOf]
      rw [hcg, ← countP_relaxed hall, ← nRelaxed_le hT]
      have hup : ∀ j ≤ n, ((tr j).nRelaxed : ℤ) <
          max 1 (envOf Q P etaA etaR).cfg.exitAtRelaxed := by
        intro j
        induction j with
        | zero => intro _; rw [hT.init]; simp [initLoop]
        | succ j ih =>
          intro hj
          have hj' := ih (by omega)
          have hf := earlier_facts hT (k := j) (by omega) (hC j (by omega))
          have hpre : ∀ i ≤ n, (tr i).nRelaxed = (List.range i).countP fun k =>
              !Converged (envOf Q P etaA etaR) (envOf Q P etaA etaR).cfg.tolOe (tr (k + 1)).oe &&
              Converged (envOf Q P etaA etaR) (envOf Q P etaA etaR).cfg.tolOeRelaxed
                (tr (k + 1)).oe := by
            intro i hi
            rcases Nat.lt_or_ge i n with h1 | h1
            · exact nRelaxed_le (hT.prefix h1).1
            · have : i = n := by omega
              subst this; exact nRelaxed_le hT
          have h5 := hpre (j + 1) hj
          rw [List.range_succ, List.countP_append, ← hpre j (by omega)] at h5
          cases hrel : Converged (envOf Q P etaA etaR)
              (envOf Q P etaA etaR).cfg.tolOeRelaxed (tr (j + 1)).oe with
          | true =>
            have := hf.2.1 hrel
            omega
          | false =>
            simp [hrel] at h5
            rw [h5]; exact hj'
      exact hup n le_rfl
    · show ∀ x ∈ (tr n).hist.masses.tail, _
      intro x hx
      rw [hT.hist.masses, List.range_succ_eq_map] at hx
      simp only [List.map_cons, List.tail_cons, List.map_map, List.mem_map, List.mem_range] at hx
      obtain ⟨k, hk, rfl⟩ := hx
      exact (earlier_facts hT hk (hC k hk)).2.2

example : Toy.seen Toy.cfg { Toy.prob with tfMax := .fin 1 } Toy.z Toy.z 10 =
    some (none, -2, false, 2) := by decide +kernel

/-! ## C07 -/

/-- **C07.** On a fresh object exit code -3 is reported only when the control law has returned NaN
angles with the duty on `max nan_angles_threshold 0 + 1` times, the last time in the step that was
aborted: it is not recorded (`n` steps are). Every recorded step at which this happened has angles
`(0, 0)` and throttle 0. -/
theorem C07_nan_abort {Q Q' : QLaw α} {etaA etaR : EtaArg α} {fuel : ℕ} (hf : Q.Fresh)
    (h : Q.solve etaA etaR fuel = some (Q', none)) (hx : Q'.exitcode = -3) :
    ∃ P H n, Q.prob = some P ∧ Q'.hist = some H ∧ Aligned H n ∧
      nanAt (envOf Q P etaA etaR) ((envOf Q P etaA etaR).after n) = true ∧
      (((List.range (n + 1)).countP fun k =>
        nanAt (envOf Q P etaA etaR) ((envOf Q P etaA etaR).after k) : ℕ) : ℤ) =
        max Q.cfg.nanAnglesThreshold 0 + 1 := by
  obtain ⟨P, n, tr, D, r, hr⟩ := solve_return h
  have hA : Aligned r.st.hist n := ends_aligned hr.trace hr.ends (by rw [← hr.err]; simp)
  have he := hr.err
  have hT := hr.trace
  have haft := hT.after
  have hobj := hr.obj
  rw [hobj] at hx
  cases hr.ends with
  | timeout hC _ => rw [(finish_timeout Q P (tr n) hf.1 hf.2).1] at hx; cases hx
  | raised s e => simp [RunRes.error?] at he
  | exit m c hn hc hi =>
    rw [(finish_exit Q P (tr n) c).1] at hx
    subst hx
    rcases hc with h | h | h <;> cases h
  | nan s s1 st k hC hg hcl hch hctl hh hnn =>
    obtain ⟨oeT, o, h1, h2, h3, h4, h5, h6⟩ := control_nanBreak hctl
    have hnan : nanAt (envOf Q P etaA etaR) (tr n) = true := by
      unfold lawAt accelOf at h2
      unfold nanAt
      simp only [hcl, hch, h1, h2, h3, h4, Bool.and_self]
    have hcount := nNan_count (fun k => nanAt (envOf Q P etaA etaR) (tr k)) hT
      (fun k hk => nanAt_rec (hT.step k hk))
    have hb := nNan_bound hT
    have hc := clamp_nNan hcl
    refine ⟨P, _, n, hr.prob, by rw [hobj]; rfl, hA, ?_, ?_⟩
    · rw [← haft n le_rfl]; exact hnan
    · have hcg : ((List.range (n + 1)).countP fun k =>
          nanAt (envOf Q P etaA etaR) ((envOf Q P etaA etaR).after k)) =
          (List.range (n + 1)).countP fun k => nanAt (envOf Q P etaA etaR) (tr k) := by
        apply List.countP_congr
        intro k hk
        have := List.mem_range.mp hk
        rw [haft k (by omega)]
      rw [hcg, List.range_succ, List.countP_append, ← hcount]
      simp [hnan]
      rw [hc] at h6
      have h7 : Q.cfg.nanAnglesThreshold < (((tr n).nNan + 1 : ℕ) : ℤ) := h6
      have h8 : ((tr n).nNan : ℤ) ≤ max Q.cfg.nanAnglesThreshold 0 := hb
      omega

/-- **C07, recorded steps.** In every normal return (any exit code), a recorded step at which the
control law returned NaN angles with the duty on has control `(0, 0, throttle 0)`. -/
theorem C07_nan_steps_coast {Q Q' : QLaw α} {etaA etaR : EtaArg α} {fuel : ℕ}
    (h : Q.solve etaA etaR fuel = some (Q', none)) :
    ∃ P H, Q.prob = some P ∧ Q'.hist = some H ∧ ∀ k < H.controls.length,
      nanAt (envOf Q P etaA etaR) ((envOf Q P etaA etaR).after k) = true →
      H.controls[k]? = some (((0 : ℕ) : α), ((0 : ℕ) : α), 0) := by
  obtain ⟨P, n, tr, D, r, hr⟩ := solve_return h
  have he := hr.err
  have hT := hr.trace
  have haft := hT.after
  have hcon : r.st.hist.controls = (tr n).hist.controls := by
    cases hr.ends with
    | timeout => rfl
    | exit => rfl
    | nan s s1 st k _ _ hc _ _ hh _ => simp only [RunRes.st, hh]; exact clamp_controls hc
    | raised s e => simp [RunRes.error?] at he
  refine ⟨P, r.st.hist, hr.prob, by rw [hr.obj]; rfl, ?_⟩
  intro k hk hnan
  rw [hcon, hT.hist.controls] at hk ⊢
  simp only [List.length_map, List.length_range] at hk
  rw [← haft k (by omega)] at hnan
  have hrec := hT.step k hk
  obtain ⟨hd, o', ho', hn'⟩ := (nanAt_rec hrec).mp hnan
  obtain ⟨o, _, ho2, _, _, _, hkind⟩ := control_ctl hrec.ctl
  rw [ho2] at ho'
  injection ho' with ho'
  subst ho'
  simp only [List.getElem?_map, List.getElem?_range hk, Option.map_some, Option.some.injEq]
  cases hkind with
  | off hd' => rw [hd] at hd'; cases hd'
  | nan _ _ _ ha hb ht =>
    have h1 := hrec.alpha
    have h2 := hrec.beta
    rw [ha] at h1; rw [hb] at h2
    injection h1 with h1; injection h2 with h2
    rw [← h1, ← h2, ht]
  | free _ hnan' => rw [hn'] at hnan'; cases hnan'
  | gated _ _ _ hnan' => rw [hn'] at hnan'; cases hnan'

/-- threshold 2: two recorded NaN steps, the third aborts -/
example : Toy.seen { Toy.cfg with dyn := Toy.nanDyn } Toy.prob Toy.z Toy.z 10 =
    some (none, -3, false, 2) := by decide +kernel

/-! ## C08 -/

/-- **C08 (partial).** The exit code reported by a normal return is that of this very call (the one
a fresh copy of the object would report) whenever the object was fresh, and also, on any object,
whenever the call does not end by running out of time; `converge` is that of this call whenever it
was `False` before the call. Missing: repeated calls on one object in general, which is violated,
see `C08_stale_timeout` and `C08_violated`. -/
theorem C08_own_outcome_partial {Q Q' Q'' : QLaw α} {etaA etaR : EtaArg α} {fuel : ℕ}
    (h : Q.solve etaA etaR fuel = some (Q', none))
    (h' : Q.reset.solve etaA etaR fuel = some (Q'', none)) :
    (Q.Fresh ∨ Q''.exitcode ≠ -2 → Q'.exitcode = Q''.exitcode) ∧
    (Q.converge = false → Q'.converge = Q''.converge) ∧ Q'.hist = Q''.hist := by
  unfold QLaw.solve at h h'
  have hr : Q.reset.ready = Q.ready := rfl
  have hp : Q.reset.prob = Q.prob := rfl
  have hcfg : Q.reset.cfg = Q.cfg := rfl
  rw [hr, hp, hcfg] at h'
  cases hr' : Q.ready with
  | false => simp [hr'] at h
  | true =>
    cases hp' : Q.prob with
    | none => simp [hr', hp'] at h
    | some P =>
      simp only [hr', hp'] at h h'
      cases hv : etaA.valid with
      | false => simp [hv] at h
      | true =>
        simp only [hv, if_true, Option.map_eq_some_iff] at h h'
        obtain ⟨r, hl, h1⟩ := h
        obtain ⟨r', hl', h1'⟩ := h'
        rw [hl] at hl'
        injection hl' with hl'
        subst hl'
        have e1 := (congrArg Prod.fst h1).symm
        have e2 := (congrArg Prod.fst h1').symm
        have e3 := (congrArg Prod.snd h1)
        simp only at e1 e2 e3
        subst e1; subst e2
        cases r with
        | raised s e => simp [RunRes.error?] at e3
        | exit s c =>
          refine ⟨fun _ => rfl, ?_, rfl⟩
          intro hc
          simp [QLaw.finish, finishFlags, QLaw.reset, hc]
        | timeout s =>
          refine ⟨?_, ?_, rfl⟩
          · rintro (hc | hc)
            · simp [QLaw.finish, finishFlags, QLaw.reset, hc.1, hc.2]
            · exact absurd (by simp [QLaw.finish, finishFlags, QLaw.reset]) hc
          · intro hc
            simp only [QLaw.finish, finishFlags, QLaw.reset, hc, true_and]
            split <;> rfl

/-- **C08 is violated (general form).** On an object that already holds a result, a call that ends
by running out of time changes neither `exitcode` nor `converge`. -/
theorem C08_stale_timeout {Q : QLaw α} {P : Problem α} {etaA etaR : EtaArg α} {fuel : ℕ}
    {s : LoopSt α} (hready : Q.ready = true) (hprob : Q.prob = some P)
    (hv : etaA.valid = true) (hstale : ¬ Q.Fresh)
    (hl : loop (envOf Q P etaA etaR) fuel (initLoop P) = some (.timeout s)) :
    ∃ Q', Q.solve etaA etaR fuel = some (Q', none) ∧ Q'.exitcode = Q.exitcode ∧
      Q'.converge = Q.converge := by
  refine ⟨Q.finish P (.timeout s), ?_, ?_, ?_⟩
  · unfold QLaw.solve
    simp only [hready, hprob, hv, if_true]
    show (loop (envOf Q P etaA etaR) fuel (initLoop P)).map _ = _
    rw [hl]; rfl
  · simp only [QLaw.finish, finishFlags]
    split
    · rename_i hh; exact absurd ⟨hh.2, hh.1⟩ hstale
    · rfl
  · simp only [QLaw.finish, finishFlags]
    split <;> rfl

/-- **C08 is violated (concrete sequence of calls).** `solve` succeeds; then `set_problem` with
`tf_max = 0` and `solve` again: the second run makes no step and times out, but still reports
`exitcode 1`, `converge True`. With a problem that depletes the mass instead, the second run
reports exit code -1 together with `converge True`. -/
theorem C08_violated : ∃ Q Q1 Q2 Q3 Q2' Q3' : QLaw (Ext ℚ), ∃ A A' : ProblemArgs (Ext ℚ),
    Q.Fresh ∧ Q.solve Toy.z Toy.z 10 = some (Q1, none) ∧ Q1.exitcode = 1 ∧
    Q1.setProblem A = .ok Q2 ∧ Q2.solve Toy.z Toy.z 10 = some (Q3, none) ∧
    (Q3.hist.map fun H => H.controls.length) = some 0 ∧ Q3.exitcode = 1 ∧ Q3.converge = true ∧
    Q1.setProblem A' = .ok Q2' ∧ Q2'.solve Toy.z Toy.z 10 = some (Q3', none) ∧
    Q3'.exitcode = -1 ∧ Q3'.converge = true := by
  let second (A : ProblemArgs (Ext ℚ)) : Option (ℤ × ℤ × Bool × Option ℕ × Option PyErr) :=
    match (Toy.obj Toy.cfg Toy.prob).solve Toy.z Toy.z 10 with
    | some (Q1, none) =>
      match Q1.setProblem A with
      | .ok Q2 => (Q2.solve Toy.z Toy.z 10).map fun p =>
          (Q1.exitcode, p.1.exitcode, p.1.converge, p.1.hist.map fun H => H.controls.length, p.2)
      | .error _ => none
    | _ => none
  have key : ∀ A x y c k, second A = some (x, y, c, k, none) → ∃ Q1 Q2 Q3,
      (Toy.obj Toy.cfg Toy.prob).solve Toy.z Toy.z 10 = some (Q1, none) ∧ Q1.exitcode = x ∧
      Q1.setProblem A = .ok Q2 ∧ Q2.solve Toy.z Toy.z 10 = some (Q3, none) ∧
      (Q3.hist.map fun H => H.controls.length) = k ∧ Q3.exitcode = y ∧ Q3.converge = c := by
    intro A x y c k h
    simp only [second] at h
    cases h1 : (Toy.obj Toy.cfg Toy.prob).solve Toy.z Toy.z 10 with
    | none => rw [h1] at h; cases h
    | some p =>
      obtain ⟨Q1, e1⟩ := p
      rw [h1] at h
      cases e1 with
      | some e => cases h
      | none =>
        simp only at h
        cases h2 : Q1.setProblem A with
        | error e => rw [h2] at h; cases h
        | ok Q2 =>
          rw [h2] at h
          simp only [Option.map_eq_some_iff, Prod.mk.injEq] at h
          obtain ⟨⟨Q3, e3⟩, h3, h4, h5, h6, h7, h8⟩ := h
          simp only at h4 h5 h6 h7 h8
          subst h8
          exact ⟨Q1, Q2, Q3, rfl, h4, h2, h3, h7, h5, h6⟩
  obtain ⟨Q1, Q2, Q3, a1, a2, a3, a4, a5, a6, a7⟩ :=
    key { Toy.args with tfMax := .fin 0 } 1 1 true (some 0) (by decide +kernel)
  obtain ⟨Q1', Q2', Q3', b1, b2, b3, b4, b5, b6, b7⟩ :=
    key { Toy.args with massMin := .fin 1 } 1 (-1) true (some 1) (by decide +kernel)
  rw [a1] at b1
  injection b1 with b1
  injection b1 with b1
  subst b1
  exact ⟨_, Q1, Q2, Q3, Q2', Q3', _, _, ⟨rfl, rfl⟩, a1, a2, a3, a4, a5, a6, a7, b3, b4, b6, b7⟩

end PyQ
