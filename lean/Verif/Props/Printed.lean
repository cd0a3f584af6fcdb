import Verif.Model.Progress
import Verif.Props.BatteryFree
import Verif.Proofs.Control

/-! # What `solve` prints (C135) -/

set_option linter.unusedSectionVars false
set_option maxRecDepth 100000
set_option synthInstance.maxSize 1000

namespace PyQ

variable {α : Type} [Add α] [Sub α] [Mul α] [Div α] [Neg α] [NatCast α] [Pow α ℕ]
  [PyTrans α] [PyOrd α] [PyNan α]

theorem exitP_fst (V : Verb) (E : Env α) (idx : ℕ) (oeT : Fin 5 → α) (s : LoopSt α) :
    (exitPhaseP V E idx oeT s).1 = exitPhase E oeT s := by
  unfold exitPhaseP exitPhase
  dsimp only
  cases E.cfg.dyn.checkConv s.oe oeT E.prob.woe E.cfg.tolOe with
  | true => rfl
  | false =>
    simp only [Bool.false_eq_true, if_false]
    generalize (if E.cfg.dyn.checkConv s.oe oeT E.prob.woe E.cfg.tolOeRelaxed = true then s.nRelaxed + 1
      else s.nRelaxed) = n
    cases (E.cfg.dyn.checkConv s.oe oeT E.prob.woe E.cfg.tolOeRelaxed && decide ((n : ℤ) ≥ E.cfg.exitAtRelaxed)) with
    | true => rfl
    | false => cases PyOrd.le s.mass E.prob.massMin <;> rfl

theorem bodyP_fst (V : Verb) (E : Env α) (idx : ℕ) (s : LoopSt α) : (bodyPhaseP V E idx s).1 = bodyPhase E s := by
  unfold bodyPhaseP bodyPhase
  cases chooseStep E.cfg E.prob s.oe with
  | error e => rfl
  | ok st =>
    dsimp only
    cases controlPhase E s (dutyPhase E.prob s st) with
    | error e => rfl
    | ok c =>
      cases c with
      | nanBreak n => rfl
      | ctl c =>
        dsimp only
        cases propagatePhase E s (dutyPhase E.prob s st).step c with
        | error e => rfl
        | ok p =>
          obtain ⟨oe, hb⟩ := p
          unfold storePhase
          dsimp only
          cases c.alpha with
          | none => rfl
          | some a =>
            cases c.beta with
            | none => rfl
            | some b => exact exitP_fst _ _ _ _ _

theorem iterP_fst (V : Verb) (E : Env α) (idx : ℕ) (s : LoopSt α) : (iterP V E idx s).1 = iter E s := by
  unfold iterP iter
  cases clampPhase E.cfg s with
  | error e => rfl
  | ok s1 => exact bodyP_fst _ _ _ _

theorem loopP_succ (V : Verb) (E : Env α) (f idx : ℕ) (s : LoopSt α) : loopP V E (f + 1) idx s =
    if guardB E.prob s then
      match iterP V E idx s with
      | (.cont s', out) => (loopP V E f (idx + 1) s').map fun p => (p.1, out ++ p.2)
      | (.brk s' c, out) => some (.exit s' c, out)
      | (.err s' e, out) => some (.raised s' e, out)
    else some (.timeout s, []) := rfl

theorem loopP_fst (V : Verb) (E : Env α) : ∀ (f idx : ℕ) (s : LoopSt α),
    (loopP V E f idx s).map Prod.fst = loop E f s := by
  intro f
  induction f with
  | zero => intro idx s; rfl
  | succ f ih =>
    intro idx s
    rw [loopP_succ, loop_succ, ← iterP_fst V E idx s]
    cases guardB E.prob s with
    | false => rfl
    | true =>
      simp only [if_true]
      obtain ⟨o, out⟩ := iterP V E idx s
      cases o with
      | cont s' =>
        dsimp only
        rw [← ih (idx + 1) s']
        simp only [Option.map_map]
        rfl
      | brk s' c => rfl
      | err s' e => rfl

/-- **C135, printing changes nothing.** Whatever `verbosity` and `print_frequency`, `solve` does the same. -/
theorem C135_same (V : Verb) (Q : QLaw α) (etaA etaR : EtaArg α) (fuel : ℕ) :
    (Q.solveP V etaA etaR fuel).map Prod.fst = Q.solve etaA etaR fuel := by
  unfold QLaw.solveP QLaw.solve
  cases Q.ready with
  | false => rfl
  | true =>
    cases Q.prob with
    | none => rfl
    | some P =>
      dsimp only
      cases etaA.valid with
      | false => rfl
      | true =>
        simp only [if_true]
        rw [← loopP_fst V _ fuel 0]
        simp only [Option.map_map]
        rfl

theorem exitP_cases (V : Verb) (E : Env α) (idx : ℕ) (oeT : Fin 5 → α) (s : LoopSt α) :
    exitPhaseP V E idx oeT s = (.cont { s with nRelaxed := relaxedAfter E oeT s }, progressMsgs V idx s.t s.oe oeT) ∨
    exitPhaseP V E idx oeT s = (.brk { s with nRelaxed := relaxedAfter E oeT s } 1, []) ∨
    exitPhaseP V E idx oeT s = (.brk { s with nRelaxed := relaxedAfter E oeT s } 2, []) ∨
    exitPhaseP V E idx oeT s = (.brk { s with nRelaxed := relaxedAfter E oeT s } (-1),
      progressMsgs V idx s.t s.oe oeT ++ say V .massMin) := by
  unfold exitPhaseP relaxedAfter
  dsimp only
  cases h1 : E.cfg.dyn.checkConv s.oe oeT E.prob.woe E.cfg.tolOe
  · cases h2 : E.cfg.dyn.checkConv s.oe oeT E.prob.woe E.cfg.tolOeRelaxed
    · cases h3 : PyOrd.le s.mass E.prob.massMin <;> simp
    · by_cases h4 : E.cfg.exitAtRelaxed ≤ ((s.nRelaxed + 1 : ℕ) : ℤ)
      · have h4' := h4; push_cast at h4'; simp [h4']
      · have h4' := h4; push_cast at h4'
        cases h3 : PyOrd.le s.mass E.prob.massMin <;> simp [h4']
  · simp

theorem RecStep.iterP_eq {E : Env α} {s : LoopSt α} {D : StepData α} (h : RecStep E s D) (V : Verb) (idx : ℕ) :
    iterP V E idx s = exitPhaseP V E idx D.c.oeT (postState E D) := by
  obtain ⟨h1, h2, h3, h4, h5, h6, h7⟩ := h
  simp only [iterP, h1, bodyPhaseP, h2, ← h3, h4, h5, storePhase, h6, h7, postState]

/-- the state an iteration starts from is recorded as it is, or clamped to the element bounds -/
theorem last_state {E : Env α} {f n : ℕ} {s : LoopSt α} {r : RunRes α} (h : loop E f s = some r)
    (he : r.error? = none) (ha : Aligned s.hist n) (hs : ∃ l, s.hist.states = l ++ [s.oe]) :
    ∃ x, r.st.hist.states[n]? = some x ∧ (x = s.oe ∨
      (E.cfg.elementsType = .keplerian ∧ elementsSafety s.oe E.cfg.oeMin E.cfg.oeMax = .ok x)) := by
  cases f with
  | zero => simp [loop] at h
  | succ f =>
    have hh := h
    rw [loop_succ] at h
    cases hg : guardB E.prob s with
    | false =>
      simp [hg] at h; subst h
      obtain ⟨l, hl⟩ := hs
      exact ⟨s.oe, prefix_last hl ha.states List.prefix_rfl, Or.inl rfl⟩
    | true =>
      cases hk : clampPhase E.cfg s with
      | error e =>
        simp [hg, iter, hk] at h; subst h; simp [RunRes.error?] at he
      | ok s1 =>
        obtain ⟨l, _, hl⟩ := clamp_states hk hs
        refine ⟨s1.oe, prefix_last hl (aligned_clamp ha hk).states (states_kept hk hg hh), ?_⟩
        rcases clamp_cases hk with ⟨_, rfl⟩ | ⟨h1, oe, h2, rfl⟩
        · exact Or.inl rfl
        · exact Or.inr ⟨h1, h2⟩

/-- converged runs print no line for their last step -/
def unprinted : RunRes α → ℕ
  | .exit _ c => if c = 1 ∨ c = 2 then 1 else 0
  | _ => 0

/-- the message printed on leaving the loop -/
def leaving (V : Verb) : RunRes α → List (Msg α)
  | .exit _ c => if c = -1 then say V .massMin else if c = -3 then say V .nanAngles else []
  | _ => []

/-- `raw k` is the state reached by step `k`, before it is clamped -/
def RawOf (C : Config α) (H : Hist α) (lo : ℕ) (raw : ℕ → Fin 6 → α) (tm : ℕ → α) : Prop :=
  ∀ k, lo ≤ k → k < H.controls.length → H.times[k + 1]? = some (tm k) ∧
    ∃ x, H.states[k + 1]? = some x ∧ (x = raw k ∨
      (C.elementsType = .keplerian ∧ elementsSafety (raw k) C.oeMin C.oeMax = .ok x))

theorem loopP_out {V : Verb} {E : Env α} {T : Fin 5 → α} (hT : asVec5 E.prob.oeT = .ok T) :
    ∀ (f idx : ℕ) (s : LoopSt α) (r : RunRes α) (out : List (Msg α)), loopP V E f idx s = some (r, out) →
    r.error? = none → Aligned s.hist idx → (∃ l, s.hist.states = l ++ [s.oe]) →
    ∃ (raw : ℕ → Fin 6 → α) (tm : ℕ → α) (cnt : ℕ), idx + cnt + unprinted r = r.st.hist.controls.length ∧
      RawOf E.cfg r.st.hist idx raw tm ∧
      out = (List.range' idx cnt).flatMap (fun k => progressMsgs V k (tm k) (raw k) T) ++ leaving V r ∧
      ∀ s' c, r = .exit s' c → c = 1 ∨ c = 2 ∨ c = -1 ∨ c = -3 := by
  intro f
  induction f with
  | zero => intro idx s r out h; simp [loopP] at h
  | succ f ih =>
    intro idx s r out h he ha hs
    have hl : loop E (f + 1) s = some r := by
      rw [← loopP_fst V E (f + 1) idx s, h]; rfl
    rw [loopP_succ] at h
    cases hg : guardB E.prob s with
    | false =>
      simp [hg] at h
      obtain ⟨rfl, rfl⟩ := h
      refine ⟨fun _ => s.oe, fun _ => s.t, 0, ?_, ?_, rfl, by simp⟩
      · simp [unprinted, RunRes.st, ha.controls]
      · intro k hk1 hk2
        simp only [RunRes.st, ha.controls] at hk2
        omega
    | true =>
      simp only [hg, if_true] at h
      have hf := iterP_fst V E idx s
      rcases iter_cases E s with ⟨e, h2, h1⟩ | ⟨s1', e, h2, h1, _⟩ |
        ⟨s1', st, n, h2, h4, h5, s2, h1, h3, _⟩ | ⟨s1', st, c, oe, hb', h2, _, _, _, _, s2, h1, h3⟩ | ⟨D, hD⟩
      · rw [h1] at hf
        rcases hP : iterP V E idx s with ⟨o, ms⟩
        rw [hP] at hf h
        dsimp only at hf; subst hf
        simp at h; obtain ⟨rfl, rfl⟩ := h; simp [RunRes.error?] at he
      · rw [h1] at hf
        rcases hP : iterP V E idx s with ⟨o, ms⟩
        rw [hP] at hf h
        dsimp only at hf; subst hf
        simp at h; obtain ⟨rfl, rfl⟩ := h; simp [RunRes.error?] at he
      · have hi : iterP V E idx s = (.brk s2 (-3), say V .nanAngles) := by
          rw [h1] at hf
          refine Prod.ext hf ?_
          simp only [iterP, h2, bodyPhaseP, h4, h5]
        rw [hi] at h
        simp at h
        obtain ⟨rfl, rfl⟩ := h
        refine ⟨fun _ => s.oe, fun _ => s.t, 0, ?_, ?_, ?_, by rintro s' c h; injection h with _ h; omega⟩
        · simp [unprinted, RunRes.st, h3, (aligned_clamp ha h2).controls]
        · intro k hk1 hk2
          simp only [RunRes.st, h3, (aligned_clamp ha h2).controls] at hk2
          omega
        · simp [leaving]
      · rw [h1] at hf
        rcases hP : iterP V E idx s with ⟨o, ms⟩
        rw [hP] at hf h
        dsimp only at hf; subst hf
        simp at h; obtain ⟨rfl, rfl⟩ := h; simp [RunRes.error?] at he
      · have hc := aligned_clamp ha hD.clamp
        have hoT : D.c.oeT = T := by
          obtain ⟨o, g1, _⟩ := control_ctl hD.ctl
          rw [hT] at g1
          injection g1 with g1
          exact g1.symm
        rw [hD.iterP_eq V idx, hoT] at h
        have hA : ∀ m, Aligned ({ postState E D with nRelaxed := m } : LoopSt α).hist (idx + 1) := by
          intro m
          constructor <;> simp [postState, hc.times, hc.states, hc.masses, hc.battery, hc.controls, hc.etas,
            hc.etasBounds, hc.qs, hc.dqdts]
        have hst : ∀ m, ∃ l, ({ postState E D with nRelaxed := m } : LoopSt α).hist.states =
          l ++ [({ postState E D with nRelaxed := m } : LoopSt α).oe] := fun m => ⟨_, rfl⟩
        have htm : (postState E D).hist.times[idx + 1]? = some (postState E D).t :=
          prefix_last (m := D.s1.hist.times) (n := idx + 1) rfl (hA 0).times List.prefix_rfl
        have here : ∀ m, RawOf E.cfg ({ postState E D with nRelaxed := m } : LoopSt α).hist idx
            (fun _ => (postState E D).oe) (fun _ => (postState E D).t) := by
          intro m k hk1 hk2
          rw [(hA m).controls] at hk2
          have hk : k = idx := by omega
          subst hk
          exact ⟨htm, _, prefix_last (m := D.s1.hist.states) (n := k + 1) rfl (hA m).states List.prefix_rfl, Or.inl rfl⟩
        rcases exitP_cases V E idx T (postState E D) with hx | hx | hx | hx <;> rw [hx] at h <;> dsimp only at h
        · simp only [Option.map_eq_some_iff] at h
          obtain ⟨⟨r', out'⟩, h3, h4⟩ := h
          injection h4 with h4 h5
          dsimp only at h4 h5
          subst h4 h5
          obtain ⟨raw, tm, cnt, g1, g2, g3, g4⟩ := ih (idx + 1) _ r' out' h3 he (hA _) (hst _)
          have hl' : loop E f { postState E D with nRelaxed := relaxedAfter E T (postState E D) } = some r' := by
            rw [← loopP_fst V E f (idx + 1) _, h3]; rfl
          refine ⟨fun k => if k = idx then (postState E D).oe else raw k,
            fun k => if k = idx then (postState E D).t else tm k, cnt + 1, by omega, ?_, ?_, g4⟩
          · intro k hk1 hk2
            by_cases hk : k = idx
            · subst hk
              simp only [if_true]
              have hx := last_state hl' he (hA _) (hst _)
              refine ⟨?_, hx⟩
              exact prefix_last (m := D.s1.hist.times) (n := k + 1) rfl (hA 0).times (loop_extends _ _ _ _ hl').times
            · simp only [hk, if_false]
              exact g2 k (by omega) hk2
          · rw [g3, List.range'_succ, List.flatMap_cons, List.append_assoc]
            simp only [if_true]
            congr 2
            apply List.flatMap_congr
            intro k hk
            have : k ≠ idx := by
              have := List.mem_range'_1.mp hk
              omega
            simp only [this, if_false]
        · simp at h
          obtain ⟨rfl, rfl⟩ := h
          refine ⟨_, _, 0, ?_, here _, by simp [leaving], by rintro s' c h; injection h with _ h; omega⟩
          simp only [unprinted, RunRes.st, (hA _).controls]; simp
        · simp at h
          obtain ⟨rfl, rfl⟩ := h
          refine ⟨_, _, 0, ?_, here _, by simp [leaving], by rintro s' c h; injection h with _ h; omega⟩
          simp only [unprinted, RunRes.st, (hA _).controls]; simp
        · simp at h
          obtain ⟨rfl, rfl⟩ := h
          refine ⟨_, _, 1, ?_, here _, by simp [leaving], by rintro s' c h; injection h with _ h; omega⟩
          simp only [unprinted, RunRes.st, (hA _).controls]; simp

theorem modZero_pos {k p : ℕ} (hp : 0 < p) : modZero k (p : ℤ) = decide (p ∣ k) := by
  have : (p : ℤ) ≠ 0 := by exact_mod_cast hp.ne'
  have h2 : ((k : ℤ) % (p : ℤ) = 0) ↔ p ∣ k := by
    rw [← Int.dvd_iff_emod_eq_zero, Int.natCast_dvd_natCast]
  rw [Bool.eq_iff_iff]
  simp only [modZero, this, if_false, beq_iff_eq, decide_eq_true_eq, h2]

/-- the progress lines of steps `0, …, m - 1`: one for each multiple of `p`, after a header at each multiple of `20 p` -/
def linesOf (p m : ℕ) (tm : ℕ → α) (raw : ℕ → Fin 6 → α) (T : Fin 5 → α) : List (Msg α) :=
  ((List.range m).filter fun k => decide (p ∣ k)).flatMap fun k =>
    (if 20 * p ∣ k then [.header] else []) ++ [.line k (tm k) (fun i => raw k i.castSucc - T i) (raw k 5)]

/-- the messages that end a run with exit code `c` -/
def endOf (c : ℤ) : List (Msg α) :=
  if c = 1 ∨ c = 2 then [.reached]
  else if c = -1 then [.massMin]
  else if c = -3 then [.nanAngles]
  else [.noTime]

/-- **C135, what is printed.** A run on a fresh object that raises nothing prints, at verbosity 2 or more, the lines of
all its steps that are multiples of the printing frequency, except that a run that converges prints no line for its last
step; each shows the time, the differences to the target and the sixth element after the step. At verbosity 1 or more it
ends with the message of its exit code. At verbosity 0 or less it prints nothing. -/
theorem C135_printed {V : Verb} {Q Q' : QLaw α} {P : Problem α} {etaA etaR : EtaArg α} {fuel p : ℕ}
    {out : List (Msg α)} {T : Fin 5 → α} {H : Hist α} (hp : 0 < p) (hf : V.freq = (p : ℤ))
    (hP : Q.prob = some P) (hr : Q.ready = true) (hv : etaA.valid = true)
    (hc : Q.exitcode = 0) (hcv : Q.converge = false) (hT : asVec5 P.oeT = .ok T)
    (h : Q.solveP V etaA etaR fuel = some ((Q', none), out)) (hH : Q'.hist = some H) :
    ∃ (raw : ℕ → Fin 6 → α) (tm : ℕ → α) (m : ℕ),
      m + (if Q'.exitcode = 1 ∨ Q'.exitcode = 2 then 1 else 0) = H.controls.length ∧
      (∀ k, k < H.controls.length → H.times[k + 1]? = some (tm k) ∧
        ∃ x, H.states[k + 1]? = some x ∧ (x = raw k ∨
          (Q.cfg.elementsType = .keplerian ∧ elementsSafety (raw k) Q.cfg.oeMin Q.cfg.oeMax = .ok x))) ∧
      out = (if V.verbosity ≥ 2 then linesOf p m tm raw T else []) ++
        (if V.verbosity > 0 then endOf Q'.exitcode else []) := by
  unfold QLaw.solveP at h
  simp only [hr, hP, hv, if_true, Option.map_eq_some_iff] at h
  obtain ⟨⟨r, o⟩, hl, h⟩ := h
  injection h with h1 h2
  injection h1 with h3 h4
  dsimp only at h2 h3 h4
  subst h3 h2
  have hh : r.st.hist = H := by
    have := hH
    cases r <;> exact Option.some.inj this
  obtain ⟨raw, tm, m, g1, g2, g3, g4⟩ := loopP_out hT fuel 0 (initLoop P) r o hl h4
    (by constructor <;> rfl) ⟨[], rfl⟩
  have hp20 : 0 < 20 * p := by omega
  have hlines : (List.range' 0 m).flatMap (fun k => progressMsgs V k (tm k) (raw k) T) =
      if V.verbosity ≥ 2 then linesOf p m tm raw T else [] := by
    rw [← List.range_eq_range']
    by_cases hV : V.verbosity ≥ 2
    · simp only [hV, if_true, linesOf]
      have : ∀ l : List ℕ, l.flatMap (fun k => progressMsgs V k (tm k) (raw k) T) =
          (l.filter fun k => decide (p ∣ k)).flatMap fun k =>
          (if 20 * p ∣ k then [Msg.header] else []) ++ [.line k (tm k) (fun i => raw k i.castSucc - T i) (raw k 5)] := by
        intro l
        induction l with
        | nil => rfl
        | cons k l ih =>
          have e20 : (20 * V.freq : ℤ) = ((20 * p : ℕ) : ℤ) := by rw [hf]; push_cast; ring
          rw [List.flatMap_cons, ih]
          unfold progressMsgs
          rw [e20, hf, modZero_pos hp, modZero_pos hp20]
          by_cases hk : p ∣ k
          · simp [hV, hk]
          · simp [hk]
      exact this _
    · simp only [hV, if_false]
      rw [List.flatMap_eq_nil_iff]
      intro k _
      simp [progressMsgs, hV]
  rw [hh] at g1 g2
  refine ⟨raw, tm, m, ?_, fun k hk => g2 k (Nat.zero_le _) hk, ?_⟩
  · rw [← g1]
    cases r with
    | raised s e => simp [RunRes.error?] at h4
    | exit s c => simp [QLaw.finish, finishFlags, unprinted]
    | timeout s => simp [QLaw.finish, finishFlags, unprinted, hc, hcv]
  · rw [g3, hlines, List.append_assoc]
    congr 1
    cases r with
    | raised s e => simp [RunRes.error?] at h4
    | exit s c =>
      rcases g4 s c rfl with rfl | rfl | rfl | rfl <;>
        simp [leaving, closing, QLaw.finish, finishFlags, hcv, endOf, say]
    | timeout s =>
      simp [leaving, closing, QLaw.finish, finishFlags, hc, hcv, endOf, say]

/-- a printed message without the elements it shows: what it is, with the iteration and the time of a line -/
def Msg.brief : Msg α → String × Option (ℕ × α)
  | .header => ("header", none)
  | .line k t _ _ => ("line", some (k, t))
  | .nanAngles => ("nan", none)
  | .massMin => ("mass", none)
  | .noTime => ("time", none)
  | .reached => ("reached", none)

/-- what the toy transfer prints -/
def Toy.prints (V : Verb) (C : Config Toy.N) (P : Problem Toy.N) (fuel : ℕ) : Option (List (String × Option (ℕ × Toy.N))) :=
  ((Toy.obj C P).solveP V Toy.z Toy.z fuel).map fun p => p.2.map Msg.brief

/-- the toy transfer takes four steps and prints the first three, the message being the last; every second step; only
the message; a run out of mass prints all its steps -/
example :
    Toy.prints ⟨2, 1⟩ Toy.cfg Toy.prob 10 =
      some [("header", none), ("line", some (0, .fin (1 / 2))), ("line", some (1, .fin 1)),
        ("line", some (2, .fin (3 / 2))), ("reached", none)] ∧
    Toy.prints ⟨2, 2⟩ Toy.cfg Toy.prob 10 =
      some [("header", none), ("line", some (0, .fin (1 / 2))), ("line", some (2, .fin (3 / 2))), ("reached", none)] ∧
    Toy.prints ⟨1, 1⟩ Toy.cfg Toy.prob 10 = some [("reached", none)] ∧
    Toy.prints ⟨0, 1⟩ Toy.cfg Toy.prob 10 = some [] ∧
    Toy.prints ⟨2, 1⟩ Toy.cfg { Toy.prob with massMin := .fin (99 / 100) } 10 =
      some [("header", none), ("line", some (0, .fin (1 / 2))), ("line", some (1, .fin 1)), ("mass", none)] := by
  refine ⟨?_, ?_, ?_, ?_, ?_⟩ <;> decide +kernel

/-- **C135 needs a fresh object.** After a run that converged, a run that is out of mass announces both that it breaks
and that the target is reached. -/
theorem C135_stale : ∃ Q Q' : QLaw (Ext ℚ), ∃ out, Q.converge = true ∧
    Q.solveP ⟨1, 1⟩ Toy.z Toy.z 10 = some ((Q', none), out) ∧ Q'.exitcode = -1 ∧ out = [.massMin, .reached] := by
  have h : (({ Toy.obj Toy.cfg { Toy.prob with massMin := .fin (99 / 100) } with exitcode := 1, converge := true } :
      QLaw (Ext ℚ)).solveP ⟨1, 1⟩ Toy.z Toy.z 10).map (fun p => (p.1.2, p.1.1.exitcode, p.2.map Msg.brief)) =
      some (none, -1, [("mass", none), ("reached", none)]) := by decide +kernel
  rw [Option.map_eq_some_iff] at h
  obtain ⟨⟨⟨Q', e⟩, out⟩, h1, h2⟩ := h
  injection h2 with h2 h3
  injection h3 with h3 h4
  dsimp only at h2 h3 h4
  subst h2
  refine ⟨_, Q', out, rfl, h1, h3, ?_⟩
  rcases out with _ | ⟨a, _ | ⟨b, _ | ⟨c, l⟩⟩⟩
  · simp at h4
  · simp at h4
  · cases a <;> cases b <;> simp [Msg.brief] at h4 ⊢
  · simp at h4

end PyQ
