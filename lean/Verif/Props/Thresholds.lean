import Verif.Props.Repeat
import Verif.Props.Outcome
import Verif.Props.Effectivity
import Verif.Proofs.Control

/-! # Coasting thresholds act only through the steps they cut (C133) -/

set_option linter.unusedSectionVars false
set_option maxRecDepth 100000
set_option synthInstance.maxSize 1000

namespace PyQ

variable {α : Type} [Add α] [Sub α] [Mul α] [Div α] [Neg α] [NatCast α] [Pow α ℕ]
  [PyTrans α] [PyOrd α] [PyNan α]

/-- step `k` of a run coasted because an effectivity was below its threshold: recorded throttle 0 with a recorded
effectivity that is a number (duty-cycle coasts and NaN steps record NaN) -/
def Hist.CutAt (H : Hist α) (k : ℕ) : Prop :=
  ∃ c e, H.controls[k]? = some c ∧ c.2.2 = 0 ∧ H.etas[k]? = some e ∧
    (PyNan.isnan e.1 = false ∨ PyNan.isnan e.2 = false)

/-- the result lists with other effectivity records -/
def Hist.setE (h : Hist α) (e b : List (α × α)) : Hist α := { h with etas := e, etasBounds := b }

def LoopSt.setE (s : LoopSt α) (e b : List (α × α)) : LoopSt α := { s with hist := s.hist.setE e b }

def RunRes.setE : RunRes α → List (α × α) → List (α × α) → RunRes α
  | .timeout s, e, b => .timeout (s.setE e b)
  | .exit s c, e, b => .exit (s.setE e b) c
  | .raised s x, e, b => .raised (s.setE e b) x

def Outcome.setE : Outcome α → List (α × α) → List (α × α) → Outcome α
  | .cont s, e, b => .cont (s.setE e b)
  | .brk s c, e, b => .brk (s.setE e b) c
  | .err s x, e, b => .err (s.setE e b) x

/-- the same run with both thresholds zero -/
def Env.noEta (E : Env α) : Env α :=
  { E with etaA := .flt ((0 : ℕ) : α), etaR := .flt ((0 : ℕ) : α) }

/-- this step was not cut -/
def Ctl.Uncut (c : Ctl α) : Prop :=
  c.throttle = 1 ∨ (PyNan.isnan c.valA = true ∧ PyNan.isnan c.valR = true)

theorem lt_irrefl_py [OrdLaws α] (x : α) : PyOrd.lt x x = false := by
  rw [Bool.eq_false_iff]
  intro h
  obtain ⟨h2, _, h3⟩ := (OrdLaws.lt_iff x x).mp h
  rw [OrdLaws.le_refl x h2] at h3
  cases h3

theorem lt_nan_left [OrdLaws α] {x y : α} (h : PyNan.isnan x = true) : PyOrd.lt x y = false := by
  rw [Bool.eq_false_iff]
  intro h1
  rw [((OrdLaws.lt_iff x y).mp h1).1] at h
  cases h

theorem ctl_zero [OrdLaws α] {E : Env α} {s : LoopSt α} {d : DutyRes α} {c : Ctl α}
    (h : controlPhase E s d = .ok (.ctl c)) (hu : c.Uncut) (e b : List (α × α)) :
    ∃ va vr ea er, controlPhase E.noEta (s.setE e b) d =
      .ok (.ctl { c with valA := va, valR := vr, etaA := ea, etaR := er }) := by
  obtain ⟨o, h1, h2, h3, h4, h5, hk⟩ := control_ctl h
  unfold lawAt accelOf at h2
  have irr := lt_irrefl_py (α := α) ((0 : ℕ) : α)
  obtain ⟨al, be, th, u, psi, q, qd, va, vr, ea, er, nn, oeT⟩ := c
  dsimp only at h1 h2 h3 h4 h5
  cases hk with
  | off hd ha hb ht hu' hn hva hvr hea her =>
    dsimp only at *
    refine ⟨PyNan.nan, PyNan.nan, PyNan.nan, PyNan.nan, ?_⟩
    subst ha hb ht hu' hn h3 h4 h5
    simp only [controlPhase, Env.noEta, LoopSt.setE, h1, h2, hd, bind, Except.bind, pure, Except.pure]
    rfl
  | nan hd hnan hthr ha hb ht hu' hn hva hvr hea her =>
    dsimp only at *
    refine ⟨PyNan.nan, PyNan.nan, PyNan.nan, PyNan.nan, ?_⟩
    subst ha hb ht hu' hn h3 h4 h5
    have h6 : ¬ ((s.nNan + 1 : ℕ) : ℤ) > E.cfg.nanAnglesThreshold := by omega
    simp only [controlPhase, Env.noEta, LoopSt.setE, h1, h2, hd, hnan, h6, bind, Except.bind, pure, Except.pure,
      if_true, if_false]
  | free hd hnan hea her hpos ha hb ht hu' hn hva hvr =>
    dsimp only at *
    refine ⟨PyNan.nan, PyNan.nan, ((0 : ℕ) : α), ((0 : ℕ) : α), ?_⟩
    subst ha hb ht hu' hn h3 h4 h5
    simp only [controlPhase, Env.noEta, LoopSt.setE, h1, h2, hd, hnan, irr, bind, Except.bind, pure, Except.pure,
      if_true, evalEta, Bool.or_self]
    rfl
  | gated mx mn hd hnan hea her hpos hq hva hvr ha hb ht hu' hn =>
    have hcut : (PyOrd.lt va ea || PyOrd.lt vr er) = false := by
      rcases hu with hu | ⟨hu1, hu2⟩
      · dsimp only at hu ht
        rw [hu] at ht
        cases hc : (PyOrd.lt va ea || PyOrd.lt vr er) with
        | false => rfl
        | true => rw [hc] at ht; simp at ht
      · rw [lt_nan_left hu1, lt_nan_left hu2]; rfl
    dsimp only at *
    rw [hcut] at ht hu'
    simp only [Bool.false_eq_true, if_false] at ht hu'
    refine ⟨PyNan.nan, PyNan.nan, ((0 : ℕ) : α), ((0 : ℕ) : α), ?_⟩
    subst ha hb ht hu' hn h3 h4 h5
    simp only [controlPhase, Env.noEta, LoopSt.setE, h1, h2, hd, hnan, irr, bind, Except.bind, pure, Except.pure,
      if_true, evalEta, Bool.or_self]
    rfl

theorem clamp_setE (C : Config α) (s : LoopSt α) (e b : List (α × α)) :
    clampPhase C (s.setE e b) = (clampPhase C s).map fun s1 => s1.setE e b := by
  unfold clampPhase
  cases C.elementsType with
  | meeWithA => rfl
  | keplerian =>
    have h : (s.setE e b).oe = s.oe := rfl
    simp only [h]
    cases elementsSafety s.oe C.oeMin C.oeMax <;> rfl

theorem exit_setE (E : Env α) (oeT : Fin 5 → α) (s : LoopSt α) (e b : List (α × α)) :
    exitPhase E.noEta oeT (s.setE e b) = (exitPhase E oeT s).setE e b := by
  unfold exitPhase
  have h1 : (s.setE e b).oe = s.oe := rfl
  have h2 : (s.setE e b).mass = s.mass := rfl
  have h3 : (s.setE e b).nRelaxed = s.nRelaxed := rfl
  have h4 : E.noEta.cfg = E.cfg := rfl
  have h5 : E.noEta.prob = E.prob := rfl
  simp only [h1, h2, h3, h4, h5]
  cases E.cfg.dyn.checkConv s.oe oeT E.prob.woe E.cfg.tolOe with
  | true => rfl
  | false =>
    simp only [Bool.false_eq_true, if_false]
    generalize (if E.cfg.dyn.checkConv s.oe oeT E.prob.woe E.cfg.tolOeRelaxed = true then s.nRelaxed + 1
      else s.nRelaxed) = n
    cases (E.cfg.dyn.checkConv s.oe oeT E.prob.woe E.cfg.tolOeRelaxed && decide ((n : ℤ) ≥ E.cfg.exitAtRelaxed)) with
    | true => rfl
    | false =>
      cases PyOrd.le s.mass E.prob.massMin <;> rfl

/-- one iteration that is not cut does the same with the thresholds zero -/
theorem rec_zero [OrdLaws α] {E : Env α} {s : LoopSt α} {D : StepData α} (h : RecStep E s D) (hu : D.c.Uncut)
    (e b : List (α × α)) : ∃ e' b', iter E.noEta (s.setE e b) = (iter E s).setE e' b' := by
  obtain ⟨va, vr, ea, er, hc⟩ := ctl_zero h.ctl hu e b
  have hR : RecStep E.noEta (s.setE e b) { D with
      s1 := D.s1.setE e b, c := { D.c with valA := va, valR := vr, etaA := ea, etaR := er } } :=
    ⟨by
      have : E.noEta.cfg = E.cfg := rfl
      rw [this, clamp_setE, h.clamp]; rfl, h.choose, h.duty, hc, h.prop, h.alpha, h.beta⟩
  refine ⟨e ++ [(va, vr)], b ++ [(ea, er)], ?_⟩
  rw [hR.iter_eq, h.iter_eq, ← exit_setE]
  rfl

theorem nan_zero {E : Env α} {s : LoopSt α} {n : ℕ} {s1 : LoopSt α} {st : α}
    (h1 : clampPhase E.cfg s = .ok s1) (h2 : chooseStep E.cfg E.prob s1.oe = .ok st)
    (h3 : controlPhase E s1 (dutyPhase E.prob s1 st) = .ok (.nanBreak n))
    (e b : List (α × α)) : iter E.noEta (s.setE e b) = (iter E s).setE e b := by
  obtain ⟨oeT, o, g1, g2, g3, g4, g5, g6⟩ := control_nanBreak h3
  unfold lawAt accelOf at g2
  have hc : controlPhase E.noEta (s1.setE e b) (dutyPhase E.prob s1 st) = .ok (.nanBreak n) := by
    subst g5
    simp only [controlPhase, Env.noEta, LoopSt.setE, g1, g2, g3, g4, g6, bind, Except.bind, pure, Except.pure,
      if_true]
  have hcl : clampPhase E.noEta.cfg (s.setE e b) = .ok (s1.setE e b) := by
    have : E.noEta.cfg = E.cfg := rfl
    rw [this, clamp_setE, h1]; rfl
  have hch : chooseStep E.noEta.cfg E.noEta.prob (s1.setE e b).oe = .ok st := h2
  have hd : dutyPhase E.noEta.prob (s1.setE e b) st = dutyPhase E.prob s1 st := rfl
  simp only [iter, hcl, h1, bodyPhase, hch, h2, hd, hc, h3]
  rfl

/-- all result lists have the lengths they should -/
def EtaAligned (s : LoopSt α) : Prop := Aligned s.hist s.hist.controls.length

theorem aligned_cont {E : Env α} {s s' : LoopSt α} (h : iter E s = .cont s') (ha : EtaAligned s) :
    EtaAligned s' ∧ s'.hist.controls.length = s.hist.controls.length + 1 := by
  obtain ⟨D, hD⟩ := rec_of_cont h
  have hA := aligned_clamp ha hD.clamp
  rw [hD.next.1 s' h]
  have hc : (postState E D).hist.controls.length = s.hist.controls.length + 1 := by
    simp only [postState, List.length_append, hA.controls]; rfl
  refine ⟨?_, hc⟩
  unfold EtaAligned
  dsimp only
  rw [hc]
  constructor <;> simp [postState, hA.times, hA.states, hA.masses, hA.battery, hA.controls, hA.etas,
    hA.etasBounds, hA.qs, hA.dqdts]

/-- a recorded step that is cut shows in the result lists -/
theorem cut_shown {E : Env α} {s s' : LoopSt α} {D : StepData α} (hD : RecStep E s D) (ha : EtaAligned s)
    (hn : ¬ D.c.Uncut) (hs : s' = { postState E D with nRelaxed := relaxedAfter E D.c.oeT (postState E D) }) :
    s'.hist.CutAt s.hist.controls.length := by
  have h1 := clamp_etas hD.clamp
  have h2 := clamp_controls hD.clamp
  have ha : s.hist.etas.length = s.hist.controls.length := ha.etas
  unfold Ctl.Uncut at hn
  push Not at hn
  have hthr : D.c.throttle = 0 := (control_throttle hD.ctl).resolve_right hn.1
  refine ⟨(D.a, D.b, D.c.throttle), (D.c.valA, D.c.valR), ?_, hthr, ?_, ?_⟩
  · rw [hs]; simp only [postState, h2]; simp
  · rw [hs]; simp only [postState, h1]; rw [← ha]; simp
  · cases hva : PyNan.isnan D.c.valA with
    | false => exact Or.inl rfl
    | true => exact Or.inr (Bool.eq_false_iff.mpr (hn.2 hva))

theorem CutAt.extends {h h' : Hist α} (hx : ExtendsS h h') {k : ℕ} (hc : h.CutAt k) : h'.CutAt k := by
  obtain ⟨c, e, h1, h2, h3, h4⟩ := hc
  have g1 : h'.controls[k]? = some c := by
    obtain ⟨l, hl⟩ := hx.controls
    rw [← hl, List.getElem?_append_left (List.getElem?_eq_some_iff.mp h1).1, h1]
  have g3 : h'.etas[k]? = some e := by
    obtain ⟨l, hl⟩ := hx.etas
    rw [← hl, List.getElem?_append_left (List.getElem?_eq_some_iff.mp h3).1, h3]
  exact ⟨c, e, g1, h2, g3, h4⟩

/-- an iteration without exception either does the same with the thresholds zero, or is cut -/
theorem iter_zero [OrdLaws α] {E : Env α} {s : LoopSt α} (ha : EtaAligned s) (hne : ∀ s' x, iter E s ≠ .err s' x)
    (e b : List (α × α)) :
    (∃ e' b', iter E.noEta (s.setE e b) = (iter E s).setE e' b') ∨
      (iter E s).st.hist.CutAt s.hist.controls.length := by
  rcases iter_cases E s with ⟨x, _, h1⟩ | ⟨s1, x, _, h1, _⟩ | ⟨s1, st, n, h2, h3, h4, s2, h1, h5⟩ |
    ⟨s1, st, c, oe, hb, _, _, _, _, _, s2, h1, _⟩ | ⟨D, hD⟩
  · exact absurd h1 (hne _ _)
  · exact absurd h1 (hne _ _)
  · exact Or.inl ⟨e, b, nan_zero h2 h3 h4 e b⟩
  · exact absurd h1 (hne _ _)
  · by_cases hu : D.c.Uncut
    · exact Or.inl (rec_zero hD hu e b)
    · right
      cases hi : iter E s with
      | cont s' => exact cut_shown hD ha hu (hD.next.1 s' hi)
      | brk s' c => exact cut_shown hD ha hu (hD.next.2 s' c hi)
      | err s' x => exact absurd hi (hne _ _)

/-- a run none of whose steps is cut is the run with the thresholds zero -/
theorem loop_uncut [OrdLaws α] (E : Env α) : ∀ (f : ℕ) (s : LoopSt α) (r : RunRes α) (e b : List (α × α)),
    EtaAligned s → loop E f s = some r → r.error? = none →
    (∀ k, s.hist.controls.length ≤ k → ¬ r.st.hist.CutAt k) →
    ∃ e' b', loop E.noEta f (s.setE e b) = some (r.setE e' b') := by
  intro f
  induction f with
  | zero => intro s r e b _ h; simp [loop] at h
  | succ f ih =>
    intro s r e b ha h he hc
    rw [loop_succ] at h
    have hgz : guardB E.noEta.prob (s.setE e b) = guardB E.prob s := rfl
    rw [loop_succ, hgz]
    cases hg : guardB E.prob s with
    | false => simp [hg] at h; subst h; exact ⟨e, b, rfl⟩
    | true =>
      simp only [hg, if_true] at h ⊢
      have hne : ∀ s' x, iter E s ≠ .err s' x := by
        intro s' x hi
        rw [hi] at h
        simp at h; subst h
        simp [RunRes.error?] at he
      rcases iter_zero ha hne e b with ⟨e', b', hz⟩ | hcut
      · rw [hz]
        cases hi : iter E s with
        | cont s' =>
          rw [hi] at h
          obtain ⟨ha', hl⟩ := aligned_cont hi ha
          exact ih s' r e' b' ha' h he fun k hk => hc k (by omega)
        | brk s' c => rw [hi] at h; simp at h; subst h; exact ⟨e', b', rfl⟩
        | err s' x => exact absurd hi (hne _ _)
      · exfalso
        refine hc _ le_rfl ?_
        cases hi : iter E s with
        | cont s' => rw [hi] at h hcut; exact CutAt.extends (loop_extends E f s' r h) hcut
        | brk s' c => rw [hi] at h hcut; simp at h; subst h; exact hcut
        | err s' x => exact absurd hi (hne _ _)

/-- a run and the one with the thresholds zero are the same until the first step that is cut -/
theorem loop_until_cut [OrdLaws α] (E : Env α) : ∀ (f g : ℕ) (s : LoopSt α) (r r0 : RunRes α) (e b : List (α × α)),
    EtaAligned s → loop E f s = some r → r.error? = none → loop E.noEta g (s.setE e b) = some r0 →
    (∃ e' b', r0 = r.setE e' b') ∨
    ∃ (h : Hist α) (e' b' : List (α × α)), r.st.hist.CutAt h.controls.length ∧
      Aligned h h.controls.length ∧ ExtendsS h r.st.hist ∧ ExtendsS (h.setE e' b') r0.st.hist := by
  intro f
  induction f with
  | zero => intro g s r r0 e b _ h; simp [loop] at h
  | succ f ih =>
    intro g s r r0 e b ha h he h0
    cases g with
    | zero => simp [loop] at h0
    | succ g =>
    have h00 := h0
    have hh := h
    rw [loop_succ] at h
    have hgz : guardB E.noEta.prob (s.setE e b) = guardB E.prob s := rfl
    rw [loop_succ, hgz] at h0
    cases hg : guardB E.prob s with
    | false =>
      simp [hg] at h h0; subst h; subst h0; exact Or.inl ⟨e, b, rfl⟩
    | true =>
      simp only [hg, if_true] at h h0
      have hne : ∀ s' x, iter E s ≠ .err s' x := by
        intro s' x hi
        rw [hi] at h
        simp at h; subst h
        simp [RunRes.error?] at he
      rcases iter_zero ha hne e b with ⟨e', b', hz⟩ | hcut
      · rw [hz] at h0
        cases hi : iter E s with
        | cont s' =>
          rw [hi] at h h0
          exact ih g s' r r0 e' b' (aligned_cont hi ha).1 h he h0
        | brk s' c =>
          rw [hi] at h h0
          simp [Outcome.setE] at h h0; subst h; subst h0; exact Or.inl ⟨e', b', rfl⟩
        | err s' x => exact absurd hi (hne _ _)
      · right
        refine ⟨s.hist, e, b, ?_, ha, loop_extends E (f + 1) s r hh, loop_extends E.noEta (g + 1) _ r0 h00⟩
        cases hi : iter E s with
        | cont s' => rw [hi] at h hcut; exact CutAt.extends (loop_extends E f s' r h) hcut
        | brk s' c => rw [hi] at h hcut; simp at h; subst h; exact hcut
        | err s' x => exact absurd hi (hne _ _)

/-- everything recorded for the first `n` steps is the same in both runs, apart from the effectivities and the
thresholds: the states before those steps, and times, masses and battery levels up to the end of them -/
structure SameUpTo (n : ℕ) (H H' : Hist α) : Prop where
  times : H.times.take (n + 1) = H'.times.take (n + 1)
  states : H.states.take n = H'.states.take n
  masses : H.masses.take (n + 1) = H'.masses.take (n + 1)
  battery : H.battery.take (n + 1) = H'.battery.take (n + 1)
  controls : H.controls.take n = H'.controls.take n
  qs : H.qs.take n = H'.qs.take n
  dqdts : H.dqdts.take n = H'.dqdts.take n

theorem prefix_take {β : Type} {l a b : List β} {n : ℕ} (hl : l.length = n) (ha : l <+: a) (hb : l <+: b) :
    a.take n = b.take n := by
  rw [← hl, ← List.prefix_iff_eq_take.mp ha, ← List.prefix_iff_eq_take.mp hb]

theorem sameUpTo_of {h H H' : Hist α} {e b : List (α × α)} {n : ℕ} (ha : Aligned h n) (h1 : Extends h H)
    (h2 : Extends (h.setE e b) H') : SameUpTo n H H' :=
  ⟨prefix_take ha.times h1.times h2.times,
   prefix_take (by rw [List.length_dropLast, ha.states]; rfl) h1.states h2.states,
   prefix_take ha.masses h1.masses h2.masses, prefix_take ha.battery h1.battery h2.battery,
   prefix_take ha.controls h1.controls h2.controls, prefix_take ha.qs h1.qs h2.qs,
   prefix_take ha.dqdts h1.dqdts h2.dqdts⟩

/-- two results are the same apart from the recorded effectivities and thresholds -/
structure SameRun (Q Q' : QLaw α) (H H' : Hist α) : Prop where
  prob : Q'.prob = Q.prob
  exitcode : Q'.exitcode = Q.exitcode
  converge : Q'.converge = Q.converge
  times : H'.times = H.times
  states : H'.states = H.states
  masses : H'.masses = H.masses
  battery : H'.battery = H.battery
  controls : H'.controls = H.controls
  qs : H'.qs = H.qs
  dqdts : H'.dqdts = H.dqdts

theorem finish_setE (Q : QLaw α) (P : Problem α) (r : RunRes α) (e b : List (α × α)) :
    SameRun (Q.finish P r) (Q.finish P (r.setE e b)) r.st.hist (r.st.hist.setE e b) ∧
      (Q.finish P (r.setE e b)).hist = some (r.st.hist.setE e b) ∧ (r.setE e b).error? = r.error? := by
  cases r <;> exact ⟨⟨rfl, rfl, rfl, rfl, rfl, rfl, rfl, rfl, rfl, rfl⟩, rfl, rfl⟩

/-- **C133, nothing cut.** If no step of a completed run with coasting thresholds was cut, the run with both
thresholds zero also completes (with the same number of loop passes) and everything is the same except the
recorded effectivities and thresholds. -/
theorem C133_uncut [OrdLaws α] {Q Q1 : QLaw α} {etaA etaR : EtaArg α} {f : ℕ} {H1 : Hist α}
    (h1 : Q.solve etaA etaR f = some (Q1, none)) (hH : Q1.hist = some H1) (hc : ∀ k, ¬ H1.CutAt k) :
    ∃ Q0 H0, Q.solve (.flt ((0 : ℕ) : α)) (.flt ((0 : ℕ) : α)) f = some (Q0, none) ∧ Q0.hist = some H0 ∧
      SameRun Q1 Q0 H1 H0 := by
  unfold QLaw.solve at h1 ⊢
  cases hr : Q.ready with
  | false => rw [hr] at h1; simp at h1
  | true =>
    cases hP : Q.prob with
    | none => rw [hr, hP] at h1; simp at h1
    | some P =>
      rw [hr, hP] at h1
      simp only at h1 ⊢
      cases hv : etaA.valid with
      | false => rw [hv] at h1; simp at h1
      | true =>
        simp only [hv, if_true, Option.map_eq_some_iff] at h1
        obtain ⟨r, hl, h1⟩ := h1
        have hQ : Q1 = _ := (congrArg Prod.fst h1).symm
        have he : r.error? = none := congrArg Prod.snd h1
        subst hQ
        have hh : r.st.hist = H1 := Option.some.inj hH
        subst hh
        obtain ⟨e', b', hz⟩ := loop_uncut _ f (initLoop P) r [] [] ⟨rfl, rfl, rfl, rfl, rfl, rfl, rfl, rfl, rfl⟩
          hl he fun k _ => hc k
        obtain ⟨g1, g2, g3⟩ := finish_setE Q P r e' b'
        refine ⟨Q.finish P (r.setE e' b'), r.st.hist.setE e' b', ?_, g2, g1⟩
        have hz' : loop { cfg := Q.cfg, prob := P, etaA := .flt ((0 : ℕ) : α), etaR := .flt ((0 : ℕ) : α) } f
          (initLoop P) = some (r.setE e' b') := hz
        rw [hz']
        simp [EtaArg.valid, g3, he]

/-- **C133, until the first cut.** A completed run with coasting thresholds and any run with both thresholds zero
are the same apart from the recorded effectivities and thresholds, or they are the same up to a step that was
cut. -/
theorem C133_until_cut [OrdLaws α] {Q Q1 Q0 : QLaw α} {etaA etaR : EtaArg α} {f g : ℕ} {H1 H0 : Hist α}
    {e0 : Option PyErr}
    (h1 : Q.solve etaA etaR f = some (Q1, none)) (hH : Q1.hist = some H1)
    (h0 : Q.solve (.flt ((0 : ℕ) : α)) (.flt ((0 : ℕ) : α)) g = some (Q0, e0)) (hH0 : Q0.hist = some H0) :
    (e0 = none ∧ SameRun Q1 Q0 H1 H0) ∨ ∃ n, H1.CutAt n ∧ SameUpTo n H1 H0 := by
  unfold QLaw.solve at h1 h0
  cases hr : Q.ready with
  | false => rw [hr] at h1; simp at h1
  | true =>
    cases hP : Q.prob with
    | none => rw [hr, hP] at h1; simp at h1
    | some P =>
      rw [hr, hP] at h1 h0
      simp only at h1 h0
      cases hv : etaA.valid with
      | false => rw [hv] at h1; simp at h1
      | true =>
        simp only [hv, if_true, Option.map_eq_some_iff] at h1
        simp only [EtaArg.valid, if_true, Option.map_eq_some_iff] at h0
        obtain ⟨r, hl, h1⟩ := h1
        obtain ⟨r0, hl0, h0⟩ := h0
        have hQ : Q1 = _ := (congrArg Prod.fst h1).symm
        have he : r.error? = none := congrArg Prod.snd h1
        have hQ0 : Q0 = _ := (congrArg Prod.fst h0).symm
        have he0 : r0.error? = e0 := congrArg Prod.snd h0
        subst hQ hQ0 he0
        have hh : r.st.hist = H1 := Option.some.inj hH
        have hh0 : r0.st.hist = H0 := Option.some.inj hH0
        subst hh hh0
        rcases loop_until_cut _ f g (initLoop P) r r0 [] [] ⟨rfl, rfl, rfl, rfl, rfl, rfl, rfl, rfl, rfl⟩
          hl he hl0 with ⟨e', b', hz⟩ | ⟨h, e', b', k1, k2, k3, k4⟩
        · subst hz
          obtain ⟨g1, g2, g3⟩ := finish_setE Q P r e' b'
          refine Or.inl ⟨by rw [g3, he], ?_⟩
          have : (r.setE e' b').st.hist = r.st.hist.setE e' b' := Option.some.inj g2
          rw [this]; exact g1
        · exact Or.inr ⟨_, k1, sameUpTo_of k2 k3.toExtends k4.toExtends⟩

/-- a threshold of 1/4 is above no absolute effectivity of this run (1/2, 1/2, 1, 1), so nothing is cut; 3/4
cuts the first two steps -/
example : Toy.decisions { Toy.cfg with dyn := Toy.wavyDyn } { Toy.prob with mdot := .fin 0, tfMax := .fin 2 }
      (.flt (.fin (1 / 4))) Toy.z 10 =
    some ([1, 1, 1, 1],
      [(.fin (1 / 2), .fin 0), (.fin (1 / 2), .fin 0), (.fin 1, .fin 1), (.fin 1, .fin 1)],
      [(.fin (1 / 4), .fin 0), (.fin (1 / 4), .fin 0), (.fin (1 / 4), .fin 0), (.fin (1 / 4), .fin 0)]) ∧
    Toy.decisions { Toy.cfg with dyn := Toy.wavyDyn } { Toy.prob with mdot := .fin 0, tfMax := .fin 2 }
      (.flt (.fin (3 / 4))) Toy.z 10 =
    some ([0, 0, 1, 1],
      [(.fin (1 / 2), .fin 0), (.fin (1 / 2), .fin 0), (.fin 1, .fin 1), (.fin 1, .fin 1)],
      [(.fin (3 / 4), .fin 0), (.fin (3 / 4), .fin 0), (.fin (3 / 4), .fin 0), (.fin (3 / 4), .fin 0)]) ∧
    Toy.decisions { Toy.cfg with dyn := Toy.wavyDyn } { Toy.prob with mdot := .fin 0, tfMax := .fin 2 }
      Toy.z Toy.z 10 =
    some ([1, 1, 1, 1], [(.nan, .nan), (.nan, .nan), (.nan, .nan), (.nan, .nan)],
      [(.fin 0, .fin 0), (.fin 0, .fin 0), (.fin 0, .fin 0), (.fin 0, .fin 0)]) := by
  refine ⟨?_, ?_, ?_⟩ <;> decide +kernel

/-- throttle 0 with the number 1/2 as effectivity is a cut; throttle 0 with NaN effectivities is not -/
example : (∃ H : Hist Toy.N, H.CutAt 0) ∧
    ¬ (⟨[], [], [], [], [(.fin 0, .fin 0, 0)], [(.nan, .nan)], [], [], []⟩ : Hist Toy.N).CutAt 0 := by
  refine ⟨⟨⟨[], [], [], [], [(.fin 0, .fin 0, 0)], [(.fin (1 / 2), .fin 0)], [], [], []⟩,
    _, _, rfl, rfl, rfl, Or.inl rfl⟩, ?_⟩
  rintro ⟨c, e, h1, h2, h3, h4⟩
  simp at h3
  subst h3
  rcases h4 with h4 | h4 <;> cases h4

end PyQ
