import Verif.Props.Repeat
import Verif.Props.Convergence

/-! # Stopping criteria only decide where a run stops (C131) -/

set_option linter.unusedSectionVars false
set_option maxRecDepth 100000
set_option synthInstance.maxSize 1000

namespace PyQ

variable {α : Type} [Add α] [Sub α] [Mul α] [Div α] [Neg α] [NatCast α] [Pow α ℕ]
  [PyTrans α] [PyOrd α] [PyNan α]

/-- the settings that end a run: both tolerances and the number of relaxed convergences, the number of NaN
angles allowed (constructor), the time limit and the mass threshold (`set_problem`) -/
structure Stops (α : Type) where
  tolOe : Fin 5 → α
  tolOeRelaxed : Fin 5 → α
  exitAtRelaxed : ℤ
  nanAnglesThreshold : ℤ
  tfMax : α
  massMin : α

/-- the same settings with other stopping criteria -/
def Config.withStops (C : Config α) (x : Stops α) : Config α :=
  { C with tolOe := x.tolOe, tolOeRelaxed := x.tolOeRelaxed, exitAtRelaxed := x.exitAtRelaxed,
           nanAnglesThreshold := x.nanAnglesThreshold }

/-- the same problem with other stopping criteria -/
def Problem.withStops (P : Problem α) (x : Stops α) : Problem α :=
  { P with tfMax := x.tfMax, massMin := x.massMin }

/-- the same object with other stopping criteria -/
def QLaw.withStops (Q : QLaw α) (x : Stops α) : QLaw α :=
  { Q with cfg := Q.cfg.withStops x, prob := Q.prob.map fun P => P.withStops x }

def Env.withStops (E : Env α) (x : Stops α) : Env α :=
  { E with cfg := E.cfg.withStops x, prob := E.prob.withStops x }

/-- every run that `y` stops is stopped by `x` too: `x` has the wider tolerances, needs fewer relaxed
convergences, allows fewer NaN angles, has the smaller time limit and the larger mass threshold -/
structure Stops.Looser (x y : Stops α) : Prop where
  tol : ∀ i, PyOrd.le (y.tolOe i) (x.tolOe i) = true
  relaxed : ∀ i, PyOrd.le (y.tolOeRelaxed i) (x.tolOeRelaxed i) = true
  count : x.exitAtRelaxed ≤ y.exitAtRelaxed
  nan : x.nanAnglesThreshold ≤ y.nanAnglesThreshold
  time : PyOrd.le (PyOrd.abs x.tfMax) (PyOrd.abs y.tfMax) = true
  mass : PyOrd.le y.massMin x.massMin = true

/-- the loop variables with another count of relaxed convergences -/
def LoopSt.withN (s : LoopSt α) (k : ℕ) : LoopSt α := { s with nRelaxed := k }

@[simp] theorem withN_hist (s : LoopSt α) (k : ℕ) : (s.withN k).hist = s.hist := rfl

theorem clamp_withN (C : Config α) (s : LoopSt α) (k : ℕ) :
    clampPhase C (s.withN k) = (clampPhase C s).map fun s1 => s1.withN k := by
  unfold clampPhase
  cases C.elementsType with
  | meeWithA => rfl
  | keplerian =>
    simp only [LoopSt.withN, bind, Except.bind]
    cases elementsSafety s.oe C.oeMin C.oeMax <;> rfl

/-- the control phase reads only the threshold for NaN angles, and only when it meets one -/
theorem control_stops (E : Env α) (x y : Stops α) (s : LoopSt α) (k j : ℕ) (d : DutyRes α) :
    (controlPhase (E.withStops x) (s.withN k) d = controlPhase (E.withStops y) (s.withN j) d ∧
      ∀ n, controlPhase (E.withStops x) (s.withN k) d ≠ .ok (.nanBreak n)) ∨
    ∃ n : ℕ, (((n : ℤ) > x.nanAnglesThreshold → controlPhase (E.withStops x) (s.withN k) d = .ok (.nanBreak n)) ∧
      (¬ (n : ℤ) > x.nanAnglesThreshold → ∃ c, controlPhase (E.withStops x) (s.withN k) d = .ok (.ctl c) ∧
        ¬ (n : ℤ) > x.nanAnglesThreshold) ∧
      ((n : ℤ) > y.nanAnglesThreshold → controlPhase (E.withStops y) (s.withN j) d = .ok (.nanBreak n)) ∧
      ((¬ (n : ℤ) > x.nanAnglesThreshold ∧ ¬ (n : ℤ) > y.nanAnglesThreshold) →
        controlPhase (E.withStops x) (s.withN k) d = controlPhase (E.withStops y) (s.withN j) d ∧
        ∀ n, controlPhase (E.withStops x) (s.withN k) d ≠ .ok (.nanBreak n))) := by
  unfold controlPhase
  show (_ = _ ∧ _) ∨ _
  simp only [Env.withStops, Config.withStops, Problem.withStops, LoopSt.withN, lyapArgs, evaluateOsculatingQdot, bind,
    Except.bind, pure, Except.pure]
  cases asVec5 E.prob.oeT with
  | error e => left; exact ⟨rfl, fun n h => by cases h⟩
  | ok oeT =>
    simp only
    split
    · left; exact ⟨rfl, fun n h => by cases h⟩
    · next o ho =>
      cases hd : d.duty with
      | false => left; simp
      | true =>
        simp only [if_true]
        cases hn : (PyNan.isnan o.alpha || PyNan.isnan o.beta) with
        | true =>
          right
          refine ⟨s.nNan + 1, ?_, ?_, ?_, ?_⟩
          · intro h; simp only [if_true, h]
          · intro h; simp only [if_true, h, if_false]; exact ⟨_, rfl, not_false⟩
          · intro h; simp only [if_true, h]
          · rintro ⟨h1, h2⟩; simp only [if_true, h1, h2, if_false]
            exact ⟨trivial, fun n h => by cases h⟩
        | false =>
          left
          refine ⟨rfl, fun n h => ?_⟩
          simp only [Bool.false_eq_true, if_false] at h
          revert h
          repeat' split
          all_goals (intro h; cases h)

/-- an iteration under two stopping criteria -/
theorem iter_stops (E : Env α) (x y : Stops α) (s : LoopSt α) (k j : ℕ) :
    (∃ (s' : LoopSt α) (e : PyErr), iter (E.withStops x) (s.withN k) = .err (s'.withN k) e ∧
      iter (E.withStops y) (s.withN j) = .err (s'.withN j) e) ∨
    (∃ (n : ℕ) (a : LoopSt α), (n : ℤ) > x.nanAnglesThreshold ∧ iter (E.withStops x) (s.withN k) = .brk a (-3) ∧
      ExtendsS a.hist (iter (E.withStops y) (s.withN j)).st.hist) ∨
    (∃ (n : ℕ) (b : LoopSt α), ¬ (n : ℤ) > x.nanAnglesThreshold ∧ (n : ℤ) > y.nanAnglesThreshold ∧
      iter (E.withStops y) (s.withN j) = .brk b (-3) ∧
      ExtendsS b.hist (iter (E.withStops x) (s.withN k)).st.hist) ∨
    (∃ (p : LoopSt α) (oeT : Fin 5 → α), iter (E.withStops x) (s.withN k) = exitPhase (E.withStops x) oeT (p.withN k) ∧
      iter (E.withStops y) (s.withN j) = exitPhase (E.withStops y) oeT (p.withN j)) := by
  cases hc : clampPhase E.cfg s with
  | error e =>
    left
    have h1 : clampPhase (E.withStops x).cfg (s.withN k) = .error e := by
      have := clamp_withN E.cfg s k; rw [hc] at this; exact this
    have h2 : clampPhase (E.withStops y).cfg (s.withN j) = .error e := by
      have := clamp_withN E.cfg s j; rw [hc] at this; exact this
    exact ⟨s, e, by simp only [iter, h1], by simp only [iter, h2]⟩
  | ok s1 =>
    have h1 : clampPhase (E.withStops x).cfg (s.withN k) = .ok (s1.withN k) := by
      have := clamp_withN E.cfg s k; rw [hc] at this; exact this
    have h2 : clampPhase (E.withStops y).cfg (s.withN j) = .ok (s1.withN j) := by
      have := clamp_withN E.cfg s j; rw [hc] at this; exact this
    have g1 : iter (E.withStops x) (s.withN k) = bodyPhase (E.withStops x) (s1.withN k) := by simp only [iter, h1]
    have g2 : iter (E.withStops y) (s.withN j) = bodyPhase (E.withStops y) (s1.withN j) := by simp only [iter, h2]
    have k1 := (iter_extends (E.withStops x) (s1.withN k))
    have k2 := (iter_extends (E.withStops y) (s1.withN j))
    rw [g1, g2]
    cases hs : chooseStep E.cfg E.prob s1.oe with
    | error e =>
      left
      have e1 : chooseStep (E.withStops x).cfg (E.withStops x).prob (s1.withN k).oe = .error e := hs
      have e2 : chooseStep (E.withStops y).cfg (E.withStops y).prob (s1.withN j).oe = .error e := hs
      exact ⟨s1, e, by simp only [bodyPhase, e1], by simp only [bodyPhase, e2]⟩
    | ok st =>
      have e1 : chooseStep (E.withStops x).cfg (E.withStops x).prob (s1.withN k).oe = .ok st := hs
      have e2 : chooseStep (E.withStops y).cfg (E.withStops y).prob (s1.withN j).oe = .ok st := hs
      have d1 : dutyPhase (E.withStops x).prob (s1.withN k) st = dutyPhase E.prob s1 st := rfl
      have d2 : dutyPhase (E.withStops y).prob (s1.withN j) st = dutyPhase E.prob s1 st := rfl
      -- what a step that is not a NaN break extends
      have ext : ∀ (z : Stops α) (l : ℕ), ExtendsS s1.hist (bodyPhase (E.withStops z) (s1.withN l)).st.hist := by
        intro z l
        have e3 : chooseStep (E.withStops z).cfg (E.withStops z).prob (s1.withN l).oe = .ok st := hs
        have d3 : dutyPhase (E.withStops z).prob (s1.withN l) st = dutyPhase E.prob s1 st := rfl
        simp only [bodyPhase, e3, d3]
        split
        · exact Extends.refl _
        · exact Extends.refl _
        · next c hcc =>
          split
          · exact Extends.refl _
          · next oeN hB hp =>
            have hstore : ∀ t' m' b', ExtendsS s1.hist (storePhase (s1.withN l).hist t' oeN m' b' c).1 := by
              intro t' m' b'
              unfold storePhase
              simp only
              split
              · exact extends_append ⟨_, rfl, by simp⟩ (List.prefix_append _ _) (List.prefix_append _ _)
                  (List.prefix_append _ _) (List.prefix_append _ _) (List.prefix_append _ _)
                  (List.prefix_append _ _) (List.prefix_append _ _) (List.prefix_append _ _)
              · refine extends_append ⟨_, rfl, by simp⟩ (List.prefix_append _ _) (List.prefix_append _ _)
                  ?_ ?_ ?_ ?_ ?_ ?_ <;> exact List.prefix_rfl
            split
            · exact hstore _ _ _
            · have hex : ∀ (E' : Env α) (o : Fin 5 → α) (p : LoopSt α), (exitPhase E' o p).st.hist = p.hist := by
                intro E' o p
                rcases exitPhase_cases E' o p with h | h | h | h <;> rw [h.1] <;> rfl
              rw [hex]
              exact hstore _ _ _
      have same : controlPhase (E.withStops x) (s1.withN k) (dutyPhase E.prob s1 st) =
          controlPhase (E.withStops y) (s1.withN j) (dutyPhase E.prob s1 st) →
          (∀ n, controlPhase (E.withStops x) (s1.withN k) (dutyPhase E.prob s1 st) ≠ .ok (.nanBreak n)) →
          (∃ (s' : LoopSt α) (e : PyErr), bodyPhase (E.withStops x) (s1.withN k) = .err (s'.withN k) e ∧
            bodyPhase (E.withStops y) (s1.withN j) = .err (s'.withN j) e) ∨
          (∃ (p : LoopSt α) (oeT : Fin 5 → α), bodyPhase (E.withStops x) (s1.withN k) = exitPhase (E.withStops x) oeT (p.withN k) ∧
            bodyPhase (E.withStops y) (s1.withN j) = exitPhase (E.withStops y) oeT (p.withN j)) := by
        intro heq hnb
        simp only [bodyPhase, e1, e2, d1, d2, ← heq]
        cases hcp : controlPhase (E.withStops x) (s1.withN k) (dutyPhase E.prob s1 st) with
        | error e => left; exact ⟨s1, e, rfl, rfl⟩
        | ok r =>
          cases r with
          | nanBreak n => exact absurd hcp (hnb n)
          | ctl c =>
            have hpp : propagatePhase (E.withStops y) (s1.withN j) (dutyPhase E.prob s1 st).step c =
                propagatePhase (E.withStops x) (s1.withN k) (dutyPhase E.prob s1 st).step c := rfl
            simp only [hpp]
            cases propagatePhase (E.withStops x) (s1.withN k) (dutyPhase E.prob s1 st).step c with
            | error e => left; exact ⟨s1, e, rfl, rfl⟩
            | ok q =>
              obtain ⟨oeN, hB⟩ := q
              obtain ⟨hh, oe, hst⟩ : ∃ hh oe, storePhase s1.hist (s1.t + (dutyPhase E.prob s1 st).step) oeN
                (if c.throttle = 1 then s1.mass - E.prob.mdot * (dutyPhase E.prob s1 st).step else s1.mass)
                (batteryPhase E.prob s1.battery (dutyPhase E.prob s1 st).duty
                  (dutyPhase E.prob s1 st).charging hB).1 c = (hh, oe) := ⟨_, _, rfl⟩
              have key : ∀ (z : Stops α) (l : ℕ), storePhase (s1.withN l).hist
                  ((s1.withN l).t + (dutyPhase E.prob s1 st).step) oeN
                  (if c.throttle = 1 then (s1.withN l).mass - (E.withStops z).prob.mdot * (dutyPhase E.prob s1 st).step
                    else (s1.withN l).mass)
                  (batteryPhase (E.withStops z).prob (s1.withN l).battery (dutyPhase E.prob s1 st).duty
                    (dutyPhase E.prob s1 st).charging hB).1 c = (hh, oe) := fun _ _ => hst
              let p0 : LoopSt α :=
                { t := s1.t + (dutyPhase E.prob s1 st).step, oe := oeN,
                  mass := if c.throttle = 1 then s1.mass - E.prob.mdot * (dutyPhase E.prob s1 st).step else s1.mass,
                  battery := (batteryPhase E.prob s1.battery (dutyPhase E.prob s1 st).duty
                    (dutyPhase E.prob s1 st).charging hB).1,
                  hist := hh, nRelaxed := 0, nNan := c.nNan, duty := (dutyPhase E.prob s1 st).duty,
                  tOn := (dutyPhase E.prob s1 st).tOn, tOff := (dutyPhase E.prob s1 st).tOff,
                  charging := (batteryPhase E.prob s1.battery (dutyPhase E.prob s1 st).duty
                    (dutyPhase E.prob s1 st).charging hB).2,
                  alpha := c.alpha, beta := c.beta }
              simp only [key]
              cases oe with
              | some e => left; exact ⟨p0, e, rfl, rfl⟩
              | none => right; exact ⟨p0, c.oeT, rfl, rfl⟩
      rcases control_stops E x y s1 k j (dutyPhase E.prob s1 st) with ⟨q1, q2⟩ | ⟨n, q1, q2, q3, q4⟩
      · rcases same q1 q2 with h | h
        · exact Or.inl h
        · exact Or.inr (Or.inr (Or.inr h))
      · by_cases hx : (n : ℤ) > x.nanAnglesThreshold
        · right; left
          have b1 : bodyPhase (E.withStops x) (s1.withN k) = .brk
                { s1.withN k with
                  nNan := n, duty := (dutyPhase E.prob s1 st).duty, tOn := (dutyPhase E.prob s1 st).tOn, tOff := (dutyPhase E.prob s1 st).tOff,
                  charging := (dutyPhase E.prob s1 st).charging, alpha := some ((0 : ℕ) : α), beta := some ((0 : ℕ) : α) } (-3) := by
            simp only [bodyPhase, e1, d1, q1 hx]
          exact ⟨n, _, hx, b1, ext y j⟩
        · by_cases hy : (n : ℤ) > y.nanAnglesThreshold
          · right; right; left
            have b1 : bodyPhase (E.withStops y) (s1.withN j) = .brk
                { s1.withN j with
                  nNan := n, duty := (dutyPhase E.prob s1 st).duty, tOn := (dutyPhase E.prob s1 st).tOn, tOff := (dutyPhase E.prob s1 st).tOff,
                  charging := (dutyPhase E.prob s1 st).charging, alpha := some ((0 : ℕ) : α), beta := some ((0 : ℕ) : α) } (-3) := by
              simp only [bodyPhase, e2, d2, q3 hy]
            exact ⟨n, _, hx, hy, b1, ext x k⟩
          · rcases same (q4 ⟨hx, hy⟩).1 (q4 ⟨hx, hy⟩).2 with h | h
            · exact Or.inl h
            · exact Or.inr (Or.inr (Or.inr h))

theorem loop_one (E : Env α) {f : ℕ} {s : LoopSt α} {r : RunRes α} (h : loop E (f + 1) s = some r)
    (hg : guardB E.prob s = true) : ExtendsS (iter E s).st.hist r.st.hist := by
  rw [loop_succ, hg] at h
  simp only [if_true] at h
  cases hi : iter E s with
  | cont s' => rw [hi] at h; exact loop_extends E f s' r h
  | brk s' c => rw [hi] at h; simp at h; subst h; exact Extends.refl _
  | err s' c => rw [hi] at h; simp at h; subst h; exact Extends.refl _

theorem exit_st (E : Env α) (o : Fin 5 → α) (p : LoopSt α) : ∃ m, (exitPhase E o p).st = p.withN m := by
  rcases exitPhase_cases E o p with h | h | h | h <;> rw [h.1] <;> exact ⟨_, rfl⟩

/-- two stopping criteria: one run is a beginning of the other -/
theorem loop_comparable (E : Env α) (x y : Stops α) : ∀ (f g : ℕ) (s : LoopSt α) (k j : ℕ) (r1 r2 : RunRes α),
    loop (E.withStops x) f (s.withN k) = some r1 → loop (E.withStops y) g (s.withN j) = some r2 →
    ExtendsS r1.st.hist r2.st.hist ∨ ExtendsS r2.st.hist r1.st.hist := by
  intro f
  induction f with
  | zero => intro g s k j r1 r2 h _; simp [loop] at h
  | succ f ih =>
    intro g s k j r1 r2 h h'
    cases g with
    | zero => simp [loop] at h'
    | succ g =>
      cases hg : guardB (E.withStops x).prob (s.withN k) with
      | false =>
        rw [loop_succ] at h
        simp [hg] at h
        subst h
        exact Or.inl (loop_extends _ _ (s.withN j) _ h')
      | true =>
        cases hg' : guardB (E.withStops y).prob (s.withN j) with
        | false =>
          have h2 := loop_extends _ _ _ _ h
          rw [loop_succ] at h'
          simp [hg'] at h'
          subst h'
          exact Or.inr h2
        | true =>
          have l1 := loop_one _ h hg
          have l2 := loop_one _ h' hg'
          rw [loop_succ, hg] at h
          rw [loop_succ, hg'] at h'
          simp only [if_true] at h h'
          rcases iter_stops E x y s k j with ⟨s', e, h1, h2⟩ | ⟨n, a, _, h1, h2⟩ | ⟨n, b, _, _, h1, h2⟩ | ⟨p, o, h1, h2⟩
          · rw [h1] at h; rw [h2] at h'
            simp at h h'; subst h; subst h'
            exact Or.inl (Extends.refl _)
          · rw [h1] at h; simp at h; subst h
            exact Or.inl (h2.trans l2)
          · rw [h1] at h'; simp at h'; subst h'
            exact Or.inr (h2.trans l1)
          · obtain ⟨m1, hm1⟩ := exit_st (E.withStops x) o (p.withN k)
            obtain ⟨m2, hm2⟩ := exit_st (E.withStops y) o (p.withN j)
            rw [h1] at h l1; rw [h2] at h' l2
            rw [hm1] at l1; rw [hm2] at l2
            cases c1 : exitPhase (E.withStops x) o (p.withN k) with
            | err s' c => rw [c1] at h; simp at h; subst h; left
                          rw [c1] at hm1; change s' = _ at hm1; subst hm1; exact l2
            | brk s' c => rw [c1] at h; simp at h; subst h; left
                          rw [c1] at hm1; change s' = _ at hm1; subst hm1; exact l2
            | cont s' =>
              cases c2 : exitPhase (E.withStops y) o (p.withN j) with
              | err s'' c => rw [c2] at h'; simp at h'; subst h'; right
                             rw [c2] at hm2; change s'' = _ at hm2; subst hm2; exact l1
              | brk s'' c => rw [c2] at h'; simp at h'; subst h'; right
                             rw [c2] at hm2; change s'' = _ at hm2; subst hm2; exact l1
              | cont s'' =>
                rw [c1] at h hm1; rw [c2] at h' hm2
                change s' = _ at hm1; change s'' = _ at hm2
                subst hm1; subst hm2
                exact ih g p m1 m2 r1 r2 h h'

theorem checkFlags_mono [OrdLaws α] {doe woe t1 t2 : Fin 5 → α} (h : ∀ i, PyOrd.le (t2 i) (t1 i) = true)
    (hc : checkFlags doe woe t2 = true) : checkFlags doe woe t1 = true := by
  rw [checkFlags_iff] at hc ⊢
  intro i
  rcases hc i with h1 | h1
  · exact Or.inl h1
  · exact Or.inr (OrdLaws.le_trans _ _ _ h1 (h i))

/-- looser criteria: the run with them is a beginning of the other, with the same exception if it raised one -/
theorem loop_looser [OrdLaws α] {E : Env α} {x y : Stops α} (hl : x.Looser y)
    (hd : E.cfg.dyn.checkConv = checkConvergenceKeplerian ∨ E.cfg.dyn.checkConv = checkConvergenceMee) :
    ∀ (f g : ℕ) (s : LoopSt α) (k j : ℕ) (r1 r2 : RunRes α), j ≤ k →
    loop (E.withStops x) f (s.withN k) = some r1 → loop (E.withStops y) g (s.withN j) = some r2 →
    ExtendsS r1.st.hist r2.st.hist ∧
    ∀ s' e, r1 = .raised s' e → ∃ s'', r2 = .raised s'' e ∧ s''.hist = s'.hist := by
  have mono : ∀ oe oeT (t1 t2 : Fin 5 → α), (∀ i, PyOrd.le (t2 i) (t1 i) = true) →
      E.cfg.dyn.checkConv oe oeT E.prob.woe t2 = true → E.cfg.dyn.checkConv oe oeT E.prob.woe t1 = true := by
    intro oe oeT t1 t2 ht hc
    rcases hd with hd | hd <;> rw [hd] at hc ⊢ <;> exact checkFlags_mono ht hc
  intro f
  induction f with
  | zero => intro g s k j r1 r2 _ h _; simp [loop] at h
  | succ f ih =>
    intro g s k j r1 r2 hkj h h'
    cases g with
    | zero => simp [loop] at h'
    | succ g =>
      cases hg : guardB (E.withStops x).prob (s.withN k) with
      | false =>
        rw [loop_succ] at h
        simp [hg] at h
        subst h
        exact ⟨loop_extends _ _ (s.withN j) _ h', fun _ _ h => by cases h⟩
      | true =>
        have hg' : guardB (E.withStops y).prob (s.withN j) = true := by
          unfold guardB at hg ⊢
          obtain ⟨h1, h2, h3⟩ := (OrdLaws.lt_iff _ _).mp hg
          refine (OrdLaws.lt_iff _ _).mpr ⟨h1, OrdLaws.le_right _ _ hl.time, ?_⟩
          rw [Bool.eq_false_iff]
          intro h4
          have := OrdLaws.le_trans _ _ _ hl.time h4
          change PyOrd.le (PyOrd.abs x.tfMax) _ = false at h3
          exact absurd (this.symm.trans h3) (by decide)
        have l2 := loop_one _ h' hg'
        rw [loop_succ, hg] at h
        rw [loop_succ, hg'] at h'
        simp only [if_true] at h h'
        rcases iter_stops E x y s k j with ⟨s', e, h1, h2⟩ | ⟨n, a, _, h1, h2⟩ | ⟨n, b, n1, n2, _, _⟩ | ⟨p, o, h1, h2⟩
        · rw [h1] at h; rw [h2] at h'
          simp at h h'; subst h; subst h'
          refine ⟨Extends.refl _, fun s1 e1 h => ?_⟩
          injection h with h3 h4
          subst h3; subst h4
          exact ⟨_, rfl, rfl⟩
        · rw [h1] at h; simp at h; subst h
          exact ⟨h2.trans l2, fun _ _ h => by cases h⟩
        · exact absurd (lt_of_le_of_lt hl.nan n2) n1
        · obtain ⟨m1, hm1⟩ := exit_st (E.withStops x) o (p.withN k)
          obtain ⟨m2, hm2⟩ := exit_st (E.withStops y) o (p.withN j)
          rw [h1] at h; rw [h2] at h' l2
          rw [hm2] at l2
          rcases exitPhase_cases (E.withStops x) o (p.withN k) with c1 | c1 | c1 | c1
          · obtain ⟨c1, c2, c3, c4⟩ := c1
            rw [c1] at h
            have t2 : E.cfg.dyn.checkConv p.oe o E.prob.woe y.tolOe = false := by
              rw [Bool.eq_false_iff]
              intro hc
              have := mono _ _ _ _ hl.tol hc
              exact absurd (this.symm.trans c2) (by decide)
            have r2' : E.cfg.dyn.checkConv p.oe o E.prob.woe y.tolOeRelaxed = true →
                E.cfg.dyn.checkConv p.oe o E.prob.woe x.tolOeRelaxed = true := mono _ _ _ _ hl.relaxed
            have mm : PyOrd.le p.mass y.massMin = false := by
              rw [Bool.eq_false_iff]
              intro hc
              have := OrdLaws.le_trans _ _ _ hc hl.mass
              exact absurd (this.symm.trans c4) (by decide)
            have hn : relaxedAfter (E.withStops y) o (p.withN j) ≤ relaxedAfter (E.withStops x) o (p.withN k) := by
              unfold relaxedAfter
              have e1 : (E.withStops x).cfg.dyn.checkConv (p.withN k).oe o (E.withStops x).prob.woe
                (E.withStops x).cfg.tolOe = false := c2
              have e2 : (E.withStops y).cfg.dyn.checkConv (p.withN j).oe o (E.withStops y).prob.woe
                (E.withStops y).cfg.tolOe = false := t2
              rw [e1, e2]
              show (if _ then j + 1 else j) ≤ if _ then k + 1 else k
              have e3 : (E.withStops y).cfg.dyn.checkConv (p.withN j).oe o (E.withStops y).prob.woe
                (E.withStops y).cfg.tolOeRelaxed = true → (E.withStops x).cfg.dyn.checkConv (p.withN k).oe o
                (E.withStops x).prob.woe (E.withStops x).cfg.tolOeRelaxed = true := r2'
              split
              · next q => rw [if_pos (e3 q)]; exact Nat.succ_le_succ hkj
              · split
                · exact Nat.le_succ_of_le hkj
                · exact hkj
            rcases exitPhase_cases (E.withStops y) o (p.withN j) with b1 | b1 | b1 | b1
            · rw [b1.1] at h'
              exact ih g p _ _ r1 r2 hn h h'
            · exact absurd (b1.2.symm.trans t2) (by decide)
            · obtain ⟨-, -, b2, b3⟩ := b1
              have := c3 (r2' b2)
              have hc := hl.count
              change y.exitAtRelaxed ≤ _ at b3
              change _ < x.exitAtRelaxed at this
              omega
            · exact absurd (b1.2.2.2.symm.trans mm) (by decide)
          · rw [c1.1] at h; simp at h; subst h
            exact ⟨l2, fun _ _ h => by cases h⟩
          · rw [c1.1] at h; simp at h; subst h
            exact ⟨l2, fun _ _ h => by cases h⟩
          · rw [c1.1] at h; simp at h; subst h
            exact ⟨l2, fun _ _ h => by cases h⟩

/-- **C131.** Whatever the stopping criteria of two otherwise equal objects (tolerances, number of relaxed
convergences, allowed NaN angles, time limit, mass threshold), the histories of one run are the beginning of
those of the other (up to the last recorded state, which the longer run may still move to the element
bounds). -/
theorem C131_comparable {Q Q1 Q2 : QLaw α} {x y : Stops α} {etaA etaR : EtaArg α} {f1 f2 : ℕ}
    {e1 e2 : Option PyErr} {P : Problem α} {H1 H2 : Hist α} (hP : Q.prob = some P) (hr : Q.ready = true)
    (hv : etaA.valid = true) (h1 : (Q.withStops x).solve etaA etaR f1 = some (Q1, e1))
    (h2 : (Q.withStops y).solve etaA etaR f2 = some (Q2, e2)) (hH1 : Q1.hist = some H1) (hH2 : Q2.hist = some H2) :
    Extends H1 H2 ∨ Extends H2 H1 := by
  have hP1 : (Q.withStops x).prob = some (P.withStops x) := by simp [QLaw.withStops, hP]
  have hP2 : (Q.withStops y).prob = some (P.withStops y) := by simp [QLaw.withStops, hP]
  have hr1 : (Q.withStops x).ready = true := hr
  have hr2 : (Q.withStops y).ready = true := hr
  simp only [QLaw.solve, hP1, hr1, hv, if_true, Option.map_eq_some_iff] at h1
  simp only [QLaw.solve, hP2, hr2, hv, if_true, Option.map_eq_some_iff] at h2
  obtain ⟨r1, hl1, h1⟩ := h1
  obtain ⟨r2, hl2, h2⟩ := h2
  have hh1 : r1.st.hist = H1 := by
    have hQ : Q1 = _ := (congrArg Prod.fst h1).symm
    rw [hQ] at hH1; exact Option.some.inj hH1
  have hh2 : r2.st.hist = H2 := by
    have hQ : Q2 = _ := (congrArg Prod.fst h2).symm
    rw [hQ] at hH2; exact Option.some.inj hH2
  have := loop_comparable (envOf Q P etaA etaR) x y f1 f2 (initLoop P) 0 0 r1 r2 hl1 hl2
  rw [hh1, hh2] at this
  exact this.imp ExtendsS.toExtends ExtendsS.toExtends

/-- **C131, direction.** If every criterion of `x` is at least as easily met as that of `y`, the run with `x`
is the beginning of the run with `y`; and if it ends in an exception, so does the other, at the same place. -/
theorem C131_looser [OrdLaws α] {Q Q1 Q2 : QLaw α} {x y : Stops α} (hl : x.Looser y)
    (hd : Q.cfg.dyn.checkConv = checkConvergenceKeplerian ∨ Q.cfg.dyn.checkConv = checkConvergenceMee)
    {etaA etaR : EtaArg α} {f1 f2 : ℕ} {e1 e2 : Option PyErr} {P : Problem α} {H1 H2 : Hist α}
    (hP : Q.prob = some P) (hr : Q.ready = true)
    (hv : etaA.valid = true) (h1 : (Q.withStops x).solve etaA etaR f1 = some (Q1, e1))
    (h2 : (Q.withStops y).solve etaA etaR f2 = some (Q2, e2)) (hH1 : Q1.hist = some H1) (hH2 : Q2.hist = some H2) :
    Extends H1 H2 ∧ (e1 ≠ none → e2 = e1 ∧ H2 = H1) := by
  have hP1 : (Q.withStops x).prob = some (P.withStops x) := by simp [QLaw.withStops, hP]
  have hP2 : (Q.withStops y).prob = some (P.withStops y) := by simp [QLaw.withStops, hP]
  have hr1 : (Q.withStops x).ready = true := hr
  have hr2 : (Q.withStops y).ready = true := hr
  simp only [QLaw.solve, hP1, hr1, hv, if_true, Option.map_eq_some_iff] at h1
  simp only [QLaw.solve, hP2, hr2, hv, if_true, Option.map_eq_some_iff] at h2
  obtain ⟨r1, hl1, h1⟩ := h1
  obtain ⟨r2, hl2, h2⟩ := h2
  have hh1 : r1.st.hist = H1 := by
    have hQ : Q1 = _ := (congrArg Prod.fst h1).symm
    rw [hQ] at hH1; exact Option.some.inj hH1
  have hh2 : r2.st.hist = H2 := by
    have hQ : Q2 = _ := (congrArg Prod.fst h2).symm
    rw [hQ] at hH2; exact Option.some.inj hH2
  have he1 : e1 = r1.error? := (congrArg Prod.snd h1).symm
  have he2 : e2 = r2.error? := (congrArg Prod.snd h2).symm
  obtain ⟨k1, k2⟩ := loop_looser (E := envOf Q P etaA etaR) hl hd f1 f2 (initLoop P) 0 0 r1 r2 le_rfl hl1 hl2
  rw [hh1, hh2] at k1
  refine ⟨k1.toExtends, fun hne => ?_⟩
  cases r1 with
  | timeout s => exact absurd he1 hne
  | exit s c => exact absurd he1 hne
  | raised s e =>
    obtain ⟨s2, g1, g2⟩ := k2 s e rfl
    subst g1
    exact ⟨by rw [he1, he2]; rfl, by rw [← hh1, ← hh2]; exact g2⟩

/-- looser tolerances stop the toy transfer after three steps, tighter ones after four -/
example : ∃ x y : Stops Toy.N, x.Looser y ∧
    Toy.seen (Toy.cfg.withStops x) (Toy.prob.withStops x) Toy.z Toy.z 10 = some (none, 1, true, 3) ∧
    Toy.seen (Toy.cfg.withStops y) (Toy.prob.withStops y) Toy.z Toy.z 10 = some (none, 1, true, 4) := by
  refine ⟨⟨fun _ => .fin (3 / 5), fun _ => .fin (4 / 5), 3, 5, .fin 8, .fin (1 / 5)⟩,
    ⟨fun _ => .fin (1 / 100), fun _ => .fin (1 / 10), 4, 6, .fin 10, .fin (1 / 10)⟩,
    ⟨by decide +kernel, by decide +kernel, by decide +kernel, by decide +kernel, by decide +kernel, by decide +kernel⟩,
    ?_, ?_⟩ <;> decide +kernel

end PyQ
