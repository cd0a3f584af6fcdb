import Verif.Props.Inputs
import Verif.Examples.Toy

/-! # Runs compared with each other: repeating `solve`, other objects, a larger `tf_max` (C75, C76) -/

set_option linter.unusedSectionVars false
set_option maxRecDepth 100000
set_option synthInstance.maxSize 1000

namespace PyQ

variable {α : Type} [Add α] [Sub α] [Mul α] [Div α] [Neg α] [NatCast α] [Pow α ℕ]
  [PyTrans α] [PyOrd α] [PyNan α]

/-! ## C75 -/

/-- bounds that compare equal are the same number (true in exact arithmetic; among floats it excludes
`0.0` against `-0.0`) -/
def BoundsExact (C : Config α) : Prop :=
  ∀ l ∈ C.oeMin, ∀ u ∈ C.oeMax, PyOrd.le l u = true → PyOrd.le u l = true → l = u

theorem clamp1_idem [OrdLaws α] {l u : α}
    (h : PyOrd.le l u = true → PyOrd.le u l = true → l = u) (x : α) :
    pymin (pymax l (pymin (pymax l x) u)) u = pymin (pymax l x) u := by
  have irr : ∀ y : α, PyOrd.lt y y = false := by
    intro y
    rw [Bool.eq_false_iff]
    intro h1
    obtain ⟨h2, _, h3⟩ := (OrdLaws.lt_iff y y).mp h1
    rw [OrdLaws.le_refl y h2] at h3
    cases h3
  unfold pymin pymax
  cases h1 : PyOrd.lt l x with
  | false =>
    cases h2 : PyOrd.lt u l with
    | false => simp [irr, h2]
    | true =>
      have h3 : PyOrd.lt l u = false := by
        rw [Bool.eq_false_iff]
        intro h3
        obtain ⟨h4, h5, h6⟩ := (OrdLaws.lt_iff l u).mp h3
        obtain ⟨_, _, h7⟩ := (OrdLaws.lt_iff u l).mp h2
        rcases OrdLaws.le_total l u h4 h5 with h8 | h8
        · rw [h7] at h8; cases h8
        · rw [h6] at h8; cases h8
      simp [h2, h3]
  | true =>
    cases h2 : PyOrd.lt u x with
    | false => simp [h1, h2]
    | true =>
      cases h3 : PyOrd.lt l u with
      | true => simp [h2, h3, irr]
      | false =>
        cases h4 : PyOrd.lt u l with
        | true => simp [h2, h3, h4]
        | false =>
          have hl := ((OrdLaws.lt_iff l x).mp h1).1
          have hu := ((OrdLaws.lt_iff u x).mp h2).1
          have h5 : PyOrd.le u l = true := by
            by_contra h5
            rw [(OrdLaws.lt_iff l u).mpr ⟨hl, hu, Bool.eq_false_iff.mpr h5⟩] at h3
            cases h3
          have h6 : PyOrd.le l u = true := by
            by_contra h6
            rw [(OrdLaws.lt_iff u l).mpr ⟨hu, hl, Bool.eq_false_iff.mpr h6⟩] at h4
            cases h4
          simp [h2, h h6 h5]

/-- clamping twice is clamping once, whatever the bounds -/
theorem safety_idem_gen [OrdLaws α] {C : Config α} (hb : BoundsExact C) {oe y : Fin 6 → α}
    (h : elementsSafety oe C.oeMin C.oeMax = .ok y) :
    elementsSafety y C.oeMin C.oeMax = .ok y := by
  unfold BoundsExact at hb
  revert hb h
  unfold elementsSafety
  split
  · intro hb h
    injection h with h
    subst h
    simp only [Except.ok.injEq]
    ext i
    match i with
    | 0 => refine clamp1_idem (hb _ ?_ _ ?_) _ <;> simp [*]
    | 1 => refine clamp1_idem (hb _ ?_ _ ?_) _ <;> simp [*]
    | 2 => refine clamp1_idem (hb _ ?_ _ ?_) _ <;> simp [*]
    | 3 => refine clamp1_idem (hb _ ?_ _ ?_) _ <;> simp [*]
    | 4 => refine clamp1_idem (hb _ ?_ _ ?_) _ <;> simp [*]
    | 5 => rfl
  · intro _ h
    cases h

/-- the loop body does not read `oe0` -/
theorem loop_oe0 (E : Env α) (o : Fin 6 → α) : ∀ (fuel : ℕ) (s : LoopSt α),
    loop { E with prob := { E.prob with oe0 := o } } fuel s = loop E fuel s := by
  intro fuel
  induction fuel with
  | zero => intro s; rfl
  | succ f ih =>
    intro s
    have hi : iter { E with prob := { E.prob with oe0 := o } } s = iter E s := rfl
    unfold loop
    rw [hi]
    have hg : guardB ({ E with prob := { E.prob with oe0 := o } } : Env α).prob s =
      guardB E.prob s := rfl
    rw [hg]
    cases guardB E.prob s <;> cases iter E s <;> simp [ih]

/-- one evaluation of the loop -/
theorem loop_succ (E : Env α) (f : ℕ) (s : LoopSt α) : loop E (f + 1) s =
    if guardB E.prob s then
      match iter E s with
      | .cont s' => loop E f s'
      | .brk s' c => some (.exit s' c)
      | .err s' e => some (.raised s' e)
    else some (.timeout s) := rfl

/-- starting from the state left in `oe0` by a run gives the run again -/
theorem loop_again [OrdLaws α] {E : Env α} (hb : BoundsExact E.cfg) {fuel : ℕ} {r : RunRes α}
    (h : loop E fuel (initLoop E.prob) = some r) :
    loop { E with prob := { E.prob with oe0 := r.st.hist.states.headD E.prob.oe0 } } fuel
      (initLoop { E.prob with oe0 := r.st.hist.states.headD E.prob.oe0 }) = some r := by
  rw [loop_oe0]
  cases fuel with
  | zero => simp [loop] at h
  | succ f =>
    cases hg : guardB E.prob (initLoop E.prob) with
    | false =>
      have h' := h
      rw [loop_succ, hg] at h'
      simp only [Bool.false_eq_true, if_false, Option.some.injEq] at h'
      subst h'
      exact h
    | true =>
      obtain ⟨n, tr, D, hT, hE⟩ := loop_trace h
      obtain ⟨x, l, hl, hx⟩ := run_head hT hE
      have hxd : r.st.hist.states.headD E.prob.oe0 = x := by rw [hl]; rfl
      rw [hxd]
      rcases hx with hx | ⟨s1, hc, hx⟩
      · rw [hx]; exact h
      · rcases clamp_cases hc with ⟨_, h2⟩ | ⟨hk, oe, hs, h2⟩
        · rw [hx, h2]; exact h
        · have hxo : x = oe := by rw [hx, h2]
          rw [hxo]
          have hc' : clampPhase E.cfg (initLoop { E.prob with oe0 := oe }) = .ok s1 := by
            unfold clampPhase
            simp only [hk]
            have := safety_idem_gen hb hs
            show (do
              let oe' ← elementsSafety oe E.cfg.oeMin E.cfg.oeMax
              pure { initLoop { E.prob with oe0 := oe } with
                oe := oe', hist := { (initLoop { E.prob with oe0 := oe }).hist with
                  states := (initLoop { E.prob with oe0 := oe }).hist.states.dropLast ++ [oe'] } }) = _
            rw [this, h2]
            rfl
          have hi : iter E (initLoop { E.prob with oe0 := oe }) = iter E (initLoop E.prob) := by
            unfold iter; rw [hc, hc']
          have hg' : guardB E.prob (initLoop { E.prob with oe0 := oe }) =
            guardB E.prob (initLoop E.prob) := rfl
          rw [loop_succ, hi, hg', hg]
          rw [loop_succ, hg] at h
          exact h

theorem finishFlags_again (c : ℤ) (b : Bool) (r : RunRes α) :
    finishFlags (finishFlags c b r).1 (finishFlags c b r).2 r = finishFlags c b r := by
  cases r with
  | raised => rfl
  | exit s code =>
    simp only [finishFlags]
    split <;> rfl
  | timeout s =>
    simp only [finishFlags]
    split
    · simp
    · simp

/-- **C75.** Calling `solve` again with the same arguments changes nothing: the object after the
second call (histories, exit code, flag, problem) is the object after the first, and the same
exception, if any, is raised. This holds however the run ended and whatever the object's past. -/
theorem C75_repeat [OrdLaws α] {Q Q' : QLaw α} {etaA etaR : EtaArg α} {fuel : ℕ} {e : Option PyErr}
    (hb : BoundsExact Q.cfg) (h : Q.solve etaA etaR fuel = some (Q', e)) :
    Q'.solve etaA etaR fuel = some (Q', e) := by
  cases hr : Q.ready with
  | false =>
    have h' := h
    simp only [QLaw.solve, hr, Option.some.injEq, Prod.mk.injEq] at h'
    rw [← h'.1]
    rw [← h'.1] at h
    exact h
  | true =>
    cases hp : Q.prob with
    | none =>
      have h' := h
      simp only [QLaw.solve, hr, hp, Option.some.injEq, Prod.mk.injEq] at h'
      rw [← h'.1]
      rw [← h'.1] at h
      exact h
    | some P =>
      cases hv : etaA.valid with
      | false =>
        have h' := h
        simp only [QLaw.solve, hr, hp, hv, Bool.false_eq_true, if_false, Option.some.injEq,
          Prod.mk.injEq] at h'
        rw [← h'.1]
        rw [← h'.1] at h
        exact h
      | true =>
        have h' := h
        simp only [QLaw.solve, hr, hp, hv, if_true, Option.map_eq_some_iff] at h'
        obtain ⟨r, hl, h2⟩ := h'
        have hQ' : Q' = Q.finish P r := (congrArg Prod.fst h2).symm
        have he : e = r.error? := (congrArg Prod.snd h2).symm
        have hag := loop_again (E := envOf Q P etaA etaR) hb hl
        have hne : ∀ d, r.st.hist.states.headD d = r.st.hist.states.headD P.oe0 := by
          obtain ⟨n, tr, D, hT, hE⟩ := loop_trace (E := envOf Q P etaA etaR) hl
          obtain ⟨x, l, hl', _⟩ := run_head hT hE
          intro d; rw [hl']; rfl
        subst hQ'
        subst he
        have hr' : (Q.finish P r).ready = true := hr
        have hp' : (Q.finish P r).prob =
          some { P with oe0 := r.st.hist.states.headD P.oe0 } := rfl
        simp only [QLaw.solve, hr', hp', hv, if_true, Option.map_eq_some_iff]
        refine ⟨r, hag, ?_⟩
        simp only [Prod.mk.injEq, and_true]
        have hf := finishFlags_again Q.exitcode Q.converge r
        have h3 : (Q.finish P r).exitcode = (finishFlags Q.exitcode Q.converge r).1 := rfl
        have h4 : (Q.finish P r).converge = (finishFlags Q.exitcode Q.converge r).2 := rfl
        unfold QLaw.finish at h3 h4 ⊢
        simp only [hf, hne]

/-- **C75.** The histories and exceptions of a run depend on the settings, the problem and the
thresholds only: two objects that agree on these record the same histories and raise the same
exceptions, whatever was done with them before. -/
theorem C75_past_irrelevant {Q1 Q2 Q1' Q2' : QLaw α} {etaA etaR : EtaArg α} {f1 f2 : ℕ}
    {e1 e2 : Option PyErr} (hc : Q1.cfg = Q2.cfg) (hp : Q1.prob = Q2.prob)
    (hr1 : Q1.ready = true) (hr2 : Q2.ready = true)
    (h1 : Q1.solve etaA etaR f1 = some (Q1', e1)) (h2 : Q2.solve etaA etaR f2 = some (Q2', e2)) :
    e1 = e2 ∧ Q1'.prob = Q2'.prob ∧ (Q1'.hist = Q2'.hist ∨ (Q1' = Q1 ∧ Q2' = Q2)) := by
  have mono : ∀ (E : Env α) (f g : ℕ) (s : LoopSt α) (r r' : RunRes α),
      loop E f s = some r → loop E g s = some r' → r = r' := by
    intro E f
    induction f with
    | zero => intro g s r r' h _; simp [loop] at h
    | succ f ih =>
      intro g s r r' h h'
      cases g with
      | zero => simp [loop] at h'
      | succ g =>
        rw [loop_succ] at h h'
        cases hg : guardB E.prob s with
        | false => simp [hg] at h h'; rw [← h, ← h']
        | true =>
          simp only [hg, if_true] at h h'
          cases hi : iter E s with
          | cont s' => rw [hi] at h h'; exact ih g s' r r' h h'
          | brk s' c => rw [hi] at h h'; simp at h h'; rw [← h, ← h']
          | err s' c => rw [hi] at h h'; simp at h h'; rw [← h, ← h']
  cases hP : Q2.prob with
  | none =>
    have hP1 : Q1.prob = none := hp.trans hP
    simp only [QLaw.solve, hP, hr2] at h2
    simp only [QLaw.solve, hP1, hr1] at h1
    cases h1; cases h2
    exact ⟨rfl, hp.trans rfl, Or.inr ⟨rfl, rfl⟩⟩
  | some P =>
    have hP1 : Q1.prob = some P := hp.trans hP
    cases hv : etaA.valid with
    | false =>
      simp only [QLaw.solve, hP, hr2, hv] at h2
      simp only [QLaw.solve, hP1, hr1, hv] at h1
      cases h1; cases h2
      exact ⟨rfl, hp.trans rfl, Or.inr ⟨rfl, rfl⟩⟩
    | true =>
      simp only [QLaw.solve, hP, hr2, hv, if_true, Option.map_eq_some_iff] at h2
      simp only [QLaw.solve, hP1, hr1, hv, if_true, Option.map_eq_some_iff] at h1
      obtain ⟨r1, hl1, h1⟩ := h1
      obtain ⟨r2, hl2, h2⟩ := h2
      rw [hc] at hl1
      have := mono _ _ _ _ _ _ hl1 hl2
      subst this
      cases h1; cases h2
      exact ⟨rfl, rfl, Or.inl rfl⟩

/-- exact arithmetic with NaN and infinities meets the hypothesis on the bounds -/
theorem boundsExact_ext {K : Type} [Field K] [LinearOrder K] [IsStrictOrderedRing K]
    (C : Config (Ext K)) : BoundsExact C := by
  intro l _ u _ h1 h2
  cases l <;> cases u <;> simp_all [PyOrd.le, Ext.le]
  exact le_antisymm h1 h2

/-- keplerian object with an initial state outside the bounds: the first call moves it, the second
call changes nothing -/
example : BoundsExact (Toy.obj Toy.kepCfg Toy.prob).cfg ∧
    ∃ Q', (Toy.obj Toy.kepCfg Toy.prob).solve Toy.z Toy.z 10 = some (Q', none) ∧ Q'.exitcode = 1 := by
  constructor
  · intro l hl u hu h1 h2
    simp only [Toy.obj, Toy.kepCfg, List.mem_cons, List.not_mem_nil, or_false] at hl hu
    rcases hl with rfl | rfl | rfl | rfl | rfl <;> rcases hu with rfl | rfl | rfl | rfl | rfl <;>
      revert h2 <;> decide +kernel
  · obtain ⟨Q', h1, h2, _⟩ := Toy.of_seen (C := Toy.kepCfg) (P := Toy.prob) (a := Toy.z) (r := Toy.z)
      (fuel := 10) (e := none) (x := 1) (c := true) (n := 2) (by decide +kernel)
    exact ⟨Q', h1, h2⟩

/-! ## C76 -/

/-- `h'` extends `h`: every list is a prefix, except that the last recorded state may have been
moved to the element bounds -/
structure Extends (h h' : Hist α) : Prop where
  times : h.times <+: h'.times
  states : h.states.dropLast <+: h'.states
  masses : h.masses <+: h'.masses
  battery : h.battery <+: h'.battery
  controls : h.controls <+: h'.controls
  etas : h.etas <+: h'.etas
  etasBounds : h.etasBounds <+: h'.etasBounds
  qs : h.qs <+: h'.qs
  dqdts : h.dqdts <+: h'.dqdts

/-- as `Extends`, with the states settled before the last one staying settled -/
structure ExtendsS (h h' : Hist α) : Prop extends Extends h h' where
  settled : h.states.dropLast <+: h'.states.dropLast

theorem Extends.refl (h : Hist α) : ExtendsS h h :=
  ⟨⟨List.prefix_rfl, List.dropLast_prefix _, List.prefix_rfl, List.prefix_rfl, List.prefix_rfl,
    List.prefix_rfl, List.prefix_rfl, List.prefix_rfl, List.prefix_rfl⟩, List.prefix_rfl⟩

theorem ExtendsS.trans {a b c : Hist α} (h1 : ExtendsS a b) (h2 : ExtendsS b c) : ExtendsS a c :=
  ⟨⟨h1.times.trans h2.times, h1.settled.trans h2.states, h1.masses.trans h2.masses,
    h1.battery.trans h2.battery, h1.controls.trans h2.controls, h1.etas.trans h2.etas,
    h1.etasBounds.trans h2.etasBounds, h1.qs.trans h2.qs, h1.dqdts.trans h2.dqdts⟩,
   h1.settled.trans h2.settled⟩

theorem clamp_extends {C : Config α} {s s1 : LoopSt α} (h : clampPhase C s = .ok s1) :
    ExtendsS s.hist s1.hist := by
  rcases clamp_cases h with ⟨_, rfl⟩ | ⟨_, oe, _, rfl⟩
  · exact Extends.refl _
  · have := Extends.refl s.hist
    exact ⟨⟨this.times, by simp, this.masses, this.battery, this.controls, this.etas,
      this.etasBounds, this.qs, this.dqdts⟩, by simp⟩

theorem extends_append {h h' : Hist α} (hs : ∃ l, h'.states = h.states ++ l ∧ l ≠ [])
    (ht : h.times <+: h'.times) (hm : h.masses <+: h'.masses) (hb : h.battery <+: h'.battery)
    (hc : h.controls <+: h'.controls) (he : h.etas <+: h'.etas)
    (heb : h.etasBounds <+: h'.etasBounds) (hq : h.qs <+: h'.qs) (hd : h.dqdts <+: h'.dqdts) :
    ExtendsS h h' := by
  obtain ⟨l, hl, hne⟩ := hs
  have h1 : h.states.dropLast <+: h'.states.dropLast := by
    rw [hl, List.dropLast_append_of_ne_nil hne]
    exact (List.dropLast_prefix _).trans (List.prefix_append _ _)
  exact ⟨⟨ht, h1.trans (List.dropLast_prefix _), hm, hb, hc, he, heb, hq, hd⟩, h1⟩

theorem post_extends (E : Env α) (D : StepData α) (n : ℕ) :
    ExtendsS D.s1.hist ({ postState E D with nRelaxed := n } : LoopSt α).hist :=
  extends_append ⟨_, rfl, by simp⟩ (List.prefix_append _ _) (List.prefix_append _ _)
    (List.prefix_append _ _) (List.prefix_append _ _) (List.prefix_append _ _)
    (List.prefix_append _ _) (List.prefix_append _ _) (List.prefix_append _ _)

/-- state carried out of an iteration -/
def Outcome.st : Outcome α → LoopSt α
  | .cont s => s
  | .brk s _ => s
  | .err s _ => s

theorem iter_extends (E : Env α) (s : LoopSt α) : ExtendsS s.hist (iter E s).st.hist := by
  rcases iter_cases E s with ⟨e, _, h1⟩ | ⟨s1, e, hc, h1, _⟩ | ⟨s1, st, n, hc, _, _, s2, h1, h2, _⟩ |
    ⟨s1, st, c, oe, hb, hc, _, _, _, _, s2, h1, h2⟩ | ⟨D, h1⟩
  · rw [h1]; exact Extends.refl _
  · rw [h1]; exact clamp_extends hc
  · rw [h1]; simp only [Outcome.st, h2]; exact clamp_extends hc
  · rw [h1]; simp only [Outcome.st, h2]
    refine (clamp_extends hc).trans (extends_append ⟨_, rfl, by simp⟩ (List.prefix_append _ _)
      (List.prefix_append _ _) ?_ ?_ ?_ ?_ ?_ ?_) <;> exact List.prefix_rfl
  · refine (clamp_extends h1.clamp).trans ?_
    rw [h1.iter_eq]
    rcases exitPhase_cases E D.c.oeT (postState E D) with h2 | h2 | h2 | h2 <;> rw [h2.1] <;>
      exact post_extends E D _

theorem loop_extends (E : Env α) : ∀ (f : ℕ) (s : LoopSt α) (r : RunRes α),
    loop E f s = some r → ExtendsS s.hist r.st.hist := by
  intro f
  induction f with
  | zero => intro s r h; simp [loop] at h
  | succ f ih =>
    intro s r h
    rw [loop_succ] at h
    have hx := iter_extends E s
    cases hg : guardB E.prob s with
    | false => simp [hg] at h; subst h; exact Extends.refl _
    | true =>
      simp only [hg, if_true] at h
      cases hi : iter E s with
      | cont s' => rw [hi] at h hx; exact hx.trans (ih s' r h)
      | brk s' c => rw [hi] at h hx; simp at h; subst h; exact hx
      | err s' c => rw [hi] at h hx; simp at h; subst h; exact hx

/-- a larger time limit: the same run, or a continuation of the one that timed out -/
theorem loop_limit {E : Env α} {T : α}
    (hT : ∀ y, PyOrd.lt y (PyOrd.abs E.prob.tfMax) = true → PyOrd.lt y (PyOrd.abs T) = true) :
    ∀ (f g : ℕ) (s : LoopSt α) (r1 r2 : RunRes α), loop E f s = some r1 →
    loop { E with prob := { E.prob with tfMax := T } } g s = some r2 →
    (r1 = r2 ∧ ∀ s', r1 ≠ .timeout s') ∨ ∃ s' g', r1 = .timeout s' ∧
      loop { E with prob := { E.prob with tfMax := T } } g' s' = some r2 := by
  intro f
  induction f with
  | zero => intro g s r1 r2 h _; simp [loop] at h
  | succ f ih =>
    intro g s r1 r2 h h'
    cases hg : guardB E.prob s with
    | false =>
      rw [loop_succ] at h
      simp [hg] at h
      subst h
      exact Or.inr ⟨s, g, rfl, h'⟩
    | true =>
      cases g with
      | zero => simp [loop] at h'
      | succ g =>
        have hi : iter { E with prob := { E.prob with tfMax := T } } s = iter E s := rfl
        have hg' : guardB ({ E with prob := { E.prob with tfMax := T } } : Env α).prob s = true := by
          unfold guardB at hg ⊢
          exact hT _ hg
        rw [loop_succ, hg] at h
        rw [loop_succ, hg', hi] at h'
        cases hi : iter E s with
        | cont s' => rw [hi] at h h'; exact ih g s' r1 r2 h h'
        | brk s' c =>
          rw [hi] at h h'; simp at h h'; left; rw [← h, ← h']
          exact ⟨rfl, by intro _ h; cases h⟩
        | err s' c =>
          rw [hi] at h h'; simp at h h'; left; rw [← h, ← h']
          exact ⟨rfl, by intro _ h; cases h⟩

theorem loop_tf [OrdLaws α] {E : Env α} {T : α}
    (hT : PyOrd.le (PyOrd.abs E.prob.tfMax) (PyOrd.abs T) = true) :
    ∀ (f g : ℕ) (s : LoopSt α) (r1 r2 : RunRes α), loop E f s = some r1 →
    loop { E with prob := { E.prob with tfMax := T } } g s = some r2 →
    (r1 = r2 ∧ ∀ s', r1 ≠ .timeout s') ∨ ∃ s' g', r1 = .timeout s' ∧
      loop { E with prob := { E.prob with tfMax := T } } g' s' = some r2 := by
  refine loop_limit fun y hg => ?_
  obtain ⟨h1, h2, h3⟩ := (OrdLaws.lt_iff _ _).mp hg
  refine (OrdLaws.lt_iff _ _).mpr ⟨h1, OrdLaws.le_right _ _ hT, ?_⟩
  rw [Bool.eq_false_iff]
  intro h4
  rw [OrdLaws.le_trans _ _ _ hT h4] at h3
  cases h3

/-- the same object with another time limit -/
def QLaw.withTfMax (Q : QLaw α) (T : α) : QLaw α :=
  { Q with prob := Q.prob.map fun P => { P with tfMax := T } }

/-- **C76.** Raising `tf_max` only extends the run: the histories of the run with the smaller limit
are prefixes of those of the run with the larger one (up to the last recorded state, which the longer
run may still move to the element bounds). On a fresh object, if the run with the smaller limit did
not time out, the two runs give the same histories, exit code, flag and exception. -/
theorem C76_extends [OrdLaws α] {Q Q1 Q2 : QLaw α} {etaA etaR : EtaArg α} {f1 f2 : ℕ}
    {e1 e2 : Option PyErr} {P : Problem α} {T : α} {H1 H2 : Hist α} (hP : Q.prob = some P)
    (hT : PyOrd.le (PyOrd.abs P.tfMax) (PyOrd.abs T) = true) (hf : Q.Fresh)
    (hr : Q.ready = true) (hv : etaA.valid = true)
    (h1 : Q.solve etaA etaR f1 = some (Q1, e1)) (h2 : (Q.withTfMax T).solve etaA etaR f2 = some (Q2, e2))
    (hH1 : Q1.hist = some H1) (hH2 : Q2.hist = some H2) :
    Extends H1 H2 ∧ (Q1.exitcode ≠ -2 →
      H2 = H1 ∧ Q2.exitcode = Q1.exitcode ∧ Q2.converge = Q1.converge ∧ e2 = e1) := by
  have hP' : (Q.withTfMax T).prob = some { P with tfMax := T } := by simp [QLaw.withTfMax, hP]
  have hr' : (Q.withTfMax T).ready = true := hr
  simp only [QLaw.solve, hP, hr, hv, if_true, Option.map_eq_some_iff] at h1
  simp only [QLaw.solve, hP', hr', hv, if_true, Option.map_eq_some_iff] at h2
  obtain ⟨r1, hl1, h1⟩ := h1
  obtain ⟨r2, hl2, h2⟩ := h2
  have hQ1 : Q1 = Q.finish P r1 := (congrArg Prod.fst h1).symm
  have hQ2 : Q2 = (Q.withTfMax T).finish { P with tfMax := T } r2 := (congrArg Prod.fst h2).symm
  have he1 : e1 = r1.error? := (congrArg Prod.snd h1).symm
  have he2 : e2 = r2.error? := (congrArg Prod.snd h2).symm
  have hh1 : r1.st.hist = H1 := by
    rw [hQ1] at hH1; exact Option.some.inj hH1
  have hh2 : r2.st.hist = H2 := by
    rw [hQ2] at hH2; exact Option.some.inj hH2
  rcases loop_tf (E := envOf Q P etaA etaR) hT f1 f2 (initLoop P) r1 r2 hl1 hl2 with ⟨h3, h4⟩ | ⟨s', g', h3, h4⟩
  · subst h3
    rw [← hh1, ← hh2]
    refine ⟨(Extends.refl _).toExtends, fun _ => ⟨rfl, ?_, ?_, by rw [he1, he2]⟩⟩
    · rw [hQ1, hQ2]; rfl
    · rw [hQ1, hQ2]; rfl
  · have h5 := loop_extends _ _ _ _ h4
    subst h3
    rw [hh2] at h5
    have h6 : s'.hist = H1 := hh1
    rw [h6] at h5
    refine ⟨h5.toExtends, fun h7 => ?_⟩
    exfalso
    apply h7
    rw [hQ1]
    exact (finish_timeout Q P s' hf.1 hf.2).1

/-- two limits on the same transfer: two steps and time-out, four steps and convergence -/
example : PyOrd.le (PyOrd.abs (.fin 1 : Toy.N)) (PyOrd.abs (.fin 10)) = true ∧
    Toy.seen Toy.cfg { Toy.prob with tfMax := .fin 1 } Toy.z Toy.z 10 = some (none, -2, false, 2) ∧
    Toy.seen Toy.cfg { Toy.prob with tfMax := .fin 10 } Toy.z Toy.z 10 = some (none, 1, true, 4) := by
  refine ⟨?_, ?_, ?_⟩ <;> decide +kernel

/-- keplerian elements: the last state of the shorter run is moved to the bounds by the longer one, so
the exception for the last state in `Extends` is needed -/
theorem C76_last_state_moves :
    let C := { Toy.kepCfg with oeMin := [.fin (1 / 2), .fin (-9), .fin (-9), .fin (-9), .fin (-9)],
                               oeMax := [.fin (5 / 4), .fin 9, .fin 9, .fin 9, .fin 9] }
    let run : Toy.N → Option (List Toy.N) := fun T =>
      ((Toy.obj C { Toy.prob with tfMax := T }).solve Toy.z Toy.z 10).bind fun p =>
        p.1.hist.map fun H => H.states.map fun x => x 0
    run (.fin (1 / 2)) = some [.fin 1, .fin (3 / 2)] ∧
    run (.fin 1) = some [.fin 1, .fin (5 / 4), .fin (7 / 4)] := by
  constructor <;> decide +kernel

end PyQ
