import Verif.Props.DutyFree

/-! # Callables are consulted only at the recorded states (C137) -/

set_option linter.unusedSectionVars false
set_option maxRecDepth 100000
set_option synthInstance.maxSize 1000

namespace PyQ

variable {α : Type} [Add α] [Sub α] [Mul α] [Div α] [Neg α] [NatCast α] [Pow α ℕ]
  [PyTrans α] [PyOrd α] [PyNan α]

/-- the three things of a run the caller supplies as functions: `perturbations.get_perturbations_RTN` (or no
perturbations), `eta_a`, `eta_r` -/
structure Callables (α : Type) where
  pert : Option (α → (Fin 6 → α) → ElemType → Except PyErr (Fin 3 → α))
  etaA : EtaArg α
  etaR : EtaArg α

/-- the acceleration at time `t` and elements `x`; zero without perturbations -/
def Callables.accel (F : Callables α) (t : α) (x : Fin 6 → α) (ty : ElemType) : Except PyErr (Fin 3 → α) :=
  match F.pert with
  | some f => f t x ty
  | none => .ok zero3

/-- the value of a threshold: a float, or what the callable returns -/
def thresholdAt (e : EtaArg α) (t : α) (x : Fin 6 → α) (m b : α) : Except PyErr α :=
  match e with
  | .flt v => .ok v
  | .fn f => f t x m b
  | .other => .ok PyNan.nan

/-- the same values (or exceptions) at a time, state, mass and battery level -/
def Callables.AgreeAt (F G : Callables α) (ty : ElemType) (t : α) (x : Fin 6 → α) (m b : α) : Prop :=
  F.accel t x ty = G.accel t x ty ∧ thresholdAt F.etaA t x m b = thresholdAt G.etaA t x m b ∧
    thresholdAt F.etaR t x m b = thresholdAt G.etaR t x m b

/-- the same values at record `n` of a run -/
def Hist.AgreeAt (H : Hist α) (F G : Callables α) (ty : ElemType) (n : ℕ) : Prop :=
  ∀ t x m b, H.times[n]? = some t → H.states[n]? = some x → H.masses[n]? = some m → H.battery[n]? = some b →
    F.AgreeAt G ty t x m b

/-- the same object with other perturbations -/
def QLaw.withPert (Q : QLaw α) (F : Callables α) : QLaw α := { Q with cfg := { Q.cfg with perturbations := F.pert } }

def Env.withF (E : Env α) (F : Callables α) : Env α :=
  { E with cfg := { E.cfg with perturbations := F.pert }, etaA := F.etaA, etaR := F.etaR }

theorem thresholdAt_eq (e : EtaArg α) (t : α) (x : Fin 6 → α) (m b : α) :
    evalEta e t x m b = thresholdAt e t x m b := by cases e <;> rfl

theorem control_consulted {E : Env α} {F G : Callables α} {s : LoopSt α} {d : DutyRes α}
    (h : F.AgreeAt G E.cfg.elementsType s.t s.oe s.mass s.battery) :
    controlPhase (E.withF G) s d = controlPhase (E.withF F) s d := by
  unfold controlPhase
  have h1 : evalEta (E.withF G).etaA s.t s.oe s.mass s.battery = evalEta (E.withF F).etaA s.t s.oe s.mass s.battery := by
    rw [thresholdAt_eq, thresholdAt_eq]; exact h.2.1.symm
  have h2 : evalEta (E.withF G).etaR s.t s.oe s.mass s.battery = evalEta (E.withF F).etaR s.t s.oe s.mass s.battery := by
    rw [thresholdAt_eq, thresholdAt_eq]; exact h.2.2.symm
  simp only [h1, h2]
  rfl

theorem propagate_consulted {E : Env α} {F G : Callables α} {s : LoopSt α} {st : α} {c : Ctl α}
    (h : F.AgreeAt G E.cfg.elementsType s.t s.oe s.mass s.battery) :
    propagatePhase (E.withF G) s st c = propagatePhase (E.withF F) s st c := by
  have key : ∀ X : Callables α, propagatePhase (E.withF X) s st c =
      (X.accel s.t s.oe E.cfg.elementsType).bind fun w =>
        propagatePhase (E.withF { X with pert := some fun _ _ _ => .ok w }) s st c := by
    intro X
    unfold propagatePhase Callables.accel Env.withF
    cases X.pert with
    | none => rfl
    | some f =>
      dsimp only
      cases f s.t s.oe E.cfg.elementsType <;> rfl
  rw [key F, key G, h.1]
  rfl

theorem iter_consulted {E : Env α} {F G : Callables α} {s : LoopSt α}
    (h : ∀ s1, clampPhase E.cfg s = .ok s1 → F.AgreeAt G E.cfg.elementsType s.t s1.oe s.mass s.battery) :
    iter (E.withF G) s = iter (E.withF F) s := by
  unfold iter
  have e1 : ∀ X : Callables α, clampPhase (E.withF X).cfg s = clampPhase E.cfg s := fun _ => rfl
  rw [e1, e1]
  cases hk : clampPhase E.cfg s with
  | error e => rfl
  | ok s1 =>
    have ha : F.AgreeAt G E.cfg.elementsType s1.t s1.oe s1.mass s1.battery := by
      rw [clamp_t hk, clamp_mass hk, clamp_battery hk]; exact h s1 hk
    dsimp only
    unfold bodyPhase
    have e2 : chooseStep (E.withF G).cfg (E.withF G).prob s1.oe = chooseStep (E.withF F).cfg (E.withF F).prob s1.oe := rfl
    rw [e2]
    cases chooseStep (E.withF F).cfg (E.withF F).prob s1.oe with
    | error e => rfl
    | ok st =>
      have e3 : dutyPhase (E.withF G).prob s1 st = dutyPhase (E.withF F).prob s1 st := rfl
      simp only [e3, control_consulted ha]
      cases controlPhase (E.withF F) s1 (dutyPhase (E.withF F).prob s1 st) with
      | error e => rfl
      | ok c =>
        cases c with
        | nanBreak n => rfl
        | ctl c =>
          simp only [propagate_consulted ha]
          rfl

/-- loop variables at the start of step `n` -/
structure RecInv (s : LoopSt α) (n : ℕ) : Prop where
  aligned : Aligned s.hist n
  times : ∃ l, s.hist.times = l ++ [s.t]
  states : ∃ l, s.hist.states = l ++ [s.oe]
  masses : ∃ l, s.hist.masses = l ++ [s.mass]
  battery : ∃ l, s.hist.battery = l ++ [s.battery]

theorem recInv_cont {E : Env α} {s s' : LoopSt α} {n : ℕ} (hi : RecInv s n) (h : iter E s = .cont s') :
    RecInv s' (n + 1) := by
  obtain ⟨X, hX⟩ := rec_of_cont h
  have hA := aligned_clamp hi.aligned hX.clamp
  rw [hX.next.1 s' h]
  refine ⟨?_, ⟨_, rfl⟩, ⟨_, rfl⟩, ⟨_, rfl⟩, ⟨_, rfl⟩⟩
  constructor <;> simp [postState, hA.times, hA.states, hA.masses, hA.battery, hA.controls, hA.etas,
    hA.etasBounds, hA.qs, hA.dqdts]

/-- the values an iteration starts from are those of record `n` -/
theorem record_at {E : Env α} {s s1 : LoopSt α} {n f : ℕ} {r : RunRes α} (hi : RecInv s n)
    (hk : clampPhase E.cfg s = .ok s1) (hg : guardB E.prob s = true) (h : loop E (f + 1) s = some r) :
    r.st.hist.times[n]? = some s.t ∧ r.st.hist.states[n]? = some s1.oe ∧ r.st.hist.masses[n]? = some s.mass ∧
    r.st.hist.battery[n]? = some s.battery := by
  obtain ⟨_, h1⟩ := hi.times
  obtain ⟨_, h3⟩ := hi.masses
  obtain ⟨_, h4⟩ := hi.battery
  obtain ⟨_, _, h2⟩ := clamp_states hk hi.states
  have hx := loop_extends _ _ _ _ h
  exact ⟨prefix_last h1 hi.aligned.times hx.times,
    prefix_last h2 (aligned_clamp hi.aligned hk).states (states_kept hk hg h),
    prefix_last h3 hi.aligned.masses hx.masses, prefix_last h4 hi.aligned.battery hx.battery⟩

theorem loop_consulted {E : Env α} {F G : Callables α} :
    ∀ (f : ℕ) (s : LoopSt α) (n : ℕ) (r : RunRes α), RecInv s n → loop (E.withF F) f s = some r →
    (∀ k, r.st.hist.AgreeAt F G E.cfg.elementsType k) → loop (E.withF G) f s = some r := by
  intro f
  induction f with
  | zero => intro s n r _ h; simp [loop] at h
  | succ f ih =>
    intro s n r hi h ha
    have hh := h
    have g2 : guardB (E.withF G).prob s = guardB (E.withF F).prob s := rfl
    rw [loop_succ] at h
    rw [loop_succ, g2]
    cases hg : guardB (E.withF F).prob s with
    | false => simpa [hg] using h
    | true =>
      simp only [hg, if_true] at h ⊢
      have hit : iter (E.withF G) s = iter (E.withF F) s := by
        apply iter_consulted
        intro s1 hk
        obtain ⟨p1, p2, p3, p4⟩ := record_at (E := E.withF F) hi hk hg hh
        exact ha n _ _ _ _ p1 p2 p3 p4
      rw [hit]
      cases ht : iter (E.withF F) s with
      | cont s' =>
        rw [ht] at h
        exact ih s' (n + 1) r (recInv_cont hi ht) h ha
      | brk s' c => rw [ht] at h; exact h
      | err s' x => rw [ht] at h; exact h

theorem loop_consulted_until {E : Env α} {F G : Callables α} :
    ∀ (f g : ℕ) (s : LoopSt α) (n : ℕ) (r r2 : RunRes α), RecInv s n →
    loop (E.withF F) f s = some r → loop (E.withF G) g s = some r2 → r2 = r ∨
    ∃ (k : ℕ) (h : Hist α), ¬ r.st.hist.AgreeAt F G E.cfg.elementsType k ∧
      Aligned h k ∧ ExtendsS h r.st.hist ∧ ExtendsS h r2.st.hist := by
  intro f
  induction f with
  | zero => intro g s n r r2 _ h; simp [loop] at h
  | succ f ih =>
    intro g s n r r2 hi h h2
    cases g with
    | zero => simp [loop] at h2
    | succ g =>
      have hh := h
      have hh2 := h2
      have g2 : guardB (E.withF G).prob s = guardB (E.withF F).prob s := rfl
      rw [loop_succ] at h
      rw [loop_succ, g2] at h2
      cases hg : guardB (E.withF F).prob s with
      | false => simp [hg] at h h2; subst h; subst h2; exact Or.inl rfl
      | true =>
        simp only [hg, if_true] at h h2
        by_cases hn : r.st.hist.AgreeAt F G E.cfg.elementsType n
        · have hit : iter (E.withF G) s = iter (E.withF F) s := by
            apply iter_consulted
            intro s1 hk
            obtain ⟨p1, p2, p3, p4⟩ := record_at (E := E.withF F) hi hk hg hh
            exact hn _ _ _ _ p1 p2 p3 p4
          rw [hit] at h2
          cases ht : iter (E.withF F) s with
          | cont s' =>
            rw [ht] at h h2
            exact ih g s' (n + 1) r r2 (recInv_cont hi ht) h h2
          | brk s' c => rw [ht] at h h2; simp at h h2; subst h; subst h2; exact Or.inl rfl
          | err s' x => rw [ht] at h h2; simp at h h2; subst h; subst h2; exact Or.inl rfl
        · exact Or.inr ⟨n, s.hist, hn, hi.aligned, loop_extends _ _ _ _ hh, loop_extends _ _ _ _ hh2⟩

theorem recInv_init (P : Problem α) : RecInv (initLoop P) 0 :=
  ⟨⟨rfl, rfl, rfl, rfl, rfl, rfl, rfl, rfl, rfl⟩, ⟨[], rfl⟩, ⟨[], rfl⟩, ⟨[], rfl⟩, ⟨[], rfl⟩⟩

/-- **C137.** Other perturbations and thresholds with the same values at the recorded times, states, masses and
battery levels of a run give the same run: it ends after the same number of loop passes, with the same exception,
exit code, flag and histories. -/
theorem C137_consulted {Q Q1 : QLaw α} {F G : Callables α} {f : ℕ} {e : Option PyErr} {H : Hist α}
    (hG : G.etaA.valid = true) (h1 : (Q.withPert F).solve F.etaA F.etaR f = some (Q1, e)) (hH : Q1.hist = some H)
    (hF : F.etaA.valid = true) (hr : Q.ready = true)
    (ha : ∀ k, H.AgreeAt F G Q.cfg.elementsType k) :
    ∃ Q2, (Q.withPert G).solve G.etaA G.etaR f = some (Q2, e) ∧ Q2.hist = some H ∧
      Q2.exitcode = Q1.exitcode ∧ Q2.converge = Q1.converge := by
  cases hP : Q.prob with
  | none =>
    have hP1 : (Q.withPert F).prob = none := hP
    have hr1 : (Q.withPert F).ready = true := hr
    simp only [QLaw.solve, hP1, hr1, Option.some.injEq, Prod.mk.injEq] at h1
    obtain ⟨rfl, rfl⟩ := h1
    have hP2 : (Q.withPert G).prob = none := hP
    have hr2 : (Q.withPert G).ready = true := hr
    exact ⟨Q.withPert G, by simp only [QLaw.solve, hP2, hr2], hH, rfl, rfl⟩
  | some P =>
    have hP1 : (Q.withPert F).prob = some P := hP
    have hP2 : (Q.withPert G).prob = some P := hP
    have hr1 : (Q.withPert F).ready = true := hr
    have hr2 : (Q.withPert G).ready = true := hr
    simp only [QLaw.solve, hP1, hr1, hF, if_true, Option.map_eq_some_iff] at h1
    obtain ⟨r, hl, h1⟩ := h1
    have q1 : Q1 = _ := (congrArg Prod.fst h1).symm
    have he : r.error? = e := congrArg Prod.snd h1
    subst q1 he
    have hh : r.st.hist = H := Option.some.inj hH
    subst hh
    have hl2 := loop_consulted (E := envOf Q P F.etaA F.etaR) (F := F) (G := G) f (initLoop P) 0 r (recInv_init P) hl ha
    refine ⟨(Q.withPert G).finish P r, ?_, rfl, rfl, rfl⟩
    simp only [QLaw.solve, hP2, hr2, hG, if_true, Option.map_eq_some_iff]
    exact ⟨r, hl2, rfl⟩

/-- **C137, in general.** Two runs that differ in the perturbations and thresholds are the same, or they record the
same up to a recorded state at which a perturbation or a threshold differs. -/
theorem C137_until {Q Q1 Q2 : QLaw α} {F G : Callables α} {f g : ℕ} {e1 e2 : Option PyErr} {H1 H2 : Hist α}
    {P : Problem α} (hP : Q.prob = some P) (hr : Q.ready = true) (hF : F.etaA.valid = true) (hG : G.etaA.valid = true)
    (h1 : (Q.withPert F).solve F.etaA F.etaR f = some (Q1, e1)) (hH1 : Q1.hist = some H1)
    (h2 : (Q.withPert G).solve G.etaA G.etaR g = some (Q2, e2)) (hH2 : Q2.hist = some H2) :
    (e2 = e1 ∧ Q2.exitcode = Q1.exitcode ∧ Q2.converge = Q1.converge ∧ H2 = H1) ∨
    ∃ n, ¬ H1.AgreeAt F G Q.cfg.elementsType n ∧ AllSameUpTo n H1 H2 := by
  have hP1 : (Q.withPert F).prob = some P := hP
  have hP2 : (Q.withPert G).prob = some P := hP
  have hr1 : (Q.withPert F).ready = true := hr
  have hr2 : (Q.withPert G).ready = true := hr
  simp only [QLaw.solve, hP1, hr1, hF, if_true, Option.map_eq_some_iff] at h1
  simp only [QLaw.solve, hP2, hr2, hG, if_true, Option.map_eq_some_iff] at h2
  obtain ⟨r1, hl1, h1⟩ := h1
  obtain ⟨r2, hl2, h2⟩ := h2
  have q1 : Q1 = _ := (congrArg Prod.fst h1).symm
  have q2 : Q2 = _ := (congrArg Prod.fst h2).symm
  have he1 : r1.error? = e1 := congrArg Prod.snd h1
  have he2 : r2.error? = e2 := congrArg Prod.snd h2
  subst q1 q2 he1 he2
  have hh1 : r1.st.hist = H1 := Option.some.inj hH1
  have hh2 : r2.st.hist = H2 := Option.some.inj hH2
  subst hh1 hh2
  rcases loop_consulted_until (E := envOf Q P F.etaA F.etaR) (F := F) (G := G) f g (initLoop P) 0 r1 r2 (recInv_init P)
    hl1 hl2 with hz | ⟨k, h, k1, k2, k3, k4⟩
  · left
    subst hz
    exact ⟨rfl, rfl, rfl, rfl⟩
  · refine Or.inr ⟨k, k1, ?_⟩
    have x3 := k3.toExtends
    have x4 := k4.toExtends
    exact ⟨take_of_prefix k2.times x4.times x3.times,
      take_of_prefix (by rw [List.length_dropLast, k2.states]; rfl) x4.states x3.states,
      take_of_prefix k2.masses x4.masses x3.masses, take_of_prefix k2.battery x4.battery x3.battery,
      take_of_prefix k2.controls x4.controls x3.controls, take_of_prefix k2.etas x4.etas x3.etas,
      take_of_prefix k2.etasBounds x4.etasBounds x3.etasBounds, take_of_prefix k2.qs x4.qs x3.qs,
      take_of_prefix k2.dqdts x4.dqdts x3.dqdts⟩

/-- a perturbation that acts at time 1/4 only, and none -/
def Toy.blip : Callables Toy.N :=
  ⟨some fun t _ _ => .ok (if PyOrd.eq t (.fin (1 / 4)) then fun _ => .fin 1 else zero3), Toy.z, Toy.z⟩

def Toy.quiet : Callables Toy.N := ⟨none, Toy.z, Toy.z⟩

/-- the two differ, but not at the times the toy transfer records (its rk4 steps have their midpoint stages at 1/4,
3/4, ...), and the transfers are the same -/
example :
    Toy.blip.accel (.fin (1 / 4)) Toy.prob.oe0 .keplerian ≠ Toy.quiet.accel (.fin (1 / 4)) Toy.prob.oe0 .keplerian ∧
    (Toy.clock { Toy.cfg with perturbations := Toy.blip.pert } Toy.prob 10).map (fun r => r.2.1) =
      some [.fin 0, .fin (1 / 2), .fin 1, .fin (3 / 2), .fin 2] ∧
    (∀ t ∈ ([.fin 0, .fin (1 / 2), .fin 1, .fin (3 / 2), .fin 2] : List Toy.N), ∀ ty x m b,
      Toy.blip.AgreeAt Toy.quiet ty t x m b) ∧
    Toy.seen { Toy.cfg with perturbations := Toy.blip.pert } Toy.prob Toy.z Toy.z 10 =
      Toy.seen { Toy.cfg with perturbations := none } Toy.prob Toy.z Toy.z 10 := by
  refine ⟨?_, ?_, ?_, ?_⟩
  · have h : PyOrd.eq (.fin (1 / 4) : Toy.N) (.fin (1 / 4)) = true := by decide +kernel
    intro hx
    simp only [Callables.accel, Toy.blip, Toy.quiet, h, if_true] at hx
    have := congrFun (Except.ok.inj hx) 0
    revert this
    decide +kernel
  · decide +kernel
  · intro t ht ty x m b
    have hall : ∀ t ∈ ([.fin 0, .fin (1 / 2), .fin 1, .fin (3 / 2), .fin 2] : List Toy.N),
      PyOrd.eq t (.fin (1 / 4)) = false := by decide +kernel
    refine ⟨?_, rfl, rfl⟩
    simp only [Callables.accel, Toy.blip, Toy.quiet, hall t ht, Bool.false_eq_true, if_false]
  · decide +kernel

end PyQ
