import Verif.Proofs.Object
import Verif.Props.Inputs

/-! # The object protocol (C28, C29) -/

set_option linter.unusedSectionVars false
set_option maxRecDepth 100000
set_option synthInstance.maxSize 1000

namespace PyQ

/-- a call on a `QLaw` object -/
inductive Call (α : Type)
  | setMu (mu : α)
  | setElementsType (s : String)
  | setIntegrator (s : String)
  | setProblem (A : ProblemArgs α)
  | solve (etaA etaR : EtaArg α) (fuel : ℕ)

section
variable {α : Type} [Add α] [Sub α] [Mul α] [Div α] [Neg α] [NatCast α] [Pow α ℕ]
  [PyTrans α] [PyOrd α] [PyNan α]

/-- a setter that raises leaves the object as it was -/
def ofExcept (Q : QLaw α) : Except PyErr (QLaw α) → QLaw α × Option PyErr
  | .ok Q' => (Q', none)
  | .error e => (Q, some e)

/-- the object after a call and the exception it raised, if any; `none` if a `solve` has not ended
within its fuel -/
def QLaw.call (Q : QLaw α) : Call α → Option (QLaw α × Option PyErr)
  | .setMu mu => some (ofExcept Q (Q.setMu mu))
  | .setElementsType s => some (ofExcept Q (Q.setElementsType s))
  | .setIntegrator s => some (ofExcept Q (Q.setIntegrator s))
  | .setProblem A => some (ofExcept Q (Q.setProblem A))
  | .solve a r f => Q.solve a r f

/-- a sequence of calls, exceptions being caught by the caller -/
def QLaw.calls (Q : QLaw α) : List (Call α) → Option (QLaw α × List (Option PyErr))
  | [] => some (Q, [])
  | c :: cs =>
    match Q.call c with
    | none => none
    | some (Q', e) => (Q'.calls cs).map fun p => (p.1, e :: p.2)

/-- a call of `set_problem` that returned, in a list of calls and their outcomes -/
def problemSet : List (Call α) → List (Option PyErr) → Bool
  | .setProblem _ :: cs, e :: es => e.isNone || problemSet cs es
  | _ :: cs, _ :: es => problemSet cs es
  | _, _ => false

/-- the list contains a `solve` -/
def hasSolve : List (Call α) → Bool
  | .solve _ _ _ :: _ => true
  | _ :: cs => hasSolve cs
  | [] => false

/-- settings that no call changes -/
def Config.fixed (C : Config α) : Config α :=
  { C with mu := C.rpmin, elementsType := .keplerian, integrator := .rk4 }

/-- what the protocol maintains -/
structure Protocol (Q : QLaw α) : Prop where
  mu : PyOrd.lt ((0 : ℕ) : α) Q.cfg.mu = true
  ready : Q.ready = Q.prob.isSome

theorem call_protocol {Q Q' : QLaw α} {c : Call α} {e : Option PyErr} (h : Q.call c = some (Q', e))
    (hQ : Protocol Q) : Protocol Q' ∧ Q'.cfg.fixed = Q.cfg.fixed ∧
      (Q.ready = true → Q'.ready = true) ∧
      (Q'.ready = true → Q.ready = true ∨ ∃ A, c = .setProblem A ∧ e = none) ∧
      ((∃ A, c = .setProblem A ∧ e = none) → Q'.ready = true) := by
  cases c with
  | setMu mu =>
    simp only [QLaw.call, QLaw.setMu] at h
    split at h
    · rename_i h1
      simp only [ofExcept] at h
      cases h
      exact ⟨⟨h1, hQ.ready⟩, rfl, id, Or.inl, by rintro ⟨A, h, _⟩; cases h⟩
    · simp only [ofExcept] at h
      cases h
      exact ⟨hQ, rfl, id, Or.inl, by rintro ⟨A, h, _⟩; cases h⟩
  | setElementsType s =>
    simp only [QLaw.call, QLaw.setElementsType, bind, Except.bind, pure, Except.pure] at h
    cases h1 : ElemType.ofString s with
    | error e' =>
      rw [h1] at h; simp only [ofExcept] at h; cases h
      exact ⟨hQ, rfl, id, Or.inl, by rintro ⟨A, h, _⟩; cases h⟩
    | ok et =>
      rw [h1] at h; simp only [ofExcept] at h; cases h
      exact ⟨⟨hQ.mu, hQ.ready⟩, rfl, id, Or.inl, by rintro ⟨A, h, _⟩; cases h⟩
  | setIntegrator s =>
    simp only [QLaw.call, QLaw.setIntegrator, bind, Except.bind, pure, Except.pure] at h
    cases h1 : Integrator.ofString s with
    | error e' =>
      rw [h1] at h; simp only [ofExcept] at h; cases h
      exact ⟨hQ, rfl, id, Or.inl, by rintro ⟨A, h, _⟩; cases h⟩
    | ok et =>
      rw [h1] at h; simp only [ofExcept] at h; cases h
      exact ⟨⟨hQ.mu, hQ.ready⟩, rfl, id, Or.inl, by rintro ⟨A, h, _⟩; cases h⟩
  | setProblem A =>
    simp only [QLaw.call, QLaw.setProblem, bind, Except.bind, pure, Except.pure] at h
    cases h1 : mkProblem A with
    | error e' =>
      rw [h1] at h; simp only [ofExcept] at h; cases h
      exact ⟨hQ, rfl, id, Or.inl, by rintro ⟨A, _, h⟩; cases h⟩
    | ok P =>
      rw [h1] at h; simp only [ofExcept] at h; cases h
      exact ⟨⟨hQ.mu, rfl⟩, rfl, fun _ => rfl, fun _ => Or.inr ⟨A, rfl, rfl⟩, fun _ => rfl⟩
  | solve a r f =>
    simp only [QLaw.call] at h
    rcases solve_cases h with ⟨h1, _⟩ | ⟨h1, _⟩ | ⟨P, n, tr, D, rr, hr⟩
    · subst h1; exact ⟨hQ, rfl, id, Or.inl, by rintro ⟨A, h, _⟩; cases h⟩
    · subst h1; exact ⟨hQ, rfl, id, Or.inl, by rintro ⟨A, h, _⟩; cases h⟩
    · rw [hr.obj]
      exact ⟨⟨hQ.mu, hr.ready⟩, rfl, id, Or.inl, by rintro ⟨A, h, _⟩; cases h⟩

theorem calls_protocol : ∀ {cs : List (Call α)} {Q Q' : QLaw α} {es : List (Option PyErr)},
    Q.calls cs = some (Q', es) → Protocol Q → Protocol Q' ∧ Q'.cfg.fixed = Q.cfg.fixed ∧
      (Q'.ready = true ↔ Q.ready = true ∨ problemSet cs es = true) := by
  intro cs
  induction cs with
  | nil =>
    intro Q Q' es h hQ
    simp only [QLaw.calls] at h
    cases h
    exact ⟨hQ, rfl, by simp [problemSet]⟩
  | cons c cs ih =>
    intro Q Q' es h hQ
    simp only [QLaw.calls] at h
    cases hc : Q.call c with
    | none => rw [hc] at h; cases h
    | some p =>
      obtain ⟨Q1, e⟩ := p
      rw [hc] at h
      simp only [Option.map_eq_some_iff] at h
      obtain ⟨⟨Q2, es'⟩, h1, h2⟩ := h
      cases h2
      obtain ⟨hP, hF, hr1, hr2, hr3⟩ := call_protocol hc hQ
      obtain ⟨hP', hF', hr⟩ := ih h1 hP
      refine ⟨hP', hF'.trans hF, ?_⟩
      rw [hr]
      constructor
      · rintro (h3 | h3)
        · rcases hr2 h3 with h4 | ⟨A, rfl, rfl⟩
          · exact Or.inl h4
          · right; simp [problemSet]
        · right
          cases c <;> simp [problemSet, h3]
      · rintro (h3 | h3)
        · exact Or.inl (hr1 h3)
        · cases c with
          | setProblem A =>
            simp only [problemSet, Bool.or_eq_true] at h3
            rcases h3 with h3 | h3
            · left
              refine hr3 ⟨A, rfl, ?_⟩
              cases e with
              | none => rfl
              | some _ => cases h3
            · exact Or.inr h3
          | _ => right; exact h3

/-- calls other than `solve` do not touch the results -/
theorem calls_no_solve : ∀ {cs : List (Call α)} {Q Q' : QLaw α} {es : List (Option PyErr)},
    Q.calls cs = some (Q', es) → hasSolve cs = false →
    Q'.exitcode = Q.exitcode ∧ Q'.converge = Q.converge ∧ Q'.hist = Q.hist := by
  intro cs
  induction cs with
  | nil =>
    intro Q Q' es h _
    simp only [QLaw.calls] at h
    cases h
    exact ⟨rfl, rfl, rfl⟩
  | cons c cs ih =>
    intro Q Q' es h hs
    simp only [QLaw.calls] at h
    cases hc : Q.call c with
    | none => rw [hc] at h; cases h
    | some p =>
      obtain ⟨Q1, e⟩ := p
      rw [hc] at h
      simp only [Option.map_eq_some_iff] at h
      obtain ⟨⟨Q2, es'⟩, h1, h2⟩ := h
      cases h2
      have hs' : hasSolve cs = false := by cases c <;> simp_all [hasSolve]
      obtain ⟨e1, e2, e3⟩ := ih h1 hs'
      rw [e1, e2, e3]
      cases c with
      | setMu mu =>
        simp only [QLaw.call, QLaw.setMu] at hc
        split at hc <;> simp only [ofExcept] at hc <;> cases hc <;> exact ⟨rfl, rfl, rfl⟩
      | setElementsType s =>
        simp only [QLaw.call, QLaw.setElementsType, bind, Except.bind, pure, Except.pure] at hc
        cases h1 : ElemType.ofString s <;> rw [h1] at hc <;> simp only [ofExcept] at hc <;> cases hc <;>
          exact ⟨rfl, rfl, rfl⟩
      | setIntegrator s =>
        simp only [QLaw.call, QLaw.setIntegrator, bind, Except.bind, pure, Except.pure] at hc
        cases h1 : Integrator.ofString s <;> rw [h1] at hc <;> simp only [ofExcept] at hc <;> cases hc <;>
          exact ⟨rfl, rfl, rfl⟩
      | setProblem A =>
        simp only [QLaw.call, QLaw.setProblem, bind, Except.bind, pure, Except.pure] at hc
        cases h1 : mkProblem A <;> rw [h1] at hc <;> simp only [ofExcept] at hc <;> cases hc <;>
          exact ⟨rfl, rfl, rfl⟩
      | solve a r f => simp [hasSolve] at hs

section ctor
variable [SymDiff α] [PyInf α]

/-- **C28.** After any sequence of calls on a constructed object: `mu` is positive; only `mu`,
`elements_type` and `integrator` can differ from the constructed settings; the object is ready
exactly when some `set_problem` call returned, and exactly then it holds a problem; and as long as
`solve` has not been called, `exitcode` is 0, `converge` is `False` and there are no histories. -/
theorem C28_protocol {A : CtorArgs α} {Q0 Q : QLaw α} {cs : List (Call α)}
    {es : List (Option PyErr)} (h0 : QLaw.new A = .ok Q0) (h : Q0.calls cs = some (Q, es)) :
    PyOrd.lt ((0 : ℕ) : α) Q.cfg.mu = true ∧ Q.cfg.fixed = Q0.cfg.fixed ∧
      Q.ready = problemSet cs es ∧ Q.prob.isSome = problemSet cs es ∧
      (hasSolve cs = false → Q.exitcode = 0 ∧ Q.converge = false ∧ Q.hist = none) := by
  obtain ⟨_, hmu, et, ig, tol, _, _, _, rfl⟩ := new_ok h0
  obtain ⟨hP, hF, hr⟩ := calls_protocol h ⟨hmu, rfl⟩
  have hr' : Q.ready = problemSet cs es := by
    rw [Bool.eq_iff_iff, hr]
    simp [builtObj]
  exact ⟨hP.mu, hF, hr', by rw [← hP.ready]; exact hr', fun hs => calls_no_solve h hs⟩

/-- **C28**, construction is validated: a non-positive or NaN `mu`, an unknown element type or
integrator, or a tolerance array of the wrong length make it raise. -/
theorem C28_constructor_validates {A : CtorArgs α} {Q0 : QLaw α} (h : QLaw.new A = .ok Q0) :
    PyOrd.lt ((0 : ℕ) : α) A.mu = true ∧
    (A.elementsType = "keplerian" ∨ A.elementsType = "mee_with_a") ∧
    (A.integrator = "rk4" ∨ A.integrator = "rkf45") ∧ (∀ l, A.tolOe = some l → l.length = 5) := by
  obtain ⟨_, hmu, et, ig, tol, h1, h2, h3, _⟩ := new_ok h
  refine ⟨hmu, ?_, ?_, ?_⟩
  · unfold ElemType.ofString at h1
    split at h1
    · left; assumption
    · right; assumption
    · cases h1
  · unfold Integrator.ofString at h2
    split at h2
    · left; assumption
    · right; assumption
    · cases h2
  · intro l hl
    rw [hl] at h3
    unfold ctorTol at h3
    split at h3
    · rename_i h4; cases h4
    · rename_i h4; injection h4 with h4; rw [h4]; rfl
    · cases h3

end ctor

/-- **C28**, readiness: without a successful `set_problem`, `solve` raises and changes nothing. -/
theorem C28_solve_needs_problem {Q : QLaw α} (hr : Q.ready = false) (etaA etaR : EtaArg α)
    (fuel : ℕ) : Q.solve etaA etaR fuel = some (Q, some .assertion) := by
  unfold QLaw.solve
  simp [hr]

theorem elemType_eq (s : String) : ElemType.ofString s = if s = "keplerian" then .ok .keplerian
    else if s = "mee_with_a" then .ok .meeWithA else .error .assertion := by
  unfold ElemType.ofString
  split
  · rfl
  · rfl
  · rename_i h1 h2
    rw [if_neg h1, if_neg h2]

theorem integrator_eq (s : String) : Integrator.ofString s = if s = "rk4" then .ok .rk4
    else if s = "rkf45" then .ok .rkf45 else .error .assertion := by
  unfold Integrator.ofString
  split
  · rfl
  · rfl
  · rename_i h1 h2
    rw [if_neg h1, if_neg h2]

theorem asOe0_cases (l : List α) : (asOe0 l = .error .assertion ∧ l.length ≠ 6) ∨
    ∃ v, asOe0 l = .ok v ∧ l = List.ofFn v := by
  match l with
  | [a, b, c, d, e, f] => right; exact ⟨_, rfl, by simp [List.ofFn_succ]⟩
  | [] | [_] | [_, _] | [_, _, _] | [_, _, _, _] | [_, _, _, _, _] => left; exact ⟨rfl, by simp⟩
  | _ :: _ :: _ :: _ :: _ :: _ :: _ :: _ => left; exact ⟨rfl, by simp⟩

theorem asWoe_cases (w : Option (List α)) :
    (asWoe w = .error .assertion ∧ ∃ l, w = some l ∧ l.length ≠ 5) ∨
    ∃ v, asWoe w = .ok v ∧ ((w = none ∧ v = fun _ => ((1 : ℕ) : α)) ∨ w = some (List.ofFn v)) := by
  match w with
  | none => right; exact ⟨_, rfl, Or.inl ⟨rfl, rfl⟩⟩
  | some [a, b, c, d, e] => right; exact ⟨_, rfl, Or.inr (by simp [List.ofFn_succ])⟩
  | some [] | some [_] | some [_, _] | some [_, _, _] | some [_, _, _, _] =>
    left; exact ⟨rfl, _, rfl, by simp⟩
  | some (_ :: _ :: _ :: _ :: _ :: _ :: _) => left; exact ⟨rfl, _, rfl, by simp⟩

/-- **C28**, setters: each call of a setter or of `set_problem` either returns, or raises
`AssertionError` and changes nothing; it returns exactly when its argument is legal. -/
theorem C28_setters (Q : QLaw α) :
    (∀ mu, Q.call (.setMu mu) = some (if PyOrd.lt ((0 : ℕ) : α) mu = true
      then ({ Q with cfg := { Q.cfg with mu := mu } }, none) else (Q, some .assertion))) ∧
    (∀ s, Q.call (.setElementsType s) = some (
      if s = "keplerian" then ({ Q with cfg := { Q.cfg with elementsType := .keplerian } }, none)
      else if s = "mee_with_a" then ({ Q with cfg := { Q.cfg with elementsType := .meeWithA } }, none)
      else (Q, some .assertion))) ∧
    (∀ s, Q.call (.setIntegrator s) = some (
      if s = "rk4" then ({ Q with cfg := { Q.cfg with integrator := .rk4 } }, none)
      else if s = "rkf45" then ({ Q with cfg := { Q.cfg with integrator := .rkf45 } }, none)
      else (Q, some .assertion))) := by
  refine ⟨?_, ?_, ?_⟩
  · intro mu
    simp only [QLaw.call, QLaw.setMu]
    split <;> rfl
  · intro s
    simp only [QLaw.call, QLaw.setElementsType, bind, Except.bind, pure, Except.pure, elemType_eq]
    by_cases h1 : s = "keplerian"
    · simp only [h1, if_true, ofExcept]
    · by_cases h2 : s = "mee_with_a"
      · simp only [if_neg h1, if_pos h2, ofExcept]
      · simp only [if_neg h1, if_neg h2, ofExcept]
  · intro s
    simp only [QLaw.call, QLaw.setIntegrator, bind, Except.bind, pure, Except.pure, integrator_eq]
    by_cases h1 : s = "rk4"
    · simp only [h1, if_true, ofExcept]
    · by_cases h2 : s = "rkf45"
      · simp only [if_neg h1, if_pos h2, ofExcept]
      · simp only [if_neg h1, if_neg h2, ofExcept]

/-- the problem stored for arguments `A` -/
structure Stores (A : ProblemArgs α) (P : Problem α) : Prop where
  oe0 : A.oe0 = List.ofFn P.oe0
  oeT : P.oeT = if A.oeT.length = 6 then A.oeT.take 5 else A.oeT
  woe : (A.woe = none ∧ P.woe = fun _ => ((1 : ℕ) : α)) ∨ A.woe = some (List.ofFn P.woe)
  massMin : P.massMin = A.massMin ∧ PyOrd.le (rat 1 100) A.massMin = true
  mass0 : P.mass0 = A.mass0
  tmax : P.tmax = A.tmax
  mdot : P.mdot = A.mdot
  tfMax : P.tfMax = A.tfMax
  tStep : P.tStep = A.tStep
  duty : P.dutyOn = A.dutyOn ∧ P.dutyOff = A.dutyOff
  battery : P.batteryInitial = A.batteryInitial ∧ P.capMin = A.capMin ∧ P.capMax = A.capMax ∧
    P.chargeRate = A.chargeRate ∧ P.dischargeRate = A.dischargeRate
  recharge : P.requireFullRecharge = A.requireFullRecharge

/-- **C28**, `set_problem`: it either raises `AssertionError` and changes nothing, or stores exactly
its arguments and makes the object ready, changing nothing else. It raises exactly when `oe0` has
not six components, `woe` is given without five, or not `mass_min >= 0.01`. -/
theorem C28_set_problem (Q : QLaw α) (A : ProblemArgs α) :
    (Q.call (.setProblem A) = some (Q, some .assertion) ∧
      (A.oe0.length ≠ 6 ∨ PyOrd.le (rat 1 100) A.massMin = false ∨
        ∃ w, A.woe = some w ∧ w.length ≠ 5)) ∨
    ∃ P, Q.call (.setProblem A) = some ({ Q with prob := some P, ready := true }, none) ∧
      Stores A P := by
  simp only [QLaw.call, QLaw.setProblem, mkProblem, bind, Except.bind, pure, Except.pure]
  rcases asOe0_cases A.oe0 with ⟨h1, h2⟩ | ⟨v, h1, h2⟩
  · left
    rw [h1]
    exact ⟨rfl, Or.inl h2⟩
  · rw [h1]
    by_cases hm : PyOrd.le (rat 1 100) A.massMin = true
    · rcases asWoe_cases A.woe with ⟨h3, h4⟩ | ⟨w, h3, h4⟩
      · left
        simp only [hm, if_true, h3]
        exact ⟨rfl, Or.inr (Or.inr h4)⟩
      · right
        simp only [hm, if_true, h3]
        refine ⟨_, rfl, ?_⟩
        constructor <;> first | exact h2 | exact h4 | exact ⟨rfl, hm⟩ | rfl | exact ⟨rfl, rfl⟩ | exact ⟨rfl, rfl, rfl, rfl, rfl⟩
    · left
      simp only [if_neg hm]
      exact ⟨rfl, Or.inr (Or.inl (by simpa using hm))⟩

end

/-- constructor arguments for examples -/
def Toy.ctor (et : String) : CtorArgs Toy.N where
  mu := .fin 1
  rpmin := .fin 1
  kPetro := .fin 1
  mPetro := .fin 3
  nPetro := .fin 4
  rPetro := .fin 2
  bPetro := .fin 1
  wp := .fin 1
  elementsType := et
  integrator := "rk4"
  anomalyGridSize := 100
  tolOe := none
  oeMin := none
  oeMax := none
  nanAnglesThreshold := 10
  useSundman := false
  perturbations := none
  relaxedTolFactor := .fin 10
  exitAtRelaxed := 3

/-- a sequence of six calls: a premature `solve`, an illegal integrator, a non-positive `mu`, a
problem with five initial elements, a legal problem, and a `solve` with an integer threshold -/
example : ((QLaw.new (Toy.ctor "mee_with_a")).toOption.bind fun Q => (Q.calls
    [.solve Toy.z Toy.z 5, .setIntegrator "euler", .setMu (.fin 0),
      .setProblem { Toy.args with oe0 := [.fin 1, .fin 1, .fin 1, .fin 1, .fin 1] },
      .setProblem Toy.args, .solve .other Toy.z 5]).map fun p =>
        (p.2, p.1.ready, p.1.exitcode, p.1.hist.isSome)) =
    some ([some .assertion, some .assertion, some .assertion, some .assertion, none,
      some .valueError], true, 0, false) := by decide +kernel

/-- the constructor rejects an unknown element type -/
example : (QLaw.new (Toy.ctor "delaunay")).toOption.isNone = true := by decide +kernel

/-! ## C29 -/

section agree
variable {α : Type} [Add α] [Sub α] [Mul α] [Div α] [Neg α] [NatCast α] [Pow α ℕ]
  [PyTrans α] [PyOrd α] [PyNan α] [SymDiff α] [PyInf α]

/-- every assignment to `elements_type` in the list is of the value `s` -/
def onlyType (s : String) : List (Call α) → Prop
  | .setElementsType s' :: cs => s' = s ∧ onlyType s cs
  | _ :: cs => onlyType s cs
  | [] => True

theorem call_dyn {Q Q' : QLaw α} {c : Call α} {e : Option PyErr} (h : Q.call c = some (Q', e)) :
    Q'.cfg.dyn = Q.cfg.dyn ∧
      (Q'.cfg.elementsType = Q.cfg.elementsType ∨ ∃ s, c = .setElementsType s ∧
        ElemType.ofString s = .ok Q'.cfg.elementsType) := by
  cases c with
  | setMu mu =>
    simp only [QLaw.call, QLaw.setMu] at h
    split at h <;> simp only [ofExcept] at h <;> cases h <;> exact ⟨rfl, Or.inl rfl⟩
  | setElementsType s =>
    simp only [QLaw.call, QLaw.setElementsType, bind, Except.bind, pure, Except.pure] at h
    cases h1 : ElemType.ofString s with
    | error e' => rw [h1] at h; simp only [ofExcept] at h; cases h; exact ⟨rfl, Or.inl rfl⟩
    | ok et =>
      rw [h1] at h; simp only [ofExcept] at h; cases h
      exact ⟨rfl, Or.inr ⟨s, rfl, h1⟩⟩
  | setIntegrator s =>
    simp only [QLaw.call, QLaw.setIntegrator, bind, Except.bind, pure, Except.pure] at h
    cases h1 : Integrator.ofString s <;> rw [h1] at h <;> simp only [ofExcept] at h <;> cases h <;>
      exact ⟨rfl, Or.inl rfl⟩
  | setProblem A =>
    simp only [QLaw.call, QLaw.setProblem, bind, Except.bind, pure, Except.pure] at h
    cases h1 : mkProblem A <;> rw [h1] at h <;> simp only [ofExcept] at h <;> cases h <;>
      exact ⟨rfl, Or.inl rfl⟩
  | solve a r f =>
    rcases solve_cases h with ⟨h1, _⟩ | ⟨h1, _⟩ | ⟨P, n, tr, D, rr, hr⟩
    · subst h1; exact ⟨rfl, Or.inl rfl⟩
    · subst h1; exact ⟨rfl, Or.inl rfl⟩
    · rw [hr.obj]; exact ⟨rfl, Or.inl rfl⟩

theorem calls_dyn : ∀ {cs : List (Call α)} {Q Q' : QLaw α} {es : List (Option PyErr)},
    Q.calls cs = some (Q', es) → Q'.cfg.dyn = Q.cfg.dyn ∧
    ∀ s, ElemType.ofString s = .ok Q.cfg.elementsType → onlyType s cs →
      Q'.cfg.elementsType = Q.cfg.elementsType := by
  intro cs
  induction cs with
  | nil =>
    intro Q Q' es h
    simp only [QLaw.calls] at h
    cases h
    exact ⟨rfl, fun _ _ _ => rfl⟩
  | cons c cs ih =>
    intro Q Q' es h
    simp only [QLaw.calls] at h
    cases hc : Q.call c with
    | none => rw [hc] at h; cases h
    | some p =>
      obtain ⟨Q1, e⟩ := p
      rw [hc] at h
      simp only [Option.map_eq_some_iff] at h
      obtain ⟨⟨Q2, es'⟩, h1, h2⟩ := h
      cases h2
      obtain ⟨hd, ht⟩ := call_dyn hc
      obtain ⟨hd', ht'⟩ := ih h1
      refine ⟨hd'.trans hd, ?_⟩
      intro s hs ho
      have hEt : Q1.cfg.elementsType = Q.cfg.elementsType := by
        rcases ht with ht | ⟨s', rfl, ht⟩
        · exact ht
        · have : s' = s := ho.1
          subst this
          rw [hs] at ht
          injection ht with ht
          exact ht.symm
      have ho' : onlyType s cs := by
        cases c with
        | setElementsType s' => exact ho.2
        | _ => exact ho
      rw [ht' s (by rw [hEt]; exact hs) ho', hEt]

/-- **C29 (partial).** As long as `elements_type` is only ever assigned its constructed value, the
equations of motion, control law, rate and convergence check in use are those of `elements_type`.
Missing: assignments of the other element type, see `C29_stale` and `C29_violated`. -/
theorem C29_agree_partial {A : CtorArgs α} {Q0 Q : QLaw α} {cs : List (Call α)}
    {es : List (Option PyErr)} (h0 : QLaw.new A = .ok Q0) (h : Q0.calls cs = some (Q, es))
    (ho : onlyType A.elementsType cs) : Q.cfg.dyn = dynOf Q.cfg.elementsType := by
  obtain ⟨_, _, et, ig, tol, h1, _, _, rfl⟩ := new_ok h0
  obtain ⟨hd, ht⟩ := calls_dyn h
  rw [hd, ht A.elementsType h1 ho]
  rfl

/-- **C29 is violated**, in general: whatever calls are made, the dynamics in use stay those of the
element type given at construction, also after `elements_type` has been assigned another value. -/
theorem C29_stale {A : CtorArgs α} {Q0 Q : QLaw α} {cs : List (Call α)}
    {es : List (Option PyErr)} {et : ElemType} (h0 : QLaw.new A = .ok Q0)
    (h : Q0.calls cs = some (Q, es)) (hA : ElemType.ofString A.elementsType = .ok et) :
    Q.cfg.dyn = dynOf et := by
  obtain ⟨_, _, et', ig, tol, h1, _, _, rfl⟩ := new_ok h0
  rw [hA] at h1
  injection h1 with h1
  subst h1
  obtain ⟨hd, _⟩ := calls_dyn h
  rw [hd]
  rfl

end agree

/-- **C29 is violated.** Construct with `mee_with_a`, then assign `keplerian`: the convergence check
in use rejects a RAAN that is a full turn away from the target, which the Keplerian check accepts. -/
theorem C29_violated [PyNan ℝ] [PyInf ℝ] {A : CtorArgs ℝ} {Q0 : QLaw ℝ} (h0 : QLaw.new A = .ok Q0)
    (hA : A.elementsType = "mee_with_a") :
    ∃ Q, Q0.calls [.setElementsType "keplerian"] = some (Q, [none]) ∧
      Q.cfg.elementsType = .keplerian ∧
      Q.cfg.dyn.checkConv ![1, 0, 0, 2 * Real.pi, 0, 5] ![1, 0, 0, 0, 0] (fun _ => 1)
        (fun _ => 1 / 10) = false ∧
      (dynOf (α := ℝ) .keplerian).checkConv ![1, 0, 0, 2 * Real.pi, 0, 5] ![1, 0, 0, 0, 0]
        (fun _ => 1) (fun _ => 1 / 10) = true := by
  refine ⟨_, rfl, rfl, ?_, ?_⟩
  · obtain ⟨_, _, et, ig, tol, h1, _, _, rfl⟩ := new_ok h0
    rw [hA] at h1
    injection h1 with h1
    subst h1
    show checkConvergenceMee _ _ _ _ = false
    rw [← Bool.not_eq_true, C34_mee_box_test]
    intro h
    have h3 := h 3
    have hp := Real.pi_gt_three
    simp [Fin.castSucc, Fin.castAdd, Fin.castLE, Matrix.cons_val] at h3
    rw [abs_of_pos (by linarith)] at h3
    linarith
  · show checkConvergenceKeplerian _ _ _ _ = true
    rw [C35_keplerian_check]
    refine ⟨?_, ?_, ?_, Or.inr ⟨1, ?_⟩, Or.inr ⟨0, ?_⟩⟩ <;> simp [Matrix.cons_val]

/-- constructed objects exist, for both element types -/
example : (QLaw.new (Toy.ctor "keplerian")).toOption.isSome = true ∧
    (QLaw.new (Toy.ctor "mee_with_a")).toOption.isSome = true := by
  constructor <;> decide +kernel

end PyQ
