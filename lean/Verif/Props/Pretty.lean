import Verif.Model.Pretty
import Verif.Props.Object
import Verif.Props.Export

/-! # The printed problem and settings (C101) -/

set_option linter.unusedSectionVars false
set_option maxRecDepth 100000
set_option synthInstance.maxSize 1000

namespace PyQ

section lawfree
variable {α : Type} [Add α] [Sub α] [Mul α] [Div α] [Neg α] [NatCast α] [Pow α ℕ]
  [PyTrans α] [PyOrd α] [PyNan α]

/-- the list contains no `set_problem` -/
def noProblem : List (Call α) → Bool
  | .setProblem _ :: _ => false
  | _ :: cs => noProblem cs
  | [] => true

theorem call_problem {Q Q' : QLaw α} {c : Call α} {e : Option PyErr} {P : Problem α}
    (h : Q.call c = some (Q', e)) (hP : Q.prob = some P) (hc : noProblem [c] = true) :
    (Q'.prob = some P ∧ Q'.hist = Q.hist) ∨
    (∃ x H, Q'.prob = some { P with oe0 := x } ∧ Q'.hist = some H ∧ H.states.head? = some x ∧
      (x = P.oe0 ∨ (Q.cfg.elementsType = .keplerian ∧
        elementsSafety P.oe0 Q.cfg.oeMin Q.cfg.oeMax = .ok x))) := by
  cases c with
  | setMu mu =>
    simp only [QLaw.call, QLaw.setMu] at h
    split at h <;> simp only [ofExcept] at h <;> cases h <;> exact Or.inl ⟨hP, rfl⟩
  | setElementsType s =>
    simp only [QLaw.call, QLaw.setElementsType, bind, Except.bind, pure, Except.pure] at h
    cases h1 : ElemType.ofString s <;> rw [h1] at h <;> simp only [ofExcept] at h <;> cases h <;>
      exact Or.inl ⟨hP, rfl⟩
  | setIntegrator s =>
    simp only [QLaw.call, QLaw.setIntegrator, bind, Except.bind, pure, Except.pure] at h
    cases h1 : Integrator.ofString s <;> rw [h1] at h <;> simp only [ofExcept] at h <;> cases h <;>
      exact Or.inl ⟨hP, rfl⟩
  | setProblem A => simp [noProblem] at hc
  | solve a r f =>
    cases hE : Q.cfg.elementsType with
    | meeWithA =>
      obtain ⟨_, h2, _, h3⟩ := C26_mee_partial h hE
      rcases h3 with h3 | ⟨P', H, h4, h5, h6⟩
      · subst h3; exact Or.inl ⟨hP, rfl⟩
      · rw [hP] at h4; injection h4 with h4; subst h4
        exact Or.inr ⟨_, H, h2.trans hP, h5, h6, Or.inl rfl⟩
    | keplerian =>
      obtain ⟨_, _, h3⟩ := C26_keplerian_partial h hE
      rcases h3 with h3 | ⟨P', H, x, h4, h5, h6, h7, h8⟩
      · subst h3; exact Or.inl ⟨hP, rfl⟩
      · rw [hP] at h4; injection h4 with h4; subst h4
        exact Or.inr ⟨x, H, h5, h6, h7, h8.imp id fun h => ⟨rfl, h⟩⟩

theorem calls_cons {Q Q' : QLaw α} {c : Call α} {cs : List (Call α)} {es : List (Option PyErr)}
    (h : Q.calls (c :: cs) = some (Q', es)) : ∃ Q1 e es', Q.call c = some (Q1, e) ∧
      Q1.calls cs = some (Q', es') ∧ es = e :: es' := by
  simp only [QLaw.calls] at h
  cases hc : Q.call c with
  | none => rw [hc] at h; cases h
  | some p =>
    obtain ⟨Q1, e⟩ := p
    rw [hc] at h
    simp only [Option.map_eq_some_iff] at h
    obtain ⟨⟨Q2, es'⟩, h1, h2⟩ := h
    cases h2
    exact ⟨Q1, e, es', rfl, h1, rfl⟩

/-- calls other than `set_problem` keep the target and the weights; the initial elements stay as they are or
become the first recorded state of the last run -/
theorem calls_problem : ∀ {cs : List (Call α)} {Q Q' : QLaw α} {es : List (Option PyErr)}
    {P : Problem α}, Q.calls cs = some (Q', es) → Q.prob = some P → noProblem cs = true →
    (Q'.prob = some P ∧ Q'.hist = Q.hist) ∨
    ∃ x H, Q'.prob = some { P with oe0 := x } ∧ Q'.hist = some H ∧ H.states.head? = some x := by
  intro cs
  induction cs with
  | nil =>
    intro Q Q' es P h hP _
    simp only [QLaw.calls] at h
    cases h
    exact Or.inl ⟨hP, rfl⟩
  | cons c cs ih =>
    intro Q Q' es P h hP hn
    obtain ⟨Q1, e, es', hc, h1, -⟩ := calls_cons h
    have hn1 : noProblem [c] = true := by cases c <;> simp_all [noProblem]
    have hn2 : noProblem cs = true := by cases c <;> simp_all [noProblem]
    rcases call_problem hc hP hn1 with ⟨h2, h3⟩ | ⟨x, H, h2, h3, h4, -⟩
    · rcases ih h1 h2 hn2 with h5 | h5
      · rw [h3] at h5; exact Or.inl h5
      · exact Or.inr h5
    · rcases ih h1 h2 hn2 with ⟨h5, h6⟩ | ⟨y, H', h5, h6, h7⟩
      · exact Or.inr ⟨x, H, h5, h6.trans h3, h4⟩
      · exact Or.inr ⟨y, H', h5, h6, h7⟩

/-- with equinoctial elements, at construction and in every assignment, the problem itself is kept -/
theorem calls_problem_mee : ∀ {cs : List (Call α)} {Q Q' : QLaw α} {es : List (Option PyErr)},
    Q.calls cs = some (Q', es) → noProblem cs = true → Q.cfg.elementsType = .meeWithA →
    onlyType "mee_with_a" cs → Q'.prob = Q.prob := by
  intro cs
  induction cs with
  | nil =>
    intro Q Q' es h _ _ _
    simp only [QLaw.calls] at h
    cases h
    rfl
  | cons c cs ih =>
    intro Q Q' es h hn hE ho
    obtain ⟨Q1, e, es', hc, h1, -⟩ := calls_cons h
    have hn1 : noProblem [c] = true := by cases c <;> simp_all [noProblem]
    have hn2 : noProblem cs = true := by cases c <;> simp_all [noProblem]
    have key : Q1.prob = Q.prob ∧ Q1.cfg.elementsType = .meeWithA ∧ onlyType "mee_with_a" cs := by
      cases c with
      | setMu mu =>
        simp only [QLaw.call, QLaw.setMu] at hc
        split at hc <;> simp only [ofExcept] at hc <;> cases hc <;> exact ⟨rfl, hE, ho⟩
      | setElementsType s =>
        obtain ⟨rfl, ho⟩ := ho
        simp only [QLaw.call, QLaw.setElementsType, bind, Except.bind, pure, Except.pure,
          ElemType.ofString, ofExcept] at hc
        cases hc
        exact ⟨rfl, rfl, ho⟩
      | setIntegrator s =>
        simp only [QLaw.call, QLaw.setIntegrator, bind, Except.bind, pure, Except.pure] at hc
        cases h1 : Integrator.ofString s <;> rw [h1] at hc <;> simp only [ofExcept] at hc <;> cases hc <;>
          exact ⟨rfl, hE, ho⟩
      | setProblem A => simp [noProblem] at hn1
      | solve a r f =>
        obtain ⟨h1, h2, _⟩ := C26_mee_partial hc hE
        exact ⟨h2, by rw [h1]; exact hE, ho⟩
    rw [ih h1 hn2 key.2.1 key.2.2, key.1]

/-- the lines printed for a problem with a target of five elements -/
def problemLines (names : Fin 5 → String) (x : Fin 6 → α) (T w : Fin 5 → α) : List (TransferLine α) :=
  List.ofFn fun i : Fin 5 =>
    { name := names i, initial := x i.castSucc, target := T i, weight := w i }

theorem pretty_eq {Q : QLaw α} {P : Problem α} {n0 n1 n2 n3 n4 n5 : String} {T : Fin 5 → α}
    (hP : Q.prob = some P) (hT : P.oeT = List.ofFn T) :
    Q.pretty [n0, n1, n2, n3, n4, n5] = .ok (problemLines ![n0, n1, n2, n3, n4] P.oe0 T P.woe) := by
  have hline : ∀ i : Fin 5, Q.prettyLine [n0, n1, n2, n3, n4, n5] i =
      .ok { name := ![n0, n1, n2, n3, n4] i, initial := P.oe0 i.castSucc, target := T i,
            weight := P.woe i } := by
    intro i
    have h1 : pyIndex [n0, n1, n2, n3, n4, n5] i.val = .ok (![n0, n1, n2, n3, n4] i) := by
      fin_cases i <;> rfl
    have h2 : pyIndex P.oeT i.val = .ok (T i) := by
      rw [hT, pyIndex, List.getElem?_ofFn, dif_pos i.isLt]
    simp only [QLaw.prettyLine, h1, h2, QLaw.problem, hP, bind, Except.bind, pure, Except.pure]
  rw [QLaw.pretty, mapM_except]
  simp only [List.map_cons, List.map_nil, hline, problemLines, List.ofFn_succ, List.ofFn_zero]
  rfl

section ctor
variable [SymDiff α] [PyInf α]

/-- the five names of the constructor's element type, for its two legal values -/
def namesOf (s : String) : Fin 5 → String :=
  if s = "keplerian" then !["a", "e", "i", "raan", "omega"] else !["a", "f", "g", "h", "k"]

/-- `self.element_names` of an object constructed with `A` -/
def constructedNames (A : CtorArgs α) : List String :=
  match ElemType.ofString A.elementsType with
  | .ok et => elementNames et
  | .error _ => []

theorem constructedNames_eq {A : CtorArgs α} {Q0 : QLaw α} (h0 : QLaw.new A = .ok Q0) :
    (A.elementsType = "keplerian" ∧ constructedNames A = ["a", "e", "i", "raan", "omega", "ta"]) ∨
    (A.elementsType = "mee_with_a" ∧ constructedNames A = ["a", "f", "g", "h", "k", "L"]) := by
  obtain ⟨_, h, _⟩ := C28_constructor_validates h0
  rcases h with h | h
  · left; refine ⟨h, ?_⟩; rw [constructedNames, h]; rfl
  · right; refine ⟨h, ?_⟩; rw [constructedNames, h]; rfl

/-- **C101, before `set_problem`.** As long as no call of `set_problem` has returned, `pretty` raises an
`AttributeError`. -/
theorem C101_no_problem {A : CtorArgs α} {Q0 Q : QLaw α} {cs : List (Call α)}
    {es : List (Option PyErr)} (h0 : QLaw.new A = .ok Q0) (h : Q0.calls cs = some (Q, es))
    (hs : problemSet cs es = false) : Q.pretty (constructedNames A) = .error .attributeError := by
  obtain ⟨_, _, _, hp, _⟩ := C28_protocol h0 h
  rw [hs] at hp
  have hp' : Q.prob = none := by
    cases h : Q.prob with
    | none => rfl
    | some P => rw [h] at hp; cases hp
  have hl : Q.prettyLine (constructedNames A) 0 = .error .attributeError := by
    have : ∃ s, pyIndex (constructedNames A) (0 : Fin 5).val = .ok s := by
      rcases constructedNames_eq h0 with ⟨_, h⟩ | ⟨_, h⟩ <;> rw [h] <;> exact ⟨_, rfl⟩
    obtain ⟨s, hs⟩ := this
    simp only [QLaw.prettyLine, hs, QLaw.problem, hp', bind, Except.bind]
  rw [QLaw.pretty, List.mapM_cons, hl]
  rfl

/-- **C101 (partial).** On an object constructed with `A`, after any calls, a call of `set_problem(B)` that
returns, and any further calls other than `set_problem`, `pretty` prints the names of the element type given
at construction, the first five target elements and the weights given in `B` (1 by default). The initial
elements printed are those given in `B` until a run has been made; afterwards they are the first five elements
of the first recorded state. Missing: that state may differ from the given elements, see `C101_violated`. -/
theorem C101_pretty_partial {A : CtorArgs α} {B : ProblemArgs α} {Q0 Q1 Q2 Q : QLaw α}
    {cs cs' : List (Call α)} {es es' : List (Option PyErr)} {T : Fin 5 → α} (h0 : QLaw.new A = .ok Q0)
    (_h1 : Q0.calls cs = some (Q1, es)) (h2 : Q1.call (.setProblem B) = some (Q2, none))
    (h3 : Q2.calls cs' = some (Q, es')) (hn : noProblem cs' = true) (hT : B.oeT.take 5 = List.ofFn T)
    (hT' : B.oeT.length ≤ 6) :
    ∃ x w, Q.pretty (constructedNames A) = .ok (problemLines (namesOf A.elementsType) x T w) ∧
      (B.woe = some (List.ofFn w) ∨ (B.woe = none ∧ ∀ i, w i = ((1 : ℕ) : α))) ∧
      (B.oe0 = List.ofFn x ∨ ∃ H, Q.hist = some H ∧ H.states.head? = some x) := by
  rcases C28_set_problem Q1 B with ⟨h4, _⟩ | ⟨P, h4, hS⟩
  · rw [h2] at h4; cases h4
  rw [h2] at h4
  injection h4 with h4
  injection h4 with h4 _
  have hP : Q2.prob = some P := by rw [h4]
  have hoeT : P.oeT = List.ofFn T := by
    rw [hS.oeT]
    split
    · exact hT
    · rename_i h6
      have hl : (List.ofFn T).length = 5 := List.length_ofFn
      rw [← hT, List.length_take] at hl
      rw [← hT, List.take_of_length_le (by omega)]
  have hw : B.woe = some (List.ofFn P.woe) ∨ (B.woe = none ∧ ∀ i, P.woe i = ((1 : ℕ) : α)) := by
    rcases hS.woe with ⟨h5, h6⟩ | h5
    · exact Or.inr ⟨h5, fun i => by rw [h6]⟩
    · exact Or.inl h5
  have hpr : ∀ P' : Problem α, Q.prob = some P' → P'.oeT = List.ofFn T →
      Q.pretty (constructedNames A) = .ok (problemLines (namesOf A.elementsType) P'.oe0 T P'.woe) := by
    intro P' h5 h6
    rcases constructedNames_eq h0 with ⟨h7, h8⟩ | ⟨h7, h8⟩
    · rw [h8, h7, pretty_eq h5 h6]; rfl
    · rw [h8, h7, pretty_eq h5 h6]; rfl
  rcases calls_problem h3 hP hn with ⟨h5, _⟩ | ⟨x, H, h5, h6, h7⟩
  · exact ⟨P.oe0, P.woe, hpr P h5 hoeT, hw, Or.inl hS.oe0⟩
  · exact ⟨x, P.woe, hpr _ h5 hoeT, hw, Or.inr ⟨H, h6, h7⟩⟩

/-- **C101, too few targets.** `set_problem` accepts a target with fewer than five elements, but `pretty` then raises
an `IndexError`. -/
theorem C101_short_target {A : CtorArgs α} {B : ProblemArgs α} {Q0 Q1 Q : QLaw α} (h0 : QLaw.new A = .ok Q0)
    (h : Q1.call (.setProblem B) = some (Q, none)) (hT : B.oeT.length < 5) :
    Q.pretty (constructedNames A) = .error .indexError := by
  rcases C28_set_problem Q1 B with ⟨h4, _⟩ | ⟨P, h4, hS⟩
  · rw [h] at h4; cases h4
  rw [h] at h4
  injection h4 with h4
  injection h4 with h4 _
  have hP : Q.prob = some P := by rw [h4]
  have hoeT : P.oeT = B.oeT := by
    rw [hS.oeT, if_neg (by omega)]
  have hname : ∀ i : Fin 5, ∃ s, pyIndex (constructedNames A) i.val = .ok s := by
    rcases constructedNames_eq h0 with ⟨_, h⟩ | ⟨_, h⟩ <;> rw [h] <;> intro i <;> fin_cases i <;> exact ⟨_, rfl⟩
  have bad : ∀ i : Fin 5, B.oeT.length ≤ i.val → Q.prettyLine (constructedNames A) i = .error .indexError := by
    intro i hi
    obtain ⟨s, hs⟩ := hname i
    have : pyIndex P.oeT i.val = .error .indexError := by
      unfold pyIndex
      rw [hoeT, List.getElem?_eq_none hi]
    simp only [QLaw.prettyLine, hs, QLaw.problem, hP, this, bind, Except.bind]
  have good : ∀ i : Fin 5, i.val < B.oeT.length → ∃ l, Q.prettyLine (constructedNames A) i = .ok l := by
    intro i hi
    obtain ⟨s, hs⟩ := hname i
    have : pyIndex P.oeT i.val = .ok B.oeT[i.val] := by
      unfold pyIndex
      rw [hoeT, List.getElem?_eq_getElem hi]
    simp only [QLaw.prettyLine, hs, QLaw.problem, hP, this, bind, Except.bind, pure, Except.pure]
    exact ⟨_, rfl⟩
  have key : ∀ l : List (Fin 5), (∃ i ∈ l, B.oeT.length ≤ i.val) →
      l.mapM (Q.prettyLine (constructedNames A)) = .error .indexError := by
    intro l
    induction l with
    | nil => rintro ⟨i, hi, -⟩; cases hi
    | cons j l ih =>
      intro hl
      rw [List.mapM_cons]
      by_cases hj : B.oeT.length ≤ j.val
      · rw [bad j hj]; rfl
      · obtain ⟨x, hx⟩ := good j (by omega)
        have : ∃ i ∈ l, B.oeT.length ≤ i.val := by
          obtain ⟨i, hi, hi'⟩ := hl
          rcases List.mem_cons.1 hi with rfl | hi
          · exact absurd hi' hj
          · exact ⟨i, hi, hi'⟩
        rw [hx, ih this]
        rfl
  exact key _ ⟨4, by decide, by show B.oeT.length ≤ 4; omega⟩

/-- **C101 (partial), modified equinoctial elements.** If the element type is never assigned another value
than `mee_with_a`, the initial elements printed are those given in `B`, also after runs. -/
theorem C101_mee_partial {A : CtorArgs α} {B : ProblemArgs α} {Q0 Q1 Q2 Q : QLaw α}
    {cs cs' : List (Call α)} {es es' : List (Option PyErr)} {T : Fin 5 → α} (h0 : QLaw.new A = .ok Q0)
    (h1 : Q0.calls cs = some (Q1, es)) (h2 : Q1.call (.setProblem B) = some (Q2, none))
    (h3 : Q2.calls cs' = some (Q, es')) (hn : noProblem cs' = true) (hT : B.oeT.take 5 = List.ofFn T)
    (hT' : B.oeT.length ≤ 6) (hA : A.elementsType = "mee_with_a") (ho : onlyType "mee_with_a" cs)
    (ho' : onlyType "mee_with_a" cs') :
    ∃ x w, B.oe0 = List.ofFn x ∧
      Q.pretty (constructedNames A) = .ok (problemLines !["a", "f", "g", "h", "k"] x T w) ∧
      (B.woe = some (List.ofFn w) ∨ (B.woe = none ∧ ∀ i, w i = ((1 : ℕ) : α))) := by
  rcases C28_set_problem Q1 B with ⟨h4, _⟩ | ⟨P, h4, hS⟩
  · rw [h2] at h4; cases h4
  rw [h2] at h4
  injection h4 with h4
  injection h4 with h4 _
  have hP : Q2.prob = some P := by rw [h4]
  have hE : Q2.cfg.elementsType = .meeWithA := by
    obtain ⟨_, _, et, ig, tol, h5, _, _, rfl⟩ := new_ok h0
    rw [hA] at h5
    injection h5 with h5
    subst h5
    have := (calls_dyn h1).2 "mee_with_a" rfl ho
    rw [h4]
    exact this
  have hQ : Q.prob = some P := (calls_problem_mee h3 hn hE ho').trans hP
  have hoeT : P.oeT = List.ofFn T := by
    rw [hS.oeT]
    split
    · exact hT
    · have hl : (List.ofFn T).length = 5 := List.length_ofFn
      rw [← hT, List.length_take] at hl
      rw [← hT, List.take_of_length_le (by omega)]
  refine ⟨P.oe0, P.woe, hS.oe0, ?_, ?_⟩
  · rcases constructedNames_eq h0 with ⟨h7, h8⟩ | ⟨h7, h8⟩
    · rw [h7] at hA; exact absurd hA (by decide)
    · rw [h8, pretty_eq hQ hoeT]
  · rcases hS.woe with ⟨h5, h6⟩ | h5
    · exact Or.inr ⟨h5, fun i => by rw [h6]⟩
    · exact Or.inl h5

/-- **C101, settings.** After any calls, `pretty_settings` prints the current element type and integrator,
the names of the element type given at construction, the tolerances (1e-3 by default), the tolerances
multiplied by `relaxed_tol_factor`, and `exit_at_relaxed`. -/
theorem C101_settings {A : CtorArgs α} {Q0 Q : QLaw α} {cs : List (Call α)} {es : List (Option PyErr)}
    (h0 : QLaw.new A = .ok Q0) (h : Q0.calls cs = some (Q, es)) :
    ∃ tol : Fin 5 → α, (A.tolOe = some (List.ofFn tol) ∨ (A.tolOe = none ∧ ∀ i, tol i = rat 1 (10 ^ 3))) ∧
      (Q.prettySettings (constructedNames A)).elementsType = Q.cfg.elementsType ∧
      (Q.prettySettings (constructedNames A)).integrator = Q.cfg.integrator ∧
      ((A.elementsType = "keplerian" ∧ (Q.prettySettings (constructedNames A)).names =
          ["a", "e", "i", "raan", "omega", "ta"]) ∨
        (A.elementsType = "mee_with_a" ∧ (Q.prettySettings (constructedNames A)).names =
          ["a", "f", "g", "h", "k", "L"])) ∧
      (Q.prettySettings (constructedNames A)).tol = tol ∧
      (∀ i, (Q.prettySettings (constructedNames A)).tolRelaxed i = A.relaxedTolFactor * tol i) ∧
      (Q.prettySettings (constructedNames A)).exitAtRelaxed = A.exitAtRelaxed := by
  obtain ⟨_, hf, _⟩ := C28_protocol h0 h
  have hnames := constructedNames_eq h0
  obtain ⟨_, _, et, ig, tol, h1, h2, h3, rfl⟩ := new_ok h0
  have ht : Q.cfg.tolOe = tol := congrArg Config.tolOe hf
  have hr : Q.cfg.tolOeRelaxed = vsmul A.relaxedTolFactor tol := congrArg Config.tolOeRelaxed hf
  have he : Q.cfg.exitAtRelaxed = A.exitAtRelaxed := congrArg Config.exitAtRelaxed hf
  refine ⟨tol, ?_, rfl, rfl, hnames, ht, ?_, he⟩
  · unfold ctorTol at h3
    split at h3
    · rename_i h4
      injection h3 with h3
      exact Or.inr ⟨h4, fun i => by rw [← h3]⟩
    · rename_i a b c d e h4
      injection h3 with h3
      left
      rw [h4, ← h3]
      rfl
    · cases h3
  · intro i
    show Q.cfg.tolOeRelaxed i = _
    rw [hr]
    rfl

end ctor
end lawfree

/-! ## Violation -/

/-- what `pretty` prints, as tuples -/
def printed (r : Except PyErr (List (TransferLine Toy.N))) : Option (List (String × Toy.N × Toy.N × Toy.N)) :=
  match r with
  | .ok l => some (l.map fun t => (t.name, t.initial, t.target, t.weight))
  | .error _ => none

/-- **C101 is violated.** Keplerian elements and an initial semi-major axis of 1 below the bound 2: before
the run `pretty` prints 1 as initial semi-major axis, after it 2. -/
theorem C101_violated :
    printed ((Toy.obj Toy.kepCfg Toy.prob).pretty (elementNames .keplerian)) =
      some [("a", .fin 1, .fin 3, .fin 1), ("e", .fin 0, .fin 0, .fin 1), ("i", .fin 0, .fin 0, .fin 1),
        ("raan", .fin 0, .fin 0, .fin 1), ("omega", .fin 0, .fin 0, .fin 1)] ∧
    (((Toy.obj Toy.kepCfg Toy.prob).solve Toy.z Toy.z 10).bind fun p =>
      printed (p.1.pretty (elementNames .keplerian))) =
      some [("a", .fin 2, .fin 3, .fin 1), ("e", .fin 0, .fin 0, .fin 1), ("i", .fin 0, .fin 0, .fin 1),
        ("raan", .fin 0, .fin 0, .fin 1), ("omega", .fin 0, .fin 0, .fin 1)] := by
  constructor <;> decide +kernel

/-- the printed problem of a constructed object, before and after `set_problem` -/
example : ((QLaw.new (Toy.ctor "mee_with_a")).toOption.bind fun Q =>
    (Q.calls [.setProblem Toy.args, .setIntegrator "rkf45", .setElementsType "keplerian"]).bind fun p =>
      some (printed (Q.pretty (constructedNames (Toy.ctor "mee_with_a"))),
        printed (p.1.pretty (constructedNames (Toy.ctor "mee_with_a"))))) =
    some (none, some [("a", .fin 1, .fin 3, .fin 1), ("f", .fin 0, .fin 0, .fin 1),
      ("g", .fin 0, .fin 0, .fin 1), ("h", .fin 0, .fin 0, .fin 1), ("k", .fin 0, .fin 0, .fin 1)]) := by decide +kernel

end PyQ
