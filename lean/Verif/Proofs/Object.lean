import Verif.Spec

/-! # Successful construction, in one equation -/

set_option linter.unusedSectionVars false

namespace PyQ
variable {α : Type} [Add α] [Sub α] [Mul α] [Div α] [Neg α] [NatCast α] [Pow α ℕ]
  [PyTrans α] [PyOrd α] [PyNan α] [SymDiff α] [PyInf α]

/-- the object built from arguments whose strings and tolerances have been read -/
def builtObj (A : CtorArgs α) (et : ElemType) (ig : Integrator) (tol : Fin 5 → α) : QLaw α :=
  { cfg := {
      mu := A.mu, rpmin := A.rpmin, kPetro := A.kPetro, mPetro := A.mPetro, nPetro := A.nPetro,
      rPetro := A.rPetro, bPetro := A.bPetro, wp := A.wp, elementsType := et, integrator := ig,
      anomalyGridSize := A.anomalyGridSize, tolOe := tol,
      tolOeRelaxed := vsmul A.relaxedTolFactor tol, exitAtRelaxed := A.exitAtRelaxed,
      oeMin := A.oeMin.getD (defaultOeMin et), oeMax := A.oeMax.getD (defaultOeMax et),
      nanAnglesThreshold := A.nanAnglesThreshold,
      stepMin := rat 1 (10 ^ 4), stepMax := ((2 : ℕ) : α), odeTol := rat 1 (10 ^ 5),
      useSundman := A.useSundman, perturbations := A.perturbations, dyn := dynOf et },
    prob := none, ready := false, converge := false, exitcode := 0, hist := none }

theorem new_ok {A : CtorArgs α} {Q : QLaw α} (h : QLaw.new A = .ok Q) :
    PyOrd.le ((1 : ℕ) : α) A.relaxedTolFactor = true ∧ PyOrd.lt ((0 : ℕ) : α) A.mu = true ∧
    ∃ et ig tol, ElemType.ofString A.elementsType = .ok et ∧
      Integrator.ofString A.integrator = .ok ig ∧ ctorTol A.tolOe = .ok tol ∧
      Q = builtObj A et ig tol := by
  unfold QLaw.new at h
  simp only [bind, Except.bind, pure, Except.pure] at h
  by_cases h1 : PyOrd.le ((1 : ℕ) : α) A.relaxedTolFactor = true
  · by_cases h2 : PyOrd.lt ((0 : ℕ) : α) A.mu = true
    · simp only [h1, h2, if_true] at h
      refine ⟨h1, h2, ?_⟩
      cases h3 : ElemType.ofString A.elementsType with
      | error e => simp [h3] at h
      | ok et =>
        cases h4 : Integrator.ofString A.integrator with
        | error e => simp [h3, h4] at h
        | ok ig =>
          cases h5 : ctorTol A.tolOe with
          | error e => simp [h3, h4, h5] at h
          | ok tol =>
            simp only [h3, h4, h5] at h
            refine ⟨et, ig, tol, rfl, rfl, rfl, ?_⟩
            injection h with h
            exact h.symm
    · simp [h1, h2] at h
  · simp [h1] at h

end PyQ
