import Verif.Model.Qlaw

/-! # Default arguments of the public methods -/

set_option linter.unusedSectionVars false

namespace PyQ

variable {α : Type} [Add α] [Sub α] [Mul α] [Div α] [Neg α] [NatCast α] [Pow α ℕ]
  [PyTrans α] [PyOrd α]

local notation "ℓ" n:max => (Nat.cast (n : ℕ) : α)

/-- `QLaw()`: the default arguments of the constructor, `_qlaw.py:98-121` (`verbosity` and `print_frequency` only
control printing) -/
def CtorArgs.default : CtorArgs α where
  mu := ℓ 1
  rpmin := rat 1 10
  kPetro := ℓ 1
  mPetro := ℓ 3
  nPetro := ℓ 4
  rPetro := ℓ 2
  bPetro := rat 1 100
  wp := ℓ 1
  elementsType := "mee_with_a"
  integrator := "rk4"
  anomalyGridSize := 5
  tolOe := none
  oeMin := none
  oeMax := none
  nanAnglesThreshold := 10
  useSundman := false
  perturbations := none
  relaxedTolFactor := ℓ 10
  exitAtRelaxed := 100

/-- `set_problem(oe0, oeT, mass0, tmax, mdot)`: the default arguments, `_qlaw.py:246-262` -/
def ProblemArgs.required (oe0 oeT : List α) (mass0 tmax mdot : α) : ProblemArgs α where
  oe0 := oe0
  oeT := oeT
  mass0 := mass0
  tmax := tmax
  mdot := mdot
  tfMax := ℓ 100000
  tStep := rat 1 10
  massMin := rat 1 10
  woe := none
  dutyOn := ℓ (10 ^ 16)
  dutyOff := ℓ 0
  batteryInitial := ℓ 1
  capMin := rat 2 10
  capMax := ℓ 1
  chargeRate := ℓ 0
  dischargeRate := ℓ 0
  requireFullRecharge := false

/-- `solve()`: the default thresholds, `_qlaw.py:317` -/
def EtaArg.default : EtaArg α := .flt (ℓ 0)

end PyQ
