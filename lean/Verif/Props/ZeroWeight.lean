import Verif.Props.Frozen

/-! # A target with zero weight that matters (C77)

`symbolic_qlaw_keplerian` keeps the weights as symbols (`_symbolic.py:31-32`), so the generated gradient multiplies
the weight with the derivative of `acos(cos(Omega - Omega_T))`, which is zero divided by zero at
`Omega = Omega_T`; zero times NaN is NaN. -/

set_option maxRecDepth 100000

namespace PyQ
open FrozenSample

namespace ZeroWeightSample

/-- raise an orbit with the node free (weight zero); the given target node is that of the orbit -/
def prob : Problem (Ext ℚ) :=
  { FrozenSample.prob with woe := ![.fin 1, .fin 1, .fin 1, .fin 0, .fin 1] }

/-- another target for the node -/
def oeT' : List (Ext ℚ) := [.fin 2, .fin (2 / 10), .fin (1 / 2), .fin (5 / 2), .fin (3 / 2)]

end ZeroWeightSample

/-- the throttle settings recorded by a run -/
def throttles (Q : QLaw (Ext ℚ)) (fuel : ℕ) : Option (List ℕ) :=
  (Q.solve Toy.z Toy.z fuel).bind fun p => p.1.hist.map fun H => H.controls.map fun c => c.2.2

/-- **C77** is violated: two problems that differ only in a target component of weight zero; with one the
spacecraft starts to thrust, with the other, where the node is exactly at the (irrelevant) target, it coasts
all the way. -/
theorem C77_violated : ∃ (C : Config (Ext ℚ)) (P : Problem (Ext ℚ)) (oeT' : List (Ext ℚ)),
    C.dyn = genDyn .keplerian ∧ oeT'.length = P.oeT.length ∧
    (∀ i : Fin 5, P.woe i ≠ .fin 0 → oeT'[(i : ℕ)]? = P.oeT[(i : ℕ)]?) ∧
    throttles (Toy.obj C P) 10 = some [0, 0, 0] ∧
    (throttles (Toy.obj C { P with oeT := oeT' }) 10).bind List.head? = some 1 := by
  refine ⟨FrozenSample.cfg, ZeroWeightSample.prob, ZeroWeightSample.oeT', rfl, rfl, ?_, ?_, ?_⟩
  · intro i
    fin_cases i
    · exact fun _ => rfl
    · exact fun _ => rfl
    · exact fun _ => rfl
    · exact fun h => absurd rfl h
    · exact fun _ => rfl
  · decide +kernel
  · decide +kernel

end PyQ
