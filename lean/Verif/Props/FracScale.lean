import Verif.Props.NanState

/-! # With a fractional `n_petro` a Keplerian run does not thrust below the target semi-major axis (C141)

`soe[0] = (1 + ((a-aT)/(m_petro*aT))**n_petro)**(1/r_petro)` (`_symbolic.py:84`) raises a number to the power
`n_petro`. Below the target the number is negative, and numpy's power of a negative number with an exponent that
is not an integer is NaN. `symbolic_qlaw_mee_with_a` takes the absolute value first (`_symbolic.py:257`). -/

set_option linter.unusedSectionVars false
set_option maxRecDepth 100000

namespace PyQ
open PyTrans

variable {α : Type} [Add α] [Sub α] [Mul α] [Div α] [Neg α] [NatCast α] [Pow α ℕ]
  [PyTrans α] [PyOrd α] [PyNan α] [NanLaws α] [PyLog α]

/-- what `**` does with the exponents `n_petro` and `1/r_petro`: a negative number to the power `n_petro` is NaN
(numpy, exponent not an integer), and NaN to the power `1/r_petro` is NaN (numpy, exponent not zero) -/
structure FracPowers (C : Config α) : Prop where
  neg : ∀ x : α, PyOrd.lt x ((0 : ℕ) : α) = true → IsNan (rpow x C.nPetro)
  nan : ∀ x : α, IsNan x → IsNan (rpow x (((1 : ℕ) : α) / C.rPetro))

/-- the semi-major axis `a` is below the target `aT`, as the law measures it -/
def belowTarget (C : Config α) (aT a : α) : Bool := PyOrd.lt ((a - aT) / (C.mPetro * aT)) ((0 : ℕ) : α)

/-- the derivative of `q` by the semi-major axis is NaN where the scaling is -/
theorem grad_scale_isnan {A : LyapArgs α} (h : IsNan (kepSoe A)) : IsNan (kepGrad A 0) := by
  have e : (kepSoe (A.jet 0)).val = kepSoe A := rfl
  have hS : IsNan ((A.jet 0).woe 0 * kepSoe (A.jet 0) * (kepDoe (A.jet 0) 0 / kepOedot (A.jet 0) 0) ^ 2 +
      (A.jet 0).woe 1 * ((1 : ℕ) : SymJet α) * (kepDoe (A.jet 0) 1 / kepOedot (A.jet 0) 1) ^ 2 +
      (A.jet 0).woe 2 * ((1 : ℕ) : SymJet α) * (kepDoe (A.jet 0) 2 / kepOedot (A.jet 0) 2) ^ 2 +
      (A.jet 0).woe 3 * ((1 : ℕ) : SymJet α) * (kepDoe (A.jet 0) 3 / kepOedot (A.jet 0) 3) ^ 2 +
      (A.jet 0).woe 4 * ((1 : ℕ) : SymJet α) * (kepDoe (A.jet 0) 4 / kepOedot (A.jet 0) 4) ^ 2).val := by
    rw [← e] at h
    exact (((((h.mulr _).mull _).addl _).addl _).addl _).addl _
  have prod : ∀ u v : SymJet α, (∃ d, u.der = some d) → IsNan v.val → IsNan (u * v).derivative := by
    rintro ⟨u, du⟩ ⟨v, dv⟩ ⟨d, rfl⟩ hv
    change IsNan v at hv
    cases dv with
    | none => exact hv.mulr _
    | some d' => exact (hv.mulr _).addl _
  exact prod (((1 : ℕ) : SymJet α) + (A.jet 0).wp * kepPenalty (A.jet 0)) _ ⟨_, rfl⟩ hS

/-- and so is the control -/
theorem control_scale_isnan {A : LyapArgs α} (h : IsNan (kepSoe A)) :
    ∃ c, IsNan (((genDyn .keplerian).lyapFun A).uRaw c) :=
  ⟨0, ((((grad_scale_isnan h).mulr _).addl _).addl _ : IsNan (kepPsi A 0 0 * kepGrad A 0 + _ + _))⟩

/-- the scaling of the semi-major-axis term, `_symbolic.py:84` -/
def scaleAt (C : Config α) (aT a : α) : α :=
  rpow (((1 : ℕ) : α) + rpow ((a - aT) / (C.mPetro * aT)) C.nPetro) (((1 : ℕ) : α) / C.rPetro)

/-- below the target the scaling is NaN -/
theorem scale_isnan {C : Config α} (hF : FracPowers C) {aT a : α} (h : belowTarget C aT a = true) :
    IsNan (scaleAt C aT a) :=
  hF.nan _ ((hF.neg _ h).addr _)

/-- a recorded step from a semi-major axis at which the scaling is NaN -/
theorem step_scale {E : Env α} {s : LoopSt α} {D : StepData α} (h : RecStep E s D)
    (hd : E.cfg.dyn = genDyn .keplerian) {aT : α} (hT : E.prob.oeT.head? = some aT)
    (hb : IsNan (scaleAt E.cfg aT (D.s1.oe 0))) :
    D.c.throttle = 0 ∧ ∃ o, lawAt E D.s1 D.d D.c.oeT = .ok o ∧ IsNan o.alpha := by
  obtain ⟨o, hv, hlaw, -, -, -, hk⟩ := control_ctl h.ctl
  have hT0 : D.c.oeT 0 = aT := by
    generalize E.prob.oeT = l at hv hT
    unfold asVec5 at hv
    split at hv
    · injection hv with hv
      rw [← hv]
      exact Option.some.inj hT
    · cases hv
  have hl := hlaw
  unfold lawAt at hl
  rw [hd] at hl
  have hb' : IsNan (kepSoe (lyapArgs E.cfg E.prob D.c.oeT (accelOf E D.s1 D.d) D.s1.oe)) := by
    rw [← hT0] at hb; exact hb
  obtain ⟨v, a, b, hu, ha⟩ := angles_isnan (control_scale_isnan hb')
  unfold lyapunovControlAngles at hl
  simp only [hu, bind, Except.bind, pure, Except.pure] at hl
  injection hl with hl
  have hoa : IsNan o.alpha := by rw [← hl]; exact ha
  have hn : (PyNan.isnan o.alpha || PyNan.isnan o.beta) = true := by rw [hoa]; rfl
  refine ⟨?_, o, hlaw, hoa⟩
  cases hk with
  | off => assumption
  | nan => assumption
  | free _ hn' => rw [hn] at hn'; cases hn'
  | gated _ _ _ hn' => rw [hn] at hn'; cases hn'

section run
variable {Q Q' : QLaw α} {etaA etaR : EtaArg α} {fuel : ℕ} {P : Problem α} {H : Hist α}

/-- **C141, scaling.** No step that starts from a semi-major axis at which the scaling is NaN thrusts; the mass
stays. (With an odd `n_petro` this concerns `m_petro < 1`, see C142.) -/
theorem C141_scale (hs : Q.solve etaA etaR fuel = some (Q', none)) (hP : Q.prob = some P) (hH : Q'.hist = some H)
    (hd : Q.cfg.dyn = genDyn .keplerian) {aT : α} (hT : P.oeT.head? = some aT)
    {k : ℕ} {y : Fin 6 → α} {c : α × α × ℕ} (hy : H.states[k]? = some y) (hc : H.controls[k]? = some c)
    (hb : IsNan (scaleAt Q.cfg aT (y 0))) :
    c.2.2 = 0 ∧ H.masses[k + 1]? = H.masses[k]? := by
  obtain ⟨n, tr, D, r, hr, hrH, v⟩ := solve_view hs hP hH
  obtain ⟨hkn, rfl⟩ := v.controls_lt hc
  rw [v.states_get hkn] at hy
  injection hy with hy
  rw [← hy] at hb
  have hst := v.trace.step k hkn
  have h3 := (step_scale hst hd hT hb).1
  refine ⟨h3, ?_⟩
  rw [v.masses_get hkn, v.masses_get hkn.le, v.trace.succ_eq hkn]
  show some (if (D k).c.throttle = 1 then _ else (D k).s1.mass) = _
  rw [h3, clamp_mass hst.clamp]
  rfl

/-- **C141.** In a completed Keplerian run with a fractional `n_petro`, no step that starts below the target
semi-major axis thrusts, whatever the weights; its mass is that of the next record. -/
theorem C141_no_thrust (hs : Q.solve etaA etaR fuel = some (Q', none)) (hP : Q.prob = some P) (hH : Q'.hist = some H)
    (hd : Q.cfg.dyn = genDyn .keplerian) (hF : FracPowers Q.cfg) {aT : α} (hT : P.oeT.head? = some aT)
    {k : ℕ} {y : Fin 6 → α} {c : α × α × ℕ} (hy : H.states[k]? = some y) (hc : H.controls[k]? = some c)
    (hb : belowTarget Q.cfg aT (y 0) = true) :
    c.2.2 = 0 ∧ H.masses[k + 1]? = H.masses[k]? :=
  C141_scale hs hP hH hd hT hy hc (scale_isnan hF hb)

/-- **C141, end.** At most `nan_angles_threshold` steps with the thruster available start below the target: one
more ends the run with exit code -3. -/
theorem C141_ends (hs : Q.solve etaA etaR fuel = some (Q', none)) (hP : Q.prob = some P) (hH : Q'.hist = some H)
    (hd : Q.cfg.dyn = genDyn .keplerian) (hF : FracPowers Q.cfg) {aT : α} (hT : P.oeT.head? = some aT) :
    ((List.range H.controls.length).countP fun m => (H.states[m]?.any fun y => belowTarget Q.cfg aT (y 0)) &&
      dutyOnAt (envOf Q P etaA etaR) ((envOf Q P etaA etaR).after m) : ℤ) ≤ max Q.cfg.nanAnglesThreshold 0 := by
  obtain ⟨n, tr, D, r, hr, hrH, v⟩ := solve_view hs hP hH
  classical
  have hcount := nNan_count (fun k => decide ((D k).d.duty = true ∧ ∃ o, lawAt (envOf Q P etaA etaR) (D k).s1 (D k).d (D k).c.oeT = .ok o ∧
      (PyNan.isnan o.alpha || PyNan.isnan o.beta) = true)) v.trace (fun k _ => by simp)
  refine le_trans ?_ (nNan_bound v.trace)
  rw [hcount, v.controls_length]
  refine Int.ofNat_le.2 (List.countP_mono_left ?_)
  intro m hm hmk
  have hmn := List.mem_range.1 hm
  rw [Bool.and_eq_true, ← v.trace.after m hmn.le, dutyOnAt_rec (v.trace.step m hmn), v.states_get hmn] at hmk
  rw [decide_eq_true_eq]
  obtain ⟨-, o, h1, h2⟩ := step_scale (v.trace.step m hmn) hd hT (scale_isnan hF hmk.1)
  exact ⟨hmk.2, o, h1, by rw [h2]; rfl⟩

end run

/-! ## Satisfiability -/

namespace FracExample
open RatNum NanExample

/-- raising the semi-major axis from 1 to 3 with `n_petro = 7/2` -/
def cfgFrac : Config Toy.N := { cfgNanK with nPetro := .fin (7 / 2) }

def probFrac (aT : Toy.N) : Problem Toy.N :=
  { Toy.prob with
    tfMax := .fin 1, tStep := .fin (1 / 4)
    oe0 := ![.fin 1, .fin (1 / 2), .fin 2, .fin 3, .fin 4, .fin 0], oeT := [aT, .fin (1 / 4), .fin 1, .fin 2, .fin 3] }

/-- error, exit code, throttles -/
def shown (C : Config Toy.N) (P : Problem Toy.N) : Option (Option PyErr × ℤ × List ℕ) :=
  ((Toy.obj C P).solve Toy.z Toy.z 10).map fun p =>
    (p.2, p.1.exitcode, (p.1.hist.map fun h => h.controls.map fun c => c.2.2).getD [])

theorem powers : FracPowers cfgFrac where
  neg x h := by
    cases x with
    | fin x =>
      have h : x < 0 := by
        have := h
        simpa [PyOrd.lt, Ext.lt] using this
      show PyNan.isnan (rpowE (.fin x) (.fin (7 / 2))) = true
      have h2 : ¬ ((7 / 2 : ℚ).den = 1 ∧ 0 ≤ (7 / 2 : ℚ).num) := by decide +kernel
      simp only [rpowE, if_neg h2, if_pos h]
      rfl
    | _ => rfl
  nan x h := by cases x <;> first | cases h; done | rfl

example : cfgFrac.dyn = genDyn .keplerian ∧ belowTarget cfgFrac (.fin 3) (.fin 1) = true ∧
    shown cfgFrac (probFrac (.fin 3)) = some (none, -3, [0, 0, 0]) := by
  refine ⟨rfl, ?_, ?_⟩ <;> decide +kernel

/-- with `n_petro = 4`, or with the target below the initial orbit, the same run thrusts -/
example : shown cfgNanK { probFrac (.fin 3) with tfMax := .fin (1 / 4) } = some (none, -2, [1]) ∧
    shown cfgFrac { probFrac (.fin (3 / 4)) with tfMax := .fin (1 / 4) } = some (none, -2, [1]) := by
  constructor <;> decide +kernel

end FracExample
end PyQ
