import Verif.Props.Duty
import Verif.RealInst

/-! # Thrust decision, thresholds, thrust vector and effectivities (C20, C22–C25) -/

set_option linter.unusedSectionVars false
set_option maxRecDepth 100000
set_option synthInstance.maxSize 1000

namespace PyQ

section lawfree
variable {α : Type} [Add α] [Sub α] [Mul α] [Div α] [Neg α] [NatCast α] [Pow α ℕ]
  [PyTrans α] [PyOrd α] [PyNan α]

section lookups
variable {E : Env α} {H : Hist α} {n : ℕ} {tr : ℕ → LoopSt α} {D : ℕ → StepData α}
  (v : View E H n tr D)
include v

theorem View.states_get {k : ℕ} (hk : k < n) : H.states[k]? = some (D k).s1.oe := by
  have h1 : H.states.dropLast[k]? = some (D k).s1.oe := by
    rw [v.statesInit, List.getElem?_map, List.getElem?_range hk]; rfl
  rw [List.dropLast_eq_take, List.getElem?_take_of_lt (by rw [v.statesLen]; omega)] at h1
  exact h1
theorem View.etas_get {k : ℕ} (hk : k < n) : H.etas[k]? = some ((D k).c.valA, (D k).c.valR) := by
  rw [v.etas, List.getElem?_map, List.getElem?_range hk]; rfl
theorem View.etasBounds_get {k : ℕ} (hk : k < n) :
    H.etasBounds[k]? = some ((D k).c.etaA, (D k).c.etaR) := by
  rw [v.etasBounds, List.getElem?_map, List.getElem?_range hk]; rfl
theorem View.dqdts_get {k : ℕ} (hk : k < n) : H.dqdts[k]? = some (D k).c.qdot := by
  rw [v.dqdts, List.getElem?_map, List.getElem?_range hk]; rfl
theorem View.qs_get {k : ℕ} (hk : k < n) : H.qs[k]? = some (D k).c.q := by
  rw [v.qs, List.getElem?_map, List.getElem?_range hk]; rfl

end lookups

/-- the value of a threshold argument at a recorded time, state, mass and battery level: a float
is itself, a callable is called with these four -/
inductive ThresholdIs (t : α) (x : Fin 6 → α) (m b : α) : EtaArg α → α → Prop
  | flt (y : α) : ThresholdIs t x m b (.flt y) y
  | fn (f : α → (Fin 6 → α) → α → α → Except PyErr α) (y : α) (h : f t x m b = .ok y) :
      ThresholdIs t x m b (.fn f) y

theorem ThresholdIs.of_eval {t : α} {x : Fin 6 → α} {m b : α} {e : EtaArg α} {y : α}
    (hv : e.valid = true) (h : evalEta e t x m b = .ok y) : ThresholdIs t x m b e y := by
  cases e with
  | flt z => cases h; exact .flt _
  | fn f => exact .fn f y h
  | other => cases hv

/-! ## C22 -/

/-- **C22, any arithmetic.** Let `k` be a recorded step at which the duty is on and the control law
returns valid angles. Its throttle is 0 or 1; it is 0 exactly when one of the recorded thresholds is
positive and one of the recorded effectivities is below its threshold; and the recorded thresholds
are the values of `eta_a`, `eta_r` at the recorded time, state, mass and battery. -/
theorem C22_thrust_coast {Q Q' : QLaw α} {etaA etaR : EtaArg α} {fuel : ℕ}
    {P : Problem α} {H : Hist α} (h : Q.solve etaA etaR fuel = some (Q', none))
    (hP : Q.prob = some P) (hH : Q'.hist = some H) (hR : etaR.valid = true) {k : ℕ}
    {a b vA vR eA eR t m l : α} {θ : ℕ} {x : Fin 6 → α}
    (hon : dutyOnAt (envOf Q P etaA etaR) ((envOf Q P etaA etaR).after k) = true)
    (hnan : nanAt (envOf Q P etaA etaR) ((envOf Q P etaA etaR).after k) = false)
    (hc : H.controls[k]? = some (a, b, θ)) (hv : H.etas[k]? = some (vA, vR))
    (he : H.etasBounds[k]? = some (eA, eR)) (ht : H.times[k]? = some t)
    (hx : H.states[k]? = some x) (hm : H.masses[k]? = some m) (hl : H.battery[k]? = some l) :
    (θ = 0 ∨ θ = 1) ∧
    (θ = 0 ↔ (PyOrd.lt ((0 : ℕ) : α) eA = true ∨ PyOrd.lt ((0 : ℕ) : α) eR = true) ∧
      (PyOrd.lt vA eA = true ∨ PyOrd.lt vR eR = true)) ∧
    ThresholdIs t x m l etaA eA ∧ ThresholdIs t x m l etaR eR := by
  obtain ⟨n, tr, D, r, hr, _, v⟩ := solve_view h hP hH
  obtain ⟨hkn, hx'⟩ := v.controls_lt hc
  injection hx' with _ hx'
  injection hx' with _ hθ
  have hrec := v.trace.step k hkn
  rw [← v.trace.after k hkn.le] at hon hnan
  rw [dutyOnAt_rec hrec] at hon
  rw [v.etas_get hkn] at hv
  rw [v.etasBounds_get hkn] at he
  rw [v.times_get hkn.le] at ht
  rw [v.states_get hkn] at hx
  rw [v.masses_get hkn.le] at hm
  rw [v.battery_get hkn.le] at hl
  injection hv with hv; injection hv with hv1 hv2
  injection he with he; injection he with he1 he2
  injection ht with ht; injection hx with hx; injection hm with hm; injection hl with hl
  obtain ⟨o, _, ho, _, _, _, hkind⟩ := control_ctl hrec.ctl
  have hnn : (PyNan.isnan o.alpha || PyNan.isnan o.beta) = false := by
    cases hb : (PyNan.isnan o.alpha || PyNan.isnan o.beta) with
    | false => rfl
    | true =>
      have := (nanAt_rec hrec).mpr ⟨hon, o, ho, hb⟩
      rw [hnan] at this; cases this
  have ct := clamp_t hrec.clamp
  have cm := clamp_mass hrec.clamp
  have cb := clamp_battery hrec.clamp
  have key : ∀ {e : EtaArg α} {y : α}, e.valid = true →
      evalEta e (D k).s1.t (D k).s1.oe (D k).s1.mass (D k).s1.battery = .ok y →
      ThresholdIs t x m l e y := by
    intro e y hv hy
    rw [ct, cm, cb, ht, hx, hm, hl] at hy
    exact .of_eval hv hy
  cases hkind with
  | off hd => rw [hon] at hd; cases hd
  | nan _ hn => rw [hnn] at hn; cases hn
  | free _ _ hea her hpos _ _ hthr =>
    rw [hθ, hthr, ← he1, ← he2]
    refine ⟨Or.inr rfl, ?_, key hr.valid hea, key hR her⟩
    rw [Bool.or_eq_false_iff] at hpos
    simp [hpos.1, hpos.2]
  | gated mx mn _ _ hea her hpos _ _ _ _ _ hthr =>
    rw [hθ, hthr, ← he1, ← he2, ← hv1, ← hv2]
    refine ⟨?_, ?_, key hr.valid hea, key hR her⟩
    · split <;> simp
    · rw [Bool.or_comm, Bool.or_eq_true] at hpos
      have : ∀ c : Bool, ((if c = true then 0 else 1) = 0) ↔ c = true := by decide
      rw [this, Bool.or_eq_true]
      simp [hpos]

/-- **C22, coasting.** A recorded step at which the duty is off, or at which the control law returns
NaN, has throttle 0. -/
theorem C22_forced_coast {Q Q' : QLaw α} {etaA etaR : EtaArg α} {fuel : ℕ}
    {P : Problem α} {H : Hist α} (h : Q.solve etaA etaR fuel = some (Q', none))
    (hP : Q.prob = some P) (hH : Q'.hist = some H) {k : ℕ} {a b : α} {θ : ℕ}
    (hc : H.controls[k]? = some (a, b, θ))
    (hoff : dutyOnAt (envOf Q P etaA etaR) ((envOf Q P etaA etaR).after k) = false ∨
      nanAt (envOf Q P etaA etaR) ((envOf Q P etaA etaR).after k) = true) : θ = 0 := by
  obtain ⟨n, tr, D, r, hr, _, v⟩ := solve_view h hP hH
  obtain ⟨hkn, hx'⟩ := v.controls_lt hc
  injection hx' with _ hx'
  injection hx' with _ hθ
  have hrec := v.trace.step k hkn
  rw [← v.trace.after k hkn.le] at hoff
  rw [dutyOnAt_rec hrec] at hoff
  rw [hθ]
  rcases hoff with hoff | hoff
  · exact throttle_zero_of_off v.trace hkn hoff
  · obtain ⟨hd, o', ho', hn⟩ := (nanAt_rec hrec).mp hoff
    obtain ⟨o, _, ho, _, _, _, hkind⟩ := control_ctl hrec.ctl
    rw [ho] at ho'
    injection ho' with ho'
    subst ho'
    cases hkind with
    | off hd' => rw [hd] at hd'; cases hd'
    | nan _ _ _ _ _ hthr => exact hthr
    | free _ hn' => rw [hn] at hn'; cases hn'
    | gated _ _ _ hn' => rw [hn] at hn'; cases hn'

/-- **C22, no thresholds.** With float thresholds that are not positive, every duty-on step with
valid angles thrusts. -/
theorem C22_no_threshold {Q Q' : QLaw α} {eA eR : α} {fuel : ℕ}
    {P : Problem α} {H : Hist α} (h : Q.solve (.flt eA) (.flt eR) fuel = some (Q', none))
    (hP : Q.prob = some P) (hH : Q'.hist = some H)
    (hA : PyOrd.lt ((0 : ℕ) : α) eA = false) (hR : PyOrd.lt ((0 : ℕ) : α) eR = false) {k : ℕ}
    {a b : α} {θ : ℕ}
    (hon : dutyOnAt (envOf Q P (.flt eA) (.flt eR)) ((envOf Q P (.flt eA) (.flt eR)).after k) = true)
    (hnan : nanAt (envOf Q P (.flt eA) (.flt eR)) ((envOf Q P (.flt eA) (.flt eR)).after k) = false)
    (hc : H.controls[k]? = some (a, b, θ)) : θ = 1 := by
  obtain ⟨n, tr, D, r, hr, _, v⟩ := solve_view h hP hH
  obtain ⟨hkn, _⟩ := v.controls_lt hc
  obtain ⟨h1, h2, h3, h4⟩ := C22_thrust_coast h hP hH rfl hon hnan hc (v.etas_get hkn)
    (v.etasBounds_get hkn) (v.times_get hkn.le) (v.states_get hkn) (v.masses_get hkn.le)
    (v.battery_get hkn.le)
  rcases h1 with h1 | h1
  · exfalso
    have h5 := (h2.mp h1).1
    cases h3
    cases h4
    rw [hA, hR] at h5
    simp at h5
  · exact h1

/-- what an observer sees of the thrust decisions of a run -/
def Toy.decisions (C : Config Toy.N) (P : Problem Toy.N) (a r : EtaArg Toy.N) (fuel : ℕ) :
    Option (List ℕ × List (Toy.N × Toy.N) × List (Toy.N × Toy.N)) :=
  ((Toy.obj C P).solve a r fuel).bind fun p => p.1.hist.map fun H =>
    (H.controls.map fun x => x.2.2, H.etas, H.etasBounds)

/-- a control law whose rate depends on the anomaly, so that effectivities vary -/
def Toy.wavyDyn : Dyn Toy.N where
  eom := Toy.dyn.eom
  lyapFun := fun A =>
    { uRaw := ![.fin 0, .fin (-1), .fin 0], psi := fun _ _ => .fin 1, q := .fin 1,
      dqdoe := fun _ => if PyOrd.lt (A.oe 5) (.fin 1) then .fin (-1 / 5) else .fin (-2 / 5) }
  dqdtFun := fun A => if PyOrd.lt (A.oe 5) (.fin 4) then .fin 1 else .fin 2
  checkConv := Toy.dyn.checkConv

/-- a run in which a callable threshold causes two steps to coast and the others to thrust -/
example : Toy.decisions { Toy.cfg with dyn := Toy.wavyDyn } { Toy.prob with tmax := .fin 1, mdot := .fin 0, tfMax := .fin 2 }
    (.fn fun _ _ _ _ => .ok (.fin (3 / 4))) Toy.z 10 =
    some ([0, 0, 1, 1],
      [(.fin (1 / 2), .fin 0), (.fin (1 / 2), .fin 0), (.fin 1, .fin 1), (.fin 1, .fin 1)],
      [(.fin (3 / 4), .fin 0), (.fin (3 / 4), .fin 0), (.fin (3 / 4), .fin 0),
        (.fin (3 / 4), .fin 0)]) := by
  decide +kernel

/-! ## C24 -/

/-- **C24, `eta_a`.** `solve` with an `eta_a` that is neither a float nor a callable raises
`ValueError` (or the readiness assertion) at once and leaves the object as it was. -/
theorem C24_eta_a_checked_partial (Q : QLaw α) (etaR : EtaArg α) (fuel : ℕ) :
    Q.solve .other etaR fuel = some (Q, some .valueError) ∨
    (Q.solve .other etaR fuel = some (Q, some .assertion) ∧ (Q.ready = false ∨ Q.prob = none)) := by
  unfold QLaw.solve
  cases hr : Q.ready with
  | false => right; simp
  | true =>
    cases hp : Q.prob with
    | none => right; simp
    | some P => left; simp [EtaArg.valid]

/-- **C24 is violated for `eta_r`.** An `eta_r` that is neither a float nor a callable is accepted
(`solve` behaves exactly as with `nan`), and, on every recorded duty-on step with valid angles, the
relative effectivity plays no role: the throttle is 0 exactly when `eta_a` is positive and the
absolute effectivity is below it. -/
theorem C24_eta_r_ignored [OrdLaws α] {Q Q' : QLaw α} {etaA : EtaArg α} {fuel : ℕ}
    {P : Problem α} {H : Hist α} (h : Q.solve etaA .other fuel = some (Q', none))
    (hP : Q.prob = some P) (hH : Q'.hist = some H) {k : ℕ} {a b vA vR eA eR : α} {θ : ℕ}
    (hon : dutyOnAt (envOf Q P etaA .other) ((envOf Q P etaA .other).after k) = true)
    (hnan : nanAt (envOf Q P etaA .other) ((envOf Q P etaA .other).after k) = false)
    (hc : H.controls[k]? = some (a, b, θ)) (hv : H.etas[k]? = some (vA, vR))
    (he : H.etasBounds[k]? = some (eA, eR)) :
    (θ = 0 ∨ θ = 1) ∧
    (θ = 0 ↔ PyOrd.lt ((0 : ℕ) : α) eA = true ∧ PyOrd.lt vA eA = true) := by
  obtain ⟨n, tr, D, r, hr, _, v⟩ := solve_view h hP hH
  obtain ⟨hkn, hx'⟩ := v.controls_lt hc
  injection hx' with _ hx'
  injection hx' with _ hθ
  have hrec := v.trace.step k hkn
  rw [← v.trace.after k hkn.le] at hon hnan
  rw [dutyOnAt_rec hrec] at hon
  rw [v.etas_get hkn] at hv
  rw [v.etasBounds_get hkn] at he
  injection hv with hv; injection hv with hv1 hv2
  injection he with he; injection he with he1 he2
  have lt_nan : ∀ y : α, PyOrd.lt y (PyNan.nan : α) = false := by
    intro y
    cases hy : PyOrd.lt y (PyNan.nan : α) with
    | false => rfl
    | true =>
      have h2 := ((OrdLaws.lt_iff _ _).mp hy).2.1
      rw [OrdLaws.isnan_nan] at h2; cases h2
  obtain ⟨o, _, ho, _, _, _, hkind⟩ := control_ctl hrec.ctl
  have hnn : (PyNan.isnan o.alpha || PyNan.isnan o.beta) = false := by
    cases hb : (PyNan.isnan o.alpha || PyNan.isnan o.beta) with
    | false => rfl
    | true =>
      have := (nanAt_rec hrec).mpr ⟨hon, o, ho, hb⟩
      rw [hnan] at this; cases this
  cases hkind with
  | off hd => rw [hon] at hd; cases hd
  | nan _ hn => rw [hnn] at hn; cases hn
  | free _ _ hea her hpos _ _ hthr =>
    rw [hθ, hthr, ← he1]
    refine ⟨Or.inr rfl, ?_⟩
    rw [Bool.or_eq_false_iff] at hpos
    simp [hpos.2]
  | gated mx mn _ _ hea her hpos _ _ _ _ _ hthr =>
    have her' : (D k).c.etaR = PyNan.nan := by
      injection her with her; exact her.symm
    rw [hθ, hthr, ← he1, ← hv1, her', lt_nan]
    rw [her', lt_nan, Bool.false_or] at hpos
    rw [hpos]
    refine ⟨?_, ?_⟩
    · split <;> simp
    · have : ∀ c : Bool, ((if c = true then 0 else 1) = 0) ↔ c = true := by decide
      rw [this]
      simp

/-- **C24 is violated, concretely.** With `eta_r = 1.0` the run coasts on its first two steps; with
a non-float such as the integer `1` it thrusts throughout and reports success. -/
theorem C24_eta_r_violation :
    Toy.decisions { Toy.cfg with dyn := Toy.wavyDyn } { Toy.prob with mdot := .fin 0, tfMax := .fin 2 }
      Toy.z (.flt (.fin 1)) 10 =
    some ([0, 0, 1, 1],
      [(.fin (1 / 2), .fin 0), (.fin (1 / 2), .fin 0), (.fin 1, .fin 1), (.fin 1, .fin 1)],
      [(.fin 0, .fin 1), (.fin 0, .fin 1), (.fin 0, .fin 1), (.fin 0, .fin 1)]) ∧
    Toy.decisions { Toy.cfg with dyn := Toy.wavyDyn } { Toy.prob with mdot := .fin 0, tfMax := .fin 2 }
      Toy.z .other 10 =
    some ([1, 1, 1, 1], [(.nan, .nan), (.nan, .nan), (.nan, .nan), (.nan, .nan)],
      [(.fin 0, .nan), (.fin 0, .nan), (.fin 0, .nan), (.fin 0, .nan)]) ∧
    Toy.seen { Toy.cfg with dyn := Toy.wavyDyn } { Toy.prob with mdot := .fin 0, tfMax := .fin 2 }
      Toy.z .other 10 = some (none, 1, true, 4) := by
  refine ⟨?_, ?_, ?_⟩ <;> decide +kernel

/-! ## C25 -/

/-- one propagation step over `h` from state `x` at time `t`, with RTN thrust acceleration `u`,
Gauss coefficients `psi` and perturbing acceleration `ptrb`, by the object's integrator and
equations of motion, yields `y` -/
def Propagates (C : Config α) (t h : α) (x : Fin 6 → α) (u : Fin 3 → α) (psi : Fin 3 → Fin 5 → α)
    (ptrb : Fin 3 → α) (y : Fin 6 → α) : Prop :=
  let p : OdeParams α := { mu := C.mu, u := u, psi0 := psi 0, psi1 := psi 1, psi2 := psi 2,
                           ptrb := ptrb }
  match C.integrator with
  | .rk4 => PyQ.rk4 C.dyn.eom t h x p = .ok y
  | .rkf45 => ∃ hn, PyQ.rkf45 C.dyn.eom t h x p C.odeTol = .ok (y, hn)

/-- the perturbing acceleration at a time and state: none, or the value of the perturbation object -/
def PerturbationIs (C : Config α) (t : α) (x : Fin 6 → α) (ptrb : Fin 3 → α) : Prop :=
  match C.perturbations with
  | none => ptrb = ![((0 : ℕ) : α), ((0 : ℕ) : α), ((0 : ℕ) : α)]
  | some f => f t x C.elementsType = .ok ptrb

/-- the propagation phase, in these terms -/
theorem propagate_view {E : Env α} {s : LoopSt α} {st : α} {c : Ctl α} {y : Fin 6 → α} {hb : α}
    (h : propagatePhase E s st c = .ok (y, hb)) :
    ∃ ptrb, PerturbationIs E.cfg s.t s.oe ptrb ∧
      Propagates E.cfg s.t st s.oe c.u c.psi ptrb y := by
  unfold propagatePhase at h
  dsimp only at h
  unfold PerturbationIs Propagates
  have key : ∀ ptrb : Fin 3 → α, (do
      let params : OdeParams α :=
        { mu := E.cfg.mu, u := c.u, psi0 := c.psi 0, psi1 := c.psi 1, psi2 := c.psi 2, ptrb := ptrb }
      match E.cfg.integrator with
      | .rk4 => do
        let oeNext ← PyQ.rk4 E.cfg.dyn.eom s.t st s.oe params
        pure (oeNext, st)
      | .rkf45 => do
        let (oeNext, hNext) ← PyQ.rkf45 E.cfg.dyn.eom s.t st s.oe params E.cfg.odeTol
        pure (oeNext, pymax E.cfg.stepMin (pymin E.cfg.stepMax hNext)) : Except PyErr _) =
        .ok (y, hb) → Propagates E.cfg s.t st s.oe c.u c.psi ptrb y := by
    intro ptrb h
    unfold Propagates
    simp only [bind, Except.bind, pure, Except.pure] at h ⊢
    cases hi : E.cfg.integrator with
    | rk4 =>
      rw [hi] at h
      simp only at h ⊢
      split at h
      · cases h
      · rename_i z hz
        injection h with h
        injection h with h
        rw [← h]
        exact hz
    | rkf45 =>
      rw [hi] at h
      simp only at h ⊢
      split at h
      · cases h
      · rename_i z hz
        injection h with h
        injection h with h
        rw [← h]
        exact ⟨_, hz⟩
  cases hpt : E.cfg.perturbations with
  | none =>
    rw [hpt] at h
    exact ⟨_, rfl, key _ h⟩
  | some f =>
    rw [hpt] at h
    simp only [bind, Except.bind] at h
    cases hf : f s.t s.oe E.cfg.elementsType with
    | error e => rw [hf] at h; cases h
    | ok ptrb =>
      rw [hf] at h
      exact ⟨ptrb, hf, key _ h⟩

/-- **C25, any arithmetic.** On each recorded step `k` the state is propagated from `states[k]`
over the elapsed time `h` (`times[k+1] = times[k] + h`) with an acceleration `u` that is zero if the
throttle is 0, and `(sign(h) * tmax / masses[k]) * (cos b sin a, cos b cos a, sin b)` with the
recorded angles `a`, `b` if it is 1. The result is `states[k+1]` (before any clamp of the next
iteration). -/
theorem C25_thrust_vector {Q Q' : QLaw α} {etaA etaR : EtaArg α} {fuel : ℕ}
    {P : Problem α} {H : Hist α} (h : Q.solve etaA etaR fuel = some (Q', none))
    (hP : Q.prob = some P) (hH : Q'.hist = some H) {k : ℕ} {a b t m : α} {θ : ℕ} {x : Fin 6 → α}
    (hc : H.controls[k]? = some (a, b, θ)) (ht : H.times[k]? = some t)
    (hx : H.states[k]? = some x) (hm : H.masses[k]? = some m) :
    ∃ st u psi ptrb, H.times[k + 1]? = some (t + st) ∧ PerturbationIs Q.cfg t x ptrb ∧
      Propagates Q.cfg t st x u psi ptrb ((envOf Q P etaA etaR).after (k + 1)).oe ∧
      (θ = 0 → u = ![((0 : ℕ) : α), ((0 : ℕ) : α), ((0 : ℕ) : α)]) ∧
      (θ = 1 → u = ![PyOrd.sign st * P.tmax / m * (PyTrans.cos b * PyTrans.sin a),
                     PyOrd.sign st * P.tmax / m * (PyTrans.cos b * PyTrans.cos a),
                     PyOrd.sign st * P.tmax / m * PyTrans.sin b]) := by
  obtain ⟨n, tr, D, r, hr, _, v⟩ := solve_view h hP hH
  obtain ⟨hkn, hx'⟩ := v.controls_lt hc
  injection hx' with ha hx'
  injection hx' with hb hθ
  have hrec := v.trace.step k hkn
  rw [v.times_get hkn.le] at ht
  rw [v.states_get hkn] at hx
  rw [v.masses_get hkn.le] at hm
  injection ht with ht; injection hx with hx; injection hm with hm
  have ct := clamp_t hrec.clamp
  have cm := clamp_mass hrec.clamp
  have hprop := hrec.prop
  have hnext : ((envOf Q P etaA etaR).after (k + 1)).oe = (D k).oeNext := by
    rw [← v.trace.after (k + 1) hkn, v.trace.succ_eq hkn]; rfl
  rw [hnext]
  have main : ∃ ptrb, PerturbationIs Q.cfg t x ptrb ∧
      Propagates Q.cfg t (D k).d.step x (D k).c.u (D k).c.psi ptrb (D k).oeNext := by
    have := propagate_view hprop
    rwa [ct, ht, hx] at this
  obtain ⟨ptrb, hp1, hp2⟩ := main
  refine ⟨(D k).d.step, (D k).c.u, (D k).c.psi, ptrb, ?_, hp1, hp2, ?_, ?_⟩
  · rw [v.times_get hkn, step_t v.trace hkn, ht]
  · intro h0
    obtain ⟨o, _, ho, _, _, _, hkind⟩ := control_ctl hrec.ctl
    rw [hθ] at h0
    cases hkind with
    | off _ _ _ _ hu => exact hu
    | nan _ _ _ _ _ _ hu => exact hu
    | free _ _ _ _ _ _ _ hthr => rw [hthr] at h0; cases h0
    | gated mx mn _ _ _ _ _ _ _ _ _ _ hthr hu =>
      rw [hthr] at h0
      split at h0
      · rename_i hcut; rw [hu, if_pos hcut]; rfl
      · cases h0
  · intro h1
    obtain ⟨o, _, ho, _, _, _, hkind⟩ := control_ctl hrec.ctl
    rw [hθ] at h1
    have hacc : accelOf (envOf Q P etaA etaR) (D k).s1 (D k).d = PyOrd.sign (D k).d.step * P.tmax / m := by
      unfold accelOf
      rw [cm, hm]; rfl
    have fin3 : ∀ (c : α) (y : Fin 3 → α), vsmul c y = ![c * y 0, c * y 1, c * y 2] := by
      intro c y
      funext i
      match i with
      | 0 => rfl
      | 1 => rfl
      | 2 => rfl
    have res : ∀ o : ControlOut α, (D k).c.alpha = some o.alpha → (D k).c.beta = some o.beta →
        o.alpha = a ∧ o.beta = b := by
      intro o h2 h3
      rw [hrec.alpha] at h2
      rw [hrec.beta] at h3
      injection h2 with h2; injection h3 with h3
      exact ⟨by rw [← h2, ha], by rw [← h3, hb]⟩
    cases hkind with
    | off _ _ _ hthr => rw [hthr] at h1; cases h1
    | nan _ _ _ _ _ hthr => rw [hthr] at h1; cases h1
    | free _ _ _ _ _ ha' hb' _ hu =>
      obtain ⟨h2, h3⟩ := res o ha' hb'
      rw [hu, hacc, h2, h3, fin3]; rfl
    | gated mx mn _ _ _ _ _ _ _ _ ha' hb' hthr hu =>
      obtain ⟨h2, h3⟩ := res o ha' hb'
      rw [hthr] at h1
      split at h1
      · cases h1
      · rename_i hcut
        rw [hu, if_neg hcut, hacc, h2, h3, fin3]; rfl

/-- two thrusting and two coasting steps -/
example : Toy.seen { Toy.cfg with dyn := Toy.wavyDyn } { Toy.prob with tfMax := .fin 2 }
    (.flt (.fin (3 / 4))) Toy.z 10 = some (none, 1, true, 4) := by decide +kernel

end lawfree

/-- **C25, magnitude.** Over the reals, the acceleration of a thrusting step of non-zero length has
magnitude `|tmax / mass|`. -/
theorem C25_magnitude (st tmax m a b : ℝ) (hst : st ≠ 0) :
    norm3 (![PyOrd.sign st * tmax / m * (PyTrans.cos b * PyTrans.sin a),
             PyOrd.sign st * tmax / m * (PyTrans.cos b * PyTrans.cos a),
             PyOrd.sign st * tmax / m * PyTrans.sin b] : Fin 3 → ℝ) = |tmax / m| := by
  have hs : (PyOrd.sign st : ℝ) ^ 2 = 1 := by
    show (if st < 0 then (-1 : ℝ) else if 0 < st then 1 else 0) ^ 2 = 1
    rcases lt_or_gt_of_ne hst with h | h
    · rw [if_pos h]; norm_num
    · rw [if_neg (not_lt.mpr h.le), if_pos h]; norm_num
  have ha := Real.sin_sq_add_cos_sq a
  have hb := Real.sin_sq_add_cos_sq b
  unfold norm3
  simp only [Matrix.cons_val_zero, Matrix.cons_val_one, Matrix.cons_val,
    sqrt_real, sin_real, cos_real]
  rw [← Real.sqrt_sq_eq_abs]
  congr 1
  generalize PyOrd.sign st = σ at hs
  have : σ * tmax / m = σ * (tmax / m) := by ring
  rw [this]
  generalize tmax / m = c
  generalize Real.sin a = sa at *
  generalize Real.cos a = ca at *
  generalize Real.sin b = sb at *
  generalize Real.cos b = cb at *
  have e1 : ca ^ 2 = 1 - sa ^ 2 := by linarith
  have e2 : cb ^ 2 = 1 - sb ^ 2 := by linarith
  have : (σ * c * (cb * sa)) ^ 2 + (σ * c * (cb * ca)) ^ 2 + (σ * c * sb) ^ 2 =
      σ ^ 2 * c ^ 2 * (cb ^ 2 * (sa ^ 2 + ca ^ 2) + sb ^ 2) := by ring
  rw [this, hs, ha, e2]
  ring

example : norm3 (![PyOrd.sign (-2 : ℝ) * 3 / 6 * (PyTrans.cos 1 * PyTrans.sin 2),
    PyOrd.sign (-2 : ℝ) * 3 / 6 * (PyTrans.cos 1 * PyTrans.cos 2),
    PyOrd.sign (-2 : ℝ) * 3 / 6 * PyTrans.sin 1] : Fin 3 → ℝ) = 1 / 2 := by
  rw [C25_magnitude (-2) 3 6 2 1 (by norm_num)]
  rw [abs_of_pos] <;> norm_num

/-- **C20, observable form.** With the default duty cycle and battery, `|tf_max| ≤ 1e16` and float
thresholds that are not positive (the defaults of `solve`), every recorded step thrusts unless the
control law returned NaN there. -/
theorem C20_defaults_thrust {K : Type} [Field K] [LinearOrder K] [IsStrictOrderedRing K]
    [PyTrans (Ext K)] {Q Q' : QLaw (Ext K)} {eA eR : Ext K} {fuel : ℕ}
    {P : Problem (Ext K)} {H : Hist (Ext K)} {T s1 s2 : K}
    (hs : Q.solve (.flt eA) (.flt eR) fuel = some (Q', none)) (hP : Q.prob = some P)
    (hH : Q'.hist = some H) (hB : FinBattery P 1 (1 / 5) 1 0 0) (hOn : P.dutyOn = .fin (10 ^ 16))
    (hT : P.tfMax = .fin T) (hon : |T| ≤ 10 ^ 16)
    (h1 : Q.cfg.stepMin = .fin s1) (h2 : Q.cfg.stepMax = .fin s2)
    (hA : PyOrd.lt ((0 : ℕ) : Ext K) eA = false) (hR : PyOrd.lt ((0 : ℕ) : Ext K) eR = false)
    {k : ℕ} {a b : Ext K} {θ : ℕ} (hc : H.controls[k]? = some (a, b, θ)) :
    nanAt (envOf Q P (.flt eA) (.flt eR)) ((envOf Q P (.flt eA) (.flt eR)).after k) = true ∨
      θ = 1 := by
  have hk := (C20_defaults hs hP hH hB hOn hT hon h1 h2).1 k (List.getElem?_eq_some_iff.mp hc).1
  cases hn : nanAt (envOf Q P (.flt eA) (.flt eR)) ((envOf Q P (.flt eA) (.flt eR)).after k) with
  | true => exact Or.inl rfl
  | false => exact Or.inr (C22_no_threshold hs hP hH hA hR hk hn hc)

end PyQ
