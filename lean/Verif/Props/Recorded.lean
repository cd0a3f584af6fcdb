import Verif.Props.Convergence
import Verif.Props.Descent
import Verif.Props.Thrust
import Verif.Examples.MeeBurn

/-! # What a recorded step is made of

C80: the recorded `Q`, its recorded rate and the recorded thrust angles are those of the control law at the
recorded state and mass. C81: a step moves the slow elements along the rates at its beginning. C82: a
transfer that only targets size and shape stays in its orbit plane. -/

set_option linter.unusedSectionVars false
set_option maxRecDepth 100000

namespace PyQ

section lawfree
variable {α : Type} [Add α] [Sub α] [Mul α] [Div α] [Neg α] [NatCast α] [Pow α ℕ]
  [PyTrans α] [PyOrd α] [PyNan α]

/-- what the control law is called with at a step of length `st` from state `x` with mass `m`: the
acceleration `tmax / m`, reversed for a backward step, and the settings of the object -/
def recArgs (C : Config α) (P : Problem α) (oeT : Fin 5 → α) (x : Fin 6 → α) (m st : α) :
    LyapArgs α :=
  { mu := C.mu, f := PyOrd.sign st * P.tmax / m, oe := x, oeT := oeT, rpmin := C.rpmin,
    m := C.mPetro, n := C.nPetro, r := C.rPetro, b := C.bPetro, k := C.kPetro, wp := C.wp,
    woe := P.woe }

theorem asVec5_ok {l : List α} {v : Fin 5 → α} (h : asVec5 l = .ok v) : l = List.ofFn v := by
  unfold asVec5 at h
  split at h
  · injection h with h
    subst h
    rfl
  · cases h

/-- **C80, any arithmetic.** At each recorded step `k` the control law was called with the recorded
state, the acceleration available at the recorded mass, and the five-component target. Its value and
rate are `q[k]` and `dqdt[k]`; if the throttle is 1 its angles are the recorded ones; and its Gauss
coefficients are used for the whole step, which leads to the next state (before any clamp of the next
iteration). -/
theorem C80_law_applied {Q Q' : QLaw α} {etaA etaR : EtaArg α} {fuel : ℕ} {P : Problem α} {H : Hist α}
    (h : Q.solve etaA etaR fuel = some (Q', none)) (hP : Q.prob = some P) (hH : Q'.hist = some H)
    {k : ℕ} {a b t m : α} {θ : ℕ} {x : Fin 6 → α} (hc : H.controls[k]? = some (a, b, θ))
    (ht : H.times[k]? = some t) (hx : H.states[k]? = some x) (hm : H.masses[k]? = some m) :
    ∃ st oeT o ptrb u, H.times[k + 1]? = some (t + st) ∧ P.oeT = List.ofFn oeT ∧
      lyapunovControlAngles Q.cfg.dyn.lyapFun (recArgs Q.cfg P oeT x m st) = .ok o ∧
      H.qs[k]? = some o.q ∧ H.dqdts[k]? = some o.dqdt ∧
      (θ = 1 → a = o.alpha ∧ b = o.beta) ∧ PerturbationIs Q.cfg t x ptrb ∧
      Propagates Q.cfg t st x u o.psi ptrb ((envOf Q P etaA etaR).after (k + 1)).oe ∧
      ((θ = 0 ∧ u = zero3) ∨
        (θ = 1 ∧ u = vsmul (PyOrd.sign st * P.tmax / m) (dirOf o.alpha o.beta))) := by
  obtain ⟨n, tr, D, r, hr, _, v⟩ := solve_view h hP hH
  obtain ⟨hkn, hx'⟩ := v.controls_lt hc
  injection hx' with ha hx'
  injection hx' with hb hθ
  have hrec := v.trace.step k hkn
  rw [v.times_get hkn.le] at ht
  rw [v.states_get hkn] at hx
  rw [v.masses_get hkn.le] at hm
  injection ht with ht; injection hx with hx; injection hm with hm
  have ct := clamp_t hrec.clamp
  have cm := clamp_mass hrec.clamp
  have hnext : ((envOf Q P etaA etaR).after (k + 1)).oe = (D k).oeNext := by
    rw [← v.trace.after (k + 1) hkn, v.trace.succ_eq hkn]; rfl
  obtain ⟨ptrb, hp1, hp2⟩ := propagate_view hrec.prop
  rw [ct, ht, hx] at hp1 hp2
  obtain ⟨o, hT, ho, hpsi, hq, hqd, hkind⟩ := control_ctl hrec.ctl
  have hacc : accelOf (envOf Q P etaA etaR) (D k).s1 (D k).d = PyOrd.sign (D k).d.step * P.tmax / m := by
    unfold accelOf
    rw [cm, hm]; rfl
  have hlaw : lyapunovControlAngles Q.cfg.dyn.lyapFun
      (recArgs Q.cfg P (D k).c.oeT x m (D k).d.step) = .ok o := by
    unfold lawAt at ho
    rw [hacc, hx] at ho
    exact ho
  have res : (D k).c.alpha = some o.alpha → (D k).c.beta = some o.beta → a = o.alpha ∧ b = o.beta := by
    intro h2 h3
    rw [hrec.alpha] at h2
    rw [hrec.beta] at h3
    injection h2 with h2; injection h3 with h3
    exact ⟨by rw [← h2, ha], by rw [← h3, hb]⟩
  refine ⟨(D k).d.step, (D k).c.oeT, o, ptrb, (D k).c.u, ?_, asVec5_ok hT, hlaw, ?_, ?_, ?_, hp1, ?_, ?_⟩
  · rw [v.times_get hkn, step_t v.trace hkn, ht]
  · rw [v.qs_get hkn, hq]
  · rw [v.dqdts_get hkn, hqd]
  · intro h1
    rw [hθ] at h1
    cases hkind with
    | off _ _ _ hthr => rw [hthr] at h1; cases h1
    | nan _ _ _ _ _ hthr => rw [hthr] at h1; cases h1
    | free _ _ _ _ _ h2 h3 => exact res h2 h3
    | gated mx mn _ _ _ _ _ _ _ _ h2 h3 => exact res h2 h3
  · rw [hnext, ← hpsi]; exact hp2
  · rw [hθ, ← hacc]
    cases hkind with
    | off _ _ _ hthr hu => exact Or.inl ⟨hthr, hu⟩
    | nan _ _ _ _ _ hthr hu => exact Or.inl ⟨hthr, hu⟩
    | free _ _ _ _ _ _ _ hthr hu => exact Or.inr ⟨hthr, hu⟩
    | gated mx mn _ _ _ _ _ _ _ _ _ _ hthr hu =>
      rw [hthr, hu]
      split
      · exact Or.inl ⟨rfl, rfl⟩
      · exact Or.inr ⟨rfl, rfl⟩

end lawfree

/-! ## C80 over the reals -/

/-- the candidate of an element type -/
noncomputable def candQ : ElemType → LyapArgs ℝ → ℝ
  | .keplerian => kepQ
  | .meeWithA => meeQ

/-- the Gauss matrix of an element type -/
noncomputable def candPsi : ElemType → LyapArgs ℝ → Fin 3 → Fin 5 → ℝ
  | .keplerian => kepPsi
  | .meeWithA => meePsi

/-- the rate of the candidate of an element type along an acceleration of size `f` in direction `d` -/
noncomputable def candRate (et : ElemType) (A : LyapArgs ℝ) (d : Fin 3 → ℝ) : ℝ :=
  thrustRate A.f (partialQ (candQ et) A) (candPsi et A) d

theorem dyn_lyap (et : ElemType) (A : LyapArgs ℝ) :
    ((dynOf (α := ℝ) et).lyapFun A).uRaw = thrustGrad (partialQ (candQ et) A) (candPsi et A) ∧
    ((dynOf (α := ℝ) et).lyapFun A).q = candQ et A ∧
    ((dynOf (α := ℝ) et).lyapFun A).dqdoe = partialQ (candQ et) A ∧
    ((dynOf (α := ℝ) et).lyapFun A).psi = candPsi et A := by
  cases et with
  | keplerian => exact ⟨(C38_raw_control A).1, rfl, rfl, rfl⟩
  | meeWithA => exact ⟨(C38_raw_control A).2, rfl, rfl, rfl⟩

theorem angles_psi {L : LyapArgs ℝ → LyapOut ℝ} {A : LyapArgs ℝ} {o : ControlOut ℝ}
    (h : lyapunovControlAngles L A = .ok o) : o.psi = (L A).psi ∧ o.q = (L A).q := by
  simp only [lyapunovControlAngles, bind, Except.bind, pure, Except.pure] at h
  split at h
  · cases h
  · injection h with h
    subst h
    exact ⟨rfl, rfl⟩

theorem sign_real (x : ℝ) : PyOrd.sign x = if 0 < x then 1 else if x < 0 then -1 else (0 : ℝ) := by
  show (if x < 0 then (-1 : ℝ) else if 0 < x then 1 else 0) = _
  split_ifs <;> first | rfl | linarith

/-- **C80.** In a completed run of the package's own dynamics, `q[k]` is `Q` at the recorded state, mass
and target. In a forward step with positive thrust `dqdt[k]` is positive, every unit thrust direction
changes `Q` at a rate of at least `-dqdt[k]`, and on a step with throttle 1 the recorded direction attains
it. -/
theorem C80_recorded [PyNan ℝ] {Q Q' : QLaw ℝ} {etaA etaR : EtaArg ℝ} {fuel : ℕ} {P : Problem ℝ}
    {H : Hist ℝ} (h : Q.solve etaA etaR fuel = some (Q', none)) (hP : Q.prob = some P)
    (hH : Q'.hist = some H) {et : ElemType} (hd : Q.cfg.dyn = dynOf et) {k : ℕ} {a b t t' m q d : ℝ}
    {θ : ℕ} {x : Fin 6 → ℝ} (hc : H.controls[k]? = some (a, b, θ))
    (ht : H.times[k]? = some t) (ht' : H.times[k + 1]? = some t') (hx : H.states[k]? = some x)
    (hm : H.masses[k]? = some m) (hq : H.qs[k]? = some q) (hqd : H.dqdts[k]? = some d) :
    ∃ oeT, P.oeT = List.ofFn oeT ∧ q = candQ et (recArgs Q.cfg P oeT x m (t' - t)) ∧
      (t < t' → 0 < P.tmax → 0 < m → 0 < d ∧
        (∀ w, norm3 w = 1 → -d ≤ candRate et (recArgs Q.cfg P oeT x m (t' - t)) w) ∧
        (θ = 1 → norm3 (unitDir a b) = 1 ∧
          candRate et (recArgs Q.cfg P oeT x m (t' - t)) (unitDir a b) = -d)) := by
  obtain ⟨st, oeT, o, ptrb, u, h1, h2, h3, h4, h5, h6, -⟩ := C80_law_applied h hP hH hc ht hx hm
  rw [ht'] at h1; injection h1 with h1
  have hst : t' - t = st := by rw [h1]; ring
  rw [hq] at h4; injection h4 with h4
  rw [hqd] at h5; injection h5 with h5
  rw [hst]
  rw [hd] at h3
  have hA := dyn_lyap et (recArgs Q.cfg P oeT x m st)
  refine ⟨oeT, h2, by rw [h4, (angles_psi h3).2, hA.2.1], fun hlt hT hm0 => ?_⟩
  have hf : 0 < (recArgs Q.cfg P oeT x m st).f := by
    have : 0 < st := by rw [← hst]; linarith
    simp only [recArgs, sign_real, if_pos this]
    positivity
  obtain ⟨o', e1, e2, e3, e4, e5⟩ := C38_steepest_descent (dynOf et).lyapFun
    (recArgs Q.cfg P oeT x m st) (by rw [hA.1, hA.2.2.1, hA.2.2.2]) hf.le (control_defined h3)
  rw [h3] at e1
  injection e1 with e1
  subst e1
  rw [hA.2.2.1, hA.2.2.2] at e3 e4
  refine ⟨by rw [h5]; exact e5 hf, fun w hw => by rw [h5]; exact e4 w hw, fun hθ => ?_⟩
  obtain ⟨rfl, rfl⟩ := h6 hθ
  exact ⟨e2, by rw [h5]; exact e3⟩

/-- **C80.** The recorded `Q` is not negative on an elliptic non-singular state with positive
parameters, and zero only on target. -/
theorem C80_nonneg [PyNan ℝ] {Q Q' : QLaw ℝ} {etaA etaR : EtaArg ℝ} {fuel : ℕ} {P : Problem ℝ}
    {H : Hist ℝ} (h : Q.solve etaA etaR fuel = some (Q', none)) (hP : Q.prob = some P)
    (hH : Q'.hist = some H) {k : ℕ} {t t' m q : ℝ} {x : Fin 6 → ℝ}
    (ht : H.times[k]? = some t) (ht' : H.times[k + 1]? = some t') (hx : H.states[k]? = some x)
    (hm : H.masses[k]? = some m) (hq : H.qs[k]? = some q) {oeT : Fin 5 → ℝ}
    (hT : P.oeT = List.ofFn oeT) :
    (Q.cfg.dyn = dynOf .keplerian → KepAdmissible (recArgs Q.cfg P oeT x m (t' - t)) →
      0 ≤ q ∧ (q = 0 ↔ KepAtTarget (recArgs Q.cfg P oeT x m (t' - t)))) ∧
    (Q.cfg.dyn = dynOf .meeWithA → MeeAdmissible (recArgs Q.cfg P oeT x m (t' - t)) →
      0 ≤ q ∧ (q = 0 ↔ MeeAtTarget (recArgs Q.cfg P oeT x m (t' - t)))) := by
  obtain ⟨n, tr, D, r, hr, _, v⟩ := solve_view h hP hH
  have hkn : k < n := by
    have := (List.getElem?_eq_some_iff.mp hq).1
    rw [v.qs] at this
    simpa using this
  have hc := v.controls_get hkn
  have hqd := v.dqdts_get hkn
  constructor
  · intro hd hA
    obtain ⟨oeT', h1, h2, -⟩ := C80_recorded h hP hH hd hc ht ht' hx hm hq hqd
    have : oeT' = oeT := List.ofFn_injective (h1.symm.trans hT)
    subst this
    rw [h2]
    exact C40_keplerian _ hA
  · intro hd hA
    obtain ⟨oeT', h1, h2, -⟩ := C80_recorded h hP hH hd hc ht ht' hx hm hq hqd
    have : oeT' = oeT := List.ofFn_injective (h1.symm.trans hT)
    subst this
    rw [h2]
    exact C40_mee _ hA

/-! ## C81 -/

/-- a component with a constant rate grows linearly under `rk4` -/
theorem rk4_const {n : ℕ} {P : Type} {rhs : ℝ → (Fin n → ℝ) → P → Except PyErr (Fin n → ℝ)}
    {p : P} {j : Fin n} {c : ℝ} (h0 : ∀ t y k, rhs t y p = .ok k → k j = c) {t h : ℝ}
    {y z : Fin n → ℝ} (hz : rk4 rhs t h y p = .ok z) : z j = y j + h * c := by
  unfold rk4 at hz
  simp only [bind, Except.bind, pure, Except.pure] at hz
  repeat' (split at hz <;> try cases hz)
  rename_i _ k1 h1 _ k2 h2 _ k3 h3 _ k4 h4
  simp [vadd, vsmul, h0 _ _ _ h1, h0 _ _ _ h2, h0 _ _ _ h3, h0 _ _ _ h4]
  ring

/-- under `rkf45` it grows too fast, by the factor of C62 -/
theorem rkf45_const {n : ℕ} {P : Type} {rhs : ℝ → (Fin n → ℝ) → P → Except PyErr (Fin n → ℝ)}
    {p : P} {j : Fin n} {c : ℝ} (h0 : ∀ t y k, rhs t y p = .ok k → k j = c) {t h tol hn : ℝ}
    {y z : Fin n → ℝ} (hz : rkf45 rhs t h y p tol = .ok (z, hn)) :
    z j = y j + (1 + 2197 / 5610168) * (h * c) := by
  unfold rkf45 at hz
  simp only [bind, Except.bind, pure, Except.pure] at hz
  split at hz
  · cases hz
  rename_i k1 h1
  split at hz
  · cases hz
  rename_i k2 h2
  split at hz
  · cases hz
  rename_i k3 h3
  split at hz
  · cases hz
  rename_i k4 h4
  split at hz
  · cases hz
  rename_i k5 h5
  split at hz
  · cases hz
  rename_i k6 h6
  split at hz
  · cases hz
  rename_i q hq
  injection hz with hz
  injection hz with hz _
  rw [← hz]
  simp [vadd, vsub, vsmul, rat_real, h0 _ _ _ h1, h0 _ _ _ h3, h0 _ _ _ h4, h0 _ _ _ h5]
  ring

/-- the factor by which an integrator advances a constant rate -/
noncomputable def gain : Integrator → ℝ
  | .rk4 => 1
  | .rkf45 => 1 + 2197 / 5610168

theorem dyn_slow (et : ElemType) : SlowRates (dynOf (α := ℝ) et).eom := by
  cases et with
  | keplerian => exact kep_slowRates
  | meeWithA => exact mee_slowRates

/-- one propagation step of the slow elements, for any accelerations -/
theorem propagates_slow {C : Config ℝ} {et : ElemType} (hd : C.dyn = dynOf et) {t st : ℝ}
    {x y : Fin 6 → ℝ} {u ptrb : Fin 3 → ℝ} {psi : Fin 3 → Fin 5 → ℝ}
    (h : Propagates C t st x u psi ptrb y) (j : Fin 5) :
    y j.castSucc = x j.castSucc +
      gain C.integrator * (st * ∑ c : Fin 3, psi c j * (u c + ptrb c)) := by
  unfold Propagates at h
  rw [hd] at h
  have hs := fun t y k hk => dyn_slow et t y
    { mu := C.mu, u := u, psi0 := psi 0, psi1 := psi 1, psi2 := psi 2, ptrb := ptrb } k hk j
  rw [Fin.sum_univ_three]
  cases hi : C.integrator with
  | rk4 =>
    simp only [hi] at h
    rw [rk4_const hs h]
    simp [gain]
  | rkf45 =>
    simp only [hi] at h
    obtain ⟨hn, h⟩ := h
    rw [rkf45_const hs h]
    rfl

/-- **C81.** In a completed run of the package's own dynamics, each step moves each of the five slow
elements by the step length times its Gauss rate *at the beginning of the step*: the Gauss matrix, the
thrust and the perturbation are not evaluated again inside a step. This is the change with `rk4`; with
`rkf45` it is too large by the factor `1 + 2197/5610168`. The recorded next state has exactly these slow
elements with MEE, and their clamp with Keplerian elements, unless it is the last one. -/
theorem C81_slow_step [PyNan ℝ] {Q Q' : QLaw ℝ} {etaA etaR : EtaArg ℝ} {fuel : ℕ} {P : Problem ℝ}
    {H : Hist ℝ} (h : Q.solve etaA etaR fuel = some (Q', none)) (hP : Q.prob = some P)
    (hH : Q'.hist = some H) {et : ElemType} (hd : Q.cfg.dyn = dynOf et) {k : ℕ} {a b t t' m : ℝ}
    {θ : ℕ} {x y : Fin 6 → ℝ} (hc : H.controls[k]? = some (a, b, θ))
    (ht : H.times[k]? = some t) (ht' : H.times[k + 1]? = some t') (hx : H.states[k]? = some x)
    (hm : H.masses[k]? = some m) (hy : H.states[k + 1]? = some y) :
    ∃ oeT ptrb z, P.oeT = List.ofFn oeT ∧ PerturbationIs Q.cfg t x ptrb ∧
      (∀ j : Fin 5, z j.castSucc = x j.castSucc + gain Q.cfg.integrator * ((t' - t) *
        ∑ c : Fin 3, candPsi et (recArgs Q.cfg P oeT x m (t' - t)) c j *
          ((if θ = 1 then (recArgs Q.cfg P oeT x m (t' - t)).f * unitDir a b c else 0) + ptrb c))) ∧
      (y = z ∨ Q.cfg.elementsType = .keplerian ∧
        elementsSafety z Q.cfg.oeMin Q.cfg.oeMax = .ok y) := by
  obtain ⟨st, oeT, o, ptrb, u, h1, h2, h3, -, -, h6, h7, h8, h9⟩ :=
    C80_law_applied h hP hH hc ht hx hm
  rw [ht'] at h1; injection h1 with h1
  have hst : t' - t = st := by rw [h1]; ring
  rw [hst]
  rw [hd] at h3
  have hpsi : o.psi = candPsi et (recArgs Q.cfg P oeT x m st) := by
    rw [(angles_psi h3).1, (dyn_lyap et _).2.2.2]
  refine ⟨oeT, ptrb, ((envOf Q P etaA etaR).after (k + 1)).oe, h2, h7, ?_, ?_⟩
  · intro j
    rw [propagates_slow hd h8 j, hpsi]
    congr 3
    refine Finset.sum_congr rfl fun c _ => ?_
    congr 2
    rcases h9 with ⟨h0, hu⟩ | ⟨h0, hu⟩
    · rw [hu, if_neg (by omega)]
      fin_cases c <;> simp [zero3]
    · obtain ⟨rfl, rfl⟩ := h6 h0
      rw [hu, if_pos h0]
      fin_cases c <;> simp [vsmul, dirOf, unitDir, recArgs]
  · obtain ⟨n, tr, D, r, hr, hrH, v⟩ := solve_view h hP hH
    obtain ⟨hk1, hy'⟩ := state_or_clamp hr hrH v hy
    rw [← v.trace.after (k + 1) hk1]
    rcases hy' with hy' | ⟨s1, hs1, hy'⟩
    · exact Or.inl hy'
    · rcases clamp_cases hs1 with ⟨-, h2⟩ | ⟨hE, oe, h2, h3⟩
      · left; rw [hy', h2]
      · right
        exact ⟨hE, by rw [h2, hy', h3]⟩

/-! ## C82 -/

/-- no out-of-plane gradient, no out-of-plane thrust -/
theorem angles_flat {L : LyapArgs ℝ → LyapOut ℝ} {A : LyapArgs ℝ} {o : ControlOut ℝ}
    (h : lyapunovControlAngles L A = .ok o) (h2 : (L A).uRaw 2 = 0) : o.beta = 0 := by
  have hdef := control_defined h
  obtain ⟨w, a, b, e, -⟩ := C37_angles _ hdef
  simp only [lyapunovControlAngles, e, bind, Except.bind, pure, Except.pure] at h
  injection h with h
  subst h
  show b = 0
  simp only [uToThrustAngles, vdivs, h2, zero_div, neg_zero, bind, Except.bind, pure, Except.pure] at e
  split at e
  · cases e
  · rename_i v hv
    injection e with e
    injection e with _ e
    injection e with _ e
    rw [← e]
    have : v = 0 := by
      simp only [ndiv] at hv
      split at hv
      · cases hv
      · injection hv with hv
        rw [← hv]; simp
    rw [this]; simp

/-- values within the object's element bounds -/
def InBounds (C : Config ℝ) (x : Fin 6 → ℝ) (J : Fin 5 → Prop) : Prop :=
  ∃ l u, BoundsAre C.oeMin l ∧ BoundsAre C.oeMax u ∧
    ∀ j, J j → l j ≤ x j.castSucc ∧ x j.castSucc ≤ u j

theorem bounds_list {L : List ℝ} {b : Fin 5 → ℝ} (h : BoundsAre L b) :
    ∃ t, L = b 0 :: b 1 :: b 2 :: b 3 :: b 4 :: t := by
  have h0 := h 0
  have h1 := h 1
  have h2 := h 2
  have h3 := h 3
  have h4 := h 4
  match L, h0, h1, h2, h3, h4 with
  | [], h0, _, _, _, _ => simp at h0
  | [_], _, h1, _, _, _ => simp at h1
  | [_, _], _, _, h2, _, _ => simp at h2
  | [_, _, _], _, _, _, h3, _ => simp at h3
  | [_, _, _, _], _, _, _, _, h4 => simp at h4
  | _ :: _ :: _ :: _ :: _ :: t, h0, h1, h2, h3, h4 =>
    simp at h0 h1 h2 h3 h4
    exact ⟨t, by rw [h0, h1, h2, h3, h4]⟩

theorem clamp_inBounds [PyNan ℝ] {C : Config ℝ} {s s1 : LoopSt ℝ} (h : clampPhase C s = .ok s1)
    {J : Fin 5 → Prop} (hb : InBounds C s.oe J) (j : Fin 5) (hj : J j) :
    s1.oe j.castSucc = s.oe j.castSucc := by
  obtain ⟨l, u, hl, hu, hb⟩ := hb
  rcases clamp_cases h with ⟨-, rfl⟩ | ⟨-, oe, h2, rfl⟩
  · rfl
  obtain ⟨lt, hl⟩ := bounds_list hl
  obtain ⟨ut, hu⟩ := bounds_list hu
  rw [hl, hu] at h2
  simp only [elementsSafety] at h2
  injection h2 with h2
  have hb := hb j hj
  have key : ∀ a x b : ℝ, a ≤ x → x ≤ b → pymin (pymax a x) b = x := by
    intro a x b h1 h2
    simp only [pymin, pymax, lt_real, decide_eq_true_eq]
    repeat' split_ifs
    all_goals linarith
  show oe j.castSucc = _
  rw [← h2]
  match j with
  | 0 => exact key _ _ _ hb.1 hb.2
  | 1 => exact key _ _ _ hb.1 hb.2
  | 2 => exact key _ _ _ hb.1 hb.2
  | 3 => exact key _ _ _ hb.1 hb.2
  | 4 => exact key _ _ _ hb.1 hb.2

/-- elements that only respond to normal acceleration never change if the candidate never asks for
one -/
theorem frozen [PyNan ℝ] {Q Q' : QLaw ℝ} {etaA etaR : EtaArg ℝ} {fuel : ℕ} {P : Problem ℝ}
    {H : Hist ℝ} (h : Q.solve etaA etaR fuel = some (Q', none)) (hP : Q.prob = some P)
    (hH : Q'.hist = some H) {et : ElemType} (hd : Q.cfg.dyn = dynOf et)
    (hpt : ∀ t x p, PerturbationIs Q.cfg t x p → p 2 = 0) {J : Fin 5 → Prop}
    (hb : InBounds Q.cfg P.oe0 J)
    (hpsi : ∀ A j, J j → candPsi et A 0 j = 0 ∧ candPsi et A 1 j = 0)
    (hraw : ∀ A, A.woe = P.woe → (∀ j, J j → A.oe j.castSucc = P.oe0 j.castSucc) →
      thrustGrad (partialQ (candQ et) A) (candPsi et A) 2 = 0) :
    (∀ (k : ℕ) (x : Fin 6 → ℝ), H.states[k]? = some x → ∀ j, J j → x j.castSucc = P.oe0 j.castSucc) ∧
    ∀ (k : ℕ) (a b : ℝ), H.controls[k]? = some (a, b, 1) → b = 0 := by
  obtain ⟨n, tr, D, r, hr, hrH, v⟩ := solve_view h hP hH
  have cl : ∀ s s1 : LoopSt ℝ, clampPhase Q.cfg s = .ok s1 →
      (∀ j, J j → s.oe j.castSucc = P.oe0 j.castSucc) →
      ∀ j, J j → s1.oe j.castSucc = P.oe0 j.castSucc := by
    intro s s1 h1 h2 j hj
    obtain ⟨l, u, hl, hu, hb⟩ := hb
    rw [clamp_inBounds h1 (J := J) ⟨l, u, hl, hu, fun j hj => by rw [h2 j hj]; exact hb j hj⟩ j hj]
    exact h2 j hj
  have step : ∀ k < n, (∀ j, J j → (D k).s1.oe j.castSucc = P.oe0 j.castSucc) →
      (∀ j, J j → (tr (k + 1)).oe j.castSucc = P.oe0 j.castSucc) ∧
      ((D k).c.throttle = 1 → (D k).b = 0) := by
    intro k hk hs
    obtain ⟨st, oeT, o, ptrb, u, -, -, h3, -, -, h6, h7, h8, h9⟩ := C80_law_applied h hP hH
      (v.controls_get hk) (v.times_get hk.le) (v.states_get hk) (v.masses_get hk.le)
    rw [hd] at h3
    have hA := dyn_lyap et (recArgs Q.cfg P oeT (D k).s1.oe (tr k).mass st)
    have hβ : o.beta = 0 := angles_flat h3 (by rw [hA.1]; exact hraw _ rfl hs)
    refine ⟨fun j hj => ?_, fun hθ => by rw [(h6 hθ).2, hβ]⟩
    rw [v.trace.after (k + 1) hk, propagates_slow hd h8 j, (angles_psi h3).1, hA.2.2.2,
      Fin.sum_univ_three, (hpsi _ j hj).1, (hpsi _ j hj).2, hpt _ _ _ h7, hs j hj]
    have hu : u 2 = 0 := by
      rcases h9 with ⟨-, rfl⟩ | ⟨-, rfl⟩
      · simp [zero3]
      · simp [vsmul, dirOf, hβ]
    rw [hu]; ring
  have all : ∀ k ≤ n, ∀ j, J j → (tr k).oe j.castSucc = P.oe0 j.castSucc := by
    intro k
    induction k with
    | zero => intro _ j _; rw [v.trace.init]; rfl
    | succ k ih =>
      intro hk
      exact (step k hk (cl _ _ (v.trace.step k hk).clamp (ih (by omega)))).1
  constructor
  · intro k x hx
    obtain ⟨hk, hx⟩ := state_or_clamp hr hrH v hx
    rcases hx with rfl | ⟨s1, hs, rfl⟩
    · exact all k hk
    · exact cl _ _ hs (all k hk)
  · intro k a b hc
    obtain ⟨hk, e⟩ := v.controls_lt hc
    injection e with _ e
    injection e with e1 e2
    rw [e1]
    exact (step k hk (cl _ _ (v.trace.step k hk).clamp (all k hk.le))).2 e2.symm

/-- without weights on the orientation, `Q` does not depend on it -/
theorem kepQ_shape (A : LyapArgs ℝ) (h2 : A.woe 2 = 0) (h3 : A.woe 3 = 0) (h4 : A.woe 4 = 0)
    (j : Fin 5) (hj : 2 ≤ j) : partialQ kepQ A j = 0 := by
  have : (fun x => kepQ (A.setOe j x)) = fun _ => kepQ A := by
    funext x
    match j with
    | 0 => exact absurd hj (by decide)
    | 1 => exact absurd hj (by decide)
    | 2 => simp [kepQ, LyapArgs.setOe, h2, h3, h4, kepPenalty, kepSoe, kepDoe, kepOedot]
    | 3 => simp [kepQ, LyapArgs.setOe, h2, h3, h4, kepPenalty, kepSoe, kepDoe, kepOedot]
    | 4 => simp [kepQ, LyapArgs.setOe, h2, h3, h4, kepPenalty, kepSoe, kepDoe, kepOedot]
  simp only [partialQ, diff_real, this]
  exact deriv_const _ _

theorem meeQ_shape (A : LyapArgs ℝ) (h3 : A.woe 3 = 0) (h4 : A.woe 4 = 0)
    (j : Fin 5) (hj : 3 ≤ j) : partialQ meeQ A j = 0 := by
  have : (fun x => meeQ (A.setOe j x)) = fun _ => meeQ A := by
    funext x
    match j with
    | 0 => exact absurd hj (by decide)
    | 1 => exact absurd hj (by decide)
    | 2 => exact absurd hj (by decide)
    | 3 => simp [meeQ, LyapArgs.setOe, h3, h4, meePenalty, meeSoe, meeDoe, meeOedot]
    | 4 => simp [meeQ, LyapArgs.setOe, h3, h4, meePenalty, meeSoe, meeDoe, meeOedot]
  simp only [partialQ, diff_real, this]
  exact deriv_const _ _

/-- **C82, Keplerian.** If only semi-major axis and eccentricity have weights and no perturbation acts
out of the orbit plane, every thrusting step has out-of-plane angle zero, and inclination and RAAN of all
recorded states are the initial ones. -/
theorem C82_keplerian [PyNan ℝ] {Q Q' : QLaw ℝ} {etaA etaR : EtaArg ℝ} {fuel : ℕ} {P : Problem ℝ}
    {H : Hist ℝ} (h : Q.solve etaA etaR fuel = some (Q', none)) (hP : Q.prob = some P)
    (hH : Q'.hist = some H) (hd : Q.cfg.dyn = dynOf .keplerian)
    (hw : P.woe 2 = 0 ∧ P.woe 3 = 0 ∧ P.woe 4 = 0)
    (hpt : ∀ t x p, PerturbationIs Q.cfg t x p → p 2 = 0)
    (hb : InBounds Q.cfg P.oe0 fun j => j = 2 ∨ j = 3) :
    (∀ (k : ℕ) (x : Fin 6 → ℝ), H.states[k]? = some x → x 2 = P.oe0 2 ∧ x 3 = P.oe0 3) ∧
    ∀ (k : ℕ) (a b : ℝ), H.controls[k]? = some (a, b, 1) → b = 0 := by
  have := frozen h hP hH hd hpt hb ?_ ?_
  · exact ⟨fun k x hx => ⟨this.1 k x hx 2 (Or.inl rfl), this.1 k x hx 3 (Or.inr rfl)⟩, this.2⟩
  · rintro A j (rfl | rfl) <;> simp [candPsi, kepPsi]
  · intro A hA _
    simp only [candQ, candPsi, thrustGrad, Fin.sum_univ_five]
    rw [kepQ_shape A (by rw [hA]; exact hw.1) (by rw [hA]; exact hw.2.1) (by rw [hA]; exact hw.2.2) 2
        (by decide),
      kepQ_shape A (by rw [hA]; exact hw.1) (by rw [hA]; exact hw.2.1) (by rw [hA]; exact hw.2.2) 3
        (by decide),
      kepQ_shape A (by rw [hA]; exact hw.1) (by rw [hA]; exact hw.2.1) (by rw [hA]; exact hw.2.2) 4
        (by decide)]
    simp [kepPsi]

/-- **C82, MEE.** If only semi-major axis, `f` and `g` have weights, no perturbation acts out of the
orbit plane and the orbit starts in the reference plane (`h = k = 0`), it stays there, and every
thrusting step has out-of-plane angle zero. -/
theorem C82_mee [PyNan ℝ] {Q Q' : QLaw ℝ} {etaA etaR : EtaArg ℝ} {fuel : ℕ} {P : Problem ℝ}
    {H : Hist ℝ} (h : Q.solve etaA etaR fuel = some (Q', none)) (hP : Q.prob = some P)
    (hH : Q'.hist = some H) (hd : Q.cfg.dyn = dynOf .meeWithA) (hw : P.woe 3 = 0 ∧ P.woe 4 = 0)
    (hpt : ∀ t x p, PerturbationIs Q.cfg t x p → p 2 = 0) (h0 : P.oe0 3 = 0 ∧ P.oe0 4 = 0)
    (hb : InBounds Q.cfg P.oe0 fun j => j = 3 ∨ j = 4) :
    (∀ (k : ℕ) (x : Fin 6 → ℝ), H.states[k]? = some x → x 3 = 0 ∧ x 4 = 0) ∧
    ∀ (k : ℕ) (a b : ℝ), H.controls[k]? = some (a, b, 1) → b = 0 := by
  have := frozen h hP hH hd hpt hb ?_ ?_
  · exact ⟨fun k x hx => ⟨(this.1 k x hx 3 (Or.inl rfl)).trans h0.1,
      (this.1 k x hx 4 (Or.inr rfl)).trans h0.2⟩, this.2⟩
  · rintro A j (rfl | rfl) <;> simp [candPsi, meePsi]
  · intro A hA hx
    have e3 : A.oe 3 = 0 := (hx 3 (Or.inl rfl)).trans h0.1
    have e4 : A.oe 4 = 0 := (hx 4 (Or.inr rfl)).trans h0.2
    simp only [candQ, candPsi, thrustGrad, Fin.sum_univ_five]
    rw [meeQ_shape A (by rw [hA]; exact hw.1) (by rw [hA]; exact hw.2) 3 (by decide),
      meeQ_shape A (by rw [hA]; exact hw.1) (by rw [hA]; exact hw.2) 4 (by decide)]
    simp [meePsi, e3, e4]

section examples
open CoastSample

/-- the Keplerian run `Burn.run` meets the hypotheses of C80, C81 and C82 -/
example : ∃ Q' H q d, (Burn.obj false).solve (.flt 0) (.flt 0) 2 = some (Q', none) ∧
    (Burn.obj false).prob = some Burn.prob ∧ Q'.hist = some H ∧
    (Burn.obj false).cfg.dyn = dynOf .keplerian ∧ H.controls[0]? = some (0, 0, 1) ∧
    H.times[0]? = some 0 ∧ H.times[1]? = some 1 ∧ H.states[0]? = some Burn.prob.oe0 ∧
    (∃ y, H.states[1]? = some y) ∧ H.masses[0]? = some 1 ∧ H.qs[0]? = some q ∧ H.dqdts[0]? = some d ∧
    0 < Burn.prob.tmax ∧ (Burn.prob.woe 2 = 0 ∧ Burn.prob.woe 3 = 0 ∧ Burn.prob.woe 4 = 0) ∧
    (∀ t x p, PerturbationIs (Burn.obj false).cfg t x p → p 2 = 0) ∧
    InBounds (Burn.obj false).cfg Burn.prob.oe0 fun j => j = 2 ∨ j = 3 := by
  obtain ⟨Q', H, y, h1, h2, -, -, h3, h4, -, h5, h6, -⟩ := Burn.run
  have hc : H.controls[0]? = some (0, 0, 1) := by rw [h3]; rfl
  obtain ⟨-, -, o, -, -, -, -, -, hq, hd, -⟩ := C80_law_applied h1 rfl h2 hc
    (show H.times[0]? = some 0 by rw [h5]; rfl) (show H.states[0]? = some Burn.prob.oe0 by rw [h4]; rfl)
    (show H.masses[0]? = some 1 by rw [h6]; rfl)
  refine ⟨Q', H, o.q, o.dqdt, h1, rfl, h2, rfl, hc, by rw [h5]; rfl, by rw [h5]; rfl, by rw [h4]; rfl,
    ⟨y, by rw [h4]; rfl⟩, by rw [h6]; rfl, hq, hd, by norm_num [Burn.prob], ⟨rfl, rfl, rfl⟩, ?_,
    fun _ => 0, fun _ => 9, ?_, ?_, ?_⟩
  · intro t x p hp
    have : p = ![((0 : ℕ) : ℝ), ((0 : ℕ) : ℝ), ((0 : ℕ) : ℝ)] := hp
    rw [this]; simp
  · intro i; fin_cases i <;> rfl
  · intro i; fin_cases i <;> rfl
  · rintro j (rfl | rfl) <;> constructor <;> simp [Burn.prob]

/-- the equinoctial run `MeeBurn.run` meets the hypotheses of C80, C81 and C82 -/
example : ∃ Q' H q d, MeeBurn.obj.solve (.flt 0) (.flt 0) 2 = some (Q', none) ∧
    MeeBurn.obj.prob = some MeeBurn.prob ∧ Q'.hist = some H ∧
    MeeBurn.obj.cfg.dyn = dynOf .meeWithA ∧ H.controls[0]? = some (0, 0, 1) ∧
    H.times[0]? = some 0 ∧ H.times[1]? = some 1 ∧ H.states[0]? = some MeeBurn.prob.oe0 ∧
    (∃ y, H.states[1]? = some y) ∧ H.masses[0]? = some 1 ∧ H.qs[0]? = some q ∧ H.dqdts[0]? = some d ∧
    0 < MeeBurn.prob.tmax ∧ (MeeBurn.prob.woe 3 = 0 ∧ MeeBurn.prob.woe 4 = 0) ∧
    (MeeBurn.prob.oe0 3 = 0 ∧ MeeBurn.prob.oe0 4 = 0) ∧
    (∀ t x p, PerturbationIs MeeBurn.obj.cfg t x p → p 2 = 0) ∧
    InBounds MeeBurn.obj.cfg MeeBurn.prob.oe0 fun j => j = 3 ∨ j = 4 := by
  obtain ⟨Q', H, y, h1, h2, -, -, h3, h4, -, -, h5, h6, -⟩ := MeeBurn.run
  have hc : H.controls[0]? = some (0, 0, 1) := by rw [h3]; rfl
  obtain ⟨-, -, o, -, -, -, -, -, hq, hd, -⟩ := C80_law_applied h1 rfl h2 hc
    (show H.times[0]? = some 0 by rw [h5]; rfl) (show H.states[0]? = some MeeBurn.prob.oe0 by rw [h4]; rfl)
    (show H.masses[0]? = some 1 by rw [h6]; rfl)
  refine ⟨Q', H, o.q, o.dqdt, h1, rfl, h2, rfl, hc, by rw [h5]; rfl, by rw [h5]; rfl, by rw [h4]; rfl,
    ⟨y, by rw [h4]; rfl⟩, by rw [h6]; rfl, hq, hd, by norm_num [MeeBurn.prob, Burn.prob], ⟨rfl, rfl⟩,
    ⟨rfl, rfl⟩, ?_, fun _ => 0, fun _ => 9, ?_, ?_, ?_⟩
  · intro t x p hp
    have : p = ![((0 : ℕ) : ℝ), ((0 : ℕ) : ℝ), ((0 : ℕ) : ℝ)] := hp
    rw [this]; simp
  · intro i; fin_cases i <;> rfl
  · intro i; fin_cases i <;> rfl
  · rintro j (rfl | rfl) <;> constructor <;> simp [MeeBurn.prob]

end examples

end PyQ
