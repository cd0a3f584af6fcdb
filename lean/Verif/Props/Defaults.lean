import Verif.Model.Defaults
import Verif.Props.Object
import Verif.Props.Thrust
import Verif.Props.Time
import Verif.Props.Mass
import Verif.Props.Rounded

/-! # Construction (C28) and default settings (C106) -/

set_option linter.unusedSectionVars false
set_option maxRecDepth 100000
set_option synthInstance.maxSize 1000

namespace PyQ

section ctor
variable {α : Type} [Add α] [Sub α] [Mul α] [Div α] [Neg α] [NatCast α] [Pow α ℕ]
  [PyTrans α] [PyOrd α] [PyNan α] [SymDiff α] [PyInf α]

/-- the object built from the arguments `A`: every attribute -/
structure Builds (A : CtorArgs α) (Q : QLaw α) : Prop where
  mu : Q.cfg.mu = A.mu ∧ PyOrd.lt ((0 : ℕ) : α) A.mu = true
  rpmin : Q.cfg.rpmin = A.rpmin
  petro : Q.cfg.kPetro = A.kPetro ∧ Q.cfg.mPetro = A.mPetro ∧ Q.cfg.nPetro = A.nPetro ∧
    Q.cfg.rPetro = A.rPetro ∧ Q.cfg.bPetro = A.bPetro
  wp : Q.cfg.wp = A.wp
  type : A.elementsType = "keplerian" ∧ Q.cfg.elementsType = .keplerian ∧
      Q.cfg.dyn = ⟨eomKepGauss, kepLyap, kepDqdt, checkConvergenceKeplerian⟩ ∨
    A.elementsType = "mee_with_a" ∧ Q.cfg.elementsType = .meeWithA ∧
      Q.cfg.dyn = ⟨eomMeeWithAGauss, meeLyap, meeDqdt, checkConvergenceMee⟩
  integrator : A.integrator = "rk4" ∧ Q.cfg.integrator = .rk4 ∨
    A.integrator = "rkf45" ∧ Q.cfg.integrator = .rkf45
  grid : Q.cfg.anomalyGridSize = A.anomalyGridSize
  tol : A.tolOe = none ∧ (Q.cfg.tolOe = fun _ => rat 1 1000) ∨ A.tolOe = some (List.ofFn Q.cfg.tolOe)
  relaxed : ∀ i, Q.cfg.tolOeRelaxed i = A.relaxedTolFactor * Q.cfg.tolOe i
  factor : PyOrd.le ((1 : ℕ) : α) A.relaxedTolFactor = true
  exitAtRelaxed : Q.cfg.exitAtRelaxed = A.exitAtRelaxed
  oeMin : (∀ l, A.oeMin = some l → Q.cfg.oeMin = l) ∧ (A.oeMin = none →
    Q.cfg.oeMin = if A.elementsType = "keplerian"
      then [rat 5 100, rat 1 10000, rat 1 10000, rat 1 10000, rat 1 10000, rat 1 100000000]
      else [rat 5 100, -PyInf.inf, -PyInf.inf, -PyInf.inf, -PyInf.inf])
  oeMax : (∀ l, A.oeMax = some l → Q.cfg.oeMax = l) ∧ (A.oeMax = none →
    Q.cfg.oeMax = if A.elementsType = "keplerian"
      then [((100 : ℕ) : α), rat 95 100, PyTrans.pi, PyInf.inf, PyInf.inf, PyInf.inf]
      else [((100 : ℕ) : α), ((10 : ℕ) : α), ((10 : ℕ) : α), PyInf.inf, PyInf.inf, PyInf.inf])
  nan : Q.cfg.nanAnglesThreshold = A.nanAnglesThreshold
  steps : Q.cfg.stepMin = rat 1 10000 ∧ Q.cfg.stepMax = ((2 : ℕ) : α) ∧ Q.cfg.odeTol = rat 1 100000
  sundman : Q.cfg.useSundman = A.useSundman
  perturbations : Q.cfg.perturbations = A.perturbations
  fresh : Q.prob = none ∧ Q.ready = false ∧ Q.converge = false ∧ Q.exitcode = 0 ∧ Q.hist = none

theorem ctorTol_cases (t : Option (List α)) :
    (ctorTol t = .error .assertion ∧ ∃ l, t = some l ∧ l.length ≠ 5) ∨
    ∃ v, ctorTol t = .ok v ∧ ((t = none ∧ v = fun _ => rat 1 1000) ∨ t = some (List.ofFn v)) := by
  match t with
  | none => right; exact ⟨_, rfl, Or.inl ⟨rfl, rfl⟩⟩
  | some [a, b, c, d, e] => right; exact ⟨_, rfl, Or.inr (by simp [List.ofFn_succ])⟩
  | some [] | some [_] | some [_, _] | some [_, _, _] | some [_, _, _, _] =>
    left; exact ⟨rfl, _, rfl, by simp⟩
  | some (_ :: _ :: _ :: _ :: _ :: _ :: _) => left; exact ⟨rfl, _, rfl, by simp⟩

/-- **C28**, construction: `QLaw(...)` either raises `AssertionError`, exactly if `relaxed_tol_factor >= 1` or
`mu > 0` fails, the element type or the integrator is unknown, or `tol_oe` is given without five components; or it
stores its arguments, with the documented defaults for the tolerance and the element bounds. -/
theorem C28_constructor (A : CtorArgs α) :
    (QLaw.new A = .error .assertion ∧ (PyOrd.le ((1 : ℕ) : α) A.relaxedTolFactor = false ∨
      PyOrd.lt ((0 : ℕ) : α) A.mu = false ∨ (A.elementsType ≠ "keplerian" ∧ A.elementsType ≠ "mee_with_a") ∨
      (A.integrator ≠ "rk4" ∧ A.integrator ≠ "rkf45") ∨ ∃ l, A.tolOe = some l ∧ l.length ≠ 5)) ∨
    ∃ Q, QLaw.new A = .ok Q ∧ Builds A Q := by
  unfold QLaw.new
  simp only [bind, Except.bind, pure, Except.pure]
  cases h1 : PyOrd.le ((1 : ℕ) : α) A.relaxedTolFactor with
  | false => left; exact ⟨by simp, Or.inl rfl⟩
  | true =>
  cases h2 : PyOrd.lt ((0 : ℕ) : α) A.mu with
  | false => left; exact ⟨by simp, Or.inr (Or.inl rfl)⟩
  | true =>
  simp only [if_true, elemType_eq, integrator_eq]
  have key : ∀ et, (A.elementsType = "keplerian" ∧ et = .keplerian ∨ A.elementsType = "mee_with_a" ∧ et = .meeWithA) →
      ∀ ig, (A.integrator = "rk4" ∧ ig = .rk4 ∨ A.integrator = "rkf45" ∧ ig = .rkf45) →
      ∀ tol, ((A.tolOe = none ∧ tol = fun _ => rat 1 1000) ∨ A.tolOe = some (List.ofFn tol)) →
      Builds A (builtObj A et ig tol) := by
    intro et he ig hi tol ht
    constructor
    · exact ⟨rfl, h2⟩
    · rfl
    · exact ⟨rfl, rfl, rfl, rfl, rfl⟩
    · rfl
    · rcases he with ⟨e, rfl⟩ | ⟨e, rfl⟩
      · exact Or.inl ⟨e, rfl, rfl⟩
      · exact Or.inr ⟨e, rfl, rfl⟩
    · exact hi
    · rfl
    · exact ht
    · exact fun i => rfl
    · exact h1
    · rfl
    · refine ⟨fun l hl => by simp [builtObj, hl], fun hn => ?_⟩
      rcases he with ⟨e, rfl⟩ | ⟨e, rfl⟩
      · rw [if_pos e]; simp only [builtObj, hn, Option.getD_none, defaultOeMin]; norm_num
      · rw [if_neg (by rw [e]; decide)]; simp only [builtObj, hn, Option.getD_none, defaultOeMin]
    · refine ⟨fun l hl => by simp [builtObj, hl], fun hn => ?_⟩
      rcases he with ⟨e, rfl⟩ | ⟨e, rfl⟩
      · rw [if_pos e]; simp only [builtObj, hn, Option.getD_none, defaultOeMax]
      · rw [if_neg (by rw [e]; decide)]; simp only [builtObj, hn, Option.getD_none, defaultOeMax]
    · rfl
    · exact ⟨by simp only [builtObj]; norm_num, rfl, by simp only [builtObj]; norm_num⟩
    · rfl
    · rfl
    · exact ⟨rfl, rfl, rfl, rfl, rfl⟩
  rcases ctorTol_cases A.tolOe with ⟨e, hl⟩ | ⟨v, e, hv⟩
  · left
    refine ⟨?_, Or.inr (Or.inr (Or.inr (Or.inr hl)))⟩
    by_cases k1 : A.elementsType = "keplerian" <;> by_cases k2 : A.elementsType = "mee_with_a" <;>
      by_cases i1 : A.integrator = "rk4" <;> by_cases i2 : A.integrator = "rkf45" <;> simp [k1, k2, i1, i2, e]
  · simp only [e]
    by_cases k1 : A.elementsType = "keplerian"
    · by_cases i1 : A.integrator = "rk4"
      · right
        simp only [k1, i1, if_true]
        exact ⟨_, rfl, key _ (Or.inl ⟨k1, rfl⟩) _ (Or.inl ⟨i1, rfl⟩) _ hv⟩
      · by_cases i2 : A.integrator = "rkf45"
        · right
          simp only [k1, if_true, if_neg i1, if_pos i2]
          exact ⟨_, rfl, key _ (Or.inl ⟨k1, rfl⟩) _ (Or.inr ⟨i2, rfl⟩) _ hv⟩
        · left
          simp only [k1, if_true, if_neg i1, if_neg i2]
          exact ⟨trivial, Or.inr (Or.inr (Or.inr (Or.inl ⟨i1, i2⟩)))⟩
    · by_cases k2 : A.elementsType = "mee_with_a"
      · by_cases i1 : A.integrator = "rk4"
        · right
          simp only [if_neg k1, if_pos k2, i1, if_true]
          exact ⟨_, rfl, key _ (Or.inr ⟨k2, rfl⟩) _ (Or.inl ⟨i1, rfl⟩) _ hv⟩
        · by_cases i2 : A.integrator = "rkf45"
          · right
            simp only [if_neg k1, if_pos k2, if_neg i1, if_pos i2]
            exact ⟨_, rfl, key _ (Or.inr ⟨k2, rfl⟩) _ (Or.inr ⟨i2, rfl⟩) _ hv⟩
          · left
            simp only [if_neg k1, if_pos k2, if_neg i1, if_neg i2]
            exact ⟨trivial, Or.inr (Or.inr (Or.inr (Or.inl ⟨i1, i2⟩)))⟩
      · left
        simp only [if_neg k1, if_neg k2]
        exact ⟨trivial, Or.inr (Or.inr (Or.inl ⟨k1, k2⟩))⟩

end ctor

section nan
variable {α : Type} [Add α] [Sub α] [Mul α] [Div α] [Neg α] [NatCast α] [Pow α ℕ]
  [PyTrans α] [PyOrd α] [PyNan α]

/-- **C07**, counting: the recorded steps at which the control law returned NaN angles with the duty on are at most
`max nan_angles_threshold 0`, whatever the exit code. -/
theorem C07_nan_count {Q Q' : QLaw α} {etaA etaR : EtaArg α} {fuel : ℕ} {P : Problem α} {H : Hist α}
    (h : Q.solve etaA etaR fuel = some (Q', none)) (hP : Q.prob = some P) (hH : Q'.hist = some H) :
    (((List.range H.controls.length).countP fun k =>
      nanAt (envOf Q P etaA etaR) ((envOf Q P etaA etaR).after k) : ℕ) : ℤ) ≤ max Q.cfg.nanAnglesThreshold 0 := by
  obtain ⟨n, tr, D, r, hr, _, v⟩ := solve_view h hP hH
  have hcount := nNan_count (fun k => nanAt (envOf Q P etaA etaR) (tr k)) v.trace
    (fun k hk => nanAt_rec (v.trace.step k hk))
  have hb := nNan_bound v.trace
  have hlen : H.controls.length = n := by rw [v.controls]; simp
  rw [hlen]
  have hcg : ((List.range n).countP fun k =>
      nanAt (envOf Q P etaA etaR) ((envOf Q P etaA etaR).after k)) =
      (List.range n).countP fun k => nanAt (envOf Q P etaA etaR) (tr k) := by
    apply List.countP_congr
    intro k hk
    have := List.mem_range.mp hk
    rw [v.trace.after k (by omega)]
  rw [hcg, ← hcount]
  exact hb

end nan

section relaxed
variable {α : Type} [Add α] [Sub α] [Mul α] [Div α] [Neg α] [NatCast α] [Pow α ℕ]
  [PyTrans α] [PyOrd α] [PyNan α] [SymDiff α] [PyInf α]

/-- **C106**, relaxed convergence: with default settings, in any arithmetic, a run ends with exit code 2 only when exactly
100 of the recorded states after the first are within the relaxed tolerances, the last one among them. -/
theorem C106_relaxed {Q0 Q Q' : QLaw α} {A : ProblemArgs α} {etaA etaR : EtaArg α} {fuel : ℕ} {H : Hist α}
    (h0 : QLaw.new CtorArgs.default = .ok Q0) (h1 : Q0.setProblem A = .ok Q)
    (h : Q.solve etaA etaR fuel = some (Q', none)) (hH : Q'.hist = some H) (hx : Q'.exitcode = 2) :
    ∃ P, Q.prob = some P ∧
      H.states.tail.countP (Converged (envOf Q P etaA etaR) Q.cfg.tolOeRelaxed) = 100 ∧
      ∃ y, H.states.getLast? = some y ∧ Converged (envOf Q P etaA etaR) Q.cfg.tolOeRelaxed y = true ∧
        Converged (envOf Q P etaA etaR) Q.cfg.tolOe y = false := by
  rcases C28_constructor (CtorArgs.default : CtorArgs α) with ⟨h2, -⟩ | ⟨Q1, h2, b⟩
  · rw [h0] at h2; cases h2
  rw [h0] at h2
  injection h2 with h2
  subst h2
  obtain ⟨P, rfl⟩ : ∃ P, Q = { Q0 with prob := some P, ready := true } := by
    rcases C28_set_problem Q0 A with ⟨h3, -⟩ | ⟨P, h3, -⟩
    · simp only [QLaw.call, h1, ofExcept, Option.some.injEq, Prod.mk.injEq] at h3
      exact absurd h3.2 (by simp)
    · simp only [QLaw.call, h1, ofExcept, Option.some.injEq, Prod.mk.injEq, and_true] at h3
      exact ⟨P, h3⟩
  have hf : ({ Q0 with prob := some P, ready := true } : QLaw α).Fresh := ⟨b.fresh.2.2.2.1, b.fresh.2.2.1⟩
  obtain ⟨P1, H1, n, hP1, hH1, hA, hl, hc0, hc, hn⟩ := C04_relaxed_convergence hf h hx
  obtain ⟨P2, H2, n2, hP2, hH2, hA2, -, -, -, hst⟩ := C03_strict_convergence hf h
  injection hP1 with hP1
  injection hP2 with hP2
  subst hP1
  subst hP2
  rw [hH] at hH1 hH2
  injection hH1 with hH1
  injection hH2 with hH2
  subst hH1
  subst hH2
  have hnn : n2 = n + 1 := by
    have a := hA.times
    have c := hA2.times
    omega
  subst hnn
  have ht : Q0.cfg.elementsType = .meeWithA := by
    rcases b.type with ⟨h, -⟩ | ⟨-, h, -⟩
    · exact absurd h (by decide : ¬("mee_with_a" = "keplerian"))
    · exact h
  refine ⟨P, rfl, ?_, _, hl, hc, hc0⟩
  rw [hst ht]
  have he : Q0.cfg.exitAtRelaxed = 100 := b.exitAtRelaxed
  rw [show ({ Q0 with prob := some P, ready := true } : QLaw α).cfg = Q0.cfg from rfl, he] at hn
  rw [List.range_succ_eq_map, List.map_cons, List.tail_cons, List.map_map, List.countP_map]
  exact_mod_cast hn

end relaxed

/-! ## C106: default settings -/

section exact
variable {K : Type} [Field K] [LinearOrder K] [IsStrictOrderedRing K] [PyTrans (Ext K)]
  [SymDiff (Ext K)] [PyInf (Ext K)]

theorem thrust_sum (θ : ℕ → ℕ) (n : ℕ) (h : ∀ k < n, θ k = 0 ∨ θ k = 1) :
    ∑ k ∈ Finset.range n, (if θ k = 1 then (1 : K) / 10 else 0) =
      ((n : K) - ((List.range n).countP fun k => θ k = 0 : ℕ)) / 10 := by
  induction n with
  | zero => simp
  | succ n ih =>
    rw [Finset.sum_range_succ, ih fun k hk => h k (by omega), List.range_succ, List.countP_append]
    rcases h n (by omega) with h | h
    · simp [h]
    · simp [h]; ring

/-- **C106.** `QLaw()` succeeds, and `set_problem(oe0, oeT, mass0, tmax, mdot)` with six initial elements succeeds;
the object uses modified equinoctial elements, rk4, tolerance `1e-3` and relaxed tolerance `1e-2`. `solve()` then returns
within `10 ^ 6 + 1` iterations. If no exception is raised, the recorded times are `0, 0.1, 0.2, ...`, the battery stays
full, and every step thrusts except at most ten, recorded as `(0, 0, 0)`, where the control law returned NaN; so the
propellant used after `n` steps is that of `n - c` full steps, `c ≤ 10`. -/
theorem C106_defaults (oe0 oeT : List (Ext K)) (m0 q : K) (tmax : Ext K) (h6 : oe0.length = 6) :
    ∃ Q0 Q : QLaw (Ext K), QLaw.new CtorArgs.default = .ok Q0 ∧
      Q0.setProblem (.required oe0 oeT (.fin m0) tmax (.fin q)) = .ok Q ∧
      Q.cfg.elementsType = .meeWithA ∧ Q.cfg.integrator = .rk4 ∧ (∀ i, Q.cfg.tolOe i = .fin (1 / 1000)) ∧
      (∀ i, Q.cfg.tolOeRelaxed i = .fin (1 / 100)) ∧
      Q.solve .default .default (10 ^ 6 + 1) ≠ none ∧
      ∀ fuel Q' H, Q.solve .default .default fuel = some (Q', none) → Q'.hist = some H →
        ∃ n ≤ 10 ^ 6, H.times = (List.range (n + 1)).map (fun k : ℕ => Ext.fin ((k : K) / 10)) ∧
          H.battery = List.replicate (n + 1) (.fin 1) ∧ H.controls.length = n ∧
          (∀ x ∈ H.controls, x.2.2 = 1 ∨ x = (.fin 0, .fin 0, 0)) ∧
          ∃ c ≤ 10, H.controls.countP (fun x => x.2.2 = 0) = c ∧
            H.masses.getLast? = some (.fin (m0 - q * ((n : K) - c) / 10)) := by
  rcases C28_constructor (CtorArgs.default : CtorArgs (Ext K)) with ⟨-, h | h | ⟨-, h⟩ | ⟨h, -⟩ | ⟨l, h, -⟩⟩ | ⟨Q0, hQ0, b⟩
  · exfalso
    change PyOrd.le ((1 : ℕ) : Ext K) ((10 : ℕ) : Ext K) = false at h
    rw [Ext.natCast_eq, Ext.natCast_eq, Ext.le_fin] at h
    norm_num at h
  · exfalso
    change PyOrd.lt ((0 : ℕ) : Ext K) ((1 : ℕ) : Ext K) = false at h
    rw [Ext.natCast_eq, Ext.natCast_eq, Ext.lt_fin] at h
    norm_num at h
  · exact absurd rfl h
  · exact absurd rfl h
  · cases h
  have hr : ∀ a b : ℕ, b ≠ 0 → (rat a b : Ext K) = .fin ((a : K) / b) := fun a b hb => by
    unfold rat
    rw [Ext.natCast_eq, Ext.natCast_eq, Ext.fin_div _ _ (Nat.cast_ne_zero.2 hb)]
  rcases C28_set_problem Q0 (.required oe0 oeT (.fin m0) tmax (.fin q)) with ⟨-, h | h | ⟨w, h, -⟩⟩ | ⟨P, hP, st⟩
  · exact absurd h6 h
  · exfalso
    change PyOrd.le (rat 1 100 : Ext K) (rat 1 10) = false at h
    rw [hr 1 100 (by norm_num), hr 1 10 (by norm_num), Ext.le_fin] at h
    norm_num at h
  · cases h
  have hQ : Q0.setProblem (.required oe0 oeT (.fin m0) tmax (.fin q)) = .ok { Q0 with prob := some P, ready := true } := by
    simp only [QLaw.call] at hP
    cases hc : Q0.setProblem (.required oe0 oeT (.fin m0) tmax (.fin q)) with
    | error e => rw [hc] at hP; simp [ofExcept] at hP
    | ok Q => rw [hc] at hP; simp only [ofExcept, Option.some.injEq, Prod.mk.injEq, and_true] at hP; rw [hP]
  have htol : ∀ i, Q0.cfg.tolOe i = .fin (1 / 1000) := by
    intro i
    rcases b.tol with ⟨-, e⟩ | e
    · rw [e, hr 1 1000 (by norm_num)]; norm_num
    · cases e
  have hB : FinBattery P 1 (1 / 5) 1 0 0 := by
    obtain ⟨h1, h2, h3, h4, h5⟩ := st.battery
    refine ⟨h1.trans ?_, h2.trans ?_, h3.trans ?_, h4.trans ?_, h5.trans ?_⟩
    · exact (Ext.natCast_eq 1).trans (by rw [Nat.cast_one])
    · exact (hr 2 10 (by norm_num)).trans (by norm_num)
    · exact (Ext.natCast_eq 1).trans (by rw [Nat.cast_one])
    · exact (Ext.natCast_eq 0).trans (by rw [Nat.cast_zero])
    · exact (Ext.natCast_eq 0).trans (by rw [Nat.cast_zero])
  have hst : P.tStep = .fin (1 / 10) := st.tStep.trans ((hr 1 10 (by norm_num)).trans (by norm_num))
  have hT : P.tfMax = .fin (100000) := st.tfMax.trans ((Ext.natCast_eq 100000).trans (by norm_num))
  have hOn : P.dutyOn = .fin (10 ^ 16) := st.duty.1.trans ((Ext.natCast_eq _).trans (by norm_num))
  have hS : Q0.cfg.useSundman = false := b.sundman
  have hz : (EtaArg.default : EtaArg (Ext K)) = .flt (.fin 0) := by
    unfold EtaArg.default; rw [Ext.natCast_eq, Nat.cast_zero]
  refine ⟨Q0, _, hQ0, hQ, ?_, ?_, htol, ?_, ?_, ?_⟩
  · rcases b.type with ⟨h, -⟩ | ⟨-, h, -⟩
    · exact absurd h (by decide : ¬("mee_with_a" = "keplerian"))
    · exact h
  · rcases b.integrator with ⟨-, h⟩ | ⟨h, -⟩
    · exact h
    · exact absurd h (by decide : ¬("rk4" = "rkf45"))
  · intro i
    rw [show ({ Q0 with prob := some P, ready := true } : QLaw (Ext K)).cfg = Q0.cfg from rfl, b.relaxed i, htol i]
    show ((10 : ℕ) : Ext K) * .fin (1 / 1000) = _
    rw [Ext.natCast_eq, Ext.fin_mul]; norm_num
  · refine C11_terminates (Q := { Q0 with prob := some P, ready := true }) (P := P) rfl hB hS hst (by norm_num) le_rfl hT (10 ^ 6) ?_
    rw [if_pos rfl, abs_of_pos (by norm_num)]
    norm_num
  · intro fuel Q' H hs hH
    rw [hz] at hs
    obtain ⟨n, τ, ht, h0, hk⟩ := C09_time_forward hs rfl hH hB hS hst (by norm_num) le_rfl
    have hlin : ∀ k ≤ n, τ k = (k : K) / 10 := by
      intro k
      induction k with
      | zero => intro _; rw [h0]; simp
      | succ k ih =>
        intro hkn
        obtain ⟨h1, h2, h3⟩ := hk k hkn
        have : τ (k + 1) - τ k = 1 / 10 := by
          rcases h2.lt_or_eq with h | h
          · obtain ⟨x, -, -, h4⟩ := h3 h
            rw [div_zero] at h4
            linarith
          · exact h
        rw [ih (by omega)] at this
        push_cast
        linarith
    obtain ⟨n', tr, D, r, hr', _, v⟩ := solve_view hs rfl hH
    have hn : n' = n := by
      have := congrArg List.length v.times
      rw [ht] at this
      simpa using this.symm
    subst hn
    have hlen : H.controls.length = n' := by rw [v.controls]; simp
    have hon := C20_defaults hs rfl hH hB hOn hT (by rw [abs_of_pos (by norm_num)]; norm_num)
      (s1 := 1 / 10000) (s2 := 2) (b.steps.1.trans ((hr 1 10000 (by norm_num)).trans (by norm_num)))
      (b.steps.2.1.trans ((Ext.natCast_eq 2).trans (by norm_num)))
    have thr : ∀ k a c θ, H.controls[k]? = some (a, c, θ) →
        (nanAt (envOf { Q0 with prob := some P, ready := true } P (.flt (.fin 0)) (.flt (.fin 0)))
          ((envOf { Q0 with prob := some P, ready := true } P (.flt (.fin 0)) (.flt (.fin 0))).after k) = true ∧
          (a, c, θ) = (.fin 0, .fin 0, 0)) ∨ θ = 1 := by
      intro k a c θ hc
      have hkn := (List.getElem?_eq_some_iff.mp hc).1
      cases hn : nanAt (envOf { Q0 with prob := some P, ready := true } P (.flt (.fin 0)) (.flt (.fin 0)))
          ((envOf { Q0 with prob := some P, ready := true } P (.flt (.fin 0)) (.flt (.fin 0))).after k) with
      | true =>
        obtain ⟨P', H', hP', hH', hall⟩ := C07_nan_steps_coast hs
        rw [hH] at hH'; injection hH' with hH'; subst hH'
        injection hP' with hP'; subst hP'
        have := hall k hkn hn
        rw [hc] at this
        injection this with this
        refine Or.inl ⟨rfl, this.trans ?_⟩
        rw [Ext.natCast_eq, Nat.cast_zero]
      | false =>
        exact Or.inr (C22_no_threshold hs rfl hH (by simp) (by simp) (hon.1 k hkn) hn hc)
    refine ⟨n', ?_, ?_, ?_, hlen, ?_, ?_⟩
    · rcases Nat.eq_zero_or_pos n' with h | h
      · omega
      · have hg := v.trace.guard (n' - 1) (by omega)
        unfold guardB at hg
        have h1 := v.times_get (k := n' - 1) (by omega)
        rw [ht] at h1
        simp only [List.getElem?_map, List.getElem?_range (show n' - 1 < n' + 1 by omega), Option.map_some,
          Option.some.injEq] at h1
        rw [trace_lastTime (v.trace.prefix (show n' - 1 < n' by omega)).1, ← h1,
          show (envOf { Q0 with prob := some P, ready := true } P (.flt (.fin 0)) (.flt (.fin 0))).prob.tfMax =
            .fin 100000 from hT, hlin _ (by omega), Ext.abs_fin, Ext.abs_fin, Ext.lt_fin, decide_eq_true_eq,
          abs_of_nonneg (by positivity), abs_of_pos (by norm_num)] at hg
        have h2 : (((n' - 1 : ℕ)) : K) < 1000000 := by linarith
        have h3 : n' - 1 < 1000000 := by exact_mod_cast h2
        omega
    · rw [ht]
      apply List.map_congr_left
      intro k hk
      rw [hlin k (by have := List.mem_range.1 hk; omega)]
    · rw [List.eq_replicate_iff]
      refine ⟨by rw [v.battery]; simp, hon.2 ?_⟩
      intro t h
      rw [ht] at h
      obtain ⟨k, -, rfl⟩ := List.mem_map.1 h
      exact ⟨_, rfl⟩
    · intro x hx
      obtain ⟨k, hk⟩ := List.getElem?_of_mem hx
      obtain ⟨a, c, θ⟩ := x
      rcases thr k a c θ hk with h | h
      · exact Or.inr h.2
      · exact Or.inl h
    · obtain ⟨μ, θ, hμ, hθ, h01, hμ0, hμs, hμn⟩ := C13_propellant hs rfl hH (st.mass0) (st.mdot) ht
      have hcnt : H.controls.countP (fun x => x.2.2 = 0) = (List.range n').countP fun k => θ k = 0 := by
        have h1 : H.controls.countP (fun x => x.2.2 = 0) = (H.controls.map fun x => x.2.2).countP fun t => t = 0 := by
          rw [List.countP_map]; rfl
        rw [h1, hθ, List.countP_map]; rfl
      refine ⟨_, ?_, rfl, ?_⟩
      · have h1 := C07_nan_count hs rfl hH
        rw [hlen, show ({ Q0 with prob := some P, ready := true } : QLaw (Ext K)).cfg.nanAnglesThreshold = 10 from b.nan] at h1
        have h2 : (List.range n').countP (fun k => θ k = 0) ≤ (List.range n').countP fun k =>
            nanAt (envOf { Q0 with prob := some P, ready := true } P (.flt (.fin 0)) (.flt (.fin 0)))
              ((envOf { Q0 with prob := some P, ready := true } P (.flt (.fin 0)) (.flt (.fin 0))).after k) := by
          apply List.countP_mono_left
          intro k hk h
          have hk' := List.mem_range.1 hk
          have h3 : (H.controls.map fun x => x.2.2)[k]? = some (θ k) := by
            rw [hθ]; simp [hk']
          rw [List.getElem?_map] at h3
          cases hx : H.controls[k]? with
          | none => rw [hx] at h3; cases h3
          | some x =>
            obtain ⟨a, c, t⟩ := x
            rw [hx] at h3
            simp only [Option.map_some, Option.some.injEq] at h3
            rcases thr k a c t hx with h4 | h4
            · exact h4.1
            · simp at h; omega
        rw [hcnt]
        omega
      · rw [hcnt, hμ, List.range_succ, List.map_append, List.map_singleton, List.getLast?_append, hμn]
        have h3 : ∑ k ∈ Finset.range n', (if θ k = 1 then τ (k + 1) - τ k else 0) =
            ∑ k ∈ Finset.range n', (if θ k = 1 then (1 : K) / 10 else 0) := by
          apply Finset.sum_congr rfl
          intro k hk
          have hk' := Finset.mem_range.1 hk
          rw [hlin k (by omega), hlin (k + 1) (by omega)]
          split_ifs
          · push_cast; ring
          · rfl
        rw [h3, thrust_sum θ n' h01]
        simp only [List.getLast?_singleton, Option.some_or]
        congr 2
        ring

end exact

/-- a run with the defaults: one full step, after which the mass is too low -/
example : ((QLaw.new (CtorArgs.default : CtorArgs (Ext ℚ))).toOption.bind fun Q => (Q.setProblem
    (.required [.fin 1, .fin (1 / 10), .fin (1 / 10), .fin (1 / 10), .fin (1 / 10), .fin 0]
      [.fin 2, .fin 0, .fin 0, .fin 0, .fin 0] (.fin 1) (.fin 1) (.fin (19 / 2)))).toOption.bind fun Q =>
    (Q.solve .default .default 2).map fun p =>
      (p.2, p.1.exitcode, p.1.hist.map fun H => (H.times, H.masses, H.battery, H.controls.map fun x => x.2.2))) =
    some (none, -1, some ([.fin 0, .fin (1 / 10)], [.fin 1, .fin (1 / 20)], [.fin 1, .fin 1], [1])) := by
  decide +kernel

section rounded
open Rounding
variable {K : Type} [Field K] [LinearOrder K] [IsStrictOrderedRing K] [Rounding K]
  [PyTrans (Rd K)] [Pow (Rd K) ℕ] [SymDiff (Rd K)] [PyInf (Rd K)]

/-- **C106 with rounding.** If integers up to `10 ^ 5` are represented and rounding has relative error `u ≤ 1e-7` up to
size `10 ^ 6` (single and double precision), `QLaw()`, `set_problem(oe0, oeT, mass0, tmax, mdot)` and `solve()` with six
initial elements return within `2000002` iterations, and the `k`-th recorded time is `k / 10` up to `100001 k u`. -/
theorem C106_rounded (hN : ∀ n : ℕ, n ≤ 10 ^ 5 → rnd (n : K) = .fin (n : K)) {u : K} (hu : RelErr u (10 ^ 6))
    (hu0 : 0 ≤ u) (hu1 : u ≤ 1 / 10 ^ 7) (oe0 oeT : List (Rd K)) (mass0 tmax mdot : Rd K) (h6 : oe0.length = 6) :
    ∃ Q0 Q : QLaw (Rd K), QLaw.new CtorArgs.default = .ok Q0 ∧
      Q0.setProblem (.required oe0 oeT mass0 tmax mdot) = .ok Q ∧
      Q.solve .default .default 2000002 ≠ none ∧
      ∀ fuel Q' H, Q.solve .default .default fuel = some (Q', none) → Q'.hist = some H →
        ∃ (n : ℕ) (τ : ℕ → K), H.times.map Rd.val = (List.range (n + 1)).map (fun k => Ext.fin (τ k)) ∧
          n ≤ 2000001 ∧ ∀ k ≤ n, |τ k - (k : K) / 10| ≤ (k : K) * (u * 100001) := by
  have nat : ∀ n : ℕ, n ≤ 10 ^ 5 → ((n : ℕ) : Rd K).val = .fin (n : K) := fun n hn => by
    rw [Rd.val_natCast, Ext.natCast_eq, roundE_fin, hN n hn]
  have hr : ∀ a b : ℕ, a ≤ b → b ≠ 0 → b ≤ 10 ^ 5 → ∃ x, (rat a b : Rd K).val = .fin x ∧
      |x - (a : K) / b| ≤ u * ((a : K) / b) := fun a b hab hb hb5 => by
    have hb0 : (0 : K) < b := by exact_mod_cast Nat.pos_of_ne_zero hb
    have hq : 0 ≤ (a : K) / b := by positivity
    have hq1 : (a : K) / b ≤ 1 := by rw [div_le_one hb0]; exact_mod_cast hab
    obtain ⟨x, h1, h2⟩ := hu ((a : K) / b) (by rw [abs_of_nonneg hq]; linarith)
    refine ⟨x, ?_, by rwa [abs_of_nonneg hq] at h2⟩
    unfold rat
    rw [Rd.val_div, nat a (hab.trans hb5), nat b hb5, Ext.fin_div _ _ hb0.ne', roundE_fin, h1]
  rcases C28_constructor (CtorArgs.default : CtorArgs (Rd K)) with ⟨-, h | h | ⟨-, h⟩ | ⟨h, -⟩ | ⟨l, h, -⟩⟩ | ⟨Q0, hQ0, b⟩
  · exfalso
    change PyOrd.le ((1 : ℕ) : Rd K) ((10 : ℕ) : Rd K) = false at h
    rw [Rd.le_val, nat 1 (by norm_num), nat 10 (by norm_num), Ext.le_fin] at h
    norm_num at h
  · exfalso
    change PyOrd.lt ((0 : ℕ) : Rd K) ((1 : ℕ) : Rd K) = false at h
    rw [Rd.lt_val, nat 0 (by norm_num), nat 1 (by norm_num), Ext.lt_fin] at h
    norm_num at h
  · exact absurd rfl h
  · exact absurd rfl h
  · cases h
  obtain ⟨h, hh, he⟩ := hr 1 10 (by norm_num) (by norm_num) (by norm_num)
  obtain ⟨c, hc, -⟩ := hr 2 10 (by norm_num) (by norm_num) (by norm_num)
  have he' : |h - 1 / 10| ≤ u / 10 := by push_cast at he; exact he.trans (le_of_eq (by ring))
  have hb := abs_le.1 he'
  rcases C28_set_problem Q0 (.required oe0 oeT mass0 tmax mdot) with ⟨-, h' | h' | ⟨w, h', -⟩⟩ | ⟨P, hP, st⟩
  · exact absurd h6 h'
  · exfalso
    change PyOrd.le (rat 1 100 : Rd K) (rat 1 10) = false at h'
    obtain ⟨y, hy, hye⟩ := hr 1 100 (by norm_num) (by norm_num) (by norm_num)
    rw [Rd.le_val, hy, hh, Ext.le_fin, decide_eq_false_iff_not] at h'
    apply h'
    have := (abs_le.1 hye).2
    push_cast at this
    linarith
  · cases h'
  have hQ : Q0.setProblem (.required oe0 oeT mass0 tmax mdot) = .ok { Q0 with prob := some P, ready := true } := by
    simp only [QLaw.call] at hP
    cases hc : Q0.setProblem (.required oe0 oeT mass0 tmax mdot) with
    | error e => rw [hc] at hP; simp [ofExcept] at hP
    | ok Q => rw [hc] at hP; simp only [ofExcept, Option.some.injEq, Prod.mk.injEq, and_true] at hP; rw [hP]
  have hB : RdBattery P c 0 := by
    obtain ⟨h1, h2, h3, h4, h5⟩ := st.battery
    refine ⟨by rw [h2]; exact hc, ?_, le_rfl⟩
    rw [h5]
    exact (nat 0 (by norm_num)).trans (by rw [Nat.cast_zero])
  have hst : P.tStep.val = .fin h := by rw [st.tStep]; exact hh
  have hT : P.tfMax.val = .fin 100000 := by
    rw [st.tfMax]
    exact (nat 100000 (by norm_num)).trans (by norm_num)
  have hS : Q0.cfg.useSundman = false := b.sundman
  have hh0 : 0 < h := by linarith
  have hu7 : u * 100000 ≤ 1 / 100 := by linarith
  have habs : |(100000 : K)| = 100000 := abs_of_pos (by norm_num)
  refine ⟨Q0, _, hQ0, hQ, ?_, ?_⟩
  · refine C105_terminates (Q := { Q0 with prob := some P, ready := true }) (P := P) rfl hB hS hst hh0 hT hu hu0 ?_ ?_ 2000001 ?_
    · rw [habs]; linarith
    · rw [habs]
      nlinarith
    · rw [habs]; push_cast; linarith
  · intro fuel Q' H hs hH
    obtain ⟨n, τ, h1, h2, h3, h4⟩ := C105_clock_error hs rfl hH hB hS hst hh0 hT hu hu0 (by rw [habs]; linarith)
    rw [habs] at h3 h4
    refine ⟨n, τ, h1, ?_, ?_⟩
    · by_contra hn
      have h5 := (h3 2000001 (by omega)).1
      have h6 := (abs_le.1 (h4 2000001 (by omega))).1
      push_cast at h6
      have : u * (100000 + h) ≤ 1 / 100 + 1 / 1000 := by nlinarith
      linarith
    · intro k hk
      have h5 := h4 k hk
      have h6 : |(k : K) * h - (k : K) / 10| ≤ (k : K) * (u / 10) := by
        rw [show (k : K) * h - (k : K) / 10 = k * (h - 1 / 10) by ring, abs_mul, abs_of_nonneg (Nat.cast_nonneg k)]
        exact mul_le_mul_of_nonneg_left he' (Nat.cast_nonneg k)
      have h7 := abs_add_le (τ k - k * h) ((k : K) * h - (k : K) / 10)
      rw [show τ k - k * h + ((k : K) * h - (k : K) / 10) = τ k - (k : K) / 10 by ring] at h7
      refine h7.trans ((add_le_add h5 h6).trans ?_)
      rw [← mul_add]
      refine mul_le_mul_of_nonneg_left ?_ (Nat.cast_nonneg k)
      have : u * h ≤ u * (1 / 5) := mul_le_mul_of_nonneg_left (by linarith) hu0
      linarith

end rounded

namespace Doubles

/-- C106: doubles satisfy the hypotheses of `C106_rounded` -/
example : (∀ n : ℕ, n ≤ 10 ^ 5 → Rounding.rnd (n : ℚ) = Ext.fin (n : ℚ)) ∧ RelErr (1 / 2 ^ 53 : ℚ) (10 ^ 6) ∧
    (0 : ℚ) ≤ 1 / 2 ^ 53 ∧ (1 : ℚ) / 2 ^ 53 ≤ 1 / 10 ^ 7 := by
  refine ⟨fun n hn => ?_, relErr _, by norm_num, by norm_num⟩
  show Ext.fin (roundBin 52 (n : ℚ)) = _
  rw [roundBin_nat 52 n (hn.trans (by norm_num))]

end Doubles

end PyQ
