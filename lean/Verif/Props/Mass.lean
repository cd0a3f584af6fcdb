import Verif.Props.Time
import Mathlib.Algebra.BigOperators.Group.Finset.Basic
import Mathlib.Algebra.BigOperators.Ring.Finset

/-! # Propellant (C13, C14) -/

set_option linter.unusedSectionVars false
set_option maxRecDepth 100000

namespace PyQ

section lawfree
variable {α : Type} [Add α] [Sub α] [Mul α] [Div α] [Neg α] [NatCast α] [Pow α ℕ]
  [PyTrans α] [PyOrd α] [PyNan α]

/-- **C13, per step, any arithmetic.** Each recorded step adds some `st` to the time; the mass changes
by `-mdot*st` if the recorded throttle is 1 and not at all if it is 0 (no other throttle occurs). -/
theorem C13_step_mass {Q Q' : QLaw α} {etaA etaR : EtaArg α} {fuel : ℕ} {P : Problem α}
    {H : Hist α} (h : Q.solve etaA etaR fuel = some (Q', none)) (hP : Q.prob = some P)
    (hH : Q'.hist = some H) {k : ℕ} {a b : α} {θ : ℕ} (hk : H.controls[k]? = some (a, b, θ)) :
    ∃ t st m, H.times[k]? = some t ∧ H.times[k + 1]? = some (t + st) ∧ H.masses[k]? = some m ∧
      ((θ = 1 ∧ H.masses[k + 1]? = some (m - P.mdot * st)) ∨
       (θ = 0 ∧ H.masses[k + 1]? = some m)) := by
  obtain ⟨n, tr, D, r, hr, _, v⟩ := solve_view h hP hH
  obtain ⟨hkn, hx⟩ := v.controls_lt hk
  injection hx with _ hx
  injection hx with _ hθ
  refine ⟨(tr k).t, (D k).d.step, (tr k).mass, v.times_get hkn.le, ?_, v.masses_get hkn.le, ?_⟩
  · rw [v.times_get hkn, step_t v.trace hkn]
  · rw [v.masses_get hkn, step_mass v.trace hkn]
    rcases control_throttle (v.trace.step k hkn).ctl with h0 | h1
    · right; rw [hθ, h0]; simp
    · left; rw [hθ, h1]; simp; rfl

/-- **C14, threshold, any arithmetic.** Every mass recorded after a step, other than the last one,
fails the test `mass <= mass_min`. -/
theorem C14_above_threshold {Q Q' : QLaw α} {etaA etaR : EtaArg α} {fuel : ℕ} {P : Problem α}
    {H : Hist α} (h : Q.solve etaA etaR fuel = some (Q', none)) (hP : Q.prob = some P)
    (hH : Q'.hist = some H) {k : ℕ} (h1 : 1 ≤ k) (h2 : k + 1 < H.masses.length) :
    ∃ m, H.masses[k]? = some m ∧ PyOrd.le m P.massMin = false := by
  obtain ⟨n, tr, D, r, hr, _, v⟩ := solve_view h hP hH
  have hlen : H.masses.length = n + 1 := by rw [v.masses]; simp
  rw [hlen] at h2
  obtain ⟨j, rfl⟩ : ∃ j, k = j + 1 := ⟨k - 1, by omega⟩
  refine ⟨_, v.masses_get (by omega), ?_⟩
  exact (cont_facts (v.trace.step j (by omega)) (v.trace.cont j (by omega))).2.2

end lawfree

variable {K : Type} [Field K] [LinearOrder K] [IsStrictOrderedRing K] [PyTrans (Ext K)]

theorem fin_add_fin {a b : K} {x : Ext K} (h : (.fin a + x : Ext K) = .fin b) :
    x = .fin (b - a) := by
  cases x with
  | fin y =>
    rw [Ext.fin_add] at h
    injection h with h
    rw [← h]; congr 1; ring
  | nan => cases h
  | pinf => cases h
  | ninf => cases h

/-- **C13.** If the recorded times are finite (for instance under the hypotheses of C09 or C12), the
masses are finite; each step changes the mass by `-mdot` times the elapsed time if its throttle is 1,
and not at all otherwise; so the last mass is `mass0 - mdot * (total thrusting time)`. Both
integrators, forward or backward. -/
theorem C13_propellant {Q Q' : QLaw (Ext K)} {etaA etaR : EtaArg (Ext K)} {fuel : ℕ}
    {P : Problem (Ext K)} {H : Hist (Ext K)} {m0 q : K} {n : ℕ} {τ : ℕ → K}
    (hs : Q.solve etaA etaR fuel = some (Q', none)) (hP : Q.prob = some P)
    (hH : Q'.hist = some H) (hm : P.mass0 = .fin m0) (hq : P.mdot = .fin q)
    (hτ : H.times = (List.range (n + 1)).map fun k => Ext.fin (τ k)) :
    ∃ (μ : ℕ → K) (θ : ℕ → ℕ),
      H.masses = (List.range (n + 1)).map (fun k => Ext.fin (μ k)) ∧
      H.controls.map (fun x => x.2.2) = (List.range n).map θ ∧
      (∀ k < n, θ k = 0 ∨ θ k = 1) ∧ μ 0 = m0 ∧
      (∀ k < n, μ (k + 1) = if θ k = 1 then μ k - q * (τ (k + 1) - τ k) else μ k) ∧
      μ n = m0 - q * ∑ k ∈ Finset.range n, if θ k = 1 then τ (k + 1) - τ k else 0 := by
  obtain ⟨n', tr, D, r, hr, _, v⟩ := solve_view hs hP hH
  have hn : n' = n := by
    have := v.times_length
    rw [hτ] at this
    simpa using this.symm
  subst hn
  have ht : ∀ k ≤ n', (tr k).t = .fin (τ k) := by
    intro k hk
    have h1 := v.times_get hk
    rw [hτ, List.getElem?_map, List.getElem?_range (by omega)] at h1
    simpa using h1.symm
  have hstep : ∀ k < n', (D k).d.step = .fin (τ (k + 1) - τ k) := by
    intro k hk
    have h1 := step_t v.trace hk
    rw [ht k hk.le, ht (k + 1) hk] at h1
    exact fin_add_fin h1.symm
  have hmass : ∀ k ≤ n', (tr k).mass = .fin (tr k).mass.val := by
    intro k
    induction k with
    | zero =>
      intro _; rw [v.trace.init]
      show P.mass0 = .fin P.mass0.val
      rw [hm]; rfl
    | succ k ih =>
      intro hk
      rw [step_mass v.trace hk, ih (by omega), hstep k hk,
        show (envOf Q P etaA etaR).prob.mdot = .fin q from hq, Ext.fin_mul, Ext.fin_sub]
      split_ifs <;> rfl
  have hrec : ∀ k < n', (tr (k + 1)).mass.val =
      if (D k).c.throttle = 1 then (tr k).mass.val - q * (τ (k + 1) - τ k)
      else (tr k).mass.val := by
    intro k hk
    have h1 := step_mass v.trace hk
    rw [hmass k hk.le, hstep k hk] at h1
    change _ = (if _ then Ext.fin (tr k).mass.val - P.mdot * _ else _) at h1
    rw [hq, Ext.fin_mul, Ext.fin_sub] at h1
    rw [h1]
    split_ifs <;> rfl
  have h0 : (tr 0).mass.val = m0 := by
    rw [v.trace.init]
    show P.mass0.val = m0
    rw [hm]; rfl
  refine ⟨fun k => (tr k).mass.val, fun k => (D k).c.throttle, ?_, ?_, ?_, h0, hrec, ?_⟩
  · rw [v.masses]
    apply List.map_congr_left
    intro k hk
    exact hmass k (by simpa [Nat.lt_succ_iff] using hk)
  · rw [v.controls, List.map_map]
    rfl
  · intro k hk
    exact control_throttle (v.trace.step k hk).ctl
  · have : ∀ k ≤ n', (tr k).mass.val =
        m0 - q * ∑ j ∈ Finset.range k, if (D j).c.throttle = 1 then τ (j + 1) - τ j else 0 := by
      intro k
      induction k with
      | zero => intro _; rw [h0]; simp
      | succ k ih =>
        intro hk
        rw [hrec k hk, ih (by omega), Finset.sum_range_succ]
        split_ifs <;> ring
    exact this n' le_rfl

/-- a run of four thrusting steps of one half at `mdot = 1/100`, and one of two coasting ones -/
example : (((Toy.obj Toy.cfg Toy.prob).solve Toy.z Toy.z 10).bind fun p => p.1.hist.map fun H =>
    (H.masses, H.controls.map fun x => x.2.2)) =
    some ([.fin 1, .fin (199 / 200), .fin (99 / 100), .fin (197 / 200), .fin (98 / 100)],
      [1, 1, 1, 1]) := by decide +kernel
example : (((Toy.obj Toy.cfg { Toy.prob with dutyOn := .fin (1 / 2), dutyOff := .fin (1 / 2) }).solve
    Toy.z Toy.z 10).bind fun p => p.1.hist.map fun H => (H.masses, H.controls.map fun x => x.2.2)) =
    some ([.fin 1, .fin (199 / 200), .fin (99 / 100), .fin (99 / 100), .fin (99 / 100)],
      [1, 1, 0, 0]) := by decide +kernel

/-- **C14, monotonicity.** With `mdot ≥ 0` and non-decreasing recorded times the recorded masses never
increase. -/
theorem C14_mass_monotone {Q Q' : QLaw (Ext K)} {etaA etaR : EtaArg (Ext K)} {fuel : ℕ}
    {P : Problem (Ext K)} {H : Hist (Ext K)} {m0 q : K} {n : ℕ} {τ : ℕ → K}
    (hs : Q.solve etaA etaR fuel = some (Q', none)) (hP : Q.prob = some P)
    (hH : Q'.hist = some H) (hm : P.mass0 = .fin m0) (hq : P.mdot = .fin q) (hq0 : 0 ≤ q)
    (hτ : H.times = (List.range (n + 1)).map fun k => Ext.fin (τ k))
    (hmono : ∀ k < n, τ k ≤ τ (k + 1)) :
    H.masses.Pairwise fun x y => PyOrd.le y x = true := by
  obtain ⟨μ, θ, h1, _, _, _, h2, _⟩ := C13_propellant hs hP hH hm hq hτ
  have hle : ∀ i j, i ≤ j → j ≤ n → μ j ≤ μ i := by
    intro i j hij
    induction j, hij using Nat.le_induction with
    | base => intro _; exact le_rfl
    | succ j hij ih =>
      intro hj
      refine le_trans ?_ (ih (by omega))
      rw [h2 j (by omega)]
      split_ifs
      · have := mul_nonneg hq0 (sub_nonneg.mpr (hmono j (by omega)))
        linarith
      · exact le_rfl
  rw [h1, List.pairwise_map]
  rw [List.pairwise_iff_getElem]
  intro i j hi hj hij
  simp only [List.getElem_range, Ext.le_fin, decide_eq_true_eq]
  simp only [List.length_range] at hj
  exact hle i j hij.le (by omega)

/-- **C14.** A forward problem (`t_step > 0`, no Sundman transformation, discharge rate `≥ 0`) with
`mdot ≥ 0`: masses never increase, and every mass recorded after a step other than the last one is
`> mass_min`. -/
theorem C14_mass {Q Q' : QLaw (Ext K)} {etaA etaR : EtaArg (Ext K)} {fuel : ℕ}
    {P : Problem (Ext K)} {H : Hist (Ext K)} {b0 cm cM c d h m0 q mm : K}
    (hs : Q.solve etaA etaR fuel = some (Q', none)) (hP : Q.prob = some P)
    (hH : Q'.hist = some H) (hB : FinBattery P b0 cm cM c d) (hS : Q.cfg.useSundman = false)
    (hst : P.tStep = .fin h) (hh : 0 < h) (hd : 0 ≤ d) (hm : P.mass0 = .fin m0)
    (hq : P.mdot = .fin q) (hq0 : 0 ≤ q) (hmm : P.massMin = .fin mm) :
    (H.masses.Pairwise fun x y => PyOrd.le y x = true) ∧
    ∀ k, 1 ≤ k → k + 1 < H.masses.length → ∃ m, H.masses[k]? = some (.fin m) ∧ mm < m := by
  obtain ⟨n, τ, h1, _, h2⟩ := C09_time_forward hs hP hH hB hS hst hh hd
  refine ⟨C14_mass_monotone hs hP hH hm hq hq0 h1 fun k hk => (h2 k hk).1.le, ?_⟩
  intro k hk1 hk2
  obtain ⟨m, hm1, hm2⟩ := C14_above_threshold hs hP hH hk1 hk2
  obtain ⟨μ, θ, h3, _⟩ := C13_propellant hs hP hH hm hq h1
  have hlen : k < n + 1 := by
    rw [h3] at hk2; simp at hk2; omega
  rw [h3, List.getElem?_map, List.getElem?_range hlen] at hm1
  simp only [Option.map_some, Option.some.injEq] at hm1
  subst hm1
  refine ⟨μ k, by rw [h3, List.getElem?_map, List.getElem?_range hlen]; rfl, ?_⟩
  rw [hmm] at hm2
  simpa using hm2

/-- a run that ends by depletion after two steps -/
example : (((Toy.obj Toy.cfg { Toy.prob with massMin := .fin (99 / 100) }).solve Toy.z Toy.z 10).bind
    fun p => p.1.hist.map fun H => (p.1.exitcode, H.masses)) =
    some (-1, [.fin 1, .fin (199 / 200), .fin (99 / 100)]) := by decide +kernel

end PyQ
