import Verif.Props.Disturbed
import Verif.Proofs.Switched

/-!
C117: runs that thrust and coast in turn tend to the continuous motion whose thrust is switched.
-/

set_option linter.unusedSectionVars false
set_option maxRecDepth 100000

open Set Metric Topology

namespace PyQ

/-- the thrust acceleration, zero while the schedule coasts -/
noncomputable def switchedThrust (on : Bool) (f : ℝ) : ℝ := if on then f else 0

/-- `γ s` and `μ s` are the state and the mass at time `σ s` of a motion whose thrust is switched on and off by the
schedule `θ`, at `g` times the true speed: the law is defined all along; while the schedule thrusts, its direction
times `σ` times the available acceleration drives the equations of motion and mass is spent at the rate `mdot`; while
the schedule coasts, only the perturbing acceleration acts and the mass is constant. At a switch the derivatives are
those from the right. -/
def SwitchedMotion (C : Config ℝ) (et : ElemType) (oeT woe : Fin 5 → ℝ) (tmax mdot σ g T : ℝ) (θ : ℝ → Bool)
    (γ : ℝ → Fin 6 → ℝ) (μ : ℝ → ℝ) : Prop :=
  ContinuousOn γ (Icc 0 T) ∧ ContinuousOn μ (Icc 0 T) ∧
  ∀ s ∈ Icc 0 T, ∃ o v q, PerturbationIs C (σ * s) (γ s) q ∧
    lyapunovControlAngles (dynOf (α := ℝ) et).lyapFun (callAt C oeT woe (σ * (tmax / μ s)) (γ s)) = .ok o ∧
    (dynOf (α := ℝ) et).eom (σ * s) (γ s)
      { mu := C.mu, u := fun c => switchedThrust (θ s) (σ * (tmax / μ s)) * unitDir o.alpha o.beta c,
        psi0 := o.psi 0, psi1 := o.psi 1, psi2 := o.psi 2, ptrb := q } = .ok v ∧
    (s < T → HasDerivWithinAt γ ((σ * g) • v) (Ici s) s ∧
      HasDerivWithinAt μ (-switchedThrust (θ s) (mdot * σ)) (Ici s) s)

/-- the first `n` steps of a history go in direction `σ` of time, are no longer than `h`, and all but `N` of them have
the throttle that the schedule `θ` prescribes during the whole step -/
def SwitchesUpTo (σ : ℝ) (θ : ℝ → Bool) (H : Hist ℝ) (n N : ℕ) (h : ℝ) : Prop :=
  ∃ S : Finset ℕ, S.card ≤ N ∧ ∀ k < n, ∃ a b c t t', H.controls[k]? = some (a, b, c) ∧ H.times[k]? = some t ∧
    H.times[k + 1]? = some t' ∧ 0 < σ * (t' - t) ∧ σ * (t' - t) ≤ h ∧
    (k ∈ S ∨ ∀ s ∈ Ico (σ * t) (σ * t'), θ s = true ↔ c = 1)

/-- what one step records, thrusting or not, in either direction of time and with perturbations -/
theorem step_rates_switched [PyNan ℝ] {C : Config ℝ} {et : ElemType} (hd : C.dyn = dynOf et)
    {oeT woe : Fin 5 → ℝ} {tmax σ : ℝ} (hT : 0 < tmax) (hσ : σ = 1 ∨ σ = -1) {Q Q' : QLaw ℝ} {P : Problem ℝ}
    {etaA etaR : EtaArg ℝ} {fuel : ℕ}
    {H : Hist ℝ} (hC : Q.cfg = C) (hP : Q.prob = some P) (hoe : P.oeT = List.ofFn oeT) (hw : P.woe = woe)
    (ht0 : P.tmax = tmax) (h : Q.solve etaA etaR fuel = some (Q', none)) (hH : Q'.hist = some H) {k θ : ℕ}
    {a b t t' m : ℝ} {x y : Fin 6 → ℝ} (hc : H.controls[k]? = some (a, b, θ)) (ht : H.times[k]? = some t)
    (ht' : H.times[k + 1]? = some t') (hx : H.states[k]? = some x) (hm : H.masses[k]? = some m) (hm0 : 0 < m)
    (hy : H.states[k + 1]? = some y) (hlt : 0 < σ * (t' - t)) :
    (∀ c, |lawDir et (unitCall C oeT woe x) c| ≤ 1) ∧
    ∃ z psi u ptrb, Propagates C t (t' - t) x u psi ptrb z ∧ psi = candPsi et (unitCall C oeT woe x) ∧
      PerturbationIs C t x ptrb ∧
      (∀ c, u c = switchedThrust (decide (θ = 1)) (σ * (tmax / m)) * lawDir et (unitCall C oeT woe x) c) ∧
      (y = z ∨ C.elementsType = .keplerian ∧ elementsSafety z C.oeMin C.oeMax = .ok y) := by
  subst hC hw ht0
  obtain ⟨st, oeT', o, ptrb, u, g1, g2, g3, -, -, -, g7, g8, g9⟩ := C80_law_applied h hP hH hc ht hx hm
  rw [ht'] at g1; injection g1 with g1
  have hst : st = t' - t := by linarith
  subst hst
  have : oeT' = oeT := List.ofFn_injective (g2.symm.trans hoe)
  subst this
  have hcall : recArgs Q.cfg P oeT' x m (t' - t) = callAt Q.cfg oeT' P.woe (σ * (P.tmax / m)) x := by
    simp only [recArgs, sign_signed hσ hlt, callAt, unitCall, mul_div_assoc]
  rw [hcall, hd] at g3
  have hf : σ * (P.tmax / m) ≠ 0 := mul_ne_zero (by rcases hσ with rfl | rfl <;> norm_num) (div_pos hT hm0).ne'
  have hdir := law_direction_signed hf g3
  have hu : ∀ c, u c = switchedThrust (decide (θ = 1)) (σ * (P.tmax / m)) * lawDir et (unitCall Q.cfg oeT' P.woe x) c := by
    intro c
    rcases g9 with ⟨g9, g10⟩ | ⟨g9, g10⟩
    · have : (zero3 : Fin 3 → ℝ) c = 0 := by fin_cases c <;> simp [zero3]
      rw [g10, g9, this]; simp [switchedThrust]
    · have : dirOf o.alpha o.beta = unitDir o.alpha o.beta := by
        funext c; fin_cases c <;> simp [dirOf, unitDir]
      rw [g10, g9, sign_signed hσ hlt, this]
      simp only [vsmul, hdir, mul_div_assoc, switchedThrust, decide_true, if_true]
  refine ⟨fun c => by rw [← hdir]; exact unitDir_le _ _ c, ((envOf Q P etaA etaR).after (k + 1)).oe, o.psi, u, ptrb, g8,
    law_psi g3, g7, hu, ?_⟩
  obtain ⟨n, tr, D, r, hr, hrH, v⟩ := solve_view h hP hH
  obtain ⟨hk1, hy'⟩ := state_or_clamp hr hrH v hy
  rw [← v.trace.after (k + 1) hk1]
  rcases hy' with hy' | ⟨s1, hs1, hy'⟩
  · exact Or.inl hy'
  · rcases clamp_cases hs1 with ⟨-, h2⟩ | ⟨hE, oe, h2, h3⟩
    · left; rw [hy', h2]
    · right
      exact ⟨hE, by rw [h2, hy', h3]⟩

/-- the field of a switched motion, on time, state and mass -/
noncomputable def switchedField (C : Config ℝ) (et : ElemType) (oeT woe : Fin 5 → ℝ) (tmax mdot σ g : ℝ) (on : Bool)
    (y : ℝ × (Fin 6 → ℝ) × ℝ) : ℝ × (Fin 6 → ℝ) × ℝ :=
  (1, (σ * g) • accRate et (unitCall C oeT woe y.2.1) (fun c => switchedThrust on (σ * (tmax / y.2.2)) *
    lawDir et (unitCall C oeT woe y.2.1) c + pertOf C (σ * y.1) y.2.1 c), -switchedThrust on (mdot * σ))

theorem switched_c1 {C : Config ℝ} {oeT woe : Fin 5 → ℝ} {et : ElemType} {x : Fin 6 → ℝ}
    (H : LawSmooth et (unitCall C oeT woe x)) (hg : lawGrad et (unitCall C oeT woe x) ≠ 0)
    (tmax mdot σ g : ℝ) (on : Bool) {s m : ℝ} (hp : PertSmooth C σ s x) (hm : m ≠ 0) :
    ContDiffAt ℝ 1 (switchedField C et oeT woe tmax mdot σ g on) (s, x, m) := by
  obtain ⟨h1, -⟩ := law_c1 H hg
  obtain ⟨h3, h4⟩ := fast_smooth (N := 1) H.1
  have hP : ∀ c j, ContDiffAt ℝ 1 (fun x => candPsi et (unitCall C oeT woe x) c j) x :=
    fun c j => candPsi_smooth (N := 1) H.1 c j
  have hf : ContDiffAt ℝ 1 (fun y : ℝ × (Fin 6 → ℝ) × ℝ => switchedThrust on (σ * (tmax / y.2.2))) (s, x, m) := by
    cases on
    · exact contDiffAt_const
    · simp only [switchedThrust, if_true]
      have : ContDiffAt ℝ 1 (fun y : ℝ × (Fin 6 → ℝ) × ℝ => y.2.2) (s, x, m) := contDiffAt_snd.snd
      exact contDiffAt_const.mul (contDiffAt_const.div this hm)
  have lift : ∀ φ : (Fin 6 → ℝ) → ℝ, ContDiffAt ℝ 1 φ x →
      ContDiffAt ℝ 1 (fun y : ℝ × (Fin 6 → ℝ) × ℝ => φ y.2.1) (s, x, m) :=
    fun φ hφ => ContDiffAt.comp (g := φ) (f := fun y : ℝ × (Fin 6 → ℝ) × ℝ => y.2.1) (s, x, m) hφ contDiffAt_snd.fst
  have hpp : ContDiffAt ℝ 1 (fun y : ℝ × (Fin 6 → ℝ) × ℝ => pertOf C (σ * y.1) y.2.1) (s, x, m) :=
    ContDiffAt.comp (g := fun y : ℝ × (Fin 6 → ℝ) => pertOf C (σ * y.1) y.2)
      (f := fun y : ℝ × (Fin 6 → ℝ) × ℝ => (y.1, y.2.1)) (s, x, m) (pert_c1 hp) (contDiffAt_fst.prodMk contDiffAt_snd.fst)
  have ha : ∀ c, ContDiffAt ℝ 1 (fun y : ℝ × (Fin 6 → ℝ) × ℝ => switchedThrust on (σ * (tmax / y.2.2)) *
      lawDir et (unitCall C oeT woe y.2.1) c + pertOf C (σ * y.1) y.2.1 c) (s, x, m) := fun c =>
    (hf.mul (lift _ (h1 c))).add (contDiffAt_pi.1 hpp c)
  refine contDiffAt_const.prodMk (ContDiffAt.prodMk (ContDiffAt.const_smul (σ * g) (contDiffAt_pi.2 fun i => ?_))
    contDiffAt_const)
  induction i using Fin.lastCases with
  | last =>
    simp only [accRate, Fin.lastCases_last]
    exact (ContDiffAt.sum fun c _ => (lift _ (h3 c)).mul (ha c)).add (lift _ h4)
  | cast j =>
    simp only [accRate, Fin.lastCases_castSucc]
    exact ContDiffAt.sum fun c _ => (lift _ (hP c j)).mul (ha c)

theorem mismatches_le {θ : ℝ → Bool} {τ : ℕ → ℝ} {b : ℕ → Bool} {S : Finset ℕ} {n : ℕ}
    (h : ∀ k < n, k ∈ S ∨ Matches θ τ b k) : mismatches θ τ b n ≤ S.card := by
  have key : ∀ j ≤ n, mismatches θ τ b j ≤ (S.filter (· < j)).card := by
    intro j
    induction j with
    | zero => intro _; simp [mismatches]
    | succ j ih =>
      intro hj
      have h1 := ih (by omega)
      rw [mismatches]
      by_cases hm : Matches θ τ b j
      · rw [if_pos hm, Nat.add_zero]
        refine h1.trans (Finset.card_le_card fun k hk => ?_)
        rw [Finset.mem_filter] at hk ⊢
        exact ⟨hk.1, by omega⟩
      · rw [if_neg hm]
        have hjS : j ∈ S := (h j (by omega)).resolve_right hm
        have : insert j (S.filter (· < j)) ⊆ S.filter (· < j + 1) := by
          intro k hk
          rw [Finset.mem_insert, Finset.mem_filter] at hk
          rw [Finset.mem_filter]
          rcases hk with rfl | hk
          · exact ⟨hjS, by omega⟩
          · exact ⟨hk.1, by omega⟩
        have h2 := Finset.card_le_card this
        rw [Finset.card_insert_of_notMem (by simp)] at h2
        omega
  exact (key n le_rfl).trans (Finset.card_le_card (Finset.filter_subset _ _))

set_option maxHeartbeats 1000000 in
/-- **C117.** Let `γ`, `μ` be a motion under the law and the perturbations of the object, in direction `σ` of time, whose
thrust is switched on and off by the schedule `θ`. Let `Q` be smooth along it, the perturbing acceleration continuously
differentiable, the elements strictly inside their bounds and the mass positive. Then for every number `N` there are a
step length and a constant such that every run from the same state and mass, whose steps in direction `σ` of time are
no longer than `h` and have the throttle of the schedule in all but at most `N` steps, is at most `K h` away from the
motion, in every element and in the mass, at every recorded time. -/
theorem C117_limit [PyNan ℝ] {C : Config ℝ} {et : ElemType} (hd : C.dyn = dynOf et)
    {oeT woe l u : Fin 5 → ℝ} {tmax mdot σ T : ℝ} (hσ : σ = 1 ∨ σ = -1) {θ : ℝ → Bool} {γ : ℝ → Fin 6 → ℝ} {μ : ℝ → ℝ}
    (hl : C.elementsType = .keplerian → BoundsAre C.oeMin l ∧ BoundsAre C.oeMax u)
    (hM : SwitchedMotion C et oeT woe tmax mdot σ (gain C.integrator) T θ γ μ)
    (hS : ∀ s ∈ Icc 0 T, LawSmooth et (unitCall C oeT woe (γ s)) ∧ PertSmooth C σ s (γ s) ∧
      (C.elementsType = .keplerian → ∀ j : Fin 5, l j < γ s j.castSucc ∧ γ s j.castSucc < u j))
    (hT : 0 < tmax) (hm : ∀ s ∈ Icc 0 T, 0 < μ s) (N : ℕ) :
    ∃ δ > 0, ∃ K ≥ 0, ∀ h, 0 < h → h < δ →
      ∀ (Q Q' : QLaw ℝ) (P : Problem ℝ) (etaA etaR : EtaArg ℝ) (fuel : ℕ) (H : Hist ℝ),
      Q.cfg = C → Q.prob = some P → P.oeT = List.ofFn oeT → P.woe = woe → P.tmax = tmax → P.mass0 = μ 0 →
      P.mdot = mdot → P.oe0 = γ 0 → Q.solve etaA etaR fuel = some (Q', none) → Q'.hist = some H →
      ∀ (n : ℕ) (t m : ℝ) (x : Fin 6 → ℝ), H.times[n]? = some t → σ * t ≤ T → H.states[n]? = some x →
        H.masses[n]? = some m → SwitchesUpTo σ θ H n N h →
        (∀ i, |x i - γ (σ * t) i| ≤ K * h) ∧ |m - μ (σ * t)| ≤ K * h := by
  have hσσ : σ * σ = 1 := by rcases hσ with rfl | rfl <;> norm_num
  have hσa : |σ| = 1 := by rcases hσ with rfl | rfl <;> norm_num
  have hg : 0 < gain C.integrator := gain_pos _
  have hg2 : gain C.integrator ≤ 2 := by cases C.integrator <;> norm_num [gain]
  obtain ⟨g, hgdef⟩ : ∃ g, g = gain C.integrator := ⟨_, rfl⟩
  rw [← hgdef] at hM hg hg2
  obtain ⟨hcont, hcontM, hM⟩ := hM
  have hσf : ∀ s ∈ Icc 0 T, σ * (tmax / μ s) ≠ 0 := fun s hs =>
    mul_ne_zero (by rcases hσ with rfl | rfl <;> norm_num) (div_pos hT (hm s hs)).ne'
  have hgrad : ∀ t ∈ Icc 0 T, lawGrad et (unitCall C oeT woe (γ t)) ≠ 0 := fun t ht => by
    obtain ⟨o, v, q, -, h1, -⟩ := hM t ht
    exact lawGrad_ne h1
  -- the field
  obtain ⟨V, hVdef⟩ : ∃ V, V = switchedField C et oeT woe tmax mdot σ g := ⟨_, rfl⟩
  have hcont3 : ContinuousOn (fun t => (t, γ t, μ t)) (Icc 0 T) := continuousOn_id.prodMk (hcont.prodMk hcontM)
  have hΓ : ∀ t ∈ Ico 0 T, HasDerivWithinAt (fun t => (t, γ t, μ t)) (V (θ t) (t, γ t, μ t)) (Ici t) t := by
    intro t ht'
    have ht : t ∈ Icc 0 T := ⟨ht'.1, ht'.2.le⟩
    obtain ⟨o, v, q, h0, h1, h2, h3⟩ := hM t ht
    obtain ⟨h3, h4⟩ := h3 ht'.2
    have hv := eom_accRate (A := unitCall C oeT woe (γ t)) rfl (by
      rw [← law_psi h1]; funext c; fin_cases c <;> rfl) h2
    simp only [law_direction_signed (hσf t ht) h1] at hv
    rw [pertOf_eq h0] at hv
    rw [hv] at h3
    rw [hVdef]
    exact (hasDerivWithinAt_id t _).prodMk (h3.prodMk h4)
  have hV : ∀ c, ∀ t ∈ Icc 0 T, ContDiffAt ℝ 1 (V c) (t, γ t, μ t) := fun c t ht => by
    rw [hVdef]
    exact switched_c1 (hS t ht).1 (hgrad t ht) tmax mdot σ g c (hS t ht).2.1 (hm t ht).ne'
  obtain ⟨p, hpdef⟩ : ∃ p, p = pertOf C := ⟨_, rfl⟩
  have hp : ∀ t x q, PerturbationIs C t x q → q = p t x := by rw [hpdef]; exact fun _ _ _ => pertOf_eq
  have hpc : ∀ s ∈ Icc 0 T, ContDiffAt ℝ 1 (fun y : ℝ × (Fin 6 → ℝ) => p (σ * y.1) y.2) (s, γ s) := fun s hs => by
    rw [hpdef]; exact pert_c1 (hS s hs).2.1
  -- a tube around the motion
  have hcont2 : ContinuousOn (fun t => (t, γ t)) (Icc 0 T) := continuousOn_id.prodMk hcont
  obtain ⟨L, hL, ρ1, hρ1, hΦ⟩ := tube_lipschitz (f := fun y : ℝ × (Fin 6 → ℝ) => (fastRow et C.mu y.2, fastSelf et C.mu y.2,
      (fun c j => candPsi et (unitCall C oeT woe y.2) c j : Fin 3 → Fin 5 → ℝ), p (σ * y.1) y.2)) hcont2 (fun t ht => by
    have e1 := fast_smooth (N := 1) (hS t ht).1.1
    have lift : ∀ φ : (Fin 6 → ℝ) → ℝ, ContDiffAt ℝ 1 φ (γ t) →
        ContDiffAt ℝ 1 (fun y : ℝ × (Fin 6 → ℝ) => φ y.2) (t, γ t) :=
      fun φ hφ => ContDiffAt.comp (g := φ) (f := fun y : ℝ × (Fin 6 → ℝ) => y.2) (t, γ t) hφ contDiffAt_snd
    refine (contDiffAt_pi.2 fun c => lift _ (e1.1 c)).prodMk ((lift _ e1.2).prodMk (ContDiffAt.prodMk ?_ (hpc t ht)))
    exact contDiffAt_pi.2 fun c => contDiffAt_pi.2 fun j => lift (fun x => candPsi et (unitCall C oeT woe x) c j)
      (candPsi_smooth (N := 1) (hS t ht).1.1 c j))
  have hU : IsOpen {x : Fin 6 → ℝ | C.elementsType = .keplerian → ∀ j : Fin 5, l j < x j.castSucc ∧ x j.castSucc < u j} := by
    by_cases hk : C.elementsType = .keplerian
    · simp only [hk, true_imp_iff, Set.ofPred_forall]
      refine isOpen_iInter_of_finite fun j => ?_
      exact (isOpen_lt continuous_const (continuous_apply _)).inter (isOpen_lt (continuous_apply _) continuous_const)
    · simp [hk]
  obtain ⟨ρ2, hρ2, hin⟩ := tube_open hcont hU fun t ht => (hS t ht).2.2
  -- bounds
  obtain ⟨mL, hmL, hmb⟩ : ∃ mL > 0, ∀ s ∈ Icc 0 T, mL ≤ μ s := by
    by_cases hne : (Icc 0 T).Nonempty
    · obtain ⟨s0, hs0, hmin⟩ := isCompact_Icc.exists_isMinOn hne hcontM
      exact ⟨μ s0, hm s0 hs0, fun s hs => hmin hs⟩
    · exact ⟨1, one_pos, fun s hs => absurd ⟨s, hs⟩ hne⟩
  obtain ⟨ρ, hρdef⟩ : ∃ ρ, ρ = min (min ρ1 ρ2) mL := ⟨_, rfl⟩
  have hρ : 0 < ρ := by rw [hρdef]; positivity
  have hρ1' : ρ ≤ ρ1 := by rw [hρdef]; exact (min_le_left _ _).trans (min_le_left _ _)
  have hρ2' : ρ ≤ ρ2 := by rw [hρdef]; exact (min_le_left _ _).trans (min_le_right _ _)
  have hρm : ρ ≤ mL := by rw [hρdef]; exact min_le_right _ _
  obtain ⟨fM, hfMdef⟩ : ∃ fM, fM = tmax / (mL / 2) := ⟨_, rfl⟩
  have hfM0 : 0 < fM := by rw [hfMdef]; positivity
  obtain ⟨U, hUdef⟩ : ∃ U, U = fM + L := ⟨_, rfl⟩
  have hU0 : 0 < U := by rw [hUdef]; positivity
  obtain ⟨M, hMdef⟩ : ∃ M, M = (3 * U + 1) * L := ⟨_, rfl⟩
  have hM0 : 0 < M := by rw [hMdef]; positivity
  have hrow : ∀ t ∈ Icc 0 T, ∀ y ∈ ball (γ t) ρ, (∀ c, |fastRow et C.mu y c| ≤ L) ∧ |fastSelf et C.mu y| ≤ L ∧
      (∀ c j, |candPsi et (unitCall C oeT woe y) c j| ≤ L) ∧ (∀ c, |p (σ * t) y c| ≤ L) ∧ ∀ z ∈ ball (γ t) ρ,
        (∀ c, |fastRow et C.mu y c - fastRow et C.mu z c| ≤ L * ‖y - z‖) ∧
        |fastSelf et C.mu y - fastSelf et C.mu z| ≤ L * ‖y - z‖ := by
    intro t ht y hy
    have hsub : ∀ y ∈ ball (γ t) ρ, ((t, y) : ℝ × (Fin 6 → ℝ)) ∈ ball (t, γ t) ρ1 := fun y hy => by
      rw [mem_ball] at hy ⊢
      rw [Prod.dist_eq, dist_self, max_eq_right dist_nonneg]
      exact hy.trans_le hρ1'
    obtain ⟨h1, h2⟩ := hΦ t ht (t, y) (hsub y hy)
    rw [Prod.norm_def, Prod.norm_def, Prod.norm_def, max_le_iff, max_le_iff, max_le_iff] at h1
    refine ⟨fun c => (norm_le_pi_norm (fastRow et C.mu y) c).trans h1.1, h1.2.1, fun c j => ?_,
      fun c => (norm_le_pi_norm (p (σ * t) y) c).trans h1.2.2.2, fun z hz => ?_⟩
    · have e := (norm_le_pi_norm (fun c j => candPsi et (unitCall C oeT woe y) c j : Fin 3 → Fin 5 → ℝ) c).trans h1.2.2.1
      exact (norm_le_pi_norm (fun j => candPsi et (unitCall C oeT woe y) c j) j).trans e
    have h3 := h2 (t, z) (hsub z hz)
    rw [Prod.norm_def, Prod.norm_def, max_le_iff, max_le_iff] at h3
    have h4 : ‖((t, y) : ℝ × (Fin 6 → ℝ)) - (t, z)‖ = ‖y - z‖ := by
      rw [Prod.norm_def]
      simp
    rw [h4] at h3
    exact ⟨fun c => (norm_le_pi_norm (fastRow et C.mu y - fastRow et C.mu z) c).trans h3.1, h3.2.1⟩
  obtain ⟨W, hW⟩ : ∃ W, W = 22 * M + 40 * M * M := ⟨_, rfl⟩
  have hW0 : 0 < W := by rw [hW]; positivity
  obtain ⟨δ0, hδ0, K, hK, hE⟩ := euler_switched (B := 40 * M * M) (ρ0 := ρ / 2) N hcont3 hΓ hV (by positivity) (by positivity)
  refine ⟨min (min δ0 1) (ρ / (2 * W)), by positivity, K, hK, ?_⟩
  intro h hh hhδ Q Q' P etaA etaR fuel H hC hP hoe hw ht0 hm0 hmd0 hoe0 hsol hH n tn mn xn htn htT hxn hmn hthr
  obtain ⟨S, hSN, hthr⟩ := hthr
  have hh0 : h < δ0 := hhδ.trans_le ((min_le_left _ _).trans (min_le_left _ _))
  have hh1 : h < 1 := hhδ.trans_le ((min_le_left _ _).trans (min_le_right _ _))
  have hhW : h * W < ρ / 2 := by
    have := hhδ.trans_le (min_le_right _ _)
    rw [lt_div_iff₀ (by positivity)] at this
    linarith
  obtain ⟨H1, P1, P1', N0, a1, a2, -, al, at0, -, am0, -⟩ := C01_histories_aligned hsol
  rw [hH] at a1; injection a1 with a1; subst a1
  rw [hP] at a2; injection a2 with a2; subst a2
  have hnN : n ≤ N0 := by
    have := (List.getElem?_eq_some_iff.1 htn).1
    rw [al.times] at this; omega
  have getT : ∀ k ≤ n, H.times[k]? = some (H.times.getD k 0) := fun k hk => by
    have hlt : k < H.times.length := by rw [al.times]; omega
    simp [List.getD_eq_getElem?_getD, List.getElem?_eq_getElem hlt]
  have getX : ∀ k ≤ n, H.states[k]? = some (H.states.getD k 0) := fun k hk => by
    have hlt : k < H.states.length := by rw [al.states]; omega
    simp [List.getD_eq_getElem?_getD, List.getElem?_eq_getElem hlt]
  have getM : ∀ k ≤ n, H.masses[k]? = some (H.masses.getD k 0) := fun k hk => by
    have hlt : k < H.masses.length := by rw [al.masses]; omega
    simp [List.getD_eq_getElem?_getD, List.getElem?_eq_getElem hlt]
  obtain ⟨τ, hτ⟩ : ∃ τ : ℕ → ℝ, τ = fun k => σ * H.times.getD k 0 := ⟨_, rfl⟩
  obtain ⟨X, hX⟩ : ∃ X : ℕ → Fin 6 → ℝ, X = fun k => H.states.getD k 0 := ⟨_, rfl⟩
  have gT : ∀ k ≤ n, H.times[k]? = some (σ * τ k) := fun k hk => by
    rw [getT k hk, hτ]; simp only; rw [← mul_assoc, hσσ, one_mul]
  obtain ⟨Y, hY⟩ : ∃ Y : ℕ → ℝ, Y = fun k => H.masses.getD k 0 := ⟨_, rfl⟩
  have gM : ∀ k ≤ n, H.masses[k]? = some (Y k) := by rw [hY]; exact getM
  have gX : ∀ k ≤ n, H.states[k]? = some (X k) := by rw [hX]; exact getX
  have hτ0 : τ 0 = 0 := by
    have := gT 0 (Nat.zero_le _)
    rw [List.head?_eq_getElem?, this] at at0
    injection at0 with at0
    rw [Nat.cast_zero] at at0
    calc τ 0 = σ * (σ * τ 0) := by rw [← mul_assoc, hσσ, one_mul]
      _ = 0 := by rw [at0, mul_zero]
  have hstep' : ∀ k, ∃ d : ℕ, k < n → τ k < τ (k + 1) ∧ τ (k + 1) ≤ τ k + h ∧ (∃ a b, H.controls[k]? = some (a, b, d)) ∧
      (k ∈ S ∨ ∀ s ∈ Ico (τ k) (τ (k + 1)), θ s = true ↔ d = 1) := by
    intro k
    by_cases hk : k < n
    · obtain ⟨a, b, c, t, t', h1, h2, h3, h4, h5, h6⟩ := hthr k hk
      rw [gT k hk.le] at h2; injection h2 with h2
      rw [gT (k + 1) hk] at h3; injection h3 with h3
      subst h2 h3
      have e : σ * (σ * τ (k + 1) - σ * τ k) = τ (k + 1) - τ k := by
        rw [mul_sub, ← mul_assoc, ← mul_assoc, hσσ, one_mul, one_mul]
      rw [e] at h4 h5
      rw [← mul_assoc, ← mul_assoc, hσσ, one_mul, one_mul] at h6
      exact ⟨c, fun _ => ⟨by linarith, by linarith, ⟨a, b, h1⟩, h6⟩⟩
    · exact ⟨0, fun h => absurd h hk⟩
  choose θk hstep using hstep'
  obtain ⟨b, hb⟩ : ∃ b : ℕ → Bool, b = fun k => decide (θk k = 1) := ⟨_, rfl⟩
  have hmis : mismatches θ τ b n ≤ N := by
    refine (mismatches_le fun k hk => ?_).trans hSN
    refine (hstep k hk).2.2.2.imp id fun h s hs => ?_
    have := h s hs
    rw [hb]
    cases hs : θ s <;> simp [hs] at this ⊢ <;> exact this
  have hmono : ∀ j ≤ n, 0 ≤ τ j ∧ ∀ k ≤ j, τ k ≤ τ j := by
    intro j
    induction j with
    | zero => intro _; exact ⟨hτ0.ge, fun k hk => by rw [Nat.le_zero.1 hk]⟩
    | succ j ih =>
      intro hj
      have h1 := ih (by omega)
      have h2 := (hstep j (by omega)).1.le
      refine ⟨h1.1.trans h2, fun k hk => ?_⟩
      rcases Nat.lt_or_ge k (j + 1) with h3 | h3
      · exact (h1.2 k (by omega)).trans h2
      · rw [le_antisymm hk h3]
  have hτn : τ n = σ * tn := by
    have := gT n le_rfl
    rw [htn] at this; injection this with this
    rw [this, ← mul_assoc, hσσ, one_mul]
  have hmem : ∀ k ≤ n, τ k ∈ Icc 0 T := fun k hk =>
    ⟨(hmono k hk).1, ((hmono n le_rfl).2 k hk).trans (by rw [hτn]; exact htT)⟩
  have hX0 : X 0 = γ 0 := by
    rw [← hoe0]
    subst hC
    refine first_state hP hsol hH hl (fun hk j => ?_) (gX 0 (Nat.zero_le _))
    rw [hoe0]
    have h00 : (0 : ℝ) ∈ Icc 0 T := by
      have := hmem 0 (Nat.zero_le _)
      rwa [hτ0] at this
    have := (hS 0 h00).2.2 hk j
    exact ⟨this.1.le, this.2.le⟩
  have hY0 : Y 0 = μ 0 := by
    have := gM 0 (Nat.zero_le _)
    rw [List.head?_eq_getElem?, this] at am0
    injection am0 with am0
    rw [am0, hm0]
  have hYs : ∀ k < n, Y (k + 1) = Y k - (τ (k + 1) - τ k) * switchedThrust (b k) (mdot * σ) := by
    intro k hk
    obtain ⟨-, -, ⟨a, b', hc⟩, -⟩ := hstep k hk
    obtain ⟨t1, st, m1, e1, e2, e3, e4⟩ := C13_step_mass hsol hP hH hc
    rw [gT k hk.le] at e1; injection e1 with e1
    rw [gT (k + 1) hk] at e2; injection e2 with e2
    rw [gM k hk.le] at e3; injection e3 with e3
    rw [gM (k + 1) hk] at e4
    have hst : st = σ * (τ (k + 1) - τ k) := by rw [← e1] at e2; linear_combination -e2
    rcases e4 with ⟨e5, e4⟩ | ⟨e5, e4⟩ <;> injection e4 with e4
    · rw [e4, ← e3, hb, hst, hmd0]
      simp only [e5, switchedThrust, decide_true, if_true]
      ring
    · rw [e4, ← e3, hb]
      simp [e5, switchedThrust]
  have key : ∀ k < n, ‖(τ k, X k, Y k) - (τ k, γ (τ k), μ (τ k))‖ < ρ / 2 →
      ‖(τ (k + 1), X (k + 1), Y (k + 1)) - (τ k, X k, Y k) - (τ (k + 1) - τ k) • V (b k) (τ k, X k, Y k)‖ ≤
        40 * M * M * (τ (k + 1) - τ k) ^ 2 := by
    intro k hk hnear
    have ht := hmem k hk.le
    obtain ⟨h1, h2, ⟨a, b', hc⟩, -⟩ := hstep k hk
    have hd1 : ‖X k - γ (τ k)‖ < ρ / 2 := by
      refine lt_of_le_of_lt ?_ hnear
      exact (norm_fst_le ((X k, Y k) - (γ (τ k), μ (τ k)))).trans
        (norm_snd_le ((τ k, X k, Y k) - (τ k, γ (τ k), μ (τ k))))
    have hd2 : |Y k - μ (τ k)| < ρ / 2 := by
      refine lt_of_le_of_lt ?_ hnear
      exact (norm_snd_le ((X k, Y k) - (γ (τ k), μ (τ k)))).trans
        (norm_snd_le ((τ k, X k, Y k) - (τ k, γ (τ k), μ (τ k))))
    have hball : ∀ z, ‖z - X k‖ < ρ / 2 → z ∈ ball (γ (τ k)) ρ := by
      intro z hz
      rw [mem_ball, dist_eq_norm]
      have : z - γ (τ k) = (z - X k) + (X k - γ (τ k)) := by abel
      rw [this]
      linarith [norm_add_le (z - X k) (X k - γ (τ k))]
    obtain ⟨s, hs⟩ : ∃ s, s = τ (k + 1) - τ k := ⟨_, rfl⟩
    have hs0 : 0 < s := by linarith
    have hsh : s ≤ h := by linarith
    have hmk := gM k hk.le
    have hmp2 : mL / 2 < Y k := by
      have := (abs_lt.1 hd2).1
      have := hmb _ ht
      linarith
    have hmp : 0 < Y k := by linarith
    have hf0 : 0 < tmax / Y k := div_pos hT hmp
    have hf1 : tmax / Y k ≤ fM := by
      rw [hfMdef]
      gcongr
    have hstep' : σ * τ (k + 1) - σ * τ k = σ * s := by rw [hs]; ring
    have hsa : |σ * s| = s := by rw [abs_mul, hσa, one_mul, abs_of_pos hs0]
    obtain ⟨hdir, z, psi, uu, ptrb, hprop, hpsi, hpt, hu, hclamp⟩ := step_rates_switched hd hT hσ hC hP hoe hw ht0 hsol hH hc
      (gT k hk.le) (gT (k + 1) hk) (gX k hk.le) hmk hmp (gX (k + 1) hk) (by
        rw [hstep', ← mul_assoc, hσσ, one_mul]; exact hs0)
    rw [hstep'] at hprop
    have hpt' := hp _ _ _ hpt
    have hxk : X k ∈ ball (γ (τ k)) ρ := hball _ (by rw [sub_self, norm_zero]; linarith)
    obtain ⟨b1, b2, b3, b4, b5⟩ := hrow _ ht _ hxk
    have hub : ∀ c, |uu c + ptrb c| ≤ U := by
      intro c
      have e1 : |uu c| ≤ fM := by
        rw [hu c, abs_mul]
        have e0 : |switchedThrust (decide (θk k = 1)) (σ * (tmax / Y k))| ≤ fM := by
          unfold switchedThrust
          split
          · rw [abs_mul, hσa, one_mul, abs_of_pos hf0]; exact hf1
          · rw [abs_zero]; exact hfM0.le
        calc _ ≤ fM * 1 := by gcongr; exact hdir c
          _ = fM := mul_one _
      have e2 : |ptrb c| ≤ L := by rw [hpt']; exact b4 c
      rw [hUdef]
      exact (abs_add_le _ _).trans (add_le_add e1 e2)
    have hslowM : ∀ j, |∑ c : Fin 3, psi c j * (uu c + ptrb c)| ≤ M := by
      intro j
      refine (Finset.abs_sum_le_sum_abs _ _).trans ?_
      have : ∀ c ∈ Finset.univ, |psi c j * (uu c + ptrb c)| ≤ L * U := fun c _ => by
        rw [abs_mul, hpsi]
        exact mul_le_mul (b3 c j) (hub c) (abs_nonneg _) hL.le
      refine (Finset.sum_le_card_nsmul _ _ _ this).trans ?_
      rw [Finset.card_univ, Fintype.card_fin, hMdef]
      simp only [nsmul_eq_mul, Nat.cast_ofNat]
      linarith [show (3 * U + 1) * L = 3 * (L * U) + L by ring]
    have hfastM : ∀ z, ‖z - X k‖ < ρ / 2 →
        |∑ c : Fin 3, fastRow et C.mu z c * (uu c + ptrb c) + fastSelf et C.mu z| ≤ M ∧
        |∑ c : Fin 3, fastRow et C.mu z c * (uu c + ptrb c) + fastSelf et C.mu z -
          (∑ c : Fin 3, fastRow et C.mu (X k) c * (uu c + ptrb c) + fastSelf et C.mu (X k))| ≤
          M * ‖z - X k‖ := by
      intro z hz
      obtain ⟨c1, c2, -, -, c4⟩ := hrow _ ht _ (hball z hz)
      obtain ⟨d1, d2⟩ := c4 _ hxk
      simp only [Fin.sum_univ_three]
      have p1 : ∀ c, |fastRow et C.mu z c * (uu c + ptrb c)| ≤ L * U := fun c => by
        rw [abs_mul]; exact mul_le_mul (c1 c) (hub c) (abs_nonneg _) hL.le
      have p2 : ∀ c, |(fastRow et C.mu z c - fastRow et C.mu (X k) c) * (uu c + ptrb c)| ≤ L * ‖z - X k‖ * U := fun c => by
        rw [abs_mul]; exact mul_le_mul (d1 c) (hub c) (abs_nonneg _) (by positivity)
      constructor
      · have q0 := abs_le.1 (p1 0)
        have q1 := abs_le.1 (p1 1)
        have q2 := abs_le.1 (p1 2)
        have q3 := abs_le.1 c2
        rw [hMdef]
        refine abs_le.2 ⟨by linarith [q0.1, q1.1, q2.1, q3.1], by linarith [q0.2, q1.2, q2.2, q3.2]⟩
      · have q0 := abs_le.1 (p2 0)
        have q1 := abs_le.1 (p2 1)
        have q2 := abs_le.1 (p2 2)
        have q3 := abs_le.1 d2
        have e : M * ‖z - X k‖ = L * ‖z - X k‖ * U + L * ‖z - X k‖ * U + L * ‖z - X k‖ * U + L * ‖z - X k‖ := by
          rw [hMdef]; ring
        rw [e]
        refine abs_le.2 ⟨by linarith [q0.1, q1.1, q2.1, q3.1], by linarith [q0.2, q1.2, q2.2, q3.2]⟩
    have hsW : s * W < ρ / 2 := lt_of_le_of_lt (by gcongr) hhW
    have hsM : 0 ≤ s * M := by positivity
    have hsMM : 0 ≤ s * (M * M) := by positivity
    have hsWe : s * W = 22 * (s * M) + 40 * (s * (M * M)) := by rw [hW]; ring
    have hfast := propagates_fast_signed hd hprop (by rw [hsa]; exact hsh.trans hh1.le) hM0.le (r := ρ / 2) (M := M) (L := M)
      (by rw [hsa]; linarith) hslowM hfastM
    have hsl := propagates_slow hd hprop
    have hsq : (σ * s) ^ 2 = s ^ 2 := by rw [mul_pow, pow_two σ, hσσ, one_mul]
    rw [← hgdef, hsq] at hfast
    have hacc : (fun c => uu c + ptrb c) = fun c => switchedThrust (b k) (σ * (tmax / Y k)) *
        lawDir et (unitCall C oeT woe (X k)) c + pertOf C (σ * τ k) (X k) c := by
      funext c
      rw [hu c, hpt', hb, hpdef]
    -- the rates of the field
    have hrs : ∀ j : Fin 5, z j.castSucc - X k j.castSucc - s * (V (b k) (τ k, X k, Y k)).2.1 j.castSucc = 0 := by
      intro j
      rw [hsl j, ← hgdef]
      simp only [hVdef, switchedField, Pi.smul_apply, smul_eq_mul, ← hacc, accRate_slow, hpsi]
      ring
    have hrf : |z 5 - X k 5 - s * (V (b k) (τ k, X k, Y k)).2.1 5| ≤ 40 * M * M * s ^ 2 := by
      refine le_trans (le_of_eq ?_) hfast
      congr 1
      simp only [hVdef, switchedField, Pi.smul_apply, smul_eq_mul, ← hacc, accRate_fast]
      have : ∀ c : Fin 3, fastRow et (unitCall C oeT woe (X k)).mu (unitCall C oeT woe (X k)).oe c = fastRow et C.mu (X k) c :=
        fun _ => rfl
      have e2 : fastSelf et (unitCall C oeT woe (X k)).mu (unitCall C oeT woe (X k)).oe = fastSelf et C.mu (X k) := rfl
      simp only [this, e2]
      ring
    -- no clamp
    have hzx : ‖z - X k‖ < ρ / 2 := by
      refine lt_of_le_of_lt ((pi_norm_le_iff_of_nonneg (r := s * W) (by positivity)).2 fun i => ?_) hsW
      have hgs : g * s ≤ 2 * s := by gcongr
      rw [Real.norm_eq_abs, Pi.sub_apply]
      induction i using Fin.lastCases with
      | last =>
        have e5 : |z 5 - X k 5| ≤ s * W := by
          have q1 := (hfastM (X k) (by rw [sub_self, norm_zero]; linarith)).1
          have q2 : |g * (σ * s) * (∑ c : Fin 3, fastRow et C.mu (X k) c * (uu c + ptrb c) +
              fastSelf et C.mu (X k))| ≤ 2 * s * M := by
            rw [abs_mul, abs_mul, hsa, abs_of_pos hg]
            gcongr
          have q3 := abs_le.1 q2
          have q4 := abs_le.1 hfast
          have q5 : 40 * M * M * s ^ 2 ≤ 40 * (s * (M * M)) := by
            have : s ^ 2 ≤ s * 1 := by rw [sq]; gcongr; linarith
            calc 40 * M * M * s ^ 2 = 40 * (M * M) * s ^ 2 := by ring
              _ ≤ 40 * (M * M) * (s * 1) := by gcongr
              _ = _ := by ring
          rw [hsWe]
          refine abs_le.2 ⟨by linarith [q3.1, q4.1], by linarith [q3.2, q4.2]⟩
        exact e5
      | cast j =>
        have q1 := hslowM j
        rw [hsl j, ← hgdef, add_sub_cancel_left, ← mul_assoc, abs_mul, abs_mul, hsa, abs_of_pos hg]
        calc _ ≤ 2 * s * M := by gcongr
          _ ≤ s * W := by rw [hsWe]; linarith
    have hyz : X (k + 1) = z := by
      rcases hclamp with hy | ⟨hk', hy⟩
      · exact hy
      · refine safety_same (hl hk').1 (hl hk').2 (fun j => ?_) hy
        have hz2 : z ∈ ball (γ (τ k)) ρ2 := ball_subset_ball hρ2' (hball z hzx)
        have := hin _ ht hz2 hk' j
        exact ⟨this.1.le, this.2.le⟩
    rw [hyz, hYs k hk, ← hs, Prod.norm_def, Prod.norm_def, max_le_iff, max_le_iff]
    refine ⟨?_, ?_, ?_⟩
    · have : ((τ (k + 1), z, Y k - s * switchedThrust (b k) (mdot * σ)) - (τ k, X k, Y k) -
          s • V (b k) (τ k, X k, Y k)).1 = 0 := by
        simp [hVdef, switchedField, hs]
      rw [this, norm_zero]; positivity
    · refine (pi_norm_le_iff_of_nonneg (by positivity)).2 fun i => ?_
      have e : ((τ (k + 1), z, Y k - s * switchedThrust (b k) (mdot * σ)) - (τ k, X k, Y k) -
          s • V (b k) (τ k, X k, Y k)).2.1 i = z i - X k i - s * (V (b k) (τ k, X k, Y k)).2.1 i := rfl
      rw [e, Real.norm_eq_abs]
      induction i using Fin.lastCases with
      | last => exact hrf
      | cast j => rw [hrs j, abs_zero]; positivity
    · have : ((τ (k + 1), z, Y k - s * switchedThrust (b k) (mdot * σ)) - (τ k, X k, Y k) -
          s • V (b k) (τ k, X k, Y k)).2.2 = 0 := by
        simp [hVdef, switchedField]
      rw [this, norm_zero]; positivity
  have hfin := (hE h hh hh0 n τ b (fun k => (τ k, X k, Y k)) hτ0 (by simp [hτ0, hX0, hY0])
    (fun k hk => ⟨(hstep k hk).1.le, (hstep k hk).2.1⟩) (by rw [hτn]; exact htT) hmis key n le_rfl).1
  have hXn : X n = xn := by
    have := gX n le_rfl
    rw [hxn] at this; injection this with this; exact this.symm
  have hYn : Y n = mn := by
    have := gM n le_rfl
    rw [hmn] at this; injection this with this; exact this.symm
  have e0 := (norm_snd_le ((τ n, X n, Y n) - (τ n, γ (τ n), μ (τ n)))).trans hfin
  have e1 : ‖X n - γ (τ n)‖ ≤ K * h := (norm_fst_le ((X n, Y n) - (γ (τ n), μ (τ n)))).trans e0
  have e2 : |Y n - μ (τ n)| ≤ K * h := (norm_snd_le ((X n, Y n) - (γ (τ n), μ (τ n)))).trans e0
  rw [hXn, hτn] at e1
  rw [hYn, hτn] at e2
  exact ⟨fun i => (norm_le_pi_norm (xn - γ (σ * tn)) i).trans e1, e2⟩

end PyQ
