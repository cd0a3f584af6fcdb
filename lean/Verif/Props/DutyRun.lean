import Verif.Proofs.DutyClock

/-!
C118: short-step runs with a duty cycle complete and follow the motion whose thrust is switched by the cycle.
-/

set_option linter.unusedSectionVars false
set_option maxRecDepth 100000

open Set Metric Topology

namespace PyQ

theorem npclip_real [PyNan ℝ] (hnan : ∀ x : ℝ, PyNan.isnan x = false) (x a b : ℝ) : npclip x a b = min (max x a) b := by
  simp only [npclip, npmin, npmax, hnan, lt_real, Bool.false_eq_true, if_false, decide_eq_true_eq]
  have h1 : (if x < a then a else x) = max x a := by
    split_ifs with h
    · exact (max_eq_right h.le).symm
    · exact (max_eq_left (not_lt.1 h)).symm
  rw [h1]
  split_ifs with h
  · exact (min_eq_right h.le).symm
  · exact (min_eq_left (not_lt.1 h)).symm

/-- around a switched motion, the law, the perturbations and short steps of the integrator `rk4` are defined, whether
the step thrusts or not -/
theorem tube_fine_switched {C : Config ℝ} {et : ElemType} {oeT woe l u : Fin 5 → ℝ} {tmax mdot σ g T : ℝ}
    {θ : ℝ → Bool} {γ : ℝ → Fin 6 → ℝ} {μ : ℝ → ℝ} (hσ : σ = 1 ∨ σ = -1)
    (hM : SwitchedMotion C et oeT woe tmax mdot σ g T θ γ μ)
    (hS : ∀ s ∈ Icc 0 T, LawSmooth et (unitCall C oeT woe (γ s)) ∧ PertSmooth C σ s (γ s) ∧
      (C.elementsType = .keplerian → ∀ j : Fin 5, l j < γ s j.castSucc ∧ γ s j.castSucc < u j))
    (hT : 0 < tmax) {ml : ℝ} (hml : 0 < ml) :
    ∃ ρ > 0, ∃ δ > 0, ∀ s ∈ Icc 0 T, ∀ x ∈ ball (γ s) ρ, ∀ m, ml < m →
      (C.elementsType = .keplerian → ∀ j : Fin 5, l j < x j.castSucc ∧ x j.castSucc < u j) ∧
      ∃ o q, lyapunovControlAngles (dynOf (α := ℝ) et).lyapFun (callAt C oeT woe (σ * (tmax / m)) x) = .ok o ∧
        PerturbationIs C (σ * s) x q ∧
        ∀ h, 0 < h → h < δ → ∀ τ p, ∀ c : Bool, p =
            { mu := C.mu, u := vsmul (switchedThrust c (σ * (tmax / m))) (dirOf o.alpha o.beta),
              psi0 := o.psi 0, psi1 := o.psi 1, psi2 := o.psi 2, ptrb := q } →
          ∃ z, rk4 (dynOf (α := ℝ) et).eom τ (σ * h) x p = .ok z := by
  have hσa : |σ| = 1 := by rcases hσ with rfl | rfl <;> norm_num
  have hσ0 : σ ≠ 0 := by rcases hσ with rfl | rfl <;> norm_num
  obtain ⟨hcont, -, hM⟩ := hM
  have hcont2 : ContinuousOn (fun t => (t, γ t)) (Icc 0 T) := continuousOn_id.prodMk hcont
  have hgrad : ∀ t ∈ Icc 0 T, lawGrad et (unitCall C oeT woe (γ t)) 0 ≠ 0 ∨ lawGrad et (unitCall C oeT woe (γ t)) 1 ≠ 0 := by
    intro t ht
    obtain ⟨o, v, q, -, h1, -⟩ := hM t ht
    have h2 := control_defined h1
    rw [(dyn_lyap et _).1] at h2
    have h3 := lawGrad_call et C oeT woe (σ * (tmax / μ t)) (γ t)
    unfold lawGrad at h3
    rw [h3] at h2
    exact h2.imp right_ne_zero_of_mul right_ne_zero_of_mul
  -- an open set of good states
  have hopen : ∀ t ∈ Icc 0 T, (t, γ t) ∈ interior {y : ℝ × (Fin 6 → ℝ) | LawSmooth et (unitCall C oeT woe y.2) ∧
      (lawGrad et (unitCall C oeT woe y.2) 0 ≠ 0 ∨ lawGrad et (unitCall C oeT woe y.2) 1 ≠ 0) ∧
      PertSmooth C σ y.1 y.2 ∧
      (C.elementsType = .keplerian → ∀ j : Fin 5, l j < y.2 j.castSucc ∧ y.2 j.castSucc < u j)} := by
    intro t ht
    rw [mem_interior_iff_mem_nhds]
    obtain ⟨H, hp, hb⟩ := hS t ht
    have snd : ∀ {p : (Fin 6 → ℝ) → Prop}, (∀ᶠ y in 𝓝 (γ t), p y) → ∀ᶠ y in 𝓝 (t, γ t), p y.2 := fun hp =>
      (continuous_snd.continuousAt (x := (t, γ t))).eventually hp
    refine (snd (lawSmooth_near H)).and ((snd (p := fun y => lawGrad et (unitCall C oeT woe y) 0 ≠ 0 ∨
        lawGrad et (unitCall C oeT woe y) 1 ≠ 0) ?_).and ((pertSmooth_near hp).and (snd (p := fun y =>
        C.elementsType = .keplerian → ∀ j : Fin 5, l j < y j.castSucc ∧ y j.castSucc < u j) ?_)))
    · rcases hgrad t ht with h | h
      · exact ((lawGrad_cont H 0).eventually_ne h).mono fun y hy => Or.inl hy
      · exact ((lawGrad_cont H 1).eventually_ne h).mono fun y hy => Or.inr hy
    · by_cases hk : C.elementsType = .keplerian
      · simp only [hk, true_imp_iff]
        rw [Filter.eventually_all]
        intro j
        exact ((continuous_apply _).continuousAt.eventually (lt_mem_nhds (hb hk j).1)).and
          ((continuous_apply _).continuousAt.eventually (gt_mem_nhds (hb hk j).2))
      · exact Filter.Eventually.of_forall fun y h => absurd h hk
  obtain ⟨ρ1, hρ1, hin⟩ := tube_open hcont2 isOpen_interior hopen
  obtain ⟨L, hL, ρ2, hρ2, hΦ⟩ := tube_lipschitz (f := fun y : ℝ × (Fin 6 → ℝ) => (fastRow et C.mu y.2, fastSelf et C.mu y.2,
      (fun c j => candPsi et (unitCall C oeT woe y.2) c j : Fin 3 → Fin 5 → ℝ), pertOf C (σ * y.1) y.2)) hcont2 (fun t ht => by
    have e1 := fast_smooth (N := 1) (hS t ht).1.1
    have lift : ∀ φ : (Fin 6 → ℝ) → ℝ, ContDiffAt ℝ 1 φ (γ t) →
        ContDiffAt ℝ 1 (fun y : ℝ × (Fin 6 → ℝ) => φ y.2) (t, γ t) :=
      fun φ hφ => ContDiffAt.comp (g := φ) (f := fun y : ℝ × (Fin 6 → ℝ) => y.2) (t, γ t) hφ contDiffAt_snd
    refine (contDiffAt_pi.2 fun c => lift _ (e1.1 c)).prodMk ((lift _ e1.2).prodMk (ContDiffAt.prodMk ?_ (pert_c1 (hS t ht).2.1)))
    exact contDiffAt_pi.2 fun c => contDiffAt_pi.2 fun j => lift (fun x => candPsi et (unitCall C oeT woe x) c j)
      (candPsi_smooth (N := 1) (hS t ht).1.1 c j))
  obtain ⟨ρ, hρdef⟩ : ∃ ρ, ρ = min ρ1 ρ2 / 2 := ⟨_, rfl⟩
  have hρ : 0 < ρ := by rw [hρdef]; positivity
  have hρ1' : ρ + ρ ≤ ρ1 := by rw [hρdef]; linarith [min_le_left ρ1 ρ2]
  have hρ2' : ρ + ρ ≤ ρ2 := by rw [hρdef]; linarith [min_le_right ρ1 ρ2]
  obtain ⟨U, hUdef⟩ : ∃ U, U = tmax / ml + L := ⟨_, rfl⟩
  have hU0 : 0 < U := by rw [hUdef]; positivity
  obtain ⟨M, hMdef⟩ : ∃ M, M = (3 * U + 1) * L := ⟨_, rfl⟩
  have hM0 : 0 < M := by rw [hMdef]; positivity
  have hMe : M = L * U + L * U + L * U + L := by rw [hMdef]; ring
  refine ⟨ρ, hρ, ρ / M, by positivity, fun t ht x hx m hm => ?_⟩
  have good : ∀ v : Fin 6 → ℝ, ‖v‖ ≤ ρ → (t, x + v) ∈ ball (t, γ t) ρ1 ∧ (t, x + v) ∈ ball (t, γ t) ρ2 := by
    intro v hv
    have h1 : ‖x - γ t‖ < ρ := by rwa [mem_ball, dist_eq_norm] at hx
    have h2 : x + v - γ t = (x - γ t) + v := by abel
    have h3 : dist (t, x + v) (t, γ t) < ρ + ρ := by
      rw [Prod.dist_eq, dist_self, max_eq_right dist_nonneg, dist_eq_norm, h2]
      exact (norm_add_le _ _).trans_lt (by linarith)
    exact ⟨by rw [mem_ball]; linarith, by rw [mem_ball]; linarith⟩
  have h0 := good 0 (by rw [norm_zero]; exact hρ.le)
  rw [add_zero] at h0
  obtain ⟨-, k2, k3, k5⟩ := interior_subset (hin t ht h0.1)
  simp only at k2 k3 k5
  have hm0 : 0 < m := hml.trans hm
  have hf0 : 0 < tmax / m := by positivity
  have hf1 : tmax / m ≤ tmax / ml := by gcongr
  have hσf : σ * (tmax / m) ≠ 0 := mul_ne_zero hσ0 hf0.ne'
  obtain ⟨o, ho⟩ := law_defined_signed hσf k2
  obtain ⟨pp, -, hpp⟩ := k3
  have hq : PerturbationIs C (σ * t) x (pp (t, x)) := hpp.self_of_nhds
  have hq' := pertOf_eq hq
  refine ⟨k5, o, pp (t, x), ho, hq, fun h hh hhδ τ p cc hpar => ?_⟩
  rw [hq'] at hpar
  subst hpar
  have hdu : dirOf o.alpha o.beta = unitDir o.alpha o.beta := by
    funext c; fin_cases c <;> simp [dirOf, unitDir]
  obtain ⟨b2, -⟩ := hΦ t ht (t, x) h0.2
  rw [Prod.norm_def, Prod.norm_def, Prod.norm_def, max_le_iff, max_le_iff, max_le_iff] at b2
  have bpsi : ∀ c j, |candPsi et (unitCall C oeT woe x) c j| ≤ L := fun c j => by
    have e := (norm_le_pi_norm (fun c j => candPsi et (unitCall C oeT woe x) c j : Fin 3 → Fin 5 → ℝ) c).trans b2.2.2.1
    exact (norm_le_pi_norm (fun j => candPsi et (unitCall C oeT woe x) c j) j).trans e
  have hsw : |switchedThrust cc (σ * (tmax / m))| ≤ tmax / ml := by
    cases cc
    · simp only [switchedThrust, Bool.false_eq_true, if_false, abs_zero]; positivity
    · simp only [switchedThrust, if_true]
      rw [abs_mul, hσa, one_mul, abs_of_pos hf0]; exact hf1
  generalize switchedThrust cc (σ * (tmax / m)) = w at hsw
  have hub : ∀ c, |vsmul w (dirOf o.alpha o.beta) c + pertOf C (σ * t) x c| ≤ U := by
    intro c
    have e1 : |vsmul w (dirOf o.alpha o.beta) c| ≤ tmax / ml := by
      rw [hdu, vsmul, abs_mul]
      calc _ ≤ tmax / ml * 1 := mul_le_mul hsw (unitDir_le _ _ c) (abs_nonneg _) (by positivity)
        _ = _ := mul_one _
    have e2 : |pertOf C (σ * t) x c| ≤ L := (norm_le_pi_norm (pertOf C (σ * t) x) c).trans b2.2.2.2
    rw [hUdef]
    exact (abs_add_le _ _).trans (add_le_add e1 e2)
  have hsa : |σ * h| = h := by rw [abs_mul, hσa, one_mul, abs_of_pos hh]
  have hhM : |σ * h| * M ≤ ρ := by
    rw [lt_div_iff₀ hM0] at hhδ
    rw [hsa]; exact hhδ.le
  refine rk4_returns_signed (R := ρ) (M := M) (fun τ v hv => ?_) hM0.le hhM
  obtain ⟨g1, g2⟩ := good v hv
  obtain ⟨c1, -⟩ := interior_subset (hin t ht g1)
  simp only at c1
  obtain ⟨k, hk⟩ := eom_defined (A := unitCall C oeT woe (x + v)) c1.1 τ (P :=
    { mu := C.mu, u := vsmul w (dirOf o.alpha o.beta),
      psi0 := o.psi 0, psi1 := o.psi 1, psi2 := o.psi 2, ptrb := pertOf C (σ * t) x }) rfl
  have hk' : (dynOf (α := ℝ) et).eom τ (x + v)
    { mu := C.mu, u := vsmul w (dirOf o.alpha o.beta),
      psi0 := o.psi 0, psi1 := o.psi 1, psi2 := o.psi 2, ptrb := pertOf C (σ * t) x } = .ok k := hk
  have hslow : ∀ j : Fin 5, k j.castSucc = ∑ c : Fin 3, candPsi et (unitCall C oeT woe x) c j *
      (vsmul w (dirOf o.alpha o.beta) c + pertOf C (σ * t) x c) := by
    intro j
    rw [dyn_slow et _ _ _ k hk' j, law_psi ho]
    simp only [Fin.sum_univ_three]
  refine ⟨k, hk', (pi_norm_le_iff_of_nonneg hM0.le).2 fun i => ?_⟩
  obtain ⟨b1, -⟩ := hΦ t ht (t, x + v) g2
  rw [Prod.norm_def, Prod.norm_def, max_le_iff, max_le_iff] at b1
  rw [Real.norm_eq_abs]
  have hLU : 0 ≤ L * U := by positivity
  induction i using Fin.lastCases with
  | last =>
    have e5 : k (Fin.last 5) = _ := eom_fast hk'
    have r1 : ∀ c, |fastRow et C.mu (x + v) c| ≤ L := fun c => (norm_le_pi_norm (fastRow et C.mu (x + v)) c).trans b1.1
    have r2 : |fastSelf et C.mu (x + v)| ≤ L := b1.2.1
    rw [e5]
    simp only [Fin.sum_univ_three]
    have p1 := fun c => (abs_mul _ _).trans_le (mul_le_mul (r1 c) (hub c) (abs_nonneg _) hL.le)
    have q0 := abs_le.1 (p1 0)
    have q1 := abs_le.1 (p1 1)
    have q2 := abs_le.1 (p1 2)
    have q3 := abs_le.1 r2
    rw [hMe]
    exact abs_le.2 ⟨by linarith [q0.1, q1.1, q2.1, q3.1], by linarith [q0.2, q1.2, q2.2, q3.2]⟩
  | cast j =>
    rw [hslow j]
    simp only [Fin.sum_univ_three]
    have p1 := fun c => (abs_mul _ _).trans_le (mul_le_mul (bpsi c j) (hub c) (abs_nonneg _) hL.le)
    have q0 := abs_le.1 (p1 0)
    have q1 := abs_le.1 (p1 1)
    have q2 := abs_le.1 (p1 2)
    rw [hMe]
    exact abs_le.2 ⟨by linarith [q0.1, q1.1, q2.1], by linarith [q0.2, q1.2, q2.2]⟩

/-- the battery never inhibits thrust for a duration `T`: even continuous thrust would leave its level above the minimum -/
structure AmpleBattery (P : Problem ℝ) (T : ℝ) : Prop where
  charge : 0 ≤ P.chargeRate
  discharge : 0 ≤ P.dischargeRate
  le : P.batteryInitial ≤ P.capMax
  level : P.capMin + 1 / 10 ^ 12 < P.batteryInitial - P.dischargeRate * T

/-- the loop variables after `n` steps of length `h` of the cycle of `a` steps on and `b` steps off -/
structure OnDuty (P : Problem ℝ) (a b : ℕ) (h : ℝ) (n : ℕ) (s : LoopSt ℝ) : Prop where
  t : s.t = n * h
  battery : P.batteryInitial - P.dischargeRate * (n * h) ≤ s.battery ∧ s.battery ≤ P.capMax
  vars : DutyBefore a b h n s.duty s.tOn s.tOff
  charging : s.charging = false
  times : s.hist.times = (List.range (n + 1)).map fun k : ℕ => (k : ℝ) * h
  controls : s.hist.controls.length = n ∧
    ∀ k c, s.hist.controls[k]? = some c → c.2.2 = if cycleOn a b k then 1 else 0
  states : ∃ l, s.hist.states = l ++ [s.oe] ∧ l.length = n
  masses : ∃ l, s.hist.masses = l ++ [s.mass] ∧ l.length = n
  angles : 0 < n → s.alpha ≠ none ∧ s.beta ≠ none

theorem onDuty_init {P : Problem ℝ} (hb : P.batteryInitial ≤ P.capMax) (a b : ℕ) (h : ℝ) :
    OnDuty P a b h 0 (initLoop P) := by
  constructor <;> simp [initLoop, DutyBefore, hb]

theorem OnDuty.relaxed {P : Problem ℝ} {a b : ℕ} {h : ℝ} {n : ℕ} {s : LoopSt ℝ} (H : OnDuty P a b h n s) (r : ℕ) :
    OnDuty P a b h n { s with nRelaxed := r } := ⟨H.1, H.2, H.3, H.4, H.5, H.6, H.7, H.8, H.9⟩

theorem OnDuty.lastTime {P : Problem ℝ} {a b : ℕ} {h : ℝ} {n : ℕ} {s : LoopSt ℝ} (H : OnDuty P a b h n s) :
    s.hist.lastTime = n * h := by
  simp [Hist.lastTime, H.times, List.range_succ]

theorem OnDuty.time {P : Problem ℝ} {a b : ℕ} {h : ℝ} {n : ℕ} {s : LoopSt ℝ} (H : OnDuty P a b h n s) {k : ℕ} (hk : k ≤ n) :
    s.hist.times[k]? = some (k * h) := by
  rw [H.times, List.getElem?_map, List.getElem?_range (by omega)]; rfl

theorem OnDuty.switches {P : Problem ℝ} {h T on off : ℝ} (hh : 0 < h) {N : ℕ} {S : Finset ℕ} (hS : S.card ≤ N)
    (hm : ∀ k : ℕ, k * h ≤ T → k ∈ S ∨
      ∀ s ∈ Ico (k * h) ((k + 1) * h), dutySchedule on off s = cycleOn (stepsBeyond on h) (stepsBeyond off h) k)
    {n : ℕ} {s : LoopSt ℝ} (H : OnDuty P (stepsBeyond on h) (stepsBeyond off h) h n s) {k : ℕ} (hk : k ≤ n)
    (hT : n * h ≤ T) : SwitchesUpTo 1 (dutySchedule on off) s.hist k N h := by
  refine ⟨S, hS, fun j hj => ?_⟩
  have hlt : j < s.hist.controls.length := by rw [H.controls.1]; omega
  have hg := List.getElem?_eq_getElem hlt
  have h1 := H.controls.2 _ _ hg
  have e : (1 : ℝ) * (((j + 1 : ℕ) : ℝ) * h - j * h) = h := by push_cast; ring
  refine ⟨s.hist.controls[j].1, s.hist.controls[j].2.1, _, j * h, (j + 1 : ℕ) * h, hg, H.time (by omega),
    H.time (by omega), by rw [e]; exact hh, by rw [e], ?_⟩
  have hjn : (j : ℝ) ≤ n := by exact_mod_cast (by omega : j ≤ n)
  refine (hm j (by nlinarith)).imp id fun h2 r hr => ?_
  rw [one_mul, one_mul] at hr
  push_cast at hr
  rw [h2 r hr]
  show _ ↔ s.hist.controls[j].2.2 = 1
  rw [h1]
  split_ifs with h3 <;> simp [h3]

/-- one step of the loop at a state where the law and the integrator are defined -/
theorem step_fine_duty [PyNan ℝ] (hnan : ∀ x : ℝ, PyNan.isnan x = false) {E : Env ℝ} {et : ElemType}
    (hd : E.cfg.dyn = dynOf et) (hi : E.cfg.integrator = .rk4) (hsun : E.cfg.useSundman = false)
    {oeT l u : Fin 5 → ℝ} {h T ea er : ℝ} {a b n : ℕ} {s : LoopSt ℝ}
    (hl : E.cfg.elementsType = .keplerian → BoundsAre E.cfg.oeMin l ∧ BoundsAre E.cfg.oeMax u)
    (hst : E.prob.tStep = h) (hoe : E.prob.oeT = List.ofFn oeT) (hea : E.etaA = .flt ea) (her : E.etaR = .flt er)
    (hea0 : ea ≤ 0) (her0 : er ≤ 0) (hB : AmpleBattery E.prob T) (hon : 0 < E.prob.dutyOn) (hoff : 0 < E.prob.dutyOff)
    (ha : a = stepsBeyond E.prob.dutyOn h) (hb : b = stepsBeyond E.prob.dutyOff h)
    (hh : 0 < h) (hn : (n + 1 : ℝ) * h ≤ T) (hO : OnDuty E.prob a b h n s)
    (hbd : E.cfg.elementsType = .keplerian → ∀ j : Fin 5, l j < s.oe j.castSucc ∧ s.oe j.castSucc < u j)
    {o : ControlOut ℝ} (ho : lyapunovControlAngles (dynOf (α := ℝ) et).lyapFun
      (callAt E.cfg oeT E.prob.woe (E.prob.tmax / s.mass) s.oe) = .ok o)
    {q : Fin 3 → ℝ} (hq : PerturbationIs E.cfg s.t s.oe q)
    (hz : ∀ p, ∀ c : Bool, p =
        { mu := E.cfg.mu, u := vsmul (switchedThrust c (E.prob.tmax / s.mass)) (dirOf o.alpha o.beta),
          psi0 := o.psi 0, psi1 := o.psi 1, psi2 := o.psi 2, ptrb := q } →
      ∃ z, rk4 (dynOf (α := ℝ) et).eom s.t h s.oe p = .ok z) :
    ∃ D, RecStep E s D ∧ OnDuty E.prob a b h (n + 1) (postState E D) ∧ D.c.oeT = oeT ∧
      s.mass - |E.prob.mdot| * h ≤ (postState E D).mass := by
  have hcl : clampPhase E.cfg s = .ok s := by
    unfold clampPhase
    cases hE : E.cfg.elementsType with
    | meeWithA => rfl
    | keplerian =>
      obtain ⟨h1, h2⟩ := hl hE
      obtain ⟨L, hL⟩ := bounds_list h1
      obtain ⟨U, hU⟩ := bounds_list h2
      have h3 : elementsSafety s.oe E.cfg.oeMin E.cfg.oeMax = .ok s.oe := by
        cases hs : elementsSafety s.oe E.cfg.oeMin E.cfg.oeMax with
        | error e => rw [hL, hU] at hs; simp [elementsSafety] at hs
        | ok y => rw [safety_same h1 h2 (fun j => ⟨(hbd hE j).1.le, (hbd hE j).2.le⟩) hs]
      obtain ⟨m, hm, -⟩ := hO.states
      simp only [h3, Bind.bind, Except.bind, pure, Except.pure, hm, List.dropLast_concat]
      rw [← hm]
  have hch : chooseStep E.cfg E.prob s.oe = .ok h := by
    simp [chooseStep, hsun, hst, pure, Except.pure]
  obtain ⟨hb1, hb2⟩ := hO.battery
  have hdis := hB.discharge
  have hlev1 : E.prob.capMin + 1 / 10 ^ 12 < E.prob.batteryInitial - E.prob.dischargeRate * ((n + 1) * h) :=
    hB.level.trans_le (by linarith [mul_le_mul_of_nonneg_left hn hdis])
  have e12 : (0 : ℝ) < 1 / 10 ^ 12 := by positivity
  have hsplit : E.prob.dischargeRate * ((n + 1) * h) = E.prob.dischargeRate * (n * h) + E.prob.dischargeRate * h := by ring
  have hdh : 0 ≤ E.prob.dischargeRate * h := mul_nonneg hdis hh.le
  obtain ⟨duty, tOn, tOff, hdu, hvars⟩ := duty_step (P := E.prob) (s := s) hh hon.le hoff.le ha hb hO.t hO.vars hO.charging
    (by linarith) (by linarith)
  have hduty := hvars.duty
  have hσsgn : PyOrd.sign h = (1 : ℝ) := by
    exact sign_signed (Or.inl rfl) (by rw [one_mul]; exact hh)
  have hacc : lyapArgs E.cfg E.prob oeT (E.prob.tmax / s.mass) s.oe =
      callAt E.cfg oeT E.prob.woe (E.prob.tmax / s.mass) s.oe := rfl
  have hv5 : asVec5 E.prob.oeT = .ok oeT := by
    rw [hoe]
    simp only [List.ofFn_succ, List.ofFn_zero, asVec5]
    congr 1
    funext j; fin_cases j <;> rfl
  have hs1 : (PyOrd.sign h * E.prob.tmax / s.mass : ℝ) = E.prob.tmax / s.mass := by
    rw [hσsgn, one_mul]
  obtain ⟨c, al, be, hc, c1, c2, c3, c4, c5, c6⟩ : ∃ c al be, controlPhase E s (dutyPhase E.prob s h) = .ok (.ctl c) ∧
      c.alpha = some al ∧ c.beta = some be ∧ c.throttle = (if duty then 1 else 0) ∧
      c.u = vsmul (switchedThrust duty (E.prob.tmax / s.mass)) (dirOf o.alpha o.beta) ∧ c.psi = o.psi ∧ c.oeT = oeT := by
    rw [hdu]
    cases hdd : duty with
    | true =>
      simp only [controlPhase, hs1, hv5, hd, hacc, ho, hnan, hea, her, evalEta, Bind.bind, Except.bind, lt_real,
        Nat.cast_zero, not_lt.2 hea0, not_lt.2 her0, pure, Except.pure]
      exact ⟨_, _, _, rfl, rfl, rfl, rfl, rfl, rfl, rfl⟩
    | false =>
      have hn0 : 0 < n := by
        rcases Nat.eq_zero_or_pos n with h0 | h0
        · exfalso
          rw [hdd, h0, cycleOn] at hduty
          have ha0 : 0 < a := by rw [ha, stepsBeyond]; omega
          rw [Nat.zero_mod, decide_eq_true ha0] at hduty
          cases hduty
        · exact h0
      obtain ⟨g1, g2⟩ := hO.angles hn0
      obtain ⟨al, hal⟩ := Option.ne_none_iff_exists'.1 g1
      obtain ⟨be, hbe⟩ := Option.ne_none_iff_exists'.1 g2
      simp only [controlPhase, hs1, hv5, hd, hacc, ho, Bind.bind, Except.bind, pure, Except.pure, Bool.false_eq_true, if_false]
      refine ⟨_, al, be, rfl, hal, hbe, rfl, ?_, rfl, rfl⟩
      funext c
      fin_cases c <;> simp [zero3, vsmul, switchedThrust]
  obtain ⟨z, hpr⟩ : ∃ z, propagatePhase E s h c = .ok (z, h) := by
    obtain ⟨z, hz1⟩ := hz _ duty rfl
    unfold PerturbationIs at hq
    refine ⟨z, ?_⟩
    cases hc : E.cfg.perturbations with
    | none =>
      simp only [hc] at hq
      have hq : q = zero3 := hq
      rw [hq] at hz1
      simp only [propagatePhase, hc, hi, hd, c4, c5, Bind.bind, Except.bind, pure, Except.pure, hz1]
    | some f =>
      simp only [hc] at hq
      simp only [propagatePhase, hc, hq, hi, hd, c4, c5, Bind.bind, Except.bind, pure, Except.pure, hz1]
  refine ⟨⟨s, h, dutyPhase E.prob s h, c, z, h, al, be⟩,
    ⟨hcl, hch, rfl, hc, by simpa only [hdu] using hpr, c1, c2⟩, ?_, c6, ?_⟩
  · have hbat : E.prob.batteryInitial - E.prob.dischargeRate * ((n + 1 : ℕ) * h) ≤
          (batteryPhase E.prob s.battery duty false h).1 ∧
        (batteryPhase E.prob s.battery duty false h).1 ≤ E.prob.capMax ∧
        (batteryPhase E.prob s.battery duty false h).2 = false := by
      have hch0 : 0 ≤ E.prob.chargeRate * h := mul_nonneg hB.charge hh.le
      push_cast
      cases duty
      · simp only [batteryPhase, Bool.false_eq_true, if_false, npclip_real hnan]
        refine ⟨le_min (le_max_of_le_left (by linarith)) (by linarith), min_le_right _ _, ?_⟩
        split_ifs <;> rfl
      · simp only [batteryPhase, if_true, npclip_real hnan]
        exact ⟨le_min (le_max_of_le_left (by linarith)) (by linarith), min_le_right _ _, trivial⟩
    constructor
    · simp only [postState, hdu, hO.t]; push_cast; ring
    · simp only [postState, hdu]; exact ⟨hbat.1, hbat.2.1⟩
    · simp only [postState, hdu]; exact hvars
    · simp only [postState, hdu]; exact hbat.2.2
    · simp only [postState, hdu, hO.times, hO.t]
      rw [List.range_succ (n := n + 1), List.map_append]
      simp only [List.map_cons, List.map_nil]
      congr 2; push_cast; ring
    · simp only [postState, c3]
      refine ⟨by simp [hO.controls.1], fun k c hc => ?_⟩
      rcases Nat.lt_or_ge k n with hk | hk
      · rw [List.getElem?_append_left (by rw [hO.controls.1]; exact hk)] at hc
        exact hO.controls.2 k c hc
      · rw [List.getElem?_append_right (by rw [hO.controls.1]; exact hk), hO.controls.1] at hc
        have hkn : k = n := by
          have := (List.getElem?_eq_some_iff.1 hc).1
          simp at this; omega
        subst hkn
        simp at hc
        rw [← hc, hduty]
    · obtain ⟨m, hm, hm2⟩ := hO.states
      exact ⟨m ++ [s.oe], by simp only [postState, hm], by simp [hm2]⟩
    · obtain ⟨m, hm, hm2⟩ := hO.masses
      exact ⟨m ++ [s.mass], by simp only [postState, hm], by simp [hm2]⟩
    · intro _
      simp [postState, c1, c2]
  · simp only [postState, hdu]
    have h1 : E.prob.mdot * h ≤ |E.prob.mdot| * h := mul_le_mul_of_nonneg_right (le_abs_self _) hh.le
    have h2 : 0 ≤ |E.prob.mdot| * h := by positivity
    split_ifs <;> linarith

/-- up to step `N`, either every iteration continues or the first one that does not converges -/
theorem first_break_of [PyNan ℝ] {E : Env ℝ} {P : Problem ℝ} (hEP : E.prob = P) {h T : ℝ} (hh : 0 < h)
    {I : ℕ → LoopSt ℝ → Prop} {far : LoopSt ℝ → Prop} (hI : ∀ n s, I n s → s.hist.lastTime = n * h)
    (hpr : ∀ n : ℕ, (n : ℝ) * h ≤ T → (∀ k < n, iter E (E.after k) = .cont (E.after (k + 1))) → I n (E.after n) ∧
      ((n + 1 : ℝ) * h ≤ T → ∃ s, I (n + 1) s ∧
        (iter E (E.after n) = .cont s ∧ far s ∨ iter E (E.after n) = .brk s 1 ∨ iter E (E.after n) = .brk s 2)))
    (N : ℕ) (hN : (N : ℝ) * h ≤ T) (hg : ∀ k < N, (k : ℝ) * h < |P.tfMax|) :
    ((∀ k < N, iter E (E.after k) = .cont (E.after (k + 1))) ∧ (0 < N → far (E.after N)) ∧
      (|P.tfMax| ≤ N * h → ∀ f, loop E (N + 1 + f) (initLoop P) = some (.timeout (E.after N)))) ∨
    ∃ m < N, ∃ s c, I (m + 1) s ∧ (c = 1 ∨ c = 2) ∧ ∀ f, loop E (m + 1 + f) (initLoop P) = some (.exit s c) := by
  have hle : ∀ k ≤ N, (k : ℝ) * h ≤ T := fun k hk => by
    have : (k : ℝ) ≤ N := by exact_mod_cast hk
    nlinarith
  have habs : ∀ k : ℕ, |(k : ℝ) * h| = k * h := fun k => abs_of_nonneg (by positivity)
  have hguard : ∀ n ≤ N, (∀ k < n, iter E (E.after k) = .cont (E.after (k + 1))) → n < N →
      guardB E.prob (E.after n) = true := by
    intro n hn hc hlt
    have h1 := hI _ _ (hpr n (hle n hn) hc).1
    simp only [guardB, lt_real, abs_real, h1, decide_eq_true_eq, hEP, habs]
    exact hg n hlt
  by_cases hall : ∀ k < N, iter E (E.after k) = .cont (E.after (k + 1))
  · left
    obtain ⟨h1, -⟩ := hpr N hN hall
    refine ⟨hall, fun h0 => ?_, fun htf f => ?_⟩
    · obtain ⟨M, rfl⟩ : ∃ M, N = M + 1 := ⟨N - 1, by omega⟩
      obtain ⟨-, h3⟩ := hpr M (hle M (by omega)) (fun k hk => hall k (by omega))
      obtain ⟨s, -, h4⟩ := h3 (by exact_mod_cast hN)
      have h5 := hall M (by omega)
      rcases h4 with ⟨h6, h7⟩ | h6 | h6 <;> rw [h5] at h6
      · injection h6 with h6; rw [h6]; exact h7
      · cases h6
      · cases h6
    · have := loop_prefix (E := E) (n := N) (fun k hk => hguard k hk.le (fun j hj => hall j (by omega)) hk) hall (1 + f)
      rw [hEP, ← add_assoc] at this
      rw [this]
      have hgf : guardB E.prob (E.after N) = false := by
        simp only [guardB, lt_real, abs_real, hI _ _ h1, hEP, habs]
        exact decide_eq_false (not_lt.2 htf)
      rw [show 1 + f = f + 1 by omega]
      simp only [loop, hgf, Bool.false_eq_true, if_false]
  · right
    have hex : ∃ k, k < N ∧ iter E (E.after k) ≠ .cont (E.after (k + 1)) := by
      by_contra hno
      exact hall fun k hk => by
        by_contra hne
        exact hno ⟨k, hk, hne⟩
    classical
    obtain ⟨hmN, hm1⟩ := Nat.find_spec hex
    have hpre : ∀ k < Nat.find hex, iter E (E.after k) = .cont (E.after (k + 1)) := fun k hk => by
      have := Nat.find_min hex hk
      by_contra hne
      exact this ⟨by omega, hne⟩
    generalize Nat.find hex = m at hmN hm1 hpre
    obtain ⟨-, h3⟩ := hpr m (hle m hmN.le) hpre
    obtain ⟨s, h4, h5⟩ := h3 (by have := hle (m + 1) hmN; push_cast at this; exact this)
    have fin : ∀ c, iter E (E.after m) = .brk s c → ∀ f, loop E (m + 1 + f) (initLoop P) = some (.exit s c) := by
      intro c hc f
      have := loop_prefix (E := E) (n := m) (fun k hk => hguard k (by omega) (fun j hj => hpre j (by omega)) (by omega))
        hpre (1 + f)
      rw [hEP, ← add_assoc] at this
      rw [this, show 1 + f = f + 1 by omega]
      simp only [loop, hguard m hmN.le hpre hmN, if_true, hc]
    refine ⟨m, hmN, s, ?_⟩
    rcases h5 with ⟨h6, -⟩ | h6 | h6
    · exact absurd (by simp only [Env.after, h6]) hm1
    · exact ⟨1, h4, Or.inl rfl, fin 1 h6⟩
    · exact ⟨2, h4, Or.inr rfl, fin 2 h6⟩

/-- the start of a run with a duty cycle: an object with settings `C`, the target `oeT` and weights `woe`, the state `x0`,
the thrust and mass data, no result flags yet, steps of length `h`, thrust for `on` and coasting for `off` in turn, a
battery that suffices for a duration `T` and a mass limit of at most `ml` -/
structure StartsDuty (C : Config ℝ) (oeT woe : Fin 5 → ℝ) (tmax m0 mdot on off ml h T : ℝ) (x0 : Fin 6 → ℝ) (Q : QLaw ℝ)
    (P : Problem ℝ) : Prop where
  cfg : Q.cfg = C
  prob : Q.prob = some P
  ready : Q.ready = true
  fresh : Q.Fresh
  target : P.oeT = List.ofFn oeT
  weights : P.woe = woe
  thrust : P.tmax = tmax
  startMass : P.mass0 = m0
  massRate : P.mdot = mdot
  start : P.oe0 = x0
  step : P.tStep = h
  dutyOn : P.dutyOn = on
  dutyOff : P.dutyOff = off
  battery : AmpleBattery P T
  massMin : P.massMin ≤ ml

section completes
variable [PyNan ℝ] (hnan : ∀ x : ℝ, PyNan.isnan x = false) {C : Config ℝ} {et : ElemType} (hd : C.dyn = dynOf et)
  (hsun : C.useSundman = false) (hi : C.integrator = .rk4)
  {oeT woe l u : Fin 5 → ℝ} {tmax mdot on off ml T : ℝ} {γ : ℝ → Fin 6 → ℝ} {μ : ℝ → ℝ}
  (hl : C.elementsType = .keplerian → BoundsAre C.oeMin l ∧ BoundsAre C.oeMax u)
  (hon : 0 < on) (hoff : 0 < off)
  (hM : SwitchedMotion C et oeT woe tmax mdot 1 (gain C.integrator) T (dutySchedule on off) γ μ)
  (hS : ∀ s ∈ Icc 0 T, LawSmooth et (unitCall C oeT woe (γ s)) ∧ PertSmooth C 1 s (γ s) ∧
    (C.elementsType = .keplerian → ∀ j : Fin 5, l j < γ s j.castSucc ∧ γ s j.castSucc < u j))
  (hT0 : 0 < T) (hT : 0 < tmax) (hm : ∀ s ∈ Icc 0 T, 0 < μ s ∧ ml < μ s)
include hnan hd hsun hi hl hon hoff hM hS hT0 hT hm

/-- with short steps every iteration up to time `T` is recorded, thrusts or coasts by the cycle, and either continues or
converges -/
theorem progress_duty : ∃ δ > 0, ∃ K ≥ 0, ∀ h, 0 < h → h < δ → ∀ (Q : QLaw ℝ) (P : Problem ℝ) (ea er : ℝ),
    ea ≤ 0 → er ≤ 0 → StartsDuty C oeT woe tmax (μ 0) mdot on off ml h T (γ 0) Q P →
    ∀ E, E = envOf Q P (.flt ea) (.flt er) →
    (∀ n : ℕ, (n : ℝ) * h ≤ T → (∀ k < n, iter E (E.after k) = .cont (E.after (k + 1))) →
      OnDuty P (stepsBeyond on h) (stepsBeyond off h) h n (E.after n) ∧ ‖(E.after n).oe - γ (n * h)‖ ≤ K * h ∧
      ((n + 1 : ℝ) * h ≤ T → ∃ s, OnDuty P (stepsBeyond on h) (stepsBeyond off h) h (n + 1) s ∧
        (iter E (E.after n) = .cont s ∧ (dynOf (α := ℝ) et).checkConv s.oe oeT woe C.tolOe = false ∨
         iter E (E.after n) = .brk s 1 ∨ iter E (E.after n) = .brk s 2))) ∧
    ∀ (fuel : ℕ) (Q' : QLaw ℝ) (s : LoopSt ℝ), Q.solve (.flt ea) (.flt er) fuel = some (Q', none) →
      Q'.hist = some s.hist → ∀ n : ℕ, OnDuty P (stepsBeyond on h) (stepsBeyond off h) h n s → n * h ≤ T →
      ∀ (k : ℕ) (x : Fin 6 → ℝ) (m : ℝ), s.hist.states[k]? = some x → s.hist.masses[k]? = some m →
        (∀ i, |x i - γ (k * h) i| ≤ K * h) ∧ |m - μ (k * h)| ≤ K * h := by
  obtain ⟨s0, hs0, hmin⟩ := isCompact_Icc.exists_isMinOn ⟨0, left_mem_Icc.2 hT0.le⟩ hM.2.1
  have hμ : ∀ s ∈ Icc 0 T, μ s0 ≤ μ s := fun s hs => hmin hs
  obtain ⟨hp0, hp1⟩ := hm s0 hs0
  obtain ⟨N, hcy⟩ := cycle_matches (T := T) hon hoff
  obtain ⟨ρ, hρ, δ1, hδ1, htube⟩ := tube_fine_switched (Or.inl rfl) hM hS hT (half_pos hp0)
  obtain ⟨δ2, hδ2, K, hK, hlim⟩ := C117_limit hd (Or.inl rfl) hl hM hS hT (fun s hs => (hm s hs).1) N
  obtain ⟨κ, hκ⟩ : ∃ κ, κ = min (μ s0 / 2) (μ s0 - ml) := ⟨_, rfl⟩
  have hκ0 : 0 < κ := by rw [hκ]; exact lt_min (half_pos hp0) (by linarith)
  have hκ1 : κ ≤ μ s0 / 2 := by rw [hκ]; exact min_le_left _ _
  have hκ2 : κ ≤ μ s0 - ml := by rw [hκ]; exact min_le_right _ _
  refine ⟨min (min δ1 δ2) (min (ρ / (K + 1)) (κ / (K + |mdot| + 1))), by positivity, K, hK, ?_⟩
  intro h hh hhδ Q P ea er hea her hQ E hE
  have hh1 : h < δ1 := hhδ.trans_le ((min_le_left _ _).trans (min_le_left _ _))
  have hh2 : h < δ2 := hhδ.trans_le ((min_le_left _ _).trans (min_le_right _ _))
  have hhρ : K * h < ρ := by
    have := hhδ.trans_le ((min_le_right _ _).trans (min_le_left _ _))
    rw [lt_div_iff₀ (by positivity)] at this
    nlinarith
  have hmd : 0 ≤ |mdot| * h := by positivity
  have hhκ : K * h + |mdot| * h < κ := by
    have := hhδ.trans_le ((min_le_right _ _).trans (min_le_right _ _))
    rw [lt_div_iff₀ (by positivity)] at this
    nlinarith
  have hEC : E.cfg = C := by rw [hE]; exact hQ.cfg
  have hEP : E.prob = P := by rw [hE]; rfl
  obtain ⟨S, hScard, hSm⟩ := hcy h hh
  have follow : ∀ (Q1 Q' : QLaw ℝ) (P1 : Problem ℝ) (fuel : ℕ) (s : LoopSt ℝ), Q1.cfg = C → Q1.prob = some P1 →
      P1.oeT = List.ofFn oeT → P1.woe = woe → P1.tmax = tmax → P1.mass0 = μ 0 → P1.mdot = mdot → P1.oe0 = γ 0 →
      Q1.solve (.flt ea) (.flt er) fuel = some (Q', none) →
      Q'.hist = some s.hist → ∀ n : ℕ, OnDuty P (stepsBeyond on h) (stepsBeyond off h) h n s → n * h ≤ T →
      ∀ (k : ℕ) (x : Fin 6 → ℝ) (m : ℝ), s.hist.states[k]? = some x → s.hist.masses[k]? = some m →
        (∀ i, |x i - γ (k * h) i| ≤ K * h) ∧ |m - μ (k * h)| ≤ K * h := by
    intro Q1 Q' P1 fuel s q1 q2 q3 q4 q5 q6 q7 q8 hsol hH n hO hnT k x m hx hmk
    have hk : k ≤ n := by
      obtain ⟨ls, hs1, hs2⟩ := hO.states
      have := (List.getElem?_eq_some_iff.1 hx).1
      rw [hs1, List.length_append, hs2] at this
      simp at this; omega
    have hkn : (k : ℝ) ≤ n := by exact_mod_cast hk
    have := hlim h hh hh2 Q1 Q' P1 _ _ fuel _ q1 q2 q3 q4 q5 q6 q7 q8 hsol hH k _ m x (hO.time hk)
      (by rw [one_mul]; nlinarith) hx hmk (hO.switches hh hScard hSm hk hnT)
    rwa [one_mul] at this
  refine ⟨?_, fun fuel Q' s hsol hH n hO hnT => follow Q Q' P fuel s hQ.cfg hQ.prob hQ.target hQ.weights hQ.thrust
    hQ.startMass hQ.massRate hQ.start hsol hH n hO hnT⟩
  -- what a step does from a state close to the motion
  have stepping : ∀ n : ℕ, OnDuty P (stepsBeyond on h) (stepsBeyond off h) h n (E.after n) →
      ‖(E.after n).oe - γ (n * h)‖ ≤ K * h → |(E.after n).mass - μ (n * h)| ≤ K * h → (n + 1 : ℝ) * h ≤ T →
      ∃ s, OnDuty P (stepsBeyond on h) (stepsBeyond off h) h (n + 1) s ∧
        (iter E (E.after n) = .cont s ∧ (dynOf (α := ℝ) et).checkConv s.oe oeT woe C.tolOe = false ∨
         iter E (E.after n) = .brk s 1 ∨ iter E (E.after n) = .brk s 2) := by
    intro n hO hcl hclm hn
    have ht : (n : ℝ) * h ∈ Icc 0 T := ⟨by positivity, by nlinarith⟩
    have hball : (E.after n).oe ∈ ball (γ (n * h)) ρ := by
      rw [mem_ball, dist_eq_norm]; linarith
    have hml := (abs_le.1 hclm).1
    have hμn := hμ _ ht
    obtain ⟨hb, o, q, ho, hq, hrk⟩ := htube _ ht _ hball (E.after n).mass (by linarith)
    have hz := hrk h hh hh1 (E.after n).t
    simp only [one_mul] at ho hq hz
    obtain ⟨D, hD, hO', hoT, hmass⟩ := step_fine_duty hnan (E := E) (s := E.after n) (et := et) (oeT := oeT) (l := l) (u := u)
      (o := o) (by rw [hEC]; exact hd) (by rw [hEC]; exact hi)
      (by rw [hEC]; exact hsun) (by rw [hEC]; exact hl) (by rw [hEP]; exact hQ.step) (by rw [hEP]; exact hQ.target)
      (by rw [hE]; rfl) (by rw [hE]; rfl) hea her (by rw [hEP]; exact hQ.battery) (by rw [hEP, hQ.dutyOn]; exact hon)
      (by rw [hEP, hQ.dutyOff]; exact hoff) (by rw [hEP, hQ.dutyOn]) (by rw [hEP, hQ.dutyOff]) hh hn
      (by rw [hEP]; exact hO) (by rw [hEC]; exact hb)
      (by rw [hEC, hEP, hQ.weights, hQ.thrust]; exact ho) (q := q) (by rw [hEC, hO.t]; exact hq)
      (by rw [hEC, hEP, hQ.thrust]; exact hz)
    rw [hEP] at hO'
    refine ⟨_, hO'.relaxed (relaxedAfter E D.c.oeT (postState E D)), ?_⟩
    rw [hD.iter_eq]
    rcases exitPhase_cases E D.c.oeT (postState E D) with h1 | h1 | h1 | h1
    · left
      refine ⟨h1.1, ?_⟩
      have := h1.2.1
      rwa [hEC, hEP, hd, hQ.weights, hoT] at this
    · exact Or.inr (Or.inl h1.1)
    · exact Or.inr (Or.inr h1.1)
    · exfalso
      have h2 := h1.2.2.2
      rw [le_real, decide_eq_true_eq, hEP] at h2
      rw [hEP, hQ.massRate] at hmass
      have h3 := hQ.massMin
      linarith
  -- all earlier iterations continued: the run limited to `n h` completes
  have main : ∀ n : ℕ, (n : ℝ) * h ≤ T → (∀ k < n, iter E (E.after k) = .cont (E.after (k + 1))) →
      (∀ k ≤ n, OnDuty P (stepsBeyond on h) (stepsBeyond off h) h k (E.after k)) ∧
      ‖(E.after n).oe - γ (n * h)‖ ≤ K * h ∧ |(E.after n).mass - μ (n * h)| ≤ K * h := by
    intro n
    induction n with
    | zero =>
      intro _ _
      have h0 : E.after 0 = initLoop P := by rw [hE]; rfl
      have hx : (initLoop P).oe = γ 0 := hQ.start
      have hy : (initLoop P).mass = μ 0 := hQ.startMass
      refine ⟨fun k hk => ?_, ?_, ?_⟩
      · rw [Nat.le_zero.1 hk, h0]; exact onDuty_init hQ.battery.le _ _ h
      · rw [h0, hx]; simp; positivity
      · rw [h0, hy]; simp; positivity
    | succ n ih =>
      intro hn hc
      push_cast at hn
      obtain ⟨i1, i2, i3⟩ := ih (by nlinarith) (fun k hk => hc k (by omega))
      obtain ⟨s, hs, hcase⟩ := stepping n (i1 n le_rfl) i2 i3 hn
      have hcn := hc n (by omega)
      have hss : E.after (n + 1) = s := by
        rcases hcase with ⟨h1, -⟩ | h1 | h1 <;> rw [hcn] at h1
        · injection h1
        · cases h1
        · cases h1
      have hO : ∀ k ≤ n + 1, OnDuty P (stepsBeyond on h) (stepsBeyond off h) h k (E.after k) := by
        intro k hk
        rcases Nat.lt_or_ge k (n + 1) with h1 | h1
        · exact i1 k (by omega)
        · rw [le_antisymm hk h1, hss]; exact hs
      refine ⟨hO, ?_⟩
      -- the limited run
      set P' : Problem ℝ := { P with tfMax := (n + 1 : ℕ) * h } with hP'
      set Q1 : QLaw ℝ := { Q with prob := some P' } with hQ1
      set E' : Env ℝ := { E with prob := { E.prob with tfMax := (n + 1 : ℕ) * h } } with hE'
      have hEE : E' = envOf Q1 P' (.flt ea) (.flt er) := by
        rw [hE', hE]; rfl
      have haf : ∀ k, E'.after k = E.after k := after_tf E _
      have hpos : (0 : ℝ) < (n + 1 : ℕ) * h := by positivity
      have habs : ∀ k : ℕ, |(k : ℝ) * h| = k * h := fun k => abs_of_nonneg (by positivity)
      have hloop := loop_prefix (E := E') (n := n + 1) (fun k hk => by
        rw [haf]
        simp only [guardB, lt_real, abs_real, (hO k (by omega)).lastTime, decide_eq_true_eq, habs]
        show (k : ℝ) * h < |((n + 1 : ℕ) : ℝ) * h|
        rw [abs_of_pos hpos]
        have : (k : ℝ) < (n + 1 : ℕ) := by exact_mod_cast hk
        exact mul_lt_mul_of_pos_right this hh) (fun k hk => by
        rw [haf, haf]; exact hc k hk) 1
      have hend : loop E' 1 (E'.after (n + 1)) = some (.timeout (E'.after (n + 1))) := by
        have hg : guardB E'.prob (E'.after (n + 1)) = false := by
          rw [haf]
          simp only [guardB, lt_real, abs_real, (hO (n + 1) le_rfl).lastTime]
          exact decide_eq_false (by
            show ¬ |((n + 1 : ℕ) : ℝ) * h| < |((n + 1 : ℕ) : ℝ) * h|
            exact lt_irrefl _)
        simp only [loop, hg, Bool.false_eq_true, if_false]
      rw [hend, haf] at hloop
      have hini : initLoop E'.prob = initLoop P' := by rw [hEE]; rfl
      rw [hini, hEE] at hloop
      have hsol := solve_of_loop (Q := Q1) (P := P') rfl hQ.ready hloop
      have hH : (Q1.finish P' (.timeout (E.after (n + 1)))).hist = some (E.after (n + 1)).hist := rfl
      obtain ⟨m, hm1, hm2⟩ := (hO (n + 1) le_rfl).states
      have hx : (E.after (n + 1)).hist.states[n + 1]? = some (E.after (n + 1)).oe := by
        rw [hm1, List.getElem?_append_right (by omega), hm2]; simp
      obtain ⟨m', hm1', hm2'⟩ := (hO (n + 1) le_rfl).masses
      have hmm : (E.after (n + 1)).hist.masses[n + 1]? = some (E.after (n + 1)).mass := by
        rw [hm1', List.getElem?_append_right (by omega), hm2']; simp
      obtain ⟨f1, f2⟩ := follow Q1 _ P' _ (E.after (n + 1)) hQ.cfg rfl hQ.target hQ.weights hQ.thrust hQ.startMass
        hQ.massRate hQ.start hsol hH (n + 1) (hO (n + 1) le_rfl) (by push_cast; exact hn) (n + 1) _ _ hx hmm
      refine ⟨?_, f2⟩
      rw [pi_norm_le_iff_of_nonneg (by positivity)]
      intro i
      rw [Real.norm_eq_abs]
      exact f1 i
  intro n hn hc
  obtain ⟨m1, m2, m3⟩ := main n hn hc
  exact ⟨m1 n le_rfl, m2, fun hn1 => stepping n (m1 n le_rfl) m2 m3 hn1⟩

/-- **C118.** For an object without Sundman steps and with the integrator `rk4`, and a motion under the law and the
object's perturbations whose thrust is switched on for `on` and off for `off` in turn, along which `Q` and the
perturbations are smooth, the elements stay strictly inside their bounds and the mass stays above the limit, there are
a step length and a constant such that every run from the same state with this duty cycle, shorter steps `h`, a battery
that suffices, effectivity thresholds not positive and a time limit inside the motion's interval returns without
exception. Its recorded times are the multiples of `h` up to the limit or up to convergence; it thrusts during the
least number of steps longer than `on`, then coasts during the least number of steps longer than `off`, and so on;
every recorded state and mass is within `K h` of the motion; and the run has converged (exit code 1 or 2) or reached
the limit (exit code -2). -/
theorem C118_completes : ∃ δ > 0, ∃ K ≥ 0, ∀ h, 0 < h → h < δ → ∀ (Q : QLaw ℝ) (P : Problem ℝ) (ea er : ℝ) (fuel : ℕ),
    ea ≤ 0 → er ≤ 0 → StartsDuty C oeT woe tmax (μ 0) mdot on off ml h T (γ 0) Q P → P.tfMax ≠ 0 → |P.tfMax| + h ≤ T →
    |P.tfMax| / h + 2 ≤ fuel →
    ∃ Q' H n, Q.solve (.flt ea) (.flt er) fuel = some (Q', none) ∧ Q'.hist = some H ∧
      H.times = (List.range (n + 1)).map (fun k : ℕ => (k : ℝ) * h) ∧ (n : ℝ) * h < |P.tfMax| + h ∧
      H.states.length = n + 1 ∧ H.masses.length = n + 1 ∧ H.controls.length = n ∧
      (∀ k c, H.controls[k]? = some c →
        c.2.2 = if k % (⌊on / h⌋₊ + 1 + (⌊off / h⌋₊ + 1)) < ⌊on / h⌋₊ + 1 then 1 else 0) ∧
      (∀ (k : ℕ) (x : Fin 6 → ℝ) (m : ℝ), H.states[k]? = some x → H.masses[k]? = some m →
        (∀ i, |x i - γ (k * h) i| ≤ K * h) ∧ |m - μ (k * h)| ≤ K * h) ∧
      ((Q'.exitcode = 1 ∨ Q'.exitcode = 2) ∧ Q'.converge = true ∨
        Q'.exitcode = -2 ∧ Q'.converge = false ∧ |P.tfMax| ≤ n * h) := by
  obtain ⟨δ1, hδ1, K1, hK1, hpr⟩ := progress_duty hnan hd hsun hi hl hon hoff hM hS hT0 hT hm
  refine ⟨δ1, hδ1, K1, hK1, ?_⟩
  intro h hh hhδ Q P ea er fuel hea her hQ htf htfT hfuel
  obtain ⟨hpr, hlim⟩ := hpr h hh hhδ Q P ea er hea her hQ _ rfl
  obtain ⟨N, hN⟩ : ∃ N, N = ⌈|P.tfMax| / h⌉₊ := ⟨_, rfl⟩
  have hN1 : |P.tfMax| ≤ N * h := by
    have := Nat.le_ceil (|P.tfMax| / h)
    rw [← hN, div_le_iff₀ hh] at this
    exact this
  have hN2 : (N : ℝ) < |P.tfMax| / h + 1 := by rw [hN]; exact Nat.ceil_lt_add_one (by positivity)
  have hN3 : (N : ℝ) * h < |P.tfMax| + h := by
    have := mul_lt_mul_of_pos_right hN2 hh
    rwa [add_mul, div_mul_cancel₀ _ hh.ne', one_mul] at this
  have hNg : ∀ k < N, (k : ℝ) * h < |P.tfMax| := by
    intro k hk
    rw [hN, Nat.lt_ceil, lt_div_iff₀ hh] at hk
    exact hk
  have hNf : N + 1 ≤ fuel := by
    have : ((N + 1 : ℕ) : ℝ) < fuel := by push_cast; linarith
    exact_mod_cast this.le
  -- a finished run of `n` steps
  have fin : ∀ (n : ℕ) (s : LoopSt ℝ) (r : RunRes ℝ), n ≤ N →
      OnDuty P (stepsBeyond on h) (stepsBeyond off h) h n s → r.st = s → r.error? = none →
      loop (envOf Q P (.flt ea) (.flt er)) fuel (initLoop P) = some r →
      ((Q.finish P r).exitcode = 1 ∨ (Q.finish P r).exitcode = 2) ∧ (Q.finish P r).converge = true ∨
        (Q.finish P r).exitcode = -2 ∧ (Q.finish P r).converge = false ∧ |P.tfMax| ≤ n * h →
      ∃ Q' H n, Q.solve (.flt ea) (.flt er) fuel = some (Q', none) ∧ Q'.hist = some H ∧
        H.times = (List.range (n + 1)).map (fun k : ℕ => (k : ℝ) * h) ∧ (n : ℝ) * h < |P.tfMax| + h ∧
        H.states.length = n + 1 ∧ H.masses.length = n + 1 ∧ H.controls.length = n ∧
        (∀ k c, H.controls[k]? = some c →
          c.2.2 = if k % (⌊on / h⌋₊ + 1 + (⌊off / h⌋₊ + 1)) < ⌊on / h⌋₊ + 1 then 1 else 0) ∧
        (∀ (k : ℕ) (x : Fin 6 → ℝ) (m : ℝ), H.states[k]? = some x → H.masses[k]? = some m →
          (∀ i, |x i - γ (k * h) i| ≤ K1 * h) ∧ |m - μ (k * h)| ≤ K1 * h) ∧
        ((Q'.exitcode = 1 ∨ Q'.exitcode = 2) ∧ Q'.converge = true ∨
          Q'.exitcode = -2 ∧ Q'.converge = false ∧ |P.tfMax| ≤ n * h) := by
    intro n s r hn hO hrs hre hlo hcode
    have hsol := solve_of_loop hQ.prob hQ.ready hlo
    rw [hre] at hsol
    have hH : (Q.finish P r).hist = some s.hist := by rw [← hrs]; rfl
    have hnN : (n : ℝ) ≤ N := by exact_mod_cast hn
    obtain ⟨ls, hs1, hs2⟩ := hO.states
    obtain ⟨lm, hm1, hm2⟩ := hO.masses
    refine ⟨_, _, n, hsol, hH, hO.times, ?_, ?_, ?_, hO.controls.1, fun k c hc => ?_, ?_, hcode⟩
    · nlinarith
    · rw [hs1, List.length_append, hs2]; rfl
    · rw [hm1, List.length_append, hm2]; rfl
    · have := hO.controls.2 k c hc
      rw [this]; simp [cycleOn, stepsBeyond]
    · exact hlim fuel _ _ hsol hH n hO (by nlinarith)
  rcases first_break_of (E := envOf Q P (.flt ea) (.flt er)) (P := P) rfl hh
      (I := fun n s => OnDuty P (stepsBeyond on h) (stepsBeyond off h) h n s) (fun n s hO => hO.lastTime)
      (fun n hn hc => ⟨(hpr n hn hc).1, (hpr n hn hc).2.2⟩) N (by linarith) hNg with
    ⟨h1, -, h2⟩ | ⟨m, hmN, s, c, h1, hc, h2⟩
  · have h3 := h2 hN1 (fuel - (N + 1))
    rw [show N + 1 + (fuel - (N + 1)) = fuel by omega] at h3
    obtain ⟨f1, f2, -⟩ := finish_timeout Q P ((envOf Q P (.flt ea) (.flt er)).after N) hQ.fresh.1 hQ.fresh.2
    exact fin N _ _ le_rfl (hpr N (by linarith) h1).1 rfl rfl h3 (Or.inr ⟨f1, f2, hN1⟩)
  · have h3 := h2 (fuel - (m + 1))
    rw [show m + 1 + (fuel - (m + 1)) = fuel by omega] at h3
    obtain ⟨f1, f2, -⟩ := finish_exit Q P s c
    exact fin (m + 1) s _ hmN h1 rfl rfl h3 (Or.inl ⟨by rw [f1]; exact hc, by rw [f2, if_pos hc]⟩)

/-- **C118.** If moreover the switched motion is strictly inside the tolerances of the target at some time `tc` before
`T`, every run with shorter steps and a time limit not before `tc` converges: it returns without exception, with
`converge` set and exit code 1 or 2, at the latest one step after `tc`, having followed the duty cycle and the motion. -/
theorem C118_reaches {tc : ℝ} (htc : 0 ≤ tc) (htcT : tc < T) (hin : StrictlyInside et oeT woe C.tolOe (γ tc)) :
    ∃ δ > 0, ∃ K ≥ 0, ∀ h, 0 < h → h < δ → ∀ (Q : QLaw ℝ) (P : Problem ℝ) (ea er : ℝ) (fuel : ℕ),
    ea ≤ 0 → er ≤ 0 → StartsDuty C oeT woe tmax (μ 0) mdot on off ml h T (γ 0) Q P → P.tfMax ≠ 0 → tc ≤ |P.tfMax| →
    tc / h + 2 ≤ fuel →
    ∃ Q' H n, Q.solve (.flt ea) (.flt er) fuel = some (Q', none) ∧ Q'.hist = some H ∧
      Q'.converge = true ∧ (Q'.exitcode = 1 ∨ Q'.exitcode = 2) ∧
      H.times = (List.range (n + 1)).map (fun k : ℕ => (k : ℝ) * h) ∧ (n : ℝ) * h ≤ tc + h ∧
      H.states.length = n + 1 ∧ H.masses.length = n + 1 ∧
      (∀ k c, H.controls[k]? = some c →
        c.2.2 = if k % (⌊on / h⌋₊ + 1 + (⌊off / h⌋₊ + 1)) < ⌊on / h⌋₊ + 1 then 1 else 0) ∧
      (∀ (k : ℕ) (x : Fin 6 → ℝ) (m : ℝ), H.states[k]? = some x → H.masses[k]? = some m →
        (∀ i, |x i - γ (k * h) i| ≤ K * h) ∧ |m - μ (k * h)| ≤ K * h) := by
  obtain ⟨δ1, hδ1, K, hK, hpr⟩ := progress_duty hnan hd hsun hi hl hon hoff hM hS hT0 hT hm
  -- a neighbourhood of the motion at `tc` that passes the check
  obtain ⟨ε, hε, hball⟩ := Metric.isOpen_iff.1 (inside_open et oeT woe C.tolOe) _ hin
  have hct : ContinuousWithinAt γ (Icc 0 T) tc := hM.1 tc ⟨htc, htcT.le⟩
  obtain ⟨η, hη, hcl⟩ := Metric.continuousWithinAt_iff.1 hct (ε / 2) (by positivity)
  refine ⟨min (min δ1 η) (min (T - tc) (ε / 2 / (K + 1))), by
    have : 0 < T - tc := by linarith
    positivity, K, hK, ?_⟩
  intro h hh hhδ Q P ea er fuel hea her hQ htf htcf hfuel
  have d1 : h < δ1 := hhδ.trans_le ((min_le_left _ _).trans (min_le_left _ _))
  have d2 : h < η := hhδ.trans_le ((min_le_left _ _).trans (min_le_right _ _))
  have d3 : h < T - tc := hhδ.trans_le ((min_le_right _ _).trans (min_le_left _ _))
  have d4 : K * h < ε / 2 := by
    have := hhδ.trans_le ((min_le_right _ _).trans (min_le_right _ _))
    rw [lt_div_iff₀ (by positivity)] at this
    nlinarith
  obtain ⟨hpr, hlim⟩ := hpr h hh d1 Q P ea er hea her hQ _ rfl
  obtain ⟨N, hN⟩ : ∃ N, N = max 1 ⌈tc / h⌉₊ := ⟨_, rfl⟩
  have hN0 : 0 < N := by rw [hN]; exact lt_of_lt_of_le one_pos (le_max_left _ _)
  have hN1 : tc ≤ N * h := by
    have h1 := Nat.le_ceil (tc / h)
    rw [div_le_iff₀ hh] at h1
    have h2 : ((⌈tc / h⌉₊ : ℕ) : ℝ) ≤ N := by rw [hN]; exact_mod_cast le_max_right _ _
    nlinarith
  have hN2 : (N : ℝ) ≤ tc / h + 1 := by
    rw [hN, Nat.cast_max]
    refine max_le ?_ (Nat.ceil_lt_add_one (by positivity)).le
    have : 0 ≤ tc / h := by positivity
    push_cast; linarith
  have hN3 : (N : ℝ) * h ≤ tc + h := by
    have := mul_le_mul_of_nonneg_right hN2 hh.le
    rwa [add_mul, div_mul_cancel₀ _ hh.ne', one_mul] at this
  have hNg : ∀ k < N, (k : ℝ) * h < |P.tfMax| := by
    intro k hk
    rw [hN, lt_max_iff] at hk
    rcases hk with hk | hk
    · have : k = 0 := by omega
      subst this; simpa using htf
    · rw [Nat.lt_ceil, lt_div_iff₀ hh] at hk
      linarith
  have hNf : N + 1 ≤ fuel := by
    have : ((N + 1 : ℕ) : ℝ) ≤ fuel := by push_cast; linarith
    exact_mod_cast this
  rcases first_break_of (E := envOf Q P (.flt ea) (.flt er)) (P := P) rfl hh
      (I := fun n s => OnDuty P (stepsBeyond on h) (stepsBeyond off h) h n s) (fun n s hO => hO.lastTime)
      (fun n hn hc => ⟨(hpr n hn hc).1, (hpr n hn hc).2.2⟩) N (by linarith) hNg with
    ⟨h0, h2, -⟩ | ⟨m, hmN, s, c, h1, hc, h2⟩
  · exfalso
    have h1 := (hpr N (by linarith) h0).2.1
    have h3 : dist (γ (N * h)) (γ tc) < ε / 2 := by
      refine hcl ⟨by positivity, by linarith⟩ ?_
      rw [Real.dist_eq, abs_of_nonneg (by linarith)]
      linarith
    rw [dist_eq_norm] at h3
    have h4 : ((envOf Q P (.flt ea) (.flt er)).after N).oe ∈ ball (γ tc) ε := by
      rw [mem_ball, dist_eq_norm]
      have e : ((envOf Q P (.flt ea) (.flt er)).after N).oe - γ tc =
        (((envOf Q P (.flt ea) (.flt er)).after N).oe - γ (N * h)) + (γ (N * h) - γ tc) := by abel
      rw [e]
      exact (norm_add_le _ _).trans_lt (by linarith)
    have h5 := inside_conv (hball h4)
    rw [h2 hN0] at h5
    cases h5
  · have h3 := h2 (fuel - (m + 1))
    rw [show m + 1 + (fuel - (m + 1)) = fuel by omega] at h3
    obtain ⟨f1, f2, f3⟩ := finish_exit Q P s c
    have hsol := solve_of_loop hQ.prob hQ.ready h3
    have hmN' : ((m + 1 : ℕ) : ℝ) ≤ N := by exact_mod_cast hmN
    obtain ⟨ls, hs1, hs2⟩ := h1.states
    obtain ⟨lm, hm1, hm2⟩ := h1.masses
    refine ⟨_, _, m + 1, hsol, f3, by rw [f2, if_pos hc], by rw [f1]; exact hc, h1.times, by nlinarith, ?_, ?_,
      fun k c hk => ?_, hlim fuel _ _ hsol f3 (m + 1) h1 (by nlinarith)⟩
    · rw [hs1, List.length_append, hs2]; rfl
    · rw [hm1, List.length_append, hm2]; rfl
    · have := h1.controls.2 k c hk
      rw [this]; simp [cycleOn, stepsBeyond]

end completes

namespace Burn
open CoastSample

/-- the sample with a duty cycle that switches every `T / 5` and `T / 7` -/
noncomputable def probC (h T tf : ℝ) : Problem ℝ :=
  { prob with tStep := h, tfMax := tf, mdot := 1 / 10, massMin := 0, dutyOn := T / 5, dutyOff := T / 7 }

noncomputable def objC (τ h T tf : ℝ) : QLaw ℝ :=
  { cfg := cfgDTol τ, prob := some (probC h T tf), ready := true, converge := false, exitcode := 0, hist := none }

theorem starts_C (τ h T tf : ℝ) :
    StartsDuty (cfgDTol τ) ![2, 0, 0, 0, 0] ![1, 0, 0, 0, 0] (1 / 100) 1 (1 / 10) (T / 5) (T / 7) 0 h T prob.oe0
      (objC τ h T tf) (probC h T tf) := by
  refine ⟨rfl, rfl, rfl, ⟨rfl, rfl⟩, by simp [probC, prob], rfl, rfl, rfl, rfl, rfl, rfl, rfl, rfl, ⟨?_, ?_, ?_, ?_⟩, le_rfl⟩
  all_goals simp only [probC, prob]; norm_num

/-- C117, C118: from the initial state of `Burn` there is a motion with the perturbations of a third body, radiation
pressure and oblateness whose thrust is switched twice before half time; short-step runs with this duty cycle complete and
follow it, thrusting at first and coasting later, and with a tolerance just above the distance of the motion from the
target at half time they converge by then -/
example : ∃ T > 0, ∃ γ μ, γ 0 = prob.oe0 ∧ μ 0 = 1 ∧
    SwitchedMotion cfgD .keplerian ![2, 0, 0, 0, 0] ![1, 0, 0, 0, 0] (1 / 100) (1 / 10) 1 1 T
      (dutySchedule (T / 5) (T / 7)) γ μ ∧
    dutySchedule (T / 5) (T / 7) 0 = true ∧ dutySchedule (T / 5) (T / 7) (T / 4) = false ∧
    dutySchedule (T / 5) (T / 7) (T / 2) = true ∧
    (∀ τ, ∃ δ > 0, ∃ K, ∀ h, 0 < h → h < δ → ∀ fuel : ℕ, T / 2 / h + 2 ≤ fuel → ∃ Q' H,
      (objC τ h T (T / 2)).solve (.flt 0) (.flt 0) fuel = some (Q', none) ∧ Q'.hist = some H ∧
      (∀ (k : ℕ) (x : Fin 6 → ℝ) (m : ℝ), H.states[k]? = some x → H.masses[k]? = some m →
        (∀ i, |x i - γ (k * h) i| ≤ K * h) ∧ |m - μ (k * h)| ≤ K * h)) ∧
    ∀ τ, |2 - γ (T / 2) 0| < τ → ∃ δ > 0, ∀ h, 0 < h → h < δ → ∀ fuel : ℕ, T / 2 / h + 2 ≤ fuel → ∃ Q',
      (objC τ h T T).solve (.flt 0) (.flt 0) fuel = some (Q', none) ∧ Q'.converge = true := by
  have hbox : IsOpen {x : Fin 6 → ℝ | ∀ j : Fin 5, 0 < x j.castSucc ∧ x j.castSucc < 9} := by
    simp only [Set.ofPred_forall]
    refine isOpen_iInter_of_finite fun j => ?_
    exact (isOpen_lt continuous_const (continuous_apply _)).inter (isOpen_lt (continuous_apply _) continuous_const)
  obtain ⟨T, hT, hex⟩ := C117_exists (C := cfgD) (et := .keplerian) (oeT := ![2, 0, 0, 0, 0])
    (woe := ![1, 0, 0, 0, 0]) (tmax := 1 / 100) (m0 := 1) (ml := 0) (mdot := 1 / 10) (σ := 1) (g := 1) (x := prob.oe0)
    (Or.inl rfl) smooth_d ⟨1, by decide, burn_grad _ oe0_box⟩ (pert_d _) hbox (burn_region.inside _ oe0_box)
    (by norm_num) (by norm_num) (by norm_num)
  have hon : 0 < T / 5 := by positivity
  have hoff : 0 < T / 7 := by positivity
  obtain ⟨γ, μ, h0, h0', hM, hS⟩ := hex _ (dutySchedule_piecewise hon hoff hT.le)
  have hbd : ∀ τ, (cfgDTol τ).elementsType = .keplerian →
      BoundsAre (cfgDTol τ).oeMin (fun _ => 0) ∧ BoundsAre (cfgDTol τ).oeMax (fun _ => 9) := by
    intro τ _; constructor <;> intro j <;> fin_cases j <;> rfl
  have hm : ∀ s ∈ Icc 0 T, 0 < μ s ∧ 0 < μ s := fun s hs => ⟨(hS s hs).1, (hS s hs).1⟩
  refine ⟨T, hT, γ, μ, h0, h0', hM, ?_, ?_, ?_, fun τ => ?_, fun τ hτ => ?_⟩
  · exact dutySchedule_on hon hoff 0 ⟨by simp, by simpa using hT⟩
  · exact dutySchedule_off hon hoff 0 ⟨by push_cast; linarith, by push_cast; linarith⟩
  · exact dutySchedule_on hon hoff 1 ⟨by push_cast; linarith, by push_cast; linarith⟩
  · obtain ⟨δ, hδ, K, hK, hL⟩ := C118_completes (C := cfgDTol τ) (et := .keplerian) (fun _ => rfl) rfl rfl rfl
      (hbd τ) hon hoff hM (fun t ht => ⟨(hS t ht).2.2.1, (hS t ht).2.2.2.1, fun _ => (hS t ht).2.2.2.2⟩) hT
      (by norm_num) hm
    refine ⟨min δ (T / 2), by positivity, K, fun h hh hhd fuel hf => ?_⟩
    have e2 := hhd.trans_le (min_le_right _ _)
    have etf : |(probC h T (T / 2)).tfMax| = T / 2 := abs_of_pos (show 0 < T / 2 by positivity)
    have etf0 : (probC h T (T / 2)).tfMax ≠ 0 := by simp only [probC]; linarith
    obtain ⟨Q', H, n, k1, k2, -, -, -, -, -, -, k3, -⟩ := hL h hh (hhd.trans_le (min_le_left _ _))
      (objC τ h T (T / 2)) (probC h T (T / 2)) 0 0 fuel le_rfl le_rfl (by rw [h0, h0']; exact starts_C _ _ _ _) etf0
      (by rw [etf]; linarith) (by rw [etf]; exact hf)
    exact ⟨Q', H, k1, k2, k3⟩
  · obtain ⟨δ, hδ, K, -, hL⟩ := C118_reaches (C := cfgDTol τ) (et := .keplerian) (fun _ => rfl) rfl rfl rfl (hbd τ) hon hoff hM
      (fun t ht => ⟨(hS t ht).2.2.1, (hS t ht).2.2.2.1, fun _ => (hS t ht).2.2.2.2⟩) hT (by norm_num) hm
      (tc := T / 2) (by linarith) (by linarith) (by
        intro j
        fin_cases j
        · right; exact ⟨0, Or.inl rfl, by simpa [cfgDTol] using hτ⟩
        all_goals (left; rfl))
    refine ⟨δ, hδ, fun h hh hhd fuel hf => ?_⟩
    obtain ⟨Q', H, n, k1, -, k2, -⟩ := hL h hh hhd (objC τ h T T) (probC h T T) 0 0 fuel le_rfl le_rfl
      (by rw [h0, h0']; exact starts_C _ _ _ _) (by simp only [probC]; linarith)
      (by simp only [probC]; rw [abs_of_pos hT]; linarith) hf
    exact ⟨Q', k1, k2⟩

end Burn

end PyQ
