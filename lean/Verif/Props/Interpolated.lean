import Verif.Props.SwitchedNewton
import Verif.Props.BatteryRun

/-!
C125: the interpolated Cartesian history of a short-step run follows the trajectory under Newton's law between the recorded
times too.
-/

set_option linter.unusedSectionVars false
set_option maxRecDepth 100000

open Set Metric Topology

namespace PyQ

/-- On the mesh `τ 0 < ... < τ n` (run through in direction `σ` of time) of width `h`, the interpolation scheme reproduces
every Lipschitz function up to `Λ` times the error of the data plus the change of the function over one step. -/
def StableOn (interp : List ℝ → List ℝ → ℝ → ℝ) (Λ σ : ℝ) (τ : ℕ → ℝ) (n : ℕ) (h : ℝ) : Prop :=
  ∀ (v : ℕ → ℝ) (y : ℝ → ℝ) (L ε : ℝ), 0 ≤ L → 0 ≤ ε →
    (∀ s ∈ Icc (τ 0) (τ n), ∀ r ∈ Icc (τ 0) (τ n), |y s - y r| ≤ L * |s - r|) →
    (∀ k ≤ n, |v k - y (τ k)| ≤ ε) →
    ∀ s ∈ Icc (τ 0) (τ n), |interp ((List.range (n + 1)).map fun k => σ * τ k) ((List.range (n + 1)).map v) (σ * s) - y s|
      ≤ Λ * (ε + L * h)

/-- linear interpolation, what `scipy.interpolate.interp1d(times, values, kind="linear")` evaluates to inside its range:
the value on the segment that contains `t` (the times may be increasing or decreasing) -/
noncomputable def linInterp : List ℝ → List ℝ → ℝ → ℝ
  | a :: b :: ts, v :: w :: vs, t =>
    if (a ≤ t ∧ t ≤ b) ∨ (b ≤ t ∧ t ≤ a) then v + (w - v) * ((t - a) / (b - a)) else linInterp (b :: ts) (w :: vs) t
  | _, v :: _, _ => v
  | _, [], _ => 0

theorem linInterp_mem {σ : ℝ} (hσ : σ = 1 ∨ σ = -1) {h : ℝ} : ∀ (n : ℕ) (τ v : ℕ → ℝ),
    (∀ k < n, τ k < τ (k + 1) ∧ τ (k + 1) ≤ τ k + h) → ∀ s ∈ Icc (τ 0) (τ n), 0 ≤ h →
    ∃ i ≤ n, ∃ j ≤ n, ∃ θ : ℝ, 0 ≤ θ ∧ θ ≤ 1 ∧ |τ i - s| ≤ h ∧ |τ j - s| ≤ h ∧
      linInterp ((List.range (n + 1)).map fun k => σ * τ k) ((List.range (n + 1)).map v) (σ * s) = v i + (v j - v i) * θ := by
  intro n
  induction n with
  | zero =>
    intro τ v _ s hs hh
    have : s = τ 0 := le_antisymm hs.2 hs.1
    refine ⟨0, le_rfl, 0, le_rfl, 0, le_rfl, zero_le_one, ?_, ?_, ?_⟩
    · rw [this]; simpa using hh
    · rw [this]; simpa using hh
    · simp [List.range_succ, linInterp]
  | succ n ih =>
    intro τ v hτ s hs hh
    obtain ⟨g1, g2⟩ := hτ 0 (by omega)
    rw [zero_add] at g1 g2
    have e : ∀ f : ℕ → ℝ, (List.range (n + 1 + 1)).map f = f 0 :: f 1 :: (List.range n).map (fun k => f (k + 2)) := fun f => by
      rw [List.range_succ_eq_map, List.range_succ_eq_map]
      simp [Function.comp_def]
    have e' : ∀ f : ℕ → ℝ, (f 1 :: (List.range n).map (fun k => f (k + 2))) = (List.range (n + 1)).map (fun k => f (k + 1)) :=
      fun f => by
        rw [List.range_succ_eq_map]
        simp [Function.comp_def]
    rw [e, e, linInterp]
    by_cases hc : s ≤ τ 1
    · have h1 : τ 0 ≤ s := hs.1
      have hin : (σ * τ 0 ≤ σ * s ∧ σ * s ≤ σ * τ 1) ∨ (σ * τ 1 ≤ σ * s ∧ σ * s ≤ σ * τ 0) := by
        rcases hσ with rfl | rfl
        · left; constructor <;> linarith
        · right; constructor <;> linarith
      have hσ0 : σ ≠ 0 := by rcases hσ with rfl | rfl <;> norm_num
      rw [if_pos hin]
      have hg : 0 < τ 1 - τ 0 := by linarith
      refine ⟨0, by omega, 1, by omega, (s - τ 0) / (τ 1 - τ 0), div_nonneg (by linarith) hg.le, ?_, ?_, ?_, ?_⟩
      · rw [div_le_one hg]; linarith
      · rw [abs_le]; constructor <;> linarith
      · rw [abs_le]; constructor <;> linarith
      · rw [← mul_sub, ← mul_sub, mul_div_mul_left _ _ hσ0]
    · have hc' : τ 1 < s := not_le.1 hc
      have hout : ¬ ((σ * τ 0 ≤ σ * s ∧ σ * s ≤ σ * τ 1) ∨ (σ * τ 1 ≤ σ * s ∧ σ * s ≤ σ * τ 0)) := by
        rcases hσ with rfl | rfl
        · rintro (⟨_, _⟩ | ⟨_, _⟩) <;> linarith
        · rintro (⟨_, _⟩ | ⟨_, _⟩) <;> linarith
      rw [if_neg hout, e' (fun k => σ * τ k), e' v]
      obtain ⟨i, hi, j, hj, θ, t0, t1, q1, q2, q3⟩ := ih (fun k => τ (k + 1)) (fun k => v (k + 1))
        (fun k hk => hτ (k + 1) (by omega)) s ⟨by simpa using hc'.le, hs.2⟩ hh
      exact ⟨i + 1, by omega, j + 1, by omega, θ, t0, t1, q1, q2, q3⟩

/-- increasing meshes of width at most `h` -/
def IsMesh (τ : ℕ → ℝ) (n : ℕ) (h : ℝ) : Prop := ∀ k < n, τ k < τ (k + 1) ∧ τ (k + 1) ≤ τ k + h

theorem IsMesh.mem {τ : ℕ → ℝ} {n : ℕ} {h : ℝ} (hτ : IsMesh τ n h) {k : ℕ} (hk : k ≤ n) : τ k ∈ Icc (τ 0) (τ n) := by
  have up : ∀ j, j ≤ n → τ 0 ≤ τ j := fun j => by
    induction j with
    | zero => intro _; exact le_rfl
    | succ j ih => intro hj; exact (ih (by omega)).trans (hτ j (by omega)).1.le
  have down : ∀ j, k + j ≤ n → τ k ≤ τ (k + j) := fun j => by
    induction j with
    | zero => intro _; exact le_rfl
    | succ j ih => intro hj; exact (ih (by omega)).trans (hτ (k + j) (by omega)).1.le
  refine ⟨up k hk, ?_⟩
  have := down (n - k) (by omega)
  rwa [show k + (n - k) = n by omega] at this

/-- **C125, linear interpolation.** Linear interpolation has this stability with `Λ = 1` on every mesh, in both directions
of time. -/
theorem C125_linear {σ h : ℝ} (hσ : σ = 1 ∨ σ = -1) (hh : 0 ≤ h) {τ : ℕ → ℝ} {n : ℕ} (hτ : IsMesh τ n h) :
    StableOn linInterp 1 σ τ n h := by
  intro v y L ε hL hε hy hv s hs
  obtain ⟨i, hi, j, hj, θ, t0, t1, q1, q2, q3⟩ := linInterp_mem hσ n τ v hτ s hs hh
  rw [q3, one_mul]
  have key : ∀ k ≤ n, |τ k - s| ≤ h → |v k - y s| ≤ ε + L * h := fun k hk hd => by
    have h1 := hv k hk
    have h2 := (hy _ (hτ.mem hk) s hs).trans (mul_le_mul_of_nonneg_left hd hL)
    have e : v k - y s = (v k - y (τ k)) + (y (τ k) - y s) := by ring
    rw [e]
    exact (abs_add_le _ _).trans (add_le_add h1 h2)
  have k1 := key i hi q1
  have k2 := key j hj q2
  rw [abs_le] at k1 k2 ⊢
  have e : v i + (v j - v i) * θ - y s = (1 - θ) * (v i - y s) + θ * (v j - y s) := by ring
  rw [e]
  have p : 0 ≤ 1 - θ := by linarith
  constructor
  · have a1 := mul_le_mul_of_nonneg_left k1.1 p
    have a2 := mul_le_mul_of_nonneg_left k2.1 t0
    linarith [show (1 - θ) * -(ε + L * h) + θ * -(ε + L * h) = -(ε + L * h) by ring]
  · have a1 := mul_le_mul_of_nonneg_left k1.2 p
    have a2 := mul_le_mul_of_nonneg_left k2.2 t0
    linarith [show (1 - θ) * (ε + L * h) + θ * (ε + L * h) = ε + L * h by ring]

/-- `np.linspace` stays between its ends -/
theorem linspace_mem {σ e : ℝ} (he : 0 ≤ e) {N : ℕ} {t : ℝ} (ht : t ∈ linspace 0 (σ * e) N) : ∃ s ∈ Icc 0 e, t = σ * s := by
  rcases N with _ | _ | N
  · simp [linspace] at ht
  · simp only [linspace, List.mem_cons, List.not_mem_nil, or_false] at ht
    exact ⟨0, ⟨le_rfl, he⟩, by rw [ht, mul_zero]⟩
  · simp only [linspace, List.mem_append, List.mem_map, List.mem_range, List.mem_cons, List.not_mem_nil, or_false] at ht
    rcases ht with ⟨k, hk, rfl⟩ | rfl
    · have hp : (0 : ℝ) < ((N + 1 : ℕ) : ℝ) := by positivity
      have hk' : (k : ℝ) ≤ ((N + 1 : ℕ) : ℝ) := by exact_mod_cast hk.le
      refine ⟨k * (e / ((N + 1 : ℕ) : ℝ)), ⟨by positivity, ?_⟩, ?_⟩
      · rw [mul_div_assoc', div_le_iff₀ hp]
        nlinarith
      · rw [add_zero, sub_zero]; ring
    · exact ⟨e, ⟨he, le_rfl⟩, rfl⟩

/-- a continuous curve with derivatives from the right given by one of two fields that are continuous along it is
Lipschitz -/
theorem two_fields_lipschitz {E : Type*} [NormedAddCommGroup E] [NormedSpace ℝ E] {Γ : ℝ → E} {V : Bool → E → E}
    {θ : ℝ → Bool} {T : ℝ} (hc : ContinuousOn Γ (Icc 0 T)) (hV : ∀ c, ∀ t ∈ Icc 0 T, ContinuousAt (V c) (Γ t))
    (hd : ∀ t ∈ Ico 0 T, HasDerivWithinAt Γ (V (θ t) (Γ t)) (Ici t) t) :
    ∃ L ≥ 0, ∀ s ∈ Icc 0 T, ∀ t ∈ Icc 0 T, ‖Γ s - Γ t‖ ≤ L * |s - t| := by
  have hb : ∀ c, ∃ M, ∀ t ∈ Icc 0 T, ‖V c (Γ t)‖ ≤ M := fun c => by
    obtain ⟨M, hM⟩ := isCompact_Icc.exists_bound_of_continuousOn
      (f := fun t => V c (Γ t)) (fun t ht => (hV c t ht).comp_continuousWithinAt (hc t ht))
    exact ⟨M, hM⟩
  obtain ⟨M1, h1⟩ := hb true
  obtain ⟨M2, h2⟩ := hb false
  obtain ⟨L, hLdef⟩ : ∃ L, L = max 0 (max M1 M2) := ⟨_, rfl⟩
  have hL : 0 ≤ L := by rw [hLdef]; exact le_max_left _ _
  have hbd : ∀ c, ∀ t ∈ Icc 0 T, ‖V c (Γ t)‖ ≤ L := fun c t ht => by
    rw [hLdef]
    cases c
    · exact (h2 t ht).trans ((le_max_right _ _).trans (le_max_right _ _))
    · exact (h1 t ht).trans ((le_max_left _ _).trans (le_max_right _ _))
  have main : ∀ s ∈ Icc 0 T, ∀ t ∈ Icc 0 T, s ≤ t → ‖Γ t - Γ s‖ ≤ L * (t - s) := fun s hs t ht hst =>
    norm_image_sub_le_of_norm_deriv_right_le_segment (f' := fun r => V (θ r) (Γ r)) (hc.mono (Icc_subset_Icc hs.1 ht.2))
      (fun x hx => hd x ⟨hs.1.trans hx.1, hx.2.trans_le ht.2⟩)
      (fun x hx => hbd _ x ⟨hs.1.trans hx.1, hx.2.le.trans ht.2⟩) t ⟨hst, le_rfl⟩
  refine ⟨L, hL, fun s hs t ht => ?_⟩
  rcases le_total s t with h | h
  · rw [norm_sub_rev, abs_sub_comm, abs_of_nonneg (by linarith)]
    exact main s hs t ht h
  · rw [abs_of_nonneg (by linarith)]
    exact main t ht s hs h

/-- a switched motion is Lipschitz in time -/
theorem switched_lipschitz {C : Config ℝ} {et : ElemType} {oeT woe : Fin 5 → ℝ} {tmax mdot σ g T : ℝ} {θ : ℝ → Bool}
    {γ : ℝ → Fin 6 → ℝ} {μ : ℝ → ℝ} (hσ : σ = 1 ∨ σ = -1) (hM : SwitchedMotion C et oeT woe tmax mdot σ g T θ γ μ)
    (hS : ∀ s ∈ Icc 0 T, LawSmooth et (unitCall C oeT woe (γ s)) ∧ PertSmooth C σ s (γ s))
    (hT : 0 < tmax) (hm : ∀ s ∈ Icc 0 T, 0 < μ s) :
    ∃ L ≥ 0, ∀ s ∈ Icc 0 T, ∀ t ∈ Icc 0 T, ∀ i, |γ s i - γ t i| ≤ L * |s - t| := by
  obtain ⟨hcont, hcontM, hM⟩ := hM
  have hσf : ∀ s ∈ Icc 0 T, σ * (tmax / μ s) ≠ 0 := fun s hs =>
    mul_ne_zero (by rcases hσ with rfl | rfl <;> norm_num) (div_pos hT (hm s hs)).ne'
  obtain ⟨L, hL, hlip⟩ := two_fields_lipschitz (Γ := fun t => (t, γ t, μ t)) (θ := θ)
    (V := fun c => switchedField C et oeT woe tmax mdot σ g c) (continuousOn_id.prodMk (hcont.prodMk hcontM)) (fun c t ht => by
      obtain ⟨o, v, q, -, h1, -⟩ := hM t ht
      exact (switched_c1 (hS t ht).1 (lawGrad_ne h1) tmax mdot σ g c (hS t ht).2 (hm t ht).ne').continuousAt) (fun t ht' => by
      have ht : t ∈ Icc 0 T := ⟨ht'.1, ht'.2.le⟩
      obtain ⟨o, v, q, h0, h1, h2, h3⟩ := hM t ht
      obtain ⟨h3, h4⟩ := h3 ht'.2
      have hv := eom_accRate (A := unitCall C oeT woe (γ t)) rfl (by
        rw [← law_psi h1]; funext c; fin_cases c <;> rfl) h2
      simp only [law_direction_signed (hσf t ht) h1] at hv
      rw [pertOf_eq h0] at hv
      rw [hv] at h3
      exact (hasDerivWithinAt_id t _).prodMk (h3.prodMk h4))
  refine ⟨L, hL, fun s hs t ht i => ?_⟩
  have h1 := hlip s hs t ht
  exact (norm_le_pi_norm (γ s - γ t) i).trans (((norm_fst_le _).trans (norm_snd_le _)).trans h1)

/-- a motion at full thrust is a switched motion that is never switched off -/
theorem disturbed_switched {C : Config ℝ} {et : ElemType} {oeT woe : Fin 5 → ℝ} {tmax m0 mdot σ g T : ℝ} {γ : ℝ → Fin 6 → ℝ}
    (hM : DisturbedMotion C et oeT woe tmax m0 mdot σ g T γ) :
    SwitchedMotion C et oeT woe tmax mdot σ g T (fun _ => true) γ (fun s => m0 - mdot * (σ * s)) := by
  refine ⟨fun s hs => ?_, (by fun_prop), fun s hs => ?_⟩
  · obtain ⟨o, v, q, -, -, -, h3⟩ := hM s hs
    exact h3.continuousWithinAt
  · obtain ⟨o, v, q, h0, h1, h2, h3⟩ := hM s hs
    refine ⟨o, v, q, h0, h1, by simpa only [switchedThrust, if_true, fullThrust] using h2, fun hsT => ⟨?_, ?_⟩⟩
    · refine h3.mono_of_mem_nhdsWithin ?_
      exact Filter.mem_of_superset (Icc_mem_nhdsGE hsT) (Icc_subset_Icc_left hs.1)
    · have e : HasDerivAt (fun s : ℝ => m0 - mdot * (σ * s)) (-(mdot * (σ * 1))) s :=
        (((hasDerivAt_id s).const_mul σ).const_mul mdot).const_sub m0
      rw [mul_one] at e
      simpa [switchedThrust] using e.hasDerivWithinAt

section newton
variable {C : Config ℝ} {et : ElemType} {σ T : ℝ} {γ : ℝ → Fin 6 → ℝ}

/-- the interpolated Cartesian history of a run that stays close to a motion at its recorded times -/
theorem interp_follow {L ρ K Lγ w h Λ : ℝ} (htube : ∀ t ∈ Icc 0 T, ∀ x, (∀ i, |x i - γ t i| < ρ) →
      ∃ c, cartOf et x C.mu = .ok c ∧ ∀ ε ≥ 0, (∀ i, |x i - γ t i| ≤ ε) → ∀ i, |c i - cartFormula et C.mu (γ t) i| ≤ L * ε)
    (hE : C.elementsType = et) (hK : 0 ≤ K) (hLγ : 0 ≤ Lγ) (hw : 0 ≤ w) (hh : 0 ≤ h) (hΛ : 0 ≤ Λ) (hρ : Λ * (K + Lγ * w) * h < ρ)
    (hlip : ∀ s ∈ Icc 0 T, ∀ t ∈ Icc 0 T, ∀ i, |γ s i - γ t i| ≤ Lγ * |s - t|)
    {Q Q' : QLaw ℝ} {P : Problem ℝ} {etaA etaR : EtaArg ℝ} {fuel : ℕ}
    [PyNan ℝ] {H : Hist ℝ} (hC : Q.cfg = C) (hP : Q.prob = some P) (hsol : Q.solve etaA etaR fuel = some (Q', none))
    (hH : Q'.hist = some H) {n : ℕ} {τ : ℕ → ℝ} (ht : H.times = (List.range (n + 1)).map fun k => σ * τ k)
    (hτ0 : τ 0 = 0) (hτT : τ n ≤ T) (hmesh : IsMesh τ n (w * h)) (hs : H.states.length = n + 1)
    (hf : ∀ (k : ℕ) (x : Fin 6 → ℝ), H.states[k]? = some x → ∀ i, |x i - γ (τ k) i| ≤ K * h)
    {interp : List ℝ → List ℝ → ℝ → ℝ} (hI : StableOn interp Λ σ τ n (w * h)) (roundInt : ℝ → ℤ) (steps : Option ℕ) :
    ∃ cols ts, Q'.getCartesianHistoryInterp interp roundInt steps = .ok (cols, ts) ∧
      ts = linspace 0 (σ * τ n) (interpSteps roundInt H steps) ∧ cols.length = interpSteps roundInt H steps ∧
      ∀ (k : ℕ) (t : ℝ) (c : Fin 6 → ℝ), ts[k]? = some t → cols[k]? = some c → ∃ s ∈ Icc 0 T, t = σ * s ∧
        ∀ i, |c i - cartFormula et C.mu (γ s) i| ≤ L * (Λ * (K + Lγ * w)) * h := by
  have hcfg : Q'.cfg = C := (solve_prob' hsol hP hH).2.trans hC
  have hτn : 0 ≤ τ n := by have := (hmesh.mem le_rfl).1; rwa [hτ0] at this
  have hhd : H.times.headD ((0 : ℕ) : ℝ) = 0 := by rw [ht, List.range_succ_eq_map]; simp [hτ0]
  have hlt : H.lastTime = σ * τ n := by rw [Hist.lastTime, ht, List.range_succ]; simp
  have hsub : ∀ s ∈ Icc (τ 0) (τ n), s ∈ Icc 0 T := fun s hs => ⟨by rw [← hτ0]; exact hs.1, hs.2.trans hτT⟩
  -- the interpolated elements
  obtain ⟨x, hx⟩ : ∃ x : ℝ → Fin 6 → ℝ, x = fun t i => interp H.times (H.states.map fun s => s i) t := ⟨_, rfl⟩
  have hnear : ∀ s ∈ Icc 0 (τ n), ∀ i, |x (σ * s) i - γ s i| ≤ Λ * (K + Lγ * w) * h := by
    intro s hsi i
    have hv : (H.states.map fun s => s i) = (List.range (n + 1)).map fun k => ((H.states[k]?).getD (fun _ => 0)) i := by
      refine List.ext_getElem (by simp [hs]) fun k h1 h2 => ?_
      rw [List.length_map] at h1
      simp [List.getElem?_eq_getElem h1]
    rw [hx]
    simp only []
    rw [hv, ht]
    refine (hI _ (fun t => γ t i) Lγ (K * h) hLγ (by positivity) (fun a ha b hb => hlip a (hsub a ha) b (hsub b hb) i)
      (fun k hk => ?_) s (by rw [hτ0]; exact hsi)).trans (le_of_eq (by ring))
    have hk' : k < H.states.length := by omega
    rw [List.getElem?_eq_getElem hk']
    exact hf k _ (List.getElem?_eq_getElem hk') i
  have hcart : ∀ y, toCartesian Q'.cfg y = cartOf et y C.mu := fun y => by
    rw [toCartesian, hcfg, hE]; cases et <;> rfl
  obtain ⟨ts, hts⟩ : ∃ ts, ts = linspace 0 (σ * τ n) (interpSteps roundInt H steps) := ⟨_, rfl⟩
  have hcol : ∀ t ∈ ts, ∃ c, toCartesian Q'.cfg (x t) = .ok c ∧ ∃ s ∈ Icc 0 T, t = σ * s ∧
      ∀ i, |c i - cartFormula et C.mu (γ s) i| ≤ L * (Λ * (K + Lγ * w)) * h := fun t htm => by
    rw [hts] at htm
    obtain ⟨s, hsi, rfl⟩ := linspace_mem hτn htm
    have hsT : s ∈ Icc 0 T := ⟨hsi.1, hsi.2.trans hτT⟩
    obtain ⟨c, e1, e2⟩ := htube s hsT (x (σ * s)) fun i => (hnear s hsi i).trans_lt hρ
    refine ⟨c, by rw [hcart]; exact e1, s, hsT, rfl, fun i => ?_⟩
    rw [mul_assoc]
    exact e2 _ (by positivity) (hnear s hsi) i
  have hpick : ∃ f : ℝ → Fin 6 → ℝ, ∀ t ∈ ts, toCartesian Q'.cfg (x t) = .ok (f t) := by
    classical
    refine ⟨fun t => if h : t ∈ ts then (hcol t h).choose else fun _ => 0, fun t h => ?_⟩
    simp only [dif_pos h]
    exact (hcol t h).choose_spec.1
  obtain ⟨f, hf'⟩ := hpick
  have hmap : (ts.mapM fun t => toCartesian Q'.cfg (x t)) = .ok (ts.map f) := by
    rw [mapM_except, List.map_map]
    exact List.map_congr_left fun t h => hf' t h
  refine ⟨ts.map f, ts, ?_, hts, ?_, fun k t c hk hc => ?_⟩
  · rw [hx] at hmap
    simp only [QLaw.getCartesianHistoryInterp, QLaw.histories, hH, bind, Except.bind, hhd, hlt]
    rw [← hts, hmap]
    rfl
  · rw [List.length_map, hts, linspace_length]
  · rw [List.getElem?_map, hk] at hc
    injection hc with hc
    have hm := List.mem_of_getElem? hk
    obtain ⟨c', q1, q2⟩ := hcol t hm
    rw [hf' t hm] at q1
    injection q1 with q1
    rw [← hc, q1]
    exact q2

theorem uniform_mesh {h : ℝ} (hh : 0 < h) (n : ℕ) : IsMesh (fun k : ℕ => (k : ℝ) * h) n h := fun k _ => by
  push_cast; constructor <;> linarith [show ((k : ℝ) + 1) * h = k * h + h by ring]

end newton

/-- the constants: short enough steps keep the interpolated elements in the tube -/
theorem short_step {K ρ δ h : ℝ} (hK : 0 ≤ K) (h0 : 0 < h) (hh : h < min δ (ρ / (K + 1))) : h < δ ∧ K * h < ρ := by
  refine ⟨hh.trans_le (min_le_left _ _), ?_⟩
  have := hh.trans_le (min_le_right _ _)
  rw [lt_div_iff₀ (by positivity)] at this
  nlinarith

/-- what a run that follows `sv` returns as interpolated Cartesian history: `ok`, one column for each of the equidistant
times between the first and the last recorded one, each column within `K h` of the trajectory at its time -/
def InterpFollows (interp : List ℝ → List ℝ → ℝ → ℝ) (Q' : QLaw ℝ) (H : Hist ℝ) (σ T e : ℝ) (sv : ℝ → Fin 6 → ℝ) : Prop :=
  ∀ (roundInt : ℝ → ℤ) (steps : Option ℕ), ∃ cols ts,
    Q'.getCartesianHistoryInterp interp roundInt steps = .ok (cols, ts) ∧ cols.length = ts.length ∧
    (∀ N, steps = some N → cols.length = N) ∧ ts = linspace 0 H.lastTime cols.length ∧
    ∀ (k : ℕ) (t : ℝ) (c : Fin 6 → ℝ), ts[k]? = some t → cols[k]? = some c → σ * t ∈ Icc 0 T ∧ ∀ i, |c i - sv (σ * t) i| ≤ e

theorem interpFollows_of {interp : List ℝ → List ℝ → ℝ → ℝ} {Q' : QLaw ℝ} {H : Hist ℝ} {σ T e : ℝ} (hσ : σ = 1 ∨ σ = -1)
    {τ : ℕ → ℝ} {n : ℕ} (ht : H.times = (List.range (n + 1)).map fun k => σ * τ k) {sv : ℝ → Fin 6 → ℝ}
    (h : ∀ (roundInt : ℝ → ℤ) (steps : Option ℕ), ∃ cols ts,
      Q'.getCartesianHistoryInterp interp roundInt steps = .ok (cols, ts) ∧
      ts = linspace 0 (σ * τ n) (interpSteps roundInt H steps) ∧ cols.length = interpSteps roundInt H steps ∧
      ∀ (k : ℕ) (t : ℝ) (c : Fin 6 → ℝ), ts[k]? = some t → cols[k]? = some c → ∃ s ∈ Icc 0 T, t = σ * s ∧
        ∀ i, |c i - sv s i| ≤ e) : InterpFollows interp Q' H σ T e sv := by
  intro roundInt steps
  have hσσ : σ * σ = 1 := by rcases hσ with rfl | rfl <;> norm_num
  have hlt : H.lastTime = σ * τ n := by rw [Hist.lastTime, ht, List.range_succ]; simp
  obtain ⟨cols, ts, q1, q2, q3, q4⟩ := h roundInt steps
  refine ⟨cols, ts, q1, by rw [q2, q3, linspace_length], fun N hN => by rw [q3, hN]; rfl, by rw [q2, q3, hlt], fun k t c hk hc => ?_⟩
  obtain ⟨s, hs, rfl, hc'⟩ := q4 k t c hk hc
  rw [← mul_assoc, hσσ, one_mul]
  exact ⟨hs, hc'⟩

/-- **C125, thrusting runs.** Under the hypotheses of C116 (perturbations, either direction of time, `rk4` or `rkf45`), and in
modified equinoctial elements with `f > 0` and off the equator, and for an interpolation scheme stable on equidistant
meshes: every run of C116 has an interpolated Cartesian history for every number of points, whose columns, at
equidistant times from the first to the last recorded one, are within `K h` of a trajectory under Newton's law. -/
theorem C125_thrusting [PyNan ℝ] (hnan : ∀ x : ℝ, PyNan.isnan x = false) {C : Config ℝ} {et : ElemType} (hd : C.dyn = dynOf et)
    (hE : C.elementsType = et) (hsun : C.useSundman = false)
    {oeT woe l u : Fin 5 → ℝ} {tmax m0 mdot σ T : ℝ} (hσ : σ = 1 ∨ σ = -1) {γ : ℝ → Fin 6 → ℝ}
    (hl : C.elementsType = .keplerian → BoundsAre C.oeMin l ∧ BoundsAre C.oeMax u)
    (hM : DisturbedMotion C et oeT woe tmax m0 mdot σ (gain C.integrator) T γ)
    (hS : ∀ s ∈ Icc 0 T, LawSmooth et (unitCall C oeT woe (γ s)) ∧ NewtonRegion et (γ s) ∧ PertSmooth C σ s (γ s) ∧
      (C.elementsType = .keplerian → ∀ j : Fin 5, l j < γ s j.castSucc ∧ γ s j.castSucc < u j))
    (hR : C.integrator = .rkf45 → ∀ s ∈ Icc 0 T, ∃ j : Fin 5, derivWithin γ (Icc 0 T) s j.castSucc ≠ 0)
    (hT0 : 0 < T) (hT : 0 < tmax) (hm : ∀ s ∈ Icc 0 T, 0 < m0 - mdot * (σ * s))
    {interp : List ℝ → List ℝ → ℝ → ℝ} {Λ : ℝ} (hΛ : 0 ≤ Λ)
    (hI : ∀ n h, 0 < h → StableOn interp Λ σ (fun k => k * h) n h) :
    ∃ sv, FliesDisturbed C et oeT woe tmax m0 mdot σ (gain C.integrator) T γ sv ∧
      ∃ δ > 0, ∃ K ≥ 0, ∀ h, 0 < h → h < δ → ∀ (Q : QLaw ℝ) (P : Problem ℝ) (ea er : ℝ) (fuel : ℕ),
      ea ≤ 0 → er ≤ 0 → StartsRun C oeT woe tmax m0 mdot σ h T (γ 0) Q P → P.tfMax ≠ 0 → |P.tfMax| + h ≤ T →
      |P.tfMax| / h + 2 ≤ fuel →
      ∃ Q' H, Q.solve (.flt ea) (.flt er) fuel = some (Q', none) ∧ Q'.hist = some H ∧
        InterpFollows interp Q' H σ T (K * h) (fun s => sv (σ * s)) ∧
        (Q'.converge = true ∨ |P.tfMax| ≤ |H.lastTime|) := by
  have hσσ : σ * σ = 1 := by rcases hσ with rfl | rfl <;> norm_num
  have hσa : |σ| = 1 := by rcases hσ with rfl | rfl <;> norm_num
  have hS1 : ∀ t ∈ Icc 0 T, LawSmooth et (unitCall C oeT woe (γ t)) ∧ NewtonRegion et (γ t) :=
    fun t ht => ⟨(hS t ht).1, (hS t ht).2.1⟩
  have hsw := disturbed_switched hM
  obtain ⟨Lγ, hLγ, hlip⟩ := switched_lipschitz hσ hsw (fun t ht => ⟨(hS t ht).1, (hS t ht).2.2.1⟩) hT hm
  obtain ⟨L, hL, ρ, hρ, htube⟩ := cart_tube (mu := C.mu) hsw.1 (fun t ht => law_state (hS1 t ht).1 (hS1 t ht).2)
  obtain ⟨δ, hδ, K, hK, hrun⟩ := C116_completes hnan hd hsun hσ hl hM (fun t ht => ⟨(hS t ht).1, (hS t ht).2.2⟩) hR hT0 hT hm
  refine ⟨_, disturbed_flies hσ hM (gain_pos _) hS1 hT hm, min δ (ρ / (Λ * (K + Lγ * 1) + 1)), by positivity,
    L * (Λ * (K + Lγ * 1)), by positivity, ?_⟩
  intro h hh hhδ Q P ea er fuel hea her hQ htf htfT hfuel
  obtain ⟨hh1, hh2⟩ := short_step (by positivity) hh hhδ
  obtain ⟨Q', H, n, g1, g2, g3, g4, g5, g6, g7, g8, g9⟩ := hrun h hh hh1 Q P ea er fuel hea her hQ htf htfT hfuel
  have hmesh := uniform_mesh hh n
  have key := interpFollows_of (τ := fun k : ℕ => (k : ℝ) * h) hσ g3 fun roundInt steps =>
    interp_follow htube hE hK hLγ zero_le_one hh.le hΛ hh2 hlip hQ.cfg hQ.prob g1 g2 (τ := fun k : ℕ => (k : ℝ) * h) g3
      (by simp) (by linarith) (by rw [one_mul]; exact hmesh) g5 g8 (interp := interp) (by rw [one_mul]; exact hI n h hh)
      roundInt steps
  refine ⟨Q', H, g1, g2, ?_, ?_⟩
  · simp only [← mul_assoc σ σ, hσσ, one_mul]
    exact key
  · rcases g9 with ⟨-, g⟩ | ⟨-, -, g⟩
    · exact Or.inl g
    · refine Or.inr ?_
      have hlt : H.lastTime = σ * (n * h) := by rw [Hist.lastTime, g3, List.range_succ]; simp
      rw [hlt, abs_mul, hσa, one_mul]
      exact g.trans (le_abs_self _)

section completes
variable [PyNan ℝ] (hnan : ∀ x : ℝ, PyNan.isnan x = false) {C : Config ℝ} {et : ElemType} (hd : C.dyn = dynOf et)
  (hE : C.elementsType = et) (hi : C.integrator = .rk4)
  {oeT woe l u : Fin 5 → ℝ} {tmax mdot on off ml T : ℝ} {γ : ℝ → Fin 6 → ℝ} {μ : ℝ → ℝ}
  (hl : C.elementsType = .keplerian → BoundsAre C.oeMin l ∧ BoundsAre C.oeMax u)
  (hon : 0 < on) (hoff : 0 < off)
  (hM : SwitchedMotion C et oeT woe tmax mdot 1 (gain C.integrator) T (dutySchedule on off) γ μ)
  (hS : ∀ s ∈ Icc 0 T, LawSmooth et (unitCall C oeT woe (γ s)) ∧ NewtonRegion et (γ s) ∧ PertSmooth C 1 s (γ s) ∧
    (C.elementsType = .keplerian → ∀ j : Fin 5, l j < γ s j.castSucc ∧ γ s j.castSucc < u j))
  (hT0 : 0 < T) (hT : 0 < tmax) (hm : ∀ s ∈ Icc 0 T, 0 < μ s ∧ ml < μ s)
  {interp : List ℝ → List ℝ → ℝ → ℝ} {Λ : ℝ} (hΛ : 0 ≤ Λ)
include hnan hd hE hi hl hM hS hT0 hT hm hΛ

/-- **C125, runs with a duty cycle.** The same for the runs of C118 and the trajectory with the switched thrust. -/
theorem C125_duty (hon : 0 < on) (hoff : 0 < off) (hsun : C.useSundman = false)
    (hI : ∀ n h, 0 < h → StableOn interp Λ 1 (fun k => k * h) n h) :
    ∃ sv, FliesSwitched C et oeT woe tmax 1 (gain C.integrator) T (dutySchedule on off) γ μ sv ∧
    ∃ δ > 0, ∃ K ≥ 0, ∀ h, 0 < h → h < δ → ∀ (Q : QLaw ℝ) (P : Problem ℝ) (ea er : ℝ) (fuel : ℕ),
    ea ≤ 0 → er ≤ 0 → StartsDuty C oeT woe tmax (μ 0) mdot on off ml h T (γ 0) Q P → P.tfMax ≠ 0 → |P.tfMax| + h ≤ T →
    |P.tfMax| / h + 2 ≤ fuel →
    ∃ Q' H, Q.solve (.flt ea) (.flt er) fuel = some (Q', none) ∧ Q'.hist = some H ∧
      InterpFollows interp Q' H 1 T (K * h) sv ∧ (Q'.converge = true ∨ |P.tfMax| ≤ H.lastTime) := by
  have hS1 : ∀ t ∈ Icc 0 T, LawSmooth et (unitCall C oeT woe (γ t)) ∧ NewtonRegion et (γ t) :=
    fun t ht => ⟨(hS t ht).1, (hS t ht).2.1⟩
  obtain ⟨Lγ, hLγ, hlip⟩ := switched_lipschitz (Or.inl rfl) hM (fun t ht => ⟨(hS t ht).1, (hS t ht).2.2.1⟩) hT
    (fun s hs => (hm s hs).1)
  obtain ⟨L, hL, ρ, hρ, htube⟩ := cart_tube (mu := C.mu) hM.1 (fun t ht => law_state (hS1 t ht).1 (hS1 t ht).2)
  obtain ⟨δ, hδ, K, hK, hrun⟩ := C118_completes hnan hd hsun hi hl hon hoff hM (fun t ht => ⟨(hS t ht).1, (hS t ht).2.2⟩) hT0 hT hm
  refine ⟨_, switched_flies (Or.inl rfl) hM hS1 hT (fun s hs => (hm s hs).1), min δ (ρ / (Λ * (K + Lγ * 1) + 1)), by positivity,
    L * (Λ * (K + Lγ * 1)), by positivity, ?_⟩
  intro h hh hhδ Q P ea er fuel hea her hQ htf htfT hfuel
  obtain ⟨hh1, hh2⟩ := short_step (by positivity) hh hhδ
  obtain ⟨Q', H, n, g1, g2, g3, g4, g5, g6, g7, g8, g9, g10⟩ := hrun h hh hh1 Q P ea er fuel hea her hQ htf htfT hfuel
  have hmesh := uniform_mesh hh n
  have g3' : H.times = (List.range (n + 1)).map fun k : ℕ => (1 : ℝ) * ((k : ℝ) * h) := by simpa using g3
  refine ⟨Q', H, g1, g2, interpFollows_of (τ := fun k : ℕ => (k : ℝ) * h) (Or.inl rfl) g3' fun roundInt steps =>
    interp_follow htube hE hK hLγ zero_le_one hh.le hΛ hh2 hlip hQ.cfg hQ.prob g1 g2 (τ := fun k : ℕ => (k : ℝ) * h) g3'
      (by simp) (by linarith) (by rw [one_mul]; exact hmesh) g5 (fun k x hx => (g9 k x _ hx (List.getElem?_eq_getElem (by
        rw [g6, ← g5]; exact (List.getElem?_eq_some_iff.1 hx).1))).1) (interp := interp) (by rw [one_mul]; exact hI n h hh)
      roundInt steps, ?_⟩
  rcases g10 with ⟨-, g⟩ | ⟨-, -, g⟩
  · exact Or.inl g
  · refine Or.inr ?_
    have hlt : H.lastTime = n * h := by rw [Hist.lastTime, g3, List.range_succ]; simp
    rw [hlt]
    exact g

/-- **C125, runs with Sundman steps.** The same for the runs of C119, for a scheme stable on all meshes. -/
theorem C125_sundman (hon : 0 < on) (hoff : 0 < off) (hsun : C.useSundman = true)
    (hI : ∀ τ n h, 0 < h → IsMesh τ n h → StableOn interp Λ 1 τ n h) :
    ∃ sv, FliesSwitched C et oeT woe tmax 1 (gain C.integrator) T (dutySchedule on off) γ μ sv ∧
    ∃ δ > 0, ∃ K ≥ 0, ∃ A > 0, ∃ B > 0, ∀ h, 0 < h → h < δ → ∀ (Q : QLaw ℝ) (P : Problem ℝ) (ea er : ℝ) (fuel : ℕ),
    ea ≤ 0 → er ≤ 0 → StartsDuty C oeT woe tmax (μ 0) mdot on off ml h T (γ 0) Q P → P.tfMax ≠ 0 →
    |P.tfMax| + A * h ≤ T → |P.tfMax| / (B * h) + 2 ≤ fuel →
    ∃ Q' H, Q.solve (.flt ea) (.flt er) fuel = some (Q', none) ∧ Q'.hist = some H ∧
      InterpFollows interp Q' H 1 T (K * h) sv ∧ (Q'.converge = true ∨ |P.tfMax| ≤ H.lastTime) := by
  have hS1 : ∀ t ∈ Icc 0 T, LawSmooth et (unitCall C oeT woe (γ t)) ∧ NewtonRegion et (γ t) :=
    fun t ht => ⟨(hS t ht).1, (hS t ht).2.1⟩
  obtain ⟨Lγ, hLγ, hlip⟩ := switched_lipschitz (Or.inl rfl) hM (fun t ht => ⟨(hS t ht).1, (hS t ht).2.2.1⟩) hT
    (fun s hs => (hm s hs).1)
  obtain ⟨L, hL, ρ, hρ, htube⟩ := cart_tube (mu := C.mu) hM.1 (fun t ht => law_state (hS1 t ht).1 (hS1 t ht).2)
  obtain ⟨δ, hδ, K, hK, A, hA, B, hB, N, hrun⟩ := C119_completes hnan hd hE hsun hi hl hon hoff hM
    (fun t ht => ⟨(hS t ht).1, (hS t ht).2.2⟩) hT0 hT hm
  refine ⟨_, switched_flies (Or.inl rfl) hM hS1 hT (fun s hs => (hm s hs).1), min δ (ρ / (Λ * (K + Lγ * A) + 1)), by positivity,
    L * (Λ * (K + Lγ * A)), by positivity, A, hA, B, hB, ?_⟩
  intro h hh hhδ Q P ea er fuel hea her hQ htf htfT hfuel
  obtain ⟨hh1, hh2⟩ := short_step (by positivity) hh hhδ
  obtain ⟨Q', H, n, τ, g1, g2, g3, g4, g5, g6, g7, g8, -, -, g9, g10⟩ :=
    hrun h hh hh1 Q P ea er fuel hea her hQ htf htfT hfuel
  have hBh : 0 < B * h := by positivity
  have hmesh : IsMesh τ n (A * h) := fun k hk => by
    obtain ⟨q1, q2⟩ := g5 k hk
    constructor <;> linarith
  have g3' : H.times = (List.range (n + 1)).map fun k : ℕ => (1 : ℝ) * τ k := by simpa using g3
  refine ⟨Q', H, g1, g2, interpFollows_of (τ := τ) (Or.inl rfl) g3' fun roundInt steps =>
    interp_follow htube hE hK hLγ hA.le hh.le hΛ hh2 hlip hQ.cfg hQ.prob g1 g2 (τ := τ) g3'
      g4 (by linarith) hmesh g7 (fun k x hx => (g9 k x _ hx (List.getElem?_eq_getElem (by
        rw [g8, ← g7]; exact (List.getElem?_eq_some_iff.1 hx).1))).1) (interp := interp) (hI τ n _ (by positivity) hmesh)
      roundInt steps, ?_⟩
  rcases g10 with ⟨-, g⟩ | ⟨-, -, g⟩
  · exact Or.inl g
  · refine Or.inr ?_
    have hlt : H.lastTime = τ n := by rw [Hist.lastTime, g3, List.range_succ]; simp
    rw [hlt]
    exact g

/-- **C125, runs limited by their battery.** The same for the runs of C122. -/
theorem C125_battery {lo hi' dis chg pause : ℝ} (hsun : C.useSundman = false) (hdis : 0 < dis) (hchg : 0 < chg)
    (hcap : lo + 1 / 10 ^ 12 < hi') (hpause : pause < (hi' - (lo + 1 / 10 ^ 12)) / chg)
    (hon : on = (hi' - (lo + 1 / 10 ^ 12)) / dis) (hoff : off = (hi' - (lo + 1 / 10 ^ 12)) / chg)
    (hI : ∀ n h, 0 < h → StableOn interp Λ 1 (fun k => k * h) n h) :
    ∃ sv, FliesSwitched C et oeT woe tmax 1 (gain C.integrator) T (dutySchedule on off) γ μ sv ∧
    ∃ δ > 0, ∃ K ≥ 0, ∀ h, 0 < h → h < δ → ∀ (Q : QLaw ℝ) (P : Problem ℝ) (ea er : ℝ) (fuel : ℕ),
    ea ≤ 0 → er ≤ 0 → StartsCharge C oeT woe tmax (μ 0) mdot lo hi' dis chg pause ml h T (γ 0) Q P → P.tfMax ≠ 0 →
    |P.tfMax| + h ≤ T → |P.tfMax| / h + 2 ≤ fuel →
    ∃ Q' H, Q.solve (.flt ea) (.flt er) fuel = some (Q', none) ∧ Q'.hist = some H ∧
      InterpFollows interp Q' H 1 T (K * h) sv ∧ (Q'.converge = true ∨ |P.tfMax| ≤ H.lastTime) := by
  have hS1 : ∀ t ∈ Icc 0 T, LawSmooth et (unitCall C oeT woe (γ t)) ∧ NewtonRegion et (γ t) :=
    fun t ht => ⟨(hS t ht).1, (hS t ht).2.1⟩
  obtain ⟨Lγ, hLγ, hlip⟩ := switched_lipschitz (Or.inl rfl) hM (fun t ht => ⟨(hS t ht).1, (hS t ht).2.2.1⟩) hT
    (fun s hs => (hm s hs).1)
  obtain ⟨L, hL, ρ, hρ, htube⟩ := cart_tube (mu := C.mu) hM.1 (fun t ht => law_state (hS1 t ht).1 (hS1 t ht).2)
  obtain ⟨δ, hδ, K, hK, hrun⟩ := C122_completes hnan hd hsun hi hl hdis hchg hcap hpause hon hoff hM
    (fun t ht => ⟨(hS t ht).1, (hS t ht).2.2⟩) hT0 hT hm
  refine ⟨_, switched_flies (Or.inl rfl) hM hS1 hT (fun s hs => (hm s hs).1), min δ (ρ / (Λ * (K + Lγ * 1) + 1)), by positivity,
    L * (Λ * (K + Lγ * 1)), by positivity, ?_⟩
  intro h hh hhδ Q P ea er fuel hea her hQ htf htfT hfuel
  obtain ⟨hh1, hh2⟩ := short_step (by positivity) hh hhδ
  obtain ⟨Q', H, n, a, b, -, -, g1, g2, g3, g4, g5, g6, -, -, -, -, g9, g10⟩ :=
    hrun h hh hh1 Q P ea er fuel hea her hQ htf htfT hfuel
  have hmesh := uniform_mesh hh n
  have g3' : H.times = (List.range (n + 1)).map fun k : ℕ => (1 : ℝ) * ((k : ℝ) * h) := by simpa using g3
  refine ⟨Q', H, g1, g2, interpFollows_of (τ := fun k : ℕ => (k : ℝ) * h) (Or.inl rfl) g3' fun roundInt steps =>
    interp_follow htube hE hK hLγ zero_le_one hh.le hΛ hh2 hlip hQ.cfg hQ.prob g1 g2 (τ := fun k : ℕ => (k : ℝ) * h) g3'
      (by simp) (by linarith) (by rw [one_mul]; exact hmesh) g5 (fun k x hx => (g9 k x _ hx (List.getElem?_eq_getElem (by
        rw [g6, ← g5]; exact (List.getElem?_eq_some_iff.1 hx).1))).1) (interp := interp) (by rw [one_mul]; exact hI n h hh)
      roundInt steps, ?_⟩
  rcases g10 with ⟨-, g⟩ | ⟨-, -, g⟩
  · exact Or.inl g
  · refine Or.inr ?_
    have hlt : H.lastTime = n * h := by rw [Hist.lastTime, g3, List.range_succ]; simp
    rw [hlt]
    exact g

end completes

namespace Burn
open CoastSample

theorem lin_uniform {σ : ℝ} (hσ : σ = 1 ∨ σ = -1) : ∀ n h, 0 < h → StableOn linInterp 1 σ (fun k => k * h) n h :=
  fun n _ hh => C125_linear hσ hh.le (uniform_mesh hh n)

/-- C125: backwards in time from the initial state of `Burn`, with the perturbations of a third body, radiation pressure and
oblateness, there is a trajectory under Newton's law that the linearly interpolated Cartesian history of short-step runs
follows, whatever the number of points -/
example : ∃ T > 0, ∃ γ sv, γ 0 = prob.oe0 ∧
    FliesDisturbed cfgD .keplerian ![2, 0, 0, 0, 0] ![1, 0, 0, 0, 0] (1 / 100) 1 (1 / 10) (-1) 1 T γ sv ∧
    ∃ δ > 0, ∃ K, ∀ h, 0 < h → h < δ → ∀ fuel : ℕ, T / 2 / h + 2 ≤ fuel → ∃ Q' H,
      (objB 1 h T (T / 2)).solve (.flt 0) (.flt 0) fuel = some (Q', none) ∧ Q'.hist = some H ∧
      ∀ N : ℕ, ∃ cols ts, Q'.getCartesianHistoryInterp linInterp round (some N) = .ok (cols, ts) ∧ cols.length = N ∧
        ts = linspace 0 H.lastTime N ∧
        ∀ (k : ℕ) (t : ℝ) (c : Fin 6 → ℝ), ts[k]? = some t → cols[k]? = some c → ∀ i, |c i - sv t i| ≤ K * h := by
  have hbox : IsOpen {x : Fin 6 → ℝ | ∀ j : Fin 5, 0 < x j.castSucc ∧ x j.castSucc < 9} := by
    simp only [Set.ofPred_forall]
    refine isOpen_iInter_of_finite fun j => ?_
    exact (isOpen_lt continuous_const (continuous_apply _)).inter (isOpen_lt (continuous_apply _) continuous_const)
  obtain ⟨T, hT, γ, h0, hM, hS⟩ := C115_exists (C := cfgD) (et := .keplerian) (oeT := ![2, 0, 0, 0, 0])
    (woe := ![1, 0, 0, 0, 0]) (tmax := 1 / 100) (m0 := 1) (mdot := 1 / 10) (σ := -1) (g := 1) (x := prob.oe0) (Or.inr rfl)
    smooth_d ⟨1, by decide, burn_grad _ oe0_box⟩ (pert_d _) hbox (burn_region.inside _ oe0_box) (by norm_num) (by norm_num)
  have hbd : (cfgDTol 1).elementsType = .keplerian →
      BoundsAre (cfgDTol 1).oeMin (fun _ => (0 : ℝ)) ∧ BoundsAre (cfgDTol 1).oeMax (fun _ => (9 : ℝ)) := by
    intro _; constructor <;> intro j <;> fin_cases j <;> rfl
  have hm : ∀ s ∈ Icc 0 T, 0 < 1 - 1 / 10 * (-1 * s) := fun s hs => (hS s hs).1
  obtain ⟨sv, hF, δ, hδ, K, hK, hrun⟩ := C125_thrusting (C := cfgDTol 1) (et := .keplerian) (fun _ => rfl) rfl rfl rfl (Or.inr rfl)
    hbd hM (fun t ht => ⟨(hS t ht).2.1, (fun h => by cases h), (hS t ht).2.2.1, fun _ => (hS t ht).2.2.2⟩)
    (fun h => by cases h) hT (by norm_num) hm zero_le_one (lin_uniform (Or.inr rfl))
  refine ⟨T, hT, γ, sv, h0, ⟨hF.1, hF.2⟩, min δ (T / 2), by positivity, K, fun h hh hhd fuel hf => ?_⟩
  have e2 := hhd.trans_le (min_le_right _ _)
  have etf : |(probB h T (T / 2)).tfMax| = T / 2 := by
    simp only [probB]; rw [abs_neg, abs_of_pos (by linarith)]
  have etf0 : (probB h T (T / 2)).tfMax ≠ 0 := by simp only [probB]; linarith
  obtain ⟨Q', H, k1, k2, k3, -⟩ := hrun h hh (hhd.trans_le (min_le_left _ _))
    (objB 1 h T (T / 2)) (probB h T (T / 2)) 0 0 fuel le_rfl le_rfl (by rw [h0]; exact starts_B _ _ _ _) etf0
    (by rw [etf]; linarith) (by rw [etf]; exact hf)
  refine ⟨Q', H, k1, k2, fun N => ?_⟩
  obtain ⟨cols, ts, q1, q2, q3, q4, q5⟩ := k3 round (some N)
  have hN := q3 N rfl
  refine ⟨cols, ts, q1, hN, by rw [q4, hN], fun k t c ht hc i => ?_⟩
  have := (q5 k t c ht hc).2 i
  simpa using this

/-- C125: forwards in time, with the thrust switched off and on again, the linearly interpolated Cartesian histories of
short-step runs with a duty cycle, of runs with Sundman steps and of runs limited by their battery follow the trajectory -/
example : ∃ T > 0, ∃ γ μ sv, γ 0 = prob.oe0 ∧ μ 0 = 1 ∧
    FliesSwitched cfgD .keplerian ![2, 0, 0, 0, 0] ![1, 0, 0, 0, 0] (1 / 100) 1 1 T (dutySchedule (T / 5) (T / 7)) γ μ sv ∧
    ∃ δ > 0, ∃ K, ∃ B > 0, ∀ h, 0 < h → h < δ → ∀ fuel : ℕ, T / 2 / h + 2 ≤ fuel → T / 2 / (B * h) + 2 ≤ fuel →
      ∀ Q, (Q = objC 1 h T (T / 2) ∨ Q = objV 1 h T (T / 2) ∨ Q = objS 1 h T (T / 2)) → ∃ Q' H,
        Q.solve (.flt 0) (.flt 0) fuel = some (Q', none) ∧ Q'.hist = some H ∧
        InterpFollows linInterp Q' H 1 T (K * h) sv := by
  have hbox : IsOpen {x : Fin 6 → ℝ | ∀ j : Fin 5, 0 < x j.castSucc ∧ x j.castSucc < 9} := by
    simp only [Set.ofPred_forall]
    refine isOpen_iInter_of_finite fun j => ?_
    exact (isOpen_lt continuous_const (continuous_apply _)).inter (isOpen_lt (continuous_apply _) continuous_const)
  obtain ⟨T, hT, hex⟩ := C117_exists (C := cfgD) (et := .keplerian) (oeT := ![2, 0, 0, 0, 0])
    (woe := ![1, 0, 0, 0, 0]) (tmax := 1 / 100) (m0 := 1) (ml := 0) (mdot := 1 / 10) (σ := 1) (g := 1) (x := prob.oe0)
    (Or.inl rfl) smooth_d ⟨1, by decide, burn_grad _ oe0_box⟩ (pert_d _) hbox (burn_region.inside _ oe0_box)
    (by norm_num) (by norm_num) (by norm_num)
  have hon : 0 < T / 5 := by positivity
  have hoff : 0 < T / 7 := by positivity
  obtain ⟨γ, μ, h0, h0', hM, hS⟩ := hex _ (dutySchedule_piecewise hon hoff hT.le)
  have hbd : (cfgS 1).elementsType = .keplerian →
      BoundsAre (cfgS 1).oeMin (fun _ => (0 : ℝ)) ∧ BoundsAre (cfgS 1).oeMax (fun _ => (9 : ℝ)) := by
    intro _; constructor <;> intro j <;> fin_cases j <;> rfl
  have hm : ∀ s ∈ Icc 0 T, 0 < μ s ∧ 0 < μ s := fun s hs => ⟨(hS s hs).1, (hS s hs).1⟩
  have hS' : ∀ s ∈ Icc 0 T, LawSmooth .keplerian (unitCall (cfgS 1) ![2, 0, 0, 0, 0] ![1, 0, 0, 0, 0] (γ s)) ∧
      NewtonRegion .keplerian (γ s) ∧ PertSmooth (cfgS 1) 1 s (γ s) ∧
      ((cfgS 1).elementsType = .keplerian → ∀ j : Fin 5, 0 < γ s j.castSucc ∧ γ s j.castSucc < 9) := fun s hs =>
    ⟨(hS s hs).2.2.1, (fun h => by cases h), (hS s hs).2.2.2.1, fun _ => (hS s hs).2.2.2.2⟩
  obtain ⟨sv, hF, δ, hδ, K, hK, hrun⟩ := C125_duty (C := cfgDTol 1) (et := .keplerian) (fun _ => rfl) rfl rfl rfl hbd hM
    hS' hT (by norm_num) hm zero_le_one hon hoff rfl (lin_uniform (Or.inl rfl))
  obtain ⟨sv1, hF1, δ1, hδ1, K1, hK1, A, hA, B, hB, hrun1⟩ := C125_sundman (C := cfgS 1) (et := .keplerian) (fun _ => rfl) rfl rfl rfl
    hbd hM hS' hT (by norm_num) hm zero_le_one hon hoff rfl (fun τ n h hh hτ => C125_linear (Or.inl rfl) hh.le hτ)
  obtain ⟨sv2, hF2, δ2, hδ2, K2, hK2, hrun2⟩ := C125_battery (C := cfgDTol 1) (et := .keplerian) (fun _ => rfl) rfl rfl rfl hbd hM
    hS' hT (by norm_num) hm zero_le_one (dis := 5 / T) (chg := 7 / T) (lo := 1 - 1 / 10 ^ 12) (hi' := 2) (pause := 0) rfl
    (by positivity) (by positivity) (by norm_num) (by norm_num; exact hT) (by field_simp; norm_num) (by field_simp; norm_num)
    (lin_uniform (Or.inl rfl))
  have same : ∀ sv' : ℝ → Fin 6 → ℝ, (∀ s ∈ Icc 0 T, cartOf .keplerian (γ s) 1 = .ok (sv' s)) → ∀ s ∈ Icc 0 T, sv' s = sv s := fun sv' h s hs => by
    have e1 := h s hs
    have e2 : cartOf .keplerian (γ s) 1 = .ok (sv s) := hF.image s hs
    rw [e2] at e1
    injection e1 with e1
    exact e1.symm
  have weaken : ∀ {Q' : QLaw ℝ} {H : Hist ℝ} {e e' : ℝ} {sv' : ℝ → Fin 6 → ℝ}, (∀ s ∈ Icc 0 T, sv' s = sv s) → e ≤ e' →
      InterpFollows linInterp Q' H 1 T e sv' → InterpFollows linInterp Q' H 1 T e' sv := by
    intro Q' H e e' sv' hsv he hI r st
    obtain ⟨cols, ts, q1, q2, q3, q4, q5⟩ := hI r st
    refine ⟨cols, ts, q1, q2, q3, q4, fun k t c ht hc => ⟨(q5 k t c ht hc).1, fun i => ?_⟩⟩
    rw [← hsv _ (q5 k t c ht hc).1]
    exact ((q5 k t c ht hc).2 i).trans he
  refine ⟨T, hT, γ, μ, sv, h0, h0', ⟨hF.1, hF.2, hF.3⟩, min (min δ δ2) (min (min δ1 (T / 2)) (T / 2 / A)), by positivity,
    max K (max K1 K2), B, hB, fun h hh hhd fuel hf hf' Q hQ => ?_⟩
  have d0 := hhd.trans_le ((min_le_left _ _).trans (min_le_left _ _))
  have d2 := hhd.trans_le ((min_le_left _ _).trans (min_le_right _ _))
  have d1 := hhd.trans_le ((min_le_right _ _).trans ((min_le_left _ _).trans (min_le_left _ _)))
  have e2 := hhd.trans_le ((min_le_right _ _).trans ((min_le_left _ _).trans (min_le_right _ _)))
  have e3 : h * A < T / 2 := by
    have := hhd.trans_le ((min_le_right _ _).trans (min_le_right _ _))
    rwa [lt_div_iff₀ hA] at this
  have etf : |T / 2| = T / 2 := abs_of_pos (by positivity)
  have etf0 : T / 2 ≠ 0 := by positivity
  rcases hQ with rfl | rfl | rfl
  · obtain ⟨Q', H, k1, k2, k3, -⟩ := hrun h hh d0
      (objC 1 h T (T / 2)) (probC h T (T / 2)) 0 0 fuel le_rfl le_rfl (by rw [h0, h0']; exact starts_C _ _ _ _) etf0
      (show |T / 2| + h ≤ T by rw [etf]; linarith) (show |T / 2| / h + 2 ≤ fuel by rw [etf]; exact hf)
    exact ⟨Q', H, k1, k2, weaken (fun _ _ => rfl) (mul_le_mul_of_nonneg_right (le_max_left _ _) hh.le) k3⟩
  · obtain ⟨Q', H, k1, k2, k3, -⟩ := hrun2 h hh d2
      (objV 1 h T (T / 2)) (probV h T (T / 2)) 0 0 fuel le_rfl le_rfl (by rw [h0, h0']; exact starts_V _ _ _ _) etf0
      (show |T / 2| + h ≤ T by rw [etf]; linarith) (show |T / 2| / h + 2 ≤ fuel by rw [etf]; exact hf)
    exact ⟨Q', H, k1, k2, weaken (same sv2 hF2.image) (mul_le_mul_of_nonneg_right ((le_max_right _ _).trans (le_max_right _ _)) hh.le) k3⟩
  · obtain ⟨Q', H, k1, k2, k3, -⟩ := hrun1 h hh d1
      (objS 1 h T (T / 2)) (probC h T (T / 2)) 0 0 fuel le_rfl le_rfl (by rw [h0, h0']; exact starts_S _ _ _ _) etf0
      (show |T / 2| + A * h ≤ T by rw [etf]; linarith) (show |T / 2| / (B * h) + 2 ≤ fuel by rw [etf]; exact hf')
    exact ⟨Q', H, k1, k2, weaken (same sv1 hF1.image) (mul_le_mul_of_nonneg_right ((le_max_left _ _).trans (le_max_right _ _)) hh.le) k3⟩

end Burn

end PyQ
