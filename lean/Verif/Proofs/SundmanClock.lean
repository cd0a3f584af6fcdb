import Verif.Props.DutyRun

/-!
Runs whose steps vary: bounds of the Sundman step along a motion, and the duty cycle of a run with steps of varying
length compared with the nominal schedule.
-/

set_option linter.unusedSectionVars false
set_option maxRecDepth 100000

open Set Metric Topology

namespace PyQ

/-- the mean anomaly grows at least by `1 - e` and at most by `1 + e` times the growth of the eccentric anomaly -/
theorem mean_increment_bounds {e : ℝ} (he0 : 0 ≤ e) (E : ℝ) {dE : ℝ} (h : 0 < dE) :
    (1 - e) * dE ≤ dE - e * Real.sin (E + dE) + e * Real.sin E ∧
      dE - e * Real.sin (E + dE) + e * Real.sin E ≤ (1 + e) * dE := by
  have h1 : |Real.sin (E + dE) - Real.sin E| ≤ dE := by
    rw [Real.sin_sub_sin]
    have a1 : |Real.sin ((E + dE - E) / 2)| ≤ dE / 2 := by
      have := Real.abs_sin_le_abs (x := (E + dE - E) / 2)
      rw [show (E + dE - E) / 2 = dE / 2 by ring] at this ⊢
      rwa [abs_of_pos (by linarith : 0 < dE / 2)] at this
    have a2 := Real.abs_cos_le_one ((E + dE + E) / 2)
    rw [abs_mul, abs_mul, abs_two]
    have a3 : |Real.sin ((E + dE - E) / 2)| * |Real.cos ((E + dE + E) / 2)| ≤ dE / 2 * 1 :=
      mul_le_mul a1 a2 (abs_nonneg _) (by linarith)
    linarith
  obtain ⟨h2, h3⟩ := abs_le.1 h1
  constructor
  · nlinarith [mul_le_mul_of_nonneg_left h3 he0]
  · nlinarith [mul_le_mul_of_nonneg_left h2 he0]

/-- eccentricity in either element set -/
noncomputable def eccOf (et : ElemType) (x : Fin 6 → ℝ) : ℝ :=
  match et with
  | .keplerian => x 1
  | .meeWithA => Real.sqrt (x 1 ^ 2 + x 2 ^ 2)

theorem eccOf_continuous (et : ElemType) : Continuous (eccOf et) := by
  cases et
  · exact continuous_apply _
  · exact Real.continuous_sqrt.comp (((continuous_apply _).pow 2).add ((continuous_apply _).pow 2))

/-- with Sundman steps the step is a time of flight from some eccentric anomaly -/
theorem sundman_choose {C : Config ℝ} {et : ElemType} (hE : C.elementsType = et) (hsun : C.useSundman = true)
    {P : Problem ℝ} {x : Fin 6 → ℝ} (h0 : 0 ≤ eccOf et x) (h1 : eccOf et x < 1) (hh : 0 < P.tStep) :
    ∃ E, chooseStep C P x = .ok (timeOfFlight (x 0) (eccOf et x) C.mu E P.tStep) := by
  cases et with
  | keplerian =>
    have h1' : 0 ≤ x 1 := h0
    obtain ⟨E, hta⟩ : ∃ E, ta2ea (x 5) (x 1) = .ok E := ⟨_, ta2ea_real _ _ (by linarith)⟩
    refine ⟨E, ?_⟩
    simp only [chooseStep, hsun, hE, if_true, hta, Bind.bind, Except.bind, pure, Except.pure]
    exact congrArg _ (sundmanStep_pos h0 h1 _ hh)
  | meeWithA =>
    have h2 : 1 + Real.sqrt (x 1 ^ 2 + x 2 ^ 2) ≠ 0 := by positivity
    obtain ⟨E, hta⟩ : ∃ E, mee2ea x = .ok E := ⟨_, ta2ea_real _ _ h2⟩
    refine ⟨E, ?_⟩
    simp only [chooseStep, hsun, hE, if_true, hta, Bind.bind, Except.bind, pure, Except.pure]
    exact congrArg _ (sundmanStep_pos h0 h1 _ hh)

/-- around a motion along which the law is smooth, Sundman steps are proportional to the increment of the eccentric
anomaly, up to constants -/
theorem sundman_tube {C : Config ℝ} {et : ElemType} (hE : C.elementsType = et) (hsun : C.useSundman = true)
    {oeT woe : Fin 5 → ℝ} {T : ℝ} (hT : 0 ≤ T) {γ : ℝ → Fin 6 → ℝ} (hc : ContinuousOn γ (Icc 0 T))
    (hS : ∀ s ∈ Icc 0 T, LawSmooth et (unitCall C oeT woe (γ s))) :
    ∃ ρ > 0, ∃ A > 0, ∃ B > 0, ∀ s ∈ Icc 0 T, ∀ x ∈ ball (γ s) ρ, ∀ (P : Problem ℝ) (h : ℝ), 0 < h → P.tStep = h →
      ∃ st, chooseStep C P x = .ok st ∧ B * h ≤ st ∧ st ≤ A * h := by
  have hst : ∀ s ∈ Icc 0 T, 0 < C.mu ∧ 0 < γ s 0 ∧ 0 < eccOf et (γ s) ∧ eccOf et (γ s) < 1 := by
    intro s hs
    cases et with
    | keplerian =>
      have H : KepSmooth (unitCall C oeT woe (γ s)) := (hS s hs).1
      exact ⟨H.mu, H.a, H.e0, H.e1⟩
    | meeWithA =>
      have H : MeeSmooth (unitCall C oeT woe (γ s)) := (hS s hs).1.1
      refine ⟨H.mu, H.a, Real.sqrt_pos.2 H.ecc0, ?_⟩
      have := Real.sqrt_lt_sqrt H.ecc0.le H.ecc
      rwa [Real.sqrt_one] at this
  have hmem : (0 : ℝ) ∈ Icc 0 T := left_mem_Icc.2 hT
  have hmu := (hst 0 hmem).1
  have ca : ContinuousOn (fun s => γ s 0) (Icc 0 T) := fun s hs => (continuous_apply 0).continuousAt.comp_continuousWithinAt (hc s hs)
  have ce : ContinuousOn (fun s => eccOf et (γ s)) (Icc 0 T) :=
    fun s hs => (eccOf_continuous et).continuousAt.comp_continuousWithinAt (hc s hs)
  obtain ⟨s1, hs1, m1⟩ := isCompact_Icc.exists_isMinOn ⟨0, hmem⟩ ca
  obtain ⟨s2, hs2, m2⟩ := isCompact_Icc.exists_isMaxOn ⟨0, hmem⟩ ca
  obtain ⟨s3, hs3, m3⟩ := isCompact_Icc.exists_isMaxOn ⟨0, hmem⟩ ce
  obtain ⟨a1, ha1⟩ : ∃ a1, a1 = γ s1 0 / 2 := ⟨_, rfl⟩
  obtain ⟨a2, ha2⟩ : ∃ a2, a2 = γ s2 0 + 1 := ⟨_, rfl⟩
  obtain ⟨e1, he1⟩ : ∃ e1, e1 = (1 + eccOf et (γ s3)) / 2 := ⟨_, rfl⟩
  have p1 := (hst s1 hs1).2.1
  have p2 := (hst s2 hs2).2.1
  have p3 := (hst s3 hs3).2.2
  obtain ⟨ρ, hρ, hin⟩ := tube_open hc (U := {x | a1 < x 0} ∩ {x | x 0 < a2} ∩ ({x | 0 < eccOf et x} ∩ {x | eccOf et x < e1}))
    (((isOpen_lt continuous_const (continuous_apply _)).inter (isOpen_lt (continuous_apply _) continuous_const)).inter
      ((isOpen_lt continuous_const (eccOf_continuous et)).inter (isOpen_lt (eccOf_continuous et) continuous_const)))
    (fun s hs => by
      have q1 : γ s1 0 ≤ γ s 0 := m1 hs
      have q2 : γ s 0 ≤ γ s2 0 := m2 hs
      have q3 : eccOf et (γ s) ≤ eccOf et (γ s3) := m3 hs
      refine ⟨⟨?_, ?_⟩, (hst s hs).2.2.1, ?_⟩
      · show a1 < γ s 0; linarith
      · show γ s 0 < a2; linarith
      · show eccOf et (γ s) < e1; linarith)
  have ha10 : 0 < a1 := by linarith
  have ha20 : 0 < a2 := by linarith
  have he11 : e1 < 1 := by linarith
  have r1 : 0 < Real.sqrt (a1 ^ 3 / C.mu) := Real.sqrt_pos.2 (by positivity)
  have r2 : 0 < Real.sqrt (a2 ^ 3 / C.mu) := Real.sqrt_pos.2 (by positivity)
  refine ⟨ρ, hρ, Real.sqrt (a2 ^ 3 / C.mu) * 2, by positivity, Real.sqrt (a1 ^ 3 / C.mu) * (1 - e1),
    mul_pos r1 (by linarith), fun s hs x hx P h hh hP => ?_⟩
  obtain ⟨⟨g1, g2⟩, g3, g4⟩ := hin s hs hx
  have g1 : a1 < x 0 := g1
  have g2 : x 0 < a2 := g2
  have g3 : 0 < eccOf et x := g3
  have g4 : eccOf et x < e1 := g4
  obtain ⟨E, hEx⟩ := sundman_choose hE hsun (P := P) g3.le (by linarith) (by rw [hP]; exact hh)
  refine ⟨_, hEx, ?_⟩
  rw [hP, timeOfFlight]
  obtain ⟨b1, b2⟩ := mean_increment_bounds g3.le E hh
  have x0 : 0 < x 0 := by linarith
  have t1 : Real.sqrt (a1 ^ 3 / C.mu) ≤ Real.sqrt (x 0 ^ 3 / C.mu) := Real.sqrt_le_sqrt (by gcongr)
  have t2 : Real.sqrt (x 0 ^ 3 / C.mu) ≤ Real.sqrt (a2 ^ 3 / C.mu) := Real.sqrt_le_sqrt (by gcongr)
  constructor
  · rw [mul_assoc]
    refine mul_le_mul t1 (le_trans ?_ b1) (mul_nonneg (by linarith) hh.le) (Real.sqrt_nonneg _)
    exact mul_le_mul_of_nonneg_right (by linarith) hh.le
  · rw [mul_assoc]
    refine mul_le_mul t2 (b2.trans ?_) (le_trans (mul_nonneg (by linarith) hh.le) b1) (Real.sqrt_nonneg _)
    exact mul_le_mul_of_nonneg_right (by linarith) hh.le

/-- the duty variables after the duty phase at time `t` of a run with steps of at most `w`: the cycle number `j` has
begun at most `2 j` steps late -/
def DutyNear (on off w t : ℝ) (duty : Bool) (tOn tOff : ℝ) : Prop :=
  ∃ j : ℕ, j * (on + off) ≤ tOn ∧ tOn ≤ j * (on + off) + 2 * j * w ∧
    (duty = true → tOn ≤ t ∧ t ≤ tOn + on) ∧
    (duty = false → j * (on + off) + on ≤ tOff ∧ tOff ≤ j * (on + off) + on + (2 * j + 1) * w ∧ tOff ≤ t ∧ t ≤ tOff + off)

/-- one duty phase, away from the battery floor -/
theorem duty_near_step {P : Problem ℝ} {s : LoopSt ℝ} {w tp st : ℝ} (hon : 0 ≤ P.dutyOn) (hoff : 0 ≤ P.dutyOff)
    (hs : DutyNear P.dutyOn P.dutyOff w tp s.duty s.tOn s.tOff) (h1 : tp ≤ s.t) (h2 : s.t ≤ tp + w)
    (hch : s.charging = false) (hfl : ¬ s.battery ≤ P.capMin + 1 / 10 ^ 12) (hsh : ¬ s.battery - P.dischargeRate * st < P.capMin) :
    ∃ duty tOn tOff, dutyPhase P s st = { duty := duty, tOn := tOn, tOff := tOff, charging := false, step := st } ∧
      DutyNear P.dutyOn P.dutyOff w s.t duty tOn tOff ∧ (s.duty = true → s.t - s.tOn ≤ P.dutyOn → duty = true) := by
  have hfl' : ¬ s.battery ≤ P.capMin + rat 1 (10 ^ 12) := by rw [rat_real]; norm_num at hfl ⊢; exact hfl
  obtain ⟨j, j1, j2, j3, j4⟩ := hs
  cases hduty : s.duty with
  | true =>
    obtain ⟨k1, k2⟩ := j3 hduty
    by_cases f1 : P.dutyOn < s.t - s.tOn
    · have f2 : ¬ P.dutyOff < s.t - s.t := by rw [sub_self]; linarith
      refine ⟨false, s.tOn, s.t, ?_, ⟨j, j1, j2, by simp, fun _ => ⟨?_, ?_, le_rfl, ?_⟩⟩, fun _ h => absurd f1 (not_lt.2 h)⟩
      · simp only [dutyPhase, lt_real, le_real, hduty, hch, decide_eq_true f1, decide_eq_false hfl', decide_eq_false hsh]
        simp
        exact ⟨hoff, fun h5 => absurd hoff (not_le.2 h5)⟩
      · linarith
      · nlinarith
      · linarith
    · refine ⟨true, s.tOn, s.tOff, ?_, ⟨j, j1, j2, fun _ => ⟨by linarith, by linarith⟩, by simp⟩, fun _ _ => rfl⟩
      simp only [dutyPhase, lt_real, le_real, hduty, hch, decide_eq_false f1, decide_eq_false hfl', decide_eq_false hsh]
      simp
  | false =>
    obtain ⟨k1, k2, k3, k4⟩ := j4 hduty
    by_cases f2 : P.dutyOff < s.t - s.tOff
    · refine ⟨true, s.t, s.tOff, ?_, ⟨j + 1, ?_, ?_, fun _ => ⟨le_rfl, by linarith⟩, by simp⟩, fun h => by cases h⟩
      · simp only [dutyPhase, lt_real, le_real, hduty, hch, decide_eq_false hfl', decide_eq_false hsh,
          Bool.false_eq_true, if_false]
        simp
        exact ⟨f2, fun h5 => by linarith⟩
      · push_cast; linarith
      · push_cast; linarith
    · refine ⟨false, s.tOn, s.tOff, ?_, ⟨j, j1, j2, by simp, fun _ => ⟨k1, k2, by linarith, by linarith⟩⟩, fun h => by cases h⟩
      simp only [dutyPhase, lt_real, le_real, hduty, hch, decide_eq_false hfl', decide_eq_false hsh,
        Bool.false_eq_true, if_false]
      simp
      exact ⟨by linarith, fun h5 => absurd h5 f2⟩

/-- a time within `D` steps of a switching time of the first `J` cycles -/
def NearSwitch (on off w : ℝ) (J D : ℕ) (t : ℝ) : Prop :=
  ∃ j < J, |t - (j * (on + off) + on)| ≤ D * w ∨ |t - (j + 1) * (on + off)| ≤ D * w

/-- the throttle of a run with steps of at most `w` is that of the schedule, except near its switching times -/
theorem dutyNear_matches {on off w T : ℝ} (hon : 0 < on) (hoff : 0 < off) (hw : 0 < w) {t t' : ℝ} (ht : t ≤ T)
    (ht' : t' ≤ t + w) {duty : Bool} {tOn tOff : ℝ} (h : DutyNear on off w t duty tOn tOff) :
    NearSwitch on off w (⌊T / (on + off)⌋₊ + 1) (2 * ⌊T / (on + off)⌋₊ + 1) t ∨
      ∀ s ∈ Ico t t', dutySchedule on off s = duty := by
  have hp : 0 < on + off := by linarith
  obtain ⟨J, hJ⟩ : ∃ J, J = ⌊T / (on + off)⌋₊ := ⟨_, rfl⟩
  rw [← hJ]
  obtain ⟨j, j1, j2, j3, j4⟩ := h
  have hjt : j * (on + off) ≤ t := by
    cases duty with
    | true => linarith [(j3 rfl).1]
    | false =>
      obtain ⟨k1, -, k3, -⟩ := j4 rfl
      linarith
  have hjJ : j ≤ J := by
    rw [hJ]
    apply Nat.le_floor
    rw [le_div_iff₀ hp]; linarith
  have hjJ' : (j : ℝ) ≤ J := by exact_mod_cast hjJ
  have hj0 : (0 : ℝ) ≤ j * w := by positivity
  have hDj : (2 * j + 1 : ℝ) * w ≤ ((2 * J + 1 : ℕ) : ℝ) * w := by
    push_cast
    apply mul_le_mul_of_nonneg_right _ hw.le; linarith
  cases duty with
  | true =>
    obtain ⟨k1, k2⟩ := j3 rfl
    by_cases hin : t + w ≤ j * (on + off) + on
    · right
      intro s hs
      exact dutySchedule_on hon hoff j ⟨by linarith [hs.1], by linarith [hs.2]⟩
    · left
      refine ⟨j, by omega, Or.inl (abs_le.2 ⟨?_, ?_⟩)⟩ <;> nlinarith
  | false =>
    obtain ⟨k1, k2, k3, k4⟩ := j4 rfl
    by_cases hin : t + w ≤ (j + 1) * (on + off)
    · right
      intro s hs
      exact dutySchedule_off hon hoff j ⟨by linarith [hs.1], by linarith [hs.2]⟩
    · left
      refine ⟨j, by omega, Or.inr (abs_le.2 ⟨?_, ?_⟩)⟩ <;> nlinarith

/-- times that are at least `lo` apart -/
theorem spaced_le {τ : ℕ → ℝ} {lo : ℝ} {n : ℕ} (hτ : ∀ k < n, τ k + lo ≤ τ (k + 1)) {i k : ℕ} (hik : i ≤ k) (hk : k ≤ n) :
    τ i + (k - i : ℕ) * lo ≤ τ k := by
  induction k with
  | zero => obtain rfl : i = 0 := by omega
            simp
  | succ k ih =>
    rcases Nat.lt_or_ge i (k + 1) with h | h
    · have h1 := ih (by omega) (by omega)
      have h2 := hτ k (by omega)
      rw [show k + 1 - i = (k - i) + 1 by omega]
      push_cast; linarith
    · obtain rfl : i = k + 1 := by omega
      simp

theorem spaced_card {τ : ℕ → ℝ} {lo : ℝ} (hlo : 0 < lo) {n : ℕ} (hτ : ∀ k < n, τ k + lo ≤ τ (k + 1)) (c : ℝ) {w : ℝ}
    {p : ℕ → Prop} [DecidablePred p] (hp : ∀ k, p k → |τ k - c| ≤ w) :
    ((Finset.range n).filter p).card ≤ ⌊2 * w / lo⌋₊ + 1 := by
  rcases ((Finset.range n).filter p).eq_empty_or_nonempty with h | h
  · rw [h]; simp
  · obtain ⟨i, hi⟩ : ∃ i, i = ((Finset.range n).filter p).min' h := ⟨_, rfl⟩
    have him := Finset.min'_mem _ h
    rw [← hi, Finset.mem_filter] at him
    have hsub : (Finset.range n).filter p ⊆ Finset.Icc i (i + ⌊2 * w / lo⌋₊) := by
      intro k hk
      have hik : i ≤ k := by rw [hi]; exact Finset.min'_le _ _ hk
      rw [Finset.mem_filter, Finset.mem_range] at hk
      have h1 := spaced_le hτ hik hk.1.le
      have h2 := (abs_le.1 (hp k hk.2)).2
      have h3 := (abs_le.1 (hp i him.2)).1
      have h4 : k - i ≤ ⌊2 * w / lo⌋₊ := by
        apply Nat.le_floor
        rw [le_div_iff₀ hlo]; linarith
      rw [Finset.mem_Icc]; omega
    refine (Finset.card_le_card hsub).trans ?_
    rw [Nat.card_Icc]; omega

/-- only a bounded number of steps begin near a switching time -/
theorem nearSwitch_card {on off lo w R : ℝ} (hlo : 0 < lo) (hR : w ≤ R * lo) (J D : ℕ) {τ : ℕ → ℝ} {n : ℕ}
    (hτ : ∀ k < n, τ k + lo ≤ τ (k + 1)) :
    ∃ S : Finset ℕ, S.card ≤ J * (2 * (⌊2 * (D * R)⌋₊ + 1)) ∧ ∀ k < n, NearSwitch on off w J D (τ k) → k ∈ S := by
  classical
  have hcard : ∀ c : ℝ, ((Finset.range n).filter fun k => |τ k - c| ≤ D * w).card ≤ ⌊2 * (D * R)⌋₊ + 1 := by
    intro c
    refine (spaced_card hlo hτ c (w := D * w) (fun k hk => hk)).trans ?_
    gcongr
    rw [div_le_iff₀ hlo]
    have : (D : ℝ) * w ≤ D * (R * lo) := mul_le_mul_of_nonneg_left hR (by positivity)
    linarith
  refine ⟨(Finset.range J).biUnion fun j => (Finset.range n).filter (fun k => |τ k - (j * (on + off) + on)| ≤ D * w) ∪
    (Finset.range n).filter (fun k => |τ k - (j + 1) * (on + off)| ≤ D * w), ?_, ?_⟩
  · refine Finset.card_biUnion_le.trans ?_
    refine (Finset.sum_le_card_nsmul _ _ (2 * (⌊2 * (D * R)⌋₊ + 1)) fun j _ => ?_).trans (by rw [Finset.card_range, smul_eq_mul])
    refine (Finset.card_union_le _ _).trans ?_
    have := hcard (j * (on + off) + on)
    have := hcard ((j + 1) * (on + off))
    omega
  · rintro k hk ⟨j, hj, h⟩
    rw [Finset.mem_biUnion]
    refine ⟨j, Finset.mem_range.2 hj, Finset.mem_union.2 ?_⟩
    rw [Finset.mem_filter, Finset.mem_filter]
    exact h.imp (fun h => ⟨Finset.mem_range.2 hk, h⟩) (fun h => ⟨Finset.mem_range.2 hk, h⟩)

end PyQ
