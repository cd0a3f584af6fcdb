import Verif.Props.Cartesian
import Verif.Props.Thrust

/-! # C52, C53 and C31: eccentric anomaly and the Sundman step, over the reals

`tan` has poles at odd multiples of `π/2`; there Mathlib's total `Real.tan` and numpy's `np.tan`
differ, so all statements exclude true anomalies that are odd multiples of `π`
(`cos (ta / 2) ≠ 0`). -/

set_option linter.unusedSectionVars false
set_option maxRecDepth 100000

namespace PyQ

/-- `E` is the eccentric anomaly that belongs to true anomaly `ta` on an ellipse of eccentricity `e` -/
def IsEccentric (e ta E : ℝ) : Prop :=
  Real.cos E = (e + Real.cos ta) / (1 + e * Real.cos ta) ∧
  Real.sin E = Real.sqrt (1 - e ^ 2) * Real.sin ta / (1 + e * Real.cos ta)

theorem ta2ea_real (ta e : ℝ) (h : 1 + e ≠ 0) :
    ta2ea ta e = .ok (2 * Real.arctan (Real.sqrt ((1 - e) / (1 + e)) * Real.tan (ta / 2))) := by
  simp only [ta2ea, Nat.cast_one, Nat.cast_ofNat]
  rw [ndiv_real h]
  rfl

/-- C52: range, sine, cosine and radius. -/
theorem C52_value (ta e : ℝ) (he0 : 0 ≤ e) (he1 : e < 1) (hta : Real.cos (ta / 2) ≠ 0) :
    ∃ E, ta2ea ta e = .ok E ∧ -Real.pi < E ∧ E < Real.pi ∧ IsEccentric e ta E ∧
      ∀ a, a * (1 - e ^ 2) / (1 + e * Real.cos ta) = a * (1 - e * Real.cos E) := by
  have hcos := Real.neg_one_le_cos ta
  have hw : 0 < 1 + e * Real.cos ta := by nlinarith
  have hT := half_angle hta
  refine ⟨_, ta2ea_real ta e (by linarith), ?_⟩
  set T := Real.tan (ta / 2)
  set q := Real.sqrt ((1 - e) / (1 + e)) with hq
  have hq2 : q ^ 2 = (1 - e) / (1 + e) := Real.sq_sqrt (div_nonneg (by linarith) (by linarith))
  have hq0 : 0 ≤ q := Real.sqrt_nonneg _
  have h1 := Real.arctan_lt_pi_div_two (q * T)
  have h2 := Real.neg_pi_div_two_lt_arctan (q * T)
  have he : (2 * Real.arctan (q * T)) / 2 = Real.arctan (q * T) := by ring
  have hE := half_angle (x := 2 * Real.arctan (q * T)) (by rw [he]; exact (Real.cos_arctan_pos _).ne')
  rw [he, Real.tan_arctan] at hE
  have hs : Real.sqrt (1 - e ^ 2) = q * (1 + e) := by
    rw [show 1 - e ^ 2 = (q * (1 + e)) ^ 2 by
      rw [mul_pow, hq2]; field_simp; ring]
    exact Real.sqrt_sq (mul_nonneg hq0 (by linarith))
  have hT0 : 0 < 1 + T ^ 2 := by positivity
  have hD : 0 < (1 + e) + (1 - e) * T ^ 2 := by
    have : 0 ≤ (1 - e) * T ^ 2 := mul_nonneg (by linarith) (sq_nonneg T)
    linarith
  have hw' : 1 + e * Real.cos ta = ((1 + e) + (1 - e) * T ^ 2) / (1 + T ^ 2) := by
    rw [hT.1]; field_simp; ring
  have h1e : (1 + e) ≠ 0 := by linarith
  have hqT : 1 + (q * T) ^ 2 = ((1 + e) + (1 - e) * T ^ 2) / (1 + e) := by
    rw [mul_pow, hq2]; field_simp
  have hc : Real.cos (2 * Real.arctan (q * T)) = (e + Real.cos ta) / (1 + e * Real.cos ta) := by
    rw [hE.1, hqT, hw', hT.1, mul_pow, hq2]; field_simp; ring
  refine ⟨by linarith, by linarith, ⟨hc, ?_⟩, ?_⟩
  · rw [hE.2, hqT, hw', hT.2, hs]; field_simp
  · intro a
    rw [hc]; field_simp; ring

/-- C52: odd. -/
theorem C52_odd (ta e E : ℝ) (h : ta2ea ta e = .ok E) : ta2ea (-ta) e = .ok (-E) := by
  by_cases h1 : 1 + e = 0
  · simp only [ta2ea, Nat.cast_one, h1] at h
    rw [ndiv_zero_real] at h
    simp [bind, Except.bind] at h
  · rw [ta2ea_real _ _ h1] at h ⊢
    injection h with h
    rw [← h, neg_div, Real.tan_neg, mul_neg, Real.arctan_neg, mul_neg]

/-- C52: identity on circular orbits. -/
theorem C52_circular (ta : ℝ) (h1 : -Real.pi < ta) (h2 : ta < Real.pi) : ta2ea ta 0 = .ok ta := by
  rw [ta2ea_real _ _ (by norm_num)]
  simp only [sub_zero, add_zero, div_one, Real.sqrt_one, one_mul]
  rw [Real.arctan_tan (by linarith) (by linarith)]
  congr 1; ring

/-- C52: strictly increasing on `(-π, π)`. -/
theorem C52_strictMono (e ta ta' E E' : ℝ) (he0 : 0 ≤ e) (he1 : e < 1) (h1 : -Real.pi < ta)
    (h2 : ta < ta') (h3 : ta' < Real.pi) (hE : ta2ea ta e = .ok E) (hE' : ta2ea ta' e = .ok E') :
    E < E' := by
  rw [ta2ea_real _ _ (by linarith)] at hE hE'
  injection hE with hE
  injection hE' with hE'
  rw [← hE, ← hE']
  have ht : Real.tan (ta / 2) < Real.tan (ta' / 2) :=
    Real.tan_lt_tan_of_lt_of_lt_pi_div_two (by linarith) (by linarith) (by linarith)
  have hq : 0 < Real.sqrt ((1 - e) / (1 + e)) :=
    Real.sqrt_pos.2 (div_pos (by linarith) (by linarith))
  have := Real.arctan_strictMono (mul_lt_mul_of_pos_left ht hq)
  linarith

example : (0 : ℝ) ≤ 1 / 2 ∧ (1 / 2 : ℝ) < 1 ∧ Real.cos ((Real.pi / 2) / 2) ≠ 0 := by
  refine ⟨by norm_num, by norm_num, ?_⟩
  rw [show Real.pi / 2 / 2 = Real.pi / 4 by ring, Real.cos_pi_div_four]; positivity

/-! ## C53 -/

theorem ta2ea_turn (ta e : ℝ) (n : ℤ) : ta2ea (ta + n * (2 * Real.pi)) e = ta2ea ta e := by
  simp only [ta2ea, Nat.cast_ofNat, tan_real]
  rw [show (ta + n * (2 * Real.pi)) / 2 = ta / 2 + n * Real.pi by ring, Real.tan_add_int_mul_pi]

/-- C53: for every eccentricity `e > 0` and arbitrary angles, from either form of the MEE vector. -/
theorem C53_agrees (k : Fin 6 → ℝ) (he : 0 < k 1) :
    mee2ea (kep2mee k) = ta2ea (k 5) (k 1) ∧ mee2ea (kep2meeWithA k) = ta2ea (k 5) (k 1) := by
  obtain ⟨n, hn⟩ := arg_polar_mod he (k 3 + k 4)
  have hcs := Real.sin_sq_add_cos_sq (k 3 + k 4)
  have e2 : Real.sqrt ((k 1 * Real.cos (k 3 + k 4)) ^ 2 + (k 1 * Real.sin (k 3 + k 4)) ^ 2) = k 1 := by
    rw [show (k 1 * Real.cos (k 3 + k 4)) ^ 2 + (k 1 * Real.sin (k 3 + k 4)) ^ 2 = k 1 ^ 2 by
      linear_combination (k 1 ^ 2) * hcs]
    exact Real.sqrt_sq he.le
  have e3 : k 3 + k 4 + k 5 - (k 3 + k 4 + n * (2 * Real.pi)) =
      k 5 + (-n : ℤ) * (2 * Real.pi) := by push_cast; ring
  constructor
  · simp only [mee2ea, kep2mee_real, Matrix.cons_val, sqrt_real, arctan2_real, e2, hn, e3]
    exact ta2ea_turn _ _ _
  · simp only [mee2ea, kep2meeWithA, Matrix.cons_val, sqrt_real, cos_real, sin_real, arctan2_real,
      e2, hn, e3]
    exact ta2ea_turn _ _ _

/-- C53, circular orbits: the anomaly is counted from the reference direction. -/
theorem C53_circular (k : Fin 6 → ℝ) (he : k 1 = 0) :
    mee2ea (kep2mee k) = ta2ea (k 3 + k 4 + k 5) 0 := by
  simp [mee2ea, kep2mee_real, he, arg_zero_zero]

/-! ## C31 -/

/-- Keplerian time of flight from eccentric anomaly `E` to `E + dE` -/
noncomputable def timeOfFlight (a e mu E dE : ℝ) : ℝ :=
  Real.sqrt (a ^ 3 / mu) * (dE - e * Real.sin (E + dE) + e * Real.sin E)

/-- the mean anomaly is strictly increasing -/
theorem mean_increment_pos {e : ℝ} (he0 : 0 ≤ e) (he1 : e < 1) (E : ℝ) {dE : ℝ} (h : 0 < dE) :
    0 < dE - e * Real.sin (E + dE) + e * Real.sin E := by
  have h1 : Real.sin (E + dE) - Real.sin E ≤ dE := by
    rw [Real.sin_sub_sin]
    have a1 : |Real.sin ((E + dE - E) / 2)| ≤ dE / 2 := by
      have := Real.abs_sin_le_abs (x := (E + dE - E) / 2)
      rw [show (E + dE - E) / 2 = dE / 2 by ring] at this ⊢
      rwa [abs_of_pos (by linarith : 0 < dE / 2)] at this
    have a2 := Real.abs_cos_le_one ((E + dE + E) / 2)
    have a3 : Real.sin ((E + dE - E) / 2) * Real.cos ((E + dE + E) / 2) ≤ dE / 2 := by
      refine (le_abs_self _).trans ?_
      rw [abs_mul]
      calc _ ≤ dE / 2 * 1 := mul_le_mul a1 a2 (abs_nonneg _) (by linarith)
        _ = dE / 2 := mul_one _
    linarith
  nlinarith

theorem timeOfFlight_pos {a e mu : ℝ} (ha : 0 < a) (hmu : 0 < mu) (he0 : 0 ≤ e) (he1 : e < 1)
    (E : ℝ) {dE : ℝ} (h : 0 < dE) : 0 < timeOfFlight a e mu E dE :=
  mul_pos (Real.sqrt_pos.2 (by positivity)) (mean_increment_pos he0 he1 E h)

theorem sundmanStep_pos {a e mu : ℝ} (he0 : 0 ≤ e) (he1 : e < 1) (E : ℝ) {dE : ℝ} (h : 0 < dE) :
    sundmanStep dE e E (((2 : ℕ) : ℝ) * PyTrans.pi * PyTrans.sqrt (a ^ 3 / mu)) =
      timeOfFlight a e mu E dE := by
  have hp := mean_increment_pos he0 he1 E h
  have hpi := Real.pi_pos
  simp only [sundmanStep, lt_real, sin_real, pi_real, sqrt_real]
  rw [if_pos (by simp only [decide_eq_true_eq]; linarith)]
  rw [timeOfFlight]; push_cast; field_simp; ring

/-- for a non-positive step the code adds a whole period -/
theorem sundmanStep_neg {a e mu : ℝ} (he0 : 0 ≤ e) (he1 : e < 1) (E : ℝ) {dE : ℝ} (h : dE ≤ 0) :
    sundmanStep dE e E (((2 : ℕ) : ℝ) * PyTrans.pi * PyTrans.sqrt (a ^ 3 / mu)) =
      timeOfFlight a e mu E (dE + 2 * Real.pi) := by
  have hpi := Real.pi_pos
  have hp : dE - e * Real.sin (E + dE) + e * Real.sin E ≤ 0 := by
    rcases h.lt_or_eq with h | h
    · have := mean_increment_pos he0 he1 (E + dE) (dE := -dE) (by linarith)
      rw [show E + dE + -dE = E by ring] at this
      linarith
    · rw [h]; simp
  simp only [sundmanStep, lt_real, sin_real, pi_real, sqrt_real]
  rw [if_neg (by simp only [decide_eq_true_eq]; linarith)]
  rw [timeOfFlight, ← add_assoc, Real.sin_add_two_pi]; push_cast; field_simp; ring

/-- the true anomaly of an MEE state, as the code computes it -/
noncomputable def meeAnomaly (x : Fin 6 → ℝ) : ℝ := x 5 - Complex.arg ⟨x 1, x 2⟩

/-- it is the true anomaly -/
theorem meeAnomaly_spec (x : Fin 6 → ℝ) (h : x 1 ^ 2 + x 2 ^ 2 ≠ 0) :
    Real.sqrt (x 1 ^ 2 + x 2 ^ 2) * Real.cos (meeAnomaly x) =
      x 1 * Real.cos (x 5) + x 2 * Real.sin (x 5) ∧
    Real.sqrt (x 1 ^ 2 + x 2 ^ 2) * Real.sin (meeAnomaly x) =
      x 1 * Real.sin (x 5) - x 2 * Real.cos (x 5) := by
  obtain ⟨h1, h2⟩ := arg_sincos (x 1) (x 2) h
  have hs : Real.sqrt (x 1 ^ 2 + x 2 ^ 2) ≠ 0 := by
    apply (Real.sqrt_pos.2 _).ne'
    exact lt_of_le_of_ne (by positivity) h.symm
  rw [meeAnomaly, Real.cos_sub, Real.sin_sub, h1, h2]
  constructor <;> field_simp

/-- what one Sundman step does: from eccentric anomaly `E` of the recorded state `x`, the clock moves
by the time of flight for an increment `dE`, unless the battery would run out before that. -/
def SundmanAdvance (P : Problem ℝ) (a e mu ta dE t t' b : ℝ) : Prop :=
  ∃ E, -Real.pi < E ∧ E < Real.pi ∧ IsEccentric e ta E ∧
    (t' = t + timeOfFlight a e mu E dE ∨
      (t' = t + (b - P.capMin) / P.dischargeRate ∧
        b - P.dischargeRate * timeOfFlight a e mu E dE < P.capMin))

section
variable {α : Type} [Add α] [Sub α] [Mul α] [Div α] [Neg α] [NatCast α] [Pow α ℕ]
  [PyTrans α] [PyOrd α] [PyNan α]

/-- the clock advances by the chosen step, or to where the battery is predicted to be empty -/
theorem clock_step {Q Q' : QLaw α} {etaA etaR : EtaArg α} {fuel : ℕ} {P : Problem α}
    {H : Hist α} (h : Q.solve etaA etaR fuel = some (Q', none)) (hP : Q.prob = some P)
    (hH : Q'.hist = some H) {k : ℕ} {t t' b : α} {x : Fin 6 → α}
    (ht : H.times[k]? = some t) (ht' : H.times[k + 1]? = some t') (hb : H.battery[k]? = some b)
    (hx : H.states[k]? = some x) :
    ∃ st, chooseStep Q.cfg P x = .ok st ∧ (t' = t + st ∨
      (t' = t + (b - P.capMin) / P.dischargeRate ∧
        PyOrd.lt (b - P.dischargeRate * st) P.capMin = true)) := by
  obtain ⟨n, tr, D, r, hr, _, v⟩ := solve_view h hP hH
  have hk : k < n := by have := (v.times_lt ht').1; omega
  have hxe : x = (D k).s1.oe := by
    rw [v.states_get hk] at hx; injection hx with hx; exact hx.symm
  refine ⟨(D k).step0, by rw [hxe]; exact (v.trace.step k hk).choose, ?_⟩
  rw [(v.times_lt ht).2, (v.times_lt ht').2, (v.battery_lt hb).2, step_t v.trace hk,
    step_dutyPhase v.trace hk]
  generalize (D k).step0 = st
  change _ + (dutyPhase P (tr k) st).step = _ ∨ _ + (dutyPhase P (tr k) st).step = _ ∧ _
  cases hf : atFloor P (tr k) with
  | true => left; rw [duty_floor hf]
  | false =>
    rw [duty_noFloor hf]
    simp only
    split
    · rename_i h1
      rw [Bool.and_eq_true] at h1
      exact Or.inr ⟨rfl, h1.1⟩
    · exact Or.inl rfl

end

variable [PyNan ℝ]

/-- C31, Keplerian elements. -/
theorem C31_keplerian {Q Q' : QLaw ℝ} {etaA etaR : EtaArg ℝ} {fuel : ℕ} {P : Problem ℝ}
    {H : Hist ℝ} (h : Q.solve etaA etaR fuel = some (Q', none)) (hP : Q.prob = some P)
    (hH : Q'.hist = some H) (hS : Q.cfg.useSundman = true)
    (hE : Q.cfg.elementsType = .keplerian) (hmu : 0 < Q.cfg.mu) (hst : 0 < P.tStep)
    {k : ℕ} {t t' b : ℝ} {x : Fin 6 → ℝ}
    (ht : H.times[k]? = some t) (ht' : H.times[k + 1]? = some t') (hb : H.battery[k]? = some b)
    (hx : H.states[k]? = some x) (ha : 0 < x 0) (he0 : 0 ≤ x 1) (he1 : x 1 < 1)
    (hta : Real.cos (x 5 / 2) ≠ 0) :
    SundmanAdvance P (x 0) (x 1) Q.cfg.mu (x 5) P.tStep t t' b ∧
    ∀ E, 0 < timeOfFlight (x 0) (x 1) Q.cfg.mu E P.tStep := by
  obtain ⟨st, h1, h2⟩ := clock_step h hP hH ht ht' hb hx
  obtain ⟨E, hE1, hE2, hE3, hE4, -⟩ := C52_value (x 5) (x 1) he0 he1 hta
  refine ⟨⟨E, hE2, hE3, hE4, ?_⟩, fun E => timeOfFlight_pos ha hmu he0 he1 E hst⟩
  simp only [chooseStep, hS, hE, hE1, bind, Except.bind, pure, Except.pure, if_true] at h1
  injection h1 with h1
  rw [sundmanStep_pos he0 he1 E hst] at h1
  rw [← h1] at h2
  simpa using h2

/-- C31, MEE with semi-major axis. -/
theorem C31_mee {Q Q' : QLaw ℝ} {etaA etaR : EtaArg ℝ} {fuel : ℕ} {P : Problem ℝ}
    {H : Hist ℝ} (h : Q.solve etaA etaR fuel = some (Q', none)) (hP : Q.prob = some P)
    (hH : Q'.hist = some H) (hS : Q.cfg.useSundman = true)
    (hE : Q.cfg.elementsType = .meeWithA) (hmu : 0 < Q.cfg.mu) (hst : 0 < P.tStep)
    {k : ℕ} {t t' b : ℝ} {x : Fin 6 → ℝ}
    (ht : H.times[k]? = some t) (ht' : H.times[k + 1]? = some t') (hb : H.battery[k]? = some b)
    (hx : H.states[k]? = some x) (ha : 0 < x 0) (he1 : Real.sqrt (x 1 ^ 2 + x 2 ^ 2) < 1)
    (hta : Real.cos (meeAnomaly x / 2) ≠ 0) :
    SundmanAdvance P (x 0) (Real.sqrt (x 1 ^ 2 + x 2 ^ 2)) Q.cfg.mu (meeAnomaly x) P.tStep t t' b ∧
    ∀ E, 0 < timeOfFlight (x 0) (Real.sqrt (x 1 ^ 2 + x 2 ^ 2)) Q.cfg.mu E P.tStep := by
  obtain ⟨st, h1, h2⟩ := clock_step h hP hH ht ht' hb hx
  have he0 := Real.sqrt_nonneg (x 1 ^ 2 + x 2 ^ 2)
  obtain ⟨E, hE1, hE2, hE3, hE4, -⟩ := C52_value (meeAnomaly x) _ he0 he1 hta
  refine ⟨⟨E, hE2, hE3, hE4, ?_⟩, fun E => timeOfFlight_pos ha hmu he0 he1 E hst⟩
  have hm : mee2ea x = .ok E := hE1
  simp only [chooseStep, hS, hE, hm, bind, Except.bind, pure, Except.pure, if_true] at h1
  injection h1 with h1
  rw [← h1] at h2
  rw [sqrt_real, sundmanStep_pos he0 he1 E hst] at h2
  simpa using h2

/-- C31 for backward propagation: with `-2π < t_step ≤ 0` the clock still moves forward: each step is
the time of flight for the increment `t_step + 2π`. Keplerian elements. -/
theorem C31_backward_runs_forward {Q Q' : QLaw ℝ} {etaA etaR : EtaArg ℝ} {fuel : ℕ}
    {P : Problem ℝ} {H : Hist ℝ} (h : Q.solve etaA etaR fuel = some (Q', none))
    (hP : Q.prob = some P) (hH : Q'.hist = some H) (hS : Q.cfg.useSundman = true)
    (hE : Q.cfg.elementsType = .keplerian) (hmu : 0 < Q.cfg.mu) (hst : P.tStep ≤ 0)
    (hst2 : -(2 * Real.pi) < P.tStep) {k : ℕ} {t t' b : ℝ} {x : Fin 6 → ℝ}
    (ht : H.times[k]? = some t) (ht' : H.times[k + 1]? = some t') (hb : H.battery[k]? = some b)
    (hx : H.states[k]? = some x) (ha : 0 < x 0) (he0 : 0 ≤ x 1) (he1 : x 1 < 1)
    (hta : Real.cos (x 5 / 2) ≠ 0) :
    SundmanAdvance P (x 0) (x 1) Q.cfg.mu (x 5) (P.tStep + 2 * Real.pi) t t' b ∧
    ∀ E, 0 < timeOfFlight (x 0) (x 1) Q.cfg.mu E (P.tStep + 2 * Real.pi) := by
  obtain ⟨st, h1, h2⟩ := clock_step h hP hH ht ht' hb hx
  obtain ⟨E, hE1, hE2, hE3, hE4, -⟩ := C52_value (x 5) (x 1) he0 he1 hta
  refine ⟨⟨E, hE2, hE3, hE4, ?_⟩, fun E => timeOfFlight_pos ha hmu he0 he1 E (by linarith)⟩
  simp only [chooseStep, hS, hE, hE1, bind, Except.bind, pure, Except.pure, if_true] at h1
  injection h1 with h1
  rw [sundmanStep_neg he0 he1 E hst] at h1
  rw [← h1] at h2
  simpa using h2

end PyQ
