import Verif.Props.OmRate
import Verif.Props.Recorded
import Verif.Props.Report

/-! # C97: what `Q` is, in terms of the orbit and of what thrust can do, over the reals -/

set_option linter.unusedSectionVars false

namespace PyQ

/-- `d` is the shortest angle between `x` and `y` -/
def IsAngleBetween (x y d : ℝ) : Prop :=
  IsLeast (Set.range fun n : ℤ => |x - y + n * (2 * Real.pi)|) d

theorem angleBetween (x y : ℝ) : IsAngleBetween x y (Real.arccos (Real.cos (x - y))) := by
  obtain ⟨n, hn⟩ := (arccos_cos_le_iff (x - y) _).1 le_rfl
  refine ⟨⟨n, le_antisymm hn ((arccos_cos_le_iff (x - y) _).2 ⟨n, le_rfl⟩)⟩, ?_⟩
  rintro _ ⟨j, rfl⟩
  exact (arccos_cos_le_iff (x - y) _).2 ⟨j, le_rfl⟩

/-- The published quotient: `rp` is the periapsis radius, `d j` the distance of element `j` from its
target, `M j` the rate it is normalised with. -/
noncomputable def quotientOf (A : LyapArgs ℝ) (rp : ℝ) (d M : Fin 5 → ℝ) : ℝ :=
  (1 + A.wp * Real.exp (A.k * (1 - rp / A.rpmin))) *
    ∑ j, A.woe j * (if j = 0 then (1 + |d 0 / (A.m * A.oeT 0)| ^ A.n) ^ (1 / A.r) else 1) * (d j / M j) ^ 2

theorem isMaxRate_unique {psi : LyapArgs ℝ → Fin 3 → Fin 5 → ℝ} {A : LyapArgs ℝ} {j : Fin 5} {M N : ℝ}
    (h1 : IsMaxRate psi A j M) (h2 : IsMaxRate psi A j N) : M = N := by
  obtain ⟨a1, t, d, n1, rfl⟩ := h1
  obtain ⟨b1, u, c, m1, rfl⟩ := h2
  exact le_antisymm ((le_abs_self _).trans (b1 t d n1)) ((le_abs_self _).trans (a1 u c m1))

/-- The scaling of the semi-major axis does not depend on the side of the target. -/
theorem kepSoe_abs {A : LyapArgs ℝ} (hm : 0 < A.m) (hT : 0 < A.oeT 0) (hs : SmaScaleReal A) :
    kepSoe A = (1 + |(A.oe 0 - A.oeT 0) / (A.m * A.oeT 0)| ^ A.n) ^ (1 / A.r) := by
  simp only [kepSoe, rpow_real, Nat.cast_one]
  congr 2
  rcases hs with h | ⟨j, h⟩
  · rw [abs_of_nonneg (div_nonneg (sub_nonneg.2 h) (mul_pos hm hT).le)]
  · have e : A.n = ((2 * j : ℕ) : ℝ) := by rw [h]; push_cast; ring
    rw [e, Real.rpow_natCast, Real.rpow_natCast, (even_two_mul j).pow_abs]

theorem meeSoe_abs {A : LyapArgs ℝ} (hm : 0 < A.m) (hT : 0 < A.oeT 0) :
    meeSoe A = (1 + |(A.oe 0 - A.oeT 0) / (A.m * A.oeT 0)| ^ A.n) ^ (1 / A.r) := by
  simp only [meeSoe, rpow_real, Nat.cast_one, sqrt_real, Real.sqrt_sq_eq_abs]
  rw [abs_div, abs_of_pos (mul_pos hm hT)]

/-- What enters the quotient for Keplerian elements: `rp` is the smallest distance of the orbit, `d` the
differences from the target with the angles measured along the shorter way, `M 0, …, M 3` the greatest
rates that thrust of the available acceleration gives at any anomaly in any direction, and `M 4` the mean of
the greatest rates of the argument of periapsis by thrust in the orbit plane and normal to it. -/
structure KepQuotientData (A : LyapArgs ℝ) (rp : ℝ) (d M : Fin 5 → ℝ) : Prop where
  least : IsLeast (Set.range (orbitRadius (A.oe 0) (A.oe 1))) rp
  d0 : d 0 = A.oe 0 - A.oeT 0
  d1 : d 1 = A.oe 1 - A.oeT 1
  d2 : d 2 = A.oe 2 - A.oeT 2
  d3 : IsAngleBetween (A.oe 3) (A.oeT 3) (d 3)
  d4 : IsAngleBetween (A.oe 4) (A.oeT 4) (d 4)
  rate : ∀ j : Fin 5, j.val < 4 → IsMaxRate kepPsi A j (M j)
  rate4 : ∃ I O, IsMaxRateOn InPlane kepPsi A 4 I ∧ IsMaxRateOn AlongNormal kepPsi A 4 O ∧
    M 4 = (I + A.b * O) / (1 + A.b)

/-- What enters the quotient for modified equinoctial elements. The rate of the semi-major axis is the one
of thrust along the velocity at periapsis, whose speed follows from the vis-viva equation; the others are
the published estimates, with `p` the semi-latus rectum. -/
structure MeeQuotientData (A : LyapArgs ℝ) (rp : ℝ) (d M : Fin 5 → ℝ) : Prop where
  least : IsLeast (Set.range (orbitRadiusMee (A.oe 0) (A.oe 1) (A.oe 2))) rp
  diff : ∀ j : Fin 5, d j = A.oe j.castSucc - A.oeT j
  rate0 : M 0 = 2 * A.oe 0 ^ 2 / A.mu * Real.sqrt (A.mu * (2 / rp - 1 / A.oe 0)) * A.f
  rate1 : ∃ p, p = A.oe 0 * (1 - A.oe 1 ^ 2 - A.oe 2 ^ 2) ∧ M 1 = 2 * A.f * Real.sqrt (p / A.mu) ∧
    M 2 = 2 * A.f * Real.sqrt (p / A.mu) ∧
    M 3 = A.f / 2 * Real.sqrt (p / A.mu) * (1 + A.oe 3 ^ 2 + A.oe 4 ^ 2) /
      (Real.sqrt (1 - A.oe 2 ^ 2) + A.oe 1) ∧
    M 4 = A.f / 2 * Real.sqrt (p / A.mu) * (1 + A.oe 3 ^ 2 + A.oe 4 ^ 2) /
      (Real.sqrt (1 - A.oe 1 ^ 2) + A.oe 2)

/-- the data of an admissible Keplerian state exist -/
theorem C97_kep_exists {A : LyapArgs ℝ} (hA : KepAdmissible A) : ∃ rp d M, KepQuotientData A rp d M := by
  have H := hA.toKepEllipse
  refine ⟨_, kepDoe A, kepOedot A, periapsis_kep H.a H.e0 H.e1, rfl, rfl, rfl, angleBetween _ _,
    angleBetween _ _, ?_, C93_om_rate H hA.e_pos⟩
  intro j hj
  match j, hj with
  | 0, _ => exact C42_a H
  | 1, _ => exact C42_e H
  | 2, _ => exact C42_i H
  | 3, _ => exact C42_raan H

/-- **C97, Keplerian elements.** `Q` is the penalty for a low periapsis times the weighted sum of the
squared times each element needs to reach its target at its greatest rate. -/
theorem C97_keplerian {A : LyapArgs ℝ} (hA : KepAdmissible A) (hS : SmaScaleReal A) {rp : ℝ} {d M : Fin 5 → ℝ}
    (hD : KepQuotientData A rp d M) : kepQ A = quotientOf A rp d M := by
  have H := hA.toKepEllipse
  have e0 : M 0 = kepOedot A 0 := isMaxRate_unique (hD.rate 0 (by decide)) (C42_a H)
  have e1 : M 1 = kepOedot A 1 := isMaxRate_unique (hD.rate 1 (by decide)) (C42_e H)
  have e2 : M 2 = kepOedot A 2 := isMaxRate_unique (hD.rate 2 (by decide)) (C42_i H)
  have e3 : M 3 = kepOedot A 3 := isMaxRate_unique (hD.rate 3 (by decide)) (C42_raan H)
  obtain ⟨I, O, hI, hO, hM4⟩ := hD.rate4
  obtain ⟨I', O', hI', hO', h4⟩ := C93_om_rate H hA.e_pos
  have e4 : M 4 = kepOedot A 4 := by
    rw [hM4, h4, C93_max_unique hI hI', C93_max_unique hO hO']
  have d3 := hD.d3.unique (angleBetween _ _)
  have d4 := hD.d4.unique (angleBetween _ _)
  have er := hD.least.unique (periapsis_kep H.a H.e0 H.e1)
  have es := kepSoe_abs hA.m hA.aT hS
  rw [quotientOf, Fin.sum_univ_five, e0, e1, e2, e3, e4, er, d3, d4, hD.d0, hD.d1, hD.d2]
  change _ = (1 + A.wp * Real.exp (A.k * (1 - A.oe 0 * (1 - A.oe 1) / A.rpmin))) *
    (A.woe 0 * (1 + |(A.oe 0 - A.oeT 0) / (A.m * A.oeT 0)| ^ A.n) ^ (1 / A.r) *
      ((A.oe 0 - A.oeT 0) / kepOedot A 0) ^ 2 +
      A.woe 1 * 1 * ((A.oe 1 - A.oeT 1) / kepOedot A 1) ^ 2 +
      A.woe 2 * 1 * ((A.oe 2 - A.oeT 2) / kepOedot A 2) ^ 2 + _ + _)
  rw [← es]
  simp [kepQ, kepDoe, kepPenalty]

theorem mee_rate0 {A : LyapArgs ℝ} (H : MeeEllipse A) {rp : ℝ}
    (hr : rp = A.oe 0 * (1 - Real.sqrt (A.oe 1 ^ 2 + A.oe 2 ^ 2))) :
    2 * A.oe 0 ^ 2 / A.mu * Real.sqrt (A.mu * (2 / rp - 1 / A.oe 0)) * A.f = meeOedot A 0 := by
  have he1 : Real.sqrt (A.oe 1 ^ 2 + A.oe 2 ^ 2) < 1 := by
    rw [Real.sqrt_lt' one_pos]; simpa using H.ecc
  have e0 := Real.sqrt_nonneg (A.oe 1 ^ 2 + A.oe 2 ^ 2)
  have ha := H.a
  have hmu := H.mu
  simp only [meeOedot, Matrix.cons_val, Nat.cast_ofNat, Nat.cast_one, sqrt_real]
  set e := Real.sqrt (A.oe 1 ^ 2 + A.oe 2 ^ 2)
  have h1 : 0 < 1 - e := by linarith
  have k : A.mu * (2 / rp - 1 / A.oe 0) =
      (A.mu / A.oe 0) ^ 2 * (A.oe 0 / A.mu * ((1 + e) / (1 - e))) := by
    rw [hr]; field_simp; ring
  rw [k, Real.sqrt_mul (by positivity), Real.sqrt_sq (by positivity), Real.sqrt_mul (by positivity)]
  field_simp

theorem periapsis_mee' {A : LyapArgs ℝ} (H : MeeEllipse A) :
    IsLeast (Set.range (orbitRadiusMee (A.oe 0) (A.oe 1) (A.oe 2)))
      (A.oe 0 * (1 - Real.sqrt (A.oe 1 ^ 2 + A.oe 2 ^ 2))) := by
  rw [range_radius]
  exact periapsis_kep H.a (Real.sqrt_nonneg _) (by rw [Real.sqrt_lt' one_pos]; simpa using H.ecc)

/-- **C97, modified equinoctial elements.** -/
theorem C97_mee {A : LyapArgs ℝ} (hA : MeeAdmissible A) {rp : ℝ} {d M : Fin 5 → ℝ}
    (hD : MeeQuotientData A rp d M) : meeQ A = quotientOf A rp d M := by
  have H := hA.toMeeEllipse
  have er := hD.least.unique (periapsis_mee' H)
  have e0 := hD.rate0.trans (mee_rate0 H er)
  obtain ⟨p, rfl, e1, e2, e3, e4⟩ := hD.rate1
  have e1 : M 1 = meeOedot A 1 := by rw [e1]; simp [meeOedot]
  have e2 : M 2 = meeOedot A 2 := by rw [e2]; simp [meeOedot]
  have e3 : M 3 = meeOedot A 3 := by
    rw [e3]; simp only [meeOedot, Matrix.cons_val, Nat.cast_one, sqrt_real, rat_real]; push_cast; ring
  have e4 : M 4 = meeOedot A 4 := by
    rw [e4]; simp only [meeOedot, Matrix.cons_val, Nat.cast_one, sqrt_real, rat_real]; push_cast; ring
  have es := meeSoe_abs hA.m hA.aT
  rw [quotientOf, Fin.sum_univ_five, e0, e1, e2, e3, e4, er, hD.diff 0, hD.diff 1, hD.diff 2, hD.diff 3, hD.diff 4]
  change _ = (1 + A.wp * Real.exp (A.k * (1 - _ / A.rpmin))) *
    (A.woe 0 * (1 + |(A.oe 0 - A.oeT 0) / (A.m * A.oeT 0)| ^ A.n) ^ (1 / A.r) *
      ((A.oe 0 - A.oeT 0) / meeOedot A 0) ^ 2 +
      A.woe 1 * 1 * ((A.oe 1 - A.oeT 1) / meeOedot A 1) ^ 2 +
      A.woe 2 * 1 * ((A.oe 2 - A.oeT 2) / meeOedot A 2) ^ 2 +
      A.woe 3 * 1 * ((A.oe 3 - A.oeT 3) / meeOedot A 3) ^ 2 +
      A.woe 4 * 1 * ((A.oe 4 - A.oeT 4) / meeOedot A 4) ^ 2)
  rw [← es]
  simp [meeQ, meeDoe, meePenalty]

/-- the data of an elliptic equinoctial state exist -/
theorem C97_mee_exists {A : LyapArgs ℝ} (hA : MeeAdmissible A) : ∃ rp d M, MeeQuotientData A rp d M :=
  ⟨_, fun j => A.oe j.castSucc - A.oeT j, ![_, _, _, _, _], periapsis_mee' hA.toMeeEllipse, fun _ => rfl,
    rfl, _, rfl, rfl, rfl, rfl, rfl⟩

/-- **C97** The penalty multiplies the quotient without penalty; it is `1 + wp` when the smallest distance
of the orbit is `rpmin`. -/
theorem C97_penalty {A : LyapArgs ℝ} (hA : KepAdmissible A) {rp : ℝ}
    (hrp : IsLeast (Set.range (orbitRadius (A.oe 0) (A.oe 1))) rp) :
    kepQ A = (1 + A.wp * Real.exp (A.k * (1 - rp / A.rpmin))) * kepQ { A with wp := 0 } := by
  have H := hA.toKepEllipse
  rw [hrp.unique (periapsis_kep H.a H.e0 H.e1)]
  simp [kepQ, kepDoe, kepPenalty, kepSoe, kepOedot]

/-- **C97, runs with Keplerian elements.** The recorded `q[k]` is the quotient at the recorded state, with
the acceleration available at the recorded mass. -/
theorem C97_recorded_keplerian [PyNan ℝ] {Q Q' : QLaw ℝ} {etaA etaR : EtaArg ℝ} {fuel : ℕ} {P : Problem ℝ}
    {H : Hist ℝ} (h : Q.solve etaA etaR fuel = some (Q', none)) (hP : Q.prob = some P)
    (hH : Q'.hist = some H) (hd : Q.cfg.dyn = dynOf .keplerian) {k : ℕ} {t t' m q : ℝ} {x : Fin 6 → ℝ}
    (ht : H.times[k]? = some t) (ht' : H.times[k + 1]? = some t') (hx : H.states[k]? = some x)
    (hm : H.masses[k]? = some m) (hq : H.qs[k]? = some q) {oeT : Fin 5 → ℝ} (hT : P.oeT = List.ofFn oeT)
    (hA : KepAdmissible (recArgs Q.cfg P oeT x m (t' - t))) (hS : SmaScaleReal (recArgs Q.cfg P oeT x m (t' - t))) {rp : ℝ} {d M : Fin 5 → ℝ}
    (hD : KepQuotientData (recArgs Q.cfg P oeT x m (t' - t)) rp d M) :
    q = quotientOf (recArgs Q.cfg P oeT x m (t' - t)) rp d M := by
  obtain ⟨n, tr, D, r, hr, _, v⟩ := solve_view h hP hH
  have hkn : k < n := by
    have := (List.getElem?_eq_some_iff.mp hq).1
    rw [v.qs] at this
    simpa using this
  obtain ⟨oeT', h1, h2, -⟩ :=
    C80_recorded h hP hH hd (v.controls_get hkn) ht ht' hx hm hq (v.dqdts_get hkn)
  obtain rfl : oeT' = oeT := List.ofFn_injective (h1.symm.trans hT)
  rw [h2]
  exact C97_keplerian hA hS hD

/-- **C97, runs with modified equinoctial elements.** -/
theorem C97_recorded_mee [PyNan ℝ] {Q Q' : QLaw ℝ} {etaA etaR : EtaArg ℝ} {fuel : ℕ} {P : Problem ℝ}
    {H : Hist ℝ} (h : Q.solve etaA etaR fuel = some (Q', none)) (hP : Q.prob = some P)
    (hH : Q'.hist = some H) (hd : Q.cfg.dyn = dynOf .meeWithA) {k : ℕ} {t t' m q : ℝ} {x : Fin 6 → ℝ}
    (ht : H.times[k]? = some t) (ht' : H.times[k + 1]? = some t') (hx : H.states[k]? = some x)
    (hm : H.masses[k]? = some m) (hq : H.qs[k]? = some q) {oeT : Fin 5 → ℝ} (hT : P.oeT = List.ofFn oeT)
    (hA : MeeAdmissible (recArgs Q.cfg P oeT x m (t' - t))) {rp : ℝ} {d M : Fin 5 → ℝ}
    (hD : MeeQuotientData (recArgs Q.cfg P oeT x m (t' - t)) rp d M) :
    q = quotientOf (recArgs Q.cfg P oeT x m (t' - t)) rp d M := by
  obtain ⟨n, tr, D, r, hr, _, v⟩ := solve_view h hP hH
  have hkn : k < n := by
    have := (List.getElem?_eq_some_iff.mp hq).1
    rw [v.qs] at this
    simpa using this
  obtain ⟨oeT', h1, h2, -⟩ :=
    C80_recorded h hP hH hd (v.controls_get hkn) ht ht' hx hm hq (v.dqdts_get hkn)
  obtain rfl : oeT' = oeT := List.ofFn_injective (h1.symm.trans hT)
  rw [h2]
  exact C97_mee hA hD

/-- the acceleration in the quotient of a recorded forward step is thrust over recorded mass -/
theorem C97_accel (c : Config ℝ) (P : Problem ℝ) (oeT : Fin 5 → ℝ) (x : Fin 6 → ℝ) (m : ℝ) {st : ℝ}
    (h : 0 < st) : (recArgs c P oeT x m st).f = P.tmax / m := by
  simp only [recArgs, sign_real, if_pos h]
  simp

/-- C97: the data exist for an inclined ellipse with five weighted elements and a penalty -/
example : KepAdmissible sampleKep ∧ SmaScaleReal sampleKep ∧ (∀ j, sampleKep.woe j ≠ 0) ∧ sampleKep.wp ≠ 0 ∧
    ∃ rp d M, KepQuotientData sampleKep rp d M := by
  have h : KepAdmissible sampleKep :=
    { toKepEllipse := sampleKep_ellipse
      e_pos := by simp [sampleKep]
      aT := by simp [sampleKep]
      m := by simp [sampleKep]
      n := by simp [sampleKep]
      r := by simp [sampleKep]
      b := by simp [sampleKep]
      rpmin := by simp [sampleKep]
      wp := by simp [sampleKep]
      woe := by intro j; fin_cases j <;> simp [sampleKep]
      scale := Or.inl (Or.inr ⟨2, by simp [sampleKep]; norm_num⟩) }
  exact ⟨h, Or.inr ⟨2, by simp [sampleKep]; norm_num⟩, by intro j; fin_cases j <;> simp [sampleKep], by simp [sampleKep], C97_kep_exists h⟩

/-- C97: the first step of the run `Burn.run` meets the hypotheses on the state -/
example : KepAdmissible (recArgs (Burn.cfg false) Burn.prob ![2, 0, 0, 0, 0] Burn.prob.oe0 1 (1 - 0)) where
  mu := by simp [recArgs, Burn.cfg]
  f := by simp [recArgs, Burn.prob, sign_real]
  a := by simp [recArgs, Burn.prob]
  e0 := by simp [recArgs, Burn.prob]
  e1 := by simp only [recArgs, Burn.prob]; norm_num
  i0 := by simp [recArgs, Burn.prob]
  i1 := by have := Real.pi_gt_three; simp [recArgs, Burn.prob]; linarith
  e_pos := by simp [recArgs, Burn.prob]
  aT := by simp [recArgs]
  m := by simp [recArgs, Burn.cfg]
  n := by simp [recArgs, Burn.cfg]
  r := by simp [recArgs, Burn.cfg]
  b := by simp [recArgs, Burn.cfg]
  rpmin := by simp [recArgs, Burn.cfg]
  wp := by simp [recArgs, Burn.cfg]
  woe := by intro j; fin_cases j <;> simp [recArgs, Burn.prob]
  scale := Or.inl (Or.inr ⟨2, by simp [recArgs, Burn.cfg]; norm_num⟩)

/-- C97: the first step of the run `MeeBurn.run` meets the hypotheses on the state -/
example : MeeAdmissible (recArgs MeeBurn.cfg MeeBurn.prob ![2, 0, 0, 0, 0] MeeBurn.prob.oe0 1 (1 - 0)) where
  mu := by simp [recArgs, MeeBurn.cfg, Burn.cfg]
  f := by simp [recArgs, MeeBurn.prob, Burn.prob, sign_real]
  a := by simp [recArgs, MeeBurn.prob]
  ecc := by simp only [recArgs, MeeBurn.prob, Matrix.cons_val]; norm_num
  aT := by simp [recArgs]
  m := by simp [recArgs, MeeBurn.cfg, Burn.cfg]
  n := by simp [recArgs, MeeBurn.cfg, Burn.cfg]
  r := by simp [recArgs, MeeBurn.cfg, Burn.cfg]
  rpmin := by simp [recArgs, MeeBurn.cfg, Burn.cfg]
  wp := by simp [recArgs, MeeBurn.cfg, Burn.cfg]
  woe := by intro j; fin_cases j <;> simp [recArgs, MeeBurn.prob, Burn.prob]

end PyQ
