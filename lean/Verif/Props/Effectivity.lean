import Verif.Props.Thrust

/-! # Effectivities (C23) -/

set_option linter.unusedSectionVars false
set_option maxRecDepth 100000
set_option synthInstance.maxSize 1000

namespace PyQ

variable {K : Type} [Field K] [LinearOrder K] [IsStrictOrderedRing K] [PyTrans (Ext K)]

theorem foldl_pymax_fin (l : List K) : ∀ x : K, ∃ m, (l.map Ext.fin).foldl pymax (.fin x) = .fin m ∧
    (m = x ∨ m ∈ l) ∧ x ≤ m ∧ ∀ y ∈ l, y ≤ m := by
  induction l with
  | nil => intro x; exact ⟨x, rfl, Or.inl rfl, le_rfl, by simp⟩
  | cons a l ih =>
    intro x
    have h1 : pymax (.fin x : Ext K) (.fin a) = .fin (max x a) := by
      unfold pymax
      rw [Ext.lt_fin]
      by_cases h : x < a
      · simp [h, max_eq_right h.le]
      · simp [h, max_eq_left (not_lt.mp h)]
    obtain ⟨m, hm, hmem, hx, hall⟩ := ih (max x a)
    refine ⟨m, ?_, ?_, (le_max_left _ _).trans hx, ?_⟩
    · simp only [List.map_cons, List.foldl_cons]
      rw [h1]; exact hm
    · rcases hmem with h | h
      · rcases max_choice x a with h2 | h2
        · left; rw [h, h2]
        · right; rw [h, h2]; exact List.mem_cons_self
      · right; exact List.mem_cons_of_mem _ h
    · intro y hy
      rcases List.mem_cons.mp hy with h | h
      · rw [h]; exact (le_max_right _ _).trans hx
      · exact hall y h

theorem foldl_pymin_fin (l : List K) : ∀ x : K, ∃ m, (l.map Ext.fin).foldl pymin (.fin x) = .fin m ∧
    (m = x ∨ m ∈ l) ∧ m ≤ x ∧ ∀ y ∈ l, m ≤ y := by
  induction l with
  | nil => intro x; exact ⟨x, rfl, Or.inl rfl, le_rfl, by simp⟩
  | cons a l ih =>
    intro x
    have h1 : pymin (.fin x : Ext K) (.fin a) = .fin (min x a) := by
      unfold pymin
      rw [Ext.lt_fin]
      by_cases h : a < x
      · simp [h, min_eq_right h.le]
      · simp [h, min_eq_left (not_lt.mp h)]
    obtain ⟨m, hm, hmem, hx, hall⟩ := ih (min x a)
    refine ⟨m, ?_, ?_, hx.trans (min_le_left _ _), ?_⟩
    · simp only [List.map_cons, List.foldl_cons]
      rw [h1]; exact hm
    · rcases hmem with h | h
      · rcases min_choice x a with h2 | h2
        · left; rw [h, h2]
        · right; rw [h, h2]; exact List.mem_cons_self
      · right; exact List.mem_cons_of_mem _ h
    · intro y hy
      rcases List.mem_cons.mp hy with h | h
      · rw [h]; exact hx.trans (min_le_right _ _)
      · exact hall y h

/-- `max` and `min` of a non-empty list of finite numbers -/
theorem list_max_min {l : List K} (hl : l ≠ []) : ∃ mx mn, pymaxList (l.map Ext.fin) = .ok (.fin mx) ∧
    pyminList (l.map Ext.fin) = .ok (.fin mn) ∧ mx ∈ l ∧ mn ∈ l ∧ ∀ y ∈ l, mn ≤ y ∧ y ≤ mx := by
  cases l with
  | nil => exact absurd rfl hl
  | cons x l =>
    obtain ⟨m, hm, hmem, hx, hall⟩ := foldl_pymax_fin l x
    obtain ⟨m', hm', hmem', hx', hall'⟩ := foldl_pymin_fin l x
    refine ⟨m, m', by simp [pymaxList, hm], by simp [pyminList, hm'], ?_, ?_, ?_⟩
    · rcases hmem with h | h
      · rw [h]; exact List.mem_cons_self
      · exact List.mem_cons_of_mem _ h
    · rcases hmem' with h | h
      · rw [h]; exact List.mem_cons_self
      · exact List.mem_cons_of_mem _ h
    · intro y hy
      rcases List.mem_cons.mp hy with h | h
      · rw [h]; exact ⟨hx', hx⟩
      · exact ⟨hall' y h, hall y h⟩

/-- the anomalies at which the orbit is sampled: `n` equal steps of `2π/n` after the current one -/
def sampledAnomalies {α : Type} [Add α] [Sub α] [Mul α] [Div α] [NatCast α] [PyTrans α]
    (ν : α) (n : ℕ) : List α :=
  (linspace ν (ν + ((2 : ℕ) : α) * PyTrans.pi) (n + 1)).drop 1

/-- the last sample is one full turn after the current anomaly -/
theorem turn_mem_samples {α : Type} [Add α] [Sub α] [Mul α] [Div α] [NatCast α] [PyTrans α]
    (ν : α) {n : ℕ} (hn : 0 < n) : ν + ((2 : ℕ) : α) * PyTrans.pi ∈ sampledAnomalies ν n := by
  obtain ⟨m, rfl⟩ : ∃ m, n = m + 1 := ⟨n - 1, by omega⟩
  unfold sampledAnomalies linspace
  rw [List.drop_append_of_le_length (by simp)]
  simp

/-- **C23**, the samples: at a finite anomaly the orbit is sampled at the anomalies `ν + 2π j/n`, `j = 1, ..., n` -/
theorem C23_samples {K : Type} [Field K] [LinearOrder K] [IsStrictOrderedRing K] [PyTrans (Ext K)] {p : K}
    (hp : (PyTrans.pi : Ext K) = .fin p) (ν : K) (n : ℕ) :
    sampledAnomalies (.fin ν : Ext K) n =
      (List.range n).map fun j : ℕ => Ext.fin (ν + 2 * p * ((j : K) + 1) / n) := by
  cases n with
  | zero => rfl
  | succ m =>
    have hne : ((m : K) + 1) ≠ 0 := by positivity
    have hb : (Ext.fin ν + ((2 : ℕ) : Ext K) * PyTrans.pi) = .fin (ν + 2 * p) := by
      rw [hp, Ext.natCast_eq, Ext.fin_mul, Ext.fin_add]; norm_num
    unfold sampledAnomalies
    rw [hb]
    simp only [linspace]
    rw [List.drop_append_of_le_length (by simp), ← List.map_drop, List.range_succ_eq_map, List.drop_succ_cons,
      List.drop_zero, List.map_map]
    rw [← List.range_succ_eq_map, List.range_succ, List.map_append]
    congr 1
    · apply List.map_congr_left
      intro j _
      simp only [Function.comp]
      rw [Ext.natCast_eq, Ext.natCast_eq, Ext.fin_sub, Ext.fin_div _ _ (by push_cast; exact hne), Ext.fin_mul,
        Ext.fin_add]
      congr 1
      push_cast
      field_simp
      ring
    · simp only [List.map_cons, List.map_nil]
      congr 2
      push_cast
      field_simp

/-- a rate function along the orbit of `x`, and the recorded rate `q`, as seen by one step:
`rate` gives the (finite) rate at each sampled anomaly and `q` is the rate one full turn later -/
structure RatesAt (Q : QLaw (Ext K)) (P : Problem (Ext K)) (accel : Ext K) (x : Fin 6 → Ext K)
    (rate : Ext K → K) (q : Ext K) : Prop where
  sampled : ∀ oeT, asVec5 P.oeT = .ok oeT → ∀ ν ∈ sampledAnomalies (x 5) Q.cfg.anomalyGridSize,
    Q.cfg.dyn.dqdtFun (lyapArgs Q.cfg P oeT accel ![x 0, x 1, x 2, x 3, x 4, ν]) = .fin (rate ν)
  current : q = .fin (rate (x 5 + ((2 : ℕ) : Ext K) * PyTrans.pi))

/-- what a gated step records, in terms of the largest and smallest sampled rate -/
theorem gated_rates {Q Q' : QLaw (Ext K)} {etaA etaR : EtaArg (Ext K)} {fuel : ℕ}
    {P : Problem (Ext K)} {H : Hist (Ext K)} (h : Q.solve etaA etaR fuel = some (Q', none))
    (hP : Q.prob = some P) (hH : Q'.hist = some H) {k : ℕ} {vA vR eA eR t h' m q : Ext K}
    {x : Fin 6 → Ext K} {rate : Ext K → K} (hgrid : 0 < Q.cfg.anomalyGridSize)
    (hv : H.etas[k]? = some (vA, vR)) (he : H.etasBounds[k]? = some (eA, eR))
    (hpos : PyOrd.lt ((0 : ℕ) : Ext K) eA = true ∨ PyOrd.lt ((0 : ℕ) : Ext K) eR = true)
    (ht : H.times[k]? = some t)
    (hstep : ∀ y, H.times[k + 1]? = some (t + y) → y = h')
    (hx : H.states[k]? = some x) (hm : H.masses[k]? = some m) (hq : H.dqdts[k]? = some q)
    (hr : RatesAt Q P (PyOrd.sign h' * P.tmax / m) x rate q) :
    ∃ mx mn q', q = .fin q' ∧ mn ≤ q' ∧ q' ≤ mx ∧
      (∃ ν ∈ sampledAnomalies (x 5) Q.cfg.anomalyGridSize, rate ν = mx) ∧
      (∃ ν ∈ sampledAnomalies (x 5) Q.cfg.anomalyGridSize, rate ν = mn) ∧
      (∀ ν ∈ sampledAnomalies (x 5) Q.cfg.anomalyGridSize, mn ≤ rate ν ∧ rate ν ≤ mx) ∧
      vA = PyOrd.abs (.fin q' / .fin mx : Ext K) ∧
      vR = PyOrd.abs ((.fin q' - .fin mn) / (.fin mx - .fin mn) : Ext K) := by
  obtain ⟨n, tr, D, r, hsr, _, v⟩ := solve_view h hP hH
  have hkn : k < n := by
    have h1 := (List.getElem?_eq_some_iff.mp hv).1
    rw [v.etas] at h1
    simpa using h1
  have hrec := v.trace.step k hkn
  rw [v.etas_get hkn] at hv
  rw [v.etasBounds_get hkn] at he
  rw [v.times_get hkn.le] at ht
  rw [v.states_get hkn] at hx
  rw [v.masses_get hkn.le] at hm
  rw [v.dqdts_get hkn] at hq
  injection hv with hv; injection hv with hv1 hv2
  injection he with he; injection he with he1 he2
  injection ht with ht; injection hx with hx; injection hm with hm; injection hq with hq
  have hd : (D k).d.step = h' := by
    apply hstep
    rw [v.times_get hkn, step_t v.trace hkn, ht]
  obtain ⟨o, hoeT, ho, _, _, hqd, hkind⟩ := control_ctl hrec.ctl
  have notpos_nan : ∀ {e : Ext K}, e = PyNan.nan → ¬ (PyOrd.lt ((0 : ℕ) : Ext K) e = true) := by
    rintro e rfl h1
    cases h1
  cases hkind with
  | off _ _ _ _ _ _ _ _ hea her =>
    rw [he1] at hea; rw [he2] at her
    rcases hpos with h1 | h1
    · exact absurd h1 (notpos_nan hea)
    · exact absurd h1 (notpos_nan her)
  | nan _ _ _ _ _ _ _ _ _ _ hea her =>
    rw [he1] at hea; rw [he2] at her
    rcases hpos with h1 | h1
    · exact absurd h1 (notpos_nan hea)
    · exact absurd h1 (notpos_nan her)
  | free _ _ _ _ hp =>
    rw [he1, he2, Bool.or_eq_false_iff] at hp
    rcases hpos with h1 | h1
    · rw [hp.2] at h1; cases h1
    · rw [hp.1] at h1; cases h1
  | gated mx mn _ _ _ _ _ hev hva hvr =>
    have hacc : accelOf (envOf Q P etaA etaR) (D k).s1 (D k).d = PyOrd.sign h' * P.tmax / m := by
      unfold accelOf
      rw [clamp_mass hrec.clamp, hm, hd]; rfl
    rw [hacc, hx] at hev
    change evaluateOsculatingQdot Q.cfg P (D k).c.oeT x _ = _ at hev
    unfold evaluateOsculatingQdot at hev
    change (do
      let mx ← pymaxList ((sampledAnomalies (x 5) Q.cfg.anomalyGridSize).map _)
      let mn ← pyminList ((sampledAnomalies (x 5) Q.cfg.anomalyGridSize).map _)
      pure (mx, mn)) = _ at hev
    have hlist : (sampledAnomalies (x 5) Q.cfg.anomalyGridSize).map (fun ν =>
        Q.cfg.dyn.dqdtFun (lyapArgs Q.cfg P (D k).c.oeT (PyOrd.sign h' * P.tmax / m)
          ![x 0, x 1, x 2, x 3, x 4, ν])) =
        ((sampledAnomalies (x 5) Q.cfg.anomalyGridSize).map rate).map Ext.fin := by
      rw [List.map_map]
      apply List.map_congr_left
      intro ν hν
      exact hr.sampled _ hoeT ν hν
    rw [hlist] at hev
    have hne : (sampledAnomalies (x 5) Q.cfg.anomalyGridSize).map rate ≠ [] := by
      have := turn_mem_samples (x 5) hgrid
      intro h0
      rw [List.map_eq_nil_iff] at h0
      rw [h0] at this
      cases this
    obtain ⟨Mx, Mn, e1, e2, m1, m2, hall⟩ := list_max_min hne
    rw [e1, e2] at hev
    injection hev with hev
    injection hev with hmx hmn
    have hqq : o.dqdt = .fin (rate (x 5 + ((2 : ℕ) : Ext K) * PyTrans.pi)) := by
      rw [← hqd, hq]; exact hr.current
    obtain ⟨ν1, g1, g1'⟩ := List.mem_map.mp m1
    obtain ⟨ν2, g2, g2'⟩ := List.mem_map.mp m2
    have hq1 := hall _ (List.mem_map_of_mem (turn_mem_samples (x 5) hgrid))
    refine ⟨Mx, Mn, _, hr.current, hq1.1, hq1.2, ⟨ν1, g1, g1'⟩, ⟨ν2, g2, g2'⟩,
      fun ν hν => hall _ (List.mem_map_of_mem hν), ?_, ?_⟩
    · rw [← hv1, hva, hqq, ← hmx]
    · rw [← hv2, hvr, hqq, ← hmx, ← hmn]

/-- **C23.** Take a recorded step of a run at which a threshold is positive, and suppose the control
law's rate is finite and non-negative at the sampled anomalies and, one turn later, equal to the
recorded rate (for `tmax > 0`, positive mass and a forward step the package's control laws have
these properties, see C38 and C39). Then, with `mx` the best rate over the sampled orbit and `mn`
the worst: if `mx > 0` the recorded absolute effectivity is `q/mx`, lies in `[0,1]`, and is 1
exactly when the current rate is the best; if `mn < mx` the recorded relative effectivity is
`(q-mn)/(mx-mn)`, lies in `[0,1]`, and is 1 exactly when the current rate is the best. -/
theorem C23_effectivities_normalised {Q Q' : QLaw (Ext K)} {etaA etaR : EtaArg (Ext K)} {fuel : ℕ}
    {P : Problem (Ext K)} {H : Hist (Ext K)} (h : Q.solve etaA etaR fuel = some (Q', none))
    (hP : Q.prob = some P) (hH : Q'.hist = some H) {k : ℕ} {vA vR eA eR m q : Ext K} {t h' : K}
    {x : Fin 6 → Ext K} {rate : Ext K → K} (hgrid : 0 < Q.cfg.anomalyGridSize)
    (hv : H.etas[k]? = some (vA, vR)) (he : H.etasBounds[k]? = some (eA, eR))
    (hpos : PyOrd.lt ((0 : ℕ) : Ext K) eA = true ∨ PyOrd.lt ((0 : ℕ) : Ext K) eR = true)
    (ht : H.times[k]? = some (.fin t)) (ht' : H.times[k + 1]? = some (.fin (t + h')))
    (hx : H.states[k]? = some x) (hm : H.masses[k]? = some m) (hq : H.dqdts[k]? = some q)
    (hr : RatesAt Q P (PyOrd.sign (.fin h') * P.tmax / m) x rate q) 
    (hnn : ∀ ν ∈ sampledAnomalies (x 5) Q.cfg.anomalyGridSize, 0 ≤ rate ν) :
    ∃ mx mn q', q = .fin q' ∧
      (∃ ν ∈ sampledAnomalies (x 5) Q.cfg.anomalyGridSize, rate ν = mx) ∧
      (∃ ν ∈ sampledAnomalies (x 5) Q.cfg.anomalyGridSize, rate ν = mn) ∧
      (∀ ν ∈ sampledAnomalies (x 5) Q.cfg.anomalyGridSize, mn ≤ rate ν ∧ rate ν ≤ mx) ∧
      (0 < mx → ∃ y, vA = .fin y ∧ y = q' / mx ∧ 0 ≤ y ∧ y ≤ 1 ∧ (y = 1 ↔ q' = mx)) ∧
      (mn < mx → ∃ y, vR = .fin y ∧ y = (q' - mn) / (mx - mn) ∧ 0 ≤ y ∧ y ≤ 1 ∧
        (y = 1 ↔ q' = mx)) := by
  obtain ⟨mx, mn, q', hq', h1, h2, h3, h4, h5, h6, h7⟩ := gated_rates h hP hH hgrid hv he hpos ht
    (h' := .fin h') (by
      intro y hy
      rw [ht'] at hy
      injection hy with hy
      rw [fin_add_fin hy.symm, add_sub_cancel_left]) hx hm hq hr
  refine ⟨mx, mn, q', hq', h3, h4, h5, ?_, ?_⟩
  · intro hmx
    obtain ⟨ν, hs, hν⟩ := h4
    have hq0 : 0 ≤ q' := by have := hnn ν hs; linarith
    have hy0 : 0 ≤ q' / mx := by positivity
    refine ⟨q' / mx, ?_, rfl, hy0, (div_le_one hmx).mpr h2, ?_⟩
    · rw [h6, Ext.fin_div _ _ hmx.ne', Ext.abs_fin, abs_of_nonneg hy0]
    · rw [div_eq_one_iff_eq hmx.ne']
  · intro hlt
    have hd : 0 < mx - mn := by linarith
    have hy0 : 0 ≤ (q' - mn) / (mx - mn) := div_nonneg (by linarith) hd.le
    refine ⟨(q' - mn) / (mx - mn), ?_, rfl, hy0, (div_le_one hd).mpr (by linarith), ?_⟩
    · rw [h7, Ext.fin_sub, Ext.fin_sub, Ext.fin_div _ _ hd.ne', Ext.abs_fin, abs_of_nonneg hy0]
    · rw [div_eq_one_iff_eq hd.ne']
      constructor <;> intro h8 <;> linarith

/-- the hypotheses are met by every step of this run, whose effectivities are 1/2, 1/2, 1, 1 and
0, 0, 1, 1 -/
example : Toy.decisions { Toy.cfg with dyn := Toy.wavyDyn } { Toy.prob with mdot := .fin 0, tfMax := .fin 2 }
    (.flt (.fin (3 / 4))) Toy.z 10 =
    some ([0, 0, 1, 1],
      [(.fin (1 / 2), .fin 0), (.fin (1 / 2), .fin 0), (.fin 1, .fin 1), (.fin 1, .fin 1)],
      [(.fin (3 / 4), .fin 0), (.fin (3 / 4), .fin 0), (.fin (3 / 4), .fin 0),
        (.fin (3 / 4), .fin 0)]) := by decide +kernel

/-- **C23 is violated by backward runs.** If instead the rates are non-positive (the control laws for
`tmax > 0` and a backward step, where the acceleration is negative), the recorded absolute
effectivity is at least 1 whenever defined, so no threshold below 1 ever causes a coast, and the
relative one is inverted: it is 1 exactly at the rate of smallest magnitude. -/
theorem C23_backward_inverted {Q Q' : QLaw (Ext K)} {etaA etaR : EtaArg (Ext K)} {fuel : ℕ}
    {P : Problem (Ext K)} {H : Hist (Ext K)} (h : Q.solve etaA etaR fuel = some (Q', none))
    (hP : Q.prob = some P) (hH : Q'.hist = some H) {k : ℕ} {vA vR eA eR m q : Ext K} {t h' : K}
    {x : Fin 6 → Ext K} {rate : Ext K → K} (hgrid : 0 < Q.cfg.anomalyGridSize)
    (hv : H.etas[k]? = some (vA, vR)) (he : H.etasBounds[k]? = some (eA, eR))
    (hpos : PyOrd.lt ((0 : ℕ) : Ext K) eA = true ∨ PyOrd.lt ((0 : ℕ) : Ext K) eR = true)
    (ht : H.times[k]? = some (.fin t)) (ht' : H.times[k + 1]? = some (.fin (t + h')))
    (hx : H.states[k]? = some x) (hm : H.masses[k]? = some m) (hq : H.dqdts[k]? = some q)
    (hr : RatesAt Q P (PyOrd.sign (.fin h') * P.tmax / m) x rate q) 
    (hnn : ∀ ν ∈ sampledAnomalies (x 5) Q.cfg.anomalyGridSize, rate ν ≤ 0) :
    ∃ mx mn q', q = .fin q' ∧
      (∀ ν ∈ sampledAnomalies (x 5) Q.cfg.anomalyGridSize, |mx| ≤ |rate ν| ∧ |rate ν| ≤ |mn|) ∧
      (mx ≠ 0 → ∃ y, vA = .fin y ∧ y = |q'| / |mx| ∧ 1 ≤ y) ∧
      (mn ≠ mx → ∃ y, vR = .fin y ∧ (y = 1 ↔ |q'| = |mx|) ∧ (y = 0 ↔ |q'| = |mn|)) := by
  obtain ⟨mx, mn, q', hq', h1, h2, h3, h4, h5, h6, h7⟩ := gated_rates h hP hH hgrid hv he hpos ht
    (h' := .fin h') (by
      intro y hy
      rw [ht'] at hy
      injection hy with hy
      rw [fin_add_fin hy.symm, add_sub_cancel_left]) hx hm hq hr
  have hmx0 : mx ≤ 0 := by obtain ⟨ν, hs, hν⟩ := h3; rw [← hν]; exact hnn ν hs
  have hq0 : q' ≤ 0 := by linarith
  have hmn0 : mn ≤ 0 := by linarith
  refine ⟨mx, mn, q', hq', ?_, ?_, ?_⟩
  · intro ν hν
    have := h5 ν hν
    have h8 := hnn ν hν
    rw [abs_of_nonpos hmx0, abs_of_nonpos h8, abs_of_nonpos hmn0]
    constructor <;> linarith
  · intro hne
    refine ⟨|q'| / |mx|, ?_, rfl, ?_⟩
    · rw [h6, Ext.fin_div _ _ hne, Ext.abs_fin, abs_div]
    · rw [le_div_iff₀ (abs_pos.mpr hne), one_mul, abs_of_nonpos hmx0, abs_of_nonpos hq0]
      linarith
  · intro hne
    have hd : 0 < mx - mn := lt_of_le_of_ne (by linarith) (fun h8 => hne (by linarith))
    have hy0 : 0 ≤ (q' - mn) / (mx - mn) := div_nonneg (by linarith) hd.le
    refine ⟨(q' - mn) / (mx - mn), ?_, ?_, ?_⟩
    · rw [h7, Ext.fin_sub, Ext.fin_sub, Ext.fin_div _ _ hd.ne', Ext.abs_fin, abs_of_nonneg hy0]
    · rw [div_eq_one_iff_eq hd.ne', abs_of_nonpos hmx0, abs_of_nonpos hq0]
      constructor <;> intro h8 <;> linarith
    · rw [div_eq_zero_iff, abs_of_nonpos hmn0, abs_of_nonpos hq0]
      constructor
      · rintro (h8 | h8) <;> linarith
      · intro h8; left; linarith

/-- a control law whose rate is proportional to the acceleration, as the package's are -/
def Toy.linearDyn : Dyn Toy.N where
  eom := Toy.dyn.eom
  lyapFun := fun A =>
    { uRaw := ![.fin 0, .fin (-1), .fin 0], psi := fun _ _ => .fin 1, q := .fin 1,
      dqdoe := fun _ => if PyOrd.lt (A.oe 5) (.fin 1) then .fin (-1 / 5) else .fin (-2 / 5) }
  dqdtFun := fun A => (if PyOrd.lt (A.oe 5) (.fin 4) then .fin 1 else .fin 2) * A.f
  checkConv := Toy.dyn.checkConv

/-- **C23 is violated, concretely.** The same object and thresholds: forward, the inefficient
first step coasts (absolute effectivity 1/2); backward, the absolute effectivity is 1 at the most
inefficient point and 2 elsewhere. -/
theorem C23_backward_violation :
    Toy.decisions { Toy.cfg with dyn := Toy.linearDyn } { Toy.prob with mdot := .fin 0, tfMax := .fin 1 }
      (.flt (.fin (3 / 4))) Toy.z 10 =
    some ([0, 0], [(.fin (1 / 2), .fin 0), (.fin (1 / 2), .fin 0)],
      [(.fin (3 / 4), .fin 0), (.fin (3 / 4), .fin 0)]) ∧
    Toy.decisions { Toy.cfg with dyn := Toy.linearDyn } { Toy.prob with mdot := .fin 0, tfMax := .fin 1, tStep := .fin (-1 / 2) }
      (.flt (.fin (3 / 4))) Toy.z 10 =
    some ([1, 1], [(.fin 1, .fin 1), (.fin 1, .fin 1)],
      [(.fin (3 / 4), .fin 0), (.fin (3 / 4), .fin 0)]) := by
  constructor <;> decide +kernel

end PyQ
