import Verif.Props.Battery

/-! # Duty cycle (C19, C20) -/

set_option linter.unusedSectionVars false
set_option maxRecDepth 100000

namespace PyQ

section lawfree
variable {α : Type} [Add α] [Sub α] [Mul α] [Div α] [Neg α] [NatCast α] [Pow α ℕ]
  [PyTrans α] [PyOrd α] [PyNan α]

/-- thrust being allowed, the battery is not at its floor and the duty cycle is on -/
theorem duty_on_cases {P : Problem α} {s : LoopSt α} {st : α} (h : (dutyPhase P s st).duty = true) :
    atFloor P s = false ∧
    ((switchOn P s = true ∧ (dutyPhase P s st).tOn = s.t) ∨
     (switchOn P s = false ∧ switchOff P s = false ∧ s.duty = true ∧
      (dutyPhase P s st).tOn = s.tOn)) := by
  cases hf : atFloor P s with
  | true => rw [duty_floor hf] at h; cases h
  | false =>
    refine ⟨rfl, ?_⟩
    rw [duty_noFloor hf] at h ⊢
    simp only at h ⊢
    cases h1 : (P.requireFullRecharge && s.charging && PyOrd.lt s.battery P.capMax) with
    | true => simp [h1] at h
    | false =>
      simp only [h1, Bool.false_eq_true, if_false] at h
      cases h2 : switchOn P s with
      | true => left; simp
      | false =>
        right
        simp only [h2, Bool.false_eq_true, if_false] at h ⊢
        cases h3 : switchOff P s with
        | true => simp [h3] at h
        | false =>
          simp only [h3, Bool.false_eq_true, if_false] at h
          exact ⟨trivial, rfl, h, by simp⟩

/-- away from the floor, charging is never entered -/
theorem not_charging {E : Env α} {n : ℕ} {tr : ℕ → LoopSt α} {D : ℕ → StepData α}
    (hT : IsTrace E n tr D) (hfl : ∀ k < n, atFloor E.prob (tr k) = false) :
    ∀ k ≤ n, (tr k).charging = false := by
  intro k
  induction k with
  | zero => intro _; rw [hT.init]; rfl
  | succ k ih =>
    intro hk
    have hc := ih (by omega)
    have h1 : (D k).d.charging = false := by
      rw [step_dutyPhase hT hk, duty_noFloor (hfl k hk)]; exact hc
    rw [step_charging hT hk]
    unfold batteryPhase
    rw [h1]
    cases (D k).d.duty <;> simp

theorem throttle_zero_of_off {E : Env α} {n : ℕ} {tr : ℕ → LoopSt α} {D : ℕ → StepData α}
    (hT : IsTrace E n tr D) {k : ℕ} (hk : k < n) (h : (D k).d.duty = false) :
    (D k).c.throttle = 0 := by
  rcases control_throttle (hT.step k hk).ctl with h0 | h1
  · exact h0
  · have := duty_of_throttle hT hk h1
    rw [h] at this; cases this

end lawfree

variable {K : Type} [Field K] [LinearOrder K] [IsStrictOrderedRing K] [PyTrans (Ext K)]

/-! ## C19 -/

section cycle
variable {E : Env (Ext K)} {n : ℕ} {tr : ℕ → LoopSt (Ext K)} {D : ℕ → StepData (Ext K)}
  (hT : IsTrace E n tr D) {τ : ℕ → K} (ht : ∀ k ≤ n, (tr k).t = .fin (τ k))
  (hmono : ∀ k < n, τ k ≤ τ (k + 1)) {on off : K} (hOn : E.prob.dutyOn = .fin on)
  (hOff : E.prob.dutyOff = .fin off) (hoff : 0 ≤ off)
include hT ht hOff hoff

theorem switchOn_of_on {k : ℕ} (hk : k ≤ n) (hd : (tr k).duty = true) :
    switchOn E.prob (tr k) = false := by
  unfold switchOn
  rw [hd]
  cases h : switchOff E.prob (tr k) with
  | false => simp
  | true =>
    simp only [if_true, Bool.not_false, Bool.and_true]
    rw [ht k hk, hOff, Ext.fin_sub, Ext.lt_fin, decide_eq_false_iff_not]
    simp [hoff]

include hmono

theorem mono_le : ∀ i j, i ≤ j → j ≤ n → τ i ≤ τ j := by
  intro i j hij
  induction j, hij using Nat.le_induction with
  | base => intro _; exact le_rfl
  | succ j hij ih => intro hj; exact (ih (by omega)).trans (hmono j hj)

theorem tOn_le : ∀ k ≤ n, ∃ x, (tr k).tOn = .fin x ∧ x ≤ τ k := by
  intro k
  induction k with
  | zero =>
    intro _
    have h0 := ht 0 (Nat.zero_le _)
    rw [hT.init] at h0 ⊢
    exact ⟨τ 0, h0, le_rfl⟩
  | succ k ih =>
    intro hk
    obtain ⟨x, hx, hx2⟩ := ih (by omega)
    rw [step_tOn hT hk, step_dutyPhase hT hk]
    have key : (dutyPhase E.prob (tr k) (D k).step0).tOn =
        if switchOn E.prob (tr k) then (tr k).t else (tr k).tOn := by
      cases hf : atFloor E.prob (tr k) with
      | true => rw [duty_floor hf]
      | false => rw [duty_noFloor hf]
    rw [key]
    have := hmono k hk
    split
    · exact ⟨τ k, ht k (by omega), this⟩
    · exact ⟨x, hx, hx2.trans this⟩

include hOn

theorem on_run (hon : 0 ≤ on) {j k : ℕ} (hjk : j ≤ k) (hk : k < n)
    (hall : ∀ i, j ≤ i → i ≤ k → (D i).d.duty = true) :
    ∃ x, (D k).d.tOn = .fin x ∧ x ≤ τ j ∧ τ k - x ≤ on := by
  induction k, hjk using Nat.le_induction with
  | base =>
    have hd := hall j le_rfl le_rfl
    rw [step_dutyPhase hT hk] at hd ⊢
    obtain ⟨_, h⟩ := duty_on_cases hd
    rcases h with ⟨_, h2⟩ | ⟨_, h2, h3, h4⟩
    · exact ⟨τ j, by rw [h2]; exact ht j hk.le, le_rfl, by simpa using hon⟩
    · obtain ⟨x, hx, hx2⟩ := tOn_le hT ht hmono hOff hoff j hk.le
      refine ⟨x, by rw [h4]; exact hx, hx2, ?_⟩
      unfold switchOff at h2
      rw [h3, hOn, ht j hk.le, hx, Ext.fin_sub, Ext.lt_fin, Bool.and_true,
        decide_eq_false_iff_not, not_lt] at h2
      exact h2
  | succ k hjk ih =>
    obtain ⟨x, hx, hx2, _⟩ := ih (by omega) (fun i h1 h2 => hall i h1 (by omega))
    have hprev : (tr (k + 1)).duty = true := by
      rw [step_duty hT (by omega)]; exact hall k (by omega) (by omega)
    have hd := hall (k + 1) (by omega) le_rfl
    rw [step_dutyPhase hT hk] at hd ⊢
    have hsw := switchOn_of_on hT ht hOff hoff hk.le hprev
    obtain ⟨_, h⟩ := duty_on_cases hd
    rcases h with ⟨h2, _⟩ | ⟨_, h2, h3, h4⟩
    · rw [hsw] at h2; cases h2
    · have htOn : (tr (k + 1)).tOn = .fin x := by rw [step_tOn hT (by omega)]; exact hx
      refine ⟨x, by rw [h4]; exact htOn, hx2, ?_⟩
      unfold switchOff at h2
      rw [h3, hOn, ht (k + 1) hk.le, htOn, Ext.fin_sub, Ext.lt_fin, Bool.and_true,
        decide_eq_false_iff_not, not_lt] at h2
      exact h2

end cycle

/-- **C19, on-time.** Forward run (non-decreasing finite times, see C09) with duty cycle
`(ON, OFF)`, both `≥ 0`: if steps `j..k` all have throttle 1 then `times[k] - times[j] ≤ ON`. Backward
runs violate it: the cycle never switches off, see `C19_backward_never_off`. -/
theorem C19_on_time {Q Q' : QLaw (Ext K)} {etaA etaR : EtaArg (Ext K)} {fuel : ℕ}
    {P : Problem (Ext K)} {H : Hist (Ext K)} {on off : K} {n : ℕ} {τ : ℕ → K}
    (hs : Q.solve etaA etaR fuel = some (Q', none)) (hP : Q.prob = some P)
    (hH : Q'.hist = some H) (hOn : P.dutyOn = .fin on) (hOff : P.dutyOff = .fin off)
    (hon : 0 ≤ on) (hoff : 0 ≤ off)
    (hτ : H.times = (List.range (n + 1)).map fun k => Ext.fin (τ k))
    (hmono : ∀ k < n, τ k ≤ τ (k + 1)) {j k : ℕ} (hjk : j ≤ k)
    (hall : ∀ i, j ≤ i → i ≤ k → ∃ a b, H.controls[i]? = some (a, b, 1)) :
    τ k - τ j ≤ on := by
  obtain ⟨n', tr, D, r, hr, _, v⟩ := solve_view hs hP hH
  obtain ⟨rfl, ht⟩ := v.t_of_times hτ
  have hd : ∀ i, j ≤ i → i ≤ k → i < n' ∧ (D i).d.duty = true := by
    intro i h1 h2
    obtain ⟨a, b, h3⟩ := hall i h1 h2
    obtain ⟨h4, hx⟩ := v.controls_lt h3
    injection hx with _ hx
    injection hx with _ hθ
    exact ⟨h4, duty_of_throttle v.trace h4 hθ.symm⟩
  obtain ⟨x, _, h1, h2⟩ := on_run v.trace ht hmono hOn hOff hoff hon hjk (hd k hjk le_rfl).1
    (fun i h1 h2 => (hd i h1 h2).2)
  linarith

/-- **C19, off-time.** Under the same hypotheses and if no recorded level is at the battery
floor: when steps `j < k` thrust and lie more than `ON` apart, the cycle switched off at some step `i`
in between, every step within `OFF` of it coasts, and step `k` is later than that. -/
theorem C19_off_time {Q Q' : QLaw (Ext K)} {etaA etaR : EtaArg (Ext K)} {fuel : ℕ}
    {P : Problem (Ext K)} {H : Hist (Ext K)} {on off : K} {n : ℕ} {τ : ℕ → K}
    (hs : Q.solve etaA etaR fuel = some (Q', none)) (hP : Q.prob = some P)
    (hH : Q'.hist = some H) (hOn : P.dutyOn = .fin on) (hOff : P.dutyOff = .fin off)
    (hon : 0 ≤ on) (hoff : 0 ≤ off)
    (hτ : H.times = (List.range (n + 1)).map fun k => Ext.fin (τ k))
    (hmono : ∀ k < n, τ k ≤ τ (k + 1))
    (hfl : ∀ l ∈ H.battery, PyOrd.le l (P.capMin + rat 1 (10 ^ 12)) = false)
    {j k : ℕ} (hjk : j < k) {a b a' b' : Ext K} (hj : H.controls[j]? = some (a, b, 1))
    (hk : H.controls[k]? = some (a', b', 1)) (hlong : on < τ k - τ j) :
    ∃ i, j < i ∧ i < k ∧ off < τ k - τ i ∧
      ∀ m x y θ, i ≤ m → H.controls[m]? = some (x, y, θ) → τ m - τ i ≤ off → θ = 0 := by
  obtain ⟨n', tr, D, r, hr, _, v⟩ := solve_view hs hP hH
  obtain ⟨rfl, ht⟩ := v.t_of_times hτ
  obtain ⟨hjn, hx⟩ := v.controls_lt hj
  injection hx with _ hx
  injection hx with _ hθj
  obtain ⟨hkn, hx⟩ := v.controls_lt hk
  injection hx with _ hx
  injection hx with _ hθk
  have hdj := duty_of_throttle v.trace hjn hθj.symm
  have hdk := duty_of_throttle v.trace hkn hθk.symm
  have hfloor : ∀ k < n', atFloor P (tr k) = false := by
    intro k hk
    exact hfl _ (List.mem_of_getElem? (v.battery_get hk.le))
  have hch := not_charging v.trace hfloor
  have hdp : ∀ k < n', (D k).d.duty =
      (if switchOn P (tr k) then true else if switchOff P (tr k) then false else (tr k).duty) ∧
      (D k).d.tOff = if switchOff P (tr k) then (tr k).t else (tr k).tOff := by
    intro k hk
    have h1 := step_dutyPhase v.trace hk
    change (D k).d = dutyPhase P (tr k) _ at h1
    rw [h1, duty_noFloor (hfloor k hk)]
    simp [hch k hk.le]
  -- the first off step after j
  have hex : ∃ i, j < i ∧ i ≤ k ∧ (D i).d.duty = false := by
    by_contra hno
    push Not at hno
    have hall : ∀ i, j ≤ i → i ≤ k → (D i).d.duty = true := by
      intro i h1 h2
      rcases h1.eq_or_lt with h3 | h3
      · rw [← h3]; exact hdj
      · simpa using hno i h3 h2
    obtain ⟨x, _, h1, h2⟩ := on_run v.trace ht hmono hOn hOff hoff hon hjk.le hkn hall
    linarith
  classical
  let i := Nat.find hex
  obtain ⟨hi1, hi2, hi3⟩ : j < i ∧ i ≤ k ∧ (D i).d.duty = false := Nat.find_spec hex
  have hmin : ∀ m, m < i → j < m → (D m).d.duty = true := by
    intro m hm hm2
    have h1 := Nat.find_min hex hm
    push Not at h1
    simpa using h1 hm2 (by omega)
  have hik : i < k := by
    rcases hi2.eq_or_lt with h1 | h1
    · rw [h1, hdk] at hi3; cases hi3
    · exact h1
  have hprev : (tr i).duty = true := by
    obtain ⟨m, hm⟩ : ∃ m, i = m + 1 := ⟨i - 1, by omega⟩
    rw [hm, step_duty v.trace (by omega)]
    rcases Nat.lt_or_ge j m with h1 | h1
    · exact hmin m (by omega) h1
    · have : m = j := by omega
      rw [this]; exact hdj
  have hsOn := switchOn_of_on v.trace ht hOff hoff (show i ≤ n' by omega) hprev
  have hsOff : switchOff P (tr i) = true := by
    have h1 := (hdp i (by omega)).1
    change switchOn P (tr i) = false at hsOn
    rw [hi3, hsOn, hprev] at h1
    cases h2 : switchOff P (tr i) with
    | true => rfl
    | false => rw [h2] at h1; simp at h1
  have key : ∀ m, i ≤ m → m < n' → τ m - τ i ≤ off →
      (D m).d.duty = false ∧ (D m).d.tOff = .fin (τ i) := by
    intro m hm
    induction m, hm using Nat.le_induction with
    | base =>
      intro h1 _
      refine ⟨hi3, ?_⟩
      rw [(hdp i h1).2, hsOff, if_pos rfl]
      exact ht i h1.le
    | succ m hm ih =>
      intro h1 h2
      have h3 := hmono m (by omega)
      obtain ⟨h4, h5⟩ := ih (by omega) (by linarith)
      have h6 : (tr (m + 1)).duty = false := by rw [step_duty v.trace (by omega)]; exact h4
      have h7 : (tr (m + 1)).tOff = .fin (τ i) := by rw [step_tOff v.trace (by omega)]; exact h5
      have h8 : switchOff P (tr (m + 1)) = false := by unfold switchOff; rw [h6]; simp
      have h9 : switchOn P (tr (m + 1)) = false := by
        unfold switchOn
        rw [h8]
        simp only [Bool.false_eq_true, if_false]
        rw [h7, ht (m + 1) h1.le, hOff, Ext.fin_sub, Ext.lt_fin, decide_eq_false (not_lt.mpr h2)]
        rfl
      obtain ⟨g1, g2⟩ := hdp (m + 1) h1
      rw [h8, h9] at g1
      rw [h8] at g2
      refine ⟨by rw [g1]; simpa using h6, by rw [g2]; simpa using h7⟩
  refine ⟨i, hi1, hik, ?_, ?_⟩
  · by_contra hle
    have := (key k hik.le hkn (not_lt.mp hle)).1
    rw [hdk] at this; cases this
  · intro m x y θ h1 h2 h3
    obtain ⟨h4, hx⟩ := v.controls_lt h2
    injection hx with _ hx
    injection hx with _ hθ
    rw [hθ]
    exact throttle_zero_of_off v.trace h4 (key m h1 h4 h3).1

/-- on for 1/2, off for 1/2, in steps of 1/2: two on, two off, ... -/
example : (((Toy.obj Toy.cfg { Toy.prob with dutyOn := .fin (1 / 2), dutyOff := .fin (1 / 2), tfMax := .fin (5 / 2), oeT := [.fin 9, .fin 0, .fin 0, .fin 0, .fin 0] }).solve
    Toy.z Toy.z 10).bind fun p => p.1.hist.map fun H =>
      (H.times, H.controls.map fun x => x.2.2)) =
    some ([.fin 0, .fin (1 / 2), .fin 1, .fin (3 / 2), .fin 2, .fin (5 / 2)],
      [1, 1, 0, 0, 1]) := by decide +kernel

/-- **C19 is violated for backward runs, in general.** If time runs backward (finite non-increasing
times), `ON ≥ 0` and the battery is never at its floor, the duty is on at every step, however long
the run. -/
theorem C19_backward_never_off {Q Q' : QLaw (Ext K)} {etaA etaR : EtaArg (Ext K)} {fuel : ℕ}
    {P : Problem (Ext K)} {H : Hist (Ext K)} {on : K} {n : ℕ} {τ : ℕ → K}
    (hs : Q.solve etaA etaR fuel = some (Q', none)) (hP : Q.prob = some P)
    (hH : Q'.hist = some H) (hOn : P.dutyOn = .fin on) (hon : 0 ≤ on)
    (hτ : H.times = (List.range (n + 1)).map fun k => Ext.fin (τ k))
    (hmono : ∀ k < n, τ (k + 1) ≤ τ k)
    (hfl : ∀ l ∈ H.battery, PyOrd.le l (P.capMin + rat 1 (10 ^ 12)) = false) :
    ∀ k < n, dutyOnAt (envOf Q P etaA etaR) ((envOf Q P etaA etaR).after k) = true := by
  obtain ⟨n', tr, D, r, hr, _, v⟩ := solve_view hs hP hH
  obtain ⟨rfl, ht⟩ := v.t_of_times hτ
  have hfloor : ∀ k < n', atFloor P (tr k) = false := by
    intro k hk
    exact hfl _ (List.mem_of_getElem? (v.battery_get hk.le))
  have hch := not_charging v.trace hfloor
  have h0 : τ 0 = 0 := by
    have := ht 0 (Nat.zero_le _)
    rw [v.trace.init] at this
    have h1 : Ext.fin ((0 : ℕ) : K) = .fin (τ 0) := this
    injection h1 with h1
    rw [← h1, Nat.cast_zero]
  have hneg : ∀ k ≤ n', τ k ≤ 0 := by
    intro k
    induction k with
    | zero => intro _; rw [h0]
    | succ k ih => intro hk; exact (hmono k hk).trans (ih (by omega))
  have inv : ∀ k ≤ n', (tr k).duty = true ∧ (tr k).tOn = .fin 0 := by
    intro k
    induction k with
    | zero =>
      intro _; rw [v.trace.init]
      exact ⟨rfl, congrArg Ext.fin Nat.cast_zero⟩
    | succ k ih =>
      intro hk
      obtain ⟨h1, h2⟩ := ih (by omega)
      have h3 : switchOff P (tr k) = false := by
        unfold switchOff
        rw [hOn, h2, ht k (by omega), Ext.fin_sub, Ext.lt_fin, h1]
        have := hneg k (by omega)
        simp only [sub_zero, Bool.and_true, decide_eq_false_iff_not, not_lt]
        linarith
      have h4 : switchOn P (tr k) = false := by
        unfold switchOn; rw [h3, h1]; simp
      rw [step_duty v.trace hk, step_tOn v.trace hk, step_dutyPhase v.trace hk]
      show (dutyPhase P (tr k) _).duty = true ∧ (dutyPhase P (tr k) _).tOn = _
      rw [duty_noFloor (hfloor k hk)]
      simp [hch k (by omega), h3, h4, h1, h2]
  intro k hk
  rw [← v.trace.after k hk.le, dutyOnAt_rec (v.trace.step k hk), ← step_duty v.trace hk]
  exact (inv (k + 1) hk).1

/-- **C19 is violated for backward runs, concretely.** With `ON = 1/2`, `OFF = 100` a backward run of
duration 2 thrusts throughout. -/
theorem C19_backward_violation :
    (((Toy.obj Toy.cfg { Toy.prob with tStep := .fin (-1 / 2), tfMax := .fin 2, dutyOn := .fin (1 / 2), dutyOff := .fin 100 }).solve
    Toy.z Toy.z 10).bind fun p => p.1.hist.map fun H =>
      (H.times, H.controls.map fun x => x.2.2)) =
    some ([.fin 0, .fin (-1 / 2), .fin (-1), .fin (-3 / 2), .fin (-2)], [1, 1, 1, 1]) := by
  decide +kernel

/-! ## C20 -/

/-- **C20.** If the duty-cycle on-time is at least `|tf_max|`, the battery starts above its floor and
inside its capacity, and both rates are zero, then the duty is on at every recorded step; and if the
recorded times and the object's step limits are finite, every recorded level is the initial one. -/
theorem C20_never_inhibited {Q Q' : QLaw (Ext K)} {etaA etaR : EtaArg (Ext K)} {fuel : ℕ}
    {P : Problem (Ext K)} {H : Hist (Ext K)} {b0 cm cM on T s1 s2 : K}
    (hs : Q.solve etaA etaR fuel = some (Q', none)) (hP : Q.prob = some P)
    (hH : Q'.hist = some H) (hB : FinBattery P b0 cm cM 0 0) (hb1 : cm + 1 / 10 ^ 12 < b0)
    (hb2 : b0 ≤ cM) (hOn : P.dutyOn = .fin on) (hT : P.tfMax = .fin T) (hon : |T| ≤ on)
    (h1 : Q.cfg.stepMin = .fin s1) (h2 : Q.cfg.stepMax = .fin s2) :
    (∀ k < H.controls.length,
      dutyOnAt (envOf Q P etaA etaR) ((envOf Q P etaA etaR).after k) = true) ∧
    ((∀ t ∈ H.times, ∃ x, t = .fin x) → ∀ l ∈ H.battery, l = .fin b0) := by
  obtain ⟨n, tr, D, r, hr, _, v⟩ := solve_view hs hP hH
  have hpos : (0 : K) < 1 / 10 ^ 12 := by positivity
  have htlt : ∀ k < n, ∃ x, (tr k).t = .fin x ∧ x ≤ on := by
    intro k hk
    have hg := v.trace.guard k hk
    unfold guardB at hg
    rw [trace_lastTime (v.trace.prefix hk).1,
      show (envOf Q P etaA etaR).prob.tfMax = .fin T from hT, Ext.abs_fin] at hg
    cases hx : (tr k).t with
    | fin x =>
      rw [hx, Ext.abs_fin, Ext.lt_fin, decide_eq_true_eq] at hg
      exact ⟨x, rfl, by have := le_abs_self x; linarith⟩
    | nan => rw [hx] at hg; cases hg
    | pinf => rw [hx] at hg; cases hg
    | ninf => rw [hx] at hg; cases hg
  have clip0 : npclip (.fin b0 : Ext K) (.fin cm) (.fin cM) = .fin b0 := by
    rw [npclip_fin, max_eq_left (by linarith), min_eq_left hb2]
  have bstep : ∀ (x y : Ext K) (du ch : Bool), (x = .nan ∨ x = .fin b0) →
      ((batteryPhase P x du ch y).1 = .nan ∨ (batteryPhase P x du ch y).1 = .fin b0) := by
    intro x y du ch hx
    have h0 : (.fin 0 * y : Ext K) = .nan ∨ (.fin 0 * y : Ext K) = .fin 0 := by
      cases y with
      | nan => left; rfl
      | fin z => right; rw [Ext.fin_mul, zero_mul]
      | pinf => left; show Ext.infMul true 0 = _; simp [Ext.infMul]
      | ninf => left; show Ext.infMul false 0 = _; simp [Ext.infMul]
    unfold batteryPhase
    rw [hB.capMin, hB.capMax, hB.charge, hB.discharge]
    rcases hx with rfl | rfl
    · left
      cases du
      · simp only [Bool.false_eq_true, if_false]
        rw [show (.nan + .fin 0 * y : Ext K) = .nan by cases (.fin 0 * y : Ext K) <;> rfl, npclip_nan]
      · simp only [if_true]
        rw [nan_sub, npclip_nan]
    · rcases h0 with h0 | h0
      · left
        cases du
        · simp only [Bool.false_eq_true, if_false]
          rw [h0, show (.fin b0 + .nan : Ext K) = .nan from rfl, npclip_nan]
        · simp only [if_true]
          rw [h0, show (.fin b0 - .nan : Ext K) = .nan from rfl, npclip_nan]
      · right
        cases du
        · simp only [Bool.false_eq_true, if_false]
          rw [h0, Ext.fin_add, add_zero, clip0]
        · simp only [if_true]
          rw [h0, Ext.fin_sub, sub_zero, clip0]
  have hbat : ∀ k ≤ n, (tr k).battery = .nan ∨ (tr k).battery = .fin b0 := by
    intro k
    induction k with
    | zero => intro _; rw [v.trace.init]; exact Or.inr hB.initial
    | succ k ih => intro hk; rw [step_battery v.trace hk]; exact bstep _ _ _ _ (ih (by omega))
  have hfloor : ∀ k < n, atFloor P (tr k) = false := by
    intro k hk
    rcases hbat k hk.le with h | h
    · exact atFloor_nan h
    · rw [atFloor_fin hB h, decide_eq_false_iff_not]; exact not_le.mpr hb1
  have hch := not_charging v.trace hfloor
  have inv : ∀ k ≤ n, (tr k).duty = true ∧ (tr k).tOn = .fin 0 := by
    intro k
    induction k with
    | zero =>
      intro _; rw [v.trace.init]
      exact ⟨rfl, congrArg Ext.fin Nat.cast_zero⟩
    | succ k ih =>
      intro hk
      obtain ⟨g1, g2⟩ := ih (by omega)
      have h3 : switchOff P (tr k) = false := by
        obtain ⟨x, hx, hx2⟩ := htlt k hk
        unfold switchOff
        rw [hOn, g2, hx, Ext.fin_sub, Ext.lt_fin, g1]
        simp only [sub_zero, Bool.and_true, decide_eq_false_iff_not, not_lt]
        exact hx2
      have h4 : switchOn P (tr k) = false := by
        unfold switchOn; rw [h3, g1]; simp
      rw [step_duty v.trace hk, step_tOn v.trace hk, step_dutyPhase v.trace hk]
      show (dutyPhase P (tr k) _).duty = true ∧ (dutyPhase P (tr k) _).tOn = _
      rw [duty_noFloor (hfloor k hk)]
      simp [hch k (by omega), h3, h4, g1, g2]
  refine ⟨?_, ?_⟩
  · intro k hk
    rw [v.controls_length] at hk
    rw [← v.trace.after k hk.le, dutyOnAt_rec (v.trace.step k hk), ← step_duty v.trace hk]
    exact (inv (k + 1) hk).1
  · intro hfin l hl
    have ht : ∀ k ≤ n, (tr k).t = .fin (tr k).t.val := by
      intro k hk
      obtain ⟨x, hx⟩ := hfin _ (List.mem_of_getElem? (v.times_get hk))
      rw [hx]; rfl
    obtain ⟨k, hk⟩ := List.mem_iff_getElem?.mp hl
    obtain ⟨hkn, rfl⟩ := v.battery_lt hk
    obtain ⟨b, hb⟩ := battery_fin v.trace ht h1 h2 hB k hkn
    rcases hbat k hkn with h | h
    · rw [hb] at h; cases h
    · exact h

/-- **C20 for the defaults of `set_problem`**: `duty_cycle=(1e16, 0.0)`, `battery_initial=1.0`,
`battery_capacity=(0.2, 1.0)`, rates `(0.0, 0.0)`. -/
theorem C20_defaults {Q Q' : QLaw (Ext K)} {etaA etaR : EtaArg (Ext K)} {fuel : ℕ}
    {P : Problem (Ext K)} {H : Hist (Ext K)} {T s1 s2 : K}
    (hs : Q.solve etaA etaR fuel = some (Q', none)) (hP : Q.prob = some P)
    (hH : Q'.hist = some H) (hB : FinBattery P 1 (1 / 5) 1 0 0) (hOn : P.dutyOn = .fin (10 ^ 16))
    (hT : P.tfMax = .fin T) (hon : |T| ≤ 10 ^ 16)
    (h1 : Q.cfg.stepMin = .fin s1) (h2 : Q.cfg.stepMax = .fin s2) :
    (∀ k < H.controls.length,
      dutyOnAt (envOf Q P etaA etaR) ((envOf Q P etaA etaR).after k) = true) ∧
    ((∀ t ∈ H.times, ∃ x, t = .fin x) → ∀ l ∈ H.battery, l = .fin 1) :=
  C20_never_inhibited hs hP hH hB (by norm_num) le_rfl hOn hT hon h1 h2

/-- a run with the defaults -/
example : Toy.clock Toy.cfg
    { Toy.prob with dutyOn := .fin (10 ^ 16), capMin := .fin (1 / 5), tfMax := .fin 1 } 10 =
    some (none, [.fin 0, .fin (1 / 2), .fin 1], [.fin 1, .fin 1, .fin 1]) := by decide +kernel

end PyQ
