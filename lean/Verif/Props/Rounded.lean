import Verif.Proofs.View
import Verif.Props.Outcome
import Verif.Binary
import Mathlib.Algebra.BigOperators.Ring.Finset
import Mathlib.Tactic.NormNum

/-!
# C105: the bookkeeping of `solve` with rounding

`Rd K` is floating-point arithmetic with any monotone rounding; equations of motion, control law, convergence
check, perturbation, thresholds and elementary functions are arbitrary.
-/

set_option linter.unusedSectionVars false
set_option maxRecDepth 100000

namespace PyQ

open Rounding

variable {K : Type} [Field K] [LinearOrder K] [IsStrictOrderedRing K] [Rounding K]
  [PyTrans (Rd K)] [Pow (Rd K) ℕ]

/-- the limits of the battery are finite and it does not discharge backwards -/
structure RdBattery (P : Problem (Rd K)) (cm d : K) : Prop where
  capMin : P.capMin.val = .fin cm
  discharge : P.dischargeRate.val = .fin d
  nonneg : 0 ≤ d

theorem nonneg_of {x : K} (h : 0 ≤ x) : PyOrd.le (.fin 0 : Ext K) (rnd x) = true := by
  rw [← zero]; exact mono 0 x h

/-- `1e-12` is not negative -/
theorem tiny_nonneg : PyOrd.le (((0 : ℕ) : Rd K)) (rat 1 (10 ^ 12) : Rd K) = true := by
  rw [Rd.le_val, Rd.val_zero]
  unfold rat
  rw [Rd.val_div, Rd.val_natCast, Rd.val_natCast]
  simp only [Ext.natCast_eq, roundE_fin, Nat.cast_one, one]
  have h1 := mono (1 : K) ((10 ^ 12 : ℕ) : K) (by exact_mod_cast Nat.one_le_pow _ _ (by norm_num))
  rw [one] at h1
  cases hb : rnd ((10 ^ 12 : ℕ) : K) with
  | nan => rw [hb] at h1; cases h1
  | ninf => rw [hb] at h1; cases h1
  | pinf =>
    show PyOrd.le (.fin 0) (roundE (.fin 0 : Ext K)) = true
    rw [roundE_fin, zero]; simp
  | fin b =>
    rw [hb] at h1
    have hb1 : 1 ≤ b := by simpa using h1
    rw [Ext.fin_div _ _ (by linarith : b ≠ 0), roundE_fin]
    exact nonneg_of (by positivity)

/-- the battery limit replaces the step by a non-negative one, and only if the battery discharges -/
theorem rd_step {P : Problem (Rd K)} {cm d : K} (hB : RdBattery P cm d) {st : Rd K} {h : K}
    (hst : st.val = .fin h) (s : LoopSt (Rd K)) :
    (dutyPhase P s st).step = st ∨
      0 < d ∧ PyOrd.le ((0 : ℕ) : Rd K) (dutyPhase P s st).step = true := by
  cases hf : atFloor P s with
  | true => left; rw [duty_floor hf]
  | false =>
    rw [duty_noFloor hf]
    simp only []
    split_ifs with hc
    · right
      rw [Bool.and_eq_true] at hc
      obtain ⟨hc, -⟩ := hc
      rw [Rd.lt_val, Rd.val_sub, Rd.val_mul, hB.capMin, hB.discharge, hst, Ext.fin_mul,
        roundE_fin] at hc
      -- the level is a number above the floor
      have hcm : PyOrd.le P.capMin (P.capMin + rat 1 (10 ^ 12)) = true :=
        Rd.le_add_of_nonneg hB.capMin tiny_nonneg
      have hgt : PyOrd.le s.battery P.capMin = false := by
        by_contra hne
        rw [Bool.not_eq_false] at hne
        unfold atFloor at hf
        rw [OrdLaws.le_trans _ _ _ hne hcm] at hf
        cases hf
      rw [Rd.le_val, hB.capMin] at hgt
      have hzero : d = 0 → False := by
        intro h0
        rw [h0, zero_mul, zero] at hc
        cases hb : s.battery.val with
        | nan => rw [hb] at hc; cases hc
        | ninf => rw [hb] at hgt; cases hgt
        | pinf => rw [hb] at hc; cases hc
        | fin b =>
          rw [hb] at hc hgt
          rw [Ext.fin_sub, sub_zero, roundE_fin, Rd.rep_fin hb] at hc
          simp at hc hgt
          exact absurd (hc.trans hgt) (lt_irrefl _)
      have hd : 0 < d := lt_of_le_of_ne hB.nonneg fun e => hzero e.symm
      refine ⟨hd, ?_⟩
      rw [Rd.le_val, Rd.val_zero, Rd.val_div, Rd.val_sub, hB.capMin, hB.discharge]
      cases hb : s.battery.val with
      | nan => rw [hb] at hc; cases hc
      | ninf => rw [hb] at hgt; cases hgt
      | pinf =>
        show PyOrd.le (.fin 0) (roundE (if d < 0 then .ninf else .pinf)) = true
        rw [if_neg (not_lt.2 hd.le)]; rfl
      | fin b =>
        rw [hb] at hgt
        have hbc : cm < b := by simpa using hgt
        rw [Ext.fin_sub, roundE_fin]
        have h1 := nonneg_of (sub_nonneg.2 hbc.le)
        cases hr : rnd (b - cm) with
        | nan => rw [hr] at h1; cases h1
        | ninf => rw [hr] at h1; cases h1
        | pinf =>
          show PyOrd.le (.fin 0) (roundE (if d < 0 then .ninf else .pinf)) = true
          rw [if_neg (not_lt.2 hd.le)]; rfl
        | fin x =>
          rw [hr] at h1
          have hx : 0 ≤ x := by simpa using h1
          rw [Ext.fin_div _ _ hd.ne', roundE_fin]
          exact nonneg_of (div_nonneg hx hd.le)
    · exact Or.inl rfl

/-- a number whose absolute value is below another one is finite -/
theorem fin_of_abs_lt {x y : Ext K} (h : PyOrd.lt (PyOrd.abs x) y = true) : ∃ a, x = .fin a := by
  cases x with
  | fin a => exact ⟨a, rfl⟩
  | nan => rw [show PyOrd.abs (.nan : Ext K) = .nan from rfl] at h; simp at h
  | pinf => cases y <;> cases h
  | ninf => cases y <;> cases h

section run
variable {Q Q' : QLaw (Rd K)} {etaA etaR : EtaArg (Rd K)} {fuel : ℕ} {P : Problem (Rd K)}
  {H : Hist (Rd K)} (hs : Q.solve etaA etaR fuel = some (Q', none)) (hP : Q.prob = some P)
  (hH : Q'.hist = some H) {cm d h : K} (hB : RdBattery P cm d) (hS : Q.cfg.useSundman = false)
  (hst : P.tStep.val = .fin h) (hh : 0 < h)
include hs hP hH hB hS hst hh

/-- **C105, clock.** With any rounding, the recorded times of a forward run never decrease. -/
theorem C105_clock {k : ℕ} {t t' : Rd K} (ht : H.times[k]? = some t)
    (ht' : H.times[k + 1]? = some t') : PyOrd.le t t' = true := by
  obtain ⟨n, tr, D, r, hr, _, v⟩ := solve_view hs hP hH
  obtain ⟨hk1, rfl⟩ := v.times_lt ht'
  have hk : k < n := by omega
  rw [v.times_get hk.le] at ht
  injection ht with ht
  subst ht
  rw [step_t v.trace hk]
  have hg := v.trace.guard k hk
  unfold guardB at hg
  rw [trace_lastTime (v.trace.prefix hk).1, Rd.lt_val, Rd.val_abs] at hg
  obtain ⟨a, ha⟩ := fin_of_abs_lt hg
  refine Rd.le_add_of_nonneg ha ?_
  rw [step_dutyPhase v.trace hk, step0_eq v.trace hk hS]
  rcases rd_step hB hst (tr k) with e | ⟨-, e⟩
  · change PyOrd.le _ (dutyPhase P (tr k) P.tStep).step = true
    rw [e, Rd.le_val, Rd.val_zero, hst]
    simpa using hh.le
  · exact e

/-- **C105, mass.** With any rounding and a mass flow that is not negative, no recorded mass is greater than
the one before. -/
theorem C105_mass {q : K} (hq : P.mdot.val = .fin q) (hq0 : 0 ≤ q) {k : ℕ} {m m' : Rd K}
    (hm : H.masses[k]? = some m) (hm' : H.masses[k + 1]? = some m') : PyOrd.lt m m' = false := by
  obtain ⟨n, tr, D, r, hr, _, v⟩ := solve_view hs hP hH
  obtain ⟨hk1, rfl⟩ := v.masses_lt hm'
  have hk : k < n := by omega
  rw [v.masses_get hk.le] at hm
  injection hm with hm
  subst hm
  have irr : ∀ x : Ext K, PyOrd.lt x x = false := by
    intro x; cases x <;> simp [PyOrd.lt, Ext.lt]
  rw [step_mass v.trace hk, Rd.lt_val]
  split_ifs
  · have hnn : PyOrd.le ((0 : ℕ) : Rd K) (D k).d.step = true := by
      rw [step_dutyPhase v.trace hk, step0_eq v.trace hk hS]
      rcases rd_step hB hst (tr k) with e | ⟨-, e⟩
      · change PyOrd.le _ (dutyPhase P (tr k) P.tStep).step = true
        rw [e, Rd.le_val, Rd.val_zero, hst]
        simpa using hh.le
      · exact e
    rw [Rd.le_val, Rd.val_zero] at hnn
    rw [Rd.val_sub, Rd.val_mul]
    change PyOrd.lt _ (roundE ((tr k).mass.val - roundE (P.mdot.val * (D k).d.step.val))) = false
    rw [hq]
    -- the propellant of the step
    have hc : PyOrd.le (.fin 0) (roundE (.fin q * (D k).d.step.val)) = true ∨
        roundE (.fin q * (D k).d.step.val) = .nan := by
      cases hx : (D k).d.step.val with
      | nan => rw [hx] at hnn; cases hnn
      | ninf => rw [hx] at hnn; cases hnn
      | fin x =>
        rw [hx] at hnn
        left
        rw [Ext.fin_mul, roundE_fin]
        exact nonneg_of (mul_nonneg hq0 (by simpa using hnn))
      | pinf =>
        show PyOrd.le (.fin 0) (roundE (Ext.infMul true q)) = true ∨ roundE (Ext.infMul true q) = .nan
        unfold Ext.infMul
        rcases hq0.eq_or_lt with e | e
        · right; rw [← e]; simp
        · left; simp [e, e.ne']; rfl
    generalize roundE (.fin q * (D k).d.step.val) = c at hc
    generalize hM : (tr k).mass.val = M
    have hrep : roundE M = M := by rw [← hM]; exact (tr k).mass.rep
    have hle : PyOrd.le (M - c) M = true ∨ (M - c) = .nan := by
      rcases hc with hc | hc
      · cases c with
        | nan => cases hc
        | ninf => cases hc
        | fin y =>
          have hy : 0 ≤ y := by simpa using hc
          cases M with
          | nan => right; rfl
          | fin x => left; rw [Ext.fin_sub]; simpa using hy
          | pinf => left; rfl
          | ninf => left; rfl
        | pinf =>
          cases M with
          | nan => right; rfl
          | fin x => left; rfl
          | pinf => right; rfl
          | ninf => left; rfl
      · right; rw [hc]; cases M <;> rfl
    rcases hle with hle | hle
    · have h1 := Rd.roundE_mono hle
      rw [hrep] at h1
      cases hlt : PyOrd.lt M (roundE (M - c)) with
      | false => rfl
      | true =>
        rw [OrdLaws.lt_iff] at hlt
        rw [hlt.2.2] at h1
        cases h1
    · rw [hle]; cases M <;> rfl
  · exact irr _

end run

/-- the relative error of rounding is at most `u` up to the size `Ω` -/
def RelErr (u Ω : K) : Prop := ∀ a : K, |a| ≤ Ω → ∃ b, rnd a = .fin b ∧ |b - a| ≤ u * |a|

/-- one addition of the step to the clock -/
theorem rd_tick {u Ω T h τ : K} (hu : RelErr u Ω) (hΩ : |T| + h ≤ Ω) (hh : 0 < h) (hu0 : 0 ≤ u) (h0 : 0 ≤ τ)
    (hT : τ < |T|) {x y : Rd K} (hx : x.val = .fin τ) (hy : y.val = .fin h) :
    ∃ τ', (x + y).val = .fin τ' ∧ |τ' - (τ + h)| ≤ u * (|T| + h) ∧ τ ≤ τ' := by
  have ha : |τ + h| = τ + h := abs_of_nonneg (by linarith)
  obtain ⟨b, hb, he⟩ := hu (τ + h) (by rw [ha]; linarith)
  refine ⟨b, by rw [Rd.val_add, hx, hy, Ext.fin_add, roundE_fin, hb], he.trans ?_, ?_⟩
  · rw [ha]
    exact mul_le_mul_of_nonneg_left (by linarith) hu0
  · have := mono τ (τ + h) (by linarith)
    rw [Rd.rep_fin hx, hb] at this
    simpa using this

section error
variable {Q Q' : QLaw (Rd K)} {etaA etaR : EtaArg (Rd K)} {fuel : ℕ} {P : Problem (Rd K)}
  {H : Hist (Rd K)} (hs : Q.solve etaA etaR fuel = some (Q', none)) (hP : Q.prob = some P)
  (hH : Q'.hist = some H) {cm h T u Ω : K} (hB : RdBattery P cm 0) (hS : Q.cfg.useSundman = false)
  (hst : P.tStep.val = .fin h) (hh : 0 < h) (hT : P.tfMax.val = .fin T) (hu : RelErr u Ω) (hu0 : 0 ≤ u)
  (hΩ : |T| + h ≤ Ω)
include hs hP hH hB hS hst hh hT hu hu0 hΩ

/-- **C105, clock.** If rounding has relative error `u` and the battery does not discharge, the recorded times are
finite and non-decreasing, every step adds `t_step` with an error of at most `u (|tf_max| + t_step)`, and the `k`-th
time differs from `k t_step` by at most `k` times that. -/
theorem C105_clock_error : ∃ (n : ℕ) (τ : ℕ → K),
    H.times.map Rd.val = (List.range (n + 1)).map (fun k => Ext.fin (τ k)) ∧ τ 0 = 0 ∧
    (∀ k < n, τ k < |T| ∧ τ k ≤ τ (k + 1) ∧ |τ (k + 1) - (τ k + h)| ≤ u * (|T| + h)) ∧
    ∀ k ≤ n, |τ k - k * h| ≤ k * (u * (|T| + h)) := by
  obtain ⟨n, tr, D, r, hr, _, v⟩ := solve_view hs hP hH
  have hstep : ∀ k < n, (tr (k + 1)).t = (tr k).t + P.tStep := by
    intro k hk
    rw [step_t v.trace hk, step_dutyPhase v.trace hk, step0_eq v.trace hk hS]
    rcases rd_step hB hst (tr k) with e | ⟨e, -⟩
    · change _ + (dutyPhase P (tr k) P.tStep).step = _
      rw [e]
    · exact absurd e (lt_irrefl _)
  have key : ∀ k ≤ n, ∃ τ, (tr k).t.val = .fin τ ∧ 0 ≤ τ := by
    intro k
    induction k with
    | zero =>
      intro _
      refine ⟨0, ?_, le_rfl⟩
      rw [v.trace.init]
      exact Rd.val_zero
    | succ k ih =>
      intro hk
      obtain ⟨τ, h1, h2⟩ := ih (by omega)
      have hg := v.trace.guard k hk
      unfold guardB at hg
      rw [trace_lastTime (v.trace.prefix hk).1, Rd.lt_val, Rd.val_abs, Rd.val_abs, h1] at hg
      change PyOrd.lt _ (PyOrd.abs P.tfMax.val) = true at hg
      rw [hT, Ext.abs_fin, Ext.abs_fin, abs_of_nonneg h2] at hg
      obtain ⟨τ', g1, -, g3⟩ := rd_tick hu hΩ hh hu0 h2 (by simpa using hg) h1 hst
      exact ⟨τ', by rw [hstep k hk, g1], h2.trans g3⟩
  have hval : ∀ k ≤ n, (tr k).t.val = .fin (match (tr k).t.val with | .fin x => x | _ => 0) := by
    intro k hk
    obtain ⟨τ, h1, -⟩ := key k hk
    rw [h1]
  set τ : ℕ → K := fun k => match (tr k).t.val with | .fin x => x | _ => 0 with hτ
  have h0 : τ 0 = 0 := by
    rw [hτ]
    simp only []
    rw [v.trace.init, show (initLoop (envOf Q P etaA etaR).prob).t.val = .fin 0 from Rd.val_zero]
  have hnn : ∀ k ≤ n, 0 ≤ τ k := by
    intro k hk
    obtain ⟨x, h1, h2⟩ := key k hk
    have := hval k hk
    rw [h1] at this
    injection this with this
    rw [hτ]; simp only []; rw [h1]; exact h2
  have one : ∀ k < n, τ k < |T| ∧ τ k ≤ τ (k + 1) ∧ |τ (k + 1) - (τ k + h)| ≤ u * (|T| + h) := by
    intro k hk
    have hg := v.trace.guard k hk
    unfold guardB at hg
    rw [trace_lastTime (v.trace.prefix hk).1, Rd.lt_val, Rd.val_abs, Rd.val_abs, hval k hk.le] at hg
    change PyOrd.lt _ (PyOrd.abs P.tfMax.val) = true at hg
    rw [hT, Ext.abs_fin, Ext.abs_fin] at hg
    have hlt : τ k < |T| := by
      have : |τ k| < |T| := by simpa using hg
      exact (le_abs_self _).trans_lt this
    obtain ⟨τ', g1, g2, g3⟩ := rd_tick hu hΩ hh hu0 (hnn k hk.le) hlt (hval k hk.le) hst
    rw [← hstep k hk, hval (k + 1) hk] at g1
    injection g1 with g1
    have g1 : τ (k + 1) = τ' := g1
    rw [g1]
    exact ⟨hlt, g3, g2⟩
  refine ⟨n, τ, ?_, h0, one, ?_⟩
  · rw [v.times, List.map_map]
    apply List.map_congr_left
    intro k hk
    exact hval k (by simpa [Nat.lt_succ_iff] using hk)
  · intro k
    induction k with
    | zero => intro _; rw [h0]; simp
    | succ k ih =>
      intro hk
      have h1 := ih (by omega)
      have h2 := (one k hk).2.2
      have e : τ (k + 1) - ((k + 1 : ℕ) : K) * h = (τ (k + 1) - (τ k + h)) + (τ k - k * h) := by
        push_cast; ring
      rw [e]
      refine (abs_add_le _ _).trans ?_
      push_cast
      linarith

/-- **C105, mass.** If moreover `mdot ≥ 0`, `mass_min ≥ 0` and `mass0 ≥ 0`, the recorded masses are finite, and the mass
after `N` thrusting steps differs from `mass0 - N mdot t_step` by at most
`N u (mass0 + (2 + u) mdot t_step)`. -/
theorem C105_mass_error {q m0 mm : K} (hq : P.mdot.val = .fin q) (hq0 : 0 ≤ q) (hm : P.mass0.val = .fin m0)
    (hm0 : 0 ≤ m0) (hmm : P.massMin.val = .fin mm) (hmm0 : 0 ≤ mm) (hΩm : m0 + (1 + u) * (q * h) ≤ Ω) :
    ∃ (n : ℕ) (μ : ℕ → K) (θ : ℕ → ℕ),
      H.masses.map Rd.val = (List.range (n + 1)).map (fun k => Ext.fin (μ k)) ∧
      H.controls.map (fun x => x.2.2) = (List.range n).map θ ∧ (∀ k < n, θ k = 0 ∨ θ k = 1) ∧
      ∀ k ≤ n, |μ k - (m0 - q * h * ∑ j ∈ Finset.range k, (θ j : K))| ≤
        u * (m0 + (2 + u) * (q * h)) * ∑ j ∈ Finset.range k, (θ j : K) := by
  obtain ⟨n, tr, D, r, hr, _, v⟩ := solve_view hs hP hH
  have hqh : 0 ≤ q * h := mul_nonneg hq0 hh.le
  obtain ⟨c, hc, hce⟩ := hu (q * h) (by
    rw [abs_of_nonneg hqh]
    have := mul_nonneg hu0 hqh
    nlinarith)
  rw [abs_of_nonneg hqh] at hce
  have hc0 : 0 ≤ c := by
    have := nonneg_of hqh
    rw [hc] at this
    simpa using this
  have hc1 : c ≤ (1 + u) * (q * h) := by
    have := (abs_le.1 hce).2
    linarith
  have hstep : ∀ k < n, (D k).d.step = P.tStep := by
    intro k hk
    rw [step_dutyPhase v.trace hk, step0_eq v.trace hk hS]
    rcases rd_step hB hst (tr k) with e | ⟨e, -⟩
    · exact e
    · exact absurd e (lt_irrefl _)
  have hθ : ∀ k < n, (D k).c.throttle = 0 ∨ (D k).c.throttle = 1 := fun k hk =>
    control_throttle (v.trace.step k hk).ctl
  -- one step from a mass between 0 and the initial one
  have one : ∀ k < n, ∀ x : K, (tr k).mass.val = .fin x → 0 ≤ x → x ≤ m0 →
      ∃ y, (tr (k + 1)).mass.val = .fin y ∧ y ≤ x ∧
        |y - (x - q * h * ((D k).c.throttle : K))| ≤
          u * (m0 + (2 + u) * (q * h)) * ((D k).c.throttle : K) := by
    intro k hk x hx h0 h1
    rw [step_mass v.trace hk, hstep k hk]
    rcases hθ k hk with e | e
    · refine ⟨x, by rw [e]; simpa using hx, le_rfl, ?_⟩
      rw [e]; simp
    · rw [e, if_pos rfl]
      have habs : |x - c| ≤ m0 + c := by
        rw [abs_le]; constructor <;> linarith
      obtain ⟨y, hy, hye⟩ := hu (x - c) (by linarith)
      have e1 : (tr k).mass.val - roundE (P.mdot.val * P.tStep.val) = .fin (x - c) := by
        rw [hx, hq, hst, Ext.fin_mul, roundE_fin, hc, Ext.fin_sub]
      refine ⟨y, ?_, ?_, ?_⟩
      · rw [Rd.val_sub, Rd.val_mul]
        change roundE ((tr k).mass.val - roundE (P.mdot.val * P.tStep.val)) = _
        rw [e1, roundE_fin, hy]
      · have := mono (x - c) x (by linarith)
        rw [hy, Rd.rep_fin hx] at this
        simpa using this
      · have e2 : y - (x - q * h * ((1 : ℕ) : K)) = (y - (x - c)) - (c - q * h) := by push_cast; ring
        rw [e2]
        refine (abs_sub _ _).trans ?_
        have h2 : u * |x - c| ≤ u * (m0 + c) := mul_le_mul_of_nonneg_left habs hu0
        have h3 : u * (m0 + c) ≤ u * (m0 + (1 + u) * (q * h)) :=
          mul_le_mul_of_nonneg_left (by linarith) hu0
        push_cast
        nlinarith
  have key : ∀ k ≤ n, ∃ x, (tr k).mass.val = .fin x ∧ x ≤ m0 ∧ (k < n → 0 ≤ x) ∧
      |x - (m0 - q * h * ∑ j ∈ Finset.range k, ((D j).c.throttle : K))| ≤
        u * (m0 + (2 + u) * (q * h)) * ∑ j ∈ Finset.range k, ((D j).c.throttle : K) := by
    intro k
    induction k with
    | zero =>
      intro _
      refine ⟨m0, ?_, le_rfl, fun _ => hm0, by simp⟩
      rw [v.trace.init]; exact hm
    | succ k ih =>
      intro hk
      obtain ⟨x, g1, g2, g3, g4⟩ := ih (by omega)
      obtain ⟨y, k1, k2, k3⟩ := one k hk x g1 (g3 hk) g2
      refine ⟨y, k1, k2.trans g2, ?_, ?_⟩
      · intro hk1
        have := (cont_facts (v.trace.step k hk) (v.trace.cont k hk1)).2.2
        change PyOrd.le (tr (k + 1)).mass.val P.massMin.val = false at this
        rw [k1, hmm] at this
        have : mm < y := by simpa using this
        linarith
      · rw [Finset.sum_range_succ]
        have e : y - (m0 - q * h * (∑ j ∈ Finset.range k, ((D j).c.throttle : K) + ((D k).c.throttle : K))) =
            (y - (x - q * h * ((D k).c.throttle : K))) +
            (x - (m0 - q * h * ∑ j ∈ Finset.range k, ((D j).c.throttle : K))) := by ring
        rw [e]
        refine (abs_add_le _ _).trans ?_
        rw [mul_add]
        linarith
  refine ⟨n, fun k => match (tr k).mass.val with | .fin x => x | _ => 0, fun k => (D k).c.throttle, ?_, ?_, hθ, ?_⟩
  · rw [v.masses, List.map_map]
    apply List.map_congr_left
    intro k hk
    obtain ⟨x, h1, -⟩ := key k (by simpa [Nat.lt_succ_iff] using hk)
    simp only [Function.comp]
    rw [h1]
  · rw [v.controls, List.map_map]; rfl
  · intro k hk
    obtain ⟨x, h1, -, -, h2⟩ := key k hk
    simp only []
    rw [h1]
    exact h2

end error

/-! ## when a run ends -/

/-- one iteration that continues moves the clock by the step of the duty phase -/
theorem rd_cont {E : Env (Rd K)} (hS : E.cfg.useSundman = false) {s s' : LoopSt (Rd K)}
    (hi : iter E s = .cont s') :
    s'.hist.lastTime = s'.t ∧ s'.t = s.t + (dutyPhase E.prob s E.prob.tStep).step := by
  obtain ⟨D, hD⟩ := rec_of_cont hi
  have hn := hD.next.1 s' hi
  have h0 : D.step0 = E.prob.tStep := by
    have := hD.choose
    unfold chooseStep at this
    rw [hS] at this
    simp [pure, Except.pure] at this
    exact this.symm
  have hd : D.d = dutyPhase E.prob s E.prob.tStep := by
    have hc := hD.clamp
    rw [hD.duty, h0]
    unfold dutyPhase
    rw [clamp_t hc, clamp_battery hc, clamp_duty hc, clamp_tOn hc, clamp_tOff hc, clamp_charging hc]
  subst hn
  refine ⟨?_, ?_⟩
  · show (D.s1.hist.times ++ [D.s1.t + D.d.step]).getLastD _ = _
    simp; rfl
  · show D.s1.t + D.d.step = _
    rw [clamp_t hD.clamp, hd]

theorem rd_loop_stops {E : Env (Rd K)} {cm h T u Ω : K} (hB : RdBattery E.prob cm 0)
    (hS : E.cfg.useSundman = false) (hst : E.prob.tStep.val = .fin h) (hh : 0 < h)
    (hT : E.prob.tfMax.val = .fin T) (hu : RelErr u Ω) (hu0 : 0 ≤ u) (hΩ : |T| + h ≤ Ω)
    (hsmall : u * (|T| + h) ≤ h / 2) :
    ∀ (N : ℕ) (s : LoopSt (Rd K)) (τ : K), s.hist.lastTime = s.t → s.t.val = .fin τ → 0 ≤ τ →
      |T| ≤ τ + N * (h / 2) → loop E (N + 1) s ≠ none := by
  intro N
  have guard : ∀ (s : LoopSt (Rd K)) (τ : K), s.hist.lastTime = s.t → s.t.val = .fin τ → 0 ≤ τ →
      guardB E.prob s = decide (τ < |T|) := by
    intro s τ h1 h2 h3
    unfold guardB
    rw [h1, Rd.lt_val, Rd.val_abs, Rd.val_abs, h2, hT, Ext.abs_fin, Ext.abs_fin, abs_of_nonneg h3]
    rfl
  induction N with
  | zero =>
    intro s τ hl ht h0 hle
    unfold loop
    rw [guard s τ hl ht h0, decide_eq_false (not_lt.2 (by simpa using hle))]
    simp
  | succ N ih =>
    intro s τ hl ht h0 hle
    unfold loop
    split
    · rename_i hg
      rw [guard s τ hl ht h0, decide_eq_true_eq] at hg
      cases hi : iter E s with
      | brk => simp
      | err => simp
      | cont s' =>
        obtain ⟨h1, h2⟩ := rd_cont hS hi
        rcases rd_step hB hst s with e | ⟨e, -⟩
        · rw [e] at h2
          obtain ⟨τ', g1, g2, g3⟩ := rd_tick hu hΩ hh hu0 h0 hg ht hst
          rw [← h2] at g1
          refine ih s' τ' h1 g1 (h0.trans g3) ?_
          have := (abs_le.1 g2).1
          push_cast at hle
          linarith
        · exact absurd e (lt_irrefl _)
    · simp

/-- **C105, termination.** If the rounding error of the clock is at most half a step, `u (|tf_max| + t_step) ≤ t_step/2`,
the loop runs at most `2 |tf_max| / t_step + 1` times (battery without discharge). -/
theorem C105_terminates {Q : QLaw (Rd K)} {etaA etaR : EtaArg (Rd K)} {P : Problem (Rd K)}
    (hP : Q.prob = some P) {cm h T u Ω : K} (hB : RdBattery P cm 0) (hS : Q.cfg.useSundman = false)
    (hst : P.tStep.val = .fin h) (hh : 0 < h) (hT : P.tfMax.val = .fin T) (hu : RelErr u Ω) (hu0 : 0 ≤ u)
    (hΩ : |T| + h ≤ Ω) (hsmall : u * (|T| + h) ≤ h / 2) (N : ℕ) (hN : |T| ≤ N * (h / 2)) :
    Q.solve etaA etaR (N + 1) ≠ none := by
  unfold QLaw.solve
  rw [hP]
  cases Q.ready with
  | false => simp
  | true =>
    cases etaA.valid with
    | false => simp
    | true =>
      simp only [if_true, ne_eq, Option.map_eq_none_iff]
      exact rd_loop_stops (E := envOf Q P etaA etaR) hB hS hst hh hT hu hu0 hΩ hsmall N (initLoop P) 0 rfl
        Rd.val_zero le_rfl (by rw [zero_add]; exact hN)

/-- **C105, absorbed steps.** If there is a float `0 ≤ a < |tf_max|` with `a + t_step` rounding to `a`, the clock never
passes `a`: no run ends because of the time limit (exit code -2). -/
theorem C105_no_timeout {Q Q' : QLaw (Rd K)} {etaA etaR : EtaArg (Rd K)} {fuel : ℕ} {P : Problem (Rd K)}
    (hs : Q.solve etaA etaR fuel = some (Q', none)) (hP : Q.prob = some P) {cm h T a : K}
    (hB : RdBattery P cm 0) (hS : Q.cfg.useSundman = false) (hst : P.tStep.val = .fin h) (hh : 0 < h)
    (hT : P.tfMax.val = .fin T) (ha0 : 0 ≤ a) (ha : rnd (a + h) = .fin a) (haT : a < |T|) :
    Q'.exitcode ≠ -2 := by
  intro hx
  obtain ⟨P', H, n', hP', hH, -, ⟨t, ht, hlt⟩, -⟩ := C06_time_out hs hx
  rw [hP] at hP'; injection hP' with hP'; subst hP'
  obtain ⟨n, tr, D, r, hr, _, v⟩ := solve_view hs hP hH
  have key : ∀ k ≤ n, ∃ τ, (tr k).t.val = .fin τ ∧ 0 ≤ τ ∧ τ ≤ a := by
    intro k
    induction k with
    | zero =>
      intro _
      refine ⟨0, ?_, le_rfl, ha0⟩
      rw [v.trace.init]
      exact Rd.val_zero
    | succ k ih =>
      intro hk
      obtain ⟨τ, h1, h2, h3⟩ := ih (by omega)
      have e : (tr (k + 1)).t.val = rnd (τ + h) := by
        rw [step_t v.trace hk, step_dutyPhase v.trace hk, step0_eq v.trace hk hS]
        rcases rd_step hB hst (tr k) with e | ⟨e, -⟩
        · change ((tr k).t + (dutyPhase P (tr k) P.tStep).step).val = _
          rw [e, Rd.val_add, h1, hst]; rfl
        · exact absurd e (lt_irrefl _)
      have m1 := mono τ (τ + h) (by linarith)
      have m2 := mono (τ + h) (a + h) (by linarith)
      rw [Rd.rep_fin h1] at m1
      rw [ha] at m2
      rw [e]
      cases hb : rnd (τ + h) with
      | nan => rw [hb] at m1; cases m1
      | ninf => rw [hb] at m1; cases m1
      | pinf => rw [hb] at m2; cases m2
      | fin b =>
        rw [hb] at m1 m2
        exact ⟨b, rfl, h2.trans (by simpa using m1), by simpa using m2⟩
  obtain ⟨τ, h1, h2, h3⟩ := key n le_rfl
  have hlast : t = (tr n).t := by
    rw [v.times, List.range_succ] at ht
    simpa using ht.symm
  rw [hlast, Rd.lt_val, Rd.val_abs, Rd.val_abs, h1, hT, Ext.abs_fin, Ext.abs_fin, abs_of_nonneg h2] at hlt
  have : |T| ≤ τ := by simpa using hlt
  linarith

/-! ## doubles -/

namespace Doubles

/-- doubles: 53 significant bits -/
instance : Rounding ℚ := binary ℚ 52

/-- the float of a rational number -/
abbrev f (x : ℚ) : Rd ℚ := Rd.of (.fin x)

/-- placeholder elementary functions (the clock does not use them) -/
instance : PyTrans (Rd ℚ) where
  pi := f 3
  sqrt _ := f 1
  sin _ := f 0
  cos _ := f 1
  tan _ := f 0
  arctan _ := f 0
  arccos _ := f 0
  exp _ := f 1
  arctan2 _ _ := f 0
  rpow _ _ := f 1
  fmod x _ := x

instance : Pow (Rd ℚ) ℕ := ⟨fun x n => Nat.rec (f 1) (fun _ y => y * x) n⟩

theorem relErr (Ω : ℚ) : RelErr (1 / 2 ^ 53) Ω := fun a _ =>
  ⟨roundBin 52 a, rfl, (roundBin_near 52 a).trans (le_of_eq (by rw [one_div_mul_eq_div]))⟩

/-- a problem with time step 1 and time limit `T`, no mass flow -/
def prob (T : ℚ) : Problem (Rd ℚ) where
  oe0 := fun _ => f 1
  oeT := [f 2, f 2, f 2, f 2, f 2]
  mass0 := f 1
  tmax := f 1
  mdot := f 0
  tfMax := f T
  tStep := f 1
  massMin := f 0
  woe := fun _ => f 1
  dutyOn := f (2 ^ 53)
  dutyOff := f 0
  batteryInitial := f 2
  capMin := f 0
  capMax := f 2
  chargeRate := f 0
  dischargeRate := f 0
  requireFullRecharge := false

/-- settings with a target that is never met -/
def cfg : Config (Rd ℚ) where
  mu := f 1
  rpmin := f 1
  kPetro := f 1
  mPetro := f 3
  nPetro := f 4
  rPetro := f 2
  bPetro := f 1
  wp := f 1
  elementsType := .meeWithA
  integrator := .rk4
  anomalyGridSize := 4
  tolOe := fun _ => f 0
  tolOeRelaxed := fun _ => f 0
  exitAtRelaxed := 3
  oeMin := []
  oeMax := []
  nanAnglesThreshold := 2
  stepMin := f 0
  stepMax := f 2
  odeTol := f 1
  useSundman := false
  perturbations := none
  dyn :=
    { eom := fun _ _ _ => .ok fun _ => f 0
      lyapFun := fun _ =>
        { uRaw := fun _ => f 0, psi := fun _ _ => f 0, q := f 1, dqdoe := fun _ => f 0 }
      dqdtFun := fun _ => f 1
      checkConv := fun _ _ _ _ => false }

def obj (T : ℚ) : QLaw (Rd ℚ) :=
  { cfg := cfg, prob := some (prob T), ready := true, converge := false, exitcode := 0, hist := none }

theorem nat_val (n : ℕ) (h : n ≤ 2 ^ 53) : (f (n : ℚ)).val = .fin (n : ℚ) := by
  show Ext.fin (roundBin 52 (n : ℚ)) = _
  rw [roundBin_nat 52 n h]

theorem zero_val : (f 0).val = .fin 0 := by simpa using nat_val 0 (by norm_num)
theorem one_val : (f 1).val = .fin 1 := by simpa using nat_val 1 (by norm_num)
theorem two_val : (f 2).val = .fin 2 := by simpa using nat_val 2 (by norm_num)

theorem battery (T : ℚ) : RdBattery (prob T) 0 0 := ⟨zero_val, zero_val, le_rfl⟩

/-- C105: runs of up to a quadrillion steps of length 1 stop after at most twice as many iterations as needed -/
example : (obj (10 ^ 15)).solve (.flt (f 0)) (.flt (f 0)) (2 * 10 ^ 15 + 1) ≠ none := by
  have hT : (f (10 ^ 15)).val = .fin (10 ^ 15) := by
    have := nat_val (10 ^ 15) (by norm_num)
    push_cast at this
    exact this
  refine C105_terminates (P := prob (10 ^ 15)) rfl (battery _) rfl one_val one_pos hT
    (relErr (10 ^ 15 + 1)) (by positivity) ?_ ?_ _ ?_ <;> norm_num [abs_of_pos]

theorem pow_val : (f (2 ^ 53)).val = .fin (2 ^ 53) := by
  have := nat_val (2 ^ 53) le_rfl
  push_cast at this
  exact this

theorem limit_val : (f (2 ^ 54)).val = .fin (2 ^ 54) := by
  show Ext.fin (roundBin 52 (2 ^ 54 : ℚ)) = _
  rw [roundBin_pos 52 (by norm_num), roundPos_int 52 (n := 2 ^ 52) (e := 2) le_rfl (by norm_num) (by norm_num)]

/-- adding 1 to `2 ^ 53` changes nothing -/
theorem absorb : rnd ((2 : ℚ) ^ 53 + 1) = .fin (2 ^ 53) := by
  show Ext.fin (roundBin 52 ((2 : ℚ) ^ 53 + 1)) = _
  rw [roundBin_absorb (by norm_num)]

theorem f0_mul (x : Rd ℚ) {a : ℚ} (h : x.val = .fin a) : (f 0 * x).val = .fin 0 := by
  rw [Rd.val_mul, zero_val, h, Ext.fin_mul, zero_mul, roundE_fin, zero]

theorem sub_f0 (x y : Rd ℚ) {a : ℚ} (hx : x.val = .fin a) (hy : y.val = .fin 0) : x - y = x := by
  apply Rd.ext'
  rw [Rd.val_sub, hx, hy, Ext.fin_sub, sub_zero, roundE_fin, Rd.rep_fin hx]

/-- loop variables of a run that thrusts for ever -/
structure Inv (s : LoopSt (Rd ℚ)) : Prop where
  last : s.hist.lastTime = s.t
  clock : ∃ τ, s.t.val = .fin τ ∧ 0 ≤ τ ∧ τ ≤ 2 ^ 53
  mass : s.mass = f 1
  battery : s.battery = f 2
  duty : s.duty = true
  tOn : s.tOn.val = .fin 0
  charging : s.charging = false

def env (T : ℚ) : Env (Rd ℚ) := ⟨cfg, prob T, .flt (f 0), .flt (f 0)⟩

theorem not_floor (T : ℚ) {s : LoopSt (Rd ℚ)} (hs : Inv s) : atFloor (prob T) s = false := by
  unfold atFloor
  have h1 : (rat 1 (10 ^ 12) : Rd ℚ).val = .fin (roundBin 52 (1 / 10 ^ 12)) := by
    unfold rat
    rw [Rd.val_div, Rd.val_natCast, Rd.val_natCast]
    have a : roundE (((1 : ℕ) : Ext ℚ)) = .fin 1 := by
      have := one_val
      simpa using this
    have b : roundE (((10 ^ 12 : ℕ) : Ext ℚ)) = .fin (10 ^ 12) := by
      have := nat_val (10 ^ 12) (by norm_num)
      push_cast at this
      rw [Ext.natCast_eq]
      push_cast
      exact this
    rw [a, b, Ext.fin_div _ _ (by norm_num)]
    rfl
  rw [hs.battery, Rd.le_val, two_val, Rd.val_add, h1, show (prob T).capMin.val = .fin 0 from zero_val,
    Ext.fin_add, zero_add, roundE_fin]
  show PyOrd.le (Ext.fin 2) (Ext.fin (roundBin 52 (roundBin 52 (1 / 10 ^ 12)))) = false
  rw [roundBin_idem]
  have h2 := roundBin_mono 52 (show (1 / 10 ^ 12 : ℚ) ≤ ((1 : ℕ) : ℚ) by norm_num)
  rw [roundBin_nat 52 1 (by norm_num)] at h2
  simp only [Ext.le_fin, decide_eq_false_iff_not, not_le]
  push_cast at h2
  linarith

theorem duty_on (T : ℚ) {s : LoopSt (Rd ℚ)} (hs : Inv s) :
    dutyPhase (prob T) s (f 1) =
      { duty := true, tOn := s.tOn, tOff := s.tOff, charging := false, step := f 1 } := by
  rw [duty_noFloor (not_floor T hs)]
  obtain ⟨τ, h1, h2, h3⟩ := hs.clock
  have hoff : switchOff (prob T) s = false := by
    unfold switchOff
    rw [sub_f0 _ _ h1 hs.tOn, Rd.lt_val, h1, show (prob T).dutyOn.val = .fin (2 ^ 53) from pow_val,
      Ext.lt_fin, decide_eq_false (not_lt.2 h3)]
    rfl
  have hon : switchOn (prob T) s = false := by
    unfold switchOn
    rw [hoff, hs.duty]
    simp
  have hsh : PyOrd.lt (s.battery - (prob T).dischargeRate * f 1) (prob T).capMin = false := by
    rw [hs.battery, show f 2 - (prob T).dischargeRate * f 1 = f 2 from
      sub_f0 _ _ two_val (f0_mul (f 1) one_val), Rd.lt_val, two_val,
      show (prob T).capMin.val = .fin 0 from zero_val]
    rfl
  rw [hoff, hon, hsh, hs.duty, hs.charging]
  rfl

theorem step_inv (T : ℚ) {s : LoopSt (Rd ℚ)} (hs : Inv s) : ∃ s', iter (env T) s = .cont s' ∧ Inv s' ∧ s'.t = s.t + f 1 := by
  have hcl : clampPhase (env T).cfg s = .ok s := rfl
  have hch : chooseStep (env T).cfg (env T).prob s.oe = .ok (f 1) := rfl
  have hdu : dutyPhase (env T).prob s (f 1) = _ := duty_on T hs
  have hnd : ∀ x : Rd ℚ, ndiv x (f 1) = .ok (x / f 1) := by
    intro x
    unfold ndiv
    rw [Rd.eq_val, one_val, Rd.val_zero]
    rfl
  obtain ⟨c, hco, hc1, hc2, hc3⟩ : ∃ c : Ctl (Rd ℚ), controlPhase (env T) s
      { duty := true, tOn := s.tOn, tOff := s.tOff, charging := false, step := f 1 } = .ok (.ctl c) ∧
      c.throttle = 1 ∧ c.alpha = some (f 0) ∧ c.beta = some (f 0) := by
    unfold controlPhase lyapunovControlAngles uToThrustAngles
    have hz : PyOrd.lt ((0 : ℕ) : Rd ℚ) (f 0) = false := by
      rw [Rd.lt_val, zero_val, Rd.val_zero]; rfl
    have hn : PyNan.isnan (f 0) = false := by
      rw [Rd.isnan_val, zero_val]; rfl
    simp only [env, prob, cfg, asVec5, PyTrans.sqrt, PyTrans.arctan, PyTrans.arctan2, hnd, bind, Except.bind, pure,
      Except.pure, evalEta, hz, hn, Bool.or_self, if_true, Bool.false_eq_true, if_false]
    exact ⟨_, rfl, rfl, rfl, rfl⟩
  obtain ⟨y, hpr⟩ : ∃ y, propagatePhase (env T) s (f 1) c = .ok (y, f 1) := ⟨_, rfl⟩
  have hmass : s.mass - (env T).prob.mdot * f 1 = f 1 := by
    rw [hs.mass]
    exact sub_f0 _ _ one_val (f0_mul (f 1) one_val)
  have hbat : batteryPhase (env T).prob s.battery true false (f 1) = (f 2, false) := by
    unfold batteryPhase
    rw [if_pos rfl, hs.battery, show f 2 - (env T).prob.dischargeRate * f 1 = f 2 from
      sub_f0 _ _ two_val (f0_mul (f 1) one_val)]
    show (npclip (f 2) (f 0) (f 2), false) = _
    unfold npclip npmin npmax
    simp only [Rd.isnan_val, Rd.lt_val, two_val, zero_val]
    have : ¬ (2 : ℚ) < 0 := by norm_num
    simp [this]
  have hle : PyOrd.le (f 1) (env T).prob.massMin = false := by
    rw [Rd.le_val, one_val, show (env T).prob.massMin.val = .fin 0 from zero_val]
    rfl
  obtain ⟨τ, h1, h2, h3⟩ := hs.clock
  have ht : ∃ τ', (s.t + f 1).val = .fin τ' ∧ 0 ≤ τ' ∧ τ' ≤ 2 ^ 53 := by
    rw [Rd.val_add, h1, one_val, Ext.fin_add, roundE_fin]
    refine ⟨roundBin 52 (τ + 1), rfl, roundBin_nonneg 52 (by linarith), ?_⟩
    have := roundBin_mono 52 (show τ + 1 ≤ 2 ^ 53 + 1 by linarith)
    rwa [roundBin_absorb (by norm_num)] at this
  refine ⟨{ t := s.t + f 1, oe := y, mass := f 1, battery := f 2,
            hist := (storePhase s.hist (s.t + f 1) y (f 1) (f 2) c).1, nRelaxed := s.nRelaxed, nNan := c.nNan,
            duty := true, tOn := s.tOn, tOff := s.tOff, charging := false, alpha := c.alpha, beta := c.beta }, ?_, ?_⟩
  · unfold iter bodyPhase
    rw [hcl]
    simp only [hch, hdu, hco, hpr, hbat, hc1, hc2, hc3, storePhase, if_true, hmass]
    unfold exitPhase
    rw [if_neg (by simp [env, cfg])]
    simp only [hle]
    simp [env, cfg]
  · refine ⟨⟨?_, ht, rfl, rfl, rfl, hs.tOn, rfl⟩, rfl⟩
    unfold Hist.lastTime storePhase
    rw [hc2, hc3]
    simp

/-- With doubles, time step 1, time limit `2 ^ 54` and a target that is not reached,
`solve` does not return: from `2 ^ 53` on the clock stands still. -/
theorem never_returns (fuel : ℕ) : (obj (2 ^ 54)).solve (.flt (f 0)) (.flt (f 0)) fuel = none := by
  have key : ∀ (fuel : ℕ) (s : LoopSt (Rd ℚ)), Inv s → loop (env (2 ^ 54)) fuel s = none := by
    intro fuel
    induction fuel with
    | zero => intro s _; rfl
    | succ n ih =>
      intro s hs
      obtain ⟨s', h1, h2, -⟩ := step_inv (2 ^ 54) hs
      obtain ⟨τ, g1, g2, g3⟩ := hs.clock
      have hg : guardB (env (2 ^ 54)).prob s = true := by
        unfold guardB
        rw [hs.last, Rd.lt_val, Rd.val_abs, Rd.val_abs, g1,
          show (env (2 ^ 54)).prob.tfMax.val = .fin (2 ^ 54) from limit_val, Ext.abs_fin, Ext.abs_fin, abs_of_nonneg g2,
          Ext.lt_fin, decide_eq_true_eq, abs_of_pos (by norm_num)]
        linarith
      unfold loop
      rw [if_pos hg, h1]
      exact ih s' h2
  have : loop (env (2 ^ 54)) fuel (initLoop (prob (2 ^ 54))) = none :=
    key fuel _ ⟨rfl, ⟨0, Rd.val_zero, le_rfl, by norm_num⟩, rfl, rfl, rfl, Rd.val_zero, rfl⟩
  simp only [QLaw.solve, obj, EtaArg.valid, if_true]
  change Option.map _ (loop (env (2 ^ 54)) fuel (initLoop (prob (2 ^ 54)))) = none
  rw [this]
  rfl

theorem init_inv (T : ℚ) : Inv (initLoop (prob T)) :=
  ⟨rfl, ⟨0, Rd.val_zero, le_rfl, by norm_num⟩, rfl, rfl, rfl, Rd.val_zero, rfl⟩

/-- C105: a run of one step meets the hypotheses of the theorems on completed runs -/
example : ∃ Q' H, (obj 1).solve (.flt (f 0)) (.flt (f 0)) 2 = some (Q', none) ∧ Q'.hist = some H ∧
    Q'.exitcode = -2 ∧ RdBattery (prob 1) 0 0 ∧ (prob 1).tStep.val = .fin 1 ∧ (prob 1).tfMax.val = .fin 1 ∧
    RelErr (1 / 2 ^ 53 : ℚ) 3 ∧ (prob 1).mdot.val = .fin 0 ∧ (prob 1).mass0.val = .fin 1 ∧
    (prob 1).massMin.val = .fin 0 := by
  obtain ⟨s', h1, h2, h3⟩ := step_inv 1 (init_inv 1)
  have hg : guardB (prob 1) (initLoop (prob 1)) = true := by
    unfold guardB
    rw [(init_inv 1).last, Rd.lt_val, Rd.val_abs, Rd.val_abs, show (initLoop (prob 1)).t.val = .fin 0 from Rd.val_zero,
      show (prob 1).tfMax.val = .fin 1 from one_val, Ext.abs_fin, Ext.abs_fin]
    simp
  have ht : s'.t.val = .fin 1 := by
    rw [h3, Rd.val_add, show (initLoop (prob 1)).t.val = .fin 0 from Rd.val_zero, one_val, Ext.fin_add, zero_add,
      roundE_fin, one]
  have hg' : guardB (prob 1) s' = false := by
    unfold guardB
    rw [h2.last, Rd.lt_val, Rd.val_abs, Rd.val_abs, ht, show (prob 1).tfMax.val = .fin 1 from one_val, Ext.abs_fin]
    simp
  have hl : loop (env 1) 2 (initLoop (prob 1)) = some (.timeout s') := by
    unfold loop
    rw [if_pos (show guardB (env 1).prob _ = true from hg), h1]
    unfold loop
    exact if_neg (by rw [show guardB (env 1).prob s' = false from hg']; simp)
  refine ⟨(obj 1).finish (prob 1) (.timeout s'), s'.hist, ?_, rfl, rfl, battery 1, one_val, one_val, relErr 3, zero_val,
    one_val, zero_val⟩
  simp only [QLaw.solve, obj, EtaArg.valid, if_true]
  change Option.map _ (loop (env 1) 2 (initLoop (prob 1))) = _
  rw [hl]
  rfl

/-- C105: the hypotheses of `C105_no_timeout` at this object -/
example : RdBattery (prob (2 ^ 54)) 0 0 ∧ (prob (2 ^ 54)).tStep.val = .fin 1 ∧
    (prob (2 ^ 54)).tfMax.val = .fin (2 ^ 54) ∧ rnd ((2 : ℚ) ^ 53 + 1) = .fin (2 ^ 53) ∧
    (2 : ℚ) ^ 53 < |(2 : ℚ) ^ 54| :=
  ⟨battery _, one_val, limit_val, absorb, by rw [abs_of_pos (by norm_num)]; norm_num⟩

end Doubles

/-- **C105, a run that never ends.** With doubles, time step 1, time limit `2 ^ 54` and a target that is not reached,
`solve` does not return. -/
theorem C105_never_returns (fuel : ℕ) :
    (Doubles.obj (2 ^ 54)).solve (.flt (Doubles.f 0)) (.flt (Doubles.f 0)) fuel = none :=
  Doubles.never_returns fuel

end PyQ
