import Verif.Proofs.ExtLoop
import Verif.Examples.Toy
import Verif.Examples.KernelRfl
import Mathlib.Algebra.Order.Archimedean.Basic
import Mathlib.Tactic.FinCases

/-!
# The clock of `solve` (C09–C12)

Exact arithmetic with special values (`Ext K`, `K` any ordered field); equations of motion, control
law, convergence check, perturbation and thresholds are arbitrary.
-/

set_option linter.unusedSectionVars false
set_option maxRecDepth 100000

namespace PyQ

/-! ## C10, law-free part -/

section lawfree
variable {α : Type} [Add α] [Sub α] [Mul α] [Div α] [Neg α] [NatCast α] [Pow α ℕ]
  [PyTrans α] [PyOrd α] [PyNan α]

/-- **C10, first half.** Every recorded time except the last satisfies `abs(t) < abs(tf_max)`
(any arithmetic). -/
theorem C10_tf_max_respected {Q Q' : QLaw α} {etaA etaR : EtaArg α} {fuel : ℕ} {P : Problem α}
    {H : Hist α} (h : Q.solve etaA etaR fuel = some (Q', none)) (hP : Q.prob = some P)
    (hH : Q'.hist = some H) :
    ∀ t ∈ H.times.dropLast, PyOrd.lt (PyOrd.abs t) (PyOrd.abs P.tfMax) = true := by
  obtain ⟨n, tr, D, r, hr, _, v⟩ := solve_view h hP hH
  intro t ht
  rw [v.times, List.range_succ, List.map_append] at ht
  simp only [List.map_cons, List.map_nil, List.dropLast_concat, List.mem_map, List.mem_range] at ht
  obtain ⟨k, hk, rfl⟩ := ht
  have := v.trace.guard k hk
  unfold guardB at this
  rw [trace_lastTime (v.trace.prefix hk).1] at this
  exact this

end lawfree

variable {K : Type} [Field K] [LinearOrder K] [IsStrictOrderedRing K] [PyTrans (Ext K)]

/-! ## C09 -/

/-- **C09.** Forward problem (`t_step = h > 0`, no Sundman transformation, discharge rate `d ≥ 0`):
the recorded times are finite numbers `τ 0 = 0 < τ 1 < ...`, no increment exceeds `h`, and an
increment shorter than `h` occurs only when a full step would bring the battery below its floor; it
is then exactly `(battery - floor)/d`. -/
theorem C09_time_forward {Q Q' : QLaw (Ext K)} {etaA etaR : EtaArg (Ext K)} {fuel : ℕ}
    {P : Problem (Ext K)} {H : Hist (Ext K)} {b0 cm cM c d h : K}
    (hs : Q.solve etaA etaR fuel = some (Q', none)) (hP : Q.prob = some P)
    (hH : Q'.hist = some H) (hB : FinBattery P b0 cm cM c d) (hS : Q.cfg.useSundman = false)
    (hst : P.tStep = .fin h) (hh : 0 < h) (hd : 0 ≤ d) :
    ∃ (n : ℕ) (τ : ℕ → K), H.times = (List.range (n + 1)).map (fun k => Ext.fin (τ k)) ∧ τ 0 = 0 ∧
      ∀ k < n, τ k < τ (k + 1) ∧ τ (k + 1) - τ k ≤ h ∧
        (τ (k + 1) - τ k < h → ∃ b, H.battery[k]? = some (.fin b) ∧ b - d * h < cm ∧
          τ (k + 1) - τ k = (b - cm) / d) := by
  obtain ⟨n, tr, D, r, hr, _, v⟩ := solve_view hs hP hH
  have step := fun k (hk : k < n) => step_clock v.trace hB hS hst hh hd hk
  have hfin : ∀ k < n, ∃ st, (D k).d.step = .fin st := fun k hk => by
    obtain ⟨st, h1, _⟩ := step k hk; exact ⟨st, h1⟩
  refine ⟨n, fun k => (tr k).t.val, ?_, ?_, ?_⟩
  · rw [v.times]
    apply List.map_congr_left
    intro k hk
    exact trace_clock v.trace hfin k (by simpa [Nat.lt_succ_iff] using hk)
  · show (tr 0).t.val = 0
    rw [v.trace.init]
    exact Nat.cast_zero
  · intro k hk
    obtain ⟨st, h1, h2, h3, h4, _⟩ := step k hk
    have h5 := trace_clock_step v.trace hfin hk h1
    have h6 : (tr (k + 1)).t.val - (tr k).t.val = st := by rw [h5]; ring
    dsimp only
    refine ⟨by rw [h5]; linarith, by rw [h6]; exact h3, ?_⟩
    rw [h6]
    intro hlt
    obtain ⟨_, b, hb1, _, hb2, hb3⟩ := h4 hlt
    exact ⟨b, by rw [v.battery_get hk.le, hb1], hb2, hb3⟩

/-- what the toy run records as times and battery levels -/
def Toy.clock (C : Config Toy.N) (P : Problem Toy.N) (fuel : ℕ) :
    Option (Option PyErr × List Toy.N × List Toy.N) :=
  ((Toy.obj C P).solve Toy.z Toy.z fuel).bind fun p => p.1.hist.map fun H =>
    (p.2, H.times, H.battery)

/-- a run with a shortened step: level 3/10, discharge rate 1, full step 1/2 -/
example : Toy.clock Toy.cfg
    { Toy.prob with batteryInitial := .fin (13 / 10), capMax := .fin 2, dischargeRate := .fin 1, tfMax := .fin (6 / 5) } 10 =
    some (none, [.fin 0, .fin (1 / 2), .fin 1, .fin (13 / 10)],
      [.fin (13 / 10), .fin (8 / 10), .fin (3 / 10), .fin 0]) := by decide +kernel

/-! ## C10 -/

/-- **C10, second half.** For `t_step = h > 0` the last recorded time is below `|tf_max| + h`
(and every other one is below `|tf_max|`). -/
theorem C10_last_time {Q Q' : QLaw (Ext K)} {etaA etaR : EtaArg (Ext K)} {fuel : ℕ}
    {P : Problem (Ext K)} {H : Hist (Ext K)} {b0 cm cM c d h T : K}
    (hs : Q.solve etaA etaR fuel = some (Q', none)) (hP : Q.prob = some P)
    (hH : Q'.hist = some H) (hB : FinBattery P b0 cm cM c d) (hS : Q.cfg.useSundman = false)
    (hst : P.tStep = .fin h) (hh : 0 < h) (hd : 0 ≤ d) (hT : P.tfMax = .fin T) :
    ∃ x, H.times.getLast? = some (.fin x) ∧ 0 ≤ x ∧ x < |T| + h := by
  obtain ⟨n, τ, ht, h0, hstep⟩ := C09_time_forward hs hP hH hB hS hst hh hd
  have hnn : ∀ k ≤ n, 0 ≤ τ k := by
    intro k
    induction k with
    | zero => intro _; rw [h0]
    | succ k ih => intro hk; have := hstep k hk; have := ih (by omega); linarith
  refine ⟨τ n, ?_, hnn n le_rfl, ?_⟩
  · rw [ht, List.range_succ]; simp
  · cases n with
    | zero =>
      rw [h0]; have := abs_nonneg T; linarith
    | succ m =>
      have hg := C10_tf_max_respected hs hP hH (.fin (τ m)) (by
        rw [ht, List.range_succ, List.map_append]
        simp only [List.map_cons, List.map_nil, List.dropLast_concat, List.mem_map, List.mem_range]
        exact ⟨m, Nat.lt_succ_self m, rfl⟩)
      rw [hT, Ext.abs_fin, Ext.abs_fin] at hg
      simp only [Ext.lt_fin, decide_eq_true_eq] at hg
      have h1 := hstep m (Nat.lt_succ_self m)
      have h2 : τ m ≤ |τ m| := le_abs_self _
      linarith [h1.2.1]

/-- the toy run with `tf_max = 6/5` overshoots by less than one step -/
example : Toy.clock Toy.cfg { Toy.prob with tfMax := .fin (6 / 5) } 10 =
    some (none, [.fin 0, .fin (1 / 2), .fin 1, .fin (3 / 2)],
      [.fin 1, .fin 1, .fin 1, .fin 1]) := by decide +kernel

/-! ## C11 -/

/-- the loop variables have a finite non-negative clock equal to the last recorded time, and a
battery level that is finite or NaN -/
structure ClockInv (s : LoopSt (Ext K)) : Prop where
  last : s.hist.lastTime = s.t
  clock : ∃ τ, s.t = .fin τ
  bat : NF s.battery

theorem lastTime_append (H : Hist (Ext K)) (l : List (Ext K)) (x : Ext K)
    (h : H.times = l ++ [x]) : H.lastTime = x := by
  unfold Hist.lastTime; rw [h]; simp

/-- one iteration that continues moves the clock by the step of the duty phase -/
theorem cont_clock {E : Env (Ext K)} {b0 cm cM c d h : K} (hB : FinBattery E.prob b0 cm cM c d)
    (hS : E.cfg.useSundman = false) (hst : E.prob.tStep = .fin h) {s s' : LoopSt (Ext K)}
    (hi : iter E s = .cont s') :
    s'.hist.lastTime = s'.t ∧ s'.t = s.t + (dutyPhase E.prob s (.fin h)).step ∧ NF s'.battery := by
  obtain ⟨D, hD⟩ := rec_of_cont hi
  have hn := hD.next.1 s' hi
  have h0 : D.step0 = .fin h := by
    have := hD.choose
    unfold chooseStep at this
    rw [hS] at this
    simp [pure, Except.pure] at this
    rw [← this, hst]
  have hd : D.d = dutyPhase E.prob s (.fin h) := by
    have hc := hD.clamp
    rw [hD.duty, h0]
    unfold dutyPhase
    rw [clamp_t hc, clamp_battery hc, clamp_duty hc, clamp_tOn hc, clamp_tOff hc, clamp_charging hc]
  subst hn
  refine ⟨?_, ?_, ?_⟩
  · exact lastTime_append _ D.s1.hist.times _ rfl
  · show D.s1.t + D.d.step = _
    rw [clamp_t hD.clamp, hd]
  · exact batteryPhase_NF hB _ _ _ _

/-- the loop stops within any number of iterations covering the remaining time -/
theorem loop_stops {E : Env (Ext K)} {b0 cm cM c d h T δ : K} (hB : FinBattery E.prob b0 cm cM c d)
    (hS : E.cfg.useSundman = false) (hst : E.prob.tStep = .fin h) (hh : 0 < h) (hd : 0 ≤ d)
    (hT : E.prob.tfMax = .fin T) (hδ : δ ≤ h) (hδ2 : d = 0 ∨ δ ≤ (1 / 10 ^ 12) / d) :
    ∀ (N : ℕ) (s : LoopSt (Ext K)) (τ : K), ClockInv s → s.t = .fin τ → 0 ≤ τ →
      |T| ≤ τ + N * δ → loop E (N + 1) s ≠ none := by
  intro N
  induction N with
  | zero =>
    intro s τ hs ht h0 hle
    unfold loop
    have : guardB E.prob s = false := by
      unfold guardB
      rw [hs.last, ht, hT, Ext.abs_fin, Ext.abs_fin, Ext.lt_fin, decide_eq_false_iff_not,
        abs_of_nonneg h0]
      have : |T| ≤ τ := by simpa using hle
      exact not_lt.mpr this
    rw [this]; simp
  | succ N ih =>
    intro s τ hs ht h0 hle
    unfold loop
    split
    · cases hi : iter E s with
      | brk => simp
      | err => simp
      | cont s' =>
        obtain ⟨h1, h2, h3⟩ := cont_clock hB hS hst hi
        obtain ⟨st, hs1, hs2, _, _, hs4⟩ := duty_step_forward (h := h) hB hs.bat hh hd
        rw [ht, hs1, Ext.fin_add] at h2
        refine ih s' (τ + st) ⟨h1, ⟨_, h2⟩, h3⟩ h2 (by linarith) ?_
        have hst2 : δ ≤ st := by
          rcases hs4 with e | ⟨e1, e2⟩
          · rw [e]; exact hδ
          · rcases hδ2 with e3 | e3
            · rw [e3] at e1; exact absurd e1 (lt_irrefl _)
            · linarith
        push_cast at hle
        have : ((N : K) + 1) * δ = N * δ + δ := by ring
        linarith
    · simp

/-- **C11, termination.** Forward problem without Sundman transformation and with finite `tf_max`:
any fuel `N + 1` with `N * δ ≥ |tf_max|` is enough, where `δ` is `t_step`, or the smaller of `t_step`
and `1e-12 / discharge_rate` when the battery discharges. So the loop runs at most `N + 1` times. -/
theorem C11_terminates {Q : QLaw (Ext K)} {etaA etaR : EtaArg (Ext K)} {P : Problem (Ext K)}
    {b0 cm cM c d h T : K} (hP : Q.prob = some P) (hB : FinBattery P b0 cm cM c d)
    (hS : Q.cfg.useSundman = false) (hst : P.tStep = .fin h) (hh : 0 < h) (hd : 0 ≤ d)
    (hT : P.tfMax = .fin T) (N : ℕ)
    (hN : |T| ≤ N * (if d = 0 then h else min h ((1 / 10 ^ 12) / d))) :
    Q.solve etaA etaR (N + 1) ≠ none := by
  unfold QLaw.solve
  rw [hP]
  cases Q.ready with
  | false => simp
  | true =>
    cases etaA.valid with
    | false => simp
    | true =>
      simp only [if_true, ne_eq, Option.map_eq_none_iff]
      refine loop_stops (E := envOf Q P etaA etaR) (T := T)
        (δ := if d = 0 then h else min h ((1 / 10 ^ 12) / d)) hB hS hst hh hd hT ?_ ?_ N
        (initLoop P) 0 ?_ ?_ le_rfl ?_
      · split_ifs
        · exact le_rfl
        · exact min_le_left _ _
      · by_cases h0 : d = 0
        · exact Or.inl h0
        · right; rw [if_neg h0]; exact min_le_right _ _
      · refine ⟨rfl, ⟨_, rfl⟩, ?_⟩
        show NF P.batteryInitial
        rw [hB.initial]; exact NF.fin _
      · show Ext.fin ((0 : ℕ) : K) = .fin 0
        rw [Nat.cast_zero]
      · rw [zero_add]; exact hN

/-- **C11, termination without naming the bound** (Archimedean numbers, e.g. `ℚ` or `ℝ`). -/
theorem C11_terminates_archimedean [Archimedean K] {Q : QLaw (Ext K)} {etaA etaR : EtaArg (Ext K)}
    {P : Problem (Ext K)} {b0 cm cM c d h T : K} (hP : Q.prob = some P)
    (hB : FinBattery P b0 cm cM c d) (hS : Q.cfg.useSundman = false) (hst : P.tStep = .fin h)
    (hh : 0 < h) (hd : 0 ≤ d) (hT : P.tfMax = .fin T) :
    ∃ fuel Q' e, Q.solve etaA etaR fuel = some (Q', e) := by
  have hδ : 0 < (if d = 0 then h else min h ((1 / 10 ^ 12) / d)) := by
    split_ifs with h0
    · exact hh
    · apply lt_min hh
      have : 0 < d := lt_of_le_of_ne hd (Ne.symm h0)
      positivity
  obtain ⟨N, hN⟩ := Archimedean.arch |T| hδ
  rw [nsmul_eq_mul] at hN
  have := C11_terminates (etaA := etaA) (etaR := etaR) hP hB hS hst hh hd hT N hN
  cases hs : Q.solve etaA etaR (N + 1) with
  | none => exact absurd hs this
  | some p => exact ⟨N + 1, p.1, p.2, hs⟩

/-- a toy problem meets the hypotheses: `|tf_max| = 10`, `t_step = 1/2`, so 20 steps suffice -/
example : (Toy.obj Toy.cfg Toy.prob).solve Toy.z Toy.z 21 ≠ none :=
  C11_terminates (b0 := 1) (cm := 0) (cM := 1) (c := 0) (d := 0) (h := 1 / 2) (T := 10) rfl
    ⟨rfl, rfl, rfl, rfl, rfl⟩ rfl rfl (by norm_num) le_rfl rfl 20 (by norm_num)

/-- **C11, zero step.** With `t_step = 0` the clock never moves, so the loop guard never ends the
run: a normal return on a fresh object is a convergence, a depletion or the NaN limit. -/
theorem C11_zero_step {Q Q' : QLaw (Ext K)} {etaA etaR : EtaArg (Ext K)} {fuel : ℕ}
    {P : Problem (Ext K)} {H : Hist (Ext K)} {b0 cm cM c d T : K}
    (hs : Q.solve etaA etaR fuel = some (Q', none)) (hP : Q.prob = some P)
    (hH : Q'.hist = some H) (hB : FinBattery P b0 cm cM c d) (hS : Q.cfg.useSundman = false)
    (hst : P.tStep = .fin 0) (hd : 0 ≤ d) (hT : P.tfMax = .fin T) (hT0 : T ≠ 0) :
    (∀ t ∈ H.times, t = .fin 0) ∧ (Q'.exitcode = 1 ∨ Q'.exitcode = 2 ∨ Q'.exitcode = -1 ∨
      Q'.exitcode = -3) := by
  obtain ⟨n, tr, D, r, hr, _, v⟩ := solve_view hs hP hH
  have hz : ∀ k ≤ n, (tr k).t = .fin 0 := by
    intro k
    induction k with
    | zero => intro _; rw [v.trace.init]; exact congrArg Ext.fin Nat.cast_zero
    | succ k ih =>
      intro hk
      rw [step_t v.trace hk, ih (by omega), step_dutyPhase v.trace hk, step0_eq v.trace hk hS]
      show _ + (dutyPhase P (tr k) P.tStep).step = _
      rw [hst, duty_step_backward hB (trace_battery_NF v.trace hB k (by omega)) le_rfl hd]
      simp
  refine ⟨?_, ?_⟩
  · intro t ht
    rw [v.times] at ht
    simp only [List.mem_map, List.mem_range] at ht
    obtain ⟨k, hk, rfl⟩ := ht
    exact hz k (by omega)
  · have hg : guardB P (tr n) = true := by
      unfold guardB
      rw [trace_lastTime v.trace, hz n le_rfl, hT, Ext.abs_fin, Ext.abs_fin, Ext.lt_fin]
      simp [hT0]
    have hobj := hr.obj
    have he := hr.err
    cases hr.ends with
    | timeout _ hgf => rw [show (envOf Q P etaA etaR).prob = P from rfl, hg] at hgf; cases hgf
    | nan s s1 st k => right; right; right; rw [hobj]; rfl
    | exit m code _ hcode =>
      have : Q'.exitcode = code := by rw [hobj]; rfl
      rw [this]
      rcases hcode with rfl | rfl | rfl <;> simp
    | raised => simp [RunRes.error?] at he

/-- a run with `t_step = 0` that ends: every step burns nothing, but the first state already
converges -/
example : Toy.clock Toy.cfg
    { Toy.prob with tStep := .fin 0, oeT := [.fin 1, .fin 0, .fin 0, .fin 0, .fin 0] } 10 =
    some (none, [.fin 0, .fin 0], [.fin 1, .fin 1]) := by decide +kernel

/-- the toy problem with `t_step = 0` -/
def Toy.zeroProb : Problem Toy.N := { Toy.prob with tStep := .fin 0 }

/-- loop variables the toy problem with `t_step = 0` stays at, up to the histories -/
def Toy.zeroSt (H : Hist Toy.N) (a b : Option Toy.N) : LoopSt Toy.N :=
  { t := .fin 0, oe := ![.fin 1, .fin 0, .fin 0, .fin 0, .fin 0, .fin 0], mass := .fin 1,
    battery := .fin 1, hist := H, nRelaxed := 0, nNan := 0, duty := true, tOn := .fin 0,
    tOff := .fin 0, charging := false, alpha := a, beta := b }

/-- comparison of loop variables with `zeroSt`, ignoring histories and angles -/
def Toy.isZeroSt (s : LoopSt Toy.N) : Bool :=
  decide (s.t = .fin 0 ∧ (s.oe 0 = .fin 1 ∧ s.oe 1 = .fin 0 ∧ s.oe 2 = .fin 0 ∧ s.oe 3 = .fin 0 ∧
    s.oe 4 = .fin 0 ∧ s.oe 5 = .fin 0) ∧ s.mass = .fin 1 ∧ s.battery = .fin 1 ∧ s.nRelaxed = 0 ∧
    s.nNan = 0 ∧ s.duty = true ∧ s.tOn = .fin 0 ∧ s.tOff = .fin 0 ∧ s.charging = false)

theorem Toy.zeroSt_of {s : LoopSt Toy.N} (h : Toy.isZeroSt s = true) :
    s = Toy.zeroSt s.hist s.alpha s.beta := by
  unfold Toy.isZeroSt at h
  obtain ⟨h1, ⟨o0, o1, o2, o3, o4, o5⟩, h2, h3, h4, h5, h6, h7, h8, h9⟩ := of_decide_eq_true h
  obtain ⟨t, oe, mass, bat, H, nr, nn, du, ton, toff, ch, al, be⟩ := s
  simp only at h1 o0 o1 o2 o3 o4 o5 h2 h3 h4 h5 h6 h7 h8 h9
  have : oe = ![.fin 1, .fin 0, .fin 0, .fin 0, .fin 0, .fin 0] := by
    funext i
    fin_cases i
    · exact o0
    · exact o1
    · exact o2
    · exact o3
    · exact o4
    · exact o5
  subst this
  subst h1 h2 h3 h4 h5 h6 h7 h8 h9
  rfl

theorem Toy.zero_iter (H : Hist Toy.N) (a b : Option Toy.N) :
    (match iter (envOf (Toy.obj Toy.cfg Toy.zeroProb) Toy.zeroProb Toy.z Toy.z)
        (Toy.zeroSt H a b) with
     | .cont s => Toy.isZeroSt s
     | _ => false) = true := by
  kernel_rfl

/-- **C11, zero step, divergence.** A problem with `t_step = 0` on which `solve` never stops. -/
theorem C11_zero_step_diverges :
    ∀ fuel, (Toy.obj Toy.cfg Toy.zeroProb).solve Toy.z Toy.z fuel = none := by
  have key : ∀ (N : ℕ) (s : LoopSt Toy.N), s.hist.lastTime = .fin 0 → Toy.isZeroSt s = true →
      loop (envOf (Toy.obj Toy.cfg Toy.zeroProb) Toy.zeroProb Toy.z Toy.z) N s = none := by
    intro N
    induction N with
    | zero => intro s _ _; rfl
    | succ N ih =>
      intro s hl hz
      unfold loop
      have hg : guardB (envOf (Toy.obj Toy.cfg Toy.zeroProb) Toy.zeroProb Toy.z Toy.z).prob s
          = true := by
        unfold guardB; rw [hl]; decide +kernel
      rw [hg, if_pos rfl]
      have hi := Toy.zero_iter s.hist s.alpha s.beta
      rw [← Toy.zeroSt_of hz] at hi
      cases hc : iter (envOf (Toy.obj Toy.cfg Toy.zeroProb) Toy.zeroProb Toy.z Toy.z) s with
      | cont s' =>
        rw [hc] at hi
        refine ih s' ?_ hi
        have := (cont_clock (b0 := 1) (cm := 0) (cM := 1) (c := 0) (d := 0) (h := 0)
          ⟨rfl, rfl, rfl, rfl, rfl⟩ rfl rfl hc).1
        rw [this]
        exact (of_decide_eq_true hi).1
      | brk _ _ => rw [hc] at hi; cases hi
      | err _ _ => rw [hc] at hi; cases hi
  intro fuel
  have h0 := key fuel (initLoop Toy.zeroProb) (by decide +kernel) (by decide +kernel)
  unfold QLaw.solve
  show Option.map _ (loop (envOf (Toy.obj Toy.cfg Toy.zeroProb) Toy.zeroProb Toy.z Toy.z) fuel
    (initLoop Toy.zeroProb)) = none
  rw [h0]
  rfl

/-! ## C12 -/

theorem backward_t {E : Env (Ext K)} {n : ℕ} {tr : ℕ → LoopSt (Ext K)}
    {D : ℕ → StepData (Ext K)} (hT : IsTrace E n tr D) {b0 cm cM c d h : K}
    (hB : FinBattery E.prob b0 cm cM c d) (hS : E.cfg.useSundman = false)
    (hst : E.prob.tStep = .fin h) (hh : h ≤ 0) (hd : 0 ≤ d) :
    ∀ k ≤ n, (tr k).t = .fin (k * h) := by
  intro k
  induction k with
  | zero =>
    intro _; rw [hT.init]
    show Ext.fin ((0 : ℕ) : K) = _
    simp
  | succ k ih =>
    intro hk
    rw [step_t hT hk, ih (by omega), step_dutyPhase hT hk, step0_eq hT hk hS, hst,
      duty_step_backward hB (trace_battery_NF hT hB k (by omega)) hh hd, Ext.fin_add]
    push_cast
    congr 1; ring

/-- **C12, times.** Backward problem (`t_step = h < 0`, no Sundman transformation, discharge rate
`≥ 0`): the recorded times are exactly `0, h, 2h, ...`. -/
theorem C12_backward_times {Q Q' : QLaw (Ext K)} {etaA etaR : EtaArg (Ext K)} {fuel : ℕ}
    {P : Problem (Ext K)} {H : Hist (Ext K)} {b0 cm cM c d h : K}
    (hs : Q.solve etaA etaR fuel = some (Q', none)) (hP : Q.prob = some P)
    (hH : Q'.hist = some H) (hB : FinBattery P b0 cm cM c d) (hS : Q.cfg.useSundman = false)
    (hst : P.tStep = .fin h) (hh : h < 0) (hd : 0 ≤ d) :
    H.times = (List.range H.times.length).map fun k : ℕ => Ext.fin ((k : K) * h) := by
  obtain ⟨n, tr, D, r, hr, _, v⟩ := solve_view hs hP hH
  rw [v.times_length]
  conv_lhs => rw [v.times]
  apply List.map_congr_left
  intro k hk
  exact backward_t v.trace hB hS hst hh.le hd k (by simpa [Nat.lt_succ_iff] using hk)

/-- the loop of a backward problem stops within any number of iterations covering the remaining
time -/
theorem loop_stops_backward {E : Env (Ext K)} {b0 cm cM c d h T : K}
    (hB : FinBattery E.prob b0 cm cM c d) (hS : E.cfg.useSundman = false)
    (hst : E.prob.tStep = .fin h) (hh : h < 0) (hd : 0 ≤ d) (hT : E.prob.tfMax = .fin T) :
    ∀ (N : ℕ) (s : LoopSt (Ext K)) (τ : K), ClockInv s → s.t = .fin τ → τ ≤ 0 →
      |T| ≤ -τ + N * |h| → loop E (N + 1) s ≠ none := by
  intro N
  induction N with
  | zero =>
    intro s τ hs ht h0 hle
    unfold loop
    have : guardB E.prob s = false := by
      unfold guardB
      rw [hs.last, ht, hT, Ext.abs_fin, Ext.abs_fin, Ext.lt_fin, decide_eq_false_iff_not,
        abs_of_nonpos h0]
      have : |T| ≤ -τ := by simpa using hle
      exact not_lt.mpr this
    rw [this]; simp
  | succ N ih =>
    intro s τ hs ht h0 hle
    unfold loop
    split
    · cases hi : iter E s with
      | brk => simp
      | err => simp
      | cont s' =>
        obtain ⟨h1, h2, h3⟩ := cont_clock hB hS hst hi
        rw [ht, duty_step_backward hB hs.bat hh.le hd, Ext.fin_add] at h2
        refine ih s' (τ + h) ⟨h1, ⟨_, h2⟩, h3⟩ h2 (by linarith) ?_
        rw [abs_of_neg hh] at hle ⊢
        push_cast at hle
        have : ((N : K) + 1) * -h = N * -h - h := by ring
        linarith
    · simp

/-- **C12, termination.** A backward problem with finite `tf_max` stops within `N + 1` iterations
for any `N` with `N * |t_step| ≥ |tf_max|`. -/
theorem C12_backward_terminates {Q : QLaw (Ext K)} {etaA etaR : EtaArg (Ext K)}
    {P : Problem (Ext K)} {b0 cm cM c d h T : K} (hP : Q.prob = some P)
    (hB : FinBattery P b0 cm cM c d) (hS : Q.cfg.useSundman = false) (hst : P.tStep = .fin h)
    (hh : h < 0) (hd : 0 ≤ d) (hT : P.tfMax = .fin T) (N : ℕ) (hN : |T| ≤ N * |h|) :
    Q.solve etaA etaR (N + 1) ≠ none := by
  unfold QLaw.solve
  rw [hP]
  cases Q.ready with
  | false => simp
  | true =>
    cases etaA.valid with
    | false => simp
    | true =>
      simp only [if_true, ne_eq, Option.map_eq_none_iff]
      refine loop_stops_backward (E := envOf Q P etaA etaR) (T := T) hB hS hst hh hd hT N
        (initLoop P) 0 ?_ ?_ le_rfl ?_
      · refine ⟨rfl, ⟨_, rfl⟩, ?_⟩
        show NF P.batteryInitial
        rw [hB.initial]; exact NF.fin _
      · show Ext.fin ((0 : ℕ) : K) = .fin 0
        rw [Nat.cast_zero]
      · rw [neg_zero, zero_add]; exact hN

/-- a backward run -/
example : Toy.clock Toy.cfg { Toy.prob with tStep := .fin (-1 / 2), tfMax := .fin (-1) } 10 =
    some (none, [.fin 0, .fin (-1 / 2), .fin (-1)], [.fin 1, .fin 1, .fin 1]) := by decide +kernel

end PyQ
