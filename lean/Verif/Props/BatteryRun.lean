import Verif.Proofs.BatteryClock

/-!
C122: short-step runs limited by their battery complete and follow the motion whose thrust is switched by draining and
recharging it.
-/

set_option linter.unusedSectionVars false
set_option maxRecDepth 100000

open Set Metric Topology

namespace PyQ

/-- the loop variables after `n` steps of length `h` of the cycle of `a` steps on and `b` steps off -/
structure OnCharge (P : Problem ℝ) (hi dis chg : ℝ) (a b : ℕ) (h : ℝ) (n : ℕ) (s : LoopSt ℝ) : Prop where
  vars : ChargeVars P a b hi dis chg h n s
  levels : s.hist.battery = (List.range (n + 1)).map (cycleLevel hi dis chg h a b)
  times : s.hist.times = (List.range (n + 1)).map fun k : ℕ => (k : ℝ) * h
  controls : s.hist.controls.length = n ∧
    ∀ k c, s.hist.controls[k]? = some c → c.2.2 = if cycleOn a b k then 1 else 0
  states : ∃ l, s.hist.states = l ++ [s.oe] ∧ l.length = n
  masses : ∃ l, s.hist.masses = l ++ [s.mass] ∧ l.length = n
  angles : 0 < n → s.alpha ≠ none ∧ s.beta ≠ none

theorem onCharge_init {P : Problem ℝ} {hi dis chg : ℝ} (hb : P.batteryInitial = hi) (a b : ℕ) (h : ℝ) :
    OnCharge P hi dis chg a b h 0 (initLoop P) := by
  refine ⟨⟨?_, ?_, ?_, ?_, ?_, ?_⟩, ?_, ?_, ?_, ?_, ?_, ?_⟩ <;> simp [initLoop, cycleLevel, hb]

theorem OnCharge.relaxed {P : Problem ℝ} {hi dis chg : ℝ} {a b : ℕ} {h : ℝ} {n : ℕ} {s : LoopSt ℝ}
    (H : OnCharge P hi dis chg a b h n s) (r : ℕ) : OnCharge P hi dis chg a b h n { s with nRelaxed := r } :=
  ⟨⟨H.1.1, H.1.2, H.1.3, H.1.4, H.1.5, H.1.6⟩, H.2, H.3, H.4, H.5, H.6, H.7⟩

theorem OnCharge.lastTime {P : Problem ℝ} {hi dis chg : ℝ} {a b : ℕ} {h : ℝ} {n : ℕ} {s : LoopSt ℝ} (H : OnCharge P hi dis chg a b h n s) :
    s.hist.lastTime = n * h := by
  simp [Hist.lastTime, H.times, List.range_succ]

theorem OnCharge.time {P : Problem ℝ} {hi dis chg : ℝ} {a b : ℕ} {h : ℝ} {n : ℕ} {s : LoopSt ℝ} (H : OnCharge P hi dis chg a b h n s) {k : ℕ} (hk : k ≤ n) :
    s.hist.times[k]? = some (k * h) := by
  rw [H.times, List.getElem?_map, List.getElem?_range (by omega)]; rfl

theorem OnCharge.switches {P : Problem ℝ} {hi dis chg h T on off : ℝ} {a b : ℕ} (hh : 0 < h) {N : ℕ} {S : Finset ℕ} (hS : S.card ≤ N)
    (hm : ∀ k : ℕ, k * h ≤ T → k ∈ S ∨
      ∀ s ∈ Ico (k * h) ((k + 1) * h), dutySchedule on off s = cycleOn a b k)
    {n : ℕ} {s : LoopSt ℝ} (H : OnCharge P hi dis chg a b h n s) {k : ℕ} (hk : k ≤ n)
    (hT : n * h ≤ T) : SwitchesUpTo 1 (dutySchedule on off) s.hist k N h := by
  refine ⟨S, hS, fun j hj => ?_⟩
  have hlt : j < s.hist.controls.length := by rw [H.controls.1]; omega
  have hg := List.getElem?_eq_getElem hlt
  have h1 := H.controls.2 _ _ hg
  have e : (1 : ℝ) * (((j + 1 : ℕ) : ℝ) * h - j * h) = h := by push_cast; ring
  refine ⟨s.hist.controls[j].1, s.hist.controls[j].2.1, _, j * h, (j + 1 : ℕ) * h, hg, H.time (by omega),
    H.time (by omega), by rw [e]; exact hh, by rw [e], ?_⟩
  have hjn : (j : ℝ) ≤ n := by exact_mod_cast (by omega : j ≤ n)
  refine (hm j (by nlinarith)).imp id fun h2 r hr => ?_
  rw [one_mul, one_mul] at hr
  push_cast at hr
  rw [h2 r hr]
  show _ ↔ s.hist.controls[j].2.2 = 1
  rw [h1]
  split_ifs with h3 <;> simp [h3]

theorem OnCharge.level {P : Problem ℝ} {hi dis chg : ℝ} {a b : ℕ} {h : ℝ} {n : ℕ} {s : LoopSt ℝ}
    (H : OnCharge P hi dis chg a b h n s) (k : ℕ) (β : ℝ) (hk : s.hist.battery[k]? = some β) :
    β = if k % (a + b) ≤ a then hi - (k % (a + b) : ℕ) * (dis * h)
      else hi - a * (dis * h) + ((k % (a + b) - a : ℕ) : ℝ) * (chg * h) := by
  rw [H.levels, List.getElem?_map] at hk
  cases hr : (List.range (n + 1))[k]? with
  | none => rw [hr] at hk; cases hk
  | some j =>
    obtain ⟨h1, h2⟩ := List.getElem?_eq_some_iff.1 hr
    rw [List.getElem_range] at h2
    rw [hr, ← h2] at hk
    simp only [Option.map_some, Option.some.injEq] at hk
    rw [← hk, cycleLevel]

/-- one step of the loop at a state where the law and the integrator are defined -/
theorem step_fine_charge [PyNan ℝ] (hnan : ∀ x : ℝ, PyNan.isnan x = false) {E : Env ℝ} {et : ElemType}
    (hd : E.cfg.dyn = dynOf et) (hint : E.cfg.integrator = .rk4) (hsun : E.cfg.useSundman = false)
    {oeT l u : Fin 5 → ℝ} {h T ea er lo hi dis chg pause : ℝ} {a b n : ℕ} {s : LoopSt ℝ}
    (hl : E.cfg.elementsType = .keplerian → BoundsAre E.cfg.oeMin l ∧ BoundsAre E.cfg.oeMax u)
    (hst : E.prob.tStep = h) (hoe : E.prob.oeT = List.ofFn oeT) (hea : E.etaA = .flt ea) (her : E.etaR = .flt er)
    (hea0 : ea ≤ 0) (her0 : er ≤ 0) (hB : CyclingBattery E.prob lo hi dis chg pause T) (hdis : 0 < dis) (hchg : 0 < chg)
    (hcap : lo + 1 / 10 ^ 12 < hi) (hpause : pause < (hi - (lo + 1 / 10 ^ 12)) / chg)
    (hsmall : dis * h ≤ 1 / 10 ^ 12) (hsmall2 : dis / chg * h < (hi - (lo + 1 / 10 ^ 12)) / chg - pause)
    (ha : a = drainSteps ((hi - (lo + 1 / 10 ^ 12)) / dis) h) (hb : b = fillSteps dis chg a)
    (hh : 0 < h) (hn : (n + 1 : ℝ) * h ≤ T) (hO : OnCharge E.prob hi dis chg a b h n s)
    (hbd : E.cfg.elementsType = .keplerian → ∀ j : Fin 5, l j < s.oe j.castSucc ∧ s.oe j.castSucc < u j)
    {o : ControlOut ℝ} (ho : lyapunovControlAngles (dynOf (α := ℝ) et).lyapFun
      (callAt E.cfg oeT E.prob.woe (E.prob.tmax / s.mass) s.oe) = .ok o)
    {q : Fin 3 → ℝ} (hq : PerturbationIs E.cfg s.t s.oe q)
    (hz : ∀ p, ∀ c : Bool, p =
        { mu := E.cfg.mu, u := vsmul (switchedThrust c (E.prob.tmax / s.mass)) (dirOf o.alpha o.beta),
          psi0 := o.psi 0, psi1 := o.psi 1, psi2 := o.psi 2, ptrb := q } →
      ∃ z, rk4 (dynOf (α := ℝ) et).eom s.t h s.oe p = .ok z) :
    ∃ D, RecStep E s D ∧ OnCharge E.prob hi dis chg a b h (n + 1) (postState E D) ∧ D.c.oeT = oeT ∧
      s.mass - |E.prob.mdot| * h ≤ (postState E D).mass := by
  have hcl : clampPhase E.cfg s = .ok s := by
    unfold clampPhase
    cases hE : E.cfg.elementsType with
    | meeWithA => rfl
    | keplerian =>
      obtain ⟨h1, h2⟩ := hl hE
      obtain ⟨L, hL⟩ := bounds_list h1
      obtain ⟨U, hU⟩ := bounds_list h2
      have h3 : elementsSafety s.oe E.cfg.oeMin E.cfg.oeMax = .ok s.oe := by
        cases hs : elementsSafety s.oe E.cfg.oeMin E.cfg.oeMax with
        | error e => rw [hL, hU] at hs; simp [elementsSafety] at hs
        | ok y => rw [safety_same h1 h2 (fun j => ⟨(hbd hE j).1.le, (hbd hE j).2.le⟩) hs]
      obtain ⟨m, hm, -⟩ := hO.states
      simp only [h3, Bind.bind, Except.bind, pure, Except.pure, hm, List.dropLast_concat]
      rw [← hm]
  have hch : chooseStep E.cfg E.prob s.oe = .ok h := by
    simp [chooseStep, hsun, hst, pure, Except.pure]
  obtain ⟨tOn, tOff, charging, hdu, hafter⟩ := charge_step hdis hchg hcap hpause hh hsmall hsmall2 ha hb hnan hB
    (by nlinarith : (n : ℝ) * h ≤ T) hO.vars
  obtain ⟨duty, hduty⟩ : ∃ duty, duty = cycleOn a b n := ⟨_, rfl⟩
  rw [← hduty] at hdu hafter
  have hσsgn : PyOrd.sign h = (1 : ℝ) := by
    exact sign_signed (Or.inl rfl) (by rw [one_mul]; exact hh)
  have hacc : lyapArgs E.cfg E.prob oeT (E.prob.tmax / s.mass) s.oe =
      callAt E.cfg oeT E.prob.woe (E.prob.tmax / s.mass) s.oe := rfl
  have hv5 : asVec5 E.prob.oeT = .ok oeT := by
    rw [hoe]
    simp only [List.ofFn_succ, List.ofFn_zero, asVec5]
    congr 1
    funext j; fin_cases j <;> rfl
  have hs1 : (PyOrd.sign h * E.prob.tmax / s.mass : ℝ) = E.prob.tmax / s.mass := by
    rw [hσsgn, one_mul]
  obtain ⟨c, al, be, hc, c1, c2, c3, c4, c5, c6⟩ : ∃ c al be, controlPhase E s (dutyPhase E.prob s h) = .ok (.ctl c) ∧
      c.alpha = some al ∧ c.beta = some be ∧ c.throttle = (if duty then 1 else 0) ∧
      c.u = vsmul (switchedThrust duty (E.prob.tmax / s.mass)) (dirOf o.alpha o.beta) ∧ c.psi = o.psi ∧ c.oeT = oeT := by
    rw [hdu]
    cases hdd : duty with
    | true =>
      simp only [controlPhase, hs1, hv5, hd, hacc, ho, hnan, hea, her, evalEta, Bind.bind, Except.bind, lt_real,
        Nat.cast_zero, not_lt.2 hea0, not_lt.2 her0, pure, Except.pure]
      exact ⟨_, _, _, rfl, rfl, rfl, rfl, rfl, rfl, rfl⟩
    | false =>
      have hn0 : 0 < n := by
        rcases Nat.eq_zero_or_pos n with h0 | h0
        · exfalso
          rw [hdd, h0, cycleOn] at hduty
          have ha0 := drain_pos hdis hchg hcap hh ha hb
          rw [Nat.zero_mod, decide_eq_true ha0] at hduty
          cases hduty
        · exact h0
      obtain ⟨g1, g2⟩ := hO.angles hn0
      obtain ⟨al, hal⟩ := Option.ne_none_iff_exists'.1 g1
      obtain ⟨be, hbe⟩ := Option.ne_none_iff_exists'.1 g2
      simp only [controlPhase, hs1, hv5, hd, hacc, ho, Bind.bind, Except.bind, pure, Except.pure, Bool.false_eq_true, if_false]
      refine ⟨_, al, be, rfl, hal, hbe, rfl, ?_, rfl, rfl⟩
      funext c
      fin_cases c <;> simp [zero3, vsmul, switchedThrust]
  obtain ⟨z, hpr⟩ : ∃ z, propagatePhase E s h c = .ok (z, h) := by
    obtain ⟨z, hz1⟩ := hz _ duty rfl
    unfold PerturbationIs at hq
    refine ⟨z, ?_⟩
    cases hc : E.cfg.perturbations with
    | none =>
      simp only [hc] at hq
      have hq : q = zero3 := hq
      rw [hq] at hz1
      simp only [propagatePhase, hc, hint, hd, c4, c5, Bind.bind, Except.bind, pure, Except.pure, hz1]
    | some f =>
      simp only [hc] at hq
      simp only [propagatePhase, hc, hq, hint, hd, c4, c5, Bind.bind, Except.bind, pure, Except.pure, hz1]
  refine ⟨⟨s, h, dutyPhase E.prob s h, c, z, h, al, be⟩,
    ⟨hcl, hch, rfl, hc, by simpa only [hdu] using hpr, c1, c2⟩, ?_, c6, ?_⟩
  · have hV' := hafter (postState E ⟨s, h, dutyPhase E.prob s h, c, z, h, al, be⟩) (by simp only [postState, hdu])
      (by simp only [postState, hdu]) (by simp only [postState, hdu]) (by simp only [postState, hdu])
      (by simp only [postState, hdu]) (by simp only [postState, hdu])
    constructor
    · exact hV'
    · have hbt := hV'.battery
      simp only [postState] at hbt ⊢
      rw [hO.levels, hbt, List.range_succ (n := n + 1), List.map_append]
      rfl
    · simp only [postState, hdu, hO.times, hO.vars.t]
      rw [List.range_succ (n := n + 1), List.map_append]
      simp only [List.map_cons, List.map_nil]
      congr 2; push_cast; ring
    · simp only [postState, c3]
      refine ⟨by simp [hO.controls.1], fun k c hc => ?_⟩
      rcases Nat.lt_or_ge k n with hk | hk
      · rw [List.getElem?_append_left (by rw [hO.controls.1]; exact hk)] at hc
        exact hO.controls.2 k c hc
      · rw [List.getElem?_append_right (by rw [hO.controls.1]; exact hk), hO.controls.1] at hc
        have hkn : k = n := by
          have := (List.getElem?_eq_some_iff.1 hc).1
          simp at this; omega
        subst hkn
        simp at hc
        rw [← hc, hduty]
    · obtain ⟨m, hm, hm2⟩ := hO.states
      exact ⟨m ++ [s.oe], by simp only [postState, hm], by simp [hm2]⟩
    · obtain ⟨m, hm, hm2⟩ := hO.masses
      exact ⟨m ++ [s.mass], by simp only [postState, hm], by simp [hm2]⟩
    · intro _
      simp [postState, c1, c2]
  · simp only [postState, hdu]
    have h1 : E.prob.mdot * h ≤ |E.prob.mdot| * h := mul_le_mul_of_nonneg_right (le_abs_self _) hh.le
    have h2 : 0 ≤ |E.prob.mdot| * h := by positivity
    split_ifs <;> linarith

/-- the start of a run limited by its battery: an object with settings `C`, the target `oeT` and weights `woe`, the state
`x0`, the thrust and mass data, no result flags yet, steps of length `h`, a full battery of capacity `lo` to `hi` with
rates `dis` and `chg` that must be recharged fully before thrust resumes, a duty cycle on for at least `T` and off for
`pause`, and a mass limit of at most `ml` -/
structure StartsCharge (C : Config ℝ) (oeT woe : Fin 5 → ℝ) (tmax m0 mdot lo hi dis chg pause ml h T : ℝ) (x0 : Fin 6 → ℝ)
    (Q : QLaw ℝ) (P : Problem ℝ) : Prop where
  cfg : Q.cfg = C
  prob : Q.prob = some P
  ready : Q.ready = true
  fresh : Q.Fresh
  target : P.oeT = List.ofFn oeT
  weights : P.woe = woe
  thrust : P.tmax = tmax
  startMass : P.mass0 = m0
  massRate : P.mdot = mdot
  start : P.oe0 = x0
  step : P.tStep = h
  battery : CyclingBattery P lo hi dis chg pause T
  massMin : P.massMin ≤ ml

section completes
variable [PyNan ℝ] (hnan : ∀ x : ℝ, PyNan.isnan x = false) {C : Config ℝ} {et : ElemType} (hd : C.dyn = dynOf et)
  (hsun : C.useSundman = false) (hint : C.integrator = .rk4)
  {oeT woe l u : Fin 5 → ℝ} {tmax mdot lo hi dis chg pause on off ml T : ℝ} {γ : ℝ → Fin 6 → ℝ} {μ : ℝ → ℝ}
  (hl : C.elementsType = .keplerian → BoundsAre C.oeMin l ∧ BoundsAre C.oeMax u)
  (hdis : 0 < dis) (hchg : 0 < chg) (hcap : lo + 1 / 10 ^ 12 < hi) (hpause : pause < (hi - (lo + 1 / 10 ^ 12)) / chg)
  (hon : on = (hi - (lo + 1 / 10 ^ 12)) / dis) (hoff : off = (hi - (lo + 1 / 10 ^ 12)) / chg)
  (hM : SwitchedMotion C et oeT woe tmax mdot 1 (gain C.integrator) T (dutySchedule on off) γ μ)
  (hS : ∀ s ∈ Icc 0 T, LawSmooth et (unitCall C oeT woe (γ s)) ∧ PertSmooth C 1 s (γ s) ∧
    (C.elementsType = .keplerian → ∀ j : Fin 5, l j < γ s j.castSucc ∧ γ s j.castSucc < u j))
  (hT0 : 0 < T) (hT : 0 < tmax) (hm : ∀ s ∈ Icc 0 T, 0 < μ s ∧ ml < μ s)
include hnan hd hsun hint hl hdis hchg hcap hpause hon hoff hM hS hT0 hT hm

/-- with short steps every iteration up to time `T` is recorded, thrusts or coasts by the cycle, and either continues or
converges -/
theorem progress_charge : ∃ δ > 0, ∃ K ≥ 0, ∀ h, 0 < h → h < δ → ∀ (Q : QLaw ℝ) (P : Problem ℝ) (ea er : ℝ),
    ea ≤ 0 → er ≤ 0 → StartsCharge C oeT woe tmax (μ 0) mdot lo hi dis chg pause ml h T (γ 0) Q P →
    ∀ E, E = envOf Q P (.flt ea) (.flt er) →
    (∀ n : ℕ, (n : ℝ) * h ≤ T → (∀ k < n, iter E (E.after k) = .cont (E.after (k + 1))) →
      OnCharge P hi dis chg (drainSteps on h) (fillSteps dis chg (drainSteps on h)) h n (E.after n) ∧ ‖(E.after n).oe - γ (n * h)‖ ≤ K * h ∧
      ((n + 1 : ℝ) * h ≤ T → ∃ s, OnCharge P hi dis chg (drainSteps on h) (fillSteps dis chg (drainSteps on h)) h (n + 1) s ∧
        (iter E (E.after n) = .cont s ∧ (dynOf (α := ℝ) et).checkConv s.oe oeT woe C.tolOe = false ∨
         iter E (E.after n) = .brk s 1 ∨ iter E (E.after n) = .brk s 2))) ∧
    ∀ (fuel : ℕ) (Q' : QLaw ℝ) (s : LoopSt ℝ), Q.solve (.flt ea) (.flt er) fuel = some (Q', none) →
      Q'.hist = some s.hist → ∀ n : ℕ, OnCharge P hi dis chg (drainSteps on h) (fillSteps dis chg (drainSteps on h)) h n s → n * h ≤ T →
      ∀ (k : ℕ) (x : Fin 6 → ℝ) (m : ℝ), s.hist.states[k]? = some x → s.hist.masses[k]? = some m →
        (∀ i, |x i - γ (k * h) i| ≤ K * h) ∧ |m - μ (k * h)| ≤ K * h := by
  obtain ⟨s0, hs0, hmin⟩ := isCompact_Icc.exists_isMinOn ⟨0, left_mem_Icc.2 hT0.le⟩ hM.2.1
  have hμ : ∀ s ∈ Icc 0 T, μ s0 ≤ μ s := fun s hs => hmin hs
  obtain ⟨hp0, hp1⟩ := hm s0 hs0
  obtain ⟨N, hcy⟩ := charge_matches (T := T) hdis hchg hcap hon hoff
  obtain ⟨ρ, hρ, δ1, hδ1, htube⟩ := tube_fine_switched (Or.inl rfl) hM hS hT (half_pos hp0)
  obtain ⟨δ2, hδ2, K, hK, hlim⟩ := C117_limit hd (Or.inl rfl) hl hM hS hT (fun s hs => (hm s hs).1) N
  obtain ⟨κ, hκ⟩ : ∃ κ, κ = min (μ s0 / 2) (μ s0 - ml) := ⟨_, rfl⟩
  have hκ0 : 0 < κ := by rw [hκ]; exact lt_min (half_pos hp0) (by linarith)
  have hκ1 : κ ≤ μ s0 / 2 := by rw [hκ]; exact min_le_left _ _
  have hκ2 : κ ≤ μ s0 - ml := by rw [hκ]; exact min_le_right _ _
  have hdc : 0 < dis / chg := by positivity
  have hpz : 0 < (hi - (lo + 1 / 10 ^ 12)) / chg - pause := by linarith
  refine ⟨min (min (min δ1 δ2) (min (ρ / (K + 1)) (κ / (K + |mdot| + 1))))
    (min (1 / 10 ^ 12 / dis) (((hi - (lo + 1 / 10 ^ 12)) / chg - pause) / (dis / chg))), by positivity, K, hK, ?_⟩
  intro h hh hhδ Q P ea er hea her hQ E hE
  have hsm1 : dis * h ≤ 1 / 10 ^ 12 := by
    have := (hhδ.trans_le ((min_le_right _ _).trans (min_le_left _ _))).le
    rw [le_div_iff₀ hdis] at this
    linarith
  have hsm2 : dis / chg * h < (hi - (lo + 1 / 10 ^ 12)) / chg - pause := by
    have := hhδ.trans_le ((min_le_right _ _).trans (min_le_right _ _))
    rw [lt_div_iff₀ hdc] at this
    linarith
  replace hhδ := hhδ.trans_le (min_le_left _ _)
  have hh1 : h < δ1 := hhδ.trans_le ((min_le_left _ _).trans (min_le_left _ _))
  have hh2 : h < δ2 := hhδ.trans_le ((min_le_left _ _).trans (min_le_right _ _))
  have hhρ : K * h < ρ := by
    have := hhδ.trans_le ((min_le_right _ _).trans (min_le_left _ _))
    rw [lt_div_iff₀ (by positivity)] at this
    nlinarith
  have hmd : 0 ≤ |mdot| * h := by positivity
  have hhκ : K * h + |mdot| * h < κ := by
    have := hhδ.trans_le ((min_le_right _ _).trans (min_le_right _ _))
    rw [lt_div_iff₀ (by positivity)] at this
    nlinarith
  have hEC : E.cfg = C := by rw [hE]; exact hQ.cfg
  have hEP : E.prob = P := by rw [hE]; rfl
  have ha : drainSteps on h = drainSteps ((hi - (lo + 1 / 10 ^ 12)) / dis) h := by rw [hon]
  obtain ⟨S, hScard, hSm⟩ := hcy h hh
  have follow : ∀ (Q1 Q' : QLaw ℝ) (P1 : Problem ℝ) (fuel : ℕ) (s : LoopSt ℝ), Q1.cfg = C → Q1.prob = some P1 →
      P1.oeT = List.ofFn oeT → P1.woe = woe → P1.tmax = tmax → P1.mass0 = μ 0 → P1.mdot = mdot → P1.oe0 = γ 0 →
      Q1.solve (.flt ea) (.flt er) fuel = some (Q', none) →
      Q'.hist = some s.hist → ∀ n : ℕ, OnCharge P hi dis chg (drainSteps on h) (fillSteps dis chg (drainSteps on h)) h n s → n * h ≤ T →
      ∀ (k : ℕ) (x : Fin 6 → ℝ) (m : ℝ), s.hist.states[k]? = some x → s.hist.masses[k]? = some m →
        (∀ i, |x i - γ (k * h) i| ≤ K * h) ∧ |m - μ (k * h)| ≤ K * h := by
    intro Q1 Q' P1 fuel s q1 q2 q3 q4 q5 q6 q7 q8 hsol hH n hO hnT k x m hx hmk
    have hk : k ≤ n := by
      obtain ⟨ls, hs1, hs2⟩ := hO.states
      have := (List.getElem?_eq_some_iff.1 hx).1
      rw [hs1, List.length_append, hs2] at this
      simp at this; omega
    have hkn : (k : ℝ) ≤ n := by exact_mod_cast hk
    have := hlim h hh hh2 Q1 Q' P1 _ _ fuel _ q1 q2 q3 q4 q5 q6 q7 q8 hsol hH k _ m x (hO.time hk)
      (by rw [one_mul]; nlinarith) hx hmk (hO.switches hh hScard hSm hk hnT)
    rwa [one_mul] at this
  refine ⟨?_, fun fuel Q' s hsol hH n hO hnT => follow Q Q' P fuel s hQ.cfg hQ.prob hQ.target hQ.weights hQ.thrust
    hQ.startMass hQ.massRate hQ.start hsol hH n hO hnT⟩
  -- what a step does from a state close to the motion
  have stepping : ∀ n : ℕ, OnCharge P hi dis chg (drainSteps on h) (fillSteps dis chg (drainSteps on h)) h n (E.after n) →
      ‖(E.after n).oe - γ (n * h)‖ ≤ K * h → |(E.after n).mass - μ (n * h)| ≤ K * h → (n + 1 : ℝ) * h ≤ T →
      ∃ s, OnCharge P hi dis chg (drainSteps on h) (fillSteps dis chg (drainSteps on h)) h (n + 1) s ∧
        (iter E (E.after n) = .cont s ∧ (dynOf (α := ℝ) et).checkConv s.oe oeT woe C.tolOe = false ∨
         iter E (E.after n) = .brk s 1 ∨ iter E (E.after n) = .brk s 2) := by
    intro n hO hcl hclm hn
    have ht : (n : ℝ) * h ∈ Icc 0 T := ⟨by positivity, by linarith [show ((n : ℝ) + 1) * h = n * h + h by ring]⟩
    have hball : (E.after n).oe ∈ ball (γ (n * h)) ρ := by
      rw [mem_ball, dist_eq_norm]; linarith
    have hml := (abs_le.1 hclm).1
    have hμn := hμ _ ht
    obtain ⟨hb, o, q, ho, hq, hrk⟩ := htube _ ht _ hball (E.after n).mass (by linarith)
    have hz := hrk h hh hh1 (E.after n).t
    simp only [one_mul] at ho hq hz
    obtain ⟨D, hD, hO', hoT, hmass⟩ := step_fine_charge hnan (E := E) (s := E.after n) (et := et) (oeT := oeT) (l := l) (u := u)
      (o := o) (by rw [hEC]; exact hd) (by rw [hEC]; exact hint)
      (by rw [hEC]; exact hsun) (by rw [hEC]; exact hl) (by rw [hEP]; exact hQ.step) (by rw [hEP]; exact hQ.target)
      (by rw [hE]; rfl) (by rw [hE]; rfl) hea her (by rw [hEP]; exact hQ.battery) hdis hchg hcap hpause hsm1 hsm2 ha rfl hh hn
      (by rw [hEP]; exact hO) (by rw [hEC]; exact hb)
      (by rw [hEC, hEP, hQ.weights, hQ.thrust]; exact ho) (q := q) (by rw [hEC, hO.vars.t]; exact hq)
      (by rw [hEC, hEP, hQ.thrust]; exact hz)
    rw [hEP] at hO'
    refine ⟨_, hO'.relaxed (relaxedAfter E D.c.oeT (postState E D)), ?_⟩
    rw [hD.iter_eq]
    rcases exitPhase_cases E D.c.oeT (postState E D) with h1 | h1 | h1 | h1
    · left
      refine ⟨h1.1, ?_⟩
      have := h1.2.1
      rwa [hEC, hEP, hd, hQ.weights, hoT] at this
    · exact Or.inr (Or.inl h1.1)
    · exact Or.inr (Or.inr h1.1)
    · exfalso
      have h2 := h1.2.2.2
      rw [le_real, decide_eq_true_eq, hEP] at h2
      rw [hEP, hQ.massRate] at hmass
      have h3 := hQ.massMin
      linarith
  -- all earlier iterations continued: the run limited to `n h` completes
  have main : ∀ n : ℕ, (n : ℝ) * h ≤ T → (∀ k < n, iter E (E.after k) = .cont (E.after (k + 1))) →
      (∀ k ≤ n, OnCharge P hi dis chg (drainSteps on h) (fillSteps dis chg (drainSteps on h)) h k (E.after k)) ∧
      ‖(E.after n).oe - γ (n * h)‖ ≤ K * h ∧ |(E.after n).mass - μ (n * h)| ≤ K * h := by
    intro n
    induction n with
    | zero =>
      intro _ _
      have h0 : E.after 0 = initLoop P := by rw [hE]; rfl
      have hx : (initLoop P).oe = γ 0 := hQ.start
      have hy : (initLoop P).mass = μ 0 := hQ.startMass
      refine ⟨fun k hk => ?_, ?_, ?_⟩
      · rw [Nat.le_zero.1 hk, h0]; exact onCharge_init hQ.battery.full _ _ h
      · rw [h0, hx]; simp; positivity
      · rw [h0, hy]; simp; positivity
    | succ n ih =>
      intro hn hc
      push_cast at hn
      obtain ⟨i1, i2, i3⟩ := ih (by linarith [show ((n : ℝ) + 1) * h = n * h + h by ring]) (fun k hk => hc k (by omega))
      obtain ⟨s, hs, hcase⟩ := stepping n (i1 n le_rfl) i2 i3 hn
      have hcn := hc n (by omega)
      have hss : E.after (n + 1) = s := by
        rcases hcase with ⟨h1, -⟩ | h1 | h1 <;> rw [hcn] at h1
        · injection h1
        · cases h1
        · cases h1
      have hO : ∀ k ≤ n + 1, OnCharge P hi dis chg (drainSteps on h) (fillSteps dis chg (drainSteps on h)) h k (E.after k) := by
        intro k hk
        rcases Nat.lt_or_ge k (n + 1) with h1 | h1
        · exact i1 k (by omega)
        · rw [le_antisymm hk h1, hss]; exact hs
      refine ⟨hO, ?_⟩
      -- the limited run
      set P' : Problem ℝ := { P with tfMax := (n + 1 : ℕ) * h } with hP'
      set Q1 : QLaw ℝ := { Q with prob := some P' } with hQ1
      set E' : Env ℝ := { E with prob := { E.prob with tfMax := (n + 1 : ℕ) * h } } with hE'
      have hEE : E' = envOf Q1 P' (.flt ea) (.flt er) := by
        rw [hE', hE]; rfl
      have haf : ∀ k, E'.after k = E.after k := after_tf E _
      have hpos : (0 : ℝ) < (n + 1 : ℕ) * h := by positivity
      have habs : ∀ k : ℕ, |(k : ℝ) * h| = k * h := fun k => abs_of_nonneg (by positivity)
      have hloop := loop_prefix (E := E') (n := n + 1) (fun k hk => by
        rw [haf]
        simp only [guardB, lt_real, abs_real, (hO k (by omega)).lastTime, decide_eq_true_eq, habs]
        show (k : ℝ) * h < |((n + 1 : ℕ) : ℝ) * h|
        rw [abs_of_pos hpos]
        have : (k : ℝ) < (n + 1 : ℕ) := by exact_mod_cast hk
        exact mul_lt_mul_of_pos_right this hh) (fun k hk => by
        rw [haf, haf]; exact hc k hk) 1
      have hend : loop E' 1 (E'.after (n + 1)) = some (.timeout (E'.after (n + 1))) := by
        have hg : guardB E'.prob (E'.after (n + 1)) = false := by
          rw [haf]
          simp only [guardB, lt_real, abs_real, (hO (n + 1) le_rfl).lastTime]
          exact decide_eq_false (by
            show ¬ |((n + 1 : ℕ) : ℝ) * h| < |((n + 1 : ℕ) : ℝ) * h|
            exact lt_irrefl _)
        simp only [loop, hg, Bool.false_eq_true, if_false]
      rw [hend, haf] at hloop
      have hini : initLoop E'.prob = initLoop P' := by rw [hEE]; rfl
      rw [hini, hEE] at hloop
      have hsol := solve_of_loop (Q := Q1) (P := P') rfl hQ.ready hloop
      have hH : (Q1.finish P' (.timeout (E.after (n + 1)))).hist = some (E.after (n + 1)).hist := rfl
      obtain ⟨m, hm1, hm2⟩ := (hO (n + 1) le_rfl).states
      have hx : (E.after (n + 1)).hist.states[n + 1]? = some (E.after (n + 1)).oe := by
        rw [hm1, List.getElem?_append_right (by omega), hm2]; simp
      obtain ⟨m', hm1', hm2'⟩ := (hO (n + 1) le_rfl).masses
      have hmm : (E.after (n + 1)).hist.masses[n + 1]? = some (E.after (n + 1)).mass := by
        rw [hm1', List.getElem?_append_right (by omega), hm2']; simp
      obtain ⟨f1, f2⟩ := follow Q1 _ P' _ (E.after (n + 1)) hQ.cfg rfl hQ.target hQ.weights hQ.thrust hQ.startMass
        hQ.massRate hQ.start hsol hH (n + 1) (hO (n + 1) le_rfl) (by push_cast; exact hn) (n + 1) _ _ hx hmm
      refine ⟨?_, f2⟩
      rw [pi_norm_le_iff_of_nonneg (by positivity)]
      intro i
      rw [Real.norm_eq_abs]
      exact f1 i
  intro n hn hc
  obtain ⟨m1, m2, m3⟩ := main n hn hc
  exact ⟨m1 n le_rfl, m2, fun hn1 => stepping n (m1 n le_rfl) m2 m3 hn1⟩

/-- **C122.** For an object without Sundman steps and with the integrator `rk4`, `require_full_recharge`, a full battery of
capacity `lo` to `hi`, positive rates `dis` and `chg`, and a duty cycle that plays no role, and a motion under the law and
the object's perturbations whose thrust is on while the battery drains from `hi` to `lo + 1e-12` (for `on`) and off while
it is recharged (for `off`), along which `Q` and the perturbations are smooth, the elements stay strictly inside their
bounds and the mass stays above the limit, there are a step length and a constant such that every run from the same
state with shorter steps `h`, effectivity thresholds not positive and a time limit inside the motion's interval returns
without exception. Its recorded times are the multiples of `h` up to the limit or up to convergence; it thrusts during
the `a` steps that take the battery to its minimum, coasts during the `b` steps that fill it again, and so on, with the
battery levels that follow; every recorded state and mass is within `K h` of the motion; and the run has converged (exit
code 1 or 2) or reached the limit (exit code -2). -/
theorem C122_completes : ∃ δ > 0, ∃ K ≥ 0, ∀ h, 0 < h → h < δ → ∀ (Q : QLaw ℝ) (P : Problem ℝ) (ea er : ℝ) (fuel : ℕ),
    ea ≤ 0 → er ≤ 0 → StartsCharge C oeT woe tmax (μ 0) mdot lo hi dis chg pause ml h T (γ 0) Q P → P.tfMax ≠ 0 → |P.tfMax| + h ≤ T →
    |P.tfMax| / h + 2 ≤ fuel →
    ∃ Q' H n a b, a = ⌈on / h⌉₊ ∧ b = ⌈a * dis / chg⌉₊ ∧ Q.solve (.flt ea) (.flt er) fuel = some (Q', none) ∧ Q'.hist = some H ∧
      H.times = (List.range (n + 1)).map (fun k : ℕ => (k : ℝ) * h) ∧ (n : ℝ) * h < |P.tfMax| + h ∧
      H.states.length = n + 1 ∧ H.masses.length = n + 1 ∧ H.controls.length = n ∧
      (∀ k c, H.controls[k]? = some c →
        c.2.2 = if k % (a + b) < a then 1 else 0) ∧
      H.battery.length = n + 1 ∧
      (∀ k β, H.battery[k]? = some β → β = if k % (a + b) ≤ a then hi - (k % (a + b) : ℕ) * (dis * h)
        else hi - a * (dis * h) + ((k % (a + b) - a : ℕ) : ℝ) * (chg * h)) ∧
      (∀ (k : ℕ) (x : Fin 6 → ℝ) (m : ℝ), H.states[k]? = some x → H.masses[k]? = some m →
        (∀ i, |x i - γ (k * h) i| ≤ K * h) ∧ |m - μ (k * h)| ≤ K * h) ∧
      ((Q'.exitcode = 1 ∨ Q'.exitcode = 2) ∧ Q'.converge = true ∨
        Q'.exitcode = -2 ∧ Q'.converge = false ∧ |P.tfMax| ≤ n * h) := by
  obtain ⟨δ1, hδ1, K1, hK1, hpr⟩ := progress_charge hnan hd hsun hint hl hdis hchg hcap hpause hon hoff hM hS hT0 hT hm
  refine ⟨δ1, hδ1, K1, hK1, ?_⟩
  intro h hh hhδ Q P ea er fuel hea her hQ htf htfT hfuel
  obtain ⟨hpr, hlim⟩ := hpr h hh hhδ Q P ea er hea her hQ _ rfl
  obtain ⟨N, hN⟩ : ∃ N, N = ⌈|P.tfMax| / h⌉₊ := ⟨_, rfl⟩
  have hN1 : |P.tfMax| ≤ N * h := by
    have := Nat.le_ceil (|P.tfMax| / h)
    rw [← hN, div_le_iff₀ hh] at this
    exact this
  have hN2 : (N : ℝ) < |P.tfMax| / h + 1 := by rw [hN]; exact Nat.ceil_lt_add_one (by positivity)
  have hN3 : (N : ℝ) * h < |P.tfMax| + h := by
    have := mul_lt_mul_of_pos_right hN2 hh
    rwa [add_mul, div_mul_cancel₀ _ hh.ne', one_mul] at this
  have hNg : ∀ k < N, (k : ℝ) * h < |P.tfMax| := by
    intro k hk
    rw [hN, Nat.lt_ceil, lt_div_iff₀ hh] at hk
    exact hk
  have hNf : N + 1 ≤ fuel := by
    have : ((N + 1 : ℕ) : ℝ) < fuel := by push_cast; linarith
    exact_mod_cast this.le
  -- a finished run of `n` steps
  have fin : ∀ (n : ℕ) (s : LoopSt ℝ) (r : RunRes ℝ), n ≤ N →
      OnCharge P hi dis chg (drainSteps on h) (fillSteps dis chg (drainSteps on h)) h n s → r.st = s → r.error? = none →
      loop (envOf Q P (.flt ea) (.flt er)) fuel (initLoop P) = some r →
      ((Q.finish P r).exitcode = 1 ∨ (Q.finish P r).exitcode = 2) ∧ (Q.finish P r).converge = true ∨
        (Q.finish P r).exitcode = -2 ∧ (Q.finish P r).converge = false ∧ |P.tfMax| ≤ n * h →
      ∃ Q' H n a b, a = ⌈on / h⌉₊ ∧ b = ⌈a * dis / chg⌉₊ ∧ Q.solve (.flt ea) (.flt er) fuel = some (Q', none) ∧ Q'.hist = some H ∧
        H.times = (List.range (n + 1)).map (fun k : ℕ => (k : ℝ) * h) ∧ (n : ℝ) * h < |P.tfMax| + h ∧
        H.states.length = n + 1 ∧ H.masses.length = n + 1 ∧ H.controls.length = n ∧
        (∀ k c, H.controls[k]? = some c →
          c.2.2 = if k % (a + b) < a then 1 else 0) ∧
      H.battery.length = n + 1 ∧
      (∀ k β, H.battery[k]? = some β → β = if k % (a + b) ≤ a then hi - (k % (a + b) : ℕ) * (dis * h)
        else hi - a * (dis * h) + ((k % (a + b) - a : ℕ) : ℝ) * (chg * h)) ∧
        (∀ (k : ℕ) (x : Fin 6 → ℝ) (m : ℝ), H.states[k]? = some x → H.masses[k]? = some m →
          (∀ i, |x i - γ (k * h) i| ≤ K1 * h) ∧ |m - μ (k * h)| ≤ K1 * h) ∧
        ((Q'.exitcode = 1 ∨ Q'.exitcode = 2) ∧ Q'.converge = true ∨
          Q'.exitcode = -2 ∧ Q'.converge = false ∧ |P.tfMax| ≤ n * h) := by
    intro n s r hn hO hrs hre hlo hcode
    have hsol := solve_of_loop hQ.prob hQ.ready hlo
    rw [hre] at hsol
    have hH : (Q.finish P r).hist = some s.hist := by rw [← hrs]; rfl
    have hnN : (n : ℝ) ≤ N := by exact_mod_cast hn
    obtain ⟨ls, hs1, hs2⟩ := hO.states
    obtain ⟨lm, hm1, hm2⟩ := hO.masses
    refine ⟨_, _, n, drainSteps on h, fillSteps dis chg (drainSteps on h), rfl, rfl, hsol, hH, hO.times, ?_, ?_, ?_,
      hO.controls.1, fun k c hc => ?_, ?_, hO.level, ?_, hcode⟩
    · nlinarith
    · rw [hs1, List.length_append, hs2]; rfl
    · rw [hm1, List.length_append, hm2]; rfl
    · have := hO.controls.2 k c hc
      rw [this]; simp [cycleOn]
    · rw [hO.levels]; simp
    · exact hlim fuel _ _ hsol hH n hO (by nlinarith)
  rcases first_break_of (E := envOf Q P (.flt ea) (.flt er)) (P := P) rfl hh
      (I := fun n s => OnCharge P hi dis chg (drainSteps on h) (fillSteps dis chg (drainSteps on h)) h n s) (fun n s hO => hO.lastTime)
      (fun n hn hc => ⟨(hpr n hn hc).1, (hpr n hn hc).2.2⟩) N (by linarith) hNg with
    ⟨h1, -, h2⟩ | ⟨m, hmN, s, c, h1, hc, h2⟩
  · have h3 := h2 hN1 (fuel - (N + 1))
    rw [show N + 1 + (fuel - (N + 1)) = fuel by omega] at h3
    obtain ⟨f1, f2, -⟩ := finish_timeout Q P ((envOf Q P (.flt ea) (.flt er)).after N) hQ.fresh.1 hQ.fresh.2
    exact fin N _ _ le_rfl (hpr N (by linarith) h1).1 rfl rfl h3 (Or.inr ⟨f1, f2, hN1⟩)
  · have h3 := h2 (fuel - (m + 1))
    rw [show m + 1 + (fuel - (m + 1)) = fuel by omega] at h3
    obtain ⟨f1, f2, -⟩ := finish_exit Q P s c
    exact fin (m + 1) s _ hmN h1 rfl rfl h3 (Or.inl ⟨by rw [f1]; exact hc, by rw [f2, if_pos hc]⟩)

/-- **C122.** If moreover the switched motion is strictly inside the tolerances of the target at some time `tc` before
`T`, every run with shorter steps and a time limit not before `tc` converges: it returns without exception, with
`converge` set and exit code 1 or 2, at the latest one step after `tc`, having followed the battery cycle and the motion. -/
theorem C122_reaches {tc : ℝ} (htc : 0 ≤ tc) (htcT : tc < T) (hin : StrictlyInside et oeT woe C.tolOe (γ tc)) :
    ∃ δ > 0, ∃ K ≥ 0, ∀ h, 0 < h → h < δ → ∀ (Q : QLaw ℝ) (P : Problem ℝ) (ea er : ℝ) (fuel : ℕ),
    ea ≤ 0 → er ≤ 0 → StartsCharge C oeT woe tmax (μ 0) mdot lo hi dis chg pause ml h T (γ 0) Q P → P.tfMax ≠ 0 → tc ≤ |P.tfMax| →
    tc / h + 2 ≤ fuel →
    ∃ Q' H n a b, a = ⌈on / h⌉₊ ∧ b = ⌈a * dis / chg⌉₊ ∧ Q.solve (.flt ea) (.flt er) fuel = some (Q', none) ∧ Q'.hist = some H ∧
      Q'.converge = true ∧ (Q'.exitcode = 1 ∨ Q'.exitcode = 2) ∧
      H.times = (List.range (n + 1)).map (fun k : ℕ => (k : ℝ) * h) ∧ (n : ℝ) * h ≤ tc + h ∧
      H.states.length = n + 1 ∧ H.masses.length = n + 1 ∧
      (∀ k c, H.controls[k]? = some c →
        c.2.2 = if k % (a + b) < a then 1 else 0) ∧
      H.battery.length = n + 1 ∧
      (∀ k β, H.battery[k]? = some β → β = if k % (a + b) ≤ a then hi - (k % (a + b) : ℕ) * (dis * h)
        else hi - a * (dis * h) + ((k % (a + b) - a : ℕ) : ℝ) * (chg * h)) ∧
      (∀ (k : ℕ) (x : Fin 6 → ℝ) (m : ℝ), H.states[k]? = some x → H.masses[k]? = some m →
        (∀ i, |x i - γ (k * h) i| ≤ K * h) ∧ |m - μ (k * h)| ≤ K * h) := by
  obtain ⟨δ1, hδ1, K, hK, hpr⟩ := progress_charge hnan hd hsun hint hl hdis hchg hcap hpause hon hoff hM hS hT0 hT hm
  -- a neighbourhood of the motion at `tc` that passes the check
  obtain ⟨ε, hε, hball⟩ := Metric.isOpen_iff.1 (inside_open et oeT woe C.tolOe) _ hin
  have hct : ContinuousWithinAt γ (Icc 0 T) tc := hM.1 tc ⟨htc, htcT.le⟩
  obtain ⟨η, hη, hcl⟩ := Metric.continuousWithinAt_iff.1 hct (ε / 2) (by positivity)
  refine ⟨min (min δ1 η) (min (T - tc) (ε / 2 / (K + 1))), by
    have : 0 < T - tc := by linarith
    positivity, K, hK, ?_⟩
  intro h hh hhδ Q P ea er fuel hea her hQ htf htcf hfuel
  have d1 : h < δ1 := hhδ.trans_le ((min_le_left _ _).trans (min_le_left _ _))
  have d2 : h < η := hhδ.trans_le ((min_le_left _ _).trans (min_le_right _ _))
  have d3 : h < T - tc := hhδ.trans_le ((min_le_right _ _).trans (min_le_left _ _))
  have d4 : K * h < ε / 2 := by
    have := hhδ.trans_le ((min_le_right _ _).trans (min_le_right _ _))
    rw [lt_div_iff₀ (by positivity)] at this
    nlinarith
  obtain ⟨hpr, hlim⟩ := hpr h hh d1 Q P ea er hea her hQ _ rfl
  obtain ⟨N, hN⟩ : ∃ N, N = max 1 ⌈tc / h⌉₊ := ⟨_, rfl⟩
  have hN0 : 0 < N := by rw [hN]; exact lt_of_lt_of_le one_pos (le_max_left _ _)
  have hN1 : tc ≤ N * h := by
    have h1 := Nat.le_ceil (tc / h)
    rw [div_le_iff₀ hh] at h1
    have h2 : ((⌈tc / h⌉₊ : ℕ) : ℝ) ≤ N := by rw [hN]; exact_mod_cast le_max_right _ _
    nlinarith
  have hN2 : (N : ℝ) ≤ tc / h + 1 := by
    rw [hN, Nat.cast_max]
    refine max_le ?_ (Nat.ceil_lt_add_one (by positivity)).le
    have : 0 ≤ tc / h := by positivity
    push_cast; linarith
  have hN3 : (N : ℝ) * h ≤ tc + h := by
    have := mul_le_mul_of_nonneg_right hN2 hh.le
    rwa [add_mul, div_mul_cancel₀ _ hh.ne', one_mul] at this
  have hNg : ∀ k < N, (k : ℝ) * h < |P.tfMax| := by
    intro k hk
    rw [hN, lt_max_iff] at hk
    rcases hk with hk | hk
    · have : k = 0 := by omega
      subst this; simpa using htf
    · rw [Nat.lt_ceil, lt_div_iff₀ hh] at hk
      linarith
  have hNf : N + 1 ≤ fuel := by
    have : ((N + 1 : ℕ) : ℝ) ≤ fuel := by push_cast; linarith
    exact_mod_cast this
  rcases first_break_of (E := envOf Q P (.flt ea) (.flt er)) (P := P) rfl hh
      (I := fun n s => OnCharge P hi dis chg (drainSteps on h) (fillSteps dis chg (drainSteps on h)) h n s) (fun n s hO => hO.lastTime)
      (fun n hn hc => ⟨(hpr n hn hc).1, (hpr n hn hc).2.2⟩) N (by linarith) hNg with
    ⟨h0, h2, -⟩ | ⟨m, hmN, s, c, h1, hc, h2⟩
  · exfalso
    have h1 := (hpr N (by linarith) h0).2.1
    have h3 : dist (γ (N * h)) (γ tc) < ε / 2 := by
      refine hcl ⟨by positivity, by linarith⟩ ?_
      rw [Real.dist_eq, abs_of_nonneg (by linarith)]
      linarith
    rw [dist_eq_norm] at h3
    have h4 : ((envOf Q P (.flt ea) (.flt er)).after N).oe ∈ ball (γ tc) ε := by
      rw [mem_ball, dist_eq_norm]
      have e : ((envOf Q P (.flt ea) (.flt er)).after N).oe - γ tc =
        (((envOf Q P (.flt ea) (.flt er)).after N).oe - γ (N * h)) + (γ (N * h) - γ tc) := by abel
      rw [e]
      exact (norm_add_le _ _).trans_lt (by linarith)
    have h5 := inside_conv (hball h4)
    rw [h2 hN0] at h5
    cases h5
  · have h3 := h2 (fuel - (m + 1))
    rw [show m + 1 + (fuel - (m + 1)) = fuel by omega] at h3
    obtain ⟨f1, f2, f3⟩ := finish_exit Q P s c
    have hsol := solve_of_loop hQ.prob hQ.ready h3
    have hmN' : ((m + 1 : ℕ) : ℝ) ≤ N := by exact_mod_cast hmN
    obtain ⟨ls, hs1, hs2⟩ := h1.states
    obtain ⟨lm, hm1, hm2⟩ := h1.masses
    refine ⟨_, _, m + 1, drainSteps on h, fillSteps dis chg (drainSteps on h), rfl, rfl, hsol, f3, by rw [f2, if_pos hc], by rw [f1]; exact hc, h1.times, by nlinarith, ?_, ?_,
      fun k c hk => ?_, ?_, h1.level, hlim fuel _ _ hsol f3 (m + 1) h1 (by nlinarith)⟩
    · rw [hs1, List.length_append, hs2]; rfl
    · rw [hm1, List.length_append, hm2]; rfl
    · have := h1.controls.2 k c hk
      rw [this]; simp [cycleOn]
    · rw [h1.levels]; simp

end completes

namespace Burn
open CoastSample

/-- the sample with a battery that lasts for `T / 5` and is recharged in `T / 7` -/
noncomputable def probV (h T tf : ℝ) : Problem ℝ :=
  { prob with tStep := h, tfMax := tf, mdot := 1 / 10, massMin := 0, dutyOn := T, dutyOff := 0, batteryInitial := 2,
              capMin := 1 - 1 / 10 ^ 12, capMax := 2, dischargeRate := 5 / T, chargeRate := 7 / T,
              requireFullRecharge := true }

noncomputable def objV (τ h T tf : ℝ) : QLaw ℝ :=
  { cfg := cfgDTol τ, prob := some (probV h T tf), ready := true, converge := false, exitcode := 0, hist := none }

theorem starts_V (τ h T tf : ℝ) :
    StartsCharge (cfgDTol τ) ![2, 0, 0, 0, 0] ![1, 0, 0, 0, 0] (1 / 100) 1 (1 / 10) (1 - 1 / 10 ^ 12) 2 (5 / T) (7 / T) 0 0 h T
      prob.oe0 (objV τ h T tf) (probV h T tf) := by
  refine ⟨rfl, rfl, rfl, ⟨rfl, rfl⟩, by simp [probV, prob], rfl, rfl, rfl, rfl, rfl, rfl,
    ⟨rfl, rfl, rfl, rfl, rfl, rfl, le_rfl, rfl⟩, le_rfl⟩

/-- C122: from the initial state of `Burn` there is a motion with the perturbations of a third body, radiation
pressure and oblateness whose thrust is switched twice before half time; short-step runs with a battery that
is drained and recharged in this rhythm complete and
follow it, thrusting at first and coasting later, and with a tolerance just above the distance of the motion from the
target at half time they converge by then -/
example : ∃ T > 0, ∃ γ μ, γ 0 = prob.oe0 ∧ μ 0 = 1 ∧
    SwitchedMotion cfgD .keplerian ![2, 0, 0, 0, 0] ![1, 0, 0, 0, 0] (1 / 100) (1 / 10) 1 1 T
      (dutySchedule (T / 5) (T / 7)) γ μ ∧
    dutySchedule (T / 5) (T / 7) 0 = true ∧ dutySchedule (T / 5) (T / 7) (T / 4) = false ∧
    dutySchedule (T / 5) (T / 7) (T / 2) = true ∧
    (∀ τ, ∃ δ > 0, ∃ K, ∀ h, 0 < h → h < δ → ∀ fuel : ℕ, T / 2 / h + 2 ≤ fuel → ∃ Q' H,
      (objV τ h T (T / 2)).solve (.flt 0) (.flt 0) fuel = some (Q', none) ∧ Q'.hist = some H ∧
      (∀ (k : ℕ) (x : Fin 6 → ℝ) (m : ℝ), H.states[k]? = some x → H.masses[k]? = some m →
        (∀ i, |x i - γ (k * h) i| ≤ K * h) ∧ |m - μ (k * h)| ≤ K * h)) ∧
    ∀ τ, |2 - γ (T / 2) 0| < τ → ∃ δ > 0, ∀ h, 0 < h → h < δ → ∀ fuel : ℕ, T / 2 / h + 2 ≤ fuel → ∃ Q',
      (objV τ h T T).solve (.flt 0) (.flt 0) fuel = some (Q', none) ∧ Q'.converge = true := by
  have hbox : IsOpen {x : Fin 6 → ℝ | ∀ j : Fin 5, 0 < x j.castSucc ∧ x j.castSucc < 9} := by
    simp only [Set.ofPred_forall]
    refine isOpen_iInter_of_finite fun j => ?_
    exact (isOpen_lt continuous_const (continuous_apply _)).inter (isOpen_lt (continuous_apply _) continuous_const)
  obtain ⟨T, hT, hex⟩ := C117_exists (C := cfgD) (et := .keplerian) (oeT := ![2, 0, 0, 0, 0])
    (woe := ![1, 0, 0, 0, 0]) (tmax := 1 / 100) (m0 := 1) (ml := 0) (mdot := 1 / 10) (σ := 1) (g := 1) (x := prob.oe0)
    (Or.inl rfl) smooth_d ⟨1, by decide, burn_grad _ oe0_box⟩ (pert_d _) hbox (burn_region.inside _ oe0_box)
    (by norm_num) (by norm_num) (by norm_num)
  have hon : 0 < T / 5 := by positivity
  have hoff : 0 < T / 7 := by positivity
  obtain ⟨γ, μ, h0, h0', hM, hS⟩ := hex _ (dutySchedule_piecewise hon hoff hT.le)
  have hbd : ∀ τ, (cfgDTol τ).elementsType = .keplerian →
      BoundsAre (cfgDTol τ).oeMin (fun _ => 0) ∧ BoundsAre (cfgDTol τ).oeMax (fun _ => 9) := by
    intro τ _; constructor <;> intro j <;> fin_cases j <;> rfl
  have hm : ∀ s ∈ Icc 0 T, 0 < μ s ∧ 0 < μ s := fun s hs => ⟨(hS s hs).1, (hS s hs).1⟩
  refine ⟨T, hT, γ, μ, h0, h0', hM, ?_, ?_, ?_, fun τ => ?_, fun τ hτ => ?_⟩
  · exact dutySchedule_on hon hoff 0 ⟨by simp, by simpa using hT⟩
  · exact dutySchedule_off hon hoff 0 ⟨by push_cast; linarith, by push_cast; linarith⟩
  · exact dutySchedule_on hon hoff 1 ⟨by push_cast; linarith, by push_cast; linarith⟩
  · obtain ⟨δ, hδ, K, hK, hL⟩ := C122_completes (C := cfgDTol τ) (et := .keplerian) (fun _ => rfl) rfl rfl rfl
      (hbd τ) (dis := 5 / T) (chg := 7 / T) (lo := 1 - 1 / 10 ^ 12) (hi := 2)
      (pause := 0) (by positivity) (by positivity) (by norm_num) (by norm_num; exact hT) (by field_simp; norm_num) (by field_simp; norm_num) hM (fun t ht => ⟨(hS t ht).2.2.1, (hS t ht).2.2.2.1, fun _ => (hS t ht).2.2.2.2⟩) hT
      (by norm_num) hm
    refine ⟨min δ (T / 2), by positivity, K, fun h hh hhd fuel hf => ?_⟩
    have e2 := hhd.trans_le (min_le_right _ _)
    have etf : |(probV h T (T / 2)).tfMax| = T / 2 := abs_of_pos (show 0 < T / 2 by positivity)
    have etf0 : (probV h T (T / 2)).tfMax ≠ 0 := by simp only [probV]; linarith
    obtain ⟨Q', H, n, a, b, -, -, k1, k2, -, -, -, -, -, -, -, -, k3, -⟩ := hL h hh (hhd.trans_le (min_le_left _ _))
      (objV τ h T (T / 2)) (probV h T (T / 2)) 0 0 fuel le_rfl le_rfl (by rw [h0, h0']; exact starts_V _ _ _ _) etf0
      (by rw [etf]; linarith) (by rw [etf]; exact hf)
    exact ⟨Q', H, k1, k2, k3⟩
  · obtain ⟨δ, hδ, K, -, hL⟩ := C122_reaches (C := cfgDTol τ) (et := .keplerian) (fun _ => rfl) rfl rfl rfl (hbd τ) (dis := 5 / T) (chg := 7 / T) (lo := 1 - 1 / 10 ^ 12) (hi := 2)
      (pause := 0) (by positivity) (by positivity) (by norm_num) (by norm_num; exact hT) (by field_simp; norm_num) (by field_simp; norm_num) hM
      (fun t ht => ⟨(hS t ht).2.2.1, (hS t ht).2.2.2.1, fun _ => (hS t ht).2.2.2.2⟩) hT (by norm_num) hm
      (tc := T / 2) (by linarith) (by linarith) (by
        intro j
        fin_cases j
        · right; exact ⟨0, Or.inl rfl, by simpa [cfgDTol] using hτ⟩
        all_goals (left; rfl))
    refine ⟨δ, hδ, fun h hh hhd fuel hf => ?_⟩
    obtain ⟨Q', H, n, a, b, -, -, k1, -, k2, -⟩ := hL h hh hhd (objV τ h T T) (probV h T T) 0 0 fuel le_rfl le_rfl
      (by rw [h0, h0']; exact starts_V _ _ _ _) (by simp only [probV]; linarith)
      (by simp only [probV]; rw [abs_of_pos hT]; linarith) hf
    exact ⟨Q', k1, k2⟩

end Burn

end PyQ
