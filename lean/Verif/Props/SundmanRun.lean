import Verif.Proofs.SundmanClock

/-!
C119: short-step runs with Sundman steps and a duty cycle complete and follow the motion whose thrust is switched by the
cycle.
-/

set_option linter.unusedSectionVars false
set_option maxRecDepth 100000

open Set Metric Topology

namespace PyQ

/-- the loop variables after `n` steps at the times `τ`, of lengths between `lo` and `hi`, of a run with a duty cycle -/
structure OnSteps (P : Problem ℝ) (lo hi : ℝ) (τ : ℕ → ℝ) (n : ℕ) (s : LoopSt ℝ) : Prop where
  times : s.hist.times = (List.range (n + 1)).map τ
  first : τ 0 = 0
  last : τ n = s.t
  gaps : ∀ k < n, τ k + lo ≤ τ (k + 1) ∧ τ (k + 1) ≤ τ k + hi
  battery : P.batteryInitial - P.dischargeRate * s.t ≤ s.battery ∧ s.battery ≤ P.capMax
  vars : ∃ tp, tp ≤ s.t ∧ s.t ≤ tp + hi ∧ DutyNear P.dutyOn P.dutyOff hi tp s.duty s.tOn s.tOff
  start : n = 0 → s.duty = true ∧ s.tOn = 0
  charging : s.charging = false
  controls : s.hist.controls.length = n ∧ ∀ k c, s.hist.controls[k]? = some c → ∃ duty tOn tOff,
    c.2.2 = (if duty then 1 else 0) ∧ DutyNear P.dutyOn P.dutyOff hi (τ k) duty tOn tOff
  states : ∃ l, s.hist.states = l ++ [s.oe] ∧ l.length = n
  masses : ∃ l, s.hist.masses = l ++ [s.mass] ∧ l.length = n
  angles : 0 < n → s.alpha ≠ none ∧ s.beta ≠ none

theorem onSteps_init {P : Problem ℝ} (hb : P.batteryInitial ≤ P.capMax) (hon : 0 ≤ P.dutyOn) {lo hi : ℝ} (hhi : 0 ≤ hi) :
    OnSteps P lo hi (fun _ => 0) 0 (initLoop P) := by
  constructor
  case vars =>
    refine ⟨0, by simp [initLoop], ?_, 0, ?_⟩
    · simp [initLoop, hhi]
    · simp [initLoop, hon]
  all_goals simp [initLoop, hb]

theorem OnSteps.relaxed {P : Problem ℝ} {lo hi : ℝ} {τ : ℕ → ℝ} {n : ℕ} {s : LoopSt ℝ} (H : OnSteps P lo hi τ n s) (r : ℕ) :
    OnSteps P lo hi τ n { s with nRelaxed := r } := ⟨H.1, H.2, H.3, H.4, H.5, H.6, H.7, H.8, H.9, H.10, H.11, H.12⟩

theorem OnSteps.lastTime {P : Problem ℝ} {lo hi : ℝ} {τ : ℕ → ℝ} {n : ℕ} {s : LoopSt ℝ} (H : OnSteps P lo hi τ n s) :
    s.hist.lastTime = s.t := by
  simp [Hist.lastTime, H.times, List.range_succ, H.last]

theorem OnSteps.time {P : Problem ℝ} {lo hi : ℝ} {τ : ℕ → ℝ} {n : ℕ} {s : LoopSt ℝ} (H : OnSteps P lo hi τ n s) {k : ℕ}
    (hk : k ≤ n) : s.hist.times[k]? = some (τ k) := by
  rw [H.times, List.getElem?_map, List.getElem?_range (by omega)]; rfl

theorem OnSteps.ge {P : Problem ℝ} {lo hi : ℝ} {τ : ℕ → ℝ} {n : ℕ} {s : LoopSt ℝ} (H : OnSteps P lo hi τ n s) :
    n * lo ≤ s.t := by
  have := spaced_le (fun k hk => (H.gaps k hk).1) (Nat.zero_le n) le_rfl
  rw [H.first, H.last] at this
  simpa using this

theorem OnSteps.mem {P : Problem ℝ} {lo hi : ℝ} {τ : ℕ → ℝ} {n : ℕ} {s : LoopSt ℝ} (H : OnSteps P lo hi τ n s)
    (hlo : 0 < lo) {k : ℕ} (hk : k ≤ n) : 0 ≤ τ k ∧ τ k ≤ s.t := by
  have h1 := spaced_le (fun k hk => (H.gaps k hk).1) (Nat.zero_le k) hk
  have h2 := spaced_le (fun k hk => (H.gaps k hk).1) hk le_rfl
  rw [H.first] at h1
  rw [H.last] at h2
  have p1 : (0 : ℝ) ≤ (k - 0 : ℕ) * lo := by positivity
  have p2 : (0 : ℝ) ≤ (n - k : ℕ) * lo := by positivity
  exact ⟨by linarith, by linarith⟩

theorem OnSteps.switches {P : Problem ℝ} {T lo hi R : ℝ} (hlo : 0 < lo) (hhi : 0 < hi) (hR : hi ≤ R * lo)
    (hon : 0 < P.dutyOn) (hoff : 0 < P.dutyOff) {τ : ℕ → ℝ} {n : ℕ} {s : LoopSt ℝ} (H : OnSteps P lo hi τ n s) {k : ℕ}
    (hk : k ≤ n) (hT : s.t ≤ T) :
    SwitchesUpTo 1 (dutySchedule P.dutyOn P.dutyOff) s.hist k ((⌊T / (P.dutyOn + P.dutyOff)⌋₊ + 1) *
      (2 * (⌊2 * (((2 * ⌊T / (P.dutyOn + P.dutyOff)⌋₊ + 1 : ℕ) : ℝ) * R)⌋₊ + 1))) hi := by
  obtain ⟨S, hS, hmem⟩ := nearSwitch_card (on := P.dutyOn) (off := P.dutyOff) hlo hR (⌊T / (P.dutyOn + P.dutyOff)⌋₊ + 1)
    (2 * ⌊T / (P.dutyOn + P.dutyOff)⌋₊ + 1) (fun k hk => (H.gaps k hk).1)
  refine ⟨S, hS, fun j hj => ?_⟩
  have hlt : j < s.hist.controls.length := by rw [H.controls.1]; omega
  have hg := List.getElem?_eq_getElem hlt
  obtain ⟨duty, tOn, tOff, h1, h2⟩ := H.controls.2 _ _ hg
  obtain ⟨g1, g2⟩ := H.gaps j (by omega)
  refine ⟨s.hist.controls[j].1, s.hist.controls[j].2.1, _, τ j, τ (j + 1), hg, H.time (by omega),
    H.time (by omega), by linarith, by linarith, ?_⟩
  have hj := (H.mem hlo (show j ≤ n by omega)).2
  refine (dutyNear_matches hon hoff hhi (hj.trans hT) g2 h2).imp (hmem j (by omega)) fun h3 r hr => ?_
  rw [one_mul, one_mul] at hr
  rw [h3 r hr]
  show _ ↔ s.hist.controls[j].2.2 = 1
  rw [h1]
  split_ifs with h4 <;> simp [h4]

/-- one step of the loop at a state where the law and the integrator are defined -/
theorem step_fine_steps [PyNan ℝ] (hnan : ∀ x : ℝ, PyNan.isnan x = false) {E : Env ℝ} {et : ElemType}
    (hd : E.cfg.dyn = dynOf et) (hi : E.cfg.integrator = .rk4)
    {oeT l u : Fin 5 → ℝ} {h lo hi' T ea er : ℝ} {τ : ℕ → ℝ} {n : ℕ} {s : LoopSt ℝ}
    (hl : E.cfg.elementsType = .keplerian → BoundsAre E.cfg.oeMin l ∧ BoundsAre E.cfg.oeMax u)
    (hch : chooseStep E.cfg E.prob s.oe = .ok h) (hoe : E.prob.oeT = List.ofFn oeT) (hea : E.etaA = .flt ea) (her : E.etaR = .flt er)
    (hea0 : ea ≤ 0) (her0 : er ≤ 0) (hB : AmpleBattery E.prob T) (hon : 0 < E.prob.dutyOn) (hoff : 0 < E.prob.dutyOff)
    (hlo : 0 < lo) (hlo' : lo ≤ h) (hhi : h ≤ hi') (hn : s.t + h ≤ T) (hO : OnSteps E.prob lo hi' τ n s)
    (hbd : E.cfg.elementsType = .keplerian → ∀ j : Fin 5, l j < s.oe j.castSucc ∧ s.oe j.castSucc < u j)
    {o : ControlOut ℝ} (ho : lyapunovControlAngles (dynOf (α := ℝ) et).lyapFun
      (callAt E.cfg oeT E.prob.woe (E.prob.tmax / s.mass) s.oe) = .ok o)
    {q : Fin 3 → ℝ} (hq : PerturbationIs E.cfg s.t s.oe q)
    (hz : ∀ p, ∀ c : Bool, p =
        { mu := E.cfg.mu, u := vsmul (switchedThrust c (E.prob.tmax / s.mass)) (dirOf o.alpha o.beta),
          psi0 := o.psi 0, psi1 := o.psi 1, psi2 := o.psi 2, ptrb := q } →
      ∃ z, rk4 (dynOf (α := ℝ) et).eom s.t h s.oe p = .ok z) :
    ∃ D τ', RecStep E s D ∧ OnSteps E.prob lo hi' τ' (n + 1) (postState E D) ∧ (postState E D).t = s.t + h ∧ D.c.oeT = oeT ∧
      s.mass - |E.prob.mdot| * h ≤ (postState E D).mass := by
  have hcl : clampPhase E.cfg s = .ok s := by
    unfold clampPhase
    cases hE : E.cfg.elementsType with
    | meeWithA => rfl
    | keplerian =>
      obtain ⟨h1, h2⟩ := hl hE
      obtain ⟨L, hL⟩ := bounds_list h1
      obtain ⟨U, hU⟩ := bounds_list h2
      have h3 : elementsSafety s.oe E.cfg.oeMin E.cfg.oeMax = .ok s.oe := by
        cases hs : elementsSafety s.oe E.cfg.oeMin E.cfg.oeMax with
        | error e => rw [hL, hU] at hs; simp [elementsSafety] at hs
        | ok y => rw [safety_same h1 h2 (fun j => ⟨(hbd hE j).1.le, (hbd hE j).2.le⟩) hs]
      obtain ⟨m, hm, -⟩ := hO.states
      simp only [h3, Bind.bind, Except.bind, pure, Except.pure, hm, List.dropLast_concat]
      rw [← hm]
  have hh : 0 < h := by linarith
  have hs0 : 0 ≤ s.t := by
    have h1 := hO.ge
    have h2 : (0 : ℝ) ≤ n * lo := by positivity
    linarith
  obtain ⟨hb1, hb2⟩ := hO.battery
  have hdis := hB.discharge
  have hlev1 : E.prob.capMin + 1 / 10 ^ 12 < E.prob.batteryInitial - E.prob.dischargeRate * (s.t + h) :=
    hB.level.trans_le (by linarith [mul_le_mul_of_nonneg_left hn hdis])
  have e12 : (0 : ℝ) < 1 / 10 ^ 12 := by positivity
  have hsplit : E.prob.dischargeRate * (s.t + h) = E.prob.dischargeRate * s.t + E.prob.dischargeRate * h := by ring
  have hdh : 0 ≤ E.prob.dischargeRate * h := mul_nonneg hdis hh.le
  obtain ⟨tp, tp1, tp2, hvars⟩ := hO.vars
  obtain ⟨duty, tOn, tOff, hdu, hvars, hstay⟩ := duty_near_step (P := E.prob) (s := s) (st := h) hon.le hoff.le hvars tp1 tp2
    hO.charging (by linarith) (by linarith)
  have hσsgn : PyOrd.sign h = (1 : ℝ) := by
    exact sign_signed (Or.inl rfl) (by rw [one_mul]; exact hh)
  have hacc : lyapArgs E.cfg E.prob oeT (E.prob.tmax / s.mass) s.oe =
      callAt E.cfg oeT E.prob.woe (E.prob.tmax / s.mass) s.oe := rfl
  have hv5 : asVec5 E.prob.oeT = .ok oeT := by
    rw [hoe]
    simp only [List.ofFn_succ, List.ofFn_zero, asVec5]
    congr 1
    funext j; fin_cases j <;> rfl
  have hs1 : (PyOrd.sign h * E.prob.tmax / s.mass : ℝ) = E.prob.tmax / s.mass := by
    rw [hσsgn, one_mul]
  obtain ⟨c, al, be, hc, c1, c2, c3, c4, c5, c6⟩ : ∃ c al be, controlPhase E s (dutyPhase E.prob s h) = .ok (.ctl c) ∧
      c.alpha = some al ∧ c.beta = some be ∧ c.throttle = (if duty then 1 else 0) ∧
      c.u = vsmul (switchedThrust duty (E.prob.tmax / s.mass)) (dirOf o.alpha o.beta) ∧ c.psi = o.psi ∧ c.oeT = oeT := by
    rw [hdu]
    cases hdd : duty with
    | true =>
      simp only [controlPhase, hs1, hv5, hd, hacc, ho, hnan, hea, her, evalEta, Bind.bind, Except.bind, lt_real,
        Nat.cast_zero, not_lt.2 hea0, not_lt.2 her0, pure, Except.pure]
      exact ⟨_, _, _, rfl, rfl, rfl, rfl, rfl, rfl, rfl⟩
    | false =>
      have hn0 : 0 < n := by
        rcases Nat.eq_zero_or_pos n with h0 | h0
        · exfalso
          obtain ⟨z1, z2⟩ := hO.start h0
          have z3 : s.t = 0 := by rw [← hO.last, h0]; exact hO.first
          have := hstay z1 (by rw [z2, z3]; linarith)
          rw [hdd] at this
          cases this
        · exact h0
      obtain ⟨g1, g2⟩ := hO.angles hn0
      obtain ⟨al, hal⟩ := Option.ne_none_iff_exists'.1 g1
      obtain ⟨be, hbe⟩ := Option.ne_none_iff_exists'.1 g2
      simp only [controlPhase, hs1, hv5, hd, hacc, ho, Bind.bind, Except.bind, pure, Except.pure, Bool.false_eq_true, if_false]
      refine ⟨_, al, be, rfl, hal, hbe, rfl, ?_, rfl, rfl⟩
      funext c
      fin_cases c <;> simp [zero3, vsmul, switchedThrust]
  obtain ⟨z, hpr⟩ : ∃ z, propagatePhase E s h c = .ok (z, h) := by
    obtain ⟨z, hz1⟩ := hz _ duty rfl
    unfold PerturbationIs at hq
    refine ⟨z, ?_⟩
    cases hc : E.cfg.perturbations with
    | none =>
      simp only [hc] at hq
      have hq : q = zero3 := hq
      rw [hq] at hz1
      simp only [propagatePhase, hc, hi, hd, c4, c5, Bind.bind, Except.bind, pure, Except.pure, hz1]
    | some f =>
      simp only [hc] at hq
      simp only [propagatePhase, hc, hq, hi, hd, c4, c5, Bind.bind, Except.bind, pure, Except.pure, hz1]
  have hτ' : ∀ k ≤ n, Function.update τ (n + 1) (s.t + h) k = τ k := fun k hk => Function.update_of_ne (by omega) _ _
  have hτn : Function.update τ (n + 1) (s.t + h) (n + 1) = s.t + h := Function.update_self _ _ _
  refine ⟨⟨s, h, dutyPhase E.prob s h, c, z, h, al, be⟩, Function.update τ (n + 1) (s.t + h),
    ⟨hcl, hch, rfl, hc, by simpa only [hdu] using hpr, c1, c2⟩, ?_, by simp only [postState, hdu], c6, ?_⟩
  · have hbat : E.prob.batteryInitial - E.prob.dischargeRate * (s.t + h) ≤
          (batteryPhase E.prob s.battery duty false h).1 ∧
        (batteryPhase E.prob s.battery duty false h).1 ≤ E.prob.capMax ∧
        (batteryPhase E.prob s.battery duty false h).2 = false := by
      have hch0 : 0 ≤ E.prob.chargeRate * h := mul_nonneg hB.charge hh.le
      cases duty
      · simp only [batteryPhase, Bool.false_eq_true, if_false, npclip_real hnan]
        refine ⟨le_min (le_max_of_le_left (by linarith)) (by linarith), min_le_right _ _, ?_⟩
        split_ifs <;> rfl
      · simp only [batteryPhase, if_true, npclip_real hnan]
        exact ⟨le_min (le_max_of_le_left (by linarith)) (by linarith), min_le_right _ _, trivial⟩
    constructor
    · simp only [postState, hdu, hO.times]
      rw [List.range_succ (n := n + 1), List.map_append]
      simp only [List.map_cons, List.map_nil, hτn]
      congr 1
      refine List.map_congr_left fun k hk => (hτ' k ?_).symm
      rw [List.mem_range] at hk; omega
    · rw [hτ' 0 (by omega)]; exact hO.first
    · rw [hτn]; simp only [postState, hdu]
    · intro k hk
      rcases Nat.lt_or_ge k n with h1 | h1
      · rw [hτ' k h1.le, hτ' (k + 1) h1]; exact hO.gaps k h1
      · obtain rfl : k = n := by omega
        rw [hτ' k le_rfl, hτn, hO.last]
        exact ⟨by linarith, by linarith⟩
    · simp only [postState, hdu]; exact ⟨hbat.1, hbat.2.1⟩
    · simp only [postState, hdu]; exact ⟨s.t, by linarith, by linarith, hvars⟩
    · intro h; omega
    · simp only [postState, hdu]; exact hbat.2.2
    · simp only [postState, c3]
      refine ⟨by simp [hO.controls.1], fun k c hc => ?_⟩
      rcases Nat.lt_or_ge k n with hk | hk
      · rw [List.getElem?_append_left (by rw [hO.controls.1]; exact hk)] at hc
        rw [hτ' k hk.le]
        exact hO.controls.2 k c hc
      · rw [List.getElem?_append_right (by rw [hO.controls.1]; exact hk), hO.controls.1] at hc
        have hkn : k = n := by
          have := (List.getElem?_eq_some_iff.1 hc).1
          simp at this; omega
        subst hkn
        simp at hc
        rw [hτ' k le_rfl, hO.last]
        exact ⟨duty, tOn, tOff, by rw [← hc], hvars⟩
    · obtain ⟨m, hm, hm2⟩ := hO.states
      exact ⟨m ++ [s.oe], by simp only [postState, hm], by simp [hm2]⟩
    · obtain ⟨m, hm, hm2⟩ := hO.masses
      exact ⟨m ++ [s.mass], by simp only [postState, hm], by simp [hm2]⟩
    · intro _
      simp [postState, c1, c2]
  · simp only [postState, hdu]
    have h1 : E.prob.mdot * h ≤ |E.prob.mdot| * h := mul_le_mul_of_nonneg_right (le_abs_self _) hh.le
    have h2 : 0 ≤ |E.prob.mdot| * h := by positivity
    split_ifs <;> linarith

/-- up to a time limit, either every iteration continues or the first one that does not converges -/
theorem first_stop [PyNan ℝ] {E : Env ℝ} {P : Problem ℝ} (hEP : E.prob = P) {lo L : ℝ} (hlo : 0 < lo) (hL0 : 0 < L)
    {I : ℕ → LoopSt ℝ → Prop} {far : LoopSt ℝ → Prop} (hI : ∀ n s, I n s → n * lo ≤ s.hist.lastTime)
    (hpr : ∀ n : ℕ, (∀ k < n, iter E (E.after k) = .cont (E.after (k + 1))) → (∀ k < n, (E.after k).hist.lastTime < L) →
      I n (E.after n) ∧ ((E.after n).hist.lastTime < L → ∃ s, I (n + 1) s ∧
        (iter E (E.after n) = .cont s ∧ far s ∨ iter E (E.after n) = .brk s 1 ∨ iter E (E.after n) = .brk s 2)))
    (hg : L ≤ |P.tfMax|) :
    ∃ n : ℕ, (∀ k < n, iter E (E.after k) = .cont (E.after (k + 1))) ∧ (∀ k < n, (E.after k).hist.lastTime < L) ∧
    (n * lo < L + lo ∧ L ≤ (E.after n).hist.lastTime ∧ far (E.after n) ∧
      (|P.tfMax| ≤ (E.after n).hist.lastTime → ∀ f, loop E (n + 1 + f) (initLoop P) = some (.timeout (E.after n))) ∨
    (E.after n).hist.lastTime < L ∧ n * lo < L ∧ ∃ s c, (iter E (E.after n) = .brk s c) ∧ I (n + 1) s ∧ (c = 1 ∨ c = 2) ∧
      ∀ f, loop E (n + 1 + f) (initLoop P) = some (.exit s c)) := by
  have hguard : ∀ n, (∀ k < n, iter E (E.after k) = .cont (E.after (k + 1))) → (∀ k < n, (E.after k).hist.lastTime < L) →
      (E.after n).hist.lastTime < L → guardB E.prob (E.after n) = true := by
    intro n hc ht hlt
    have h1 := hI _ _ (hpr n hc ht).1
    have h2 : (0 : ℝ) ≤ n * lo := by positivity
    simp only [guardB, lt_real, abs_real, decide_eq_true_eq, hEP]
    rw [abs_of_nonneg (by linarith)]
    linarith
  have hex : ∃ n, ¬ (iter E (E.after n) = .cont (E.after (n + 1)) ∧ (E.after n).hist.lastTime < L) := by
    by_contra hno
    have hall : ∀ n, iter E (E.after n) = .cont (E.after (n + 1)) ∧ (E.after n).hist.lastTime < L := fun n => by
      by_contra h; exact hno ⟨n, h⟩
    obtain ⟨n, hn⟩ := exists_nat_gt (L / lo)
    rw [div_lt_iff₀ hlo] at hn
    have := hI _ _ (hpr n (fun k _ => (hall k).1) (fun k _ => (hall k).2)).1
    linarith [(hall n).2]
  classical
  have hspec := Nat.find_spec hex
  have hmin : ∀ k < Nat.find hex, iter E (E.after k) = .cont (E.after (k + 1)) ∧ (E.after k).hist.lastTime < L :=
    fun k hk => not_not.1 (Nat.find_min hex hk)
  generalize Nat.find hex = n at hspec hmin
  have hc := fun k hk => (hmin k hk).1
  have ht := fun k hk => (hmin k hk).2
  refine ⟨n, hc, ht, ?_⟩
  obtain ⟨hIn, hstep⟩ := hpr n hc ht
  have hpre : ∀ f, loop E (n + f) (initLoop P) = loop E f (E.after n) := by
    intro f
    have := loop_prefix (E := E) (n := n) (fun k hk => hguard k (fun j hj => hc j (by omega)) (fun j hj => ht j (by omega))
      (ht k hk)) hc f
    rwa [hEP] at this
  by_cases hlt : (E.after n).hist.lastTime < L
  · right
    have hnc : iter E (E.after n) ≠ .cont (E.after (n + 1)) := fun h => hspec ⟨h, hlt⟩
    refine ⟨hlt, (hI _ _ hIn).trans_lt hlt, ?_⟩
    obtain ⟨s, h4, h5⟩ := hstep hlt
    have fin : ∀ c, iter E (E.after n) = .brk s c → ∀ f, loop E (n + 1 + f) (initLoop P) = some (.exit s c) := by
      intro c hc' f
      rw [show n + 1 + f = n + (f + 1) by omega, hpre]
      simp only [loop, hguard n hc ht hlt, if_true, hc']
    refine ⟨s, ?_⟩
    rcases h5 with ⟨h6, -⟩ | h6 | h6
    · exact absurd (by simp only [Env.after, h6]) hnc
    · exact ⟨1, h6, h4, Or.inl rfl, fin 1 h6⟩
    · exact ⟨2, h6, h4, Or.inr rfl, fin 2 h6⟩
  · left
    rw [not_lt] at hlt
    obtain ⟨M, rfl⟩ : ∃ M, n = M + 1 := by
      refine ⟨n - 1, ?_⟩
      rcases Nat.eq_zero_or_pos n with h0 | h0
      · exfalso
        subst h0
        have : (E.after 0).hist.lastTime = 0 := by simp [Env.after, initLoop, Hist.lastTime]
        linarith
      · omega
    obtain ⟨hIM, hstepM⟩ := hpr M (fun k hk => hc k (by omega)) (fun k hk => ht k (by omega))
    have htM := ht M (by omega)
    refine ⟨?_, hlt, ?_, fun htf f => ?_⟩
    · have := hI _ _ hIM
      push_cast; linarith
    · obtain ⟨s, -, h4⟩ := hstepM htM
      have h5 := hc M (by omega)
      rcases h4 with ⟨h6, h7⟩ | h6 | h6 <;> rw [h5] at h6
      · injection h6 with h6; rw [h6]; exact h7
      · cases h6
      · cases h6
    · rw [show M + 1 + 1 + f = M + 1 + (f + 1) by omega, hpre]
      have hgf : guardB E.prob (E.after (M + 1)) = false := by
        simp only [guardB, lt_real, abs_real, hEP]
        exact decide_eq_false (not_lt.2 (htf.trans (le_abs_self _)))
      simp only [loop, hgf, Bool.false_eq_true, if_false]

section completes
variable [PyNan ℝ] (hnan : ∀ x : ℝ, PyNan.isnan x = false) {C : Config ℝ} {et : ElemType} (hd : C.dyn = dynOf et)
  (hE : C.elementsType = et) (hsun : C.useSundman = true) (hi : C.integrator = .rk4)
  {oeT woe l u : Fin 5 → ℝ} {tmax mdot on off ml T : ℝ} {γ : ℝ → Fin 6 → ℝ} {μ : ℝ → ℝ}
  (hl : C.elementsType = .keplerian → BoundsAre C.oeMin l ∧ BoundsAre C.oeMax u)
  (hon : 0 < on) (hoff : 0 < off)
  (hM : SwitchedMotion C et oeT woe tmax mdot 1 (gain C.integrator) T (dutySchedule on off) γ μ)
  (hS : ∀ s ∈ Icc 0 T, LawSmooth et (unitCall C oeT woe (γ s)) ∧ PertSmooth C 1 s (γ s) ∧
    (C.elementsType = .keplerian → ∀ j : Fin 5, l j < γ s j.castSucc ∧ γ s j.castSucc < u j))
  (hT0 : 0 < T) (hT : 0 < tmax) (hm : ∀ s ∈ Icc 0 T, 0 < μ s ∧ ml < μ s)
include hnan hd hE hsun hi hl hon hoff hM hS hT0 hT hm

/-- with short steps every iteration up to time `T` is recorded, and either continues or converges -/
theorem progress_sundman : ∃ δ > 0, ∃ K ≥ 0, ∃ A > 0, ∃ B > 0, ∃ N : ℕ, ∀ h, 0 < h → h < δ →
    ∀ (Q : QLaw ℝ) (P : Problem ℝ) (ea er : ℝ),
    ea ≤ 0 → er ≤ 0 → StartsDuty C oeT woe tmax (μ 0) mdot on off ml h T (γ 0) Q P →
    ∀ E, E = envOf Q P (.flt ea) (.flt er) →
    (∀ L, L + A * h ≤ T → ∀ n : ℕ, (∀ k < n, iter E (E.after k) = .cont (E.after (k + 1))) →
      (∀ k < n, (E.after k).hist.lastTime < L) →
      (∃ τ, OnSteps P (B * h) (A * h) τ n (E.after n)) ∧ ‖(E.after n).oe - γ (E.after n).t‖ ≤ K * h ∧
      (E.after n).t ≤ max 0 (L + A * h) ∧
      ((E.after n).hist.lastTime < L → ∃ s, (∃ τ, OnSteps P (B * h) (A * h) τ (n + 1) s) ∧ s.t ≤ (E.after n).t + A * h ∧
        (iter E (E.after n) = .cont s ∧ (dynOf (α := ℝ) et).checkConv s.oe oeT woe C.tolOe = false ∨
         iter E (E.after n) = .brk s 1 ∨ iter E (E.after n) = .brk s 2))) ∧
    (∀ n s τ, OnSteps P (B * h) (A * h) τ n s → s.t ≤ T → SwitchesUpTo 1 (dutySchedule on off) s.hist n N (A * h)) ∧
    ∀ (fuel : ℕ) (Q' : QLaw ℝ) (s : LoopSt ℝ), Q.solve (.flt ea) (.flt er) fuel = some (Q', none) →
      Q'.hist = some s.hist → ∀ n τ, OnSteps P (B * h) (A * h) τ n s → s.t ≤ T →
      ∀ (k : ℕ) (x : Fin 6 → ℝ) (m : ℝ), s.hist.states[k]? = some x → s.hist.masses[k]? = some m →
        (∀ i, |x i - γ (τ k) i| ≤ K * h) ∧ |m - μ (τ k)| ≤ K * h := by
  obtain ⟨s0, hs0, hmin⟩ := isCompact_Icc.exists_isMinOn ⟨0, left_mem_Icc.2 hT0.le⟩ hM.2.1
  have hμ : ∀ s ∈ Icc 0 T, μ s0 ≤ μ s := fun s hs => hmin hs
  obtain ⟨hp0, hp1⟩ := hm s0 hs0
  obtain ⟨ρ2, hρ2, A, hA, B, hB, hstep⟩ := sundman_tube hE hsun hT0.le hM.1 (fun s hs => (hS s hs).1)
  obtain ⟨N, hN⟩ : ∃ N, N = (⌊T / (on + off)⌋₊ + 1) *
      (2 * (⌊2 * (((2 * ⌊T / (on + off)⌋₊ + 1 : ℕ) : ℝ) * (A / B))⌋₊ + 1)) := ⟨_, rfl⟩
  obtain ⟨ρ1, hρ1, δ1, hδ1, htube⟩ := tube_fine_switched (Or.inl rfl) hM hS hT (half_pos hp0)
  obtain ⟨δ2, hδ2, K1, hK1, hlim⟩ := C117_limit hd (Or.inl rfl) hl hM hS hT (fun s hs => (hm s hs).1) N
  obtain ⟨K, hKdef⟩ : ∃ K, K = K1 * A := ⟨_, rfl⟩
  have hK : 0 ≤ K := by rw [hKdef]; positivity
  obtain ⟨ρ, hρdef⟩ : ∃ ρ, ρ = min ρ1 ρ2 := ⟨_, rfl⟩
  have hρ : 0 < ρ := by rw [hρdef]; exact lt_min hρ1 hρ2
  obtain ⟨κ, hκ⟩ : ∃ κ, κ = min (μ s0 / 2) (μ s0 - ml) := ⟨_, rfl⟩
  have hκ0 : 0 < κ := by rw [hκ]; exact lt_min (half_pos hp0) (by linarith)
  have hκ1 : κ ≤ μ s0 / 2 := by rw [hκ]; exact min_le_left _ _
  have hκ2 : κ ≤ μ s0 - ml := by rw [hκ]; exact min_le_right _ _
  refine ⟨min (min δ1 δ2 / A) (min (ρ / (K + 1)) (κ / (K + |mdot| * A + 1))), by positivity, K, hK, A, hA, B, hB, N, ?_⟩
  intro h hh hhδ Q P ea er hea her hQ E hEdef
  have hhA : A * h < min δ1 δ2 := by
    have := hhδ.trans_le (min_le_left _ _)
    rw [lt_div_iff₀ hA] at this
    linarith
  have hh1 : A * h < δ1 := hhA.trans_le (min_le_left _ _)
  have hh2 : A * h < δ2 := hhA.trans_le (min_le_right _ _)
  have hAh : 0 < A * h := by positivity
  have hBh : 0 < B * h := by positivity
  have hhρ : K * h < ρ := by
    have := hhδ.trans_le ((min_le_right _ _).trans (min_le_left _ _))
    rw [lt_div_iff₀ (by positivity)] at this
    nlinarith
  have hmd : 0 ≤ |mdot| * (A * h) := by positivity
  have hhκ : K * h + |mdot| * (A * h) < κ := by
    have := hhδ.trans_le ((min_le_right _ _).trans (min_le_right _ _))
    rw [lt_div_iff₀ (by positivity)] at this
    nlinarith
  have hR : A * h ≤ A / B * (B * h) := by
    rw [← mul_assoc, div_mul_cancel₀ _ hB.ne']
  have hEC : E.cfg = C := by rw [hEdef]; exact hQ.cfg
  have hEP : E.prob = P := by rw [hEdef]; rfl
  have switches : ∀ n s τ, OnSteps P (B * h) (A * h) τ n s → s.t ≤ T → ∀ k ≤ n,
      SwitchesUpTo 1 (dutySchedule on off) s.hist k N (A * h) := by
    intro n s τ hO hsT k hk
    have := hO.switches hBh hAh hR (by rw [hQ.dutyOn]; exact hon) (by rw [hQ.dutyOff]; exact hoff) hk hsT
    rw [hQ.dutyOn, hQ.dutyOff, ← hN] at this
    exact this
  have follow : ∀ (Q1 Q' : QLaw ℝ) (P1 : Problem ℝ) (fuel : ℕ) (s : LoopSt ℝ), Q1.cfg = C → Q1.prob = some P1 →
      P1.oeT = List.ofFn oeT → P1.woe = woe → P1.tmax = tmax → P1.mass0 = μ 0 → P1.mdot = mdot → P1.oe0 = γ 0 →
      Q1.solve (.flt ea) (.flt er) fuel = some (Q', none) →
      Q'.hist = some s.hist → ∀ n τ, OnSteps P (B * h) (A * h) τ n s → s.t ≤ T →
      ∀ (k : ℕ) (x : Fin 6 → ℝ) (m : ℝ), s.hist.states[k]? = some x → s.hist.masses[k]? = some m →
        (∀ i, |x i - γ (τ k) i| ≤ K * h) ∧ |m - μ (τ k)| ≤ K * h := by
    intro Q1 Q' P1 fuel s q1 q2 q3 q4 q5 q6 q7 q8 hsol hH n τ hO hnT k x m hx hmk
    have hk : k ≤ n := by
      obtain ⟨ls, hs1, hs2⟩ := hO.states
      have := (List.getElem?_eq_some_iff.1 hx).1
      rw [hs1, List.length_append, hs2] at this
      simp at this; omega
    have := hlim (A * h) hAh hh2 Q1 Q' P1 _ _ fuel _ q1 q2 q3 q4 q5 q6 q7 q8 hsol hH k _ m x (hO.time hk)
      (by rw [one_mul]; exact (hO.mem hBh hk).2.trans hnT) hx hmk (switches n s τ hO hnT k hk)
    rwa [one_mul, ← mul_assoc, ← hKdef] at this
  refine ⟨?_, fun n s τ hO hsT => switches n s τ hO hsT n le_rfl, fun fuel Q' s hsol hH n τ hO hnT =>
    follow Q Q' P fuel s hQ.cfg hQ.prob hQ.target hQ.weights hQ.thrust hQ.startMass hQ.massRate hQ.start hsol hH n τ hO hnT⟩
  -- what a step does from a state close to the motion
  have stepping : ∀ (n : ℕ) τ, OnSteps P (B * h) (A * h) τ n (E.after n) →
      ‖(E.after n).oe - γ (E.after n).t‖ ≤ K * h → |(E.after n).mass - μ (E.after n).t| ≤ K * h →
      (E.after n).t + A * h ≤ T →
      ∃ s, (∃ τ, OnSteps P (B * h) (A * h) τ (n + 1) s) ∧ (E.after n).t < s.t ∧ s.t ≤ (E.after n).t + A * h ∧
        (iter E (E.after n) = .cont s ∧ (dynOf (α := ℝ) et).checkConv s.oe oeT woe C.tolOe = false ∨
         iter E (E.after n) = .brk s 1 ∨ iter E (E.after n) = .brk s 2) := by
    intro n τ hO hcl hclm hn
    have ht : (E.after n).t ∈ Icc 0 T := ⟨by rw [← hO.last]; exact (hO.mem hBh le_rfl).1, by linarith⟩
    have hball : (E.after n).oe ∈ ball (γ (E.after n).t) ρ := by
      rw [mem_ball, dist_eq_norm]; linarith
    have hb1 := ball_subset_ball (x := γ (E.after n).t) (show ρ ≤ ρ1 by rw [hρdef]; exact min_le_left _ _) hball
    have hb2 := ball_subset_ball (x := γ (E.after n).t) (show ρ ≤ ρ2 by rw [hρdef]; exact min_le_right _ _) hball
    obtain ⟨st, hst, hst1, hst2⟩ := hstep _ ht _ hb2 P h hh hQ.step
    have hst0 : 0 < st := by linarith
    have hml := (abs_le.1 hclm).1
    have hμn := hμ _ ht
    obtain ⟨hb, o, q, ho, hq, hrk⟩ := htube _ ht _ hb1 (E.after n).mass (by linarith)
    have hz := hrk st hst0 (by linarith) (E.after n).t
    simp only [one_mul] at ho hq hz
    obtain ⟨D, τ', hD, hO', hDt, hoT, hmass⟩ := step_fine_steps hnan (E := E) (s := E.after n) (et := et) (oeT := oeT) (l := l)
      (u := u) (o := o) (by rw [hEC]; exact hd) (by rw [hEC]; exact hi)
      (by rw [hEC]; exact hl) (by rw [hEC, hEP]; exact hst) (by rw [hEP]; exact hQ.target)
      (by rw [hEdef]; rfl) (by rw [hEdef]; rfl) hea her (by rw [hEP]; exact hQ.battery) (by rw [hEP, hQ.dutyOn]; exact hon)
      (by rw [hEP, hQ.dutyOff]; exact hoff) hBh hst1 hst2 (by linarith)
      (by rw [hEP]; exact hO) (by rw [hEC]; exact hb)
      (by rw [hEC, hEP, hQ.weights, hQ.thrust]; exact ho) (q := q) (by rw [hEC]; exact hq)
      (by rw [hEC, hEP, hQ.thrust]; exact hz)
    rw [hEP] at hO'
    refine ⟨_, ⟨τ', hO'.relaxed (relaxedAfter E D.c.oeT (postState E D))⟩, ?_, ?_, ?_⟩
    · show (E.after n).t < (postState E D).t
      rw [hDt]; linarith
    · show (postState E D).t ≤ _
      rw [hDt]; linarith
    rw [hD.iter_eq]
    rcases exitPhase_cases E D.c.oeT (postState E D) with h1 | h1 | h1 | h1
    · left
      refine ⟨h1.1, ?_⟩
      have := h1.2.1
      rwa [hEC, hEP, hd, hQ.weights, hoT] at this
    · exact Or.inr (Or.inl h1.1)
    · exact Or.inr (Or.inr h1.1)
    · exfalso
      have h2 := h1.2.2.2
      rw [le_real, decide_eq_true_eq, hEP] at h2
      rw [hEP, hQ.massRate] at hmass
      have h3 := hQ.massMin
      have h4 : |mdot| * st ≤ |mdot| * (A * h) := mul_le_mul_of_nonneg_left hst2 (abs_nonneg _)
      linarith
  intro L hLT
  -- all earlier iterations continued: the run limited to the time reached completes
  have main : ∀ n : ℕ, (∀ k < n, iter E (E.after k) = .cont (E.after (k + 1))) →
      (∀ k < n, (E.after k).hist.lastTime < L) →
      (∀ k ≤ n, (∃ τ, OnSteps P (B * h) (A * h) τ k (E.after k))) ∧ (∀ k < n, (E.after k).t < (E.after n).t) ∧
      (E.after n).t ≤ max 0 (L + A * h) ∧
      ‖(E.after n).oe - γ (E.after n).t‖ ≤ K * h ∧ |(E.after n).mass - μ (E.after n).t| ≤ K * h := by
    intro n
    induction n with
    | zero =>
      intro _ _
      have h0 : E.after 0 = initLoop P := by rw [hEdef]; rfl
      have hx : (initLoop P).oe = γ 0 := hQ.start
      have hy : (initLoop P).mass = μ 0 := hQ.startMass
      have ht : (initLoop P).t = 0 := by simp [initLoop]
      refine ⟨fun k hk => ?_, fun k hk => absurd hk (Nat.not_lt_zero k), ?_, ?_, ?_⟩
      · rw [Nat.le_zero.1 hk, h0]
        exact ⟨_, onSteps_init hQ.battery.le (by rw [hQ.dutyOn]; exact hon.le) hAh.le⟩
      · rw [h0, ht]; exact le_max_left _ _
      · rw [h0, hx, ht]; simp; positivity
      · rw [h0, hy, ht]; simp; positivity
    | succ n ih =>
      intro hc htl
      obtain ⟨i1, i2, -, i3, i4⟩ := ih (fun k hk => hc k (by omega)) (fun k hk => htl k (by omega))
      obtain ⟨τ, hτ⟩ := i1 n le_rfl
      have htn := htl n (by omega)
      rw [hτ.lastTime] at htn
      obtain ⟨s, ⟨τ1, hs⟩, hs1, hs2, hcase⟩ := stepping n τ hτ i3 i4 (by linarith)
      have hcn := hc n (by omega)
      have hss : E.after (n + 1) = s := by
        rcases hcase with ⟨h1, -⟩ | h1 | h1 <;> rw [hcn] at h1
        · injection h1
        · cases h1
        · cases h1
      have hO : ∀ k ≤ n + 1, ∃ τ, OnSteps P (B * h) (A * h) τ k (E.after k) := by
        intro k hk
        rcases Nat.lt_or_ge k (n + 1) with h1 | h1
        · exact i1 k (by omega)
        · rw [le_antisymm hk h1, hss]; exact ⟨τ1, hs⟩
      have hinc : ∀ k < n + 1, (E.after k).t < (E.after (n + 1)).t := by
        intro k hk
        rw [hss]
        rcases Nat.lt_or_ge k n with h1 | h1
        · exact (i2 k h1).trans hs1
        · rw [show k = n by omega]; exact hs1
      have hle : (E.after (n + 1)).t ≤ L + A * h := by rw [hss]; linarith
      refine ⟨hO, hinc, hle.trans (le_max_right _ _), ?_⟩
      rw [← hss] at hs
      -- the limited run
      set P' : Problem ℝ := { P with tfMax := (E.after (n + 1)).t } with hP'
      set Q1 : QLaw ℝ := { Q with prob := some P' } with hQ1
      set E' : Env ℝ := { E with prob := { E.prob with tfMax := (E.after (n + 1)).t } } with hE'
      have hEE : E' = envOf Q1 P' (.flt ea) (.flt er) := by
        simp only [hE', hP', hQ1, hEdef]; rfl
      have haf : ∀ k, E'.after k = E.after k := after_tf E _
      have hnn : ∀ k ≤ n + 1, 0 ≤ (E.after k).t := fun k hk => by
        obtain ⟨τ, h1⟩ := hO k hk
        rw [← h1.last]; exact (h1.mem hBh le_rfl).1
      have hlt : ∀ k ≤ n + 1, (E.after k).hist.lastTime = (E.after k).t := fun k hk => by
        obtain ⟨τ, h1⟩ := hO k hk
        exact h1.lastTime
      have hloop := loop_prefix (E := E') (n := n + 1) (fun k hk => by
        rw [haf]
        simp only [guardB, lt_real, abs_real, hlt k hk.le, decide_eq_true_eq]
        show |(E.after k).t| < |(E.after (n + 1)).t|
        rw [abs_of_nonneg (hnn k hk.le), abs_of_nonneg (hnn _ le_rfl)]
        exact hinc k hk) (fun k hk => by
        rw [haf, haf]; exact hc k hk) 1
      have hend : loop E' 1 (E'.after (n + 1)) = some (.timeout (E'.after (n + 1))) := by
        have hg : guardB E'.prob (E'.after (n + 1)) = false := by
          rw [haf]
          simp only [guardB, lt_real, abs_real, hlt _ le_rfl]
          exact decide_eq_false (by
            show ¬ |(E.after (n + 1)).t| < |(E.after (n + 1)).t|
            exact lt_irrefl _)
        simp only [loop, hg, Bool.false_eq_true, if_false]
      rw [hend, haf] at hloop
      have hini : initLoop E'.prob = initLoop P' := by rw [hEE]; rfl
      rw [hini, hEE] at hloop
      have hsol := solve_of_loop (Q := Q1) (P := P') rfl hQ.ready hloop
      have hH : (Q1.finish P' (.timeout (E.after (n + 1)))).hist = some (E.after (n + 1)).hist := rfl
      obtain ⟨m, hm1, hm2⟩ := hs.states
      have hx : (E.after (n + 1)).hist.states[n + 1]? = some (E.after (n + 1)).oe := by
        rw [hm1, List.getElem?_append_right (by omega), hm2]; simp
      obtain ⟨m', hm1', hm2'⟩ := hs.masses
      have hmm : (E.after (n + 1)).hist.masses[n + 1]? = some (E.after (n + 1)).mass := by
        rw [hm1', List.getElem?_append_right (by omega), hm2']; simp
      obtain ⟨f1, f2⟩ := follow Q1 _ P' _ (E.after (n + 1)) hQ.cfg rfl hQ.target hQ.weights hQ.thrust hQ.startMass
        hQ.massRate hQ.start hsol hH (n + 1) τ1 hs (by linarith) (n + 1) _ _ hx hmm
      rw [hs.last] at f1 f2
      refine ⟨?_, f2⟩
      rw [pi_norm_le_iff_of_nonneg (by positivity)]
      intro i
      rw [Real.norm_eq_abs]
      exact f1 i
  intro n hc htl
  obtain ⟨m1, -, m2, m3, m4⟩ := main n hc htl
  obtain ⟨τ, hτ⟩ := m1 n le_rfl
  refine ⟨⟨τ, hτ⟩, m3, m2, fun hlt => ?_⟩
  rw [hτ.lastTime] at hlt
  obtain ⟨s, s1, -, s2, s3⟩ := stepping n τ hτ m3 m4 (by linarith)
  exact ⟨s, s1, s2, s3⟩

/-- **C119.** For an object with Sundman steps and the integrator `rk4`, and a motion under the law and the object's
perturbations whose thrust is switched on for `on` and off for `off` in turn, along which `Q` and the perturbations are
smooth, the elements stay strictly inside their bounds and the mass stays above the limit, there are constants such that
every run from the same state with this duty cycle, a shorter increment `h` of the eccentric anomaly as step, a battery
that suffices, effectivity thresholds not positive and a time limit inside the motion's interval returns without
exception. Its recorded times begin at 0 and grow by at least `B h` and at most `A h` up to the limit or up to
convergence; all but `N` of its steps have the throttle of the nominal schedule; every recorded state and mass is within
`K h` of the motion at the recorded time; and the run has converged (exit code 1 or 2) or reached the limit (exit
code -2). -/
theorem C119_completes : ∃ δ > 0, ∃ K ≥ 0, ∃ A > 0, ∃ B > 0, ∃ N : ℕ, ∀ h, 0 < h → h < δ →
    ∀ (Q : QLaw ℝ) (P : Problem ℝ) (ea er : ℝ) (fuel : ℕ),
    ea ≤ 0 → er ≤ 0 → StartsDuty C oeT woe tmax (μ 0) mdot on off ml h T (γ 0) Q P → P.tfMax ≠ 0 →
    |P.tfMax| + A * h ≤ T → |P.tfMax| / (B * h) + 2 ≤ fuel →
    ∃ Q' H n τ, Q.solve (.flt ea) (.flt er) fuel = some (Q', none) ∧ Q'.hist = some H ∧
      H.times = (List.range (n + 1)).map τ ∧ τ 0 = 0 ∧ (∀ k < n, B * h ≤ τ (k + 1) - τ k ∧ τ (k + 1) - τ k ≤ A * h) ∧
      τ n ≤ |P.tfMax| + A * h ∧
      H.states.length = n + 1 ∧ H.masses.length = n + 1 ∧ H.controls.length = n ∧
      SwitchesUpTo 1 (dutySchedule on off) H n N (A * h) ∧
      (∀ (k : ℕ) (x : Fin 6 → ℝ) (m : ℝ), H.states[k]? = some x → H.masses[k]? = some m →
        (∀ i, |x i - γ (τ k) i| ≤ K * h) ∧ |m - μ (τ k)| ≤ K * h) ∧
      ((Q'.exitcode = 1 ∨ Q'.exitcode = 2) ∧ Q'.converge = true ∨
        Q'.exitcode = -2 ∧ Q'.converge = false ∧ |P.tfMax| ≤ τ n) := by
  obtain ⟨δ, hδ, K, hK, A, hA, B, hB, N, hpr⟩ := progress_sundman hnan hd hE hsun hi hl hon hoff hM hS hT0 hT hm
  refine ⟨δ, hδ, K, hK, A, hA, B, hB, N, ?_⟩
  intro h hh hhδ Q P ea er fuel hea her hQ htf htfT hfuel
  obtain ⟨hpr, hsw, hlim⟩ := hpr h hh hhδ Q P ea er hea her hQ _ rfl
  have hL0 : 0 < |P.tfMax| := abs_pos.2 htf
  have hBh : 0 < B * h := by positivity
  have hAh : 0 < A * h := by positivity
  have hmax : max 0 (|P.tfMax| + A * h) = |P.tfMax| + A * h := max_eq_right (by positivity)
  have hpr := hpr |P.tfMax| htfT
  -- a finished run of `n` steps
  have fin : ∀ (n : ℕ) (s : LoopSt ℝ) (r : RunRes ℝ) τ, OnSteps P (B * h) (A * h) τ n s → s.t ≤ |P.tfMax| + A * h →
      r.st = s → r.error? = none →
      loop (envOf Q P (.flt ea) (.flt er)) fuel (initLoop P) = some r →
      ((Q.finish P r).exitcode = 1 ∨ (Q.finish P r).exitcode = 2) ∧ (Q.finish P r).converge = true ∨
        (Q.finish P r).exitcode = -2 ∧ (Q.finish P r).converge = false ∧ |P.tfMax| ≤ s.t →
      ∃ Q' H n τ, Q.solve (.flt ea) (.flt er) fuel = some (Q', none) ∧ Q'.hist = some H ∧
      H.times = (List.range (n + 1)).map τ ∧ τ 0 = 0 ∧ (∀ k < n, B * h ≤ τ (k + 1) - τ k ∧ τ (k + 1) - τ k ≤ A * h) ∧
      τ n ≤ |P.tfMax| + A * h ∧
      H.states.length = n + 1 ∧ H.masses.length = n + 1 ∧ H.controls.length = n ∧
      SwitchesUpTo 1 (dutySchedule on off) H n N (A * h) ∧
      (∀ (k : ℕ) (x : Fin 6 → ℝ) (m : ℝ), H.states[k]? = some x → H.masses[k]? = some m →
        (∀ i, |x i - γ (τ k) i| ≤ K * h) ∧ |m - μ (τ k)| ≤ K * h) ∧
      ((Q'.exitcode = 1 ∨ Q'.exitcode = 2) ∧ Q'.converge = true ∨
        Q'.exitcode = -2 ∧ Q'.converge = false ∧ |P.tfMax| ≤ τ n) := by
    intro n s r τ hO hst hrs hre hlo hcode
    have hsol := solve_of_loop hQ.prob hQ.ready hlo
    rw [hre] at hsol
    have hH : (Q.finish P r).hist = some s.hist := by rw [← hrs]; rfl
    obtain ⟨ls, hs1, hs2⟩ := hO.states
    obtain ⟨lm, hm1, hm2⟩ := hO.masses
    rw [← hO.last] at hcode
    refine ⟨_, _, n, τ, hsol, hH, hO.times, hO.first, fun k hk => ?_, by rw [hO.last]; exact hst, ?_, ?_, hO.controls.1,
      hsw n s τ hO (by linarith), ?_, hcode⟩
    · obtain ⟨g1, g2⟩ := hO.gaps k hk
      exact ⟨by linarith, by linarith⟩
    · rw [hs1, List.length_append, hs2]; rfl
    · rw [hm1, List.length_append, hm2]; rfl
    · exact hlim fuel _ _ hsol hH n τ hO (by linarith)
  have hfu : ∀ n : ℕ, n * (B * h) < |P.tfMax| + B * h → n + 1 ≤ fuel := by
    intro n hn
    have h1 : (n : ℝ) < |P.tfMax| / (B * h) + 1 := by
      rw [← sub_lt_iff_lt_add, lt_div_iff₀ hBh]; linarith
    have : ((n + 1 : ℕ) : ℝ) < fuel := by push_cast; linarith
    exact_mod_cast this.le
  obtain ⟨n, hc, ht, ⟨h1, h2, -, h3⟩ | ⟨h1, h2, s, c, -, ⟨⟨τ, h3⟩, h4⟩, h5, h6⟩⟩ := first_stop
      (E := envOf Q P (.flt ea) (.flt er)) (P := P) rfl hBh hL0
      (I := fun n s => (∃ τ, OnSteps P (B * h) (A * h) τ n s) ∧ s.t ≤ |P.tfMax| + A * h)
      (fun n s hO => by obtain ⟨⟨τ, hO⟩, -⟩ := hO; rw [hO.lastTime]; exact hO.ge)
      (fun n hc ht => by
        obtain ⟨⟨τ, p1⟩, p2, p3, p4⟩ := hpr n hc ht
        rw [hmax] at p3
        refine ⟨⟨⟨τ, p1⟩, p3⟩, fun hlt => ?_⟩
        obtain ⟨s, q1, q2, q3⟩ := p4 hlt
        rw [p1.lastTime] at hlt
        exact ⟨s, ⟨q1, by linarith⟩, q3⟩) le_rfl
  · obtain ⟨⟨τ, p1⟩, p2, p3, p4⟩ := hpr n hc ht
    rw [hmax] at p3
    have h4 := h3 h2 (fuel - (n + 1))
    rw [show n + 1 + (fuel - (n + 1)) = fuel by have := hfu n h1; omega] at h4
    obtain ⟨f1, f2, -⟩ := finish_timeout Q P ((envOf Q P (.flt ea) (.flt er)).after n) hQ.fresh.1 hQ.fresh.2
    rw [p1.lastTime] at h2
    exact fin n _ _ τ p1 p3 rfl rfl h4 (Or.inr ⟨f1, f2, h2⟩)
  · have h7 := h6 (fuel - (n + 1))
    rw [show n + 1 + (fuel - (n + 1)) = fuel by have := hfu n (by linarith); omega] at h7
    obtain ⟨f1, f2, -⟩ := finish_exit Q P s c
    exact fin (n + 1) s _ τ h3 h4 rfl rfl h7 (Or.inl ⟨by rw [f1]; exact h5, by rw [f2, if_pos h5]⟩)

/-- **C119.** If moreover the switched motion is strictly inside the tolerances of the target at some time `tc` before
`T`, every run with shorter steps and a time limit not before `tc` converges: it returns without exception, with
`converge` set and exit code 1 or 2, at the latest one step after `tc`, having followed the motion. -/
theorem C119_reaches {tc : ℝ} (htc : 0 < tc) (htcT : tc < T) (hin : StrictlyInside et oeT woe C.tolOe (γ tc)) :
    ∃ δ > 0, ∃ K ≥ 0, ∃ A > 0, ∃ B > 0, ∀ h, 0 < h → h < δ → ∀ (Q : QLaw ℝ) (P : Problem ℝ) (ea er : ℝ) (fuel : ℕ),
    ea ≤ 0 → er ≤ 0 → StartsDuty C oeT woe tmax (μ 0) mdot on off ml h T (γ 0) Q P → tc ≤ |P.tfMax| →
    tc / (B * h) + 2 ≤ fuel →
    ∃ Q' H n τ, Q.solve (.flt ea) (.flt er) fuel = some (Q', none) ∧ Q'.hist = some H ∧
      Q'.converge = true ∧ (Q'.exitcode = 1 ∨ Q'.exitcode = 2) ∧
      H.times = (List.range (n + 1)).map τ ∧ τ 0 = 0 ∧ (∀ k < n, B * h ≤ τ (k + 1) - τ k ∧ τ (k + 1) - τ k ≤ A * h) ∧
      τ n ≤ tc + A * h ∧
      H.states.length = n + 1 ∧ H.masses.length = n + 1 ∧
      (∀ (k : ℕ) (x : Fin 6 → ℝ) (m : ℝ), H.states[k]? = some x → H.masses[k]? = some m →
        (∀ i, |x i - γ (τ k) i| ≤ K * h) ∧ |m - μ (τ k)| ≤ K * h) := by
  obtain ⟨δ1, hδ1, K, hK, A, hA, B, hB, N, hpr⟩ := progress_sundman hnan hd hE hsun hi hl hon hoff hM hS hT0 hT hm
  -- a neighbourhood of the motion at `tc` that passes the check
  obtain ⟨ε, hε, hball⟩ := Metric.isOpen_iff.1 (inside_open et oeT woe C.tolOe) _ hin
  have hct : ContinuousWithinAt γ (Icc 0 T) tc := hM.1 tc ⟨htc.le, htcT.le⟩
  obtain ⟨η, hη, hcl⟩ := Metric.continuousWithinAt_iff.1 hct (ε / 2) (by positivity)
  refine ⟨min (min δ1 (η / A)) (min ((T - tc) / A) (ε / 2 / (K + 1))), by
    have : 0 < T - tc := by linarith
    positivity, K, hK, A, hA, B, hB, ?_⟩
  intro h hh hhδ Q P ea er fuel hea her hQ htcf hfuel
  have d1 : h < δ1 := hhδ.trans_le ((min_le_left _ _).trans (min_le_left _ _))
  have d2 : A * h < η := by
    have := hhδ.trans_le ((min_le_left _ _).trans (min_le_right _ _))
    rw [lt_div_iff₀ hA] at this; linarith
  have d3 : A * h < T - tc := by
    have := hhδ.trans_le ((min_le_right _ _).trans (min_le_left _ _))
    rw [lt_div_iff₀ hA] at this; linarith
  have d4 : K * h < ε / 2 := by
    have := hhδ.trans_le ((min_le_right _ _).trans (min_le_right _ _))
    rw [lt_div_iff₀ (by positivity)] at this
    nlinarith
  obtain ⟨hpr, -, hlim⟩ := hpr h hh d1 Q P ea er hea her hQ _ rfl
  have hBh : 0 < B * h := by positivity
  have hAh : 0 < A * h := by positivity
  have hmax : max 0 (tc + A * h) = tc + A * h := max_eq_right (by positivity)
  have hpr := hpr tc (by linarith)
  have hfu : ∀ n : ℕ, n * (B * h) < tc + B * h → n + 1 ≤ fuel := by
    intro n hn
    have h1 : (n : ℝ) < tc / (B * h) + 1 := by
      rw [← sub_lt_iff_lt_add, lt_div_iff₀ hBh]; linarith
    have : ((n + 1 : ℕ) : ℝ) < fuel := by push_cast; linarith
    exact_mod_cast this.le
  obtain ⟨n, hc, ht, ⟨h1, h2, h3, -⟩ | ⟨h1, h2, s, c, -, ⟨⟨τ, h3⟩, h4⟩, h5, h6⟩⟩ := first_stop
      (E := envOf Q P (.flt ea) (.flt er)) (P := P) rfl hBh htc
      (I := fun n s => (∃ τ, OnSteps P (B * h) (A * h) τ n s) ∧ s.t ≤ tc + A * h)
      (fun n s hO => by obtain ⟨⟨τ, hO⟩, -⟩ := hO; rw [hO.lastTime]; exact hO.ge)
      (fun n hc ht => by
        obtain ⟨⟨τ, p1⟩, p2, p3, p4⟩ := hpr n hc ht
        rw [hmax] at p3
        refine ⟨⟨⟨τ, p1⟩, p3⟩, fun hlt => ?_⟩
        obtain ⟨s, q1, q2, q3⟩ := p4 hlt
        rw [p1.lastTime] at hlt
        exact ⟨s, ⟨q1, by linarith⟩, q3⟩) htcf
  · exfalso
    obtain ⟨⟨τ, p1⟩, p2, p3, -⟩ := hpr n hc ht
    rw [hmax] at p3
    rw [p1.lastTime] at h2
    have h4 : dist (γ ((envOf Q P (.flt ea) (.flt er)).after n).t) (γ tc) < ε / 2 := by
      refine hcl ⟨by linarith, by linarith⟩ ?_
      rw [Real.dist_eq, abs_of_nonneg (by linarith)]
      linarith
    rw [dist_eq_norm] at h4
    have h5 : ((envOf Q P (.flt ea) (.flt er)).after n).oe ∈ ball (γ tc) ε := by
      rw [mem_ball, dist_eq_norm]
      have e : ((envOf Q P (.flt ea) (.flt er)).after n).oe - γ tc =
        (((envOf Q P (.flt ea) (.flt er)).after n).oe - γ ((envOf Q P (.flt ea) (.flt er)).after n).t) +
          (γ ((envOf Q P (.flt ea) (.flt er)).after n).t - γ tc) := by abel
      rw [e]
      exact (norm_add_le _ _).trans_lt (by linarith)
    have h6 := inside_conv (hball h5)
    rw [h3] at h6
    cases h6
  · have h7 := h6 (fuel - (n + 1))
    rw [show n + 1 + (fuel - (n + 1)) = fuel by have := hfu n (by linarith); omega] at h7
    obtain ⟨f1, f2, f3⟩ := finish_exit Q P s c
    have hsol := solve_of_loop hQ.prob hQ.ready h7
    obtain ⟨ls, hs1, hs2⟩ := h3.states
    obtain ⟨lm, hm1, hm2⟩ := h3.masses
    refine ⟨_, _, n + 1, τ, hsol, f3, by rw [f2, if_pos h5], by rw [f1]; exact h5, h3.times, h3.first, fun k hk => ?_,
      by rw [h3.last]; exact h4, ?_, ?_, hlim fuel _ _ hsol f3 (n + 1) τ h3 (by linarith)⟩
    · obtain ⟨g1, g2⟩ := h3.gaps k hk
      exact ⟨by linarith, by linarith⟩
    · rw [hs1, List.length_append, hs2]; rfl
    · rw [hm1, List.length_append, hm2]; rfl

end completes

namespace Burn
open CoastSample

/-- the sample with Sundman steps -/
noncomputable def cfgS (τ : ℝ) : Config ℝ := { cfgDTol τ with useSundman := true }

noncomputable def objS (τ h T tf : ℝ) : QLaw ℝ :=
  { cfg := cfgS τ, prob := some (probC h T tf), ready := true, converge := false, exitcode := 0, hist := none }

theorem starts_S (τ h T tf : ℝ) :
    StartsDuty (cfgS τ) ![2, 0, 0, 0, 0] ![1, 0, 0, 0, 0] (1 / 100) 1 (1 / 10) (T / 5) (T / 7) 0 h T prob.oe0
      (objS τ h T tf) (probC h T tf) := by
  refine ⟨rfl, rfl, rfl, ⟨rfl, rfl⟩, by simp [probC, prob], rfl, rfl, rfl, rfl, rfl, rfl, rfl, rfl, ⟨?_, ?_, ?_, ?_⟩, le_rfl⟩
  all_goals simp only [probC, prob]; norm_num

/-- C119: from the initial state of `Burn` there is a motion with the perturbations of a third body, radiation pressure
and oblateness whose thrust is switched twice before half time; runs with short Sundman steps and this duty cycle complete
and follow it, and with a tolerance just above the distance of the motion from the target at half time they converge by
then -/
example : ∃ T > 0, ∃ γ μ, γ 0 = prob.oe0 ∧ μ 0 = 1 ∧
    SwitchedMotion cfgD .keplerian ![2, 0, 0, 0, 0] ![1, 0, 0, 0, 0] (1 / 100) (1 / 10) 1 1 T
      (dutySchedule (T / 5) (T / 7)) γ μ ∧
    (∀ τ, ∃ δ > 0, ∃ K, ∃ B > 0, ∀ h, 0 < h → h < δ → ∀ fuel : ℕ, T / 2 / (B * h) + 2 ≤ fuel → ∃ Q' H,
      (objS τ h T (T / 2)).solve (.flt 0) (.flt 0) fuel = some (Q', none) ∧ Q'.hist = some H ∧
      (∀ (k : ℕ) (x : Fin 6 → ℝ) (t m : ℝ), H.times[k]? = some t → H.states[k]? = some x → H.masses[k]? = some m →
        (∀ i, |x i - γ t i| ≤ K * h) ∧ |m - μ t| ≤ K * h)) ∧
    ∀ τ, |2 - γ (T / 2) 0| < τ → ∃ δ > 0, ∃ B > 0, ∀ h, 0 < h → h < δ → ∀ fuel : ℕ, T / 2 / (B * h) + 2 ≤ fuel → ∃ Q',
      (objS τ h T T).solve (.flt 0) (.flt 0) fuel = some (Q', none) ∧ Q'.converge = true := by
  have hbox : IsOpen {x : Fin 6 → ℝ | ∀ j : Fin 5, 0 < x j.castSucc ∧ x j.castSucc < 9} := by
    simp only [Set.ofPred_forall]
    refine isOpen_iInter_of_finite fun j => ?_
    exact (isOpen_lt continuous_const (continuous_apply _)).inter (isOpen_lt (continuous_apply _) continuous_const)
  obtain ⟨T, hT, hex⟩ := C117_exists (C := cfgD) (et := .keplerian) (oeT := ![2, 0, 0, 0, 0])
    (woe := ![1, 0, 0, 0, 0]) (tmax := 1 / 100) (m0 := 1) (ml := 0) (mdot := 1 / 10) (σ := 1) (g := 1) (x := prob.oe0)
    (Or.inl rfl) smooth_d ⟨1, by decide, burn_grad _ oe0_box⟩ (pert_d _) hbox (burn_region.inside _ oe0_box)
    (by norm_num) (by norm_num) (by norm_num)
  have hon : 0 < T / 5 := by positivity
  have hoff : 0 < T / 7 := by positivity
  obtain ⟨γ, μ, h0, h0', hM, hS⟩ := hex _ (dutySchedule_piecewise hon hoff hT.le)
  have hbd : ∀ τ, (cfgS τ).elementsType = .keplerian →
      BoundsAre (cfgS τ).oeMin (fun _ => 0) ∧ BoundsAre (cfgS τ).oeMax (fun _ => 9) := by
    intro τ _; constructor <;> intro j <;> fin_cases j <;> rfl
  have hm : ∀ s ∈ Icc 0 T, 0 < μ s ∧ 0 < μ s := fun s hs => ⟨(hS s hs).1, (hS s hs).1⟩
  refine ⟨T, hT, γ, μ, h0, h0', hM, fun τ => ?_, fun τ hτ => ?_⟩
  · obtain ⟨δ, hδ, K, hK, A, hA, B, hB, N, hL⟩ := C119_completes (C := cfgS τ) (et := .keplerian) (fun _ => rfl) rfl rfl rfl rfl
      (hbd τ) hon hoff hM (fun t ht => ⟨(hS t ht).2.2.1, (hS t ht).2.2.2.1, fun _ => (hS t ht).2.2.2.2⟩) hT
      (by norm_num) hm
    refine ⟨min δ (T / 2 / A), by positivity, K, B, hB, fun h hh hhd fuel hf => ?_⟩
    have e2 : h * A < T / 2 := by
      have := hhd.trans_le (min_le_right _ _)
      rwa [lt_div_iff₀ hA] at this
    have etf : |(probC h T (T / 2)).tfMax| = T / 2 := abs_of_pos (show 0 < T / 2 by positivity)
    have etf0 : (probC h T (T / 2)).tfMax ≠ 0 := by simp only [probC]; linarith
    obtain ⟨Q', H, n, σ, k1, k2, k4, -, -, -, -, -, -, -, k3, -⟩ := hL h hh (hhd.trans_le (min_le_left _ _))
      (objS τ h T (T / 2)) (probC h T (T / 2)) 0 0 fuel le_rfl le_rfl (by rw [h0, h0']; exact starts_S _ _ _ _) etf0
      (by rw [etf]; linarith) (by rw [etf]; exact hf)
    refine ⟨Q', H, k1, k2, fun k x t m ht hx hm => ?_⟩
    rw [k4, List.getElem?_map] at ht
    obtain ⟨i, h1, h2⟩ := Option.map_eq_some_iff.1 ht
    have h3 : i = k := by
      have := List.getElem?_eq_some_iff.1 h1
      obtain ⟨_, h4⟩ := this
      rw [List.getElem_range] at h4; exact h4.symm
    rw [← h2, h3]
    exact k3 k x m hx hm
  · obtain ⟨δ, hδ, K, -, A, hA, B, hB, hL⟩ := C119_reaches (C := cfgS τ) (et := .keplerian) (fun _ => rfl) rfl rfl rfl rfl (hbd τ)
      hon hoff hM (fun t ht => ⟨(hS t ht).2.2.1, (hS t ht).2.2.2.1, fun _ => (hS t ht).2.2.2.2⟩) hT (by norm_num) hm
      (tc := T / 2) (by linarith) (by linarith) (by
        intro j
        fin_cases j
        · right; exact ⟨0, Or.inl rfl, by simpa [cfgS, cfgDTol] using hτ⟩
        all_goals (left; rfl))
    refine ⟨δ, hδ, B, hB, fun h hh hhd fuel hf => ?_⟩
    obtain ⟨Q', H, n, σ, k1, -, k2, -⟩ := hL h hh hhd (objS τ h T T) (probC h T T) 0 0 fuel le_rfl le_rfl
      (by rw [h0, h0']; exact starts_S _ _ _ _)
      (by simp only [probC]; rw [abs_of_pos hT]; linarith) hf
    exact ⟨Q', k1, k2⟩

end Burn

end PyQ
