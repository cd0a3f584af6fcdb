import Verif.Props.DutyRun

/-!
The battery cycle of a run with constant short steps and `require_full_recharge`: `a` steps of thrust drain the battery to
its minimum, `b` steps of coasting fill it again; and how far this is from the nominal schedule.
-/

set_option linter.unusedSectionVars false
set_option maxRecDepth 100000

open Set Metric Topology

namespace PyQ

/-- the least number of steps `h` that is not shorter than `on` -/
noncomputable def drainSteps (on h : ℝ) : ℕ := ⌈on / h⌉₊

/-- the least number of recharging steps that makes up for `a` discharging steps -/
noncomputable def fillSteps (dis chg : ℝ) (a : ℕ) : ℕ := ⌈a * dis / chg⌉₊

/-- the battery level before step `k` -/
noncomputable def cycleLevel (hi dis chg h : ℝ) (a b k : ℕ) : ℝ :=
  if k % (a + b) ≤ a then hi - (k % (a + b) : ℕ) * (dis * h)
  else hi - a * (dis * h) + ((k % (a + b) - a : ℕ) : ℝ) * (chg * h)

/-- battery data of a run that is limited by its battery: it starts full, both rates are positive, thrust resumes only
after a full recharge, and the duty cycle plays no role for a duration `T` -/
structure CyclingBattery (P : Problem ℝ) (lo hi dis chg pause T : ℝ) : Prop where
  lower : P.capMin = lo
  upper : P.capMax = hi
  discharge : P.dischargeRate = dis
  charge : P.chargeRate = chg
  full : P.batteryInitial = hi
  recharge : P.requireFullRecharge = true
  dutyOn : T ≤ P.dutyOn
  dutyOff : P.dutyOff = pause

/-- the loop variables before step `n` -/
structure ChargeVars (P : Problem ℝ) (a b : ℕ) (hi dis chg h : ℝ) (n : ℕ) (s : LoopSt ℝ) : Prop where
  t : s.t = n * h
  tOn : 0 ≤ s.tOn
  battery : s.battery = cycleLevel hi dis chg h a b n
  charging : s.charging = decide (a < n % (a + b))
  ready : n % (a + b) < a → s.duty = true ∨ P.dutyOff < s.t - s.tOff
  tOff : a < n % (a + b) → s.tOff ≤ ((n - n % (a + b) + a : ℕ) : ℝ) * h + dis / chg * h

section clock
variable {P : Problem ℝ} {lo hi dis chg pause T h : ℝ} {a b : ℕ} (hdis : 0 < dis) (hchg : 0 < chg)
  (hcap : lo + 1 / 10 ^ 12 < hi) (hpause : pause < (hi - (lo + 1 / 10 ^ 12)) / chg) (hh : 0 < h)
  (hsmall : dis * h ≤ 1 / 10 ^ 12) (hsmall2 : dis / chg * h < (hi - (lo + 1 / 10 ^ 12)) / chg - pause)
  (ha : a = drainSteps ((hi - (lo + 1 / 10 ^ 12)) / dis) h) (hb : b = fillSteps dis chg a)
include hdis hchg hcap hh ha hb

theorem drain_pos : 0 < a := by
  rw [ha, drainSteps, Nat.ceil_pos]
  have : 0 < hi - (lo + 1 / 10 ^ 12) := by linarith
  positivity

theorem fill_pos : 0 < b := by
  have := drain_pos hdis hchg hcap hh ha hb
  rw [hb, fillSteps, Nat.ceil_pos]
  positivity

theorem drain_lt {r : ℕ} (hr : r < a) : lo + 1 / 10 ^ 12 < hi - r * (dis * h) := by
  rw [ha, drainSteps, Nat.lt_ceil, lt_div_iff₀ hh, lt_div_iff₀ hdis] at hr
  linarith

theorem drain_le : hi - a * (dis * h) ≤ lo + 1 / 10 ^ 12 := by
  have := Nat.le_ceil ((hi - (lo + 1 / 10 ^ 12)) / dis / h)
  rw [← drainSteps, ← ha, div_le_iff₀ hh, div_le_iff₀ hdis] at this
  linarith

theorem drain_ge : lo + 1 / 10 ^ 12 - dis * h < hi - a * (dis * h) := by
  have h0 := drain_pos hdis hchg hcap hh ha hb
  have := drain_lt hdis hchg hcap hh ha hb (r := a - 1) (by omega)
  rw [Nat.cast_sub h0] at this
  push_cast at this; linarith

theorem fill_lt {r : ℕ} (hr : r < b) : r * (chg * h) < a * (dis * h) := by
  rw [hb, fillSteps, Nat.lt_ceil, lt_div_iff₀ hchg] at hr
  nlinarith

theorem fill_ge : a * (dis * h) ≤ b * (chg * h) := by
  have := Nat.le_ceil (a * dis / chg)
  rw [← fillSteps, ← hb, div_le_iff₀ hchg] at this
  nlinarith

include hpause hsmall hsmall2

/-- one duty phase and the battery phase after it -/
theorem charge_step [PyNan ℝ] (hnan : ∀ x : ℝ, PyNan.isnan x = false) (hB : CyclingBattery P lo hi dis chg pause T) {n : ℕ}
    {s : LoopSt ℝ} (hn : n * h ≤ T) (hV : ChargeVars P a b hi dis chg h n s) :
    ∃ tOn tOff charging, dutyPhase P s h =
        { duty := cycleOn a b n, tOn := tOn, tOff := tOff, charging := charging, step := h } ∧
      ∀ s' : LoopSt ℝ, s'.t = s.t + h → s'.tOn = tOn → s'.tOff = tOff → s'.duty = cycleOn a b n →
        s'.battery = (batteryPhase P s.battery (cycleOn a b n) charging h).1 →
        s'.charging = (batteryPhase P s.battery (cycleOn a b n) charging h).2 →
        ChargeVars P a b hi dis chg h (n + 1) s' := by
  have ha0 := drain_pos hdis hchg hcap hh ha hb
  have hb0 := fill_pos hdis hchg hcap hh ha hb
  have hfill := fill_ge hdis hchg hcap hh ha hb
  have hdl := drain_le hdis hchg hcap hh ha hb
  have hdg := drain_ge hdis hchg hcap hh ha hb
  have e12 : (0 : ℝ) < 1 / 10 ^ 12 := by positivity
  obtain ⟨r, hr⟩ : ∃ r, r = n % (a + b) := ⟨_, rfl⟩
  have hrlt : r < a + b := by rw [hr]; exact Nat.mod_lt _ (by omega)
  have hrn : r ≤ n := by rw [hr]; exact Nat.mod_le _ _
  have h1 := hV.battery
  have h2 := hV.charging
  have h3 := hV.ready
  have h4 := hV.tOff
  rw [cycleLevel, ← hr] at h1
  rw [← hr] at h2 h3 h4
  have hdc : 0 < dis / chg * h := by positivity
  have hrat : (rat 1 (10 ^ 12) : ℝ) = 1 / 10 ^ 12 := by rw [rat_real]; norm_num
  have fon : ¬ P.dutyOn < s.t - s.tOn := by
    rw [hV.t]; linarith [hB.dutyOn, hV.tOn]
  have hdh : 0 < dis * h := by positivity
  have hch : 0 < chg * h := by positivity
  have ht' : s.t + h = ((n + 1 : ℕ) : ℝ) * h := by rw [hV.t]; push_cast; ring
  by_cases hra : r < a
  · -- thrust
    have hcy : cycleOn a b n = true := by rw [cycleOn, ← hr]; exact decide_eq_true hra
    have hlev : s.battery = hi - r * (dis * h) := by rw [h1, if_pos hra.le]
    have hch0 : s.charging = false := by rw [h2]; exact decide_eq_false (by omega)
    have hlt := drain_lt hdis hchg hcap hh ha hb hra
    rw [← hlev] at hlt
    have ffl : ¬ s.battery ≤ P.capMin + rat 1 (10 ^ 12) := by rw [hrat, hB.lower]; linarith
    have fsh : ¬ s.battery - P.dischargeRate * h < P.capMin := by rw [hB.lower, hB.discharge]; linarith
    obtain ⟨tOn, hdu, htOn⟩ : ∃ tOn, dutyPhase P s h =
        { duty := true, tOn := tOn, tOff := s.tOff, charging := false, step := h } ∧ 0 ≤ tOn := by
      cases hdd : s.duty with
      | true =>
        refine ⟨s.tOn, ?_, hV.tOn⟩
        simp only [dutyPhase, lt_real, le_real, hdd, hch0, decide_eq_false fon, decide_eq_false ffl, decide_eq_false fsh]
        simp
      | false =>
        have f2 : P.dutyOff < s.t - s.tOff := (h3 hra).resolve_left (by rw [hdd]; decide)
        refine ⟨s.t, ?_, by rw [hV.t]; positivity⟩
        simp only [dutyPhase, lt_real, le_real, hdd, hch0, decide_eq_false ffl, decide_eq_false fsh]
        simp
        exact ⟨f2, fun h5 => by linarith⟩
    rw [hcy]
    refine ⟨tOn, s.tOff, false, hdu, fun s' g1 g2 g3 g4 g5 g6 => ?_⟩
    have hm := mod_succ_lt (p := a + b) (k := n) (by omega)
    rw [← hr] at hm
    simp only [batteryPhase, if_true, npclip_real hnan, hB.lower, hB.upper, hB.discharge] at g5 g6
    have hr0 : 0 ≤ (r : ℝ) * (dis * h) := by positivity
    have g5' : s'.battery = s.battery - dis * h := by
      rw [g5, max_eq_left (by linarith), min_eq_left (by linarith)]
    constructor
    · rw [g1, ht']
    · rw [g2]; exact htOn
    · rw [g5', cycleLevel, hm, if_pos (by omega), hlev]; push_cast; ring
    · rw [g6, hm]; exact (decide_eq_false (by omega)).symm
    · intro _; left; exact g4
    · intro h5; omega
  · -- coast
    have hcy : cycleOn a b n = false := by rw [cycleOn, ← hr]; exact decide_eq_false hra
    have hlev : s.battery = hi - a * (dis * h) + ((r - a : ℕ) : ℝ) * (chg * h) := by
      rw [h1]
      split_ifs with h5
      · rw [show r = a by omega]; simp
      · rfl
    have hbr := fill_lt hdis hchg hcap hh ha hb (r := r - a) (by omega)
    have hlt : s.battery < hi := by rw [hlev]; linarith
    have hra0 : 0 ≤ ((r - a : ℕ) : ℝ) * (chg * h) := by positivity
    -- the battery is at its minimum at the first coasting step, and only there within `dis / chg` steps
    obtain ⟨tOn, tOff, hdu, htOn, htOff⟩ : ∃ tOn tOff, dutyPhase P s h =
        { duty := false, tOn := tOn, tOff := tOff, charging := true, step := h } ∧ 0 ≤ tOn ∧
        tOff ≤ ((n - r + a : ℕ) : ℝ) * h + dis / chg * h := by
      by_cases ffl : s.battery ≤ P.capMin + rat 1 (10 ^ 12)
      · refine ⟨if (decide (P.dutyOff < s.t - s.tOff) && !s.duty) then s.t else s.tOn, s.t, ?_, ?_, ?_⟩
        · simp only [dutyPhase, lt_real, le_real, decide_eq_false fon, decide_eq_true ffl]
          simp
        · split_ifs
          · rw [hV.t]; positivity
          · exact hV.tOn
        · rw [hrat, hB.lower, hlev] at ffl
          have h5 : ((r - a : ℕ) : ℝ) * (chg * h) < dis * h := by linarith
          have h6 : ((r - a : ℕ) : ℝ) * h < dis / chg * h := by
            rw [div_mul_eq_mul_div, lt_div_iff₀ hchg]; linarith
          have h7 : (n : ℝ) = ((n - r + a : ℕ) : ℝ) + ((r - a : ℕ) : ℝ) := by
            rw [← Nat.cast_add]; congr 1; omega
          rw [hV.t, h7, add_mul]; linarith
      · have hra' : a < r := by
          rcases Nat.lt_or_ge a r with h5 | h5
          · exact h5
          · exfalso
            apply ffl
            rw [hrat, hB.lower, hlev, show r - a = 0 by omega]; push_cast; linarith
        have hch1 : s.charging = true := by rw [h2]; exact decide_eq_true hra'
        have flk : s.battery < P.capMax := by rw [hB.upper]; exact hlt
        refine ⟨if (decide (P.dutyOff < s.t - s.tOff) && !s.duty) then s.t else s.tOn, s.tOff, ?_, ?_, h4 hra'⟩
        · simp only [dutyPhase, lt_real, le_real, decide_eq_false fon, decide_eq_false ffl, hch1, hB.recharge,
            decide_eq_true flk]
          simp
        · split_ifs
          · rw [hV.t]; positivity
          · exact hV.tOn
    rw [hcy]
    refine ⟨tOn, tOff, true, hdu, fun s' g1 g2 g3 g4 g5 g6 => ?_⟩
    simp only [batteryPhase, Bool.false_eq_true, if_false, npclip_real hnan, hB.lower, hB.upper, hB.charge, eq_real] at g5 g6
    have hge : lo ≤ s.battery + chg * h := by rw [hlev]; linarith
    rw [max_eq_left hge] at g5 g6
    have hsucc : ((r - a : ℕ) : ℝ) * (chg * h) + chg * h = ((r + 1 - a : ℕ) : ℝ) * (chg * h) := by
      rw [show r + 1 - a = (r - a) + 1 by omega]; push_cast; ring
    by_cases hlast : r + 1 < a + b
    · have hm := mod_succ_lt (p := a + b) (k := n) (by omega)
      rw [← hr] at hm
      have hbr1 := fill_lt hdis hchg hcap hh ha hb (r := r + 1 - a) (by omega)
      have hlt1 : s.battery + chg * h < hi := by rw [hlev]; linarith
      rw [min_eq_left hlt1.le] at g5 g6
      rw [decide_eq_false hlt1.ne] at g6
      constructor
      · rw [g1, ht']
      · rw [g2]; exact htOn
      · rw [g5, cycleLevel, hm, if_neg (by omega), hlev]; linarith
      · rw [g6, hm]; simp; omega
      · intro h5; omega
      · intro _
        rw [g3, hm, show n + 1 - (r + 1) = n - r by omega]; exact htOff
    · have hcb : r + 1 = a + b := by omega
      have hm := mod_succ_eq (p := a + b) (k := n) (by omega)
      have hge1 : hi ≤ s.battery + chg * h := by
        rw [hlev]
        rw [show r + 1 - a = b by omega] at hsucc
        linarith
      rw [min_eq_right hge1] at g5 g6
      constructor
      · rw [g1, ht']
      · rw [g2]; exact htOn
      · rw [g5, cycleLevel, hm, if_pos (by omega)]; push_cast; ring
      · rw [g6, hm]; simp
      · intro _
        right
        rw [g1, g3, ht', hB.dutyOff, show n + 1 = (n - r + a) + b by omega]
        push_cast
        -- `b h` is at least the nominal recharging time
        have h8 : (hi - (lo + 1 / 10 ^ 12)) / chg ≤ b * h := by
          rw [div_le_iff₀ hchg]; linarith
        have h9 : ((n - r + a : ℕ) : ℝ) = ((n - r : ℕ) : ℝ) + a := by push_cast; ring
        rw [h9] at htOff
        linarith
      · intro h5; omega

end clock

/-- a cycle of `a` and `b` steps that is at most `D` steps longer than nominal agrees with the nominal schedule during
all but a bounded number of steps -/
theorem cycle_near {on off T : ℝ} (hon : 0 < on) (hoff : 0 < off) (D0 : ℕ) :
    ∃ N : ℕ, ∀ h, 0 < h → ∀ a b : ℕ, 0 < a → 0 < b → on ≤ a * h → a * h ≤ on + D0 * h → off ≤ b * h → b * h ≤ off + D0 * h →
      ∃ S : Finset ℕ, S.card ≤ N ∧ ∀ k : ℕ, k * h ≤ T → k ∈ S ∨
        ∀ s ∈ Ico (k * h) ((k + 1) * h), dutySchedule on off s = cycleOn a b k := by
  have hp : 0 < on + off := by linarith
  obtain ⟨J, hJ⟩ : ∃ J, J = ⌊T / (on + off)⌋₊ := ⟨_, rfl⟩
  obtain ⟨D, hD⟩ : ∃ D, D = 2 * D0 * (J + 1) + 1 := ⟨_, rfl⟩
  refine ⟨(J + 1) * (2 * (2 * D + 1)), fun h hh a b ha0 hb0 a1 a2 b1 b2 => ?_⟩
  choose near hcard hnear using fun c => near_steps c D hh
  refine ⟨(Finset.range (J + 1)).biUnion fun j => near (j * (on + off) + on) ∪ near ((j + 1) * (on + off)), ?_, ?_⟩
  · refine Finset.card_biUnion_le.trans ?_
    refine (Finset.sum_le_card_nsmul _ _ (2 * (2 * D + 1)) fun j _ => ?_).trans (by rw [Finset.card_range, smul_eq_mul])
    refine (Finset.card_union_le _ _).trans ?_
    rw [hcard, hcard]; omega
  · intro k hk
    obtain ⟨j, hj⟩ : ∃ j, j = k / (a + b) := ⟨_, rfl⟩
    obtain ⟨r, hr⟩ : ∃ r, r = k % (a + b) := ⟨_, rfl⟩
    have hrlt : r < a + b := by rw [hr]; exact Nat.mod_lt _ (by omega)
    have hk' : (k : ℝ) = j * (a + b) + r := by
      have := Nat.div_add_mod k (a + b)
      rw [← hj, ← hr] at this
      have h2 : ((k : ℕ) : ℝ) = ((a + b) * j + r : ℕ) := by rw [this]
      rw [h2]; push_cast; ring
    have hj0 : (0 : ℝ) ≤ j := by positivity
    have c1 : j * (on + off) ≤ j * ((a + b) * h) := by
      apply mul_le_mul_of_nonneg_left _ hj0; linarith
    have c2 : j * ((a + b) * h) ≤ j * (on + off + 2 * D0 * h) := by
      apply mul_le_mul_of_nonneg_left _ hj0; linarith
    have hkh : (k : ℝ) * h = j * ((a + b) * h) + r * h := by rw [hk']; ring
    have hr0 : 0 ≤ (r : ℝ) * h := by positivity
    have hjJ : j ≤ J := by
      rw [hJ]
      apply Nat.le_floor
      rw [le_div_iff₀ hp]; linarith
    have hjJ' : (j : ℝ) ≤ J := by exact_mod_cast hjJ
    have hDj : (2 * D0 * (j + 1) + 1 : ℝ) * h ≤ D * h := by
      rw [hD]; push_cast
      apply mul_le_mul_of_nonneg_right _ hh.le
      have : (2 * D0 : ℝ) * (j + 1) ≤ 2 * D0 * (J + 1) := by gcongr
      linarith
    have e2 : j * (on + off + 2 * D0 * h) = j * (on + off) + 2 * D0 * j * h := by ring
    have e3 : (2 * D0 * (j + 1) + 1 : ℝ) * h = 2 * D0 * j * h + D0 * h + D0 * h + h := by ring
    have hjh : 0 ≤ (2 * D0 * j * h : ℝ) := by positivity
    have hD0h : 0 ≤ (D0 * h : ℝ) := by positivity
    have mem : ∀ c, (c = j * (on + off) + on ∨ c = (j + 1) * (on + off)) → |k * h - c| ≤ D * h →
        k ∈ (Finset.range (J + 1)).biUnion fun j : ℕ => near (j * (on + off) + on) ∪ near ((j + 1) * (on + off)) := by
      intro c hc hcl
      rw [Finset.mem_biUnion]
      refine ⟨j, Finset.mem_range.2 (by omega), Finset.mem_union.2 ?_⟩
      rcases hc with rfl | rfl
      · exact Or.inl (hnear _ k hcl)
      · exact Or.inr (hnear _ k hcl)
    by_cases hra : r < a
    · have r1 : (r : ℝ) * h ≤ a * h := by
        apply mul_le_mul_of_nonneg_right _ hh.le
        exact_mod_cast hra.le
      have hcy : cycleOn a b k = true := by rw [cycleOn, ← hr]; exact decide_eq_true hra
      by_cases hin : (k + 1 : ℝ) * h ≤ j * (on + off) + on
      · right
        intro s hs
        rw [hcy, dutySchedule_on hon hoff j ⟨by linarith [hs.1], by linarith [hs.2]⟩]
      · left
        rw [add_mul, one_mul] at hin
        refine mem _ (Or.inl rfl) (abs_le.2 ⟨?_, ?_⟩) <;> linarith
    · have r1 : (r : ℝ) * h ≤ (a + b) * h := by
        apply mul_le_mul_of_nonneg_right _ hh.le
        exact_mod_cast hrlt.le
      have r2 : (a : ℝ) * h ≤ r * h := by
        apply mul_le_mul_of_nonneg_right _ hh.le
        exact_mod_cast not_lt.1 hra
      have hcy : cycleOn a b k = false := by rw [cycleOn, ← hr]; exact decide_eq_false hra
      have e4 : ((j : ℝ) + 1) * (on + off) = j * (on + off) + on + off := by ring
      by_cases hin : (k + 1 : ℝ) * h ≤ (j + 1) * (on + off)
      · right
        intro s hs
        rw [hcy, dutySchedule_off hon hoff j ⟨by linarith [hs.1], by linarith [hs.2]⟩]
      · left
        rw [add_mul, one_mul] at hin
        refine mem _ (Or.inr rfl) (abs_le.2 ⟨?_, ?_⟩) <;> linarith

/-- the battery cycle of the run agrees with the nominal schedule during all but a bounded number of steps -/
theorem charge_matches {lo hi dis chg on off T : ℝ} (hdis : 0 < dis) (hchg : 0 < chg) (hcap : lo + 1 / 10 ^ 12 < hi)
    (hon : on = (hi - (lo + 1 / 10 ^ 12)) / dis) (hoff : off = (hi - (lo + 1 / 10 ^ 12)) / chg) :
    ∃ N : ℕ, ∀ h, 0 < h → ∃ S : Finset ℕ, S.card ≤ N ∧ ∀ k : ℕ, k * h ≤ T → k ∈ S ∨
      ∀ s ∈ Ico (k * h) ((k + 1) * h), dutySchedule on off s =
        cycleOn (drainSteps on h) (fillSteps dis chg (drainSteps on h)) k := by
  have hlev : 0 < hi - (lo + 1 / 10 ^ 12) := by linarith
  have hon0 : 0 < on := by rw [hon]; positivity
  have hoff0 : 0 < off := by rw [hoff]; positivity
  obtain ⟨D0, hD0⟩ : ∃ D0, D0 = ⌈1 + dis / chg⌉₊ := ⟨_, rfl⟩
  have hD1 : 1 + dis / chg ≤ D0 := by rw [hD0]; exact Nat.le_ceil _
  have hdc : 0 < dis / chg := by positivity
  obtain ⟨N, hcy⟩ := cycle_near (T := T) hon0 hoff0 D0
  refine ⟨N, fun h hh => ?_⟩
  have ha : drainSteps on h = drainSteps ((hi - (lo + 1 / 10 ^ 12)) / dis) h := by rw [hon]
  have eon : on * dis = hi - (lo + 1 / 10 ^ 12) := by rw [hon, div_mul_cancel₀ _ hdis.ne']
  have eoff : off * chg = hi - (lo + 1 / 10 ^ 12) := by rw [hoff, div_mul_cancel₀ _ hchg.ne']
  have hDh : (1 + dis / chg) * h ≤ D0 * h := mul_le_mul_of_nonneg_right hD1 hh.le
  have hdch : 0 < dis / chg * h := by positivity
  exact hcy h hh (drainSteps on h) (fillSteps dis chg (drainSteps on h))
    (drain_pos hdis hchg hcap hh ha rfl) (fill_pos hdis hchg hcap hh ha rfl)
    (by
      have := drain_le hdis hchg hcap hh ha rfl
      exact le_of_mul_le_mul_right (by linarith) hdis)
    (by
      have := drain_ge hdis hchg hcap hh ha rfl
      have h1 : (drainSteps on h : ℝ) * h ≤ on + h := by
        exact le_of_mul_le_mul_right (by linarith) hdis
      linarith)
    (by
      have h1 := drain_le hdis hchg hcap hh ha rfl
      have h2 := fill_ge hdis hchg hcap hh ha rfl
      exact le_of_mul_le_mul_right (by linarith) hchg)
    (by
      have h1 := drain_ge hdis hchg hcap hh ha rfl
      have h0 := fill_pos hdis hchg hcap hh ha rfl
      have h2 := fill_lt hdis hchg hcap hh ha rfl (r := fillSteps dis chg (drainSteps on h) - 1) (by omega)
      rw [Nat.cast_sub h0] at h2
      push_cast at h2
      have h3 : (fillSteps dis chg (drainSteps on h) : ℝ) * h ≤ off + (1 + dis / chg) * h := by
        have h4 : (fillSteps dis chg (drainSteps on h) : ℝ) * h - (1 + dis / chg) * h ≤ off := by
          have h5 : dis / chg * h * chg = dis * h := by field_simp
          exact le_of_mul_le_mul_right (by linarith) hchg
        linarith
      linarith)

end PyQ
