import Verif.Props.SwitchedRun
import Verif.Props.DisturbedReach

/-!
The duty cycle of a run with constant steps: with `a` steps on and `b` steps off in turn, where `a` and `b` are the least
numbers of steps longer than the on and off times; and how far this is from the nominal schedule.
-/

set_option linter.unusedSectionVars false
set_option maxRecDepth 100000

open Set Metric Topology

namespace PyQ

/-- thrust for a duration `on`, coast for a duration `off`, and so on -/
noncomputable def dutySchedule (on off t : ℝ) : Bool := decide (t - ⌊t / (on + off)⌋ * (on + off) < on)

/-- the least number of steps `h` that is longer than `d` -/
noncomputable def stepsBeyond (d h : ℝ) : ℕ := ⌊d / h⌋₊ + 1

theorem stepsBeyond_lt {d h : ℝ} (hh : 0 < h) : d < stepsBeyond d h * h := by
  have := Nat.lt_floor_add_one (d / h)
  rw [div_lt_iff₀ hh] at this
  rw [stepsBeyond]; push_cast; exact this

theorem stepsBeyond_le {d h : ℝ} (hd : 0 ≤ d) (hh : 0 < h) {r : ℕ} (hr : r < stepsBeyond d h) : r * h ≤ d := by
  have h1 : r ≤ ⌊d / h⌋₊ := by rw [stepsBeyond] at hr; omega
  have h2 := (Nat.le_floor_iff (by positivity)).1 h1
  rwa [le_div_iff₀ hh] at h2

/-- step `k` of the cycle of `a` steps on and `b` steps off thrusts -/
def cycleOn (a b k : ℕ) : Bool := decide (k % (a + b) < a)

/-- the duty variables after the duty phase of step `k` -/
structure DutyVars (a b : ℕ) (h : ℝ) (k : ℕ) (duty : Bool) (tOn tOff : ℝ) : Prop where
  duty : duty = cycleOn a b k
  tOn : tOn = ((k - k % (a + b) : ℕ) : ℝ) * h
  tOff : a ≤ k % (a + b) → tOff = ((k - k % (a + b) + a : ℕ) : ℝ) * h

/-- the duty variables before the duty phase of step `n` -/
def DutyBefore (a b : ℕ) (h : ℝ) : ℕ → Bool → ℝ → ℝ → Prop
  | 0, duty, tOn, _ => duty = true ∧ tOn = 0
  | k + 1, duty, tOn, tOff => DutyVars a b h k duty tOn tOff

theorem mod_succ_lt {p k : ℕ} (h : k % p + 1 < p) : (k + 1) % p = k % p + 1 := by
  rw [Nat.add_mod, Nat.mod_eq_of_lt (show 1 < p by omega), Nat.mod_eq_of_lt h]

theorem mod_succ_eq {p k : ℕ} (h : k % p + 1 = p) : (k + 1) % p = 0 := by
  have h1 := Nat.div_add_mod k p
  have : k + 1 = p * (k / p + 1) := by rw [mul_add, mul_one]; omega
  rw [this, Nat.mul_mod_right]

/-- one duty phase, away from the battery floor -/
theorem duty_step {P : Problem ℝ} {s : LoopSt ℝ} {h : ℝ} (hh : 0 < h) (hon : 0 ≤ P.dutyOn) (hoff : 0 ≤ P.dutyOff) {a b n : ℕ}
    (ha : a = stepsBeyond P.dutyOn h) (hb : b = stepsBeyond P.dutyOff h) (ht : s.t = n * h)
    (hs : DutyBefore a b h n s.duty s.tOn s.tOff) (hch : s.charging = false)
    (hfl : ¬ s.battery ≤ P.capMin + 1 / 10 ^ 12) (hsh : ¬ s.battery - P.dischargeRate * h < P.capMin) :
    ∃ duty tOn tOff, dutyPhase P s h = { duty := duty, tOn := tOn, tOff := tOff, charging := false, step := h } ∧
      DutyVars a b h n duty tOn tOff := by
  have ha0 : 0 < a := by rw [ha, stepsBeyond]; omega
  have hb0 : 0 < b := by rw [hb, stepsBeyond]; omega
  have hfl' : ¬ s.battery ≤ P.capMin + rat 1 (10 ^ 12) := by rw [rat_real]; norm_num at hfl ⊢; exact hfl
  cases n with
  | zero =>
    obtain ⟨h1, h2⟩ := hs
    have ht0 : s.t = 0 := by rw [ht]; simp
    have f1 : ¬ P.dutyOn < s.t - s.tOn := by rw [ht0, h2]; linarith
    refine ⟨true, 0, s.tOff, ?_, ?_, ?_, ?_⟩
    · rw [h2] at f1
      simp only [dutyPhase, lt_real, le_real, h1, h2, hch, decide_eq_false f1, decide_eq_false hfl', decide_eq_false hsh]
      simp
    · simp [cycleOn, ha0]
    · simp
    · intro h3; simp at h3; omega
  | succ k =>
    obtain ⟨h1, h2, h3⟩ := hs
    have hr := Nat.mod_lt k (show 0 < a + b by omega)
    have hle := Nat.mod_le k (a + b)
    push_cast at ht
    have hpos : ∀ r : ℕ, r ≤ k → s.t - ((k - r : ℕ) : ℝ) * h = (r + 1 : ℕ) * h := by
      intro r hrk
      rw [ht, Nat.cast_sub hrk]; push_cast; ring
    by_cases hc : k % (a + b) < a
    · have hduty : s.duty = true := by rw [h1, cycleOn, decide_eq_true hc]
      have hon' : s.t - s.tOn = (k % (a + b) + 1 : ℕ) * h := by rw [h2]; exact hpos _ hle
      by_cases hc2 : k % (a + b) + 1 < a
      · have f1 : ¬ P.dutyOn < s.t - s.tOn := by
          rw [hon', not_lt]
          exact stepsBeyond_le hon hh (by rw [← ha]; exact hc2)
        have hm := mod_succ_lt (p := a + b) (k := k) (by omega)
        refine ⟨true, s.tOn, s.tOff, ?_, ?_, ?_, ?_⟩
        · simp only [dutyPhase, lt_real, le_real, hduty, hch, decide_eq_false f1, decide_eq_false hfl', decide_eq_false hsh]
          simp
        · rw [cycleOn, hm, decide_eq_true hc2]
        · rw [h2, hm]; congr 2; omega
        · intro h4; omega
      · have hca : k % (a + b) + 1 = a := by omega
        have f1 : P.dutyOn < s.t - s.tOn := by
          rw [hon', hca, ha]
          exact stepsBeyond_lt hh
        have f2 : ¬ P.dutyOff < s.t - s.t := by rw [sub_self]; linarith
        have hm := mod_succ_lt (p := a + b) (k := k) (by omega)
        refine ⟨false, s.tOn, s.t, ?_, ?_, ?_, ?_⟩
        · simp only [dutyPhase, lt_real, le_real, hduty, hch, decide_eq_true f1, decide_eq_false hfl', decide_eq_false hsh]
          simp
          exact ⟨hoff, fun h5 => absurd hoff (not_le.2 h5)⟩
        · rw [cycleOn, hm, decide_eq_false (by omega)]
        · rw [h2, hm]; congr 2; omega
        · intro _
          rw [ht, hm, hca, show k + 1 - a + a = k + 1 by omega]; push_cast; ring
    · have hduty : s.duty = false := by rw [h1, cycleOn, decide_eq_false hc]
      have hoffe : s.t - s.tOff = (k % (a + b) - a + 1 : ℕ) * h := by
        rw [h3 (by omega), ← hpos _ (show k % (a + b) - a ≤ k by omega)]; congr 3; omega
      by_cases hc2 : k % (a + b) + 1 < a + b
      · have f2 : ¬ P.dutyOff < s.t - s.tOff := by
          rw [hoffe, not_lt]
          exact stepsBeyond_le hoff hh (by rw [← hb]; omega)
        have hm := mod_succ_lt (p := a + b) (k := k) (by omega)
        refine ⟨false, s.tOn, s.tOff, ?_, ?_, ?_, ?_⟩
        · simp only [dutyPhase, lt_real, le_real, hduty, hch, decide_eq_false hfl', decide_eq_false hsh,
            Bool.false_eq_true, if_false]
          simp
          exact ⟨by linarith, fun h5 => absurd h5 f2⟩
        · rw [cycleOn, hm, decide_eq_false (by omega)]
        · rw [h2, hm]; congr 2; omega
        · intro _
          rw [h3 (by omega), hm]; congr 2; omega
      · have hcb : k % (a + b) + 1 = a + b := by omega
        have f2 : P.dutyOff < s.t - s.tOff := by
          rw [hoffe, show k % (a + b) - a + 1 = b by omega, hb]
          exact stepsBeyond_lt hh
        have hm := mod_succ_eq (p := a + b) (k := k) hcb
        refine ⟨true, s.t, s.tOff, ?_, ?_, ?_, ?_⟩
        · simp only [dutyPhase, lt_real, le_real, hduty, hch, decide_eq_false hfl', decide_eq_false hsh,
            Bool.false_eq_true, if_false]
          simp
          exact ⟨f2, fun h5 => by linarith⟩
        · rw [cycleOn, hm, decide_eq_true ha0]
        · rw [ht, hm]; push_cast; ring
        · intro h4; omega

theorem dutySchedule_on {on off t : ℝ} (hon : 0 < on) (hoff : 0 < off) (j : ℕ)
    (h : t ∈ Ico (j * (on + off)) (j * (on + off) + on)) : dutySchedule on off t = true := by
  have hp : 0 < on + off := by linarith
  have hf : ⌊t / (on + off)⌋ = (j : ℤ) := by
    rw [Int.floor_eq_iff]
    push_cast
    exact ⟨by rw [le_div_iff₀ hp]; exact h.1, by rw [div_lt_iff₀ hp]; linarith [h.2]⟩
  rw [dutySchedule, hf]
  push_cast
  exact decide_eq_true (by linarith [h.2])

theorem dutySchedule_off {on off t : ℝ} (hon : 0 < on) (hoff : 0 < off) (j : ℕ)
    (h : t ∈ Ico (j * (on + off) + on) ((j + 1) * (on + off))) : dutySchedule on off t = false := by
  have hp : 0 < on + off := by linarith
  have hf : ⌊t / (on + off)⌋ = (j : ℤ) := by
    rw [Int.floor_eq_iff]
    push_cast
    exact ⟨by rw [le_div_iff₀ hp]; linarith [h.1], by rw [div_lt_iff₀ hp]; exact h.2⟩
  rw [dutySchedule, hf]
  push_cast
  exact decide_eq_false (by linarith [h.1])

/-- the duty schedule has finitely many switches -/
theorem dutySchedule_piecewise {on off T : ℝ} (hon : 0 < on) (hoff : 0 < off) (hT : 0 ≤ T) :
    PiecewiseConst (dutySchedule on off) T := by
  have hp : 0 < on + off := by linarith
  obtain ⟨b, hb⟩ : ∃ b : ℕ → ℝ, b = fun i => (i / 2 : ℕ) * (on + off) + if i % 2 = 1 then on else 0 := ⟨_, rfl⟩
  have be : ∀ j : ℕ, b (2 * j) = j * (on + off) := fun j => by
    rw [hb]; simp only [show 2 * j / 2 = j by omega, show ¬ (2 * j) % 2 = 1 by omega, if_false, add_zero]
  have bo : ∀ j : ℕ, b (2 * j + 1) = j * (on + off) + on := fun j => by
    rw [hb]; simp only [show (2 * j + 1) / 2 = j by omega, show (2 * j + 1) % 2 = 1 by omega, if_true]
  have b2 : ∀ j : ℕ, b (2 * j + 1 + 1) = (j + 1) * (on + off) := fun j => by
    rw [show 2 * j + 1 + 1 = 2 * (j + 1) by ring, be]; push_cast; ring
  have hmono : ∀ i, b i ≤ b (i + 1) := by
    intro i
    obtain ⟨j, rfl | rfl⟩ : ∃ j, i = 2 * j ∨ i = 2 * j + 1 := ⟨i / 2, by omega⟩
    · rw [be, bo]; linarith
    · rw [bo, b2]; linarith
  have hlast : T ≤ b (2 * (⌊T / (on + off)⌋₊ + 1)) := by
    have := Nat.lt_floor_add_one (T / (on + off))
    rw [div_lt_iff₀ hp] at this
    rw [be]; push_cast; exact this.le
  refine ⟨2 * (⌊T / (on + off)⌋₊ + 1), fun i => min (b i) T, ?_, min_eq_right hlast, fun i _ => min_le_min_right _ (hmono i), ?_⟩
  · have : b 0 = 0 := by have := be 0; simpa using this
    simp only [this]; exact min_eq_left hT
  · intro i _ t ht
    have hi : b i < T := by
      by_contra hc
      have h1 : min (b i) T = T := min_eq_right (not_lt.1 hc)
      have h2 := ht.1.trans_lt ht.2
      simp only [h1] at h2
      exact absurd h2 (not_lt.2 (min_le_right _ _))
    simp only [min_eq_left hi.le] at ht ⊢
    have ht2 := ht.2.trans_le (min_le_left _ _)
    have hbi := ht.1.trans_lt ht2
    obtain ⟨j, rfl | rfl⟩ : ∃ j, i = 2 * j ∨ i = 2 * j + 1 := ⟨i / 2, by omega⟩
    · rw [be] at ht hbi ⊢
      rw [bo] at ht2 hbi
      rw [dutySchedule_on hon hoff j ⟨ht.1, ht2⟩, dutySchedule_on hon hoff j ⟨le_rfl, hbi⟩]
    · rw [bo] at ht hbi ⊢
      rw [b2] at ht2 hbi
      rw [dutySchedule_off hon hoff j ⟨ht.1, ht2⟩, dutySchedule_off hon hoff j ⟨le_rfl, hbi⟩]

/-- the steps that begin within `D` steps of a time `c` -/
theorem near_steps (c : ℝ) (D : ℕ) {h : ℝ} (hh : 0 < h) :
    ∃ S : Finset ℕ, S.card = 2 * D + 1 ∧ ∀ k : ℕ, |k * h - c| ≤ D * h → k ∈ S := by
  refine ⟨Finset.Icc ⌈c / h - D⌉₊ (⌈c / h - D⌉₊ + 2 * D), by rw [Nat.card_Icc]; omega, fun k hk => ?_⟩
  obtain ⟨h1, h2⟩ := abs_le.1 hk
  rw [Finset.mem_Icc]
  constructor
  · rw [Nat.ceil_le, sub_le_iff_le_add, div_le_iff₀ hh]
    linarith
  · have h3 := Nat.le_ceil (c / h - D)
    have h4 : (k : ℝ) ≤ c / h + D := by
      rw [← sub_le_iff_le_add, le_div_iff₀ hh]
      linarith
    have h5 : (k : ℝ) ≤ (⌈c / h - D⌉₊ + 2 * D : ℕ) := by push_cast; linarith
    exact_mod_cast h5

/-- the cycle of the run agrees with the nominal schedule during all but a bounded number of steps -/
theorem cycle_matches {on off T : ℝ} (hon : 0 < on) (hoff : 0 < off) :
    ∃ N : ℕ, ∀ h, 0 < h → ∃ S : Finset ℕ, S.card ≤ N ∧ ∀ k : ℕ, k * h ≤ T → k ∈ S ∨
      ∀ s ∈ Ico (k * h) ((k + 1) * h), dutySchedule on off s = cycleOn (stepsBeyond on h) (stepsBeyond off h) k := by
  have hp : 0 < on + off := by linarith
  obtain ⟨J, hJ⟩ : ∃ J, J = ⌊T / (on + off)⌋₊ := ⟨_, rfl⟩
  obtain ⟨D, hD⟩ : ∃ D, D = 2 * J + 1 := ⟨_, rfl⟩
  refine ⟨(J + 1) * (2 * (2 * D + 1)), fun h hh => ?_⟩
  choose near hcard hnear using fun c => near_steps c D hh
  refine ⟨(Finset.range (J + 1)).biUnion fun j => near (j * (on + off) + on) ∪ near ((j + 1) * (on + off)), ?_, ?_⟩
  · refine Finset.card_biUnion_le.trans ?_
    refine (Finset.sum_le_card_nsmul _ _ (2 * (2 * D + 1)) fun j _ => ?_).trans (by rw [Finset.card_range, smul_eq_mul])
    refine (Finset.card_union_le _ _).trans ?_
    rw [hcard, hcard]; omega
  · intro k hk
    obtain ⟨a, ha⟩ : ∃ a, a = stepsBeyond on h := ⟨_, rfl⟩
    obtain ⟨b, hb⟩ : ∃ b, b = stepsBeyond off h := ⟨_, rfl⟩
    rw [← ha, ← hb]
    have ha0 : 0 < a := by rw [ha, stepsBeyond]; omega
    have hb0 : 0 < b := by rw [hb, stepsBeyond]; omega
    have a1 : on < a * h := by rw [ha]; exact stepsBeyond_lt hh
    have b1 : off < b * h := by rw [hb]; exact stepsBeyond_lt hh
    have a2 : a * h ≤ on + h := by
      have := stepsBeyond_le hon.le hh (r := a - 1) (by rw [← ha]; omega)
      rw [Nat.cast_sub ha0] at this; push_cast at this; linarith
    have b2 : b * h ≤ off + h := by
      have := stepsBeyond_le hoff.le hh (r := b - 1) (by rw [← hb]; omega)
      rw [Nat.cast_sub hb0] at this; push_cast at this; linarith
    obtain ⟨j, hj⟩ : ∃ j, j = k / (a + b) := ⟨_, rfl⟩
    obtain ⟨r, hr⟩ : ∃ r, r = k % (a + b) := ⟨_, rfl⟩
    have hrlt : r < a + b := by rw [hr]; exact Nat.mod_lt _ (by omega)
    have hk' : (k : ℝ) = j * (a + b) + r := by
      have := Nat.div_add_mod k (a + b)
      rw [← hj, ← hr] at this
      have h2 : ((k : ℕ) : ℝ) = ((a + b) * j + r : ℕ) := by rw [this]
      rw [h2]; push_cast; ring
    have hj0 : (0 : ℝ) ≤ j := by positivity
    have c1 : j * (on + off) ≤ j * ((a + b) * h) := by
      apply mul_le_mul_of_nonneg_left _ hj0; linarith
    have c2 : j * ((a + b) * h) ≤ j * (on + off + 2 * h) := by
      apply mul_le_mul_of_nonneg_left _ hj0; linarith
    have hkh : (k : ℝ) * h = j * ((a + b) * h) + r * h := by rw [hk']; ring
    have hr0 : 0 ≤ (r : ℝ) * h := by positivity
    have hjJ : j ≤ J := by
      rw [hJ]
      apply Nat.le_floor
      rw [le_div_iff₀ hp]; linarith
    have hjJ' : (j : ℝ) ≤ J := by exact_mod_cast hjJ
    have hDj : (2 * j + 1 : ℝ) * h ≤ D * h := by
      rw [hD]; push_cast
      apply mul_le_mul_of_nonneg_right _ hh.le; linarith
    have e2 : j * (on + off + 2 * h) = j * (on + off) + 2 * j * h := by ring
    have hjh : 0 ≤ (j : ℝ) * h := by positivity
    have mem : ∀ c, (c = j * (on + off) + on ∨ c = (j + 1) * (on + off)) → |k * h - c| ≤ D * h →
        k ∈ (Finset.range (J + 1)).biUnion fun j : ℕ => near (j * (on + off) + on) ∪ near ((j + 1) * (on + off)) := by
      intro c hc hcl
      rw [Finset.mem_biUnion]
      refine ⟨j, Finset.mem_range.2 (by omega), Finset.mem_union.2 ?_⟩
      rcases hc with rfl | rfl
      · exact Or.inl (hnear _ k hcl)
      · exact Or.inr (hnear _ k hcl)
    by_cases hra : r < a
    · have r1 : (r : ℝ) * h ≤ on := stepsBeyond_le hon.le hh (by rw [← ha]; exact hra)
      have hcy : cycleOn a b k = true := by rw [cycleOn, ← hr]; exact decide_eq_true hra
      by_cases hin : (k + 1 : ℝ) * h ≤ j * (on + off) + on
      · right
        intro s hs
        rw [hcy, dutySchedule_on hon hoff j ⟨by linarith [hs.1], by linarith [hs.2]⟩]
      · left
        refine mem _ (Or.inl rfl) (abs_le.2 ⟨?_, ?_⟩) <;> nlinarith
    · have r1 : ((r - a : ℕ) : ℝ) * h ≤ off := stepsBeyond_le hoff.le hh (by rw [← hb]; omega)
      rw [Nat.cast_sub (by omega)] at r1
      have r2 : (a : ℝ) * h ≤ r * h := by
        apply mul_le_mul_of_nonneg_right _ hh.le
        exact_mod_cast not_lt.1 hra
      have hcy : cycleOn a b k = false := by rw [cycleOn, ← hr]; exact decide_eq_false hra
      by_cases hin : (k + 1 : ℝ) * h ≤ (j + 1) * (on + off)
      · right
        intro s hs
        rw [hcy, dutySchedule_off hon hoff j ⟨by linarith [hs.1], by linarith [hs.2]⟩]
      · left
        refine mem _ (Or.inr rfl) (abs_le.2 ⟨?_, ?_⟩) <;> nlinarith

end PyQ
