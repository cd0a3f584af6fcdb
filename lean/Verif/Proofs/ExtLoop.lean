import Verif.Proofs.View
import Verif.Ext
import Mathlib.Tactic.FieldSimp
import Mathlib.Tactic.Ring
import Mathlib.Tactic.Positivity
import Mathlib.Tactic.NormNum

/-! # Duty, battery and clock over `Ext K` (helper lemmas) -/

set_option linter.unusedSectionVars false

namespace PyQ

/-- battery parameters are finite numbers -/
structure FinBattery {K : Type} (P : Problem (Ext K)) (b0 cm cM c d : K) : Prop where
  initial : P.batteryInitial = .fin b0
  capMin : P.capMin = .fin cm
  capMax : P.capMax = .fin cM
  charge : P.chargeRate = .fin c
  discharge : P.dischargeRate = .fin d

variable {K : Type} [Field K] [LinearOrder K] [IsStrictOrderedRing K] [PyTrans (Ext K)]

/-- NaN or finite -/
def NF (x : Ext K) : Prop := x = .nan ∨ ∃ b, x = .fin b

theorem NF.fin (b : K) : NF (.fin b : Ext K) := Or.inr ⟨b, rfl⟩

theorem rat_fin (p q : ℕ) (hq : (q : K) ≠ 0) : (rat p q : Ext K) = .fin ((p : K) / q) := by
  unfold rat
  rw [Ext.natCast_eq, Ext.natCast_eq, Ext.fin_div _ _ hq]

/-- `1e-12` -/
theorem tiny_fin : (rat 1 (10 ^ 12) : Ext K) = .fin (1 / 10 ^ 12) := by
  rw [rat_fin]
  · norm_num
  · norm_num

theorem npclip_fin (b lo hi : K) :
    npclip (.fin b : Ext K) (.fin lo) (.fin hi) = .fin (min (max b lo) hi) := by
  unfold npclip npmin npmax
  simp only [Ext.isnan_fin, Ext.lt_fin, Bool.false_eq_true, if_false, decide_eq_true_eq]
  have h1 : (if b < lo then (.fin lo : Ext K) else .fin b) = .fin (max b lo) := by
    split_ifs with h
    · rw [max_eq_right h.le]
    · rw [max_eq_left (not_lt.mp h)]
  rw [h1]
  simp only [Ext.isnan_fin, Ext.lt_fin, Bool.false_eq_true, if_false, decide_eq_true_eq]
  split_ifs with h
  · rw [min_eq_right h.le]
  · rw [min_eq_left (not_lt.mp h)]

theorem npclip_nan (lo hi : Ext K) : npclip (.nan : Ext K) lo hi = .nan := by
  unfold npclip npmin npmax
  simp

theorem npclip_pinf (lo hi : K) : npclip (.pinf : Ext K) (.fin lo) (.fin hi) = .fin hi := by
  unfold npclip npmin npmax
  simp [PyNan.isnan, PyOrd.lt, Ext.lt]

theorem npclip_ninf (lo hi : K) :
    npclip (.ninf : Ext K) (.fin lo) (.fin hi) = .fin (min lo hi) := by
  unfold npclip npmin npmax
  simp [PyNan.isnan, PyOrd.lt, Ext.lt]
  split_ifs with h
  · rw [min_eq_right h.le]
  · rw [min_eq_left (not_lt.mp h)]

theorem npclip_NF (x : Ext K) (lo hi : K) : NF (npclip x (.fin lo) (.fin hi)) := by
  cases x with
  | nan => rw [npclip_nan]; exact Or.inl rfl
  | ninf => rw [npclip_ninf]; exact NF.fin _
  | pinf => rw [npclip_pinf]; exact NF.fin _
  | fin b => rw [npclip_fin]; exact NF.fin _

/-- a clipped value lies between the bounds -/
theorem npclip_mem {x : Ext K} {lo hi b : K} (hl : lo ≤ hi)
    (h : npclip x (.fin lo) (.fin hi) = .fin b) : lo ≤ b ∧ b ≤ hi := by
  cases x with
  | nan => rw [npclip_nan] at h; cases h
  | ninf =>
    rw [npclip_ninf] at h; injection h with h; subst h
    exact ⟨le_min le_rfl hl, min_le_right _ _⟩
  | pinf => rw [npclip_pinf] at h; injection h with h; subst h; exact ⟨hl, le_rfl⟩
  | fin y =>
    rw [npclip_fin] at h; injection h with h; subst h
    exact ⟨le_min (le_max_right _ _) hl, min_le_right _ _⟩

theorem atFloor_fin {P : Problem (Ext K)} {s : LoopSt (Ext K)} {b0 cm cM c d b : K}
    (hP : FinBattery P b0 cm cM c d) (hb : s.battery = .fin b) :
    atFloor P s = decide (b ≤ cm + 1 / 10 ^ 12) := by
  unfold atFloor
  rw [hb, hP.capMin, tiny_fin]
  rfl

theorem atFloor_nan {P : Problem (Ext K)} {s : LoopSt (Ext K)} (hb : s.battery = .nan) :
    atFloor P s = false := by
  unfold atFloor
  rw [hb]
  rfl

theorem nan_sub (x : Ext K) : (.nan - x : Ext K) = .nan := by cases x <;> rfl

/-- the step after the battery limit, in terms of the recorded battery level -/
theorem duty_step_forward {P : Problem (Ext K)} {s : LoopSt (Ext K)} {b0 cm cM c d h : K}
    (hP : FinBattery P b0 cm cM c d) (hb : NF s.battery) (hh : 0 < h) (hd : 0 ≤ d) :
    ∃ st, (dutyPhase P s (.fin h)).step = .fin st ∧ 0 < st ∧ st ≤ h ∧
      (st < h → 0 < d ∧ ∃ b, s.battery = .fin b ∧ cm + 1 / 10 ^ 12 < b ∧ b - d * h < cm ∧
        st = (b - cm) / d) ∧
      (st = h ∨ (0 < d ∧ (1 / 10 ^ 12) / d < st)) := by
  have same : (dutyPhase P s (.fin h)).step = .fin h → ∃ st,
      (dutyPhase P s (.fin h)).step = .fin st ∧ 0 < st ∧ st ≤ h ∧
      (st < h → 0 < d ∧ ∃ b, s.battery = .fin b ∧ cm + 1 / 10 ^ 12 < b ∧ b - d * h < cm ∧
        st = (b - cm) / d) ∧
      (st = h ∨ (0 < d ∧ (1 / 10 ^ 12) / d < st)) := fun he =>
    ⟨h, he, hh, le_rfl, fun hlt => absurd hlt (lt_irrefl _), Or.inl rfl⟩
  rcases hb with hb | ⟨b, hb⟩
  · apply same
    rw [duty_noFloor (atFloor_nan hb)]
    simp [hb, nan_sub]
  · have hfl := atFloor_fin hP hb
    by_cases hf : b ≤ cm + 1 / 10 ^ 12
    · rw [decide_eq_true hf] at hfl
      apply same
      rw [duty_floor hfl]
    · rw [decide_eq_false hf] at hfl
      push Not at hf
      rw [duty_noFloor hfl] at same ⊢
      simp only [hb, hP.discharge, hP.capMin, Ext.fin_mul, Ext.fin_sub, Ext.lt_fin] at same ⊢
      by_cases hs : b - d * h < cm
      · have hpos : (0 : K) < 1 / 10 ^ 12 := by positivity
        have hd' : 0 < d := by
          rcases hd.eq_or_lt with h0 | h0
          · rw [← h0] at hs; exfalso; linarith
          · exact h0
        have hdiv : (.fin (b - cm) / .fin d : Ext K) = .fin ((b - cm) / d) :=
          Ext.fin_div _ _ hd'.ne'
        rcases Bool.eq_false_or_eq_true s.charging with hc | hc
        · apply same; simp [hc]
        · refine ⟨(b - cm) / d, by simp [hs, hdiv, hc], ?_, ?_, ?_, ?_⟩
          · apply div_pos _ hd'; linarith
          · rw [div_le_iff₀ hd']; linarith
          · intro _; exact ⟨hd', b, rfl, hf, hs, rfl⟩
          · right; refine ⟨hd', ?_⟩
            rw [div_lt_div_iff_of_pos_right hd']; linarith
      · apply same; simp [hs]

/-- for a step that is not positive the battery limit never applies -/
theorem duty_step_backward {P : Problem (Ext K)} {s : LoopSt (Ext K)} {b0 cm cM c d h : K}
    (hP : FinBattery P b0 cm cM c d) (hb : NF s.battery) (hh : h ≤ 0) (hd : 0 ≤ d) :
    (dutyPhase P s (.fin h)).step = .fin h := by
  rcases hb with hb | ⟨b, hb⟩
  · rw [duty_noFloor (atFloor_nan hb)]
    simp [hb, nan_sub]
  · have hfl := atFloor_fin hP hb
    by_cases hf : b ≤ cm + 1 / 10 ^ 12
    · rw [decide_eq_true hf] at hfl
      rw [duty_floor hfl]
    · rw [decide_eq_false hf] at hfl
      push Not at hf
      rw [duty_noFloor hfl]
      simp only [hb, hP.discharge, hP.capMin, Ext.fin_mul, Ext.fin_sub, Ext.lt_fin]
      have hpos : (0 : K) < 1 / 10 ^ 12 := by positivity
      have : ¬ b - d * h < cm := by
        have := mul_nonpos_of_nonneg_of_nonpos hd hh
        linarith
      simp [this]

/-- battery levels stay NaN or finite -/
theorem batteryPhase_NF {P : Problem (Ext K)} {b0 cm cM c d : K} (hP : FinBattery P b0 cm cM c d)
    (x : Ext K) (du ch : Bool) (y : Ext K) : NF (batteryPhase P x du ch y).1 := by
  unfold batteryPhase
  rw [hP.capMin, hP.capMax]
  cases du
  · exact npclip_NF _ _ _
  · exact npclip_NF _ _ _

theorem trace_battery_NF {E : Env (Ext K)} {n : ℕ} {tr : ℕ → LoopSt (Ext K)}
    {D : ℕ → StepData (Ext K)} (hT : IsTrace E n tr D) {b0 cm cM c d : K}
    (hP : FinBattery E.prob b0 cm cM c d) : ∀ k ≤ n, NF (tr k).battery := by
  intro k hk
  cases k with
  | zero =>
    rw [hT.init]
    show NF E.prob.batteryInitial
    rw [hP.initial]; exact NF.fin _
  | succ k => rw [step_battery hT hk]; exact batteryPhase_NF hP _ _ _ _

/-- battery levels after a step lie in the capacity interval, or are NaN -/
theorem batteryPhase_mem {P : Problem (Ext K)} {b0 cm cM c d : K} (hP : FinBattery P b0 cm cM c d)
    (hc : cm ≤ cM) (x : Ext K) (du ch : Bool) (y : Ext K) :
    (batteryPhase P x du ch y).1 = .nan ∨
      ∃ b, (batteryPhase P x du ch y).1 = .fin b ∧ cm ≤ b ∧ b ≤ cM := by
  rcases batteryPhase_NF hP x du ch y with h | ⟨b, h⟩
  · exact Or.inl h
  · right
    refine ⟨b, h, ?_⟩
    unfold batteryPhase at h
    rw [hP.capMin, hP.capMax] at h
    cases du
    · exact npclip_mem hc h
    · exact npclip_mem hc h

/-- finite part of a number -/
def Ext.val : Ext K → K
  | .fin x => x
  | _ => 0

/-- one forward step advances a finite clock -/
theorem step_clock {E : Env (Ext K)} {n : ℕ} {tr : ℕ → LoopSt (Ext K)}
    {D : ℕ → StepData (Ext K)} (hT : IsTrace E n tr D) {b0 cm cM c d h : K}
    (hP : FinBattery E.prob b0 cm cM c d) (hS : E.cfg.useSundman = false)
    (hst : E.prob.tStep = .fin h) (hh : 0 < h) (hd : 0 ≤ d) {k : ℕ} (hk : k < n) :
    ∃ st, (D k).d.step = .fin st ∧ 0 < st ∧ st ≤ h ∧
      (st < h → 0 < d ∧ ∃ b, (tr k).battery = .fin b ∧ cm + 1 / 10 ^ 12 < b ∧ b - d * h < cm ∧
        st = (b - cm) / d) ∧
      (st = h ∨ (0 < d ∧ (1 / 10 ^ 12) / d < st)) := by
  rw [step_dutyPhase hT hk, step0_eq hT hk hS, hst]
  exact duty_step_forward hP (trace_battery_NF hT hP k hk.le) hh hd

theorem trace_clock {E : Env (Ext K)} {n : ℕ} {tr : ℕ → LoopSt (Ext K)}
    {D : ℕ → StepData (Ext K)} (hT : IsTrace E n tr D)
    (hfin : ∀ k < n, ∃ st, (D k).d.step = .fin st) :
    ∀ k ≤ n, (tr k).t = .fin (tr k).t.val := by
  intro k
  induction k with
  | zero => intro _; rw [hT.init]; rfl
  | succ k ih =>
    intro hk
    have hi := ih (by omega)
    obtain ⟨st, hs⟩ := hfin k hk
    rw [step_t hT hk, hi, hs]
    rfl

theorem trace_clock_step {E : Env (Ext K)} {n : ℕ} {tr : ℕ → LoopSt (Ext K)}
    {D : ℕ → StepData (Ext K)} (hT : IsTrace E n tr D)
    (hfin : ∀ k < n, ∃ st, (D k).d.step = .fin st) {k : ℕ} (hk : k < n) {st : K}
    (hs : (D k).d.step = .fin st) : (tr (k + 1)).t.val = (tr k).t.val + st := by
  have h1 := trace_clock hT hfin k hk.le
  have h2 := step_t hT hk
  rw [h1, hs, Ext.fin_add] at h2
  rw [h2]
  rfl

end PyQ
