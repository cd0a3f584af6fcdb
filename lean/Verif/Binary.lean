import Verif.Round
import Mathlib.Data.Int.Log
import Mathlib.Algebra.Order.Floor.Ring
import Mathlib.Tactic.Positivity
import Mathlib.Tactic.FieldSimp
import Mathlib.Tactic.Ring

/-!
# Binary floating point

Round to nearest, ties to even, with a significand of `p + 1` bits and an unbounded exponent. With `p = 52` these
are the IEEE-754 doubles apart from overflow, subnormals and the sign of zero.
-/

set_option linter.unusedSectionVars false

namespace PyQ

variable {K : Type} [Field K] [LinearOrder K] [IsStrictOrderedRing K] [FloorRing K]

/-- the nearest integer, the even one of two -/
def roundEven (x : K) : ℤ :=
  if x - ⌊x⌋ < 1 / 2 then ⌊x⌋ else if 1 / 2 < x - ⌊x⌋ then ⌊x⌋ + 1 else
    if Even ⌊x⌋ then ⌊x⌋ else ⌊x⌋ + 1

theorem roundEven_int (n : ℤ) : roundEven (n : K) = n := by
  simp [roundEven]

theorem roundEven_floor (x : K) : ⌊x⌋ ≤ roundEven x ∧ roundEven x ≤ ⌊x⌋ + 1 := by
  unfold roundEven
  split_ifs <;> constructor <;> omega

theorem roundEven_mono {x y : K} (h : x ≤ y) : roundEven x ≤ roundEven y := by
  rcases (Int.floor_mono h).eq_or_lt with e | e
  · unfold roundEven
    rw [e]
    have h1 : x - ⌊y⌋ ≤ y - ⌊y⌋ := by linarith
    split_ifs <;> first | omega | (exfalso; linarith)
  · have h1 := (roundEven_floor x).2
    have h2 := (roundEven_floor y).1
    omega

theorem roundEven_near (x : K) : |(roundEven x : K) - x| ≤ 1 / 2 := by
  have h1 := Int.floor_le x
  have h2 := Int.lt_floor_add_one x
  unfold roundEven
  rw [abs_le]
  split_ifs <;> push_cast <;> constructor <;> linarith

/-- spacing of the floats around `x > 0` -/
def ulp (p : ℕ) (x : K) : K := 2 ^ (Int.log 2 x - p)

theorem ulp_pos (p : ℕ) (x : K) : 0 < ulp p x := zpow_pos two_pos _

/-- rounding of a positive number -/
def roundPos (p : ℕ) (x : K) : K := roundEven (x / ulp p x) * ulp p x

theorem log_bounds {x : K} (hx : 0 < x) :
    (2 : K) ^ Int.log 2 x ≤ x ∧ x < 2 ^ (Int.log 2 x + 1) := by
  constructor
  · exact_mod_cast Int.zpow_log_le_self (b := 2) (by norm_num) hx
  · exact_mod_cast Int.lt_zpow_succ_log_self (b := 2) (by norm_num) x

theorem two_pow_ulp (p : ℕ) (x : K) : (2 : K) ^ Int.log 2 x = ((2 ^ p : ℤ) : K) * ulp p x := by
  unfold ulp
  rw [zpow_sub₀ two_ne_zero, zpow_natCast]
  push_cast
  field_simp

theorem roundPos_bounds (p : ℕ) {x : K} (hx : 0 < x) :
    (2 ^ p : ℤ) ≤ roundEven (x / ulp p x) ∧ roundEven (x / ulp p x) ≤ 2 ^ (p + 1) := by
  obtain ⟨h1, h2⟩ := log_bounds hx
  have hu := ulp_pos p x
  constructor
  · rw [← roundEven_int (K := K) (2 ^ p)]
    refine roundEven_mono ((le_div_iff₀ hu).2 ?_)
    rw [← two_pow_ulp]; exact h1
  · rw [← roundEven_int (K := K) (2 ^ (p + 1))]
    refine roundEven_mono ((div_le_iff₀ hu).2 ?_)
    rw [zpow_add_one₀ two_ne_zero, two_pow_ulp p] at h2
    refine h2.le.trans (le_of_eq ?_)
    push_cast
    ring

theorem roundPos_range (p : ℕ) {x : K} (hx : 0 < x) :
    (2 : K) ^ Int.log 2 x ≤ roundPos p x ∧ roundPos p x ≤ 2 ^ (Int.log 2 x + 1) := by
  obtain ⟨h1, h2⟩ := roundPos_bounds p hx
  have hu := ulp_pos p x
  unfold roundPos
  constructor
  · rw [two_pow_ulp p]
    exact mul_le_mul_of_nonneg_right (by exact_mod_cast h1) hu.le
  · rw [zpow_add_one₀ two_ne_zero, two_pow_ulp p]
    have : ((roundEven (x / ulp p x) : ℤ) : K) ≤ 2 ^ (p + 1) := by exact_mod_cast h2
    calc _ ≤ 2 ^ (p + 1) * ulp p x := mul_le_mul_of_nonneg_right this hu.le
      _ = _ := by push_cast; ring

theorem roundPos_pos (p : ℕ) {x : K} (hx : 0 < x) : 0 < roundPos p x :=
  lt_of_lt_of_le (zpow_pos two_pos _) (roundPos_range p hx).1

theorem roundPos_mono (p : ℕ) {x y : K} (hx : 0 < x) (h : x ≤ y) : roundPos p x ≤ roundPos p y := by
  have hy := hx.trans_le h
  rcases (Int.log_mono_right (b := 2) hx h).eq_or_lt with e | e
  · have hu : ulp p x = ulp p y := by unfold ulp; rw [e]
    unfold roundPos
    rw [hu]
    have := ulp_pos p y
    refine mul_le_mul_of_nonneg_right ?_ this.le
    exact_mod_cast roundEven_mono (div_le_div_of_nonneg_right h this.le)
  · refine (roundPos_range p hx).2.trans (le_trans ?_ (roundPos_range p hy).1)
    exact zpow_le_zpow_right₀ one_le_two (by omega)

theorem roundPos_near (p : ℕ) {x : K} (hx : 0 < x) : |roundPos p x - x| ≤ x / 2 ^ (p + 1) := by
  have hu := ulp_pos p x
  have h1 := roundEven_near (x / ulp p x)
  have e : roundPos p x - x = ((roundEven (x / ulp p x) : ℤ) - x / ulp p x) * ulp p x := by
    unfold roundPos; field_simp
  rw [e, abs_mul, abs_of_pos hu]
  have h2 := (log_bounds hx).1
  rw [two_pow_ulp p] at h2
  push_cast at h2
  have h3 : ulp p x ≤ x / 2 ^ p := (le_div_iff₀ (by positivity)).2 (by linarith)
  calc _ ≤ 1 / 2 * ulp p x := mul_le_mul_of_nonneg_right h1 hu.le
    _ ≤ 1 / 2 * (x / 2 ^ p) := by linarith
    _ = _ := by rw [pow_succ]; field_simp

theorem log_eq {x : K} {e : ℤ} (h1 : (2 : K) ^ e ≤ x) (h2 : x < 2 ^ (e + 1)) : Int.log 2 x = e := by
  have hx : 0 < x := lt_of_lt_of_le (zpow_pos two_pos _) h1
  obtain ⟨h3, h4⟩ := log_bounds hx
  have a := (zpow_lt_zpow_iff_right₀ (one_lt_two (α := K))).1 (h1.trans_lt h4)
  have b := (zpow_lt_zpow_iff_right₀ (one_lt_two (α := K))).1 (h3.trans_lt h2)
  omega

/-- numbers with a short significand are kept -/
theorem roundPos_int (p : ℕ) {x : K} {n e : ℤ} (hn : (2 : ℤ) ^ p ≤ n) (hn' : n < 2 ^ (p + 1))
    (hx : x = n * 2 ^ e) : roundPos p x = x := by
  have he : (0 : K) < 2 ^ e := zpow_pos two_pos _
  have hlog : Int.log 2 x = p + e := by
    apply log_eq
    · rw [hx, zpow_add₀ two_ne_zero, zpow_natCast]
      exact mul_le_mul_of_nonneg_right (by exact_mod_cast hn) he.le
    · rw [hx, show (p : ℤ) + e + 1 = ((p + 1 : ℕ) : ℤ) + e by push_cast; ring, zpow_add₀ two_ne_zero,
        zpow_natCast]
      exact mul_lt_mul_of_pos_right (by exact_mod_cast hn') he
  have hu : ulp p x = 2 ^ e := by
    unfold ulp; rw [hlog]; congr 1; ring
  unfold roundPos
  rw [hu, hx, mul_div_assoc, div_self he.ne', mul_one, roundEven_int]

theorem roundPos_idem (p : ℕ) {x : K} (hx : 0 < x) : roundPos p (roundPos p x) = roundPos p x := by
  obtain ⟨h1, h2⟩ := roundPos_bounds p hx
  rcases h2.eq_or_lt with e | e
  · refine roundPos_int p (n := 2 ^ p) (e := Int.log 2 x - p + 1) le_rfl ?_ ?_
    · exact pow_lt_pow_right₀ one_lt_two (Nat.lt_succ_self p)
    · show (roundEven (x / ulp p x) : K) * ulp p x = _
      rw [e, zpow_add_one₀ two_ne_zero]
      unfold ulp
      push_cast
      ring
  · exact roundPos_int p h1 e rfl

/-- round to nearest even with `p + 1` significant bits -/
def roundBin (p : ℕ) (x : K) : K :=
  if 0 < x then roundPos p x else if x < 0 then -roundPos p (-x) else 0

theorem roundBin_pos (p : ℕ) {x : K} (h : 0 < x) : roundBin p x = roundPos p x := if_pos h
theorem roundBin_neg (p : ℕ) {x : K} (h : x < 0) : roundBin p x = -roundPos p (-x) := by
  unfold roundBin; rw [if_neg (not_lt.2 h.le), if_pos h]
theorem roundBin_zero (p : ℕ) : roundBin p (0 : K) = 0 := by simp [roundBin]

theorem roundBin_odd (p : ℕ) (x : K) : roundBin p (-x) = -roundBin p x := by
  rcases lt_trichotomy x 0 with h | h | h
  · rw [roundBin_neg p h, roundBin_pos p (neg_pos.2 h), neg_neg]
  · rw [h, neg_zero, roundBin_zero, neg_zero]
  · rw [roundBin_pos p h, roundBin_neg p (neg_lt_zero.2 h), neg_neg]

theorem roundBin_nonneg (p : ℕ) {x : K} (h : 0 ≤ x) : 0 ≤ roundBin p x := by
  rcases h.eq_or_lt with h | h
  · rw [← h, roundBin_zero]
  · rw [roundBin_pos p h]; exact (roundPos_pos p h).le

theorem roundBin_mono (p : ℕ) {x y : K} (h : x ≤ y) : roundBin p x ≤ roundBin p y := by
  rcases le_or_gt x 0 with hx | hx
  · rcases le_or_gt 0 y with hy | hy
    · have h1 := roundBin_nonneg p hy
      have h2 := roundBin_nonneg p (neg_nonneg.2 hx)
      rw [roundBin_odd] at h2
      linarith
    · have hx' : x < 0 := h.trans_lt hy
      rw [roundBin_neg p hx', roundBin_neg p hy]
      exact neg_le_neg (roundPos_mono p (neg_pos.2 hy) (neg_le_neg h))
  · rw [roundBin_pos p hx, roundBin_pos p (hx.trans_le h)]
    exact roundPos_mono p hx h

theorem roundBin_idem (p : ℕ) (x : K) : roundBin p (roundBin p x) = roundBin p x := by
  rcases lt_trichotomy x 0 with h | h | h
  · rw [roundBin_neg p h, roundBin_odd, roundBin_pos p (roundPos_pos p (neg_pos.2 h)),
      roundPos_idem p (neg_pos.2 h)]
  · rw [h, roundBin_zero, roundBin_zero]
  · rw [roundBin_pos p h, roundBin_pos p (roundPos_pos p h), roundPos_idem p h]

/-- the relative error of rounding -/
theorem roundBin_near (p : ℕ) (x : K) : |roundBin p x - x| ≤ |x| / 2 ^ (p + 1) := by
  rcases lt_trichotomy x 0 with h | h | h
  · have := roundPos_near p (neg_pos.2 h)
    rw [roundBin_neg p h, abs_of_neg h]
    rw [← abs_neg]
    convert this using 2
    ring
  · rw [h, roundBin_zero]; simp
  · rw [roundBin_pos p h, abs_of_pos h]; exact roundPos_near p h

/-- integers below `2 ^ (p + 1)` are representable -/
theorem roundBin_nat (p : ℕ) (n : ℕ) (h : n ≤ 2 ^ (p + 1)) : roundBin p (n : K) = n := by
  rcases Nat.eq_zero_or_pos n with h0 | h0
  · rw [h0, Nat.cast_zero, roundBin_zero]
  · have hn : (0 : K) < n := by exact_mod_cast h0
    rw [roundBin_pos p hn]
    rcases h.eq_or_lt with e | e
    · refine roundPos_int p (n := 2 ^ p) (e := 1) le_rfl
        (pow_lt_pow_right₀ one_lt_two (Nat.lt_succ_self p)) ?_
      rw [e]; push_cast; rw [zpow_one, pow_succ]
    · -- shift the significand to `p + 1` bits
      set l := Nat.log 2 n with hl
      have l1 : 2 ^ l ≤ n := Nat.pow_log_le_self 2 h0.ne'
      have l2 : n < 2 ^ (l + 1) := Nat.lt_pow_succ_log_self (by norm_num) n
      have lp : l ≤ p := by
        have := (Nat.pow_lt_pow_iff_right (by norm_num : 1 < 2)).1 (l1.trans_lt e)
        omega
      refine roundPos_int p (n := n * 2 ^ (p - l)) (e := -((p - l : ℕ) : ℤ)) ?_ ?_ ?_
      · calc (2 : ℤ) ^ p = 2 ^ l * 2 ^ (p - l) := by rw [← pow_add]; congr 1; omega
          _ ≤ n * 2 ^ (p - l) := by
            apply mul_le_mul_of_nonneg_right _ (by positivity)
            exact_mod_cast l1
      · calc (n : ℤ) * 2 ^ (p - l) < 2 ^ (l + 1) * 2 ^ (p - l) := by
              apply mul_lt_mul_of_pos_right _ (by positivity)
              exact_mod_cast l2
          _ = 2 ^ (p + 1) := by rw [← pow_add]; congr 1; omega
      · push_cast
        rw [zpow_neg, zpow_natCast, mul_assoc, mul_inv_cancel₀ (by positivity), mul_one]

/-- the rounding rule of binary floating point with `p + 1` bits -/
@[reducible] def binary (K : Type) [Field K] [LinearOrder K] [IsStrictOrderedRing K] [FloorRing K]
    (p : ℕ) : Rounding K where
  rnd x := .fin (roundBin p x)
  zero := by rw [roundBin_zero]
  one := by
    have := roundBin_nat (K := K) p 1 Nat.one_le_two_pow
    rw [Nat.cast_one] at this
    rw [this]
  mono a b h := by simpa using roundBin_mono p h
  odd a := by rw [roundBin_odd]; rfl
  idem a b h := by
    injection h with h
    rw [← h, roundBin_idem]

/-- a number halfway between two floats goes to the even one: `2 ^ 53 + 1` is lost -/
theorem roundBin_absorb {p : ℕ} (hp : p ≠ 0) :
    roundBin p ((2 : K) ^ (p + 1) + 1) = 2 ^ (p + 1) := by
  have hx : (0 : K) < 2 ^ (p + 1) + 1 := by positivity
  have hlog : Int.log 2 ((2 : K) ^ (p + 1) + 1) = p + 1 := by
    apply log_eq
    · rw [show (p : ℤ) + 1 = ((p + 1 : ℕ) : ℤ) by push_cast; ring, zpow_natCast]; linarith
    · rw [show (p : ℤ) + 1 + 1 = ((p + 1 + 1 : ℕ) : ℤ) by push_cast; ring, zpow_natCast,
        pow_succ 2 (p + 1)]
      have : (1 : K) < 2 ^ (p + 1) := one_lt_pow₀ one_lt_two (by omega)
      linarith
  have hu : ulp p ((2 : K) ^ (p + 1) + 1) = 2 := by
    unfold ulp; rw [hlog, show (p : ℤ) + 1 - p = 1 by ring, zpow_one]
  rw [roundBin_pos p hx]
  unfold roundPos
  rw [hu]
  have e : ((2 : K) ^ (p + 1) + 1) / 2 = ((2 ^ p : ℤ) : K) + 1 / 2 := by
    push_cast; rw [pow_succ]; field_simp
  have hf : ⌊((2 ^ p : ℤ) : K) + 1 / 2⌋ = 2 ^ p := by
    rw [Int.floor_eq_iff]
    push_cast
    constructor <;> linarith
  have : roundEven (((2 : K) ^ (p + 1) + 1) / 2) = 2 ^ p := by
    have hev : Even ((2 : ℤ) ^ p) := (even_two (α := ℤ)).pow_of_ne_zero hp
    rw [e]
    unfold roundEven
    rw [hf, add_sub_cancel_left, if_neg (lt_irrefl _), if_neg (lt_irrefl _), if_pos hev]
  rw [this]; push_cast; rw [pow_succ]

end PyQ
