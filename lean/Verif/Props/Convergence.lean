import Verif.Proofs.Object
import Verif.Ext
import Verif.RealInst
import Verif.Examples.Toy
import Mathlib.Analysis.SpecialFunctions.Trigonometric.Angle
import Mathlib.Analysis.Real.Pi.Bounds

/-! # Convergence checks and element bounds (C33-C36) -/

set_option linter.unusedSectionVars false
set_option maxRecDepth 100000

namespace PyQ

section lawfree
variable {α : Type} [Add α] [Sub α] [Mul α] [Div α] [Neg α] [NatCast α] [Pow α ℕ]
  [PyTrans α] [PyOrd α]

/-- the flag count equals five exactly when every element is ignored or within tolerance -/
theorem checkFlags_iff (doe woe tol : Fin 5 → α) : checkFlags doe woe tol = true ↔
    ∀ i, PyOrd.eq (woe i) ((0 : ℕ) : α) = true ∨ PyOrd.le (doe i) (tol i) = true := by
  have hb : ∀ i : Fin 5, (if PyOrd.eq (woe i) ((0 : ℕ) : α) = true then 1
      else if PyOrd.le (doe i) (tol i) = true then 1 else 0) =
      if (PyOrd.eq (woe i) ((0 : ℕ) : α) = true ∨ PyOrd.le (doe i) (tol i) = true)
        then 1 else 0 := by
    intro i
    by_cases h1 : PyOrd.eq (woe i) ((0 : ℕ) : α) = true <;>
      by_cases h2 : PyOrd.le (doe i) (tol i) = true <;> simp [h1, h2]
  unfold checkFlags
  simp only [hb]
  have h5 : List.finRange 5 = [0, 1, 2, 3, 4] := by decide
  rw [h5]
  simp only [List.map_cons, List.map_nil, List.sum_cons, List.sum_nil, beq_iff_eq]
  constructor
  · intro h i
    by_contra hn
    have key : ∀ p : Prop, [Decidable p] → (if p then 1 else 0) ≤ 1 := by
      intro p _; split_ifs <;> simp
    have k0 := key (PyOrd.eq (woe 0) ((0 : ℕ) : α) = true ∨ PyOrd.le (doe 0) (tol 0) = true)
    have k1 := key (PyOrd.eq (woe 1) ((0 : ℕ) : α) = true ∨ PyOrd.le (doe 1) (tol 1) = true)
    have k2 := key (PyOrd.eq (woe 2) ((0 : ℕ) : α) = true ∨ PyOrd.le (doe 2) (tol 2) = true)
    have k3 := key (PyOrd.eq (woe 3) ((0 : ℕ) : α) = true ∨ PyOrd.le (doe 3) (tol 3) = true)
    have k4 := key (PyOrd.eq (woe 4) ((0 : ℕ) : α) = true ∨ PyOrd.le (doe 4) (tol 4) = true)
    have hi : (if (PyOrd.eq (woe i) ((0 : ℕ) : α) = true ∨ PyOrd.le (doe i) (tol i) = true)
        then 1 else 0) = 0 := if_neg hn
    fin_cases i <;> simp only [Fin.zero_eta, Fin.mk_one, Fin.reduceFinMk] at hi <;> omega
  · intro h
    simp [h 0, h 1, h 2, h 3, h 4]

/-- two values compare equal: each is at most the other -/
def SameValue (x y : α) : Prop := PyOrd.le x y = true ∧ PyOrd.le y x = true

variable [PyNan α] [OrdLaws α]

theorem clampOne {l x u : α} (h : PyOrd.le l u = true) :
    PyOrd.le l (pymin (pymax l x) u) = true ∧ PyOrd.le (pymin (pymax l x) u) u = true := by
  have hl := OrdLaws.le_left _ _ h
  have hu := OrdLaws.le_right _ _ h
  unfold pymin pymax
  by_cases h1 : PyOrd.lt l x = true
  · rw [if_pos h1]
    have h1' := (OrdLaws.lt_iff _ _).mp h1
    have hx := h1'.2.1
    by_cases h2 : PyOrd.lt u x = true
    · rw [if_pos h2]
      exact ⟨h, OrdLaws.le_refl _ hu⟩
    · rw [if_neg h2]
      refine ⟨?_, ?_⟩
      · rcases OrdLaws.le_total _ _ hl hx with h3 | h3
        · exact h3
        · rw [h1'.2.2] at h3; cases h3
      · by_contra h3
        exact h2 ((OrdLaws.lt_iff _ _).mpr ⟨hu, hx, by simpa using h3⟩)
  · rw [if_neg h1]
    by_cases h2 : PyOrd.lt u l = true
    · rw [if_pos h2]
      exact ⟨h, OrdLaws.le_refl _ hu⟩
    · rw [if_neg h2]
      exact ⟨OrdLaws.le_refl _ hl, h⟩

theorem clampOne_same {l x u : α} (h1 : PyOrd.le l x = true) (h2 : PyOrd.le x u = true) :
    SameValue (pymin (pymax l x) u) x := by
  have hx := OrdLaws.le_left _ _ h2
  have hxx := OrdLaws.le_refl x hx
  have h3 : SameValue (pymax l x) x := by
    unfold pymax
    by_cases h4 : PyOrd.lt l x = true
    · rw [if_pos h4]; exact ⟨hxx, hxx⟩
    · rw [if_neg h4]
      refine ⟨h1, ?_⟩
      by_contra h5
      exact h4 ((OrdLaws.lt_iff _ _).mpr ⟨OrdLaws.le_left _ _ h1, hx, by simpa using h5⟩)
  unfold pymin
  by_cases h4 : PyOrd.lt u (pymax l x) = true
  · exfalso
    have := ((OrdLaws.lt_iff _ _).mp h4).2.2
    rw [OrdLaws.le_trans _ _ _ h3.1 h2] at this
    cases this
  · rw [if_neg h4]; exact h3

theorem clampOne_nan {l x u : α} (h : PyOrd.le l u = true) (hx : PyNan.isnan x = true) :
    pymin (pymax l x) u = l := by
  unfold pymax pymin
  have h1 : ¬ PyOrd.lt l x = true := by
    intro h1
    have := ((OrdLaws.lt_iff _ _).mp h1).2.1
    rw [hx] at this; cases this
  rw [if_neg h1]
  have h2 : ¬ PyOrd.lt u l = true := by
    intro h2
    have := ((OrdLaws.lt_iff _ _).mp h2).2.2
    rw [h] at this; cases this
  rw [if_neg h2]

/-- the first five entries of a bound array -/
def BoundsAre (L : List α) (b : Fin 5 → α) : Prop := ∀ i : Fin 5, L[(i : ℕ)]? = some (b i)

theorem boundsAre_cases {L : List α} {b : Fin 5 → α} (h : BoundsAre L b) :
    ∃ t, L = b 0 :: b 1 :: b 2 :: b 3 :: b 4 :: t := by
  have h0 := h 0
  have h1 := h 1
  have h2 := h 2
  have h3 := h 3
  have h4 := h 4
  match L, h0, h1, h2, h3, h4 with
  | a :: b :: c :: d :: e :: t, h0, h1, h2, h3, h4 =>
    refine ⟨t, ?_⟩
    simp at h0 h1 h2 h3 h4
    rw [h0, h1, h2, h3, h4]
  | [], h0, _, _, _, _ => simp at h0
  | [_], _, h1, _, _, _ => simp at h1
  | [_, _], _, _, h2, _, _ => simp at h2
  | [_, _, _], _, _, _, h3, _ => simp at h3
  | [_, _, _, _], _, _, _, _, h4 => simp at h4

/-- componentwise form of `elements_safety` -/
theorem elementsSafety_eq {oe : Fin 6 → α} {L U : List α} {l u : Fin 5 → α} (hl : BoundsAre L l)
    (hu : BoundsAre U u) : ∃ x, elementsSafety oe L U = .ok x ∧ x 5 = oe 5 ∧
      ∀ i : Fin 5, x i.castSucc = pymin (pymax (l i) (oe i.castSucc)) (u i) := by
  obtain ⟨t, rfl⟩ := boundsAre_cases hl
  obtain ⟨t', rfl⟩ := boundsAre_cases hu
  refine ⟨_, rfl, rfl, ?_⟩
  intro i
  fin_cases i <;> rfl

/-- **C36.** With bounds of at least five entries, lower at most upper: `elements_safety` succeeds,
every one of the first five results lies within its bounds whatever the input (also NaN), an element
already within its bounds keeps its value, a NaN element becomes the lower bound, the anomaly is
untouched, and applying it again changes no value. -/
theorem C36_elements_safety {oe : Fin 6 → α} {L U : List α} {l u : Fin 5 → α} (hl : BoundsAre L l)
    (hu : BoundsAre U u) (hlu : ∀ i, PyOrd.le (l i) (u i) = true) :
    ∃ x, elementsSafety oe L U = .ok x ∧ x 5 = oe 5 ∧
      (∀ i : Fin 5, PyOrd.le (l i) (x i.castSucc) = true ∧ PyOrd.le (x i.castSucc) (u i) = true) ∧
      (∀ i : Fin 5, PyOrd.le (l i) (oe i.castSucc) = true → PyOrd.le (oe i.castSucc) (u i) = true →
        SameValue (x i.castSucc) (oe i.castSucc)) ∧
      (∀ i : Fin 5, PyNan.isnan (oe i.castSucc) = true → x i.castSucc = l i) ∧
      ∃ y, elementsSafety x L U = .ok y ∧ y 5 = x 5 ∧
        ∀ i : Fin 5, SameValue (y i.castSucc) (x i.castSucc) := by
  obtain ⟨x, hx, hx5, hxi⟩ := elementsSafety_eq (oe := oe) hl hu
  obtain ⟨y, hy, hy5, hyi⟩ := elementsSafety_eq (oe := x) hl hu
  have hb : ∀ i : Fin 5, PyOrd.le (l i) (x i.castSucc) = true ∧
      PyOrd.le (x i.castSucc) (u i) = true := by
    intro i; rw [hxi]; exact clampOne (hlu i)
  refine ⟨x, hx, hx5, hb, ?_, ?_, y, hy, hy5, ?_⟩
  · intro i h1 h2; rw [hxi]; exact clampOne_same h1 h2
  · intro i h1; rw [hxi]; exact clampOne_nan (hlu i) h1
  · intro i; rw [hyi]; exact clampOne_same (hb i).1 (hb i).2

end lawfree

section ext
variable {K : Type} [Field K] [LinearOrder K] [IsStrictOrderedRing K] [PyTrans (Ext K)]

theorem sameValue_ext {x y : Ext K} (h : SameValue x y) : x = y := by
  obtain ⟨h1, h2⟩ := h
  cases x <;> cases y <;> simp [PyOrd.le, Ext.le] at h1 h2 <;> try rfl
  rw [le_antisymm h1 h2]

/-- **C36** in exact arithmetic with NaN and infinities: unchanged means equal, and the operation is
idempotent -/
theorem C36_elements_safety_exact {oe : Fin 6 → Ext K} {L U : List (Ext K)} {l u : Fin 5 → Ext K}
    (hl : BoundsAre L l) (hu : BoundsAre U u) (hlu : ∀ i, PyOrd.le (l i) (u i) = true) :
    ∃ x, elementsSafety oe L U = .ok x ∧ elementsSafety x L U = .ok x ∧
      ((∀ i : Fin 5, PyOrd.le (l i) (oe i.castSucc) = true ∧ PyOrd.le (oe i.castSucc) (u i) = true) →
        x = oe) := by
  obtain ⟨x, hx, h5, _, hin, _, y, hy, hy5, hyi⟩ := C36_elements_safety (oe := oe) hl hu hlu
  have hyx : y = x := by
    funext i
    refine Fin.lastCases ?_ (fun j => ?_) i
    · exact hy5
    · exact sameValue_ext (hyi j)
  refine ⟨x, hx, by rw [hy, hyx], ?_⟩
  intro h
  funext i
  refine Fin.lastCases ?_ (fun j => ?_) i
  · exact h5
  · exact sameValue_ext (hin j (h j).1 (h j).2)

/-- too low, NaN, too high, and in-range elements -/
example : (elementsSafety (α := Toy.N) ![.fin 0, .nan, .pinf, .fin 7, .fin 2, .fin 99]
    [.fin 1, .fin 1, .fin 1, .fin 1, .fin 1, .fin 1] [.fin 5, .fin 5, .fin 5, .fin 5, .fin 5]) =
    .ok ![.fin 1, .fin 1, .fin 5, .fin 5, .fin 2, .fin 99] := by
  rw [elementsSafety]
  congr 1

/-- **C34**, in exact arithmetic with NaN and infinities: an element that is NaN, or whose target is
NaN, is never converged unless its weight is zero. -/
theorem C34_nan_not_converged {oe : Fin 6 → Ext K} {oeT woe tol : Fin 5 → Ext K} {i : Fin 5}
    (hn : oe i.castSucc = .nan ∨ oeT i = .nan) (hw : PyOrd.eq (woe i) (.fin 0) = false) :
    checkConvergenceMee oe oeT woe tol = false := by
  by_contra h
  simp only [Bool.not_eq_false] at h
  unfold checkConvergenceMee at h
  rw [checkFlags_iff] at h
  rcases h i with h1 | h1
  · rw [Ext.natCast_eq, Nat.cast_zero, hw] at h1; cases h1
  · have : (oeT i - oe i.castSucc : Ext K) = .nan := by
      rcases hn with hn | hn <;> rw [hn]
      · cases oeT i <;> rfl
      · rfl
    rw [this] at h1
    cases h1

example : checkConvergenceMee (α := Toy.N) ![.nan, .fin 0, .fin 0, .fin 0, .fin 0, .fin 0]
    (fun _ => .fin 0) (fun _ => .fin 1) (fun _ => .pinf) = false := by decide +kernel

/-- enlarging finite non-negative tolerances by a finite factor of at least one keeps every flag -/
theorem checkFlags_relax {doe woe tol : Fin 5 → Ext K} {τ : Fin 5 → K} {r : K} (hr : 1 ≤ r)
    (ht : ∀ i, tol i = .fin (τ i)) (h0 : ∀ i, 0 ≤ τ i) (h : checkFlags doe woe tol = true) :
    checkFlags doe woe (vsmul (.fin r) tol) = true := by
  rw [checkFlags_iff] at h ⊢
  intro i
  rcases h i with h1 | h1
  · exact Or.inl h1
  · right
    rw [ht i] at h1
    show PyOrd.le (doe i) (.fin r * tol i) = true
    rw [ht i, Ext.fin_mul]
    have h2 : τ i ≤ r * τ i := by nlinarith [h0 i]
    cases hd : doe i with
    | nan => rw [hd] at h1; cases h1
    | ninf => rfl
    | pinf => rw [hd] at h1; cases h1
    | fin d =>
      rw [hd] at h1
      simp only [Ext.le_fin, decide_eq_true_eq] at h1 ⊢
      linarith

section ctor
variable [SymDiff (Ext K)] [PyInf (Ext K)]

/-- what a successful construction says about the tolerances and the check in use -/
theorem new_tol {A : CtorArgs (Ext K)} {Q : QLaw (Ext K)} (h : QLaw.new A = .ok Q) :
    PyOrd.le ((1 : ℕ) : Ext K) A.relaxedTolFactor = true ∧
      Q.cfg.tolOeRelaxed = vsmul A.relaxedTolFactor Q.cfg.tolOe ∧
      (Q.cfg.dyn.checkConv = checkConvergenceKeplerian ∨
        Q.cfg.dyn.checkConv = checkConvergenceMee) := by
  obtain ⟨h1, _, et, ig, tol, _, _, _, rfl⟩ := new_ok h
  refine ⟨h1, rfl, ?_⟩
  cases et
  · exact Or.inl rfl
  · exact Or.inr rfl

/-- **C33.** On any constructed object with finite non-negative tolerances and a finite relaxed
tolerance factor, whatever passes the strict check passes the relaxed check, for every state (also
with NaN), target and weights. -/
theorem C33_relaxed_contains_strict {A : CtorArgs (Ext K)} {Q : QLaw (Ext K)}
    (h : QLaw.new A = .ok Q) {r : K} (hr : A.relaxedTolFactor = .fin r) {τ : Fin 5 → K}
    (ht : ∀ i, Q.cfg.tolOe i = .fin (τ i)) (h0 : ∀ i, 0 ≤ τ i) {oe : Fin 6 → Ext K}
    {oeT woe : Fin 5 → Ext K} (hs : Q.cfg.dyn.checkConv oe oeT woe Q.cfg.tolOe = true) :
    Q.cfg.dyn.checkConv oe oeT woe Q.cfg.tolOeRelaxed = true := by
  obtain ⟨h1, h2, h3⟩ := new_tol h
  rw [hr, Ext.natCast_eq, Ext.le_fin, decide_eq_true_eq, Nat.cast_one] at h1
  rw [h2, hr]
  rcases h3 with h3 | h3 <;> rw [h3] at hs ⊢ <;> exact checkFlags_relax h1 ht h0 hs

/-- **C33**, enforcement: a factor below one (or NaN) makes the constructor raise. -/
theorem C33_factor_enforced {A : CtorArgs (Ext K)}
    (h : PyOrd.le ((1 : ℕ) : Ext K) A.relaxedTolFactor = false) :
    QLaw.new A = .error .assertion := by
  unfold QLaw.new
  simp only [bind, Except.bind, pure, Except.pure, h]
  rfl

end ctor

/-- a state that passes the strict check, and a state that passes only the relaxed one -/
example :
    checkConvergenceMee (α := Toy.N) ![.fin 1, .fin 0, .fin 0, .fin 0, .fin 0, .fin 9]
      (fun i => if i = 0 then .fin 1 else .fin 0) (fun _ => .fin 1) (fun _ => .fin (1 / 1000)) = true ∧
    checkConvergenceMee (α := Toy.N) ![.fin 1, .fin 0, .fin (1 / 100), .fin 0, .fin 0, .fin 9]
      (fun i => if i = 0 then .fin 1 else .fin 0) (fun _ => .fin 1) (fun _ => .fin (1 / 1000)) = false ∧
    checkConvergenceMee (α := Toy.N) ![.fin 1, .fin 0, .fin (1 / 100), .fin 0, .fin 0, .fin 9]
      (fun i => if i = 0 then .fin 1 else .fin 0) (fun _ => .fin 1)
      (vsmul (.fin 10) fun _ => .fin (1 / 1000)) = true := by
  refine ⟨?_, ?_, ?_⟩ <;> decide +kernel

end ext

section real

/-- **C34.** Over the reals `check_convergence_mee` is the weighted box test. -/
theorem C34_mee_box_test (oe : Fin 6 → ℝ) (oeT woe tol : Fin 5 → ℝ) :
    checkConvergenceMee oe oeT woe tol = true ↔
      ∀ i : Fin 5, woe i = 0 ∨ |oeT i - oe i.castSucc| ≤ tol i := by
  unfold checkConvergenceMee
  rw [checkFlags_iff]
  simp

/-- the shortest angular distance: `arccos (cos d)` is at most `x` exactly when some angle equal to
`d` modulo full turns has absolute value at most `x` -/
theorem arccos_cos_le_iff (d x : ℝ) :
    Real.arccos (Real.cos d) ≤ x ↔ ∃ k : ℤ, |d + k * (2 * Real.pi)| ≤ x := by
  constructor
  · intro h
    have h1 := toIocMod_mem_Ioc Real.two_pi_pos (-Real.pi) d
    set z := toIocMod Real.two_pi_pos (-Real.pi) d with hz
    have h2 : z = d - toIocDiv Real.two_pi_pos (-Real.pi) d • (2 * Real.pi) := rfl
    have hz1 : |z| ≤ Real.pi := abs_le.mpr ⟨h1.1.le, by have := h1.2; linarith⟩
    have hc : Real.cos d = Real.cos |z| := by
      rw [Real.cos_abs, h2, zsmul_eq_mul, Real.cos_sub_int_mul_two_pi]
    refine ⟨-toIocDiv Real.two_pi_pos (-Real.pi) d, ?_⟩
    have h3 : d + ((-toIocDiv Real.two_pi_pos (-Real.pi) d : ℤ) : ℝ) * (2 * Real.pi) = z := by
      rw [h2, zsmul_eq_mul]; push_cast; ring
    rw [h3]
    rw [hc, Real.arccos_cos (abs_nonneg _) hz1] at h
    exact h
  · rintro ⟨k, hk⟩
    refine le_trans ?_ hk
    set z := d + k * (2 * Real.pi) with hz
    have hc : Real.cos d = Real.cos |z| := by
      rw [Real.cos_abs, hz, Real.cos_add_int_mul_two_pi]
    rw [hc]
    rcases le_total |z| Real.pi with h | h
    · rw [Real.arccos_cos (abs_nonneg _) h]
    · exact (Real.arccos_le_pi _).trans h

/-- **C35.** Over the reals `check_convergence_keplerian` compares `a`, `e`, `i` directly and RAAN
and argument of periapsis modulo full turns. -/
theorem C35_keplerian_check (oe : Fin 6 → ℝ) (oeT woe tol : Fin 5 → ℝ) :
    checkConvergenceKeplerian oe oeT woe tol = true ↔
      (woe 0 = 0 ∨ |oeT 0 - oe 0| ≤ tol 0) ∧ (woe 1 = 0 ∨ |oeT 1 - oe 1| ≤ tol 1) ∧
      (woe 2 = 0 ∨ |oeT 2 - oe 2| ≤ tol 2) ∧
      (woe 3 = 0 ∨ ∃ k : ℤ, |oeT 3 - oe 3 + k * (2 * Real.pi)| ≤ tol 3) ∧
      (woe 4 = 0 ∨ ∃ k : ℤ, |oeT 4 - oe 4 + k * (2 * Real.pi)| ≤ tol 4) := by
  unfold checkConvergenceKeplerian
  rw [checkFlags_iff]
  have habs : ∀ z, |Real.arccos z| = Real.arccos z := fun z => abs_of_nonneg (Real.arccos_nonneg z)
  rw [← arccos_cos_le_iff, ← arccos_cos_le_iff]
  constructor
  · intro h
    have h0 := h 0
    have h1 := h 1
    have h2 := h 2
    have h3 := h 3
    have h4 := h 4
    simp [habs] at h0 h1 h2 h3 h4
    exact ⟨h0, h1, h2, h3, h4⟩
  · rintro ⟨h0, h1, h2, h3, h4⟩ i
    fin_cases i <;> simp [habs, h0, h1, h2, h3, h4]

/-- **C35**, invariance: adding whole turns to RAAN and argument of periapsis changes nothing. -/
theorem C35_turn_invariant (oe : Fin 6 → ℝ) (oeT woe tol : Fin 5 → ℝ) (m n : ℤ) :
    checkConvergenceKeplerian
      ![oe 0, oe 1, oe 2, oe 3 + m * (2 * Real.pi), oe 4 + n * (2 * Real.pi), oe 5] oeT woe tol =
    checkConvergenceKeplerian oe oeT woe tol := by
  have h : ∀ (x y : ℝ) (k : ℤ), Real.cos (x - (y + k * (2 * Real.pi))) = Real.cos (x - y) := by
    intro x y k
    rw [← sub_sub, Real.cos_sub_int_mul_two_pi]
  unfold checkConvergenceKeplerian
  simp [h]

/-- the target angle may be a full turn away; half a turn is not converged -/
example :
    checkConvergenceKeplerian ![1, 0, 0, 2 * Real.pi, 0, 5] ![1, 0, 0, 0, 0] (fun _ => 1)
      (fun _ => (1 / 10 : ℝ)) = true ∧
    checkConvergenceKeplerian ![1, 0, 0, Real.pi, 0, 5] ![1, 0, 0, 0, 0] (fun _ => 1)
      (fun _ => (1 / 10 : ℝ)) = false := by
  constructor
  · rw [C35_keplerian_check]
    refine ⟨?_, ?_, ?_, Or.inr ⟨1, ?_⟩, Or.inr ⟨0, ?_⟩⟩ <;>
      simp [Matrix.cons_val]
  · rw [← Bool.not_eq_true, C35_keplerian_check]
    rintro ⟨_, _, _, h, _⟩
    rw [← arccos_cos_le_iff] at h
    have hp := Real.pi_gt_three
    simp [Matrix.cons_val] at h
    linarith

example : checkConvergenceMee ![1, 2, 3, 4, 5, 6] ![1, 2, 3, 4, 9] ![1, 1, 1, 1, 0]
    (fun _ => (0 : ℝ)) = true := by
  rw [C34_mee_box_test]
  intro i
  fin_cases i <;> norm_num [Fin.castSucc, Fin.castAdd, Fin.castLE]

end real
end PyQ
