import Verif.Model.Diff
import Verif.Props.Descent

/-! # C109: the generated gradient is the gradient of `Q` -/

set_option linter.unusedSectionVars false

namespace PyQ

noncomputable instance : PyLog ℝ := ⟨Real.log⟩

namespace SymJet

/-- `J` holds the value and the derivative of `f` at `x` -/
def Of (f : ℝ → ℝ) (x : ℝ) (J : SymJet ℝ) : Prop :=
  J.val = f x ∧ match J.der with
    | none => ∃ c, f = fun _ => c
    | some d => HasDerivAt f d x

variable {f g : ℝ → ℝ} {x : ℝ} {u v : SymJet ℝ}

theorem of_const (c x : ℝ) : Of (fun _ => c) x (const c) := ⟨rfl, c, rfl⟩

theorem of_cast (n : ℕ) (x : ℝ) : Of (fun _ => (n : ℝ)) x ((n : ℕ) : SymJet ℝ) := ⟨rfl, _, rfl⟩

theorem of_pi (x : ℝ) : Of (fun _ => Real.pi) x (PyTrans.pi : SymJet ℝ) := ⟨rfl, _, rfl⟩

theorem Of.add (hf : Of f x u) (hg : Of g x v) : Of (fun y => f y + g y) x (u + v) := by
  obtain ⟨a, u'⟩ := u; obtain ⟨b, v'⟩ := v
  obtain ⟨rfl, hf⟩ := hf; obtain ⟨rfl, hg⟩ := hg
  refine ⟨rfl, ?_⟩
  cases u' with
  | none =>
    obtain ⟨c, rfl⟩ := hf
    cases v' with
    | none => obtain ⟨d, rfl⟩ := hg; exact ⟨c + d, rfl⟩
    | some d => exact hg.const_add c
  | some d =>
    cases v' with
    | none => obtain ⟨c, rfl⟩ := hg; exact hf.add_const c
    | some d' => exact hf.add hg

theorem Of.neg (hf : Of f x u) : Of (fun y => -f y) x (-u) := by
  obtain ⟨a, u'⟩ := u
  obtain ⟨rfl, hf⟩ := hf
  refine ⟨rfl, ?_⟩
  cases u' with
  | none => obtain ⟨c, rfl⟩ := hf; exact ⟨-c, rfl⟩
  | some d => exact hf.neg

theorem Of.sub (hf : Of f x u) (hg : Of g x v) : Of (fun y => f y - g y) x (u - v) := by
  have := hf.add hg.neg
  obtain ⟨a, u'⟩ := u; obtain ⟨b, v'⟩ := v
  simp only [sub_eq_add_neg]
  exact ⟨by rw [← this.1]; show a - b = a + -b; ring, this.2⟩

theorem Of.mul (hf : Of f x u) (hg : Of g x v) : Of (fun y => f y * g y) x (u * v) := by
  obtain ⟨a, u'⟩ := u; obtain ⟨b, v'⟩ := v
  obtain ⟨rfl, hf⟩ := hf; obtain ⟨rfl, hg⟩ := hg
  refine ⟨rfl, ?_⟩
  cases u' with
  | none =>
    obtain ⟨c, rfl⟩ := hf
    cases v' with
    | none => obtain ⟨d, rfl⟩ := hg; exact ⟨c * d, rfl⟩
    | some d => exact hg.const_mul c
  | some d =>
    cases v' with
    | none => obtain ⟨c, rfl⟩ := hg; exact hf.mul_const c
    | some d' => exact hf.mul hg

theorem Of.div (hf : Of f x u) (hg : Of g x v) (h : g x ≠ 0) : Of (fun y => f y / g y) x (u / v) := by
  obtain ⟨a, u'⟩ := u; obtain ⟨b, v'⟩ := v
  obtain ⟨rfl, hf⟩ := hf; obtain ⟨rfl, hg⟩ := hg
  refine ⟨rfl, ?_⟩
  cases u' with
  | none =>
    obtain ⟨c, rfl⟩ := hf
    cases v' with
    | none => obtain ⟨d, rfl⟩ := hg; exact ⟨c / d, rfl⟩
    | some d =>
      have := (hasDerivAt_const x c).div hg h
      simp only [zero_mul, zero_sub] at this
      exact this
  | some d =>
    cases v' with
    | none => obtain ⟨c, rfl⟩ := hg; exact hf.div_const c
    | some d' =>
      have := hf.div hg h
      refine this.congr_deriv ?_
      show _ = d / g x + -(f x * d') / g x ^ 2
      field_simp
      ring

theorem Of.pow (hf : Of f x u) (n : ℕ) : Of (fun y => f y ^ n) x (u ^ n) := by
  obtain ⟨a, u'⟩ := u
  obtain ⟨rfl, hf⟩ := hf
  cases n with
  | zero => exact ⟨rfl, 1, by funext y; simp⟩
  | succ k =>
    refine ⟨rfl, ?_⟩
    cases u' with
    | none => obtain ⟨c, rfl⟩ := hf; exact ⟨c ^ (k + 1), rfl⟩
    | some d =>
      refine (HasDerivAt.pow hf (k + 1)).congr_deriv ?_
      rw [Nat.add_sub_cancel]

theorem Of.sqrt (hf : Of f x u) (h : f x ≠ 0) : Of (fun y => Real.sqrt (f y)) x (PyTrans.sqrt u) := by
  obtain ⟨a, u'⟩ := u
  obtain ⟨rfl, hf⟩ := hf
  refine ⟨rfl, ?_⟩
  cases u' with
  | none => obtain ⟨c, rfl⟩ := hf; exact ⟨_, rfl⟩
  | some d =>
    refine (HasDerivAt.sqrt hf h).congr_deriv ?_
    show _ = d / (((2 : ℕ) : ℝ) * Real.sqrt (f x))
    norm_num

theorem Of.sin (hf : Of f x u) : Of (fun y => Real.sin (f y)) x (PyTrans.sin u) := by
  obtain ⟨a, u'⟩ := u
  obtain ⟨rfl, hf⟩ := hf
  refine ⟨rfl, ?_⟩
  cases u' with
  | none => obtain ⟨c, rfl⟩ := hf; exact ⟨_, rfl⟩
  | some d => exact hf.sin

theorem Of.cos (hf : Of f x u) : Of (fun y => Real.cos (f y)) x (PyTrans.cos u) := by
  obtain ⟨a, u'⟩ := u
  obtain ⟨rfl, hf⟩ := hf
  refine ⟨rfl, ?_⟩
  cases u' with
  | none => obtain ⟨c, rfl⟩ := hf; exact ⟨_, rfl⟩
  | some d => exact hf.cos

theorem Of.exp (hf : Of f x u) : Of (fun y => Real.exp (f y)) x (PyTrans.exp u) := by
  obtain ⟨a, u'⟩ := u
  obtain ⟨rfl, hf⟩ := hf
  refine ⟨rfl, ?_⟩
  cases u' with
  | none => obtain ⟨c, rfl⟩ := hf; exact ⟨_, rfl⟩
  | some d => exact hf.exp

theorem Of.arccos (hf : Of f x u) (h : f x ≠ -1) (h' : f x ≠ 1) :
    Of (fun y => Real.arccos (f y)) x (PyTrans.arccos u) := by
  obtain ⟨a, u'⟩ := u
  obtain ⟨rfl, hf⟩ := hf
  refine ⟨rfl, ?_⟩
  cases u' with
  | none => obtain ⟨c, rfl⟩ := hf; exact ⟨_, rfl⟩
  | some d =>
    refine ((Real.hasDerivAt_arccos h h').comp x hf).congr_deriv ?_
    simp
    ring

theorem Of.rpow (hf : Of f x u) (c : ℝ) (h : f x ≠ 0) :
    Of (fun y => f y ^ c) x (PyTrans.rpow u (const c)) := by
  obtain ⟨a, u'⟩ := u
  obtain ⟨rfl, hf⟩ := hf
  refine ⟨rfl, ?_⟩
  cases u' with
  | none => obtain ⟨c, rfl⟩ := hf; exact ⟨_, rfl⟩
  | some d =>
    refine (hf.rpow_const (p := c) (Or.inl h)).congr_deriv ?_
    show _ = f x ^ c * (d * c / f x)
    rw [Real.rpow_sub_one h]
    field_simp

theorem Of.derivative (hf : Of f x u) : u.derivative = deriv f x := by
  obtain ⟨a, u'⟩ := u
  obtain ⟨rfl, hf⟩ := hf
  cases u' with
  | none => obtain ⟨c, rfl⟩ := hf; simp [SymJet.derivative]
  | some d => exact hf.deriv.symm

end SymJet

open SymJet

theorem setOe_self (A : LyapArgs ℝ) (j : Fin 5) : A.setOe j (A.oe j.castSucc) = A := by
  unfold LyapArgs.setOe
  congr 1
  funext i
  split_ifs with h
  · rw [h]
  · rfl

theorem jet_oe (A : LyapArgs ℝ) (j : Fin 5) (i : Fin 6) :
    Of (fun y => (A.setOe j y).oe i) (A.oe j.castSucc) ((A.jet j).oe i) := by
  by_cases h : i = j.castSucc
  · subst h
    simp only [LyapArgs.setOe, LyapArgs.jet, if_true]
    exact ⟨rfl, by rw [Nat.cast_one]; exact hasDerivAt_id' _⟩
  · simp only [LyapArgs.setOe, LyapArgs.jet, h, if_false]
    exact of_const _ _

/-- Keplerian arguments at which every term of the generated gradient is regular -/
structure KepRegular (A : LyapArgs ℝ) : Prop where
  mu : 0 < A.mu
  f : A.f ≠ 0
  a : 0 < A.oe 0
  e0 : 0 < A.oe 1
  e1 : A.oe 1 < 1
  i0 : 0 < A.oe 2
  i1 : A.oe 2 < Real.pi
  inc : Real.cos (A.oe 2) ≠ 0
  sinOm : Real.sin (A.oe 4) ≠ 0
  cosOm : Real.cos (A.oe 4) ≠ 0
  aT : 0 < A.oeT 0
  m : 0 < A.m
  r : A.r ≠ 0
  b : 0 ≤ A.b
  rpmin : A.rpmin ≠ 0
  sma : A.oe 0 ≠ A.oeT 0
  even : (A.oeT 0 < A.oe 0 ∨ ∃ j : ℕ, A.n = 2 * j) ∨ WholeScale A
  raan : Real.sin (A.oe 3 - A.oeT 3) ≠ 0
  aop : Real.sin (A.oe 4 - A.oeT 4) ≠ 0

section
variable {A : LyapArgs ℝ} (j : Fin 5)

theorem kepPenalty_jet (h : A.rpmin ≠ 0) :
    Of (fun y => kepPenalty (A.setOe j y)) (A.oe j.castSucc) (kepPenalty (A.jet j)) :=
  ((of_const A.k _).mul ((of_cast 1 _).sub
    (((jet_oe A j 0).mul ((of_cast 1 _).sub (jet_oe A j 1))).div (of_const A.rpmin _) h))).exp

theorem kepSoe_jet (H : KepRegular A) :
    Of (fun y => kepSoe (A.setOe j y)) (A.oe j.castSucc) (kepSoe (A.jet j)) := by
  have hd : 0 < A.m * A.oeT 0 := mul_pos H.m H.aT
  have hX : (A.oe 0 - A.oeT 0) / (A.m * A.oeT 0) ≠ 0 := div_ne_zero (sub_ne_zero.2 H.sma) hd.ne'
  have hY : 0 < 1 + ((A.oe 0 - A.oeT 0) / (A.m * A.oeT 0)) ^ A.n := by
    rcases H.even with (h | ⟨k, h⟩) | h
    · have : 0 < (A.oe 0 - A.oeT 0) / (A.m * A.oeT 0) := div_pos (by linarith) hd
      positivity
    · rw [h, show ((2 : ℝ) * (k : ℝ)) = ((2 * k : ℕ) : ℝ) by push_cast; ring, Real.rpow_natCast, pow_mul]
      positivity
    · exact h.pos H.a H.aT
  refine ((of_cast 1 _).add ((((jet_oe A j 0).sub (of_const (A.oeT 0) _)).div
    ((of_const A.m _).mul (of_const (A.oeT 0) _)) hd.ne').rpow A.n ?_)).rpow (((1 : ℕ) : ℝ) / A.r) ?_
  · rw [setOe_self]; exact hX
  · rw [setOe_self, Nat.cast_one]; exact hY.ne'

theorem KepRegular.ellipse (H : KepRegular A) : KepEllipse { A with f := |A.f| } :=
  ⟨H.mu, abs_pos.2 H.f, H.a, H.e0.le, H.e1, H.i0, H.i1⟩

theorem kepOedot_jet (H : KepRegular A) (i : Fin 5) :
    Of (fun y => kepOedot (A.setOe j y) i) (A.oe j.castSucc) (kepOedot (A.jet j) i) := by
  have ha := H.a
  have he0 := H.e0
  have he1 := H.e1
  have hmu := H.mu
  have h1e : 0 < 1 - A.oe 1 := by linarith
  have h1e2 : 0 < 1 - A.oe 1 ^ 2 := by nlinarith
  have hp : 0 < A.oe 0 * (1 - A.oe 1 ^ 2) := by positivity
  have hq : 0 < A.oe 0 * A.mu * (1 - A.oe 1 ^ 2) := by positivity
  have hh := Real.sqrt_pos.2 hq
  have hi := (Real.sin_pos_of_pos_of_lt_pi H.i0 H.i1).ne'
  have hG1 := gap_pos (c := Real.cos (A.oe 4)) (s := Real.sin (A.oe 4)) he0.le he1
    (Real.cos_sq_add_sin_sq _)
  have hG2 := gap_pos (c := Real.sin (A.oe 4)) (s := Real.cos (A.oe 4)) he0.le he1
    (Real.sin_sq_add_cos_sq _)
  have hs1 : 0 < 1 - A.oe 1 ^ 2 * Real.cos (A.oe 4) ^ 2 := by
    nlinarith [Real.cos_sq_le_one (A.oe 4), sq_nonneg (A.oe 1)]
  have hs2 : 0 < 1 - A.oe 1 ^ 2 * Real.sin (A.oe 4) ^ 2 := by
    nlinarith [Real.sin_sq_le_one (A.oe 4), sq_nonneg (A.oe 1)]
  have one := of_cast 1 (A.oe j.castSucc)
  have two := of_cast 2 (A.oe j.castSucc)
  have ja := jet_oe A j 0
  have je := jet_oe A j 1
  have ji := jet_oe A j 2
  have jo := jet_oe A j 4
  have jf := of_const A.f (A.oe j.castSucc)
  have jmu := of_const A.mu (A.oe j.castSucc)
  have jp := ja.mul (one.sub (je.pow 2))
  have jh := ((ja.mul jmu).mul (one.sub (je.pow 2))).sqrt
    (by rw [setOe_self, Nat.cast_one]; exact hq.ne')
  have j3 : Of (fun y => kepOedot (A.setOe j y) 3) (A.oe j.castSucc) (kepOedot (A.jet j) 3) := by
    refine (jp.mul jf).div ((jh.mul ji.sin).mul
      (((one.sub ((je.pow 2).mul (jo.cos.pow 2))).sqrt ?_).sub (je.mul ((jo.sin.pow 2).sqrt ?_)))) ?_
    · rw [setOe_self, Nat.cast_one]; exact hs1.ne'
    · rw [setOe_self]; exact pow_ne_zero 2 H.sinOm
    · rw [setOe_self, Nat.cast_one]
      exact mul_ne_zero (mul_ne_zero hh.ne' hi) hG2.ne'
  match i with
  | 0 =>
    refine (two.mul jf).mul (Of.sqrt (Of.div ((ja.pow 3).mul (one.add je)) (jmu.mul (one.sub je)) ?_) ?_)
    · rw [setOe_self, Nat.cast_one]; positivity
    · rw [setOe_self, Nat.cast_one]; positivity
  | 1 =>
    refine Of.div ((two.mul jp).mul jf) jh ?_
    rw [setOe_self, Nat.cast_one]; positivity
  | 2 =>
    refine (jp.mul jf).div (jh.mul
      (((one.sub ((je.pow 2).mul (jo.sin.pow 2))).sqrt ?_).sub (je.mul ((jo.cos.pow 2).sqrt ?_)))) ?_
    · rw [setOe_self, Nat.cast_one]; exact hs2.ne'
    · rw [setOe_self]; exact pow_ne_zero 2 H.cosOm
    · rw [setOe_self, Nat.cast_one]
      exact mul_ne_zero hh.ne' hG1.ne'
  | 3 => exact j3
  | 4 =>
    obtain ⟨hc1, hc2⟩ := cosTaXx_range he0 he1
    obtain ⟨s, hs⟩ : ∃ s, s = (1 - A.oe 1 ^ 2) / A.oe 1 ^ 3 := ⟨_, rfl⟩
    have hs0 : 0 < s := by rw [hs]; positivity
    have e1 : (1 - A.oe 1 ^ 2) / (2 * A.oe 1 ^ 3) = s / 2 := by rw [hs]; field_simp
    have e2 : -(1 - A.oe 1 ^ 2) / (2 * A.oe 1 ^ 3) = -(s / 2) := by rw [← e1]; ring
    have hlt : s / 2 < Real.sqrt (1 / 4 * s ^ 2 + 1 / 27) := by
      apply Real.lt_sqrt_of_sq_lt; nlinarith
    have jk := one.sub (je.pow 2)
    have js : Of _ (A.oe j.castSucc) _ := Of.sqrt ((((of_cast 1 _).div (of_cast 4 _) (by norm_num)).mul
      ((jk.div (je.pow 3) (by rw [setOe_self]; positivity)).pow 2)).add
      ((of_cast 1 _).div (of_cast 27 _) (by norm_num))) (by
        rw [setOe_self]; push_cast; positivity)
    have jt1 := Of.rpow ((jk.div (two.mul (je.pow 3)) (by rw [setOe_self]; positivity)).add js)
      (((1 : ℕ) : ℝ) / ((3 : ℕ) : ℝ)) (by
        rw [setOe_self]; push_cast; rw [e1, ← hs]; positivity)
    have jt2 := Of.rpow ((jk.neg.div (two.mul (je.pow 3)) (by rw [setOe_self]; positivity)).add js)
      (((1 : ℕ) : ℝ) / ((3 : ℕ) : ℝ)) (by
        rw [setOe_self]; push_cast; rw [e2, ← hs]; linarith)
    have jc := (jt1.sub jt2).sub (one.div je (by rw [setOe_self]; positivity))
    have hcx : ((1 - A.oe 1 ^ 2) / (2 * A.oe 1 ^ 3) +
          Real.sqrt (1 / 4 * ((1 - A.oe 1 ^ 2) / A.oe 1 ^ 3) ^ 2 + 1 / 27)) ^ (1 / 3 : ℝ) -
        (-(1 - A.oe 1 ^ 2) / (2 * A.oe 1 ^ 3) +
          Real.sqrt (1 / 4 * ((1 - A.oe 1 ^ 2) / A.oe 1 ^ 3) ^ 2 + 1 / 27)) ^ (1 / 3 : ℝ) -
        1 / A.oe 1 = cosTaXx (A.oe 1) := rfl
    have hw : 0 < 1 + A.oe 1 * cosTaXx (A.oe 1) := by nlinarith
    have hc0 : 0 < cosTaXx (A.oe 1) ^ 2 := by nlinarith
    have hc3 : 0 ≤ 1 - cosTaXx (A.oe 1) ^ 2 := by nlinarith
    have jr := jp.div (one.add (je.mul jc)) (by
      rw [setOe_self]; push_cast; rw [hcx]; exact hw.ne')
    have jS := Of.sqrt (((jp.pow 2).mul (jc.pow 2)).add (((jp.add jr).pow 2).mul (one.sub (jc.pow 2)))) (by
      rw [setOe_self]; push_cast; rw [hcx]; positivity)
    have jI := (jf.div (je.mul jh) (by
      rw [setOe_self]; push_cast; positivity)).mul jS
    have jO := j3.mul ((ji.cos.pow 2).sqrt (by rw [setOe_self]; exact pow_ne_zero 2 H.inc))
    have jb := of_const A.b (A.oe j.castSucc)
    exact (jI.add (jb.mul jO)).div (one.add jb) (by have := H.b; rw [Nat.cast_one]; positivity)

/-- C109: by the rules of differentiation the Keplerian `Q` has at a regular state the derivative that
the limit of difference quotients gives -/
theorem kepQ_jet (H : KepRegular A) :
    Of (fun y => kepQ (A.setOe j y)) (A.oe j.castSucc) (kepQ (A.jet j)) := by
  have one := of_cast 1 (A.oe j.castSucc)
  have w := fun i => of_const (A.woe i) (A.oe j.castSucc)
  have t := fun i => of_const (A.oeT i) (A.oe j.castSucc)
  have hne : ∀ i, kepOedot A i ≠ 0 := by
    intro i
    have h1 : kepOedot { A with f := |A.f| / A.f * A.f } i = |A.f| / A.f * kepOedot A i := by
      fin_cases i <;> simp [kepOedot] <;> ring
    rw [div_mul_cancel₀ _ H.f] at h1
    have h2 := kepOedot_pos H.ellipse H.e0 H.b i
    rw [h1] at h2
    exact right_ne_zero_of_mul h2.ne'
  have hq := fun i => (show kepOedot (A.setOe j (A.oe j.castSucc)) i ≠ 0 by rw [setOe_self]; exact hne i)
  have ang : ∀ y, Real.sin y ≠ 0 → Real.cos y ≠ -1 ∧ Real.cos y ≠ 1 := by
    intro y hy
    constructor <;>
    · intro h
      apply hy
      have := Real.sin_sq_add_cos_sq y
      rw [h] at this
      nlinarith
  have o := kepOedot_jet (A := A) j H
  refine (one.add ((of_const A.wp _).mul (kepPenalty_jet j H.rpmin))).mul (((((
    ((w 0).mul (kepSoe_jet j H)).mul (((jet_oe A j 0).sub (t 0)).div (o 0) (hq 0) |>.pow 2)).add
    (((w 1).mul one).mul (((jet_oe A j 1).sub (t 1)).div (o 1) (hq 1) |>.pow 2))).add
    (((w 2).mul one).mul (((jet_oe A j 2).sub (t 2)).div (o 2) (hq 2) |>.pow 2))).add
    (((w 3).mul one).mul ((((jet_oe A j 3).sub (t 3)).cos.arccos ?_ ?_).div (o 3) (hq 3) |>.pow 2))).add
    (((w 4).mul one).mul ((((jet_oe A j 4).sub (t 4)).cos.arccos ?_ ?_).div (o 4) (hq 4) |>.pow 2)))
  · rw [setOe_self]; exact (ang _ H.raan).1
  · rw [setOe_self]; exact (ang _ H.raan).2
  · rw [setOe_self]; exact (ang _ H.aop).1
  · rw [setOe_self]; exact (ang _ H.aop).2

/-! ## modified equinoctial elements -/

/-- modified equinoctial arguments at which every term of the generated gradient is regular -/
structure MeeRegular (A : LyapArgs ℝ) : Prop where
  mu : 0 < A.mu
  f : A.f ≠ 0
  a : 0 < A.oe 0
  ecc0 : 0 < A.oe 1 ^ 2 + A.oe 2 ^ 2
  ecc : A.oe 1 ^ 2 + A.oe 2 ^ 2 < 1
  aT : 0 < A.oeT 0
  m : 0 < A.m
  r : A.r ≠ 0
  rpmin : A.rpmin ≠ 0
  sma : A.oe 0 ≠ A.oeT 0

theorem MeeRegular.ellipse (H : MeeRegular A) : MeeEllipse { A with f := |A.f| } :=
  ⟨H.mu, abs_pos.2 H.f, H.a, H.ecc⟩

theorem jet_ecc (H : MeeRegular A) :
    Of (fun y => Real.sqrt ((A.setOe j y).oe 1 ^ 2 + (A.setOe j y).oe 2 ^ 2)) (A.oe j.castSucc)
      (PyTrans.sqrt ((A.jet j).oe 1 ^ 2 + (A.jet j).oe 2 ^ 2)) :=
  (((jet_oe A j 1).pow 2).add ((jet_oe A j 2).pow 2)).sqrt (by rw [setOe_self]; exact H.ecc0.ne')

theorem meePenalty_jet (H : MeeRegular A) :
    Of (fun y => meePenalty (A.setOe j y)) (A.oe j.castSucc) (meePenalty (A.jet j)) :=
  ((of_const A.k _).mul ((of_cast 1 _).sub
    (((jet_oe A j 0).mul ((of_cast 1 _).sub (jet_ecc j H))).div (of_const A.rpmin _) H.rpmin))).exp

theorem meeSoe_jet (H : MeeRegular A) :
    Of (fun y => meeSoe (A.setOe j y)) (A.oe j.castSucc) (meeSoe (A.jet j)) := by
  have hd : 0 < A.m * A.oeT 0 := mul_pos H.m H.aT
  have h0 := sub_ne_zero.2 H.sma
  have hs : 0 < Real.sqrt ((A.oe 0 - A.oeT 0) ^ 2) := Real.sqrt_pos.2 (by positivity)
  have hX : 0 < Real.sqrt ((A.oe 0 - A.oeT 0) ^ 2) / (A.m * A.oeT 0) := div_pos hs hd
  have hY : 0 < 1 + (Real.sqrt ((A.oe 0 - A.oeT 0) ^ 2) / (A.m * A.oeT 0)) ^ A.n := by positivity
  refine ((of_cast 1 _).add ((((((jet_oe A j 0).sub (of_const (A.oeT 0) _)).pow 2).sqrt ?_).div
    ((of_const A.m _).mul (of_const (A.oeT 0) _)) hd.ne').rpow A.n ?_)).rpow (((1 : ℕ) : ℝ) / A.r) ?_
  · rw [setOe_self]; exact pow_ne_zero 2 h0
  · rw [setOe_self]; exact hX.ne'
  · rw [setOe_self, Nat.cast_one]; exact hY.ne'

theorem meeOedot_jet (H : MeeRegular A) (i : Fin 5) :
    Of (fun y => meeOedot (A.setOe j y) i) (A.oe j.castSucc) (meeOedot (A.jet j) i) := by
  have ha := H.a
  have hmu := H.mu
  have h0 := H.ecc0
  have h1 := H.ecc
  have he1 : 0 < 1 - Real.sqrt (A.oe 1 ^ 2 + A.oe 2 ^ 2) := by
    have := Real.sqrt_lt_sqrt h0.le h1
    rw [Real.sqrt_one] at this
    linarith
  have hp : 0 < A.oe 0 * (1 - A.oe 1 ^ 2 - A.oe 2 ^ 2) := mul_pos ha (by linarith)
  have hG1 := fg_gap_pos h1
  have hG2 := fg_gap_pos (show A.oe 2 ^ 2 + A.oe 1 ^ 2 < 1 by linarith)
  have b1 := neg_abs_le (A.oe 1)
  have b2 := neg_abs_le (A.oe 2)
  have q1 := sq_nonneg (A.oe 1)
  have q2 := sq_nonneg (A.oe 2)
  have one := of_cast 1 (A.oe j.castSucc)
  have two := of_cast 2 (A.oe j.castSucc)
  have jf := of_const A.f (A.oe j.castSucc)
  have jm := of_const A.mu (A.oe j.castSucc)
  have o := jet_oe A j
  have je := jet_ecc j H
  have jp := (o 0).mul ((one.sub ((o 1).pow 2)).sub ((o 2).pow 2))
  have js := (jp.div jm hmu.ne').sqrt (by rw [setOe_self]; push_cast; positivity)
  have jss := (one.add ((o 3).pow 2)).add ((o 4).pow 2)
  have half := one.div two (by norm_num)
  have jI : Of _ _ _ := (two.mul jf).mul js
  fin_cases i
  · exact ((((two.mul jf).mul (o 0)).mul (((o 0).div jm hmu.ne').sqrt (by rw [setOe_self]; positivity))).mul
      (((one.add je).div (one.sub je) (by rw [setOe_self, Nat.cast_one]; exact he1.ne')).sqrt (by
        rw [setOe_self, Nat.cast_one]; positivity)))
  · exact jI
  · exact jI
  · refine (((half.mul jf).mul js).mul jss).div
      (((one.sub ((o 2).pow 2)).sqrt ?_).add (o 1)) ?_
    · rw [setOe_self, Nat.cast_one]; exact (by linarith : 0 < 1 - A.oe 2 ^ 2).ne'
    · rw [setOe_self, Nat.cast_one]; exact (by linarith : 0 < Real.sqrt (1 - A.oe 2 ^ 2) + A.oe 1).ne'
  · refine (((half.mul jf).mul js).mul jss).div
      (((one.sub ((o 1).pow 2)).sqrt ?_).add (o 2)) ?_
    · rw [setOe_self, Nat.cast_one]; exact (by linarith : 0 < 1 - A.oe 1 ^ 2).ne'
    · rw [setOe_self, Nat.cast_one]; exact (by linarith : 0 < Real.sqrt (1 - A.oe 1 ^ 2) + A.oe 2).ne'

theorem meeQ_jet (H : MeeRegular A) :
    Of (fun y => meeQ (A.setOe j y)) (A.oe j.castSucc) (meeQ (A.jet j)) := by
  have one := of_cast 1 (A.oe j.castSucc)
  have w := fun i => of_const (A.woe i) (A.oe j.castSucc)
  have t := fun i => of_const (A.oeT i) (A.oe j.castSucc)
  have hne : ∀ i, meeOedot A i ≠ 0 := by
    intro i
    have h1 : meeOedot { A with f := |A.f| / A.f * A.f } i = |A.f| / A.f * meeOedot A i := by
      fin_cases i <;> simp [meeOedot] <;> ring
    rw [div_mul_cancel₀ _ H.f] at h1
    have h2 := meeOedot_pos H.ellipse i
    rw [h1] at h2
    exact right_ne_zero_of_mul h2.ne'
  have hq := fun i => (show meeOedot (A.setOe j (A.oe j.castSucc)) i ≠ 0 by rw [setOe_self]; exact hne i)
  have o := meeOedot_jet (A := A) j H
  exact (one.add ((of_const A.wp _).mul (meePenalty_jet j H))).mul (((((
    ((w 0).mul (meeSoe_jet j H)).mul (((jet_oe A j 0).sub (t 0)).div (o 0) (hq 0) |>.pow 2)).add
    (((w 1).mul one).mul (((jet_oe A j 1).sub (t 1)).div (o 1) (hq 1) |>.pow 2))).add
    (((w 2).mul one).mul (((jet_oe A j 2).sub (t 2)).div (o 2) (hq 2) |>.pow 2))).add
    (((w 3).mul one).mul (((jet_oe A j 3).sub (t 3)).div (o 3) (hq 3) |>.pow 2))).add
    (((w 4).mul one).mul (((jet_oe A j 4).sub (t 4)).div (o 4) (hq 4) |>.pow 2)))

end

/-! ## the generated functions -/

/-- C109: the components of the gradient generated for Keplerian elements are the partial derivatives
of `Q` -/
theorem C109_kep_gradient {A : LyapArgs ℝ} (H : KepRegular A) (j : Fin 5) :
    HasDerivAt (fun y => kepQ (A.setOe j y)) (kepGrad A j) (A.oe j.castSucc) := by
  have h := kepQ_jet j H
  have hd := h.derivative
  obtain ⟨-, h⟩ := h
  unfold kepGrad
  rw [hd]
  cases hder : (kepQ (A.jet j)).der with
  | none =>
    rw [hder] at h
    obtain ⟨c, hc⟩ := h
    rw [hc]
    simpa using hasDerivAt_const (A.oe j.castSucc) c
  | some d =>
    rw [hder] at h
    exact h.differentiableAt.hasDerivAt

/-- C109: the components of the gradient generated for modified equinoctial elements are the partial
derivatives of `Q` -/
theorem C109_mee_gradient {A : LyapArgs ℝ} (H : MeeRegular A) (j : Fin 5) :
    HasDerivAt (fun y => meeQ (A.setOe j y)) (meeGrad A j) (A.oe j.castSucc) := by
  have h := meeQ_jet j H
  have hd := h.derivative
  obtain ⟨-, h⟩ := h
  unfold meeGrad
  rw [hd]
  cases hder : (meeQ (A.jet j)).der with
  | none =>
    rw [hder] at h
    obtain ⟨c, hc⟩ := h
    rw [hc]
    simpa using hasDerivAt_const (A.oe j.castSucc) c
  | some d =>
    rw [hder] at h
    exact h.differentiableAt.hasDerivAt

/-- arguments at which the gradient generated for the element set is regular -/
def Regular : ElemType → LyapArgs ℝ → Prop
  | .keplerian => KepRegular
  | .meeWithA => MeeRegular

/-- C109: at a regular state the control, the quotient and the gradient computed by the generated
function, and the rate computed by the generated rate function, are those of the law defined with
the derivative -/
theorem C109_generated_law {A : LyapArgs ℝ} (et : ElemType) (H : Regular et A) :
    (genDyn et).lyapFun A = (dynOf et).lyapFun A ∧
    (genDyn et).dqdtFun A = (dynOf et).dqdtFun A ∧
    ∀ j, HasDerivAt (fun y => ((genDyn et).lyapFun (A.setOe j y)).q)
      (((genDyn et).lyapFun A).dqdoe j) (A.oe j.castSucc) := by
  cases et with
  | keplerian =>
    have hg : kepGrad A = partialQ kepQ A := by
      funext j
      exact (C109_kep_gradient H j).deriv.symm
    have hc : kepControl (kepPsi A) (partialQ kepQ A) = rawControl (kepPsi A) (partialQ kepQ A) := by
      funext c
      fin_cases c <;> simp [kepControl, rawControl, kepPsi]
    refine ⟨?_, ?_, C109_kep_gradient H⟩
    · simp only [genDyn, dynOf, kepLyap, hg, hc]
    · simp only [genDyn, dynOf, kepDqdt, kepRate, evalDqdt, hg, hc]
      simp [kepPsi]
  | meeWithA =>
    have hg : meeGrad A = partialQ meeQ A := by
      funext j
      exact (C109_mee_gradient H j).deriv.symm
    have hc : meeControl (meePsi A) (partialQ meeQ A) = rawControl (meePsi A) (partialQ meeQ A) := by
      funext c
      fin_cases c <;> simp [meeControl, rawControl, meePsi]
    refine ⟨?_, ?_, C109_mee_gradient H⟩
    · simp only [genDyn, dynOf, meeLyap, hg, hc]
    · simp only [genDyn, dynOf, meeDqdt, meeRate, evalDqdt, hg, hc]
      simp [meePsi]

/-- an orbit of eccentricity 1/2 to be brought to a smaller semi-major axis -/
noncomputable def gradSample : LyapArgs ℝ where
  mu := 1
  f := 1
  oe := ![2, 1 / 2, 1, 1, 1, 1]
  oeT := ![1, 0, 0, 0, 0]
  rpmin := 1
  m := 3
  n := 4
  r := 2
  b := 1 / 100
  k := 1
  wp := 1
  woe := ![1, 1, 1, 1, 1]

theorem gradSample_kep : KepRegular gradSample where
  mu := by norm_num [gradSample, Matrix.cons_val]
  f := by norm_num [gradSample, Matrix.cons_val]
  a := by norm_num [gradSample, Matrix.cons_val]
  e0 := by norm_num [gradSample, Matrix.cons_val]
  e1 := by norm_num [gradSample, Matrix.cons_val]
  i0 := (zero_lt_one : (0 : ℝ) < 1)
  i1 := by simpa [gradSample] using (by linarith [Real.pi_gt_three] : (1 : ℝ) < Real.pi)
  inc := by simpa [gradSample] using Real.cos_one_pos.ne'
  sinOm := by
    have := Real.sin_pos_of_pos_of_lt_pi one_pos (by linarith [Real.pi_gt_three])
    simpa [gradSample] using this.ne'
  cosOm := by simpa [gradSample] using Real.cos_one_pos.ne'
  aT := by norm_num [gradSample, Matrix.cons_val]
  m := by norm_num [gradSample, Matrix.cons_val]
  r := by norm_num [gradSample, Matrix.cons_val]
  b := by norm_num [gradSample, Matrix.cons_val]
  rpmin := by norm_num [gradSample, Matrix.cons_val]
  sma := by norm_num [gradSample, Matrix.cons_val]
  even := Or.inl (Or.inl (by norm_num [gradSample, Matrix.cons_val]))
  raan := by
    have := Real.sin_pos_of_pos_of_lt_pi one_pos (by linarith [Real.pi_gt_three])
    simpa [gradSample] using this.ne'
  aop := by
    have := Real.sin_pos_of_pos_of_lt_pi one_pos (by linarith [Real.pi_gt_three])
    simpa [gradSample] using this.ne'

theorem gradSample_mee : MeeRegular { gradSample with oe := ![2, 1 / 2, 0, 0, 0, 1] } where
  mu := by norm_num [gradSample, Matrix.cons_val]
  f := by norm_num [gradSample, Matrix.cons_val]
  a := by norm_num [gradSample, Matrix.cons_val]
  ecc0 := by show (0 : ℝ) < (1 / 2) ^ 2 + 0 ^ 2; norm_num
  ecc := by show (1 / 2 : ℝ) ^ 2 + 0 ^ 2 < 1; norm_num
  aT := by norm_num [gradSample, Matrix.cons_val]
  m := by norm_num [gradSample, Matrix.cons_val]
  r := by norm_num [gradSample, Matrix.cons_val]
  rpmin := by norm_num [gradSample, Matrix.cons_val]
  sma := by norm_num [gradSample, Matrix.cons_val]

example : HasDerivAt (fun y => kepQ (gradSample.setOe 2 y)) (kepGrad gradSample 2) 1 := by
  simpa [gradSample] using C109_kep_gradient gradSample_kep 2

example : (genDyn .keplerian).lyapFun gradSample = (dynOf .keplerian).lyapFun gradSample :=
  (C109_generated_law .keplerian gradSample_kep).1

end PyQ
