import Verif.Model.Diff
import Verif.Props.Convergence
import Verif.Props.Coast
import Verif.Props.Outcome
import Verif.Examples.Toy
import Verif.Proofs.View
import Verif.Ext
import Mathlib.Data.Fintype.Basic
import Mathlib.Tactic.FinCases

/-! # Where the generated Keplerian law is undefined (C111)

The derivative of `acos(cos(Omega - Omega_T))` by the rules of differentiation is
`sin(Omega - Omega_T)/sqrt(1 - cos(Omega - Omega_T)**2)`, and that of `sqrt(sin(omega)**2)` is
`sin(omega)*cos(omega)/sqrt(sin(omega)**2)`: at `Omega = Omega_T`, and at `omega = 0`, they are zero divided
by zero. -/

set_option linter.unusedSectionVars false
set_option maxRecDepth 100000

namespace PyQ
open Ext PyTrans

variable {K : Type} [Field K] [LinearOrder K] [IsStrictOrderedRing K]

@[simp] theorem nan_add_ext (x : Ext K) : (nan : Ext K) + x = nan := by cases x <;> rfl
@[simp] theorem add_nan_ext (x : Ext K) : x + (nan : Ext K) = nan := by cases x <;> rfl
@[simp] theorem nan_mul_ext (x : Ext K) : (nan : Ext K) * x = nan := by cases x <;> rfl
@[simp] theorem mul_nan_ext (x : Ext K) : x * (nan : Ext K) = nan := by cases x <;> rfl
@[simp] theorem nan_div_ext (x : Ext K) : (nan : Ext K) / x = nan := by cases x <;> rfl
@[simp] theorem div_nan_ext (x : Ext K) : x / (nan : Ext K) = nan := by cases x <;> rfl
@[simp] theorem neg_nan_ext : -(nan : Ext K) = nan := rfl
@[simp] theorem nan_pow_ext (n : ℕ) : (nan : Ext K) ^ (n + 1) = nan := by
  show Ext.mul _ nan = nan
  exact mul_nan_ext _
theorem zero_div_zero : (fin 0 / fin 0 : Ext K) = nan := by
  show Ext.div _ _ = _
  simp [Ext.div]

variable [PyTrans (Ext K)] [PyLog (Ext K)]

/-- what is used of the elementary functions: their values at zero, and that NaN gives NaN -/
class ZeroLaws (K : Type) [Field K] [LinearOrder K] [PyTrans (Ext K)] : Prop where
  sqrt_zero : PyTrans.sqrt (fin 0 : Ext K) = fin 0
  sin_zero : PyTrans.sin (fin 0 : Ext K) = fin 0
  cos_zero : PyTrans.cos (fin 0 : Ext K) = fin 1
  sqrt_nan : PyTrans.sqrt (nan : Ext K) = nan
  arctan2_nan : ∀ x : Ext K, PyTrans.arctan2 (nan : Ext K) x = nan

/-- the derivative is NaN -/
def SymJet.Bad (u : SymJet (Ext K)) : Prop := u.der = some nan

namespace SymJet
variable {u v : SymJet (Ext K)}

theorem oadd_left (y : Option (Ext K)) : oadd (some nan) y = some nan := by
  cases y <;> simp [oadd]
theorem oadd_right (x : Option (Ext K)) : oadd x (some nan) = some nan := by
  cases x <;> simp [oadd]

theorem Bad.add_left (h : Bad u) : Bad (u + v) := by
  show oadd u.der v.der = _; rw [h]; exact oadd_left _
theorem Bad.add_right (h : Bad v) : Bad (u + v) := by
  show oadd u.der v.der = _; rw [h]; exact oadd_right _
theorem Bad.sub_left (h : Bad u) : Bad (u - v) := by
  show oadd u.der _ = _; rw [h]; exact oadd_left _
theorem Bad.sub_right (h : Bad v) : Bad (u - v) := by
  show oadd u.der (v.der.map _) = _; rw [h]; exact oadd_right _
theorem Bad.mul_left (h : Bad u) : Bad (u * v) := by
  show oadd (u.der.map _) _ = _; rw [h]; simp [oadd_left]
theorem Bad.mul_right (h : Bad v) : Bad (u * v) := by
  show oadd _ (v.der.map _) = _; rw [h]; simp [oadd_right]
theorem Bad.div_left (h : Bad u) : Bad (u / v) := by
  show oadd (u.der.map _) _ = _; rw [h]; simp [oadd_left]
theorem Bad.div_right (h : Bad v) : Bad (u / v) := by
  show oadd _ (v.der.map _) = _; rw [h]; simp [oadd_right]
theorem Bad.pow (h : Bad u) (n : ℕ) : Bad (u ^ (n + 1)) := by
  show u.der.map _ = _; rw [h]; simp
end SymJet
open SymJet

variable [ZeroLaws K]

theorem arccos_cos_bad {u : SymJet (Ext K)} {d : K} (h : u.val = fin 0) (hd : u.der = some (fin d)) :
    Bad (arccos (cos u)) := by
  show ((u.der.map _).map _) = _
  rw [hd]
  have h1 : (cos u).val = fin 1 := by
    show PyTrans.cos u.val = _
    rw [h, ZeroLaws.cos_zero]
  simp only [Option.map_some, h, ZeroLaws.sin_zero, h1]
  have h2 : ((1 : ℕ) : Ext K) - fin 1 ^ 2 = fin 0 := by
    show (fin ((1 : ℕ) : K) : Ext K) - fin (1 * 1 * 1) = fin 0
    simp
  rw [h2, ZeroLaws.sqrt_zero]
  simp [zero_div_zero]

theorem sqrt_sin_bad {u : SymJet (Ext K)} {d : K} (h : u.val = fin 0) (hd : u.der = some (fin d)) :
    Bad (sqrt (sin u ^ 2)) := by
  have h1 : (sin u).val = fin 0 := by
    show PyTrans.sin u.val = _
    rw [h, ZeroLaws.sin_zero]
  have h2 : (sin u).der = some (fin d) := by
    show u.der.map _ = _
    rw [hd]
    simp [h, ZeroLaws.cos_zero]
  have h3 : (sin u ^ 2).val = fin 0 := by
    show (sin u).val ^ 2 = _
    rw [h1]
    show (fin (1 * 0 * 0) : Ext K) = _
    simp
  have h4 : (sin u ^ 2).der = some (fin 0) := by
    show (sin u).der.map _ = _
    rw [h2]
    simp only [Option.map_some, h1]
    show some (fin (((1 + 1 : ℕ) : K) * (1 * 0) * d) : Ext K) = _
    simp
  show (sin u ^ 2).der.map _ = _
  rw [h4]
  simp only [Option.map_some, h3, ZeroLaws.sqrt_zero]
  show some (fin 0 / fin (((2 : ℕ) : K) * 0) : Ext K) = _
  rw [mul_zero, zero_div_zero]

/-- node at its target, argument of periapsis at its target, or argument of periapsis zero -/
def KepSingular (oe : Fin 6 → Ext K) (oeT : Fin 5 → Ext K) : Prop :=
  (∃ x, oe 3 = fin x ∧ oeT 3 = fin x) ∨ (∃ x, oe 4 = fin x ∧ oeT 4 = fin x) ∨ oe 4 = fin 0

theorem jet_diff {A : LyapArgs (Ext K)} (j : Fin 5) {x : K} (h : A.oe j.castSucc = fin x) (h' : A.oeT j = fin x) :
    ((A.jet j).oe j.castSucc - (A.jet j).oeT j).val = fin 0 ∧
    ((A.jet j).oe j.castSucc - (A.jet j).oeT j).der = some (fin 1) := by
  constructor
  · show ((A.jet j).oe j.castSucc).val - ((A.jet j).oeT j).val = _
    simp [LyapArgs.jet, SymJet.const, h, h']
  · show oadd ((A.jet j).oe j.castSucc).der _ = _
    simp [LyapArgs.jet, SymJet.const, oadd]

/-- C111: at such a state the gradient with respect to the node or the argument of periapsis is NaN,
whatever the weights are -/
theorem C111_gradient {A : LyapArgs (Ext K)} (h : KepSingular A.oe A.oeT) :
    kepGrad A 3 = nan ∨ kepGrad A 4 = nan := by
  have out : ∀ j, Bad (kepQ (A.jet j)) → kepGrad A j = nan := by
    intro j hb
    unfold kepGrad SymJet.derivative
    rw [hb]; rfl
  rcases h with ⟨x, h3, hT⟩ | ⟨x, h4, hT⟩ | h4
  · left
    apply out
    obtain ⟨a, b⟩ := jet_diff 3 h3 hT
    have hb : Bad (kepDoe (A.jet 3) 3) := arccos_cos_bad a b
    exact (((hb.div_left).pow 1).mul_right.add_right.add_left).mul_right
  · right
    apply out
    obtain ⟨a, b⟩ := jet_diff 4 h4 hT
    have hb : Bad (kepDoe (A.jet 4) 4) := arccos_cos_bad a b
    exact (((hb.div_left).pow 1).mul_right.add_right).mul_right
  · right
    apply out
    have hb : Bad (sqrt (sin ((A.jet 4).oe 4) ^ 2)) := by
      refine sqrt_sin_bad (d := 1) ?_ ?_
      · show A.oe 4 = _ ; exact h4
      · simp [LyapArgs.jet]
    have hr : Bad (kepOedot (A.jet 4) 3) := (hb.mul_right.sub_right.mul_right).div_right
    exact (((hr.div_right).pow 1).mul_right.add_right.add_left).mul_right

/-- a NaN component of the control makes both angles NaN -/
theorem angles_nan {u : Fin 3 → Ext K} (h : ∃ c, u c = nan) :
    ∃ v b, uToThrustAngles u = .ok (v, nan, b) := by
  have hn : (u 0 ^ 2 + u 1 ^ 2 + u 2 ^ 2 : Ext K) = nan := by
    obtain ⟨c, hc⟩ := h
    fin_cases c <;> simp only [Fin.zero_eta, Fin.mk_one, Fin.reduceFinMk] at hc <;> rw [hc] <;> simp
  have hv : ∀ i, vdivs u (nan : Ext K) i = nan := by
    intro i
    show u i / nan = nan
    simp
  unfold uToThrustAngles
  simp only [hn, ZeroLaws.sqrt_nan, hv, neg_nan_ext, nan_pow_ext, nan_add_ext, ndiv, ZeroLaws.arctan2_nan]
  exact ⟨_, _, rfl⟩

/-- C111: the law then gives NaN angles -/
theorem C111_angles {A : LyapArgs (Ext K)} (h : KepSingular A.oe A.oeT) :
    ∃ o, lyapunovControlAngles (genDyn .keplerian).lyapFun A = .ok o ∧ o.alpha = nan ∧ o.psi = kepPsi A := by
  have hu : ∃ c, kepControl (kepPsi A) (kepGrad A) c = nan := by
    refine ⟨2, ?_⟩
    rcases C111_gradient h with h | h <;> simp [kepControl, h]
  obtain ⟨v, b, hu⟩ := angles_nan hu
  refine ⟨{ alpha := nan, beta := b, u := v, psi := kepPsi A, q := kepQ A,
            dqdt := dot3 (fun c => dot5 (kepGrad A) (kepPsi A c)) (vsmul A.f v) }, ?_, rfl, rfl⟩
  unfold lyapunovControlAngles
  simp only [genDyn, hu]
  rfl

/-- in a recorded step from such a state the throttle and the thrust are zero -/
theorem singular_ctl {E : Env (Ext K)} {s : LoopSt (Ext K)} {D : StepData (Ext K)} (h : RecStep E s D)
    (hd : E.cfg.dyn = genDyn .keplerian) {oeT : Fin 5 → Ext K} (hT : asVec5 E.prob.oeT = .ok oeT)
    (hs : KepSingular D.s1.oe oeT) :
    D.c.throttle = 0 ∧ D.c.u = zero3 ∧ ∃ accel, D.c.psi = kepPsi (lyapArgs E.cfg E.prob oeT accel D.s1.oe) := by
  obtain ⟨o, hv, hlaw, hpsi, -, -, hk⟩ := control_ctl h.ctl
  have hcT : D.c.oeT = oeT := by rw [hv] at hT; exact Except.ok.inj hT
  rw [hcT] at hlaw
  unfold lawAt at hlaw
  rw [hd] at hlaw
  obtain ⟨o', ho', ha, hp⟩ := C111_angles (A := lyapArgs E.cfg E.prob oeT (accelOf E D.s1 D.d) D.s1.oe) hs
  rw [ho'] at hlaw
  have : o = o' := (Except.ok.inj hlaw).symm
  subst this
  have hnan : (PyNan.isnan o.alpha || PyNan.isnan o.beta) = true := by rw [ha]; rfl
  refine ⟨?_, ?_, _, by rw [hpsi, hp]⟩
  all_goals
    cases hk with
    | off => assumption
    | nan => assumption
    | free _ hn => rw [hnan] at hn; cases hn
    | gated _ _ _ hn => rw [hnan] at hn; cases hn

/-- C111: in every completed run of a Keplerian object, a step recorded from such a state has throttle
zero -/
theorem C111_coast {Q Q' : QLaw (Ext K)} {etaA etaR : EtaArg (Ext K)} {fuel : ℕ} {P : Problem (Ext K)}
    {H : Hist (Ext K)} (hs : Q.solve etaA etaR fuel = some (Q', none)) (hP : Q.prob = some P)
    (hH : Q'.hist = some H) (hd : Q.cfg.dyn = genDyn .keplerian) {oeT : Fin 5 → Ext K}
    (hT : asVec5 P.oeT = .ok oeT) {k : ℕ} {y : Fin 6 → Ext K} (hy : H.states[k]? = some y)
    {c : Ext K × Ext K × ℕ} (hc : H.controls[k]? = some c) (h : KepSingular y oeT) : c.2.2 = 0 := by
  obtain ⟨n, tr, D, r, hr, -, v⟩ := solve_view hs hP hH
  rw [v.controls, List.getElem?_map] at hc
  have hkn : k < n := by
    by_contra hk
    rw [List.getElem?_eq_none (by simp; omega)] at hc
    simp at hc
  rw [List.getElem?_range hkn] at hc
  simp only [Option.map_some, Option.some.injEq] at hc
  subst hc
  have hy' : H.states.dropLast[k]? = some y := by
    rw [List.getElem?_dropLast]
    simp only [show k < H.states.length - 1 by rw [v.statesLen]; omega, if_true]
    exact hy
  rw [v.statesInit, List.getElem?_map, List.getElem?_range hkn] at hy'
  simp only [Option.map_some, Option.some.injEq] at hy'
  subst hy'
  exact (singular_ctl (v.trace.step k hkn) hd hT h).1

/-! ## the whole run -/

/-- sines and cosines of finite numbers are finite -/
class TrigFinite (K : Type) [PyTrans (Ext K)] : Prop where
  sin_fin : ∀ x : K, ∃ y, PyTrans.sin (fin x : Ext K) = fin y
  cos_fin : ∀ x : K, ∃ y, PyTrans.cos (fin x : Ext K) = fin y

/-- not NaN and not infinite -/
def IsFin (x : Ext K) : Prop := ∃ a, x = fin a

namespace IsFin
variable {x y : Ext K}
omit [PyTrans (Ext K)] [PyLog (Ext K)] [ZeroLaws K]
theorem add (hx : IsFin x) (hy : IsFin y) : IsFin (x + y) := by
  obtain ⟨a, rfl⟩ := hx; obtain ⟨b, rfl⟩ := hy; exact ⟨a + b, rfl⟩
theorem sub (hx : IsFin x) (hy : IsFin y) : IsFin (x - y) := by
  obtain ⟨a, rfl⟩ := hx; obtain ⟨b, rfl⟩ := hy; exact ⟨a - b, fin_sub a b⟩
theorem mul (hx : IsFin x) (hy : IsFin y) : IsFin (x * y) := by
  obtain ⟨a, rfl⟩ := hx; obtain ⟨b, rfl⟩ := hy; exact ⟨a * b, rfl⟩
theorem neg (hx : IsFin x) : IsFin (-x) := by
  obtain ⟨a, rfl⟩ := hx; exact ⟨-a, rfl⟩
theorem pow (hx : IsFin x) (n : ℕ) : IsFin (x ^ n) := by
  induction n with
  | zero => exact ⟨1, rfl⟩
  | succ n ih => exact ih.mul hx
theorem nat (n : ℕ) : IsFin ((n : ℕ) : Ext K) := ⟨n, rfl⟩
theorem div (hx : IsFin x) (hy : IsFin y) (h : y ≠ fin 0) : IsFin (x / y) := by
  obtain ⟨a, rfl⟩ := hx; obtain ⟨b, rfl⟩ := hy
  have hb : b ≠ 0 := fun h0 => h (by rw [h0])
  exact ⟨a / b, fin_div a b hb⟩
theorem rat (p : ℕ) {q : ℕ} (hq : q ≠ 0) : IsFin (PyQ.rat p q : Ext K) := by
  refine (nat p).div (nat q) ?_
  intro h
  have : (fin ((q : ℕ) : K) : Ext K) = fin 0 := h
  injection this with this
  exact hq (by exact_mod_cast this)
theorem mul_zero (hx : IsFin x) : x * fin 0 = fin 0 := by
  obtain ⟨a, rfl⟩ := hx; simp
theorem mul_ne (hx : IsFin x) (hy : IsFin y) (h : x * y ≠ fin 0) : x ≠ fin 0 ∧ y ≠ fin 0 := by
  obtain ⟨a, rfl⟩ := hx; obtain ⟨b, rfl⟩ := hy
  constructor <;> (intro h'; injection h' with h'; subst h'; exact h (by simp))
end IsFin

variable [TrigFinite K]

omit [PyLog (Ext K)] [ZeroLaws K] in
theorem isFin_sin {x : Ext K} (h : IsFin x) : IsFin (sin x) := by
  obtain ⟨a, rfl⟩ := h; exact TrigFinite.sin_fin a
omit [PyLog (Ext K)] [ZeroLaws K] in
theorem isFin_cos {x : Ext K} (h : IsFin x) : IsFin (cos x) := by
  obtain ⟨a, rfl⟩ := h; exact TrigFinite.cos_fin a

omit [IsStrictOrderedRing K] [PyTrans (Ext K)] [PyLog (Ext K)] [ZeroLaws K] [TrigFinite K] in
theorem ndiv_ok_ext {x y z : Ext K} (h : ndiv x y = .ok z) : z = x / y ∧ y ≠ fin 0 := by
  unfold ndiv at h
  split at h
  · cases h
  · rename_i hy
    refine ⟨(Except.ok.inj h).symm, ?_⟩
    rintro rfl
    apply hy
    show Ext.eqb (fin 0) (fin ((0 : ℕ) : K)) = true
    simp [Ext.eqb]

/-- the elements of a frozen orbit: the slow ones given, the anomaly finite -/
def Kept (y0 y : Fin 6 → Ext K) : Prop := (∀ i : Fin 5, y i.castSucc = y0 i.castSucc) ∧ IsFin (y 5)

/-- rates that move only the anomaly -/
def OnlyAnomaly (k : Fin 6 → Ext K) : Prop := (∀ i : Fin 5, k i.castSucc = fin 0) ∧ IsFin (k 5)

section
omit [PyTrans (Ext K)] [PyLog (Ext K)] [ZeroLaws K] [TrigFinite K]
variable {y0 y k k' : Fin 6 → Ext K} {c : Ext K}

theorem Kept.add (h0 : ∀ i, IsFin (y0 i)) (hy : Kept y0 y) (hk : OnlyAnomaly k) : Kept y0 (vadd y k) := by
  refine ⟨fun i => ?_, hy.2.add hk.2⟩
  show y i.castSucc + k i.castSucc = _
  obtain ⟨a, ha⟩ := h0 i.castSucc
  rw [hy.1, hk.1, ha]
  simp
theorem Kept.sub (h0 : ∀ i, IsFin (y0 i)) (hy : Kept y0 y) (hk : OnlyAnomaly k) : Kept y0 (vsub y k) := by
  refine ⟨fun i => ?_, hy.2.sub hk.2⟩
  show y i.castSucc - k i.castSucc = _
  obtain ⟨a, ha⟩ := h0 i.castSucc
  rw [hy.1, hk.1, ha]
  simp
theorem OnlyAnomaly.smul (hk : OnlyAnomaly k) (hc : IsFin c) : OnlyAnomaly (vsmul c k) := by
  refine ⟨fun i => ?_, hc.mul hk.2⟩
  show c * k i.castSucc = _
  rw [hk.1, hc.mul_zero]
theorem OnlyAnomaly.add (hk : OnlyAnomaly k) (hk' : OnlyAnomaly k') : OnlyAnomaly (vadd k k') := by
  refine ⟨fun i => ?_, hk.2.add hk'.2⟩
  show k i.castSucc + k' i.castSucc = _
  rw [hk.1, hk'.1]
  simp
end

/-- a frozen orbit: finite elements, finite angular momentum, inclined -/
structure Orbit (mu : Ext K) (y0 : Fin 6 → Ext K) : Prop where
  muFin : IsFin mu
  el : ∀ i, IsFin (y0 i)
  mom : IsFin (sqrt (y0 0 * mu * (((1 : ℕ) : Ext K) - y0 1 ^ 2)))
  inc : sin (y0 2) ≠ fin 0

section
variable {mu : Ext K} {y0 y : Fin 6 → Ext K} {t : Ext K} {k : Fin 6 → Ext K}
omit [PyLog (Ext K)] [ZeroLaws K]

/-- what a successful evaluation of the equations of motion says about the divisors -/
theorem eomKep_ok {P : OdeParams (Ext K)} (h : eomKepGauss t y P = .ok k) :
    let hh := sqrt (y 0 * P.mu * (((1 : ℕ) : Ext K) - y 1 ^ 2))
    let p := y 0 * (((1 : ℕ) : Ext K) - y 1 ^ 2)
    let r := hh ^ 2 / (P.mu * (((1 : ℕ) : Ext K) + y 1 * cos (y 5)))
    P.mu * (((1 : ℕ) : Ext K) + y 1 * cos (y 5)) ≠ fin 0 ∧ y 1 * hh ≠ fin 0 ∧ r ^ 2 ≠ fin 0 ∧
    k = gaussCombine P ![p * cos (y 5) / (y 1 * hh), -(p + r) * sin (y 5) / (y 1 * hh), ((0 : ℕ) : Ext K)]
      (hh / r ^ 2) := by
  intro hh p r
  unfold eomKepGauss at h
  cases h1 : ndiv (sqrt (y 0 * P.mu * (((1 : ℕ) : Ext K) - y 1 ^ 2)) ^ 2)
      (P.mu * (((1 : ℕ) : Ext K) + y 1 * cos (y 5))) with
  | error e => simp only [h1, Bind.bind, Except.bind] at h; cases h
  | ok r' =>
    obtain ⟨hr, n1⟩ := ndiv_ok_ext h1
    have hr : r' = r := hr
    subst hr
    simp only [h1, Bind.bind, Except.bind] at h
    cases h2 : ndiv (p * cos (y 5)) (y 1 * hh) with
    | error e => simp only [p, hh] at h2; simp only [h2] at h; cases h
    | ok c0 =>
      obtain ⟨e2, n2⟩ := ndiv_ok_ext h2
      cases h3 : ndiv (-(p + r) * sin (y 5)) (y 1 * hh) with
      | error e => simp only [p, hh] at h2 h3; simp only [h2, h3] at h; cases h
      | ok c1 =>
        obtain ⟨e3, -⟩ := ndiv_ok_ext h3
        cases h4 : ndiv hh (r ^ 2) with
        | error e => simp only [p, hh] at h2 h3 h4; simp only [h2, h3, h4] at h; cases h
        | ok c2 =>
          obtain ⟨e4, n4⟩ := ndiv_ok_ext h4
          refine ⟨n1, n2, n4, ?_⟩
          simp only [p, hh] at h2 h3 h4
          simp only [h2, h3, h4, pure, Except.pure] at h
          rw [← Except.ok.inj h, e2, e3, e4]

variable (O : Orbit mu y0) (hy : Kept y0 y)

theorem Kept.fin_el (O : Orbit mu y0) (hy : Kept y0 y) (i : Fin 6) : IsFin (y i) := by
  refine Fin.lastCases ?_ (fun j => ?_) i
  · exact hy.2
  · rw [hy.1]; exact O.el _

theorem Kept.mom (O : Orbit mu y0) (hy : Kept y0 y) :
    IsFin (sqrt (y 0 * mu * (((1 : ℕ) : Ext K) - y 1 ^ 2))) := by
  have h0 : y 0 = y0 0 := hy.1 0
  have h1 : y 1 = y0 1 := hy.1 1
  rw [h0, h1]; exact O.mom

omit [TrigFinite K] in
theorem dot3_zero {a b c : Ext K} (ha : IsFin a) (hb : IsFin b) (hc : IsFin c) :
    dot3 ![a, b, c] (vadd zero3 zero3) = fin 0 := by
  obtain ⟨a, rfl⟩ := ha; obtain ⟨b, rfl⟩ := hb; obtain ⟨c, rfl⟩ := hc
  simp [dot3, vadd, zero3]

/-- without thrust and perturbation only the anomaly moves -/
theorem eomKep_frozen {P : OdeParams (Ext K)} (O : Orbit mu y0) (hy : Kept y0 y) (hmu : P.mu = mu)
    (hu : P.u = zero3) (hp : P.ptrb = zero3)
    (h0 : ∀ j, IsFin (P.psi0 j)) (h1 : ∀ j, IsFin (P.psi1 j)) (h2 : ∀ j, IsFin (P.psi2 j))
    (h : eomKepGauss t y P = .ok k) : OnlyAnomaly k := by
  obtain ⟨n1, n2, n3, rfl⟩ := eomKep_ok h
  subst hmu
  have e0 := hy.fin_el O 0
  have e1 := hy.fin_el O 1
  have e5 := hy.fin_el O 5
  have m := hy.mom O
  have one := IsFin.nat (K := K) 1
  have hw := (one.sub (e1.pow 2))
  have hp' := e0.mul hw
  have hr := (m.pow 2).div (O.muFin.mul (one.add (e1.mul (isFin_cos e5)))) n1
  constructor
  · intro i
    have : ∀ j, dot3 ![P.psi0 j, P.psi1 j, P.psi2 j] (vadd P.u P.ptrb) + ((0 : ℕ) : Ext K) = fin 0 := by
      intro j
      rw [hu, hp, dot3_zero (h0 j) (h1 j) (h2 j)]
      simp
    fin_cases i <;> exact this _
  · show IsFin (dot3 _ (vadd P.u P.ptrb) + _)
    rw [hu, hp, dot3_zero ((hp'.mul (isFin_cos e5)).div (e1.mul m) n2)
      (((hp'.add hr).neg.mul (isFin_sin e5)).div (e1.mul m) n2) (IsFin.nat 0)]
    exact IsFin.add ⟨0, rfl⟩ (m.div (hr.pow 2) n3)

/-- there the influence matrix of the law is finite -/
theorem kepPsi_fin {A : LyapArgs (Ext K)} {P : OdeParams (Ext K)} (O : Orbit mu y0) (hy : Kept y0 y)
    (hmu : P.mu = mu) (hA : A.mu = mu) (hoe : A.oe = y) (h : eomKepGauss t y P = .ok k) (c : Fin 3) (j : Fin 5) :
    IsFin (kepPsi A c j) := by
  obtain ⟨n1, n2, n3, -⟩ := eomKep_ok h
  subst hmu
  subst hoe
  have e0 := hy.fin_el O 0
  have e1 := hy.fin_el O 1
  have e2 := hy.fin_el O 2
  have e4 := hy.fin_el O 4
  have e5 := hy.fin_el O 5
  have m := hy.mom O
  have one := IsFin.nat (K := K) 1
  have two := IsFin.nat (K := K) 2
  have zero := IsFin.nat (K := K) 0
  have hw := (one.sub (e1.pow 2))
  have hp := e0.mul hw
  have hr := (m.pow 2).div (O.muFin.mul (one.add (e1.mul (isFin_cos e5)))) n1
  obtain ⟨-, nm⟩ := e1.mul_ne m n2
  have nr := ((hr.pow 1).mul_ne hr n3).2
  have ni : sin (A.oe 2) ≠ fin 0 := by rw [show A.oe 2 = y0 2 from hy.1 2]; exact O.inc
  have si := isFin_sin e2
  have nhi : sqrt (A.oe 0 * P.mu * (((1 : ℕ) : Ext K) - A.oe 1 ^ 2)) * sin (A.oe 2) ≠ fin 0 := by
    obtain ⟨a, ha⟩ := m
    obtain ⟨b, hb⟩ := si
    rw [ha] at nm
    rw [hb] at ni
    rw [ha, hb]
    intro h'
    have : a * b = 0 := by injection h'
    rcases mul_eq_zero.1 this with h | h
    · exact nm (by rw [h])
    · exact ni (by rw [h])
  have s5 := isFin_sin e5
  have c5 := isFin_cos e5
  have s45 := isFin_sin (e5.add e4)
  have c45 := isFin_cos (e5.add e4)
  have q := (two.mul (e0.pow 2)).div m nm
  unfold kepPsi
  rw [hA]
  fin_cases c <;> fin_cases j
  · exact (q.mul e1).mul s5
  · exact (hp.div m nm).mul s5
  · exact zero
  · exact zero
  · exact (hp.neg.div (e1.mul m) n2).mul c5
  · exact (q.mul hp).div hr nr
  · exact (((hp.add hr).mul c5).add (hr.mul e1)).div m nm
  · exact zero
  · exact zero
  · exact ((hp.add hr).mul s5).div (e1.mul m) n2
  · exact zero
  · exact zero
  · exact (hr.mul c45).div m nm
  · exact (hr.mul s45).div (m.mul si) nhi
  · exact ((hr.neg.mul s45).mul (isFin_cos e2)).div (m.mul si) nhi

end

section
variable {mu : Ext K} {y0 y y' : Fin 6 → Ext K} {t h tol h' : Ext K} {P : OdeParams (Ext K)}
omit [PyLog (Ext K)] [ZeroLaws K]

theorem rk4_frozen (O : Orbit mu y0) (hy : Kept y0 y) (hh : IsFin h)
    (F : ∀ t y k, Kept y0 y → eomKepGauss t y P = .ok k → OnlyAnomaly k)
    (h1 : rk4 eomKepGauss t h y P = .ok y') : Kept y0 y' := by
  have half := IsFin.rat (K := K) 1 (q := 2) (by norm_num)
  have two := IsFin.nat (K := K) 2
  unfold rk4 at h1
  cases e1 : eomKepGauss t y P with
  | error e => simp only [e1, Bind.bind, Except.bind] at h1; cases h1
  | ok k1 =>
    have g1 := F _ _ _ hy e1
    have y1 := hy.add O.el (g1.smul (hh.mul half))
    simp only [e1, Bind.bind, Except.bind] at h1
    cases e2 : eomKepGauss (t + PyQ.rat 1 2 * h) (vadd y (vsmul (h * PyQ.rat 1 2) k1)) P with
    | error e => simp only [e2] at h1; cases h1
    | ok k2 =>
      have g2 := F _ _ _ y1 e2
      have y2 := hy.add O.el (g2.smul (hh.mul half))
      simp only [e2] at h1
      cases e3 : eomKepGauss (t + PyQ.rat 1 2 * h) (vadd y (vsmul (h * PyQ.rat 1 2) k2)) P with
      | error e => simp only [e3] at h1; cases h1
      | ok k3 =>
        have g3 := F _ _ _ y2 e3
        have y3 := hy.add O.el (g3.smul hh)
        simp only [e3] at h1
        cases e4 : eomKepGauss (t + h) (vadd y (vsmul h k3)) P with
        | error e => simp only [e4] at h1; cases h1
        | ok k4 =>
          have g4 := F _ _ _ y3 e4
          simp only [e4, pure, Except.pure] at h1
          rw [← Except.ok.inj h1]
          refine hy.add O.el ((((g1.add (g2.smul two)).add (g3.smul two)).add g4).smul ?_)
          refine hh.div (IsFin.nat 6) ?_
          intro h0
          have : ((6 : ℕ) : K) = 0 := by injection h0
          norm_num at this

theorem rkf45_frozen (O : Orbit mu y0) (hy : Kept y0 y) (hh : IsFin h)
    (F : ∀ t y k, Kept y0 y → eomKepGauss t y P = .ok k → OnlyAnomaly k)
    (h1 : rkf45 eomKepGauss t h y P tol = .ok (y', h')) : Kept y0 y' := by
  have R : ∀ (p : ℕ) {q : ℕ}, q ≠ 0 → IsFin (PyQ.rat p q : Ext K) := fun p _ hq => IsFin.rat p hq
  have a := O.el
  unfold rkf45 at h1
  cases e1 : eomKepGauss t y P with
  | error e => simp only [e1, Bind.bind, Except.bind] at h1; cases h1
  | ok k1 =>
    have g1 := (F _ _ _ hy e1).smul hh
    have y1 := hy.add a (g1.smul ((R 1 (q := 4) (by norm_num)).mul hh))
    simp only [e1, Bind.bind, Except.bind] at h1
    split at h1
    · cases h1
    · rename_i k2 e2
      have g2 := (F _ _ _ y1 e2).smul hh
      have y2 := (hy.add a (g1.smul ((R 3 (q := 32) (by norm_num)).mul hh))).add a
        (g2.smul ((R 9 (q := 32) (by norm_num)).mul hh))
      split at h1
      · cases h1
      · rename_i k3 e3
        have g3 := (F _ _ _ y2 e3).smul hh
        have y3 := ((hy.add a (g1.smul ((R 1932 (q := 2197) (by norm_num)).mul hh))).sub a
          (g2.smul ((R 7200 (q := 2197) (by norm_num)).mul hh))).add a
          (g3.smul ((R 7296 (q := 2197) (by norm_num)).mul hh))
        split at h1
        · cases h1
        · rename_i k4 e4
          have g4 := (F _ _ _ y3 e4).smul hh
          have y4 := (((hy.add a (g1.smul ((R 439 (q := 216) (by norm_num)).mul hh))).sub a
            (g2.smul ((IsFin.nat 8).mul hh))).add a
            (g3.smul ((R 3680 (q := 513) (by norm_num)).mul hh))).sub a
            (g4.smul ((R 845 (q := 4104) (by norm_num)).mul hh))
          split at h1
          · cases h1
          · rename_i k5 e5
            have g5 := (F _ _ _ y4 e5).smul hh
            split at h1
            · cases h1
            · split at h1
              · cases h1
              · have := Except.ok.inj h1
                rw [← show _ = y' from congrArg Prod.fst this]
                exact (((hy.add a (g1.smul (R 25 (q := 216) (by norm_num)))).add a
                  (g3.smul (R 1408 (q := 2565) (by norm_num)))).add a
                  (g4.smul (R 2197 (q := 4101) (by norm_num)))).sub a (g5.smul (R 1 (q := 5) (by norm_num)))
end

/-- a Keplerian problem that starts, inside the bounds, from a singular state of the law -/
structure FrozenStart (C : Config (Ext K)) (P : Problem (Ext K)) (oeT : Fin 5 → Ext K) : Prop where
  elements : C.elementsType = .keplerian
  dyn : C.dyn = genDyn .keplerian
  ptrb : C.perturbations = none
  orbit : Orbit C.mu P.oe0
  target : asVec5 P.oeT = .ok oeT
  singular : KepSingular P.oe0 oeT
  bounds : ∃ l u : Fin 5 → Ext K, BoundsAre C.oeMin l ∧ BoundsAre C.oeMax u ∧
    ∀ i : Fin 5, PyOrd.le (l i) (P.oe0 i.castSucc) = true ∧ PyOrd.le (P.oe0 i.castSucc) (u i) = true

theorem frozen_trace {E : Env (Ext K)} {n : ℕ} {tr : ℕ → LoopSt (Ext K)} {D : ℕ → StepData (Ext K)}
    (hT : IsTrace E n tr D) {oeT : Fin 5 → Ext K} (hF : FrozenStart E.cfg E.prob oeT)
    (ht : ∀ k ≤ n, IsFin (tr k).t) :
    ∀ k ≤ n, Kept E.prob.oe0 (tr k).oe ∧ (tr k).mass = E.prob.mass0 ∧
      (k < n → (D k).c.throttle = 0 ∧ (D k).s1.oe = (tr k).oe) := by
  obtain ⟨l, u, hl, hu, hb⟩ := hF.bounds
  have hlu : ∀ i, PyOrd.le (l i) (u i) = true := fun i => OrdLaws.le_trans _ _ _ (hb i).1 (hb i).2
  have clamp : ∀ k, k < n → Kept E.prob.oe0 (tr k).oe →
      (D k).s1.oe = (tr k).oe ∧ (D k).s1.t = (tr k).t ∧ (D k).s1.mass = (tr k).mass := by
    intro k hk h
    rcases clamp_cases (hT.step k hk).clamp with ⟨he, -⟩ | ⟨-, oe, ho, hs⟩
    · rw [hF.elements] at he; cases he
    · obtain ⟨x, hx, -, hin⟩ := C36_elements_safety_exact (oe := (tr k).oe) hl hu hlu
      rw [ho] at hx
      have e : oe = x := Except.ok.inj hx
      subst e
      rw [hs]
      refine ⟨hin ?_, rfl, rfl⟩
      intro i
      rw [h.1]; exact hb i
  have throttle : ∀ k, k < n → Kept E.prob.oe0 (tr k).oe → (D k).c.throttle = 0 ∧ (D k).c.u = zero3 ∧
      ∃ accel, (D k).c.psi = kepPsi (lyapArgs E.cfg E.prob oeT accel (D k).s1.oe) := by
    intro k hk h
    refine singular_ctl (hT.step k hk) hF.dyn hF.target ?_
    rw [(clamp k hk h).1]
    have e3 : (tr k).oe 3 = E.prob.oe0 3 := h.1 3
    have e4 : (tr k).oe 4 = E.prob.oe0 4 := h.1 4
    have := hF.singular
    unfold KepSingular at this ⊢
    rw [e3, e4]; exact this
  intro k
  induction k with
  | zero =>
    intro hk
    have h0 : Kept E.prob.oe0 (tr 0).oe := by
      rw [hT.init]
      exact ⟨fun i => rfl, hF.orbit.el 5⟩
    refine ⟨h0, by rw [hT.init]; rfl, fun hk => ⟨(throttle 0 hk h0).1, (clamp 0 hk h0).1⟩⟩
  | succ k ih =>
    intro hk
    obtain ⟨h, hm, -⟩ := ih (by omega)
    have hkn : k < n := by omega
    obtain ⟨c1, c2, c3⟩ := clamp k hkn h
    obtain ⟨t0, u0, accel, hpsi⟩ := throttle k hkn h
    have hs := hT.succ_eq hkn
    have hmass : (tr (k + 1)).mass = E.prob.mass0 := by
      rw [hs]
      show (if (D k).c.throttle = 1 then _ else (D k).s1.mass) = _
      rw [t0]
      simp only [zero_ne_one, if_false]
      rw [c3, hm]
    have hstep : IsFin (D k).d.step := by
      have := ht (k + 1) hk
      rw [hs] at this
      obtain ⟨x, hx⟩ := this
      have hx : (D k).s1.t + (D k).d.step = fin x := hx
      cases hd : (D k).d.step with
      | fin a => exact ⟨a, rfl⟩
      | nan => rw [hd] at hx; simp at hx
      | pinf => rw [hd] at hx; cases ht : (D k).s1.t <;> rw [ht] at hx <;> cases hx
      | ninf => rw [hd] at hx; cases ht : (D k).s1.t <;> rw [ht] at hx <;> cases hx
    have hkept : Kept E.prob.oe0 (D k).s1.oe := by rw [c1]; exact h
    have hoe : Kept E.prob.oe0 (D k).oeNext := by
      have hp := (hT.step k hkn).prop
      unfold propagatePhase at hp
      simp only [hF.ptrb, hF.dyn, u0, pure_bind] at hp
      set PR : OdeParams (Ext K) := ⟨E.cfg.mu, zero3, (D k).c.psi 0, (D k).c.psi 1, (D k).c.psi 2, zero3⟩ with hPR
      have F1 : ∀ {k1}, eomKepGauss (D k).s1.t (D k).s1.oe PR = .ok k1 →
          ∀ t y k2, Kept E.prob.oe0 y → eomKepGauss t y PR = .ok k2 → OnlyAnomaly k2 := by
        intro k1 hk1 t y k2 hy hk2
        have hfin := fun c j => kepPsi_fin (A := lyapArgs E.cfg E.prob oeT accel (D k).s1.oe) hF.orbit hkept
          rfl rfl rfl hk1 c j
        rw [← hpsi] at hfin
        exact eomKep_frozen hF.orbit hy rfl rfl rfl (hfin 0) (hfin 1) (hfin 2) hk2
      cases e1 : eomKepGauss (D k).s1.t (D k).s1.oe PR with
      | error e =>
        exfalso
        cases hi : E.cfg.integrator with
        | rk4 =>
          simp only [hi, genDyn, rk4, e1, Bind.bind, Except.bind] at hp
          cases hp
        | rkf45 =>
          simp only [hi, genDyn, rkf45, e1, Bind.bind, Except.bind] at hp
          cases hp
      | ok k1 =>
        have F2 := F1 e1
        cases hi : E.cfg.integrator with
        | rk4 =>
          simp only [hi, genDyn] at hp
          cases e : rk4 eomKepGauss (D k).s1.t (D k).d.step (D k).s1.oe PR with
          | error e' => rw [e] at hp; cases hp
          | ok z =>
            have := rk4_frozen hF.orbit hkept hstep F2 e
            rw [e] at hp
            have hz := Except.ok.inj hp
            have : z = (D k).oeNext := congrArg Prod.fst hz
            rw [← this]
            assumption
        | rkf45 =>
          simp only [hi, genDyn] at hp
          cases e : rkf45 eomKepGauss (D k).s1.t (D k).d.step (D k).s1.oe PR E.cfg.odeTol with
          | error e' => rw [e] at hp; cases hp
          | ok z =>
            obtain ⟨z, hz'⟩ := z
            have := rkf45_frozen hF.orbit hkept hstep F2 e
            rw [e] at hp
            have hz := Except.ok.inj hp
            have : z = (D k).oeNext := congrArg Prod.fst hz
            rw [← this]
            assumption
    have h' : Kept E.prob.oe0 (tr (k + 1)).oe := by rw [hs]; exact hoe
    exact ⟨h', hmass, fun hk' => ⟨(throttle (k + 1) hk' h').1, (clamp (k + 1) hk' h').1⟩⟩

/-- C111: a run that starts from such a state, unperturbed, inside the bounds, never thrusts: every
recorded state has the initial slow elements, every throttle is zero and the mass does not change -/
theorem C111_frozen {Q Q' : QLaw (Ext K)} {etaA etaR : EtaArg (Ext K)} {fuel : ℕ} {P : Problem (Ext K)}
    {H : Hist (Ext K)} {oeT : Fin 5 → Ext K} (hs : Q.solve etaA etaR fuel = some (Q', none))
    (hP : Q.prob = some P) (hH : Q'.hist = some H) (hF : FrozenStart Q.cfg P oeT)
    (ht : ∀ t ∈ H.times, IsFin t) :
    (∀ y ∈ H.states, ∀ i : Fin 5, y i.castSucc = P.oe0 i.castSucc) ∧
    (∀ c ∈ H.controls, c.2.2 = 0) ∧ (∀ m ∈ H.masses, m = P.mass0) := by
  obtain ⟨n, tr, D, r, hr, hrH, v⟩ := solve_view hs hP hH
  have hT : ∀ k ≤ n, IsFin (tr k).t := by
    intro k hk
    refine ht _ ?_
    rw [v.times]
    exact List.mem_map.2 ⟨k, by simp; omega, rfl⟩
  have key := frozen_trace v.trace (oeT := oeT) hF hT
  refine ⟨?_, ?_, ?_⟩
  · intro y hy
    obtain ⟨k, hk⟩ := List.mem_iff_getElem?.1 hy
    obtain ⟨hkn, h⟩ := state_or_clamp hr hrH v hk
    obtain ⟨hkept, -, -⟩ := key k hkn
    rcases h with rfl | ⟨s1, hc, rfl⟩
    · exact hkept.1
    · obtain ⟨l, u, hl, hu, hb⟩ := hF.bounds
      have hlu : ∀ i, PyOrd.le (l i) (u i) = true := fun i => OrdLaws.le_trans _ _ _ (hb i).1 (hb i).2
      rcases clamp_cases hc with ⟨he, -⟩ | ⟨-, oe, ho, hs⟩
      · rw [hF.elements] at he; cases he
      · obtain ⟨x, hx, -, hin⟩ := C36_elements_safety_exact (oe := (tr k).oe) hl hu hlu
        rw [ho] at hx
        have e : oe = x := Except.ok.inj hx
        subst e
        have : oe = (tr k).oe := hin fun i => by rw [hkept.1]; exact hb i
        rw [hs]
        intro i
        show oe i.castSucc = _
        rw [this]; exact hkept.1 i
  · intro c hc
    rw [v.controls] at hc
    obtain ⟨k, hk, rfl⟩ := List.mem_map.1 hc
    have hkn : k < n := by simpa using hk
    exact ((key k hkn.le).2.2 hkn).1
  · intro m hm
    rw [v.masses] at hm
    obtain ⟨k, hk, rfl⟩ := List.mem_map.1 hm
    exact (key k (by simp at hk; omega)).2.1

/-- C111: such a run converges only if the initial elements already meet the tolerances, and it cannot run
out of mass unless it starts without -/
theorem C111_outcome {Q Q' : QLaw (Ext K)} {etaA etaR : EtaArg (Ext K)} {fuel : ℕ} {P : Problem (Ext K)}
    {H : Hist (Ext K)} {oeT : Fin 5 → Ext K} (hf : Q.Fresh) (hs : Q.solve etaA etaR fuel = some (Q', none))
    (hP : Q.prob = some P) (hH : Q'.hist = some H) (hF : FrozenStart Q.cfg P oeT)
    (ht : ∀ t ∈ H.times, IsFin t) :
    (Q'.exitcode = 1 → checkConvergenceKeplerian P.oe0 oeT P.woe Q.cfg.tolOe = true) ∧
    (Q'.exitcode = 2 → checkConvergenceKeplerian P.oe0 oeT P.woe Q.cfg.tolOeRelaxed = true) ∧
    (Q'.exitcode = -1 → PyOrd.le P.mass0 P.massMin = true) := by
  obtain ⟨hst, -, hm⟩ := C111_frozen hs hP hH hF ht
  have same : ∀ (y : Fin 6 → Ext K) (tol : Fin 5 → Ext K), (∀ i : Fin 5, y i.castSucc = P.oe0 i.castSucc) →
      Converged (envOf Q P etaA etaR) tol y = checkConvergenceKeplerian P.oe0 oeT P.woe tol := by
    intro y tol hy
    rw [converged_eq (E := envOf Q P etaA etaR) (oeT := oeT) hF.target]
    show Q.cfg.dyn.checkConv y oeT P.woe tol = _
    rw [hF.dyn]
    show checkConvergenceKeplerian y oeT P.woe tol = _
    have h0 : y 0 = P.oe0 0 := hy 0
    have h1 : y 1 = P.oe0 1 := hy 1
    have h2 : y 2 = P.oe0 2 := hy 2
    have h3 : y 3 = P.oe0 3 := hy 3
    have h4 : y 4 = P.oe0 4 := hy 4
    unfold checkConvergenceKeplerian
    rw [h0, h1, h2, h3, h4]
  refine ⟨fun h1 => ?_, fun h2 => ?_, fun h3 => ?_⟩
  · obtain ⟨P1, H1, n, hP1, hH1, -, hc, hl, -⟩ := C03_strict_convergence hf hs
    obtain rfl : P1 = P := by rw [hP] at hP1; exact (Option.some.inj hP1).symm
    obtain rfl : H1 = H := by rw [hH] at hH1; exact (Option.some.inj hH1).symm
    have hlast := hl (by rw [h1]; decide)
    rw [← same _ _ (hst _ (List.mem_of_getLast? hlast))]
    exact (hc.1 h1).2
  · obtain ⟨P1, H1, n, hP1, hH1, -, hlast, -, hc, -⟩ := C04_relaxed_convergence hf hs h2
    obtain rfl : P1 = P := by rw [hP] at hP1; exact (Option.some.inj hP1).symm
    obtain rfl : H1 = H := by rw [hH] at hH1; exact (Option.some.inj hH1).symm
    rw [← same _ _ (hst _ (List.mem_of_getLast? hlast))]
    exact hc
  · obtain ⟨P1, H1, n, hP1, hH1, -, ⟨m, hml, hle⟩, -⟩ := C05_mass_depleted hf hs h3
    obtain rfl : P1 = P := by rw [hP] at hP1; exact (Option.some.inj hP1).symm
    obtain rfl : H1 = H := by rw [hH] at hH1; exact (Option.some.inj hH1).symm
    rw [← hm m (List.mem_of_getLast? hml)]
    exact hle

namespace FrozenSample
open RatNum

/-- logarithm for the example: only its value type matters -/
instance : PyLog (Ext ℚ) := ⟨lift logQ⟩

instance : ZeroLaws ℚ where
  sqrt_zero := by decide +kernel
  sin_zero := by decide +kernel
  cos_zero := by decide +kernel
  sqrt_nan := rfl
  arctan2_nan := fun _ => rfl

instance : TrigFinite ℚ where
  sin_fin := fun _ => ⟨_, rfl⟩
  cos_fin := fun _ => ⟨_, rfl⟩

/-- Keplerian settings with the generated law and the default bounds -/
def cfg : Config (Ext ℚ) :=
  { Toy.cfg with
    elementsType := .keplerian
    dyn := genDyn .keplerian
    oeMin := [.fin (1 / 100), .fin (1 / 10000), .fin (1 / 10000), .ninf, .ninf]
    oeMax := [.fin 100, .fin 10, .fin 3, .pinf, .pinf]
    nanAnglesThreshold := 10 }

/-- raise an orbit whose node is already at its target -/
def prob : Problem (Ext ℚ) :=
  { Toy.prob with
    oe0 := ![.fin 1, .fin (1 / 10), .fin 1, .fin 2, .fin 1, .fin 0]
    oeT := [.fin 2, .fin (2 / 10), .fin (1 / 2), .fin 2, .fin (3 / 2)]
    tfMax := .fin (3 / 2) }

/-- a finite number -/
def finite? : Ext ℚ → Bool
  | .fin _ => true
  | _ => false

theorem isFin_of {x : Ext ℚ} (h : finite? x = true) : IsFin x := by
  cases x with
  | fin a => exact ⟨a, rfl⟩
  | nan => cases h
  | pinf => cases h
  | ninf => cases h

/-- the targets of `prob` -/
def tgt : Fin 5 → Ext ℚ := ![.fin 2, .fin (2 / 10), .fin (1 / 2), .fin 2, .fin (3 / 2)]

theorem start : FrozenStart cfg prob tgt where
  elements := rfl
  dyn := rfl
  ptrb := rfl
  orbit :=
    { muFin := ⟨1, rfl⟩
      el := by intro i; fin_cases i <;> exact ⟨_, rfl⟩
      mom := by
        have : finite? (sqrt (prob.oe0 0 * cfg.mu * (((1 : ℕ) : Ext ℚ) - prob.oe0 1 ^ 2))) = true := by decide +kernel
        exact isFin_of this
      inc := by decide +kernel }
  target := rfl
  singular := Or.inl (by refine ⟨2, ?_, ?_⟩ <;> rfl)
  bounds := by
    refine ⟨![.fin (1 / 100), .fin (1 / 10000), .fin (1 / 10000), .ninf, .ninf],
      ![.fin 100, .fin 10, .fin 3, .pinf, .pinf], ?_, ?_, ?_⟩
    · intro i; fin_cases i <;> rfl
    · intro i; fin_cases i <;> rfl
    · decide +kernel

/-- the run coasts until it runs out of time -/
example : ∃ Q' H, (Toy.obj cfg prob).solve Toy.z Toy.z 10 = some (Q', none) ∧ Q'.hist = some H ∧
    Q'.exitcode = -2 ∧ H.controls.length = 3 ∧ (∀ t ∈ H.times, IsFin t) ∧
    (∀ y ∈ H.states, ∀ i : Fin 5, y i.castSucc = prob.oe0 i.castSucc) ∧ (∀ c ∈ H.controls, c.2.2 = 0) := by
  have h : (((Toy.obj cfg prob).solve Toy.z Toy.z 10).bind fun p => p.1.hist.map fun H =>
      (p.2, p.1.exitcode, H.controls.length, H.times.all finite?)) = some (none, -2, 3, true) := by decide +kernel
  rw [Option.bind_eq_some_iff] at h
  obtain ⟨⟨Q', e⟩, h1, h2⟩ := h
  rw [Option.map_eq_some_iff] at h2
  obtain ⟨H, h3, h4⟩ := h2
  simp only [Prod.mk.injEq] at h4
  obtain ⟨rfl, h5, h6, h7⟩ := h4
  have ht : ∀ t ∈ H.times, IsFin t := fun t ht => isFin_of (List.all_eq_true.1 h7 t ht)
  obtain ⟨a, b, -⟩ := C111_frozen h1 rfl h3 start ht
  exact ⟨Q', H, h1, h3, h5, h6, ht, a, b⟩
end FrozenSample

end PyQ
