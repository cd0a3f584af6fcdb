import Verif.Model.Diff
import Verif.Props.Convergence
import Verif.Props.Coast
import Verif.Props.Outcome
import Verif.Props.Duty
import Verif.Examples.Toy
import Verif.Proofs.View
import Mathlib.Tactic.FinCases

/-! # A state with NaN is never thrust on and never reported as converged (C132) -/

set_option linter.unusedSectionVars false
set_option maxRecDepth 100000

namespace PyQ
open PyTrans

/-- IEEE-754: NaN in, NaN out (not required of `**` with a general exponent, nor of `min` and `max`), and NaN
compares false -/
class NanLaws (α : Type) [Add α] [Sub α] [Mul α] [Div α] [Neg α] [Pow α ℕ] [PyTrans α] [PyOrd α] [PyNan α] :
    Prop where
  add_left : ∀ x y : α, PyNan.isnan x = true → PyNan.isnan (x + y) = true
  add_right : ∀ x y : α, PyNan.isnan y = true → PyNan.isnan (x + y) = true
  sub_left : ∀ x y : α, PyNan.isnan x = true → PyNan.isnan (x - y) = true
  sub_right : ∀ x y : α, PyNan.isnan y = true → PyNan.isnan (x - y) = true
  mul_left : ∀ x y : α, PyNan.isnan x = true → PyNan.isnan (x * y) = true
  mul_right : ∀ x y : α, PyNan.isnan y = true → PyNan.isnan (x * y) = true
  div_left : ∀ x y : α, PyNan.isnan x = true → PyNan.isnan (x / y) = true
  div_right : ∀ x y : α, PyNan.isnan y = true → PyNan.isnan (x / y) = true
  neg : ∀ x : α, PyNan.isnan x = true → PyNan.isnan (-x) = true
  pow : ∀ (x : α) (n : ℕ), PyNan.isnan x = true → PyNan.isnan (x ^ (n + 1)) = true
  sqrt : ∀ x : α, PyNan.isnan x = true → PyNan.isnan (PyTrans.sqrt x) = true
  sin : ∀ x : α, PyNan.isnan x = true → PyNan.isnan (PyTrans.sin x) = true
  cos : ∀ x : α, PyNan.isnan x = true → PyNan.isnan (PyTrans.cos x) = true
  arccos : ∀ x : α, PyNan.isnan x = true → PyNan.isnan (PyTrans.arccos x) = true
  arctan2 : ∀ x y : α, PyNan.isnan x = true → PyNan.isnan (PyTrans.arctan2 x y) = true
  abs : ∀ x : α, PyNan.isnan x = true → PyNan.isnan (PyOrd.abs x) = true
  eq_left : ∀ x y : α, PyNan.isnan x = true → PyOrd.eq x y = false
  le_left : ∀ x y : α, PyNan.isnan x = true → PyOrd.le x y = false
  lt_right : ∀ x y : α, PyNan.isnan y = true → PyOrd.lt x y = false

variable {α : Type} [Add α] [Sub α] [Mul α] [Div α] [Neg α] [NatCast α] [Pow α ℕ]
  [PyTrans α] [PyOrd α] [PyNan α]

/-- is NaN -/
abbrev IsNan (x : α) : Prop := PyNan.isnan x = true

namespace IsNan
variable [NanLaws α] {x : α}
theorem addl (h : IsNan x) (y : α) : IsNan (x + y) := NanLaws.add_left x y h
theorem addr (h : IsNan x) (y : α) : IsNan (y + x) := NanLaws.add_right y x h
theorem subl (h : IsNan x) (y : α) : IsNan (x - y) := NanLaws.sub_left x y h
theorem subr (h : IsNan x) (y : α) : IsNan (y - x) := NanLaws.sub_right y x h
theorem mull (h : IsNan x) (y : α) : IsNan (x * y) := NanLaws.mul_left x y h
theorem mulr (h : IsNan x) (y : α) : IsNan (y * x) := NanLaws.mul_right y x h
theorem divl (h : IsNan x) (y : α) : IsNan (x / y) := NanLaws.div_left x y h
theorem divr (h : IsNan x) (y : α) : IsNan (y / x) := NanLaws.div_right y x h
theorem neg (h : IsNan x) : IsNan (-x) := NanLaws.neg x h
theorem sq (h : IsNan x) : IsNan (x ^ 2) := NanLaws.pow x 1 h
theorem sqrt (h : IsNan x) : IsNan (PyTrans.sqrt x) := NanLaws.sqrt x h
theorem sin (h : IsNan x) : IsNan (PyTrans.sin x) := NanLaws.sin x h
theorem cos (h : IsNan x) : IsNan (PyTrans.cos x) := NanLaws.cos x h
end IsNan

variable [NanLaws α]

/-- the elements in which a NaN stays: with MEE all six; the first five Keplerian ones are replaced by a bound
at the next step, so only the true anomaly -/
def Stays (et : ElemType) (j : Fin 6) : Prop := et = .meeWithA ∨ j = 5

/-- a NaN component of the control makes the in-plane angle NaN -/
theorem angles_isnan {u : Fin 3 → α} (h : ∃ c, IsNan (u c)) :
    ∃ v a b, uToThrustAngles u = .ok (v, a, b) ∧ IsNan a := by
  have hn : IsNan (PyTrans.sqrt (u 0 ^ 2 + u 1 ^ 2 + u 2 ^ 2)) := by
    obtain ⟨c, hc⟩ := h
    fin_cases c
    · exact ((hc.sq.addl _).addl _).sqrt
    · exact ((hc.sq.addr _).addl _).sqrt
    · exact (hc.sq.addr _).sqrt
  have hv : ∀ i, IsNan (vdivs u (PyTrans.sqrt (u 0 ^ 2 + u 1 ^ 2 + u 2 ^ 2)) i) := fun i => hn.divr _
  have h0 := (((hv 0).sq).addl (vdivs u (PyTrans.sqrt (u 0 ^ 2 + u 1 ^ 2 + u 2 ^ 2)) 1 ^ 2)).sqrt
  unfold uToThrustAngles
  simp only [ndiv, NanLaws.eq_left _ _ h0, bind, Except.bind, pure, Except.pure]
  exact ⟨_, _, _, rfl, NanLaws.arctan2 _ _ (hv 0).neg⟩

variable [PyLog α]

/-- the Gauss matrix of the generated law -/
def psiOf (et : ElemType) (A : LyapArgs α) : Fin 3 → Fin 5 → α :=
  match et with
  | .keplerian => kepPsi A
  | .meeWithA => meePsi A

theorem gen_psi (et : ElemType) (A : LyapArgs α) : ((genDyn et).lyapFun A).psi = psiOf et A := by cases et <;> rfl

/-- a NaN in the state makes the control NaN -/
theorem control_isnan {et : ElemType} {A : LyapArgs α} {j : Fin 6} (hj : Stays et j) (h : IsNan (A.oe j)) :
    ∃ c, IsNan (((genDyn et).lyapFun A).uRaw c) := by
  cases et with
  | keplerian =>
    rcases hj with hj | rfl
    · cases hj
    refine ⟨0, ?_⟩
    have : IsNan (kepPsi A 0 0) := h.sin.mulr _
    exact ((this.mull _).addl _).addl _
  | meeWithA =>
    have key : ∀ c, IsNan (meePsi A 0 1) → c = 0 → IsNan (((genDyn .meeWithA).lyapFun A).uRaw c) := by
      intro c hc h0
      subst h0
      exact ((hc.mull _).addr _).addl _
    have key2 : ∀ c, IsNan (meePsi A 2 3) → c = 2 → IsNan (((genDyn .meeWithA).lyapFun A).uRaw c) := by
      intro c hc h0
      subst h0
      exact ((hc.mull _).addr _).addl _
    fin_cases j
    · exact ⟨0, key 0 ((((h.mull _).divl _).sqrt).mull _) rfl⟩
    · exact ⟨0, key 0 ((((((h.sq.subr _).subl _).mulr _).divl _).sqrt).mull _) rfl⟩
    · exact ⟨0, key 0 (((((h.sq.subr _).mulr _).divl _).sqrt).mull _) rfl⟩
    · exact ⟨2, key2 2 ((((h.sq.addr _).addl _).mulr _).mull _) rfl⟩
    · exact ⟨2, key2 2 (((h.sq.addr _).mulr _).mull _) rfl⟩
    · exact ⟨0, key 0 (h.sin.mulr _) rfl⟩

/-- a NaN in the fast variable makes every row of the Gauss matrix NaN -/
theorem psi_isnan {et : ElemType} {A : LyapArgs α} (h : IsNan (A.oe 5)) (i : Fin 5) : ∃ c, IsNan (psiOf et A c i) := by
  cases et with
  | keplerian =>
    fin_cases i
    · exact ⟨0, h.sin.mulr _⟩
    · exact ⟨0, h.sin.mulr _⟩
    · exact ⟨2, ((h.addl _).cos.mulr _).divl _⟩
    · exact ⟨2, ((h.addl _).sin.mulr _).divl _⟩
    · exact ⟨0, h.cos.mulr _⟩
  | meeWithA =>
    fin_cases i
    · exact ⟨0, (h.subl _).sin.mulr _⟩
    · exact ⟨0, h.sin.mulr _⟩
    · exact ⟨0, h.cos.mulr _⟩
    · exact ⟨2, h.cos.mulr _⟩
    · exact ⟨2, h.sin.mulr _⟩

omit [PyLog α] in
theorem rk4_isnan {P : Type} {rhs : α → (Fin 6 → α) → P → Except PyErr (Fin 6 → α)} {t h : α} {y z : Fin 6 → α} {p : P}
    (hz : rk4 rhs t h y p = .ok z) (j : Fin 6) :
    (IsNan (y j) → IsNan (z j)) ∧ ((∀ k, rhs t y p = .ok k → IsNan (k j)) → IsNan (z j)) := by
  unfold rk4 at hz
  simp only [bind, Except.bind, pure, Except.pure] at hz
  cases h1 : rhs t y p with
  | error e => rw [h1] at hz; cases hz
  | ok k1 =>
    rw [h1] at hz
    dsimp only at hz
    split at hz
    · cases hz
    split at hz
    · cases hz
    split at hz
    · cases hz
    injection hz with hz
    subst hz
    refine ⟨fun hy => hy.addl _, fun hk => ?_⟩
    have := hk k1 rfl
    exact ((((this.addl _).addl _).addl _).mulr _).addr _

omit [PyLog α] in
theorem rkf45_isnan {P : Type} {rhs : α → (Fin 6 → α) → P → Except PyErr (Fin 6 → α)} {t h tol hn : α}
    {y z : Fin 6 → α} {p : P}
    (hz : rkf45 rhs t h y p tol = .ok (z, hn)) (j : Fin 6) :
    (IsNan (y j) → IsNan (z j)) ∧ ((∀ k, rhs t y p = .ok k → IsNan (k j)) → IsNan (z j)) := by
  unfold rkf45 at hz
  simp only [bind, Except.bind, pure, Except.pure] at hz
  cases h1 : rhs t y p with
  | error e => rw [h1] at hz; cases hz
  | ok k1 =>
    rw [h1] at hz
    dsimp only at hz
    split at hz
    · cases hz
    split at hz
    · cases hz
    split at hz
    · cases hz
    split at hz
    · cases hz
    split at hz
    · cases hz
    split at hz
    · cases hz
    injection hz with hz
    have hz := congrArg Prod.fst hz
    dsimp only at hz
    subst hz
    refine ⟨fun hy => (((hy.addl _).addl _).addl _).subl _, fun hk => ?_⟩
    have := hk k1 rfl
    exact (((((this.mulr _).mulr _).addr _).addl _).addl _).subl _

omit [PyLog α] in
/-- an element with NaN keeps it through a step; and so does one whose row of the Gauss matrix is NaN -/
theorem propagate_isnan {E : Env α} {s : LoopSt α} {st hb : α} {c : Ctl α} {z : Fin 6 → α}
    (h : propagatePhase E s st c = .ok (z, hb)) (j : Fin 6) :
    (IsNan (s.oe j) → IsNan (z j)) ∧
    ((∀ (p : OdeParams α) k, p.psi0 = c.psi 0 → p.psi1 = c.psi 1 → p.psi2 = c.psi 2 →
      E.cfg.dyn.eom s.t s.oe p = .ok k → IsNan (k j)) → IsNan (z j)) := by
  have core4 : ∀ p : OdeParams α, p.psi0 = c.psi 0 → p.psi1 = c.psi 1 → p.psi2 = c.psi 2 →
      (∃ h', rk4 E.cfg.dyn.eom s.t h' s.oe p = .ok z) ∨ (∃ h' hn, rkf45 E.cfg.dyn.eom s.t h' s.oe p E.cfg.odeTol = .ok (z, hn)) →
      (IsNan (s.oe j) → IsNan (z j)) ∧
      ((∀ (p : OdeParams α) k, p.psi0 = c.psi 0 → p.psi1 = c.psi 1 → p.psi2 = c.psi 2 →
        E.cfg.dyn.eom s.t s.oe p = .ok k → IsNan (k j)) → IsNan (z j)) := by
    rintro p p0 p1 p2 (⟨h', hz⟩ | ⟨h', hn, hz⟩)
    · exact ⟨(rk4_isnan hz j).1, fun hk => (rk4_isnan hz j).2 fun k => hk _ k p0 p1 p2⟩
    · exact ⟨(rkf45_isnan hz j).1, fun hk => (rkf45_isnan hz j).2 fun k => hk _ k p0 p1 p2⟩
  unfold propagatePhase at h
  simp only [bind, Except.bind, pure, Except.pure] at h
  cases hI : E.cfg.integrator with
  | rk4 =>
    simp only [hI] at h
    split at h
    · split at h
      · cases h
      · split at h
        · cases h
        · next z' hz =>
          injection h with h
          have := congrArg Prod.fst h
          dsimp only at this
          subst this
          exact core4 _ rfl rfl rfl (Or.inl ⟨_, hz⟩)
    · split at h
      · cases h
      · next z' hz =>
        injection h with h
        have := congrArg Prod.fst h
        dsimp only at this
        subst this
        exact core4 _ rfl rfl rfl (Or.inl ⟨_, hz⟩)
  | rkf45 =>
    simp only [hI] at h
    split at h
    · split at h
      · cases h
      · split at h
        · cases h
        · next z' hz =>
          injection h with h
          have := congrArg Prod.fst h
          dsimp only at this
          subst this
          exact core4 _ rfl rfl rfl (Or.inr ⟨_, _, hz⟩)
    · split at h
      · cases h
      · next z' hz =>
        injection h with h
        have := congrArg Prod.fst h
        dsimp only at this
        subst this
        exact core4 _ rfl rfl rfl (Or.inr ⟨_, _, hz⟩)

omit [PyLog α] in
theorem combine_isnan {P : OdeParams α} {row : Fin 3 → α} {rate : α} {i : Fin 5}
    (h : IsNan (P.psi0 i) ∨ IsNan (P.psi1 i) ∨ IsNan (P.psi2 i)) : IsNan (gaussCombine P row rate i.castSucc) := by
  fin_cases i <;> rcases h with h | h | h <;> first
    | exact ((((h.mull _).addl _).addl _).addl _)
    | exact ((((h.mull _).addr _).addl _).addl _)
    | exact (((h.mull _).addr _).addl _)

omit [PyLog α] in
theorem eom_isnan {et : ElemType} {t : α} {y k : Fin 6 → α} {P : OdeParams α} {i : Fin 5} [PyLog α]
    (h : IsNan (P.psi0 i) ∨ IsNan (P.psi1 i) ∨ IsNan (P.psi2 i))
    (hk : (genDyn et).eom t y P = .ok k) : IsNan (k i.castSucc) := by
  cases et with
  | keplerian =>
    change eomKepGauss t y P = _ at hk
    unfold eomKepGauss at hk
    simp only [bind, Except.bind, pure, Except.pure] at hk
    repeat' (split at hk; · cases hk)
    injection hk with hk
    subst hk
    exact combine_isnan h
  | meeWithA =>
    change eomMeeWithAGauss t y P = _ at hk
    unfold eomMeeWithAGauss at hk
    simp only [bind, Except.bind, pure, Except.pure] at hk
    repeat' (split at hk; · cases hk)
    injection hk with hk
    subst hk
    exact combine_isnan h

/-- a recorded step from such a state: no thrust, and the NaN is still there -/
theorem step_isnan {E : Env α} {s : LoopSt α} {D : StepData α} (h : RecStep E s D)
    (hd : E.cfg.dyn = genDyn E.cfg.elementsType) {j : Fin 6} (hj : Stays E.cfg.elementsType j) (hs : IsNan (s.oe j)) :
    IsNan (D.s1.oe j) ∧ D.c.throttle = 0 ∧ (∃ o, lawAt E D.s1 D.d D.c.oeT = .ok o ∧ IsNan o.alpha) ∧
    IsNan (D.oeNext j) ∧ (j = 5 → ∀ i, IsNan (D.oeNext i)) := by
  have h1 : IsNan (D.s1.oe j) := by
    rcases clamp_cases h.clamp with ⟨-, h1⟩ | ⟨h1, oe, h2, h3⟩
    · rw [h1]; exact hs
    · rcases hj with hj | rfl
      · rw [h1] at hj; cases hj
      · rw [h3]
        show IsNan (oe 5)
        unfold elementsSafety at h2
        split at h2
        · injection h2 with h2; subst h2; exact hs
        · cases h2
  obtain ⟨o, hv, hlaw, hpsi, -, -, hk⟩ := control_ctl h.ctl
  have hl := hlaw
  unfold lawAt at hl
  rw [hd] at hl
  obtain ⟨v, a, b, hu, ha⟩ := angles_isnan (control_isnan (A := lyapArgs E.cfg E.prob D.c.oeT (accelOf E D.s1 D.d) D.s1.oe) hj h1)
  unfold lyapunovControlAngles at hl
  simp only [hu, bind, Except.bind, pure, Except.pure] at hl
  injection hl with hl
  have hoa : IsNan o.alpha := by rw [← hl]; exact ha
  have hop : o.psi = psiOf E.cfg.elementsType (lyapArgs E.cfg E.prob D.c.oeT (accelOf E D.s1 D.d) D.s1.oe) := by
    rw [← hl]; exact gen_psi _ _
  have hn : (PyNan.isnan o.alpha || PyNan.isnan o.beta) = true := by rw [hoa]; rfl
  refine ⟨h1, ?_, ⟨o, hlaw, hoa⟩, (propagate_isnan h.prop j).1 h1, ?_⟩
  · cases hk with
    | off => assumption
    | nan => assumption
    | free _ hn' => rw [hn] at hn'; cases hn'
    | gated _ _ _ hn' => rw [hn] at hn'; cases hn'
  · rintro rfl i
    induction i using Fin.lastCases with
    | last => exact (propagate_isnan h.prop 5).1 h1
    | cast i =>
      refine (propagate_isnan h.prop i.castSucc).2 fun p k p0 p1 p2 hk => ?_
      rw [hd] at hk
      refine eom_isnan ?_ hk
      rw [p0, p1, p2, hpsi, hop]
      obtain ⟨c, hc⟩ := psi_isnan (et := E.cfg.elementsType)
        (A := lyapArgs E.cfg E.prob D.c.oeT (accelOf E D.s1 D.d) D.s1.oe) h1 i
      fin_cases c
      · exact Or.inl hc
      · exact Or.inr (Or.inl hc)
      · exact Or.inr (Or.inr hc)

/-- from the first NaN on -/
theorem trace_isnan {E : Env α} {n : ℕ} {tr : ℕ → LoopSt α} {D : ℕ → StepData α} (hT : IsTrace E n tr D)
    (hd : E.cfg.dyn = genDyn E.cfg.elementsType) {j : Fin 6} (hj : Stays E.cfg.elementsType j) {k : ℕ}
    (hs : IsNan ((tr k).oe j)) : ∀ m, k ≤ m → m ≤ n → IsNan ((tr m).oe j) ∧ (tr m).mass = (tr k).mass := by
  intro m hk
  induction m, hk using Nat.le_induction with
  | base => intro _; exact ⟨hs, rfl⟩
  | succ m hm ih =>
    intro hmn
    obtain ⟨h1, h2⟩ := ih (by omega)
    have hr := hT.step m (by omega)
    obtain ⟨-, h3, -, h4, -⟩ := step_isnan hr hd hj h1
    rw [hT.succ_eq (by omega)]
    refine ⟨h4, ?_⟩
    show (if (D m).c.throttle = 1 then _ else (D m).s1.mass) = _
    rw [h3, clamp_mass hr.clamp]
    exact h2

/-- a NaN element with a weight is never within its tolerance -/
theorem check_isnan {et : ElemType} {oe : Fin 6 → α} {oeT woe tol : Fin 5 → α} {i : Fin 5}
    (h : IsNan (oe i.castSucc)) (hw : PyOrd.eq (woe i) ((0 : ℕ) : α) = false) :
    (genDyn et).checkConv oe oeT woe tol = false := by
  have flags : ∀ doe : Fin 5 → α, IsNan (doe i) → checkFlags doe woe tol = false := by
    intro doe hdoe
    rw [Bool.eq_false_iff]
    intro hc
    rcases (checkFlags_iff _ _ _).1 hc i with h1 | h1
    · rw [hw] at h1; cases h1
    · rw [NanLaws.le_left _ _ hdoe] at h1; cases h1
  cases et with
  | keplerian =>
    refine flags _ ?_
    fin_cases i
    · exact NanLaws.abs _ (h.subr _)
    · exact NanLaws.abs _ (h.subr _)
    · exact NanLaws.abs _ (h.subr _)
    · exact NanLaws.abs _ (NanLaws.arccos _ (h.subr _).cos)
    · exact NanLaws.abs _ (NanLaws.arccos _ (h.subr _).cos)
  | meeWithA => exact flags _ (NanLaws.abs _ (h.subr _))

omit [NanLaws α] [PyLog α] in
/-- the clamp does not touch an element in which a NaN stays -/
theorem clamp_stays {C : Config α} {s s1 : LoopSt α} (h : clampPhase C s = .ok s1) {j : Fin 6}
    (hj : Stays C.elementsType j) : s1.oe j = s.oe j := by
  rcases clamp_cases h with ⟨-, h1⟩ | ⟨h1, oe, h2, h3⟩
  · rw [h1]
  · rcases hj with hj | rfl
    · rw [h1] at hj; cases hj
    · rw [h3]
      show oe 5 = _
      unfold elementsSafety at h2
      split at h2
      · injection h2 with h2; subst h2; rfl
      · cases h2

omit [PyLog α] in
/-- the clamp replaces a NaN by the lower bound -/
theorem clamp_lower {C : Config α} {s s1 : LoopSt α} (h : clampPhase C s = .ok s1) (hE : C.elementsType = .keplerian)
    {i : Fin 5} (hn : IsNan (s.oe i.castSucc)) {lo hi : α} (hlo : C.oeMin[(i : ℕ)]? = some lo)
    (hhi : C.oeMax[(i : ℕ)]? = some hi) (hlh : PyOrd.lt hi lo = false) : s1.oe i.castSucc = lo := by
  have clampv : ∀ x : α, IsNan x → pymin (pymax lo x) hi = lo := by
    intro x hx
    unfold pymax pymin
    rw [NanLaws.lt_right _ _ hx]
    simp [hlh]
  rcases clamp_cases h with ⟨h3, -⟩ | ⟨-, oe, h3, h4⟩
  · rw [hE] at h3; cases h3
  rw [h4]
  change oe i.castSucc = lo
  unfold elementsSafety at h3
  split at h3
  · next e1 e2 =>
    injection h3 with h3
    subst h3
    rw [e1] at hlo
    rw [e2] at hhi
    fin_cases i <;> simp at hlo hhi <;> subst hlo <;> subst hhi <;> exact clampv _ hn
  · cases h3

section run
variable {Q Q' : QLaw α} {etaA etaR : EtaArg α} {fuel : ℕ} {P : Problem α} {H : Hist α}

/-- **C132.** In a completed run, once a NaN has been recorded in an element in which it stays, it stays
there, and the run never thrusts again. -/
theorem C132_no_thrust (hs : Q.solve etaA etaR fuel = some (Q', none)) (hP : Q.prob = some P) (hH : Q'.hist = some H)
    (hd : Q.cfg.dyn = genDyn Q.cfg.elementsType) {j : Fin 6} (hj : Stays Q.cfg.elementsType j)
    {k : ℕ} {y : Fin 6 → α} (hy : H.states[k]? = some y) (hn : IsNan (y j)) :
    (∀ m y', k ≤ m → H.states[m]? = some y' → IsNan (y' j)) ∧
    (∀ m c, k ≤ m → H.controls[m]? = some c → c.2.2 = 0) ∧
    (∀ m x, k ≤ m → H.masses[m]? = some x → H.masses[k]? = some x) := by
  obtain ⟨n, tr, D, r, hr, hrH, v⟩ := solve_view hs hP hH
  have back : ∀ m y', H.states[m]? = some y' → m ≤ n ∧ y' j = (tr m).oe j := by
    intro m y' hm
    obtain ⟨hmn, h⟩ := state_or_clamp hr hrH v hm
    refine ⟨hmn, ?_⟩
    rcases h with rfl | ⟨s1, hc, rfl⟩
    · rfl
    · exact clamp_stays hc hj
  obtain ⟨hkn, hyk⟩ := back k y hy
  rw [hyk] at hn
  have key := trace_isnan v.trace hd hj hn
  refine ⟨?_, ?_, ?_⟩
  · intro m y' hm hy'
    obtain ⟨hmn, h⟩ := back m y' hy'
    rw [h]; exact (key m hm hmn).1
  · intro m c hm hc
    obtain ⟨hmn, rfl⟩ := v.controls_lt hc
    exact (step_isnan (v.trace.step m hmn) hd hj (key m hm hmn.le).1).2.1
  · intro m x hm hx
    obtain ⟨hmn, rfl⟩ := v.masses_lt hx
    rw [v.masses_get hkn, (key m hm hmn).2]

/-- **C132, verdict.** Such a run does not report convergence: exit codes 1 and 2 need the NaN to be in an
element without weight, or (fast variable) in the very last state, or all weights to be zero. -/
theorem C132_verdict (hf : Q.Fresh) (hs : Q.solve etaA etaR fuel = some (Q', none)) (hP : Q.prob = some P)
    (hH : Q'.hist = some H) (hd : Q.cfg.dyn = genDyn Q.cfg.elementsType) {j : Fin 6}
    (hj : Stays Q.cfg.elementsType j) {k : ℕ} {y : Fin 6 → α} (hy : H.states[k]? = some y) (hn : IsNan (y j))
    (hc : Q'.exitcode = 1 ∨ Q'.exitcode = 2) :
    (∀ i : Fin 5, j = i.castSucc → PyOrd.eq (P.woe i) ((0 : ℕ) : α) = true) ∧
    (j = 5 → k + 1 = H.states.length ∨ ∀ i, PyOrd.eq (P.woe i) ((0 : ℕ) : α) = true) := by
  obtain ⟨n, tr, D, r, hr, hrH, v⟩ := solve_view hs hP hH
  obtain ⟨hkn, h⟩ := state_or_clamp hr hrH v hy
  have hn' : IsNan ((tr k).oe j) := by
    rcases h with rfl | ⟨s1, hc, rfl⟩
    · exact hn
    · rw [← clamp_stays hc hj]; exact hn
  have key := trace_isnan v.trace hd hj hn'
  -- the run ended because a check of the last state was met
  have conv : ∃ m tol, n = m + 1 ∧ (genDyn Q.cfg.elementsType).checkConv (tr n).oe (D m).c.oeT P.woe tol = true := by
    have hobj := hr.obj
    rw [hobj] at hc
    cases hr.ends with
    | timeout _ _ => rw [(finish_timeout Q P (tr n) hf.1 hf.2).1] at hc; rcases hc with hc | hc <;> cases hc
    | exit m c hm _ hi =>
      rw [(finish_exit Q P (tr n) c).1] at hc
      subst hm
      rcases brk_facts (v.trace.step m (Nat.lt_succ_self m)) hi with ⟨-, h1⟩ | ⟨-, -, h1, -⟩ | ⟨h1, -⟩
      · exact ⟨m, _, rfl, by rw [← hd]; exact h1⟩
      · exact ⟨m, _, rfl, by rw [← hd]; exact h1⟩
      · rw [h1] at hc; rcases hc with hc | hc <;> cases hc
    | nan s s1 st q _ _ _ _ _ _ _ => rw [(finish_exit Q P s (-3)).1] at hc; rcases hc with hc | hc <;> cases hc
    | raised s e => have := hr.err; simp [RunRes.error?] at this
  obtain ⟨m, tol, rfl, hconv⟩ := conv
  constructor
  · rintro i rfl
    by_contra hw
    rw [Bool.not_eq_true] at hw
    rw [check_isnan (key (m + 1) hkn le_rfl).1 hw] at hconv
    cases hconv
  · rintro rfl
    rw [v.statesLen]
    by_cases hkm : k = m + 1
    · left; omega
    right
    intro i
    by_contra hw
    rw [Bool.not_eq_true] at hw
    have h1 := (step_isnan (v.trace.step m (Nat.lt_succ_self m)) hd hj (key m (by omega) (by omega)).1).2.2.2.2 rfl i.castSucc
    have h2 : (tr (m + 1)).oe = (D m).oeNext := by rw [v.trace.succ_eq (Nat.lt_succ_self m)]; rfl
    rw [← h2] at h1
    rw [check_isnan h1 hw] at hconv
    cases hconv

/-- **C132, end.** From then on at most `nan_angles_threshold` steps with the thruster available follow. -/
theorem C132_ends (hs : Q.solve etaA etaR fuel = some (Q', none)) (hP : Q.prob = some P) (hH : Q'.hist = some H)
    (hd : Q.cfg.dyn = genDyn Q.cfg.elementsType) {j : Fin 6} (hj : Stays Q.cfg.elementsType j)
    {k : ℕ} {y : Fin 6 → α} (hy : H.states[k]? = some y) (hn : IsNan (y j)) :
    ((List.range H.controls.length).countP fun m => decide (k ≤ m) &&
      dutyOnAt (envOf Q P etaA etaR) ((envOf Q P etaA etaR).after m) : ℤ) ≤ max Q.cfg.nanAnglesThreshold 0 := by
  obtain ⟨n, tr, D, r, hr, hrH, v⟩ := solve_view hs hP hH
  obtain ⟨hkn, h⟩ := state_or_clamp hr hrH v hy
  have hn' : IsNan ((tr k).oe j) := by
    rcases h with rfl | ⟨s1, hc, rfl⟩
    · exact hn
    · rw [← clamp_stays hc hj]; exact hn
  have key := trace_isnan v.trace hd hj hn'
  classical
  have hcount := nNan_count (fun k => decide ((D k).d.duty = true ∧ ∃ o, lawAt (envOf Q P etaA etaR) (D k).s1 (D k).d (D k).c.oeT = .ok o ∧
      (PyNan.isnan o.alpha || PyNan.isnan o.beta) = true)) v.trace (fun k _ => by simp)
  refine le_trans ?_ (nNan_bound v.trace)
  rw [hcount, v.controls_length]
  refine Int.ofNat_le.2 (List.countP_mono_left ?_)
  intro m hm hmk
  have hmn := List.mem_range.1 hm
  rw [Bool.and_eq_true, decide_eq_true_eq, ← v.trace.after m hmn.le, dutyOnAt_rec (v.trace.step m hmn)] at hmk
  rw [decide_eq_true_eq]
  obtain ⟨-, -, ⟨o, h1, h2⟩, -⟩ := step_isnan (v.trace.step m hmn) hd hj (key m hmk.1 hmn.le).1
  exact ⟨hmk.2, o, h1, by rw [h2]; rfl⟩

/-- **C132, masked.** With Keplerian elements the record hides it: after a NaN true anomaly the five other
elements of every later state but the last are recorded as their lower bounds. -/
theorem C132_masked (hs : Q.solve etaA etaR fuel = some (Q', none)) (hP : Q.prob = some P) (hH : Q'.hist = some H)
    (hE : Q.cfg.elementsType = .keplerian) (hd : Q.cfg.dyn = genDyn .keplerian)
    {k : ℕ} {y : Fin 6 → α} (hy : H.states[k]? = some y) (hn : IsNan (y 5)) {m : ℕ} (hkm : k < m)
    (hm : m + 1 < H.states.length) {y' : Fin 6 → α} (hy' : H.states[m]? = some y') {i : Fin 5} {lo hi : α}
    (hlo : Q.cfg.oeMin[(i : ℕ)]? = some lo) (hhi : Q.cfg.oeMax[(i : ℕ)]? = some hi) (hlh : PyOrd.lt hi lo = false) :
    y' i.castSucc = lo := by
  obtain ⟨n, tr, D, r, hr, hrH, v⟩ := solve_view hs hP hH
  obtain ⟨hkn, h⟩ := state_or_clamp hr hrH v hy
  have hd' : Q.cfg.dyn = genDyn Q.cfg.elementsType := by rw [hE]; exact hd
  have hj : Stays Q.cfg.elementsType 5 := Or.inr rfl
  have hn' : IsNan ((tr k).oe 5) := by
    rcases h with rfl | ⟨s1, hc, rfl⟩
    · exact hn
    · rw [← clamp_stays hc hj]; exact hn
  have key := trace_isnan v.trace hd' hj hn'
  rw [v.statesLen] at hm
  have hmn : m < n := by omega
  obtain ⟨p, rfl⟩ : ∃ p, m = p + 1 := ⟨m - 1, by omega⟩
  have h1 := (step_isnan (v.trace.step p (by omega)) hd' hj (key p (by omega) (by omega)).1).2.2.2.2 rfl i.castSucc
  have h2 : (tr (p + 1)).oe = (D p).oeNext := by rw [v.trace.succ_eq (by omega)]; rfl
  rw [← h2] at h1
  rw [v.states_get hmn] at hy'
  injection hy' with hy'
  rw [← hy']
  exact clamp_lower (v.trace.step (p + 1) hmn).clamp hE h1 hlo hhi hlh

/-- **C132, start.** A NaN among the first five initial Keplerian elements is not flown and not reported: the
first step replaces it by the lower bound, in the record too. -/
theorem C132_start (hs : Q.solve etaA etaR fuel = some (Q', none)) (hP : Q.prob = some P) (hH : Q'.hist = some H)
    (hE : Q.cfg.elementsType = .keplerian) (h0 : H.controls ≠ []) {i : Fin 5} (hn : IsNan (P.oe0 i.castSucc))
    {lo hi : α} (hlo : Q.cfg.oeMin[(i : ℕ)]? = some lo) (hhi : Q.cfg.oeMax[(i : ℕ)]? = some hi)
    (hlh : PyOrd.lt hi lo = false) {y : Fin 6 → α} (hy : H.states[0]? = some y) : y i.castSucc = lo := by
  obtain ⟨n, tr, D, r, hr, hrH, v⟩ := solve_view hs hP hH
  have hn0 : 0 < n := by
    rw [← v.controls_length]; exact List.length_pos_of_ne_nil h0
  rw [v.states_get hn0] at hy
  injection hy with hy
  rw [← hy]
  refine clamp_lower (v.trace.step 0 hn0).clamp hE ?_ hlo hhi hlh
  rw [v.trace.init]
  exact hn

end run

/-! ## Satisfiability -/

namespace NanExample
open RatNum

instance : PyLog (Ext ℚ) := ⟨lift logQ⟩

instance : NanLaws (Ext ℚ) where
  add_left x y h := by cases x <;> cases y <;> first | rfl | cases h
  add_right x y h := by cases x <;> cases y <;> first | rfl | cases h
  sub_left x y h := by cases x <;> cases y <;> first | rfl | cases h
  sub_right x y h := by cases x <;> cases y <;> first | rfl | cases h
  mul_left x y h := by cases x <;> cases y <;> first | rfl | cases h
  mul_right x y h := by cases x <;> cases y <;> first | rfl | cases h
  div_left x y h := by cases x <;> cases y <;> first | rfl | cases h
  div_right x y h := by cases x <;> cases y <;> first | rfl | cases h
  neg x h := by cases x <;> first | rfl | cases h
  pow x n h := by
    cases x with
    | nan =>
      show PyNan.isnan (Ext.mul _ Ext.nan) = true
      generalize (Nat.rec (Ext.fin 1) (fun _ y => Ext.mul y Ext.nan) n : Ext ℚ) = z
      cases z <;> rfl
    | _ => cases h
  sqrt x h := by cases x <;> first | rfl | cases h
  sin x h := by cases x <;> first | rfl | cases h
  cos x h := by cases x <;> first | rfl | cases h
  arccos x h := by cases x <;> first | rfl | cases h
  arctan2 x y h := by cases x <;> cases y <;> first | rfl | cases h
  abs x h := by cases x <;> first | rfl | cases h
  eq_left x y h := by cases x <;> cases y <;> first | rfl | cases h
  le_left x y h := by cases x <;> cases y <;> first | rfl | cases h
  lt_right x y h := by cases x <;> cases y <;> first | rfl | cases h

/-- the package's MEE law, three NaN angles allowed -/
def cfgNan : Config Toy.N := { Toy.cfg with dyn := genDyn .meeWithA, nanAnglesThreshold := 3 }

/-- an initial eccentricity above one: the first step produces NaN -/
def probNan : Problem Toy.N := { Toy.prob with oe0 := ![.fin 1, .fin 2, .fin 0, .fin 0, .fin 0, .fin 0] }

/-- Keplerian: a NaN true anomaly; later elements are recorded as the lower bounds -/
def cfgNanK : Config Toy.N :=
  { Toy.cfg with
    dyn := genDyn .keplerian, elementsType := .keplerian, nanAnglesThreshold := 3
    oeMin := [.fin (1 / 2), .fin (1 / 10), .fin 1, .fin 2, .fin 3]
    oeMax := [.fin 10, .fin (9 / 10), .fin 3, .fin 6, .fin 6] }

def probNanK : Problem Toy.N :=
  { Toy.prob with oe0 := ![.fin 1, .fin (1 / 2), .fin 2, .fin 3, .fin 4, .nan] }

/-- what is shown of a run -/
def shown (C : Config Toy.N) (P : Problem Toy.N) : Option (Option PyErr × ℤ × List (List Toy.N)) :=
  ((Toy.obj C P).solve Toy.z Toy.z 10).map fun p =>
    (p.2, p.1.exitcode, (p.1.hist.map fun h => h.states.map fun y => [y 0, y 3, y 5]).getD [])

example : cfgNan.dyn = genDyn cfgNan.elementsType ∧ Stays cfgNan.elementsType 0 ∧
    shown cfgNan probNan = some (none, -3, [[.fin 1, .fin 0, .fin 0], [.nan, .nan, .nan], [.nan, .nan, .nan], [.nan, .nan, .nan]]) := by
  refine ⟨rfl, Or.inl rfl, ?_⟩
  decide +kernel

example : cfgNanK.dyn = genDyn cfgNanK.elementsType ∧ Stays cfgNanK.elementsType 5 ∧
    shown cfgNanK probNanK = some (none, -3, [[.fin 1, .fin 3, .nan], [.fin (1 / 2), .fin 2, .nan], [.fin (1 / 2), .fin 2, .nan],
      [.fin (1 / 2), .fin 2, .nan]]) := by
  refine ⟨rfl, Or.inr rfl, ?_⟩
  decide +kernel

/-- a NaN semi-major axis at the start is replaced by the lower bound, and the run thrusts from there -/
example : (((Toy.obj cfgNanK
      { Toy.prob with
        tfMax := .fin (1 / 4), tStep := .fin (1 / 4)
        oe0 := ![.nan, .fin (1 / 2), .fin 2, .fin 3, .fin 4, .fin 0], oeT := [.fin 3, .fin (1 / 4), .fin 1, .fin 2, .fin 3] }).solve
      Toy.z Toy.z 10).map fun p =>
    (p.2, (p.1.hist.map fun h => ((h.states.map fun y => y 0).head?, h.controls.map fun c => c.2.2)).getD (none, []))) =
    some (none, some (.fin (1 / 2)), [1]) := by
  decide +kernel

end NanExample

end PyQ
