import Verif.Props.Reverse

/-! # C129: reflection in a plane through the poles (real arithmetic)

Reflecting an orbit in the plane of the reference direction and the pole turns a prograde orbit into a retrograde one:
inclination `i` becomes `pi - i`, RAAN changes sign, the other elements stay. Accelerations of the reflected problem have
the opposite normal component. -/

set_option linter.unusedSectionVars false
set_option maxRecDepth 100000

noncomputable section

namespace PyQ

/-- the orbit reflected in the plane of the reference direction and the pole -/
def retro (x : Fin 6 → ℝ) : Fin 6 → ℝ := ![x 0, x 1, Real.pi - x 2, -x 3, x 4, x 5]

/-- the reflected target -/
def retro5 (x : Fin 5 → ℝ) : Fin 5 → ℝ := ![x 0, x 1, Real.pi - x 2, -x 3, x 4]

/-- the bounds of the reflected problem: those of inclination and RAAN are reflected and exchanged -/
def retroBounds : List ℝ → List ℝ → List ℝ
  | l0 :: l1 :: _ :: _ :: lo, _ :: _ :: u2 :: u3 :: _ => l0 :: l1 :: (Real.pi - u2) :: -u3 :: lo
  | lo, _ => lo

/-- the target of the reflected problem -/
def retroTarget (l : List ℝ) : List ℝ := (l.modify 2 (Real.pi - ·)).modify 3 (-·)

/-- the settings of the reflected problem -/
def Config.retro (pert : Option (ℝ → (Fin 6 → ℝ) → ElemType → Except PyErr (Fin 3 → ℝ))) (C : Config ℝ) : Config ℝ :=
  { C with oeMin := retroBounds C.oeMin C.oeMax, oeMax := retroBounds C.oeMax C.oeMin, perturbations := pert }

/-- the reflected problem -/
def Problem.retro (P : Problem ℝ) : Problem ℝ := { P with oe0 := PyQ.retro P.oe0, oeT := retroTarget P.oeT }

/-- the second perturbation is the reflection of the first -/
def PertRetro (f f' : Option (ℝ → (Fin 6 → ℝ) → ElemType → Except PyErr (Fin 3 → ℝ))) : Prop :=
  match f, f' with
  | none, none => True
  | some f, some f' => ∀ t x, f' t (retro x) .keplerian = (f t x .keplerian).map flipped
  | _, _ => False

/-- the bounds of inclination and RAAN are in order -/
def RetroOrdered (C : Config ℝ) : Prop :=
  ∀ k, k = 2 ∨ k = 3 → ∀ l u, C.oeMin[k]? = some l → C.oeMax[k]? = some u → l ≤ u

namespace Retro

/-- reflection as a change of variables -/
def chg : Chg where
  t := 1
  a := 1
  m := 1
  q := 1
  s := ![1, 1, -1, -1, 1, 1]
  c := ![0, 0, Real.pi, 0, 0, 0]
  n := -1

theorem chg_x (x : Fin 6 → ℝ) : chg.x x = retro x := by
  funext i
  match i with
  | 0 | 1 | 3 | 4 | 5 => simp [Chg.x, chg, retro]
  | 2 => simp [Chg.x, chg, retro]; ring

theorem chg_dir (u : Fin 3 → ℝ) : chg.dir u = flipped u := by
  funext c
  match c with
  | 0 | 1 | 2 => simp [Chg.dir, chg, flipped]

theorem chg_acc (u : Fin 3 → ℝ) : chg.acc u = flipped u := by
  funext c
  simp only [Chg.acc, chg_dir]
  simp [chg]

theorem chg_psi (p : Fin 3 → Fin 5 → ℝ) (c : Fin 3) (j : Fin 5) :
    chg.psi p c j = chg.s j.castSucc * flipped (fun c => p c j) c := by
  simp only [Chg.psi, chg_dir]
  simp [chg]

/-- a call of the control law for the reflected orbit and target -/
def args (A : LyapArgs ℝ) : LyapArgs ℝ := { A with oe := retro A.oe, oeT := retro5 A.oeT }

theorem restates : Restates chg args := by
  refine ⟨?_, fun A => (chg_x A.oe).symm, ?_⟩
  · intro j
    match j with
    | 0 | 1 | 2 | 3 | 4 => simp [chg]
  intro A j y
  unfold LyapArgs.setOe args
  simp only
  congr 1
  funext i
  match i, j with
  | 0, 0 | 1, 0 | 2, 0 | 3, 0 | 4, 0 | 5, 0 => simp [chg, retro]
  | 0, 1 | 1, 1 | 2, 1 | 3, 1 | 4, 1 | 5, 1 => simp [chg, retro]
  | 0, 2 | 1, 2 | 3, 2 | 4, 2 | 5, 2 => simp [retro]
  | 2, 2 => simp [chg, retro]; ring
  | 0, 3 | 1, 3 | 2, 3 | 3, 3 | 4, 3 | 5, 3 => simp [chg, retro]
  | 0, 4 | 1, 4 | 2, 4 | 3, 4 | 4, 4 | 5, 4 => simp [chg, retro]

theorem args_oe (A : LyapArgs ℝ) : (args A).oe = retro A.oe := rfl
theorem args_oeT (A : LyapArgs ℝ) : (args A).oeT = retro5 A.oeT := rfl
theorem args_f (A : LyapArgs ℝ) : (args A).f = A.f := rfl
theorem args_mu (A : LyapArgs ℝ) : (args A).mu = A.mu := rfl
theorem args_b (A : LyapArgs ℝ) : (args A).b = A.b := rfl

theorem oedot (A : LyapArgs ℝ) : kepOedot (args A) = kepOedot A := by
  simp only [kepOedot, args_oe, args_f, args_mu, args_b, retro, Matrix.cons_val, cos_real,
    sin_real, Real.cos_pi_sub, Real.sin_pi_sub, neg_sq]

theorem cos_flip (x y : ℝ) : Real.cos (-x - -y) = Real.cos (x - y) := by
  rw [← Real.cos_neg]; congr 1; ring

theorem quotient (A : LyapArgs ℝ) : kepQ (args A) = chg.q * kepQ A := by
  have e2 : kepPenalty (args A) = kepPenalty A := rfl
  have e3 : kepSoe (args A) = kepSoe A := rfl
  have d0 : kepDoe (args A) 0 = kepDoe A 0 := rfl
  have d1 : kepDoe (args A) 1 = kepDoe A 1 := rfl
  have d2 : kepDoe (args A) 2 = -kepDoe A 2 := by simp [kepDoe, args_oe, args_oeT, retro, retro5]
  have d3 : kepDoe (args A) 3 = kepDoe A 3 := by
    simp only [kepDoe, args_oe, args_oeT, retro, retro5, Matrix.cons_val, cos_real, cos_flip]
  have d4 : kepDoe (args A) 4 = kepDoe A 4 := rfl
  have ew : (args A).woe = A.woe := rfl
  have ep : (args A).wp = A.wp := rfl
  simp only [kepQ, oedot, e2, e3, d0, d1, d2, d3, d4, ew, ep, neg_div, neg_sq]
  simp [chg]

theorem matrix (A : LyapArgs ℝ) : kepPsi (args A) = chg.psi (kepPsi A) := by
  funext c j
  rw [chg_psi]
  simp only [kepPsi, args, retro, Matrix.cons_val, cos_real, sin_real, Real.cos_pi_sub, Real.sin_pi_sub]
  match c, j with
  | 0, 0 | 0, 1 | 0, 2 | 0, 3 | 0, 4 => simp [chg, flipped]
  | 1, 0 | 1, 1 | 1, 2 | 1, 3 | 1, 4 => simp [chg, flipped]
  | 2, 0 | 2, 1 | 2, 2 | 2, 3 => simp [chg, flipped]
  | 2, 4 => simp [chg, flipped, neg_div]

theorem gauss {p p' : OdeParams ℝ} {psi : Fin 3 → Fin 5 → ℝ}
    (h0 : p.psi0 = psi 0) (h1 : p.psi1 = psi 1) (h2 : p.psi2 = psi 2)
    (hu : p'.u = flipped p.u) (hp : p'.ptrb = flipped p.ptrb)
    (h0' : p'.psi0 = chg.psi psi 0) (h1' : p'.psi1 = chg.psi psi 1)
    (h2' : p'.psi2 = chg.psi psi 2) (row : Fin 3 → ℝ) (rate : ℝ) :
    gaussCombine p' (flipped row) rate = lin chg.s (gaussCombine p row rate) := by
  have h5 : chg.s 5 = 1 := by simp [chg]
  funext i
  match i with
  | 0 | 1 | 2 | 3 | 4 =>
    simp only [gaussCombine, h0, h1, h2, hu, hp, h0', h1', h2', dot3, vadd, chg_psi, lin, flipped,
      Matrix.cons_val]
    simp
    ring
  | 5 =>
    simp only [gaussCombine, hu, hp, dot3, vadd, lin, flipped, Matrix.cons_val, h5]
    ring

theorem eom {p p' : OdeParams ℝ} {psi : Fin 3 → Fin 5 → ℝ}
    (h0 : p.psi0 = psi 0) (h1 : p.psi1 = psi 1) (h2 : p.psi2 = psi 2)
    (hu : p'.u = flipped p.u) (hp : p'.ptrb = flipped p.ptrb) (hm : p'.mu = p.mu)
    (h0' : p'.psi0 = chg.psi psi 0) (h1' : p'.psi1 = chg.psi psi 1)
    (h2' : p'.psi2 = chg.psi psi 2) (t : ℝ) (y : Fin 6 → ℝ) :
    eomKepGauss t (retro y) p' = (eomKepGauss t y p).map (lin chg.s) := by
  have g := fun row rate => gauss h0 h1 h2 hu hp h0' h1' h2' row rate
  unfold eomKepGauss
  have e0 : retro y 0 = y 0 := rfl
  have e1 : retro y 1 = y 1 := rfl
  have e5 : retro y 5 = y 5 := rfl
  simp only [e0, e1, e5, hm]
  have gz : ∀ c0 c1 rate, gaussCombine p' ![c0, c1, ((0 : ℕ) : ℝ)] rate =
      lin chg.s (gaussCombine p ![c0, c1, ((0 : ℕ) : ℝ)] rate) := by
    intro c0 c1 rate
    rw [← g]
    congr 1
    funext i
    match i with
    | 0 | 1 | 2 => simp [flipped]
  simp only [gz]
  cases ndiv _ (p.mu * _) with
  | error e => rfl
  | ok r =>
    simp only [bind, Except.bind]
    cases ndiv (_ : ℝ) _ with
    | error e => rfl
    | ok c0 =>
      simp only
      cases ndiv (_ : ℝ) _ with
      | error e => rfl
      | ok c1 =>
        simp only
        cases ndiv _ (r ^ 2) with
        | error e => rfl
        | ok rate => rfl

theorem clip_turn {l u : ℝ} (h : l ≤ u) (x : ℝ) :
    pymin (pymax (Real.pi - u) (Real.pi - x)) (Real.pi - l) = Real.pi - pymin (pymax l x) u := by
  have := Reverse.clip_neg h x
  rw [sub_eq_neg_add, sub_eq_neg_add, sub_eq_neg_add, pymax_shift, pymin_shift, this]
  ring

theorem safety {C : Config ℝ} (h : RetroOrdered C) (x : Fin 6 → ℝ) :
    elementsSafety (retro x) (retroBounds C.oeMin C.oeMax) (retroBounds C.oeMax C.oeMin) =
      (elementsSafety x C.oeMin C.oeMax).map retro := by
  unfold RetroOrdered at h
  generalize C.oeMin = lo at *
  generalize C.oeMax = hi at *
  match lo, hi with
  | l0 :: l1 :: l2 :: l3 :: l4 :: lo, u0 :: u1 :: u2 :: u3 :: u4 :: hi =>
    have h2 : l2 ≤ u2 := h 2 (Or.inl rfl) _ _ rfl rfl
    have h3 : l3 ≤ u3 := h 3 (Or.inr rfl) _ _ rfl rfl
    simp only [retroBounds, elementsSafety, retro, Matrix.cons_val, clip_turn h2, Reverse.clip_neg h3, Except.map]
  | [], [] => simp [retroBounds, elementsSafety, Except.map]
  | [], [_] => simp [retroBounds, elementsSafety, Except.map]
  | [], [_, _] => simp [retroBounds, elementsSafety, Except.map]
  | [], [_, _, _] => simp [retroBounds, elementsSafety, Except.map]
  | [], _ :: _ :: _ :: _ :: _ => simp [retroBounds, elementsSafety, Except.map]
  | [_], [] => simp [retroBounds, elementsSafety, Except.map]
  | [_], [_] => simp [retroBounds, elementsSafety, Except.map]
  | [_], [_, _] => simp [retroBounds, elementsSafety, Except.map]
  | [_], [_, _, _] => simp [retroBounds, elementsSafety, Except.map]
  | [_], _ :: _ :: _ :: _ :: _ => simp [retroBounds, elementsSafety, Except.map]
  | [_, _], [] => simp [retroBounds, elementsSafety, Except.map]
  | [_, _], [_] => simp [retroBounds, elementsSafety, Except.map]
  | [_, _], [_, _] => simp [retroBounds, elementsSafety, Except.map]
  | [_, _], [_, _, _] => simp [retroBounds, elementsSafety, Except.map]
  | [_, _], _ :: _ :: _ :: _ :: _ => simp [retroBounds, elementsSafety, Except.map]
  | [_, _, _], [] => simp [retroBounds, elementsSafety, Except.map]
  | [_, _, _], [_] => simp [retroBounds, elementsSafety, Except.map]
  | [_, _, _], [_, _] => simp [retroBounds, elementsSafety, Except.map]
  | [_, _, _], [_, _, _] => simp [retroBounds, elementsSafety, Except.map]
  | [_, _, _], _ :: _ :: _ :: _ :: _ => simp [retroBounds, elementsSafety, Except.map]
  | [_, _, _, _], [] => simp [retroBounds, elementsSafety, Except.map]
  | [_, _, _, _], [_] => simp [retroBounds, elementsSafety, Except.map]
  | [_, _, _, _], [_, _] => simp [retroBounds, elementsSafety, Except.map]
  | [_, _, _, _], [_, _, _] => simp [retroBounds, elementsSafety, Except.map]
  | [_, _, _, _], _ :: _ :: _ :: _ :: _ => simp [retroBounds, elementsSafety, Except.map]
  | _ :: _ :: _ :: _ :: _ :: _, [] => simp [retroBounds, elementsSafety, Except.map]
  | _ :: _ :: _ :: _ :: _ :: _, [_] => simp [retroBounds, elementsSafety, Except.map]
  | _ :: _ :: _ :: _ :: _ :: _, [_, _] => simp [retroBounds, elementsSafety, Except.map]
  | _ :: _ :: _ :: _ :: _ :: _, [_, _, _] => simp [retroBounds, elementsSafety, Except.map]
  | _ :: _ :: _ :: _ :: _ :: _, [_, _, _, _] => simp [retroBounds, elementsSafety, Except.map]

theorem target (l : List ℝ) :
    (∃ e, asVec5 l = .error e ∧ asVec5 (retroTarget l) = .error e) ∨
      ∃ v, asVec5 l = .ok v ∧ asVec5 (retroTarget l) = .ok (retro5 v) := by
  by_cases hl : l.length = 5
  · match l, hl with
    | [a, b, c, d, e], _ => exact Or.inr ⟨![a, b, c, d, e], rfl, rfl⟩
  · have he : ∀ l : List ℝ, l.length ≠ 5 → asVec5 l = .error .valueError := by
      intro l hl
      unfold asVec5
      split
      · simp at hl
      · rfl
    exact Or.inl ⟨_, he l hl, he _ (by simpa [retroTarget] using hl)⟩

theorem conv (x : Fin 6 → ℝ) (v w tol : Fin 5 → ℝ) :
    checkConvergenceKeplerian (retro x) (retro5 v) w tol = checkConvergenceKeplerian x v w tol := by
  have e : |Real.pi - v 2 - (Real.pi - x 2)| = |v 2 - x 2| := by rw [← abs_neg]; congr 1; ring
  unfold checkConvergenceKeplerian
  simp only [retro, retro5, Matrix.cons_val, abs_real, cos_real, cos_flip, e]

section runs
variable [PyNan ℝ]

theorem propagate {E : Env ℝ} (he : E.cfg.elementsType = .keplerian) (hd : E.cfg.dyn = dynOf .keplerian)
    {P' : Problem ℝ} {etaA' etaR' : EtaArg ℝ}
    {pert : Option (ℝ → (Fin 6 → ℝ) → ElemType → Except PyErr (Fin 3 → ℝ))}
    (hp : PertRetro E.cfg.perturbations pert) (s : LoopSt ℝ) (h : ℝ)
    (v : Fin 5 → ℝ) (c : Ctl ℝ) :
    propagatePhase { cfg := E.cfg.retro pert, prob := P', etaA := etaA', etaR := etaR' }
        (chg.st s) (chg.t * h) (chg.ctl v c) =
      (propagatePhase E s h c).map fun p => (chg.x p.1, chg.t * p.2) := by
  have e1 : chg.t * h = h := one_mul h
  have e2 : (chg.st s).t = s.t := one_mul s.t
  have e3 : (chg.st s).oe = retro s.oe := chg_x s.oe
  have e4 : (chg.ctl v c).u = flipped c.u := chg_acc c.u
  have e5 : (chg.ctl v c).psi = chg.psi c.psi := rfl
  have e6 : (fun p : (Fin 6 → ℝ) × ℝ => (chg.x p.1, chg.t * p.2)) =
      fun p => (retro p.1, p.2) := by
    funext p
    rw [chg_x]
    simp [chg]
  have hx : chg.x = retro := funext chg_x
  have hs : ∀ i, chg.s i = 1 ∨ chg.s i = -1 := by
    intro i
    match i with
    | 0 | 1 | 4 | 5 => exact Or.inl rfl
    | 2 | 3 => exact Or.inr rfl
  have heom : ∀ (ptrb : Fin 3 → ℝ) t y, E.cfg.dyn.eom t (retro y)
        (odeOf E.cfg.mu (flipped c.u) (chg.psi c.psi) (flipped ptrb)) =
      (E.cfg.dyn.eom t y
        (odeOf E.cfg.mu c.u c.psi ptrb)).map (lin chg.s) := by
    intro ptrb t y
    rw [hd]
    exact eom (p := odeOf E.cfg.mu c.u c.psi ptrb) (psi := c.psi)
      (p' := odeOf E.cfg.mu (flipped c.u) (chg.psi c.psi) (flipped ptrb))
      rfl rfl rfl rfl rfl rfl rfl rfl rfl t y
  have k4 : ∀ ptrb : Fin 3 → ℝ, rk4 E.cfg.dyn.eom s.t h (retro s.oe)
        (odeOf E.cfg.mu (flipped c.u) (chg.psi c.psi) (flipped ptrb)) =
      (rk4 E.cfg.dyn.eom s.t h s.oe
        (odeOf E.cfg.mu c.u c.psi ptrb)).map (retro) := by
    intro ptrb
    have := rk4_change (g := chg)
      (p := odeOf E.cfg.mu c.u c.psi ptrb)
      (p' := odeOf E.cfg.mu (flipped c.u) (chg.psi c.psi) (flipped ptrb))
      (F := E.cfg.dyn.eom) (F' := E.cfg.dyn.eom) one_ne_zero (fun t y => by
        rw [chg_x, show chg.t = 1 from rfl, one_mul, heom]
        simp only [div_one]
        rfl) s.t h s.oe
    rw [hx, e1, show chg.t * s.t = s.t from one_mul _] at this
    exact this
  have k45 : ∀ ptrb : Fin 3 → ℝ, rkf45 E.cfg.dyn.eom s.t h (retro s.oe)
        (odeOf E.cfg.mu (flipped c.u) (chg.psi c.psi) (flipped ptrb))
        E.cfg.odeTol =
      (rkf45 E.cfg.dyn.eom s.t h s.oe
        (odeOf E.cfg.mu c.u c.psi ptrb) E.cfg.odeTol).map fun q => (retro q.1, q.2) := by
    intro ptrb
    have := rkf45_lin (g := chg) hs
      (p := odeOf E.cfg.mu c.u c.psi ptrb)
      (p' := odeOf E.cfg.mu (flipped c.u) (chg.psi c.psi) (flipped ptrb))
      (F := E.cfg.dyn.eom) (F' := E.cfg.dyn.eom) (fun t y => by rw [chg_x]; exact heom ptrb t y)
      s.t h E.cfg.odeTol s.oe
    rwa [hx] at this
  unfold propagatePhase
  rw [e1, e2, e3, e4, e5, e6]
  simp only [Config.retro]
  have go : ∀ ptrb : Fin 3 → ℝ, (match E.cfg.integrator with
      | .rk4 => do
        let oeNext ← PyQ.rk4 E.cfg.dyn.eom s.t h (retro s.oe)
          (odeOf E.cfg.mu (flipped c.u) (chg.psi c.psi) (flipped ptrb))
        pure (oeNext, h)
      | .rkf45 => do
        let (oeNext, hNext) ← PyQ.rkf45 E.cfg.dyn.eom s.t h (retro s.oe)
          (odeOf E.cfg.mu (flipped c.u) (chg.psi c.psi) (flipped ptrb))
          E.cfg.odeTol
        pure (oeNext, pymax E.cfg.stepMin (pymin E.cfg.stepMax hNext)) :
        Except PyErr ((Fin 6 → ℝ) × ℝ)) =
      (match E.cfg.integrator with
      | .rk4 => do
        let oeNext ← PyQ.rk4 E.cfg.dyn.eom s.t h s.oe
          (odeOf E.cfg.mu c.u c.psi ptrb)
        pure (oeNext, h)
      | .rkf45 => do
        let (oeNext, hNext) ← PyQ.rkf45 E.cfg.dyn.eom s.t h s.oe
          (odeOf E.cfg.mu c.u c.psi ptrb)
          E.cfg.odeTol
        pure (oeNext, pymax E.cfg.stepMin (pymin E.cfg.stepMax hNext)) :
        Except PyErr ((Fin 6 → ℝ) × ℝ)).map fun p => (retro p.1, p.2) := by
    intro ptrb
    cases E.cfg.integrator with
    | rk4 =>
      simp only [k4]
      cases rk4 E.cfg.dyn.eom s.t h s.oe
        (odeOf E.cfg.mu c.u c.psi ptrb) <;> rfl
    | rkf45 =>
      simp only [k45]
      cases rkf45 E.cfg.dyn.eom s.t h s.oe
        (odeOf E.cfg.mu c.u c.psi ptrb)
        E.cfg.odeTol <;> rfl
  cases hq : E.cfg.perturbations with
  | none =>
    rw [hq] at hp
    cases pert with
    | some f => exact hp.elim
    | none =>
      have := go zero3
      rw [show flipped zero3 = zero3 by funext i; match i with | 0 | 1 | 2 => simp [flipped, zero3]] at this
      exact this
  | some f =>
    rw [hq] at hp
    cases pert with
    | none => exact hp.elim
    | some f' =>
      have e := hp s.t s.oe
      simp only [he, e]
      cases f s.t s.oe .keplerian with
      | error e => rfl
      | ok a => exact go a

theorem change {Q : QLaw ℝ} {P : Problem ℝ} {etaA etaR etaA' etaR' : EtaArg ℝ}
    {pert : Option (ℝ → (Fin 6 → ℝ) → ElemType → Except PyErr (Fin 3 → ℝ))}
    (hnan : ∀ x : ℝ, PyNan.isnan (-x) = PyNan.isnan x)
    (he : Q.cfg.elementsType = .keplerian) (hd : Q.cfg.dyn = dynOf .keplerian)
    (hb : RetroOrdered Q.cfg) (hp : PertRetro Q.cfg.perturbations pert)
    (hA : ∀ t x m b, evalEta etaA' t (retro x) m b = evalEta etaA t x m b)
    (hR : ∀ t x m b, evalEta etaR' t (retro x) m b = evalEta etaR t x m b) :
    Change chg (envOf Q P etaA etaR)
      { cfg := Q.cfg.retro pert, prob := P.retro, etaA := etaA', etaR := etaR' } where
  t0 := one_pos
  a0 := one_pos
  m0 := one_pos
  q0 := one_pos
  s5 := rfl
  prob := by constructor <;> simp [chg, Problem.retro, envOf]
  et := rfl
  grid := rfl
  nan := rfl
  relaxedAt := rfl
  n1 := Or.inr rfl
  nanN := fun x => by rw [show chg.n = -1 from rfl, neg_one_mul, hnan]
  clamp := fun hk x => by
    rw [show chg.x = retro from funext chg_x]
    exact safety hb x
  choose := fun x => by
    rw [chg_x]
    have : (fun y : ℝ => chg.t * y) = fun y => y := by funext y; simp [chg]
    rw [this]
    have h0 : chooseStep (Q.cfg.retro pert) (P.retro) (retro x) = chooseStep Q.cfg P x := by
      unfold chooseStep
      show (if Q.cfg.useSundman then match Q.cfg.elementsType with
        | .keplerian => _
        | .meeWithA => _ else _) = _
      rw [he]
      rfl
    show chooseStep (Q.cfg.retro pert) (P.retro) (retro x) = _
    rw [h0]
    cases h : chooseStep Q.cfg P x <;> simp [envOf, h, Except.map]
  prop := fun s h v c => propagate (E := envOf Q P etaA etaR) he hd hp s h v c
  etaA := fun t x m b => by
    rw [chg_x]
    simp only [chg, one_mul]
    exact hA t x m b
  etaR := fun t x m b => by
    rw [chg_x]
    simp only [chg, one_mul]
    exact hR t x m b
  tgt := by
    rcases target P.oeT with h | ⟨v, h1, h2⟩
    · exact Or.inl h
    · refine Or.inr ⟨v, _, h1, h2, ?_⟩
      have hl : ∀ accel x, lyapArgs (Q.cfg.retro pert) (P.retro)
          (retro5 v) (chg.a * accel) (chg.x x) =
          args (lyapArgs Q.cfg P v accel x) := by
        intro accel x
        rw [chg_x, show chg.a * accel = accel from one_mul _]
        rfl
      have law : ∀ A, lyapunovControlAngles (dynOf .keplerian : Dyn ℝ).lyapFun (args A) =
            (lyapunovControlAngles (dynOf .keplerian : Dyn ℝ).lyapFun A).map chg.out ∧
          (dynOf .keplerian : Dyn ℝ).dqdtFun (args A) =
            chg.q / chg.t * (dynOf .keplerian : Dyn ℝ).dqdtFun A := by
        intro A
        exact law_change (g := chg) one_pos one_pos one_pos (Or.inr rfl) restates
          (M := kepPsi) (Qf := kepQ) (fun A => (one_mul A.f).symm) quotient matrix A
      constructor
      · intro accel x
        show lyapunovControlAngles Q.cfg.dyn.lyapFun _ = (lyapunovControlAngles Q.cfg.dyn.lyapFun _).map _
        rw [hl, hd]
        exact (law _).1
      · intro accel x
        show Q.cfg.dyn.dqdtFun _ = _ * Q.cfg.dyn.dqdtFun _
        rw [hl, hd]
        exact (law _).2
      · intro x
        rw [chg_x]
        show Q.cfg.dyn.checkConv _ _ _ _ = Q.cfg.dyn.checkConv _ _ _ _
        rw [hd]
        exact conv x v P.woe Q.cfg.tolOe
      · intro x
        rw [chg_x]
        show Q.cfg.dyn.checkConv _ _ _ _ = Q.cfg.dyn.checkConv _ _ _ _
        rw [hd]
        exact conv x v P.woe Q.cfg.tolOeRelaxed

end runs

end Retro

section runs
variable [PyNan ℝ]

/-- **C129.** The run of the problem reflected in the plane of the reference direction and the pole is the reflection of the
run: prograde becomes retrograde. Inclinations become `pi - i`, RAAN and out-of-plane angles change sign, and nothing else
changes. Either integrator, fixed or Sundman steps, forward or backward, any thresholds, duty cycle and battery. -/
theorem C129_retrograde {Q Q' : QLaw ℝ} {P : Problem ℝ} {etaA etaR etaA' etaR' : EtaArg ℝ}
    {fuel : ℕ} {e : Option PyErr} {H : Hist ℝ}
    {pert : Option (ℝ → (Fin 6 → ℝ) → ElemType → Except PyErr (Fin 3 → ℝ))}
    (hnan : ∀ x : ℝ, PyNan.isnan (-x) = PyNan.isnan x)
    (hP : Q.prob = some P) (hr : Q.ready = true) (hv : etaA.valid = true) (hv' : etaA'.valid = true)
    (he : Q.cfg.elementsType = .keplerian) (hd : Q.cfg.dyn = dynOf .keplerian)
    (hb : RetroOrdered Q.cfg) (hp : PertRetro Q.cfg.perturbations pert)
    (hA : ∀ t x m b, evalEta etaA' t (retro x) m b = evalEta etaA t x m b)
    (hR : ∀ t x m b, evalEta etaR' t (retro x) m b = evalEta etaR t x m b)
    (h : Q.solve etaA etaR fuel = some (Q', e)) (hH : Q'.hist = some H) :
    ∃ Q'' H', (({ Q with
          cfg := Q.cfg.retro pert
          prob := some (P.retro) } : QLaw ℝ).solve etaA' etaR' fuel = some (Q'', e)) ∧
      Q''.hist = some H' ∧ Q''.exitcode = Q'.exitcode ∧ Q''.converge = Q'.converge ∧
      H'.times = H.times ∧ H'.states = H.states.map (retro) ∧
      H'.masses = H.masses ∧ H'.battery = H.battery ∧
      H'.controls = H.controls.map (fun c => (c.1, -c.2.1, c.2.2)) ∧
      H'.etas = H.etas ∧ H'.etasBounds = H.etasBounds ∧ H'.qs = H.qs ∧ H'.dqdts = H.dqdts := by
  have hx : Retro.chg.x = retro := funext Retro.chg_x
  obtain ⟨Q'', h1, h2, h3, h4⟩ := solve_change (g := Retro.chg)
    (Q1 := { Q with cfg := Q.cfg.retro pert, prob := some (P.retro) })
    hP rfl hr hr hv hv' ⟨rfl, rfl⟩ (by rw [hx]; rfl) (one_mul _).symm rfl
    (Retro.change hnan he hd hb hp hA hR) h hH
  have hid : ∀ l : List ℝ, l.map ((1 : ℝ) * ·) = l := by intro l; simp
  refine ⟨Q'', _, h1, h2, h3, h4, hid _, ?_, hid _, rfl, ?_, rfl, rfl, hid _, ?_⟩
  · simp only [Chg.hist, hx]
  · simp [Chg.hist, Retro.chg]
  · simp [Chg.hist, Retro.chg]

end runs

/-! ### What reflection means in space -/

/-- a vector with some components negated -/
def mirror3 (σ v : Fin 3 → ℝ) : Fin 3 → ℝ := fun i => σ i * v i

/-- position and velocity reflected -/
def svMirror (σ : Fin 3 → ℝ) (rv : Fin 6 → ℝ) : Fin 6 → ℝ :=
  ![σ 0 * rv 0, σ 1 * rv 1, σ 2 * rv 2, σ 0 * rv 3, σ 1 * rv 4, σ 2 * rv 5]

theorem kep2sv_mirror {k k' : Fin 6 → ℝ} (mu : ℝ) (h0 : k' 0 = k 0) (h1 : k' 1 = k 1) (h5 : k' 5 = k 5) (σ : Fin 3 → ℝ)
    (hP : ∀ j, periP (k' 2) (k' 3) (k' 4) j = σ j * periP (k 2) (k 3) (k 4) j)
    (hQ : ∀ j, periQ (k' 2) (k' 3) (k' 4) j = σ j * periQ (k 2) (k 3) (k 4) j) :
    kep2sv k' mu = (kep2sv k mu).map (svMirror σ) := by
  have e1 : ∀ c a b : ℝ, vsmul c ![a, b, ((0 : ℕ) : ℝ)] = ![c * a, c * b, 0] := by
    intro c a b; funext j; fin_cases j <;> simp [vsmul]
  simp only [kep2sv, rot3_skip, rot1_skip]
  simp only [h0, h1, h5, e1, rot_perifocal]
  cases ndiv _ (mu * (_ + k 1 * _)) with
  | error e => rfl
  | ok r =>
    simp only [bind, Except.bind]
    cases ndiv mu _ with
    | error e => rfl
    | ok m =>
      simp only [pure, Except.pure, Except.map, svMirror]
      congr 1
      funext j
      fin_cases j <;> simp [hP, hQ] <;> ring

/-- **C129, the reflected orbit.** Position and velocity of the reflected elements are the reflections of position and velocity:
in the plane of the first and third axis for C129, in the plane of the first two axes for C94. -/
theorem C129_cartesian (x : Fin 6 → ℝ) (mu : ℝ) :
    kep2sv (retro x) mu = (kep2sv x mu).map (svMirror ![1, -1, 1]) ∧
    kep2sv (mirrored .keplerian x) mu = (kep2sv x mu).map (svMirror ![1, 1, -1]) := by
  constructor
  · refine kep2sv_mirror (k := x) (k' := retro x) mu rfl rfl rfl _ ?_ ?_ <;>
    · intro j
      fin_cases j <;> (simp [periP, periQ, retro, Real.cos_pi_sub, Real.sin_pi_sub]; try ring)
  · refine kep2sv_mirror (k := x) (k' := mirrored .keplerian x) mu rfl rfl rfl _ ?_ ?_ <;>
    · intro j
      fin_cases j <;> simp [periP, periQ, mirrored, Real.cos_add_pi, Real.sin_add_pi]

/-- the second ephemerides are the first, reflected -/
structure SpiceMirrored (σ : Fin 3 → ℝ) (sp sp' : Spice ℝ) : Prop where
  pos : ∀ b t, sp'.spkpos b t = mirror3 σ (sp.spkpos b t)
  frame : ∀ t i, sp'.pxform t i = mirror3 σ (sp.pxform t i)
  au : sp'.auKm = sp.auKm

namespace Retro

variable {σ : Fin 3 → ℝ} (hσ : ∀ i, σ i = 1 ∨ σ i = -1)
include hσ

theorem sq_one (i : Fin 3) : σ i * σ i = 1 := by
  rcases hσ i with h | h <;> rw [h] <;> norm_num
theorem dot_m (v w : Fin 3 → ℝ) : dot3 (mirror3 σ v) (mirror3 σ w) = dot3 v w := by
  simp only [dot3, mirror3]
  linear_combination (v 0 * w 0) * sq_one hσ 0 + (v 1 * w 1) * sq_one hσ 1 + (v 2 * w 2) * sq_one hσ 2
theorem norm_m (v : Fin 3 → ℝ) : norm3 (mirror3 σ v) = norm3 v := by
  simp only [norm3]
  congr 1
  simp only [mirror3]
  linear_combination (v 0 ^ 2) * sq_one hσ 0 + (v 1 ^ 2) * sq_one hσ 1 + (v 2 ^ 2) * sq_one hσ 2
omit hσ in
theorem sub_m (v w : Fin 3 → ℝ) : vsub (mirror3 σ v) (mirror3 σ w) = mirror3 σ (vsub v w) := by
  funext i; simp only [vsub, mirror3]; ring
omit hσ in
theorem add_m (v w : Fin 3 → ℝ) : vadd (mirror3 σ v) (mirror3 σ w) = mirror3 σ (vadd v w) := by
  funext i; simp only [vadd, mirror3]; ring
omit hσ in
theorem smul_m (c : ℝ) (w : Fin 3 → ℝ) : vsmul c (mirror3 σ w) = mirror3 σ (vsmul c w) := by
  funext i; simp only [vsmul, mirror3]; ring
omit hσ in
theorem div_m (c : ℝ) (w : Fin 3 → ℝ) : vdivs (mirror3 σ w) c = mirror3 σ (vdivs w c) := by
  funext i; simp only [vdivs, mirror3]; ring
omit hσ in
theorem cross_m (v w : Fin 3 → ℝ) (hd : ∀ i j k : Fin 3, i ≠ j → j ≠ k → i ≠ k → σ i * σ j = σ 0 * σ 1 * σ 2 * σ k) :
    cross3 (mirror3 σ v) (mirror3 σ w) = vsmul (σ 0 * σ 1 * σ 2) (mirror3 σ (cross3 v w)) := by
  funext i
  match i with
  | 0 =>
    simp only [cross3, vsmul, mirror3, Matrix.cons_val]
    linear_combination (v 1 * w 2 - v 2 * w 1) * hd 1 2 0 (by decide) (by decide) (by decide)
  | 1 =>
    simp only [cross3, vsmul, mirror3, Matrix.cons_val]
    linear_combination (v 2 * w 0 - v 0 * w 2) * hd 2 0 1 (by decide) (by decide) (by decide)
  | 2 =>
    simp only [cross3, vsmul, mirror3, Matrix.cons_val]
    linear_combination (v 0 * w 1 - v 1 * w 0) * hd 0 1 2 (by decide) (by decide) (by decide)

theorem det_pair (i j k : Fin 3) (h1 : i ≠ j) (h2 : j ≠ k) (h3 : i ≠ k) : σ i * σ j = σ 0 * σ 1 * σ 2 * σ k := by
  rcases hσ 0 with a | a <;> rcases hσ 1 with b | b <;> rcases hσ 2 with c | c <;>
    fin_cases i <;> fin_cases j <;> fin_cases k <;> simp_all

theorem battin_m (r s : Fin 3 → ℝ) (m : ℝ) :
    perturbationThirdBodyBattin (mirror3 σ r) (mirror3 σ s) m = (perturbationThirdBodyBattin r s m).map (mirror3 σ) := by
  unfold perturbationThirdBodyBattin
  simp only [sub_m, smul_m, dot_m hσ]
  cases ndiv (_ : ℝ) (dot3 s s) with
  | error e => rfl
  | ok q =>
    simp only [bind, Except.bind]
    cases ndiv (_ + _ + q ^ 2 : ℝ) _ with
    | error e => rfl
    | ok w =>
      simp only
      cases ndiv (-m) _ with
      | error e => rfl
      | ok c => simp only [pure, Except.pure, Except.map, add_m, smul_m]

theorem j2_m {T T' : Fin 3 → Fin 3 → ℝ} (hT : ∀ i, T' i = mirror3 σ (T i)) (r : Fin 3 → ℝ) (mu J2 Re : ℝ) :
    perturbationJ2 (mirror3 σ r) T' mu J2 Re = (perturbationJ2 r T mu J2 Re).map (mirror3 σ) := by
  have h1 : mulVec3 T' (mirror3 σ r) = mulVec3 T r := by
    funext i
    simp only [mulVec3, hT, dot_m hσ]
  have h2 : ∀ w, mulVec3 (transpose3 T') w = mirror3 σ (mulVec3 (transpose3 T) w) := by
    intro w
    funext i
    simp only [mulVec3, transpose3, dot3, hT, mirror3]
    ring
  unfold perturbationJ2
  simp only [norm_m hσ, h1, h2]
  cases ndiv (_ : ℝ) _ <;> rfl

theorem srp_m (r : Fin 3 → ℝ) (AU k : ℝ) : perturbationSRP (mirror3 σ r) AU k = mirror3 σ (perturbationSRP r AU k) := by
  simp only [perturbationSRP, smul_m, norm_m hσ, div_m]

theorem rtn_m (rv : Fin 6 → ℝ) (a : Fin 3 → ℝ) :
    mulVec3 (pxformECI2RTN (svPos (svMirror σ rv)) (svVel (svMirror σ rv))) (mirror3 σ a) =
      mirror3 ![1, 1, σ 0 * σ 1 * σ 2] (mulVec3 (pxformECI2RTN (svPos rv) (svVel rv)) a) := by
  have e1 : svPos (svMirror σ rv) = mirror3 σ (svPos rv) := by
    funext i; match i with | 0 | 1 | 2 => simp [svPos, svMirror, mirror3]
  have e2 : svVel (svMirror σ rv) = mirror3 σ (svVel rv) := by
    funext i; match i with | 0 | 1 | 2 => simp [svVel, svMirror, mirror3]
  have dd : (σ 0 * σ 1 * σ 2) * (σ 0 * σ 1 * σ 2) = 1 := by
    linear_combination (σ 1 * σ 1 * (σ 2 * σ 2)) * sq_one hσ 0 + (σ 2 * σ 2) * sq_one hσ 1 + sq_one hσ 2
  have e3 : ∀ h : Fin 3 → ℝ, norm3 (vsmul (σ 0 * σ 1 * σ 2) h) = norm3 h := by
    intro h
    simp only [norm3]
    congr 1
    simp only [vsmul]
    linear_combination (h 0 ^ 2 + h 1 ^ 2 + h 2 ^ 2) * dd
  have e4 : ∀ (d : ℝ) (h : Fin 3 → ℝ) (c : ℝ), vdivs (vsmul d h) c = vsmul d (vdivs h c) := by
    intro d h c; funext i; simp only [vdivs, vsmul]; ring
  have e5 : ∀ (d : ℝ) (u w : Fin 3 → ℝ), cross3 (vsmul d u) w = vsmul d (cross3 u w) := by
    intro d u w
    funext i
    match i with
    | 0 | 1 | 2 => simp only [cross3, vsmul, Matrix.cons_val]; ring
  have e6 : ∀ h : Fin 3 → ℝ, vsmul (σ 0 * σ 1 * σ 2) (vsmul (σ 0 * σ 1 * σ 2) h) = h := by
    intro h; funext i; simp only [vsmul]; linear_combination (h i) * dd
  have e7 : ∀ (d : ℝ) (u w : Fin 3 → ℝ), dot3 (vsmul d u) w = d * dot3 u w := by
    intro d u w; simp only [dot3, vsmul]; ring
  unfold pxformECI2RTN
  simp only [e1, e2, norm_m hσ, div_m, cross_m _ _ (det_pair hσ), e3, e4, e5, e6]
  funext i
  match i with
  | 0 => simp [mulVec3, mirror3, dot_m hσ]
  | 1 => simp [mulVec3, mirror3, dot_m hσ]
  | 2 => simp [mulVec3, mirror3, e7, dot_m hσ]

omit hσ in
theorem zero_m : mirror3 σ (![((0 : ℕ) : ℝ), ((0 : ℕ) : ℝ), ((0 : ℕ) : ℝ)]) = ![((0 : ℕ) : ℝ), ((0 : ℕ) : ℝ), ((0 : ℕ) : ℝ)] := by
  funext i; match i with | 0 | 1 | 2 => simp [mirror3]

theorem bodies_m {sp sp' : Spice ℝ} (hs : SpiceMirrored σ sp sp') (et LU : ℝ)
    (r : Fin 3 → ℝ) : ∀ (l : List (ℝ × String)) (acc : Fin 3 → ℝ),
    l.foldlM (fun acc (b : ℝ × String) => do
      let a3 ← perturbationThirdBodyBattin (mirror3 σ r) (vdivs (sp'.spkpos b.2 et) LU) b.1
      pure (vadd acc a3)) (mirror3 σ acc) =
    (l.foldlM (fun acc (b : ℝ × String) => do
      let a3 ← perturbationThirdBodyBattin r (vdivs (sp.spkpos b.2 et) LU) b.1
      pure (vadd acc a3)) acc : Except PyErr (Fin 3 → ℝ)).map (mirror3 σ) := by
  intro l
  induction l with
  | nil => intro acc; rfl
  | cons b l ih =>
    intro acc
    simp only [List.foldlM_cons, hs.pos, div_m, battin_m hσ]
    cases perturbationThirdBodyBattin r (vdivs (sp.spkpos b.2 et) LU) b.1 with
    | error e => rfl
    | ok a =>
      simp only [Except.map, bind, Except.bind, pure, Except.pure, add_m]
      have := ih (vadd acc a)
      simp only [hs.pos, div_m, battin_m hσ, Except.map, bind, Except.bind, pure, Except.pure] at this
      exact this

theorem fromCartesian_m (S : SpicePerturbations ℝ) {sp sp' : Spice ℝ} (hs : SpiceMirrored σ sp sp') (t : ℝ) (rv : Fin 6 → ℝ) :
    S.fromCartesian sp' t (svMirror σ rv) =
      (S.fromCartesian sp t rv).map (mirror3 ![1, 1, σ 0 * σ 1 * σ 2]) := by
  have e1 : svPos (svMirror σ rv) = mirror3 σ (svPos rv) := by
    funext i; match i with | 0 | 1 | 2 => simp [svPos, svMirror, mirror3]
  unfold SpicePerturbations.fromCartesian
  cases S.thirdBodies with
  | none => rfl
  | some l =>
    simp only [bind, Except.bind]
    have hb := bodies_m hσ hs (S.etRef + t * S.TU) S.LU (svPos rv) l (![((0 : ℕ) : ℝ), ((0 : ℕ) : ℝ), ((0 : ℕ) : ℝ)])
    rw [zero_m] at hb
    simp only [bind, Except.bind] at hb
    rw [e1, hb]
    cases List.foldlM (m := Except PyErr) _ _ l with
    | error e => rfl
    | ok acc1 =>
      simp only [Except.map, j2_m hσ (hs.frame (S.etRef + t * S.TU)), hs.pos, hs.au, div_m, sub_m, srp_m hσ]
      cases S.useJ2 with
      | false =>
        cases S.useSRP with
        | false => simp only [Bool.false_eq_true, if_false, pure, Except.pure, ← e1, rtn_m hσ]
        | true => simp only [Bool.false_eq_true, if_false, if_true, pure, Except.pure, ← e1, rtn_m hσ, add_m]
      | true =>
        simp only [if_true]
        cases perturbationJ2 (svPos rv) (sp.pxform (S.etRef + t * S.TU)) S.obsMu S.J2 S.Re with
        | error e => rfl
        | ok aj =>
          cases S.useSRP with
          | false => simp only [Bool.false_eq_true, if_false, pure, Except.pure, ← e1, rtn_m hσ, add_m]
          | true => simp only [if_true, pure, Except.pure, ← e1, rtn_m hσ, add_m]

end Retro

/-- **C129, perturbations.** `get_perturbations_RTN` with reflected ephemerides, for the reflected elements: the normal
component changes sign. The second part is the same for the reflection of C94. -/
theorem C129_perturbations (S : SpicePerturbations ℝ) {sp sp' : Spice ℝ} (t : ℝ) (x : Fin 6 → ℝ) :
    (SpiceMirrored ![1, -1, 1] sp sp' →
      S.getPerturbationsRTN sp' t (retro x) "keplerian" = (S.getPerturbationsRTN sp t x "keplerian").map flipped) ∧
    (SpiceMirrored ![1, 1, -1] sp sp' →
      S.getPerturbationsRTN sp' t (mirrored .keplerian x) "keplerian" =
        (S.getPerturbationsRTN sp t x "keplerian").map flipped) := by
  have e : ∀ d : ℝ, d = -1 → mirror3 ![1, 1, d] = flipped := by
    rintro d rfl
    funext u i
    match i with
    | 0 | 1 | 2 => simp [mirror3, flipped]
  constructor
  · intro hs
    simp only [SpicePerturbations.getPerturbationsRTN, if_true, (C129_cartesian x _).1]
    cases kep2sv x S.obsMu with
    | error e => rfl
    | ok rv =>
      rw [← e _ (show (![1, -1, 1] : Fin 3 → ℝ) 0 * (![1, -1, 1] : Fin 3 → ℝ) 1 * (![1, -1, 1] : Fin 3 → ℝ) 2 = -1 by simp)]
      exact Retro.fromCartesian_m (fun i => by fin_cases i <;> simp) S hs t rv
  · intro hs
    simp only [SpicePerturbations.getPerturbationsRTN, if_true, (C129_cartesian x _).2]
    cases kep2sv x S.obsMu with
    | error e => rfl
    | ok rv =>
      rw [← e _ (show (![1, 1, -1] : Fin 3 → ℝ) 0 * (![1, 1, -1] : Fin 3 → ℝ) 1 * (![1, 1, -1] : Fin 3 → ℝ) 2 = -1 by simp)]
      exact Retro.fromCartesian_m (fun i => by fin_cases i <;> simp) S hs t rv

section samples
open CoastSample

/-- C129: the thrusting run of `Burn` turned into a retrograde run -/
example : ∃ Q'' H', (({ Burn.obj false with
      cfg := (Burn.cfg false).retro none
      prob := some Burn.prob.retro } : QLaw ℝ).solve (.flt 0) (.flt 0) 2 = some (Q'', none)) ∧
    Q''.hist = some H' ∧ Q''.exitcode = 1 ∧ H'.controls = [(0, -0, 1)] ∧
    ∃ y, H'.states = [retro Burn.prob.oe0, y] := by
  obtain ⟨Q', H, y, h1, h2, h3, -, h4, h5, -⟩ := Burn.run
  obtain ⟨Q'', H', a1, a2, a3, -, -, a5, -, -, a6, -⟩ := C129_retrograde
    (Q := Burn.obj false) (P := Burn.prob) (pert := none) (etaA' := .flt 0) (etaR' := .flt 0)
    (fun _ => rfl) rfl rfl rfl rfl rfl rfl
    (by
      intro k hk l u hl hu
      have hl' : ([0, 0, 0, 0, 0] : List ℝ)[k]? = some l := hl
      have hu' : ([9, 9, 9, 9, 9] : List ℝ)[k]? = some u := hu
      rcases hk with rfl | rfl <;> simp at hl' hu' <;> rw [← hl', ← hu'] <;> norm_num)
    trivial (fun _ _ _ _ => rfl) (fun _ _ _ _ => rfl) h1 h2
  exact ⟨Q'', H', a1, a2, by rw [a3, h3], by rw [a6, h4]; rfl, _, by rw [a5, h5]; rfl⟩

end samples

end PyQ
