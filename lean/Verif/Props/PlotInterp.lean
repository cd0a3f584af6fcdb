import Verif.Model.PlotInterp
import Verif.Props.Report
import Verif.Props.Interpolated

/-!
C126: `plot_trajectory_3d()` with its default arguments draws the transfer after a run with at least three records and a
final time of at least 0.015, and where it fails otherwise.
-/

set_option linter.unusedSectionVars false
set_option maxRecDepth 100000

open Set

namespace PyQ

section lawfree
variable {α : Type} [Add α] [Sub α] [Mul α] [Div α] [Neg α] [NatCast α] [Pow α ℕ] [PyTrans α] [PyOrd α] [PyNan α]

theorem plotTrajectory_draw (Q : QLaw α) :
    Q.plotTrajectory = (do let c ← Q.getCartesianHistory; Q.drawTrajectory c) := rfl

/-- a plot with another transfer: the markers are its first and last points, an index error if it has none -/
def TrajectoryPlot.redraw (T : TrajectoryPlot α) (c : List (Fin 6 → α)) : Except PyErr (TrajectoryPlot α) :=
  match c.head?, c.getLast? with
  | some a, some b => .ok { T with transfer := c, start := a, stop := b }
  | _, _ => .error .indexError

/-- the drawn orbits do not depend on the Cartesian history -/
theorem draw_change {Q : QLaw α} {c : List (Fin 6 → α)} {T : TrajectoryPlot α} (h : Q.drawTrajectory c = .ok T)
    (c' : List (Fin 6 → α)) :
    Q.drawTrajectory c' = T.redraw c' := by
  unfold TrajectoryPlot.redraw
  unfold QLaw.drawTrajectory at h ⊢
  cases h1 : Q.problem with
  | error e => rw [h1] at h; cases h
  | ok P =>
    rw [h1] at h
    simp only [bind, Except.bind] at h ⊢
    cases h2 : orbitElements Q.cfg P.oe0 with
    | error e => rw [h2] at h; cases h
    | ok k0 =>
      rw [h2] at h
      simp only [] at h ⊢
      cases h3 : getOrbitCoordinates k0 Q.cfg.mu 200 with
      | error e => rw [h3] at h; cases h
      | ok L0 =>
        rw [h3] at h
        simp only [] at h ⊢
        cases h4 : asVec5 P.oeT with
        | error e => rw [h4] at h; cases h
        | ok v =>
          rw [h4] at h
          simp only [] at h ⊢
          cases h5 : orbitElements Q.cfg ![v 0, v 1, v 2, v 3, v 4, ((0 : ℕ) : α)] with
          | error e => rw [h5] at h; cases h
          | ok kT =>
            rw [h5] at h
            simp only [] at h ⊢
            cases h6 : getOrbitCoordinates kT Q.cfg.mu 200 with
            | error e => rw [h6] at h; cases h
            | ok LT =>
              rw [h6] at h
              simp only [] at h ⊢
              have hi : T.initial = L0 ∧ T.final = LT := by
                cases hh : c.head? with
                | none => rw [hh] at h; cases h
                | some a =>
                  rw [hh] at h
                  simp only [] at h
                  cases hl : last1 c with
                  | error e => rw [hl] at h; cases h
                  | ok b =>
                    rw [hl] at h
                    injection h with h
                    subst h
                    exact ⟨rfl, rfl⟩
              obtain ⟨i1, i2⟩ := hi
              cases hh : c'.head? with
              | none => rfl
              | some a =>
                simp only [last1]
                cases hl : c'.getLast? with
                | none => rfl
                | some b => simp only [pure, Except.pure]; rw [← i1, ← i2]

/-- **C126, too few records.** After a run with fewer than three records the default `plot_trajectory_3d()` raises a
`ValueError`, whatever the run. -/
theorem C126_short {Q : QLaw α} {H : Hist α} (hH : Q.hist = some H) (hl : H.times.length < 3)
    (interp : List α → List α → α → α) (roundInt : α → ℤ) (steps : Option ℕ) :
    Q.plotTrajectoryInterp interp roundInt steps = .error .valueError := by
  simp only [QLaw.plotTrajectoryInterp, QLaw.histories, hH, bind, Except.bind, if_pos hl]

end lawfree

/-- exact at its nodes, for times in increasing or decreasing order -/
def ExactAtTimes (interp : List ℝ → List ℝ → ℝ → ℝ) : Prop :=
  ∀ (τ v : List ℝ) (k : ℕ) (t y : ℝ), τ.Pairwise (· < ·) ∨ τ.Pairwise (· > ·) → τ.length = v.length →
    τ[k]? = some t → v[k]? = some y → interp τ v t = y

/-- linear interpolation is exact at its nodes -/
theorem linInterp_exact : ExactAtTimes linInterp := by
  intro τ
  induction τ with
  | nil => intro v k t y _ _ ht; simp at ht
  | cons a τ ih =>
    intro v k t y hp hl ht hv
    match τ, v, k, ih, hp, hl, ht, hv with
    | [], [w], 0, _, _, _, ht, hv =>
      simp only [List.getElem?_cons_zero, Option.some.injEq] at hv
      simp [linInterp, hv]
    | b :: τ, w :: z :: v, 0, ih, hp, hl, ht, hv =>
      simp only [List.getElem?_cons_zero, Option.some.injEq] at ht hv
      subst ht hv
      have hab : a ≤ b ∨ b ≤ a := by
        rcases hp with hp | hp
        · left; exact ((List.pairwise_cons.1 hp).1 b (by simp)).le
        · right; exact ((List.pairwise_cons.1 hp).1 b (by simp)).le
      rw [linInterp, if_pos (hab.imp (fun h => ⟨le_rfl, h⟩) (fun h => ⟨h, le_rfl⟩))]
      simp
    | b :: τ, w :: z :: v, 1, ih, hp, hl, ht, hv =>
      simp only [List.getElem?_cons_succ, List.getElem?_cons_zero, Option.some.injEq] at ht hv
      subst ht hv
      have hab : a < b ∨ b < a := by
        rcases hp with hp | hp
        · left; exact (List.pairwise_cons.1 hp).1 b (by simp)
        · right; exact (List.pairwise_cons.1 hp).1 b (by simp)
      rw [linInterp, if_pos (hab.imp (fun h => ⟨h.le, le_rfl⟩) (fun h => ⟨le_rfl, h.le⟩)),
        div_self (by rcases hab with h | h <;> intro e <;> linarith)]
      ring
    | b :: τ, w :: z :: v, k + 2, ih, hp, hl, ht, hv =>
      rw [List.getElem?_cons_succ] at ht hv
      have hp' : (b :: τ).Pairwise (· < ·) ∨ (b :: τ).Pairwise (· > ·) :=
        hp.imp (fun h => (List.pairwise_cons.1 h).2) (fun h => (List.pairwise_cons.1 h).2)
      have hmem : t ∈ τ := by
        rw [List.getElem?_cons_succ] at ht
        exact List.mem_of_getElem? ht
      have hout : ¬ ((a ≤ t ∧ t ≤ b) ∨ (b ≤ t ∧ t ≤ a)) := by
        rcases hp with hp | hp
        · obtain ⟨q1, q2⟩ := List.pairwise_cons.1 hp
          have p1 := q1 b (by simp)
          have p2 := (List.pairwise_cons.1 q2).1 t hmem
          rintro (⟨_, _⟩ | ⟨_, _⟩) <;> linarith
        · obtain ⟨q1, q2⟩ := List.pairwise_cons.1 hp
          have p1 := q1 b (by simp)
          have p2 := (List.pairwise_cons.1 q2).1 t hmem
          rintro (⟨_, _⟩ | ⟨_, _⟩) <;> linarith
      rw [linInterp, if_neg hout]
      exact ih (z :: v) (k + 1) t y hp' (by simpa using hl) ht hv

section real
variable [PyNan ℝ] {Q Q' : QLaw ℝ} {P : Problem ℝ} {etaA etaR : EtaArg ℝ} {fuel : ℕ} {H : Hist ℝ}
    {v : Fin 5 → ℝ} (h : Q.solve etaA etaR fuel = some (Q', none)) (hP : Q.prob = some P)
    (hH : Q'.hist = some H) (hT : asVec5 P.oeT = .ok v) (hmu : 0 < Q.cfg.mu)
    {elems : (Fin 6 → ℝ) → Fin 6 → ℝ}
    (hel : ∀ x, x ∈ H.states ∨ x = ![v 0, v 1, v 2, v 3, v 4, 0] → Ellipse (elems x) ∧
      (Q.cfg.elementsType = .keplerian → elems x = x) ∧
      (Q.cfg.elementsType = .meeWithA → meeWithA2kep x = .ok (elems x)))
    (h3 : 3 ≤ H.times.length) {interp : List ℝ → List ℝ → ℝ → ℝ} {roundInt : ℝ → ℤ} {steps : Option ℕ}
    {cols : List (Fin 6 → ℝ)} {ts : List ℝ} (hcols : Q'.getCartesianHistoryInterp interp roundInt steps = .ok (cols, ts))
include h hP hH hT hmu hel h3 hcols

theorem plotInterp_eq : ∃ (T : TrajectoryPlot ℝ) (x0 x1 : Fin 6 → ℝ), H.states[0]? = some x0 ∧ H.states.getLast? = some x1 ∧
    Q'.plotTrajectoryInterp interp roundInt steps = T.redraw cols ∧
    T.initial.length = 200 ∧ T.final.length = 200 ∧
    (∀ s ∈ T.initial, ∃ nu, OnOrbit (withTa (elems x0) nu) Q.cfg.mu (svPos s) (svVel s)) ∧
    (∀ s ∈ T.final, ∃ nu, OnOrbit (withTa (elems ![v 0, v 1, v 2, v 3, v 4, 0]) nu) Q.cfg.mu (svPos s) (svVel s)) ∧
    (∃ a, toCartesian Q'.cfg x0 = .ok a ∧ OnOrbit (elems x0) Q.cfg.mu (svPos a) (svVel a)) ∧
    (∃ b, toCartesian Q'.cfg x1 = .ok b ∧ OnOrbit (elems x1) Q.cfg.mu (svPos b) (svVel b)) := by
  obtain ⟨T, x0, x1, t1, t2, t3, t4, t5, t6, t7, t8, t9, -, -⟩ := C89_trajectory h hP hH hT hmu hel
  rw [plotTrajectory_draw] at t1
  cases hc : Q'.getCartesianHistory with
  | error e => rw [hc] at t1; cases t1
  | ok c =>
    rw [hc] at t1
    have t1' : Q'.drawTrajectory c = .ok T := t1
    have img : ∀ x ∈ H.states, ∃ a, toCartesian Q'.cfg x = .ok a ∧ OnOrbit (elems x) Q.cfg.mu (svPos a) (svVel a) := by
      intro x hx
      obtain ⟨hE, h1, h2⟩ := hel x (Or.inl hx)
      obtain ⟨a, ha, ho⟩ := C48_on_orbit (elems x) Q.cfg.mu (hE.point hmu)
      refine ⟨a, ?_, ho⟩
      rw [toCartesian, (solve_prob' h hP hH).2]
      cases het : Q.cfg.elementsType with
      | keplerian => simp only []; rw [← h1 het]; rw [h1 het] at ha ⊢; exact ha
      | meeWithA =>
        have := h2 het
        simp only [meeWithA2kep, meeWithA2mee] at this
        simp only [meeWithA2sv, this, bind, Except.bind]
        exact ha
    refine ⟨T, x0, x1, t2, t3, ?_, t4, t5, t7, t8, img x0 (List.mem_of_getElem? t2), img x1 (List.mem_of_getLast? t3)⟩
    rw [← draw_change t1' cols]
    simp only [QLaw.plotTrajectoryInterp, QLaw.histories, hH, bind, Except.bind, if_neg (show ¬ H.times.length < 3 by omega),
      hcols]

/-- **C126, no evaluation times.** After a run of at least three records whose number of evaluation times is zero (a final
time below 0.005 rounds to zero hundredths) the default `plot_trajectory_3d()` raises an `IndexError`. -/
theorem C126_empty (hz : interpSteps roundInt H steps = 0) :
    Q'.plotTrajectoryInterp interp roundInt steps = .error .indexError := by
  obtain ⟨T, x0, x1, -, -, e, -⟩ := plotInterp_eq h hP hH hT hmu hel h3 hcols
  simp only [QLaw.getCartesianHistoryInterp, QLaw.histories, hH, bind, Except.bind, hz, linspace, List.mapM_nil, pure,
    Except.pure] at hcols
  injection hcols with hcols
  injection hcols with hc _
  rw [e, ← hc]
  rfl

/-- the first and the last evaluated states -/
theorem interp_ends (hmono : H.times.Pairwise (· < ·) ∨ H.times.Pairwise (· > ·)) (hI : ExactAtTimes interp)
    {x0 x1 a b : Fin 6 → ℝ} (hx0 : H.states[0]? = some x0) (hx1 : H.states.getLast? = some x1)
    (ha : toCartesian Q'.cfg x0 = .ok a) (hb : toCartesian Q'.cfg x1 = .ok b) :
    cols.length = interpSteps roundInt H steps ∧
    (1 ≤ interpSteps roundInt H steps → cols.head? = some a) ∧
    (2 ≤ interpSteps roundInt H steps → cols.getLast? = some b) := by
  obtain ⟨n, tr, D, r, hr, hrH, w⟩ := solve_view h hP hH
  have hsl : H.states.length = n + 1 := w.statesLen
  have htl : H.times.length = n + 1 := w.times_length
  simp only [QLaw.getCartesianHistoryInterp, QLaw.histories, hH, bind, Except.bind] at hcols
  obtain ⟨N, hN⟩ : ∃ N, N = interpSteps roundInt H steps := ⟨_, rfl⟩
  rw [← hN] at hcols ⊢
  split at hcols
  · cases hcols
  rename_i cs hcs
  injection hcols with hcols
  injection hcols with hc _
  subst hc
  rw [mapM_except] at hcs
  have hcl : cs.length = N := by
    have := congrArg List.length hcs
    simp only [List.length_map, linspace_length] at this
    exact this.symm
  have hval : ∀ (k : ℕ) (t : ℝ) (x : Fin 6 → ℝ), H.times[k]? = some t → H.states[k]? = some x →
      (fun i => interp H.times (H.states.map fun s => s i) t) = x := by
    intro k t x ht hx
    funext i
    exact hI _ _ k t _ hmono (by simp [hsl, htl]) ht (by rw [List.getElem?_map, hx]; rfl)
  have hcol : ∀ (j k : ℕ) (t : ℝ) (x c : Fin 6 → ℝ), H.times[k]? = some t → H.states[k]? = some x →
      toCartesian Q'.cfg x = .ok c → (linspace (H.times.headD ((0 : ℕ) : ℝ)) H.lastTime N)[j]? = some t → cs[j]? = some c := by
    intro j k t x c ht hx hc hj
    have := congrArg (fun l => l[j]?) hcs
    simp only [List.getElem?_map, hj, Option.map_some] at this
    rw [hval k t x ht hx, hc] at this
    cases hcj : cs[j]? with
    | none => rw [hcj] at this; simp at this
    | some c' =>
      rw [hcj] at this
      simp only [Option.map_some, Option.some.injEq, Except.ok.injEq] at this
      rw [this]
  have ht0 : H.times[0]? = some (H.times.headD ((0 : ℕ) : ℝ)) := by
    rw [List.headD_eq_head?_getD, List.head?_eq_getElem?, List.getElem?_eq_getElem (by omega)]; rfl
  have htn : H.times[n]? = some H.lastTime := by
    rw [Hist.lastTime, List.getLastD_eq_getLast?, List.getLast?_eq_getElem?, htl, Nat.add_sub_cancel,
      List.getElem?_eq_getElem (by omega)]; rfl
  have hx1' : H.states[n]? = some x1 := by
    rw [List.getLast?_eq_getElem?, hsl, Nat.add_sub_cancel] at hx1; exact hx1
  refine ⟨hcl, fun h1 => ?_, fun h2 => ?_⟩
  · rw [List.head?_eq_getElem?]
    refine hcol 0 0 _ x0 a ht0 hx0 ha ?_
    match N, h1 with
    | 1, _ => rfl
    | N + 2, _ => simp [linspace, List.range_succ_eq_map]
  · rw [List.getLast?_eq_getElem?, hcl]
    refine hcol (N - 1) n _ x1 b htn hx1' hb ?_
    obtain ⟨m, rfl⟩ : ∃ m, N = m + 2 := ⟨N - 2, by omega⟩
    simp only [linspace, Nat.add_one_sub_one]
    rw [List.getElem?_append_right (by simp)]
    simp

/-- **C126.** After a completed run with elliptic states and target, at least three records at strictly monotone times, and
at least two evaluation times, `plot_trajectory_3d()` with interpolation returns whenever the interpolated elements can be converted: it draws 200 points of
the initial orbit, 200 points of the target orbit and one point per evaluation time; the first marker is on the orbit of the first record and the second one on
the orbit of the last record. -/
theorem C126_drawn_partial (hmono : H.times.Pairwise (· < ·) ∨ H.times.Pairwise (· > ·)) (hI : ExactAtTimes interp)
    (h2 : 2 ≤ interpSteps roundInt H steps) :
    ∃ T x0 x1, Q'.plotTrajectoryInterp interp roundInt steps = .ok T ∧ H.states[0]? = some x0 ∧ H.states.getLast? = some x1 ∧
      T.initial.length = 200 ∧ T.final.length = 200 ∧ T.transfer = cols ∧ T.transfer.length = interpSteps roundInt H steps ∧
      (∀ s ∈ T.initial, ∃ nu, OnOrbit (withTa (elems x0) nu) Q.cfg.mu (svPos s) (svVel s)) ∧
      (∀ s ∈ T.final, ∃ nu, OnOrbit (withTa (elems ![v 0, v 1, v 2, v 3, v 4, 0]) nu) Q.cfg.mu (svPos s) (svVel s)) ∧
      OnOrbit (elems x0) Q.cfg.mu (svPos T.start) (svVel T.start) ∧
      OnOrbit (elems x1) Q.cfg.mu (svPos T.stop) (svVel T.stop) := by
  obtain ⟨T, x0, x1, t2, t3, e, t4, t5, t6, t7, ⟨a, a1, a2⟩, b, b1, b2⟩ := plotInterp_eq h hP hH hT hmu hel h3 hcols
  obtain ⟨q1, q2, q3⟩ := interp_ends h hP hH hT hmu hel h3 hcols hmono hI t2 t3 a1 b1
  rw [TrajectoryPlot.redraw, q2 (by omega), q3 h2] at e
  exact ⟨_, x0, x1, e, t2, t3, t4, t5, rfl, q1, t6, t7, a2, b2⟩

/-- **C126, one evaluation time.** With exactly one evaluation time the marker of the end of the transfer is drawn at its
start. -/
theorem C126_single (hmono : H.times.Pairwise (· < ·) ∨ H.times.Pairwise (· > ·)) (hI : ExactAtTimes interp)
    (h1 : interpSteps roundInt H steps = 1) :
    ∃ T x0, Q'.plotTrajectoryInterp interp roundInt steps = .ok T ∧ H.states[0]? = some x0 ∧
      T.stop = T.start ∧ OnOrbit (elems x0) Q.cfg.mu (svPos T.stop) (svVel T.stop) := by
  obtain ⟨T, x0, x1, t2, t3, e, t4, t5, t6, t7, ⟨a, a1, a2⟩, b, b1, b2⟩ := plotInterp_eq h hP hH hT hmu hel h3 hcols
  obtain ⟨q1, q2, -⟩ := interp_ends h hP hH hT hmu hel h3 hcols hmono hI t2 t3 a1 b1
  have q2 := q2 (by omega)
  rw [h1] at q1
  obtain ⟨c, rfl⟩ := List.length_eq_one_iff.1 q1
  simp only [List.head?_cons, Option.some.injEq] at q2
  subst q2
  exact ⟨_, x0, e, t2, rfl, a2⟩

end real

/-- `int(round(x))` of numbers below one half is zero, so that final times below 0.005 give no evaluation time -/
theorem C126_no_steps {roundInt : ℝ → ℤ} (hr : ∀ x, |x| < 1 / 2 → roundInt x = 0) {H : Hist ℝ} (ht : |H.lastTime| < 1 / 200) :
    interpSteps roundInt H none = 0 := by
  have : roundInt (H.lastTime / rat 1 100) = 0 := by
    refine hr _ ?_
    rw [rat_real, abs_div, abs_of_pos (show (0 : ℝ) < ((1 : ℕ) : ℝ) / ((100 : ℕ) : ℝ) by norm_num), div_lt_iff₀ (by norm_num)]
    push_cast; linarith
  simp only [interpSteps, this]; rfl

open CoastSample in
/-- the default plot of the one-step run of `Turn` raises a `ValueError`, with any interpolation -/
example (interp : List ℝ → List ℝ → ℝ → ℝ) : ∃ Q' H, Turn.obj.solve (.flt 0) (.flt 0) 2 = some (Q', none) ∧ Q'.hist = some H ∧
    Q'.converge = true ∧ Q'.plotTrajectoryInterp interp round none = .error .valueError := by
  obtain ⟨Q', H, y, h1, h2, h3, -, h4, -⟩ := Turn.run
  obtain ⟨H1, P1, P1', N1, a1, a2, -, al, -⟩ := C01_histories_aligned h1
  rw [h2] at a1; injection a1 with a1; subst a1
  have hN : N1 = 1 := by
    have := al.states
    rw [h4] at this
    simpa using this.symm
  refine ⟨Q', H, h1, h2, ?_, C126_short h2 (by rw [al.times, hN]; norm_num) _ _ _⟩
  exact (C02_exit_codes ⟨rfl, rfl⟩ h1).2.2 (Or.inl h3)

namespace Burn
open CoastSample

/-- the runs of the next example do not end before their third record -/
theorem three_records {h T tf : ℝ} {fuel : ℕ} {Q' : QLaw ℝ} {H : Hist ℝ} {n : ℕ}
    (hs : (objB (-1) h T tf).solve (.flt 0) (.flt 0) fuel = some (Q', none)) (hH : Q'.hist = some H)
    (hn : H.times.length = n + 1) (he : Q'.exitcode = 1 ∨ Q'.exitcode = 2) : 2 ≤ n := by
  rcases he with he | he
  · exfalso
    obtain ⟨P, H', m, p1, p2, p3, p4, -⟩ := C03_strict_convergence ⟨rfl, rfl⟩ hs
    obtain ⟨-, p4⟩ := p4.1 he
    injection p1 with p1
    subst p1
    have p4' : checkConvergenceKeplerian _ _ _ _ = true := p4
    rw [C35_keplerian_check] at p4'
    have h1 : (1 : ℝ) = 0 ∨ |_ - _| ≤ (-1 : ℝ) := p4'.1
    rcases h1 with h1 | h1
    · norm_num at h1
    · have := abs_nonneg _ |>.trans h1
      norm_num at this
  · obtain ⟨P, H', m, p1, p2, p3, -, -, -, p4⟩ := C04_relaxed_convergence ⟨rfl, rfl⟩ hs he
    rw [hH] at p2; injection p2 with p2; subst p2
    have h5 := p3.times
    have h6 : ((objB (-1) h T tf).cfg.exitAtRelaxed) = 5 := rfl
    rw [h6] at p4
    have h7 := List.countP_le_length (p := fun k => Converged (envOf (objB (-1) h T tf) P (.flt 0) (.flt 0))
      (objB (-1) h T tf).cfg.tolOeRelaxed ((envOf (objB (-1) h T tf) P (.flt 0) (.flt 0)).after (k + 1)).oe)
      (l := List.range (m + 1))
    rw [List.length_range] at h7
    norm_num at p4
    omega

/-- C126: short-step runs backwards in time from the initial state of `Burn` over a time below 0.005 complete; with linear
interpolation the default plot of such a run raises an `IndexError`, with one point its end marker is at the start, and
with 50 points it is drawn -/
example : ∃ T > (0 : ℝ), ∃ tf > (0 : ℝ), ∃ δ > (0 : ℝ), ∀ h : ℝ, 0 < h → h < δ → ∀ fuel : ℕ, tf / h + 2 ≤ fuel → ∃ Q' H,
      (objB (-1) h T tf).solve (.flt 0) (.flt 0) fuel = some (Q', none) ∧ Q'.hist = some H ∧ 3 ≤ H.times.length ∧
      Q'.plotTrajectoryInterp linInterp round none = .error .indexError ∧
      (∃ P, Q'.plotTrajectoryInterp linInterp round (some 1) = .ok P ∧ P.stop = P.start) ∧
      ∃ P, Q'.plotTrajectoryInterp linInterp round (some 50) = .ok P ∧ P.transfer.length = 50 := by
  have hbox : IsOpen {x : Fin 6 → ℝ | (∀ j : Fin 5, 0 < x j.castSucc ∧ x j.castSucc < 9) ∧ x 1 < 1} := by
    have h1 : IsOpen {x : Fin 6 → ℝ | ∀ j : Fin 5, 0 < x j.castSucc ∧ x j.castSucc < 9} := by
      simp only [Set.ofPred_forall]
      refine isOpen_iInter_of_finite fun j => ?_
      exact (isOpen_lt continuous_const (continuous_apply _)).inter (isOpen_lt (continuous_apply _) continuous_const)
    exact h1.inter (isOpen_lt (continuous_apply _) continuous_const)
  obtain ⟨T, hT, γ, h0, hM, hS⟩ := C115_exists (C := cfgD) (et := .keplerian) (oeT := ![2, 0, 0, 0, 0])
    (woe := ![1, 0, 0, 0, 0]) (tmax := 1 / 100) (m0 := 1) (mdot := 1 / 10) (σ := -1) (g := 1) (x := prob.oe0) (Or.inr rfl)
    smooth_d ⟨1, by decide, burn_grad _ oe0_box⟩ (pert_d _) hbox ⟨burn_region.inside _ oe0_box, by simp [prob]; norm_num⟩
    (by norm_num) (by norm_num)
  have hbd : (cfgDTol (-1)).elementsType = .keplerian →
      BoundsAre (cfgDTol (-1)).oeMin (fun _ => (0 : ℝ)) ∧ BoundsAre (cfgDTol (-1)).oeMax (fun _ => (9 : ℝ)) := by
    intro _; constructor <;> intro j <;> fin_cases j <;> rfl
  have hm : ∀ s ∈ Icc 0 T, 0 < 1 - 1 / 10 * (-1 * s) := fun s hs => (hS s hs).1
  have hcont : ContinuousOn γ (Icc 0 T) := (disturbed_switched hM).1
  obtain ⟨ρ, hρ, htube⟩ := tube_open hcont hbox fun t ht => (hS t ht).2.2.2
  obtain ⟨δ, hδ, K, hK, hL⟩ := C116_completes (C := cfgDTol (-1)) (et := .keplerian) (fun _ => rfl) rfl rfl (Or.inr rfl)
    hbd hM (fun t ht => ⟨(hS t ht).2.1, (hS t ht).2.2.1, fun _ => (hS t ht).2.2.2.1⟩) (fun h => by cases h) hT
    (by norm_num) hm
  obtain ⟨sv, hF, δ', hδ', K', hK', hrun⟩ := C125_thrusting (C := cfgDTol (-1)) (et := .keplerian) (fun _ => rfl) rfl rfl rfl (Or.inr rfl)
    hbd hM (fun t ht => ⟨(hS t ht).2.1, (fun h => by cases h), (hS t ht).2.2.1, fun _ => (hS t ht).2.2.2.1⟩)
    (fun h => by cases h) hT (by norm_num) hm zero_le_one (lin_uniform (Or.inr rfl))
  obtain ⟨tf, htf⟩ : ∃ tf, tf = min (T / 2) (1 / 400) := ⟨_, rfl⟩
  have htf0 : 0 < tf := by rw [htf]; positivity
  have htf1 : tf ≤ T / 2 := by rw [htf]; exact min_le_left _ _
  have htf2 : tf ≤ 1 / 400 := by rw [htf]; exact min_le_right _ _
  refine ⟨T, hT, tf, htf0, min (min δ δ') (min (tf / 2) (ρ / (K + 1))), by positivity, fun h hh hhd fuel hf => ?_⟩
  have d1 := hhd.trans_le ((min_le_left _ _).trans (min_le_left _ _))
  have d2 := hhd.trans_le ((min_le_left _ _).trans (min_le_right _ _))
  have d3 := hhd.trans_le ((min_le_right _ _).trans (min_le_left _ _))
  have d4 : K * h < ρ := by
    have := hhd.trans_le ((min_le_right _ _).trans (min_le_right _ _))
    rw [lt_div_iff₀ (by positivity)] at this
    nlinarith
  have etf : |(probB h T tf).tfMax| = tf := by
    simp only [probB]; rw [abs_neg, abs_of_pos htf0]
  have etf0 : (probB h T tf).tfMax ≠ 0 := by simp only [probB]; linarith
  obtain ⟨Q', H, n, g1, g2, g3, g4, g5, -, -, g8, g9⟩ := hL h hh d1
    (objB (-1) h T tf) (probB h T tf) 0 0 fuel le_rfl le_rfl (by rw [h0]; exact starts_B _ _ _ _) etf0
    (by rw [etf]; linarith) (by rw [etf]; exact hf)
  obtain ⟨Q1, H1, k1, k2, k3, -⟩ := hrun h hh d2
    (objB (-1) h T tf) (probB h T tf) 0 0 fuel le_rfl le_rfl (by rw [h0]; exact starts_B _ _ _ _) etf0
    (by rw [etf]; linarith) (by rw [etf]; exact hf)
  rw [g1] at k1
  injection k1 with k1
  injection k1 with k1 _
  subst k1
  rw [g2] at k2
  injection k2 with k2
  subst k2
  rw [etf] at g4 g9
  have hlen : H.times.length = n + 1 := by rw [g3]; simp
  have hn : 2 ≤ n := by
    rcases g9 with ⟨g, -⟩ | ⟨-, -, g⟩
    · exact three_records g1 g2 hlen g
    · by_contra hc
      have : (n : ℝ) ≤ 1 := by exact_mod_cast (by omega : n ≤ 1)
      nlinarith
  have hlt : H.lastTime = -1 * (n * h) := by rw [Hist.lastTime, g3, List.range_succ]; simp
  have hel : ∀ x, x ∈ H.states ∨ x = ![(2 : ℝ), 0, 0, 0, 0, 0] → Ellipse (id x) ∧
      ((objB (-1) h T tf).cfg.elementsType = .keplerian → id x = x) ∧
      ((objB (-1) h T tf).cfg.elementsType = .meeWithA → meeWithA2kep x = .ok (id x)) := by
    intro x hx
    refine ⟨?_, fun _ => rfl, fun h => by cases h⟩
    rcases hx with hx | rfl
    · obtain ⟨k, hk⟩ := List.getElem?_of_mem hx
      have hkn : k < n + 1 := by rw [← g5]; exact (List.getElem?_eq_some_iff.1 hk).1
      have hkn' : (k : ℝ) ≤ n := by exact_mod_cast Nat.lt_succ_iff.1 hkn
      have hmem : x ∈ Metric.ball (γ (k * h)) ρ := by
        rw [Metric.mem_ball, dist_pi_lt_iff hρ]
        exact fun i => (g8 k x hk i).trans_lt d4
      have := htube _ ⟨by positivity, by nlinarith⟩ hmem
      exact ⟨(this.1 0).1, (this.1 1).1.le, this.2⟩
    · refine ⟨?_, ?_, ?_⟩ <;> simp
  have hmono : H.times.Pairwise (· < ·) ∨ H.times.Pairwise (· > ·) := by
    right
    rw [g3, List.pairwise_map]
    refine List.Pairwise.imp_of_mem ?_ List.pairwise_lt_range
    intro a b _ _ hab
    have : (a : ℝ) < b := by exact_mod_cast hab
    show -1 * ((a : ℝ) * h) > -1 * (b * h)
    nlinarith
  have hT5 : asVec5 (probB h T tf).oeT = .ok ![(2 : ℝ), 0, 0, 0, 0] := rfl
  have key : ∀ steps, ∃ cols ts, Q'.getCartesianHistoryInterp linInterp round steps = .ok (cols, ts) := fun steps => by
    obtain ⟨cols, ts, q, -⟩ := k3 round steps
    exact ⟨cols, ts, q⟩
  refine ⟨Q', H, g1, g2, by omega, ?_, ?_, ?_⟩
  · obtain ⟨cols, ts, q⟩ := key none
    refine C126_empty g1 rfl g2 hT5 one_pos hel (by omega) q (C126_no_steps (fun x hx => ?_) ?_)
    · rw [round_eq_zero_iff]
      rw [abs_lt] at hx
      exact ⟨hx.1.le, hx.2⟩
    · rw [hlt, abs_mul, abs_neg, abs_one, one_mul, abs_of_nonneg (by positivity)]
      linarith
  · obtain ⟨cols, ts, q⟩ := key (some 1)
    obtain ⟨P, x0, p1, -, p2, -⟩ := C126_single g1 rfl g2 hT5 one_pos hel (by omega) q hmono linInterp_exact rfl
    exact ⟨P, p1, p2⟩
  · obtain ⟨cols, ts, q⟩ := key (some 50)
    obtain ⟨P, x0, x1, p1, -, -, -, -, -, p2, -⟩ := C126_drawn_partial g1 rfl g2 hT5 one_pos hel (by omega) q hmono linInterp_exact
      (show 2 ≤ 50 by norm_num)
    exact ⟨P, p1, p2⟩

end Burn

end PyQ
