import Verif.Model.Report
import Verif.Props.Export
import Verif.Props.Convergence
import Verif.Props.Outcome
import Verif.Examples.Burn
import Verif.Examples.MeeBurn
import Verif.Examples.Turn

/-! # Reports: printed errors (C86), element plots (C87, C88) and trajectory plots (C89) -/

set_option linter.unusedSectionVars false
set_option maxRecDepth 100000

namespace PyQ

section lawfree
variable {α : Type} [Add α] [Sub α] [Mul α] [Div α] [Neg α] [NatCast α] [Pow α ℕ]
  [PyTrans α] [PyOrd α] [PyNan α]

theorem asVec5_first5 {l : List α} {v : Fin 5 → α} (h : asVec5 l = .ok v) : first5 l = .ok v := by
  match l, h with
  | [a, b, c, d, e], h => exact h

theorem solve_prob {Q Q' : QLaw α} {P : Problem α} {etaA etaR : EtaArg α} {fuel : ℕ} {e : Option PyErr}
    {H : Hist α} (h : Q.solve etaA etaR fuel = some (Q', e)) (hv : etaA.valid = true)
    (hr : Q.ready = true) (hP : Q.prob = some P) (hH : Q'.hist = some H) :
    Q'.prob = some { P with oe0 := H.states.headD P.oe0 } ∧ Q'.cfg = Q.cfg := by
  simp only [QLaw.solve, hr, hP, hv, if_true, Option.map_eq_some_iff] at h
  obtain ⟨r, -, h⟩ := h
  injection h with h _
  subst h
  have : some r.st.hist = some H := hH
  injection this with this
  subst this
  exact ⟨rfl, rfl⟩

theorem solve_prob' {Q Q' : QLaw α} {P : Problem α} {etaA etaR : EtaArg α} {fuel : ℕ}
    {H : Hist α} (h : Q.solve etaA etaR fuel = some (Q', none)) (hP : Q.prob = some P)
    (hH : Q'.hist = some H) :
    Q'.prob = some { P with oe0 := H.states.headD P.oe0 } ∧ Q'.cfg = Q.cfg := by
  obtain ⟨n, tr, D, r, hr, hrH, v⟩ := solve_view h hP hH
  rw [hr.obj, ← hrH]
  exact ⟨rfl, rfl⟩

/-- what `pretty_results` prints after a completed run -/
theorem prettyResults_eq {Q Q' : QLaw α} {P : Problem α} {etaA etaR : EtaArg α} {fuel : ℕ}
    {H : Hist α} {v : Fin 5 → α} (h : Q.solve etaA etaR fuel = some (Q', none)) (hP : Q.prob = some P)
    (hH : Q'.hist = some H) (hT : asVec5 P.oeT = .ok v) :
    ∃ x t m, H.states.getLast? = some x ∧ H.times.getLast? = some t ∧ H.masses.getLast? = some m ∧
      Q'.prettyResults = .ok
        { exitcode := Q'.exitcode, converge := Q'.converge, final := fun i => x i.castSucc
          error := fun i => PyOrd.abs (x i.castSucc - v i), time := t, mass := m } := by
  obtain ⟨n, tr, D, r, hr, hrH, w⟩ := solve_view h hP hH
  have h1 : H.states ≠ [] := by intro h0; have := w.statesLen; rw [h0] at this; simp at this
  have h2 : H.times ≠ [] := by intro h0; have := w.times_length; rw [h0] at this; simp at this
  have h3 : H.masses ≠ [] := by intro h0; have := w.masses; rw [h0] at this; simp at this
  obtain ⟨hp, -⟩ := solve_prob' h hP hH
  refine ⟨H.states.getLast h1, H.times.getLast h2, H.masses.getLast h3, List.getLast?_eq_some_getLast h1,
    List.getLast?_eq_some_getLast h2, List.getLast?_eq_some_getLast h3, ?_⟩
  simp only [QLaw.prettyResults, QLaw.histories, hH, bind, Except.bind, pure, Except.pure, last1,
    List.getLast?_eq_some_getLast h1, List.getLast?_eq_some_getLast h2,
    List.getLast?_eq_some_getLast h3, QLaw.problem, hp, asVec5_first5 hT]

/-- the elements shown by `plot_elements_history` for a recorded state -/
def shownElements (conv : Bool) (x : Fin 6 → α) : Except PyErr (Fin 6 → α) :=
  if conv then meeWithA2kep x else .ok x

/-- the data of `plot_elements_history` after a completed run whose states and target can be converted -/
theorem elementsPlot_eq {Q Q' : QLaw α} {P : Problem α} {etaA etaR : EtaArg α} {fuel : ℕ}
    {H : Hist α} {v : Fin 5 → α} (h : Q.solve etaA etaR fuel = some (Q', none)) (hP : Q.prob = some P)
    (hH : Q'.hist = some H) (hT : asVec5 P.oeT = .ok v) (tu : α) (b m p conv : Bool)
    (hb : conv = (b && (Q.cfg.elementsType == ElemType.meeWithA)))
    {K : (Fin 6 → α) → Fin 6 → α} (hK : ∀ x ∈ H.states, shownElements conv x = .ok (K x))
    {T : Fin 6 → α}
    (hKT : shownElements conv ![v 0, v 1, v 2, v 3, v 4, ((0 : ℕ) : α)] = .ok T) :
    Q'.plotElementsHistory tu b m p = .ok {
      target := fun i =>
        if conv then .line (T i.castSucc * toDegrees i)
        else .band ((T i.castSucc - Q.cfg.tolOe i) * ((1 : ℕ) : α))
          ((T i.castSucc + Q.cfg.tolOe i) * ((1 : ℕ) : α))
      history := fun i => (H.times.map (· * tu),
        H.states.map fun x => K x i.castSucc * (if conv then toDegrees i else ((1 : ℕ) : α)))
      periapsis := if p then some (H.times.map (· * tu),
        H.states.map fun x => K x 0 * (((1 : ℕ) : α) - K x 1)) else none
      last := if m then (H.times.map (· * tu), H.masses)
        else (H.times.map (· * tu), H.states.map fun x =>
          PyTrans.fmod (K x 5) (((2 : ℕ) : α) * PyTrans.pi) * ((180 : ℕ) : α) / PyTrans.pi) } := by
  obtain ⟨n, tr, D, r, hr, hrH, w⟩ := solve_view h hP hH
  have hlen : H.times.length = H.states.length := by rw [w.times_length, w.statesLen]
  have hml : H.masses.length = H.states.length := by rw [w.statesLen, w.masses]; simp
  obtain ⟨hp, hcfg⟩ := solve_prob' h hP hH
  have hTv : P.oeT = [v 0, v 1, v 2, v 3, v 4] := by
    revert hT
    generalize P.oeT = l
    intro hT
    match l, hT with
    | [a, b, c, d, e], hT => injection hT with hT; subst hT; rfl
  have hrow : ∀ x ∈ H.states, (if conv then meeWithA2kep x else pure x) = .ok (K x) := hK
  let T5 : List α := [T 0, T 1, T 2, T 3, T 4]
  have hmap : (List.range H.times.length).map (Q'.elementRow H conv) =
      (H.states.map fun x => (K x, T5)).map Except.ok := by
    apply List.ext_getElem?
    intro k
    rw [List.getElem?_map, List.map_map, List.getElem?_map, hlen]
    by_cases hk : k < H.states.length
    · rw [List.getElem?_range hk, List.getElem?_eq_getElem hk]
      have hx := hrow _ (List.getElem_mem hk)
      cases conv with
      | true =>
        have hx' : meeWithA2kep H.states[k] = .ok (K H.states[k]) := hx
        have hkt : meeWithA2kep ![v 0, v 1, v 2, v 3, v 4, ((0 : ℕ) : α)] = .ok T := hKT
        simp only [QLaw.elementRow, Option.map, List.getElem?_eq_getElem hk, bind, Except.bind, QLaw.problem, hp,
          Function.comp, if_true, hT, hkt, hx']
        rfl
      | false =>
        have hx' : (.ok H.states[k] : Except PyErr (Fin 6 → α)) = .ok (K H.states[k]) := hx
        injection hx' with hx'
        simp only [QLaw.elementRow, Option.map, List.getElem?_eq_getElem hk, bind, Except.bind, QLaw.problem, hp,
          Function.comp, Bool.false_eq_true, if_false, pure, Except.pure, ← hx']
        have hkt : (.ok ![v 0, v 1, v 2, v 3, v 4, ((0 : ℕ) : α)] : Except PyErr (Fin 6 → α)) = .ok T := hKT
        injection hkt with hkt
        simp only [T5, ← hkt, hTv]
        rfl
    · rw [List.getElem?_eq_none (by simpa using hk), List.getElem?_eq_none (by simpa using hk)]
      rfl
  have hrows := mapM_except.2 hmap
  have hne : H.states ≠ [] := by intro h0; have := w.statesLen; rw [h0] at this; simp at this
  have hlast : (H.states.map fun x => (K x, T5)).getLast? = some (K (H.states.getLast hne), T5) := by
    rw [List.getLast?_map, List.getLast?_eq_some_getLast hne]; rfl
  have hf5 : first5 T5 = .ok ![T 0, T 1, T 2, T 3, T 4] := rfl
  have hTi : ∀ i : Fin 5, ![T 0, T 1, T 2, T 3, T 4] i = T i.castSucc := by
    intro i
    match i with
    | 0 => rfl
    | 1 => rfl
    | 2 => rfl
    | 3 => rfl
    | 4 => rfl
  simp only [QLaw.plotElementsHistory, QLaw.histories, hH, hcfg, ← hb, bind, Except.bind, hrows, hlast, hf5,
    pure, Except.pure, hTi]
  cases m <;> cases conv <;> simp [curve, hml, hlen, Function.comp_def]

end lawfree

section real
variable [PyNan ℝ]

/-- the last recorded state passes the check that the exit code reports -/
theorem reported_converged {Q Q' : QLaw ℝ} {P : Problem ℝ} {etaA etaR : EtaArg ℝ} {fuel : ℕ}
    {H : Hist ℝ} {v : Fin 5 → ℝ} (hf : Q.Fresh) (h : Q.solve etaA etaR fuel = some (Q', none))
    (hP : Q.prob = some P) (hH : Q'.hist = some H) (hT : asVec5 P.oeT = .ok v) {tol : Fin 5 → ℝ}
    (hx : Q'.exitcode = 1 ∧ tol = Q.cfg.tolOe ∨ Q'.exitcode = 2 ∧ tol = Q.cfg.tolOeRelaxed)
    {x : Fin 6 → ℝ} (hl : H.states.getLast? = some x) :
    Q.cfg.dyn.checkConv x v P.woe tol = true := by
  have key : ∀ P' : Problem ℝ, Q.prob = some P' → P' = P := by
    intro P' h'; rw [hP] at h'; injection h' with h'; exact h'.symm
  rcases hx with ⟨hx, rfl⟩ | ⟨hx, rfl⟩
  · obtain ⟨P', H', n, h1, h2, -, h3, h4, -⟩ := C03_strict_convergence hf h
    obtain rfl := key P' h1
    rw [hH] at h2
    injection h2 with h2
    subst h2
    have := (h3.1 hx).2
    rw [h4 (by rw [hx]; decide)] at hl
    injection hl with hl
    rw [hl, converged_eq (E := envOf Q P' etaA etaR) hT] at this
    exact this
  · obtain ⟨P', H', n, h1, h2, -, h3, -, h4, -⟩ := C04_relaxed_convergence hf h hx
    obtain rfl := key P' h1
    rw [hH] at h2
    injection h2 with h2
    subst h2
    rw [h3] at hl
    injection hl with hl
    rw [hl, converged_eq (E := envOf Q P' etaA etaR) hT] at h4
    exact h4

/-- **C86, modified equinoctial elements.** After a run that ended with exit code 1 (or 2), `pretty_results`
prints for every weighted element an error within `tol_oe` (or `tol_oe_relaxed`). -/
theorem C86_mee {Q Q' : QLaw ℝ} {P : Problem ℝ} {etaA etaR : EtaArg ℝ} {fuel : ℕ} {H : Hist ℝ}
    {v : Fin 5 → ℝ} (hf : Q.Fresh) (h : Q.solve etaA etaR fuel = some (Q', none))
    (hP : Q.prob = some P) (hH : Q'.hist = some H) (hT : asVec5 P.oeT = .ok v)
    (hd : Q.cfg.dyn = dynOf .meeWithA) :
    ∃ R, Q'.prettyResults = .ok R ∧ R.exitcode = Q'.exitcode ∧ R.converge = Q'.converge ∧
      some R.time = H.times.getLast? ∧ some R.mass = H.masses.getLast? ∧
      (∃ x : Fin 6 → ℝ, H.states.getLast? = some x ∧ (∀ i : Fin 5, R.final i = x i.castSucc) ∧
        ∀ i : Fin 5, R.error i = |x i.castSucc - v i|) ∧
      (Q'.exitcode = 1 → ∀ i, P.woe i = 0 ∨ R.error i ≤ Q.cfg.tolOe i) ∧
      (Q'.exitcode = 2 → ∀ i, P.woe i = 0 ∨ R.error i ≤ Q.cfg.tolOeRelaxed i) := by
  obtain ⟨x, t, m, hx, ht, hm, hR⟩ := prettyResults_eq h hP hH hT
  refine ⟨_, hR, rfl, rfl, ht.symm, hm.symm, ⟨x, hx, fun _ => rfl, fun _ => rfl⟩, ?_, ?_⟩
  · intro he i
    have := reported_converged hf h hP hH hT (Or.inl ⟨he, rfl⟩) hx
    rw [hd] at this
    have := (C34_mee_box_test x v P.woe Q.cfg.tolOe).1 this i
    rwa [abs_sub_comm] at this
  · intro he i
    have := reported_converged hf h hP hH hT (Or.inr ⟨he, rfl⟩) hx
    rw [hd] at this
    have := (C34_mee_box_test x v P.woe Q.cfg.tolOeRelaxed).1 this i
    rwa [abs_sub_comm] at this

/-- **C86, Keplerian elements** (partial). The errors printed for semi-major axis, eccentricity and
inclination are within the tolerance; those printed for RAAN and argument of periapsis are within it only
after adding whole turns to the difference, so the printed number can exceed the tolerance. -/
theorem C86_keplerian_partial {Q Q' : QLaw ℝ} {P : Problem ℝ} {etaA etaR : EtaArg ℝ} {fuel : ℕ} {H : Hist ℝ}
    {v : Fin 5 → ℝ} (hf : Q.Fresh) (h : Q.solve etaA etaR fuel = some (Q', none))
    (hP : Q.prob = some P) (hH : Q'.hist = some H) (hT : asVec5 P.oeT = .ok v)
    (hd : Q.cfg.dyn = dynOf .keplerian) :
    ∃ R, Q'.prettyResults = .ok R ∧ R.exitcode = Q'.exitcode ∧ R.converge = Q'.converge ∧
      some R.time = H.times.getLast? ∧ some R.mass = H.masses.getLast? ∧
      (∃ x : Fin 6 → ℝ, H.states.getLast? = some x ∧ (∀ i : Fin 5, R.final i = x i.castSucc) ∧
        ∀ i : Fin 5, R.error i = |x i.castSucc - v i|) ∧
      ∀ tol : Fin 5 → ℝ,
        (Q'.exitcode = 1 ∧ tol = Q.cfg.tolOe ∨ Q'.exitcode = 2 ∧ tol = Q.cfg.tolOeRelaxed) →
        (∀ i : Fin 5, i < 3 → P.woe i = 0 ∨ R.error i ≤ tol i) ∧
        ∀ i : Fin 5, 3 ≤ i → P.woe i = 0 ∨ ∃ k : ℤ, |v i - R.final i + k * (2 * Real.pi)| ≤ tol i := by
  obtain ⟨x, t, m, hx, ht, hm, hR⟩ := prettyResults_eq h hP hH hT
  refine ⟨_, hR, rfl, rfl, ht.symm, hm.symm, ⟨x, hx, fun _ => rfl, fun _ => rfl⟩, ?_⟩
  intro tol he
  have := reported_converged hf h hP hH hT he hx
  rw [hd] at this
  obtain ⟨h0, h1, h2, h3, h4⟩ := (C35_keplerian_check x v P.woe tol).1 this
  rw [abs_sub_comm] at h0 h1 h2
  constructor
  · intro i hi
    match i with
    | 0 => exact h0
    | 1 => exact h1
    | 2 => exact h2
    | 3 => exact absurd hi (by decide)
    | 4 => exact absurd hi (by decide)
  · intro i hi
    match i with
    | 0 => exact absurd hi (by decide)
    | 1 => exact absurd hi (by decide)
    | 2 => exact absurd hi (by decide)
    | 3 => exact h3
    | 4 => exact h4

end real

/-! ## C86: a violation -/

open CoastSample in
/-- **C86 fails for Keplerian angles.** With a target RAAN one turn above the initial one the run ends with
exit code 1 although the RAAN is weighted, its tolerance is 1 and the printed error is `2 * pi`. -/
theorem C86_violated : ∃ (Q Q' : QLaw ℝ) (P : Problem ℝ) (R : Results ℝ), Q.Fresh ∧
    Q.solve (.flt 0) (.flt 0) 2 = some (Q', none) ∧ Q.prob = some P ∧
    Q.cfg.dyn = dynOf .keplerian ∧ Q'.exitcode = 1 ∧ Q'.prettyResults = .ok R ∧ P.woe 3 = 1 ∧
    Q.cfg.tolOe 3 = 1 ∧ R.error 3 = 2 * Real.pi ∧ Q.cfg.tolOe 3 < R.error 3 := by
  obtain ⟨Q', H, y, h1, h2, h3, -, h4, h5, -⟩ := Turn.run
  obtain ⟨x, t, m, hx, -, -, hR⟩ :=
    prettyResults_eq (v := Turn.tgt) h1 (P := Turn.prob) rfl h2 rfl
  rw [h4] at hx
  have hx : some y = some x := hx
  injection hx with hx
  subst hx
  have he : |y 3 - (1 + 2 * Real.pi)| = 2 * Real.pi := by
    rw [h5, show (1 : ℝ) - (1 + 2 * Real.pi) = -(2 * Real.pi) by ring, abs_neg,
      abs_of_pos Real.two_pi_pos]
  refine ⟨Turn.obj, Q', Turn.prob, _, ⟨rfl, rfl⟩, h1, rfl, rfl, h3, hR, ?_, rfl, he, ?_⟩
  · simp [Turn.prob]
  · show (1 : ℝ) < |y 3 - (1 + 2 * Real.pi)|
    rw [he]; linarith [Real.pi_gt_three]

open CoastSample in
/-- the hypotheses of `C86_keplerian_partial` are met by a run that thrusts and converges -/
example : ∃ Q' H, (Burn.obj false).Fresh ∧ (Burn.obj false).solve (.flt 0) (.flt 0) 2 = some (Q', none) ∧
    Q'.hist = some H ∧ (Burn.obj false).prob = some Burn.prob ∧
    asVec5 Burn.prob.oeT = .ok ![2, 0, 0, 0, 0] ∧ (Burn.obj false).cfg.dyn = dynOf .keplerian ∧
    Q'.exitcode = 1 := by
  obtain ⟨Q', H, y, h1, h2, h3, -⟩ := Burn.run
  exact ⟨Q', H, ⟨rfl, rfl⟩, h1, h2, rfl, rfl, rfl, h3⟩

open CoastSample in
/-- the hypotheses of `C86_mee` are met by a run that thrusts and converges -/
example : ∃ Q' H, MeeBurn.obj.Fresh ∧ MeeBurn.obj.solve (.flt 0) (.flt 0) 2 = some (Q', none) ∧
    Q'.hist = some H ∧ MeeBurn.obj.prob = some MeeBurn.prob ∧
    asVec5 MeeBurn.prob.oeT = .ok ![2, 0, 0, 0, 0] ∧ MeeBurn.obj.cfg.dyn = dynOf .meeWithA ∧
    Q'.exitcode = 1 := by
  obtain ⟨Q', H, y, h1, h2, h3, -⟩ := MeeBurn.run
  exact ⟨Q', H, ⟨rfl, rfl⟩, h1, h2, rfl, rfl, rfl, h3⟩

/-! ## C87 -/

section real
variable [PyNan ℝ]

/-- **C87, elements of the run.** Without `to_keplerian`, or with an object that uses Keplerian elements,
`plot_elements_history` draws in panel `i` the band of half width `tol_oe[i]` around the target and the
recorded element `i` against the recorded time, and in the last panel the mass or the anomaly in degrees. -/
theorem C87_recorded {Q Q' : QLaw ℝ} {P : Problem ℝ} {etaA etaR : EtaArg ℝ} {fuel : ℕ} {H : Hist ℝ}
    {v : Fin 5 → ℝ} (h : Q.solve etaA etaR fuel = some (Q', none)) (hP : Q.prob = some P)
    (hH : Q'.hist = some H) (hT : asVec5 P.oeT = .ok v) (tu : ℝ) (b m p : Bool)
    (hb : b = false ∨ Q.cfg.elementsType = .keplerian) :
    ∃ D, Q'.plotElementsHistory tu b m p = .ok D ∧
      (∀ i, D.target i = .band (v i - Q.cfg.tolOe i) (v i + Q.cfg.tolOe i)) ∧
      (∀ i, (D.history i).1.length = H.times.length ∧ (D.history i).2.length = H.times.length) ∧
      D.last.1.length = H.times.length ∧ D.last.2.length = H.times.length ∧
      (D.periapsis.isSome = p) ∧
      ∀ (k : ℕ) (t mass : ℝ) (x : Fin 6 → ℝ), H.times[k]? = some t → H.masses[k]? = some mass →
        H.states[k]? = some x →
        (∀ i : Fin 5, pointAt (D.history i) k = (some (t * tu), some (x i.castSucc))) ∧
        pointAt D.last k = (some (t * tu),
          some (if m then mass else PyTrans.fmod (x 5) (2 * Real.pi) * 180 / Real.pi)) ∧
        ∀ c, D.periapsis = some c → pointAt c k = (some (t * tu), some (x 0 * (1 - x 1))) := by
  obtain ⟨n, tr, D, r, hr, hrH, w⟩ := solve_view h hP hH
  have hlen : H.states.length = H.times.length := by rw [w.times_length, w.statesLen]
  have hml : H.masses.length = H.times.length := by rw [w.times_length, w.masses]; simp
  have hc : false = (b && (Q.cfg.elementsType == ElemType.meeWithA)) := by
    rcases hb with hb | hb <;> simp [hb]
  refine ⟨_, elementsPlot_eq h hP hH hT tu b m p false hc (K := id) (fun _ _ => rfl) rfl, ?_, ?_, ?_, ?_,
    ?_, ?_⟩
  · intro i
    match i with
    | 0 => simp
    | 1 => simp
    | 2 => simp
    | 3 => simp
    | 4 => simp
  · simp [hlen]
  · cases m <;> simp
  · cases m <;> simp [hlen, hml]
  · cases p <;> simp
  · intro k t mass x hkt hkm hkx
    refine ⟨?_, ?_, ?_⟩
    · intro i; simp [pointAt, hkt, hkx]
    · cases m <;> simp [pointAt, hkt, hkx, hkm]
    · intro c hc
      cases p with
      | false => simp at hc
      | true =>
        simp only [if_true, Option.some.injEq] at hc
        subst hc
        simp [pointAt, hkt, hkx]

/-- **C87, target band.** After a run that ended with exit code 1, the last point of the curve of every
weighted element lies inside the band drawn for it: all five for modified equinoctial elements, and
semi-major axis, eccentricity and inclination for Keplerian elements. -/
theorem C87_in_band {Q Q' : QLaw ℝ} {P : Problem ℝ} {etaA etaR : EtaArg ℝ} {fuel : ℕ} {H : Hist ℝ}
    {v : Fin 5 → ℝ} (hf : Q.Fresh) (h : Q.solve etaA etaR fuel = some (Q', none)) (hP : Q.prob = some P)
    (hH : Q'.hist = some H) (hT : asVec5 P.oeT = .ok v) (tu : ℝ) (m p : Bool) {et : ElemType}
    (hd : Q.cfg.dyn = dynOf et) (hx : Q'.exitcode = 1) :
    ∃ D, Q'.plotElementsHistory tu false m p = .ok D ∧
      ∀ i : Fin 5, P.woe i ≠ 0 → (et = .keplerian → i < 3) → ∃ lo hi y, D.target i = .band lo hi ∧
        (D.history i).2.getLast? = some y ∧ lo ≤ y ∧ y ≤ hi := by
  obtain ⟨D, hD, hb, hl, -, -, -, hpt⟩ := C87_recorded h hP hH hT tu false m p (Or.inl rfl)
  refine ⟨D, hD, fun i hw hi => ⟨v i - Q.cfg.tolOe i, v i + Q.cfg.tolOe i, ?_⟩⟩
  obtain ⟨n, tr, D', r, hr, hrH, w⟩ := solve_view h hP hH
  have h1 : H.states.length = n + 1 := w.statesLen
  have h2 := w.times_length
  have h3 : H.masses.length = n + 1 := by rw [w.masses]; simp
  have hs : H.states[n]? = some (H.states[n]'(by omega)) := List.getElem?_eq_getElem _
  have ht : H.times[n]? = some (H.times[n]'(by omega)) := List.getElem?_eq_getElem _
  have hm : H.masses[n]? = some (H.masses[n]'(by omega)) := List.getElem?_eq_getElem _
  obtain ⟨hp, -⟩ := hpt n _ _ _ ht hm hs
  have hy := congrArg Prod.snd (hp i)
  have hlast : H.states.getLast? = some (H.states[n]'(by omega)) := by
    rw [← hs, List.getLast?_eq_getElem?, h1, Nat.add_sub_cancel]
  refine ⟨(H.states[n]'(by omega)) i.castSucc, hb i, ?_, ?_⟩
  · rw [List.getLast?_eq_getElem?, (hl i).2, h2, Nat.add_sub_cancel]; exact hy
  · have hchk := reported_converged hf h hP hH hT (Or.inl ⟨hx, rfl⟩) hlast
    rw [hd] at hchk
    generalize H.states[n]'(by omega) = x at hchk ⊢
    have : |v i - x i.castSucc| ≤ Q.cfg.tolOe i := by
      cases et with
      | meeWithA =>
        exact ((C34_mee_box_test x v P.woe Q.cfg.tolOe).1 hchk i).resolve_left hw
      | keplerian =>
        obtain ⟨h0, h1, h2, -⟩ := (C35_keplerian_check x v P.woe Q.cfg.tolOe).1 hchk
        have hi := hi rfl
        match i with
        | 0 => exact h0.resolve_left hw
        | 1 => exact h1.resolve_left hw
        | 2 => exact h2.resolve_left hw
        | 3 => exact absurd hi (by decide)
        | 4 => exact absurd hi (by decide)
    rw [abs_le] at this
    constructor <;> linarith

/-- conversion of elliptic elements -/
theorem meeWithA2kep_real (x : Fin 6 → ℝ) (hx : x 1 ^ 2 + x 2 ^ 2 < 1) :
    ∃ k, meeWithA2kep x = .ok k ∧ k 0 = x 0 ∧ k 1 = Real.sqrt (x 1 ^ 2 + x 2 ^ 2) := by
  have h1 : 1 - x 1 ^ 2 - x 2 ^ 2 ≠ 0 := by intro h; linarith
  have h2 : 1 - (meeWithA2mee x) 1 ^ 2 - (meeWithA2mee x) 2 ^ 2 ≠ 0 := h1
  refine ⟨_, mee2kep_real _ h2, ?_, rfl⟩
  simp [meeWithA2mee]
  field_simp

/-- **C87, converted elements.** With `to_keplerian` and modified equinoctial elements, and with elliptic
states and target, `plot_elements_history` draws a line at the converted target and the converted elements
of every recorded state, angles in degrees. -/
theorem C87_converted {Q Q' : QLaw ℝ} {P : Problem ℝ} {etaA etaR : EtaArg ℝ} {fuel : ℕ} {H : Hist ℝ}
    {v : Fin 5 → ℝ} (h : Q.solve etaA etaR fuel = some (Q', none)) (hP : Q.prob = some P)
    (hH : Q'.hist = some H) (hT : asVec5 P.oeT = .ok v) (tu : ℝ) (m p : Bool)
    (het : Q.cfg.elementsType = .meeWithA) (hell : ∀ x ∈ H.states, x 1 ^ 2 + x 2 ^ 2 < 1)
    (hellT : v 1 ^ 2 + v 2 ^ 2 < 1) :
    ∃ D kT, Q'.plotElementsHistory tu true m p = .ok D ∧
      meeWithA2kep ![v 0, v 1, v 2, v 3, v 4, 0] = .ok kT ∧
      (∀ i : Fin 5, D.target i = .line (kT i.castSucc * if i < 2 then 1 else 180 / Real.pi)) ∧
      (∀ i, (D.history i).1.length = H.times.length ∧ (D.history i).2.length = H.times.length) ∧
      D.last.1.length = H.times.length ∧ D.last.2.length = H.times.length ∧
      (D.periapsis.isSome = p) ∧
      ∀ (k : ℕ) (t mass : ℝ) (x : Fin 6 → ℝ), H.times[k]? = some t → H.masses[k]? = some mass →
        H.states[k]? = some x → ∃ kx, meeWithA2kep x = .ok kx ∧ kx 0 = x 0 ∧
        kx 1 = Real.sqrt (x 1 ^ 2 + x 2 ^ 2) ∧
        (∀ i : Fin 5, pointAt (D.history i) k =
          (some (t * tu), some (kx i.castSucc * if i < 2 then 1 else 180 / Real.pi))) ∧
        pointAt D.last k = (some (t * tu),
          some (if m then mass else PyTrans.fmod (kx 5) (2 * Real.pi) * 180 / Real.pi)) ∧
        ∀ c, D.periapsis = some c → pointAt c k = (some (t * tu), some (kx 0 * (1 - kx 1))) := by
  obtain ⟨n, tr, D, r, hr, hrH, w⟩ := solve_view h hP hH
  have hlen : H.states.length = H.times.length := by rw [w.times_length, w.statesLen]
  have hml : H.masses.length = H.times.length := by rw [w.times_length, w.masses]; simp
  have hc : true = (true && (Q.cfg.elementsType == ElemType.meeWithA)) := by simp [het]
  obtain ⟨kT, hkT, -⟩ := meeWithA2kep_real ![v 0, v 1, v 2, v 3, v 4, 0] hellT
  have hex : ∀ x : Fin 6 → ℝ, ∃ k, x 1 ^ 2 + x 2 ^ 2 < 1 → meeWithA2kep x = .ok k ∧ k 0 = x 0 ∧
      k 1 = Real.sqrt (x 1 ^ 2 + x 2 ^ 2) := by
    intro x
    by_cases hx : x 1 ^ 2 + x 2 ^ 2 < 1
    · obtain ⟨k, hk⟩ := meeWithA2kep_real x hx; exact ⟨k, fun _ => hk⟩
    · exact ⟨x, fun h => absurd h hx⟩
  choose K hK using hex
  have hdeg : ∀ i : Fin 5, (toDegrees i : ℝ) = if i < 2 then 1 else 180 / Real.pi := by
    intro i
    match i with
    | 0 => simp [toDegrees]
    | 1 => simp [toDegrees]
    | 2 => simp [toDegrees]
    | 3 => simp [toDegrees]
    | 4 => simp [toDegrees]
  refine ⟨_, kT, elementsPlot_eq h hP hH hT tu true m p true hc (K := K)
    (fun x hx => (hK x (hell x hx)).1) (T := kT) (by simpa [shownElements] using hkT), hkT, ?_, ?_, ?_, ?_,
    ?_, ?_⟩
  · intro i; simp [hdeg]
  · simp [hlen]
  · cases m <;> simp
  · cases m <;> simp [hlen, hml]
  · cases p <;> simp
  · intro k t mass x hkt hkm hkx
    obtain ⟨e1, e2, e3⟩ := hK x (hell x (List.mem_of_getElem? hkx))
    refine ⟨K x, e1, e2, e3, ?_, ?_, ?_⟩
    · intro i; simp [pointAt, hkt, hkx, hdeg]
    · cases m <;> simp [pointAt, hkt, hkx, hkm]
    · intro c hc
      cases p with
      | false => simp at hc
      | true =>
        simp only [if_true, Option.some.injEq] at hc
        subst hc
        simp [pointAt, hkt, hkx]

end real

/-! ## C88 -/

/-- radius of the Keplerian orbit with semi-major axis `a` and eccentricity `e` at true anomaly `nu` -/
noncomputable def orbitRadius (a e nu : ℝ) : ℝ := a * (1 - e ^ 2) / (1 + e * Real.cos nu)

/-- radius of the orbit with elements `a`, `f`, `g` at true longitude `l` -/
noncomputable def orbitRadiusMee (a f g l : ℝ) : ℝ :=
  a * (1 - f ^ 2 - g ^ 2) / (1 + f * Real.cos l + g * Real.sin l)

theorem periapsis_kep {a e : ℝ} (ha : 0 < a) (he0 : 0 ≤ e) (he1 : e < 1) :
    IsLeast (Set.range (orbitRadius a e)) (a * (1 - e)) := by
  constructor
  · refine ⟨0, ?_⟩
    have : 1 + e ≠ 0 := by linarith
    simp only [orbitRadius, Real.cos_zero, mul_one]
    field_simp
    ring
  · rintro _ ⟨nu, rfl⟩
    have h1 := Real.neg_one_le_cos nu
    have h2 := Real.cos_le_one nu
    have hw : 0 < 1 + e * Real.cos nu := by nlinarith
    rw [orbitRadius, le_div_iff₀ hw]
    have : 0 ≤ a * (1 - e) * e * (1 - Real.cos nu) :=
      mul_nonneg (mul_nonneg (mul_nonneg ha.le (by linarith)) he0) (by linarith)
    nlinarith

/-- both forms of the orbit have the same radii -/
theorem range_radius {a f g : ℝ} : Set.range (orbitRadiusMee a f g) =
    Set.range (orbitRadius a (Real.sqrt (f ^ 2 + g ^ 2))) := by
  have hs : Real.sqrt (f ^ 2 + g ^ 2) ^ 2 = f ^ 2 + g ^ 2 := Real.sq_sqrt (by positivity)
  obtain ⟨w, hf, hg⟩ : ∃ w, f = Real.sqrt (f ^ 2 + g ^ 2) * Real.cos w ∧
      g = Real.sqrt (f ^ 2 + g ^ 2) * Real.sin w := by
    refine ⟨Complex.arg ⟨f, g⟩, ?_, ?_⟩
    · have := Complex.norm_mul_cos_arg ⟨f, g⟩
      rw [Complex.norm_def, Complex.normSq_mk] at this
      rw [sq, sq]; exact this.symm
    · have := Complex.norm_mul_sin_arg ⟨f, g⟩
      rw [Complex.norm_def, Complex.normSq_mk] at this
      rw [sq, sq]; exact this.symm
  have key : ∀ l, orbitRadiusMee a f g l = orbitRadius a (Real.sqrt (f ^ 2 + g ^ 2)) (l - w) := by
    intro l
    have e1 : f * Real.cos l + g * Real.sin l = Real.sqrt (f ^ 2 + g ^ 2) * Real.cos (l - w) := by
      generalize Real.sqrt (f ^ 2 + g ^ 2) = q at hf hg
      rw [Real.cos_sub, hf, hg]
      ring
    rw [orbitRadiusMee, orbitRadius, hs, add_assoc, e1, sub_sub]
  ext r
  constructor
  · rintro ⟨l, rfl⟩; exact ⟨l - w, (key l).symm⟩
  · rintro ⟨nu, rfl⟩; exact ⟨nu + w, by rw [key, add_sub_cancel_right]⟩

/-- for an ellipse, the value drawn for unconverted modified equinoctial elements is the periapsis radius
exactly when the eccentricity vector points along the first axis -/
theorem periapsis_mee {a f g : ℝ} (ha : 0 < a) (he : f ^ 2 + g ^ 2 < 1) :
    IsLeast (Set.range (orbitRadiusMee a f g)) (a * (1 - f)) ↔ g = 0 ∧ 0 ≤ f := by
  have hs : Real.sqrt (f ^ 2 + g ^ 2) ^ 2 = f ^ 2 + g ^ 2 := Real.sq_sqrt (by positivity)
  have hs1 : Real.sqrt (f ^ 2 + g ^ 2) < 1 := by
    rw [Real.sqrt_lt' one_pos]; simpa using he
  have hl := periapsis_kep ha (Real.sqrt_nonneg (f ^ 2 + g ^ 2)) hs1
  rw [range_radius]
  constructor
  · intro h
    have : a * (1 - f) = a * (1 - Real.sqrt (f ^ 2 + g ^ 2)) := h.unique hl
    have e1 : f = Real.sqrt (f ^ 2 + g ^ 2) := by
      have := mul_left_cancel₀ ha.ne' this; linarith
    have e2 : 0 ≤ f := by rw [e1]; exact Real.sqrt_nonneg _
    rw [← e1] at hs
    exact ⟨by nlinarith, e2⟩
  · rintro ⟨rfl, h0⟩
    have : Real.sqrt (f ^ 2 + 0 ^ 2) = f := by
      rw [zero_pow two_ne_zero, add_zero, Real.sqrt_sq h0]
    rw [this] at hl ⊢
    exact hl

section real
variable [PyNan ℝ]

/-- **C88, Keplerian elements.** The overlay drawn with `plot_periapsis` shows the smallest distance of the
osculating orbit at each recorded time. -/
theorem C88_keplerian {Q Q' : QLaw ℝ} {P : Problem ℝ} {etaA etaR : EtaArg ℝ} {fuel : ℕ} {H : Hist ℝ}
    {v : Fin 5 → ℝ} (h : Q.solve etaA etaR fuel = some (Q', none)) (hP : Q.prob = some P)
    (hH : Q'.hist = some H) (hT : asVec5 P.oeT = .ok v) (tu : ℝ) (b m : Bool)
    (het : Q.cfg.elementsType = .keplerian) :
    ∃ D c, Q'.plotElementsHistory tu b m true = .ok D ∧ D.periapsis = some c ∧
      ∀ (k : ℕ) (t : ℝ) (x : Fin 6 → ℝ), H.times[k]? = some t → H.states[k]? = some x →
        0 < x 0 → 0 ≤ x 1 → x 1 < 1 →
        ∃ y, pointAt c k = (some (t * tu), some y) ∧ IsLeast (Set.range (orbitRadius (x 0) (x 1))) y := by
  obtain ⟨n, tr, D', r, hr, hrH, w⟩ := solve_view h hP hH
  obtain ⟨D, hD, -, -, -, -, hs, hpt⟩ := C87_recorded h hP hH hT tu b m true (Or.inr het)
  obtain ⟨c, hc⟩ := Option.isSome_iff_exists.1 hs
  refine ⟨D, c, hD, hc, fun k t x ht hx ha he0 he1 => ?_⟩
  have hk : k < n + 1 := by
    have := (List.getElem?_eq_some_iff.1 ht).1; rwa [w.times_length] at this
  have hm : H.masses[k]? = some (H.masses[k]'(by rw [w.masses]; simpa using hk)) :=
    List.getElem?_eq_getElem _
  exact ⟨_, (hpt k _ _ _ ht hm hx).2.2 c hc, periapsis_kep ha he0 he1⟩

/-- **C88, converted elements.** The same with modified equinoctial elements and `to_keplerian`. -/
theorem C88_converted {Q Q' : QLaw ℝ} {P : Problem ℝ} {etaA etaR : EtaArg ℝ} {fuel : ℕ} {H : Hist ℝ}
    {v : Fin 5 → ℝ} (h : Q.solve etaA etaR fuel = some (Q', none)) (hP : Q.prob = some P)
    (hH : Q'.hist = some H) (hT : asVec5 P.oeT = .ok v) (tu : ℝ) (m : Bool)
    (het : Q.cfg.elementsType = .meeWithA) (hell : ∀ x ∈ H.states, x 1 ^ 2 + x 2 ^ 2 < 1)
    (hellT : v 1 ^ 2 + v 2 ^ 2 < 1) :
    ∃ D c, Q'.plotElementsHistory tu true m true = .ok D ∧ D.periapsis = some c ∧
      ∀ (k : ℕ) (t : ℝ) (x : Fin 6 → ℝ), H.times[k]? = some t → H.states[k]? = some x → 0 < x 0 →
        ∃ y, pointAt c k = (some (t * tu), some y) ∧
          IsLeast (Set.range (orbitRadiusMee (x 0) (x 1) (x 2))) y := by
  obtain ⟨n, tr, D', r, hr, hrH, w⟩ := solve_view h hP hH
  obtain ⟨D, kT, hD, -, -, -, -, -, hs, hpt⟩ := C87_converted h hP hH hT tu m true het hell hellT
  obtain ⟨c, hc⟩ := Option.isSome_iff_exists.1 hs
  refine ⟨D, c, hD, hc, fun k t x ht hx ha => ?_⟩
  have hk : k < n + 1 := by
    have := (List.getElem?_eq_some_iff.1 ht).1; rwa [w.times_length] at this
  have hm : H.masses[k]? = some (H.masses[k]'(by rw [w.masses]; simpa using hk)) :=
    List.getElem?_eq_getElem _
  obtain ⟨kx, -, e0, e1, -, -, hp⟩ := hpt k _ _ _ ht hm hx
  refine ⟨_, hp c hc, ?_⟩
  rw [range_radius, e0, e1]
  refine periapsis_kep ha (Real.sqrt_nonneg _) ?_
  rw [Real.sqrt_lt' one_pos]
  simpa using hell x (List.mem_of_getElem? hx)

/-- **C88, unconverted modified equinoctial elements** (partial). The overlay shows `a (1 - f)`, which is the
smallest distance of the osculating ellipse exactly when `g = 0` and `f ≥ 0`. -/
theorem C88_mee_partial {Q Q' : QLaw ℝ} {P : Problem ℝ} {etaA etaR : EtaArg ℝ} {fuel : ℕ} {H : Hist ℝ}
    {v : Fin 5 → ℝ} (h : Q.solve etaA etaR fuel = some (Q', none)) (hP : Q.prob = some P)
    (hH : Q'.hist = some H) (hT : asVec5 P.oeT = .ok v) (tu : ℝ) (m : Bool) :
    ∃ D c, Q'.plotElementsHistory tu false m true = .ok D ∧ D.periapsis = some c ∧
      ∀ (k : ℕ) (t : ℝ) (x : Fin 6 → ℝ), H.times[k]? = some t → H.states[k]? = some x → 0 < x 0 →
        x 1 ^ 2 + x 2 ^ 2 < 1 →
        ∃ y, pointAt c k = (some (t * tu), some y) ∧
          (IsLeast (Set.range (orbitRadiusMee (x 0) (x 1) (x 2))) y ↔ x 2 = 0 ∧ 0 ≤ x 1) := by
  obtain ⟨n, tr, D', r, hr, hrH, w⟩ := solve_view h hP hH
  obtain ⟨D, hD, -, -, -, -, hs, hpt⟩ := C87_recorded h hP hH hT tu false m true (Or.inl rfl)
  obtain ⟨c, hc⟩ := Option.isSome_iff_exists.1 hs
  refine ⟨D, c, hD, hc, fun k t x ht hx ha he => ?_⟩
  have hk : k < n + 1 := by
    have := (List.getElem?_eq_some_iff.1 ht).1; rwa [w.times_length] at this
  have hm : H.masses[k]? = some (H.masses[k]'(by rw [w.masses]; simpa using hk)) :=
    List.getElem?_eq_getElem _
  exact ⟨_, (hpt k _ _ _ ht hm hx).2.2 c hc, periapsis_mee ha he⟩

end real

section periapsis_violation
open CoastSample

/-- a modified equinoctial orbit with its periapsis at longitude 90 degrees, and no time to fly -/
noncomputable def Tilted.prob : Problem ℝ :=
  { MeeBurn.prob with oe0 := ![1, 0, 1 / 2, 0, 0, 0], tfMax := 0 }

noncomputable def Tilted.obj : QLaw ℝ := { MeeBurn.obj with prob := some Tilted.prob }

theorem Tilted.run : ∃ Q' H, Tilted.obj.solve (.flt 0) (.flt 0) 1 = some (Q', none) ∧ Q'.hist = some H ∧
    H.states = [Tilted.prob.oe0] ∧ H.times = [0] := by
  have hg : guardB Tilted.prob (initLoop Tilted.prob) = false := by
    simp [guardB, initLoop, Hist.lastTime, Tilted.prob]
  refine ⟨Tilted.obj.finish Tilted.prob (.timeout (initLoop Tilted.prob)), _, ?_, rfl, ?_, ?_⟩
  · simp only [QLaw.solve, Tilted.obj, MeeBurn.obj, EtaArg.valid, if_true, loop, hg, Option.map]
    rfl
  · rfl
  · simp [RunRes.st, initLoop]

/-- **C88 fails for unconverted modified equinoctial elements**: the overlay shows 1 for an orbit whose
periapsis radius is 1/2. -/
theorem C88_violated : ∃ (Q Q' : QLaw ℝ) (H : Hist ℝ) (x : Fin 6 → ℝ) (D : ElementPlot ℝ) (c : List ℝ × List ℝ),
    Q.solve (.flt 0) (.flt 0) 1 = some (Q', none) ∧ Q'.hist = some H ∧ H.states[0]? = some x ∧
    Q.cfg.elementsType = .meeWithA ∧ Q'.plotElementsHistory 1 false true true = .ok D ∧
    D.periapsis = some c ∧ c.2[0]? = some 1 ∧
    IsLeast (Set.range (orbitRadiusMee (x 0) (x 1) (x 2))) (1 / 2) := by
  obtain ⟨Q', H, h1, h2, h3, h4⟩ := Tilted.run
  obtain ⟨n, tr, D', r, hr, hrH, w⟩ := solve_view h1 (P := Tilted.prob) rfl h2
  obtain ⟨D, hD, -, -, -, -, hs, hpt⟩ := C87_recorded (v := ![2, 0, 0, 0, 0]) h1 (P := Tilted.prob) rfl h2 rfl
    1 false true true (Or.inl rfl)
  obtain ⟨c, hc⟩ := Option.isSome_iff_exists.1 hs
  have hm : H.masses[0]? = some (H.masses[0]'(by rw [w.masses]; simp)) := List.getElem?_eq_getElem _
  have hx : H.states[0]? = some Tilted.prob.oe0 := by rw [h3]; rfl
  have ht : H.times[0]? = some 0 := by rw [h4]; rfl
  have := (hpt 0 _ _ _ ht hm hx).2.2 c hc
  refine ⟨Tilted.obj, Q', H, _, D, c, h1, h2, hx, rfl, hD, hc, ?_, ?_⟩
  · have := congrArg Prod.snd this
    simpa [pointAt, Tilted.prob] using this
  · have e : Real.sqrt ((0 : ℝ) ^ 2 + (1 / 2) ^ 2) = 1 / 2 := by
      rw [zero_pow two_ne_zero, zero_add, Real.sqrt_sq (by norm_num)]
    have := periapsis_kep (a := 1) (e := 1 / 2) one_pos (by norm_num) (by norm_num)
    rw [← e, ← range_radius, e] at this
    simp only [Tilted.prob, Matrix.cons_val]
    convert this using 1
    norm_num

end periapsis_violation

/-! ## C89 -/

section real
variable [PyNan ℝ]

/-- elements of an ellipse -/
structure Ellipse (k : Fin 6 → ℝ) : Prop where
  a : 0 < k 0
  e0 : 0 ≤ k 1
  e1 : k 1 < 1

/-- the elements `k` with true anomaly `nu` -/
def withTa (k : Fin 6 → ℝ) (nu : ℝ) : Fin 6 → ℝ := ![k 0, k 1, k 2, k 3, k 4, nu]

omit [PyNan ℝ] in
theorem Ellipse.point {k : Fin 6 → ℝ} (H : Ellipse k) {mu : ℝ} (hmu : 0 < mu) : OrbitPoint k mu := by
  obtain ⟨h0, h1, h2⟩ := H
  have := Real.neg_one_le_cos (k 5)
  exact ⟨hmu, mul_pos h0 (by nlinarith), by nlinarith⟩

omit [PyNan ℝ] in
/-- `get_orbit_coordinates` returns points of the orbit, at equally spaced true anomalies -/
theorem orbitCoordinates_points {k : Fin 6 → ℝ} (H : Ellipse k) {mu : ℝ} (hmu : 0 < mu) {n : ℕ}
    {L : List (Fin 6 → ℝ)} (hL : getOrbitCoordinates k mu n = .ok L) :
    L.length = n ∧ ∀ s ∈ L, ∃ nu, OnOrbit (withTa k nu) mu (svPos s) (svVel s) := by
  rw [getOrbitCoordinates, mapM_except] at hL
  constructor
  · have := congrArg List.length hL
    rw [List.length_map, List.length_map, linspace_length] at this
    exact this.symm
  · intro s hs
    have : Except.ok s ∈ L.map (Except.ok (ε := PyErr)) := List.mem_map_of_mem hs
    rw [← hL] at this
    obtain ⟨nu, -, hnu⟩ := List.mem_map.1 this
    have hE : Ellipse (withTa k nu) := ⟨H.a, H.e0, H.e1⟩
    obtain ⟨sv, h1, h2⟩ := C48_on_orbit (withTa k nu) mu (hE.point hmu)
    rw [withTa, hnu] at h1
    injection h1 with h1
    exact ⟨nu, h1 ▸ h2⟩

/-- **C89.** After a completed run, with elliptic states and target, `plot_trajectory_2d` and
`plot_trajectory_3d` (without interpolation) draw: 200 points of the initial orbit, 200 points of the target
orbit, and one point per record, in order, each on the osculating orbit of the recorded state. The first
marker is on the initial orbit, the second one on the orbit of the last record. Here `elems` gives the
Keplerian elements of a state in the elements of the object. -/
theorem C89_trajectory {Q Q' : QLaw ℝ} {P : Problem ℝ} {etaA etaR : EtaArg ℝ} {fuel : ℕ} {H : Hist ℝ}
    {v : Fin 5 → ℝ} (h : Q.solve etaA etaR fuel = some (Q', none)) (hP : Q.prob = some P)
    (hH : Q'.hist = some H) (hT : asVec5 P.oeT = .ok v) (hmu : 0 < Q.cfg.mu)
    {elems : (Fin 6 → ℝ) → Fin 6 → ℝ}
    (hel : ∀ x, x ∈ H.states ∨ x = ![v 0, v 1, v 2, v 3, v 4, 0] → Ellipse (elems x) ∧
      (Q.cfg.elementsType = .keplerian → elems x = x) ∧
      (Q.cfg.elementsType = .meeWithA → meeWithA2kep x = .ok (elems x))) :
    ∃ T x0 x1, Q'.plotTrajectory = .ok T ∧ H.states[0]? = some x0 ∧ H.states.getLast? = some x1 ∧
      T.initial.length = 200 ∧ T.final.length = 200 ∧ T.transfer.length = H.times.length ∧
      (∀ s ∈ T.initial, ∃ nu, OnOrbit (withTa (elems x0) nu) Q.cfg.mu (svPos s) (svVel s)) ∧
      (∀ s ∈ T.final, ∃ nu, OnOrbit (withTa (elems ![v 0, v 1, v 2, v 3, v 4, 0]) nu) Q.cfg.mu
        (svPos s) (svVel s)) ∧
      (∀ (k : ℕ) x, H.states[k]? = some x → ∃ s, T.transfer[k]? = some s ∧
        OnOrbit (elems x) Q.cfg.mu (svPos s) (svVel s)) ∧
      OnOrbit (elems x0) Q.cfg.mu (svPos T.start) (svVel T.start) ∧
      OnOrbit (elems x1) Q.cfg.mu (svPos T.stop) (svVel T.stop) := by
  obtain ⟨n, tr, D, r, hr, hrH, w⟩ := solve_view h hP hH
  obtain ⟨hp, hcfg⟩ := solve_prob' h hP hH
  have hlen : H.states.length = H.times.length := by rw [w.times_length, w.statesLen]
  have hoe : ∀ x, x ∈ H.states ∨ x = ![v 0, v 1, v 2, v 3, v 4, 0] →
      orbitElements Q.cfg x = .ok (elems x) := by
    intro x hx
    obtain ⟨-, h1, h2⟩ := hel x hx
    cases het : Q.cfg.elementsType with
    | keplerian => simp only [orbitElements, het]; rw [h1 het]
    | meeWithA => simp only [orbitElements, het]; exact h2 het
  have hcart : ∀ x ∈ H.states, ∃ c, (if Q'.cfg.elementsType = .keplerian then kep2sv x Q'.cfg.mu
      else meeWithA2sv x Q'.cfg.mu) = .ok c ∧ OnOrbit (elems x) Q.cfg.mu (svPos c) (svVel c) := by
    intro x hx
    obtain ⟨hE, h1, h2⟩ := hel x (Or.inl hx)
    obtain ⟨c, hc, ho⟩ := C48_on_orbit (elems x) Q.cfg.mu (hE.point hmu)
    refine ⟨c, ?_, ho⟩
    rw [hcfg]
    cases het : Q.cfg.elementsType with
    | keplerian => rw [if_pos rfl, ← h1 het]; rw [h1 het] at hc ⊢; exact hc
    | meeWithA =>
      rw [if_neg (by decide)]
      have := h2 het
      simp only [meeWithA2kep, meeWithA2mee] at this
      simp only [meeWithA2sv, this, bind, Except.bind]
      exact hc
  obtain ⟨g1, g2⟩ := C70_columns h hH (conv := fun x => if Q'.cfg.elementsType = .keplerian then
    kep2sv x Q'.cfg.mu else meeWithA2sv x Q'.cfg.mu) (fun x => rfl)
  obtain ⟨cols, hcols⟩ := g2 fun x hx => (hcart x hx).imp fun _ h => h.1
  obtain ⟨hcl, hck⟩ := g1 cols hcols
  have hon : ∀ (k : ℕ) x, H.states[k]? = some x → ∃ s, cols[k]? = some s ∧
      OnOrbit (elems x) Q.cfg.mu (svPos s) (svVel s) := by
    intro k x hx
    obtain ⟨s, hs, hs'⟩ := hck k x hx
    obtain ⟨c, hc, ho⟩ := hcart x (List.mem_of_getElem? hx)
    rw [hc] at hs'
    injection hs' with hs'
    exact ⟨s, hs, hs' ▸ ho⟩
  have hs1 : H.states.length = n + 1 := w.statesLen
  obtain ⟨x0, hx0⟩ : ∃ x0, H.states[0]? = some x0 := ⟨_, List.getElem?_eq_getElem (by omega)⟩
  obtain ⟨x1, hx1⟩ : ∃ x1, H.states[n]? = some x1 := ⟨_, List.getElem?_eq_getElem (by omega)⟩
  obtain ⟨c0, hc0, ho0⟩ := hon 0 x0 hx0
  obtain ⟨c1, hc1, ho1⟩ := hon n x1 hx1
  have hm0 : x0 ∈ H.states := List.mem_of_getElem? hx0
  have hhd : H.states.headD P.oe0 = x0 := by
    rw [List.headD_eq_head?_getD, List.head?_eq_getElem?, hx0]; rfl
  have hE0 := (hel x0 (Or.inl hm0)).1
  have hET := (hel _ (Or.inr rfl)).1
  obtain ⟨L0, hL0, -⟩ := C54_closes (elems x0) Q.cfg.mu 200 hmu hE0.a hE0.e0 hE0.e1
  obtain ⟨LT, hLT, -⟩ := C54_closes _ Q.cfg.mu 200 hmu hET.a hET.e0 hET.e1
  obtain ⟨hl0, hp0⟩ := orbitCoordinates_points hE0 hmu hL0
  obtain ⟨hlT, hpT⟩ := orbitCoordinates_points hET hmu hLT
  have hh : cols.head? = some c0 := by rw [List.head?_eq_getElem?, hc0]
  have hcn : cols.length = n + 1 := by rw [hcl, w.times_length]
  have hla : cols.getLast? = some c1 := by
    rw [List.getLast?_eq_getElem?, hcn, Nat.add_sub_cancel, hc1]
  refine ⟨{ initial := L0, final := LT, transfer := cols, start := c0, stop := c1 }, x0, x1, ?_, hx0, ?_,
    hl0, hlT, hcl, hp0, hpT, hon, ho0, ho1⟩
  · have hz : ((0 : ℕ) : ℝ) = 0 := Nat.cast_zero
    simp only [QLaw.plotTrajectory, hcols, QLaw.problem, hp, hcfg, hhd, bind, Except.bind, hT, last1,
      pure, Except.pure, hh, hla, hoe x0 (Or.inl hm0), hL0, hz, hoe _ (Or.inr rfl), hLT]
  · rw [List.getLast?_eq_getElem?, hs1, Nat.add_sub_cancel, hx1]

end real

open CoastSample in
/-- the hypotheses of C87, C88 and C89 are met by a Keplerian run of one step -/
example : ∃ Q' H, Turn.obj.solve (.flt 0) (.flt 0) 2 = some (Q', none) ∧ Q'.hist = some H ∧
    Turn.obj.prob = some Turn.prob ∧ asVec5 Turn.prob.oeT = .ok Turn.tgt ∧ 0 < Turn.obj.cfg.mu ∧
    Turn.obj.cfg.elementsType = .keplerian ∧ H.states.length = 2 ∧
    ∀ x, x ∈ H.states ∨ x = ![Turn.tgt 0, Turn.tgt 1, Turn.tgt 2, Turn.tgt 3, Turn.tgt 4, 0] →
      Ellipse (id x) ∧ (Turn.obj.cfg.elementsType = .keplerian → id x = x) ∧
      (Turn.obj.cfg.elementsType = .meeWithA → meeWithA2kep x = .ok (id x)) := by
  obtain ⟨Q', H, y, h1, h2, h3, -, h4, h5, h6, h7, h8⟩ := Turn.run
  refine ⟨Q', H, h1, h2, rfl, rfl, one_pos, rfl, by rw [h4]; rfl, ?_⟩
  intro x hx
  refine ⟨?_, fun _ => rfl, fun h => by cases h⟩
  rw [h4] at hx
  simp only [List.mem_cons, List.not_mem_nil, or_false] at hx
  rcases hx with (rfl | rfl) | rfl
  · refine ⟨?_, ?_, ?_⟩ <;> simp [Turn.prob, Burn.prob]
    norm_num
  · exact ⟨by simp only [id]; linarith, by simp only [id]; linarith, by simp only [id]; linarith⟩
  · refine ⟨?_, ?_, ?_⟩ <;> simp [Turn.tgt]

open CoastSample in
/-- the hypotheses of C87, C88 and C89 for modified equinoctial elements are met as well -/
example : ∃ Q' H, Tilted.obj.solve (.flt 0) (.flt 0) 1 = some (Q', none) ∧ Q'.hist = some H ∧
    Tilted.obj.prob = some Tilted.prob ∧ asVec5 Tilted.prob.oeT = .ok ![2, 0, 0, 0, 0] ∧
    0 < Tilted.obj.cfg.mu ∧ Tilted.obj.cfg.elementsType = .meeWithA ∧
    (∀ x ∈ H.states, 0 < x 0 ∧ x 1 ^ 2 + x 2 ^ 2 < 1) := by
  obtain ⟨Q', H, h1, h2, h3, h4⟩ := Tilted.run
  refine ⟨Q', H, h1, h2, rfl, rfl, one_pos, rfl, ?_⟩
  intro x hx
  rw [h3, List.mem_singleton] at hx
  subst hx
  simp [Tilted.prob]
  norm_num

open CoastSample in
/-- the hypotheses of `C73_curves` are met by a run of one step, so the points of its curves are defined -/
example : ∃ Q' H, (Burn.obj false).solve (.flt 0) (.flt 0) 2 = some (Q', none) ∧
    (Burn.obj false).prob = some Burn.prob ∧ Q'.hist = some H ∧ H.controls[0]? = some (0, 0, 1) ∧
    H.times[0]? = some 0 ∧ H.battery[0]? = some 1 := by
  obtain ⟨Q', H, y, h1, h2, -, -, h3, -, -, h4, -, h5⟩ := Burn.run
  exact ⟨Q', H, h1, rfl, h2, by rw [h3]; rfl, by rw [h4]; rfl, by rw [h5]; rfl⟩

end PyQ
