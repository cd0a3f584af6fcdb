import Verif.Model.Plot
import Verif.Props.Outcome
import Verif.Props.Coast
import Verif.Props.Cartesian
import Verif.Props.Elements
import Verif.Props.Time

/-! # Exported results (C68, C69, C70) and curves handed to matplotlib (C73) -/

set_option linter.unusedSectionVars false
set_option maxRecDepth 100000
set_option synthInstance.maxSize 1000

namespace PyQ

theorem mapM_except {ε β γ : Type} {f : β → Except ε γ} : ∀ {l : List β} {r : List γ},
    l.mapM f = .ok r ↔ l.map f = r.map Except.ok := by
  intro l
  induction l with
  | nil => intro r; cases r <;> simp [pure, Except.pure]
  | cons a l ih =>
    intro r
    rw [List.mapM_cons]
    simp only [bind, Except.bind, pure, Except.pure, List.map_cons]
    cases ha : f a with
    | error e =>
      cases r <;> simp
    | ok b =>
      simp only []
      cases hl : l.mapM f with
      | error e =>
        simp only [reduceCtorEq, false_iff]
        intro h
        cases r with
        | nil => simp at h
        | cons c r =>
          simp only [List.map_cons, List.cons.injEq] at h
          rw [ih.2 h.2] at hl
          cases hl
      | ok s =>
        have := ih.1 hl
        cases r with
        | nil => simp
        | cons c r =>
          simp only [List.map_cons, List.cons.injEq, Except.ok.injEq, this]
          constructor
          · rintro ⟨rfl, rfl⟩; exact ⟨rfl, rfl⟩
          · rintro ⟨rfl, h⟩
            exact ⟨rfl, List.map_injective_iff.2 (fun _ _ h => by injection h) h⟩

section lawfree
variable {α : Type} [Add α] [Sub α] [Mul α] [Div α] [Neg α] [NatCast α] [Pow α ℕ]
  [PyTrans α] [PyOrd α] [PyNan α]

theorem saveToDict_eq {Q : QLaw α} {H : Hist α} (hH : Q.hist = some H) (b : Bool) :
    Q.saveToDict b = .ok (H.saved b, Q) := by
  simp only [QLaw.saveToDict, QLaw.histories, hH, bind, Except.bind, pure, Except.pure]

/-- **C68.** After a completed run, `save_to_dict` returns, leaves the object as it is, and exports the
recorded times, one state row and one control row per time. Control row `k` is the recorded control
`k` (angles and throttle, or the RTN direction of the thrust and the throttle), the last row is the
coasting row `(0, 0, 0)`, respectively the direction of zero angles with throttle 0. -/
theorem C68_saved {Q Q' : QLaw α} {etaA etaR : EtaArg α} {fuel : ℕ} {H : Hist α}
    (h : Q.solve etaA etaR fuel = some (Q', none)) (hH : Q'.hist = some H) (angles : Bool) :
    ∃ S, Q'.saveToDict angles = .ok (S, Q') ∧ S.times = H.times ∧
      H.times.getLast? = some S.tf ∧
      S.controls.length = H.times.length ∧ S.states.length = H.times.length ∧
      (∀ (k : ℕ) a b θ, H.controls[k]? = some (a, b, θ) → S.controls[k]? = some
        (if angles then [a, b, (θ : α)]
         else [PyTrans.cos b * PyTrans.sin a, PyTrans.cos b * PyTrans.cos a, PyTrans.sin b, (θ : α)])) ∧
      S.controls.getLast? = some
        (if angles then [((0 : ℕ) : α), ((0 : ℕ) : α), ((0 : ℕ) : α)]
         else [PyTrans.cos ((0 : ℕ) : α) * PyTrans.sin ((0 : ℕ) : α),
               PyTrans.cos ((0 : ℕ) : α) * PyTrans.cos ((0 : ℕ) : α),
               PyTrans.sin ((0 : ℕ) : α), ((0 : ℕ) : α)]) := by
  obtain ⟨P, n, tr, D, r, hr⟩ := solve_return h
  obtain ⟨n, tr, D, r, hr, _, v⟩ := solve_view h hr.prob hH
  refine ⟨H.saved angles, saveToDict_eq hH angles, ?_⟩
  refine ⟨rfl, ?_, ?_, ?_, ?_, ?_⟩ <;> simp only [Hist.saved]
  · simp only [Hist.lastTime]
    rw [List.getLastD_eq_getLast?]
    have : H.times ≠ [] := by
      intro h0; have := v.times_length; rw [h0] at this; simp at this
    rw [List.getLast?_eq_some_getLast this]; rfl
  · simp [controlRows, v.times_length, v.controls_length]
  · simp [v.times_length, v.statesLen, v.masses]
  · intro k a b θ hk
    simp only [controlRows, List.map_append, List.map_map]
    rw [List.getElem?_append_left (by simpa using (List.getElem?_eq_some_iff.mp hk).1)]
    simp [hk]
  · simp [controlRows]

/-- **C69 (mee_with_a).** State row `k` of the export consists of `a (1 - f² - g²)`, the other five
recorded elements and the recorded mass. -/
theorem C69_rows {Q Q' : QLaw α} {etaA etaR : EtaArg α} {fuel : ℕ} {H : Hist α}
    (_h : Q.solve etaA etaR fuel = some (Q', none)) (hH : Q'.hist = some H) (angles : Bool) :
    ∃ S, Q'.saveToDict angles = .ok (S, Q') ∧
      ∀ (k : ℕ) (x : Fin 6 → _) m, H.states[k]? = some x → H.masses[k]? = some m → S.states[k]? = some
        [x 0 * (((1 : ℕ) : α) - x 1 ^ 2 - x 2 ^ 2), x 1, x 2, x 3, x 4, x 5, m] := by
  refine ⟨H.saved angles, saveToDict_eq hH angles, ?_⟩
  · intro k x m hx hm
    have hz : (H.states.zip H.masses)[k]? = some (x, m) := List.getElem?_zip_eq_some.2 ⟨hx, hm⟩
    simp [Hist.saved, hz, List.getElem?_map, vec6List, meeWithA2mee]

/-- **C70.** After a completed run, `get_cartesian_history(interpolate=False)` either has one column per
recorded time, column `k` being the conversion of recorded state `k` for the element type of the
object, or raises the exception of a failing conversion. -/
theorem C70_columns {Q Q' : QLaw α} {etaA etaR : EtaArg α} {fuel : ℕ} {H : Hist α}
    (h : Q.solve etaA etaR fuel = some (Q', none)) (hH : Q'.hist = some H)
    {conv : (Fin 6 → α) → Except PyErr (Fin 6 → α)}
    (hconv : ∀ x, conv x = if Q'.cfg.elementsType = .keplerian then kep2sv x Q'.cfg.mu
      else meeWithA2sv x Q'.cfg.mu) :
    (∀ cols, Q'.getCartesianHistory = .ok cols → cols.length = H.times.length ∧
      ∀ (k : ℕ) x, H.states[k]? = some x → ∃ c, cols[k]? = some c ∧ conv x = .ok c) ∧
    ((∀ x ∈ H.states, ∃ c, conv x = .ok c) → ∃ cols, Q'.getCartesianHistory = .ok cols) := by
  obtain ⟨P, n, tr, D, r, hr⟩ := solve_return h
  obtain ⟨n, tr, D, r, hr, _, v⟩ := solve_view h hr.prob hH
  have hlen : H.times.length = H.states.length := by rw [v.times_length, v.statesLen]
  have hc : ∀ x, toCartesian Q'.cfg x = conv x := by
    intro x
    rw [hconv, toCartesian]
    cases Q'.cfg.elementsType <;> simp
  have hf : (List.range H.times.length).map (fun idx =>
      match H.states[idx]? with
      | some oe => toCartesian Q'.cfg oe
      | none => .error .indexError) = H.states.map conv := by
    apply List.ext_getElem?
    intro k
    rw [List.getElem?_map, List.getElem?_map, hlen]
    by_cases hk : k < H.states.length
    · rw [List.getElem?_range hk, List.getElem?_eq_getElem hk]
      simp [List.getElem?_eq_getElem hk, hc]
    · rw [List.getElem?_eq_none (by simpa using hk), List.getElem?_eq_none (by simpa using hk)]
      rfl
  have hg : ∀ cols, Q'.getCartesianHistory = .ok cols ↔ H.states.map conv = cols.map Except.ok := by
    intro cols
    simp only [QLaw.getCartesianHistory, QLaw.histories, hH, bind, Except.bind]
    rw [mapM_except]
    exact ⟨fun h => hf.symm.trans h, fun h => hf.trans h⟩
  constructor
  · intro cols hcols
    have hm := (hg cols).1 hcols
    have hl : H.states.length = cols.length := by simpa using congrArg List.length hm
    refine ⟨by rw [hlen, hl], ?_⟩
    intro k x hx
    have := congrArg (fun l => l[k]?) hm
    simp only [List.getElem?_map, hx, Option.map_some] at this
    cases hck : cols[k]? with
    | none => rw [hck] at this; simp at this
    | some c =>
      rw [hck] at this
      simp only [Option.map_some, Option.some.injEq] at this
      exact ⟨c, rfl, this⟩
  · intro hall
    have : ∀ l : List (Fin 6 → α), (∀ x ∈ l, ∃ c, conv x = .ok c) →
        ∃ cols : List (Fin 6 → α), l.map conv = cols.map Except.ok := by
      intro l
      induction l with
      | nil => exact fun _ => ⟨[], rfl⟩
      | cons a l ih =>
        intro hl
        obtain ⟨c, hc⟩ := hl a List.mem_cons_self
        obtain ⟨cs, hcs⟩ := ih fun x hx => hl x (List.mem_cons_of_mem _ hx)
        exact ⟨c :: cs, by simp [hc, hcs]⟩
    obtain ⟨cols, hcols⟩ := this _ hall
    exact ⟨cols, (hg cols).2 hcols⟩

/-- point `k` of a curve -/
def pointAt (c : List α × List α) (k : ℕ) : Option α × Option α := (c.1[k]?, c.2[k]?)

/-- **C73.** After a completed run of `n` steps the plot functions do not raise, and they draw the recorded
data against the time of the record: `plot_controls` the angles in degrees and the throttle in percent of
each step (and the wrapped anomaly of each state, in degrees); `plot_battery_history` the battery level at
each time, and lines at the capacity limits; `plot_Q` the value of `Q` and its rate; `plot_efficiency` the
effectivities and thresholds. With no step `plot_efficiency` raises `IndexError`. -/
theorem C73_curves {Q Q' : QLaw α} {P : Problem α} {etaA etaR : EtaArg α} {fuel : ℕ} {H : Hist α}
    (h : Q.solve etaA etaR fuel = some (Q', none)) (hP : Q.prob = some P) (hH : Q'.hist = some H)
    (tu bu : α) :
    (∃ an al be th, Q'.plotControls tu true = .ok [an, al, be, th] ∧
      Q'.plotControls tu false = .ok [al, be, th] ∧
      an.1.length = H.times.length ∧ an.2.length = H.times.length ∧
      (∀ c ∈ [al, be, th], c.1.length = H.controls.length ∧ c.2.length = H.controls.length) ∧
      (∀ (k : ℕ) t (x : Fin 6 → α), H.times[k]? = some t → H.states[k]? = some x →
        pointAt an k = (some (t * tu), some (wrap (x 5) * ((180 : ℕ) : α) / PyTrans.pi))) ∧
      ∀ (k : ℕ) t a b θ, H.times[k]? = some t → H.controls[k]? = some (a, b, θ) →
        pointAt al k = (some (t * tu), some (a * ((180 : ℕ) : α) / PyTrans.pi)) ∧
        pointAt be k = (some (t * tu), some (b * ((180 : ℕ) : α) / PyTrans.pi)) ∧
        pointAt th k = (some (t * tu), some ((θ : α) * ((100 : ℕ) : α)))) ∧
    (∃ c, Q'.plotBatteryHistory tu bu = .ok (c, P.capMin * bu, P.capMax * bu) ∧
      c.1.length = H.times.length ∧ c.2.length = H.times.length ∧
      ∀ (k : ℕ) t b, H.times[k]? = some t → H.battery[k]? = some b →
        pointAt c k = (some (t * tu), some (b * bu))) ∧
    (∃ cq cd, Q'.plotQ tu = .ok [cq, cd] ∧
      (∀ c ∈ [cq, cd], c.1.length = H.controls.length ∧ c.2.length = H.controls.length) ∧
      ∀ (k : ℕ) t q d, H.times[k]? = some t → H.qs[k]? = some q → H.dqdts[k]? = some d →
        pointAt cq k = (some (t * tu), some q) ∧ pointAt cd k = (some (t * tu), some d)) ∧
    (H.controls ≠ [] → ∃ ca cab cr crb, Q'.plotEfficiency tu = .ok [ca, cab, cr, crb] ∧
      (∀ c ∈ [ca, cab, cr, crb], c.1.length = H.controls.length ∧ c.2.length = H.controls.length) ∧
      ∀ (k : ℕ) t a r a' r', H.times[k]? = some t → H.etas[k]? = some (a, r) →
        H.etasBounds[k]? = some (a', r') →
        pointAt ca k = (some (t * tu), some a) ∧ pointAt cab k = (some (t * tu), some a') ∧
        pointAt cr k = (some (t * tu), some r) ∧ pointAt crb k = (some (t * tu), some r')) ∧
    (H.controls = [] → Q'.plotEfficiency tu = .error .indexError) := by
  obtain ⟨n, tr, D, r, hr, hrH, v⟩ := solve_view h hP hH
  have hb : H.battery.length = n + 1 := by rw [v.battery]; simp
  have he : H.etas.length = n := by rw [v.etas]; simp
  have heb : H.etasBounds.length = n := by rw [v.etasBounds]; simp
  have hq : H.qs.length = n := by rw [v.qs]; simp
  have hd : H.dqdts.length = n := by rw [v.dqdts]; simp
  have ht := v.times_length
  have hc := v.controls_length
  have hs := v.statesLen
  have hP' : Q'.prob = some { P with oe0 := H.states.headD P.oe0 } := by
    rw [hr.obj, ← hrH]; rfl
  have hx : ∀ (k : ℕ) t, k < n → H.times[k]? = some t →
      (H.times.dropLast.map (· * tu))[k]? = some (t * tu) := by
    intro k t hk hkt
    rw [List.getElem?_map, List.getElem?_dropLast, if_pos (by omega), hkt]
    rfl
  have hlt : ∀ {β : Type} {l : List β} {k : ℕ} {y : β}, l.length = n → l[k]? = some y → k < n := by
    intro β l k y hl hk
    rw [← hl]
    exact (List.getElem?_eq_some_iff.1 hk).1
  refine ⟨?_, ?_, ?_, ?_, ?_⟩
  · refine ⟨(H.times.map (· * tu), H.states.map fun s => wrap (s 5) * ((180 : ℕ) : α) / PyTrans.pi),
      (H.times.dropLast.map (· * tu), H.controls.map fun c => c.1 * ((180 : ℕ) : α) / PyTrans.pi),
      (H.times.dropLast.map (· * tu), H.controls.map fun c => c.2.1 * ((180 : ℕ) : α) / PyTrans.pi),
      (H.times.dropLast.map (· * tu), H.controls.map fun c => (c.2.2 : α) * ((100 : ℕ) : α)),
      ?_, ?_, ?_, ?_, ?_, ?_, ?_⟩
    · simp [QLaw.plotControls, QLaw.histories, hH, bind, Except.bind, pure, Except.pure, curve, ht, hc, hs]
    · simp [QLaw.plotControls, QLaw.histories, hH, bind, Except.bind, pure, Except.pure, curve, ht, hc]
    · simp
    · simp [hs, ht]
    · simp [ht, hc]
    · intro k t x hkt hkx
      simp [pointAt, hkt, hkx]
    · intro k t a b θ hkt hkc
      have := hx k t (hlt hc hkc) hkt
      simp only [pointAt, this]
      simp [hkc]
  · refine ⟨(H.times.map (· * tu), H.battery.map (· * bu)), ?_, ?_, ?_, ?_⟩
    · simp [QLaw.plotBatteryHistory, QLaw.histories, hH, bind, Except.bind, pure, Except.pure, curve,
        ht, hb, hP']
    · simp
    · simp [hb, ht]
    · intro k t b hkt hkb
      simp [pointAt, hkt, hkb]
  · refine ⟨(H.times.dropLast.map (· * tu), H.qs), (H.times.dropLast.map (· * tu), H.dqdts), ?_, ?_, ?_⟩
    · simp [QLaw.plotQ, QLaw.histories, hH, bind, Except.bind, pure, Except.pure, curve, ht, hq, hd]
    · simp [ht, hc, hq, hd]
    · intro k t q d hkt hkq hkd
      have := hx k t (hlt hq hkq) hkt
      simp only [pointAt, this, hkq, hkd, and_self]
  · intro hne
    have hn : n ≠ 0 := by
      intro h0; rw [h0] at hc; exact hne (List.length_eq_zero_iff.1 hc)
    have h1 : H.etas ≠ [] := by
      intro h0; rw [h0] at he; exact hn he.symm
    have h2 : H.etasBounds ≠ [] := by
      intro h0; rw [h0] at heb; exact hn heb.symm
    refine ⟨(H.times.dropLast.map (· * tu), H.etas.map Prod.fst),
      (H.times.dropLast.map (· * tu), H.etasBounds.map Prod.fst),
      (H.times.dropLast.map (· * tu), H.etas.map Prod.snd),
      (H.times.dropLast.map (· * tu), H.etasBounds.map Prod.snd), ?_, ?_, ?_⟩
    · simp [QLaw.plotEfficiency, QLaw.histories, hH, bind, Except.bind, pure, Except.pure, curve, ht,
        column, he, heb, h1, h2]
    · simp [ht, hc, he, heb]
    · intro k t a r a' r' hkt hka hkb
      have := hx k t (hlt he hka) hkt
      simp only [pointAt, this]
      simp [hka, hkb]
  · intro hne
    rw [hne] at hc
    have : n = 0 := hc.symm
    subst this
    have h1 : H.etas = [] := List.length_eq_zero_iff.1 he
    simp [QLaw.plotEfficiency, QLaw.histories, hH, bind, Except.bind, column, h1]

/-- before any run the results do not exist -/
theorem C68_no_run (Q : QLaw α) (h : Q.hist = none) (b : Bool) :
    Q.saveToDict b = .error .attributeError ∧ Q.getCartesianHistory = .error .attributeError := by
  simp [QLaw.saveToDict, QLaw.getCartesianHistory, QLaw.histories, h, bind, Except.bind]

end lawfree

/-! ## over the reals -/

section real
variable [PyNan ℝ]

/-- **C68, directions.** Over the reals, without `save_control_angles`, every exported row is a unit
vector followed by the recorded throttle; the last row has throttle 0. -/
theorem C68_unit_directions {Q Q' : QLaw ℝ} {etaA etaR : EtaArg ℝ} {fuel : ℕ} {H : Hist ℝ}
    (h : Q.solve etaA etaR fuel = some (Q', none)) (hH : Q'.hist = some H) :
    ∃ S, Q'.saveToDict false = .ok (S, Q') ∧ S.controls.length = H.times.length ∧
      (∀ row ∈ S.controls, ∃ r t n τ, row = [r, t, n, τ] ∧ r ^ 2 + t ^ 2 + n ^ 2 = 1) ∧
      (∀ (k : ℕ) a b θ, H.controls[k]? = some (a, b, θ) → ∃ r t n, S.controls[k]? = some [r, t, n, (θ : ℝ)]) ∧
      S.controls.getLast? = some [0, 1, 0, 0] := by
  obtain ⟨S, hS, -, -, hl, -, hk, hlast⟩ := C68_saved h hH false
  refine ⟨S, hS, hl, ?_, ?_, ?_⟩
  · intro row hrow
    have hS' : S.controls = (controlRows H).map fun c =>
        [Real.cos c.2.1 * Real.sin c.1, Real.cos c.2.1 * Real.cos c.1, Real.sin c.2.1, c.2.2] := by
      rw [saveToDict_eq hH] at hS
      injection hS with hS
      injection hS with hS
      rw [← hS]
      simp [Hist.saved]
    rw [hS', List.mem_map] at hrow
    obtain ⟨c, -, rfl⟩ := hrow
    refine ⟨_, _, _, _, rfl, ?_⟩
    have h1 := Real.sin_sq_add_cos_sq c.1
    have h2 := Real.sin_sq_add_cos_sq c.2.1
    linear_combination Real.cos c.2.1 ^ 2 * h1 + h2
  · intro k a b θ hc
    exact ⟨_, _, _, by simpa using hk k a b θ hc⟩
  · simpa using hlast

/-- **C69, mee_with_a.** Over the reals, for an object with `mee_with_a` elements whose recorded state `k`
is an ellipse, the first six entries of exported row `k` are modified equinoctial elements (with semi-latus
rectum) of the recorded state: converting them back gives the recorded state, and their conversion to
Keplerian elements is that of the recorded state. -/
theorem C69_partial {Q Q' : QLaw ℝ} {etaA etaR : EtaArg ℝ} {fuel : ℕ} {H : Hist ℝ}
    (h : Q.solve etaA etaR fuel = some (Q', none)) (hH : Q'.hist = some H) (angles : Bool)
    (_hE : Q'.cfg.elementsType = .meeWithA) :
    ∃ S, Q'.saveToDict angles = .ok (S, Q') ∧ ∀ (k : ℕ) (x : Fin 6 → _) m, H.states[k]? = some x →
      H.masses[k]? = some m → x 1 ^ 2 + x 2 ^ 2 < 1 →
      ∃ y : Fin 6 → ℝ, S.states[k]? = some [y 0, y 1, y 2, y 3, y 4, y 5, m] ∧
        mee2meeWithA y = .ok x ∧ mee2kep y = meeWithA2kep x := by
  obtain ⟨S, hS, hk⟩ := C69_rows h hH angles
  refine ⟨S, hS, fun k x m hx hm he => ⟨meeWithA2mee x, ?_, (C47_inverse x he.ne).1, rfl⟩⟩
  rw [hk k x m hx hm]
  rfl

/-- C69 is violated for Keplerian objects: a completed run whose export is not the modified
equinoctial elements of its states -/
theorem C69_violated : ∃ (_ : PyNan ℝ) (Q Q' : QLaw ℝ) (etaA etaR : EtaArg ℝ) (fuel : ℕ) (H : Hist ℝ)
    (S : Saved ℝ) (x : Fin 6 → ℝ) (m : ℝ),
    Q.solve etaA etaR fuel = some (Q', none) ∧ Q'.hist = some H ∧
    Q'.cfg.elementsType = .keplerian ∧ Q'.saveToDict false = .ok (S, Q') ∧
    H.states[0]? = some x ∧ H.masses[0]? = some m ∧
    S.states[0]? ≠ some (vec6List (kep2mee x) ++ [m]) := by
  let _ : PyNan ℝ := CoastSample.instPyNanReal
  obtain ⟨Q', H, a, b, y, hs, hH, hc, hst, ht⟩ := CoastSample.run
  obtain ⟨S, hS, hk⟩ := C69_rows hs hH false
  obtain ⟨P, n, tr, D, r, hr⟩ := solve_return hs
  obtain ⟨n, tr, D, r, hr, _, v⟩ := solve_view hs hr.prob hH
  have hm := v.masses_get (Nat.zero_le n)
  have hx : H.states[0]? = some CoastSample.prob.oe0 := by rw [hst]; rfl
  refine ⟨inferInstance, _, Q', _, _, _, H, S, _, _, hs, hH, ?_, hS, hx, hm, ?_⟩
  · rw [hr.obj]; rfl
  · rw [hk 0 _ _ hx hm]
    intro heq
    have := congrArg (fun l => (l.getD []).getD 1 0) heq
    simp [vec6List, kep2mee, CoastSample.prob] at this
    have hcos : Real.cos (1 + 1) < 0 := by
      apply Real.cos_neg_of_pi_div_two_lt_of_lt
      · have := Real.pi_lt_d2; linarith
      · have := Real.pi_gt_three; linarith
    linarith

/-- **C70 on ellipses.** Over the reals, if every recorded state of a Keplerian run is an orbit point, the Cartesian
history exists and every column is on the orbit with the recorded elements. -/
theorem C70_on_orbit {Q Q' : QLaw ℝ} {etaA etaR : EtaArg ℝ} {fuel : ℕ} {H : Hist ℝ}
    (h : Q.solve etaA etaR fuel = some (Q', none)) (hH : Q'.hist = some H)
    (hE : Q'.cfg.elementsType = .keplerian) (hS : ∀ x ∈ H.states, OrbitPoint x Q'.cfg.mu) :
    ∃ cols, Q'.getCartesianHistory = .ok cols ∧ cols.length = H.times.length ∧
      ∀ (k : ℕ) x, H.states[k]? = some x → ∃ c, cols[k]? = some c ∧
        OnOrbit x Q'.cfg.mu (svPos c) (svVel c) := by
  obtain ⟨h1, h2⟩ := C70_columns h hH (conv := fun x => kep2sv x Q'.cfg.mu) (by intro x; simp [hE])
  obtain ⟨cols, hcols⟩ := h2 fun x hx => by
    obtain ⟨c, hc, -⟩ := C48_on_orbit x _ (hS x hx); exact ⟨c, hc⟩
  obtain ⟨hl, hk⟩ := h1 cols hcols
  refine ⟨cols, hcols, hl, fun k x hx => ?_⟩
  obtain ⟨c, hc, hcv⟩ := hk k x hx
  obtain ⟨c', hc', ho⟩ := C48_on_orbit x _ (hS x (List.mem_of_getElem? hx))
  rw [hc'] at hcv
  injection hcv with hcv
  exact ⟨c, hc, hcv ▸ ho⟩

end real

/-! ## interpolated history -/

section interp
variable {K : Type} [Field K] [LinearOrder K] [IsStrictOrderedRing K] [PyTrans (Ext K)]

/-- an interpolation scheme that reproduces its data when the abscissae increase -/
def ExactAtNodes (interp : List (Ext K) → List (Ext K) → Ext K → Ext K) : Prop :=
  ∀ (τ : List K) (v : List (Ext K)) (k : ℕ) (t : K) (y : Ext K), τ.Pairwise (· < ·) →
    τ.length = v.length → τ[k]? = some t → v[k]? = some y → interp (τ.map Ext.fin) v (.fin t) = y

theorem linspace_head {a b : K} {n : ℕ} (hn : 2 ≤ n) :
    (linspace (.fin a) (.fin b) n : List (Ext K))[0]? = some (.fin a) := by
  obtain ⟨m, rfl⟩ : ∃ m, n = m + 2 := ⟨n - 2, by omega⟩
  simp only [linspace, List.range_succ_eq_map, List.map_cons, List.cons_append,
    List.getElem?_cons_zero, Option.some.injEq]
  rw [Ext.natCast_eq, Ext.natCast_eq, Ext.fin_sub, Ext.fin_div _ _ (by positivity), Ext.fin_mul,
    Ext.fin_add]
  simp

/-- **C74.** For a forward run of `solve`, the interpolated Cartesian history has the requested number of
columns (at most 8000 by default), evaluated at times of which the first is 0 and the last is the
final time; with an interpolation exact at its nodes, the first and last columns are the Cartesian images of the
first and last recorded states. -/
theorem C74_interpolated {Q Q' : QLaw (Ext K)} {etaA etaR : EtaArg (Ext K)} {fuel : ℕ}
    {P : Problem (Ext K)} {H : Hist (Ext K)} {b0 cm cM c d h : K}
    (hs : Q.solve etaA etaR fuel = some (Q', none)) (hP : Q.prob = some P)
    (hH : Q'.hist = some H) (hB : FinBattery P b0 cm cM c d) (hS : Q.cfg.useSundman = false)
    (hst : P.tStep = .fin h) (hh : 0 < h) (hd : 0 ≤ d)
    {interp : List (Ext K) → List (Ext K) → Ext K → Ext K} (hI : ExactAtNodes interp)
    (roundInt : Ext K → ℤ) (steps : Option ℕ) {cols : List (Fin 6 → Ext K)} {ts : List (Ext K)}
    (hr : Q'.getCartesianHistoryInterp interp roundInt steps = .ok (cols, ts)) :
    cols.length = ts.length ∧ (∀ n, steps = some n → cols.length = n) ∧
      (steps = none → cols.length ≤ 8000) ∧
      (2 ≤ cols.length → ∃ x0 xn c0 cn, H.states.head? = some x0 ∧ H.states.getLast? = some xn ∧
        cols.head? = some c0 ∧ cols.getLast? = some cn ∧ ts.head? = some (.fin 0) ∧
        ts.getLast? = H.times.getLast? ∧ toCartesian Q'.cfg x0 = .ok c0 ∧
        toCartesian Q'.cfg xn = .ok cn) := by
  obtain ⟨n, τ, ht, h0, hstep⟩ := C09_time_forward hs hP hH hB hS hst hh hd
  obtain ⟨n', tr, D, r, hrun, _, v⟩ := solve_view hs hP hH
  have hn : n' = n := by
    have := v.times_length
    rw [ht] at this
    simpa using this.symm
  subst hn
  have hmono : ∀ i j, i < j → j ≤ n' → τ i < τ j := by
    intro i j hij
    induction j with
    | zero => omega
    | succ j ih =>
      intro hj
      have := (hstep j hj).1
      rcases Nat.lt_succ_iff_lt_or_eq.1 hij with h | h
      · exact (ih h (by omega)).trans this
      · rw [h]; exact this
  have hpw : ((List.range (n' + 1)).map τ).Pairwise (· < ·) := by
    rw [List.pairwise_map]
    refine List.Pairwise.imp_of_mem ?_ List.pairwise_lt_range
    intro a b _ hb hab
    exact hmono a b hab (by have := List.mem_range.1 hb; omega)
  have htm : H.times = ((List.range (n' + 1)).map τ).map Ext.fin := by
    rw [ht, List.map_map]; rfl
  have hhd : H.times.headD ((0 : ℕ) : Ext K) = .fin 0 := by
    rw [ht, List.range_succ_eq_map]; simp [h0]
  have hlt : H.lastTime = .fin (τ n') := by
    rw [Hist.lastTime, ht, List.range_succ]; simp
  have hlen : ∀ (a b : Ext K) m, (linspace a b m).length = m := by
    intro a b m
    match m with
    | 0 => rfl
    | 1 => rfl
    | m + 2 => simp [linspace]
  simp only [QLaw.getCartesianHistoryInterp, QLaw.histories, hH, bind, Except.bind] at hr
  rw [hhd, hlt] at hr
  obtain ⟨N, hN⟩ : ∃ N, N = interpSteps roundInt H steps := ⟨_, rfl⟩
  rw [← hN] at hr
  split at hr
  · cases hr
  rename_i cs hcs
  injection hr with hr
  injection hr with h1 h2
  subst h1
  rw [mapM_except] at hcs
  have hcl : cs.length = N := by
    have := congrArg List.length hcs
    simp only [List.length_map, hlen] at this
    exact this.symm
  have hts : ts.length = N := by rw [← h2, hlen]
  refine ⟨by rw [hcl, hts], ?_, ?_, ?_⟩
  · rintro m rfl; rw [hcl, hN]; rfl
  · rintro rfl; rw [hcl, hN]; exact min_le_left _ _
  · intro h2c
    rw [hcl] at h2c
    have hslen := v.statesLen
    have hval : ∀ (k : ℕ) (x : Fin 6 → Ext K), k ≤ n' → H.states[k]? = some x →
        (fun i => interp H.times (H.states.map fun s => s i) (.fin (τ k))) = x := by
      intro k x hk hx
      funext i
      rw [htm]
      apply hI _ _ k _ _ hpw
      · simp [hslen]
      · rw [List.getElem?_map, List.getElem?_range (by omega)]; rfl
      · rw [List.getElem?_map, hx]; rfl
    have hcol : ∀ (j k : ℕ) (x : Fin 6 → Ext K), k ≤ n' → H.states[k]? = some x →
        ts[j]? = some (.fin (τ k)) → ∃ c, cs[j]? = some c ∧ toCartesian Q'.cfg x = .ok c := by
      intro j k x hk hx hj
      have := congrArg (fun l => l[j]?) hcs
      simp only [List.getElem?_map, h2, hj, Option.map_some] at this
      rw [hval k x hk hx] at this
      cases hc : cs[j]? with
      | none => rw [hc] at this; simp at this
      | some c =>
        rw [hc] at this
        simp only [Option.map_some, Option.some.injEq] at this
        exact ⟨c, rfl, this⟩
    have hx0 : H.states[0]? = some (H.states[0]'(by omega)) := List.getElem?_eq_getElem _
    have hxn : H.states[n']? = some (H.states[n']'(by omega)) := List.getElem?_eq_getElem _
    have ht0 : ts[0]? = some (.fin (τ 0)) := by rw [← h2, linspace_head h2c, h0]
    have htn : ts[N - 1]? = some (.fin (τ n')) := by
      obtain ⟨m, rfl⟩ : ∃ m, N = m + 2 := ⟨N - 2, by omega⟩
      rw [← h2]
      simp only [linspace, Nat.add_one_sub_one]
      rw [List.getElem?_append_right (by simp)]
      simp
    obtain ⟨c0, hc0, hv0⟩ := hcol 0 0 _ (by omega) hx0 ht0
    obtain ⟨cn, hcn, hvn⟩ := hcol (N - 1) n' _ le_rfl hxn htn
    refine ⟨_, _, c0, cn, by rw [List.head?_eq_getElem?]; exact hx0, ?_, ?_, ?_, ?_, ?_, hv0, hvn⟩
    · rw [List.getLast?_eq_getElem?, show H.states.length - 1 = n' by omega]; exact hxn
    · rw [List.head?_eq_getElem?]; exact hc0
    · rw [List.getLast?_eq_getElem?, hcl]; exact hcn
    · rw [List.head?_eq_getElem?, ht0, h0]
    · rw [List.getLast?_eq_getElem?, hts, htn, ht, List.range_succ]; simp

open Classical in
/-- there are interpolation schemes exact at their nodes -/
example : ∃ interp : List (Ext K) → List (Ext K) → Ext K → Ext K, ExactAtNodes interp := by
  refine ⟨fun ts vs t => if h : ∃ k : ℕ, ts[k]? = some t then (vs[h.choose]?).getD .nan else .nan, ?_⟩
  intro τ v k t y hp _ ht hv
  have h : ∃ k : ℕ, (τ.map Ext.fin)[k]? = some (.fin t) := ⟨k, by simp [ht]⟩
  simp only [dif_pos h]
  have hk : h.choose = k := by
    have h1 := h.choose_spec
    rw [List.getElem?_map] at h1
    cases h2 : τ[h.choose]? with
    | none => rw [h2] at h1; simp at h1
    | some t' =>
      rw [h2] at h1
      simp only [Option.map_some, Option.some.injEq, Ext.fin.injEq] at h1
      obtain ⟨l1, e1⟩ := List.getElem?_eq_some_iff.1 h2
      obtain ⟨l2, e2⟩ := List.getElem?_eq_some_iff.1 ht
      rw [List.pairwise_iff_getElem] at hp
      rcases lt_trichotomy h.choose k with hl | hl | hl
      · have := hp _ _ l1 l2 hl; rw [e1, e2, h1] at this; exact absurd this (lt_irrefl _)
      · exact hl
      · have := hp _ _ l2 l1 hl; rw [e1, e2, h1] at this; exact absurd this (lt_irrefl _)
  rw [hk, hv]; rfl

end interp

/-! ## concrete runs -/

/-- a run of four steps: five exported rows, the last one coasting -/
example : (((Toy.obj Toy.cfg Toy.prob).solve Toy.z Toy.z 10).map fun p => (p.2,
    (p.1.saveToDict true).toOption.map fun s => (s.1.times.length, s.1.controls.length,
      s.1.controls.getLast?))) =
    some (none, some (5, 5, some [.fin 0, .fin 0, .fin 0])) := by decide +kernel

/-- a run without steps: `plot_efficiency` raises -/
example : (((Toy.obj Toy.cfg { Toy.prob with tfMax := .fin 0 }).solve Toy.z Toy.z 10).map fun p =>
    (p.2, match p.1.plotEfficiency (.fin 1) with | .error e => some e | .ok _ => none)) =
    some (none, some .indexError) := by decide +kernel

end PyQ
