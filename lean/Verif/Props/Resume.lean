import Verif.Proofs.Resume
import Verif.Proofs.View
import Verif.Props.DisturbedReach
import Verif.Examples.Toy

/-! # C127: an interrupted run can be resumed from its last record -/

set_option linter.unusedSectionVars false
set_option maxRecDepth 100000
set_option synthInstance.maxSize 1000

noncomputable section

namespace PyQ

open Set

/-- the object set up to continue from elements `x`, mass `m` and battery level `l` at time `T0`, for the time `tf` -/
def QLaw.resume {α : Type} [Add α] (Q : QLaw α) (T0 : α) (x : Fin 6 → α) (m l tf : α) : QLaw α :=
  { Q with cfg := Q.cfg.since T0, prob := Q.prob.map fun P => P.since x m l tf, ready := true }

section resume
variable [PyNan ℝ]

/-- **C127, how to resume.** If the perturbations do not depend on time (or there are none), the object is the one left by
`set_problem` with the original arguments, except for the initial elements, mass and battery level and the time limit. -/
theorem C127_set_problem {Q : QLaw ℝ} {A : ProblemArgs ℝ} {P : Problem ℝ} (hA : mkProblem A = .ok P) (T0 : ℝ) (x y : Fin 6 → ℝ)
    (m l tf : ℝ) (hQ : Q.prob = some { P with oe0 := y })
    (hp : ∀ f, Q.cfg.perturbations = some f → ∀ t t', f t = f t') :
    Q.setProblem { A with oe0 := List.ofFn x, mass0 := m, batteryInitial := l, tfMax := tf } = .ok (Q.resume T0 x m l tf) := by
  have hc : Q.cfg.since T0 = Q.cfg := by
    have : (Q.cfg.perturbations.map fun f t => f (T0 + t)) = Q.cfg.perturbations := by
      cases h : Q.cfg.perturbations with
      | none => rfl
      | some f =>
        rw [Option.map_some]
        congr 1
        funext t
        exact hp f h _ _
    unfold Config.since
    rw [this]
  have ho : asOe0 (List.ofFn x) = .ok x := by
    have h1 : List.ofFn x = [x 0, x 1, x 2, x 3, x 4, x 5] := by simp [List.ofFn_succ]
    have h2 : x = ![x 0, x 1, x 2, x 3, x 4, x 5] := by funext i; fin_cases i <;> rfl
    rw [h1, asOe0, ← h2]
  have hm : mkProblem { A with oe0 := List.ofFn x, mass0 := m, batteryInitial := l, tfMax := tf } = .ok (P.since x m l tf) := by
    unfold mkProblem at hA ⊢
    simp only [ho, bind, Except.bind, pure, Except.pure] at hA ⊢
    cases h1 : asOe0 A.oe0 with
    | error e => rw [h1] at hA; cases hA
    | ok x0 =>
      rw [h1] at hA
      simp only at hA
      cases h2 : PyOrd.le (rat 1 100) A.massMin with
      | false => rw [h2] at hA; simp at hA
      | true =>
        rw [h2] at hA
        simp only [if_true] at hA ⊢
        cases h3 : asWoe A.woe with
        | error e => rw [h3] at hA; cases hA
        | ok w =>
          rw [h3] at hA
          simp only [Except.ok.injEq] at hA
          subst hA
          rfl
  unfold QLaw.setProblem QLaw.resume
  rw [hm, hc, hQ]
  rfl

/-- **C127, ephemerides.** `SpicePerturbations` with the reference epoch moved by the elapsed time gives the perturbations
read at the time since the interruption. -/
theorem C127_spice (S : SpicePerturbations ℝ) (sp : Spice ℝ) (T0 t : ℝ) (oe : Fin 6 → ℝ) (et : String) :
    SpicePerturbations.getPerturbationsRTN { S with etRef := S.etRef + T0 * S.TU } sp t oe et =
      S.getPerturbationsRTN sp (T0 + t) oe et := by
  have h : S.etRef + T0 * S.TU + t * S.TU = S.etRef + (T0 + t) * S.TU := by ring
  unfold SpicePerturbations.getPerturbationsRTN SpicePerturbations.fromCartesian
  dsimp only
  rw [h]

variable {Q Q1 Qf : QLaw ℝ} {P : Problem ℝ} {ea er : EtaArg ℝ} {T : ℝ} {f1 f2 : ℕ} {e : Option PyErr} {H1 Hf : Hist ℝ}

/-- **C127.** A fresh object's run that ended at its time limit is resumed: a problem with the last recorded elements, mass
and battery level and the remaining time is solved, with perturbations and thresholds read at the time since the
interruption. If in the uninterrupted run the duty cycle is on throughout and the battery stays above its minimum, and if
before the interruption no state was within the relaxed tolerances and the law returned no NaN, then the two runs together
are the uninterrupted run: its histories are those of the first run continued by those of the second, the same exception is
raised or the same exit code and flag are reported. -/
theorem C127_resume (hf : Q.Fresh) (hP : Q.prob = some P) (heom : ∀ t t', Q.cfg.dyn.eom t = Q.cfg.dyn.eom t')
    (h1 : Q.solve ea er f1 = some (Q1, none)) (hx : Q1.exitcode = -2) (hH1 : Q1.hist = some H1)
    (h2 : (Q.withTfMax T).solve ea er f2 = some (Qf, e)) (hHf : Qf.hist = some Hf)
    {σ : ℝ} (hσ : σ = 1 ∨ σ = -1) (hlim : |P.tfMax| ≤ |T|) (hT : σ * H1.lastTime < σ * T)
    (hmono : Hf.times.Pairwise fun u v => σ * u ≤ σ * v) (hduty : σ * T ≤ P.dutyOn)
    (hbat : ∀ l ∈ Hf.battery, P.capMin + 1 / 10 ^ 12 < l)
    (hrel : ∀ k < H1.controls.length,
      Converged (envOf Q P ea er) Q.cfg.tolOeRelaxed ((envOf Q P ea er).after (k + 1)).oe = false)
    (hnan : ∀ k < H1.controls.length, nanAt (envOf Q P ea er) ((envOf Q P ea er).after k) = false) :
    ∃ x m l, H1.states.getLast? = some x ∧ H1.masses.getLast? = some m ∧ H1.battery.getLast? = some l ∧
      ∃ Q2 H2 fuel, (Q1.resume H1.lastTime x m l (T - H1.lastTime)).solve (ea.since H1.lastTime) (er.since H1.lastTime) fuel =
          some (Q2, e) ∧
        Q2.hist = some H2 ∧ Hf = H1.continued H1.lastTime H2 ∧
        (e = none → Q2.exitcode = Qf.exitcode ∧ Q2.converge = Qf.converge) := by
  have hP' : (Q.withTfMax T).prob = some { P with tfMax := T } := by simp [QLaw.withTfMax, hP]
  have hrv : Q.ready = true ∧ ea.valid = true := by
    obtain ⟨P', n, tr, D, r, hr⟩ := solve_return h1
    exact ⟨hr.ready, hr.valid⟩
  have hr' : (Q.withTfMax T).ready = true := hrv.1
  simp only [QLaw.solve, hP, hrv.1, hrv.2, if_true, Option.map_eq_some_iff] at h1
  simp only [QLaw.solve, hP', hr', hrv.2, if_true, Option.map_eq_some_iff] at h2
  obtain ⟨r1, hl1, h1⟩ := h1
  obtain ⟨r2, hl2, h2⟩ := h2
  have hQ1 : Q1 = Q.finish P r1 := (congrArg Prod.fst h1).symm
  have hQf : Qf = (Q.withTfMax T).finish { P with tfMax := T } r2 := (congrArg Prod.fst h2).symm
  have he1 : r1.error? = none := congrArg Prod.snd h1
  have he2 : e = r2.error? := (congrArg Prod.snd h2).symm
  have hh1 : r1.st.hist = H1 := by rw [hQ1] at hH1; exact Option.some.inj hH1
  have hh2 : r2.st.hist = Hf := by rw [hQf] at hHf; exact Option.some.inj hHf
  obtain ⟨E, hE⟩ : ∃ E, E = envOf Q P ea er := ⟨_, rfl⟩
  rw [← hE] at hrel hnan
  have hl1' : loop E f1 (initLoop E.prob) = some r1 := by rw [hE]; exact hl1
  obtain ⟨n, tr, D, hTr, hEnd⟩ := loop_trace hl1'
  have hEp : E.prob = P := by rw [hE]; rfl
  have hEc : E.cfg = Q.cfg := by rw [hE]; rfl
  have hto : r1 = .timeout (tr n) ∧ AllCont E n tr := by
    cases hEnd with
    | timeout hC _ => exact ⟨rfl, hC⟩
    | raised s e => simp [RunRes.error?] at he1
    | exit m c _ hc _ =>
      rw [hQ1, (finish_exit Q P (tr n) c).1] at hx
      subst hx
      rcases hc with h | h | h <;> cases h
    | nan s s1 st k =>
      rw [hQ1, (finish_exit Q P s (-3)).1] at hx
      cases hx
  obtain ⟨rfl, hcont⟩ := hto
  have hst : (tr n).hist = H1 := hh1
  have hlim' : ∀ y : ℝ, PyOrd.lt y (PyOrd.abs E.prob.tfMax) = true → PyOrd.lt y (PyOrd.abs T) = true := by
    intro y hy
    rw [hEp] at hy
    exact decide_eq_true ((of_decide_eq_true hy).trans_le hlim)
  obtain ⟨g', hg'⟩ : ∃ g', loop { E with prob := { E.prob with tfMax := T } } g' (tr n) = some r2 := by
    have hl2' : loop { E with prob := { E.prob with tfMax := T } } f2 (initLoop P) = some r2 := by rw [hE]; exact hl2
    have hl1'' : loop E f1 (initLoop P) = some (.timeout (tr n)) := by rw [← hEp]; exact hl1'
    rcases loop_limit (E := E) hlim' f1 f2 (initLoop P) _ r2 hl1'' hl2' with ⟨-, h4⟩ | ⟨s', g', h3, h4⟩
    · exact absurd rfl (h4 (tr n))
    · injection h3 with h3
      subst h3
      exact ⟨g', h4⟩
  have hext := loop_extends _ _ _ _ hg'
  rw [hst, hh2] at hext
  have hh := hTr.hist
  have hht := hh.times
  have hhm := hh.masses
  have hhb := hh.battery
  have hhs := hh.states
  have hhc := hh.controls
  rw [hst] at hht hhm hhb hhs hhc
  have hcl : H1.controls.length = n := by rw [hhc]; simp
  rw [hcl] at hrel hnan
  have htk : ∀ k ≤ n, (tr k).t ∈ Hf.times := fun k hk => hext.times.subset (by
    rw [hht]; exact List.mem_map.2 ⟨k, List.mem_range.2 (by omega), rfl⟩)
  have hbk : ∀ k ≤ n, P.capMin + 1 / 10 ^ 12 < (tr k).battery := fun k hk => hbat _ (hext.battery.subset (by
    rw [hhb]; exact List.mem_map.2 ⟨k, List.mem_range.2 (by omega), rfl⟩))
  have ht0 : (tr 0).t = 0 := by rw [hTr.init]; simp [initLoop]
  have hT0 : H1.lastTime = (tr n).t := by
    rw [Hist.lastTime, hht, List.range_succ, List.map_append]; simp
  have hfirst : ∀ t ∈ Hf.times, 0 ≤ σ * t := by
    obtain ⟨tl, htl⟩ : ∃ tl, Hf.times = 0 :: tl := by
      obtain ⟨z, hz⟩ := hext.times
      rw [hht, List.range_succ_eq_map, List.map_cons, ht0] at hz
      exact ⟨_, hz.symm⟩
    rw [htl] at hmono ⊢
    intro t ht
    rcases List.mem_cons.1 ht with rfl | ht
    · simp
    · have := (List.pairwise_cons.1 hmono).1 t ht
      simpa using this
  have habs : ∀ y : ℝ, 0 ≤ σ * y → |y| = σ * y := fun y hy => by
    rcases hσ with rfl | rfl
    · rw [one_mul] at hy ⊢; exact abs_of_nonneg hy
    · rw [abs_of_nonpos (by linarith)]; ring
  have hle : ∀ y : ℝ, 0 ≤ σ * y → y ≤ σ * y := fun y hy => by
    rcases hσ with rfl | rfl <;> linarith
  have hT0n : 0 ≤ σ * H1.lastTime := by rw [hT0]; exact hfirst _ (htk n le_rfl)
  -- the loop variables at the interruption
  have hcut : ∀ k ≤ n, (tr k).duty = true ∧ (tr k).charging = false ∧ (tr k).tOn = 0 ∧ (tr k).tOff = 0 := by
    intro k
    induction k with
    | zero => intro _; rw [hTr.init]; simp [initLoop]
    | succ k ih =>
      intro hk
      obtain ⟨i1, i2, i3, i4⟩ := ih (by omega)
      have hrec := hTr.step k (by omega)
      have hc := hrec.clamp
      have hd := hrec.duty
      have hgd : |(tr k).t| < |P.tfMax| := by
        have := hTr.guard k (by omega)
        unfold guardB at this
        have hlt : (tr k).hist.lastTime = (tr k).t := by
          have := ((hTr.prefix (m := k) (by omega)).1).hist.times
          rw [Hist.lastTime, this, List.range_succ, List.map_append]; simp
        rw [hlt, hEp] at this
        exact of_decide_eq_true this
      rw [Resume.duty_on (P := E.prob) (s := (D k).s1) (D k).step0 (by rw [clamp_duty hc]; exact i1)
        (by rw [clamp_charging hc]; exact i2)
        (by
          rw [clamp_t hc, clamp_tOn hc, i3, hEp]
          show decide (P.dutyOn < (tr k).t - 0) = false
          rw [decide_eq_false_iff_not]
          have a1 := hfirst _ (htk k (by omega))
          have a2 := hle _ a1
          rw [habs _ a1] at hgd
          have a3 := hlim
          rw [habs T (by linarith)] at a3
          linarith)
        (by
          rw [clamp_battery hc, hEp]
          show decide ((tr k).battery ≤ P.capMin + rat 1 (10 ^ 12)) = false
          rw [decide_eq_false_iff_not, rat_real]
          have := hbk k (by omega)
          push_cast
          linarith)] at hd
      rw [hTr.succ_eq (by omega)]
      refine ⟨?_, ?_, ?_, ?_⟩
      · show (D k).d.duty = true; rw [hd]
      · show (batteryPhase E.prob (D k).s1.battery (D k).d.duty (D k).d.charging (D k).hBat).2 = false
        rw [hd]; rfl
      · show (D k).d.tOn = 0; rw [hd]; show (D k).s1.tOn = 0; rw [clamp_tOn hc]; exact i3
      · show (D k).d.tOff = 0; rw [hd]; show (D k).s1.tOff = 0; rw [clamp_tOff hc]; exact i4
  have hrelax : (tr n).nRelaxed = 0 := by
    rcases Nat.eq_zero_or_pos n with h0 | h0
    · rw [h0, hTr.init]; rfl
    · obtain ⟨o, ho, -⟩ := control_ctl (hTr.step 0 h0).ctl
      rw [nRelaxed_count ho hTr, List.countP_eq_zero]
      intro k hk
      have hk := List.mem_range.1 hk
      have := hrel k hk
      rw [← hTr.after (k + 1) (by omega), Converged, ho] at this
      simp only [hEc] at this ⊢
      simp [this]
  have hnn : (tr n).nNan = 0 := by
    rw [nNan_count (fun k => nanAt E (tr k)) hTr (fun k hk => nanAt_rec (hTr.step k hk)), List.countP_eq_zero]
    intro k hk
    have hk := List.mem_range.1 hk
    rw [hTr.after k (by omega), hnan k hk]
    simp
  obtain ⟨c1, c2, c3, c4⟩ := hcut n le_rfl
  have hpreT : H1.times.getLastD 0 = H1.lastTime := by rw [Hist.lastTime, Nat.cast_zero]
  have lastS : H1.states.getLast? = some (tr n).oe := by rw [hhs]; simp
  have lastM : H1.masses.getLast? = some (tr n).mass := by
    rw [hhm, List.range_succ, List.map_append]; simp
  have lastB : H1.battery.getLast? = some (tr n).battery := by
    rw [hhb, List.range_succ, List.map_append]; simp
  refine ⟨_, _, _, lastS, lastM, lastB, ?_⟩
  have hP2 : (Q1.resume H1.lastTime (tr n).oe (tr n).mass (tr n).battery (T - H1.lastTime)).prob =
      some (P.since (tr n).oe (tr n).mass (tr n).battery (T - H1.lastTime)) := by
    rw [hQ1]; rfl
  have hstart : tr n = Resume.st H1 H1.lastTime (tr n).alpha (tr n).beta
      (initLoop (P.since (tr n).oe (tr n).mass (tr n).battery (T - H1.lastTime))) := by
    have hc : H1 = H1.continued H1.lastTime (initLoop (P.since (tr n).oe (tr n).mass (tr n).battery (T - H1.lastTime))).hist := by
      have : H1.states.dropLast ++ [(tr n).oe] = H1.states := by rw [hhs]; simp
      simp [Hist.continued, initLoop, Problem.since, this]
    cases hs : tr n
    rw [hs] at c1 c2 c3 c4 hrelax hnn hst hT0 hc
    simp only at c1 c2 c3 c4 hrelax hnn hst hT0
    simp only [Resume.st, LoopSt.mk.injEq]
    refine ⟨?_, rfl, rfl, rfl, ?_, hrelax, hnn, c1, ?_, ?_, c2, ?_, ?_⟩
    · rw [hT0]; simp [initLoop]
    · rw [hst]; exact hc
    · rw [c3]; simp [initLoop]
    · rw [c4]; simp [initLoop]
    · simp [initLoop]
    · simp [initLoop]
  have hon : Resume.Ongoing H1 (initLoop (P.since (tr n).oe (tr n).mass (tr n).battery (T - H1.lastTime))) := by
    refine ⟨⟨[], by simp [initLoop]⟩, by simp [initLoop], by simp [initLoop], by simp [initLoop], by simp [initLoop], ?_, rfl, rfl,
      by simp [initLoop]⟩
    exact List.mem_append_left _ (List.mem_of_getLast? lastB)
  rw [hstart] at hg'
  have hlate : ∀ t ∈ r2.st.hist.times.drop H1.times.length, σ * H1.lastTime ≤ σ * t := by
    intro t ht
    rw [hh2] at ht
    have hm' : H1.lastTime ∈ H1.times := by
      rw [hT0, hht]; exact List.mem_map.2 ⟨n, List.mem_range.2 (by omega), rfl⟩
    obtain ⟨z, hz⟩ := hext.times
    rw [← hz, List.drop_left] at ht
    rw [← hz] at hmono
    exact (List.pairwise_append.1 hmono).2.2 _ hm' _ ht
  obtain ⟨r', hr1, hr2⟩ := Resume.loop_from (E := { E with prob := { E.prob with tfMax := T } }) (x := (tr n).oe) (m := (tr n).mass)
    (bt := (tr n).battery) (by rw [hEc]; exact heom) hσ hpreT hT0n hT (by rw [hEp]; exact hduty) g' _ _ _ _ hon hg' hlate
    (by rw [hh2, hEp]; exact hbat)
  have hv2 : (ea.since H1.lastTime).valid = true := by
    have := hrv.2
    cases ea <;> first | rfl | exact this
  have hsolve : (Q1.resume H1.lastTime (tr n).oe (tr n).mass (tr n).battery (T - H1.lastTime)).solve (ea.since H1.lastTime)
      (er.since H1.lastTime) g' =
      some ((Q1.resume H1.lastTime (tr n).oe (tr n).mass (tr n).battery (T - H1.lastTime)).finish
        (P.since (tr n).oe (tr n).mass (tr n).battery (T - H1.lastTime)) r', r'.error?) := by
    have hrd : (Q1.resume H1.lastTime (tr n).oe (tr n).mass (tr n).battery (T - H1.lastTime)).ready = true := rfl
    simp only [QLaw.solve, hP2, hrd, hv2, if_true, Option.map_eq_some_iff]
    refine ⟨r', ?_, rfl⟩
    rw [← hr1, hE, hQ1]
    rfl
  have hee : r'.error? = e := by
    rw [he2, hr2]; cases r' <;> rfl
  refine ⟨_, _, g', by rw [← hee]; exact hsolve, rfl, ?_, ?_⟩
  · rw [← hh2, hr2]; cases r' <;> rfl
  · intro h0
    rw [h0] at hee
    have q1 : Q1.exitcode = -2 := hx
    have q2 : Q1.converge = false := by
      rw [hQ1]; exact (finish_timeout Q P (tr n) hf.1 hf.2).2.1
    rw [hQf, hr2]
    cases r' with
    | raised s e => simp [RunRes.error?] at hee
    | exit s c =>
      refine ⟨rfl, ?_⟩
      show (if c = 1 ∨ c = 2 then true else Q1.converge) = (if c = 1 ∨ c = 2 then true else Q.converge)
      rw [q2, hf.2]
    | timeout s =>
      have w := finish_timeout (Q.withTfMax T) { P with tfMax := T }
        (Resume.st H1 H1.lastTime (tr n).alpha (tr n).beta s) hf.1 hf.2
      have w2 : finishFlags Q1.exitcode Q1.converge (RunRes.timeout s) = (-2, false) := by
        simp [finishFlags, q1, q2]
      exact ⟨(congrArg Prod.fst w2).trans w.1.symm, (congrArg Prod.snd w2).trans w.2.1.symm⟩

end resume


namespace ResumeToy
open Toy

/-- last records of a run that stored its histories: time, elements, mass and battery level -/
def lastOf (Q : QLaw N) : Option (N × (Fin 6 → N) × N × N) := do
  let h ← Q.hist
  pure (h.lastTime, ← h.states.getLast?, ← h.masses.getLast?, ← h.battery.getLast?)

/-- the recorded throttles, one per step -/
def throttles (Q : QLaw N) : Option (List ℕ) := Q.hist.map fun h => h.controls.map fun c => c.2.2

/-- exit code and throttles of the interrupted run, the uninterrupted run, and the resumed run -/
def three (C : Config N) (P : Problem N) (cut : N) (fuel : ℕ) :
    Option ((ℤ × Option (List ℕ)) × (ℤ × Option (List ℕ)) × (ℤ × Option (List ℕ))) := do
  let (Q1, _) ← (obj C { P with tfMax := cut }).solve z z fuel
  let (Q2, _) ← (obj C P).solve z z fuel
  let (T0, x, m, l) ← lastOf Q1
  let (Q3, _) ← (Q1.resume T0 x m l (P.tfMax - T0)).solve z z fuel
  pure ((Q1.exitcode, throttles Q1), (Q2.exitcode, throttles Q2), (Q3.exitcode, throttles Q3))

/-- C127, its conditions are needed: the count of relaxed convergences starts again. The uninterrupted run ends with exit
code 2 after three steps, the one interrupted after two steps only two steps later. -/
example : three { cfg with exitAtRelaxed := 2, tolOeRelaxed := fun _ => .fin 1 } { prob with tStep := .fin (3 / 4) } (.fin (3 / 2)) 10 =
    some ((-2, some [1, 1]), (2, some [1, 1, 1]), (2, some [1, 1])) := by decide +kernel

/-- C127, its conditions are needed: the duty cycle starts again. The uninterrupted run coasts on its fourth step, the
resumed one does not. -/
example : three cfg { prob with dutyOn := .fin (5 / 4), dutyOff := .fin 10 } (.fin 1) 30 =
    some ((-2, some [1, 1]), (1, some [1, 1, 1, 0]), (1, some [1, 1])) := by decide +kernel

end ResumeToy


/-- with both rates zero every recorded battery level is the initial one -/
theorem flat_battery [PyNan ℝ] (hnan : ∀ x : ℝ, PyNan.isnan x = false) {Q Q' : QLaw ℝ} {P : Problem ℝ} {ea er : EtaArg ℝ}
    {fuel : ℕ} {H : Hist ℝ} (h : Q.solve ea er fuel = some (Q', none)) (hP : Q.prob = some P) (hH : Q'.hist = some H)
    (h1 : P.chargeRate = 0) (h2 : P.dischargeRate = 0) (h3 : P.capMin ≤ P.batteryInitial) (h4 : P.batteryInitial ≤ P.capMax) :
    ∀ l ∈ H.battery, l = P.batteryInitial := by
  obtain ⟨n, tr, D, r, hr, -, hV⟩ := solve_view h hP hH
  have hT := hV.trace
  have key : ∀ k ≤ n, (tr k).battery = P.batteryInitial := by
    intro k
    induction k with
    | zero => intro _; rw [hT.init]; rfl
    | succ k ih =>
      intro hk
      have e1 : (D k).s1.battery = P.batteryInitial := by
        rw [clamp_battery (hT.step k (by omega)).clamp]; exact ih (by omega)
      rw [hT.succ_eq (by omega)]
      show (batteryPhase P (D k).s1.battery (D k).d.duty (D k).d.charging (D k).hBat).1 = _
      unfold batteryPhase
      rw [e1, h1, h2]
      split
      · show npclip _ _ _ = _
        rw [zero_mul, sub_zero, npclip_in hnan h3 h4]
      · show npclip _ _ _ = _
        rw [zero_mul, add_zero, npclip_in hnan h3 h4]
  intro l hl
  rw [hV.battery] at hl
  obtain ⟨k, hk, rfl⟩ := List.mem_map.1 hl
  exact key k (by have := List.mem_range.1 hk; omega)

namespace Burn
open CoastSample

/-- the perturbed object of `Burn` with tolerances that cannot be met -/
noncomputable def cfgN : Config ℝ := { cfgD with tolOe := fun _ => -1, tolOeRelaxed := fun _ => -1 }

noncomputable def objN (h T tf : ℝ) : QLaw ℝ :=
  { cfg := cfgN, prob := some (probB h T tf), ready := true, converge := false, exitcode := 0, hist := none }

theorem starts_N (h T tf : ℝ) :
    StartsRun cfgN ![2, 0, 0, 0, 0] ![1, 0, 0, 0, 0] (1 / 100) 1 (1 / 10) (-1) h T prob.oe0 (objN h T tf) (probB h T tf) := by
  obtain ⟨-, -, -, -, a, b, c, d, e, f, g, i, j, k⟩ := starts_B 0 h T tf
  exact ⟨rfl, rfl, rfl, ⟨rfl, rfl⟩, a, b, c, d, e, f, g, i, j, Or.inl rfl⟩

theorem never (h T tf : ℝ) (a b : EtaArg ℝ) (x : Fin 6 → ℝ) :
    Converged (envOf (objN h T tf) (probB h T tf) a b) (fun _ => -1) x = false := by
  rw [converged_eq (oeT := ![2, 0, 0, 0, 0]) (by show asVec5 [_, _, _, _, _] = _; simp [asVec5])]
  show checkConvergenceKeplerian x ![2, 0, 0, 0, 0] ![1, 0, 0, 0, 0] (fun _ => -1) = false
  have h1 : ¬ |2 - x 0| ≤ (-1 : ℝ) := fun hc => by linarith [abs_nonneg (2 - x 0)]
  simp [checkConvergenceKeplerian, checkFlags, List.finRange_succ, PyOrd.eq, PyOrd.le, PyOrd.abs, h1]

/-- the backward runs of the perturbed sample up to any time limit below `T` -/
theorem runs_N : ∃ T > (0 : ℝ), ∃ δ > (0 : ℝ), δ ≤ T / 6 ∧ ∀ h, 0 < h → h < δ → ∀ fuel : ℕ, T / h + 2 ≤ fuel → ∀ w, 0 < w → w + h ≤ T →
    ∃ Q' H n, (objN h T w).solve (.flt 0) (.flt 0) fuel = some (Q', none) ∧ Q'.hist = some H ∧
      H.times = (List.range (n + 1)).map (fun k : ℕ => -1 * ((k : ℝ) * h)) ∧ (n : ℝ) * h < w + h ∧ H.controls.length = n ∧
      w ≤ n * h ∧ Q'.exitcode = -2 := by
  have hbox : IsOpen {x : Fin 6 → ℝ | ∀ j : Fin 5, 0 < x j.castSucc ∧ x j.castSucc < 9} := by
    simp only [Set.ofPred_forall]
    refine isOpen_iInter_of_finite fun j => ?_
    exact (isOpen_lt continuous_const (continuous_apply _)).inter (isOpen_lt (continuous_apply _) continuous_const)
  obtain ⟨T, hT, γ, h0, hM, hS⟩ := C115_exists (C := cfgD) (et := .keplerian) (oeT := ![2, 0, 0, 0, 0])
    (woe := ![1, 0, 0, 0, 0]) (tmax := 1 / 100) (m0 := 1) (mdot := 1 / 10) (σ := -1) (g := 1) (x := prob.oe0) (Or.inr rfl)
    smooth_d ⟨1, by decide, burn_grad _ oe0_box⟩ (pert_d _) hbox (burn_region.inside _ oe0_box) (by norm_num) (by norm_num)
  have hbd : cfgN.elementsType = .keplerian → BoundsAre cfgN.oeMin (fun _ => 0) ∧ BoundsAre cfgN.oeMax (fun _ => 9) := by
    intro _; constructor <;> intro j <;> fin_cases j <;> rfl
  obtain ⟨δ, hδ, K, hK, hL⟩ := C116_completes (C := cfgN) (et := .keplerian) (fun _ => rfl) rfl rfl (Or.inr rfl)
    hbd hM (fun t ht => ⟨(hS t ht).2.1, (hS t ht).2.2.1, fun _ => (hS t ht).2.2.2⟩) (fun h => by cases h) hT
    (by norm_num) (fun s hs => (hS s hs).1)
  refine ⟨T, hT, min δ (T / 6), by positivity, min_le_right _ _, fun h hh hhd fuel hfuel w hw hwT => ?_⟩
  have hd1 := hhd.trans_le (min_le_left _ _)
  have etf : ∀ w, 0 < w → |(probB h T w).tfMax| = w := fun w hw => by
    simp only [probB]; rw [abs_neg, abs_of_pos hw]
  obtain ⟨Q', H, n, k1, k2, k3, k4, -, k5, -, -, k6⟩ := hL h hh hd1 (objN h T w) (probB h T w) 0 0 fuel le_rfl le_rfl
    (by rw [h0]; exact starts_N _ _ _) (by simp only [probB]; linarith) (by rw [etf w hw]; exact hwT)
    (by
      rw [etf w hw]
      refine le_trans ?_ hfuel
      gcongr
      linarith)
  rw [etf w hw] at k4
  rcases k6 with ⟨k6 | k6, -⟩ | ⟨k6, -, k7⟩
  · obtain ⟨P, H', n', hp, -, -, q, -⟩ := C03_strict_convergence (Q := objN h T w) ⟨rfl, rfl⟩ k1
    injection hp with hp
    subst hp
    have := (q.1 k6).2
    rw [show (objN h T w).cfg.tolOe = fun _ => -1 from rfl, never] at this
    cases this
  · obtain ⟨P, H', n', hp, -, -, -, -, q, -⟩ := C04_relaxed_convergence (Q := objN h T w) ⟨rfl, rfl⟩ k1 k6
    injection hp with hp
    subst hp
    rw [show (objN h T w).cfg.tolOeRelaxed = fun _ => -1 from rfl, never] at q
    cases q
  · rw [etf w hw] at k7
    exact ⟨Q', H, n, k1, k2, k3, k4, k5, k7, k6⟩

/-- C127: backward runs with perturbations of a third body, radiation pressure and oblateness, interrupted at a third of the
time and resumed -/
example : ∃ T > (0 : ℝ), ∃ δ > (0 : ℝ), ∀ h, 0 < h → h < δ → ∃ (fuel : ℕ) (Q1 Qf : QLaw ℝ) (H1 Hf : Hist ℝ),
    (objN h T (T / 3)).solve (.flt 0) (.flt 0) fuel = some (Q1, none) ∧ Q1.hist = some H1 ∧ H1.controls ≠ [] ∧
    (objN h T (2 * T / 3)).solve (.flt 0) (.flt 0) fuel = some (Qf, none) ∧ Qf.hist = some Hf ∧
    ∃ x m l Q2 H2 fuel', H1.states.getLast? = some x ∧ H1.masses.getLast? = some m ∧ H1.battery.getLast? = some l ∧
      (Q1.resume H1.lastTime x m l (-(2 * T / 3) - H1.lastTime)).solve (.flt 0) (.flt 0) fuel' = some (Q2, none) ∧
      Q2.hist = some H2 ∧ Hf = H1.continued H1.lastTime H2 ∧ H2.controls ≠ [] := by
  obtain ⟨T, hT, δ, hδ, hδT, R⟩ := runs_N
  refine ⟨T, hT, δ, hδ, fun h hh hhd => ?_⟩
  have hd2 := hhd.trans_le hδT
  obtain ⟨fuel, hfuel⟩ := exists_nat_ge (T / h + 2)
  have etf : ∀ w, 0 < w → |(probB h T w).tfMax| = w := fun w hw => by
    simp only [probB]; rw [abs_neg, abs_of_pos hw]
  have run := R h hh hhd fuel hfuel
  obtain ⟨Q1, H1, n1, a1, a2, a3, a4, a5, a6, a7⟩ := run (T / 3) (by linarith) (by linarith)
  obtain ⟨Qf, Hf, nf, b1, b2, b3, b4, b5, b6, -⟩ := run (2 * T / 3) (by linarith) (by linarith)
  have hl : H1.lastTime = -1 * (n1 * h) := by
    rw [Hist.lastTime, a3, List.range_succ, List.map_append]; simp
  have hb := flat_battery (fun _ => rfl) b1 rfl b2 rfl rfl (by simp [probB, prob]) (by simp [probB, prob])
  obtain ⟨x, m, l, c1, c2, c3, Q2, H2, f', c4, c5, c6, -⟩ := C127_resume (Q := objN h T (T / 3)) (T := -(2 * T / 3)) (σ := -1)
    ⟨rfl, rfl⟩ rfl (fun _ _ => rfl) a1 a7 a2 b1 b2 (Or.inr rfl)
    (by rw [etf _ (by linarith), abs_neg, abs_of_pos (by linarith)]; linarith)
    (by rw [hl]; linarith)
    (by
      rw [b3, List.pairwise_map]
      refine List.pairwise_lt_range.imp fun {u v} huv => ?_
      have : (u : ℝ) ≤ v := by exact_mod_cast huv.le
      nlinarith)
    (by show -1 * -(2 * T / 3) ≤ T; linarith)
    (by
      intro l hl
      rw [hb l hl]
      simp only [probB, prob]
      norm_num)
    (fun k _ => never _ _ _ _ _ _)
    (fun k _ => by
      unfold nanAt
      split
      · rfl
      · split
        · dsimp only
          split <;> simp [PyNan.isnan]
        · rfl)
  refine ⟨fuel, Q1, Qf, H1, Hf, a1, a2, ?_, b1, b2, x, m, l, Q2, H2, f', c1, c2, c3, c4, c5, c6, ?_⟩
  · intro hc
    rw [hc] at a5
    rw [← a5] at a6
    simp at a6
    linarith
  · intro hc
    have := congrArg (fun H => H.controls.length) c6
    simp only [Hist.continued, List.length_append, hc, List.length_nil, a5, b5] at this
    rw [this] at b6
    simp at b6
    linarith

end Burn

end PyQ
