import Verif.Props.ShortStep
import Verif.Proofs.Smooth
import Verif.Props.Wound

/-!
C98: on a compact region away from the target, short thrusting steps lower `Q` at least at a fixed rate.
-/

set_option linter.unusedSectionVars false
set_option maxRecDepth 100000

open Filter Topology

namespace PyQ

/-- Moving a short way along a continuous field of descent directions lowers a continuously
differentiable function at least at a fixed rate, uniformly on a compact set, without leaving a given
open set. -/
theorem uniform_descent {E : Type} [NormedAddCommGroup E] [NormedSpace ℝ E] {F : E → ℝ} {v : E → E}
    {K U : Set E} (hK : IsCompact K) (hU : IsOpen U) (hKU : K ⊆ U) (hF : ∀ x ∈ K, ContDiffAt ℝ 1 F x)
    (hv : ContinuousOn v K) (hn : ∀ x ∈ K, fderiv ℝ F x (v x) < 0) :
    ∃ δ > 0, ∃ c > 0, ∀ x ∈ K, ∀ s : ℝ, 0 < s → s < δ →
      x + s • v x ∈ U ∧ F (x + s • v x) ≤ F x - c * s := by
  suffices h : ∃ δ > 0, ∃ c > 0, ∀ x ∈ K ∩ K, ∀ s : ℝ, 0 < s → s < δ →
      x + s • v x ∈ U ∧ F (x + s • v x) ≤ F x - c * s by simpa using h
  refine hK.induction_on (p := fun S => ∃ δ > 0, ∃ c > 0, ∀ x ∈ S ∩ K, ∀ s : ℝ, 0 < s → s < δ →
      x + s • v x ∈ U ∧ F (x + s • v x) ≤ F x - c * s) ?_ ?_ ?_ ?_
  · exact ⟨1, one_pos, 1, one_pos, fun x hx => absurd hx.1 (Set.notMem_empty x)⟩
  · rintro S T hST ⟨δ, h1, c, h2, h3⟩
    exact ⟨δ, h1, c, h2, fun x hx => h3 x ⟨hST hx.1, hx.2⟩⟩
  · rintro S T ⟨δ, h1, c, h2, h3⟩ ⟨δ', h1', c', h2', h3'⟩
    refine ⟨min δ δ', lt_min h1 h1', min c c', lt_min h2 h2', ?_⟩
    rintro x ⟨hx | hx, hxK⟩ s hs hsd
    · obtain ⟨k1, k2⟩ := h3 x ⟨hx, hxK⟩ s hs (hsd.trans_le (min_le_left _ _))
      exact ⟨k1, k2.trans (by nlinarith [min_le_left c c'])⟩
    · obtain ⟨k1, k2⟩ := h3' x ⟨hx, hxK⟩ s hs (hsd.trans_le (min_le_right _ _))
      exact ⟨k1, k2.trans (by nlinarith [min_le_right c c'])⟩
  · intro x0 hx0
    set L := fderiv ℝ F x0 with hL
    set r := -L (v x0) with hr
    have hr0 : 0 < r := by have := hn x0 hx0; rw [hr]; linarith
    set M := ‖v x0‖ + 1 with hM
    have hM0 : 0 < M := by positivity
    have hst := ((hF x0 hx0).hasStrictFDerivAt one_ne_zero).isLittleO
    have hε : 0 < r / (4 * M) := by positivity
    have hlo := hst.bound hε
    have hvx := hv x0 hx0
    have hmap : Tendsto (fun p : E × ℝ => p.1 + p.2 • v p.1) (𝓝[K] x0 ×ˢ 𝓝 0) (𝓝 x0) := by
      have h1 : Tendsto (fun p : E × ℝ => p.1) (𝓝[K] x0 ×ˢ 𝓝 (0 : ℝ)) (𝓝 x0) :=
        tendsto_fst.mono_right nhdsWithin_le_nhds
      have h2 : Tendsto (fun p : E × ℝ => v p.1) (𝓝[K] x0 ×ˢ 𝓝 (0 : ℝ)) (𝓝 (v x0)) :=
        hvx.tendsto.comp tendsto_fst
      have h3 : Tendsto (fun p : E × ℝ => p.2) (𝓝[K] x0 ×ˢ 𝓝 (0 : ℝ)) (𝓝 0) := tendsto_snd
      simpa using h1.add (h3.smul h2)
    have hpair : Tendsto (fun p : E × ℝ => (p.1 + p.2 • v p.1, p.1)) (𝓝[K] x0 ×ˢ 𝓝 0) (𝓝 (x0, x0)) := by
      rw [nhds_prod_eq]
      exact hmap.prodMk (tendsto_fst.mono_right nhdsWithin_le_nhds)
    have e1 := hpair.eventually hlo
    have e2 := hmap.eventually (hU.mem_nhds (hKU hx0))
    have e3 : ∀ᶠ x in 𝓝[K] x0, L (v x) < -(r / 2) := by
      have : Tendsto (fun x => L (v x)) (𝓝[K] x0) (𝓝 (L (v x0))) :=
        (L.continuous.tendsto _).comp hvx.tendsto
      exact this.eventually (gt_mem_nhds (by rw [show L (v x0) = -r by rw [hr]; ring]; linarith))
    have e4 : ∀ᶠ x in 𝓝[K] x0, ‖v x‖ < M :=
      (hvx.tendsto.norm).eventually (gt_mem_nhds (by rw [hM]; linarith))
    obtain ⟨pa, ha, pb, hb, hab⟩ := eventually_prod_iff.1 (e1.and e2)
    obtain ⟨δ, hδ, hball⟩ := Metric.eventually_nhds_iff.1 hb
    refine ⟨_, (ha.and (e3.and e4)), δ, hδ, r / 4, by positivity, ?_⟩
    rintro x ⟨⟨h1, h2, h3⟩, -⟩ s hs hsd
    obtain ⟨k1, k2⟩ := hab h1 (hball (y := s) (by rw [Real.dist_eq, sub_zero, abs_of_pos hs]; exact hsd))
    refine ⟨k2, ?_⟩
    simp only [add_sub_cancel_left, map_smul, smul_eq_mul, norm_smul, Real.norm_eq_abs, abs_of_pos hs] at k1
    have k3 := (abs_le.1 k1).2
    have k4 : r / (4 * M) * (s * ‖v x‖) ≤ r / 4 * s := by
      have : r / (4 * M) * (s * ‖v x‖) ≤ r / (4 * M) * (s * M) := by gcongr
      refine this.trans (le_of_eq ?_)
      field_simp
    nlinarith

/-! ## the field of the package's own law -/

/-- the arguments of a call of the control law at a state, for a thrust acceleration of one -/
def unitCall (C : Config ℝ) (oeT woe : Fin 5 → ℝ) (x : Fin 6 → ℝ) : LyapArgs ℝ :=
  { mu := C.mu, f := 1, oe := x, oeT := oeT, rpmin := C.rpmin, m := C.mPetro, n := C.nPetro, r := C.rPetro,
    b := C.bPetro, k := C.kPetro, wp := C.wp, woe := woe }

/-- the arguments at which `Q` is smooth and the Gauss matrix is continuous -/
def CandSmooth : ElemType → LyapArgs ℝ → Prop
  | .keplerian, A => KepSmooth A
  | .meeWithA, A => MeeSmooth A ∧ A.oe 1 ≠ 0

theorem candQ_c1 {et : ElemType} {A : LyapArgs ℝ} (H : CandSmooth et A) :
    ContDiffAt ℝ 1 (fun x => candQ et (A.withOe x)) A.oe := by
  cases et with
  | keplerian => exact kepQ_c1 A H
  | meeWithA => exact meeQ_c1 A H.1

theorem kepPsi_smooth {N : ℕ∞} {A : LyapArgs ℝ} (H : KepSmooth A) (c : Fin 3) (j : Fin 5) :
    ContDiffAt ℝ N (fun x => kepPsi (A.withOe x) c j) A.oe := by
  have hmu := H.mu
  have ha := H.a
  have he0 := H.e0
  have he1 := H.e1
  have hp : 0 < 1 - A.oe 1 ^ 2 := by nlinarith
  have hh : 0 < Real.sqrt (A.oe 0 * A.mu * (1 - A.oe 1 ^ 2)) := Real.sqrt_pos.2 (by positivity)
  have hi := Real.sin_pos_of_pos_of_lt_pi H.i0 H.i1
  have hc : 0 < 1 + A.oe 1 * Real.cos (A.oe 5) := by nlinarith [Real.neg_one_le_cos (A.oe 5)]
  have hr : 0 < Real.sqrt (A.oe 0 * A.mu * (1 - A.oe 1 ^ 2)) ^ 2 / (A.mu * (1 + A.oe 1 * Real.cos (A.oe 5))) := by
    positivity
  fin_cases c <;> fin_cases j <;>
    simp only [kepPsi, LyapArgs.withOe, Fin.zero_eta, Fin.mk_one, Fin.reduceFinMk, Matrix.cons_val,
      cos_real, sin_real, sqrt_real, Nat.cast_one, Nat.cast_ofNat, Nat.cast_zero] <;>
    fun_prop (disch := positivity)

attribute [local fun_prop] Real.contDiff_arctan in
theorem meePsi_smooth {N : ℕ∞} {A : LyapArgs ℝ} (H : MeeSmooth A) (hf : A.oe 1 ≠ 0) (c : Fin 3) (j : Fin 5) :
    ContDiffAt ℝ N (fun x => meePsi (A.withOe x) c j) A.oe := by
  have hmu := H.mu
  have ha := H.a
  have hecc := H.ecc
  have hecc0 := H.ecc0
  have hp : 0 < 1 - A.oe 1 ^ 2 - A.oe 2 ^ 2 := by linarith
  have hpm : 0 < A.oe 0 * (1 - A.oe 1 ^ 2 - A.oe 2 ^ 2) / A.mu := by positivity
  have he : Real.sqrt (A.oe 1 ^ 2 + A.oe 2 ^ 2) ^ 2 = A.oe 1 ^ 2 + A.oe 2 ^ 2 := Real.sq_sqrt hecc0.le
  have hq : 0 < 1 - Real.sqrt (A.oe 1 ^ 2 + A.oe 2 ^ 2) ^ 2 := by rw [he]; linarith
  have e1 : Real.sqrt (A.oe 1 ^ 2 + A.oe 2 ^ 2) < 1 := by
    rw [Real.sqrt_lt' one_pos]; linarith
  have e0 := Real.sqrt_nonneg (A.oe 1 ^ 2 + A.oe 2 ^ 2)
  have hh : 0 < Real.sqrt (A.oe 0 * A.mu * (1 - Real.sqrt (A.oe 1 ^ 2 + A.oe 2 ^ 2) ^ 2)) :=
    Real.sqrt_pos.2 (by positivity)
  have hc : 0 < 1 + Real.sqrt (A.oe 1 ^ 2 + A.oe 2 ^ 2) * Real.cos (A.oe 5 - Real.arctan (A.oe 2 / A.oe 1)) := by
    nlinarith [Real.neg_one_le_cos (A.oe 5 - Real.arctan (A.oe 2 / A.oe 1))]
  have hr : 0 < Real.sqrt (A.oe 0 * A.mu * (1 - Real.sqrt (A.oe 1 ^ 2 + A.oe 2 ^ 2) ^ 2)) ^ 2 /
      (A.mu * (1 + Real.sqrt (A.oe 1 ^ 2 + A.oe 2 ^ 2) * Real.cos (A.oe 5 - Real.arctan (A.oe 2 / A.oe 1)))) := by
    positivity
  have hw : 0 < 1 + A.oe 1 * Real.cos (A.oe 5) + A.oe 2 * Real.sin (A.oe 5) := by
    nlinarith [sq_nonneg (A.oe 1 + Real.cos (A.oe 5)), sq_nonneg (A.oe 2 + Real.sin (A.oe 5)),
      Real.sin_sq_add_cos_sq (A.oe 5)]
  fin_cases c <;> fin_cases j <;>
    simp only [meePsi, LyapArgs.withOe, Fin.zero_eta, Fin.mk_one, Fin.reduceFinMk, Matrix.cons_val, rat_real,
      cos_real, sin_real, sqrt_real, arctan_real, Nat.cast_one, Nat.cast_ofNat, Nat.cast_zero] <;>
    fun_prop (disch := positivity)

theorem candPsi_smooth {N : ℕ∞} {et : ElemType} {A : LyapArgs ℝ} (H : CandSmooth et A) (c : Fin 3) (j : Fin 5) :
    ContDiffAt ℝ N (fun x => candPsi et (A.withOe x) c j) A.oe := by
  cases et with
  | keplerian => exact kepPsi_smooth H c j
  | meeWithA => exact meePsi_smooth H.1 H.2 c j

theorem candPsi_cont {et : ElemType} {A : LyapArgs ℝ} (H : CandSmooth et A) (c : Fin 3) (j : Fin 5) :
    ContinuousAt (fun x => candPsi et (A.withOe x) c j) A.oe := (candPsi_smooth (N := 0) H c j).continuousAt

/-- the derivative of `Q` along an element is the partial derivative used by the law -/
theorem partialQ_fderiv {Q : LyapArgs ℝ → ℝ} {A : LyapArgs ℝ}
    (hD : DifferentiableAt ℝ (fun x => Q (A.withOe x)) A.oe) (j : Fin 5) :
    partialQ Q A j = fderiv ℝ (fun x => Q (A.withOe x)) A.oe (Pi.single j.castSucc 1) := by
  have h2 : HasFDerivAt (fun x => Q (A.withOe x)) (fderiv ℝ (fun x => Q (A.withOe x)) A.oe)
      (Function.update A.oe j.castSucc (A.oe j.castSucc)) := by
    rw [Function.update_eq_self]; exact hD.hasFDerivAt
  have h3 := h2.comp_hasDerivAt (A.oe j.castSucc) (hasDerivAt_update A.oe j.castSucc (A.oe j.castSucc))
  rw [← h3.deriv]
  simp only [partialQ, diff_real]
  congr 1
  funext s
  congr 1
  simp only [LyapArgs.setOe, LyapArgs.withOe, LyapArgs.mk.injEq, true_and, and_true]
  funext i
  simp only [Function.update_apply]

/-- the gradient of `Q` along the three thrust directions -/
noncomputable def lawGrad (et : ElemType) (A : LyapArgs ℝ) : Fin 3 → ℝ :=
  thrustGrad (partialQ (candQ et) A) (candPsi et A)

/-- the rates of the five slow elements under a unit acceleration along the direction of the law -/
noncomputable def lawRates (et : ElemType) (A : LyapArgs ℝ) (j : Fin 5) : ℝ :=
  ∑ c : Fin 3, candPsi et A c j * (-1 / norm3 (lawGrad et A) * lawGrad et A c)

/-- the same with a sixth element at rest -/
noncomputable def lawField (et : ElemType) (A : LyapArgs ℝ) : Fin 6 → ℝ :=
  advance 0 (lawRates et A) 1

theorem advance_field (et : ElemType) (A : LyapArgs ℝ) (x : Fin 6 → ℝ) (s : ℝ) :
    advance x (lawRates et A) s = x + s • lawField et A := by
  funext i
  fin_cases i <;> simp [advance, lawField]

theorem field_rate {et : ElemType} {A : LyapArgs ℝ} (H : CandSmooth et A)
    (hg : lawGrad et A ≠ 0) :
    fderiv ℝ (fun x => candQ et (A.withOe x)) A.oe (lawField et A) = -norm3 (lawGrad et A) := by
  have hD := (candQ_c1 H).differentiableAt one_ne_zero
  have e : lawField et A = ∑ j : Fin 5, lawRates et A j • (Pi.single j.castSucc 1 : Fin 6 → ℝ) := by
    unfold lawField
    generalize lawRates et A = v
    funext i
    simp only [Finset.sum_apply, Pi.smul_apply, Fin.sum_univ_five, smul_eq_mul]
    fin_cases i <;> simp [advance, Fin.ext_iff]
  rw [e, map_sum]
  simp only [map_smul, smul_eq_mul, ← partialQ_fderiv hD]
  have hn := norm3_pos hg
  have : ∑ j : Fin 5, lawRates et A j * partialQ (candQ et) A j =
      -1 / norm3 (lawGrad et A) * dot3 (lawGrad et A) (lawGrad et A) := by
    have h0 : ∀ c, lawGrad et A c = ∑ j : Fin 5, candPsi et A c j * partialQ (candQ et) A j := fun c => rfl
    simp only [lawRates, dot3]
    generalize -1 / norm3 (lawGrad et A) = r
    simp only [h0, Fin.sum_univ_five, Fin.sum_univ_three]
    ring
  rw [this, ← norm3_sq]
  field_simp

theorem field_cont {C : Config ℝ} {oeT woe : Fin 5 → ℝ} {et : ElemType} {K : Set (Fin 6 → ℝ)}
    (H : ∀ x ∈ K, CandSmooth et (unitCall C oeT woe x)) (hg : ∀ x ∈ K, lawGrad et (unitCall C oeT woe x) ≠ 0) :
    ContinuousOn (fun x => lawField et (unitCall C oeT woe x)) K := by
  have hP : ∀ c j, ContinuousOn (fun x => candPsi et (unitCall C oeT woe x) c j) K :=
    fun c j x hx => (candPsi_cont (H x hx) c j).continuousWithinAt
  have hF : ∀ x ∈ K, ContDiffAt ℝ 1 (fun x => candQ et (unitCall C oeT woe x)) x := fun x hx => candQ_c1 (H x hx)
  have hq : ∀ j, ContinuousOn (fun x => partialQ (candQ et) (unitCall C oeT woe x) j) K := by
    intro j
    refine ContinuousOn.congr (f := fun x => fderiv ℝ (fun x => candQ et (unitCall C oeT woe x)) x
      (Pi.single j.castSucc 1)) ?_ ?_
    · intro x hx
      have := ((hF x hx).fderiv_right (m := 0) (by norm_num)).continuousAt
      exact (this.clm_apply continuousAt_const).continuousWithinAt
    · intro x hx
      exact partialQ_fderiv (A := unitCall C oeT woe x) ((hF x hx).differentiableAt one_ne_zero) j
  have hG : ∀ c, ContinuousOn (fun x => lawGrad et (unitCall C oeT woe x) c) K := by
    intro c
    simp only [lawGrad, thrustGrad]
    exact continuousOn_finsetSum _ fun j _ => (hP c j).mul (hq j)
  have hN : ContinuousOn (fun x => norm3 (lawGrad et (unitCall C oeT woe x))) K := by
    simp only [norm3, sqrt_real]
    exact ((((hG 0).pow 2).add ((hG 1).pow 2)).add ((hG 2).pow 2)).sqrt
  have hR : ∀ j, ContinuousOn (fun x => lawRates et (unitCall C oeT woe x) j) K := by
    intro j
    simp only [lawRates]
    refine continuousOn_finsetSum _ fun c _ => (hP c j).mul ((continuousOn_const.div hN ?_).mul (hG c))
    exact fun x hx => (norm3_pos (hg x hx)).ne'
  refine continuousOn_pi.2 fun i => ?_
  fin_cases i <;> simp only [lawField, advance, Pi.zero_apply, zero_add, one_mul]
  · exact hR 0
  · exact hR 1
  · exact hR 2
  · exact hR 3
  · exact hR 4
  · exact continuousOn_const

theorem candQ_turn (et : ElemType) (A : LyapArgs ℝ) (n : ℤ) : candQ et (A.shift (turnsOf et 0 0 n)) = candQ et A := by
  cases et with
  | keplerian => exact kepQ_wound A
  | meeWithA => exact meeQ_wound A

theorem candPsi_turn (et : ElemType) (A : LyapArgs ℝ) (n : ℤ) :
    candPsi et (A.shift (turnsOf et 0 0 n)) = candPsi et A := by
  cases et with
  | keplerian => exact kepPsi_wound A
  | meeWithA => exact meePsi_wound A

theorem partialQ_turn (et : ElemType) (A : LyapArgs ℝ) (n : ℤ) (j : Fin 5) :
    partialQ (candQ et) (A.shift (turnsOf et 0 0 n)) j = partialQ (candQ et) A j := by
  have h0 : turnsOf et 0 0 n j.castSucc = 0 := by
    cases et <;> fin_cases j <;> simp [turnsOf]
  have h1 : (A.shift (turnsOf et 0 0 n)).oe j.castSucc = A.oe j.castSucc := by
    simp [LyapArgs.shift, vadd, h0]
  have h2 : (fun x => candQ et ((A.shift (turnsOf et 0 0 n)).setOe j x)) = fun x => candQ et (A.setOe j x) := by
    funext x
    rw [← candQ_turn et (A.setOe j x) n]
    congr 1
    simp only [LyapArgs.setOe, LyapArgs.shift, LyapArgs.mk.injEq, true_and, and_true]
    funext i
    by_cases h : i = j.castSucc
    · subst h; simp [vadd, h0]
    · simp [vadd, h]
  unfold partialQ
  rw [h1, h2]

theorem lawGrad_turn (et : ElemType) (A : LyapArgs ℝ) (n : ℤ) :
    lawGrad et (A.shift (turnsOf et 0 0 n)) = lawGrad et A := by
  unfold lawGrad
  rw [candPsi_turn, funext (partialQ_turn et A n)]

theorem lawRates_turn (et : ElemType) (A : LyapArgs ℝ) (n : ℤ) :
    lawRates et (A.shift (turnsOf et 0 0 n)) = lawRates et A := by
  funext j
  unfold lawRates
  rw [candPsi_turn, lawGrad_turn]

/-- the call at a state for thrust acceleration `f` -/
def callAt (C : Config ℝ) (oeT woe : Fin 5 → ℝ) (f : ℝ) (x : Fin 6 → ℝ) : LyapArgs ℝ :=
  { unitCall C oeT woe x with f := f }

theorem callAt_scaled (C : Config ℝ) (oeT woe : Fin 5 → ℝ) (f : ℝ) (x : Fin 6 → ℝ) :
    callAt C oeT woe f x = { unitCall C oeT woe x with f := f * (unitCall C oeT woe x).f } := by
  simp [callAt, unitCall]

theorem candQ_call (et : ElemType) (C : Config ℝ) (oeT woe : Fin 5 → ℝ) (f : ℝ) (x : Fin 6 → ℝ) :
    candQ et (callAt C oeT woe f x) = candQ et (unitCall C oeT woe x) / f ^ 2 := by
  rw [callAt_scaled, candQ_scaling]

theorem candPsi_call (et : ElemType) (C : Config ℝ) (oeT woe : Fin 5 → ℝ) (f : ℝ) (x : Fin 6 → ℝ) :
    candPsi et (callAt C oeT woe f x) = candPsi et (unitCall C oeT woe x) := by
  cases et <;> rfl

theorem partialQ_call (et : ElemType) (C : Config ℝ) (oeT woe : Fin 5 → ℝ) (f : ℝ) (x : Fin 6 → ℝ) (j : Fin 5) :
    partialQ (candQ et) (callAt C oeT woe f x) j = 1 / f ^ 2 * partialQ (candQ et) (unitCall C oeT woe x) j := by
  unfold partialQ
  simp only [diff_real]
  have : (fun y => candQ et ((callAt C oeT woe f x).setOe j y)) =
      fun y => 1 / f ^ 2 * candQ et ((unitCall C oeT woe x).setOe j y) := by
    funext y
    have := candQ_call et C oeT woe f ((unitCall C oeT woe x).setOe j y).oe
    rw [one_div_mul_eq_div]
    exact this
  rw [this, deriv_const_mul_field]
  rfl

theorem lawGrad_call (et : ElemType) (C : Config ℝ) (oeT woe : Fin 5 → ℝ) (f : ℝ) (x : Fin 6 → ℝ) :
    lawGrad et (callAt C oeT woe f x) = vsmul (1 / f ^ 2) (lawGrad et (unitCall C oeT woe x)) := by
  funext c
  simp only [lawGrad, thrustGrad, candPsi_call, partialQ_call, vsmul, Finset.mul_sum]
  refine Finset.sum_congr rfl fun j _ => ?_
  ring

/-- the direction chosen by the law does not depend on the size of the acceleration -/
theorem law_direction {et : ElemType} {C : Config ℝ} {oeT woe : Fin 5 → ℝ} {f : ℝ} {x : Fin 6 → ℝ} (hf : 0 < f)
    {o : ControlOut ℝ} (h : lyapunovControlAngles (dynOf (α := ℝ) et).lyapFun (callAt C oeT woe f x) = .ok o)
    (c : Fin 3) : unitDir o.alpha o.beta c = -1 / norm3 (lawGrad et (unitCall C oeT woe x)) *
      lawGrad et (unitCall C oeT woe x) c := by
  have hu := dyn_lyap et (callAt C oeT woe f x)
  obtain ⟨o', g1, g2, -⟩ := control_value (dynOf (α := ℝ) et).lyapFun (callAt C oeT woe f x)
    (by rw [hu.1, hu.2.2.1, hu.2.2.2]) (control_defined h)
  rw [h] at g1; injection g1 with g1; subst g1
  have e : ((dynOf (α := ℝ) et).lyapFun (callAt C oeT woe f x)).uRaw =
      vsmul (1 / f ^ 2) (lawGrad et (unitCall C oeT woe x)) := by
    rw [hu.1, ← lawGrad_call]; rfl
  have hk : 0 < 1 / f ^ 2 := by positivity
  rw [g2, e, norm3_smul, abs_of_pos hk]
  simp only [vsmul]
  field_simp

/-- A compact set of states on which the package's law works: strictly inside the bounds of the elements,
`Q` smooth and positive, and thrust able to change `Q` to first order. -/
structure DescentRegion (C : Config ℝ) (et : ElemType) (oeT woe l u : Fin 5 → ℝ) (K : Set (Fin 6 → ℝ)) : Prop where
  compact : IsCompact K
  inside : ∀ x ∈ K, ∀ j : Fin 5, l j < x j.castSucc ∧ x j.castSucc < u j
  smooth : ∀ x ∈ K, CandSmooth et (unitCall C oeT woe x)
  pos : ∀ x ∈ K, 0 < candQ et (unitCall C oeT woe x)
  grad : ∀ x ∈ K, ∃ c : Fin 3, ∑ j : Fin 5, candPsi et (unitCall C oeT woe x) c j *
    partialQ (candQ et) (unitCall C oeT woe x) j ≠ 0

theorem DescentRegion.descent {C : Config ℝ} {et : ElemType} {oeT woe l u : Fin 5 → ℝ} {K : Set (Fin 6 → ℝ)}
    (R : DescentRegion C et oeT woe l u K) : ∃ δ > 0, ∃ c > 0, ∀ x ∈ K, ∀ s : ℝ, 0 < s → s < δ →
      ((∀ j : Fin 5, l j ≤ advance x (lawRates et (unitCall C oeT woe x)) s j.castSucc ∧
          advance x (lawRates et (unitCall C oeT woe x)) s j.castSucc ≤ u j) ∧
        0 < candQ et (unitCall C oeT woe (advance x (lawRates et (unitCall C oeT woe x)) s))) ∧
      candQ et (unitCall C oeT woe (advance x (lawRates et (unitCall C oeT woe x)) s)) ≤
        candQ et (unitCall C oeT woe x) - c * s := by
  have hg : ∀ x ∈ K, lawGrad et (unitCall C oeT woe x) ≠ 0 := by
    intro x hx h
    obtain ⟨c, hc⟩ := R.grad x hx
    exact hc (congrFun h c)
  have hF : ∀ x ∈ K, ContDiffAt ℝ 1 (fun x => candQ et (unitCall C oeT woe x)) x :=
    fun x hx => candQ_c1 (R.smooth x hx)
  let U1 : Set (Fin 6 → ℝ) := {x | ∀ j : Fin 5, l j < x j.castSucc ∧ x j.castSucc < u j}
  have hU1 : IsOpen U1 := by
    simp only [U1, Set.ofPred_forall]
    refine isOpen_iInter_of_finite fun j => ?_
    exact (isOpen_lt continuous_const (continuous_apply _)).inter (isOpen_lt (continuous_apply _) continuous_const)
  obtain ⟨δ, h1, c, h2, h3⟩ := uniform_descent (F := fun x => candQ et (unitCall C oeT woe x))
    (v := fun x => lawField et (unitCall C oeT woe x)) (K := K)
    (U := U1 ∩ interior {x | 0 < candQ et (unitCall C oeT woe x)}) R.compact
    (hU1.inter isOpen_interior)
    (fun x hx => ⟨R.inside x hx, mem_interior_iff_mem_nhds.2 ((hF x hx).continuousAt.eventually (lt_mem_nhds (R.pos x hx)))⟩)
    hF (field_cont R.smooth hg) (fun x hx => by
      have := field_rate (R.smooth x hx) (hg x hx)
      have h0 := norm3_pos (hg x hx)
      refine lt_of_eq_of_lt this ?_
      linarith)
  refine ⟨δ, h1, c, h2, fun x hx s hs hsd => ?_⟩
  obtain ⟨⟨k1, k2⟩, k3⟩ := h3 x hx s hs hsd
  rw [← advance_field] at k1 k2 k3
  have k4 : advance x (lawRates et (unitCall C oeT woe x)) s ∈ {x | 0 < candQ et (unitCall C oeT woe x)} :=
    interior_subset k2
  exact ⟨⟨fun j => ⟨(k1 j).1.le, (k1 j).2.le⟩, k4⟩, k3⟩

theorem recArgs_call {C : Config ℝ} {P : Problem ℝ} {oeT : Fin 5 → ℝ} {x : Fin 6 → ℝ} {m s : ℝ} (h : 0 < s) :
    recArgs C P oeT x m s = callAt C oeT P.woe (P.tmax / m) x := by
  simp only [recArgs, sign_pos h, callAt, unitCall, one_mul]

theorem turn_call (C : Config ℝ) (oeT woe : Fin 5 → ℝ) (et : ElemType) (n : ℤ) (x : Fin 6 → ℝ) :
    unitCall C oeT woe (wound et 0 0 n x) = (unitCall C oeT woe x).shift (turnsOf et 0 0 n) := rfl

theorem wound_slow (et : ElemType) (n : ℤ) (x : Fin 6 → ℝ) (j : Fin 5) : wound et 0 0 n x j.castSucc = x j.castSucc := by
  cases et <;> fin_cases j <;> simp [wound, turnsOf, vadd]

/-- **C98.** For an object without perturbations, a compact set of states on which the law works and a lower
bound on the mass, there are a step length and a rate such that every forward thrusting step that is shorter,
from a state in the set (up to whole turns of the anomaly), lowers `Q` at least at that rate, in every run:
both the value at the new state and the value recorded for the next step. -/
theorem C98_step [PyNan ℝ] {C : Config ℝ} {et : ElemType} (hd : C.dyn = dynOf et)
    (hp : C.perturbations = none) {oeT woe l u : Fin 5 → ℝ} {tmax mmin : ℝ} {K : Set (Fin 6 → ℝ)}
    (hl : C.elementsType = .keplerian → BoundsAre C.oeMin l ∧ BoundsAre C.oeMax u)
    (R : DescentRegion C et oeT woe l u K) (hT : 0 < tmax) (hm0 : 0 < mmin) :
    ∃ δ > 0, ∃ c > 0, ∀ (Q Q' : QLaw ℝ) (P : Problem ℝ) (etaA etaR : EtaArg ℝ) (fuel : ℕ) (H : Hist ℝ),
      Q.cfg = C → Q.prob = some P → P.oeT = List.ofFn oeT → P.tmax = tmax → 0 ≤ P.mdot → P.woe = woe →
      Q.solve etaA etaR fuel = some (Q', none) → Q'.hist = some H →
      ∀ (k : ℕ) (a b t t' m q : ℝ) (x y : Fin 6 → ℝ) (n : ℤ), H.controls[k]? = some (a, b, 1) →
        H.times[k]? = some t → H.times[k + 1]? = some t' → H.states[k]? = some x → H.masses[k]? = some m →
        H.states[k + 1]? = some y → H.qs[k]? = some q → wound et 0 0 n x ∈ K → mmin ≤ m → t < t' → t' < t + δ →
        q = candQ et (callAt C oeT woe (tmax / m) x) ∧ 0 < q ∧
        candQ et (callAt C oeT woe (tmax / m) y) ≤ q - c * (t' - t) ∧
        ∀ (m' t'' q' : ℝ), H.masses[k + 1]? = some m' → 0 < m' → H.times[k + 2]? = some t'' → t' < t'' →
          H.qs[k + 1]? = some q' → q' ≤ q - c * (t' - t) := by
  obtain ⟨δ1, hδ1, c1, hc1, hR⟩ := R.descent
  have hg := gain_pos C.integrator
  refine ⟨δ1 * mmin / (tmax * gain C.integrator), by positivity, c1 * gain C.integrator * mmin / tmax, by positivity, ?_⟩
  rintro Q Q' P etaA etaR fuel H rfl hP hoe rfl hmd rfl h hH k a b t t' m q x y n hc ht ht' hx hm hy hq hxK hmm h1 h2
  have hm1 : 0 < m := hm0.trans_le hmm
  set f := P.tmax / m with hf
  have hf0 : 0 < f := div_pos hT hm1
  have hAr : recArgs Q.cfg P oeT x m (t' - t) = callAt Q.cfg oeT P.woe f x := recArgs_call (by linarith)
  obtain ⟨o, ho, hq0, hab⟩ : ∃ o, lyapunovControlAngles (dynOf (α := ℝ) et).lyapFun (callAt Q.cfg oeT P.woe f x) = .ok o ∧
      q = candQ et (callAt Q.cfg oeT P.woe f x) ∧ a = o.alpha ∧ b = o.beta := by
    obtain ⟨st, oeT', o', -, -, g1, g2, g3, g4, -, g5, -⟩ := C80_law_applied h hP hH hc ht hx hm
    rw [ht'] at g1; injection g1 with g1
    have : oeT' = oeT := List.ofFn_injective (g2.symm.trans hoe)
    subst this
    rw [hq] at g4; injection g4 with g4
    rw [show st = t' - t by linarith, hAr, hd] at g3
    exact ⟨o', g3, by rw [g4, (angles_psi g3).2, (dyn_lyap et _).2.1], g5 rfl⟩
  have hdir := law_direction hf0 ho
  obtain ⟨oeT', ptrb, z, g1, g2, g3, g4⟩ := C81_slow_step h hP hH hd hc ht ht' hx hm hy
  have : oeT' = oeT := List.ofFn_injective (g1.symm.trans hoe)
  subst this
  have hpt : ptrb = 0 := by
    simp only [PerturbationIs, hp] at g2
    rw [g2]; funext i; fin_cases i <;> simp
  set s := gain Q.cfg.integrator * (t' - t) * f with hs
  have hs0 : 0 < s := mul_pos (mul_pos hg (by linarith)) hf0
  have hs1 : s < δ1 := by
    have h3 : t' - t < δ1 * mmin / (P.tmax * gain Q.cfg.integrator) := by linarith
    rw [lt_div_iff₀ (by positivity)] at h3
    rw [hs, hf, ← mul_div_assoc, div_lt_iff₀ hm1]
    have : δ1 * mmin ≤ δ1 * m := by gcongr
    linarith
  obtain ⟨⟨r1, r2⟩, r3⟩ := hR _ hxK s hs0 hs1
  rw [turn_call, lawRates_turn] at r1 r2 r3
  rw [candQ_turn] at r3
  set w := advance (wound et 0 0 n x) (lawRates et (unitCall Q.cfg oeT' P.woe x)) s with hw
  have hz : ∀ j : Fin 5, z j.castSucc = w j.castSucc := by
    intro j
    rw [g3 j, hw, advance_slow, wound_slow, hAr, hab.1, hab.2, hpt, hs]
    simp only [if_pos, Pi.zero_apply, add_zero, hdir, candPsi_call, lawRates, Fin.sum_univ_three]
    simp only [callAt]
    ring
  have hyz : ∀ j : Fin 5, y j.castSucc = z j.castSucc := by
    rcases g4 with rfl | ⟨hK, g4⟩
    · exact fun _ => rfl
    · obtain ⟨b1, b2⟩ := hl hK
      refine safety_inside b1 b2 (fun j => ?_) g4
      rw [hz j]
      exact r1 j
  have hyw : candQ et (unitCall Q.cfg oeT' P.woe y) = candQ et (unitCall Q.cfg oeT' P.woe w) :=
    candQ_slow et (unitCall Q.cfg oeT' P.woe x) (fun j => (hyz j).trans (hz j))
  have hy0 : 0 < candQ et (callAt Q.cfg oeT' P.woe f y) := by
    rw [candQ_call, hyw]; positivity
  have hle : candQ et (callAt Q.cfg oeT' P.woe f y) ≤ q - c1 * gain Q.cfg.integrator * mmin / P.tmax * (t' - t) := by
    rw [candQ_call, hyw, hq0, candQ_call]
    have e1 : candQ et (unitCall Q.cfg oeT' P.woe w) / f ^ 2 ≤
        (candQ et (unitCall Q.cfg oeT' P.woe x) - c1 * s) / f ^ 2 := by gcongr
    refine e1.trans ?_
    rw [sub_div]
    have e2 : c1 * s / f ^ 2 = c1 * gain Q.cfg.integrator * m / P.tmax * (t' - t) := by
      rw [hs, hf]; field_simp
    rw [e2]
    have e3 : c1 * gain Q.cfg.integrator * mmin / P.tmax * (t' - t) ≤
        c1 * gain Q.cfg.integrator * m / P.tmax * (t' - t) := by
      have : 0 ≤ t' - t := by linarith
      gcongr
    linarith
  have hqp : 0 < q := by
    have := R.pos _ hxK
    rw [turn_call, candQ_turn] at this
    rw [hq0, candQ_call]
    positivity
  refine ⟨hq0, hqp, hle, ?_⟩
  intro m' t'' q' hm' hm'0 ht'' htt hq'
  have hcc : ∃ c, H.controls[k + 1]? = some c := by
    obtain ⟨H1, P1, P1', n, g5, -, -, g6, -⟩ := C01_histories_aligned h
    rw [hH] at g5; injection g5 with g5; subst g5
    have : k + 1 < H.qs.length := (List.getElem?_eq_some_iff.1 hq').1
    exact ⟨_, List.getElem?_eq_getElem (by rw [g6.controls]; rw [g6.qs] at this; exact this)⟩
  obtain ⟨⟨a', b', θ'⟩, hc'⟩ := hcc
  have hq1 : q' = candQ et (callAt Q.cfg oeT' P.woe (P.tmax / m') y) := by
    obtain ⟨st, oeT2, o', -, -, g5, g6, g7, g8, -⟩ := C80_law_applied h hP hH hc' ht' hy hm'
    rw [ht''] at g5; injection g5 with g5
    have : oeT2 = oeT' := List.ofFn_injective (g6.symm.trans hoe)
    subst this
    rw [hq'] at g8; injection g8 with g8
    rw [show st = t'' - t' by linarith, hd, recArgs_call (by linarith)] at g7
    rw [g8, (angles_psi g7).2, (dyn_lyap et _).2.1]
  have hml : m' ≤ m := by
    obtain ⟨t1, st, m1, g5, g6, g7, g8⟩ := C13_step_mass h hP hH hc
    rw [ht] at g5; injection g5 with g5; subst g5
    rw [hm] at g7; injection g7 with g7; subst g7
    rw [ht'] at g6; injection g6 with g6
    rcases g8 with ⟨-, g8⟩ | ⟨g8, -⟩
    · rw [hm'] at g8; injection g8 with g8
      have : 0 ≤ P.mdot * st := mul_nonneg hmd (by linarith)
      linarith
    · exact absurd g8 one_ne_zero
  refine le_trans ?_ hle
  rw [hq1, candQ_call, candQ_call, hyw, hf]
  gcongr

/-- the steps from `i` to `j` of a history thrust forward from states in `K` (up to whole turns of the
anomaly) with mass at least `mmin`, each shorter than `δ` -/
def ShortThrusts (et : ElemType) (K : Set (Fin 6 → ℝ)) (mmin δ : ℝ) (H : Hist ℝ) (i j : ℕ) : Prop :=
  ∀ k, i ≤ k → k < j → ∃ (a b t t' m : ℝ) (x : Fin 6 → ℝ) (n : ℤ), H.controls[k]? = some (a, b, 1) ∧
    H.times[k]? = some t ∧ H.times[k + 1]? = some t' ∧ H.states[k]? = some x ∧ H.masses[k]? = some m ∧
    wound et 0 0 n x ∈ K ∧ mmin ≤ m ∧ t < t' ∧ t' < t + δ

/-- **C98.** Over a stretch of such steps the recorded `Q` falls at least at the same rate, and a stretch
lasts no longer than a time that depends only on the region, the object, the target, the thruster and the
range of the mass: short thrusting steps cannot stay in the region. -/
theorem C98_stretch [PyNan ℝ] {C : Config ℝ} {et : ElemType} (hd : C.dyn = dynOf et)
    (hp : C.perturbations = none) {oeT woe l u : Fin 5 → ℝ} {tmax mmin : ℝ} {K : Set (Fin 6 → ℝ)}
    (hl : C.elementsType = .keplerian → BoundsAre C.oeMin l ∧ BoundsAre C.oeMax u)
    (R : DescentRegion C et oeT woe l u K) (hT : 0 < tmax) (hm0 : 0 < mmin) :
    ∃ δ > 0, ∃ c > 0, ∀ mmax, ∃ T, ∀ (Q Q' : QLaw ℝ) (P : Problem ℝ) (etaA etaR : EtaArg ℝ) (fuel : ℕ) (H : Hist ℝ),
      Q.cfg = C → Q.prob = some P → P.oeT = List.ofFn oeT → P.tmax = tmax → 0 ≤ P.mdot → P.woe = woe →
      Q.solve etaA etaR fuel = some (Q', none) → Q'.hist = some H →
      ∀ (i j : ℕ) (t t' : ℝ), i ≤ j → H.times[i]? = some t → H.times[j]? = some t' →
        ShortThrusts et K mmin δ H i j →
        (∀ q q', H.qs[i]? = some q → H.qs[j]? = some q' →
          (∃ m' t'', H.masses[j]? = some m' ∧ 0 < m' ∧ H.times[j + 1]? = some t'' ∧ t' < t'') →
          q' ≤ q - c * (t' - t)) ∧
        (∀ m, H.masses[i]? = some m → m ≤ mmax → t' - t ≤ T) := by
  obtain ⟨δ, hδ, c, hc, hstep⟩ := C98_step hd hp hl R hT hm0
  obtain ⟨B, hB⟩ : ∃ B, ∀ x ∈ K, candQ et (unitCall C oeT woe x) ≤ B := by
    have : ContinuousOn (fun x => candQ et (unitCall C oeT woe x)) K :=
      fun x hx => (candQ_c1 (R.smooth x hx)).continuousAt.continuousWithinAt
    obtain ⟨B, hB⟩ := R.compact.bddAbove_image this
    exact ⟨B, fun x hx => hB (Set.mem_image_of_mem _ hx)⟩
  refine ⟨δ, hδ, c, hc, fun mmax => ⟨|B| * (mmax / tmax) ^ 2 / c + δ, ?_⟩⟩
  intro Q Q' P etaA etaR fuel H hC hP hoe h1 h2 h3 h hH i j t t' hij ht ht' hS
  have hqs : ∀ (k : ℕ) a, H.controls[k]? = some a → ∃ q, H.qs[k]? = some q := by
    intro k a hk
    obtain ⟨H1, P1, P1', n, g5, -, -, g6, -⟩ := C01_histories_aligned h
    rw [hH] at g5; injection g5 with g5; subst g5
    have : k < H.controls.length := (List.getElem?_eq_some_iff.1 hk).1
    exact ⟨_, List.getElem?_eq_getElem (by rw [g6.qs]; rw [g6.controls] at this; exact this)⟩
  have hst : ∀ (k : ℕ) a, H.controls[k]? = some a → ∃ y, H.states[k + 1]? = some y := by
    intro k a hk
    obtain ⟨H1, P1, P1', n, g5, -, -, g6, -⟩ := C01_histories_aligned h
    rw [hH] at g5; injection g5 with g5; subst g5
    have : k < H.controls.length := (List.getElem?_eq_some_iff.1 hk).1
    exact ⟨_, List.getElem?_eq_getElem (by rw [g6.states]; rw [g6.controls] at this; omega)⟩
  have hfall : ∀ j, i ≤ j → ShortThrusts et K mmin δ H i j → ∀ t' q q', H.times[j]? = some t' →
      H.qs[i]? = some q → H.qs[j]? = some q' →
      (∃ m' t'', H.masses[j]? = some m' ∧ 0 < m' ∧ H.times[j + 1]? = some t'' ∧ t' < t'') →
      q' ≤ q - c * (t' - t) := by
    intro j hj
    induction j, hj using Nat.le_induction with
    | base =>
      intro _ t' q q' ht' hq hq' _
      rw [ht] at ht'; injection ht' with ht'
      rw [hq] at hq'; injection hq' with hq'
      rw [ht', hq']; simp
    | succ j hj ih =>
      intro hS t' q q' ht' hq hq' ⟨m', t'', k1, k2, k3, k4⟩
      obtain ⟨a, b, s, s', m, x, n, g1, g2, g3, g4, g5, g6, g7, g8, g9⟩ := hS j hj (Nat.lt_succ_self j)
      rw [ht'] at g3; injection g3 with g3; subst g3
      obtain ⟨qj, hqj⟩ := hqs j _ g1
      obtain ⟨y, hy⟩ := hst j _ g1
      obtain ⟨-, -, -, e⟩ := hstep Q Q' P etaA etaR fuel H hC hP hoe h1 h2 h3 h hH j a b s t' m qj x y n g1 g2 ht' g4 g5 hy
        hqj g6 g7 g8 g9
      have e1 := e m' t'' q' k1 k2 k3 k4 hq'
      have e2 := ih (fun k ha hb => hS k ha (hb.trans (Nat.lt_succ_self j))) s q qj g2 hq hqj
        ⟨m, t', g5, hm0.trans_le g7, ht', g8⟩
      linarith
  refine ⟨fun q q' hq hq' he => hfall j hij hS t' q q' ht' hq hq' he, ?_⟩
  intro m hm hmm
  rcases Nat.eq_or_lt_of_le hij with rfl | hlt
  · rw [ht] at ht'; injection ht' with ht'
    rw [ht', sub_self]; positivity
  obtain ⟨j, rfl⟩ : ∃ j', j = j' + 1 := ⟨j - 1, by omega⟩
  obtain ⟨a, b, s, s', mi, x, n, g1, g2, g3, g4, g5, g6, g7, g8, g9⟩ := hS i le_rfl hlt
  rw [ht] at g2; injection g2 with g2; subst g2
  rw [hm] at g5; injection g5 with g5; subst g5
  obtain ⟨qi, hqi⟩ := hqs i _ g1
  obtain ⟨yi, hyi⟩ := hst i _ g1
  obtain ⟨e1, -⟩ := hstep Q Q' P etaA etaR fuel H hC hP hoe h1 h2 h3 h hH i a b t s' m qi x yi n g1 ht g3 g4 hm hyi
    hqi g6 g7 g8 g9
  have hqB : qi ≤ |B| * (mmax / tmax) ^ 2 := by
    have e2 := hB _ g6
    rw [turn_call, candQ_turn] at e2
    rw [e1, candQ_call, div_pow, div_div_eq_mul_div, mul_div_assoc, div_pow, ← mul_div_assoc, ← mul_div_assoc]
    have hm1 : 0 < m := hm0.trans_le g7
    have e3 : candQ et (unitCall C oeT woe x) * m ^ 2 ≤ |B| * mmax ^ 2 := by
      have : candQ et (unitCall C oeT woe x) ≤ |B| := e2.trans (le_abs_self B)
      gcongr
    gcongr
  obtain ⟨a', b', s1, s2, m', x', n', f1, f2, f3, f4, f5, f6, f7, f8, f9⟩ := hS j (by omega) (Nat.lt_succ_self j)
  rw [ht'] at f3; injection f3 with f3; subst f3
  obtain ⟨qj, hqj⟩ := hqs j _ f1
  obtain ⟨yj, hyj⟩ := hst j _ f1
  obtain ⟨-, e4, -⟩ := hstep Q Q' P etaA etaR fuel H hC hP hoe h1 h2 h3 h hH j a' b' s1 t' m' qj x' yj n' f1 f2 ht' f4 f5
    hyj hqj f6 f7 f8 f9
  have e5 := hfall j (by omega) (fun k ha hb => hS k ha (hb.trans (Nat.lt_succ_self j))) s1 qi qj f2 hqi hqj
    ⟨m', t', f5, hm0.trans_le f7, ht', f8⟩
  have e6 : s1 - t ≤ |B| * (mmax / tmax) ^ 2 / c := by
    rw [le_div_iff₀ hc]; linarith
  linarith

/-! ## a region -/

/-- states around the initial state of the thrusting run of `Burn`: a six-dimensional box -/
noncomputable def burnBox : Set (Fin 6 → ℝ) :=
  Set.Icc ![1 / 2, 1 / 4, 1 / 2, 1 / 2, 1 / 2, -1] ![3 / 2, 3 / 4, 3 / 2, 3 / 2, 3 / 2, 1]

/-- `Q` of the object and target of `Burn` at a unit acceleration -/
theorem burn_q (A : LyapArgs ℝ) (hw : A.woe = ![1, 0, 0, 0, 0]) (hwp : A.wp = 0) (hmu : A.mu = 1)
    (hf : A.f = 1) (hT : A.oeT = ![2, 0, 0, 0, 0]) (hm : A.m = 3) (hn : A.n = 4) (hr : A.r = 1)
    (ha : 0 < A.oe 0) (he0 : 0 < A.oe 1) (he1 : A.oe 1 < 1) :
    kepQ A = 1 / 4 * (1 + ((A.oe 0 - 2) / 6) ^ 4) *
      ((A.oe 0 - 2) ^ 2 / A.oe 0 ^ 3) * ((1 - A.oe 1) / (1 + A.oe 1)) := by
  have h1 : 0 < 1 - A.oe 1 := by linarith
  have hs : Real.sqrt (A.oe 0 ^ 3 * (1 + A.oe 1) / (1 - A.oe 1)) ^ 2 =
      A.oe 0 ^ 3 * (1 + A.oe 1) / (1 - A.oe 1) := Real.sq_sqrt (by positivity)
  have hr4 : ∀ x : ℝ, x ^ (4 : ℝ) = x ^ 4 := fun x => by
    rw [← Real.rpow_natCast]; norm_num
  simp [kepQ, hw, hwp, kepSoe, kepDoe, kepOedot, hmu, hf, hT, hm, hn, hr, div_pow, mul_pow, hs, hr4]
  field_simp
  ring

theorem burn_partials (A : LyapArgs ℝ) (hw : A.woe = ![1, 0, 0, 0, 0]) (hwp : A.wp = 0) (hmu : A.mu = 1)
    (hf : A.f = 1) (hT : A.oeT = ![2, 0, 0, 0, 0]) (hm : A.m = 3) (hn : A.n = 4) (hr : A.r = 1)
    (ha : 0 < A.oe 0) (ha2 : A.oe 0 < 2) (he0 : 0 < A.oe 1) (he1 : A.oe 1 < 1) :
    partialQ kepQ A 0 < 0 ∧ partialQ kepQ A 1 < 0 := by
  have hE : 0 < (1 - A.oe 1) / (1 + A.oe 1) := div_pos (by linarith) (by linarith)
  have h2a : (0 : ℝ) < 2 - A.oe 0 := by linarith
  constructor
  · have h : (fun x => kepQ (A.setOe 0 x)) =ᶠ[𝓝 (A.oe 0)] fun x =>
        1 / 4 * ((1 - A.oe 1) / (1 + A.oe 1)) * ((1 + ((x - 2) / 6) ^ 4) * ((x - 2) ^ 2 / x ^ 3)) := by
      filter_upwards [lt_mem_nhds ha] with x hx
      rw [burn_q (A.setOe 0 x) hw hwp hmu hf hT hm hn hr]
      · simp [LyapArgs.setOe]
        ring
      · simpa [LyapArgs.setOe] using hx
      · simpa [LyapArgs.setOe] using he0
      · simpa [LyapArgs.setOe] using he1
    have a1 : HasDerivAt (fun x : ℝ => x - 2) 1 (A.oe 0) := (hasDerivAt_id _).sub_const _
    have a2 := ((a1.div_const 6).pow 4).const_add 1
    have a3 := ((a1.pow 2).div ((hasDerivAt_id (A.oe 0)).pow 3) (by simpa using ha.ne'))
    have a4 := (a2.mul a3).const_mul (1 / 4 * ((1 - A.oe 1) / (1 + A.oe 1)))
    have h3 : partialQ kepQ A 0 = _ := (h.deriv_eq).trans a4.deriv
    rw [h3]
    have hb : ((A.oe 0 - 2) / 6) ^ 3 < 0 := by
      have : (A.oe 0 - 2) / 6 < 0 := by linarith
      exact Odd.pow_neg (by decide) this
    have hc : 2 * (A.oe 0 - 2) * A.oe 0 ^ 3 - (A.oe 0 - 2) ^ 2 * (3 * A.oe 0 ^ 2) < 0 := by
      have : 2 * (A.oe 0 - 2) * A.oe 0 ^ 3 - (A.oe 0 - 2) ^ 2 * (3 * A.oe 0 ^ 2) =
          -((2 - A.oe 0) * A.oe 0 ^ 2 * (2 * A.oe 0 + 3 * (2 - A.oe 0))) := by ring
      rw [this]
      have : 0 < (2 - A.oe 0) * A.oe 0 ^ 2 * (2 * A.oe 0 + 3 * (2 - A.oe 0)) := by positivity
      linarith
    have hd : 0 < (A.oe 0 - 2) ^ 2 / A.oe 0 ^ 3 := by
      have : (A.oe 0 - 2) ^ 2 = (2 - A.oe 0) ^ 2 := by ring
      rw [this]; positivity
    have k1 : 4 * ((A.oe 0 - 2) / 6) ^ 3 * (1 / 6) * ((A.oe 0 - 2) ^ 2 / A.oe 0 ^ 3) < 0 :=
      mul_neg_of_neg_of_pos (by linarith) hd
    have k2 : (1 + ((A.oe 0 - 2) / 6) ^ 4) * ((2 * (A.oe 0 - 2) * A.oe 0 ^ 3 -
        (A.oe 0 - 2) ^ 2 * (3 * A.oe 0 ^ 2)) / (A.oe 0 ^ 3) ^ 2) < 0 :=
      mul_neg_of_pos_of_neg (by positivity) (div_neg_of_neg_of_pos hc (by positivity))
    refine mul_neg_of_pos_of_neg (by positivity) ?_
    simp at k1 k2 ⊢
    linarith
  · have h : (fun x => kepQ (A.setOe 1 x)) =ᶠ[𝓝 (A.oe 1)] fun x =>
        1 / 4 * (1 + ((A.oe 0 - 2) / 6) ^ 4) * ((A.oe 0 - 2) ^ 2 / A.oe 0 ^ 3) * ((1 - x) / (1 + x)) := by
      filter_upwards [lt_mem_nhds he0, gt_mem_nhds he1] with x hx hx1
      rw [burn_q (A.setOe 1 x) hw hwp hmu hf hT hm hn hr]
      · simp [LyapArgs.setOe]
      · simpa [LyapArgs.setOe] using ha
      · simpa [LyapArgs.setOe] using hx
      · simpa [LyapArgs.setOe] using hx1
    have a1 : HasDerivAt (fun x : ℝ => 1 - x) (-1) (A.oe 1) := by
      simpa using (hasDerivAt_id (A.oe 1)).const_sub 1
    have a2 : HasDerivAt (fun x : ℝ => 1 + x) 1 (A.oe 1) := (hasDerivAt_id _).const_add _
    have a3 := (a1.div a2 (by linarith)).const_mul
      (1 / 4 * (1 + ((A.oe 0 - 2) / 6) ^ 4) * ((A.oe 0 - 2) ^ 2 / A.oe 0 ^ 3))
    have h3 : partialQ kepQ A 1 = _ := (h.deriv_eq).trans a3.deriv
    rw [h3]
    have hd : 0 < (A.oe 0 - 2) ^ 2 / A.oe 0 ^ 3 := by
      have : (A.oe 0 - 2) ^ 2 = (2 - A.oe 0) ^ 2 := by ring
      rw [this]; positivity
    refine mul_neg_of_pos_of_neg (by positivity) (div_neg_of_neg_of_pos (by linarith) (by positivity))

/-- transverse thrust can change `Q` on the box -/
theorem burn_grad (x : Fin 6 → ℝ) (h : x ∈ burnBox) :
    ∑ j : Fin 5, candPsi .keplerian (unitCall (Burn.cfg false) ![2, 0, 0, 0, 0] ![1, 0, 0, 0, 0] x) 1 j *
      partialQ (candQ .keplerian) (unitCall (Burn.cfg false) ![2, 0, 0, 0, 0] ![1, 0, 0, 0, 0] x) j ≠ 0 := by
  have hpi := Real.pi_gt_three
  have h0 : 1 / 2 ≤ x 0 ∧ x 0 ≤ 3 / 2 := ⟨h.1 0, h.2 0⟩
  have h1 : 1 / 4 ≤ x 1 ∧ x 1 ≤ 3 / 4 := ⟨h.1 1, h.2 1⟩
  have h5 : -1 ≤ x 5 ∧ x 5 ≤ 1 := ⟨h.1 5, h.2 5⟩
  have k0 : 0 < x 0 := by linarith
  have k1 : 0 < x 1 := by linarith
  have k3 : 0 < 1 - x 1 ^ 2 := by nlinarith
  have k4 : 0 < Real.cos (x 5) := Real.cos_pos_of_mem_Ioo ⟨by linarith, by linarith⟩
  have k5 : 0 < Real.sqrt (x 0 * 1 * (1 - x 1 ^ 2)) := Real.sqrt_pos.2 (by positivity)
  obtain ⟨d0, d1⟩ := burn_partials (unitCall (Burn.cfg false) ![2, 0, 0, 0, 0] ![1, 0, 0, 0, 0] x)
    rfl rfl rfl rfl rfl rfl rfl rfl k0 (show x 0 < 2 by linarith) k1 (show x 1 < 1 by linarith)
  simp only [Fin.sum_univ_five, candPsi, candQ, kepPsi, Matrix.cons_val, sqrt_real, cos_real]
  have p0 : 0 < (2 : ℝ) * x 0 ^ 2 / Real.sqrt (x 0 * 1 * (1 - x 1 ^ 2)) * (x 0 * (1 - x 1 ^ 2)) /
      (Real.sqrt (x 0 * 1 * (1 - x 1 ^ 2)) ^ 2 / (1 * (1 + x 1 * Real.cos (x 5)))) := by positivity
  have p1 : 0 < ((x 0 * (1 - x 1 ^ 2) + Real.sqrt (x 0 * 1 * (1 - x 1 ^ 2)) ^ 2 / (1 * (1 + x 1 * Real.cos (x 5)))) *
      Real.cos (x 5) + Real.sqrt (x 0 * 1 * (1 - x 1 ^ 2)) ^ 2 / (1 * (1 + x 1 * Real.cos (x 5))) * x 1) /
      Real.sqrt (x 0 * 1 * (1 - x 1 ^ 2)) := by positivity
  have d4 : partialQ kepQ (unitCall (Burn.cfg false) ![2, 0, 0, 0, 0] ![1, 0, 0, 0, 0] x) 4 = 0 := by
    have : (fun y => kepQ ((unitCall (Burn.cfg false) ![2, 0, 0, 0, 0] ![1, 0, 0, 0, 0] x).setOe 4 y)) =
        fun _ => kepQ (unitCall (Burn.cfg false) ![2, 0, 0, 0, 0] ![1, 0, 0, 0, 0] x) := by
      funext y
      rw [burn_q _ rfl rfl rfl rfl rfl rfl rfl rfl, burn_q _ rfl rfl rfl rfl rfl rfl rfl rfl]
      · rfl
      · exact k0
      · exact k1
      · show x 1 < 1
        linarith
      · exact k0
      · exact k1
      · show x 1 < 1
        linarith
    unfold partialQ
    simp only [diff_real, this, deriv_const]
  have q0 := mul_neg_of_pos_of_neg p0 d0
  have q1 := mul_neg_of_pos_of_neg p1 d1
  rw [d4]
  simp only [unitCall, Burn.cfg, Nat.cast_one, Nat.cast_ofNat, Nat.cast_zero] at q0 q1 ⊢
  apply ne_of_lt
  linarith

theorem burn_region : DescentRegion (Burn.cfg false) .keplerian ![2, 0, 0, 0, 0] ![1, 0, 0, 0, 0]
    (fun _ => 0) (fun _ => 9) burnBox := by
  have hx : ∀ x ∈ burnBox, (1 / 2 ≤ x 0 ∧ x 0 ≤ 3 / 2) ∧ (1 / 4 ≤ x 1 ∧ x 1 ≤ 3 / 4) ∧ (1 / 2 ≤ x 2 ∧ x 2 ≤ 3 / 2) ∧
      (1 / 2 ≤ x 3 ∧ x 3 ≤ 3 / 2) ∧ (1 / 2 ≤ x 4 ∧ x 4 ≤ 3 / 2) ∧ (-1 ≤ x 5 ∧ x 5 ≤ 1) := by
    rintro x ⟨h1, h2⟩
    exact ⟨⟨h1 0, h2 0⟩, ⟨h1 1, h2 1⟩, ⟨h1 2, h2 2⟩, ⟨h1 3, h2 3⟩, ⟨h1 4, h2 4⟩, h1 5, h2 5⟩
  have hpi := Real.pi_gt_three
  refine ⟨isCompact_Icc, ?_, ?_, ?_, ?_⟩
  · intro x h j
    obtain ⟨h0, h1, h2, h3, h4, -⟩ := hx x h
    fin_cases j <;> simp <;> constructor <;> linarith
  · intro x h
    obtain ⟨h0, h1, h2, h3, h4, -⟩ := hx x h
    refine ⟨?_, ?_, ?_, ?_, ?_, ?_, ?_, ?_, ?_, ?_, ?_, Or.inl (Or.inr ⟨2, ?_⟩), Or.inl ?_, Or.inl ?_, Or.inl ?_⟩
      <;> simp [unitCall, Burn.cfg] <;> linarith
  · intro x h
    obtain ⟨h0, h1, -⟩ := hx x h
    show 0 < kepQ _
    rw [burn_q _ rfl rfl rfl rfl rfl rfl rfl rfl (show 0 < x 0 by linarith) (show 0 < x 1 by linarith)
      (show x 1 < 1 by linarith)]
    have k1 : 0 < 2 - x 0 := by linarith
    have k2 : 0 < x 0 := by linarith
    have k3 : 0 < 1 - x 1 := by linarith
    have k4 : 0 < 1 + x 1 := by linarith
    have : (x 0 - 2) ^ 2 = (2 - x 0) ^ 2 := by ring
    simp only [unitCall, this]
    positivity
  · exact fun x h => ⟨1, burn_grad x h⟩

open CoastSample in
/-- C98: the object and the target of `Burn`, its initial state and the box around it meet the hypotheses -/
example : Burn.prob.oe0 ∈ burnBox ∧
    ∃ δ > 0, ∃ T, ∀ (Q Q' : QLaw ℝ) (P : Problem ℝ) (fuel : ℕ) (H : Hist ℝ), Q.cfg = Burn.cfg false → Q.prob = some P →
      (∃ h, P = { Burn.prob with tStep := h }) → Q.solve (.flt 0) (.flt 0) fuel = some (Q', none) →
      Q'.hist = some H → ∀ (i j : ℕ) (t t' m : ℝ), i ≤ j → H.times[i]? = some t → H.times[j]? = some t' →
        ShortThrusts .keplerian burnBox (1 / 10) δ H i j → H.masses[i]? = some m → m ≤ 1 → t' - t ≤ T := by
  refine ⟨?_, ?_⟩
  · refine ⟨fun i => ?_, fun i => ?_⟩ <;> fin_cases i <;> simp [Burn.prob] <;> norm_num
  obtain ⟨δ, h0, c, -, h⟩ := C98_stretch (C := Burn.cfg false) (et := .keplerian) rfl rfl (tmax := 1 / 100)
    (mmin := 1 / 10) (by intro _; constructor <;> intro j <;> fin_cases j <;> rfl) burn_region
    (by norm_num) (by norm_num)
  obtain ⟨T, h⟩ := h 1
  refine ⟨δ, h0, T, ?_⟩
  rintro Q Q' P fuel H hC hP ⟨s, rfl⟩ hsol hH i j t t' m hij h1 h2 h3 h4 h5
  exact (h Q Q' _ (.flt 0) (.flt 0) fuel H hC hP (by simp [Burn.prob]) rfl (by simp [Burn.prob]) rfl hsol hH i j t t' hij h1 h2 h3).2 m h4 h5

end PyQ
