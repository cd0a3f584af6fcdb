import Verif.Props.Switched
import Verif.Props.DisturbedRun
import Verif.Proofs.SwitchedExists

/-!
C117: motions with switched thrust exist.
-/

set_option linter.unusedSectionVars false
set_option maxRecDepth 100000

open Set Metric Topology

namespace PyQ

/-- **C117, existence.** From every state at which the law and the perturbations are smooth and the law asks for thrust
there is a duration for which every schedule with finitely many switches has a motion of C117, in either direction of
time; it stays in every given open set around the state and above every given mass below the initial one. -/
theorem C117_exists {C : Config ℝ} {et : ElemType} {oeT woe : Fin 5 → ℝ} {tmax m0 ml mdot σ g : ℝ} {x : Fin 6 → ℝ}
    (hσ : σ = 1 ∨ σ = -1) (H : LawSmooth et (unitCall C oeT woe x))
    (hg : ∃ c : Fin 3, c ≠ 2 ∧ ∑ j : Fin 5, candPsi et (unitCall C oeT woe x) c j *
      partialQ (candQ et) (unitCall C oeT woe x) j ≠ 0)
    (hp : PertSmooth C σ 0 x) {U : Set (Fin 6 → ℝ)} (hU : IsOpen U) (hxU : x ∈ U) (hT : 0 < tmax) (hm : 0 < m0)
    (hml : ml < m0) :
    ∃ T > 0, ∀ θ : ℝ → Bool, PiecewiseConst θ T → ∃ γ μ, γ 0 = x ∧ μ 0 = m0 ∧
      SwitchedMotion C et oeT woe tmax mdot σ g T θ γ μ ∧
      ∀ s ∈ Icc 0 T, 0 < μ s ∧ ml < μ s ∧ LawSmooth et (unitCall C oeT woe (γ s)) ∧ PertSmooth C σ s (γ s) ∧ γ s ∈ U := by
  have hσ0 : σ ≠ 0 := by rcases hσ with rfl | rfl <;> norm_num
  have hg' : lawGrad et (unitCall C oeT woe x) 0 ≠ 0 ∨ lawGrad et (unitCall C oeT woe x) 1 ≠ 0 := by
    obtain ⟨c, h1, h2⟩ := hg
    fin_cases c
    · exact Or.inl h2
    · exact Or.inr h2
    · exact absurd rfl h1
  have hg0 : lawGrad et (unitCall C oeT woe x) ≠ 0 := by
    intro h
    rcases hg' with h1 | h1 <;> exact h1 (by rw [h]; rfl)
  have ev : ∀ᶠ y in 𝓝 x, LawSmooth et (unitCall C oeT woe y) ∧
      (lawGrad et (unitCall C oeT woe y) 0 ≠ 0 ∨ lawGrad et (unitCall C oeT woe y) 1 ≠ 0) ∧ y ∈ U := by
    have hG := lawGrad_cont H
    refine (lawSmooth_near H).and (Filter.Eventually.and ?_ (hU.mem_nhds hxU))
    rcases hg' with h | h
    · exact ((hG 0).eventually_ne h).mono fun y hy => Or.inl hy
    · exact ((hG 1).eventually_ne h).mono fun y hy => Or.inr hy
  have evU : ∀ᶠ y in 𝓝 ((0 : ℝ), x, m0), (LawSmooth et (unitCall C oeT woe y.2.1) ∧
      (lawGrad et (unitCall C oeT woe y.2.1) 0 ≠ 0 ∨ lawGrad et (unitCall C oeT woe y.2.1) 1 ≠ 0) ∧ y.2.1 ∈ U) ∧
      PertSmooth C σ y.1 y.2.1 ∧ 0 < y.2.2 ∧ ml < y.2.2 := by
    have c1 : ContinuousAt (fun y : ℝ × (Fin 6 → ℝ) × ℝ => y.2.1) ((0 : ℝ), x, m0) := continuous_snd.fst.continuousAt
    have c2 : ContinuousAt (fun y : ℝ × (Fin 6 → ℝ) × ℝ => (y.1, y.2.1)) ((0 : ℝ), x, m0) :=
      (continuous_fst.prodMk continuous_snd.fst).continuousAt
    have c3 : ContinuousAt (fun y : ℝ × (Fin 6 → ℝ) × ℝ => y.2.2) ((0 : ℝ), x, m0) := continuous_snd.snd.continuousAt
    exact (c1.eventually ev).and ((c2.eventually (p := fun y : ℝ × (Fin 6 → ℝ) => PertSmooth C σ y.1 y.2)
      (pertSmooth_near hp)).and ((c3.eventually (lt_mem_nhds hm)).and (c3.eventually (lt_mem_nhds hml))))
  obtain ⟨T, hT0, hex⟩ := switched_exists (V := switchedField C et oeT woe tmax mdot σ g) (x0 := ((0 : ℝ), x, m0))
    (fun c => switched_c1 H hg0 tmax mdot σ g c hp hm.ne') evU
  refine ⟨T, hT0, fun θ hθ => ?_⟩
  obtain ⟨Γ, h0, hc, hin, hd⟩ := hex θ hθ
  have hfst : ∀ t ∈ Icc 0 T, (Γ t).1 = t := by
    have h1 : ContinuousOn (fun t => (Γ t).1 - t) (Icc 0 T) := (continuous_fst.comp_continuousOn hc).sub continuousOn_id
    intro t ht
    have := constant_of_has_deriv_right_zero h1 (fun s hs => by
      have e1 : HasDerivWithinAt (fun t => (Γ t).1) 1 (Ici s) s := (hd s hs).fst
      have e2 : HasDerivWithinAt (fun t => (Γ t).1 - t) (1 - 1) (Ici s) s := e1.sub (hasDerivWithinAt_id s _)
      rwa [sub_self] at e2) t ht
    simp only [h0] at this
    linarith
  refine ⟨fun t => (Γ t).2.1, fun t => (Γ t).2.2, by simp only [h0], by simp only [h0], ⟨continuous_snd.fst.comp_continuousOn hc,
    continuous_snd.snd.comp_continuousOn hc, fun t ht => ?_⟩, fun t ht => ?_⟩
  · obtain ⟨⟨h1, h2, -⟩, h4, h3, -⟩ := hin t ht
    rw [hfst t ht] at h4
    have hf : σ * (tmax / (Γ t).2.2) ≠ 0 := mul_ne_zero hσ0 (div_pos hT h3).ne'
    obtain ⟨o, ho⟩ := law_defined_signed (x := (Γ t).2.1) hf h2
    obtain ⟨p, -, hp2⟩ := h4
    have hq := hp2.self_of_nhds
    have hq' := pertOf_eq hq
    obtain ⟨v, hv⟩ := eom_defined (P :=
      { mu := C.mu, u := fun c => switchedThrust (θ t) (σ * (tmax / (Γ t).2.2)) * unitDir o.alpha o.beta c,
        psi0 := o.psi 0, psi1 := o.psi 1, psi2 := o.psi 2, ptrb := p (t, (Γ t).2.1) }) h1.1 (σ * t) rfl
    refine ⟨o, v, _, hq, ho, hv, fun htT => ?_⟩
    have hv' := eom_accRate (A := unitCall C oeT woe (Γ t).2.1) rfl (by
        rw [← law_psi ho]; funext c; fin_cases c <;> rfl) hv
    simp only [law_direction_signed hf ho] at hv'
    have hs := (hd t ⟨ht.1, htT⟩).snd
    simp only [switchedField, hfst t ht] at hs
    simp only at hq'
    rw [← hq', ← hv'] at hs
    exact ⟨hs.fst, hs.snd⟩
  · obtain ⟨⟨h1, -, h2⟩, h4, h3, h5⟩ := hin t ht
    rw [hfst t ht] at h4
    exact ⟨h3, h5, h1, h4, h2⟩

end PyQ
