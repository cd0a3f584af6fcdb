import Verif.Props.Perturbations
import Verif.Props.Cartesian

/-! # C92: perturbations and the units of length and time -/

set_option linter.unusedSectionVars false

namespace PyQ

/-- semi-major axis in a unit of length `a` times as long -/
noncomputable def inLength (a : ℝ) (oe : Fin 6 → ℝ) : Fin 6 → ℝ :=
  ![oe 0 / a, oe 1, oe 2, oe 3, oe 4, oe 5]

/-- Cartesian state in units of length and time `a` and `b` times as long -/
noncomputable def svIn (a b : ℝ) (s : Fin 6 → ℝ) : Fin 6 → ℝ :=
  ![s 0 / a, s 1 / a, s 2 / a, s 3 * (b / a), s 4 * (b / a), s 5 * (b / a)]

theorem ndiv_mul_mul {x y c d : ℝ} (hd : d ≠ 0) :
    ndiv (c * x) (d * y) = (ndiv x y).map (fun z => c / d * z) := by
  by_cases hy : y = 0
  · rw [hy, mul_zero, ndiv_zero_real, ndiv_zero_real]; rfl
  · rw [ndiv_real (mul_ne_zero hd hy), ndiv_real hy]
    simp only [Except.map]
    congr 1
    field_simp

theorem rot_smul (T : Fin 3 → Fin 3 → ℝ) (c : ℝ) (v : Fin 3 → ℝ) :
    mulVec3 T (vsmul c v) = vsmul c (mulVec3 T v) := by
  funext j; simp only [mulVec3, dot3, vsmul]; ring

theorem vsmul_vsmul (c d : ℝ) (v : Fin 3 → ℝ) : vsmul c (vsmul d v) = vsmul (c * d) v := by
  funext j; simp only [vsmul]; ring

/-- `kep2sv` in other units -/
theorem kep2sv_units {a b : ℝ} (ha : 0 < a) (hb : 0 < b) (k : Fin 6 → ℝ) (mu : ℝ) :
    kep2sv (inLength a k) (mu * (b ^ 2 / a ^ 3)) = (kep2sv k mu).map (svIn a b) := by
  have hs : Real.sqrt (k 0 / a * (mu * (b ^ 2 / a ^ 3)) * (1 - k 1 ^ 2)) =
      b / a ^ 2 * Real.sqrt (k 0 * mu * (1 - k 1 ^ 2)) := by
    rw [show k 0 / a * (mu * (b ^ 2 / a ^ 3)) * (1 - k 1 ^ 2) =
      (b / a ^ 2) ^ 2 * (k 0 * mu * (1 - k 1 ^ 2)) by field_simp, Real.sqrt_mul (by positivity),
      Real.sqrt_sq (by positivity)]
  have h0 : inLength a k 0 = k 0 / a := rfl
  have h1 : inLength a k 1 = k 1 := rfl
  have h2 : inLength a k 2 = k 2 := rfl
  have h3 : inLength a k 3 = k 3 := rfl
  have h4 : inLength a k 4 = k 4 := rfl
  have h5 : inLength a k 5 = k 5 := rfl
  simp only [kep2sv, rot3_skip, rot1_skip]
  simp only [h0, h1, h2, h3, h4, h5, sqrt_real, Nat.cast_one, hs]
  rw [mul_pow, show mu * (b ^ 2 / a ^ 3) * (1 + k 1 * PyTrans.cos (k 5)) =
    (b ^ 2 / a ^ 3) * (mu * (1 + k 1 * PyTrans.cos (k 5))) by ring,
    ndiv_mul_mul (by positivity), show mu * (b ^ 2 / a ^ 3) = (b ^ 2 / a ^ 3) * mu by ring,
    ndiv_mul_mul (by positivity)]
  have e1 : (b / a ^ 2) ^ 2 / (b ^ 2 / a ^ 3) = 1 / a := by field_simp
  have e2 : b ^ 2 / a ^ 3 / (b / a ^ 2) = b / a := by field_simp
  rw [e1, e2]
  cases h1 : ndiv (Real.sqrt (k 0 * mu * (1 - k 1 ^ 2)) ^ 2) (mu * (1 + k 1 * PyTrans.cos (k 5))) with
  | error e => simp [bind, Except.bind, Except.map]
  | ok c =>
    cases h2 : ndiv mu (Real.sqrt (k 0 * mu * (1 - k 1 ^ 2))) with
    | error e => simp [bind, Except.bind, Except.map]
    | ok m =>
      simp only [bind, Except.bind, Except.map, pure, Except.pure, svIn]
      simp only [← vsmul_vsmul, rot_smul]
      congr 1
      funext j; fin_cases j <;> simp [vsmul] <;> ring

theorem meeWithA2sv_units {a b : ℝ} (ha : 0 < a) (hb : 0 < b) (k : Fin 6 → ℝ) (mu : ℝ) :
    meeWithA2sv (inLength a k) (mu * (b ^ 2 / a ^ 3)) = (meeWithA2sv k mu).map (svIn a b) := by
  have key : mee2kep ![inLength a k 0 * (1 - k 1 ^ 2 - k 2 ^ 2), k 1, k 2, k 3, k 4, k 5] =
      (mee2kep ![k 0 * (1 - k 1 ^ 2 - k 2 ^ 2), k 1, k 2, k 3, k 4, k 5]).map (inLength a) := by
    simp only [mee2kep, inLength, Matrix.cons_val, Nat.cast_one]
    rw [show k 0 / a * (1 - k 1 ^ 2 - k 2 ^ 2) = 1 / a * (k 0 * (1 - k 1 ^ 2 - k 2 ^ 2)) by ring]
    have := ndiv_mul_mul (x := k 0 * (1 - k 1 ^ 2 - k 2 ^ 2)) (y := 1 - k 1 ^ 2 - k 2 ^ 2) (c := 1 / a)
      (d := 1) one_ne_zero
    rw [one_mul] at this
    rw [this]
    cases ndiv (k 0 * (1 - k 1 ^ 2 - k 2 ^ 2)) (1 - k 1 ^ 2 - k 2 ^ 2) with
    | error e => rfl
    | ok c =>
      simp only [bind, Except.bind, Except.map, pure, Except.pure]
      congr 1
      funext j; fin_cases j <;> simp [inLength]
      ring
  simp only [meeWithA2sv, Nat.cast_one]
  change (mee2kep ![inLength a k 0 * (1 - k 1 ^ 2 - k 2 ^ 2), k 1, k 2, k 3, k 4, k 5]).bind _ = _
  rw [key]
  cases h : mee2kep ![k 0 * (1 - k 1 ^ 2 - k 2 ^ 2), k 1, k 2, k 3, k 4, k 5] with
  | error e => rfl
  | ok c => exact kep2sv_units ha hb c mu

/-! ## the three terms -/

theorem norm3_div {a : ℝ} (ha : 0 < a) (r : Fin 3 → ℝ) :
    norm3 (vdivs r a) = norm3 r / a := by
  rw [vdivs_eq_smul, norm3_smul, abs_of_pos (by positivity)]; ring

theorem dot3_div (a : ℝ) (r s : Fin 3 → ℝ) : dot3 (vdivs r a) (vdivs s a) = dot3 r s / a ^ 2 := by
  simp only [dot3, vdivs]; ring

theorem vsub_div (a : ℝ) (r s : Fin 3 → ℝ) : vsub (vdivs r a) (vdivs s a) = vdivs (vsub r s) a := by
  funext j; simp only [vsub, vdivs]; ring

theorem battin_units {a b : ℝ} (ha : 0 < a) (hb : 0 < b) (r s : Fin 3 → ℝ) (m : ℝ) :
    perturbationThirdBodyBattin (vdivs r a) (vdivs s a) (m * (b ^ 2 / a ^ 3)) =
      (perturbationThirdBodyBattin r s m).map (vsmul (b ^ 2 / a)) := by
  have e1 : dot3 (vdivs r a) (vsub (vdivs r a) (vsmul ((2 : ℕ) : ℝ) (vdivs s a))) =
      1 / a ^ 2 * dot3 r (vsub r (vsmul ((2 : ℕ) : ℝ) s)) := by
    simp only [dot3, vsub, vdivs, vsmul]; ring
  have e2 : dot3 (vdivs s a) (vdivs s a) = 1 / a ^ 2 * dot3 s s := by rw [dot3_div]; ring
  have e3 : Real.sqrt (dot3 (vdivs (vsub r s) a) (vdivs (vsub r s) a)) =
      1 / a * Real.sqrt (dot3 (vsub r s) (vsub r s)) := by
    rw [dot3_div, show dot3 (vsub r s) (vsub r s) / a ^ 2 =
      (1 / a) ^ 2 * dot3 (vsub r s) (vsub r s) by ring, Real.sqrt_mul (by positivity),
      Real.sqrt_sq (by positivity)]
  simp only [perturbationThirdBodyBattin, sqrt_real, vsub_div, e3]
  rw [e1, e2, ndiv_mul_mul (by positivity), div_self (by positivity)]
  cases ndiv (dot3 r (vsub r (vsmul ((2 : ℕ) : ℝ) s))) (dot3 s s) with
  | error e => rfl
  | ok q =>
    simp only [bind, Except.bind, Except.map, one_mul]
    cases ndiv (((3 : ℕ) : ℝ) + ((3 : ℕ) : ℝ) * q + q ^ 2)
        (((1 : ℕ) : ℝ) + Real.sqrt (((1 : ℕ) : ℝ) + q) ^ 3) with
    | error e => rfl
    | ok w =>
      simp only
      rw [mul_pow, show -(m * (b ^ 2 / a ^ 3)) = b ^ 2 / a ^ 3 * -m by ring,
        ndiv_mul_mul (by positivity)]
      cases ndiv (-m) (Real.sqrt (dot3 (vsub r s) (vsub r s)) ^ 3) with
      | error e => rfl
      | ok c =>
        simp only [Except.map, pure, Except.pure]
        congr 1
        funext j
        simp only [vsmul, vadd, vdivs]
        field_simp

theorem srp_units {a b : ℝ} (ha : 0 < a) (d : Fin 3 → ℝ) (AU k : ℝ) :
    perturbationSRP (vdivs d a) (AU / a) (k * (b ^ 2 / a)) =
      vsmul (b ^ 2 / a) (perturbationSRP d AU k) := by
  simp only [perturbationSRP, norm3_div ha]
  funext j
  simp only [vsmul, vdivs]
  field_simp

theorem j2_time {b : ℝ} (r : Fin 3 → ℝ) (T : Fin 3 → Fin 3 → ℝ) (mu J2 Re : ℝ) :
    perturbationJ2 r T (mu * b ^ 2) J2 Re = (perturbationJ2 r T mu J2 Re).map (vsmul (b ^ 2)) := by
  simp only [perturbationJ2]
  have := ndiv_mul_mul (x := -((3 : ℕ) : ℝ) * mu * J2 * Re ^ 2) (y := ((2 : ℕ) : ℝ) * norm3 r ^ 5)
    (c := b ^ 2) (d := 1) one_ne_zero
  rw [one_mul] at this
  rw [show -((3 : ℕ) : ℝ) * (mu * b ^ 2) * J2 * Re ^ 2 =
    b ^ 2 * (-((3 : ℕ) : ℝ) * mu * J2 * Re ^ 2) by ring, this]
  cases ndiv (-((3 : ℕ) : ℝ) * mu * J2 * Re ^ 2) (((2 : ℕ) : ℝ) * norm3 r ^ 5) with
  | error e => rfl
  | ok c =>
    simp only [bind, Except.bind, Except.map, pure, Except.pure, div_one]
    congr 1
    rw [← rot_smul, ← vsmul_vsmul]

theorem rtn_units {a b : ℝ} (ha : 0 < a) (hb : 0 < b) (r v : Fin 3 → ℝ) :
    pxformECI2RTN (vdivs r a) (vsmul (b / a) v) = pxformECI2RTN r v := by
  have e1 : vdivs (vdivs r a) (norm3 (vdivs r a)) = vdivs r (norm3 r) := by
    rw [norm3_div ha]
    funext j
    simp only [vdivs]
    exact div_div_div_cancel_right₀ ha.ne' _ _
  have e2 : cross3 (vdivs r a) (vsmul (b / a) v) = vsmul (b / a ^ 2) (cross3 r v) := by
    rw [vdivs_eq_smul, cross3_smul_left, cross3_smul_right, vsmul_vsmul]
    congr 1
    field_simp
  have hc : 0 < b / a ^ 2 := by positivity
  have e3 : vdivs (vsmul (b / a ^ 2) (cross3 r v)) (norm3 (vsmul (b / a ^ 2) (cross3 r v))) =
      vdivs (cross3 r v) (norm3 (cross3 r v)) := by
    rw [norm3_smul, abs_of_pos hc]
    funext j
    simp only [vdivs, vsmul]
    exact mul_div_mul_left _ _ hc.ne'
  simp only [pxformECI2RTN, e1, e2, e3]

/-! ## the object and the call -/

/-- what the constructor holds when the units are `a` and `b` times as long -/
noncomputable def SpicePerturbations.inUnits (a b : ℝ) (S : SpicePerturbations ℝ) :
    SpicePerturbations ℝ :=
  { etRef := S.etRef, LU := S.LU * a, TU := S.TU * b, obsMu := S.obsMu * (b ^ 2 / a ^ 3)
    J2 := S.J2, Re := S.Re / a, kSrp := S.kSrp * (b ^ 2 / a), useJ2 := S.useJ2
    useSRP := S.useSRP
    thirdBodies := S.thirdBodies.map (List.map fun x => (x.1 * (b ^ 2 / a ^ 3), x.2)) }

theorem ndiv_units {x y c d z : ℝ} (hd : d ≠ 0) (hz : z = c / d) :
    ndiv (c * x) (d * y) = (ndiv x y).map (fun w => w * z) := by
  rw [ndiv_mul_mul hd, hz]
  congr 1
  funext w; ring

theorem mapM_map_ok {ε β γ : Type} (f : β → Except ε γ) (g : γ → γ) (l : List β) :
    l.mapM (fun x => (f x).map g) = (l.mapM f).map (List.map g) := by
  induction l with
  | nil => rfl
  | cons x l ih =>
    rw [List.mapM_cons, List.mapM_cons, ih]
    cases f x with
    | error e => rfl
    | ok y =>
      cases l.mapM f with
      | error e => rfl
      | ok ys => rfl

theorem mk'_units {a b : ℝ} (ha : 0 < a) (hb : 0 < b) (gm : String → ℝ) (etRef LU TU : ℝ)
    (obsId : String) (names : Option (List String)) (gms : Option (List ℝ))
    (J2 ReKm pSRP crSRP amSI : ℝ) (useJ2 useSRP : Bool) :
    SpicePerturbations.mk' gm etRef (LU * a) (TU * b) obsId names
        (gms.map (List.map fun m => m * (b ^ 2 / a ^ 3))) J2 ReKm pSRP crSRP amSI useJ2 useSRP =
      (SpicePerturbations.mk' gm etRef LU TU obsId names gms J2 ReKm pSRP crSRP amSI useJ2
        useSRP).map (SpicePerturbations.inUnits a b) := by
  have f1 : ndiv ReKm (LU * a) = (ndiv ReKm LU).map (fun w => w * (1 / a)) := by
    have := ndiv_units (x := ReKm) (y := LU) (c := 1) (d := a) (z := 1 / a) ha.ne' rfl
    rwa [one_mul, mul_comm a] at this
  have f2 : ndiv (((1000 : ℕ) : ℝ) * (LU * a)) ((TU * b) ^ 2) =
      (ndiv (((1000 : ℕ) : ℝ) * LU) (TU ^ 2)).map (fun w => w * (a / b ^ 2)) := by
    rw [← ndiv_units (c := a) (d := b ^ 2) (by positivity) rfl]
    congr 1 <;> ring
  have f3 : ndiv (LU * a) (TU * b) = (ndiv LU TU).map (fun w => w * (a / b)) := by
    rw [← ndiv_units (c := a) (d := b) (by positivity) rfl]
    congr 1 <;> ring
  have f4 : ∀ x acc, ndiv x (acc * (a / b ^ 2)) = (ndiv x acc).map (fun w => w * (b ^ 2 / a)) := by
    intro x acc
    have := ndiv_units (x := x) (y := acc) (c := 1) (d := a / b ^ 2) (z := b ^ 2 / a)
      (by positivity) (by rw [one_div_div])
    rwa [one_mul, mul_comm (a / b ^ 2)] at this
  have f5 : ∀ x vu, ndiv x (LU * a * (vu * (a / b)) ^ 2) =
      (ndiv x (LU * vu ^ 2)).map (fun w => w * (b ^ 2 / a ^ 3)) := by
    intro x vu
    have := ndiv_units (x := x) (y := LU * vu ^ 2) (c := 1) (d := a ^ 3 / b ^ 2)
      (z := b ^ 2 / a ^ 3) (by positivity) (by rw [one_div_div])
    rw [one_mul] at this
    rw [← this]
    congr 1
    field_simp
  simp only [SpicePerturbations.mk', f1, f2, f3]
  cases ndiv ReKm LU with
  | error e => rfl
  | ok re =>
  simp only [bind, Except.bind, Except.map]
  cases ndiv (((1000 : ℕ) : ℝ) * LU) (TU ^ 2) with
  | error e => rfl
  | ok acc =>
  simp only [f4]
  cases ndiv (pSRP * crSRP * amSI) acc with
  | error e => rfl
  | ok k =>
  simp only [Except.map]
  cases ndiv LU TU with
  | error e => rfl
  | ok vu =>
  simp only [f5, mapM_map_ok]
  cases ndiv (gm obsId) (LU * vu ^ 2) with
  | error e => rfl
  | ok om =>
  simp only [Except.map]
  cases gms with
  | some gs =>
    cases names with
    | none =>
      simp [pure, Except.pure, SpicePerturbations.inUnits, div_eq_mul_inv]
    | some ns =>
      simp [pure, Except.pure, SpicePerturbations.inUnits, div_eq_mul_inv, List.zip_map_left]
  | none =>
    cases names with
    | none =>
      simp [pure, Except.pure, SpicePerturbations.inUnits, div_eq_mul_inv]
    | some ns =>
      simp only [Option.map_none]
      cases ns.mapM (fun id => ndiv (gm id) (LU * vu ^ 2)) with
      | error e => rfl
      | ok l =>
        simp [pure, Except.pure, SpicePerturbations.inUnits, div_eq_mul_inv, List.zip_map_left]

theorem vadd_smul (c : ℝ) (v w : Fin 3 → ℝ) :
    vadd (vsmul c v) (vsmul c w) = vsmul c (vadd v w) := by
  funext j; simp only [vadd, vsmul]; ring

theorem foldlM_map_ok {ε β γ δ : Type} {g : γ → γ} {h : δ → β} {f : γ → δ → Except ε γ}
    {f' : γ → β → Except ε γ} (hf : ∀ x d, f' (g x) (h d) = (f x d).map g) (l : List δ) :
    ∀ x, (l.map h).foldlM f' (g x) = (l.foldlM f x).map g := by
  induction l with
  | nil => intro x; rfl
  | cons d l ih =>
    intro x
    rw [List.foldlM_cons, List.map_cons, List.foldlM_cons, hf]
    cases f x d with
    | error e => rfl
    | ok y => exact ih y

theorem fromCartesian_units {a b : ℝ} (ha : 0 < a) (hb : 0 < b) (S : SpicePerturbations ℝ)
    (sp : Spice ℝ) (t : ℝ) (rv : Fin 6 → ℝ) (hj : S.useJ2 = false ∨ a = 1) :
    (S.inUnits a b).fromCartesian sp (t / b) (svIn a b rv) =
      (S.fromCartesian sp t rv).map (vsmul (b ^ 2 / a)) := by
  have hp : svPos (svIn a b rv) = vdivs (svPos rv) a := by
    funext j; fin_cases j <;> simp [svPos, svIn, vdivs]
  have hv : svVel (svIn a b rv) = vsmul (b / a) (svVel rv) := by
    funext j; fin_cases j <;> simp [svVel, svIn, vsmul, mul_comm]
  have ht : S.etRef + t / b * (S.TU * b) = S.etRef + t * S.TU := by
    field_simp
  have hs : ∀ id : String, ∀ et : ℝ, vdivs (sp.spkpos id et) (S.LU * a) =
      vdivs (vdivs (sp.spkpos id et) S.LU) a := by
    intro id et; funext j; simp only [vdivs, div_div]
  have h0 : (![((0 : ℕ) : ℝ), ((0 : ℕ) : ℝ), ((0 : ℕ) : ℝ)] : Fin 3 → ℝ) =
      vsmul (b ^ 2 / a) ![((0 : ℕ) : ℝ), ((0 : ℕ) : ℝ), ((0 : ℕ) : ℝ)] := by
    funext j; fin_cases j <;> simp [vsmul]
  have hAU : sp.auKm / (S.LU * a) = sp.auKm / S.LU / a := by rw [div_div]
  simp only [SpicePerturbations.fromCartesian, SpicePerturbations.inUnits, hp, hv, ht, hs, hAU,
    vsub_div, srp_units ha, rtn_units ha hb]
  cases S.thirdBodies with
  | none => rfl
  | some l =>
    simp only [Option.map_some, bind, Except.bind]
    rw [h0, foldlM_map_ok (g := vsmul (b ^ 2 / a))
      (f := fun acc (x : ℝ × String) => (perturbationThirdBodyBattin (svPos rv)
        (vdivs (sp.spkpos x.2 (S.etRef + t * S.TU)) S.LU) x.1).bind fun a3 => pure (vadd acc a3)),
      ← h0]
    · simp only [Except.bind]
      generalize List.foldlM (m := Except PyErr) _ _ l = e1
      cases e1 with
      | error e => rfl
      | ok acc =>
        simp only [Except.map]
        have hj2 : (if S.useJ2 = true then
            (perturbationJ2 (vdivs (svPos rv) a) (sp.pxform (S.etRef + t * S.TU))
              (S.obsMu * (b ^ 2 / a ^ 3)) S.J2 (S.Re / a)).bind fun aj =>
                pure (vadd (vsmul (b ^ 2 / a) acc) aj)
            else pure (vsmul (b ^ 2 / a) acc)) =
            (if S.useJ2 = true then
              (perturbationJ2 (svPos rv) (sp.pxform (S.etRef + t * S.TU)) S.obsMu S.J2
                S.Re).bind fun aj => pure (vadd acc aj)
            else (pure acc : Except PyErr (Fin 3 → ℝ))).map (vsmul (b ^ 2 / a)) := by
          rcases hj with hj | hj
          · simp [hj, pure, Except.pure, Except.map]
          · subst hj
            have e1 : vdivs (svPos rv) 1 = svPos rv := by funext j; simp [vdivs]
            rw [e1, one_pow, div_one, div_one, j2_time]
            split_ifs
            · cases perturbationJ2 (svPos rv) (sp.pxform (S.etRef + t * S.TU)) S.obsMu S.J2
                S.Re with
              | error e => rfl
              | ok aj => simp [Except.map, Except.bind, pure, Except.pure, vadd_smul]
            · rfl
        have hj3 := hj2
        simp only [Except.bind, Except.map] at hj3
        rw [hj3]
        generalize (if S.useJ2 = true then _ else _ : Except PyErr (Fin 3 → ℝ)) = e2
        cases e2 with
        | error e => rfl
        | ok acc2 =>
          simp only [pure, Except.pure]
          congr 1
          split_ifs
          · rw [vadd_smul, rot_smul]
          · rw [rot_smul]
    · intro x d
      simp only [battin_units ha hb]
      cases perturbationThirdBodyBattin (svPos rv)
          (vdivs (sp.spkpos d.2 (S.etRef + t * S.TU)) S.LU) d.1 with
      | error e => rfl
      | ok a3 => simp [Except.map, Except.bind, pure, Except.pure, vadd_smul]

theorem mk'_useJ2 {gm : String → ℝ} {etRef LU TU : ℝ} {obsId : String}
    {names : Option (List String)} {gms : Option (List ℝ)} {J2 ReKm pSRP crSRP amSI : ℝ}
    {useJ2 useSRP : Bool} {S : SpicePerturbations ℝ}
    (hS : SpicePerturbations.mk' gm etRef LU TU obsId names gms J2 ReKm pSRP crSRP amSI useJ2
      useSRP = .ok S) : S.useJ2 = useJ2 := by
  simp only [SpicePerturbations.mk', bind, Except.bind] at hS
  repeat' split at hS
  all_goals first
    | cases hS; done
    | (simp only [pure, Except.pure, Except.ok.injEq] at hS; rw [← hS])

/-- C92, the part that holds: when `J2` is left out, or the unit of length is kept. In units `a`
and `b` times as long the same call, with the same physical arguments, raises the same exception
or returns the same physical acceleration, which is `b²/a` times as large a number. -/
theorem C92_units_partial {a b : ℝ} (ha : 0 < a) (hb : 0 < b) (gm : String → ℝ)
    (etRef LU TU : ℝ) (obsId : String) (names : Option (List String)) (gms : Option (List ℝ))
    (J2 ReKm pSRP crSRP amSI : ℝ) (useJ2 useSRP : Bool) (S : SpicePerturbations ℝ)
    (hS : SpicePerturbations.mk' gm etRef LU TU obsId names gms J2 ReKm pSRP crSRP amSI useJ2
      useSRP = .ok S)
    (hj : useJ2 = false ∨ a = 1) :
    ∃ S', SpicePerturbations.mk' gm etRef (LU * a) (TU * b) obsId names
        (gms.map (List.map fun m => m * (b ^ 2 / a ^ 3))) J2 ReKm pSRP crSRP amSI useJ2 useSRP =
          .ok S' ∧
      ∀ (sp : Spice ℝ) (t : ℝ) (oe : Fin 6 → ℝ) (ty : String),
        S'.getPerturbationsRTN sp (t / b) ![oe 0 / a, oe 1, oe 2, oe 3, oe 4, oe 5] ty =
          (S.getPerturbationsRTN sp t oe ty).map (vsmul (b ^ 2 / a)) := by
  refine ⟨S.inUnits a b, by rw [mk'_units ha hb, hS]; rfl, fun sp t oe ty => ?_⟩
  have hu : S.useJ2 = false ∨ a = 1 := by
    rcases hj with hj | hj
    · refine Or.inl ?_
      rw [mk'_useJ2 hS, hj]
    · exact Or.inr hj
  change (S.inUnits a b).getPerturbationsRTN sp (t / b) (inLength a oe) ty = _
  simp only [SpicePerturbations.getPerturbationsRTN]
  have hm : (S.inUnits a b).obsMu = S.obsMu * (b ^ 2 / a ^ 3) := rfl
  rw [hm, kep2sv_units ha hb, meeWithA2sv_units ha hb]
  split_ifs
  · cases kep2sv oe S.obsMu with
    | error e => rfl
    | ok rv => exact fromCartesian_units ha hb S sp t rv hu
  · cases meeWithA2sv oe S.obsMu with
    | error e => rfl
    | ok rv => exact fromCartesian_units ha hb S sp t rv hu
  · rfl

/-- a case of the part that holds: a third body and the Sun's push, in kilometres and seconds, and
in units of 1000 km and one hour -/
example (gm : String → ℝ) : ∃ S S',
    SpicePerturbations.mk' gm 0 1 1 "399" (some ["301"]) none 0 6378 1 1 1 false true = .ok S ∧
    SpicePerturbations.mk' gm 0 (1 * 1000) (1 * 3600) "399" (some ["301"]) none 0 6378 1 1 1 false
      true = .ok S' ∧
    ∀ (sp : Spice ℝ) (t : ℝ) (oe : Fin 6 → ℝ) (ty : String),
      S'.getPerturbationsRTN sp (t / 3600) ![oe 0 / 1000, oe 1, oe 2, oe 3, oe 4, oe 5] ty =
        (S.getPerturbationsRTN sp t oe ty).map (vsmul (3600 ^ 2 / 1000)) := by
  have h : ∃ S, SpicePerturbations.mk' gm 0 1 1 "399" (some ["301"]) none 0 6378 1 1 1 false true =
      .ok S := by
    simp [SpicePerturbations.mk', ndiv_real, bind, Except.bind, pure, Except.pure]
  obtain ⟨S, hS⟩ := h
  obtain ⟨S', hS', hcall⟩ := C92_units_partial (a := 1000) (b := 3600) (by norm_num) (by norm_num)
    gm 0 1 1 "399" (some ["301"]) none 0 6378 1 1 1 false true S hS (Or.inl rfl)
  exact ⟨S, S', hS, hS', hcall⟩

theorem j2Above {z w : ℝ} (hz : 0 < z) (hw : 0 < w) (S : SpicePerturbations ℝ) (sp : Spice ℝ)
    (h1 : S.useJ2 = true) (h2 : S.useSRP = false) (h3 : S.thirdBodies = some []) (h4 : S.J2 = 1)
    (h5 : ∀ et, sp.pxform et = id3) {rv : Fin 6 → ℝ} (hr : svPos rv = ![0, 0, z])
    (hv : svVel rv = ![-w, 0, 0]) {t : ℝ} :
    S.fromCartesian sp t rv =
      .ok ![-3 * S.obsMu * S.Re ^ 2 / (2 * z ^ 5) * ((3 - 5 * z ^ 2) * z), 0, 0] := by
  have hn : norm3 ![0, 0, z] = z := by simp [norm3, Real.sqrt_sq hz.le]
  have hj : ∀ T, T = id3 → perturbationJ2 ![0, 0, z] T S.obsMu 1 S.Re =
      .ok ![0, 0, -3 * S.obsMu * S.Re ^ 2 / (2 * z ^ 5) * ((3 - 5 * z ^ 2) * z)] := by
    rintro T rfl
    simp only [perturbationJ2, hn, Nat.cast_ofNat, Nat.cast_one]
    rw [ndiv_real (by positivity)]
    simp only [bind, Except.bind, pure, Except.pure]
    congr 1
    funext j; fin_cases j <;> simp [mulVec3, dot3, transpose3, id3, vsmul]
  have hc : cross3 ![0, 0, z] ![-w, 0, 0] = ![0, -(z * w), 0] := by
    funext j; fin_cases j <;> simp [cross3]
  have hn2 : norm3 ![0, -(z * w), 0] = z * w := by
    simp [norm3, Real.sqrt_sq (mul_pos hz hw).le]
  have hp : pxformECI2RTN ![0, 0, z] ![-w, 0, 0] = ![![0, 0, 1], ![-1, 0, 0], ![0, -1, 0]] := by
    simp only [pxformECI2RTN, hn, hc, hn2]
    have e1 : vdivs ![0, 0, z] z = ![0, 0, 1] := by
      funext j; fin_cases j <;> simp [vdivs, hz.ne']
    have e2 : vdivs ![0, -(z * w), 0] (z * w) = ![0, -1, 0] := by
      funext j; fin_cases j <;> simp [vdivs]
      field_simp
    rw [e1, e2]
    congr 2
    funext j; fin_cases j <;> simp [cross3]
  simp only [SpicePerturbations.fromCartesian, h1, h2, h3, h4, hr, hv, hp, if_true, hj _ (h5 _),
    bind, Except.bind, pure, Except.pure, List.foldlM_nil]
  congr 1
  funext j; fin_cases j <;> simp [vadd, mulVec3, dot3]

/-- C92 is violated with `J2`: the same point of the same orbit, in a unit of length twice as long,
gets an acceleration of the other sign. -/
theorem C92_violated : ∃ (S S' : SpicePerturbations ℝ) (sp : Spice ℝ),
    SpicePerturbations.mk' (fun _ => 1) 0 1 1 "399" (some []) none 1 1 0 0 0 true false = .ok S ∧
    SpicePerturbations.mk' (fun _ => 1) 0 (1 * 2) (1 * 1) "399" (some []) none 1 1 0 0 0 true
      false = .ok S' ∧
    S.getPerturbationsRTN sp 0 ![1, 0, Real.pi / 2, 0, 0, Real.pi / 2] "keplerian" =
      .ok ![3, 0, 0] ∧
    S'.getPerturbationsRTN sp (0 / 1) ![1 / 2, 0, Real.pi / 2, 0, 0, Real.pi / 2] "keplerian" =
      .ok ![-21 / 16, 0, 0] ∧
    (.ok ![-21 / 16, 0, 0] : Except PyErr (Fin 3 → ℝ)) ≠
      Except.map (vsmul (1 ^ 2 / 2)) (.ok ![3, 0, 0]) := by
  let S : SpicePerturbations ℝ := { etRef := 0, LU := 1, TU := 1, obsMu := 1, J2 := 1, Re := 1
                                    kSrp := 0, useJ2 := true, useSRP := false
                                    thirdBodies := some [] }
  let sp : Spice ℝ := { spkpos := fun _ _ => ![0, 0, 0], pxform := fun _ => id3, auKm := 1 }
  have hS : SpicePerturbations.mk' (fun _ => (1 : ℝ)) 0 1 1 "399" (some []) none 1 1 0 0 0 true
      false = .ok S := by
    simp [SpicePerturbations.mk', ndiv_real, bind, Except.bind, pure, Except.pure, S]
  have hk : kep2sv ![(1 : ℝ), 0, Real.pi / 2, 0, 0, Real.pi / 2] 1 = .ok ![0, 0, 1, -1, 0, 0] := by
    simp only [kep2sv, rot3_skip, rot1_skip]
    simp [ndiv_real, bind, Except.bind, pure, Except.pure]
    simp [mulVec3, dot3, rotmat3, rotmat1, vsmul]
  have hk2 : kep2sv ![(1 : ℝ) / 2, 0, Real.pi / 2, 0, 0, Real.pi / 2] (1 * (1 ^ 2 / 2 ^ 3)) =
      .ok ![0, 0, 1 / 2, -1 / 2, 0, 0] := by
    have := kep2sv_units (a := 2) (b := 1) (by norm_num) one_pos
      ![1, 0, Real.pi / 2, 0, 0, Real.pi / 2] 1
    rw [hk] at this
    refine Eq.trans ?_ (this.trans ?_)
    · congr 1
    · simp only [Except.map, svIn]
      congr 1
      funext j; fin_cases j <;> simp <;> norm_num
  refine ⟨S, S.inUnits 2 1, sp, hS, ?_, ?_, ?_, ?_⟩
  · have := mk'_units (a := 2) (b := 1) (by norm_num) one_pos (fun _ => 1) 0 1 1 "399" (some [])
      none 1 1 0 0 0 true false
    rw [hS] at this
    exact this
  · have hm : S.obsMu = 1 := rfl
    simp only [SpicePerturbations.getPerturbationsRTN, if_true, hm, hk, bind, Except.bind]
    rw [j2Above (z := 1) (w := 1) (by norm_num) (by norm_num) S sp rfl rfl rfl rfl (fun _ => rfl)
      (by funext j; fin_cases j <;> simp [svPos]) (by funext j; fin_cases j <;> simp [svVel])]
    congr 1
    funext j; fin_cases j <;> simp [S]; norm_num
  · have hm : (S.inUnits 2 1).obsMu = 1 * (1 ^ 2 / 2 ^ 3) := rfl
    simp only [SpicePerturbations.getPerturbationsRTN, if_true, hm, hk2, bind, Except.bind]
    rw [j2Above (z := 1 / 2) (w := 1 / 2) (by norm_num) (by norm_num) (S.inUnits 2 1) sp rfl rfl
      rfl rfl (fun _ => rfl) (by funext j; fin_cases j <;> simp [svPos])
      (by funext j; fin_cases j <;> simp [svVel]; norm_num)]
    congr 1
    funext j; fin_cases j <;> simp [S, SpicePerturbations.inUnits]; norm_num
  · intro h
    injection h with h
    have := congrFun h 0
    simp [vsmul] at this
    norm_num at this

end PyQ
