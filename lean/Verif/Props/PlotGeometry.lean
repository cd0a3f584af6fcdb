import Verif.Model.Plot
import Verif.RealInst

/-! # Plot geometry helpers (C71) -/

set_option linter.unusedSectionVars false

namespace PyQ

/-- **C71, sphere.** `get_sphere_coordinates` returns a 20 by 10 mesh of points at distance `|radius|` from
the centre (the origin if none is given). -/
theorem C71_sphere (radius : ℝ) (center : Option (Fin 3 → ℝ)) :
    (getSphereCoordinates radius center).length = 20 ∧
    ∀ row ∈ getSphereCoordinates radius center, row.length = 10 ∧
      ∀ p ∈ row, ∃ c : Fin 3 → ℝ, (center = some c ∨ center = none ∧ c = 0) ∧
        (p 0 - c 0) ^ 2 + (p 1 - c 1) ^ 2 + (p 2 - c 2) ^ 2 = radius ^ 2 := by
  refine ⟨by simp [getSphereCoordinates, linspace], ?_⟩
  intro row hrow
  simp only [getSphereCoordinates, List.mem_map] at hrow
  obtain ⟨u, -, rfl⟩ := hrow
  refine ⟨by simp [linspace], ?_⟩
  intro p hp
  simp only [List.mem_map] at hp
  obtain ⟨v, -, rfl⟩ := hp
  refine ⟨center.getD zero3, ?_, ?_⟩
  · cases center with
    | none => right; refine ⟨rfl, ?_⟩; funext i; fin_cases i <;> simp [zero3]
    | some c => left; rfl
  · simp only [spherePoint, Matrix.cons_val, sin_real, cos_real]
    have hu := Real.sin_sq_add_cos_sq u
    have hv := Real.sin_sq_add_cos_sq v
    linear_combination radius ^ 2 * Real.sin v ^ 2 * hu + radius ^ 2 * hv

/-- **C71, ellipsoid.** `get_ellipsoid_coordinates` returns an `n` by `n` mesh of points of the ellipsoid with
the given semi-axes and centre. -/
theorem C71_ellipsoid (rx ry rz : ℝ) (center : Option (Fin 3 → ℝ)) (n : ℕ) (hx : rx ≠ 0)
    (hy : ry ≠ 0) (hz : rz ≠ 0) :
    (getEllipsoidCoordinates rx ry rz center n).length = n ∧
    ∀ row ∈ getEllipsoidCoordinates rx ry rz center n, row.length = n ∧
      ∀ p ∈ row, ∃ c : Fin 3 → ℝ, (center = some c ∨ center = none ∧ c = 0) ∧
        ((p 0 - c 0) / rx) ^ 2 + ((p 1 - c 1) / ry) ^ 2 + ((p 2 - c 2) / rz) ^ 2 = 1 := by
  have hl : ∀ (a b : ℝ) m, (linspace a b m).length = m := by
    intro a b m
    match m with
    | 0 => rfl
    | 1 => rfl
    | m + 2 => simp [linspace]
  refine ⟨by simp [getEllipsoidCoordinates, hl], ?_⟩
  intro row hrow
  simp only [getEllipsoidCoordinates, List.mem_map] at hrow
  obtain ⟨u, -, rfl⟩ := hrow
  refine ⟨by simp [hl], ?_⟩
  intro p hp
  simp only [List.mem_map] at hp
  obtain ⟨v, -, rfl⟩ := hp
  refine ⟨center.getD zero3, ?_, ?_⟩
  · cases center with
    | none => right; refine ⟨rfl, ?_⟩; funext i; fin_cases i <;> simp [zero3]
    | some c => left; rfl
  · simp only [Matrix.cons_val, sin_real, cos_real, Nat.cast_one]
    have hu := Real.sin_sq_add_cos_sq u
    have hv := Real.sin_sq_add_cos_sq v
    have e1 : ∀ c x r : ℝ, r ≠ 0 → (c + r * x - c) / r = x := by
      intro c x r hr; field_simp; ring
    rw [e1 _ _ _ hx, e1 _ _ _ hy, e1 _ _ _ hz]
    linear_combination Real.sin v ^ 2 * hu + hv

theorem foldl_pymax_real (l : List ℝ) : ∀ x : ℝ, (l.foldl pymax x = x ∨ l.foldl pymax x ∈ l) ∧
    x ≤ l.foldl pymax x ∧ ∀ y ∈ l, y ≤ l.foldl pymax x := by
  induction l with
  | nil => intro x; simp
  | cons a l ih =>
    intro x
    have h1 : pymax x a = max x a := by
      unfold pymax
      by_cases h : x < a
      · simp [h, max_eq_right h.le]
      · simp [h, max_eq_left (not_lt.mp h)]
    obtain ⟨h2, h3, h4⟩ := ih (max x a)
    simp only [List.foldl_cons, h1, List.mem_cons]
    refine ⟨?_, (le_max_left _ _).trans h3, ?_⟩
    · rcases h2 with h2 | h2
      · rcases max_choice x a with h | h
        · left; rw [h2, h]
        · right; left; rw [h2, h]
      · right; right; exact h2
    · rintro y (rfl | hy)
      · exact (le_max_right _ _).trans h3
      · exact h4 y hy

theorem foldl_pymin_real (l : List ℝ) : ∀ x : ℝ, (l.foldl pymin x = x ∨ l.foldl pymin x ∈ l) ∧
    l.foldl pymin x ≤ x ∧ ∀ y ∈ l, l.foldl pymin x ≤ y := by
  induction l with
  | nil => intro x; simp
  | cons a l ih =>
    intro x
    have h1 : pymin x a = min x a := by
      unfold pymin
      by_cases h : a < x
      · simp [h, min_eq_right h.le]
      · simp [h, min_eq_left (not_lt.mp h)]
    obtain ⟨h2, h3, h4⟩ := ih (min x a)
    simp only [List.foldl_cons, h1, List.mem_cons]
    refine ⟨?_, h3.trans (min_le_left _ _), ?_⟩
    · rcases h2 with h2 | h2
      · rcases min_choice x a with h | h
        · left; rw [h2, h]
        · right; left; rw [h2, h]
      · right; right; exact h2
    · rintro y (rfl | hy)
      · exact h3.trans (min_le_right _ _)
      · exact h4 y hy

/-- greatest and least element of a non-empty list -/
theorem real_max_min {l : List ℝ} (hl : l ≠ []) : ∃ mx mn, pymaxList l = .ok mx ∧
    pyminList l = .ok mn ∧ mx ∈ l ∧ mn ∈ l ∧ ∀ y ∈ l, mn ≤ y ∧ y ≤ mx := by
  cases l with
  | nil => exact absurd rfl hl
  | cons x l =>
    obtain ⟨h2, h3, h4⟩ := foldl_pymax_real l x
    obtain ⟨g2, g3, g4⟩ := foldl_pymin_real l x
    refine ⟨_, _, rfl, rfl, ?_, ?_, ?_⟩
    · rcases h2 with h | h
      · rw [h]; exact List.mem_cons_self
      · exact List.mem_cons_of_mem _ h
    · rcases g2 with h | h
      · rw [h]; exact List.mem_cons_self
      · exact List.mem_cons_of_mem _ h
    · intro y hy
      rcases List.mem_cons.mp hy with h | h
      · rw [h]; exact ⟨g3, h3⟩
      · exact ⟨g4 y h, h4 y h⟩

section axis
variable [PyNan ℝ] (hnan : ∀ x : ℝ, PyNan.isnan x = false)
include hnan

theorem npmax_real (a b : ℝ) : npmax a b = max a b := by
  unfold npmax
  by_cases h : a < b
  · simp [hnan, h, max_eq_right h.le]
  · simp [hnan, h, max_eq_left (not_lt.mp h)]

/-- **C71, equal axes.** For non-empty limits `set_equal_axis` gives every axis the same half-range,
`scale` times half the largest extent of the limits, centred between the extremes of that axis; for
`scale ≥ 1` each axis contains all its limits. -/
theorem C71_equal_axis (lims : Fin 3 → List ℝ) (scale : ℝ) (hne : ∀ i, lims i ≠ []) :
    ∃ out R, setEqualAxis (lims 0) (lims 1) (lims 2) scale = .ok out ∧ 0 ≤ R ∧
      (∀ i, (out i).2 - (out i).1 = 2 * (R * scale)) ∧
      (∀ i, ∀ x ∈ lims i, ∀ y ∈ lims i, x - y ≤ 2 * R) ∧
      (∃ i, ∃ x ∈ lims i, ∃ y ∈ lims i, x - y = 2 * R) ∧
      (∀ i, ∃ x ∈ lims i, ∃ y ∈ lims i, (∀ z ∈ lims i, y ≤ z ∧ z ≤ x) ∧
        (out i).1 + (out i).2 = x + y) ∧
      (1 ≤ scale → ∀ i, ∀ x ∈ lims i, (out i).1 ≤ x ∧ x ≤ (out i).2) := by
  choose M m hM hm hMm hmm hb using fun i => real_max_min (hne i)
  obtain ⟨R, hR⟩ : ∃ R, R = max (max (M 0 - m 0) (M 1 - m 1)) (M 2 - m 2) / 2 := ⟨_, rfl⟩
  have hge : ∀ i, M i - m i ≤ 2 * R := by
    intro i
    have h0 : M 0 - m 0 ≤ max (max (M 0 - m 0) (M 1 - m 1)) (M 2 - m 2) :=
      (le_max_left _ _).trans (le_max_left _ _)
    have h1 : M 1 - m 1 ≤ max (max (M 0 - m 0) (M 1 - m 1)) (M 2 - m 2) :=
      (le_max_right _ _).trans (le_max_left _ _)
    have h2 : M 2 - m 2 ≤ max (max (M 0 - m 0) (M 1 - m 1)) (M 2 - m 2) := le_max_right _ _
    match i with
    | 0 => rw [hR]; linarith
    | 1 => rw [hR]; linarith
    | 2 => rw [hR]; linarith
  have hRn : 0 ≤ R := by
    have h1 := hge 0
    have h2 := hb 0 _ (hMm 0)
    linarith [h2.1]
  refine ⟨fun i => ((M i + m i) * (1 / 2) - R * scale, (M i + m i) * (1 / 2) + R * scale), R, ?_, hRn,
    ?_, ?_, ?_, ?_, ?_⟩
  · simp only [setEqualAxis, hM, hm, bind, Except.bind, pure, Except.pure, npmax_real hnan,
      Nat.cast_ofNat, ← hR]
    congr 1
    funext i
    fin_cases i <;> simp [rat]
  · intro i; simp only []; ring
  · intro i x hx y hy
    have h1 := hge i
    have h2 := hb i x hx
    have h3 := hb i y hy
    linarith
  · have : ∃ i, M i - m i = 2 * R := by
      rcases max_choice (max (M 0 - m 0) (M 1 - m 1)) (M 2 - m 2) with h | h
      · rcases max_choice (M 0 - m 0) (M 1 - m 1) with h' | h'
        · exact ⟨0, by rw [hR, h, h']; ring⟩
        · exact ⟨1, by rw [hR, h, h']; ring⟩
      · exact ⟨2, by rw [hR, h]; ring⟩
    obtain ⟨i, hi⟩ := this
    exact ⟨i, M i, hMm i, m i, hmm i, hi⟩
  · intro i
    exact ⟨M i, hMm i, m i, hmm i, hb i, by simp only []; ring⟩
  · intro hs i x hx
    have h1 := hge i
    have h2 := hb i x hx
    have : R ≤ R * scale := le_mul_of_one_le_right hRn hs
    constructor <;> simp only [] <;> linarith

/-- **C71, frame.** The axes of `plot_trajectory_3d` contain every position of the Cartesian history for
`scale ≥ 1`. -/
theorem C71_frame (cart : List (Fin 6 → ℝ)) (scale : ℝ) (hne : cart ≠ []) (hs : 1 ≤ scale) :
    ∃ out, trajectoryFrame cart scale = .ok out ∧
      (∀ i j, (out i).2 - (out i).1 = (out j).2 - (out j).1) ∧
      ∀ c ∈ cart, ((out 0).1 ≤ c 0 ∧ c 0 ≤ (out 0).2) ∧ ((out 1).1 ≤ c 1 ∧ c 1 ≤ (out 1).2) ∧
        ((out 2).1 ≤ c 2 ∧ c 2 ≤ (out 2).2) := by
  have hn : ∀ i : Fin 6, cart.map (fun c => c i) ≠ [] := by intro i; simpa using hne
  choose M m hM hm hMm hmm hb using fun i => real_max_min (hn i)
  obtain ⟨out, R, ho, -, hw, -, -, -, hin⟩ := C71_equal_axis hnan
    ![[m 0, M 0], [m 1, M 1], [m 2, M 2]] scale (by intro i; fin_cases i <;> simp)
  refine ⟨out, ?_, fun i j => by rw [hw, hw], ?_⟩
  · simp only [trajectoryFrame, hM, hm, bind, Except.bind]
    exact ho
  · intro c hc
    have hmem : ∀ i : Fin 6, m i ≤ c i ∧ c i ≤ M i := fun i => hb i _ (List.mem_map.2 ⟨c, hc, rfl⟩)
    have h0 := hin hs 0
    have h1 := hin hs 1
    have h2 := hin hs 2
    simp only [Matrix.cons_val] at h0 h1 h2
    refine ⟨⟨(h0 _ ?_).1.trans (hmem 0).1, (hmem 0).2.trans (h0 _ ?_).2⟩,
      ⟨(h1 _ ?_).1.trans (hmem 1).1, (hmem 1).2.trans (h1 _ ?_).2⟩,
      ⟨(h2 _ ?_).1.trans (hmem 2).1, (hmem 2).2.trans (h2 _ ?_).2⟩⟩ <;> simp

end axis

example : ∃ out, @setEqualAxis ℝ _ _ _ _ _ _ ⟨0, fun _ => false⟩ [0, 4] [1, 2] [-1, 1] 1 = .ok out ∧
    out 1 = (-1 / 2, 7 / 2) := by
  refine ⟨![(0, 4), (-1 / 2, 7 / 2), (-2, 2)], ?_, rfl⟩
  simp [setEqualAxis, pymaxList, pyminList, pymax, pymin, npmax, bind, Except.bind, pure, Except.pure,
    rat]
  norm_num

end PyQ
