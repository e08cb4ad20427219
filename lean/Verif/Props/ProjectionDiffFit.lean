import Verif.Props.ProjectionDiffProps
/-
C96: projection_diff() with a fitted transformation; with many models; in other coordinate systems; what is accepted.
-/
namespace Mrcal.ModelDiff
open Mrcal Mrcal.Cam Mrcal.Pose Mrcal.ImageTransform

/-! ### the fit -/

/-- this pixel is used in the fit -/
def Focused (env : Env) (a : Args) (m0 : Model) (q : P2) : Prop :=
  (q.x - (centerOf a m0.W m0.H).x) ^ 2 + (q.y - (centerOf a m0.W m0.H).y) ^ 2 < (radiusOf env a m0.W m0.H) ^ 2

/-- the transformation is fitted, all pixels have the same weight -/
structure Fits (env : Env) (a : Args) (m0 : Model) : Prop where
  implied : a.impliedRt10 = none
  intrinsics : a.intrinsicsOnly = false
  weights : a.useUncertainties = false
  radius : radiusOf env a m0.W m0.H ≠ 0

theorem focused_iff (env : Env) (a : Args) (m0 : Model) (q : P2) : inFocus (centerOf a m0.W m0.H) (radiusOf env a m0.W m0.H) q = true ↔ Focused env a m0 q := by
  unfold inFocus Focused
  simp only [decide_eq_true_eq, pow_two]

/-- **C96**: which pixels are used to fit. With a given center and radius: those closer to the center than that. Without a center: the region is centered on the imager. Without a radius (it's negative): if the uncertainties are
used, all the pixels of the imager; otherwise, those closer to the center than a sixth of the smaller dimension of the imager -/
theorem focus_region (env : Env) (a : Args) (m0 : Model) (q : P2) :
    (∀ c, a.focusCenter = some c → 0 ≤ a.focusRadius → (Focused env a m0 q ↔ (q.x - c.x) ^ 2 + (q.y - c.y) ^ 2 < a.focusRadius ^ 2)) ∧
    (a.focusCenter = none → (Focused env a m0 q ↔ Focused env a m0 ⟨(m0.W : ℝ) - 1 - q.x, (m0.H : ℝ) - 1 - q.y⟩)) ∧
    (∀ c, a.focusCenter = some c → a.focusRadius < 0 → a.useUncertainties = false → (Focused env a m0 q ↔ (q.x - c.x) ^ 2 + (q.y - c.y) ^ 2 < ((min m0.W m0.H : Nat) / 6 : ℝ) ^ 2)) ∧
    (a.focusCenter = none → a.focusRadius < 0 → a.useUncertainties = true → env.uncOk = true → a.impliedRt10 = none → a.intrinsicsOnly = false → 1 ≤ m0.W → 1 ≤ m0.H →
      0 ≤ q.x → q.x ≤ m0.W - 1 → 0 ≤ q.y → q.y ≤ m0.H - 1 → Focused env a m0 q) := by
  unfold Focused radiusOf centerOf
  refine ⟨fun c hc hr => ?_, fun hc => ?_, fun c hc hr hu => ?_, fun hc hr hu hok hi hint hW hH h1 h2 h3 h4 => ?_⟩
  · rw [hc, if_neg (not_lt.mpr hr)]
    rfl
  · rw [hc]
    simp only [Option.getD_none]
    rw [show ((m0.W : ℝ) - 1 - q.x - ((m0.W : ℝ) - 1) / 2) ^ 2 + ((m0.H : ℝ) - 1 - q.y - ((m0.H : ℝ) - 1) / 2) ^ 2 = (q.x - ((m0.W : ℝ) - 1) / 2) ^ 2 + (q.y - ((m0.H : ℝ) - 1) / 2) ^ 2 by ring]
  · have h : usesUnc env a = false := by unfold usesUnc; rw [hu]; simp
    rw [hc, if_pos hr, h]
    simp
  · have h : usesUnc env a = true := by unfold usesUnc; rw [hu, hok, hi, hint]; simp [hr.ne]
    rw [hc, if_pos hr, h]
    simp only [Option.getD_none, if_true]
    have a1 : (1 : ℝ) ≤ m0.W := by exact_mod_cast hW
    have a2 : (1 : ℝ) ≤ m0.H := by exact_mod_cast hH
    have b1 := le_max_left (m0.W : ℝ) m0.H
    have b2 := le_max_right (m0.W : ℝ) m0.H
    generalize max (m0.W : ℝ) (m0.H : ℝ) = M at *
    have c1 : (q.x - ((m0.W : ℝ) - 1) / 2) ^ 2 ≤ M ^ 2 := by apply sq_le_sq'  <;> linarith
    have c2 : (q.y - ((m0.H : ℝ) - 1) / 2) ^ 2 ≤ M ^ 2 := by apply sq_le_sq'  <;> linarith
    nlinarith

/-- uncertainties, with neither a center nor a radius: the corner of the imager is used -/
example (env : Env) (hok : env.uncOk = true) (m0 : Model) (hW : m0.W = 640) (hH : m0.H = 480) :
    Focused env { impliedRt10 := none, gw := 10, gh := none, intrinsicsOnly := false, distance := .infinity, useUncertainties := true, focusCenter := none, focusRadius := -1 } m0 ⟨639, 479⟩ :=
  (focus_region env _ m0 _).2.2.2 rfl (by norm_num) rfl hok rfl rfl (by omega) (by omega) (by norm_num) (by rw [hW]; norm_num) (by norm_num) (by rw [hH]; norm_num)

theorem fit_called (env : Env) (a : Args) (m0 m1 : Model) (hf : Fits env a m0) (qs : List P2) (v0 v1 : List NanP3) :
    getRt10 env a qs m0.W m0.H m0 m1 v0 v1 =
      ModelDiff.impliedRt10 env.lsq qs (a.distance.values.map fun d => v0.map (scale d)) v1 none a.distance.atinfinity (centerOf a m0.W m0.H) (radiusOf env a m0.W m0.H) := by
  unfold getRt10
  rw [hf.implied]
  have hu : usesUnc env a = false := by unfold usesUnc; rw [hf.weights]; simp
  simp only [hf.intrinsics, Bool.false_eq_true, if_false, if_neg hf.radius, hu]

/-- the points of the fit -/
theorem fit_terms (env : Env) (a : Args) (m0 m1 : Model) (qs : List P2) (v0 v1 : List NanP3) (e3 : unprojectAll m0 env.solve env.prev qs = some v0) (e4 : unprojectAll m1 env.solve env.prev qs = some v1)
    (g : P2 → P3 → P3 → Prop)
    (hray : ∀ q ∈ qs, Focused env a m0 q → ∃ w0 w1, Ray env m0 q w0 ∧ Ray env m1 q w1 ∧ g q w0 w1) (T : Term) :
    T ∈ terms qs (a.distance.values.map fun d => v0.map (scale d)) v1 none (centerOf a m0.W m0.H) (radiusOf env a m0.W m0.H) ↔
      ∃ d ∈ a.distance.values, ∃ q ∈ qs, Focused env a m0 q ∧ ∃ w0 w1, Ray env m0 q w0 ∧ Ray env m1 q w1 ∧ g q w0 w1 ∧ T = ⟨times d w0, w1, 1⟩ := by
  obtain ⟨l0, g0⟩ := unprojectAll_get _ _ _ _ _ e3
  obtain ⟨l1, g1⟩ := unprojectAll_get _ _ _ _ _ e4
  rw [terms_mem]
  constructor
  · rintro ⟨k, i, ps, ws, q, p, v, w, h1, h2, h3, h4, h5, h6, hf, rfl⟩
    rw [List.getElem?_map] at h1
    obtain ⟨d, hd, rfl⟩ := Option.map_eq_some_iff.mp h1
    simp only [Option.getD_none, List.getElem?_map, hd, Option.map_some, Option.some.injEq] at h2
    subst h2
    obtain ⟨w0, w1, r0, r1, hg⟩ := hray q (List.mem_of_getElem? h3) ((focused_iff env a m0 q).mp hf)
    obtain ⟨u0, hu0, e0⟩ := g0 i q h3
    obtain ⟨u1, hu1, e1⟩ := g1 i q h3
    rw [r0.2] at e0
    rw [r1.2] at e1
    cases e0
    cases e1
    rw [hu1] at h5
    cases h5
    rw [List.getElem?_map, hu0] at h4
    cases h4
    rw [List.getElem?_map, List.getElem?_map, hu0] at h6
    cases h6
    exact ⟨d, List.mem_of_getElem? hd, q, List.mem_of_getElem? h3, (focused_iff env a m0 q).mp hf, w0, w1, r0, r1, hg, by rw [scale_of]; rfl⟩
  · rintro ⟨d, hd, q, hq, hf, w0, w1, r0, r1, hg, rfl⟩
    obtain ⟨k, hk⟩ := List.mem_iff_getElem?.mp hd
    obtain ⟨i, hi⟩ := List.mem_iff_getElem?.mp hq
    obtain ⟨u0, hu0, e0⟩ := g0 i q hi
    obtain ⟨u1, hu1, e1⟩ := g1 i q hi
    rw [r0.2] at e0
    rw [r1.2] at e1
    cases e0
    cases e1
    refine ⟨k, i, v0.map (scale d), (v0.map (scale d)).map fun _ => some 1, q, scale d (NanP3.of w0), NanP3.of w1, some 1, by rw [List.getElem?_map, hk]; rfl, ?_, hi, by rw [List.getElem?_map, hu0]; rfl, hu1, ?_,
      (focused_iff env a m0 q).mpr hf, by rw [scale_of]; rfl⟩
    · rw [Option.getD_none, List.getElem?_map, List.getElem?_map, hk]; rfl
    · simp [hu0]

/-- mrcal.unproject() of this pixel is this vector, and all of it is finite -/
def Unprojects (env : Env) (m : Model) (q : P2) (v : P3) : Prop :=
  UnprojectPy.unproject m.lens m.intr env.solve env.prev true q = some (NanP3.of v)

/-- the transformation is fitted, the pixels are weighted with the uncertainties -/
structure FitsWeighted (env : Env) (a : Args) : Prop where
  implied : a.impliedRt10 = none
  intrinsics : a.intrinsicsOnly = false
  weights : a.useUncertainties = true
  available : env.uncOk = true
  radius : a.focusRadius ≠ 0

theorem finite_of (v : P3) : UnprojectPy.finite (NanP3.of v) = some v := rfl

theorem of_finite (v : NanP3) (h : allFinite v = true) : ∃ w, v = NanP3.of w := by
  obtain ⟨x, y, z⟩ := v
  simp only [allFinite, Bool.and_eq_true, Option.isSome_iff_exists] at h
  obtain ⟨⟨⟨x, rfl⟩, ⟨y, rfl⟩⟩, ⟨z, rfl⟩⟩ := h
  exact ⟨⟨x, y, z⟩, rfl⟩

theorem scale_finite (d : ℝ) (v : NanP3) (h : allFinite (scale d v) = true) : allFinite v = true := by
  obtain ⟨x, y, z⟩ := v
  cases x <;> cases y <;> cases z <;> simp_all [allFinite, scale]

theorem weights_get (env : Env) (a : Args) (m0 m1 : Model) (v0 v1 : List NanP3) (k i : Nat) (d : ℝ) (p v : NanP3) (hd : a.distance.values[k]? = some d) (h0 : v0[i]? = some p) (h1 : v1[i]? = some v) :
    ∃ ws, ((uncOf env a m0 v0).zipWith (fun u0 u1 => u0.zipWith weightOf u1) (uncOf env a m1 v1))[k]? = some ws ∧
      ws[i]? = some (weightOf ((UnprojectPy.finite (scale d p)).bind (env.unc m0 a.distance.atinfinity)) ((UnprojectPy.finite (scale d v)).bind (env.unc m1 a.distance.atinfinity))) := by
  refine ⟨(v0.map fun v => (UnprojectPy.finite (scale d v)).bind (env.unc m0 a.distance.atinfinity)).zipWith weightOf
    (v1.map fun v => (UnprojectPy.finite (scale d v)).bind (env.unc m1 a.distance.atinfinity)), ?_, ?_⟩
  · rw [List.getElem?_zipWith]
    unfold uncOf
    rw [List.getElem?_map, List.getElem?_map, hd]
    rfl
  · rw [List.getElem?_zipWith, List.getElem?_map, List.getElem?_map, h0, h1]
    rfl

/-- **C96**: the uncertainties are used as weights: if they're asked for and available, then the fit is given exactly: for each distance and each pixel in the focus region that can be unprojected with both cameras and has finite,
nonzero uncertainties u0, u1 at that distance: the point of the first camera, the ray of the second camera, and the weight 1/(u0 u1)^2. Nothing else has any weight -/
theorem fit_weights (env : Env) (a : Args) (m0 m1 : Model) (hf : FitsWeighted env a) (hr : radiusOf env a m0.W m0.H ≠ 0) (qs : List P2) (v0 v1 : List NanP3)
    (e3 : unprojectAll m0 env.solve env.prev qs = some v0) (e4 : unprojectAll m1 env.solve env.prev qs = some v1) :
    ∃ ws, getRt10 env a qs m0.W m0.H m0 m1 v0 v1 =
        ModelDiff.impliedRt10 env.lsq qs ((distancesOf a.distance).map fun d => v0.map (scale d)) v1 (some ws) a.distance.atinfinity (centerOf a m0.W m0.H) (radiusOf env a m0.W m0.H) ∧
      ∀ T, Counted (terms qs ((distancesOf a.distance).map fun d => v0.map (scale d)) v1 (some ws) (centerOf a m0.W m0.H) (radiusOf env a m0.W m0.H)) T ↔
        ∃ d ∈ distancesOf a.distance, ∃ q ∈ qs, Focused env a m0 q ∧ ∃ w0 w1 u0 u1, Unprojects env m0 q w0 ∧ Unprojects env m1 q w1 ∧
          env.unc m0 a.distance.atinfinity (times d w0) = some u0 ∧ env.unc m1 a.distance.atinfinity (times d w1) = some u1 ∧ u0 ≠ 0 ∧ u1 ≠ 0 ∧ T = ⟨times d w0, w1, 1 / (u0 * u1) ^ 2⟩ := by
  rw [← values_eq]
  obtain ⟨l0, g0⟩ := unprojectAll_get _ _ _ _ _ e3
  obtain ⟨l1, g1⟩ := unprojectAll_get _ _ _ _ _ e4
  have hu : usesUnc env a = true := by
    unfold usesUnc
    rw [hf.weights, hf.intrinsics, hf.implied, hf.available]
    simp [hf.radius]
  refine ⟨(uncOf env a m0 v0).zipWith (fun u0 u1 => u0.zipWith weightOf u1) (uncOf env a m1 v1), ?_, fun T => ?_⟩
  · unfold getRt10
    rw [hf.implied]
    simp only [hf.intrinsics, Bool.false_eq_true, if_false, if_neg hr, hu, if_true]
  unfold Counted
  rw [terms_mem]
  constructor
  · rintro ⟨⟨k, i, ps, ws, q, p, v, w, h1, h2, h3, h4, h5, h6, hfo, rfl⟩, hw⟩
    rw [List.getElem?_map] at h1
    obtain ⟨d, hd, rfl⟩ := Option.map_eq_some_iff.mp h1
    rw [List.getElem?_map] at h4
    obtain ⟨p0, hp0, rfl⟩ := Option.map_eq_some_iff.mp h4
    obtain ⟨ws', a1, a2⟩ := weights_get env a m0 m1 v0 v1 k i d p0 v hd hp0 h5
    simp only [Option.getD_some] at h2
    rw [a1] at h2
    cases h2
    rw [a2] at h6
    cases h6
    unfold cleanTerm at hw ⊢
    dsimp only at hw ⊢
    by_cases hfin : (allFinite (scale d p0) && allFinite v) = true
    swap
    · rw [if_neg hfin] at hw; exact absurd rfl hw
    rw [if_pos hfin] at hw ⊢
    rw [Bool.and_eq_true] at hfin
    obtain ⟨w0, rfl⟩ := of_finite p0 (scale_finite d p0 hfin.1)
    obtain ⟨w1, rfl⟩ := of_finite v hfin.2
    rw [scale_of, scale_of, finite_of, finite_of] at hw ⊢
    simp only [Option.bind_some] at hw ⊢
    cases hu0 : env.unc m0 a.distance.atinfinity (times d w0) with
    | none => rw [hu0] at hw; exact absurd rfl hw
    | some u0 =>
      cases hu1 : env.unc m1 a.distance.atinfinity (times d w1) with
      | none => rw [hu0, hu1] at hw; exact absurd rfl hw
      | some u1 =>
        rw [hu0, hu1] at hw
        unfold weightOf at hw ⊢
        dsimp only at hw ⊢
        by_cases h0 : u0 * u1 = 0
        · rw [if_pos h0] at hw; exact absurd rfl hw
        · rw [if_neg h0]
          obtain ⟨x0, hx0, ex0⟩ := g0 i q h3
          obtain ⟨x1, hx1, ex1⟩ := g1 i q h3
          rw [hp0] at hx0
          rw [h5] at hx1
          cases hx0
          cases hx1
          refine ⟨d, List.mem_of_getElem? hd, q, List.mem_of_getElem? h3, (focused_iff env a m0 q).mp hfo, w0, w1, u0, u1, ex0, ex1, hu0, hu1, left_ne_zero_of_mul h0, right_ne_zero_of_mul h0, ?_⟩
          have : 1 / (u0 * u1) * (1 / (u0 * u1)) = 1 / (u0 * u1) ^ 2 := by field_simp
          rw [Option.getD_some, this]
          rfl
  · rintro ⟨d, hd, q, hq, hfo, w0, w1, u0, u1, r0, r1, hu0, hu1, n0, n1, rfl⟩
    obtain ⟨k, hk⟩ := List.mem_iff_getElem?.mp hd
    obtain ⟨i, hi⟩ := List.mem_iff_getElem?.mp hq
    obtain ⟨x0, hx0, ex0⟩ := g0 i q hi
    obtain ⟨x1, hx1, ex1⟩ := g1 i q hi
    have r0' : UnprojectPy.unproject m0.lens m0.intr env.solve env.prev true q = some (NanP3.of w0) := r0
    have r1' : UnprojectPy.unproject m1.lens m1.intr env.solve env.prev true q = some (NanP3.of w1) := r1
    rw [r0'] at ex0
    rw [r1'] at ex1
    cases ex0
    cases ex1
    obtain ⟨ws', a1, a2⟩ := weights_get env a m0 m1 v0 v1 k i d _ _ hk hx0 hx1
    have hne : u0 * u1 ≠ 0 := mul_ne_zero n0 n1
    refine ⟨⟨k, i, v0.map (scale d), ws', q, scale d (NanP3.of w0), NanP3.of w1, _, by rw [List.getElem?_map, hk]; rfl, a1, hi, by rw [List.getElem?_map, hx0]; rfl, hx1, a2,
      (focused_iff env a m0 q).mpr hfo, ?_⟩, ?_⟩
    · rw [scale_of, scale_of, finite_of, finite_of]
      simp only [Option.bind_some, hu0, hu1]
      unfold weightOf
      dsimp only
      rw [if_neg hne]
      have : 1 / (u0 * u1) * (1 / (u0 * u1)) = 1 / (u0 * u1) ^ 2 := by field_simp
      rw [this]
      rfl
    · exact one_div_ne_zero (pow_ne_zero 2 hne)

theorem times_one (v : P3) : times 1 v = v := by unfold times; simp

/-- **C96**: looking at infinity, with a fitted transformation: two cameras whose rays in the focus region differ only by a rotation: the returned transformation is a rotation without a translation, and there's no
difference at the pixels in the focus region. If the focus region has two different rays, then the returned rotation is that rotation, and there's no difference outside of the focus region either: wherever the rays
of the two cameras differ only by that rotation. Partial: rotations by less than 1e-5, other than 0, aren't exact (`fit_same_wrong`); with unequal weights this isn't stated -/
theorem diff_fit_infinity_partial (env : Env) (hs : SolverReports env.solve) (hopt : Optimal env.lsq) (hok : ∀ f r, env.lsq.rot fScale f = some r → RotOk r) (m0 m1 : Model) (h0 : Usable m0) (h1 : Usable m1)
    (a : Args) (hf : Fits env a m0) (hinf : a.distance = .infinity) (r : Result) (h : projectionDiff env [m0, m1] a = some r) (r0 : P3) (hr0 : RotOk r0)
    (hray : ∀ q ∈ r.q0.flatten, Focused env a m0 q → ∃ w0 w1, Ray env m0 q w0 ∧ Ray env m1 q w1 ∧ turn r0 w0 = w1) :
    ∃ T diff, r.Rt10 = [T] ∧ r.diff = some diff ∧ T.t = ⟨0, 0, 0⟩ ∧ IsRot T.R ∧
      (∀ (i : Nat) q, r.q0.flatten[i]? = some q → Focused env a m0 q → ∃ δ, entryAt diff 0 i = some (some δ) ∧ entryAt r.difflen 0 i = some (some (lenQ δ)) ∧ Negligible m1 q δ) ∧
      ((∃ q ∈ r.q0.flatten, ∃ q' ∈ r.q0.flatten, Focused env a m0 q ∧ Focused env a m0 q' ∧ ∃ w w', Ray env m0 q w ∧ Ray env m0 q' w' ∧ crossP w w' ≠ ⟨0, 0, 0⟩) →
        T.R = R_from_r r0 ∧ ∀ (i : Nat) q w0 w1, r.q0.flatten[i]? = some q → Ray env m0 q w0 → Ray env m1 q w1 → turn r0 w0 = w1 →
          ∃ δ, entryAt diff 0 i = some (some δ) ∧ entryAt r.difflen 0 i = some (some (lenQ δ)) ∧ Negligible m1 q δ) := by
  obtain ⟨T, diff, hT, hdiff, -, -, -, -, hall⟩ := diff_meaning env m0 m1 h0 h1 a r h
  rw [← values_eq] at hall
  obtain ⟨-, -, c0, v0, e0, e3, hj⟩ := transforms env m0 m1 [] a r h
  obtain ⟨c1, v1, T', e1, e4, hT', e5⟩ := hj 0 m1 rfl
  rw [centralize_central _ _ _ h0.central] at e0
  rw [centralize_central _ _ _ h1.central] at e1
  cases e0
  cases e1
  rw [hT] at hT'
  cases hT'
  rw [fit_called env a m0 m1 hf] at e5
  have hat : a.distance.atinfinity = true := by rw [hinf]; rfl
  have hvals : a.distance.values = [1] := by rw [hinf]; rfl
  rw [hat] at e5
  have hterm := fit_terms env a m0 m1 _ v0 v1 e3 e4 (fun _ w0 w1 => turn r0 w0 = w1) hray
  rw [hvals] at hterm e5
  have hdata : ∀ T, T ∈ terms r.q0.flatten ([1].map fun d => v0.map (scale d)) v1 none (centerOf a m0.W m0.H) (radiusOf env a m0.W m0.H) → IsUnit3 T.p ∧ IsUnit3 T.v ∧ turn r0 T.p = T.v := by
    intro X hX
    obtain ⟨d, hd, q, -, -, w0, w1, r0', r1', hg, rfl⟩ := (hterm X).mp hX
    obtain rfl : d = 1 := by simpa using hd
    simp only [times_one]
    exact ⟨r0'.1, r1'.1, hg⟩
  obtain ⟨ht, hR, hmatch, huniq⟩ := fit_infinity_partial env.lsq hopt _ _ _ none _ _ T e5 hok r0 hr0 (fun X hX => ⟨(hdata X hX.1).1, (hdata X hX.1).2.1⟩) (fun X hX => (hdata X hX.1).2.2)
  have done : ∀ (i : Nat) q w0 w1, r.q0.flatten[i]? = some q → Ray env m0 q w0 → Ray env m1 q w1 → transformPointRt T w0 false = w1 →
      ∃ δ, entryAt diff 0 i = some (some δ) ∧ entryAt r.difflen 0 i = some (some (lenQ δ)) ∧ Negligible m1 q δ := by
    intro i q w0 w1 hq hw0 hw1 hm
    have hne : w1 ≠ ⟨0, 0, 0⟩ := by have := times_ne 1 one_pos w1 hw1.1; rwa [times_one] at this
    obtain ⟨x1, x2⟩ := hall 0 i 1 q w0 (by rw [hvals]; rfl) hq hw0 (by rw [times_one, hm]; exact hne)
    rw [times_one, hm] at x1 x2
    exact ⟨_, x1, x2, ray_pixel env hs m1 h1 q w1 hw1⟩
  refine ⟨T, diff, hT, hdiff, ht, hR, fun i q hq hfq => ?_, fun ⟨q, hq, q', hq', hfq, hfq', w, w', hw, hw', hcr⟩ => ?_⟩
  · obtain ⟨w0, w1, r0', r1', hg⟩ := hray q (List.mem_of_getElem? hq) hfq
    have hX := (hterm ⟨times 1 w0, w1, 1⟩).mpr ⟨1, by simp, q, List.mem_of_getElem? hq, hfq, w0, w1, r0', r1', hg, rfl⟩
    have := hmatch _ ⟨hX, one_ne_zero⟩
    simp only [times_one] at this
    exact done i q w0 w1 hq r0' r1' this
  · have uniq : ∀ q w w', Ray env m0 q w → Ray env m0 q w' → w = w' := by
      intro q w w' hw hw'
      have e := Option.some.inj (hw.2.symm.trans hw'.2)
      simp only [NanP3.of, NanP3.mk.injEq, Option.some.injEq] at e
      ext
      · exact e.1
      · exact e.2.1
      · exact e.2.2
    have hT0 : T.R = R_from_r r0 := by
      apply huniq
      obtain ⟨w0, w1, r0', r1', hg⟩ := hray q hq hfq
      obtain ⟨x0, x1, s0', s1', hg'⟩ := hray q' hq' hfq'
      rw [uniq q w w0 hw r0', uniq q' w' x0 hw' s0'] at hcr
      refine ⟨_, _, ⟨(hterm ⟨times 1 w0, w1, 1⟩).mpr ⟨1, by simp, q, hq, hfq, w0, w1, r0', r1', hg, rfl⟩, one_ne_zero⟩,
        ⟨(hterm ⟨times 1 x0, x1, 1⟩).mpr ⟨1, by simp, q', hq', hfq', x0, x1, s0', s1', hg', rfl⟩, one_ne_zero⟩, ?_⟩
      simpa only [times_one] using hcr
    refine ⟨hT0, fun i q w0 w1 hq hw0 hw1 hg => done i q w0 w1 hq hw0 hw1 ?_⟩
    have e : transformPointRt T w0 false = rotatePointR T.R w0 false := by unfold transformPointRt; rw [ht]; simp [addP]
    rw [e, hT0, ← turn_matrix r0 hr0, hg]

/-- **C96**: at finite distances, with a fitted transformation: if some transformation takes the points seen by the first camera in the focus region to the rays of the second camera, then there's no difference in the
focus region -/
theorem diff_fit_finite_partial (env : Env) (hs : SolverReports env.solve) (hopt : Optimal env.lsq) (hok : ∀ f rt, env.lsq.rt fScale f = some rt → RotOk rt.r) (m0 m1 : Model) (h0 : Usable m0) (h1 : Usable m1)
    (a : Args) (hf : Fits env a m0) (hinf : a.distance.atinfinity = false) (r : Result) (h : projectionDiff env [m0, m1] a = some r) (rt0 : RtV) (hr0 : RotOk rt0.r)
    (hray : ∀ q ∈ r.q0.flatten, Focused env a m0 q → ∃ w0 w1, Ray env m0 q w0 ∧ Ray env m1 q w1 ∧ ∀ d ∈ a.distance.values, dirTo (move rt0 (times d w0)) = w1) :
    ∃ T diff, r.Rt10 = [T] ∧ r.diff = some diff ∧ IsRot T.R ∧
      (∀ (k i : Nat) d q, a.distance.values[k]? = some d → r.q0.flatten[i]? = some q → Focused env a m0 q →
        ∃ δ, entryAt diff k i = some (some δ) ∧ entryAt r.difflen k i = some (some (lenQ δ)) ∧ Negligible m1 q δ) := by
  obtain ⟨T, diff, hT, hdiff, -, -, -, -, hall⟩ := diff_meaning env m0 m1 h0 h1 a r h
  rw [← values_eq] at hall
  obtain ⟨-, -, c0, v0, e0, e3, hj⟩ := transforms env m0 m1 [] a r h
  obtain ⟨c1, v1, T', e1, e4, hT', e5⟩ := hj 0 m1 rfl
  rw [centralize_central _ _ _ h0.central] at e0
  rw [centralize_central _ _ _ h1.central] at e1
  cases e0
  cases e1
  rw [hT] at hT'
  cases hT'
  rw [fit_called env a m0 m1 hf, hinf] at e5
  have hterm := fit_terms env a m0 m1 _ v0 v1 e3 e4 (fun _ w0 w1 => ∀ d ∈ a.distance.values, dirTo (move rt0 (times d w0)) = w1) hray
  have hdata : ∀ T, T ∈ terms r.q0.flatten (a.distance.values.map fun d => v0.map (scale d)) v1 none (centerOf a m0.W m0.H) (radiusOf env a m0.W m0.H) → IsUnit3 T.v ∧ dirTo (move rt0 T.p) = T.v := by
    intro X hX
    obtain ⟨d, hd, q, -, -, w0, w1, r0', r1', hg, rfl⟩ := (hterm X).mp hX
    exact ⟨r1'.1, hg d hd⟩
  obtain ⟨hR, hmatch⟩ := fit_finite_partial env.lsq hopt _ _ _ none _ _ T e5 hok rt0 hr0 (fun X hX => (hdata X hX.1).1) (fun X hX => by
    intro hz
    have hu := (hdata X hX).1
    rw [← (hdata X hX).2] at hu
    unfold IsUnit3 dirTo at hu
    rw [hz] at hu
    unfold mag3 at hu
    norm_num at hu) (fun X hX => (hdata X hX.1).2)
  refine ⟨T, diff, hT, hdiff, hR, fun k i d q hd hq hfq => ?_⟩
  obtain ⟨w0, w1, r0', r1', hg⟩ := hray q (List.mem_of_getElem? hq) hfq
  have hX := (hterm ⟨times d w0, w1, 1⟩).mpr ⟨d, List.mem_of_getElem? hd, q, List.mem_of_getElem? hq, hfq, w0, w1, r0', r1', hg, rfl⟩
  obtain ⟨hne, hdir⟩ := hmatch _ ⟨hX, one_ne_zero⟩
  dsimp only at hne hdir
  have hne' : transformPointRt T (times d w0) false ≠ ⟨0, 0, 0⟩ := by
    intro hz
    rw [hz] at hne
    apply hne
    unfold mag3
    norm_num
  obtain ⟨x1, x2⟩ := hall k i d q w0 hd hq r0' hne'
  have hpix : sees m1 (transformPointRt T (times d w0) false) = sees m1 w1 := by
    have hpos : 0 < mag3 (transformPointRt T (times d w0) false) := lt_of_le_of_ne (mag3_nonneg _) hne.symm
    rw [← hdir]
    have := sees_times m1 (usable_central m1 h1) (transformPointRt T (times d w0) false) (1 / mag3 (transformPointRt T (times d w0) false)) (by positivity)
    rw [← this]
    congr 1
    unfold times dirTo
    ext <;> simp only <;> ring
  rw [hpix] at x1 x2
  exact ⟨_, x1, x2, ray_pixel env hs m1 h1 q w1 r1'⟩

/-! ### many models -/

theorem mean_some (ys : List ℝ) : mean (ys.map some) = some (ys.sum / ys.length) := by
  have : (ys.map some).mapM id = some ys := by
    induction ys with
    | nil => rfl
    | cons x l ih => simp [ih]
  unfold mean
  rw [this]
  rfl

theorem mean_none (l : List (Option ℝ)) (h : none ∈ l) : mean l = none := by
  unfold mean
  rw [Option.map_eq_none_iff]
  cases hm : l.mapM id with
  | none => rfl
  | some r =>
    have hf := TriPy.mapM_forall₂ _ _ hm
    obtain ⟨i, hi⟩ := List.mem_iff_getElem?.mp h
    obtain ⟨y, -, hy⟩ := (mapM_get _ _ _ hm).2 i none hi
    exact absurd hy (by simp)

theorem sq_list (P : List (Model × Rt)) (f : Model × Rt → Option P2) (xs : List ℝ) (h : List.Forall₂ (fun c x => (f c).map (fun d => Real.sqrt (norm2 d)) = some x) P xs) :
    (P.map fun c => (f c).map norm2) = (xs.map (· ^ 2)).map some := by
  induction h with
  | nil => rfl
  | @cons c x P xs h1 h2 ih =>
    obtain ⟨δ, hδ, rfl⟩ := Option.map_eq_some_iff.mp h1
    simp only [List.map_cons, ih, hδ, Option.map_some]
    rw [Real.sq_sqrt (by unfold norm2; nlinarith [mul_self_nonneg δ.x, mul_self_nonneg δ.y])]

theorem forall₂_get {α β : Type} {R : α → β → Prop} (l : List α) (r : List β) (hl : l.length = r.length) (h : ∀ (i : Nat) x y, l[i]? = some x → r[i]? = some y → R x y) : List.Forall₂ R l r := by
  rw [List.forall₂_iff_get]
  exact ⟨hl, fun i h1 h2 => h i _ _ (List.getElem?_eq_getElem h1) (List.getElem?_eq_getElem h2)⟩

/-- **C96**: more than two models: each one is compared with the first one, as if these were the only two. The reported difference is the root of the mean of the squares of these differences; it's NaN if one of them is -/
theorem many_rms (env : Env) (m0 m1 m2 : Model) (rest : List Model) (a : Args) (r : Result) (h : projectionDiff env (m0 :: m1 :: m2 :: rest) a = some r) :
    ∃ rs : List Result, List.Forall₂ (fun m r' => projectionDiff env [m0, m] a = some r' ∧ r'.q0 = r.q0) (m1 :: m2 :: rest) rs ∧ r.Rt10 = rs.flatMap (·.Rt10) ∧ r.diff = none ∧
      r.difflen.length = a.distance.values.length ∧ (∀ row ∈ r.difflen, row.length = r.q0.flatten.length) ∧
      ∀ k i : Nat, k < a.distance.values.length → i < r.q0.flatten.length →
        (∀ xs : List ℝ, List.Forall₂ (fun r' x => entryAt r'.difflen k i = some (some x)) rs xs → entryAt r.difflen k i = some (some (Real.sqrt ((xs.map (· ^ 2)).sum / xs.length)))) ∧
        ((∃ r' ∈ rs, entryAt r'.difflen k i = some none) → entryAt r.difflen k i = some none) := by
  obtain ⟨hi, hsz, c0, cs, grid, v0, vs, Ts, e0, e1, e2, e3, e4, e5, e⟩ := steps env m0 m1 (m2 :: rest) a r h
  rw [if_neg (by simp)] at e
  obtain ⟨l1, g1⟩ := mapM_get _ _ _ e1
  obtain ⟨l4, g4⟩ := mapM_get _ _ _ e4
  obtain ⟨l5, g5⟩ := mapM_get _ _ _ e5
  have lT : Ts.length = (m1 :: m2 :: rest).length := by rw [l5, List.length_zip, l4, l1, Nat.min_self]
  have lP : (cs.zip Ts).length = (m1 :: m2 :: rest).length := by rw [List.length_zip, lT, l1, Nat.min_self]
  have eq : r.q0 = grid := by rw [e]; rfl
  obtain ⟨l0, -⟩ := unprojectAll_get _ _ _ _ _ e3
  have entry_two : ∀ (c : Model) (T : Rt) (k i : Nat) (hk : k < a.distance.values.length) (hi : i < grid.flatten.length),
      entryAt (twoModels (diffsOf a grid.flatten v0 [c] [T]) grid [T]).difflen k i =
        some ((diffAt c T a.distance.values[k] grid.flatten[i] (v0[i]'(by rw [l0]; exact hi))).map fun d => Real.sqrt (norm2 d)) := by
    intro c T k i hk hi
    have : (twoModels (diffsOf a grid.flatten v0 [c] [T]) grid [T]).difflen = a.distance.values.map fun d => (grid.flatten.zip v0).map fun (q, v) => (diffAt c T d q v).map fun d => Real.sqrt (norm2 d) := by
      simp only [twoModels, diffsOf, List.zip_cons_cons, List.zip_nil_right, List.map_cons, List.map_nil, List.headD_cons, List.map_map, Function.comp_def]
    rw [this]
    exact entry_map _ _ _ (fun d q v => (diffAt c T d q v).map fun d => Real.sqrt (norm2 d)) k i _ _ _ (List.getElem?_eq_getElem hk) (List.getElem?_eq_getElem hi) (List.getElem?_eq_getElem _)
  have entry_many : ∀ (k i : Nat) (hk : k < a.distance.values.length) (hi : i < grid.flatten.length),
      entryAt r.difflen k i = some ((mean ((cs.zip Ts).map fun c => (diffAt c.1 c.2 a.distance.values[k] grid.flatten[i] (v0[i]'(by rw [l0]; exact hi))).map norm2)).map Real.sqrt) := by
    intro k i hk hi
    have hd : r.difflen = (List.range a.distance.values.length).map fun idist => (List.range grid.flatten.length).map fun i =>
      (mean ((diffsOf a grid.flatten v0 cs Ts).map fun l => (((l[idist]?).bind (·[i]?)).getD none).map norm2)).map Real.sqrt := by rw [e]; rfl
    rw [hd]
    unfold entryAt
    rw [List.getElem?_map, List.getElem?_range hk]
    simp only [Option.map_some, Option.bind_some]
    rw [List.getElem?_map, List.getElem?_range hi]
    simp only [Option.map_some]
    congr 3
    unfold diffsOf
    rw [List.map_map]
    apply List.map_congr_left
    intro c _
    simp only [Function.comp_def]
    have := entry_map a.distance.values grid.flatten v0 (fun d q v => diffAt c.1 c.2 d q v) k i _ _ _ (List.getElem?_eq_getElem hk) (List.getElem?_eq_getElem hi) (List.getElem?_eq_getElem (by rw [l0]; exact hi))
    unfold entryAt at this
    rw [this]
    rfl
  refine ⟨(cs.zip Ts).map fun c => twoModels (diffsOf a grid.flatten v0 [c.1] [c.2]) grid [c.2], ?_, ?_, by rw [e]; rfl, by rw [e]; simp [manyModels], ?_, ?_⟩
  · refine forall₂_get _ _ (by rw [List.length_map, lP]) fun j m r' hjm hr' => ?_
    obtain ⟨c, hc, e1'⟩ := g1 j _ hjm
    obtain ⟨v1, hv, e4'⟩ := g4 j c hc
    obtain ⟨T, hT, e5'⟩ := g5 j (_, v1) (List.getElem?_zip_eq_some.mpr ⟨hjm, hv⟩)
    have hP : (cs.zip Ts)[j]? = some (c, T) := List.getElem?_zip_eq_some.mpr ⟨hc, hT⟩
    rw [List.getElem?_map, hP, Option.map_some] at hr'
    rw [← Option.some.inj hr']
    refine ⟨?_, eq.symm⟩
    have hm : m ∈ m1 :: m2 :: rest := List.mem_of_getElem? hjm
    exact steps_conv env m0 m [] a c0 [c] grid v0 [v1] [T] (fun h => absurd rfl h) (fun m' hm' => by
      rw [List.mem_singleton] at hm'
      rw [hm']
      exact hsz _ hm) e0 (mapM_one_conv _ _ _ e1') e2 e3 (mapM_one_conv _ _ _ e4') (mapM_one_conv _ (_, _) _ e5')
  · have eT : r.Rt10 = Ts := by rw [e]; rfl
    rw [eT, List.flatMap_map]
    have : ∀ (l : List Model) (t : List Rt), l.length = t.length → (l.zip t).flatMap (fun c => (twoModels (diffsOf a grid.flatten v0 [c.1] [c.2]) grid [c.2]).Rt10) = t := by
      intro l
      induction l with
      | nil => intro t h; cases t <;> simp_all
      | cons x l ih =>
        intro t h
        cases t with
        | nil => simp at h
        | cons y t =>
          rw [List.zip_cons_cons, List.flatMap_cons, ih t (by simpa using h)]
          rfl
    exact (this cs Ts (by rw [l1, lT])).symm
  · intro row hrow
    rw [e] at hrow
    obtain ⟨d, -, rfl⟩ := List.mem_map.mp hrow
    simp [eq]
  · intro k i hk hi
    rw [eq] at hi
    constructor
    · intro xs hxs
      rw [entry_many k i hk hi, sq_list (cs.zip Ts) (fun c => diffAt c.1 c.2 a.distance.values[k] grid.flatten[i] (v0[i]'(by rw [l0]; exact hi))) xs, mean_some]
      · simp
      · rw [List.forall₂_map_left_iff] at hxs
        refine hxs.imp fun c x hc => ?_
        rw [entry_two c.1 c.2 k i hk hi] at hc
        exact Option.some.inj hc
    · rintro ⟨r', hr', hn⟩
      obtain ⟨c, hc, rfl⟩ := List.mem_map.mp hr'
      rw [entry_two c.1 c.2 k i hk hi] at hn
      rw [entry_many k i hk hi, mean_none]
      · rfl
      · refine List.mem_map.mpr ⟨c, hc, ?_⟩
        rw [Option.map_eq_none_iff.mp (Option.some.inj hn)]
        rfl

/-! ### other coordinate systems -/

/-- the same camera, in another reference coordinate system: X takes the new coordinates to the old ones -/
def moved (X : Rt) (m : Model) : Model := { m with pose := composeRt m.pose X false false }

theorem moved_centralize (X : Rt) (b c : Bool) (m : Model) : centralize b c (moved X m) = (centralize b c m).map (moved X) := by
  unfold centralize
  by_cases hn : m.lens.noncentral = true ∧ ¬ (m.intr 9 * m.intr 9 + m.intr 10 * m.intr 10 + m.intr 11 * m.intr 11 < 1e-12)
  · have hn' := hn
    change (moved X m).lens.noncentral = true ∧ ¬ ((moved X m).intr 9 * (moved X m).intr 9 + (moved X m).intr 10 * (moved X m).intr 10 + (moved X m).intr 11 * (moved X m).intr 11 < 1e-12) at hn'
    rw [if_pos hn, if_pos hn']
    cases b <;> cases c <;> rfl
  · have hn' := hn
    change ¬ ((moved X m).lens.noncentral = true ∧ ¬ ((moved X m).intr 9 * (moved X m).intr 9 + (moved X m).intr 10 * (moved X m).intr 10 + (moved X m).intr 11 * (moved X m).intr 11 < 1e-12)) at hn'
    rw [if_neg hn, if_neg hn']
    rfl

theorem moved_toFrom (X : Rt) (hX : Orth X.R) (m0 m1 : Model) (h0 : Orth m0.pose.R) (h0' : Orth (moved X m0).pose.R) :
    RtToFrom (moved X m0) (moved X m1) = RtToFrom m0 m1 := by
  apply act_ext
  intro p
  have e0 : inCam m0 (transformPointRt m0.pose p true) = p := (transform_inverted m0.pose h0 p).2
  have hm : ∀ m P, inCam (moved X m) (transformPointRt X P true) = inCam m P := by
    intro m P
    unfold inCam moved
    rw [compose_transform, (transform_inverted X hX P).2]
  have e1 := toFrom_point m0 m1 h0 (transformPointRt m0.pose p true)
  have e2 := toFrom_point (moved X m0) (moved X m1) h0' (transformPointRt X (transformPointRt m0.pose p true) true)
  rw [hm, hm, e0] at e2
  rw [e0] at e1
  rw [e1, e2]

theorem mapM_moved {β : Type} (X : Rt) (l : List Model) (f : Model → Option β) : (l.map (moved X)).mapM f = l.mapM fun m => f (moved X m) := by
  induction l with
  | nil => rfl
  | cons x l ih => simp [ih]

theorem mapM_map_out {α β γ : Type} (l : List α) (f : α → Option β) (g : β → γ) (r : List β) (h : l.mapM f = some r) : (l.mapM fun x => (f x).map g) = some (r.map g) := by
  induction l generalizing r with
  | nil => simp at h; subst h; rfl
  | cons x l ih =>
    rw [List.mapM_cons] at h ⊢
    cases hx : f x with
    | none => rw [hx] at h; exact absurd h (by simp)
    | some y =>
      rw [hx] at h
      cases hl : l.mapM f with
      | none => rw [hl] at h; exact absurd h (by simp)
      | some ys =>
        rw [hl] at h
        have : y :: ys = r := by simpa using h
        subst this
        simp [ih ys hl]

theorem getRt10_moved (env : Env) (a : Args) (hu : a.useUncertainties = false) (qs : List P2) (X : Rt) (hX : IsRot X.R) (m0 m : Model) (h0 : IsRot m0.pose.R) (W H : Nat) (v0 v : List NanP3) :
    getRt10 env a qs W H (moved X m0) (moved X m) v0 v = getRt10 env a qs W H m0 m v0 v := by
  have hu : usesUnc env a = false := by unfold usesUnc; rw [hu]; simp
  unfold getRt10
  rw [moved_toFrom X hX.1 m0 m h0.1 (compose_rot _ _ false false h0 hX).1]
  simp only [hu]
  rfl

theorem mapM_zip_moved (X : Rt) (l : List Model) (vs : List (List NanP3)) (f g : Model × List NanP3 → Option Rt) (h : ∀ m v, f (moved X m, v) = g (m, v)) :
    ((l.map (moved X)).zip vs).mapM f = (l.zip vs).mapM g := by
  induction l generalizing vs with
  | nil => rfl
  | cons x l ih =>
    cases vs with
    | nil => rfl
    | cons v vs =>
      rw [List.map_cons, List.zip_cons_cons, List.zip_cons_cons, List.mapM_cons, List.mapM_cons, h, ih]

theorem diffsOf_moved (a : Args) (qs : List P2) (v0 : List NanP3) (X : Rt) (cs : List Model) (Ts : List Rt) : diffsOf a qs v0 (cs.map (moved X)) Ts = diffsOf a qs v0 cs Ts := by
  unfold diffsOf
  induction cs generalizing Ts with
  | nil => rfl
  | cons c cs ih =>
    cases Ts with
    | nil => rfl
    | cons T Ts => 
      rw [List.map_cons, List.zip_cons_cons, List.zip_cons_cons, List.map_cons, List.map_cons, ih]
      rfl

/-- **C96**: the reference coordinate system doesn't matter: if all the cameras are expressed in another one, then the results are the same. (With the uncertainties this isn't stated: those come from elsewhere) -/
theorem reference_free (env : Env) (models : List Model) (hm : ∀ m ∈ models, IsRot m.pose.R) (a : Args) (hu : a.useUncertainties = false) (X : Rt) (hX : IsRot X.R) :
    projectionDiff env (models.map (moved X)) a = projectionDiff env models a := by
  have one : ∀ (models : List Model) (_ : ∀ m ∈ models, IsRot m.pose.R) (X : Rt) (_ : IsRot X.R) r, projectionDiff env models a = some r → projectionDiff env (models.map (moved X)) a = some r := by
    intro models hm X hX r h
    match models, hm, h with
    | m0 :: m1 :: rest, hm, h =>
      obtain ⟨hi, hsz, c0, cs, grid, v0, vs, Ts, e0, e1, e2, e3, e4, e5, e⟩ := steps env m0 m1 rest a r h
      have := steps_conv env (moved X m0) (moved X m1) (rest.map (moved X)) a (moved X c0) (cs.map (moved X)) grid v0 vs Ts (fun h => hi (by simpa using h))
        (fun m hm => by
          have hm : m ∈ (m1 :: rest).map (moved X) := hm
          obtain ⟨m', hm', rfl⟩ := List.mem_map.mp hm
          exact hsz m' hm')
        (by rw [moved_centralize, e0]; rfl)
        (by
          have := mapM_moved X (m1 :: rest) (centralize a.distance.atinfinity a.useUncertainties)
          rw [List.map_cons] at this
          rw [this]
          simp only [moved_centralize]
          exact mapM_map_out _ _ _ _ e1)
        e2 e3 (by rw [mapM_moved]; exact e4)
        (by
          have := mapM_zip_moved X (m1 :: rest) vs (fun x => getRt10 env a grid.flatten m0.W m0.H (moved X m0) x.1 v0 x.2) (fun x => getRt10 env a grid.flatten m0.W m0.H m0 x.1 v0 x.2)
            (fun m v => getRt10_moved env a hu _ X hX m0 m (hm m0 (by simp)) _ _ _ _)
          rw [List.map_cons] at this
          exact this.trans e5)
      rw [List.map_cons, List.map_cons, this, e, diffsOf_moved]
      cases rest <;> rfl
  cases h : projectionDiff env models a with
  | some r => exact one models hm X hX r h
  | none =>
    cases h' : projectionDiff env (models.map (moved X)) a with
    | none => rfl
    | some r =>
      have hXi : IsRot (invertRt X).R := by
        have := compose_rot identityRt X false true identity_rot hX
        have e : composeRt identityRt X false true = invertRt X := by
          apply act_ext
          intro x
          rw [compose_transform, (compose_identity X).2.2, (invert_transform X x hX.1).1]
        rwa [e] at this
      have back := one (models.map (moved X)) (fun m hmm => by
        obtain ⟨m', hm', rfl⟩ := List.mem_map.mp hmm
        exact compose_rot _ _ false false (hm m' hm') hX) (invertRt X) hXi r h'
      have e : (models.map (moved X)).map (moved (invertRt X)) = models := by
        rw [List.map_map]
        conv_rhs => rw [← List.map_id models]
        apply List.map_congr_left
        intro m _
        have : composeRt (composeRt m.pose X false false) (invertRt X) false false = m.pose := by
          apply act_ext
          intro x
          rw [compose_transform, compose_transform, (invert_transform X x hX.1).1, (transform_inverted X hX.1 x).2]
        simp only [Function.comp_def, moved, this]
        rfl
      rw [e, h] at back
      exact absurd back (by simp)

/-! ### what is accepted -/

theorem mapM_total {α β : Type} (f : α → Option β) (l : List α) (h : ∀ x ∈ l, ∃ y, f x = some y) : ∃ r, l.mapM f = some r := by
  induction l with
  | nil => exact ⟨[], rfl⟩
  | cons x l ih =>
    obtain ⟨y, hy⟩ := h x (by simp)
    obtain ⟨r, hr⟩ := ih fun z hz => h z (by simp [hz])
    exact ⟨y :: r, by rw [List.mapM_cons, hy, hr]; rfl⟩

theorem ray_total (env : Env) (hs : SolverReports env.solve) (m : Model) (hm : Usable m) (qs : List P2) : ∃ v, unprojectAll m env.solve env.prev qs = some v :=
  mapM_total _ _ fun q _ => by
    obtain ⟨v, hv, -⟩ := ray_cases env hs m hm q
    exact ⟨_, hv⟩

open Classical in
/-- **C96**: with central cameras: at least two of them, all of the same size, with a grid that can be computed; a given transformation works only with two cameras; if a transformation is fitted, then at least three pixels of
the grid must be in the focus region. Everything else is accepted -/
theorem accepted (env : Env) (hs : SolverReports env.solve) (hl : (∀ C f, ∃ r, env.lsq.rot C f = some r) ∧ ∀ C f, ∃ r, env.lsq.rt C f = some r) (m0 m1 : Model) (rest : List Model)
    (hm : ∀ m ∈ m0 :: m1 :: rest, Usable m) (a : Args) :
    (∃ r, projectionDiff env (m0 :: m1 :: rest) a = some r) ↔
      (rest ≠ [] → a.impliedRt10 = none) ∧ (∀ m ∈ m1 :: rest, m.W = m0.W ∧ m.H = m0.H) ∧ ∃ grid, sampleImager a.gw a.gh m0.W m0.H = some grid ∧
        (a.impliedRt10 = none → a.intrinsicsOnly = false → radiusOf env a m0.W m0.H ≠ 0 → 3 ≤ (grid.flatten.filter fun q => decide (Focused env a m0 q)).length) := by
  have get : ∀ (grid : List (List P2)) (v0 v : List NanP3) (m : Model), (∃ T, getRt10 env a grid.flatten m0.W m0.H m0 m v0 v = some T) ↔
      (a.impliedRt10 = none → a.intrinsicsOnly = false → radiusOf env a m0.W m0.H ≠ 0 → 3 ≤ (grid.flatten.filter fun q => decide (Focused env a m0 q)).length) := by
    intro grid v0 v m
    unfold getRt10
    cases hi : a.impliedRt10 with
    | some T => simp
    | none =>
      cases ho : a.intrinsicsOnly with
      | true => simp
      | false =>
        by_cases hr : radiusOf env a m0.W m0.H = 0
        · simp [hr]
        · simp only [Bool.false_eq_true, if_false, if_neg hr]
          rw [fit_accepted env.lsq _ _ _ _ _ _ _ hl]
          constructor
          · intro h _ _ _
            refine h.trans_eq (congrArg List.length (List.filter_congr fun q _ => decide_eq_decide.mpr Iff.rfl))
          · intro h
            exact (h trivial trivial hr).trans_eq (congrArg List.length (List.filter_congr fun q _ => decide_eq_decide.mpr Iff.rfl))
  constructor
  · rintro ⟨r, h⟩
    obtain ⟨hi, hsz, c0, cs, grid, v0, vs, Ts, e0, e1, e2, e3, e4, e5, e⟩ := steps env m0 m1 rest a r h
    refine ⟨hi, hsz, grid, e2, ?_⟩
    obtain ⟨-, g1⟩ := mapM_get _ _ _ e1
    obtain ⟨-, g4⟩ := mapM_get _ _ _ e4
    obtain ⟨-, g5⟩ := mapM_get _ _ _ e5
    obtain ⟨c, hc, -⟩ := g1 0 m1 rfl
    obtain ⟨v, hv, -⟩ := g4 0 c hc
    obtain ⟨T, -, hT⟩ := g5 0 (m1, v) (List.getElem?_zip_eq_some.mpr ⟨rfl, hv⟩)
    exact (get grid v0 v m1).mp ⟨T, hT⟩
  · rintro ⟨hi, hsz, grid, e2, hT⟩
    obtain ⟨v0, e3⟩ := ray_total env hs m0 (hm m0 (by simp)) grid.flatten
    obtain ⟨vs, e4⟩ := mapM_total (fun c => unprojectAll c env.solve env.prev grid.flatten) (m1 :: rest) fun m hm' => ray_total env hs m (hm m (by simp at hm' ⊢; tauto)) _
    obtain ⟨Ts, e5⟩ := mapM_total (fun (x : Model × List NanP3) => getRt10 env a grid.flatten m0.W m0.H m0 x.1 v0 x.2) ((m1 :: rest).zip vs) fun x _ => (get grid v0 x.2 x.1).mpr hT
    have e1 : (m1 :: rest).mapM (centralize a.distance.atinfinity a.useUncertainties) = some (m1 :: rest) := by
      have : ∀ l : List Model, (∀ m ∈ l, Usable m) → l.mapM (centralize a.distance.atinfinity a.useUncertainties) = some l := by
        intro l hl
        induction l with
        | nil => rfl
        | cons x l ih => rw [List.mapM_cons, centralize_central _ _ _ (hl x (by simp)).central, ih fun m hm => hl m (by simp [hm])]; rfl
      exact this _ fun m hm' => hm m (by simp at hm' ⊢; tauto)
    exact ⟨_, steps_conv env m0 m1 rest a m0 (m1 :: rest) grid v0 vs Ts hi hsz (centralize_central _ _ _ (hm m0 (by simp)).central) e1 e2 e3 e4 e5⟩

/-! ### CAHVORE -/

/-- the size of E, squared -/
def sizeE2 (m : Model) : ℝ := m.intr 9 * m.intr 9 + m.intr 10 * m.intr 10 + m.intr 11 * m.intr 11

open Classical in
/-- the same camera, without E -/
noncomputable def withoutE (m : Model) : Model := if isCahvore m.lens = true then { m with intr := fun i => if i = 9 ∨ i = 10 ∨ i = 11 then 0 else m.intr i } else m

theorem cahvore_noncentral (L : Lens) : L.noncentral = isCahvore L := by cases L <;> rfl

/-- the models that are used in the same way -/
def Alike (b c : Bool) (m m' : Model) : Prop := centralize b c m = centralize b c m' ∧ m.W = m'.W ∧ m.H = m'.H ∧ m.pose = m'.pose

theorem mapM_alike {α β : Type} {R : α → α → Prop} (f : α → Option β) (hR : ∀ x y, R x y → f x = f y) (l l' : List α) (h : List.Forall₂ R l l') : l.mapM f = l'.mapM f := by
  induction h with
  | nil => rfl
  | cons h1 _ ih => rw [List.mapM_cons, List.mapM_cons, hR _ _ h1, ih]

theorem mapM_zip_alike {α β γ : Type} {R : α → α → Prop} (f g : α × β → Option γ) (hR : ∀ x y v, R x y → f (x, v) = g (y, v)) (l l' : List α) (h : List.Forall₂ R l l') (vs : List β) :
    (l.zip vs).mapM f = (l'.zip vs).mapM g := by
  induction h generalizing vs with
  | nil => rfl
  | cons h1 _ ih =>
    cases vs with
    | nil => rfl
    | cons v vs => rw [List.zip_cons_cons, List.zip_cons_cons, List.mapM_cons, List.mapM_cons, hR _ _ _ h1, ih]

theorem all_alike {α : Type} {R : α → α → Prop} (f g : α → Bool) (hR : ∀ x y, R x y → f x = g y) (l l' : List α) (h : List.Forall₂ R l l') : l.all f = l'.all g := by
  induction h with
  | nil => rfl
  | cons h1 _ ih => rw [List.all_cons, List.all_cons, hR _ _ h1, ih]

theorem diff_alike (env : Env) (models models' : List Model) (a : Args) (hu : a.useUncertainties = false) (h : List.Forall₂ (Alike a.distance.atinfinity a.useUncertainties) models models') :
    projectionDiff env models a = projectionDiff env models' a := by
  have hu' : usesUnc env a = false := by unfold usesUnc; rw [hu]; simp
  match models, models', h with
  | [], _, h => cases h; rfl
  | [_], _, h => cases h with | cons h1 h2 => cases h2; rfl
  | m0 :: m1 :: rest, _, .cons (b := n0) h0 (.cons (b := n1) (l₂ := rest') h1 h2) =>
    obtain ⟨e0, w0, k0, p0⟩ := h0
    have hall : List.Forall₂ (Alike a.distance.atinfinity a.useUncertainties) (m1 :: rest) (n1 :: rest') := .cons h1 h2
    have he : rest.isEmpty = rest'.isEmpty := by cases h2 <;> rfl
    have hg : ∀ qs v0, ∀ (x y : Model) v, Alike a.distance.atinfinity a.useUncertainties x y → getRt10 env a qs m0.W m0.H m0 x v0 v = getRt10 env a qs n0.W n0.H n0 y v0 v := by
      intro qs v0 x y v hxy
      unfold getRt10
      have : RtToFrom m0 x = RtToFrom n0 y := by unfold RtToFrom; rw [p0, hxy.2.2.2]
      rw [this, w0, k0]
      simp only [hu']
      rfl
    unfold projectionDiff
    dsimp only
    rw [he, e0, w0, k0, mapM_alike _ (fun x y hxy => hxy.1) _ _ hall,
      all_alike (fun m => decide (m.W = n0.W) && decide (m.H = n0.H)) (fun m => decide (m.W = n0.W) && decide (m.H = n0.H)) (fun x y hxy => by rw [hxy.2.1, hxy.2.2.1]) _ _ hall]
    rw [w0, k0] at hg
    have hz : ∀ qs v0 (vs : List (List NanP3)), (((m1 :: rest).zip vs).mapM fun (x : Model × List NanP3) => getRt10 env a qs n0.W n0.H m0 x.1 v0 x.2) =
        (((n1 :: rest').zip vs).mapM fun (x : Model × List NanP3) => getRt10 env a qs n0.W n0.H n0 x.1 v0 x.2) := fun qs v0 vs =>
      mapM_zip_alike _ _ (fun x y v hxy => hg qs v0 x y v hxy) _ _ hall vs
    simp only [hz]

/-- **C96**: CAHVORE models with E: at infinity, and without uncertainties, these are compared as if E was 0; this isn't possible otherwise. Partial: if E is almost 0, then it's an error, `tiny_wrong` -/
theorem cahvore_diff_partial (env : Env) (models : List Model) (a : Args) (hE : ∀ m ∈ models, isCahvore m.lens = true → 1e-12 ≤ sizeE2 m) :
    (a.distance.atinfinity = true → a.useUncertainties = false → projectionDiff env models a = projectionDiff env (models.map withoutE) a) ∧
    ((∃ m ∈ models, isCahvore m.lens = true) → (a.distance.atinfinity = false ∨ a.useUncertainties = true) → projectionDiff env models a = none) := by
  constructor
  · intro hi hu
    apply diff_alike env _ _ a hu
    rw [List.forall₂_map_right_iff, List.forall₂_same]
    intro m hm
    unfold withoutE
    by_cases hc : isCahvore m.lens = true
    · rw [if_pos hc]
      refine ⟨?_, rfl, rfl, rfl⟩
      have h1 : m.lens.noncentral = true ∧ ¬ (m.intr 9 * m.intr 9 + m.intr 10 * m.intr 10 + m.intr 11 * m.intr 11 < 1e-12) := ⟨by rw [cahvore_noncentral, hc], not_lt.mpr (hE m hm hc)⟩
      rw [hi, hu]
      unfold centralize
      rw [if_pos h1]
      have h2 : ¬ (({ m with intr := fun i => if i = 9 ∨ i = 10 ∨ i = 11 then 0 else m.intr i } : Model).lens.noncentral = true ∧ ¬ (
          ({ m with intr := fun i => if i = 9 ∨ i = 10 ∨ i = 11 then 0 else m.intr i } : Model).intr 9 * ({ m with intr := fun i => if i = 9 ∨ i = 10 ∨ i = 11 then 0 else m.intr i } : Model).intr 9 +
          ({ m with intr := fun i => if i = 9 ∨ i = 10 ∨ i = 11 then 0 else m.intr i } : Model).intr 10 * ({ m with intr := fun i => if i = 9 ∨ i = 10 ∨ i = 11 then 0 else m.intr i } : Model).intr 10 +
          ({ m with intr := fun i => if i = 9 ∨ i = 10 ∨ i = 11 then 0 else m.intr i } : Model).intr 11 * ({ m with intr := fun i => if i = 9 ∨ i = 10 ∨ i = 11 then 0 else m.intr i } : Model).intr 11 < 1e-12)) := by
        rintro ⟨-, hn⟩
        apply hn
        norm_num
      rw [if_neg h2]
      rfl
    · rw [if_neg hc]
      exact ⟨rfl, rfl, rfl, rfl⟩
  · rintro ⟨m, hm, hc⟩ hor
    have hnone : centralize a.distance.atinfinity a.useUncertainties m = none := by
      unfold centralize
      rw [if_pos ⟨by rw [cahvore_noncentral, hc], not_lt.mpr (hE m hm hc)⟩]
      rcases hor with h | h
      · rw [h]; rfl
      · rw [h]; cases a.distance.atinfinity <;> rfl
    cases h : projectionDiff env models a with
    | none => rfl
    | some r =>
      exfalso
      match models, hm, h with
      | m0 :: m1 :: rest, hm, h =>
        obtain ⟨hi, hsz, c0, cs, grid, v0, vs, Ts, e0, e1, -⟩ := steps env m0 m1 rest a r h
        rcases List.mem_cons.mp hm with rfl | hm
        · rw [hnone] at e0; exact absurd e0 (by simp)
        · obtain ⟨i, hi⟩ := List.mem_iff_getElem?.mp hm
          obtain ⟨y, -, hy⟩ := (mapM_get _ _ _ e1).2 i m hi
          rw [hnone] at hy
          exact absurd hy (by simp)

/-- **C96**, deviation: a CAHVORE model with a tiny E isn't modified, and then it cannot be unprojected: this always raises an exception -/
theorem tiny_wrong (env : Env) (m0 m1 : Model) (rest : List Model) (a : Args) (hc : isCahvore m0.lens = true) (hE : 0 < sizeE2 m0) (hE' : sizeE2 m0 < 1e-12) (hg : ∀ grid, sampleImager a.gw a.gh m0.W m0.H = some grid → grid.flatten ≠ []) :
    projectionDiff env (m0 :: m1 :: rest) a = none := by
  cases h : projectionDiff env (m0 :: m1 :: rest) a with
  | none => rfl
  | some r =>
    exfalso
    obtain ⟨hi, hsz, c0, cs, grid, v0, vs, Ts, e0, e1, e2, e3, -⟩ := steps env m0 m1 rest a r h
    have : centralize a.distance.atinfinity a.useUncertainties m0 = some m0 := by
      unfold centralize
      rw [if_neg fun hn => hn.2 hE']
    rw [this] at e0
    cases e0
    obtain ⟨q, l, hq⟩ := List.exists_cons_of_ne_nil (hg grid e2)
    rw [hq] at e3
    obtain ⟨v, -, hv⟩ := (unprojectAll_get _ _ _ _ _ e3).2 0 q rfl
    have hu : UnprojectPy.unproject m0.lens m0.intr env.solve env.prev true q = none := by
      cases hL : m0.lens with
      | cahvore lin =>
        have hany : ((List.range 3).any fun i => decide (m0.intr ((Lens.cahvore lin).numParams - 3 + (i : Int)) ≠ 0)) = true := by
          by_contra hn
          have hall : ∀ i < 3, m0.intr ((Lens.cahvore lin).numParams - 3 + ((i : Nat) : Int)) = 0 := by
            intro i hi
            by_contra h0
            exact hn (List.any_eq_true.mpr ⟨i, List.mem_range.mpr hi, by simpa using h0⟩)
          have a0 : m0.intr 9 = 0 := hall 0 (by norm_num)
          have a1 : m0.intr 10 = 0 := hall 1 (by norm_num)
          have a2 : m0.intr 11 = 0 := hall 2 (by norm_num)
          unfold sizeE2 at hE
          rw [a0, a1, a2] at hE
          norm_num at hE
        unfold UnprojectPy.unproject
        simp only [UnprojectPy.direct]
        unfold UnprojectPy.npspUnproject mrcalUnproject
        rw [(asserts_iff (Lens.cahvore lin)).mpr trivial]
        simp only [Bool.false_eq_true, if_false, unprojectInternal]
        rw [if_pos hany]
        rfl
      | _ => rw [hL] at hc; exact absurd hc (by simp [isCahvore])
    rw [hu] at hv
    exact absurd hv (by simp)

end Mrcal.ModelDiff
