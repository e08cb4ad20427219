import Verif.Props.StereoRectProps
import Mathlib.Analysis.SpecialFunctions.Trigonometric.Arctan
import Mathlib.Analysis.SpecialFunctions.Trigonometric.Bounds
/-
C65, C66, C67: the resolution, the field of view and the size of the rectified images
-/
namespace Mrcal.Stereo
open Mrcal.Cam Mrcal.Pose

/-! ### rounding -/

theorem cround_spec (x : ℝ) : |x - (cround x : ℝ)| ≤ 1 / 2 := by
  unfold cround
  by_cases h : 0 ≤ x
  · rw [if_pos h]
    have h1 := Int.floor_le (x + 1 / 2)
    have h2 := Int.lt_floor_add_one (x + 1 / 2)
    rw [abs_le]; constructor <;> linarith
  · rw [if_neg h]
    have h1 := Int.floor_le (-x + 1 / 2)
    have h2 := Int.lt_floor_add_one (-x + 1 / 2)
    push_cast
    rw [abs_le]; constructor <;> linarith

theorem cround_nonneg (x : ℝ) (h : 0 ≤ x) : 0 ≤ cround x := by
  unfold cround
  rw [if_pos h]
  exact Int.floor_nonneg.mpr (by linarith)

theorem cround_int (n : Int) : cround (n : ℝ) = n := by
  have := cround_spec (n : ℝ)
  have h2 : |((n - cround (n : ℝ) : Int) : ℝ)| < 1 := by push_cast; linarith
  rw [← Int.cast_abs] at h2
  have h3 : |n - cround (n : ℝ)| < 1 := by exact_mod_cast h2
  have := Int.abs_lt_one_iff.mp h3
  omega

/-! ### the azimuth of the center -/

/-- **C65**: the rectified view never comes closer than the margin (with a 0.001deg tolerance) to the baseline. If the center was given, it's used exactly; otherwise
this fails. If the center is selected automatically and the mean view direction fits, it is used; this fails only if the field of view can't fit at all -/
theorem az_center (auto : Bool) (az0_deg fov margin : ℝ) (f : P3) (proj : ℝ) :
    (∀ d r, azCenter auto az0_deg fov margin f proj = some (d, r) →
      -90 + margin - 1e-3 < d - fov / 2 ∧ d + fov / 2 < 90 - margin + 1e-3 ∧ r = d * Real.pi / 180) ∧
    (auto = false → (azCenter auto az0_deg fov margin f proj = none ↔ ¬ (-90 + margin - 1e-3 < az0_deg - fov / 2 ∧ az0_deg + fov / 2 < 90 - margin + 1e-3)) ∧
      ∀ d r, azCenter auto az0_deg fov margin f proj = some (d, r) → d = az0_deg) ∧
    (auto = true → (azCenter auto az0_deg fov margin f proj = none → fov > 180 - 2 * margin) ∧
      (f ≠ ⟨0, 0, 0⟩ ∧ -90 + margin - 1e-3 < Real.arcsin (proj / mag3 f) * 180 / Real.pi - fov / 2 ∧ Real.arcsin (proj / mag3 f) * 180 / Real.pi + fov / 2 < 90 - margin + 1e-3 →
        azCenter auto az0_deg fov margin f proj = some (Real.arcsin (proj / mag3 f) * 180 / Real.pi, Real.arcsin (proj / mag3 f)))) := by
  have hpi := Real.pi_pos
  have npi := hpi.ne'
  have hn : f ≠ ⟨0, 0, 0⟩ → f.x * f.x + f.y * f.y + f.z * f.z ≠ 0 := by
    intro hf h0
    apply hf
    ext
    · show f.x = 0; nlinarith [mul_self_nonneg f.x, mul_self_nonneg f.y, mul_self_nonneg f.z]
    · show f.y = 0; nlinarith [mul_self_nonneg f.x, mul_self_nonneg f.y, mul_self_nonneg f.z]
    · show f.z = 0; nlinarith [mul_self_nonneg f.x, mul_self_nonneg f.y, mul_self_nonneg f.z]
  have hm : Real.sqrt (f.x * f.x + f.y * f.y + f.z * f.z) = mag3 f := rfl
  cases auto with
  | false =>
    unfold azCenter
    simp only [Bool.false_eq_true, if_false]
    by_cases h : az0_deg - fov / 2 > -90 + (margin - 1e-3) ∧ az0_deg + fov / 2 < 90 - (margin - 1e-3)
    · rw [if_neg (not_not.mpr h)]
      have h' : -90 + margin - 1e-3 < az0_deg - fov / 2 ∧ az0_deg + fov / 2 < 90 - margin + 1e-3 := ⟨by linarith [h.1], by linarith [h.2]⟩
      refine ⟨fun d r hd => ?_, fun _ => ⟨by simp only [reduceCtorEq, false_iff, not_not]; exact h', fun d r hd => ?_⟩, by simp⟩
      · have e := Prod.mk.inj (Option.some.inj hd)
        rw [← e.1, ← e.2]
        exact ⟨h'.1, h'.2, rfl⟩
      · exact (Prod.mk.inj (Option.some.inj hd)).1.symm
    · rw [if_pos h]
      refine ⟨(by simp), fun _ => ⟨?_, by simp⟩, by simp⟩
      simp only [true_iff]
      rintro ⟨a, c⟩
      exact h ⟨by linarith, by linarith⟩
  | true =>
    unfold azCenter
    simp only [if_true, hm]
    set deg := Real.arcsin (proj / mag3 f) * 180 / Real.pi with hdeg
    by_cases h : (f.x * f.x + f.y * f.y + f.z * f.z ≠ 0 ∧ deg - fov / 2 > -90 + (margin - 1e-3)) ∧
        f.x * f.x + f.y * f.y + f.z * f.z ≠ 0 ∧ deg + fov / 2 < 90 - (margin - 1e-3)
    · rw [if_neg (not_not.mpr h)]
      refine ⟨fun d r hd => ?_, by simp, fun _ => ⟨by simp, fun _ => rfl⟩⟩
      have e := Prod.mk.inj (Option.some.inj hd)
      rw [← e.1, ← e.2]
      refine ⟨by linarith [h.1.2], by linarith [h.2.2], ?_⟩
      rw [hdeg]; field_simp
    · rw [if_pos h]
      have hbad : ¬ (f ≠ ⟨0, 0, 0⟩ ∧ -90 + margin - 1e-3 < deg - fov / 2 ∧ deg + fov / 2 < 90 - margin + 1e-3) := by
        rintro ⟨hf, a, c⟩
        exact h ⟨⟨hn hf, by linarith⟩, hn hf, by linarith⟩
      by_cases hw : fov > 180 - 2 * margin
      · rw [if_pos hw]
        exact ⟨by simp, by simp, fun _ => ⟨fun _ => hw, fun hc => absurd hc hbad⟩⟩
      · rw [if_neg hw]
        by_cases hl : f.x * f.x + f.y * f.y + f.z * f.z ≠ 0 ∧ deg - fov / 2 > -90 + (margin - 1e-3)
        · rw [if_neg (not_not.mpr hl)]
          refine ⟨fun d r hd => ?_, by simp, fun _ => ⟨by simp, fun hc => absurd hc hbad⟩⟩
          have e := Prod.mk.inj (Option.some.inj hd)
          rw [← e.1, ← e.2]
          refine ⟨by linarith [not_lt.mp hw], by linarith, by ring⟩
        · rw [if_pos hl]
          refine ⟨fun d r hd => ?_, by simp, fun _ => ⟨by simp, fun hc => absurd hc hbad⟩⟩
          have e := Prod.mk.inj (Option.some.inj hd)
          rw [← e.1, ← e.2]
          refine ⟨by linarith, by linarith [not_lt.mp hw], by ring⟩

/-- a request for the center, and a mean view direction (straight ahead) that is selected automatically -/
example : azCenter false 5 90 10 ⟨0, 0, 2⟩ 0 = some (5, 5 * Real.pi / 180) ∧ azCenter true 77 90 10 ⟨0, 0, 2⟩ 0 = some (0, 0) := by
  constructor
  · unfold azCenter
    simp only [Bool.false_eq_true, if_false]
    rw [if_neg]
    norm_num
  · have h := ((az_center true 77 90 10 ⟨0, 0, 2⟩ 0).2.2 rfl).2 ⟨by simp, by norm_num, by norm_num⟩
    rw [h]; simp

/-! ### the resolution -/

theorem ppdScaled_nonneg (ppd : ℝ) (dq : P2) : 0 ≤ ppdScaled ppd dq := by
  unfold ppdScaled
  by_cases h : ppd < 0
  · rw [if_pos h]
    have : 0 ≤ Real.sqrt (dq.x * dq.x + dq.y * dq.y) * Real.pi / 180 := by positivity
    nlinarith
  · rw [if_neg h]; exact not_lt.mp h

/-- **Specification**: the view direction at an azimuth, elevation in a rectified image of each type -/
noncomputable def viewRay (m : RectType) (az el : ℝ) : P3 :=
  match m with
  | .latlon => ⟨Real.sin az, Real.cos az * Real.sin el, Real.cos az * Real.cos el⟩
  | .lonlat => ⟨Real.cos el * Real.sin az, Real.sin el, Real.cos el * Real.cos az⟩
  | _ => ⟨Real.tan az, Real.tan el, 1⟩

/-- the ray and its gradients at the center of the view -/
theorem centerRay_grad (m : RectType) (hm : m ≠ .other) (a : P2) (hp : m = .pinhole → Real.cos a.x ≠ 0 ∧ Real.cos a.y ≠ 0) :
    ∃ da de, centerRay m a = some (viewRay m a.x a.y, da, de) ∧
      (HasDerivAt (fun s => (viewRay m s a.y).x) da.x a.x ∧ HasDerivAt (fun s => (viewRay m s a.y).y) da.y a.x ∧ HasDerivAt (fun s => (viewRay m s a.y).z) da.z a.x) ∧
      (HasDerivAt (fun s => (viewRay m a.x s).x) de.x a.y ∧ HasDerivAt (fun s => (viewRay m a.x s).y) de.y a.y ∧ HasDerivAt (fun s => (viewRay m a.x s).z) de.z a.y) := by
  have sx := Real.hasDerivAt_sin a.x
  have cx := Real.hasDerivAt_cos a.x
  have sy := Real.hasDerivAt_sin a.y
  have cy := Real.hasDerivAt_cos a.y
  cases m with
  | other => exact absurd rfl hm
  | latlon =>
    refine ⟨⟨Real.cos a.x, -Real.sin a.x * Real.sin a.y, -Real.sin a.x * Real.cos a.y⟩, ⟨0, Real.cos a.x * Real.cos a.y, -Real.cos a.x * Real.sin a.y⟩, ?_, ?_⟩
    · unfold centerRay unlatlon viewRay
      simp
    simp only [viewRay]
    refine ⟨⟨?_, ?_, ?_⟩, ?_, ?_, ?_⟩
    · exact sx.congr_deriv (by ring)
    · exact (cx.mul_const _).congr_deriv (by ring)
    · exact (cx.mul_const _).congr_deriv (by ring)
    · exact hasDerivAt_const _ _
    · exact (sy.const_mul _).congr_deriv (by ring)
    · exact (cy.const_mul _).congr_deriv (by ring)
  | lonlat =>
    refine ⟨⟨Real.cos a.y * Real.cos a.x, 0, -Real.cos a.y * Real.sin a.x⟩, ⟨-Real.sin a.y * Real.sin a.x, Real.cos a.y, -Real.sin a.y * Real.cos a.x⟩, ?_, ?_⟩
    · unfold centerRay unlonlat viewRay
      simp
    simp only [viewRay]
    refine ⟨⟨?_, ?_, ?_⟩, ?_, ?_, ?_⟩
    · exact (sx.const_mul _).congr_deriv (by ring)
    · exact hasDerivAt_const _ _
    · exact (cx.const_mul _).congr_deriv (by ring)
    · exact (cy.mul_const _).congr_deriv (by ring)
    · exact sy.congr_deriv (by ring)
    · exact (cy.mul_const _).congr_deriv (by ring)
  | pinhole =>
    obtain ⟨h1, h2⟩ := hp rfl
    have tx := Real.hasDerivAt_tan h1
    have ty := Real.hasDerivAt_tan h2
    refine ⟨⟨1 / (Real.cos a.x * Real.cos a.x), 0, 0⟩, ⟨0, 1 / (Real.cos a.y * Real.cos a.y), 0⟩, ?_, ?_⟩
    · unfold centerRay unpinhole viewRay
      simp
    simp only [viewRay]
    refine ⟨⟨?_, ?_, ?_⟩, ?_, ?_, ?_⟩
    · exact tx.congr_deriv (by rw [sq])
    · exact (hasDerivAt_const _ _).congr_deriv (by simp)
    · exact (hasDerivAt_const _ _).congr_deriv (by simp)
    · exact (hasDerivAt_const _ _).congr_deriv (by simp)
    · exact ty.congr_deriv (by rw [sq])
    · exact (hasDerivAt_const _ _).congr_deriv (by simp)

/-- the gradient of the pixel along a path in the rectified view -/
theorem dqDangle_deriv {P : P3 → Proj} {R : M3} {ray : ℝ → P3} {dv : P3} {t : ℝ} (hg : ProjGrad P (mulVec R (ray t)))
    (hx : HasDerivAt (fun s => (ray s).x) dv.x t) (hy : HasDerivAt (fun s => (ray s).y) dv.y t) (hz : HasDerivAt (fun s => (ray s).z) dv.z t) :
    HasDerivAt (fun s => (P (mulVec R (ray s))).q.x) (dqDangle (P (mulVec R (ray t))) R dv).x t ∧
    HasDerivAt (fun s => (P (mulVec R (ray s))).q.y) (dqDangle (P (mulVec R (ray t))) R dv).y t := by
  have k0 : HasDerivAt (fun s => (mulVec R (ray s)).x) (R.a00 * dv.x + R.a01 * dv.y + R.a02 * dv.z) t :=
    ((((hx.const_mul R.a00).add (hy.const_mul R.a01)).add (hz.const_mul R.a02)).const_mul 1).congr_deriv (one_mul _)
  have k1 : HasDerivAt (fun s => (mulVec R (ray s)).y) (R.a10 * dv.x + R.a11 * dv.y + R.a12 * dv.z) t :=
    ((((hx.const_mul R.a10).add (hy.const_mul R.a11)).add (hz.const_mul R.a12)).const_mul 1).congr_deriv (one_mul _)
  have k2 : HasDerivAt (fun s => (mulVec R (ray s)).z) (R.a20 * dv.x + R.a21 * dv.y + R.a22 * dv.z) t :=
    ((((hx.const_mul R.a20).add (hy.const_mul R.a21)).add (hz.const_mul R.a22)).const_mul 1).congr_deriv (one_mul _)
  exact ⟨hg.1 (fun s => mulVec R (ray s)) ⟨_, _, _⟩ t rfl k0 k1 k2, hg.2 (fun s => mulVec R (ray s)) ⟨_, _, _⟩ t rfl k0 k1 k2⟩

/-- the resolution of both directions, before and after it's adjusted to make the image size an integer -/
theorem resolution_form {ppd_az ppd_el : ℝ} {project : P3 → Option Proj} {fov azel0_deg : P2} {R : M3} {m : RectType} {a e : ℝ}
    (h : rectifiedResolution ppd_az ppd_el project fov azel0_deg R m = some (a, e)) :
    ∃ X Y, 0 ≤ X ∧ 0 ≤ Y ∧ a = ppdQuantised m fov.x X ∧ e = ppdQuantised m fov.y Y ∧ (0 ≤ ppd_az → X = ppd_az) ∧ (0 ≤ ppd_el → Y = ppd_el) := by
  unfold rectifiedResolution at h
  by_cases hc : ppd_az < 0 ∨ ppd_el < 0
  · rw [if_pos hc] at h
    split at h
    · cases h
    · split at h
      · cases h
      · have e := Prod.mk.inj (Option.some.inj h)
        refine ⟨_, _, ppdScaled_nonneg _ _, ppdScaled_nonneg _ _, e.1.symm, e.2.symm, fun h0 => ?_, fun h0 => ?_⟩
        · unfold ppdScaled; rw [if_neg (not_lt.mpr h0)]
        · unfold ppdScaled; rw [if_neg (not_lt.mpr h0)]
  · rw [if_neg hc] at h
    push Not at hc
    have e := Prod.mk.inj (Option.some.inj h)
    exact ⟨_, _, hc.1, hc.2, e.1.symm, e.2.symm, fun _ => rfl, fun _ => rfl⟩

/-- **C67**: a negative resolution asks for a multiple of the resolution of camera0 at the center of the view. That is the true rate of motion of the pixel observed by
camera0, in pixels per degree of azimuth and elevation of the rectified view. A positive resolution is used as is. The LATLON and LONLAT results are then rounded to have an integer-size image -/
theorem resolution_auto (ppd_az ppd_el : ℝ) (P : P3 → Proj) (fov azel0_deg : P2) (R : M3) (m : RectType) (hm : m ≠ .other)
    (hp : m = .pinhole → Real.cos (azel0_deg.x * Real.pi / 180) ≠ 0 ∧ Real.cos (azel0_deg.y * Real.pi / 180) ≠ 0)
    (hg : ProjGrad P (mulVec R (viewRay m (azel0_deg.x * Real.pi / 180) (azel0_deg.y * Real.pi / 180)))) :
    ∃ ax ay ex ey,
      HasDerivAt (fun s => (P (mulVec R (viewRay m (s * Real.pi / 180) (azel0_deg.y * Real.pi / 180)))).q.x) ax azel0_deg.x ∧
      HasDerivAt (fun s => (P (mulVec R (viewRay m (s * Real.pi / 180) (azel0_deg.y * Real.pi / 180)))).q.y) ay azel0_deg.x ∧
      HasDerivAt (fun s => (P (mulVec R (viewRay m (azel0_deg.x * Real.pi / 180) (s * Real.pi / 180)))).q.x) ex azel0_deg.y ∧
      HasDerivAt (fun s => (P (mulVec R (viewRay m (azel0_deg.x * Real.pi / 180) (s * Real.pi / 180)))).q.y) ey azel0_deg.y ∧
      rectifiedResolution ppd_az ppd_el (fun v => some (P v)) fov azel0_deg R m =
        some (ppdQuantised m fov.x (if ppd_az < 0 then |ppd_az| * Real.sqrt (ax ^ 2 + ay ^ 2) else ppd_az),
              ppdQuantised m fov.y (if ppd_el < 0 then |ppd_el| * Real.sqrt (ex ^ 2 + ey ^ 2) else ppd_el)) := by
  obtain ⟨da, de, hr, ⟨a1, a2, a3⟩, e1, e2, e3⟩ := centerRay_grad m hm ⟨azel0_deg.x * Real.pi / 180, azel0_deg.y * Real.pi / 180⟩ hp
  simp only [] at hr a1 a2 a3 e1 e2 e3
  obtain ⟨ga1, ga2⟩ := dqDangle_deriv (ray := fun s => viewRay m s (azel0_deg.y * Real.pi / 180)) hg a1 a2 a3
  obtain ⟨ge1, ge2⟩ := dqDangle_deriv (ray := fun s => viewRay m (azel0_deg.x * Real.pi / 180) s) hg e1 e2 e3
  have inner : ∀ d : ℝ, HasDerivAt (fun s : ℝ => s * Real.pi / 180) (Real.pi / 180) d := by
    intro d
    exact (((hasDerivAt_id d).mul_const Real.pi).div_const 180).congr_deriv (by simp)
  have c1 := HasDerivAt.comp azel0_deg.x (h := fun s : ℝ => s * Real.pi / 180) ga1 (inner azel0_deg.x)
  have c2 := HasDerivAt.comp azel0_deg.x (h := fun s : ℝ => s * Real.pi / 180) ga2 (inner azel0_deg.x)
  have c3 := HasDerivAt.comp azel0_deg.y (h := fun s : ℝ => s * Real.pi / 180) ge1 (inner azel0_deg.y)
  have c4 := HasDerivAt.comp azel0_deg.y (h := fun s : ℝ => s * Real.pi / 180) ge2 (inner azel0_deg.y)
  refine ⟨_, _, _, _, c1, c2, c3, c4, ?_⟩
  have hscale : ∀ (ppd : ℝ) (dq : P2), ppdScaled ppd dq =
      if ppd < 0 then |ppd| * Real.sqrt ((dq.x * (Real.pi / 180)) ^ 2 + (dq.y * (Real.pi / 180)) ^ 2) else ppd := by
    intro ppd dq
    unfold ppdScaled
    by_cases h : ppd < 0
    · rw [if_pos h, if_pos h, abs_of_neg h]
      have : (dq.x * (Real.pi / 180)) ^ 2 + (dq.y * (Real.pi / 180)) ^ 2 = (dq.x * dq.x + dq.y * dq.y) * (Real.pi / 180) ^ 2 := by ring
      rw [this, Real.sqrt_mul (by nlinarith [mul_self_nonneg dq.x, mul_self_nonneg dq.y]), Real.sqrt_sq (by positivity)]
      ring
    · rw [if_neg h, if_neg h]
  unfold rectifiedResolution
  by_cases hc : ppd_az < 0 ∨ ppd_el < 0
  · rw [if_pos hc, hr]
    simp only [← hscale]
    rfl
  · rw [if_neg hc]
    push Not at hc
    rw [if_neg (not_lt.mpr hc.1), if_neg (not_lt.mpr hc.2)]

/-- a pinhole camera and a latlon view straight ahead -/
example : ProjGrad (pinhole ⟨1000, 1000, 500, 500⟩) (mulVec identityR (viewRay .latlon (0 * Real.pi / 180) (0 * Real.pi / 180))) := by
  apply pinhole_grad
  simp [mulVec, identityR, viewRay]

/-! ### the pinhole images: cx, cy -/

theorem mem_filterSwap {α : Type} (good : α → Bool) : ∀ (n : Nat) (kept rest : List α), rest.length ≤ n →
    ∀ x, x ∈ filterSwap good n kept rest ↔ x ∈ kept ∨ (x ∈ rest ∧ good x = true) := by
  intro n
  induction n with
  | zero =>
    intro kept rest h x
    have : rest = [] := List.length_eq_zero_iff.mp (by omega)
    subst this
    simp [filterSwap]
  | succ n ih =>
    intro kept rest h x
    cases rest with
    | nil => simp [filterSwap]
    | cons c cs =>
      rw [filterSwap]
      have hl : cs.length ≤ n := by simpa using h
      by_cases hg : good c = true
      · rw [if_pos hg, ih _ _ hl]
        simp only [List.mem_append, List.mem_cons, List.not_mem_nil, or_false]
        constructor
        · rintro ((h | h) | h)
          · exact Or.inl h
          · exact Or.inr ⟨Or.inl h, h ▸ hg⟩
          · exact Or.inr ⟨Or.inr h.1, h.2⟩
        · rintro (h | ⟨h | h, h2⟩)
          · exact Or.inl (Or.inl h)
          · exact Or.inl (Or.inr h)
          · exact Or.inr ⟨h, h2⟩
      · rw [if_neg hg]
        rcases List.eq_nil_or_concat cs with rfl | ⟨ys, y, rfl⟩
        · simp only [List.getLast?_nil]
          constructor
          · exact Or.inl
          · rintro (h | ⟨h, h2⟩)
            · exact h
            · rw [List.mem_singleton] at h; rw [h] at h2; exact absurd h2 hg
        · simp only [List.concat_eq_append, List.getLast?_append, List.getLast?_singleton, Option.some_or, List.dropLast_concat]
          rw [ih _ _ (by simp only [List.concat_eq_append, List.length_append, List.length_cons, List.length_nil] at hl ⊢; omega)]
          simp only [List.mem_cons, List.mem_append, List.not_mem_nil, or_false]
          constructor
          · rintro (h | ⟨h | h, h2⟩)
            · exact Or.inl h
            · exact Or.inr ⟨Or.inr (Or.inr h), h2⟩
            · exact Or.inr ⟨Or.inr (Or.inl h), h2⟩
          · rintro (h | ⟨h | h | h, h2⟩)
            · exact Or.inl h
            · rw [h] at h2; exact absurd h2 hg
            · exact Or.inr ⟨Or.inr h, h2⟩
            · exact Or.inr ⟨Or.inl h, h2⟩

theorem pickMax_spec (val : ℝ → ℝ) : ∀ (l : List ℝ) (best : Option ℝ),
    (pickMax val l best = none ↔ l = [] ∧ best = none) ∧
    ∀ b, pickMax val l best = some b → (b ∈ l ∨ best = some b) ∧ (∀ c ∈ l, val c ≤ val b) ∧ ∀ c, best = some c → val c ≤ val b := by
  intro l
  induction l with
  | nil =>
    intro best
    refine ⟨by simp [pickMax], fun b h => ?_⟩
    simp only [pickMax] at h
    exact ⟨Or.inr h, by simp, fun c hc => by rw [h] at hc; rw [Option.some.inj hc]⟩
  | cons c cs ih =>
    intro best
    cases best with
    | none =>
      simp only [pickMax]
      refine ⟨by simp [(ih (some c)).1], fun b h => ?_⟩
      obtain ⟨h1, h2, h3⟩ := (ih (some c)).2 b h
      refine ⟨Or.inl ?_, ?_, by simp⟩
      · rcases h1 with h1 | h1
        · exact List.mem_cons_of_mem _ h1
        · rw [Option.some.inj h1]; exact List.mem_cons_self ..
      · intro d hd
        rcases List.mem_cons.mp hd with rfl | hd
        · exact h3 _ rfl
        · exact h2 d hd
    | some b0 =>
      simp only [pickMax]
      by_cases hv : val c > val b0
      · rw [if_pos hv]
        refine ⟨by simp [(ih (some c)).1], fun b h => ?_⟩
        obtain ⟨h1, h2, h3⟩ := (ih (some c)).2 b h
        refine ⟨Or.inl ?_, ?_, ?_⟩
        · rcases h1 with h1 | h1
          · exact List.mem_cons_of_mem _ h1
          · rw [Option.some.inj h1]; exact List.mem_cons_self ..
        · intro d hd
          rcases List.mem_cons.mp hd with rfl | hd
          · exact h3 _ rfl
          · exact h2 d hd
        · intro d hd
          rw [← Option.some.inj hd]
          exact hv.le.trans (h3 c rfl)
      · rw [if_neg hv]
        refine ⟨by simp [(ih (some b0)).1], fun b h => ?_⟩
        obtain ⟨h1, h2, h3⟩ := (ih (some b0)).2 b h
        refine ⟨?_, ?_, fun d hd => h3 d hd⟩
        · rcases h1 with h1 | h1
          · exact Or.inl (List.mem_cons_of_mem _ h1)
          · exact Or.inr h1
        · intro d hd
          rcases List.mem_cons.mp hd with rfl | hd
          · exact (not_lt.mp hv).trans (h3 b0 rfl)
          · exact h2 d hd

/-- **Specification**: the angle between the rays of two points of a pinhole image, symmetric about the point at `tan(az0) = t`, at a distance `w` on each side (w is in units of the focal length) -/
noncomputable def pinholeFov (t w : ℝ) : ℝ := Real.arctan (t + w) - Real.arctan (t - w)

theorem cos_pinholeFov (t w : ℝ) :
    Real.cos (pinholeFov t w) = (1 + (t - w) * (t + w)) / (Real.sqrt (1 + (t - w) ^ 2) * Real.sqrt (1 + (t + w) ^ 2)) := by
  unfold pinholeFov
  have h1 : Real.sqrt (1 + (t - w) ^ 2) ≠ 0 := (Real.sqrt_pos.mpr (by positivity)).ne'
  have h2 : Real.sqrt (1 + (t + w) ^ 2) ≠ 0 := (Real.sqrt_pos.mpr (by positivity)).ne'
  rw [Real.cos_sub, Real.cos_arctan, Real.cos_arctan, Real.sin_arctan, Real.sin_arctan]
  field_simp

theorem quartic_eq (t fov C : ℝ) (hs : Real.sin (fov * Real.pi / 180) ≠ 0) :
    cxyQuartic t fov C = 0 ↔ Real.cos (fov * Real.pi / 180) ^ 2 * ((1 + C ^ 2) * (1 + (2 * t + C) ^ 2)) = (1 - 2 * t * C - C * C) ^ 2 := by
  have hsc := Real.sin_sq_add_cos_sq (fov * Real.pi / 180)
  unfold cxyQuartic
  simp only []
  set c := Real.cos (fov * Real.pi / 180)
  set s := Real.sin (fov * Real.pi / 180)
  have hd : c * c - 1 = -(s ^ 2) := by linear_combination hsc
  rw [hd]
  have hs2 : s ^ 2 ≠ 0 := pow_ne_zero _ hs
  have e : (C ^ 4 + 2 * (2 * t) * C ^ 3 + (2 * t * (2 * t) + 2 + 4 / -(s ^ 2)) * C ^ 2 + (2 * (2 * t) + 2 * t * 4 / -(s ^ 2)) * C
      + (2 * t * (2 * t) + 1 + 2 * t * (2 * t) / -(s ^ 2))) * -(s ^ 2)
      = c ^ 2 * ((1 + C ^ 2) * (1 + (2 * t + C) ^ 2)) - (1 - 2 * t * C - C * C) ^ 2 := by
    have : s ^ 2 = 1 - c ^ 2 := by linear_combination hsc
    field_simp
    rw [this]
    ring
  constructor
  · intro h
    rw [h, zero_mul] at e
    linarith
  · intro h
    rw [h, sub_self] at e
    exact (mul_eq_zero.mp e).resolve_right (neg_ne_zero.mpr hs2)

/-- a root with the right sign has the right field of view, or is its mirror image -/
theorem root_fov (t fov C : ℝ) (h0 : 0 < fov) (h1 : fov < 180) (hq : cxyQuartic t fov C = 0) (hv : 0 ≤ Real.cos (fov * Real.pi / 180) * (1 - 2 * t * C - C * C)) :
    (0 < t + C ∧ pinholeFov t (t + C) = fov * Real.pi / 180) ∨ (t + C < 0 ∧ pinholeFov t (-(t + C)) = fov * Real.pi / 180) := by
  have hpi := Real.pi_pos
  have a0 : 0 < fov * Real.pi / 180 := by positivity
  have a1 : fov * Real.pi / 180 < Real.pi := by nlinarith
  have hs := Real.sin_pos_of_pos_of_lt_pi a0 a1
  rw [quartic_eq t fov C hs.ne'] at hq
  set θ := fov * Real.pi / 180
  have key : ∀ w, w ^ 2 = (t + C) ^ 2 → 0 ≤ w → 0 < w ∧ pinholeFov t w = θ := by
    intro w hw wpos
    have e1 : 1 - 2 * t * C - C * C = 1 + (t - w) * (t + w) := by linear_combination hw
    have p1 : 0 < 1 + (t - w) ^ 2 := by positivity
    have p2 : 0 < 1 + (t + w) ^ 2 := by positivity
    have e2 : (1 + C ^ 2) * (1 + (2 * t + C) ^ 2) = (1 + (t - w) ^ 2) * (1 + (t + w) ^ 2) := by
      have : w ^ 4 = (t + C) ^ 4 := by rw [show w ^ 4 = (w ^ 2) ^ 2 by ring, hw]; ring
      linear_combination (2 * t ^ 2 - 2) * hw - this
    rw [e1, e2] at hq
    rw [e1] at hv
    have hc := cos_pinholeFov t w
    have s1 := Real.sqrt_pos.mpr p1
    have s2 := Real.sqrt_pos.mpr p2
    have hsq : Real.cos (pinholeFov t w) ^ 2 = Real.cos θ ^ 2 := by
      rw [hc, div_pow, mul_pow, Real.sq_sqrt p1.le, Real.sq_sqrt p2.le, ← hq]
      field_simp
    have hsign : 0 ≤ Real.cos θ * Real.cos (pinholeFov t w) := by
      rw [hc, ← mul_div_assoc]
      positivity
    have hcos : Real.cos (pinholeFov t w) = Real.cos θ := by
      rcases sq_eq_sq_iff_eq_or_eq_neg.mp hsq with h | h
      · exact h
      · rw [h] at hsign
        have : Real.cos θ = 0 := by nlinarith
        rw [h, this, neg_zero]
    have hle : 0 ≤ pinholeFov t w := by
      unfold pinholeFov
      have := Real.arctan_strictMono.monotone (show t - w ≤ t + w by linarith)
      linarith
    have hlt : pinholeFov t w ≤ Real.pi := by
      unfold pinholeFov
      linarith [Real.arctan_lt_pi_div_two (t + w), Real.neg_pi_div_two_lt_arctan (t - w)]
    have hf : pinholeFov t w = θ := Real.injOn_cos ⟨hle, hlt⟩ ⟨a0.le, a1.le⟩ hcos
    refine ⟨lt_of_le_of_ne wpos ?_, hf⟩
    rintro rfl
    unfold pinholeFov at hf
    rw [add_zero, sub_zero, sub_self] at hf
    linarith
  rcases le_total 0 (t + C) with h | h
  · exact Or.inl (key _ rfl h)
  · obtain ⟨k1, k2⟩ := key (-(t + C)) (by ring) (by linarith)
    exact Or.inr ⟨by linarith, k2⟩

/-- the solution always exists -/
theorem root_exists (t fov : ℝ) (h0 : 0 < fov) (h1 : fov < 180) :
    ∃ C, cxyQuartic t fov C = 0 ∧ 0 ≤ Real.cos (fov * Real.pi / 180) * (1 - 2 * t * C - C * C) ∧ 0 < t + C := by
  have hpi := Real.pi_pos
  have a0 : 0 < fov * Real.pi / 180 := by positivity
  have a1 : fov * Real.pi / 180 < Real.pi := by nlinarith
  have hs := Real.sin_pos_of_pos_of_lt_pi a0 a1
  have hsc := Real.sin_sq_add_cos_sq (fov * Real.pi / 180)
  simp only [quartic_eq t fov _ hs.ne']
  set c := Real.cos (fov * Real.pi / 180)
  set s := Real.sin (fov * Real.pi / 180)
  have hr : 0 ≤ c ^ 2 + s ^ 2 * (1 + t ^ 2) := by positivity
  set r := Real.sqrt (c ^ 2 + s ^ 2 * (1 + t ^ 2)) with hr'
  have hrr : r ^ 2 = c ^ 2 + s ^ 2 * (1 + t ^ 2) := Real.sq_sqrt hr
  have hgt : |c| < r := by
    rw [hr', ← Real.sqrt_sq_eq_abs]
    exact Real.sqrt_lt_sqrt (sq_nonneg _) (by nlinarith [mul_pos (pow_pos hs 2) (show 0 < 1 + t ^ 2 by positivity)])
  have hw : 0 < (-c + r) / s := div_pos (by linarith [le_abs_self c]) hs
  set w := (-c + r) / s with hwd
  have hsw : s * w = -c + r := by rw [hwd]; field_simp
  have heq : s * (1 + t ^ 2 - w ^ 2) = 2 * w * c := by
    have h2 : s * (s * (1 + t ^ 2 - w ^ 2)) = s * (2 * w * c) := by
      have : (s * w) ^ 2 = (-c + r) ^ 2 := by rw [hsw]
      linear_combination -this - hrr - 2 * c * hsw
    exact mul_left_cancel₀ hs.ne' h2
  refine ⟨w - t, ?_, ?_, by linarith⟩
  · have e1 : 1 - 2 * t * (w - t) - (w - t) * (w - t) = 1 + t ^ 2 - w ^ 2 := by ring
    have e2 : (1 + (w - t) ^ 2) * (1 + (2 * t + (w - t)) ^ 2) = (1 + t ^ 2 - w ^ 2) ^ 2 + (2 * w) ^ 2 := by ring
    rw [e1, e2]
    have : s ^ 2 * (1 + t ^ 2 - w ^ 2) ^ 2 = (2 * w * c) ^ 2 := by rw [← heq]; ring
    have h3 : s ^ 2 = 1 - c ^ 2 := by linear_combination hsc
    rw [h3] at this
    linear_combination -this
  · have e1 : 1 - 2 * t * (w - t) - (w - t) * (w - t) = 1 + t ^ 2 - w ^ 2 := by ring
    rw [e1]
    have : s * (c * (1 + t ^ 2 - w ^ 2)) = 2 * w * c ^ 2 := by linear_combination c * heq
    have h3 : 0 ≤ s * (c * (1 + t ^ 2 - w ^ 2)) := by rw [this]; positivity
    exact nonneg_of_mul_nonneg_right h3 hs

/-- **C66**: the principal point of a pinhole rectified image. If all the real roots of the polynomial are found, and the requested view is at least 2 pixels wide, then this succeeds, and
the view has exactly the requested field of view, centered (in pixels) on the requested direction: `cxy = (w - t)*fxy` puts tan(az0) at pixel w*fxy, and the image is 2*w*fxy wide -/
theorem pinhole_cxy (roots : List ℝ) (fxy t fov : ℝ) (hf : 0 < fxy) (h0 : 0 < fov) (h1 : fov < 180) (hroots : ∀ C, C ∈ roots ↔ cxyQuartic t fov C = 0)
    (hwide : ∀ w, 0 < w → pinholeFov t w = fov * Real.pi / 180 → 1 ≤ 2 * (w * fxy)) :
    ∃ w, 0 < w ∧ pinholeFov t w = fov * Real.pi / 180 ∧ pinholeCxy roots fxy t fov = some ((w - t) * fxy) := by
  classical
  obtain ⟨C0, q0, v0, w0⟩ := root_exists t fov h0 h1
  unfold pinholeCxy
  simp only []
  set val := fun c => Real.cos (fov * Real.pi / 180) * (1 - 2 * t * c - c * c) with hval
  set r1 := filterSwap (fun c => decide (val c ≥ -1e-9)) roots.length [] roots with hr1
  set r2 := filterSwap (fun c => decide ((t * fxy + c * fxy) * 2 + 1 > 0)) r1.length [] r1 with hr2
  have m2 : ∀ x, x ∈ r2 ↔ (cxyQuartic t fov x = 0 ∧ val x ≥ -1e-9) ∧ (t * fxy + x * fxy) * 2 + 1 > 0 := by
    intro x
    rw [hr2, mem_filterSwap _ _ _ _ le_rfl, hr1, mem_filterSwap _ _ _ _ le_rfl, hroots]
    simp
  have hC0 : C0 ∈ r2 := by
    rw [m2]
    refine ⟨⟨q0, ?_⟩, ?_⟩
    · have : (0 : ℝ) ≤ val C0 := v0
      have h9 : (-1e-9 : ℝ) ≤ 0 := by norm_num
      linarith
    · have := mul_pos w0 hf
      nlinarith
  cases hp : pickMax val r2 none with
  | none =>
    have := (pickMax_spec val r2 none).1.mp hp
    rw [this.1] at hC0
    cases hC0
  | some C =>
    obtain ⟨hm, hmax, -⟩ := (pickMax_spec val r2 none).2 C hp
    have hm' := (m2 C).mp (hm.resolve_right (by simp))
    have hv : 0 ≤ val C := le_trans v0 (hmax C0 hC0)
    rcases root_fov t fov C h0 h1 hm'.1.1 hv with ⟨g1, g2⟩ | ⟨g1, g2⟩
    · exact ⟨t + C, g1, g2, by simp⟩
    · exfalso
      have := hwide (-(t + C)) (by linarith) g2
      nlinarith [hm'.2]

/-- a 90deg view straight ahead at 100 pixels/focal length -/
example : ∀ w, 0 < w → pinholeFov 0 w = 90 * Real.pi / 180 → 1 ≤ 2 * (w * 100) := by
  intro w hw h
  unfold pinholeFov at h
  rw [zero_add, zero_sub, Real.arctan_neg] at h
  have : Real.arctan w = Real.pi / 4 := by linarith
  have h2 := Real.tan_arctan w
  rw [this, Real.tan_pi_div_four] at h2
  linarith

/-- PINHOLE: the field of view is used only through its cosine. So a request beyond 180deg (the elevation isn't checked) isn't rejected: it produces the view of 360deg-fov -/
theorem pinhole_fov_wrong (roots : List ℝ) (fxy t fov : ℝ) :
    pinholeCxy roots fxy t (360 - fov) = pinholeCxy roots fxy t fov ∧ ∀ C, cxyQuartic t (360 - fov) C = cxyQuartic t fov C := by
  have e : Real.cos ((360 - fov) * Real.pi / 180) = Real.cos (fov * Real.pi / 180) := by
    rw [show (360 - fov) * Real.pi / 180 = 2 * Real.pi - fov * Real.pi / 180 by ring, Real.cos_two_pi_sub]
  unfold pinholeCxy cxyQuartic
  rw [e]
  exact ⟨rfl, fun _ => rfl⟩

/-! ### the whole system: view, size -/

theorem toUnsigned_id (n : Int) (h0 : 0 ≤ n) (h1 : n < 4294967296) : toUnsigned n = n := Int.emod_eq_of_lt h0 h1

/-- **C65**: the rectified view keeps away from the baseline, and it is centered where requested -/
theorem rect_view {roots : ℝ → ℝ → List ℝ} {ppd_az ppd_el : ℝ} {fov azel0_deg : P2} {margin : ℝ} {L : Lens} {intr : Int → ℝ}
    {rt0 rt1 : RtV} {m : RectType} {a e af ef : Bool} {S : RectSystem}
    (h : rectifiedSystem2 roots ppd_az ppd_el fov azel0_deg margin L intr rt0 rt1 m a e af ef = some S) :
    -90 + margin - 1e-3 < S.azel0_deg.x - fov.x / 2 ∧ S.azel0_deg.x + fov.x / 2 < 90 - margin + 1e-3 ∧ S.azel0_deg.y = azel0_deg.y ∧
      (a = false → S.azel0_deg.x = azel0_deg.x) := by
  obtain ⟨-, -, -, -, -, -, -, A, az0_deg, az0, -, hz, -, -, -, -, hS, -⟩ := system_some h
  obtain ⟨z1, z2, -⟩ := az_center a azel0_deg.x fov.x margin A.forward01 A.proj
  rw [hS]
  obtain ⟨k1, k2, -⟩ := z1 _ _ hz
  exact ⟨k1, k2, rfl, fun ha => (z2 ha).2 _ _ hz⟩

/-- **C65**: mrcal_rectified_system() leaves at least 10 degrees (up to 1e-3 degrees) between the edges of the view and the baseline -/
theorem rect_view_default {roots : ℝ → ℝ → List ℝ} {ppd_az ppd_el : ℝ} {fov azel0_deg : P2} {L : Lens} {intr : Int → ℝ}
    {rt0 rt1 : RtV} {m : RectType} {a e af ef : Bool} {S : RectSystem}
    (h : rectifiedSystem roots ppd_az ppd_el fov azel0_deg L intr rt0 rt1 m a e af ef = some S) :
    -80 - 1e-3 < S.azel0_deg.x - fov.x / 2 ∧ S.azel0_deg.x + fov.x / 2 < 80 + 1e-3 := by
  obtain ⟨h1, h2, -⟩ := rect_view (margin := 10) h
  constructor <;> linarith

/-- **C65**: a CAHVORE camera that isn't central (the center of projection depends on the direction: any of the last three intrinsics isn't 0) can't be rectified -/
theorem rect_noncentral (roots : ℝ → ℝ → List ℝ) (ppd_az ppd_el : ℝ) (fov azel0_deg : P2) (margin : ℝ) (l : ℚ) (intr : Int → ℝ)
    (rt0 rt1 : RtV) (m : RectType) (a e af ef : Bool) (hE : intr 9 ≠ 0 ∨ intr 10 ≠ 0 ∨ intr 11 ≠ 0) :
    rectifiedSystem2 roots ppd_az ppd_el fov azel0_deg margin (.cahvore l) intr rt0 rt1 m a e af ef = none ∧
    rectifiedSystem roots ppd_az ppd_el fov azel0_deg (.cahvore l) intr rt0 rt1 m a e af ef = none := by
  have key : ∀ margin, rectifiedSystem2 roots ppd_az ppd_el fov azel0_deg margin (.cahvore l) intr rt0 rt1 m a e af ef = none := by
    intro margin
    cases hs : rectifiedSystem2 roots ppd_az ppd_el fov azel0_deg margin (.cahvore l) intr rt0 rt1 m a e af ef with
    | none => rfl
    | some S => exact absurd hE (system_some hs).2.2.1
  exact ⟨key margin, key 10⟩

/-- the resolution of a successful system -/
theorem system_ppd {roots : ℝ → ℝ → List ℝ} {ppd_az ppd_el : ℝ} {fov azel0_deg : P2} {margin : ℝ} {L : Lens} {intr : Int → ℝ}
    {rt0 rt1 : RtV} {m : RectType} {a e af ef : Bool} {S : RectSystem}
    (h : rectifiedSystem2 roots ppd_az ppd_el fov azel0_deg margin L intr rt0 rt1 m a e af ef = some S) :
    ∃ X Y, 0 ≤ X ∧ 0 ≤ Y ∧ S.ppd_az = ppdQuantised m fov.x X ∧ S.ppd_el = ppdQuantised m fov.y Y ∧ (0 ≤ ppd_az → X = ppd_az) ∧ (0 ≤ ppd_el → Y = ppd_el) := by
  obtain ⟨-, -, -, -, -, -, -, A, az0_deg, az0, -, -, hp, -⟩ := system_some h
  cases hA : A.R_rect0_cam0 with
  | some R => rw [hA] at hp; exact resolution_form hp
  | none =>
    rw [hA] at hp
    simp only [] at hp
    by_cases hc : ppd_az < 0 ∨ ppd_el < 0
    · rw [if_pos hc] at hp; cases hp
    · rw [if_neg hc] at hp
      push Not at hc
      have e := Prod.mk.inj (Option.some.inj hp)
      exact ⟨_, _, hc.1, hc.2, e.1.symm, e.2.symm, fun _ => rfl, fun _ => rfl⟩

/-- **C66**: a LATLON rectified image covers exactly the requested field of view, centered on the requested direction: going across the whole image from edge to edge
(u,v from -1/2 to 1/2) sweeps azimuth and elevation uniformly over the field of view. A given resolution is adjusted only to make the image size an integer -/
theorem rect_latlon {roots : ℝ → ℝ → List ℝ} {ppd_az ppd_el : ℝ} {fov azel0_deg : P2} {margin : ℝ} {L : Lens} {intr : Int → ℝ}
    {rt0 rt1 : RtV} {a e af ef : Bool} {S : RectSystem}
    (h : rectifiedSystem2 roots ppd_az ppd_el fov azel0_deg margin L intr rt0 rt1 .latlon a e af ef = some S) (hw0 : S.width ≠ 0)
    (hw : fov.x * S.ppd_az < 4294967296) (hh : fov.y * S.ppd_el < 4294967296) :
    (S.width : ℝ) = fov.x * S.ppd_az ∧ (S.height : ℝ) = fov.y * S.ppd_el ∧ 0 < S.width ∧ 0 < S.height ∧
    (0 < ppd_az → |fov.x * ppd_az - S.width| ≤ 1 / 2) ∧ (0 < ppd_el → |fov.y * ppd_el - S.height| ≤ 1 / 2) ∧
    ∀ u v, (unlatlon S.fxycxy ⟨((S.width : ℝ) - 1) / 2 + u * S.width, ((S.height : ℝ) - 1) / 2 + v * S.height⟩).v =
      viewRay .latlon ((S.azel0_deg.x + u * fov.x) * Real.pi / 180) ((S.azel0_deg.y + v * fov.y) * Real.pi / 180) := by
  obtain ⟨X, Y, X0, Y0, hX, hY, eX, eY⟩ := system_ppd h
  obtain ⟨-, -, -, -, -, fx0, fy0, A, az0_deg, az0, -, hz, -, hi, hpos, -, hS, -⟩ := system_some h
  have haz := ((az_center a azel0_deg.x fov.x margin A.forward01 A.proj).1 _ _ hz).2.2
  unfold ppdQuantised at hX hY
  rw [if_pos (Or.inl rfl)] at hX hY
  have wX : fov.x * S.ppd_az = (cround (fov.x * X) : ℝ) := by rw [hX]; field_simp
  have wY : fov.y * S.ppd_el = (cround (fov.y * Y) : ℝ) := by rw [hY]; field_simp
  have nX := cround_nonneg (fov.x * X) (by positivity)
  have nY := cround_nonneg (fov.y * Y) (by positivity)
  have lX : cround (fov.x * X) < 4294967296 := by rw [wX] at hw; exact_mod_cast hw
  have lY : cround (fov.y * Y) < 4294967296 := by rw [wY] at hh; exact_mod_cast hh
  unfold rectIntrinsics at hi
  simp only [if_true] at hi
  rw [wX, wY, cround_int, cround_int, toUnsigned_id _ nX lX, toUnsigned_id _ nY lY] at hi
  have e1 := Prod.mk.inj (Option.some.inj hi)
  have e2 := Prod.mk.inj e1.2
  have hk := e1.1
  have hW := e2.1
  have hH := e2.2
  rw [hW] at hk wX lX nX
  rw [hH] at hk wY lY nY
  have pW : 0 < S.width := lt_of_le_of_ne nX (Ne.symm hw0)
  rw [toUnsigned_id (S.width - 1) (by omega) (by omega), toUnsigned_id (S.height - 1) (by omega) (by omega)] at hk
  refine ⟨wX.symm, wY.symm, pW, hpos, fun hp => ?_, fun hp => ?_, fun u v => ?_⟩
  · have := cround_spec (fov.x * X)
    rw [hW, eX hp.le] at this
    exact this
  · have := cround_spec (fov.y * Y)
    rw [hH, eY hp.le] at this
    exact this
  · have hpi := Real.pi_pos.ne'
    have pa : S.ppd_az ≠ 0 := by
      rintro h0
      rw [h0, mul_zero] at wX
      have : (0 : Int) = S.width := by exact_mod_cast wX
      omega
    have pe : S.ppd_el ≠ 0 := by
      rintro h0
      rw [h0, mul_zero] at wY
      have : (0 : Int) = S.height := by exact_mod_cast wY
      omega
    have c1 : ((S.width : ℝ) - 1) / 2 + u * S.width - S.fxycxy.cx = S.fxycxy.fx * ((S.azel0_deg.x + u * fov.x) * Real.pi / 180) := by
      rw [← hk, hS, haz, ← wX]
      push_cast
      rw [← wX]
      field_simp
      ring
    have c2 : ((S.height : ℝ) - 1) / 2 + v * S.height - S.fxycxy.cy = S.fxycxy.fy * ((S.azel0_deg.y + v * fov.y) * Real.pi / 180) := by
      rw [← hk, hS, ← wY]
      push_cast
      rw [← wY]
      field_simp
      ring
    have nfx : S.fxycxy.fx ≠ 0 := by rw [← hk]; simp only []; positivity
    have nfy : S.fxycxy.fy ≠ 0 := by rw [← hk]; simp only []; positivity
    unfold unlatlon viewRay
    simp only [c1, c2]
    rw [show S.fxycxy.fx * ((S.azel0_deg.x + u * fov.x) * Real.pi / 180) * (1 / S.fxycxy.fx) = (S.azel0_deg.x + u * fov.x) * Real.pi / 180 by field_simp,
      show S.fxycxy.fy * ((S.azel0_deg.y + v * fov.y) * Real.pi / 180) * (1 / S.fxycxy.fy) = (S.azel0_deg.y + v * fov.y) * Real.pi / 180 by field_simp]

/-- one dimension of the size of a pinhole image -/
theorem pinhole_size (fxy t fov cxy : ℝ) (roots : List ℝ) (N : Int) (hf : 0 < fxy) (h0 : 0 < fov) (h1 : fov < 180)
    (hroots : ∀ C, C ∈ roots ↔ cxyQuartic t fov C = 0) (hwide : ∀ w, 0 < w → pinholeFov t w = fov * Real.pi / 180 → 1 ≤ 2 * (w * fxy) ∧ 2 * (w * fxy) < 4294967294)
    (hc : pinholeCxy roots fxy t fov = some cxy) (hN : N = toUnsigned (cround ((t * fxy + cxy) * 2) + 1)) :
    ∃ last, |(N : ℝ) - 1 - last| ≤ 1 / 2 ∧ 1 ≤ last ∧
      Real.arctan ((last - cxy) / fxy) - Real.arctan ((0 - cxy) / fxy) = fov * Real.pi / 180 ∧ (last / 2 - cxy) / fxy = t := by
  obtain ⟨w, w0, hw, hc'⟩ := pinhole_cxy roots fxy t fov hf h0 h1 hroots (fun w a b => (hwide w a b).1)
  obtain ⟨b1, b2⟩ := hwide w w0 hw
  have hcxy : cxy = (w - t) * fxy := by rw [hc] at hc'; exact Option.some.inj hc'
  have nf := hf.ne'
  have es : (t * fxy + cxy) * 2 = 2 * (w * fxy) := by rw [hcxy]; ring
  rw [es] at hN
  have sp := cround_spec (2 * (w * fxy))
  have nn := cround_nonneg (2 * (w * fxy)) (by positivity)
  have hlt : cround (2 * (w * fxy)) + 1 < 4294967296 := by
    have : (cround (2 * (w * fxy)) : ℝ) < 4294967295 := by
      rw [abs_le] at sp
      linarith [sp.1]
    have : cround (2 * (w * fxy)) < 4294967295 := by exact_mod_cast this
    omega
  rw [toUnsigned_id _ (by omega) hlt] at hN
  refine ⟨2 * (w * fxy), ?_, b1, ?_, ?_⟩
  · rw [hN]
    push_cast
    rw [abs_sub_comm] at sp
    rw [show (cround (2 * (w * fxy)) : ℝ) + 1 - 1 - 2 * (w * fxy) = (cround (2 * (w * fxy)) : ℝ) - 2 * (w * fxy) by ring]
    exact sp
  · rw [← hw, hcxy]
    unfold pinholeFov
    congr 2
    · field_simp; ring
    · field_simp; ring
  · rw [hcxy]; field_simp; ring

/-- **C66**: a PINHOLE rectified image covers the requested field of view (less than 180deg), to within half a pixel, centered on the requested direction: if `last` is the
unrounded coordinate of the last pixel, then the rays at pixels 0 and last are separated by the requested angle, and the ray at last/2 is the center. The resolution at the center is the requested one. This requires that
the root finder found all the real roots, and that the image is at least 2 pixels wide -/
theorem rect_pinhole {roots : ℝ → ℝ → List ℝ} {ppd_az ppd_el : ℝ} {fov azel0_deg : P2} {margin : ℝ} {L : Lens} {intr : Int → ℝ}
    {rt0 rt1 : RtV} {a e af ef : Bool} {S : RectSystem}
    (h : rectifiedSystem2 roots ppd_az ppd_el fov azel0_deg margin L intr rt0 rt1 .pinhole a e af ef = some S) (hf : fov.x < 180 ∧ fov.y < 180)
    (hcos : Real.cos (S.azel0_deg.x * Real.pi / 180) ≠ 0 ∧ Real.cos (S.azel0_deg.y * Real.pi / 180) ≠ 0) (hppd : 0 < S.ppd_az ∧ 0 < S.ppd_el)
    (hroots : ∀ t f C, C ∈ roots t f ↔ cxyQuartic t f C = 0)
    (hwx : ∀ w, 0 < w → pinholeFov (Real.tan (S.azel0_deg.x * Real.pi / 180)) w = fov.x * Real.pi / 180 → 1 ≤ 2 * (w * S.fxycxy.fx) ∧ 2 * (w * S.fxycxy.fx) < 4294967294)
    (hwy : ∀ w, 0 < w → pinholeFov (Real.tan (S.azel0_deg.y * Real.pi / 180)) w = fov.y * Real.pi / 180 → 1 ≤ 2 * (w * S.fxycxy.fy) ∧ 2 * (w * S.fxycxy.fy) < 4294967294) :
    (∃ last, |(S.width : ℝ) - 1 - last| ≤ 1 / 2 ∧ ∀ y,
      Real.arctan (unpinhole S.fxycxy ⟨last, y⟩).v.x - Real.arctan (unpinhole S.fxycxy ⟨0, y⟩).v.x = fov.x * Real.pi / 180 ∧
      (unpinhole S.fxycxy ⟨last / 2, y⟩).v.x = Real.tan (S.azel0_deg.x * Real.pi / 180)) ∧
    (∃ last, |(S.height : ℝ) - 1 - last| ≤ 1 / 2 ∧ ∀ x,
      Real.arctan (unpinhole S.fxycxy ⟨x, last⟩).v.y - Real.arctan (unpinhole S.fxycxy ⟨x, 0⟩).v.y = fov.y * Real.pi / 180 ∧
      (unpinhole S.fxycxy ⟨x, last / 2⟩).v.y = Real.tan (S.azel0_deg.y * Real.pi / 180)) ∧
    HasDerivAt (fun s => (pinhole S.fxycxy (viewRay .pinhole (s * Real.pi / 180) (S.azel0_deg.y * Real.pi / 180))).q.x) S.ppd_az S.azel0_deg.x ∧
    HasDerivAt (fun s => (pinhole S.fxycxy (viewRay .pinhole (S.azel0_deg.x * Real.pi / 180) (s * Real.pi / 180))).q.y) S.ppd_el S.azel0_deg.y := by
  obtain ⟨-, -, -, -, -, fx0, fy0, A, az0_deg, az0, -, hz, -, hi, hpos, -, hS, -⟩ := system_some h
  have haz := ((az_center a azel0_deg.x fov.x margin A.forward01 A.proj).1 _ _ hz).2.2
  rw [haz] at hi
  have sx : S.azel0_deg.x = az0_deg := by rw [hS]
  have sy : S.azel0_deg.y = azel0_deg.y := by rw [hS]
  rw [← sx, ← sy] at hi
  set ax := S.azel0_deg.x * Real.pi / 180 with hax
  set ay := S.azel0_deg.y * Real.pi / 180 with hay
  have hpi := Real.pi_pos
  unfold rectIntrinsics at hi
  rw [if_neg (by decide)] at hi
  simp only [] at hi
  split at hi
  · cases hi
  rename_i cx hcx
  split at hi
  · cases hi
  rename_i cy hcy
  have e1 := Prod.mk.inj (Option.some.inj hi)
  have e2 := Prod.mk.inj e1.2
  have kfx : S.fxycxy.fx = S.ppd_az / Real.pi * 180 * (Real.cos ax * Real.cos ax) := by rw [← e1.1]
  have kfy : S.fxycxy.fy = S.ppd_el / Real.pi * 180 * (Real.cos ay * Real.cos ay) := by rw [← e1.1]
  have kcx : S.fxycxy.cx = cx := by rw [← e1.1]
  have kcy : S.fxycxy.cy = cy := by rw [← e1.1]
  have pcx := mul_self_pos.mpr hcos.1
  have pcy := mul_self_pos.mpr hcos.2
  have pfx : 0 < S.fxycxy.fx := by rw [kfx]; have := hppd.1; positivity
  have pfy : 0 < S.fxycxy.fy := by rw [kfy]; have := hppd.2; positivity
  have hW := e2.1.symm
  have hH := e2.2.symm
  rw [← kfx] at hcx hW
  rw [← kfy] at hcy hH
  obtain ⟨lx, lx1, -, lx2, lx3⟩ := pinhole_size S.fxycxy.fx (Real.tan ax) fov.x cx _ S.width pfx fx0 hf.1 (hroots _ _) hwx hcx hW
  obtain ⟨ly, ly1, -, ly2, ly3⟩ := pinhole_size S.fxycxy.fy (Real.tan ay) fov.y cy _ S.height pfy fy0 hf.2 (hroots _ _) hwy hcy hH
  rw [← kcx] at lx2 lx3
  rw [← kcy] at ly2 ly3
  have inner : ∀ d : ℝ, HasDerivAt (fun s : ℝ => s * Real.pi / 180) (Real.pi / 180) d := by
    intro d
    exact (((hasDerivAt_id d).mul_const Real.pi).div_const 180).congr_deriv (by simp)
  refine ⟨⟨lx, lx1, fun y => ⟨lx2, lx3⟩⟩, ⟨ly, ly1, fun x => ⟨ly2, ly3⟩⟩, ?_, ?_⟩
  · have d1 := HasDerivAt.comp S.azel0_deg.x (h := fun s : ℝ => s * Real.pi / 180) (Real.hasDerivAt_tan hcos.1) (inner _)
    have d2 := (d1.mul_const S.fxycxy.fx).add_const S.fxycxy.cx
    have : (fun s => (pinhole S.fxycxy (viewRay .pinhole (s * Real.pi / 180) ay)).q.x) =
        fun s => (Real.tan ∘ fun s : ℝ => s * Real.pi / 180) s * S.fxycxy.fx + S.fxycxy.cx := by
      funext s; simp [pinhole, viewRay]
    rw [this]
    refine d2.congr_deriv ?_
    rw [kfx]
    have hc := hcos.1
    have hp := hpi.ne'
    simp only [← hax]
    generalize Real.cos ax = c at hc ⊢
    field_simp
  · have d1 := HasDerivAt.comp S.azel0_deg.y (h := fun s : ℝ => s * Real.pi / 180) (Real.hasDerivAt_tan hcos.2) (inner _)
    have d2 := (d1.mul_const S.fxycxy.fy).add_const S.fxycxy.cy
    have : (fun s => (pinhole S.fxycxy (viewRay .pinhole ax (s * Real.pi / 180))).q.y) =
        fun s => (Real.tan ∘ fun s : ℝ => s * Real.pi / 180) s * S.fxycxy.fy + S.fxycxy.cy := by
      funext s; simp [pinhole, viewRay]
    rw [this]
    refine d2.congr_deriv ?_
    rw [kfy]
    have hc := hcos.2
    have hp := hpi.ne'
    simp only [← hay]
    generalize Real.cos ay = c at hc ⊢
    field_simp

/-- what a LATLON request with an explicit resolution produces -/
theorem system_latlon (roots : ℝ → ℝ → List ℝ) (ppd_az ppd_el : ℝ) (fov azel0_deg : P2) (margin : ℝ) (L : Lens) (intr : Int → ℝ)
    (rt0 rt1 : RtV) (a : Bool) (A : Axes) (d r : ℝ) (hL : ¬ rejectNoncentral L intr) (p0 : 0 < ppd_az) (p1 : 0 < ppd_el) (f0 : 0 < fov.x) (f1 : 0 < fov.y)
    (hA : rectAxes (composeRt (Rt_from_rt rt0) (invertRt (Rt_from_rt rt1)) false false) = some A)
    (hz : azCenter a azel0_deg.x fov.x margin A.forward01 A.proj = some (d, r)) (hpos : 0 < toUnsigned (cround (fov.y * ppd_el))) :
    ∃ S, rectifiedSystem2 roots ppd_az ppd_el fov azel0_deg margin L intr rt0 rt1 .latlon a false false false = some S ∧
      S.width = toUnsigned (cround (fov.x * ppd_az)) ∧ S.height = toUnsigned (cround (fov.y * ppd_el)) ∧ S.baseline = A.baseline ∧ (S.rt_rect0_ref = none ↔ A.R_rect0_cam0 = none) := by
  have hq : ∀ f p : ℝ, 0 < f → cround (f * ((cround (f * p) : ℝ) / f)) = cround (f * p) := by
    intro f p hf
    rw [mul_div_cancel₀ _ hf.ne', cround_int]
  unfold rectifiedSystem2
  simp only [Bool.false_eq_true, if_false, true_or, not_true_eq_false, p0.ne', p1.ne']
  rw [if_neg hL, if_neg (by push Not; exact ⟨f0, f1⟩), hA]
  simp only [hz]
  have hr : ∀ project az R, rectifiedResolution ppd_az ppd_el project fov az R .latlon = some (ppdQuantised .latlon fov.x ppd_az, ppdQuantised .latlon fov.y ppd_el) := by
    intro project az R
    unfold rectifiedResolution
    rw [if_neg (by push Not; exact ⟨p0.le, p1.le⟩)]
  have hn : ¬ (ppd_az < 0 ∨ ppd_el < 0) := by push Not; exact ⟨p0.le, p1.le⟩
  have hqx : ppdQuantised .latlon fov.x ppd_az = (cround (fov.x * ppd_az) : ℝ) / fov.x := if_pos (Or.inl rfl)
  have hqy : ppdQuantised .latlon fov.y ppd_el = (cround (fov.y * ppd_el) : ℝ) / fov.y := if_pos (Or.inl rfl)
  cases hR : A.R_rect0_cam0 with
  | none =>
    simp only [hn, if_false, rectIntrinsics, if_true, hqx, hqy, hq _ _ f0, hq _ _ f1]
    rw [if_neg (not_le.mpr hpos)]
    exact ⟨_, rfl, rfl, rfl, rfl, by simp⟩
  | some R =>
    simp only [hr, rectIntrinsics, if_true, hqx, hqy, hq _ _ f0, hq _ _ f1]
    rw [if_neg (not_le.mpr hpos)]
    exact ⟨_, rfl, rfl, rfl, rfl, by simp⟩

/-- two cameras that aren't rotated, one at the origin. The transform between them -/
theorem parallel_pair (t : P3) : composeRt (Rt_from_rt ⟨⟨0, 0, 0⟩, ⟨0, 0, 0⟩⟩) (invertRt (Rt_from_rt ⟨⟨0, 0, 0⟩, ⟨-t.x, -t.y, -t.z⟩⟩)) false false = ⟨identityR, t⟩ := by
  have hI : R_from_r ⟨0, 0, 0⟩ = identityR := (R_from_r_meaning ⟨0, 0, 0⟩).2 (by simp [mag3]; unfold dblEpsilon; positivity)
  unfold composeRt invertRt Rt_from_rt
  simp only [hI]
  simp [identityR, mul, transpose, mulVec, addP, vecMul]

theorem parallel_axes : rectAxes ⟨identityR, ⟨1, 0, 0⟩⟩ = some ⟨some identityR, 1, ⟨0, 0, 2⟩, 0⟩ := by
  unfold rectAxes
  have : Real.sqrt (1 * 1 + 0 * 0 + 0 * 0) = 1 := by norm_num
  simp only [this]
  rw [if_neg (by norm_num)]
  simp [identityR]
  norm_num

/-- a pair of cameras side by side; the field of view is 90x90deg at 10 pixels/deg. The hypotheses of rect_geometry, rect_rows, stereo_chain, rect_view, rect_latlon are met -/
example : let rt0 : RtV := ⟨⟨0, 0, 0⟩, ⟨0, 0, 0⟩⟩
    let rt1 : RtV := ⟨⟨0, 0, 0⟩, ⟨-1, 0, 0⟩⟩
    ∃ S rt, rectifiedSystem2 (fun _ _ => []) 10 10 ⟨90, 90⟩ ⟨0, 0⟩ 10 .pinhole (fun _ => 0) rt0 rt1 .latlon false false false false = some S ∧
      S.rt_rect0_ref = some rt ∧ RectRepresentable rt0 rt1 ∧ S.width = 900 ∧ S.height = 900 ∧ S.baseline = 1 := by
  intro rt0 rt1
  have hp : composeRt (Rt_from_rt rt0) (invertRt (Rt_from_rt rt1)) false false = ⟨identityR, ⟨1, 0, 0⟩⟩ := by
    have := parallel_pair ⟨1, 0, 0⟩
    simpa using this
  have hc : cround (90 * 10) = 900 := by
    have := cround_int 900
    rw [show ((900 : Int) : ℝ) = 90 * 10 by norm_num] at this
    exact this
  have hz : azCenter false 0 90 10 ⟨0, 0, 2⟩ 0 = some (0, 0 * Real.pi / 180) := by
    unfold azCenter
    simp only [Bool.false_eq_true, if_false]
    rw [if_neg]
    norm_num
  have hA := parallel_axes
  rw [← hp] at hA
  obtain ⟨S, hS, hw, hh, hb, hr⟩ := system_latlon (fun _ _ => []) 10 10 ⟨90, 90⟩ ⟨0, 0⟩ 10 .pinhole (fun _ => 0) rt0 rt1 false _ _ _
    (by simp [rejectNoncentral, Lens.noncentral]) (by norm_num) (by norm_num) (by norm_num) (by norm_num) hA hz
    (by simp only []; rw [hc]; decide)
  have hne : S.rt_rect0_ref ≠ none := by rw [Ne, hr]; simp
  obtain ⟨rt, hrt⟩ := Option.ne_none_iff_exists'.mp hne
  refine ⟨S, rt, hS, hrt, ?_, ?_, ?_, hb⟩
  · intro A Q h1 h2
    rw [hA] at h1
    rw [← Option.some.inj h1] at h2
    rw [← Option.some.inj h2]
    right
    have hI : R_from_r ⟨0, 0, 0⟩ = identityR := (R_from_r_meaning ⟨0, 0, 0⟩).2 (by simp [mag3]; unfold dblEpsilon; positivity)
    show transpose (mul identityR (R_from_r ⟨0, 0, 0⟩)) = mul identityR (R_from_r ⟨0, 0, 0⟩)
    rw [hI]
    simp [identityR, mul, transpose, vecMul]
  · rw [hw]; simp only []; rw [hc]; decide
  · rw [hh]; simp only []; rw [hc]; decide

/-- an image with NO columns is reported as a success: only the height is checked. Here 1deg was requested at 0.1 pixels/deg -/
theorem rect_width_wrong : ∃ S, rectifiedSystem2 (fun _ _ => []) 0.1 10 ⟨1, 90⟩ ⟨0, 0⟩ 10 .pinhole (fun _ => 0) ⟨⟨0, 0, 0⟩, ⟨0, 0, 0⟩⟩ ⟨⟨0, 0, 0⟩, ⟨-1, 0, 0⟩⟩ .latlon
    false false false false = some S ∧ S.width = 0 := by
  have hp : composeRt (Rt_from_rt ⟨⟨0, 0, 0⟩, ⟨0, 0, 0⟩⟩) (invertRt (Rt_from_rt ⟨⟨0, 0, 0⟩, ⟨-1, 0, 0⟩⟩)) false false = ⟨identityR, ⟨1, 0, 0⟩⟩ := by
    have := parallel_pair ⟨1, 0, 0⟩
    simpa using this
  have hc : cround (90 * 10) = 900 := by
    have := cround_int 900
    rw [show ((900 : Int) : ℝ) = 90 * 10 by norm_num] at this
    exact this
  have hc0 : cround (1 * 0.1) = 0 := by
    unfold cround
    rw [if_pos (by norm_num)]
    norm_num
  have hz : azCenter false 0 1 10 ⟨0, 0, 2⟩ 0 = some (0, 0 * Real.pi / 180) := by
    unfold azCenter
    simp only [Bool.false_eq_true, if_false]
    rw [if_neg]
    norm_num
  have hA := parallel_axes
  rw [← hp] at hA
  obtain ⟨S, hS, hw, -⟩ := system_latlon (fun _ _ => []) 0.1 10 ⟨1, 90⟩ ⟨0, 0⟩ 10 .pinhole (fun _ => 0) ⟨⟨0, 0, 0⟩, ⟨0, 0, 0⟩⟩ ⟨⟨0, 0, 0⟩, ⟨-1, 0, 0⟩⟩ false _ _ _
    (by simp [rejectNoncentral, Lens.noncentral]) (by norm_num) (by norm_num) (by norm_num) (by norm_num) hA hz
    (by simp only []; rw [hc]; decide)
  refine ⟨S, hS, ?_⟩
  rw [hw]; simp only []; rw [hc0]; decide

/-- two cameras that look along their baseline can't be rectified, but this isn't detected: it's reported as a success, with a pose that isn't finite -/
theorem rect_along_wrong : ∃ S, rectifiedSystem2 (fun _ _ => []) 10 10 ⟨90, 90⟩ ⟨0, 0⟩ 10 .pinhole (fun _ => 0) ⟨⟨0, 0, 0⟩, ⟨0, 0, 0⟩⟩ ⟨⟨0, 0, 0⟩, ⟨0, 0, -1⟩⟩ .latlon
    false false false false = some S ∧ S.rt_rect0_ref = none := by
  have hp : composeRt (Rt_from_rt ⟨⟨0, 0, 0⟩, ⟨0, 0, 0⟩⟩) (invertRt (Rt_from_rt ⟨⟨0, 0, 0⟩, ⟨0, 0, -1⟩⟩)) false false = ⟨identityR, ⟨0, 0, 1⟩⟩ := by
    have := parallel_pair ⟨0, 0, 1⟩
    simpa using this
  have hc : cround (90 * 10) = 900 := by
    have := cround_int 900
    rw [show ((900 : Int) : ℝ) = 90 * 10 by norm_num] at this
    exact this
  have hz : ∀ f p, azCenter false 0 90 10 f p = some (0, 0 * Real.pi / 180) := by
    intro f p
    unfold azCenter
    simp only [Bool.false_eq_true, if_false]
    rw [if_neg]
    norm_num
  have hm : mag3 ⟨0, 0, 1⟩ = 1 := by unfold mag3; norm_num
  have hne : rectAxes ⟨identityR, ⟨0, 0, 1⟩⟩ ≠ none := by
    intro hc
    have := (rect_axes _).1.mp hc
    simp only [] at this
    rw [hm] at this
    norm_num at this
  obtain ⟨A, hA⟩ := Option.ne_none_iff_exists'.mp hne
  have hn := ((rect_axes _).2 A hA).2.2.2.2.1.mpr (by
    unfold perpForward
    simp only [hm]
    simp [identityR])
  rw [← hp] at hA
  obtain ⟨S, hS, -, -, -, hr⟩ := system_latlon (fun _ _ => []) 10 10 ⟨90, 90⟩ ⟨0, 0⟩ 10 .pinhole (fun _ => 0) ⟨⟨0, 0, 0⟩, ⟨0, 0, 0⟩⟩ ⟨⟨0, 0, 0⟩, ⟨0, 0, -1⟩⟩ false _ _ _
    (by simp [rejectNoncentral, Lens.noncentral]) (by norm_num) (by norm_num) (by norm_num) (by norm_num) hA (hz _ _)
    (by simp only []; rw [hc]; decide)
  exact ⟨S, hS, hr.mpr hn⟩

end Mrcal.Stereo
