import Verif.Model.Cameras
import Verif.Props.Calc
import Mathlib.Analysis.SpecialFunctions.Trigonometric.InverseDeriv
import Mathlib.Analysis.SpecialFunctions.Trigonometric.Deriv
import Mathlib.Analysis.SpecialFunctions.Complex.LogDeriv
import Mathlib.Analysis.Real.Pi.Bounds
/-
C20, C21, C22: the parameter-less projections.
-/
namespace Mrcal.Cam

/-- `b` is the vector `a` scaled by `s` -/
def ScaledBy (s : ℝ) (a b : P3) : Prop := b = ⟨s * a.x, s * a.y, s * a.z⟩

/-- the rows of `dv_dq` are right -/
def UnprojGrad (f : P2 → Unproj) (q : P2) : Prop :=
  GradAt2 (fun q => (f q).v.x) (f q).dvx q ∧ GradAt2 (fun q => (f q).v.y) (f q).dvy q ∧
  GradAt2 (fun q => (f q).v.z) (f q).dvz q
/-- the rows of `dq_dv` are right -/
def ProjGrad (f : P3 → Proj) (v : P3) : Prop :=
  GradAt (fun v => (f v).q.x) (f v).dqx v ∧ GradAt (fun v => (f v).q.y) (f v).dqy v

/-! ### C20: pinhole -/

/-- **C20**: unprojecting a projection gives back the point, up to length. Positive length for points in front of the
camera. -/
theorem pinhole_roundtrip (k : Core) (hx : k.fx ≠ 0) (hy : k.fy ≠ 0) (p : P3) (hz : p.z ≠ 0) :
    ScaledBy (1 / p.z) p (unpinhole k (pinhole k p).q).v := by
  unfold ScaledBy unpinhole pinhole
  ext <;> simp only <;> field_simp <;> ring

/-- **C20**: projecting an unprojection gives back the pixel -/
theorem pinhole_roundtrip2 (k : Core) (hx : k.fx ≠ 0) (hy : k.fy ≠ 0) (q : P2) :
    (pinhole k (unpinhole k q).v).q = q := by
  unfold unpinhole pinhole
  ext <;> simp only <;> field_simp <;> ring

/-- **C20**: the range doesn't matter -/
theorem pinhole_scale (k : Core) (p p' : P3) (s : ℝ) (hs : s ≠ 0) (h : ScaledBy s p p') :
    (pinhole k p').q = (pinhole k p).q := by
  subst h
  unfold pinhole
  by_cases hz : p.z = 0
  · simp [hz]
  · ext <;> simp only <;> field_simp

/-- **C20**: the gradients -/
theorem pinhole_grad (k : Core) (p : P3) (hz : p.z ≠ 0) : ProjGrad (pinhole k) p := by
  constructor
  · intro c v t e hx hy hcz
    subst e
    have h1 : HasDerivAt (fun s => 1 / (c s).z) (-v.z / (c t).z ^ 2) t := by
      have e : (fun s => 1 / (c s).z) = (fun s => (c s).z)⁻¹ := funext fun s => by simp
      rw [e]; exact hcz.inv hz
    refine HasDerivAt.congr_deriv (((hx.mul h1).mul_const k.fx).add_const k.cx) ?_
    simp only [pinhole]
    field_simp
    ring
  · intro c v t e hx hy hcz
    subst e
    have h1 : HasDerivAt (fun s => 1 / (c s).z) (-v.z / (c t).z ^ 2) t := by
      have e : (fun s => 1 / (c s).z) = (fun s => (c s).z)⁻¹ := funext fun s => by simp
      rw [e]; exact hcz.inv hz
    refine HasDerivAt.congr_deriv (((hy.mul h1).mul_const k.fy).add_const k.cy) ?_
    simp only [pinhole]
    field_simp
    ring

theorem unpinhole_grad (k : Core) (q : P2) : UnprojGrad (unpinhole k) q := by
  refine ⟨?_, ?_, ?_⟩
  · intro c v t e hx hy
    refine HasDerivAt.congr_deriv ((hx.sub_const k.cx).div_const k.fx) ?_
    simp only [unpinhole]; ring
  · intro c v t e hx hy
    refine HasDerivAt.congr_deriv ((hy.sub_const k.cy).div_const k.fy) ?_
    simp only [unpinhole]; ring
  · intro c v t e hx hy
    refine HasDerivAt.congr_deriv (hasDerivAt_const t (1 : ℝ)) ?_
    simp only [unpinhole]; ring

example : ∃ (k : Core) (p p' : P3), k.fx ≠ 0 ∧ k.fy ≠ 0 ∧ p.z ≠ 0 ∧ ScaledBy 3 p p' :=
  ⟨⟨2000, 1900, 500, 400⟩, ⟨1, 2, -4⟩, ⟨3 * 1, 3 * 2, 3 * -4⟩, by norm_num, by norm_num, by norm_num, rfl⟩

/-! ### C21: stereographic -/

theorem front_pos {v : P3} (h : 0 < mag3 v + v.z) : mag3 v ≠ 0 := by
  intro h0
  have := mag3_sq v
  rw [h0] at this h
  have : v.z * v.z ≤ 0 := by nlinarith [mul_self_nonneg v.x, mul_self_nonneg v.y]
  nlinarith

/-- **C21**: unprojecting a projection gives back the vector, up to a positive length: for all vectors not pointing
exactly backwards -/
theorem stereographic_roundtrip (k : Core) (hx : k.fx ≠ 0) (hy : k.fy ≠ 0) (v : P3) (h : 0 < mag3 v + v.z) :
    ∃ s, 0 < s ∧ ScaledBy s v (unstereographic k (stereographic k v).q).v := by
  have hne := h.ne'
  refine ⟨2 / (mag3 v + v.z), by positivity, ?_⟩
  have e : stereographic k v = { stereographic k v with
      q := ⟨v.x * (2.0 / (mag3 v + v.z)) * k.fx + k.cx, v.y * (2.0 / (mag3 v + v.z)) * k.fy + k.cy⟩ } := rfl
  rw [e]
  unfold ScaledBy unstereographic
  have hm := mag3_sq v
  ext
  · simp only; norm_num; field_simp
  · simp only; norm_num; field_simp
  · simp only; norm_num; field_simp
    nlinarith [hm]

/-- **C21**: projecting an unprojection gives back the pixel: for ALL pixels -/
theorem stereographic_roundtrip2 (k : Core) (hx : k.fx ≠ 0) (hy : k.fy ≠ 0) (q : P2) :
    (stereographic k (unstereographic k q).v).q = q := by
  set u : P2 := ⟨(q.x - k.cx) * (1 / k.fx), (q.y - k.cy) * (1 / k.fy)⟩ with hu
  have hv : (unstereographic k q).v = ⟨u.x, u.y, 1 - 1 / 4 * (u.x * u.x + u.y * u.y)⟩ := rfl
  rw [hv]
  have hn : 0 ≤ u.x * u.x + u.y * u.y := by nlinarith [mul_self_nonneg u.x, mul_self_nonneg u.y]
  have hm : Real.sqrt (u.x * u.x + u.y * u.y + (1 - 1 / 4 * (u.x * u.x + u.y * u.y)) * (1 - 1 / 4 * (u.x * u.x + u.y * u.y)))
      = 1 + 1 / 4 * (u.x * u.x + u.y * u.y) := by
    rw [show u.x * u.x + u.y * u.y + (1 - 1 / 4 * (u.x * u.x + u.y * u.y)) * (1 - 1 / 4 * (u.x * u.x + u.y * u.y))
      = (1 + 1 / 4 * (u.x * u.x + u.y * u.y)) ^ 2 by ring]
    exact Real.sqrt_sq (by linarith)
  unfold stereographic
  simp only [hm]
  ext
  · simp only [hu]; norm_num; field_simp; ring
  · simp only [hu]; norm_num; field_simp; ring

theorem mag3_scale (s : ℝ) (hs : 0 ≤ s) (v : P3) : mag3 ⟨s * v.x, s * v.y, s * v.z⟩ = s * mag3 v := by
  unfold mag3
  rw [show s * v.x * (s * v.x) + s * v.y * (s * v.y) + s * v.z * (s * v.z) = s ^ 2 * (v.x * v.x + v.y * v.y + v.z * v.z) by ring,
    Real.sqrt_mul (by positivity), Real.sqrt_sq hs]

/-- **C21**: the range doesn't matter -/
theorem stereographic_scale (k : Core) (p p' : P3) (s : ℝ) (hs : 0 < s) (h : ScaledBy s p p') :
    (stereographic k p').q = (stereographic k p).q := by
  subst h
  have e : ∀ v, (stereographic k v).q = ⟨v.x * (2.0 / (mag3 v + v.z)) * k.fx + k.cx, v.y * (2.0 / (mag3 v + v.z)) * k.fy + k.cy⟩ := fun _ => rfl
  rw [e, e, mag3_scale s hs.le]
  have e2 : s * mag3 p + s * p.z = s * (mag3 p + p.z) := by ring
  simp only [e2]
  by_cases hz : mag3 p + p.z = 0
  · simp [hz]
  · ext <;> simp only <;> field_simp

/-- **C21**: the gradients of the projection -/
theorem stereographic_grad (k : Core) (p : P3) (h : mag3 p + p.z ≠ 0) : ProjGrad (stereographic k) p := by
  have hm : mag3 p ≠ 0 := by
    intro h0
    have := mag3_sq p
    rw [h0] at this h
    have : p.z * p.z ≤ 0 := by nlinarith [mul_self_nonneg p.x, mul_self_nonneg p.y]
    have hz : p.z = 0 := by nlinarith
    exact h (by rw [hz]; ring)
  have e : ∀ v, stereographic k v = 
    { q := ⟨v.x * (2.0 / (mag3 v + v.z)) * k.fx + k.cx, v.y * (2.0 / (mag3 v + v.z)) * k.fy + k.cy⟩
      dqx := ⟨k.fx * (v.x * (-(2.0 / (mag3 v + v.z)) * (2.0 / (mag3 v + v.z)) / 2 / mag3 v * v.x) + (2.0 / (mag3 v + v.z))), k.fx * (v.x * (-(2.0 / (mag3 v + v.z)) * (2.0 / (mag3 v + v.z)) / 2 / mag3 v * v.y)), k.fx * (v.x * (-(2.0 / (mag3 v + v.z)) * (2.0 / (mag3 v + v.z)) / 2 / mag3 v * v.z + -(2.0 / (mag3 v + v.z)) * (2.0 / (mag3 v + v.z)) / 2))⟩
      dqy := ⟨k.fy * (v.y * (-(2.0 / (mag3 v + v.z)) * (2.0 / (mag3 v + v.z)) / 2 / mag3 v * v.x)), k.fy * (v.y * (-(2.0 / (mag3 v + v.z)) * (2.0 / (mag3 v + v.z)) / 2 / mag3 v * v.y) + (2.0 / (mag3 v + v.z))), k.fy * (v.y * (-(2.0 / (mag3 v + v.z)) * (2.0 / (mag3 v + v.z)) / 2 / mag3 v * v.z + -(2.0 / (mag3 v + v.z)) * (2.0 / (mag3 v + v.z)) / 2))⟩ } := fun _ => rfl
  have key : ∀ (c : ℝ → P3) (v : P3) (t : ℝ), c t = p →
      HasDerivAt (fun s => (c s).x) v.x t → HasDerivAt (fun s => (c s).y) v.y t → HasDerivAt (fun s => (c s).z) v.z t →
      HasDerivAt (fun s => 2.0 / (mag3 (c s) + (c s).z)) (2.0 * (-((p.x * v.x + p.y * v.y + p.z * v.z) / mag3 p + v.z) / (mag3 p + p.z) ^ 2)) t := by
    intro c v t ec hx hy hz
    subst ec
    exact HasDerivAt.const_mul (2.0 : ℝ) (((mag3_deriv hm hx hy hz).add hz).inv h)
  constructor
  · intro c v t ec hx hy hz
    have hk := key c v t ec hx hy hz
    simp only [e]
    refine HasDerivAt.congr_deriv (((hx.mul hk).mul_const k.fx).add_const k.cx) ?_
    rw [ec]
    norm_num
    field_simp
    ring
  · intro c v t ec hx hy hz
    have hk := key c v t ec hx hy hz
    simp only [e]
    refine HasDerivAt.congr_deriv (((hy.mul hk).mul_const k.fy).add_const k.cy) ?_
    rw [ec]
    norm_num
    field_simp
    ring

/-- **C21**: the gradients of the unprojection -/
theorem unstereographic_grad (k : Core) (q : P2) : UnprojGrad (unstereographic k) q := by
  refine ⟨?_, ?_, ?_⟩
  · intro c v t e hx hy
    refine HasDerivAt.congr_deriv ((hx.sub_const k.cx).mul_const (1 / k.fx)) ?_
    simp only [unstereographic]; norm_num; ring
  · intro c v t e hx hy
    refine HasDerivAt.congr_deriv ((hy.sub_const k.cy).mul_const (1 / k.fy)) ?_
    simp only [unstereographic]; norm_num; ring
  · intro c v t e hx hy
    have h1 := (hx.sub_const k.cx).mul_const (1 / k.fx)
    have h2 := (hy.sub_const k.cy).mul_const (1 / k.fy)
    refine HasDerivAt.congr_deriv ((((h1.mul h1).add (h2.mul h2)).const_mul (1 / 4 : ℝ)).const_sub 1) ?_
    rw [← e]
    simp only [unstereographic]; norm_num; ring

example : ∃ v : P3, v.z < 0 ∧ 0 < mag3 v + v.z := by
  refine ⟨⟨3, 0, -4⟩, by norm_num, ?_⟩
  have : mag3 ⟨3, 0, -4⟩ = 5 := by
    unfold mag3
    rw [show (3 : ℝ) * 3 + 0 * 0 + -4 * -4 = 5 ^ 2 by norm_num]
    exact Real.sqrt_sq (by norm_num)
  rw [this]; norm_num

/-! ### C22: equirectangular -/

/-- **C22**: these unproject to unit vectors -/
theorem unlonlat_unit (k : Core) (q : P2) : mag3 (unlonlat k q).v = 1 := by
  unfold mag3 unlonlat
  simp only
  set a := (q.y - k.cy) * (1 / k.fy)
  set b := (q.x - k.cx) * (1 / k.fx)
  have h1 := Real.sin_sq_add_cos_sq a
  have h2 := Real.sin_sq_add_cos_sq b
  rw [show Real.cos a * Real.sin b * (Real.cos a * Real.sin b) + Real.sin a * Real.sin a + Real.cos a * Real.cos b * (Real.cos a * Real.cos b)
    = Real.cos a ^ 2 * (Real.sin b ^ 2 + Real.cos b ^ 2) + Real.sin a ^ 2 by ring, h2, mul_one, add_comm, h1, Real.sqrt_one]

/-- swap the x and y of a vector -/
def swap (v : P3) : P3 := ⟨v.y, v.x, v.z⟩
def Core.swap (k : Core) : Core := ⟨k.fy, k.fx, k.cy, k.cx⟩

/-- the latlon model is the lonlat model turned sideways. This needn't be so in the C: that's a separate copy of the
code -/
theorem latlon_swap (k : Core) (v : P3) :
    (latlon k v).q = ⟨(lonlat k.swap (swap v)).q.y, (lonlat k.swap (swap v)).q.x⟩ ∧
    (latlon k v).dqx = swap (lonlat k.swap (swap v)).dqy ∧ (latlon k v).dqy = swap (lonlat k.swap (swap v)).dqx := by
  have e : v.y * v.y + v.x * v.x + v.z * v.z = v.x * v.x + v.y * v.y + v.z * v.z := by ring
  simp only [latlon, lonlat, swap, Core.swap, e, and_self]

theorem unlatlon_swap (k : Core) (q : P2) :
    (unlatlon k q).v = swap (unlonlat k.swap ⟨q.y, q.x⟩).v := rfl

theorem mag3_swap (v : P3) : mag3 (swap v) = mag3 v := by
  unfold mag3 swap
  congr 1; ring

theorem unlatlon_unit (k : Core) (q : P2) : mag3 (unlatlon k q).v = 1 := by
  rw [unlatlon_swap, mag3_swap, unlonlat_unit]

theorem sqrt_recip (v : P3) : Real.sqrt (1 / (v.x * v.x + v.y * v.y + v.z * v.z)) = 1 / mag3 v := by
  unfold mag3
  rw [Real.sqrt_div (by norm_num), Real.sqrt_one]

/-- **C22**: unprojecting a projection gives the normalized vector, off the poles -/
theorem lonlat_roundtrip (k : Core) (hfx : k.fx ≠ 0) (hfy : k.fy ≠ 0) (v : P3) (h : v.x ≠ 0 ∨ v.z ≠ 0) :
    ScaledBy (1 / mag3 v) v (unlonlat k (lonlat k v).q).v := by
  have hxz : 0 < v.x * v.x + v.z * v.z := by
    rcases h with h | h
    · have := mul_self_pos.mpr h; nlinarith [mul_self_nonneg v.z]
    · have := mul_self_pos.mpr h; nlinarith [mul_self_nonneg v.x]
  have hm2 := mag3_sq v
  have hm : 0 < mag3 v := by
    apply Real.sqrt_pos.mpr; nlinarith [mul_self_nonneg v.y]
  have e1 : ((lonlat k v).q.x - k.cx) * (1 / k.fx) = atan2 v.x v.z := by
    simp only [lonlat]; field_simp; ring
  have e2 : ((lonlat k v).q.y - k.cy) * (1 / k.fy) = Real.arcsin (v.y / mag3 v) := by
    simp only [lonlat, sqrt_recip]; field_simp; ring_nf
  have habs : |v.y / mag3 v| ≤ 1 := by
    rw [abs_div, abs_of_pos hm, div_le_one hm]
    exact abs_le_of_sq_le_sq (by nlinarith) hm.le
  have hs : Real.sin (Real.arcsin (v.y / mag3 v)) = v.y / mag3 v := by
    rw [abs_le] at habs
    exact Real.sin_arcsin habs.1 habs.2
  set R := Real.sqrt (v.x * v.x + v.z * v.z) with hR
  have hRpos : 0 < R := Real.sqrt_pos.mpr hxz
  have hR2 : R * R = v.x * v.x + v.z * v.z := Real.mul_self_sqrt hxz.le
  have hc : Real.cos (Real.arcsin (v.y / mag3 v)) = R / mag3 v := by
    rw [Real.cos_arcsin]
    have : 1 - (v.y / mag3 v) ^ 2 = (R / mag3 v) ^ 2 := by
      field_simp
      nlinarith
    rw [this, Real.sqrt_sq (by positivity)]
  have hz : (⟨v.z, v.x⟩ : ℂ) ≠ 0 := by
    intro h0
    rw [Complex.ext_iff] at h0
    simp only [Complex.zero_re, Complex.zero_im] at h0
    rcases h with h | h
    · exact h h0.2
    · exact h h0.1
  have hn : ‖(⟨v.z, v.x⟩ : ℂ)‖ = R := by
    rw [Complex.norm_def, Complex.normSq_mk, hR, add_comm]
  have hsl : Real.sin (atan2 v.x v.z) = v.x / R := by
    unfold atan2; rw [Complex.sin_arg, hn]
  have hcl : Real.cos (atan2 v.x v.z) = v.z / R := by
    unfold atan2; rw [Complex.cos_arg hz, hn]
  unfold ScaledBy
  unfold unlonlat
  simp only [e1, e2, hs, hc, hsl, hcl]
  ext <;> simp only <;> field_simp

/-- **C22**: projecting an unprojection gives back the pixel: longitudes within a half turn, latitudes between the
poles -/
theorem lonlat_roundtrip2 (k : Core) (hfx : k.fx ≠ 0) (hfy : k.fy ≠ 0) (q : P2)
    (hlon : -Real.pi < (q.x - k.cx) / k.fx ∧ (q.x - k.cx) / k.fx ≤ Real.pi)
    (hlat : -(Real.pi / 2) < (q.y - k.cy) / k.fy ∧ (q.y - k.cy) / k.fy < Real.pi / 2) :
    (lonlat k (unlonlat k q).v).q = q := by
  have hu := unlonlat_unit k q
  have e : ∀ v, (lonlat k v).q = ⟨atan2 v.x v.z * k.fx + k.cx, Real.arcsin (v.y * (1 / mag3 v)) * k.fy + k.cy⟩ := by
    intro v; simp only [lonlat, sqrt_recip]
  rw [e, hu]
  set lon := (q.x - k.cx) / k.fx with hlo
  set lat := (q.y - k.cy) / k.fy with hla
  have hv : (unlonlat k q).v = ⟨Real.cos lat * Real.sin lon, Real.sin lat, Real.cos lat * Real.cos lon⟩ := by
    have g1 : (q.x - k.cx) * (1 / k.fx) = lon := by rw [hlo]; ring
    have g2 : (q.y - k.cy) * (1 / k.fy) = lat := by rw [hla]; ring
    simp only [unlonlat, g1, g2]
  rw [hv]
  have hc : 0 < Real.cos lat := Real.cos_pos_of_mem_Ioo ⟨hlat.1, hlat.2⟩
  have h1 : atan2 (Real.cos lat * Real.sin lon) (Real.cos lat * Real.cos lon) = lon := by
    unfold atan2
    have : (⟨Real.cos lat * Real.cos lon, Real.cos lat * Real.sin lon⟩ : ℂ) =
        (Real.cos lat : ℂ) * (Complex.cos lon + Complex.sin lon * Complex.I) := by
      apply Complex.ext
      · simp [← Complex.ofReal_cos, ← Complex.ofReal_sin]
      · simp [← Complex.ofReal_cos, ← Complex.ofReal_sin]
    rw [this]
    exact Complex.arg_mul_cos_add_sin_mul_I hc ⟨hlon.1, hlon.2⟩
  have h2 : Real.arcsin (Real.sin lat * (1 / 1)) = lat := by
    rw [div_one, mul_one]
    exact Real.arcsin_sin hlat.1.le hlat.2.le
  ext
  · simp only [h1]; rw [hlo]; field_simp; ring
  · simp only [h2]; rw [hla]; field_simp; ring

/-- **C22**: the same for latlon -/
theorem latlon_roundtrip (k : Core) (hfx : k.fx ≠ 0) (hfy : k.fy ≠ 0) (v : P3) (h : v.y ≠ 0 ∨ v.z ≠ 0) :
    ScaledBy (1 / mag3 v) v (unlatlon k (latlon k v).q).v := by
  have := lonlat_roundtrip k.swap hfy hfx (swap v) h
  rw [unlatlon_swap, (latlon_swap k v).1]
  unfold ScaledBy at this ⊢
  rw [this, mag3_swap]
  rfl

theorem latlon_roundtrip2 (k : Core) (hfx : k.fx ≠ 0) (hfy : k.fy ≠ 0) (q : P2)
    (hlon : -Real.pi < (q.y - k.cy) / k.fy ∧ (q.y - k.cy) / k.fy ≤ Real.pi)
    (hlat : -(Real.pi / 2) < (q.x - k.cx) / k.fx ∧ (q.x - k.cx) / k.fx < Real.pi / 2) :
    (latlon k (unlatlon k q).v).q = q := by
  have := lonlat_roundtrip2 k.swap hfy hfx ⟨q.y, q.x⟩ hlon hlat
  rw [(latlon_swap _ _).1, unlatlon_swap]
  have e : ∀ v, swap (swap v) = v := fun _ => rfl
  rw [e, this]

/-- the angle of a moving point -/
theorem atan2_deriv {X Z : ℝ → ℝ} {X' Z' t : ℝ} (hX : HasDerivAt X X' t) (hZ : HasDerivAt Z Z' t)
    (h : 0 < Z t ∨ X t ≠ 0) :
    HasDerivAt (fun s => atan2 (X s) (Z s)) ((X' * Z t - X t * Z') / (X t * X t + Z t * Z t)) t := by
  have h1 : HasDerivAt (fun s => (⟨Z s, X s⟩ : ℂ)) ⟨Z', X'⟩ t := by
    have e : (fun s => (⟨Z s, X s⟩ : ℂ)) = fun s => (Z s : ℂ) + (X s : ℂ) * Complex.I := funext fun s => by
      apply Complex.ext <;> simp
    have e2 : (⟨Z', X'⟩ : ℂ) = (Z' : ℂ) + (X' : ℂ) * Complex.I := by apply Complex.ext <;> simp
    rw [e, e2]
    exact hZ.ofReal_comp.add (hX.ofReal_comp.mul_const Complex.I)
  have h2 : (⟨Z t, X t⟩ : ℂ) ∈ Complex.slitPlane := by
    rw [Complex.mem_slitPlane_iff]; exact h
  have h3 := h1.clog_real h2
  have h4 : HasDerivAt (fun s => (Complex.log ⟨Z s, X s⟩).im) (((⟨Z', X'⟩ : ℂ) / ⟨Z t, X t⟩).im) t := by
    have := Complex.imCLM.hasFDerivAt.comp_hasDerivAt t h3
    exact this
  have e : (fun s => (Complex.log ⟨Z s, X s⟩).im) = fun s => atan2 (X s) (Z s) := funext fun s => by
    rw [Complex.log_im]; rfl
  rw [e] at h4
  refine HasDerivAt.congr_deriv h4 ?_
  rw [Complex.div_im, Complex.normSq_mk]
  simp only
  have : Z t * Z t + X t * X t ≠ 0 := by
    rcases h with h | h
    · nlinarith [mul_self_nonneg (X t)]
    · have := mul_self_pos.mpr h; nlinarith [mul_self_nonneg (Z t)]
  have e3 : X t * X t + Z t * Z t = Z t * Z t + X t * X t := by ring
  rw [e3]
  field_simp

/-- **C22**: the gradients of the projection, wherever the angles are differentiable: off the poles and off the
longitude cut behind the camera -/
theorem lonlat_grad (k : Core) (p : P3) (h : 0 < p.z ∨ p.x ≠ 0) : ProjGrad (lonlat k) p := by
  have hxz : 0 < p.x * p.x + p.z * p.z := by
    rcases h with h | h
    · nlinarith [mul_self_nonneg p.x]
    · have := mul_self_pos.mpr h; nlinarith [mul_self_nonneg p.z]
  constructor
  · intro c v t e hx hy hz
    subst e
    refine HasDerivAt.congr_deriv (((atan2_deriv hx hz h).mul_const k.fx).add_const k.cx) ?_
    simp only [lonlat]
    field_simp
    ring
  · intro c v t e hx hy hz
    have hm2 := mag3_sq p
    have hm : 0 < mag3 p := Real.sqrt_pos.mpr (by nlinarith [mul_self_nonneg p.y])
    have hd := mag3_deriv (c := c) (v := v) (t := t) (by rw [e]; exact hm.ne') hx hy hz
    have hdiv := hy.div hd (by rw [e]; exact hm.ne')
    rw [e] at hdiv
    set R := Real.sqrt (p.x * p.x + p.z * p.z) with hR
    have hRpos : 0 < R := Real.sqrt_pos.mpr hxz
    have hR2 : R * R = p.x * p.x + p.z * p.z := Real.mul_self_sqrt hxz.le
    have hsq : 1 - (p.y / mag3 p) ^ 2 = (R / mag3 p) ^ 2 := by
      field_simp
      nlinarith
    have hlt : 0 < 1 - (p.y / mag3 p) ^ 2 := by rw [hsq]; positivity
    have hne1 : p.y / mag3 p ≠ -1 := by intro h1; rw [h1] at hlt; norm_num at hlt
    have hne2 : p.y / mag3 p ≠ 1 := by intro h1; rw [h1] at hlt; norm_num at hlt
    have has := Real.hasDerivAt_arcsin hne1 hne2
    have hv : ((fun s => (c s).y) / fun s => mag3 (c s)) t = p.y / mag3 p := by
      show (c t).y / mag3 (c t) = _
      rw [e]
    rw [← hv] at has
    have hcomp := HasDerivAt.comp t has hdiv
    have e2 : (fun s => (lonlat k (c s)).q.y) = fun s => Real.arcsin ((c s).y / mag3 (c s)) * k.fy + k.cy := funext fun s => by
      simp only [lonlat, sqrt_recip]
      rw [mul_one_div]
    rw [e2]
    refine HasDerivAt.congr_deriv ((hcomp.mul_const k.fy).add_const k.cy) ?_
    have e3 : Real.sqrt (1 / (p.x * p.x + p.z * p.z)) = 1 / R := by
      rw [Real.sqrt_div (by norm_num), Real.sqrt_one]
    rw [hv, hsq, Real.sqrt_sq (by positivity)]
    simp only [lonlat, e3]
    rw [← hm2]
    field_simp
    ring

theorem gradAt_swap {f : P3 → ℝ} {g p : P3} (h : GradAt f g (swap p)) : GradAt (fun v => f (swap v)) (swap g) p := by
  intro c v t e hx hy hz
  refine HasDerivAt.congr_deriv (h (fun s => swap (c s)) (swap v) t (by rw [e]) hy hx hz) ?_
  simp only [swap]; ring

theorem latlon_grad (k : Core) (p : P3) (h : 0 < p.z ∨ p.y ≠ 0) : ProjGrad (latlon k) p := by
  have := lonlat_grad k.swap (swap p) h
  constructor
  · simp only [(latlon_swap k _).1, (latlon_swap k _).2.1]
    exact gradAt_swap this.2
  · simp only [(latlon_swap k _).1, (latlon_swap k _).2.2]
    exact gradAt_swap this.1

/-- **C22**: the gradients of the unprojection, everywhere -/
theorem unlonlat_grad (k : Core) (q : P2) : UnprojGrad (unlonlat k) q := by
  refine ⟨?_, ?_, ?_⟩
  all_goals
    intro c v t e hx hy
    have h1 := (hx.sub_const k.cx).mul_const (1 / k.fx)
    have h2 := (hy.sub_const k.cy).mul_const (1 / k.fy)
  · refine HasDerivAt.congr_deriv (h2.cos.mul h1.sin) ?_
    rw [← e]
    simp only [unlonlat]; ring
  · refine HasDerivAt.congr_deriv h2.sin ?_
    rw [← e]
    simp only [unlonlat]; ring
  · refine HasDerivAt.congr_deriv (h2.cos.mul h1.cos) ?_
    rw [← e]
    simp only [unlonlat]; ring

theorem unlatlon_grad (k : Core) (q : P2) : UnprojGrad (unlatlon k) q := by
  refine ⟨?_, ?_, ?_⟩
  all_goals
    intro c v t e hx hy
    have h1 := (hx.sub_const k.cx).mul_const (1 / k.fx)
    have h2 := (hy.sub_const k.cy).mul_const (1 / k.fy)
  · refine HasDerivAt.congr_deriv h1.sin ?_
    rw [← e]
    simp only [unlatlon]; ring
  · refine HasDerivAt.congr_deriv (h1.cos.mul h2.sin) ?_
    rw [← e]
    simp only [unlatlon]; ring
  · refine HasDerivAt.congr_deriv (h1.cos.mul h2.cos) ?_
    rw [← e]
    simp only [unlatlon]; ring

example : ∃ (k : Core) (q : P2), k.fx ≠ 0 ∧ k.fy ≠ 0 ∧
    (-Real.pi < (q.x - k.cx) / k.fx ∧ (q.x - k.cx) / k.fx ≤ Real.pi) ∧
    (-(Real.pi / 2) < (q.y - k.cy) / k.fy ∧ (q.y - k.cy) / k.fy < Real.pi / 2) := by
  have := Real.pi_gt_three
  refine ⟨⟨1000, 1000, 10, 20⟩, ⟨1510, 1020⟩, by norm_num, by norm_num, ⟨?_, ?_⟩, ⟨?_, ?_⟩⟩ <;> norm_num <;> linarith

example : ∃ p : P3, p.z < 0 ∧ (0 < p.z ∨ p.x ≠ 0) := ⟨⟨1, 2, -3⟩, by norm_num, Or.inr (by norm_num)⟩

/-! ### C20-C22: arrays of points -/

theorem loopWrite_id {α : Type} (N : Nat) (value : Nat → α) (out : Nat → α) (j : Nat) :
    loopWrite N (fun i => i) value out j = if j < N then value j else out j := by
  induction N with
  | zero => rfl
  | succ N ih =>
    unfold loopWrite at ih ⊢
    rw [List.range_succ, List.foldl_append]
    simp only [List.foldl_cons, List.foldl_nil]
    by_cases h : j = N
    · subst h; simp
    · rw [if_neg h, ih]
      by_cases h2 : j < N
      · rw [if_pos h2, if_pos (by omega)]
      · rw [if_neg h2, if_neg (by omega)]

/-- **C21, C22**: with an array of points, element `i` of the output is the projection of element `i` of the input, and
nothing else is written -/
theorem arrays (k : Core) (N : Nat) (v : Nat → P3) (q : Nat → P2) (j : Nat) :
    projectStereographicN k N v q j = (if j < N then (stereographic k (v j)).q else q j) ∧
    projectLonlatN k N v q j = (if j < N then (lonlat k (v j)).q else q j) ∧
    projectLatlonN k N v q j = (if j < N then (latlon k (v j)).q else q j) :=
  ⟨loopWrite_id .., loopWrite_id .., loopWrite_id ..⟩

theorem arrays_unproject (f : P2 → Unproj) (N : Nat) (q : Nat → P2) (v : Nat → P3) (j : Nat) :
    unprojectN f N q v j = if j < N then (f (q j)).v else v j := loopWrite_id ..

theorem arrays_grad (f : P3 → Proj) (N : Nat) (v : Nat → P3) (dq : Nat → P3) (j : Nat) :
    gradN f N v dq (2 * j) = (if j < N then (f (v j)).dqx else dq (2 * j)) ∧
    gradN f N v dq (2 * j + 1) = (if j < N then (f (v j)).dqy else dq (2 * j + 1)) := by
  induction N with
  | zero => exact ⟨rfl, rfl⟩
  | succ N ih =>
    unfold gradN at ih ⊢
    rw [List.range_succ, List.foldl_append]
    simp only [List.foldl_cons, List.foldl_nil]
    by_cases h : j = N
    · subst h; constructor
      · rw [if_neg (by omega), if_pos (by omega), if_pos (by omega)]
      · rw [if_pos rfl, if_pos (by omega)]
    · have e1 : ¬ 2 * j = 2 * N + 1 := by omega
      have e2 : ¬ 2 * j = 2 * N + 0 := by omega
      have e3 : ¬ 2 * j + 1 = 2 * N + 1 := by omega
      have e4 : ¬ 2 * j + 1 = 2 * N + 0 := by omega
      rw [if_neg e1, if_neg e2, if_neg e3, if_neg e4, ih.1, ih.2]
      have e5 : j < N + 1 ↔ j < N := by omega
      simp only [e5, and_self]

/-- **C20**, one point: this is right -/
theorem pinhole_array_partial (k : Core) (v : Nat → P3) (q : Nat → P2) (j : Nat) :
    projectPinholeN k 1 v q j = if j < 1 then (pinhole k (v j)).q else q j := by
  unfold projectPinholeN loopWrite
  by_cases h : j = 0
  · subst h; rfl
  · have : ¬ j < 1 := by omega
    simp [h]

/-- **C20** is false for the arrays in `mrcal_project_pinhole()`: with more than one point the outputs past the first
are never written, and the first one gets the projection of the LAST point. -/
theorem pinhole_array_wrong (k : Core) (N : Nat) (hN : 0 < N) (v : Nat → P3) (q : Nat → P2) (j : Nat) (hj : 0 < j) :
    projectPinholeN k N v q j = q j ∧ projectPinholeN k N v q 0 = (pinhole k (v (N - 1))).q := by
  have h1 : ∀ M, loopWrite M (fun _ => 0) (fun i => (pinhole k (v i)).q) q j = q j := by
    intro M
    induction M with
    | zero => rfl
    | succ M ih =>
      unfold loopWrite at ih ⊢
      rw [List.range_succ, List.foldl_append]
      simp only [List.foldl_cons, List.foldl_nil]
      rw [if_neg (by omega), ih]
  refine ⟨h1 N, ?_⟩
  obtain ⟨M, rfl⟩ : ∃ M, N = M + 1 := ⟨N - 1, by omega⟩
  unfold projectPinholeN loopWrite
  rw [List.range_succ, List.foldl_append]
  simp

/-- a concrete case: two different points project to (1,2) and (3,4), and this array says (3,4) and garbage -/
theorem pinhole_array_counterexample : ∃ (k : Core) (v : Nat → P3) (q : Nat → P2),
    projectPinholeN k 2 v q 0 ≠ (pinhole k (v 0)).q ∧ projectPinholeN k 2 v q 1 ≠ (pinhole k (v 1)).q := by
  refine ⟨⟨1, 1, 0, 0⟩, fun i => if i = 0 then ⟨1, 2, 1⟩ else ⟨3, 4, 1⟩, fun _ => ⟨0, 0⟩, ?_, ?_⟩
  · rw [(pinhole_array_wrong _ 2 (by omega) _ _ 1 (by omega)).2]
    intro h
    rw [P2.ext_iff] at h
    simp [pinhole] at h
  · rw [(pinhole_array_wrong _ 2 (by omega) _ _ 1 (by omega)).1]
    intro h
    rw [P2.ext_iff] at h
    simp [pinhole] at h

end Mrcal.Cam
