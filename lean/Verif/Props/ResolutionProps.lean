import Verif.Model.Resolution
import Verif.Props.StereoPairProps
/-
C98: model_resolution__deg_pixel(): the angles that one pixel covers.
-/
namespace Mrcal.Resolution
open Mrcal Mrcal.Cam Mrcal.Pose Mrcal.ImageTransform Mrcal.ModelDiff

/-! ### Specification -/

/-- the direction `v`, turned by the angle `θ` towards `w` -/
noncomputable def tilt (v w : P3) (θ : ℝ) : P3 := ⟨Real.cos θ * v.x + Real.sin θ * w.x, Real.cos θ * v.y + Real.sin θ * w.y, Real.cos θ * v.z + Real.sin θ * w.z⟩
/-- a direction to turn towards: perpendicular to `v` -/
def Perp (v w : P3) : Prop := mag3 w = 1 ∧ v.x * w.x + v.y * w.y + v.z * w.z = 0
/-- `D`: the velocity of the pixel that sees `v`, if `v` is turned towards `w`: pixels per radian -/
def Velocity (L : Lens) (intr : Int → ℝ) (v w : P3) (D : P2) : Prop :=
  HasDerivAt (fun θ => (pix L intr (tilt v w θ)).x) D.x 0 ∧ HasDerivAt (fun θ => (pix L intr (tilt v w θ)).y) D.y 0
/-- degrees per pixel, of a velocity in pixels per radian -/
noncomputable def degPerPixel (D : P2) : ℝ := (180 / Real.pi) / lenQ D

/-! ### helpers: the quadratic form -/

/-- the values of a quadratic form on the unit circle are between its eigenvalues -/
theorem form_bounds (a b c α β : ℝ) (h : α ^ 2 + β ^ 2 = 1) :
    (a + c) / 2 - Real.sqrt ((a - c) * (a - c) / 4 + b * b) ≤ a * α ^ 2 + 2 * b * α * β + c * β ^ 2 ∧
    a * α ^ 2 + 2 * b * α * β + c * β ^ 2 ≤ (a + c) / 2 + Real.sqrt ((a - c) * (a - c) / 4 + b * b) := by
  have h0 : 0 ≤ (a - c) * (a - c) / 4 + b * b := by nlinarith [mul_self_nonneg (a - c), mul_self_nonneg b]
  have key : |a * α ^ 2 + 2 * b * α * β + c * β ^ 2 - (a + c) / 2| ≤ Real.sqrt ((a - c) * (a - c) / 4 + b * b) := by
    apply Real.abs_le_sqrt
    have e : a * α ^ 2 + 2 * b * α * β + c * β ^ 2 - (a + c) / 2 = (a - c) / 2 * (α ^ 2 - β ^ 2) + b * (2 * α * β) := by linear_combination (a + c) / 2 * h
    have e2 : (α ^ 2 - β ^ 2) ^ 2 + (2 * α * β) ^ 2 = 1 := by linear_combination (α ^ 2 + β ^ 2 + 1) * h
    rw [e]
    nlinarith [sq_nonneg ((a - c) / 2 * (2 * α * β) - b * (α ^ 2 - β ^ 2))]
  obtain ⟨h1, h2⟩ := abs_le.mp key
  constructor <;> linarith

/-- both are attained -/
theorem form_attained (a b c : ℝ) (s : ℝ) (hs : s ^ 2 = (a - c) * (a - c) / 4 + b * b) :
    ∃ α β, α ^ 2 + β ^ 2 = 1 ∧ a * α ^ 2 + 2 * b * α * β + c * β ^ 2 = (a + c) / 2 + s := by
  by_cases hb : b = 0
  · subst hb
    have : s = (a - c) / 2 ∨ s = -((a - c) / 2) := sq_eq_sq_iff_eq_or_eq_neg.mp (by linear_combination hs)
    rcases this with rfl | rfl
    · exact ⟨1, 0, by norm_num, by ring⟩
    · exact ⟨0, 1, by norm_num, by ring⟩
  · -- the eigenvector is (b, l-a), with l = (a+c)/2 + s
    obtain ⟨k, hk⟩ : ∃ k, k = (c - a) / 2 + s := ⟨_, rfl⟩
    have hpos : 0 < b ^ 2 + k ^ 2 := by positivity
    have hq : Real.sqrt (b ^ 2 + k ^ 2) ≠ 0 := (Real.sqrt_pos.mpr hpos).ne'
    have hsq : Real.sqrt (b ^ 2 + k ^ 2) ^ 2 = b ^ 2 + k ^ 2 := Real.sq_sqrt hpos.le
    refine ⟨b / Real.sqrt (b ^ 2 + k ^ 2), k / Real.sqrt (b ^ 2 + k ^ 2), ?_, ?_⟩
    · rw [div_pow, div_pow, hsq]
      field_simp
    · have e : a * (b / Real.sqrt (b ^ 2 + k ^ 2)) ^ 2 + 2 * b * (b / Real.sqrt (b ^ 2 + k ^ 2)) * (k / Real.sqrt (b ^ 2 + k ^ 2)) + c * (k / Real.sqrt (b ^ 2 + k ^ 2)) ^ 2 =
          (a * b ^ 2 + 2 * b * b * k + c * k ^ 2) / Real.sqrt (b ^ 2 + k ^ 2) ^ 2 := by field_simp
      rw [e, hsq, div_eq_iff hpos.ne']
      have hk2 : k ^ 2 = b ^ 2 + (c - a) * k := by
        rw [hk]
        linear_combination hs
      have hs' : s = k - (c - a) / 2 := by rw [hk]; ring
      rw [hs']
      linear_combination (-k) * hk2

/-! ### helpers: the plane perpendicular to v -/

def comb (R : M3) (α β : ℝ) : P3 := ⟨α * R.a00 + β * R.a10, α * R.a01 + β * R.a11, α * R.a02 + β * R.a12⟩

theorem unit_sq (v : P3) (h : mag3 v = 1) : v.x * v.x + v.y * v.y + v.z * v.z = 1 := by
  have := mag3_sq v
  rw [h] at this
  linarith

theorem unit_of_sq (v : P3) (h : v.x * v.x + v.y * v.y + v.z * v.z = 1) : mag3 v = 1 := by
  unfold mag3
  rw [h, Real.sqrt_one]

theorem unit_ne (v : P3) (h : mag3 v = 1) : v ≠ ⟨0, 0, 0⟩ := by
  intro h0
  rw [h0] at h
  unfold mag3 at h
  norm_num at h

/-- the last row of the aligned rotation is the vector itself -/
theorem aligned_last (v : P3) (h : mag3 v = 1) : let R := R_aligned_to_vector v
    Orth R ∧ R.a20 = v.x ∧ R.a21 = v.y ∧ R.a22 = v.z := by
  obtain ⟨hR, hv⟩ := aligned_rotation v (unit_ne v h)
  have h1 : Real.sqrt (v.x ^ 2 + v.y ^ 2 + v.z ^ 2) = 1 := by
    have := unit_sq v h
    rw [show v.x ^ 2 + v.y ^ 2 + v.z ^ 2 = 1 by linear_combination this, Real.sqrt_one]
  rw [h1] at hv
  generalize R_aligned_to_vector v = R at *
  obtain ⟨c0, c1, c2, c01, c02, c12⟩ := hR.1.cols
  have hx := congrArg P3.x hv
  have hy := congrArg P3.y hv
  have hz := congrArg P3.z hv
  simp only [Pose.mulVec] at hx hy hz
  refine ⟨hR.1, ?_, ?_, ?_⟩
  · linear_combination (-R.a00) * hx - R.a10 * hy - R.a20 * hz + v.x * c0 + v.y * c01 + v.z * c02
  · linear_combination (-R.a01) * hx - R.a11 * hy - R.a21 * hz + v.x * c01 + v.y * c1 + v.z * c12
  · linear_combination (-R.a02) * hx - R.a12 * hy - R.a22 * hz + v.x * c02 + v.y * c12 + v.z * c2

theorem perp_iff (v : P3) (h : mag3 v = 1) (w : P3) : Perp v w ↔ ∃ α β, α ^ 2 + β ^ 2 = 1 ∧ w = comb (R_aligned_to_vector v) α β := by
  obtain ⟨hO, e0, e1, e2⟩ := aligned_last v h
  generalize R_aligned_to_vector v = R at *
  obtain ⟨c0, c1, c2, c01, c02, c12⟩ := hO.cols
  obtain ⟨r0, r1, r2, r01, r02, r12⟩ := hO.rows
  constructor
  · rintro ⟨hw, hp⟩
    have hw := unit_sq w hw
    rw [← e0, ← e1, ← e2] at hp
    have k0 : w.x = (R.a00 * w.x + R.a01 * w.y + R.a02 * w.z) * R.a00 + (R.a10 * w.x + R.a11 * w.y + R.a12 * w.z) * R.a10 := by
      linear_combination (-w.x) * c0 - w.y * c01 - w.z * c02 + R.a20 * hp
    have k1 : w.y = (R.a00 * w.x + R.a01 * w.y + R.a02 * w.z) * R.a01 + (R.a10 * w.x + R.a11 * w.y + R.a12 * w.z) * R.a11 := by
      linear_combination (-w.x) * c01 - w.y * c1 - w.z * c12 + R.a21 * hp
    have k2 : w.z = (R.a00 * w.x + R.a01 * w.y + R.a02 * w.z) * R.a02 + (R.a10 * w.x + R.a11 * w.y + R.a12 * w.z) * R.a12 := by
      linear_combination (-w.x) * c02 - w.y * c12 - w.z * c2 + R.a22 * hp
    refine ⟨R.a00 * w.x + R.a01 * w.y + R.a02 * w.z, R.a10 * w.x + R.a11 * w.y + R.a12 * w.z, ?_, ?_⟩
    · linear_combination hw - w.x * k0 - w.y * k1 - w.z * k2
    · ext <;> simp only [comb] <;> assumption
  · rintro ⟨α, β, hab, rfl⟩
    constructor
    · apply unit_of_sq
      simp only [comb]
      linear_combination α ^ 2 * r0 + β ^ 2 * r1 + 2 * α * β * r01 + hab
    · rw [← e0, ← e1, ← e2]
      simp only [comb]
      linear_combination α * r02 + β * r12

theorem tilt_deriv (v w : P3) : HasDerivAt (fun θ => (tilt v w θ).x) w.x 0 ∧ HasDerivAt (fun θ => (tilt v w θ).y) w.y 0 ∧ HasDerivAt (fun θ => (tilt v w θ).z) w.z 0 := by
  have key : ∀ a b : ℝ, HasDerivAt (fun θ => Real.cos θ * a + Real.sin θ * b) b 0 := by
    intro a b
    have := ((Real.hasDerivAt_cos 0).mul_const a).fun_add ((Real.hasDerivAt_sin 0).mul_const b)
    simpa using this
  exact ⟨key _ _, key _ _, key _ _⟩

theorem tilt_zero (v w : P3) : tilt v w 0 = v := by
  unfold tilt
  simp

/-- the velocity of a pixel, from the gradient -/
theorem velocity_iff (L : Lens) (intr : Int → ℝ) (v w gx gy : P3) (hx : GradAt (fun p => (pix L intr p).x) gx v) (hy : GradAt (fun p => (pix L intr p).y) gy v) (D : P2) :
    Velocity L intr v w D ↔ D = ⟨gx.x * w.x + gx.y * w.y + gx.z * w.z, gy.x * w.x + gy.y * w.y + gy.z * w.z⟩ := by
  obtain ⟨d1, d2, d3⟩ := tilt_deriv v w
  have h1 := hx (tilt v w) w 0 (tilt_zero v w) d1 d2 d3
  have h2 := hy (tilt v w) w 0 (tilt_zero v w) d1 d2 d3
  constructor
  · rintro ⟨a, b⟩
    ext
    · exact a.unique h1
    · exact b.unique h2
  · rintro rfl
    exact ⟨h1, h2⟩

theorem velocity_len (R : M3) (gx gy : P3) (α β : ℝ) :
    lenQ ⟨gx.x * (comb R α β).x + gx.y * (comb R α β).y + gx.z * (comb R α β).z, gy.x * (comb R α β).x + gy.y * (comb R α β).y + gy.z * (comb R α β).z⟩ ^ 2 =
      ((rowM R gx).x * (rowM R gx).x + (rowM R gy).x * (rowM R gy).x) * α ^ 2 + 2 * ((rowM R gx).x * (rowM R gx).y + (rowM R gy).x * (rowM R gy).y) * α * β +
        ((rowM R gx).y * (rowM R gx).y + (rowM R gy).y * (rowM R gy).y) * β ^ 2 := by
  unfold lenQ
  rw [Real.sq_sqrt (by positivity)]
  simp only [comb, rowM]
  ring

/-! ### C98 -/

/-- what `one` computes, if the ray and the gradient exist -/
theorem one_value (env : Env) (L : Lens) (hv : ValidLens L) (intr : Int → ℝ) (m : ProjMem) (mode : Mode) (q : P2) (v : P3) (h1 : mag3 v = 1)
    (hu : UnprojectPy.unproject L intr env.solve env.prev true q = some (NanP3.of v)) (hreg : LensRegular L intr v) :
    ∃ gx gy, GradAt (fun p => (pix L intr p).x) gx v ∧ GradAt (fun p => (pix L intr p).y) gy v ∧
      one L intr env.solve env.prev m mode q = some (some (report mode (eigenvalues (rowM (R_aligned_to_vector v) gx) (rowM (R_aligned_to_vector v) gy)))) := by
  obtain ⟨m', hm⟩ := project_succeeds L hv intr 1 (fun _ => v) true true m
  obtain ⟨gx, gy, -⟩ := (project_gradients L hv intr 1 (fun _ => v) m m' hm).1 0 (by norm_num) hreg
  refine ⟨m'.dp 0, m'.dp 1, gx, gy, ?_⟩
  unfold one
  rw [hu, Option.bind_some]
  simp only [UnprojectPy.finite, NanP3.of]
  rw [if_neg (unit_ne v h1), hm]
  rfl

/-- the pixel moves at least this much per radian, in each direction -/
def MovesAtLeast (L : Lens) (intr : Int → ℝ) (v : P3) (c : ℝ) : Prop := ∀ w D, Perp v w → Velocity L intr v w D → c ≤ lenQ D

/-- **C98**: a pixel, seen along `v`. If `v` is turned by an angle, in any direction, then the pixel moves. The reported 'min' and 'max' are the smallest and the largest angle (in degrees) per pixel of movement, among all the
directions; 'mean' is their average, 'eccentricity' is their ratio. We assume that the pixel moves by at least 1e-3 pixels per radian -/
theorem resolution_meaning (env : Env) (L : Lens) (hv : ValidLens L) (intr : Int → ℝ) (m : ProjMem) (q : P2) (v : P3) (h1 : mag3 v = 1)
    (hu : UnprojectPy.unproject L intr env.solve env.prev true q = some (NanP3.of v)) (hreg : LensRegular L intr v) (hmove : MovesAtLeast L intr v 1e-3) :
    ∃ rmin rmax, one L intr env.solve env.prev m .min q = some (some rmin) ∧ one L intr env.solve env.prev m .max q = some (some rmax) ∧ 0 < rmin ∧ rmin ≤ rmax ∧
      one L intr env.solve env.prev m .mean q = some (some ((rmin + rmax) / 2)) ∧ one L intr env.solve env.prev m .eccentricity q = some (some (rmax / rmin)) ∧
      (∀ w, Perp v w → ∃ D, Velocity L intr v w D ∧ rmin ≤ degPerPixel D ∧ degPerPixel D ≤ rmax) ∧
      (∃ w D, Perp v w ∧ Velocity L intr v w D ∧ degPerPixel D = rmin) ∧ (∃ w D, Perp v w ∧ Velocity L intr v w D ∧ degPerPixel D = rmax) := by
  obtain ⟨gx, gy, hx, hy, -⟩ := one_value env L hv intr m .min q v h1 hu hreg
  have value : ∀ mode, one L intr env.solve env.prev m mode q = some (some (report mode (eigenvalues (rowM (R_aligned_to_vector v) gx) (rowM (R_aligned_to_vector v) gy)))) := by
    intro mode
    obtain ⟨gx', gy', hx', hy', h⟩ := one_value env L hv intr m mode q v h1 hu hreg
    rw [h, hx.unique hx', hy.unique hy']
  obtain ⟨x, hX⟩ : ∃ x, x = rowM (R_aligned_to_vector v) gx := ⟨_, rfl⟩
  obtain ⟨y, hY⟩ : ∃ y, y = rowM (R_aligned_to_vector v) gy := ⟨_, rfl⟩
  rw [← hX, ← hY] at value
  obtain ⟨a, ha⟩ : ∃ a, a = x.x * x.x + y.x * y.x := ⟨_, rfl⟩
  obtain ⟨b, hb⟩ : ∃ b, b = x.x * x.y + y.x * y.y := ⟨_, rfl⟩
  obtain ⟨c, hc⟩ : ∃ c, c = x.y * x.y + y.y * y.y := ⟨_, rfl⟩
  obtain ⟨s, hs⟩ : ∃ s, s = Real.sqrt ((a - c) * (a - c) / 4 + b * b) := ⟨_, rfl⟩
  have hs2 : s ^ 2 = (a - c) * (a - c) / 4 + b * b := by
    rw [hs, Real.sq_sqrt]
    nlinarith [mul_self_nonneg (a - c), mul_self_nonneg b]
  have hs0 : 0 ≤ s := by rw [hs]; exact Real.sqrt_nonneg _
  -- the velocity in each direction
  have vel : ∀ α β : ℝ, α ^ 2 + β ^ 2 = 1 → ∃ w D, Perp v w ∧ Velocity L intr v w D ∧ w = comb (R_aligned_to_vector v) α β ∧ 0 ≤ lenQ D ∧ lenQ D ^ 2 = a * α ^ 2 + 2 * b * α * β + c * β ^ 2 := by
    intro α β hab
    refine ⟨_, _, (perp_iff v h1 _).mpr ⟨α, β, hab, rfl⟩, (velocity_iff L intr v _ gx gy hx hy _).mpr rfl, rfl, Real.sqrt_nonneg _, ?_⟩
    rw [velocity_len, ← hX, ← hY, ha, hb, hc]
  obtain ⟨α0, β0, n0, f0⟩ := form_attained a b c (-s) (by rw [neg_sq]; exact hs2)
  obtain ⟨α1, β1, n1, f1⟩ := form_attained a b c s hs2
  obtain ⟨w0, D0, p0, v0, -, l0, q0⟩ := vel α0 β0 n0
  obtain ⟨w1, D1, p1, v1, -, l1, q1⟩ := vel α1 β1 n1
  rw [f0] at q0
  rw [f1] at q1
  have m0 := hmove w0 D0 p0 v0
  have m1 := hmove w1 D1 p1 v1
  have hpos0 : 0 < lenQ D0 := lt_of_lt_of_le (by norm_num) m0
  have hpos1 : 0 < lenQ D1 := lt_of_lt_of_le (by norm_num) m1
  have hle : lenQ D0 ≤ lenQ D1 := by
    apply le_of_sq_le_sq _ l1
    rw [q0, q1]
    linarith
  have hmin : ¬ (a + c) / 2 - s < 1e-6 := by
    rw [not_lt]
    have : (1e-3 : ℝ) ^ 2 ≤ lenQ D0 ^ 2 := by
      apply pow_le_pow_left₀ _ m0
      norm_num
    rw [q0] at this
    norm_num at this ⊢
    linarith
  have eig : eigenvalues x y = (lenQ D0 ^ 2, lenQ D1 ^ 2) := by
    unfold eigenvalues
    dsimp only
    rw [← ha, ← hb, ← hc, ← hs, if_neg hmin, q0, q1]
    rfl
  have r0 : Real.sqrt (lenQ D0 ^ 2) = lenQ D0 := Real.sqrt_sq l0
  have r1 : Real.sqrt (lenQ D1 ^ 2) = lenQ D1 := Real.sqrt_sq l1
  have rep : ∀ D : P2, 1 / lenQ D * 180 / Real.pi = degPerPixel D := by
    intro D
    unfold degPerPixel
    ring
  have hpi : 0 < 180 / Real.pi := by positivity
  have mono : ∀ D D' : P2, 0 < lenQ D → lenQ D ≤ lenQ D' → degPerPixel D' ≤ degPerPixel D := by
    intro D D' h h'
    unfold degPerPixel
    exact div_le_div_of_nonneg_left hpi.le h h'
  simp only [value, eig, report, r0, r1, rep]
  refine ⟨degPerPixel D1, degPerPixel D0, rfl, rfl, div_pos hpi hpos1, mono D0 D1 hpos0 hle, rfl, rfl, ?_, ⟨w1, D1, p1, v1, rfl⟩, ⟨w0, D0, p0, v0, rfl⟩⟩
  intro w hw
  obtain ⟨α, β, hab, rfl⟩ := (perp_iff v h1 w).mp hw
  obtain ⟨w, D, hp, hV, hw', lD, qD⟩ := vel α β hab
  rw [hw'] at hV hp
  obtain ⟨b1, b2⟩ := form_bounds a b c α β hab
  rw [← hs, ← qD, ← q1] at b2
  rw [← hs, ← qD, show (a + c) / 2 - s = (a + c) / 2 + -s by ring, ← q0] at b1
  have posD : 0 < lenQ D := lt_of_lt_of_le (by norm_num) (hmove _ D hp hV)
  exact ⟨D, hV, mono D D1 posD (le_of_sq_le_sq b2 l1), mono D0 D hpos0 (le_of_sq_le_sq b1 lD)⟩

/-- **C98**: if in some direction the pixel moves by less than 1e-3 pixels per radian, then 'max' is 1000 rad/pixel -/
theorem resolution_clamped (env : Env) (L : Lens) (hv : ValidLens L) (intr : Int → ℝ) (m : ProjMem) (q : P2) (v : P3) (h1 : mag3 v = 1)
    (hu : UnprojectPy.unproject L intr env.solve env.prev true q = some (NanP3.of v)) (hreg : LensRegular L intr v) (w : P3) (D : P2) (hw : Perp v w) (hD : Velocity L intr v w D) (hs : lenQ D < 1e-3) :
    one L intr env.solve env.prev m .max q = some (some (1000 * (180 / Real.pi))) := by
  obtain ⟨gx, gy, hx, hy, h⟩ := one_value env L hv intr m .max q v h1 hu hreg
  obtain ⟨α, β, hab, rfl⟩ := (perp_iff v h1 w).mp hw
  have e := velocity_len (R_aligned_to_vector v) gx gy α β
  rw [← (velocity_iff L intr v _ gx gy hx hy D).mp hD] at e
  have l0 : 0 ≤ lenQ D := Real.sqrt_nonneg _
  have hlt : lenQ D ^ 2 < 1e-6 := by
    calc lenQ D ^ 2 < (1e-3) ^ 2 := by apply pow_lt_pow_left₀ hs l0; norm_num
      _ = 1e-6 := by norm_num
  rw [e] at hlt
  have k := (form_bounds _ _ _ α β hab).1.trans_lt hlt
  rw [h]
  unfold eigenvalues
  dsimp only [report]
  rw [if_pos k]
  have : Real.sqrt (1e-6 : ℝ) = 1e-3 := by
    rw [show (1e-6 : ℝ) = (1e-3) ^ 2 by norm_num]
    exact Real.sqrt_sq (by norm_num)
  rw [this]
  norm_num
  ring

/-- **C98**: an array of pixels: there's a result for each one. It's NaN if the pixel cannot be unprojected -/
theorem resolution_succeeds (env : Env) (hs : SolverReports env.solve) (c : Model) (hc : Usable c) (m : ProjMem) (mode : Mode) (qs : List P2) :
    ∃ r, modelResolution c.lens c.intr env.solve env.prev m mode (.array qs) = some r ∧ r.length = qs.length ∧
      ∀ (i : Nat) q, qs[i]? = some q → ∃ x, r[i]? = some x ∧ one c.lens c.intr env.solve env.prev m mode q = some x ∧ (x = none ↔ ¬ ∃ v, Ray env c q v) := by
  have total : ∀ q, ∃ x, one c.lens c.intr env.solve env.prev m mode q = some x ∧ (x = none ↔ ¬ ∃ v, Ray env c q v) := by
    intro q
    obtain ⟨v, hu, h⟩ := ray_cases env hs c hc q
    obtain ⟨m', hm⟩ := project_succeeds c.lens hc.valid c.intr 1 (fun _ => v) true true m
    unfold one
    rw [hu, Option.bind_some]
    simp only [UnprojectPy.finite, NanP3.of]
    rcases h with ⟨rfl, -⟩ | ⟨h1, -⟩
    · rw [if_pos rfl]
      refine ⟨none, rfl, iff_of_true rfl ?_⟩
      rintro ⟨w, hw, hw'⟩
      rw [hu] at hw'
      have e := Option.some.inj hw'
      simp only [NanP3.of, NanP3.mk.injEq, Option.some.injEq] at e
      apply unit_ne w hw
      ext
      · exact e.1.symm
      · exact e.2.1.symm
      · exact e.2.2.symm
    · rw [if_neg (unit_ne v h1), hm]
      exact ⟨_, rfl, iff_of_false (by simp) (not_not.mpr ⟨v, h1, hu⟩)⟩
  obtain ⟨r, hr⟩ := mapM_total (one c.lens c.intr env.solve env.prev m mode) qs fun q _ => (total q).imp fun _ h => h.1
  obtain ⟨hl, hg⟩ := mapM_get _ _ _ hr
  refine ⟨r, hr, hl, fun i q hq => ?_⟩
  obtain ⟨x, hx, hx'⟩ := hg i q hq
  obtain ⟨y, hy, hy'⟩ := total q
  rw [hy] at hx'
  cases hx'
  exact ⟨x, hx, hy, hy'⟩

/-- The documentation says that this function supports broadcasting fully. But one pixel is an exception -/
theorem resolution_single_wrong (L : Lens) (intr : Int → ℝ) (solve : Solver) (prev : NanP3) (m : ProjMem) (mode : Mode) (q : P2) : modelResolution L intr solve prev m mode (.single q) = none := rfl

/-! ### cases -/

/-- a pinhole camera, looking forward: the pixel moves by 1 in each direction -/
theorem resolution_case : ∃ env m, Usable m ∧ Ray env m ⟨0, 0⟩ ⟨0, 0, 1⟩ ∧ LensRegular m.lens m.intr ⟨0, 0, 1⟩ ∧ MovesAtLeast m.lens m.intr ⟨0, 0, 1⟩ 1e-3 := by
  have hreg : LensRegular camA.lens camA.intr ⟨0, 0, 1⟩ := ⟨camA_usable.fx, camA_usable.fy, by show (1 : ℝ) ≠ 0; norm_num⟩
  refine ⟨envA, camA, camA_usable, rayA, hreg, ?_⟩
  intro w D hw hD
  obtain ⟨gx, gy⟩ := pinhole_grad (coreOf camA.intr) ⟨0, 0, 1⟩ (by norm_num)
  have e := (velocity_iff camA.lens camA.intr ⟨0, 0, 1⟩ w _ _ gx gy D).mp hD
  have hz : w.z = 0 := by have := hw.2; simpa using this
  have h1 := unit_sq w hw.1
  rw [e]
  unfold lenQ
  have : (1 : ℝ) ≤ Real.sqrt 1 := by rw [Real.sqrt_one]
  refine le_trans (by norm_num) (this.trans (Real.sqrt_le_sqrt ?_))
  rw [hz] at h1 ⊢
  simp [pinhole, coreOf, camA, cam]
  nlinarith

/-- `resolution_clamped`: a camera with an extremely short focal length -/
example : ∃ env m w D, Usable m ∧ Ray env m ⟨0, 0⟩ ⟨0, 0, 1⟩ ∧ LensRegular m.lens m.intr ⟨0, 0, 1⟩ ∧ Perp ⟨0, 0, 1⟩ w ∧ Velocity m.lens m.intr ⟨0, 0, 1⟩ w D ∧ lenQ D < 1e-3 := by
  obtain ⟨intr, hi⟩ : ∃ intr : Int → ℝ, intr = fun i => if i = 0 ∨ i = 1 then 1e-4 else 0 := ⟨_, rfl⟩
  have h0 : intr 0 = 1e-4 := by rw [hi]; norm_num
  have h1 : intr 1 = 1e-4 := by rw [hi]; norm_num
  have h2 : intr 2 = 0 := by rw [hi]; norm_num
  have h3 : intr 3 = 0 := by rw [hi]; norm_num
  have hc : coreOf intr = ⟨1e-4, 1e-4, 0, 0⟩ := by unfold coreOf; rw [h0, h1, h2, h3]
  have hm : mag3 ⟨0, 0, 1⟩ = 1 := by unfold mag3; norm_num
  have hu : Usable { camA with intr := intr } := ⟨camA_usable.rot, camA_usable.valid, camA_usable.central, by show intr 0 ≠ 0; rw [h0]; norm_num, by show intr 1 ≠ 0; rw [h1]; norm_num⟩
  obtain ⟨gx, gy⟩ := pinhole_grad (coreOf intr) ⟨0, 0, 1⟩ (by norm_num)
  refine ⟨envA, { camA with intr := intr }, ⟨1, 0, 0⟩, _, hu, ⟨hm, ?_⟩, ⟨hu.fx, hu.fy, by show (1 : ℝ) ≠ 0; norm_num⟩, ⟨by unfold mag3; norm_num, by norm_num⟩, (velocity_iff .pinhole intr ⟨0, 0, 1⟩ ⟨1, 0, 0⟩ _ _ gx gy _).mpr rfl, ?_⟩
  · show some (NanP3.of (UnprojectPy.normalized (unpinhole (coreOf intr) ⟨0, 0⟩).v)) = _
    have e : (unpinhole (coreOf intr) ⟨0, 0⟩).v = ⟨0, 0, 1⟩ := by
      rw [hc]
      unfold unpinhole
      norm_num
    rw [e]
    unfold UnprojectPy.normalized
    simp only [UnprojectPy.mag_eq, hm]
    norm_num
  · rw [hc]
    unfold lenQ pinhole
    rw [Real.sqrt_lt' (by norm_num)]
    norm_num

end Mrcal.Resolution
