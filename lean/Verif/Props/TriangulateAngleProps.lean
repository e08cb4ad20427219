import Verif.Props.TriangulateProps
import Mathlib.Analysis.SpecialFunctions.Trigonometric.Inverse
/-
C33, C34, C60, C61: the angular triangulation methods: Lee-Civera L1 and Linf.
-/
namespace Mrcal.Tri
open Mrcal.AD

variable {N : Nat}

/-! ### the specification -/

/-- the angle between two vectors -/
noncomputable def ang (a b : P3) : ℝ := Real.arccos (dotp a b / (Real.sqrt (len2 a) * Real.sqrt (len2 b)))

/-- two rays, from camera 0 along u0, from camera 1 along u1, lie in a plane that contains both cameras -/
def Coplanar (u0 u1 t : P3) : Prop := dotp (crossp u0 u1) t = 0

/-- the observations aren't both along the baseline -/
def NotBaseline (v0 v1 t : P3) : Prop := crossp v0 t ≠ zerop ∨ crossp v1 t ≠ zerop

/-! ### projecting onto a plane -/

/-- the projection of `v` to the plane with normal `n` -/
noncomputable def po (v n : P3) : P3 := subp v (sm (dotp v n / len2 n) n)

theorem projectOut_value (V n : Vec3 N) : (projectOut V n).value = po V.value n.value := by
  simp only [projectOut, sub_value, divV_value, mulV_value, dot_x, norm2_x, po]
  ext <;> simp only [subp, sm] <;> ring

theorem po_perp (v n : P3) (h : n ≠ zerop) : dotp (po v n) n = 0 := by
  have hn : len2 n ≠ 0 := fun h0 => h (len2_zero.1 h0)
  have : dotp (po v n) n = dotp v n - dotp v n / len2 n * len2 n := by
    simp only [po, dotp, subp, sm, len2]; ring
  rw [this, div_mul_cancel₀ _ hn, sub_self]

theorem po_self (v n : P3) (h : dotp v n = 0) : po v n = v := by
  simp only [po, h, zero_div]
  ext <;> simp [subp, sm]

theorem len2_pos {a : P3} (h : a ≠ zerop) : 0 < len2 a :=
  lt_of_le_of_ne (len2_nonneg a) fun h0 => h (len2_zero.1 h0.symm)

theorem cauchy (a b : P3) : dotp a b * dotp a b ≤ len2 a * len2 b := by
  have := lagrange a b
  have := len2_nonneg (crossp a b)
  linarith

theorem sin_sq_bound (v u m : P3) (hu : dotp u m = 0) :
    dotp v u * dotp v u * len2 m + dotp v m * dotp v m * len2 u ≤ len2 v * len2 u * len2 m := by
  have : len2 v * len2 u * len2 m - dotp v u * dotp v u * len2 m - dotp v m * dotp v m * len2 u =
      dotp v (crossp u m) * dotp v (crossp u m) := by
    simp only [len2, dotp, crossp] at *
    linear_combination (-2 * (v.x * u.x + v.y * u.y + v.z * u.z) * (v.x * m.x + v.y * m.y + v.z * m.z) + (v.x * v.x + v.y * v.y + v.z * v.z) * (u.x * m.x + u.y * m.y + u.z * m.z)) * hu
  nlinarith [mul_self_nonneg (dotp v (crossp u m))]

/-- the sine of the angle between `v` and the plane with normal `m` -/
noncomputable def sinPlane (v m : P3) : ℝ := |dotp v m| / (Real.sqrt (len2 v) * Real.sqrt (len2 m))

theorem sinPlane_nonneg (v m : P3) : 0 ≤ sinPlane v m := by unfold sinPlane; positivity

theorem sinPlane_sq (v m : P3) : sinPlane v m ^ 2 = dotp v m * dotp v m / (len2 v * len2 m) := by
  unfold sinPlane
  rw [div_pow, mul_pow, Real.sq_sqrt (len2_nonneg _), Real.sq_sqrt (len2_nonneg _), sq_abs]
  ring

theorem sinPlane_le_one (v m : P3) : sinPlane v m ≤ 1 := by
  have h := sinPlane_sq v m
  have : sinPlane v m ^ 2 ≤ 1 := by
    rw [h]
    exact div_le_one_of_le₀ (cauchy v m) (mul_nonneg (len2_nonneg _) (len2_nonneg _))
  nlinarith [sinPlane_nonneg v m]

/-- no ray in a plane is nearer to `v` than the plane is -/
theorem ang_ge (v u m : P3) (hv : v ≠ zerop) (hu : u ≠ zerop) (hm : m ≠ zerop) (hum : dotp u m = 0) :
    Real.arcsin (sinPlane v m) ≤ ang v u := by
  have lv := len2_pos hv
  have lu := len2_pos hu
  have lm := len2_pos hm
  rw [Real.arcsin_eq_arccos (sinPlane_nonneg v m), ang]
  apply Real.arccos_le_arccos
  apply Real.le_sqrt_of_sq_le
  rw [sinPlane_sq, div_pow, mul_pow, Real.sq_sqrt lv.le, Real.sq_sqrt lu.le]
  have hb := sin_sq_bound v u m hum
  rw [div_le_iff₀ (by positivity), sub_mul, div_mul_eq_mul_div, le_sub_iff_add_le, ← le_sub_iff_add_le', div_le_iff₀ (by positivity)]
  nlinarith

/-- the projection to a plane achieves this -/
theorem ang_po (v m : P3) (hv : v ≠ zerop) (hm : m ≠ zerop) (hu : po v m ≠ zerop) :
    ang v (po v m) = Real.arcsin (sinPlane v m) := by
  have lv := len2_pos hv
  have lu := len2_pos hu
  have lm := len2_pos hm
  have hp := po_perp v m hm
  have h1 : dotp v (po v m) = len2 (po v m) := by
    have : dotp v (po v m) = len2 (po v m) + dotp v m / len2 m * dotp (po v m) m := by
      simp only [po, dotp, subp, sm, len2]; ring
    rw [this, hp]; ring
  have h2 : len2 (po v m) = len2 v - dotp v m * dotp v m / len2 m := by
    have : len2 (po v m) = len2 v - 2 * (dotp v m / len2 m) * dotp v m + (dotp v m / len2 m) ^ 2 * len2 m := by
      generalize hk : dotp v m / len2 m = k
      simp only [po, hk]
      simp only [dotp, subp, sm, len2]; ring
    rw [this]; field_simp; ring
  rw [Real.arcsin_eq_arccos (sinPlane_nonneg v m), ang, h1]
  congr 1
  rw [sinPlane_sq]
  symm
  rw [Real.sqrt_eq_iff_mul_self_eq]
  · have e1 := Real.mul_self_sqrt lv.le
    have e2 := Real.mul_self_sqrt lu.le
    have p1 := Real.sqrt_pos.2 lv
    have p2 := Real.sqrt_pos.2 lu
    have : len2 (po v m) / (Real.sqrt (len2 v) * Real.sqrt (len2 (po v m))) * (len2 (po v m) / (Real.sqrt (len2 v) * Real.sqrt (len2 (po v m))))
        = len2 (po v m) / len2 v := by
      rw [div_mul_div_comm, show Real.sqrt (len2 v) * Real.sqrt (len2 (po v m)) * (Real.sqrt (len2 v) * Real.sqrt (len2 (po v m))) =
        len2 v * len2 (po v m) by rw [← e1, ← e2]; simp only [Real.sqrt_mul_self (Real.sqrt_nonneg _)]; ring]
      field_simp
    rw [this, h2]
    field_simp
  · rw [sub_nonneg]
    exact div_le_one_of_le₀ (cauchy v m) (by positivity)
  · positivity

theorem len2_sm (k : ℝ) (a : P3) : len2 (sm k a) = k ^ 2 * len2 a := by simp only [len2, dotp, sm]; ring
theorem dotp_sm (k : ℝ) (a b : P3) : dotp a (sm k b) = k * dotp a b := by simp only [dotp, sm]; ring
theorem dotp_sm_left (k : ℝ) (a b : P3) : dotp (sm k a) b = k * dotp a b := by simp only [dotp, sm]; ring

theorem ang_sm (v u : P3) (k : ℝ) (hk : 0 < k) : ang v (sm k u) = ang v u := by
  unfold ang
  congr 1
  rw [len2_sm, dotp_sm, Real.sqrt_mul (by positivity), Real.sqrt_sq hk.le]
  rw [show Real.sqrt (len2 v) * (k * Real.sqrt (len2 u)) = k * (Real.sqrt (len2 v) * Real.sqrt (len2 u)) by ring]
  exact mul_div_mul_left _ _ hk.ne'

theorem ang_sm_left (v u : P3) (k : ℝ) (hk : 0 < k) : ang (sm k v) u = ang v u := by
  unfold ang
  congr 1
  rw [len2_sm, dotp_sm_left, Real.sqrt_mul (by positivity), Real.sqrt_sq hk.le]
  rw [show k * Real.sqrt (len2 v) * Real.sqrt (len2 u) = k * (Real.sqrt (len2 v) * Real.sqrt (len2 u)) by ring]
  exact mul_div_mul_left _ _ hk.ne'

theorem ang_self (v : P3) (h : v ≠ zerop) : ang v v = 0 := by
  have lv := len2_pos h
  unfold ang
  rw [Real.mul_self_sqrt lv.le, ← len2, div_self lv.ne', Real.arccos_one]

/-- any point lies in a plane with the two cameras -/
theorem exists_normal (t x : P3) (ht : t ≠ zerop) : ∃ m, m ≠ zerop ∧ dotp m t = 0 ∧ dotp m x = 0 := by
  by_cases h : crossp x t = zerop
  · have hx : x.y * t.z - x.z * t.y = 0 := congrArg P3.x h
    have hy : x.z * t.x - x.x * t.z = 0 := congrArg P3.y h
    by_cases h1 : (⟨0, -t.z, t.y⟩ : P3) = zerop
    · refine ⟨⟨t.z, 0, -t.x⟩, ?_, ?_, ?_⟩
      · intro h2
        apply ht
        have a1 : -t.z = 0 := congrArg P3.y h1
        have a2 : t.y = 0 := congrArg P3.z h1
        have a3 : -t.x = 0 := congrArg P3.z h2
        ext <;> simp only [zerop] <;> linarith
      · simp only [dotp]; ring
      · simp only [dotp]; linarith
    · refine ⟨_, h1, ?_, ?_⟩
      · simp only [dotp]; ring
      · simp only [dotp]; linarith
  · exact ⟨crossp x t, h, by simp only [dotp, crossp]; ring, by simp only [dotp, crossp]; ring⟩

/-! ### L1 -/

/-- a bound of the sum of two angles -/
theorem arcsin_sum (x y p q A B R : ℝ) (hx : 0 ≤ x) (hy : 0 ≤ y) (hp : 0 ≤ p) (hq : 0 ≤ q) (hx1 : x ≤ 1) (hy1 : y ≤ 1)
    (hA : x ^ 2 + p ^ 2 = A ^ 2) (hB : y ^ 2 + q ^ 2 = B ^ 2) (hA0 : 0 ≤ A) (hAB : A ≤ B) (hB0 : 0 < B) (hB1 : B ≤ 1) (hR : R * B ≤ x * q + p * y) :
    Real.arcsin R ≤ Real.arcsin x + Real.arcsin y := by
  have hq' : q ≤ B * Real.sqrt (1 - y ^ 2) := by
    rw [← Real.sqrt_sq hB0.le, ← Real.sqrt_mul (by positivity)]
    apply Real.le_sqrt_of_sq_le
    have : B ^ 2 ≤ 1 := by nlinarith
    nlinarith [sq_nonneg y]
  have hp' : p ≤ B * Real.sqrt (1 - x ^ 2) := by
    rw [← Real.sqrt_sq hB0.le, ← Real.sqrt_mul (by positivity)]
    apply Real.le_sqrt_of_sq_le
    have h1 : B ^ 2 ≤ 1 := by nlinarith
    have h2 : A ^ 2 ≤ B ^ 2 := by nlinarith
    nlinarith [sq_nonneg x]
  have hR' : R ≤ x * Real.sqrt (1 - y ^ 2) + y * Real.sqrt (1 - x ^ 2) := by
    have : R * B ≤ (x * Real.sqrt (1 - y ^ 2) + y * Real.sqrt (1 - x ^ 2)) * B := by
      have := mul_le_mul_of_nonneg_left hq' hx
      have := mul_le_mul_of_nonneg_left hp' hy
      linarith
    exact le_of_mul_le_mul_right this hB0
  have ax := Real.arcsin_nonneg.2 hx
  have ay := Real.arcsin_nonneg.2 hy
  by_cases hs : Real.arcsin x + Real.arcsin y ≤ Real.pi / 2
  · have hsin : Real.sin (Real.arcsin x + Real.arcsin y) = x * Real.sqrt (1 - y ^ 2) + y * Real.sqrt (1 - x ^ 2) := by
      rw [Real.sin_add, Real.cos_arcsin, Real.cos_arcsin, Real.sin_arcsin (by linarith) hx1, Real.sin_arcsin (by linarith) hy1]
      ring
    rw [← hsin] at hR'
    calc Real.arcsin R ≤ Real.arcsin (Real.sin (Real.arcsin x + Real.arcsin y)) := Real.monotone_arcsin hR'
      _ = _ := Real.arcsin_sin (by linarith) hs
  · exact (Real.arcsin_le_pi_div_two R).trans (not_le.1 hs).le

theorem triple_sq (v t m : P3) (hmt : dotp m t = 0) :
    dotp v m * dotp v m * len2 t + dotp v (crossp t m) * dotp v (crossp t m) = len2 (crossp v t) * len2 m := by
  simp only [len2, dotp, crossp] at *
  linear_combination (-(v.x * v.x + v.y * v.y + v.z * v.z) * (m.x * t.x + m.y * t.y + m.z * t.z) + 2 * (v.x * m.x + v.y * m.y + v.z * m.z) * (v.x * t.x + v.y * t.y + v.z * t.z)) * hmt

theorem triple_expand (v0 v1 t m : P3) (hmt : dotp m t = 0) :
    dotp v0 m * dotp v1 (crossp t m) - dotp v0 (crossp t m) * dotp v1 m = dotp (crossp v0 v1) t * len2 m := by
  simp only [len2, dotp, crossp] at *
  linear_combination (-((v0.y * v1.z - v0.z * v1.y) * m.x + (v0.z * v1.x - v0.x * v1.z) * m.y + (v0.x * v1.y - v0.y * v1.x) * m.z)) * hmt

/-- the cost of moving only one ray is a lower bound of the total cost -/
theorem one_ray_bound (v0 v1 t m : P3) (h0 : v0 ≠ zerop) (h1 : v1 ≠ zerop) (ht : t ≠ zerop) (hm : m ≠ zerop) (hmt : dotp m t = 0)
    (hn : crossp v1 t ≠ zerop) (hle : len2 v1 * len2 (crossp v0 t) ≤ len2 v0 * len2 (crossp v1 t)) :
    Real.arcsin (sinPlane v0 (crossp v1 t)) ≤ Real.arcsin (sinPlane v0 m) + Real.arcsin (sinPlane v1 m) := by
  have l0 := len2_pos h0
  have l1 := len2_pos h1
  have lt := len2_pos ht
  have lm := len2_pos hm
  have ln := len2_pos hn
  have s0 := Real.sqrt_pos.2 l0
  have s1 := Real.sqrt_pos.2 l1
  have st := Real.sqrt_pos.2 lt
  have sm_ := Real.sqrt_pos.2 lm
  have sn := Real.sqrt_pos.2 ln
  have e0 := Real.sq_sqrt l0.le
  have e1 := Real.sq_sqrt l1.le
  have et := Real.sq_sqrt lt.le
  have em := Real.sq_sqrt lm.le
  have en := Real.sq_sqrt ln.le
  have en0 := Real.sq_sqrt (len2_nonneg (crossp v0 t))
  have q0 := triple_sq v0 t m hmt
  have q1 := triple_sq v1 t m hmt
  have ex := triple_expand v0 v1 t m hmt
  have sn0 := Real.sqrt_nonneg (len2 (crossp v0 t))
  have hT : |dotp v0 (crossp v1 t)| = |dotp (crossp v0 v1) t| := by
    congr 1; simp only [dotp, crossp]; ring
  have cs := lagrange v1 t
  have csn := mul_self_nonneg (dotp v1 t)
  refine arcsin_sum (sinPlane v0 m) (sinPlane v1 m)
    (|dotp v0 (crossp t m)| / (Real.sqrt (len2 v0) * Real.sqrt (len2 t) * Real.sqrt (len2 m)))
    (|dotp v1 (crossp t m)| / (Real.sqrt (len2 v1) * Real.sqrt (len2 t) * Real.sqrt (len2 m)))
    (Real.sqrt (len2 (crossp v0 t)) / (Real.sqrt (len2 v0) * Real.sqrt (len2 t)))
    (Real.sqrt (len2 (crossp v1 t)) / (Real.sqrt (len2 v1) * Real.sqrt (len2 t))) _
    (sinPlane_nonneg _ _) (sinPlane_nonneg _ _) (by positivity) (by positivity) (sinPlane_le_one _ _) (sinPlane_le_one _ _) ?_ ?_ (by positivity) ?_ (by positivity) ?_ ?_
  · simp only [sinPlane_sq, div_pow, mul_pow, sq_abs, e0, et, em, en0]
    field_simp
    linarith
  · simp only [sinPlane_sq, div_pow, mul_pow, sq_abs, e1, et, em, en]
    field_simp
    linarith
  · rw [div_le_div_iff₀ (by positivity) (by positivity)]
    have : Real.sqrt (len2 (crossp v0 t)) * Real.sqrt (len2 v1) ≤ Real.sqrt (len2 (crossp v1 t)) * Real.sqrt (len2 v0) := by
      rw [← Real.sqrt_mul (len2_nonneg _), ← Real.sqrt_mul (len2_nonneg _)]
      apply Real.sqrt_le_sqrt; linarith
    nlinarith
  · rw [div_le_one (by positivity), ← Real.sqrt_mul l1.le]
    apply Real.sqrt_le_sqrt; linarith
  · unfold sinPlane
    rw [hT]
    have habs : |dotp (crossp v0 v1) t| * len2 m ≤ |dotp v0 m| * |dotp v1 (crossp t m)| + |dotp v0 (crossp t m)| * |dotp v1 m| := by
      have e := congrArg abs ex
      rw [abs_mul, abs_of_pos lm] at e
      rw [← abs_mul, ← abs_mul, ← e]
      exact abs_sub _ _
    generalize |dotp (crossp v0 v1) t| = T at *
    generalize |dotp v0 m| = a at *
    generalize |dotp v1 m| = b at *
    generalize |dotp v0 (crossp t m)| = c at *
    generalize |dotp v1 (crossp t m)| = d at *
    rw [← em] at habs
    generalize Real.sqrt (len2 v0) = S0 at *
    generalize Real.sqrt (len2 v1) = S1 at *
    generalize Real.sqrt (len2 t) = St at *
    generalize Real.sqrt (len2 m) = Sm at *
    generalize Real.sqrt (len2 (crossp v1 t)) = Sn at *
    rw [show T / (S0 * Sn) * (Sn / (S1 * St)) = T * Sm ^ 2 / (S0 * S1 * St * Sm ^ 2) by field_simp,
      show a / (S0 * Sm) * (d / (S1 * St * Sm)) + c / (S0 * St * Sm) * (b / (S1 * Sm)) = (a * d + c * b) / (S0 * S1 * St * Sm ^ 2) by field_simp]
    exact div_le_div_of_nonneg_right habs (by positivity)

/-- the corrected observations -/
noncomputable def l1c (v0 v1 t : P3) : P3 × P3 :=
  if dotp v0 t * dotp v0 t * len2 v1 > dotp v1 t * dotp v1 t * len2 v0 then (po v0 (crossp v1 t), v1) else (v0, po v1 (crossp v0 t))

theorem l1Correct_value (V0 V1 T : Vec3 N) :
    (l1Correct V0 V1 T).1.value = (l1c V0.value V1.value T.value).1 ∧ (l1Correct V0 V1 T).2.value = (l1c V0.value V1.value T.value).2 := by
  simp only [l1Correct, l1c, norm2_x, dot_x]
  by_cases h : dotp V0.value T.value * dotp V0.value T.value * len2 V1.value > dotp V1.value T.value * dotp V1.value T.value * len2 V0.value
  · simp only [if_pos h, projectOut_value, cross_value, and_self]
  · simp only [if_neg h, projectOut_value, cross_value, and_self]

/-- the divisor is never 0 -/
theorem l1_cases (v0 v1 t : P3) (h0 : v0 ≠ zerop) (hb : NotBaseline v0 v1 t) :
    (l1c v0 v1 t = (po v0 (crossp v1 t), v1) ∧ crossp v1 t ≠ zerop ∧ len2 v1 * len2 (crossp v0 t) ≤ len2 v0 * len2 (crossp v1 t)) ∨
    (l1c v0 v1 t = (v0, po v1 (crossp v0 t)) ∧ crossp v0 t ≠ zerop ∧ len2 v0 * len2 (crossp v1 t) ≤ len2 v1 * len2 (crossp v0 t)) := by
  have L0 := lagrange v0 t
  have L1 := lagrange v1 t
  have n0 := len2_nonneg (crossp v0 t)
  have n1 := len2_nonneg (crossp v1 t)
  have p0 := len2_pos h0
  have p1 := len2_nonneg v1
  unfold l1c
  split_ifs with h
  · left
    refine ⟨rfl, ?_, ?_⟩
    · intro hz
      have h1 : len2 (crossp v1 t) = 0 := len2_zero.2 hz
      rw [h1] at L1
      have := mul_nonneg p1 n0
      nlinarith
    · nlinarith
  · right
    refine ⟨rfl, ?_, ?_⟩
    · intro hz
      rcases hb with hb | hb
      · exact hb hz
      · have h1 : len2 (crossp v0 t) = 0 := len2_zero.2 hz
        have h2 := len2_pos hb
        rw [h1] at L0
        have := mul_pos p0 h2
        nlinarith
    · nlinarith

/-- **C33**: the L1 corrections make the rays intersect: they lie in a plane with both cameras -/
theorem l1_coplanar (v0 v1 t : P3) (h0 : v0 ≠ zerop) (hb : NotBaseline v0 v1 t) :
    let c := l1Correct (N := 9) (Vec3.init v0 (some 0)) (Vec3.init v1 (some 3)) (Vec3.init t (some 6))
    Coplanar c.1.value c.2.value t := by
  intro c
  have hv : c.1.value = (l1c v0 v1 t).1 ∧ c.2.value = (l1c v0 v1 t).2 := l1Correct_value (N := 9) _ _ _
  rw [hv.1, hv.2]
  rcases l1_cases v0 v1 t h0 hb with ⟨e, hn, _⟩ | ⟨e, hn, _⟩
  · rw [e]
    have := po_perp v0 _ hn
    simp only [Coplanar]
    rw [← this]; simp only [dotp, crossp]; ring
  · rw [e]
    have := po_perp v1 _ hn
    simp only [Coplanar]
    rw [← neg_eq_zero, ← this]; simp only [dotp, crossp]; ring

example : (⟨0, 0, 1⟩ : P3) ≠ zerop ∧ NotBaseline ⟨0, 0, 1⟩ ⟨-1, 0.1, 1⟩ ⟨1, 0, 0⟩ := by
  constructor
  · intro h; have := congrArg P3.z h; simp [zerop] at this
  · left; intro h; have := congrArg P3.y h; norm_num [zerop, crossp] at this

theorem cheaper (v0 v1 t : P3) (h0 : v0 ≠ zerop) (h1 : v1 ≠ zerop) (hn : crossp v1 t ≠ zerop) (hle : len2 v1 * len2 (crossp v0 t) ≤ len2 v0 * len2 (crossp v1 t)) :
    sinPlane v0 (crossp v1 t) ≤ sinPlane v1 (crossp v0 t) := by
  have s0 := Real.sqrt_pos.2 (len2_pos h0)
  have s1 := Real.sqrt_pos.2 (len2_pos h1)
  have sn := Real.sqrt_pos.2 (len2_pos hn)
  have e : dotp v0 (crossp v1 t) = -dotp v1 (crossp v0 t) := by simp only [dotp, crossp]; ring
  by_cases hz : crossp v0 t = zerop
  · have : dotp v1 (crossp v0 t) = 0 := by rw [hz]; simp [dotp, zerop]
    simp [sinPlane, e, this]
  · have sm_ := Real.sqrt_pos.2 (len2_pos hz)
    unfold sinPlane
    rw [e, abs_neg]
    apply div_le_div_of_nonneg_left (abs_nonneg _) (by positivity)
    rw [← Real.sqrt_mul (len2_nonneg _), ← Real.sqrt_mul (len2_nonneg _)]
    exact Real.sqrt_le_sqrt hle

/-- **C33**: only one ray moves, and it's the one that needs the smaller rotation: the sine of its angle to the plane of the other ray is the smaller one.
And it moves to the nearest ray in that plane -/
theorem l1_moves_one (v0 v1 t : P3) (h0 : v0 ≠ zerop) (h1 : v1 ≠ zerop) (hb : NotBaseline v0 v1 t) :
    let c := l1Correct (N := 9) (Vec3.init v0 (some 0)) (Vec3.init v1 (some 3)) (Vec3.init t (some 6))
    (c.2.value = v1 ∧
      sinPlane v0 (crossp v1 t) ≤ sinPlane v1 (crossp v0 t) ∧
      ∀ u, u ≠ zerop → dotp u (crossp v1 t) = 0 → c.1.value ≠ zerop → ang v0 c.1.value ≤ ang v0 u) ∨
    (c.1.value = v0 ∧ sinPlane v1 (crossp v0 t) ≤ sinPlane v0 (crossp v1 t) ∧
      ∀ u, u ≠ zerop → dotp u (crossp v0 t) = 0 → c.2.value ≠ zerop → ang v1 c.2.value ≤ ang v1 u) := by
  intro c
  have hv : c.1.value = (l1c v0 v1 t).1 ∧ c.2.value = (l1c v0 v1 t).2 := l1Correct_value (N := 9) _ _ _
  rw [hv.1, hv.2]
  rcases l1_cases v0 v1 t h0 hb with ⟨e, hn, hle⟩ | ⟨e, hn, hle⟩
  · left
    rw [e]
    refine ⟨rfl, cheaper v0 v1 t h0 h1 hn hle, fun u hu hum hc => ?_⟩
    rw [ang_po v0 _ h0 hn hc]
    exact ang_ge v0 u _ h0 hu hn hum
  · right
    rw [e]
    refine ⟨rfl, cheaper v1 v0 t h1 h0 hn hle, fun u hu hum hc => ?_⟩
    rw [ang_po v1 _ h1 hn hc]
    exact ang_ge v1 u _ h1 hu hn hum

/-- **C61**: the point reported by the L1 method minimizes the sum of the two angular errors, over all points in space -/
theorem l1_optimal (v0 v1 t : P3) (m : Vec3 9) (h : seeded leeciveraL1 v0 v1 t = some m) (h0 : v0 ≠ zerop) (h1 : v1 ≠ zerop)
    (hb : NotBaseline v0 v1 t) (hmt : m.value ≠ t) (x : P3) (hx : x ≠ zerop) (hxt : x ≠ t) :
    ang v0 m.value + ang v1 (subp m.value t) ≤ ang v0 x + ang v1 (subp x t) := by
  have hco := l1_coplanar v0 v1 t h0 hb
  have hv : (l1Correct (N := 9) (Vec3.init v0 (some 0)) (Vec3.init v1 (some 3)) (Vec3.init t (some 6))).1.value = (l1c v0 v1 t).1 ∧
    (l1Correct (N := 9) (Vec3.init v0 (some 0)) (Vec3.init v1 (some 3)) (Vec3.init t (some 6))).2.value = (l1c v0 v1 t).2 := l1Correct_value (N := 9) _ _ _
  have hi := assumeIntersect_val _ _ _ m (by have h := hco; simp only [Coplanar] at h; simpa only [init_value] using h) h
  simp only [hv.1, hv.2, init_value] at hi
  obtain ⟨hg, k0, k1, hk0, hk1, e0, e1⟩ := hi
  have hu0 : (l1c v0 v1 t).1 ≠ zerop := by
    intro hz; rw [hz] at hg; simp [GoodIntersection, crossp, zerop] at hg; norm_num at hg
  have hu1 : (l1c v0 v1 t).2 ≠ zerop := by
    intro hz; rw [hz] at hg; simp [GoodIntersection, crossp, zerop] at hg; norm_num at hg
  have hd : subp m.value t = sm k1 (l1c v0 v1 t).2 := by
    rw [e1]; ext <;> simp [subp, addp]
  have hk1' : 0 < k1 := by
    apply lt_of_le_of_ne hk1
    intro hz
    apply hmt
    rw [e1, ← hz]; ext <;> simp [addp, sm]
  have ht : t ≠ zerop := by
    intro hz
    rcases hb with hb | hb <;> apply hb <;> rw [hz] <;> simp [crossp, zerop]
  rw [hd, ang_sm _ _ _ hk1', e0, ang_sm _ _ _ hk0]
  obtain ⟨n, hn, hnt, hnx⟩ := exists_normal t x ht
  have hxt' : subp x t ≠ zerop := by
    intro hz; apply hxt
    have a := congrArg P3.x hz
    have b := congrArg P3.y hz
    have c := congrArg P3.z hz
    simp only [subp, zerop] at a b c
    ext <;> linarith
  have b0 := ang_ge v0 x n h0 hx hn (by rw [← hnx]; simp only [dotp]; ring)
  have b1 := ang_ge v1 (subp x t) n h1 hxt' hn (by
    have : dotp (subp x t) n = dotp n x - dotp n t := by simp only [dotp, subp]; ring
    rw [this, hnx, hnt, sub_self])
  rcases l1_cases v0 v1 t h0 hb with ⟨e, hne, hle⟩ | ⟨e, hne, hle⟩
  · rw [e] at hu0 ⊢
    simp only [] at hu0 ⊢
    rw [ang_po v0 _ h0 hne hu0, ang_self v1 h1]
    have := one_ray_bound v0 v1 t n h0 h1 ht hn hnt hne hle
    linarith
  · rw [e] at hu1 ⊢
    simp only [] at hu1 ⊢
    rw [ang_po v1 _ h1 hne hu1, ang_self v0 h0]
    have := one_ray_bound v1 v0 t n h1 h0 ht hn hnt hne hle
    linarith

/-- a case that meets the hypotheses of `l1_optimal`: the method succeeds -/
example : ∃ m, seeded leeciveraL1 ⟨0, 0, 1⟩ ⟨-1, 0, 1⟩ ⟨1, 0, 0⟩ = some m ∧ m.value ≠ ⟨1, 0, 0⟩ ∧ NotBaseline ⟨0, 0, 1⟩ ⟨-1, 0, 1⟩ ⟨1, 0, 0⟩ := by
  have hl : l1c ⟨0, 0, 1⟩ ⟨-1, 0, 1⟩ ⟨1, 0, 0⟩ = (⟨0, 0, 1⟩, ⟨-1, 0, 1⟩) := by
    unfold l1c
    split_ifs
    · rw [po_self]; norm_num [dotp, crossp]
    · rw [po_self]; norm_num [dotp, crossp]
  have hv := l1Correct_value (N := 9) (Vec3.init ⟨0, 0, 1⟩ (some 0)) (Vec3.init ⟨-1, 0, 1⟩ (some 3)) (Vec3.init ⟨1, 0, 0⟩ (some 6))
  simp only [init_value, hl] at hv
  obtain ⟨m, hm, e⟩ := assumeIntersect_some (l1Correct (Vec3.init (N := 9) ⟨0, 0, 1⟩ (some 0)) (Vec3.init ⟨-1, 0, 1⟩ (some 3)) (Vec3.init ⟨1, 0, 0⟩ (some 6))).1
    (l1Correct (Vec3.init ⟨0, 0, 1⟩ (some 0)) (Vec3.init ⟨-1, 0, 1⟩ (some 3)) (Vec3.init ⟨1, 0, 0⟩ (some 6))).2 (Vec3.init ⟨1, 0, 0⟩ (some 6)) 1 1 ⟨0, 0, 1⟩
    (by rw [hv.1, hv.2]; exact ⟨by norm_num, by norm_num, by simp [sm], by simp [sm, addp, init_value]⟩)
    (by rw [hv.1, hv.2]; exact Or.inr (by norm_num [crossp]))
  refine ⟨m, hm, ?_, ?_⟩
  · rw [e]; intro h; have := congrArg P3.z h; norm_num at this
  · left; intro h; have := congrArg P3.y h; norm_num [zerop, crossp] at this

/-- **C34**: the L1 method is exact for perfect observations. The full property is false: `l1_sideways_wrong` -/
theorem l1_exact_partial (v0 v1 t p : P3) (a b : ℝ) (h : Sees v0 v1 t a b p) (hg : GoodIntersection v0 v1) :
    ∃ m, seeded leeciveraL1 v0 v1 t = some m ∧ m.value = p := by
  have ee := h.2.2.1.symm.trans h.2.2.2
  have ex : a * v0.x = t.x + b * v1.x := congrArg P3.x ee
  have ey : a * v0.y = t.y + b * v1.y := congrArg P3.y ee
  have ez : a * v0.z = t.z + b * v1.z := congrArg P3.z ee
  have c0 : dotp v0 (crossp v1 t) = 0 := by
    apply (mul_eq_zero.1 (?_ : a * _ = 0)).resolve_left h.1.ne'
    simp only [dotp, crossp]
    linear_combination (v1.y * t.z - v1.z * t.y) * ex + (v1.z * t.x - v1.x * t.z) * ey + (v1.x * t.y - v1.y * t.x) * ez
  have c1 : dotp v1 (crossp v0 t) = 0 := by rw [← neg_eq_zero, ← c0]; simp only [dotp, crossp]; ring
  have hl : l1c v0 v1 t = (v0, v1) := by
    unfold l1c
    split_ifs
    · rw [po_self _ _ c0]
    · rw [po_self _ _ c1]
  have hv : (l1Correct (N := 9) (Vec3.init v0 (some 0)) (Vec3.init v1 (some 3)) (Vec3.init t (some 6))).1.value = (l1c v0 v1 t).1 ∧
    (l1Correct (N := 9) (Vec3.init v0 (some 0)) (Vec3.init v1 (some 3)) (Vec3.init t (some 6))).2.value = (l1c v0 v1 t).2 := l1Correct_value (N := 9) _ _ _
  rw [hl] at hv
  refine assumeIntersect_some _ _ _ a b p ?_ ?_
  · rw [hv.1, hv.2]; exact h
  · rw [hv.1, hv.2]; exact hg

example : Sees ⟨0, 0, 1⟩ ⟨-1, 0, 1⟩ ⟨1, 0, 0⟩ 1 1 ⟨0, 0, 1⟩ ∧ GoodIntersection ⟨0, 0, 1⟩ ⟨-1, 0, 1⟩ :=
  ⟨⟨by norm_num, by norm_num, by simp [sm], by simp [sm, addp]⟩, Or.inr (by norm_num [crossp])⟩

/-- two cameras that see a point at 90 degrees to the side (a fisheye lens). The rays are perpendicular to each other, and the intersection is in front of both cameras. The
L1 method reports failure: it uses only the xz and yz planes -/
theorem l1_sideways_wrong : Sees ⟨1, 0, 0⟩ ⟨0, -1, 0⟩ ⟨1, 1, 0⟩ 1 1 ⟨1, 0, 0⟩ ∧ point (seeded leeciveraL1 ⟨1, 0, 0⟩ ⟨0, -1, 0⟩ ⟨1, 1, 0⟩) = zerop := by
  refine ⟨⟨by norm_num, by norm_num, by simp [sm], by simp [sm, addp]⟩, ?_⟩
  rw [seeded, leeciveraL1, assumeIntersect_sentinel]
  have hl : l1c ⟨1, 0, 0⟩ ⟨0, -1, 0⟩ ⟨1, 1, 0⟩ = (⟨1, 0, 0⟩, ⟨0, -1, 0⟩) := by
    unfold l1c
    split_ifs
    · rw [po_self]; norm_num [dotp, crossp]
    · rw [po_self]; norm_num [dotp, crossp]
  cases hs : assumeIntersect (l1Correct (N := 9) (Vec3.init ⟨1, 0, 0⟩ (some 0)) (Vec3.init ⟨0, -1, 0⟩ (some 3)) (Vec3.init ⟨1, 1, 0⟩ (some 6))).1
    (l1Correct (N := 9) (Vec3.init ⟨1, 0, 0⟩ (some 0)) (Vec3.init ⟨0, -1, 0⟩ (some 3)) (Vec3.init ⟨1, 1, 0⟩ (some 6))).2 (Vec3.init ⟨1, 1, 0⟩ (some 6)) with
  | none => rfl
  | some m =>
    exfalso
    have hv := l1Correct_value (N := 9) (Vec3.init ⟨1, 0, 0⟩ (some 0)) (Vec3.init ⟨0, -1, 0⟩ (some 3)) (Vec3.init ⟨1, 1, 0⟩ (some 6))
    simp only [init_value, hl] at hv
    have := (assumeIntersect_val _ _ _ m (by rw [hv.1, hv.2, init_value]; norm_num [dotp, crossp]) hs).1
    rw [hv.1, hv.2] at this
    norm_num [GoodIntersection, crossp] at this

/-- **C60**: (0,0,0) is reported by the L1 method only on failure -/
theorem l1_sentinel (v0 v1 t : P3) : point (seeded leeciveraL1 v0 v1 t) = zerop ↔ seeded leeciveraL1 v0 v1 t = none :=
  assumeIntersect_sentinel _ _ _

/-! ### Linf -/

/-- normalized -/
noncomputable def nrm (v : P3) : P3 := sm (1 / Real.sqrt (len2 v)) v

/-- the chosen normal -/
noncomputable def linfN (v0 v1 t : P3) : P3 :=
  if len2 (crossp (addp (nrm v0) (nrm v1)) t) > len2 (crossp (subp (nrm v0) (nrm v1)) t) then crossp (addp (nrm v0) (nrm v1)) t
  else crossp (subp (nrm v0) (nrm v1)) t

theorem linfCorrect_value (V0 V1 T : Vec3 N) :
    (linfCorrect V0 V1 T).1.value = po (nrm V0.value) (linfN V0.value V1.value T.value) ∧
    (linfCorrect V0 V1 T).2.value = po (nrm V1.value) (linfN V0.value V1.value T.value) := by
  have e0 : (V0.divV V0.mag).value = nrm V0.value := by simp only [divV_value, mag_x, nrm]
  have e1 : (V1.divV V1.mag).value = nrm V1.value := by simp only [divV_value, mag_x, nrm]
  unfold linfCorrect
  simp only [projectOut_value, e0, e1]
  have hN : (if (((V0.divV V0.mag).add (V1.divV V1.mag)).cross T).norm2.x > (((V0.divV V0.mag).sub (V1.divV V1.mag)).cross T).norm2.x then
      ((V0.divV V0.mag).add (V1.divV V1.mag)).cross T else ((V0.divV V0.mag).sub (V1.divV V1.mag)).cross T).value = linfN V0.value V1.value T.value := by
    have c : ((((V0.divV V0.mag).add (V1.divV V1.mag)).cross T).norm2.x > (((V0.divV V0.mag).sub (V1.divV V1.mag)).cross T).norm2.x) ↔
        len2 (crossp (addp (nrm V0.value) (nrm V1.value)) T.value) > len2 (crossp (subp (nrm V0.value) (nrm V1.value)) T.value) := by
      simp only [norm2_x, cross_value, add_value, sub_value, e0, e1]
    unfold linfN
    by_cases h : len2 (crossp (addp (nrm V0.value) (nrm V1.value)) T.value) > len2 (crossp (subp (nrm V0.value) (nrm V1.value)) T.value)
    · rw [if_pos h, if_pos (c.2 h), cross_value, add_value, e0, e1]
    · rw [if_neg h, if_neg (fun hc => h (c.1 hc)), cross_value, sub_value, e0, e1]
  rw [hN]
  exact ⟨rfl, rfl⟩

theorem nrm_len2 (v : P3) (h : v ≠ zerop) : len2 (nrm v) = 1 := by
  have lv := len2_pos h
  rw [nrm, len2_sm, div_pow, Real.sq_sqrt lv.le, one_pow]
  field_simp

theorem linfN_ne (v0 v1 t : P3) (h0 : v0 ≠ zerop) (h1 : v1 ≠ zerop) (hb : NotBaseline v0 v1 t) : linfN v0 v1 t ≠ zerop := by
  have s0 := Real.sqrt_pos.2 (len2_pos h0)
  have s1 := Real.sqrt_pos.2 (len2_pos h1)
  intro hz
  have both : crossp (addp (nrm v0) (nrm v1)) t = zerop ∧ crossp (subp (nrm v0) (nrm v1)) t = zerop := by
    have na := len2_nonneg (crossp (addp (nrm v0) (nrm v1)) t)
    unfold linfN at hz
    split_ifs at hz with h
    · rw [len2_zero.2 hz] at h
      exact absurd h (not_lt.2 (len2_nonneg _))
    · rw [len2_zero.2 hz] at h
      exact ⟨len2_zero.1 (le_antisymm (not_lt.1 h) na), hz⟩
  obtain ⟨ba, bb⟩ := both
  have c0 : crossp (nrm v0) t = zerop := by
    have a1 := congrArg P3.x ba; have a2 := congrArg P3.y ba; have a3 := congrArg P3.z ba
    have b1 := congrArg P3.x bb; have b2 := congrArg P3.y bb; have b3 := congrArg P3.z bb
    simp only [crossp, addp, subp, zerop] at *
    ext <;> simp only [] <;> linarith
  have c1 : crossp (nrm v1) t = zerop := by
    have a1 := congrArg P3.x ba; have a2 := congrArg P3.y ba; have a3 := congrArg P3.z ba
    have b1 := congrArg P3.x bb; have b2 := congrArg P3.y bb; have b3 := congrArg P3.z bb
    simp only [crossp, addp, subp, zerop] at *
    ext <;> simp only [] <;> linarith
  have key : ∀ v, 0 < Real.sqrt (len2 v) → crossp (nrm v) t = zerop → crossp v t = zerop := by
    intro v hs hc
    have a1 := congrArg P3.x hc; have a2 := congrArg P3.y hc; have a3 := congrArg P3.z hc
    have hk : 1 / Real.sqrt (len2 v) ≠ 0 := by positivity
    simp only [crossp, nrm, sm, zerop] at *
    generalize 1 / Real.sqrt (len2 v) = k at *
    ext <;> simp only []
    · exact (mul_eq_zero.1 (by linarith : k * (v.y * t.z - v.z * t.y) = 0)).resolve_left hk
    · exact (mul_eq_zero.1 (by linarith : k * (v.z * t.x - v.x * t.z) = 0)).resolve_left hk
    · exact (mul_eq_zero.1 (by linarith : k * (v.x * t.y - v.y * t.x) = 0)).resolve_left hk
  rcases hb with hb | hb
  · exact hb (key v0 s0 c0)
  · exact hb (key v1 s1 c1)

theorem linfN_perp (v0 v1 t : P3) : dotp (linfN v0 v1 t) t = 0 := by
  unfold linfN; split_ifs <;> simp only [dotp, crossp] <;> ring

/-- two vectors perpendicular to the same normal -/
theorem coplanar_of_normal (u0 u1 t n : P3) (hn : n ≠ zerop) (h0 : dotp u0 n = 0) (h1 : dotp u1 n = 0) (ht : dotp t n = 0) : Coplanar u0 u1 t := by
  -- the triple product is the determinant of a matrix with a null vector
  have ln := len2_pos hn
  simp only [Coplanar]
  simp only [dotp, crossp, len2] at *
  apply (mul_eq_zero.1 (?_ : (n.x * n.x + n.y * n.y + n.z * n.z) * _ = 0)).resolve_left ln.ne'
  linear_combination (n.x * (u1.y * t.z - u1.z * t.y) + n.y * (u1.z * t.x - u1.x * t.z) + n.z * (u1.x * t.y - u1.y * t.x)) * h0
    + (n.x * (t.y * u0.z - t.z * u0.y) + n.y * (t.z * u0.x - t.x * u0.z) + n.z * (t.x * u0.y - t.y * u0.x)) * h1
    + (n.x * (u0.y * u1.z - u0.z * u1.y) + n.y * (u0.z * u1.x - u0.x * u1.z) + n.z * (u0.x * u1.y - u0.y * u1.x)) * ht

/-- **C33**: the Linf corrections make the rays intersect: they lie in a plane with both cameras -/
theorem linf_coplanar (v0 v1 t : P3) (h0 : v0 ≠ zerop) (h1 : v1 ≠ zerop) (hb : NotBaseline v0 v1 t) :
    let c := linfCorrect (N := 9) (Vec3.init v0 (some 0)) (Vec3.init v1 (some 3)) (Vec3.init t (some 6))
    Coplanar c.1.value c.2.value t := by
  intro c
  have hv := linfCorrect_value (N := 9) (Vec3.init v0 (some 0)) (Vec3.init v1 (some 3)) (Vec3.init t (some 6))
  simp only [init_value] at hv
  rw [show c.1.value = _ from hv.1, show c.2.value = _ from hv.2]
  have hn := linfN_ne v0 v1 t h0 h1 hb
  refine coplanar_of_normal _ _ _ _ hn (po_perp _ _ hn) (po_perp _ _ hn) ?_
  rw [← linfN_perp v0 v1 t]; simp only [dotp]; ring

/-- the larger of the two angular errors is at least this -/
theorem linf_bound (v0 v1 t m : P3) (h0 : v0 ≠ zerop) (h1 : v1 ≠ zerop) (hb : NotBaseline v0 v1 t) (hm : m ≠ zerop) (hmt : dotp m t = 0) :
    |dotp (crossp (nrm v0) (nrm v1)) t| / Real.sqrt (len2 (linfN v0 v1 t)) ≤ max (sinPlane v0 m) (sinPlane v1 m) := by
  have hn := linfN_ne v0 v1 t h0 h1 hb
  have sn := Real.sqrt_pos.2 (len2_pos hn)
  have lm := len2_pos hm
  have sm_ := Real.sqrt_pos.2 lm
  have em := Real.sq_sqrt lm.le
  -- normalized
  have hsin : ∀ v, v ≠ zerop → sinPlane v m = |dotp (nrm v) m| / Real.sqrt (len2 m) := by
    intro v hv
    have sv := Real.sqrt_pos.2 (len2_pos hv)
    rw [sinPlane, nrm, dotp_sm_left, abs_mul, abs_of_pos (by positivity : (0:ℝ) < 1 / Real.sqrt (len2 v))]
    field_simp
  rw [hsin v0 h0, hsin v1 h1]
  have hle : len2 (crossp (addp (nrm v0) (nrm v1)) t) ≤ len2 (linfN v0 v1 t) ∧ len2 (crossp (subp (nrm v0) (nrm v1)) t) ≤ len2 (linfN v0 v1 t) := by
    unfold linfN
    split_ifs with h
    · exact ⟨le_refl _, h.le⟩
    · exact ⟨not_lt.1 h, le_refl _⟩
  generalize nrm v0 = a at *
  generalize nrm v1 = b at *
  generalize linfN v0 v1 t = n at *
  have qp := triple_sq (addp a b) t m hmt
  have qq := triple_sq (subp a b) t m hmt
  have lt0 := len2_nonneg t
  have bound : ∀ w, len2 (crossp w t) ≤ len2 n → dotp w m * dotp w m * len2 t + dotp w (crossp t m) * dotp w (crossp t m) = len2 (crossp w t) * len2 m →
      |dotp w (crossp t m)| ≤ Real.sqrt (len2 n) * Real.sqrt (len2 m) := by
    intro w hw hq
    rw [← Real.sqrt_mul (len2_nonneg _)]
    apply Real.abs_le_sqrt
    have := mul_nonneg (mul_self_nonneg (dotp w m)) lt0
    have := mul_le_mul_of_nonneg_right hw lm.le
    nlinarith
  have bp := bound _ hle.1 qp
  have bq := bound _ hle.2 qq
  have ex := triple_expand (addp a b) (subp a b) t m hmt
  have eT : dotp (crossp (addp a b) (subp a b)) t = -2 * dotp (crossp a b) t := by simp only [dotp, crossp, addp, subp]; ring
  rw [eT] at ex
  have hT : 2 * |dotp (crossp a b) t| * len2 m ≤ (|dotp (addp a b) m| + |dotp (subp a b) m|) * (Real.sqrt (len2 n) * Real.sqrt (len2 m)) := by
    have : |(-2 * dotp (crossp a b) t) * len2 m| ≤ |dotp (addp a b) m| * |dotp (subp a b) (crossp t m)| + |dotp (addp a b) (crossp t m)| * |dotp (subp a b) m| := by
      rw [← ex, ← abs_mul, ← abs_mul]; exact abs_sub _ _
    rw [abs_mul, abs_mul, abs_of_pos lm] at this
    norm_num at this
    have x1 := mul_le_mul_of_nonneg_left bq (abs_nonneg (dotp (addp a b) m))
    have x2 := mul_le_mul_of_nonneg_right bp (abs_nonneg (dotp (subp a b) m))
    linarith
  have hsum : |dotp (addp a b) m| + |dotp (subp a b) m| ≤ 2 * max |dotp a m| |dotp b m| := by
    have ea : dotp (addp a b) m = dotp a m + dotp b m := by simp only [dotp, addp]; ring
    have eb : dotp (subp a b) m = dotp a m - dotp b m := by simp only [dotp, subp]; ring
    rw [ea, eb]
    rcases abs_cases (dotp a m + dotp b m) with h | h <;> rcases abs_cases (dotp a m - dotp b m) with h' | h' <;>
      rcases abs_cases (dotp a m) with g | g <;> rcases abs_cases (dotp b m) with g' | g' <;>
      rcases max_cases |dotp a m| |dotp b m| with k | k <;> linarith
  rw [max_div_div_right sm_.le, div_le_div_iff₀ sn sm_]
  generalize max |dotp a m| |dotp b m| = X at *
  have h3 : 2 * |dotp (crossp a b) t| * (Real.sqrt (len2 m)) ^ 2 ≤ (2 * X) * (Real.sqrt (len2 n) * Real.sqrt (len2 m)) := by
    rw [em]
    exact hT.trans (mul_le_mul_of_nonneg_right hsum (by positivity))
  have : (|dotp (crossp a b) t| * Real.sqrt (len2 m)) * Real.sqrt (len2 m) ≤ (X * Real.sqrt (len2 n)) * Real.sqrt (len2 m) := by nlinarith
  exact le_of_mul_le_mul_right this sm_

/-- the error of the Linf correction: both rays move by the same angle -/
theorem linf_error (v0 v1 t : P3) (_hb : linfN v0 v1 t ≠ zerop) :
    |dotp (nrm v0) (linfN v0 v1 t)| = |dotp (crossp (nrm v0) (nrm v1)) t| ∧ |dotp (nrm v1) (linfN v0 v1 t)| = |dotp (crossp (nrm v0) (nrm v1)) t| := by
  unfold linfN
  generalize nrm v0 = a
  generalize nrm v1 = b
  split_ifs
  · exact ⟨by congr 1; simp only [dotp, crossp, addp]; ring, by rw [← abs_neg]; congr 1; simp only [dotp, crossp, addp]; ring⟩
  · exact ⟨by rw [← abs_neg]; congr 1; simp only [dotp, crossp, subp]; ring, by rw [← abs_neg]; congr 1; simp only [dotp, crossp, subp]; ring⟩

/-- **C61**: the point reported by the Linf method minimizes the larger of the two angular errors, over all points in space. Both observations
are moved by the same angle -/
theorem linf_optimal (v0 v1 t : P3) (m : Vec3 9) (h : seeded leeciveraLinf v0 v1 t = some m) (h0 : v0 ≠ zerop) (h1 : v1 ≠ zerop)
    (hb : NotBaseline v0 v1 t) (hmt : m.value ≠ t) :
    ang v0 m.value = ang v1 (subp m.value t) ∧
    ∀ x, x ≠ zerop → x ≠ t → max (ang v0 m.value) (ang v1 (subp m.value t)) ≤ max (ang v0 x) (ang v1 (subp x t)) := by
  have hco := linf_coplanar v0 v1 t h0 h1 hb
  have hv := linfCorrect_value (N := 9) (Vec3.init v0 (some 0)) (Vec3.init v1 (some 3)) (Vec3.init t (some 6))
  simp only [init_value] at hv
  have hi := assumeIntersect_val _ _ _ m (by have h := hco; simp only [Coplanar] at h; simpa only [init_value] using h) h
  simp only [hv.1, hv.2, init_value] at hi
  obtain ⟨hg, k0, k1, hk0, hk1, e0, e1⟩ := hi
  have hn := linfN_ne v0 v1 t h0 h1 hb
  have hu0 : po (nrm v0) (linfN v0 v1 t) ≠ zerop := by
    intro hz; rw [hz] at hg; simp [GoodIntersection, crossp, zerop] at hg; norm_num at hg
  have hu1 : po (nrm v1) (linfN v0 v1 t) ≠ zerop := by
    intro hz; rw [hz] at hg; simp [GoodIntersection, crossp, zerop] at hg; norm_num at hg
  have hd : subp m.value t = sm k1 (po (nrm v1) (linfN v0 v1 t)) := by
    rw [e1]; ext <;> simp [subp, addp]
  have hk1' : 0 < k1 := by
    apply lt_of_le_of_ne hk1
    intro hz
    apply hmt
    rw [e1, ← hz]; ext <;> simp [addp, sm]
  have ht : t ≠ zerop := by
    intro hz
    rcases hb with hb | hb <;> apply hb <;> rw [hz] <;> simp [crossp, zerop]
  have nz : ∀ v, v ≠ zerop → nrm v ≠ zerop := by
    intro v hv hz
    have := nrm_len2 v hv
    rw [len2_zero.2 hz] at this
    norm_num at this
  have hnrm : ∀ v u, v ≠ zerop → ang (nrm v) u = ang v u := by
    intro v u hv
    exact ang_sm_left _ _ _ (by have := Real.sqrt_pos.2 (len2_pos hv); positivity)
  have he := linf_error v0 v1 t hn
  have A0 : ang v0 m.value = Real.arcsin (|dotp (crossp (nrm v0) (nrm v1)) t| / Real.sqrt (len2 (linfN v0 v1 t))) := by
    rw [e0, ang_sm _ _ _ hk0, ← hnrm v0 _ h0, ang_po _ _ (nz v0 h0) hn hu0, sinPlane, nrm_len2 v0 h0, he.1]; simp
  have A1 : ang v1 (subp m.value t) = Real.arcsin (|dotp (crossp (nrm v0) (nrm v1)) t| / Real.sqrt (len2 (linfN v0 v1 t))) := by
    rw [hd, ang_sm _ _ _ hk1', ← hnrm v1 _ h1, ang_po _ _ (nz v1 h1) hn hu1, sinPlane, nrm_len2 v1 h1, he.2]; simp
  refine ⟨A0.trans A1.symm, fun x hx hxt => ?_⟩
  rw [A0, A1, max_self]
  obtain ⟨n, hnn, hnt, hnx⟩ := exists_normal t x ht
  have hxt' : subp x t ≠ zerop := by
    intro hz; apply hxt
    have a := congrArg P3.x hz
    have b := congrArg P3.y hz
    have c := congrArg P3.z hz
    simp only [subp, zerop] at a b c
    ext <;> linarith
  have b0 := ang_ge v0 x n h0 hx hnn (by rw [← hnx]; simp only [dotp]; ring)
  have b1 := ang_ge v1 (subp x t) n h1 hxt' hnn (by
    have : dotp (subp x t) n = dotp n x - dotp n t := by simp only [dotp, subp]; ring
    rw [this, hnx, hnt, sub_self])
  have hbd := Real.monotone_arcsin (linf_bound v0 v1 t n h0 h1 hb hnn hnt)
  rw [Real.monotone_arcsin.map_max] at hbd
  exact hbd.trans (max_le_max b0 b1)

/-- **C34**: the Linf method is exact for perfect observations, other than to the side -/
theorem linf_exact_partial (v0 v1 t p : P3) (a b : ℝ) (h : Sees v0 v1 t a b p) (h0 : v0 ≠ zerop) (h1 : v1 ≠ zerop) (hg : GoodIntersection (nrm v0) (nrm v1)) :
    ∃ m, seeded leeciveraLinf v0 v1 t = some m ∧ m.value = p := by
  have s0 := Real.sqrt_pos.2 (len2_pos h0)
  have s1 := Real.sqrt_pos.2 (len2_pos h1)
  have hs : Sees (nrm v0) (nrm v1) t (a * Real.sqrt (len2 v0)) (b * Real.sqrt (len2 v1)) p := by
    obtain ⟨ha, hb, e0, e1⟩ := h
    refine ⟨by positivity, by positivity, ?_, ?_⟩
    · rw [e0]; ext <;> simp only [nrm, sm] <;> field_simp
    · rw [e1]; ext <;> simp only [nrm, sm, addp] <;> field_simp
  have ee := hs.2.2.1.symm.trans hs.2.2.2
  have hap := hs.1
  have c0 : dotp (crossp (nrm v0) (nrm v1)) t = 0 := by
    generalize nrm v0 = w0 at *
    generalize nrm v1 = w1 at *
    generalize a * Real.sqrt (len2 v0) = A at *
    generalize b * Real.sqrt (len2 v1) = B at *
    have ex : A * w0.x = t.x + B * w1.x := congrArg P3.x ee
    have ey : A * w0.y = t.y + B * w1.y := congrArg P3.y ee
    have ez : A * w0.z = t.z + B * w1.z := congrArg P3.z ee
    apply (mul_eq_zero.1 (?_ : A * _ = 0)).resolve_left hap.ne'
    simp only [dotp, crossp]
    linear_combination (w1.y * t.z - w1.z * t.y) * ex + (w1.z * t.x - w1.x * t.z) * ey + (w1.x * t.y - w1.y * t.x) * ez
  have hp0 : dotp (nrm v0) (linfN v0 v1 t) = 0 := by
    unfold linfN; generalize nrm v0 = w0 at *; generalize nrm v1 = w1 at *
    split_ifs
    · rw [← c0]; simp only [dotp, crossp, addp]; ring
    · rw [← neg_eq_zero, ← c0]; simp only [dotp, crossp, subp]; ring
  have hp1 : dotp (nrm v1) (linfN v0 v1 t) = 0 := by
    unfold linfN; generalize nrm v0 = w0 at *; generalize nrm v1 = w1 at *
    split_ifs
    · rw [← neg_eq_zero, ← c0]; simp only [dotp, crossp, addp]; ring
    · rw [← neg_eq_zero, ← c0]; simp only [dotp, crossp, subp]; ring
  have hv := linfCorrect_value (N := 9) (Vec3.init v0 (some 0)) (Vec3.init v1 (some 3)) (Vec3.init t (some 6))
  simp only [init_value, po_self _ _ hp0, po_self _ _ hp1] at hv
  refine assumeIntersect_some _ _ _ (a * Real.sqrt (len2 v0)) (b * Real.sqrt (len2 v1)) p ?_ ?_
  · rw [hv.1, hv.2]; exact hs
  · rw [hv.1, hv.2]; exact hg

example : Sees ⟨0, 0, 1⟩ ⟨-1, 0, 0⟩ ⟨1, 0, 1⟩ 1 1 ⟨0, 0, 1⟩ ∧ GoodIntersection (nrm ⟨0, 0, 1⟩) (nrm ⟨-1, 0, 0⟩) :=
  ⟨⟨by norm_num, by norm_num, by simp [sm], by simp [sm, addp]⟩, Or.inr (by norm_num [crossp, nrm, sm, len2, dotp])⟩

/-- **C60**: (0,0,0) is reported by the Linf method only on failure -/
theorem linf_sentinel (v0 v1 t : P3) : point (seeded leeciveraLinf v0 v1 t) = zerop ↔ seeded leeciveraLinf v0 v1 t = none :=
  assumeIntersect_sentinel _ _ _

end Mrcal.Tri
