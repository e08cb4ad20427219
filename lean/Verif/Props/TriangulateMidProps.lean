import Verif.Props.TriangulateAngleProps
/-
C34, C60, C62: the midpoint triangulation methods of Lee and Civera, and the Lindstrom method.
-/
namespace Mrcal.Tri
open Mrcal.AD

variable {N : Nat}

/-! ### the specification -/

/-- the documented ranges of the two midpoint methods: |v1×t|/|v0×v1| and |v0×t|/|v0×v1| -/
noncomputable def range0 (v0 v1 t : P3) : ℝ := Real.sqrt (len2 (crossp v1 t)) / Real.sqrt (len2 (crossp v0 v1))
noncomputable def range1 (v0 v1 t : P3) : ℝ := Real.sqrt (len2 (crossp v0 t)) / Real.sqrt (len2 (crossp v0 v1))

/-- cheirality: the points at these ranges are nearer to each other than they'd be if either one or both were moved to behind its camera -/
def InFront (v0 v1 t : P3) (l0 l1 : ℝ) : Prop :=
  dist2 (sm l0 v0) (addp t (sm l1 v1)) < dist2 (sm (-l0) v0) (addp t (sm l1 v1)) ∧
  dist2 (sm l0 v0) (addp t (sm l1 v1)) < dist2 (sm l0 v0) (addp t (sm (-l1) v1)) ∧
  dist2 (sm l0 v0) (addp t (sm l1 v1)) < dist2 (sm (-l0) v0) (addp t (sm (-l1) v1))

theorem worsening_x (l0 : Val N) (V0 : Vec3 N) (l1 : Val N) (V1 T : Vec3 N) :
    (worsening l0 V0 l1 V1 T).1.x = dist2 (sm (-l0.x) V0.value) (addp T.value (sm l1.x V1.value)) - dist2 (sm l0.x V0.value) (addp T.value (sm l1.x V1.value)) ∧
    (worsening l0 V0 l1 V1 T).2.1.x = dist2 (sm l0.x V0.value) (addp T.value (sm (-l1.x) V1.value)) - dist2 (sm l0.x V0.value) (addp T.value (sm l1.x V1.value)) ∧
    (worsening l0 V0 l1 V1 T).2.2.x = dist2 (sm (-l0.x) V0.value) (addp T.value (sm (-l1.x) V1.value)) - dist2 (sm l0.x V0.value) (addp T.value (sm l1.x V1.value)) := by
  simp only [worsening, chiralityTerm, Val.add, Val.sub, Val.mul, Val.neg, Val.mulC, Val.ofR, dist2, len2, dotp, subp, addp, sm, Vec3.value]
  refine ⟨?_, ?_, ?_⟩ <;> ring

theorem chirality_iff (l0 : Val N) (V0 : Vec3 N) (l1 : Val N) (V1 T : Vec3 N) :
    chirality l0 V0 l1 V1 T ↔ InFront V0.value V1.value T.value l0.x l1.x := by
  obtain ⟨a, b, c⟩ := worsening_x l0 V0 l1 V1 T
  simp only [chirality, a, b, c, InFront, gt_iff_lt, sub_pos]

/-- what the three conditions mean -/
theorem inFront_iff (v0 v1 t : P3) (l0 l1 : ℝ) : InFront v0 v1 t l0 l1 ↔
    0 < l0 * dotp v0 (addp t (sm l1 v1)) ∧ l1 * dotp v1 (subp t (sm l0 v0)) < 0 ∧ 0 < dotp t (subp (sm l0 v0) (sm l1 v1)) := by
  have a : dist2 (sm (-l0) v0) (addp t (sm l1 v1)) - dist2 (sm l0 v0) (addp t (sm l1 v1)) = 4 * (l0 * dotp v0 (addp t (sm l1 v1))) := by
    simp only [dist2, len2, dotp, subp, addp, sm]; ring
  have b : dist2 (sm l0 v0) (addp t (sm (-l1) v1)) - dist2 (sm l0 v0) (addp t (sm l1 v1)) = -4 * (l1 * dotp v1 (subp t (sm l0 v0))) := by
    simp only [dist2, len2, dotp, subp, addp, sm]; ring
  have c : dist2 (sm (-l0) v0) (addp t (sm (-l1) v1)) - dist2 (sm l0 v0) (addp t (sm l1 v1)) = 4 * dotp t (subp (sm l0 v0) (sm l1 v1)) := by
    simp only [dist2, len2, dotp, subp, addp, sm]; ring
  unfold InFront
  constructor
  · rintro ⟨h1, h2, h3⟩; exact ⟨by linarith, by linarith, by linarith⟩
  · rintro ⟨h1, h2, h3⟩; exact ⟨by linarith, by linarith, by linarith⟩

/-! ### mid2 -/

theorem mid2Ranges_x (V0 V1 T : Vec3 N) :
    (mid2Ranges V0 V1 T).1.x = range0 V0.value V1.value T.value ∧ (mid2Ranges V0 V1 T).2.x = range1 V0.value V1.value T.value := by
  simp only [mid2Ranges, Val.sqrt, Val.mul, Val.div, Val.ofR, crossNorm2_x, range0, range1]
  norm_num
  constructor
  · rw [Real.sqrt_mul (len2_nonneg _), Real.sqrt_inv]; rfl
  · rw [Real.sqrt_mul (len2_nonneg _), Real.sqrt_inv]; rfl

/-- **C60, C62**: the mid2 method: it succeeds exactly if the points at the documented ranges are in front of both cameras, and then the result
is the midpoint of the two -/
theorem mid2_spec (v0 v1 t q : P3) :
    (∃ m, seeded leeciveraMid2 v0 v1 t = some m ∧ m.value = q) ↔
    InFront v0 v1 t (range0 v0 v1 t) (range1 v0 v1 t) ∧
    q = gmid v0 v1 t (range0 v0 v1 t) (range1 v0 v1 t) := by
  have hr := mid2Ranges_x (N := 9) (Vec3.init v0 (some 0)) (Vec3.init v1 (some 3)) (Vec3.init t (some 6))
  simp only [init_value] at hr
  have hc : chirality (mid2Ranges (N := 9) (Vec3.init v0 (some 0)) (Vec3.init v1 (some 3)) (Vec3.init t (some 6))).1 (Vec3.init v0 (some 0))
      (mid2Ranges (N := 9) (Vec3.init v0 (some 0)) (Vec3.init v1 (some 3)) (Vec3.init t (some 6))).2 (Vec3.init v1 (some 3)) (Vec3.init t (some 6)) ↔
      InFront v0 v1 t (range0 v0 v1 t) (range1 v0 v1 t) := by
    rw [chirality_iff, hr.1, hr.2]; rfl
  have hv : (mid2Point (mid2Ranges (N := 9) (Vec3.init v0 (some 0)) (Vec3.init v1 (some 3)) (Vec3.init t (some 6))).1 (Vec3.init v0 (some 0))
      (mid2Ranges (N := 9) (Vec3.init v0 (some 0)) (Vec3.init v1 (some 3)) (Vec3.init t (some 6))).2 (Vec3.init v1 (some 3)) (Vec3.init t (some 6))).value =
      gmid v0 v1 t (range0 v0 v1 t) (range1 v0 v1 t) := by
    rw [mid2Point, divVecC_value, add_value, add_value, mulV_value, mulV_value, hr.1, hr.2]
    simp only [init_value, gmid]
    norm_num
    ext <;> simp only [sm, addp] <;> ring
  rw [← hc]
  unfold seeded leeciveraMid2
  by_cases h : chirality (mid2Ranges (N := 9) (Vec3.init v0 (some 0)) (Vec3.init v1 (some 3)) (Vec3.init t (some 6))).1 (Vec3.init v0 (some 0))
      (mid2Ranges (N := 9) (Vec3.init v0 (some 0)) (Vec3.init v1 (some 3)) (Vec3.init t (some 6))).2 (Vec3.init v1 (some 3)) (Vec3.init t (some 6))
  · simp only [if_neg (not_not.2 h)]
    constructor
    · rintro ⟨m, hm, rfl⟩
      rw [← Option.some.inj hm]
      exact ⟨h, hv⟩
    · rintro ⟨_, rfl⟩
      exact ⟨_, rfl, hv⟩
  · simp only [if_pos h]
    constructor
    · rintro ⟨m, hm, _⟩; cases hm
    · rintro ⟨hh, _⟩; exact absurd hh h

theorem sees_cross (v0 v1 t p : P3) (a b : ℝ) (h : Sees v0 v1 t a b p) (hc : crossp v0 v1 ≠ zerop) :
    range0 v0 v1 t = a ∧ range1 v0 v1 t = b := by
  obtain ⟨ha, hb, h0, h1⟩ := h
  have ee := h0.symm.trans h1
  have ex : a * v0.x = t.x + b * v1.x := congrArg P3.x ee
  have ey : a * v0.y = t.y + b * v1.y := congrArg P3.y ee
  have ez : a * v0.z = t.z + b * v1.z := congrArg P3.z ee
  have et : t = subp (sm a v0) (sm b v1) := by
    ext <;> simp only [subp, sm] <;> linarith
  have hs := Real.sqrt_pos.2 (len2_pos hc)
  constructor
  · have : len2 (crossp v1 t) = a ^ 2 * len2 (crossp v0 v1) := by
      rw [et]; simp only [len2, dotp, crossp, subp, sm]; ring
    rw [range0, this, Real.sqrt_mul (by positivity), Real.sqrt_sq ha.le]
    field_simp
  · have : len2 (crossp v0 t) = b ^ 2 * len2 (crossp v0 v1) := by
      rw [et]; simp only [len2, dotp, crossp, subp, sm]; ring
    rw [range1, this, Real.sqrt_mul (by positivity), Real.sqrt_sq hb.le]
    field_simp

theorem sees_inFront (v0 v1 t p : P3) (a b : ℝ) (h : Sees v0 v1 t a b p) (hc : crossp v0 v1 ≠ zerop) : InFront v0 v1 t a b := by
  obtain ⟨ha, hb, h0, h1⟩ := h
  have ee := h0.symm.trans h1
  have ex : a * v0.x = t.x + b * v1.x := congrArg P3.x ee
  have ey : a * v0.y = t.y + b * v1.y := congrArg P3.y ee
  have ez : a * v0.z = t.z + b * v1.z := congrArg P3.z ee
  have et : t = subp (sm a v0) (sm b v1) := by
    ext <;> simp only [subp, sm] <;> linarith
  have n0 : v0 ≠ zerop := by rintro rfl; apply hc; simp [crossp, zerop]
  have n1 : v1 ≠ zerop := by rintro rfl; apply hc; simp [crossp, zerop]
  have l0 := len2_pos n0
  have l1 := len2_pos n1
  rw [inFront_iff]
  refine ⟨?_, ?_, ?_⟩
  · have : a * dotp v0 (addp t (sm b v1)) = a ^ 2 * len2 v0 := by
      rw [et]; simp only [dotp, addp, subp, sm, len2]; ring
    rw [this]; positivity
  · have : b * dotp v1 (subp t (sm a v0)) = -(b ^ 2 * len2 v1) := by
      rw [et]; simp only [dotp, addp, subp, sm, len2]; ring
    rw [this]
    have : 0 < b ^ 2 * len2 v1 := by positivity
    linarith
  · rw [← et]
    apply len2_pos
    rintro rfl
    apply hc
    simp only [zerop, zero_add] at ex ey ez
    apply len2_zero.1
    have c : len2 (crossp (sm a v0) (sm b v1)) = (a * b) ^ 2 * len2 (crossp v0 v1) := by simp only [len2, dotp, crossp, sm]; ring
    have c2 : len2 (crossp (sm a v0) (sm b v1)) = 0 := by
      have : sm a v0 = sm b v1 := by ext <;> simp only [sm] <;> assumption
      rw [this]; simp only [len2, dotp, crossp]; ring
    rw [c2] at c
    exact (mul_eq_zero.1 c.symm).resolve_left (by positivity)

/-- **C34**: mid2 is exact for perfect observations, from any pair of rays that aren't parallel, and for observation vectors of any length -/
theorem mid2_exact (v0 v1 t p : P3) (a b : ℝ) (h : Sees v0 v1 t a b p) (hc : crossp v0 v1 ≠ zerop) :
    ∃ m, seeded leeciveraMid2 v0 v1 t = some m ∧ m.value = p := by
  have hr := sees_cross v0 v1 t p a b h hc
  rw [mid2_spec, hr.1, hr.2]
  refine ⟨sees_inFront v0 v1 t p a b h hc, ?_⟩
  obtain ⟨_, _, h0, h1⟩ := h
  rw [gmid, ← h0, ← h1]
  ext <;> simp only [sm, addp] <;> ring

example : Sees ⟨0, 0, 1⟩ ⟨-1, 0, 1⟩ ⟨1, 0, 0⟩ 1 1 ⟨0, 0, 1⟩ ∧ crossp ⟨0, 0, 1⟩ ⟨-1, 0, 1⟩ ≠ zerop :=
  ⟨⟨by norm_num, by norm_num, by simp [sm], by simp [sm, addp]⟩, fun h => by have := congrArg P3.y h; norm_num [crossp, zerop] at this⟩

/-- **C60**: (0,0,0) is reported by mid2 only on failure -/
theorem mid2_sentinel (v0 v1 t : P3) : point (seeded leeciveraMid2 v0 v1 t) = zerop ↔ seeded leeciveraMid2 v0 v1 t = none := by
  constructor
  · intro h
    cases hs : seeded leeciveraMid2 v0 v1 t with
    | none => rfl
    | some m =>
      exfalso
      rw [hs] at h
      simp only [point] at h
      obtain ⟨hf, hq⟩ := (mid2_spec v0 v1 t m.value).1 ⟨m, hs, rfl⟩
      rw [h, gmid] at hq
      have hpos := ((inFront_iff v0 v1 t _ _).1 hf).1
      generalize range0 v0 v1 t = l0 at *
      generalize range1 v0 v1 t = l1 at *
      have hx : 0 = 1 / 2 * (l0 * v0.x + (t.x + l1 * v1.x)) := congrArg P3.x hq
      have hy : 0 = 1 / 2 * (l0 * v0.y + (t.y + l1 * v1.y)) := congrArg P3.y hq
      have hz : 0 = 1 / 2 * (l0 * v0.z + (t.z + l1 * v1.z)) := congrArg P3.z hq
      have : l0 * dotp v0 (addp t (sm l1 v1)) = -(l0 ^ 2 * len2 v0) := by
        simp only [dotp, addp, sm, len2]
        linear_combination -(2 * l0 * v0.x) * hx - 2 * l0 * v0.y * hy - 2 * l0 * v0.z * hz
      rw [this] at hpos
      have := mul_nonneg (sq_nonneg l0) (len2_nonneg v0)
      linarith
  · intro h; rw [h]; rfl

/-- **C60**: the divergence test used by the optimizer reports exactly the cheirality of the two rays -/
theorem isConvergent_spec (v0 v1 t : P3) : isConvergent v0 v1 t ↔ InFront v0 v1 t (range0 v0 v1 t) (range1 v0 v1 t) := by
  have e : isConvergent v0 v1 t ↔ ¬ point (seeded leeciveraMid2 v0 v1 t) = zerop := by
    unfold isConvergent
    apply not_congr
    constructor
    · rintro ⟨a, b, c⟩; ext <;> assumption
    · intro h; rw [h]; exact ⟨rfl, rfl, rfl⟩
  rw [e, mid2_sentinel]
  constructor
  · intro h
    obtain ⟨m, hm⟩ := Option.ne_none_iff_exists'.1 h
    exact ((mid2_spec v0 v1 t m.value).1 ⟨m, hm, rfl⟩).1
  · intro h
    obtain ⟨m, hm, _⟩ := (mid2_spec v0 v1 t _).2 ⟨h, rfl⟩
    rw [hm]; simp

/-- perfect observations are convergent -/
theorem isConvergent_perfect (v0 v1 t p : P3) (a b : ℝ) (h : Sees v0 v1 t a b p) (hc : crossp v0 v1 ≠ zerop) : isConvergent v0 v1 t := by
  have hr := sees_cross v0 v1 t p a b h hc
  rw [isConvergent_spec, hr.1, hr.2]
  exact sees_inFront v0 v1 t p a b h hc

/-- and rays that intersect behind either camera are not -/
theorem isConvergent_behind (v0 v1 t : P3) (a b : ℝ) (hab : a < 0 ∨ b < 0) (h : sm a v0 = addp t (sm b v1)) (hc : crossp v0 v1 ≠ zerop) : ¬ isConvergent v0 v1 t := by
  have ex : a * v0.x = t.x + b * v1.x := congrArg P3.x h
  have ey : a * v0.y = t.y + b * v1.y := congrArg P3.y h
  have ez : a * v0.z = t.z + b * v1.z := congrArg P3.z h
  have et : t = subp (sm a v0) (sm b v1) := by ext <;> simp only [subp, sm] <;> linarith
  have hs := Real.sqrt_pos.2 (len2_pos hc)
  have r0 : range0 v0 v1 t = |a| := by
    have : len2 (crossp v1 t) = a ^ 2 * len2 (crossp v0 v1) := by
      rw [et]; simp only [len2, dotp, crossp, subp, sm]; ring
    rw [range0, this, Real.sqrt_mul (by positivity), Real.sqrt_sq_eq_abs]
    field_simp
  have r1 : range1 v0 v1 t = |b| := by
    have : len2 (crossp v0 t) = b ^ 2 * len2 (crossp v0 v1) := by
      rw [et]; simp only [len2, dotp, crossp, subp, sm]; ring
    rw [range1, this, Real.sqrt_mul (by positivity), Real.sqrt_sq_eq_abs]
    field_simp
  -- the sign-corrected points coincide: their distance is 0, and no distance is smaller
  rw [isConvergent_spec, r0, r1]
  have z : dist2 (sm a v0) (addp t (sm b v1)) = 0 := by rw [h]; simp [dist2, len2, dotp, subp]
  rintro ⟨h1, h2, h3⟩
  have nn : ∀ p q, 0 ≤ dist2 p q := fun p q => len2_nonneg _
  rcases abs_cases a with ⟨ea, ha⟩ | ⟨ea, ha⟩ <;> rcases abs_cases b with ⟨eb, hb⟩ | ⟨eb, hb⟩ <;> rw [ea, eb] at h1 h2 h3
  · rcases hab with h' | h' <;> linarith
  · rw [neg_neg, z] at h2; linarith [nn (sm a v0) (addp t (sm (-b) v1))]
  · rw [neg_neg, z] at h1; linarith [nn (sm (-a) v0) (addp t (sm b v1))]
  · rw [neg_neg, neg_neg, z] at h3; linarith [nn (sm (-a) v0) (addp t (sm (-b) v1))]

example : sm (-1) ⟨0, 0, 1⟩ = addp ⟨1, 0, 0⟩ (sm (-1) ⟨1, 0, 1⟩) ∧ crossp ⟨0, 0, 1⟩ ⟨1, 0, 1⟩ ≠ zerop :=
  ⟨by simp [sm, addp], fun h => by have := congrArg P3.y h; norm_num [crossp, zerop] at this⟩

/-! ### wmid2 -/

/-- the inverse-range-weighted midpoint -/
noncomputable def wmid (v0 v1 t : P3) (l0 l1 : ℝ) : P3 := sm (1 / (l0 + l1)) (addp (sm l1 (sm l0 v0)) (sm l0 (addp t (sm l1 v1))))

theorem wmid2_val (V0 V1 T : Vec3 N) (v0 v1 t q : P3) (i0 : V0.value = v0) (i1 : V1.value = v1) (i2 : T.value = t) :
    (∃ m, leeciveraWmid2 V0 V1 T = some m ∧ m.value = q) ↔
    InFront (nrm v0) (nrm v1) t (range0 (nrm v0) (nrm v1) t) (range1 (nrm v0) (nrm v1) t) ∧
    q = wmid (nrm v0) (nrm v1) t (range0 (nrm v0) (nrm v1) t) (range1 (nrm v0) (nrm v1) t) := by
  have e0 : (V0.divV V0.mag).value = nrm v0 := by simp only [divV_value, mag_x, nrm, i0]
  have e1 : (V1.divV V1.mag).value = nrm v1 := by simp only [divV_value, mag_x, nrm, i1]
  unfold leeciveraWmid2
  simp only []
  generalize V0.divV V0.mag = U0 at *
  generalize V1.divV V1.mag = U1 at *
  have hl0 : ((crossMag U1 T).mul ((Val.ofR 1.0).div (crossMag U0 U1))).x = range0 (nrm v0) (nrm v1) t := by
    simp only [Val.mul, Val.div, Val.ofR, crossMag_x, e0, e1, i2, range0]; norm_num; rfl
  have hl1 : ((crossMag U0 T).mul ((Val.ofR 1.0).div (crossMag U0 U1))).x = range1 (nrm v0) (nrm v1) t := by
    simp only [Val.mul, Val.div, Val.ofR, crossMag_x, e0, e1, i2, range1]; norm_num; rfl
  generalize (crossMag U1 T).mul ((Val.ofR 1.0).div (crossMag U0 U1)) = L0 at *
  generalize (crossMag U0 T).mul ((Val.ofR 1.0).div (crossMag U0 U1)) = L1 at *
  have hc : chirality L0 U0 L1 U1 T ↔ InFront (nrm v0) (nrm v1) t (range0 (nrm v0) (nrm v1) t) (range1 (nrm v0) (nrm v1) t) := by
    rw [chirality_iff, hl0, hl1, e0, e1, i2]
  have hv : (((((U0.mulV L0).mulV L1).add (T.mulV L0)).add ((U1.mulV L0).mulV L1)).divV (L0.add L1)).value =
      wmid (nrm v0) (nrm v1) t (range0 (nrm v0) (nrm v1) t) (range1 (nrm v0) (nrm v1) t) := by
    simp only [divV_value, add_value, mulV_value, Val.add, hl0, hl1, e0, e1, i2, wmid]
    ext <;> simp only [sm, addp] <;> ring
  rw [← hc]
  by_cases h : chirality L0 U0 L1 U1 T
  · rw [if_neg (not_not.2 h)]
    constructor
    · rintro ⟨m, hm, rfl⟩
      rw [← Option.some.inj hm]
      exact ⟨h, hv⟩
    · rintro ⟨_, rfl⟩
      exact ⟨_, rfl, hv⟩
  · rw [if_pos h]
    constructor
    · rintro ⟨m, hm, _⟩; cases hm
    · rintro ⟨hh, _⟩; exact absurd hh h

/-- **C60, C62**: the wmid2 method: it succeeds exactly if the points at the documented ranges (of the unit observation vectors) are in front of both cameras. The result
is their mean, each point weighed by the range of the other -/
theorem wmid2_spec (v0 v1 t q : P3) :
    (∃ m, seeded leeciveraWmid2 v0 v1 t = some m ∧ m.value = q) ↔
    InFront (nrm v0) (nrm v1) t (range0 (nrm v0) (nrm v1) t) (range1 (nrm v0) (nrm v1) t) ∧
    q = wmid (nrm v0) (nrm v1) t (range0 (nrm v0) (nrm v1) t) (range1 (nrm v0) (nrm v1) t) :=
  wmid2_val _ _ _ v0 v1 t q rfl rfl rfl

/-- **C34**: wmid2 is exact for perfect observations, from any pair of rays that aren't parallel, and for observation vectors of any length -/
theorem wmid2_exact (v0 v1 t p : P3) (a b : ℝ) (h : Sees v0 v1 t a b p) (hc : crossp v0 v1 ≠ zerop) :
    ∃ m, seeded leeciveraWmid2 v0 v1 t = some m ∧ m.value = p := by
  have n0 : v0 ≠ zerop := by rintro rfl; apply hc; simp [crossp, zerop]
  have n1 : v1 ≠ zerop := by rintro rfl; apply hc; simp [crossp, zerop]
  have s0 := Real.sqrt_pos.2 (len2_pos n0)
  have s1 := Real.sqrt_pos.2 (len2_pos n1)
  have hs : Sees (nrm v0) (nrm v1) t (a * Real.sqrt (len2 v0)) (b * Real.sqrt (len2 v1)) p := by
    obtain ⟨ha, hb, e0, e1⟩ := h
    refine ⟨by positivity, by positivity, ?_, ?_⟩
    · rw [e0]; ext <;> simp only [nrm, sm] <;> field_simp
    · rw [e1]; ext <;> simp only [nrm, sm, addp] <;> field_simp
  have hcn : crossp (nrm v0) (nrm v1) ≠ zerop := by
    intro hz
    apply hc
    have e : len2 (crossp (nrm v0) (nrm v1)) = (1 / Real.sqrt (len2 v0) * (1 / Real.sqrt (len2 v1))) ^ 2 * len2 (crossp v0 v1) := by
      simp only [nrm, sm, crossp, len2, dotp]; ring
    rw [len2_zero.2 hz] at e
    exact len2_zero.1 ((mul_eq_zero.1 e.symm).resolve_left (by positivity))
  have hr := sees_cross _ _ t p _ _ hs hcn
  rw [wmid2_spec, hr.1, hr.2]
  refine ⟨sees_inFront _ _ t p _ _ hs hcn, ?_⟩
  obtain ⟨ha, hb, h0, h1⟩ := hs
  rw [wmid, ← h0, ← h1]
  have : a * Real.sqrt (len2 v0) + b * Real.sqrt (len2 v1) ≠ 0 := by positivity
  generalize a * Real.sqrt (len2 v0) = A at *
  generalize b * Real.sqrt (len2 v1) = B at *
  ext <;> simp only [sm, addp] <;> field_simp <;> ring

/-- **C60**: (0,0,0) is reported by wmid2 only on failure -/
theorem wmid2_sentinel (v0 v1 t : P3) : point (seeded leeciveraWmid2 v0 v1 t) = zerop ↔ seeded leeciveraWmid2 v0 v1 t = none := by
  constructor
  · intro h
    cases hs : seeded leeciveraWmid2 v0 v1 t with
    | none => rfl
    | some m =>
      exfalso
      rw [hs] at h
      simp only [point] at h
      obtain ⟨hf, hq⟩ := (wmid2_spec v0 v1 t m.value).1 ⟨m, hs, rfl⟩
      rw [h, wmid] at hq
      have hpos := ((inFront_iff _ _ t _ _).1 hf).1
      have p0 : 0 ≤ range0 (nrm v0) (nrm v1) t := by unfold range0; positivity
      have p1 : 0 ≤ range1 (nrm v0) (nrm v1) t := by unfold range1; positivity
      generalize range0 (nrm v0) (nrm v1) t = l0 at *
      generalize range1 (nrm v0) (nrm v1) t = l1 at *
      generalize nrm v0 = u0 at *
      generalize nrm v1 = u1 at *
      have p0' : 0 < l0 := lt_of_le_of_ne p0 (fun hz => by rw [← hz] at hpos; simp at hpos)
      have hk : 1 / (l0 + l1) ≠ 0 := by positivity
      have hx : 0 = 1 / (l0 + l1) * (l1 * (l0 * u0.x) + l0 * (t.x + l1 * u1.x)) := congrArg P3.x hq
      have hy : 0 = 1 / (l0 + l1) * (l1 * (l0 * u0.y) + l0 * (t.y + l1 * u1.y)) := congrArg P3.y hq
      have hz : 0 = 1 / (l0 + l1) * (l1 * (l0 * u0.z) + l0 * (t.z + l1 * u1.z)) := congrArg P3.z hq
      have gx := (mul_eq_zero.1 hx.symm).resolve_left hk
      have gy := (mul_eq_zero.1 hy.symm).resolve_left hk
      have gz := (mul_eq_zero.1 hz.symm).resolve_left hk
      have : l0 * dotp u0 (addp t (sm l1 u1)) = -(l0 * l1 * len2 u0) := by
        simp only [dotp, addp, sm, len2]
        linear_combination u0.x * gx + u0.y * gy + u0.z * gz
      rw [this] at hpos
      have := mul_nonneg (mul_nonneg p0 p1) (len2_nonneg u0)
      linarith
  · intro h; rw [h]; rfl

/-! ### the lengths of the observation vectors -/

theorem range0_scale (v0 v1 t : P3) (a b : ℝ) (ha : 0 < a) (hb : 0 < b) : range0 (sm a v0) (sm b v1) t = range0 v0 v1 t / a := by
  have e1 : len2 (crossp (sm b v1) t) = b ^ 2 * len2 (crossp v1 t) := by simp only [len2, dotp, crossp, sm]; ring
  have e2 : len2 (crossp (sm a v0) (sm b v1)) = (a * b) ^ 2 * len2 (crossp v0 v1) := by simp only [len2, dotp, crossp, sm]; ring
  rw [range0, range0, e1, e2, Real.sqrt_mul (by positivity), Real.sqrt_mul (by positivity), Real.sqrt_sq hb.le, Real.sqrt_sq (by positivity)]
  rw [show a * b * Real.sqrt (len2 (crossp v0 v1)) = b * (Real.sqrt (len2 (crossp v0 v1)) * a) by ring, mul_div_mul_left _ _ hb.ne', div_div]

theorem range1_scale (v0 v1 t : P3) (a b : ℝ) (ha : 0 < a) (hb : 0 < b) : range1 (sm a v0) (sm b v1) t = range1 v0 v1 t / b := by
  have e1 : len2 (crossp (sm a v0) t) = a ^ 2 * len2 (crossp v0 t) := by simp only [len2, dotp, crossp, sm]; ring
  have e2 : len2 (crossp (sm a v0) (sm b v1)) = (a * b) ^ 2 * len2 (crossp v0 v1) := by simp only [len2, dotp, crossp, sm]; ring
  rw [range1, range1, e1, e2, Real.sqrt_mul (by positivity), Real.sqrt_mul (by positivity), Real.sqrt_sq ha.le, Real.sqrt_sq (by positivity)]
  rw [show a * b * Real.sqrt (len2 (crossp v0 v1)) = a * (Real.sqrt (len2 (crossp v0 v1)) * b) by ring, mul_div_mul_left _ _ ha.ne', div_div]

theorem sm_div (k a : ℝ) (v : P3) (ha : 0 < a) : sm (k / a) (sm a v) = sm k v := by
  ext <;> simp only [sm] <;> field_simp
theorem sm_div_neg (k a : ℝ) (v : P3) (ha : 0 < a) : sm (-(k / a)) (sm a v) = sm (-k) v := by
  ext <;> simp only [sm] <;> field_simp

theorem nrm_scale (v : P3) (a : ℝ) (ha : 0 < a) : nrm (sm a v) = nrm v := by
  unfold nrm
  rw [len2_sm, Real.sqrt_mul (by positivity), Real.sqrt_sq ha.le]
  ext <;> simp only [sm] <;> rw [one_div, one_div, mul_inv] <;> field_simp

/-- **C62**: the result of mid2 doesn't depend on the lengths of the observation vectors -/
theorem mid2_scale (v0 v1 t : P3) (a b : ℝ) (ha : 0 < a) (hb : 0 < b) :
    (seeded leeciveraMid2 (sm a v0) (sm b v1) t).map Vec3.value = (seeded leeciveraMid2 v0 v1 t).map Vec3.value := by
  ext q
  simp only [Option.map_eq_some_iff]
  rw [mid2_spec, mid2_spec, range0_scale _ _ _ _ _ ha hb, range1_scale _ _ _ _ _ ha hb]
  simp only [InFront, gmid, sm_div _ _ _ ha, sm_div _ _ _ hb, sm_div_neg _ _ _ ha, sm_div_neg _ _ _ hb]

/-- **C62**: the result of wmid2 doesn't depend on the lengths of the observation vectors -/
theorem wmid2_scale (v0 v1 t : P3) (a b : ℝ) (ha : 0 < a) (hb : 0 < b) :
    (seeded leeciveraWmid2 (sm a v0) (sm b v1) t).map Vec3.value = (seeded leeciveraWmid2 v0 v1 t).map Vec3.value := by
  ext q
  simp only [Option.map_eq_some_iff]
  rw [wmid2_spec, wmid2_spec, nrm_scale _ _ ha, nrm_scale _ _ hb]

/-! ### Lindstrom -/

/-- the rotated vector -/
def rot (R : M3) (v : P3) : P3 :=
  ⟨R.a00 * v.x + R.a01 * v.y + R.a02 * v.z, R.a10 * v.x + R.a11 * v.y + R.a12 * v.z, R.a20 * v.x + R.a21 * v.y + R.a22 * v.z⟩

/-- the epipolar residual: 0 if the rays are coplanar with the cameras -/
def epipolar (R : M3) (t v0 v1 : P3) : ℝ := dotp v0 (crossp t (rot R v1))

theorem matVec_value (R : M3) (g : Nat) (v : Vec3 N) : (matVec (Mat3.init R g) v).value = rot R v.value := rfl

theorem lind_form (R : M3) (t : P3) (g h : Nat) (V0 V1 : Vec3 N) :
    ∃ B D BB n0 n1 nn0 nn1 : ℝ,
      (lindCorrect (lindE (Mat3.init R g) (Vec3.init t (some h))) V0 V1).1.value =
        ⟨V0.x.x / V0.z.x - epipolar R t ⟨V0.x.x / V0.z.x, V0.y.x / V0.z.x, 1⟩ ⟨V1.x.x / V1.z.x, V1.y.x / V1.z.x, 1⟩ / B / D * BB * n0,
         V0.y.x / V0.z.x - epipolar R t ⟨V0.x.x / V0.z.x, V0.y.x / V0.z.x, 1⟩ ⟨V1.x.x / V1.z.x, V1.y.x / V1.z.x, 1⟩ / B / D * BB * n1, 1⟩ ∧
      (lindCorrect (lindE (Mat3.init R g) (Vec3.init t (some h))) V0 V1).2.value =
        ⟨V1.x.x / V1.z.x - epipolar R t ⟨V0.x.x / V0.z.x, V0.y.x / V0.z.x, 1⟩ ⟨V1.x.x / V1.z.x, V1.y.x / V1.z.x, 1⟩ / B / D * BB * nn0,
         V1.y.x / V1.z.x - epipolar R t ⟨V0.x.x / V0.z.x, V0.y.x / V0.z.x, 1⟩ ⟨V1.x.x / V1.z.x, V1.y.x / V1.z.x, 1⟩ / B / D * BB * nn1, 1⟩ := by
  have l : (1.0 : ℝ) = 1 := by norm_num
  generalize hc : epipolar R t ⟨V0.x.x / V0.z.x, V0.y.x / V0.z.x, 1⟩ ⟨V1.x.x / V1.z.x, V1.y.x / V1.z.x, 1⟩ = c
  have key : ∀ c', c' = c → (∃ B D BB n0 n1 nn0 nn1 : ℝ,
      (lindCorrect (lindE (Mat3.init R g) (Vec3.init t (some h))) V0 V1).1.value =
        ⟨V0.x.x / V0.z.x - c' / B / D * BB * n0, V0.y.x / V0.z.x - c' / B / D * BB * n1, 1.0⟩ ∧
      (lindCorrect (lindE (Mat3.init R g) (Vec3.init t (some h))) V0 V1).2.value =
        ⟨V1.x.x / V1.z.x - c' / B / D * BB * nn0, V1.y.x / V1.z.x - c' / B / D * BB * nn1, 1.0⟩) →
      ∃ B D BB n0 n1 nn0 nn1 : ℝ,
      (lindCorrect (lindE (Mat3.init R g) (Vec3.init t (some h))) V0 V1).1.value =
        ⟨V0.x.x / V0.z.x - c / B / D * BB * n0, V0.y.x / V0.z.x - c / B / D * BB * n1, 1⟩ ∧
      (lindCorrect (lindE (Mat3.init R g) (Vec3.init t (some h))) V0 V1).2.value =
        ⟨V1.x.x / V1.z.x - c / B / D * BB * nn0, V1.y.x / V1.z.x - c / B / D * BB * nn1, 1⟩ := by
    intro c' e hh; rw [l, e] at hh; exact hh
  refine key _ ?_ ⟨_, _, _, _, _, _, _, rfl, rfl⟩
  rw [← hc]
  simp only [epipolar, dotp, crossp, rot, lindE, Mat3.init, Vec3.init, Val.add, Val.sub, Val.mul, Val.div]
  ring

theorem lind_form_zero (R : M3) (t v0 v1 : P3) (h : epipolar R t ⟨v0.x / v0.z, v0.y / v0.z, 1⟩ ⟨v1.x / v1.z, v1.y / v1.z, 1⟩ = 0) :
    (lindCorrect (N := 18) (lindE (Mat3.init R 6) (Vec3.init t (some 15))) (Vec3.init v0 (some 0)) (Vec3.init v1 (some 3))).1.value = ⟨v0.x / v0.z, v0.y / v0.z, 1⟩ ∧
    (lindCorrect (N := 18) (lindE (Mat3.init R 6) (Vec3.init t (some 15))) (Vec3.init v0 (some 0)) (Vec3.init v1 (some 3))).2.value = ⟨v1.x / v1.z, v1.y / v1.z, 1⟩ := by
  obtain ⟨B, D, BB, n0, n1, nn0, nn1, f0, f1⟩ := lind_form R t 6 15 (Vec3.init v0 (some 0) : Vec3 18) (Vec3.init v1 (some 3))
  have i0 : (Vec3.init v0 (some 0) : Vec3 18).x.x = v0.x ∧ (Vec3.init v0 (some 0) : Vec3 18).y.x = v0.y ∧ (Vec3.init v0 (some 0) : Vec3 18).z.x = v0.z := ⟨rfl, rfl, rfl⟩
  have i1 : (Vec3.init v1 (some 3) : Vec3 18).x.x = v1.x ∧ (Vec3.init v1 (some 3) : Vec3 18).y.x = v1.y ∧ (Vec3.init v1 (some 3) : Vec3 18).z.x = v1.z := ⟨rfl, rfl, rfl⟩
  simp only [i0, i1, h, zero_div, zero_mul, sub_zero] at f0 f1
  exact ⟨f0, f1⟩

/-- **C34**: the Lindstrom method is exact for perfect observations, in front of each camera (z > 0). Missing: z ≤ 0, see `lind_behind_wrong`. The divisors
are nonzero: `lind_divisor` -/
theorem lind_exact_partial (v0 v1 p : P3) (Rt01 : Rt) (a b : ℝ) (h : Sees v0 (rot Rt01.R v1) Rt01.t a b p) (hz0 : 0 < v0.z) (hz1 : 0 < v1.z)
    (hg : GoodIntersection (sm (1 / v0.z) v0) (rot Rt01.R (sm (1 / v1.z) v1))) :
    ∃ m, lindstromSeeded v0 v1 Rt01 = some m ∧ m.value = p := by
  obtain ⟨ha, hb, e0, e1⟩ := h
  have ee := e0.symm.trans e1
  have w0 : (⟨v0.x / v0.z, v0.y / v0.z, 1⟩ : P3) = sm (1 / v0.z) v0 := by ext <;> simp only [sm] <;> field_simp
  have w1 : (⟨v1.x / v1.z, v1.y / v1.z, 1⟩ : P3) = sm (1 / v1.z) v1 := by ext <;> simp only [sm] <;> field_simp
  have hep : epipolar Rt01.R Rt01.t (sm (1 / v0.z) v0) (sm (1 / v1.z) v1) = 0 := by
    have hh : epipolar Rt01.R Rt01.t (sm (1 / v0.z) v0) (sm (1 / v1.z) v1) = 1 / v0.z * (1 / v1.z) * dotp v0 (crossp Rt01.t (rot Rt01.R v1)) := by
      simp only [epipolar, dotp, crossp, rot, sm]; ring
    have hd : dotp v0 (crossp Rt01.t (rot Rt01.R v1)) = 0 := by
      generalize rot Rt01.R v1 = w at *
      generalize Rt01.t = t at *
      have ex : a * v0.x = t.x + b * w.x := congrArg P3.x ee
      have ey : a * v0.y = t.y + b * w.y := congrArg P3.y ee
      have ez : a * v0.z = t.z + b * w.z := congrArg P3.z ee
      apply (mul_eq_zero.1 (?_ : a * _ = 0)).resolve_left ha.ne'
      simp only [dotp, crossp]
      linear_combination (t.y * w.z - t.z * w.y) * ex + (t.z * w.x - t.x * w.z) * ey + (t.x * w.y - t.y * w.x) * ez
    rw [hh, hd, mul_zero]
  obtain ⟨f0, f1⟩ := lind_form_zero Rt01.R Rt01.t v0 v1 (by rw [w0, w1]; exact hep)
  rw [w0] at f0
  rw [w1] at f1
  refine assumeIntersect_some _ _ _ (a * v0.z) (b * v1.z) p ?_ ?_
  · rw [matVec_value, f0, f1]
    refine ⟨by positivity, by positivity, ?_, ?_⟩
    · rw [e0]; ext <;> simp only [sm] <;> field_simp
    · rw [e1]; ext <;> simp only [sm, addp, rot, init_value] <;> field_simp
  · rw [matVec_value, f0, f1]; exact hg

/-- the divisors (b+d and d) aren't 0 for these observations: the normal n of step 1 isn't 0 -/
theorem lind_divisor (v0 w t p : P3) (a b : ℝ) (h : Sees v0 w t a b p) (hz0 : 0 < v0.z) (hc : crossp v0 w ≠ zerop) :
    0 < (crossp t w).x ^ 2 + (crossp t w).y ^ 2 := by
  obtain ⟨ha, hb, e0, e1⟩ := h
  have ee := e0.symm.trans e1
  have ex : a * v0.x = t.x + b * w.x := congrArg P3.x ee
  have ey : a * v0.y = t.y + b * w.y := congrArg P3.y ee
  have ez : a * v0.z = t.z + b * w.z := congrArg P3.z ee
  by_contra hn
  have hx : (crossp t w).x = 0 := by nlinarith [sq_nonneg (crossp t w).x, sq_nonneg (crossp t w).y]
  have hy : (crossp t w).y = 0 := by nlinarith [sq_nonneg (crossp t w).x, sq_nonneg (crossp t w).y]
  have et : t = subp (sm a v0) (sm b w) := by ext <;> simp only [subp, sm] <;> linarith
  have hx' : a * (v0.y * w.z - v0.z * w.y) = 0 := by rw [et] at hx; simp only [crossp, subp, sm] at hx; linarith
  have hy' : a * (v0.z * w.x - v0.x * w.z) = 0 := by rw [et] at hy; simp only [crossp, subp, sm] at hy; linarith
  have gx := (mul_eq_zero.1 hx').resolve_left ha.ne'
  have gy := (mul_eq_zero.1 hy').resolve_left ha.ne'
  apply hc
  have gz : v0.x * w.y - v0.y * w.x = 0 := by
    apply (mul_eq_zero.1 (?_ : v0.z * _ = 0)).resolve_left hz0.ne'
    linear_combination (-v0.x) * gx - v0.y * gy
  ext
  · exact gx
  · exact gy
  · exact gz

def identity3 : M3 := ⟨1, 0, 0, 0, 1, 0, 0, 0, 1⟩

example : Sees ⟨0, 0, 1⟩ (rot identity3 ⟨-1, 0, 1⟩) ⟨1, 0, 0⟩ 1 1 ⟨0, 0, 1⟩ ∧
    GoodIntersection (sm (1 / 1) ⟨0, 0, 1⟩) (rot identity3 (sm (1 / 1) ⟨-1, 0, 1⟩)) :=
  ⟨⟨by norm_num, by norm_num, by simp [sm], by simp [sm, addp, rot, identity3]⟩, Or.inr (by norm_num [crossp, sm, rot, identity3])⟩

/-- the Lindstrom method fails for a point that is seen perfectly by both cameras at more than 90 degrees from the optical axis, as a fisheye lens can: it
flips the ray to have z > 0 -/
theorem lind_behind_wrong : Sees ⟨1, 0, -1⟩ (rot identity3 ⟨-1, 0, -1⟩) ⟨2, 0, 0⟩ 1 1 ⟨1, 0, -1⟩ ∧
    lindstromSeeded ⟨1, 0, -1⟩ ⟨-1, 0, -1⟩ ⟨identity3, ⟨2, 0, 0⟩⟩ = none := by
  refine ⟨⟨by norm_num, by norm_num, by simp [sm], by norm_num [sm, addp, rot, identity3]⟩, ?_⟩
  cases hs : lindstromSeeded ⟨1, 0, -1⟩ ⟨-1, 0, -1⟩ ⟨identity3, ⟨2, 0, 0⟩⟩ with
  | none => rfl
  | some m =>
    exfalso
    obtain ⟨f0, f1⟩ := lind_form_zero identity3 ⟨2, 0, 0⟩ ⟨1, 0, -1⟩ ⟨-1, 0, -1⟩ (by norm_num [epipolar, dotp, crossp, rot, identity3])
    have hi := assumeIntersect_val _ _ _ m (by
      rw [matVec_value, f0, f1]
      norm_num [dotp, crossp, rot, identity3, init_value]) hs
    obtain ⟨-, k0, k1, h0, h1, g0, g1⟩ := hi
    rw [f0] at g0
    rw [matVec_value, f1] at g1
    have hx := (congrArg P3.x g0).symm.trans (congrArg P3.x g1)
    norm_num [sm, addp, rot, identity3, init_value] at hx
    linarith

theorem add_x (a b : Val N) : (a.add b).x = a.x + b.x := rfl
theorem sub_x (a b : Val N) : (a.sub b).x = a.x - b.x := rfl
theorem mul_x (a b : Val N) : (a.mul b).x = a.x * b.x := rfl
theorem div_x (a b : Val N) : (a.div b).x = a.x / b.x := rfl
theorem mulC_x (a : Val N) (b : ℝ) : (a.mulC b).x = a.x * b := rfl
theorem sqrt_x (a : Val N) : a.sqrt.x = Real.sqrt a.x := rfl
theorem ofR_x (a : ℝ) : (Val.ofR a : Val N).x = a := rfl

theorem lind_calc (E : Mat3 N) (V0 V1 : Vec3 N) (h00 : E.r0.x.x = 0) (h01 : E.r0.y.x = -1) (h02 : E.r0.z.x = 0)
    (h10 : E.r1.x.x = 1) (h11 : E.r1.y.x = 0) (h12 : E.r1.z.x = 0) (h20 : E.r2.x.x = 0) (h21 : E.r2.y.x = 0) (h22 : E.r2.z.x = 0)
    (a0 : V0.x.x = 1) (a1 : V0.y.x = 0) (a2 : V0.z.x = 1) (b0 : V1.x.x = 0) (b1 : V1.y.x = 2) (b2 : V1.z.x = 1) :
    (lindCorrect E V0 V1).1.value = ⟨7 / 16, 0, 1⟩ ∧ (lindCorrect E V0 V1).2.value = ⟨0, 2, 1⟩ := by
  have hs : Real.sqrt (9 / 4) = 3 / 2 := by
    rw [show (9 / 4 : ℝ) = (3 / 2) ^ 2 by norm_num, Real.sqrt_sq (by norm_num)]
  constructor <;> ext <;>
    norm_num [lindCorrect, Vec3.value, add_x, sub_x, mul_x, div_x, mulC_x, sqrt_x, ofR_x, h00, h01, h02, h10, h11, h12, h20, h21, h22, a0, a1, a2, b0, b1, b2, hs]

/-- step 12 of the Lindstrom algorithm is documented as l *= 2*d/( nps.inner(n,n) + nps.inner(nn,nn) ), but the code multiplies by the inverse. Two
pinhole cameras separated by 1 along the optical axis observe (1,0) and (0,2). The rays corrected by the code aren't coplanar with the baseline: they do not intersect.
Those corrected with the documented expression are. -/
theorem lind_step12_wrong :
    (lindCorrect (N := 18) (lindE (Mat3.init identity3 6) (Vec3.init ⟨0, 0, 1⟩ (some 15))) (Vec3.init ⟨1, 0, 1⟩ (some 0)) (Vec3.init ⟨0, 2, 1⟩ (some 3))).1.value = ⟨7 / 16, 0, 1⟩ ∧
    (lindCorrect (N := 18) (lindE (Mat3.init identity3 6) (Vec3.init ⟨0, 0, 1⟩ (some 15))) (Vec3.init ⟨1, 0, 1⟩ (some 0)) (Vec3.init ⟨0, 2, 1⟩ (some 3))).2.value = ⟨0, 2, 1⟩ ∧
    epipolar identity3 ⟨0, 0, 1⟩ ⟨7 / 16, 0, 1⟩ ⟨0, 2, 1⟩ = -7 / 8 ∧
    -- the documented step: l = -1/2, d = 3/2, b = 9/8, n = (-3/2,0), nn = (0,0)
    epipolar identity3 ⟨0, 0, 1⟩ ⟨1 - (-1 / 2) * (3 / 2) / (9 / 8) * (-3 / 2), 0, 1⟩ ⟨0, 2, 1⟩ = 0 := by
  have hc := lind_calc (N := 18) (lindE (Mat3.init identity3 6) (Vec3.init ⟨0, 0, 1⟩ (some 15))) (Vec3.init ⟨1, 0, 1⟩ (some 0)) (Vec3.init ⟨0, 2, 1⟩ (some 3))
    (by simp [lindE, Mat3.init, Vec3.init, identity3, sub_x, mul_x]) (by simp [lindE, Mat3.init, Vec3.init, identity3, sub_x, mul_x])
    (by simp [lindE, Mat3.init, Vec3.init, identity3, sub_x, mul_x]) (by simp [lindE, Mat3.init, Vec3.init, identity3, sub_x, mul_x])
    (by simp [lindE, Mat3.init, Vec3.init, identity3, sub_x, mul_x]) (by simp [lindE, Mat3.init, Vec3.init, identity3, sub_x, mul_x])
    (by simp [lindE, Mat3.init, Vec3.init, identity3, sub_x, mul_x]) (by simp [lindE, Mat3.init, Vec3.init, identity3, sub_x, mul_x])
    (by simp [lindE, Mat3.init, Vec3.init, identity3, sub_x, mul_x]) rfl rfl rfl rfl rfl rfl
  refine ⟨hc.1, hc.2, ?_, ?_⟩
  · norm_num [epipolar, dotp, crossp, rot, identity3]
  · norm_num [epipolar, dotp, crossp, rot, identity3]

/-- **C60**: (0,0,0) is reported by the Lindstrom method only on failure -/
theorem lind_sentinel (v0 v1 : P3) (Rt01 : Rt) : point (lindstromSeeded v0 v1 Rt01) = zerop ↔ lindstromSeeded v0 v1 Rt01 = none :=
  assumeIntersect_sentinel _ _ _

end Mrcal.Tri
