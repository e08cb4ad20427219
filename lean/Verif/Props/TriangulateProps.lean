import Verif.Model.Triangulation
import Mathlib.Tactic.Linarith
import Mathlib.Tactic.Ring
import Mathlib.Tactic.LinearCombination
import Mathlib.Tactic.NormNum
import Mathlib.Tactic.Positivity
import Mathlib.Tactic.FieldSimp
/-
C32, C34, C60: triangulation: closest approach, exactness for perfect observations, the failure sentinel.
-/
namespace Mrcal.Tri
open Mrcal.AD

variable {N : Nat}

/-! ### the specification: vectors in space -/

def dotp (a b : P3) : ℝ := a.x * b.x + a.y * b.y + a.z * b.z
def crossp (a b : P3) : P3 := ⟨a.y * b.z - a.z * b.y, a.z * b.x - a.x * b.z, a.x * b.y - a.y * b.x⟩
def sm (k : ℝ) (a : P3) : P3 := ⟨k * a.x, k * a.y, k * a.z⟩
def addp (a b : P3) : P3 := ⟨a.x + b.x, a.y + b.y, a.z + b.z⟩
def subp (a b : P3) : P3 := ⟨a.x - b.x, a.y - b.y, a.z - b.z⟩
def zerop : P3 := ⟨0, 0, 0⟩
/-- squared length -/
def len2 (a : P3) : ℝ := dotp a a
/-- squared distance -/
def dist2 (a b : P3) : ℝ := len2 (subp a b)

/-- the point at k0 on the line of camera 0, and at k1 on the line of camera 1, are nearer to each other than any other such pair -/
def ClosestPair (v0 v1 t : P3) (k0 k1 : ℝ) : Prop :=
  ∀ s0 s1, dist2 (sm k0 v0) (addp t (sm k1 v1)) ≤ dist2 (sm s0 v0) (addp t (sm s1 v1))

/-- the observations are perfect: `p` is at range a > 0 along the ray of camera 0, and range b > 0 along the ray of camera 1 -/
def Sees (v0 v1 t : P3) (a b : ℝ) (p : P3) : Prop := 0 < a ∧ 0 < b ∧ p = sm a v0 ∧ p = addp t (sm b v1)

theorem len2_nonneg (a : P3) : 0 ≤ len2 a := by
  simp only [len2, dotp]; nlinarith [mul_self_nonneg a.x, mul_self_nonneg a.y, mul_self_nonneg a.z]

theorem len2_zero {a : P3} : len2 a = 0 ↔ a = zerop := by
  constructor
  · intro h
    simp only [len2, dotp] at h
    have hx : a.x = 0 := by nlinarith [mul_self_nonneg a.x, mul_self_nonneg a.y, mul_self_nonneg a.z]
    have hy : a.y = 0 := by nlinarith [mul_self_nonneg a.x, mul_self_nonneg a.y, mul_self_nonneg a.z]
    have hz : a.z = 0 := by nlinarith [mul_self_nonneg a.x, mul_self_nonneg a.y, mul_self_nonneg a.z]
    ext <;> simp [zerop, hx, hy, hz]
  · rintro rfl; simp [len2, dotp, zerop]

theorem lagrange (a b : P3) : len2 (crossp a b) = len2 a * len2 b - dotp a b * dotp a b := by
  simp only [len2, dotp, crossp]; ring

/-! ### the values carried by the automatic differentiation -/

theorem dot_x (a b : Vec3 N) : (a.dot b).x = dotp a.value b.value := by
  simp only [Vec3.dot, Val.add, Val.mul, Val.ofR, dotp, Vec3.value]; ring
theorem norm2_x (a : Vec3 N) : a.norm2.x = len2 a.value := dot_x a a
theorem add_value (a b : Vec3 N) : (a.add b).value = addp a.value b.value := rfl
theorem sub_value (a b : Vec3 N) : (a.sub b).value = subp a.value b.value := rfl
theorem cross_value (a b : Vec3 N) : (a.cross b).value = crossp a.value b.value := rfl
theorem mulV_value (a : Vec3 N) (k : Val N) : (a.mulV k).value = sm k.x a.value := by
  ext <;> simp only [Vec3.mulV, Vec3.value, Val.mul, sm] <;> ring
theorem mulC_value (a : Vec3 N) (k : ℝ) : (a.mulC k).value = sm k a.value := by
  ext <;> simp only [Vec3.mulC, Vec3.value, Val.mulC, sm] <;> ring
theorem divV_value (a : Vec3 N) (k : Val N) : (a.divV k).value = sm (1 / k.x) a.value := by
  ext <;> simp only [Vec3.divV, Vec3.value, Val.div, sm] <;> ring
theorem divVecC_value (a : Vec3 N) (k : ℝ) : (divVecC a k).value = sm (1 / k) a.value := by
  ext <;> simp only [divVecC, Vec3.value, Val.divC, Val.mulC, sm] <;> ring
theorem mag_x (a : Vec3 N) : a.mag.x = Real.sqrt (len2 a.value) := by
  simp only [Vec3.mag, Val.sqrt, norm2_x]
theorem crossNorm2_x (a b : Vec3 N) : (crossNorm2 a b).x = len2 (crossp a.value b.value) := by
  simp only [crossNorm2, norm2_x, cross_value]
theorem crossMag_x (a b : Vec3 N) : (crossMag a b).x = Real.sqrt (len2 (crossp a.value b.value)) := by
  simp only [crossMag, mag_x, cross_value]
theorem init_value (p : P3) (g : Option Nat) : (Vec3.init p g : Vec3 N).value = p := rfl

/-! ### the geometric method -/

/-- the ranges at the closest approach -/
noncomputable def gk0 (v0 v1 t : P3) : ℝ := (len2 v1 * dotp v0 t - dotp v0 v1 * dotp v1 t) / len2 (crossp v0 v1)
noncomputable def gk1 (v0 v1 t : P3) : ℝ := (dotp v0 v1 * dotp v0 t - len2 v0 * dotp v1 t) / len2 (crossp v0 v1)
noncomputable def gmid (v0 v1 t : P3) (k0 k1 : ℝ) : P3 := sm (1 / 2) (addp (sm k0 v0) (addp t (sm k1 v1)))

theorem geometric_val (V0 V1 T : Vec3 N) (q : P3) :
    (∃ m, geometric V0 V1 T = some m ∧ m.value = q) ↔
    (1e-10 < len2 (crossp V0.value V1.value) ∧ 0 < gk0 V0.value V1.value T.value ∧ 0 < gk1 V0.value V1.value T.value ∧
      q = gmid V0.value V1.value T.value (gk0 V0.value V1.value T.value) (gk1 V0.value V1.value T.value)) := by
  have hD : ((V0.norm2.mul V1.norm2).sub ((V0.dot V1).mul (V0.dot V1))).x = len2 (crossp V0.value V1.value) := by
    rw [lagrange]; simp only [Val.sub, Val.mul, norm2_x, dot_x]
  have hk0 : (((Val.ofR 1).div ((V0.norm2.mul V1.norm2).sub ((V0.dot V1).mul (V0.dot V1)))).mul
      ((V1.norm2.mul (V0.dot T)).sub ((V0.dot V1).mul (V1.dot T)))).x = gk0 V0.value V1.value T.value := by
    simp only [gk0, ← hD]
    simp only [Val.sub, Val.mul, Val.div, Val.ofR, norm2_x, dot_x]; ring
  have hk1 : (((Val.ofR 1).div ((V0.norm2.mul V1.norm2).sub ((V0.dot V1).mul (V0.dot V1)))).mul
      (((V0.dot V1).mul (V0.dot T)).sub (V0.norm2.mul (V1.dot T)))).x = gk1 V0.value V1.value T.value := by
    simp only [gk1, ← hD]
    simp only [Val.sub, Val.mul, Val.div, Val.ofR, norm2_x, dot_x]; ring
  have hDn := len2_nonneg (crossp V0.value V1.value)
  simp only [geometric, hD, hk0, hk1]
  by_cases h1 : len2 (crossp V0.value V1.value) ≤ 1e-10
  · rw [if_pos ⟨by norm_num at *; linarith, h1⟩]
    constructor
    · rintro ⟨m, hm, _⟩; cases hm
    · rintro ⟨h, _⟩; exact absurd h1 (not_le.2 h)
  rw [if_neg (fun h => h1 h.2)]
  by_cases h2 : gk0 V0.value V1.value T.value ≤ 0
  · rw [if_pos h2]
    constructor
    · rintro ⟨m, hm, _⟩; cases hm
    · rintro ⟨_, h, _⟩; exact absurd h2 (not_le.2 h)
  rw [if_neg h2]
  by_cases h3 : gk1 V0.value V1.value T.value ≤ 0
  · rw [if_pos h3]
    constructor
    · rintro ⟨m, hm, _⟩; cases hm
    · rintro ⟨_, _, h, _⟩; exact absurd h3 (not_le.2 h)
  rw [if_neg h3]
  have hv : ((((V0.mulV (((Val.ofR 1).div ((V0.norm2.mul V1.norm2).sub ((V0.dot V1).mul (V0.dot V1)))).mul
      ((V1.norm2.mul (V0.dot T)).sub ((V0.dot V1).mul (V1.dot T))))).add
      (V1.mulV (((Val.ofR 1).div ((V0.norm2.mul V1.norm2).sub ((V0.dot V1).mul (V0.dot V1)))).mul
      (((V0.dot V1).mul (V0.dot T)).sub (V0.norm2.mul (V1.dot T)))))).add T).mulC 0.5).value
      = gmid V0.value V1.value T.value (gk0 V0.value V1.value T.value) (gk1 V0.value V1.value T.value) := by
    rw [mulC_value, add_value, add_value, mulV_value, mulV_value, hk0, hk1]
    simp only [gmid, sm, addp]
    norm_num
    refine ⟨?_, ?_, ?_⟩ <;> ring
  constructor
  · rintro ⟨m, hm, rfl⟩
    cases hm
    exact ⟨not_le.1 h1, not_le.1 h2, not_le.1 h3, hv⟩
  · rintro ⟨_, _, _, rfl⟩
    exact ⟨_, rfl, hv⟩

/-- the residual is perpendicular to both rays -/
theorem gk_perp (v0 v1 t : P3) (h : len2 (crossp v0 v1) ≠ 0) :
    dotp (subp (addp t (sm (gk1 v0 v1 t) v1)) (sm (gk0 v0 v1 t) v0)) v0 = 0 ∧
    dotp (subp (addp t (sm (gk1 v0 v1 t) v1)) (sm (gk0 v0 v1 t) v0)) v1 = 0 := by
  have e0 : gk0 v0 v1 t * len2 (crossp v0 v1) = len2 v1 * dotp v0 t - dotp v0 v1 * dotp v1 t := by
    simp only [gk0]; field_simp
  have e1 : gk1 v0 v1 t * len2 (crossp v0 v1) = dotp v0 v1 * dotp v0 t - len2 v0 * dotp v1 t := by
    simp only [gk1]; field_simp
  have L := lagrange v0 v1
  have x0 : dotp (subp (addp t (sm (gk1 v0 v1 t) v1)) (sm (gk0 v0 v1 t) v0)) v0
      = dotp v0 t + gk1 v0 v1 t * dotp v0 v1 - gk0 v0 v1 t * len2 v0 := by simp only [dotp, subp, addp, sm, len2]; ring
  have x1 : dotp (subp (addp t (sm (gk1 v0 v1 t) v1)) (sm (gk0 v0 v1 t) v0)) v1
      = dotp v1 t + gk1 v0 v1 t * len2 v1 - gk0 v0 v1 t * dotp v0 v1 := by simp only [dotp, subp, addp, sm, len2]; ring
  rw [x0, x1]
  generalize gk0 v0 v1 t = k0 at *
  generalize gk1 v0 v1 t = k1 at *
  generalize len2 (crossp v0 v1) = D at *
  constructor
  · apply (mul_eq_zero.1 (?_ : D * _ = 0)).resolve_left h
    linear_combination dotp v0 v1 * e1 - len2 v0 * e0 + dotp v0 t * L
  · apply (mul_eq_zero.1 (?_ : D * _ = 0)).resolve_left h
    linear_combination len2 v1 * e1 - dotp v0 v1 * e0 + dotp v1 t * L

/-- Pythagoras, around the closest approach -/
theorem gk_dist (v0 v1 t : P3) (h : len2 (crossp v0 v1) ≠ 0) (s0 s1 : ℝ) :
    dist2 (sm s0 v0) (addp t (sm s1 v1)) =
      dist2 (sm (gk0 v0 v1 t) v0) (addp t (sm (gk1 v0 v1 t) v1)) +
      dist2 (sm (s0 - gk0 v0 v1 t) v0) (sm (s1 - gk1 v0 v1 t) v1) := by
  obtain ⟨p0, p1⟩ := gk_perp v0 v1 t h
  generalize gk0 v0 v1 t = k0 at *
  generalize gk1 v0 v1 t = k1 at *
  simp only [dist2, len2, dotp, subp, addp, sm] at *
  linear_combination -2 * (s0 - k0) * p0 + 2 * (s1 - k1) * p1

theorem closest_unique (v0 v1 t : P3) (h : len2 (crossp v0 v1) ≠ 0) (k0 k1 : ℝ) :
    ClosestPair v0 v1 t k0 k1 ↔ k0 = gk0 v0 v1 t ∧ k1 = gk1 v0 v1 t := by
  constructor
  · intro hc
    have h1 := hc (gk0 v0 v1 t) (gk1 v0 v1 t)
    rw [gk_dist v0 v1 t h k0 k1] at h1
    generalize hA : gk0 v0 v1 t = A at *
    generalize hB : gk1 v0 v1 t = B at *
    have hz : subp (sm (k0 - A) v0) (sm (k1 - B) v1) = zerop := by
      rw [← len2_zero]
      have := len2_nonneg (subp (sm (k0 - A) v0) (sm (k1 - B) v1))
      simp only [dist2] at h1
      linarith
    have hx : (k0 - A) * v0.x - (k1 - B) * v1.x = 0 := congrArg P3.x hz
    have hy : (k0 - A) * v0.y - (k1 - B) * v1.y = 0 := congrArg P3.y hz
    have hw : (k0 - A) * v0.z - (k1 - B) * v1.z = 0 := congrArg P3.z hz
    constructor
    · by_contra hne
      apply h
      have hne' : k0 - A ≠ 0 := sub_ne_zero.2 hne
      have : (k0 - A) ^ 2 * len2 (crossp v0 v1) = 0 := by
        have e1 : (k0 - A) * (v0.y * v1.z - v0.z * v1.y) = 0 := by linear_combination v1.z * hy - v1.y * hw
        have e2 : (k0 - A) * (v0.z * v1.x - v0.x * v1.z) = 0 := by linear_combination v1.x * hw - v1.z * hx
        have e3 : (k0 - A) * (v0.x * v1.y - v0.y * v1.x) = 0 := by linear_combination v1.y * hx - v1.x * hy
        simp only [len2, dotp, crossp]
        linear_combination (k0 - A) * (v0.y * v1.z - v0.z * v1.y) * e1 + (k0 - A) * (v0.z * v1.x - v0.x * v1.z) * e2 + (k0 - A) * (v0.x * v1.y - v0.y * v1.x) * e3
      exact (mul_eq_zero.1 this).resolve_left (pow_ne_zero 2 hne')
    · by_contra hne
      apply h
      have hne' : k1 - B ≠ 0 := sub_ne_zero.2 hne
      have : (k1 - B) ^ 2 * len2 (crossp v0 v1) = 0 := by
        have e1 : (k1 - B) * (v0.y * v1.z - v0.z * v1.y) = 0 := by linear_combination v0.z * hy - v0.y * hw
        have e2 : (k1 - B) * (v0.z * v1.x - v0.x * v1.z) = 0 := by linear_combination v0.x * hw - v0.z * hx
        have e3 : (k1 - B) * (v0.x * v1.y - v0.y * v1.x) = 0 := by linear_combination v0.y * hx - v0.x * hy
        simp only [len2, dotp, crossp]
        linear_combination (k1 - B) * (v0.y * v1.z - v0.z * v1.y) * e1 + (k1 - B) * (v0.z * v1.x - v0.x * v1.z) * e2 + (k1 - B) * (v0.x * v1.y - v0.y * v1.x) * e3
      exact (mul_eq_zero.1 this).resolve_left (pow_ne_zero 2 hne')
  · rintro ⟨rfl, rfl⟩ s0 s1
    rw [gk_dist v0 v1 t h s0 s1]
    have := len2_nonneg (subp (sm (s0 - gk0 v0 v1 t) v0) (sm (s1 - gk1 v0 v1 t) v1))
    simp only [dist2] at *
    linarith

/-- **C32**: triangulate_geometric() succeeds if and only if the rays aren't nearly parallel and the closest approach is in
front of both cameras. And then it reports the midpoint of the closest approach -/
theorem geometric_closest (v0 v1 t q : P3) :
    (∃ m, seeded geometric v0 v1 t = some m ∧ m.value = q) ↔
    (1e-10 < len2 (crossp v0 v1) ∧ ∃ k0 k1, 0 < k0 ∧ 0 < k1 ∧ ClosestPair v0 v1 t k0 k1 ∧
      addp q q = addp (sm k0 v0) (addp t (sm k1 v1))) := by
  have hmid : ∀ k0 k1, q = gmid v0 v1 t k0 k1 ↔ addp q q = addp (sm k0 v0) (addp t (sm k1 v1)) := by
    intro k0 k1
    constructor
    · rintro rfl
      simp only [gmid, addp, sm]; ext <;> simp only [] <;> ring
    · intro h
      have hx : q.x + q.x = _ := congrArg P3.x h
      have hy : q.y + q.y = _ := congrArg P3.y h
      have hz : q.z + q.z = _ := congrArg P3.z h
      simp only [addp] at hx hy hz
      simp only [gmid, addp, sm] at *
      ext <;> simp only [] <;> linarith
  have := geometric_val (N := 9) (Vec3.init v0 (some 0)) (Vec3.init v1 (some 3)) (Vec3.init t (some 6)) q
  simp only [init_value] at this
  rw [seeded, this]
  constructor
  · rintro ⟨h, h0, h1, hq⟩
    have hne : len2 (crossp v0 v1) ≠ 0 := by norm_num at h; linarith
    exact ⟨h, _, _, h0, h1, (closest_unique v0 v1 t hne _ _).2 ⟨rfl, rfl⟩, (hmid _ _).1 hq⟩
  · rintro ⟨h, k0, k1, h0, h1, hc, hq⟩
    have hne : len2 (crossp v0 v1) ≠ 0 := by norm_num at h; linarith
    obtain ⟨rfl, rfl⟩ := (closest_unique v0 v1 t hne _ _).1 hc
    exact ⟨h, h0, h1, (hmid _ _).2 hq⟩

/-- two cameras, 1 unit apart, looking at skewed rays -/
example : ∃ m, seeded geometric ⟨0, 0, 1⟩ ⟨-1, 0, 1⟩ ⟨1, 1, 0⟩ = some m ∧ m.value = ⟨0, 1 / 2, 1⟩ := by
  rw [geometric_closest]
  refine ⟨by norm_num [len2, dotp, crossp], 1, 1, by norm_num, by norm_num, ?_, by norm_num [addp, sm]⟩
  intro s0 s1
  simp only [dist2, len2, dotp, subp, sm, addp]
  nlinarith [mul_self_nonneg (1 - s1), mul_self_nonneg (s0 - s1)]

/-- the point isn't at the camera -/
theorem sees_closest (v0 v1 t p : P3) (a b : ℝ) (h : Sees v0 v1 t a b p) : ClosestPair v0 v1 t a b := by
  obtain ⟨_, _, h0, h1⟩ := h
  intro s0 s1
  have : dist2 (sm a v0) (addp t (sm b v1)) = 0 := by
    rw [← h0, ← h1]; simp [dist2, len2, dotp, subp]
  rw [this]
  exact len2_nonneg _

/-- **C34**: the geometric method is exact for perfect observations. The full property is false: it fails for rays at a small angle,
or short observation vectors: `geometric_scale_wrong` -/
theorem geometric_exact_partial (v0 v1 t p : P3) (a b : ℝ) (h : Sees v0 v1 t a b p) (hc : 1e-10 < len2 (crossp v0 v1)) :
    ∃ m, seeded geometric v0 v1 t = some m ∧ m.value = p := by
  rw [geometric_closest]
  refine ⟨hc, a, b, h.1, h.2.1, sees_closest _ _ _ _ _ _ h, ?_⟩
  rw [← h.2.2.1, ← h.2.2.2]

example : Sees ⟨0, 0, 1⟩ ⟨-1, 0, 1⟩ ⟨1, 0, 0⟩ 1 1 ⟨0, 0, 1⟩ ∧ 1e-10 < len2 (crossp ⟨0, 0, 1⟩ ⟨-1, 0, 1⟩) :=
  ⟨⟨by norm_num, by norm_num, by simp [sm], by simp [sm, addp]⟩, by norm_num [len2, dotp, crossp]⟩

/-- the documentation says that the observation vectors don't need to be normalized. But the failure threshold is absolute: scaling
the observation vectors of perfect observations makes the geometric method fail. For all perfect observations -/
theorem geometric_scale_wrong (v0 v1 t p : P3) (a b : ℝ) (_h : Sees v0 v1 t a b p) :
    ∃ k, 0 < k ∧ Sees (sm k v0) (sm k v1) t (a / k) (b / k) p ∧ seeded geometric (sm k v0) (sm k v1) t = none := by
  obtain ⟨ha, hb, h0, h1⟩ := _h
  obtain ⟨k, hk, hk1, hk2⟩ : ∃ k : ℝ, 0 < k ∧ k ≤ 1 ∧ k * len2 (crossp v0 v1) ≤ 1e-10 := by
    have hn := len2_nonneg (crossp v0 v1)
    refine ⟨1e-10 / (1 + len2 (crossp v0 v1)), by positivity, ?_, ?_⟩
    · rw [div_le_one (by positivity)]; norm_num; linarith
    · rw [div_mul_eq_mul_div, div_le_iff₀ (by positivity)]
      norm_num
  refine ⟨k, hk, ⟨by positivity, by positivity, ?_, ?_⟩, ?_⟩
  · rw [h0]; ext <;> simp only [sm] <;> field_simp
  · rw [h1]; ext <;> simp only [sm, addp] <;> field_simp
  · cases hs : seeded geometric (sm k v0) (sm k v1) t with
    | none => rfl
    | some m =>
      exfalso
      have := (geometric_closest (sm k v0) (sm k v1) t m.value).1 ⟨m, hs, rfl⟩
      have h4 : len2 (crossp (sm k v0) (sm k v1)) = k ^ 4 * len2 (crossp v0 v1) := by
        simp only [len2, dotp, crossp, sm]; ring
      have h5 := this.1
      rw [h4] at h5
      have : k ^ 4 ≤ k := by
        have := pow_le_of_le_one hk.le hk1 (n := 4) (by norm_num)
        exact this
      have := mul_le_mul_of_nonneg_right this (len2_nonneg (crossp v0 v1))
      linarith

/-- **C60**: (0,0,0) is reported by the geometric method only on failure -/
theorem geometric_sentinel (v0 v1 t : P3) :
    point (seeded geometric v0 v1 t) = zerop ↔ seeded geometric v0 v1 t = none := by
  constructor
  · intro h
    cases hs : seeded geometric v0 v1 t with
    | none => rfl
    | some m =>
      exfalso
      rw [hs] at h
      simp only [point] at h
      obtain ⟨hc, k0, k1, h0, h1, hcl, hq⟩ := (geometric_closest v0 v1 t m.value).1 ⟨m, hs, rfl⟩
      have hne : len2 (crossp v0 v1) ≠ 0 := by norm_num at hc; linarith
      have hk := (closest_unique v0 v1 t hne _ _).1 hcl
      have hp := (gk_perp v0 v1 t hne).1
      rw [← hk.1, ← hk.2] at hp
      rw [h] at hq
      have hx : (0 : ℝ) + 0 = k0 * v0.x + (t.x + k1 * v1.x) := congrArg P3.x hq
      have hy : (0 : ℝ) + 0 = k0 * v0.y + (t.y + k1 * v1.y) := congrArg P3.y hq
      have hz : (0 : ℝ) + 0 = k0 * v0.z + (t.z + k1 * v1.z) := congrArg P3.z hq
      have h2 : k0 * len2 v0 = 0 := by
        simp only [dotp, subp, addp, sm, len2] at hp ⊢
        linear_combination -(1/2) * hp + (1/2) * (-hx * v0.x - hy * v0.y - hz * v0.z)
      have hv0 : len2 v0 = 0 := (mul_eq_zero.1 h2).resolve_left h0.ne'
      apply hne
      rw [lagrange, hv0]
      have := len2_zero.1 hv0
      rw [this]; simp [dotp, zerop]
  · intro h; rw [h]; rfl

/-! ### rays that intersect -/

theorem intersectAxis_val (a0 a1 at_ z0 z1 zt k : Val N) (hdet : a1.x * z0.x - a0.x * z1.x ≠ 0) :
    intersectAxis a0 a1 at_ z0 z1 zt = some k →
    0 < k.x ∧ ∃ k1, 0 ≤ k1 ∧ k.x * z0.x = zt.x + k1 * z1.x ∧ k.x * a0.x = at_.x + k1 * a1.x := by
  simp only [intersectAxis]
  by_cases h1 : (((zt.mul a1).sub (at_.mul z1)).div ((a1.mul z0).sub (a0.mul z1))).x ≤ 0
  · rw [if_pos h1]; intro h; cases h
  rw [if_neg h1]
  by_cases h2 : ¬ ((zt.x * a0.x > at_.x * z0.x) ↔ (((a1.mul z0).sub (a0.mul z1)).x > 0))
  · rw [if_pos h2]; intro h; cases h
  · rw [if_neg h2]
    intro h
    rw [← Option.some.inj h]
    refine ⟨not_le.1 h1, (zt.x * a0.x - at_.x * z0.x) / (a1.x * z0.x - a0.x * z1.x), ?_, ?_, ?_⟩
    · have h2' : (zt.x * a0.x > at_.x * z0.x) ↔ (a1.x * z0.x - a0.x * z1.x > 0) := by
        by_contra h3; exact h2 h3
      by_cases hp : a1.x * z0.x - a0.x * z1.x > 0
      · exact div_nonneg (by linarith [h2'.2 hp]) hp.le
      · have : ¬ zt.x * a0.x > at_.x * z0.x := fun h => hp (h2'.1 h)
        exact div_nonneg_of_nonpos (by linarith) (by linarith)
    · simp only [Val.div, Val.sub, Val.mul]
      generalize hD : a1.x * z0.x - a0.x * z1.x = D at *
      field_simp
      rw [← hD]; ring
    · simp only [Val.div, Val.sub, Val.mul]
      generalize hD : a1.x * z0.x - a0.x * z1.x = D at *
      field_simp
      rw [← hD]; ring

theorem intersectAxis_some (a0 a1 at_ z0 z1 zt : Val N) (k0 k1 : ℝ) (hdet : a1.x * z0.x - a0.x * z1.x ≠ 0) (h0 : 0 < k0) (h1 : 0 < k1)
    (hz : k0 * z0.x = zt.x + k1 * z1.x) (ha : k0 * a0.x = at_.x + k1 * a1.x) :
    ∃ k, intersectAxis a0 a1 at_ z0 z1 zt = some k ∧ k.x = k0 := by
  have hk : (((zt.mul a1).sub (at_.mul z1)).div ((a1.mul z0).sub (a0.mul z1))).x = k0 := by
    simp only [Val.div, Val.sub, Val.mul]
    rw [div_eq_iff hdet]
    linear_combination z1.x * ha - a1.x * hz
  refine ⟨_, ?_, hk⟩
  simp only [intersectAxis, hk]
  rw [if_neg (not_le.2 h0), if_neg]
  rw [not_not]
  simp only [Val.sub, Val.mul]
  have e : zt.x * a0.x - at_.x * z0.x = k1 * (a1.x * z0.x - a0.x * z1.x) := by linear_combination a0.x * (-hz) + z0.x * ha
  constructor
  · intro h
    by_contra hn
    have := mul_nonpos_of_nonneg_of_nonpos h1.le (not_lt.1 hn)
    linarith
  · intro h
    have := mul_pos h1 h
    linarith

/-- the rays aren't both nearly in the plane perpendicular to the z axis of camera 0, and aren't nearly parallel. This is what the
intersection routine requires -/
def GoodIntersection (v0 v1 : P3) : Prop := 1e-10 < |(crossp v0 v1).x| ∨ 1e-10 < |(crossp v0 v1).y|

theorem third_axis (c0 c1 c2 e0 e1 e2 : ℝ) (h : c0 * e0 + c1 * e1 + c2 * e2 = 0) (h0 : c0 = 0) (h1 : c1 = 0) (h2 : e2 ≠ 0) : c2 = 0 := by
  subst h0 h1
  simpa [h2] using h

/-- if the rays lie in a plane, a result is on both rays -/
theorem assumeIntersect_val (V0 V1 T m : Vec3 N) (hco : dotp (crossp V0.value V1.value) T.value = 0)
    (h : assumeIntersect V0 V1 T = some m) :
    GoodIntersection V0.value V1.value ∧ ∃ k0 k1, 0 < k0 ∧ 0 ≤ k1 ∧ m.value = sm k0 V0.value ∧ m.value = addp T.value (sm k1 V1.value) := by
  have hexz : (-V0.x.x) * V1.z.x + V0.z.x * V1.x.x = (crossp V0.value V1.value).y := by simp only [crossp, Vec3.value]; ring
  have heyz : (-V0.y.x) * V1.z.x + V0.z.x * V1.y.x = -(crossp V0.value V1.value).x := by simp only [crossp, Vec3.value]; ring
  simp only [assumeIntersect, hexz, heyz, abs_neg] at h
  split_ifs at h with h1 h2 h3
  · simp at h
  · rw [Option.map_eq_some_iff] at h
    obtain ⟨k, hk, rfl⟩ := h
    have hy : (crossp V0.value V1.value).y ≠ 0 := by
      intro h0; rw [h0] at h2; norm_num at h2
    have hy2 : V1.x.x * V0.z.x - V0.x.x * V1.z.x ≠ 0 := by
      intro h0; apply hy; simp only [crossp, Vec3.value]; linarith
    obtain ⟨hk0, k1, hk1, ez, ex⟩ := intersectAxis_val _ _ _ _ _ _ _ hy2 hk
    refine ⟨Or.inr (not_le.1 h2), k.x, k1, hk0, hk1, mulV_value _ _, ?_⟩
    rw [mulV_value]
    have ey : k.x * V0.y.x - V1.y.x * k1 - T.y.x = 0 := by
      apply (mul_eq_zero.1 (?_ : (V1.x.x * V0.z.x - V0.x.x * V1.z.x) * _ = 0)).resolve_left hy2
      simp only [dotp, crossp, Vec3.value] at hco
      linear_combination (V0.z.x * V1.y.x - V0.y.x * V1.z.x) * ex + (V0.y.x * V1.x.x - V0.x.x * V1.y.x) * ez - hco
    ext <;> simp only [sm, addp, Vec3.value] <;> linarith
  · simp at h
  · rw [Option.map_eq_some_iff] at h
    obtain ⟨k, hk, rfl⟩ := h
    have hy : (crossp V0.value V1.value).x ≠ 0 := by
      intro h0; rw [h0] at h3; norm_num at h3
    have hy2 : V1.y.x * V0.z.x - V0.y.x * V1.z.x ≠ 0 := by
      intro h0; apply hy; simp only [crossp, Vec3.value]; linarith
    obtain ⟨hk0, k1, hk1, ez, ex⟩ := intersectAxis_val _ _ _ _ _ _ _ hy2 hk
    refine ⟨Or.inl (not_le.1 h3), k.x, k1, hk0, hk1, mulV_value _ _, ?_⟩
    rw [mulV_value]
    have ey : k.x * V0.x.x - V1.x.x * k1 - T.x.x = 0 := by
      apply (mul_eq_zero.1 (?_ : (V1.y.x * V0.z.x - V0.y.x * V1.z.x) * _ = 0)).resolve_left hy2
      simp only [dotp, crossp, Vec3.value] at hco
      linear_combination (V0.z.x * V1.x.x - V0.x.x * V1.z.x) * ex + (V0.x.x * V1.y.x - V0.y.x * V1.x.x) * ez + hco
    ext <;> simp only [sm, addp, Vec3.value] <;> linarith

/-- if the rays intersect in front of both cameras, the intersection is found -/
theorem assumeIntersect_some (V0 V1 T : Vec3 N) (a b : ℝ) (p : P3) (hs : Sees V0.value V1.value T.value a b p)
    (hg : GoodIntersection V0.value V1.value) : ∃ m, assumeIntersect V0 V1 T = some m ∧ m.value = p := by
  obtain ⟨ha, hb, h0, h1⟩ := hs
  have hexz : (-V0.x.x) * V1.z.x + V0.z.x * V1.x.x = (crossp V0.value V1.value).y := by simp only [crossp, Vec3.value]; ring
  have heyz : (-V0.y.x) * V1.z.x + V0.z.x * V1.y.x = -(crossp V0.value V1.value).x := by simp only [crossp, Vec3.value]; ring
  have ee := h0.symm.trans h1
  have ex : a * V0.x.x = T.x.x + b * V1.x.x := congrArg P3.x ee
  have ey : a * V0.y.x = T.y.x + b * V1.y.x := congrArg P3.y ee
  have ez : a * V0.z.x = T.z.x + b * V1.z.x := congrArg P3.z ee
  simp only [assumeIntersect, hexz, heyz, abs_neg]
  by_cases hc : |(crossp V0.value V1.value).y| > |(crossp V0.value V1.value).x|
  · have h2 : ¬ |(crossp V0.value V1.value).y| ≤ 1e-10 := by
      rcases hg with h | h
      · exact not_le.2 (lt_trans h hc)
      · exact not_le.2 h
    have hy : (crossp V0.value V1.value).y ≠ 0 := by
      intro h0; rw [h0] at h2; norm_num at h2
    have hy2 : V1.x.x * V0.z.x - V0.x.x * V1.z.x ≠ 0 := by
      intro h0; apply hy; simp only [crossp, Vec3.value]; linarith
    obtain ⟨k, hk, hkx⟩ := intersectAxis_some V0.x V1.x T.x V0.z V1.z T.z a b hy2 ha hb ez ex
    rw [if_pos hc, if_neg h2, hk]
    exact ⟨_, rfl, by rw [mulV_value, hkx, h0]⟩
  · have h2 : ¬ |(crossp V0.value V1.value).x| ≤ 1e-10 := by
      rcases hg with h | h
      · exact not_le.2 h
      · exact not_le.2 (lt_of_lt_of_le h (not_lt.1 hc))
    have hy : (crossp V0.value V1.value).x ≠ 0 := by
      intro h0; rw [h0] at h2; norm_num at h2
    have hy2 : V1.y.x * V0.z.x - V0.y.x * V1.z.x ≠ 0 := by
      intro h0; apply hy; simp only [crossp, Vec3.value]; linarith
    obtain ⟨k, hk, hkx⟩ := intersectAxis_some V0.y V1.y T.y V0.z V1.z T.z a b hy2 ha hb ez ey
    rw [if_neg hc, if_neg h2, hk]
    exact ⟨_, rfl, by rw [mulV_value, hkx, h0]⟩

theorem assumeIntersect_sentinel (V0 V1 T : Vec3 N) : point (assumeIntersect V0 V1 T) = zerop ↔ assumeIntersect V0 V1 T = none := by
  constructor
  · intro h
    by_contra hn
    obtain ⟨m, hm⟩ := Option.ne_none_iff_exists'.1 hn
    have hexz : (-V0.x.x) * V1.z.x + V0.z.x * V1.x.x = (crossp V0.value V1.value).y := by simp only [crossp, Vec3.value]; ring
    have heyz : (-V0.y.x) * V1.z.x + V0.z.x * V1.y.x = -(crossp V0.value V1.value).x := by simp only [crossp, Vec3.value]; ring
    rw [hm] at h
    simp only [point] at h
    have key : ∀ k : Val N, 0 < k.x → (V0.mulV k).value = zerop → V0.value = zerop := by
      intro k hk he
      rw [mulV_value] at he
      have hx : k.x * V0.value.x = 0 := congrArg P3.x he
      have hy : k.x * V0.value.y = 0 := congrArg P3.y he
      have hz : k.x * V0.value.z = 0 := congrArg P3.z he
      simp only [mul_eq_zero, hk.ne', false_or] at hx hy hz
      ext <;> simp [zerop, hx, hy, hz]
    have key2 : V0.value = zerop → (crossp V0.value V1.value).x = 0 ∧ (crossp V0.value V1.value).y = 0 := by
      intro h; rw [h]; simp [crossp, zerop]
    simp only [assumeIntersect, hexz, heyz, abs_neg] at hm
    split_ifs at hm with h1 h2 h3
    · simp at hm
    · rw [Option.map_eq_some_iff] at hm
      obtain ⟨k, hk, rfl⟩ := hm
      have hkx : 0 < k.x := by
        simp only [intersectAxis] at hk
        split_ifs at hk with h4 h5
        rw [← Option.some.inj hk]; exact not_le.1 h4
      rw [(key2 (key k hkx h)).2] at h2
      norm_num at h2
    · simp at hm
    · rw [Option.map_eq_some_iff] at hm
      obtain ⟨k, hk, rfl⟩ := hm
      have hkx : 0 < k.x := by
        simp only [intersectAxis] at hk
        split_ifs at hk with h4 h5
        rw [← Option.some.inj hk]; exact not_le.1 h4
      rw [(key2 (key k hkx h)).1] at h3
      norm_num at h3
  · intro h; rw [h]; rfl

end Mrcal.Tri
