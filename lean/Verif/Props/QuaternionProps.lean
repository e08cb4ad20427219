import Verif.Model.Quaternion
import Verif.Props.RodriguesInvProps
import Verif.Props.CahvoreProps
import Mathlib.Algebra.Quaternion
/-
C90: quaternions. Every matrix produces a unit quaternion; each rotation produces THE quaternion of that rotation; and the conversions preserve the transformation.
-/
namespace Mrcal.Quaternion
open Mrcal.Pose

/-! ### Specification -/

/-- |q|² -/
def norm2 (q : Quat) : ℝ := q.u ^ 2 + q.i ^ 2 + q.j ^ 2 + q.k ^ 2

/-- the elements, in the order i,j,k,u -/
def comp (q : Quat) : Fin 4 → ℝ := ![q.i, q.j, q.k, q.u]

/-- of the two quaternions q and -q that mean the same rotation: the one whose largest element is positive. If several elements have the same magnitude, the first of i,j,k,u decides -/
def Canonical (q : Quat) : Prop := ∃ n : Fin 4, 0 < comp q n ∧ (∀ m, |comp q m| ≤ comp q n) ∧ ∀ m < n, |comp q m| < comp q n

/-- the quaternion, as an element of the algebra of quaternions -/
def toH (q : Quat) : Quaternion ℝ := ⟨q.u, q.i, q.j, q.k⟩
/-- the vector, as a quaternion with no scalar part -/
def pureH (v : P3) : Quaternion ℝ := ⟨0, v.x, v.y, v.z⟩

def neg (q : Quat) : Quat := ⟨-q.u, -q.i, -q.j, -q.k⟩

/-! ### R_from_quat -/

@[simp] theorem toH_re (q : Quat) : (toH q).re = q.u := rfl
@[simp] theorem toH_imI (q : Quat) : (toH q).imI = q.i := rfl
@[simp] theorem toH_imJ (q : Quat) : (toH q).imJ = q.j := rfl
@[simp] theorem toH_imK (q : Quat) : (toH q).imK = q.k := rfl
@[simp] theorem pureH_re (v : P3) : (pureH v).re = 0 := rfl
@[simp] theorem pureH_imI (v : P3) : (pureH v).imI = v.x := rfl
@[simp] theorem pureH_imJ (v : P3) : (pureH v).imJ = v.y := rfl
@[simp] theorem pureH_imK (v : P3) : (pureH v).imK = v.z := rfl

/-- **C90**: R_from_quat(q) rotates the vectors as the algebra of quaternions says: v becomes q v q* -/
theorem R_from_quat_meaning (q : Quat) (h : norm2 q = 1) (v : P3) :
    pureH (rotatePointR (R_from_quat q) v false) = toH q * pureH v * star (toH q) := by
  unfold norm2 at h
  ext
  · simp; ring
  · simp [rotatePointR, Pose.mulVec, R_from_quat]
    linear_combination -v.x * h
  · simp [rotatePointR, Pose.mulVec, R_from_quat]
    linear_combination -v.y * h
  · simp [rotatePointR, Pose.mulVec, R_from_quat]
    linear_combination -v.z * h

example : norm2 ⟨1 / 2, 1 / 2, -1 / 2, 1 / 2⟩ = 1 := by norm_num [norm2]

/-- **C90**: exactly the unit quaternions (and those with no vector part: these always mean the identity) produce rotations -/
theorem R_from_quat_rotation_iff (q : Quat) : IsRot (R_from_quat q) ↔ norm2 q = 1 ∨ (q.i = 0 ∧ q.j = 0 ∧ q.k = 0) := by
  constructor
  · intro h
    obtain ⟨r0, r1, r2, r01, r02, r12⟩ := h.1.rows
    simp only [R_from_quat] at r0 r1 r2
    by_cases hn : norm2 q = 1
    · exact Or.inl hn
    · right
      have hd : 1 - norm2 q ≠ 0 := fun e => hn (by linarith)
      unfold norm2 at hd
      have s0 : q.j ^ 2 + q.k ^ 2 = 0 := by
        have : (1 - (q.u ^ 2 + q.i ^ 2 + q.j ^ 2 + q.k ^ 2)) * (q.j ^ 2 + q.k ^ 2) = 0 := by linear_combination -r0 / 4
        exact (mul_eq_zero.mp this).resolve_left hd
      have s1 : q.i ^ 2 + q.k ^ 2 = 0 := by
        have : (1 - (q.u ^ 2 + q.i ^ 2 + q.j ^ 2 + q.k ^ 2)) * (q.i ^ 2 + q.k ^ 2) = 0 := by linear_combination -r1 / 4
        exact (mul_eq_zero.mp this).resolve_left hd
      refine ⟨?_, ?_, ?_⟩ <;> exact pow_eq_zero_iff two_ne_zero |>.mp (by nlinarith [sq_nonneg q.i, sq_nonneg q.j, sq_nonneg q.k])
  · rintro (h | ⟨a, b, c⟩)
    · unfold norm2 at h
      refine ⟨?_, ?_⟩
      · unfold Orth
        ext a b
        fin_cases a <;> fin_cases b <;> simp [toMat, R_from_quat, Matrix.mul_apply, Fin.sum_univ_three]
        · linear_combination 4 * (q.j ^ 2 + q.k ^ 2) * h
        · linear_combination -4 * q.i * q.j * h
        · linear_combination -4 * q.i * q.k * h
        · linear_combination -4 * q.i * q.j * h
        · linear_combination 4 * (q.i ^ 2 + q.k ^ 2) * h
        · linear_combination -4 * q.j * q.k * h
        · linear_combination -4 * q.i * q.k * h
        · linear_combination -4 * q.j * q.k * h
        · linear_combination 4 * (q.i ^ 2 + q.j ^ 2) * h
      · simp [toMat, R_from_quat, Matrix.det_fin_three]
        linear_combination 4 * (q.i ^ 2 + q.j ^ 2 + q.k ^ 2) * h
    · have : R_from_quat q = identityR := by
        ext <;> simp [R_from_quat, identityR, a, b, c]
      rw [this]
      exact identity_rot

/-- **C90**: the product of quaternions is the composition of the rotations -/
theorem R_from_quat_compose (p q pq : Quat) (hp : norm2 p = 1) (hq : norm2 q = 1) (h : toH pq = toH p * toH q) :
    R_from_quat pq = mul (R_from_quat p) (R_from_quat q) := by
  have hn : norm2 pq = 1 := by
    have e : ∀ q : Quat, Quaternion.normSq (toH q) = norm2 q := fun q => by simp [Quaternion.normSq_def', norm2]
    rw [← e, h, map_mul, e, e, hp, hq, one_mul]
  have key : ∀ v : P3, rotatePointR (R_from_quat pq) v false = rotatePointR (R_from_quat p) (rotatePointR (R_from_quat q) v false) false := by
    intro v
    have e : pureH (rotatePointR (R_from_quat pq) v false) = pureH (rotatePointR (R_from_quat p) (rotatePointR (R_from_quat q) v false) false) := by
      rw [R_from_quat_meaning pq hn, R_from_quat_meaning p hp, R_from_quat_meaning q hq, h, star_mul]
      simp only [mul_assoc]
    have e1 := congrArg QuaternionAlgebra.imI e
    have e2 := congrArg QuaternionAlgebra.imJ e
    have e3 := congrArg QuaternionAlgebra.imK e
    exact P3.ext e1 e2 e3
  have k0 := key ⟨1, 0, 0⟩
  have k1 := key ⟨0, 1, 0⟩
  have k2 := key ⟨0, 0, 1⟩
  generalize R_from_quat pq = A at *
  generalize R_from_quat p = B at *
  generalize R_from_quat q = C at *
  simp only [rotatePointR, Pose.mulVec, P3.mk.injEq, if_false, Bool.false_eq_true] at k0 k1 k2
  obtain ⟨a0, a1, a2⟩ := k0
  obtain ⟨b0, b1, b2⟩ := k1
  obtain ⟨c0, c1, c2⟩ := k2
  ext <;> simp only [Pose.mul, Pose.vecMul] <;> linarith

example : ∃ p q pq : Quat, norm2 p = 1 ∧ norm2 q = 1 ∧ toH pq = toH p * toH q ∧ pq ≠ p :=
  ⟨⟨3 / 5, 4 / 5, 0, 0⟩, ⟨0, 0, 1, 0⟩, ⟨0, 0, 3 / 5, 4 / 5⟩, by norm_num [norm2], by norm_num [norm2], by ext <;> simp, by
    intro h; have := congrArg Quat.u h; norm_num at this⟩

/-! ### quat_from_R -/

/-- the elements of R_from_quat(q), when q is a unit quaternion -/
theorem diag (q : Quat) (h : norm2 q = 1) :
    (R_from_quat q).a00 = 2 * (q.i ^ 2 + q.u ^ 2) - 1 ∧ (R_from_quat q).a11 = 2 * (q.j ^ 2 + q.u ^ 2) - 1 ∧
    (R_from_quat q).a22 = 2 * (q.k ^ 2 + q.u ^ 2) - 1 := by
  unfold norm2 at h
  simp only [R_from_quat]
  refine ⟨?_, ?_, ?_⟩
  · linear_combination -2 * h
  · linear_combination -2 * h
  · linear_combination -2 * h

theorem set_u (q : Quat) (x : ℝ) : q.set 0 x = { q with u := x } := rfl
theorem set_i (q : Quat) (x : ℝ) : q.set 1 x = { q with i := x } := rfl
theorem set_j (q : Quat) (x : ℝ) : q.set 2 x = { q with j := x } := rfl
theorem set_k (q : Quat) (x : ℝ) : q.set 3 x = { q with k := x } := rfl

/-- the four cases -/
theorem unnormalized_cases (R : M3) (w : Quat) :
    unnormalized R w =
      (if choice R = 0 then ⟨R.a21 - R.a12, 1 - (R.a00 + R.a11 + R.a22) + 2 * R.a00, R.a10 + R.a01, R.a20 + R.a02⟩
       else if choice R = 1 then ⟨R.a02 - R.a20, R.a01 + R.a10, 1 - (R.a00 + R.a11 + R.a22) + 2 * R.a11, R.a21 + R.a12⟩
       else if choice R = 2 then ⟨R.a10 - R.a01, R.a02 + R.a20, R.a12 + R.a21, 1 - (R.a00 + R.a11 + R.a22) + 2 * R.a22⟩
       else ⟨1 + (R.a00 + R.a11 + R.a22), R.a21 - R.a12, R.a02 - R.a20, R.a10 - R.a01⟩) := by
  have hc : choice R = 0 ∨ choice R = 1 ∨ choice R = 2 ∨ choice R = 3 := by
    unfold choice
    dsimp only
    split
    · simp
    · split
      · simp
      · split <;> simp
  unfold unnormalized
  rcases hc with h | h | h | h <;> simp [h, set_u, set_i, set_j, set_k, elem]

/-- **C90**: ANY matrix at all produces a unit quaternion: the normalization never divides by 0, and nothing uninitialized remains -/
theorem quat_from_R_unit (R : M3) : ∃ q, norm2 q = 1 ∧ ∀ w, quat_from_R R w = some q := by
  obtain ⟨p, hp⟩ : ∃ p, ∀ w, unnormalized R w = p := ⟨_, fun w => unnormalized_cases R w⟩
  have h0 : 0 < p.u * p.u + p.i * p.i + p.j * p.j + p.k * p.k := by
    have hz : ∀ a b c d : ℝ, a ≠ 0 ∨ b ≠ 0 ∨ c ≠ 0 ∨ d ≠ 0 → 0 < a * a + b * b + c * c + d * d := by
      intro a b c d h
      rcases h with h | h | h | h <;>
        nlinarith [mul_self_pos.mpr h, mul_self_nonneg a, mul_self_nonneg b, mul_self_nonneg c, mul_self_nonneg d]
    have e := hp p
    rw [unnormalized_cases] at e
    unfold choice at e
    dsimp only at e
    by_cases c0 : R.a11 ≤ R.a00 ∧ R.a22 ≤ R.a00 ∧ R.a00 + R.a11 + R.a22 ≤ R.a00
    · simp only [if_pos c0, if_true] at e
      subst e
      exact hz _ _ _ _ (Or.inr (Or.inl (by simp only; intro; linarith [c0.1, c0.2.1, c0.2.2])))
    · by_cases c1 : R.a22 ≤ R.a11 ∧ R.a00 + R.a11 + R.a22 ≤ R.a11
      · simp only [if_neg c0, if_pos c1, if_true, one_ne_zero, if_false] at e
        subst e
        refine hz _ _ _ _ (Or.inr (Or.inr (Or.inl ?_)))
        simp only
        intro hh
        apply c0
        refine ⟨?_, ?_, ?_⟩ <;> linarith [c1.1, c1.2]
      · by_cases c2 : R.a00 + R.a11 + R.a22 ≤ R.a22
        · simp only [if_neg c0, if_neg c1, if_pos c2, if_true, if_false, OfNat.ofNat_ne_zero, OfNat.ofNat_ne_one] at e
          subst e
          refine hz _ _ _ _ (Or.inr (Or.inr (Or.inr ?_)))
          simp only
          intro hh
          by_cases d1 : R.a22 ≤ R.a11
          · exact c1 ⟨d1, by linarith⟩
          · by_cases d0 : R.a22 ≤ R.a00
            · by_cases d2 : R.a11 ≤ R.a00
              · exact c0 ⟨d2, d0, by linarith⟩
              · linarith
            · linarith
        · simp only [if_neg c0, if_neg c1, if_neg c2, if_false, OfNat.ofNat_ne_zero, OfNat.ofNat_ne_one, Nat.reduceEqDiff] at e
          subst e
          refine hz _ _ _ _ (Or.inl ?_)
          simp only
          intro hh
          by_cases d0 : R.a22 ≤ R.a00
          · by_cases d1 : R.a11 ≤ R.a00
            · exact c0 ⟨d1, d0, by linarith⟩
            · by_cases d3 : R.a22 ≤ R.a11
              · exact c1 ⟨d3, by linarith⟩
              · linarith
          · by_cases d3 : R.a22 ≤ R.a11
            · exact c1 ⟨d3, by linarith⟩
            · linarith
  have hn : norm p ≠ 0 := (Real.sqrt_pos.mpr h0).ne'
  have hsq : norm p * norm p = p.u * p.u + p.i * p.i + p.j * p.j + p.k * p.k := Real.mul_self_sqrt h0.le
  refine ⟨⟨p.u / norm p, p.i / norm p, p.j / norm p, p.k / norm p⟩, ?_, fun w => ?_⟩
  · unfold norm2
    simp only
    field_simp
    linarith
  · unfold quat_from_R
    simp only [hp, if_neg hn]

/-- normalizing a scaled unit quaternion -/
theorem normalized (R : M3) (w q : Quat) (s : ℝ) (hs : 0 < s) (h : norm2 q = 1)
    (hu : unnormalized R w = ⟨s * q.u, s * q.i, s * q.j, s * q.k⟩) : quat_from_R R w = some q := by
  have hn : norm (unnormalized R w) = s := by
    rw [hu]
    unfold norm
    simp only
    rw [show s * q.u * (s * q.u) + s * q.i * (s * q.i) + s * q.j * (s * q.j) + s * q.k * (s * q.k) = s * s by
      unfold norm2 at h; linear_combination s * s * h]
    exact Real.sqrt_mul_self hs.le
  unfold quat_from_R
  simp only [hn, if_neg hs.ne']
  rw [hu]
  simp only [Option.some.injEq]
  ext <;> simp only <;> field_simp

/-- a canonical unit quaternion is recovered -/
theorem recovered (q w : Quat) (h : norm2 q = 1) (hc : Canonical q) : quat_from_R (R_from_quat q) w = some q := by
  obtain ⟨n, hpos, hmax, hfirst⟩ := hc
  obtain ⟨d0, d1, d2⟩ := diag q h
  have sq_le : ∀ a b : ℝ, 0 < b → |a| ≤ b → a ^ 2 ≤ b ^ 2 := fun a b hb hab => sq_le_sq' (by linarith [abs_le.mp hab]) (abs_le.mp hab).2
  have sq_lt : ∀ a b : ℝ, 0 < b → |a| < b → a ^ 2 < b ^ 2 := fun a b hb hab => sq_lt_sq' (by linarith [abs_lt.mp hab]) (abs_lt.mp hab).2
  have h' := h
  unfold norm2 at h'
  fin_cases n
  · simp only [comp] at hpos hmax
    have m1 := sq_le _ _ hpos (hmax 1)
    have m2 := sq_le _ _ hpos (hmax 2)
    have m3 := sq_le _ _ hpos (hmax 3)
    simp at hpos m1 m2 m3
    have c : choice (R_from_quat q) = 0 := by
      unfold choice
      dsimp only
      rw [if_pos]
      rw [d0, d1, d2]
      refine ⟨?_, ?_, ?_⟩ <;> linarith
    refine normalized _ w q (4 * q.i) (by linarith) h ?_
    rw [unnormalized_cases, if_pos c]
    ext <;> simp only [R_from_quat]
    · ring
    · ring
    · ring
    · ring
  · simp only [comp] at hpos hmax hfirst
    have m0 := sq_lt _ _ hpos (hfirst 0 (by decide))
    have m2 := sq_le _ _ hpos (hmax 2)
    have m3 := sq_le _ _ hpos (hmax 3)
    simp at hpos m0 m2 m3
    have c : choice (R_from_quat q) = 1 := by
      unfold choice
      dsimp only
      rw [d0, d1, d2]
      rw [if_neg (fun hh => by linarith [hh.1, hh.2.1, hh.2.2])]
      rw [if_pos ⟨by linarith, by linarith⟩]
    refine normalized _ w q (4 * q.j) (by linarith) h ?_
    rw [unnormalized_cases]
    simp only [c, one_ne_zero, if_true, if_false, OfNat.ofNat_ne_zero, OfNat.ofNat_ne_one, Nat.reduceEqDiff]
    ext <;> simp only [R_from_quat]
    · ring
    · ring
    · ring
    · ring
  · simp only [comp] at hpos hmax hfirst
    have m0 := sq_lt _ _ hpos (hfirst 0 (by decide))
    have m1 := sq_lt _ _ hpos (hfirst 1 (by decide))
    have m3 := sq_le _ _ hpos (hmax 3)
    simp at hpos m0 m1 m3
    have c : choice (R_from_quat q) = 2 := by
      unfold choice
      dsimp only
      rw [d0, d1, d2]
      rw [if_neg (fun hh => by linarith [hh.1, hh.2.1, hh.2.2])]
      rw [if_neg (fun hh => by linarith [hh.1, hh.2])]
      rw [if_pos (by linarith)]
    refine normalized _ w q (4 * q.k) (by linarith) h ?_
    rw [unnormalized_cases]
    simp only [c, one_ne_zero, if_true, if_false, OfNat.ofNat_ne_zero, OfNat.ofNat_ne_one, Nat.reduceEqDiff]
    ext <;> simp only [R_from_quat]
    · ring
    · ring
    · ring
    · ring
  · simp only [comp] at hpos hmax hfirst
    have m0 := sq_lt _ _ hpos (hfirst 0 (by decide))
    have m1 := sq_lt _ _ hpos (hfirst 1 (by decide))
    have m2 := sq_lt _ _ hpos (hfirst 2 (by decide))
    simp at hpos m0 m1 m2
    have c : choice (R_from_quat q) = 3 := by
      unfold choice
      dsimp only
      rw [d0, d1, d2]
      rw [if_neg (fun hh => by linarith [hh.1, hh.2.1, hh.2.2])]
      rw [if_neg (fun hh => by linarith [hh.1, hh.2])]
      rw [if_neg (by linarith)]
    refine normalized _ w q (4 * q.u) (by linarith) h ?_
    rw [unnormalized_cases]
    simp only [c, one_ne_zero, if_true, if_false, OfNat.ofNat_ne_zero, OfNat.ofNat_ne_one, Nat.reduceEqDiff]
    ext <;> simp only [R_from_quat]
    · linear_combination -4 * h'
    · ring
    · ring
    · ring

/-- some element is the largest -/
theorem first_max (f : Fin 4 → ℝ) : ∃ n, (∀ m, f m ≤ f n) ∧ ∀ m < n, f m < f n := by
  classical
  obtain ⟨n0, h0⟩ := Finite.exists_max f
  have hex : ∃ n : ℕ, ∃ h : n < 4, ∀ m, f m ≤ f ⟨n, h⟩ := ⟨n0, n0.2, h0⟩
  obtain ⟨hlt, hmax⟩ := Nat.find_spec hex
  refine ⟨⟨Nat.find hex, hlt⟩, hmax, fun m hm => ?_⟩
  have hnot := Nat.find_min hex (m := m.1) hm
  by_contra hge
  exact hnot ⟨m.2, fun k => (hmax k).trans (not_lt.mp hge)⟩

/-- one of q, -q is canonical -/
theorem canonical_exists (q : Quat) (h : norm2 q = 1) : Canonical q ∨ Canonical (neg q) := by
  obtain ⟨n, hmax, hfirst⟩ := first_max fun m => |comp q m|
  have hneg : ∀ m, comp (neg q) m = -comp q m := fun m => by fin_cases m <;> rfl
  have hne : comp q n ≠ 0 := by
    intro h0
    have hz : ∀ m, comp q m = 0 := fun m => abs_eq_zero.mp (le_antisymm (by simpa [h0] using hmax m) (abs_nonneg _))
    have z0 : q.i = 0 := hz 0
    have z1 : q.j = 0 := hz 1
    have z2 : q.k = 0 := hz 2
    have z3 : q.u = 0 := hz 3
    unfold norm2 at h
    rw [z0, z1, z2, z3] at h
    norm_num at h
  rcases lt_or_gt_of_ne hne with hlt | hgt
  · right
    have e : |comp q n| = comp (neg q) n := by rw [hneg, abs_of_neg hlt]
    refine ⟨n, by rw [hneg]; linarith, fun m => ?_, fun m hm => ?_⟩
    · rw [← e, hneg, abs_neg]; exact hmax m
    · rw [← e, hneg, abs_neg]; exact hfirst m hm
  · left
    have e : |comp q n| = comp q n := abs_of_pos hgt
    refine ⟨n, hgt, fun m => ?_, fun m hm => ?_⟩
    · rw [← e]; exact hmax m
    · rw [← e]; exact hfirst m hm

theorem norm2_neg (q : Quat) : norm2 (neg q) = norm2 q := by simp [norm2, neg]
theorem R_from_neg (q : Quat) : R_from_quat (neg q) = R_from_quat q := by
  simp [R_from_quat, neg]

/-- a matrix, and the products of the elements of the quaternion -/
theorem from_products (R : M3) (p : Quat) (A : ℝ) (hA : 0 < A)
    (uu : p.u * p.u = A * (1 + (R.a00 + R.a11 + R.a22)))
    (ii : p.i * p.i = A * (2 * R.a00 + 1 - (R.a00 + R.a11 + R.a22)))
    (jj : p.j * p.j = A * (2 * R.a11 + 1 - (R.a00 + R.a11 + R.a22)))
    (kk : p.k * p.k = A * (2 * R.a22 + 1 - (R.a00 + R.a11 + R.a22)))
    (ij : p.i * p.j = A * (R.a01 + R.a10)) (ik : p.i * p.k = A * (R.a02 + R.a20)) (jk : p.j * p.k = A * (R.a12 + R.a21))
    (iu : p.i * p.u = A * (R.a21 - R.a12)) (ju : p.j * p.u = A * (R.a02 - R.a20)) (ku : p.k * p.u = A * (R.a10 - R.a01)) :
    ∃ q, norm2 q = 1 ∧ R_from_quat q = R := by
  have hs : Real.sqrt A * Real.sqrt A = A := Real.mul_self_sqrt hA.le
  have hpos : 0 < Real.sqrt A := Real.sqrt_pos.mpr hA
  obtain ⟨s, rfl⟩ : ∃ s, s = Real.sqrt A := ⟨_, rfl⟩
  generalize hss : Real.sqrt A = s at *
  have hs0 : s ≠ 0 := hpos.ne'
  subst hs
  refine ⟨⟨p.u / (2 * s), p.i / (2 * s), p.j / (2 * s), p.k / (2 * s)⟩, ?_, ?_⟩
  · unfold norm2
    simp only
    field_simp
    linear_combination uu + ii + jj + kk
  · ext <;> simp only [R_from_quat] <;> field_simp
    · linear_combination -jj - kk
    · linear_combination ij - ku
    · linear_combination ik + ju
    · linear_combination ij + ku
    · linear_combination -ii - kk
    · linear_combination jk - iu
    · linear_combination ik - ju
    · linear_combination jk + iu
    · linear_combination -ii - jj

theorem isRot_of (R : M3) (D : M3) (hD : IsRot D) (h : IsRot R) : IsRot (Pose.mul R D) := by
  obtain ⟨h1, h2⟩ := h
  obtain ⟨d1, d2⟩ := hD
  refine ⟨?_, ?_⟩
  · unfold Orth at *
    rw [toMat_mul, Matrix.transpose_mul]
    rw [Matrix.mul_assoc, ← Matrix.mul_assoc (toMat D), d1, Matrix.one_mul, h1]
  · rw [toMat_mul, Matrix.det_mul, h2, d2, one_mul]

theorem isRot_diag (a b c : ℝ) (ha : a * a = 1) (hb : b * b = 1) (hc : c * c = 1) (habc : a * b * c = 1) : IsRot ⟨a, 0, 0, 0, b, 0, 0, 0, c⟩ := by
  refine ⟨?_, ?_⟩
  · unfold Orth
    ext i j
    fin_cases i <;> fin_cases j <;> simp [toMat, Matrix.mul_apply, Fin.sum_univ_three, ha, hb, hc]
  · simp [toMat, Matrix.det_fin_three, habc]

/-- every rotation has a quaternion -/
theorem quaternion_exists (R : M3) (h : IsRot R) : ∃ q, norm2 q = 1 ∧ R_from_quat q = R := by
  obtain ⟨o1, o2, o3, o4, o5, o6⟩ := h.outer
  obtain ⟨x1, x2, x3, x4, x5, x6⟩ := (isRot_of R ⟨1, 0, 0, 0, -1, 0, 0, 0, -1⟩ (isRot_diag _ _ _ (by norm_num) (by norm_num) (by norm_num) (by norm_num)) h).outer
  obtain ⟨y1, y2, y3, y4, y5, y6⟩ := (isRot_of R ⟨-1, 0, 0, 0, 1, 0, 0, 0, -1⟩ (isRot_diag _ _ _ (by norm_num) (by norm_num) (by norm_num) (by norm_num)) h).outer
  obtain ⟨z1, z2, z3, z4, z5, z6⟩ := (isRot_of R ⟨-1, 0, 0, 0, -1, 0, 0, 0, 1⟩ (isRot_diag _ _ _ (by norm_num) (by norm_num) (by norm_num) (by norm_num)) h).outer
  simp only [Pose.mul, Pose.vecMul] at x1 x2 x3 x4 x5 x6 y1 y2 y3 y4 y5 y6 z1 z2 z3 z4 z5 z6
  by_cases hu : 0 < 1 + (R.a00 + R.a11 + R.a22)
  · refine from_products R ⟨1 + (R.a00 + R.a11 + R.a22), R.a21 - R.a12, R.a02 - R.a20, R.a10 - R.a01⟩ _ hu ?_ ?_ ?_ ?_ ?_ ?_ ?_ ?_ ?_ ?_ <;> dsimp only <;> first | ring1 | exact o1 | exact o2 | exact o3 | exact o4 | exact o5 | exact o6
  by_cases hi : 0 < 2 * R.a00 + 1 - (R.a00 + R.a11 + R.a22)
  · refine from_products R ⟨R.a21 - R.a12, 2 * R.a00 + 1 - (R.a00 + R.a11 + R.a22), R.a01 + R.a10, R.a02 + R.a20⟩ _ hi ?_ ?_ ?_ ?_ ?_ ?_ ?_ ?_ ?_ ?_ <;> dsimp only <;> first | ring1 | linear_combination o1 | linear_combination -o1 | linear_combination x1 | linear_combination -x1 | linear_combination x2 | linear_combination -x2 | linear_combination x3 | linear_combination -x3 | linear_combination x4 | linear_combination -x4 | linear_combination x5 | linear_combination -x5 | linear_combination x6 | linear_combination -x6
  by_cases hj : 0 < 2 * R.a11 + 1 - (R.a00 + R.a11 + R.a22)
  · refine from_products R ⟨R.a02 - R.a20, R.a01 + R.a10, 2 * R.a11 + 1 - (R.a00 + R.a11 + R.a22), R.a12 + R.a21⟩ _ hj ?_ ?_ ?_ ?_ ?_ ?_ ?_ ?_ ?_ ?_ <;> dsimp only <;> first | ring1 | linear_combination o2 | linear_combination -o2 | linear_combination y1 | linear_combination -y1 | linear_combination y2 | linear_combination -y2 | linear_combination y3 | linear_combination -y3 | linear_combination y4 | linear_combination -y4 | linear_combination y5 | linear_combination -y5 | linear_combination y6 | linear_combination -y6
  by_cases hk : 0 < 2 * R.a22 + 1 - (R.a00 + R.a11 + R.a22)
  · refine from_products R ⟨R.a10 - R.a01, R.a02 + R.a20, R.a12 + R.a21, 2 * R.a22 + 1 - (R.a00 + R.a11 + R.a22)⟩ _ hk ?_ ?_ ?_ ?_ ?_ ?_ ?_ ?_ ?_ ?_ <;> dsimp only <;> first | ring1 | linear_combination o3 | linear_combination -o3 | linear_combination z1 | linear_combination -z1 | linear_combination z2 | linear_combination -z2 | linear_combination z3 | linear_combination -z3 | linear_combination z4 | linear_combination -z4 | linear_combination z5 | linear_combination -z5 | linear_combination z6 | linear_combination -z6
  · exfalso
    linarith

/-- **C90**: quat_from_R() of a rotation is THE canonical unit quaternion of that rotation: the unit quaternion that R_from_quat() converts back to R, with its largest element positive -/
theorem quat_from_R_iff (R : M3) (h : IsRot R) (w q : Quat) :
    quat_from_R R w = some q ↔ norm2 q = 1 ∧ R_from_quat q = R ∧ Canonical q := by
  constructor
  · intro hq
    obtain ⟨q0, hn, hR⟩ := quaternion_exists R h
    obtain ⟨q1, h1, h2, h3⟩ : ∃ q1, norm2 q1 = 1 ∧ R_from_quat q1 = R ∧ Canonical q1 := by
      rcases canonical_exists q0 hn with hc | hc
      · exact ⟨q0, hn, hR, hc⟩
      · exact ⟨neg q0, by rw [norm2_neg, hn], by rw [R_from_neg, hR], hc⟩
    have e := recovered q1 w h1 h3
    rw [h2, hq] at e
    obtain rfl := Option.some.inj e
    exact ⟨h1, h2, h3⟩
  · rintro ⟨h1, h2, h3⟩
    rw [← h2]
    exact recovered q w h1 h3

/-- **C90**: R_from_quat() and then quat_from_R() produces the same quaternion, or its negation, whichever is canonical -/
theorem quat_R_quat (q w : Quat) (h : norm2 q = 1) :
    (Canonical q → quat_from_R (R_from_quat q) w = some q) ∧ (¬ Canonical q → quat_from_R (R_from_quat q) w = some (neg q)) := by
  refine ⟨recovered q w h, fun hc => ?_⟩
  rw [← R_from_neg]
  exact recovered _ w (by rw [norm2_neg, h]) ((canonical_exists q h).resolve_left hc)

/-- **C90**: two unit quaternions mean the same rotation only if they're equal, or opposite -/
theorem R_from_quat_eq_iff (p q : Quat) (hp : norm2 p = 1) (hq : norm2 q = 1) : R_from_quat p = R_from_quat q ↔ p = q ∨ p = neg q := by
  constructor
  · intro e
    have nn : ∀ q : Quat, neg (neg q) = q := fun q => by simp [neg]
    have key : quat_from_R (R_from_quat p) p = quat_from_R (R_from_quat q) p := by rw [e]
    by_cases cp : Canonical p <;> by_cases cq : Canonical q
    · rw [(quat_R_quat p p hp).1 cp, (quat_R_quat q p hq).1 cq] at key; exact Or.inl (Option.some.inj key)
    · rw [(quat_R_quat p p hp).1 cp, (quat_R_quat q p hq).2 cq] at key; exact Or.inr (Option.some.inj key)
    · rw [(quat_R_quat p p hp).2 cp, (quat_R_quat q p hq).1 cq] at key
      right; rw [← Option.some.inj key, nn]
    · rw [(quat_R_quat p p hp).2 cp, (quat_R_quat q p hq).2 cq] at key
      left; rw [← nn p, Option.some.inj key, nn]
  · rintro (h | h)
    · rw [h]
    · rw [h, R_from_neg]

/-! ### the angle and the axis -/

/-- the matrix of an angle and axis: Rodrigues' formula, whatever the sign of the angle -/
theorem rod_scaled (θ : ℝ) (u : P3) (hu : u.x ^ 2 + u.y ^ 2 + u.z ^ 2 = 1) :
    rod ⟨θ * u.x, θ * u.y, θ * u.z⟩ = toMat (rodM (Real.cos θ) (Real.sin θ) u) := by
  have hm : mag3 ⟨θ * u.x, θ * u.y, θ * u.z⟩ = |θ| := by
    have := mag3_sq ⟨θ * u.x, θ * u.y, θ * u.z⟩
    have h2 : mag3 ⟨θ * u.x, θ * u.y, θ * u.z⟩ ^ 2 = |θ| ^ 2 := by
      rw [sq_abs]
      simp only at this
      linear_combination this + θ ^ 2 * hu
    exact (sq_eq_sq₀ (mag3_nonneg _) (abs_nonneg _)).mp h2
  unfold rod
  dsimp only
  rw [hm]
  by_cases h0 : θ = 0
  · subst h0
    rw [if_pos (by simp)]
    ext i j
    fin_cases i <;> fin_cases j <;> simp [toMat, rodM]
  · rw [if_neg (abs_ne_zero.mpr h0)]
    rcases lt_or_gt_of_ne h0 with hlt | hgt
    · rw [abs_of_neg hlt, Real.cos_neg, Real.sin_neg]
      ext i j
      fin_cases i <;> fin_cases j <;> simp [toMat, rodM] <;> field_simp <;> ring
    · rw [abs_of_pos hgt]
      ext i j
      fin_cases i <;> fin_cases j <;> simp [toMat, rodM] <;> field_simp <;> ring

/-- **C90**: the quaternion of an angle and an axis, as documented: (cos(θ/2), sin(θ/2) axis) is the rotation by θ about that axis; for any θ -/
theorem R_from_quat_angle_axis (θ : ℝ) (u : P3) (hu : u.x ^ 2 + u.y ^ 2 + u.z ^ 2 = 1) :
    toMat (R_from_quat ⟨Real.cos (θ / 2), Real.sin (θ / 2) * u.x, Real.sin (θ / 2) * u.y, Real.sin (θ / 2) * u.z⟩) = rod ⟨θ * u.x, θ * u.y, θ * u.z⟩ := by
  rw [rod_scaled θ u hu]
  congr 1
  have hc : Real.cos θ = 1 - 2 * Real.sin (θ / 2) ^ 2 := by
    rw [show θ = 2 * (θ / 2) by ring, Real.cos_two_mul]
    have := Real.sin_sq_add_cos_sq (θ / 2)
    rw [show 2 * (θ / 2) / 2 = θ / 2 by ring]
    linarith
  have hs : Real.sin θ = 2 * Real.sin (θ / 2) * Real.cos (θ / 2) := by
    conv_lhs => rw [show θ = 2 * (θ / 2) by ring, Real.sin_two_mul]
  rw [hc, hs]
  generalize Real.sin (θ / 2) = s
  generalize Real.cos (θ / 2) = c
  ext <;> simp only [R_from_quat, rodM]
  · linear_combination -2 * s ^ 2 * hu
  · ring
  · ring
  · ring
  · linear_combination -2 * s ^ 2 * hu
  · ring
  · ring
  · ring
  · linear_combination -2 * s ^ 2 * hu

example : ∃ u : P3, u.x ^ 2 + u.y ^ 2 + u.z ^ 2 = 1 ∧ u.x ≠ 0 ∧ u.y ≠ 0 := ⟨⟨3 / 5, -4 / 5, 0⟩, by norm_num, by norm_num, by norm_num⟩

/-- **C90**: the documented interpretation of quat_from_R(R): with c = q[0], s = |q[1:]|, R rotates by 2 atan2(s,c) about the axis q[1:]/s -/
theorem quat_from_R_angle_axis (R : M3) (h : IsRot R) (w q : Quat) (hq : quat_from_R R w = some q) :
    let s := mag3 ⟨q.i, q.j, q.k⟩
    let θ := 2 * Cam.atan2 s q.u
    (s = 0 → R = identityR) ∧ (s ≠ 0 → toMat R = rod ⟨θ * (q.i / s), θ * (q.j / s), θ * (q.k / s)⟩ ∧ 0 < θ ∧ θ < 2 * Real.pi) := by
  intro s θ
  obtain ⟨hn, hR, -⟩ := (quat_from_R_iff R h w q).mp hq
  have hs := mag3_sq ⟨q.i, q.j, q.k⟩
  change s * s = _ at hs
  simp only at hs
  have hs0 : 0 ≤ s := mag3_nonneg _
  unfold norm2 at hn
  refine ⟨fun z => ?_, fun z => ?_⟩
  · rw [z] at hs
    have zi : q.i = 0 := by nlinarith [sq_nonneg q.i, sq_nonneg q.j, sq_nonneg q.k]
    have zj : q.j = 0 := by nlinarith [sq_nonneg q.i, sq_nonneg q.j, sq_nonneg q.k]
    have zk : q.k = 0 := by nlinarith [sq_nonneg q.i, sq_nonneg q.j, sq_nonneg q.k]
    rw [← hR]
    ext <;> simp [R_from_quat, identityR, zi, zj, zk]
  · have hspos : 0 < s := lt_of_le_of_ne hs0 (Ne.symm z)
    obtain ⟨pc, ps⟩ := Cam.atan2_polar s q.u (Or.inl z)
    rw [show Real.sqrt (q.u * q.u + s * s) = 1 by
      rw [show q.u * q.u + s * s = 1 by linarith [hs, hn]]; exact Real.sqrt_one, one_mul] at pc ps
    have hu : (q.i / s) ^ 2 + (q.j / s) ^ 2 + (q.k / s) ^ 2 = 1 := by
      field_simp
      linarith
    refine ⟨?_, ?_, ?_⟩
    · have e := R_from_quat_angle_axis θ ⟨q.i / s, q.j / s, q.k / s⟩ hu
      simp only at e
      rw [← e, show θ / 2 = Cam.atan2 s q.u by simp only [θ]; ring, pc, ps, ← hR]
      congr 2
      ext <;> simp only <;> field_simp
    · have : 0 < Cam.atan2 s q.u := by
        have h1 : 0 ≤ Cam.atan2 s q.u := Complex.arg_nonneg_iff.mpr hs0
        rcases h1.lt_or_eq with h2 | h2
        · exact h2
        · rw [← h2, Real.sin_zero] at ps
          exact absurd ps.symm z
      simp only [θ]; linarith
    · have : Cam.atan2 s q.u < Real.pi := by
        have h1 : Cam.atan2 s q.u ≤ Real.pi := Complex.arg_le_pi _
        rcases h1.lt_or_eq with h2 | h2
        · exact h2
        · rw [h2, Real.sin_pi] at ps
          exact absurd ps.symm z
      simp only [θ]; linarith

/-! ### qt -/

/-- **C90**: Rt → qt → Rt is exact for each pose; so the transformation is preserved -/
theorem Rt_qt_Rt (T : Rt) (h : IsRot T.R) (w : Quat) :
    ∃ qt, qt_from_Rt T w = some qt ∧ norm2 qt.q = 1 ∧ Rt_from_qt qt = T ∧ ∀ x, toVec (transformPointRt (Rt_from_qt qt) x false) = act T x := by
  obtain ⟨q, hn, hq⟩ := quat_from_R_unit T.R
  have hR := ((quat_from_R_iff T.R h w q).mp (hq w)).2.1
  have e : Rt_from_qt ⟨q, T.t⟩ = T := by unfold Rt_from_qt; simp only [hR]
  refine ⟨⟨q, T.t⟩, by unfold qt_from_Rt; rw [hq w]; rfl, hn, e, fun x => ?_⟩
  rw [e, transform_meaning]

/-- **C90**: qt → Rt → qt: the same translation, and the same quaternion up to the sign -/
theorem qt_Rt_qt (qt : Qt) (h : norm2 qt.q = 1) (w : Quat) :
    ∃ qt', qt_from_Rt (Rt_from_qt qt) w = some qt' ∧ qt'.t = qt.t ∧ (qt'.q = qt.q ∨ qt'.q = neg qt.q) := by
  by_cases hc : Canonical qt.q
  · exact ⟨⟨qt.q, qt.t⟩, by unfold qt_from_Rt Rt_from_qt; rw [(quat_R_quat qt.q w h).1 hc]; rfl, rfl, Or.inl rfl⟩
  · exact ⟨⟨neg qt.q, qt.t⟩, by unfold qt_from_Rt Rt_from_qt; rw [(quat_R_quat qt.q w h).2 hc]; rfl, rfl, Or.inr rfl⟩

/-- a rotation by 180deg about x; and one by 120deg about (1,1,1) -/
example : IsRot ⟨1, 0, 0, 0, -1, 0, 0, 0, -1⟩ := isRot_diag _ _ _ (by norm_num) (by norm_num) (by norm_num) (by norm_num)
example : IsRot ⟨0, 0, 1, 1, 0, 0, 0, 1, 0⟩ := by
  have := (R_from_quat_rotation_iff ⟨1 / 2, 1 / 2, 1 / 2, 1 / 2⟩).mpr (Or.inl (by norm_num [norm2]))
  norm_num [R_from_quat] at this
  exact this

/-- **C90, negation**: the quaternion isn't the one with a non-negative scalar part (the rotation by at most 180deg): there's a rotation whose quaternion has a negative u -/
theorem scalar_part_wrong : ∃ R, IsRot R ∧ ∀ w, ∃ q, quat_from_R R w = some q ∧ q.u < 0 := by
  refine ⟨R_from_quat ⟨-3 / 5, 4 / 5, 0, 0⟩, (R_from_quat_rotation_iff _).mpr (Or.inl (by norm_num [norm2])), fun w => ⟨⟨-3 / 5, 4 / 5, 0, 0⟩, ?_, by norm_num⟩⟩
  refine recovered _ w (by norm_num [norm2]) ⟨0, by norm_num [comp], fun m => ?_, fun m hm => absurd hm (by simp)⟩
  fin_cases m <;> norm_num [comp, abs_of_neg, abs_of_pos]

end Mrcal.Quaternion
