import Verif.Model.ModelDiff
import Verif.Props.PoseRtProps
import Mathlib.Tactic.FieldSimp
import Mathlib.Tactic.LinearCombination
/-
C95: the transformation implied by two sets of observation vectors: implied_Rt10__from_unprojections().
-/
namespace Mrcal.ModelDiff
open Mrcal Mrcal.Cam Mrcal.Pose Mrcal.ImageTransform

/-! ### Specification -/

/-- the point, rotated: Rodrigues' formula -/
noncomputable def turn (r p : P3) : P3 := ⟨rotSpec r p false 0, rotSpec r p false 1, rotSpec r p false 2⟩
/-- the point, rotated and then moved -/
noncomputable def move (rt : RtV) (p : P3) : P3 := ⟨(turn rt.r p).x + rt.t.x, (turn rt.r p).y + rt.t.y, (turn rt.r p).z + rt.t.z⟩
/-- the direction to a point -/
noncomputable def dirTo (p : P3) : P3 := ⟨p.x / mag3 p, p.y / mag3 p, p.z / mag3 p⟩
/-- the squared distance between two points. For unit vectors: the squared angle, roughly -/
def gap2 (a b : P3) : ℝ := (a.x - b.x) ^ 2 + (a.y - b.y) ^ 2 + (a.z - b.z) ^ 2
/-- a unit vector -/
def IsUnit3 (v : P3) : Prop := mag3 v = 1
/-- where rotate_point_r() is a rotation. See C26 -/
def RotOk (r : P3) : Prop := 1e-5 ≤ mag3 r ∨ r = ⟨0, 0, 0⟩

/-- scipy's `huber` loss -/
noncomputable def rho (z : ℝ) : ℝ := if z ≤ 1 then z else 2 * Real.sqrt z - 1
/-- what scipy's least_squares() minimizes -/
noncomputable def cost (C : ℝ) (xs : List ℝ) : ℝ := 1 / 2 * (xs.map fun x => C ^ 2 * rho ((x / C) ^ 2)).sum
/-- the solver, when it returns, found the best solution. NaN isn't a solution -/
structure Optimal (lsq : Lsq) : Prop where
  rot : ∀ C f r, 0 < C → lsq.rot C f = some r → ∀ r', cost C ((f r).map (·.1)) ≤ cost C ((f r').map (·.1))
  rt : ∀ C f rt, 0 < C → lsq.rt C f = some rt → ∃ xs, (f rt).mapM id = some xs ∧ ∀ rt' xs', (f rt').mapM id = some xs' → cost C (xs.map (·.1)) ≤ cost C (xs'.map (·.1))

/-! ### helpers: rotations -/

theorem turn_eq (r p : P3) : turn r p = rotForm r p false := by
  apply toVec_inj
  rw [rotForm_eq]
  ext i; fin_cases i <;> rfl

theorem turn_value (r p : P3) (a b : Bool) (h : RotOk r) : (rotatePointr r p false a b).x = turn r p := by
  apply toVec_inj
  rw [rotate_meaning r p false a b h]
  ext i; fin_cases i <;> rfl

theorem turn_matrix (r : P3) (h : RotOk r) (p : P3) : turn r p = rotatePointR (R_from_r r) p false := by
  rw [← turn_value r p false false h, rotate_r_R r p false false false h]

theorem turn_inner (r a b : P3) : inner (turn r a) (turn r b) = inner a b := by
  obtain ⟨M, hM, hrot⟩ := rod_rot r
  have e : ∀ p, turn r p = rotatePointR M p false := by
    intro p
    apply toVec_inj
    rw [turn_eq, rotForm_eq]
    unfold rotSpec rotatePointR
    simp only [Bool.false_eq_true, if_false]
    rw [toVec_mulVec, hM]
  rw [e, e]
  exact rot_inner M hrot.1 a b false

theorem mag_eq (p : P3) : mag p = mag3 p := rfl
theorem inner_self (p : P3) : inner p p = mag3 p * mag3 p := (mag3_sq p).symm
theorem turn_mag (r p : P3) : mag3 (turn r p) = mag3 p := by
  have := turn_inner r p p
  unfold mag3
  unfold inner at this
  rw [this]

theorem gap2_unit (a b : P3) (ha : IsUnit3 a) (hb : IsUnit3 b) : gap2 a b = 2 * (1 - inner a b) := by
  have h1 := mag3_sq a
  have h2 := mag3_sq b
  unfold IsUnit3 at ha hb
  rw [ha] at h1; rw [hb] at h2
  unfold gap2 inner
  linear_combination -h1 - h2

theorem gap2_zero (a b : P3) (h : gap2 a b = 0) : a = b := by
  unfold gap2 at h
  have hx : (a.x - b.x) ^ 2 = 0 := by nlinarith [sq_nonneg (a.x - b.x), sq_nonneg (a.y - b.y), sq_nonneg (a.z - b.z)]
  have hy : (a.y - b.y) ^ 2 = 0 := by nlinarith [sq_nonneg (a.x - b.x), sq_nonneg (a.y - b.y), sq_nonneg (a.z - b.z)]
  have hz : (a.z - b.z) ^ 2 = 0 := by nlinarith [sq_nonneg (a.x - b.x), sq_nonneg (a.y - b.y), sq_nonneg (a.z - b.z)]
  ext
  · exact sub_eq_zero.mp (pow_eq_zero_iff (by norm_num) |>.mp hx)
  · exact sub_eq_zero.mp (pow_eq_zero_iff (by norm_num) |>.mp hy)
  · exact sub_eq_zero.mp (pow_eq_zero_iff (by norm_num) |>.mp hz)

theorem gap2_self (a : P3) : gap2 a a = 0 := by unfold gap2; ring

theorem dirTo_unit (p : P3) (h : mag3 p ≠ 0) : IsUnit3 (dirTo p) := by
  have h0 := mag3_nonneg p
  have e : dirTo p = ⟨(1 / mag3 p) * p.x, (1 / mag3 p) * p.y, (1 / mag3 p) * p.z⟩ := by unfold dirTo; ext <;> simp only <;> ring
  have hs := mag3_sq p
  have hpos : 0 < mag3 p := lt_of_le_of_ne h0 h.symm
  obtain ⟨m, hm⟩ : ∃ m, m = mag3 p := ⟨_, rfl⟩
  rw [← hm] at hs hpos e
  unfold IsUnit3
  rw [e]
  unfold mag3
  dsimp only
  rw [show 1 / m * p.x * (1 / m * p.x) + 1 / m * p.y * (1 / m * p.y) + 1 / m * p.z * (1 / m * p.z) = (p.x * p.x + p.y * p.y + p.z * p.z) / (m * m) from by ring, ← hs,
    div_self (by positivity), Real.sqrt_one]

theorem inner_dirTo (p v : P3) : inner (dirTo p) v = inner p v / mag3 p := by unfold inner dirTo; ring

/-! ### the residuals and their gradients -/

theorem inner_deriv {a : ℝ → P3} {a' : P3} {t : ℝ} (h : HasDerivP a a' t) (v : P3) : HasDerivAt (fun s => inner (a s) v) (inner a' v) t := by
  unfold inner
  exact ((h.1.mul_const _).add (h.2.1.mul_const _)).add (h.2.2.mul_const _)

theorem turn_deriv {r : ℝ → P3} {r' : P3} {t : ℝ} (p : P3) (hr : HasDerivP r r' t) (h : RotOk (r t)) :
    HasDerivP (fun s => turn (r s) p) (mulVec ((rotatePointr (r t) p false true true).Jr.getD identityR) r') t := by
  have := rotate_deriv false hr (x := fun _ => p) (x' := ⟨0, 0, 0⟩) ⟨hasDerivAt_const _ _, hasDerivAt_const _ _, hasDerivAt_const _ _⟩ h
  simp only [turn_eq]
  refine this.congr ?_
  ext <;> simp [addP, mulVec]

theorem rowTimes_inner (v x : P3) (M : M3) : inner (rowTimes v M) x = inner (mulVec M x) v := by
  unfold inner rowTimes mulVec
  ring

/-- **C95**: fitting at infinity: each residual is the weight times the squared distance between the rotated vector and the vector it's matched to; the gradient given to the solver is the derivative of that -/
theorem residual_r_right (T : Term) (hp : IsUnit3 T.p) (hv : IsUnit3 T.v) (r : ℝ → P3) (r' : P3) (t : ℝ) (hr : HasDerivP r r' t) (h : RotOk (r t)) :
    (residualR (r t) T).1 = T.w * gap2 (turn (r t) T.p) T.v ∧
    HasDerivAt (fun s => T.w * gap2 (turn (r s) T.p) T.v) (inner (residualR (r t) T).2 r') t := by
  have e : ∀ r, gap2 (turn r T.p) T.v = 2 * (1 - inner (turn r T.p) T.v) := fun r => gap2_unit _ _ ((turn_mag r T.p).trans hp) hv
  constructor
  · rw [e]
    unfold residualR
    dsimp only
    rw [turn_value _ _ _ _ h]
    ring
  · simp only [e]
    have k := (((inner_deriv (turn_deriv T.p hr h) T.v).const_sub 1).const_mul 2).const_mul T.w
    refine k.congr_deriv ?_
    unfold residualR
    dsimp only
    rw [← rowTimes_inner]
    unfold inner
    ring

/-- the derivative of a moved point -/
theorem move_deriv {T : ℝ → RtV} {r' t' : P3} {t : ℝ} (p : P3) (hr : HasDerivP (fun s => (T s).r) r' t) (ht : HasDerivP (fun s => (T s).t) t' t) (h : RotOk (T t).r) :
    HasDerivP (fun s => move (T s) p) (addP (mulVec ((rotatePointr (T t).r p false true true).Jr.getD identityR) r') t') t := by
  have k := turn_deriv p hr h
  exact ⟨k.1.add ht.1, k.2.1.add ht.2.1, k.2.2.add ht.2.2⟩

theorem move_value (T : RtV) (p : P3) (h : RotOk T.r) : (transformPointrt T p false true true).x = move T p := by
  have e : (transformPointrt T p false true true).x = addP (rotatePointr T.r p false true true).x T.t := rfl
  rw [e, turn_value _ _ _ _ h]
  rfl

theorem move_jacobian (T : RtV) (p : P3) : (transformPointrt T p false true true).Jrt = some ((rotatePointr T.r p false true true).Jr.getD identityR, identityR) := rfl

/-- **C95**: fitting at a finite distance: each residual is the weight times the squared distance between the direction to the transformed point, and the vector it's matched to; the gradients given to the solver are
the derivatives of that. The residual is NaN only if the transformed point is at the origin -/
theorem residual_rt_right (T : Term) (hv : IsUnit3 T.v) (X : ℝ → RtV) (r' t' : P3) (t : ℝ) (hr : HasDerivP (fun s => (X s).r) r' t) (ht : HasDerivP (fun s => (X s).t) t' t) (h : RotOk (X t).r) :
    (residualRt (X t) T = none ↔ mag3 (move (X t) T.p) = 0) ∧
    ∀ o, residualRt (X t) T = some o → o.1 = T.w * gap2 (dirTo (move (X t) T.p)) T.v ∧
      HasDerivAt (fun s => T.w * gap2 (dirTo (move (X s) T.p)) T.v) (inner o.2.r r' + inner o.2.t t') t := by
  unfold residualRt
  dsimp only
  rw [move_value _ _ h, move_jacobian, mag_eq]
  dsimp only [Option.getD_some]
  by_cases hm : mag3 (move (X t) T.p) = 0
  · rw [if_pos hm]
    exact ⟨⟨fun _ => hm, fun _ => rfl⟩, fun o ho => absurd ho (by simp)⟩
  · rw [if_neg hm]
    refine ⟨⟨fun h => absurd h (by simp), fun h => absurd h hm⟩, fun o ho => ?_⟩
    have ho := (Option.some.inj ho).symm
    subst ho
    dsimp only
    have e : ∀ s, mag3 (move (X s) T.p) ≠ 0 → gap2 (dirTo (move (X s) T.p)) T.v = 2 * (1 - inner (move (X s) T.p) T.v / mag3 (move (X s) T.p)) := fun s hs => by
      rw [gap2_unit _ _ (dirTo_unit _ hs) hv, inner_dirTo]
    refine ⟨by rw [e t hm]; ring, ?_⟩
    have k := move_deriv T.p hr ht h
    have kd := mag3_deriv (c := fun s => move (X s) T.p) hm k.1 k.2.1 k.2.2
    have key := ((((inner_deriv k T.v).div kd hm).const_sub 1).const_mul 2).const_mul T.w
    have hev : ∀ᶠ s in nhds t, mag3 (move (X s) T.p) ≠ 0 := kd.continuousAt.eventually_ne hm
    refine (key.congr_of_eventuallyEq (hev.mono fun s hs => by dsimp only; rw [e s hs]; rfl)).congr_deriv ?_
    obtain ⟨J, hJ⟩ : ∃ J, J = (rotatePointr (X t).r T.p false true true).Jr.getD identityR := ⟨_, rfl⟩
    rw [← hJ]
    obtain ⟨m, hm'⟩ : ∃ m, m = mag3 (move (X t) T.p) := ⟨_, rfl⟩
    rw [← hm'] at hm ⊢
    generalize move (X t) T.p = q
    simp only [inner, rowTimes, addP, mulVec, identityR]
    field_simp
    ring

/-! ### invalid data -/

/-- one of the 3 values isn't finite -/
def HasNan (v : NanP3) : Prop := v.x = none ∨ v.y = none ∨ v.z = none

/-- **C95**: data that isn't finite is ignored: such a point has no effect on the residuals and the gradients -/
theorem invalid_ignored (p v : NanP3) (w : Option ℝ) (h : HasNan p ∨ HasNan v ∨ w = none) :
    (∀ r, residualR r (cleanTerm p v w) = (0, ⟨0, 0, 0⟩)) ∧
    (∀ rt, residualRt rt (cleanTerm p v w) = none ∨ residualRt rt (cleanTerm p v w) = some (0, ⟨⟨0, 0, 0⟩, ⟨0, 0, 0⟩⟩)) := by
  have hw : (cleanTerm p v w).w = 0 := by
    unfold cleanTerm
    dsimp only
    rcases h with (h | h | h) | (h | h | h) | h
    all_goals simp [allFinite, h]
  constructor
  · intro r
    unfold residualR
    simp [hw]
  · intro rt
    unfold residualRt
    dsimp only
    split
    · left; rfl
    · right; simp [hw]

/-- ... and data that is finite is used, as given -/
theorem valid_used (p v : P3) (w : ℝ) : cleanTerm (NanP3.of p) (NanP3.of v) (some w) = ⟨p, v, w⟩ := rfl

/-! ### which points are used -/

theorem terms_mem (q0 : List P2) (p0 : List (List NanP3)) (v1 : List NanP3) (weights : Option (List (List (Option ℝ)))) (center : P2) (radius : ℝ) (T : Term) :
    T ∈ terms q0 p0 v1 weights center radius ↔
      ∃ (k i : Nat) (ps : List NanP3) (ws : List (Option ℝ)) (q : P2) (p v : NanP3) (w : Option ℝ), p0[k]? = some ps ∧ (weights.getD (p0.map fun ps => ps.map fun _ => some 1))[k]? = some ws ∧ q0[i]? = some q ∧ ps[i]? = some p ∧ v1[i]? = some v ∧ ws[i]? = some w ∧
        inFocus center radius q = true ∧ T = cleanTerm p v w := by
  unfold terms
  dsimp only
  rw [List.mem_flatMap]
  constructor
  · rintro ⟨⟨ps, ws⟩, hm, hT⟩
    obtain ⟨k, hk⟩ := List.mem_iff_getElem?.mp hm
    rw [List.getElem?_zip_eq_some] at hk
    obtain ⟨⟨q, ⟨p, v⟩, w⟩, hx, rfl⟩ := List.mem_map.mp hT
    obtain ⟨hx, hf⟩ := List.mem_filter.mp hx
    obtain ⟨i, hi⟩ := List.mem_iff_getElem?.mp hx
    rw [List.getElem?_zip_eq_some, List.getElem?_zip_eq_some, List.getElem?_zip_eq_some] at hi
    exact ⟨k, i, ps, ws, q, p, v, w, hk.1, hk.2, hi.1, hi.2.1.1, hi.2.1.2, hi.2.2, hf, rfl⟩
  · rintro ⟨k, i, ps, ws, q, p, v, w, h1, h2, h3, h4, h5, h6, hf, rfl⟩
    refine ⟨(ps, ws), List.mem_iff_getElem?.mpr ⟨k, List.getElem?_zip_eq_some.mpr ⟨h1, h2⟩⟩, ?_⟩
    refine List.mem_map.mpr ⟨(q, (p, v), w), List.mem_filter.mpr ⟨List.mem_iff_getElem?.mpr ⟨i, ?_⟩, hf⟩, rfl⟩
    rw [List.getElem?_zip_eq_some, List.getElem?_zip_eq_some, List.getElem?_zip_eq_some]
    exact ⟨h3, ⟨h4, h5⟩, h6⟩

/-! ### the cost -/

theorem rho_pos (z : ℝ) (h : 0 ≤ z) : 0 ≤ rho z ∧ (rho z = 0 → z = 0) := by
  unfold rho
  split
  · exact ⟨h, id⟩
  · have h1 : 1 < z := not_le.mp ‹_›
    have : 1 < Real.sqrt z := by rw [Real.lt_sqrt (by norm_num)]; linarith
    exact ⟨by linarith, fun h => by linarith⟩

theorem cost_nonneg (C : ℝ) (xs : List ℝ) : 0 ≤ cost C xs := by
  unfold cost
  refine mul_nonneg (by norm_num) (List.sum_nonneg ?_)
  intro y hy
  obtain ⟨x, -, rfl⟩ := List.mem_map.mp hy
  exact mul_nonneg (sq_nonneg _) (rho_pos _ (sq_nonneg _)).1

theorem cost_zero (C : ℝ) (hC : 0 < C) (xs : List ℝ) : cost C xs = 0 ↔ ∀ x ∈ xs, x = 0 := by
  constructor
  · intro h x hx
    have hs : (xs.map fun x => C ^ 2 * rho ((x / C) ^ 2)).sum = 0 := by unfold cost at h; linarith
    have hn : ∀ y ∈ xs.map fun x => C ^ 2 * rho ((x / C) ^ 2), 0 ≤ y := by
      intro y hy
      obtain ⟨x, -, rfl⟩ := List.mem_map.mp hy
      exact mul_nonneg (sq_nonneg _) (rho_pos _ (sq_nonneg _)).1
    have hle := List.single_le_sum hn (C ^ 2 * rho ((x / C) ^ 2)) (List.mem_map.mpr ⟨x, hx, rfl⟩)
    have h0 : C ^ 2 * rho ((x / C) ^ 2) = 0 := le_antisymm (hle.trans_eq hs) (hn _ (List.mem_map.mpr ⟨x, hx, rfl⟩))
    have h1 : rho ((x / C) ^ 2) = 0 := by
      rcases mul_eq_zero.mp h0 with h | h
      · exact absurd h (by positivity)
      · exact h
    have h2 := (rho_pos _ (sq_nonneg (x / C))).2 h1
    have h3 : x / C = 0 := pow_eq_zero_iff (by norm_num) |>.mp h2
    exact (div_eq_zero_iff.mp h3).resolve_right hC.ne'
  · intro h
    unfold cost
    have : (xs.map fun x => C ^ 2 * rho ((x / C) ^ 2)) = xs.map fun _ => (0 : ℝ) := by
      apply List.map_congr_left
      intro x hx
      rw [h x hx]
      simp [rho]
    rw [this]
    simp

theorem fScale_pos : 0 < fScale := by unfold fScale; have := Real.pi_pos; positivity

/-! ### the fit -/

theorem cofactors (A : M3) (hA : IsRot A) :
    (A.a11 * A.a22 - A.a12 * A.a21 = A.a00 ∧ A.a12 * A.a20 - A.a10 * A.a22 = A.a01 ∧ A.a10 * A.a21 - A.a11 * A.a20 = A.a02) ∧
    (A.a02 * A.a21 - A.a01 * A.a22 = A.a10 ∧ A.a00 * A.a22 - A.a02 * A.a20 = A.a11 ∧ A.a01 * A.a20 - A.a00 * A.a21 = A.a12) ∧
    (A.a01 * A.a12 - A.a02 * A.a11 = A.a20 ∧ A.a02 * A.a10 - A.a00 * A.a12 = A.a21 ∧ A.a00 * A.a11 - A.a01 * A.a10 = A.a22) := by
  obtain ⟨ho, hd⟩ := hA
  have e : (toMat A).adjugate = (toMat A).transpose := by
    have h1 : (toMat A).adjugate * (toMat A * (toMat A).transpose) = (toMat A).transpose := by
      rw [← Matrix.mul_assoc, Matrix.adjugate_mul, hd]; simp
    rw [show toMat A * (toMat A).transpose = 1 from ho, Matrix.mul_one] at h1
    exact h1
  have k : ∀ i j, (toMat A).adjugate i j = (toMat A).transpose i j := fun i j => by rw [e]
  have k00 := k 0 0; have k01 := k 0 1; have k02 := k 0 2
  have k10 := k 1 0; have k11 := k 1 1; have k12 := k 1 2
  have k20 := k 2 0; have k21 := k 2 1; have k22 := k 2 2
  simp [Matrix.adjugate_fin_three, toMat] at k00 k01 k02 k10 k11 k12 k20 k21 k22
  refine ⟨⟨?_, ?_, ?_⟩, ⟨?_, ?_, ?_⟩, ?_, ?_, ?_⟩
  · linarith
  · linarith
  · linarith
  · linarith
  · linarith
  · linarith
  · linarith
  · linarith
  · linarith

def crossP (a b : P3) : P3 := ⟨a.y * b.z - a.z * b.y, a.z * b.x - a.x * b.z, a.x * b.y - a.y * b.x⟩

theorem rot_crossP (A : M3) (hA : IsRot A) (a b : P3) : rotatePointR A (crossP a b) false = crossP (rotatePointR A a false) (rotatePointR A b false) := by
  obtain ⟨⟨k00, k01, k02⟩, ⟨k10, k11, k12⟩, k20, k21, k22⟩ := cofactors A hA
  simp only [rotatePointR, mulVec, crossP, Bool.false_eq_true, if_false]
  ext
  · simp only; linear_combination -(a.y * b.z - a.z * b.y) * k00 - (a.z * b.x - a.x * b.z) * k01 - (a.x * b.y - a.y * b.x) * k02
  · simp only; linear_combination -(a.y * b.z - a.z * b.y) * k10 - (a.z * b.x - a.x * b.z) * k11 - (a.x * b.y - a.y * b.x) * k12
  · simp only; linear_combination -(a.y * b.z - a.z * b.y) * k20 - (a.z * b.x - a.x * b.z) * k21 - (a.x * b.y - a.y * b.x) * k22

/-- two rotations that move two independent vectors in the same way are the same -/
theorem rot_unique (A B : M3) (hA : IsRot A) (hB : IsRot B) (a b : P3) (hab : crossP a b ≠ ⟨0, 0, 0⟩)
    (h1 : rotatePointR A a false = rotatePointR B a false) (h2 : rotatePointR A b false = rotatePointR B b false) : A = B := by
  have h3 : rotatePointR A (crossP a b) false = rotatePointR B (crossP a b) false := by rw [rot_crossP A hA, rot_crossP B hB, h1, h2]
  obtain ⟨c, hc⟩ : ∃ c, c = crossP a b := ⟨_, rfl⟩
  rw [← hc] at h3 hab
  let P : M3 := ⟨a.x, b.x, c.x, a.y, b.y, c.y, a.z, b.z, c.z⟩
  have hdet : (toMat P).det = c.x ^ 2 + c.y ^ 2 + c.z ^ 2 := by
    rw [hc]
    simp only [P, toMat, crossP, Matrix.det_fin_three, hc]
    simp
    ring
  have hne : (toMat P).det ≠ 0 := by
    rw [hdet]
    intro h0
    apply hab
    apply gap2_zero
    unfold gap2
    simp only [sub_zero]
    exact h0
  apply toMat_inj
  have hP : toMat A * toMat P = toMat B * toMat P := by
    rw [← toMat_mul, ← toMat_mul]
    congr 1
    have x1 := congrArg P3.x h1; have y1 := congrArg P3.y h1; have z1 := congrArg P3.z h1
    have x2 := congrArg P3.x h2; have y2 := congrArg P3.y h2; have z2 := congrArg P3.z h2
    have x3 := congrArg P3.x h3; have y3 := congrArg P3.y h3; have z3 := congrArg P3.z h3
    simp only [rotatePointR, mulVec, Bool.false_eq_true, if_false] at x1 y1 z1 x2 y2 z2 x3 y3 z3
    simp only [mul, vecMul, P]
    ext <;> simp only
    · linear_combination x1
    · linear_combination x2
    · linear_combination x3
    · linear_combination y1
    · linear_combination y2
    · linear_combination y3
    · linear_combination z1
    · linear_combination z2
    · linear_combination z3
  have hu : IsUnit (toMat P).det := isUnit_iff_ne_zero.mpr hne
  have := congrArg (· * (toMat P)⁻¹) hP
  simp only [Matrix.mul_assoc, Matrix.mul_nonsing_inv _ hu, Matrix.mul_one] at this
  exact this

/-- the points that affect the fit -/
def Counted (ts : List Term) (T : Term) : Prop := T ∈ ts ∧ T.w ≠ 0

theorem implied_rot (lsq : Lsq) (q0 : List P2) (p0 : List (List NanP3)) (v1 : List NanP3) (weights : Option (List (List (Option ℝ)))) (center : P2) (radius : ℝ) (T : Rt)
    (h : impliedRt10 lsq q0 p0 v1 weights true center radius = some T) :
    ∃ r, lsq.rot fScale (fun r => (terms q0 p0 v1 weights center radius).map (residualR r)) = some r ∧ T = ⟨R_from_r r, ⟨0, 0, 0⟩⟩ := by
  unfold impliedRt10 at h
  split at h
  · exact absurd h (by simp)
  · simp only [if_true] at h
    obtain ⟨r, hr, hT⟩ := Option.map_eq_some_iff.mp h
    exact ⟨r, hr, hT.symm⟩

theorem implied_rt (lsq : Lsq) (q0 : List P2) (p0 : List (List NanP3)) (v1 : List NanP3) (weights : Option (List (List (Option ℝ)))) (center : P2) (radius : ℝ) (T : Rt)
    (h : impliedRt10 lsq q0 p0 v1 weights false center radius = some T) :
    ∃ rt, lsq.rt fScale (fun rt => (terms q0 p0 v1 weights center radius).map (residualRt rt)) = some rt ∧ T = Rt_from_rt rt := by
  unfold impliedRt10 at h
  split at h
  · exact absurd h (by simp)
  · simp only [Bool.false_eq_true, if_false] at h
    obtain ⟨r, hr, hT⟩ := Option.map_eq_some_iff.mp h
    exact ⟨r, hr, hT.symm⟩

/-- the residual, without derivatives -/
theorem residual_r_value (T : Term) (hp : IsUnit3 T.p) (hv : IsUnit3 T.v) (r : P3) (h : RotOk r) : (residualR r T).1 = T.w * gap2 (turn r T.p) T.v :=
  (residual_r_right T hp hv (fun _ => r) ⟨0, 0, 0⟩ 0 ⟨hasDerivAt_const _ _, hasDerivAt_const _ _, hasDerivAt_const _ _⟩ h).1

theorem residual_r_weightless (T : Term) (hw : T.w = 0) (r : P3) : (residualR r T).1 = 0 := by unfold residualR; simp [hw]

/-- **C95**: if the two sets of vectors differ only by a rotation then, looking at infinity, the fit finds a transformation that lines them up exactly: at each of the points that are used. There's no translation. If two
of the vectors are independent, then it's that rotation. (This is partial: rotations by less than 1e-5 radians, other than by 0, aren't treated exactly by the rotation functions; see `fit_same_wrong`) -/
theorem fit_infinity_partial (lsq : Lsq) (hopt : Optimal lsq) (q0 : List P2) (p0 : List (List NanP3)) (v1 : List NanP3) (weights : Option (List (List (Option ℝ)))) (center : P2) (radius : ℝ) (Rt10 : Rt)
    (h : impliedRt10 lsq q0 p0 v1 weights true center radius = some Rt10)
    (hok : ∀ f r, lsq.rot fScale f = some r → RotOk r)
    (r0 : P3) (hr0 : RotOk r0) (hunit : ∀ T, Counted (terms q0 p0 v1 weights center radius) T → IsUnit3 T.p ∧ IsUnit3 T.v)
    (hmatch : ∀ T, Counted (terms q0 p0 v1 weights center radius) T → turn r0 T.p = T.v) :
    Rt10.t = ⟨0, 0, 0⟩ ∧ IsRot Rt10.R ∧ (∀ T, Counted (terms q0 p0 v1 weights center radius) T → transformPointRt Rt10 T.p false = T.v) ∧
    ((∃ T T', Counted (terms q0 p0 v1 weights center radius) T ∧ Counted (terms q0 p0 v1 weights center radius) T' ∧ crossP T.p T'.p ≠ ⟨0, 0, 0⟩) → Rt10.R = R_from_r r0) := by
  obtain ⟨r, hr, rfl⟩ := implied_rot lsq q0 p0 v1 weights center radius Rt10 h
  have rok := hok _ r hr
  obtain ⟨ts, hts⟩ : ∃ ts, ts = terms q0 p0 v1 weights center radius := ⟨_, rfl⟩
  rw [← hts] at hr hunit hmatch ⊢
  have h0 : cost fScale ((ts.map (residualR r0)).map (·.1)) = 0 := by
    rw [cost_zero _ fScale_pos]
    intro x hx
    obtain ⟨y, hy, rfl⟩ := List.mem_map.mp hx
    obtain ⟨T, hT, rfl⟩ := List.mem_map.mp hy
    by_cases hw : T.w = 0
    · exact residual_r_weightless T hw r0
    · rw [residual_r_value T (hunit T ⟨hT, hw⟩).1 (hunit T ⟨hT, hw⟩).2 r0 hr0, hmatch T ⟨hT, hw⟩, gap2_self, mul_zero]
  have h1 : cost fScale ((ts.map (residualR r)).map (·.1)) = 0 := le_antisymm ((hopt.rot _ _ _ fScale_pos hr r0).trans_eq h0) (cost_nonneg _ _)
  rw [cost_zero _ fScale_pos] at h1
  have hal : ∀ T, Counted ts T → turn r T.p = T.v := by
    intro T hT
    have := h1 _ (List.mem_map.mpr ⟨_, List.mem_map.mpr ⟨T, hT.1, rfl⟩, rfl⟩)
    rw [residual_r_value T (hunit T hT).1 (hunit T hT).2 r rok] at this
    exact gap2_zero _ _ ((mul_eq_zero.mp this).resolve_left hT.2)
  refine ⟨rfl, R_from_r_rot r, ?_, ?_⟩
  · intro T hT
    rw [← hal T hT, turn_matrix r rok]
    ext <;> simp [transformPointRt, addP]
  · rintro ⟨T, T', hT, hT', hne⟩
    refine rot_unique _ _ (R_from_r_rot r) (R_from_r_rot r0) T.p T'.p hne ?_ ?_
    · rw [← turn_matrix r rok, ← turn_matrix r0 hr0, hal T hT, hmatch T hT]
    · rw [← turn_matrix r rok, ← turn_matrix r0 hr0, hal T' hT', hmatch T' hT']

theorem residual_rt_value (T : Term) (hv : IsUnit3 T.v) (rt : RtV) (h : RotOk rt.r) (o : ℝ × RtV) (ho : residualRt rt T = some o) :
    mag3 (move rt T.p) ≠ 0 ∧ o.1 = T.w * gap2 (dirTo (move rt T.p)) T.v := by
  have k := residual_rt_right T hv (fun _ => rt) ⟨0, 0, 0⟩ ⟨0, 0, 0⟩ 0 ⟨hasDerivAt_const _ _, hasDerivAt_const _ _, hasDerivAt_const _ _⟩ ⟨hasDerivAt_const _ _, hasDerivAt_const _ _, hasDerivAt_const _ _⟩ h
  refine ⟨fun h0 => ?_, (k.2 o ho).1⟩
  rw [k.1.mpr h0] at ho
  exact absurd ho (by simp)

theorem residual_rt_weightless (T : Term) (hw : T.w = 0) (rt : RtV) (o : ℝ × RtV) (ho : residualRt rt T = some o) : o.1 = 0 := by
  unfold residualRt at ho
  dsimp only at ho
  split at ho
  · exact absurd ho (by simp)
  · rw [← Option.some.inj ho]; simp [hw]

theorem residual_rt_some (rt : RtV) (h : RotOk rt.r) (T : Term) (hm : mag3 (move rt T.p) ≠ 0) : ∃ o, residualRt rt T = some o := by
  unfold residualRt
  dsimp only
  rw [move_value _ _ h, mag_eq, if_neg hm]
  exact ⟨_, rfl⟩

theorem mapM_id_some {α : Type} (l : List (Option α)) (h : ∀ x ∈ l, ∃ y, x = some y) : ∃ ys, l.mapM id = some ys ∧ l = ys.map some := by
  induction l with
  | nil => exact ⟨[], rfl, rfl⟩
  | cons a l ih =>
    obtain ⟨y, rfl⟩ := h a (by simp)
    obtain ⟨ys, h1, h2⟩ := ih fun x hx => h x (List.mem_cons_of_mem _ hx)
    exact ⟨y :: ys, by rw [List.mapM_cons]; simp [h1], by simp [h2]⟩

theorem mapM_id_eq {α : Type} (l : List (Option α)) (ys : List α) (h : l.mapM id = some ys) : l = ys.map some := by
  induction l generalizing ys with
  | nil => rw [List.mapM_nil] at h; rw [← Option.some.inj h]; rfl
  | cons a l ih =>
    rw [List.mapM_cons] at h
    cases a with
    | none => exact absurd h (by simp)
    | some y =>
      simp only [id, Option.bind_eq_bind, Option.bind_some] at h
      obtain ⟨ys', h1, h2⟩ := Option.bind_eq_some_iff.mp h
      rw [← Option.some.inj h2, ih ys' h1]; rfl

theorem transform_rt (rt : RtV) (h : RotOk rt.r) (p : P3) : transformPointRt (Rt_from_rt rt) p false = move rt p := by
  unfold move
  rw [turn_matrix rt.r h]
  rfl

/-- **C95**: if there's a transformation that makes the vectors of the second camera point at the transformed points, then the fit finds a transformation that does that: at each of the points that are used -/
theorem fit_finite_partial (lsq : Lsq) (hopt : Optimal lsq) (q0 : List P2) (p0 : List (List NanP3)) (v1 : List NanP3) (weights : Option (List (List (Option ℝ)))) (center : P2) (radius : ℝ) (Rt10 : Rt)
    (h : impliedRt10 lsq q0 p0 v1 weights false center radius = some Rt10)
    (hok : ∀ f rt, lsq.rt fScale f = some rt → RotOk rt.r)
    (rt0 : RtV) (hr0 : RotOk rt0.r) (hunit : ∀ T, Counted (terms q0 p0 v1 weights center radius) T → IsUnit3 T.v)
    (hdef : ∀ T ∈ terms q0 p0 v1 weights center radius, mag3 (move rt0 T.p) ≠ 0)
    (hmatch : ∀ T, Counted (terms q0 p0 v1 weights center radius) T → dirTo (move rt0 T.p) = T.v) :
    IsRot Rt10.R ∧ ∀ T, Counted (terms q0 p0 v1 weights center radius) T → mag3 (transformPointRt Rt10 T.p false) ≠ 0 ∧ dirTo (transformPointRt Rt10 T.p false) = T.v := by
  obtain ⟨rt, hr, rfl⟩ := implied_rt lsq q0 p0 v1 weights center radius Rt10 h
  have rok := hok _ rt hr
  obtain ⟨ts, hts⟩ : ∃ ts, ts = terms q0 p0 v1 weights center radius := ⟨_, rfl⟩
  rw [← hts] at hr hunit hmatch hdef ⊢
  obtain ⟨xs0, hx0, he0⟩ := mapM_id_some (ts.map (residualRt rt0)) (by
    intro x hx
    obtain ⟨T, hT, rfl⟩ := List.mem_map.mp hx
    exact residual_rt_some rt0 hr0 T (hdef T hT))
  have mem0 : ∀ o ∈ xs0, ∃ T ∈ ts, residualRt rt0 T = some o := by
    intro o ho
    have : some o ∈ ts.map (residualRt rt0) := by rw [he0]; exact List.mem_map.mpr ⟨o, ho, rfl⟩
    exact List.mem_map.mp this
  have h0 : cost fScale (xs0.map (·.1)) = 0 := by
    rw [cost_zero _ fScale_pos]
    intro x hx
    obtain ⟨o, ho, rfl⟩ := List.mem_map.mp hx
    obtain ⟨T, hT, ho⟩ := mem0 o ho
    by_cases hw : T.w = 0
    · exact residual_rt_weightless T hw rt0 o ho
    · rw [(residual_rt_value T (hunit T ⟨hT, hw⟩) rt0 hr0 o ho).2, hmatch T ⟨hT, hw⟩, gap2_self, mul_zero]
  obtain ⟨xs, hx, hmin⟩ := hopt.rt _ _ _ fScale_pos hr
  have h1 : cost fScale (xs.map (·.1)) = 0 := le_antisymm ((hmin rt0 xs0 hx0).trans_eq h0) (cost_nonneg _ _)
  rw [cost_zero _ fScale_pos] at h1
  have he := mapM_id_eq _ _ hx
  refine ⟨R_from_r_rot rt.r, ?_⟩
  intro T hT
  have hmem : residualRt rt T ∈ xs.map some := by rw [← he]; exact List.mem_map.mpr ⟨T, hT.1, rfl⟩
  obtain ⟨o, ho, hoT⟩ := List.mem_map.mp hmem
  have hz := h1 _ (List.mem_map.mpr ⟨o, ho, rfl⟩)
  obtain ⟨hm, hval⟩ := residual_rt_value T (hunit T hT) rt rok o hoT.symm
  rw [hval] at hz
  rw [transform_rt rt rok]
  exact ⟨hm, gap2_zero _ _ ((mul_eq_zero.mp hz).resolve_left hT.2)⟩

/-- **C95**: fewer than 3 points in the focus region: this is an error; otherwise the solver decides -/
theorem fit_accepted (lsq : Lsq) (q0 : List P2) (p0 : List (List NanP3)) (v1 : List NanP3) (weights : Option (List (List (Option ℝ)))) (atinfinity : Bool) (center : P2) (radius : ℝ)
    (hl : (∀ C f, ∃ r, lsq.rot C f = some r) ∧ ∀ C f, ∃ r, lsq.rt C f = some r) :
    (∃ T, impliedRt10 lsq q0 p0 v1 weights atinfinity center radius = some T) ↔
      3 ≤ (q0.filter fun q => decide ((q.x - center.x) ^ 2 + (q.y - center.y) ^ 2 < radius ^ 2)).length := by
  have e : (fun q : P2 => decide ((q.x - center.x) ^ 2 + (q.y - center.y) ^ 2 < radius ^ 2)) = inFocus center radius := by
    funext q
    unfold inFocus
    simp only [pow_two]
  rw [e]
  unfold impliedRt10
  constructor
  · rintro ⟨T, h⟩
    by_contra hc
    rw [if_pos (by omega)] at h
    exact absurd h (by simp)
  · intro h
    rw [if_neg (by omega)]
    cases atinfinity
    · obtain ⟨r, hr⟩ := hl.2 fScale fun rt => (terms q0 p0 v1 weights center radius).map (residualRt rt)
      exact ⟨_, by simp [hr]; rfl⟩
    · obtain ⟨r, hr⟩ := hl.1 fScale fun rt => (terms q0 p0 v1 weights center radius).map (residualR rt)
      exact ⟨_, by simp [hr]; rfl⟩

end Mrcal.ModelDiff
