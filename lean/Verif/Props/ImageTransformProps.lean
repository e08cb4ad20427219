import Verif.Model.ImageTransform
import Verif.Props.UnprojectProps
import Verif.Props.ProjUncInfinity
import Verif.Props.RodriguesInvProps
import Mathlib.Topology.Algebra.Order.Field
/-
C91: image_transformation_map() maps each pixel of one camera to the pixel where the other camera sees the same thing.
-/
namespace Mrcal.ImageTransform
open Mrcal Mrcal.Cam Mrcal.Pose

/-! ### Specification -/

/-- the point, given in the reference coordinates, in the coordinates of the camera -/
def inCam (m : Model) (P : P3) : P3 := transformPointRt m.pose P false
/-- a direction, given in the reference coordinates, in the coordinates of the camera -/
def dirInCam (m : Model) (w : P3) : P3 := rotatePointR m.pose.R w false
/-- where a camera sees a point given in its own coordinates -/
noncomputable def sees (m : Model) (p : P3) : P2 := pix m.lens m.intr p
/-- `mapxy[y,x]` -/
def entry (rows : List (List (Option P2))) (x y : Nat) : Option (Option P2) := (rows[y]?).bind (·[x]?)
def dot (a b : P3) : ℝ := a.x * b.x + a.y * b.y + a.z * b.z
def times (s : ℝ) (v : P3) : P3 := ⟨s * v.x, s * v.y, s * v.z⟩
/-- the vector p is along the ray that unproject() reports for the pixel (x,y) of the camera -/
def Along (solve : Solver) (m : Model) (x y : Nat) (p : P3) : Prop :=
  ∃ v s, unproject1 m solve ⟨(x : ℝ), (y : ℝ)⟩ = some (some v) ∧ 0 < s ∧ p = times s v

/-- a camera: the pose is a rotation and translation, the lens model is supported -/
structure Camera (m : Model) : Prop where
  rot : IsRot m.pose.R
  valid : ValidLens m.lens

/-- a camera whose rays all go through one point -/
def Central (m : Model) : Prop := ∀ lin, m.lens ≠ .cahvore lin

/-! ### helpers -/

theorem entry_grid (W H : Nat) (f : P2 → Option P2) (x y : Nat) (hx : x < W) (hy : y < H) : entry (overGrid W H f) x y = some (f ⟨x, y⟩) := by
  unfold entry overGrid
  simp only [List.getElem?_map, List.getElem?_range hy, List.getElem?_range hx, Option.map_some, Option.bind_some]

theorem project1_pix (m : Model) (h : ValidLens m.lens) (v : P3) : project1 m v = sees m v := hyp_q m.lens h m.intr v

theorem sees_times (m : Model) (hc : Central m) (p : P3) (s : ℝ) (hs : 0 < s) : sees m (times s p) = sees m p :=
  pix_scale m.lens hc m.intr p s hs

theorem toFrom_point (src dst : Model) (h : Orth src.pose.R) (P : P3) : transformPointRt (RtToFrom src dst) (inCam src P) false = inCam dst P := by
  unfold RtToFrom inCam
  rw [compose_transform]
  congr 1
  rw [(invert_transform src.pose _ h).1]
  exact (transform_inverted src.pose h P).1

theorem toFrom_rot (src dst : Model) (hs : IsRot src.pose.R) (hd : IsRot dst.pose.R) : IsRot (RtToFrom src dst).R := by
  have e : (RtToFrom src dst).R = Pose.mul dst.pose.R (transpose src.pose.R) := rfl
  rw [e]
  have ht : toMat (transpose src.pose.R) = (toMat src.pose.R).transpose := by
    ext i j; fin_cases i <;> fin_cases j <;> rfl
  obtain ⟨s1, s2⟩ := hs
  obtain ⟨d1, d2⟩ := hd
  unfold Orth at s1 d1
  refine ⟨?_, ?_⟩
  · unfold Orth
    rw [toMat_mul, ht, Matrix.transpose_mul, Matrix.transpose_transpose, Matrix.mul_assoc, ← Matrix.mul_assoc _ (toMat src.pose.R), mul_eq_one_comm.mp s1, Matrix.one_mul, d1]
  · rw [toMat_mul, ht, Matrix.det_mul, Matrix.det_transpose, s2, d2, one_mul]

theorem inv3_left (A B : M3) (h : inv3 A = some B) (p : P3) : Pose.mulVec B (Pose.mulVec A p) = p := by
  unfold inv3 at h
  dsimp only at h
  by_cases hd : det3 A = 0
  · rw [if_pos hd] at h; exact absurd h (by simp)
  · rw [if_neg hd] at h
    obtain rfl := Option.some.inj h
    generalize hD : det3 A = D at *
    unfold det3 at hD
    ext
    · simp only [Pose.mulVec]; field_simp; rw [← hD]; ring
    · simp only [Pose.mulVec]; field_simp; rw [← hD]; ring
    · simp only [Pose.mulVec]; field_simp; rw [← hD]; ring

theorem mulVec_times (B : M3) (s : ℝ) (v : P3) : Pose.mulVec B (times s v) = times s (Pose.mulVec B v) := by
  ext <;> simp only [Pose.mulVec, times] <;> ring

theorem inv3_isNone (A : M3) : inv3 A = none ↔ det3 A = 0 := by
  unfold inv3
  dsimp only
  split <;> simp_all

/-- the homography: det(d R + t nᵗ) -/
theorem det_homography (R : M3) (t n : P3) (d : ℝ) (h : IsRot R) :
    det3 { a00 := d * R.a00 + t.x * n.x, a01 := d * R.a01 + t.x * n.y, a02 := d * R.a02 + t.x * n.z
           a10 := d * R.a10 + t.y * n.x, a11 := d * R.a11 + t.y * n.y, a12 := d * R.a12 + t.y * n.z
           a20 := d * R.a20 + t.z * n.x, a21 := d * R.a21 + t.z * n.y, a22 := d * R.a22 + t.z * n.z } =
    d ^ 2 * (d + dot n (vecMul t R)) := by
  obtain ⟨k00, k01, k02, k10, k11, k12, k20, k21, k22⟩ := h.cof
  obtain ⟨r0, r1, r2, r01, r02, r12⟩ := h.1.rows
  simp only [det3, dot, vecMul]
  linear_combination d ^ 3 * r0 - d ^ 3 * (R.a00 * k00 + R.a01 * k01 + R.a02 * k02) -
    d ^ 2 * (t.x * (n.x * k00 + n.y * k01 + n.z * k02) + t.y * (n.x * k10 + n.y * k11 + n.z * k12) + t.z * (n.x * k20 + n.y * k21 + n.z * k22))


/-- a call that has no plane, no OpenCV special case: what each pixel becomes -/
theorem general_entry (solve : Solver) (src dst : Model) (a : Args) (hv : ValidLens src.lens) (rows : List (List (Option P2))) (h : general solve src dst a = some rows) :
    ∃ f, toFrom src dst a = some f ∧ ∀ x y, x < dst.W → y < dst.H →
      let at1 := ((unproject1 dst solve ⟨x, y⟩).getD none).map fun v => sees src (f v)
      if a.mask then ∃ inside, src.region = some inside ∧ entry rows x y = some (applyMask inside at1) else entry rows x y = some at1 := by
  unfold general at h
  split at h
  · exact absurd h (by simp)
  · obtain ⟨f, hf, h⟩ := Option.bind_eq_some_iff.mp h
    refine ⟨f, hf, fun x y hx hy => ?_⟩
    dsimp only at h ⊢
    simp only [project1_pix src hv] at h
    by_cases hm : a.mask = true
    · rw [if_pos hm] at h
      rw [if_pos hm]
      obtain ⟨inside, hr, h⟩ := Option.bind_eq_some_iff.mp h
      refine ⟨inside, hr, ?_⟩
      rw [← Option.some.inj h, entry_grid _ _ _ _ _ hx hy]
    · rw [if_neg hm] at h
      rw [if_neg hm, ← Option.some.inj h, entry_grid _ _ _ _ _ hx hy]

/-! ### the theorems -/

/-- what the pixel (x,y) of the TO image looks at, in the coordinates of each of the two cameras: `pTo`, `pFrom` -/
def LooksAt (src dst : Model) (a : Args) (pTo pFrom : P3) : Prop :=
  match a.planeN, a.planeD with
  | some n, some d => ∃ P, pTo = inCam dst P ∧ pFrom = inCam src P ∧ dot n pFrom = d ∧ 0 < d
  | _, _ =>
    if a.intrinsicsOnly then pTo = pFrom
    else match a.distance with
      | some dist => ∃ P, pTo = inCam dst P ∧ pFrom = inCam src P ∧ dot pTo pTo = dist ^ 2 ∧ 0 < dist
      | none => ∃ w, pTo = dirInCam dst w ∧ pFrom = dirInCam src w

theorem times_times (a b : ℝ) (v : P3) : times a (times b v) = times (a * b) v := by
  simp only [times]; ext <;> simp only <;> ring

/-- the computed vector is along the vector to the point, in the FROM coordinates -/
theorem toFrom_along (src dst : Model) (a : Args) (hs : IsRot src.pose.R) (hd : IsRot dst.pose.R) (f : P3 → P3) (hf : toFrom src dst a = some f) (v pTo pFrom : P3) (s : ℝ)
    (hpos : 0 < s) (hp : pTo = times s v) (h : LooksAt src dst a pTo pFrom) : ∃ k, 0 < k ∧ pFrom = times k (f v) := by
  have hT := (toFrom_rot src dst hs hd).1
  unfold toFrom at hf
  unfold LooksAt at h
  dsimp only at hf
  generalize a.planeN = pn at *
  generalize a.planeD = pd at *
  have nonplane : (if a.intrinsicsOnly = true then some fun v => v
      else match a.distance with
        | some dist => some fun v =>
          transformPointRt (invertRt (RtToFrom src dst)) ⟨v.x / √(v.x * v.x + v.y * v.y + v.z * v.z) * dist, v.y / √(v.x * v.x + v.y * v.y + v.z * v.z) * dist, v.z / √(v.x * v.x + v.y * v.y + v.z * v.z) * dist⟩ false
        | none => some fun v => vecMul v (RtToFrom src dst).R) = some f →
      (if a.intrinsicsOnly = true then pTo = pFrom
       else match a.distance with
        | some dist => ∃ P, pTo = inCam dst P ∧ pFrom = inCam src P ∧ dot pTo pTo = dist ^ 2 ∧ 0 < dist
        | none => ∃ w, pTo = dirInCam dst w ∧ pFrom = dirInCam src w) → ∃ k, 0 < k ∧ pFrom = times k (f v) := by
    intro hf h
    by_cases hi : a.intrinsicsOnly = true
    · rw [if_pos hi] at hf h
      obtain rfl := Option.some.inj hf
      exact ⟨s, hpos, by rw [← h, hp]⟩
    · rw [if_neg hi] at hf h
      generalize a.distance = ds at *
      cases ds with
      | some dist =>
        simp only [Option.some.injEq] at hf h
        obtain ⟨P, h1, h2, h3, h4⟩ := h
        subst hf
        refine ⟨1, one_pos, ?_⟩
        have hdd : dot pTo pTo = s ^ 2 * (v.x * v.x + v.y * v.y + v.z * v.z) := by rw [hp]; simp only [dot, times]; ring
        have hm : s * √(v.x * v.x + v.y * v.y + v.z * v.z) = dist := by
          have hn : 0 ≤ v.x * v.x + v.y * v.y + v.z * v.z := by nlinarith [mul_self_nonneg v.x, mul_self_nonneg v.y, mul_self_nonneg v.z]
          have h5 : (s * √(v.x * v.x + v.y * v.y + v.z * v.z)) ^ 2 = dist ^ 2 := by
            rw [mul_pow, Real.sq_sqrt hn, ← hdd, h3]
          exact (sq_eq_sq₀ (by positivity) h4.le).mp h5
        have hm0 : √(v.x * v.x + v.y * v.y + v.z * v.z) ≠ 0 := by
          intro h0; rw [h0, mul_zero] at hm; exact h4.ne hm
        have e : (⟨v.x / √(v.x * v.x + v.y * v.y + v.z * v.z) * dist, v.y / √(v.x * v.x + v.y * v.y + v.z * v.z) * dist, v.z / √(v.x * v.x + v.y * v.y + v.z * v.z) * dist⟩ : P3) = inCam dst P := by
          rw [← h1, hp, ← hm]
          simp only [times]
          generalize √(v.x * v.x + v.y * v.y + v.z * v.z) = m at hm0 ⊢
          ext <;> simp only <;> field_simp
        dsimp only
        rw [e, (invert_transform _ _ hT).1, ← toFrom_point src dst hs.1 P, (transform_inverted _ hT _).1, h2]
        simp only [times, one_mul]
      | none =>
        simp only [Option.some.injEq] at hf h
        obtain ⟨w, h1, h2⟩ := h
        subst hf
        refine ⟨s, hpos, ?_⟩
        have e : times s (vecMul v (RtToFrom src dst).R) = vecMul (dirInCam dst w) (RtToFrom src dst).R := by
          rw [← h1, hp]; ext <;> simp only [times, vecMul] <;> ring
        rw [e, h2]
        have p1 := toFrom_point src dst hs.1 w
        have p0 := toFrom_point src dst hs.1 ⟨0, 0, 0⟩
        -- the difference of two points
        have key : dirInCam dst w = Pose.mulVec (RtToFrom src dst).R (dirInCam src w) := by
          simp only [transformPointRt, inCam, rotatePointR, addP, Bool.not_false, if_true, Bool.false_eq_true, if_false] at p0 p1
          obtain ⟨a1, a2, a3⟩ := P3.mk.inj p1
          obtain ⟨b1, b2, b3⟩ := P3.mk.inj p0
          simp only [dirInCam, rotatePointR, Bool.false_eq_true, if_false]
          simp only [Pose.mulVec] at *
          ext <;> simp only
          · linear_combination b1 - a1
          · linear_combination b2 - a2
          · linear_combination b3 - a3
        rw [key]
        obtain ⟨c0, c1, c2, c01, c02, c12⟩ := hT.cols
        generalize dirInCam src w = z
        generalize (RtToFrom src dst).R = R at *
        ext <;> simp only [vecMul, Pose.mulVec]
        · linear_combination -c0 * z.x - c01 * z.y - c02 * z.z
        · linear_combination -c01 * z.x - c1 * z.y - c12 * z.z
        · linear_combination -c02 * z.x - c12 * z.y - c2 * z.z
  cases pn with
  | none => exact nonplane hf h
  | some n =>
    cases pd with
    | none => exact nonplane hf h
    | some d =>
      dsimp only at hf h
      obtain ⟨P, h1, h2, h3, h4⟩ := h
      obtain ⟨B, hB, hf⟩ := Option.map_eq_some_iff.mp hf
      subst hf
      have hk := inv3_left _ _ hB pFrom
      have hpt := toFrom_point src dst hs.1 P
      rw [← h1, ← h2] at hpt
      generalize hA : (M3.mk (d * (RtToFrom src dst).R.a00 + (RtToFrom src dst).t.x * n.x) _ _ _ _ _ _ _ _) = A at hk
      have e : Pose.mulVec A pFrom = times (d * s) v := by
        rw [← times_times, ← hp, ← hpt, ← hA]
        simp only [transformPointRt, rotatePointR, addP, Pose.mulVec, times, Bool.not_false, if_true, Bool.false_eq_true, if_false]
        unfold dot at h3
        ext <;> simp only
        · linear_combination (RtToFrom src dst).t.x * h3
        · linear_combination (RtToFrom src dst).t.y * h3
        · linear_combination (RtToFrom src dst).t.z * h3
      rw [e, mulVec_times] at hk
      exact ⟨d * s, by positivity, hk.symm⟩

/-- the TO camera of the special case -/
theorem unproject1_pinhole (m : Model) (h : m.lens = .pinhole) (solve : Solver) (q : P2) :
    unproject1 m solve q = some (some ⟨(q.x - m.intr 2) / m.intr 0, (q.y - m.intr 3) / m.intr 1, 1⟩) := by
  unfold unproject1 mrcalUnproject
  rw [h]
  rfl

theorem inv3_rot (R : M3) (h : IsRot R) : inv3 R = some (transpose R) := by
  obtain ⟨k00, k01, k02, k10, k11, k12, k20, k21, k22⟩ := IsRot.cof h
  obtain ⟨r0, r1, r2, r01, r02, r12⟩ := h.1.rows
  have hd : det3 R = 1 := by
    unfold det3
    linear_combination r0 - R.a00 * k00 - R.a01 * k01 - R.a02 * k02
  unfold inv3
  simp only [hd, one_ne_zero, if_false, div_one, transpose, Option.some.injEq]
  ext <;> simp only <;> linarith

theorem ocv_sees (m : Model) (h : isOpenCV m.lens = true) (v : P3) : sees m v = ocvQ (coreOf m.intr) (padK (m.lens.numParams.toNat - 4) (nocoreOf m.intr)) v := by
  unfold sees pix
  cases hl : m.lens <;> rw [hl] at h <;> first | rfl | (exact absurd h (by simp [isOpenCV]))

/-- the special case may be used: the rotation is passed to OpenCV, or there's none -/
def CvExact (src dst : Model) (a : Args) : Prop :=
  let R := (RtToFrom src dst).R
  a.intrinsicsOnly = true ∨ R.a00 + R.a11 + R.a22 ≤ 3 - 1e-12 ∨ R = identityR

/-- **C91, partial**: the special case for OpenCV models produces exactly what the general path produces, if the relative rotation isn't tiny. MISSING: a rotation is ignored if its trace is > 3-1e-12: `opencv_same_wrong` -/
theorem opencv_same_partial (solve : Solver) (src dst : Model) (a : Args) (hs : Camera src) (hd : Camera dst) (ha : argsOk a = true) (hcv : useOpenCV src dst a = true) (he : CvExact src dst a) :
    imageMap solve src dst a = general solve src dst a := by
  unfold imageMap
  rw [ha, hcv]
  simp only [Bool.not_true, Bool.false_eq_true, if_false, if_true]
  have hc := hcv
  simp only [useOpenCV, Bool.and_eq_true, decide_eq_true_eq, Option.isNone_iff_eq_none, Bool.not_eq_true'] at hc
  obtain ⟨⟨⟨⟨h1, h2⟩, h3⟩, h4⟩, h5⟩ := hc
  have hT := toFrom_rot src dst hs.rot hd.rot
  have hmap : ∀ (Rinv : M3) (f : P3 → P3), (∀ v, Pose.mulVec Rinv v = f v) → overGrid dst.W dst.H (fun q => some (cvMap src dst Rinv q)) =
      overGrid dst.W dst.H (fun q => ((unproject1 dst solve q).getD none).map fun v => project1 src (f v)) := by
    intro Rinv f hf
    congr 1
    funext q
    rw [unproject1_pinhole dst h2]
    simp only [Option.getD_some, Option.map_some, Option.some.injEq, project1_pix src hs.valid, ocv_sees src h1, ← hf]
    rfl
  have hid : ∀ v, Pose.mulVec identityR v = v := by intro v; ext <;> simp [Pose.mulVec, identityR]
  unfold general
  rw [unproject1_pinhole dst h2]
  simp only [Option.isNone_some, Bool.false_eq_true, if_false, h4]
  unfold toFrom cvRotation
  rw [h3, h5]
  dsimp only
  by_cases hi : a.intrinsicsOnly = true
  · simp only [if_pos hi, Option.map_some, Option.bind_some]
    exact congrArg some (hmap _ _ hid)
  · simp only [if_neg hi]
    rcases he with he | he | he
    · exact absurd he hi
    · rw [if_neg (not_lt.mpr he), inv3_rot _ hT]
      simp only [Option.map_some, Option.bind_some]
      refine congrArg some (hmap _ _ fun v => ?_)
      ext <;> simp only [Pose.mulVec, transpose, vecMul]
    · rw [he]
      have : identityR.a00 + identityR.a11 + identityR.a22 > 3 - 1e-12 := by norm_num [identityR]
      rw [if_pos this]
      simp only [Option.map_some, Option.bind_some]
      refine congrArg some (hmap _ _ fun v => ?_)
      ext <;> simp [Pose.mulVec, identityR, vecMul]

/-- **C91**: whatever the pixel (x,y) of the TO image looks at (a point of the plane; a point at the given distance; a direction, if looking at infinity; a vector in camera coordinates, if
intrinsics_only): it's at the pixel mapxy[y,x] of the FROM image -/
theorem map_meaning (solve : Solver) (src dst : Model) (a : Args) (hs : Camera src) (hd : Camera dst) (hc : Central src) (hcv : useOpenCV src dst a = true → CvExact src dst a)
    (rows : List (List (Option P2))) (h : imageMap solve src dst a = some rows) (x y : Nat) (hx : x < dst.W) (hy : y < dst.H) (pTo pFrom : P3) (hray : Along solve dst x y pTo)
    (hlook : LooksAt src dst a pTo pFrom) :
    (a.mask = false → entry rows x y = some (some (sees src pFrom))) ∧
    (a.mask = true → ∃ inside, src.region = some inside ∧ entry rows x y = some (some (if inside (sees src pFrom) then sees src pFrom else ⟨-1, -1⟩))) := by
  have h : general solve src dst a = some rows := by
    by_cases hu : useOpenCV src dst a = true
    · rw [← opencv_same_partial solve src dst a hs hd ?_ hu (hcv hu)]
      · exact h
      · by_contra hn
        unfold imageMap at h
        rw [if_pos (by simpa using hn)] at h
        exact absurd h (by simp)
    · unfold imageMap at h
      by_cases ha : argsOk a = true
      · rw [if_neg (by rw [ha]; simp), if_neg hu] at h
        exact h
      · rw [if_pos (by simpa using ha)] at h
        exact absurd h (by simp)
  obtain ⟨f, hf, hall⟩ := general_entry solve src dst a hs.valid rows h
  obtain ⟨v, s, hu, hpos, hp⟩ := hray
  obtain ⟨k, hk, hkf⟩ := toFrom_along src dst a hs.rot hd.rot f hf v pTo pFrom s hpos hp hlook
  have hsee : sees src (f v) = sees src pFrom := by rw [hkf, sees_times src hc _ k hk]
  have := hall x y hx hy
  dsimp only at this
  rw [hu] at this
  simp only [Option.getD_some, Option.map_some, hsee] at this
  refine ⟨fun hm => ?_, fun hm => ?_⟩
  · rw [if_neg (by rw [hm]; simp)] at this
    exact this
  · rw [if_pos hm] at this
    obtain ⟨inside, hr, he⟩ := this
    refine ⟨inside, hr, ?_⟩
    rw [he]
    simp only [applyMask]
    split <;> rfl


/-- **C91**: a pixel of the TO image that can't be unprojected: it's NaN; with a mask it's (-1,-1), as for all pixels outside of the region -/
theorem map_unseen (solve : Solver) (src dst : Model) (a : Args) (hs : Camera src) (hu : useOpenCV src dst a = false) (rows : List (List (Option P2))) (h : imageMap solve src dst a = some rows)
    (x y : Nat) (hx : x < dst.W) (hy : y < dst.H) (hnan : unproject1 dst solve ⟨(x : ℝ), (y : ℝ)⟩ = some none) :
    (a.mask = false → entry rows x y = some none) ∧ (a.mask = true → entry rows x y = some (some ⟨-1, -1⟩)) := by
  have h : general solve src dst a = some rows := by
    unfold imageMap at h
    by_cases ha : argsOk a = true
    · rw [if_neg (by rw [ha]; simp), if_neg (by rw [hu]; simp)] at h
      exact h
    · rw [if_pos (by simpa using ha)] at h
      exact absurd h (by simp)
  obtain ⟨f, hf, hall⟩ := general_entry solve src dst a hs.valid rows h
  have := hall x y hx hy
  dsimp only at this
  rw [hnan] at this
  simp only [Option.getD_some, Option.map_none] at this
  refine ⟨fun hm => ?_, fun hm => ?_⟩
  · rw [if_neg (by rw [hm]; simp)] at this
    exact this
  · rw [if_pos hm] at this
    obtain ⟨inside, -, he⟩ := this
    exact he

/-- **C91**: which calls succeed. The plane may contain neither of the two cameras; a mask requires a region; the TO camera can be unprojected (a CAHVORE camera with E≠0 can't); and the
arguments are consistent -/
theorem map_succeeds_iff (solve : Solver) (src dst : Model) (a : Args) (hs : Camera src) (hd : Camera dst) :
    (imageMap solve src dst a).isSome = true ↔
      (a.planeN.isSome = a.planeD.isSome ∧ (a.planeN.isSome = true → a.intrinsicsOnly = false) ∧ (a.distance.isSome = true → a.planeN = none ∧ a.intrinsicsOnly = false)) ∧
      (∀ lin, dst.lens = .cahvore lin → dst.intr 9 = 0 ∧ dst.intr 10 = 0 ∧ dst.intr 11 = 0) ∧
      (∀ n d, a.planeN = some n → a.planeD = some d → d ≠ 0 ∧ ∀ c, inCam dst c = ⟨0, 0, 0⟩ → dot n (inCam src c) ≠ d) ∧
      (a.mask = true → src.region.isSome = true) := by
  have hargs : argsOk a = true ↔
      (a.planeN.isSome = a.planeD.isSome ∧ (a.planeN.isSome = true → a.intrinsicsOnly = false) ∧ (a.distance.isSome = true → a.planeN = none ∧ a.intrinsicsOnly = false)) := by
    unfold argsOk
    cases a.planeN <;> cases a.planeD <;> cases a.intrinsicsOnly <;> cases a.distance <;> simp
  have hunp : ∀ q, (unproject1 dst solve q).isNone = false ↔ (∀ lin, dst.lens = .cahvore lin → dst.intr 9 = 0 ∧ dst.intr 10 = 0 ∧ dst.intr 11 = 0) := by
    intro q
    have hsome : ∀ out : Nat → NanP3, (match (out 0).x, (out 0).y, (out 0).z with
        | some x, some y, some z => some (some (P3.mk x y z))
        | _, _, _ => some (none : Option P3)).isNone = false := by
      intro out
      cases (out 0).x <;> cases (out 0).y <;> cases (out 0).z <;> rfl
    have hu : (unproject1 dst solve q).isNone = false ↔ mrcalUnproject dst.lens dst.intr solve 1 (fun _ => q) (fun _ => ⟨none, none, none⟩) ≠ some none := by
      have ha : mrcalUnproject dst.lens dst.intr solve 1 (fun _ => q) (fun _ => ⟨none, none, none⟩) = some (unprojectInternal dst.lens dst.intr solve 1 (fun _ => q) (fun _ => ⟨none, none, none⟩)) := by
        unfold mrcalUnproject; rw [(asserts_iff dst.lens).mpr hd.valid]; rfl
      unfold unproject1
      rw [ha]
      cases unprojectInternal dst.lens dst.intr solve 1 (fun _ => q) (fun _ => ⟨none, none, none⟩) with
      | none => simp
      | some out =>
        refine iff_of_true (hsome out) (by simp)
    rw [hu]
    by_cases hca : isCahvore dst.lens = true
    · obtain ⟨lin, hl⟩ : ∃ lin, dst.lens = .cahvore lin := by
        cases hl : dst.lens <;> rw [hl] at hca <;> simp_all [isCahvore]
      rw [hl, Ne, unproject_noncentral lin]
      constructor
      · intro h lin' _
        refine ⟨?_, ?_, ?_⟩ <;> by_contra hne
        · exact h (Or.inl hne)
        · exact h (Or.inr (Or.inl hne))
        · exact h (Or.inr (Or.inr hne))
      · intro h hne
        obtain ⟨z9, z10, z11⟩ := h lin rfl
        rcases hne with hne | hne | hne
        · exact hne z9
        · exact hne z10
        · exact hne z11
    · refine iff_of_true ?_ (fun lin hl => absurd (by rw [hl]; rfl) hca)
      have ha : mrcalUnproject dst.lens dst.intr solve 1 (fun _ => q) (fun _ => ⟨none, none, none⟩) = some (unprojectInternal dst.lens dst.intr solve 1 (fun _ => q) (fun _ => ⟨none, none, none⟩)) := by
        unfold mrcalUnproject; rw [(asserts_iff dst.lens).mpr hd.valid]; rfl
      rw [ha]
      by_cases hdir : isDirect dst.lens = true
      · cases hl : dst.lens <;> rw [hl] at hdir <;> simp_all [isDirect, unprojectInternal]
      · rw [loop_result dst.lens (by simpa using hdir) (by simpa using hca)]
        simp
  have hT := toFrom_rot src dst hs.rot hd.rot
  -- the plane
  have hplane : (toFrom src dst a).isSome = true ↔ (∀ n d, a.planeN = some n → a.planeD = some d → d ≠ 0 ∧ ∀ c, inCam dst c = ⟨0, 0, 0⟩ → dot n (inCam src c) ≠ d) := by
    unfold toFrom
    dsimp only
    generalize a.planeN = pn
    generalize a.planeD = pd
    have trivialCase : ∀ o : Option (P3 → P3), (if a.intrinsicsOnly = true then some fun v => v
      else match a.distance with
        | some dist => some fun v =>
          transformPointRt (invertRt (RtToFrom src dst)) ⟨v.x / √(v.x * v.x + v.y * v.y + v.z * v.z) * dist, v.y / √(v.x * v.x + v.y * v.y + v.z * v.z) * dist, v.z / √(v.x * v.x + v.y * v.y + v.z * v.z) * dist⟩ false
        | none => some fun v => vecMul v (RtToFrom src dst).R) = o → o.isSome = true := by
      intro o ho
      subst ho
      split
      · rfl
      · split <;> rfl
    cases pn with
    | none => exact iff_of_true (trivialCase _ rfl) (fun n d h => absurd h (by simp))
    | some n =>
      cases pd with
      | none => exact iff_of_true (trivialCase _ rfl) (fun n d _ h => absurd h (by simp))
      | some d =>
        simp only [Option.isSome_map, Option.some.injEq]
        rw [← not_iff_not]
        rw [Bool.not_eq_true, Option.isSome_eq_false_iff, Option.isNone_iff_eq_none, inv3_isNone, det_homography _ _ _ _ hT, mul_eq_zero]
        -- the center of the TO camera
        have hcen : ∀ c, inCam dst c = ⟨0, 0, 0⟩ → dot n (inCam src c) = -dot n (vecMul (RtToFrom src dst).t (RtToFrom src dst).R) := by
          intro c hc
          have e := (transform_inverted _ hT.1 (inCam src c)).1
          rw [toFrom_point src dst hs.rot.1, hc] at e
          rw [← e]
          simp only [transformPointRt, rotatePointR, Pose.mulVec, subP, transpose, vecMul, dot, Bool.not_true, Bool.false_eq_true, if_false, if_true]
          ring
        constructor
        · rintro (h | h) hh
          · exact (hh n d rfl rfl).1 (by simpa using h)
          · refine (hh n d rfl rfl).2 (transformPointRt dst.pose ⟨0, 0, 0⟩ true) (transform_inverted _ hd.rot.1 _).2 ?_
            rw [hcen _ (transform_inverted _ hd.rot.1 _).2]
            linarith
        · intro hh
          by_contra hne
          rw [not_or] at hne
          apply hh
          rintro n' d' rfl rfl
          refine ⟨fun h0 => hne.1 (by rw [h0]; norm_num), fun c hc heq => hne.2 ?_⟩
          rw [hcen c hc] at heq
          linarith
  rw [← hargs]
  unfold imageMap
  by_cases ha : argsOk a = true
  · rw [if_neg (by rw [ha]; simp)]
    simp only [ha, true_and]
    by_cases hcv : useOpenCV src dst a = true
    · rw [if_pos hcv]
      simp only [useOpenCV, Bool.and_eq_true, decide_eq_true_eq, Option.isNone_iff_eq_none, Bool.not_eq_true'] at hcv
      obtain ⟨⟨⟨⟨h1, h2⟩, h3⟩, h4⟩, h5⟩ := hcv
      refine iff_of_true ?_ ⟨fun lin hl => ?_, fun n d hn => ?_, fun hm => ?_⟩
      · rw [Option.isSome_map]
        unfold cvRotation
        dsimp only
        split
        · rfl
        · split
          · rfl
          · rw [inv3_rot _ hT]; rfl
      · rw [h2] at hl; exact absurd hl (by simp)
      · rw [h3] at hn; exact absurd hn (by simp)
      · rw [h4] at hm; exact absurd hm (by simp)
    · rw [if_neg hcv, ← hplane, ← hunp ⟨0, 0⟩]
      unfold general
      cases (unproject1 dst solve ⟨0, 0⟩).isNone with
      | true => simp
      | false =>
        simp only [Bool.false_eq_true, if_false, true_and]
        cases toFrom src dst a with
        | none => simp
        | some f =>
          simp only [Option.bind_some, Option.isSome_some, true_and]
          cases hm : a.mask with
          | false => simp
          | true => cases src.region <;> simp
  · rw [if_pos (by simpa using ha)]
    simp [ha]


/-! ### the pixel and the ray -/

/-- **C91**: the rays of the cameras that have a direct inverse: a point is at the pixel (x,y) of the TO image if it's along the ray -/
theorem along_sees (solve : Solver) (m : Model) (hd : isDirect m.lens = true) (hfx : m.intr 0 ≠ 0) (hfy : m.intr 1 ≠ 0) (x y : Nat) (hr : DirectRange m.lens m.intr ⟨(x : ℝ), (y : ℝ)⟩) (p : P3)
    (h : Along solve m x y p) : sees m p = ⟨(x : ℝ), (y : ℝ)⟩ := by
  obtain ⟨v, s, hu, hs, hp⟩ := h
  obtain ⟨out, ho, -, hall⟩ := unproject_direct m.lens hd m.intr hfx hfy solve 1 (fun _ => ⟨(x : ℝ), (y : ℝ)⟩) (fun _ => ⟨none, none, none⟩)
  obtain ⟨w, hw, hpix⟩ := hall 0 (by omega) hr
  have : unproject1 m solve ⟨(x : ℝ), (y : ℝ)⟩ = some (some w) := by
    unfold unproject1
    rw [ho]
    simp only [hw, NanP3.of]
  rw [this] at hu
  obtain rfl : w = v := by simpa using hu
  rw [hp, sees_times m (fun lin hl => by rw [hl] at hd; exact absurd hd (by simp [isDirect])) _ s hs]
  exact hpix

/-- the pixel of a moving point converges if the point converges to p -/
def PixelContinuous (m : Model) (p : P3) : Prop :=
  ∀ c : ℝ → P3, Filter.Tendsto (fun s => (c s).x) Filter.atTop (nhds p.x) → Filter.Tendsto (fun s => (c s).y) Filter.atTop (nhds p.y) →
    Filter.Tendsto (fun s => (c s).z) Filter.atTop (nhds p.z) →
    Filter.Tendsto (fun s => (sees m (c s)).x) Filter.atTop (nhds (sees m p).x) ∧ Filter.Tendsto (fun s => (sees m (c s)).y) Filter.atTop (nhds (sees m p).y)

/-- **C91**: "we look out to infinity": a point that moves away from ANY start in the direction w ends up at the pixel of the direction w, whatever the translation of the camera -/
theorem infinity_limit (m : Model) (hc : Central m) (P w : P3) (h : PixelContinuous m (dirInCam m w)) :
    Filter.Tendsto (fun s => (sees m (inCam m ⟨P.x + s * w.x, P.y + s * w.y, P.z + s * w.z⟩)).x) Filter.atTop (nhds (sees m (dirInCam m w)).x) ∧
    Filter.Tendsto (fun s => (sees m (inCam m ⟨P.x + s * w.x, P.y + s * w.y, P.z + s * w.z⟩)).y) Filter.atTop (nhds (sees m (dirInCam m w)).y) := by
  have hlin : ∀ s : ℝ, inCam m ⟨P.x + s * w.x, P.y + s * w.y, P.z + s * w.z⟩ =
      ⟨(inCam m P).x + s * (dirInCam m w).x, (inCam m P).y + s * (dirInCam m w).y, (inCam m P).z + s * (dirInCam m w).z⟩ := by
    intro s
    simp only [inCam, dirInCam, transformPointRt, rotatePointR, addP, Pose.mulVec, Bool.not_false, if_true, Bool.false_eq_true, if_false]
    ext <;> simp only <;> ring
  have hsee : ∀ s : ℝ, 0 < s → sees m (inCam m ⟨P.x + s * w.x, P.y + s * w.y, P.z + s * w.z⟩) =
      sees m ⟨(inCam m P).x * s⁻¹ + (dirInCam m w).x, (inCam m P).y * s⁻¹ + (dirInCam m w).y, (inCam m P).z * s⁻¹ + (dirInCam m w).z⟩ := by
    intro s hs
    rw [hlin]
    conv_rhs => rw [← sees_times m hc _ s hs]
    congr 1
    simp only [times]
    ext <;> simp only <;> field_simp
  have ht : ∀ a b : ℝ, Filter.Tendsto (fun s : ℝ => a * s⁻¹ + b) Filter.atTop (nhds b) := by
    intro a b
    have := (tendsto_inv_atTop_zero (𝕜 := ℝ)).const_mul a
    rw [mul_zero] at this
    simpa using this.add_const b
  obtain ⟨h1, h2⟩ := h (fun s => ⟨(inCam m P).x * s⁻¹ + (dirInCam m w).x, (inCam m P).y * s⁻¹ + (dirInCam m w).y, (inCam m P).z * s⁻¹ + (dirInCam m w).z⟩)
    (ht _ _) (ht _ _) (ht _ _)
  refine ⟨h1.congr' ?_, h2.congr' ?_⟩
  · filter_upwards [Filter.eventually_gt_atTop 0] with s hs
    rw [hsee s hs]
  · filter_upwards [Filter.eventually_gt_atTop 0] with s hs
    rw [hsee s hs]

/-- pinhole cameras satisfy this for each direction in front -/
theorem pinhole_continuous (m : Model) (h : m.lens = .pinhole) (p : P3) (hz : p.z ≠ 0) : PixelContinuous m p := by
  intro c hx hy hz'
  have e : ∀ v, sees m v = (pinhole (coreOf m.intr) v).q := by
    intro v; unfold sees pix; rw [h]; rfl
  simp only [e, pinhole]
  have hr := Filter.Tendsto.inv₀ hz' hz
  constructor
  · simpa [one_div] using ((hx.mul hr).mul_const (coreOf m.intr).fx).add_const (coreOf m.intr).cx
  · simpa [one_div] using ((hy.mul hr).mul_const (coreOf m.intr).fy).add_const (coreOf m.intr).cy

/-! ### where it's wrong -/

/-- a camera for the examples -/
noncomputable def cam (L : Lens) (R : M3) (t : P3) (n : Nat) : Model := ⟨L, fun i => if i = 0 ∨ i = 1 then 1 else 0, ⟨R, t⟩, n, n, none⟩

/-- the rotation about the optical axis: 2 atan(k) -/
noncomputable def spin (k : ℝ) : M3 := ⟨(1 - k ^ 2) / (1 + k ^ 2), -(2 * k) / (1 + k ^ 2), 0, 2 * k / (1 + k ^ 2), (1 - k ^ 2) / (1 + k ^ 2), 0, 0, 0, 1⟩

theorem spin_rot (k : ℝ) : IsRot (spin k) := by
  have h : 1 + k ^ 2 ≠ 0 := by positivity
  refine ⟨?_, ?_⟩
  · unfold Orth
    ext i j
    fin_cases i <;> fin_cases j <;> simp [toMat, spin, Matrix.mul_apply, Fin.sum_univ_three] <;> field_simp <;> ring
  · simp [toMat, spin, Matrix.det_fin_three]
    field_simp
    ring

/-- **C91, negation**: "this branch works identically to the other path": no. A relative rotation up to 1e-6 is ignored -/
theorem opencv_same_wrong : ∃ src dst a, Camera src ∧ Camera dst ∧ argsOk a = true ∧ useOpenCV src dst a = true ∧ ∀ solve, imageMap solve src dst a ≠ general solve src dst a := by
  have hk : (0 : ℝ) < 1e-7 := by norm_num
  have hR : (RtToFrom (cam .opencv4 identityR ⟨0, 0, 0⟩ 2) (cam .pinhole (spin 1e-7) ⟨0, 0, 0⟩ 2)).R = spin 1e-7 := by
    have e : (RtToFrom (cam .opencv4 identityR ⟨0, 0, 0⟩ 2) (cam .pinhole (spin 1e-7) ⟨0, 0, 0⟩ 2)).R = Pose.mul (spin 1e-7) (transpose identityR) := rfl
    rw [e]
    ext <;> simp [Pose.mul, transpose, identityR, vecMul]
  refine ⟨cam .opencv4 identityR ⟨0, 0, 0⟩ 2, cam .pinhole (spin 1e-7) ⟨0, 0, 0⟩ 2, ⟨false, none, none, none, false⟩, ⟨identity_rot, trivial⟩, ⟨spin_rot _, trivial⟩, rfl, rfl, fun solve h => ?_⟩
  have hs : ∀ v, sees (cam .opencv4 identityR ⟨0, 0, 0⟩ 2) v = (pinhole ⟨1, 1, 0, 0⟩ v).q := by
    intro v
    unfold sees pix
    rw [← ocv_zero_pinhole _ (fun _ => 0)]
    have : (cam .opencv4 identityR ⟨0, 0, 0⟩ 2).lens = .opencv4 := rfl
    rw [this]
    have hpad : padK 4 (nocoreOf (cam .opencv4 identityR ⟨0, 0, 0⟩ 2).intr) = padK 0 (fun _ => 0) := by
      funext i
      unfold padK nocoreOf cam
      simp only [Nat.not_lt_zero, if_false]
      split
      · rw [if_neg (by omega)]
      · rfl
    simp only [lensPixel, hpad, Option.getD_some]
    congr 1
  -- the special case
  have h1 : entry ((imageMap solve (cam .opencv4 identityR ⟨0, 0, 0⟩ 2) (cam .pinhole (spin 1e-7) ⟨0, 0, 0⟩ 2) ⟨false, none, none, none, false⟩).getD []) 1 0 = some (some ⟨1, 0⟩) := by
    have ht : (spin 1e-7).a00 + (spin 1e-7).a11 + (spin 1e-7).a22 > 3 - 1e-12 := by norm_num [spin]
    unfold imageMap
    rw [if_neg (by decide), if_pos (by rfl)]
    unfold cvRotation
    simp only [hR, Bool.false_eq_true, if_false, if_pos ht, Option.map_some, Option.getD_some]
    rw [entry_grid _ _ _ 1 0 (by decide) (by decide)]
    unfold cvMap
    rw [← ocv_sees _ (by rfl), hs]
    simp [pinhole, Pose.mulVec, identityR, cam]
  have h2 : ∃ q, entry ((general solve (cam .opencv4 identityR ⟨0, 0, 0⟩ 2) (cam .pinhole (spin 1e-7) ⟨0, 0, 0⟩ 2) ⟨false, none, none, none, false⟩).getD []) 1 0 = some (some q) ∧ q.y ≠ 0 := by
    unfold general
    rw [unproject1_pinhole _ rfl]
    simp only [Option.isNone_some, Bool.false_eq_true, if_false, toFrom, Option.bind_some, Option.getD_some]
    rw [entry_grid _ _ _ 1 0 (by decide) (by decide), unproject1_pinhole _ rfl]
    simp only [Option.getD_some, Option.map_some, project1_pix (cam .opencv4 identityR ⟨0, 0, 0⟩ 2) trivial, hs, hR]
    refine ⟨_, rfl, ?_⟩
    norm_num [pinhole, vecMul, spin, cam]
  rw [h] at h1
  obtain ⟨q, hq, hne⟩ := h2
  rw [hq] at h1
  have : q = ⟨1, 0⟩ := by simpa using h1
  rw [this] at hne
  exact hne rfl

/-- **C91, negation**: "plane_n does not need to be normalized; any scaling is compensated in plane_d": not if plane_d is negative. The two descriptions of one plane produce different maps: the second one
looks at the wrong direction entirely -/
theorem plane_sign_wrong : ∃ src dst n d n' d', Camera src ∧ Camera dst ∧ Central src ∧ (∀ p, dot n p = d ↔ dot n' p = d') ∧
    ∀ solve, ∃ rows rows', imageMap solve src dst ⟨false, none, some n, some d, false⟩ = some rows ∧ imageMap solve src dst ⟨false, none, some n', some d', false⟩ = some rows' ∧
      entry rows 0 0 = some (some ⟨0, 0⟩) ∧ entry rows' 0 0 = some (some ⟨Real.pi, 0⟩) := by
  refine ⟨cam .lonlat identityR ⟨0, 0, 0⟩ 1, cam .pinhole identityR ⟨0, 0, 0⟩ 1, ⟨0, 0, 1⟩, 1, ⟨0, 0, -1⟩, -1, ⟨identity_rot, trivial⟩, ⟨identity_rot, trivial⟩, fun lin h => by simp [cam] at h, fun p => ?_,
    fun solve => ?_⟩
  · simp only [dot]
    constructor <;> intro h <;> linarith
  · have hT : RtToFrom (cam .lonlat identityR ⟨0, 0, 0⟩ 1) (cam .pinhole identityR ⟨0, 0, 0⟩ 1) = identityRt := by
      unfold RtToFrom
      ext <;> simp [composeRt, cam, invertRt, Pose.mul, vecMul, transpose, identityR, identityRt, Pose.mulVec, addP]
    have hinv : ∀ d : ℝ, d ≠ 0 → inv3 ⟨d * 1 + 0 * 0, d * 0 + 0 * 0, d * 0 + 0 * d, d * 0 + 0 * 0, d * 1 + 0 * 0, d * 0 + 0 * d, d * 0 + 0 * 0, d * 0 + 0 * 0, d * 1 + 0 * d⟩ =
        some ⟨1 / d, 0, 0, 0, 1 / d, 0, 0, 0, 1 / d⟩ := by
      intro d hd
      unfold inv3
      have hdet : det3 ⟨d * 1 + 0 * 0, d * 0 + 0 * 0, d * 0 + 0 * d, d * 0 + 0 * 0, d * 1 + 0 * 0, d * 0 + 0 * d, d * 0 + 0 * 0, d * 0 + 0 * 0, d * 1 + 0 * d⟩ = d ^ 3 := by
        simp only [det3]; ring
      simp only [hdet]
      rw [if_neg (pow_ne_zero 3 hd)]
      simp only [Option.some.injEq]
      ext <;> simp only <;> field_simp <;> ring
    have hgen : ∀ d : ℝ, d ≠ 0 → ∃ rows, imageMap solve (cam .lonlat identityR ⟨0, 0, 0⟩ 1) (cam .pinhole identityR ⟨0, 0, 0⟩ 1) ⟨false, none, some ⟨0, 0, d⟩, some d, false⟩ = some rows ∧
        entry rows 0 0 = some (some (lonlat ⟨1, 1, 0, 0⟩ ⟨0, 0, 1 / d⟩).q) := by
      intro d hd
      have hto : toFrom (cam .lonlat identityR ⟨0, 0, 0⟩ 1) (cam .pinhole identityR ⟨0, 0, 0⟩ 1) ⟨false, none, some ⟨0, 0, d⟩, some d, false⟩ =
          some fun v => Pose.mulVec ⟨1 / d, 0, 0, 0, 1 / d, 0, 0, 0, 1 / d⟩ v := by
        unfold toFrom
        rw [hT]
        simp only [identityRt, identityR]
        rw [hinv d hd]
        rfl
      unfold imageMap
      rw [if_neg (by simp [argsOk]), if_neg (by simp [useOpenCV])]
      unfold general
      rw [unproject1_pinhole _ rfl, hto]
      simp only [Option.isNone_some, Bool.false_eq_true, if_false, Option.bind_some]
      refine ⟨_, rfl, ?_⟩
      rw [entry_grid _ _ _ 0 0 (by decide) (by decide), unproject1_pinhole _ rfl]
      simp only [Option.getD_some, Option.map_some, project1_pix (cam .lonlat identityR ⟨0, 0, 0⟩ 1) trivial]
      have hsees : ∀ v, sees (cam .lonlat identityR ⟨0, 0, 0⟩ 1) v = (lonlat ⟨1, 1, 0, 0⟩ v).q := fun v => rfl
      rw [hsees]
      congr 4
      ext <;> simp [Pose.mulVec, cam]
    obtain ⟨rows, h1, h2⟩ := hgen 1 one_ne_zero
    obtain ⟨rows', h1', h2'⟩ := hgen (-1) (by norm_num)
    refine ⟨rows, rows', h1, h1', ?_, ?_⟩
    · rw [h2]
      have : atan2 0 (1 / 1) = 0 := by
        unfold atan2
        rw [show (⟨(1 : ℝ) / 1, 0⟩ : ℂ) = 1 by apply Complex.ext <;> simp]
        exact Complex.arg_one
      simp [lonlat]
      simpa using this
    · rw [h2']
      have : atan2 0 (1 / -1) = Real.pi := by
        unfold atan2
        rw [show (⟨(1 : ℝ) / -1, 0⟩ : ℂ) = -1 by apply Complex.ext <;> simp]
        exact Complex.arg_neg_one
      simp [lonlat]
      simpa using this

/-! ### the hypotheses can be met -/

/-- a pair of cameras that are 1 apart, turned by 2 atan(1/2); they look at the plane z=5, at infinity, or at a distance of 3 -/
theorem map_cases : ∃ src dst : Model, Camera src ∧ Camera dst ∧ Central src ∧ (∀ a, useOpenCV src dst a = true → CvExact src dst a) ∧
    (∀ solve, (imageMap solve src dst ⟨false, none, none, none, false⟩).isSome = true ∧ (imageMap solve src dst ⟨false, some 3, none, none, false⟩).isSome = true ∧
      (imageMap solve src dst ⟨false, none, some ⟨0, 0, 1⟩, some 5, false⟩).isSome = true ∧ Along solve dst 1 1 ⟨5, 5, 5⟩) ∧
    (∃ p, LooksAt src dst ⟨false, none, none, none, false⟩ ⟨5, 5, 5⟩ p) ∧ (∃ p, LooksAt src dst ⟨false, some (5 * √3), none, none, false⟩ ⟨5, 5, 5⟩ p) ∧
    (∃ p, LooksAt src dst ⟨false, none, some ⟨0, 0, 1⟩, some 5, false⟩ ⟨5, 5, 5⟩ p) ∧
    useOpenCV src dst ⟨false, none, none, none, false⟩ = true := by
  have hR : (RtToFrom (cam .opencv4 identityR ⟨0, 0, 0⟩ 2) (cam .pinhole (spin (1 / 2)) ⟨1, 0, 0⟩ 2)).R = spin (1 / 2) := by
    have e : (RtToFrom (cam .opencv4 identityR ⟨0, 0, 0⟩ 2) (cam .pinhole (spin (1 / 2)) ⟨1, 0, 0⟩ 2)).R = Pose.mul (spin (1 / 2)) (transpose identityR) := rfl
    rw [e]
    ext <;> simp [Pose.mul, transpose, identityR, vecMul]
  have hs : Camera (cam .opencv4 identityR ⟨0, 0, 0⟩ 2) := ⟨identity_rot, trivial⟩
  have hd : Camera (cam .pinhole (spin (1 / 2)) ⟨1, 0, 0⟩ 2) := ⟨spin_rot _, trivial⟩
  have hpt : inCam (cam .pinhole (spin (1 / 2)) ⟨1, 0, 0⟩ 2) ⟨32 / 5, -(1 / 5), 5⟩ = ⟨5, 5, 5⟩ := by
    simp only [inCam, transformPointRt, rotatePointR, Pose.mulVec, cam, spin, addP, Bool.not_false, if_true, Bool.false_eq_true, if_false]
    ext <;> norm_num
  refine ⟨cam .opencv4 identityR ⟨0, 0, 0⟩ 2, cam .pinhole (spin (1 / 2)) ⟨1, 0, 0⟩ 2, hs, hd, fun lin h => by simp [cam] at h, fun a _ => Or.inr (Or.inl ?_),
    fun solve => ⟨?_, ?_, ?_, ?_⟩, ⟨dirInCam (cam .opencv4 identityR ⟨0, 0, 0⟩ 2) ⟨7, -1, 5⟩, ?_⟩, ⟨inCam (cam .opencv4 identityR ⟨0, 0, 0⟩ 2) ⟨32 / 5, -(1 / 5), 5⟩, ?_⟩,
    ⟨inCam (cam .opencv4 identityR ⟨0, 0, 0⟩ 2) ⟨32 / 5, -(1 / 5), 5⟩, ?_⟩, rfl⟩
  · rw [hR]; norm_num [spin]
  · rw [map_succeeds_iff solve _ _ _ hs hd]
    exact ⟨by simp, fun lin h => by simp [cam] at h, fun n d h => by simp at h, by simp⟩
  · rw [map_succeeds_iff solve _ _ _ hs hd]
    exact ⟨by simp, fun lin h => by simp [cam] at h, fun n d h => by simp at h, by simp⟩
  · rw [map_succeeds_iff solve _ _ _ hs hd]
    refine ⟨by simp, fun lin h => by simp [cam] at h, fun n d h h' => ?_, by simp⟩
    obtain rfl := Option.some.inj h
    obtain rfl := Option.some.inj h'
    refine ⟨by norm_num, fun c hc hh => ?_⟩
    have hz := congrArg P3.z hc
    simp [inCam, transformPointRt, rotatePointR, Pose.mulVec, cam, spin, addP, identityR, dot] at hz hh
    linarith
  · exact ⟨⟨1, 1, 1⟩, 5, by rw [unproject1_pinhole _ rfl]; simp [cam], by norm_num, by simp [times]⟩
  · refine ⟨⟨7, -1, 5⟩, ?_, rfl⟩
    simp only [dirInCam, rotatePointR, Pose.mulVec, cam, spin, Bool.false_eq_true, if_false]
    ext <;> norm_num
  · refine ⟨⟨32 / 5, -(1 / 5), 5⟩, hpt.symm, rfl, ?_, by positivity⟩
    rw [mul_pow, Real.sq_sqrt (by norm_num)]
    norm_num [dot]
  · refine ⟨⟨32 / 5, -(1 / 5), 5⟩, hpt.symm, rfl, ?_, by norm_num⟩
    simp [inCam, transformPointRt, rotatePointR, Pose.mulVec, cam, addP, identityR, dot]

/-- `map_unseen`: an OPENCV4 camera, and a solver that doesn't converge. There's a region -/
example : ∃ rows, imageMap (fun _ _ s => (s, 1)) { cam .pinhole identityR ⟨0, 0, 0⟩ 2 with region := some fun _ => true } (cam .opencv4 identityR ⟨0, 0, 0⟩ 2) ⟨true, none, none, none, true⟩ = some rows ∧
    entry rows 1 0 = some (some ⟨-1, -1⟩) := by
  have hs : Camera { cam .pinhole identityR ⟨0, 0, 0⟩ 2 with region := some fun _ => true } := ⟨identity_rot, trivial⟩
  have hd : Camera (cam .opencv4 identityR ⟨0, 0, 0⟩ 2) := ⟨identity_rot, trivial⟩
  obtain ⟨rows, h⟩ := Option.isSome_iff_exists.mp ((map_succeeds_iff (fun _ _ s => (s, 1)) _ _ ⟨true, none, none, none, true⟩ hs hd).mpr
    ⟨⟨rfl, by simp, by simp⟩, by simp [cam], by simp, by simp⟩)
  refine ⟨rows, h, (map_unseen _ _ _ _ hs (by simp [useOpenCV, isOpenCV, cam]) rows h 1 0 (by decide) (by decide) ?_).2 rfl⟩
  simp only [unproject1, mrcalUnproject, cam, lensAsserts, unprojectInternal, loopWrite, unprojectOne]
  norm_num

/-- `along_sees`: a pinhole camera -/
example : isDirect (cam .pinhole identityR ⟨0, 0, 0⟩ 2).lens = true ∧ (cam .pinhole identityR ⟨0, 0, 0⟩ 2).intr 0 ≠ 0 ∧ (cam .pinhole identityR ⟨0, 0, 0⟩ 2).intr 1 ≠ 0 ∧
    DirectRange (cam .pinhole identityR ⟨0, 0, 0⟩ 2).lens (cam .pinhole identityR ⟨0, 0, 0⟩ 2).intr ⟨((1 : Nat) : ℝ), ((1 : Nat) : ℝ)⟩ := by
  refine ⟨rfl, by simp [cam], by simp [cam], by simp [DirectRange, cam]⟩

end Mrcal.ImageTransform
