import Verif.Props.JacobianProps

/-! # C74: the triangulated and the regularization rows of the Jacobian -/

namespace Mrcal.Callback
open Mrcal Mrcal.Pack Mrcal.Pose Mrcal.Project Mrcal.StateLayout Mrcal.Cam Mrcal.Tri

theorem rotP_eq (r x : P3) (inverted : Bool) : rotP r x inverted = rotForm r x inverted := by
  unfold rotP
  rw [← rotForm_eq]
  rfl

theorem rot_value (r x : P3) (inverted wr wx : Bool) (h : 1e-5 ≤ mag3 r ∨ r = ⟨0, 0, 0⟩) : (rotatePointr r x inverted wr wx).x = rotP r x inverted := by
  have := rotate_meaning r x inverted wr wx h
  unfold rotP
  rw [← this]
  rfl

theorem rot_deriv {r x : ℝ → P3} {r' x' : P3} {t : ℝ} (inverted : Bool) (hr : HasDerivP r r' t) (hx : HasDerivP x x' t)
    (h : 1e-5 ≤ mag3 (r t) ∨ r t = ⟨0, 0, 0⟩) :
    HasDerivP (fun s => rotP (r s) (x s) inverted)
      (addP (mulVec ((rotatePointr (r t) (x t) inverted true true).Jr.getD identityR) r')
            (mulVec ((rotatePointr (r t) (x t) inverted true true).Jx.getD identityR) x')) t := by
  simp only [rotP_eq]
  exact rotate_deriv inverted hr hx h

/-- where the triangulated error is differentiable -/
structure TriRegular (c0 c1 : Option RtV) (v0 v1 : P3) : Prop where
  /-- not both cameras are at the reference: then the code dereferences NULL -/
  apart : c0.isSome ∨ c1.isSome
  rot0 : ∀ c, c0 = some c → 1e-5 ≤ mag3 c.r ∨ c.r = ⟨0, 0, 0⟩
  rot1 : ∀ c, c1 = some c → 1e-5 ≤ mag3 c.r ∨ c.r = ⟨0, 0, 0⟩
  parallel : crossp v1 (dirToCam c1 (dirToRef c0 v0)) ≠ zerop
  baseline0 : crossp (dirToCam c1 (dirToRef c0 v0)) (pointToCam c1 (positionOf c0)) ≠ zerop
  baseline1 : crossp v1 (pointToCam c1 (positionOf c0)) ≠ zerop
  mid : let v := dirToCam c1 (dirToRef c0 v0)
    let x := pointToCam c1 (positionOf c0)
    dotp v1 (gmid v1 v x (range0 v1 v x) (range1 v1 v x)) ≠ 0 ∧ chord v1 (gmid v1 v x (range0 v1 v x) (range1 v1 v x)) ^ 2 ≠ 1e-21
  perp : dotp v1 (dirToCam c1 (dirToRef c0 v0)) ≠ 0 ∧ chord v1 (dirToCam c1 (dirToRef c0 v0)) ^ 2 ≠ 1e-21

theorem vecMul_dot (e v : P3) (M : M3) : inner3 (vecMul e M) v = dotp e (mulVec M v) := by simp only [inner3, vecMul, dotp, mulVec]; ring
theorem vecMul_dotp (e v : P3) (M : M3) : dotp (vecMul e M) v = dotp e (mulVec M v) := by simp only [vecMul, dotp, mulVec]; ring
theorem dot_add (e a b : P3) : dotp e (addP a b) = dotp e a + dotp e b := by simp only [dotp, addP]; ring
theorem dot_neg (e a : P3) : dotp e (negP a) = -dotp e a := by simp only [dotp, negP]; ring
theorem inner_add (a b v : P3) : inner3 (addP a b) v = inner3 a v + inner3 b v := by simp only [inner3, addP]; ring
theorem inner_neg (a v : P3) : inner3 ⟨-a.x, -a.y, -a.z⟩ v = -inner3 a v := by simp only [inner3]; ring
theorem inner_sub (a b v : P3) : inner3 ⟨a.x - b.x, a.y - b.y, a.z - b.z⟩ v = inner3 a v - inner3 b v := by simp only [inner3]; ring
theorem pick3_eta (p : P3) : (⟨pick3 p 0, pick3 p 1, pick3 p 2⟩ : P3) = p := by simp [pick3]
theorem mulVec_zero (M : M3) : mulVec M ⟨0, 0, 0⟩ = ⟨0, 0, 0⟩ := by simp [mulVec]
theorem mulVec_neg (M : M3) (v : P3) : mulVec M (negP v) = negP (mulVec M v) := by ext <;> simp only [mulVec, negP] <;> ring
theorem rotP_zero (r : P3) (i : Bool) : rotP r ⟨0, 0, 0⟩ i = ⟨0, 0, 0⟩ := by
  rw [rotP_eq]; simp [rotForm]

theorem derivP_const (p : P3) (t : ℝ) : HasDerivP (fun _ => p) ⟨0, 0, 0⟩ t := ⟨hasDerivAt_const _ _, hasDerivAt_const _ _, hasDerivAt_const _ _⟩
theorem derivP_neg {p : ℝ → P3} {p' : P3} {t : ℝ} (h : HasDerivP p p' t) : HasDerivP (fun s => Pose.negP (p s)) (Pose.negP p') t := ⟨h.1.neg, h.2.1.neg, h.2.2.neg⟩

theorem err_deriv {v1 : P3} {V X : ℝ → P3} {V' X' : P3} {t : ℝ} (hV : HasDerivP V V' t) (hX : HasDerivP X X' t)
    (h1 : crossp v1 (V t) ≠ zerop) (h2 : crossp (V t) (X t) ≠ zerop) (h3 : crossp v1 (X t) ≠ zerop)
    (h4 : dotp v1 (gmid v1 (V t) (X t) (range0 v1 (V t) (X t)) (range1 v1 (V t) (X t))) ≠ 0 ∧
      chord v1 (gmid v1 (V t) (X t) (range0 v1 (V t) (X t)) (range1 v1 (V t) (X t))) ^ 2 ≠ 1e-21) (h5 : dotp v1 (V t) ≠ 0 ∧ chord v1 (V t) ^ 2 ≠ 1e-21) :
    HasDerivAt (fun s => errorSpec v1 (V s) (X s)) (dotp (triangulatedError v1 (V t) (X t)).2.1 V' + dotp (triangulatedError v1 (V t) (X t)).2.2 X') t := by
  have := triangulated_error_gradient v1 (V t) (X t) h1 h2 h3 h4.1 h4.2 h5.1 h5.2 V X V' X' t rfl rfl hV hX
  simpa only [triangulated_error_value] using this

/-- **C74**: the triangulated error, and its gradients with respect to the poses of the two cameras -/
theorem tri_residual_right (c0 c1 : Option (ℝ → RtV)) (c0' c1' : RtV) (v0 v1 : P3) (t : ℝ)
    (h0 : ∀ c, c0 = some c → HasDerivP (fun s => (c s).r) c0'.r t ∧ HasDerivP (fun s => (c s).t) c0'.t t)
    (h1 : ∀ c, c1 = some c → HasDerivP (fun s => (c s).r) c1'.r t ∧ HasDerivP (fun s => (c s).t) c1'.t t)
    (hreg : TriRegular (c0.map (· t)) (c1.map (· t)) v0 v1) :
    let r := triResidual (c0.map (· t)) (c1.map (· t)) v0 v1
    r.err = triRes (c0.map (· t)) (c1.map (· t)) v0 v1 ∧
    HasDerivAt (fun s => triRes (c0.map (· s)) (c1.map (· s)) v0 v1)
      (inner3 ⟨r.dr0 0, r.dr0 1, r.dr0 2⟩ c0'.r + inner3 ⟨r.dt0 0, r.dt0 1, r.dt0 2⟩ c0'.t + inner3 ⟨r.dr1 0, r.dr1 1, r.dr1 2⟩ c1'.r + inner3 ⟨r.dt1 0, r.dt1 1, r.dt1 2⟩ c1'.t) t := by
  obtain ⟨hap, hr0, hr1, hp, hb0, hb1, hm, hpp⟩ := hreg
  cases c0 with
  | none =>
    cases c1 with
    | none => simp at hap
    | some c1 =>
      obtain ⟨d1r, d1t⟩ := h1 c1 rfl
      have R1 := hr1 _ rfl
      have e0 : ∀ s, pointToCam (some (c1 s)) ⟨0, 0, 0⟩ = (c1 s).t := by
        intro s; simp only [pointToCam, rotP_zero]; simp [addP]
      simp only [Option.map_some, Option.map_none, dirToCam, dirToRef, positionOf, e0] at hp hb0 hb1 hm hpp
      simp only [Option.map_some, Option.map_none, triResidual, triRes, dirToCam, dirToRef, positionOf, e0, pick3_eta]
      have hv := rot_value (c1 t).r v0 false true true R1
      have V := rot_deriv false d1r (derivP_const v0 t) R1
      rw [hv]
      refine ⟨triangulated_error_value _ _ _, ?_⟩
      refine HasDerivAt.congr_deriv (err_deriv V d1t hp hb0 hb1 hm hpp) ?_
      simp only [vecMul_dot, mulVec_zero, dot_add]
      simp only [inner3, dotp]
      ring
  | some c0 =>
    obtain ⟨d0r, d0t⟩ := h0 c0 rfl
    have R0 := hr0 _ rfl
    have hn := rot_value (c0 t).r (c0 t).t true true true R0
    have hv0 := rot_value (c0 t).r v0 true true false R0
    have hJ : (rotatePointr (c0 t).r v0 true true false).Jr = (rotatePointr (c0 t).r v0 true true true).Jr := by
      have := (rotate_wants (c0 t).r v0 true true false).2.1
      simpa using this
    have N := rot_deriv true d0r d0t R0
    have V0 := rot_deriv true d0r (derivP_const v0 t) R0
    cases c1 with
    | none =>
      simp only [Option.map_some, Option.map_none, dirToCam, dirToRef, positionOf, pointToCam] at hp hb0 hb1 hm hpp
      simp only [Option.map_some, Option.map_none, triResidual, triRes, dirToCam, dirToRef, positionOf, pointToCam, pick3_eta]
      rw [hn, hv0, hJ]
      have en : ∀ p : P3, (⟨-p.x, -p.y, -p.z⟩ : P3) = negP p := fun p => rfl
      rw [en]
      refine ⟨triangulated_error_value _ _ _, ?_⟩
      refine HasDerivAt.congr_deriv (err_deriv V0 (derivP_neg N) hp hb0 hb1 hm hpp) ?_
      simp only [inner_sub, inner_neg, ← en, vecMul_dot, mulVec_zero, dot_add]
      simp only [en, dot_neg, dot_add]
      simp only [inner3, dotp]
      ring
    | some c1 =>
      obtain ⟨d1r, d1t⟩ := h1 c1 rfl
      have R1 := hr1 _ rfl
      simp only [Option.map_some, dirToCam, dirToRef, positionOf, pointToCam] at hp hb0 hb1 hm hpp
      have en : ∀ p : P3, (⟨-p.x, -p.y, -p.z⟩ : P3) = negP p := fun p => rfl
      have hX : ∀ x, (transformPointrt (c1 t) x false true true).x = addP (rotP (c1 t).r x false) (c1 t).t := by
        intro x
        have : (transformPointrt (c1 t) x false true true).x = addP (rotatePointr (c1 t).r x false true true).x (c1 t).t := rfl
        rw [this, rot_value _ _ _ _ _ R1]
      have hXr : ∀ x, (transformPointrt (c1 t) x false true true).Jrt.getD (identityR, identityR) = ((rotatePointr (c1 t).r x false true true).Jr.getD identityR, identityR) := fun x => rfl
      have hXx : ∀ x, (transformPointrt (c1 t) x false true true).Jx = (rotatePointr (c1 t).r x false true true).Jx := fun x => rfl
      have hV1 : ∀ x, (rotatePointr (c1 t).r x false true true).x = rotP (c1 t).r x false := fun x => rot_value _ _ _ _ _ R1
      have V := rot_deriv false d1r V0 R1
      have X := (rot_deriv false d1r (derivP_neg N) R1).add d1t
      simp only [Option.map_some, triResidual, triRes, dirToCam, dirToRef, positionOf, pointToCam, pick3_eta]
      simp only [hn, hv0, hJ, en, hX, hXr, hXx, hV1]
      refine ⟨triangulated_error_value _ _ _, ?_⟩
      refine HasDerivAt.congr_deriv (err_deriv V X hp hb0 hb1 hm hpp) ?_
      simp only [← en, inner_sub, inner_neg, inner_add, vecMul_dot, mulVec_zero, dot_add]
      simp only [en, dot_neg, dot_add, mulVec_neg, mulVec_add, mulVec_id, mulVec_zero, vecMul_dotp]
      have z : ∀ e : P3, dotp e ⟨0, 0, 0⟩ = 0 := fun e => by simp [dotp]
      rw [z]
      ring

/-- the entries of one camera in a triangulated row -/
theorem tri_cam_dot (d : Dims) (hs : d.sel.extrinsics = true) (icam : Int) (g h : Nat → ℝ) (v : Mem) :
    dotE (if icam ≥ 0 then
            store3 (stateIndexExtrinsics icam d + 0) (g 0 * scaleRotCamera) (g 1 * scaleRotCamera) (g 2 * scaleRotCamera) ++
            store3 (stateIndexExtrinsics icam d + 3) (h 0 * scaleTransCamera) (h 1 * scaleTransCamera) (h 2 * scaleTransCamera)
          else []) v = inner3 ⟨g 0, g 1, g 2⟩ (camRate d v icam).r + inner3 ⟨h 0, h 1, h 2⟩ (camRate d v icam).t := by
  have := camera_dot d icam g h 1 v
  simpa [hs] using this

theorem tri_zero_dot (d : Dims) (icam : Int) (v : Mem) :
    dotE (if icam ≥ 0 then store3 (stateIndexExtrinsics icam d + 0) 0 0 0 ++ store3 (stateIndexExtrinsics icam d + 3) 0 0 0 else []) v = 0 := by
  split
  · rw [dotE_append, dotE_store0, dotE_store0, add_zero]
  · rfl

variable {b : ℝ → Mem} {b' : Mem} {t : ℝ}

/-- **C74**: a triangulated measurement -/
theorem tri_row_right (P : Problem) (hP : P.Valid) (hb : ∀ j, HasDerivAt (fun s => b s j) (b' j) t) (o0 o1 : TriObs) (ho0 : o0 ∈ P.tri) (ho1 : o1 ∈ P.tri) (i0 i1 : Nat)
    (hreg : o0.outlier = false → o1.outlier = false →
      TriRegular (camOf (unpacked P.d P.seed (b t)) o0.icamE) (camOf (unpacked P.d P.seed (b t)) o1.icamE) (P.triV i0) (P.triV i1)) :
    RowOk P.d P.seed b b' t (triRow P.d o0 o1 (triResidual (camOpt P.d (b t) P.seed o0.icamE) (camOpt P.d (b t) P.seed o1.icamE) (P.triV i0) (P.triV i1))) (triPairRes P o0 o1 i0 i1) := by
  have hs := hP.triSel (List.ne_nil_of_mem ho0)
  have zero : (o0.outlier = true ∨ o1.outlier = true) → (triRow P.d o0 o1 (triResidual (camOpt P.d (b t) P.seed o0.icamE) (camOpt P.d (b t) P.seed o1.icamE) (P.triV i0) (P.triV i1))).x = 0 ∧
      dotE (triRow P.d o0 o1 (triResidual (camOpt P.d (b t) P.seed o0.icamE) (camOpt P.d (b t) P.seed o1.icamE) (P.triV i0) (P.triV i1))).entries b' = 0 := by
    intro h
    unfold triRow
    cases h0 : o0.outlier
    · cases h1 : o1.outlier
      · rw [h0, h1] at h; simp at h
      · simp only [Bool.not_false, if_true, Bool.not_true, Bool.false_eq_true, if_false]
        rw [dotE_append, tri_zero_dot, tri_zero_dot]; simp
    · simp only [Bool.not_true, Bool.false_eq_true, if_false]
      rw [dotE_append, tri_zero_dot, tri_zero_dot]; simp
  by_cases hout : o0.outlier = true ∨ o1.outlier = true
  · have hf : triPairRes P o0 o1 i0 i1 = fun _ => 0 := by funext Q; exact if_pos hout
    obtain ⟨z1, z2⟩ := zero hout
    rw [hf]
    exact ⟨z1, HasDerivAt.congr_deriv (hasDerivAt_const _ _) z2.symm⟩
  · have h0 : o0.outlier = false := by cases h : o0.outlier <;> simp_all
    have h1 : o1.outlier = false := by cases h : o1.outlier <;> simp_all
    have hC0 := fun s => camOpt_unpacked P.d hP.wf (b s) P.seed o0.icamE (hP.tri o0 ho0)
    have hC1 := fun s => camOpt_unpacked P.d hP.wf (b s) P.seed o1.icamE (hP.tri o1 ho1)
    have hr := hreg h0 h1
    rw [← hC0 t, ← hC1 t] at hr
    let cc (i : Int) : Option (ℝ → RtV) := if i < 0 then none else some fun s => cameraAt P.d (b s) P.seed i
    have hcc : ∀ i s, camOpt P.d (b s) P.seed i = (cc i).map (· s) := by
      intro i s
      simp only [camOpt, cc]
      split <;> rfl
    have hcd : ∀ i c, cc i = some c → HasDerivP (fun s => (c s).r) (camRate P.d b' i).r t ∧ HasDerivP (fun s => (c s).t) (camRate P.d b' i).t t := by
      intro i c hc
      simp only [cc] at hc
      split at hc
      · simp at hc
      · rename_i hi
        obtain rfl := Option.some.inj hc
        simp only [camRate, if_neg hi]
        exact camera_deriv P.d P.seed hb i
    rw [hcc, hcc] at hr
    obtain ⟨k1, k2⟩ := tri_residual_right (cc o0.icamE) (cc o1.icamE) (camRate P.d b' o0.icamE) (camRate P.d b' o1.icamE) (P.triV i0) (P.triV i1) t (hcd _) (hcd _) hr
    have hf : ∀ s, triPairRes P o0 o1 i0 i1 (unpacked P.d P.seed (b s)) = triRes ((cc o0.icamE).map (· s)) ((cc o1.icamE).map (· s)) (P.triV i0) (P.triV i1) := by
      intro s
      unfold triPairRes
      rw [if_neg hout, ← hC0 s, ← hC1 s, hcc, hcc]
    refine ⟨?_, ?_⟩
    · rw [hf t, ← k1, ← hcc, ← hcc]
      unfold triRow
      simp only [h0, h1, Bool.not_false, if_true]
    · simp only [hf]
      refine HasDerivAt.congr_deriv k2 ?_
      rw [← hcc, ← hcc]
      unfold triRow
      simp only [h0, h1, Bool.not_false, if_true]
      rw [dotE_append, tri_cam_dot _ hs, tri_cam_dot _ hs]
      ring

/-! ### regularization -/

/-- **Specification**: the unit vector from the center of the grid of knots to a knot; (1,0) at the center -/
noncomputable def knotU (ix iy Nx Ny : Int) : P2 :=
  let v : P2 := ⟨2 * ix - Nx + 1, 2 * iy - Ny + 1⟩
  if v.x = 0 ∧ v.y = 0 then ⟨1, 0⟩ else ⟨v.x / Real.sqrt (v.x ^ 2 + v.y ^ 2), v.y / Real.sqrt (v.x ^ 2 + v.y ^ 2)⟩

/-- **Specification**: splined models: the radial and the tangential components of each control point (camera icam, column ix, row iy). The tangential one is stronger, except at the center
where there's no tangential direction -/
noncomputable def knotRes (d : Dims) (icam ix iy Nx Ny : Int) : List (Params → ℝ) :=
  let u := knotU ix iy Nx Ny
  let du (Q : Params) : P2 := ⟨intrOf d Q icam (4 + 2 * (iy * Nx + ix)), intrOf d Q icam (4 + 2 * (iy * Nx + ix) + 1)⟩
  [fun Q => 0.01 * ((du Q).x * u.x + (du Q).y * u.y),
   fun Q => (if 2 * ix = Nx - 1 ∧ 2 * iy = Ny - 1 then 0.01 else 0.1) * ((du Q).x * u.y - (du Q).y * u.x)]

/-- **Specification**: other models: each coefficient. The denominators of the rational models, k4 k5 k6, are regularized more -/
noncomputable def coeffRes (d : Dims) (icam j : Int) (Q : Params) : ℝ :=
  (if (d.lens = .opencv8 ∨ d.lens = .opencv12) ∧ (j = 5 ∨ j = 6 ∨ j = 7) then 0.5 else 0.1) * intrOf d Q icam (4 + j)

/-- **Specification**: the optical center, relative to the center of the imager; scaled by the width of the first imager -/
noncomputable def centerRes (P : Problem) (icam : Int) : List (Params → ℝ) :=
  [fun Q => (intrOf P.d Q icam 2 - (P.imagersizes (icam * 2) - 1) / 2) / P.imagersizes 0,
   fun Q => (intrOf P.d Q icam 3 - (P.imagersizes (icam * 2 + 1) - 1) / 2) / P.imagersizes 0]

/-- **Specification**: the distance between the first camera and the reference should be 1 -/
noncomputable def unityRes (Q : Params) : ℝ := 10 * (Q (.cam 0 3) ^ 2 + Q (.cam 0 4) ^ 2 + Q (.cam 0 5) ^ 2 - 1)

/-- **Specification**: all of these, in order -/
noncomputable def regResiduals (P : Problem) : List (Params → ℝ) :=
  (if P.d.sel.regularization && P.d.sel.distortions then
    match P.d.lens with
    | .splined _ Nx Ny _ => (loop P.d.Nci).flatMap fun icam => (loop Ny).flatMap fun iy => (loop Nx).flatMap fun ix => knotRes P.d icam ix iy Nx Ny
    | L => (loop P.d.Nci).flatMap fun icam => (loop (L.numParams - 4)).map fun j => coeffRes P.d icam j
   else []) ++
  (if P.d.sel.regularization && P.d.sel.core then (loop P.d.Nci).flatMap fun icam => centerRes P icam else []) ++
  (if P.d.sel.unityCam01 && P.d.sel.extrinsics && decide (0 < P.d.Nce) then [unityRes] else [])

theorem knot_dir (ix iy Nx Ny : Int) : knotDirection ix iy Nx Ny = ((knotU ix iy Nx Ny).x, (knotU ix iy Nx Ny).y, !decide (2 * ix = Nx - 1 ∧ 2 * iy = Ny - 1)) := by
  unfold knotDirection knotU
  simp only []
  by_cases h : 2 * ix = Nx - 1 ∧ 2 * iy = Ny - 1
  · rw [if_pos h]
    have h1 : (2 * (ix : ℝ) - Nx + 1) = 0 := by have := congrArg (Int.cast (R := ℝ)) h.1; push_cast at this; linarith
    have h2 : (2 * (iy : ℝ) - Ny + 1) = 0 := by have := congrArg (Int.cast (R := ℝ)) h.2; push_cast at this; linarith
    rw [h1, h2, if_pos ⟨rfl, rfl⟩]
    push_cast
    rw [h2]
    simp [h]
  · rw [if_neg h]
    have hne : ¬ (2 * (ix : ℝ) - Nx + 1 = 0 ∧ 2 * (iy : ℝ) - Ny + 1 = 0) := by
      intro he
      refine h ⟨?_, ?_⟩
      · have : ((2 * ix - Nx + 1 : Int) : ℝ) = 0 := by push_cast; exact he.1
        have := Int.cast_eq_zero.mp this
        omega
      · have : ((2 * iy - Ny + 1 : Int) : ℝ) = 0 := by push_cast; exact he.2
        have := Int.cast_eq_zero.mp this
        omega
    rw [if_neg hne]
    push_cast
    simp only [pow_two]
    simp [h]

theorem forall₂_map_same {α β γ : Type _} {R : β → γ → Prop} (l : List α) (f : α → β) (g : α → γ) (h : ∀ a ∈ l, R (f a) (g a)) : List.Forall₂ R (l.map f) (l.map g) := by
  induction l with
  | nil => exact List.Forall₂.nil
  | cons a l ih => exact List.Forall₂.cons (h a (by simp)) (ih fun x hx => h x (by simp [hx]))

theorem forall₂_append {β γ : Type _} {R : β → γ → Prop} {a c : List β} {x y : List γ} (h : List.Forall₂ R a x) (h' : List.Forall₂ R c y) : List.Forall₂ R (a ++ c) (x ++ y) := by
  induction h with
  | nil => exact h'
  | cons h _ ih => exact List.Forall₂.cons h ih

theorem forall₂_flatMap_same {α β γ : Type _} {R : β → γ → Prop} (l : List α) (f : α → List β) (g : α → List γ) (h : ∀ a ∈ l, List.Forall₂ R (f a) (g a)) :
    List.Forall₂ R (l.flatMap f) (l.flatMap g) := by
  induction l with
  | nil => exact List.Forall₂.nil
  | cons a l ih =>
    rw [List.flatMap_cons, List.flatMap_cons]
    exact forall₂_append (h a (by simp)) (ih fun x hx => h x (by simp [hx]))

theorem knot_index {Nx Ny ix iy : Int} (hx : 0 ≤ ix ∧ ix < Nx) (hy : 0 ≤ iy ∧ iy < Ny) : 0 ≤ iy * Nx + ix ∧ iy * Nx + ix < Nx * Ny := by
  have h1 : 0 ≤ iy * Nx := Int.mul_nonneg hy.1 (by omega)
  have h2 : (iy + 1) * Nx ≤ Ny * Nx := Int.mul_le_mul_of_nonneg_right (by omega) (by omega)
  rw [add_mul, one_mul, mul_comm Ny] at h2
  omega

/-- **C74**: the regularization measurements -/
theorem reg_rows_right (P : Problem) (hP : P.Valid) (hb : ∀ j, HasDerivAt (fun s => b s j) (b' j) t) (hsize : P.d.sel.regularization = true → P.imagersizes 0 ≠ 0) :
    List.Forall₂ (RowOk P.d P.seed b b' t) (regDistortionRows (P.ctx (b t)) ++ regCenterRows (P.ctx (b t)) ++ regUnityRows (P.ctx (b t))) (regResiduals P) := by
  have hI := fun s icam h0 h1 => intrinsics_unpacked P.d hP.wf (b s) P.seed icam h0 h1
  have hId := fun icam k => intrinsics_deriv P.d P.seed hb icam k
  unfold regResiduals
  refine forall₂_append (forall₂_append ?_ ?_) ?_
  · unfold regDistortionRows
    have hd : (P.ctx (b t)).d = P.d := rfl
    rw [hd]
    by_cases hsel : (P.d.sel.regularization && P.d.sel.distortions) = true
    · rw [if_pos hsel, if_pos hsel]
      simp only [Bool.and_eq_true] at hsel
      have gen : ∀ L : Lens, P.d.lens = L → List.Forall₂ (RowOk P.d P.seed b b' t)
          ((loop P.d.Nci).flatMap fun icam => (loop (L.numParams - Ncore L)).map fun j =>
            ({ x := (if isRationalDenominator L j then 0.1 / 1 * 5 else 0.1 / 1) * intrinsicsAt P.d (b t) P.seed icam (j + Ncore L)
               entries := [(stateIndexIntrinsics icam P.d + NcoreState P.d + j, (if isRationalDenominator L j then 0.1 / 1 * 5 else 0.1 / 1) * scaleDistortion)] } : Row))
          ((loop P.d.Nci).flatMap fun icam => (loop (L.numParams - 4)).map fun j => coeffRes P.d icam j) := by
        intro L hL
        rw [ncore4]
        refine forall₂_flatMap_same _ _ _ fun icam hic => forall₂_map_same _ _ _ fun j hj => ?_
        rw [mem_loop] at hic hj
        have hsc : (if isRationalDenominator L j then (0.1 : ℝ) / 1 * 5 else 0.1 / 1) = if (P.d.lens = .opencv8 ∨ P.d.lens = .opencv12) ∧ (j = 5 ∨ j = 6 ∨ j = 7) then 0.5 else 0.1 := by
          have hiff : isRationalDenominator L j = true ↔ (P.d.lens = .opencv8 ∨ P.d.lens = .opencv12) ∧ (j = 5 ∨ j = 6 ∨ j = 7) := by
            rw [hL]
            unfold isRationalDenominator
            have : (5 ≤ j ∧ j ≤ 7) ↔ (j = 5 ∨ j = 6 ∨ j = 7) := by omega
            cases L <;> simp <;> exact this
          by_cases h : (P.d.lens = .opencv8 ∨ P.d.lens = .opencv12) ∧ (j = 5 ∨ j = 6 ∨ j = 7)
          · rw [if_pos h, if_pos (hiff.mpr h)]; norm_num
          · rw [if_neg h, if_neg (fun h' => h (hiff.mp h'))]; norm_num
        have hf : ∀ s, coeffRes P.d icam j (unpacked P.d P.seed (b s)) = (if (P.d.lens = .opencv8 ∨ P.d.lens = .opencv12) ∧ (j = 5 ∨ j = 6 ∨ j = 7) then 0.5 else 0.1) *
            intrinsicsAt P.d (b s) P.seed icam (4 + j) := by
          intro s
          unfold coeffRes
          rw [hI s icam hic.1 hic.2]
        refine ⟨?_, ?_⟩
        · simp only []
          rw [hf t, hsc, add_comm j]
        · simp only [hf]
          refine HasDerivAt.congr_deriv ((hId icam (4 + j)).const_mul _) ?_
          rw [dist_rate P.d b' icam (4 + j) (by omega) (by rw [hL]; omega), hsel.2, if_pos rfl, dotE_cons, dotE_nil, hsc, show (4 + j) - 4 = j by omega]
          ring
      cases hL : P.d.lens with
      | splined order Nx Ny fov =>
        refine forall₂_flatMap_same _ _ _ fun icam hic => forall₂_flatMap_same _ _ _ fun iy hy => forall₂_flatMap_same _ _ _ fun ix hx => ?_
        rw [mem_loop] at hic hx hy
        have hk := knot_index hx hy
        have hnp : P.d.lens.numParams = 4 + 2 * ((Nx : Int) * Ny) := by rw [hL, numParams_splined]
        have r0 := dist_rate P.d b' icam (4 + 2 * (iy * Nx + ix)) (by omega) (by rw [hnp]; omega)
        have r1 := dist_rate P.d b' icam (4 + 2 * (iy * Nx + ix) + 1) (by omega) (by rw [hnp]; omega)
        rw [hsel.2, if_pos rfl] at r0 r1
        have e0 : stateIndexIntrinsics icam P.d + NcoreState P.d + 2 * (iy * Nx + ix) + 0 = stateIndexIntrinsics icam P.d + NcoreState P.d + (4 + 2 * (iy * Nx + ix) - 4) := by ring
        have e1 : stateIndexIntrinsics icam P.d + NcoreState P.d + 2 * (iy * Nx + ix) + 1 = stateIndexIntrinsics icam P.d + NcoreState P.d + (4 + 2 * (iy * Nx + ix) + 1 - 4) := by ring
        have d0 := hId icam (4 + 2 * (iy * Nx + ix))
        have d1 := hId icam (4 + 2 * (iy * Nx + ix) + 1)
        rw [r0] at d0
        rw [r1] at d1
        have hv := fun s => hI s icam hic.1 hic.2
        unfold knotRows knotRes
        simp only [knot_dir]
        refine List.Forall₂.cons ⟨?_, ?_⟩ (List.Forall₂.cons ⟨?_, ?_⟩ List.Forall₂.nil)
        · simp only [Problem.ctx, ncore4, add_zero, ← hv t]
          norm_num
        · simp only [← hv]
          refine HasDerivAt.congr_deriv (((d0.mul_const _).add (d1.mul_const _)).const_mul _) ?_
          rw [dotE_cons, dotE_cons, dotE_nil]
          simp only [e0, e1]
          ring
        · simp only [Problem.ctx, ncore4, add_zero, ← hv t]
          by_cases hc : 2 * ix = (Nx : Int) - 1 ∧ 2 * iy = (Ny : Int) - 1
          · simp only [hc, and_self, decide_true, Bool.not_true, Bool.false_eq_true, if_false, if_true]; norm_num
          · simp only [hc, decide_false, Bool.not_false, if_true, if_false]; norm_num
        · simp only [← hv]
          refine HasDerivAt.congr_deriv (((d0.mul_const _).sub (d1.mul_const _)).const_mul _) ?_
          rw [dotE_cons, dotE_cons, dotE_nil]
          simp only [e0, e1]
          by_cases hc : 2 * ix = (Nx : Int) - 1 ∧ 2 * iy = (Ny : Int) - 1
          · simp only [hc, and_self, decide_true, Bool.not_true, Bool.false_eq_true, if_false, if_true]; ring
          · simp only [hc, decide_false, Bool.not_false, if_true, if_false]; ring
      | _ => exact gen _ hL
    · rw [if_neg hsel, if_neg hsel]
      exact List.Forall₂.nil
  · unfold regCenterRows
    have hd : (P.ctx (b t)).d = P.d := rfl
    rw [hd, hasCore, Bool.and_true]
    by_cases hsel : (P.d.sel.regularization && P.d.sel.core) = true
    · rw [if_pos hsel, if_pos hsel]
      simp only [Bool.and_eq_true] at hsel
      have hne := hsize hsel.1
      refine forall₂_flatMap_same _ _ _ fun icam hic => ?_
      rw [mem_loop] at hic
      have r2 := core_rate P.d b' icam 2 (by decide) (by decide)
      have r3 := core_rate P.d b' icam 3 (by decide) (by decide)
      rw [hsel.2, if_pos rfl, if_neg (by decide)] at r2 r3
      have d2 := hId icam 2
      have d3 := hId icam 3
      rw [r2] at d2
      rw [r3] at d3
      have hv := fun s => hI s icam hic.1 hic.2
      unfold centerRes
      refine List.Forall₂.cons ⟨?_, ?_⟩ (List.Forall₂.cons ⟨?_, ?_⟩ List.Forall₂.nil)
      · simp only [Problem.ctx, add_zero, ← hv t]
        field_simp
        ring
      · simp only [← hv]
        refine HasDerivAt.congr_deriv ((d2.sub_const _).div_const _) ?_
        rw [dotE_cons, dotE_nil]
        simp only [Problem.ctx]
        field_simp
        ring
      · simp only [Problem.ctx, ← hv t]
        field_simp
        ring
      · simp only [← hv]
        refine HasDerivAt.congr_deriv ((d3.sub_const _).div_const _) ?_
        rw [dotE_cons, dotE_nil]
        simp only [Problem.ctx]
        field_simp
        ring
    · rw [if_neg hsel, if_neg hsel]
      exact List.Forall₂.nil
  · unfold regUnityRows
    have hd : (P.ctx (b t)).d = P.d := rfl
    rw [hd]
    by_cases hsel : (P.d.sel.unityCam01 && P.d.sel.extrinsics && decide (0 < P.d.Nce)) = true
    · rw [if_pos hsel, if_pos hsel]
      simp only [Bool.and_eq_true, decide_eq_true_eq] at hsel
      have hc := fun s => camera_unpacked P.d hP.wf (b s) P.seed 0 (by decide) hsel.2
      obtain ⟨-, hct⟩ := camera_deriv P.d P.seed hb 0
      have hf : ∀ s, unityRes (unpacked P.d P.seed (b s)) = 10 * ((cameraAt P.d (b s) P.seed 0).t.x ^ 2 + (cameraAt P.d (b s) P.seed 0).t.y ^ 2 + (cameraAt P.d (b s) P.seed 0).t.z ^ 2 - 1) := by
        intro s
        rw [hc s]
        rfl
      refine List.Forall₂.cons ⟨?_, ?_⟩ List.Forall₂.nil
      · rw [hf t]
        simp only [Problem.ctx, pick3]
        norm_num
        ring
      · simp only [hf]
        have k := ((((hct.1.pow 2).add (hct.2.1.pow 2)).add (hct.2.2.pow 2)).sub_const 1).const_mul 10
        refine HasDerivAt.congr_deriv k ?_
        rw [dotE_loop]
        simp only [show (3 : Int).toNat = 3 by decide, Finset.sum_range_succ, Finset.sum_range_zero]
        have hr : (cameraAt P.d b' zeroP 0).t = (unpackPose scaleRotCamera scaleTransCamera b' (stateIndexExtrinsics 0 P.d)).t := by
          unfold cameraAt; rw [hsel.1.2, if_pos rfl]
        rw [hr]
        simp only [Problem.ctx, pick3, unpackPose]
        simp
        rw [add_assoc _ 3 1, add_assoc _ 3 2]
        norm_num
        ring
    · rw [if_neg hsel, if_neg hsel]
      exact List.Forall₂.nil

end Mrcal.Callback
