import Verif.Props.JacobianParamsProps

/-! # C74: each row of the Jacobian, as a linear function of the rates of change of the packed state -/

namespace Mrcal.Callback
open Mrcal Mrcal.Pack Mrcal.Pose Mrcal.Project Mrcal.StateLayout Mrcal.Cam

/-- **Specification**: a sparse row times a vector -/
def dotE (l : List (Int × ℝ)) (v : Mem) : ℝ := (l.map fun e => e.2 * v e.1).sum

theorem dotE_nil (v : Mem) : dotE [] v = 0 := rfl
theorem dotE_cons (e : Int × ℝ) (l : List (Int × ℝ)) (v : Mem) : dotE (e :: l) v = e.2 * v e.1 + dotE l v := by simp [dotE]
theorem dotE_append (l m : List (Int × ℝ)) (v : Mem) : dotE (l ++ m) v = dotE l v + dotE m v := by simp [dotE]
theorem dotE_store3 (c : Int) (a0 a1 a2 : ℝ) (v : Mem) : dotE (store3 c a0 a1 a2) v = a0 * v (c + 0) + a1 * v (c + 1) + a2 * v (c + 2) := by
  simp [dotE, store3]; ring
theorem dotE_zero (l : List (Int × ℝ)) (v : Mem) (h : ∀ e ∈ l, e.2 = 0) : dotE l v = 0 := by
  unfold dotE
  refine List.sum_eq_zero ?_
  intro x hx
  obtain ⟨e, he, rfl⟩ := List.mem_map.mp hx
  rw [h e he, zero_mul]

theorem dotE_loop (n : Int) (c : Int → Int) (g : Int → ℝ) (v : Mem) :
    dotE ((loop n).map fun i => (c i, g i)) v = ∑ i ∈ Finset.range n.toNat, g i * v (c i) := by
  unfold dotE loop
  rw [List.map_map, List.map_map, Finset.sum_range]
  rw [← List.sum_ofFn]
  congr 1
  rw [List.ofFn_eq_map, ← List.map_coe_finRange_eq_range, List.map_map]
  rfl

theorem dotE_flatMap (n : Int) (f : Int → List (Int × ℝ)) (v : Mem) :
    dotE ((loop n).flatMap f) v = ∑ i ∈ Finset.range n.toNat, dotE (f i) v := by
  unfold loop
  generalize n.toNat = m
  induction m with
  | zero => simp [dotE]
  | succ m ih =>
    rw [List.range_succ, List.map_append, List.flatMap_append, dotE_append, ih, Finset.sum_range_succ]
    simp

theorem numParams_splined (order Nx Ny fov : Nat) : (Lens.splined order Nx Ny fov).numParams = 4 + 2 * ((Nx : Int) * Ny) := by
  simp [Lens.numParams]; ring

/-- the rates of change of the distortion parameters -/
theorem dist_rate (d : Dims) (v : Mem) (icam k : Int) (h4 : 4 ≤ k) (hk : k < d.lens.numParams) :
    intrinsicsAt d v zeroP icam k = if d.sel.distortions then v (stateIndexIntrinsics icam d + NcoreState d + (k - 4)) * scaleDistortion else 0 := by
  unfold intrinsicsAt
  simp only [ncore4]
  rw [if_neg (by omega), if_neg (by omega)]
  rfl

theorem core_rate (d : Dims) (v : Mem) (icam k : Int) (h0 : 0 ≤ k) (hk : k < 4) :
    intrinsicsAt d v zeroP icam k = if d.sel.core then v (stateIndexIntrinsics icam d + k) * (if k < 2 then scaleFocal else scaleCenter) else 0 := by
  have h4 := numParams_ge4 d.lens
  unfold intrinsicsAt
  simp only [ncore4]
  rw [if_neg (by omega), if_pos (by omega)]
  rfl

theorem intrinsics_dot (d : Dims) (hv : ValidLens d.lens) (icam : Int) (intr : Int → ℝ) (pt : P3) (o : Project.Out) (fxy : Nat → ℝ) (w : ℝ) (xy : Nat) (hxy : xy < 2)
    (v : Mem) :
    dotE (intrinsicsEntries d (stateIndexIntrinsics icam d) (mkProj d.lens intr pt o) fxy w xy) v =
      w * intrRate d.lens (mkProj d.lens intr pt o) (fxy xy) (intrinsicsAt d v zeroP icam) xy := by
  have hcore : ∀ p : Proj, dotE (if d.sel.core then [(stateIndexIntrinsics icam d + xy, p.dfxy xy * w * scaleFocal), (stateIndexIntrinsics icam d + xy + 2, w * scaleCenter)] else []) v =
      w * (p.dfxy xy * intrinsicsAt d v zeroP icam xy + intrinsicsAt d v zeroP icam (xy + 2)) := by
    intro p
    rw [core_rate d v icam xy (by omega) (by omega), core_rate d v icam (xy + 2) (by omega) (by omega)]
    cases d.sel.core
    · simp [dotE_nil]
    · simp only [if_true]
      rw [if_pos (by omega), if_neg (by omega), dotE_cons, dotE_cons, dotE_nil, ← add_assoc (stateIndexIntrinsics icam d)]
      ring
  unfold intrinsicsEntries intrRate
  rw [dotE_append, hcore]
  conv_rhs => rw [mul_add]
  congr 1
  have nc : NcoreState d = if d.sel.core then 4 else 0 := by unfold NcoreState; rw [hasCore]; simp
  have gen : ∀ L : Lens, d.lens = L → (∀ a b c e, L ≠ .splined a b c e) → ∀ p : Proj,
      dotE (if d.sel.distortions then (loop (L.numParams - Ncore L)).map fun i => (stateIndexIntrinsics icam d + NcoreState d + i, p.nocore xy i * w * scaleDistortion) else []) v =
      w * ∑ i ∈ Finset.range (L.numParams.toNat - 4), p.nocore xy i * intrinsicsAt d v zeroP icam (4 + i) := by
    intro L hL _ p
    have h4 := numParams_ge4 L
    have hd : ∀ i ∈ Finset.range (L.numParams.toNat - 4), p.nocore xy i * intrinsicsAt d v zeroP icam (4 + i) =
        if d.sel.distortions then p.nocore xy i * (v (stateIndexIntrinsics icam d + NcoreState d + i) * scaleDistortion) else 0 := by
      intro i hi
      have := Finset.mem_range.mp hi
      rw [dist_rate d v icam _ (by omega) (by rw [hL]; omega), show (4 + (i : Int)) - 4 = i by omega]
      cases d.sel.distortions <;> simp
    rw [Finset.sum_congr rfl hd]
    cases d.sel.distortions
    · simp [dotE_nil]
    · simp only [if_true]
      rw [dotE_loop, ncore4, Finset.mul_sum, show (L.numParams - 4).toNat = L.numParams.toNat - 4 by omega]
      refine Finset.sum_congr rfl fun i _ => ?_
      ring
  have spl : ∀ order Nx Ny fov, d.lens = .splined order Nx Ny fov → ∀ p : Proj,
      (∀ r c : Int, 0 ≤ r ∧ r < (order + 1 : Nat) → 0 ≤ c ∧ c < (order + 1 : Nat) → 4 ≤ p.ivar0 + (r * (2 * Nx) + c * 2 + xy) ∧
        p.ivar0 + (r * (2 * Nx) + c * 2 + xy) < 4 + 2 * ((Nx : Int) * Ny)) →
      dotE (if d.sel.distortions then storeSpline (order + 1) (stateIndexIntrinsics icam d + (p.ivar0 - (if d.sel.core then 0 else 4))) (2 * Nx) xy
        fun ix iy => p.ABCDx ix.toNat * p.ABCDy iy.toNat * fxy xy * w * scaleDistortion else []) v =
      w * (fxy xy * Spline.patch (order + 1) p.ABCDx p.ABCDy p.ivar0 Nx xy (intrinsicsAt d v zeroP icam)) := by
    intro order Nx Ny fov hL p hb
    unfold Spline.patch
    have hd : ∀ r ∈ Finset.range (order + 1), ∀ c ∈ Finset.range (order + 1),
        intrinsicsAt d v zeroP icam (p.ivar0 + ((r : Int) * (2 * Nx) + c * 2 + xy)) =
        if d.sel.distortions then v (stateIndexIntrinsics icam d + (p.ivar0 - (if d.sel.core then 0 else 4)) + (r : Int) * (2 * Nx) + (c : Int) * 2 + xy) * scaleDistortion else 0 := by
      intro r hr c hc
      rw [Finset.mem_range] at hr hc
      have := hb r c (by omega) (by omega)
      rw [dist_rate d v icam _ this.1 (by rw [hL, numParams_splined]; exact this.2), nc]
      congr 3
      cases d.sel.core
      · simp; ring
      · simp; ring
    cases hdist : d.sel.distortions
    · simp only [hdist] at hd
      simp only [Bool.false_eq_true, if_false, dotE_nil]
      rw [eq_comm]
      rw [Finset.sum_eq_zero, mul_zero, mul_zero]
      intro r hr
      rw [Finset.sum_eq_zero, mul_zero]
      intro c hc
      rw [hd r hr c hc]
      simp
    · simp only [hdist, if_true] at hd ⊢
      unfold storeSpline
      rw [dotE_flatMap, Finset.mul_sum, Finset.mul_sum, show ((order : Int) + 1).toNat = order + 1 by omega]
      refine Finset.sum_congr rfl fun r hr => ?_
      rw [dotE_loop, Finset.mul_sum, Finset.mul_sum, Finset.mul_sum, show ((order : Int) + 1).toNat = order + 1 by omega]
      refine Finset.sum_congr rfl fun c hc => ?_
      rw [hd r hr c hc]
      simp only [Int.toNat_natCast]
      ring
  have bound : ∀ order Nx Ny fov, d.lens = .splined order Nx Ny fov → ∀ r c : Int, 0 ≤ r ∧ r < (order + 1 : Nat) → 0 ≤ c ∧ c < (order + 1 : Nat) →
      4 ≤ (mkProj d.lens intr pt o).ivar0 + (r * (2 * Nx) + c * 2 + xy) ∧ (mkProj d.lens intr pt o).ivar0 + (r * (2 * Nx) + c * 2 + xy) < 4 + 2 * ((Nx : Int) * Ny) := by
    intro order Nx Ny fov hL r c hr hc
    rw [hL] at hv ⊢
    exact Spline.ivar0_in_bounds order Nx Ny hv _ _ xy r c (by omega) hr hc
  generalize mkProj d.lens intr pt o = p at *
  cases hL : d.lens with
  | splined order Nx Ny fov => exact spl order Nx Ny fov hL p (bound order Nx Ny fov hL)
  | _ => exact gen _ hL (by simp) p

/-- 0 for a camera at the reference -/
noncomputable def camRate (d : Dims) (v : Mem) (icam : Int) : RtV := if icam < 0 then ⟨⟨0, 0, 0⟩, ⟨0, 0, 0⟩⟩ else cameraAt d v zeroP icam

theorem pose_dot (SR ST : ℝ) (g h : Nat → ℝ) (w : ℝ) (i : Int) (v : Mem) :
    dotE (store3 (i + 0) (g 0 * w * SR) (g 1 * w * SR) (g 2 * w * SR) ++ store3 (i + 3) (h 0 * w * ST) (h 1 * w * ST) (h 2 * w * ST)) v =
      w * (inner3 ⟨g 0, g 1, g 2⟩ (unpackPose SR ST v i).r + inner3 ⟨h 0, h 1, h 2⟩ (unpackPose SR ST v i).t) := by
  rw [dotE_append, dotE_store3, dotE_store3]
  simp only [unpackPose, inner3, add_zero, add_assoc, show (3 : Int) + 1 = 4 by decide, show (3 : Int) + 2 = 5 by decide]
  ring

theorem row_eta (r : Project.Rows) (xy : Nat) : (⟨pickRow r xy 0, pickRow r xy 1, pickRow r xy 2⟩ : P3) = if xy = 0 then r.x else r.y := by
  unfold pickRow pick3
  simp

theorem camera_dot (d : Dims) (icam : Int) (g h : Nat → ℝ) (w : ℝ) (v : Mem) :
    dotE (if d.sel.extrinsics then
          if icam ≥ 0 then
            store3 (stateIndexExtrinsics icam d + 0) (g 0 * w * scaleRotCamera) (g 1 * w * scaleRotCamera) (g 2 * w * scaleRotCamera) ++
            store3 (stateIndexExtrinsics icam d + 3) (h 0 * w * scaleTransCamera) (h 1 * w * scaleTransCamera) (h 2 * w * scaleTransCamera)
          else []
         else []) v = w * (inner3 ⟨g 0, g 1, g 2⟩ (camRate d v icam).r + inner3 ⟨h 0, h 1, h 2⟩ (camRate d v icam).t) := by
  unfold camRate cameraAt
  cases d.sel.extrinsics
  · simp only [Bool.false_eq_true, if_false, dotE_nil]
    split <;> simp [poseAt, zeroP, inner3]
  · simp only [if_true]
    by_cases h0 : icam < 0
    · rw [if_neg (by omega), if_pos h0]; simp [inner3, dotE_nil]
    · rw [if_pos (by omega), if_neg h0, pose_dot]

theorem frame_dot (d : Dims) (i : Int) (g h : Nat → ℝ) (w : ℝ) (v : Mem) :
    dotE (if d.sel.frames then
            store3 (stateIndexFrames i d + 0) (g 0 * w * scaleRotFrame) (g 1 * w * scaleRotFrame) (g 2 * w * scaleRotFrame) ++
            store3 (stateIndexFrames i d + 3) (h 0 * w * scaleTransFrame) (h 1 * w * scaleTransFrame) (h 2 * w * scaleTransFrame)
         else []) v = w * (inner3 ⟨g 0, g 1, g 2⟩ (frameAt d v zeroP i).r + inner3 ⟨h 0, h 1, h 2⟩ (frameAt d v zeroP i).t) := by
  unfold frameAt
  cases d.sel.frames
  · simp [dotE_nil, poseAt, zeroP, inner3]
  · simp only [if_true]
    rw [pose_dot]

theorem point_dot (d : Dims) (i : Int) (g : Nat → ℝ) (w : ℝ) (v : Mem) :
    dotE (if d.sel.frames && decide (i < d.Npoints - d.NpointsFixed) then store3 (stateIndexPoints i d) (g 0 * w * scalePoint) (g 1 * w * scalePoint) (g 2 * w * scalePoint) else []) v =
      w * inner3 ⟨g 0, g 1, g 2⟩ (pointAt d v zeroP i) := by
  unfold pointAt
  cases (d.sel.frames && decide (i < d.Npoints - d.NpointsFixed))
  · simp [dotE_nil, zeroP, inner3]
  · simp only [if_true]
    rw [dotE_store3]
    simp only [inner3]
    ring

theorem warp_dot (d : Dims) (g : Int → ℝ) (w : ℝ) (v : Mem) (given : Bool) :
    dotE (if hasCalobjectWarp d.sel d.Nob then (loop 2).map fun i => (stateIndexWarp d + i, w * scaleWarp * g i) else []) v =
      w * (g 0 * (warpAt d v zeroP given).x + g 1 * (warpAt d v zeroP given).y) := by
  unfold warpAt
  cases hasCalobjectWarp d.sel d.Nob
  · cases given <;> simp [dotE_nil, zeroP]
  · simp only [if_true]
    rw [dotE_loop]
    simp only [show (2 : Int).toNat = 2 by decide, Finset.sum_range_succ, Finset.sum_range_zero]
    push_cast
    ring

/-- the row of an inlier corner -/
theorem board_dot (P : Problem) (hv : ValidLens P.d.lens) (b v : Mem) (o : BoardObs) (ipt xy : Nat) (hxy : xy < 2) (hw : 0 ≤ o.weight ipt) (pt : P3) (out : Project.Out)
    (fxy : Nat → ℝ) (intr : Int → ℝ) :
    dotE (boardRow P.d o (mkProj P.d.lens intr pt out) fxy ipt xy).entries v =
      o.weight ipt * (pick2 (rate out (camRate P.d v o.icamE).r (camRate P.d v o.icamE).t (frameAt P.d v zeroP o.iframe).r (frameAt P.d v zeroP o.iframe).t
          (warpAt P.d v zeroP P.warpGiven)) xy +
        intrRate P.d.lens (mkProj P.d.lens intr pt out) (fxy xy) (intrinsicsAt P.d v zeroP o.icamI) xy) := by
  unfold boardRow
  simp only [ge_iff_le, hw, if_true]
  rw [dotE_append, dotE_append, dotE_append, intrinsics_dot _ hv _ _ _ _ _ _ _ hxy, camera_dot, frame_dot, warp_dot _ _ _ _ P.warpGiven]
  have e : ∀ r : Project.Rows, (⟨pickRow r xy 0, pickRow r xy 1, pickRow r xy 2⟩ : P3) = if xy = 0 then r.x else r.y := fun r => row_eta r xy
  generalize intrRate _ _ _ _ _ = R
  simp only [mkProj, e]
  have : xy = 0 ∨ xy = 1 := by omega
  rcases this with rfl | rfl <;> simp [rate, pick2] <;> ring

/-- the row of an inlier point -/
theorem point_row_dot (P : Problem) (hv : ValidLens P.d.lens) (b v : Mem) (o : PointObs) (xy : Nat) (hxy : xy < 2) (hw : 0 < o.weight) (pt : P3) (out : Project.Out)
    (fxy : Nat → ℝ) (intr : Int → ℝ) :
    dotE (pointRow P.d o (mkProj P.d.lens intr pt out) fxy xy).entries v =
      o.weight * (pick2 (rate out (camRate P.d v o.icamE).r (camRate P.d v o.icamE).t ⟨0, 0, 0⟩ (pointAt P.d v zeroP o.ipoint) ⟨0, 0⟩) xy +
        intrRate P.d.lens (mkProj P.d.lens intr pt out) (fxy xy) (intrinsicsAt P.d v zeroP o.icamI) xy) := by
  unfold pointRow
  simp only [not_le.mpr hw, if_false]
  rw [dotE_append, dotE_append, intrinsics_dot _ hv _ _ _ _ _ _ _ hxy, camera_dot, point_dot]
  have e : ∀ r : Project.Rows, (⟨pickRow r xy 0, pickRow r xy 1, pickRow r xy 2⟩ : P3) = if xy = 0 then r.x else r.y := fun r => row_eta r xy
  generalize intrRate _ _ _ _ _ = R
  simp only [mkProj, e]
  have : xy = 0 ∨ xy = 1 := by omega
  rcases this with rfl | rfl <;> simp [rate, pick2, inner3] <;> ring

end Mrcal.Callback
