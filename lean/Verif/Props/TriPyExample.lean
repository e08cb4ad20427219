import Verif.Props.TriPyAvail
/-
C94: a concrete case. Two pinhole cameras. Camera 0 is at the reference, and observes two points; camera 1 observes seven points. The points are fixed. The intrinsics of both cameras and the pose of camera 1 are solved for
-/
namespace Mrcal.TriPy
open Mrcal Mrcal.Cam Mrcal.Pose Mrcal.Tri Mrcal.AD Mrcal.Callback Mrcal.Pack Mrcal.StateLayout Mrcal.Propagate Mrcal.Uncertainty Mrcal.ProjUnc Mrcal.UnprojectPy Mrcal.Project Matrix MeasureTheory

/-- the cameras, poses, points of each observation; and the point in the coordinates of the camera -/
def tCam (j : Nat) : Int := if j < 7 then 1 else 0
def tExt (j : Nat) : Int := if j < 7 then 0 else -1
def tIdx (j : Nat) : Nat := if j < 7 then j else if j = 7 then 0 else 4
noncomputable def tPt (j : Nat) : P3 := if j < 7 then exPt j else if j = 7 then ⟨1, 0, 1⟩ else ⟨2, 1, 1⟩
noncomputable def tObs (j : Nat) : PointObs := ⟨tCam j, tExt j, tIdx j, fun xy => pick2 ⟨(tPt j).x / (tPt j).z, (tPt j).y / (tPt j).z⟩ xy, 1⟩

noncomputable def exT : Problem where
  d := { Nci := 2, Nce := 1, Nframes := 0, Npoints := 7, NpointsFixed := 0, Nob := 0, lens := .pinhole
         sel := { core := true, distortions := true, extrinsics := true, frames := false, warp := false, regularization := false, unityCam01 := false, outlierRejection := false } }
  W := 2
  H := 2
  spacing := 1
  warpGiven := false
  boards := []
  points := [tObs 0, tObs 1, tObs 2, tObs 3, tObs 4, tObs 5, tObs 6, tObs 7, tObs 8]
  tri := []
  triV _ := ⟨0, 0, 1⟩
  imagersizes _ := 100
  seed := fun
    | .intr i => if i % 4 < 2 then 1 else 0
    | .cam _ k => if k = 3 then -1 else 0
    | .point i k => if k = 0 then (exPt i.toNat).x + 1 else pick3 (exPt i.toNat) k.toNat
    | _ => 0

theorem exT_mem {o : PointObs} (h : o ∈ exT.points) : ∃ j, j < 9 ∧ o = tObs j := by
  simp only [exT, List.mem_cons, List.not_mem_nil, or_false] at h
  rcases h with h | h | h | h | h | h | h | h | h <;> exact ⟨_, by omega, h⟩

theorem exT_solved : Solved exT where
  valid := by
    refine ⟨⟨?_, ?_, ?_, ?_, ?_⟩, trivial, ?_, ?_, ?_, ?_, ?_, ?_⟩ <;> simp [exT, hasCalobjectWarp, tObs, tCam, tExt, tIdx]
  nob := rfl
  term := fun o h => by simp [exT] at h
  triSel := fun h => absurd rfl h

theorem exT_states : numStates exT.d = 14 := by decide

theorem tPt_z (j : Nat) : (tPt j).z ≠ 0 := by
  unfold tPt
  split_ifs
  · exact exPt_z j
  · norm_num
  · norm_num

theorem exT_cam0 (Q : Params) : camPose Q (-1) = ⟨⟨0, 0, 0⟩, ⟨0, 0, 0⟩⟩ := camPose_fixed Q _ (by omega)
theorem exT_cam1 : camPose exT.seed 0 = ⟨⟨0, 0, 0⟩, ⟨-1, 0, 0⟩⟩ := by
  unfold camPose camOf
  rw [if_neg (by omega)]
  simp [poseAt, exT]

theorem act_shift (t p : P3) : ProjUnc.act false ⟨⟨0, 0, 0⟩, t⟩ p = addP p t := by
  refine toVec_inj ?_
  rw [act_vec]
  simp only [rod_zero, Matrix.one_mulVec]
  ext i; fin_cases i <;> simp [toVec, addP]

theorem tSeen (Q : Params) (j : Nat) : seenPoint Q (tObs j) = ProjUnc.act false (camPose Q (tExt j)) (pointOf Q (tIdx j)) := by
  refine toVec_inj ?_
  rw [act_vec]
  unfold seenPoint truthP truth camPose camOf
  rw [show (tObs j).icamE = tExt j from rfl, show (tObs j).ipoint = tIdx j from rfl]
  unfold tExt
  by_cases h : j < 7
  · simp only [h, if_true, show ¬ (0 : Int) < 0 by omega, if_false, Option.getD_some, trS, rod_zero, Bool.false_eq_true]
    ext i
    fin_cases i <;> simp [toVec]
  · simp only [h, if_false, show (-1 : Int) < 0 by omega, if_true, Option.getD_none, trS, rod_zero, Bool.false_eq_true]
    ext i
    fin_cases i <;> simp [toVec]

theorem exT_point (i : Nat) : pointOf exT.seed i = ⟨(exPt i).x + 1, (exPt i).y, (exPt i).z⟩ := by
  simp [pointOf, exT, pick3]

theorem exT_seen (j : Nat) (hj : j < 9) : ProjUnc.act false (camPose exT.seed (tExt j)) (pointOf exT.seed (tIdx j)) = tPt j := by
  rw [exT_point]
  unfold tExt tIdx tPt
  by_cases h : j < 7
  · simp only [h, if_true]
    rw [exT_cam1, act_shift]
    ext <;> simp [addP]
  · simp only [h, if_false]
    rw [exT_cam0, act_shift]
    interval_cases j
    · simp [exPt, addP]
    · simp [exPt, addP]; norm_num

theorem exT_intr (c k : Int) (hc : c = 0 ∨ c = 1) : intrOf exT.d exT.seed c k = if k = 0 ∨ k = 1 then 1 else 0 := by
  rw [show intrOf exT.d exT.seed c k = if 0 ≤ k ∧ k < 4 then (if (c * 4 + k) % 4 < 2 then 1 else 0) else 0 from rfl]
  by_cases h : 0 ≤ k ∧ k < 4
  · obtain ⟨h1, h2⟩ := h
    rcases hc with rfl | rfl <;> interval_cases k <;> simp
  · rw [if_neg h, if_neg (by omega)]

theorem tCam_cases (j : Nat) : tCam j = 0 ∨ tCam j = 1 := by unfold tCam; split_ifs <;> simp

theorem exT_regular : exT.RegularAt exT.seed where
  boards := by simp [exT]
  points := by
    intro o ho _
    obtain ⟨j, hj, rfl⟩ := exT_mem ho
    refine ⟨?_, ?_⟩
    · intro c hc
      rw [show (tObs j).icamE = tExt j from rfl] at hc
      unfold tExt at hc
      split_ifs at hc
      · have := exT_cam1
        unfold camPose at this
        rw [hc] at this
        simp only [Option.getD_some] at this
        rw [this]; exact Or.inr rfl
      · unfold camOf at hc
        simp at hc
    · refine ⟨?_, ?_, ?_⟩
      · show intrOf exT.d exT.seed (tCam j) 0 ≠ 0
        simp [exT_intr _ _ (tCam_cases j)]
      · show intrOf exT.d exT.seed (tCam j) 1 ≠ 0
        simp [exT_intr _ _ (tCam_cases j)]
      · show (seenPoint _ _).z ≠ 0
        rw [tSeen, exT_seen j hj]
        exact tPt_z j
  tri := by
    intro i j o0 o1 _ h
    simp [exT] at h
  imager := by simp [exT]

/-- a pose without a rotation starts to move; the point doesn't -/
theorem act_turn_deriv (T : ℝ → RtV) (x : P3) (r' t' : P3) (hr : HasDerivP (fun s => (T s).r) r' 0) (ht : HasDerivP (fun s => (T s).t) t' 0) (r0 : (T 0).r = ⟨0, 0, 0⟩) :
    HasDerivP (fun s => ProjUnc.act false (T s) x) ⟨r'.y * x.z - r'.z * x.y + t'.x, r'.z * x.x - r'.x * x.z + t'.y, r'.x * x.y - r'.y * x.x + t'.z⟩ 0 := by
  have dR : ∀ i j, HasDerivAt (fun s => rod (T s).r i j) (toMat ⟨0, -r'.z, r'.y, r'.z, 0, -r'.x, -r'.y, r'.x, 0⟩ i j) 0 := by
    intro i j
    have := rod_path (fun s => (T s).r) _ 0 hr (Or.inr r0) i j
    simp only [r0, comb_J_zero] at this
    exact this
  have e : ∀ s, ProjUnc.act false (T s) x = ⟨rod (T s).r 0 0 * x.x + rod (T s).r 0 1 * x.y + rod (T s).r 0 2 * x.z + (T s).t.x,
      rod (T s).r 1 0 * x.x + rod (T s).r 1 1 * x.y + rod (T s).r 1 2 * x.z + (T s).t.y,
      rod (T s).r 2 0 * x.x + rod (T s).r 2 1 * x.y + rod (T s).r 2 2 * x.z + (T s).t.z⟩ := by
    intro s
    refine toVec_inj ?_
    rw [act_vec]
    ext i
    fin_cases i <;> simp [toVec, Matrix.mulVec, dotProduct, Fin.sum_univ_three]
  simp only [e]
  obtain ⟨t1, t2, t3⟩ := ht
  refine ⟨?_, ?_, ?_⟩
  · refine HasDerivAt.congr_deriv (((((dR 0 0).mul_const x.x).add ((dR 0 1).mul_const x.y)).add ((dR 0 2).mul_const x.z)).add t1) ?_
    simp [toMat]; ring
  · refine HasDerivAt.congr_deriv (((((dR 1 0).mul_const x.x).add ((dR 1 1).mul_const x.y)).add ((dR 1 2).mul_const x.z)).add t2) ?_
    simp [toMat]; ring
  · refine HasDerivAt.congr_deriv (((((dR 2 0).mul_const x.x).add ((dR 2 1).mul_const x.y)).add ((dR 2 2).mul_const x.z)).add t3) ?_
    simp [toMat]; ring

/-- how the point of observation j moves, in the coordinates of the camera. X: the point, in the reference coordinates -/
noncomputable def tVel (v : Mem) (j : Nat) : P3 :=
  let T := camVel exT.d v (tExt j)
  let X := pointOf exT.seed (tIdx j)
  ⟨T.r.y * X.z - T.r.z * X.y + T.t.x, T.r.z * X.x - T.r.x * X.z + T.t.y, T.r.x * X.y - T.r.y * X.x + T.t.z⟩

/-- how the two measurements move -/
noncomputable def tRate (v : Mem) (j xy : Nat) : ℝ :=
  let I := intrinsicsAt exT.d v zeroP (tCam j)
  let q := tVel v j
  if xy = 0 then (q.x - (tPt j).x / (tPt j).z * q.z) / (tPt j).z + (tPt j).x / (tPt j).z * I 0 + I 2
  else (q.y - (tPt j).y / (tPt j).z * q.z) / (tPt j).z + (tPt j).y / (tPt j).z * I 1 + I 3

theorem exT_moved_point (v : Mem) (s : ℝ) (i : Nat) : pointOf (moved exT v s) i = pointOf exT.seed i := by
  simp only [moved, ← point_unpacked exT.d exT_solved.valid.wf _ exT.seed i (by omega)]
  unfold pointAt pointOf
  rw [if_neg (by simp [exT])]

theorem tExt_lt (j : Nat) : tExt j < exT.d.Nce := by
  show tExt j < 1
  unfold tExt; split_ifs <;> omega

theorem exT_rot (e : Int) (he : e = 0 ∨ e = -1) : (camPose exT.seed e).r = ⟨0, 0, 0⟩ := by
  rcases he with rfl | rfl
  · rw [exT_cam1]
  · rw [exT_cam0]

theorem tExt_cases (j : Nat) : tExt j = 0 ∨ tExt j = -1 := by unfold tExt; split_ifs <;> simp

theorem exT_rate (v : Mem) (j xy : Nat) (hj : j < 9) (hxy : xy < 2) : HasDerivAt (fun s => pointRes exT (tObs j) xy (moved exT v s)) (tRate v j xy) 0 := by
  have wf := exT_solved.valid.wf
  have hcam := camPose_deriv exT wf v (tExt j) (tExt_lt j)
  have hcb : 0 ≤ tCam j ∧ tCam j < exT.d.Nci := by
    show 0 ≤ tCam j ∧ tCam j < 2
    rcases tCam_cases j with h | h <;> omega
  have hI := moved_intrinsics exT wf v (tCam j) hcb.1 hcb.2
  have m0 := moved_zero exT wf v
  have key := act_turn_deriv (fun s => camPose (moved exT v s) (tExt j)) (pointOf exT.seed (tIdx j)) _ _ hcam.1 hcam.2 (by rw [m0, exT_rot _ (tExt_cases j)])
  have hq : ∀ s, seenPoint (moved exT v s) (tObs j) = ProjUnc.act false (camPose (moved exT v s) (tExt j)) (pointOf exT.seed (tIdx j)) := fun s => by rw [tSeen, exT_moved_point]
  have q0 : ProjUnc.act false (camPose (moved exT v 0) (tExt j)) (pointOf exT.seed (tIdx j)) = tPt j := by rw [m0, exT_seen j hj]
  have hz := tPt_z j
  have ev : tVel v j = ⟨(camVel exT.d v (tExt j)).r.y * (pointOf exT.seed (tIdx j)).z - (camVel exT.d v (tExt j)).r.z * (pointOf exT.seed (tIdx j)).y + (camVel exT.d v (tExt j)).t.x,
      (camVel exT.d v (tExt j)).r.z * (pointOf exT.seed (tIdx j)).x - (camVel exT.d v (tExt j)).r.x * (pointOf exT.seed (tIdx j)).z + (camVel exT.d v (tExt j)).t.y,
      (camVel exT.d v (tExt j)).r.x * (pointOf exT.seed (tIdx j)).y - (camVel exT.d v (tExt j)).r.y * (pointOf exT.seed (tIdx j)).x + (camVel exT.d v (tExt j)).t.z⟩ := rfl
  rw [← ev] at key
  have inv : HasDerivAt (fun s => 1 / (ProjUnc.act false (camPose (moved exT v s) (tExt j)) (pointOf exT.seed (tIdx j))).z) (-(tVel v j).z / (tPt j).z ^ 2) 0 := by
    have := key.2.2.inv (by beta_reduce; rw [q0]; exact hz)
    simp only [q0] at this
    simp only [one_div]
    exact this
  have hres : ∀ s, pointRes exT (tObs j) xy (moved exT v s) =
      pick2 (Cam.pinhole (Cam.coreOf (intrOf exT.d (moved exT v s) (tCam j))) (ProjUnc.act false (camPose (moved exT v s) (tExt j)) (pointOf exT.seed (tIdx j)))).q xy - (tObs j).obs xy := by
    intro s
    unfold pointRes
    rw [if_neg (by simp [tObs]), hq, show (tObs j).weight = 1 from rfl, one_mul]
    rfl
  simp only [hres]
  refine HasDerivAt.sub_const _ ?_
  have i0 : intrOf exT.d (moved exT v 0) (tCam j) 0 = 1 := by rw [m0, exT_intr _ _ (tCam_cases j)]; simp
  have i1 : intrOf exT.d (moved exT v 0) (tCam j) 1 = 1 := by rw [m0, exT_intr _ _ (tCam_cases j)]; simp
  unfold tRate
  interval_cases xy
  · rw [if_pos rfl]
    refine HasDerivAt.congr_deriv (((key.1.mul inv).mul (hI 0)).add (hI 2)) ?_
    simp only [Pi.mul_apply, q0, i0]
    generalize intrinsicsAt exT.d v zeroP (tCam j) = I
    field_simp
    ring
  · rw [if_neg (by norm_num)]
    refine HasDerivAt.congr_deriv (((key.2.1.mul inv).mul (hI 1)).add (hI 3)) ?_
    simp only [Pi.mul_apply, q0, i1]
    generalize intrinsicsAt exT.d v zeroP (tCam j) = I
    field_simp
    ring

theorem exT_out : ∃ out, optimizerCallback (exT.ctx (bPacked exT)) = some out ∧ out.x = List.replicate 18 0 ∧ ∀ v j xy, j < 9 → xy < 2 → out.Jv (2 * j + xy) v = tRate v j xy := by
  have hP := exT_solved
  have hu : unpacked exT.d exT.seed (bPacked exT) = exT.seed := unpack_pack_state exT.d hP.valid.wf exT.seed _
  obtain ⟨out, ho⟩ : ∃ out, optimizerCallback (exT.ctx (bPacked exT)) = some out := by
    obtain ⟨out, pairs, h1, -⟩ := callback_jacobian (b := fun _ => bPacked exT) (b' := fun _ => 0) (t := 0) exT hP.valid hP.term (fun j => hasDerivAt_const _ _) (by rw [hu]; exact exT_regular)
    exact ⟨out, h1⟩
  refine ⟨out, ho, ?_, ?_⟩
  · obtain ⟨out', pairs, h1, h2, h3, -⟩ := callback_jacobian (b := fun _ => bPacked exT) (b' := fun _ => 0) (t := 0) exT hP.valid hP.term (fun j => hasDerivAt_const _ _) (by rw [hu]; exact exT_regular)
    obtain rfl := Option.some.inj (ho.symm.trans h1)
    rw [h3, hu]
    have hp : pairs = [] := by
      refine List.eq_nil_iff_forall_not_mem.2 fun p hp => ?_
      have := ((h2.1 p.1 p.2).1 hp).2.1
      simp [exT] at this
    have z : ∀ j xy, j < 9 → xy < 2 → pointRes exT (tObs j) xy exT.seed = 0 := by
      intro j xy hj hxy
      unfold pointRes
      rw [if_neg (by simp [tObs]), show (tObs j).weight = 1 from rfl, one_mul, sub_eq_zero, tSeen, exT_seen j hj]
      rw [show (tObs j).icamI = tCam j from rfl, show exT.d.lens = .pinhole from rfl]
      have e : Cam.pix .pinhole (intrOf exT.d exT.seed (tCam j)) (tPt j) = ⟨(tPt j).x / (tPt j).z, (tPt j).y / (tPt j).z⟩ := by
        simp only [Cam.pix, Cam.lensPixel, Option.getD_some, Cam.pinhole, Cam.coreOf, exT_intr _ _ (tCam_cases j)]
        norm_num [div_eq_mul_inv]
      rw [e]; rfl
    have e : residuals exT pairs = ([0, 1, 2, 3, 4, 5, 6, 7, 8].flatMap fun j => [pointRes exT (tObs j) 0, pointRes exT (tObs j) 1]) := by
      simp only [residuals, hp]
      have : regResiduals exT = [] := by simp [regResiduals, exT]
      rw [this]
      rfl
    rw [e]
    simp only [List.flatMap_cons, List.flatMap_nil, List.map_append, List.map_cons, List.map_nil, z 0 0 (by omega) (by omega), z 0 1 (by omega) (by omega), z 1 0 (by omega) (by omega), z 1 1 (by omega) (by omega),
      z 2 0 (by omega) (by omega), z 2 1 (by omega) (by omega), z 3 0 (by omega) (by omega), z 3 1 (by omega) (by omega), z 4 0 (by omega) (by omega), z 4 1 (by omega) (by omega),
      z 5 0 (by omega) (by omega), z 5 1 (by omega) (by omega), z 6 0 (by omega) (by omega), z 6 1 (by omega) (by omega), z 7 0 (by omega) (by omega), z 7 1 (by omega) (by omega),
      z 8 0 (by omega) (by omega), z 8 1 (by omega) (by omega)]
    rfl
  · intro v j xy hj hxy
    have hb : (fun k => bPacked exT k + 0 * v k) = bPacked exT := by funext j; simp
    obtain ⟨out', pairs, h1, h2, h3, h4⟩ := callback_jacobian (b := fun s k => bPacked exT k + s * v k) (b' := v) (t := 0) exT hP.valid hP.term (fun j => state_deriv _ v j) (by rw [hb, hu]; exact exT_regular)
    rw [hb] at h1
    obtain rfl := Option.some.inj (ho.symm.trans h1)
    have hf : (residuals exT pairs)[2 * j + xy]? = some (pointRes exT (tObs j) xy) := by
      simp only [residuals, exT]
      interval_cases j <;> interval_cases xy <;> rfl
    exact (h4 _ _ hf).unique (exT_rate v j xy hj hxy)

theorem exT_zero (v : Mem) (h : ∀ j xy, j < 9 → xy < 2 → tRate v j xy = 0) :
    (∀ c k, (c = 0 ∨ c = 1) → 0 ≤ k → k < 4 → intrinsicsAt exT.d v zeroP c k = 0) ∧ cameraAt exT.d v zeroP 0 = ⟨⟨0, 0, 0⟩, ⟨0, 0, 0⟩⟩ := by
  unfold tRate tVel at h
  have hc0 : camVel exT.d v (-1) = ⟨⟨0, 0, 0⟩, ⟨0, 0, 0⟩⟩ := by unfold camVel; simp
  have hc1 : camVel exT.d v 0 = cameraAt exT.d v zeroP 0 := by unfold camVel; simp
  obtain ⟨⟨⟨r0, r1, r2⟩, ⟨t0, t1, t2⟩⟩, hT⟩ : ∃ T, T = cameraAt exT.d v zeroP 0 := ⟨_, rfl⟩
  obtain ⟨I, hI⟩ : ∃ I, I = intrinsicsAt exT.d v zeroP 1 := ⟨_, rfl⟩
  obtain ⟨K, hK⟩ : ∃ I, I = intrinsicsAt exT.d v zeroP 0 := ⟨_, rfl⟩
  rw [← hT] at hc1 ⊢
  simp only [exT_point] at h
  have a0 := h 0 0 (by omega) (by omega)
  have a1 := h 1 0 (by omega) (by omega)
  have a2 := h 2 0 (by omega) (by omega)
  have a3 := h 3 0 (by omega) (by omega)
  have a4 := h 4 0 (by omega) (by omega)
  have a5 := h 5 0 (by omega) (by omega)
  have a6 := h 6 0 (by omega) (by omega)
  have b0 := h 0 1 (by omega) (by omega)
  have b1 := h 1 1 (by omega) (by omega)
  have b3 := h 3 1 (by omega) (by omega)
  have b5 := h 5 1 (by omega) (by omega)
  have c0 := h 7 0 (by omega) (by omega)
  have c1 := h 8 0 (by omega) (by omega)
  have d0 := h 7 1 (by omega) (by omega)
  have d1 := h 8 1 (by omega) (by omega)
  simp only [tExt, tIdx, tCam, tPt] at a0 a1 a2 a3 a4 a5 a6 b0 b1 b3 b5 c0 c1 d0 d1
  norm_num [hc0, hc1, exPt, ← hI, ← hK] at a0 a1 a2 a3 a4 a5 a6 b0 b1 b3 b5 c0 c1 d0 d1
  have k0 : K 0 = 0 := by linarith
  have k2 : K 2 = 0 := by linarith
  have k3 : K 3 = 0 := by linarith
  have k1 : K 1 = 0 := by linarith
  have key : r0 = 0 ∧ r1 = 0 ∧ r2 = 0 ∧ t0 = 0 ∧ t1 = 0 ∧ t2 = 0 ∧ I 0 = 0 ∧ I 1 = 0 ∧ I 2 = 0 ∧ I 3 = 0 := by
    refine ⟨?_, ?_, ?_, ?_, ?_, ?_, ?_, ?_, ?_, ?_⟩ <;> linarith
  obtain ⟨e0, e1, e2, e3, e4, e5, i0, i1, i2, i3⟩ := key
  refine ⟨fun c k hc h1 h2 => ?_, by rw [e0, e1, e2, e3, e4, e5]⟩
  rcases hc with rfl | rfl
  · rw [← hK]
    interval_cases k <;> assumption
  · rw [← hI]
    interval_cases k <;> assumption

theorem exT_I (b : Mem) (Q : Params) (c k : Int) (hc : c = 0 ∨ c = 1) (h0 : 0 ≤ k) (h4 : k < 4) : intrinsicsAt exT.d b Q c k = b (4 * c + k) * (if k < 2 then scaleFocal else scaleCenter) := by
  rcases hc with rfl | rfl <;> interval_cases k <;> rfl

theorem exT_C (b : Mem) (Q : Params) : cameraAt exT.d b Q 0 = unpackPose scaleRotCamera scaleTransCamera b 8 := by
  unfold cameraAt
  rw [if_pos (by rfl), show stateIndexExtrinsics 0 exT.d = 8 by decide]

/-- every state can be seen -/
theorem exT_rank (out : Callback.Out) (ho : optimizerCallback (exT.ctx (bPacked exT)) = some out) : FullRank out (numStates exT.d) := by
  obtain ⟨out', ho', hx, hJ⟩ := exT_out
  obtain rfl := Option.some.inj (ho.symm.trans ho')
  intro v hv j hj hj'
  rw [exT_states] at hj'
  obtain ⟨h1, h2⟩ := exT_zero v fun i xy hi hxy => by
    rw [← hJ v i xy hi hxy]
    exact hv _ (by rw [hx, List.length_replicate]; omega)
  rw [exT_C] at h2
  by_cases h8 : j < 8
  · have h := h1 (j / 4) (j % 4) (by omega) (by omega) (by omega)
    rw [exT_I _ _ _ _ (by omega) (by omega) (by omega), show 4 * (j / 4) + j % 4 = j by omega] at h
    rcases mul_eq_zero.1 h with h | h
    · exact h
    · obtain ⟨-, -, -, s1, s2⟩ := scales_pos
      split_ifs at h
      · exact absurd h s1
      · exact absurd h s2
  · have := pose_zero (fun i => v (i + 4)) (by simpa [unpackPose, add_assoc] using h2) (j - 8) (by omega) (by omega)
    rwa [show 4 + (j - 8) + 4 = j by ring] at this

theorem tRate_zero (j xy : Nat) : tRate (fun _ => 0) j xy = 0 := by
  have hc : camVel exT.d (fun _ => 0) (tExt j) = ⟨⟨0, 0, 0⟩, ⟨0, 0, 0⟩⟩ := by
    unfold camVel
    rcases tExt_cases j with h | h <;> rw [h]
    · simp only [lt_irrefl, if_false, exT_C]; simp [unpackPose]
    · simp
  unfold tRate tVel
  have hI := fun k h0 h4 => exT_I (fun _ => 0) zeroP (tCam j) k (tCam_cases j) h0 h4
  simp only [hc, hI 0 (by omega) (by omega), hI 1 (by omega) (by omega), hI 2 (by omega) (by omega), hI 3 (by omega) (by omega)]
  split_ifs <;> simp

theorem exT_opt (out : Callback.Out) (ho : optimizerCallback (exT.ctx (bPacked exT)) = some out) : IsOptimum out (fun _ => 0) fun _ => 0 := by
  obtain ⟨out', ho', hx, hJ⟩ := exT_out
  obtain rfl := Option.some.inj (ho.symm.trans ho')
  intro w
  have : Propagate.cost out (fun _ => 0) (fun _ => 0) = 0 := by
    refine Finset.sum_eq_zero fun i hi => ?_
    rw [hx, List.length_replicate, Finset.mem_range] at hi
    have := hJ (fun _ => 0) (i / 2) (i % 2) (by omega) (by omega)
    rw [show 2 * (i / 2) + i % 2 = i by omega, tRate_zero] at this
    rw [this, hx, getD_replicate_zero]
    norm_num
  rw [this]
  exact Finset.sum_nonneg fun i _ => sq_nonneg _

/-! ### the cameras, and the observations -/

noncomputable def exCam (i e : Int) (solve : Solver) : Camera := ⟨.pinhole, intrOf exT.d exT.seed i, camPose exT.seed e, some exT, i, e, solve, ⟨none, none, none⟩⟩
/-- camera 0 sees the point at pixel q0; camera 1: at q1 -/
noncomputable def exPair (q0 q1 : P2) (solve : Solver) : Slice := ⟨q0, q1, exCam 0 (-1) solve, exCam 1 0 solve⟩

theorem exCam_calibrated (solve : Solver) : AsCalibrated exT (exCam 0 (-1) solve) ∧ AsCalibrated exT (exCam 1 0 solve) := by
  refine ⟨⟨rfl, ⟨le_rfl, by show (0 : Int) < 2; omega⟩, rfl, rfl, ?_⟩, ⟨rfl, ⟨by show (0 : Int) ≤ 1; omega, by show (1 : Int) < 2; omega⟩, rfl, rfl, ?_⟩⟩
  · exact Or.inr ⟨tObs 7, by simp [exT], rfl, rfl⟩
  · exact Or.inr ⟨tObs 0, by simp [exT], rfl, rfl⟩

theorem exPair_rot (q0 q1 : P2) (solve : Solver) : RotationsOk (exPair q0 q1 solve) := by
  refine Or.inl ⟨fun _ => ?_, Or.inr ?_⟩
  · show (camPose exT.seed (-1)).r = _
    rw [exT_cam0]
  · show (camPose exT.seed 0).r = _
    rw [exT_cam1]

theorem exPair_from (q0 q1 : P2) (solve : Solver) : PairFrom exT (exPair q0 q1 solve) where
  m0 := (exCam_calibrated solve).1
  m1 := (exCam_calibrated solve).2
  different := by show (0 : Int) ≠ 1; omega
  rotations := Or.inl ⟨by show (-1 : Int) < 0; omega, Or.inr (by show (camPose exT.seed 0).r = _; rw [exT_cam1])⟩

theorem exT_boards : BoardsOk exT := fun h => by simp [exT] at h
theorem exT_slice : SliceOk exT := fun _ h => by simp [exT] at h

theorem inputsOf_eq (slices : List Slice) (P : Problem) (h : ((slices.flatMap fun s => [s.m0, s.m1]).head?.bind Camera.inputs) = some P)
    (h' : ∀ m ∈ slices.flatMap fun s => [s.m0, s.m1], m.inputs = some P ∧ ¬ CamModel.extrinsicsMoved m.icamE m.rt (poseAt P.seed (.cam m.icamE))) : inputsOf slices = some P := by
  unfold inputsOf
  dsimp only
  rw [h]
  exact if_pos h'

theorem exPair_inputs (q0 q1 : P2) (solve : Solver) : inputsOf [exPair q0 q1 solve] = some exT := by
  refine inputsOf_eq _ _ rfl fun m hm => ?_
  simp only [List.flatMap_cons, List.flatMap_nil, List.append_nil, List.mem_cons, List.not_mem_nil, or_false] at hm
  rcases hm with rfl | rfl
  · refine ⟨rfl, ?_⟩
    show ¬ CamModel.extrinsicsMoved (-1) (camPose exT.seed (-1)) _
    rw [exT_cam0]
    simp [CamModel.extrinsicsMoved]
  · refine ⟨rfl, ?_⟩
    show ¬ CamModel.extrinsicsMoved 0 (camPose exT.seed 0) (poseAt exT.seed (.cam 0))
    have : poseAt exT.seed (.cam 0) = camPose exT.seed 0 := by simp [camPose, camOf]
    rw [this, exT_cam1]
    norm_num [CamModel.extrinsicsMoved]

theorem exT_index : (extrinsicsIndex exT 0).isSome ∧ (extrinsicsIndex exT 1).isSome := by
  have e : exT.points.map (fun o => (o.icamI, o.icamE)) = [(1, 0), (1, 0), (1, 0), (1, 0), (1, 0), (1, 0), (1, 0), (0, -1), (0, -1)] := rfl
  have e' : exT.boards.map (fun o => (o.icamI, o.icamE)) = [] := rfl
  unfold extrinsicsIndex
  rw [e, e']
  decide

/-- what camera i sees at this pixel -/
theorem exCam_sees (i e : Int) (hi : i = 0 ∨ i = 1) (solve : Solver) (q : P2) :
    ∃ g, unprojectGrads (exCam i e solve).lens (exCam i e solve).intr (exCam i e solve).solve (exCam i e solve).prev false q = some (some g) ∧ g.v = ⟨q.x, q.y, 1⟩ ∧
      unproject (exCam i e solve).lens (exCam i e solve).intr (exCam i e solve).solve (exCam i e solve).prev false q = some (NanP3.of ⟨q.x, q.y, 1⟩) := by
  have key : (directGrads unpinhole (intrOf exT.d exT.seed i) q).v = ⟨q.x, q.y, 1⟩ := by
    simp [directGrads, unpinhole, Cam.coreOf, exT_intr _ _ hi]
  refine ⟨directGrads unpinhole (intrOf exT.d exT.seed i) q, rfl, key, ?_⟩
  show some (NanP3.of _) = _
  rw [← key]
  rfl

theorem ex_center : center (camPose exT.seed (-1)) (camPose exT.seed 0) = ⟨1, 0, 0⟩ := by
  rw [exT_cam0, exT_cam1]
  unfold center
  rw [act_shift]
  simp only [rod_zero, Matrix.transpose_one, Matrix.one_mulVec]
  ext <;> simp [addP, ofVec, toVec]

theorem ex_dir (v : P3) : dirIn0 (camPose exT.seed (-1)) (camPose exT.seed 0) v = v := by
  rw [exT_cam0, exT_cam1]
  unfold dirIn0
  simp only [rod_zero, Matrix.transpose_one, Matrix.one_mulVec]
  exact toVec_inj (by rw [toVec_ofVec])

/-- both cameras see the point (1,0,1) -/
noncomputable def exSlice (solve : Solver) : Slice := exPair ⟨1, 0⟩ ⟨0, 0⟩ solve

theorem exSlice_view (method : Method) (hm : method = .leeciveraMid2 ∨ method = .leeciveraWmid2) (solve : Solver) : ViewOk method (exSlice solve) := by
  have hl : ∀ i e (hi : i = 0 ∨ i = 1) v, RayOk (exCam i e solve) v := by
    intro i e hi v
    have e : (exCam i e solve).intr = intrOf exT.d exT.seed i := rfl
    refine ⟨trivial, ?_, ?_, fun h => by simp [exCam, direct] at h⟩ <;> rw [e, exT_intr _ _ hi] <;> simp
  refine ⟨fun g _ => hl _ _ (Or.inl rfl) _, fun g _ => hl _ _ (Or.inr rfl) _, fun g0 g1 h0 h1 => ?_⟩
  obtain ⟨g, hg, hv, -⟩ := exCam_sees 0 (-1) (Or.inl rfl) solve ⟨1, 0⟩
  obtain ⟨g', hg', hv', -⟩ := exCam_sees 1 0 (Or.inr rfl) solve ⟨0, 0⟩
  obtain rfl : g = g0 := Option.some.inj (Option.some.inj (hg.symm.trans h0))
  obtain rfl : g' = g1 := Option.some.inj (Option.some.inj (hg'.symm.trans h1))
  show Found method g.v (dirIn0 (camPose exT.seed (-1)) (camPose exT.seed 0) g'.v) (center (camPose exT.seed (-1)) (camPose exT.seed 0))
  rw [ex_dir, ex_center, hv, hv']
  have hs : Sees (⟨1, 0, 1⟩ : P3) ⟨0, 0, 1⟩ ⟨1, 0, 0⟩ 1 1 ⟨1, 0, 1⟩ := by
    refine ⟨by norm_num, by norm_num, ?_, ?_⟩ <;> ext <;> simp [sm, addp]
  have hc : crossp (⟨1, 0, 1⟩ : P3) ⟨0, 0, 1⟩ ≠ zerop := by simp [crossp, zerop]
  rcases hm with rfl | rfl
  · refine ⟨?_, trivial⟩
    obtain ⟨m, hm, hv⟩ := mid2_exact _ _ _ _ _ _ hs hc
    rw [triPoint_eq _ _ rfl, hm]
    show m.value ≠ _
    rw [hv]; simp
  · refine ⟨?_, trivial⟩
    obtain ⟨m, hm, hv⟩ := wmid2_exact _ _ _ _ _ _ hs hc
    rw [triPoint_eq _ _ rfl, hm]
    show m.value ≠ _
    rw [hv]; simp

theorem exPair_visible (q0 q1 : P2) (solve : Solver) : Visible (exPair q0 q1 solve) := by
  obtain ⟨g, hg, -⟩ := exCam_sees 0 (-1) (Or.inl rfl) solve q0
  obtain ⟨g', hg', -⟩ := exCam_sees 1 0 (Or.inr rfl) solve q1
  exact ⟨⟨g, hg⟩, ⟨g', hg'⟩⟩

/-- `available`: all the hypotheses are met: the triangulation succeeds -/
theorem exPair_available (eigsh : Eigsh) (σ : ℝ) (hσ : 0 < σ) (qo : Option ℝ) (hqo : ∀ s, qo = some s → 0 ≤ s) (corr : ℝ) (method : Method) (hm : method ≠ .lindstrom) (stabilize : Bool) (q0 q1 : P2) (solve : Solver) :
    ∃ r, triangulate exCholmod eigsh [exPair q0 q1 solve] (some σ) qo corr method stabilize = some r := by
  obtain ⟨out, ho, hx, -⟩ := exT_out
  refine available exCholmod exCholmod_ok eigsh _ σ hσ qo hqo corr method hm stabilize exT (exPair_inputs q0 q1 solve) exT_solved exT_boards exT_slice ?_ out ho (by rw [exT_states]; omega) ?_ (exT_rank out ho) (Or.inl (by decide))
  · intro s hs
    rw [List.mem_singleton] at hs
    subst hs
    exact ⟨exPair_visible q0 q1 solve, Or.inr (by show (camPose exT.seed (-1)).r = _; rw [exT_cam0]), exT_index.1, exT_index.2⟩
  · rw [hx, List.length_replicate]
    decide

/-- `exact_point`, `points_meaning`, `same_points`: all the hypotheses are met: this point is reported -/
example (eigsh : Eigsh) (σ : ℝ) (hσ : 0 < σ) (qo : Option ℝ) (hqo : ∀ s, qo = some s → 0 ≤ s) (corr : ℝ) (method : Method) (hm : method = .leeciveraMid2 ∨ method = .leeciveraWmid2) (stabilize : Bool) (solve : Solver) :
    ∃ r, triangulate exCholmod eigsh [exSlice solve] (some σ) qo corr method stabilize = some r ∧ r.points = [⟨1, 0, 1⟩] := by
  obtain ⟨r, hr⟩ := exPair_available eigsh σ hσ qo hqo corr method (by rcases hm with rfl | rfl <;> simp) stabilize ⟨1, 0⟩ ⟨0, 0⟩ solve
  refine ⟨r, hr, ?_⟩
  have ea : ProjUnc.act false (camPose exT.seed (-1)) ⟨1, 0, 1⟩ = ⟨1, 0, 1⟩ := by rw [exT_cam0, act_identity]
  have eb : ProjUnc.act false (camPose exT.seed 0) ⟨1, 0, 1⟩ = ⟨0, 0, 1⟩ := by rw [exT_cam1, act_shift]; simp [addP]
  have := exact_point _ _ _ _ _ _ _ hm _ _ hr 0 _ rfl (exPair_rot _ _ solve) ⟨1, 0, 1⟩
    (by
      obtain ⟨g, hg, hv, hu⟩ := exCam_sees 0 (-1) (Or.inl rfl) solve ⟨1, 0⟩
      exact ⟨_, 1, hu, one_pos, by show ProjUnc.act false (camPose exT.seed (-1)) _ = _; rw [ea]; simp [sm]⟩)
    (by
      obtain ⟨g, hg, hv, hu⟩ := exCam_sees 1 0 (Or.inr rfl) solve ⟨0, 0⟩
      exact ⟨_, 1, hu, one_pos, by show ProjUnc.act false (camPose exT.seed 0) _ = _; rw [eb]; simp [sm]⟩)
    (by
      show crossp (ProjUnc.act false (camPose exT.seed (-1)) _) (subp (ProjUnc.act false (camPose exT.seed (-1)) _) (center (camPose exT.seed (-1)) (camPose exT.seed 0))) ≠ zerop
      rw [ea, ex_center]
      simp [crossp, subp, zerop])
  rw [show ProjUnc.act false (exPair ⟨1, 0⟩ ⟨0, 0⟩ solve).m0.rt ⟨1, 0, 1⟩ = ⟨1, 0, 1⟩ from ea] at this
  have hl := (returned _ _ _ _ _ _ _ _ _ hr).2.2.2.1
  match hp : r.points with
  | [] => rw [hp] at hl; simp at hl
  | [p] => rw [hp] at this; simp at this; rw [this]
  | _ :: _ :: _ => rw [hp] at hl; simp at hl

/-- `failed_variance_wrong`: the rays diverge -/
example (eigsh : Eigsh) (solve : Solver) : ∃ r, triangulate exCholmod eigsh [exPair ⟨0, 0⟩ ⟨1, 0⟩ solve] (some 1) (some 1) 0 .leeciveraMid2 false = some r ∧ r.points[0]? = some ⟨0, 0, 0⟩ := by
  obtain ⟨r, hr⟩ := exPair_available eigsh 1 one_pos (some 1) (by rintro s hs; obtain rfl := Option.some.inj hs; norm_num) 0 .leeciveraMid2 (by simp) false ⟨0, 0⟩ ⟨1, 0⟩ solve
  refine ⟨r, hr, ?_⟩
  obtain ⟨v0, v1, ⟨u0, k0, h0, -, rfl, d0⟩, ⟨u1, k1, h1, -, rfl, d1⟩, e⟩ := points_meaning _ _ _ _ _ _ _ (by simp) _ _ hr 0 _ rfl (exPair_rot _ _ solve)
  rw [e]
  obtain ⟨-, -, -, hu0⟩ := exCam_sees 0 (-1) (Or.inl rfl) solve ⟨0, 0⟩
  obtain ⟨-, -, -, hu1⟩ := exCam_sees 1 0 (Or.inr rfl) solve ⟨1, 0⟩
  obtain rfl := of_inj (Option.some.inj (h0.symm.trans hu0))
  obtain rfl := of_inj (Option.some.inj (h1.symm.trans hu1))
  rw [d0 rfl, d1 rfl]
  show some (triPoint .leeciveraMid2 _ (dirIn0 (camPose exT.seed (-1)) (camPose exT.seed 0) _) (center (camPose exT.seed (-1)) (camPose exT.seed 0))) = _
  rw [ex_dir, ex_center, triPoint_eq _ _ rfl]
  refine congrArg some ((mid2_sentinel _ _ _).2 ?_)
  refine Option.eq_none_iff_forall_not_mem.2 fun m hm => ?_
  obtain ⟨⟨-, h2, -⟩, -⟩ := (mid2_spec _ _ _ _).1 ⟨m, hm, rfl⟩
  norm_num [range0, range1, Tri.dist2, sm, addp, subp, crossp, len2, dotp] at h2

/-- `core_only_wrong`: as above, but distortions aren't solved-for -/
example (eigsh : Eigsh) (solve : Solver) : ∃ slices P, inputsOf slices = some P ∧ P.d.lens.numParams = 4 ∧ P.d.sel.core = true ∧ P.d.sel.distortions = false ∧ (∀ s ∈ slices, 0 ≤ s.m0.icamI ∧ s.m0.icamI < P.d.Nci) ∧
    numStates P.d = 14 := by
  obtain ⟨P, hP⟩ : ∃ P, P = { exT with d := { exT.d with sel := { exT.d.sel with distortions := false } } } := ⟨_, rfl⟩
  obtain ⟨m, hm⟩ : ∃ m : Camera, m = { exCam 0 (-1) solve with inputs := some P } := ⟨_, rfl⟩
  refine ⟨[⟨⟨0, 0⟩, ⟨0, 0⟩, m, m⟩], P, ?_, by rw [hP]; rfl, by rw [hP]; rfl, by rw [hP], ?_, by rw [hP]; decide⟩
  · refine inputsOf_eq _ _ (by rw [hm]; rfl) fun m' h' => ?_
    simp only [List.flatMap_cons, List.flatMap_nil, List.append_nil, List.mem_cons, List.not_mem_nil, or_false, or_self] at h'
    rw [h', hm]
    refine ⟨rfl, ?_⟩
    show ¬ CamModel.extrinsicsMoved (-1) (camPose exT.seed (-1)) _
    rw [exT_cam0]
    simp [CamModel.extrinsicsMoved]
  · intro s hs
    rw [List.mem_singleton] at hs
    rw [hs, hm, hP]
    exact ⟨le_rfl, by show (0 : Int) < 2; omega⟩

/-! ### the experiment -/

/-- white noise in the calibration, and correlated noise in the two observed pixels -/
noncomputable def exNoise (n : Nat) (σ : ℝ) (ω : Fin (n + 4)) (i : Nat) : ℝ := if i < n ∧ i = (ω : Nat) then σ else 0
noncomputable def exPixel (n : Nat) (σ ρ : ℝ) (ω : Fin (n + 4)) (_ a x : Nat) : ℝ :=
  if a = 0 then (if (ω : Nat) = n + x then σ else 0)
  else (if (ω : Nat) = n + x then ρ ^ 2 * σ else 0) + (if (ω : Nat) = n + 2 + x then σ * Real.sqrt (1 - ρ ^ 4) else 0)

theorem exNoise_white (n : Nat) (σ : ℝ) : WhiteNoise (Measure.count : Measure (Fin (n + 4))) (exNoise n σ) n σ where
  none ω i h := if_neg (by omega)
  integrable i j _ _ := Integrable.of_finite
  cov i j hi hj := by
    rw [integral_count]
    unfold exNoise
    by_cases h : i = j
    · subst h
      rw [if_pos rfl, Finset.sum_eq_single (⟨i, by omega⟩ : Fin (n + 4))]
      · simp [pow_two, hi]
      · intro b _ hb
        rw [if_neg (fun h => hb (Fin.ext h.2.symm)), zero_mul]
      · intro h; exact absurd (Finset.mem_univ _) h
    · rw [if_neg h]
      refine Finset.sum_eq_zero fun b _ => ?_
      by_cases hb : i < n ∧ i = (b : Nat)
      · rw [if_neg (show ¬ (j < n ∧ j = (b : Nat)) from fun h' => h (hb.2.trans h'.2.symm)), mul_zero]
      · rw [if_neg hb, zero_mul]

theorem exPixel_noise (n : Nat) (σ ρ : ℝ) (hρ : ρ ^ 4 ≤ 1) : PixelNoise (Measure.count : Measure (Fin (n + 4))) (exPixel n σ ρ) 1 σ ρ where
  integrable _ _ _ _ _ _ _ _ _ _ _ _ := Integrable.of_finite
  cov i a x j b y hi ha hx hj hb hy := by
    obtain rfl : i = 0 := by omega
    obtain rfl : j = 0 := by omega
    have hs := Real.mul_self_sqrt (show 0 ≤ 1 - ρ ^ 4 by linarith)
    rw [integral_count, Fin.sum_univ_add]
    have z : ∑ k : Fin n, exPixel n σ ρ (Fin.castAdd 4 k) 0 a x * exPixel n σ ρ (Fin.castAdd 4 k) 0 b y = 0 := by
      refine Finset.sum_eq_zero fun k _ => ?_
      have hk := k.2
      have : exPixel n σ ρ (Fin.castAdd 4 k) 0 a x = 0 := by
        unfold exPixel
        simp only [Fin.val_castAdd]
        rw [if_neg (show ¬ (k : Nat) = n + x by omega), if_neg (show ¬ (k : Nat) = n + x by omega), if_neg (show ¬ (k : Nat) = n + 2 + x by omega)]
        simp
      rw [this, zero_mul]
    rw [z, zero_add, Fin.sum_univ_four]
    unfold exPixel
    simp only [Fin.val_natAdd, add_assoc, Nat.add_left_cancel_iff]
    generalize Real.sqrt (1 - ρ ^ 4) = w at hs
    interval_cases a <;> interval_cases b <;> interval_cases x <;> interval_cases y <;> norm_num <;> first | ring1 | linear_combination σ ^ 2 * hs

theorem ex_independent (n : Nat) (σ σ' ρ : ℝ) (m i a x : Nat) :
    Integrable (fun ω => exNoise n σ ω m * exPixel n σ' ρ ω i a x) (Measure.count : Measure (Fin (n + 4))) ∧ ∫ ω, exNoise n σ ω m * exPixel n σ' ρ ω i a x ∂(Measure.count : Measure (Fin (n + 4))) = 0 := by
  refine ⟨Integrable.of_finite, ?_⟩
  rw [integral_count]
  refine Finset.sum_eq_zero fun ω _ => ?_
  unfold exNoise exPixel
  by_cases h : m < n ∧ m = (ω : Nat)
  · rw [if_neg (show ¬ (ω : Nat) = n + x by omega), if_neg (show ¬ (ω : Nat) = n + x by omega), if_neg (show ¬ (ω : Nat) = n + 2 + x by omega)]
    simp
  · rw [if_neg h, zero_mul]

/-- `joint_covariance`: all the hypotheses are met. `calibration_covariance`: the same, with no noise in the pixels -/
example (eigsh : Eigsh) (σc σo ρ : ℝ) (hc : 0 < σc) (ho : 0 ≤ σo) (hρ : ρ ^ 4 ≤ 1) (method : Method) (hm : method = .leeciveraMid2 ∨ method = .leeciveraWmid2) (stabilize : Bool) (solve : Solver) :
    ∃ (r : Ret) (Ω : Type) (_ : MeasurableSpace Ω) (μ : Measure Ω) (noise : Ω → Nat → ℝ) (step : Ω → Mem) (ε : Ω → Nat → Nat → Nat → ℝ) (δ : Ω → Nat → P3),
      triangulate exCholmod eigsh [exSlice solve] (some σc) (some σo) ρ method stabilize = some r ∧ Recalibrated exT σc μ noise step ∧ PixelNoise μ ε 1 σo ρ ∧
        (∀ m i a x, Integrable (fun ω => noise ω m * ε ω i a x) μ ∧ ∫ ω, noise ω m * ε ω i a x ∂μ = 0) ∧
        (∀ ω i s, [exSlice solve][i]? = some s → PointMoves exT method stabilize s (step ω) (ε ω i) (δ ω i)) ∧ ∀ s ∈ [exSlice solve], PairFrom exT s ∧ ViewOk method s := by
  have hml : method ≠ .lindstrom := by rcases hm with rfl | rfl <;> simp
  obtain ⟨r, hr⟩ := exPair_available eigsh σc hc (some σo) (by rintro s hs; obtain rfl := Option.some.inj hs; exact ho) ρ method hml stabilize ⟨1, 0⟩ ⟨0, 0⟩ solve
  obtain ⟨out, hout, -⟩ := exT_out
  have opt := fun ω => optimum_exists (exT.ctx (bPacked exT)) (exT_solved.ctx _) (problem_idx exT exT_solved.valid _) out hout (by show 0 < numStates exT.d; rw [exT_states]; omega) (exT_rank out hout) (exNoise (numObserved (exT.ctx (bPacked exT))) σc ω)
  choose step hstep using opt
  obtain ⟨f, hf⟩ := gradFull_exists method hml (exSlice solve) (exPair_visible _ _ solve)
  obtain ⟨F, hF⟩ := dpDb_some exT exT_slice exT_boards (exSlice solve) f stabilize (Or.inr (by show (camPose exT.seed (-1)).r = _; rw [exT_cam0])) exT_index.1 exT_index.2
  have hmv := fun ω => point_moves exT exT_solved.valid (by rfl) method stabilize (exSlice solve) (exPair_from _ _ solve) (exSlice_view method hm solve) exT_boards f hf F hF (step ω) (exPixel (numObserved (exT.ctx (bPacked exT))) σo ρ ω 0)
  choose δ hδ using hmv
  refine ⟨r, _, inferInstance, Measure.count, exNoise (numObserved (exT.ctx (bPacked exT))) σc, step, exPixel (numObserved (exT.ctx (bPacked exT))) σo ρ, fun ω _ => δ ω, hr, ⟨exT_opt, exNoise_white _ _, ?_⟩, exPixel_noise _ _ _ hρ,
    ex_independent _ _ _ _, ?_, ?_⟩
  · intro out' ho' ω
    obtain rfl := Option.some.inj (hout.symm.trans ho')
    exact hstep ω
  · intro ω i s hs
    match i, hs with
    | 0, hs => obtain rfl := Option.some.inj hs; exact hδ ω
  · intro s hs
    rw [List.mem_singleton] at hs
    subst hs
    exact ⟨exPair_from _ _ solve, exSlice_view method hm solve⟩

/-- `observation_covariance`: all the hypotheses are met -/
example (eigsh : Eigsh) (σ ρ : ℝ) (hσ : 0 < σ) (hρ : ρ ^ 4 ≤ 1) (method : Method) (hm : method = .leeciveraMid2 ∨ method = .leeciveraWmid2) (stabilize : Bool) (solve : Solver) :
    ∃ (r : Ret) (Ω : Type) (_ : MeasurableSpace Ω) (μ : Measure Ω) (ε : Ω → Nat → Nat → Nat → ℝ) (δ : Ω → Nat → P3),
      triangulate exCholmod eigsh [exSlice solve] none (some σ) ρ method stabilize = some r ∧ PixelNoise μ ε 1 σ ρ ∧
        (∀ ω i s, [exSlice solve][i]? = some s → ObservationMoves method s (ε ω i) (δ ω i)) ∧ ∀ s ∈ [exSlice solve], RotationsOk s ∧ ViewOk method s := by
  have hml : method ≠ .lindstrom := by rcases hm with rfl | rfl <;> simp
  obtain ⟨r, hr⟩ := available_observation exCholmod eigsh [exSlice solve] none (Or.inl rfl) σ hσ ρ method hml stabilize (fun s hs => by rw [List.mem_singleton] at hs; subst hs; exact exPair_visible _ _ solve)
  obtain ⟨f, hf⟩ := gradFull_exists method hml (exSlice solve) (exPair_visible _ _ solve)
  obtain ⟨F, hF⟩ := dpDb_some exT exT_slice exT_boards (exSlice solve) f false (Or.inr (by show (camPose exT.seed (-1)).r = _; rw [exT_cam0])) exT_index.1 exT_index.2
  have hmv := fun ω => point_moves exT exT_solved.valid (by rfl) method false (exSlice solve) (exPair_from _ _ solve) (exSlice_view method hm solve) exT_boards f hf F hF (fun _ => 0) (exPixel 0 σ ρ ω 0)
  have still : ∀ t, moved exT (fun _ => 0) t = exT.seed := by
    intro t
    rw [← moved_zero exT exT_solved.valid.wf (fun _ => 0)]
    unfold moved
    simp
  choose δ hδ using hmv
  refine ⟨r, _, inferInstance, Measure.count, exPixel 0 σ ρ, fun ω _ => δ ω, hr, exPixel_noise _ _ _ hρ, ?_, ?_⟩
  · intro ω i s hs
    match i, hs with
    | 0, hs =>
      obtain rfl := Option.some.inj hs
      obtain ⟨V0, V1, h0, h1, h2⟩ := hδ ω
      simp only [still] at h0 h1 h2
      exact ⟨V0, V1, h0, h1, h2⟩
  · intro s hs
    rw [List.mem_singleton] at hs
    subst hs
    exact ⟨exPair_rot _ _ solve, exSlice_view method hm solve⟩

end Mrcal.TriPy
