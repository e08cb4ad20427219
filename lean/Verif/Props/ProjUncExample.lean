import Verif.Props.ProjUncAvail
import Verif.Props.PropagateExamples
import Verif.Props.UncertaintyExample
/-
C81: a concrete case: one pinhole camera observes seven points. free = false: the points are fixed; the intrinsics and the pose of the camera are solved for. free = true: the points are solved for, too
-/
namespace Mrcal.ProjUnc
open Mrcal Mrcal.Pose Mrcal.Callback Mrcal.Pack Mrcal.StateLayout Mrcal.Propagate Mrcal.Uncertainty
open Mrcal.Tri (Terminated)
open MeasureTheory Matrix Mrcal.Project

noncomputable def exPt : Nat → P3
  | 0 => ⟨0, 0, 1⟩
  | 1 => ⟨1, 0, 1⟩
  | 2 => ⟨-1, 0, 1⟩
  | 3 => ⟨0, 1, 1⟩
  | 4 => ⟨1, 1, 1⟩
  | 5 => ⟨0, 0, 2⟩
  | _ => ⟨2, 0, 2⟩

noncomputable def exObs (i : Nat) : PointObs := ⟨0, 0, i, fun xy => pick2 ⟨(exPt i).x / (exPt i).z, (exPt i).y / (exPt i).z⟩ xy, 1⟩

noncomputable def exS (free : Bool) : Problem where
  d := { Nci := 1, Nce := 1, Nframes := 0, Npoints := 7, NpointsFixed := 0, Nob := 0, lens := .pinhole
         sel := { core := true, distortions := false, extrinsics := true, frames := free, warp := false, regularization := false, unityCam01 := false, outlierRejection := false } }
  W := 2
  H := 2
  spacing := 1
  warpGiven := false
  boards := []
  points := [exObs 0, exObs 1, exObs 2, exObs 3, exObs 4, exObs 5, exObs 6]
  tri := []
  triV _ := ⟨0, 0, 1⟩
  imagersizes _ := 100
  seed := fun
    | .intr i => if i < 2 then 1 else 0
    | .point i k => pick3 (exPt i.toNat) k.toNat
    | _ => 0

theorem exS_solved (free : Bool) : Solved (exS free) where
  valid := by
    refine ⟨⟨?_, ?_, ?_, ?_, ?_⟩, trivial, ?_, ?_, ?_, ?_, ?_, ?_⟩ <;> simp [exS, hasCalobjectWarp, exObs]
  nob := rfl
  term := fun o h => by simp [exS] at h
  triSel := fun h => absurd rfl h

theorem exS_states : numStates (exS false).d = 10 ∧ numStates (exS true).d = 31 := by decide

theorem exPt_z (i : Nat) : (exPt i).z ≠ 0 := by
  unfold exPt
  split <;> norm_num

theorem exS_cam (free : Bool) (i : Int) : camPose (exS free).seed i = ⟨⟨0, 0, 0⟩, ⟨0, 0, 0⟩⟩ := by
  unfold camPose camOf
  split_ifs
  · rfl
  · simp [poseAt, exS]

theorem act_identity (at_ : Bool) (p : P3) : act at_ ⟨⟨0, 0, 0⟩, ⟨0, 0, 0⟩⟩ p = p := by
  refine toVec_inj ?_
  rw [act_vec]
  simp only [rod_zero, Matrix.one_mulVec]
  cases at_ <;> ext i <;> fin_cases i <;> simp [toVec]

/-- the reference point, in the coordinates of the camera -/
theorem seenPoint_act (Q : Params) (o : PointObs) (h : o.icamE = 0) : seenPoint Q o = act false (camPose Q 0) (pointOf Q o.ipoint) := by
  refine toVec_inj ?_
  rw [act_vec]
  unfold seenPoint truthP truth camPose camOf
  rw [h, if_neg (by omega)]
  simp only [trS, rod_zero, Option.getD_some]
  ext i
  fin_cases i <;> simp [toVec]

theorem exS_point (free : Bool) (i : Nat) : pointOf (exS free).seed i = exPt i := by
  simp [pointOf, exS, pick3]

theorem exS_intr (free : Bool) (k : Int) : intrOf (exS free).d (exS free).seed 0 k = if k = 0 ∨ k = 1 then 1 else 0 := by
  rw [show intrOf (exS free).d (exS free).seed 0 k = if 0 ≤ k ∧ k < 4 then (if 0 * 4 + k < 2 then 1 else 0) else 0 from rfl]
  by_cases h : 0 ≤ k ∧ k < 4
  · obtain ⟨h1, h2⟩ := h
    interval_cases k <;> simp
  · rw [if_neg h, if_neg (by omega)]

theorem exS_regular (free : Bool) : (exS free).RegularAt (exS free).seed where
  boards := by simp [exS]
  points := by
    intro o ho _
    obtain ⟨i, rfl⟩ : ∃ i, o = exObs i := by
      simp only [exS, List.mem_cons, List.not_mem_nil, or_false] at ho
      rcases ho with h | h | h | h | h | h | h <;> exact ⟨_, h⟩
    refine ⟨?_, ?_⟩
    · intro c hc
      have := exS_cam free 0
      unfold camPose at this
      rw [show camOf (exS free).seed 0 = some c from hc] at this
      simp only [Option.getD_some] at this
      rw [this]; exact Or.inr rfl
    · refine ⟨?_, ?_, ?_⟩
      · show intrOf (exS free).d (exS free).seed 0 0 ≠ 0
        simp [exS_intr]
      · show intrOf (exS free).d (exS free).seed 0 1 ≠ 0
        simp [exS_intr]
      · show (seenPoint _ _).z ≠ 0
        rw [seenPoint_act _ _ rfl, exS_cam, act_identity, show (exObs i).ipoint = i from rfl, exS_point]
        exact exPt_z i
  tri := by
    intro i j o0 o1 _ h
    simp [exS] at h
  imager := by simp [exS]

/-- a pose leaves the identity -/
theorem act_zero_deriv (T : ℝ → RtV) (x : ℝ → P3) (r' t' x' : P3) (hr : HasDerivP (fun s => (T s).r) r' 0) (ht : HasDerivP (fun s => (T s).t) t' 0) (hx : HasDerivP x x' 0)
    (h0 : T 0 = ⟨⟨0, 0, 0⟩, ⟨0, 0, 0⟩⟩) : HasDerivP (fun s => act false (T s) (x s))
      ⟨r'.y * (x 0).z - r'.z * (x 0).y + t'.x + x'.x, r'.z * (x 0).x - r'.x * (x 0).z + t'.y + x'.y, r'.x * (x 0).y - r'.y * (x 0).x + t'.z + x'.z⟩ 0 := by
  have r0 : (T 0).r = ⟨0, 0, 0⟩ := by rw [h0]
  have dR : ∀ i j, HasDerivAt (fun s => rod (T s).r i j) (toMat ⟨0, -r'.z, r'.y, r'.z, 0, -r'.x, -r'.y, r'.x, 0⟩ i j) 0 := by
    intro i j
    have := rod_path (fun s => (T s).r) _ 0 hr (Or.inr r0) i j
    simp only [r0, comb_J_zero] at this
    exact this
  have R0 : rod (T 0).r = 1 := by rw [r0, rod_zero]
  have e : ∀ s, act false (T s) (x s) = ⟨rod (T s).r 0 0 * (x s).x + rod (T s).r 0 1 * (x s).y + rod (T s).r 0 2 * (x s).z + (T s).t.x,
      rod (T s).r 1 0 * (x s).x + rod (T s).r 1 1 * (x s).y + rod (T s).r 1 2 * (x s).z + (T s).t.y,
      rod (T s).r 2 0 * (x s).x + rod (T s).r 2 1 * (x s).y + rod (T s).r 2 2 * (x s).z + (T s).t.z⟩ := by
    intro s
    refine toVec_inj ?_
    rw [act_vec]
    ext i
    fin_cases i <;> simp [toVec, Matrix.mulVec, dotProduct, Fin.sum_univ_three]
  simp only [e]
  obtain ⟨x1, x2, x3⟩ := hx
  obtain ⟨t1, t2, t3⟩ := ht
  refine ⟨?_, ?_, ?_⟩
  · refine HasDerivAt.congr_deriv (((((dR 0 0).mul x1).add ((dR 0 1).mul x2)).add ((dR 0 2).mul x3)).add t1) ?_
    rw [R0]; simp [toMat]; ring
  · refine HasDerivAt.congr_deriv (((((dR 1 0).mul x1).add ((dR 1 1).mul x2)).add ((dR 1 2).mul x3)).add t2) ?_
    rw [R0]; simp [toMat]; ring
  · refine HasDerivAt.congr_deriv (((((dR 2 0).mul x1).add ((dR 2 1).mul x2)).add ((dR 2 2).mul x3)).add t3) ?_
    rw [R0]; simp [toMat]; ring

/-- how point i moves, in the coordinates of the camera -/
noncomputable def exVel (free : Bool) (v : Mem) (i : Nat) : P3 :=
  let T := cameraAt (exS free).d v zeroP 0
  let p' := pointAt (exS free).d v zeroP i
  ⟨T.r.y * (exPt i).z - T.r.z * (exPt i).y + T.t.x + p'.x, T.r.z * (exPt i).x - T.r.x * (exPt i).z + T.t.y + p'.y, T.r.x * (exPt i).y - T.r.y * (exPt i).x + T.t.z + p'.z⟩

/-- how the two measurements of point i move -/
noncomputable def exRate (free : Bool) (v : Mem) (i xy : Nat) : ℝ :=
  let I := intrinsicsAt (exS free).d v zeroP 0
  let q := exVel free v i
  if xy = 0 then (q.x - (exPt i).x / (exPt i).z * q.z) / (exPt i).z + (exPt i).x / (exPt i).z * I 0 + I 2
  else (q.y - (exPt i).y / (exPt i).z * q.z) / (exPt i).z + (exPt i).y / (exPt i).z * I 1 + I 3

theorem exS_rate (free : Bool) (v : Mem) (i xy : Nat) (hxy : xy < 2) : HasDerivAt (fun s => pointRes (exS free) (exObs i) xy (moved (exS free) v s)) (exRate free v i xy) 0 := by
  obtain ⟨P, hP⟩ : ∃ P, P = exS free := ⟨_, rfl⟩
  have wf : WF P.d := hP ▸ (exS_solved free).valid.wf
  have hcam := camPose_deriv P wf v 0 (by rw [hP]; simp [exS])
  have hpt : HasDerivP (fun s => pointOf (moved P v s) i) (pointAt P.d v zeroP i) 0 := by
    simp only [moved, ← point_unpacked P.d wf _ P.seed i (by omega)]
    exact point_deriv P.d P.seed (fun j => state_deriv P v j) i
  have hI : ∀ k, HasDerivAt (fun s => intrOf P.d (moved P v s) 0 k) (intrinsicsAt P.d v zeroP 0 k) 0 := by
    intro k
    simp only [moved, ← intrinsics_unpacked P.d wf _ P.seed 0 le_rfl (by rw [hP]; simp [exS])]
    exact intrinsics_deriv P.d P.seed (fun j => state_deriv P v j) 0 k
  have m0 := moved_zero P wf v
  have a0 : pointOf (moved P v 0) i = exPt i := by rw [m0, hP, exS_point]
  have key := act_zero_deriv (fun s => camPose (moved P v s) 0) (fun s => pointOf (moved P v s) i) _ _ _ hcam.1 hcam.2 hpt (by beta_reduce; rw [m0, hP, exS_cam])
  simp only [a0] at key
  have hq : ∀ s, seenPoint (moved P v s) (exObs i) = act false (camPose (moved P v s) 0) (pointOf (moved P v s) i) := fun s => seenPoint_act _ _ rfl
  have q0 : act false (camPose (moved P v 0) 0) (pointOf (moved P v 0) i) = exPt i := by rw [m0, hP, exS_cam, act_identity, exS_point]
  have hz := exPt_z i
  have inv : HasDerivAt (fun s => 1 / (act false (camPose (moved P v s) 0) (pointOf (moved P v s) i)).z) (-(exVel free v i).z / (exPt i).z ^ 2) 0 := by
    have := key.2.2.inv (by beta_reduce; rw [q0]; exact hz)
    simp only [q0] at this
    simp only [one_div]
    refine HasDerivAt.congr_deriv this ?_
    rw [hP]; rfl
  have hl : P.d.lens = .pinhole := by rw [hP]; rfl
  have hres : ∀ s, pointRes P (exObs i) xy (moved P v s) = pick2 (Cam.pinhole (Cam.coreOf (intrOf P.d (moved P v s) 0)) (act false (camPose (moved P v s) 0) (pointOf (moved P v s) i))).q xy - (exObs i).obs xy := by
    intro s
    unfold pointRes
    rw [if_neg (by simp [exObs]), hq, hl, show (exObs i).weight = 1 from rfl, one_mul]
    rfl
  rw [← hP]
  simp only [hres]
  refine HasDerivAt.sub_const _ ?_
  have i0 : intrOf P.d (moved P v 0) 0 0 = 1 := by rw [m0, hP, exS_intr]; simp
  have i1 : intrOf P.d (moved P v 0) 0 1 = 1 := by rw [m0, hP, exS_intr]; simp
  have ev : exVel free v i = ⟨(camVel P.d v 0).r.y * (exPt i).z - (camVel P.d v 0).r.z * (exPt i).y + (camVel P.d v 0).t.x + (pointAt P.d v zeroP i).x,
      (camVel P.d v 0).r.z * (exPt i).x - (camVel P.d v 0).r.x * (exPt i).z + (camVel P.d v 0).t.y + (pointAt P.d v zeroP i).y,
      (camVel P.d v 0).r.x * (exPt i).y - (camVel P.d v 0).r.y * (exPt i).x + (camVel P.d v 0).t.z + (pointAt P.d v zeroP i).z⟩ := by
    rw [hP]; rfl
  rw [← ev] at key
  unfold exRate
  rw [← hP]
  interval_cases xy
  · rw [if_pos rfl]
    refine HasDerivAt.congr_deriv (((key.1.mul inv).mul (hI 0)).add (hI 2)) ?_
    simp only [Pi.mul_apply, q0, i0]
    generalize intrinsicsAt P.d v zeroP 0 = I
    field_simp
    ring
  · rw [if_neg (by norm_num)]
    refine HasDerivAt.congr_deriv (((key.2.1.mul inv).mul (hI 1)).add (hI 3)) ?_
    simp only [Pi.mul_apply, q0, i1]
    generalize intrinsicsAt P.d v zeroP 0 = I
    field_simp
    ring


theorem exS_out (free : Bool) : ∃ out, optimizerCallback ((exS free).ctx (bPacked (exS free))) = some out ∧ out.x = List.replicate 14 0 ∧
    ∀ v i xy, i < 7 → xy < 2 → out.Jv (2 * i + xy) v = exRate free v i xy := by
  have hP := exS_solved free
  have hu : unpacked (exS free).d (exS free).seed (bPacked (exS free)) = (exS free).seed := unpack_pack_state (exS free).d hP.valid.wf (exS free).seed _
  obtain ⟨out, ho⟩ : ∃ out, optimizerCallback ((exS free).ctx (bPacked (exS free))) = some out := by
    obtain ⟨out, pairs, h1, -⟩ := callback_jacobian (b := fun _ => bPacked (exS free)) (b' := fun _ => 0) (t := 0) (exS free) hP.valid hP.term (fun j => hasDerivAt_const _ _) (by rw [hu]; exact exS_regular free)
    exact ⟨out, h1⟩
  refine ⟨out, ho, ?_, ?_⟩
  · obtain ⟨out', pairs, h1, h2, h3, -⟩ := callback_jacobian (b := fun _ => bPacked (exS free)) (b' := fun _ => 0) (t := 0) (exS free) hP.valid hP.term (fun j => hasDerivAt_const _ _) (by rw [hu]; exact exS_regular free)
    obtain rfl := Option.some.inj (ho.symm.trans h1)
    rw [h3, hu]
    have hp : pairs = [] := by
      refine List.eq_nil_iff_forall_not_mem.2 fun p hp => ?_
      have := ((h2.1 p.1 p.2).1 hp).2.1
      simp [exS] at this
    have z : ∀ i xy, xy < 2 → pointRes (exS free) (exObs i) xy (exS free).seed = 0 := by
      intro i xy hxy
      unfold pointRes
      rw [if_neg (by simp [exObs]), show (exObs i).weight = 1 from rfl, one_mul, sub_eq_zero, seenPoint_act _ _ rfl, exS_cam, act_identity, show (exObs i).ipoint = i from rfl, exS_point]
      rw [show (exObs i).icamI = 0 from rfl, show (exS free).d.lens = .pinhole from rfl]
      have e : Cam.pix .pinhole (intrOf (exS free).d (exS free).seed 0) (exPt i) = ⟨(exPt i).x / (exPt i).z, (exPt i).y / (exPt i).z⟩ := by
        simp only [Cam.pix, Cam.lensPixel, Option.getD_some, Cam.pinhole, Cam.coreOf, exS_intr]
        norm_num [div_eq_mul_inv]
      rw [e]; rfl
    have e : residuals (exS free) pairs = ([0, 1, 2, 3, 4, 5, 6].flatMap fun i => [pointRes (exS free) (exObs i) 0, pointRes (exS free) (exObs i) 1]) := by
      simp only [residuals, hp]
      have : regResiduals (exS free) = [] := by simp [regResiduals, exS]
      rw [this]
      rfl
    rw [e]
    simp only [List.flatMap_cons, List.flatMap_nil, List.map_append, List.map_cons, List.map_nil, z _ 0 (by omega), z _ 1 (by omega)]
    rfl
  · intro v i xy hi hxy
    have hb : (fun j => bPacked (exS free) j + 0 * v j) = bPacked (exS free) := by funext j; simp
    obtain ⟨out', pairs, h1, h2, h3, h4⟩ := callback_jacobian (b := fun s j => bPacked (exS free) j + s * v j) (b' := v) (t := 0) (exS free) hP.valid hP.term (fun j => state_deriv _ v j) (by rw [hb, hu]; exact exS_regular free)
    rw [hb] at h1
    obtain rfl := Option.some.inj (ho.symm.trans h1)
    have hf : (residuals (exS free) pairs)[2 * i + xy]? = some (pointRes (exS free) (exObs i) xy) := by
      simp only [residuals, exS]
      interval_cases i <;> interval_cases xy <;> rfl
    exact (h4 _ _ hf).unique (exS_rate free v i xy hxy)

theorem exS_zero_ten (free : Bool) (v : Mem) (hp : ∀ i : Nat, pointAt (exS free).d v zeroP i = ⟨0, 0, 0⟩) (h : ∀ i xy, i < 7 → xy < 2 → exRate free v i xy = 0) :
    (∀ k, 0 ≤ k → k < 4 → intrinsicsAt (exS free).d v zeroP 0 k = 0) ∧ cameraAt (exS free).d v zeroP 0 = ⟨⟨0, 0, 0⟩, ⟨0, 0, 0⟩⟩ := by
  unfold exRate exVel at h
  obtain ⟨⟨⟨r0, r1, r2⟩, ⟨t0, t1, t2⟩⟩, hT⟩ : ∃ T, T = cameraAt (exS free).d v zeroP 0 := ⟨_, rfl⟩
  obtain ⟨I, hI⟩ : ∃ I, I = intrinsicsAt (exS free).d v zeroP 0 := ⟨_, rfl⟩
  rw [← hT, ← hI]
  simp only [hp, ← hT, ← hI] at h
  have a0 := h 0 0 (by omega) (by omega)
  have a1 := h 1 0 (by omega) (by omega)
  have a2 := h 2 0 (by omega) (by omega)
  have a3 := h 3 0 (by omega) (by omega)
  have a4 := h 4 0 (by omega) (by omega)
  have a5 := h 5 0 (by omega) (by omega)
  have a6 := h 6 0 (by omega) (by omega)
  have b0 := h 0 1 (by omega) (by omega)
  have b3 := h 3 1 (by omega) (by omega)
  have b5 := h 5 1 (by omega) (by omega)
  simp only [exPt] at a0 a1 a2 a3 a4 a5 a6 b0 b3 b5
  norm_num at a0 a1 a2 a3 a4 a5 a6 b0 b3 b5
  have tx : t0 = 0 := by linarith
  have ry0 : r1 + I 2 = 0 := by linarith
  have tz : t2 = 0 := by linarith
  have ry : r1 = 0 := by linarith
  have i0 : I 0 = 0 := by linarith
  have i2 : I 2 = 0 := by linarith
  have rz : r2 = 0 := by linarith
  have rx : r0 = 0 := by linarith
  have ty : t1 = 0 := by linarith
  have i3 : I 3 = 0 := by linarith
  have i1 : I 1 = 0 := by linarith
  refine ⟨fun k h1 h2 => ?_, by rw [tx, tz, ry, rz, rx, ty]⟩
  interval_cases k
  · exact i0
  · exact i1
  · exact i2
  · exact i3

theorem exS_states0 : numStates (exS false).d = 10 := exS_states.1

theorem exS_I (free : Bool) (b : Mem) (Q : Params) (k : Int) (h0 : 0 ≤ k) (h4 : k < 4) : intrinsicsAt (exS free).d b Q 0 k = b k * (if k < 2 then scaleFocal else scaleCenter) := by
  have e : stateIndexIntrinsics 0 (exS free).d = 0 := by cases free <;> decide
  unfold intrinsicsAt
  rw [e]
  simp only
  rw [if_neg (by show ¬ (k < 0 ∨ 4 ≤ k); omega), if_pos (show k < Ncore (exS free).d.lens from h4), if_pos (show (exS free).d.sel.core = true from rfl), zero_add]

theorem exS_C (free : Bool) (b : Mem) (Q : Params) : cameraAt (exS free).d b Q 0 = unpackPose scaleRotCamera scaleTransCamera b 4 := by
  unfold cameraAt
  rw [if_pos (show (exS free).d.sel.extrinsics = true from rfl), show stateIndexExtrinsics 0 (exS free).d = 4 by cases free <;> decide]

theorem exS_P0 (b : Mem) (Q : Params) (i : Int) : pointAt (exS false).d b Q i = pointOf Q i := by
  unfold pointAt pointOf
  rw [if_neg (by simp [exS])]

theorem exS_P1 (b : Mem) (Q : Params) (i : Int) (h0 : 0 ≤ i) (h1 : i < 7) :
    pointAt (exS true).d b Q i = ⟨b (10 + 3 * i + 0) * scalePoint, b (10 + 3 * i + 1) * scalePoint, b (10 + 3 * i + 2) * scalePoint⟩ := by
  unfold pointAt
  rw [if_pos (by simp [exS, h1])]
  have : stateIndexPoints i (exS true).d = 10 + 3 * i := by interval_cases i <;> decide
  rw [this]

theorem scales_pos : scaleRotCamera ≠ 0 ∧ scaleTransCamera ≠ 0 ∧ scalePoint ≠ 0 ∧ scaleFocal ≠ 0 ∧ scaleCenter ≠ 0 := by
  have := Real.pi_ne_zero
  refine ⟨?_, ?_, ?_, ?_, ?_⟩
  · unfold scaleRotCamera; positivity
  · norm_num [scaleTransCamera]
  · norm_num [scalePoint, scaleTransFrame]
  · norm_num [scaleFocal]
  · norm_num [scaleCenter]

theorem pose_zero (b : Mem) (h : unpackPose scaleRotCamera scaleTransCamera b 4 = ⟨⟨0, 0, 0⟩, ⟨0, 0, 0⟩⟩) (k : Int) (h0 : 0 ≤ k) (h6 : k < 6) : b (4 + k) = 0 := by
  obtain ⟨s1, s2, -⟩ := scales_pos
  simp only [unpackPose, RtV.mk.injEq, P3.mk.injEq, mul_eq_zero] at h
  obtain ⟨⟨c0, c1, c2⟩, c3, c4, c5⟩ := h
  interval_cases k
  · exact c0.resolve_right s1
  · exact c1.resolve_right s1
  · exact c2.resolve_right s1
  · exact c3.resolve_right s2
  · exact c4.resolve_right s2
  · exact c5.resolve_right s2

/-- every state can be seen -/
theorem exS_rank (out : Callback.Out) (ho : optimizerCallback ((exS false).ctx (bPacked (exS false))) = some out) : FullRank out (numStates (exS false).d) := by
  obtain ⟨out', ho', hx, hJ⟩ := exS_out false
  obtain rfl := Option.some.inj (ho.symm.trans ho')
  intro v hv j hj hj'
  rw [exS_states0] at hj'
  obtain ⟨h1, h2⟩ := exS_zero_ten false v (fun i => by simp [exS_P0, pointOf, zeroP]) fun i xy hi hxy => by
    rw [← hJ v i xy hi hxy]
    exact hv _ (by rw [hx, List.length_replicate]; omega)
  rw [exS_C] at h2
  by_cases h4 : j < 4
  · have := h1 j hj h4
    rw [exS_I _ _ _ _ hj h4] at this
    rcases mul_eq_zero.1 this with h | h
    · exact h
    · obtain ⟨-, -, -, s1, s2⟩ := scales_pos
      split_ifs at h
      · exact absurd h s1
      · exact absurd h s2
  · have := pose_zero v h2 (j - 4) (by omega) (by omega)
    rwa [show 4 + (j - 4) = j by ring] at this

theorem getD_replicate_zero (n i : Nat) : (List.replicate n (0 : ℝ)).getD i 0 = 0 := by
  rw [List.getD_eq_getElem?_getD, List.getElem?_replicate]
  split_ifs <;> rfl

theorem exRate_zero (free : Bool) (i xy : Nat) : exRate free (fun _ => 0) i xy = 0 := by
  have hp : pointAt (exS free).d (fun _ => 0) zeroP i = ⟨0, 0, 0⟩ := by
    unfold pointAt
    split_ifs <;> simp [zeroP]
  have hc : cameraAt (exS free).d (fun _ => 0) zeroP 0 = ⟨⟨0, 0, 0⟩, ⟨0, 0, 0⟩⟩ := by rw [exS_C]; simp [unpackPose]
  unfold exRate exVel
  simp only [hp, hc, exS_I free _ _ 0 (by omega) (by omega), exS_I free _ _ 1 (by omega) (by omega), exS_I free _ _ 2 (by omega) (by omega), exS_I free _ _ 3 (by omega) (by omega)]
  split_ifs <;> simp

theorem exS_opt (free : Bool) (out : Callback.Out) (ho : optimizerCallback ((exS free).ctx (bPacked (exS free))) = some out) : IsOptimum out (fun _ => 0) fun _ => 0 := by
  obtain ⟨out', ho', hx, hJ⟩ := exS_out free
  obtain rfl := Option.some.inj (ho.symm.trans ho')
  intro w
  have : Propagate.cost out (fun _ => 0) (fun _ => 0) = 0 := by
    refine Finset.sum_eq_zero fun i hi => ?_
    rw [hx, List.length_replicate, Finset.mem_range] at hi
    have := hJ (fun _ => 0) (i / 2) (i % 2) (by omega) (by omega)
    rw [show 2 * (i / 2) + i % 2 = i by omega, exRate_zero] at this
    rw [this, hx, getD_replicate_zero]
    norm_num
  rw [this]
  exact Finset.sum_nonneg fun i _ => sq_nonneg _

/-! ### The cross-reprojection -/

theorem exS_bcam (free : Bool) (k : Int) (h0 : 0 ≤ k) (h6 : k < 6) : bPacked (exS free) (4 + k) = 0 := by
  have wf := (exS_solved free).valid.wf
  refine pose_zero _ ?_ k h0 h6
  rw [← exS_C free _ (exS free).seed, camera_unpacked _ wf _ _ 0 le_rfl (by simp [exS]), show unpacked (exS free).d (exS free).seed (bPacked (exS free)) = (exS free).seed from unpack_pack_state (exS free).d wf (exS free).seed _]
  simp [poseAt, exS]

theorem exS_bpt (i : Nat) (h : i < 7) : (⟨bPacked (exS true) (10 + 3 * i + 0) * scalePoint, bPacked (exS true) (10 + 3 * i + 1) * scalePoint, bPacked (exS true) (10 + 3 * i + 2) * scalePoint⟩ : P3) = exPt i := by
  have wf := (exS_solved true).valid.wf
  rw [← exS_P1 _ (exS true).seed i (by omega) (by omega), point_unpacked _ wf _ _ _ (by omega), show unpacked (exS true).d (exS true).seed (bPacked (exS true)) = (exS true).seed from unpack_pack_state (exS true).d wf (exS true).seed _, exS_point]

/-- the camera moves -/
noncomputable def exMove (u : Fin 6 → ℝ) : Mem := blk 4 6 fun x => (if h : x < 6 then u ⟨x, h⟩ else 0) / poseScale scaleRotCamera scaleTransCamera x

theorem exMove_cam (free : Bool) (u : Fin 6 → ℝ) : cameraAt (exS free).d (exMove u) zeroP 0 = ⟨⟨u 0, u 1, u 2⟩, ⟨u 3, u 4, u 5⟩⟩ := by
  obtain ⟨s1, s2, -⟩ := scales_pos
  rw [exS_C]
  simp [unpackPose, exMove, blk, poseScale, s1, s2]

theorem exMove_pt (free : Bool) (u : Fin 6 → ℝ) (i : Nat) : pointAt (exS free).d (exMove u) zeroP i = ⟨0, 0, 0⟩ := by
  have zz : pointOf zeroP i = ⟨0, 0, 0⟩ := by simp [pointOf, zeroP]
  cases free
  · rw [exS_P0, zz]
  · by_cases h : i < 7
    · rw [exS_P1 _ _ _ (by omega) (by omega)]
      have z : ∀ j : Int, 10 ≤ j → exMove u j = 0 := fun j hj => blk_out _ _ _ _ (by omega)
      rw [z _ (by omega), z _ (by omega), z _ (by omega), zero_mul]
    · unfold pointAt
      rw [if_neg (by simp [exS]; omega)]
      exact zz

theorem exMove_I (free : Bool) (u : Fin 6 → ℝ) (k : Int) (h0 : 0 ≤ k) (h4 : k < 4) : intrinsicsAt (exS free).d (exMove u) zeroP 0 k = 0 := by
  rw [exS_I _ _ _ _ h0 h4]
  have : exMove u k = 0 := blk_out _ _ _ _ (by omega)
  rw [this, zero_mul]

/-- the transformation moves the camera: at the identity it's the pose of the camera itself -/
theorem exS_vel0 (free : Bool) (i : Int) (u : Fin 6 → ℝ) (j : Int) :
    ∑ k : Fin 6, vel (exS free).d true (bPacked (exS free)) ⟨0, 0, .point i⟩ k j * u k = exMove u j := by
  have he : Source.e (exS free).d ⟨0, 0, .point i⟩ = some 4 := by cases free <;> rfl
  have ht : tinyr0_gradientr0 ⟨0, 0, 0⟩ = identityR := by
    unfold tinyr0_gradientr0
    simp only
    rw [if_pos (by norm_num [norm2])]
  have hb := exS_bcam free
  have g : ∀ x : Fin 6, ∀ k : Fin 6, gRt (sub (bPacked (exS free)) 4) scaleRotCamera scaleTransCamera x k = (if x = k then 1 else 0) / poseScale scaleRotCamera scaleTransCamera x := by
    intro x k
    unfold gRt Uncertainty.sub
    have b0 := hb 0 (by omega) (by omega)
    have b1 := hb 1 (by omega) (by omega)
    have b2 := hb 2 (by omega) (by omega)
    have b3 := hb 3 (by omega) (by omega)
    have b4 := hb 4 (by omega) (by omega)
    have b5 := hb 5 (by omega) (by omega)
    norm_num at b0 b1 b2 b3 b4 b5
    congr 1
    norm_num [b0, b1, b2, ht]
    fin_cases x <;> fin_cases k <;> simp [poseD, flat, identityR, skewCol, b3, b4, b5]
  unfold vel
  simp only [if_true, he]
  unfold exMove
  by_cases hj : (4 : Int) ≤ j ∧ j < 4 + (6 : Nat)
  · obtain ⟨x, rfl⟩ : ∃ x : Fin 6, j = 4 + (x : Nat) := ⟨⟨(j - 4).toNat, by omega⟩, by simp; omega⟩
    simp only [blk_at, g]
    rw [Finset.sum_eq_single x]
    · simp [div_eq_mul_inv, mul_comm]
    · intro k _ hk
      rw [if_neg (Ne.symm hk)]; simp
    · simp
  · simp only [blk, if_neg hj, zero_mul, Finset.sum_const_zero]

/-- the transformation moves the point -/
theorem exS_vel1 (i : Nat) (hi : i < 7) (u : Fin 6 → ℝ) (xy : Nat) :
    exRate true (fun j => ∑ k : Fin 6, vel (exS true).d false (bPacked (exS true)) ⟨0, 0, .point i⟩ k j * u k) i xy = exRate true (exMove u) i xy := by
  have hf : Source.f (exS true).d ⟨0, 0, .point i⟩ = none := rfl
  have hp : Source.p (exS true).d ⟨0, 0, .point i⟩ = some (10 + 3 * (i : Int)) := by interval_cases i <;> rfl
  obtain ⟨v, hv⟩ : ∃ v : Mem, v = fun j => ∑ k : Fin 6, vel (exS true).d false (bPacked (exS true)) ⟨0, 0, .point i⟩ k j * u k := ⟨_, rfl⟩
  have e : ∀ j, v j = ∑ k : Fin 6, blk (10 + 3 * i) 3 (fun x => gPt (sub (bPacked (exS true)) (10 + 3 * i)) x k) j * u k := by
    intro j
    rw [hv]
    unfold vel
    simp only [Bool.false_eq_true, if_false, hf, hp]
  rw [← hv]
  have z : ∀ j, j < 10 → v j = 0 := by
    intro j hj
    rw [e]
    refine Finset.sum_eq_zero fun k _ => ?_
    rw [blk_out _ _ _ _ (by omega), zero_mul]
  have hC : cameraAt (exS true).d v zeroP 0 = ⟨⟨0, 0, 0⟩, ⟨0, 0, 0⟩⟩ := by
    rw [exS_C]
    simp [unpackPose, z]
  have hI : ∀ k, 0 ≤ k → k < 4 → intrinsicsAt (exS true).d v zeroP 0 k = 0 := by
    intro k h0 h4
    rw [exS_I _ _ _ _ h0 h4, z k (by omega), zero_mul]
  have sp : scalePoint ≠ 0 := scales_pos.2.2.1
  have hb := exS_bpt i hi
  have hP : pointAt (exS true).d v zeroP i = ⟨u 1 * (exPt i).z - u 2 * (exPt i).y + u 3, u 2 * (exPt i).x - u 0 * (exPt i).z + u 4, u 0 * (exPt i).y - u 1 * (exPt i).x + u 5⟩ := by
    rw [exS_P1 _ _ _ (by omega) (by omega), ← hb]
    have ev : ∀ x : Fin 3, v (10 + 3 * (i : Int) + (x : Nat)) = ∑ k : Fin 6, gPt (Uncertainty.sub (bPacked (exS true)) (10 + 3 * i)) x k * u k := by
      intro x
      rw [e]
      simp only [blk_at]
    have e0 := ev 0
    have e1 := ev 1
    have e2 := ev 2
    simp only [Fin.sum_univ_six, gPt, pointD, skewCol, Uncertainty.sub] at e0 e1 e2
    norm_num at e0 e1 e2
    simp only [add_zero]
    rw [e0, e1, e2]
    simp only [P3.mk.injEq]
    refine ⟨?_, ?_, ?_⟩ <;> field_simp <;> ring
  unfold exRate exVel
  simp only [hC, hP, exMove_cam, exMove_pt, hI 0 (by omega) (by omega), hI 1 (by omega) (by omega), hI 2 (by omega) (by omega), hI 3 (by omega) (by omega),
    exMove_I true u 0 (by omega) (by omega), exMove_I true u 1 (by omega) (by omega), exMove_I true u 2 (by omega) (by omega), exMove_I true u 3 (by omega) (by omega)]
  split_ifs <;> simp

/-- K exists, for both -/
theorem exS_cost (free : Bool) (out : Callback.Out) (ho : optimizerCallback ((exS free).ctx (bPacked (exS free))) = some out) (icam : Int) (hi : icam = 0 ∨ (icam = -1 ∧ free = true)) (u : Fin 6 → ℝ) (hu : u ≠ 0) :
    0 < Uncertainty.cost ((exS free).ctx (bPacked (exS free))) out icam (bPacked (exS free)) u fun _ => 0 := by
  obtain ⟨out', ho', hx, hJ⟩ := exS_out free
  obtain rfl := Option.some.inj (ho.symm.trans ho')
  by_contra hc
  refine hu ?_
  have nn : ∀ l : List (Source × Nat), ∀ f : Source × Nat → ℝ, (l.map fun p => f p ^ 2).sum ≤ 0 → ∀ p ∈ l, f p = 0 := by
    intro l f
    induction l with
    | nil => simp
    | cons a l ih =>
      intro h p hp
      rw [List.map_cons, List.sum_cons] at h
      have n : 0 ≤ (l.map fun p => f p ^ 2).sum := List.sum_nonneg (by intro x hx; obtain ⟨p, -, rfl⟩ := List.mem_map.1 hx; positivity)
      rcases List.mem_cons.1 hp with rfl | hp
      · nlinarith [sq_nonneg (f p)]
      · exact ih (by nlinarith [sq_nonneg (f a)]) p hp
  have key := nn _ _ (not_lt.1 hc)
  have mem : ∀ i xy : Nat, i < 7 → xy < 2 → ((⟨0, 0, .point i⟩ : Source), 2 * i + xy) ∈ usedMeasurements ((exS free).ctx (bPacked (exS free))) icam := by
    intro i xy h1 h2
    refine List.mem_filter.2 ⟨List.mk_mem_zipIdx_iff_getElem?.2 ?_, ?_⟩
    · interval_cases i <;> interval_cases xy <;> rfl
    · simp; omega
  have r0 : ∀ i xy : Nat, i < 7 → xy < 2 → exRate free (exMove u) i xy = 0 := by
    intro i xy h1 h2
    have := key _ (mem i xy h1 h2)
    simp only [ite_self, add_zero] at this
    rw [hJ _ _ _ h1 h2] at this
    rcases hi with rfl | ⟨rfl, rfl⟩
    · simp only [show decide ((0 : Int) ≥ 0) = true from rfl] at this
      rw [show (fun j => ∑ k : Fin 6, vel ((exS free).ctx (bPacked (exS free))).d true (bPacked (exS free)) ⟨0, 0, .point i⟩ k j * u k) = exMove u from funext fun j => exS_vel0 free i u j] at this
      exact this
    · simp only [show decide ((-1 : Int) ≥ 0) = false from rfl] at this
      rw [← exS_vel1 i h1]
      exact this
  have := (exS_zero_ten free (exMove u) (exMove_pt free u) r0).2
  rw [exMove_cam] at this
  simp only [RtV.mk.injEq, P3.mk.injEq] at this
  obtain ⟨⟨c0, c1, c2⟩, c3, c4, c5⟩ := this
  ext k
  fin_cases k
  · exact c0
  · exact c1
  · exact c2
  · exact c3
  · exact c4
  · exact c5

/-! ### All hypotheses hold -/

theorem exS_supported (free : Bool) (icam : Int) : Supported ((exS free).ctx (bPacked (exS free))) icam :=
  ⟨Or.inr (by cases free <;> decide), fun h => absurd h (by cases free <;> decide), fun _ => by show 0 < numIntrinsicsOpt (exS free).d.sel (exS free).d.lens; cases free <;> decide⟩

theorem exS_rows (free : Bool) : NoEmptyRows ((exS free).ctx (bPacked (exS free))) := fun s _ => Or.inl (by show 0 < numIntrinsicsOpt (exS free).d.sel (exS free).d.lens; cases free <;> decide)

theorem exS_observes (free : Bool) (x : Int) : Observes (exS free) 0 x ↔ x = 0 := by
  unfold Observes
  simp [exS, exObs, eq_comm]

theorem exS_poses (free : Bool) : PosesKnown (exS free) 0 1 :=
  ⟨0, by omega, fun x => by rw [exS_observes]; push_cast; omega, Or.inr ⟨le_rfl, rfl⟩⟩

theorem exS_posesOk (free : Bool) : PosesOk (exS free) 0 where
  cams := fun e _ => by rw [exS_cam]; exact Or.inr rfl
  frames := fun _ i hi => by simp [exS] at hi

/-- each of the methods has a case -/
theorem exS_method (free : Bool) (out : Callback.Out) (ho : optimizerCallback ((exS free).ctx (bPacked (exS free))) = some out) (method : String)
    (h : method = "cross-reprojection-ccp" ∨ (method = "cross-reprojection-rrp-Jfp" ∧ free = true) ∨ (method = "mean-pcam" ∧ free = false)) : MethodOk (exS free) out method 0 := by
  rcases h with h | ⟨h, hf⟩ | ⟨h, hf⟩
  · exact Or.inl ⟨h, exS_supported _ _, fun u hu => exS_cost free out ho 0 (Or.inl rfl) u hu⟩
  · exact Or.inr (Or.inl ⟨h, exS_supported _ _, fun u hu => exS_cost free out ho (-1) (Or.inr ⟨rfl, hf⟩) u hu, by show 0 < numIntrinsicsOpt (exS free).d.sel (exS free).d.lens; cases free <;> decide, exS_poses free⟩)
  · refine Or.inr (Or.inr ⟨h, fun hh => ?_, by show 0 < numIntrinsicsOpt (exS free).d.sel (exS free).d.lens; cases free <;> decide, 1, exS_poses free⟩)
    rw [hf] at hh
    exact absurd hh (by decide)

theorem exS_lens (free : Bool) (p : P3) (h : p.z ≠ 0) : Cam.LensRegular (exS free).d.lens (intrOf (exS free).d (exS free).seed 0) p := by
  refine ⟨?_, ?_, h⟩
  · show intrOf (exS free).d (exS free).seed 0 0 ≠ 0
    simp [exS_intr]
  · show intrOf (exS free).d (exS free).seed 0 1 ≠ 0
    simp [exS_intr]

/-- `gradient_correct`, `infinity_gradient`, `gradient_available`: each of the three methods has a gradient -/
example (free : Bool) (method : String) (h : method = "cross-reprojection-ccp" ∨ (method = "cross-reprojection-rrp-Jfp" ∧ free = true) ∨ (method = "mean-pcam" ∧ free = false)) (at_ : Bool) (p : P3) (hz : p.z ≠ 0) :
    LapackOk exactLapack ∧ Solved (exS free) ∧ 0 < numStates (exS free).d ∧ NoEmptyRows ((exS free).ctx (bPacked (exS free))) ∧ Cam.LensRegular (exS free).d.lens (intrOf (exS free).d (exS free).seed 0) p ∧
    PosesOk (exS free) 0 ∧ (∀ lin, (exS free).d.lens ≠ .cahvore lin) ∧ ∃ F, grad exactLapack (exS free) method 0 at_ p = some F := by
  obtain ⟨out, ho, -⟩ := exS_out free
  have h0 : 0 < numStates (exS free).d := by cases free <;> decide
  exact ⟨exactLapack_ok, exS_solved free, h0, exS_rows free, exS_lens free p hz, exS_posesOk free, fun lin h => by simp [exS] at h,
    (gradient_available exactLapack exactLapack_ok (exS free) (exS_solved free) h0 (exS_rows free) out ho method 0 at_ p).2 ⟨le_rfl, by simp [exS], exS_method free out ho method h⟩⟩

/-- the uncertainty is available -/
theorem exS_available (eigsh : Eigsh) (he : ∀ V, (eigsh 2 V).isSome) (method : String) (h : method = "cross-reprojection-ccp" ∨ method = "mean-pcam") (at_ : Bool) (what : String)
    (hw : what ∈ ["covariance", "worstdirection-stdev", "rms-stdev", "_covariance-raw"]) (σ : ℝ) (p : P3) : ∃ r, projectionUncertainty exactLapack exCholmod eigsh (exS false) 0 method at_ what (some σ) p = some r := by
  obtain ⟨out, ho, hx, -⟩ := exS_out false
  refine (uncertainty_available exactLapack exactLapack_ok exCholmod exCholmod_ok eigsh he (exS false) (exS_solved false) (exS_rows false) out ho method 0 at_ what (some σ) p).2
    ⟨⟨le_rfl, by simp [exS], exS_method false out ho method ?_⟩, hw, by decide, ?_, exS_rank out ho, Or.inl (by decide), Or.inl (by simp)⟩
  · rcases h with h | h
    · exact Or.inl h
    · exact Or.inr (Or.inr ⟨h, rfl⟩)
  · rw [hx, List.length_replicate]
    decide

/-- a least-squares problem of full rank has an optimum, whatever the noise -/
theorem optimum_exists (c : Ctx) (ok : CtxOk c) (idx : IdxOk c) (out : Callback.Out) (ho : optimizerCallback c = some out) (h0 : 0 < numStates c.d) (hr : FullRank out (numStates c.d)) (noise : Nat → ℝ) :
    ∃ v, IsOptimum out noise v := by
  have inj := gram_injective _ ((fullRank_iff c ok idx out ho h0).1 hr)
  obtain ⟨J, hJ⟩ : ∃ J, J = (csrOf out).dense out.x.length (numStates c.d).toNat := ⟨_, rfl⟩
  rw [← hJ] at inj
  have sur : Function.Surjective (Matrix.mulVecLin (Jᵀ * J)) := by
    refine LinearMap.injective_iff_surjective.1 ?_
    refine (injective_iff_map_eq_zero _).2 fun v hv => inj v ?_
    rwa [Matrix.mulVecLin_apply] at hv
  obtain ⟨w, hw⟩ := sur (-(Jᵀ *ᵥ fun i : Fin out.x.length => out.x.getD i 0 - noise i))
  refine ⟨Propagate.ext w, (isOptimum_iff c ok idx out ho h0 noise _).2 ?_⟩
  rw [← hJ]
  have e : (fun j : Fin (numStates c.d).toNat => Propagate.ext w ((j : Nat) : Int)) = w := funext fun j => ext_apply w j
  rw [e, Matrix.mulVec_add, Matrix.mulVec_mulVec]
  rw [Matrix.mulVecLin_apply] at hw
  rw [hw, add_neg_cancel]

/-- **C81**: the experiment can always be made: whenever the uncertainty is available, and whatever the noise, there's a re-solved calibration, and the pixel moves -/
theorem redone_exists (L : Lapack) (hL : LapackOk L) (C : Cholmod) (hC : CholmodOk C) (eigsh : Eigsh) (P : Problem) (hP : Solved P) (method : String) (icam : Int) (atinfinity : Bool) (p : P3)
    (hreg : Cam.LensRegular P.d.lens (intrOf P.d P.seed icam) p) (hrot : method ≠ "cross-reprojection-ccp" → PosesOk P icam) (σ : ℝ) (r : Res)
    (h : projectionUncertainty L C eigsh P icam method atinfinity "covariance" (some σ) p = some r) (hopt : ∀ out, optimizerCallback (P.ctx (bPacked P)) = some out → IsOptimum out (fun _ => 0) fun _ => 0)
    {Ω : Type} [MeasurableSpace Ω] (μ : Measure Ω) (noise : Ω → Nat → ℝ) (hw : WhiteNoise μ noise (numObserved (P.ctx (bPacked P))) σ) : ∃ δ, Redone P method icam atinfinity p σ μ noise δ := by
  obtain ⟨F, hF, hp⟩ := unc_some h
  obtain ⟨out, ho⟩ := callback_some hp
  have ok := hP.ctx (bPacked P)
  have idx := problem_idx P hP.valid (bPacked P)
  obtain ⟨-, h0, -, hr, -⟩ := (propagate_succeeds_iff C hC eigsh "covariance" _ ok idx out ho 2 (by omega) _ (some σ) (by intro h; simp at h)).1 ⟨_, hp⟩
  have hs := fun ω => optimum_exists _ ok idx out ho h0 hr (noise ω)
  choose step hstep using hs
  refine ⟨fun ω => dot P.d F (step ω), hopt, hw, step, ?_, fun ω => ?_⟩
  · intro out' ho' ω
    obtain rfl := Option.some.inj (ho.symm.trans ho')
    exact hstep ω
  · exact (gradient_correct L hL P hP h0 method icam atinfinity p hreg hrot F hF (step ω) _).2 fun _ _ => rfl

theorem covariance_is_matrix {C : Cholmod} {eigsh : Eigsh} {c : Ctx} {N : Nat} {F : Mem} {σ : Option ℝ} {r : Res} (h : propagate C eigsh "covariance" c N F σ = some r) : ∃ V, r = .matrix V := by
  unfold propagate at h
  rw [if_neg (by simp)] at h
  simp only [Option.bind_eq_bind, Option.bind_eq_some_iff] at h
  obtain ⟨b, hb, o, hoo, f, hf, l, hl, st, hst, fl, hfl, hr⟩ := h
  rw [if_neg (by decide), if_pos trivial] at hr
  exact ⟨_, (Option.some.inj hr).symm⟩

/-- `uncertainty_covariance`, `redone_exists`: all the hypotheses are met -/
example (eigsh : Eigsh) (he : ∀ V, (eigsh 2 V).isSome) (method : String) (h : method = "cross-reprojection-ccp" ∨ method = "mean-pcam") (at_ : Bool) (σ : ℝ) (p : P3) (hz : p.z ≠ 0) :
    ∃ V δ, projectionUncertainty exactLapack exCholmod eigsh (exS false) 0 method at_ "covariance" (some σ) p = some (.matrix V) ∧
      Redone (exS false) method 0 at_ p σ (Measure.count : Measure (Fin (numObserved ((exS false).ctx (bPacked (exS false)))))) (fun ω i => if i = (ω : Nat) then σ else 0) δ := by
  obtain ⟨r, hr⟩ := exS_available eigsh he method h at_ "covariance" (by simp) σ p
  obtain ⟨δ, hδ⟩ := redone_exists exactLapack exactLapack_ok exCholmod exCholmod_ok eigsh (exS false) (exS_solved false) method 0 at_ p (exS_lens false p hz) (fun _ => exS_posesOk false) σ r hr (exS_opt false)
    (Measure.count : Measure (Fin (numObserved ((exS false).ctx (bPacked (exS false)))))) (fun ω i => if i = (ω : Nat) then σ else 0) (noise_example _ σ)
  obtain ⟨F, hF, hp⟩ := unc_some hr
  obtain ⟨V, rfl⟩ := covariance_is_matrix hp
  exact ⟨V, δ, hr, hδ⟩

/-- `fixed_intrinsics_wrong`: the intrinsics are fixed; the pose of the camera is solved for -/
example : ∃ P : Problem, Solved P ∧ NoEmptyRows (P.ctx (bPacked P)) ∧ numIntrinsicsOpt P.d.sel P.d.lens = 0 ∧ numStates P.d = 6 := by
  refine ⟨{ exS false with d := { (exS false).d with sel := { (exS false).d.sel with core := false } } }, ?_, ?_, by decide, by decide⟩
  · have h := exS_solved false
    exact ⟨⟨⟨h.valid.wf.1, h.valid.wf.2, h.valid.wf.3, h.valid.wf.4, h.valid.wf.5⟩, h.valid.lens, h.valid.boards, h.valid.points, h.valid.tri, h.valid.triSel, h.valid.warp, h.valid.size⟩, h.nob, h.term, fun h => absurd rfl h⟩
  · intro s hs
    right; left
    have : s.icamE = 0 := by
      simp only [sources, Problem.ctx, exS, List.flatMap_cons, List.flatMap_nil, List.nil_append, List.append_nil, List.mem_append] at hs
      rcases hs with h | h | h | h | h | h | h <;> (rw [List.eq_of_mem_replicate h]; rfl)
    unfold Source.e
    rw [if_pos ⟨rfl, by omega⟩]
    rfl

/-- `fixed_extrinsics_wrong`: the pose of the camera is fixed; the intrinsics are solved for -/
example : ∃ P : Problem, P.Valid ∧ P.d.sel.extrinsics = false ∧ Observes P 0 0 ∧ numStates P.d = 4 := by
  refine ⟨{ exS false with d := { (exS false).d with sel := { (exS false).d.sel with extrinsics := false } } }, ?_, rfl, (exS_observes false 0).2 rfl, by decide⟩
  have h := exS_solved false
  exact ⟨⟨h.valid.wf.1, h.valid.wf.2, h.valid.wf.3, h.valid.wf.4, h.valid.wf.5⟩, h.valid.lens, h.valid.boards, h.valid.points, h.valid.tri, fun h => absurd rfl h, h.valid.warp, h.valid.size⟩

end Mrcal.ProjUnc
