import Verif.Props.LensTotalProps
import Verif.Props.PackProps

/-! # C74: the parameters the optimizer callback uses: what they are, and how they move with the packed state -/

namespace Mrcal.Callback
open Mrcal Mrcal.Pack Mrcal.Pose Mrcal.Project Mrcal.StateLayout

/-! ### specification: the parameters of a problem, in real units -/

/-- the lens parameters of a camera -/
def intrOf (d : Dims) (P : Params) (icam k : Int) : ℝ := if 0 ≤ k ∧ k < d.lens.numParams then P (.intr (icam * d.lens.numParams + k)) else 0
/-- the pose of a camera: none if it's at the reference -/
def camOf (P : Params) (icam : Int) : Option RtV := if icam < 0 then none else some (poseAt P (.cam icam))
def frameOf (P : Params) (i : Int) : RtV := poseAt P (.frame i)
def pointOf (P : Params) (i : Int) : P3 := ⟨P (.point i 0), P (.point i 1), P (.point i 2)⟩
/-- no deflection, if no deflection was given -/
def warpOf (given : Bool) (P : Params) : P2 := if given then ⟨P (.warp 0), P (.warp 1)⟩ else ⟨0, 0⟩

/-! ### what the callback uses is what unpacking the state gives -/

/-- the parameters with the packed state b -/
noncomputable def unpacked (d : Dims) (seed : Params) (b : Mem) : Params := (unpackState d b seed).1

theorem ncore4 (l : Lens) : Ncore l = 4 := by cases l <;> rfl
theorem hasCore (l : Lens) : l.hasCore = true := by cases l <;> rfl

theorem block_inj {N i i' k k' : Int} (hk : 0 ≤ k) (hk' : k < N) (hl : 0 ≤ k') (hl' : k' < N) (h : i * N + k = i' * N + k') : i = i' ∧ k = k' := by
  have hi : i = i' := by
    rcases lt_trichotomy i i' with h1 | h1 | h1
    · have := Int.mul_le_mul_of_nonneg_right (show i + 1 ≤ i' by omega) (show 0 ≤ N by omega)
      rw [add_mul, one_mul] at this; omega
    · exact h1
    · have := Int.mul_le_mul_of_nonneg_right (show i' + 1 ≤ i by omega) (show 0 ≤ N by omega)
      rw [add_mul, one_mul] at this; omega
  subst hi
  exact ⟨rfl, by omega⟩

theorem intrinsics_unpacked (d : Dims) (wf : WF d) (b : Mem) (seed : Params) (icam : Int) (h0 : 0 ≤ icam) (h1 : icam < d.Nci) :
    intrinsicsAt d b seed icam = intrOf d (unpacked d seed b) icam := by
  obtain ⟨hin, hout, -⟩ := unpack_state_values d wf b seed
  have h4 := numParams_ge4 d.lens
  funext k
  unfold intrinsicsAt intrOf unpacked
  by_cases hk : k < 0 ∨ d.lens.numParams ≤ k
  · simp only []; rw [if_pos hk, if_neg (by omega)]
  · simp only []
    rw [if_neg hk, ncore4]
    rw [if_pos (show 0 ≤ k ∧ k < d.lens.numParams by omega)]
    have seedc : (∀ v, Present d v → home d v ≠ .intr (icam * d.lens.numParams + k)) → seed (.intr (d.lens.numParams * icam + k)) = (unpackState d b seed).1 (.intr (icam * d.lens.numParams + k)) := by
      intro h
      rw [hout _ h, mul_comm]
    have hb : ∀ i j, (if d.sel.core then j else j + 4) < d.lens.numParams → 0 ≤ (if d.sel.core then j else j + 4) →
        i * d.lens.numParams + (if d.sel.core then j else j + 4) = icam * d.lens.numParams + k → (if d.sel.core then j else j + 4) = k :=
      fun i j hj hj' he => (block_inj hj' hj (by omega) (by omega) he).2
    by_cases hk4 : k < 4
    · rw [if_pos hk4]
      cases hc : d.sel.core with
      | true =>
        have hp : Present d (.intrinsics icam k) := by
          refine ⟨h0, h1, by omega, ?_⟩
          unfold specIntrinsicsPerCamera
          rw [hc, if_pos rfl]
          split <;> omega
        have := hin _ hp
        simp only [home, hc, if_true, Pack.unit, loc] at this
        simp only [if_true]
        rw [this]
        simp [hasCore, hk4]
      | false =>
        simp only [Bool.false_eq_true, if_false]
        refine seedc ?_
        intro v hv
        cases v with
        | intrinsics i j =>
          obtain ⟨-, -, hj, hj'⟩ := hv
          intro he
          simp only [home, Addr.intr.injEq] at he
          unfold specIntrinsicsPerCamera at hj'
          have := hb i j (by rw [hc] at hj' ⊢; simp at hj' ⊢; split at hj' <;> omega) (by rw [hc]; simp; omega) he
          rw [hc] at this
          simp at this
          omega
        | _ => simp [home]
    · rw [if_neg hk4]
      cases hd : d.sel.distortions with
      | true =>
        simp only [if_true]
        have hp : Present d (.intrinsics icam (NcoreState d + (k - 4))) := by
          refine ⟨h0, h1, ?_, ?_⟩
          · unfold NcoreState; split <;> omega
          · unfold specIntrinsicsPerCamera NcoreState
            rw [hd, hasCore]
            cases d.sel.core <;> simp <;> omega
        have := hin _ hp
        have e1 : home d (.intrinsics icam (NcoreState d + (k - 4))) = .intr (icam * d.lens.numParams + k) := by
          simp only [home, NcoreState, hasCore]
          cases d.sel.core <;> simp
        have e2 : Pack.unit d (.intrinsics icam (NcoreState d + (k - 4))) = scaleDistortion := by
          simp only [Pack.unit, NcoreState, hasCore]
          cases d.sel.core
          · simp
          · simp only [Bool.and_self, if_true]
            rw [if_neg (by omega), if_neg (by omega)]
        rw [e1, e2] at this
        rw [this]
        simp only [loc]
        rw [add_assoc]
      | false =>
        simp only [Bool.false_eq_true, if_false]
        refine seedc ?_
        intro v hv
        cases v with
        | intrinsics i j =>
          obtain ⟨-, -, hj, hj'⟩ := hv
          intro he
          simp only [home, Addr.intr.injEq] at he
          unfold specIntrinsicsPerCamera at hj'
          rw [hd] at hj'
          cases hc : d.sel.core with
          | false => rw [hc] at hj'; simp at hj'; omega
          | true =>
            rw [hc] at hj'; simp at hj'
            have := hb i j (by rw [hc]; simp; omega) (by rw [hc]; simp; omega) he
            rw [hc] at this
            simp at this
            omega
        | _ => simp [home]

theorem camera_unpacked (d : Dims) (wf : WF d) (b : Mem) (seed : Params) (i : Int) (h0 : 0 ≤ i) (h1 : i < d.Nce) :
    cameraAt d b seed i = poseAt (unpacked d seed b) (.cam i) := by
  obtain ⟨hin, hout, -⟩ := unpack_state_values d wf b seed
  unfold cameraAt unpacked
  cases he : d.sel.extrinsics with
  | true =>
    have hp : ∀ k : Int, 0 ≤ k → k < 6 → (unpackState d b seed).1 (.cam i k) = b (stateIndexExtrinsics i d + k) * (if k < 3 then scaleRotCamera else scaleTransCamera) :=
      fun k a c => hin (.extrinsics i k) ⟨he, h0, h1, a, c⟩
    simp only [if_true, unpackPose, poseAt, hp 0 (by decide) (by decide), hp 1 (by decide) (by decide), hp 2 (by decide) (by decide), hp 3 (by decide) (by decide),
      hp 4 (by decide) (by decide), hp 5 (by decide) (by decide)]
    norm_num
  | false =>
    have hp : ∀ k : Int, (unpackState d b seed).1 (.cam i k) = seed (.cam i k) := by
      intro k
      refine hout _ ?_
      intro v hv
      cases v with
      | extrinsics j l => exact absurd hv.1 (by rw [he]; simp)
      | _ => simp [home]
    simp only [Bool.false_eq_true, if_false, poseAt, hp]

theorem frame_unpacked (d : Dims) (wf : WF d) (b : Mem) (seed : Params) (i : Int) (h0 : 0 ≤ i) (h1 : i < d.Nframes) :
    frameAt d b seed i = frameOf (unpacked d seed b) i := by
  obtain ⟨hin, hout, -⟩ := unpack_state_values d wf b seed
  unfold frameAt frameOf unpacked
  cases he : d.sel.frames with
  | true =>
    have hp : ∀ k : Int, 0 ≤ k → k < 6 → (unpackState d b seed).1 (.frame i k) = b (stateIndexFrames i d + k) * (if k < 3 then scaleRotFrame else scaleTransFrame) :=
      fun k a c => hin (.frame i k) ⟨he, h0, h1, a, c⟩
    simp only [if_true, unpackPose, poseAt, hp 0 (by decide) (by decide), hp 1 (by decide) (by decide), hp 2 (by decide) (by decide), hp 3 (by decide) (by decide),
      hp 4 (by decide) (by decide), hp 5 (by decide) (by decide)]
    norm_num
  | false =>
    have hp : ∀ k : Int, (unpackState d b seed).1 (.frame i k) = seed (.frame i k) := by
      intro k
      refine hout _ ?_
      intro v hv
      cases v with
      | frame j l => exact absurd hv.1 (by rw [he]; simp)
      | _ => simp [home]
    simp only [Bool.false_eq_true, if_false, poseAt, hp]

theorem point_unpacked (d : Dims) (wf : WF d) (b : Mem) (seed : Params) (i : Int) (h0 : 0 ≤ i) :
    pointAt d b seed i = pointOf (unpacked d seed b) i := by
  obtain ⟨hin, hout, -⟩ := unpack_state_values d wf b seed
  unfold pointAt pointOf unpacked
  by_cases h : (d.sel.frames && decide (i < d.Npoints - d.NpointsFixed)) = true
  · rw [if_pos h]
    simp only [Bool.and_eq_true, decide_eq_true_eq] at h
    have hp : ∀ k : Int, 0 ≤ k → k < 3 → (unpackState d b seed).1 (.point i k) = b (stateIndexPoints i d + k) * scalePoint :=
      fun k a c => hin (.point i k) ⟨h.1, h0, h.2, a, c⟩
    simp only [hp 0 (by decide) (by decide), hp 1 (by decide) (by decide), hp 2 (by decide) (by decide)]
  · rw [if_neg h]
    have hp : ∀ k : Int, (unpackState d b seed).1 (.point i k) = seed (.point i k) := by
      intro k
      refine hout _ ?_
      intro v hv
      cases v with
      | point j l =>
        intro he
        simp only [home, Addr.point.injEq] at he
        obtain ⟨rfl, rfl⟩ := he
        exact h (by simp [hv.1, hv.2.2.1])
      | _ => simp [home]
    simp only [hp]

theorem warp_unpacked (d : Dims) (wf : WF d) (b : Mem) (seed : Params) (given : Bool) (hg : hasCalobjectWarp d.sel d.Nob = true → given = true) :
    warpAt d b seed given = warpOf given (unpacked d seed b) := by
  obtain ⟨hin, hout, -⟩ := unpack_state_values d wf b seed
  unfold warpAt warpOf unpacked
  by_cases h : hasCalobjectWarp d.sel d.Nob = true
  · rw [if_pos h, hg h, if_pos rfl]
    simp only [hasCalobjectWarp, Bool.and_eq_true, decide_eq_true_eq] at h
    have hp : ∀ k : Int, 0 ≤ k → k < 2 → (unpackState d b seed).1 (.warp k) = b (stateIndexWarp d + k) * scaleWarp :=
      fun k a c => hin (.warp k) ⟨h.1, h.2, a, c⟩
    simp only [hp 0 (by decide) (by decide), hp 1 (by decide) (by decide)]
  · rw [if_neg h]
    have hp : ∀ k : Int, (unpackState d b seed).1 (.warp k) = seed (.warp k) := by
      intro k
      refine hout _ ?_
      intro v hv
      cases v with
      | warp l =>
        exact absurd (by simp [hasCalobjectWarp]; exact ⟨hv.1, hv.2.1⟩) h
      | _ => simp [home]
    simp only [hp]

/-! ### how they move -/

def zeroP : Params := fun _ => 0

variable {b : ℝ → Mem} {b' : Mem} {t : ℝ}

theorem intrinsics_deriv (d : Dims) (seed : Params) (hb : ∀ j, HasDerivAt (fun s => b s j) (b' j) t) (icam k : Int) :
    HasDerivAt (fun s => intrinsicsAt d (b s) seed icam k) (intrinsicsAt d b' zeroP icam k) t := by
  unfold intrinsicsAt
  simp only []
  split
  · exact hasDerivAt_const _ _
  · split
    · split
      · exact (hb _).mul_const _
      · exact hasDerivAt_const _ _
    · split
      · exact (hb _).mul_const _
      · exact hasDerivAt_const _ _

theorem pose_deriv (SR ST : ℝ) (hb : ∀ j, HasDerivAt (fun s => b s j) (b' j) t) (i : Int) :
    HasDerivP (fun s => (unpackPose SR ST (b s) i).r) (unpackPose SR ST b' i).r t ∧ HasDerivP (fun s => (unpackPose SR ST (b s) i).t) (unpackPose SR ST b' i).t t :=
  ⟨⟨(hb _).mul_const _, (hb _).mul_const _, (hb _).mul_const _⟩, ⟨(hb _).mul_const _, (hb _).mul_const _, (hb _).mul_const _⟩⟩

theorem pose_const (P : Params) (a : Int → Addr) : HasDerivP (fun _ => (poseAt P a).r) (poseAt zeroP a).r t ∧ HasDerivP (fun _ => (poseAt P a).t) (poseAt zeroP a).t t :=
  ⟨⟨hasDerivAt_const _ _, hasDerivAt_const _ _, hasDerivAt_const _ _⟩, ⟨hasDerivAt_const _ _, hasDerivAt_const _ _, hasDerivAt_const _ _⟩⟩

theorem camera_deriv (d : Dims) (seed : Params) (hb : ∀ j, HasDerivAt (fun s => b s j) (b' j) t) (i : Int) :
    HasDerivP (fun s => (cameraAt d (b s) seed i).r) (cameraAt d b' zeroP i).r t ∧ HasDerivP (fun s => (cameraAt d (b s) seed i).t) (cameraAt d b' zeroP i).t t := by
  unfold cameraAt
  cases d.sel.extrinsics
  · simp only [Bool.false_eq_true, if_false]; exact pose_const _ _
  · simp only [if_true]; exact pose_deriv _ _ hb _

theorem frame_deriv (d : Dims) (seed : Params) (hb : ∀ j, HasDerivAt (fun s => b s j) (b' j) t) (i : Int) :
    HasDerivP (fun s => (frameAt d (b s) seed i).r) (frameAt d b' zeroP i).r t ∧ HasDerivP (fun s => (frameAt d (b s) seed i).t) (frameAt d b' zeroP i).t t := by
  unfold frameAt
  cases d.sel.frames
  · simp only [Bool.false_eq_true, if_false]; exact pose_const _ _
  · simp only [if_true]; exact pose_deriv _ _ hb _

theorem point_deriv (d : Dims) (seed : Params) (hb : ∀ j, HasDerivAt (fun s => b s j) (b' j) t) (i : Int) :
    HasDerivP (fun s => pointAt d (b s) seed i) (pointAt d b' zeroP i) t := by
  unfold pointAt
  cases (d.sel.frames && decide (i < d.Npoints - d.NpointsFixed))
  · simp only [Bool.false_eq_true, if_false]
    exact ⟨hasDerivAt_const _ _, hasDerivAt_const _ _, hasDerivAt_const _ _⟩
  · simp only [if_true]
    exact ⟨(hb _).mul_const _, (hb _).mul_const _, (hb _).mul_const _⟩

theorem warp_deriv (d : Dims) (seed : Params) (given : Bool) (hb : ∀ j, HasDerivAt (fun s => b s j) (b' j) t) :
    HasDerivAt (fun s => (warpAt d (b s) seed given).x) (warpAt d b' zeroP given).x t ∧ HasDerivAt (fun s => (warpAt d (b s) seed given).y) (warpAt d b' zeroP given).y t := by
  unfold warpAt
  cases hasCalobjectWarp d.sel d.Nob
  · simp only [Bool.false_eq_true, if_false]
    cases given <;> exact ⟨hasDerivAt_const _ _, hasDerivAt_const _ _⟩
  · simp only [if_true]
    exact ⟨(hb _).mul_const _, (hb _).mul_const _⟩

end Mrcal.Callback
