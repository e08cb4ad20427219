import Verif.Props.ProjUncGrad
/-
C81: the point and the lens move; the columns of the poses
-/
namespace Mrcal.ProjUnc
open Mrcal Mrcal.Pose Mrcal.Callback Mrcal.Pack Mrcal.StateLayout Mrcal.Propagate Mrcal.Uncertainty

/-- **Specification**: the calibration, after the packed state has moved by s v from the optimum -/
noncomputable def moved (P : Problem) (v : Mem) (s : ℝ) : Params := unpacked P.d P.seed fun j => bPacked P j + s * v j

theorem moved_zero (P : Problem) (wf : WF P.d) (v : Mem) : moved P v 0 = P.seed := by
  unfold moved unpacked bPacked
  simp only [zero_mul, add_zero]
  exact unpack_pack_state P.d wf P.seed _

theorem state_deriv (P : Problem) (v : Mem) (j : Int) : HasDerivAt (fun s : ℝ => bPacked P j + s * v j) (v j) 0 := by
  have := ((hasDerivAt_id' (0 : ℝ)).mul_const (v j)).const_add (bPacked P j)
  rwa [one_mul] at this

/-- the lens and the point move: the pixel moves -/
theorem pix_move (P : Problem) (wf : WF P.d) (hl : Cam.ValidLens P.d.lens) (icam : Int) (h0 : 0 ≤ icam) (h1 : icam < P.d.Nci) (p : P3) (hreg : Cam.LensRegular P.d.lens (intrOf P.d P.seed icam) p)
    (g : PixGrad) (hg : projectGrad P icam p = some g) (v : Mem) (q : ℝ → P3) (q' : P3) (hq : q 0 = p) (hq' : HasDerivP q q' 0) (xy : Nat) (hxy : xy < 2) :
    HasDerivAt (fun s => pick2 (Cam.pix P.d.lens (intrOf P.d (moved P v s) icam) (q s)) xy)
      (inner3 (g.dp xy) q' + dot P.d (intrinsicsCols P g (sliceIntrinsics P icam)) v xy) 0 := by
  unfold projectGrad at hg
  obtain ⟨m', hm, e⟩ := Option.map_eq_some_iff.1 hg
  have hi : ∀ s, intrOf P.d (moved P v s) icam = intrinsicsAt P.d (fun j => bPacked P j + s * v j) P.seed icam := fun s => (intrinsics_unpacked P.d wf _ P.seed icam h0 h1).symm
  rw [dot_intrinsics P wf icam h0 h1]
  simp only [hi]
  have e0 : intrinsicsAt P.d (fun j => bPacked P j + 0 * v j) P.seed icam = intrOf P.d P.seed icam := by rw [← hi 0, moved_zero P wf]
  have key := Cam.pix_total P.d.lens hl (intrOf P.d P.seed icam) p hreg _ m' hm (t := 0)
    (I := fun s => intrinsicsAt P.d (fun j => bPacked P j + s * v j) P.seed icam) (I' := fun k => intrinsicsAt P.d v zeroP icam k) e0
    (fun k => intrinsics_deriv P.d P.seed (fun j => state_deriv P v j) icam k) (fun k hk => by unfold intrinsicsAt; simp only; rw [if_pos (by omega)]) hq hq' xy hxy
  subst e
  exact key

/-! ### poses -/

theorem sum_blocks (n : Nat) (f : Nat → Nat → ℝ) : ∑ k ∈ Finset.range (n * 6), f (k / 6) (k % 6) = ∑ i ∈ Finset.range n, ∑ k ∈ Finset.range 6, f i k := by
  induction n with
  | zero => simp
  | succ n ih =>
    rw [Nat.add_mul, one_mul, Finset.sum_range_add, ih, Finset.sum_range_succ _ n]
    refine congrArg _ (Finset.sum_congr rfl fun k hk => ?_)
    have := Finset.mem_range.1 hk
    rw [show (n * 6 + k) / 6 = n by omega, show (n * 6 + k) % 6 = k by omega]

/-- the change of a transformed point, if its pose moves -/
noncomputable def poseMove (at_ : Bool) (J : M3 × M3 × M3) (T' : RtV) : P3 := addP (mulVec J.1 T'.r) (if at_ then ⟨0, 0, 0⟩ else mulVec J.2.1 T'.t)

theorem six (at_ : Bool) (w : P3) (J : M3 × M3 × M3) (u : Nat → ℝ) :
    ∑ k ∈ Finset.range 6, (if written at_ k = true then rtElement w J k else 0) * u k = inner3 w (poseMove at_ J ⟨⟨u 0, u 1, u 2⟩, ⟨u 3, u 4, u 5⟩⟩) := by
  simp only [Finset.sum_range_succ, Finset.sum_range_zero]
  cases at_ <;> simp [written, rtElement, pick3, poseMove, inner3, Pose.vecMul, Pose.mulVec, addP] <;> ring

theorem camera_velocity (d : Dims) (wf : WF d) (v : Mem) (i : Int) (h0 : 0 ≤ i) (h1 : i < d.Nce) (he : d.sel.extrinsics = true) :
    let U := (unpackVector d v).1
    let c := stateIndexExtrinsics i d
    cameraAt d v zeroP i = ⟨⟨U (c + 0), U (c + 1), U (c + 2)⟩, ⟨U (c + 3), U (c + 4), U (c + 5)⟩⟩ := by
  intro U c
  have hp : ∀ k : Int, 0 ≤ k → k < 6 → U (c + k) = v (c + k) * (if k < 3 then scaleRotCamera else scaleTransCamera) :=
    fun k a b => (unpack_vector_scales d wf v).1 (.extrinsics i k) ⟨he, h0, h1, a, b⟩
  unfold cameraAt
  rw [if_pos he, hp 0 (by decide) (by decide), hp 1 (by decide) (by decide), hp 2 (by decide) (by decide), hp 3 (by decide) (by decide),
      hp 4 (by decide) (by decide), hp 5 (by decide) (by decide)]
  unfold unpackPose
  norm_num [c]

theorem frame_velocity (d : Dims) (wf : WF d) (v : Mem) (i : Int) (h0 : 0 ≤ i) (h1 : i < d.Nframes) (he : d.sel.frames = true) :
    let U := (unpackVector d v).1
    let c := stateIndexFrames i d
    frameAt d v zeroP i = ⟨⟨U (c + 0), U (c + 1), U (c + 2)⟩, ⟨U (c + 3), U (c + 4), U (c + 5)⟩⟩ := by
  intro U c
  have hp : ∀ k : Int, 0 ≤ k → k < 6 → U (c + k) = v (c + k) * (if k < 3 then scaleRotFrame else scaleTransFrame) :=
    fun k a b => (unpack_vector_scales d wf v).1 (.frame i k) ⟨he, h0, h1, a, b⟩
  unfold frameAt
  rw [if_pos he, hp 0 (by decide) (by decide), hp 1 (by decide) (by decide), hp 2 (by decide) (by decide), hp 3 (by decide) (by decide),
      hp 4 (by decide) (by decide), hp 5 (by decide) (by decide)]
  unfold unpackPose
  norm_num [c]

/-- a block of poses -/
theorem dot_poses (d : Dims) (F G : Grad) (v : Mem) (r : Nat) (i0 : Int) (h0 : 0 ≤ i0) (n : Nat) (hn : i0 + n * 6 ≤ numStates d) (at_ : Bool) (f : Nat → Nat → ℝ)
    (hG : ∀ c, G r c = if i0 ≤ c ∧ c < i0 + n * 6 ∧ written at_ ((c - i0).toNat % 6) = true then f ((c - i0).toNat / 6) ((c - i0).toNat % 6) else F r c)
    (hF : ∀ c, i0 ≤ c → c < i0 + n * 6 → F r c = 0) :
    dot d G v r = dot d F v r + ∑ i ∈ Finset.range n, ∑ k ∈ Finset.range 6, (if written at_ k = true then f i k else 0) * (unpackVector d v).1 (i0 + (i * 6 + k : Nat)) := by
  rw [dot_replace d F G v r i0 (n * 6) h0 (by omega) hn (fun k => if written at_ (k % 6) = true then f (k / 6) (k % 6) else 0) ?_ hF]
  · congr 1
    rw [show ((n : Int) * 6).toNat = n * 6 by omega,
      ← sum_blocks n fun i k => (if written at_ k = true then f i k else 0) * (unpackVector d v).1 (i0 + (i * 6 + k : Nat))]
    refine Finset.sum_congr rfl fun k _ => ?_
    rw [show k / 6 * 6 + k % 6 = k by omega]
  · intro c
    rw [hG]
    by_cases h : i0 ≤ c ∧ c < i0 + n * 6
    · rw [if_pos h]
      by_cases hw : written at_ ((c - i0).toNat % 6) = true
      · rw [if_pos ⟨h.1, h.2, hw⟩, if_pos hw]
      · rw [if_neg (fun hh => hw hh.2.2), if_neg hw, hF c h.1 h.2]
    · rw [if_neg h, if_neg (fun hh => h ⟨hh.1, hh.2.1⟩)]

theorem intrinsicsCols_after (P : Problem) (wf : WF P.d) (g : PixGrad) (icam : Int) (r : Nat) (c : Int) (hc : numStatesIntrinsics P.d ≤ c) :
    intrinsicsCols P g (sliceIntrinsics P icam) r c = 0 := by
  unfold sliceIntrinsics
  simp only
  by_cases hi : 0 ≤ stateIndexIntrinsics icam P.d
  · obtain ⟨-, -, -, -, h, -⟩ := intrinsics_range P.d wf icam hi
    simp only [ge_iff_le, if_pos hi, intrinsicsCols]
    rw [if_neg (by omega)]
  · simp only [ge_iff_le, if_neg hi, intrinsicsCols]

/-- the extrinsics of consecutive cameras -/
theorem dot_extrinsics (P : Problem) (wf : WF P.d) (g : PixGrad) (icam : Int) (at_ : Bool) (p : P3) (v : Mem) (r : Nat) (e : Int) (he0 : 0 ≤ e) (n : Nat) (hn : 0 < n) (hne : e + n ≤ P.d.Nce)
    (hsel : P.d.sel.extrinsics = true) (rts : List RtV) (hr : rts.length = n) :
    let F := intrinsicsCols P g (sliceIntrinsics P icam)
    dot P.d (extrinsicsCols rts (some (stateIndexExtrinsics e P.d)) g.dp at_ p F) v r = dot P.d F v r +
      ∑ i ∈ Finset.range n, inner3 (g.dp r) (poseMove at_ (poseGrad (rts.getD i identityrt) at_ (toPose (rts.getD i identityrt) at_ p)) (cameraAt P.d v zeroP (e + i))) / n := by
  intro F
  obtain ⟨n1, n2, n3, n4, n5⟩ := nonnegs wf
  have idx : ∀ i : Int, 0 ≤ i → i < P.d.Nce → stateIndexExtrinsics i P.d = numStatesIntrinsics P.d + i * 6 := by
    intro i a b
    unfold stateIndexExtrinsics
    rw [if_neg (by omega), if_neg (by simp [hsel]), if_neg (by simp; omega)]
  have hse : numStatesExtrinsics P.d = 6 * P.d.Nce := by unfold numStatesExtrinsics; rw [if_pos hsel]
  have hi0 := idx e he0 (by omega)
  rw [dot_poses P.d F _ v r (stateIndexExtrinsics e P.d) (by omega) n (by unfold numStates; omega) at_
    (fun i k => rtElement (g.dp r) (poseGrad (rts.getD i identityrt) at_ (toPose (rts.getD i identityrt) at_ p)) k / n)
    (fun c => by unfold extrinsicsCols; simp only [hr]) (fun c h1 h2 => intrinsicsCols_after P wf g icam r c (by omega))]
  congr 1
  refine Finset.sum_congr rfl fun i hi => ?_
  have hi := Finset.mem_range.1 hi
  have ec := camera_velocity P.d wf v (e + i) (by omega) (by omega) hsel
  simp only at ec
  rw [ec]
  have e6 : ∀ k : Nat, stateIndexExtrinsics e P.d + ((i * 6 + k : Nat) : Int) = stateIndexExtrinsics (e + i) P.d + k := by
    intro k
    rw [hi0, idx (e + i) (by omega) (by omega)]; push_cast; ring
  simp only [e6]
  have := six at_ (g.dp r) (poseGrad (rts.getD i identityrt) at_ (toPose (rts.getD i identityrt) at_ p)) fun k => (unpackVector P.d v).1 (stateIndexExtrinsics (e + i) P.d + k)
  simp only [Nat.cast_zero, Nat.cast_one, Nat.cast_ofNat] at this
  rw [← this, Finset.sum_div]
  refine Finset.sum_congr rfl fun k _ => ?_
  split_ifs <;> ring

theorem list_sum_mul (l : List RtV) (f : RtV → ℝ) (c : ℝ) : (l.map f).sum * c = (l.map fun T => f T * c).sum := by
  induction l with
  | nil => simp
  | cons a l ih => simp only [List.map_cons, List.sum_cons, add_mul, ih]

theorem list_sum_comm (l : List RtV) (n : Nat) (f : RtV → Nat → ℝ) : ∑ k ∈ Finset.range n, (l.map fun T => f T k).sum = (l.map fun T => ∑ k ∈ Finset.range n, f T k).sum := by
  induction l with
  | nil => simp
  | cons a l ih => simp only [List.map_cons, List.sum_cons, Finset.sum_add_distrib, ih]

/-- the frames -/
theorem dot_frames (P : Problem) (wf : WF P.d) (g : Nat → P3) (at_ : Bool) (p : P3) (v : Mem) (r : Nat) (hsel : P.d.sel.frames = true) (hN : 0 < P.d.Nframes) (rts : List RtV) (F : Grad)
    (hF : ∀ c, numStatesIntrinsics P.d + numStatesExtrinsics P.d ≤ c → F r c = 0) :
    dot P.d (framesCols P rts g at_ p F) v r = dot P.d F v r +
      ∑ i ∈ Finset.range P.d.Nframes.toNat, ((rts.map fun Tc => inner3 (vecMul (g r) (poseGrad Tc at_ (toPose Tc at_ p)).2.2)
        (poseMove at_ (poseGrad (poseAt P.seed (.frame i)) at_ (toPose (poseAt P.seed (.frame i)) at_ (toPose Tc at_ p))) (frameAt P.d v zeroP i))).sum / rts.length) / P.d.Nframes := by
  obtain ⟨n1, n2, n3, n4, n5⟩ := nonnegs wf
  have idx : ∀ i : Int, 0 ≤ i → i < P.d.Nframes → stateIndexFrames i P.d = numStatesIntrinsics P.d + numStatesExtrinsics P.d + i * 6 := by
    intro i a b
    unfold stateIndexFrames
    rw [if_neg (by omega), if_neg (by simp [hsel]), if_neg (by simp; omega)]
  have hse : numStatesFrames P.d = 6 * P.d.Nframes := by unfold numStatesFrames; rw [if_pos hsel]
  have hi0 := idx 0 (by omega) (by omega)
  have hN' : ((P.d.Nframes.toNat : Nat) : Int) = P.d.Nframes := Int.toNat_of_nonneg hN.le
  have hpos : stateIndexFrames 0 P.d ≥ 0 := by omega
  rw [dot_poses P.d F _ v r (stateIndexFrames 0 P.d) (by omega) P.d.Nframes.toNat (by unfold numStates; omega) at_
    (fun i k => ((rts.map fun Tc => rtElement (vecMul (g r) (poseGrad Tc at_ (toPose Tc at_ p)).2.2)
      (poseGrad (poseAt P.seed (.frame i)) at_ (toPose (poseAt P.seed (.frame i)) at_ (toPose Tc at_ p))) k).sum / rts.length) / P.d.Nframes)
    (fun c => by unfold framesCols; simp only [if_pos hpos, hN']) (fun c h1 h2 => hF c (by omega))]
  congr 1
  refine Finset.sum_congr rfl fun i hi => ?_
  have hi := Finset.mem_range.1 hi
  have ec := frame_velocity P.d wf v i (by omega) (by omega) hsel
  simp only at ec
  rw [ec]
  have e6 : ∀ k : Nat, stateIndexFrames 0 P.d + ((i * 6 + k : Nat) : Int) = stateIndexFrames i P.d + k := by
    intro k
    rw [hi0, idx i (by omega) (by omega)]; push_cast; ring
  simp only [e6]
  have := fun w J => six at_ w J fun k => (unpackVector P.d v).1 (stateIndexFrames i P.d + k)
  simp only [Nat.cast_zero, Nat.cast_one, Nat.cast_ofNat] at this
  simp only [← this]
  rw [← list_sum_comm, Finset.sum_div, Finset.sum_div]
  refine Finset.sum_congr rfl fun k _ => ?_
  rw [← list_sum_mul]
  by_cases hw : written at_ k = true
  · simp only [hw, if_true]; ring
  · simp [hw]

end Mrcal.ProjUnc
