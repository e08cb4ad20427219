import Verif.Props.JacobianRowsProps
import Verif.Props.TriangulateErrorProps
import Verif.Props.CallbackColumnsProps

/-! # C74: the optimizer callback reports the documented residuals, and their true derivatives with respect to the packed state -/

namespace Mrcal.Callback
open Mrcal Mrcal.Pack Mrcal.Pose Mrcal.Project Mrcal.StateLayout Mrcal.Cam

/-! ### specification: the documented measurements, as functions of the parameters in real units -/

/-- a corner of the deflected board -/
noncomputable def cornerOf (W H : Nat) (spacing : ℝ) (warp : P2) (x y : Nat) : P3 := ⟨x * spacing, y * spacing, deflection W H warp x y⟩

/-- corner `ipt` is in column ipt%W, row ipt/W. Board corner with negative weights are outliers: these don't contribute -/
noncomputable def boardRes (P : Problem) (o : BoardObs) (ipt xy : Nat) (Q : Params) : ℝ :=
  if o.weight ipt < 0 then 0
  else o.weight ipt * (pick2 (pix P.d.lens (intrOf P.d Q o.icamI) (truthP (camOf Q o.icamE) (frameOf Q o.iframe)
    (cornerOf P.W P.H P.spacing (warpOf P.warpGiven Q) (ipt % P.W) (ipt / P.W)))) xy - o.obs ipt xy)

/-- the point, in the coordinates of the camera -/
noncomputable def seenPoint (Q : Params) (o : PointObs) : P3 := truthP (camOf Q o.icamE) ⟨⟨0, 0, 0⟩, pointOf Q o.ipoint⟩ ⟨0, 0, 0⟩

noncomputable def pointRes (P : Problem) (o : PointObs) (xy : Nat) (Q : Params) : ℝ :=
  if o.weight ≤ 0 then 0
  else o.weight * (pick2 (pix P.d.lens (intrOf P.d Q o.icamI) (seenPoint Q o)) xy - o.obs xy)

/-- the corner, in the coordinates of the camera -/
noncomputable def seenCorner (P : Problem) (Q : Params) (o : BoardObs) (ipt : Nat) : P3 :=
  truthP (camOf Q o.icamE) (frameOf Q o.iframe) (cornerOf P.W P.H P.spacing (warpOf P.warpGiven Q) (ipt % P.W) (ipt / P.W))

/-- rotations by the Rodrigues formula -/
noncomputable def rotP (r x : P3) (inverted : Bool) : P3 := ⟨rotSpec r x inverted 0, rotSpec r x inverted 1, rotSpec r x inverted 2⟩

/-- a direction in the coordinates of a camera, in the reference coordinates; and the other way -/
noncomputable def dirToRef (c : Option RtV) (v : P3) : P3 := match c with | none => v | some c => rotP c.r v true
noncomputable def dirToCam (c : Option RtV) (v : P3) : P3 := match c with | none => v | some c => rotP c.r v false
/-- the position of a camera, in the reference coordinates -/
noncomputable def positionOf (c : Option RtV) : P3 := match c with | none => ⟨0, 0, 0⟩ | some c => negP (rotP c.r c.t true)
/-- a point, in the coordinates of a camera -/
noncomputable def pointToCam (c : Option RtV) (x : P3) : P3 := match c with | none => x | some c => addP (rotP c.r x false) c.t

/-- the triangulated error of two observation vectors of two cameras: everything is in the coordinates of the second camera -/
noncomputable def triRes (c0 c1 : Option RtV) (v0 v1 : P3) : ℝ := Tri.errorSpec v1 (dirToCam c1 (dirToRef c0 v0)) (pointToCam c1 (positionOf c0))

noncomputable def triPairRes (P : Problem) (o0 o1 : TriObs) (i0 i1 : Nat) (Q : Params) : ℝ :=
  if o0.outlier ∨ o1.outlier then 0 else triRes (camOf Q o0.icamE) (camOf Q o1.icamE) (P.triV i0) (P.triV i1)

/-- **Specification**: this row of (x, J) is right for this measurement f: the value is f at this state, and moving the state at any rate b' moves f at the rate J b' -/
def RowOk (d : Dims) (seed : Params) (b : ℝ → Mem) (b' : Mem) (t : ℝ) (r : Row) (f : Params → ℝ) : Prop :=
  r.x = f (unpacked d seed (b t)) ∧ HasDerivAt (fun s => f (unpacked d seed (b s))) (dotE r.entries b') t

/-! ### hypotheses -/

/-- the indices make sense -/
structure Problem.Valid (P : Problem) : Prop where
  wf : WF P.d
  lens : ValidLens P.d.lens
  boards : ∀ o ∈ P.boards, 0 ≤ o.icamI ∧ o.icamI < P.d.Nci ∧ o.icamE < P.d.Nce ∧ 0 ≤ o.iframe ∧ o.iframe < P.d.Nframes
  points : ∀ o ∈ P.points, 0 ≤ o.icamI ∧ o.icamI < P.d.Nci ∧ o.icamE < P.d.Nce ∧ 0 ≤ o.ipoint ∧ o.ipoint < P.d.Npoints
  tri : ∀ o ∈ P.tri, o.icamE < P.d.Nce
  /-- checked at mrcal.c:6043-6052 -/
  triSel : P.tri ≠ [] → P.d.sel.extrinsics = true
  /-- mrcal_optimize() errors out if this is violated -/
  warp : hasCalobjectWarp P.d.sel P.d.Nob = true → P.warpGiven = true
  /-- otherwise the code divides by 0 -/
  size : P.warpGiven = true → 2 ≤ P.W ∧ 2 ≤ P.H

/-! ### boards -/

theorem camOpt_unpacked (d : Dims) (wf : WF d) (b : Mem) (seed : Params) (i : Int) (h : i < d.Nce) : camOpt d b seed i = camOf (unpacked d seed b) i := by
  unfold camOpt camOf
  by_cases h0 : i < 0
  · rw [if_pos h0, if_pos h0]
  · rw [if_neg h0, if_neg h0, camera_unpacked d wf b seed i (by omega) h]

theorem board_point_eq (W H : Nat) (spacing : ℝ) (w : P2) (x y : Nat) : (boardPoint W H spacing (some w) x y).1 = cornerOf W H spacing w x y := by
  obtain ⟨h1, h2, -⟩ := board_flat W H spacing (some w) x y
  unfold cornerOf
  rw [← board_warp W H spacing w x y, ← h1, ← h2]

theorem lensRate_of {L : Lens} {I : ℝ → Int → ℝ} {t : ℝ} {p p' : P3} {ex ey : ℝ} (e : p' = p)
    (h : LensRate (fun s p => pix L (I s) p) t p (hypothesis L (I t) p) ex ey) : LensRate (fun s p => pix L (I s) p) t p' (hypothesis L (I t) p') ex ey := by rw [e]; exact h

theorem mkProj_nocore (L : Lens) (intr : Int → ℝ) (p : P3) (o o' : Project.Out) (f : ℝ) (I' : Int → ℝ) (xy : Nat) :
    intrRate L (mkProj L intr p o) f I' xy = intrRate L (mkProj L intr p o') f I' xy := rfl

variable {b : ℝ → Mem} {b' : Mem} {t : ℝ}

theorem corner_deriv (P : Problem) (hP : P.Valid) (hb : ∀ j, HasDerivAt (fun s => b s j) (b' j) t) (icamI icamE iframe : Int) (hE : icamE < P.d.Nce) (x y : Nat)
    (hreg : Regular ((camOpt P.d (b t) P.seed icamE).map RtV.r) (frameAt P.d (b t) P.seed iframe).r) :
    let I := fun s => intrinsicsAt P.d (b s) P.seed icamI
    let cam := fun s => camOpt P.d (b s) P.seed icamE
    let frame := fun s => frameAt P.d (b s) P.seed iframe
    let w := fun s => warpAt P.d (b s) P.seed P.warpGiven
    let corner := fun s => truthP (cam s) (frame s) (cornerOf P.W P.H P.spacing (w s) x y)
    let wo := if P.warpGiven then some (w t) else none
    let out := projectCorner (hypothesis P.d.lens (I t)) (cam t) (frame t) P.W P.H P.spacing wo x y
    let p := camPoint (cam t) (frame t) (boardPoint P.W P.H P.spacing wo x y).1
    let pr := mkProj P.d.lens (I t) p out
    LensRegular P.d.lens (I t) (corner t) →
    out.q = pix P.d.lens (I t) (corner t) ∧
    ∀ xy < 2, HasDerivAt (fun s => pick2 (pix P.d.lens (I s) (corner s)) xy)
      (pick2 (rate out (camRate P.d b' icamE).r (camRate P.d b' icamE).t (frameAt P.d b' zeroP iframe).r (frameAt P.d b' zeroP iframe).t (warpAt P.d b' zeroP P.warpGiven)) xy +
        intrRate P.d.lens pr (I t xy) (intrinsicsAt P.d b' zeroP icamI) xy) t := by
  intro I cam frame w corner wo out p pr hl
  obtain ⟨hwx, hwy⟩ := warp_deriv P.d P.seed P.warpGiven hb
  obtain ⟨hfr, hft⟩ := frame_deriv P.d P.seed hb iframe
  obtain ⟨hcr, hct⟩ := camera_deriv P.d P.seed hb icamE
  -- the warp, or 0 if it's absent
  have hw0 : P.warpGiven = false → ∀ s, w s = ⟨0, 0⟩ := by
    intro h s
    have : hasCalobjectWarp P.d.sel P.d.Nob = false := by
      cases hh : hasCalobjectWarp P.d.sel P.d.Nob
      · rfl
      · exact absurd (hP.warp hh) (by rw [h]; simp)
    simp only [w, warpAt, this, h, Bool.false_eq_true, if_false]
  have hw0' : P.warpGiven = false → warpAt P.d b' zeroP P.warpGiven = ⟨0, 0⟩ := by
    intro h
    have : hasCalobjectWarp P.d.sel P.d.Nob = false := by
      cases hh : hasCalobjectWarp P.d.sel P.d.Nob
      · rfl
      · exact absurd (hP.warp hh) (by rw [h]; simp)
    simp only [warpAt, this, h, Bool.false_eq_true, if_false]
  have hbp : (boardPoint P.W P.H P.spacing wo x y).1 = cornerOf P.W P.H P.spacing (w t) x y := by
    simp only [wo]
    cases hg : P.warpGiven
    · rw [hw0 hg, ← board_point_eq]; simp [boardPoint]
    · rw [if_pos rfl, board_point_eq]
  let out' := projectCorner (hypothesis P.d.lens (I t)) (cam t) (frame t) P.W P.H P.spacing (some (w t)) x y
  have hout : out.q = out'.q ∧ ∀ rc tc rf tf, rate out rc tc rf tf (warpAt P.d b' zeroP P.warpGiven) = rate out' rc tc rf tf (warpAt P.d b' zeroP P.warpGiven) := by
    simp only [out, out', wo]
    cases hg : P.warpGiven
    · simp only [Bool.false_eq_true, if_false]
      rw [hw0 hg]
      obtain ⟨e1, e2, e3, e4, e5⟩ := project_corner_nowarp (hypothesis P.d.lens (I t)) (cam t) (frame t) P.W P.H P.spacing x y
      refine ⟨e1, fun rc tc rf tf => ?_⟩
      have := hw0' hg
      rw [hg] at this
      rw [this]
      simp only [rate, e2, e3, e4, e5, mul_zero, add_zero]
    · simp
  -- the lens
  have hpt : p = corner t := by
    have hpd := boardPoint_deriv P.W P.H P.spacing w (warpAt P.d b' zeroP P.warpGiven) t x y hwx hwy
    simp only [p, hbp]
    rw [← board_point_eq]
    simp only [corner, ← board_point_eq]
    by_cases h0 : icamE < 0
    · have hc : ∀ s, cam s = none := fun s => if_pos h0
      have hreg' : Regular none (frame t).r := by
        have := hreg
        rw [show camOpt P.d (b t) P.seed icamE = none from hc t] at this
        exact this
      rw [hc t]
      exact (ref_point frame _ _ _ _ t hfr hft hpd hreg').1
    · have hc : ∀ s, cam s = some (cameraAt P.d (b s) P.seed icamE) := fun s => if_neg h0
      have hreg' : Regular (some (cameraAt P.d (b t) P.seed icamE).r) (frame t).r := by
        have := hreg
        rw [show camOpt P.d (b t) P.seed icamE = _ from hc t] at this
        exact this
      rw [hc t]
      exact (cam_point (fun s => cameraAt P.d (b s) P.seed icamE) frame _ _ _ _ _ _ t hcr hct hfr hft hpd hreg').1
  have hlr := lens_rate P.d.lens hP.lens (I := I) (I' := intrinsicsAt P.d b' zeroP icamI) (t := t) (fun k => intrinsics_deriv P.d P.seed hb icamI k) (corner t) hl out
  have key : out'.q = pix P.d.lens (I t) (corner t) ∧
      HasDerivAt (fun s => (pix P.d.lens (I s) (corner s)).x) ((rate out' (camRate P.d b' icamE).r (camRate P.d b' icamE).t (frameAt P.d b' zeroP iframe).r
        (frameAt P.d b' zeroP iframe).t (warpAt P.d b' zeroP P.warpGiven)).x + intrRate P.d.lens (mkProj P.d.lens (I t) (corner t) out) (I t 0) (intrinsicsAt P.d b' zeroP icamI) 0) t ∧
      HasDerivAt (fun s => (pix P.d.lens (I s) (corner s)).y) ((rate out' (camRate P.d b' icamE).r (camRate P.d b' icamE).t (frameAt P.d b' zeroP iframe).r
        (frameAt P.d b' zeroP iframe).t (warpAt P.d b' zeroP P.warpGiven)).y + intrRate P.d.lens (mkProj P.d.lens (I t) (corner t) out) (I t 1) (intrinsicsAt P.d b' zeroP icamI) 1) t := by
    by_cases h0 : icamE < 0
    · have hc : ∀ s, cam s = none := fun s => if_pos h0
      have hcr' : camRate P.d b' icamE = ⟨⟨0, 0, 0⟩, ⟨0, 0, 0⟩⟩ := if_pos h0
      have hreg' : Regular none (frame t).r := by
        have := hreg
        rw [show camOpt P.d (b t) P.seed icamE = none from hc t] at this
        exact this
      have hcor : corner = fun s => truthP none (frame s) (boardPoint P.W P.H P.spacing (some (w s)) x y).1 := by
        funext s; simp only [corner, hc s, board_point_eq]
      have ho : out' = projectCorner (hypothesis P.d.lens (I t)) none (frame t) P.W P.H P.spacing (some (w t)) x y := by simp only [out', hc t]
      rw [hcr', ho]
      rw [hcor] at hlr ⊢
      obtain ⟨a1, -, -, a2, a3⟩ := project_corner_ref (hypothesis P.d.lens (I t)) (fun s p => pix P.d.lens (I s) p) frame w _ _ _ _ _ t P.W P.H P.spacing x y hfr hft hwx hwy hreg' hlr
      exact ⟨a1, a2, a3⟩
    · have hc : ∀ s, cam s = some (cameraAt P.d (b s) P.seed icamE) := fun s => if_neg h0
      have hcr' : camRate P.d b' icamE = cameraAt P.d b' zeroP icamE := if_neg h0
      have hreg' : Regular (some (cameraAt P.d (b t) P.seed icamE).r) (frame t).r := by
        have := hreg
        rw [show camOpt P.d (b t) P.seed icamE = _ from hc t] at this
        exact this
      have hcor : corner = fun s => truthP (some (cameraAt P.d (b s) P.seed icamE)) (frame s) (boardPoint P.W P.H P.spacing (some (w s)) x y).1 := by
        funext s; simp only [corner, hc s, board_point_eq]
      have ho : out' = projectCorner (hypothesis P.d.lens (I t)) (some (cameraAt P.d (b t) P.seed icamE)) (frame t) P.W P.H P.spacing (some (w t)) x y := by simp only [out', hc t]
      rw [hcr', ho]
      rw [hcor] at hlr ⊢
      exact project_corner (hypothesis P.d.lens (I t)) (fun s p => pix P.d.lens (I s) p) (fun s => cameraAt P.d (b s) P.seed icamE) frame w _ _ _ _ _ _ _ t P.W P.H P.spacing x y
        hcr hct hfr hft hwx hwy hreg' hlr
  refine ⟨by rw [hout.1]; exact key.1, ?_⟩
  intro xy hxy
  have hpr : pr = mkProj P.d.lens (I t) (corner t) out := by simp only [pr, hpt]
  rw [hpr, hout.2]
  have : xy = 0 ∨ xy = 1 := by omega
  rcases this with rfl | rfl
  · exact key.2.1
  · exact key.2.2

theorem zero_store (c : Int) : ∀ e ∈ store3 c 0 0 0, e.2 = 0 := by intro e he; simp [store3] at he; rcases he with rfl | rfl | rfl <;> rfl

theorem outlier_board_zero (d : Dims) (iv : Int) (p : Proj) (xy : Nat) : ∀ e ∈ intrinsicsOutlierBoard d iv p xy, e.2 = 0 := by
  intro e he
  unfold intrinsicsOutlierBoard at he
  rw [List.mem_append] at he
  rcases he with he | he
  · split at he
    · simp at he; rcases he with rfl | rfl <;> rfl
    · simp at he
  · split at he
    · split at he
      · simp only [storeSpline, List.mem_flatMap, List.mem_map] at he
        obtain ⟨_, _, _, _, rfl⟩ := he
        rfl
      · simp only [List.mem_map] at he
        obtain ⟨_, _, rfl⟩ := he
        rfl
    · simp at he

theorem outlier_point_zero (d : Dims) (iv : Int) (xy : Nat) : ∀ e ∈ intrinsicsOutlierPoint d iv xy, e.2 = 0 := by
  intro e he
  unfold intrinsicsOutlierPoint at he
  rw [List.mem_append] at he
  rcases he with he | he
  · split at he
    · simp at he; rcases he with rfl | rfl <;> rfl
    · simp at he
  · split at he
    · split at he
      · simp only [List.mem_map] at he
        obtain ⟨_, _, rfl⟩ := he
        rfl
      · simp only [List.mem_map] at he
        obtain ⟨_, _, rfl⟩ := he
        rfl
    · simp at he

theorem dotE_store0 (c : Int) (v : Mem) : dotE (store3 c 0 0 0) v = 0 := dotE_zero _ _ (zero_store c)

/-- **C74**: a board corner. At the corners in front of the camera (and everywhere else where the lens and the rotations are differentiable) -/
theorem board_row_right (P : Problem) (hP : P.Valid) (hb : ∀ j, HasDerivAt (fun s => b s j) (b' j) t) (o : BoardObs) (ho : o ∈ P.boards) (ipt xy : Nat) (hxy : xy < 2)
    (hreg : 0 < o.weight ipt → Regular ((camOf (unpacked P.d P.seed (b t)) o.icamE).map RtV.r) (frameOf (unpacked P.d P.seed (b t)) o.iframe).r ∧
      LensRegular P.d.lens (intrOf P.d (unpacked P.d P.seed (b t)) o.icamI) (seenCorner P (unpacked P.d P.seed (b t)) o ipt)) :
    RowOk P.d P.seed b b' t (boardRow P.d o (boardProj P (b t) o ipt) (fun k => intrinsicsAt P.d (b t) P.seed o.icamI k) ipt xy) (boardRes P o ipt xy) := by
  obtain ⟨hI0, hI1, hE, hf0, hf1⟩ := hP.boards o ho
  by_cases hw : o.weight ipt < 0
  · have hf : boardRes P o ipt xy = fun _ => 0 := by funext Q; exact if_pos hw
    have hw' : ¬ (0 ≤ o.weight ipt) := not_le.mpr hw
    rw [hf]
    refine ⟨?_, ?_⟩
    · unfold boardRow
      simp only [ge_iff_le, hw', if_false]
    · refine HasDerivAt.congr_deriv (hasDerivAt_const _ _) ?_
      unfold boardRow
      simp only [ge_iff_le, hw', if_false]
      rw [dotE_append, dotE_append, dotE_append, dotE_zero _ _ (outlier_board_zero _ _ _ _)]
      have h1 : dotE (if P.d.sel.extrinsics = true then if 0 ≤ o.icamE then store3 (stateIndexExtrinsics o.icamE P.d + 0) 0 0 0 ++ store3 (stateIndexExtrinsics o.icamE P.d + 3) 0 0 0 else [] else []) b' = 0 := by
        split
        · split
          · rw [dotE_append, dotE_store0, dotE_store0, add_zero]
          · rfl
        · rfl
      have h2 : dotE (if P.d.sel.frames = true then store3 (stateIndexFrames o.iframe P.d + 0) 0 0 0 ++ store3 (stateIndexFrames o.iframe P.d + 3) 0 0 0 else []) b' = 0 := by
        split
        · rw [dotE_append, dotE_store0, dotE_store0, add_zero]
        · rfl
      have h3 : dotE (if hasCalobjectWarp P.d.sel P.d.Nob = true then (loop 2).map fun i => (stateIndexWarp P.d + i, 0) else []) b' = 0 := by
        split
        · refine dotE_zero _ _ ?_
          intro e he
          obtain ⟨_, _, rfl⟩ := List.mem_map.mp he
          rfl
        · rfl
      rw [h1, h2, h3]
      simp
  · have hw0 := not_lt.mp hw
    have hd := board_dot P hP.lens (b t) b' o ipt xy hxy hw0 (camPoint (camOpt P.d (b t) P.seed o.icamE) (frameAt P.d (b t) P.seed o.iframe)
        (boardPoint P.W P.H P.spacing (if P.warpGiven then some (warpAt P.d (b t) P.seed P.warpGiven) else none) (ipt % P.W) (ipt / P.W)).1)
      (projectCorner (hypothesis P.d.lens (intrinsicsAt P.d (b t) P.seed o.icamI)) (camOpt P.d (b t) P.seed o.icamE) (frameAt P.d (b t) P.seed o.iframe) P.W P.H P.spacing
        (if P.warpGiven then some (warpAt P.d (b t) P.seed P.warpGiven) else none) (ipt % P.W) (ipt / P.W))
      (fun k => intrinsicsAt P.d (b t) P.seed o.icamI k) (intrinsicsAt P.d (b t) P.seed o.icamI)
    have hx : (boardRow P.d o (boardProj P (b t) o ipt) (fun k => intrinsicsAt P.d (b t) P.seed o.icamI k) ipt xy).x =
        (pick2 (projectCorner (hypothesis P.d.lens (intrinsicsAt P.d (b t) P.seed o.icamI)) (camOpt P.d (b t) P.seed o.icamE) (frameAt P.d (b t) P.seed o.iframe) P.W P.H P.spacing
        (if P.warpGiven then some (warpAt P.d (b t) P.seed P.warpGiven) else none) (ipt % P.W) (ipt / P.W)).q xy - o.obs ipt xy) * o.weight ipt := by
      unfold boardRow
      simp only [ge_iff_le, hw0, if_true]
      rfl
    rcases hw0.lt_or_eq with hpos | hz
    · obtain ⟨hr1, hr2⟩ := hreg hpos
      have hC := fun s => camOpt_unpacked P.d hP.wf (b s) P.seed o.icamE hE
      have hF := fun s => frame_unpacked P.d hP.wf (b s) P.seed o.iframe hf0 hf1
      have hI := fun s => intrinsics_unpacked P.d hP.wf (b s) P.seed o.icamI hI0 hI1
      have hW := fun s => warp_unpacked P.d hP.wf (b s) P.seed P.warpGiven hP.warp
      rw [← hC t, ← hF t] at hr1
      have key := corner_deriv P hP hb o.icamI o.icamE o.iframe hE (ipt % P.W) (ipt / P.W) hr1 (by
        beta_reduce; rw [hI t, hC t, hF t, hW t]; exact hr2)
      obtain ⟨kq, kd⟩ := key
      have hf : ∀ s, boardRes P o ipt xy (unpacked P.d P.seed (b s)) = o.weight ipt * (pick2 (pix P.d.lens (intrinsicsAt P.d (b s) P.seed o.icamI)
          (truthP (camOpt P.d (b s) P.seed o.icamE) (frameAt P.d (b s) P.seed o.iframe)
          (cornerOf P.W P.H P.spacing (warpAt P.d (b s) P.seed P.warpGiven) (ipt % P.W) (ipt / P.W)))) xy - o.obs ipt xy) := by
        intro s
        unfold boardRes
        rw [if_neg hw, hI s, hC s, hF s, hW s]
      refine ⟨?_, ?_⟩
      · rw [hx, hf t, kq]; ring
      · simp only [hf]
        refine HasDerivAt.congr_deriv (((kd xy hxy).sub_const _).const_mul _) ?_
        exact hd.symm
    · have hf : ∀ Q, boardRes P o ipt xy Q = 0 := by
        intro Q; unfold boardRes; rw [if_neg hw, ← hz, zero_mul]
      refine ⟨?_, ?_⟩
      · rw [hx, hf, ← hz, mul_zero]
      · simp only [hf]
        refine HasDerivAt.congr_deriv (hasDerivAt_const _ _) ?_
        refine Eq.symm (Eq.trans hd ?_)
        rw [← hz, zero_mul]

/-! ### points -/

theorem seen_ref (p : P3) : truthP none ⟨⟨0, 0, 0⟩, p⟩ ⟨0, 0, 0⟩ = p := by
  have h : ∀ i, truth none ⟨⟨0, 0, 0⟩, p⟩ ⟨0, 0, 0⟩ i = toVec p i := by
    intro i
    have z : toVec ⟨0, 0, 0⟩ = (0 : Fin 3 → ℝ) := by ext k; fin_cases k <;> simp [toVec]
    simp only [truth, trS, Bool.false_eq_true, if_false, z, Matrix.mulVec_zero, zero_add]
  unfold truthP
  rw [h, h, h]
  rfl

theorem point_project_deriv (P : Problem) (hP : P.Valid) (hb : ∀ j, HasDerivAt (fun s => b s j) (b' j) t) (icamI icamE ipoint : Int)
    (hreg : ∀ c, camOpt P.d (b t) P.seed icamE = some c → 1e-5 ≤ mag3 c.r ∨ c.r = ⟨0, 0, 0⟩) :
    let I := fun s => intrinsicsAt P.d (b s) P.seed icamI
    let cam := fun s => camOpt P.d (b s) P.seed icamE
    let pos := fun s => pointAt P.d (b s) P.seed ipoint
    let seen := fun s => truthP (cam s) ⟨⟨0, 0, 0⟩, pos s⟩ ⟨0, 0, 0⟩
    let out := projectDiscrete (hypothesis P.d.lens (I t)) (cam t) (pos t)
    let p := camPoint (cam t) ⟨⟨0, 0, 0⟩, pos t⟩ ⟨0, 0, 0⟩
    let pr := mkProj P.d.lens (I t) p out
    LensRegular P.d.lens (I t) (seen t) →
    out.q = pix P.d.lens (I t) (seen t) ∧
    ∀ xy < 2, HasDerivAt (fun s => pick2 (pix P.d.lens (I s) (seen s)) xy)
      (pick2 (rate out (camRate P.d b' icamE).r (camRate P.d b' icamE).t ⟨0, 0, 0⟩ (pointAt P.d b' zeroP ipoint) ⟨0, 0⟩) xy +
        intrRate P.d.lens pr (I t xy) (intrinsicsAt P.d b' zeroP icamI) xy) t := by
  intro I cam pos seen out p pr hl
  have hpd := point_deriv P.d P.seed hb ipoint
  obtain ⟨hcr, hct⟩ := camera_deriv P.d P.seed hb icamE
  have hlr := lens_rate P.d.lens hP.lens (I := I) (I' := intrinsicsAt P.d b' zeroP icamI) (t := t) (fun k => intrinsics_deriv P.d P.seed hb icamI k) (seen t) hl out
  have key : p = seen t ∧ out.q = pix P.d.lens (I t) (seen t) ∧
      HasDerivAt (fun s => (pix P.d.lens (I s) (seen s)).x) ((rate out (camRate P.d b' icamE).r (camRate P.d b' icamE).t ⟨0, 0, 0⟩ (pointAt P.d b' zeroP ipoint) ⟨0, 0⟩).x +
        intrRate P.d.lens (mkProj P.d.lens (I t) (seen t) out) (I t 0) (intrinsicsAt P.d b' zeroP icamI) 0) t ∧
      HasDerivAt (fun s => (pix P.d.lens (I s) (seen s)).y) ((rate out (camRate P.d b' icamE).r (camRate P.d b' icamE).t ⟨0, 0, 0⟩ (pointAt P.d b' zeroP ipoint) ⟨0, 0⟩).y +
        intrRate P.d.lens (mkProj P.d.lens (I t) (seen t) out) (I t 1) (intrinsicsAt P.d b' zeroP icamI) 1) t := by
    by_cases h0 : icamE < 0
    · have hc : ∀ s, cam s = none := fun s => if_pos h0
      have hcr' : camRate P.d b' icamE = ⟨⟨0, 0, 0⟩, ⟨0, 0, 0⟩⟩ := if_pos h0
      have hs : seen = pos := by funext s; simp only [seen, hc s, seen_ref]
      have ho : out = projectDiscrete (hypothesis P.d.lens (I t)) none (pos t) := by simp only [out, hc t]
      rw [hcr']
      rw [hs] at hlr ⊢
      obtain ⟨a1, -, -, a2, a3⟩ := project_discrete_ref (hypothesis P.d.lens (I t)) (fun s p => pix P.d.lens (I s) p) pos _ _ _ t hpd hlr
      refine ⟨?_, ?_, ?_, ?_⟩
      · simp only [p, hc t, camPoint, Project.joint, propagateExtrinsics]
        simp [addP, mulVec]
      · rw [ho]; exact a1
      · nth_rewrite 1 [ho]; exact a2
      · nth_rewrite 1 [ho]; exact a3
    · have hc : ∀ s, cam s = some (cameraAt P.d (b s) P.seed icamE) := fun s => if_neg h0
      have hcr' : camRate P.d b' icamE = cameraAt P.d b' zeroP icamE := if_neg h0
      have hs : seen = fun s => truthP (some (cameraAt P.d (b s) P.seed icamE)) ⟨⟨0, 0, 0⟩, pos s⟩ ⟨0, 0, 0⟩ := by funext s; simp only [seen, hc s]
      have ho : out = projectDiscrete (hypothesis P.d.lens (I t)) (some (cameraAt P.d (b t) P.seed icamE)) (pos t) := by simp only [out, hc t]
      have hr := hreg _ (hc t)
      rw [hcr']
      rw [hs] at hlr ⊢
      obtain ⟨a1, a2, a3⟩ := project_discrete (hypothesis P.d.lens (I t)) (fun s p => pix P.d.lens (I s) p) (fun s => cameraAt P.d (b s) P.seed icamE) pos _ _ _ _ _ t hcr hct hpd hr hlr
      refine ⟨?_, ?_, ?_, ?_⟩
      · have hz : HasDerivP (fun _ : ℝ => (⟨0, 0, 0⟩ : P3)) ⟨0, 0, 0⟩ t := ⟨hasDerivAt_const _ _, hasDerivAt_const _ _, hasDerivAt_const _ _⟩
        have z : (0 : Fin 3 → ℝ) = toVec ⟨0, 0, 0⟩ := by ext k; fin_cases k <;> simp [toVec]
        have hT := fun i => (compose_rt_gradient (fun s => cameraAt P.d (b s) P.seed icamE) (fun s => ⟨⟨0, 0, 0⟩, pos s⟩) _ _ ⟨0, 0, 0⟩ _ t false false hcr hct hz hpd hr (Or.inr rfl) i).1
        have : (composert (cameraAt P.d (b t) P.seed icamE) ⟨⟨0, 0, 0⟩, pos t⟩ false false).rt.t = truthP (some (cameraAt P.d (b t) P.seed icamE)) ⟨⟨0, 0, 0⟩, pos t⟩ ⟨0, 0, 0⟩ :=
          truthP_of fun i => by rw [hT i, z]; rfl
        simp only [p, hc t, camPoint, Project.joint, propagateExtrinsics]
        rw [this]
        simp [addP, mulVec]
      · rw [ho]; exact a1
      · nth_rewrite 1 [ho]; exact a2
      · nth_rewrite 1 [ho]; exact a3
  obtain ⟨kp, kq, kx, ky⟩ := key
  refine ⟨kq, ?_⟩
  intro xy hxy
  have hpr : pr = mkProj P.d.lens (I t) (seen t) out := by simp only [pr, kp]
  rw [hpr]
  have : xy = 0 ∨ xy = 1 := by omega
  rcases this with rfl | rfl
  · exact kx
  · exact ky

/-- **C74**: a discrete point -/
theorem point_row_right (P : Problem) (hP : P.Valid) (hb : ∀ j, HasDerivAt (fun s => b s j) (b' j) t) (o : PointObs) (ho : o ∈ P.points) (xy : Nat) (hxy : xy < 2)
    (hreg : 0 < o.weight → (∀ c, camOf (unpacked P.d P.seed (b t)) o.icamE = some c → 1e-5 ≤ mag3 c.r ∨ c.r = ⟨0, 0, 0⟩) ∧
      LensRegular P.d.lens (intrOf P.d (unpacked P.d P.seed (b t)) o.icamI) (seenPoint (unpacked P.d P.seed (b t)) o)) :
    RowOk P.d P.seed b b' t (pointRow P.d o (pointProj P (b t) o) (fun k => intrinsicsAt P.d (b t) P.seed o.icamI k) xy) (pointRes P o xy) := by
  obtain ⟨hI0, hI1, hE, hf0, hf1⟩ := hP.points o ho
  by_cases hw : o.weight ≤ 0
  · have hf : pointRes P o xy = fun _ => 0 := by funext Q; exact if_pos hw
    rw [hf]
    refine ⟨?_, ?_⟩
    · unfold pointRow
      simp only [hw, if_true]
    · refine HasDerivAt.congr_deriv (hasDerivAt_const _ _) ?_
      unfold pointRow
      simp only [hw, if_true]
      rw [dotE_append, dotE_append, dotE_zero _ _ (outlier_point_zero _ _ _)]
      have h1 : dotE (if (decide (o.icamE ≥ 0) && P.d.sel.extrinsics) = true then store3 (stateIndexExtrinsics o.icamE P.d + 0) 0 0 0 ++ store3 (stateIndexExtrinsics o.icamE P.d + 3) 0 0 0 else []) b' = 0 := by
        split
        · rw [dotE_append, dotE_store0, dotE_store0, add_zero]
        · rfl
      have h2 : dotE (if (P.d.sel.frames && decide (o.ipoint < P.d.Npoints - P.d.NpointsFixed)) = true then store3 (stateIndexPoints o.ipoint P.d) 0 0 0 else []) b' = 0 := by
        split
        · rw [dotE_store0]
        · rfl
      rw [h1, h2]
      simp
  · have hpos := not_le.mp hw
    have hd := point_row_dot P hP.lens (b t) b' o xy hxy hpos (camPoint (camOpt P.d (b t) P.seed o.icamE) ⟨⟨0, 0, 0⟩, pointAt P.d (b t) P.seed o.ipoint⟩ ⟨0, 0, 0⟩)
      (projectDiscrete (hypothesis P.d.lens (intrinsicsAt P.d (b t) P.seed o.icamI)) (camOpt P.d (b t) P.seed o.icamE) (pointAt P.d (b t) P.seed o.ipoint))
      (fun k => intrinsicsAt P.d (b t) P.seed o.icamI k) (intrinsicsAt P.d (b t) P.seed o.icamI)
    have hx : (pointRow P.d o (pointProj P (b t) o) (fun k => intrinsicsAt P.d (b t) P.seed o.icamI k) xy).x =
        (pick2 (projectDiscrete (hypothesis P.d.lens (intrinsicsAt P.d (b t) P.seed o.icamI)) (camOpt P.d (b t) P.seed o.icamE) (pointAt P.d (b t) P.seed o.ipoint)).q xy - o.obs xy) * o.weight := by
      unfold pointRow
      simp only [hw, if_false]
      rfl
    obtain ⟨hr1, hr2⟩ := hreg hpos
    have hC := fun s => camOpt_unpacked P.d hP.wf (b s) P.seed o.icamE hE
    have hF := fun s => point_unpacked P.d hP.wf (b s) P.seed o.ipoint hf0
    have hI := fun s => intrinsics_unpacked P.d hP.wf (b s) P.seed o.icamI hI0 hI1
    rw [← hC t] at hr1
    obtain ⟨kq, kd⟩ := point_project_deriv P hP hb o.icamI o.icamE o.ipoint hr1 (by beta_reduce; rw [hI t, hC t, hF t]; exact hr2)
    have hf : ∀ s, pointRes P o xy (unpacked P.d P.seed (b s)) = o.weight * (pick2 (pix P.d.lens (intrinsicsAt P.d (b s) P.seed o.icamI)
        (truthP (camOpt P.d (b s) P.seed o.icamE) ⟨⟨0, 0, 0⟩, pointAt P.d (b s) P.seed o.ipoint⟩ ⟨0, 0, 0⟩)) xy - o.obs xy) := by
      intro s
      unfold pointRes seenPoint
      rw [if_neg hw, hI s, hC s, hF s]
    refine ⟨?_, ?_⟩
    · rw [hx, hf t, kq]; ring
    · simp only [hf]
      refine HasDerivAt.congr_deriv (((kd xy hxy).sub_const _).const_mul _) ?_
      exact hd.symm

end Mrcal.Callback
