import Verif.Props.OptimizeSolveProps
import Mathlib.Tactic.IntervalCases

/-! # C111: concrete cases, and what doesn't hold -/

namespace Mrcal.Solve
open Mrcal Mrcal.Pack Mrcal.Callback Mrcal.Pose Mrcal.StateLayout Mrcal.Tri

/-! ### solvers -/

/-- stays where it is -/
noncomputable def keep : Solver := fun f b => (f b).map fun x => ⟨b, x, cost x⟩

theorem keep_honest : Honest keep := by
  refine ⟨fun f b s h => ?_, fun f b s h => ?_, fun f b s x0 h h0 => ?_⟩ <;> simp only [keep, Option.map_eq_some_iff] at h <;> obtain ⟨x, hx, rfl⟩ := h
  · exact hx
  · rfl
  · rw [hx] at h0; obtain rfl := Option.some.inj h0; exact le_refl _

open Classical in
/-- moves to p1, if it's not worse there -/
noncomputable def moveTo (p1 : Mem) : Solver := fun f b => match f b, f p1 with
  | some x0, some x1 => if cost x1 ≤ cost x0 then some ⟨p1, x1, cost x1⟩ else some ⟨b, x0, cost x0⟩
  | _, _ => none

theorem moveTo_honest (p1 : Mem) : Honest (moveTo p1) := by
  have key : ∀ f b s, moveTo p1 f b = some s → ∃ x0 x1, f b = some x0 ∧ f p1 = some x1 ∧ ((cost x1 ≤ cost x0 ∧ s = ⟨p1, x1, cost x1⟩) ∨ s = ⟨b, x0, cost x0⟩) := by
    intro f b s h
    unfold moveTo at h
    cases h0 : f b with
    | none => rw [h0] at h; cases h
    | some x0 =>
      cases h1 : f p1 with
      | none => rw [h0, h1] at h; cases h
      | some x1 =>
        rw [h0, h1] at h
        refine ⟨x0, x1, rfl, rfl, ?_⟩
        dsimp only at h
        by_cases hc : cost x1 ≤ cost x0
        · rw [if_pos hc] at h; exact Or.inl ⟨hc, (Option.some.inj h).symm⟩
        · rw [if_neg hc] at h; exact Or.inr (Option.some.inj h).symm
  refine ⟨fun f b s h => ?_, fun f b s h => ?_, fun f b s x h h' => ?_⟩ <;> obtain ⟨x0, x1, h0, h1, ⟨hc, rfl⟩ | rfl⟩ := key f b s h
  · exact h1
  · exact h0
  · rfl
  · rfl
  · rw [h0] at h'; obtain rfl := Option.some.inj h'; exact hc
  · rw [h0] at h'; obtain rfl := Option.some.inj h'; exact le_refl _

open Classical in
/-- stays where it is; fails if there's nothing to do -/
noncomputable def failsAtZero : Solver := fun f b => (f b).bind fun x => if cost x = 0 then none else some ⟨b, x, cost x⟩

theorem failsAtZero_honest : Honest failsAtZero := by
  have key : ∀ f b s, failsAtZero f b = some s → ∃ x, f b = some x ∧ s = ⟨b, x, cost x⟩ := by
    intro f b s h
    unfold failsAtZero at h
    rw [Option.bind_eq_some_iff] at h
    obtain ⟨x, hx, h⟩ := h
    split at h
    · cases h
    · exact ⟨x, hx, (Option.some.inj h).symm⟩
  refine ⟨fun f b s h => ?_, fun f b s h => ?_, fun f b s x h h' => ?_⟩ <;> obtain ⟨x, hx, rfl⟩ := key f b s h
  · exact hx
  · rfl
  · rw [hx] at h'; obtain rfl := Option.some.inj h'; exact le_refl _

theorem failsAtZero_ok {f b x} (h : f b = some x) (hx : cost x ≠ 0) : failsAtZero f b = some ⟨b, x, cost x⟩ := by
  unfold failsAtZero
  rw [h, Option.bind_some, if_neg hx]

theorem failsAtZero_fails {f b x} (h : f b = some x) (hx : cost x = 0) : failsAtZero f b = none := by
  unfold failsAtZero
  rw [h, Option.bind_some, if_pos hx]

theorem moveTo_moves {f b p1 x0 x1} (h0 : f b = some x0) (h1 : f p1 = some x1) (h : cost x1 ≤ cost x0) : moveTo p1 f b = some ⟨p1, x1, cost x1⟩ := by
  unfold moveTo
  rw [h0, h1]
  exact if_pos h

/-! ### a triangulated point, seen by two cameras. One is at the reference; the pose of the other is being optimized -/

def triDims : Dims := ⟨1, 1, 0, 0, 0, 0, ⟨false, false, true, false, false, false, true, false⟩, .pinhole⟩

/-- the second camera is at (-t,0,0) -/
noncomputable def seedAt (t : ℝ) : Params
  | .intr _ => 1
  | .cam i k => if i = 0 ∧ k = 3 then t else 0
  | _ => 0

noncomputable def triProblem (t : ℝ) : Problem where
  d := triDims
  W := 0
  H := 0
  spacing := 1
  warpGiven := false
  boards := []
  points := []
  tri := [⟨false, false, 0, -1⟩, ⟨true, false, 0, 0⟩]
  triV := fun i => if i = 0 then ⟨0, 0, 1⟩ else ⟨1, 0, 1⟩
  imagersizes := fun _ => 1
  seed := seedAt t

theorem tri_valid (t : ℝ) : (triProblem t).Valid := by
  refine ⟨⟨?_, ?_, ?_, ?_, ?_⟩, trivial, ?_, ?_, ?_, ?_, ?_, ?_⟩ <;> simp [triProblem, triDims, hasCalobjectWarp]

theorem tri_pairs (t : ℝ) : triPairs 0 (triProblem t).tri = some [(0, 1)] := rfl
theorem tri_meas (t : ℝ) : numMeas (triProblem t) = some 1 := by
  unfold numMeas numMeasurements
  rw [numMeasurementsTri_pairs, tri_pairs]
  rfl
theorem tri_good (t : ℝ) : ¬ BadArguments (triProblem t) := by simp [BadArguments, triProblem, triDims]
theorem tri_opt (t : ℝ) : Optimizes (triProblem t) := Or.inr (Or.inr (Or.inl rfl))
theorem tri_eff (t : ℝ) : effective (triProblem t) = triProblem t := rfl
theorem tri_states : numStates triDims = 6 := by decide
theorem tri_unpacked (t t' : ℝ) (junk : Mem) : unpacked triDims (seedAt t') (packState triDims (seedAt t) junk).1 = seedAt t := by
  obtain ⟨p1, -, -⟩ := pack_state_values triDims (tri_valid t).wf (seedAt t) junk
  obtain ⟨u1, u2, -⟩ := unpack_state_values triDims (tri_valid t).wf (packState triDims (seedAt t) junk).1 (seedAt t')
  funext a
  show (unpackState triDims _ (seedAt t')).1 a = _
  by_cases h : ∃ v, Present triDims v ∧ home triDims v = a
  · obtain ⟨v, hv, rfl⟩ := h
    rw [u1 v hv, p1 v hv, div_mul_cancel₀ _ (unit_pos triDims v).ne']
  · rw [u2 a fun v hv e => h ⟨v, hv, e⟩]
    cases a with
    | cam i k =>
      have : ¬ (i = 0 ∧ k = 3) := by
        rintro ⟨rfl, rfl⟩
        exact h ⟨.extrinsics 0 3, ⟨rfl, by decide, by decide, by decide, by decide⟩, rfl⟩
      simp only [seedAt, if_neg this]
    | _ => rfl

/-- the error of the pair -/
noncomputable def err (t : ℝ) : ℝ := (triangulatedError ⟨1, 0, 1⟩ ⟨0, 0, 1⟩ ⟨t, 0, 0⟩).1

theorem no_rotation (p : P3) : (rotatePointr ⟨0, 0, 0⟩ p false wr wx).x = p := by
  rw [rot_value _ _ _ _ _ (Or.inr rfl), rotP_eq]
  simp [rotForm, mag3]

theorem pose_at (t : ℝ) : poseAt (seedAt t) (.cam 0) = ⟨⟨0, 0, 0⟩, ⟨t, 0, 0⟩⟩ := by
  simp [poseAt, seedAt]

theorem tri_eval (t0 t : ℝ) (o : Outliers.Obs) (b : Mem) (hb : unpacked triDims (seedAt t0) b = seedAt t) :
    evaluate (setObs (triProblem t0) o) b = some [if o.flags 0 || o.flags 1 then 0 else err t] := by
  have hv := setObs_valid _ (tri_valid t0) o
  rw [evaluate_rows]
  have hc : camOpt triDims b (seedAt t0) 0 = some ⟨⟨0, 0, 0⟩, ⟨t, 0, 0⟩⟩ := by
    rw [camOpt_unpacked triDims (tri_valid t0).wf _ _ _ (by decide), hb]
    show (if (0 : Int) < 0 then none else some (poseAt (seedAt t) (.cam 0))) = _
    rw [if_neg (by decide), pose_at]
  have hr : ((setObs (triProblem t0) o).ctx b).projTri 0 1 = triResidual none (some ⟨⟨0, 0, 0⟩, ⟨t, 0, 0⟩⟩) ⟨0, 0, 1⟩ ⟨1, 0, 1⟩ := by
    rw [← hc]; rfl
  have he : (((setObs (triProblem t0) o).ctx b).projTri 0 1).err = err t := by
    rw [hr]
    show (triangulatedError ⟨1, 0, 1⟩ (rotatePointr ⟨0, 0, 0⟩ ⟨0, 0, 1⟩ false true true).x ⟨t, 0, 0⟩).1 = _
    rw [no_rotation]; rfl
  have ha : allRows ((setObs (triProblem t0) o).ctx b) = some [triRow triDims ⟨false, o.flags 0, 0, -1⟩ ⟨true, o.flags 1, 0, 0⟩ (((setObs (triProblem t0) o).ctx b).projTri 0 1)] := rfl
  rw [ha]
  simp only [Option.map_some, List.map_cons, List.map_nil, triRow_x, he]

theorem not_parallel : crossp ⟨1, 0, 1⟩ ⟨0, 0, 1⟩ ≠ zerop := by
  intro h
  have := congrArg P3.y h
  norm_num [crossp, zerop] at this

/-- the rays intersect in front of the cameras -/
theorem err_one : err 1 = 0 :=
  triangulated_error_perfect _ _ _ ⟨1, 0, 1⟩ 1 1 ⟨one_pos, one_pos, by simp [sm], by simp [sm, addp]⟩ not_parallel

/-- behind -/
theorem err_minus_one : 0 < err (-1) := by
  unfold err
  rw [triangulated_error_value]
  have s : ∀ x, 0 ≤ smooth 3 x := fun x => by
    have := ((sigmoid_spec (N := 6) 3 (by norm_num)).1 (AD.Val.ofR x)).1
    rwa [sigmoid_val _ 3 (by norm_num)] at this
  have hg : gmid ⟨1, 0, 1⟩ ⟨0, 0, 1⟩ ⟨-1, 0, 0⟩ (range0 ⟨1, 0, 1⟩ ⟨0, 0, 1⟩ ⟨-1, 0, 0⟩) (range1 ⟨1, 0, 1⟩ ⟨0, 0, 1⟩ ⟨-1, 0, 0⟩) = ⟨0, 0, 1⟩ := by
    norm_num [gmid, range0, range1, crossp, len2, dotp, sm, addp]
  have hc : 0 < chordCut ⟨1, 0, 1⟩ ⟨0, 0, 1⟩ := by
    have h2' : 1.4 < Real.sqrt 2 := by rw [Real.lt_sqrt (by norm_num)]; norm_num
    have hsq : chord ⟨1, 0, 1⟩ ⟨0, 0, 1⟩ ^ 2 = 2 - 2 * (1 / Real.sqrt 2) := by
      rw [chord_sq]; norm_num [dotp, len2]
    have h3 : 1 / Real.sqrt 2 < 1 / 1.4 := one_div_lt_one_div_of_lt (by norm_num) h2'
    have h4 : (1e-21 : ℝ) < chord ⟨1, 0, 1⟩ ⟨0, 0, 1⟩ ^ 2 := by rw [hsq]; norm_num at h3 ⊢; linarith
    unfold chordCut
    rw [if_neg (not_lt.2 h4.le)]
    exact lt_of_le_of_ne (chord_nonneg _ _) fun h => by rw [← h] at h4; norm_num at h4
  unfold errorSpec
  have c := s (-worse ⟨1, 0, 1⟩ ⟨0, 0, 1⟩ ⟨-1, 0, 0⟩ (range0 ⟨1, 0, 1⟩ ⟨0, 0, 1⟩ ⟨-1, 0, 0⟩) (range1 ⟨1, 0, 1⟩ ⟨0, 0, 1⟩ ⟨-1, 0, 0⟩) (-1) 1)
  have d := s (-worse ⟨1, 0, 1⟩ ⟨0, 0, 1⟩ ⟨-1, 0, 0⟩ (range0 ⟨1, 0, 1⟩ ⟨0, 0, 1⟩ ⟨-1, 0, 0⟩) (range1 ⟨1, 0, 1⟩ ⟨0, 0, 1⟩ ⟨-1, 0, 0⟩) 1 (-1))
  have e := s (-worse ⟨1, 0, 1⟩ ⟨0, 0, 1⟩ ⟨-1, 0, 0⟩ (range0 ⟨1, 0, 1⟩ ⟨0, 0, 1⟩ ⟨-1, 0, 0⟩) (range1 ⟨1, 0, 1⟩ ⟨0, 0, 1⟩ ⟨-1, 0, 0⟩) (-1) (-1))
  dsimp only
  rw [hg]
  positivity

theorem not_convergent : convergentIn (triProblem (-1)) 0 1 = false := by
  unfold convergentIn
  have h0 : camIn (triProblem (-1)) 0 = none := rfl
  have h1 : camIn (triProblem (-1)) 1 = some ⟨⟨0, 0, 0⟩, ⟨-1, 0, 0⟩⟩ := by rw [← pose_at]; rfl
  have hr : raysIn (camIn (triProblem (-1)) 0) (camIn (triProblem (-1)) 1) ((triProblem (-1)).triV 0) = (⟨0, 0, 1⟩, ⟨-1, 0, 0⟩) := by
    rw [h0, h1]
    show ((rotatePointr ⟨0, 0, 0⟩ ⟨0, 0, 1⟩ false false false).x, (⟨-1, 0, 0⟩ : P3)) = _
    rw [no_rotation]
  rw [decide_eq_false_iff_not]
  show ¬ isConvergent ⟨1, 0, 1⟩ (raysIn (camIn (triProblem (-1)) 0) (camIn (triProblem (-1)) 1) ((triProblem (-1)).triV 0)).1
    (raysIn (camIn (triProblem (-1)) 0) (camIn (triProblem (-1)) 1) ((triProblem (-1)).triV 0)).2
  rw [hr]
  exact isConvergent_behind _ _ _ (-1) (-1) (Or.inl (by norm_num)) (by simp [sm, addp]) not_parallel

/-- with neither marked, whatever the residuals: both are -/
theorem mark_fresh (x : List ℝ) (o : Outliers.Obs) (hw : o.weights = []) (h0 : o.flags 0 = false) (h1 : o.flags 1 = false) :
    Outliers.markOutliers (rejection (triProblem (-1)) [(0, 1)] x) o = ⟨⟨[], Outliers.setFlag (Outliers.setFlag o.flags 0) 1⟩, 0, 1, true⟩ := by
  have hc : (rejection (triProblem (-1)) [(0, 1)] x).convergent 0 1 = false := not_convergent
  have hp : (rejection (triProblem (-1)) [(0, 1)] x).pairs = [(0, 1)] := rfl
  unfold Outliers.markOutliers
  simp [hp, hw, Outliers.triVar, Outliers.triMark, hc, h0, h1, Outliers.setFlag]

/-- and then they stay -/
theorem mark_done (x : List ℝ) (o : Outliers.Obs) (hw : o.weights = []) (h0 : o.flags 0 = true) :
    Outliers.markOutliers (rejection (triProblem (-1)) [(0, 1)] x) o = ⟨o, 0, 1, false⟩ := by
  have hp : (rejection (triProblem (-1)) [(0, 1)] x).pairs = [(0, 1)] := rfl
  obtain ⟨w, f⟩ := o
  dsimp only at hw h0
  subst hw
  unfold Outliers.markOutliers
  simp [hp, Outliers.triVar, h0]

/-! ### calls -/

noncomputable def triCall (t : ℝ) : Call := ⟨triProblem t, some 48, some 8, false⟩

/-- as python calls it -/
theorem tri_pyCall (t : ℝ) : pyCall (triProblem t) = some (triCall t) := by
  unfold pyCall pySizes
  rw [tri_meas]
  rfl

theorem tri_before (t : ℝ) : before (triCall t) = none := ((python_sizes_fit _ _ (tri_pyCall t)).2).2 (tri_good t)

/-- both observations marked -/
noncomputable def marked : Outliers.Obs := ⟨[], Outliers.setFlag (Outliers.setFlag (obsOf (triProblem (-1))).flags 0) 1⟩

theorem tri_weights (t : ℝ) : (obsOf (triProblem t)).weights = [] := rfl
theorem tri_unmarked (t : ℝ) : (obsOf (triProblem t)).flags 0 = false ∧ (obsOf (triProblem t)).flags 1 = false := ⟨rfl, rfl⟩

theorem start_unpacked (t : ℝ) (junk : Mem) : unpacked triDims (seedAt t) (start (triProblem t) junk) = seedAt t := tri_unpacked t t junk

/-- a solver that doesn't move: both are marked as outliers, and the second pass reports a perfect fit -/
theorem keep_result (junk : Mem) : ∃ r, Optimize keep (triCall (-1)) junk (.ret r) ∧ r.rms ≠ .minus1 ∧ r.obs = marked ∧ r.noutTri = 1 ∧ r.arrays = seedAt (-1) ∧ r.xFinal = some [0] := by
  have hu := start_unpacked (-1) junk
  have h := Optimize.solve (solver := keep) (c := triCall (-1)) (junk := junk) [(0, 1)] 1 ⟨some ⟨start (triProblem (-1)) junk, [0], cost [0]⟩, marked, 0, 1⟩ (tri_before _) (tri_pairs _) (tri_meas _)
    (.again _ _ _ _ ⟨start (triProblem (-1)) junk, [err (-1)], cost [err (-1)]⟩ _ _
      (by show (evaluate (setObs (triProblem (-1)) _) (start (triProblem (-1)) junk)).map _ = _
          rw [tri_eval _ _ _ _ hu]; rfl) rfl (mark_fresh _ _ rfl rfl rfl).symm rfl
      (.stop _ _ _ _ ⟨start (triProblem (-1)) junk, [0], cost [0]⟩ ⟨marked, 0, 1, false⟩
        (by show (evaluate (setObs (triProblem (-1)) marked) (start (triProblem (-1)) junk)).map _ = _
            rw [tri_eval _ _ _ _ hu]; rfl) rfl (mark_done _ marked rfl rfl).symm rfl))
  refine ⟨_, h, ?_, rfl, rfl, hu, rfl⟩
  simp

/-- a solver that fails the second time -/
theorem fails_result (junk : Mem) : ∃ r, Optimize failsAtZero (triCall (-1)) junk (.ret r) ∧ r.rms = .minus1 ∧ r.obs = marked := by
  have hu := start_unpacked (-1) junk
  have he := err_minus_one
  have h := Optimize.solve (solver := failsAtZero) (c := triCall (-1)) (junk := junk) [(0, 1)] 1 ⟨none, marked, 0, 1⟩ (tri_before _) (tri_pairs _) (tri_meas _)
    (.again _ _ _ _ ⟨start (triProblem (-1)) junk, [err (-1)], cost [err (-1)]⟩ _ _
      (failsAtZero_ok (x := [err (-1)]) (tri_eval _ _ _ _ hu) (by simp [cost, he.ne'])) rfl (mark_fresh _ _ rfl rfl rfl).symm rfl
      (.failed _ _ _ _ (failsAtZero_fails (x := [0]) (tri_eval _ _ marked _ hu) (by simp [cost]))))
  exact ⟨_, h, rfl, rfl⟩

/-- a solver that finds the right answer at once -/
theorem move_result (junk : Mem) : ∃ r, Optimize (moveTo (start (triProblem 1) junk)) (triCall (-1)) junk (.ret r) ∧ r.rms ≠ .minus1 ∧ r.obs = marked ∧ r.noutTri = 1 ∧ r.arrays = seedAt 1 := by
  have hu := start_unpacked (-1) junk
  have hu1 : unpacked triDims (seedAt (-1)) (start (triProblem 1) junk) = seedAt 1 := tri_unpacked 1 (-1) junk
  have he := err_minus_one
  have h := Optimize.solve (solver := moveTo (start (triProblem 1) junk)) (c := triCall (-1)) (junk := junk) [(0, 1)] 1 ⟨some ⟨start (triProblem 1) junk, [0], cost [0]⟩, marked, 0, 1⟩ (tri_before _) (tri_pairs _)
    (tri_meas _)
    (.again _ _ _ _ ⟨start (triProblem 1) junk, [err 1], cost [err 1]⟩ _ _
      (moveTo_moves (x0 := [err (-1)]) (tri_eval _ _ _ _ hu) (tri_eval _ _ _ _ hu1) (by simp [cost, err_one, sq_nonneg])) rfl (mark_fresh _ _ rfl rfl rfl).symm rfl
      (.stop _ _ _ _ ⟨start (triProblem 1) junk, [0], cost [0]⟩ ⟨marked, 0, 1, false⟩
        (moveTo_moves (x0 := [0]) (tri_eval _ _ marked _ hu1) (tri_eval _ _ marked _ hu1) (le_refl _)) rfl (mark_done _ marked rfl rfl).symm rfl))
  refine ⟨_, h, ?_, rfl, rfl, hu1⟩
  simp

/-! ### a point, seen by a camera at the reference; it's 100 pixels off -/

def pointDims : Dims := ⟨1, 0, 0, 1, 0, 0, ⟨false, false, false, true, false, false, false, false⟩, .pinhole⟩

noncomputable def pointSeed : Params
  | .intr _ => 1
  | .point _ k => if k = 2 then 10 else 0
  | _ => 0

noncomputable def pointProblem : Problem where
  d := pointDims
  W := 0
  H := 0
  spacing := 1
  warpGiven := false
  boards := []
  points := [⟨0, -1, 0, fun _ => 101, 1⟩]
  tri := []
  triV := fun _ => ⟨0, 0, 1⟩
  imagersizes := fun _ => 1
  seed := pointSeed

theorem point_valid : pointProblem.Valid := by
  refine ⟨⟨?_, ?_, ?_, ?_, ?_⟩, trivial, ?_, ?_, ?_, ?_, ?_, ?_⟩ <;> simp [pointProblem, pointDims, hasCalobjectWarp]

theorem point_good : ¬ BadArguments pointProblem := by simp [BadArguments, pointProblem, pointDims]
theorem point_meas : numMeas pointProblem = some 2 := rfl
theorem point_states : numStates pointDims = 3 := by decide

noncomputable def pointCall : Call := ⟨pointProblem, some 24, some 16, false⟩

theorem point_pyCall : pyCall pointProblem = some pointCall := by
  unfold pyCall pySizes
  rw [point_meas]
  rfl

theorem point_before : before pointCall = none := ((python_sizes_fit _ _ point_pyCall).2).2 point_good

theorem point_eval (junk : Mem) : evaluate pointProblem (start pointProblem junk) = some [-100, -100] := by
  have hu : unpacked pointDims pointSeed (packState pointDims pointSeed junk).1 = pointSeed := unpack_pack_state pointDims point_valid.wf pointSeed _
  have hs : seenPoint pointSeed ⟨0, -1, 0, fun _ => 101, 1⟩ = ⟨0, 0, 10⟩ := by
    simp [seenPoint, Project.truthP, Project.truth, camOf, pointOf, pointSeed, rod_zero, trS, toVec]
  obtain ⟨out, pairs, h1, h2, h3, h4⟩ := callback_partials pointProblem point_valid (by intro o ho; cases ho) (start pointProblem junk) (by
    show pointProblem.RegularAt (unpacked pointDims pointSeed (packState pointDims pointSeed junk).1)
    rw [hu]
    refine ⟨fun o ho => (by cases ho), ?_, ?_, fun h => (by cases h)⟩
    · intro o ho hw
      simp only [pointProblem, List.mem_singleton] at ho
      subst ho
      refine ⟨fun c hc => ?_, ?_⟩
      · simp [camOf] at hc
      · rw [hs]
        show Cam.LensRegular .pinhole _ _
        refine ⟨?_, ?_, ?_⟩
        · simp [intrOf, pointSeed, pointProblem, pointDims, Lens.numParams]
        · simp [intrOf, pointSeed, pointProblem, pointDims, Lens.numParams]
        · norm_num
    · intro i j o0 o1 _ h
      cases i <;> cases h)
  have hp : pairs = [] := by
    rw [List.eq_nil_iff_forall_not_mem]
    rintro ⟨i, j⟩ hij
    have := (h2.1 i j).1 hij
    simp [SameSet, pointProblem] at this
  show (optimizerCallback _).map _ = _
  rw [h1, Option.map_some, h3, hp]
  have hu' : unpacked pointProblem.d pointProblem.seed (start pointProblem junk) = pointSeed := hu
  rw [hu']
  have hx : ∀ xy, xy < 2 → pointRes pointProblem ⟨0, -1, 0, fun _ => 101, 1⟩ xy pointSeed = -100 := by
    intro xy hxy
    unfold pointRes
    rw [hs, if_neg (by norm_num)]
    show 1 * (pick2 (Cam.pinhole (Cam.coreOf (intrOf pointDims pointSeed 0)) ⟨0, 0, 10⟩).q xy - 101) = -100
    interval_cases xy <;> norm_num [pick2, Cam.pinhole, Cam.coreOf, intrOf, pointSeed, pointDims, Lens.numParams]
  show some [pointRes pointProblem ⟨0, -1, 0, fun _ => 101, 1⟩ 0 pointSeed, pointRes pointProblem ⟨0, -1, 0, fun _ => 101, 1⟩ 1 pointSeed] = _
  rw [hx 0 (by decide), hx 1 (by decide)]

theorem point_result (junk : Mem) : ∃ r, Optimize keep pointCall junk (.ret r) ∧ r.rms ≠ .minus1 ∧ r.xFinal = some [-100, -100] := by
  have he : evaluate (setObs pointProblem (obsOf pointProblem)) (start pointProblem junk) = some [-100, -100] := by rw [setObs_obsOf]; exact point_eval junk
  have h := Optimize.solve (solver := keep) (c := pointCall) (junk := junk) [] 2 ⟨some ⟨start pointProblem junk, [-100, -100], cost [-100, -100]⟩, obsOf pointProblem, _, 0⟩ point_before rfl point_meas
    (.single _ _ _ _ ⟨start pointProblem junk, [-100, -100], cost [-100, -100]⟩
      (by show (evaluate (setObs pointProblem (obsOf pointProblem)) (start pointProblem junk)).map _ = _
          rw [he]; rfl) rfl)
  refine ⟨_, h, ?_, rfl⟩
  simp

/-! ### the theorems have content -/

/-- for `solved_reproducible`, `cost_not_increased`, `solved_rms`, `solved_arrays`, `solved_no_outliers_left`, `solved_counts`: the hypotheses hold, with outlier rejection that does something -/
example (junk : Mem) : Honest keep ∧ (triCall (-1)).P.Valid ∧ Optimizes (triCall (-1)).P ∧ (triCall (-1)).P.d.Nob = (triCall (-1)).P.boards.length ∧ (triCall (-1)).P.d.sel.outlierRejection = true ∧
    (triCall (-1)).bufB = some 48 ∧ (triCall (-1)).bufX = some 8 ∧ (∃ r, Optimize keep (triCall (-1)) junk (.ret r) ∧ r.rms ≠ .minus1 ∧ r.obs.flags ≠ (obsOf (triCall (-1)).P).flags) ∧
    ∃ b0 x0, callback (triCall (-1)).P 48 8 junk = some (some (b0, x0)) := by
  obtain ⟨r, h1, h2, h3, -⟩ := keep_result junk
  refine ⟨keep_honest, tri_valid _, tri_opt _, rfl, rfl, rfl, rfl, ⟨r, h1, h2, ?_⟩, start (triProblem (-1)) junk, [err (-1)], ?_⟩
  · rw [h3]
    intro h
    have h := congrFun h 0
    rw [show (obsOf (triCall (-1)).P).flags 0 = false from rfl] at h
    cases h
  · have := callback_runs (triProblem (-1)) 1 (tri_good _) (tri_opt _) (tri_meas _) junk
    rw [tri_eff] at this
    have he := tri_eval (-1) (-1) (obsOf (triProblem (-1))) _ (start_unpacked (-1) junk)
    rw [setObs_obsOf] at he
    rw [he] at this
    exact this

/-- and a solver that moves -/
example (junk : Mem) : ∃ solver r, Honest solver ∧ Optimize solver (triCall (-1)) junk (.ret r) ∧ r.rms ≠ .minus1 ∧ r.arrays ≠ (triCall (-1)).P.seed := by
  obtain ⟨r, h1, h2, -, -, h5⟩ := move_result junk
  refine ⟨_, r, moveTo_honest _, h1, h2, ?_⟩
  rw [h5]
  intro h
  have := congrFun h (.cam 0 3)
  norm_num [triCall, triProblem, seedAt] at this

/-- for `failed_arrays_unchanged` -/
example (junk : Mem) : ∃ r, Optimize failsAtZero (triCall (-1)) junk (.ret r) ∧ r.rms = .minus1 := by
  obtain ⟨r, h1, h2, -⟩ := fails_result junk
  exact ⟨r, h1, h2⟩

/-- for `optimize_succeeds` -/
example : ∃ solver : Solver, (∀ f b, (solver f b).isSome) ∧ ¬ BadArguments (triCall 1).P ∧ Terminated (triCall 1).P.tri ∧ numMeas (triCall 1).P = some 1 ∧
    (∀ s, (triCall 1).bufB = some s → s = numStates (triCall 1).P.d * 8) ∧ (∀ s, (triCall 1).bufX = some s → s = 1 * 8) ∧ (triCall 1).checkGradient = false := by
  refine ⟨fun f b => some ⟨b, (f b).getD [], cost ((f b).getD [])⟩, fun _ _ => rfl, tri_good _, ?_, tri_meas _, ?_, ?_, rfl⟩
  · intro o ho
    cases ho; rfl
  · intro s hs; cases hs; rfl
  · intro s hs; cases hs; rfl

/-- for `optimize_refuses`: nothing to triangulate with; the wrong size -/
example : BadArguments { triProblem 1 with d := { triDims with sel := { triDims.sel with extrinsics := false } } } ∧
    ∃ s, (some 3 : Option Int) = some s ∧ s ≠ numStates (triProblem 1).d * 8 := by
  refine ⟨Or.inr ⟨by simp [triProblem], Or.inr (Or.inr rfl)⟩, 3, rfl, by decide⟩

/-- for `python_sizes_fit` -/
example : pyCall pointProblem = some pointCall := point_pyCall

/-! ### what doesn't hold -/

/-- **C111**, not so: "a pair of observations of a triangulated point is thrown out for diverging only if it diverges in the solution". The test is made with the poses as given by the caller
(`rt_cam_ref` mrcal.c:6472), the solution so far is not looked at. Here the solver finds the pose that fits the observations perfectly in its first pass: the rays converge, the residual is 0; and both are
marked as outliers all the same -/
theorem divergence_test_uses_seed_wrong (junk : Mem) : ∃ solver r, Honest solver ∧ (triProblem (-1)).Valid ∧ pyCall (triProblem (-1)) = some (triCall (-1)) ∧
    Optimize solver (triCall (-1)) junk (.ret r) ∧ r.rms ≠ .minus1 ∧
    ((obsOf (triProblem (-1))).flags 0 = false ∧ (obsOf (triProblem (-1))).flags 1 = false) ∧ (r.obs.flags 0 = true ∧ r.obs.flags 1 = true) ∧
    isConvergent ⟨1, 0, 1⟩ ⟨0, 0, 1⟩ (poseAt r.arrays (.cam 0)).t ∧ (poseAt r.arrays (.cam 0)).r = ⟨0, 0, 0⟩ ∧
    ∃ b, callback { triProblem (-1) with seed := r.arrays } 48 8 junk = some (some (b, [0])) := by
  obtain ⟨r, h1, h2, h3, -, h5⟩ := move_result junk
  refine ⟨_, r, moveTo_honest _, tri_valid _, tri_pyCall _, h1, h2, tri_unmarked _, ?_, ?_, ?_, start (triProblem 1) junk, ?_⟩
  · rw [h3]; exact ⟨rfl, rfl⟩
  · rw [h5, pose_at]
    exact isConvergent_perfect _ _ _ ⟨1, 0, 1⟩ 1 1 ⟨one_pos, one_pos, by simp [sm], by simp [sm, addp]⟩ not_parallel
  · rw [h5, pose_at]
  · rw [h5]
    show callback (triProblem 1) (numStates (triProblem 1).d * 8) (1 * 8) junk = _
    rw [callback_runs (triProblem 1) 1 (tri_good _) (tri_opt _) (tri_meas _) junk, tri_eff]
    have he := tri_eval 1 1 (obsOf (triProblem 1)) _ (start_unpacked 1 junk)
    rw [setObs_obsOf] at he
    rw [he, (tri_unmarked 1).1, (tri_unmarked 1).2, err_one]
    rfl

/-- **C111**, not so: "if the solve failed then nothing was changed". `failed_arrays_unchanged` is about the arrays. The observations marked as outliers by the earlier passes stay marked -/
theorem failed_marks_kept_wrong (junk : Mem) : ∃ solver r, Honest solver ∧ Optimize solver (triCall (-1)) junk (.ret r) ∧ r.rms = .minus1 ∧ (obsOf (triProblem (-1))).flags 0 = false ∧ r.obs.flags 0 = true := by
  obtain ⟨r, h1, h2, h3⟩ := fails_result junk
  refine ⟨_, r, failsAtZero_honest, h1, h2, rfl, ?_⟩
  rw [h3]; rfl

/-- **C111** (python), not so: "after mrcal.optimize(**kwargs), mrcal.optimizer_callback(**kwargs) reports the same residuals". The marks on the triangulated observations are made in a temporary array, and are
lost. Here mrcal.optimize() reports a perfect fit: [0]; mrcal.optimizer_callback() reports an error -/
theorem python_tri_outliers_lost_wrong (junk : Mem) : ∃ solver r b e, Honest solver ∧ Optimize solver (triCall (-1)) junk (.ret r) ∧ r.rms ≠ .minus1 ∧ r.xFinal = some [0] ∧
    callback (pyAfter (triProblem (-1)) r) 48 8 junk = some (some (b, [e])) ∧ 0 < e := by
  obtain ⟨r, h1, h2, h3, -, h5, h6⟩ := keep_result junk
  refine ⟨_, r, start (triProblem (-1)) junk, err (-1), keep_honest, h1, h2, h6, ?_, err_minus_one⟩
  have hq : pyAfter (triProblem (-1)) r = triProblem (-1) := by
    unfold pyAfter
    rw [h3, h5]
    show { setObs (triProblem (-1)) (obsOf (triProblem (-1))) with seed := seedAt (-1) } = _
    rw [setObs_obsOf]; rfl
  rw [hq]
  show callback (triProblem (-1)) (numStates (triProblem (-1)).d * 8) (1 * 8) junk = _
  rw [callback_runs (triProblem (-1)) 1 (tri_good _) (tri_opt _) (tri_meas _) junk, tri_eff]
  have he := tri_eval (-1) (-1) (obsOf (triProblem (-1))) _ (start_unpacked (-1) junk)
  rw [setObs_obsOf] at he
  rw [he, (tri_unmarked (-1)).1, (tri_unmarked (-1)).2]
  rfl

/-- **C111** (python): what does hold: without triangulated points, the residuals and the state are reproduced. What is missing: triangulated points -/
theorem python_reproducible_partial {solver : Solver} (hh : Honest solver) {P : Problem} {c : Call} {junk : Mem} {r : Ret} (hP : P.Valid) (hopt : Optimizes P) (htri : P.tri = []) (hc : pyCall P = some c)
    (h : Optimize solver c junk (.ret r)) (hr : r.rms ≠ .minus1) (junk' : Mem) :
    ∃ sB sX b x b', pySizes P = some (sB, sX) ∧ r.bFinal = some b ∧ r.xFinal = some x ∧ callback (pyAfter P r) sB sX junk' = some (some (b', x)) ∧ ∀ i, 0 ≤ i → i < numStates P.d → b' i = b i := by
  unfold pyCall at hc
  rw [Option.map_eq_some_iff] at hc
  obtain ⟨⟨sB, sX⟩, hs, rfl⟩ := hc
  obtain ⟨b, x, b', h1, h2, h3, h4⟩ := solved_reproducible hh (c := ⟨P, some sB, some sX, false⟩) hP hopt sB sX rfl rfl h hr junk'
  refine ⟨sB, sX, b, x, b', hs, h1, h2, ?_, h4⟩
  rw [← h3]
  congr 1
  unfold pyAfter after setObs
  simp only [htri, List.zipIdx_nil, List.map_nil]

example (junk : Mem) : pointProblem.Valid ∧ Optimizes pointProblem ∧ pointProblem.tri = [] ∧ pyCall pointProblem = some pointCall ∧ ∃ r, Optimize keep pointCall junk (.ret r) ∧ r.rms ≠ .minus1 := by
  obtain ⟨r, h1, h2, -⟩ := point_result junk
  exact ⟨point_valid, Or.inr (Or.inr (Or.inr (Or.inl rfl))), rfl, point_pyCall, r, h1, h2⟩

/-- **Specification**: the documentation of rms_reproj_error__pixels, types.h:320-323, doc/c-api.org:391-396: "N observed pixels produce 2N measurements: len(x) = 2*N. And the RMS error is sqrt( norm2(x) / N )" -/
noncomputable def documentedRms (x : List ℝ) (N : Nat) : ℝ := Real.sqrt (cost x / N)

/-- **C111**, not so: the documented rms_reproj_error__pixels. What is reported is smaller by a factor of sqrt(2), always: so it's never the documented value, unless the fit is perfect -/
theorem rms_documented_wrong {solver : Solver} (hh : Honest solver) {c : Call} {junk : Mem} {r : Ret} (hP : c.P.Valid) (hNob : c.P.d.Nob = c.P.boards.length) (sB sX : Int) (hB : c.bufB = some sB)
    (hX : c.bufX = some sX) (h : Optimize solver c junk (.ret r)) (hr : r.rms ≠ .minus1) (x : List ℝ) (hx : r.xFinal = some x) (N : Nat) (hN : x.length = 2 * N) (h0 : N ≠ 0) :
    ∃ rms, r.rms = .val rms ∧ rms * Real.sqrt 2 = documentedRms x N ∧ (cost x ≠ 0 → rms ≠ documentedRms x N) := by
  obtain ⟨x', hx', -, h1, -⟩ := solved_rms hh hP hNob sB sX hB hX h hr
  rw [hx] at hx'
  obtain rfl := Option.some.inj hx'
  have hne : x ≠ [] := by rintro rfl; simp at hN; omega
  have hNr : (0 : ℝ) < N := by exact_mod_cast Nat.pos_of_ne_zero h0
  have hc : 0 ≤ cost x := List.sum_nonneg (by intro v hv; rw [List.mem_map] at hv; obtain ⟨a, -, rfl⟩ := hv; exact sq_nonneg a)
  have key : Real.sqrt (cost x / x.length) * Real.sqrt 2 = documentedRms x N := by
    unfold documentedRms
    rw [← Real.sqrt_mul (by positivity), hN]
    congr 1
    push_cast
    field_simp
  refine ⟨_, h1 hne, key, fun hcne he => ?_⟩
  have hpos : 0 < documentedRms x N := Real.sqrt_pos.2 (div_pos (lt_of_le_of_ne hc hcne.symm) hNr)
  rw [he] at key
  have h2 : 1 < Real.sqrt 2 := by rw [Real.lt_sqrt (by norm_num)]; norm_num
  nlinarith

/-- 100 is reported; it's documented to be 100 sqrt(2) -/
example (junk : Mem) : pointCall.P.Valid ∧ pointCall.P.d.Nob = pointCall.P.boards.length ∧ pointCall.bufB = some 24 ∧ pointCall.bufX = some 16 ∧
    ∃ r, Optimize keep pointCall junk (.ret r) ∧ r.rms ≠ .minus1 ∧ ∃ x, r.xFinal = some x ∧ x.length = 2 * 1 ∧ cost x ≠ 0 := by
  obtain ⟨r, h1, h2, h3⟩ := point_result junk
  exact ⟨point_valid, rfl, rfl, rfl, r, h1, h2, _, h3, rfl, by norm_num [cost]⟩

/-- the two observations, marked by the caller; without outlier rejection -/
noncomputable def premarked : Problem :=
  { triProblem 1 with
    d := { triDims with sel := { triDims.sel with outlierRejection := false } }
    tri := [⟨false, true, 0, -1⟩, ⟨true, true, 0, 0⟩] }

/-- **C111**, not so: Noutliers_triangulated_point "INCLUDES any outliers that were passed-in at the start" (types.h:331-334). Without outlier rejection it's 0 -/
theorem tri_outliers_not_counted_wrong (junk : Mem) : ∃ solver c r, Honest solver ∧ pyCall premarked = some c ∧ Optimize solver c junk (.ret r) ∧ r.rms ≠ .minus1 ∧
    r.obs.flags 0 = true ∧ r.obs.flags 1 = true ∧ r.noutTri = 0 := by
  have hN : numMeas premarked = some 1 := by
    unfold numMeas numMeasurements
    rw [numMeasurementsTri_pairs]
    rfl
  have hc : pyCall premarked = some ⟨premarked, some 48, some 8, false⟩ := by
    unfold pyCall pySizes
    rw [hN]
    rfl
  have hbad : ¬ BadArguments premarked := by simp [BadArguments, premarked, triProblem, triDims]
  have hb := ((python_sizes_fit _ _ hc).2).2 hbad
  have he : ∃ x, evaluate premarked (start premarked junk) = some x := by
    rw [evaluate_rows]
    exact ⟨_, rfl⟩
  obtain ⟨x, he⟩ := he
  have h := Optimize.solve (solver := keep) (c := ⟨premarked, some 48, some 8, false⟩) (junk := junk) [(0, 1)] 1 ⟨some ⟨start premarked junk, x, cost x⟩, obsOf premarked, _, 0⟩ hb rfl hN
    (.single _ _ _ _ ⟨start premarked junk, x, cost x⟩
      (by show (evaluate (setObs premarked (obsOf premarked)) (start premarked junk)).map _ = _
          rw [setObs_obsOf, he]; rfl) rfl)
  refine ⟨keep, _, _, keep_honest, hc, h, ?_, rfl, rfl, rfl⟩
  simp

/-- **C111**, not so: "with check_gradient, mrcal_optimize() checks the gradients, and returns". If either of the buffers is given then it dereferences NULL (mrcal.c:6614-6617). If neither is, then
the reported RMS error is NaN, which isn't negative: it doesn't look like a failure. Python never sets this flag -/
theorem check_gradient_wrong {solver : Solver} {c : Call} {junk : Mem} {res : Result} (hbad : ¬ BadArguments c.P) (N : Int) (hN : numMeas c.P = some N)
    (hB : ∀ s, c.bufB = some s → s = numStates c.P.d * 8) (hX : ∀ s, c.bufX = some s → s = N * 8) (hg : c.checkGradient = true) (h : Optimize solver c junk res) :
    (c.bufB ≠ none ∨ c.bufX ≠ none → res = .nullDereference) ∧ (c.bufB = none → c.bufX = none → res = .ret ⟨.nan, 0, 0, c.P.seed, obsOf c.P, none, none⟩) := by
  have hb : before c = some (if c.bufB.isSome || c.bufX.isSome then .nullDereference else .ret ⟨.nan, 0, 0, c.P.seed, obsOf c.P, none, none⟩) := by
    unfold before
    rw [if_neg (by rwa [badArguments_iff])]
    simp only [numMeas_eff, hN, numStates_eff]
    rw [if_neg, if_neg, if_pos hg]
    · split <;> rfl
    · cases hx : c.bufX with
      | none => simp
      | some s => simp [hX s hx]
    · cases hx : c.bufB with
      | none => simp
      | some s => simp [hB s hx]
  cases h with
  | early _ hb' =>
    rw [hb] at hb'
    obtain rfl := Option.some.inj hb'
    cases c.bufB <;> cases c.bufX <;> simp
  | solve _ _ _ hb' => rw [hb] at hb'; cases hb'

example : ¬ BadArguments pointProblem ∧ numMeas (⟨pointProblem, none, some 16, true⟩ : Call).P = some 2 ∧ (∀ s, (⟨pointProblem, none, some 16, true⟩ : Call).bufX = some s → s = 2 * 8) :=
  ⟨point_good, point_meas, fun s hs => by cases hs; rfl⟩

/-- **C111**: when `mrcal_optimizer_callback()` returns false: exactly if the arguments make no sense, or nothing is being optimized, or a buffer has the wrong size. (`mrcal_optimize()` doesn't mind
if nothing is being optimized: `optimize_succeeds`) -/
theorem callback_refuses_iff (P : Problem) (N : Int) (hN : numMeas P = some N) (sB sX : Int) (junk : Mem) :
    callback P sB sX junk = none ↔ BadArguments P ∨ ¬ Optimizes P ∨ sB ≠ numStates P.d * 8 ∨ sX ≠ N * 8 := by
  have ho : (!(effective P).d.sel.core && !(effective P).d.sel.distortions && !(effective P).d.sel.extrinsics && !(effective P).d.sel.frames && !(effective P).d.sel.warp) = true ↔ ¬ Optimizes P := by
    have h1 : (effective P).d.sel.core = P.d.sel.core := effSel_core _
    have h2 : (effective P).d.sel.warp = (P.d.sel.warp && decide (P.d.Nob > 0)) := rfl
    have h3 : (effective P).d.sel.distortions = P.d.sel.distortions := rfl
    have h4 : (effective P).d.sel.extrinsics = P.d.sel.extrinsics := rfl
    have h5 : (effective P).d.sel.frames = P.d.sel.frames := rfl
    rw [h1, h2, h3, h4, h5]
    unfold Optimizes
    cases P.d.sel.core <;> cases P.d.sel.distortions <;> cases P.d.sel.extrinsics <;> cases P.d.sel.frames <;> cases P.d.sel.warp <;> simp
  unfold callback
  by_cases hb : BadArguments P
  · rw [if_pos ((badArguments_iff P).2 hb)]; simp [hb]
  rw [if_neg (by rwa [badArguments_iff])]
  simp only [numStates_eff, numMeas_eff, hN]
  by_cases h : Optimizes P
  · rw [if_neg (by rw [ho]; exact not_not.2 h)]
    by_cases h1 : sB = numStates P.d * 8
    · rw [if_neg (by simpa using h1)]
      by_cases h2 : sX = N * 8
      · rw [if_neg (by simpa using h2)]; simp [hb, h, h1, h2]
      · rw [if_pos h2]; simp [h2]
    · rw [if_pos h1]; simp [h1]
  · rw [if_pos (ho.2 h)]; simp [h]

example : numMeas pointProblem = some 2 ∧ ¬ Optimizes { pointProblem with d := { pointDims with sel := { pointDims.sel with frames := false } } } ∧ Optimizes pointProblem := by
  refine ⟨point_meas, ?_, Or.inr (Or.inr (Or.inr (Or.inl rfl)))⟩
  simp [Optimizes, pointDims]

/-- **C111**: the test for diverging rays looks at the ray of observation 0 in the coordinates of camera 1: its direction, and where it starts. It doesn't matter which of the cameras are at the reference -/
theorem divergence_rays (c0 c1 : Option RtV) (v0 : P3) (h0 : ∀ c, c0 = some c → 1e-5 ≤ mag3 c.r ∨ c.r = ⟨0, 0, 0⟩) (h1 : ∀ c, c1 = some c → 1e-5 ≤ mag3 c.r ∨ c.r = ⟨0, 0, 0⟩) :
    raysIn c0 c1 v0 = (dirToCam c1 (dirToRef c0 v0), pointToCam c1 (positionOf c0)) := by
  have neg : ∀ t : P3, (⟨t.x * (-1), t.y * (-1), t.z * (-1)⟩ : P3) = negP t := by
    intro t; unfold negP; ext <;> ring
  rcases c0 with _ | c0 <;> rcases c1 with _ | c1
  · rfl
  · have e := h1 c1 rfl
    show ((rotatePointr c1.r v0 false false false).x, c1.t) = (rotP c1.r v0 false, addP (rotP c1.r ⟨0, 0, 0⟩ false) c1.t)
    rw [rot_value _ _ _ _ _ e]
    have : rotP c1.r ⟨0, 0, 0⟩ false = ⟨0, 0, 0⟩ := by
      simp [rotP, rotSpec, toVec, Matrix.mulVec, dotProduct, Fin.sum_univ_three]
    rw [this]
    simp [addP]
  · have e := h0 c0 rfl
    show ((rotatePointr c0.r v0 true false false).x, _) = (rotP c0.r v0 true, negP (rotP c0.r c0.t true))
    rw [rot_value _ _ _ _ _ e]
    refine Prod.ext rfl ?_
    show (⟨(rotatePointr c0.r c0.t true false false).x.x * (-1), (rotatePointr c0.r c0.t true false false).x.y * (-1), (rotatePointr c0.r c0.t true false false).x.z * (-1)⟩ : P3) = _
    rw [neg, rot_value _ _ _ _ _ e]
  · have e0 := h0 c0 rfl
    have e1 := h1 c1 rfl
    show ((rotatePointr c1.r (rotatePointr c0.r v0 true false false).x false false false).x,
      addP (rotatePointr c1.r (⟨(rotatePointr c0.r c0.t true false false).x.x * (-1), (rotatePointr c0.r c0.t true false false).x.y * (-1), (rotatePointr c0.r c0.t true false false).x.z * (-1)⟩ : P3) false false false).x c1.t) =
      (rotP c1.r (rotP c0.r v0 true) false, addP (rotP c1.r (negP (rotP c0.r c0.t true)) false) c1.t)
    rw [neg, rot_value _ _ _ _ _ e0, rot_value _ _ _ _ _ e1, rot_value _ _ _ _ _ e1, rot_value _ _ _ _ _ e0]

/-- camera 1 is at the reference, camera 0 is at (1,0,0) -/
example : raysIn (some ⟨⟨0, 0, 0⟩, ⟨-1, 0, 0⟩⟩) none ⟨0, 0, 1⟩ = (dirToRef (some ⟨⟨0, 0, 0⟩, ⟨-1, 0, 0⟩⟩) ⟨0, 0, 1⟩, positionOf (some ⟨⟨0, 0, 0⟩, ⟨-1, 0, 0⟩⟩)) :=
  divergence_rays _ _ _ (by rintro c h; obtain rfl := Option.some.inj h; exact Or.inr rfl) (by rintro c h; cases h)

end Mrcal.Solve
