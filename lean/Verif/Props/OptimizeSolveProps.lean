import Verif.Model.OptimizeSolve
import Verif.Props.JacobianAllProps
import Verif.Props.OutlierProps
import Verif.Props.CallbackIndexProps
import Verif.Props.TriangulateErrorProps

/-! # C111: what `mrcal_optimize()` and `mrcal_optimizer_callback()` do, as a whole -/

namespace Mrcal.Solve
open Mrcal Mrcal.Pack Mrcal.Callback Mrcal.Pose Mrcal.StateLayout Mrcal.Tri

/-! ### specification -/

/-- the cost: the sum of squares -/
noncomputable def cost (x : List ℝ) : ℝ := (x.map fun v => v ^ 2).sum

/-- what a least-squares solver promises, whenever it reports success: the reported state, its residuals and its cost belong together, and it isn't worse than
the seed. It need not converge -/
structure Honest (solver : Solver) : Prop where
  at_p : ∀ f b s, solver f b = some s → f s.p = some s.x
  norm : ∀ f b s, solver f b = some s → s.norm2 = cost s.x
  descent : ∀ f b s x0, solver f b = some s → f b = some x0 → s.norm2 ≤ cost x0

/-- each corner keeps its weight, or was in use and has it negated; no triangulated observation is brought back -/
structure Marked (o o' : Outliers.Obs) : Prop where
  len : o'.weights.length = o.weights.length
  weights : ∀ (i : Nat) (w : ℝ), o.weights[i]? = some w → o'.weights[i]? = some w ∨ (0 < w ∧ o'.weights[i]? = some (-w))
  flags : ∀ j, o.flags j = true → o'.flags j = true

/-! ### the values depend on the parameters only -/

theorem zipIdx_map_zipIdx {α β : Type _} (l : List α) (g : α × Nat → β) : (l.zipIdx.map g).zipIdx = l.zipIdx.map fun oi => (g oi, oi.2) := by
  refine List.ext_getElem? fun i => ?_
  simp only [List.getElem?_zipIdx, List.getElem?_map]
  cases l[i]? <;> simp

theorem evaluate_rows (P : Problem) (b : Mem) : evaluate P b = (allRows (P.ctx b)).map fun rows => rows.map Row.x := by
  unfold evaluate optimizerCallback
  cases allRows (P.ctx b) with
  | none => rfl
  | some rows => simp only [Option.map_some, foldl_emit, List.nil_append]

/-- the measurements are a function of the unpacked parameters -/
theorem evaluate_congr (P : Problem) (hP : P.Valid) (seed' : Params) (b b' : Mem) (h : unpacked P.d P.seed b = unpacked P.d seed' b') :
    evaluate { P with seed := seed' } b' = evaluate P b := by
  have hI : ∀ i, 0 ≤ i → i < P.d.Nci → intrinsicsAt P.d b' seed' i = intrinsicsAt P.d b P.seed i := fun i h0 h1 => by
    rw [intrinsics_unpacked _ hP.wf _ _ _ h0 h1, intrinsics_unpacked _ hP.wf _ _ _ h0 h1, h]
  have hC : ∀ i, i < P.d.Nce → camOpt P.d b' seed' i = camOpt P.d b P.seed i := fun i h1 => by
    rw [camOpt_unpacked _ hP.wf _ _ _ h1, camOpt_unpacked _ hP.wf _ _ _ h1, h]
  have hF : ∀ i, 0 ≤ i → i < P.d.Nframes → frameAt P.d b' seed' i = frameAt P.d b P.seed i := fun i h0 h1 => by
    rw [frame_unpacked _ hP.wf _ _ _ h0 h1, frame_unpacked _ hP.wf _ _ _ h0 h1, h]
  have hX : ∀ i, 0 ≤ i → pointAt P.d b' seed' i = pointAt P.d b P.seed i := fun i h0 => by
    rw [point_unpacked _ hP.wf _ _ _ h0, point_unpacked _ hP.wf _ _ _ h0, h]
  have hW : warpAt P.d b' seed' P.warpGiven = warpAt P.d b P.seed P.warpGiven := by
    rw [warp_unpacked _ hP.wf _ _ _ hP.warp, warp_unpacked _ hP.wf _ _ _ hP.warp, h]
  rw [evaluate_rows, evaluate_rows]
  have hB : boardRows (Problem.ctx { P with seed := seed' } b') = boardRows (P.ctx b) := by
    unfold boardRows
    refine List.flatMap_congr ?_
    rintro ⟨o, i⟩ hoi
    obtain ⟨hg, ho⟩ := zipIdx_getD P.boards o noBoard i hoi
    obtain ⟨h1, h2, h3, h4, h5⟩ := hP.boards o ho
    refine List.flatMap_congr fun ipt _ => List.map_congr_left fun xy _ => ?_
    show boardRow P.d o (boardProj { P with seed := seed' } b' (P.boards.getD i noBoard) ipt) (fun k => intrinsicsAt P.d b' seed' o.icamI k) ipt xy =
      boardRow P.d o (boardProj P b (P.boards.getD i noBoard) ipt) (fun k => intrinsicsAt P.d b P.seed o.icamI k) ipt xy
    rw [hg]
    unfold boardProj
    simp only [hI _ h1 h2, hC _ h3, hF _ h4 h5, hW]
  have hPt : pointRows (Problem.ctx { P with seed := seed' } b') = pointRows (P.ctx b) := by
    unfold pointRows
    refine List.flatMap_congr ?_
    rintro ⟨o, i⟩ hoi
    obtain ⟨hg, ho⟩ := zipIdx_getD P.points o noPoint i hoi
    obtain ⟨h1, h2, h3, h4, -⟩ := hP.points o ho
    refine List.map_congr_left fun xy _ => ?_
    show pointRow P.d o (pointProj { P with seed := seed' } b' (P.points.getD i noPoint)) (fun k => intrinsicsAt P.d b' seed' o.icamI k) xy =
      pointRow P.d o (pointProj P b (P.points.getD i noPoint)) (fun k => intrinsicsAt P.d b P.seed o.icamI k) xy
    rw [hg]
    unfold pointProj
    simp only [hI _ h1 h2, hC _ h3, hX _ h4]
  have hT : (Problem.ctx { P with seed := seed' } b').projTri = (P.ctx b).projTri := by
    funext i0 i1
    have : ∀ i : Nat, camOpt P.d b' seed' ((P.tri[i]?.map fun o => o.icamE).getD (-1)) = camOpt P.d b P.seed ((P.tri[i]?.map fun o => o.icamE).getD (-1)) := by
      intro i
      cases hi : P.tri[i]? with
      | none => rfl
      | some o => exact hC _ (hP.tri o (List.mem_of_getElem? hi))
    show triResidual (camOpt P.d b' seed' _) (camOpt P.d b' seed' _) _ _ = triResidual (camOpt P.d b P.seed _) (camOpt P.d b P.seed _) _ _
    rw [this, this]
  have hR1 : regDistortionRows (Problem.ctx { P with seed := seed' } b') = regDistortionRows (P.ctx b) := by
    unfold regDistortionRows
    show (if _ then (match P.d.lens with | _ => _) else _) = _
    have hI' : ∀ i ∈ loop P.d.Nci, (Problem.ctx { P with seed := seed' } b').intrinsics i = (P.ctx b).intrinsics i := fun i hi =>
      hI i (mem_loop.1 hi).1 (mem_loop.1 hi).2
    have hd : (Problem.ctx { P with seed := seed' } b').d = P.d := rfl
    have hd' : (P.ctx b).d = P.d := rfl
    simp only [hd, hd']
    split
    · split
      · refine List.flatMap_congr fun i hi => ?_
        simp only [hI' i hi]
      · refine List.flatMap_congr fun i hi => ?_
        simp only [hI' i hi]
    · rfl
  have hR2 : regCenterRows (Problem.ctx { P with seed := seed' } b') = regCenterRows (P.ctx b) := by
    unfold regCenterRows
    have hI' : ∀ i ∈ loop P.d.Nci, (Problem.ctx { P with seed := seed' } b').intrinsics i = (P.ctx b).intrinsics i := fun i hi =>
      hI i (mem_loop.1 hi).1 (mem_loop.1 hi).2
    have hd : (Problem.ctx { P with seed := seed' } b').d = P.d := rfl
    have hd' : (P.ctx b).d = P.d := rfl
    have hi : (Problem.ctx { P with seed := seed' } b').imagersizes = P.imagersizes := rfl
    have hi' : (P.ctx b).imagersizes = P.imagersizes := rfl
    simp only [hd, hd', hi, hi']
    split
    · refine List.flatMap_congr fun i hi => ?_
      simp only [hI' i hi]
    · rfl
  have hR3 : regUnityRows (Problem.ctx { P with seed := seed' } b') = regUnityRows (P.ctx b) := by
    unfold regUnityRows
    have hd : (Problem.ctx { P with seed := seed' } b').d = P.d := rfl
    have hd' : (P.ctx b).d = P.d := rfl
    simp only [hd, hd']
    split
    · rename_i hc
      have h0 : (0 : Int) < P.d.Nce := by simp only [Bool.and_eq_true, decide_eq_true_eq] at hc; exact hc.2
      have hc0 : cameraAt P.d b' seed' 0 = cameraAt P.d b P.seed 0 := by
        rw [camera_unpacked _ hP.wf _ _ _ (le_refl 0) h0, camera_unpacked _ hP.wf _ _ _ (le_refl 0) h0, h]
      have ht : (Problem.ctx { P with seed := seed' } b').t0 = (P.ctx b).t0 := by
        funext k
        show pick3 (cameraAt P.d b' seed' 0).t k = pick3 (cameraAt P.d b P.seed 0).t k
        rw [hc0]
      simp only [ht]
    · rfl
  unfold allRows
  rw [hB, hPt, hT, hR1, hR2, hR3]
  rfl

/-! ### marking outliers -/

theorem Marked.refl (o : Outliers.Obs) : Marked o o := ⟨rfl, fun _ _ h => Or.inl h, fun _ h => h⟩

theorem Marked.trans {o o' o'' : Outliers.Obs} (h : Marked o o') (h' : Marked o' o'') : Marked o o'' := by
  refine ⟨h'.len.trans h.len, fun i w hw => ?_, fun j hj => h'.flags j (h.flags j hj)⟩
  rcases h.weights i w hw with h1 | ⟨h0, h1⟩
  · exact h'.weights i w h1
  · rcases h'.weights i _ h1 with h2 | ⟨h2, -⟩
    · exact Or.inr ⟨h0, h2⟩
    · linarith

theorem marked_mark (p : Outliers.Problem) (o : Outliers.Obs) : Marked o (Outliers.markOutliers p o).obs :=
  let h := Outliers.mark_monotone p o
  ⟨h.1, h.2.1, h.2.2⟩

/-- the board observation oi, with these weights -/
def withWeights (P : Problem) (o : Outliers.Obs) (oi : BoardObs × Nat) : BoardObs :=
  { oi.1 with weight := fun ipt => if ipt < P.W * P.H then o.weights.getD (oi.2 * (P.W * P.H) + ipt) 0 else oi.1.weight ipt }

theorem setObs_boards (P : Problem) (o : Outliers.Obs) : (setObs P o).boards = P.boards.zipIdx.map (withWeights P o) := rfl

theorem setObs_boards_mem (P : Problem) (o : Outliers.Obs) (q : BoardObs) (h : q ∈ (setObs P o).boards) : ∃ q' ∈ P.boards, q.icamI = q'.icamI ∧ q.icamE = q'.icamE ∧ q.iframe = q'.iframe := by
  rw [setObs_boards, List.mem_map] at h
  obtain ⟨⟨q', i⟩, h1, rfl⟩ := h
  exact ⟨q', (zipIdx_getD P.boards q' noBoard i h1).2, rfl, rfl, rfl⟩

theorem setObs_tri_get (P : Problem) (o : Outliers.Obs) (i : Nat) : (setObs P o).tri[i]? = P.tri[i]?.map fun q => { q with outlier := o.flags i } := by
  show (P.tri.zipIdx.map _)[i]? = _
  rw [List.getElem?_map, List.getElem?_zipIdx]
  cases P.tri[i]? <;> simp

theorem setObs_valid (P : Problem) (hP : P.Valid) (o : Outliers.Obs) : (setObs P o).Valid := by
  refine ⟨hP.wf, hP.lens, ?_, hP.points, ?_, ?_, hP.warp, hP.size⟩
  · intro q hq
    obtain ⟨q', h, e1, e2, e3⟩ := setObs_boards_mem P o q hq
    rw [e1, e2, e3]
    exact hP.boards q' h
  · intro q hq
    obtain ⟨i, hi⟩ := List.mem_iff_getElem?.1 hq
    rw [setObs_tri_get] at hi
    cases h : P.tri[i]? with
    | none => rw [h] at hi; cases hi
    | some q' =>
      rw [h] at hi
      obtain rfl := Option.some.inj hi
      exact hP.tri q' (List.mem_of_getElem? h)
  · intro h
    refine hP.triSel fun h' => h ?_
    show P.tri.zipIdx.map _ = []
    rw [h']; rfl

theorem setObs_obsOf (P : Problem) : setObs P (obsOf P) = P := by
  have hb : (setObs P (obsOf P)).boards = P.boards := by
    rw [setObs_boards]
    refine List.ext_getElem? fun i => ?_
    rw [List.getElem?_map, List.getElem?_zipIdx]
    cases h : P.boards[i]? with
    | none => rfl
    | some q =>
      simp only [Option.map_some, Nat.zero_add, Option.some.injEq, withWeights]
      have : ∀ ipt, (if ipt < P.W * P.H then (obsOf P).weights.getD (i * (P.W * P.H) + ipt) 0 else q.weight ipt) = q.weight ipt := by
        intro ipt
        by_cases hi : ipt < P.W * P.H
        · rw [if_pos hi, List.getD_eq_getElem?_getD]
          show ((P.boards.flatMap fun o => (List.range (P.W * P.H)).map o.weight)[_]?).getD 0 = _
          rw [getElem?_flatMap_const P.boards _ (P.W * P.H) (fun o _ => by simp) i ipt q h hi]
          simp [hi]
        · rw [if_neg hi]
      simp only [this]
  have ht : (setObs P (obsOf P)).tri = P.tri := by
    refine List.ext_getElem? fun i => ?_
    rw [setObs_tri_get]
    cases h : P.tri[i]? with
    | none => rfl
    | some q =>
      have : (obsOf P).flags i = q.outlier := by
        show (if (i : Int) < 0 then false else (P.tri[(i : Int).toNat]?.map fun o => o.outlier).getD false) = _
        rw [if_neg (by omega), Int.toNat_natCast, h]; rfl
      simp only [Option.map_some, this]
  have : ∀ Q Q' : Problem, Q = { Q' with boards := Q.boards, tri := Q.tri } → Q.boards = Q'.boards → Q.tri = Q'.tri → Q = Q' := by
    intro Q Q' h h1 h2
    rw [h, h1, h2]
  exact this _ _ rfl hb ht

theorem triPairs_last (l l' : List TriObs) (h : List.Forall₂ (fun a c : TriObs => a.last = c.last) l l') (i : Int) : triPairs i l = triPairs i l' := by
  have hin : ∀ (i0 i1 : Int) (l l' : List TriObs), List.Forall₂ (fun a c : TriObs => a.last = c.last) l l' → triPairsInner i0 i1 l = triPairsInner i0 i1 l' := by
    intro i0 i1 l l' h
    induction h generalizing i1 with
    | nil => rfl
    | cons h _ ih => simp only [triPairsInner, h, ih]
  induction h generalizing i with
  | nil => rfl
  | cons h h' ih => simp only [triPairs, h, ih, hin _ _ _ _ h']

theorem numMeasurementsTri_pairs (l : List TriObs) : numMeasurementsTri l = (triPairs 0 l).map fun L => (L.length : Int) := by
  by_cases h : Terminated l
  · obtain ⟨L, h1, -, -, -, h2⟩ := tri_measurements_are_pairs l h
    rw [h1, h2]; rfl
  · have h1 := (tri_terminated_iff l).1
    have h2 := (tri_terminated_iff l).2.1
    have e1 : numMeasurementsTri l = none := by rwa [h1, Bool.not_eq_true, Option.isSome_eq_false_iff, Option.isNone_iff_eq_none] at h
    have e2 : triPairs 0 l = none := by rwa [h2, Bool.not_eq_true, Option.isSome_eq_false_iff, Option.isNone_iff_eq_none] at h
    rw [e1, e2]; rfl

theorem setObs_last (P : Problem) (o : Outliers.Obs) : List.Forall₂ (fun a c : TriObs => a.last = c.last) (setObs P o).tri P.tri := by
  have := forall₂_map_same (R := fun a c : TriObs => a.last = c.last) P.tri.zipIdx (fun oi => { oi.1 with outlier := o.flags oi.2 }) Prod.fst fun _ _ => rfl
  rw [List.zipIdx_map_fst] at this
  exact this

theorem triPairs_setObs (P : Problem) (o : Outliers.Obs) : triPairs 0 (setObs P o).tri = triPairs 0 P.tri := triPairs_last _ _ (setObs_last P o) 0

theorem numMeas_setObs (P : Problem) (o : Outliers.Obs) : numMeas (setObs P o) = numMeas P := by
  unfold numMeas numMeasurements
  rw [numMeasurementsTri_pairs, triPairs_setObs, ← numMeasurementsTri_pairs]
  rfl

/-- the same, or not used any more -/
def Less (v' v : ℝ) : Prop := v' = v ∨ v' = 0

theorem boardRow_x (d : Dims) (o : BoardObs) (p : Proj) (f : Nat → ℝ) (ipt xy : Nat) :
    (boardRow d o p f ipt xy).x = if o.weight ipt ≥ 0 then (p.q xy - o.obs ipt xy) * o.weight ipt else 0 := by
  unfold boardRow
  dsimp only
  split <;> rfl

theorem triRow_x (d : Dims) (o0 o1 : TriObs) (r : TriRes) : (triRow d o0 o1 r).x = if o0.outlier || o1.outlier then 0 else r.err := by
  unfold triRow
  dsimp only
  cases o0.outlier <;> cases o1.outlier <;> rfl

theorem board_rows_setObs (P : Problem) (o : Outliers.Obs) (b : Mem) : boardRows ((setObs P o).ctx b) =
    P.boards.zipIdx.flatMap fun oi => (List.range (P.W * P.H)).flatMap fun ipt => [0, 1].map fun xy =>
      boardRow P.d (withWeights P o oi) (boardProj P b oi.1 ipt) (fun k => intrinsicsAt P.d b P.seed oi.1.icamI k) ipt xy := by
  unfold boardRows
  show ((setObs P o).boards.zipIdx).flatMap _ = _
  rw [setObs_boards, zipIdx_map_zipIdx, List.flatMap_map]
  refine List.flatMap_congr ?_
  rintro ⟨q, i⟩ hq
  refine List.flatMap_congr fun ipt _ => List.map_congr_left fun xy _ => ?_
  have hg : (setObs P o).boards.getD i noBoard = withWeights P o (q, i) := by
    have h' := List.mem_zipIdx_iff_getElem?.mp hq
    simp only [] at h'
    rw [List.getD_eq_getElem?_getD, setObs_boards, List.getElem?_map, List.getElem?_zipIdx, h']
    simp
  show boardRow P.d (withWeights P o (q, i)) (boardProj (setObs P o) b ((setObs P o).boards.getD i noBoard) ipt) (fun k => intrinsicsAt P.d b P.seed q.icamI k) ipt xy = _
  rw [hg]
  rfl

theorem forall₂_less_refl (l : List Row) : List.Forall₂ (fun r' r : Row => Less r'.x r.x) l l := by
  induction l with
  | nil => exact .nil
  | cons a l ih => exact .cons (Or.inl rfl) ih

/-- marking outliers zeroes some measurements, and leaves the others alone -/
theorem evaluate_marked (P : Problem) (o o' : Outliers.Obs) (h : Marked o o') (b : Mem) (x : List ℝ) (hx : evaluate (setObs P o) b = some x) :
    ∃ x', evaluate (setObs P o') b = some x' ∧ List.Forall₂ Less x' x := by
  rw [evaluate_rows] at hx ⊢
  unfold allRows at hx ⊢
  have htri : ∀ o : Outliers.Obs, triRows ((setObs P o).ctx b).d ((setObs P o).ctx b).projTri 0 ((setObs P o).ctx b).tri = (triPairs 0 P.tri).map fun ps => ps.map fun p =>
      triRow P.d ((setObs P o).tri[p.1.toNat]?.getD ⟨false, false, 0, 0⟩) ((setObs P o).tri[p.2.toNat]?.getD ⟨false, false, 0, 0⟩) (((setObs P o).ctx b).projTri p.1.toNat p.2.toNat) := by
    intro o
    rw [← triPairs_setObs P o]
    exact triRows_eq P.d _ (setObs P o).tri (setObs P o).tri 0 rfl
  have hproj : ∀ o : Outliers.Obs, ((setObs P o).ctx b).projTri = (P.ctx b).projTri := by
    intro o
    funext i0 i1
    have : ∀ i : Nat, ((setObs P o).tri[i]?.map fun q => q.icamE) = P.tri[i]?.map fun q => q.icamE := by
      intro i
      rw [setObs_tri_get]
      cases P.tri[i]? <;> rfl
    show triResidual (camOpt P.d b P.seed (((setObs P o).tri[i0]?.map fun q => q.icamE).getD (-1))) (camOpt P.d b P.seed (((setObs P o).tri[i1]?.map fun q => q.icamE).getD (-1))) _ _ = _
    rw [this, this]
    rfl
  rw [htri] at hx ⊢
  cases hp : triPairs 0 P.tri with
  | none => rw [hp] at hx; cases hx
  | some ps =>
    rw [hp] at hx
    simp only [Option.map_some, Option.some.injEq] at hx
    subst hx
    refine ⟨_, rfl, ?_⟩
    rw [List.forall₂_map_left_iff, List.forall₂_map_right_iff]
    refine forall₂_append (forall₂_append (forall₂_append ?_ (forall₂_less_refl _)) ?_) (forall₂_less_refl _)
    · rw [board_rows_setObs, board_rows_setObs]
      refine forall₂_flatMap_same _ _ _ fun oi _ => forall₂_flatMap_same _ _ _ fun ipt hipt => forall₂_map_same _ _ _ fun xy _ => ?_
      rw [boardRow_x, boardRow_x]
      have hi : ipt < P.W * P.H := List.mem_range.1 hipt
      simp only [withWeights, if_pos hi, List.getD_eq_getElem?_getD]
      cases hw : o.weights[oi.2 * (P.W * P.H) + ipt]? with
      | none =>
        have : o'.weights[oi.2 * (P.W * P.H) + ipt]? = none := by
          rw [List.getElem?_eq_none_iff] at hw ⊢
          rw [h.len]; exact hw
        rw [this]; exact Or.inl rfl
      | some w =>
        rcases h.weights _ w hw with h1 | ⟨h0, h1⟩
        · rw [h1]; exact Or.inl rfl
        · rw [h1]
          refine Or.inr ?_
          rw [if_neg]
          simp only [Option.getD_some]
          linarith
    · rw [hproj, hproj]
      refine forall₂_map_same _ _ _ fun p _ => ?_
      rw [triRow_x, triRow_x]
      have hf : ∀ i : Nat, ((setObs P o).tri[i]?.getD ⟨false, false, 0, 0⟩).outlier = true → ((setObs P o').tri[i]?.getD ⟨false, false, 0, 0⟩).outlier = true := by
        intro i
        rw [setObs_tri_get, setObs_tri_get]
        cases P.tri[i]? with
        | none => exact fun h => h
        | some q => exact fun hq => h.flags _ hq
      by_cases c : (((setObs P o').tri[p.1.toNat]?.getD ⟨false, false, 0, 0⟩).outlier || ((setObs P o').tri[p.2.toNat]?.getD ⟨false, false, 0, 0⟩).outlier) = true
      · rw [if_pos c]; exact Or.inr rfl
      · rw [if_neg c, if_neg]
        · exact Or.inl rfl
        · intro c'
          rw [Bool.or_eq_true] at c c'
          exact c (c'.imp (hf _) (hf _))

theorem cost_less {x' x : List ℝ} (h : List.Forall₂ Less x' x) : cost x' ≤ cost x := by
  induction h with
  | nil => exact le_refl _
  | @cons a c l l' h _ ih =>
    unfold cost at ih ⊢
    simp only [List.map_cons, List.sum_cons]
    rcases h with rfl | rfl
    · linarith
    · have := sq_nonneg c
      linarith

/-! ### the loop -/

theorem loop_exists (solver : Solver) (P : Problem) (pairs : List (Int × Int)) : ∀ (n : Nat) (o : Outliers.Obs), Outliers.inUse pairs o = n → ∀ b nb nt, ∃ r, Loop solver P pairs b o nb nt r := by
  intro n
  induction n using Nat.strong_induction_on with
  | _ n ih =>
    intro o ho b nb nt
    cases hs : solver (evaluate (setObs P o)) b with
    | none => exact ⟨_, .failed b o nb nt hs⟩
    | some s =>
      cases hr : P.d.sel.outlierRejection with
      | false => exact ⟨_, .single b o nb nt s hs hr⟩
      | true =>
        cases hf : (Outliers.markOutliers (rejection P pairs s.x) o).found with
        | false => exact ⟨_, .stop b o nb nt s _ hs hr rfl hf⟩
        | true =>
          have hlt := Outliers.goes_again_decreases pairs o _ ⟨rejection P pairs s.x, rfl, hf, rfl⟩
          rw [ho] at hlt
          obtain ⟨r, hr'⟩ := ih _ hlt _ rfl s.p (Outliers.markOutliers (rejection P pairs s.x) o).noutBoard (Outliers.markOutliers (rejection P pairs s.x) o).noutTri
          exact ⟨r, .again b o nb nt s _ r hs hr rfl hf hr'⟩

theorem loop_unique {solver : Solver} {P : Problem} {pairs : List (Int × Int)} {b o nb nt r r'} (h : Loop solver P pairs b o nb nt r) (h' : Loop solver P pairs b o nb nt r') : r = r' := by
  induction h with
  | failed b o nb nt hs =>
    cases h' <;> simp_all
  | single b o nb nt s hs hr =>
    cases h' <;> simp_all
  | stop b o nb nt s m hs hr hm hf =>
    cases h' <;> simp_all
  | again b o nb nt s m r hs hr hm hf hl ih =>
    cases h' with
    | failed _ _ _ _ hs' => rw [hs] at hs'; cases hs'
    | single _ _ _ _ s' hs' hr' => rw [hr] at hr'; cases hr'
    | stop _ _ _ _ s' m' hs' hr' hm' hf' =>
      rw [hs] at hs'
      obtain rfl := Option.some.inj hs'
      rw [← hm] at hm'
      subst hm'
      rw [hf] at hf'; cases hf'
    | again _ _ _ _ s' m' r' hs' hr' hm' hf' hl' =>
      rw [hs] at hs'
      obtain rfl := Option.some.inj hs'
      rw [← hm] at hm'
      subst hm'
      exact ih hl'

theorem loop_marked {solver : Solver} {P : Problem} {pairs : List (Int × Int)} {b o nb nt r} (h : Loop solver P pairs b o nb nt r) : Marked o r.obs := by
  induction h with
  | failed b o nb nt hs => exact Marked.refl _
  | single b o nb nt s hs hr => exact Marked.refl _
  | stop b o nb nt s m hs hr hm hf => subst hm; exact marked_mark _ _
  | again b o nb nt s m r hs hr hm hf hl ih => subst hm; exact (marked_mark _ _).trans ih

/-- on success: the reported residuals are those at the reported state, with the reported outliers; and the cost isn't more than at the beginning -/
theorem loop_solved {solver : Solver} (hh : Honest solver) {P : Problem} {pairs : List (Int × Int)} {b o nb nt r} (h : Loop solver P pairs b o nb nt r) (s : Sol) (hs : r.sol = some s) :
    evaluate (setObs P r.obs) s.p = some s.x ∧ s.norm2 = cost s.x ∧ ∀ x0, evaluate (setObs P o) b = some x0 → cost s.x ≤ cost x0 := by
  induction h with
  | failed b o nb nt hs' => cases hs
  | single b o nb nt s' hs' hr =>
    obtain rfl := Option.some.inj hs
    refine ⟨hh.at_p _ _ _ hs', hh.norm _ _ _ hs', fun x0 h0 => ?_⟩
    rw [← hh.norm _ _ _ hs']
    exact hh.descent _ _ _ _ hs' h0
  | stop b o nb nt s' m hs' hr hm hf =>
    obtain rfl := Option.some.inj hs
    have : m.obs = o := by rw [hm] at hf ⊢; exact Outliers.mark_nothing _ _ hf
    simp only [this]
    refine ⟨hh.at_p _ _ _ hs', hh.norm _ _ _ hs', fun x0 h0 => ?_⟩
    rw [← hh.norm _ _ _ hs']
    exact hh.descent _ _ _ _ hs' h0
  | again b o nb nt s' m r hs' hr hm hf hl ih =>
    obtain ⟨h1, h2, h3⟩ := ih hs
    refine ⟨h1, h2, fun x0 h0 => ?_⟩
    obtain ⟨x1, e1, l1⟩ := evaluate_marked P o m.obs (by rw [hm]; exact marked_mark _ _) s'.p s'.x (hh.at_p _ _ _ hs')
    have k1 := h3 x1 e1
    have k2 := cost_less l1
    have k3 := hh.descent _ _ _ _ hs' h0
    rw [hh.norm _ _ _ hs'] at k3
    linarith

/-! ### the selections -/

theorem effSel_core (d : Dims) : (effSel d).core = d.sel.core := by simp [effSel, Callback.hasCore]

theorem hasWarp_eff (d : Dims) : hasCalobjectWarp (effSel d) d.Nob = hasCalobjectWarp d.sel d.Nob := by
  simp [effSel, hasCalobjectWarp, Bool.and_assoc]

theorem numIntrinsicsOpt_eff (d : Dims) : numIntrinsicsOpt (effSel d) d.lens = numIntrinsicsOpt d.sel d.lens := by
  unfold numIntrinsicsOpt
  rw [effSel_core]
  rfl

theorem numStates_eff (P : Problem) : numStates (effective P).d = numStates P.d := by
  have h := numIntrinsicsOpt_eff P.d
  have h' := hasWarp_eff P.d
  unfold numStates numStatesIntrinsics numStatesWarp
  show P.d.Nci * numIntrinsicsOpt (effSel P.d) P.d.lens + _ + _ + _ + (if hasCalobjectWarp (effSel P.d) P.d.Nob then 2 else 0) = _
  rw [h, h']
  rfl

theorem numMeas_eff (P : Problem) : numMeas (effective P) = numMeas P := by
  unfold numMeas numMeasurements numMeasurementsRegularization numRegularizationPercamera
  show (numMeasurementsTri P.tri).map (fun n => _ + _ + n + (P.d.Nci * (if !P.d.sel.regularization then 0 else
    if (effSel P.d).core then numDistortionsOpt P.d.sel P.d.lens + 2 else numDistortionsOpt P.d.sel P.d.lens) + _)) = _
  rw [effSel_core]
  rfl

theorem effective_valid (P : Problem) (hP : P.Valid) : (effective P).Valid := by
  refine ⟨⟨hP.wf.nci, hP.wf.nce, hP.wf.nframes, hP.wf.npf, hP.wf.np⟩, hP.lens, hP.boards, hP.points, hP.tri, hP.triSel, ?_, hP.size⟩
  intro h
  refine hP.warp ?_
  rw [← hasWarp_eff]
  exact h

/-! ### the whole -/

/-- **Specification**: the arguments make no sense: the board shape is to be optimized, but none was given; or there are triangulated points, and not exactly the poses of the cameras are to be optimized -/
def BadArguments (P : Problem) : Prop :=
  (0 < P.d.Nob ∧ P.d.sel.warp = true ∧ P.warpGiven = false) ∨ (P.tri ≠ [] ∧ (P.d.sel.core = true ∨ P.d.sel.distortions = true ∨ P.d.sel.extrinsics = false))

theorem badArguments_iff (P : Problem) : badArguments P = true ↔ BadArguments P := by
  unfold badArguments BadArguments
  simp only [Bool.or_eq_true, Bool.and_eq_true, decide_eq_true_eq, Bool.not_eq_true', gt_iff_lt, Bool.and_eq_false_iff, Bool.not_eq_false', List.isEmpty_eq_false_iff, and_assoc, or_assoc, ne_eq]

theorem before_none (c : Call) : before c = none ↔ ¬ BadArguments c.P ∧ ∃ N, numMeas c.P = some N ∧ (∀ s, c.bufB = some s → s = numStates c.P.d * 8) ∧ (∀ s, c.bufX = some s → s = N * 8) ∧ c.checkGradient = false := by
  unfold before
  rw [← badArguments_iff]
  cases badArguments c.P
  · simp only [Bool.false_eq_true, if_false, not_false_eq_true, true_and, numMeas_eff, numStates_eff]
    cases numMeas c.P with
    | none => simp
    | some N =>
      simp only [Option.some.injEq, exists_eq_left']
      obtain ⟨P, bB, bX, g⟩ := c
      cases bB <;> cases bX <;> cases g <;> simp
      all_goals (split_ifs <;> simp_all)
  · simp

theorem pairs_of_numMeas (P : Problem) (N : Int) (h : numMeas P = some N) : ∃ pairs, triPairs 0 P.tri = some pairs := by
  unfold numMeas numMeasurements at h
  rw [numMeasurementsTri_pairs] at h
  cases hp : triPairs 0 P.tri with
  | none => rw [hp] at h; cases h
  | some pairs => exact ⟨pairs, rfl⟩

/-- **C111**: whatever the solver does, as long as each call of it returns: `mrcal_optimize()` returns, and does exactly one thing. The solve/reject loop ends -/
theorem optimize_total (solver : Solver) (c : Call) (junk : Mem) : ∃! r, Optimize solver c junk r := by
  cases hb : before c with
  | some r =>
    refine ⟨r, .early r hb, ?_⟩
    rintro r' (⟨_, h⟩ | ⟨_, _, _, h, _⟩)
    · rw [hb] at h; exact (Option.some.inj h).symm
    · rw [hb] at h; cases h
  | none =>
    obtain ⟨-, N, hN, -⟩ := (before_none c).1 hb
    obtain ⟨pairs, hp⟩ := pairs_of_numMeas c.P N hN
    have hN' := hN
    rw [← numMeas_eff] at hN'
    obtain ⟨r, hr⟩ := loop_exists solver (effective c.P) pairs _ (obsOf c.P) rfl (start (effective c.P) junk) (Outliers.initialCount (obsOf c.P)) 0
    refine ⟨_, .solve pairs N r hb hp hN' hr, ?_⟩
    rintro r' (⟨_, h⟩ | ⟨pairs', N', r', _, hp', hN'', hr'⟩)
    · rw [hb] at h; cases h
    · rw [hp] at hp'
      obtain rfl := Option.some.inj hp'
      rw [hN'] at hN''
      obtain rfl := Option.some.inj hN''
      rw [loop_unique hr hr']

/-- what happened, if it wasn't a failure, and the buffers were given -/
theorem solved_cases {solver : Solver} {c : Call} {junk : Mem} {r : Ret} (h : Optimize solver c junk (.ret r)) (hr : r.rms ≠ .minus1) (sB sX : Int) (hB : c.bufB = some sB) (hX : c.bufX = some sX) :
    ∃ pairs N lo s, before c = none ∧ ¬ BadArguments c.P ∧ numMeas c.P = some N ∧ sB = numStates c.P.d * 8 ∧ sX = N * 8 ∧ triPairs 0 c.P.tri = some pairs ∧
      Loop solver (effective c.P) pairs (start (effective c.P) junk) (obsOf c.P) (Outliers.initialCount (obsOf c.P)) 0 lo ∧ lo.sol = some s ∧
      r = ⟨if N = 0 then .nan else .val (Real.sqrt (s.norm2 / N)), lo.noutBoard, lo.noutTri, (unpackState (effective c.P).d s.p c.P.seed).1, lo.obs, some s.p, some s.x⟩ := by
  generalize hR : Result.ret r = R at h
  cases h with
  | early _ hb =>
    exfalso
    subst hR
    unfold before at hb
    split at hb
    · rw [Option.some.injEq] at hb
      unfold refused at hb
      injection hb with hb
      exact hr (by rw [← hb])
    · rw [hB, hX] at hb
      dsimp only at hb
      split at hb
      · cases hb
      · split at hb
        · rw [Option.some.injEq] at hb
          unfold refused at hb
          injection hb with hb
          exact hr (by rw [← hb])
        · split at hb
          · rw [Option.some.injEq] at hb
            unfold refused at hb
            injection hb with hb
            exact hr (by rw [← hb])
          · split at hb
            · simp at hb
            · cases hb
  | solve pairs N lo hb hp hN hl =>
    obtain ⟨h1, N', h2, h3, h4, -⟩ := (before_none c).1 hb
    rw [numMeas_eff, h2] at hN
    obtain rfl := Option.some.inj hN
    unfold finish at hR
    cases hs : lo.sol with
    | none =>
      rw [hs] at hR
      injection hR with hR
      exact absurd (by rw [hR]) hr
    | some s =>
      rw [hs] at hR
      injection hR with hR
      refine ⟨pairs, N', lo, s, hb, h1, h2, h3 _ hB, h4 _ hX, hp, hl, hs, ?_⟩
      rw [hR, hB, hX]
      simp only [Option.map_some]

/-- **Specification**: something is being optimized -/
def Optimizes (P : Problem) : Prop :=
  P.d.sel.core = true ∨ P.d.sel.distortions = true ∨ P.d.sel.extrinsics = true ∨ P.d.sel.frames = true ∨ (P.d.sel.warp = true ∧ 0 < P.d.Nob)

theorem callback_runs (P : Problem) (N : Int) (hbad : ¬ BadArguments P) (hopt : Optimizes P) (hN : numMeas P = some N) (junk : Mem) :
    callback P (numStates P.d * 8) (N * 8) junk = some ((evaluate (effective P) (start (effective P) junk)).map fun x => (start (effective P) junk, x)) := by
  unfold callback
  rw [← badArguments_iff, Bool.not_eq_true] at hbad
  rw [hbad]
  simp only [Bool.false_eq_true, if_false, numStates_eff, numMeas_eff, hN, ne_eq, not_true_eq_false]
  rw [if_neg]
  intro h
  simp only [Bool.and_eq_true, Bool.not_eq_true'] at h
  obtain ⟨⟨⟨⟨h1, h2⟩, h3⟩, h4⟩, h5⟩ := h
  have h1' : P.d.sel.core = false := by rw [← effSel_core]; exact h1
  have h5' : (P.d.sel.warp && decide (P.d.Nob > 0)) = false := h5
  unfold Optimizes at hopt
  rcases hopt with h | h | h | h | ⟨h, h'⟩
  · rw [h1'] at h; cases h
  · rw [show P.d.sel.distortions = false from h2] at h; cases h
  · rw [show P.d.sel.extrinsics = false from h3] at h; cases h
  · rw [show P.d.sel.frames = false from h4] at h; cases h
  · simp [h, h'] at h5'

/-- the arguments after the call, as the C caller sees them: the arrays and the observations were written in place -/
noncomputable def after (c : Call) (r : Ret) : Problem := { setObs c.P r.obs with seed := r.arrays }

theorem tri_setObs_nil (P : Problem) (o : Outliers.Obs) : (setObs P o).tri = [] ↔ P.tri = [] := by
  show P.tri.zipIdx.map _ = [] ↔ _
  rw [List.map_eq_nil_iff, List.zipIdx_eq_nil_iff]

/-- **C111**: after a successful solve, `mrcal_optimizer_callback()` with the same arguments (the arrays and the observations were updated in place) reports the same state and the same residuals as
`mrcal_optimize()` did -/
theorem solved_reproducible {solver : Solver} (hh : Honest solver) {c : Call} {junk : Mem} {r : Ret} (hP : c.P.Valid) (hopt : Optimizes c.P) (sB sX : Int) (hB : c.bufB = some sB)
    (hX : c.bufX = some sX) (h : Optimize solver c junk (.ret r)) (hr : r.rms ≠ .minus1) (junk' : Mem) :
    ∃ b x b', r.bFinal = some b ∧ r.xFinal = some x ∧ callback (after c r) sB sX junk' = some (some (b', x)) ∧ ∀ i, 0 ≤ i → i < numStates c.P.d → b' i = b i := by
  obtain ⟨pairs, N, lo, s, -, hbad, hN, hsB, hsX, hp, hl, hs, rfl⟩ := solved_cases h hr sB sX hB hX
  have hE := effective_valid c.P hP
  obtain ⟨h1, h2, -⟩ := loop_solved hh hl s hs
  have hwf : WF (effective c.P).d := hE.wf
  generalize hA : (unpackState (effective c.P).d s.p c.P.seed).1 = A at *
  generalize hQ : after c _ = Q
  have hQ' : Q = { setObs c.P lo.obs with seed := A } := hQ.symm
  refine ⟨s.p, s.x, start (effective Q) junk', rfl, rfl, ?_, ?_⟩
  · have hbadQ : ¬ BadArguments Q := by
      intro hb
      refine hbad (hb.imp ?_ ?_)
      · rw [hQ']; exact id
      · rw [hQ']; exact And.imp_left fun h h' => h ((tri_setObs_nil _ _).2 h')
    have hoptQ : Optimizes Q := by rw [hQ']; exact hopt
    have hNQ : numMeas Q = some N := by
      rw [hQ', ← hN, ← numMeas_setObs c.P lo.obs]; rfl
    have hsQ : numStates Q.d = numStates c.P.d := by rw [hQ']; rfl
    rw [hsB, hsX, ← hsQ, callback_runs Q N hbadQ hoptQ hNQ]
    have : evaluate (effective Q) (start (effective Q) junk') = some s.x := by
      rw [← h1]
      have e : effective Q = { setObs (effective c.P) lo.obs with seed := A } := by rw [hQ']; rfl
      rw [e]
      refine evaluate_congr (setObs (effective c.P) lo.obs) (setObs_valid _ hE _) A s.p _ ?_
      show (unpackState (effective c.P).d s.p c.P.seed).1 = (unpackState (effective c.P).d (packState (effective c.P).d A junk').1 A).1
      rw [unpack_pack_state _ hwf, hA]
    rw [this]; rfl
  · intro i h0 hi
    have e : start (effective Q) junk' = (packState (effective c.P).d A junk').1 := by rw [hQ']; rfl
    rw [e, ← hA]
    exact pack_unpack_state _ hwf _ _ _ _ h0 (by rw [numStates_eff]; exact hi)

/-- **C111**: the cost of what is returned is not more than the cost of what was given: than `mrcal_optimizer_callback()` reports with the arguments before the call -/
theorem cost_not_increased {solver : Solver} (hh : Honest solver) {c : Call} {junk : Mem} {r : Ret} (hP : c.P.Valid) (sB sX : Int) (hB : c.bufB = some sB) (hX : c.bufX = some sX)
    (h : Optimize solver c junk (.ret r)) (hr : r.rms ≠ .minus1) (junk' b0 : Mem) (x0 : List ℝ) (h0 : callback c.P sB sX junk' = some (some (b0, x0))) :
    ∃ x, r.xFinal = some x ∧ cost x ≤ cost x0 := by
  obtain ⟨pairs, N, lo, s, -, hbad, hN, hsB, hsX, hp, hl, hs, rfl⟩ := solved_cases h hr sB sX hB hX
  refine ⟨s.x, rfl, ?_⟩
  have hE := effective_valid c.P hP
  obtain ⟨-, -, h3⟩ := loop_solved hh hl s hs
  refine h3 x0 ?_
  have h0' : evaluate (effective c.P) (start (effective c.P) junk') = some x0 := by
    unfold callback at h0
    split at h0
    · cases h0
    · dsimp only at h0
      split at h0
      · cases h0
      · split at h0
        · cases h0
        · split at h0
          · cases h0
          · split at h0
            · cases h0
            · rw [Option.some.injEq, Option.map_eq_some_iff] at h0
              obtain ⟨x, hx, e⟩ := h0
              rw [hx]
              exact congrArg some (congrArg Prod.snd e)
  have e : setObs (effective c.P) (obsOf c.P) = effective c.P := setObs_obsOf (effective c.P)
  rw [e, ← h0']
  refine evaluate_congr (effective c.P) hE (effective c.P).seed _ _ ?_
  show (unpackState (effective c.P).d (packState (effective c.P).d c.P.seed junk').1 c.P.seed).1 = (unpackState (effective c.P).d (packState (effective c.P).d c.P.seed junk).1 c.P.seed).1
  rw [unpack_pack_state _ hE.wf, unpack_pack_state _ hE.wf]

theorem evaluate_length (P : Problem) (hP : P.Valid) (hbad : ¬ BadArguments P) (hNob : P.d.Nob = P.boards.length) (N : Int) (hN : numMeas P = some N) (b : Mem) (x : List ℝ)
    (hx : evaluate P b = some x) : (x.length : Int) = N := by
  have ok : CtxOk (P.ctx b) := by
    refine ⟨hP.wf.nci, hNob, ?_, ?_⟩
    · have := (tri_terminated_iff P.tri).1
      refine this.2 ?_
      unfold numMeas numMeasurements at hN
      cases h : numMeasurementsTri P.tri with
      | none => rw [h] at hN; cases hN
      | some n => rfl
    · intro h
      unfold BadArguments at hbad
      push Not at hbad
      obtain ⟨h1, h2, h3⟩ := hbad.2 h
      exact ⟨Bool.not_eq_true _ |>.mp h1, Bool.not_eq_true _ |>.mp h2, Bool.not_eq_false _ |>.mp h3⟩
  obtain ⟨out, h1, h2, -⟩ := callback_fills_exactly (P.ctx b) ok
  unfold evaluate at hx
  rw [h1] at hx
  obtain rfl := Option.some.inj hx
  have : numMeas P = some (out.x.length : Int) := h2
  rw [hN] at this
  exact (Option.some.inj this).symm

theorem bad_eff (P : Problem) (o : Outliers.Obs) : BadArguments (setObs (effective P) o) ↔ BadArguments P := by
  unfold BadArguments
  rw [ne_eq, tri_setObs_nil]
  have e : (setObs (effective P) o).d.sel.core = P.d.sel.core := effSel_core P.d
  have w : (setObs (effective P) o).d.sel.warp = (P.d.sel.warp && decide (P.d.Nob > 0)) := rfl
  rw [e, w]
  show (0 < P.d.Nob ∧ (P.d.sel.warp && decide (P.d.Nob > 0)) = true ∧ P.warpGiven = false) ∨ (¬ P.tri = [] ∧ (P.d.sel.core = true ∨ P.d.sel.distortions = true ∨ P.d.sel.extrinsics = false)) ↔ _
  rw [Bool.and_eq_true, decide_eq_true_eq]
  tauto

/-- **C111**: what `rms_reproj_error__pixels` is: the square root of the mean of the squared residuals: of all of them, including the regularization, and including the zeros of the outliers. The residuals are
those reported -/
theorem solved_rms {solver : Solver} (hh : Honest solver) {c : Call} {junk : Mem} {r : Ret} (hP : c.P.Valid) (hNob : c.P.d.Nob = c.P.boards.length) (sB sX : Int) (hB : c.bufB = some sB)
    (hX : c.bufX = some sX) (h : Optimize solver c junk (.ret r)) (hr : r.rms ≠ .minus1) :
    ∃ x, r.xFinal = some x ∧ numMeas c.P = some (x.length : Int) ∧ (x ≠ [] → r.rms = .val (Real.sqrt (cost x / x.length))) ∧ (x = [] → r.rms = .nan) := by
  obtain ⟨pairs, N, lo, s, -, hbad, hN, hsB, hsX, hp, hl, hs, rfl⟩ := solved_cases h hr sB sX hB hX
  have hE := effective_valid c.P hP
  obtain ⟨h1, h2, -⟩ := loop_solved hh hl s hs
  have hlen := evaluate_length (setObs (effective c.P) lo.obs) (setObs_valid _ hE _) (by rw [bad_eff]; exact hbad)
    (by rw [setObs_boards, List.length_map, List.length_zipIdx]; exact hNob) N (by rw [numMeas_setObs, numMeas_eff]; exact hN) _ _ h1
  refine ⟨s.x, rfl, by rw [hN, hlen], ?_, ?_⟩
  · intro hx
    have : N ≠ 0 := by
      intro h0
      rw [h0] at hlen
      exact hx (List.length_eq_zero_iff.1 (by omega))
    simp only [if_neg this, h2]
    rw [← hlen]
    push_cast
    rfl
  · intro hx
    have : N = 0 := by rw [← hlen, hx]; rfl
    simp only [if_pos this]

/-- **C111**: outliers are only ever added, whatever happens: success, failure, refusal -/
theorem outliers_only_added {solver : Solver} {c : Call} {junk : Mem} {r : Ret} (h : Optimize solver c junk (.ret r)) : Marked (obsOf c.P) r.obs := by
  generalize hR : Result.ret r = R at h
  cases h with
  | early _ hb =>
    subst hR
    unfold before at hb
    dsimp only at hb
    have key : r.obs = obsOf c.P := by
      split at hb
      · injection hb with hb; unfold refused at hb; injection hb with hb; rw [← hb]
      · split at hb
        · injection hb with hb; cases hb
        · split at hb
          · injection hb with hb; unfold refused at hb; injection hb with hb; rw [← hb]
          · split at hb
            · injection hb with hb; unfold refused at hb; injection hb with hb; rw [← hb]
            · split at hb
              · split at hb
                · injection hb with hb; cases hb
                · injection hb with hb; injection hb with hb; rw [← hb]
              · cases hb
    rw [key]
    exact Marked.refl _
  | solve pairs N lo hb hp hN hl =>
    have hm := loop_marked hl
    have : r.obs = lo.obs := by
      unfold finish at hR
      cases hs : lo.sol with
      | none => rw [hs] at hR; injection hR with hR; rw [hR]
      | some s => rw [hs] at hR; injection hR with hR; rw [hR]
    rw [this]
    exact hm

/-- **C111**: after a failure the arrays are as they were, and nothing was written to the buffers -/
theorem failed_arrays_unchanged {solver : Solver} {c : Call} {junk : Mem} {r : Ret} (h : Optimize solver c junk (.ret r)) (hr : r.rms = .minus1) : r.arrays = c.P.seed ∧ r.bFinal = none ∧ r.xFinal = none := by
  generalize hR : Result.ret r = R at h
  cases h with
  | early _ hb =>
    subst hR
    unfold before at hb
    dsimp only at hb
    split at hb
    · injection hb with hb; unfold refused at hb; injection hb with hb; rw [← hb]; exact ⟨rfl, rfl, rfl⟩
    · split at hb
      · injection hb with hb; cases hb
      · split at hb
        · injection hb with hb; unfold refused at hb; injection hb with hb; rw [← hb]; exact ⟨rfl, rfl, rfl⟩
        · split at hb
          · injection hb with hb; unfold refused at hb; injection hb with hb; rw [← hb]; exact ⟨rfl, rfl, rfl⟩
          · split at hb
            · split at hb
              · injection hb with hb; cases hb
              · injection hb with hb; injection hb with hb; rw [← hb]; exact ⟨rfl, rfl, rfl⟩
            · cases hb
  | solve pairs N lo hb hp hN hl =>
    unfold finish at hR
    cases hs : lo.sol with
    | none => rw [hs] at hR; injection hR with hR; rw [hR]; exact ⟨rfl, rfl, rfl⟩
    | some s =>
      rw [hs] at hR
      injection hR with hR
      rw [hR] at hr
      dsimp only at hr
      split at hr <;> cases hr

/-- **C111**: after a success: each optimized quantity is where the final state says, and everything else is untouched: what was locked, and the fixed points -/
theorem solved_arrays {solver : Solver} {c : Call} {junk : Mem} {r : Ret} (hP : c.P.Valid) (sB sX : Int) (hB : c.bufB = some sB) (hX : c.bufX = some sX)
    (h : Optimize solver c junk (.ret r)) (hr : r.rms ≠ .minus1) :
    ∃ b, r.bFinal = some b ∧ (∀ v, Present c.P.d v → r.arrays (home c.P.d v) = b (loc c.P.d v) * unit c.P.d v) ∧ ∀ a, (∀ v, Present c.P.d v → home c.P.d v ≠ a) → r.arrays a = c.P.seed a := by
  obtain ⟨pairs, N, lo, s, -, hbad, hN, hsB, hsX, hp, hl, hs, rfl⟩ := solved_cases h hr sB sX hB hX
  have hE := effective_valid c.P hP
  refine ⟨s.p, rfl, ?_⟩
  obtain ⟨u1, u2, -⟩ := unpack_state_values (effective c.P).d hE.wf s.p c.P.seed
  have hcore : (effective c.P).d.sel = { c.P.d.sel with warp := c.P.d.sel.warp && decide (c.P.d.Nob > 0) } := by
    show effSel c.P.d = _
    unfold effSel
    simp [Callback.hasCore]
  have hpres : ∀ v, Present (effective c.P).d v ↔ Present c.P.d v := by
    intro v
    cases v with
    | warp k =>
      unfold Present
      rw [hcore]
      show (c.P.d.sel.warp && decide (c.P.d.Nob > 0)) = true ∧ c.P.d.Nob > 0 ∧ _ ↔ c.P.d.sel.warp = true ∧ c.P.d.Nob > 0 ∧ _
      rw [Bool.and_eq_true, decide_eq_true_eq]
      tauto
    | _ => unfold Present; rw [hcore]; rfl
  have hd : (effective c.P).d = { c.P.d with sel := { c.P.d.sel with warp := c.P.d.sel.warp && decide (c.P.d.Nob > 0) } } := by
    rw [← hcore]; rfl
  have hloc : ∀ v, loc (effective c.P).d v = loc c.P.d v := by
    intro v
    rw [hd]
    cases v with
    | warp k =>
      simp only [loc, stateIndexWarp, hasCalobjectWarp, Bool.and_assoc, Bool.and_self]
      rfl
    | _ => rfl
  have hhome : ∀ v, home (effective c.P).d v = home c.P.d v := by
    intro v
    rw [hd]
    cases v <;> rfl
  have hunit : ∀ v, unit (effective c.P).d v = unit c.P.d v := by
    intro v
    rw [hd]
    cases v <;> rfl
  refine ⟨fun v hv => ?_, fun a ha => u2 a fun v hv => ?_⟩
  · rw [← hhome, ← hloc, ← hunit]
    exact u1 v ((hpres v).2 hv)
  · rw [hhome]; exact ha v ((hpres v).1 hv)

/-! ### the outliers at the end -/

theorem loop_last {solver : Solver} {P : Problem} {pairs : List (Int × Int)} {b o nb nt r} (h : Loop solver P pairs b o nb nt r) (s : Sol) (hs : r.sol = some s) :
    (P.d.sel.outlierRejection = false ∧ r.obs = o ∧ r.noutBoard = nb ∧ r.noutTri = nt) ∨
    (P.d.sel.outlierRejection = true ∧ (Outliers.markOutliers (rejection P pairs s.x) r.obs).found = false ∧
      r.noutBoard = (Outliers.markOutliers (rejection P pairs s.x) r.obs).noutBoard ∧ r.noutTri = (Outliers.markOutliers (rejection P pairs s.x) r.obs).noutTri) := by
  induction h with
  | failed b o nb nt hs' => cases hs
  | single b o nb nt s' hs' hr => exact Or.inl ⟨hr, rfl, rfl, rfl⟩
  | stop b o nb nt s' m hs' hr hm hf =>
    obtain rfl := Option.some.inj hs
    have : m.obs = o := by rw [hm] at hf ⊢; exact Outliers.mark_nothing _ _ hf
    simp only [this]
    rw [hm] at hf ⊢
    exact Or.inr ⟨hr, hf, rfl, rfl⟩
  | again b o nb nt s' m r hs' hr hm hf hl ih =>
    rcases ih hs with ⟨h1, -⟩ | h1
    · rw [hr] at h1; cases h1
    · exact Or.inr h1

theorem meanSq_congr (p p' : Outliers.Problem) (o : Outliers.Obs) (h : p.pairs = p'.pairs) (h1 : o.weights ≠ [] → p.x = p'.x) (h2 : p'.pairs ≠ [] → p.xt = p'.xt) :
    Outliers.meanSq p o = Outliers.meanSq p' o := by
  unfold Outliers.meanSq
  rw [h]
  have e1 : Outliers.sumSq p.x 0 o.weights = Outliers.sumSq p'.x 0 o.weights := by
    cases hw : o.weights with
    | nil => rfl
    | cons a l => rw [h1 (by rw [hw]; simp)]
  have e2 : Outliers.sumSqTri p.xt o.flags 0 p'.pairs = Outliers.sumSqTri p'.xt o.flags 0 p'.pairs := by
    cases hw : p'.pairs with
    | nil => rfl
    | cons a l => rw [h2 (by rw [hw]; simp)]
  rw [e1, e2]

theorem obsOf_len (P : Problem) : (obsOf P).weights.length = P.boards.length * (P.W * P.H) := by
  show (P.boards.flatMap fun o => (List.range (P.W * P.H)).map o.weight).length = _
  rw [List.length_flatMap]
  simp [List.sum_replicate]

/-- **Specification**: the residuals in x, as the outlier rejection sees them: first the board corners, x and y of each; then 2 for each point; then the triangulated pairs -/
noncomputable def seenBy (P : Problem) (pairs : List (Int × Int)) (x : List ℝ) (conv : Int → Int → Bool) : Outliers.Problem where
  x := fun i => x.getD i 0
  pairs := pairs
  xt := fun i => x.getD (2 * (P.boards.length * (P.W * P.H)) + 2 * P.points.length + i) 0
  convergent := conv

/-- **C111**: if outlier rejection was asked for, then after a success: no corner in use is beyond 5 standard deviations of those in use (all standard deviations about 0, of the reported residuals);
nor is any triangulated pair in use; and no pair in use was divergent in the poses given at the call -/
theorem solved_no_outliers_left {solver : Solver} {c : Call} {junk : Mem} {r : Ret} (hNob : c.P.d.Nob = c.P.boards.length) (hrej : c.P.d.sel.outlierRejection = true) (sB sX : Int)
    (hB : c.bufB = some sB) (hX : c.bufX = some sX) (h : Optimize solver c junk (.ret r)) (hr : r.rms ≠ .minus1) :
    ∃ x pairs, r.xFinal = some x ∧ triPairs 0 c.P.tri = some pairs ∧
      (∀ q ∈ pairs, r.obs.flags q.1 = false → r.obs.flags q.2 = false → convergentIn c.P q.1 q.2 = true) ∧
      ∀ p, p = seenBy c.P pairs x (convergentIn c.P) → (∀ (i : Nat) (w : ℝ), r.obs.weights[i]? = some w → 0 < w → ¬ Outliers.CornerBeyond p 5 (Outliers.meanSq p r.obs) i) ∧
        ∀ (i : Nat) q, pairs[i]? = some q → r.obs.flags q.1 = false → r.obs.flags q.2 = false → ¬ p.xt i ^ 2 > 5 ^ 2 * Outliers.meanSq p r.obs := by
  have hm := (outliers_only_added h).len
  obtain ⟨pairs, N, lo, s, -, hbad, hN, hsB, hsX, hp, hl, hs, rfl⟩ := solved_cases h hr sB sX hB hX
  refine ⟨s.x, pairs, rfl, hp, ?_⟩
  rcases loop_last hl s hs with ⟨h1, -⟩ | ⟨-, hf, -, -⟩
  · rw [show (effective c.P).d.sel.outlierRejection = c.P.d.sel.outlierRejection from rfl, hrej] at h1; cases h1
  generalize hp0 : rejection (effective c.P) pairs s.x = p0 at hf
  have hpp : p0.pairs = pairs := by rw [← hp0]; rfl
  have hcc : p0.convergent = convergentIn c.P := by rw [← hp0]; rfl
  have hconv : ∀ q ∈ p0.pairs, lo.obs.flags q.1 = false → lo.obs.flags q.2 = false → p0.convergent q.1 q.2 = true := by
    intro q hq h0 h1
    by_contra hc
    have := (Outliers.mark_divergent p0 lo.obs q hq (by simpa using hc)).2 h0 h1
    rw [hf] at this; cases this
  refine ⟨fun q hq h0 h1 => by rw [← hcc]; exact hconv q (by rw [hpp]; exact hq) h0 h1, ?_⟩
  rintro p rfl
  have hthr := (Outliers.mark_thresholds p0 lo.obs hconv).1
  rw [hf] at hthr
  have hno := fun h => Bool.false_ne_true (hthr.2 h)
  simp only at hm ⊢
  rw [obsOf_len] at hm
  have hx : lo.obs.weights ≠ [] → p0.x = (seenBy c.P pairs s.x (convergentIn c.P)).x := by
    intro hw
    have hpos : 0 < lo.obs.weights.length := List.length_pos_iff.2 hw
    rw [hm] at hpos
    have hn : 0 < c.P.boards.length := Nat.pos_of_mul_pos_right hpos
    rw [← hp0]
    funext i
    show s.x.getD (measurementIndexBoards 0 c.P.d.Nob c.P.W c.P.H + i).toNat 0 = s.x.getD i 0
    have : measurementIndexBoards 0 c.P.d.Nob c.P.W c.P.H = 0 := by
      unfold measurementIndexBoards numMeasurementsBoards
      rw [if_neg (by omega)]; simp
    rw [this]
    congr 1
    omega
  have hxt : pairs ≠ [] → p0.xt = (seenBy c.P pairs s.x (convergentIn c.P)).xt := by
    intro hw
    rw [← hp0]
    funext i
    have hne : c.P.tri ≠ [] := by
      intro h0
      rw [h0] at hp
      simp only [triPairs, Option.some.injEq] at hp
      exact hw hp.symm
    show s.x.getD (((measurementIndexTri 0 c.P.d.Nob c.P.points.length c.P.tri c.P.W c.P.H).getD (-1)) + i).toNat 0 = s.x.getD (2 * (c.P.boards.length * (c.P.W * c.P.H)) + 2 * c.P.points.length + i) 0
    have : measurementIndexTri 0 c.P.d.Nob c.P.points.length c.P.tri c.P.W c.P.H = some ((2 * (c.P.boards.length * (c.P.W * c.P.H)) + 2 * c.P.points.length : Nat) : Int) := by
      unfold measurementIndexTri numMeasurementsTriInitial
      obtain ⟨a, l, e⟩ := List.exists_cons_of_ne_nil hne
      rw [e]
      simp only [List.length_cons, Nat.le_zero_eq, Nat.add_eq_zero_iff, one_ne_zero, and_false, if_false]
      rw [triInitialLoop]
      simp only [lt_self_iff_false, or_self, if_false, Option.map_some, Option.some.injEq, add_zero]
      unfold numMeasurementsBoards numMeasurementsPoints
      by_cases hz : c.P.d.Nob ≤ 0
      · rw [if_pos hz]
        have : c.P.boards.length = 0 := by omega
        rw [this]; push_cast; ring
      · rw [if_neg hz, hNob]; push_cast; ring
    rw [this, Option.getD_some]
    congr 1
  have hms : Outliers.meanSq p0 lo.obs = Outliers.meanSq (seenBy c.P pairs s.x (convergentIn c.P)) lo.obs := meanSq_congr _ _ _ hpp hx hxt
  constructor
  · intro i w hi hw hb
    refine hno (Or.inl ⟨i, w, hi, hw, ?_⟩)
    have : lo.obs.weights ≠ [] := by intro h0; rw [h0] at hi; simp at hi
    unfold Outliers.CornerBeyond at hb ⊢
    rw [hms, hx this]
    exact hb
  · intro i q hi h0 h1 hb
    refine hno (Or.inr ⟨i, q, by rw [hpp]; exact hi, h0, h1, ?_⟩)
    have : pairs ≠ [] := by intro h0; rw [h0] at hi; simp at hi
    rw [hms, hxt this]
    exact hb

/-- **C111**: `Noutliers_board`: with outlier rejection this is how many corners aren't in use at the end, including those marked by the caller. Without, it's how many the caller gave a negative weight,
and the observations are left alone -/
theorem solved_counts {solver : Solver} {c : Call} {junk : Mem} {r : Ret} (sB sX : Int) (hB : c.bufB = some sB) (hX : c.bufX = some sX) (h : Optimize solver c junk (.ret r)) (hr : r.rms ≠ .minus1) :
    (c.P.d.sel.outlierRejection = true → r.noutBoard = r.obs.weights.length - Outliers.numInliers r.obs.weights) ∧
    (c.P.d.sel.outlierRejection = false → r.obs = obsOf c.P ∧ r.noutBoard = Outliers.initialCount (obsOf c.P) ∧ r.noutTri = 0) := by
  obtain ⟨pairs, N, lo, s, -, hbad, hN, hsB, hsX, hp, hl, hs, rfl⟩ := solved_cases h hr sB sX hB hX
  rcases loop_last hl s hs with ⟨h1, h2, h3, h4⟩ | ⟨h1, hf, h3, h4⟩
  · have h1' : c.P.d.sel.outlierRejection = false := h1
    exact ⟨fun h => (by rw [h1'] at h; cases h), fun _ => ⟨h2, h3, h4⟩⟩
  · have h1' : c.P.d.sel.outlierRejection = true := h1
    refine ⟨fun _ => ?_, fun h => (by rw [h1'] at h; cases h)⟩
    simp only
    rw [h3, Outliers.mark_board_count, Outliers.mark_nothing _ _ hf]

/-! ### refusals -/

theorem loop_isSome {solver : Solver} (hs : ∀ f b, (solver f b).isSome) {P : Problem} {pairs : List (Int × Int)} {b o nb nt r} (h : Loop solver P pairs b o nb nt r) : r.sol.isSome := by
  induction h with
  | failed b o nb nt hs' => have := hs (evaluate (setObs P o)) b; rw [hs'] at this; cases this
  | single => rfl
  | stop => rfl
  | again _ _ _ _ _ _ _ _ _ _ _ _ ih => exact ih

/-- **C111**: unless the arguments make no sense, or the buffers have the wrong size: if the solver doesn't fail, then the call doesn't -/
theorem optimize_succeeds {solver : Solver} {c : Call} {junk : Mem} {res : Result} (hbad : ¬ BadArguments c.P) (hT : Terminated c.P.tri) (N : Int) (hN : numMeas c.P = some N)
    (hB : ∀ s, c.bufB = some s → s = numStates c.P.d * 8) (hX : ∀ s, c.bufX = some s → s = N * 8) (hg : c.checkGradient = false) (hs : ∀ f b, (solver f b).isSome) (h : Optimize solver c junk res) :
    ∃ r, res = .ret r ∧ r.rms ≠ .minus1 := by
  have hb : before c = none := (before_none c).2 ⟨hbad, N, hN, hB, hX, hg⟩
  cases h with
  | early _ hb' => rw [hb] at hb'; cases hb'
  | solve pairs N lo hb hp hN hl =>
    have key : lo.sol.isSome := loop_isSome hs hl
    obtain ⟨s, hs'⟩ := Option.isSome_iff_exists.1 key
    unfold finish
    rw [hs']
    refine ⟨_, rfl, ?_⟩
    dsimp only
    split <;> simp

/-- **C111**: if the arguments make no sense, or a buffer has the wrong size, then nothing is touched, the solver isn't called, and the result is -1 -/
theorem optimize_refuses {solver : Solver} {c : Call} {junk : Mem} {res : Result} (hT : Terminated c.P.tri)
    (hbad : BadArguments c.P ∨ (∃ s, c.bufB = some s ∧ s ≠ numStates c.P.d * 8) ∨ ∃ s N, c.bufX = some s ∧ numMeas c.P = some N ∧ s ≠ N * 8) (h : Optimize solver c junk res) :
    res = .ret ⟨.minus1, 0, 0, c.P.seed, obsOf c.P, none, none⟩ := by
  have hN : ∃ N, numMeas c.P = some N := by
    have := (tri_terminated_iff c.P.tri).1.1 hT
    obtain ⟨n, hn⟩ := Option.isSome_iff_exists.1 this
    exact ⟨_, by unfold numMeas numMeasurements; rw [hn]; rfl⟩
  obtain ⟨N, hN⟩ := hN
  have hb : before c = some (refused c) := by
    unfold before
    by_cases h1 : BadArguments c.P
    · rw [if_pos ((badArguments_iff _).2 h1)]
    · rw [if_neg (by rwa [badArguments_iff])]
      simp only [numMeas_eff, numStates_eff, hN]
      rcases hbad with hb | ⟨s, hs, hne⟩ | ⟨s, N', hs, hN', hne⟩
      · exact absurd hb h1
      · rw [hs, if_pos]; simpa using hne
      · rw [hN] at hN'
        obtain rfl := Option.some.inj hN'
        split
        · rfl
        · rw [hs, if_pos]; simpa using hne
  cases h with
  | early _ hb' => rw [hb] at hb'; exact (Option.some.inj hb').symm
  | solve pairs N lo hb' hp hN hl => rw [hb] at hb'; cases hb'

/-- **C111** (python): the buffers `mrcal.optimize()` allocates always have the right size: it's an error only if the arguments make no sense, or the solver failed -/
theorem python_sizes_fit (P : Problem) (c : Call) (hc : pyCall P = some c) : c.P = P ∧ (before c = none ↔ ¬ BadArguments P) := by
  unfold pyCall pySizes at hc
  rw [Option.map_map, Option.map_eq_some_iff] at hc
  obtain ⟨N, hN, rfl⟩ := hc
  refine ⟨rfl, ?_⟩
  rw [before_none]
  simp only [Function.comp_apply, Option.some.injEq]
  constructor
  · exact fun h => h.1
  · exact fun h => ⟨h, N, hN, fun s hs => hs.symm, fun s hs => hs.symm, trivial⟩

end Mrcal.Solve
