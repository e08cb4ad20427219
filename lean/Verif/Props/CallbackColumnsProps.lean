import Verif.Props.CallbackCountProps
/-
C04: the Jacobian columns. C05: outliers. C45: the index functions name the residuals the callback writes.
-/
namespace Mrcal.Callback
open Mrcal StateLayout Tri

/-! ### Specification: which variables a measurement depends on, in which order -/

/-- intrinsics: the focal length and center of this axis, then the non-core values. A splined model is
sparse: only the control points surrounding the projection, starting at `p.ivar0`. -/
def intrVars (d : Dims) (icam : Int) (p : Proj) (xy : Nat) : List Var :=
  let core : Int := if d.sel.core then 4 else 0
  (if d.sel.core then [.intrinsics icam xy, .intrinsics icam (xy + 2)] else []) ++
  (if d.sel.distortions then
    match d.lens with
    | .splined order Nx _ _ =>
      (loop (order + 1)).flatMap fun iy => (loop (order + 1)).map fun ix =>
        .intrinsics icam (core + (p.ivar0 - 4) + 2 * (iy * Nx + ix) + xy)
    | lens => (loop (lens.numParams - 4)).map fun i => .intrinsics icam (core + i)
   else [])

/-- the camera pose, unless it's the reference -/
def camVars (d : Dims) (icam : Int) : List Var :=
  if d.sel.extrinsics ∧ 0 ≤ icam then (loop 6).map fun k => .extrinsics icam k else []

/-- a board measurement -/
def boardVars (d : Dims) (o : BoardObs) (p : Proj) (xy : Nat) : List Var :=
  intrVars d o.icamI p xy ++ camVars d o.icamE ++
  (if d.sel.frames then (loop 6).map fun k => .frame o.iframe k else []) ++
  (if d.sel.warp ∧ 0 < d.Nob then (loop 2).map fun k => .warp k else [])

/-- a point measurement; fixed points aren't variables -/
def pointVars (d : Dims) (o : PointObs) (p : Proj) (xy : Nat) : List Var :=
  intrVars d o.icamI p xy ++ camVars d o.icamE ++
  (if d.sel.frames ∧ o.ipoint < d.Npoints - d.NpointsFixed then
    (loop 3).map fun k => .point o.ipoint k else [])

/-- a triangulated measurement: the two camera poses -/
def triVars (d : Dims) (o0 o1 : TriObs) : List Var := camVars d o0.icamE ++ camVars d o1.icamE

/-! ### The columns written are the locations of these variables -/

theorem storeSpline_cols (len c s : Int) (xy : Nat) (g) :
    (storeSpline len c s xy g).map (·.1) =
      (loop len).flatMap fun iy => (loop len).map fun ix => c + iy * s + ix * 2 + xy := by
  simp [storeSpline, List.map_flatMap, Function.comp_def]

theorem intrinsicsEntries_cols (d : Dims) (icam : Int) (p : Proj) (f : Nat → ℝ) (w : ℝ) (xy : Nat) :
    (intrinsicsEntries d (stateIndexIntrinsics icam d) p f w xy).map (·.1) =
      (intrVars d icam p xy).map (loc d) := by
  unfold intrinsicsEntries intrVars
  rw [List.map_append, List.map_append]
  congr 1
  · cases d.sel.core <;> simp [loc, add_assoc]
  · cases hd : d.sel.distortions
    · simp
    · cases hl : d.lens with
      | splined order Nx Ny fov =>
        simp only [if_true, storeSpline_cols, List.map_flatMap, List.map_map, Function.comp_def, loc]
        congr 1; funext iy; congr 1; funext ix
        cases d.sel.core <;> simp <;> ring
      | _ =>
        simp only [if_true, List.map_map, Function.comp_def, loc, NcoreState, Lens.hasCore, Bool.true_and,
          Ncore]
        congr 1; funext i; ring

theorem intrinsicsOutlierBoard_cols (d : Dims) (icam : Int) (p : Proj) (xy : Nat) :
    (intrinsicsOutlierBoard d (stateIndexIntrinsics icam d) p xy).map (·.1) =
      (intrVars d icam p xy).map (loc d) := by
  rw [← intrinsicsEntries_cols d icam p (fun _ => 0) 0 xy]
  unfold intrinsicsOutlierBoard intrinsicsEntries
  rw [List.map_append, List.map_append]
  congr 1
  · cases d.sel.core <;> simp
  · cases hd : d.sel.distortions
    · simp
    · cases hl : d.lens <;> simp [storeSpline_cols, Function.comp_def]

theorem intrinsicsOutlierPoint_cols (d : Dims) (icam : Int) (p : Proj) (xy : Nat)
    (hs : d.lens.isSplined = false) :
    (intrinsicsOutlierPoint d (stateIndexIntrinsics icam d) xy).map (·.1) =
      (intrVars d icam p xy).map (loc d) := by
  rw [← intrinsicsOutlierBoard_cols d icam p xy]
  unfold intrinsicsOutlierBoard intrinsicsOutlierPoint
  cases hl : d.lens <;> first | rfl | simp [hl, Lens.isSplined] at hs

theorem camVars_cols (d : Dims) (icam : Int) (g : Nat → ℝ) :
    (if d.sel.extrinsics then
      if icam ≥ 0 then
        store3 (stateIndexExtrinsics icam d + 0) (g 0) (g 1) (g 2) ++
        store3 (stateIndexExtrinsics icam d + 3) (g 3) (g 4) (g 5) else []
     else []).map (·.1) = (camVars d icam).map (loc d) := by
  unfold camVars
  have : loop 6 = [0, 1, 2, 3, 4, 5] := by decide
  cases d.sel.extrinsics <;> by_cases h : 0 ≤ icam <;> simp [h, store3, this, loc, add_assoc]

theorem frame_cols (d : Dims) (i : Int) (g : Nat → ℝ) :
    (if d.sel.frames then
        store3 (stateIndexFrames i d + 0) (g 0) (g 1) (g 2) ++
        store3 (stateIndexFrames i d + 3) (g 3) (g 4) (g 5)
     else []).map (·.1) = (if d.sel.frames then (loop 6).map fun k => Var.frame i k else []).map (loc d) := by
  have : loop 6 = [0, 1, 2, 3, 4, 5] := by decide
  cases d.sel.frames <;> simp [store3, this, loc, add_assoc]

/-- C04. The Jacobian columns of a board measurement are the state indices of the variables that
measurement depends on: the intrinsics and extrinsics of the observing camera, the pose of the observed
frame, and the board shape. Inlier or outlier alike. -/
theorem board_columns (d : Dims) (o : BoardObs) (p : Proj) (f : Nat → ℝ) (ipt xy : Nat) :
    (boardRow d o p f ipt xy).entries.map (·.1) = (boardVars d o p xy).map (loc d) := by
  have hw2 : (if hasCalobjectWarp d.sel d.Nob then
      (loop 2).map fun i => stateIndexWarp d + i else []) =
      (if d.sel.warp = true ∧ 0 < d.Nob then (loop 2).map fun k => Var.warp k else []).map (loc d) := by
    unfold hasCalobjectWarp
    cases d.sel.warp <;> by_cases h : 0 < d.Nob <;> simp [h, loc]
  unfold boardRow boardVars
  simp only
  split
  · have h1 := camVars_cols d o.icamE fun k => if k < 3 then p.drcam xy k * o.weight ipt * scaleRotCamera
      else p.dtcam xy (k - 3) * o.weight ipt * scaleTransCamera
    have h2 := frame_cols d o.iframe fun k => if k < 3 then p.drframe xy k * o.weight ipt * scaleRotFrame
      else p.dtframe xy (k - 3) * o.weight ipt * scaleTransFrame
    simp only [List.map_append]
    rw [intrinsicsEntries_cols, ← h1, ← h2, ← hw2]
    congr 1
    split <;> simp
  · have h1 := camVars_cols d o.icamE fun _ => 0
    have h2 := frame_cols d o.iframe fun _ => 0
    simp only [List.map_append]
    rw [intrinsicsOutlierBoard_cols, ← h1, ← h2, ← hw2]
    congr 1
    split <;> simp

theorem point_pos_cols (d : Dims) (o : PointObs) (g : Nat → ℝ) :
    (if (d.sel.frames && decide (o.ipoint < d.Npoints - d.NpointsFixed)) = true then
      store3 (stateIndexPoints o.ipoint d) (g 0) (g 1) (g 2) else []).map (·.1) =
    (if d.sel.frames = true ∧ o.ipoint < d.Npoints - d.NpointsFixed then
      (loop 3).map fun k => Var.point o.ipoint k else []).map (loc d) := by
  have : loop 3 = [0, 1, 2] := by decide
  cases d.sel.frames <;> by_cases h : o.ipoint < d.Npoints - d.NpointsFixed <;> simp [h, store3, this, loc]

/-- C04. The Jacobian columns of a point measurement are the state indices of the variables it depends on.
For the (splined model, outlier) combination see `point_outlier_splined_columns`. -/
theorem point_columns (d : Dims) (o : PointObs) (p : Proj) (f : Nat → ℝ) (xy : Nat)
    (h : d.lens.isSplined = false ∨ 0 < o.weight) :
    (pointRow d o p f xy).entries.map (·.1) = (pointVars d o p xy).map (loc d) := by
  unfold pointRow pointVars
  simp only
  split
  · rename_i hw
    have hs : d.lens.isSplined = false := by
      rcases h with h | h
      · exact h
      · linarith
    have h1 := camVars_cols d o.icamE fun _ => 0
    have h2 := point_pos_cols d o fun _ => 0
    simp only [List.map_append]
    rw [intrinsicsOutlierPoint_cols d o.icamI p xy hs, ← h1, ← h2]
    congr 1
    cases d.sel.extrinsics <;> by_cases h : o.icamE ≥ 0 <;> simp [h]
  · have h1 := camVars_cols d o.icamE fun k => if k < 3 then p.drcam xy k * o.weight * scaleRotCamera
      else p.dtcam xy (k - 3) * o.weight * scaleTransCamera
    have h2 := point_pos_cols d o fun k => p.dpoint xy k * o.weight * scalePoint
    simp only [List.map_append]
    rw [intrinsicsEntries_cols, ← h1, ← h2]
    congr 1

/-- Outlier points with a splined model: the columns are the first (order+1)^2 non-core intrinsics, not the
ones an inlier would use. -/
def pointVarsSplinedOutlier (d : Dims) (o : PointObs) (order : Nat) (xy : Nat) : List Var :=
  let core : Int := if d.sel.core then 4 else 0
  ((if d.sel.core then [.intrinsics o.icamI xy, .intrinsics o.icamI (xy + 2)] else []) ++
   (if d.sel.distortions then
     (loop ((order + 1) * (order + 1))).map fun i => Var.intrinsics o.icamI (core + i) else [])) ++
  camVars d o.icamE ++
  (if d.sel.frames ∧ o.ipoint < d.Npoints - d.NpointsFixed then
    (loop 3).map fun k => .point o.ipoint k else [])

theorem point_outlier_splined_columns (d : Dims) (o : PointObs) (p : Proj) (f : Nat → ℝ) (xy : Nat)
    (order Nx Ny fov : Nat) (hl : d.lens = .splined order Nx Ny fov) (hw : o.weight ≤ 0) :
    (pointRow d o p f xy).entries.map (·.1) = (pointVarsSplinedOutlier d o order xy).map (loc d) := by
  unfold pointRow pointVarsSplinedOutlier
  simp only [hw, if_true]
  have h1 := camVars_cols d o.icamE fun _ => 0
  have h2 := point_pos_cols d o fun _ => 0
  rw [List.map_append, List.map_append, List.map_append (l₂ := ite _ _ _), List.map_append (l₂ := camVars _ _),
    ← h1, ← h2]
  congr 1
  congr 1
  · unfold intrinsicsOutlierPoint
    rw [List.map_append, List.map_append]
    congr 1
    · cases d.sel.core <;> simp [loc, add_assoc]
    · rw [hl]
      cases d.sel.distortions
      · simp
      · simp only [if_true, List.map_map, Function.comp_def, loc, NcoreState, hl, Lens.hasCore, Bool.true_and]
        congr 1; funext i; ring
  · cases d.sel.extrinsics <;> by_cases h : o.icamE ≥ 0 <;> simp [h]

/-- C04. The Jacobian columns of a triangulated measurement: the poses of the two cameras. -/
theorem tri_columns (d : Dims) (o0 o1 : TriObs) (r : TriRes) (he : d.sel.extrinsics = true) :
    (triRow d o0 o1 r).entries.map (·.1) = (triVars d o0 o1).map (loc d) := by
  have : loop 6 = [0, 1, 2, 3, 4, 5] := by decide
  unfold triRow triVars camVars
  by_cases h0 : 0 ≤ o0.icamE <;> by_cases h1 : 0 ≤ o1.icamE <;> cases o0.outlier <;> cases o1.outlier <;>
    simp [h0, h1, he, store3, this, loc, add_assoc]

/-! ### These variables exist, and are listed in order -/

/-- the control points a splined projection reports are in the grid (the clamping in
_project_point_splined: C18) -/
def IvarOk (lens : Lens) (p : Proj) : Prop :=
  match lens with
  | .splined order Nx Ny _ => ∃ ix iy : Int, 0 ≤ ix ∧ ix + (order + 1) ≤ Nx ∧ 0 ≤ iy ∧ iy + (order + 1) ≤ Ny ∧
      p.ivar0 = 4 + 2 * (iy * Nx + ix)
  | _ => True

/-- the indices in the observations are valid (validated by the wrapper: C10) -/
structure IdxOk (c : Ctx) : Prop where
  wf : StateLayout.WF c.d
  boards : ∀ o ∈ c.boards, 0 ≤ o.icamI ∧ o.icamI < c.d.Nci ∧ o.icamE < c.d.Nce ∧
    0 ≤ o.iframe ∧ o.iframe < c.d.Nframes
  points : ∀ o ∈ c.points, 0 ≤ o.icamI ∧ o.icamI < c.d.Nci ∧ o.icamE < c.d.Nce ∧
    0 ≤ o.ipoint ∧ o.ipoint < c.d.Npoints
  tri : ∀ o ∈ c.tri, o.icamE < c.d.Nce
  projBoard : ∀ i j, IvarOk c.d.lens (c.projBoard i j)
  projPoint : ∀ i, IvarOk c.d.lens (c.projPoint i)
  grid : ∀ order Nx Ny fov, c.d.lens = .splined order Nx Ny fov → order + 1 ≤ Nx ∧ order + 1 ≤ Ny

/-- all the variables are being optimized, and are listed in the documented order -/
def Good (d : Dims) (vs : List Var) : Prop := (∀ v ∈ vs, Present d v) ∧ vs.Pairwise Before

theorem loop_sorted (n : Int) : (loop n).Pairwise (· < ·) := by
  unfold loop
  rw [List.pairwise_map]
  exact List.pairwise_lt_range.imp fun h => by simpa using h

/-- `rank` kinds -/
def kind (v : Var) : Int := (rank v).1

theorem Good.append {d : Dims} {a b : List Var} {k : Int} (ha : Good d a) (hb : Good d b)
    (h1 : ∀ v ∈ a, kind v < k) (h2 : ∀ v ∈ b, k ≤ kind v) : Good d (a ++ b) := by
  refine ⟨fun v hv => ?_, ?_⟩
  · rcases List.mem_append.1 hv with h | h
    · exact ha.1 v h
    · exact hb.1 v h
  · rw [List.pairwise_append]
    exact ⟨ha.2, hb.2, fun v hv w hw => Or.inl (by have := h1 v hv; have := h2 w hw; unfold kind at *; omega)⟩

theorem Good.nil (d : Dims) : Good d [] := ⟨by simp, by simp⟩

theorem good_loop {d : Dims} {n : Int} {f : Int → Var} (h1 : ∀ k, 0 ≤ k → k < n → Present d (f k))
    (h2 : ∀ k l, k < l → Before (f k) (f l)) : Good d ((loop n).map f) := by
  refine ⟨fun v hv => ?_, ?_⟩
  · obtain ⟨k, hk, rfl⟩ := List.mem_map.1 hv
    rw [mem_loop] at hk
    exact h1 k hk.1 hk.2
  · rw [List.pairwise_map]
    exact (loop_sorted n).imp fun h => h2 _ _ h

theorem camVars_good {d : Dims} {icam : Int} (h : icam < d.Nce) :
    Good d (camVars d icam) ∧ ∀ v ∈ camVars d icam, kind v = 1 := by
  unfold camVars
  split
  · rename_i hh
    refine ⟨good_loop (fun k h0 h1 => ⟨hh.1, hh.2, h, h0, h1⟩) (fun k l hkl => ?_), fun v hv => ?_⟩
    · simp [Before, rank]; omega
    · obtain ⟨k, -, rfl⟩ := List.mem_map.1 hv; rfl
  · exact ⟨Good.nil d, by simp⟩

theorem intrVars_good {d : Dims} {icam : Int} {p : Proj} {xy : Nat} (hxy : xy < 2)
    (h0 : 0 ≤ icam) (h1 : icam < d.Nci) (hp : IvarOk d.lens p) :
    Good d (intrVars d icam p xy) ∧ ∀ v ∈ intrVars d icam p xy, kind v = 0 := by
  have h4 := numParams_ge4 d.lens
  -- all the variables are `intrinsics icam k`; talk about the k
  have key : ∃ ks : List Int, intrVars d icam p xy = ks.map (Var.intrinsics icam) ∧
      (∀ k ∈ ks, 0 ≤ k ∧ k < specIntrinsicsPerCamera d.sel d.lens) ∧ ks.Pairwise (· < ·) := by
    unfold intrVars specIntrinsicsPerCamera
    -- the distortions
    have dist : ∀ core : Int, 0 ≤ core → ∃ ks : List Int,
        (match d.lens with
          | .splined order Nx _ _ =>
            (loop (order + 1)).flatMap fun iy => (loop (order + 1)).map fun ix =>
              Var.intrinsics icam (core + (p.ivar0 - 4) + 2 * (iy * Nx + ix) + xy)
          | lens => (loop (lens.numParams - 4)).map fun i => .intrinsics icam (core + i)) =
          ks.map (Var.intrinsics icam) ∧
        (∀ k ∈ ks, core ≤ k ∧ k < core + (d.lens.numParams - 4)) ∧ ks.Pairwise (· < ·) := by
      intro core hcore
      cases hl : d.lens with
      | splined order Nx Ny fov =>
        rw [hl] at hp
        obtain ⟨ix0, iy0, a1, a2, a3, a4, e⟩ := hp
        refine ⟨(loop (order + 1)).flatMap fun iy => (loop (order + 1)).map fun ix =>
            core + (p.ivar0 - 4) + 2 * (iy * Nx + ix) + xy, ?_, ?_, ?_⟩
        · simp [List.map_flatMap, Function.comp_def]
        · intro k hk
          simp only [List.mem_flatMap, List.mem_map, mem_loop] at hk
          obtain ⟨iy, hiy, ix, hix, rfl⟩ := hk
          rw [e]
          simp only [Lens.numParams]
          have q1 : 0 ≤ (iy0 + iy) * (Nx : Int) := mul_nonneg (by omega) (by omega)
          have q2 : (iy0 + iy) * (Nx : Int) ≤ ((Ny : Int) - 1) * Nx :=
            mul_le_mul_of_nonneg_right (by omega) (by omega)
          have q3 : core + (4 + 2 * (iy0 * (Nx : Int) + ix0) - 4) + 2 * (iy * Nx + ix) + xy =
              core + 2 * ((iy0 + iy) * Nx) + 2 * (ix0 + ix) + xy := by ring
          have q4 : ((Nx : Int) * Ny * 2 + 4 - 4) = 2 * (((Ny : Int) - 1) * Nx) + 2 * Nx := by ring
          rw [q3]
          constructor
          · omega
          · push_cast
            rw [q4]; omega
        · rw [List.pairwise_flatMap]
          constructor
          · intro iy _
            rw [List.pairwise_map]
            exact (loop_sorted _).imp fun h => by omega
          · refine (loop_sorted _).imp fun {iy iy'} h => ?_
            intro x hx y hy
            simp only [List.mem_map, mem_loop] at hx hy
            obtain ⟨ix, hix, rfl⟩ := hx
            obtain ⟨ix', hix', rfl⟩ := hy
            have : (iy + 1) * (Nx : Int) ≤ iy' * Nx := mul_le_mul_of_nonneg_right (by omega) (by omega)
            have e2 : (iy + 1) * (Nx : Int) = iy * Nx + Nx := by ring
            omega
      | _ =>
        refine ⟨(loop _).map fun i => core + i, by rw [List.map_map]; rfl, ?_, ?_⟩
        · intro k hk
          simp only [List.mem_map, mem_loop] at hk
          obtain ⟨i, hi, rfl⟩ := hk
          omega
        · rw [List.pairwise_map]
          exact (loop_sorted _).imp fun h => by omega
    cases hc : d.sel.core <;> cases hd : d.sel.distortions
    · exact ⟨[], rfl, by simp, by simp⟩
    · obtain ⟨ks, e, b, s⟩ := dist 0 le_rfl
      refine ⟨ks, by simpa using e, fun k hk => ?_, s⟩
      have := b k hk
      simp; omega
    · refine ⟨[(xy : Int), (xy : Int) + 2], by simp, fun k hk => ?_, by simp⟩
      simp at hk ⊢
      omega
    · obtain ⟨ks, e, b, s⟩ := dist 4 (by decide)
      refine ⟨(xy : Int) :: ((xy : Int) + 2) :: ks, ?_, fun k hk => ?_, ?_⟩
      · simp only [if_true] at e ⊢
        rw [e]; simp
      · simp only [List.mem_cons] at hk
        simp only [if_true]
        rcases hk with rfl | rfl | hk
        · omega
        · omega
        · have := b k hk; omega
      · simp only [List.pairwise_cons]
        refine ⟨fun k hk => ?_, fun k hk => ?_, s⟩
        · simp only [List.mem_cons] at hk
          rcases hk with rfl | hk
          · omega
          · have := b k hk; omega
        · have := b k hk; omega
  obtain ⟨ks, e, b, s⟩ := key
  rw [e]
  refine ⟨⟨fun v hv => ?_, ?_⟩, fun v hv => ?_⟩
  · obtain ⟨k, hk, rfl⟩ := List.mem_map.1 hv
    exact ⟨h0, h1, (b k hk).1, (b k hk).2⟩
  · rw [List.pairwise_map]
    refine s.imp fun h => ?_
    simp [Before, rank]; omega
  · obtain ⟨k, -, rfl⟩ := List.mem_map.1 hv; rfl

theorem frameVars_good {d : Dims} {i : Int} (h0 : 0 ≤ i) (h1 : i < d.Nframes) :
    Good d (if d.sel.frames = true then (loop 6).map fun k => Var.frame i k else []) ∧
    ∀ v ∈ (if d.sel.frames = true then (loop 6).map fun k => Var.frame i k else []), kind v = 2 := by
  split
  · rename_i hh
    refine ⟨good_loop (fun k a b => ⟨hh, h0, h1, a, b⟩) (fun k l hkl => ?_), fun v hv => ?_⟩
    · simp [Before, rank]; omega
    · obtain ⟨k, -, rfl⟩ := List.mem_map.1 hv; rfl
  · exact ⟨Good.nil d, by simp⟩

theorem pointPosVars_good {d : Dims} {i : Int} (h0 : 0 ≤ i) :
    Good d (if d.sel.frames = true ∧ i < d.Npoints - d.NpointsFixed then
      (loop 3).map fun k => Var.point i k else []) ∧
    ∀ v ∈ (if d.sel.frames = true ∧ i < d.Npoints - d.NpointsFixed then
      (loop 3).map fun k => Var.point i k else []), kind v = 3 := by
  split
  · rename_i hh
    refine ⟨good_loop (fun k a b => ⟨hh.1, h0, hh.2, a, b⟩) (fun k l hkl => ?_), fun v hv => ?_⟩
    · simp [Before, rank]; omega
    · obtain ⟨k, -, rfl⟩ := List.mem_map.1 hv; rfl
  · exact ⟨Good.nil d, by simp⟩

theorem warpVars_good (d : Dims) :
    Good d (if d.sel.warp = true ∧ 0 < d.Nob then (loop 2).map fun k => Var.warp k else []) ∧
    ∀ v ∈ (if d.sel.warp = true ∧ 0 < d.Nob then (loop 2).map fun k => Var.warp k else []), kind v = 4 := by
  split
  · rename_i hh
    refine ⟨good_loop (fun k a b => ⟨hh.1, hh.2, a, b⟩) (fun k l hkl => ?_), fun v hv => ?_⟩
    · simp [Before, rank]; omega
    · obtain ⟨k, -, rfl⟩ := List.mem_map.1 hv; rfl
  · exact ⟨Good.nil d, by simp⟩

theorem boardVars_good {d : Dims} {o : BoardObs} {p : Proj} {xy : Nat} (hxy : xy < 2)
    (h : 0 ≤ o.icamI ∧ o.icamI < d.Nci ∧ o.icamE < d.Nce ∧ 0 ≤ o.iframe ∧ o.iframe < d.Nframes)
    (hp : IvarOk d.lens p) : Good d (boardVars d o p xy) := by
  obtain ⟨h1, h2, h3, h4, h5⟩ := h
  obtain ⟨a, a'⟩ := intrVars_good hxy h1 h2 hp
  obtain ⟨b, b'⟩ := camVars_good h3
  obtain ⟨c, c'⟩ := frameVars_good (d := d) h4 h5
  obtain ⟨e, e'⟩ := warpVars_good d
  unfold boardVars
  refine ((a.append b (k := 1) ?_ ?_).append c (k := 2) ?_ ?_).append e (k := 4) ?_ ?_
  · intro v hv; rw [a' v hv]; decide
  · intro v hv; rw [b' v hv]
  · intro v hv
    rcases List.mem_append.1 hv with hv | hv
    · rw [a' v hv]; decide
    · rw [b' v hv]; decide
  · intro v hv; rw [c' v hv]
  · intro v hv
    rcases List.mem_append.1 hv with hv | hv
    · rcases List.mem_append.1 hv with hv | hv
      · rw [a' v hv]; decide
      · rw [b' v hv]; decide
    · rw [c' v hv]; decide
  · intro v hv; rw [e' v hv]

theorem pointTail_good {d : Dims} {o : PointObs} {iv : List Var} (a : Good d iv)
    (a' : ∀ v ∈ iv, kind v = 0) (h3 : o.icamE < d.Nce) (h4 : 0 ≤ o.ipoint) :
    Good d (iv ++ camVars d o.icamE ++
      (if d.sel.frames ∧ o.ipoint < d.Npoints - d.NpointsFixed then
        (loop 3).map fun k => .point o.ipoint k else [])) := by
  obtain ⟨b, b'⟩ := camVars_good h3
  obtain ⟨c, c'⟩ := pointPosVars_good (d := d) h4
  refine (a.append b (k := 1) ?_ ?_).append c (k := 2) ?_ ?_
  · intro v hv; rw [a' v hv]; decide
  · intro v hv; rw [b' v hv]
  · intro v hv
    rcases List.mem_append.1 hv with hv | hv
    · rw [a' v hv]; decide
    · rw [b' v hv]; decide
  · intro v hv; rw [c' v hv]; decide

/-- good variables make good columns -/
theorem good_cols {d : Dims} (wf : StateLayout.WF d) {vs : List Var} {cols : List Int} (h : Good d vs)
    (e : cols = vs.map (loc d)) :
    (∀ c ∈ cols, ∃ v, Present d v ∧ loc d v = c) ∧ cols.Pairwise (· < ·) := by
  subst e
  refine ⟨fun c hc => ?_, ?_⟩
  · obtain ⟨v, hv, rfl⟩ := List.mem_map.1 hc
    exact ⟨v, h.1 v hv, rfl⟩
  · rw [List.pairwise_map]
    refine h.2.imp_of_mem fun {v w} hv hw hb => state_loc_strictMono d wf v w (h.1 v hv) (h.1 w hw) hb

theorem mem_boardRows {c : Ctx} {r : Row} (h : r ∈ boardRows c) :
    ∃ o ∈ c.boards, ∃ i ipt xy, xy < 2 ∧
      r = boardRow c.d o (c.projBoard i ipt) (fun k => c.intrinsics o.icamI k) ipt xy := by
  simp only [boardRows, List.mem_flatMap, List.mem_map] at h
  obtain ⟨⟨o, i⟩, ho, ipt, -, xy, hxy, rfl⟩ := h
  have := List.mem_zipIdx ho
  refine ⟨o, List.fst_mem_of_mem_zipIdx ho, i, ipt, xy, ?_, rfl⟩
  simp at hxy; omega

theorem mem_pointRows {c : Ctx} {r : Row} (h : r ∈ pointRows c) :
    ∃ o ∈ c.points, ∃ i xy, xy < 2 ∧
      r = pointRow c.d o (c.projPoint i) (fun k => c.intrinsics o.icamI k) xy := by
  simp only [pointRows, List.mem_flatMap, List.mem_map] at h
  obtain ⟨⟨o, i⟩, ho, xy, hxy, rfl⟩ := h
  refine ⟨o, List.fst_mem_of_mem_zipIdx ho, i, xy, ?_, rfl⟩
  simp at hxy; omega

theorem point_good {c : Ctx} (ok : IdxOk c) {o : PointObs} (ho : o ∈ c.points) (i xy : Nat) (hxy : xy < 2) :
    ∃ vs, Good c.d vs ∧
      (pointRow c.d o (c.projPoint i) (fun k => c.intrinsics o.icamI k) xy).entries.map (·.1) =
        vs.map (loc c.d) := by
  obtain ⟨h1, h2, h3, h4, -⟩ := ok.points o ho
  by_cases h : c.d.lens.isSplined = false ∨ 0 < o.weight
  · obtain ⟨a, a'⟩ := intrVars_good hxy h1 h2 (ok.projPoint i)
    exact ⟨_, pointTail_good a a' h3 h4, point_columns _ _ _ _ _ h⟩
  · push Not at h
    obtain ⟨hs, hw⟩ := h
    cases hl : c.d.lens with
    | splined order Nx Ny fov =>
      refine ⟨_, ?_, point_outlier_splined_columns _ _ _ _ _ order Nx Ny fov hl hw⟩
      obtain ⟨g1, g2⟩ := ok.grid _ _ _ _ hl
      have hrun : ((order : Int) + 1) * (order + 1) ≤ 2 * Nx * Ny := by
        have : (order + 1) * (order + 1) ≤ Nx * Ny := Nat.mul_le_mul g1 g2
        zify at this
        nlinarith [(by positivity : (0 : Int) ≤ (Nx : Int) * Ny)]
      unfold pointVarsSplinedOutlier
      refine pointTail_good ?_ ?_ h3 h4
      · have hspec : specIntrinsicsPerCamera c.d.sel c.d.lens =
            (if c.d.sel.core then 4 else 0) + (if c.d.sel.distortions then 2 * (Nx : Int) * Ny else 0) := by
          simp only [specIntrinsicsPerCamera, hl, Lens.numParams]
          congr 2; ring
        have hk : ∀ k, 0 ≤ k → k < specIntrinsicsPerCamera c.d.sel c.d.lens →
            Present c.d (.intrinsics o.icamI k) := fun k a b => ⟨h1, h2, a, b⟩
        rw [hspec] at hk
        have hpos : (0 : Int) ≤ 2 * Nx * Ny := by positivity
        cases hc : c.d.sel.core <;> cases hd : c.d.sel.distortions <;>
          rw [hc, hd] at hk <;>
          simp only [hc, hd, if_true, if_false, Bool.false_eq_true, List.nil_append, List.append_nil] at hk ⊢
        · exact Good.nil _
        · exact good_loop (fun k a b => hk _ (by omega) (by omega)) (fun k l h => by simp [Before, rank]; omega)
        · refine ⟨fun v hv => ?_, ?_⟩
          · simp at hv
            rcases hv with rfl | rfl <;> exact hk _ (by omega) (by omega)
          · simp [Before, rank]
        · obtain ⟨q1, q2⟩ := good_loop (d := c.d) (n := ((order : Int) + 1) * (order + 1))
            (f := fun i => .intrinsics o.icamI (4 + i))
            (fun k a b => hk _ (by omega) (by omega)) (fun k l h => by simp [Before, rank]; omega)
          refine ⟨fun v hv => ?_, ?_⟩
          · simp only [List.mem_append, List.mem_cons, List.not_mem_nil, or_false] at hv
            rcases hv with (rfl | rfl) | hv
            · exact hk _ (by omega) (by omega)
            · exact hk _ (by omega) (by omega)
            · exact q1 v hv
          · rw [List.pairwise_append]
            refine ⟨by simp [Before, rank], q2, fun v hv w hw => ?_⟩
            simp only [List.mem_map, mem_loop] at hw
            obtain ⟨i, hi, rfl⟩ := hw
            simp only [List.mem_cons, List.not_mem_nil, or_false] at hv
            rcases hv with rfl | rfl <;> simp [Before, rank] <;> omega
      · intro v hv
        cases hc : c.d.sel.core <;> cases hd : c.d.sel.distortions <;> simp [hc, hd] at hv
        · obtain ⟨k, -, rfl⟩ := hv; rfl
        · rcases hv with rfl | rfl <;> rfl
        · rcases hv with rfl | rfl | ⟨k, -, rfl⟩ <;> rfl
    | _ => simp [hl, Lens.isSplined] at hs

/-! ### Regularization -/

theorem reg_good {c : Ctx} (ok : IdxOk c) {r : Row}
    (h : r ∈ regDistortionRows c ++ regCenterRows c ++ regUnityRows c) :
    ∃ vs, Good c.d vs ∧ r.entries.map (·.1) = vs.map (loc c.d) := by
  have h4 := numParams_ge4 c.d.lens
  simp only [List.mem_append] at h
  rcases h with (h | h) | h
  · unfold regDistortionRows at h
    split at h
    · rename_i hsel
      simp only [Bool.and_eq_true] at hsel
      have hk : ∀ icam k, 0 ≤ icam → icam < c.d.Nci → 0 ≤ k → k < c.d.lens.numParams - 4 →
          Present c.d (.intrinsics icam (NcoreState c.d + k)) := by
        intro icam k a1 a2 a3 a4
        refine ⟨a1, a2, ?_, ?_⟩
        · unfold NcoreState; split <;> omega
        · simp only [specIntrinsicsPerCamera, hsel.2, NcoreState, show c.d.lens.hasCore = true from rfl,
            Bool.true_and]
          cases c.d.sel.core <;> simp <;> omega
      cases hl : c.d.lens with
      | splined order Nx Ny fov =>
        simp only [hl, List.mem_flatMap, mem_loop, knotRows, List.mem_cons, List.not_mem_nil, or_false] at h
        obtain ⟨icam, hic, iy, hiy, ix, hix, h⟩ := h
        have q1 : iy * (Nx : Int) ≤ ((Ny : Int) - 1) * Nx := mul_le_mul_of_nonneg_right (by omega) (by omega)
        have q2 : 0 ≤ iy * (Nx : Int) := mul_nonneg (by omega) (by omega)
        have q3 : ((Nx : Int) * Ny * 2 + 4 - 4) = 2 * (((Ny : Int) - 1) * Nx) + 2 * Nx := by ring
        have hk0 := hk icam (2 * (iy * Nx + ix)) hic.1 hic.2 (by omega)
          (by rw [hl]; simp only [Lens.numParams]; rw [q3]; omega)
        have hk1 := hk icam (2 * (iy * Nx + ix) + 1) hic.1 hic.2 (by omega)
          (by rw [hl]; simp only [Lens.numParams]; rw [q3]; omega)
        refine ⟨[.intrinsics icam (NcoreState c.d + 2 * (iy * Nx + ix)),
          .intrinsics icam (NcoreState c.d + (2 * (iy * Nx + ix) + 1))], ⟨?_, ?_⟩, ?_⟩
        · intro v hv
          simp at hv
          rcases hv with rfl | rfl
          · exact hk0
          · exact hk1
        · simp [Before, rank]
        · rcases h with rfl | rfl <;> simp [loc] <;> omega
      | _ =>
        simp only [hl, List.mem_flatMap, mem_loop, List.mem_map] at h
        obtain ⟨icam, hic, k, hkk, rfl⟩ := h
        refine ⟨[.intrinsics icam (NcoreState c.d + k)], ⟨?_, by simp⟩, by simp [loc, add_assoc]⟩
        intro v hv
        simp at hv; subst hv
        refine hk icam k hic.1 hic.2 hkk.1 ?_
        rw [hl]
        have := hkk.2
        simp only [Ncore, Lens.hasCore] at this
        simpa using this
    · simp at h
  · unfold regCenterRows at h
    split at h
    · rename_i hsel
      simp only [Bool.and_eq_true] at hsel
      simp only [List.mem_flatMap, mem_loop, List.mem_cons, List.not_mem_nil, or_false] at h
      obtain ⟨icam, hic, h⟩ := h
      have hk : ∀ k, 0 ≤ k → k < 4 → Present c.d (.intrinsics icam k) := by
        intro k a b
        refine ⟨hic.1, hic.2, a, ?_⟩
        simp only [specIntrinsicsPerCamera, hsel.2, if_true]
        split <;> omega
      rcases h with rfl | rfl
      · refine ⟨[.intrinsics icam 2], ⟨?_, by simp⟩, by simp [loc]⟩
        intro v hv; simp at hv; subst hv; exact hk 2 (by decide) (by decide)
      · refine ⟨[.intrinsics icam 3], ⟨?_, by simp⟩, by simp [loc]⟩
        intro v hv; simp at hv; subst hv; exact hk 3 (by decide) (by decide)
    · simp at h
  · unfold regUnityRows at h
    split at h
    · rename_i hsel
      simp only [Bool.and_eq_true, decide_eq_true_eq] at hsel
      simp only [List.mem_cons, List.not_mem_nil, or_false] at h
      subst h
      refine ⟨(loop 3).map fun k => .extrinsics 0 (3 + k), ?_, ?_⟩
      · exact good_loop (fun k a b => ⟨hsel.1.2, by omega, hsel.2, by omega, by omega⟩)
          (fun k l h => by simp [Before, rank]; omega)
      · simp [loc, Function.comp_def, add_assoc]
    · simp at h

/-! ### Triangulated rows -/

theorem triRowsInner_eq (d : Dims) (res : Nat → Nat → TriRes) (all : List TriObs) (o0 : TriObs) (i0 : Nat)
    (h0 : all[i0]? = some o0) (l : List TriObs) (i1 : Nat) (hl : all.drop i1 = l) :
    triRowsInner d res o0 i0 i1 l = (triPairsInner i0 i1 l).map fun ps => ps.map fun p =>
      triRow d (all[p.1.toNat]?.getD ⟨false, false, 0, 0⟩) (all[p.2.toNat]?.getD ⟨false, false, 0, 0⟩)
        (res p.1.toNat p.2.toNat) := by
  induction l generalizing i1 with
  | nil => rfl
  | cons o os ih =>
    have ho : all[i1]? = some o := by
      have := congrArg (·[0]?) hl
      simpa using this
    have hos : all.drop (i1 + 1) = os := by
      rw [← List.tail_drop, hl]; rfl
    by_cases h : o.last
    · simp [triRowsInner, triPairsInner, h, h0, ho]
    · have := ih (i1 + 1) hos
      push_cast at this
      simp only [triRowsInner, triPairsInner, h, this]
      simp [h0, ho, Function.comp_def]

theorem triRows_eq (d : Dims) (res : Nat → Nat → TriRes) (all : List TriObs) (l : List TriObs) (i0 : Nat)
    (hl : all.drop i0 = l) :
    triRows d res i0 l = (triPairs i0 l).map fun ps => ps.map fun p =>
      triRow d (all[p.1.toNat]?.getD ⟨false, false, 0, 0⟩) (all[p.2.toNat]?.getD ⟨false, false, 0, 0⟩)
        (res p.1.toNat p.2.toNat) := by
  induction l generalizing i0 with
  | nil => rfl
  | cons o os ih =>
    have ho : all[i0]? = some o := by
      have := congrArg (·[0]?) hl
      simpa using this
    have hos : all.drop (i0 + 1) = os := by
      rw [← List.tail_drop, hl]; rfl
    have h1 := ih (i0 + 1) hos
    have h2 := triRowsInner_eq d res all o i0 ho os (i0 + 1) hos
    push_cast at h1 h2
    by_cases h : o.last
    · simp [triRows, triPairs, h, h1]
    · simp only [triRows, triPairs, h, h1, h2]
      cases triPairsInner (i0 : Int) (i0 + 1) os <;> cases triPairs ((i0 : Int) + 1) os <;> simp

/-- C45. The triangulated residuals written by the callback are those of the pairs of observations, in the
order reported by the pairing (which is what decoding inverts, see C08). -/
theorem tri_rows_are_pairs (c : Ctx) (ps : List (Int × Int)) (rows : List Row)
    (hp : triPairs 0 c.tri = some ps) (hr : triRows c.d c.projTri 0 c.tri = some rows) (m : Nat)
    (i j : Nat) (hm : ps[m]? = some ((i : Int), (j : Int))) :
    ∃ o0 o1, c.tri[i]? = some o0 ∧ c.tri[j]? = some o1 ∧ rows[m]? = some (triRow c.d o0 o1 (c.projTri i j)) := by
  have e := triRows_eq c.d c.projTri c.tri c.tri 0 rfl
  simp only [Nat.cast_zero] at e
  rw [hr, hp] at e
  simp only [Option.map_some, Option.some.injEq] at e
  obtain ⟨hmem, -⟩ := pairs_mem hp
  have : ((i : Int), (j : Int)) ∈ ps := List.mem_of_getElem? hm
  obtain ⟨i', j', he, hs⟩ := (hmem _).1 this
  simp at he
  obtain ⟨rfl, rfl⟩ := he
  have hj : j < c.tri.length := hs.2.1
  have hi : i < c.tri.length := by have := hs.1; omega
  refine ⟨c.tri[i], c.tri[j], by simp, by simp, ?_⟩
  rw [e, List.getElem?_map, hm]
  simp [hi, hj]

theorem mem_triRows {c : Ctx} {rows : List Row} (h : triRows c.d c.projTri 0 c.tri = some rows) {r : Row}
    (hr : r ∈ rows) : ∃ i j o0 o1, SameSet c.tri i j ∧ c.tri[i]? = some o0 ∧ c.tri[j]? = some o1 ∧
      r = triRow c.d o0 o1 (c.projTri i j) := by
  have e := triRows_eq c.d c.projTri c.tri c.tri 0 rfl
  simp only [Nat.cast_zero] at e
  rw [h] at e
  cases hp : triPairs 0 c.tri with
  | none => simp [hp] at e
  | some ps =>
    simp only [hp, Option.map_some, Option.some.injEq] at e
    rw [e] at hr
    obtain ⟨p, hpm, rfl⟩ := List.mem_map.1 hr
    obtain ⟨i, j, rfl, hs⟩ := ((pairs_mem hp).1 p).1 hpm
    have hj : j < c.tri.length := hs.2.1
    have hi : i < c.tri.length := by have := hs.1; omega
    refine ⟨i, j, c.tri[i], c.tri[j], hs, by simp, by simp, ?_⟩
    simp [hi, hj]

/-! ### The properties -/

/-- In each set of triangulated observations, the non-reference cameras appear in increasing order -/
def TriOrdered (tri : List TriObs) : Prop := ∀ i j o0 o1, SameSet tri i j → tri[i]? = some o0 →
  tri[j]? = some o1 → o0.icamE < 0 ∨ o1.icamE < 0 ∨ o0.icamE < o1.icamE

/-- C04 (range). Every Jacobian column index refers to a variable that's being optimized, and so is inside
the state vector. -/
theorem callback_columns_in_range (c : Ctx) (ok : CtxOk c) (idx : IdxOk c) (out : Out)
    (ho : optimizerCallback c = some out) :
    ∀ col ∈ out.cols, (∃ v, Present c.d v ∧ loc c.d v = col) ∧ 0 ≤ col ∧ col < numStates c.d := by
  intro col hcol
  suffices h : ∃ v, Present c.d v ∧ loc c.d v = col by
    obtain ⟨v, hv, rfl⟩ := h
    exact ⟨⟨v, hv, rfl⟩, state_loc_in_range c.d idx.wf v hv⟩
  obtain ⟨rows, h1, -, -⟩ := allRows_counts c ok
  rw [optimizerCallback, h1, Option.map_some] at ho
  obtain rfl := Option.some.inj ho
  simp only [foldl_emit, List.nil_append, List.mem_flatMap] at hcol
  obtain ⟨r, hr, hcol⟩ := hcol
  rw [allRows] at h1
  cases ht : triRows c.d c.projTri 0 c.tri with
  | none => simp [ht] at h1
  | some trows =>
  rw [ht, Option.map_some] at h1
  obtain rfl := Option.some.inj h1
  rw [List.mem_append, List.mem_append, List.mem_append] at hr
  rcases hr with ((hr | hr) | hr) | hr
  · obtain ⟨o, ho, i, ipt, xy, hxy, rfl⟩ := mem_boardRows hr
    exact (good_cols idx.wf (boardVars_good hxy (idx.boards o ho) (idx.projBoard i ipt))
      (board_columns _ _ _ _ _ _)).1 col hcol
  · obtain ⟨o, ho, i, xy, hxy, rfl⟩ := mem_pointRows hr
    obtain ⟨vs, g, e⟩ := point_good idx ho i xy hxy
    exact (good_cols idx.wf g e).1 col hcol
  · obtain ⟨i, j, o0, o1, hs, h0, h1, rfl⟩ := mem_triRows ht hr
    have hne : c.tri ≠ [] := by rintro h; simp [h] at h0
    rw [tri_columns _ _ _ _ (ok.triSel hne).2.2, triVars, List.map_append, List.mem_append] at hcol
    rcases hcol with hcol | hcol
    · exact (good_cols idx.wf (camVars_good (idx.tri o0 (List.mem_of_getElem? h0))).1 rfl).1 col hcol
    · exact (good_cols idx.wf (camVars_good (idx.tri o1 (List.mem_of_getElem? h1))).1 rfl).1 col hcol
  · obtain ⟨vs, g, e⟩ := reg_good idx hr
    exact (good_cols idx.wf g e).1 col hcol

/-- C04 (order). In each row the column indices are strictly increasing, as the solver is told, if each
triangulated point lists its non-reference cameras in increasing order. (See
`tri_columns_not_sorted` for what happens otherwise.) -/
theorem callback_columns_sorted_partial (c : Ctx) (ok : CtxOk c) (idx : IdxOk c) (ord : TriOrdered c.tri)
    (rows : List Row) (hr : allRows c = some rows) :
    ∀ r ∈ rows, (r.entries.map (·.1)).Pairwise (· < ·) := by
  intro r hrm
  rw [allRows] at hr
  cases ht : triRows c.d c.projTri 0 c.tri with
  | none => simp [ht] at hr
  | some trows =>
  rw [ht, Option.map_some] at hr
  obtain rfl := Option.some.inj hr
  rw [List.mem_append, List.mem_append, List.mem_append] at hrm
  rcases hrm with ((hr | hr) | hr) | hr
  · obtain ⟨o, ho, i, ipt, xy, hxy, rfl⟩ := mem_boardRows hr
    exact (good_cols idx.wf (boardVars_good hxy (idx.boards o ho) (idx.projBoard i ipt))
      (board_columns _ _ _ _ _ _)).2
  · obtain ⟨o, ho, i, xy, hxy, rfl⟩ := mem_pointRows hr
    obtain ⟨vs, g, e⟩ := point_good idx ho i xy hxy
    exact (good_cols idx.wf g e).2
  · obtain ⟨i, j, o0, o1, hs, h0, h1, rfl⟩ := mem_triRows ht hr
    have hne : c.tri ≠ [] := by rintro h; simp [h] at h0
    rw [tri_columns _ _ _ _ (ok.triSel hne).2.2]
    obtain ⟨g0, -⟩ := camVars_good (idx.tri o0 (List.mem_of_getElem? h0))
    obtain ⟨g1, -⟩ := camVars_good (idx.tri o1 (List.mem_of_getElem? h1))
    refine (good_cols idx.wf (vs := triVars c.d o0 o1) ⟨?_, ?_⟩ rfl).2
    · intro v hv
      rcases List.mem_append.1 hv with h | h
      · exact g0.1 v h
      · exact g1.1 v h
    · rw [triVars, List.pairwise_append]
      refine ⟨g0.2, g1.2, fun v hv w hw => ?_⟩
      have hord := ord i j o0 o1 hs h0 h1
      unfold camVars at hv hw
      split at hv
      · split at hw
        · rename_i a b
          obtain ⟨k, -, rfl⟩ := List.mem_map.1 hv
          obtain ⟨l, -, rfl⟩ := List.mem_map.1 hw
          simp [Before, rank]; omega
        · simp at hw
      · simp at hv
  · obtain ⟨vs, g, e⟩ := reg_good idx hr
    exact (good_cols idx.wf g e).2

/-- C04 (deviation). If the two cameras of a triangulated pair aren't at the reference, and aren't listed in
increasing order, then the columns of that row are *not* strictly increasing, although the matrix is declared
sorted. Nothing validates this ordering. -/
theorem tri_columns_not_sorted (d : Dims) (he : d.sel.extrinsics = true)
    (o0 o1 : TriObs) (r : TriRes)
    (h0 : 0 ≤ o0.icamE) (h0' : o0.icamE < d.Nce) (h1 : 0 ≤ o1.icamE) (hle : o1.icamE ≤ o0.icamE) :
    ¬ ((triRow d o0 o1 r).entries.map (·.1)).Pairwise (· < ·) := by
  rw [tri_columns _ _ _ _ he, triVars, List.map_append, List.pairwise_append]
  rintro ⟨-, -, h⟩
  have hv : loc d (.extrinsics o0.icamE 0) ∈ (camVars d o0.icamE).map (loc d) := by
    apply List.mem_map_of_mem
    unfold camVars
    rw [if_pos ⟨he, h0⟩]
    exact List.mem_map.2 ⟨0, mem_loop.2 (by decide), rfl⟩
  have hw : loc d (.extrinsics o1.icamE 0) ∈ (camVars d o1.icamE).map (loc d) := by
    apply List.mem_map_of_mem
    unfold camVars
    rw [if_pos ⟨he, h1⟩]
    exact List.mem_map.2 ⟨0, mem_loop.2 (by decide), rfl⟩
  have := h _ hv _ hw
  rw [extr_loc (d := d) (i := o0.icamE) ⟨he, h0, h0', by decide, by decide⟩,
    extr_loc (d := d) (i := o1.icamE) ⟨he, h1, by omega, by decide, by decide⟩] at this
  omega

/-! ### C05 -/

/-- C05. An outlier contributes exactly nothing: zero residual, zero gradients. -/
theorem outlier_contributes_nothing (d : Dims) (f : Nat → ℝ) (xy : Nat) (p : Proj) :
    (∀ (o : BoardObs) ipt, o.weight ipt < 0 →
      (boardRow d o p f ipt xy).x = 0 ∧ ∀ e ∈ (boardRow d o p f ipt xy).entries, e.2 = 0) ∧
    (∀ o : PointObs, o.weight ≤ 0 →
      (pointRow d o p f xy).x = 0 ∧ ∀ e ∈ (pointRow d o p f xy).entries, e.2 = 0) ∧
    (∀ (o0 o1 : TriObs) r, (o0.outlier = true ∨ o1.outlier = true) →
      (triRow d o0 o1 r).x = 0 ∧ ∀ e ∈ (triRow d o0 o1 r).entries, e.2 = 0) := by
  have hib : ∀ iv, ∀ e ∈ intrinsicsOutlierBoard d iv p xy, e.2 = 0 := by
    intro iv e he
    unfold intrinsicsOutlierBoard at he
    rw [List.mem_append] at he
    rcases he with he | he
    · split at he
      · simp at he; rcases he with rfl | rfl <;> rfl
      · simp at he
    · split at he
      · cases hl : d.lens <;> simp only [hl, storeSpline, List.mem_flatMap, List.mem_map] at he
        all_goals first
          | (obtain ⟨_, -, _, -, rfl⟩ := he; rfl)
          | (obtain ⟨_, -, rfl⟩ := he; rfl)
      · simp at he
  have hip : ∀ iv, ∀ e ∈ intrinsicsOutlierPoint d iv xy, e.2 = 0 := by
    intro iv e he
    unfold intrinsicsOutlierPoint at he
    rw [List.mem_append] at he
    rcases he with he | he
    · split at he
      · simp at he; rcases he with rfl | rfl <;> rfl
      · simp at he
    · split at he
      · cases hl : d.lens <;> simp only [hl, List.mem_map] at he
        all_goals (obtain ⟨_, -, rfl⟩ := he; rfl)
      · simp at he
  have h3 : ∀ col, ∀ e ∈ store3 col 0 0 0, e.2 = 0 := by
    intro col e he
    simp [store3] at he
    rcases he with rfl | rfl | rfl <;> rfl
  refine ⟨fun o ipt hw => ?_, fun o hw => ?_, fun o0 o1 r h => ?_⟩
  · unfold boardRow
    simp only [not_le.2 hw, ge_iff_le, if_false]
    refine ⟨trivial, fun e he => ?_⟩
    simp only [List.mem_append] at he
    rcases he with ((he | he) | he) | he
    · exact hib _ e he
    · split at he
      · split at he
        · rcases List.mem_append.1 he with he | he <;> exact h3 _ e he
        · simp at he
      · simp at he
    · split at he
      · rcases List.mem_append.1 he with he | he <;> exact h3 _ e he
      · simp at he
    · split at he
      · obtain ⟨_, -, rfl⟩ := List.mem_map.1 he; rfl
      · simp at he
  · unfold pointRow
    simp only [hw, if_true]
    refine ⟨trivial, fun e he => ?_⟩
    simp only [List.mem_append] at he
    rcases he with (he | he) | he
    · exact hip _ e he
    · split at he
      · rcases List.mem_append.1 he with he | he <;> exact h3 _ e he
      · simp at he
    · split at he
      · exact h3 _ e he
      · simp at he
  · have hz : ∀ b0 b1 : Prop, [Decidable b0] → [Decidable b1] → ∀ i0 i1, ∀ e ∈
        (if b0 then store3 (i0 + 0) 0 0 0 ++ store3 (i0 + 3) 0 0 0 else []) ++
        (if b1 then store3 (i1 + 0) 0 0 0 ++ store3 (i1 + 3) 0 0 0 else []), e.2 = 0 := by
      intro b0 b1 _ _ i0 i1 e he
      rcases List.mem_append.1 he with he | he <;> split at he
      · rcases List.mem_append.1 he with he | he <;> exact h3 _ e he
      · simp at he
      · rcases List.mem_append.1 he with he | he <;> exact h3 _ e he
      · simp at he
    unfold triRow
    cases h0 : o0.outlier <;> cases h1 : o1.outlier <;> simp only [Bool.not_true, Bool.not_false, if_true,
      Bool.false_eq_true, if_false]
    · simp [h0, h1] at h
    all_goals exact ⟨trivial, fun e he => hz _ _ _ _ e he⟩

/-- Two problems that differ only in which observations are outliers: same sizes, cameras, frames and points;
any weights and flags. -/
structure SameButOutliers (c c' : Ctx) : Prop where
  d : c'.d = c.d
  W : c'.W = c.W
  H : c'.H = c.H
  projBoard : c'.projBoard = c.projBoard
  projPoint : c'.projPoint = c.projPoint
  boards : List.Forall₂ (fun o o' : BoardObs => o'.icamI = o.icamI ∧ o'.icamE = o.icamE ∧
    o'.iframe = o.iframe) c.boards c'.boards
  points : List.Forall₂ (fun o o' : PointObs => o'.icamI = o.icamI ∧ o'.icamE = o.icamE ∧
    o'.ipoint = o.ipoint) c.points c'.points
  tri : List.Forall₂ (fun o o' : TriObs => o'.last = o.last ∧ o'.icamI = o.icamI ∧ o'.icamE = o.icamE)
    c.tri c'.tri

/-- the shape of a list of measurements: row lengths -/
def shape (rows : List Row) : List Nat := rows.map fun r => r.entries.length
/-- the column pattern of a list of measurements -/
def pattern (rows : List Row) : List (List Int) := rows.map fun r => r.entries.map (·.1)

theorem shape_of_pattern {a b : List Row} (h : pattern a = pattern b) : shape a = shape b := by
  have : ∀ l, shape l = (pattern l).map List.length := by
    intro l; simp [shape, pattern, Function.comp_def]
  rw [this, this, h]

theorem pattern_append (a b : List Row) : pattern (a ++ b) = pattern a ++ pattern b := by simp [pattern]
theorem shape_append (a b : List Row) : shape (a ++ b) = shape a ++ shape b := by simp [shape]

theorem zipIdx_flatMap_congr {α γ} {R : α → α → Prop} {f g : α × Nat → List γ} {l l' : List α}
    (h : List.Forall₂ R l l') (k : Nat) (hfg : ∀ a b i, R a b → f (a, i) = g (b, i)) :
    (l.zipIdx k).flatMap f = (l'.zipIdx k).flatMap g := by
  induction h generalizing k with
  | nil => rfl
  | cons hab _ ih => simp [List.zipIdx_cons, hfg _ _ _ hab, ih]

theorem boardRows_pattern {c c' : Ctx} (h : SameButOutliers c c') :
    pattern (boardRows c') = pattern (boardRows c) := by
  unfold pattern boardRows
  rw [List.map_flatMap, List.map_flatMap]
  symm
  apply zipIdx_flatMap_congr h.boards
  rintro o o' i ⟨e1, e2, e3⟩
  simp only [List.map_flatMap, List.map_map, Function.comp_def, board_columns]
  rw [h.W, h.H, h.d, h.projBoard]
  simp only [boardVars, e1, e2, e3]

theorem pointRows_shape {c c' : Ctx} (h : SameButOutliers c c') :
    shape (pointRows c') = shape (pointRows c) := by
  unfold shape pointRows
  rw [List.map_flatMap, List.map_flatMap]
  symm
  apply zipIdx_flatMap_congr h.points
  rintro o o' i ⟨e1, e2, e3⟩
  have key : ∀ xy, (pointRow c.d o (c.projPoint i) (fun k => c.intrinsics o.icamI k) xy).entries.length =
      (pointRow c'.d o' (c'.projPoint i) (fun k => c'.intrinsics o'.icamI k) xy).entries.length := by
    intro xy
    have a := pointRow_length c.d o (c.projPoint i) (fun k => c.intrinsics o.icamI k) xy
    have b := pointRow_length c'.d o' (c'.projPoint i) (fun k => c'.intrinsics o'.icamI k) xy
    have : pointNnz c'.d o' = pointNnz c.d o := by simp only [pointNnz, h.d, e2, e3]
    rw [this] at b
    omega
  simp [key]

theorem pointRows_pattern {c c' : Ctx} (h : SameButOutliers c c') (hs : c.d.lens.isSplined = false) :
    pattern (pointRows c') = pattern (pointRows c) := by
  unfold pattern pointRows
  rw [List.map_flatMap, List.map_flatMap]
  symm
  apply zipIdx_flatMap_congr h.points
  rintro o o' i ⟨e1, e2, e3⟩
  simp only [List.map_map, Function.comp_def]
  rw [h.d, h.projPoint]
  simp only [point_columns _ _ _ _ _ (Or.inl hs), pointVars, e1, e2, e3]

theorem triRow_pattern (d : Dims) {o0 o0' o1 o1' : TriObs} (r r' : TriRes) (h0 : o0'.icamE = o0.icamE)
    (h1 : o1'.icamE = o1.icamE) :
    (triRow d o0' o1' r').entries.map (·.1) = (triRow d o0 o1 r).entries.map (·.1) := by
  unfold triRow
  rw [h0, h1]
  by_cases a : o0.icamE ≥ 0 <;> by_cases b : o1.icamE ≥ 0 <;> cases o0.outlier <;> cases o1.outlier <;>
    cases o0'.outlier <;> cases o1'.outlier <;> simp [a, b, store3]

theorem triRowsInner_pattern (d : Dims) (res res' : Nat → Nat → TriRes) {o0 o0' : TriObs}
    (h0 : o0'.icamE = o0.icamE) {l l' : List TriObs}
    (h : List.Forall₂ (fun o o' : TriObs => o'.last = o.last ∧ o'.icamI = o.icamI ∧ o'.icamE = o.icamE) l l')
    (i0 i1 : Nat) :
    (triRowsInner d res' o0' i0 i1 l').map pattern = (triRowsInner d res o0 i0 i1 l).map pattern := by
  induction h generalizing i1 with
  | nil => rfl
  | @cons o o' os os' hab _ ih =>
    have hp := triRow_pattern d (res i0 i1) (res' i0 i1) h0 hab.2.2
    simp only [triRowsInner, hab.1]
    split
    · simp only [Option.map_some, pattern, List.map_cons, List.map_nil, hp]
    · have := ih (i1 + 1)
      cases ha : triRowsInner d res o0 i0 (i1 + 1) os <;>
        cases hb : triRowsInner d res' o0' i0 (i1 + 1) os' <;> simp [ha, hb, pattern, hp] at this ⊢
      exact this

theorem triRows_pattern (d : Dims) (res res' : Nat → Nat → TriRes) {l l' : List TriObs}
    (h : List.Forall₂ (fun o o' : TriObs => o'.last = o.last ∧ o'.icamI = o.icamI ∧ o'.icamE = o.icamE) l l')
    (i0 : Nat) :
    (triRows d res' i0 l').map pattern = (triRows d res i0 l).map pattern := by
  induction h generalizing i0 with
  | nil => rfl
  | @cons o o' os os' hab hrest ih =>
    simp only [triRows, hab.1]
    split
    · exact ih _
    · have h1 := triRowsInner_pattern d res res' hab.2.2 hrest i0 (i0 + 1)
      have h2 := ih (i0 + 1)
      cases a1 : triRowsInner d res o i0 (i0 + 1) os <;> cases a2 : triRowsInner d res' o' i0 (i0 + 1) os' <;>
        cases b1 : triRows d res (i0 + 1) os <;> cases b2 : triRows d res' (i0 + 1) os' <;>
        simp [a1, a2, b1, b2, pattern_append] at h1 h2 ⊢
      rw [h1, h2]

theorem regRows_pattern {c c' : Ctx} (h : SameButOutliers c c') :
    pattern (regDistortionRows c' ++ regCenterRows c' ++ regUnityRows c') =
      pattern (regDistortionRows c ++ regCenterRows c ++ regUnityRows c) := by
  have hd := h.d
  simp only [pattern_append]
  congr 1
  · congr 1
    · unfold regDistortionRows pattern
      rw [hd]
      split
      · cases hl : c.d.lens <;>
          simp [List.map_flatMap, Function.comp_def, knotRows]
      · rfl
    · unfold regCenterRows pattern
      rw [hd]
      split
      · simp [List.map_flatMap, Function.comp_def]
      · rfl
  · unfold regUnityRows pattern
    rw [hd]
    split
    · simp [Function.comp_def]
    · rfl

/-- C05 (shape). Changing which observations are outliers never changes the number of measurements or the
number of Jacobian entries in each row; for the non-splined models the columns don't change either. (The
parameters may be different too: the pattern depends only on the observed cameras/frames/points and, for
splined models, on which control points surround each projection.) -/
theorem outliers_keep_shape (c c' : Ctx) (h : SameButOutliers c c') :
    (allRows c').map shape = (allRows c).map shape ∧
    (c.d.lens.isSplined = false → (allRows c').map pattern = (allRows c).map pattern) := by
  have hb := boardRows_pattern h
  have hp := pointRows_shape h
  have hr := regRows_pattern h
  have ht := triRows_pattern c.d c.projTri c'.projTri h.tri 0
  unfold allRows
  rw [h.d]
  cases a : triRows c.d c.projTri 0 c.tri <;> cases b : triRows c.d c'.projTri 0 c'.tri <;>
    simp [a, b] at ht ⊢
  constructor
  · have := shape_of_pattern hr
    simp only [shape_append, List.append_assoc] at this ⊢
    rw [shape_of_pattern hb, hp, shape_of_pattern ht, this]
  · intro hs
    have hp := pointRows_pattern h hs
    simp only [pattern_append, List.append_assoc] at hr ⊢
    rw [hb, hp, ht, hr]

/-- C05 (columns, splined models, as far as they hold). The columns do stay the same for every model if the
point observations keep their inlier/outlier state. The full claim (any point may flip) is false for
splined models: `outlier_point_moves_columns`. -/
theorem outliers_keep_columns_partial (c c' : Ctx) (h : SameButOutliers c c')
    (hpt : List.Forall₂ (fun o o' : PointObs => (o'.weight ≤ 0 ↔ o.weight ≤ 0)) c.points c'.points) :
    (allRows c').map pattern = (allRows c).map pattern := by
  have hb := boardRows_pattern h
  have hr := regRows_pattern h
  have ht := triRows_pattern c.d c.projTri c'.projTri h.tri 0
  have hp : pattern (pointRows c') = pattern (pointRows c) := by
    have hboth : List.Forall₂ (fun o o' : PointObs => (o'.icamI = o.icamI ∧ o'.icamE = o.icamE ∧
        o'.ipoint = o.ipoint) ∧ (o'.weight ≤ 0 ↔ o.weight ≤ 0)) c.points c'.points := by
      have h1 := h.points
      generalize c.points = l at h1 hpt
      generalize c'.points = l' at h1 hpt
      induction h1 with
      | nil => exact .nil
      | cons hab _ ih =>
        cases hpt with
        | cons hcd htl => exact .cons ⟨hab, hcd⟩ (ih htl)
    unfold pattern pointRows
    rw [List.map_flatMap, List.map_flatMap]
    symm
    apply zipIdx_flatMap_congr hboth
    rintro o o' i ⟨⟨e1, e2, e3⟩, hw⟩
    simp only [List.map_map, Function.comp_def]
    rw [h.d, h.projPoint]
    have key : ∀ xy, (pointRow c.d o (c.projPoint i) (fun k => c.intrinsics o.icamI k) xy).entries.map (·.1) =
        (pointRow c.d o' (c.projPoint i) (fun k => c'.intrinsics o'.icamI k) xy).entries.map (·.1) := by
      intro xy
      by_cases hs : c.d.lens.isSplined = false ∨ 0 < o.weight
      · have hs' : c.d.lens.isSplined = false ∨ 0 < o'.weight := by
          rcases hs with hs | hs
          · exact Or.inl hs
          · right; by_contra hc; have := hw.1 (not_lt.1 hc); linarith
        rw [point_columns _ _ _ _ _ hs, point_columns _ _ _ _ _ hs']
        simp only [pointVars, e1, e2, e3]
      · push Not at hs
        cases hl : c.d.lens with
        | splined order Nx Ny fov =>
          rw [point_outlier_splined_columns _ _ _ _ _ order Nx Ny fov hl hs.2,
            point_outlier_splined_columns _ _ _ _ _ order Nx Ny fov hl (hw.2 hs.2)]
          simp only [pointVarsSplinedOutlier, e1, e2, e3]
        | _ => simp [hl, Lens.isSplined] at hs
    simp [key]
  unfold allRows
  rw [h.d]
  cases a : triRows c.d c.projTri 0 c.tri <;> cases b : triRows c.d c'.projTri 0 c'.tri <;>
    simp [a, b] at ht ⊢
  simp only [pattern_append, List.append_assoc] at hr ⊢
  rw [hb, hp, ht, hr]

/-! ### A concrete case -/

theorem exProj_ok : IvarOk (.splined 3 5 6 90) exProj := ⟨0, 0, by decide, by decide, by decide, by decide, rfl⟩

theorem exCtx_idx : IdxOk exCtx where
  wf := by constructor <;> decide
  boards := by intro o ho; simp [exCtx] at ho; rcases ho with rfl | rfl <;> simp [exCtx]
  points := by intro o ho; simp [exCtx] at ho; rcases ho with rfl | rfl <;> simp [exCtx]
  tri := by simp [exCtx]
  projBoard := fun _ _ => exProj_ok
  projPoint := fun _ => exProj_ok
  grid := by
    intro order Nx Ny fov h
    simp [exCtx] at h
    omega

example : IdxOk exCtx := exCtx_idx
-- cameras listed in decreasing order: meets the hypotheses of `tri_columns_not_sorted`
example : ({ exCtx.d with Nce := 2 } : Dims).sel.extrinsics = true ∧ (0 : Int) ≤ 1 ∧
    (1 : Int) < ({ exCtx.d with Nce := 2 } : Dims).Nce ∧ (0 : Int) ≤ 0 ∧ (0 : Int) ≤ 1 := by decide
example : TriOrdered exCtxTri.tri := by
  intro i j o0 o1 hs h0 h1
  have : i = 0 := by have := hs.1; have := hs.2.1; simp [exCtxTri] at this; omega
  subst this
  left
  simp [exCtxTri] at h0
  simp [← h0]

/-- the same problem as `exCtx`, but different outliers -/
noncomputable def exCtx' : Ctx :=
  { exCtx with
    boards := [⟨0, -1, 0, fun _ _ => 0, fun _ => 1⟩, ⟨1, 0, 0, fun _ _ => 0, fun _ => -1⟩]
    points := [⟨0, -1, 0, fun _ => 0, -1⟩, ⟨1, 0, 1, fun _ => 0, -1⟩] }
example : SameButOutliers exCtx exCtx' :=
  ⟨rfl, rfl, rfl, rfl, rfl, by simp [exCtx, exCtx'], by simp [exCtx, exCtx'], by simp [exCtx, exCtx']⟩

/-- C05 (deviation). With a splined model, marking a point observation as an outlier does move Jacobian
entries to other columns: here an observation in the interior of the grid. -/
theorem outlier_point_moves_columns :
    ∃ (d : Dims) (o o' : PointObs) (p : Proj) (f : Nat → ℝ), IvarOk d.lens p ∧
      o'.icamI = o.icamI ∧ o'.icamE = o.icamE ∧ o'.ipoint = o.ipoint ∧
      (pointRow d o p f 0).entries.map (·.1) ≠ (pointRow d o' p f 0).entries.map (·.1) := by
  refine ⟨exCtx.d, ⟨0, -1, 0, fun _ => 0, 1⟩, ⟨0, -1, 0, fun _ => 0, -1⟩, exProj, fun _ => 1, exProj_ok,
    rfl, rfl, rfl, ?_⟩
  rw [point_columns _ _ _ _ _ (Or.inr (by simp)),
    point_outlier_splined_columns _ _ _ _ _ 3 5 6 90 rfl (by simp)]
  intro h
  have h3 := congrArg (fun l => l[3]?) h
  simp only [List.getElem?_map] at h3
  have a3 : (pointVars exCtx.d ⟨0, -1, 0, fun _ => 0, 1⟩ exProj 0)[3]? = some (.intrinsics 0 (4 + 2)) := rfl
  have b3 : (pointVarsSplinedOutlier exCtx.d ⟨0, -1, 0, fun _ => 0, -1⟩ 3 0)[3]? = some (.intrinsics 0 (4 + 1)) := rfl
  rw [a3, b3] at h3
  simp [loc] at h3

end Mrcal.Callback
