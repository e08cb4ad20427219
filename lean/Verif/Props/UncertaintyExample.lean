import Verif.Props.UncertaintyProps
/-
C77: a concrete case: one camera at the reference, one board with three corners.
-/
namespace Mrcal.Uncertainty
open Mrcal Pose Callback StateLayout

/-- each of the six measurements moves with one of the six numbers of the board pose -/
noncomputable def exU : Ctx where
  d := { Nci := 1, Nce := 0, Nframes := 1, Npoints := 0, NpointsFixed := 0, Nob := 1, lens := .pinhole
         sel := { core := false, distortions := false, extrinsics := false, frames := true, warp := false, regularization := false, unityCam01 := false, outlierRejection := false } }
  W := 3
  H := 1
  boards := [⟨0, -1, 0, fun _ _ => 0, fun _ => 1⟩]
  points := []
  tri := []
  projBoard _ j := { exProj with
    drframe := fun xy k => if 2 * j + xy = k then 1 else 0
    dtframe := fun xy k => if 2 * j + xy = 3 + k then 1 else 0 }
  projPoint _ := exProj
  projTri _ _ := ⟨0, fun _ => 0, fun _ => 0, fun _ => 0, fun _ => 0⟩
  intrinsics _ _ := 1
  t0 _ := 1
  imagersizes _ := 100

theorem exU_ok : CtxOk exU := ⟨by decide, rfl, fun o h => by simp [exU] at h, fun h => absurd rfl h⟩

theorem exU_idx : IdxOk exU where
  wf := by constructor <;> decide
  boards := by intro o ho; simp [exU] at ho; rcases ho with rfl; simp [exU]
  points := by intro o ho; simp [exU] at ho
  tri := by simp [exU]
  projBoard := fun _ _ => by simp [exU, IvarOk]
  projPoint := fun _ => by simp [exU, IvarOk]
  grid := by intro order Nx Ny fov h; simp [exU] at h

/-- the i-th row -/
noncomputable def exRow (i : Nat) : List (Int × ℝ) := (List.range 6).map fun k : Nat => ((k : Int), (if i = k then 1 else 0) * poseScale scaleRotFrame scaleTransFrame k)

theorem exU_rows : (boardRows exU ++ pointRows exU).map (·.entries) = [exRow 0, exRow 1, exRow 2, exRow 3, exRow 4, exRow 5] := by
  simp [boardRows, pointRows, exU, boardRow, List.range_succ, exRow, poseScale, intrinsicsEntries, store3, hasCalobjectWarp, stateIndexFrames, numStatesIntrinsics, numIntrinsicsOpt,
    numDistortionsOpt, numStatesExtrinsics]

/-- LAPACK as documented exists -/
noncomputable def exactLapack : Lapack where
  F := Arr
  pptrf M := open Classical in if PosDef M then some M else none
  pptrs M y := open Classical in if h : ∃ x : Arr, ∀ i : Fin 6, ∑ j : Fin 6, sym 6 M i j * x j = y i then some h.choose else none

theorem exactLapack_ok : LapackOk exactLapack where
  factor M := by
    unfold exactLapack
    simp only
    constructor
    · rintro ⟨f, h⟩
      split_ifs at h with hp
      exact hp
    · intro h
      exact ⟨M, if_pos h⟩
  solve M f h y := by
    unfold exactLapack at h ⊢
    simp only at h ⊢
    split_ifs at h with hp
    obtain rfl := Option.some.inj h
    have ex : ∃ x : Arr, ∀ i : Fin 6, ∑ j : Fin 6, sym 6 M i j * x j = y i := by
      let A : Matrix (Fin 6) (Fin 6) ℝ := fun i j => sym 6 M i j
      have inj : Function.Injective (Matrix.mulVecLin A) := by
        rw [injective_iff_map_eq_zero]
        intro x hx
        by_contra hne
        have := hp x hne
        have e : ∑ i : Fin 6, ∑ j : Fin 6, x i * sym 6 M i j * x j = 0 := by
          refine Finset.sum_eq_zero fun i _ => ?_
          have hi : ∑ j : Fin 6, sym 6 M i j * x j = 0 := congrFun hx i
          simp only [mul_assoc]
          rw [← Finset.mul_sum, hi, mul_zero]
        linarith
      obtain ⟨x, hx⟩ := (LinearMap.injective_iff_surjective.mp inj) (fun i => y i)
      refine ⟨fun n => if h : n < 6 then x ⟨n, h⟩ else 0, fun i => ?_⟩
      have := congrFun hx i
      simp only [Fin.is_lt, dif_pos, Fin.eta]
      exact this
    rw [dif_pos ex]
    exact ⟨_, rfl, ex.choose_spec⟩

theorem exU_sources : sources exU = List.replicate 6 ⟨0, -1, .frame 0⟩ := by
  simp [sources, exU]

/-- the board is at the origin: the transformation moves its pose directly -/
theorem exU_vel (k : Fin 6) (j : Int) : vel exU.d false (fun _ => 0) ⟨0, -1, .frame 0⟩ k j = if j = (k : Nat) then 1 / poseScale scaleRotFrame scaleTransFrame k else 0 := by
  have hf : Source.f exU.d ⟨0, -1, .frame 0⟩ = some 0 := by decide
  have ht : tinyr0_gradientr0 ⟨0, 0, 0⟩ = identityR := by
    unfold tinyr0_gradientr0
    simp only
    rw [if_pos (by norm_num [norm2])]
  unfold vel
  rw [if_neg (by simp), hf]
  simp only
  unfold blk gRt sub
  simp only [zero_mul, ht]
  have hk := k.2
  by_cases hj : (0 : Int) ≤ j ∧ j < 0 + (6 : Nat)
  · rw [if_pos hj]
    obtain ⟨n, rfl⟩ : ∃ n : Nat, j = n := ⟨j.toNat, by omega⟩
    have hn : n < 6 := by omega
    simp only [sub_zero, Int.toNat_natCast]
    interval_cases n <;> fin_cases k <;> simp [poseD, flat, identityR, skewCol, poseScale]
  · rw [if_neg hj, if_neg (by omega)]

/-- K exists here -/
example : ∃ out rowptr colidx jval, optimizerCallback exU = some out ∧ Reads out rowptr colidx jval ∧ CtxOk exU ∧ IdxOk exU ∧ NoEmptyRows exU ∧ Supported exU (-1) ∧
    (∀ u : Fin 6 → ℝ, u ≠ 0 → 0 < cost exU out (-1) (fun _ => 0) u (fun _ => 0)) ∧
    ∃ K, drtCrossReprojection exactLapack exU.d exU.W exU.H exU.points.length (-1) (fun _ => 0) 6 6 rowptr colidx jval = some K := by
  obtain ⟨out, ho, -⟩ := callback_fills_exactly exU exU_ok
  have rd : Reads out (fun k => out.rowptr.getD k 0) (fun k => out.cols.getD k.toNat 0) (fun k => out.vals.getD k.toNat 0) := by
    constructor <;> intro k v h <;> simp [h]
  have ne : NoEmptyRows exU := by
    intro s hs
    rw [exU_sources] at hs
    obtain rfl := List.eq_of_mem_replicate hs
    right; right; left
    decide
  have su : Supported exU (-1) := by
    refine ⟨Or.inl (by decide), fun h => absurd h (by decide), fun h => absurd h (by decide)⟩
  have hJ : ∀ i < 6, ∀ v : Int → ℝ, out.Jv i v = v i * poseScale scaleRotFrame scaleTransFrame i := by
    intro i hi v
    obtain ⟨rows, hrows⟩ : ∃ rows, allRows exU = some rows := by
      cases h : allRows exU with
      | none => rw [optimizerCallback, h] at ho; simp at ho
      | some rows => exact ⟨rows, rfl⟩
    have hlen : (boardRows exU ++ pointRows exU).length = 6 := by
      have := congrArg List.length exU_rows
      simpa using this
    obtain ⟨r, hr⟩ : ∃ r, (boardRows exU ++ pointRows exU)[i]? = some r := ⟨_, List.getElem?_eq_getElem (by omega)⟩
    have he : r.entries = exRow i := by
      have := congrArg (fun l => l[i]?) exU_rows
      simp only [List.getElem?_map, hr, Option.map_some] at this
      interval_cases i <;> simpa using this
    have hrk : rows[i]? = some r := by
      unfold allRows at hrows
      cases ht : triRows exU.d exU.projTri 0 exU.tri with
      | none => rw [ht] at hrows; simp at hrows
      | some t =>
        rw [ht, Option.map_some] at hrows
        obtain rfl := Option.some.inj hrows
        rw [List.append_assoc (boardRows exU ++ pointRows exU), List.getElem?_append_left (by omega), hr]
    obtain ⟨-, a, z, ha, hz, hl, hent⟩ := callback_rows exU rows out hrows ho i r hrk
    unfold Out.Jv
    rw [List.getD_eq_getElem?_getD, List.getD_eq_getElem?_getD, ha, hz]
    simp only [Option.getD_some]
    rw [hent, he]
    unfold exRow
    interval_cases i <;> simp [List.range_succ, mul_comm]
  have pd : ∀ u : Fin 6 → ℝ, u ≠ 0 → 0 < cost exU out (-1) (fun _ => 0) u (fun _ => 0) := by
    intro u hu
    have e : cost exU out (-1) (fun _ => 0) u (fun _ => 0) = ∑ k, u k ^ 2 := by
      unfold cost usedMeasurements
      rw [exU_sources]
      have hs : ∀ k : Fin 6, poseScale scaleRotFrame scaleTransFrame k ≠ 0 := by
        intro k
        unfold poseScale scaleRotFrame scaleTransFrame
        split_ifs <;> norm_num [Real.pi_ne_zero]
      have q : ∀ i : Fin 6, out.Jv i (fun j => (∑ k : Fin 6, vel exU.d false (fun _ => 0) ⟨0, -1, .frame 0⟩ k j * u k) + if Rel exU.d false j then 0 else 0) = u i := by
        intro i
        rw [hJ i i.2]
        simp only [exU_vel, ite_self, add_zero]
        rw [Finset.sum_eq_single i]
        · rw [if_pos rfl]; field_simp [hs i]
        · intro k _ hk
          rw [if_neg, zero_mul]
          intro h
          exact hk (Fin.ext (by omega))
        · simp
      have q0 := q 0; have q1 := q 1; have q2 := q 2; have q3 := q 3; have q4 := q 4; have q5 := q 5
      simp only [Fin.val_zero, Fin.val_one, Fin.val_two, show ((3 : Fin 6) : Nat) = 3 from rfl, show ((4 : Fin 6) : Nat) = 4 from rfl, show ((5 : Fin 6) : Nat) = 5 from rfl] at q0 q1 q2 q3 q4 q5
      rw [Fin.sum_univ_six, ← q0, ← q1, ← q2, ← q3, ← q4, ← q5]
      simp [List.replicate, List.zipIdx]
      ring
    rw [e]
    obtain ⟨k, hk⟩ : ∃ k, u k ≠ 0 := by
      by_contra h
      exact hu (funext fun k => not_not.mp (not_exists.mp h k))
    exact Finset.sum_pos' (fun _ _ => sq_nonneg _) ⟨k, Finset.mem_univ _, by positivity⟩
  refine ⟨out, _, _, _, ho, rd, exU_ok, exU_idx, ne, su, pd, ?_⟩
  exact (cross_reprojection_succeeds_iff exactLapack exactLapack_ok exU exU_ok exU_idx ne out ho _ _ _ rd (-1) (fun _ => 0) 6 6).mpr ⟨by decide, by decide, su, pd⟩

/-! ### What isn't supported -/

/-- **C77**, violated: the check at uncertainty.c:944-950 rejects every problem with boards, points and the board shape being optimized together, however well-posed it is -/
theorem boards_points_warp_fail_wrong (L : Lapack) (d : Dims) (wf : WF d) (hf : 0 < numStatesFrames d) (hp : 0 < numStatesPoints d) (hw : 0 < numStatesWarp d)
    (W H Nop icamI : Int) (b : Int → ℝ) (Nb nrow : Int) (rowptr : Nat → Int) (colidx : Int → Int) (jval : Int → ℝ) :
    drtCrossReprojection L d W H Nop icamI b Nb nrow rowptr colidx jval = none := by
  obtain ⟨i1, i2, i3, i4, i5⟩ := index_pos d wf
  unfold drtCrossReprojection
  simp only
  rw [if_pos ⟨i1.mpr hf, i3.mpr hw, fun h => by have := (i5 hf hw).mp h; omega⟩]

example : ∃ d : Dims, WF d ∧ 0 < numStatesFrames d ∧ 0 < numStatesPoints d ∧ 0 < numStatesWarp d := ⟨exCtx.d, exCtx_idx.wf, by decide, by decide, by decide⟩

/-- **C77**, violated: the check at uncertainty.c:974-979 rejects every problem that optimizes only the points (and maybe the intrinsics), although its message says
that frames or points would do -/
theorem points_only_fail_wrong (L : Lapack) (d : Dims) (wf : WF d) (hf : numStatesFrames d = 0) (he : numStatesExtrinsics d = 0)
    (W H Nop icamI : Int) (b : Int → ℝ) (Nb nrow : Int) (rowptr : Nat → Int) (colidx : Int → Int) (jval : Int → ℝ) :
    drtCrossReprojection L d W H Nop icamI b Nb nrow rowptr colidx jval = none := by
  obtain ⟨i1, i2, i3, i4, i5⟩ := index_pos d wf
  have a1 : stateIndexFrames 0 d < 0 := by by_contra h; have := i1.mp (by omega); omega
  have a2 : stateIndexExtrinsics 0 d < 0 := by by_contra h; have := i2.mp (by omega); omega
  unfold drtCrossReprojection
  simp only
  split_ifs
  · rfl
  · rfl
  · rfl
  · rfl
  · rfl
  · next hn => exact absurd (And.intro a1 a2) hn

example : ∃ d : Dims, WF d ∧ numStatesFrames d = 0 ∧ numStatesExtrinsics d = 0 ∧ 0 < numStatesPoints d :=
  ⟨{ exU.d with Nframes := 0, Nob := 0, Npoints := 4 }, by constructor <;> decide, by decide, by decide, by decide⟩

/-- **C77**, violated: the check at uncertainty.c:1174-1181 rejects every problem that optimizes the board shape and has any point observations, even of fixed points -/
theorem warp_point_observations_fail_wrong (L : Lapack) (hL : LapackOk L) (c : Ctx) (hc : CtxOk c) (idx : IdxOk c) (hne : NoEmptyRows c) (out : Out)
    (ho : optimizerCallback c = some out) (hw : 0 < numStatesWarp c.d) (hp : c.points ≠ [])
    (rowptr : Nat → Int) (colidx : Int → Int) (jval : Int → ℝ) (rd : Reads out rowptr colidx jval) (icamI : Int) (b : Int → ℝ) (Nb nrow : Int) :
    drtCrossReprojection L c.d c.W c.H c.points.length icamI b Nb nrow rowptr colidx jval = none := by
  cases h : drtCrossReprojection L c.d c.W c.H c.points.length icamI b Nb nrow rowptr colidx jval with
  | none => rfl
  | some K =>
    obtain ⟨-, -, su, -⟩ := (cross_reprojection_succeeds_iff L hL c hc idx hne out ho rowptr colidx jval rd icamI b Nb nrow).mp ⟨K, h⟩
    exact absurd (su.2.1 hw).1 hp

example : CtxOk exCtx ∧ IdxOk exCtx ∧ NoEmptyRows exCtx ∧ 0 < numStatesWarp exCtx.d ∧ exCtx.points ≠ [] :=
  ⟨⟨by decide, rfl, fun o h => by simp [exCtx] at h, fun h => absurd rfl h⟩, exCtx_idx, fun _ _ => Or.inl (by decide), by decide, by simp [exCtx]⟩

/-- **C77**, violated: a measurement that depends on nothing that's being optimized has an empty row in J. Then the function looks at the first column of the following
row instead (uncertainty.c:1104), and it fails if that's an optimized camera pose, frame or point. (Problems with fixed intrinsics, a camera at the reference, and fixed points.) -/
theorem empty_row_fail_wrong (L : Lapack) (c : Ctx) (hc : CtxOk c) (idx : IdxOk c) (out : Out) (ho : optimizerCallback c = some out)
    (rowptr : Nat → Int) (colidx : Int → Int) (jval : Int → ℝ) (rd : Reads out rowptr colidx jval) (icamI : Int) (b : Int → ℝ) (Nb nrow : Int)
    (i : Nat) (hi : i + 1 < (sources c).length) (hI : numIntrinsicsOpt c.d.sel c.d.lens = 0)
    (h0 : (src c i).e c.d = none ∧ (src c i).f c.d = none ∧ (src c i).p c.d = none ∧ (src c i).w c.d = false)
    (h1 : ((src c (i + 1)).e c.d).isSome ∨ ((src c (i + 1)).f c.d).isSome ∨ ((src c (i + 1)).p c.d).isSome) :
    drtCrossReprojection L c.d c.W c.H c.points.length icamI b Nb nrow rowptr colidx jval = none := by
  obtain ⟨n1, n2, n3, n4, n5⟩ := nonnegs idx.wf
  have nI : numStatesIntrinsics c.d = 0 := by unfold numStatesIntrinsics; rw [hI, mul_zero]
  obtain ⟨-, -, -, -, -, -, -, e0⟩ := row_facts c hc idx out ho rd false b i (by omega)
  obtain ⟨ok, r, sp, B, hp, -⟩ := source_row c hc idx out ho rd (i + 1) (src c (i + 1)) (src_get c (i + 1) hi)
  obtain ⟨ok', r', sp', B', hp', -⟩ := source_row c hc idx out ho rd i (src c i) (src_get c i (by omega))
  have hge : rowptr i ≤ rowptr (i + 1) := by rw [B'.z]; omega
  have hemp : rowptr (i + 1) = rowptr i := by
    have : ¬ rowptr i < rowptr (i + 1) := by
      rw [e0]
      simp [hI, h0.1, h0.2.1, h0.2.2.1, h0.2.2.2]
    omega
  have N0 : numIntrinsicsPerMeasurement c.d = 0 := by
    obtain ⟨q1, q2⟩ := perMeasurement_pos c.d idx.grid
    rw [hI] at q2
    have : ¬ 0 < numIntrinsicsPerMeasurement c.d := fun h => by have := q2.mp h; omega
    omega
  have hnil : sp.eI = [] := by
    have := sp.lenI
    rw [N0] at this
    exact List.length_eq_zero_iff.mp (by omega)
  -- the column we look at
  have hcol : numStatesIntrinsics c.d ≤ colidx (rowptr i) ∧
      colidx (rowptr i) < numStatesIntrinsics c.d + numStatesExtrinsics c.d + numStatesFrames c.d + numStatesPoints c.d := by
    have hr := B.rE
    rw [hnil] at hr
    simp only [List.length_nil, Nat.cast_zero, add_zero] at hr
    rw [hemp] at hr
    cases he : (src c (i + 1)).e c.d with
    | some k =>
      rw [block_head hr.left (n := 6) (c := k) (by omega) (by rw [sp.E, he])]
      have := Source.e_range ok he
      omega
    | none =>
      rw [nil_E sp he, List.nil_append] at hr
      cases hf : (src c (i + 1)).f c.d with
      | some k =>
        rw [block_head hr.left (n := 6) (c := k) (by omega) (by rw [sp.F, hf])]
        have := Source.f_range ok hf
        omega
      | none =>
        rw [nil_F sp hf, List.nil_append] at hr
        cases hp : (src c (i + 1)).p c.d with
        | some k =>
          rw [block_head hr.left (n := 3) (c := k) (by omega) (by rw [sp.P, hp])]
          have := Source.p_range ok hp
          omega
        | none => rw [he, hf, hp] at h1; simp at h1
  have hmap : ∀ N, mapRow c.d N rowptr colidx i = none := by
    intro N
    obtain ⟨r1, r2, r3, r4, r5⟩ := range_iff idx.wf (colidx (rowptr i))
    unfold inRange at r1 r2 r3 r4 r5
    unfold mapRow
    simp only
    rw [hemp]
    generalize colidx (rowptr i) = x at *
    by_cases c2 : stateIndexExtrinsics 0 c.d ≤ x ∧ x < stateIndexExtrinsics 0 c.d + numStatesExtrinsics c.d
    · have hn1 : ¬ (stateIndexIntrinsics 0 c.d ≤ x ∧ x < stateIndexIntrinsics 0 c.d + numStatesIntrinsics c.d) := fun h => by have := r1.mp h; omega
      simp [scanBlock, hn1, c2]
    · by_cases c3 : stateIndexFrames 0 c.d ≤ x ∧ x < stateIndexFrames 0 c.d + numStatesFrames c.d
      · have hn1 : ¬ (stateIndexIntrinsics 0 c.d ≤ x ∧ x < stateIndexIntrinsics 0 c.d + numStatesIntrinsics c.d) := fun h => by have := r1.mp h; omega
        simp [scanBlock, hn1, c2, c3]
      · by_cases c4 : stateIndexPoints 0 c.d ≤ x ∧ x < stateIndexPoints 0 c.d + numStatesPoints c.d
        · have hn1 : ¬ (stateIndexIntrinsics 0 c.d ≤ x ∧ x < stateIndexIntrinsics 0 c.d + numStatesIntrinsics c.d) := fun h => by have := r1.mp h; omega
          simp [scanBlock, hn1, c2, c3, c4]
        · exfalso
          rw [r2] at c2
          rw [r3] at c3
          rw [r4] at c4
          omega
  have hfold : ∀ N, (List.range (sources c).length).foldlM (fun s imeas => step c.d N icamI b rowptr colidx jval imeas s) St.init = none := by
    intro N
    obtain ⟨k, hk⟩ : ∃ k, (sources c).length = i + (k + 1) := ⟨(sources c).length - i - 1, by omega⟩
    rw [hk, List.range_eq_range', List.range'_append_1.symm.trans rfl, List.foldlM_append]
    rw [show List.range' (0 + i) (k + 1) = i :: List.range' (i + 1) k by rw [zero_add, List.range'_succ]]
    cases (List.range' 0 i).foldlM (fun s imeas => step c.d N icamI b rowptr colidx jval imeas s) St.init with
    | none => rfl
    | some s =>
      simp only [Option.bind_eq_bind, Option.bind_some, List.foldlM_cons]
      have : step c.d N icamI b rowptr colidx jval i s = none := by unfold step; rw [hmap N]
      rw [this]; rfl
  unfold drtCrossReprojection
  simp only
  rw [sources_length c hc, hfold]
  split_ifs <;> rfl

/-- a board, and an observation of a fixed point, then of a point we're optimizing -/
noncomputable def exEmpty : Ctx := { exU with
  d := { exU.d with Npoints := 2, NpointsFixed := 1 }
  points := [⟨0, -1, 1, fun _ => 0, 1⟩, ⟨0, -1, 0, fun _ => 0, 1⟩] }

example : CtxOk exEmpty ∧ IdxOk exEmpty ∧ 7 + 1 < (sources exEmpty).length ∧ numIntrinsicsOpt exEmpty.d.sel exEmpty.d.lens = 0 ∧
    ((src exEmpty 7).e exEmpty.d = none ∧ (src exEmpty 7).f exEmpty.d = none ∧ (src exEmpty 7).p exEmpty.d = none ∧ (src exEmpty 7).w exEmpty.d = false) ∧
    ((src exEmpty 8).p exEmpty.d).isSome := by
  have e : sources exEmpty = List.replicate 6 ⟨0, -1, .frame 0⟩ ++ [⟨0, -1, .point 1⟩, ⟨0, -1, .point 1⟩, ⟨0, -1, .point 0⟩, ⟨0, -1, .point 0⟩] := by
    simp [sources, exEmpty, exU, List.replicate]
  have e7 : src exEmpty 7 = ⟨0, -1, .point 1⟩ := by unfold src; rw [e]; rfl
  have e8 : src exEmpty 8 = ⟨0, -1, .point 0⟩ := by unfold src; rw [e]; rfl
  refine ⟨⟨by decide, rfl, fun o h => by simp [exEmpty, exU] at h, fun h => absurd rfl h⟩, ?_, by rw [e]; decide, by decide, ?_, ?_⟩
  · constructor
    · constructor <;> decide
    · intro o ho; simp [exEmpty, exU] at ho; rcases ho with rfl; simp [exEmpty, exU]
    · intro o ho; simp [exEmpty] at ho; rcases ho with rfl | rfl <;> simp [exEmpty, exU]
    · simp [exEmpty, exU]
    · intro _ _; simp [exEmpty, exU, IvarOk]
    · intro _; simp [exEmpty, exU, IvarOk]
    · intro order Nx Ny fov h; simp [exEmpty, exU] at h
  · rw [e7]; decide
  · rw [e8]; decide

/-! ### What `vel` means -/

/-- **C77**: `vel` of a pose: if a small transformation (rotation a, translation w, both leaving 0 with the velocity u) is applied to the (scaled) pose in the state, then
the pose moves exactly as it does if the packed variables move with the velocity Σ gRt u: both rotations move together, and so do both translations.
The rotation is 0, or is ≥ 2e-8 rad and isn't a whole number of turns -/
theorem pose_velocity (rt : Arr) (SR ST : ℝ) (hR : SR ≠ 0) (hT : ST ≠ 0) (u : Nat → ℝ) (a w : ℝ → P3) (ha0 : a 0 = ⟨0, 0, 0⟩) (hw0 : w 0 = ⟨0, 0, 0⟩)
    (ha : HasDerivP a ⟨u 0, u 1, u 2⟩ 0) (hw : HasDerivP w ⟨u 3, u 4, u 5⟩ 0)
    (hm : (2e-8 ≤ mag3 ⟨rt 0 * SR, rt 1 * SR, rt 2 * SR⟩ ∧ Real.sin (mag3 ⟨rt 0 * SR, rt 1 * SR, rt 2 * SR⟩ / 2) ≠ 0) ∨ (⟨rt 0 * SR, rt 1 * SR, rt 2 * SR⟩ : P3) = ⟨0, 0, 0⟩) :
    let v (x : Nat) : ℝ := ∑ k : Fin 6, gRt rt SR ST x k * u k
    (∀ i j : Fin 3, ∃ D, HasDerivAt (fun s => (rod (a s) * rod ⟨rt 0 * SR, rt 1 * SR, rt 2 * SR⟩) i j) D 0 ∧
      HasDerivAt (fun s => rod ⟨(rt 0 + s * v 0) * SR, (rt 1 + s * v 1) * SR, (rt 2 + s * v 2) * SR⟩ i j) D 0) ∧
    (∀ i : Fin 3, HasDerivAt (fun s => (rod (a s)).mulVec ![rt 3 * ST, rt 4 * ST, rt 5 * ST] i + ![(w s).x, (w s).y, (w s).z] i) (v (3 + i) * ST) 0) := by
  intro v
  refine ⟨fun i j => ?_, fun i => ?_⟩
  · have hc : HasDerivP (fun _ => (⟨rt 0 * SR, rt 1 * SR, rt 2 * SR⟩ : P3)) ⟨0, 0, 0⟩ 0 := ⟨hasDerivAt_const _ _, hasDerivAt_const _ _, hasDerivAt_const _ _⟩
    have h1 := (compose_tiny_gradient a (fun _ => ⟨rt 0 * SR, rt 1 * SR, rt 2 * SR⟩) _ _ 0 ha hc ha0 hm i j).1
    refine ⟨_, h1, ?_⟩
    have hp : HasDerivP (fun s => (⟨(rt 0 + s * v 0) * SR, (rt 1 + s * v 1) * SR, (rt 2 + s * v 2) * SR⟩ : P3)) ⟨v 0 * SR, v 1 * SR, v 2 * SR⟩ 0 := by
      have l : ∀ p q : ℝ, HasDerivAt (fun s => (p + s * q) * SR) (q * SR) 0 := by
        intro p q
        have := (((hasDerivAt_id' (0 : ℝ)).mul_const q).const_add p).mul_const SR
        simpa using this
      exact ⟨l _ _, l _ _, l _ _⟩
    have h2 := rod_path _ _ 0 hp (by
      simp only [zero_mul, add_zero]
      exact hm.imp (fun h => h.1) id) i j
    simp only [zero_mul, add_zero] at h2
    refine HasDerivAt.congr_deriv h2 ?_
    have e : (⟨v 0 * SR, v 1 * SR, v 2 * SR⟩ : P3) = addP (mulVec (tinyr0_gradientr0 ⟨rt 0 * SR, rt 1 * SR, rt 2 * SR⟩) ⟨u 0, u 1, u 2⟩) ⟨0, 0, 0⟩ := by
      simp only [v, Fin.sum_univ_six, gRt, poseD, poseScale, flat, addP, mulVec]
      ext <;> simp <;> field_simp
    rw [e]
  · have d := rod_path a _ 0 ha (Or.inr ha0)
    rw [ha0, comb_J_zero] at d
    obtain ⟨w1, w2, w3⟩ := hw
    have e : (fun s => (rod (a s)).mulVec ![rt 3 * ST, rt 4 * ST, rt 5 * ST] i + ![(w s).x, (w s).y, (w s).z] i) =
        fun s => rod (a s) i 0 * (rt 3 * ST) + rod (a s) i 1 * (rt 4 * ST) + rod (a s) i 2 * (rt 5 * ST) + ![(w s).x, (w s).y, (w s).z] i := by
      funext s
      simp [Matrix.mulVec, dotProduct, Fin.sum_univ_three]
    rw [e]
    have h := (((d i 0).mul_const (rt 3 * ST)).add ((d i 1).mul_const (rt 4 * ST))).add ((d i 2).mul_const (rt 5 * ST))
    fin_cases i
    · refine HasDerivAt.congr_deriv (h.add w1) ?_
      simp [v, Fin.sum_univ_six, gRt, poseD, poseScale, skewCol, toMat]
      field_simp
      ring
    · refine HasDerivAt.congr_deriv (h.add w2) ?_
      simp [v, Fin.sum_univ_six, gRt, poseD, poseScale, skewCol, toMat]
      field_simp
      ring
    · refine HasDerivAt.congr_deriv (h.add w3) ?_
      simp [v, Fin.sum_univ_six, gRt, poseD, poseScale, skewCol, toMat]
      field_simp
      ring

/-- **C77**: `vel` of a point: the same -/
theorem point_velocity (p : Arr) (u : Nat → ℝ) (a w : ℝ → P3) (ha0 : a 0 = ⟨0, 0, 0⟩) (ha : HasDerivP a ⟨u 0, u 1, u 2⟩ 0) (hw : HasDerivP w ⟨u 3, u 4, u 5⟩ 0) (i : Fin 3) :
    HasDerivAt (fun s => (rod (a s)).mulVec ![p 0 * scalePoint, p 1 * scalePoint, p 2 * scalePoint] i + ![(w s).x, (w s).y, (w s).z] i)
      ((∑ k : Fin 6, gPt p i k * u k) * scalePoint) 0 := by
  have hS : scalePoint ≠ 0 := by unfold scalePoint scaleTransFrame; norm_num
  have d := rod_path a _ 0 ha (Or.inr ha0)
  rw [ha0, comb_J_zero] at d
  obtain ⟨w1, w2, w3⟩ := hw
  have e : (fun s => (rod (a s)).mulVec ![p 0 * scalePoint, p 1 * scalePoint, p 2 * scalePoint] i + ![(w s).x, (w s).y, (w s).z] i) =
      fun s => rod (a s) i 0 * (p 0 * scalePoint) + rod (a s) i 1 * (p 1 * scalePoint) + rod (a s) i 2 * (p 2 * scalePoint) + ![(w s).x, (w s).y, (w s).z] i := by
    funext s
    simp [Matrix.mulVec, dotProduct, Fin.sum_univ_three]
  rw [e]
  have h := (((d i 0).mul_const (p 0 * scalePoint)).add ((d i 1).mul_const (p 1 * scalePoint))).add ((d i 2).mul_const (p 2 * scalePoint))
  fin_cases i
  · refine HasDerivAt.congr_deriv (h.add w1) ?_
    simp [Fin.sum_univ_six, gPt, pointD, skewCol, toMat]
    field_simp
    ring
  · refine HasDerivAt.congr_deriv (h.add w2) ?_
    simp [Fin.sum_univ_six, gPt, pointD, skewCol, toMat]
    field_simp
    ring
  · refine HasDerivAt.congr_deriv (h.add w3) ?_
    simp [Fin.sum_univ_six, gPt, pointD, skewCol, toMat]
    field_simp
    ring

example : ∃ (rt : Arr) (a w : ℝ → P3) (u : Nat → ℝ), a 0 = ⟨0, 0, 0⟩ ∧ w 0 = ⟨0, 0, 0⟩ ∧ HasDerivP a ⟨u 0, u 1, u 2⟩ 0 ∧ HasDerivP w ⟨u 3, u 4, u 5⟩ 0 ∧
    2e-8 ≤ mag3 ⟨rt 0 * 1, rt 1 * 1, rt 2 * 1⟩ ∧ Real.sin (mag3 ⟨rt 0 * 1, rt 1 * 1, rt 2 * 1⟩ / 2) ≠ 0 := by
  refine ⟨fun k => if k = 2 then 1 else 0, fun s => ⟨s, 0, 0⟩, fun s => ⟨0, s, 0⟩, fun k => if k = 0 ∨ k = 4 then 1 else 0, rfl, rfl, ?_, ?_, ?_, ?_⟩
  · exact ⟨by simpa using hasDerivAt_id' (0 : ℝ), by simpa using hasDerivAt_const (0 : ℝ) (0 : ℝ), by simpa using hasDerivAt_const (0 : ℝ) (0 : ℝ)⟩
  · exact ⟨by simpa using hasDerivAt_const (0 : ℝ) (0 : ℝ), by simpa using hasDerivAt_id' (0 : ℝ), by simpa using hasDerivAt_const (0 : ℝ) (0 : ℝ)⟩
  · simp [mag3]; norm_num
  · have : mag3 ⟨(0 : ℝ), 0, 1⟩ = 1 := by simp [mag3]
    simp only [if_true, mul_one, show (0 : Nat) ≠ 2 by decide, show (1 : Nat) ≠ 2 by decide, if_false, this]
    exact (Real.sin_pos_of_pos_of_lt_pi (by norm_num) (by linarith [Real.pi_gt_three])).ne'

end Mrcal.Uncertainty
