import Verif.Model.Callback
import Verif.Props.MeasurementProps
/-
C03: the optimizer callback fills exactly the promised storage.
-/
namespace Mrcal.Callback
open Mrcal StateLayout Tri

/-! ### Hypotheses: what mrcal_optimizer_callback()/mrcal_optimize() and the wrapper establish -/

/-- A well-formed problem. -/
structure CtxOk (c : Ctx) : Prop where
  nci : 0 ≤ c.d.Nci
  nob : c.d.Nob = c.boards.length
  /-- established while ingesting the triangulated observations: C09 -/
  term : Terminated c.tri
  /-- the check at mrcal.c:6043-6052 and in mrcal_optimize() -/
  triSel : c.tri ≠ [] → c.d.sel.core = false ∧ c.d.sel.distortions = false ∧ c.d.sel.extrinsics = true

/-! ### Emission -/

/-- number of Jacobian entries in a list of measurements -/
def nnz (rows : List Row) : Nat := (rows.map fun r => r.entries.length).sum

/-- start offsets of the rows -/
def starts : Nat → List Row → List Nat
  | _, [] => []
  | n, r :: rs => n :: starts (n + r.entries.length) rs

theorem foldl_emit (rows : List Row) (o : Out) :
    rows.foldl emit o =
      { x := o.x ++ rows.map (·.x)
        rowptr := o.rowptr ++ starts o.cols.length rows
        cols := o.cols ++ rows.flatMap fun r => r.entries.map (·.1)
        vals := o.vals ++ rows.flatMap fun r => r.entries.map (·.2) } := by
  induction rows generalizing o with
  | nil => simp [starts]
  | cons r rs ih => simp [ih, emit, starts]

theorem starts_length (n : Nat) (rows : List Row) : (starts n rows).length = rows.length := by
  induction rows generalizing n with
  | nil => rfl
  | cons r rs ih => simp [starts, ih]

theorem flatMap_entries_length {β} (rows : List Row) (f : Int × ℝ → β) :
    (rows.flatMap fun r => r.entries.map f).length = nnz rows := by
  simp [nnz, List.length_flatMap]

theorem starts_bounds (n : Nat) (rows : List Row) : ∀ s ∈ starts n rows, n ≤ s ∧ s ≤ n + nnz rows := by
  induction rows generalizing n with
  | nil => simp [starts]
  | cons r rs ih =>
    intro s hs
    simp only [starts, List.mem_cons] at hs
    simp only [nnz, List.map_cons, List.sum_cons] at *
    rcases hs with rfl | hs
    · omega
    · have := ih _ s hs; omega

theorem starts_sorted (n : Nat) (rows : List Row) :
    (starts n rows ++ [n + nnz rows]).Pairwise (· ≤ ·) := by
  induction rows generalizing n with
  | nil => simp [starts]
  | cons r rs ih =>
    have := ih (n + r.entries.length)
    simp only [starts, nnz, List.map_cons, List.sum_cons, List.cons_append, List.pairwise_cons] at *
    rw [add_assoc] at this
    refine ⟨?_, this⟩
    intro s hs
    rw [List.mem_append] at hs
    rcases hs with hs | hs
    · have := (starts_bounds _ _ s hs).1; omega
    · simp at hs; omega

theorem starts_getElem (n : Nat) (rows : List Row) (i : Nat) (hi : i < rows.length) :
    (starts n rows ++ [n + nnz rows])[i]? = some (n + nnz (rows.take i)) ∧
    (starts n rows ++ [n + nnz rows])[i + 1]? = some (n + nnz (rows.take (i + 1))) := by
  have key : ∀ (rows : List Row) (n j : Nat), j ≤ rows.length →
      (starts n rows ++ [n + nnz rows])[j]? = some (n + nnz (rows.take j)) := by
    intro rows
    induction rows with
    | nil => intro n j hj; simp at hj; subst hj; simp [starts]
    | cons r rs ih =>
      intro n j hj
      cases j with
      | zero => simp [starts, nnz]
      | succ j =>
        have := ih (n + r.entries.length) j (by simpa using hj)
        simp only [starts, nnz, List.map_cons, List.sum_cons, List.cons_append,
          List.getElem?_cons_succ, List.take_succ_cons, ← add_assoc] at *
        exact this
  exact ⟨key rows n i hi.le, key rows n (i + 1) hi⟩

/-! ### Counting the entries of each measurement -/

theorem loop_length (n : Int) : (loop n).length = n.toNat := by simp [loop]

theorem mem_loop {n i : Int} : i ∈ loop n ↔ 0 ≤ i ∧ i < n := by
  simp only [loop, List.mem_map, List.mem_range]
  constructor
  · rintro ⟨k, hk, rfl⟩; simp; omega
  · rintro ⟨h0, h1⟩; exact ⟨i.toNat, by omega, by simp [h0]⟩

theorem storeSpline_length (len : Nat) (c s : Int) (xy : Nat) (g) :
    (storeSpline ((len : Int) + 1) c s xy g).length = (len + 1) * (len + 1) := by
  have : ((len : Int) + 1).toNat = len + 1 := by omega
  simp [storeSpline, loop_length, List.length_flatMap, this]

theorem intrinsicsEntries_length (d : Dims) (iv : Int) (p : Proj) (f : Nat → ℝ) (w : ℝ) (xy : Nat) :
    ((intrinsicsEntries d iv p f w xy).length : Int) = numIntrinsicsPerMeasurement d := by
  have h4 := numParams_ge4 d.lens
  unfold intrinsicsEntries numIntrinsicsPerMeasurement
  rw [show d.lens.hasCore = true from rfl]
  cases hl : d.lens with
  | splined order Nx Ny fov =>
    have := storeSpline_length order
    cases hc : d.sel.core <;> cases hd : d.sel.distortions <;> simp [this] <;> omega
  | _ =>
    cases hc : d.sel.core <;> cases hd : d.sel.distortions <;>
      simp [loop_length, numIntrinsicsOpt, numDistortionsOpt, hc, hd, Lens.hasCore, Lens.numParams, Ncore]

theorem intrinsicsOutlierBoard_length (d : Dims) (iv : Int) (p : Proj) (xy : Nat) :
    ((intrinsicsOutlierBoard d iv p xy).length : Int) = numIntrinsicsPerMeasurement d := by
  have h4 := numParams_ge4 d.lens
  unfold intrinsicsOutlierBoard numIntrinsicsPerMeasurement
  rw [show d.lens.hasCore = true from rfl]
  cases hl : d.lens with
  | splined order Nx Ny fov =>
    have := storeSpline_length order
    cases hc : d.sel.core <;> cases hd : d.sel.distortions <;> simp [this] <;> omega
  | _ =>
    cases hc : d.sel.core <;> cases hd : d.sel.distortions <;>
      simp [loop_length, numIntrinsicsOpt, numDistortionsOpt, hc, hd, Lens.hasCore, Lens.numParams, Ncore]

theorem intrinsicsOutlierPoint_length (d : Dims) (iv : Int) (xy : Nat) :
    ((intrinsicsOutlierPoint d iv xy).length : Int) = numIntrinsicsPerMeasurement d := by
  have h4 := numParams_ge4 d.lens
  unfold intrinsicsOutlierPoint numIntrinsicsPerMeasurement
  rw [show d.lens.hasCore = true from rfl]
  cases hl : d.lens with
  | splined order Nx Ny fov =>
    have : 0 ≤ ((order : Int) + 1) * (order + 1) := by positivity
    cases hc : d.sel.core <;> cases hd : d.sel.distortions <;> simp [loop_length] <;> omega
  | _ =>
    cases hc : d.sel.core <;> cases hd : d.sel.distortions <;>
      simp [loop_length, numIntrinsicsOpt, numDistortionsOpt, hc, hd, Lens.hasCore, Lens.numParams, Ncore]

/-- entries in a board row -/
def boardNnz (d : Dims) (o : BoardObs) : Int :=
  numIntrinsicsPerMeasurement d + (if d.sel.extrinsics && decide (o.icamE ≥ 0) then 6 else 0) +
    (if d.sel.frames then 6 else 0) + (if hasCalobjectWarp d.sel d.Nob then 2 else 0)

theorem boardRow_length (d : Dims) (o : BoardObs) (p : Proj) (f : Nat → ℝ) (ipt xy : Nat) :
    ((boardRow d o p f ipt xy).entries.length : Int) = boardNnz d o := by
  have h1 := intrinsicsEntries_length d (stateIndexIntrinsics o.icamI d) p f (o.weight ipt) xy
  have h2 := intrinsicsOutlierBoard_length d (stateIndexIntrinsics o.icamI d) p xy
  unfold boardRow boardNnz
  by_cases hw : o.weight ipt ≥ 0 <;> by_cases hic : o.icamE ≥ 0 <;>
    cases he : d.sel.extrinsics <;> cases hf : d.sel.frames <;>
    cases hh : hasCalobjectWarp d.sel d.Nob <;>
    simp [hw, hic, store3, loop_length, h1, h2] <;> omega

/-- entries in a point row -/
def pointNnz (d : Dims) (o : PointObs) : Int :=
  numIntrinsicsPerMeasurement d + (if d.sel.extrinsics && decide (o.icamE ≥ 0) then 6 else 0) +
    (if d.sel.frames && decide (o.ipoint < d.Npoints - d.NpointsFixed) then 3 else 0)

theorem pointRow_length (d : Dims) (o : PointObs) (p : Proj) (f : Nat → ℝ) (xy : Nat) :
    ((pointRow d o p f xy).entries.length : Int) = pointNnz d o := by
  have h1 := intrinsicsEntries_length d (stateIndexIntrinsics o.icamI d) p f o.weight xy
  have h2 := intrinsicsOutlierPoint_length d (stateIndexIntrinsics o.icamI d) xy
  unfold pointRow pointNnz
  by_cases hw : o.weight ≤ 0 <;> by_cases hic : o.icamE ≥ 0 <;>
    cases he : d.sel.extrinsics <;> cases hf : d.sel.frames <;>
    by_cases hh : o.ipoint < d.Npoints - d.NpointsFixed <;>
    simp [hw, hic, hh, store3, h1, h2] <;> omega

/-- entries in a triangulated row, per camera -/
def camNnz (o : TriObs) : Int := if o.icamE ≥ 0 then 6 else 0

theorem triRow_length (d : Dims) (o0 o1 : TriObs) (r : TriRes) :
    ((triRow d o0 o1 r).entries.length : Int) = camNnz o0 + camNnz o1 := by
  unfold triRow camNnz
  by_cases h0 : o0.icamE ≥ 0 <;> by_cases h1 : o1.icamE ≥ 0 <;>
    cases o0.outlier <;> cases o1.outlier <;> simp [store3, h0, h1]

/-! ### Counting over the loops -/

theorem nnz_append (a b : List Row) : nnz (a ++ b) = nnz a + nnz b := by simp [nnz]

theorem nnz_cons (r : Row) (b : List Row) : nnz (r :: b) = r.entries.length + nnz b := by simp [nnz]

theorem nnz_flatMap {α} (l : List α) (f : α → List Row) :
    nnz (l.flatMap f) = (l.map fun a => nnz (f a)).sum := by
  induction l with
  | nil => rfl
  | cons a as ih => simp [nnz_append, ih]

theorem nnz_const {α} (l : List α) (f : α → List Row) (k : Nat) (h : ∀ a ∈ l, nnz (f a) = k) :
    nnz (l.flatMap f) = l.length * k := by
  rw [nnz_flatMap]
  induction l with
  | nil => simp
  | cons a as ih =>
    rw [List.map_cons, List.sum_cons, ih fun b hb => h b (List.mem_cons_of_mem _ hb), h a (by simp)]
    simp; ring

theorem length_const {α β} (l : List α) (f : α → List β) (k : Nat) (h : ∀ a ∈ l, (f a).length = k) :
    (l.flatMap f).length = l.length * k := by
  rw [List.length_flatMap]
  induction l with
  | nil => simp
  | cons a as ih =>
    rw [List.map_cons, List.sum_cons, ih fun b hb => h b (List.mem_cons_of_mem _ hb), h a (by simp)]
    simp; ring

theorem boardObs_nnz (c : Ctx) (o : BoardObs) (i : Nat) :
    (nnz ((List.range (c.W * c.H)).flatMap fun ipt => [0, 1].map fun xy =>
      boardRow c.d o (c.projBoard i ipt) (fun k => c.intrinsics o.icamI k) ipt xy) : Int) =
      boardNnz c.d o * (2 * c.W * c.H) := by
  have hb : 0 ≤ boardNnz c.d o := by
    rw [← boardRow_length c.d o (c.projBoard i 0) (fun k => c.intrinsics o.icamI k) 0 0]; positivity
  rw [nnz_const _ _ (2 * (boardNnz c.d o).toNat)]
  · simp; rw [max_eq_left hb]; ring
  · intro ipt _
    have h0 := boardRow_length c.d o (c.projBoard i ipt) (fun k => c.intrinsics o.icamI k) ipt 0
    have h1 := boardRow_length c.d o (c.projBoard i ipt) (fun k => c.intrinsics o.icamI k) ipt 1
    simp only [List.map_cons, List.map_nil, nnz, List.sum_cons, List.sum_nil] at *
    omega

theorem boardRows_nnz (c : Ctx) :
    (nnz (boardRows c) : Int) = (c.boards.map (boardNnz c.d)).sum * (2 * c.W * c.H) := by
  have key : ∀ (l : List BoardObs) (k : Nat),
      (nnz ((l.zipIdx k).flatMap fun (o, iobs) =>
        (List.range (c.W * c.H)).flatMap fun ipt => [0, 1].map fun xy =>
          boardRow c.d o (c.projBoard iobs ipt) (fun k => c.intrinsics o.icamI k) ipt xy) : Int) =
      (l.map (boardNnz c.d)).sum * (2 * c.W * c.H) := by
    intro l
    induction l with
    | nil => intro k; simp [nnz]
    | cons o os ih =>
      intro k
      rw [List.zipIdx_cons, List.flatMap_cons, nnz_append, List.map_cons, List.sum_cons]
      push_cast
      rw [ih, boardObs_nnz]
      ring
  exact key _ _

theorem boardRows_length (c : Ctx) : (boardRows c).length = c.boards.length * (2 * (c.W * c.H)) := by
  unfold boardRows
  rw [length_const _ _ (2 * (c.W * c.H)), List.length_zipIdx]
  rintro ⟨o, i⟩ _
  rw [length_const _ _ 2]
  · simp; ring
  · intro ipt _; simp

theorem pointRows_nnz (c : Ctx) : (nnz (pointRows c) : Int) = 2 * (c.points.map (pointNnz c.d)).sum := by
  have key : ∀ (l : List PointObs) (k : Nat),
      (nnz ((l.zipIdx k).flatMap fun (o, iobs) => [0, 1].map fun xy =>
          pointRow c.d o (c.projPoint iobs) (fun k => c.intrinsics o.icamI k) xy) : Int) =
      2 * (l.map (pointNnz c.d)).sum := by
    intro l
    induction l with
    | nil => intro k; simp [nnz]
    | cons o os ih =>
      intro k
      rw [List.zipIdx_cons, List.flatMap_cons, nnz_append, List.map_cons, List.sum_cons]
      push_cast
      rw [ih]
      have h0 := pointRow_length c.d o (c.projPoint k) (fun k => c.intrinsics o.icamI k) 0
      have h1 := pointRow_length c.d o (c.projPoint k) (fun k => c.intrinsics o.icamI k) 1
      simp only [List.map_cons, List.map_nil, nnz, List.sum_cons, List.sum_nil] at *
      push_cast
      rw [h0, h1]
      ring
  exact key _ _

theorem pointRows_length (c : Ctx) : (pointRows c).length = c.points.length * 2 := by
  unfold pointRows
  rw [length_const _ _ 2, List.length_zipIdx]
  rintro ⟨o, i⟩ _
  simp

theorem boards_fold (boards : List BoardObs) (N : Int) :
    boards.foldl (fun N o => if o.icamE < 0 then N - 6 else N) N =
      N - (boards.map fun o => if o.icamE < 0 then (6 : Int) else 0).sum := by
  induction boards generalizing N with
  | nil => simp
  | cons o os ih =>
    rw [List.foldl_cons, ih, List.map_cons, List.sum_cons]
    split <;> omega

theorem boards_total (d : Dims) (boards : List BoardObs) :
    (boards.map (boardNnz d)).sum =
      (boards.length : Int) * ((if d.sel.frames then 6 else 0) + (if d.sel.extrinsics then 6 else 0) +
        (if hasCalobjectWarp d.sel d.Nob then 2 else 0) + numIntrinsicsPerMeasurement d) -
      (if d.sel.extrinsics then (boards.map fun o => if o.icamE < 0 then (6 : Int) else 0).sum else 0) := by
  induction boards with
  | nil => simp
  | cons o os ih =>
    rw [List.map_cons, List.sum_cons, ih, List.map_cons, List.sum_cons, List.length_cons]
    push_cast
    unfold boardNnz
    cases d.sel.extrinsics <;> by_cases h : o.icamE < 0 <;> simp [h, not_le.2, not_lt.1] <;>
      first | ring | (rw [if_pos (by omega)]; ring)

theorem points_fold (d : Dims) (Ni : Int) (points : List PointObs) (N : Int)
    (hNi : Ni = numIntrinsicsPerMeasurement d) :
    points.foldl (fun N o =>
      let N := N + 2 * Ni
      let N := if d.sel.frames && decide (o.ipoint < d.Npoints - d.NpointsFixed) then N + 2 * 3 else N
      if d.sel.extrinsics && decide (o.icamE ≥ 0) then N + 2 * 6 else N) N =
    N + 2 * (points.map (pointNnz d)).sum := by
  subst hNi
  induction points generalizing N with
  | nil => simp
  | cons o os ih =>
    rw [List.foldl_cons, ih, List.map_cons, List.sum_cons]
    unfold pointNnz
    simp only
    split <;> split <;> ring

/-! ### Triangulated points -/

theorem triRowsInner_spec (d : Dims) (res : Nat → Nat → TriRes) (o0 : TriObs) (i0 i1 : Nat)
    (l : List TriObs) (nv : TriObs → Int) (hnv : ∀ o, nv o = camNnz o) (j0 j1 N : Int) :
    (triRowsInner d res o0 i0 i1 l = none ∧ triNnzInner (nv o0) nv N l = none ∧
      triPairsInner j0 j1 l = none) ∨
    (∃ rows ps, triRowsInner d res o0 i0 i1 l = some rows ∧
      triNnzInner (nv o0) nv N l = some (N + nnz rows) ∧ triPairsInner j0 j1 l = some ps ∧
      ps.length = rows.length) := by
  induction l generalizing i1 j1 N with
  | nil => left; exact ⟨rfl, rfl, rfl⟩
  | cons o os ih =>
    have hrow := triRow_length d o0 o (res i0 i1)
    rw [← hnv, ← hnv] at hrow
    by_cases h : o.last
    · right
      refine ⟨_, _, by simp [triRowsInner, h]; rfl, ?_, by simp [triPairsInner, h]; rfl, rfl⟩
      simp [triNnzInner, h, nnz, hrow]
    · rcases ih (i1 + 1) (j1 + 1) (N + (nv o0 + nv o)) with ⟨a, b, e⟩ | ⟨rows, ps, a, b, e, f⟩
      · left; simp [triRowsInner, triNnzInner, triPairsInner, h, a, b, e]
      · right
        refine ⟨_, _, by simp [triRowsInner, h, a]; rfl, ?_, by simp [triPairsInner, h, e]; rfl, by simp [f]⟩
        simp only [triNnzInner, h]
        rw [if_neg (by simp), b, nnz_cons]
        push_cast
        rw [hrow]
        congr 1; ring

theorem triRows_spec (d : Dims) (res : Nat → Nat → TriRes) (i0 : Nat) (l : List TriObs)
    (nv : TriObs → Int) (hnv : ∀ o, nv o = camNnz o) (j0 N : Int) :
    (triPairs j0 l = none) ∨
    (∃ rows ps, triRows d res i0 l = some rows ∧ triNnz nv N l = some (N + nnz rows) ∧
      triPairs j0 l = some ps ∧ ps.length = rows.length) := by
  induction l generalizing i0 j0 N with
  | nil => right; exact ⟨[], [], rfl, by simp [triNnz, nnz], rfl, rfl⟩
  | cons o os ih =>
    by_cases h : o.last
    · simp only [triPairs, triRows, triNnz, h, if_true]
      exact ih (i0 + 1) (j0 + 1) N
    · simp only [triPairs, triRows, triNnz, h]
      rcases triRowsInner_spec d res o i0 (i0 + 1) os nv hnv j0 (j0 + 1) N with
        ⟨a, b, e⟩ | ⟨rows, ps, a, b, e, f⟩
      · left; simp [e]
      · rcases ih (i0 + 1) (j0 + 1) (N + nnz rows) with a' | ⟨rows', ps', a', b', e', f'⟩
        · left; simp [e, a']
        · right
          refine ⟨rows ++ rows', ps ++ ps', by simp [a, a'], ?_, by simp [e, e'], by simp [f, f']⟩
          simp [b, b', nnz_append, add_assoc]

/-! ### Regularization -/

theorem regDistortion_counts (c : Ctx) (h0 : 0 ≤ c.d.Nci) :
    ((regDistortionRows c).length : Int) =
      (if c.d.sel.regularization then c.d.Nci * numDistortionsOpt c.d.sel c.d.lens else 0) ∧
    (nnz (regDistortionRows c) : Int) =
      (if c.d.sel.regularization then
        c.d.Nci * numDistortionsOpt c.d.sel c.d.lens * (if c.d.lens.isSplined then 2 else 1) else 0) := by
  unfold regDistortionRows
  have h4 := numParams_ge4 c.d.lens
  cases hr : c.d.sel.regularization <;> cases hd : c.d.sel.distortions <;>
    simp only [Bool.and_true, Bool.and_false, Bool.false_eq_true, if_false, if_true, numDistortionsOpt,
      hd, Bool.not_true, Bool.not_false, show c.d.lens.hasCore = true from rfl]
  · simp [nnz]
  · simp [nnz]
  · simp [nnz]
  · cases hl : c.d.lens with
    | splined order Nx Ny fov =>
      simp only [Lens.numParams, Lens.isSplined]
      constructor
      · rw [length_const _ _ (2 * Nx * Ny), loop_length]
        · push_cast
          rw [Int.toNat_of_nonneg h0]; ring
        · intro a _
          rw [length_const _ _ (2 * Nx), loop_length]
          · simp; ring
          · intro b _
            rw [length_const _ _ 2, loop_length]
            · simp; ring
            · intro e _; rfl
      · rw [nnz_const _ _ (4 * Nx * Ny), loop_length]
        · push_cast
          rw [Int.toNat_of_nonneg h0]; simp; ring
        · intro a _
          rw [nnz_const _ _ (4 * Nx), loop_length]
          · simp; ring
          · intro b _
            rw [nnz_const _ _ 4, loop_length]
            · simp; ring
            · intro e _; rfl
    | _ =>
      rw [hl] at h4
      constructor
      · rw [length_const _ _ (c.d.lens.numParams - 4).toNat, loop_length]
        · simp [hl, Lens.numParams, h0]
        · intro a _
          simp [loop_length, Ncore, Lens.hasCore, hl]
      · rw [nnz_const _ _ (c.d.lens.numParams - 4).toNat, loop_length]
        · simp [hl, Lens.numParams, h0, Lens.isSplined]
        · intro a _
          simp [nnz, loop_length, Ncore, Lens.hasCore, hl, Function.comp_def]

theorem regCenter_counts (c : Ctx) (h0 : 0 ≤ c.d.Nci) :
    ((regCenterRows c).length : Int) =
      (if c.d.sel.regularization && c.d.sel.core then c.d.Nci * 2 else 0) ∧
    (nnz (regCenterRows c) : Int) =
      (if c.d.sel.regularization && c.d.sel.core then c.d.Nci * 2 else 0) := by
  unfold regCenterRows
  rw [show c.d.lens.hasCore = true from rfl]
  cases hr : c.d.sel.regularization <;> cases hd : c.d.sel.core
  · simp [nnz]
  · simp [nnz]
  · simp [nnz]
  · simp only [Bool.and_true, if_true]
    constructor
    · rw [length_const _ _ 2, loop_length]
      · push_cast; rw [Int.toNat_of_nonneg h0]
      · intro a _; rfl
    · rw [nnz_const _ _ 2, loop_length]
      · push_cast; rw [Int.toNat_of_nonneg h0]
      · intro a _; rfl

theorem regUnity_counts (c : Ctx) :
    ((regUnityRows c).length : Int) =
      (if c.d.sel.unityCam01 && c.d.sel.extrinsics && decide (c.d.Nce > 0) then 1 else 0) ∧
    (nnz (regUnityRows c) : Int) =
      (if c.d.sel.unityCam01 && c.d.sel.extrinsics && decide (c.d.Nce > 0) then 3 else 0) := by
  unfold regUnityRows
  split <;> simp [nnz, loop_length]

/-! ### The property -/

theorem numIntrinsicsPerMeasurement_locked {d : Dims} (hc : d.sel.core = false)
    (hd : d.sel.distortions = false) : numIntrinsicsPerMeasurement d = 0 := by
  unfold numIntrinsicsPerMeasurement
  cases d.lens <;> simp [hc, hd, numIntrinsicsOpt, numDistortionsOpt]

theorem allRows_counts (c : Ctx) (ok : CtxOk c) :
    ∃ rows, allRows c = some rows ∧
      numMeasurements c.d c.points.length c.tri c.W c.H = some (rows.length : Int) ∧
      numJNonzero c.d c.W c.H c.boards c.points c.tri = some (nnz rows : Int) := by
  obtain ⟨ns, hns⟩ := sets_exists c.tri ok.term
  have hcount : numMeasurementsTriInitial c.tri (-1) = some ((ns.map choose2).sum : Int) :=
    numMeasurementsTriInitial_sets hns (-1)
  have hpairs := triPairs_sets hns 0
  -- the number of variables per triangulated observation
  set nv := fun o : TriObs =>
    if c.d.sel.extrinsics && decide (o.icamE ≥ 0) then numIntrinsicsPerMeasurement c.d + 6
    else numIntrinsicsPerMeasurement c.d with hnv
  have tri : ∀ N, ∃ rows : List Row, triRows c.d c.projTri 0 c.tri = some rows ∧
      triNnz nv N c.tri = some (N + nnz rows) ∧ ((ns.map choose2).sum = rows.length) := by
    intro N
    by_cases ht : c.tri = []
    · refine ⟨[], by simp [ht, triRows], by simp [ht, triNnz, nnz], ?_⟩
      rw [ht] at hpairs
      have := congrArg List.length (Option.some.inj hpairs)
      rw [allPairs_length] at this
      simpa using this.symm
    · obtain ⟨hc, hd, he⟩ := ok.triSel ht
      have hnv' : ∀ o, nv o = camNnz o := by
        intro o
        simp [hnv, he, numIntrinsicsPerMeasurement_locked hc hd, camNnz]
      rcases triRows_spec c.d c.projTri 0 c.tri nv hnv' 0 N with a | ⟨rows, ps, a, b, e, f⟩
      · rw [hpairs] at a; simp at a
      · refine ⟨rows, a, b, ?_⟩
        rw [hpairs] at e
        rw [← f, ← Option.some.inj e, allPairs_length]
  obtain ⟨trows, h1, -, h3⟩ := tri 0
  have hD := regDistortion_counts c ok.nci
  have hC := regCenter_counts c ok.nci
  have hU := regUnity_counts c
  refine ⟨_, by rw [allRows, h1]; rfl, ?_, ?_⟩
  · unfold numMeasurements numMeasurementsTri
    rw [hcount, Option.map_some]
    congr 1
    simp only [List.length_append]
    push_cast
    rw [hD.1, hC.1, hU.1, boardRows_length, pointRows_length, ← h3]
    simp only [numMeasurementsRegularization, numRegularizationPercamera, numMeasurementsBoards,
      numMeasurementsPoints, ok.nob]
    have hb : (if ((c.boards.length : Int)) ≤ 0 then (0 : Int) else c.boards.length * c.W * c.H * 2) =
        ((c.boards.length * (2 * (c.W * c.H)) : Nat) : Int) := by
      by_cases h : (c.boards.length : Int) ≤ 0
      · have : c.boards.length = 0 := by omega
        simp [this]
      · rw [if_neg h]; push_cast; ring
    rw [hb]
    push_cast
    cases c.d.sel.regularization <;> cases c.d.sel.core <;> simp <;> ring
  · unfold numJNonzero
    simp only [points_fold c.d _ c.points _ rfl]
    obtain ⟨trows', h1', h2', -⟩ := tri
      ((if c.d.sel.extrinsics then
          c.boards.foldl (fun N o => if o.icamE < 0 then N - 6 else N)
            (c.d.Nob * ((if c.d.sel.frames then 6 else 0) + (if c.d.sel.extrinsics then 6 else 0) +
              (if hasCalobjectWarp c.d.sel c.d.Nob then 2 else 0) + numIntrinsicsPerMeasurement c.d))
        else c.d.Nob * ((if c.d.sel.frames then 6 else 0) + (if c.d.sel.extrinsics then 6 else 0) +
              (if hasCalobjectWarp c.d.sel c.d.Nob then 2 else 0) + numIntrinsicsPerMeasurement c.d)) *
        (2 * c.W * c.H) + 2 * (c.points.map (pointNnz c.d)).sum)
    rw [h1] at h1'
    obtain rfl := Option.some.inj h1'
    rw [h2', Option.map_some]
    congr 1
    simp only [nnz_append]
    push_cast
    rw [hD.2, hC.2, hU.2, boardRows_nnz, pointRows_nnz, boards_total, boards_fold, ok.nob]
    simp only [numRegularizationPercamera]
    cases c.d.sel.regularization <;> cases c.d.sel.core <;> cases c.d.lens.isSplined <;>
      cases c.d.sel.extrinsics <;> simp <;> (try split) <;> ring

/-- C03. One evaluation of the cost function: no read past the end of the observations; the number of
residuals written is `mrcal_num_measurements()`; the number of Jacobian entries is
`_mrcal_num_j_nonzero()`; the row pointers start at 0, end at that number, are non-decreasing, and there's
one more of them than there are residuals. -/
theorem callback_fills_exactly (c : Ctx) (ok : CtxOk c) :
    ∃ out, optimizerCallback c = some out ∧
      numMeasurements c.d c.points.length c.tri c.W c.H = some (out.x.length : Int) ∧
      numJNonzero c.d c.W c.H c.boards c.points c.tri = some (out.cols.length : Int) ∧
      out.vals.length = out.cols.length ∧
      out.rowptr.length = out.x.length + 1 ∧
      out.rowptr.head? = some 0 ∧ out.rowptr.getLast? = some out.cols.length ∧
      out.rowptr.Pairwise (· ≤ ·) := by
  obtain ⟨rows, h1, h2, h3⟩ := allRows_counts c ok
  refine ⟨_, by rw [optimizerCallback, h1]; rfl, ?_⟩
  simp only [foldl_emit, List.nil_append, List.length_map, List.length_nil, flatMap_entries_length,
    List.length_append, starts_length, List.length_singleton]
  refine ⟨h2, h3, trivial, trivial, ?_, by simp, ?_⟩
  · cases rows <;> simp [starts, nnz]
  · simpa using starts_sorted 0 rows

/-- C03 (continued). The row pointers delimit the rows: between the `i`-th and the next one are
exactly the entries of the `i`-th measurement. -/
theorem callback_rows (c : Ctx) (rows : List Row) (out : Out) (h : allRows c = some rows)
    (ho : optimizerCallback c = some out) (i : Nat) (r : Row) (hr : rows[i]? = some r) :
    out.x[i]? = some r.x ∧
    ∃ a b, out.rowptr[i]? = some a ∧ out.rowptr[i + 1]? = some b ∧ b = a + r.entries.length ∧
      ((out.cols.zip out.vals).drop a).take (b - a) = r.entries := by
  rw [optimizerCallback, h, Option.map_some] at ho
  obtain rfl := Option.some.inj ho
  have hi : i < rows.length := (List.getElem?_eq_some_iff.1 hr).1
  have hri : rows[i] = r := (List.getElem?_eq_some_iff.1 hr).2
  simp only [foldl_emit, List.nil_append, List.length_nil, flatMap_entries_length]
  obtain ⟨s1, s2⟩ := starts_getElem 0 rows i hi
  simp only [zero_add] at s1 s2
  refine ⟨by simp [hr], _, _, s1, s2, ?_, ?_⟩
  · rw [List.take_add_one, nnz_append]
    simp [hr, nnz]
  · have hz : ((rows.flatMap fun r => r.entries.map (·.1)).zip
        (rows.flatMap fun r => r.entries.map (·.2))) = rows.flatMap (·.entries) := by
      clear hr hi hri h s1 s2 ho
      induction rows with
      | nil => rfl
      | cons a as ih =>
        simp only [List.flatMap_cons]
        rw [List.zip_append (by simp), ih]
        congr 1
        generalize a.entries = l
        induction l with
        | nil => rfl
        | cons x xs ih => simpa using ih
    rw [hz]
    have hsplit : rows = rows.take i ++ r :: rows.drop (i + 1) := by
      rw [← hri, List.cons_getElem_drop_succ, List.take_append_drop]
    have hlen : ((rows.take i).flatMap (·.entries)).length = nnz (rows.take i) := by
      simp [nnz, List.length_flatMap]
    have hdiff : nnz (rows.take (i + 1)) - nnz (rows.take i) = r.entries.length := by
      rw [List.take_add_one, nnz_append]
      simp [hr, nnz]
    rw [hdiff]
    rw [← hlen]
    have hfm : rows.flatMap (·.entries) = (rows.take i).flatMap (·.entries) ++
        (r.entries ++ (rows.drop (i + 1)).flatMap (·.entries)) := by
      conv_lhs => rw [hsplit]
      rw [List.flatMap_append, List.flatMap_cons]
    rw [hfm, List.drop_left, List.take_left]

/-! ### A concrete case -/

noncomputable def exProj : Proj := ⟨fun _ => 1, fun _ => 2, 4, fun _ => 1, fun _ => 1, fun _ _ => 1,
  fun _ _ => 1, fun _ _ => 1, fun _ _ => 1, fun _ _ => 1, fun _ _ => 1, fun _ _ => 1⟩

/-- splined model, two cameras (one at the reference), a board with an outlier corner, a fixed and a
non-fixed point -/
noncomputable def exCtx : Ctx where
  d := ⟨2, 1, 1, 2, 1, 2, ⟨true, true, true, true, true, true, false, true⟩, .splined 3 5 6 90⟩
  W := 2
  H := 2
  boards := [⟨0, -1, 0, fun _ _ => 0, fun i => if i = 0 then -1 else 1⟩, ⟨1, 0, 0, fun _ _ => 0, fun _ => 1⟩]
  points := [⟨0, -1, 0, fun _ => 0, 1⟩, ⟨1, 0, 1, fun _ => 0, -1⟩]
  tri := []
  projBoard _ _ := exProj
  projPoint _ := exProj
  projTri _ _ := ⟨0, fun _ => 0, fun _ => 0, fun _ => 0, fun _ => 0⟩
  intrinsics _ _ := 1
  t0 _ := 1
  imagersizes _ := 100

example : CtxOk exCtx := ⟨by decide, rfl, fun o h => by simp [exCtx] at h, fun h => absurd rfl h⟩
example : ∃ out, optimizerCallback exCtx = some out ∧ out.x.length = 2 * 4 * 2 + 2 * 2 + 2 * (60 + 2) + 1 ∧
    out.cols.length = 8 * (18 + 8) + 8 * (18 + 14) + 2 * (18 + 3) + 2 * (18 + 6) + 2 * (120 + 2) + 3 := by
  obtain ⟨out, h1, h2, h3, -⟩ := callback_fills_exactly exCtx
    ⟨by decide, rfl, fun o h => by simp [exCtx] at h, fun h => absurd rfl h⟩
  refine ⟨out, h1, ?_, ?_⟩
  · have : numMeasurements exCtx.d exCtx.points.length exCtx.tri exCtx.W exCtx.H =
      some (2 * 4 * 2 + 2 * 2 + 2 * (60 + 2) + 1) := by decide
    rw [this] at h2; have := Option.some.inj h2; omega
  · have : numJNonzero exCtx.d exCtx.W exCtx.H exCtx.boards exCtx.points exCtx.tri =
      some (8 * (18 + 8) + 8 * (18 + 14) + 2 * (18 + 3) + 2 * (18 + 6) + 2 * (120 + 2) + 3) := by
      decide
    rw [this] at h3; have := Option.some.inj h3; omega

/-- and one with triangulated points (intrinsics locked): -/
noncomputable def exCtxTri : Ctx :=
  { exCtx with
    d := { exCtx.d with sel := ⟨false, false, true, true, true, true, false, false⟩ }
    tri := [⟨false, false, 0, -1⟩, ⟨true, true, 1, 0⟩] }
example : CtxOk exCtxTri :=
  ⟨by decide, rfl, fun o h => by simp [exCtxTri] at h; simp [← h], fun _ => ⟨rfl, rfl, rfl⟩⟩

end Mrcal.Callback
