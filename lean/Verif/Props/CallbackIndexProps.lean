import Verif.Props.CallbackColumnsProps
/-
C45: the measurement-index functions name the residuals that the callback writes.
-/
namespace Mrcal.Callback
open Mrcal StateLayout Tri

theorem getElem?_flatMap_const {α β} (l : List α) (f : α → List β) (k : Nat) (hk : ∀ a ∈ l, (f a).length = k)
    (i j : Nat) (a : α) (hi : l[i]? = some a) (hj : j < k) :
    (l.flatMap f)[i * k + j]? = (f a)[j]? := by
  induction l generalizing i with
  | nil => simp at hi
  | cons b bs ih =>
    have hb : (f b).length = k := hk b (by simp)
    cases i with
    | zero =>
      simp at hi; subst hi
      rw [List.flatMap_cons, List.getElem?_append_left (by rw [hb]; omega)]
      simp
    | succ i =>
      simp at hi
      rw [List.flatMap_cons, List.getElem?_append_right (by rw [hb, Nat.succ_mul]; omega), hb]
      rw [← ih (fun a ha => hk a (by simp [ha])) i hi]
      congr 1
      rw [Nat.succ_mul]; omega

/-- what the callback puts in `x[i]`, given that `i`-th row -/
theorem x_of_rows (c : Ctx) (rows : List Row) (out : Out) (h : allRows c = some rows)
    (ho : optimizerCallback c = some out) (i : Nat) : out.x[i]? = rows[i]?.map (·.x) := by
  rw [optimizerCallback, h, Option.map_some] at ho
  obtain rfl := Option.some.inj ho
  simp [foldl_emit]

theorem allRows_split {c : Ctx} {rows : List Row} (h : allRows c = some rows) :
    ∃ t, triRows c.d c.projTri 0 c.tri = some t ∧
      rows = boardRows c ++ pointRows c ++ t ++ (regDistortionRows c ++ regCenterRows c ++ regUnityRows c) := by
  unfold allRows at h
  cases ht : triRows c.d c.projTri 0 c.tri with
  | none => simp [ht] at h
  | some t => rw [ht] at h; exact ⟨t, rfl, (Option.some.inj h).symm⟩

/-- C45. The residuals of corner (row,col) of board observation `i` are at
`measurement_index_boards(i) + 2*(row*W + col)` (x) and the one after it (y), and are
(predicted pixel - observed pixel)*weight, or 0 for an outlier. -/
theorem callback_board_residual (c : Ctx) (ok : CtxOk c) (out : Out) (ho : optimizerCallback c = some out)
    (i : Nat) (o : BoardObs) (hi : c.boards[i]? = some o) (r col xy : Nat) (hr : r < c.H) (hc : col < c.W)
    (hxy : xy < 2) :
    ∃ m : Nat, (m : Int) = measurementIndexBoards i c.d.Nob c.W c.H + (r * c.W + col) * 2 + xy ∧
      (0 ≤ o.weight (r * c.W + col) → out.x[m]? =
        some (((c.projBoard i (r * c.W + col)).q xy - o.obs (r * c.W + col) xy) * o.weight (r * c.W + col))) ∧
      (o.weight (r * c.W + col) < 0 → out.x[m]? = some 0) := by
  obtain ⟨rows, h1, -, -⟩ := allRows_counts c ok
  have hx := x_of_rows c rows out h1 ho
  obtain ⟨t, -, rfl⟩ := allRows_split h1
  have hil : i < c.boards.length := (List.getElem?_eq_some_iff.1 hi).1
  have hpt : r * c.W + col < c.W * c.H := by nlinarith
  have hrow : (boardRows c)[i * (2 * (c.W * c.H)) + ((r * c.W + col) * 2 + xy)]? =
      some (boardRow c.d o (c.projBoard i (r * c.W + col)) (fun k => c.intrinsics o.icamI k)
        (r * c.W + col) xy) := by
    unfold boardRows
    rw [getElem?_flatMap_const _ _ (2 * (c.W * c.H)) ?_ i _ (o, i) ?_ (by omega)]
    · simp only
      rw [getElem?_flatMap_const _ _ 2 ?_ (r * c.W + col) xy (r * c.W + col) (by simp [hpt]) hxy]
      · have : xy = 0 ∨ xy = 1 := by omega
        rcases this with rfl | rfl <;> rfl
      · simp
    · rintro ⟨o, k⟩ _
      rw [length_const _ _ 2 (by simp)]; simp; ring
    · simp [List.getElem?_zipIdx, hi]
  have hm : ((i * (2 * (c.W * c.H)) + ((r * c.W + col) * 2 + xy) : Nat) : Int) =
      measurementIndexBoards i c.d.Nob c.W c.H + (r * c.W + col) * 2 + xy := by
    unfold measurementIndexBoards numMeasurementsBoards
    rw [if_neg (by rw [ok.nob]; omega)]
    push_cast
    split
    · have : i = 0 := by omega
      subst this; simp
    · ring
  refine ⟨_, hm, ?_⟩
  have hb := boardRows_length c
  have hlt : i * (2 * (c.W * c.H)) + ((r * c.W + col) * 2 + xy) < (boardRows c).length :=
    (List.getElem?_eq_some_iff.1 hrow).1
  rw [hx, List.getElem?_append_left (by simp; omega), List.getElem?_append_left (by simp; omega),
    List.getElem?_append_left hlt, hrow]
  constructor
  · intro hw; simp [boardRow, hw]
  · intro hw; simp [boardRow, not_le.2 hw]

/-- C45. The residuals of point observation `i` are at `measurement_index_points(i)` (x) and the one after
it (y). -/
theorem callback_point_residual (c : Ctx) (ok : CtxOk c) (out : Out) (ho : optimizerCallback c = some out)
    (i : Nat) (o : PointObs) (hi : c.points[i]? = some o) (xy : Nat) (hxy : xy < 2) :
    ∃ m : Nat, (m : Int) = measurementIndexPoints i c.d.Nob c.points.length c.W c.H + xy ∧
      (0 < o.weight → out.x[m]? = some (((c.projPoint i).q xy - o.obs xy) * o.weight)) ∧
      (o.weight ≤ 0 → out.x[m]? = some 0) := by
  obtain ⟨rows, h1, -, -⟩ := allRows_counts c ok
  have hx := x_of_rows c rows out h1 ho
  obtain ⟨t, -, rfl⟩ := allRows_split h1
  have hil : i < c.points.length := (List.getElem?_eq_some_iff.1 hi).1
  have hrow : (pointRows c)[i * 2 + xy]? =
      some (pointRow c.d o (c.projPoint i) (fun k => c.intrinsics o.icamI k) xy) := by
    unfold pointRows
    rw [getElem?_flatMap_const _ _ 2 (by simp) i xy (o, i) (by simp [List.getElem?_zipIdx, hi]) hxy]
    have : xy = 0 ∨ xy = 1 := by omega
    rcases this with rfl | rfl <;> rfl
  have hlt : i * 2 + xy < (pointRows c).length := (List.getElem?_eq_some_iff.1 hrow).1
  refine ⟨(boardRows c).length + (i * 2 + xy), ?_, ?_⟩
  · unfold measurementIndexPoints numMeasurementsBoards
    rw [if_neg (by omega), boardRows_length, ok.nob]
    push_cast
    split
    · have : c.boards.length = 0 := by omega
      simp [this]
    · ring
  · rw [hx, List.getElem?_append_left (by simp; omega), List.getElem?_append_left (by simp; omega),
      List.getElem?_append_right (by omega), Nat.add_sub_cancel_left, hrow]
    constructor
    · intro hw; simp [pointRow, not_le.2 hw]
    · intro hw; simp [pointRow, hw]

/-- C45. The triangulated measurement `m` (counting from the first triangulated one) that
`decode_observation_indices_points_triangulated(m)` attributes to the observations (i0,i1) is the one the
callback fills with the error of those two. -/
theorem callback_tri_residual (c : Ctx) (ok : CtxOk c) (out : Out) (ho : optimizerCallback c = some out)
    (m : Nat) (dec : Decoded) (hd : decodeTri m c.tri = some (some dec)) (ne : c.tri ≠ []) :
    ∃ (start : Nat) (i j : Nat) (o0 o1 : TriObs),
      measurementIndexTri 0 c.d.Nob c.points.length c.tri c.W c.H = some (start : Int) ∧
      dec.iobservation0 = i ∧ dec.iobservation1 = j ∧ c.tri[i]? = some o0 ∧ c.tri[j]? = some o1 ∧
      (o0.outlier = false ∧ o1.outlier = false → out.x[start + m]? = some (c.projTri i j).err) ∧
      (o0.outlier = true ∨ o1.outlier = true → out.x[start + m]? = some 0) := by
  obtain ⟨rows, h1, -, -⟩ := allRows_counts c ok
  have hx := x_of_rows c rows out h1 ho
  obtain ⟨t, ht, rfl⟩ := allRows_split h1
  obtain ⟨L, hL, -, hnat, -, -⟩ := tri_measurements_are_pairs c.tri ok.term
  obtain ⟨q1, q2⟩ := tri_decode_inverts c.tri L hL m
  have hm : m < L.length := by
    by_contra hge
    rw [q2 (not_lt.1 hge)] at hd
    simp at hd
  obtain ⟨dec', hd', hLm, -⟩ := q1 hm
  rw [hd] at hd'
  obtain rfl := Option.some.inj (Option.some.inj hd')
  obtain ⟨i, j, hij⟩ := hnat _ (List.mem_of_getElem? hLm)
  rw [hij] at hLm
  obtain ⟨o0, o1, h0, h1', hrow⟩ := tri_rows_are_pairs c L t hL ht m i j hLm
  have hlt : m < t.length := (List.getElem?_eq_some_iff.1 hrow).1
  obtain ⟨ns, hns⟩ := sets_exists c.tri ok.term
  have hij' := Prod.mk.inj hij
  refine ⟨(boardRows c ++ pointRows c).length, i, j, o0, o1, ?_, hij'.1, hij'.2, h0, h1', ?_⟩
  · unfold measurementIndexTri
    have h0 : numMeasurementsTriInitial c.tri 0 = some 0 := by
      rw [numMeasurementsTriInitial_sets hns]; simp
    rw [if_neg (by simpa using ne), h0, Option.map_some]
    congr 1
    rw [List.length_append, boardRows_length, pointRows_length, ok.nob]
    unfold numMeasurementsBoards numMeasurementsPoints
    push_cast
    split
    · have : c.boards.length = 0 := by omega
      simp [this]
    · ring
  · rw [hx, List.getElem?_append_left (by simp; omega), List.getElem?_append_right (by simp),
      Nat.add_sub_cancel_left, hrow]
    constructor
    · rintro ⟨a, b⟩; simp [triRow, a, b]
    · rintro (a | a)
      · simp [triRow, a]
      · cases h : o0.outlier <;> simp [triRow, a, h]

/-- C45. The regularization residuals start at `measurement_index_regularization()` and go to the end. -/
theorem callback_reg_residuals (c : Ctx) (ok : CtxOk c) (out : Out) (ho : optimizerCallback c = some out)
    (hreg : 0 < numMeasurementsRegularization c.d) :
    ∃ start : Nat, measurementIndexRegularization c.d c.points.length c.tri c.W c.H = some (start : Int) ∧
      out.x.drop start = (regDistortionRows c ++ regCenterRows c ++ regUnityRows c).map (·.x) := by
  obtain ⟨rows, h1, h2, -⟩ := allRows_counts c ok
  have ho' := ho
  rw [optimizerCallback, h1, Option.map_some] at ho'
  obtain rfl := Option.some.inj ho'
  obtain ⟨t, ht, rfl⟩ := allRows_split h1
  refine ⟨(boardRows c ++ pointRows c ++ t).length, ?_, ?_⟩
  · unfold measurementIndexRegularization
    rw [if_neg (by omega)]
    unfold numMeasurements at h2
    cases hn : numMeasurementsTri c.tri with
    | none => simp [hn] at h2
    | some n =>
      rw [hn, Option.map_some] at h2
      have h2 := Option.some.inj h2
      rw [Option.map_some]
      congr 1
      have hD := (regDistortion_counts c ok.nci).1
      have hC := (regCenter_counts c ok.nci).1
      have hU := (regUnity_counts c).1
      have hR : ((regDistortionRows c ++ regCenterRows c ++ regUnityRows c).length : Int) =
          numMeasurementsRegularization c.d := by
        simp only [List.length_append]
        push_cast
        rw [hD, hC, hU]
        simp only [numMeasurementsRegularization, numRegularizationPercamera]
        cases c.d.sel.regularization <;> cases c.d.sel.core <;> simp <;> ring
      rw [List.length_append] at h2
      push_cast at h2
      rw [hR] at h2
      linarith
  · simp only [foldl_emit, List.nil_append]
    rw [List.map_append (l₁ := boardRows c ++ pointRows c ++ t)]
    rw [List.drop_left' (by simp)]

/-! ### A concrete case -/
example : exCtx.boards[1]? = some ⟨1, 0, 0, fun _ _ => 0, fun _ => 1⟩ ∧ 1 < exCtx.H ∧ 1 < exCtx.W := by
  simp [exCtx]
example : 0 < numMeasurementsRegularization exCtx.d := by decide
example : exCtxTri.tri ≠ [] ∧ ∃ dec, decodeTri (0 : Nat) exCtxTri.tri = some (some dec) := by
  refine ⟨by simp [exCtxTri], ?_⟩
  have hp : triPairs 0 exCtxTri.tri = some [(0, 1)] := by simp [exCtxTri, triPairs, triPairsInner]
  obtain ⟨d, hd, -⟩ := (tri_decode_inverts exCtxTri.tri _ hp 0).1 (by simp)
  exact ⟨d, hd⟩

end Mrcal.Callback
