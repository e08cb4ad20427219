import Verif.Props.PropagateExamples
import Verif.Props.PropagateHat
import Verif.Props.CallbackIndexProps
/-
The noise estimated from the residuals: mrcal/model_analysis.py:487-556
-/
namespace Mrcal.Propagate
open Mrcal Mrcal.Callback Mrcal.Pack Mrcal.StateLayout Matrix MeasureTheory

/-- **Specification**: measurement i is the x (xy=0) or y (xy=1) residual of an observation of a corner or a point that has a positive weight: it isn't an outlier -/
def Inlier (c : Ctx) (i : Nat) : Prop :=
  (∃ iobs o k xy, c.boards[iobs]? = some o ∧ k < c.W * c.H ∧ xy < 2 ∧ 0 < o.weight k ∧ i = 2 * (iobs * (c.W * c.H) + k) + xy) ∨
  ∃ iobs o xy, c.points[iobs]? = some o ∧ xy < 2 ∧ 0 < o.weight ∧ i = 2 * (c.boards.length * (c.W * c.H)) + 2 * iobs + xy

open Classical in
/-- **Specification**: how many inlier measurements there are -/
noncomputable def numInliers (c : Ctx) : Nat := ((Finset.range (numObserved c)).filter (Inlier c)).card

/-- **Specification**: the residuals of the perturbed problem after the step v, to first order -/
noncomputable def residuals (out : Out) (noise : Nat → ℝ) (v : Mem) : List ℝ := (List.range out.x.length).map fun i => out.x.getD i 0 + out.Jv i v - noise i

/-! ### Sums over the inliers -/

theorem sum_zipIdx {α : Type} (l : List α) (k : Nat) (F : α × Nat → ℝ) : ((l.zipIdx k).map F).sum = ∑ i ∈ Finset.range l.length, (l[i]?.elim 0 fun o => F (o, k + i)) := by
  induction l generalizing k with
  | nil => simp
  | cons a l ih =>
    rw [List.zipIdx_cons, List.map_cons, List.sum_cons, ih, List.length_cons, Finset.sum_range_succ', add_comm]
    congr 1
    refine Finset.sum_congr rfl fun i _ => ?_
    rw [List.getElem?_cons_succ, show k + 1 + i = k + (i + 1) by omega]

theorem sum_range_mul (a b : Nat) (h : Nat → ℝ) : ∑ i ∈ Finset.range (a * b), h i = ∑ p ∈ Finset.range a, ∑ q ∈ Finset.range b, h (p * b + q) := by
  induction a with
  | zero => simp
  | succ a ih => rw [Nat.succ_mul, Finset.sum_range_add, ih, Finset.sum_range_succ]

theorem sum_range_two_mul (a : Nat) (h : Nat → ℝ) : ∑ i ∈ Finset.range (2 * a), h i = ∑ p ∈ Finset.range a, (h (2 * p) + h (2 * p + 1)) := by
  rw [mul_comm, sum_range_mul]
  refine Finset.sum_congr rfl fun p _ => ?_
  rw [Finset.sum_range_succ, Finset.sum_range_one, mul_comm p 2, add_zero]

theorem sum_filterMap {α β : Type} (l : List α) (f : α → Option β) (g : β → ℝ) : ((l.filterMap f).map g).sum = (l.map fun a => (f a).elim 0 g).sum := by
  induction l with
  | nil => simp
  | cons a l ih =>
    rw [List.filterMap_cons]
    cases h : f a with
    | none => simp [ih, h]
    | some b => simp [ih, h]

theorem ravel_sum (l : List (ℝ × ℝ)) (f : ℝ → ℝ) : ((ravel l).map f).sum = (l.map fun p => f p.1 + f p.2).sum := by
  unfold ravel
  induction l with
  | nil => simp
  | cons a l ih => rw [List.flatMap_cons, List.map_append, List.sum_append, ih]; simp

theorem inlier_board (c : Ctx) (iobs k xy : Nat) (o : BoardObs) (ho : c.boards[iobs]? = some o) (hk : k < c.W * c.H) (hxy : xy < 2) :
    Inlier c (2 * (iobs * (c.W * c.H) + k) + xy) ↔ 0 < o.weight k := by
  constructor
  · rintro (⟨i', o', k', xy', h1, h2, h3, h4, h5⟩ | ⟨i', o', xy', h1, h2, h3, h5⟩)
    · have : iobs * (c.W * c.H) + k = i' * (c.W * c.H) + k' := by omega
      obtain ⟨rfl, rfl⟩ := (index_inj h2 hk).1 this
      rw [ho] at h1
      obtain rfl := Option.some.inj h1
      exact h4
    · have hlt := (List.getElem?_eq_some_iff.1 ho).1
      have : (iobs + 1) * (c.W * c.H) ≤ c.boards.length * (c.W * c.H) := Nat.mul_le_mul_right _ hlt
      rw [Nat.succ_mul] at this
      omega
  · intro h
    exact Or.inl ⟨iobs, o, k, xy, ho, hk, hxy, h, rfl⟩

theorem inlier_point (c : Ctx) (iobs xy : Nat) (o : PointObs) (ho : c.points[iobs]? = some o) (hxy : xy < 2) :
    Inlier c (2 * (c.boards.length * (c.W * c.H)) + 2 * iobs + xy) ↔ 0 < o.weight := by
  constructor
  · rintro (⟨i', o', k', xy', h1, h2, h3, h4, h5⟩ | ⟨i', o', xy', h1, h2, h3, h5⟩)
    · have hlt := (List.getElem?_eq_some_iff.1 h1).1
      have : (i' + 1) * (c.W * c.H) ≤ c.boards.length * (c.W * c.H) := Nat.mul_le_mul_right _ hlt
      rw [Nat.succ_mul] at this
      omega
    · obtain rfl : iobs = i' := by omega
      rw [ho] at h1
      obtain rfl := Option.some.inj h1
      exact h3
  · intro h
    exact Or.inr ⟨iobs, o, xy, ho, hxy, h, rfl⟩

open Classical in
theorem measurementsBoard_sum (c : Ctx) (x : List ℝ) (f : ℝ → ℝ) :
    ((ravel (measurementsBoard c none x)).map f).sum = ∑ i ∈ Finset.range (2 * (c.boards.length * (c.W * c.H))), if Inlier c i then f (x.getD i 0) else 0 := by
  rw [ravel_sum, sum_range_two_mul, sum_range_mul]
  unfold measurementsBoard
  rw [List.map_flatMap, sum_flatMap, sum_zipIdx]
  refine Finset.sum_congr rfl fun i hi => ?_
  obtain ⟨o, ho⟩ : ∃ o, c.boards[i]? = some o := ⟨_, List.getElem?_eq_getElem (Finset.mem_range.1 hi)⟩
  rw [ho, Option.elim_some, sum_filterMap, sum_range_list]
  refine Finset.sum_congr rfl fun k hk => ?_
  have hk := Finset.mem_range.1 hk
  have h0 := inlier_board c i k 0 o ho hk (by omega)
  have h1 := inlier_board c i k 1 o ho hk (by omega)
  have hm : (measurementIndexBoards 0 c.d.Nob c.W c.H).toNat = 0 := by
    unfold measurementIndexBoards numMeasurementsBoards
    split_ifs <;> simp
  rw [add_zero] at h0
  simp only [reduceCtorEq, false_and, exists_false, false_or, hm, zero_add]
  by_cases hw : o.weight k ≤ 0
  · rw [if_pos hw, if_neg (fun h => absurd (h0.1 h) (not_lt.2 hw)), if_neg (fun h => absurd (h1.1 h) (not_lt.2 hw))]
    simp
  · rw [if_neg hw, if_pos (h0.2 (not_le.1 hw)), if_pos (h1.2 (not_le.1 hw)), Option.elim_some, mul_comm]

open Classical in
theorem measurementsPoint_sum (c : Ctx) (ok : CtxOk c) (x : List ℝ) (f : ℝ → ℝ) :
    ((ravel (measurementsPoint c none x)).map f).sum = ∑ i ∈ Finset.range (2 * c.points.length),
      if Inlier c (2 * (c.boards.length * (c.W * c.H)) + i) then f (x.getD (2 * (c.boards.length * (c.W * c.H)) + i) 0) else 0 := by
  rw [ravel_sum, sum_range_two_mul]
  unfold measurementsPoint
  rw [sum_filterMap, sum_zipIdx]
  refine Finset.sum_congr rfl fun i hi => ?_
  have hi := Finset.mem_range.1 hi
  obtain ⟨o, ho⟩ : ∃ o, c.points[i]? = some o := ⟨_, List.getElem?_eq_getElem hi⟩
  rw [ho, Option.elim_some]
  have h0 := inlier_point c i 0 o ho (by omega)
  have h1 := inlier_point c i 1 o ho (by omega)
  have hm : (measurementIndexPoints 0 c.d.Nob c.points.length c.W c.H).toNat = 2 * (c.boards.length * (c.W * c.H)) := by
    have hb := numBoards_eq c ok
    unfold measurementIndexPoints
    rw [hb, if_neg (by omega), show (2 * (c.boards.length * (c.W * c.H)) + (0 : Int) * 2 : Int) = ((2 * (c.boards.length * (c.W * c.H)) : Nat) : Int) by push_cast; ring, Int.toNat_natCast]
  rw [add_zero] at h0
  simp only [reduceCtorEq, false_and, exists_false, false_or, hm, zero_add]
  rw [← Nat.add_assoc]
  by_cases hw : o.weight ≤ 0
  · rw [if_pos hw, if_neg (fun h => absurd (h0.1 h) (not_lt.2 hw)), if_neg (fun h => absurd (h1.1 h) (not_lt.2 hw))]
    simp
  · rw [if_neg hw, if_pos (h0.2 (not_le.1 hw)), if_pos (h1.2 (not_le.1 hw)), Option.elim_some, mul_comm i 2]

open Classical in
theorem measurements_sum (c : Ctx) (ok : CtxOk c) (x : List ℝ) (f : ℝ → ℝ) :
    ((ravel (measurementsBoard c none x)).map f).sum + ((ravel (measurementsPoint c none x)).map f).sum = ∑ i ∈ Finset.range (numObserved c), if Inlier c i then f (x.getD i 0) else 0 := by
  rw [measurementsBoard_sum c, measurementsPoint_sum c ok, numObserved, Finset.sum_range_add]

theorem length_sum (l : List ℝ) : (l.length : ℝ) = (l.map fun _ => (1 : ℝ)).sum := by
  induction l with
  | nil => simp
  | cons a l ih => rw [List.length_cons, List.map_cons, List.sum_cons, ← ih]; push_cast; ring

open Classical in
/-- C80 (what is computed). The estimate is available if and only if there are more inlier measurements than state variables. It's the sum of their squares, divided by the difference -/
theorem estimate_formula (c : Ctx) (ok : CtxOk c) (hn : 0 ≤ numStates c.d) (x : List ℝ) :
    ((observedPixelUncertainty c x).isSome = true ↔ numStates c.d < numInliers c) ∧
    ∀ s, observedPixelUncertainty c x = some s → 0 ≤ s ∧ s ^ 2 * (numInliers c - numStates c.d) = ∑ i ∈ Finset.range (numObserved c), if Inlier c i then x.getD i 0 ^ 2 else 0 := by
  have hN : (ravel (measurementsBoard c none x)).length + (ravel (measurementsPoint c none x)).length = numInliers c := by
    have := measurements_sum c ok x fun _ => 1
    rw [← length_sum, ← length_sum, Finset.sum_boole] at this
    unfold numInliers
    exact_mod_cast this
  have hS : (if (ravel (measurementsBoard c none x)).length ≠ 0 then ((ravel (measurementsBoard c none x)).map fun y => y * y).sum else 0) +
      (if (ravel (measurementsPoint c none x)).length ≠ 0 then ((ravel (measurementsPoint c none x)).map fun y => y * y).sum else 0) =
      ∑ i ∈ Finset.range (numObserved c), if Inlier c i then x.getD i 0 ^ 2 else 0 := by
    have := measurements_sum c ok x fun y => y * y
    simp only [pow_two]
    rw [← this]
    congr 1
    all_goals
      split_ifs with h
      · rfl
      · rw [not_not, List.length_eq_zero_iff] at h
        rw [h]; simp
  unfold observedPixelUncertainty
  simp only [hN, hS]
  have hpos : 0 ≤ ∑ i ∈ Finset.range (numObserved c), if Inlier c i then x.getD i 0 ^ 2 else 0 :=
    Finset.sum_nonneg fun i _ => by split_ifs; exacts [sq_nonneg _, le_refl _]
  generalize (∑ i ∈ Finset.range (numObserved c), if Inlier c i then x.getD i 0 ^ 2 else 0) = S at *
  generalize numInliers c = N at *
  split_ifs with h1 h2
  · refine ⟨⟨fun h => by simp at h, fun h => by omega⟩, fun s h => by simp at h⟩
  · refine ⟨⟨fun h => by simp at h, fun h => by omega⟩, fun s h => by simp at h⟩
  · refine ⟨⟨fun _ => by omega, fun _ => rfl⟩, ?_⟩
    rintro s h
    obtain rfl := Option.some.inj h
    refine ⟨by positivity, ?_⟩
    have hNp : (0 : ℝ) < N := by exact_mod_cast Nat.pos_of_ne_zero h1
    have hlt : ((numStates c.d : Int) : ℝ) < N := by
      have : numStates c.d < (N : Int) := by omega
      exact_mod_cast this
    have hf : 0 < 1 - (numStates c.d : ℝ) / N := by
      rw [sub_pos, div_lt_one hNp]; exact hlt
    rw [div_pow, Real.sq_sqrt (by positivity), Real.sq_sqrt hf.le]
    have : (N : ℝ) - numStates c.d ≠ 0 := by linarith
    field_simp

/-! ### Outliers have no gradient -/

theorem intrinsicsEntries_zero (d : Dims) (iv : Int) (p : Proj) (f : Nat → ℝ) (xy : Nat) : ∀ e ∈ intrinsicsEntries d iv p f 0 xy, e.2 = 0 := by
  intro e he
  unfold intrinsicsEntries at he
  rw [List.mem_append] at he
  rcases he with he | he
  · split at he
    · simp at he; rcases he with rfl | rfl <;> rfl
    · simp at he
  · split at he
    · cases hl : d.lens <;> simp only [hl, storeSpline, List.mem_flatMap, List.mem_map] at he
      all_goals
        first
        | (obtain ⟨_, _, rfl⟩ := he; simp)
        | (obtain ⟨_, _, _, _, rfl⟩ := he; simp)
    · simp at he

theorem boardRow_zero (d : Dims) (o : BoardObs) (p : Proj) (f : Nat → ℝ) (ipt xy : Nat) (h : o.weight ipt ≤ 0) : ∀ e ∈ (boardRow d o p f ipt xy).entries, e.2 = 0 := by
  rcases lt_or_eq_of_le h with h | h
  · exact ((outlier_contributes_nothing d f xy p).1 o ipt h).2
  · intro e he
    unfold boardRow at he
    simp only [h, ge_iff_le, le_refl, if_true, mul_zero, zero_mul, List.mem_append] at he
    rcases he with ((he | he) | he) | he
    · exact intrinsicsEntries_zero _ _ _ _ _ e he
    · split_ifs at he <;> simp [store3] at he
      rcases he with rfl | rfl | rfl | rfl | rfl | rfl <;> rfl
    · split_ifs at he <;> simp [store3] at he
      rcases he with rfl | rfl | rfl | rfl | rfl | rfl <;> rfl
    · split_ifs at he
      · obtain ⟨_, _, rfl⟩ := List.mem_map.1 he
        rfl
      · simp at he

/-- measurements that aren't inliers don't depend on the state -/
theorem outlier_row (c : Ctx) (ok : CtxOk c) (out : Out) (ho : optimizerCallback c = some out) (i : Nat) (hi : i < numObserved c) (hn : ¬ Inlier c i) (v : Mem) : out.Jv i v = 0 := by
  obtain ⟨rows, h1, -, -⟩ := allRows_counts c ok
  have hrow : ∃ r, rows[i]? = some r ∧ ∀ e ∈ r.entries, e.2 = 0 := by
    obtain ⟨t, -, rfl⟩ := allRows_split h1
    have hbl := boardRows_length c
    by_cases hb : i < 2 * (c.boards.length * (c.W * c.H))
    · have hWH : 0 < c.W * c.H := by
        rcases Nat.eq_zero_or_pos (c.W * c.H) with h | h
        · rw [h] at hb; omega
        · exact h
      have hk : (i / 2) % (c.W * c.H) < c.W * c.H := Nat.mod_lt _ hWH
      have hio : (i / 2) / (c.W * c.H) < c.boards.length := by
        rw [Nat.div_lt_iff_lt_mul hWH]; omega
      have hxy : i % 2 < 2 := Nat.mod_lt _ (by omega)
      have hi' : i = 2 * ((i / 2) / (c.W * c.H) * (c.W * c.H) + (i / 2) % (c.W * c.H)) + i % 2 := by
        have := Nat.div_add_mod (i / 2) (c.W * c.H)
        rw [mul_comm] at this
        rw [this]
        omega
      generalize (i / 2) / (c.W * c.H) = p at *
      generalize (i / 2) % (c.W * c.H) = k at *
      generalize i % 2 = xy at *
      subst hi'
      obtain ⟨o, hoo⟩ : ∃ o, c.boards[p]? = some o := ⟨_, List.getElem?_eq_getElem hio⟩
      rw [inlier_board c p k xy o hoo hk hxy, not_lt] at hn
      refine ⟨boardRow c.d o (c.projBoard p k) (fun k => c.intrinsics o.icamI k) k xy, ?_, boardRow_zero _ _ _ _ _ _ hn⟩
      have hrow : (boardRows c)[p * (2 * (c.W * c.H)) + (k * 2 + xy)]? = some (boardRow c.d o (c.projBoard p k) (fun k => c.intrinsics o.icamI k) k xy) := by
        unfold boardRows
        rw [getElem?_flatMap_const _ _ (2 * (c.W * c.H)) ?_ p _ (o, p) ?_ (by omega)]
        · simp only
          rw [getElem?_flatMap_const _ _ 2 ?_ k xy k (by simp [hk]) hxy]
          · have : xy = 0 ∨ xy = 1 := by omega
            rcases this with rfl | rfl <;> rfl
          · simp
        · rintro ⟨o, k⟩ _
          rw [length_const _ _ 2 (by simp)]; simp; ring
        · simp [List.getElem?_zipIdx, hoo]
      have hlt := (List.getElem?_eq_some_iff.1 hrow).1
      have e : 2 * (p * (c.W * c.H) + k) + xy = p * (2 * (c.W * c.H)) + (k * 2 + xy) := by ring
      rw [e, List.getElem?_append_left (by simp; omega), List.getElem?_append_left (by simp; omega), List.getElem?_append_left hlt, hrow]
    · have hx : i % 2 < 2 := Nat.mod_lt _ (by omega)
      unfold numObserved at hi
      have hio : (i - 2 * (c.boards.length * (c.W * c.H))) / 2 < c.points.length := by omega
      have hxy : (i - 2 * (c.boards.length * (c.W * c.H))) % 2 < 2 := Nat.mod_lt _ (by omega)
      have hi' : i = 2 * (c.boards.length * (c.W * c.H)) + 2 * ((i - 2 * (c.boards.length * (c.W * c.H))) / 2) + (i - 2 * (c.boards.length * (c.W * c.H))) % 2 := by omega
      generalize (i - 2 * (c.boards.length * (c.W * c.H))) / 2 = p at *
      generalize (i - 2 * (c.boards.length * (c.W * c.H))) % 2 = xy at *
      subst hi'
      obtain ⟨o, hoo⟩ : ∃ o, c.points[p]? = some o := ⟨_, List.getElem?_eq_getElem hio⟩
      rw [inlier_point c p xy o hoo hxy, not_lt] at hn
      refine ⟨pointRow c.d o (c.projPoint p) (fun k => c.intrinsics o.icamI k) xy, ?_, ((outlier_contributes_nothing c.d (fun k => c.intrinsics o.icamI k) xy _).2.1 o hn).2⟩
      have hrow : (pointRows c)[p * 2 + xy]? = some (pointRow c.d o (c.projPoint p) (fun k => c.intrinsics o.icamI k) xy) := by
        unfold pointRows
        rw [getElem?_flatMap_const _ _ 2 (by simp) p xy (o, p) (by simp [List.getElem?_zipIdx, hoo]) hxy]
        have : xy = 0 ∨ xy = 1 := by omega
        rcases this with rfl | rfl <;> rfl
      have hlt := (List.getElem?_eq_some_iff.1 hrow).1
      have hbl' : (boardRows c).length = 2 * (c.boards.length * (c.W * c.H)) := by rw [hbl]; ring
      have e : 2 * (c.boards.length * (c.W * c.H)) + 2 * p + xy = (boardRows c).length + (p * 2 + xy) := by rw [hbl']; ring
      rw [e, List.getElem?_append_left (by simp; omega), List.getElem?_append_left (by simp; omega), List.getElem?_append_right (by omega), Nat.add_sub_cancel_left, hrow]
  obtain ⟨r, hr, hz⟩ := hrow
  obtain ⟨-, a, b, ha, hb, -, he⟩ := callback_rows c rows out h1 ho i r hr
  unfold Out.Jv
  simp only [List.getD_eq_getElem?_getD, ha, hb, Option.getD_some, he]
  refine List.sum_eq_zero fun y hy => ?_
  obtain ⟨e, hee, rfl⟩ := List.mem_map.1 hy
  rw [hz e hee, zero_mul]

open Classical in
/-- the mean sum of squares of the residuals of the inliers -/
theorem residual_moment (c : Ctx) (ok : CtxOk c) (idx : IdxOk c) (out : Out) (ho : optimizerCallback c = some out) (h0 : 0 < numStates c.d) (hrank : FullRank out (numStates c.d))
    (hobs : (numObserved c : Int) + numMeasurementsRegularization c.d = out.x.length) (hopt : IsOptimum out (fun _ => 0) fun _ => 0)
    (hfit : ∀ i < numObserved c, Inlier c i → out.x.getD i 0 = 0) (σ : ℝ)
    {Ω : Type} [MeasurableSpace Ω] (μ : Measure Ω) (noise : Ω → Nat → ℝ) (hw : WhiteNoise μ noise (numObserved c) σ) (step : Ω → Mem) (hs : ∀ ω, IsOptimum out (noise ω) (step ω)) :
    ∃ R : ℝ, 0 ≤ R ∧ R ≤ numStates c.d ∧ (numMeasurementsRegularization c.d = 0 → R = 0) ∧
      ((∃ i v, numObserved c ≤ i ∧ i < out.x.length ∧ out.Jv i v ≠ 0) → 0 < R) ∧
      Integrable (fun ω => ∑ i ∈ Finset.range (numObserved c), if Inlier c i then (residuals out (noise ω) (step ω)).getD i 0 ^ 2 else 0) μ ∧
      ∫ ω, (∑ i ∈ Finset.range (numObserved c), if Inlier c i then (residuals out (noise ω) (step ω)).getD i 0 ^ 2 else 0) ∂μ = (numInliers c - numStates c.d + R) * σ ^ 2 := by
  have hr := csrOf_inRange c ok idx out ho h0
  have hinj := (fullRank_iff c ok idx out ho h0).1 hrank
  have hlen := (out_lengths c ok out ho).2
  have hreg := regularization_nonneg c ok
  have hno : numObserved c ≤ out.x.length := by omega
  have e0 := (isOptimum_iff c ok idx out ho h0 _ _).1 hopt
  have e1 := fun ω => (isOptimum_iff c ok idx out ho h0 _ _).1 (hs ω)
  have hJv : ∀ (i : Fin out.x.length) v, out.Jv i v = ((csrOf out).dense out.x.length (numStates c.d).toNat *ᵥ fun j => v (j : Nat)) i := by
    intro i v
    rw [← dense_mulVec _ _ _ hr, csrOf_Jv out hlen]
  obtain ⟨J, hJ⟩ : ∃ J, J = (csrOf out).dense out.x.length (numStates c.d).toNat := ⟨_, rfl⟩
  rw [← hJ] at hinj e0 hJv
  simp only [← hJ] at e1
  have hn : ((numStates c.d).toNat : ℝ) = numStates c.d := by
    have : (((numStates c.d).toNat : Int) : ℝ) = numStates c.d := by rw [Int.toNat_of_nonneg h0.le]
    exact_mod_cast this
  obtain ⟨inl, hinl⟩ : ∃ inl : Fin out.x.length → Prop, ∀ i, inl i ↔ ((i : Nat) < numObserved c ∧ Inlier c i) := ⟨_, fun _ => Iff.rfl⟩
  obtain ⟨reg, hrg⟩ : ∃ reg : Fin out.x.length → Prop, ∀ i, reg i ↔ ¬ ((i : Nat) < numObserved c) := ⟨_, fun _ => Iff.rfl⟩
  obtain ⟨b1, b2, b3⟩ := hat_bounds J hinj reg
  have hres := hat_residual J hinj inl reg (fun i h h' => (hrg i).1 h' ((hinl i).1 h).1) (by
    intro i h1 h2 j
    have h2 : (i : Nat) < numObserved c := by
      by_contra h
      exact h2 ((hrg i).2 h)
    have := outlier_row c ok out ho i h2 (fun h => h1 ((hinl i).2 ⟨h2, h⟩)) fun s => if s = ((j : Nat) : Int) then 1 else 0
    rw [hJv] at this
    rw [← this, mulVec, dotProduct, Finset.sum_eq_single j]
    · simp
    · intro k _ hk
      rw [if_neg (by intro h; exact hk (Fin.ext (by exact_mod_cast h))), mul_zero]
    · intro h; exact absurd (Finset.mem_univ _) h)
  refine ⟨_, b1, by rw [← hn]; exact b2, ?_, ?_, ?_⟩
  · intro h
    refine Finset.sum_eq_zero fun i _ => if_neg ?_
    rw [hrg, not_not]
    have := i.2
    omega
  · rintro ⟨i, v, hi, hi', hne⟩
    refine b3 ⟨⟨i, hi'⟩, (hrg _).2 (by simpa using hi), ?_⟩
    by_contra hz
    simp only [not_exists, not_not] at hz
    refine hne ?_
    rw [hJv ⟨i, hi'⟩, mulVec, dotProduct]
    exact Finset.sum_eq_zero fun k _ => by rw [hz, zero_mul]
  · -- the residuals are linear in the noise
    have key : ∀ ω (i : Fin out.x.length), (i : Nat) < numObserved c → Inlier c i →
        (residuals out (noise ω) (step ω)).getD i 0 = - ∑ j, ((if i = j then 1 else 0) - hat J i j) * noise ω j := by
      intro ω i hi hin
      have e2 : Jᵀ *ᵥ (fun i : Fin out.x.length => out.x.getD i 0) = 0 := by
        rw [show (fun _ : Fin (numStates c.d).toNat => (0 : ℝ)) = 0 from rfl, Matrix.mulVec_zero, add_zero] at e0
        simpa using e0
      have e3 : (Jᵀ * J) *ᵥ (fun j => step ω (j : Nat)) = Jᵀ *ᵥ fun i => noise ω i := by
        have := e1 ω
        rw [show (fun i : Fin out.x.length => out.x.getD i 0 - noise ω i) = (fun i : Fin out.x.length => out.x.getD i 0) - fun i : Fin out.x.length => noise ω i from rfl, mulVec_add, mulVec_sub, e2, zero_sub,
          mulVec_mulVec] at this
        exact (neg_add_eq_zero.1 this).symm
      have e4 : J *ᵥ (fun j => step ω (j : Nat)) = hat J *ᵥ fun i => noise ω i := by
        unfold hat
        rw [← mulVec_mulVec, ← e3, ← mulVec_mulVec, mulVec_mulVec _ (Jᵀ * J)⁻¹, nonsing_inv_mul _ (gram_det J hinj), one_mulVec]
      have e5 : (residuals out (noise ω) (step ω)).getD i 0 = out.x.getD i 0 + out.Jv i (step ω) - noise ω i := by
        unfold residuals
        rw [List.getD_eq_getElem _ _ (by simp)]
        simp
      rw [e5, hfit i hi hin, hJv, e4, mulVec, dotProduct]
      simp only [sub_mul, Finset.sum_sub_distrib, ite_mul, one_mul, zero_mul, Finset.sum_ite_eq, Finset.mem_univ, if_true]
      ring
    have hsum : ∀ ω, (∑ i ∈ Finset.range (numObserved c), if Inlier c i then (residuals out (noise ω) (step ω)).getD i 0 ^ 2 else 0) =
        ∑ i : Fin out.x.length, if inl i then (∑ j, ((if i = j then 1 else 0) - hat J i j) * noise ω j) * (∑ j, ((if i = j then 1 else 0) - hat J i j) * noise ω j) else 0 := by
      intro ω
      rw [sum_leading out.x.length _ hno]
      refine Finset.sum_congr rfl fun i _ => ?_
      by_cases hi : (i : Nat) < numObserved c
      · by_cases hin : Inlier c i
        · rw [if_pos hi, if_pos hin, if_pos ((hinl i).2 ⟨hi, hin⟩), key ω i hi hin]; ring
        · rw [if_pos hi, if_neg hin, if_neg (fun h => hin ((hinl i).1 h).2)]
      · rw [if_neg hi, if_neg (fun h => hi ((hinl i).1 h).1)]
    simp only [hsum]
    have hint : ∀ i : Fin out.x.length, Integrable (fun ω => if inl i then (∑ j, ((if i = j then 1 else 0) - hat J i j) * noise ω j) * (∑ j, ((if i = j then 1 else 0) - hat J i j) * noise ω j) else 0) μ := by
      intro i
      split_ifs
      · exact (white_moment hw out.x.length _ _).1
      · exact integrable_zero _ _ _
    refine ⟨integrable_finsetSum _ fun i _ => hint i, ?_⟩
    rw [integral_finsetSum _ fun i _ => hint i]
    have hcard : ((Finset.univ.filter inl).card : ℝ) = numInliers c := by
      unfold numInliers
      rw [← Finset.sum_boole, ← Finset.sum_boole, sum_leading out.x.length _ hno]
      refine Finset.sum_congr rfl fun i _ => ?_
      by_cases hi : (i : Nat) < numObserved c
      · simp [hi, hinl]
      · simp [hi, hinl]
    rw [hcard, hn] at hres
    rw [← hres, Finset.sum_mul]
    refine Finset.sum_congr rfl fun i _ => ?_
    split_ifs with hi
    · rw [(white_moment hw out.x.length _ _).2]
      congr 1
      refine Finset.sum_congr rfl fun j _ => ?_
      by_cases hj : (j : Nat) < numObserved c
      · rw [if_pos hj, if_pos (fun h => (hrg j).1 h hj)]
      · rw [if_neg hj, if_neg (not_not.mpr ((hrg j).2 hj))]
    · simp

/-- C80 (mean of the estimate). The state is optimal, and without noise the model fits the observations exactly. The observations get noise, the problem is re-optimized (to first order), and the noise is estimated from
the residuals. The mean of the squared estimate is the true variance if there's no regularization; with regularization it isn't smaller, and is larger by less than the factor N/(N-Nstate) -/
theorem estimate_mean (c : Ctx) (ok : CtxOk c) (idx : IdxOk c) (out : Out) (ho : optimizerCallback c = some out) (h0 : 0 < numStates c.d) (hrank : FullRank out (numStates c.d))
    (hobs : (numObserved c : Int) + numMeasurementsRegularization c.d = out.x.length) (hopt : IsOptimum out (fun _ => 0) fun _ => 0)
    (hfit : ∀ i < numObserved c, Inlier c i → out.x.getD i 0 = 0) (σ : ℝ)
    {Ω : Type} [MeasurableSpace Ω] (μ : Measure Ω) (noise : Ω → Nat → ℝ) (hw : WhiteNoise μ noise (numObserved c) σ) (step : Ω → Mem) (hs : ∀ ω, IsOptimum out (noise ω) (step ω))
    (s : Ω → ℝ) (hest : ∀ ω, observedPixelUncertainty c (residuals out (noise ω) (step ω)) = some (s ω)) (hlt : numStates c.d < numInliers c) :
    Integrable (fun ω => s ω ^ 2) μ ∧ σ ^ 2 ≤ ∫ ω, s ω ^ 2 ∂μ ∧ ∫ ω, s ω ^ 2 ∂μ ≤ σ ^ 2 * (numInliers c / (numInliers c - numStates c.d)) ∧
      (numMeasurementsRegularization c.d = 0 → ∫ ω, s ω ^ 2 ∂μ = σ ^ 2) ∧
      -- any effect of the state on the regularization gives a bias
      ((∃ i v, numObserved c ≤ i ∧ i < out.x.length ∧ out.Jv i v ≠ 0) → σ ≠ 0 → σ ^ 2 < ∫ ω, s ω ^ 2 ∂μ) := by
  classical
  obtain ⟨R, R0, R1, R2, R3, hi, hm⟩ := residual_moment c ok idx out ho h0 hrank hobs hopt hfit σ μ noise hw step hs
  have hD : (0 : ℝ) < numInliers c - numStates c.d := by
    rw [sub_pos]; exact_mod_cast hlt
  have e : ∀ ω, s ω ^ 2 = (∑ i ∈ Finset.range (numObserved c), if Inlier c i then (residuals out (noise ω) (step ω)).getD i 0 ^ 2 else 0) / (numInliers c - numStates c.d) := by
    intro ω
    rw [eq_div_iff hD.ne']
    exact ((estimate_formula c ok h0.le _).2 (s ω) (hest ω)).2
  have hval : ∫ ω, s ω ^ 2 ∂μ = σ ^ 2 + R * σ ^ 2 / (numInliers c - numStates c.d) := by
    simp only [e]
    rw [integral_div, hm]
    field_simp
  refine ⟨by simp only [e]; exact hi.div_const _, ?_, ?_, ?_, ?_⟩
  · rw [hval]
    have : 0 ≤ R * σ ^ 2 / (numInliers c - numStates c.d) := by positivity
    linarith
  · rw [hval]
    have : σ ^ 2 * (numInliers c / (numInliers c - numStates c.d)) = σ ^ 2 + numStates c.d * σ ^ 2 / (numInliers c - numStates c.d) := by
      field_simp; ring
    rw [this]
    have : R * σ ^ 2 / (numInliers c - numStates c.d) ≤ numStates c.d * σ ^ 2 / (numInliers c - numStates c.d) :=
      div_le_div_of_nonneg_right (mul_le_mul_of_nonneg_right R1 (sq_nonneg σ)) hD.le
    linarith
  · intro h
    rw [hval, R2 h]; simp
  · intro h hσ
    rw [hval]
    have := R3 h
    have : 0 < R * σ ^ 2 / (numInliers c - numStates c.d) := by positivity
    linarith

/-! ### A problem with regularization: three corners, and the focal lengths and the center pixel are optimized -/

noncomputable def exProjR (ipt : Nat) : Proj := { exProjU 0 with q := fun _ => 0, dfxy := fun _ => ipt }

noncomputable def exR : Ctx where
  d := ⟨1, 0, 1, 0, 0, 1, ⟨true, false, false, false, false, true, false, false⟩, .pinhole⟩
  W := 3
  H := 1
  boards := [⟨0, -1, 0, fun _ _ => 0, fun _ => 1⟩]
  points := []
  tri := []
  projBoard _ ipt := exProjR ipt
  projPoint _ := exProjR 0
  projTri _ _ := ⟨0, fun _ => 0, fun _ => 0, fun _ => 0, fun _ => 0⟩
  intrinsics _ _ := 49.5
  t0 _ := 1
  imagersizes _ := 100

theorem exR_ok : CtxOk exR := ⟨by decide, rfl, fun o h => by simp [exR] at h, fun h => absurd rfl h⟩

theorem exR_idx : IdxOk exR where
  wf := ⟨by decide, by decide, by decide, by decide, by decide⟩
  boards := by intro o ho; simp [exR] at ho; subst ho; simp [exR]
  points := by simp [exR]
  tri := by simp [exR]
  projBoard := by intro i j; simp [exR, IvarOk]
  projPoint := by intro i; simp [exR, IvarOk]
  grid := by intro _ _ _ _ h; simp [exR] at h

theorem exR_states : numStates exR.d = 4 := by decide

theorem exR_out : optimizerCallback exR = some { x := [0, 0, 0, 0, 0, 0, 0, 0], rowptr := [0, 2, 4, 6, 8, 10, 12, 13, 14], cols := [0, 2, 1, 3, 0, 2, 1, 3, 0, 2, 1, 3, 2, 3], vals := [0, scaleCenter, 0, scaleCenter, scaleFocal, scaleCenter, scaleFocal, scaleCenter, 2 * scaleFocal, scaleCenter, 2 * scaleFocal, scaleCenter, 0.1 / (100 * 0.1) * scaleCenter, 0.1 / (100 * 0.1) * scaleCenter] } := by
  have hl : Callback.loop 1 = [0] := by decide
  have hp : (Lens.pinhole.hasCore) = true := rfl
  have hsi : stateIndexIntrinsics 0 exR.d = 0 := by decide
  have hc : (49.5 : ℝ) - 0.5 * (100 - 1) = 0 := by norm_num
  simp only [exR] at hsi
  simp [optimizerCallback, allRows, triRows, exR, boardRows, pointRows, regDistortionRows, regCenterRows, regUnityRows, boardRow, intrinsicsEntries, hasCalobjectWarp, hl, exProjR, exProjU, emit, hp, hsi, hc,
    List.range_succ]

theorem exR_Jv (v : Mem) (out : Out) (ho : optimizerCallback exR = some out) : out.x = [0, 0, 0, 0, 0, 0, 0, 0] ∧ out.Jv 0 v = scaleCenter * v 2 ∧ out.Jv 1 v = scaleCenter * v 3 ∧
    out.Jv 2 v = scaleFocal * v 0 + scaleCenter * v 2 ∧ out.Jv 3 v = scaleFocal * v 1 + scaleCenter * v 3 ∧ out.Jv 6 v = 0.1 / (100 * 0.1) * scaleCenter * v 2 := by
  rw [exR_out] at ho
  obtain rfl := Option.some.inj ho
  simp [Out.Jv]

theorem exR_rank (out : Out) (ho : optimizerCallback exR = some out) : FullRank out (numStates exR.d) := by
  intro v hv j hj hj'
  obtain ⟨hx, h0, h1, h2, h3, -⟩ := exR_Jv v out ho
  have hl : out.x.length = 8 := by rw [hx]; rfl
  have hs : scaleCenter ≠ 0 := by unfold scaleCenter; norm_num
  have hf : scaleFocal ≠ 0 := by unfold scaleFocal; norm_num
  rw [exR_states] at hj'
  have e0 := hv 0 (by omega)
  have e1 := hv 1 (by omega)
  have e2 := hv 2 (by omega)
  have e3 := hv 3 (by omega)
  rw [h0] at e0
  rw [h1] at e1
  rw [h2, e0, add_zero] at e2
  rw [h3, e1, add_zero] at e3
  obtain rfl | rfl | rfl | rfl : j = 0 ∨ j = 1 ∨ j = 2 ∨ j = 3 := by omega
  · exact (mul_eq_zero.1 e2).resolve_left hf
  · exact (mul_eq_zero.1 e3).resolve_left hf
  · exact (mul_eq_zero.1 e0).resolve_left hs
  · exact (mul_eq_zero.1 e1).resolve_left hs

theorem exR_x (out : Out) (ho : optimizerCallback exR = some out) (i : Nat) : out.x.getD i 0 = 0 := by
  rw [(exR_Jv (fun _ => 0) out ho).1]
  by_cases h : i < 8
  · interval_cases i <;> rfl
  · rw [List.getD_eq_default _ _ (by simp; omega)]

theorem exR_opt (out : Out) (ho : optimizerCallback exR = some out) : IsOptimum out (fun _ => 0) fun _ => 0 := by
  intro w
  have : cost out (fun _ => 0) (fun _ => 0) = 0 := by
    unfold cost
    refine Finset.sum_eq_zero fun i _ => ?_
    rw [exR_x out ho]
    simp [Out.Jv]
  rw [this]
  exact Finset.sum_nonneg fun i _ => sq_nonneg _

theorem exR_inliers : numInliers exR = 6 := by
  classical
  have hn : numObserved exR = 6 := rfl
  unfold numInliers
  rw [hn, Finset.filter_true_of_mem, Finset.card_range]
  intro i hi
  have hi := Finset.mem_range.1 hi
  refine Or.inl ⟨0, _, i / 2, i % 2, rfl, ?_, Nat.mod_lt _ (by omega), one_pos, by omega⟩
  show i / 2 < 3
  omega

/-- the noise of the example below -/
noncomputable def exNoise (n : Nat) (σ : ℝ) : Fin n → Nat → ℝ := fun ω i => if i = (ω : Nat) then σ else 0

theorem exNoise_white (n : Nat) (σ : ℝ) : WhiteNoise (Measure.count : Measure (Fin n)) (exNoise n σ) n σ where
  none ω i h := if_neg (by have := ω.2; omega)
  integrable i j _ _ := Integrable.of_finite
  cov i j hi hj := by
    unfold exNoise
    rw [integral_count]
    by_cases h : i = j
    · subst h
      rw [if_pos rfl, Finset.sum_eq_single (⟨i, hi⟩ : Fin n)]
      · simp [pow_two]
      · intro b _ hb
        rw [if_neg (fun h => hb (Fin.ext h.symm)), zero_mul]
      · intro h; exact absurd (Finset.mem_univ _) h
    · rw [if_neg h]
      refine Finset.sum_eq_zero fun b _ => ?_
      by_cases hb : i = (b : Nat)
      · rw [if_neg (show ¬ j = (b : Nat) from fun h' => h (hb.trans h'.symm)), mul_zero]
      · rw [if_neg hb, zero_mul]

/-- C80: with regularization the mean of the squared estimate isn't the variance. All the assumptions of `estimate_mean` hold in this case -/
theorem estimate_biased_wrong : ∃ (c : Ctx) (out : Out) (step : Fin 6 → Mem) (s : Fin 6 → ℝ), CtxOk c ∧ IdxOk c ∧ optimizerCallback c = some out ∧ 0 < numStates c.d ∧ FullRank out (numStates c.d) ∧
    (numObserved c : Int) + numMeasurementsRegularization c.d = out.x.length ∧ IsOptimum out (fun _ => 0) (fun _ => 0) ∧ (∀ i < numObserved c, Inlier c i → out.x.getD i 0 = 0) ∧
    WhiteNoise Measure.count (exNoise 6 1) (numObserved c) 1 ∧ (∀ ω, IsOptimum out (exNoise 6 1 ω) (step ω)) ∧ numStates c.d < numInliers c ∧
    (∀ ω, observedPixelUncertainty c (residuals out (exNoise 6 1 ω) (step ω)) = some (s ω)) ∧ ∫ ω, s ω ^ 2 ∂Measure.count ≠ 1 := by
  obtain ⟨out, ho⟩ : ∃ out, optimizerCallback exR = some out := ⟨_, exR_out⟩
  have h0 : 0 < numStates exR.d := by decide
  have hr := exR_rank out ho
  have hopt := exR_opt out ho
  choose step hstep using fun ω : Fin 6 => (response_exists_unique exR exR_ok exR_idx out ho h0 hr (exNoise 6 1 ω)).1
  have hlt : numStates exR.d < numInliers exR := by rw [exR_inliers]; decide
  have hav : ∀ ω, ∃ s, observedPixelUncertainty exR (residuals out (exNoise 6 1 ω) (step ω)) = some s := fun ω =>
    Option.isSome_iff_exists.1 ((estimate_formula exR exR_ok h0.le _).1.2 hlt)
  choose s hs using hav
  have hx := (exR_Jv (fun s => if s = 2 then 1 else 0) out ho)
  have hlen : out.x.length = 8 := by rw [hx.1]; rfl
  have hobs : (numObserved exR : Int) + numMeasurementsRegularization exR.d = out.x.length := by rw [hlen]; decide
  have hfit : ∀ i < numObserved exR, Inlier exR i → out.x.getD i 0 = 0 := fun i _ _ => exR_x out ho i
  refine ⟨exR, out, step, s, exR_ok, exR_idx, ho, h0, hr, hobs, hopt, hfit, exNoise_white 6 1, hstep, hlt, hs, ?_⟩
  have := (estimate_mean exR exR_ok exR_idx out ho h0 hr hobs hopt hfit 1 _ _ (exNoise_white 6 1) step hstep s hs hlt).2.2.2.2 ⟨6, _, by decide, by omega, by
    rw [hx.2.2.2.2.2]; norm_num [scaleCenter]⟩ one_ne_zero
  rw [one_pow] at this
  exact this.ne'
end Mrcal.Propagate
