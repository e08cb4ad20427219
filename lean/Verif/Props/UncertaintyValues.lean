import Verif.Props.UncertaintyRead
import Verif.Props.JacobianAllProps
/-
Helper lemmas for C77: what _mrcal_drt_cross_reprojection__dbpacked() reads is the Jacobian that optimizer_callback() reports.
-/
namespace Mrcal.Uncertainty
open Mrcal Pose Callback StateLayout

/-- (row)·v -/
noncomputable def rdot (r : Row) (v : Int → ℝ) : ℝ := (r.entries.map fun x => x.2 * v x.1).sum

/-- only the j-th variable moves -/
noncomputable def unit (j y : Int) : ℝ := if y = j then 1 else 0

/-- **Specification**: the velocity of the packed state as the small transformation moves along its k-th coordinate. The transformation acts on the camera (`ccp`, if
the camera pose is being optimized), or on the observed frame or point (if that is being optimized). `pose_velocity`, `point_velocity` (UncertaintyExample) say that this moves
the poses and the points as it should -/
noncomputable def vel (d : Dims) (ccp : Bool) (b : Int → ℝ) (s : Source) (k : Nat) (j : Int) : ℝ :=
  match (if ccp then s.e d else none) with
  | some c => blk c 6 (fun x => gRt (sub b c) scaleRotCamera scaleTransCamera x k) j
  | none => match s.f d with
    | some c => blk c 6 (fun x => gRt (sub b c) scaleRotFrame scaleTransFrame x k) j
    | none => match s.p d with
      | some c => blk c 3 (fun x => gPt (sub b c) x k) j
      | none => 0

/-- **Specification**: the state variables that the reprojection comes from: the extrinsics (ccp only), the frames, the points, the board shape. These come last in the state -/
def Rel (d : Dims) (ccp : Bool) (j : Int) : Prop := numStatesIntrinsics d + (if ccp then 0 else numStatesExtrinsics d) ≤ j ∧ j < numStates d

instance (d : Dims) (ccp : Bool) (j : Int) : Decidable (Rel d ccp j) := by unfold Rel; infer_instance

theorem rdot_split {d : Dims} {s : Source} {r : Row} (sp : RowSplit d s r) (v : Int → ℝ) : rdot r v =
    (sp.eI.map fun x => x.2 * v x.1).sum + (sp.eE.map fun x => x.2 * v x.1).sum + (sp.eF.map fun x => x.2 * v x.1).sum +
    (sp.eP.map fun x => x.2 * v x.1).sum + (sp.eW.map fun x => x.2 * v x.1).sum := by
  unfold rdot
  rw [sp.all]
  simp only [List.map_append, List.sum_append]
  ring

theorem blk_at (c : Int) (n : Nat) (g : Nat → ℝ) (x : Fin n) : blk c n g (c + x) = g x := by
  unfold blk
  rw [if_pos (by omega)]
  congr 1
  omega

theorem blk_out (c : Int) (n : Nat) (g : Nat → ℝ) (j : Int) (h : j < c ∨ c + n ≤ j) : blk c n g j = 0 := by
  unfold blk
  rw [if_neg (by omega)]

theorem blk_delta (c : Int) (n : Nat) (g : Fin n → ℝ) (g' : Nat → ℝ) (hg : ∀ x : Fin n, g' x = g x) (j : Int) :
    ∑ x : Fin n, g x * unit j (c + x) = blk c n g' j := by
  unfold blk unit
  split_ifs with h
  · have hj : (j - c).toNat < n := by omega
    rw [Finset.sum_eq_single (⟨(j - c).toNat, hj⟩ : Fin n)]
    · rw [if_pos (by simp only; omega), mul_one, ← hg]
    · intro x _ hx
      rw [if_neg, mul_zero]
      intro e
      exact hx (Fin.ext (by simp only; omega))
    · simp
  · refine Finset.sum_eq_zero fun x _ => ?_
    rw [if_neg (by omega), mul_zero]

section
variable {d : Dims} {s : Source} {colidx : Int → Int} {jval : Int → ℝ} {a z : Int} {r : Row} {sp : RowSplit d s r}

theorem block_E (B : Blocks d s colidx jval a z r sp) (c : Int) (h : s.e d = some c) :
    colidx (posE (numIntrinsicsPerMeasurement d) a (s.has d)) = c ∧
    ∀ v : Int → ℝ, (sp.eE.map fun x => x.2 * v x.1).sum = ∑ x : Fin 6, jval (posE (numIntrinsicsPerMeasurement d) a (s.has d) + x) * v (c + x) := by
  rw [B.pE]
  exact ⟨block_head B.rE.left (n := 6) (by omega) (by rw [sp.E, h]), fun v => block_sum B.rE.left (by rw [sp.E, h]) v⟩

theorem block_F (B : Blocks d s colidx jval a z r sp) (c : Int) (h : s.f d = some c) :
    colidx (posF (numIntrinsicsPerMeasurement d) a (s.has d)) = c ∧
    ∀ v : Int → ℝ, (sp.eF.map fun x => x.2 * v x.1).sum = ∑ x : Fin 6, jval (posF (numIntrinsicsPerMeasurement d) a (s.has d) + x) * v (c + x) := by
  rw [B.pF]
  exact ⟨block_head B.rF.left (n := 6) (by omega) (by rw [sp.F, h]), fun v => block_sum B.rF.left (by rw [sp.F, h]) v⟩

theorem block_P (B : Blocks d s colidx jval a z r sp) (c : Int) (h : s.p d = some c) :
    colidx (posP (numIntrinsicsPerMeasurement d) a (s.has d)) = c ∧
    ∀ v : Int → ℝ, (sp.eP.map fun x => x.2 * v x.1).sum = ∑ x : Fin 3, jval (posP (numIntrinsicsPerMeasurement d) a (s.has d) + x) * v (c + x) := by
  rw [B.pP]
  exact ⟨block_head B.rP.left (n := 3) (by omega) (by rw [sp.P, h]), fun v => block_sum B.rP.left (by rw [sp.P, h]) v⟩

theorem block_W (B : Blocks d s colidx jval a z r sp) (h : s.w d = true) :
    ∀ v : Int → ℝ, (sp.eW.map fun x => x.2 * v x.1).sum = ∑ x : Fin 2, jval (posW (numIntrinsicsPerMeasurement d) a (s.has d) + x) * v (stateIndexWarp d + x) := by
  rw [B.pW]
  exact fun v => block_sum B.rW (n := 2) (by rw [sp.W, h]; rfl) v

theorem pos_le (B : Blocks d s colidx jval a z r sp) : a ≤ posE (numIntrinsicsPerMeasurement d) a (s.has d) ∧
    a ≤ posF (numIntrinsicsPerMeasurement d) a (s.has d) ∧ a ≤ posP (numIntrinsicsPerMeasurement d) a (s.has d) ∧ a ≤ posW (numIntrinsicsPerMeasurement d) a (s.has d) := by
  rw [B.pE, B.pF, B.pP, B.pW]; omega

theorem nil_E (sp : RowSplit d s r) (h : s.e d = none) : sp.eE = [] := by have := sp.E; rw [h] at this; simpa [cols] using this
theorem nil_F (sp : RowSplit d s r) (h : s.f d = none) : sp.eF = [] := by have := sp.F; rw [h] at this; simpa [cols] using this
theorem nil_P (sp : RowSplit d s r) (h : s.p d = none) : sp.eP = [] := by have := sp.P; rw [h] at this; simpa [cols] using this
theorem nil_W (sp : RowSplit d s r) (h : s.w d = false) : sp.eW = [] := by have := sp.W; rw [h] at this; simpa [cols] using this

/-- the derivative we look at is J v -/
theorem row_C (wf : WF d) (hs : s.Ok d) (B : Blocks d s colidx jval a z r sp) (ha : 0 ≤ a) (ccp : Bool) (b : Int → ℝ) (k : Nat) :
    rowC ccp b colidx jval (theMap (numIntrinsicsPerMeasurement d) a s.icamI (s.has d)) k = rdot r (vel d ccp b s k) := by
  obtain ⟨q1, q2, q3, q4⟩ := pos_le B
  obtain ⟨n1, n2, n3, n4, n5⟩ := nonnegs wf
  rw [rdot_split sp]
  unfold rowC theMap
  simp only
  by_cases he : ccp = true ∧ ∃ c, s.e d = some c
  · obtain ⟨rfl, c, he⟩ := he
    have hv : vel d true b s k = blk c 6 (fun x => gRt (sub b c) scaleRotCamera scaleTransCamera x k) := by
      funext j; unfold vel; rw [if_pos rfl, he]
    obtain ⟨e1, e2⟩ := block_E B c he
    have hh : (s.has d).e = true := by unfold Source.has; simp [he]
    have rc := Source.e_range hs he
    rw [hv, if_pos ⟨rfl, by rw [if_pos hh]; omega⟩, if_pos hh, e1, e2,
      sum_zero (l := sp.eI) (fun x hx => blk_out _ _ _ _ (by have := sp.mem_I hs x hx; omega)),
      sum_zero (l := sp.eF) (fun x hx => blk_out _ _ _ _ (by have := sp.mem_F hs x hx; omega)),
      sum_zero (l := sp.eP) (fun x hx => blk_out _ _ _ _ (by have := sp.mem_P hs x hx; omega)),
      sum_zero (l := sp.eW) (fun x hx => blk_out _ _ _ _ (by have := sp.mem_W hs x hx; omega))]
    simp only [add_zero, zero_add]
    exact Finset.sum_congr rfl fun x _ => by rw [blk_at]; ring
  · have hneg : ¬ (ccp = true ∧ (if (s.has d).e = true then posE (numIntrinsicsPerMeasurement d) a (s.has d) else -1) ≥ 0) := by
      rintro ⟨h1, h2⟩
      apply he
      refine ⟨h1, ?_⟩
      split_ifs at h2 with h3
      · exact Option.isSome_iff_exists.mp h3
      · omega
    have hv0 : (if ccp then s.e d else none) = none := by
      cases ccp with
      | false => rfl
      | true =>
        rw [if_pos rfl]
        cases h : s.e d with
        | none => rfl
        | some c => exact absurd ⟨rfl, c, h⟩ he
    rw [if_neg hneg]
    cases hf : s.f d with
    | some c =>
      have hv : vel d ccp b s k = blk c 6 (fun x => gRt (sub b c) scaleRotFrame scaleTransFrame x k) := by
        funext j; unfold vel; rw [hv0, hf]
      obtain ⟨e1, e2⟩ := block_F B c hf
      have hh : (s.has d).f = true := by unfold Source.has; simp [hf]
      have rc := Source.f_range hs hf
      rw [hv, if_pos (show (if (s.has d).f = true then posF (numIntrinsicsPerMeasurement d) a (s.has d) else -1) ≥ 0 by rw [if_pos hh]; omega), if_pos hh, e1, e2,
        sum_zero (l := sp.eI) (fun x hx => blk_out _ _ _ _ (by have := sp.mem_I hs x hx; omega)),
        sum_zero (l := sp.eE) (fun x hx => blk_out _ _ _ _ (by have := sp.mem_E hs x hx; omega)),
        sum_zero (l := sp.eP) (fun x hx => blk_out _ _ _ _ (by have := sp.mem_P hs x hx; omega)),
        sum_zero (l := sp.eW) (fun x hx => blk_out _ _ _ _ (by have := sp.mem_W hs x hx; omega))]
      simp only [add_zero, zero_add]
      exact Finset.sum_congr rfl fun x _ => by rw [blk_at]; ring
    | none =>
      have hh : ¬ (s.has d).f = true := by unfold Source.has; simp [hf]
      rw [if_neg (show ¬ (if (s.has d).f = true then posF (numIntrinsicsPerMeasurement d) a (s.has d) else -1) ≥ 0 by rw [if_neg hh]; omega)]
      cases hp : s.p d with
      | some c =>
        have hv : vel d ccp b s k = blk c 3 (fun x => gPt (sub b c) x k) := by
          funext j; unfold vel; rw [hv0, hf, hp]
        obtain ⟨e1, e2⟩ := block_P B c hp
        have hh : (s.has d).p = true := by unfold Source.has; simp [hp]
        have rc := Source.p_range hs hp
        rw [hv, if_pos (show (if (s.has d).p = true then posP (numIntrinsicsPerMeasurement d) a (s.has d) else -1) ≥ 0 by rw [if_pos hh]; omega), if_pos hh, e1, e2,
          sum_zero (l := sp.eI) (fun x hx => blk_out _ _ _ _ (by have := sp.mem_I hs x hx; omega)),
          sum_zero (l := sp.eE) (fun x hx => blk_out _ _ _ _ (by have := sp.mem_E hs x hx; omega)),
          sum_zero (l := sp.eF) (fun x hx => blk_out _ _ _ _ (by have := sp.mem_F hs x hx; omega)),
          sum_zero (l := sp.eW) (fun x hx => blk_out _ _ _ _ (by have := sp.mem_W hs x hx; omega))]
        simp only [add_zero, zero_add]
        exact Finset.sum_congr rfl fun x _ => by rw [blk_at]; ring
      | none =>
        have hv : vel d ccp b s k = fun _ => 0 := by
          funext j; unfold vel; rw [hv0, hf, hp]
        have hh : ¬ (s.has d).p = true := by unfold Source.has; simp [hp]
        rw [hv, if_neg (show ¬ (if (s.has d).p = true then posP (numIntrinsicsPerMeasurement d) a (s.has d) else -1) ≥ 0 by rw [if_neg hh]; omega)]
        simp

/-- the columns of J we look at -/
theorem row_V (wf : WF d) (hs : s.Ok d) (B : Blocks d s colidx jval a z r sp) (ha : 0 ≤ a) (ccp : Bool) (j : Int) :
    rowV d ccp colidx jval (theMap (numIntrinsicsPerMeasurement d) a s.icamI (s.has d)) j = if Rel d ccp j then rdot r (unit j) else 0 := by
  obtain ⟨q1, q2, q3, q4⟩ := pos_le B
  obtain ⟨n1, n2, n3, n4, n5⟩ := nonnegs wf
  have tot : numStates d = numStatesIntrinsics d + numStatesExtrinsics d + numStatesFrames d + numStatesPoints d + numStatesWarp d := by unfold numStates; ring
  have hE : (if (s.has d).e = true then blk (colidx (posE (numIntrinsicsPerMeasurement d) a (s.has d))) 6 (fun k => jval (posE (numIntrinsicsPerMeasurement d) a (s.has d) + k)) j else 0) =
      (sp.eE.map fun x => x.2 * unit j x.1).sum := by
    cases h : s.e d with
    | none => rw [nil_E sp h, if_neg (by unfold Source.has; simp [h])]; rfl
    | some c =>
      obtain ⟨e1, e2⟩ := block_E B c h
      rw [if_pos (by unfold Source.has; simp [h]), e2, e1, ← blk_delta c 6 _ _ (fun _ => rfl)]
  have hF : (if (s.has d).f = true then blk (colidx (posF (numIntrinsicsPerMeasurement d) a (s.has d))) 6 (fun k => jval (posF (numIntrinsicsPerMeasurement d) a (s.has d) + k)) j else 0) =
      (sp.eF.map fun x => x.2 * unit j x.1).sum := by
    cases h : s.f d with
    | none => rw [nil_F sp h, if_neg (by unfold Source.has; simp [h])]; rfl
    | some c =>
      obtain ⟨e1, e2⟩ := block_F B c h
      rw [if_pos (by unfold Source.has; simp [h]), e2, e1, ← blk_delta c 6 _ _ (fun _ => rfl)]
  have hP : (if (s.has d).p = true then blk (colidx (posP (numIntrinsicsPerMeasurement d) a (s.has d))) 3 (fun k => jval (posP (numIntrinsicsPerMeasurement d) a (s.has d) + k)) j else 0) =
      (sp.eP.map fun x => x.2 * unit j x.1).sum := by
    cases h : s.p d with
    | none => rw [nil_P sp h, if_neg (by unfold Source.has; simp [h])]; rfl
    | some c =>
      obtain ⟨e1, e2⟩ := block_P B c h
      rw [if_pos (by unfold Source.has; simp [h]), e2, e1, ← blk_delta c 3 _ _ (fun _ => rfl)]
  have hW : (if (s.has d).w = true then blk (stateIndexWarp d) 2 (fun k => jval (posW (numIntrinsicsPerMeasurement d) a (s.has d) + k)) j else 0) =
      (sp.eW.map fun x => x.2 * unit j x.1).sum := by
    cases h : s.w d with
    | false => rw [nil_W sp h, if_neg (by unfold Source.has; simp [h])]; rfl
    | true =>
      rw [if_pos (by unfold Source.has; simp [h]), block_W B h, ← blk_delta (stateIndexWarp d) 2 _ _ (fun _ => rfl)]
  have key : rowV d ccp colidx jval (theMap (numIntrinsicsPerMeasurement d) a s.icamI (s.has d)) j =
      (if ccp = true then (sp.eE.map fun x => x.2 * unit j x.1).sum else 0) +
      (sp.eF.map fun x => x.2 * unit j x.1).sum + (sp.eP.map fun x => x.2 * unit j x.1).sum +
      (sp.eW.map fun x => x.2 * unit j x.1).sum := by
    rw [← hE, ← hF, ← hP, ← hW]
    unfold rowV theMap
    simp only
    have aux : ∀ (h : Bool) (p : Int) (f : Int → ℝ), 0 ≤ p → (if (if h = true then p else -1) ≥ 0 then f (if h = true then p else -1) else 0) = if h = true then f p else 0 := by
      intro h p f hp
      cases h <;> simp [hp]
    rw [aux (s.has d).f _ (fun p => blk (colidx p) 6 (fun k => jval (p + k)) j) (by omega),
      aux (s.has d).p _ (fun p => blk (colidx p) 3 (fun k => jval (p + k)) j) (by omega),
      aux (s.has d).w _ (fun p => blk (stateIndexWarp d) 2 (fun k => jval (p + k)) j) (by omega)]
    congr 3
    cases ccp
    · simp
    · simp only [true_and, if_true]
      exact aux (s.has d).e _ (fun p => blk (colidx p) 6 (fun k => jval (p + k)) j) (by omega)
  rw [key]
  have zI : numStatesIntrinsics d ≤ j ∨ j < 0 → (sp.eI.map fun x => x.2 * unit j x.1).sum = 0 := fun h =>
    sum_zero (v := unit j) fun x hx => if_neg (by have := sp.mem_I hs x hx; omega)
  have zE : ¬ (numStatesIntrinsics d ≤ j ∧ j < numStatesIntrinsics d + numStatesExtrinsics d) → (sp.eE.map fun x => x.2 * unit j x.1).sum = 0 := fun h =>
    sum_zero (v := unit j) fun x hx => if_neg (by have := sp.mem_E hs x hx; omega)
  have zF : ¬ (numStatesIntrinsics d + numStatesExtrinsics d ≤ j ∧ j < numStates d) → (sp.eF.map fun x => x.2 * unit j x.1).sum = 0 := fun h =>
    sum_zero (v := unit j) fun x hx => if_neg (by have := sp.mem_F hs x hx; omega)
  have zP : ¬ (numStatesIntrinsics d + numStatesExtrinsics d ≤ j ∧ j < numStates d) → (sp.eP.map fun x => x.2 * unit j x.1).sum = 0 := fun h =>
    sum_zero (v := unit j) fun x hx => if_neg (by have := sp.mem_P hs x hx; omega)
  have zW : ¬ (numStatesIntrinsics d + numStatesExtrinsics d ≤ j ∧ j < numStates d) → (sp.eW.map fun x => x.2 * unit j x.1).sum = 0 := fun h =>
    sum_zero (v := unit j) fun x hx => if_neg (by have := sp.mem_W hs x hx; omega)
  unfold Rel
  cases ccp
  · simp only [Bool.false_eq_true, if_false, zero_add]
    split_ifs with h
    · rw [rdot_split sp, zI (by omega), zE (by omega), zero_add, zero_add]
    · rw [zF h, zP h, zW h]; norm_num
  · simp only [if_true, add_zero]
    split_ifs with h
    · rw [rdot_split sp, zI (by omega), zero_add]
    · rw [zE (by omega), zF (by omega), zP (by omega), zW (by omega)]; norm_num

end

/-- the search in the first row finds the number of the intrinsics -/
theorem count_spec (colidx : Int → Int) (rowEnd lo n : Int) (m : Nat) (fuel : Nat) (ival : Int) (h1 : ∀ k : Nat, k < m → inRange lo n (colidx (ival + k))) (h2 : ival + m ≤ rowEnd)
    (h3 : ival + m < rowEnd → ¬ inRange lo n (colidx (ival + m))) (hf : m ≤ fuel) : countIntrinsics colidx rowEnd lo n fuel ival = ival + m := by
  induction m generalizing fuel ival with
  | zero =>
    cases fuel with
    | zero => simp [countIntrinsics]
    | succ fuel =>
      unfold countIntrinsics
      simp only
      rw [if_neg]
      · simp
      · rintro ⟨q1, q2⟩
        have := h3 (by simpa using q1)
        simp only [Nat.cast_zero, add_zero] at this
        exact this q2
  | succ m ih =>
    cases fuel with
    | zero => omega
    | succ fuel =>
      unfold countIntrinsics
      simp only
      have h0 := h1 0 (by omega)
      simp only [Nat.cast_zero, add_zero] at h0
      rw [if_pos ⟨by push_cast at h2; omega, h0⟩, ih fuel (ival + 1)]
      · push_cast; ring
      · intro k hk
        have := h1 (k + 1) (by omega)
        push_cast at this
        rwa [show ival + 1 + (k : Int) = ival + (k + 1) by ring]
      · push_cast at h2; omega
      · intro hlt
        have := h3 (by push_cast; omega)
        push_cast at this
        rwa [show ival + 1 + (m : Int) = ival + (m + 1) by ring]
      · omega

theorem count_row {d : Dims} (wf : WF d) {s : Source} (hs : s.Ok d) {colidx : Int → Int} {jval : Int → ℝ} {a z : Int} {r : Row} {sp : RowSplit d s r}
    (B : Blocks d s colidx jval a z r sp) : countIntrinsics colidx z (stateIndexIntrinsics 0 d) (numStatesIntrinsics d) (z - a).toNat a = a + numIntrinsicsPerMeasurement d := by
  have hl := sp.lenI
  have hz := B.z
  rw [← hl]
  refine count_spec _ _ _ _ _ _ _ (fun k hk => ?_) (by omega) (fun hlt => ?_) (by omega)
  · have h0 : sp.eI[k]? = some sp.eI[k] := List.getElem?_eq_getElem hk
    rw [(B.rI.left k _ h0).1]
    exact ((range_iff wf _).1).mpr (sp.mem_I hs _ (List.mem_of_getElem? h0))
  · intro hr
    have hr := ((range_iff wf _).1).mp hr
    obtain ⟨x, hx, e⟩ := B.rE.head (by simp only [List.length_append]; omega)
    obtain ⟨n1, n2, n3, n4, n5⟩ := nonnegs wf
    rw [e] at hr
    rcases List.mem_append.mp hx with hx | hx
    · have := sp.mem_E hs x hx; omega
    · rcases List.mem_append.mp hx with hx | hx
      · have := sp.mem_F hs x hx; omega
      · rcases List.mem_append.mp hx with hx | hx
        · have := sp.mem_P hs x hx; omega
        · have := sp.mem_W hs x hx; omega

end Mrcal.Uncertainty
