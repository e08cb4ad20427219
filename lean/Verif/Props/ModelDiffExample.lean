import Verif.Props.ModelDiffProps
/-
C95: cases where the fit is exact; and the cases where it isn't.
-/
namespace Mrcal.ModelDiff
open Mrcal Mrcal.Cam Mrcal.Pose Mrcal.ImageTransform

open Classical in
/-- a solver that returns what it's told, if that's optimal -/
noncomputable def pick (r0 : P3) (rt0 : RtV) : Lsq where
  rot C f := if ∀ r', cost C ((f r0).map (·.1)) ≤ cost C ((f r').map (·.1)) then some r0 else none
  rt C f := if ∃ xs, (f rt0).mapM id = some xs ∧ ∀ rt' xs', (f rt').mapM id = some xs' → cost C (xs.map (·.1)) ≤ cost C (xs'.map (·.1)) then some rt0 else none

theorem pick_optimal (r0 : P3) (rt0 : RtV) : Optimal (pick r0 rt0) where
  rot C f r _ h := by
    unfold pick at h
    dsimp only at h
    split at h
    · rw [← Option.some.inj h]; assumption
    · exact absurd h (by simp)
  rt C f rt _ h := by
    unfold pick at h
    dsimp only at h
    split at h
    · rw [← Option.some.inj h]; assumption
    · exact absurd h (by simp)

theorem pick_rot (r0 : P3) (rt0 : RtV) (C : ℝ) (hC : 0 < C) (f : P3 → List (ℝ × P3)) (h : ∀ x ∈ f r0, x.1 = 0) : (pick r0 rt0).rot C f = some r0 := by
  unfold pick
  dsimp only
  rw [if_pos]
  intro r'
  rw [(cost_zero C hC _).mpr]
  · exact cost_nonneg _ _
  · intro x hx
    obtain ⟨y, hy, rfl⟩ := List.mem_map.mp hx
    exact h y hy

theorem pick_rt (r0 : P3) (rt0 : RtV) (C : ℝ) (hC : 0 < C) (f : RtV → List (Option (ℝ × RtV))) (h : ∀ x ∈ f rt0, ∃ o, x = some o ∧ o.1 = 0) : (pick r0 rt0).rt C f = some rt0 := by
  unfold pick
  dsimp only
  rw [if_pos]
  obtain ⟨xs, h1, h2⟩ := mapM_id_some (f rt0) fun x hx => by obtain ⟨o, ho, -⟩ := h x hx; exact ⟨o, ho⟩
  refine ⟨xs, h1, fun rt' xs' _ => ?_⟩
  rw [(cost_zero C hC _).mpr]
  · exact cost_nonneg _ _
  · intro x hx
    obtain ⟨y, hy, rfl⟩ := List.mem_map.mp hx
    obtain ⟨o, ho, hz⟩ := h (some y) (by rw [h2]; exact List.mem_map.mpr ⟨y, hy, rfl⟩)
    rw [Option.some.inj ho]; exact hz

theorem pick_ok (r0 : P3) (rt0 : RtV) (h : RotOk r0) (h' : RotOk rt0.r) : (∀ f r, (pick r0 rt0).rot fScale f = some r → RotOk r) ∧ ∀ f rt, (pick r0 rt0).rt fScale f = some rt → RotOk rt.r := by
  constructor
  · intro f r hr
    unfold pick at hr
    dsimp only at hr
    split at hr
    · rw [← Option.some.inj hr]; exact h
    · exact absurd hr (by simp)
  · intro f r hr
    unfold pick at hr
    dsimp only at hr
    split at hr
    · rw [← Option.some.inj hr]; exact h'
    · exact absurd hr (by simp)

/-- three pixels -/
def q3 : List P2 := [⟨0, 0⟩, ⟨1, 0⟩, ⟨0, 1⟩]
theorem q3_focus : ∀ q ∈ q3, inFocus ⟨0, 0⟩ 10 q = true := by
  intro q hq
  simp only [q3, List.mem_cons, List.not_mem_nil, or_false] at hq
  unfold inFocus
  rcases hq with rfl | rfl | rfl <;> norm_num
theorem q3_count : ¬ (q3.filter (inFocus ⟨0, 0⟩ 10)).length < 3 := by
  rw [List.filter_eq_self.mpr q3_focus]
  simp [q3]

/-- three vectors, and what they're matched to -/
def data (f : P3 → P3) (a b c : P3) (T : Term) : Prop := T = ⟨a, f a, 1⟩ ∨ T = ⟨b, f b, 1⟩ ∨ T = ⟨c, f c, 1⟩

theorem terms3 (f : P3 → P3) (a b c : P3) :
    terms q3 [[NanP3.of a, NanP3.of b, NanP3.of c]] [NanP3.of (f a), NanP3.of (f b), NanP3.of (f c)] none ⟨0, 0⟩ 10 = [⟨a, f a, 1⟩, ⟨b, f b, 1⟩, ⟨c, f c, 1⟩] := by
  have h0 := q3_focus ⟨0, 0⟩ (by simp [q3])
  have h1 := q3_focus ⟨1, 0⟩ (by simp [q3])
  have h2 := q3_focus ⟨0, 1⟩ (by simp [q3])
  simp [terms, q3, h0, h1, h2, cleanTerm, fill, allFinite, NanP3.of]

/-- any rotation of any three unit vectors: the hypotheses of `fit_infinity_partial` are met -/
theorem fit_infinity_case (r0 : P3) (h : RotOk r0) (a b c : P3) (ha : IsUnit3 a) (hb : IsUnit3 b) (hc : IsUnit3 c) :
    ∃ lsq Rt10, Optimal lsq ∧ (∀ f r, lsq.rot fScale f = some r → RotOk r) ∧
      impliedRt10 lsq q3 [[NanP3.of a, NanP3.of b, NanP3.of c]] [NanP3.of (turn r0 a), NanP3.of (turn r0 b), NanP3.of (turn r0 c)] none true ⟨0, 0⟩ 10 = some Rt10 ∧
      ∀ T, Counted (terms q3 [[NanP3.of a, NanP3.of b, NanP3.of c]] [NanP3.of (turn r0 a), NanP3.of (turn r0 b), NanP3.of (turn r0 c)] none ⟨0, 0⟩ 10) T → IsUnit3 T.p ∧ IsUnit3 T.v ∧ turn r0 T.p = T.v := by
  have key : ∀ T ∈ ([⟨a, turn r0 a, 1⟩, ⟨b, turn r0 b, 1⟩, ⟨c, turn r0 c, 1⟩] : List Term), IsUnit3 T.p ∧ IsUnit3 T.v ∧ turn r0 T.p = T.v := by
    intro T hT
    simp only [List.mem_cons, List.not_mem_nil, or_false] at hT
    rcases hT with rfl | rfl | rfl
    · exact ⟨ha, (turn_mag r0 a).trans ha, rfl⟩
    · exact ⟨hb, (turn_mag r0 b).trans hb, rfl⟩
    · exact ⟨hc, (turn_mag r0 c).trans hc, rfl⟩
  refine ⟨pick r0 ⟨r0, ⟨0, 0, 0⟩⟩, ⟨R_from_r r0, ⟨0, 0, 0⟩⟩, pick_optimal _ _, (pick_ok r0 ⟨r0, ⟨0, 0, 0⟩⟩ h h).1, ?_, ?_⟩
  · unfold impliedRt10
    rw [if_neg q3_count, if_pos rfl, terms3 (turn r0)]
    rw [pick_rot _ _ _ fScale_pos]
    · rfl
    · intro x hx
      obtain ⟨T, hT, rfl⟩ := List.mem_map.mp hx
      obtain ⟨h1, h2, h3⟩ := key T hT
      rw [residual_r_value T h1 h2 r0 h, h3, gap2_self, mul_zero]
  · rw [terms3 (turn r0)]
    exact fun T hT => key T hT.1

/-- a rotation by 1 radian -/
example : RotOk ⟨0, 0, 1⟩ ∧ IsUnit3 ⟨3 / 5, 0, 4 / 5⟩ ∧ IsUnit3 ⟨0, 3 / 5, 4 / 5⟩ ∧ crossP ⟨3 / 5, 0, 4 / 5⟩ ⟨0, 3 / 5, 4 / 5⟩ ≠ ⟨0, 0, 0⟩ := by
  refine ⟨Or.inl (by norm_num [mag3]), by norm_num [IsUnit3, mag3], by norm_num [IsUnit3, mag3], ?_⟩
  intro h
  have := congrArg P3.z h
  norm_num [crossP] at this

/-- any transformation of any three points that aren't moved to the origin: the hypotheses of `fit_finite_partial` are met -/
theorem fit_finite_case (rt0 : RtV) (h : RotOk rt0.r) (a b c : P3) (ha : mag3 (move rt0 a) ≠ 0) (hb : mag3 (move rt0 b) ≠ 0) (hc : mag3 (move rt0 c) ≠ 0) :
    let f := fun p => dirTo (move rt0 p)
    ∃ lsq Rt10, Optimal lsq ∧ (∀ f r, lsq.rt fScale f = some r → RotOk r.r) ∧
      impliedRt10 lsq q3 [[NanP3.of a, NanP3.of b, NanP3.of c]] [NanP3.of (f a), NanP3.of (f b), NanP3.of (f c)] none false ⟨0, 0⟩ 10 = some Rt10 ∧
      (∀ T ∈ terms q3 [[NanP3.of a, NanP3.of b, NanP3.of c]] [NanP3.of (f a), NanP3.of (f b), NanP3.of (f c)] none ⟨0, 0⟩ 10, mag3 (move rt0 T.p) ≠ 0) ∧
      ∀ T, Counted (terms q3 [[NanP3.of a, NanP3.of b, NanP3.of c]] [NanP3.of (f a), NanP3.of (f b), NanP3.of (f c)] none ⟨0, 0⟩ 10) T → IsUnit3 T.v ∧ dirTo (move rt0 T.p) = T.v := by
  intro f
  have key : ∀ T ∈ ([⟨a, f a, 1⟩, ⟨b, f b, 1⟩, ⟨c, f c, 1⟩] : List Term), mag3 (move rt0 T.p) ≠ 0 ∧ IsUnit3 T.v ∧ dirTo (move rt0 T.p) = T.v := by
    intro T hT
    simp only [List.mem_cons, List.not_mem_nil, or_false] at hT
    rcases hT with rfl | rfl | rfl
    · exact ⟨ha, dirTo_unit _ ha, rfl⟩
    · exact ⟨hb, dirTo_unit _ hb, rfl⟩
    · exact ⟨hc, dirTo_unit _ hc, rfl⟩
  refine ⟨pick rt0.r rt0, Rt_from_rt rt0, pick_optimal _ _, (pick_ok rt0.r rt0 h h).2, ?_, ?_, ?_⟩
  · unfold impliedRt10
    rw [if_neg q3_count, if_neg (by simp), terms3 f]
    rw [pick_rt _ _ _ fScale_pos]
    · rfl
    · intro x hx
      obtain ⟨T, hT, rfl⟩ := List.mem_map.mp hx
      obtain ⟨h1, h2, h3⟩ := key T hT
      obtain ⟨o, ho⟩ := residual_rt_some rt0 h T h1
      exact ⟨o, ho, by rw [(residual_rt_value T h2 rt0 h o ho).2, h3, gap2_self, mul_zero]⟩
  · rw [terms3 f]
    exact fun T hT => (key T hT).1
  · rw [terms3 f]
    exact fun T hT => (key T hT.1).2

/-- a camera that was turned by 1 radian and moved -/
example : RotOk (⟨⟨0, 0, 1⟩, ⟨0, 0, 3⟩⟩ : RtV).r ∧ mag3 (move ⟨⟨0, 0, 1⟩, ⟨0, 0, 3⟩⟩ ⟨0, 0, 2⟩) ≠ 0 := by
  refine ⟨Or.inl (by norm_num [mag3]), ?_⟩
  have e : move ⟨⟨0, 0, 1⟩, ⟨0, 0, 3⟩⟩ ⟨0, 0, 2⟩ = ⟨0, 0, 5⟩ := by
    unfold move
    simp only [turn_eq]
    ext
    · norm_num [rotForm, mag3]
    · norm_num [rotForm, mag3]
    · norm_num [rotForm, mag3]; ring
  rw [e]
  norm_num [mag3]

/-! ### where the fit isn't right -/

/-- the three vectors of one row of pixels -/
noncomputable def rowA : P3 := ⟨0, 0, 1⟩
noncomputable def rowB : P3 := ⟨3 / 5, 0, 4 / 5⟩
noncomputable def rowC : P3 := ⟨-3 / 5, 0, 4 / 5⟩

/-- rotating by a small angle: what rotate_point_r() computes -/
theorem small_turn (e : ℝ) (h : e ^ 2 < 1e-10) (p : P3) (hp : p.y = 0) (a b : Bool) : (rotatePointr ⟨0, e, 0⟩ p false a b).x = ⟨p.x + e * p.z, 0, p.z - e * p.x⟩ := by
  rw [rotate_x, core_value_small _ _ _ (by rw [init_value]; norm_num [Pose.norm2]; norm_num at h; nlinarith)]
  simp [init_value, hp, sgn]
  ring

/-- **C95**, deviation: comparing vectors to themselves: the fit should find no rotation. But the solver is given residuals that are 0 at some small rotations too, and it can find one of these: rotate_point_r() isn't
exact if the angle is less than 1e-5, and the solver is seeded with angles of this size -/
theorem fit_same_wrong : ∃ lsq Rt10, Optimal lsq ∧
    impliedRt10 lsq q3 [[NanP3.of rowA, NanP3.of rowB, NanP3.of rowC]] [NanP3.of rowA, NanP3.of rowB, NanP3.of rowC] none true ⟨0, 0⟩ 10 = some Rt10 ∧
    transformPointRt Rt10 rowA false ≠ rowA := by
  refine ⟨pick ⟨0, 1e-6, 0⟩ ⟨⟨0, 0, 0⟩, ⟨0, 0, 0⟩⟩, ⟨R_from_r ⟨0, 1e-6, 0⟩, ⟨0, 0, 0⟩⟩, pick_optimal _ _, ?_, ?_⟩
  · unfold impliedRt10
    have e := terms3 id rowA rowB rowC
    simp only [id] at e
    rw [if_neg q3_count, if_pos rfl, e]
    rw [pick_rot _ _ _ fScale_pos]
    · rfl
    · intro x hx
      obtain ⟨T, hT, rfl⟩ := List.mem_map.mp hx
      have key : T.p = T.v ∧ T.p.y = 0 ∧ T.p.x * T.p.x + T.p.z * T.p.z = 1 := by
        simp only [List.mem_cons, List.not_mem_nil, or_false] at hT
        rcases hT with rfl | rfl | rfl
        · norm_num [rowA]
        · norm_num [rowB]
        · norm_num [rowC]
      unfold residualR
      dsimp only
      rw [small_turn _ (by norm_num) _ key.2.1, ← key.1]
      unfold inner
      dsimp only
      linear_combination (-2 * T.w) * key.2.2
  · intro h
    have hx := congrArg P3.x h
    have hm : mag3 ⟨0, 1e-6, 0⟩ = 1e-6 := by
      unfold mag3
      dsimp only
      rw [show (0 : ℝ) * 0 + 1e-6 * 1e-6 + 0 * 0 = 1e-6 ^ 2 from by ring, Real.sqrt_sq (by norm_num)]
    have hR : toMat (R_from_r ⟨0, 1e-6, 0⟩) = rod ⟨0, 1e-6, 0⟩ := (R_from_r_meaning _).1 (Or.inr (by rw [hm]; unfold dblEpsilon; norm_num))
    have ht : rotatePointR (R_from_r ⟨0, 1e-6, 0⟩) rowA false = rotForm ⟨0, 1e-6, 0⟩ rowA false := by
      apply toVec_inj
      rw [rotForm_eq]
      unfold rotSpec rotatePointR
      simp only [Bool.false_eq_true, if_false]
      rw [toVec_mulVec, hR]
    have e : (transformPointRt ⟨R_from_r ⟨0, 1e-6, 0⟩, ⟨0, 0, 0⟩⟩ rowA false).x = (rotatePointR (R_from_r ⟨0, 1e-6, 0⟩) rowA false).x := by simp [transformPointRt, addP]
    rw [e, ht] at hx
    unfold rotForm at hx
    rw [hm] at hx
    have hs : 0 < Real.sin 1e-6 := Real.sin_pos_of_pos_of_lt_pi (by norm_num) (by have := Real.pi_gt_three; norm_num; linarith)
    simp only [rowA, sgn] at hx
    norm_num at hx hs
    exact absurd hx hs.ne'

end Mrcal.ModelDiff
