import Verif.Props.TriangulatePyProps
import Verif.Props.TriangulateMidProps
/-
C94: the points that `mrcal.triangulate()` reports; where it doesn't do what's expected; and that the experiments in the theorems exist
-/
namespace Mrcal.TriPy
open Mrcal Mrcal.Cam Mrcal.Pose Mrcal.Tri Mrcal.AD Mrcal.Callback Mrcal.Pack Mrcal.StateLayout Mrcal.Propagate Mrcal.Uncertainty Mrcal.ProjUnc Mrcal.UnprojectPy Matrix MeasureTheory

/-! ### the points -/

theorem RotationsOk.rot {s : Slice} (h : RotationsOk s) : RotOk s.m0.rt ∧ RotOk s.m1.rt := by
  obtain ⟨-, -, -, -, a, b⟩ := turned_relative _ _ _ _ (const_deriv s.m0.rt.r) (const_deriv s.m1.rt.r) h
  exact ⟨a, b⟩

/-- the point of the noisy path -/
theorem full_point (method : Method) (s : Slice) (hT : RotationsOk s) (f : Full) (hf : gradFull method s = some f) :
    f.c.p = triPoint method f.g0.v (dirIn0 s.m0.rt s.m1.rt f.g1.v) (center s.m0.rt s.m1.rt) := by
  obtain ⟨hg0, hg1, href, hcomp, hc, -, -, -⟩ := gradFull_some method s f hf
  have z := const_deriv
  obtain ⟨rok0, rok1⟩ := hT.rot
  obtain ⟨de, -⟩ := dir_deriv _ _ _ _ (z s.m0.rt.r) (z s.m1.rt.r) hT (fun _ => f.g1.v) _ (z _)
  obtain ⟨ce, -⟩ := center_deriv _ _ _ _ _ _ (z s.m0.rt.r) (z s.m0.rt.t) (z s.m1.rt.r) (z s.m1.rt.t) rok0 rok1
  rw [← href, ← hcomp] at de ce
  rw [de, ce] at hc
  exact call_point method _ _ _ f.c hc

theorem rot_meaning (T : RtV) (h : RotOk T) : toMat (R_from_r T.r) = rod T.r := by
  refine (R_from_r_meaning T.r).1 ?_
  rcases h with h | h
  · right
    refine le_trans ?_ h
    unfold dblEpsilon
    norm_num
  · exact Or.inl h

theorem finite_of {v : NanP3} {x : P3} (h : finite v = some x) : v = NanP3.of x := by
  unfold finite at h
  obtain ⟨a, b, c⟩ := v
  cases a <;> cases b <;> cases c <;> simp only [reduceCtorEq, Option.some.injEq] at h
  subst h
  rfl

/-- the point of the noise-free path -/
theorem plain_point (method : Method) (hm : method ≠ .lindstrom) (s : Slice) (h0 : RotOk s.m0.rt) (h1 : RotOk s.m1.rt) (p : P3) (h : plain method s = some p) :
    ∃ v0 v1, unproject s.m0.lens s.m0.intr s.m0.solve s.m0.prev false s.q0 = some (NanP3.of v0) ∧ unproject s.m1.lens s.m1.intr s.m1.solve s.m1.prev false s.q1 = some (NanP3.of v1) ∧
      p = triPoint method v0 (dirIn0 s.m0.rt s.m1.rt v1) (center s.m0.rt s.m1.rt) := by
  unfold plain at h
  simp only [Option.bind_eq_bind] at h
  obtain ⟨v0, hv0, h⟩ := Option.bind_eq_some_iff.1 h
  obtain ⟨v1, hv1, h⟩ := Option.bind_eq_some_iff.1 h
  obtain ⟨n0, hn0, hf0⟩ := Option.bind_eq_some_iff.1 hv0
  obtain ⟨n1, hn1, hf1⟩ := Option.bind_eq_some_iff.1 hv1
  obtain rfl := finite_of hf0
  obtain rfl := finite_of hf1
  refine ⟨v0, v1, hn0, hn1, ?_⟩
  obtain ⟨F, hF⟩ : ∃ F, method.routine = some F := by cases method <;> first | exact ⟨_, rfl⟩ | exact absurd rfl hm
  rw [triPoint_eq method F hF]
  unfold call at h
  rw [hF] at h
  simp only [parseArgs, if_true, Bool.false_eq_true, if_false, Option.map_some, Option.some.injEq] at h
  rw [← h]
  congr 2
  · refine toVec_inj ?_
    simp only [composeRt, invertRt, Rt_from_rt, Bool.not_false, Bool.and_self, if_true]
    rw [toVec_mulVec, toMat_mul, toMat_transpose, rot_meaning _ h0, rot_meaning _ h1]
    unfold dirIn0
    rw [toVec_ofVec, mulVec_mulVec]
  · refine toVec_inj ?_
    simp only [composeRt, invertRt, Rt_from_rt, Bool.not_false, Bool.and_self, if_true]
    have en : ∀ (A : M3) (v : P3), toVec (Pose.mulVec A v (-1)) = -(toMat A *ᵥ toVec v) := by
      intro A v
      rw [← toVec_mulVec]
      ext i; fin_cases i <;> simp [toVec, Pose.mulVec]
    rw [toVec_add, toVec_mulVec, en, toMat_transpose, rot_meaning _ h0, rot_meaning _ h1]
    unfold center
    rw [act_vec, toVec_ofVec]
    simp [Matrix.mulVec_neg]

/-- **Specification**: v is in the direction that unproject() reports for this pixel; with the models that are unprojected directly it's exactly that -/
def Along (m : Camera) (q : P2) (v : P3) : Prop :=
  ∃ u k, unproject m.lens m.intr m.solve m.prev false q = some (NanP3.of u) ∧ 0 < k ∧ v = sm k u ∧ ((direct m.lens).isSome → k = 1)

theorem grads_along (m : Camera) (q : P2) (g : Grads) (h : unprojectGrads m.lens m.intr m.solve m.prev false q = some (some g)) : Along m q g.v := by
  cases hd : (direct m.lens).isSome with
  | true =>
    obtain ⟨U, hU, hG⟩ := direct_gradients m.lens hd false m.solve m.prev
    obtain ⟨g', hg', hv, -⟩ := hG m.intr q
    rw [h] at hg'
    obtain rfl : g = g' := by simpa using hg'
    exact ⟨_, 1, (hU m.intr q).1, one_pos, by rw [hv]; simp [sm], fun _ => rfl⟩
  | false =>
    obtain ⟨u, hu, -, k, hk, e⟩ := same_vectors_partial _ _ _ _ _ _ _ h
    exact ⟨u, k, hu, hk, e, fun h => absurd (hd ▸ h) (by simp)⟩

/-- **C94** (the points). Whatever noise is asked for: each point is what the method produces from the directions of the two pixels, with both of these in the coordinates of camera 0; and the position of camera 1 -/
theorem points_meaning (C : Cholmod) (eigsh : Eigsh) (slices : List Slice) (qc qo : Option ℝ) (corr : ℝ) (method : Method) (hm : method ≠ .lindstrom) (stabilize : Bool) (r : Ret)
    (h : triangulate C eigsh slices qc qo corr method stabilize = some r) (i : Nat) (s : Slice) (hi : slices[i]? = some s) (hT : RotationsOk s) :
    ∃ v0 v1, Along s.m0 s.q0 v0 ∧ Along s.m1 s.q1 v1 ∧ r.points[i]? = some (triPoint method v0 (dirIn0 s.m0.rt s.m1.rt v1) (center s.m0.rt s.m1.rt)) := by
  obtain ⟨hlt, rfl⟩ := List.getElem?_eq_some_iff.1 hi
  by_cases hn : (qc = none ∨ qc = some 0) ∧ (qo = none ∨ qo = some 0)
  · unfold triangulate at h
    rw [if_neg (by rintro ⟨s, hs, hs'⟩; rcases hn.2 with hn | hn <;> rw [hn] at hs <;> simp at hs; linarith), if_pos hn] at h
    unfold noiseless at h
    obtain ⟨p, hp, h⟩ := Option.map_eq_some_iff.1 h
    have hall := mapM_forall₂ _ _ hp
    have e : r.points = p := by cases qc <;> cases qo <;> simp only at h <;> subst h <;> rfl
    rw [e]
    have hl := hall.length_eq
    have := (List.forall₂_iff_get.1 hall).2 i hlt (by omega)
    simp only [List.get_eq_getElem] at this
    obtain ⟨v0, v1, u0, u1, e⟩ := plain_point method hm _ hT.rot.1 hT.rot.2 _ this
    exact ⟨v0, v1, ⟨v0, 1, u0, one_pos, by simp [sm], fun _ => rfl⟩, ⟨v1, 1, u1, one_pos, by simp [sm], fun _ => rfl⟩, by rw [List.getElem?_eq_getElem (by omega), e]⟩
  · obtain ⟨inputs, results, -, hres, -, hp, -, -⟩ := noisy_some (triangulate_noisy h hn)
    have hall := mapM_forall₂ _ _ hres
    have hl := hall.length_eq
    have := (List.forall₂_iff_get.1 hall).2 i hlt (by omega)
    simp only [List.get_eq_getElem] at this
    obtain ⟨f, hf, e, -⟩ := slice_any this
    obtain ⟨g0, g1, -⟩ := gradFull_some method _ f hf
    refine ⟨f.g0.v, f.g1.v, grads_along _ _ _ g0, grads_along _ _ _ g1, ?_⟩
    rw [hp, List.getElem?_map, List.getElem?_eq_getElem (by omega), Option.map_some, e, full_point method _ hT f hf]

theorem dirIn0_sm (T0 T1 : RtV) (k : ℝ) (v : P3) : dirIn0 T0 T1 (sm k v) = sm k (dirIn0 T0 T1 v) := by
  have e : ∀ v, toVec (sm k v) = k • toVec v := fun v => by ext i; fin_cases i <;> simp [toVec, sm]
  refine toVec_inj ?_
  unfold dirIn0
  rw [e, e, toVec_ofVec, toVec_ofVec, mulVec_smul, mulVec_smul]

theorem point_map {N : Nat} (a b : Option (Vec3 N)) (h : a.map Vec3.value = b.map Vec3.value) : point a = point b := by
  cases a <;> cases b <;> simp_all [point]

theorem along_scale {m : Camera} {q : P2} {v w : P3} (hv : Along m q v) (hw : Along m q w) : ∃ k, 0 < k ∧ v = sm k w ∧ ((direct m.lens).isSome → k = 1) := by
  obtain ⟨u, a, hu, ha, rfl, ha1⟩ := hv
  obtain ⟨u', b, hu', hb, rfl, hb1⟩ := hw
  obtain rfl := of_inj (Option.some.inj (hu.symm.trans hu'))
  refine ⟨a / b, by positivity, ?_, fun h => by rw [ha1 h, hb1 h]; norm_num⟩
  ext <;> simp only [sm] <;> field_simp

/-- **C94** (the points). The points don't depend on the noise that's asked for. This is true for the default method. Other methods do depend on the lengths of the observation vectors, and these are different if the noise is propagated,
unless the lens model is simple -/
theorem same_points (C : Cholmod) (eigsh : Eigsh) (slices : List Slice) (qc qo qc' qo' : Option ℝ) (corr corr' : ℝ) (method : Method) (hm : method ≠ .lindstrom) (stabilize stabilize' : Bool) (r r' : Ret)
    (h : triangulate C eigsh slices qc qo corr method stabilize = some r) (h' : triangulate C eigsh slices qc' qo' corr' method stabilize' = some r') (hT : ∀ s ∈ slices, RotationsOk s)
    (hok : method = .leeciveraMid2 ∨ method = .leeciveraWmid2 ∨ ∀ s ∈ slices, (direct s.m0.lens).isSome ∧ (direct s.m1.lens).isSome) : r.points = r'.points := by
  have l := (returned _ _ _ _ _ _ _ _ _ h).2.2.2.1
  have l' := (returned _ _ _ _ _ _ _ _ _ h').2.2.2.1
  refine List.ext_getElem (by omega) fun i h1 h2 => ?_
  have hi : i < slices.length := by omega
  have hmem := List.getElem_mem hi
  obtain ⟨v0, v1, a0, a1, e⟩ := points_meaning _ _ _ _ _ _ _ hm _ _ h i _ (List.getElem?_eq_getElem hi) (hT _ hmem)
  obtain ⟨w0, w1, b0, b1, e'⟩ := points_meaning _ _ _ _ _ _ _ hm _ _ h' i _ (List.getElem?_eq_getElem hi) (hT _ hmem)
  rw [List.getElem?_eq_getElem h1] at e
  rw [List.getElem?_eq_getElem h2] at e'
  rw [Option.some.inj e, Option.some.inj e']
  obtain ⟨k0, hk0, rfl, d0⟩ := along_scale a0 b0
  obtain ⟨k1, hk1, rfl, d1⟩ := along_scale a1 b1
  rw [dirIn0_sm]
  rcases hok with rfl | rfl | hd
  · rw [triPoint_eq _ _ rfl, triPoint_eq _ _ rfl]
    exact point_map _ _ (mid2_scale _ _ _ _ _ hk0 hk1)
  · rw [triPoint_eq _ _ rfl, triPoint_eq _ _ rfl]
    exact point_map _ _ (wmid2_scale _ _ _ _ _ hk0 hk1)
  · rw [d0 (hd _ hmem).1, d1 (hd _ hmem).2]
    congr 1 <;> simp [sm]

/-- **Specification**: camera m sees the point X (in the reference coordinates) at this pixel -/
def Observed (m : Camera) (q : P2) (X : P3) : Prop := ∃ u k, unproject m.lens m.intr m.solve m.prev false q = some (NanP3.of u) ∧ 0 < k ∧ ProjUnc.act false m.rt X = sm k u

/-- **C94** (the points). A point that's observed perfectly by both cameras: this point is reported, in the coordinates of camera 0. The point must not be on the line that joins the two cameras -/
theorem exact_point (C : Cholmod) (eigsh : Eigsh) (slices : List Slice) (qc qo : Option ℝ) (corr : ℝ) (method : Method) (hm : method = .leeciveraMid2 ∨ method = .leeciveraWmid2) (stabilize : Bool) (r : Ret)
    (h : triangulate C eigsh slices qc qo corr method stabilize = some r) (i : Nat) (s : Slice) (hi : slices[i]? = some s) (hT : RotationsOk s) (X : P3) (h0 : Observed s.m0 s.q0 X) (h1 : Observed s.m1 s.q1 X)
    (hb : crossp (ProjUnc.act false s.m0.rt X) (subp (ProjUnc.act false s.m0.rt X) (center s.m0.rt s.m1.rt)) ≠ zerop) : r.points[i]? = some (ProjUnc.act false s.m0.rt X) := by
  have hml : method ≠ .lindstrom := by rintro rfl; rcases hm with h | h <;> cases h
  obtain ⟨v0, v1, ⟨u0, a0, hu0, ha0, rfl, -⟩, ⟨u1, a1, hu1, ha1, rfl, -⟩, e⟩ := points_meaning _ _ _ _ _ _ _ hml _ _ h i _ hi hT
  obtain ⟨u0', k0, hu0', hk0, e0⟩ := h0
  obtain ⟨u1', k1, hu1', hk1, e1⟩ := h1
  obtain rfl := of_inj (Option.some.inj (hu0.symm.trans hu0'))
  obtain rfl := of_inj (Option.some.inj (hu1.symm.trans hu1'))
  rw [e]
  clear e hT
  generalize s.m0.rt = T0 at e0 hb ⊢
  generalize s.m1.rt = T1 at e1 hb ⊢
  -- camera 1 sees it too
  have key : ProjUnc.act false T0 X = addp (center T0 T1) (dirIn0 T0 T1 (ProjUnc.act false T1 X)) := by
    refine toVec_inj ?_
    have ea : ∀ a b, toVec (addp a b) = toVec a + toVec b := fun a b => by ext i; fin_cases i <;> rfl
    rw [ea]
    unfold center dirIn0
    rw [toVec_ofVec, act_vec, act_vec, act_vec, toVec_ofVec]
    simp only [Bool.false_eq_true, if_false]
    rw [Matrix.mulVec_add, mulVec_mulVec _ (rod T1.r)ᵀ, rod_inv, one_mulVec, Matrix.mulVec_add, Matrix.mulVec_neg, Matrix.mulVec_neg]
    abel
  have hs : Sees (sm a0 u0) (dirIn0 T0 T1 (sm a1 u1)) (center T0 T1) (k0 / a0) (k1 / a1) (ProjUnc.act false T0 X) := by
    refine ⟨by positivity, by positivity, ?_, ?_⟩
    · rw [e0]; ext <;> simp only [sm] <;> field_simp
    · have : sm (k1 / a1) (dirIn0 T0 T1 (sm a1 u1)) = dirIn0 T0 T1 (ProjUnc.act false T1 X) := by
        rw [← dirIn0_sm, e1]
        congr 1
        ext <;> simp only [sm] <;> field_simp
      rw [this]
      exact key
  have hc : crossp (sm a0 u0) (dirIn0 T0 T1 (sm a1 u1)) ≠ zerop := by
    intro hz
    apply hb
    have es : subp (ProjUnc.act false T0 X) (center T0 T1) = sm (k1 / a1) (dirIn0 T0 T1 (sm a1 u1)) := by
      conv_lhs => rw [hs.2.2.2]
      ext <;> simp [subp, addp]
    rw [es, hs.2.2.1]
    have hx := congrArg P3.x hz
    have hy := congrArg P3.y hz
    have hzz := congrArg P3.z hz
    generalize dirIn0 T0 T1 (sm a1 u1) = w at hx hy hzz ⊢
    generalize sm a0 u0 = w' at hx hy hzz ⊢
    simp only [crossp, zerop] at hx hy hzz
    ext <;> simp only [crossp, sm, zerop]
    · linear_combination (k0 / a0) * (k1 / a1) * hx
    · linear_combination (k0 / a0) * (k1 / a1) * hy
    · linear_combination (k0 / a0) * (k1 / a1) * hzz
  rcases hm with rfl | rfl
  · obtain ⟨m, hm, hv⟩ := mid2_exact _ _ _ _ _ _ hs hc
    rw [triPoint_eq _ _ rfl, hm]
    exact congrArg some hv
  · obtain ⟨m, hm, hv⟩ := wmid2_exact _ _ _ _ _ _ hs hc
    rw [triPoint_eq _ _ rfl, hm]
    exact congrArg some hv

/-- **C94** (the arguments of the triangulation functions). Directions in the coordinates of camera 1 with v_are_local produce the same point as directions in the coordinates of camera 0 without
it. If Rt01 is given, only the translation matters then, except with triangulate_lindstrom(). Both of t01 and Rt01, neither of them, or v_are_local without Rt01: refused -/
theorem call_forms (method : Method) (v0 v1 : P3) (T : Rt) (hR : IsRot T.R) :
    call method v0 v1 none true (some T) = call method v0 (transformPointRt ⟨T.R, ⟨0, 0, 0⟩⟩ v1 false) none false (some T) ∧ (call method v0 v1 none true (some T)).isSome ∧
    (method ≠ .lindstrom → call method v0 v1 none false (some T) = call method v0 v1 (some T.t) false none ∧
      ∀ b t, call method v0 v1 (some t) b (some T) = none ∧ call method v0 v1 none b none = none ∧ call method v0 v1 (some t) true none = none) := by
  have e : transformPointRt ⟨T.R, ⟨0, 0, 0⟩⟩ v1 false = Pose.mulVec T.R v1 := by simp [transformPointRt, rotatePointR, addP, Pose.mulVec]
  have hb : Pose.mulVec (Pose.transpose T.R) (Pose.mulVec T.R v1) = v1 := by
    have := (transform_inverted ⟨T.R, ⟨0, 0, 0⟩⟩ hR.1 v1).1
    simpa [transformPointRt, rotatePointR, addP, subP, Pose.mulVec, Pose.transpose] using this
  rw [e]
  refine ⟨?_, ?_, ?_⟩
  · unfold call
    cases method <;> simp [Method.routine, parseArgs, hb]
  · unfold call
    cases method <;> simp [Method.routine, parseArgs]
  · intro hm
    unfold call
    cases method <;> simp [Method.routine, parseArgs] at hm ⊢

-- a quarter-turn: the direction (0,1,0) of camera 1 is the direction (-1,0,0) of camera 0
example : ∃ T : Rt, IsRot T.R ∧ transformPointRt ⟨T.R, ⟨0, 0, 0⟩⟩ ⟨0, 1, 0⟩ false = ⟨-1, 0, 0⟩ := by
  refine ⟨⟨⟨0, -1, 0, 1, 0, 0, 0, 0, 1⟩, ⟨1, 0, 0⟩⟩, ⟨?_, ?_⟩, ?_⟩
  · ext i j
    fin_cases i <;> fin_cases j <;> simp [toMat, Matrix.mul_apply, Fin.sum_univ_three]
  · simp [toMat, Matrix.det_fin_three]
  · simp [transformPointRt, rotatePointR, Pose.mulVec, addP]

end Mrcal.TriPy
