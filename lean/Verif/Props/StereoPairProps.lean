import Verif.Props.ProjectionDiffExample
/-
C97: stereo_pair_diff(): what the reported differences mean.
-/
namespace Mrcal.ModelDiff
open Mrcal Mrcal.Cam Mrcal.Pose Mrcal.ImageTransform

/-! ### Specification -/

/-- the first camera of the pair looks along `v`; the thing at the given distance (infinity if there's none) is at `p` in the coordinates of the second camera -/
def Seen (distance : Option ℝ) (m : Model × Model) (v p : P3) : Prop :=
  match distance with
  | some d => ∃ P, inCam m.1 P = times d v ∧ inCam m.2 P = p
  | none => ∃ w, dirInCam m.1 w = v ∧ dirInCam m.2 w = p

/-- all four cameras are usable -/
def UsablePair (m : Model × Model) : Prop := Usable m.1 ∧ Usable m.2

/-! ### helpers -/

theorem turned (m0 m1 : Model) (h : Orth m0.pose.R) (w : P3) : rotatePointR (RtToFrom m0 m1).R (dirInCam m0 w) false = dirInCam m1 w := by
  have e0 := toFrom_point m0 m1 h ⟨0, 0, 0⟩
  have e1 := toFrom_point m0 m1 h w
  unfold inCam transformPointRt at e0 e1
  unfold dirInCam
  generalize (RtToFrom m0 m1) = T at *
  simp only [Bool.not_false, if_true] at e0 e1
  have hx0 := congrArg P3.x e0
  have hy0 := congrArg P3.y e0
  have hz0 := congrArg P3.z e0
  have hx1 := congrArg P3.x e1
  have hy1 := congrArg P3.y e1
  have hz1 := congrArg P3.z e1
  simp only [rotatePointR, addP, Pose.mulVec, Bool.false_eq_true, if_false] at hx0 hy0 hz0 hx1 hy1 hz1 ⊢
  ext <;> simp only
  · linear_combination hx1 - hx0
  · linear_combination hy1 - hy0
  · linear_combination hz1 - hz0

theorem pair_value (distance : Option ℝ) (m : Model × Model) (h : Orth m.1.pose.R) (v p : P3) (hp : Seen distance m v p) :
    transformPointRt (pairRt10 distance m) (times (distance.getD 1) v) false = p := by
  cases distance with
  | some d =>
    obtain ⟨P, e1, e2⟩ := hp
    have := toFrom_point m.1 m.2 h P
    rw [e1, e2] at this
    exact this
  | none =>
    obtain ⟨w, e1, e2⟩ := hp
    have := turned m.1 m.2 h w
    rw [e1, e2] at this
    rw [show (none : Option ℝ).getD 1 = 1 from rfl, times_one, ← this]
    show transformPointRt ⟨(RtToFrom m.1 m.2).R, ⟨0, 0, 0⟩⟩ v false = _
    simp [transformPointRt, rotatePointR, addP]

theorem invert_rot (X : Rt) (hX : IsRot X.R) : IsRot (invertRt X).R := by
  have := compose_rot identityRt X false true identity_rot hX
  have e : composeRt identityRt X false true = invertRt X := by
    apply act_ext
    intro x
    rw [compose_transform, (compose_identity X).2.2, (invert_transform X x hX.1).1]
  rwa [e] at this

theorem pair_rot (distance : Option ℝ) (m : Model × Model) (h0 : IsRot m.1.pose.R) (h1 : IsRot m.2.pose.R) : IsRot (pairRt10 distance m).R := by
  have : (pairRt10 distance m).R = (RtToFrom m.1 m.2).R := by
    unfold pairRt10
    cases distance <;> rfl
  rw [this]
  exact compose_rot _ _ _ _ h1 (invert_rot _ h0)

/-- the other way: the inverse -/
theorem pair_back (distance : Option ℝ) (m : Model × Model) (h0 : IsRot m.1.pose.R) (h1 : IsRot m.2.pose.R) : invertRt (pairRt10 distance m) = pairRt10 distance (m.2, m.1) := by
  apply act_ext
  intro p
  have hT := pair_rot distance m h0 h1
  rw [(invert_transform _ p hT.1).1]
  cases distance with
  | some d =>
    have e0 : inCam m.2 (transformPointRt m.2.pose p true) = p := (transform_inverted m.2.pose h1.1 p).2
    have e1 := toFrom_point m.1 m.2 h0.1 (transformPointRt m.2.pose p true)
    have e2 := toFrom_point m.2 m.1 h1.1 (transformPointRt m.2.pose p true)
    rw [e0] at e1 e2
    have e3 : transformPointRt (pairRt10 (some d) m) (inCam m.1 (transformPointRt m.2.pose p true)) false = p := e1
    have e4 : transformPointRt (pairRt10 (some d) (m.2, m.1)) p false = inCam m.1 (transformPointRt m.2.pose p true) := e2
    rw [e4, ← e3]
    exact (transform_inverted _ hT.1 _).1 ▸ by rw [e3]
  | none =>
    have e0 : dirInCam m.2 (rotatePointR m.2.pose.R p true) = p := by
      have := (transform_inverted ⟨m.2.pose.R, ⟨0, 0, 0⟩⟩ h1.1 p).2
      simpa [transformPointRt, rotatePointR, addP, subP, dirInCam, Pose.mulVec] using this
    have e1 := pair_value none m h0.1 _ _ ⟨rotatePointR m.2.pose.R p true, rfl, rfl⟩
    have e2 := pair_value none (m.2, m.1) h1.1 _ _ ⟨rotatePointR m.2.pose.R p true, rfl, rfl⟩
    simp only [show (none : Option ℝ).getD 1 = 1 from rfl, times_one] at e1 e2
    rw [e0] at e1 e2
    rw [e2, ← e1]
    exact (transform_inverted _ hT.1 _).1 ▸ by rw [e1]

theorem projectN_value (m : Model) (hv : ValidLens m.lens) (T : Rt) (d : ℝ) (v : P3) (h : transformPointRt T (times d v) false ≠ ⟨0, 0, 0⟩) :
    projectN m (transformN T (scale d (NanP3.of v))) = some (sees m (transformPointRt T (times d v) false)) := by
  unfold transformN
  rw [scale_of]
  show projectN m (some _) = _
  unfold projectN
  rw [Option.bind_some, if_neg h, project1_pix m hv]

/-! ### C97 -/

/-- **C97**: the returned function: from the first camera of a pair to the second or back. The pixel is unprojected; the other camera sees that point (that direction, if no distance is given) at the reported pixel -/
theorem pair_reproject (env : Env) (distance : Option ℝ) (m : Model × Model) (h : UsablePair m) (q : P2) :
    (∀ v p, Ray env m.1 q v → Seen distance m v p → p ≠ ⟨0, 0, 0⟩ → reproject env.solve env.prev distance m false q = some (some (sees m.2 p))) ∧
    (∀ v p, Ray env m.2 q v → Seen distance (m.2, m.1) v p → p ≠ ⟨0, 0, 0⟩ → reproject env.solve env.prev distance m true q = some (some (sees m.1 p))) := by
  constructor
  · intro v p hv hp hne
    have e := pair_value distance m h.1.rot.1 v p hp
    unfold reproject
    simp only [Bool.false_eq_true, if_false]
    rw [hv.2, Option.map_some, projectN_value m.2 h.2.valid _ _ _ (by rw [e]; exact hne), e]
  · intro v p hv hp hne
    have e := pair_value distance (m.2, m.1) h.2.rot.1 v p hp
    unfold reproject
    simp only [if_true]
    rw [hv.2, Option.map_some, pair_back distance m h.1.rot h.2.rot, projectN_value m.1 h.1.valid _ _ _ (by rw [e]; exact hne), e]

theorem pair_steps (solve : Solver) (prev : NanP3) (a b : Model × Model) (gw : Nat) (gh : Option Nat) (distance : Option ℝ) (r : List (Option ℝ) × List (Option P2) × List (List P2))
    (h : stereoPairDiff solve prev [a, b] gw gh distance = some r) :
    ∃ qa qb, sampleImager gw gh a.1.W a.1.H = some r.2.2 ∧ r.2.2.flatten.mapM (reproject solve prev distance a false) = some qa ∧ r.2.2.flatten.mapM (reproject solve prev distance b false) = some qb ∧
      r.2.1 = ((qa.zip qb).map fun (x, y) => x.bind fun x => y.map fun y => ⟨y.x - x.x, y.y - x.y⟩) ∧ r.1 = r.2.1.map fun d => d.map fun d => Real.sqrt (norm2 d) := by
  unfold stereoPairDiff at h
  dsimp only at h
  split_ifs at h
  obtain ⟨grid, e1, h⟩ := Option.bind_eq_some_iff.mp h
  obtain ⟨qa, e2, h⟩ := Option.bind_eq_some_iff.mp h
  obtain ⟨qb, e3, h⟩ := Option.bind_eq_some_iff.mp h
  have := Option.some.inj h
  subst this
  exact ⟨qa, qb, e1, e2, e3, rfl, rfl⟩

/-- **C97**: the reported difference at each pixel of the first cameras: each pair maps the pixel to its second camera, at the given distance. The difference is: where the second pair sees it minus where the first pair sees it -/
theorem pair_diff_meaning (env : Env) (a b : Model × Model) (ha : UsablePair a) (hb : UsablePair b) (gw : Nat) (gh : Option Nat) (distance : Option ℝ) (difflen : List (Option ℝ)) (diff : List (Option P2)) (q0 : List (List P2))
    (h : stereoPairDiff env.solve env.prev [a, b] gw gh distance = some (difflen, diff, q0)) :
    sampleImager gw gh a.1.W a.1.H = some q0 ∧ diff.length = q0.flatten.length ∧ difflen.length = q0.flatten.length ∧
    ∀ (i : Nat) q va vb pa pb, q0.flatten[i]? = some q → Ray env a.1 q va → Ray env b.1 q vb → Seen distance a va pa → Seen distance b vb pb → pa ≠ ⟨0, 0, 0⟩ → pb ≠ ⟨0, 0, 0⟩ →
      diff[i]? = some (some (subQ (sees b.2 pb) (sees a.2 pa))) ∧ difflen[i]? = some (some (lenQ (subQ (sees b.2 pb) (sees a.2 pa)))) := by
  obtain ⟨qa, qb, e1, e2, e3, e4, e5⟩ := pair_steps _ _ _ _ _ _ _ _ h
  dsimp only at e1 e2 e3 e4 e5
  obtain ⟨la, ga⟩ := mapM_get _ _ _ e2
  obtain ⟨lb, gb⟩ := mapM_get _ _ _ e3
  refine ⟨e1, by rw [e4]; simp [la, lb], by rw [e5, e4]; simp [la, lb], ?_⟩
  intro i q va vb pa pb hq hva hvb hpa hpb na nb
  obtain ⟨xa, ea, fa⟩ := ga i q hq
  obtain ⟨xb, eb, fb⟩ := gb i q hq
  rw [(pair_reproject env distance a ha q).1 va pa hva hpa na] at fa
  rw [(pair_reproject env distance b hb q).1 vb pb hvb hpb nb] at fb
  cases fa
  cases fb
  have hd : diff[i]? = some (some (subQ (sees b.2 pb) (sees a.2 pa))) := by
    have hz : (qa.zip qb)[i]? = some (some (sees a.2 pa), some (sees b.2 pb)) := List.getElem?_zip_eq_some.mpr ⟨ea, eb⟩
    rw [e4, List.getElem?_map, hz]
    rfl
  refine ⟨hd, ?_⟩
  rw [e5, List.getElem?_map, hd, Option.map_some, Option.map_some, norm2_len]

theorem moved_pair (X : Rt) (hX : IsRot X.R) (distance : Option ℝ) (m : Model × Model) (h : IsRot m.1.pose.R) : pairRt10 distance (moved X m.1, moved X m.2) = pairRt10 distance m := by
  unfold pairRt10
  dsimp only
  rw [moved_toFrom X hX.1 m.1 m.2 h.1 (compose_rot _ _ false false h hX).1]

theorem moved_reproject (solve : Solver) (prev : NanP3) (X : Rt) (hX : IsRot X.R) (distance : Option ℝ) (m : Model × Model) (h : IsRot m.1.pose.R) (s : Bool) :
    reproject solve prev distance (moved X m.1, moved X m.2) s = reproject solve prev distance m s := by
  funext q
  unfold reproject
  rw [moved_pair X hX distance m h]
  cases s <;> rfl

/-- **C97**: each pair can use its own reference coordinate system: expressing a pair in another one changes nothing -/
theorem pair_reference_free (solve : Solver) (prev : NanP3) (a b : Model × Model) (ha : IsRot a.1.pose.R) (hb : IsRot b.1.pose.R) (gw : Nat) (gh : Option Nat) (distance : Option ℝ) (X Y : Rt) (hX : IsRot X.R) (hY : IsRot Y.R) :
    stereoPairDiff solve prev [(moved X a.1, moved X a.2), (moved Y b.1, moved Y b.2)] gw gh distance = stereoPairDiff solve prev [a, b] gw gh distance := by
  unfold stereoPairDiff
  dsimp only
  rw [moved_reproject solve prev X hX distance a ha, moved_reproject solve prev Y hY distance b hb]
  rfl

theorem seen_exists (distance : Option ℝ) (m : Model × Model) (h : Orth m.1.pose.R) (v : P3) : ∃ p, Seen distance m v p := by
  cases distance with
  | some d => exact ⟨_, transformPointRt m.1.pose (times d v) true, (transform_inverted m.1.pose h _).2, rfl⟩
  | none =>
    refine ⟨_, rotatePointR m.1.pose.R v true, ?_, rfl⟩
    have := (transform_inverted ⟨m.1.pose.R, ⟨0, 0, 0⟩⟩ h v).2
    simpa [transformPointRt, rotatePointR, addP, subP, dirInCam, Pose.mulVec] using this

/-- **C97**: the same pair twice, possibly in another reference coordinate system: no difference, wherever the second camera sees something -/
theorem pair_same (env : Env) (a : Model × Model) (ha : UsablePair a) (gw : Nat) (gh : Option Nat) (distance : Option ℝ) (X : Rt) (hX : IsRot X.R) (difflen : List (Option ℝ)) (diff : List (Option P2)) (q0 : List (List P2))
    (h : stereoPairDiff env.solve env.prev [a, (moved X a.1, moved X a.2)] gw gh distance = some (difflen, diff, q0))
    (i : Nat) (q : P2) (v p : P3) (hq : q0.flatten[i]? = some q) (hv : Ray env a.1 q v) (hp : Seen distance a v p) (hne : p ≠ ⟨0, 0, 0⟩) :
    diff[i]? = some (some ⟨0, 0⟩) ∧ difflen[i]? = some (some 0) := by
  have e := pair_reference_free env.solve env.prev a a ha.1.rot ha.1.rot gw gh distance identityRt X identity_rot hX
  have e' := pair_reference_free env.solve env.prev a (moved X a.1, moved X a.2) ha.1.rot (compose_rot _ _ false false ha.1.rot hX) gw gh distance identityRt identityRt identity_rot identity_rot
  have hmi : ∀ m : Model, moved identityRt m = m := by
    intro m
    unfold moved
    rw [(compose_identity m.pose).2.1]
  rw [hmi, hmi] at e
  rw [e] at h
  obtain ⟨-, -, -, h4⟩ := pair_diff_meaning env a a ha ha gw gh distance difflen diff q0 h
  obtain ⟨k1, k2⟩ := h4 i q v v p p hq hv hv hp hp hne hne
  rw [k1, k2]
  have : subQ (sees a.2 p) (sees a.2 p) = ⟨0, 0⟩ := by simp [subQ]
  rw [this]
  refine ⟨rfl, ?_⟩
  simp [lenQ]

/-- **C97**: at infinity, back and forth: if the unprojection of both pixels is exact then we're back at the first pixel -/
theorem pair_round_trip (env : Env) (m : Model × Model) (h : UsablePair m) (q q1 : P2) (v w : P3) (hv : Ray env m.1 q v) (hq : sees m.1 v = q) (hw : Seen none m v w) (hq1 : sees m.2 w = q1) (hw1 : Ray env m.2 q1 w) :
    reproject env.solve env.prev none m false q = some (some q1) ∧ reproject env.solve env.prev none m true q1 = some (some q) := by
  have ne : ∀ x : P3, mag3 x = 1 → x ≠ ⟨0, 0, 0⟩ := by
    intro x hx h0
    rw [h0] at hx
    unfold mag3 at hx
    norm_num at hx
  obtain ⟨d, e1, e2⟩ := hw
  constructor
  · rw [(pair_reproject env none m h q).1 v w hv ⟨d, e1, e2⟩ (ne w hw1.1), hq1]
  · rw [(pair_reproject env none m h q1).2 w v hw1 ⟨d, e2, e1⟩ (ne v hv.1), hq]

theorem not_noncentral (m : Model) (h : isCahvore m.lens = false) : m.lens.noncentral = false := by
  cases hL : m.lens <;> rw [hL] at h <;> first | rfl | exact absurd h (by simp [isCahvore])

/-- **C97**: what is accepted: exactly two pairs, where the first cameras have the same size, and the second cameras have the same size, with a grid that can be computed -/
theorem pair_accepted (env : Env) (hs : SolverReports env.solve) (pairs : List (Model × Model)) (hp : ∀ m ∈ pairs, UsablePair m) (gw : Nat) (gh : Option Nat) (distance : Option ℝ) :
    (∃ r, stereoPairDiff env.solve env.prev pairs gw gh distance = some r) ↔
      ∃ a b, pairs = [a, b] ∧ (a.1.W = b.1.W ∧ a.1.H = b.1.H) ∧ (a.2.W = b.2.W ∧ a.2.H = b.2.H) ∧ ∃ grid, sampleImager gw gh a.1.W a.1.H = some grid := by
  constructor
  · rintro ⟨r, h⟩
    match pairs, h with
    | [a, b], h =>
      obtain ⟨qa, qb, e1, -⟩ := pair_steps _ _ _ _ _ _ _ _ h
      refine ⟨a, b, rfl, ?_, ?_, _, e1⟩ <;>
      · unfold stereoPairDiff at h
        dsimp only at h
        split_ifs at h with c1 c2 c3
        omega
  · rintro ⟨a, b, rfl, h1, h2, grid, hg⟩
    have ha := hp a (by simp)
    have hb := hp b (by simp)
    have total : ∀ m, UsablePair m → ∃ r, grid.flatten.mapM (reproject env.solve env.prev distance m false) = some r := by
      intro m hm
      refine mapM_total _ _ fun q _ => ?_
      obtain ⟨v, hv, -⟩ := ray_cases env hs m.1 hm.1 q
      unfold reproject
      simp only [Bool.false_eq_true, if_false]
      rw [hv]
      exact ⟨_, rfl⟩
    obtain ⟨qa, ea⟩ := total a ha
    obtain ⟨qb, eb⟩ := total b hb
    unfold stereoPairDiff
    dsimp only
    rw [not_noncentral _ ha.1.central, not_noncentral _ ha.2.central, not_noncentral _ hb.1.central, not_noncentral _ hb.2.central, if_neg (by simp), if_neg (by omega), if_neg (by omega), hg, Option.bind_some, ea,
      Option.bind_some, eb, Option.bind_some]
    exact ⟨_, rfl⟩

/-- CAHVORE models are documented in the code as acceptable at infinity, or with E=0. But any such model raises an exception: numpy has no norm2() -/
theorem pair_cahvore_wrong (solve : Solver) (prev : NanP3) (pairs : List (Model × Model)) (gw : Nat) (gh : Option Nat) (distance : Option ℝ) (m : Model × Model) (hm : m ∈ pairs)
    (hc : isCahvore m.1.lens = true ∨ isCahvore m.2.lens = true) : stereoPairDiff solve prev pairs gw gh distance = none := by
  have nc : ∀ L : Lens, isCahvore L = true → L.noncentral = true := by
    intro L h
    cases L <;> first | rfl | exact absurd h (by simp [isCahvore])
  match pairs, hm with
  | [], hm => exact absurd hm (by simp)
  | [x], _ => rfl
  | [a, b], hm =>
    unfold stereoPairDiff
    dsimp only
    rw [if_pos]
    simp only [List.mem_cons, List.not_mem_nil, or_false] at hm
    rcases hm with rfl | rfl <;> rcases hc with hc | hc <;> simp [nc _ hc]
  | _ :: _ :: _ :: _, _ => rfl

/-! ### cases -/

/-- the hypotheses of the theorems above are met: two pinhole cameras, side by side. The center pixel is seen at infinity at the center, at a distance of 5 at (0.2,0) -/
theorem pair_case : UsablePair (camA, camB) ∧ (∀ X : Rt, IsRot X.R → UsablePair (moved X camA, moved X camB)) ∧ Ray envA camA ⟨0, 0⟩ ⟨0, 0, 1⟩ ∧ Ray envA camB ⟨0, 0⟩ ⟨0, 0, 1⟩ ∧
    Seen none (camA, camB) ⟨0, 0, 1⟩ ⟨0, 0, 1⟩ ∧ Seen (some 5) (camA, camB) ⟨0, 0, 1⟩ ⟨1, 0, 5⟩ := by
  refine ⟨⟨camA_usable, camB_usable⟩, fun X hX => ⟨?_, ?_⟩, rayA, ⟨rayA.1, rayA.2⟩, ⟨⟨0, 0, 1⟩, ?_, ?_⟩, ⟨0, 0, 5⟩, ?_, ?_⟩
  · have h := camA_usable
    exact ⟨compose_rot _ _ false false h.rot hX, h.valid, h.central, h.fx, h.fy⟩
  · have h := camB_usable
    exact ⟨compose_rot _ _ false false h.rot hX, h.valid, h.central, h.fx, h.fy⟩
  · simp [dirInCam, camA, cam, rotatePointR, mulVec, identityR]
  · simp [dirInCam, camB, cam, rotatePointR, mulVec, identityR]
  · simp [inCam, camA, cam, transformPointRt, rotatePointR, mulVec, addP, identityR, times]
  · simp [inCam, camB, cam, transformPointRt, rotatePointR, mulVec, addP, identityR]

/-- the call succeeds, and both of these pixels are compared -/
example : ∃ r, stereoPairDiff envA.solve envA.prev [(camA, camB), (moved ⟨spin 1, ⟨1, 2, 3⟩⟩ camA, moved ⟨spin 1, ⟨1, 2, 3⟩⟩ camB)] 2 (some 2) (some 5) = some r := by
  refine (pair_accepted envA envA_reports _ ?_ 2 (some 2) (some 5)).mpr ⟨_, _, rfl, ⟨rfl, rfl⟩, ⟨rfl, rfl⟩, _, grid2⟩
  intro m hm
  simp only [List.mem_cons, List.not_mem_nil, or_false] at hm
  rcases hm with rfl | rfl
  · exact pair_case.1
  · exact pair_case.2.1 _ (spin_rot 1)

example : reproject envA.solve envA.prev none (camA, camB) false ⟨0, 0⟩ = some (some ⟨0, 0⟩) ∧ reproject envA.solve envA.prev none (camA, camB) true ⟨0, 0⟩ = some (some ⟨0, 0⟩) := by
  refine pair_round_trip envA _ pair_case.1 ⟨0, 0⟩ ⟨0, 0⟩ ⟨0, 0, 1⟩ ⟨0, 0, 1⟩ pair_case.2.2.1 ?_ pair_case.2.2.2.2.1 ?_ pair_case.2.2.2.1
  · exact seesB 0 0 ⟨0, 0, 1⟩ rfl rfl rfl
  · exact seesB 0 0 ⟨0, 0, 1⟩ rfl rfl rfl

example : reproject envA.solve envA.prev (some 5) (camA, camB) false ⟨0, 0⟩ = some (some (sees camB ⟨1, 0, 5⟩)) :=
  (pair_reproject envA (some 5) _ pair_case.1 ⟨0, 0⟩).1 _ _ pair_case.2.2.1 pair_case.2.2.2.2.2 (by simp)

end Mrcal.ModelDiff
