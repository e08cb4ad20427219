import Verif.Props.PointToolsProps
/-
C119: the reported fields of view; the keys of mrcal-is-within-valid-intrinsics-region; what's wrong in these tools; and cases that meet the hypotheses.
-/
namespace Mrcal.PointTools
open Mrcal Mrcal.Cam Mrcal.Pose Mrcal.ImageTransform

/-! ### mrcal-report-fov -/

/-- the two numbers -/
theorem th_two (solve : Solver) (m : Model) (q0 q1 : P2) (v0 v1 : P3) (h0 : unproject1 m solve q0 = some (some v0)) (h1 : unproject1 m solve q1 = some (some v1)) :
    thFromQ solve m [q0, q1] = some [angle v0, angle v1] := by
  unfold thFromQ
  rw [List.mapM_cons, h0, List.mapM_cons, h1]
  rfl

theorem mean_two (a b : ℝ) : twiceMean [a, b] = .degrees (a + b) := by
  unfold twiceMean
  congr 1
  simp
  ring

/-- C119. The vertical field of view is the angle between the rays of the two pixels at the top and at the bottom, below and above the principal point; if these two are in one plane with the optical axis, on opposite sides
of it, and the angle is at most 180 degrees -/
theorem fov_vertical (solve : Solver) (m : Model) (f : Fov) (h : reportFov solve m = some f) (a b : P3) (ha : unproject1 m solve ⟨m.intr 2, 0⟩ = some (some a))
    (hb : unproject1 m solve ⟨m.intr 2, (m.H : ℝ) - 1⟩ = some (some b)) (pa : 0 < dot a a) (pb : 0 < dot b b) (k l : ℝ) (hk : 0 ≤ k) (hl : 0 ≤ l) (ux uy : ℝ) (hu : ux ^ 2 + uy ^ 2 = 1)
    (hax : a.x = -(k * ux)) (hay : a.y = -(k * uy)) (hbx : b.x = l * ux) (hby : b.y = l * uy) :
    ∃ th, f.vertical = .degrees th ∧ (th ≤ 180 → IsAngle a b th) := by
  refine ⟨angle a + angle b, ?_, fun h180 => opposite_sum a b pa pb k l hk hl ux uy hu hax hay hbx hby h180⟩
  unfold reportFov at h
  obtain ⟨c, -, h⟩ := Option.bind_eq_some_iff.1 h
  rw [th_two solve m _ _ a b ha hb, Option.bind_some] at h
  obtain ⟨y, -, rfl⟩ := Option.map_eq_some_iff.1 h
  exact mean_two _ _

/-- C119. The same for the horizontal field of view, if the vertical one can be computed -/
theorem fov_horizontal_partial (solve : Solver) (m : Model) (f : Fov) (h : reportFov solve m = some f) (hx : f.centersx ≠ []) (a b : P3) (ha : unproject1 m solve ⟨0, m.intr 3⟩ = some (some a))
    (hb : unproject1 m solve ⟨(m.W : ℝ) - 1, m.intr 3⟩ = some (some b)) (pa : 0 < dot a a) (pb : 0 < dot b b) (k l : ℝ) (hk : 0 ≤ k) (hl : 0 ≤ l) (ux uy : ℝ) (hu : ux ^ 2 + uy ^ 2 = 1)
    (hax : a.x = -(k * ux)) (hay : a.y = -(k * uy)) (hbx : b.x = l * ux) (hby : b.y = l * uy) :
    ∃ th, f.horizontal = .degrees th ∧ (th ≤ 180 → IsAngle a b th) := by
  refine ⟨angle a + angle b, ?_, fun h180 => opposite_sum a b pa pb k l hk hl ux uy hu hax hay hbx hby h180⟩
  unfold reportFov at h
  obtain ⟨c, -, h⟩ := Option.bind_eq_some_iff.1 h
  obtain ⟨x, -, h⟩ := Option.bind_eq_some_iff.1 h
  rw [th_two solve m _ _ a b ha hb, Option.map_some] at h
  obtain rfl := Option.some.inj h
  have hx' : x.isEmpty = false := by cases x with | nil => exact absurd rfl hx | cons => rfl
  show (if x.isEmpty then _ else _) = _
  rw [hx', if_neg (by simp)]
  exact mean_two _ _

/-- a pinhole camera whose principal point is in the image -/
structure PinholeCam (m : Model) : Prop where
  lens : m.lens = .pinhole
  fx : 0 < m.intr 0
  fy : 0 < m.intr 1
  cx0 : 0 ≤ m.intr 2
  cx1 : m.intr 2 ≤ (m.W : ℝ) - 1
  cy0 : 0 ≤ m.intr 3
  cy1 : m.intr 3 ≤ (m.H : ℝ) - 1

/-- the ray of a pixel of a pinhole camera -/
noncomputable def ray (m : Model) (q : P2) : P3 := ⟨(q.x - m.intr 2) / m.intr 0, (q.y - m.intr 3) / m.intr 1, 1⟩

theorem angle_lt (v : P3) (h : v.z = 1) : angle v < 90 := by
  have hp := Real.pi_pos
  have : atan2 (Real.sqrt (v.x * v.x + v.y * v.y)) v.z < Real.pi / 2 := by
    unfold atan2
    refine (abs_lt.1 (Complex.abs_arg_lt_pi_div_two_iff.2 (.inl ?_))).2
    rw [h]; norm_num
  unfold angle
  rw [div_mul_eq_mul_div, div_lt_iff₀ hp]
  linarith

theorem report_pinhole (solve : Solver) (m : Model) (h : m.lens = .pinhole) : ∃ f, reportFov solve m = some f ∧
    f.centersx = [angle (ray m ⟨m.intr 2, 0⟩), angle (ray m ⟨m.intr 2, (m.H : ℝ) - 1⟩)] ∧ f.centersy = [angle (ray m ⟨0, m.intr 3⟩), angle (ray m ⟨(m.W : ℝ) - 1, m.intr 3⟩)] ∧
    f.corners = [angle (ray m ⟨0, 0⟩), angle (ray m ⟨0, (m.H : ℝ) - 1⟩), angle (ray m ⟨(m.W : ℝ) - 1, 0⟩), angle (ray m ⟨(m.W : ℝ) - 1, (m.H : ℝ) - 1⟩)] ∧
    f.vertical = twiceMean f.centersx ∧ f.horizontal = twiceMean f.centersy ∧ f.corner = twiceMean f.corners := by
  have hu : ∀ q, unproject1 m solve q = some (some (ray m q)) := unproject1_pinhole m h solve
  have h4 : ∀ a b c d : P2, thFromQ solve m [a, b, c, d] = some [angle (ray m a), angle (ray m b), angle (ray m c), angle (ray m d)] := by
    intro a b c d
    unfold thFromQ
    rw [List.mapM_cons, hu, List.mapM_cons, hu, List.mapM_cons, hu, List.mapM_cons, hu]
    rfl
  unfold reportFov
  dsimp only
  rw [h4, Option.bind_some, th_two solve m _ _ _ _ (hu _) (hu _), Option.bind_some, th_two solve m _ _ _ _ (hu _) (hu _), Option.map_some]
  exact ⟨_, rfl, rfl, rfl, rfl, rfl, rfl, rfl⟩

theorem dot_pos_of_z (v : P3) (h : v.z = 1) : 0 < dot v v := by
  unfold dot; rw [h]; nlinarith [mul_self_nonneg v.x, mul_self_nonneg v.y]

/-- C119. Pinhole cameras: the reported vertical and horizontal fields of view are the angles between the rays of the pixels in the middles of opposite edges (as given by the principal point) -/
theorem fov_pinhole (solve : Solver) (m : Model) (h : PinholeCam m) : ∃ f v w, reportFov solve m = some f ∧ f.vertical = .degrees v ∧ f.horizontal = .degrees w ∧
    IsAngle (ray m ⟨m.intr 2, 0⟩) (ray m ⟨m.intr 2, (m.H : ℝ) - 1⟩) v ∧ IsAngle (ray m ⟨0, m.intr 3⟩) (ray m ⟨(m.W : ℝ) - 1, m.intr 3⟩) w := by
  obtain ⟨f, hf, e1, e2, -, e4, e5, -⟩ := report_pinhole solve m h.lens
  have hfx := h.fx
  have hfy := h.fy
  refine ⟨f, _, _, hf, by rw [e4, e1]; exact mean_two _ _, by rw [e5, e2]; exact mean_two _ _, ?_, ?_⟩
  · refine opposite_sum _ _ (dot_pos_of_z _ rfl) (dot_pos_of_z _ rfl) (m.intr 3 / m.intr 1) (((m.H : ℝ) - 1 - m.intr 3) / m.intr 1) (div_nonneg h.cy0 hfy.le) (div_nonneg (by linarith [h.cy1]) hfy.le) 0 1 (by norm_num)
      ?_ ?_ ?_ ?_ ?_
    · simp [ray]
    · simp only [ray]; field_simp; ring
    · simp [ray]
    · simp [ray]
    · have a := angle_lt (ray m ⟨m.intr 2, 0⟩) rfl
      have b := angle_lt (ray m ⟨m.intr 2, (m.H : ℝ) - 1⟩) rfl
      linarith
  · refine opposite_sum _ _ (dot_pos_of_z _ rfl) (dot_pos_of_z _ rfl) (m.intr 2 / m.intr 0) (((m.W : ℝ) - 1 - m.intr 2) / m.intr 0) (div_nonneg h.cx0 hfx.le) (div_nonneg (by linarith [h.cx1]) hfx.le) 1 0 (by norm_num)
      ?_ ?_ ?_ ?_ ?_
    · simp only [ray]; field_simp; ring
    · simp [ray]
    · simp [ray]
    · simp [ray]
    · have a := angle_lt (ray m ⟨0, m.intr 3⟩) rfl
      have b := angle_lt (ray m ⟨(m.W : ℝ) - 1, m.intr 3⟩) rfl
      linarith

theorem polar (X Y : ℝ) : ∃ k ux uy : ℝ, 0 ≤ k ∧ ux ^ 2 + uy ^ 2 = 1 ∧ X = k * ux ∧ Y = k * uy := by
  by_cases h : X ^ 2 + Y ^ 2 = 0
  · have hX : X = 0 := by nlinarith [sq_nonneg X, sq_nonneg Y]
    have hY : Y = 0 := by nlinarith [sq_nonneg X, sq_nonneg Y]
    exact ⟨0, 1, 0, le_refl _, by norm_num, by rw [hX]; ring, by rw [hY]; ring⟩
  · have hp : 0 < X ^ 2 + Y ^ 2 := lt_of_le_of_ne (by positivity) (Ne.symm h)
    have hs := Real.sqrt_pos.2 hp
    have hq := Real.sq_sqrt hp.le
    refine ⟨Real.sqrt (X ^ 2 + Y ^ 2), X / Real.sqrt (X ^ 2 + Y ^ 2), Y / Real.sqrt (X ^ 2 + Y ^ 2), hs.le, ?_, ?_, ?_⟩
    · rw [div_pow, div_pow, hq]; field_simp
    · field_simp
    · field_simp

theorem angle_sym (v w : P3) (h1 : v.x * v.x = w.x * w.x) (h2 : v.y * v.y = w.y * w.y) (h3 : v.z = w.z) : angle v = angle w := by
  unfold angle; rw [h1, h2, h3]

/-- C119. Pinhole cameras with the principal point at the center: the reported corner-corner field of view is the angle between the rays of opposite corners -/
theorem fov_corner_partial (solve : Solver) (m : Model) (h : PinholeCam m) (hx : m.intr 2 = ((m.W : ℝ) - 1) / 2) (hy : m.intr 3 = ((m.H : ℝ) - 1) / 2) : ∃ f c, reportFov solve m = some f ∧ f.corner = .degrees c ∧
    IsAngle (ray m ⟨0, 0⟩) (ray m ⟨(m.W : ℝ) - 1, (m.H : ℝ) - 1⟩) c ∧ IsAngle (ray m ⟨0, (m.H : ℝ) - 1⟩) (ray m ⟨(m.W : ℝ) - 1, 0⟩) c := by
  obtain ⟨f, hf, -, -, e3, -, -, e6⟩ := report_pinhole solve m h.lens
  have hfx := h.fx
  have hfy := h.fy
  have a1 : angle (ray m ⟨0, (m.H : ℝ) - 1⟩) = angle (ray m ⟨0, 0⟩) := angle_sym _ _ (by simp [ray]) (by simp only [ray]; rw [hy]; ring) rfl
  have a2 : angle (ray m ⟨(m.W : ℝ) - 1, 0⟩) = angle (ray m ⟨0, 0⟩) := angle_sym _ _ (by simp only [ray]; rw [hx]; ring) (by simp [ray]) rfl
  have a3 : angle (ray m ⟨(m.W : ℝ) - 1, (m.H : ℝ) - 1⟩) = angle (ray m ⟨0, 0⟩) := angle_sym _ _ (by simp only [ray]; rw [hx]; ring) (by simp only [ray]; rw [hy]; ring) rfl
  have hlt := angle_lt (ray m ⟨0, 0⟩) rfl
  refine ⟨f, angle (ray m ⟨0, 0⟩) + angle (ray m ⟨0, 0⟩), hf, ?_, ?_, ?_⟩
  · rw [e6, e3, a1, a2, a3]
    unfold twiceMean
    simp
    ring
  all_goals
    generalize hX : m.intr 2 / m.intr 0 = X
    generalize hY : m.intr 3 / m.intr 1 = Y
  · have key := fun (k : ℝ) (ux uy : ℝ) hk hu hax hay hbx hby h180 => opposite_sum (ray m ⟨0, 0⟩) (ray m ⟨(m.W : ℝ) - 1, (m.H : ℝ) - 1⟩) (dot_pos_of_z _ rfl) (dot_pos_of_z _ rfl) k k hk hk ux uy hu hax hay hbx hby h180
    rw [a3] at key
    have x0 : (ray m ⟨0, 0⟩).x = -X := by rw [← hX]; simp only [ray]; ring
    have y0 : (ray m ⟨0, 0⟩).y = -Y := by rw [← hY]; simp only [ray]; ring
    have x1 : (ray m ⟨(m.W : ℝ) - 1, (m.H : ℝ) - 1⟩).x = X := by rw [← hX]; simp only [ray]; rw [hx]; ring
    have y1 : (ray m ⟨(m.W : ℝ) - 1, (m.H : ℝ) - 1⟩).y = Y := by rw [← hY]; simp only [ray]; rw [hy]; ring
    obtain ⟨k, ux, uy, hk, hu, h1, h2⟩ := polar X Y
    exact key k ux uy hk hu (by rw [x0, h1]) (by rw [y0, h2]) (by rw [x1, h1]) (by rw [y1, h2]) (by linarith)
  · have key := fun (k : ℝ) (ux uy : ℝ) hk hu hax hay hbx hby h180 => opposite_sum (ray m ⟨0, (m.H : ℝ) - 1⟩) (ray m ⟨(m.W : ℝ) - 1, 0⟩) (dot_pos_of_z _ rfl) (dot_pos_of_z _ rfl) k k hk hk ux uy hu hax hay hbx hby h180
    rw [a1, a2] at key
    have x0 : (ray m ⟨0, (m.H : ℝ) - 1⟩).x = -X := by rw [← hX]; simp only [ray]; ring
    have y0 : (ray m ⟨0, (m.H : ℝ) - 1⟩).y = -(-Y) := by rw [← hY]; simp only [ray]; rw [hy]; ring
    have x1 : (ray m ⟨(m.W : ℝ) - 1, 0⟩).x = X := by rw [← hX]; simp only [ray]; rw [hx]; ring
    have y1 : (ray m ⟨(m.W : ℝ) - 1, 0⟩).y = -Y := by rw [← hY]; simp only [ray]; ring
    obtain ⟨k, ux, uy, hk, hu, h1, h2⟩ := polar X (-Y)
    exact key k ux uy hk hu (by rw [x0, h1]) (by rw [y0, h2]) (by rw [x1, h1]) (by rw [y1, h2]) (by linarith)

/-- a camera with an OpenCV lens: f = 1, center (1,1), imager 3x3 -/
noncomputable def small : Model := ⟨.opencv4, fun i => if i = 4 ∨ i = 5 ∨ i = 6 ∨ i = 7 then 0 else 1, ⟨identityR, ⟨0, 0, 0⟩⟩, 3, 3, none⟩

/-- a solver that fails if the seed is in the column of the principal point; it reports success otherwise -/
noncomputable def failsX : Solver := fun _ _ u => (u, if u.x = 1 then 1 else 0)
noncomputable def failsY : Solver := fun _ _ u => (u, if u.y = 1 then 1 else 0)

theorem small_unproject (solve : Solver) (q : P2) :
    ((solve (unprojectX .opencv4 small.intr q) (unprojectJ .opencv4 small.intr) (unprojectSeed small.intr q)).2 = 1 → unproject1 small solve q = some none) ∧
    ((solve (unprojectX .opencv4 small.intr q) (unprojectJ .opencv4 small.intr) (unprojectSeed small.intr q)).2 = 0 → ∃ v, unproject1 small solve q = some (some v)) := by
  have e : unproject1 small solve q = match (unprojectOne .opencv4 small.intr solve q ⟨none, none, none⟩).x, (unprojectOne .opencv4 small.intr solve q ⟨none, none, none⟩).y, (unprojectOne .opencv4 small.intr solve q ⟨none, none, none⟩).z with
    | some x, some y, some z => some (some ⟨x, y, z⟩)
    | _, _, _ => some none := rfl
  rw [e]
  unfold unprojectOne
  dsimp only
  constructor
  · intro h
    rw [h, if_pos (by norm_num)]
  · intro h
    rw [h, if_neg (by norm_num)]
    split_ifs
    · exact ⟨_, rfl⟩
    · exact ⟨_, rfl⟩

theorem seed_x (q : P2) : ((unprojectSeed small.intr q).x = 1 ↔ q.x = 1) ∧ ((unprojectSeed small.intr q).y = 1 ↔ q.y = 1) := by
  have h0 : small.intr 0 = 1 := by simp [small]
  have h1 : small.intr 1 = 1 := by simp [small]
  have h2 : small.intr 2 = 1 := by simp [small]
  have h3 : small.intr 3 = 1 := by simp [small]
  have hc : coreOf small.intr = ⟨1, 1, 1, 1⟩ := by simp [coreOf, h0, h1, h2, h3]
  unfold unprojectSeed stereographic
  rw [hc, h0, h1, h2, h3]
  dsimp only
  have hpos : (2.0 : ℝ) / (Real.sqrt ((q.x - 1) / 1 * ((q.x - 1) / 1) + (q.y - 1) / 1 * ((q.y - 1) / 1) + 1 * 1) + 1) ≠ 0 := by positivity
  generalize (2.0 : ℝ) / (Real.sqrt ((q.x - 1) / 1 * ((q.x - 1) / 1) + (q.y - 1) / 1 * ((q.y - 1) / 1) + 1 * 1) + 1) = S at *
  constructor
  · constructor
    · intro h
      have : (q.x - 1) * S = 0 := by linarith
      rcases mul_eq_zero.1 this with h | h
      · linarith
      · exact absurd h hpos
    · intro h; rw [h]; ring
  · constructor
    · intro h
      have : (q.y - 1) * S = 0 := by linarith
      rcases mul_eq_zero.1 this with h | h
      · linarith
      · exact absurd h hpos
    · intro h; rw [h]; ring

theorem th_none (solve : Solver) (m : Model) (q0 q1 : P2) (h0 : unproject1 m solve q0 = some none) (h1 : unproject1 m solve q1 = some none) : thFromQ solve m [q0, q1] = some [] := by
  unfold thFromQ
  rw [List.mapM_cons, h0, List.mapM_cons, h1]
  rfl

theorem th_four (solve : Solver) (m : Model) (a b c d : P2) (h : ∀ q ∈ [a, b, c, d], ∃ v, unproject1 m solve q = some (some v)) : ∃ l, thFromQ solve m [a, b, c, d] = some l ∧ l.length = 4 := by
  obtain ⟨v0, h0⟩ := h a (by simp)
  obtain ⟨v1, h1⟩ := h b (by simp)
  obtain ⟨v2, h2⟩ := h c (by simp)
  obtain ⟨v3, h3⟩ := h d (by simp)
  unfold thFromQ
  rw [List.mapM_cons, h0, List.mapM_cons, h1, List.mapM_cons, h2, List.mapM_cons, h3]
  exact ⟨_, rfl, rfl⟩

/-- C119. If the pixels at the top and at the bottom can't be unprojected, then no field of view is reported: not even those that are known. Here the pixels at the left and right edges and at the corners can be unprojected -/
theorem fov_undefined_wrong : ∃ (solve : Solver) (m : Model) (f : Fov), reportFov solve m = some f ∧ f.centersy.length = 2 ∧ f.corners.length = 4 ∧ f.horizontal = .undefined ∧ f.corner = .undefined := by
  have h2 : small.intr 2 = 1 := by simp [small]
  have h3 : small.intr 3 = 1 := by simp [small]
  have ok : ∀ q : P2, q.x ≠ 1 → ∃ v, unproject1 small failsX q = some (some v) := fun q hq => (small_unproject failsX q).2 (by simp only [failsX]; rw [if_neg (fun h => hq ((seed_x q).1.1 h))])
  have bad : ∀ q : P2, q.x = 1 → unproject1 small failsX q = some none := fun q hq => (small_unproject failsX q).1 (by simp only [failsX]; rw [if_pos ((seed_x q).1.2 hq)])
  have hW : ((small.W : ℝ) - 1) ≠ 1 := by simp [small]; norm_num
  obtain ⟨c, hc, lc⟩ := th_four failsX small ⟨0, 0⟩ ⟨0, (small.H : ℝ) - 1⟩ ⟨(small.W : ℝ) - 1, 0⟩ ⟨(small.W : ℝ) - 1, (small.H : ℝ) - 1⟩ (by
    intro q hq
    refine ok q ?_
    simp only [List.mem_cons, List.not_mem_nil, or_false] at hq
    rcases hq with rfl | rfl | rfl | rfl
    · norm_num
    · norm_num
    · exact hW
    · exact hW)
  obtain ⟨v0, hv0⟩ := ok ⟨0, small.intr 3⟩ (by norm_num)
  obtain ⟨v1, hv1⟩ := ok ⟨(small.W : ℝ) - 1, small.intr 3⟩ hW
  refine ⟨failsX, small, ?_⟩
  unfold reportFov
  dsimp only
  rw [hc, Option.bind_some, th_none _ _ _ _ (bad _ h2) (bad _ h2), Option.bind_some, th_two _ _ _ _ _ _ hv0 hv1, Option.map_some]
  exact ⟨_, rfl, rfl, lc, rfl, rfl⟩

/-- C119. If the pixels at the left and at the right can't be unprojected, then the horizontal field of view is reported as "nan", not as "undefined" -/
theorem fov_nan_wrong : ∃ (solve : Solver) (m : Model) (f : Fov), reportFov solve m = some f ∧ f.centersy = [] ∧ f.horizontal = .nan := by
  have h2 : small.intr 2 = 1 := by simp [small]
  have h3 : small.intr 3 = 1 := by simp [small]
  have ok : ∀ q : P2, q.y ≠ 1 → ∃ v, unproject1 small failsY q = some (some v) := fun q hq => (small_unproject failsY q).2 (by simp only [failsY]; rw [if_neg (fun h => hq ((seed_x q).2.1 h))])
  have bad : ∀ q : P2, q.y = 1 → unproject1 small failsY q = some none := fun q hq => (small_unproject failsY q).1 (by simp only [failsY]; rw [if_pos ((seed_x q).2.2 hq)])
  have hH : ((small.H : ℝ) - 1) ≠ 1 := by simp [small]; norm_num
  obtain ⟨c, hc, -⟩ := th_four failsY small ⟨0, 0⟩ ⟨0, (small.H : ℝ) - 1⟩ ⟨(small.W : ℝ) - 1, 0⟩ ⟨(small.W : ℝ) - 1, (small.H : ℝ) - 1⟩ (by
    intro q hq
    refine ok q ?_
    simp only [List.mem_cons, List.not_mem_nil, or_false] at hq
    rcases hq with rfl | rfl | rfl | rfl
    · norm_num
    · exact hH
    · norm_num
    · exact hH)
  obtain ⟨v0, hv0⟩ := ok ⟨small.intr 2, 0⟩ (by norm_num)
  obtain ⟨v1, hv1⟩ := ok ⟨small.intr 2, (small.H : ℝ) - 1⟩ hH
  refine ⟨failsY, small, ?_⟩
  unfold reportFov
  dsimp only
  rw [hc, Option.bind_some, th_two _ _ _ _ _ _ hv0 hv1, Option.bind_some, th_none _ _ _ _ (bad _ h3) (bad _ h3), Option.map_some]
  exact ⟨_, rfl, rfl, rfl⟩

/-- a pinhole camera with the principal point above the image: f = 10, center (5,-10), imager 11x11 -/
noncomputable def shifted : Model := ⟨.pinhole, fun i => if i = 2 then 5 else if i = 3 then -10 else 10, ⟨identityR, ⟨0, 0, 0⟩⟩, 11, 11, none⟩

/-- C119. If the principal point isn't in the image then the reported field of view isn't the angle between the two rays: it's the sum of the two angles, where it should be the difference -/
theorem fov_outside_wrong (solve : Solver) : ∃ f th, reportFov solve shifted = some f ∧ f.vertical = .degrees th ∧ ¬ IsAngle (ray shifted ⟨shifted.intr 2, 0⟩) (ray shifted ⟨shifted.intr 2, (shifted.H : ℝ) - 1⟩) th := by
  obtain ⟨f, hf, e1, -, -, e4, -⟩ := report_pinhole solve shifted rfl
  refine ⟨f, _, hf, by rw [e4, e1]; exact mean_two _ _, ?_⟩
  have ra : ray shifted ⟨shifted.intr 2, 0⟩ = ⟨0, 1, 1⟩ := by simp [ray, shifted]
  have rb : ray shifted ⟨shifted.intr 2, (shifted.H : ℝ) - 1⟩ = ⟨0, 2, 1⟩ := by simp [ray, shifted]; norm_num
  rw [ra, rb]
  rintro ⟨-, -, h⟩
  have h180 : angle ⟨0, 1, 1⟩ + angle ⟨0, 2, 1⟩ ≤ 180 := by
    have := angle_lt ⟨0, 1, 1⟩ rfl
    have := angle_lt ⟨0, 2, 1⟩ rfl
    linarith
  have e : angle ⟨0, 1, 1⟩ = angle ⟨0, -1, 1⟩ := angle_sym _ _ (by simp) (by simp) rfl
  rw [e] at h h180
  obtain ⟨-, -, h'⟩ := opposite_sum ⟨0, -1, 1⟩ ⟨0, 2, 1⟩ (dot_pos_of_z _ rfl) (dot_pos_of_z _ rfl) 1 2 (by norm_num) (by norm_num) 0 1 (by norm_num) (by simp) (by simp) (by simp) (by simp) h180
  have hl : len ⟨0, -1, 1⟩ = len ⟨0, 1, 1⟩ := by unfold len dot; congr 1; norm_num
  rw [hl, h] at h'
  unfold dot at h'
  norm_num at h'

/-! ### mrcal-is-within-valid-intrinsics-region -/

/-- C119. The function: a value for each pixel, or None if there's no region -/
theorem within_each (contains : List P2 → P2 → Bool) (region : Option (List P2)) (q : List P2) :
    (isWithin contains region q = none ↔ region = none) ∧ ∀ r mask, region = some r → isWithin contains region q = some mask → mask.length = q.length ∧ ∀ (i : Nat) (p : P2), q[i]? = some p → mask[i]? = some (contains r p) := by
  unfold isWithin
  refine ⟨Option.map_eq_none_iff, ?_⟩
  rintro r mask rfl h
  obtain rfl := Option.some.inj h
  exact ⟨by simp, fun i p hp => by rw [List.getElem?_map, hp]; rfl⟩

/-- n with k digits -/
def padded : Nat → Nat → List Char
  | 0, _ => []
  | k + 1, n => padded k (n / 10) ++ [Name.digitChar (n % 10)]

theorem padded_length (k n : Nat) : (padded k n).length = k := by
  induction k generalizing n with
  | zero => rfl
  | succ k ih => simp [padded, ih]

theorem padded_zero (k : Nat) : padded k 0 = List.replicate k '0' := by
  induction k with
  | zero => rfl
  | succ k ih =>
    rw [padded, Nat.zero_div, ih, List.replicate_succ']
    rfl

theorem printNat_length_le (k n : Nat) (hk : 0 < k) (h : n < 10 ^ k) : (Name.printNat n).length ≤ k := by
  induction k generalizing n with
  | zero => omega
  | succ k ih =>
    by_cases h10 : n < 10
    · rw [Name.printNat_lt h10]; simp
    · rw [Name.printNat_ge h10, List.length_append]
      have hk' : 0 < k := by
        rcases Nat.eq_zero_or_pos k with rfl | h'
        · simp at h; omega
        · exact h'
      have := ih (n / 10) hk' (by rw [pow_succ] at h; omega)
      simp; omega

theorem padded_print (k n : Nat) (hk : 0 < k) (h : n < 10 ^ k) : List.replicate (k - (Name.printNat n).length) '0' ++ Name.printNat n = padded k n := by
  induction k generalizing n with
  | zero => omega
  | succ k ih =>
    by_cases h10 : n < 10
    · rw [Name.printNat_lt h10, padded, Nat.div_eq_of_lt h10, padded_zero, Nat.mod_eq_of_lt h10]
      simp
    · have hk' : 0 < k := by
        rcases Nat.eq_zero_or_pos k with rfl | h'
        · simp at h; omega
        · exact h'
      have hlt : n / 10 < 10 ^ k := by rw [pow_succ] at h; omega
      rw [Name.printNat_ge h10, padded, ← ih (n / 10) hk' hlt, List.append_assoc, List.length_append]
      have := printNat_length_le k (n / 10) hk' hlt
      simp

theorem digit_lt (a b : Nat) (hb : b < 10) (h : a < b) : Name.digitChar a < Name.digitChar b := by
  interval_cases b <;> interval_cases a <;> decide

theorem lt_append_eq {a b c d : List Char} (hl : a.length = b.length) (h : a < b) : a ++ c < b ++ d := by
  induction a generalizing b with
  | nil => cases b with
    | nil => exact absurd h (List.lt_irrefl _)
    | cons => simp at hl
  | cons x a ih =>
    cases b with
    | nil => simp at hl
    | cons y b =>
      rw [List.cons_append, List.cons_append, List.cons_lt_cons_iff] at *
      rcases h with h | ⟨rfl, h⟩
      · exact .inl h
      · exact .inr ⟨rfl, ih (by simpa using hl) h⟩

theorem append_lt (a : List Char) {c d : List Char} (h : c < d) : a ++ c < a ++ d := by
  induction a with
  | nil => exact h
  | cons x a ih => rw [List.cons_append, List.cons_append, List.cons_lt_cons_iff]; exact .inr ⟨rfl, ih⟩

theorem padded_lt (k n m : Nat) (hm : m < 10 ^ k) (h : n < m) : padded k n < padded k m := by
  induction k generalizing n m with
  | zero => simp at hm; omega
  | succ k ih =>
    rw [padded, padded]
    by_cases hq : n / 10 = m / 10
    · rw [hq]
      refine append_lt _ ?_
      rw [List.cons_lt_cons_iff]
      exact .inl (digit_lt _ _ (Nat.mod_lt _ (by norm_num)) (by omega))
    · exact lt_append_eq (by rw [padded_length, padded_length]) (ih _ _ (by rw [pow_succ] at hm; omega) (by omega))

/-- C119. The keys that the tables are joined by are sorted, as vnl-join requires: up to 999999 records -/
theorem keys_sorted_partial (N : Nat) (h : N ≤ 999999) : (keys N).Pairwise (· < ·) := by
  unfold keys
  rw [List.pairwise_map]
  refine List.Pairwise.imp_of_mem ?_ List.pairwise_lt_range
  intro a b ha hb hab
  rw [List.mem_range] at ha hb
  unfold pad6
  rw [padded_print 6 (a + 1) (by norm_num) (by omega), padded_print 6 (b + 1) (by norm_num) (by omega)]
  exact padded_lt 6 _ _ (by omega) (by omega)

/-- C119. With more records the keys aren't sorted -/
theorem keys_wrong (N : Nat) (h : 1000000 ≤ N) : ¬ (keys N).Pairwise (· < ·) := by
  intro hp
  unfold keys at hp
  rw [List.pairwise_map, List.pairwise_iff_getElem] at hp
  have := hp 999998 999999 (by simp; omega) (by simp; omega) (by omega)
  simp only [List.getElem_range] at this
  have e1 : pad6 (999998 + 1) = "999999".toList := by
    simp [pad6, Name.printNat]; decide
  have e2 : pad6 (999999 + 1) = "1000000".toList := by
    simp [pad6, Name.printNat]; decide
  rw [e1, e2] at this
  revert this
  decide

/-! ### the hypotheses can be met -/

/-- a pinhole camera at t: f = 10, center (5,5), imager 11x11 -/
noncomputable def pin (t : P3) : Model := ⟨.pinhole, fun i => if i = 2 then 5 else if i = 3 then 5 else 10, ⟨identityR, t⟩, 11, 11, none⟩

theorem pin_camera (t : P3) : Camera (pin t) := ⟨identity_rot, trivial⟩
theorem pin_central (t : P3) : Central (pin t) := fun lin h => by cases h

theorem pin_points (solve : Solver) (t t' : P3) (io : Bool) (qs : List P2) (h : qs ≠ []) : ∃ out, reprojectPoints solve (pin t) (pin t') io (linesOf qs) = some out := by
  obtain ⟨e1, e2⟩ := input_ok qs h
  have e3 : ∃ vs, qs.mapM (unproject1 (pin t) solve) = some vs := by
    clear h e1 e2
    induction qs with
    | nil => exact ⟨[], rfl⟩
    | cons q qs ih =>
      obtain ⟨vs, ih⟩ := ih
      rw [List.mapM_cons, unproject1_pinhole (pin t) rfl, ih]
      exact ⟨_, rfl⟩
  obtain ⟨vs, e3⟩ := e3
  unfold reprojectPoints
  rw [e1, Option.bind_some, e2, Option.bind_some, e3, Option.bind_some]
  exact ⟨_, rfl⟩

/- points_meaning, points_intrinsics, points_warning: two cameras 1m apart; the pixel (5,5) looks in the direction (0,0,1) -/
example (solve : Solver) : ∃ out, reprojectPoints solve (pin ⟨0, 0, 0⟩) (pin ⟨1, 0, 0⟩) false (linesOf [⟨5, 5⟩]) = some out ∧
    out.rows[0]? = some (some (sees (pin ⟨1, 0, 0⟩) (dirInCam (pin ⟨1, 0, 0⟩) ⟨0, 0, 1⟩))) ∧ out.warned = true := by
  obtain ⟨out, h⟩ := pin_points solve ⟨0, 0, 0⟩ ⟨1, 0, 0⟩ false [⟨5, 5⟩] (by simp)
  refine ⟨out, h, ?_, ?_⟩
  · refine (points_meaning solve _ _ (pin_camera _) (pin_camera _) (pin_central _) [⟨5, 5⟩] (by simp) out h 0 ⟨5, 5⟩ rfl ⟨0, 0, 1⟩ ⟨0, 0, 1⟩ ?_ 1 one_pos ?_).2
    · rw [unproject1_pinhole (pin ⟨0, 0, 0⟩) rfl]; simp [pin]
    · simp [dirInCam, pin, rotatePointR, Pose.mulVec, identityR, times]
  · refine (points_warning solve _ _ (pin_camera _) (pin_camera _) false _ out h ⟨0, 0, 0⟩ ⟨-1, 0, 0⟩ ?_ ?_).2 ⟨rfl, ?_⟩
    · simp [inCam, pin, transformPointRt, rotatePointR, Pose.mulVec, identityR, addP]
    · simp [inCam, pin, transformPointRt, rotatePointR, Pose.mulVec, identityR, addP]
    · norm_num [dist2]

/- points_nan -/
example : unproject1 small failsX ⟨1, 0⟩ = some none := (small_unproject failsX ⟨1, 0⟩).1 (by simp only [failsX]; rw [if_pos ((seed_x ⟨1, 0⟩).1.2 rfl)])

/- points_undo_image_partial: the pixel (7,5) -/
example (solve : Solver) : ∃ rows out, imageMap solve (pin ⟨0, 0, 0⟩) (pin ⟨1, 0, 0⟩) ⟨false, none, none, none, false⟩ = some rows ∧
    reprojectPoints solve (pin ⟨0, 0, 0⟩) (pin ⟨1, 0, 0⟩) false (linesOf [⟨7, 5⟩]) = some out ∧ out.rows = [some ⟨((7 : Nat) : ℝ), ((5 : Nat) : ℝ)⟩] := by
  have hs : ∀ t, sees (pin t) ⟨1 / 5, 0, 1⟩ = ⟨7, 5⟩ := by
    intro t
    simp [sees, pix, lensPixel, pin, pinhole, coreOf]
    norm_num
  obtain ⟨out, h⟩ := pin_points solve ⟨0, 0, 0⟩ ⟨1, 0, 0⟩ false [⟨7, 5⟩] (by simp)
  have hsome : (imageMap solve (pin ⟨0, 0, 0⟩) (pin ⟨1, 0, 0⟩) ⟨false, none, none, none, false⟩).isSome = true := by
    have e : imageMap solve (pin ⟨0, 0, 0⟩) (pin ⟨1, 0, 0⟩) ⟨false, none, none, none, false⟩ = general solve (pin ⟨0, 0, 0⟩) (pin ⟨1, 0, 0⟩) ⟨false, none, none, none, false⟩ := rfl
    rw [e]
    unfold general
    rw [unproject1_pinhole (pin ⟨1, 0, 0⟩) rfl]
    rfl
  obtain ⟨rows, hr⟩ := Option.isSome_iff_exists.1 hsome
  have hd0 : ∀ t, dirInCam (pin t) ⟨1 / 5, 0, 1⟩ = ⟨1 / 5, 0, 1⟩ := by
    intro t; simp [dirInCam, pin, rotatePointR, Pose.mulVec, identityR]
  have hun : ∀ t, unproject1 (pin t) solve ⟨7, 5⟩ = some (some ⟨1 / 5, 0, 1⟩) := by
    intro t; rw [unproject1_pinhole (pin t) rfl]; simp [pin]; norm_num
  have hal : Along solve (pin ⟨1, 0, 0⟩) 7 5 ⟨1 / 5, 0, 1⟩ := ⟨⟨1 / 5, 0, 1⟩, 1, by norm_num; exact hun _, one_pos, by simp [times]⟩
  obtain ⟨m1, -⟩ := map_meaning solve _ _ _ (pin_camera ⟨0, 0, 0⟩) (pin_camera ⟨1, 0, 0⟩) (pin_central _) (fun h => by cases h) rows hr 7 5 (by simp [pin]) (by simp [pin]) ⟨1 / 5, 0, 1⟩ ⟨1 / 5, 0, 1⟩ hal ⟨⟨1 / 5, 0, 1⟩, (hd0 _).symm, (hd0 _).symm⟩
  refine ⟨rows, out, hr, h, ?_⟩
  refine points_undo_image_partial solve _ _ (pin_camera _) (pin_camera _) (pin_central _) false (fun h => by cases h) rows hr 7 5 (by simp [pin]) (by simp [pin]) rfl (by norm_num [pin]) (by norm_num [pin]) ⟨fun h => (by cases h), fun h => (by cases h)⟩
    ⟨1 / 5, 0, 1⟩ ⟨1 / 5, 0, 1⟩ hal (hd0 _).symm ⟨1 / 5, 0, 1⟩ 1 one_pos ?_ ?_ ⟨7, 5⟩ ?_ (.inl rfl) out h
  · rw [hd0, hs]; exact hun _
  · rw [hd0]; simp [times]
  · rw [m1 rfl, hs]

/- fov_pinhole, fov_corner_partial, and so fov_vertical, fov_horizontal_partial -/
example : PinholeCam (pin ⟨0, 0, 0⟩) ∧ (pin ⟨0, 0, 0⟩).intr 2 = (((pin ⟨0, 0, 0⟩).W : ℝ) - 1) / 2 := by
  refine ⟨⟨rfl, ?_, ?_, ?_, ?_, ?_, ?_⟩, ?_⟩ <;> norm_num [pin]

/- within_each: nothing is in an empty region -/
example : isWithin (fun r _ => !r.isEmpty) (some []) [⟨1, 1⟩, ⟨2, 2⟩] = some [false, false] := rfl

end Mrcal.PointTools
