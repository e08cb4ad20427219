import Verif.Model.PointTools
import Verif.Props.ImageTransformProps
import Verif.Props.LensNameProps
/-
C119: the tools that work on points: mrcal-reproject-points, mrcal-report-fov, mrcal-is-within-valid-intrinsics-region.
-/
namespace Mrcal.PointTools
open Mrcal Mrcal.Cam Mrcal.Pose Mrcal.ImageTransform

/-! ### mrcal-reproject-points -/

theorem mapM_ok {f : α → Option β} {l : List α} {r : List β} (h : l.mapM f = some r) : r.length = l.length ∧ ∀ (i : Nat) (a : α), l[i]? = some a → ∃ b, r[i]? = some b ∧ f a = some b := by
  induction l generalizing r with
  | nil => cases h; exact ⟨rfl, fun i a h => by simp at h⟩
  | cons x l ih =>
    rw [List.mapM_cons] at h
    obtain ⟨b, hb, h⟩ := Option.bind_eq_some_iff.1 h
    obtain ⟨bs, hbs, h⟩ := Option.bind_eq_some_iff.1 h
    obtain rfl := Option.some.inj h
    obtain ⟨h1, h2⟩ := ih hbs
    refine ⟨by simp [h1], ?_⟩
    intro i a ha
    cases i with
    | zero =>
      rw [List.getElem?_cons_zero] at ha
      obtain rfl := Option.some.inj ha
      exact ⟨b, rfl, hb⟩
    | succ i =>
      rw [List.getElem?_cons_succ] at ha
      exact h2 i a ha

/-- the direction in the other camera -/
theorem rotate_dir (src dst : Model) (h : Orth src.pose.R) (w : P3) : Pose.mulVec (RtToFrom src dst).R (dirInCam src w) = dirInCam dst w := by
  have h1 := toFrom_point src dst h w
  have h0 := toFrom_point src dst h ⟨0, 0, 0⟩
  simp only [inCam, dirInCam, transformPointRt, rotatePointR, Pose.mulVec, addP, Bool.not_false, if_true, P3.mk.injEq, if_false, Bool.false_eq_true] at h1 h0 ⊢
  obtain ⟨a1, a2, a3⟩ := h1
  obtain ⟨b1, b2, b3⟩ := h0
  refine ⟨?_, ?_, ?_⟩
  · linear_combination a1 - b1
  · linear_combination a2 - b2
  · linear_combination a3 - b3

/-- the input: pixels -/
def linesOf (qs : List P2) : List (List ℝ) := qs.map fun q => [q.x, q.y]

theorem input_ok (qs : List P2) (h : qs ≠ []) : genfromtxt (linesOf qs) = some (linesOf qs) ∧ (linesOf qs).mapM pixel = some qs := by
  constructor
  · cases qs with
    | nil => exact absurd rfl h
    | cons q qs =>
      unfold linesOf genfromtxt
      rw [List.map_cons]
      simp only
      rw [if_pos, if_neg (by simp)]
      rw [List.all_eq_true]
      intro r hr
      obtain ⟨p, -, rfl⟩ := List.mem_map.1 hr
      simp
  · clear h
    induction qs with
    | nil => rfl
    | cons q qs ih =>
      have : linesOf (q :: qs) = [q.x, q.y] :: linesOf qs := rfl
      rw [this, List.mapM_cons, ih]
      rfl

/-- the output has a row for each pixel -/
theorem points_rows (solve : Solver) (src dst : Model) (io : Bool) (qs : List P2) (hne : qs ≠ []) (out : Points) (h : reprojectPoints solve src dst io (linesOf qs) = some out) :
    out.rows.length = qs.length ∧ ∀ (i : Nat) (q : P2), qs[i]? = some q → ∃ v, unproject1 src solve q = some v ∧
      out.rows[i]? = some (v.map fun v => project1 dst (if io then v else Pose.mulVec (RtToFrom src dst).R v)) := by
  obtain ⟨e1, e2⟩ := input_ok qs hne
  unfold reprojectPoints at h
  rw [e1, Option.bind_some, e2, Option.bind_some] at h
  obtain ⟨vs, hvs, h⟩ := Option.bind_eq_some_iff.1 h
  obtain rfl := Option.some.inj h
  obtain ⟨h1, h2⟩ := mapM_ok hvs
  refine ⟨by simp [h1], ?_⟩
  intro i q hq
  obtain ⟨v, hv, hu⟩ := h2 i q hq
  exact ⟨v, hu, by simp only [List.getElem?_map, hv, Option.map_some]⟩

/-- C119. Each row of the output is where the other camera sees what's at infinity along the ray of the input pixel: in the same direction w in the reference coordinates -/
theorem points_meaning (solve : Solver) (src dst : Model) (hs : Camera src) (hd : Camera dst) (hc : Central dst) (qs : List P2) (hne : qs ≠ []) (out : Points)
    (h : reprojectPoints solve src dst false (linesOf qs) = some out) (i : Nat) (q : P2) (hq : qs[i]? = some q) (v w : P3) (hv : unproject1 src solve q = some (some v)) (s : ℝ) (hs0 : 0 < s)
    (hw : dirInCam src w = times s v) : out.rows.length = qs.length ∧ out.rows[i]? = some (some (sees dst (dirInCam dst w))) := by
  obtain ⟨h1, h2⟩ := points_rows solve src dst false qs hne out h
  refine ⟨h1, ?_⟩
  obtain ⟨v', hv', ho⟩ := h2 i q hq
  rw [hv] at hv'
  obtain rfl := Option.some.inj hv'
  rw [ho]
  simp only [Option.map_some, Bool.false_eq_true, if_false]
  rw [project1_pix dst hd.valid, ← rotate_dir src dst hs.rot.1 w, hw, mulVec_times, sees_times dst hc _ s hs0]

/-- C119. --intrinsics-only: where the other camera sees the same vector, in camera coordinates -/
theorem points_intrinsics (solve : Solver) (src dst : Model) (hd : Camera dst) (qs : List P2) (hne : qs ≠ []) (out : Points)
    (h : reprojectPoints solve src dst true (linesOf qs) = some out) (i : Nat) (q : P2) (hq : qs[i]? = some q) (v : P3) (hv : unproject1 src solve q = some (some v)) :
    out.warned = false ∧ out.rows.length = qs.length ∧ out.rows[i]? = some (some (sees dst v)) := by
  obtain ⟨h1, h2⟩ := points_rows solve src dst true qs hne out h
  refine ⟨?_, h1, ?_⟩
  · unfold reprojectPoints at h
    obtain ⟨e1, e2⟩ := input_ok qs hne
    rw [e1, Option.bind_some, e2, Option.bind_some] at h
    obtain ⟨vs, hvs, h⟩ := Option.bind_eq_some_iff.1 h
    obtain rfl := Option.some.inj h
    rfl
  · obtain ⟨v', hv', ho⟩ := h2 i q hq
    rw [hv] at hv'
    obtain rfl := Option.some.inj hv'
    rw [ho]
    simp only [Option.map_some, if_true]
    rw [project1_pix dst hd.valid]

/-- C119. Pixels that can't be unprojected are NaN in the output. The others aren't affected -/
theorem points_nan (solve : Solver) (src dst : Model) (io : Bool) (qs : List P2) (hne : qs ≠ []) (out : Points) (h : reprojectPoints solve src dst io (linesOf qs) = some out) (i : Nat) (q : P2)
    (hq : qs[i]? = some q) : out.rows[i]? = some none ↔ unproject1 src solve q = some none := by
  obtain ⟨v, hv, ho⟩ := (points_rows solve src dst io qs hne out h).2 i q hq
  rw [ho, hv]
  cases v <;> simp

/-- the same, but with other translations -/
def moved (m : Model) (t : P3) : Model := { m with pose := ⟨m.pose.R, t⟩ }

/-- C119. The translations don't matter -/
theorem points_translation (solve : Solver) (src dst : Model) (t0 t1 : P3) (io : Bool) (lines : List (List ℝ)) :
    (reprojectPoints solve (moved src t0) (moved dst t1) io lines).map Points.rows = (reprojectPoints solve src dst io lines).map Points.rows := by
  have e : (RtToFrom (moved src t0) (moved dst t1)).R = (RtToFrom src dst).R := rfl
  have eu : unproject1 (moved src t0) solve = unproject1 src solve := rfl
  unfold reprojectPoints
  cases genfromtxt lines with
  | none => rfl
  | some rows =>
    simp only [Option.bind_some]
    cases rows.mapM pixel with
    | none => rfl
    | some qs =>
      simp only [Option.bind_some]
      rw [eu]
      cases qs.mapM (unproject1 src solve) with
      | none => rfl
      | some vs => rfl

def dist2 (a b : P3) : ℝ := (a.x - b.x) ^ 2 + (a.y - b.y) ^ 2 + (a.z - b.z) ^ 2

theorem rot_norm (R : M3) (h : Orth R) (v : P3) : (Pose.mulVec R v).x ^ 2 + (Pose.mulVec R v).y ^ 2 + (Pose.mulVec R v).z ^ 2 = v.x ^ 2 + v.y ^ 2 + v.z ^ 2 := by
  obtain ⟨h0, h1, h2, h3, h4, h5⟩ := h.cols
  simp only [Pose.mulVec]
  linear_combination v.x ^ 2 * h0 + v.y ^ 2 * h1 + v.z ^ 2 * h2 + 2 * v.x * v.y * h3 + 2 * v.x * v.z * h4 + 2 * v.y * v.z * h5

/-- C119. The warning is given if the two cameras are more than 1mm apart -/
theorem points_warning (solve : Solver) (src dst : Model) (hs : Camera src) (hd : Camera dst) (io : Bool) (lines : List (List ℝ)) (out : Points) (h : reprojectPoints solve src dst io lines = some out) (c0 c1 : P3)
    (h0 : inCam src c0 = ⟨0, 0, 0⟩) (h1 : inCam dst c1 = ⟨0, 0, 0⟩) : out.warned = true ↔ io = false ∧ dist2 c0 c1 > (1 / 1000) ^ 2 := by
  have hw : out.warned = (!io && decide ((RtToFrom src dst).t.x * (RtToFrom src dst).t.x + (RtToFrom src dst).t.y * (RtToFrom src dst).t.y + (RtToFrom src dst).t.z * (RtToFrom src dst).t.z > 1e-6)) := by
    unfold reprojectPoints at h
    obtain ⟨rows, -, h⟩ := Option.bind_eq_some_iff.1 h
    obtain ⟨qs, -, h⟩ := Option.bind_eq_some_iff.1 h
    obtain ⟨vs, -, h⟩ := Option.bind_eq_some_iff.1 h
    obtain rfl := Option.some.inj h
    rfl
  have ht := toFrom_point src dst hs.rot.1 c0
  rw [h0] at ht
  have e : (RtToFrom src dst).t.x * (RtToFrom src dst).t.x + (RtToFrom src dst).t.y * (RtToFrom src dst).t.y + (RtToFrom src dst).t.z * (RtToFrom src dst).t.z = dist2 c0 c1 := by
    have ht' : (RtToFrom src dst).t = inCam dst c0 := by
      rw [← ht]
      simp [transformPointRt, rotatePointR, Pose.mulVec, addP]
    have hn := rot_norm dst.pose.R hd.rot.1 ⟨c0.x - c1.x, c0.y - c1.y, c0.z - c1.z⟩
    rw [ht']
    simp only [dist2]
    rw [← hn]
    simp only [inCam, transformPointRt, rotatePointR, Pose.mulVec, addP, Bool.not_false, if_true, P3.mk.injEq, if_false, Bool.false_eq_true] at h1 ⊢
    obtain ⟨a1, a2, a3⟩ := h1
    have b1 := eq_neg_of_add_eq_zero_right a1
    have b2 := eq_neg_of_add_eq_zero_right a2
    have b3 := eq_neg_of_add_eq_zero_right a3
    rw [b1, b2, b3]
    ring
  rw [hw, e, Bool.and_eq_true, Bool.not_eq_true', decide_eq_true_eq]
  norm_num

/-- C119. mrcal-reproject-points undoes mrcal-reproject-image (at infinity): the pixel of the FROM image that was copied to the pixel (x,y) of the TO image is reprojected to (x,y). The TO camera has a direct
inverse; the FROM camera unprojects its pixels correctly -/
theorem points_undo_image_partial (solve : Solver) (src dst : Model) (hs : Camera src) (hd : Camera dst) (hc : Central src) (mask : Bool) (hcv : useOpenCV src dst ⟨false, none, none, none, mask⟩ = true → CvExact src dst ⟨false, none, none, none, mask⟩)
    (rows : List (List (Option P2))) (hm : imageMap solve src dst ⟨false, none, none, none, mask⟩ = some rows) (x y : Nat) (hx : x < dst.W) (hy : y < dst.H)
    (hdir : isDirect dst.lens = true) (hfx : dst.intr 0 ≠ 0) (hfy : dst.intr 1 ≠ 0) (hr : DirectRange dst.lens dst.intr ⟨(x : ℝ), (y : ℝ)⟩)
    (pTo w : P3) (hray : Along solve dst x y pTo) (hw : pTo = dirInCam dst w)
    (v : P3) (s : ℝ) (hs0 : 0 < s) (hv : unproject1 src solve (sees src (dirInCam src w)) = some (some v)) (hv' : dirInCam src w = times s v)
    (q : P2) (hq : entry rows x y = some (some q)) (hin : mask = false ∨ q ≠ ⟨-1, -1⟩) (out : Points) (h : reprojectPoints solve src dst false (linesOf [q]) = some out) :
    out.rows = [some ⟨(x : ℝ), (y : ℝ)⟩] := by
  have hcd : Central dst := fun lin hl => by rw [hl] at hdir; exact absurd hdir (by simp [isDirect])
  obtain ⟨m1, m2⟩ := map_meaning solve src dst _ hs hd hc hcv rows hm x y hx hy pTo (dirInCam src w) hray ⟨w, hw, rfl⟩
  have hqe : q = sees src (dirInCam src w) := by
    cases mask with
    | false =>
      rw [m1 rfl] at hq
      exact (Option.some.inj (Option.some.inj hq)).symm
    | true =>
      obtain ⟨inside, -, he⟩ := m2 rfl
      rw [he] at hq
      have hq := Option.some.inj (Option.some.inj hq)
      by_cases hi : inside (sees src (dirInCam src w)) = true
      · rw [if_pos hi] at hq; exact hq.symm
      · rw [if_neg hi] at hq
        rcases hin with h | h
        · cases h
        · exact absurd hq.symm h
  obtain ⟨l1, l2⟩ := points_meaning solve src dst hs hd hcd [q] (by simp) out h 0 q rfl v w (by rw [hqe]; exact hv) s hs0 hv'
  have : sees dst (dirInCam dst w) = ⟨(x : ℝ), (y : ℝ)⟩ := by
    rw [← hw]
    exact along_sees solve dst hdir hfx hfy x y hr pTo hray
  rw [this] at l2
  match hO : out.rows, l1, l2 with
  | [r], _, l2 => simpa using l2
  | [], l1, _ => simp at l1
  | _ :: _ :: _, l1, _ => simp at l1

/-- C119. An empty input isn't accepted -/
theorem points_empty_wrong (solve : Solver) (src dst : Model) (io : Bool) : reprojectPoints solve src dst io [] = none := rfl

/-- C119. Two numbers on two lines are taken for one pixel: it should be an error, as there's no y -/
theorem points_column_wrong (solve : Solver) (src dst : Model) (io : Bool) (x y : ℝ) : reprojectPoints solve src dst io [[x], [y]] = reprojectPoints solve src dst io [[x, y]] := by
  simp [reprojectPoints, genfromtxt]

/-! ### mrcal-report-fov -/

theorem cos_arg (y z : ℝ) (h : (⟨z, y⟩ : ℂ) ≠ 0) : Real.cos (atan2 y z) * Real.sqrt (z * z + y * y) = z ∧ Real.sin (atan2 y z) * Real.sqrt (z * z + y * y) = y := by
  have hn : ‖(⟨z, y⟩ : ℂ)‖ = Real.sqrt (z * z + y * y) := by
    rw [Complex.norm_def, Complex.normSq_mk]
  have h0 : ‖(⟨z, y⟩ : ℂ)‖ ≠ 0 := norm_ne_zero_iff.2 h
  unfold atan2
  rw [← hn, Complex.cos_arg h, Complex.sin_arg]
  exact ⟨div_mul_cancel₀ _ h0, div_mul_cancel₀ _ h0⟩

theorem atan2_range (y z : ℝ) (hy : 0 ≤ y) : 0 ≤ atan2 y z ∧ atan2 y z ≤ Real.pi := by
  unfold atan2
  exact ⟨Complex.arg_nonneg_iff.2 hy, Complex.arg_le_pi _⟩

noncomputable def len (v : P3) : ℝ := Real.sqrt (dot v v)

/-- the angle between two vectors, in degrees -/
def IsAngle (a b : P3) (th : ℝ) : Prop := 0 ≤ th ∧ th ≤ 180 ∧ Real.cos (th * (Real.pi / 180)) * (len a * len b) = dot a b

theorem isAngle_unique (a b : P3) (ha : 0 < dot a a) (hb : 0 < dot b b) (t t' : ℝ) (h : IsAngle a b t) (h' : IsAngle a b t') : t = t' := by
  have hl : len a * len b ≠ 0 := (mul_pos (Real.sqrt_pos.2 ha) (Real.sqrt_pos.2 hb)).ne'
  have hp := Real.pi_pos
  have hc := mul_right_cancel₀ hl (h.2.2.trans h'.2.2.symm)
  have := Real.injOn_cos ⟨mul_nonneg h.1 (by positivity), by nlinarith [h.2.1]⟩ ⟨mul_nonneg h'.1 (by positivity), by nlinarith [h'.2.1]⟩ hc
  have h180 : Real.pi / 180 ≠ 0 := by positivity
  exact mul_right_cancel₀ h180 this

/-- the angle off the axis is the angle to the axis -/
theorem angle_isAngle (v : P3) (h : 0 < dot v v) : IsAngle v ⟨0, 0, 1⟩ (angle v) := by
  have hp := Real.pi_pos
  have hr : 0 ≤ Real.sqrt (v.x * v.x + v.y * v.y) := Real.sqrt_nonneg _
  obtain ⟨r1, r2⟩ := atan2_range (Real.sqrt (v.x * v.x + v.y * v.y)) v.z hr
  have hs : Real.sqrt (v.x * v.x + v.y * v.y) * Real.sqrt (v.x * v.x + v.y * v.y) = v.x * v.x + v.y * v.y := Real.mul_self_sqrt (by nlinarith [mul_self_nonneg v.x, mul_self_nonneg v.y])
  have hne : (⟨v.z, Real.sqrt (v.x * v.x + v.y * v.y)⟩ : ℂ) ≠ 0 := by
    intro e
    have e1 : v.z = 0 := congrArg Complex.re e
    have e2 : Real.sqrt (v.x * v.x + v.y * v.y) = 0 := congrArg Complex.im e
    rw [e2] at hs
    unfold dot at h
    rw [e1] at h
    linarith
  have hcs := (cos_arg _ _ hne).1
  refine ⟨by unfold angle; positivity, ?_, ?_⟩
  · unfold angle
    rw [div_mul_eq_mul_div, div_le_iff₀ hp]
    linarith
  · have e1 : angle v * (Real.pi / 180) = atan2 (Real.sqrt (v.x * v.x + v.y * v.y)) v.z := by
      unfold angle; field_simp
    have e2 : len v = Real.sqrt (v.z * v.z + Real.sqrt (v.x * v.x + v.y * v.y) * Real.sqrt (v.x * v.x + v.y * v.y)) := by
      rw [hs]; unfold len dot; congr 1; ring
    have e3 : len ⟨0, 0, 1⟩ = 1 := by unfold len dot; norm_num
    rw [e1, e3, mul_one, e2, hcs]
    simp [dot]

/-- two vectors on opposite sides of the optical axis, in one plane with it: the sum of the angles is the angle between them, if it's at most 180 degrees -/
theorem opposite_sum (a b : P3) (ha : 0 < dot a a) (hb : 0 < dot b b) (k l : ℝ) (hk : 0 ≤ k) (hl : 0 ≤ l) (ux uy : ℝ) (hu : ux ^ 2 + uy ^ 2 = 1) (hax : a.x = -(k * ux)) (hay : a.y = -(k * uy)) (hbx : b.x = l * ux) (hby : b.y = l * uy)
    (h180 : angle a + angle b ≤ 180) : IsAngle a b (angle a + angle b) := by
  have hp := Real.pi_pos
  have sa : Real.sqrt (a.x * a.x + a.y * a.y) = k := by
    rw [hax, hay, show -(k * ux) * -(k * ux) + -(k * uy) * -(k * uy) = k * k by linear_combination k ^ 2 * hu]
    exact Real.sqrt_mul_self hk
  have sb : Real.sqrt (b.x * b.x + b.y * b.y) = l := by
    rw [hbx, hby, show l * ux * (l * ux) + l * uy * (l * uy) = l * l by linear_combination l ^ 2 * hu]
    exact Real.sqrt_mul_self hl
  have da : dot a a = a.z * a.z + k * k := by
    unfold dot; rw [hax, hay]; linear_combination k ^ 2 * hu
  have db : dot b b = b.z * b.z + l * l := by
    unfold dot; rw [hbx, hby]; linear_combination l ^ 2 * hu
  have na : (⟨a.z, k⟩ : ℂ) ≠ 0 := by
    intro e
    have e1 : a.z = 0 := congrArg Complex.re e
    have e2 : k = 0 := congrArg Complex.im e
    rw [da, e1, e2] at ha; norm_num at ha
  have nb : (⟨b.z, l⟩ : ℂ) ≠ 0 := by
    intro e
    have e1 : b.z = 0 := congrArg Complex.re e
    have e2 : l = 0 := congrArg Complex.im e
    rw [db, e1, e2] at hb; norm_num at hb
  obtain ⟨ca, qa⟩ := cos_arg _ _ na
  obtain ⟨cb, qb⟩ := cos_arg _ _ nb
  have ra := (angle_isAngle a ha).1
  have rb := (angle_isAngle b hb).1
  refine ⟨by linarith, h180, ?_⟩
  have e : (angle a + angle b) * (Real.pi / 180) = atan2 k a.z + atan2 l b.z := by
    unfold angle; rw [sa, sb]; field_simp
  rw [e, Real.cos_add]
  unfold len
  rw [da, db]
  have hdot : dot a b = a.z * b.z - k * l := by
    unfold dot; rw [hax, hay, hbx, hby]; linear_combination - k * l * hu
  rw [hdot]
  generalize Real.sqrt (a.z * a.z + k * k) = A at *
  generalize Real.sqrt (b.z * b.z + l * l) = B at *
  calc (Real.cos (atan2 k a.z) * Real.cos (atan2 l b.z) - Real.sin (atan2 k a.z) * Real.sin (atan2 l b.z)) * (A * B)
      = (Real.cos (atan2 k a.z) * A) * (Real.cos (atan2 l b.z) * B) - (Real.sin (atan2 k a.z) * A) * (Real.sin (atan2 l b.z) * B) := by ring
    _ = _ := by rw [ca, cb, qa, qb]

end Mrcal.PointTools
