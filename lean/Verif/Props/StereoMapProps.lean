import Verif.Props.StereoFovProps
import Verif.Props.CahvoreProps
/-
C38: the rectification maps
-/
namespace Mrcal.Stereo
open Mrcal.Cam Mrcal.Pose

/-- **Specification**: the direction seen by pixel q of a rectified image -/
noncomputable def rectRay (m : RectType) (k : Core) (q : P2) : P3 :=
  match m with
  | .latlon => (unlatlon k q).v
  | _ => (unpinhole k q).v

/-! ### the memory -/

/-- the first N pixels have been written (with the value of pixel n given by `q0 n`, `q1 n`), and nothing else has -/
def Done (WH : Nat) (q0 q1 : Nat → P2) (mem0 : Nat → ℝ) (N : Nat) (mem : Nat → ℝ) : Prop :=
  (∀ n, n < N → mem (2 * n) = (q0 n).x ∧ mem (2 * n + 1) = (q0 n).y ∧ mem (2 * WH + 2 * n) = (q1 n).x ∧ mem (2 * WH + 2 * n + 1) = (q1 n).y) ∧
  ∀ a, 4 * WH ≤ a → mem a = mem0 a

theorem done_step {W H i j N : Nat} {q0 q1 : Nat → P2} {mem0 mem : Nat → ℝ} {c0 c1 : MapCam} {v : P3} (hN : i * W + j = N) (hlt : N < W * H)
    (h0 : project1 c0.L c0.intr (rotatePointR c0.R v false) = q0 N) (h1 : project1 c1.L c1.intr (rotatePointR c1.R v false) = q1 N)
    (hd : Done (W * H) q0 q1 mem0 N mem) : Done (W * H) q0 q1 mem0 (N + 1) (setMapPixel c0 c1 W H i j v mem) := by
  unfold setMapPixel setPair
  simp only [hN, h0, h1]
  generalize W * H = P at *
  refine ⟨fun n hn => ?_, fun a ha => ?_⟩
  · by_cases e : n = N
    · subst e
      refine ⟨?_, ?_, ?_, ?_⟩
      · beta_reduce; rw [if_neg (by omega), if_neg (by omega), if_neg (by omega), if_pos (by omega)]
      · beta_reduce; rw [if_neg (by omega), if_neg (by omega), if_pos (by omega)]
      · beta_reduce; rw [if_neg (by omega), if_pos (by omega)]
      · beta_reduce; rw [if_pos (by omega)]
    · obtain ⟨d0, d1, d2, d3⟩ := hd.1 n (by omega)
      refine ⟨?_, ?_, ?_, ?_⟩
      · beta_reduce; rw [if_neg (by omega), if_neg (by omega), if_neg (by omega), if_neg (by omega), d0]
      · beta_reduce; rw [if_neg (by omega), if_neg (by omega), if_neg (by omega), if_neg (by omega), d1]
      · beta_reduce; rw [if_neg (by omega), if_neg (by omega), if_neg (by omega), if_neg (by omega), d2]
      · beta_reduce; rw [if_neg (by omega), if_neg (by omega), if_neg (by omega), if_neg (by omega), d3]
  · beta_reduce; rw [if_neg (by omega), if_neg (by omega), if_neg (by omega), if_neg (by omega), hd.2 a ha]

theorem idx_lt {i j W H : Nat} (hi : i < H) (hj : j < W) : i * W + j < W * H := by
  have : (i + 1) * W ≤ H * W := Nat.mul_le_mul_right _ hi
  rw [Nat.mul_comm W H]
  rw [Nat.add_mul, Nat.one_mul] at this
  omega

/-- the direction of pixel n = i*W + j -/
noncomputable def nthRay (m : RectType) (k : Core) (W n : Nat) : P3 := rectRay m k ⟨(n % W : Nat), (n / W : Nat)⟩

theorem nthRay_eq (m : RectType) (k : Core) (W i j : Nat) (hj : j < W) : nthRay m k W (i * W + j) = rectRay m k ⟨j, i⟩ := by
  unfold nthRay
  rw [Nat.add_comm, Nat.add_mul_mod_self_right, Nat.mod_eq_of_lt hj, Nat.add_mul_div_right _ _ (by omega), Nat.div_eq_of_lt hj, Nat.zero_add]

/-! ### the loops -/

theorem pinhole_loops (c0 c1 : MapCam) (k : Core) (W H : Nat) (q0 q1 : Nat → P2) (mem : Nat → ℝ)
    (h0 : ∀ n, project1 c0.L c0.intr (rotatePointR c0.R (nthRay .pinhole k W n) false) = q0 n)
    (h1 : ∀ n, project1 c1.L c1.intr (rotatePointR c1.R (nthRay .pinhole k W n) false) = q1 n) :
    Done (W * H) q0 q1 mem (H * W) ((List.range H).foldl (fun mem i => (List.range W).foldl (fun mem j =>
      setMapPixel c0 c1 W H i j ⟨(j : ℝ) * (1 / k.fx) - k.cx * (1 / k.fx), (i : ℝ) * (1 / k.fy) - k.cy * (1 / k.fy), 1⟩ mem) mem) mem) := by
  have inner : ∀ i, i < H → ∀ J, J ≤ W → ∀ mem', Done (W * H) q0 q1 mem (i * W) mem' →
      Done (W * H) q0 q1 mem (i * W + J) ((List.range J).foldl (fun mem j =>
        setMapPixel c0 c1 W H i j ⟨(j : ℝ) * (1 / k.fx) - k.cx * (1 / k.fx), (i : ℝ) * (1 / k.fy) - k.cy * (1 / k.fy), 1⟩ mem) mem') := by
    intro i hi J
    induction J with
    | zero => intro _ mem' h; simpa using h
    | succ J ih =>
      intro hJ mem' h
      rw [List.range_succ, List.foldl_append]
      simp only [List.foldl_cons, List.foldl_nil]
      have hr : (⟨(J : ℝ) * (1 / k.fx) - k.cx * (1 / k.fx), (i : ℝ) * (1 / k.fy) - k.cy * (1 / k.fy), 1⟩ : P3) = nthRay .pinhole k W (i * W + J) := by
        rw [nthRay_eq _ _ _ _ _ (by omega)]
        unfold rectRay unpinhole
        ext <;> simp only [] <;> ring
      rw [hr]
      exact done_step rfl (idx_lt hi (by omega)) (h0 _) (h1 _) (ih (by omega) mem' h)
  have outer : ∀ I, I ≤ H → Done (W * H) q0 q1 mem (I * W) ((List.range I).foldl (fun mem i => (List.range W).foldl (fun mem j =>
      setMapPixel c0 c1 W H i j ⟨(j : ℝ) * (1 / k.fx) - k.cx * (1 / k.fx), (i : ℝ) * (1 / k.fy) - k.cy * (1 / k.fy), 1⟩ mem) mem) mem) := by
    intro I
    induction I with
    | zero => intro _; exact ⟨fun n hn => by omega, fun a _ => rfl⟩
    | succ I ih =>
      intro hI
      rw [List.range_succ, List.foldl_append]
      simp only [List.foldl_cons, List.foldl_nil]
      rw [Nat.add_mul, Nat.one_mul]
      exact inner I (by omega) W le_rfl _ (ih (by omega))
  exact outer H le_rfl

/-- the running sine and cosine follow the angle -/
theorem sweep_step (t d : ℝ) (mem : Nat → ℝ) : Sweep.step (Real.sin d) (Real.cos d) ⟨Real.sin t, Real.cos t, mem⟩ = ⟨Real.sin (t + d), Real.cos (t + d), mem⟩ := by
  unfold Sweep.step
  rw [Real.sin_add, Real.cos_add]

/-- one row of a LATLON map, as in the code -/
noncomputable def latRow (c0 c1 : MapCam) (k : Core) (W H i J : Nat) (row : Sweep) : Sweep :=
  (List.range J).foldl (fun (col : Sweep) j =>
    Sweep.step (Real.sin (1 / k.fx)) (Real.cos (1 / k.fx)) { col with mem := setMapPixel c0 c1 W H i j ⟨col.s, col.c * row.s, col.c * row.c⟩ col.mem })
    ⟨Real.sin (-(k.cx * (1 / k.fx))), Real.cos (-(k.cx * (1 / k.fx))), row.mem⟩

noncomputable def latRows (c0 c1 : MapCam) (k : Core) (W H I : Nat) (mem : Nat → ℝ) : Sweep :=
  (List.range I).foldl (fun (row : Sweep) i =>
    Sweep.step (Real.sin (1 / k.fy)) (Real.cos (1 / k.fy)) { row with mem := (latRow c0 c1 k W H i W row).mem })
    ⟨Real.sin (-(k.cy * (1 / k.fy))), Real.cos (-(k.cy * (1 / k.fy))), mem⟩

theorem latlon_loops (c0 c1 : MapCam) (k : Core) (W H : Nat) (q0 q1 : Nat → P2) (mem : Nat → ℝ)
    (h0 : ∀ n, project1 c0.L c0.intr (rotatePointR c0.R (nthRay .latlon k W n) false) = q0 n)
    (h1 : ∀ n, project1 c1.L c1.intr (rotatePointR c1.R (nthRay .latlon k W n) false) = q1 n) :
    Done (W * H) q0 q1 mem (H * W) (latRows c0 c1 k W H H mem).mem := by
  have inner : ∀ i, i < H → ∀ J, J ≤ W → ∀ row : Sweep, row.s = Real.sin (((i : ℝ) - k.cy) * (1 / k.fy)) → row.c = Real.cos (((i : ℝ) - k.cy) * (1 / k.fy)) →
      Done (W * H) q0 q1 mem (i * W) row.mem →
      (latRow c0 c1 k W H i J row).s = Real.sin (((J : ℝ) - k.cx) * (1 / k.fx)) ∧ (latRow c0 c1 k W H i J row).c = Real.cos (((J : ℝ) - k.cx) * (1 / k.fx)) ∧
      Done (W * H) q0 q1 mem (i * W + J) (latRow c0 c1 k W H i J row).mem := by
    intro i hi J
    induction J with
    | zero =>
      intro _ row _ _ h
      refine ⟨?_, ?_, h⟩
      · show Real.sin _ = _
        congr 1; push_cast; ring
      · show Real.cos _ = _
        congr 1; push_cast; ring
    | succ J ih =>
      intro hJ row hs hc h
      obtain ⟨i1, i2, i3⟩ := ih (by omega) row hs hc h
      have e : latRow c0 c1 k W H i (J + 1) row = Sweep.step (Real.sin (1 / k.fx)) (Real.cos (1 / k.fx))
          { s := (latRow c0 c1 k W H i J row).s, c := (latRow c0 c1 k W H i J row).c, mem := setMapPixel c0 c1 W H i J ⟨(latRow c0 c1 k W H i J row).s,
            (latRow c0 c1 k W H i J row).c * row.s, (latRow c0 c1 k W H i J row).c * row.c⟩ (latRow c0 c1 k W H i J row).mem } := by
        unfold latRow
        rw [List.range_succ, List.foldl_append]
        rfl
      have hr : (⟨Real.sin (((J : ℝ) - k.cx) * (1 / k.fx)), Real.cos (((J : ℝ) - k.cx) * (1 / k.fx)) * Real.sin (((i : ℝ) - k.cy) * (1 / k.fy)),
          Real.cos (((J : ℝ) - k.cx) * (1 / k.fx)) * Real.cos (((i : ℝ) - k.cy) * (1 / k.fy))⟩ : P3) = nthRay .latlon k W (i * W + J) := by
        rw [nthRay_eq _ _ _ _ _ (by omega)]
        rfl
      rw [e, i1, i2, hs, hc, hr, sweep_step]
      refine ⟨?_, ?_, done_step rfl (idx_lt hi (by omega)) (h0 _) (h1 _) i3⟩
      · simp only []; congr 1; push_cast; ring
      · simp only []; congr 1; push_cast; ring
  have outer : ∀ I, I ≤ H → (latRows c0 c1 k W H I mem).s = Real.sin (((I : ℝ) - k.cy) * (1 / k.fy)) ∧
      (latRows c0 c1 k W H I mem).c = Real.cos (((I : ℝ) - k.cy) * (1 / k.fy)) ∧ Done (W * H) q0 q1 mem (I * W) (latRows c0 c1 k W H I mem).mem := by
    intro I
    induction I with
    | zero =>
      intro _
      refine ⟨?_, ?_, fun n hn => by omega, fun a _ => rfl⟩
      · show Real.sin _ = _
        congr 1; push_cast; ring
      · show Real.cos _ = _
        congr 1; push_cast; ring
    | succ I ih =>
      intro hI
      obtain ⟨i1, i2, i3⟩ := ih (by omega)
      have e : latRows c0 c1 k W H (I + 1) mem = Sweep.step (Real.sin (1 / k.fy)) (Real.cos (1 / k.fy))
          { s := (latRows c0 c1 k W H I mem).s, c := (latRows c0 c1 k W H I mem).c, mem := (latRow c0 c1 k W H I W (latRows c0 c1 k W H I mem)).mem } := by
        unfold latRows
        rw [List.range_succ, List.foldl_append]
        rfl
      obtain ⟨-, -, j3⟩ := inner I (by omega) W le_rfl _ i1 i2 i3
      rw [e, i1, i2, sweep_step, Nat.add_mul, Nat.one_mul]
      refine ⟨?_, ?_, j3⟩
      · simp only []; congr 1; push_cast; ring
      · simp only []; congr 1; push_cast; ring
  exact (outer H le_rfl).2.2

/-- **C38**: the rectification maps. For each pixel (j,i) of the rectified image, if `d` is the direction in the reference coordinates that this pixel sees,
then the maps say at which pixels the two cameras see this direction. Nothing past the end of the maps is written. fx and fy aren't 0: otherwise the values in C aren't finite -/
theorem rectification_maps (L0 : Lens) (intr0 : Int → ℝ) (r_cam0_ref : P3) (L1 : Lens) (intr1 : Int → ℝ) (r_cam1_ref : P3) (m : RectType)
    (k : Core) (W H : Nat) (r_rect0_ref : P3) (mem : Nat → ℝ) :
    (rectificationMaps L0 intr0 r_cam0_ref L1 intr1 r_cam1_ref m k W H r_rect0_ref mem = none ↔ ¬ (m = .latlon ∨ m = .pinhole)) ∧
    ∀ out, rectificationMaps L0 intr0 r_cam0_ref L1 intr1 r_cam1_ref m k W H r_rect0_ref mem = some out → k.fx ≠ 0 → k.fy ≠ 0 →
      (∀ i j, i < H → j < W → ∀ d, mulVec (R_from_r r_rect0_ref) d = rectRay m k ⟨j, i⟩ →
        (⟨out ((i * W + j) * 2), out ((i * W + j) * 2 + 1)⟩ : P2) = project1 L0 intr0 (mulVec (R_from_r r_cam0_ref) d) ∧
        (⟨out (W * H * 2 + (i * W + j) * 2), out (W * H * 2 + (i * W + j) * 2 + 1)⟩ : P2) = project1 L1 intr1 (mulVec (R_from_r r_cam1_ref) d)) ∧
      ∀ a, W * H * 4 ≤ a → out a = mem a := by
  by_cases hm : m = .latlon ∨ m = .pinhole
  swap
  · unfold rectificationMaps
    rw [if_pos hm]
    exact ⟨by simp [hm], by simp⟩
  set c0 : MapCam := ⟨L0, intr0, mul (R_from_r r_cam0_ref) (transpose (R_from_r r_rect0_ref))⟩ with hc0
  set c1 : MapCam := ⟨L1, intr1, mul (R_from_r r_cam1_ref) (transpose (R_from_r r_rect0_ref))⟩ with hc1
  have hR : ∀ (r : P3) d, rotatePointR (mul (R_from_r r) (transpose (R_from_r r_rect0_ref))) (mulVec (R_from_r r_rect0_ref) d) false = mulVec (R_from_r r) d := by
    intro r d
    have o := (R_from_r_rot r_rect0_ref).1
    obtain ⟨k0, k1, k2, k01, k02, k12⟩ := o.cols
    have e1 : rotatePointR (mul (R_from_r r) (transpose (R_from_r r_rect0_ref))) (mulVec (R_from_r r_rect0_ref) d) false =
        mulVec (R_from_r r) (mulVec (transpose (R_from_r r_rect0_ref)) (mulVec (R_from_r r_rect0_ref) d)) := by
      unfold rotatePointR mul mulVec vecMul
      ext <;> simp <;> ring
    have e2 : mulVec (transpose (R_from_r r_rect0_ref)) (mulVec (R_from_r r_rect0_ref) d) = d := by
      unfold mulVec transpose
      ext <;> simp only []
      · linear_combination d.x * k0 + d.y * k01 + d.z * k02
      · linear_combination d.x * k01 + d.y * k1 + d.z * k12
      · linear_combination d.x * k02 + d.y * k12 + d.z * k2
    rw [e1, e2]
  have fin : ∀ out, Done (W * H) (fun n => project1 c0.L c0.intr (rotatePointR c0.R (nthRay m k W n) false))
      (fun n => project1 c1.L c1.intr (rotatePointR c1.R (nthRay m k W n) false)) mem (H * W) out →
      (∀ i j, i < H → j < W → ∀ d, mulVec (R_from_r r_rect0_ref) d = rectRay m k ⟨j, i⟩ →
        (⟨out ((i * W + j) * 2), out ((i * W + j) * 2 + 1)⟩ : P2) = project1 L0 intr0 (mulVec (R_from_r r_cam0_ref) d) ∧
        (⟨out (W * H * 2 + (i * W + j) * 2), out (W * H * 2 + (i * W + j) * 2 + 1)⟩ : P2) = project1 L1 intr1 (mulVec (R_from_r r_cam1_ref) d)) ∧
      ∀ a, W * H * 4 ≤ a → out a = mem a := by
    intro out hd
    refine ⟨fun i j hi hj d hdir => ?_, fun a ha => hd.2 a (by omega)⟩
    obtain ⟨d0, d1, d2, d3⟩ := hd.1 (i * W + j) (by rw [Nat.mul_comm H W]; exact idx_lt hi hj)
    simp only [] at d0 d1 d2 d3
    rw [nthRay_eq m k W i j hj, ← hdir, hc0, hR] at d0 d1
    rw [nthRay_eq m k W i j hj, ← hdir, hc1, hR] at d2 d3
    rw [Nat.mul_comm _ 2, Nat.mul_comm _ 2, d0, d1, d2, d3]
    exact ⟨rfl, rfl⟩
  refine ⟨?_, fun out hout _ _ => fin out ?_⟩
  · unfold rectificationMaps
    rw [if_neg (not_not.mpr hm)]
    simp only [hm, not_true_eq_false, iff_false]
    by_cases h : m = .latlon
    · simp only [if_pos h]; simp
    · simp only [if_neg h]; simp
  · unfold rectificationMaps at hout
    rw [if_neg (not_not.mpr hm)] at hout
    rcases hm with rfl | rfl
    · have := latlon_loops c0 c1 k W H _ _ mem (fun n => rfl) (fun n => rfl)
      rw [← Option.some.inj hout]
      exact this
    · have := pinhole_loops c0 c1 k W H _ _ mem (fun n => rfl) (fun n => rfl)
      rw [← Option.some.inj hout]
      exact this

/-- a failure to project (only with CAHVORE) appears in the maps as the pixel (0,0): this isn't distinguishable from a direction really seen by that pixel -/
theorem maps_failure_wrong (L0 : Lens) (intr0 : Int → ℝ) (r_cam0_ref : P3) (L1 : Lens) (intr1 : Int → ℝ) (r_cam1_ref : P3) (m : RectType)
    (k : Core) (W H : Nat) (r_rect0_ref : P3) (mem out : Nat → ℝ) (h : rectificationMaps L0 intr0 r_cam0_ref L1 intr1 r_cam1_ref m k W H r_rect0_ref mem = some out)
    (hx : k.fx ≠ 0) (hy : k.fy ≠ 0) (i j : Nat) (hi : i < H) (hj : j < W) (d : P3) (hd : mulVec (R_from_r r_rect0_ref) d = rectRay m k ⟨j, i⟩)
    (hf : lensOut L0 intr0 (mulVec (R_from_r r_cam0_ref) d) = none) : out ((i * W + j) * 2) = 0 ∧ out ((i * W + j) * 2 + 1) = 0 := by
  have e := (((rectification_maps L0 intr0 r_cam0_ref L1 intr1 r_cam1_ref m k W H r_rect0_ref mem).2 out h hx hy).1 i j hi hj d hd).1
  unfold project1 at e
  rw [hf] at e
  exact ⟨congrArg P2.x e, congrArg P2.y e⟩

/-- there is such a failure: a perspective CAHVORE camera can't see behind itself -/
example : lensOut (.cahvore 1) (fun _ => 0) ⟨0, 0, -1⟩ = none := by
  have h := cahvore_E0 ⟨0, 0, -1⟩ (nocoreOf fun _ => 0) 1 true true (by simp) (fun _ _ _ => rfl)
  simp only [] at h
  have ho : cahvorO (nocoreOf (fun _ => 0) 0) (nocoreOf (fun _ => 0) 1) = ⟨0, 0, 1⟩ := by
    simp [cahvorO, nocoreOf]
  have hoff : offAxis ⟨0, 0, 1⟩ ⟨0, 0, -1⟩ = ⟨0, 0, 0⟩ := by simp [offAxis, dot3]
  have hd : dot3 ⟨0, 0, -1⟩ ⟨0, 0, 1⟩ = -1 := by simp [dot3]
  have hm : mag3 ⟨0, 0, 0⟩ = 0 := by simp [mag3]
  have ha : atan2 0 (-1) = Real.pi := by
    unfold atan2
    rw [show (⟨-1, 0⟩ : ℂ) = -1 from rfl.trans (by apply Complex.ext <;> simp), Complex.arg_neg_one]
  rw [ho, hoff, hd, hm, ha, abs_one, mul_one, if_pos (by linarith [Real.pi_pos])] at h
  have h2 : projectCahvoreInternals ⟨0, 0, -1⟩ (nocoreOf fun _ => 0) 1 true true = none := Option.map_eq_none_iff.mp h
  unfold lensOut
  simp only [Rat.cast_one, h2]

/-- the maps of a 2x1 image are produced -/
example : ∃ out, rectificationMaps .pinhole (fun _ => 1) ⟨0, 0, 0⟩ .pinhole (fun _ => 1) ⟨0, 0, 0⟩ .latlon ⟨100, 100, 0.5, 0⟩ 2 1 ⟨0, 0, 0⟩ (fun _ => 0) = some out := by
  rw [← Option.ne_none_iff_exists', Ne, (rectification_maps _ _ _ _ _ _ _ _ _ _ _ _).1]
  simp

/-- the direction seen by a pixel always exists -/
example (m : RectType) (k : Core) (q : P2) (r : P3) : ∃ d, mulVec (R_from_r r) d = rectRay m k q := by
  have o := (R_from_r_rot r).1
  obtain ⟨k0, k1, k2, k01, k02, k12⟩ := o.rows
  generalize rectRay m k q = v
  refine ⟨mulVec (transpose (R_from_r r)) v, ?_⟩
  unfold mulVec transpose
  ext <;> simp only []
  · linear_combination v.x * k0 + v.y * k01 + v.z * k02
  · linear_combination v.x * k01 + v.y * k1 + v.z * k12
  · linear_combination v.x * k02 + v.y * k12 + v.z * k2

end Mrcal.Stereo
