import Verif.Props.ValidRegionProps
import Mathlib.Tactic.IntervalCases
/-
C117: what the valid-intrinsics region isn't; and models that meet the hypotheses of the theorems in ValidRegionProps.
-/
namespace Mrcal.Region

open Mrcal Mrcal.ModelDiff

/-- a findContours() for the examples: one contour: the whole mask, if its corners are set -/
def frame (w h : Nat) (mask : Nat → Nat → Bool) : List (List (Nat × Nat)) :=
  if decide (1 < w) && decide (1 < h) && mask 0 0 && mask 0 (h - 1) && mask (w - 1) (h - 1) && mask (w - 1) 0 then [[(0, 0), (0, h - 1), (w - 1, h - 1), (w - 1, 0)]] else []

/-- another one: the first cells -/
def first4 (w h : Nat) (mask : Nat → Nat → Bool) : List (List (Nat × Nat)) :=
  if decide (1 < w) && decide (1 < h) && mask 0 0 && mask 0 1 && mask 1 1 && mask 1 0 then [[(0, 0), (0, 1), (1, 1), (1, 0)]] else []

/-- everything can be unprojected; nothing is uncertain -/
noncomputable def certain (f : Nat → Nat → (Nat → Nat → Bool) → List (List (Nat × Nat))) : Env := ⟨fun q => some ⟨q.x, q.y, 1⟩, fun _ _ => some 0, f⟩

theorem frame_contours : Contours (certain frame) := by
  intro w h mask c hc
  change c ∈ frame w h mask at hc
  unfold frame at hc
  split_ifs at hc with h0
  · simp only [Bool.and_eq_true, decide_eq_true_eq] at h0
    obtain ⟨⟨⟨⟨⟨a, b⟩, c1⟩, c2⟩, c3⟩, c4⟩ := h0
    rw [List.mem_singleton] at hc
    subst hc
    refine ⟨by simp, ?_⟩
    intro v hv
    simp only [List.mem_cons, List.not_mem_nil, or_false] at hv
    rcases hv with rfl | rfl | rfl | rfl
    · exact ⟨by omega, by omega, c1⟩
    · exact ⟨by show 0 < w; omega, by show h - 1 < h; omega, c2⟩
    · exact ⟨by show w - 1 < w; omega, by show h - 1 < h; omega, c3⟩
    · exact ⟨by show w - 1 < w; omega, by show 0 < h; omega, c4⟩
  · cases hc

theorem first4_contours : Contours (certain first4) := by
  intro w h mask c hc
  change c ∈ first4 w h mask at hc
  unfold first4 at hc
  split_ifs at hc with h0
  · simp only [Bool.and_eq_true, decide_eq_true_eq] at h0
    obtain ⟨⟨⟨⟨⟨a, b⟩, c1⟩, c2⟩, c3⟩, c4⟩ := h0
    rw [List.mem_singleton] at hc
    subst hc
    refine ⟨by simp, ?_⟩
    intro v hv
    simp only [List.mem_cons, List.not_mem_nil, or_false] at hv
    rcases hv with rfl | rfl | rfl | rfl
    · exact ⟨by omega, by omega, c1⟩
    · exact ⟨by show 0 < w; omega, by show 1 < h; omega, c2⟩
    · exact ⟨by show 1 < w; omega, by show 1 < h; omega, c3⟩
    · exact ⟨by show 1 < w; omega, by show 0 < h; omega, c4⟩
  · cases hc

/-- a camera of 30 × 30 pixels: the tool uses one cell for each pixel. A board was seen at pixels 0,0 0,1 1,1 1,0: three corners in each -/
noncomputable def seen3 (B : ℝ) : Model :=
  ⟨30, 30, false, 0, [⟨0, [⟨⟨0, 0⟩, 1⟩, ⟨⟨0, 0⟩, 1⟩, ⟨⟨0, 0⟩, 1⟩, ⟨⟨0, 1⟩, 1⟩, ⟨⟨0, 1⟩, 1⟩, ⟨⟨0, 1⟩, 1⟩, ⟨⟨1, 1⟩, 1⟩, ⟨⟨1, 1⟩, 1⟩, ⟨⟨1, 1⟩, 1⟩, ⟨⟨1, 0⟩, 1⟩, ⟨⟨1, 0⟩, 1⟩, ⟨⟨1, 0⟩, 1⟩]⟩], List.replicate 24 (-B)⟩

/-- two corners in each. The residuals of one are B, of the other -B -/
noncomputable def seen2 (B : ℝ) : Model :=
  ⟨30, 30, false, 0, [⟨0, [⟨⟨0, 0⟩, 1⟩, ⟨⟨0, 0⟩, 1⟩, ⟨⟨0, 1⟩, 1⟩, ⟨⟨0, 1⟩, 1⟩, ⟨⟨1, 1⟩, 1⟩, ⟨⟨1, 1⟩, 1⟩, ⟨⟨1, 0⟩, 1⟩, ⟨⟨1, 0⟩, 1⟩]⟩], [B, B, -B, -B, B, B, -B, -B, B, B, -B, -B, B, B, -B, -B]⟩

theorem selected3 (B : ℝ) : selected (seen3 B) =
    [(⟨0, 0⟩, ⟨-B, -B⟩), (⟨0, 0⟩, ⟨-B, -B⟩), (⟨0, 0⟩, ⟨-B, -B⟩), (⟨0, 1⟩, ⟨-B, -B⟩), (⟨0, 1⟩, ⟨-B, -B⟩), (⟨0, 1⟩, ⟨-B, -B⟩), (⟨1, 1⟩, ⟨-B, -B⟩), (⟨1, 1⟩, ⟨-B, -B⟩), (⟨1, 1⟩, ⟨-B, -B⟩),
      (⟨1, 0⟩, ⟨-B, -B⟩), (⟨1, 0⟩, ⟨-B, -B⟩), (⟨1, 0⟩, ⟨-B, -B⟩)] := by
  simp [selected, corners, seen3, residual, List.replicate]

theorem selected2 (B : ℝ) : selected (seen2 B) =
    [(⟨0, 0⟩, ⟨B, B⟩), (⟨0, 0⟩, ⟨-B, -B⟩), (⟨0, 1⟩, ⟨B, B⟩), (⟨0, 1⟩, ⟨-B, -B⟩), (⟨1, 1⟩, ⟨B, B⟩), (⟨1, 1⟩, ⟨-B, -B⟩), (⟨1, 0⟩, ⟨B, B⟩), (⟨1, 0⟩, ⟨-B, -B⟩)] := by
  simp [selected, corners, seen2, residual]

theorem grid30 : gridHeight 30 none 30 30 = some 30 := by decide +kernel

theorem regional3 (B : ℝ) : regional (seen3 B) 30 none = some (30, 30, fun i j => stats (selected (seen3 B)) (center (seen3 B) 30 30 i j) (rcell (seen3 B) 30 30)) := by
  unfold regional
  rw [show gridHeight 30 none (seen3 B).W (seen3 B).H = some 30 from grid30, Option.bind_some, if_neg (by simp [corners, seen3])]

theorem regional2 (B : ℝ) : regional (seen2 B) 30 none = some (30, 30, fun i j => stats (selected (seen2 B)) (center (seen2 B) 30 30 i j) (rcell (seen2 B) 30 30)) := by
  unfold regional
  rw [show gridHeight 30 none (seen2 B).W (seen2 B).H = some 30 from grid30, Option.bind_some, if_neg (by simp [corners, seen2])]

theorem stats3 (B : ℝ) (i j : Nat) (hi : i ≤ 1) (hj : j ≤ 1) : stats (selected (seen3 B)) (center (seen3 B) 30 30 i j) (rcell (seen3 B) 30 30) = ⟨-B, 0, 6⟩ := by
  have hc : cellErr (selected (seen3 B)) (center (seen3 B) 30 30 i j) (rcell (seen3 B) 30 30) = [-B, -B, -B, -B, -B, -B] := by
    rw [selected3]
    interval_cases i <;> interval_cases j <;> norm_num [cellErr, center, rcell, seen3, abs_lt, List.filter]
  unfold stats
  rw [hc]
  have hm : mean [-B, -B, -B, -B, -B, -B] = -B := by simp [mean]; ring
  simp only [List.length_cons, List.length_nil]
  rw [if_neg (by norm_num), hm]
  congr 1
  unfold std
  rw [hm]
  simp [mean]

theorem stats2 (B : ℝ) (i j : Nat) (hi : i ≤ 1) (hj : j ≤ 1) : stats (selected (seen2 B)) (center (seen2 B) 30 30 i j) (rcell (seen2 B) 30 30) = ⟨0, 0, 4⟩ := by
  have hc : cellErr (selected (seen2 B)) (center (seen2 B) 30 30 i j) (rcell (seen2 B) 30 30) = [B, B, -B, -B] := by
    rw [selected2]
    interval_cases i <;> interval_cases j <;> norm_num [cellErr, center, rcell, seen2, abs_lt, List.filter]
  unfold stats
  rw [hc]
  rfl

theorem first4_all (mask : Nat → Nat → Bool) (h1 : mask 0 0 = true) (h2 : mask 0 1 = true) (h3 : mask 1 1 = true) (h4 : mask 1 0 = true) :
    (certain first4).findContours 30 30 mask = [[(0, 0), (0, 1), (1, 1), (1, 0)]] := by
  have : first4 30 30 mask = [[(0, 0), (0, 1), (1, 1), (1, 0)]] := by
    unfold first4
    rw [h1, h2, h3, h4]
    rfl
  exact this

theorem region4 (m : Model) (p : Params) (hW : m.W = 30) (hH : m.H = 30) (st : Nat → Nat → Stats) (hr : regional m 30 none = some (30, 30, st))
    (hm : ∀ i j, i ≤ 1 → j ≤ 1 → maskAt (certain first4) m p (st i j) (center m 30 30 i j) = true) : computeRegion (certain first4) m p = some [(0, 0), (0, 1), (1, 1), (1, 0), (0, 0)] := by
  unfold computeRegion
  rw [hr, Option.map_some]
  unfold contourOf
  have : (certain first4).findContours 30 30 (fun i j => maskAt (certain first4) m p (st i j) (center m 30 30 i j)) = [[(0, 0), (0, 1), (1, 1), (1, 0)]] := by
    exact first4_all _ (hm 0 0 (by decide) (by decide)) (hm 0 1 (by decide) (by decide)) (hm 1 1 (by decide) (by decide)) (hm 1 0 (by decide) (by decide))
  simp only [this, hW, hH]
  decide +kernel

/-- C117. The help says that the mean of the absolute residuals has to be below the threshold. But it's the mean of the residuals that's compared. Here all the residuals that were seen are -B, with any B, and the
region isn't empty, with the default parameters -/
theorem mean_wrong (B : ℝ) (hB : 0 < B) : ∃ env m R, Contours env ∧ toolRegion env m (1, 1 / 2, 3 / 2, 3, 0) 1 = some R ∧ R ≠ [] ∧ (∀ e ∈ m.x, |e| = B) ∧
    ∀ i j, i ≤ 1 → j ≤ 1 → (counted m 30 30 i j).length = 3 := by
  refine ⟨certain first4, seen3 B, [(0, 0), (0, 1), (1, 1), (1, 0), (0, 0)], first4_contours, ?_, by simp, ?_, ?_⟩
  · unfold toolRegion
    refine region4 _ _ rfl rfl _ (regional3 B) ?_
    intro i j hi hj
    rw [stats3 B i j hi hj]
    rw [mask_good _ _ _ (by norm_num)]
    exact ⟨⟨_, 0, rfl, by norm_num, .inl ⟨le_refl _, rfl⟩⟩, fun _ => ⟨by show -B < 1 / 2; linarith, by norm_num, by norm_num⟩⟩
  · intro e he
    rw [List.eq_of_mem_replicate he, abs_neg, abs_of_pos hB]
  · intro i j hi hj
    have := (cell_stats_partial _ _ _ _ _ _ (regional3 B) i j).2.1
    rw [stats3 B i j hi hj] at this
    have : 6 = 2 * (counted (seen3 B) 30 30 i j).length := this
    omega

/-- C117. The help says that each region needs at least 3 observations, by default. But it's the number of residuals that's compared, two for each observation; and if there are fewer than three observations
the mean and the standard deviation are 0: they pass. Here there are two observations in each cell, with residuals as large as anything, and the region isn't empty -/
theorem count_wrong (B : ℝ) (hB : 0 < B) : ∃ env m R, Contours env ∧ toolRegion env m (1, 1 / 2, 3 / 2, 3, 0) 1 = some R ∧ R ≠ [] ∧ (∀ e ∈ m.x, |e| = B) ∧
    ∀ v ∈ R, ∃ i j : Nat, v = ((i : Int), (j : Int)) ∧ (counted m 30 30 i j).length = 2 := by
  refine ⟨certain first4, seen2 B, [(0, 0), (0, 1), (1, 1), (1, 0), (0, 0)], first4_contours, ?_, by simp, ?_, ?_⟩
  · unfold toolRegion
    refine region4 _ _ rfl rfl _ (regional2 B) ?_
    intro i j hi hj
    rw [stats2 B i j hi hj]
    rw [mask_good _ _ _ (by norm_num)]
    exact ⟨⟨_, 0, rfl, by norm_num, .inl ⟨le_refl _, rfl⟩⟩, fun _ => ⟨by norm_num, by norm_num, by norm_num⟩⟩
  · intro e he
    have : e = B ∨ e = -B := by simpa [seen2, or_comm, or_left_comm] using he
    rcases this with rfl | rfl
    · exact abs_of_pos hB
    · rw [abs_neg, abs_of_pos hB]
  · have key : ∀ i j, i ≤ 1 → j ≤ 1 → (counted (seen2 B) 30 30 i j).length = 2 := by
      intro i j hi hj
      have := (cell_stats_partial _ _ _ _ _ _ (regional2 B) i j).2.1
      rw [stats2 B i j hi hj] at this
      have : 4 = 2 * (counted (seen2 B) 30 30 i j).length := this
      omega
    intro v hv
    simp only [List.mem_cons, List.not_mem_nil, or_false] at hv
    rcases hv with rfl | rfl | rfl | rfl | rfl
    · exact ⟨0, 0, rfl, key 0 0 (by decide) (by decide)⟩
    · exact ⟨0, 1, rfl, key 0 1 (by decide) (by decide)⟩
    · exact ⟨1, 1, rfl, key 1 1 (by decide) (by decide)⟩
    · exact ⟨1, 0, rfl, key 1 0 (by decide) (by decide)⟩
    · exact ⟨0, 0, rfl, key 0 0 (by decide) (by decide)⟩

/-! ### holes -/

/-- only the outer contours are returned (cv2.RETR_EXTERNAL): a pixel whose 8 neighbors are all set doesn't matter -/
def External (env : Env) : Prop :=
  ∀ w h (mask mask' : Nat → Nat → Bool) i j, 0 < i → i + 1 < w → 0 < j → j + 1 < h → (∀ i' j', (i' ≠ i ∨ j' ≠ j) → mask' i' j' = mask i' j') →
    (∀ i' j', i - 1 ≤ i' → i' ≤ i + 1 → j - 1 ≤ j' → j' ≤ j + 1 → (i' ≠ i ∨ j' ≠ j) → mask i' j' = true) → env.findContours w h mask' = env.findContours w h mask

theorem frame_external : External (certain frame) := by
  intro w h mask mask' i j hi hw hj hh he _
  show frame _ _ _ = frame _ _ _
  unfold frame
  rw [he 0 0 (by omega), he 0 (h - 1) (by omega), he (w - 1) (h - 1) (by omega), he (w - 1) 0 (by omega)]

open Classical in
/-- the same, but this pixel can't be unprojected -/
noncomputable def broken (env : Env) (q : P2) : Env := { env with unproject := fun q' => if q' = q then none else env.unproject q' }

theorem center_inj (m : Model) (hW : 2 ≤ m.W) (hH : 2 ≤ m.H) (gw gh : Nat) (hw : 2 ≤ gw) (hh : 2 ≤ gh) (i j i' j' : Nat) (h : center m gw gh i j = center m gw gh i' j') : i = i' ∧ j = j' := by
  have key (W gw i i' : Nat) (hW : 2 ≤ W) (hw : 2 ≤ gw) (h : ((W : ℝ) - 1) * i / ((gw : ℝ) - 1) = ((W : ℝ) - 1) * i' / ((gw : ℝ) - 1)) : i = i' := by
    have h1 : (0 : ℝ) < (W : ℝ) - 1 := by
      have : (2 : ℝ) ≤ W := by exact_mod_cast hW
      linarith
    have h2 : (0 : ℝ) < (gw : ℝ) - 1 := by
      have : (2 : ℝ) ≤ gw := by exact_mod_cast hw
      linarith
    rw [div_left_inj' (ne_of_gt h2)] at h
    exact_mod_cast mul_left_cancel₀ (ne_of_gt h1) h
  unfold center at h
  injection h with hx hy
  exact ⟨key _ _ _ _ hW hw hx, key _ _ _ _ hH hh hy⟩

/-- C117. Any cell in the interior can be invalid, and the region is still the same: the holes are ignored. Here it can't even be unprojected -/
theorem holes (env : Env) (hE : External env) (m : Model) (hW : 2 ≤ m.W) (hH : 2 ≤ m.H) (p : Params) (gw : Nat) (gh : Option Nat) (gh' : Nat) (st : Nat → Nat → Stats)
    (hr : regional m gw gh = some (gw, gh', st)) (i j : Nat) (hi : 0 < i) (hi' : i + 1 < gw) (hj : 0 < j) (hj' : j + 1 < gh')
    (hn : ∀ i' j', i - 1 ≤ i' → i' ≤ i + 1 → j - 1 ≤ j' → j' ≤ j + 1 → (i' ≠ i ∨ j' ≠ j) → maskAt env m p (st i' j') (center m gw gh' i' j') = true) :
    computeRegion (broken env (center m gw gh' i j)) m p gw gh = computeRegion env m p gw gh := by
  obtain ⟨h', -, g2, g3, -, h4⟩ := regional_some hr
  have h4' : gh' = h' := by
    have := congrArg (fun t => t.2.1) h4; exact this
  subst h4'
  unfold computeRegion
  rw [hr]
  simp only [Option.map_some, Option.some.injEq]
  have := hE gw gh' (fun i j => maskAt env m p (st i j) (center m gw gh' i j)) (fun i' j' => maskAt (broken env (center m gw gh' i j)) m p (st i' j') (center m gw gh' i' j')) i j hi hi' hj hj' ?_ hn
  · unfold contourOf
    have e : (broken env (center m gw gh' i j)).findContours = env.findContours := rfl
    rw [e, this]
  · intro i' j' hne
    have hc : center m gw gh' i' j' ≠ center m gw gh' i j := by
      intro h
      obtain ⟨a, b⟩ := center_inj m hW hH gw gh' g2 g3 _ _ _ _ h
      omega
    have hu : (broken env (center m gw gh' i j)).unproject (center m gw gh' i' j') = env.unproject (center m gw gh' i' j') := if_neg hc
    unfold maskAt uncertaintyAt
    rw [hu]
    rfl

/-- a splined model without observations -/
def plain : Model := ⟨30, 30, true, 0, [], []⟩

theorem regional_plain : regional plain 3 (some 3) = some (3, 3, fun i j => stats (selected plain) (center plain 3 3 i j) (rcell plain 3 3)) := by
  unfold regional
  rw [show gridHeight 3 (some 3) plain.W plain.H = some 3 from rfl, Option.bind_some, if_neg (by simp [corners, plain])]

theorem plain_mask (s : Stats) (q : P2) : maskAt (certain frame) plain ⟨1, 0, 0, 0, 0⟩ s q = true := by
  rw [mask_good _ _ _ (by norm_num)]
  refine ⟨⟨_, 0, rfl, by norm_num, .inl ⟨le_refl _, rfl⟩⟩, fun h => by cases h⟩

theorem plain_region : computeRegion (certain frame) plain ⟨1, 0, 0, 0, 0⟩ 3 (some 3) = some [(0, 0), (0, 29), (29, 29), (29, 0), (0, 0)] := by
  unfold computeRegion
  rw [regional_plain]
  simp only [Option.map_some, plain_mask]
  congr 1
  unfold contourOf
  rw [show (certain frame).findContours 3 3 (fun _ _ => true) = [[(0, 0), (0, 2), (2, 2), (2, 0)]] from rfl]
  simp only [plain]
  decide +kernel

/-- C117. So a region may include pixels that can't be used at all: the region is the whole imager, but the pixel in the middle of it can't be unprojected -/
theorem holes_wrong : ∃ env m p R, Contours env ∧ External env ∧ m.W = 30 ∧ m.H = 30 ∧ computeRegion env m p 3 (some 3) = some R ∧ R = [(0, 0), (0, 29), (29, 29), (29, 0), (0, 0)] ∧
    ∀ s, ¬ Good env m p s (center m 3 3 1 1) := by
  refine ⟨broken (certain frame) (center plain 3 3 1 1), plain, ⟨1, 0, 0, 0, 0⟩, _, ?_, ?_, rfl, rfl, ?_, rfl, ?_⟩
  · exact frame_contours
  · exact frame_external
  · rw [holes (certain frame) frame_external plain (by decide) (by decide) _ 3 (some 3) 3 _ regional_plain 1 1 (by decide) (by decide) (by decide) (by decide) (fun i j _ _ _ _ _ => plain_mask _ _), plain_region]
  · rintro s ⟨⟨v, u, h, -⟩, -⟩
    have : (broken (certain frame) (center plain 3 3 1 1)).unproject (center plain 3 3 1 1) = none := if_pos rfl
    rw [this] at h
    cases h

/-! ### errors -/

theorem round_le_one (q : ℚ) (h : q < 3 / 2) : Name.roundHalfEven q ≤ 1 := by
  have h1 := Name.round_err q
  rw [abs_le] at h1
  have : ((Name.roundHalfEven q : Int) : ℚ) < ((2 : Int) : ℚ) := by push_cast; linarith [h1.1]
  have : Name.roundHalfEven q < 2 := by exact_mod_cast this
  omega

/-- C117. Imagers that are more than 20 times as wide as they are high never have a valid-intrinsics region: the grid has only one row then, and computing the height of a cell raises an exception -/
theorem narrow_wrong (env : Env) (m : Model) (h : 20 * m.H < m.W) (a : ℝ × ℝ × ℝ × ℝ × ℝ) (observed : ℝ) : toolRegion env m a observed = none := by
  unfold toolRegion computeRegion regional
  have hW : m.W ≠ 0 := by omega
  have hg : gridHeight 30 none m.W m.H = some (Name.roundHalfEven ((m.H : ℚ) / (m.W : ℚ) * ((30 : Nat) : ℚ))).toNat := by
    show (if m.W = 0 then none else _) = _
    rw [if_neg hW]
  rw [hg]
  have : Name.roundHalfEven ((m.H : ℚ) / (m.W : ℚ) * ((30 : Nat) : ℚ)) ≤ 1 := by
    apply round_le_one
    have h1 : (20 : ℚ) * m.H < m.W := by exact_mod_cast h
    have h2 : (0 : ℚ) < m.W := by exact_mod_cast Nat.pos_of_ne_zero hW
    push_cast
    rw [div_mul_eq_mul_div, div_lt_iff₀ h2]
    linarith
  simp only [Option.bind_some]
  rw [if_pos (by omega)]
  rfl

/-- C117. show_residuals_regional() ignores the size of the grid that was asked for, and the residuals that were given -/
theorem show_regional_wrong : (∀ m x x' gw gw' gh gh', showRegional m x gw gh = showRegional m x' gw' gh') ∧ ∃ m x gw gh, showRegional m x gw gh ≠ regional m gw gh := by
  refine ⟨fun _ _ _ _ _ _ _ => rfl, plain, none, 3, some 3, ?_⟩
  rw [regional_plain]
  intro h
  obtain ⟨h', h1, h2⟩ := regional_some h
  have h3 : 3 = 20 := congrArg (fun t => t.1) h2.2.2.2
  exact absurd h3 (by decide)

/-- C117. The plots of the residuals can't show the region: they raise an exception if the model has none, and if it has one that isn't empty -/
theorem plot_region_wrong (region : Option (List (ℚ × ℚ))) (h : region ≠ some []) : plotRegion true region = none ∧ plotRegion false region = some none := by
  refine ⟨?_, rfl⟩
  cases region with
  | none => rfl
  | some r =>
    cases r with
    | nil => exact absurd rfl h
    | cons a l => rfl

/-! ### the hypotheses can be met -/

/- cell_stats_partial: cell 0,0 in seen3 has 3 observations; all the residuals are -5, so this is the mean -/
example : ∃ gh' st, regional (seen3 5) 30 none = some (30, gh', st) ∧ (st 0 0).count = 6 ∧ (st 0 0).mean = -5 :=
  ⟨_, _, regional3 5, by rw [stats3 5 0 0 (by decide) (by decide)], by rw [stats3 5 0 0 (by decide) (by decide)]⟩

/- corner_number -/
def two : Model := ⟨30, 30, false, 0, [⟨0, [⟨⟨0, 0⟩, 1⟩, ⟨⟨1, 0⟩, 1⟩]⟩, ⟨7, [⟨⟨2, 0⟩, 1⟩, ⟨⟨3, 0⟩, 1⟩]⟩], []⟩
example : (corners two)[1 * 2 + 1]? = some (7, ⟨⟨3, 0⟩, 1⟩) := by
  refine corner_number two 2 ?_ 1 1 (by decide) ⟨7, [⟨⟨2, 0⟩, 1⟩, ⟨⟨3, 0⟩, 1⟩]⟩ rfl _ rfl
  intro b hb
  rcases List.mem_cons.1 hb with rfl | hb
  · rfl
  · rw [List.mem_singleton.1 hb]; rfl

/- using_matches -/
example : ∃ g a b, sampleImager 30 none 30 30 = some g ∧ gridUsing 30 30 30 none = some (a, b) := by
  obtain ⟨g, a, b, h1, h2, -⟩ := using_matches _ _ _ _ _ _ (regional3 5)
  exact ⟨g, a, b, h1, h2⟩

/- cell_unique: a pixel in a cell -/
example : InCell plain 3 3 1 1 ⟨15, 14⟩ := by
  unfold InCell plain; norm_num [abs_lt]

/- boundary_wrong: pixel 7.25 is between the centers at 0 and 14.5 -/
example : ∀ i j, ¬ InCell plain 3 3 i j ⟨29 / 4, 3⟩ := boundary_wrong plain 3 3 0 ⟨29 / 4, 3⟩ (by unfold plain; norm_num)

/- vertex_valid, region_shape, region_accepted, region_largest, holes: plain_region -/
example : ∃ R, computeRegion (certain frame) plain ⟨1, 0, 0, 0, 0⟩ 3 (some 3) = some R ∧ R ≠ [] := ⟨_, plain_region, by simp⟩

/- region_empty: nothing can be unprojected -/
example : computeRegion { certain frame with unproject := fun _ => none } plain ⟨1, 0, 0, 0, 0⟩ 3 (some 3) = some [] := by
  have h : ∃ R, computeRegion { certain frame with unproject := fun _ => none } plain ⟨1, 0, 0, 0, 0⟩ 3 (some 3) = some R := by
    unfold computeRegion; rw [regional_plain]; exact ⟨_, rfl⟩
  obtain ⟨R, hR⟩ := h
  rw [hR]
  congr 1
  refine region_empty _ ?_ plain _ ?_ 3 (some 3) R hR 3 _ regional_plain ?_
  · exact frame_contours
  · norm_num
  · rintro i j - - ⟨⟨v, u, h, -⟩, -⟩
    cases h

/- tool_vertices: the region of mean_wrong -/
example : ∃ env m R, Contours env ∧ toolRegion env m (1, 1 / 2, 3 / 2, 3, 0) 1 = some R ∧ R ≠ [] := by
  obtain ⟨env, m, R, h1, h2, h3, -⟩ := mean_wrong 5 (by norm_num)
  exact ⟨env, m, R, h1, h2, h3⟩

/- narrow_wrong -/
example : toolRegion (certain frame) ⟨4096, 128, true, 0, [], []⟩ (1, 1 / 2, 3 / 2, 3, 0) 1 = none := narrow_wrong _ _ (by decide) _ _

end Mrcal.Region
