import Verif.Props.ImageTransformProps
import Mathlib.Algebra.Order.Floor.Ring
/-
C92: pinhole models for reprojection: the best focal-length scale, and the scaled image.
-/
namespace Mrcal.ImageTransform
open Mrcal Mrcal.Cam Mrcal.Pose

/-! ### Specification -/

/-- the pixel of the pinhole camera with the focal lengths of the model, scaled by k -/
noncomputable def pinPixel (m : Model) (k : ℝ) (p : P3) : P2 := ⟨k * m.intr 0 * (p.x / p.z) + m.intr 2, k * m.intr 1 * (p.y / p.z) + m.intr 3⟩
/-- a pixel is in the image -/
def InImage (m : Model) (q : P2) : Prop := (0 ≤ q.x ∧ q.x ≤ (m.W : ℝ) - 1) ∧ (0 ≤ q.y ∧ q.y ≤ (m.H : ℝ) - 1)
/-- a pixel is at the edge -/
def AtEdge (m : Model) (q : P2) : Prop := (q.x = 0 ∨ q.x = (m.W : ℝ) - 1) ∨ (q.y = 0 ∨ q.y = (m.H : ℝ) - 1)
/-- the model is usable: focal lengths > 0, and the center of the projection is in the image -/
structure Usable (m : Model) : Prop where
  fx : 0 < m.intr 0
  fy : 0 < m.intr 1
  cx : 0 ≤ m.intr 2 ∧ m.intr 2 ≤ (m.W : ℝ) - 1
  cy : 0 ≤ m.intr 3 ∧ m.intr 3 ≤ (m.H : ℝ) - 1

/-! ### helpers -/

/-- one coordinate -/
theorem step_fits (f c hi p s : ℝ) (hf : 0 < f) (hc : 0 ≤ c) (hp : p ≠ 0) :
    ∃ s', scaleStep (-c / f) ((hi - c) / f) (.fin s) p = .fin s' ∧ (∀ k, 0 ≤ k → c ≤ hi → (k ≤ s' ↔ k ≤ s ∧ 0 ≤ k * f * p + c ∧ k * f * p + c ≤ hi)) ∧
      (s' = s ∨ s' * f * p + c = 0 ∨ s' * f * p + c = hi) := by
  have hmin : ∀ a b : ℝ, Dbl.min (.fin a) (.fin b) = .fin (if a ≤ b then a else b) := fun a b => rfl
  unfold scaleStep
  rcases lt_or_gt_of_ne hp with hlt | hgt
  · rw [if_neg (not_lt.mpr hlt.le)]
    unfold Dbl.div
    rw [if_pos hp, hmin]
    have hb : ∀ k, k ≤ -c / f / p ↔ 0 ≤ k * f * p + c := by
      intro k
      rw [le_div_iff_of_neg hlt, div_le_iff₀ hf]
      constructor <;> intro h <;> nlinarith
    refine ⟨_, rfl, fun k hk hch => ?_, ?_⟩
    · have e : k ≤ (if s ≤ -c / f / p then s else -c / f / p) ↔ k ≤ s ∧ k ≤ -c / f / p := by
        split
        · exact ⟨fun h => ⟨h, by linarith⟩, fun h => h.1⟩
        · exact ⟨fun h => ⟨by linarith, h⟩, fun h => h.2⟩
      rw [e, hb]
      refine and_congr_right fun _ => ⟨fun h => ⟨h, ?_⟩, fun h => h.1⟩
      have : k * f * p ≤ 0 := mul_nonpos_of_nonneg_of_nonpos (mul_nonneg hk hf.le) hlt.le
      linarith
    · split
      · exact Or.inl rfl
      · right; left
        field_simp
        ring
  · rw [if_pos hgt]
    unfold Dbl.div
    rw [if_pos hp, hmin]
    have hb : ∀ k, k ≤ (hi - c) / f / p ↔ k * f * p + c ≤ hi := by
      intro k
      rw [le_div_iff₀ hgt, le_div_iff₀ hf]
      constructor <;> intro h <;> nlinarith
    refine ⟨_, rfl, fun k hk hch => ?_, ?_⟩
    · have e : k ≤ (if s ≤ (hi - c) / f / p then s else (hi - c) / f / p) ↔ k ≤ s ∧ k ≤ (hi - c) / f / p := by
        split
        · exact ⟨fun h => ⟨h, by linarith⟩, fun h => h.1⟩
        · exact ⟨fun h => ⟨by linarith, h⟩, fun h => h.2⟩
      rw [e, hb]
      refine and_congr_right fun _ => ⟨fun h => ⟨?_, h⟩, fun h => h.2⟩
      have : 0 ≤ k * f * p := mul_nonneg (mul_nonneg hk hf.le) hgt.le
      linarith
    · split
      · exact Or.inl rfl
      · right; right
        field_simp
        ring

/-! ### the theorems -/

/-- **C92**: the scale is the largest one (up to 1e6) for which all the points are in the image; the worst point is at the edge. This needs points that are off the two axes of the image: see
`axis_wrong` -/
theorem scale_best_partial (m : Model) (hm : Usable m) (v : List P3) (hv : ∀ p ∈ v, p.z ≠ 0 ∧ p.x ≠ 0 ∧ p.y ≠ 0) :
    ∃ s, scaleOfRays m v = .fin s ∧ 0 ≤ s ∧ (∀ k, 0 ≤ k → (k ≤ s ↔ k ≤ 1e6 ∧ ∀ p ∈ v, InImage m (pinPixel m k p))) ∧ (s = 1e6 ∨ ∃ p ∈ v, AtEdge m (pinPixel m s p)) := by
  have key : ∀ (v : List P3) (s0 : ℝ), (∀ p ∈ v, p.z ≠ 0 ∧ p.x ≠ 0 ∧ p.y ≠ 0) →
      ∃ s, v.foldl (fun s p => scaleStep ((-m.intr 3) / m.intr 1) (((m.H : ℝ) - 1 - m.intr 3) / m.intr 1)
          (scaleStep ((-m.intr 2) / m.intr 0) (((m.W : ℝ) - 1 - m.intr 2) / m.intr 0) s (p.x / p.z)) (p.y / p.z)) (.fin s0) = .fin s ∧
        (∀ k, 0 ≤ k → (k ≤ s ↔ k ≤ s0 ∧ ∀ p ∈ v, InImage m (pinPixel m k p))) ∧ (s = s0 ∨ ∃ p ∈ v, AtEdge m (pinPixel m s p)) := by
    intro v
    induction v with
    | nil => exact fun s0 _ => ⟨s0, rfl, fun k hk => by simp, Or.inl rfl⟩
    | cons p rest ih =>
      intro s0 hv
      obtain ⟨hz, hx, hy⟩ := hv p (by simp)
      obtain ⟨s1, e1, b1, w1⟩ := step_fits (m.intr 0) (m.intr 2) ((m.W : ℝ) - 1) (p.x / p.z) s0 hm.fx hm.cx.1 (div_ne_zero hx hz)
      obtain ⟨s2, e2, b2, w2⟩ := step_fits (m.intr 1) (m.intr 3) ((m.H : ℝ) - 1) (p.y / p.z) s1 hm.fy hm.cy.1 (div_ne_zero hy hz)
      obtain ⟨s, e, b, w⟩ := ih s2 (fun p hp => hv p (List.mem_cons_of_mem _ hp))
      refine ⟨s, ?_, fun k hk => ?_, ?_⟩
      · rw [List.foldl_cons, e1, e2, e]
      · rw [b k hk, b2 k hk hm.cy.2, b1 k hk hm.cx.2, List.forall_mem_cons]
        unfold InImage pinPixel
        simp only
        tauto
      · rcases w with w | ⟨q, hq, w⟩
        · subst w
          rcases w2 with w2 | w2 | w2
          · subst w2
            rcases w1 with w1 | w1 | w1
            · exact Or.inl w1
            · exact Or.inr ⟨p, by simp, Or.inl (Or.inl w1)⟩
            · exact Or.inr ⟨p, by simp, Or.inl (Or.inr w1)⟩
          · exact Or.inr ⟨p, by simp, Or.inr (Or.inl w2)⟩
          · exact Or.inr ⟨p, by simp, Or.inr (Or.inr w2)⟩
        · exact Or.inr ⟨q, List.mem_cons_of_mem _ hq, w⟩
  obtain ⟨s, e, b, w⟩ := key v 1e6 hv
  refine ⟨s, e, ?_, b, w⟩
  rw [b 0 le_rfl]
  refine ⟨by norm_num, fun p _ => ?_⟩
  unfold InImage pinPixel
  simp only [zero_mul, zero_add]
  exact ⟨hm.cx, hm.cy⟩

/-- a camera for the examples: 3x3 pixels, the center of the projection in the middle -/
noncomputable def tiny : Model := ⟨.pinhole, fun _ => 1, identityRt, 3, 3, none⟩

example : Usable tiny ∧ (∀ p ∈ ([⟨1, 1, 1⟩, ⟨-1, 2, 1⟩] : List P3), p.z ≠ 0 ∧ p.x ≠ 0 ∧ p.y ≠ 0) := by
  refine ⟨⟨?_, ?_, ?_, ?_⟩, ?_⟩ <;> norm_num [tiny]

/-- **C92, negation**: a centered pinhole camera, with 'centers-vertical': the points have x=0 exactly. -cx/fx is divided by this 0, and the resulting scale is minus infinity; yet any scale in [0,1] is fine -/
theorem axis_wrong : Usable tiny ∧ (∀ solve, scaleFocal solve tiny (some .centersVertical) = some .ninf) ∧
    (∀ solve, ∀ q ∈ edges tiny .centersVertical, ∃ v, unproject1 tiny solve q = some (some v) ∧ ∀ k, 0 ≤ k → k ≤ 1 → InImage tiny (pinPixel tiny k v)) := by
  have hu : ∀ solve q, unproject1 tiny solve q = some (some ⟨q.x - 1, q.y - 1, 1⟩) := by
    intro solve q
    rw [unproject1_pinhole tiny rfl]
    simp [tiny]
  refine ⟨⟨by norm_num [tiny], by norm_num [tiny], by norm_num [tiny], by norm_num [tiny]⟩, fun solve => ?_, fun solve q hq => ?_⟩
  · unfold scaleFocal
    have he : edges tiny .centersVertical = [⟨1, 0⟩, ⟨1, 2⟩] := by
      simp only [edges, tiny, List.cons.injEq, P2.mk.injEq, and_true]
      norm_num
    simp only [he, List.mapM_cons, List.mapM_nil, hu]
    norm_num [hasCore, scaleOfRays, tiny, scaleStep, Dbl.div, Dbl.min]
  · refine ⟨_, hu solve q, fun k h0 h1 => ?_⟩
    simp only [edges, tiny, List.mem_cons, List.not_mem_nil, or_false] at hq
    rcases hq with hq | hq <;> subst hq <;> simp only [InImage, pinPixel, tiny] <;> norm_num <;> constructor <;> linarith

/-- **C92**: the resulting model: the pose of the input model, the center of its projection, and its focal lengths, scaled as asked -/
theorem pinhole_model_meaning (solve : Solver) (m : Model) (fit : Option Fit) (sf : Option ℝ) (r : Pinhole) (h : pinholeModel solve m fit sf none = some r) :
    (fit = none ∨ sf = none) ∧ r.pose = m.pose ∧ r.W = m.W ∧ r.H = m.H ∧ r.cx = some (m.intr 2) ∧ r.cy = some (m.intr 3) ∧
    ((fit = none ∧ ∃ k, (sf = some k ∨ sf = none ∧ k = 1) ∧ r.fx = some (m.intr 0 * k) ∧ r.fy = some (m.intr 1 * k)) ∨
     ∃ s, scaleFocal solve m fit = some s ∧ ∀ k, s = .fin k → r.fx = some (m.intr 0 * k) ∧ r.fy = some (m.intr 1 * k)) := by
  unfold pinholeModel at h
  obtain ⟨s, hs, h⟩ := Option.bind_eq_some_iff.mp h
  simp only [hasCore, Bool.not_true, Bool.false_eq_true, if_false, Option.some.injEq] at h
  subst h
  cases sf with
  | none =>
    simp only at hs
    refine ⟨Or.inr rfl, rfl, rfl, rfl, rfl, rfl, Or.inr ⟨s, hs, ?_⟩⟩
    rintro k rfl
    exact ⟨rfl, rfl⟩
  | some k =>
    simp only at hs
    cases fit with
    | some f => simp at hs
    | none =>
      simp only [Option.isSome_none, Bool.false_eq_true, if_false, Option.some.injEq] at hs
      subst hs
      exact ⟨Or.inl rfl, rfl, rfl, rfl, rfl, rfl, Or.inl ⟨rfl, k, Or.inl rfl, rfl, rfl⟩⟩

example (solve : Solver) : ∃ r, pinholeModel solve tiny none (some 2) none = some r := ⟨_, rfl⟩

/-- a point in a pinhole model -/
noncomputable def Pinhole.pixel (r : Pinhole) (p : P3) : Option P2 :=
  r.fx.bind fun fx => r.fy.bind fun fy => r.cx.bind fun cx => r.cy.bind fun cy => some ⟨fx * (p.x / p.z) + cx, fy * (p.y / p.z) + cy⟩

/-- **C92, partial**: scaling the image: each point in the scaled image is where the same image, stretched by the scale k, has it: the edges of the imager (-1/2 and W-1/2) move to the edges. MISSING: cx=0 or cy=0, see
`center_wrong` -/
theorem scale_image_partial (solve : Solver) (m : Model) (hx : m.intr 2 ≠ 0) (hy : m.intr 3 ≠ 0) (fit : Option Fit) (sf : Option ℝ) (k : ℝ) (r0 r : Pinhole) (h0 : pinholeModel solve m fit sf none = some r0)
    (h : pinholeModel solve m fit sf (some k) = some r) :
    r.pose = r0.pose ∧ |(r.W : ℝ) - r0.W * k| ≤ 1 / 2 ∧ |(r.H : ℝ) - r0.H * k| ≤ 1 / 2 ∧
    ∀ p q0, r0.pixel p = some q0 → ∃ q, r.pixel p = some q ∧ q.x + 1 / 2 = k * (q0.x + 1 / 2) ∧ q.y + 1 / 2 = k * (q0.y + 1 / 2) := by
  have hround : ∀ x : ℝ, |((pyRound x : Int) : ℝ) - x| ≤ 1 / 2 := by
    intro x
    unfold pyRound
    have h1 := Int.floor_le x
    have h2 := Int.lt_floor_add_one x
    dsimp only
    split
    · rw [abs_le]; constructor <;> linarith
    · split
      · push_cast; rw [abs_le]; constructor <;> linarith
      · have : x - ⌊x⌋ = 1 / 2 := by linarith
        split
        · rw [abs_le]; constructor <;> linarith
        · push_cast; rw [abs_le]; constructor <;> linarith
  unfold pinholeModel at h0 h
  obtain ⟨s0, hs0, h0⟩ := Option.bind_eq_some_iff.mp h0
  obtain ⟨s, hs, h⟩ := Option.bind_eq_some_iff.mp h
  rw [hs0] at hs
  obtain rfl := Option.some.inj hs
  simp only [hasCore, Bool.not_true, Bool.false_eq_true, if_false, Option.some.injEq] at h0 h
  subst h0 h
  refine ⟨rfl, ?_, ?_, fun p q0 hq0 => ?_⟩
  · simpa using hround ((m.W : ℝ) * k)
  · simpa using hround ((m.H : ℝ) * k)
  · cases hf : s0.finite with
    | none => simp [Pinhole.pixel, hf] at hq0
    | some a =>
      simp only [Pinhole.pixel, hf, Option.map_some, Option.bind_some, Option.some.injEq] at hq0
      subst hq0
      have hd : ∀ c : ℝ, c ≠ 0 → mulDiv c (k + 2 * c * k - 1) (2 * c) = some (c * ((k + 2 * c * k - 1) / (2 * c))) := by
        intro c hc
        unfold mulDiv Dbl.div
        rw [if_pos (by simpa using hc)]
        rfl
      simp only [Pinhole.pixel, Option.map_some, Option.bind_some, hd _ hx, hd _ hy]
      refine ⟨_, rfl, ?_, ?_⟩ <;> simp only <;> field_simp <;> ring

/-- the hypotheses can be met -/
theorem scale_image_case (solve : Solver) : ∃ r0 r, pinholeModel solve tiny none none none = some r0 ∧ pinholeModel solve tiny none none (some 2) = some r ∧
    r0.pixel ⟨1 / 2, 1 / 2, 1⟩ = some ⟨3 / 2, 3 / 2⟩ ∧ r.pixel ⟨1 / 2, 1 / 2, 1⟩ = some ⟨7 / 2, 7 / 2⟩ ∧ InImage tiny ⟨3 / 2, 3 / 2⟩ := by
  refine ⟨_, _, rfl, rfl, ?_, ?_, ?_⟩
  · norm_num [Pinhole.pixel, Dbl.finite, tiny]
  · norm_num [Pinhole.pixel, Dbl.finite, tiny, mulDiv, Dbl.div]
  · norm_num [InImage, tiny]

example : tiny.intr 2 ≠ 0 ∧ tiny.intr 3 ≠ 0 := by norm_num [tiny]

/-- **C92**: so a point that's in the image stays in the area of the scaled imager (before the rounding of its size) -/
theorem scale_image_inside (solve : Solver) (m : Model) (hx : m.intr 2 ≠ 0) (hy : m.intr 3 ≠ 0) (fit : Option Fit) (sf : Option ℝ) (k : ℝ) (hk : 0 < k) (r0 r : Pinhole) (h0 : pinholeModel solve m fit sf none = some r0)
    (h : pinholeModel solve m fit sf (some k) = some r) (p : P3) (q0 q : P2) (hq0 : r0.pixel p = some q0) (hq : r.pixel p = some q) (hin : InImage m q0) :
    -(1 / 2) < q.x ∧ q.x < (m.W : ℝ) * k - 1 / 2 ∧ -(1 / 2) < q.y ∧ q.y < (m.H : ℝ) * k - 1 / 2 := by
  obtain ⟨-, -, -, hp⟩ := scale_image_partial solve m hx hy fit sf k r0 r h0 h
  obtain ⟨q', hq', ex, ey⟩ := hp p q0 hq0
  rw [hq] at hq'
  obtain rfl := Option.some.inj hq'
  obtain ⟨⟨a, b⟩, c, d⟩ := hin
  refine ⟨?_, ?_, ?_, ?_⟩ <;> nlinarith

/-- **C92, partial**: the model that's fitted sees all the points that had to be visible: their rays are in the image, and one of them is at its edge (or the scale is 1e6); a longer focal length would lose one. MISSING:
rays with x=0 or y=0 (`axis_wrong`) -/
theorem fit_visible_partial (solve : Solver) (m : Model) (hm : Usable m) (f : Fit) (r : Pinhole) (h : pinholeModel solve m (some f) none none = some r)
    (hoff : ∀ q ∈ edges m f, ∀ v, unproject1 m solve q = some (some v) → v.x ≠ 0 ∧ v.y ≠ 0) :
    ∃ s, 0 ≤ s ∧ r.fx = some (m.intr 0 * s) ∧ r.fy = some (m.intr 1 * s) ∧
      (∀ q ∈ edges m f, ∃ v pq, unproject1 m solve q = some (some v) ∧ r.pixel v = some pq ∧ InImage m pq) ∧
      (s = 1e6 ∨ ∃ q ∈ edges m f, ∃ v pq, unproject1 m solve q = some (some v) ∧ r.pixel v = some pq ∧ AtEdge m pq) ∧
      (∀ k, s < k → k ≤ 1e6 → ∃ q ∈ edges m f, ∃ v, unproject1 m solve q = some (some v) ∧ ¬ InImage m (pinPixel m k v)) := by
  have hmap : ∀ (g : P2 → Option P3) (l : List P2) (v : List P3), l.mapM g = some v → List.Forall₂ (fun q w => g q = some w) l v := by
    intro g l
    induction l with
    | nil => intro v hv; simp only [List.mapM_nil] at hv; obtain rfl := Option.some.inj hv; exact .nil
    | cons q rest ih =>
      intro v hv
      rw [List.mapM_cons] at hv
      obtain ⟨w, hw, hv⟩ := Option.bind_eq_some_iff.mp hv
      obtain ⟨ws, hws, hv⟩ := Option.bind_eq_some_iff.mp hv
      obtain rfl := Option.some.inj hv
      exact .cons hw (ih ws hws)
  obtain ⟨-, -, -, -, hcx, hcy, hcase⟩ := pinhole_model_meaning solve m (some f) none r h
  rcases hcase with ⟨h0, -⟩ | ⟨d, hd, hfin⟩
  · exact absurd h0 (by simp)
  unfold scaleFocal at hd
  obtain ⟨v, hv, hd⟩ := Option.bind_eq_some_iff.mp hd
  simp only [hasCore, if_true, Option.some.injEq] at hd
  have hall := hmap _ _ _ hv
  have hg : ∀ q w, (match unproject1 m solve q with | some (some v) => if v.z = 0 then none else some v | _ => none) = some w → unproject1 m solve q = some (some w) ∧ w.z ≠ 0 := by
    intro q w hw
    cases hu : unproject1 m solve q with
    | none => rw [hu] at hw; simp at hw
    | some o =>
      cases o with
      | none => rw [hu] at hw; simp at hw
      | some w' =>
        rw [hu] at hw
        simp only at hw
        by_cases hz : w'.z = 0
        · rw [if_pos hz] at hw; simp at hw
        · rw [if_neg hz] at hw
          obtain rfl := Option.some.inj hw
          exact ⟨rfl, hz⟩
  have fwd : ∀ q ∈ edges m f, ∃ w ∈ v, unproject1 m solve q = some (some w) ∧ w.z ≠ 0 := by
    clear hv hd hoff
    generalize edges m f = l at hall ⊢
    induction hall with
    | nil => intro q hq; simp at hq
    | cons hw _ ih =>
      intro q hq
      rcases List.mem_cons.mp hq with rfl | hq
      · exact ⟨_, List.mem_cons_self .., hg _ _ hw⟩
      · obtain ⟨w, hm, hu⟩ := ih q hq
        exact ⟨w, List.mem_cons_of_mem _ hm, hu⟩
  have bwd : ∀ w ∈ v, ∃ q ∈ edges m f, unproject1 m solve q = some (some w) ∧ w.z ≠ 0 := by
    clear hv hd hoff fwd
    generalize edges m f = l at hall ⊢
    induction hall with
    | nil => intro q hq; simp at hq
    | cons hw _ ih =>
      intro w hq
      rcases List.mem_cons.mp hq with rfl | hq
      · exact ⟨_, List.mem_cons_self .., hg _ _ hw⟩
      · obtain ⟨q, hm, hu⟩ := ih w hq
        exact ⟨q, List.mem_cons_of_mem _ hm, hu⟩
  obtain ⟨s, hs, h0, hb, hedge⟩ := scale_best_partial m hm v (fun p hp => by
    obtain ⟨q, hq, hu, hz⟩ := bwd p hp
    exact ⟨hz, hoff q hq p hu⟩)
  rw [hs] at hd
  obtain ⟨fx, fy⟩ := hfin s hd.symm
  have hpix : ∀ w, r.pixel w = some (pinPixel m s w) := by
    intro w
    unfold Pinhole.pixel pinPixel
    rw [fx, fy, hcx, hcy]
    simp only [Option.bind_some, mul_comm]
  refine ⟨s, h0, fx, fy, fun q hq => ?_, ?_, fun k hk hk6 => ?_⟩
  · obtain ⟨w, hw, hu, -⟩ := fwd q hq
    exact ⟨w, _, hu, hpix w, ((hb s h0).mp le_rfl).2 w hw⟩
  · rcases hedge with he | ⟨w, hw, he⟩
    · exact Or.inl he
    · obtain ⟨q, hq, hu, -⟩ := bwd w hw
      exact Or.inr ⟨q, hq, w, _, hu, hpix w, he⟩
  · have hn : ¬ (k ≤ 1e6 ∧ ∀ p ∈ v, InImage m (pinPixel m k p)) := fun hh => absurd ((hb k (by linarith)).mpr hh) (not_le.mpr hk)
    by_contra hne
    refine hn ⟨hk6, fun p hp => ?_⟩
    by_contra hni
    obtain ⟨q, hq, hu, -⟩ := bwd p hp
    exact hne ⟨q, hq, p, hu, hni⟩

/-- the hypotheses can be met: the corners of a pinhole camera -/
theorem fit_case : Usable tiny ∧ (∀ solve, (pinholeModel solve tiny (some .corners) none none).isSome = true) ∧
    (∀ solve, ∀ q ∈ edges tiny .corners, ∀ v, unproject1 tiny solve q = some (some v) → v.x ≠ 0 ∧ v.y ≠ 0) := by
  have hu : ∀ solve q, unproject1 tiny solve q = some (some ⟨q.x - 1, q.y - 1, 1⟩) := by
    intro solve q
    rw [unproject1_pinhole tiny rfl]
    simp [tiny]
  refine ⟨⟨by norm_num [tiny], by norm_num [tiny], by norm_num [tiny], by norm_num [tiny]⟩, fun solve => ?_, fun solve q hq v hv => ?_⟩
  · unfold pinholeModel scaleFocal
    simp only [edges, List.mapM_cons, List.mapM_nil, hu]
    norm_num [hasCore]
  · rw [hu] at hv
    obtain rfl : (⟨q.x - 1, q.y - 1, 1⟩ : P3) = v := by simpa using hv
    simp only [edges, tiny, List.mem_cons, List.not_mem_nil, or_false] at hq
    rcases hq with hq | hq | hq | hq <;> subst hq <;> norm_num

/-- **C92, negation**: a center of projection with cx=0 becomes NaN when the image is scaled, even though the formula in the comments has the perfectly good limit (k-1)/2 -/
theorem center_wrong : ∃ m : Model, 0 < m.intr 0 ∧ 0 < m.intr 1 ∧ ∀ solve, ∃ r, pinholeModel solve m none none (some 2) = some r ∧ r.cx = none := by
  refine ⟨⟨.pinhole, fun i => if i = 2 then 0 else 1, identityRt, 3, 3, none⟩, by norm_num, by norm_num, fun solve => ?_⟩
  unfold pinholeModel scaleFocal
  simp only [Option.bind_some, hasCore, Bool.not_true, Bool.false_eq_true, if_false]
  refine ⟨_, rfl, ?_⟩
  norm_num [mulDiv, Dbl.div, Dbl.finite]

end Mrcal.ImageTransform
