import Verif.Model.VsDistance
import Mathlib.Data.List.GetD
import Mathlib.Tactic.Linarith
import Mathlib.Tactic.Ring
import Mathlib.Tactic.FieldSimp
import Mathlib.Tactic.NormNum
import Mathlib.Tactic.Positivity
/-
show_projection_uncertainty_vs_distance(): the points that were observed, the ray, the distances, the curve; and the contours of the heat maps.
-/
namespace Mrcal.VsDistance

/-! ### specification -/

/-- the pose of a camera in the solve: the reference if the index is negative -/
def CamPose (rt : List (P3 → P3)) (icame : Int) (f : P3 → P3) : Prop := (icame < 0 ∧ f = id) ∨ (0 ≤ icame ∧ rt[icame.toNat]? = some f)

/-- p is a point that this camera observed, and that isn't an outlier, in the coordinates of the camera -/
def SeenPoint (s : Inputs) (p : P3) : Prop :=
  ∃ points rt, s.points = some points ∧ s.rt = some rt ∧ ∃ o ∈ s.obs, o.icami = s.icam ∧ 0 < o.w ∧ ∃ f q, CamPose rt o.icame f ∧ points[o.ipoint]? = some q ∧ p = f q

/-- a camera of this observation is at the reference of the solve -/
def AtReference (s : Inputs) (o : PointObs) : Prop := o ∈ s.obs ∧ o.icami = s.icam ∧ 0 < o.w ∧ o.icame < 0

/-- the indices are valid -/
def Valid (s : Inputs) : Prop := ∃ points rt, s.points = some points ∧ s.rt = some rt ∧ ∀ o ∈ s.obs, o.ipoint < points.length ∧ o.icame < rt.length

/-! ### the points that were observed -/

theorem mem_selected (s : Inputs) (o : PointObs) : o ∈ selected s ↔ o ∈ s.obs ∧ o.icami = s.icam ∧ 0 < o.w := by
  simp [selected]
  tauto

theorem mapM_total {α β : Type} (f : α → Option β) (l : List α) (h : ∀ a ∈ l, ∃ b, f a = some b) : ∃ r, l.mapM f = some r ∧ r.length = l.length ∧ ∀ b, b ∈ r ↔ ∃ a ∈ l, f a = some b := by
  induction l with
  | nil => exact ⟨[], rfl, rfl, by simp⟩
  | cons a l ih =>
    obtain ⟨b, hb⟩ := h a List.mem_cons_self
    obtain ⟨r, hr, hl, hm⟩ := ih fun a ha => h a (List.mem_cons_of_mem _ ha)
    refine ⟨b :: r, by rw [List.mapM_cons, hb, hr]; rfl, by simp [hl], ?_⟩
    intro b'
    rw [List.mem_cons, hm]
    constructor
    · rintro (rfl | ⟨a', ha', e⟩)
      · exact ⟨a, List.mem_cons_self, hb⟩
      · exact ⟨a', List.mem_cons_of_mem _ ha', e⟩
    · rintro ⟨a', ha', e⟩
      rcases List.mem_cons.1 ha' with rfl | ha'
      · left; rw [hb] at e; exact (Option.some.inj e).symm
      · exact Or.inr ⟨a', ha', e⟩

theorem mapM_none {α β : Type} (f : α → Option β) (l : List α) (a : α) (ha : a ∈ l) (h : f a = none) : l.mapM f = none := by
  induction l with
  | nil => cases ha
  | cons b l ih =>
    rw [List.mapM_cons]
    rcases List.mem_cons.1 ha with rfl | ha
    · rw [h]; rfl
    · rw [ih ha]
      cases f b <;> rfl

theorem pcamPoint_nonneg (rt : List (P3 → P3)) (points : List P3) (o : PointObs) (h0 : 0 ≤ o.icame) (h1 : o.icame < rt.length) :
    pcamPoint rt points o = points[o.ipoint]?.bind fun q => (rt[o.icame.toNat]?).map fun f => f q := by
  obtain ⟨k, hk⟩ := Int.eq_ofNat_of_zero_le h0
  have hk' : k < rt.length := by omega
  simp only [pcamPoint, npIndex, hk]
  rw [if_neg (by omega : ¬ (k : Int) < 0), if_pos (by omega : 0 ≤ (k : Int) + 1), if_pos (by omega : 0 ≤ (k : Int))]
  have e : ((k : Int) + 1).toNat = k + 1 := by omega
  rw [e, List.getElem?_cons_succ]
  simp only [Int.toNat_natCast]
  rw [List.getElem?_eq_getElem hk']
  simp only [Option.bind_some, Option.map_some]
  cases points[o.ipoint]? <;> rfl

theorem pcamPoint_neg (rt : List (P3 → P3)) (points : List P3) (o : PointObs) (h0 : o.icame < 0) :
    pcamPoint rt points o = rt.getLast?.bind fun f => points[o.ipoint]?.map f := by
  simp only [pcamPoint, npIndex, if_pos h0]
  rcases rt with _ | ⟨f, rt⟩
  · simp
  · rw [if_pos (by omega)]
    simp only [show (-1 : Int) + 1 = 0 by norm_num, Int.toNat_zero, List.getElem?_cons_zero, Option.bind_some]
    rw [if_neg (by omega), if_pos (by simp), List.getLast?_eq_getElem?]
    congr 2
    simp

/-- The points are what the camera observed, in its own coordinates: all the inlier corners and all the inlier points; those of other cameras aren't there. Missing: points observed by a camera that's at the reference (`reference_wrong`) -/
theorem observed_partial (s : Inputs) (hv : Valid s) (hr : ¬ ∃ o, AtReference s o) :
    ∃ l, observed s = some l ∧ (∀ p, p ∈ l ↔ p ∈ s.corners.getD [] ∨ SeenPoint s p) ∧ l.length = (s.corners.getD []).length + (selected s).length := by
  obtain ⟨points, rt, hp, hrt, hi⟩ := hv
  have h0 : ∀ o ∈ selected s, 0 ≤ o.icame := by
    intro o ho
    rw [mem_selected] at ho
    by_contra hn
    exact hr ⟨o, ho.1, ho.2.1, ho.2.2, by omega⟩
  have hf : ∀ o ∈ selected s, ∃ f q, rt[o.icame.toNat]? = some f ∧ points[o.ipoint]? = some q ∧ pcamPoint rt points o = some (f q) := by
    intro o ho
    have h0 := h0 o ho
    have hi := hi o ((mem_selected s o).1 ho).1
    have hk : o.icame.toNat < rt.length := by omega
    refine ⟨_, _, List.getElem?_eq_getElem hk, List.getElem?_eq_getElem hi.1, ?_⟩
    rw [pcamPoint_nonneg rt points o h0 hi.2, List.getElem?_eq_getElem hk, List.getElem?_eq_getElem hi.1]
    rfl
  obtain ⟨r, hr', hl, hm⟩ := mapM_total (pcamPoint rt points) (selected s) fun o ho => by
    obtain ⟨f, q, _, _, e⟩ := hf o ho
    exact ⟨_, e⟩
  refine ⟨s.corners.getD [] ++ r, ?_, ?_, by rw [List.length_append, hl]⟩
  · simp [observed, hp, hrt, hr']
  · intro p
    rw [List.mem_append, hm]
    refine or_congr Iff.rfl ?_
    constructor
    · rintro ⟨o, ho, e⟩
      obtain ⟨f, q, e1, e2, e3⟩ := hf o ho
      rw [e3] at e
      have hs := (mem_selected s o).1 ho
      exact ⟨points, rt, hp, hrt, o, hs.1, hs.2.1, hs.2.2, f, q, Or.inr ⟨h0 o ho, e1⟩, e2, (Option.some.inj e).symm⟩
    · rintro ⟨points', rt', hp', hrt', o, ho, h1, h2, f, q, hc, hq, rfl⟩
      rw [hp] at hp'; cases hp'
      rw [hrt] at hrt'; cases hrt'
      have hs := (mem_selected s o).2 ⟨ho, h1, h2⟩
      obtain ⟨f', q', e1, e2, e3⟩ := hf o hs
      refine ⟨o, hs, ?_⟩
      rcases hc with ⟨hn, _⟩ | ⟨_, hc⟩
      · have := h0 o hs; omega
      · rw [hc] at e1; cases e1
        rw [hq] at e2; cases e2
        exact e3

/-- without points there are the corners; if these couldn't be computed, for whatever reason, there's nothing -/
theorem observed_corners (s : Inputs) (h : s.points = none) : observed s = some (s.corners.getD []) := by
  simp [observed, h]

/-- The code doesn't do this for a camera that's at the reference of the solve. If there are no other cameras, it fails; this is always so for a monocular solve of points. If there are other cameras, the points
are transformed to the coordinates of the last one -/
theorem reference_wrong (s : Inputs) (o : PointObs) (ho : AtReference s o) (points : List P3) (hp : s.points = some points) :
    ((s.rt = none ∨ s.rt = some []) → observed s = none) ∧
    (∀ rt f q l, s.rt = some rt → rt.getLast? = some f → points[o.ipoint]? = some q → observed s = some l → f q ∈ l) := by
  have hs : o ∈ selected s := (mem_selected s o).2 ⟨ho.1, ho.2.1, ho.2.2.1⟩
  constructor
  · rintro (h | h)
    · simp [observed, hp, h]
    · have := mapM_none (pcamPoint [] points) (selected s) o hs (by rw [pcamPoint_neg [] points o ho.2.2.2]; rfl)
      simp [observed, hp, h, this]
  · intro rt f q l hrt hf hq hl
    simp only [observed, hp, hrt, Option.bind_some] at hl
    obtain ⟨r, hr, rfl⟩ := Option.map_eq_some_iff.1 hl
    have e : pcamPoint rt points o = some (f q) := by rw [pcamPoint_neg rt points o ho.2.2.2, hf, hq]; rfl
    have hall : ∀ a ∈ selected s, ∃ b, pcamPoint rt points a = some b := by
      intro a ha
      rcases hc : pcamPoint rt points a with _ | b
      · rw [mapM_none _ _ a ha hc] at hr; cases hr
      · exact ⟨b, rfl⟩
    obtain ⟨r', hr', _, hm⟩ := mapM_total _ _ hall
    rw [hr] at hr'
    cases hr'
    exact List.mem_append_right _ ((hm _).2 ⟨o, hs, e⟩)

/-! ### the curve -/

theorem minOf_spec (l : List ℝ) (h : l ≠ []) : minOf l ∈ l ∧ ∀ a ∈ l, minOf l ≤ a := by
  have key : ∀ (l : List ℝ) (m : ℝ), (l.foldl min m = m ∨ l.foldl min m ∈ l) ∧ l.foldl min m ≤ m ∧ ∀ a ∈ l, l.foldl min m ≤ a := by
    intro l
    induction l with
    | nil => intro m; simp
    | cons b l ih =>
      intro m
      obtain ⟨h1, h2, h3⟩ := ih (min m b)
      rw [List.foldl_cons]
      refine ⟨?_, le_trans h2 (min_le_left _ _), ?_⟩
      · rcases h1 with h1 | h1
        · rcases min_choice m b with hm | hm
          · left; rw [h1, hm]
          · right; rw [h1, hm]; exact List.mem_cons_self
        · exact Or.inr (List.mem_cons_of_mem _ h1)
      · intro a ha
        rcases List.mem_cons.1 ha with rfl | ha
        · exact le_trans h2 (min_le_right _ _)
        · exact h3 a ha
  rcases l with _ | ⟨b, l⟩
  · exact absurd rfl h
  · obtain ⟨h1, h2, h3⟩ := key (b :: l) b
    refine ⟨?_, h3⟩
    rcases h1 with h1 | h1
    · show (b :: l).foldl min b ∈ _
      rw [h1]; exact List.mem_cons_self
    · exact h1

theorem maxOf_spec (l : List ℝ) (h : l ≠ []) : maxOf l ∈ l ∧ ∀ a ∈ l, a ≤ maxOf l := by
  have key : ∀ (l : List ℝ) (m : ℝ), (l.foldl max m = m ∨ l.foldl max m ∈ l) ∧ m ≤ l.foldl max m ∧ ∀ a ∈ l, a ≤ l.foldl max m := by
    intro l
    induction l with
    | nil => intro m; simp
    | cons b l ih =>
      intro m
      obtain ⟨h1, h2, h3⟩ := ih (max m b)
      rw [List.foldl_cons]
      refine ⟨?_, le_trans (le_max_left _ _) h2, ?_⟩
      · rcases h1 with h1 | h1
        · rcases max_choice m b with hm | hm
          · left; rw [h1, hm]
          · right; rw [h1, hm]; exact List.mem_cons_self
        · exact Or.inr (List.mem_cons_of_mem _ h1)
      · intro a ha
        rcases List.mem_cons.1 ha with rfl | ha
        · exact le_trans (le_max_right _ _) h2
        · exact h3 a ha
  rcases l with _ | ⟨b, l⟩
  · exact absurd rfl h
  · obtain ⟨h1, h2, h3⟩ := key (b :: l) b
    refine ⟨?_, h3⟩
    rcases h1 with h1 | h1
    · show (b :: l).foldl max b ∈ _
      rw [h1]; exact List.mem_cons_self
    · exact h1

/-- the distances are a geometric progression from the smallest to the largest one -/
theorem distances_meaning (dmin dmax : ℝ) (h0 : 0 < dmin) (h1 : 0 < dmax) :
    (∀ i : Nat, distance dmin dmax i = dmin * (dmax / dmin) ^ ((i : ℝ) / 79)) ∧ distance dmin dmax 0 = dmin ∧ distance dmin dmax 79 = dmax := by
  have h10 : (0 : ℝ) < 10 := by norm_num
  have key : ∀ i : Nat, distance dmin dmax i = dmin * (dmax / dmin) ^ ((i : ℝ) / 79) := by
    intro i
    unfold distance
    rw [Real.rpow_add h10, Real.rpow_logb h10 (by norm_num) h0]
    congr 1
    rw [← Real.logb_div h1.ne' h0.ne', show (i : ℝ) * Real.logb 10 (dmax / dmin) / 79 = Real.logb 10 (dmax / dmin) * ((i : ℝ) / 79) by ring, Real.rpow_mul h10.le, Real.rpow_logb h10 (by norm_num) (by positivity)]
  refine ⟨key, ?_, ?_⟩
  · rw [key]; simp
  · rw [key]
    rw [show (((79 : Nat) : ℝ) / 79) = 1 by norm_num, Real.rpow_one]
    field_simp

/-- the smallest distance: given, or 1/5 of the distance to the nearest point -/
def IsMin (p : List P3) (given : Option ℝ) (d : ℝ) : Prop := given = some d ∨ (given = none ∧ (∃ q ∈ p, mag q = 5 * d) ∧ ∀ q ∈ p, 5 * d ≤ mag q)

/-- the largest distance: given, or 10 times the distance to the farthest point -/
def IsMax (p : List P3) (given : Option ℝ) (d : ℝ) : Prop := given = some d ∨ (given = none ∧ (∃ q ∈ p, d = 10 * mag q) ∧ ∀ q ∈ p, 10 * mag q ≤ d)

/-- the ray: through the center of the imager, through the given pixel, or towards the mean of the points. In the last case it's a unit vector -/
def IsRay (env : Env) (p : List P3) (w : Where) (v : P3) : Prop :=
  (w = .name "center" ∧ v = env.unproject ((env.W - 1) / 2) ((env.H - 1) / 2)) ∨
  (∃ x y, w = .pixel x y ∧ v = env.unproject x y) ∨
  (w = .name "centroid" ∧ ∃ k : ℝ, k * p.length * v.x = (p.map P3.x).sum ∧ k * p.length * v.y = (p.map P3.y).sum ∧ k * p.length * v.z = (p.map P3.z).sum ∧ 0 < k ∧ v.x ^ 2 + v.y ^ 2 + v.z ^ 2 = 1)

theorem ray_meaning (env : Env) (p : List P3) (hp : p ≠ []) (w : Where) (v : P3) (h : ray env p w = some v)
    (hm : w = .name "centroid" → ¬ ((p.map P3.x).sum = 0 ∧ (p.map P3.y).sum = 0 ∧ (p.map P3.z).sum = 0)) : IsRay env p w v := by
  cases w with
  | pixel x y => exact Or.inr (Or.inl ⟨x, y, rfl, (Option.some.inj h).symm⟩)
  | name s =>
    simp only [ray] at h
    by_cases h1 : s = "center"
    · rw [if_pos h1] at h
      exact Or.inl ⟨by rw [h1], (Option.some.inj h).symm⟩
    · rw [if_neg h1] at h
      by_cases h2 : s = "centroid"
      · rw [if_pos h2] at h
        have hv := (Option.some.inj h).symm
        right; right
        subst h2
        refine ⟨rfl, mag (mean p), ?_⟩
        have hl : (0 : ℝ) < p.length := by
          have : 0 < p.length := List.length_pos_iff.2 hp
          exact_mod_cast this
        have hsq : 0 < (mean p).x * (mean p).x + (mean p).y * (mean p).y + (mean p).z * (mean p).z := by
          rcases lt_or_eq_of_le (add_nonneg (add_nonneg (mul_self_nonneg (mean p).x) (mul_self_nonneg (mean p).y)) (mul_self_nonneg (mean p).z)) with hlt | heq
          · exact hlt
          · exfalso
            have e1 : (mean p).x = 0 := by nlinarith [mul_self_nonneg (mean p).x, mul_self_nonneg (mean p).y, mul_self_nonneg (mean p).z]
            have e2 : (mean p).y = 0 := by nlinarith [mul_self_nonneg (mean p).x, mul_self_nonneg (mean p).y, mul_self_nonneg (mean p).z]
            have e3 : (mean p).z = 0 := by nlinarith [mul_self_nonneg (mean p).x, mul_self_nonneg (mean p).y, mul_self_nonneg (mean p).z]
            simp only [mean, scale, mul_eq_zero, one_div, inv_eq_zero, hl.ne', false_or] at e1 e2 e3
            exact hm rfl ⟨e1, e2, e3⟩
        have hmag : 0 < mag (mean p) := Real.sqrt_pos.2 hsq
        have hmm : mag (mean p) * mag (mean p) = (mean p).x * (mean p).x + (mean p).y * (mean p).y + (mean p).z * (mean p).z := Real.mul_self_sqrt hsq.le
        have hx : mag (mean p) * v.x = (mean p).x := by rw [hv]; simp only [scale]; field_simp
        have hy : mag (mean p) * v.y = (mean p).y := by rw [hv]; simp only [scale]; field_simp
        have hz : mag (mean p) * v.z = (mean p).z := by rw [hv]; simp only [scale]; field_simp
        have gx : (p.length : ℝ) * (mean p).x = (p.map P3.x).sum := by simp only [mean, scale]; field_simp
        have gy : (p.length : ℝ) * (mean p).y = (p.map P3.y).sum := by simp only [mean, scale]; field_simp
        have gz : (p.length : ℝ) * (mean p).z = (p.map P3.z).sum := by simp only [mean, scale]; field_simp
        refine ⟨by rw [← gx, ← hx]; ring, by rw [← gy, ← hy]; ring, by rw [← gz, ← hz]; ring, hmag, ?_⟩
        rw [← hx, ← hy, ← hz] at hmm
        have : (mag (mean p) * mag (mean p)) * (v.x ^ 2 + v.y ^ 2 + v.z ^ 2 - 1) = 0 := by linear_combination -hmm
        rcases mul_eq_zero.1 this with h | h
        · exact absurd h (mul_pos hmag hmag).ne'
        · linarith
      · rw [if_neg h2] at h; cases h

/-- The curve has 80 points at distances in a geometric progression, from the smallest to the largest distance; each is the uncertainty of the projection of the point at that distance on the ray, with the requested
method, statistic and pixel noise. Missing: the default method (`default_wrong`), the points of a camera at the reference (`reference_wrong`) -/
theorem curve_partial (env : Env) (s : Inputs) (a : Args) (hm : a.method = "mean-pcam" ∨ a.method = "cross-reprojection-rrp-Jfp") (p : List P3) (ho : observed s = some p) (hp : p ≠ [])
    (v : P3) (hv : ray env p a.where' = some v) :
    ∃ curve dmin dmax, vsDistance env s a = some curve ∧ IsMin p a.distanceMin dmin ∧ IsMax p a.distanceMax dmax ∧ curve.length = 80 ∧
      (0 < dmin → 0 < dmax → ∀ i : Nat, i < 80 → ∃ d : ℝ, d = dmin * (dmax / dmin) ^ ((i : ℝ) / 79) ∧ curve[i]? = some (d, env.uncertainty a.method a.isotropic a.pixelUncertainty ⟨d * v.x, d * v.y, d * v.z⟩)) := by
  have hne : p.map mag ≠ [] := by simpa using hp
  refine ⟨(List.range 80).map fun i => (distance (a.distanceMin.getD (minOf (p.map mag) / 5)) (a.distanceMax.getD (maxOf (p.map mag) * 10)) i,
      env.uncertainty a.method a.isotropic a.pixelUncertainty (scale (distance (a.distanceMin.getD (minOf (p.map mag) / 5)) (a.distanceMax.getD (maxOf (p.map mag) * 10)) i) v)),
    a.distanceMin.getD (minOf (p.map mag) / 5), a.distanceMax.getD (maxOf (p.map mag) * 10), ?_, ?_, ?_, by simp, ?_⟩
  · have hk : ¬ a.method ∉ knownMethods := by
      simp only [knownMethods, List.mem_cons, List.not_mem_nil, or_false, not_not]; exact hm
    have hl : ¬ p.length = 0 := fun h => hp (List.eq_nil_of_length_eq_zero h)
    simp [vsDistance, if_neg hk, ho, hv, hp]
  · rcases hd : a.distanceMin with _ | d
    · right
      obtain ⟨h1, h2⟩ := minOf_spec _ hne
      obtain ⟨q, hq, e⟩ := List.mem_map.1 h1
      refine ⟨rfl, ⟨q, hq, by rw [Option.getD_none, e]; ring⟩, fun q hq => ?_⟩
      rw [Option.getD_none]
      have := h2 _ (List.mem_map_of_mem hq)
      linarith
    · exact Or.inl rfl
  · rcases hd : a.distanceMax with _ | d
    · right
      obtain ⟨h1, h2⟩ := maxOf_spec _ hne
      obtain ⟨q, hq, e⟩ := List.mem_map.1 h1
      refine ⟨rfl, ⟨q, hq, by rw [Option.getD_none, e]; ring⟩, fun q hq => ?_⟩
      rw [Option.getD_none]
      have := h2 _ (List.mem_map_of_mem hq)
      linarith
    · exact Or.inl rfl
  · intro h0 h1 i hi
    refine ⟨_, rfl, ?_⟩
    rw [← (distances_meaning _ _ h0 h1).1 i, List.getElem?_map, List.getElem?_range hi]
    rfl

/-- The code refuses its own default method: the example in the documentation is an exception, whatever the model is. So is the tool, unless another method is given -/
theorem default_wrong (env : Env) (s : Inputs) :
    vsDistance env s {} = none ∧ (∀ w u iso dmin dmax, vsDistance env s { where' := w, pixelUncertainty := u, isotropic := iso, distanceMin := dmin, distanceMax := dmax } = none) ∧
    (∀ w u iso, tool env (some s) { vsDistanceAt := w, isotropic := iso, pixelUncertainty := u } = .exception) := by
  have key : ∀ w u iso dmin dmax, vsDistance env s { where' := w, pixelUncertainty := u, isotropic := iso, distanceMin := dmin, distanceMax := dmax } = none := by
    intros
    rw [vsDistance, if_pos]
    simp [knownMethods]
  refine ⟨key _ _ _ _ _, key, ?_⟩
  intro w u iso
  simp [tool, key]

/-- other errors: nothing was observed; a name that isn't known -/
theorem refused (env : Env) (s : Inputs) (a : Args) :
    (observed s = some [] → vsDistance env s a = none) ∧ (∀ n, a.where' = .name n → n ≠ "center" → n ≠ "centroid" → vsDistance env s a = none) := by
  constructor
  · intro h
    simp [vsDistance, h]
  · intro n hw h1 h2
    unfold vsDistance
    split
    · rfl
    · rcases observed s with _ | p
      · rfl
      · simp [ray, hw, h1, h2]

/-- the tool plots this curve, if the noise isn't given. Missing: --observed-pixel-uncertainty, the status (`tool_wrong`) -/
theorem tool_partial (env : Env) (s : Inputs) (o : Options) (h1 : o.distance = none) (h2 : o.observations = false) (h3 : o.method = "mean-pcam" ∨ o.method = "cross-reprojection-rrp-Jfp") (h4 : o.pixelUncertainty = none)
    (l : List (ℝ × ℝ)) :
    tool env (some s) o = .plot l ↔ vsDistance env s { where' := o.vsDistanceAt, pixelUncertainty := o.pixelUncertainty, isotropic := o.isotropic, method := o.method } = some l := by
  have hk : ¬ o.method ∉ ["cross-reprojection-ccp", "mean-pcam", "cross-reprojection-rrp-Jfp"] := by
    rcases h3 with h | h <;> simp [h]
  simp only [tool, if_neg hk, h1, h2, h4]
  rcases vsDistance env s { where' := o.vsDistanceAt, isotropic := o.isotropic, method := o.method } with _ | l' <;> simp

/-- the tool refuses options that don't apply -/
theorem tool_refused (env : Env) (m : Option Inputs) (o : Options) (h : o.method ∈ ["cross-reprojection-ccp", "mean-pcam", "cross-reprojection-rrp-Jfp"]) :
    (o.distance ≠ none ∨ o.observations = true → tool env m o = .exit 1) := by
  intro hh
  simp only [tool, if_neg (not_not.2 h)]
  rw [if_pos]
  rcases hh with hh | hh
  · simp [Option.isSome_iff_ne_none, hh]
  · simp [hh]

/-- with --vs-distance-at the tool ignores --observed-pixel-uncertainty; if the model has no optimization_inputs this is reported as an error, but the status is 0 -/
theorem tool_wrong (env : Env) (m : Option Inputs) (o : Options) (u : ℝ) :
    tool env m { o with pixelUncertainty := some u } = tool env m { o with pixelUncertainty := none } ∧
    (o.distance = none → o.observations = false → o.method = "mean-pcam" → tool env none o = .exit 0) := by
  refine ⟨rfl, ?_⟩
  intro h1 h2 h3
  simp [tool, h1, h2, h3]

/-! ### contours -/

theorem closer (b x m n : ℝ) (hb : 0 < b) (hmn : n < m) : abs (m * b - x) < abs (n * b - x) ↔ (n + m) * b < 2 * x := by
  rw [← sq_lt_sq]
  have : (m * b - x) ^ 2 - (n * b - x) ^ 2 = (m - n) * b * ((n + m) * b - 2 * x) := by ring
  have hp : 0 < (m - n) * b := mul_pos (by linarith) hb
  constructor
  · intro h
    by_contra hn
    have := mul_nonneg hp.le (by linarith : 0 ≤ (n + m) * b - 2 * x)
    linarith
  · intro h
    have := mul_neg_of_pos_of_neg hp (by linarith : (n + m) * b - 2 * x < 0)
    linarith

theorem best_spec (b x : ℝ) (hb : 0 < b) (h1 : b ≤ x) (h2 : x < 10 * b) :
    (bestMultiple b x = 1 ∨ bestMultiple b x = 2 ∨ bestMultiple b x = 5 ∨ bestMultiple b x = 10) ∧ 7 / 10 * (bestMultiple b x * b) ≤ x ∧ x ≤ 7 / 4 * (bestMultiple b x * b) := by
  have key : ∀ m : ℝ, bestMultiple b x = m → (m = 1 ∨ m = 2 ∨ m = 5 ∨ m = 10) ∧ 7 / 10 * (m * b) ≤ x ∧ x ≤ 7 / 4 * (m * b) := by
    intro m hm
    unfold bestMultiple at hm
    simp only [List.foldl_cons, List.foldl_nil] at hm
    rw [if_congr (closer b x 2 1 hb (by norm_num)) rfl rfl] at hm
    by_cases c1 : (1 + 2) * b < 2 * x
    · rw [if_pos c1, if_congr (closer b x 5 2 hb (by norm_num)) rfl rfl] at hm
      by_cases c2 : (2 + 5) * b < 2 * x
      · rw [if_pos c2, if_congr (closer b x 10 5 hb (by norm_num)) rfl rfl] at hm
        by_cases c3 : (5 + 10) * b < 2 * x
        · rw [if_pos c3] at hm
          subst hm
          exact ⟨by norm_num, by linarith, by linarith⟩
        · rw [if_neg c3] at hm
          subst hm
          exact ⟨by norm_num, by linarith, by linarith⟩
      · rw [if_neg c2, if_congr (closer b x 10 2 hb (by norm_num)) rfl rfl, if_neg (by linarith)] at hm
        subst hm
        exact ⟨by norm_num, by linarith, by linarith⟩
    · rw [if_neg c1, if_congr (closer b x 5 1 hb (by norm_num)) rfl rfl, if_neg (by linarith : ¬ (1 + 5) * b < 2 * x), if_congr (closer b x 10 1 hb (by norm_num)) rfl rfl, if_neg (by linarith : ¬ (1 + 10) * b < 2 * x)] at hm
      subst hm
      exact ⟨by norm_num, by linarith, by linarith⟩
  exact key _ rfl

/-- The distance between contours that's chosen is 1, 2 or 5 times a power of 10, and there are between 7 and 17.5 intervals in the range. It's negative: the contours go down from the maximum. If it's given, it's used as it is -/
theorem contours (cmin cmax : ℝ) (h : cmin < cmax) :
    (∃ (k : ℤ) (m : ℝ), (m = 1 ∨ m = 2 ∨ m = 5) ∧ contourIncrement none cmin cmax = -(m * 10 ^ k)) ∧ 7 * -contourIncrement none cmin cmax ≤ cmax - cmin ∧ cmax - cmin ≤ 35 / 2 * -contourIncrement none cmin cmax ∧
    ∀ c, contourIncrement (some c) cmin cmax = c := by
  set x := (cmax - cmin) / 10 with hx
  have hx0 : 0 < x := by rw [hx]; linarith
  set k : ℤ := ⌊Real.logb 10 x⌋ with hk
  have hb : (0 : ℝ) < 10 ^ k := by positivity
  have h10 : (1 : ℝ) < 10 := by norm_num
  have e : (10 : ℝ) ^ Real.logb 10 x = x := Real.rpow_logb (by norm_num) (by norm_num) hx0
  have l1 : (10 : ℝ) ^ k ≤ x := by
    rw [← Real.rpow_intCast]
    calc (10 : ℝ) ^ (k : ℝ) ≤ 10 ^ Real.logb 10 x := Real.rpow_le_rpow_of_exponent_le h10.le (Int.floor_le _)
      _ = x := e
  have l2 : x < 10 * 10 ^ k := by
    rw [← Real.rpow_intCast]
    calc x = (10 : ℝ) ^ Real.logb 10 x := e.symm
      _ < 10 ^ ((k : ℝ) + 1) := Real.rpow_lt_rpow_of_exponent_lt h10 (Int.lt_floor_add_one _)
      _ = 10 * 10 ^ (k : ℝ) := by rw [Real.rpow_add (by norm_num), Real.rpow_one, mul_comm]
  obtain ⟨hm, b1, b2⟩ := best_spec _ x hb l1 l2
  have hc : contourIncrement none cmin cmax = -(bestMultiple (10 ^ k) x * 10 ^ k) := by
    simp only [contourIncrement, ← hx, ← hk]; ring
  refine ⟨?_, ?_, ?_, fun c => rfl⟩
  · rcases hm with h | h | h | h
    · exact ⟨k, 1, Or.inl rfl, by rw [hc, h]⟩
    · exact ⟨k, 2, Or.inr (Or.inl rfl), by rw [hc, h]⟩
    · exact ⟨k, 5, Or.inr (Or.inr rfl), by rw [hc, h]⟩
    · exact ⟨k + 1, 1, Or.inl rfl, by rw [hc, h, zpow_add₀ (by norm_num), zpow_one]; ring⟩
  · rw [hc]; linarith
  · rw [hc]; linarith

/-! ### the hypotheses can be met -/

/-- a camera that sees two corners, and one of two points; its pose is a translation. Another camera sees the other point -/
noncomputable def s1 : Inputs where
  icam := 0
  corners := some [⟨0, 0, 1⟩, ⟨0, 0, 3⟩]
  points := some [⟨0, 0, 5⟩, ⟨1, 1, 1⟩]
  obs := [⟨0, 0, 0, 1⟩, ⟨1, 1, -1, 1⟩, ⟨1, 0, 0, -1⟩]
  rt := some [fun p => ⟨p.x, p.y, p.z + 1⟩]

def env1 : Env := ⟨640, 480, fun _ _ => ⟨0, 0, 1⟩, fun _ _ _ p => p.z⟩

theorem s1_valid : Valid s1 := ⟨_, _, rfl, rfl, by simp [s1]⟩
theorem s1_noref : ¬ ∃ o, AtReference s1 o := by
  rintro ⟨o, ho, h1, h2, h3⟩
  simp only [s1, List.mem_cons, List.not_mem_nil, or_false] at ho
  rcases ho with rfl | rfl | rfl
  · simp at h3
  · simp [s1] at h1
  · simp at h3

theorem s1_observed : observed s1 = some [⟨0, 0, 1⟩, ⟨0, 0, 3⟩, ⟨0, 0, 6⟩] := by
  have : selected s1 = [⟨0, 0, 0, 1⟩] := by simp [selected, s1, List.filter_cons]
  simp only [observed, this]
  simp [s1, pcamPoint, npIndex]
  norm_num

/-- observed_partial -/
example : ∃ l, observed s1 = some l ∧ ⟨0, 0, 6⟩ ∈ l ∧ l.length = 3 := ⟨_, s1_observed, by simp, rfl⟩
example : Valid s1 ∧ (¬ ∃ o, AtReference s1 o) ∧ SeenPoint s1 ⟨0, 0, 6⟩ :=
  ⟨s1_valid, s1_noref, _, _, rfl, rfl, ⟨0, 0, 0, 1⟩, by simp [s1], rfl, by norm_num, _, _, Or.inr ⟨by norm_num, rfl⟩, rfl, by norm_num⟩

/-- the same, but this is the other camera: it's at the reference -/
noncomputable def s2 : Inputs := { s1 with icam := 1 }

/-- reference_wrong: the point (1,1,1) in the coordinates of this camera should be that; it's moved -/
example : ∃ l, observed s2 = some l ∧ (⟨1, 1, 2⟩ : P3) ∈ l ∧ (⟨1, 1, 1⟩ : P3) ∉ l ∧ SeenPoint s2 ⟨1, 1, 1⟩ := by
  have hsel : selected s2 = [⟨1, 1, -1, 1⟩] := by simp [selected, s2, s1, List.filter_cons]
  have ho : observed s2 = some [⟨0, 0, 1⟩, ⟨0, 0, 3⟩, ⟨1, 1, 2⟩] := by
    simp only [observed, hsel]
    simp [s2, s1, pcamPoint, npIndex]
    norm_num
  refine ⟨_, ho, by simp, by simp, _, _, rfl, rfl, ⟨1, 1, -1, 1⟩, by simp [s2, s1], rfl, by norm_num, id, _, Or.inl ⟨by norm_num, rfl⟩, rfl, rfl⟩

/-- reference_wrong: a monocular solve -/
example : observed { s2 with rt := some [] } = none :=
  (reference_wrong { s2 with rt := some [] } ⟨1, 1, -1, 1⟩ ⟨by simp [s2, s1], rfl, by norm_num, by norm_num⟩ _ rfl).1 (Or.inr rfl)

/-- curve_partial: from 1/5 to 60 -/
example : ∃ curve, vsDistance env1 s1 { method := "mean-pcam" } = some curve ∧ curve.length = 80 := by
  obtain ⟨c, _, _, h, _, _, l, _⟩ := curve_partial env1 s1 { method := "mean-pcam" } (Or.inl rfl) _ s1_observed (by simp) _ (by simp [ray]; rfl)
  exact ⟨c, h, l⟩

/-- ray_meaning: the mean isn't 0 -/
example : ¬ ((([⟨0, 0, 1⟩, ⟨0, 0, 3⟩, ⟨0, 0, 6⟩] : List P3).map P3.x).sum = 0 ∧ (([⟨0, 0, 1⟩, ⟨0, 0, 3⟩, ⟨0, 0, 6⟩] : List P3).map P3.y).sum = 0 ∧ (([⟨0, 0, 1⟩, ⟨0, 0, 3⟩, ⟨0, 0, 6⟩] : List P3).map P3.z).sum = 0) := by
  norm_num

/-- tool_partial, tool_wrong -/
example : ∃ o : Options, o.distance = none ∧ o.observations = false ∧ o.method = "mean-pcam" ∧ o.pixelUncertainty = none := ⟨{ vsDistanceAt := .name "center", method := "mean-pcam" }, rfl, rfl, rfl, rfl⟩

/-- contours: the range of the uncertainty plots is [0,3]; of the diff plots [0,4] -/
example : (0 : ℝ) < 3 := by norm_num

end Mrcal.VsDistance
