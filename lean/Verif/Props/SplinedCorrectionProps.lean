import Verif.Model.SplinedCorrection
import Verif.Props.SplineProjectProps
import Verif.Props.PolylineProps
import Verif.Props.OffPinholeProps
/-
C130: the plot of the correction of a splined model.
-/
namespace Mrcal.SplinedCorrection
open Mrcal Mrcal.Cam Mrcal.Spline Mrcal.Polyline

/-- spec: the two values of the spline at `u`: what's added to the stereographic projection -/
noncomputable def correction (c : Camera) (u : P2) : P2 :=
  ⟨(surf c.order c.Nx c.Ny c.intr 0 (gridCoord c.Nx c.segs u.x) (gridCoord c.Ny c.segs u.y)).out,
   (surf c.order c.Nx c.Ny c.intr 1 (gridCoord c.Nx c.segs u.x) (gridCoord c.Ny c.segs u.y)).out⟩

theorem toU_stereoU (v : P3) : toU v = stereoU v := by
  simp [toU, stereographic, stereoU, stereoScale]

theorem toU_fromU (u : P2) : toU (fromU u) = u := by
  have hm : Real.sqrt (u.x * u.x + u.y * u.y + (1 - 1 / 4 * (u.x * u.x + u.y * u.y)) * (1 - 1 / 4 * (u.x * u.x + u.y * u.y))) = 1 + 1 / 4 * (u.x * u.x + u.y * u.y) := by
    rw [show u.x * u.x + u.y * u.y + (1 - 1 / 4 * (u.x * u.x + u.y * u.y)) * (1 - 1 / 4 * (u.x * u.x + u.y * u.y)) = (1 + 1 / 4 * (u.x * u.x + u.y * u.y)) ^ 2 by ring]
    exact Real.sqrt_sq (by nlinarith [mul_self_nonneg u.x, mul_self_nonneg u.y])
  rw [toU_stereoU]
  simp only [fromU, unstereographic, stereoU, stereoScale, sub_zero, div_one, mul_one]
  rw [hm]
  have : (2.0 : ℝ) / (1 + 1 / 4 * (u.x * u.x + u.y * u.y) + (1 - 1 / 4 * (u.x * u.x + u.y * u.y))) = 1 := by
    rw [show 1 + 1 / 4 * (u.x * u.x + u.y * u.y) + (1 - 1 / 4 * (u.x * u.x + u.y * u.y)) = 2 by ring]; norm_num
  rw [this]; simp

theorem project_eq (c : Camera) (hA : Accepted c.order c.Nx c.Ny) (v : P3) :
    project c v = some ⟨((toU v).x + (correction c (toU v)).x) * c.intr 0 + c.intr 2, ((toU v).y + (correction c (toU v)).y) * c.intr 1 + c.intr 3⟩ := by
  rw [toU_stereoU]
  unfold project projectSplined
  simp only [sampleSurface_some _ _ _ _ _ hA, Option.map_some, correction]

/-- C130: what's called the correction is the spline: for all points, whatever is projected -/
theorem deltau_meaning (c : Camera) (hA : Accepted c.order c.Nx c.Ny) (hx : c.intr 0 ≠ 0) (hy : c.intr 1 ≠ 0) (v : P3) (q : P2) (h : project c v = some q) :
    deltau c (q, toU v) = correction c (toU v) := by
  rw [project_eq c hA] at h
  simp only [Option.some.injEq] at h
  subst h
  ext <;> simp [deltau] <;> field_simp <;> ring

theorem plot_parts (c : Camera) (a : Args) (P : Plot) (h : plot c a = some P) :
    ∃ gh, ModelDiff.gridHeight a.gw a.gh c.W c.H = some gh ∧ boundary c a = some P.boundary ∧ contour c a = some P.contour ∧ knots c a = some P.knots ∧
      P.marks = ((List.range gh).flatMap fun i => (List.range a.gw).map fun j => mark c a gh i j) ∧ P.invalid = invalid c P.boundary P.contour ∧ P.warning = decide (0 < P.invalid.length) ∧
      c.splined = true ∧ (a.vectorfield = true → a.xy = none) ∧ (a.xy = none ∨ a.xy = some "x" ∨ a.xy = some "y") := by
  unfold plot at h
  by_cases h1 : (a.xy.isSome && a.vectorfield) = true
  · rw [if_pos h1] at h; cases h
  rw [if_neg h1] at h
  by_cases h2 : (!(a.xy = none || a.xy = some "x" || a.xy = some "y")) = true
  · rw [if_pos h2] at h; cases h
  rw [if_neg h2] at h
  by_cases h3 : (!c.splined) = true
  · rw [if_pos h3] at h; cases h
  rw [if_neg h3] at h
  obtain ⟨gh, e1, h⟩ := Option.bind_eq_some_iff.1 h
  obtain ⟨b, e2, h⟩ := Option.bind_eq_some_iff.1 h
  obtain ⟨d, e3, h⟩ := Option.bind_eq_some_iff.1 h
  obtain ⟨k, e4, h⟩ := Option.bind_eq_some_iff.1 h
  simp only [Option.some.injEq] at h
  subst h
  refine ⟨gh, e1, e2, e3, e4, rfl, rfl, rfl, by simpa using h3, ?_, ?_⟩
  · intro hv
    simp only [hv, Bool.and_true] at h1
    cases hxy : a.xy <;> simp_all
  · by_contra hcon
    push Not at hcon
    simp [hcon.1, hcon.2.1, hcon.2.2] at h2

/-- spec: the point of a grid from `lo` to `hi` -/
noncomputable def spread (lo hi : ℝ) (n i : Nat) : ℝ := lo + i / (n - 1) * (hi - lo)

theorem linspace_spread (lo hi : ℝ) (n i : Nat) (h : 2 ≤ n) : Project.linspace lo hi n i = spread lo hi n i := by
  unfold Project.linspace spread
  rw [if_neg (show ¬ n ≤ 1 by omega)]; ring

/-- spec: the quantity that was asked for -/
noncomputable def asked (xy : Option String) (d : P2) : ℝ := if xy = some "x" then d.x else if xy = some "y" then d.y else Real.sqrt (d.x ^ 2 + d.y ^ 2)

theorem value_asked (a : Args) (h : a.xy = none ∨ a.xy = some "x" ∨ a.xy = some "y") (d : P2) : value a d = asked a.xy d := by
  unfold value asked
  rcases h with h | h | h <;> simp [h, pow_two]

/-- C130: the surface, in the domain of the spline. The cells cover the rectangle from the first knot to the last, evenly; each is drawn where its u is, and its value is that of the spline there: the x correction, the y
correction, or the magnitude, as asked for -/
theorem surface_meaning (c : Camera) (a : Args) (P : Plot) (h : plot c a = some P) (hA : Accepted c.order c.Nx c.Ny) (hx : c.intr 0 ≠ 0) (hy : c.intr 1 ≠ 0)
    (hv : a.vectorfield = false) (hd : a.imagerDomain = false) (gh : Nat) (hg : a.gh = some gh) (hw : 2 ≤ a.gw) (hh : 2 ≤ gh) (i j : Nat) (hi : i < gh) (hj : j < a.gw) :
    ∃ u : P2, u = ⟨spread (knot c.Nx c.segs 0) (knot c.Nx c.segs (c.Nx - 1)) a.gw j, spread (knot c.Ny c.segs 0) (knot c.Ny c.segs (c.Ny - 1)) gh i⟩ ∧
      P.marks[i * a.gw + j]? = some (.cell (some u) (some (asked a.xy (correction c u)))) := by
  obtain ⟨gh', e1, _, _, _, e5, _, _, _, _, exy⟩ := plot_parts c a P h
  have : gh' = gh := by simpa [hg, ModelDiff.gridHeight] using e1.symm
  subst this
  refine ⟨_, rfl, ?_⟩
  rw [e5, OffPinhole.flat_get _ _ _ i j hi hj]
  unfold mark
  rw [if_neg (by simp [hv])]
  unfold place gridQU
  rw [if_neg (show ¬ (a.gw = 1 ∨ gh' = 1) by omega), if_neg (by simp [hd]), if_neg (by simp [hd])]
  dsimp only
  rw [project_eq c hA]
  simp only [Option.map_some, linspace_spread _ _ _ _ hw, linspace_spread _ _ _ _ hh]
  generalize hu : (⟨spread (knot c.Nx c.segs 0) (knot c.Nx c.segs (c.Nx - 1)) a.gw j, spread (knot c.Ny c.segs 0) (knot c.Ny c.segs (c.Ny - 1)) gh' i⟩ : P2) = u
  have hdu := deltau_meaning c hA hx hy (fromU u) _ (project_eq c hA (fromU u))
  rw [toU_fromU] at hdu ⊢
  rw [hdu, value_asked a exy, ← hu]
  rfl

/-- C130: the surface, in the imager. The cells cover the imager from corner to corner; each is drawn at its pixel q. If q can be unprojected (to a vector that's projected to q), its value is that of the spline at that vector; otherwise there is none -/
theorem surface_imager (c : Camera) (a : Args) (P : Plot) (h : plot c a = some P) (hA : Accepted c.order c.Nx c.Ny) (hx : c.intr 0 ≠ 0) (hy : c.intr 1 ≠ 0)
    (hu : ∀ q v, c.unproject q = some v → project c v = some q)
    (hv : a.vectorfield = false) (hd : a.imagerDomain = true) (gh : Nat) (hg : a.gh = some gh) (hw : 2 ≤ a.gw) (hh : 2 ≤ gh) (i j : Nat) (hi : i < gh) (hj : j < a.gw) :
    ∃ q : P2, q = ⟨spread 0 (c.W - 1) a.gw j, spread 0 (c.H - 1) gh i⟩ ∧
      P.marks[i * a.gw + j]? = some (.cell (some q) ((c.unproject q).map fun v => asked a.xy (correction c (stereoU v)))) := by
  obtain ⟨gh', e1, _, _, _, e5, _, _, _, _, exy⟩ := plot_parts c a P h
  have : gh' = gh := by simpa [hg, ModelDiff.gridHeight] using e1.symm
  subst this
  refine ⟨_, rfl, ?_⟩
  rw [e5, OffPinhole.flat_get _ _ _ i j hi hj]
  unfold mark
  rw [if_neg (by simp [hv])]
  unfold place gridQU
  rw [if_neg (show ¬ (a.gw = 1 ∨ gh' = 1) by omega), if_pos hd, if_pos hd]
  simp only [linspace_spread _ _ _ _ hw, linspace_spread _ _ _ _ hh]
  have hp : (⟨(j : ℝ) / (a.gw - 1) * (c.W - 1), (i : ℝ) / (gh' - 1) * (c.H - 1)⟩ : P2) = ⟨spread 0 (c.W - 1) a.gw j, spread 0 (c.H - 1) gh' i⟩ := by simp [spread]
  rw [hp]
  congr 2
  cases hun : c.unproject ⟨spread 0 (c.W - 1) a.gw j, spread 0 (c.H - 1) gh' i⟩ with
  | none => rfl
  | some v =>
    simp only [Option.map_some]
    rw [deltau_meaning c hA hx hy v _ (hu _ _ hun), value_asked a exy, toU_stereoU]

/-- C130: the vectors in the domain of the spline: from u, and the correction at u, scaled -/
theorem vectors_meaning (c : Camera) (a : Args) (P : Plot) (h : plot c a = some P) (hA : Accepted c.order c.Nx c.Ny) (hx : c.intr 0 ≠ 0) (hy : c.intr 1 ≠ 0)
    (hv : a.vectorfield = true) (hd : a.imagerDomain = false) (gh : Nat) (hg : a.gh = some gh) (hw : 2 ≤ a.gw) (hh : 2 ≤ gh) (i j : Nat) (hi : i < gh) (hj : j < a.gw) :
    ∃ u : P2, u = ⟨spread (knot c.Nx c.segs 0) (knot c.Nx c.segs (c.Nx - 1)) a.gw j, spread (knot c.Ny c.segs 0) (knot c.Ny c.segs (c.Ny - 1)) gh i⟩ ∧
      P.marks[i * a.gw + j]? = some (.arrow (some (u, ⟨a.vectorscale * (correction c u).x, a.vectorscale * (correction c u).y⟩))) := by
  obtain ⟨gh', e1, _, _, _, e5, _, _, _, _, exy⟩ := plot_parts c a P h
  have : gh' = gh := by simpa [hg, ModelDiff.gridHeight] using e1.symm
  subst this
  refine ⟨_, rfl, ?_⟩
  rw [e5, OffPinhole.flat_get _ _ _ i j hi hj]
  unfold mark
  rw [if_pos hv]
  unfold gridQU
  rw [if_neg (by simp [hd])]
  dsimp only
  rw [project_eq c hA]
  simp only [Option.map_some, linspace_spread _ _ _ _ hw, linspace_spread _ _ _ _ hh]
  generalize hu : (⟨spread (knot c.Nx c.segs 0) (knot c.Nx c.segs (c.Nx - 1)) a.gw j, spread (knot c.Ny c.segs 0) (knot c.Ny c.segs (c.Ny - 1)) gh' i⟩ : P2) = u
  have hdu := deltau_meaning c hA hx hy (fromU u) _ (project_eq c hA (fromU u))
  rw [toU_fromU] at hdu ⊢
  unfold vector
  rw [if_neg (by simp [hd]), hdu]

/-- C130: the vectors in the imager: from the pixel q, and by how much the spline moved the projection to get to q, scaled: at scale 1, q less the vector is where the stereographic projection with the core of the model
projects what the model projects to q -/
theorem vectors_imager (c : Camera) (a : Args) (P : Plot) (h : plot c a = some P) (hx : c.intr 0 ≠ 0) (hy : c.intr 1 ≠ 0)
    (hv : a.vectorfield = true) (hd : a.imagerDomain = true) (gh : Nat) (hg : a.gh = some gh) (hw : 2 ≤ a.gw) (hh : 2 ≤ gh) (i j : Nat) (hi : i < gh) (hj : j < a.gw) :
    ∃ q : P2, q = ⟨spread 0 (c.W - 1) a.gw j, spread 0 (c.H - 1) gh i⟩ ∧
      P.marks[i * a.gw + j]? = some (.arrow ((c.unproject q).map fun v =>
        (q, ⟨a.vectorscale * (q.x - (stereographic ⟨c.intr 0, c.intr 1, c.intr 2, c.intr 3⟩ v).q.x), a.vectorscale * (q.y - (stereographic ⟨c.intr 0, c.intr 1, c.intr 2, c.intr 3⟩ v).q.y)⟩))) := by
  obtain ⟨gh', e1, _, _, _, e5, _, _, _, _, exy⟩ := plot_parts c a P h
  have : gh' = gh := by simpa [hg, ModelDiff.gridHeight] using e1.symm
  subst this
  refine ⟨_, rfl, ?_⟩
  rw [e5, OffPinhole.flat_get _ _ _ i j hi hj]
  unfold mark
  rw [if_pos hv]
  unfold gridQU
  rw [if_pos hd]
  simp only [linspace_spread _ _ _ _ hw, linspace_spread _ _ _ _ hh, Option.map_map]
  congr 3
  funext v
  simp only [Function.comp, vector, if_pos hd, deltau, toU, stereographic]
  generalize (2.0 : ℝ) / (Real.sqrt (v.x * v.x + v.y * v.y + v.z * v.z) + v.z) = k
  have g : ∀ s f q p o : ℝ, f ≠ 0 → s * f * ((q - o) / f - (p * k * 1 + 0)) = s * (q - (p * k * f + o)) := by
    intro s f q p o hf
    field_simp; ring
  rw [g _ _ _ _ _ hx, g _ _ _ _ _ hy]

/-! ### the boundaries -/

/-- C130: the contour and the knots, in the domain of the spline: all the knots, and the boundary of where the spline interpolates (with order 2: if there are at least 4 columns of knots, see domain_quad_wrong in C112) -/
theorem contour_partial (c : Camera) (a : Args) (P : Plot) (h : plot c a = some P) (hA : Accepted c.order c.Nx c.Ny) (hs : 0 < c.segs) (hd : a.imagerDomain = false) (hN : 4 ≤ c.Nx) :
    (∀ q, On P.contour q ↔ Boundary (InDomain c.order c.Nx c.Ny c.segs) q) ∧
    P.knots.length = c.Nx * c.Ny ∧ ∀ q : P2, q ∈ P.knots ↔ ∃ i j : Nat, i < c.Ny ∧ j < c.Nx ∧ q = ⟨knot c.Nx c.segs j, knot c.Ny c.segs i⟩ := by
  obtain ⟨gh', e1, _, e3, e4, _⟩ := plot_parts c a P h
  unfold contour at e3
  unfold knots at e4
  simp only [hd, Bool.false_eq_true, if_false, Option.some.injEq] at e3 e4
  refine ⟨?_, ?_, ?_⟩
  · rcases hA with ⟨ho, h1, h2⟩ | ⟨ho, h1, h2⟩
    · obtain ⟨d, hd1, _, _, hd2⟩ := domain_quad_partial c.Nx c.Ny hN h2 c.segs hs
      rw [ho] at e3 ⊢
      have : P.contour = d := by rw [hd1, Option.bind_some] at e3; simpa using e3.symm
      rw [this]; exact hd2
    · obtain ⟨d, hd1, _, _, hd2⟩ := domain_cubic c.Nx c.Ny h1 h2 c.segs hs
      rw [ho] at e3 ⊢
      have : P.contour = d := by rw [hd1, Option.bind_some] at e3; simpa using e3.symm
      rw [this]; exact hd2
  · rw [← e4, OffPinhole.flat_length (fun i j => (⟨knot c.Nx c.segs j, knot c.Ny c.segs i⟩ : P2))]; ring
  · intro q
    rw [← e4]
    simp only [List.mem_flatMap, List.mem_map, List.mem_range]
    constructor
    · rintro ⟨i, hi, j, hj, rfl⟩; exact ⟨i, j, hi, hj, rfl⟩
    · rintro ⟨i, j, hi, hj, rfl⟩; exact ⟨i, hi, j, hj, rfl⟩

/-- C130: the boundary. It's the valid-intrinsics region, or the outline of the imager: in the imager as it is; in the domain of the spline resampled so that no step is longer than 50 pixels (to 1e-6), and each pixel
converted. (Unless vertices of the region are within 50e-6 pixels of each other) -/
theorem boundary_partial (c : Camera) (a : Args) (P : Plot) (h : plot c a = some P) :
    ∃ s : List P2, (a.validRegion = true → c.region = some s) ∧ (a.validRegion = false → s = [⟨0, 0⟩, ⟨c.W - 1, 0⟩, ⟨c.W - 1, c.H - 1⟩, ⟨0, c.H - 1⟩, ⟨0, 0⟩]) ∧
      (a.imagerDomain = true → P.boundary = s.map some) ∧
      (a.imagerDomain = false → 2 ≤ s.length → Coarse 50 s → ∃ r, Refines 50 s r ∧ P.boundary = r.map fun q => (c.unproject q).map stereoU) := by
  obtain ⟨_, _, e2, _⟩ := plot_parts c a P h
  unfold boundary at e2
  obtain ⟨s, hs, e2⟩ := Option.bind_eq_some_iff.1 e2
  refine ⟨s, ?_, ?_, ?_, ?_⟩
  · intro hr; simpa [sparse, hr] using hs
  · intro hr; simp only [sparse, hr, Bool.false_eq_true, if_false, Option.some.injEq] at hs; exact hs.symm
  · intro hd
    rw [if_pos hd] at e2
    simpa using e2.symm
  · intro hd hl hc
    rw [if_neg (by simp [hd])] at e2
    match s, hl, hc with
    | p :: q :: l, _, hc =>
      obtain ⟨r, hr, hr2⟩ := densify_partial 50 (by norm_num) p q l hc
      rw [hr] at e2
      simp only [Option.some.injEq] at e2
      refine ⟨r, hr2, ?_⟩
      rw [← e2]
      simp only [show toU = stereoU from funext toU_stereoU]

/-- C130: the warning is given if and only if some region is shown as not covered. If polygon_difference() works, and says that nothing is left only if nothing is, then no warning means that what's inside the boundary is inside the contour -/
theorem warning_partial (c : Camera) (a : Args) (P : Plot) (h : plot c a = some P) (Inside : List P2 → P2 → Prop)
    (hp : ∀ pos neg l, c.polygonDifference pos neg = some l → (l = [] ↔ ∀ q, Inside pos q → Inside neg q)) :
    (P.warning = true ↔ P.invalid ≠ []) ∧
    (c.polygonDifference (P.boundary.filterMap id) P.contour ≠ none → (P.warning = false ↔ ∀ q, Inside (P.boundary.filterMap id) q → Inside P.contour q)) := by
  obtain ⟨_, _, _, _, _, _, e6, e7, _⟩ := plot_parts c a P h
  have hw : P.warning = true ↔ P.invalid ≠ [] := by
    rw [e7, decide_eq_true_eq, List.length_pos_iff]
  refine ⟨hw, fun hn => ?_⟩
  obtain ⟨l, hl⟩ := Option.ne_none_iff_exists'.1 hn
  rw [← hp _ _ l hl]
  have : P.invalid = l := by rw [e6, invalid, hl]; rfl
  rw [← this]
  cases hb : P.warning
  · simp only [true_iff]
    by_contra hne
    have := hw.2 hne
    rw [hb] at this; cases this
  · have := hw.1 hb
    simp [this]

/-- C130: what's refused -/
theorem refused (c : Camera) (a : Args)
    (h : (a.xy ≠ none ∧ a.vectorfield = true) ∨ (∃ s, a.xy = some s ∧ s ≠ "x" ∧ s ≠ "y") ∨ c.splined = false ∨ (a.validRegion = true ∧ c.region = none)) : plot c a = none := by
  by_contra hne
  obtain ⟨P, hP⟩ := Option.ne_none_iff_exists'.1 hne
  obtain ⟨_, _, e2, _, _, _, _, _, es, ev, exy⟩ := plot_parts c a P hP
  rcases h with ⟨h1, h2⟩ | ⟨s, h1, h2, h3⟩ | h | ⟨h1, h2⟩
  · exact h1 (ev h2)
  · rw [h1] at exy; simp [h2, h3] at exy
  · rw [h] at es; cases es
  · simp [boundary, sparse, h1, h2] at e2

/-- C130, negation: the title is meant to say which of the two surfaces is shown. It doesn't: it's the same for both, and has the text {xy} -/
theorem title_wrong (name : String) (extra : Option String) : title name none extra (some "x") = title name none extra (some "y") ∧
    title name none none (some "x") = "Correction for " ++ name ++ ". Looking at deltau{xy}" := ⟨rfl, rfl⟩

theorem mapM_total {α β : Type} (f : α → Option β) (h : ∀ x, ∃ y, f x = some y) (l : List α) : ∃ r, l.mapM f = some r := by
  induction l with
  | nil => exact ⟨[], rfl⟩
  | cons x l ih =>
    obtain ⟨y, hy⟩ := h x
    obtain ⟨r, hr⟩ := ih
    exact ⟨y :: r, by simp [List.mapM_cons, hy, hr]⟩

/-- C130: what isn't refused. Accepted models and arguments are plotted, if the boundary (outside of the imager domain) has at least two vertices, none too close to the next -/
theorem plotted (c : Camera) (a : Args) (hA : Accepted c.order c.Nx c.Ny) (hc : c.splined = true) (hv : a.vectorfield = true → a.xy = none) (hxy : a.xy = none ∨ a.xy = some "x" ∨ a.xy = some "y")
    (hg : a.gh ≠ none ∨ c.W ≠ 0) (s : List P2) (hs : sparse c a = some s) (hb : a.imagerDomain = true ∨ (2 ≤ s.length ∧ Coarse 50 s)) : ∃ P, plot c a = some P := by
  have hproj : ∀ u : P2, ∃ q, project c (fromU u) = some q := fun u => ⟨_, project_eq c hA _⟩
  obtain ⟨gh, e1⟩ : ∃ gh, ModelDiff.gridHeight a.gw a.gh c.W c.H = some gh := by
    unfold ModelDiff.gridHeight
    cases hh : a.gh with
    | some n => exact ⟨n, rfl⟩
    | none => simp [hh] at hg; exact ⟨_, if_neg hg⟩
  obtain ⟨b, e2⟩ : ∃ b, boundary c a = some b := by
    unfold boundary
    rw [hs, Option.bind_some]
    cases hd : a.imagerDomain
    · rw [if_neg (by simp)]
      simp only [hd, Bool.false_eq_true, false_or] at hb
      match s, hb with
      | p :: q :: l, hb =>
        obtain ⟨r, hr, _⟩ := densify_partial 50 (by norm_num) p q l hb.2
        exact ⟨_, by rw [hr]⟩
    · exact ⟨_, if_pos rfl⟩
  obtain ⟨d0, hd0⟩ : ∃ d, splineDomain c.order c.Nx c.Ny c.segs = some d := by
    by_contra hne
    have hnone : splineDomain c.order c.Nx c.Ny c.segs = none := by
      cases hx : splineDomain c.order c.Nx c.Ny c.segs with
      | none => rfl
      | some d => exact absurd ⟨d, hx⟩ hne
    have := (domain_other _ _ _ _).1 hnone
    unfold Accepted at hA
    omega
  obtain ⟨d, e3⟩ : ∃ d, contour c a = some d := by
    unfold contour
    rw [hd0, Option.bind_some]
    split
    · exact mapM_total _ hproj _
    · exact ⟨_, rfl⟩
  obtain ⟨k, e4⟩ : ∃ k, knots c a = some k := by
    unfold knots
    dsimp only
    split
    · exact mapM_total _ hproj _
    · exact ⟨_, rfl⟩
  unfold plot
  rw [if_neg, if_neg, if_neg (by simp [hc])]
  · simp [e1, e2, e3, e4]
  · rcases hxy with h | h | h <;> simp [h]
  · cases h : a.vectorfield
    · simp
    · simp [hv h]

/-- C130, negation: a valid-intrinsics region with one vertex isn't plotted in the domain of the spline: it's an exception -/
theorem single_wrong (c : Camera) (a : Args) (p : P2) (hr : c.region = some [p]) (hv : a.validRegion = true) (hd : a.imagerDomain = false) : plot c a = none := by
  by_contra hne
  obtain ⟨P, hP⟩ := Option.ne_none_iff_exists'.1 hne
  obtain ⟨_, _, e2, _⟩ := plot_parts c a P hP
  unfold boundary sparse at e2
  rw [if_pos hv, hr, Option.bind_some, if_neg (by simp [hd]), densify_single_wrong] at e2
  cases e2

/-! ### a concrete case -/

/-- a model without corrections -/
noncomputable def cam0 : Camera :=
  { name := "LENSMODEL_SPLINED_STEREOGRAPHIC_order=3_Nx=4_Ny=4_fov_x_deg=90", splined := true, order := 3, Nx := 4, Ny := 4, segs := 1, intr := fun i => if i = 0 ∨ i = 1 then 1000 else 0
    W := 1001, H := 801, unproject := fun q => some (fromU ⟨q.x / 1000, q.y / 1000⟩), region := some [⟨0, 0⟩, ⟨10000, 0⟩, ⟨10000, 100⟩, ⟨0, 0⟩], polygonDifference := fun _ _ => none }

def args0 : Args := ⟨false, none, true, 1, true, 60, some 40⟩

theorem accepted0 : Accepted cam0.order cam0.Nx cam0.Ny := Or.inr ⟨rfl, le_refl _, le_refl _⟩

theorem project0 (v : P3) : project cam0 v = some ⟨(toU v).x * 1000, (toU v).y * 1000⟩ := by
  obtain ⟨r, hr, hq⟩ := zero_spline_stereographic cam0.order cam0.Nx cam0.Ny accepted0 cam0.segs cam0.intr (by intro i h _; simp [cam0]; omega) v
  unfold project
  rw [hr, Option.map_some, hq, toU_stereoU]
  simp [projectStereographic, cam0, stereoU, stereoScale]

theorem unproject0 : ∀ q v, cam0.unproject q = some v → project cam0 v = some q := by
  intro q v h
  simp only [cam0, Option.some.injEq] at h
  rw [project0, ← h, toU_fromU]
  simp only [Option.some.injEq]
  ext <;> simp <;> ring

theorem plot0 : ∃ P, plot cam0 args0 = some P := plotted cam0 args0 accepted0 rfl (by simp [args0]) (Or.inl rfl) (Or.inl (by simp [args0])) _ rfl (Or.inl rfl)

example : ∃ P, plot cam0 { args0 with imagerDomain := false, validRegion := false } = some P :=
  plotted cam0 _ accepted0 rfl (by simp [args0]) (Or.inl rfl) (Or.inl (by simp [args0])) _ rfl (Or.inr ⟨by simp, by
    have d : ∀ p q : P2, 1 ≤ (p.x - q.x) ^ 2 + (p.y - q.y) ^ 2 → 1e-6 * 50 ≤ Polyline.dist p q := by
      intro p q h
      have h1 : 1 ≤ Polyline.dist p q := by
        unfold Polyline.dist
        rw [Real.one_le_sqrt]
        nlinarith
      norm_num; linarith
    unfold Coarse
    simp only [List.isChain_cons_cons, List.isChain_singleton, and_true]
    refine ⟨d _ _ ?_, d _ _ ?_, d _ _ ?_, d _ _ ?_⟩ <;> norm_num [cam0]⟩)

example : ∃ P, plot cam0 { args0 with vectorfield := true } = some P :=
  plotted cam0 _ accepted0 rfl (by simp [args0]) (Or.inl rfl) (Or.inl (by simp [args0])) _ rfl (Or.inl rfl)

example : cam0.intr 0 ≠ 0 ∧ cam0.intr 1 ≠ 0 ∧ 0 < cam0.segs := by norm_num [cam0]

/-- C130, negation: that there's no warning doesn't mean that the boundary is covered by the spline: if polygon_difference() fails nothing is said, and here a vertex of the boundary is far outside -/
theorem silent_wrong : ∃ c a P q v, plot c a = some P ∧ Accepted c.order c.Nx c.Ny ∧ P.warning = false ∧ P.invalid = [] ∧ some q ∈ P.boundary ∧ c.unproject q = some v ∧ project c v = some q ∧
    ¬ InDomain c.order c.Nx c.Ny c.segs (stereoU v) := by
  obtain ⟨P, hP⟩ := plot0
  obtain ⟨_, _, e2, _, _, _, e6, e7, _⟩ := plot_parts _ _ P hP
  have hi : P.invalid = [] := by rw [e6]; rfl
  refine ⟨cam0, args0, P, ⟨10000, 0⟩, fromU ⟨10, 0⟩, hP, accepted0, by rw [e7, hi]; rfl, hi, ?_, ?_, ?_, ?_⟩
  · have : P.boundary = [some ⟨0, 0⟩, some ⟨10000, 0⟩, some ⟨10000, 100⟩, some ⟨0, 0⟩] := by
      unfold boundary sparse at e2
      simpa [args0, cam0] using e2.symm
    rw [this]; simp
  · simp only [cam0, Option.some.injEq]; norm_num
  · rw [project0, toU_fromU]; norm_num
  · rw [← toU_stereoU, toU_fromU, domain_rect _ _ _ accepted0 _ (by norm_num [cam0])]
    intro h
    have := h.1.2
    norm_num [cam0, at_, margin] at this

end Mrcal.SplinedCorrection
