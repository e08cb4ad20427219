import Verif.Model.StereoPairPlot
import Verif.Props.PolylineProps
import Verif.Props.StereoPairProps
/-
C140: the plot of the difference of two stereo pairs
-/
namespace Mrcal.StereoPairPlot
open Mrcal Mrcal.Cam Mrcal.Pose Mrcal.ImageTransform Mrcal.ModelDiff

theorem mapM_get {β γ : Type} (f : β → Option γ) : ∀ (l : List β) (r : List γ), l.mapM f = some r → List.Forall₂ (fun x y => f x = some y) l r
  | [], r, h => by cases h; exact .nil
  | x :: l, r, h => by
    rw [List.mapM_cons] at h
    cases hx : f x with
    | none => simp [hx] at h
    | some y =>
      cases hl : l.mapM f with
      | none => simp [hx, hl] at h
      | some r' =>
        simp [hx, hl] at h
        subst h
        exact .cons hx (mapM_get f l r' hl)

/-- the pair with this index -/
def pairAt (m0 m1 : Model × Model) (p : Nat) : Model × Model := if p = 0 then m0 else m1

/-- which curves there are: one for each camera that has a region, in order -/
theorem regions_steps (solve : Solver) (prev : NanP3) (distance : Option ℝ) (m0 m1 : Model × Model) (region : Nat → Nat → Option (List P2)) (out : List Curve) (h : regions solve prev distance m0 m1 true region = some out) :
    ∃ a b c d : Option Curve, regionOf solve prev distance m0 0 0 (region 0 0) = some a ∧ regionOf solve prev distance m0 0 1 (region 0 1) = some b ∧
      regionOf solve prev distance m1 1 0 (region 1 0) = some c ∧ regionOf solve prev distance m1 1 1 (region 1 1) = some d ∧ out = [a, b, c, d].filterMap id := by
  unfold regions at h
  rw [if_pos rfl, Option.map_eq_some_iff] at h
  obtain ⟨l, hl, rfl⟩ := h
  have := mapM_get _ _ _ hl
  cases this with
  | cons h1 t =>
    cases t with
    | cons h2 t =>
      cases t with
      | cons h3 t =>
        cases t with
        | cons h4 t =>
          cases t
          exact ⟨_, _, _, _, h1, h2, h3, h4, rfl⟩

theorem regionOf_label (solve : Solver) (prev : NanP3) (distance : Option ℝ) (m : Model × Model) (p c : Nat) (region : Option (List P2)) (a : Option Curve) (h : regionOf solve prev distance m p c region = some a) :
    (a = none ↔ region = none) ∧ ∀ k ∈ a, k.pair = p ∧ k.cam = c := by
  unfold regionOf at h
  cases region with
  | none => cases h; simp
  | some r =>
    dsimp only at h
    by_cases hc : c = 1
    · rw [if_pos hc] at h
      cases hd : Polyline.densify 50 (some r) with
      | none => rw [hd] at h; cases h
      | flat q => rw [hd] at h; cases h
      | rows l =>
        rw [hd] at h
        dsimp only at h
        rw [Option.map_eq_some_iff] at h
        obtain ⟨pts, -, rfl⟩ := h
        simp
    · rw [if_neg hc] at h
      cases h
      simp

/-- **C140**: each camera that has a valid-intrinsics region gets one curve, with its label, and there are no others; nothing is drawn if this isn't asked for -/
theorem which_regions (solve : Solver) (prev : NanP3) (distance : Option ℝ) (m0 m1 : Model × Model) (asked : Bool) (region : Nat → Nat → Option (List P2)) (out : List Curve) (h : regions solve prev distance m0 m1 asked region = some out) :
    out.map (fun k => (k.pair, k.cam)) = ([(0, 0), (0, 1), (1, 0), (1, 1)] : List (Nat × Nat)).filter fun x => asked && (region x.1 x.2).isSome := by
  cases asked with
  | false => cases h; simp
  | true =>
    obtain ⟨a, b, c, d, ha, hb, hc, hd, rfl⟩ := regions_steps solve prev distance m0 m1 region out h
    have la := regionOf_label _ _ _ _ _ _ _ _ ha
    have lb := regionOf_label _ _ _ _ _ _ _ _ hb
    have lc := regionOf_label _ _ _ _ _ _ _ _ hc
    have ld := regionOf_label _ _ _ _ _ _ _ _ hd
    have key : ∀ (o : Option Curve) (g : Option (List P2)) (p q : Nat), (o = none ↔ g = none) → (∀ k ∈ o, k.pair = p ∧ k.cam = q) → ∀ (tl : List (Option Curve)) (xs : List (Nat × Nat)) (P : Nat × Nat → Bool), P (p, q) = g.isSome →
        (tl.filterMap id).map (fun k => (k.pair, k.cam)) = xs.filter P → ((o :: tl).filterMap id).map (fun k => (k.pair, k.cam)) = ((p, q) :: xs).filter P := by
      intro o g p q h1 h2 tl xs P hP ht
      cases o with
      | none =>
        have := h1.1 rfl
        subst this
        rw [List.filter_cons_of_neg (by rw [hP]; simp), ← ht]
        rfl
      | some k =>
        obtain ⟨rfl, rfl⟩ := h2 k rfl
        cases g with
        | none => exact absurd (h1.2 rfl) (by simp)
        | some r =>
          rw [List.filter_cons_of_pos (by rw [hP]; rfl), ← ht]
          rfl
    exact key a _ 0 0 la.1 la.2 _ _ _ (by simp) (key b _ 0 1 lb.1 lb.2 _ _ _ (by simp) (key c _ 1 0 lc.1 lc.2 _ _ _ (by simp) (key d _ 1 1 ld.1 ld.2 _ _ _ (by simp) rfl)))

/-- **C140**: the region of the first camera of a pair is drawn as it is -/
theorem first_camera (solve : Solver) (prev : NanP3) (distance : Option ℝ) (m0 m1 : Model × Model) (region : Nat → Nat → Option (List P2)) (out : List Curve) (h : regions solve prev distance m0 m1 true region = some out) (k : Curve) (hk : k ∈ out) (hc : k.cam = 0) :
    ∃ r, region k.pair 0 = some r ∧ k.pts = r.map some := by
  obtain ⟨a, b, c, d, ha, hb, hc', hd, rfl⟩ := regions_steps solve prev distance m0 m1 region out h
  have lb := (regionOf_label _ _ _ _ _ _ _ _ hb).2
  have ld := (regionOf_label _ _ _ _ _ _ _ _ hd).2
  have go : ∀ (m : Model × Model) (p : Nat) (g : Option (List P2)), regionOf solve prev distance m p 0 g = some (some k) → ∃ r, g = some r ∧ k.pair = p ∧ k.pts = r.map some := by
    intro m p g hg
    cases g with
    | none => cases hg
    | some r => cases hg; exact ⟨r, rfl, rfl, rfl⟩
  simp only [List.mem_filterMap, id, List.mem_cons, List.not_mem_nil, or_false] at hk
  obtain ⟨o, ho, rfl⟩ := hk
  rcases ho with rfl | rfl | rfl | rfl
  · obtain ⟨r, h1, h2, h3⟩ := go _ _ _ ha; exact ⟨r, by rw [h2, h1], h3⟩
  · exact absurd (lb k rfl).2 (by omega)
  · obtain ⟨r, h1, h2, h3⟩ := go _ _ _ hc'; exact ⟨r, by rw [h2, h1], h3⟩
  · exact absurd (ld k rfl).2 (by omega)

/-- **C140**: the region of the second camera of a pair is drawn where the first camera of the same pair sees it: the boundary, in steps of 50 pixels, at the given distance from the second camera (or at infinity).
What is missing: very short segments (see C112), and that the distance should be from the first camera: see `distance_wrong` -/
theorem second_camera_partial (env : Env) (distance : Option ℝ) (m0 m1 : Model × Model) (hm0 : UsablePair m0) (hm1 : UsablePair m1) (region : Nat → Nat → Option (List P2)) (out : List Curve) (h : regions env.solve env.prev distance m0 m1 true region = some out)
    (k : Curve) (hk : k ∈ out) (hc : k.cam = 1) (a b : P2) (l : List P2) (hr : region k.pair 1 = some (a :: b :: l)) (hco : Polyline.Coarse 50 (a :: b :: l)) :
    ∃ r, Polyline.Refines 50 (a :: b :: l) r ∧ List.Forall₂ (fun q o => ∀ v p, Ray env (pairAt m0 m1 k.pair).2 q v → Seen distance ((pairAt m0 m1 k.pair).2, (pairAt m0 m1 k.pair).1) v p → p ≠ ⟨0, 0, 0⟩ →
      o = some (sees (pairAt m0 m1 k.pair).1 p)) r k.pts := by
  obtain ⟨oa, ob, oc, od, ha, hb, hc', hd, rfl⟩ := regions_steps _ _ distance m0 m1 region out h
  have la := (regionOf_label _ _ _ _ _ _ _ _ ha).2
  have lc := (regionOf_label _ _ _ _ _ _ _ _ hc').2
  have go : ∀ (m : Model × Model) (p : Nat), UsablePair m → regionOf env.solve env.prev distance m p 1 (some (a :: b :: l)) = some (some k) → ∃ r, Polyline.Refines 50 (a :: b :: l) r ∧ List.Forall₂ (fun q o => ∀ v p, Ray env m.2 q v → Seen distance (m.2, m.1) v p → p ≠ ⟨0, 0, 0⟩ → o = some (sees m.1 p)) r k.pts := by
    intro m p hm hg
    obtain ⟨r, hr, href⟩ := Polyline.densify_partial 50 (by norm_num) a b l hco
    unfold regionOf at hg
    dsimp only at hg
    rw [if_pos rfl, hr] at hg
    dsimp only at hg
    rw [Option.map_eq_some_iff] at hg
    obtain ⟨pts, hp, e⟩ := hg
    cases e
    refine ⟨r, href, (mapM_get _ _ _ hp).imp ?_⟩
    intro q o hq v p hv hs hne
    have := (pair_reproject env distance m hm q).2 v p hv hs hne
    rw [hq] at this
    exact Option.some.inj this
  simp only [List.mem_filterMap, id, List.mem_cons, List.not_mem_nil, or_false] at hk
  obtain ⟨o, ho, rfl⟩ := hk
  rcases ho with rfl | rfl | rfl | rfl
  · exact absurd (la k rfl).2 (by omega)
  · have hp := ((regionOf_label _ _ _ _ _ _ _ _ hb).2 k rfl).1
    rw [hp] at hr ⊢
    rw [hr] at hb
    exact go m0 0 hm0 hb
  · exact absurd (lc k rfl).2 (by omega)
  · have hp := ((regionOf_label _ _ _ _ _ _ _ _ hd).2 k rfl).1
    rw [hp] at hr ⊢
    rw [hr] at hd
    exact go m1 1 hm1 hd

/-- a region of 2 points far apart is a case -/
example : UsablePair (camA, camB) ∧ Polyline.Coarse 50 [⟨0, 0⟩, ⟨300, 400⟩] := by
  refine ⟨pair_case.1, List.isChain_cons_cons.2 ⟨?_, .singleton _⟩⟩
  unfold Polyline.dist
  rw [show ((300 : ℝ) - 0) ^ 2 + (400 - 0) ^ 2 = 500 ^ 2 by norm_num, Real.sqrt_sq (by norm_num)]; norm_num

/-- **C140**: each arrow starts at its pixel, has the difference there, scaled as requested, and the color of the length of the difference, which isn't scaled; a difference that isn't known has the color of an effectively infinite one -/
theorem arrows_meaning (vectorscale : ℝ) (difflen : List (Option ℝ)) (diff : List (Option P2)) (q0 : List (List P2)) (h1 : diff.length = q0.flatten.length) (h2 : difflen.length = q0.flatten.length) :
    (arrows vectorscale difflen diff q0).length = q0.flatten.length ∧
      ∀ (i : Nat) (q : P2), q0.flatten[i]? = some q → ∃ w : Arrow, (arrows vectorscale difflen diff q0)[i]? = some w ∧ w.start = q ∧
        (∀ d, diff[i]? = some (some d) → w.delta = some ⟨vectorscale * d.x, vectorscale * d.y⟩) ∧ (diff[i]? = some none → w.delta = none) ∧
        (∀ x, difflen[i]? = some (some x) → w.color = x) ∧ (difflen[i]? = some none → w.color = 1000000) := by
  refine ⟨by simp [arrows, colors, h1, h2], fun i q hq => ?_⟩
  have hi : i < q0.flatten.length := (List.getElem?_eq_some_iff.1 hq).1
  have e1 : diff[i]? = some (diff[i]'(by omega)) := List.getElem?_eq_getElem _
  have e2 : difflen[i]? = some (difflen[i]'(by omega)) := List.getElem?_eq_getElem _
  refine ⟨⟨q, (diff[i]'(by omega)).map fun d => ⟨d.x * vectorscale, d.y * vectorscale⟩, (difflen[i]'(by omega)).getD 1e6⟩, ?_, rfl, ?_, ?_, ?_, ?_⟩
  · unfold arrows colors
    have e3 : (difflen.map fun d => d.getD 1e6)[i]? = some ((difflen[i]'(by omega)).getD 1e6) := by rw [List.getElem?_map, e2]; rfl
    have e4 : (q0.flatten.zip (diff.zip (difflen.map fun d => d.getD 1e6)))[i]? = some (q, diff[i]'(by omega), (difflen[i]'(by omega)).getD 1e6) :=
      List.getElem?_zip_eq_some.2 ⟨hq, List.getElem?_zip_eq_some.2 ⟨e1, e3⟩⟩
    rw [List.getElem?_map, e4]
    rfl
  · intro d hd
    rw [e1] at hd
    simp only [Option.some.inj hd, Option.map_some, mul_comm]
  · intro hd
    rw [e1] at hd
    simp only [Option.some.inj hd, Option.map_none]
  · intro x hx
    rw [e2] at hx
    simp only [Option.some.inj hx, Option.getD_some]
  · intro hx
    rw [e2] at hx
    simp only [Option.some.inj hx, Option.getD_none]
    norm_num

example : ([none, some ⟨3, 4⟩] : List (Option P2)).length = ([[⟨0, 0⟩, ⟨1, 0⟩]] : List (List P2)).flatten.length ∧ ([none, some 5] : List (Option ℝ)).length = ([[⟨0, 0⟩, ⟨1, 0⟩]] : List (List P2)).flatten.length := ⟨rfl, rfl⟩

/-- **C140**: at infinity, a pixel that's drawn is one that's compared to the boundary of the region of the second camera, if the unprojections are exact -/
theorem infinity_consistent (env : Env) (m : Model × Model) (h : UsablePair m) (q o : P2) (v w : P3) (hv : Ray env m.2 q v) (hq : sees m.2 v = q) (hw : Seen none (m.2, m.1) v w) (ho : sees m.1 w = o) (hw1 : Ray env m.1 o w) :
    reproject env.solve env.prev none m true q = some (some o) ∧ reproject env.solve env.prev none m false o = some (some q) := by
  obtain ⟨d, e1, e2⟩ := hw
  have := pair_round_trip env m h o q w v hw1 ho ⟨d, e2, e1⟩ hq hv
  exact ⟨this.2, this.1⟩

example : ∃ o, reproject envA.solve envA.prev none (camA, camB) true ⟨0, 0⟩ = some (some o) := by
  refine ⟨_, (infinity_consistent envA _ pair_case.1 ⟨0, 0⟩ ⟨0, 0⟩ ⟨0, 0, 1⟩ ⟨0, 0, 1⟩ pair_case.2.2.2.1 ?_ ?_ ?_ pair_case.2.2.1).1⟩
  · exact seesB 0 0 ⟨0, 0, 1⟩ rfl rfl rfl
  · exact ⟨⟨0, 0, 1⟩, by simp [dirInCam, camB, cam, rotatePointR, mulVec, identityR], by simp [dirInCam, camA, cam, rotatePointR, mulVec, identityR]⟩
  · exact seesB 0 0 ⟨0, 0, 1⟩ rfl rfl rfl

theorem rayNear : Ray envA camA ⟨-3 / 4, 0⟩ ⟨-3 / 5, 0, 4 / 5⟩ := by
  have s1 : mag3 ⟨-3 / 5, 0, 4 / 5⟩ = 1 := by unfold mag3; norm_num
  have s2 : mag3 ⟨-3 / 4, 0, 1⟩ = 5 / 4 := by
    unfold mag3
    rw [show (-3 / 4 * (-3 / 4) + 0 * 0 + 1 * 1 : ℝ) = (5 / 4) ^ 2 by norm_num]
    exact Real.sqrt_sq (by norm_num)
  refine ⟨s1, ?_⟩
  show some (NanP3.of (UnprojectPy.normalized (unpinhole (coreOf camA.intr) ⟨-3 / 4, 0⟩).v)) = _
  have e : (unpinhole (coreOf camA.intr) ⟨-3 / 4, 0⟩).v = ⟨-3 / 4, 0, 1⟩ := by
    unfold unpinhole coreOf camA cam
    norm_num
  rw [e]
  unfold UnprojectPy.normalized
  simp only [UnprojectPy.mag_eq, s2]
  norm_num

theorem seesPin (m : Model) (hm : m = camA ∨ m = camB) (p : P3) : sees m p = ⟨p.x / p.z, p.y / p.z⟩ := by
  have e : sees m p = (pinhole (coreOf m.intr) p).q := by rcases hm with rfl | rfl <;> rfl
  rw [e]
  rcases hm with rfl | rfl <;> simp [pinhole, coreOf, camA, camB, cam] <;> constructor <;> ring

/-- **C140, the code is wrong**: the distance is documented to be from the first camera, but the region is drawn as if it was from the second one. Two cameras side by side, 4/3 away. The region of the second camera has a point at (0,0). It's drawn at (-3/4,0).
But the pixel that's plotted there is one that's compared at (3/16,0) of the second camera -/
theorem distance_wrong :
    reproject envA.solve envA.prev (some (4 / 3)) (camA, camB) true ⟨0, 0⟩ = some (some ⟨-3 / 4, 0⟩) ∧
      reproject envA.solve envA.prev (some (4 / 3)) (camA, camB) false ⟨-3 / 4, 0⟩ = some (some ⟨3 / 16, 0⟩) := by
  constructor
  · rw [(pair_reproject envA (some (4 / 3)) _ pair_case.1 ⟨0, 0⟩).2 ⟨0, 0, 1⟩ ⟨-1, 0, 4 / 3⟩ pair_case.2.2.2.1 ⟨⟨-1, 0, 4 / 3⟩, ?_, ?_⟩ (by simp), seesPin _ (.inl rfl)]
    · norm_num
    · simp [inCam, camB, cam, transformPointRt, rotatePointR, mulVec, addP, identityR, times]
    · simp [inCam, camA, cam, transformPointRt, rotatePointR, mulVec, addP, identityR]
  · rw [(pair_reproject envA (some (4 / 3)) _ pair_case.1 ⟨-3 / 4, 0⟩).1 ⟨-3 / 5, 0, 4 / 5⟩ ⟨1 / 5, 0, 16 / 15⟩ rayNear ⟨⟨-4 / 5, 0, 16 / 15⟩, ?_, ?_⟩ (by simp), seesPin _ (.inr rfl)]
    · norm_num
    · simp [inCam, camA, cam, transformPointRt, rotatePointR, mulVec, addP, identityR, times]; norm_num
    · simp [inCam, camB, cam, transformPointRt, rotatePointR, mulVec, addP, identityR]; norm_num

end Mrcal.StereoPairPlot
