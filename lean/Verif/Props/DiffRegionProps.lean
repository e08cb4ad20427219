import Verif.Model.DiffRegion
import Verif.Props.PolylineProps
import Verif.Props.SeedProps
/-
C139: the valid-intrinsics region of the second camera, in a plot of a projection difference
-/
namespace Mrcal.DiffRegion
open Mrcal Mrcal.Cam Mrcal.Pose Mrcal.Seed

/-- the distance the documentation promises: the first one. Infinity is a unit vector -/
def promised : Distance → Option ℝ
  | .none => some 1
  | .one d => some d
  | .list l => l.head?

/-- what the distances have to be for the code to use the first one: not 3 different ones -/
def Fine : Distance → Prop
  | .list [a, b, c] => a = b ∧ b = c
  | _ => True

/-- o is the pixel of the first camera that sees the point that the second camera sees at q, d away -/
def Sees (unproject1 : P2 → P3) (project0 : P3 → P2) (Rt10 : Rt) (d : ℝ) (q o : P2) : Prop :=
  ∃ p : P3, (let v := unproject1 q; tr Rt10 p = ⟨d * v.x, d * v.y, d * v.z⟩) ∧ o = project0 p

theorem scaled_fine (D : Distance) (hD : Fine D) (d : ℝ) (h : promised D = some d) (v : P3) : scaled D v = some ⟨d * v.x, d * v.y, d * v.z⟩ := by
  match D, hD, h with
  | .none, _, h => cases h; simp [scaled]
  | .one e, _, h => cases h; simp [scaled, mul_comm]
  | .list [], _, h => cases h
  | .list [a], _, h => cases h; simp [scaled, mul_comm]
  | .list [a, b], _, h => cases h; simp [scaled, mul_comm]
  | .list [a, b, c], hf, h =>
    cases h
    obtain ⟨rfl, rfl⟩ := hf
    simp [scaled, mul_comm]
  | .list (a :: b :: c :: e :: l), _, h => cases h; simp [scaled, mul_comm]

theorem mapM_forall₂ {β γ : Type} (f : β → Option γ) (P : β → γ → Prop) (hf : ∀ x, ∃ y, f x = some y ∧ P x y) : ∀ l : List β, ∃ r, l.mapM f = some r ∧ List.Forall₂ P l r
  | [] => ⟨[], rfl, .nil⟩
  | x :: l => by
    obtain ⟨y, hy, py⟩ := hf x
    obtain ⟨r, hr, pr⟩ := mapM_forall₂ f P hf l
    exact ⟨y :: r, by simp [hy, hr], .cons py pr⟩

/-- **C139**: unless intrinsics_only, the curve drawn is the boundary of the region (refined to steps of 50 pixels), each of its points moved to where the first camera sees it, at the first of the distances given.
What is missing: 3 different distances, and intrinsics_only: see below. And the regions with very short segments: see C112 -/
theorem drawn_partial (unproject1 : P2 → P3) (project0 : P3 → P2) (Rt10 : Rt) (hR : IsRot Rt10.R) (D : Distance) (hD : Fine D) (d : ℝ) (hd : promised D = some d) (a b : P2) (l : List P2) (h : Polyline.Coarse 50 (a :: b :: l)) :
    ∃ r out, Polyline.Refines 50 (a :: b :: l) r ∧ region1 2 true false unproject1 project0 Rt10 D (some (a :: b :: l)) = some (some out) ∧
      List.Forall₂ (Sees unproject1 project0 Rt10 d) r out := by
  obtain ⟨r, hr, href⟩ := Polyline.densify_partial 50 (by norm_num) a b l h
  obtain ⟨out, ho, hf⟩ := mapM_forall₂ (moved unproject1 project0 Rt10 D) (Sees unproject1 project0 Rt10 d) (fun q => by
    refine ⟨project0 (transformPointRt (invertRt Rt10) ⟨d * (unproject1 q).x, d * (unproject1 q).y, d * (unproject1 q).z⟩ false), ?_, ?_⟩
    · unfold moved
      rw [scaled_fine D hD d hd]
      rfl
    · exact ⟨_, (invert_tr Rt10 hR _).2, rfl⟩) r
  refine ⟨r, out, href, ?_, hf⟩
  simp [region1, hr, ho]

example : IsRot (⟨identityR, ⟨1, 2, 3⟩⟩ : Rt).R ∧ Fine (.list [5, 10]) ∧ promised (.list [5, 10]) = some 5 ∧ Polyline.Coarse 50 [⟨0, 0⟩, ⟨300, 400⟩, ⟨300, 1400⟩] := by
  refine ⟨identity_rot, trivial, rfl, ?_⟩
  unfold Polyline.Coarse Polyline.dist
  refine List.isChain_cons_cons.2 ⟨?_, List.isChain_cons_cons.2 ⟨?_, .singleton _⟩⟩
  · rw [show ((300 : ℝ) - 0) ^ 2 + (400 - 0) ^ 2 = 500 ^ 2 by norm_num, Real.sqrt_sq (by norm_num)]; norm_num
  · rw [show ((300 : ℝ) - 300) ^ 2 + (1400 - 400) ^ 2 = 1000 ^ 2 by norm_num, Real.sqrt_sq (by norm_num)]; norm_num

/-- **C139**: nothing is drawn if it wasn't asked for, or if there's no region, or if there are more than two cameras -/
theorem nothing (Nmodels : Nat) (asked intrinsics_only : Bool) (unproject1 : P2 → P3) (project0 : P3 → P2) (Rt10 : Rt) (D : Distance) (region : Option (List P2)) :
    region1 Nmodels asked intrinsics_only unproject1 project0 Rt10 D region = some none ↔ asked = false ∨ Nmodels ≠ 2 ∨ region = none := by
  unfold region1
  cases asked
  · simp
  by_cases hN : Nmodels = 2
  · cases region with
    | none => simp [hN]
    | some r =>
      cases intrinsics_only
      · cases hd : Polyline.densify 50 (some r) <;> simp [hN, hd]
      · simp [hN]
  · simp [hN]

/-- **C139**: an empty list of distances is refused -/
theorem empty_refused (unproject1 : P2 → P3) (project0 : P3 → P2) (Rt10 : Rt) (a b : P2) (l : List P2) (h : Polyline.Coarse 50 (a :: b :: l)) :
    region1 2 true false unproject1 project0 Rt10 (.list []) (some (a :: b :: l)) = none := by
  obtain ⟨r, hr, href⟩ := Polyline.densify_partial 50 (by norm_num) a b l h
  have hne : r ≠ [] := by
    intro e
    have := href.first
    rw [e] at this
    cases this
  cases r with
  | nil => exact absurd rfl hne
  | cons x r => simp [region1, hr, moved, scaled]

/-- **C139, the code is wrong**: with three distances, the coordinates of a point are each scaled with one of the distances. Here the cameras are the same, so that the region should be drawn where it is, at any distance; it isn't -/
theorem three_wrong :
    let unproject1 : P2 → P3 := fun q => ⟨q.x, q.y, 1⟩
    let project0 : P3 → P2 := fun p => ⟨p.x / p.z, p.y / p.z⟩
    let T : Rt := ⟨identityR, ⟨0, 0, 0⟩⟩
    moved unproject1 project0 T (.one 1) ⟨3, 4⟩ = some ⟨3, 4⟩ ∧ moved unproject1 project0 T (.list [1, 2]) ⟨3, 4⟩ = some ⟨3, 4⟩ ∧
      moved unproject1 project0 T (.list [1, 2, 3]) ⟨3, 4⟩ = some ⟨1, 8 / 3⟩ := by
  refine ⟨?_, ?_, ?_⟩ <;>
    norm_num [moved, scaled, transformPointRt, invertRt, rotatePointR, identityR, mulVec, addP, transpose]

/-- **C139, the code is wrong**: with intrinsics_only, the region is drawn at its pixels in the second camera, whatever the lenses are. The first camera may see those directions elsewhere -/
theorem intrinsics_only_wrong (unproject1 : P2 → P3) (project0 : P3 → P2) (Rt10 : Rt) (D : Distance) (r : List P2) (q : P2) (hq : q ∈ r) (hne : project0 (unproject1 q) ≠ q) :
    ∃ out, region1 2 true true unproject1 project0 Rt10 D (some r) = some (some out) ∧ out ≠ r.map fun q => project0 (unproject1 q) := by
  refine ⟨r, by simp [region1], fun h => hne ?_⟩
  exact ((List.map_inj_left.1 ((List.map_id r).trans h)) q hq).symm

example : ∃ (u : P2 → P3) (p : P3 → P2) (q : P2), p (u q) ≠ q :=
  ⟨fun q => ⟨q.x, q.y, 1⟩, fun p => ⟨2 * p.x / p.z, 2 * p.y / p.z⟩, ⟨1, 1⟩, by intro h; have := congrArg P2.x h; norm_num at this⟩

end Mrcal.DiffRegion
