import Verif.Model.Pnp
import Verif.Props.SeedFinal
import Verif.Props.CameraProps
import Verif.Props.ModelDiffProps

/-! # C102: the pose of a chessboard from one image; the whole seed of a calibration -/

namespace Mrcal.Pnp
open Mrcal.Pose Mrcal.Cam Mrcal.Seed

/-! ### specification -/

/-- a pose reproduces all of the pinhole observations -/
def Reproduces (k : Core) (pts : List P3) (qs : List P2) (rt : RtV) : Prop :=
  List.Forall₂ (fun p q => (tr (Rt_from_rt rt) p).z ≠ 0 ∧ (pinhole k (tr (Rt_from_rt rt) p)).q = q) pts qs

/-- the contract of solvePnP(): if the observations can be reproduced exactly, then the returned pose does this; with the points in front of the camera if that's possible -/
def SolvesPnP (solve : SolvePnP) : Prop := ∀ pts qs k guess rt0 rt, Reproduces k pts qs rt0 → solve pts qs k guess = some rt →
  Reproduces k pts qs rt ∧ ((∀ p ∈ pts, 0 < (tr (Rt_from_rt rt0) p).z) → ∀ p ∈ pts, 0 < (tr (Rt_from_rt rt) p).z)

/-- twice the area of a triangle on the chessboard -/
def area (a b c : P3) : ℝ := (b.x - a.x) * (c.y - a.y) - (b.y - a.y) * (c.x - a.x)

/-- four of the points are such that no three are on one line -/
def FourPoints (l : List P3) : Prop := ∃ a ∈ l, ∃ b ∈ l, ∃ c ∈ l, ∃ d ∈ l, area a b c ≠ 0 ∧ area a b d ≠ 0 ∧ area a c d ≠ 0 ∧ area b c d ≠ 0

/-- the camera isn't in the plane of the chessboard -/
def OffPlane (T : Rt) : Prop := (tr (invertRt T) ⟨0, 0, 0⟩).z ≠ 0

/-- the points that have a weight -/
noncomputable def weighted (points : List P3) (obs : List Seen) : List (P3 × Seen) := by
  classical exact (List.zip points obs).filter fun po => 0 < po.2.weight

/-- what's observed is exactly where the points are, in front of the camera -/
def SeesAll (lens : PnpLens) (points : List P3) (obs : List Seen) (T : Rt) : Prop :=
  ∀ po ∈ List.zip points obs, 0 < po.2.weight → 0 < (tr T po.1).z ∧ ∃ v s, lens.unproject po.2.q = some v ∧ s ≠ 0 ∧ ScaledBy s (tr T po.1) v

/-! ### a pose is determined by four points of a plane -/

theorem affine_zero (A B C : ℝ) (a b c : P3) (hs : area a b c ≠ 0) (ha : A * a.x + B * a.y + C = 0) (hb : A * b.x + B * b.y + C = 0) (hc : A * c.x + B * c.y + C = 0) : A = 0 ∧ B = 0 ∧ C = 0 := by
  unfold area at hs
  have hA : A = 0 := by
    refine (mul_eq_zero.mp ?_).resolve_left hs
    linear_combination (c.y - a.y) * (hb - ha) - (b.y - a.y) * (hc - ha)
  have hB : B = 0 := by
    refine (mul_eq_zero.mp ?_).resolve_left hs
    linear_combination (b.x - a.x) * (hc - ha) - (c.x - a.x) * (hb - ha)
  subst hA hB
  exact ⟨rfl, rfl, by linarith⟩

theorem cramer (u v t : P3) (X Y Z : ℝ) (hd : u.x * (v.y * t.z - v.z * t.y) - v.x * (u.y * t.z - u.z * t.y) + t.x * (u.y * v.z - u.z * v.y) ≠ 0)
    (h1 : u.x * X + v.x * Y + t.x * Z = 0) (h2 : u.y * X + v.y * Y + t.y * Z = 0) (h3 : u.z * X + v.z * Y + t.z * Z = 0) : X = 0 ∧ Y = 0 ∧ Z = 0 := by
  refine ⟨(mul_eq_zero.mp ?_).resolve_left hd, (mul_eq_zero.mp ?_).resolve_left hd, (mul_eq_zero.mp ?_).resolve_left hd⟩
  · linear_combination (v.y * t.z - v.z * t.y) * h1 - (v.x * t.z - v.z * t.x) * h2 + (v.x * t.y - v.y * t.x) * h3
  · linear_combination -(u.y * t.z - u.z * t.y) * h1 + (u.x * t.z - u.z * t.x) * h2 - (u.x * t.y - u.y * t.x) * h3
  · linear_combination (u.y * v.z - u.z * v.y) * h1 - (u.x * v.z - u.z * v.x) * h2 + (u.x * v.y - u.y * v.x) * h3

/-- an affine map from the plane, up to an unknown scale at each of the four points -/
theorem plane_unique (u v t u' v' t' a b c d : P3) (la lb lc ld : ℝ)
    (hd : u.x * (v.y * t.z - v.z * t.y) - v.x * (u.y * t.z - u.z * t.y) + t.x * (u.y * v.z - u.z * v.y) ≠ 0)
    (h1 : area a b c ≠ 0) (h2 : area a b d ≠ 0) (h3 : area a c d ≠ 0) (h4 : area b c d ≠ 0)
    (pa : (u'.x * a.x + v'.x * a.y + t'.x = la * (u.x * a.x + v.x * a.y + t.x)) ∧ (u'.y * a.x + v'.y * a.y + t'.y = la * (u.y * a.x + v.y * a.y + t.y)) ∧ u'.z * a.x + v'.z * a.y + t'.z = la * (u.z * a.x + v.z * a.y + t.z))
    (pb : (u'.x * b.x + v'.x * b.y + t'.x = lb * (u.x * b.x + v.x * b.y + t.x)) ∧ (u'.y * b.x + v'.y * b.y + t'.y = lb * (u.y * b.x + v.y * b.y + t.y)) ∧ u'.z * b.x + v'.z * b.y + t'.z = lb * (u.z * b.x + v.z * b.y + t.z))
    (pc : (u'.x * c.x + v'.x * c.y + t'.x = lc * (u.x * c.x + v.x * c.y + t.x)) ∧ (u'.y * c.x + v'.y * c.y + t'.y = lc * (u.y * c.x + v.y * c.y + t.y)) ∧ u'.z * c.x + v'.z * c.y + t'.z = lc * (u.z * c.x + v.z * c.y + t.z))
    (pd : (u'.x * d.x + v'.x * d.y + t'.x = ld * (u.x * d.x + v.x * d.y + t.x)) ∧ (u'.y * d.x + v'.y * d.y + t'.y = ld * (u.y * d.x + v.y * d.y + t.y)) ∧ u'.z * d.x + v'.z * d.y + t'.z = ld * (u.z * d.x + v.z * d.y + t.z)) :
    ∃ l : ℝ, u' = ⟨l * u.x, l * u.y, l * u.z⟩ ∧ v' = ⟨l * v.x, l * v.y, l * v.z⟩ ∧ t' = ⟨l * t.x, l * t.y, l * t.z⟩ := by
  obtain ⟨α, hα⟩ : ∃ α, α = area b c d * (la - ld) := ⟨_, rfl⟩
  obtain ⟨β, hβ⟩ : ∃ β, β = -(area a c d * (lb - ld)) := ⟨_, rfl⟩
  obtain ⟨γ, hγ⟩ : ∃ γ, γ = area a b d * (lc - ld) := ⟨_, rfl⟩
  have key : ∀ x y z x' y' z' : ℝ, x' * a.x + y' * a.y + z' = la * (x * a.x + y * a.y + z) → x' * b.x + y' * b.y + z' = lb * (x * b.x + y * b.y + z) →
      x' * c.x + y' * c.y + z' = lc * (x * c.x + y * c.y + z) → x' * d.x + y' * d.y + z' = ld * (x * d.x + y * d.y + z) →
      x * (α * a.x + β * b.x + γ * c.x) + y * (α * a.y + β * b.y + γ * c.y) + z * (α + β + γ) = 0 := by
    intro x y z x' y' z' ea eb ec ed
    rw [hα, hβ, hγ]
    unfold area
    linear_combination
      -((c.x - b.x) * (d.y - b.y) - (c.y - b.y) * (d.x - b.x)) * ea + ((c.x - a.x) * (d.y - a.y) - (c.y - a.y) * (d.x - a.x)) * eb
      - ((b.x - a.x) * (d.y - a.y) - (b.y - a.y) * (d.x - a.x)) * ec + ((b.x - a.x) * (c.y - a.y) - (b.y - a.y) * (c.x - a.x)) * ed
  obtain ⟨hX, hY, hZ⟩ := cramer u v t _ _ _ hd (key _ _ _ _ _ _ pa.1 pb.1 pc.1 pd.1) (key _ _ _ _ _ _ pa.2.1 pb.2.1 pc.2.1 pd.2.1) (key _ _ _ _ _ _ pa.2.2 pb.2.2 pc.2.2 pd.2.2)
  have h1' := h1
  unfold area at h1'
  have hγ0 : γ = 0 := by
    refine (mul_eq_zero.mp ?_).resolve_left h1'
    linear_combination (b.x - a.x) * hY - (b.y - a.y) * hX - (b.x * a.y - a.x * b.y) * hZ
  have hβ0 : β = 0 := by
    refine (mul_eq_zero.mp ?_).resolve_left h1'
    linear_combination (c.y - a.y) * hX - (c.x - a.x) * hY - (c.y * a.x - a.y * c.x) * hZ
  have hα0 : α = 0 := by rw [hβ0, hγ0] at hZ; linarith
  have ea : la = ld := by
    rw [hα] at hα0
    linarith [(mul_eq_zero.mp hα0).resolve_left h4]
  have eb : lb = ld := by
    rw [hβ] at hβ0
    linarith [(mul_eq_zero.mp (neg_eq_zero.mp hβ0)).resolve_left h3]
  have ec : lc = ld := by
    rw [hγ] at hγ0
    linarith [(mul_eq_zero.mp hγ0).resolve_left h2]
  rw [ea] at pa
  rw [eb] at pb
  rw [ec] at pc
  have fin : ∀ x y z x' y' z' : ℝ, x' * a.x + y' * a.y + z' = ld * (x * a.x + y * a.y + z) → x' * b.x + y' * b.y + z' = ld * (x * b.x + y * b.y + z) →
      x' * c.x + y' * c.y + z' = ld * (x * c.x + y * c.y + z) → x' = ld * x ∧ y' = ld * y ∧ z' = ld * z := by
    intro x y z x' y' z' ea eb ec
    obtain ⟨k1, k2, k3⟩ := affine_zero (x' - ld * x) (y' - ld * y) (z' - ld * z) a b c h1 (by linarith) (by linarith) (by linarith)
    exact ⟨by linarith, by linarith, by linarith⟩
  obtain ⟨x1, x2, x3⟩ := fin _ _ _ _ _ _ pa.1 pb.1 pc.1
  obtain ⟨y1, y2, y3⟩ := fin _ _ _ _ _ _ pa.2.1 pb.2.1 pc.2.1
  obtain ⟨z1, z2, z3⟩ := fin _ _ _ _ _ _ pa.2.2 pb.2.2 pc.2.2
  exact ⟨ld, by ext <;> assumption, by ext <;> assumption, by ext <;> assumption⟩

theorem tr_plane (T : Rt) (p : P3) (hp : p.z = 0) : tr T p = ⟨T.R.a00 * p.x + T.R.a01 * p.y + T.t.x, T.R.a10 * p.x + T.R.a11 * p.y + T.t.y, T.R.a20 * p.x + T.R.a21 * p.y + T.t.z⟩ := by
  unfold tr transformPointRt rotatePointR mulVec addP
  simp [hp]

theorem col_unit (R : M3) (h : IsRot R) : R.a00 ^ 2 + R.a10 ^ 2 + R.a20 ^ 2 = 1 := by
  have h1 := congrFun (congrFun h.1.left 0) 0
  simp [toMat, Matrix.mul_apply, Fin.sum_univ_three] at h1
  linarith

theorem off_det (T : Rt) (h : IsRot T.R) (ho : OffPlane T) :
    T.R.a00 * (T.R.a11 * T.t.z - T.R.a21 * T.t.y) - T.R.a01 * (T.R.a10 * T.t.z - T.R.a20 * T.t.y) + T.t.x * (T.R.a10 * T.R.a21 - T.R.a20 * T.R.a11) ≠ 0 := by
  obtain ⟨⟨k00, k01, k02⟩, ⟨k10, k11, k12⟩, k20, k21, k22⟩ := ModelDiff.cofactors T.R h
  intro hz
  refine ho ?_
  unfold tr
  rw [(invert_transform T ⟨0, 0, 0⟩ h.1).1]
  simp only [transformPointRt, rotatePointR, mulVec, transpose, subP, Bool.not_true, Bool.false_eq_true, if_false, if_true]
  linear_combination -hz + T.t.x * k02 + T.t.y * k12 + T.t.z * k22

/-- same projection of the points: same pose, or the mirrored one -/
theorem pose_unique (T T' : Rt) (h : IsRot T.R) (h' : IsRot T'.R) (ho : OffPlane T) (l : List P3) (hl : ∀ p ∈ l, p.z = 0) (h4 : FourPoints l)
    (hs : ∀ p ∈ l, ∃ s : ℝ, ScaledBy s (tr T p) (tr T' p)) : (∀ p ∈ l, (tr T' p).z = -(tr T p).z) ∨ T' = T := by
  obtain ⟨a, ha, b, hb, c, hc, d, hd, n1, n2, n3, n4⟩ := h4
  have conv : ∀ p ∈ l, ∃ s : ℝ, (T'.R.a00 * p.x + T'.R.a01 * p.y + T'.t.x = s * (T.R.a00 * p.x + T.R.a01 * p.y + T.t.x)) ∧
      (T'.R.a10 * p.x + T'.R.a11 * p.y + T'.t.y = s * (T.R.a10 * p.x + T.R.a11 * p.y + T.t.y)) ∧ T'.R.a20 * p.x + T'.R.a21 * p.y + T'.t.z = s * (T.R.a20 * p.x + T.R.a21 * p.y + T.t.z) := by
    intro p hp
    obtain ⟨s, hsp⟩ := hs p hp
    unfold ScaledBy at hsp
    rw [tr_plane T p (hl p hp), tr_plane T' p (hl p hp)] at hsp
    exact ⟨s, congrArg P3.x hsp, congrArg P3.y hsp, congrArg P3.z hsp⟩
  obtain ⟨la, pa⟩ := conv a ha
  obtain ⟨lb, pb⟩ := conv b hb
  obtain ⟨lc, pc⟩ := conv c hc
  obtain ⟨ld, pd⟩ := conv d hd
  obtain ⟨m, e1, e2, e3⟩ := plane_unique ⟨T.R.a00, T.R.a10, T.R.a20⟩ ⟨T.R.a01, T.R.a11, T.R.a21⟩ T.t ⟨T'.R.a00, T'.R.a10, T'.R.a20⟩ ⟨T'.R.a01, T'.R.a11, T'.R.a21⟩ T'.t a b c d la lb lc ld
    (off_det T h ho) n1 n2 n3 n4 pa pb pc pd
  simp only [P3.mk.injEq] at e1 e2
  obtain ⟨x1, x2, x3⟩ := e1
  obtain ⟨y1, y2, y3⟩ := e2
  have hm : m ^ 2 = 1 := by
    have k1 := col_unit T.R h
    have k2 := col_unit T'.R h'
    rw [x1, x2, x3] at k2
    linear_combination k2 - m ^ 2 * k1
  have hm' : (m - 1) * (m + 1) = 0 := by linear_combination hm
  have ht := e3
  rcases mul_eq_zero.mp hm' with hm1 | hm1
  · right
    obtain rfl : m = 1 := by linarith
    have hR : T'.R = T.R := by
      refine ModelDiff.rot_unique T'.R T.R h' h ⟨1, 0, 0⟩ ⟨0, 1, 0⟩ (by simp [ModelDiff.crossP]) ?_ ?_
      · simp only [rotatePointR, mulVec, Bool.false_eq_true, if_false]
        rw [x1, x2, x3]
        ext <;> simp
      · simp only [rotatePointR, mulVec, Bool.false_eq_true, if_false]
        rw [y1, y2, y3]
        ext <;> simp
    have ht' : T'.t = T.t := by rw [ht]; ext <;> simp
    cases T; cases T'
    simp only at hR ht'
    rw [hR, ht']
  · left
    obtain rfl : m = -1 := by linarith
    intro p hp
    rw [tr_plane T p (hl p hp), tr_plane T' p (hl p hp)]
    have hz := congrArg P3.z ht
    simp only at hz ⊢
    rw [x3, y3, hz]
    ring

/-! ### one view -/

theorem pinhole_ray (k : Core) (hx : k.fx ≠ 0) (hy : k.fy ≠ 0) (p q : P3) (hp : p.z ≠ 0) (hq : q.z ≠ 0) (h : (pinhole k p).q = (pinhole k q).q) : ScaledBy (q.z / p.z) p q := by
  unfold pinhole at h
  simp only [P2.mk.injEq] at h
  obtain ⟨h1, h2⟩ := h
  have e1 : p.x * (1 / p.z) = q.x * (1 / q.z) := mul_right_cancel₀ hx (by linarith)
  have e2 : p.y * (1 / p.z) = q.y * (1 / q.z) := mul_right_cancel₀ hy (by linarith)
  unfold ScaledBy
  ext
  · simp only; field_simp at e1 ⊢; linarith
  · simp only; field_simp at e2 ⊢; linarith
  · simp only; field_simp

theorem toPinhole_one (lens : PnpLens) (q : P2) (v w : P3) (s : ℝ) (hs : s ≠ 0) (hv : lens.unproject q = some v) (hw : ScaledBy s w v) (hz : 0 < w.z) : toPinhole lens 1 q = some (pinhole lens.core w).q := by
  have hvz : v.z ≠ 0 := by rw [hw]; exact mul_ne_zero hs hz.ne'
  unfold toPinhole
  simp only [div_one, sub_add_cancel, mul_one, sub_self, mul_zero, add_zero]
  rw [hv]
  dsimp only
  rw [if_neg hvz, pinhole_scale lens.core w v s hs hw]

/-- the rows that are used -/
theorem rows_exact (lens : PnpLens) (points : List P3) (obs : List Seen) (T : Rt) (h : SeesAll lens points obs T) :
    rows lens 1 points obs = (weighted points obs).map fun po => (po.1, (pinhole lens.core (tr T po.1)).q) := by
  classical
  unfold rows weighted
  unfold SeesAll at h
  generalize List.zip points obs = l at h
  induction l with
  | nil => rfl
  | cons po l ih =>
    have ihl := ih fun x hx => h x (by simp [hx])
    by_cases hw : 0 < po.2.weight
    · obtain ⟨hz, v, s, h1, h2, h3⟩ := h po (by simp) hw
      rw [List.filterMap_cons_some (b := (po.1, (pinhole lens.core (tr T po.1)).q)) (by rw [if_pos hw, toPinhole_one lens po.2.q v _ s h2 h1 h3 hz]; rfl), ihl, List.filter_cons_of_pos (by simpa using hw), List.map_cons]
    · rw [List.filterMap_cons_none (by rw [if_neg hw]), ihl, List.filter_cons_of_neg (by simpa using hw)]

theorem forall2_map {α β γ : Type} (R : α → β → Prop) (f : γ → α) (g : γ → β) (l : List γ) (h : ∀ x ∈ l, R (f x) (g x)) : List.Forall₂ R (l.map f) (l.map g) := by
  induction l with
  | nil => exact .nil
  | cons a l ih => exact .cons (h a (by simp)) (ih fun x hx => h x (by simp [hx]))

theorem forall2_of_map {α β γ : Type} (R : α → β → Prop) (f : γ → α) (g : γ → β) (l : List γ) (h : List.Forall₂ R (l.map f) (l.map g)) : ∀ x ∈ l, R (f x) (g x) := by
  induction l with
  | nil => simp
  | cons a l ih =>
    cases h with
    | cons h1 h2 =>
      intro x hx
      rcases List.mem_cons.mp hx with rfl | hx
      · exact h1
      · exact ih h2 x hx

/-- what solvePnP() returns for exact data: the truth -/
theorem solve_exact (solve : SolvePnP) (hs : SolvesPnP solve) (k : Core) (hx : k.fx ≠ 0) (hy : k.fy ≠ 0) (rt : RtV) (ho : OffPlane (Rt_from_rt rt)) (l : List P3) (hl : ∀ p ∈ l, p.z = 0)
    (hf : ∀ p ∈ l, 0 < (tr (Rt_from_rt rt) p).z) (h4 : FourPoints l) (guess : Option RtV) (out : RtV) (h : solve l (l.map fun p => (pinhole k (tr (Rt_from_rt rt) p)).q) k guess = some out) :
    Rt_from_rt out = Rt_from_rt rt := by
  have hrep : Reproduces k l (l.map fun p => (pinhole k (tr (Rt_from_rt rt) p)).q) rt := by
    have := forall2_map (fun p q => (tr (Rt_from_rt rt) p).z ≠ 0 ∧ (pinhole k (tr (Rt_from_rt rt) p)).q = q) (fun p => p) (fun p => (pinhole k (tr (Rt_from_rt rt) p)).q) l (fun p hp => ⟨(hf p hp).ne', rfl⟩)
    rwa [List.map_id'] at this
  obtain ⟨h1, h2⟩ := hs _ _ _ _ rt out hrep h
  have h2 := h2 hf
  have h3 : ∀ p ∈ l, (tr (Rt_from_rt out) p).z ≠ 0 ∧ (pinhole k (tr (Rt_from_rt out) p)).q = (pinhole k (tr (Rt_from_rt rt) p)).q := by
    refine forall2_of_map (fun p q => (tr (Rt_from_rt out) p).z ≠ 0 ∧ (pinhole k (tr (Rt_from_rt out) p)).q = q) (fun p => p) (fun p => (pinhole k (tr (Rt_from_rt rt) p)).q) l ?_
    rw [List.map_id']; exact h1
  have hrot : ∀ x : RtV, IsRot (Rt_from_rt x).R := fun x => R_from_r_rot x.r
  rcases pose_unique (Rt_from_rt rt) (Rt_from_rt out) (hrot _) (hrot _) ho l hl h4 (fun p hp => ⟨_, pinhole_ray k hx hy _ _ (hf p hp).ne' (h3 p hp).1 (h3 p hp).2.symm⟩) with hm | hm
  · obtain ⟨a, ha, -⟩ := h4
    have k1 := hm a ha
    have k2 := h2 a ha
    have k3 := hf a ha
    linarith
  · exact hm

/-- **C102**: given exactly where a chessboard in front of the camera is seen, the pose is the true one, or it's an error that solvePnP() reported -/
theorem pose_exact_partial (solve : SolvePnP) (hs : SolvesPnP solve) (lens : PnpLens) (hx : lens.core.fx ≠ 0) (hy : lens.core.fy ≠ 0) (points : List P3) (hp : ∀ p ∈ points, p.z = 0) (obs : List Seen) (rt : RtV)
    (hsee : SeesAll lens points obs (Rt_from_rt rt)) (ho : OffPlane (Rt_from_rt rt)) (h0 : 0 < rt.t.z) (h6 : 6 ≤ (weighted points obs).length) (h4 : FourPoints ((weighted points obs).map Prod.fst)) :
    (∀ T, fixedPoints solve lens points obs = some T → T = Rt_from_rt rt) ∧
      ((∀ pts qs k guess, (solve pts qs k guess).isSome) → fixedPoints solve lens points obs = some (Rt_from_rt rt)) := by
  classical
  have hrows := rows_exact lens points obs (Rt_from_rt rt) hsee
  have hcore : (⟨lens.core.fx * 1, lens.core.fy * 1, lens.core.cx, lens.core.cy⟩ : Core) = lens.core := by simp
  have e1 : (rows lens 1 points obs).map Prod.fst = (weighted points obs).map Prod.fst := by rw [hrows, List.map_map]; rfl
  have e2 : (rows lens 1 points obs).map Prod.snd = ((weighted points obs).map Prod.fst).map fun p => (pinhole lens.core (tr (Rt_from_rt rt) p)).q := by rw [hrows, List.map_map, List.map_map]; rfl
  have hmem : ∀ p ∈ (weighted points obs).map Prod.fst, p ∈ points ∧ 0 < (tr (Rt_from_rt rt) p).z := by
    intro p hpm
    obtain ⟨po, hpo, rfl⟩ := List.mem_map.mp hpm
    unfold weighted at hpo
    obtain ⟨m1, m2⟩ := List.mem_filter.mp hpo
    exact ⟨(List.of_mem_zip m1).1, (hsee po m1 (of_decide_eq_true m2)).1⟩
  have hsol := fun guess out => solve_exact solve hs lens.core hx hy rt ho _ (fun p h => hp p (hmem p h).1) (fun p h => (hmem p h).2) h4 guess out
  have key : ∀ out, solve ((weighted points obs).map Prod.fst) (((weighted points obs).map Prod.fst).map fun p => (pinhole lens.core (tr (Rt_from_rt rt) p)).q) lens.core none = some out →
      tryScale solve lens points obs 1 = .ok (Rt_from_rt rt) := by
    intro out hout
    have heq := hsol none out hout
    have ht : out.t = rt.t := congrArg Rt.t heq
    unfold tryScale
    simp only [hcore, e1, e2]
    rw [if_neg (by rw [hrows, List.length_map]; omega), hout]
    dsimp only
    rw [if_neg (by rw [ht]; linarith), heq]
  have key2 : solve ((weighted points obs).map Prod.fst) (((weighted points obs).map Prod.fst).map fun p => (pinhole lens.core (tr (Rt_from_rt rt) p)).q) lens.core none = none →
      tryScale solve lens points obs 1 = .fail := by
    intro hout
    unfold tryScale
    simp only [hcore, e1, e2]
    rw [if_neg (by rw [hrows, List.length_map]; omega), hout]
  unfold fixedPoints
  constructor
  · intro T hT
    cases hout : solve ((weighted points obs).map Prod.fst) (((weighted points obs).map Prod.fst).map fun p => (pinhole lens.core (tr (Rt_from_rt rt) p)).q) lens.core none with
    | none => rw [key2 hout] at hT; cases hT
    | some out => rw [key out hout] at hT; exact (Option.some.inj hT).symm
  · intro hall
    obtain ⟨out, hout⟩ := Option.isSome_iff_exists.mp (hall ((weighted points obs).map Prod.fst) (((weighted points obs).map Prod.fst).map fun p => (pinhole lens.core (tr (Rt_from_rt rt) p)).q) lens.core none)
    rw [key out hout]

theorem tryScale_front (solve : SolvePnP) (lens : PnpLens) (points : List P3) (obs : List Seen) (s : ℝ) (T : Rt) (h : tryScale solve lens points obs s = .ok T) : 0 < T.t.z := by
  unfold tryScale at h
  dsimp only at h
  split at h
  · cases h
  · split at h
    · cases h
    · split at h
      · split at h
        · cases h
        · rename_i rt _
          split at h
          · cases h
          · rename_i hz
            cases h
            exact not_le.mp hz
      · rename_i hz
        cases h
        exact not_le.mp hz

/-- any pose that's returned has the first corner in front of the camera -/
theorem pose_front (solve : SolvePnP) (lens : PnpLens) (points : List P3) (obs : List Seen) (T : Rt) (h : fixedPoints solve lens points obs = some T) : 0 < T.t.z := by
  unfold fixedPoints at h
  have hv : ∀ s, (tryScale solve lens points obs s).value = some T → 0 < T.t.z := by
    intro s hs
    refine tryScale_front solve lens points obs s T ?_
    cases ht : tryScale solve lens points obs s <;> rw [ht] at hs <;> simp [Res.value] at hs
    rw [hs]
  split at h
  · rename_i ht; cases h; exact tryScale_front solve lens points obs 1 _ ht
  · cases h
  · exact hv _ h
  · exact hv _ h

/-- if the first corner isn't in front of the camera then the true pose isn't returned, whatever solvePnP() does -/
theorem pose_exact_wrong (solve : SolvePnP) (lens : PnpLens) (points : List P3) (obs : List Seen) (T : Rt) (hz : T.t.z ≤ 0) : fixedPoints solve lens points obs ≠ some T := by
  intro h
  have := pose_front solve lens points obs T h
  linarith

end Mrcal.Pnp
