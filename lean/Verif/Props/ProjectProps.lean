import Verif.Model.Project
import Verif.Props.PoseRtProps
import Verif.Props.CahvorProps
import Verif.Props.CameraProps
import Verif.Props.SplineProjectProps
/-
C24, C52: the geometry of the board, and projecting it through a frame and a camera: the pixels, their order, and the gradients with respect to the camera pose,
the frame pose, the board warp (and through the lens the intrinsics).
-/
namespace Mrcal.Pose
open AD

variable {N : Nat}

theorem core_zero1_j (g0 g1 : Vec3 N) (h : g1.value = ⟨0, 0, 0⟩) (hm : 2e-8 ≤ mag3 g0.value ∨ g0.value = ⟨0, 0, 0⟩) (i : Fin N) :
    (⟨(composeRCore g0 g1).x.j i, (composeRCore g0 g1).y.j i, (composeRCore g0 g1).z.j i⟩ : P3) =
      addP ⟨g0.x.j i, g0.y.j i, g0.z.j i⟩ (mulVec (tinyr1_gradientr1 g0.value) ⟨g1.x.j i, g1.y.j i, g1.z.j i⟩) := by
  have m0 : mag3 ⟨0, 0, 0⟩ = 0 := by simp [mag3]
  have e : 0 < cEps := by unfold cEps; norm_num
  have hB : (g1.mag.divC 2).x < cEps := by rw [half_x, h, m0]; linarith
  rcases hm with hm | hm
  · have hA : ¬ (g0.mag.divC 2).x < cEps / 2 := by rw [half_x]; unfold cEps; linarith
    have hb : ¬ norm2 g0.value < 2e-8 * 2e-8 := by
      rw [norm2_eq, not_lt]; exact mul_le_mul hm hm (by norm_num) (mag3_nonneg _)
    have hx : g1.x.x = 0 := congrArg P3.x h
    have hy : g1.y.x = 0 := congrArg P3.y h
    have hz : g1.z.x = 0 := congrArg P3.z h
    unfold composeRCore tinyr1_gradientr1
    simp only [hA, hB, hb, if_true, if_false]
    have hi : (g0.dot g1).x = 0 := by rw [dot_x, h]; simp [inner3]
    have hBx := half_x g0
    have ht : ∀ x : ℝ, Real.sin x / Real.cos x = Real.tan x := fun x => (Real.tan_eq_sin_div_cos x).symm
    simp only [Val.add, Val.mul, Val.sub, Val.ofR, Val.div, Val.mulC, Val.subC, Val.tan, hi, hBx, sqrt_norm2, ht]
    simp only [Vec3.dot, Vec3.cross, Val.add, Val.mul, Val.sub, Val.ofR, Val.divC, Val.mulC, hx, hy, hz, addP, mulVec]
    have hm' : mag3 g0.value ≠ 0 := by
      intro h0
      rw [h0] at hm; norm_num at hm
    have vx : g0.x.x = g0.value.x := rfl
    have vy : g0.y.x = g0.value.y := rfl
    have vz : g0.z.x = g0.value.z := rfl
    rw [vx, vy, vz]
    generalize mag3 g0.value / 2 / Real.tan (mag3 g0.value / 2) = b
    generalize g0.value = r at *
    generalize mag3 r = m at *
    ext <;> simp only [] <;> field_simp <;> ring
  · have hA : (g0.mag.divC 2).x < cEps / 2 := by rw [half_x, hm, m0]; linarith
    have hb : norm2 g0.value < 2e-8 * 2e-8 := by rw [hm]; norm_num [norm2]
    unfold composeRCore tinyr1_gradientr1
    simp only [hA, hB, hb, if_true]
    simp [Vec3.add, Val.add, addP, mulVec, identityR]

/-- **C28**: compose_r(r, 0) reports these gradients too. Either r=0, or |r| ≥ 2e-8 -/
theorem compose_zero_gradient1 (r : P3) (hm : 2e-8 ≤ mag3 r ∨ r = ⟨0, 0, 0⟩) :
    (composer r ⟨0, 0, 0⟩ false false true true).J0 = some identityR ∧
    (composer r ⟨0, 0, 0⟩ false false true true).J1 = some (tinyr1_gradientr1 r) := by
  have key := core_zero1_j (Vec3.init r (some 0) : Vec3 6) (Vec3.init ⟨0, 0, 0⟩ (some 3)) rfl hm
  have vr : (Vec3.init r (some 0) : Vec3 6).value = r := rfl
  rw [vr] at key
  have hc : composer r ⟨0, 0, 0⟩ false false true true =
      ⟨(composeRCore (Vec3.init r (some 0) : Vec3 6) (Vec3.init ⟨0, 0, 0⟩ (some 3))).value,
       some (gradM (composeRCore (Vec3.init r (some 0) : Vec3 6) (Vec3.init ⟨0, 0, 0⟩ (some 3))) 0 (by omega)),
       some (gradM (composeRCore (Vec3.init r (some 0) : Vec3 6) (Vec3.init ⟨0, 0, 0⟩ (some 3))) 3 (by omega))⟩ := rfl
  rw [hc]
  generalize composeRCore (Vec3.init r (some 0) : Vec3 6) (Vec3.init ⟨0, 0, 0⟩ (some 3)) = G at *
  have k0 := key 0
  have k1 := key 1
  have k2 := key 2
  have k3 := key 3
  have k4 := key 4
  have k5 := key 5
  simp only [Vec3.init, addP, mulVec, P3.mk.injEq] at k0 k1 k2 k3 k4 k5
  norm_num at k0 k1 k2 k3 k4 k5
  simp only [gradM, Vec3.grad, Option.some.injEq]
  refine ⟨?_, ?_⟩
  · ext
    · exact k0.1
    · exact k1.1
    · exact k2.1
    · exact k0.2.1
    · exact k1.2.1
    · exact k2.2.1
    · exact k0.2.2
    · exact k1.2.2
    · exact k2.2.2
  · ext
    · exact k3.1
    · exact k4.1
    · exact k5.1
    · exact k3.2.1
    · exact k4.2.1
    · exact k5.2.1
    · exact k3.2.2
    · exact k4.2.2
    · exact k5.2.2

end Mrcal.Pose

namespace Mrcal.Project
open Pose

/-! ### the board -/

/-- **C24**: the corners are produced row by row: output y*W+x is the corner in column x, row y; and there are W*H of these -/
theorem board_order (W H : Nat) : (boardOrder W H).length = W * H ∧
    ∀ x y, x < W → y < H → (boardOrder W H)[y * W + x]? = some (x, y) := by
  unfold boardOrder
  have len : ∀ K, ((List.range K).flatMap fun y => (List.range W).map fun x => (x, y)).length = W * K := by
    intro K
    induction K with
    | zero => simp
    | succ K ih => rw [List.range_succ, List.flatMap_append, List.length_append, ih]; simp; ring
  refine ⟨len H, ?_⟩
  intro x y hx hy
  induction H with
  | zero => omega
  | succ K ih =>
    rw [List.range_succ, List.flatMap_append]
    by_cases h : y < K
    · rw [List.getElem?_append_left, ih h]
      rw [len K]
      calc y * W + x < y * W + W := by omega
        _ = (y + 1) * W := by ring
        _ ≤ K * W := Nat.mul_le_mul_right _ (by omega)
        _ = W * K := by ring
    · have : y = K := by omega
      subst this
      rw [List.getElem?_append_right (by rw [len]; nlinarith), len]
      have e : y * W + x - W * y = x := by rw [Nat.mul_comm W y]; omega
      rw [e]
      simp [hx]

/-- **C24**: the flat position of each corner: (x spacing, y spacing), with z=0 if there's no warp -/
theorem board_flat (W H : Nat) (spacing : ℝ) (warp : Option P2) (x y : Nat) :
    (boardPoint W H spacing warp x y).1.x = x * spacing ∧ (boardPoint W H spacing warp x y).1.y = y * spacing ∧
    (boardPoint W H spacing none x y).1.z = 0 ∧ (boardPoint W H spacing (some ⟨0, 0⟩) x y).1.z = 0 := by
  cases warp <;> simp [boardPoint]

/-- **Specification** the documented deflection: each axis is a parabola k (1 - a²) with a going from -1 to 1 -/
noncomputable def deflection (W H : Nat) (w : P2) (x y : ℝ) : ℝ :=
  w.x * (1 - (2 * x / ((W : ℝ) - 1) - 1) ^ 2) + w.y * (1 - (2 * y / ((H : ℝ) - 1) - 1) ^ 2)

/-- **C24**: the z of each corner is the documented one -/
theorem board_warp (W H : Nat) (spacing : ℝ) (w : P2) (x y : Nat) :
    (boardPoint W H spacing (some w) x y).1.z = deflection W H w x y := by
  simp only [boardPoint, deflection]
  ring

/-- **C24**: the four corners of the board aren't deflected -/
theorem board_corners (W H : Nat) (hW : 2 ≤ W) (hH : 2 ≤ H) (spacing : ℝ) (w : P2) (x y : Nat) (hx : x = 0 ∨ x = W - 1) (hy : y = 0 ∨ y = H - 1) :
    (boardPoint W H spacing (some w) x y).1.z = 0 := by
  have hW' : ((W : ℝ) - 1) ≠ 0 := by
    have : (2 : ℝ) ≤ W := by exact_mod_cast hW
    linarith
  have hH' : ((H : ℝ) - 1) ≠ 0 := by
    have : (2 : ℝ) ≤ H := by exact_mod_cast hH
    linarith
  have cW : ((W - 1 : Nat) : ℝ) = (W : ℝ) - 1 := by rw [Nat.cast_sub (by omega)]; simp
  have cH : ((H - 1 : Nat) : ℝ) = (H : ℝ) - 1 := by rw [Nat.cast_sub (by omega)]; simp
  rw [board_warp]
  unfold deflection
  rcases hx with rfl | rfl <;> rcases hy with rfl | rfl <;> simp only [cW, cH, Nat.cast_zero] <;> field_simp <;> ring

/-- **C24**: the deflection is symmetric: flipping the board left-right or top-bottom doesn't change it -/
theorem board_symmetric (W H : Nat) (spacing : ℝ) (w : P2) (x y : Nat) (hx : x < W) (hy : y < H) (hW : 2 ≤ W) (hH : 2 ≤ H) :
    (boardPoint W H spacing (some w) (W - 1 - x) y).1.z = (boardPoint W H spacing (some w) x y).1.z ∧
    (boardPoint W H spacing (some w) x (H - 1 - y)).1.z = (boardPoint W H spacing (some w) x y).1.z := by
  have hW' : ((W : ℝ) - 1) ≠ 0 := by
    have : (2 : ℝ) ≤ W := by exact_mod_cast hW
    linarith
  have hH' : ((H : ℝ) - 1) ≠ 0 := by
    have : (2 : ℝ) ≤ H := by exact_mod_cast hH
    linarith
  have cW : ((W - 1 - x : Nat) : ℝ) = (W : ℝ) - 1 - x := by rw [Nat.cast_sub (by omega), Nat.cast_sub (by omega)]; simp
  have cH : ((H - 1 - y : Nat) : ℝ) = (H : ℝ) - 1 - y := by rw [Nat.cast_sub (by omega), Nat.cast_sub (by omega)]; simp
  simp only [board_warp]
  unfold deflection
  rw [cW, cH]
  constructor <;> field_simp <;> ring

/-- **C24**: nothing on the board is deflected by more than the center, and the center is deflected by exactly the sum of the two parameters (for warps of
either sign). If both sizes are odd there's a corner at the center -/
theorem board_max (W H : Nat) (hW : 2 ≤ W) (hH : 2 ≤ H) (spacing : ℝ) (w : P2) (x y : Nat) (hx : x < W) (hy : y < H) :
    |(boardPoint W H spacing (some w) x y).1.z| ≤ |w.x| + |w.y| ∧
    (2 * x = W - 1 → 2 * y = H - 1 → (boardPoint W H spacing (some w) x y).1.z = w.x + w.y) ∧
    (0 ≤ w.x → 0 ≤ w.y → 0 ≤ (boardPoint W H spacing (some w) x y).1.z) := by
  have hW2 : (2 : ℝ) ≤ W := by exact_mod_cast hW
  have hH2 : (2 : ℝ) ≤ H := by exact_mod_cast hH
  rw [board_warp]
  unfold deflection
  have range : ∀ (n k : Nat), 2 ≤ n → k < n → 0 ≤ 1 - (2 * (k : ℝ) / ((n : ℝ) - 1) - 1) ^ 2 ∧ 1 - (2 * (k : ℝ) / ((n : ℝ) - 1) - 1) ^ 2 ≤ 1 := by
    intro n k hn hk
    have hn2 : (2 : ℝ) ≤ n := by exact_mod_cast hn
    have hk2 : (k : ℝ) + 1 ≤ n := by exact_mod_cast hk
    have hk0 : (0 : ℝ) ≤ k := Nat.cast_nonneg k
    have q0 : 0 ≤ (k : ℝ) / ((n : ℝ) - 1) := div_nonneg hk0 (by linarith)
    have q1 : (k : ℝ) / ((n : ℝ) - 1) ≤ 1 := by rw [div_le_one (by linarith)]; linarith
    rw [mul_div_assoc]
    generalize (k : ℝ) / ((n : ℝ) - 1) = q at *
    constructor <;> nlinarith
  obtain ⟨a0, a1⟩ := range W x hW hx
  obtain ⟨b0, b1⟩ := range H y hH hy
  refine ⟨?_, ?_, ?_⟩
  · refine (abs_add_le _ _).trans ?_
    rw [abs_mul, abs_mul, abs_of_nonneg a0, abs_of_nonneg b0]
    have := abs_nonneg w.x
    have := abs_nonneg w.y
    nlinarith
  · intro ex ey
    have cx : 2 * (x : ℝ) = (W : ℝ) - 1 := by
      have : 2 * x + 1 = W := by omega
      rw [← this]; push_cast; ring
    have cy : 2 * (y : ℝ) = (H : ℝ) - 1 := by
      have : 2 * y + 1 = H := by omega
      rw [← this]; push_cast; ring
    rw [cx, cy, div_self (by linarith), div_self (by linarith)]
    ring
  · intro p q
    positivity

/-- a 5x7 board has a center; a 10x6 board doesn't -/
example : 2 * 2 = 5 - 1 ∧ 2 * 3 = 7 - 1 ∧ (2 : Nat) ≤ 5 ∧ 2 < 5 ∧ 3 < 7 := by omega

/-- **C24**: the reported gradient of z with respect to the two warp parameters is right: z is linear in these -/
theorem board_warp_gradient (W H : Nat) (spacing : ℝ) (w w' : P2) (x y : Nat) :
    (boardPoint W H spacing (some w') x y).1.z - (boardPoint W H spacing (some w) x y).1.z =
      (boardPoint W H spacing (some w) x y).2.x * (w'.x - w.x) + (boardPoint W H spacing (some w) x y).2.y * (w'.y - w.y) := by
  simp only [boardPoint]
  ring

/-- **C24**: with default arguments, the python function that reports the board geometry produces exactly the geometry the solver uses -/
theorem ref_object_default (W H : Nat) (hW : 2 ≤ W) (hH : 2 ≤ H) (spacing : ℝ) (warp : Option P2) (x y : Nat) :
    refObject W H spacing spacing warp 0 none none 0 none none x y = (boardPoint W H spacing warp x y).1 := by
  have hW' : (2 : ℝ) ≤ W := by exact_mod_cast hW
  have hH' : (2 : ℝ) ≤ H := by exact_mod_cast hH
  have l : ∀ n i : Nat, 2 ≤ n → (2 : ℝ) ≤ n → linspace 0 ((n : ℝ) - 1) n i = i := by
    intro n i h h2
    unfold linspace
    rw [if_neg (by omega), sub_zero, div_self (by linarith)]
    ring
  simp only [refObject, Option.getD_none, l W x hW hW', l H y hH hH']
  cases warp <;> rfl

/-- **C24**: asking for other points on the board: they're on the same parabolic surface, with the same spacing; in particular the endpoints are the requested ones -/
theorem ref_object_surface (W H : Nat) (sx sy : ℝ) (w : P2) (x0 x1 y0 y1 : ℝ) (Nx Ny i j : Nat) (hi : i < Nx) (hj : j < Ny) :
    ∃ x y : ℝ, refObject W H sx sy (some w) x0 (some x1) (some Nx) y0 (some y1) (some Ny) i j = ⟨x * sx, y * sy, deflection W H w x y⟩ ∧
      (i = 0 → x = x0) ∧ (j = 0 → y = y0) ∧ (i + 1 = Nx → 2 ≤ Nx → x = x1) ∧ (j + 1 = Ny → 2 ≤ Ny → y = y1) := by
  refine ⟨linspace x0 x1 Nx i, linspace y0 y1 Ny j, ?_, ?_, ?_, ?_, ?_⟩
  · simp only [refObject, Option.getD_some, deflection]
    ext <;> simp only []
    ring
  · rintro rfl; unfold linspace; split <;> simp
  · rintro rfl; unfold linspace; split <;> simp
  · intro h h2
    have : (2 : ℝ) ≤ Nx := by exact_mod_cast h2
    have e : (i : ℝ) = (Nx : ℝ) - 1 := by rw [← h]; push_cast; ring
    unfold linspace; rw [if_neg (by omega), e]
    field_simp [show (Nx : ℝ) - 1 ≠ 0 by linarith]; ring
  · intro h h2
    have : (2 : ℝ) ≤ Ny := by exact_mod_cast h2
    have e : (j : ℝ) = (Ny : ℝ) - 1 := by rw [← h]; push_cast; ring
    unfold linspace; rw [if_neg (by omega), e]
    field_simp [show (Ny : ℝ) - 1 ≠ 0 by linarith]; ring

/-! ### the point in camera coordinates -/

/-- **Specification**: where a point `pt` of a board with pose `frame` is, in the coordinates of the camera. `cam` is None if the camera is at the reference -/
noncomputable def truth (cam : Option RtV) (frame : RtV) (pt : P3) : Fin 3 → ℝ :=
  let w := trS frame (toVec pt) false
  match cam with
  | none => w
  | some c => trS c w false

/-- the same, as a point -/
noncomputable def truthP (cam : Option RtV) (frame : RtV) (pt : P3) : P3 := ⟨truth cam frame pt 0, truth cam frame pt 1, truth cam frame pt 2⟩

theorem rod_trace (r : P3) : (rod r).trace = 1 + 2 * Real.cos (mag3 r) := by
  rw [rod_eq]
  by_cases h : mag3 r = 0
  · rw [if_pos h, h]; simp [toMat, identityR, Matrix.trace, Fin.sum_univ_three]; norm_num
  · rw [if_neg h]
    have hu := axis_unit r h
    simp [toMat, rodM, Matrix.trace, Fin.sum_univ_three]
    linear_combination (1 - Real.cos (mag3 r)) * hu

/-- which rotations the statements are about. With a camera transform: the two rotations are nonzero, and their composition isn't near 0 and isn't a half-turn; or one or both
are exactly 0 -/
def Regular (cam : Option P3) (rf : P3) : Prop :=
  match cam with
  | none => rf = ⟨0, 0, 0⟩ ∨ dblEpsilon ≤ mag3 rf
  | some rc =>
    (2e-5 < mag3 rc ∧ 2e-5 < mag3 rf ∧ (rod rc * rod rf).trace < 3 - 4e-16 ∧ (rod rc * rod rf).trace ≠ -1) ∨
    (rc = ⟨0, 0, 0⟩ ∧ (2e-5 ≤ mag3 rf ∧ Real.sin (mag3 rf / 2) ≠ 0 ∨ rf = ⟨0, 0, 0⟩)) ∨
    (rf = ⟨0, 0, 0⟩ ∧ 2e-5 ≤ mag3 rc ∧ Real.sin (mag3 rc / 2) ≠ 0)

theorem toMat_of_rod (r : P3) (h : r = ⟨0, 0, 0⟩ ∨ dblEpsilon ≤ mag3 r) : toMat (R_from_r r) = rod r := (R_from_r_meaning r).1 h

theorem eps_le {x y : ℝ} (h : x ≤ y) (hx : 2e-8 ≤ x := by norm_num) : dblEpsilon ≤ y :=
  le_trans (le_trans (by unfold dblEpsilon; norm_num) hx) h

/-- the joint rotation, and its derivative -/
theorem joint_rot (rc rf : ℝ → P3) (rc' rf' : P3) (t : ℝ) (hc : HasDerivP rc rc' t) (hf : HasDerivP rf rf' t) (hreg : Regular (some (rc t)) (rf t)) :
    let o := composer (rc t) (rf t) false false true true
    toMat (R_from_r o.r) = rod (rc t) * rod (rf t) ∧
    ∀ i j, HasDerivAt (fun s => (rod (rc s) * rod (rf s)) i j)
      (toMat (comb (R_from_r_J o.r) (addP (mulVec (o.J0.getD identityR) rc') (mulVec (o.J1.getD identityR) rf'))) i j) t := by
  intro o
  have idm : ∀ v, mulVec identityR v = v := by intro v; simp [mulVec, identityR]
  rcases hreg with ⟨m0, m1, h3, h1⟩ | ⟨z, h⟩ | ⟨z, h, hs⟩
  · have ri : ∀ r, rodInv r false = rod r := fun r => rfl
    obtain ⟨hm, -⟩ := compose_meaning (rc t) (rf t) false false true true m0.le m1.le (Or.inr (by simp only [ri]; exact h3.le))
    simp only [ri] at hm
    have hmag : dblEpsilon ≤ mag3 o.r := by
      by_contra hlt
      rw [not_le] at hlt
      rw [← hm, rod_trace] at h3
      have := Real.one_sub_sq_div_two_le_cos (x := mag3 o.r)
      have hd : dblEpsilon < 1e-15 := by unfold dblEpsilon; norm_num
      have h0 := mag3_nonneg o.r
      have hq : mag3 o.r ^ 2 ≤ (1e-15) ^ 2 := pow_le_pow_left₀ h0 (hlt.trans hd).le 2
      norm_num at hq
      have h3' : 1 + 2 * Real.cos (mag3 o.r) < 3 - 4e-16 := h3
      norm_num at h3'
      linarith
    refine ⟨by rw [toMat_of_rod _ (Or.inr hmag)]; exact hm, ?_⟩
    intro i j
    obtain ⟨J0, J1, e0, e1, hd⟩ := compose_gradient rc rf rc' rf' t false false hc hf m0 m1 (by simp only [ri]; exact h3) (by simp only [ri]; exact h1)
    have e0' : o.J0.getD identityR = J0 := by show (composer _ _ _ _ _ _).J0.getD _ = _; rw [e0]; rfl
    have e1' : o.J1.getD identityR = J1 := by show (composer _ _ _ _ _ _).J1.getD _ = _; rw [e1]; rfl
    rw [e0', e1']
    have key := R_from_r_gradient _ _ t hd hmag i j
    refine HasDerivAt.congr_of_eventuallyEq key ?_
    have n0 : mag3 (rc t) ≠ 0 := by
      intro h; rw [h] at m0; norm_num at m0
    have n1 : mag3 (rf t) ≠ 0 := by
      intro h; rw [h] at m1; norm_num at m1
    have ev0 : ∀ᶠ s in nhds t, 2e-5 < mag3 (rc s) := (angle_deriv hc n0).continuousAt.eventually_const_lt m0
    have ev1 : ∀ᶠ s in nhds t, 2e-5 < mag3 (rf s) := (angle_deriv hf n1).continuousAt.eventually_const_lt m1
    have dc := fun i j => (R_from_r_gradient rc rc' t hc (eps_le m0.le) i j).continuousAt
    have df := fun i j => (R_from_r_gradient rf rf' t hf (eps_le m1.le) i j).continuousAt
    have ct : ContinuousAt (fun s => (rod (rc s) * rod (rf s)).trace) t := by
      simp only [Matrix.trace, Matrix.diag, Matrix.mul_apply, Fin.sum_univ_three]
      have g := fun i => (((dc i 0).mul (df 0 i)).add ((dc i 1).mul (df 1 i))).add ((dc i 2).mul (df 2 i))
      exact ((g 0).add (g 1)).add (g 2)
    have ev2 := ct.eventually_lt_const h3
    filter_upwards [ev0, ev1, ev2] with s a b c
    have := (compose_meaning (rc s) (rf s) false false true true a.le b.le (Or.inr (by simp only [ri]; exact c.le))).1
    simp only [ri] at this
    rw [this]
  · have ho : o.r = rf t := by
      show (composer (rc t) (rf t) false false true true).r = _
      rw [z, (compose_zero (rf t) false false true true).1]; rfl
    have hJ := compose_zero_gradient (rf t)
    rw [← z] at hJ
    have e0 : o.J0.getD identityR = tinyr0_gradientr0 (rf t) := by show (composer _ _ _ _ _ _).J0.getD _ = _; rw [hJ.1]; rfl
    have e1 : o.J1.getD identityR = identityR := by show (composer _ _ _ _ _ _).J1.getD _ = _; rw [hJ.2]; rfl
    rw [e0, e1, ho, idm]
    refine ⟨?_, fun i j => (compose_tiny_gradient rc rf rc' rf' t hc hf z (h.imp (fun h => ⟨le_trans (by norm_num) h.1, h.2⟩) id) i j).1⟩
    rw [z, rod_zero, Matrix.one_mul]
    exact toMat_of_rod _ (h.symm.imp id (fun h => eps_le h.1))
  · have ho : o.r = rc t := by
      show (composer (rc t) (rf t) false false true true).r = _
      rw [z, (compose_zero (rc t) false false true true).2]; rfl
    have hJ := compose_zero_gradient1 (rc t) (Or.inl (le_trans (by norm_num) h))
    rw [← z] at hJ
    have e0 : o.J0.getD identityR = identityR := by show (composer _ _ _ _ _ _).J0.getD _ = _; rw [hJ.1]; rfl
    have e1 : o.J1.getD identityR = tinyr1_gradientr1 (rc t) := by show (composer _ _ _ _ _ _).J1.getD _ = _; rw [hJ.2]; rfl
    rw [e0, e1, ho, idm]
    refine ⟨?_, fun i j => (compose_tiny_gradient rf rc rf' rc' t hf hc z (Or.inl ⟨le_trans (by norm_num) h, hs⟩) i j).2⟩
    rw [z, rod_zero, Matrix.mul_one]
    exact toMat_of_rod _ (Or.inr (eps_le h))

theorem mulVec_of_mat (M : M3) (A : Matrix (Fin 3) (Fin 3) ℝ) (h : toMat M = A) (v : P3) (i : Fin 3) :
    toVec (mulVec M v) i = A i 0 * v.x + A i 1 * v.y + A i 2 * v.z := by
  subst h
  fin_cases i <;> simp [toVec, mulVec, toMat]

theorem comb_pt (D : M3 × M3 × M3) (v pt : P3) (i : Fin 3) :
    toMat (comb D v) i 0 * pt.x + toMat (comb D v) i 1 * pt.y + toMat (comb D v) i 2 * pt.z = toVec (mulVec (ptJ pt D) v) i := by
  fin_cases i <;> simp [toVec, mulVec, toMat, comb, ptJ] <;> ring

theorem mulVec_add (M : M3) (a b : P3) : mulVec M (addP a b) = addP (mulVec M a) (mulVec M b) := by
  simp only [mulVec, addP]; ext <;> simp only [] <;> ring

theorem mulVec_mul (A B : M3) (v : P3) : mulVec (mul A B) v = mulVec A (mulVec B v) := by
  simp only [mulVec, mul, vecMul]; ext <;> simp only [] <;> ring

theorem mulVec_addM (A B : M3) (v : P3) : mulVec (addM A B) v = addP (mulVec A v) (mulVec B v) := by
  simp only [mulVec, addM, addP]; ext <;> simp only [] <;> ring

theorem mulVec_id (v : P3) : mulVec identityR v = v := by simp [mulVec, identityR]

theorem truthP_of {cam : Option RtV} {frame : RtV} {pt p : P3} (h : ∀ i, toVec p i = truth cam frame pt i) : p = truthP cam frame pt := by
  unfold truthP
  ext
  · exact h 0
  · exact h 1
  · exact h 2

theorem HasDerivP_of {f : ℝ → Fin 3 → ℝ} {v : P3} {t : ℝ} (h : ∀ i, HasDerivAt (fun s => f s i) (toVec v i) t) :
    HasDerivP (fun s => ⟨f s 0, f s 1, f s 2⟩) v t := ⟨h 0, h 1, h 2⟩

theorem composert_ff (c f : RtV) : composert c f false false =
    let k := composer c.r f.r false false true true
    let o := rotatePointr c.r f.t false true true
    { rt := ⟨k.r, addP o.x c.t⟩, dr_r0 := k.J0.getD identityR, dr_r1 := k.J1.getD identityR,
      dt_r0 := o.Jr.getD identityR, dt_r1 := zeroM, dt_t0 := identityR, dt_t1 := o.Jx.getD identityR } := rfl

/-- **C52** (the point, with a camera transform): the position in camera coordinates, and how it moves when everything moves: both poses and the point on the board -/
theorem cam_point (c f : ℝ → RtV) (pt : ℝ → P3) (rc' tc' rf' tf' pt' : P3) (t : ℝ)
    (hrc : HasDerivP (fun s => (c s).r) rc' t) (htc : HasDerivP (fun s => (c s).t) tc' t)
    (hrf : HasDerivP (fun s => (f s).r) rf' t) (htf : HasDerivP (fun s => (f s).t) tf' t) (hpt : HasDerivP pt pt' t)
    (hreg : Regular (some (c t).r) (f t).r) :
    let g := composert (c t) (f t) false false
    let o := propagateExtrinsics (pt t) (some g) g.rt
    o.p = truthP (some (c t)) (f t) (pt t) ∧
    HasDerivP (fun s => truthP (some (c s)) (f s) (pt s))
      (addP (addP (addP (mulVec (o.drc.getD zeroM) rc') (mulVec (o.dtc.getD zeroM) tc')) (addP (mulVec o.drf rf') (mulVec (o.dtf.getD zeroM) tf')))
        (mulVec (R_from_r g.rt.r) pt')) t := by
  intro g o
  have hc0 : 1e-5 ≤ mag3 (c t).r ∨ (c t).r = ⟨0, 0, 0⟩ := by
    rcases hreg with h | h | h
    · exact Or.inl (le_trans (by norm_num) h.1.le)
    · exact Or.inr h.1
    · exact Or.inl (le_trans (by norm_num) h.2.1)
  have hf0 : 1e-5 ≤ mag3 (f t).r ∨ (f t).r = ⟨0, 0, 0⟩ := by
    rcases hreg with h | h | h
    · exact Or.inl (le_trans (by norm_num) h.2.1.le)
    · exact h.2.imp (fun h => le_trans (by norm_num) h.1) id
    · exact Or.inr h.1
  obtain ⟨hR, hdR⟩ := joint_rot _ _ rc' rf' t hrc hrf hreg
  have hT := fun i => compose_rt_gradient c f rc' tc' rf' tf' t false false hrc htc hrf htf hc0 hf0 i
  have split : ∀ s i, truth (some (c s)) (f s) (pt s) i =
      ((rod (c s).r * rod (f s).r) i 0 * (pt s).x + (rod (c s).r * rod (f s).r) i 1 * (pt s).y + (rod (c s).r * rod (f s).r) i 2 * (pt s).z)
      + trS (c s) (trS (f s) 0 false) false i := by
    intro s i
    have e : truth (some (c s)) (f s) (pt s) = (rod (c s).r * rod (f s).r).mulVec (toVec (pt s)) + trS (c s) (trS (f s) 0 false) false := by
      simp only [truth, trS, Bool.false_eq_true, if_false, Matrix.mulVec_add, Matrix.mulVec_mulVec, Matrix.mulVec_zero, zero_add]
      rw [add_assoc]
    rw [e]
    simp only [Pi.add_apply, Matrix.mulVec, dotProduct, Fin.sum_univ_three, toVec]
    simp
  refine ⟨?_, ?_⟩
  · apply truthP_of
    intro i
    rw [split t i, ← mulVec_of_mat _ _ hR, ← (hT i).1]
    have : o.p = addP (mulVec (R_from_r g.rt.r) (pt t)) g.rt.t := rfl
    rw [this, toVec_add]
    rfl
  · apply HasDerivP_of
    intro i
    simp only [split]
    obtain ⟨hx, hy, hz⟩ := hpt
    have h := ((((hdR i 0).mul hx).add ((hdR i 1).mul hy)).add ((hdR i 2).mul hz)).add (hT i).2
    refine HasDerivAt.congr_deriv h ?_
    have e1 := comb_pt (R_from_r_J g.rt.r) (addP (mulVec g.dr_r0 rc') (mulVec g.dr_r1 rf')) (pt t) i
    have e2 := mulVec_of_mat _ _ hR pt' i
    have gr : g.rt.r = (composer (c t).r (f t).r false false true true).r := rfl
    have g0 : g.dr_r0 = (composer (c t).r (f t).r false false true true).J0.getD identityR := rfl
    have g1 : g.dr_r1 = (composer (c t).r (f t).r false false true true).J1.getD identityR := rfl
    have z1 : g.dt_r1 = zeroM := rfl
    have z2 : g.dt_t0 = identityR := rfl
    rw [← gr] at e2 ⊢
    rw [← g0, ← g1]
    have k1 : mulVec zeroM rf' = ⟨0, 0, 0⟩ := by simp [mulVec, zeroM]
    have k2 : mulVec identityR tc' = tc' := mulVec_id tc'
    have eo1 : o.drc.getD zeroM = addM (mul (ptJ (pt t) (R_from_r_J g.rt.r)) g.dr_r0) g.dt_r0 := rfl
    have eo2 : o.drf = mul (ptJ (pt t) (R_from_r_J g.rt.r)) g.dr_r1 := rfl
    have eo3 : o.dtf.getD zeroM = g.dt_t1 := rfl
    have eo4 : o.dtc.getD zeroM = identityR := rfl
    show _ + toVec (addP (addP (mulVec g.dt_r0 rc') (mulVec g.dt_r1 rf')) (addP (mulVec g.dt_t0 tc') (mulVec g.dt_t1 tf'))) i = _
    rw [eo1, eo2, eo3, eo4, z1, z2, k1, k2, mulVec_addM, mulVec_mul, mulVec_mul]
    rw [mulVec_add] at e1
    simp only [toVec_add, Pi.add_apply] at e1 e2 ⊢
    rw [e2]
    have k3 : toVec ⟨0, 0, 0⟩ i = 0 := by fin_cases i <;> simp [toVec]
    rw [k3]
    linear_combination e1

/-- **C52** (the point, with the camera at the reference) -/
theorem ref_point (f : ℝ → RtV) (pt : ℝ → P3) (rf' tf' pt' : P3) (t : ℝ)
    (hrf : HasDerivP (fun s => (f s).r) rf' t) (htf : HasDerivP (fun s => (f s).t) tf' t) (hpt : HasDerivP pt pt' t)
    (hreg : Regular none (f t).r) :
    let o := propagateExtrinsics (pt t) none (f t)
    o.p = truthP none (f t) (pt t) ∧
    HasDerivP (fun s => truthP none (f s) (pt s)) (addP (addP (mulVec o.drf rf') tf') (mulVec (R_from_r (f t).r) pt')) t := by
  intro o
  have hR : toMat (R_from_r (f t).r) = rod (f t).r := toMat_of_rod _ hreg
  have hdR : ∀ i j, HasDerivAt (fun s => rod (f s).r i j) (toMat (comb (R_from_r_J (f t).r) rf') i j) t := by
    intro i j
    rcases hreg with h | h
    · exact R_from_r_gradient_zero _ rf' t hrf h i j
    · exact R_from_r_gradient _ rf' t hrf h i j
  have split : ∀ s i, truth none (f s) (pt s) i =
      (rod (f s).r i 0 * (pt s).x + rod (f s).r i 1 * (pt s).y + rod (f s).r i 2 * (pt s).z) + toVec (f s).t i := by
    intro s i
    simp only [truth, trS, Bool.false_eq_true, if_false, Pi.add_apply, Matrix.mulVec, dotProduct, Fin.sum_univ_three]
    simp [toVec]
  refine ⟨?_, ?_⟩
  · apply truthP_of
    intro i
    rw [split t i, ← mulVec_of_mat _ _ hR]
    have : o.p = addP (mulVec (R_from_r (f t).r) (pt t)) (f t).t := rfl
    rw [this, toVec_add]
    rfl
  · apply HasDerivP_of
    intro i
    simp only [split]
    obtain ⟨hx, hy, hz⟩ := hpt
    have h := ((((hdR i 0).mul hx).add ((hdR i 1).mul hy)).add ((hdR i 2).mul hz)).add (htf.toVec i)
    refine HasDerivAt.congr_deriv h ?_
    have e1 := comb_pt (R_from_r_J (f t).r) rf' (pt t) i
    have e2 := mulVec_of_mat _ _ hR pt' i
    have eo : o.drf = ptJ (pt t) (R_from_r_J (f t).r) := rfl
    rw [eo]
    simp only [toVec_add, Pi.add_apply] at e1 e2 ⊢
    rw [e2]
    linear_combination e1

/-! ### the pixel -/

/-- **Specification**: a lens that may itself be moving: `Q s` is the lens at time s. At time t and at the point p it reports `o`; the intrinsics moving contributes the rates
(ex, ey) to the pixel -/
def LensRate (Q : ℝ → P3 → P2) (t : ℝ) (p : P3) (o : Cam.Proj) (ex ey : ℝ) : Prop :=
  o.q = Q t p ∧
  ∀ (P : ℝ → P3) (P' : P3), P t = p → HasDerivP P P' t →
    HasDerivAt (fun s => (Q s (P s)).x) (inner3 o.dqx P' + ex) t ∧
    HasDerivAt (fun s => (Q s (P s)).y) (inner3 o.dqy P' + ey) t

/-- **Specification**: the rate of change of the pixel implied by the reported gradients -/
def rate (o : Out) (rc' tc' rf' tf' : P3) (w' : P2) : P2 :=
  ⟨inner3 o.drcamera.x rc' + inner3 o.dtcamera.x tc' + inner3 o.drframe.x rf' + inner3 o.dtframe.x tf' + (o.dwarpx.x * w'.x + o.dwarpx.y * w'.y),
   inner3 o.drcamera.y rc' + inner3 o.dtcamera.y tc' + inner3 o.drframe.y rf' + inner3 o.dtframe.y tf' + (o.dwarpy.x * w'.x + o.dwarpy.y * w'.y)⟩

theorem boardPoint_deriv (W H : Nat) (spacing : ℝ) (w : ℝ → P2) (w' : P2) (t : ℝ) (x y : Nat)
    (hx : HasDerivAt (fun s => (w s).x) w'.x t) (hy : HasDerivAt (fun s => (w s).y) w'.y t) :
    HasDerivP (fun s => (boardPoint W H spacing (some (w s)) x y).1)
      ⟨0, 0, (boardPoint W H spacing (some (w t)) x y).2.x * w'.x + (boardPoint W H spacing (some (w t)) x y).2.y * w'.y⟩ t := by
  refine ⟨hasDerivAt_const _ _, hasDerivAt_const _ _, ?_⟩
  simp only [boardPoint]
  have h := ((hx.mul_const (4 * ((x : ℝ) / ((W : ℝ) - 1)) * (1 - (x : ℝ) / ((W : ℝ) - 1)))).const_add 0).add
    (hy.mul_const (4 * ((y : ℝ) / ((H : ℝ) - 1)) * (1 - (y : ℝ) / ((H : ℝ) - 1))))
  refine HasDerivAt.congr_deriv h ?_
  ring

/-- **C52**: a corner of the board seen by a camera: the pixel is the lens applied to the corner's position in the camera's coordinates; and the reported gradients with
respect to the camera pose, the frame pose and the warp are the true ones: when all of these move at once (and the intrinsics move too), the pixel moves at the rate these
gradients say. For any lens -/
theorem project_corner (lens : P3 → Cam.Proj) (Q : ℝ → P3 → P2) (c f : ℝ → RtV) (w : ℝ → P2) (rc' tc' rf' tf' : P3) (w' : P2) (ex ey t : ℝ)
    (W H : Nat) (spacing : ℝ) (x y : Nat)
    (hrc : HasDerivP (fun s => (c s).r) rc' t) (htc : HasDerivP (fun s => (c s).t) tc' t)
    (hrf : HasDerivP (fun s => (f s).r) rf' t) (htf : HasDerivP (fun s => (f s).t) tf' t)
    (hwx : HasDerivAt (fun s => (w s).x) w'.x t) (hwy : HasDerivAt (fun s => (w s).y) w'.y t)
    (hreg : Regular (some (c t).r) (f t).r) :
    let corner := fun s => truthP (some (c s)) (f s) (boardPoint W H spacing (some (w s)) x y).1
    LensRate Q t (corner t) (lens (corner t)) ex ey →
    let o := projectCorner lens (some (c t)) (f t) W H spacing (some (w t)) x y
    o.q = Q t (corner t) ∧
    HasDerivAt (fun s => (Q s (corner s)).x) ((rate o rc' tc' rf' tf' w').x + ex) t ∧
    HasDerivAt (fun s => (Q s (corner s)).y) ((rate o rc' tc' rf' tf' w').y + ey) t := by
  intro corner hl o
  obtain ⟨hp, hd⟩ := cam_point c f _ rc' tc' rf' tf' _ t hrc htc hrf htf (boardPoint_deriv W H spacing w w' t x y hwx hwy) hreg
  obtain ⟨hq, hr⟩ := hl
  have key := hr corner _ rfl hd
  have eo : o = projectPoint lens false (propagateExtrinsics (boardPoint W H spacing (some (w t)) x y).1 (some (composert (c t) (f t) false false))
      (composert (c t) (f t) false false).rt) (R_from_r (composert (c t) (f t) false false).rt.r) (boardPoint W H spacing (some (w t)) x y).2 := rfl
  have hp' : (propagateExtrinsics (boardPoint W H spacing (some (w t)) x y).1 (some (composert (c t) (f t) false false))
      (composert (c t) (f t) false false).rt).p = corner t := hp
  have eg : (propagateExtrinsics (boardPoint W H spacing (some (w t)) x y).1 (some (composert (c t) (f t) false false))
      (composert (c t) (f t) false false).rt).dtc = some identityR := rfl
  have eg2 : ∃ A, (propagateExtrinsics (boardPoint W H spacing (some (w t)) x y).1 (some (composert (c t) (f t) false false))
      (composert (c t) (f t) false false).rt).drc = some A := ⟨_, rfl⟩
  have eg3 : ∃ A, (propagateExtrinsics (boardPoint W H spacing (some (w t)) x y).1 (some (composert (c t) (f t) false false))
      (composert (c t) (f t) false false).rt).dtf = some A := ⟨_, rfl⟩
  generalize propagateExtrinsics (boardPoint W H spacing (some (w t)) x y).1 (some (composert (c t) (f t) false false))
      (composert (c t) (f t) false false).rt = P at *
  obtain ⟨A, hA⟩ := eg2
  obtain ⟨B, hB⟩ := eg3
  generalize R_from_r (composert (c t) (f t) false false).rt.r = Rj at *
  generalize (boardPoint W H spacing (some (w t)) x y).2 = dz at *
  clear_value o
  subst eo
  rw [hA, hB, eg] at key
  simp only [Option.getD_some] at key
  refine ⟨?_, ?_, ?_⟩
  · simp only [projectPoint, hp']; exact hq
  · refine HasDerivAt.congr_deriv key.1 ?_
    simp only [rate, projectPoint, hp', hA, hB, eg, Option.getD_some, chain, Bool.false_eq_true, if_false]
    generalize lens (corner t) = L
    simp only [inner3, vecMul, mulVec, addP, identityR]
    ring
  · refine HasDerivAt.congr_deriv key.2 ?_
    simp only [rate, projectPoint, hp', hA, hB, eg, Option.getD_some, chain, Bool.false_eq_true, if_false]
    generalize lens (corner t) = L
    simp only [inner3, vecMul, mulVec, addP, identityR]
    ring

/-- **C52**: the same, for a camera at the reference: the camera gradients are reported as 0 -/
theorem project_corner_ref (lens : P3 → Cam.Proj) (Q : ℝ → P3 → P2) (f : ℝ → RtV) (w : ℝ → P2) (rf' tf' : P3) (w' : P2) (ex ey t : ℝ)
    (W H : Nat) (spacing : ℝ) (x y : Nat)
    (hrf : HasDerivP (fun s => (f s).r) rf' t) (htf : HasDerivP (fun s => (f s).t) tf' t)
    (hwx : HasDerivAt (fun s => (w s).x) w'.x t) (hwy : HasDerivAt (fun s => (w s).y) w'.y t)
    (hreg : Regular none (f t).r) :
    let corner := fun s => truthP none (f s) (boardPoint W H spacing (some (w s)) x y).1
    LensRate Q t (corner t) (lens (corner t)) ex ey →
    let o := projectCorner lens none (f t) W H spacing (some (w t)) x y
    o.q = Q t (corner t) ∧ o.drcamera = ⟨⟨0, 0, 0⟩, ⟨0, 0, 0⟩⟩ ∧ o.dtcamera = ⟨⟨0, 0, 0⟩, ⟨0, 0, 0⟩⟩ ∧
    HasDerivAt (fun s => (Q s (corner s)).x) ((rate o ⟨0, 0, 0⟩ ⟨0, 0, 0⟩ rf' tf' w').x + ex) t ∧
    HasDerivAt (fun s => (Q s (corner s)).y) ((rate o ⟨0, 0, 0⟩ ⟨0, 0, 0⟩ rf' tf' w').y + ey) t := by
  intro corner hl o
  obtain ⟨hp, hd⟩ := ref_point f _ rf' tf' _ t hrf htf (boardPoint_deriv W H spacing w w' t x y hwx hwy) hreg
  obtain ⟨hq, hr⟩ := hl
  have key := hr corner _ rfl hd
  have eo : o = projectPoint lens true (propagateExtrinsics (boardPoint W H spacing (some (w t)) x y).1 none (f t)) (R_from_r (f t).r)
      (boardPoint W H spacing (some (w t)) x y).2 := rfl
  have hp' : (propagateExtrinsics (boardPoint W H spacing (some (w t)) x y).1 none (f t)).p = corner t := hp
  generalize propagateExtrinsics (boardPoint W H spacing (some (w t)) x y).1 none (f t) = P at *
  generalize R_from_r (f t).r = Rj at *
  generalize (boardPoint W H spacing (some (w t)) x y).2 = dz at *
  clear_value o
  subst eo
  refine ⟨?_, rfl, rfl, ?_, ?_⟩
  · simp only [projectPoint, hp']; exact hq
  · refine HasDerivAt.congr_deriv key.1 ?_
    simp only [rate, projectPoint, hp', chain, if_true]
    generalize lens (corner t) = L
    simp only [inner3, vecMul, mulVec, addP]
    ring
  · refine HasDerivAt.congr_deriv key.2 ?_
    simp only [rate, projectPoint, hp', chain, if_true]
    generalize lens (corner t) = L
    simp only [inner3, vecMul, mulVec, addP]
    ring

/-- without a warp the pixels are those of an undeformed board -/
theorem project_corner_nowarp (lens : P3 → Cam.Proj) (cam : Option RtV) (frame : RtV) (W H : Nat) (spacing : ℝ) (x y : Nat) :
    let o := projectCorner lens cam frame W H spacing none x y
    let o' := projectCorner lens cam frame W H spacing (some ⟨0, 0⟩) x y
    o.q = o'.q ∧ o.drcamera = o'.drcamera ∧ o.dtcamera = o'.dtcamera ∧ o.drframe = o'.drframe ∧ o.dtframe = o'.dtframe := by
  have e : (boardPoint W H spacing (some ⟨0, 0⟩) x y).1 = (boardPoint W H spacing none x y).1 := by simp [boardPoint]
  simp only [projectCorner, e]
  generalize propagateExtrinsics (boardPoint W H spacing none x y).1 (joint cam frame).2 (joint cam frame).1 = P
  exact ⟨rfl, rfl, rfl, rfl, rfl⟩

/-- **C52**: a discrete point seen by a camera. Only the translation of the "frame" is meaningful: it's the position of the point. This holds for all camera rotations ≥ 1e-5,
and for a camera rotation of 0 -/
theorem project_discrete (lens : P3 → Cam.Proj) (Q : ℝ → P3 → P2) (c : ℝ → RtV) (p : ℝ → P3) (rc' tc' p' : P3) (ex ey t : ℝ)
    (hrc : HasDerivP (fun s => (c s).r) rc' t) (htc : HasDerivP (fun s => (c s).t) tc' t) (hp : HasDerivP p p' t)
    (hreg : 1e-5 ≤ mag3 (c t).r ∨ (c t).r = ⟨0, 0, 0⟩) :
    let point := fun s => truthP (some (c s)) ⟨⟨0, 0, 0⟩, p s⟩ ⟨0, 0, 0⟩
    LensRate Q t (point t) (lens (point t)) ex ey →
    let o := projectDiscrete lens (some (c t)) (p t)
    o.q = Q t (point t) ∧
    HasDerivAt (fun s => (Q s (point s)).x) ((rate o rc' tc' ⟨0, 0, 0⟩ p' ⟨0, 0⟩).x + ex) t ∧
    HasDerivAt (fun s => (Q s (point s)).y) ((rate o rc' tc' ⟨0, 0, 0⟩ p' ⟨0, 0⟩).y + ey) t := by
  intro point hl o
  have hz : HasDerivP (fun _ : ℝ => (⟨0, 0, 0⟩ : P3)) ⟨0, 0, 0⟩ t := ⟨hasDerivAt_const _ _, hasDerivAt_const _ _, hasDerivAt_const _ _⟩
  have z : (0 : Fin 3 → ℝ) = toVec ⟨0, 0, 0⟩ := by ext k; fin_cases k <;> simp [toVec]
  have hT := fun i => compose_rt_gradient c (fun s => ⟨⟨0, 0, 0⟩, p s⟩) rc' tc' ⟨0, 0, 0⟩ p' t false false hrc htc hz hp hreg (Or.inr rfl) i
  have et : ∀ s i, trS (c s) (trS ⟨⟨0, 0, 0⟩, p s⟩ 0 false) false i = truth (some (c s)) ⟨⟨0, 0, 0⟩, p s⟩ ⟨0, 0, 0⟩ i := by
    intro s i; rw [z]; rfl
  simp only [et] at hT
  have hd : HasDerivP point _ t := HasDerivP_of fun i => (hT i).2
  have eo : o = projectPoint lens false (propagateExtrinsics ⟨0, 0, 0⟩ (some (composert (c t) ⟨⟨0, 0, 0⟩, p t⟩ false false))
      (composert (c t) ⟨⟨0, 0, 0⟩, p t⟩ false false).rt) (R_from_r (composert (c t) ⟨⟨0, 0, 0⟩, p t⟩ false false).rt.r) ⟨0, 0⟩ := rfl
  have hv : (composert (c t) ⟨⟨0, 0, 0⟩, p t⟩ false false).rt.t = point t := truthP_of fun i => by rw [(hT i).1]; exact et t i
  have z1 : (composert (c t) ⟨⟨0, 0, 0⟩, p t⟩ false false).dt_t0 = identityR := rfl
  generalize composert (c t) ⟨⟨0, 0, 0⟩, p t⟩ false false = g at *
  obtain ⟨hq, hr⟩ := hl
  have key := hr point _ rfl hd
  have hp' : addP (mulVec (R_from_r g.rt.r) ⟨0, 0, 0⟩) g.rt.t = point t := by
    rw [hv]; simp [addP, mulVec]
  have hJ : ptJ ⟨0, 0, 0⟩ (R_from_r_J g.rt.r) = zeroM := by simp [ptJ, zeroM]
  clear_value o
  subst eo
  refine ⟨?_, ?_, ?_⟩
  · simp only [projectPoint, propagateExtrinsics, hp']; exact hq
  · refine HasDerivAt.congr_deriv key.1 ?_
    simp only [rate, projectPoint, propagateExtrinsics, hp', hJ, chain, Option.getD_some, Bool.false_eq_true, if_false, z1]
    generalize lens (point t) = L
    simp only [inner3, vecMul, mulVec, addP, identityR, mul, addM, zeroM]
    ring
  · refine HasDerivAt.congr_deriv key.2 ?_
    simp only [rate, projectPoint, propagateExtrinsics, hp', hJ, chain, Option.getD_some, Bool.false_eq_true, if_false, z1]
    generalize lens (point t) = L
    simp only [inner3, vecMul, mulVec, addP, identityR, mul, addM, zeroM]
    ring

/-- **C52**: a discrete point seen by a camera at the reference: the pixel is that of the point itself -/
theorem project_discrete_ref (lens : P3 → Cam.Proj) (Q : ℝ → P3 → P2) (p : ℝ → P3) (p' : P3) (ex ey t : ℝ) (hp : HasDerivP p p' t)
    (hl : LensRate Q t (p t) (lens (p t)) ex ey) :
    let o := projectDiscrete lens none (p t)
    o.q = Q t (p t) ∧ o.drcamera = ⟨⟨0, 0, 0⟩, ⟨0, 0, 0⟩⟩ ∧ o.dtcamera = ⟨⟨0, 0, 0⟩, ⟨0, 0, 0⟩⟩ ∧
    HasDerivAt (fun s => (Q s (p s)).x) ((rate o ⟨0, 0, 0⟩ ⟨0, 0, 0⟩ ⟨0, 0, 0⟩ p' ⟨0, 0⟩).x + ex) t ∧
    HasDerivAt (fun s => (Q s (p s)).y) ((rate o ⟨0, 0, 0⟩ ⟨0, 0, 0⟩ ⟨0, 0, 0⟩ p' ⟨0, 0⟩).y + ey) t := by
  intro o
  obtain ⟨hq, hr⟩ := hl
  have key := hr p p' rfl hp
  have e : addP (mulVec (R_from_r ⟨0, 0, 0⟩) ⟨0, 0, 0⟩) (p t) = p t := by simp [addP, mulVec]
  have eo : o = projectPoint lens true ⟨addP (mulVec (R_from_r ⟨0, 0, 0⟩) ⟨0, 0, 0⟩) (p t), none, none, ptJ ⟨0, 0, 0⟩ (R_from_r_J ⟨0, 0, 0⟩), none⟩
    (R_from_r ⟨0, 0, 0⟩) ⟨0, 0⟩ := rfl
  rw [e] at eo
  clear_value o
  subst eo
  refine ⟨hq, rfl, rfl, ?_, ?_⟩
  · refine HasDerivAt.congr_deriv key.1 ?_
    simp only [rate, projectPoint, chain, if_true]
    simp only [inner3, vecMul]
    ring
  · refine HasDerivAt.congr_deriv key.2 ?_
    simp only [rate, projectPoint, chain, if_true]
    simp only [inner3, vecMul]
    ring

/-! ### the lenses -/

/-- a lens with all of its gradients right, moving -/
theorem lensRate_total {n : Nat} {Q : Cam.Core → (Nat → ℝ) → P3 → P2} {core : ℝ → Cam.Core} {d : ℝ → Nat → ℝ} {core' : Cam.Core} {d' : Nat → ℝ} {t : ℝ} {p : P3}
    {dqdp : P3 × P3} {dqdf : P2} {dqdk : List P2} (h : Cam.TotalDeriv n Q (core t) (d t) p dqdp dqdf dqdk)
    (h1 : HasDerivAt (fun s => (core s).fx) core'.fx t) (h2 : HasDerivAt (fun s => (core s).fy) core'.fy t)
    (h3 : HasDerivAt (fun s => (core s).cx) core'.cx t) (h4 : HasDerivAt (fun s => (core s).cy) core'.cy t)
    (hd : ∀ i, HasDerivAt (fun s => d s i) (d' i) t) :
    LensRate (fun s p => Q (core s) (d s) p) t p ⟨Q (core t) (d t) p, dqdp.1, dqdp.2⟩
      (dqdf.x * core'.fx + core'.cx + Cam.dotRow (dqdk.map P2.x) d') (dqdf.y * core'.fy + core'.cy + Cam.dotRow (dqdk.map P2.y) d') := by
  refine ⟨rfl, ?_⟩
  intro P P' eP hP
  obtain ⟨a, b⟩ := h.2 core d P core' d' P' t rfl rfl eP h1 h2 h3 h4 hd hP.1 hP.2.1 hP.2.2
  exact ⟨HasDerivAt.congr_deriv a (by simp only [inner3]; ring), HasDerivAt.congr_deriv b (by simp only [inner3]; ring)⟩

/-- **C52**: in a splined lens, propagating through u=stereographic(p) is the same as multiplying by the gradient with respect to the point -/
theorem propagate_splined (order Nx Ny : Nat) (segs : ℝ) (intrinsics : Int → ℝ) (p : P3) (pr : Spline.Projected)
    (h : Spline.projectSplined order Nx Ny segs intrinsics p = some pr) (dp : M3) :
    propagateSplined (intrinsics 0) (intrinsics 1) (Spline.stereoDu p) pr.ddux pr.dduy dp = chain ⟨pr.q, pr.dqx_dp, pr.dqy_dp⟩ dp := by
  simp only [Spline.projectSplined] at h
  split at h
  · simp only [Option.some.injEq] at h
    subst h
    simp only [propagateSplined, chain, vecMul]
    generalize Spline.stereoDu p = du
    simp only [Rows.mk.injEq, P3.mk.injEq]
    refine ⟨⟨?_, ?_, ?_⟩, ⟨?_, ?_, ?_⟩⟩ <;> ring
  · exact absurd h (by simp)

end Mrcal.Project
