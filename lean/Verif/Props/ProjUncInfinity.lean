import Verif.Props.ProjUncMain
import Verif.Props.StereoRangeProps
/-
C81: projection_uncertainty(atinfinity = True): "the distance to the camera is ignored"
-/
namespace Mrcal.Cam
open Mrcal

theorem recip_scale (a x z : ℝ) (ha : a ≠ 0) : a * x * (1 / (a * z)) = x * (1 / z) := by
  rw [one_div, one_div, mul_inv]
  rw [show a * x * (a⁻¹ * z⁻¹) = (a * a⁻¹) * (x * z⁻¹) by ring, mul_inv_cancel₀ ha, one_mul]

theorem ocv_scale_all (c : Core) (k : Nat → ℝ) (p : P3) (a : ℝ) (ha : a ≠ 0) : ocvQ c k ⟨a * p.x, a * p.y, a * p.z⟩ = ocvQ c k p := by
  simp only [ocvQ, ocv, recip_scale _ _ _ ha]

theorem cahvor_scale_all (core : Core) (d : Nat → ℝ) (p : P3) (a : ℝ) (ha : a ≠ 0) : cahvorQ core d ⟨a * p.x, a * p.y, a * p.z⟩ = cahvorQ core d p := by
  have e1 : ∀ q : P3, dot3 ⟨a * p.x, a * p.y, a * p.z⟩ q = a * dot3 p q := by intro q; simp only [dot3]; ring
  have e2 : dot3 (⟨a * p.x, a * p.y, a * p.z⟩ : P3) ⟨a * p.x, a * p.y, a * p.z⟩ = a * (a * dot3 p p) := by simp only [dot3]; ring
  have et : (cahvorState d ⟨a * p.x, a * p.y, a * p.z⟩).tau = (cahvorState d p).tau := by
    have u : ∀ q, (cahvorState d q).tau = dot3 q q * (1.0 / dot3 q (cahvorO (d 0) (d 1))) * (1.0 / dot3 q (cahvorO (d 0) (d 1))) - 1.0 := fun _ => rfl
    rw [u, u, e2, e1, show (1.0 : ℝ) = 1 by norm_num, recip_scale _ _ _ ha]
    have := recip_scale a (dot3 p p * (1 / dot3 p (cahvorO (d 0) (d 1)))) (dot3 p (cahvorO (d 0) (d 1))) ha
    rw [← this]; ring
  have em : (cahvorState d ⟨a * p.x, a * p.y, a * p.z⟩).mu = (cahvorState d p).mu := by
    have u : ∀ q, (cahvorState d q).mu = d 2 + (cahvorState d q).tau * d 3 + (cahvorState d q).tau * (cahvorState d q).tau * d 4 := fun _ => rfl
    rw [u, u, et]
  have eo : (cahvorState d ⟨a * p.x, a * p.y, a * p.z⟩).omega = a * (cahvorState d p).omega := e1 _
  have ed : (cahvorDistort d ⟨a * p.x, a * p.y, a * p.z⟩).p =
      ⟨a * (cahvorDistort d p).p.x, a * (cahvorDistort d p).p.y, a * (cahvorDistort d p).p.z⟩ := by
    simp only [cahvorDistort, em, eo]
    ext <;> simp only <;> ring
  simp only [cahvorQ, distortedQ, ed, recip_scale _ _ _ ha]

theorem lonlat_scale (k : Core) (p : P3) (s : ℝ) (hs : 0 < s) : (lonlat k ⟨s * p.x, s * p.y, s * p.z⟩).q = (lonlat k p).q := by
  have e : s * p.x * (s * p.x) + s * p.y * (s * p.y) + s * p.z * (s * p.z) = s ^ 2 * (p.x * p.x + p.y * p.y + p.z * p.z) := by ring
  have a : atan2 (s * p.x) (s * p.z) = atan2 p.x p.z := by
    unfold atan2
    rw [show (⟨s * p.z, s * p.x⟩ : ℂ) = (s : ℂ) * ⟨p.z, p.x⟩ by apply Complex.ext <;> simp]
    exact Complex.arg_real_mul _ hs
  have b : s * p.y * Real.sqrt (1 / (s ^ 2 * (p.x * p.x + p.y * p.y + p.z * p.z))) = p.y * Real.sqrt (1 / (p.x * p.x + p.y * p.y + p.z * p.z)) := by
    rw [one_div, mul_inv, Real.sqrt_mul (by positivity), Real.sqrt_inv, Real.sqrt_sq hs.le, one_div]
    field_simp
  simp only [lonlat, e, a, b]

theorem stereoU_scale (p : P3) (s : ℝ) (hs : 0 < s) : Spline.stereoU ⟨s * p.x, s * p.y, s * p.z⟩ = Spline.stereoU p := by
  have e : s * p.x * (s * p.x) + s * p.y * (s * p.y) + s * p.z * (s * p.z) = s ^ 2 * (p.x * p.x + p.y * p.y + p.z * p.z) := by ring
  have sc : ∀ x, s * x * Spline.stereoScale ⟨s * p.x, s * p.y, s * p.z⟩ = x * Spline.stereoScale p := by
    intro x
    unfold Spline.stereoScale
    simp only [e]
    rw [Real.sqrt_mul (by positivity), Real.sqrt_sq hs.le, ← mul_add]
    generalize (2.0 : ℝ) = c
    rw [div_eq_mul_one_div, div_eq_mul_one_div c, mul_left_comm, recip_scale _ _ _ hs.ne', mul_left_comm]
  simp only [Spline.stereoU, sc]

/-- all the lens models but CAHVORE see only the direction -/
theorem pix_scale (L : Lens) (hL : ∀ lin, L ≠ .cahvore lin) (intr : Int → ℝ) (p : P3) (s : ℝ) (hs : 0 < s) : pix L intr ⟨s * p.x, s * p.y, s * p.z⟩ = pix L intr p := by
  unfold pix
  congr 1
  cases L with
  | pinhole => exact congrArg some (pinhole_scale _ p _ s hs.ne' rfl)
  | stereographic => exact congrArg some (stereographic_scale _ p _ s hs rfl)
  | lonlat => exact congrArg some (lonlat_scale _ p s hs)
  | latlon => exact congrArg some (Stereo.latlon_scale _ p s hs)
  | opencv4 => exact congrArg some (ocv_scale_all _ _ p s hs.ne')
  | opencv5 => exact congrArg some (ocv_scale_all _ _ p s hs.ne')
  | opencv8 => exact congrArg some (ocv_scale_all _ _ p s hs.ne')
  | opencv12 => exact congrArg some (ocv_scale_all _ _ p s hs.ne')
  | cahvor => exact congrArg some (cahvor_scale_all _ _ p s hs.ne')
  | cahvore lin => exact absurd rfl (hL lin)
  | splined order Nx Ny fov =>
    simp only [lensPixel]
    congr 1
    funext segs
    unfold Spline.projectSplined
    simp only [stereoU_scale p s hs]
    split <;> simp

end Mrcal.Cam

namespace Mrcal.ProjUnc
open Mrcal Mrcal.Pose Mrcal.Callback Mrcal.Pack Mrcal.StateLayout Mrcal.Propagate Mrcal.Uncertainty
open Matrix

/-- the same direction, k times as far -/
def far (k : ℝ) (p : P3) : P3 := ⟨k * p.x, k * p.y, k * p.z⟩

theorem far_vec (k : ℝ) (p : P3) : toVec (far k p) = k • toVec p := by
  ext i
  fin_cases i <;> simp [far, toVec]

theorem act_far (k : ℝ) (T : RtV) (p : P3) : act true T (far k p) = far k (act true T p) := by
  refine toVec_inj ?_
  rw [act_vec, far_vec, far_vec, act_vec]
  simp [Matrix.mulVec_smul]

theorem mean_far {ι : Type} (S : Finset ι) (f : ι → P3) (k : ℝ) : mean S (fun i => far k (f i)) = far k (mean S f) := by
  simp only [mean, far, ← Finset.mul_sum, mul_div_assoc]

theorem far_far (k : ℝ) (hk : k ≠ 0) (p : P3) : far k⁻¹ (far k p) = p := by
  simp only [far]
  ext <;> simp only <;> field_simp

theorem moves_far {P : Problem} (hL : ∀ lin, P.d.lens ≠ .cahvore lin) {icam : Int} {v : Mem} {q : ℝ → P3} {δ : Nat → ℝ} (k : ℝ) (hk : 0 < k) (h : PixelMoves P icam v q δ) :
    PixelMoves P icam v (fun s => far k (q s)) δ := by
  intro xy hxy
  have := h xy hxy
  unfold seen at this ⊢
  simp only [far, Cam.pix_scale P.d.lens hL _ _ k hk]
  exact this

theorem shift_far (P : Problem) (hL : ∀ lin, P.d.lens ≠ .cahvore lin) (method : String) (icam : Int) (p : P3) (v : Mem) (δ : Nat → ℝ) (k : ℝ) (hk : 0 < k)
    (h : Shift P method icam true p v δ) : Shift P method icam true (far k p) v δ := by
  rcases h with ⟨hm, u, T, q, a1, a2, a3, a4⟩ | ⟨hm, u, T, q, e, pref, a1, a2, a3, a4, a5, a6⟩ | ⟨hm, cams, pref, pframe, a1, a2, a3, a4⟩
  · refine Or.inl ⟨hm, u, T, fun s => far k (q s), a1, a2, fun s => by rw [act_far, a3], moves_far hL k hk a4⟩
  · refine Or.inr (Or.inl ⟨hm, u, T, fun s => far k (q s), e, far k pref, a1, a2, a3, by rw [act_far, a4], fun s => by rw [act_far, a5], ?_⟩)
    simp only [act_far]
    exact moves_far hL k hk a6
  · refine Or.inr (Or.inr ⟨hm, cams, fun e => far k (pref e), fun e i => far k (pframe e i), a1, fun e he => by rw [act_far, a2 e he], fun e he i hi => by rw [act_far, a3 e he i hi], ?_⟩)
    have e : ∀ s, (mean cams fun e => act true (camPose (moved P v s) e)
        (if P.d.sel.frames then mean (Finset.range P.d.Nframes.toNat) fun i => act true (frameOf (moved P v s) i) (far k (pframe e i)) else far k (pref e))) =
        far k (mean cams fun e => act true (camPose (moved P v s) e)
        (if P.d.sel.frames then mean (Finset.range P.d.Nframes.toNat) fun i => act true (frameOf (moved P v s) i) (pframe e i) else pref e)) := by
      intro s
      rw [← mean_far]
      congr 1
      funext e
      rw [← act_far]
      congr 1
      split_ifs
      · simp only [act_far, mean_far]
      · rfl
    simp only [e]
    exact moves_far hL k hk a4

/-- **C81** (at infinity). The experiment at infinity depends only on the direction to the point -/
theorem infinity_direction (P : Problem) (hL : ∀ lin, P.d.lens ≠ .cahvore lin) (method : String) (icam : Int) (p : P3) (v : Mem) (δ : Nat → ℝ) (k : ℝ) (hk : 0 < k) :
    Shift P method icam true (far k p) v δ ↔ Shift P method icam true p v δ := by
  refine ⟨fun h => ?_, shift_far P hL method icam p v δ k hk⟩
  have := shift_far P hL method icam (far k p) v δ k⁻¹ (inv_pos.2 hk) h
  rwa [far_far k hk.ne'] at this

/-- two gradients that say the same about each direction are the same -/
theorem grad_ext (d : Dims) (wf : WF d) (h0 : 0 < numStates d) (F F' : Grad) (r : Nat) (h : ∀ v, dot d F v r = dot d F' v r) (j : Nat) (hj : (j : Int) < numStates d) : F r j = F' r j := by
  have key := h (packVector d fun i => if i = j then 1 else 0).1
  unfold dot at key
  rw [(pack_unpack_vector d wf _).2] at key
  have hjm : j ∈ Finset.range (numStates d).toNat := by rw [Finset.mem_range]; omega
  simpa [hjm] using key

/-- **C81** (at infinity). The gradient at infinity doesn't depend on the distance to the point -/
theorem infinity_gradient (L : Lapack) (hl : LapackOk L) (P : Problem) (hP : Solved P) (h0 : 0 < numStates P.d) (hL : ∀ lin, P.d.lens ≠ .cahvore lin) (method : String) (icam : Int) (p : P3) (k : ℝ) (hk : 0 < k)
    (hreg : Cam.LensRegular P.d.lens (intrOf P.d P.seed icam) p) (hreg' : Cam.LensRegular P.d.lens (intrOf P.d P.seed icam) (far k p)) (hrot : method ≠ "cross-reprojection-ccp" → PosesOk P icam)
    (F F' : Grad) (hF : grad L P method icam true p = some F) (hF' : grad L P method icam true (far k p) = some F') (r j : Nat) (hr : r < 2) (hj : (j : Int) < numStates P.d) : F r j = F' r j := by
  refine grad_ext P.d hP.valid.wf h0 F F' r (fun v => ?_) j hj
  have h1 := (gradient_correct L hl P hP h0 method icam true p hreg hrot F hF v (dot P.d F v)).2 fun _ _ => rfl
  exact (gradient_correct L hl P hP h0 method icam true (far k p) hreg' hrot F' hF' v (dot P.d F v)).1 ((infinity_direction P hL method icam p v _ k hk).2 h1) r hr

/-- **C81** (at infinity). The reported covariance at infinity doesn't depend on the distance to the point -/
theorem infinity_covariance (L : Lapack) (hl : LapackOk L) (C : Cholmod) (hC : CholmodOk C) (eigsh : Eigsh) (P : Problem) (hP : Solved P) (hL : ∀ lin, P.d.lens ≠ .cahvore lin) (method : String) (icam : Int)
    (p : P3) (k : ℝ) (hk : 0 < k) (hreg : Cam.LensRegular P.d.lens (intrOf P.d P.seed icam) p) (hreg' : Cam.LensRegular P.d.lens (intrOf P.d P.seed icam) (far k p))
    (hrot : method ≠ "cross-reprojection-ccp" → PosesOk P icam) (σ : Option ℝ) (V V' : Nat → Nat → ℝ)
    (h : projectionUncertainty L C eigsh P icam method true "covariance" σ p = some (.matrix V)) (h' : projectionUncertainty L C eigsh P icam method true "covariance" σ (far k p) = some (.matrix V'))
    (r s : Nat) (hr : r < 2) (hs : s < 2) : V r s = V' r s := by
  obtain ⟨F, hF, hp⟩ := unc_some h
  obtain ⟨F', hF', hp'⟩ := unc_some h'
  obtain ⟨out, ho⟩ := callback_some hp
  have ok := hP.ctx (bPacked P)
  have idx := problem_idx P hP.valid (bPacked P)
  obtain ⟨-, h0, hobs, hrank, hr0, -⟩ := (propagate_succeeds_iff C hC eigsh "covariance" _ ok idx out ho 2 (by omega) _ σ (by intro h; simp at h)).1 ⟨_, hp⟩
  have hg := infinity_gradient L hl P hP h0 hL method icam p k hk hreg hreg' hrot F F' hF hF'
  obtain ⟨W, a, a1, a2, a3⟩ := propagate_core C hC _ ok idx out ho h0 hrank hobs hr0 2 (by omega) (fun i => F (i / ((numStates P.d).toNat : Nat)).toNat (i % ((numStates P.d).toNat : Nat)))
  obtain ⟨W', a', b1, b2, b3⟩ := propagate_core C hC _ ok idx out ho h0 hrank hobs hr0 2 (by omega) (fun i => F' (i / ((numStates P.d).toNat : Nat)).toNat (i % ((numStates P.d).toNat : Nat)))
  obtain ⟨D, hD⟩ : ∃ D, D = (csrOf out).dense out.x.length (numStates (P.ctx (bPacked P)).d).toNat := ⟨_, rfl⟩
  rw [← hD] at a1 a2 b1 b2
  have hd : ∀ v : Mem, ∀ r < 2, a r ⬝ᵥ ((Dᵀ * D) *ᵥ fun j => v (j : Nat)) = a' r ⬝ᵥ ((Dᵀ * D) *ᵥ fun j => v (j : Nat)) := by
    intro v r hr
    rw [← a1 v r hr, ← b1 v r hr]
    have e1 := deltaF_flat P.d F v r
    have e2 := deltaF_flat P.d F' v r
    refine e1.trans (Eq.trans ?_ e2.symm)
    unfold dot
    refine Finset.sum_congr rfl fun j hj => ?_
    rw [hg r j hr (by rw [Finset.mem_range] at hj; omega)]
  have hJ : ∀ r < 2, D *ᵥ a r = D *ᵥ a' r := by
    intro r hr
    have := hd (fun i => if hi : i.toNat < (numStates (P.ctx (bPacked P)).d).toNat then (a r - a' r) ⟨i.toNat, hi⟩ else 0) r hr
    have e : (fun j : Fin (numStates (P.ctx (bPacked P)).d).toNat => (fun i : Int => if hi : i.toNat < (numStates (P.ctx (bPacked P)).d).toNat then (a r - a' r) ⟨i.toNat, hi⟩ else 0) ((j : Nat) : Int)) = a r - a' r := by
      funext j
      have : ((j : Nat) : Int).toNat = (j : Nat) := Int.toNat_natCast _
      beta_reduce
      rw [dif_pos (by rw [this]; exact j.2)]
      congr 1
    rw [e, ← sub_eq_zero, ← sub_dotProduct, ← Matrix.mulVec_mulVec, Matrix.dotProduct_mulVec, Matrix.vecMul_transpose] at this
    have z := dotProduct_self_eq_zero.1 this
    rw [Matrix.mulVec_sub] at z
    exact sub_eq_zero.1 z
  have hW : W r s = W' r s := by
    rw [a2 r hr s hs, b2 r hr s hs, hJ r hr, hJ s hs]
  rw [a3 eigsh "covariance" σ (by simp)] at hp
  rw [b3 eigsh "covariance" σ (by simp)] at hp'
  obtain ⟨t, ht, hp⟩ := Option.bind_eq_some_iff.1 hp
  obtain ⟨t', ht', hp'⟩ := Option.bind_eq_some_iff.1 hp'
  obtain rfl := Option.some.inj (ht.symm.trans ht')
  simp only [Propagate.finish] at hp hp'
  rw [if_neg (by decide), if_pos trivial] at hp hp'
  rw [← Res.matrix.inj (Option.some.inj hp), ← Res.matrix.inj (Option.some.inj hp')]
  simp only [hW]

end Mrcal.ProjUnc
