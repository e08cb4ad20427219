import Verif.Model.CallbackValues
import Verif.Props.ProjectApiProps

/-! # C74, the splined lens: everything moves at once: the point and all of the parameters; and, for every lens, the rate implied by the reported gradients -/

namespace Mrcal.Spline
open Mrcal.Project Mrcal.Pose

theorem patch_expand {n : Nat} (wx wy : Nat → ℝ) (base Nx k M : Int)
    (hb : ∀ r c : Int, 0 ≤ r ∧ r < n → 0 ≤ c ∧ c < n → 4 ≤ base + (r * (2 * Nx) + c * 2 + k) ∧ base + (r * (2 * Nx) + c * 2 + k) < M) (intr : Int → ℝ) :
    patch n wx wy base Nx k intr = ∑ j ∈ Finset.Ico 4 M, intr j * patch n wx wy base Nx k (unit j) := by
  unfold patch
  simp only [Finset.mul_sum]
  conv_rhs => rw [Finset.sum_comm]
  refine Finset.sum_congr rfl fun r hr => ?_
  conv_rhs => rw [Finset.sum_comm]
  refine Finset.sum_congr rfl fun c hc => ?_
  rw [Finset.mem_range] at hr hc
  have hj := hb r c (by omega) (by omega)
  rw [Finset.sum_eq_single (base + ((r : Int) * (2 * Nx) + c * 2 + k))]
  · unfold unit; rw [if_pos rfl]; ring
  · intro j _ hne
    unfold unit; rw [if_neg (Ne.symm hne)]; ring
  · intro h; exact absurd (Finset.mem_Ico.mpr hj) h

/-- the control points that affect the surfaces at a point lie inside the grid -/
theorem ivar0_in_bounds (order Nx Ny : Nat) (h : Accepted order Nx Ny) (x y : ℝ) (k r c : Int) (hk : 0 ≤ k ∧ k < 2)
    (hr : 0 ≤ r ∧ r < (order + 1 : Nat)) (hc : 0 ≤ c ∧ c < (order + 1 : Nat)) :
    4 ≤ Callback.splineIvar0 order Nx Ny x y + (r * (2 * Nx) + c * 2 + k) ∧
    Callback.splineIvar0 order Nx Ny x y + (r * (2 * Nx) + c * 2 + k) < 4 + 2 * ((Nx : Int) * Ny) := by
  rcases h with ⟨rfl, hx, hy⟩ | ⟨rfl, hx, hy⟩
  · exact quad_in_bounds Nx Ny hx hy _ _ r c k hr hc hk
  · exact cubic_in_bounds Nx Ny hx hy _ _ r c k hr hc hk

/-- each surface is the sum, over a patch of control points, of the products of the weights -/
theorem surf_patch (order Nx Ny : Nat) (h : Accepted order Nx Ny) (x y : ℝ) (intr : Int → ℝ) (k : Int) :
    (surf order Nx Ny intr k x y).out =
      patch (order + 1) (Callback.splineWeights order Nx x) (Callback.splineWeights order Ny y) (Callback.splineIvar0 order Nx Ny x y) Nx k intr := by
  rcases h with ⟨rfl, hx, hy⟩ | ⟨rfl, hx, hy⟩
  · rw [surf2]; exact quad_patch _ _ _ _ _ _
  · rw [surf3]; exact cubic_patch _ _ _ _ _ _

/-- each surface is linear in the control points -/
theorem surf_expand (order Nx Ny : Nat) (h : Accepted order Nx Ny) (intr : Int → ℝ) (k : Int) (hk : 0 ≤ k ∧ k < 2) (x y : ℝ) :
    (surf order Nx Ny intr k x y).out = ∑ j ∈ Finset.Ico 4 (4 + 2 * ((Nx : Int) * Ny)), intr j * (surf order Nx Ny (unit j) k x y).out := by
  simp only [surf_patch order Nx Ny h]
  exact patch_expand _ _ _ Nx k _ (fun r c hr hc => ivar0_in_bounds order Nx Ny h x y k r c hk hr hc) intr

/-- the control points and the position on the surface all move -/
theorem surf_total (order Nx Ny : Nat) (h : Accepted order Nx Ny) (k : Int) (hk : 0 ≤ k ∧ k < 2) {I : ℝ → Int → ℝ} {I' : Int → ℝ} {X Y : ℝ → ℝ} {X' Y' t : ℝ}
    (hI : ∀ j, HasDerivAt (fun s => I s j) (I' j) t) (hX : HasDerivAt X X' t) (hY : HasDerivAt Y Y' t) :
    HasDerivAt (fun s => (surf order Nx Ny (I s) k (X s) (Y s)).out)
      ((surf order Nx Ny (I t) k (X t) (Y t)).dx * X' + (surf order Nx Ny (I t) k (X t) (Y t)).dy * Y' + (surf order Nx Ny I' k (X t) (Y t)).out) t := by
  have hu := fun j => surf_curve order Nx Ny h (unit j) k hX hY
  have h1 := HasDerivAt.fun_sum (u := Finset.Ico 4 (4 + 2 * ((Nx : Int) * Ny))) fun j _ => (hI j).mul (hu j)
  have h2 := HasDerivAt.fun_sum (u := Finset.Ico 4 (4 + 2 * ((Nx : Int) * Ny))) fun j _ => (hu j).const_mul (I t j)
  have h3 := surf_curve order Nx Ny h (I t) k hX hY
  have e3 : (fun s => (surf order Nx Ny (I t) k (X s) (Y s)).out) = fun s => ∑ j ∈ Finset.Ico 4 (4 + 2 * ((Nx : Int) * Ny)), I t j * (surf order Nx Ny (unit j) k (X s) (Y s)).out :=
    funext fun s => surf_expand order Nx Ny h (I t) k hk _ _
  rw [e3] at h3
  have e := h3.unique h2
  have e1 : (fun s => (surf order Nx Ny (I s) k (X s) (Y s)).out) = fun s => ∑ j ∈ Finset.Ico 4 (4 + 2 * ((Nx : Int) * Ny)), I s j * (surf order Nx Ny (unit j) k (X s) (Y s)).out :=
    funext fun s => surf_expand order Nx Ny h (I s) k hk _ _
  rw [e1, e, surf_expand order Nx Ny h I' k hk]
  refine HasDerivAt.congr_deriv h1 ?_
  rw [← Finset.sum_add_distrib]
  refine Finset.sum_congr rfl fun j _ => ?_
  ring

/-- **C52**: the splined lens, with all the intrinsics moving too -/
theorem lens_splined_total (order Nx Ny : Nat) (h : Accepted order Nx Ny) (segs : ℝ) {I : ℝ → Int → ℝ} {I' : Int → ℝ} {t : ℝ}
    (hI : ∀ j, HasDerivAt (fun s => I s j) (I' j) t) (p : P3) (hp : mag3 p + p.z ≠ 0) :
    LensRate (fun s p => (proj order Nx Ny segs (I s) p).q) t p
      ⟨(proj order Nx Ny segs (I t) p).q, (proj order Nx Ny segs (I t) p).dqx_dp, (proj order Nx Ny segs (I t) p).dqy_dp⟩
      ((proj order Nx Ny segs (I t) p).dq_dfxy.x * I' 0 + I' 2 + I t 0 * (surf order Nx Ny I' 0 (gridCoord Nx segs (stereoU p).x) (gridCoord Ny segs (stereoU p).y)).out)
      ((proj order Nx Ny segs (I t) p).dq_dfxy.y * I' 1 + I' 3 + I t 1 * (surf order Nx Ny I' 1 (gridCoord Nx segs (stereoU p).x) (gridCoord Ny segs (stereoU p).y)).out) := by
  refine ⟨rfl, ?_⟩
  intro P P' eP hP
  obtain ⟨hx, hy, hz⟩ := hP
  obtain ⟨ux, uy⟩ := stereoU_deriv (c := P) (t := t) (by rw [eP]; exact hp) hx hy hz
  rw [eP] at ux uy
  have gx : HasDerivAt (fun s => gridCoord Nx segs (stereoU (P s)).x) (((stereoDu p).1.x * P'.x + (stereoDu p).1.y * P'.y + (stereoDu p).1.z * P'.z) * segs) t :=
    (ux.mul_const segs).add_const _
  have gy : HasDerivAt (fun s => gridCoord Ny segs (stereoU (P s)).y) (((stereoDu p).2.x * P'.x + (stereoDu p).2.y * P'.y + (stereoDu p).2.z * P'.z) * segs) t :=
    (uy.mul_const segs).add_const _
  have key := fun k hk => surf_total order Nx Ny h k hk hI gx gy
  simp only [eP] at key
  have ev : ∀ intr p, proj order Nx Ny segs intr p = _ := fun intr p => by
    unfold proj projectSplined
    simp only [sampleSurface_some _ _ _ _ _ h, Option.getD_some]
    rfl
  constructor
  · have k0 := key 0 (by decide)
    simp only [ev]
    refine HasDerivAt.congr_deriv (((ux.add k0).mul (hI 0)).add (hI 2)) ?_
    simp only [Pi.add_apply, inner3, eP]
    ring
  · have k1 := key 1 (by decide)
    simp only [ev]
    refine HasDerivAt.congr_deriv (((uy.add k1).mul (hI 1)).add (hI 3)) ?_
    simp only [Pi.add_apply, inner3, eP]
    ring

/-- the dense rows, in the columns of the focal lengths -/
theorem dense_rows (order Nx Ny : Nat) (h : Accepted order Nx Ny) (hNx : Nx < 32768) (segs : ℝ) (intr : Int → ℝ) (p : P3) (hp : mag3 p + p.z ≠ 0) :
    ∃ r0 r1, dqDintrinsics order Nx Ny segs intr p 0 = some r0 ∧ dqDintrinsics order Nx Ny segs intr p 1 = some r1 ∧
      r0 0 = (proj order Nx Ny segs intr p).dq_dfxy.x ∧ r1 1 = (proj order Nx Ny segs intr p).dq_dfxy.y := by
  obtain ⟨r0, r1, e0, e1, hd⟩ := splined_intrinsics_gradient order Nx Ny h hNx segs intr p
  have hz : ∀ (i k : Int) x y, i < 4 → 0 ≤ k ∧ k < 2 → (surf order Nx Ny (fun j => if j = i then 1 else 0) k x y).out = 0 := by
    intro i k x y hi hk
    rw [surf_expand order Nx Ny h _ k hk]
    refine Finset.sum_eq_zero fun j hj => ?_
    have := Finset.mem_Ico.mp hj
    rw [if_neg (by omega), zero_mul]
  have hc : HasDerivP (fun _ : ℝ => p) ⟨0, 0, 0⟩ (intr 0) ∧ HasDerivP (fun _ : ℝ => p) ⟨0, 0, 0⟩ (intr 1) :=
    ⟨⟨hasDerivAt_const _ _, hasDerivAt_const _ _, hasDerivAt_const _ _⟩, ⟨hasDerivAt_const _ _, hasDerivAt_const _ _, hasDerivAt_const _ _⟩⟩
  refine ⟨r0, r1, e0, e1, ?_, ?_⟩
  · refine (hd 0).1.unique ?_
    have k := ((lens_splined_total order Nx Ny h segs (fun j => Cam.update_deriv intr 0 j) p hp).2 (fun _ => p) ⟨0, 0, 0⟩ rfl hc.1).1
    refine HasDerivAt.congr_deriv k ?_
    rw [hz 0 0 _ _ (by decide) (by decide), Function.update_eq_self]
    simp [inner3]
  · refine (hd 1).2.unique ?_
    have k := ((lens_splined_total order Nx Ny h segs (fun j => Cam.update_deriv intr 1 j) p hp).2 (fun _ => p) ⟨0, 0, 0⟩ rfl hc.2).2
    refine HasDerivAt.congr_deriv k ?_
    rw [hz 1 1 _ _ (by decide) (by decide), Function.update_eq_self]
    simp [inner3]

end Mrcal.Spline

namespace Mrcal.Cam
open Mrcal.Project Mrcal.Callback

theorem dotRow_sum_from (l : List ℝ) (f : Nat → ℝ) (s : Nat) :
    ((l.zipIdx s).map fun e => e.1 * f e.2).sum = ∑ i ∈ Finset.range l.length, l.getD i 0 * f (s + i) := by
  induction l generalizing s with
  | nil => simp
  | cons a l ih =>
    rw [List.zipIdx_cons, List.map_cons, List.sum_cons, ih, List.length_cons, Finset.sum_range_succ']
    simp only [List.getD_cons_zero, List.getD_cons_succ, Nat.add_zero]
    rw [add_comm]
    congr 1
    refine Finset.sum_congr rfl fun i _ => ?_
    rw [show s + (i + 1) = s + 1 + i by omega]

theorem dotRow_sum (l : List ℝ) (f : Nat → ℝ) : dotRow l f = ∑ i ∈ Finset.range l.length, l.getD i 0 * f i := by
  unfold dotRow
  have := dotRow_sum_from l f 0
  simpa using this

/-- **Specification**: the rate of change of pixel coordinate `xy` as the lens parameters move at the rates I', implied by the gradients project() reported. `f` is the focal length -/
noncomputable def intrRate (L : Lens) (pr : Callback.Proj) (f : ℝ) (I' : Int → ℝ) (xy : Nat) : ℝ :=
  pr.dfxy xy * I' xy + I' (xy + 2) +
  match L with
  | .splined order Nx _ _ => f * Spline.patch (order + 1) pr.ABCDx pr.ABCDy pr.ivar0 Nx xy I'
  | L => ∑ i ∈ Finset.range (L.numParams.toNat - 4), pr.nocore xy i * I' (4 + i)

/-- **C74**, one lens: the parameters and the point all move, for every lens model -/
theorem lens_rate (L : Lens) (hv : ValidLens L) {I : ℝ → Int → ℝ} {I' : Int → ℝ} {t : ℝ} (hI : ∀ k, HasDerivAt (fun s => I s k) (I' k) t) (p : P3)
    (hreg : LensRegular L (I t) p) (o : Project.Out) :
    LensRate (fun s p => pix L (I s) p) t p (hypothesis L (I t) p)
      (intrRate L (mkProj L (I t) p o) (I t 0) I' 0) (intrRate L (mkProj L (I t) p o) (I t 1) I' 1) := by
  obtain ⟨nx, ny, hreg⟩ := hreg
  have fin : ∀ (n : Nat) (Q : Core → (Nat → ℝ) → P3 → P2) (l : LensOut) (dqdf : P2) (dqdk : List P2), lensOut L (I t) p = some l →
      (∀ intr p, pix L intr p = Q (coreOf intr) (nocoreOf intr) p) → l.proj.q = Q (coreOf (I t)) (nocoreOf (I t)) p →
      l.row = denseRow n dqdf (nocorePool n dqdk) → L.numParams.toNat = 4 + n → (∀ a b c d, L ≠ .splined a b c d) →
      TotalDeriv n Q (coreOf (I t)) (nocoreOf (I t)) p (l.proj.dqx, l.proj.dqy) dqdf dqdk →
      LensRate (fun s p => pix L (I s) p) t p (hypothesis L (I t) p)
        (intrRate L (mkProj L (I t) p o) (I t 0) I' 0) (intrRate L (mkProj L (I t) p o) (I t 1) I' 1) := by
    intro n Q l dqdf dqdk hl hpix hq hrow hn hns ht
    have hlen := ht.1
    have k := lensRate_total (Q := Q) (core := fun s => coreOf (I s)) (d := fun s => nocoreOf (I s)) (core' := coreOf I') (d' := nocoreOf I') ht
      (hI 0) (hI 1) (hI 2) (hI 3) (fun i => hI _)
    have hh : hypothesis L (I t) p = ⟨Q (coreOf (I t)) (nocoreOf (I t)) p, l.proj.dqx, l.proj.dqy⟩ := by
      unfold hypothesis; rw [hl, ← hq]
    simp only [hpix, hh]
    have hr : ∀ f xy, intrRate L (mkProj L (I t) p o) f I' xy = l.row xy xy * I' xy + I' (xy + 2) +
        ∑ i ∈ Finset.range n, l.row xy (4 + i) * I' (4 + i) := by
      intro f xy
      have e1 : (mkProj L (I t) p o).dfxy xy = l.row xy xy := by simp only [mkProj, hl]
      have e2 : ∀ i : Nat, (mkProj L (I t) p o).nocore xy i = l.row xy (4 + i) := by intro i; simp only [mkProj, hl, Int.toNat_natCast]
      have e3 : L.numParams.toNat - 4 = n := by omega
      unfold intrRate
      rw [e1]
      cases L with
      | splined a b c d => exact absurd rfl (hns a b c d)
      | _ => simp only [e2, e3]
    rw [hr, hr, hrow]
    have hx : dqdf.x * (coreOf I').fx + (coreOf I').cx + dotRow (dqdk.map P2.x) (nocoreOf I') =
        denseRow n dqdf (nocorePool n dqdk) 0 0 * I' ((0 : Nat) : Int) + I' (((0 : Nat) : Int) + 2) + ∑ i ∈ Finset.range n, denseRow n dqdf (nocorePool n dqdk) 0 (4 + i) * I' (4 + (i : Int)) := by
      rw [dotRow_sum, List.length_map, hlen]
      congr 1
      refine Finset.sum_congr rfl fun i hi => ?_
      have hi' := Finset.mem_range.mp hi
      rw [getD_map_x]
      simp only [denseRow, nocorePool, nocoreOf]
      rw [if_neg (by omega), if_pos (by omega), show 0 * n + (4 + i - 4) = i by omega, Nat.mod_eq_of_lt hi', Nat.div_eq_of_lt hi', if_pos rfl, add_comm (4 : Int)]
    have hy : dqdf.y * (coreOf I').fy + (coreOf I').cy + dotRow (dqdk.map P2.y) (nocoreOf I') =
        denseRow n dqdf (nocorePool n dqdk) 1 1 * I' ((1 : Nat) : Int) + I' (((1 : Nat) : Int) + 2) + ∑ i ∈ Finset.range n, denseRow n dqdf (nocorePool n dqdk) 1 (4 + i) * I' (4 + (i : Int)) := by
      rw [dotRow_sum, List.length_map, hlen]
      congr 1
      refine Finset.sum_congr rfl fun i hi => ?_
      have hi' := Finset.mem_range.mp hi
      rw [getD_map_y]
      simp only [denseRow, nocorePool, nocoreOf]
      rw [if_neg (by omega), if_pos (by omega), show 1 * n + (4 + i - 4) = n + i by omega, Nat.add_mod_left, Nat.mod_eq_of_lt hi',
        Nat.add_div_left _ (by omega), Nat.div_eq_of_lt hi', if_neg (by omega), add_comm (4 : Int)]
    rw [← hx, ← hy]
    exact k
  cases L with
  | pinhole => exact fin 0 (fun c _ p => (pinhole c p).q) _ _ _ rfl (fun _ _ => rfl) rfl rfl rfl (by simp) (total_scaled scaled_pinhole _ _ _ (pinhole_grad _ p hreg) nx ny)
  | stereographic => exact fin 0 (fun c _ p => (stereographic c p).q) _ _ _ rfl (fun _ _ => rfl) rfl rfl rfl (by simp) (total_scaled scaled_stereographic _ _ _ (stereographic_grad _ p hreg) nx ny)
  | lonlat => exact fin 0 (fun c _ p => (lonlat c p).q) _ _ _ rfl (fun _ _ => rfl) rfl rfl rfl (by simp) (total_scaled scaled_lonlat _ _ _ (lonlat_grad _ p hreg) nx ny)
  | latlon => exact fin 0 (fun c _ p => (latlon c p).q) _ _ _ rfl (fun _ _ => rfl) rfl rfl rfl (by simp) (total_scaled scaled_latlon _ _ _ (latlon_grad _ p hreg) nx ny)
  | opencv4 => exact fin 4 (fun c d p => ocvQ c (padK 4 d) p) _ _ _ rfl (fun _ _ => rfl) rfl rfl rfl (by simp) (opencv_gradients 4 (by simp [IsOcv]) _ nx ny _ p hreg.1 hreg.2)
  | opencv5 => exact fin 5 (fun c d p => ocvQ c (padK 5 d) p) _ _ _ rfl (fun _ _ => rfl) rfl rfl rfl (by simp) (opencv_gradients 5 (by simp [IsOcv]) _ nx ny _ p hreg.1 hreg.2)
  | opencv8 => exact fin 8 (fun c d p => ocvQ c (padK 8 d) p) _ _ _ rfl (fun _ _ => rfl) rfl rfl rfl (by simp) (opencv_gradients 8 (by simp [IsOcv]) _ nx ny _ p hreg.1 hreg.2)
  | opencv12 => exact fin 12 (fun c d p => ocvQ c (padK 12 d) p) _ _ _ rfl (fun _ _ => rfl) rfl rfl rfl (by simp) (opencv_gradients 12 (by simp [IsOcv]) _ nx ny _ p hreg.1 hreg.2)
  | cahvor => exact fin 5 cahvorQ _ _ _ rfl (fun _ _ => rfl) rfl rfl rfl (by simp) (cahvor_gradients _ nx ny _ p hreg.1 hreg.2)
  | cahvore lin =>
    obtain ⟨hr, l, hl, hz⟩ := hreg
    obtain ⟨dk, dp, e1, e2, ht⟩ := cahvore_total (coreOf (I t)) nx ny lin (nocoreOf (I t)) p hr l hl hz
    have hq : (cahvoreQ (coreOf (I t)) lin (nocoreOf (I t)) p).getD ⟨0, 0⟩ = distortedQ (coreOf (I t)) l.p := by
      unfold cahvoreQ
      rw [cahvore_wants, hl]
      rfl
    refine fin 8 (fun c d p => (cahvoreQ c lin d p).getD ⟨0, 0⟩) (distortedOut 8 (I t) ⟨l.p, dp, dk⟩) _ _ ?_ (fun _ _ => rfl) hq.symm rfl rfl (by simp) ht
    obtain ⟨op, ok, od⟩ := l
    simp only at e1 e2
    subst e1 e2
    simp only [lensOut, hl]
  | splined order Nx Ny fov =>
    obtain ⟨hN, hp⟩ := hreg
    obtain ⟨segs, hs⟩ := Option.isSome_iff_exists.mp (segs_some (fov := fov).mpr hv)
    have h0 := Spline.projectSplined_some order Nx Ny hv segs
    have hpix : ∀ intr p, pix (.splined order Nx Ny fov) intr p = (Spline.proj order Nx Ny segs intr p).q := by
      intro intr p
      simp only [pix, lensPixel, hs, h0, Option.bind_some, Option.map_some, Option.getD_some]
    obtain ⟨r0, r1, e0, e1, d0, d1⟩ := Spline.dense_rows order Nx Ny hv hN segs (I t) p hp
    have ho : lensOut (.splined order Nx Ny fov) (I t) p = some ⟨⟨(Spline.proj order Nx Ny segs (I t) p).q, (Spline.proj order Nx Ny segs (I t) p).dqx_dp,
        (Spline.proj order Nx Ny segs (I t) p).dqy_dp⟩, fun i_xy col => if i_xy = 0 then r0 col else r1 col⟩ := by
      simp only [lensOut, hs, h0, e0, e1]
    have k := Spline.lens_splined_total order Nx Ny hv segs hI p hp
    have hh : hypothesis (.splined order Nx Ny fov) (I t) p = ⟨(Spline.proj order Nx Ny segs (I t) p).q, (Spline.proj order Nx Ny segs (I t) p).dqx_dp,
        (Spline.proj order Nx Ny segs (I t) p).dqy_dp⟩ := by unfold hypothesis; rw [ho]
    simp only [hpix, hh]
    simp only [intrRate, mkProj, ho, hs, Option.getD_some]
    simp only [← Spline.surf_patch order Nx Ny hv]
    simpa [d0, d1] using k

end Mrcal.Cam
