import Verif.Props.SplineProps
import Verif.Props.Calc
import Verif.Props.CallbackColumnsProps
import Mathlib.Analysis.SpecialFunctions.Trigonometric.Bounds
import Mathlib.Analysis.Real.Pi.Bounds
/-
C16 (gradients of the splined projection), C18, C19, C49: the splined stereographic projection.
-/
namespace Mrcal.Spline
open Set

/-! ### C18: the accesses are in bounds -/

theorem clampI_range (lo hi i : Int) (h : lo ≤ hi) : lo ≤ clampI lo hi i ∧ clampI lo hi i ≤ hi := by
  unfold clampI; split
  · omega
  · split <;> omega

/-- C18, helper: whatever the cast produced, the run of control points is inside the grid -/
theorem run_in_bounds (Nx Ny ix0 iy0 n r c k : Int) (hx1 : 1 ≤ ix0) (hx2 : ix0 - 1 + n ≤ Nx) (hy1 : 1 ≤ iy0)
    (hy2 : iy0 - 1 + n ≤ Ny) (hr : 0 ≤ r ∧ r < n) (hc : 0 ≤ c ∧ c < n) (hk : 0 ≤ k ∧ k < 2) :
    4 ≤ ivar0 Nx ix0 iy0 + (r * (2 * Nx) + c * 2 + k) ∧
    ivar0 Nx ix0 iy0 + (r * (2 * Nx) + c * 2 + k) < 4 + 2 * (Nx * Ny) := by
  unfold ivar0
  obtain ⟨a, ha⟩ : ∃ a, a = iy0 - 1 + r := ⟨_, rfl⟩
  obtain ⟨b, hb⟩ : ∃ b, b = ix0 - 1 + c := ⟨_, rfl⟩
  have e : 4 + 2 * ((iy0 - 1) * Nx + (ix0 - 1)) + (r * (2 * Nx) + c * 2 + k) = 4 + 2 * (a * Nx + b) + k := by
    rw [ha, hb]; ring
  rw [e]
  have h1 : 0 ≤ a := by omega
  have h2 : a + 1 ≤ Ny := by omega
  have h3 : 0 ≤ b := by omega
  have h4 : b + 1 ≤ Nx := by omega
  have h5 : 0 ≤ a * Nx := mul_nonneg h1 (by omega)
  have h6 : (a + 1) * Nx ≤ Ny * Nx := mul_le_mul_of_nonneg_right h2 (by omega)
  have h7 : (a + 1) * Nx = a * Nx + Nx := by ring
  have h8 : Ny * Nx = Nx * Ny := by ring
  constructor <;> omega

/-- **C18**: every control point that a cubic splined projection touches is in the parameter vector. This holds for
ANY integers `ix`, `iy` that the conversion of the grid coordinates may have produced: points outside of the field
of view, behind the camera, NaN. -/
theorem cubic_in_bounds (Nx Ny : Nat) (hx : 4 ≤ Nx) (hy : 4 ≤ Ny) (ix iy r c k : Int)
    (hr : 0 ≤ r ∧ r < 4) (hc : 0 ≤ c ∧ c < 4) (hk : 0 ≤ k ∧ k < 2) :
    let i := ivar0 Nx (cubicWindow Nx ix) (cubicWindow Ny iy) + (r * (2 * Nx) + c * 2 + k)
    4 ≤ i ∧ i < 4 + 2 * ((Nx : Int) * Ny) := by
  have h1 := clampI_range 1 (Nx - 3) ix (by omega)
  have h2 := clampI_range 1 (Ny - 3) iy (by omega)
  exact run_in_bounds Nx Ny _ _ 4 r c k h1.1 (by unfold cubicWindow; omega) h2.1 (by unfold cubicWindow; omega) hr hc hk

/-- **C18**: and a quadratic one -/
theorem quad_in_bounds (Nx Ny : Nat) (hx : 3 ≤ Nx) (hy : 3 ≤ Ny) (ix iy r c k : Int)
    (hr : 0 ≤ r ∧ r < 3) (hc : 0 ≤ c ∧ c < 3) (hk : 0 ≤ k ∧ k < 2) :
    let i := ivar0 Nx (quadWindow Nx ix) (quadWindow Ny iy) + (r * (2 * Nx) + c * 2 + k)
    4 ≤ i ∧ i < 4 + 2 * ((Nx : Int) * Ny) := by
  have h1 := clampI_range 1 (Nx - 2) ix (by omega)
  have h2 := clampI_range 1 (Ny - 2) iy (by omega)
  exact run_in_bounds Nx Ny _ _ 3 r c k h1.1 (by unfold quadWindow; omega) h2.1 (by unfold quadWindow; omega) hr hc hk

/-- the bounds above are the size of the parameter vector that the library reports for these models -/
theorem lens_numParams (order Nx Ny fov : Nat) : (Lens.splined order Nx Ny fov).numParams = 4 + 2 * ((Nx : Int) * Ny) := by
  simp only [Lens.numParams]; ring

/-- **C18**: the index of the first control point that's reported to the optimizer is what the optimizer's own
Jacobian layout relies on (C04: `IvarOk`) -/
theorem ivar_ok (order Nx Ny fov : Nat) (h : Accepted order Nx Ny) (ix iy : Int) (p : Callback.Proj)
    (hp : p.ivar0 = if order = 3 then ivar0 Nx (cubicWindow Nx ix) (cubicWindow Ny iy)
                    else ivar0 Nx (quadWindow Nx ix) (quadWindow Ny iy)) :
    Callback.IvarOk (.splined order Nx Ny fov) p := by
  rcases h with ⟨rfl, hx, hy⟩ | ⟨rfl, hx, hy⟩
  · have h1 := clampI_range 1 (Nx - 2) ix (by omega)
    have h2 := clampI_range 1 (Ny - 2) iy (by omega)
    refine ⟨quadWindow Nx ix - 1, quadWindow Ny iy - 1, ?_, ?_, ?_, ?_, ?_⟩
    all_goals unfold quadWindow at *
    · omega
    · push_cast; omega
    · omega
    · push_cast; omega
    · rw [hp]; rfl
  · have h1 := clampI_range 1 (Nx - 3) ix (by omega)
    have h2 := clampI_range 1 (Ny - 3) iy (by omega)
    refine ⟨cubicWindow Nx ix - 1, cubicWindow Ny iy - 1, ?_, ?_, ?_, ?_, ?_⟩
    all_goals unfold cubicWindow at *
    · omega
    · push_cast; omega
    · omega
    · push_cast; omega
    · rw [hp]; rfl

example : (4 : Nat) ≤ 30 ∧ (0 : Int) ≤ 3 ∧ (3 : Int) < 4 ∧ (0 : Int) ≤ 1 ∧ (1 : Int) < 2 := by decide

/-! ### C19 -/

/-- **C19**: with all the control points at 0 the splined model is the stereographic model, for every point. -/
theorem zero_spline_stereographic (order Nx Ny : Nat) (h : Accepted order Nx Ny) (segs : ℝ) (intr : Int → ℝ)
    (h0 : ∀ i, 4 ≤ i → i < 4 + 2 * ((Nx : Int) * Ny) → intr i = 0) (p : P3) :
    ∃ r, projectSplined order Nx Ny segs intr p = some r ∧
      r.q = projectStereographic (intr 0) (intr 1) (intr 2) (intr 3) p := by
  have hz : ∀ (x y : ℝ) (k : Int), 0 ≤ k ∧ k < 2 → (surf order Nx Ny intr k x y).out = 0 := by
    intro x y k hk
    rcases h with ⟨rfl, hx, hy⟩ | ⟨rfl, hx, hy⟩
    · have hb : ∀ r c : Int, 0 ≤ r ∧ r < 3 → 0 ≤ c ∧ c < 3 →
          intr (ivar0 Nx (quadWindow Nx (truncC (x + 0.5))) (quadWindow Ny (truncC (y + 0.5))) + (r * (2 * Nx) + c * 2 + k)) = 0 := by
        intro r c hr hc
        have := quad_in_bounds Nx Ny hx hy (truncC (x + 0.5)) (truncC (y + 0.5)) r c k hr hc hk
        exact h0 _ this.1 this.2
      simp only [surf2, sampleQuad, interpQuad]
      simp only [hb, mul_zero, add_zero, Int.reduceLE, Int.reduceLT, and_self, le_refl]
    · have hb : ∀ r c : Int, 0 ≤ r ∧ r < 4 → 0 ≤ c ∧ c < 4 →
          intr (ivar0 Nx (cubicWindow Nx (truncC x)) (cubicWindow Ny (truncC y)) + (r * (2 * Nx) + c * 2 + k)) = 0 := by
        intro r c hr hc
        have := cubic_in_bounds Nx Ny hx hy (truncC x) (truncC y) r c k hr hc hk
        exact h0 _ this.1 this.2
      simp only [surf3, sampleCubic, interpCubic]
      simp only [hb, mul_zero, add_zero, Int.reduceLE, Int.reduceLT, and_self, le_refl]
  unfold projectSplined
  simp only [sampleSurface_some _ _ _ _ _ h]
  refine ⟨_, rfl, ?_⟩
  simp only [hz _ _ 0 (by decide), hz _ _ 1 (by decide), add_zero]
  rfl

example : ∃ intr : Int → ℝ, intr 0 = 2000 ∧ ∀ i, 4 ≤ i → i < 4 + 2 * ((30 : Int) * 18) → intr i = 0 :=
  ⟨fun i => if i = 0 then 2000 else 0, by simp, fun i hi _ => by simp; omega⟩

/-! ### C16: the gradient of the projection -/

theorem mag_ne_of_front {p : P3} (h : mag3 p + p.z ≠ 0) : mag3 p ≠ 0 := by
  intro h0
  have := mag3_sq p
  rw [h0] at this h
  have hz : p.z = 0 := by
    have : p.z * p.z ≤ 0 := by nlinarith [mul_self_nonneg p.x, mul_self_nonneg p.y]
    nlinarith
  exact h (by rw [hz]; ring)

theorem stereoU_deriv {c : ℝ → P3} {v : P3} {t : ℝ} (h : mag3 (c t) + (c t).z ≠ 0)
    (hx : HasDerivAt (fun s => (c s).x) v.x t) (hy : HasDerivAt (fun s => (c s).y) v.y t)
    (hz : HasDerivAt (fun s => (c s).z) v.z t) :
    HasDerivAt (fun s => (stereoU (c s)).x)
      ((stereoDu (c t)).1.x * v.x + (stereoDu (c t)).1.y * v.y + (stereoDu (c t)).1.z * v.z) t ∧
    HasDerivAt (fun s => (stereoU (c s)).y)
      ((stereoDu (c t)).2.x * v.x + (stereoDu (c t)).2.y * v.y + (stereoDu (c t)).2.z * v.z) t := by
  have hm := mag_ne_of_front h
  have h1 := (mag3_deriv hm hx hy hz).add hz
  have h2 := (HasDerivAt.const_mul (2.0 : ℝ) (h1.inv h))
  have hs : HasDerivAt (fun s => stereoScale (c s)) (2.0 * (-(((c t).x * v.x + (c t).y * v.y + (c t).z * v.z) / mag3 (c t) + v.z) / (mag3 (c t) + (c t).z) ^ 2)) t := h2
  constructor
  · refine HasDerivAt.congr_deriv (hx.mul hs) ?_
    simp only [stereoDu, stereoScale]
    show _ * (2.0 / (mag3 (c t) + (c t).z)) + _ = ((c t).x * (-(2.0 / (mag3 (c t) + (c t).z)) * (2.0 / (mag3 (c t) + (c t).z)) / 2 / mag3 (c t) * (c t).x) + 2.0 / (mag3 (c t) + (c t).z)) * v.x + (c t).x * (-(2.0 / (mag3 (c t) + (c t).z)) * (2.0 / (mag3 (c t) + (c t).z)) / 2 / mag3 (c t) * (c t).y) * v.y + (c t).x * (-(2.0 / (mag3 (c t) + (c t).z)) * (2.0 / (mag3 (c t) + (c t).z)) / 2 / mag3 (c t) * (c t).z + -(2.0 / (mag3 (c t) + (c t).z)) * (2.0 / (mag3 (c t) + (c t).z)) / 2) * v.z
    norm_num
    field_simp
    ring
  · refine HasDerivAt.congr_deriv (hy.mul hs) ?_
    simp only [stereoDu, stereoScale]
    show _ * (2.0 / (mag3 (c t) + (c t).z)) + _ = ((c t).y * (-(2.0 / (mag3 (c t) + (c t).z)) * (2.0 / (mag3 (c t) + (c t).z)) / 2 / mag3 (c t) * (c t).x)) * v.x + ((c t).y * (-(2.0 / (mag3 (c t) + (c t).z)) * (2.0 / (mag3 (c t) + (c t).z)) / 2 / mag3 (c t) * (c t).y) + 2.0 / (mag3 (c t) + (c t).z)) * v.y + (c t).y * (-(2.0 / (mag3 (c t) + (c t).z)) * (2.0 / (mag3 (c t) + (c t).z)) / 2 / mag3 (c t) * (c t).z + -(2.0 / (mag3 (c t) + (c t).z)) * (2.0 / (mag3 (c t) + (c t).z)) / 2) * v.z
    norm_num
    field_simp
    ring

theorem surface_differentiable (order Nx Ny : Nat) (intr : Int → ℝ) (k : Int) (h : Accepted order Nx Ny) :
    Differentiable ℝ (fun p : ℝ × ℝ => (surf order Nx Ny intr k p.1 p.2).out) := by
  rcases h with ⟨rfl, hx, hy⟩ | ⟨rfl, hx, hy⟩
  · exact (quad_surface_C1 Nx Ny intr k hx hy).differentiable (by norm_num)
  · exact (cubic_surface_C2 Nx Ny intr k hx hy).differentiable (by norm_num)

/-- what the splined projection returns, for the accepted configurations -/
noncomputable def proj (order Nx Ny : Nat) (segs : ℝ) (intr : Int → ℝ) (p : P3) : Projected :=
  (projectSplined order Nx Ny segs intr p).getD ⟨⟨0, 0⟩, ⟨0, 0⟩, ⟨0, 0⟩, ⟨0, 0⟩, ⟨0, 0, 0⟩, ⟨0, 0, 0⟩⟩

theorem projectSplined_some (order Nx Ny : Nat) (h : Accepted order Nx Ny) (segs : ℝ) (intr : Int → ℝ) (p : P3) :
    projectSplined order Nx Ny segs intr p = some (proj order Nx Ny segs intr p) := by
  unfold proj projectSplined
  simp only [sampleSurface_some _ _ _ _ _ h, Option.getD_some]

theorem surf_curve (order Nx Ny : Nat) (h : Accepted order Nx Ny) (intr : Int → ℝ) (k : Int) {X Y : ℝ → ℝ} {X' Y' t : ℝ}
    (hX : HasDerivAt X X' t) (hY : HasDerivAt Y Y' t) :
    HasDerivAt (fun s => (surf order Nx Ny intr k (X s) (Y s)).out)
      ((surf order Nx Ny intr k (X t) (Y t)).dx * X' + (surf order Nx Ny intr k (X t) (Y t)).dy * Y') t :=
  hasDerivAt_curve2 (f := fun p : ℝ × ℝ => (surf order Nx Ny intr k p.1 p.2).out)
    (surface_differentiable order Nx Ny intr k h).differentiableAt
    (surface_partial_x order Nx Ny intr k h (X t) (Y t)) (surface_partial_y order Nx Ny intr k h (X t) (Y t)) hX hY rfl rfl

/-- **C16**: the gradient with respect to the point that the splined projection reports is the gradient of the
projection it computes. This holds at every point where the stereographic projection is defined: anything not
directly behind the camera; in or out of the spline's domain; on the knots. -/
theorem splined_gradient (order Nx Ny : Nat) (h : Accepted order Nx Ny) (segs : ℝ) (intr : Int → ℝ) (p : P3)
    (hp : mag3 p + p.z ≠ 0) :
    GradAt (fun p => (proj order Nx Ny segs intr p).q.x) (proj order Nx Ny segs intr p).dqx_dp p ∧
    GradAt (fun p => (proj order Nx Ny segs intr p).q.y) (proj order Nx Ny segs intr p).dqy_dp p := by
  have key : ∀ (c : ℝ → P3) (v : P3) (t : ℝ), c t = p →
      HasDerivAt (fun s => (c s).x) v.x t → HasDerivAt (fun s => (c s).y) v.y t → HasDerivAt (fun s => (c s).z) v.z t →
      ∀ k, HasDerivAt (fun s => (surf order Nx Ny intr k (gridCoord Nx segs (stereoU (c s)).x) (gridCoord Ny segs (stereoU (c s)).y)).out)
        ((surf order Nx Ny intr k (gridCoord Nx segs (stereoU p).x) (gridCoord Ny segs (stereoU p).y)).dx *
          (((stereoDu p).1.x * v.x + (stereoDu p).1.y * v.y + (stereoDu p).1.z * v.z) * segs) +
         (surf order Nx Ny intr k (gridCoord Nx segs (stereoU p).x) (gridCoord Ny segs (stereoU p).y)).dy *
          (((stereoDu p).2.x * v.x + (stereoDu p).2.y * v.y + (stereoDu p).2.z * v.z) * segs)) t := by
    intro c v t e hx hy hz k
    subst e
    obtain ⟨ux, uy⟩ := stereoU_deriv hp hx hy hz
    have gx : HasDerivAt (fun s => gridCoord Nx segs (stereoU (c s)).x) (((stereoDu (c t)).1.x * v.x + (stereoDu (c t)).1.y * v.y + (stereoDu (c t)).1.z * v.z) * segs) t :=
      (ux.mul_const segs).add_const _
    have gy : HasDerivAt (fun s => gridCoord Ny segs (stereoU (c s)).y) (((stereoDu (c t)).2.x * v.x + (stereoDu (c t)).2.y * v.y + (stereoDu (c t)).2.z * v.z) * segs) t :=
      (uy.mul_const segs).add_const _
    exact surf_curve order Nx Ny h intr k gx gy
  have ev : ∀ p, proj order Nx Ny segs intr p = _ := fun p => by
    unfold proj projectSplined
    simp only [sampleSurface_some _ _ _ _ _ h, Option.getD_some]
    rfl
  constructor
  · intro c v t e hx hy hz
    have hk := key c v t e hx hy hz 0
    obtain ⟨ux, uy⟩ := stereoU_deriv (c := c) (t := t) (by rw [e]; exact hp) hx hy hz
    rw [e] at ux
    simp only [ev]
    refine HasDerivAt.congr_deriv (((ux.add hk).mul_const (intr 0)).add_const (intr 2)) ?_
    ring
  · intro c v t e hx hy hz
    have hk := key c v t e hx hy hz 1
    obtain ⟨ux, uy⟩ := stereoU_deriv (c := c) (t := t) (by rw [e]; exact hp) hx hy hz
    rw [e] at uy
    simp only [ev]
    refine HasDerivAt.congr_deriv (((uy.add hk).mul_const (intr 1)).add_const (intr 3)) ?_
    ring

example : mag3 ⟨0, 0, 1⟩ + (⟨0, 0, 1⟩ : P3).z ≠ 0 := by
  have := mag3_nonneg ⟨0, 0, 1⟩
  simp only
  linarith

/-! ### C16: the gradient with respect to the parameters -/

/-- weighted sum of an n-by-n patch of control points -/
noncomputable def patch (n : Nat) (wx wy : Nat → ℝ) (base Nx k : Int) (intr : Int → ℝ) : ℝ :=
  ∑ r ∈ Finset.range n, wy r * ∑ c ∈ Finset.range n, wx c * intr (base + (r * (2 * Nx) + c * 2 + k))

theorem cubic_patch (x y : ℝ) (intr : Int → ℝ) (base Nx k : Int) :
    (sampleCubic x y (fun i => intr (base + i)) (2 * Nx) k).out = patch 4 (cubicW x).nth (cubicW y).nth base Nx k intr := by
  simp only [sampleCubic, interpCubic, patch, Finset.sum_range_succ, Finset.sum_range_zero, W4.nth]
  push_cast
  simp only [zero_add]

theorem quad_patch (x y : ℝ) (intr : Int → ℝ) (base Nx k : Int) :
    (sampleQuad x y (fun i => intr (base + i)) (2 * Nx) k).out = patch 3 (quadW x).nth (quadW y).nth base Nx k intr := by
  simp only [sampleQuad, interpQuad, patch, Finset.sum_range_succ, Finset.sum_range_zero, W3.nth]
  push_cast
  simp only [zero_add]

/-- 1 at one index -/
noncomputable def unit (i : Int) : Int → ℝ := fun j => if j = i then 1 else 0

theorem patch_update (n : Nat) (wx wy : Nat → ℝ) (base Nx k : Int) (intr : Int → ℝ) (i : Int) (s : ℝ) :
    patch n wx wy base Nx k (Function.update intr i s) =
      patch n wx wy base Nx k intr + (s - intr i) * patch n wx wy base Nx k (unit i) := by
  have h : ∀ j, Function.update intr i s j = intr j + (s - intr i) * unit i j := by
    intro j
    unfold unit
    by_cases hj : j = i
    · subst hj; simp
    · simp [hj]
  simp only [patch, h]
  rw [Finset.mul_sum, ← Finset.sum_add_distrib]
  apply Finset.sum_congr rfl
  intro r _
  rw [mul_left_comm (s - intr i) (wy r), ← mul_add]
  congr 1
  rw [Finset.mul_sum, ← Finset.sum_add_distrib]
  apply Finset.sum_congr rfl
  intro c _
  ring

theorem writeAll_append (a b : List (Int × ℝ)) (f : Int → ℝ) : writeAll (a ++ b) f = writeAll b (writeAll a f) :=
  List.foldl_append

theorem writeAll_not (ws : List (Int × ℝ)) (f : Int → ℝ) (j : Int) (h : ∀ e ∈ ws, e.1 ≠ j) : writeAll ws f j = f j := by
  induction ws generalizing f with
  | nil => rfl
  | cons e ws ih =>
    have h1 := h e (List.mem_cons_self ..)
    unfold writeAll at ih ⊢
    rw [List.foldl_cons, ih _ fun e he => h e (List.mem_cons_of_mem _ he), if_neg fun h2 => h1 h2.symm]

theorem writeAll_mem (ws : List (Int × ℝ)) (f : Int → ℝ) (j : Int) (v : ℝ) (h : ∀ e ∈ ws, e.1 = j → e.2 = v)
    (hm : ∃ e ∈ ws, e.1 = j) : writeAll ws f j = v := by
  induction ws generalizing f with
  | nil => simp at hm
  | cons e ws ih =>
    by_cases h2 : ∃ e ∈ ws, e.1 = j
    · unfold writeAll at ih ⊢
      rw [List.foldl_cons]
      exact ih _ (fun e he => h e (List.mem_cons_of_mem _ he)) h2
    · obtain ⟨e', he', hj⟩ := hm
      rcases List.mem_cons.mp he' with rfl | h3
      · have := writeAll_not ws (fun i => if i = e'.1 then e'.2 else f i) j fun e he hh => h2 ⟨e, he, hh⟩
        unfold writeAll at this ⊢
        rw [List.foldl_cons, this, if_pos hj.symm]
        exact h _ (List.mem_cons_self ..) hj
      · exact absurd ⟨e', h3, hj⟩ h2

theorem mem_splineWrites {len : Nat} {wx wy : Nat → ℝ} {base : Int} {stride : Nat} {f : ℝ} {k : Nat} {e : Int × ℝ} :
    e ∈ splineWrites len wx wy base stride f k ↔
      ∃ r < len, ∃ c < len, e = (base + (stride : Int) * r + c * 2 + k, wx c * wy r * f) := by
  unfold splineWrites
  simp only [List.mem_flatMap, List.mem_map, List.mem_range]
  constructor
  · rintro ⟨r, hr, c, hc, rfl⟩; exact ⟨r, hr, c, hc, rfl⟩
  · rintro ⟨r, hr, c, hc, rfl⟩; exact ⟨r, hr, c, hc, rfl⟩

theorem cell_inj {Nx r c r0 c0 n : Nat} (hn : n ≤ Nx) (hc : c < n) (hc0 : c0 < n) (base k : Int)
    (h : base + ((2 * Nx : Nat) : Int) * r + c * 2 + k = base + ((2 * Nx : Nat) : Int) * r0 + c0 * 2 + k) : r = r0 ∧ c = c0 := by
  have h1 : (Nx : Int) * r + c = (Nx : Int) * r0 + c0 := by push_cast at h; linarith
  have h2 : Nx * r + c = Nx * r0 + c0 := by exact_mod_cast h1
  have hr : r = r0 := by
    rcases lt_trichotomy r r0 with g | g | g
    · have : Nx * (r + 1) ≤ Nx * r0 := Nat.mul_le_mul_left _ g
      have e : Nx * (r + 1) = Nx * r + Nx := by ring
      omega
    · exact g
    · have : Nx * (r0 + 1) ≤ Nx * r := Nat.mul_le_mul_left _ g
      have e : Nx * (r0 + 1) = Nx * r0 + Nx := by ring
      omega
  subst hr
  exact ⟨rfl, by omega⟩

/-- what the loop leaves at the index `i` is the weight of that control point, times the focal length -/
theorem writes_are_weights {n Nx : Nat} (hn : n ≤ Nx) (wx wy : Nat → ℝ) (base : Int) (f : ℝ) (k : Nat) (a : Int → ℝ) (i : Int)
    (ha : a i = 0) :
    writeAll (splineWrites n wx wy base (2 * Nx) f k) a i = patch n wx wy base Nx k (unit i) * f := by
  by_cases h : ∃ r < n, ∃ c < n, base + ((2 * Nx : Nat) : Int) * (r : Nat) + (c : Nat) * 2 + k = i
  · obtain ⟨r0, hr0, c0, hc0, hi⟩ := h
    rw [writeAll_mem _ a i (wx c0 * wy r0 * f)]
    · congr 1
      unfold patch
      rw [Finset.sum_eq_single r0, Finset.sum_eq_single c0]
      · have : base + ((r0 : Int) * (2 * Nx) + c0 * 2 + k) = i := by rw [← hi]; push_cast; ring
        rw [this]; unfold unit; simp; ring
      · intro c hc hne
        unfold unit
        rw [if_neg, mul_zero]
        intro hh
        apply hne
        exact (cell_inj (r := r0) (r0 := r0) hn (Finset.mem_range.mp hc) hc0 base k (by rw [hi, ← hh]; push_cast; ring)).2
      · intro hh; exact absurd (Finset.mem_range.mpr hc0) hh
      · intro r hr hne
        rw [Finset.sum_eq_zero, mul_zero]
        intro c hc
        unfold unit
        rw [if_neg, mul_zero]
        intro hh
        apply hne
        exact (cell_inj (c0 := c0) hn (Finset.mem_range.mp hc) hc0 base k (by rw [hi, ← hh]; push_cast; ring)).1
      · intro hh; exact absurd (Finset.mem_range.mpr hr0) hh
    · intro e he hei
      obtain ⟨r, hr, c, hc, rfl⟩ := mem_splineWrites.mp he
      obtain ⟨rfl, rfl⟩ := cell_inj hn hc hc0 base k (hei.trans hi.symm)
      rfl
    · exact ⟨_, mem_splineWrites.mpr ⟨r0, hr0, c0, hc0, rfl⟩, hi⟩
  · rw [writeAll_not, ha]
    · unfold patch
      rw [Finset.sum_eq_zero, zero_mul]
      intro r hr
      rw [Finset.sum_eq_zero, mul_zero]
      intro c hc
      unfold unit
      rw [if_neg, mul_zero]
      intro hh
      exact h ⟨r, Finset.mem_range.mp hr, c, Finset.mem_range.mp hc, by rw [← hh]; push_cast; ring⟩
    · intro e he hei
      obtain ⟨r, hr, c, hc, rfl⟩ := mem_splineWrites.mp he
      exact h ⟨r, hr, c, hc, hei⟩

theorem patch_core_zero {n : Nat} (wx wy : Nat → ℝ) (base Nx k i : Int) 
    (hb : ∀ r c : Int, 0 ≤ r ∧ r < n → 0 ≤ c ∧ c < n → 4 ≤ base + (r * (2 * Nx) + c * 2 + k)) (hi : i < 4) :
    patch n wx wy base Nx k (unit i) = 0 := by
  unfold patch
  apply Finset.sum_eq_zero
  intro r hr
  rw [Finset.sum_eq_zero, mul_zero]
  intro c hc
  rw [Finset.mem_range] at hr hc
  have := hb r c (by omega) (by omega)
  unfold unit
  rw [if_neg (by omega), mul_zero]

/-- writing the core and then the control points -/
theorem row_value {n Nx : Nat} (hn : n ≤ Nx) (wx wy : Nat → ℝ) (base : Int) (f : ℝ) (k : Nat)
    (hb : ∀ r c : Int, 0 ≤ r ∧ r < n → 0 ≤ c ∧ c < n → 4 ≤ base + (r * (2 * Nx) + c * 2 + k))
    (core : List (Int × ℝ)) (hc : ∀ e ∈ core, e.1 < 4) (i : Int) :
    writeAll (core ++ splineWrites n wx wy base (2 * Nx) f k) (fun _ => 0) i =
      writeAll core (fun _ => 0) i + patch n wx wy base Nx k (unit i) * f := by
  rw [writeAll_append]
  by_cases hi : i < 4
  · rw [patch_core_zero wx wy base Nx k i hb hi, zero_mul, add_zero, writeAll_not]
    intro e he hei
    obtain ⟨r, hr, c, hc, rfl⟩ := mem_splineWrites.mp he
    have := hb r c (by omega) (by omega)
    simp only at hei
    have e2 : base + ((2 * Nx : Nat) : Int) * r + c * 2 + k = base + ((r : Int) * (2 * Nx) + c * 2 + k) := by push_cast; ring
    omega
  · have h0 : writeAll core (fun _ => 0) i = 0 := writeAll_not _ _ _ fun e he => by have := hc e he; omega
    rw [writes_are_weights hn wx wy base f k _ i h0, h0, zero_add]

theorem core_values (a b c d : ℝ) (i : Int) :
    writeAll [(0, a), (1, b), (2, c), (3, d)] (fun _ => 0) i =
      if i = 3 then d else if i = 2 then c else if i = 1 then b else if i = 0 then a else 0 := rfl

/-- the derivative of (u + out + (s-s0) w) s[0] + s[2] with respect to any one of the parameters -/
theorem param_deriv (u out w : ℝ) (intr : Int → ℝ) (i jf jc : Int) (hfc : jf ≠ jc) (hw : i = jf ∨ i = jc → w = 0) :
    HasDerivAt (fun s => (u + (out + (s - intr i) * w)) * (Function.update intr i s jf) + Function.update intr i s jc)
      ((if i = jf then u + out else 0) + (if i = jc then 1 else 0) + w * intr jf) (intr i) := by
  have hlin : HasDerivAt (fun s : ℝ => u + (out + (s - intr i) * w)) w (intr i) := by
    have := ((((hasDerivAt_id (intr i)).sub_const (intr i)).mul_const w).const_add out).const_add u
    simpa using this
  have hup : ∀ j, HasDerivAt (fun s => Function.update intr i s j) (if i = j then 1 else 0) (intr i) := by
    intro j
    by_cases h : i = j
    · subst h
      rw [if_pos rfl]
      exact (hasDerivAt_id (intr i)).congr_of_eventuallyEq (Filter.Eventually.of_forall fun s => by simp)
    · have : (fun s => Function.update intr i s j) = fun _ => intr j := funext fun s => by
        rw [Function.update_of_ne (Ne.symm h)]
      rw [this, if_neg h]
      exact hasDerivAt_const _ _
  refine HasDerivAt.congr_deriv ((hlin.mul (hup jf)).add (hup jc)) ?_
  rw [Function.update_eq_self]
  by_cases h1 : i = jf
  · rw [hw (Or.inl h1)]
    simp [h1, hfc]
  · simp [h1]; ring

/-- **C16**: every entry of the gradient with respect to the parameters (the core, each control point of each
surface) is the derivative of the projection with respect to that parameter, at every point. -/
theorem splined_intrinsics_gradient (order Nx Ny : Nat) (h : Accepted order Nx Ny) (hNx : Nx < 32768) (segs : ℝ)
    (intr : Int → ℝ) (p : P3) :
    ∃ rowx rowy, dqDintrinsics order Nx Ny segs intr p 0 = some rowx ∧ dqDintrinsics order Nx Ny segs intr p 1 = some rowy ∧
      ∀ i, HasDerivAt (fun s => (proj order Nx Ny segs (Function.update intr i s) p).q.x) (rowx i) (intr i) ∧
           HasDerivAt (fun s => (proj order Nx Ny segs (Function.update intr i s) p).q.y) (rowy i) (intr i) := by
  have hst : ivarStridey Nx = 2 * Nx := by unfold ivarStridey; omega
  obtain ⟨n, wx, wy, base, hn, hb, hout, hrow⟩ : ∃ (n : Nat) (wx wy : Nat → ℝ) (base : Int), n ≤ Nx ∧
      (∀ k r c : Int, 0 ≤ k ∧ k < 2 → 0 ≤ r ∧ r < n → 0 ≤ c ∧ c < n → 4 ≤ base + (r * (2 * Nx) + c * 2 + k)) ∧
      (∀ (intr : Int → ℝ) (k : Int), (surf order Nx Ny intr k (gridCoord Nx segs (stereoU p).x) (gridCoord Ny segs (stereoU p).y)).out
        = patch n wx wy base Nx k intr) ∧
      (∀ k, dqDintrinsics order Nx Ny segs intr p k = some (writeAll
        ((if k = 0 then [(0, (proj order Nx Ny segs intr p).dq_dfxy.x), (1, 0), (2, 1), (3, 0)]
          else [(0, 0), (1, (proj order Nx Ny segs intr p).dq_dfxy.y), (2, 0), (3, 1)]) ++
          splineWrites n wx wy base (2 * Nx) (if k = 0 then intr 0 else intr 1) k) fun _ => 0)) := by
    rcases h with ⟨rfl, hx, hy⟩ | ⟨rfl, hx, hy⟩
    · set gx := gridCoord Nx segs (stereoU p).x with hgx
      set gy := gridCoord Ny segs (stereoU p).y with hgy
      refine ⟨3, (quadW (gx - quadWindow Nx (truncC (gx + 0.5)))).nth, (quadW (gy - quadWindow Ny (truncC (gy + 0.5)))).nth,
        ivar0 Nx (quadWindow Nx (truncC (gx + 0.5))) (quadWindow Ny (truncC (gy + 0.5))), hx, fun k r c hk hr hc => ?_, fun intr k => ?_, fun k => ?_⟩
      rotate_left
      · rw [surf2]; exact quad_patch _ _ _ _ _ _
      · unfold dqDintrinsics
        rw [projectSplined_some 2 Nx Ny (Or.inl ⟨rfl, hx, hy⟩), hst]
        rfl
      · exact (quad_in_bounds Nx Ny hx hy _ _ r c k hr hc hk).1
    · set gx := gridCoord Nx segs (stereoU p).x with hgx
      set gy := gridCoord Ny segs (stereoU p).y with hgy
      refine ⟨4, (cubicW (gx - cubicWindow Nx (truncC gx))).nth, (cubicW (gy - cubicWindow Ny (truncC gy))).nth,
        ivar0 Nx (cubicWindow Nx (truncC gx)) (cubicWindow Ny (truncC gy)), hx, fun k r c hk hr hc => ?_, fun intr k => ?_, fun k => ?_⟩
      rotate_left
      · rw [surf3]; exact cubic_patch _ _ _ _ _ _
      · unfold dqDintrinsics
        rw [projectSplined_some 3 Nx Ny (Or.inr ⟨rfl, hx, hy⟩), hst]
        rfl
      · exact (cubic_in_bounds Nx Ny hx hy _ _ r c k hr hc hk).1
  refine ⟨_, _, hrow 0, hrow 1, fun i => ?_⟩
  have ev : ∀ intr, proj order Nx Ny segs intr p = _ := fun intr => by
    unfold proj projectSplined
    simp only [sampleSurface_some _ _ _ _ _ h, Option.getD_some, hout]
    rfl
  constructor
  · rw [row_value hn wx wy base _ 0 (fun r c => by simpa using hb 0 r c (by omega)) _ (by simp), if_pos rfl, if_pos rfl, core_values]
    simp only [ev, patch_update]
    have hd := param_deriv (stereoU p).x (patch n wx wy base Nx 0 intr) (patch n wx wy base Nx 0 (unit i)) intr i 0 2 (by decide)
      (fun hi => patch_core_zero wx wy base Nx 0 i (fun r c => hb 0 r c (by omega)) (by omega))
    refine HasDerivAt.congr_deriv hd ?_
    push_cast
    congr 1
    by_cases h3 : i = 3
    · simp [h3]
    · by_cases h2 : i = 2
      · simp [h2]
      · by_cases h1 : i = 1
        · simp [h1]
        · simp [h3, h2, h1]
  · rw [row_value hn wx wy base _ 1 (fun r c => by simpa using hb 1 r c (by omega)) _ (by simp), if_neg (by decide), if_neg (by decide), core_values]
    simp only [ev, patch_update]
    have hd := param_deriv (stereoU p).y (patch n wx wy base Nx 1 intr) (patch n wx wy base Nx 1 (unit i)) intr i 1 3 (by decide)
      (fun hi => patch_core_zero wx wy base Nx 1 i (fun r c => hb 1 r c (by omega)) (by omega))
    refine HasDerivAt.congr_deriv hd ?_
    push_cast
    congr 1
    by_cases h3 : i = 3
    · simp [h3]
    · by_cases h2 : i = 2
      · simp [h2]
      · by_cases h1 : i = 1
        · simp [h1]
        · simp [h3, h2, h1]

/-- C16, deviation: `ivar_stridey` is a `uint16_t`. At Nx = 32768 (accepted by the library) it's 0, and the reported
gradient is wrong: the pixel depends on the control point below, and the gradient is 0. This is why
`splined_intrinsics_gradient` has `Nx < 32768`. -/
theorem stride_wraps : Accepted 2 32768 3 ∧ ∃ (intr : Int → ℝ) (p : P3) (i : Int), ∃ row,
    dqDintrinsics 2 32768 3 1 intr p 0 = some row ∧
    ¬ HasDerivAt (fun s => (proj 2 32768 3 1 (Function.update intr i s) p).q.x) (row i) (intr i) := by
  have hacc : Accepted 2 32768 3 := by unfold Accepted; omega
  refine ⟨hacc, fun i => if i = 0 then 1 else 0, ⟨0, 0, 1⟩, 32770 + 65536, ?_⟩
  have hu : stereoU ⟨0, 0, 1⟩ = ⟨0, 0⟩ := by unfold stereoU; simp
  have hgx : gridCoord 32768 1 0 = 16383.5 := by unfold gridCoord; norm_num
  have hgy : gridCoord 3 1 0 = 1 := by unfold gridCoord; norm_num
  have ht : truncC (16383.5 + 0.5) = 16384 := by
    unfold truncC
    rw [if_pos (by norm_num), Int.floor_eq_iff]
    norm_num
  have ht2 : truncC (1 + 0.5) = 1 := by
    unfold truncC
    rw [if_pos (by norm_num), Int.floor_eq_iff]
    norm_num
  have hw1 : quadWindow ((32768 : ℕ) : Int) 16384 = 16384 := by decide
  have hw2 : quadWindow ((3 : ℕ) : Int) 1 = 1 := by decide
  have hb : ivar0 ((32768 : ℕ) : Int) 16384 1 = 32770 := by decide
  have hs : ivarStridey 32768 = 0 := by decide
  have hd : ∃ row, dqDintrinsics 2 32768 3 1 (fun i => if i = 0 then 1 else 0) ⟨0, 0, 1⟩ 0 = some row ∧ row (32770 + 65536) = 0 := by
    unfold dqDintrinsics
    rw [projectSplined_some 2 32768 3 hacc]
    refine ⟨_, rfl, ?_⟩
    simp only [hu, hgx, hgy, ht, ht2, hw1, hw2, hb, hs]
    rw [writeAll_append, if_neg (by decide), writeAll_not, writeAll_not]
    · simp
    · intro e he hei
      obtain ⟨r, hr, c, hc, rfl⟩ := mem_splineWrites.mp he
      simp only at hei
      push_cast at hei
      omega
  obtain ⟨row, hrow, hr0⟩ := hd
  refine ⟨row, hrow, ?_⟩
  rw [hr0]
  intro hder
  have ev : ∀ intr : Int → ℝ, (proj 2 32768 3 1 intr ⟨0, 0, 1⟩).q.x =
      (0 + patch 3 (quadW (16383.5 - (16384 : Int))).nth (quadW (1 - (1 : Int))).nth 32770 32768 0 intr) * intr 0 + intr 2 := by
    intro intr
    unfold proj projectSplined
    simp only [sampleSurface_some _ _ _ _ _ hacc, Option.getD_some, hu, hgx, hgy, surf2, ht, ht2, hw1, hw2, hb, quad_patch]
    norm_cast
  simp only [ev, patch_update] at hder
  have hd2 := param_deriv 0 (patch 3 (quadW (16383.5 - (16384 : Int))).nth (quadW (1 - (1 : Int))).nth 32770 32768 0 (fun i => if i = 0 then 1 else 0))
    (patch 3 (quadW (16383.5 - (16384 : Int))).nth (quadW (1 - (1 : Int))).nth 32770 32768 0 (unit (32770 + 65536)))
    (fun i => if i = 0 then 1 else 0) (32770 + 65536) 0 2 (by decide) (by intro h; omega)
  have hu := hder.unique hd2
  simp [patch, Finset.sum_range_succ, unit, W3.nth, quadW] at hu
  norm_num at hu

/-! ### C49: the field of view -/

/-- **C49**: the knots are where the grid coordinate is an integer -/
theorem knot_grid (N : Nat) (segs : ℝ) (h : segs ≠ 0) (i : Nat) : gridCoord N segs (knot N segs i) = i := by
  unfold gridCoord knot
  field_simp
  ring

theorem segments_pos (order Nx Ny fov : Nat) (h : Accepted order Nx Ny) (h0 : 0 < fov) (h1 : fov < 360) :
    ∃ s, segmentsPerU order Nx Ny fov = some s ∧ 0 < s ∧
      s * (4 * Real.tan ((fov : ℝ) * Real.pi / 720)) = (Nx : ℝ) - 1 - ((order : ℝ) - 1) := by
  have ht : 0 < Real.tan ((fov : ℝ) * Real.pi / 720) := by
    have h2 : (0 : ℝ) < fov := by exact_mod_cast h0
    have h3 : (fov : ℝ) < 360 := by exact_mod_cast h1
    have := Real.pi_pos
    exact Real.tan_pos_of_pos_of_lt_pi_div_two (by positivity) (by nlinarith)
  have e : (fov : ℝ) / 2 * Real.pi / 180 / 2 = (fov : ℝ) * Real.pi / 720 := by ring
  unfold segmentsPerU
  rcases h with ⟨rfl, hx, hy⟩ | ⟨rfl, hx, hy⟩
  · have hx' : (3 : ℝ) ≤ Nx := by exact_mod_cast hx
    simp only [if_true, e]
    rw [if_neg (by omega)]
    refine ⟨_, rfl, ?_, ?_⟩
    · apply div_pos _ (by positivity)
      push_cast; linarith
    · push_cast
      field_simp
      ring
  · have hx' : (4 : ℝ) ≤ Nx := by exact_mod_cast hx
    simp only [e]
    rw [if_neg (by decide), if_pos trivial, if_neg (by omega)]
    refine ⟨_, rfl, ?_, ?_⟩
    · apply div_pos _ (by positivity)
      push_cast; linarith
    · push_cast
      field_simp
      ring

/-- the (normalized, stereographic) edge of the horizontal field of view: a vector at the angle `fov/2` off the
optical axis projects here -/
noncomputable def uEdge (fovDeg : Nat) : ℝ := 2 * Real.tan ((fovDeg : ℝ) * Real.pi / 720)

/-- `uEdge` is what it says: the normalized stereographic projection of a vector `th` off the axis is at 2 tan(th/2) -/
theorem uEdge_meaning (fovDeg : Nat) (h : fovDeg < 360) :
    (stereoU ⟨Real.sin ((fovDeg : ℝ) * Real.pi / 360), 0, Real.cos ((fovDeg : ℝ) * Real.pi / 360)⟩).x = uEdge fovDeg := by
  set a := (fovDeg : ℝ) * Real.pi / 720 with ha
  have e : (fovDeg : ℝ) * Real.pi / 360 = 2 * a := by rw [ha]; ring
  have h3 : (fovDeg : ℝ) < 360 := by exact_mod_cast h
  have hc : 0 < Real.cos a := by
    have h0 : (0 : ℝ) ≤ fovDeg := Nat.cast_nonneg _
    have := Real.pi_pos
    apply Real.cos_pos_of_mem_Ioo
    constructor
    · have : 0 ≤ a := by rw [ha]; positivity
      linarith
    · rw [ha]; nlinarith
  unfold uEdge stereoU stereoScale
  simp only [e]
  have h1 : Real.sin (2 * a) * Real.sin (2 * a) + 0 * 0 + Real.cos (2 * a) * Real.cos (2 * a) = 1 := by
    nlinarith [Real.sin_sq_add_cos_sq (2 * a)]
  rw [h1, Real.sqrt_one, Real.sin_two_mul, Real.cos_two_mul, Real.tan_eq_sin_div_cos]
  have h2 : (1 : ℝ) + (2 * Real.cos a ^ 2 - 1) = 2 * Real.cos a ^ 2 := by ring
  rw [h2]
  rw [← ha]
  norm_num
  field_simp

/-- **C49**: everything inside of the declared horizontal field of view is interpolated, never extrapolated: the
grid coordinate is inside the part of the grid where the clamping does nothing. -/
theorem fov_covered (order Nx Ny fov : Nat) (h : Accepted order Nx Ny) (h0 : 0 < fov) (h1 : fov < 360) (u : ℝ)
    (hu : |u| ≤ uEdge fov) :
    ∃ s, segmentsPerU order Nx Ny fov = some s ∧
      ((order : ℝ) - 1) / 2 ≤ gridCoord Nx s u ∧ gridCoord Nx s u ≤ (Nx : ℝ) - 1 - ((order : ℝ) - 1) / 2 := by
  obtain ⟨s, hs, hpos, he⟩ := segments_pos order Nx Ny fov h h0 h1
  refine ⟨s, hs, ?_⟩
  unfold uEdge at hu
  rw [abs_le] at hu
  unfold gridCoord
  push_cast
  constructor <;> nlinarith

/-- **C49**: and the edge is tight: the edges of the field of view are exactly at the first and last usable grid
coordinates -/
theorem fov_edge (order Nx Ny fov : Nat) (h : Accepted order Nx Ny) (h0 : 0 < fov) (h1 : fov < 360) :
    ∃ s, segmentsPerU order Nx Ny fov = some s ∧
      gridCoord Nx s (-uEdge fov) = ((order : ℝ) - 1) / 2 ∧
      gridCoord Nx s (uEdge fov) = (Nx : ℝ) - 1 - ((order : ℝ) - 1) / 2 := by
  obtain ⟨s, hs, hpos, he⟩ := segments_pos order Nx Ny fov h h0 h1
  refine ⟨s, hs, ?_⟩
  unfold gridCoord uEdge
  push_cast
  constructor <;> linarith

/-- **C49**: "usable" means: the segment that's sampled contains the point, so all the weights are in [0,1] -/
theorem covered_cubic (N : Nat) (hN : 4 ≤ N) (t : ℝ) (h0 : 1 ≤ t) (h1 : t ≤ (N : ℝ) - 1 - 1) :
    0 ≤ t - cubicWindow N (truncC t) ∧ t - cubicWindow N (truncC t) ≤ 1 := by
  have hw := cubic_win N (by omega) t
  rcases lt_or_eq_of_le hw.lo_le with h | h
  · have := hw.left h
    refine ⟨by linarith, ?_⟩
    rcases lt_or_eq_of_le hw.le_hi with g | g
    · have := hw.right g; linarith
    · rw [g]; push_cast; linarith
  · rw [← h]
    push_cast
    refine ⟨by linarith, ?_⟩
    rcases lt_or_eq_of_le hw.le_hi with g | g
    · have := hw.right g; rw [← h] at this; push_cast at this; linarith
    · rw [← h] at g
      have : (N : ℝ) = 4 := by
        have : (N : Int) = 4 := by omega
        exact_mod_cast this
      linarith

theorem covered_quad (N : Nat) (hN : 3 ≤ N) (t : ℝ) (h0 : 1 / 2 ≤ t) (h1 : t ≤ (N : ℝ) - 1 - 1 / 2) :
    -1 / 2 ≤ t - quadWindow N (truncC (t + 0.5)) ∧ t - quadWindow N (truncC (t + 0.5)) ≤ 1 / 2 := by
  have hw := quad_win N (by omega) t
  rcases lt_or_eq_of_le hw.lo_le with h | h
  · have := hw.left h
    refine ⟨by linarith, ?_⟩
    rcases lt_or_eq_of_le hw.le_hi with g | g
    · have := hw.right g; linarith
    · rw [g]; push_cast; linarith
  · rw [← h]
    push_cast
    refine ⟨by linarith, ?_⟩
    rcases lt_or_eq_of_le hw.le_hi with g | g
    · have := hw.right g; rw [← h] at this; push_cast at this; linarith
    · rw [← h] at g
      have : (N : ℝ) = 3 := by
        have : (N : Int) = 3 := by omega
        exact_mod_cast this
      linarith

example : |(0 : ℝ)| ≤ uEdge 150 := by
  unfold uEdge
  rw [abs_zero]
  have h := Real.pi_pos
  have : 0 ≤ Real.tan (((150 : ℕ) : ℝ) * Real.pi / 720) :=
    Real.tan_nonneg_of_nonneg_of_le_pi_div_two (by positivity) (by push_cast; linarith)
  linarith

end Mrcal.Spline
