import Verif.Model.UnprojectPy
import Verif.Props.UnprojectProps
import Verif.Props.ProjUncInfinity
import Mathlib.Analysis.Calculus.FDeriv.Comp
import Mathlib.Analysis.Calculus.Deriv.Comp
import Mathlib.Analysis.Calculus.ContDiff.Operations
import Mathlib.Analysis.Calculus.ContDiff.RCLike
import Mathlib.Analysis.Calculus.InverseFunctionTheorem.FDeriv
import Mathlib.Analysis.Normed.Module.FiniteDimension
import Mathlib.Analysis.SpecialFunctions.Trigonometric.Deriv
/-
C93: mrcal.unproject() in Python: the reported vectors, and their gradients.
-/
namespace Mrcal.UnprojectPy
open Mrcal Mrcal.Cam

/-! ### Specification -/

/-- the gradient of a vector that's a function of a pixel -/
def VecGrad (U : P2 → P3) (dvx dvy dvz : P2) (q : P2) : Prop :=
  GradAt2 (fun q => (U q).x) dvx q ∧ GradAt2 (fun q => (U q).y) dvy q ∧ GradAt2 (fun q => (U q).z) dvz q
/-- the derivative of a vector that's a function of one number -/
def VecDeriv (V : ℝ → P3) (d : P3) (t : ℝ) : Prop :=
  HasDerivAt (fun s => (V s).x) d.x t ∧ HasDerivAt (fun s => (V s).y) d.y t ∧ HasDerivAt (fun s => (V s).z) d.z t
/-- the same for a pixel -/
def PixDeriv (Q : ℝ → P2) (d : P2) (t : ℝ) : Prop := HasDerivAt (fun s => (Q s).x) d.x t ∧ HasDerivAt (fun s => (Q s).y) d.y t
/-- the matrix `dv_dq` times a vector -/
def Grads.dq (g : Grads) (d : P2) : P3 := ⟨g.dvx.x * d.x + g.dvx.y * d.y, g.dvy.x * d.x + g.dvy.y * d.y, g.dvz.x * d.x + g.dvz.y * d.y⟩
def dotP (a b : P3) : ℝ := a.x * b.x + a.y * b.y + a.z * b.z
/-- the length of the reported vectors, for each of the settings of `normalize` -/
def Length (normalize : Bool) (v : P3) : Prop := if normalize then mag3 v = 1 else mag3 v + v.z = 2
/-- the pixel is a continuously differentiable function of the point and of one of the intrinsics -/
def Smooth (L : Lens) (intr : Int → ℝ) (col : Nat) (v : P3) : Prop :=
  ContDiffAt ℝ 1 (fun z : ℝ × ℝ × ℝ × ℝ => (pix L (Function.update intr col z.1) ⟨z.2.1, z.2.2.1, z.2.2.2⟩).x) (intr col, v.x, v.y, v.z) ∧
  ContDiffAt ℝ 1 (fun z : ℝ × ℝ × ℝ × ℝ => (pix L (Function.update intr col z.1) ⟨z.2.1, z.2.2.1, z.2.2.2⟩).y) (intr col, v.x, v.y, v.z)

/-! ### helpers: normalization -/

theorem mag_eq (v : P3) : mag v = mag3 v := rfl

theorem mag3_pos_sq (v : P3) (h : mag3 v ≠ 0) : 0 < mag3 v := lt_of_le_of_ne (mag3_nonneg v) h.symm

theorem normalized_deriv (V : ℝ → P3) (d : P3) (t : ℝ) (h : VecDeriv V d t) (hm : mag3 (V t) ≠ 0) :
    VecDeriv (fun s => normalized (V s)) (removeRadial ⟨(V t).x * (1 / mag3 (V t)), (V t).y * (1 / mag3 (V t)), (V t).z * (1 / mag3 (V t))⟩
      ⟨d.x * (1 / mag3 (V t)), d.y * (1 / mag3 (V t)), d.z * (1 / mag3 (V t))⟩) t := by
  obtain ⟨hx, hy, hz⟩ := h
  have hd := mag3_deriv hm hx hy hz
  have hsq := mag3_sq (V t)
  unfold normalized
  simp only [mag_eq]
  refine ⟨(hx.div hd hm).congr_deriv ?_, (hy.div hd hm).congr_deriv ?_, (hz.div hd hm).congr_deriv ?_⟩ <;>
  · simp only [removeRadial]
    field_simp

theorem normalized_mag (v : P3) (h : mag3 v ≠ 0) : mag3 (normalized v) = 1 := by
  have e : normalized v = ⟨(1 / mag3 v) * v.x, (1 / mag3 v) * v.y, (1 / mag3 v) * v.z⟩ := by
    unfold normalized; simp only [mag_eq]; ext <;> simp only <;> ring
  rw [e, mag3_scale _ (by have := mag3_nonneg v; positivity)]
  field_simp

theorem normalizeGrads_v (g : Grads) : (normalizeGrads g).v = normalized g.v := by
  unfold normalizeGrads normalized
  ext <;> simp only [mag_eq] <;> ring

/-- the columns of the normalized gradient -/
theorem normalizeGrads_dq (g : Grads) (d : P2) : (normalizeGrads g).dq d =
    removeRadial ⟨g.v.x * (1 / mag3 g.v), g.v.y * (1 / mag3 g.v), g.v.z * (1 / mag3 g.v)⟩ ⟨(g.dq d).x * (1 / mag3 g.v), (g.dq d).y * (1 / mag3 g.v), (g.dq d).z * (1 / mag3 g.v)⟩ := by
  unfold normalizeGrads Grads.dq removeRadial
  simp only [mag_eq]
  ext <;> simp only <;> ring

theorem removeRadial_orth (v d : P3) (h : mag3 v = 1) : dotP v (removeRadial v d) = 0 := by
  have := mag3_sq v
  rw [h] at this
  unfold dotP removeRadial
  simp only
  linear_combination (v.x * d.x + v.y * d.y + v.z * d.z) * this

theorem unit_div (v : P3) (h : mag3 v ≠ 0) : mag3 ⟨v.x * (1 / mag3 v), v.y * (1 / mag3 v), v.z * (1 / mag3 v)⟩ = 1 := by
  have e : (⟨v.x * (1 / mag3 v), v.y * (1 / mag3 v), v.z * (1 / mag3 v)⟩ : P3) = normalized v := by
    unfold normalized
    ext <;> simp only [mag_eq] <;> ring
  rw [e, normalized_mag v h]

/-! ### the direct models -/

/-- the direct models are functions of (q-c)/f -/
structure Factors (func : Core → P2 → Unproj) : Prop where
  v : ∀ k q, (func k q).v = (func unitCore ⟨(q.x - k.cx) / k.fx, (q.y - k.cy) / k.fy⟩).v
  dvx : ∀ k q, (func k q).dvx = ⟨(func unitCore ⟨(q.x - k.cx) / k.fx, (q.y - k.cy) / k.fy⟩).dvx.x / k.fx, (func unitCore ⟨(q.x - k.cx) / k.fx, (q.y - k.cy) / k.fy⟩).dvx.y / k.fy⟩
  dvy : ∀ k q, (func k q).dvy = ⟨(func unitCore ⟨(q.x - k.cx) / k.fx, (q.y - k.cy) / k.fy⟩).dvy.x / k.fx, (func unitCore ⟨(q.x - k.cx) / k.fx, (q.y - k.cy) / k.fy⟩).dvy.y / k.fy⟩
  dvz : ∀ k q, (func k q).dvz = ⟨(func unitCore ⟨(q.x - k.cx) / k.fx, (q.y - k.cy) / k.fy⟩).dvz.x / k.fx, (func unitCore ⟨(q.x - k.cx) / k.fx, (q.y - k.cy) / k.fy⟩).dvz.y / k.fy⟩
  grad : ∀ k q, UnprojGrad (func k) q

theorem direct_factors (L : Lens) (func : Core → P2 → Unproj) (h : direct L = some func) : Factors func := by
  unfold direct at h
  cases L <;> simp only [Option.some.injEq, reduceCtorEq] at h
  · subst h
    refine ⟨?_, ?_, ?_, ?_, unpinhole_grad⟩ <;> intro k q <;> simp [unpinhole, unitCore]
  · subst h
    refine ⟨?_, ?_, ?_, ?_, unstereographic_grad⟩ <;> intro k q <;> simp [unstereographic, unitCore, div_eq_mul_inv]
  · subst h
    refine ⟨?_, ?_, ?_, ?_, unlonlat_grad⟩ <;> intro k q <;> simp [unlonlat, unitCore, div_eq_mul_inv] <;> (try constructor) <;> ring
  · subst h
    refine ⟨?_, ?_, ?_, ?_, unlatlon_grad⟩ <;> intro k q <;> simp [unlatlon, unitCore, div_eq_mul_inv] <;> (try constructor) <;> ring

/-- the derivative along the intrinsics -/
theorem direct_di (func : Core → P2 → Unproj) (hf : Factors func) (intr : Int → ℝ) (hfx : intr 0 ≠ 0) (hfy : intr 1 ≠ 0) (q : P2) (col : Nat) (hcol : col < 4) :
    VecDeriv (fun s => (func (coreOf (Function.update intr col s)) q).v) ((directGrads func intr q).di col) (intr col) := by
  obtain ⟨gx, gy, gz⟩ := hf.grad unitCore ⟨(q.x - intr 2) / intr 0, (q.y - intr 3) / intr 1⟩
  -- the curve of (q-c)/f
  have hcurve : ∃ d : P2, PixDeriv (fun s => ⟨(q.x - Function.update intr col s 2) / Function.update intr col s 0, (q.y - Function.update intr col s 3) / Function.update intr col s 1⟩) d (intr col) ∧
      d = (if col = 0 then ⟨(intr 2 - q.x) / intr 0 / intr 0, 0⟩ else if col = 1 then ⟨0, (intr 3 - q.y) / intr 1 / intr 1⟩ else if col = 2 then ⟨-1 / intr 0, 0⟩ else ⟨0, -1 / intr 1⟩) := by
    refine ⟨_, ?_, rfl⟩
    interval_cases col
    · have h1 := (hasDerivAt_const (intr 0) (q.x - intr 2)).div (hasDerivAt_id (intr 0)) hfx
      refine ⟨?_, ?_⟩
      · simp only [Function.update_of_ne (show (2 : Int) ≠ ((0 : Nat) : Int) by decide), show ((0 : Nat) : Int) = 0 from rfl, Function.update_self]
        refine h1.congr_deriv ?_
        simp
        field_simp
      · simp only [Function.update_of_ne (show (3 : Int) ≠ ((0 : Nat) : Int) by decide), Function.update_of_ne (show (1 : Int) ≠ ((0 : Nat) : Int) by decide)]
        simpa using hasDerivAt_const (intr 0) ((q.y - intr 3) / intr 1)
    · have h1 := (hasDerivAt_const (intr 1) (q.y - intr 3)).div (hasDerivAt_id (intr 1)) hfy
      refine ⟨?_, ?_⟩
      · simp only [Function.update_of_ne (show (2 : Int) ≠ ((1 : Nat) : Int) by decide), Function.update_of_ne (show (0 : Int) ≠ ((1 : Nat) : Int) by decide)]
        simpa using hasDerivAt_const (intr 1) ((q.x - intr 2) / intr 0)
      · simp only [Function.update_of_ne (show (3 : Int) ≠ ((1 : Nat) : Int) by decide), show ((1 : Nat) : Int) = 1 from rfl, Function.update_self]
        refine h1.congr_deriv ?_
        simp
        field_simp
    · have h1 := ((hasDerivAt_id (intr 2)).const_sub q.x).div_const (intr 0)
      refine ⟨?_, ?_⟩
      · simp only [Function.update_of_ne (show (0 : Int) ≠ ((2 : Nat) : Int) by decide), show ((2 : Nat) : Int) = 2 from rfl, Function.update_self]
        exact h1
      · simp only [Function.update_of_ne (show (3 : Int) ≠ ((2 : Nat) : Int) by decide), Function.update_of_ne (show (1 : Int) ≠ ((2 : Nat) : Int) by decide)]
        simpa using hasDerivAt_const (intr 2) ((q.y - intr 3) / intr 1)
    · have h1 := ((hasDerivAt_id (intr 3)).const_sub q.y).div_const (intr 1)
      refine ⟨?_, ?_⟩
      · simp only [Function.update_of_ne (show (0 : Int) ≠ ((3 : Nat) : Int) by decide), Function.update_of_ne (show (2 : Int) ≠ ((3 : Nat) : Int) by decide)]
        simpa using hasDerivAt_const (intr 3) ((q.x - intr 2) / intr 0)
      · simp only [Function.update_of_ne (show (1 : Int) ≠ ((3 : Nat) : Int) by decide), show ((3 : Nat) : Int) = 3 from rfl, Function.update_self]
        exact h1
  obtain ⟨d, ⟨hx, hy⟩, hd⟩ := hcurve
  let C : ℝ → P2 := fun s => ⟨(q.x - Function.update intr col s 2) / Function.update intr col s 0, (q.y - Function.update intr col s 3) / Function.update intr col s 1⟩
  have hat : C (intr col) = ⟨(q.x - intr 2) / intr 0, (q.y - intr 3) / intr 1⟩ := by
    simp only [C, Function.update_eq_self]
  have e : ∀ s, (func (coreOf (Function.update intr col s)) q).v =
      (func unitCore ⟨(q.x - Function.update intr col s 2) / Function.update intr col s 0, (q.y - Function.update intr col s 3) / Function.update intr col s 1⟩).v := fun s => hf.v _ _
  unfold VecDeriv
  simp only [e]
  have hdvx := hf.dvx (coreOf intr) q
  have hdvy := hf.dvy (coreOf intr) q
  have hdvz := hf.dvz (coreOf intr) q
  simp only [coreOf] at hdvx hdvy hdvz
  refine ⟨(gx C d (intr col) hat hx hy).congr_deriv ?_, (gy C d (intr col) hat hx hy).congr_deriv ?_, (gz C d (intr col) hat hx hy).congr_deriv ?_⟩
  all_goals
    unfold directGrads
    simp only [coreOf, hdvx, hdvy, hdvz, hd]
    interval_cases col <;> simp <;> field_simp

/-- **C93**: the models that are unprojected directly (pinhole, stereographic, lonlat, latlon): the vector that's reported with gradients is the one that's reported without them; dv_dq is its gradient with respect to the pixel,
and each column of dv_dintrinsics is its derivative with respect to that parameter. With and without the normalization -/
theorem direct_gradients (L : Lens) (hd : (direct L).isSome = true) (normalize : Bool) (solve : Solver) (prev : NanP3) :
    ∃ U : (Int → ℝ) → P2 → P3, (∀ intr q, unproject L intr solve prev normalize q = some (NanP3.of (U intr q)) ∧ (normalize = true → mag3 (U intr q) = 1)) ∧
      ∀ intr q, ∃ g, unprojectGrads L intr solve prev normalize q = some (some g) ∧ g.v = U intr q ∧ VecGrad (U intr) g.dvx g.dvy g.dvz q ∧
        (intr 0 ≠ 0 → intr 1 ≠ 0 → ∀ col : Nat, col < 4 → VecDeriv (fun s => U (Function.update intr col s) q) (g.di col) (intr col)) := by
  obtain ⟨func, hfunc⟩ := Option.isSome_iff_exists.mp hd
  have hf := direct_factors L func hfunc
  have hmag : ∀ k q, mag3 (func k q).v ≠ 0 := by
    intro k q
    unfold direct at hfunc
    have hpos : ∀ x y : ℝ, mag3 ⟨x, y, 1⟩ ≠ 0 := by
      intro x y
      unfold mag3
      exact Real.sqrt_ne_zero'.mpr (by nlinarith [mul_self_nonneg x, mul_self_nonneg y])
    cases L <;> simp only [Option.some.injEq, reduceCtorEq] at hfunc <;> subst hfunc
    · exact hpos _ _
    · unfold mag3 unstereographic
      refine Real.sqrt_ne_zero'.mpr ?_
      simp only
      generalize (q.x - k.cx) * (1 / k.fx) = x
      generalize (q.y - k.cy) * (1 / k.fy) = y
      nlinarith [mul_self_nonneg x, mul_self_nonneg y, sq_nonneg (x * x + y * y)]
    · rw [unlonlat_unit]; norm_num
    · rw [unlatlon_unit]; norm_num
  have hunit : alwaysNormalized L = true → ∀ k q, mag3 (func k q).v = 1 := by
    intro ha k q
    unfold direct at hfunc
    cases L <;> simp only [Option.some.injEq, reduceCtorEq] at hfunc <;> subst hfunc <;> simp only [alwaysNormalized, Bool.false_eq_true] at ha
    · exact unlonlat_unit k q
    · exact unlatlon_unit k q
  by_cases hn : (normalize && !alwaysNormalized L) = true
  · refine ⟨fun intr q => normalized (func (coreOf intr) q).v, fun intr q => ⟨?_, fun _ => normalized_mag _ (hmag _ _)⟩, fun intr q => ⟨normalizeGrads (directGrads func intr q), ?_, ?_, ?_, ?_⟩⟩
    · unfold unproject; rw [hfunc]; simp only [hn, if_true]
    · unfold unprojectGrads; rw [hfunc]; simp only [hn, if_true]
    · rw [normalizeGrads_v]; rfl
    · obtain ⟨gx, gy, gz⟩ := hf.grad (coreOf intr) q
      have key : ∀ (c : ℝ → P2) (v : P2) (t : ℝ), c t = q → HasDerivAt (fun s => (c s).x) v.x t → HasDerivAt (fun s => (c s).y) v.y t →
          VecDeriv (fun s => normalized (func (coreOf intr) (c s)).v) ((normalizeGrads (directGrads func intr q)).dq v) t := by
        intro c v t hc hx hy
        have := normalized_deriv (fun s => (func (coreOf intr) (c s)).v) ⟨_, _, _⟩ t ⟨gx c v t hc hx hy, gy c v t hc hx hy, gz c v t hc hx hy⟩ (hmag _ _)
        rw [normalizeGrads_dq]
        rw [hc] at this
        exact this
      exact ⟨fun c v t hc hx hy => (key c v t hc hx hy).1, fun c v t hc hx hy => (key c v t hc hx hy).2.1, fun c v t hc hx hy => (key c v t hc hx hy).2.2⟩
    · intro hfx hfy col hcol
      have := normalized_deriv _ _ _ (direct_di func hf intr hfx hfy q col hcol) (hmag _ _)
      simp only [Function.update_eq_self] at this
      exact this
  · refine ⟨fun intr q => (func (coreOf intr) q).v, fun intr q => ⟨?_, fun h => ?_⟩, fun intr q => ⟨directGrads func intr q, ?_, rfl, hf.grad _ _, fun hfx hfy col hcol => direct_di func hf intr hfx hfy q col hcol⟩⟩
    · unfold unproject; rw [hfunc]; simp only [hn, Bool.false_eq_true, if_false]
    · refine hunit ?_ _ _
      rw [h] at hn
      simpa using hn
    · unfold unprojectGrads; rw [hfunc]; simp only [hn, Bool.false_eq_true, if_false]

/-! ### the other models -/

/-- what `mainGrads` computes -/
theorem mainGrads_core (L : Lens) (hv : ValidLens L) (intr : Int → ℝ) (vs : P3) (g : Grads) (h : mainGrads L intr vs = some (some g)) (hreg : LensRegular L intr g.v) :
    ∃ (gx gy : P3) (di : Nat → P2),
      GradAt (fun p => (pix L intr p).x) gx g.v ∧ GradAt (fun p => (pix L intr p).y) gy g.v ∧
      (∀ col : Nat, col < L.numParams.toNat → HasDerivAt (fun s => (pix L (Function.update intr col s) g.v).x) (di col).x (intr col) ∧
        HasDerivAt (fun s => (pix L (Function.update intr col s) g.v).y) (di col).y (intr col)) ∧
      (∀ w d, w.z = -(g.v.x * w.x + g.v.y * w.y) / 2 → dotP gx w = d.x → dotP gy w = d.y → w = g.dq d) ∧
      ∀ col, g.di col = g.dq ⟨-(di col).x, -(di col).y⟩ := by
  unfold mainGrads at h
  by_cases h0 : mag vs + vs.z = 0
  · rw [if_pos h0] at h; simp at h
  rw [if_neg h0] at h
  obtain ⟨u, hu⟩ : ∃ u, u = (stereographic unitCore vs).q := ⟨_, rfl⟩
  rw [← hu] at h
  dsimp only at h
  obtain ⟨o, ho⟩ := project_succeeds L hv intr 1 (fun _ => (unstereographic unitCore u).v) true true ⟨fun _ => ⟨0, 0⟩, fun _ => ⟨0, 0, 0⟩, fun _ => 0⟩
  obtain ⟨hg, -, -⟩ := project_gradients L hv intr 1 _ _ o ho
  rw [ho] at h
  dsimp only at h
  have hvv : (unstereographic unitCore u).v = ⟨u.x, u.y, 1 - 1 / 4 * (u.x * u.x + u.y * u.y)⟩ := by
    simp [unstereographic, unitCore]
  have hdx : (unstereographic unitCore u).dvx = ⟨1, 0⟩ := by simp [unstereographic, unitCore]; norm_num
  have hdy : (unstereographic unitCore u).dvy = ⟨0, 1⟩ := by simp [unstereographic, unitCore]; norm_num
  have hdz : (unstereographic unitCore u).dvz = ⟨-u.x / 2, -u.y / 2⟩ := by simp [unstereographic, unitCore]; norm_num
  rw [hdx, hdy, hdz] at h
  dsimp only at h
  split_ifs at h with hdet
  simp only [Option.some.injEq] at h
  have hgv : g.v = (unstereographic unitCore u).v := by rw [← h]
  have hgx : g.v.x = u.x := by rw [hgv, hvv]
  have hgy : g.v.y = u.y := by rw [hgv, hvv]
  rw [hgv] at hreg
  obtain ⟨g0, g1, gi⟩ := hg 0 (by omega) hreg
  simp only [Nat.mul_zero, Nat.zero_add, Nat.add_zero, Nat.zero_mul, Nat.one_mul] at g0 g1 gi
  refine ⟨o.dp 0, o.dp 1, fun col => ⟨o.di col, o.di (L.numParams.toNat + col)⟩, ?_, ?_, ?_, ?_, ?_⟩
  · rw [hgv]; exact g0
  · rw [hgv]; exact g1
  · rw [hgv]; exact gi
  · intro w d hz hx hy
    rw [hgx, hgy] at hz
    unfold dotP at hx hy
    rw [hz] at hx hy
    subst h
    have ex : w.x = ((o.dp 1).y - (o.dp 1).z * u.y / 2) / (((o.dp 0).x - (o.dp 0).z * u.x / 2) * ((o.dp 1).y - (o.dp 1).z * u.y / 2) - ((o.dp 0).y - (o.dp 0).z * u.y / 2) * ((o.dp 1).x - (o.dp 1).z * u.x / 2)) * d.x -
        ((o.dp 0).y - (o.dp 0).z * u.y / 2) / (((o.dp 0).x - (o.dp 0).z * u.x / 2) * ((o.dp 1).y - (o.dp 1).z * u.y / 2) - ((o.dp 0).y - (o.dp 0).z * u.y / 2) * ((o.dp 1).x - (o.dp 1).z * u.x / 2)) * d.y := by
      have hne : ((o.dp 0).x - (o.dp 0).z * u.x / 2) * ((o.dp 1).y - (o.dp 1).z * u.y / 2) - ((o.dp 0).y - (o.dp 0).z * u.y / 2) * ((o.dp 1).x - (o.dp 1).z * u.x / 2) ≠ 0 := by
        intro e; apply hdet; linear_combination e
      rw [← hx, ← hy]
      generalize hD : ((o.dp 0).x - (o.dp 0).z * u.x / 2) * ((o.dp 1).y - (o.dp 1).z * u.y / 2) - ((o.dp 0).y - (o.dp 0).z * u.y / 2) * ((o.dp 1).x - (o.dp 1).z * u.x / 2) = D at *
      field_simp
      linear_combination (-4 * w.x) * hD
    have ey : w.y = -((o.dp 1).x - (o.dp 1).z * u.x / 2) / (((o.dp 0).x - (o.dp 0).z * u.x / 2) * ((o.dp 1).y - (o.dp 1).z * u.y / 2) - ((o.dp 0).y - (o.dp 0).z * u.y / 2) * ((o.dp 1).x - (o.dp 1).z * u.x / 2)) * d.x +
        ((o.dp 0).x - (o.dp 0).z * u.x / 2) / (((o.dp 0).x - (o.dp 0).z * u.x / 2) * ((o.dp 1).y - (o.dp 1).z * u.y / 2) - ((o.dp 0).y - (o.dp 0).z * u.y / 2) * ((o.dp 1).x - (o.dp 1).z * u.x / 2)) * d.y := by
      have hne : ((o.dp 0).x - (o.dp 0).z * u.x / 2) * ((o.dp 1).y - (o.dp 1).z * u.y / 2) - ((o.dp 0).y - (o.dp 0).z * u.y / 2) * ((o.dp 1).x - (o.dp 1).z * u.x / 2) ≠ 0 := by
        intro e; apply hdet; linear_combination e
      rw [← hx, ← hy]
      generalize hD : ((o.dp 0).x - (o.dp 0).z * u.x / 2) * ((o.dp 1).y - (o.dp 1).z * u.y / 2) - ((o.dp 0).y - (o.dp 0).z * u.y / 2) * ((o.dp 1).x - (o.dp 1).z * u.x / 2) = D at *
      field_simp
      linear_combination (-4 * w.y) * hD
    have eD : ((o.dp 0).x * 1 + (o.dp 0).y * 0 + (o.dp 0).z * (-u.x / 2)) * ((o.dp 1).x * 0 + (o.dp 1).y * 1 + (o.dp 1).z * (-u.y / 2)) -
        ((o.dp 0).x * 0 + (o.dp 0).y * 1 + (o.dp 0).z * (-u.y / 2)) * ((o.dp 1).x * 1 + (o.dp 1).y * 0 + (o.dp 1).z * (-u.x / 2)) =
        ((o.dp 0).x - (o.dp 0).z * u.x / 2) * ((o.dp 1).y - (o.dp 1).z * u.y / 2) - ((o.dp 0).y - (o.dp 0).z * u.y / 2) * ((o.dp 1).x - (o.dp 1).z * u.x / 2) := by ring
    unfold Grads.dq timesInverse
    simp only [eD]
    generalize ((o.dp 0).x - (o.dp 0).z * u.x / 2) * ((o.dp 1).y - (o.dp 1).z * u.y / 2) - ((o.dp 0).y - (o.dp 0).z * u.y / 2) * ((o.dp 1).x - (o.dp 1).z * u.x / 2) = D at *
    ext
    · rw [ex]; simp only; ring
    · rw [ey]; simp only; ring
    · rw [hz, ex, ey]; simp only; ring
  · intro col
    subst h
    unfold Grads.dq
    ext <;> simp only <;> ring

/-- the vector that's reported -/
theorem mainGrads_v (L : Lens) (intr : Int → ℝ) (vs : P3) (g : Grads) (h : mainGrads L intr vs = some (some g)) :
    Length false g.v ∧ ∃ k, 0 < k ∧ g.v = ⟨k * vs.x, k * vs.y, k * vs.z⟩ := by
  unfold mainGrads at h
  by_cases h0 : mag vs + vs.z = 0
  · rw [if_pos h0] at h; simp at h
  rw [if_neg h0] at h
  have hpos : 0 < mag3 vs + vs.z := by
    have h1 : |vs.z| ≤ mag3 vs := by
      unfold mag3
      refine Real.abs_le_sqrt ?_
      nlinarith [mul_self_nonneg vs.x, mul_self_nonneg vs.y]
    have h2 := neg_abs_le vs.z
    exact lt_of_le_of_ne (by linarith) (fun e => h0 e.symm)
  have hgv : g.v = (unstereographic unitCore (stereographic unitCore vs).q).v := by
    dsimp only at h
    split at h
    · simp at h
    · split at h
      · simp at h
      · simp only [Option.some.injEq] at h
        rw [← h]
  refine ⟨?_, ?_⟩
  · rw [hgv]
    generalize (stereographic unitCore vs).q = u
    have hvv : (unstereographic unitCore u).v = ⟨u.x, u.y, 1 - 1 / 4 * (u.x * u.x + u.y * u.y)⟩ := by
      simp [unstereographic, unitCore]
    rw [hvv]
    unfold Length mag3
    simp only [Bool.false_eq_true, if_false]
    rw [show u.x * u.x + u.y * u.y + (1 - 1 / 4 * (u.x * u.x + u.y * u.y)) * (1 - 1 / 4 * (u.x * u.x + u.y * u.y)) = (1 + 1 / 4 * (u.x * u.x + u.y * u.y)) ^ 2 by ring,
      Real.sqrt_sq (by nlinarith [mul_self_nonneg u.x, mul_self_nonneg u.y])]
    ring
  · obtain ⟨k, hk, e⟩ := stereographic_roundtrip unitCore (by norm_num [unitCore]) (by norm_num [unitCore]) vs hpos
    exact ⟨k, hk, by rw [hgv]; exact e⟩

/-- the direction along which the vector moves -/
theorem length_tangent (V : ℝ → P3) (w : P3) (t : ℝ) (h : VecDeriv V w t) (hl : ∀ᶠ s in nhds t, Length false (V s)) : w.z = -((V t).x * w.x + (V t).y * w.y) / 2 := by
  obtain ⟨hx, hy, hz⟩ := h
  have ht : mag3 (V t) + (V t).z = 2 := by simpa [Length] using hl.self_of_nhds
  have hm : mag3 (V t) ≠ 0 := by
    intro h0
    have hsq := mag3_sq (V t)
    rw [h0] at ht hsq
    nlinarith [mul_self_nonneg (V t).x, mul_self_nonneg (V t).y]
  have h1 := (mag3_deriv hm hx hy hz).add hz
  have h2 : HasDerivAt (fun s => mag3 (V s) + (V s).z) 0 t := (hasDerivAt_const t (2 : ℝ)).congr_of_eventuallyEq (by
    filter_upwards [hl] with s hs
    simpa [Length] using hs)
  have e := h1.unique h2
  have hm2 : mag3 (V t) = 2 - (V t).z := by linarith
  field_simp at e
  rw [hm2] at e
  linarith

/-- the chain rule, with one of the intrinsics changing -/
theorem chain (f : ℝ → P3 → ℝ) (i0 : ℝ) (v0 : P3) (gv : P3) (gi : ℝ) (hd : DifferentiableAt ℝ (fun z : ℝ × ℝ × ℝ × ℝ => f z.1 ⟨z.2.1, z.2.2.1, z.2.2.2⟩) (i0, v0.x, v0.y, v0.z))
    (hv : GradAt (f i0) gv v0) (hi : HasDerivAt (fun s => f s v0) gi i0) (V : ℝ → P3) (w : P3) (h : VecDeriv V w i0) (h0 : V i0 = v0) : HasDerivAt (fun s => f s (V s)) (gi + dotP gv w) i0 := by
  obtain ⟨F, hF⟩ := hd
  obtain ⟨hx, hy, hz⟩ := h
  have line : ∀ (A : ℝ → ℝ) (B : ℝ → P3) (a : ℝ) (b : P3) (t : ℝ), HasDerivAt A a t → VecDeriv B b t → A t = i0 → B t = v0 → HasDerivAt (fun s => f (A s) (B s)) (F (a, b.x, b.y, b.z)) t := by
    intro A B a b t hA ⟨hx, hy, hz⟩ eA eB
    have hc : HasDerivAt (fun s => (A s, (B s).x, (B s).y, (B s).z)) (a, b.x, b.y, b.z) t := hA.prodMk (hx.prodMk (hy.prodMk hz))
    have hat : (fun s => (A s, (B s).x, (B s).y, (B s).z)) t = (i0, v0.x, v0.y, v0.z) := by simp only [eA, eB]
    rw [← hat] at hF
    exact hF.comp_hasDerivAt t hc
  have e0 := line id V 1 w i0 (hasDerivAt_id i0) ⟨hx, hy, hz⟩ rfl h0
  have e1 := line id (fun _ => v0) 1 ⟨0, 0, 0⟩ i0 (hasDerivAt_id i0) ⟨hasDerivAt_const _ _, hasDerivAt_const _ _, hasDerivAt_const _ _⟩ rfl rfl
  have e2 := line (fun _ => i0) V 0 w i0 (hasDerivAt_const _ _) ⟨hx, hy, hz⟩ rfl h0
  have u1 := e1.unique hi
  have u2 := e2.unique (hv V w i0 h0 hx hy hz)
  refine e0.congr_deriv ?_
  have : ((1 : ℝ), w.x, w.y, w.z) = (1, 0, 0, 0) + (0, w.x, w.y, w.z) := by simp
  rw [this, map_add]
  simp only at u1 u2
  rw [u1, u2]
  rfl

/-- **C93**: all the other models, without the normalization. The vectors have |v|+z = 2. Any smooth movement of such vectors that keeps looking at a moving pixel moves as dv_dq says. And if one of the intrinsics changes, with the
pixel staying where it is, the vector moves as that column of dv_dintrinsics says -/
theorem main_gradients (L : Lens) (hv : ValidLens L) (hd : direct L = none) (intr : Int → ℝ) (solve : Solver) (prev : NanP3) (q : P2) (g : Grads) (h : unprojectGrads L intr solve prev false q = some (some g))
    (hreg : LensRegular L intr g.v) :
    Length false g.v ∧
    (∀ (V : ℝ → P3) (w : P3) (Q : ℝ → P2) (d : P2) (t : ℝ), V t = g.v → VecDeriv V w t → PixDeriv Q d t → (∀ᶠ s in nhds t, pix L intr (V s) = Q s ∧ Length false (V s)) → w = g.dq d) ∧
    (∀ col : Nat, col < L.numParams.toNat → Smooth L intr col g.v → ∀ (V : ℝ → P3) (w : P3), V (intr col) = g.v → VecDeriv V w (intr col) →
      (∀ᶠ s in nhds (intr col), pix L (Function.update intr col s) (V s) = pix L intr g.v ∧ Length false (V s)) → w = g.di col) := by
  unfold unprojectGrads at h
  rw [hd] at h
  simp only at h
  obtain ⟨nv, -, h⟩ := Option.bind_eq_some_iff.mp h
  cases hfin : finite nv with
  | none => rw [hfin] at h; simp at h
  | some vs =>
    rw [hfin] at h
    simp only [Option.map_eq_some_iff, Bool.false_eq_true, if_false] at h
    obtain ⟨o, ho, g', rfl, rfl⟩ := h
    obtain ⟨gx, gy, di, h1, h2, h3, h4, h5⟩ := mainGrads_core L hv intr vs g' ho hreg
    refine ⟨(mainGrads_v L intr vs g' ho).1, fun V w Q d t e hV hQ hev => ?_, fun col hcol hsm V w e hV hev => ?_⟩
    · obtain ⟨hx, hy, hz⟩ := hV
      refine h4 w d ?_ ?_ ?_
      · rw [← e]
        exact length_tangent V w t ⟨hx, hy, hz⟩ (hev.mono fun s hs => hs.2)
      · exact (h1 V w t e hx hy hz).unique (hQ.1.congr_of_eventuallyEq (hev.mono fun s hs => by simp only [hs.1]))
      · exact (h2 V w t e hx hy hz).unique (hQ.2.congr_of_eventuallyEq (hev.mono fun s hs => by simp only [hs.1]))
    · obtain ⟨ix, iy⟩ := h3 col hcol
      rw [h5]
      have hup : Function.update intr (col : Int) (intr col) = intr := Function.update_eq_self _ _
      have cx := chain (fun s p => (pix L (Function.update intr col s) p).x) (intr col) g'.v gx _ (hsm.1.differentiableAt (by norm_num)) (by rw [hup]; exact h1) ix V w hV e
      have cy := chain (fun s p => (pix L (Function.update intr col s) p).y) (intr col) g'.v gy _ (hsm.2.differentiableAt (by norm_num)) (by rw [hup]; exact h2) iy V w hV e
      have zx := cx.unique ((hasDerivAt_const (intr col) (pix L intr g'.v).x).congr_of_eventuallyEq (hev.mono fun s hs => by simp only [hs.1]))
      have zy := cy.unique ((hasDerivAt_const (intr col) (pix L intr g'.v).y).congr_of_eventuallyEq (hev.mono fun s hs => by simp only [hs.1]))
      refine h4 w _ ?_ ?_ ?_
      · rw [← e]
        exact length_tangent V w _ hV (hev.mono fun s hs => hs.2)
      · simp only; linarith
      · simp only; linarith

/-- unit vectors and vectors with |v|+z=2 -/
theorem rescaled (V : ℝ → P3) (w : P3) (t : ℝ) (g : P3) (hg : Length false g) (e : V t = normalized g) (h : VecDeriv V w t) (hl : ∀ᶠ s in nhds t, Length true (V s)) :
    ∃ (W : ℝ → P3) (w' : P3), W t = g ∧ VecDeriv W w' t ∧ (∀ᶠ s in nhds t, Length false (W s) ∧ ∃ k, 0 < k ∧ W s = ⟨k * (V s).x, k * (V s).y, k * (V s).z⟩) ∧
      w = removeRadial ⟨g.x * (1 / mag3 g), g.y * (1 / mag3 g), g.z * (1 / mag3 g)⟩ ⟨w'.x * (1 / mag3 g), w'.y * (1 / mag3 g), w'.z * (1 / mag3 g)⟩ := by
  have hg2 : mag3 g + g.z = 2 := by simpa [Length] using hg
  have hm : mag3 g ≠ 0 := by
    intro h0
    have hsq := mag3_sq g
    rw [h0] at hg2 hsq
    nlinarith [mul_self_nonneg g.x, mul_self_nonneg g.y]
  have hmp := mag3_pos_sq g hm
  obtain ⟨hx, hy, hz⟩ := h
  have hVz : 1 + (V t).z = 2 / mag3 g := by
    rw [e]; unfold normalized; simp only [mag_eq]
    field_simp
    linarith
  have hne : 1 + (V t).z ≠ 0 := by rw [hVz]; positivity
  have hk := (hasDerivAt_const t (2 : ℝ)).div (hz.const_add 1) hne
  have hW : VecDeriv (fun s => (⟨2 / (1 + (V s).z) * (V s).x, 2 / (1 + (V s).z) * (V s).y, 2 / (1 + (V s).z) * (V s).z⟩ : P3)) ⟨_, _, _⟩ t := ⟨hk.mul hx, hk.mul hy, hk.mul hz⟩
  have hWt : (⟨2 / (1 + (V t).z) * (V t).x, 2 / (1 + (V t).z) * (V t).y, 2 / (1 + (V t).z) * (V t).z⟩ : P3) = g := by
    simp only [hVz]
    rw [e]; unfold normalized
    ext <;> simp only [mag_eq] <;> field_simp
  refine ⟨_, _, hWt, hW, ?_, ?_⟩
  · have hcont : ∀ᶠ s in nhds t, 0 < 1 + (V s).z := by
      have := (hz.const_add 1).continuousAt
      exact this.eventually (lt_mem_nhds (by show 0 < 1 + (V t).z; rw [hVz]; positivity))
    filter_upwards [hcont, hl] with s hs hu
    have hu1 : mag3 (V s) = 1 := by simpa [Length] using hu
    refine ⟨?_, _, by positivity, rfl⟩
    unfold Length
    simp only [Bool.false_eq_true, if_false]
    rw [mag3_scale _ (by positivity), hu1]
    field_simp
  · have hn := normalized_deriv _ _ t hW (by rw [hWt]; exact hm)
    have hcont : ∀ᶠ s in nhds t, 0 < 1 + (V s).z := by
      have := (hz.const_add 1).continuousAt
      exact this.eventually (lt_mem_nhds (by show 0 < 1 + (V t).z; rw [hVz]; positivity))
    have hsame : ∀ᶠ s in nhds t, normalized ⟨2 / (1 + (V s).z) * (V s).x, 2 / (1 + (V s).z) * (V s).y, 2 / (1 + (V s).z) * (V s).z⟩ = V s := by
      filter_upwards [hcont, hl] with s hs hu
      have hu1 : mag3 (V s) = 1 := by simpa [Length] using hu
      unfold normalized
      simp only [mag_eq]
      rw [mag3_scale _ (by positivity), hu1]
      ext <;> simp only <;> field_simp
    beta_reduce at hn
    rw [hWt] at hn
    obtain ⟨nx, ny, nz⟩ := hn
    have ux := hx.unique (nx.congr_of_eventuallyEq (hsame.mono fun s hs => by simp only [hs]))
    have uy := hy.unique (ny.congr_of_eventuallyEq (hsame.mono fun s hs => by simp only [hs]))
    have uz := hz.unique (nz.congr_of_eventuallyEq (hsame.mono fun s hs => by simp only [hs]))
    exact P3.ext ux uy uz

/-- **C93**: the same with normalize=True: unit vectors -/
theorem main_gradients_normalized (L : Lens) (hv : ValidLens L) (hc : ∀ lin, L ≠ .cahvore lin) (hd : direct L = none) (intr : Int → ℝ) (solve : Solver) (prev : NanP3) (q : P2) (g0 : Grads)
    (h : unprojectGrads L intr solve prev false q = some (some g0)) (hreg : LensRegular L intr g0.v) :
    ∃ g, unprojectGrads L intr solve prev true q = some (some g) ∧ g.v = normalized g0.v ∧ mag3 g.v = 1 ∧
    (∀ (V : ℝ → P3) (w : P3) (Q : ℝ → P2) (d : P2) (t : ℝ), V t = g.v → VecDeriv V w t → PixDeriv Q d t → (∀ᶠ s in nhds t, pix L intr (V s) = Q s ∧ Length true (V s)) → w = g.dq d) ∧
    (∀ col : Nat, col < L.numParams.toNat → Smooth L intr col g0.v → ∀ (V : ℝ → P3) (w : P3), V (intr col) = g.v → VecDeriv V w (intr col) →
      (∀ᶠ s in nhds (intr col), pix L (Function.update intr col s) (V s) = pix L intr g.v ∧ Length true (V s)) → w = g.di col) := by
  obtain ⟨hlen, hq, hi⟩ := main_gradients L hv hd intr solve prev q g0 h hreg
  have hm : mag3 g0.v ≠ 0 := by
    intro h0
    have h2 : mag3 g0.v + g0.v.z = 2 := by simpa [Length] using hlen
    have hsq := mag3_sq g0.v
    rw [h0] at h2 hsq
    nlinarith [mul_self_nonneg g0.v.x, mul_self_nonneg g0.v.y]
  have hscale : ∀ intr', pix L intr' (normalized g0.v) = pix L intr' g0.v := by
    intro intr'
    have hp := mag3_pos_sq _ hm
    rw [← pix_scale L hc intr' (normalized g0.v) (mag3 g0.v) hp]
    congr 1
    unfold normalized
    ext <;> simp only [mag_eq] <;> field_simp
  refine ⟨normalizeGrads g0, ?_, normalizeGrads_v g0, by rw [normalizeGrads_v]; exact normalized_mag _ hm, ?_, ?_⟩
  · unfold unprojectGrads at h ⊢
    rw [hd] at h ⊢
    simp only at h ⊢
    obtain ⟨nv, hnv, h⟩ := Option.bind_eq_some_iff.mp h
    rw [hnv, Option.bind_some]
    cases hfin : finite nv with
    | none => rw [hfin] at h; simp at h
    | some vs =>
      rw [hfin] at h
      simp only [Option.map_eq_some_iff, Bool.false_eq_true, if_false] at h
      obtain ⟨o, ho, g', rfl, rfl⟩ := h
      simp only [ho, Option.map_some, if_true]
  · intro V w Q d t e hV hQ hev
    rw [normalizeGrads_v] at e
    obtain ⟨W, w', hW, hWd, hWev, hw⟩ := rescaled V w t g0.v hlen e hV (hev.mono fun s hs => hs.2)
    have := hq W w' Q d t hW hWd hQ (by
      filter_upwards [hev, hWev] with s hs hWs
      obtain ⟨hl, k, hk, ek⟩ := hWs
      exact ⟨by rw [ek, pix_scale L hc intr (V s) k hk]; exact hs.1, hl⟩)
    rw [hw, this, normalizeGrads_dq]
  · intro col hcol hsm V w e hV hev
    rw [normalizeGrads_v] at e hev
    obtain ⟨W, w', hW, hWd, hWev, hw⟩ := rescaled V w _ g0.v hlen e hV (hev.mono fun s hs => hs.2)
    have := hi col hcol hsm W w' hW hWd (by
      filter_upwards [hev, hWev] with s hs hWs
      obtain ⟨hl, k, hk, ek⟩ := hWs
      exact ⟨by rw [ek, pix_scale L hc _ (V s) k hk, hs.1, hscale], hl⟩)
    rw [hw, this]
    rfl

/-- **C93**: the gradients of normalized vectors are orthogonal to the vectors, for every model -/
theorem normalized_orthogonal (L : Lens) (intr : Int → ℝ) (solve : Solver) (prev : NanP3) (q : P2) (g : Grads) (h : unprojectGrads L intr solve prev true q = some (some g)) :
    mag3 g.v = 1 ∧ (∀ d, dotP g.v (g.dq d) = 0) ∧ ∀ col, dotP g.v (g.di col) = 0 := by
  have main : ∀ g0 : Grads, mag3 g0.v ≠ 0 → mag3 (normalizeGrads g0).v = 1 ∧ (∀ d, dotP (normalizeGrads g0).v ((normalizeGrads g0).dq d) = 0) ∧
      ∀ col, dotP (normalizeGrads g0).v ((normalizeGrads g0).di col) = 0 := by
    intro g0 hm
    have e : (normalizeGrads g0).v = ⟨g0.v.x * (1 / mag3 g0.v), g0.v.y * (1 / mag3 g0.v), g0.v.z * (1 / mag3 g0.v)⟩ := rfl
    refine ⟨by rw [normalizeGrads_v]; exact normalized_mag _ hm, fun d => ?_, fun col => ?_⟩
    · rw [normalizeGrads_dq, e]
      exact removeRadial_orth _ _ (unit_div _ hm)
    · rw [e]
      exact removeRadial_orth _ _ (unit_div _ hm)
  cases hdir : direct L with
  | some func =>
    have hs : (direct L).isSome = true := by rw [hdir]; rfl
    obtain ⟨U, hU, hG⟩ := direct_gradients L hs true solve prev
    obtain ⟨g', hg', hv, hgrad, -⟩ := hG intr q
    rw [h] at hg'
    obtain rfl : g = g' := by simpa using hg'
    have hunit : ∀ q, mag3 (U intr q) = 1 := fun q => (hU intr q).2 rfl
    have hdq : ∀ d, dotP g.v (g.dq d) = 0 := by
      intro d
      obtain ⟨gx, gy, gz⟩ := hgrad
      have lx : HasDerivAt (fun s : ℝ => q.x + s * d.x) d.x 0 := by simpa using ((hasDerivAt_id (0 : ℝ)).mul_const d.x).const_add q.x
      have ly : HasDerivAt (fun s : ℝ => q.y + s * d.y) d.y 0 := by simpa using ((hasDerivAt_id (0 : ℝ)).mul_const d.y).const_add q.y
      have hc0 : (fun s : ℝ => (⟨q.x + s * d.x, q.y + s * d.y⟩ : P2)) 0 = q := by simp
      have dx := gx (fun s => ⟨q.x + s * d.x, q.y + s * d.y⟩) d 0 hc0 lx ly
      have dy := gy (fun s => ⟨q.x + s * d.x, q.y + s * d.y⟩) d 0 hc0 lx ly
      have dz := gz (fun s => ⟨q.x + s * d.x, q.y + s * d.y⟩) d 0 hc0 lx ly
      have hm := mag3_deriv (c := fun s => U intr ⟨q.x + s * d.x, q.y + s * d.y⟩) (v := g.dq d) (t := 0) (by simp only [hunit]; norm_num) dx dy dz
      simp only [hunit, div_one] at hm
      have := hm.unique (hasDerivAt_const 0 (1 : ℝ))
      rw [hv]
      simpa [dotP] using this
    refine ⟨by rw [hv]; exact hunit q, hdq, fun col => ?_⟩
    -- the columns are combinations of those of dv_dq
    have hcol : ∃ d, g.di col = g.dq d := by
      unfold unprojectGrads at h
      rw [hdir] at h
      simp only [Option.some.injEq] at h
      obtain ⟨d, hd⟩ : ∃ d, (directGrads func intr q).di col = (directGrads func intr q).dq d := by
        unfold directGrads Grads.dq
        simp only
        split
        · exact ⟨⟨(intr 2 - q.x) / intr 0, 0⟩, by ext <;> simp only <;> ring⟩
        · split
          · exact ⟨⟨0, (intr 3 - q.y) / intr 1⟩, by ext <;> simp only <;> ring⟩
          · split
            · exact ⟨⟨-1, 0⟩, by ext <;> simp only <;> ring⟩
            · exact ⟨⟨0, -1⟩, by ext <;> simp only <;> ring⟩
      refine ⟨d, ?_⟩
      split at h
      · subst h
        rw [normalizeGrads_dq, ← hd]
        rfl
      · subst h
        exact hd
    obtain ⟨d, hd⟩ := hcol
    rw [hd]
    exact hdq d
  | none =>
    unfold unprojectGrads at h
    rw [hdir] at h
    simp only at h
    obtain ⟨nv, -, h⟩ := Option.bind_eq_some_iff.mp h
    cases hfin : finite nv with
    | none => rw [hfin] at h; simp at h
    | some vs =>
      rw [hfin] at h
      simp only [Option.map_eq_some_iff, if_true] at h
      obtain ⟨o, ho, g', rfl, rfl⟩ := h
      refine main g' fun h0 => ?_
      have hl := (mainGrads_v L intr vs g' ho).1
      have h2 : mag3 g'.v + g'.v.z = 2 := by simpa [Length] using hl
      have hsq := mag3_sq g'.v
      rw [h0] at h2 hsq
      nlinarith [mul_self_nonneg g'.v.x, mul_self_nonneg g'.v.y]

/-- **C93, partial**: "unproject(..., normalize=True) returns the same vectors as unproject(..., normalize=True, get_gradients=True)[0]"; without normalize the lengths differ, but not the direction. MISSING: pixels that
couldn't be unprojected, `failed_wrong`; CAHVORE vectors pointing straight back -/
theorem same_vectors_partial (L : Lens) (intr : Int → ℝ) (solve : Solver) (prev : NanP3) (q : P2) (normalize : Bool) (g : Grads) (h : unprojectGrads L intr solve prev normalize q = some (some g)) :
    ∃ v, unproject L intr solve prev normalize q = some (NanP3.of v) ∧ (normalize = true → g.v = v) ∧ ∃ k, 0 < k ∧ g.v = ⟨k * v.x, k * v.y, k * v.z⟩ := by
  cases hdir : direct L with
  | some func =>
    obtain ⟨U, hU, hG⟩ := direct_gradients L (by rw [hdir]; rfl) normalize solve prev
    obtain ⟨g', hg', hv, -⟩ := hG intr q
    rw [h] at hg'
    obtain rfl : g = g' := by simpa using hg'
    exact ⟨_, (hU intr q).1, fun _ => hv, 1, one_pos, by rw [hv]; simp⟩
  | none =>
    unfold unprojectGrads at h
    unfold unproject
    rw [hdir] at h ⊢
    simp only at h ⊢
    obtain ⟨nv, hnv, h⟩ := Option.bind_eq_some_iff.mp h
    rw [hnv, Option.map_some]
    cases hfin : finite nv with
    | none => rw [hfin] at h; simp at h
    | some vs =>
      rw [hfin] at h
      simp only [Option.map_eq_some_iff] at h
      obtain ⟨o, ho, g', rfl, rfl⟩ := h
      obtain ⟨hl, k, hk, e⟩ := mainGrads_v L intr vs g' ho
      have h2 : mag3 g'.v + g'.v.z = 2 := by simpa [Length] using hl
      have hm : mag3 vs ≠ 0 := by
        intro h0
        rw [e, mag3_scale _ hk.le, h0] at h2
        have hsq := mag3_sq vs
        rw [h0] at hsq
        have : vs.z = 0 := by nlinarith [mul_self_nonneg vs.x, mul_self_nonneg vs.y, mul_self_nonneg vs.z]
        simp [this] at h2
      have hn : normalized g'.v = normalized vs := by
        rw [e]
        unfold normalized
        simp only [mag_eq, mag3_scale _ hk.le]
        ext <;> simp only <;> field_simp
      have hnv' : nv = NanP3.of vs := by
        unfold finite at hfin
        obtain ⟨x, y, z⟩ := nv
        cases x <;> cases y <;> cases z <;> simp only [reduceCtorEq, Option.some.injEq] at hfin
        subst hfin
        rfl
      cases normalize with
      | true =>
        refine ⟨normalized vs, by simp only [if_true], fun _ => ?_, 1, one_pos, ?_⟩
        · simp only [if_true]; rw [normalizeGrads_v, hn]
        · simp only [if_true]; rw [normalizeGrads_v, hn]; simp
      | false =>
        refine ⟨vs, by simp only [Bool.false_eq_true, if_false, hnv'], fun h => absurd h (by simp), k, hk, ?_⟩
        simp only [Bool.false_eq_true, if_false]
        exact e

/-- **C93, negation**: a pixel that can't be unprojected: normalize=True reports (0,0,0), which isn't a unit vector, and get_gradients=True reports NaN -/
theorem failed_wrong : ∃ L intr solve prev q, ValidLens L ∧ unproject L intr solve prev true q = some (NanP3.of ⟨0, 0, 0⟩) ∧ unprojectGrads L intr solve prev true q = some none := by
  have hn : npspUnproject .opencv4 (fun _ => 1) (fun _ _ u => (u, 1)) ⟨0, 0⟩ ⟨none, none, none⟩ = some ⟨none, none, none⟩ := by
    unfold npspUnproject mrcalUnproject unprojectInternal
    simp only [lensAsserts, Bool.false_eq_true, if_false]
    rw [loopWrite_id]
    simp only [Nat.zero_lt_one, if_true, unprojectOne]
    rw [if_pos (by norm_num)]
  refine ⟨.opencv4, fun _ => 1, fun _ _ u => (u, 1), ⟨none, none, none⟩, ⟨0, 0⟩, trivial, ?_, ?_⟩
  · unfold unproject
    simp only [direct]
    rw [hn]
    rfl
  · unfold unprojectGrads
    simp only [direct]
    rw [hn]
    rfl

/-! ### the unprojection exists -/

/-- the vectors with |v|+z=2 -/
noncomputable def lift (a b : ℝ) : P3 := ⟨a, b, 1 - 1 / 4 * (a * a + b * b)⟩

theorem lift_length (a b : ℝ) : Length false (lift a b) := by
  unfold Length mag3 lift
  simp only [Bool.false_eq_true, if_false]
  rw [show a * a + b * b + (1 - 1 / 4 * (a * a + b * b)) * (1 - 1 / 4 * (a * a + b * b)) = (1 + 1 / 4 * (a * a + b * b)) ^ 2 by ring,
    Real.sqrt_sq (by nlinarith [mul_self_nonneg a, mul_self_nonneg b])]
  ring

theorem lift_of_length (v : P3) (h : Length false v) : lift v.x v.y = v := by
  have h2 : mag3 v + v.z = 2 := by simpa [Length] using h
  have hsq := mag3_sq v
  rw [show mag3 v = 2 - v.z by linarith] at hsq
  unfold lift
  ext
  · rfl
  · rfl
  · simp only; linarith

/-- **C93**: the unprojection exists, as a differentiable function of the pixel and of one of the intrinsics: around the reported vector there's exactly such a function, and the reported gradients are its gradients -/
theorem main_exists (L : Lens) (hv : ValidLens L) (hd : direct L = none) (intr : Int → ℝ) (solve : Solver) (prev : NanP3) (q : P2) (g : Grads) (h : unprojectGrads L intr solve prev false q = some (some g))
    (hreg : LensRegular L intr g.v) (col : Nat) (hcol : col < L.numParams.toNat) (hsm : Smooth L intr col g.v) :
    ∃ U : ℝ → P2 → P3, U (intr col) (pix L intr g.v) = g.v ∧
      (∀ᶠ z : ℝ × ℝ × ℝ in nhds (intr col, (pix L intr g.v).x, (pix L intr g.v).y), pix L (Function.update intr col z.1) (U z.1 ⟨z.2.1, z.2.2⟩) = ⟨z.2.1, z.2.2⟩ ∧ Length false (U z.1 ⟨z.2.1, z.2.2⟩)) ∧
      VecGrad (U (intr col)) g.dvx g.dvy g.dvz (pix L intr g.v) ∧ VecDeriv (fun s => U s (pix L intr g.v)) (g.di col) (intr col) := by
  obtain ⟨hlen, hq, hi⟩ := main_gradients L hv hd intr solve prev q g h hreg
  have hup : Function.update intr (col : Int) (intr col) = intr := Function.update_eq_self _ _
  -- dq_du is invertible
  have hker : ∀ gx gy : P3, GradAt (fun p => (pix L intr p).x) gx g.v → GradAt (fun p => (pix L intr p).y) gy g.v → ∀ w : P3, w.z = -(g.v.x * w.x + g.v.y * w.y) / 2 → dotP gx w = 0 → dotP gy w = 0 →
      w = ⟨0, 0, 0⟩ := by
    intro gx gy h1 h2 w hz e1 e2
    have h' := h
    unfold unprojectGrads at h'
    rw [hd] at h'
    simp only at h'
    obtain ⟨nv, -, h'⟩ := Option.bind_eq_some_iff.mp h'
    cases hfin : finite nv with
    | none => rw [hfin] at h'; simp at h'
    | some vs =>
      rw [hfin] at h'
      simp only [Option.map_eq_some_iff, Bool.false_eq_true, if_false] at h'
      obtain ⟨o, ho, g', rfl, rfl⟩ := h'
      obtain ⟨gx', gy', di, k1, k2, -, k4, -⟩ := mainGrads_core L hv intr vs g' ho hreg
      obtain rfl := GradAt.unique h1 k1
      obtain rfl := GradAt.unique h2 k2
      rw [k4 w ⟨0, 0⟩ hz e1 e2]
      unfold Grads.dq
      ext <;> simp
  let G : ℝ × ℝ × ℝ → ℝ × ℝ × ℝ := fun z => (z.1, (pix L (Function.update intr col z.1) (lift z.2.1 z.2.2)).x, (pix L (Function.update intr col z.1) (lift z.2.1 z.2.2)).y)
  let z0 : ℝ × ℝ × ℝ := (intr col, g.v.x, g.v.y)
  have hl0 : lift g.v.x g.v.y = g.v := lift_of_length _ hlen
  have hG0 : G z0 = (intr col, (pix L intr g.v).x, (pix L intr g.v).y) := by
    simp only [G, z0, hl0, hup]
  have hcd : ContDiffAt ℝ 1 G z0 := by
    have hin : ContDiffAt ℝ 1 (fun z : ℝ × ℝ × ℝ => (z.1, (lift z.2.1 z.2.2).x, (lift z.2.1 z.2.2).y, (lift z.2.1 z.2.2).z)) z0 := by
      unfold lift
      fun_prop
    have hin0 : (fun z : ℝ × ℝ × ℝ => (z.1, (lift z.2.1 z.2.2).x, (lift z.2.1 z.2.2).y, (lift z.2.1 z.2.2).z)) z0 = (intr col, g.v.x, g.v.y, g.v.z) := by
      simp only [z0, hl0]
    refine contDiffAt_fst.prodMk (ContDiffAt.prodMk ?_ ?_)
    · have h1 := hsm.1
      rw [← hin0] at h1
      exact ContDiffAt.comp (g := fun z : ℝ × ℝ × ℝ × ℝ => (pix L (Function.update intr col z.1) ⟨z.2.1, z.2.2.1, z.2.2.2⟩).x) z0 h1 hin
    · have h1 := hsm.2
      rw [← hin0] at h1
      exact ContDiffAt.comp (g := fun z : ℝ × ℝ × ℝ × ℝ => (pix L (Function.update intr col z.1) ⟨z.2.1, z.2.2.1, z.2.2.2⟩).y) z0 h1 hin
  have hstrict := hcd.hasStrictFDerivAt (by norm_num)
  have hF := hstrict.hasFDerivAt
  obtain ⟨gx, gy, k1, k2⟩ : ∃ gx gy : P3, GradAt (fun p => (pix L intr p).x) gx g.v ∧ GradAt (fun p => (pix L intr p).y) gy g.v := by
    obtain ⟨o, ho, -, g0, g1, -⟩ := out_right L hv intr g.v hreg
    exact ⟨_, _, g0, g1⟩
  have hinj : Function.Injective (fderiv ℝ G z0) := by
    rw [injective_iff_map_eq_zero]
    rintro ⟨i, a, b⟩ h0
    -- along a line
    have hline : HasDerivAt (fun s : ℝ => G (intr col + s * i, g.v.x + s * a, g.v.y + s * b)) (fderiv ℝ G z0 (i, a, b)) 0 := by
      have hc : HasDerivAt (fun s : ℝ => (intr col + s * i, g.v.x + s * a, g.v.y + s * b)) (i, a, b) 0 := by
        have e : ∀ c d : ℝ, HasDerivAt (fun s : ℝ => c + s * d) d 0 := fun c d => by simpa using ((hasDerivAt_id (0 : ℝ)).mul_const d).const_add c
        exact (e _ _).prodMk ((e _ _).prodMk (e _ _))
      have hat : (fun s : ℝ => (intr col + s * i, g.v.x + s * a, g.v.y + s * b)) 0 = z0 := by simp [z0]
      rw [← hat] at hF
      have := hF.comp_hasDerivAt 0 hc
      rw [hat] at this
      exact this
    rw [h0] at hline
    have hi0 : i = 0 := by
      have h1 : HasDerivAt (fun s : ℝ => intr col + s * i) i 0 := by simpa using ((hasDerivAt_id (0 : ℝ)).mul_const i).const_add (intr col)
      have h2 : HasDerivAt (fun s : ℝ => intr col + s * i) 0 0 := by
        have := (hasFDerivAt_fst (𝕜 := ℝ) (E := ℝ) (F := ℝ × ℝ)).comp_hasDerivAt (0 : ℝ) hline
        rw [map_zero] at this
        exact this
      exact h1.unique h2
    subst hi0
    -- the curve of vectors
    have hVd : VecDeriv (fun s : ℝ => lift (g.v.x + s * a) (g.v.y + s * b)) ⟨a, b, -(g.v.x * a + g.v.y * b) / 2⟩ 0 := by
      have e : ∀ c d : ℝ, HasDerivAt (fun s : ℝ => c + s * d) d 0 := fun c d => by simpa using ((hasDerivAt_id (0 : ℝ)).mul_const d).const_add c
      refine ⟨e _ _, e _ _, ?_⟩
      have := (((e g.v.x a).mul (e g.v.x a)).add ((e g.v.y b).mul (e g.v.y b))).const_mul (1 / 4 : ℝ) |>.const_sub 1
      refine this.congr_deriv ?_
      simp
      ring
    have hV0 : lift (g.v.x + 0 * a) (g.v.y + 0 * b) = g.v := by simp [hl0]
    obtain ⟨vx, vy, vz⟩ := hVd
    have dx := k1 (fun s : ℝ => lift (g.v.x + s * a) (g.v.y + s * b)) _ 0 hV0 vx vy vz
    have dy := k2 (fun s : ℝ => lift (g.v.x + s * a) (g.v.y + s * b)) _ 0 hV0 vx vy vz
    have zx : HasDerivAt (fun s : ℝ => (pix L intr (lift (g.v.x + s * a) (g.v.y + s * b))).x) 0 0 := by
      have h2 := (hasFDerivAt_snd (𝕜 := ℝ) (E := ℝ) (F := ℝ × ℝ)).comp_hasDerivAt (0 : ℝ) hline
      have := (hasFDerivAt_fst (𝕜 := ℝ) (E := ℝ) (F := ℝ)).comp_hasDerivAt (0 : ℝ) h2
      simpa [G, hup, Function.comp_def] using this
    have zy : HasDerivAt (fun s : ℝ => (pix L intr (lift (g.v.x + s * a) (g.v.y + s * b))).y) 0 0 := by
      have h2 := (hasFDerivAt_snd (𝕜 := ℝ) (E := ℝ) (F := ℝ × ℝ)).comp_hasDerivAt (0 : ℝ) hline
      have := (hasFDerivAt_snd (𝕜 := ℝ) (E := ℝ) (F := ℝ)).comp_hasDerivAt (0 : ℝ) h2
      simpa [G, hup, Function.comp_def] using this
    have hw := hker gx gy k1 k2 ⟨a, b, -(g.v.x * a + g.v.y * b) / 2⟩ rfl (dx.unique zx) (dy.unique zy)
    have ha : a = 0 := congrArg P3.x hw
    have hb : b = 0 := congrArg P3.y hw
    rw [ha, hb]
    rfl
  let E : (ℝ × ℝ × ℝ) ≃L[ℝ] (ℝ × ℝ × ℝ) := (LinearEquiv.ofInjectiveEndo (fderiv ℝ G z0 : (ℝ × ℝ × ℝ) →ₗ[ℝ] (ℝ × ℝ × ℝ)) hinj).toContinuousLinearEquiv
  have hE : (E : (ℝ × ℝ × ℝ) →L[ℝ] (ℝ × ℝ × ℝ)) = fderiv ℝ G z0 := by
    ext <;> rfl
  rw [← hE] at hstrict
  have hright := hstrict.eventually_right_inverse
  have hinvd := hstrict.to_localInverse.hasFDerivAt
  have hinv0 : hstrict.localInverse G E z0 (G z0) = z0 := hstrict.localInverse_apply_image
  rw [hG0] at hright hinvd hinv0
  have hev : ∀ᶠ z : ℝ × ℝ × ℝ in nhds (intr col, (pix L intr g.v).x, (pix L intr g.v).y),
      pix L (Function.update intr col z.1) (lift (hstrict.localInverse G E z0 z).2.1 (hstrict.localInverse G E z0 z).2.2) = ⟨z.2.1, z.2.2⟩ ∧
        Length false (lift (hstrict.localInverse G E z0 z).2.1 (hstrict.localInverse G E z0 z).2.2) := by
    filter_upwards [hright] with z hz
    refine ⟨?_, lift_length _ _⟩
    obtain ⟨i, x, y⟩ := z
    simp only [G, Prod.mk.injEq] at hz
    obtain ⟨h1, h2, h3⟩ := hz
    simp only
    rw [h1] at h2 h3
    exact P2.ext h2 h3
  -- along any curve the vector is differentiable
  have hcurve : ∀ (c : ℝ → ℝ × ℝ × ℝ) (c' : ℝ × ℝ × ℝ) (t : ℝ), c t = (intr col, (pix L intr g.v).x, (pix L intr g.v).y) → HasDerivAt c c' t →
      ∃ w : P3, VecDeriv (fun s => lift (hstrict.localInverse G E z0 (c s)).2.1 (hstrict.localInverse G E z0 (c s)).2.2) w t := by
    intro c c' t hct hc
    have hd := hinvd
    rw [← hct] at hd
    have h1 := hd.comp_hasDerivAt t hc
    have h2 := (hasFDerivAt_snd (𝕜 := ℝ) (E := ℝ) (F := ℝ × ℝ)).comp_hasDerivAt t h1
    have ha := (hasFDerivAt_fst (𝕜 := ℝ) (E := ℝ) (F := ℝ)).comp_hasDerivAt t h2
    have hb := (hasFDerivAt_snd (𝕜 := ℝ) (E := ℝ) (F := ℝ)).comp_hasDerivAt t h2
    exact ⟨⟨_, _, _⟩, ha, hb, (((ha.mul ha).add (hb.mul hb)).const_mul (1 / 4 : ℝ)).const_sub 1⟩
  have hv0 : lift (hstrict.localInverse G E z0 (intr col, (pix L intr g.v).x, (pix L intr g.v).y)).2.1 (hstrict.localInverse G E z0 (intr col, (pix L intr g.v).x, (pix L intr g.v).y)).2.2 = g.v := by
    rw [hinv0]
    exact hl0
  refine ⟨fun i p => lift (hstrict.localInverse G E z0 (i, p.x, p.y)).2.1 (hstrict.localInverse G E z0 (i, p.x, p.y)).2.2, hv0, hev, ?_, ?_⟩
  · have key : ∀ (Q : ℝ → P2) (d : P2) (t : ℝ), Q t = pix L intr g.v → HasDerivAt (fun s => (Q s).x) d.x t → HasDerivAt (fun s => (Q s).y) d.y t →
        VecDeriv (fun s => lift (hstrict.localInverse G E z0 (intr col, (Q s).x, (Q s).y)).2.1 (hstrict.localInverse G E z0 (intr col, (Q s).x, (Q s).y)).2.2) (g.dq d) t := by
      intro Q d t hQ hx hy
      have hc : HasDerivAt (fun s => (intr col, (Q s).x, (Q s).y)) (0, d.x, d.y) t := (hasDerivAt_const t (intr col)).prodMk (hx.prodMk hy)
      obtain ⟨w, hw⟩ := hcurve _ _ t (by simp only [hQ]) hc
      have hcont := hc.continuousAt.tendsto
      simp only [hQ] at hcont
      have := hq _ w Q d t (by simp only [hQ]; exact hv0) hw ⟨hx, hy⟩ (by
        filter_upwards [hcont.eventually hev] with s hs
        rw [hup] at hs
        exact hs)
      rw [← this]
      exact hw
    exact ⟨fun Q d t hQ hx hy => (key Q d t hQ hx hy).1, fun Q d t hQ hx hy => (key Q d t hQ hx hy).2.1, fun Q d t hQ hx hy => (key Q d t hQ hx hy).2.2⟩
  · have hc : HasDerivAt (fun s : ℝ => (s, (pix L intr g.v).x, (pix L intr g.v).y)) (1, 0, 0) (intr col) := (hasDerivAt_id _).prodMk ((hasDerivAt_const _ _).prodMk (hasDerivAt_const _ _))
    obtain ⟨w, hw⟩ := hcurve _ _ (intr col) rfl hc
    have := hi col hcol hsm _ w hv0 hw (by
      filter_upwards [hc.continuousAt.tendsto.eventually hev] with s hs
      exact hs)
    rw [← this]
    exact hw

/-! ### the models for which the pixel is known to be smooth in everything -/

theorem update_smooth (intr : Int → ℝ) (col : Nat) (k : Int) : ContDiff ℝ 1 (fun z : ℝ × ℝ × ℝ × ℝ => Function.update intr (col : Int) z.1 k) := by
  by_cases h : k = col
  · subst h
    simpa using contDiff_fst
  · simp only [Function.update_of_ne h]
    exact contDiff_const

theorem smooth_ocv (intr : Int → ℝ) (col n : Nat) (v : P3) (hz : v.z ≠ 0) (hden : ocvDen (padK n (nocoreOf intr)) v ≠ 0) :
    ContDiffAt ℝ 1 (fun z : ℝ × ℝ × ℝ × ℝ => (ocvQ (coreOf (Function.update intr col z.1)) (padK n (nocoreOf (Function.update intr col z.1))) ⟨z.2.1, z.2.2.1, z.2.2.2⟩).x) (intr col, v.x, v.y, v.z) ∧
    ContDiffAt ℝ 1 (fun z : ℝ × ℝ × ℝ × ℝ => (ocvQ (coreOf (Function.update intr col z.1)) (padK n (nocoreOf (Function.update intr col z.1))) ⟨z.2.1, z.2.2.1, z.2.2.2⟩).y) (intr col, v.x, v.y, v.z) := by
  have hup : Function.update intr (col : Int) (intr col) = intr := Function.update_eq_self _ _
  have hA : ∀ k, ContDiffAt ℝ 1 (fun z : ℝ × ℝ × ℝ × ℝ => Function.update intr (col : Int) z.1 k) (intr col, v.x, v.y, v.z) := fun k => (update_smooth intr col k).contDiffAt
  have hK : ∀ i, ContDiffAt ℝ 1 (fun z : ℝ × ℝ × ℝ × ℝ => padK n (nocoreOf (Function.update intr (col : Int) z.1)) i) (intr col, v.x, v.y, v.z) := by
    intro i
    unfold padK nocoreOf
    by_cases h : i < n
    · simp only [if_pos h]
      exact hA _
    · simp only [if_neg h]
      exact contDiffAt_const
  have hi : ContDiffAt ℝ 1 (fun z : ℝ × ℝ × ℝ × ℝ => 1 / z.2.2.2) (intr col, v.x, v.y, v.z) := by
    refine ContDiffAt.div contDiffAt_const (by fun_prop) hz
  have hx : ContDiffAt ℝ 1 (fun z : ℝ × ℝ × ℝ × ℝ => z.2.1 * (1 / z.2.2.2)) (intr col, v.x, v.y, v.z) := ContDiffAt.mul (by fun_prop) hi
  have hy : ContDiffAt ℝ 1 (fun z : ℝ × ℝ × ℝ × ℝ => z.2.2.1 * (1 / z.2.2.2)) (intr col, v.x, v.y, v.z) := ContDiffAt.mul (by fun_prop) hi
  have hr2 := (hx.mul hx).add (hy.mul hy)
  have hr4 := hr2.mul hr2
  have hr6 := hr4.mul hr2
  have hc := ((contDiffAt_const (c := (1 : ℝ))).add ((hK 0).mul hr2)).add ((hK 1).mul hr4) |>.add ((hK 4).mul hr6)
  have hq := ((contDiffAt_const (c := (1 : ℝ))).add ((hK 5).mul hr2)).add ((hK 6).mul hr4) |>.add ((hK 7).mul hr6)
  have hic := (contDiffAt_const (c := (1 : ℝ))).div hq (by
    have := hden
    unfold ocvDen ocv at this
    simpa [hup] using this)
  have two : ContDiffAt ℝ 1 (fun _ : ℝ × ℝ × ℝ × ℝ => (2 : ℝ)) (intr col, v.x, v.y, v.z) := contDiffAt_const
  constructor
  · have := ((((((hx.mul hc).mul hic).add ((hK 2).mul ((two.mul hx).mul hy))).add ((hK 3).mul (hr2.add ((two.mul hx).mul hx)))).add ((hK 8).mul hr2)).add ((hK 9).mul hr4) |>.mul (hA 0)).add (hA 2)
    exact this
  · have := ((((((hy.mul hc).mul hic).add ((hK 2).mul (hr2.add ((two.mul hy).mul hy)))).add ((hK 3).mul ((two.mul hx).mul hy))).add ((hK 10).mul hr2)).add ((hK 11).mul hr4) |>.mul (hA 1)).add (hA 3)
    exact this

theorem smooth_cahvor (intr : Int → ℝ) (col : Nat) (v : P3) (ho : dot3 v (cahvorO (intr 4) (intr 5)) ≠ 0) (hz : (cahvorDistort (nocoreOf intr) v).p.z ≠ 0) :
    Smooth .cahvor intr col v := by
  have hup : Function.update intr (col : Int) (intr col) = intr := Function.update_eq_self _ _
  have hA : ∀ k, ContDiffAt ℝ 1 (fun z : ℝ × ℝ × ℝ × ℝ => Function.update intr (col : Int) z.1 k) (intr col, v.x, v.y, v.z) := fun k => (update_smooth intr col k).contDiffAt
  have hK : ∀ i, ContDiffAt ℝ 1 (fun z : ℝ × ℝ × ℝ × ℝ => nocoreOf (Function.update intr (col : Int) z.1) i) (intr col, v.x, v.y, v.z) := fun i => hA _
  have hx : ContDiffAt ℝ 1 (fun z : ℝ × ℝ × ℝ × ℝ => z.2.1) (intr col, v.x, v.y, v.z) := by fun_prop
  have hy : ContDiffAt ℝ 1 (fun z : ℝ × ℝ × ℝ × ℝ => z.2.2.1) (intr col, v.x, v.y, v.z) := by fun_prop
  have hzz : ContDiffAt ℝ 1 (fun z : ℝ × ℝ × ℝ × ℝ => z.2.2.2) (intr col, v.x, v.y, v.z) := by fun_prop
  have hs : ∀ i, ContDiffAt ℝ 1 (fun z : ℝ × ℝ × ℝ × ℝ => Real.sin (nocoreOf (Function.update intr (col : Int) z.1) i)) (intr col, v.x, v.y, v.z) := fun i => Real.contDiff_sin.contDiffAt.comp _ (hK i)
  have hc : ∀ i, ContDiffAt ℝ 1 (fun z : ℝ × ℝ × ℝ × ℝ => Real.cos (nocoreOf (Function.update intr (col : Int) z.1) i)) (intr col, v.x, v.y, v.z) := fun i => Real.contDiff_cos.contDiffAt.comp _ (hK i)
  have hox := (hs 0).mul (hc 1)
  have hoy := hs 1
  have hoz := (hc 0).mul (hc 1)
  have hom := ((hx.mul hox).add (hy.mul hoy)).add (hzz.mul hoz)
  have hom1 := (contDiffAt_const (c := (1.0 : ℝ))).div hom (by
    have := ho
    unfold dot3 cahvorO at this
    simpa [hup, nocoreOf] using this)
  have hn := ((hx.mul hx).add (hy.mul hy)).add (hzz.mul hzz)
  have htau := ((hn.mul hom1).mul hom1).sub (contDiffAt_const (c := (1.0 : ℝ)))
  have hmu := ((hK 2).add (htau.mul (hK 3))).add ((htau.mul htau).mul (hK 4))
  have dx := hx.add (hmu.mul (hx.sub (hom.mul hox)))
  have dy := hy.add (hmu.mul (hy.sub (hom.mul hoy)))
  have dz := hzz.add (hmu.mul (hzz.sub (hom.mul hoz)))
  have hiz := (contDiffAt_const (c := (1 : ℝ))).div dz (by
    have := hz
    unfold cahvorDistort cahvorState dot3 cahvorO at this
    simpa [hup] using this)
  exact ⟨((dx.mul hiz).mul (hA 0)).add (hA 2), ((dy.mul hiz).mul (hA 1)).add (hA 3)⟩

/-- **C93**: this is so for all the OpenCV and CAHVOR models, at all the points where the projection is regular -/
theorem smooth_ocv_cahvor (L : Lens) (hL : L = .opencv4 ∨ L = .opencv5 ∨ L = .opencv8 ∨ L = .opencv12 ∨ L = .cahvor) (intr : Int → ℝ) (v : P3) (hreg : LensRegular L intr v) (col : Nat) : Smooth L intr col v := by
  rcases hL with rfl | rfl | rfl | rfl | rfl
  · exact smooth_ocv intr col 4 v hreg.2.2.1 hreg.2.2.2
  · exact smooth_ocv intr col 5 v hreg.2.2.1 hreg.2.2.2
  · exact smooth_ocv intr col 8 v hreg.2.2.1 hreg.2.2.2
  · exact smooth_ocv intr col 12 v hreg.2.2.1 hreg.2.2.2
  · exact smooth_cahvor intr col v hreg.2.2.1 hreg.2.2.2

/-! ### the hypotheses are met -/

/-- an OpenCV model with a radial distortion -/
noncomputable def caseIntr : Int → ℝ := fun i => if i = 0 ∨ i = 1 then 1 else if i = 4 then 1 / 2 else 0
/-- a solver that finds the center pixel -/
def caseSolve : Solver := fun _ _ _ => (⟨0, 0⟩, 0)

theorem case_regular : LensRegular .opencv4 caseIntr ⟨0, 0, 1⟩ := by
  refine ⟨by norm_num [caseIntr], by norm_num [caseIntr], one_ne_zero, ?_⟩
  norm_num [ocvDen, ocv]

theorem case_succeeds : ∃ g, unprojectGrads .opencv4 caseIntr caseSolve ⟨none, none, none⟩ false ⟨0, 0⟩ = some (some g) ∧ g.v = ⟨0, 0, 1⟩ := by
  have hn : npspUnproject .opencv4 caseIntr caseSolve ⟨0, 0⟩ ⟨none, none, none⟩ = some (NanP3.of ⟨0, 0, 1⟩) := by
    unfold npspUnproject mrcalUnproject unprojectInternal
    simp only [lensAsserts, Bool.false_eq_true, if_false]
    rw [loopWrite_id]
    have hv : (unstereographic (coreOf caseIntr) ⟨0, 0⟩).v = ⟨0, 0, 1⟩ := by norm_num [unstereographic, coreOf, caseIntr]
    have h1 : ¬ ((0 : ℝ) / 2.0 > 1e-4) := by norm_num
    have h2 : ¬ (Lens.opencv4.canProjectBehind = false ∧ (unstereographic (coreOf caseIntr) ⟨0, 0⟩).v.z < 0.0) := by rw [hv]; norm_num
    simp only [Nat.zero_lt_one, if_true, unprojectOne]
    refine Eq.trans (congrArg some (if_neg h1)) (Eq.trans (congrArg some (if_neg h2)) ?_)
    exact congrArg (fun v => some (NanP3.of v)) hv
  have hm : mag (⟨0, 0, 1⟩ : P3) = 1 := by norm_num [mag]
  have hu : (stereographic unitCore ⟨0, 0, 1⟩).q = ⟨0, 0⟩ := by norm_num [stereographic, unitCore]
  have hs : unstereographic unitCore ⟨0, 0⟩ = ⟨⟨0, 0, 1⟩, ⟨1, 0⟩, ⟨0, 1⟩, ⟨0, 0⟩⟩ := by norm_num [unstereographic, unitCore]
  obtain ⟨o, ho⟩ := project_succeeds .opencv4 trivial caseIntr 1 (fun _ => ⟨0, 0, 1⟩) true true ⟨fun _ => ⟨0, 0⟩, fun _ => ⟨0, 0, 0⟩, fun _ => 0⟩
  obtain ⟨hg, -, -⟩ := project_gradients .opencv4 trivial caseIntr 1 _ _ o ho
  obtain ⟨g0, g1, -⟩ := hg 0 (by omega) case_regular
  simp only [Nat.mul_zero, Nat.zero_add] at g0 g1
  have hx : ∀ x y : ℝ, pix .opencv4 caseIntr ⟨x, y, 1⟩ = ⟨x * (1 + 1 / 2 * (x * x + y * y)), y * (1 + 1 / 2 * (x * x + y * y))⟩ := by
    intro x y
    simp [pix, lensPixel, ocvQ, ocv, padK, coreOf, nocoreOf, caseIntr]
  have hid := hasDerivAt_id (0 : ℝ)
  have h0 := hasDerivAt_const (0 : ℝ) (0 : ℝ)
  have h1 := hasDerivAt_const (0 : ℝ) (1 : ℝ)
  have dd : HasDerivAt (fun x : ℝ => x * (1 + 1 / 2 * (x * x))) 1 0 := by
    have := hid.mul (((hid.mul hid).const_mul (1 / 2 : ℝ)).const_add 1)
    refine this.congr_deriv ?_
    norm_num
  have e00 : (o.dp 0).x = 1 := by
    have a := g0 (fun s => ⟨s, 0, 1⟩) ⟨1, 0, 0⟩ 0 rfl hid h0 h1
    simp only [hx] at a
    have := a.unique (by simpa using dd)
    simpa using this
  have e01 : (o.dp 0).y = 0 := by
    have a := g0 (fun s => ⟨0, s, 1⟩) ⟨0, 1, 0⟩ 0 rfl h0 hid h1
    simp only [hx] at a
    have := a.unique (by simpa using h0)
    simpa using this
  have e11 : (o.dp 1).y = 1 := by
    have a := g1 (fun s => ⟨0, s, 1⟩) ⟨0, 1, 0⟩ 0 rfl h0 hid h1
    simp only [hx] at a
    have := a.unique (by simpa using dd)
    simpa using this
  unfold unprojectGrads
  simp only [direct]
  rw [hn]
  simp only [Option.bind_some, finite, NanP3.of]
  unfold mainGrads
  rw [if_neg (by rw [hm]; norm_num)]
  simp only [hu, hs]
  rw [ho]
  simp only
  rw [if_neg (by rw [e00, e01, e11]; norm_num)]
  exact ⟨_, rfl, rfl⟩

/-- all the hypotheses of `main_exists` (and so of `main_gradients`, `main_gradients_normalized`, `same_vectors_partial`) are met, for all the parameters -/
example (col : Nat) (hcol : col < Lens.opencv4.numParams.toNat) : ∃ (g : Grads) (U : ℝ → P2 → P3), unprojectGrads .opencv4 caseIntr caseSolve ⟨none, none, none⟩ false ⟨0, 0⟩ = some (some g) ∧ VecGrad (U (caseIntr col)) g.dvx g.dvy g.dvz (pix .opencv4 caseIntr g.v) ∧
    VecDeriv (fun s => U s (pix .opencv4 caseIntr g.v)) (g.di col) (caseIntr col) := by
  obtain ⟨g, hg, hgv⟩ := case_succeeds
  have hr : LensRegular .opencv4 caseIntr g.v := by rw [hgv]; exact case_regular
  obtain ⟨U, -, -, h⟩ := main_exists .opencv4 trivial rfl caseIntr caseSolve _ _ g hg hr col hcol (smooth_ocv_cahvor _ (Or.inl rfl) _ _ hr col)
  exact ⟨g, U, hg, h⟩

example : ∃ g, unprojectGrads .opencv4 caseIntr caseSolve ⟨none, none, none⟩ true ⟨0, 0⟩ = some (some g) ∧ mag3 g.v = 1 := by
  obtain ⟨g, hg, hgv⟩ := case_succeeds
  obtain ⟨g', h1, -, h2, -⟩ := main_gradients_normalized .opencv4 trivial (by simp) rfl caseIntr caseSolve _ _ g hg (by rw [hgv]; exact case_regular)
  exact ⟨g', h1, h2⟩

example (solve : Solver) (prev : NanP3) := direct_gradients .lonlat rfl true solve prev

end Mrcal.UnprojectPy
