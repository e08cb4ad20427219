import Verif.Model.Autodiff
import Verif.Props.CameraProps
import Mathlib.Algebra.BigOperators.Field
import Mathlib.Analysis.SpecialFunctions.Trigonometric.InverseDeriv
/-
C30: the automatic differentiation is sound.
-/
namespace Mrcal.AD
open Mrcal.Cam (atan2)

variable {N : Nat}

/-- the rate of change implied by the gradient, if the variables move with velocity `d` -/
noncomputable def Val.rate (v : Val N) (d : Fin N → ℝ) : ℝ := ∑ i, v.j i * d i

/-- `v` carries the value and the derivative of `f` -/
def Tracks (v : Val N) (d : Fin N → ℝ) (f : ℝ → ℝ) (t : ℝ) : Prop := f t = v.x ∧ HasDerivAt f (v.rate d) t

variable {a b y x : Val N} {d : Fin N → ℝ} {f g : ℝ → ℝ} {t c : ℝ}

theorem rate_lin (u : Val N) (p q : ℝ) (h : ∀ i, u.j i = p * a.j i + q * b.j i) : u.rate d = p * a.rate d + q * b.rate d := by
  simp only [Val.rate, h, Finset.mul_sum, ← Finset.sum_add_distrib]
  exact Finset.sum_congr rfl fun i _ => by ring

theorem rate_lin1 (u : Val N) (p : ℝ) (h : ∀ i, u.j i = p * a.j i) : u.rate d = p * a.rate d := by
  simp only [Val.rate, h, Finset.mul_sum]
  exact Finset.sum_congr rfl fun i _ => by ring

theorem Tracks.ofR : Tracks (Val.ofR c : Val N) d (fun _ => c) t := by
  refine ⟨rfl, ?_⟩
  have : (Val.ofR c : Val N).rate d = 0 := by simp [Val.rate, Val.ofR]
  rw [this]; exact hasDerivAt_const _ _

theorem Tracks.add (ha : Tracks a d f t) (hb : Tracks b d g t) : Tracks (a.add b) d (fun s => f s + g s) t := by
  refine ⟨by simp [Val.add, ha.1, hb.1], ?_⟩
  rw [rate_lin (a := a) (b := b) (a.add b) 1 1 (fun i => by simp [Val.add])]
  exact (ha.2.add hb.2).congr_deriv (by ring)

theorem Tracks.addC (ha : Tracks a d f t) : Tracks (a.addC c) d (fun s => f s + c) t := by
  refine ⟨by simp [Val.addC, ha.1], ?_⟩
  exact ha.2.add_const c

theorem Tracks.sub (ha : Tracks a d f t) (hb : Tracks b d g t) : Tracks (a.sub b) d (fun s => f s - g s) t := by
  refine ⟨by simp [Val.sub, ha.1, hb.1], ?_⟩
  rw [rate_lin (a := a) (b := b) (a.sub b) 1 (-1) (fun i => by simp [Val.sub]; ring)]
  exact (ha.2.sub hb.2).congr_deriv (by ring)

theorem Tracks.subC (ha : Tracks a d f t) : Tracks (a.subC c) d (fun s => f s - c) t := by
  refine ⟨by simp [Val.subC, ha.1], ?_⟩
  exact ha.2.sub_const c

theorem Tracks.mul (ha : Tracks a d f t) (hb : Tracks b d g t) : Tracks (a.mul b) d (fun s => f s * g s) t := by
  refine ⟨by simp [Val.mul, ha.1, hb.1], ?_⟩
  rw [rate_lin (a := a) (b := b) (a.mul b) b.x a.x (fun i => by simp [Val.mul]; ring)]
  exact (ha.2.mul hb.2).congr_deriv (by rw [ha.1, hb.1]; ring)

theorem Tracks.mulC (ha : Tracks a d f t) : Tracks (a.mulC c) d (fun s => f s * c) t := by
  refine ⟨by simp [Val.mulC, ha.1], ?_⟩
  rw [rate_lin1 (a := a) (a.mulC c) c (fun i => by simp [Val.mulC]; ring)]
  exact (ha.2.mul_const c).congr_deriv (by ring)

theorem Tracks.congr (ha : Tracks a d f t) (h : ∀ s, f s = g s) : Tracks a d g t := by
  rw [← show f = g from funext h]; exact ha

theorem Tracks.neg (ha : Tracks a d f t) : Tracks a.neg d (fun s => -f s) t :=
  (ha.mulC (c := -1)).congr fun s => by ring

theorem Tracks.div (ha : Tracks a d f t) (hb : Tracks b d g t) (h : b.x ≠ 0) : Tracks (a.div b) d (fun s => f s / g s) t := by
  refine ⟨by simp [Val.div, ha.1, hb.1], ?_⟩
  rw [rate_lin (a := a) (b := b) (a.div b) (b.x / (b.x * b.x)) (-a.x / (b.x * b.x)) (fun i => by simp only [Val.div]; field_simp; ring)]
  exact (ha.2.div hb.2 (by rw [hb.1]; exact h)).congr_deriv (by rw [ha.1, hb.1]; field_simp; ring)

theorem Tracks.divC (ha : Tracks a d f t) (_h : c ≠ 0) : Tracks (a.divC c) d (fun s => f s / c) t :=
  (ha.mulC (c := 1 / c)).congr fun s => by field_simp

theorem Tracks.sqrt (ha : Tracks a d f t) (h : 0 < a.x) : Tracks a.sqrt d (fun s => Real.sqrt (f s)) t := by
  refine ⟨by simp [Val.sqrt, ha.1], ?_⟩
  rw [rate_lin1 (a := a) a.sqrt (1 / (2 * Real.sqrt a.x)) (fun i => by simp only [Val.sqrt]; ring)]
  exact (ha.2.sqrt (by rw [ha.1]; exact h.ne')).congr_deriv (by rw [ha.1]; ring)

theorem Tracks.square (ha : Tracks a d f t) : Tracks a.square d (fun s => f s * f s) t := by
  refine ⟨by simp [Val.square, ha.1], ?_⟩
  rw [rate_lin1 (a := a) a.square (2 * a.x) (fun i => by simp only [Val.square])]
  exact (ha.2.mul ha.2).congr_deriv (by rw [ha.1]; ring)

theorem Tracks.sin (ha : Tracks a d f t) : Tracks a.sin d (fun s => Real.sin (f s)) t := by
  refine ⟨by simp [Val.sin, ha.1], ?_⟩
  rw [rate_lin1 (a := a) a.sin (Real.cos a.x) (fun i => by simp only [Val.sin])]
  exact (ha.2.sin).congr_deriv (by rw [ha.1])

theorem Tracks.cos (ha : Tracks a d f t) : Tracks a.cos d (fun s => Real.cos (f s)) t := by
  refine ⟨by simp [Val.cos, ha.1], ?_⟩
  rw [rate_lin1 (a := a) a.cos (-Real.sin a.x) (fun i => by simp only [Val.cos])]
  exact (ha.2.cos).congr_deriv (by rw [ha.1])

theorem Tracks.tan (ha : Tracks a d f t) (h : Real.cos a.x ≠ 0) : Tracks a.tan d (fun s => Real.tan (f s)) t := by
  refine ⟨by simp only [Val.tan, ha.1, Real.tan_eq_sin_div_cos], ?_⟩
  rw [rate_lin1 (a := a) a.tan (1 / (Real.cos a.x * Real.cos a.x)) (fun i => by simp only [Val.tan]; ring)]
  have e : (fun s => Real.tan (f s)) = fun s => Real.sin (f s) / Real.cos (f s) := funext fun s => Real.tan_eq_sin_div_cos _
  rw [e]
  refine (ha.2.sin.div ha.2.cos (by rw [ha.1]; exact h)).congr_deriv ?_
  rw [ha.1]
  have := Real.sin_sq_add_cos_sq a.x
  field_simp
  linear_combination (a.rate d) * this

theorem Tracks.atan2 (hy : Tracks y d f t) (hx : Tracks x d g t) (h : y.x ≠ 0 ∨ 0 < x.x) :
    Tracks (y.atan2 x) d (fun s => Cam.atan2 (f s) (g s)) t := by
  refine ⟨by simp [Val.atan2, hy.1, hx.1], ?_⟩
  rw [rate_lin (a := y) (b := x) (y.atan2 x) (x.x / (y.x * y.x + x.x * x.x)) (-y.x / (y.x * y.x + x.x * x.x))
    (fun i => by simp only [Val.atan2]; ring)]
  refine (Cam.atan2_deriv hy.2 hx.2 (by rw [hy.1, hx.1]; exact h.symm)).congr_deriv ?_
  rw [hy.1, hx.1]; ring

theorem Tracks.asin (ha : Tracks a d f t) (h1 : -1 < a.x) (h2 : a.x < 1) : Tracks a.asin d (fun s => Real.arcsin (f s)) t := by
  refine ⟨by simp [Val.asin, ha.1], ?_⟩
  rw [rate_lin1 (a := a) a.asin (1 / Real.sqrt (1 - a.x * a.x)) (fun i => by simp only [Val.asin])]
  have h := (Real.hasDerivAt_arcsin (x := f t) (by rw [ha.1]; exact h1.ne') (by rw [ha.1]; exact h2.ne)).comp t ha.2
  exact h.congr_deriv (by rw [ha.1, sq])

theorem Tracks.acos (ha : Tracks a d f t) (h1 : -1 < a.x) (h2 : a.x < 1) : Tracks a.acos d (fun s => Real.arccos (f s)) t := by
  refine ⟨by simp [Val.acos, ha.1], ?_⟩
  rw [rate_lin1 (a := a) a.acos (-1 / Real.sqrt (1 - a.x * a.x)) (fun i => by simp only [Val.acos])]
  have h := (Real.hasDerivAt_arccos (x := f t) (by rw [ha.1]; exact h1.ne') (by rw [ha.1]; exact h2.ne)).comp t ha.2
  exact h.congr_deriv (by rw [ha.1, sq]; ring)

theorem Tracks.sinxOverX (ha : Tracks a d f t) (h : 1e-5 ≤ |a.x|) :
    Tracks (a.sinxOverX a.sin) d (fun s => Real.sin (f s) / f s) t := by
  unfold Val.sinxOverX
  rw [if_neg (by linarith)]
  exact ha.sin.div ha (by
    intro h0
    rw [h0, abs_zero] at h
    norm_num at h)

/-! ### expressions -/

/-- **Specification**: what each expression means, mathematically -/
noncomputable def Expr.meaning : Expr N → (Fin N → ℝ) → ℝ
  | .var i, p => p i
  | .const c, _ => c
  | .add a b, p => a.meaning p + b.meaning p
  | .addC a c, p => a.meaning p + c
  | .sub a b, p => a.meaning p - b.meaning p
  | .subC a c, p => a.meaning p - c
  | .neg a, p => -a.meaning p
  | .mul a b, p => a.meaning p * b.meaning p
  | .mulC a c, p => a.meaning p * c
  | .div a b, p => a.meaning p / b.meaning p
  | .divC a c, p => a.meaning p / c
  | .sqrt a, p => Real.sqrt (a.meaning p)
  | .square a, p => (a.meaning p) ^ 2
  | .sin a, p => Real.sin (a.meaning p)
  | .cos a, p => Real.cos (a.meaning p)
  | .tan a, p => Real.tan (a.meaning p)
  | .atan2 y x, p => Complex.arg ⟨x.meaning p, y.meaning p⟩
  | .asin a, p => Real.arcsin (a.meaning p)
  | .acos a, p => Real.arccos (a.meaning p)
  | .sinxOverX a, p => Real.sin (a.meaning p) / a.meaning p

/-- each operator is applied where it is differentiable, and not in the small-angle branch of sinx_over_x() -/
def Expr.Regular (p : Fin N → ℝ) : Expr N → Prop
  | .var _ => True
  | .const _ => True
  | .add a b => a.Regular p ∧ b.Regular p
  | .addC a _ => a.Regular p
  | .sub a b => a.Regular p ∧ b.Regular p
  | .subC a _ => a.Regular p
  | .neg a => a.Regular p
  | .mul a b => a.Regular p ∧ b.Regular p
  | .mulC a _ => a.Regular p
  | .div a b => a.Regular p ∧ b.Regular p ∧ b.meaning p ≠ 0
  | .divC a c => a.Regular p ∧ c ≠ 0
  | .sqrt a => a.Regular p ∧ 0 < a.meaning p
  | .square a => a.Regular p
  | .sin a => a.Regular p
  | .cos a => a.Regular p
  | .tan a => a.Regular p ∧ Real.cos (a.meaning p) ≠ 0
  | .atan2 y x => y.Regular p ∧ x.Regular p ∧ (y.meaning p ≠ 0 ∨ 0 < x.meaning p)
  | .asin a => a.Regular p ∧ -1 < a.meaning p ∧ a.meaning p < 1
  | .acos a => a.Regular p ∧ -1 < a.meaning p ∧ a.meaning p < 1
  | .sinxOverX a => a.Regular p ∧ 1e-5 ≤ |a.meaning p|

/-- soundness along any path of the variables -/
theorem autodiff_tracks (e : Expr N) (P : ℝ → Fin N → ℝ) (d : Fin N → ℝ) (t : ℝ) (hP : ∀ i, HasDerivAt (fun s => P s i) (d i) t)
    (hreg : e.Regular (P t)) : Tracks (e.evalV (P t)) d (fun s => e.meaning (P s)) t := by
  induction e with
  | var i =>
    refine ⟨rfl, ?_⟩
    have : (Expr.evalV (P t) (.var i)).rate d = d i := by
      simp [Expr.evalV, Val.rate]
    rw [this]; exact hP i
  | const c => exact Tracks.ofR
  | add a b iha ihb => exact (iha hreg.1).add (ihb hreg.2)
  | addC a c iha => exact (iha hreg).addC
  | sub a b iha ihb => exact (iha hreg.1).sub (ihb hreg.2)
  | subC a c iha => exact (iha hreg).subC
  | neg a iha => exact (iha hreg).neg
  | mul a b iha ihb => exact (iha hreg.1).mul (ihb hreg.2)
  | mulC a c iha => exact (iha hreg).mulC
  | div a b iha ihb => exact (iha hreg.1).div (ihb hreg.2.1) (by rw [← (ihb hreg.2.1).1]; exact hreg.2.2)
  | divC a c iha => exact (iha hreg.1).divC hreg.2
  | sqrt a iha => exact (iha hreg.1).sqrt (by rw [← (iha hreg.1).1]; exact hreg.2)
  | square a iha => exact (iha hreg).square.congr fun s => by simp only [Expr.meaning]; ring
  | sin a iha => exact (iha hreg).sin
  | cos a iha => exact (iha hreg).cos
  | tan a iha => exact (iha hreg.1).tan (by rw [← (iha hreg.1).1]; exact hreg.2)
  | atan2 y x ihy ihx =>
    exact (ihy hreg.1).atan2 (ihx hreg.2.1) (by rw [← (ihy hreg.1).1, ← (ihx hreg.2.1).1]; exact hreg.2.2)
  | asin a iha => exact (iha hreg.1).asin (by rw [← (iha hreg.1).1]; exact hreg.2.1) (by rw [← (iha hreg.1).1]; exact hreg.2.2)
  | acos a iha => exact (iha hreg.1).acos (by rw [← (iha hreg.1).1]; exact hreg.2.1) (by rw [← (iha hreg.1).1]; exact hreg.2.2)
  | sinxOverX a iha => exact (iha hreg.1).sinxOverX (by rw [← (iha hreg.1).1]; exact hreg.2)

/-- **C30** (`_partial`: away from the small-angle branch of sinx_over_x()): every expression carries its value and exactly its partial derivatives -/
theorem autodiff_sound_partial (e : Expr N) (p : Fin N → ℝ) (hreg : e.Regular p) :
    (e.evalV p).x = e.meaning p ∧
    ∀ i, HasDerivAt (fun s => e.meaning (Function.update p i s)) ((e.evalV p).j i) (p i) := by
  have key : ∀ i, Tracks (e.evalV p) (fun k => if k = i then 1 else 0) (fun s => e.meaning (Function.update p i s)) (p i) := by
    intro i
    have h := autodiff_tracks e (fun s => Function.update p i s) (fun k => if k = i then 1 else 0) (p i) (by
      intro k
      by_cases hk : k = i
      · subst hk
        simp only [Function.update_self, if_true]
        exact hasDerivAt_id' _
      · simp only [Function.update_of_ne hk, if_neg hk]
        exact hasDerivAt_const _ _) (by rw [Function.update_eq_self]; exact hreg)
    simp only [Function.update_eq_self] at h
    exact h
  constructor
  · have h := autodiff_tracks e (fun _ => p) (fun _ => 0) 0 (fun i => hasDerivAt_const _ _) hreg
    exact h.1.symm
  · intro i
    have h := (key i).2
    have e2 : (e.evalV p).rate (fun k => if k = i then 1 else 0) = (e.evalV p).j i := by
      simp [Val.rate]
    rw [e2] at h
    exact h

/-- a nontrivial expression: atan2( sqrt(x^2+y^2), tan(x)/y ) at (1,2) -/
example : Expr.Regular (N := 2) ![1, 2] (.atan2 (.sqrt (.add (.square (.var 0)) (.mul (.var 1) (.var 1)))) (.div (.sin (.var 0)) (.var 1))) := by
  simp [Expr.Regular, Expr.meaning]
  norm_num

/-- **C30, the deviation**: in the small-angle branch sinx_over_x() reports a value that isn't sin(x)/x -/
theorem sinxOverX_inexact (a : Val N) (h0 : a.x ≠ 0) (h : |a.x| < 1e-5) : (a.sinxOverX a.sin).x ≠ Real.sin a.x / a.x := by
  unfold Val.sinxOverX
  rw [if_pos h]
  simp only [Val.ofR]
  intro he
  rw [eq_div_iff h0, one_mul] at he
  rcases lt_or_gt_of_ne h0 with hn | hp
  · have := Real.sin_lt (x := -a.x) (by linarith)
    rw [Real.sin_neg] at this
    linarith
  · have := Real.sin_lt hp
    linarith

example : |(1e-6 : ℝ)| < 1e-5 ∧ (1e-6 : ℝ) ≠ 0 := by norm_num [abs_of_pos]

/-- how far off it is, at most: the value by x^2/6, the derivative by |x|/2 -/
theorem sinxOverX_bound (x : ℝ) (h0 : x ≠ 0) :
    |1 - Real.sin x / x| ≤ x ^ 2 / 6 ∧
    HasDerivAt (fun s => Real.sin s / s) ((x * Real.cos x - Real.sin x) / (x * x)) x ∧
    |(x * Real.cos x - Real.sin x) / (x * x)| ≤ |x| / 2 := by
  have pos : ∀ x : ℝ, 0 < x → |1 - Real.sin x / x| ≤ x ^ 2 / 6 ∧ |(x * Real.cos x - Real.sin x) / (x * x)| ≤ x / 2 := by
    intro x hp
    have s1 := Real.sin_lt hp
    have s2 := Real.sin_gt_sub_cube hp
    have c1 := Real.cos_le_one x
    have c2 := Real.one_sub_sq_div_two_le_cos (x := x)
    constructor
    · rw [abs_le]
      constructor
      · have : Real.sin x / x ≤ 1 := by rw [div_le_one hp]; exact s1.le
        nlinarith [sq_nonneg x]
      · have : 1 - x ^ 2 / 6 ≤ Real.sin x / x := by
          rw [le_div_iff₀ hp]; nlinarith
        linarith
    · rw [abs_div, abs_of_pos (mul_pos hp hp), div_le_iff₀ (mul_pos hp hp), abs_le]
      constructor <;> nlinarith [sq_nonneg x, mul_pos hp hp, mul_pos (mul_pos hp hp) hp]
  have hd : HasDerivAt (fun s => Real.sin s / s) ((x * Real.cos x - Real.sin x) / (x * x)) x := by
    have hs := (Real.hasDerivAt_sin x).div (hasDerivAt_id' x) h0
    exact HasDerivAt.congr_deriv hs (by ring)
  rcases lt_or_gt_of_ne h0 with hn | hp
  · have hp' : 0 < -x := by linarith
    obtain ⟨p1, p2⟩ := pos (-x) hp'
    rw [Real.sin_neg, neg_div_neg_eq, neg_sq] at p1
    refine ⟨p1, hd, ?_⟩
    rw [Real.sin_neg, Real.cos_neg] at p2
    rw [abs_of_neg hn]
    have e : (-x * Real.cos x - -Real.sin x) / (-x * -x) = -((x * Real.cos x - Real.sin x) / (x * x)) := by
      rw [neg_mul_neg]; ring
    rw [e, abs_neg] at p2
    exact p2
  · rw [abs_of_pos hp]
    exact ⟨(pos x hp).1, hd, (pos x hp).2⟩

end Mrcal.AD
