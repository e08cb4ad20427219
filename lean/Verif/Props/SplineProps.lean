import Verif.Model.Splines
import Mathlib.Analysis.Calculus.Deriv.Add
import Mathlib.Analysis.Calculus.Deriv.Pow
import Mathlib.Analysis.Calculus.Deriv.Mul
import Mathlib.Analysis.Calculus.Deriv.Inv
import Mathlib.Analysis.Calculus.Deriv.Prod
import Mathlib.Analysis.Calculus.Deriv.Comp
import Mathlib.Analysis.Calculus.ContDiff.Basic
import Mathlib.Analysis.Calculus.ContDiff.Operations
import Mathlib.Analysis.Calculus.IteratedDeriv.Defs
import Mathlib.Analysis.SpecialFunctions.Sqrt
import Mathlib.Tactic.Linarith
import Mathlib.Tactic.Ring
import Mathlib.Tactic.FieldSimp
import Mathlib.Tactic.LinearCombination
import Mathlib.Tactic.Positivity
/-
C16, C17: the B-spline surfaces.
-/
namespace Mrcal.Spline
open Set

/-! ### C16: the weights -/

/-- **C16**: the cubic weights add up to 1 … -/
theorem cubic_sum (x : ℝ) : (cubicW x).a + (cubicW x).b + (cubicW x).c + (cubicW x).d = 1 := by
  simp only [cubicW]; ring

/-- **C16**: … and are nonnegative inside the segment -/
theorem cubic_nonneg (x : ℝ) (h0 : 0 ≤ x) (h1 : x ≤ 1) :
    0 ≤ (cubicW x).a ∧ 0 ≤ (cubicW x).b ∧ 0 ≤ (cubicW x).c ∧ 0 ≤ (cubicW x).d := by
  simp only [cubicW]
  have hy : 0 ≤ 1 - x := by linarith
  refine ⟨?_, ?_, ?_, ?_⟩
  · have : -(x * x * x) + 3 * (x * x) - 3 * x + 1 = (1 - x) ^ 3 := by ring
    rw [this]; positivity
  · have h2 : 0 ≤ x * x := mul_nonneg h0 h0
    have h3 : x * x ≤ 1 := by nlinarith
    nlinarith [mul_nonneg h2 h0]
  · have : -3 * (x * x * x) + 3 * (x * x) + 3 * x + 1 = 3 * (x * x) * (1 - x) + 3 * x + 1 := by ring
    rw [this]; positivity
  · positivity

/-- **C16**: the quadratic weights add up to 1 … -/
theorem quad_sum (x : ℝ) : (quadW x).a + (quadW x).b + (quadW x).c = 1 := by
  simp only [quadW]; ring

/-- **C16**: … and are nonnegative inside the segment -/
theorem quad_nonneg (x : ℝ) (h0 : -1 / 2 ≤ x) (h1 : x ≤ 1 / 2) :
    0 ≤ (quadW x).a ∧ 0 ≤ (quadW x).b ∧ 0 ≤ (quadW x).c := by
  simp only [quadW]
  refine ⟨?_, ?_, ?_⟩
  · nlinarith [sq_nonneg (2 * x - 1)]
  · nlinarith
  · nlinarith [sq_nonneg (2 * x + 1)]

example : (0 : ℝ) ≤ 1 / 3 ∧ (1 / 3 : ℝ) ≤ 1 ∧ (-1 / 2 : ℝ) ≤ 1 / 3 ∧ (1 / 3 : ℝ) ≤ 1 / 2 := by norm_num

/-! ### helpers: piecewise polynomials as sums of truncated powers -/

theorem hasDerivAt_posPow (n : ℕ) (t : ℝ) :
    HasDerivAt (fun t : ℝ => max t 0 ^ (n + 2)) (((n + 2 : ℕ) : ℝ) * max t 0 ^ (n + 1)) t := by
  have hl : ∀ s : ℝ, s ≤ 0 → max s 0 ^ (n + 2) = 0 := by
    intro s hs; rw [max_eq_right hs, zero_pow (by omega)]
  have hr : ∀ s : ℝ, 0 ≤ s → max s 0 ^ (n + 2) = s ^ (n + 2) := by
    intro s hs; rw [max_eq_left hs]
  rcases lt_trichotomy t 0 with h | h | h
  · have e : (fun t : ℝ => max t 0 ^ (n + 2)) =ᶠ[nhds t] fun _ => 0 :=
      (eventually_lt_nhds h).mono fun s hs => hl s hs.le
    have := (hasDerivAt_const t (0 : ℝ)).congr_of_eventuallyEq e
    rw [max_eq_right h.le, zero_pow (by omega), mul_zero]
    exact this
  · subst h
    have hp := hasDerivAt_pow (n + 2) (0 : ℝ)
    have h1 : HasDerivWithinAt (fun t : ℝ => max t 0 ^ (n + 2)) 0 (Iic 0) 0 :=
      (hasDerivWithinAt_const (0 : ℝ) (Iic 0) (0 : ℝ)).congr (fun s hs => hl s hs) (hl 0 le_rfl)
    have h2 : HasDerivWithinAt (fun t : ℝ => max t 0 ^ (n + 2)) 0 (Ici 0) 0 := by
      have := hp.hasDerivWithinAt (s := Ici 0)
      have e0 : (((n + 2 : ℕ) : ℝ) * 0 ^ (n + 2 - 1)) = 0 := by
        rw [zero_pow (by omega), mul_zero]
      rw [e0] at this
      exact this.congr (fun s hs => hr s hs) (hr 0 le_rfl)
    have h3 := h1.union h2
    rw [Iic_union_Ici, hasDerivWithinAt_univ] at h3
    have e1 : (((n + 2 : ℕ) : ℝ) * max 0 0 ^ (n + 1)) = 0 := by
      rw [max_self, zero_pow (by omega), mul_zero]
    rw [e1]
    exact h3
  · have e : (fun t : ℝ => max t 0 ^ (n + 2)) =ᶠ[nhds t] fun t => t ^ (n + 2) :=
      (eventually_gt_nhds h).mono fun s hs => hr s hs.le
    have := (hasDerivAt_pow (n + 2) t).congr_of_eventuallyEq e
    rw [max_eq_left h.le]
    exact this

theorem contDiff_posPow (n : ℕ) : ContDiff ℝ n (fun t : ℝ => max t 0 ^ (n + 1)) := by
  induction n with
  | zero =>
    rw [Nat.cast_zero, contDiff_zero]
    fun_prop
  | succ n ih =>
    have hd : deriv (fun t : ℝ => max t 0 ^ (n + 2)) = fun t => ((n + 2 : ℕ) : ℝ) * max t 0 ^ (n + 1) :=
      funext fun t => (hasDerivAt_posPow n t).deriv
    have : (((n + 1 : ℕ) : ℕ∞) : WithTop ℕ∞) = ((n : ℕ∞) : WithTop ℕ∞) + 1 := by norm_cast
    show ContDiff ℝ (((n + 1 : ℕ) : ℕ∞) : WithTop ℕ∞) _
    rw [this, contDiff_succ_iff_deriv]
    refine ⟨fun t => (hasDerivAt_posPow n t).differentiableAt, by simp, ?_⟩
    rw [hd]
    exact contDiff_const.mul ih

/-- `w` is the segment that's used at `t`: the one containing `t`, or the first/last one. The breakpoint between
the segments `i` and `i+1` is at `i+β`. -/
structure Win (lo hi : Int) (β t : ℝ) (w : Int) : Prop where
  lo_le : lo ≤ w
  le_hi : w ≤ hi
  left : lo < w → (w : ℝ) - 1 + β ≤ t
  right : w < hi → t < (w : ℝ) + β

theorem truncated_aux (P : Int → ℝ → ℝ) (D : Int → ℝ) (β : ℝ) (n : ℕ)
    (hP : ∀ i t, P (i + 1) t - P i t = D i * (t - (i + β)) ^ n) (lo : Int) (t : ℝ) (m : ℕ) :
    P (lo + m) t = P lo t + ∑ j ∈ Finset.range m, D (lo + j) * (t - (((lo + j : Int) : ℝ) + β)) ^ n := by
  induction m with
  | zero => simp
  | succ m ih =>
    rw [Finset.sum_range_succ, ← add_assoc, ← ih]
    have := hP (lo + m) t
    have e : lo + ((m + 1 : ℕ) : Int) = lo + m + 1 := by push_cast; ring
    rw [e]
    push_cast at this ⊢
    linarith

theorem truncated (P : Int → ℝ → ℝ) (D : Int → ℝ) (β : ℝ) (n : ℕ) (hn : n ≠ 0)
    (hP : ∀ i t, P (i + 1) t - P i t = D i * (t - (i + β)) ^ n) (lo hi : Int) (t : ℝ) (w : Int)
    (hw : Win lo hi β t w) :
    P w t = P lo t + ∑ j ∈ Finset.range (hi - lo).toNat, D (lo + j) * max (t - (((lo + j : Int) : ℝ) + β)) 0 ^ n := by
  have h1 := hw.lo_le
  have h2 := hw.le_hi
  have e := truncated_aux P D β n hP lo t (w - lo).toNat
  have e1 : lo + (((w - lo).toNat : ℕ) : Int) = w := by omega
  rw [e1] at e
  rw [e]
  congr 1
  have hle : (w - lo).toNat ≤ (hi - lo).toNat := by omega
  rw [← Finset.sum_subset (Finset.range_subset_range.mpr hle)]
  · apply Finset.sum_congr rfl
    intro j hj
    rw [Finset.mem_range] at hj
    have h3 := hw.left (by omega)
    have h4 : ((lo + j : Int) : ℝ) ≤ (w : ℝ) - 1 := by
      have : lo + j ≤ w - 1 := by omega
      exact_mod_cast this
    rw [max_eq_left (by linarith)]
  · intro j hj hj2
    rw [Finset.mem_range] at hj hj2
    have h3 := hw.right (by omega)
    have h4 : (w : ℝ) ≤ ((lo + j : Int) : ℝ) := by
      have : w ≤ lo + j := by omega
      exact_mod_cast this
    rw [max_eq_right (by linarith), zero_pow hn, mul_zero]

/-- the derivative of a function with one piece per segment, at any point, boundaries included -/
theorem piecewise_hasDerivAt (P Q : Int → ℝ → ℝ) (D : Int → ℝ) (β : ℝ) (n : ℕ)
    (hP : ∀ i t, P (i + 1) t - P i t = D i * (t - (i + β)) ^ (n + 2))
    (hQ : ∀ i t, HasDerivAt (P i) (Q i t) t)
    (lo hi : Int) (w : ℝ → Int) (hw : ∀ t, Win lo hi β t (w t)) (t : ℝ) :
    HasDerivAt (fun t => P (w t) t) (Q (w t) t) t := by
  have hQ2 : ∀ i t, Q (i + 1) t - Q i t = (D i * ((n + 2 : ℕ) : ℝ)) * (t - (i + β)) ^ (n + 1) := by
    intro i t
    have a := (hQ (i + 1) t).sub (hQ i t)
    have b : HasDerivAt (fun t => D i * (t - (i + β)) ^ (n + 2)) (D i * (((n + 2 : ℕ) : ℝ) * (t - (i + β)) ^ (n + 1))) t := by
      have h1 : HasDerivAt (fun t : ℝ => t - (i + β)) 1 t := (hasDerivAt_id t).sub_const _
      have h2 := (h1.fun_pow (n + 2)).const_mul (D i)
      simpa using h2
    have e : (P (i + 1) - P i) = fun t => D i * (t - (i + β)) ^ (n + 2) := funext fun s => hP i s
    rw [e] at a
    rw [a.unique b]; ring
  have e : (fun t => P (w t) t) = fun t => P lo t +
      ∑ j ∈ Finset.range (hi - lo).toNat, D (lo + j) * max (t - (((lo + j : Int) : ℝ) + β)) 0 ^ (n + 2) :=
    funext fun s => truncated P D β (n + 2) (by omega) hP lo hi s (w s) (hw s)
  have e2 := truncated Q (fun i => D i * ((n + 2 : ℕ) : ℝ)) β (n + 1) (by omega) hQ2 lo hi t (w t) (hw t)
  rw [e, e2]
  apply (hQ lo t).add
  apply HasDerivAt.fun_sum
  intro j _
  have h1 : HasDerivAt (fun t : ℝ => t - (((lo + j : Int) : ℝ) + β)) 1 t := (hasDerivAt_id t).sub_const _
  have h2 := ((hasDerivAt_posPow n (t - (((lo + j : Int) : ℝ) + β))).comp t h1).const_mul (D (lo + j))
  rw [mul_one, ← mul_assoc] at h2
  exact h2

/-! ### one-dimensional splines -/

/-- the cubic polynomial of segment `i`, with control points `c` -/
noncomputable def seg3 (c : Int → ℝ) (i : Int) (t : ℝ) : ℝ :=
  (cubicW (t - i)).a * c (i - 1) + (cubicW (t - i)).b * c i + (cubicW (t - i)).c * c (i + 1) +
  (cubicW (t - i)).d * c (i + 2)
noncomputable def dseg3 (c : Int → ℝ) (i : Int) (t : ℝ) : ℝ :=
  (cubicG (t - i)).a * c (i - 1) + (cubicG (t - i)).b * c i + (cubicG (t - i)).c * c (i + 1) +
  (cubicG (t - i)).d * c (i + 2)
noncomputable def seg2 (c : Int → ℝ) (i : Int) (t : ℝ) : ℝ :=
  (quadW (t - i)).a * c (i - 1) + (quadW (t - i)).b * c i + (quadW (t - i)).c * c (i + 1)
noncomputable def dseg2 (c : Int → ℝ) (i : Int) (t : ℝ) : ℝ :=
  (quadG (t - i)).a * c (i - 1) + (quadG (t - i)).b * c i + (quadG (t - i)).c * c (i + 1)

def jump3 (c : Int → ℝ) (i : Int) : ℝ := c (i + 3) - 4 * c (i + 2) + 6 * c (i + 1) - 4 * c i + c (i - 1)
def jump2 (c : Int → ℝ) (i : Int) : ℝ := c (i + 2) - 3 * c (i + 1) + 3 * c i - c (i - 1)

theorem seg3_jump (c : Int → ℝ) (i : Int) (t : ℝ) :
    seg3 c (i + 1) t - seg3 c i t = jump3 c i / 6 * (t - (i + 1)) ^ (1 + 2) := by
  have e1 : i + 1 - 1 = i := by ring
  have e2 : i + 1 + 1 = i + 2 := by ring
  have e3 : i + 1 + 2 = i + 3 := by ring
  simp only [seg3, cubicW, jump3, e1, e2, e3]
  push_cast
  ring

theorem seg2_jump (c : Int → ℝ) (i : Int) (t : ℝ) :
    seg2 c (i + 1) t - seg2 c i t = jump2 c i / 2 * (t - (i + 1 / 2)) ^ (0 + 2) := by
  have e1 : i + 1 - 1 = i := by ring
  have e2 : i + 1 + 1 = i + 2 := by ring
  simp only [seg2, quadW, jump2, e1, e2]
  push_cast
  ring

theorem cubicW_deriv (i : Int) (t : ℝ) :
    HasDerivAt (fun t : ℝ => (cubicW (t - i)).a) (cubicG (t - i)).a t ∧
    HasDerivAt (fun t : ℝ => (cubicW (t - i)).b) (cubicG (t - i)).b t ∧
    HasDerivAt (fun t : ℝ => (cubicW (t - i)).c) (cubicG (t - i)).c t ∧
    HasDerivAt (fun t : ℝ => (cubicW (t - i)).d) (cubicG (t - i)).d t := by
  have h1 : HasDerivAt (fun t : ℝ => t - (i : ℝ)) 1 t := (hasDerivAt_id t).sub_const _
  have h2 : HasDerivAt (fun t : ℝ => (t - (i : ℝ)) * (t - i)) (2 * (t - i)) t := by
    exact (h1.mul h1).congr_deriv (by ring)
  have h3 : HasDerivAt (fun t : ℝ => (t - (i : ℝ)) * (t - i) * (t - i)) (3 * ((t - i) * (t - i))) t := by
    exact (h2.mul h1).congr_deriv (by ring)
  simp only [cubicW, cubicG]
  refine ⟨?_, ?_, ?_, ?_⟩
  · exact HasDerivAt.congr_deriv ((((h3.neg.add (h2.const_mul 3)).sub (h1.const_mul 3)).add_const 1).div_const 6) (by ring)
  · exact HasDerivAt.congr_deriv (((((h3.const_mul 3).div_const 2).sub (h2.const_mul 3)).add_const 2).div_const 3) (by ring)
  · exact HasDerivAt.congr_deriv (((((h3.const_mul (-3)).add (h2.const_mul 3)).add (h1.const_mul 3)).add_const 1).div_const 6) (by ring)
  · exact HasDerivAt.congr_deriv (h3.div_const 6) (by ring)

theorem quadW_deriv (i : Int) (t : ℝ) :
    HasDerivAt (fun t : ℝ => (quadW (t - i)).a) (quadG (t - i)).a t ∧
    HasDerivAt (fun t : ℝ => (quadW (t - i)).b) (quadG (t - i)).b t ∧
    HasDerivAt (fun t : ℝ => (quadW (t - i)).c) (quadG (t - i)).c t := by
  have h1 : HasDerivAt (fun t : ℝ => t - (i : ℝ)) 1 t := (hasDerivAt_id t).sub_const _
  have h2 : HasDerivAt (fun t : ℝ => (t - (i : ℝ)) * (t - i)) (2 * (t - i)) t := by
    exact (h1.mul h1).congr_deriv (by ring)
  simp only [quadW, quadG]
  refine ⟨?_, ?_, ?_⟩
  · exact HasDerivAt.congr_deriv ((((h2.const_mul 4).sub (h1.const_mul 4)).add_const 1).div_const 8) (by ring)
  · exact HasDerivAt.congr_deriv (((h2.const_mul 4).const_sub 3).div_const 4) (by ring)
  · exact HasDerivAt.congr_deriv ((((h2.const_mul 4).add (h1.const_mul 4)).add_const 1).div_const 8) (by ring)

theorem seg3_deriv (c : Int → ℝ) (i : Int) (t : ℝ) : HasDerivAt (seg3 c i) (dseg3 c i t) t := by
  obtain ⟨a, b, d, e⟩ := cubicW_deriv i t
  exact (((a.mul_const _).add (b.mul_const _)).add (d.mul_const _)).add (e.mul_const _)

theorem seg2_deriv (c : Int → ℝ) (i : Int) (t : ℝ) : HasDerivAt (seg2 c i) (dseg2 c i t) t := by
  obtain ⟨a, b, d⟩ := quadW_deriv i t
  exact ((a.mul_const _).add (b.mul_const _)).add (d.mul_const _)

theorem trunc_win (lo hi : Int) (β t : ℝ) (hlo : 1 ≤ lo) (hh : lo ≤ hi) :
    Win lo hi β t (clampI lo hi (truncC (t + (1 - β)))) := by
  set s := t + (1 - β) with hs
  have hfl : 0 ≤ s → ((truncC s : Int) : ℝ) ≤ s ∧ s < (truncC s : Int) + 1 := by
    intro h
    unfold truncC
    rw [if_pos h]
    exact ⟨Int.floor_le s, Int.lt_floor_add_one s⟩
  have hneg : s < 0 → truncC s ≤ 0 ∧ s < 0 := by
    intro h
    unfold truncC
    rw [if_neg (not_le.mpr h)]
    exact ⟨Int.ceil_le.mpr (by push_cast; exact h.le), h⟩
  constructor
  · unfold clampI; split
    · exact le_rfl
    · split <;> omega
  · unfold clampI; split
    · exact hh
    · split <;> omega
  · intro h
    rcases le_or_gt 0 s with hs0 | hs0
    · obtain ⟨f1, f2⟩ := hfl hs0
      have : clampI lo hi (truncC s) ≤ truncC s := by
        unfold clampI at h ⊢
        split at h
        · omega
        · rename_i h1
          rw [if_neg h1]
          split <;> omega
      have : ((clampI lo hi (truncC s) : Int) : ℝ) ≤ (truncC s : Int) := by exact_mod_cast this
      linarith
    · have := (hneg hs0).1
      unfold clampI at h
      rw [if_pos (by omega)] at h
      omega
  · intro h
    have hle : truncC s ≤ clampI lo hi (truncC s) := by
      unfold clampI at h ⊢
      split at h
      · rename_i h1
        rw [if_pos h1]; omega
      · rename_i h1
        rw [if_neg h1]
        split at h <;> omega
    have h1 : ((truncC s : Int) : ℝ) ≤ (clampI lo hi (truncC s) : Int) := by exact_mod_cast hle
    rcases le_or_gt 0 s with hs0 | hs0
    · have := (hfl hs0).2
      linarith
    · have h2 : lo ≤ clampI lo hi (truncC s) := by
        unfold clampI; split
        · exact le_rfl
        · split <;> omega
      have h3 : (1 : ℝ) ≤ (clampI lo hi (truncC s) : Int) := by exact_mod_cast (le_trans hlo h2)
      linarith

theorem cubic_win (N : Int) (hN : 4 ≤ N) (t : ℝ) : Win 1 (N - 3) 1 t (cubicWindow N (truncC t)) := by
  have := trunc_win 1 (N - 3) 1 t le_rfl (by omega)
  rw [sub_self, add_zero] at this
  exact this

theorem quad_win (N : Int) (hN : 3 ≤ N) (t : ℝ) : Win 1 (N - 2) (1 / 2) t (quadWindow N (truncC (t + 0.5))) := by
  have := trunc_win 1 (N - 2) (1 / 2) t le_rfl (by omega)
  have e : t + (1 - 1 / 2) = t + 0.5 := by norm_num
  rw [e] at this
  exact this

/-! ### the surfaces -/

/-- control point of surface `k` at (row, col) in the parameter vector -/
def ctl (Nx : Int) (intr : Int → ℝ) (k : Int) (row col : Int) : ℝ := intr (4 + 2 * (row * Nx + col) + k)

theorem cubic_out (Nx : Int) (intr : Int → ℝ) (k ix0 iy0 : Int) (x y : ℝ) :
    (sampleCubic (x - ix0) (y - iy0) (fun i => intr (ivar0 Nx ix0 iy0 + i)) (2 * Nx) k).out
      = seg3 (fun r => seg3 (ctl Nx intr k r) ix0 x) iy0 y := by
  have h : ∀ r c : Int, intr (ivar0 Nx ix0 iy0 + (r * (2 * Nx) + c * 2 + k)) = ctl Nx intr k (iy0 - 1 + r) (ix0 - 1 + c) := by
    intro r c
    unfold ctl ivar0
    congr 1; ring
  have e1 : iy0 - 1 + 0 = iy0 - 1 := by ring
  have e2 : iy0 - 1 + 1 = iy0 := by ring
  have e3 : iy0 - 1 + 2 = iy0 + 1 := by ring
  have e4 : iy0 - 1 + 3 = iy0 + 2 := by ring
  have f1 : ix0 - 1 + 0 = ix0 - 1 := by ring
  have f2 : ix0 - 1 + 1 = ix0 := by ring
  have f3 : ix0 - 1 + 2 = ix0 + 1 := by ring
  have f4 : ix0 - 1 + 3 = ix0 + 2 := by ring
  simp only [sampleCubic, interpCubic, h, seg3, e1, e2, e3, e4, f1, f2, f3, f4]

theorem cubic_dx (Nx : Int) (intr : Int → ℝ) (k ix0 iy0 : Int) (x y : ℝ) :
    (sampleCubic (x - ix0) (y - iy0) (fun i => intr (ivar0 Nx ix0 iy0 + i)) (2 * Nx) k).dx
      = seg3 (fun r => dseg3 (ctl Nx intr k r) ix0 x) iy0 y := by
  have h : ∀ r c : Int, intr (ivar0 Nx ix0 iy0 + (r * (2 * Nx) + c * 2 + k)) = ctl Nx intr k (iy0 - 1 + r) (ix0 - 1 + c) := by
    intro r c
    unfold ctl ivar0
    congr 1; ring
  have e1 : iy0 - 1 + 0 = iy0 - 1 := by ring
  have e2 : iy0 - 1 + 1 = iy0 := by ring
  have e3 : iy0 - 1 + 2 = iy0 + 1 := by ring
  have e4 : iy0 - 1 + 3 = iy0 + 2 := by ring
  have f1 : ix0 - 1 + 0 = ix0 - 1 := by ring
  have f2 : ix0 - 1 + 1 = ix0 := by ring
  have f3 : ix0 - 1 + 2 = ix0 + 1 := by ring
  have f4 : ix0 - 1 + 3 = ix0 + 2 := by ring
  simp only [sampleCubic, interpCubic, h, seg3, dseg3, e1, e2, e3, e4, f1, f2, f3, f4]

theorem cubic_dy (Nx : Int) (intr : Int → ℝ) (k ix0 iy0 : Int) (x y : ℝ) :
    (sampleCubic (x - ix0) (y - iy0) (fun i => intr (ivar0 Nx ix0 iy0 + i)) (2 * Nx) k).dy
      = dseg3 (fun r => seg3 (ctl Nx intr k r) ix0 x) iy0 y := by
  have h : ∀ r c : Int, intr (ivar0 Nx ix0 iy0 + (r * (2 * Nx) + c * 2 + k)) = ctl Nx intr k (iy0 - 1 + r) (ix0 - 1 + c) := by
    intro r c
    unfold ctl ivar0
    congr 1; ring
  have e1 : iy0 - 1 + 0 = iy0 - 1 := by ring
  have e2 : iy0 - 1 + 1 = iy0 := by ring
  have e3 : iy0 - 1 + 2 = iy0 + 1 := by ring
  have e4 : iy0 - 1 + 3 = iy0 + 2 := by ring
  have f1 : ix0 - 1 + 0 = ix0 - 1 := by ring
  have f2 : ix0 - 1 + 1 = ix0 := by ring
  have f3 : ix0 - 1 + 2 = ix0 + 1 := by ring
  have f4 : ix0 - 1 + 3 = ix0 + 2 := by ring
  simp only [sampleCubic, interpCubic, h, seg3, dseg3, e1, e2, e3, e4, f1, f2, f3, f4]

theorem quad_eqs (Nx : Int) (intr : Int → ℝ) (k ix0 iy0 : Int) (x y : ℝ) :
    let s := sampleQuad (x - ix0) (y - iy0) (fun i => intr (ivar0 Nx ix0 iy0 + i)) (2 * Nx) k
    s.out = seg2 (fun r => seg2 (ctl Nx intr k r) ix0 x) iy0 y ∧
    s.dx = seg2 (fun r => dseg2 (ctl Nx intr k r) ix0 x) iy0 y ∧
    s.dy = dseg2 (fun r => seg2 (ctl Nx intr k r) ix0 x) iy0 y := by
  have h : ∀ r c : Int, intr (ivar0 Nx ix0 iy0 + (r * (2 * Nx) + c * 2 + k)) = ctl Nx intr k (iy0 - 1 + r) (ix0 - 1 + c) := by
    intro r c
    unfold ctl ivar0
    congr 1; ring
  have e1 : iy0 - 1 + 0 = iy0 - 1 := by ring
  have e2 : iy0 - 1 + 1 = iy0 := by ring
  have e3 : iy0 - 1 + 2 = iy0 + 1 := by ring
  have f1 : ix0 - 1 + 0 = ix0 - 1 := by ring
  have f2 : ix0 - 1 + 1 = ix0 := by ring
  have f3 : ix0 - 1 + 2 = ix0 + 1 := by ring
  simp only [sampleQuad, interpQuad, h, seg2, dseg2, e1, e2, e3, f1, f2, f3, and_self]

/-- the configurations the library accepts: mrcal.c:1921-1947 asserts this -/
def Accepted (order Nx Ny : Nat) : Prop := (order = 2 ∧ 3 ≤ Nx ∧ 3 ≤ Ny) ∨ (order = 3 ∧ 4 ≤ Nx ∧ 4 ≤ Ny)

/-- value and derivatives of the surface, for accepted configurations -/
noncomputable def surf (order Nx Ny : Nat) (intr : Int → ℝ) (k : Int) (x y : ℝ) : Sample :=
  (sampleSurface order Nx Ny intr x y k).getD ⟨0, 0, 0⟩

theorem sampleSurface_some (order Nx Ny : Nat) (intr : Int → ℝ) (k : Int) (h : Accepted order Nx Ny) (x y : ℝ) :
    sampleSurface order Nx Ny intr x y k = some (surf order Nx Ny intr k x y) := by
  unfold surf
  rcases h with ⟨rfl, _, _⟩ | ⟨rfl, _, _⟩ <;> rfl

theorem surf3 (Nx Ny : Nat) (intr : Int → ℝ) (k : Int) (x y : ℝ) :
    surf 3 Nx Ny intr k x y = sampleCubic (x - cubicWindow Nx (truncC x)) (y - cubicWindow Ny (truncC y))
      (fun i => intr (ivar0 Nx (cubicWindow Nx (truncC x)) (cubicWindow Ny (truncC y)) + i)) (2 * Nx) k := rfl
theorem surf2 (Nx Ny : Nat) (intr : Int → ℝ) (k : Int) (x y : ℝ) :
    surf 2 Nx Ny intr k x y = sampleQuad (x - quadWindow Nx (truncC (x + 0.5))) (y - quadWindow Ny (truncC (y + 0.5)))
      (fun i => intr (ivar0 Nx (quadWindow Nx (truncC (x + 0.5))) (quadWindow Ny (truncC (y + 0.5))) + i)) (2 * Nx) k := rfl

/-- **C16**: the derivatives the sampler computes are the derivatives of the surface it samples, everywhere: inside
the segments, on their boundaries and in the extrapolated region. -/
theorem surface_partial_x (order Nx Ny : Nat) (intr : Int → ℝ) (k : Int) (h : Accepted order Nx Ny) (x y : ℝ) :
    HasDerivAt (fun x => (surf order Nx Ny intr k x y).out) (surf order Nx Ny intr k x y).dx x := by
  rcases h with ⟨rfl, hx, hy⟩ | ⟨rfl, hx, hy⟩
  · simp only [surf2, (quad_eqs _ _ _ _ _ _ _).1, (quad_eqs _ _ _ _ _ _ _).2.1]
    have hd : ∀ r, HasDerivAt (fun x => seg2 (ctl Nx intr k r) (quadWindow Nx (truncC (x + 0.5))) x)
        (dseg2 (ctl Nx intr k r) (quadWindow Nx (truncC (x + 0.5))) x) x := fun r =>
      piecewise_hasDerivAt (seg2 (ctl Nx intr k r)) (dseg2 (ctl Nx intr k r)) (fun i => jump2 (ctl Nx intr k r) i / 2)
        (1 / 2) 0 (seg2_jump _) (seg2_deriv _) 1 (Nx - 2) _ (fun t => quad_win Nx (by omega) t) x
    unfold seg2 at hd ⊢
    exact (((hd _).const_mul _).add ((hd _).const_mul _)).add ((hd _).const_mul _)
  · simp only [surf3, cubic_out, cubic_dx]
    have hd : ∀ r, HasDerivAt (fun x => seg3 (ctl Nx intr k r) (cubicWindow Nx (truncC x)) x)
        (dseg3 (ctl Nx intr k r) (cubicWindow Nx (truncC x)) x) x := fun r =>
      piecewise_hasDerivAt (seg3 (ctl Nx intr k r)) (dseg3 (ctl Nx intr k r)) (fun i => jump3 (ctl Nx intr k r) i / 6)
        1 1 (seg3_jump _) (seg3_deriv _) 1 (Nx - 3) _ (fun t => cubic_win Nx (by omega) t) x
    unfold seg3 at hd ⊢
    exact ((((hd _).const_mul _).add ((hd _).const_mul _)).add ((hd _).const_mul _)).add ((hd _).const_mul _)

theorem surface_partial_y (order Nx Ny : Nat) (intr : Int → ℝ) (k : Int) (h : Accepted order Nx Ny) (x y : ℝ) :
    HasDerivAt (fun y => (surf order Nx Ny intr k x y).out) (surf order Nx Ny intr k x y).dy y := by
  rcases h with ⟨rfl, hx, hy⟩ | ⟨rfl, hx, hy⟩
  · simp only [surf2, (quad_eqs _ _ _ _ _ _ _).1, (quad_eqs _ _ _ _ _ _ _).2.2]
    exact piecewise_hasDerivAt (seg2 _) (dseg2 _) (fun i => jump2 _ i / 2)
        (1 / 2) 0 (seg2_jump _) (seg2_deriv _) 1 (Ny - 2) _ (fun t => quad_win Ny (by omega) t) y
  · simp only [surf3, cubic_out, cubic_dy]
    exact piecewise_hasDerivAt (seg3 _) (dseg3 _) (fun i => jump3 _ i / 6)
        1 1 (seg3_jump _) (seg3_deriv _) 1 (Ny - 3) _ (fun t => cubic_win Ny (by omega) t) y

/-- **C16**: constant control points give a constant surface, even outside of the spline's domain. -/
theorem surface_constant (order Nx Ny : Nat) (intr : Int → ℝ) (k : Int) (h : Accepted order Nx Ny) (v : ℝ)
    (hv : ∀ i, intr (4 + 2 * i + k) = v) (x y : ℝ) : (surf order Nx Ny intr k x y).out = v := by
  have hc : ∀ r, ctl Nx intr k r = fun _ => v := fun r => funext fun c => hv _
  rcases h with ⟨rfl, hx, hy⟩ | ⟨rfl, hx, hy⟩
  · rw [surf2, (quad_eqs _ _ _ _ _ _ _).1]
    simp only [hc, seg2, quadW]
    ring
  · rw [surf3, cubic_out]
    simp only [hc, seg3, cubicW]
    ring

example : Accepted 3 30 18 ∧ Accepted 2 3 3 := by unfold Accepted; omega

/-! ### C17: smoothness -/

theorem seg_contDiff {E : Type*} [NormedAddCommGroup E] [NormedSpace ℝ E] (n : ℕ) (P : (Int → ℝ) → Int → ℝ → ℝ)
    (D : (Int → ℝ) → Int → ℝ) (β : ℝ) (hP : ∀ c i t, P c (i + 1) t - P c i t = D c i * (t - (i + β)) ^ (n + 1))
    (lo hi : Int) (w : ℝ → Int) (hw : ∀ t, Win lo hi β t (w t))
    (c : E → Int → ℝ) (y : E → ℝ)
    (hlo : ContDiff ℝ n (fun e => P (c e) lo (y e))) (hD : ∀ i, ContDiff ℝ n (fun e => D (c e) i))
    (hy : ContDiff ℝ n y) : ContDiff ℝ n (fun e => P (c e) (w (y e)) (y e)) := by
  have e : (fun e => P (c e) (w (y e)) (y e)) = fun e => P (c e) lo (y e) +
      ∑ j ∈ Finset.range (hi - lo).toNat, D (c e) (lo + j) * max (y e - (((lo + j : Int) : ℝ) + β)) 0 ^ (n + 1) :=
    funext fun e => truncated (P (c e)) (D (c e)) β (n + 1) (by omega) (hP (c e)) lo hi (y e) (w (y e)) (hw (y e))
  rw [e]
  apply hlo.add
  apply ContDiff.sum
  intro j _
  apply (hD _).mul
  exact (contDiff_posPow n).comp (hy.sub contDiff_const)

/-- **C17**: the cubic surface is twice continuously differentiable everywhere: across the segment boundaries, and
when leaving the spline's domain. -/
theorem cubic_surface_C2 (Nx Ny : Nat) (intr : Int → ℝ) (k : Int) (hx : 4 ≤ Nx) (hy : 4 ≤ Ny) :
    ContDiff ℝ 2 (fun p : ℝ × ℝ => (surf 3 Nx Ny intr k p.1 p.2).out) := by
  simp only [surf3, cubic_out]
  have hrow : ∀ r, ContDiff ℝ 2 (fun p : ℝ × ℝ => seg3 (ctl Nx intr k r) (cubicWindow Nx (truncC p.1)) p.1) := by
    intro r
    exact seg_contDiff (E := ℝ × ℝ) 2 seg3 (fun c i => jump3 c i / 6) 1 (fun c i t => seg3_jump c i t) 1 (Nx - 3)
      (fun t => cubicWindow Nx (truncC t))
      (fun t => cubic_win Nx (by omega) t) (fun _ => ctl Nx intr k r) (fun p => p.1)
      (by simp only [seg3, cubicW]; fun_prop) (fun i => contDiff_const) contDiff_fst
  apply seg_contDiff (E := ℝ × ℝ) 2 seg3 (fun c i => jump3 c i / 6) 1 (fun c i t => seg3_jump c i t) 1 (Ny - 3)
    (fun t => cubicWindow Ny (truncC t))
    (fun t => cubic_win Ny (by omega) t)
    (fun p r => seg3 (ctl Nx intr k r) (cubicWindow Nx (truncC p.1)) p.1) (fun p => p.2)
  ·
    have h1 := hrow (1 - 1)
    have h2 := hrow 1
    have h3 := hrow (1 + 1)
    have h4 := hrow (1 + 2)
    have w : ContDiff ℝ 2 (fun p : ℝ × ℝ => p.2) := contDiff_snd
    conv in seg3 _ 1 _ => unfold seg3
    refine (((ContDiff.mul ?_ h1).add (ContDiff.mul ?_ h2)).add (ContDiff.mul ?_ h3)).add (ContDiff.mul ?_ h4)
    all_goals (simp only [cubicW]; fun_prop)
  · intro i
    unfold jump3
    exact (((((hrow _).sub (contDiff_const.mul (hrow _))).add (contDiff_const.mul (hrow _))).sub
      (contDiff_const.mul (hrow _))).add (hrow _)).div_const _
  · exact contDiff_snd

/-- **C17**: the quadratic surface is continuously differentiable everywhere. -/
theorem quad_surface_C1 (Nx Ny : Nat) (intr : Int → ℝ) (k : Int) (hx : 3 ≤ Nx) (hy : 3 ≤ Ny) :
    ContDiff ℝ 1 (fun p : ℝ × ℝ => (surf 2 Nx Ny intr k p.1 p.2).out) := by
  simp only [surf2, (quad_eqs _ _ _ _ _ _ _).1]
  have hrow : ∀ r, ContDiff ℝ 1 (fun p : ℝ × ℝ => seg2 (ctl Nx intr k r) (quadWindow Nx (truncC (p.1 + 0.5))) p.1) := by
    intro r
    exact seg_contDiff (E := ℝ × ℝ) 1 seg2 (fun c i => jump2 c i / 2) (1 / 2) (fun c i t => seg2_jump c i t) 1 (Nx - 2)
      (fun t => quadWindow Nx (truncC (t + 0.5)))
      (fun t => quad_win Nx (by omega) t) (fun _ => ctl Nx intr k r) (fun p => p.1)
      (by simp only [seg2, quadW]; fun_prop) (fun i => contDiff_const) contDiff_fst
  apply seg_contDiff (E := ℝ × ℝ) 1 seg2 (fun c i => jump2 c i / 2) (1 / 2) (fun c i t => seg2_jump c i t) 1 (Ny - 2)
    (fun t => quadWindow Ny (truncC (t + 0.5)))
    (fun t => quad_win Ny (by omega) t)
    (fun p r => seg2 (ctl Nx intr k r) (quadWindow Nx (truncC (p.1 + 0.5))) p.1) (fun p => p.2)
  · have h1 := hrow (1 - 1)
    have h2 := hrow 1
    have h3 := hrow (1 + 1)
    conv in seg2 _ 1 _ => unfold seg2
    refine ((ContDiff.mul ?_ h1).add (ContDiff.mul ?_ h2)).add (ContDiff.mul ?_ h3)
    all_goals (simp only [quadW]; fun_prop)
  · intro i
    unfold jump2
    exact ((((hrow _).sub (contDiff_const.mul (hrow _))).add (contDiff_const.mul (hrow _))).sub (hrow _)).div_const _
  · exact contDiff_snd

example : (4 : Nat) ≤ 30 ∧ (4 : Nat) ≤ 18 := by decide

end Mrcal.Spline
