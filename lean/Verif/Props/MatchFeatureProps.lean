import Verif.Model.MatchFeature
import Verif.Props.ImageTransformProps
import Mathlib.Algebra.Order.Floor.Ring
import Mathlib.Tactic.IntervalCases
/-
C110: match_feature()
-/
namespace Mrcal.MatchFeature
open Mrcal.Cam Mrcal.Pose Mrcal.ImageTransform

/-! ### specification -/

/-- the comparison of the template with the part of image1 whose top-left pixel is (X,Y) -/
noncomputable def scoreAt (env : Env) (image1 : Image) (m : Method) (w h : Nat) (T : Nat → Nat → ℝ) (X Y : Int) : ℝ :=
  env.score m w h T fun i j => image1.px (X + i) (Y + j)

/-- lower is better for these -/
def lowerIsBetter : Method → Prop
  | .sqdiff | .sqdiff_normed => True
  | _ => False

/-- a is better than b -/
def Better (m : Method) (a b : ℝ) : Prop := (lowerIsBetter m ∧ a < b) ∨ (¬ lowerIsBetter m ∧ b < a)

/-- where the template is to be looked for: inside the image, and off the initial place by up to the radius -/
def Searched (image1 : Image) (w h : Nat) (r x0 y0 X Y : Int) : Prop :=
  (|X - x0| ≤ r ∧ 0 ≤ X ∧ X + w ≤ image1.W) ∧ |Y - y0| ≤ r ∧ 0 ≤ Y ∧ Y + h ≤ image1.H

/-- the quadratic surface -/
def surface (c : Coefs) (x y : ℝ) : ℝ := c.c00 + c.c10 * x + c.c01 * y + c.c20 * x * x + c.c11 * x * y + c.c02 * y * y

/-- how well it fits 3x3 values -/
noncomputable def misfit (c : Coefs) (z : Int → Int → ℝ) : ℝ :=
  (surface c (-1) (-1) - z (-1) (-1)) ^ 2 + (surface c 0 (-1) - z 0 (-1)) ^ 2 + (surface c 1 (-1) - z 1 (-1)) ^ 2 +
  (surface c (-1) 0 - z (-1) 0) ^ 2 + (surface c 0 0 - z 0 0) ^ 2 + (surface c 1 0 - z 1 0) ^ 2 +
  (surface c (-1) 1 - z (-1) 1) ^ 2 + (surface c 0 1 - z 0 1) ^ 2 + (surface c 1 1 - z 1 1) ^ 2

/-- the best surface -/
def BestFit (c : Coefs) (z : Int → Int → ℝ) : Prop := ∀ c', misfit c z ≤ misfit c' z

/-- the contract of np.linalg.lstsq() -/
def LstsqOk (env : Env) : Prop := ∀ z c, env.lstsq z = some c → BestFit c fun x y => z (3 * (y + 1) + (x + 1)).toNat

/-- the surface is flat there -/
def Stationary (c : Coefs) (x y : ℝ) : Prop := c.c10 + 2 * c.c20 * x + c.c11 * y = 0 ∧ c.c01 + c.c11 * x + 2 * c.c02 * y = 0

/-- What a match means: the template fits best with its top-left pixel at (X,Y), and (dx,dy) is the stationary point of the quadratic surface that fits best the scores there and at the 8 places around that -/
def Matches (image1 : Image) (m : Method) (w h : Nat) (r x0 y0 : Int) (score : Int → Int → ℝ) (X Y : Int) (c : Coefs) (dx dy : ℝ) : Prop :=
  Searched image1 w h r x0 y0 (X - 1) (Y - 1) ∧ Searched image1 w h r x0 y0 (X + 1) (Y + 1) ∧
  (∀ X' Y', Searched image1 w h r x0 y0 X' Y' → ¬ Better m (score X' Y') (score X Y)) ∧
  BestFit c (fun i j => score (X + i) (Y + j)) ∧ Stationary c dx dy

/-! ### lemmas -/

theorem argmax_spec (f : Nat → ℝ) (n : Nat) : ∀ j, j < n → f j ≤ f (argmax f n) := by
  induction n with
  | zero => intro j hj; omega
  | succ n ih =>
    intro j hj
    unfold argmax
    split_ifs with h
    · rcases Nat.lt_succ_iff_lt_or_eq.mp hj with h1 | rfl
      · exact (ih j h1).trans h.le
      · exact le_rfl
    · rcases Nat.lt_succ_iff_lt_or_eq.mp hj with h1 | rfl
      · exact ih j h1
      · exact not_lt.mp h

theorem argmax_lt (f : Nat → ℝ) (n : Nat) (h : 0 < n) : argmax f n < n := by
  induction n with
  | zero => omega
  | succ n ih =>
    unfold argmax
    split_ifs
    · omega
    · rcases Nat.eq_zero_or_pos n with rfl | hn
      · simp [argmax]
      · have := ih hn; omega

theorem optimum_lt (m : Method) (f : Nat → ℝ) (n : Nat) (h : 0 < n) : optimum m f n < n := by
  unfold optimum
  cases m <;> exact argmax_lt _ _ h

theorem optimum_spec (m : Method) (f : Nat → ℝ) (n j : Nat) (h : j < n) : ¬ Better m (f j) (f (optimum m f n)) := by
  unfold optimum Better
  cases m <;> simp only [lowerIsBetter, true_and, not_true, not_false_eq_true, false_and, or_false, false_or, not_lt]
  · have := argmax_spec (fun i => -f i) n j h; simp only [neg_le_neg_iff] at this; exact this
  · have := argmax_spec (fun i => -f i) n j h; simp only [neg_le_neg_iff] at this; exact this
  · exact argmax_spec f n j h
  · exact argmax_spec f n j h
  · exact argmax_spec f n j h
  · exact argmax_spec f n j h

theorem unflat (mw mh : Int) (hw : 0 < mw) (hh : 0 < mh) (i : Nat) (hi : i < (mw * mh).toNat) : 0 ≤ (i : Int) % mw ∧ (i : Int) % mw < mw ∧ 0 ≤ (i : Int) / mw ∧ (i : Int) / mw < mh := by
  have hp : 0 ≤ mw * mh := by positivity
  have hi' : (i : Int) < mw * mh := by omega
  refine ⟨Int.emod_nonneg _ (by omega), Int.emod_lt_of_pos _ hw, Int.ediv_nonneg (by omega) hw.le, ?_⟩
  rw [Int.ediv_lt_iff_lt_mul hw, mul_comm]
  exact hi'

theorem flat (mw mh : Int) (x y : Int) (hx : 0 ≤ x) (hx' : x < mw) (hy : 0 ≤ y) (hy' : y < mh) : ∃ i : Nat, i < (mw * mh).toNat ∧ (i : Int) % mw = x ∧ (i : Int) / mw = y := by
  have hw : 0 < mw := by omega
  refine ⟨(y * mw + x).toNat, ?_, ?_, ?_⟩
  · have h1 : 0 ≤ y * mw + x := by positivity
    have h2 : y * mw + x < mw * mh := by nlinarith
    omega
  · have h1 : 0 ≤ y * mw + x := by positivity
    rw [Int.toNat_of_nonneg h1, Int.add_comm, Int.add_mul_emod_self_right, Int.emod_eq_of_lt hx hx']
  · have h1 : 0 ≤ y * mw + x := by positivity
    rw [Int.toNat_of_nonneg h1, Int.add_comm, Int.add_mul_ediv_right _ _ (by omega), Int.ediv_eq_zero_of_lt hx hx', zero_add]

/-- one dimension of the search -/
theorem searched_dim (W w : Nat) (r x0 X : Int) (hr : 0 ≤ r) (h0 : 0 ≤ x0) (h1 : x0 + w ≤ W) :
    (|X - x0| ≤ r ∧ 0 ≤ X ∧ X + w ≤ W) ↔ 0 ≤ X - max (x0 - r) 0 ∧ X - max (x0 - r) 0 < min (x0 + r + w - 1) ((W : Int) - 1) - max (x0 - r) 0 + 1 - w + 1 := by
  rw [abs_le]
  omega

/-- the search, given a template that's in bounds -/
theorem search_cases (env : Env) (image1 : Image) (m : Method) (w h : Nat) (hw : 0 < w) (hh : 0 < h) (r : Int) (hr : 0 ≤ r) (T : Nat → Nat → ℝ) (q : P2) (x0 y0 : Int)
    (hx0 : 0 ≤ x0) (hx1 : x0 + w ≤ image1.W) (hy0 : 0 ≤ y0) (hy1 : y0 + h ≤ image1.H) :
    ∃ X Y, Searched image1 w h r x0 y0 X Y ∧
      (∀ X' Y', Searched image1 w h r x0 y0 X' Y' → ¬ Better m (scoreAt env image1 m w h T X' Y') (scoreAt env image1 m w h T X Y)) ∧
      search env image1 m w h r T q x0 y0 =
        open Classical in
        if ¬ (Searched image1 w h r x0 y0 (X - 1) (Y - 1) ∧ Searched image1 w h r x0 y0 (X + 1) (Y + 1)) then .noMatch else
          match env.lstsq fun k => scoreAt env image1 m w h T (X - 1 + (k : Int) % 3) (Y - 1 + (k : Int) / 3) with
          | none => .noMatch
          | some c =>
            if 4 * c.c20 * c.c02 - c.c11 * c.c11 = 0 then .notFinite else
              let dx := -(2 * c.c10 * c.c02 - c.c01 * c.c11) / (4 * c.c20 * c.c02 - c.c11 * c.c11)
              let dy := -(2 * c.c01 * c.c20 - c.c10 * c.c11) / (4 * c.c20 * c.c02 - c.c11 * c.c11)
              let a : P2 := ⟨((X - max (x0 - r) 0 : Int) : ℝ) + dx, ((Y - max (y0 - r) 0 : Int) : ℝ) + dy⟩
              let s : P2 := ⟨((max (x0 - r) 0 : Int) : ℝ) + q.x - x0, ((max (y0 - r) 0 : Int) : ℝ) + q.y - y0⟩
              .found ⟨a.x + s.x, a.y + s.y⟩ a (c.c00 + c.c10 * dx + c.c01 * dy + c.c20 * dx * dx + c.c11 * dx * dy + c.c02 * dy * dy) s := by
  have S : ∀ X Y, Searched image1 w h r x0 y0 X Y ↔ _ := fun X Y => and_congr (searched_dim image1.W w r x0 X hr hx0 hx1) (searched_dim image1.H h r y0 Y hr hy0 hy1)
  unfold search
  dsimp only
  generalize hxm : max (x0 - r) 0 = xm at *
  generalize hym : max (y0 - r) 0 = ym at *
  generalize hmw : min (x0 + r + w - 1) ((image1.W : Int) - 1) - xm + 1 - w + 1 = mw at *
  generalize hmh : min (y0 + r + h - 1) ((image1.H : Int) - 1) - ym + 1 - h + 1 = mh at *
  have pw : 0 < mw := by omega
  have ph : 0 < mh := by omega
  rw [if_neg (by omega)]
  have pn : 0 < (mw * mh).toNat := by have := Int.mul_pos pw ph; omega
  generalize hi : optimum m (fun i => env.score m w h T fun i_1 j => image1.px (xm + (i : Int) % mw + ↑i_1) (ym + (i : Int) / mw + ↑j)) (mw * mh).toNat = i
  have ilt : i < (mw * mh).toNat := by rw [← hi]; exact optimum_lt _ _ _ pn
  obtain ⟨b1, b2, b3, b4⟩ := unflat mw mh pw ph i ilt
  refine ⟨xm + (i : Int) % mw, ym + (i : Int) / mw, ?_, fun X' Y' hs => ?_, ?_⟩
  · rw [S]; omega
  · rw [S] at hs
    obtain ⟨k, hk, e1, e2⟩ := flat mw mh (X' - xm) (Y' - ym) hs.1.1 hs.1.2 hs.2.1 hs.2.2
    have := optimum_spec m (fun i => env.score m w h T fun i_1 j => image1.px (xm + (i : Int) % mw + ↑i_1) (ym + (i : Int) / mw + ↑j)) _ k hk
    rw [hi] at this
    simp only [e1, e2] at this
    unfold scoreAt
    rwa [show xm + (X' - xm) = X' by ring, show ym + (Y' - ym) = Y' by ring] at this
  · have hiff : ((i : Int) % mw ≤ 0 ∨ (i : Int) / mw ≤ 0 ∨ (i : Int) % mw ≥ mw - 1 ∨ (i : Int) / mw ≥ mh - 1) ↔
        ¬ (Searched image1 w h r x0 y0 (xm + (i : Int) % mw - 1) (ym + (i : Int) / mw - 1) ∧ Searched image1 w h r x0 y0 (xm + (i : Int) % mw + 1) (ym + (i : Int) / mw + 1)) := by
      rw [S, S]; omega
    by_cases hb : ((i : Int) % mw ≤ 0 ∨ (i : Int) / mw ≤ 0 ∨ (i : Int) % mw ≥ mw - 1 ∨ (i : Int) / mw ≥ mh - 1)
    · rw [if_pos hb, if_pos (hiff.mp hb)]
    · rw [if_neg hb, if_neg (fun h => hb (hiff.mpr h))]
      unfold scoreAt
      have e : (fun k : Nat => env.score m w h T fun i_1 j => image1.px (xm + ((i : Int) % mw - 1 + (k : Int) % 3) + ↑i_1) (ym + ((i : Int) / mw - 1 + (k : Int) / 3) + ↑j)) =
          fun k : Nat => env.score m w h T fun i_1 j => image1.px (xm + (i : Int) % mw - 1 + (k : Int) % 3 + ↑i_1) (ym + (i : Int) / mw - 1 + (k : Int) / 3 + ↑j) := by
        funext k
        congr 1
        funext i_1 j
        congr 1 <;> ring
      rw [e]
      rw [show xm + (i : Int) % mw - xm = (i : Int) % mw by ring, show ym + (i : Int) / mw - ym = (i : Int) / mw by ring]
      rfl

theorem stationary_of (c : Coefs) (hd : 4 * c.c20 * c.c02 - c.c11 * c.c11 ≠ 0) (x y : ℝ) :
    Stationary c x y ↔ x = -(2 * c.c10 * c.c02 - c.c01 * c.c11) / (4 * c.c20 * c.c02 - c.c11 * c.c11) ∧ y = -(2 * c.c01 * c.c20 - c.c10 * c.c11) / (4 * c.c20 * c.c02 - c.c11 * c.c11) := by
  unfold Stationary
  constructor
  · rintro ⟨h1, h2⟩
    constructor
    · rw [eq_div_iff hd]; linear_combination 2 * c.c02 * h1 - c.c11 * h2
    · rw [eq_div_iff hd]; linear_combination 2 * c.c20 * h2 - c.c11 * h1
  · rintro ⟨h1, h2⟩
    rw [eq_div_iff hd] at h1 h2
    constructor
    · refine mul_left_cancel₀ hd ?_
      linear_combination 2 * c.c20 * h1 + c.c11 * h2
    · refine mul_left_cancel₀ hd ?_
      linear_combination c.c11 * h1 + 2 * c.c02 * h2

/-! ### the fit is unique -/

/-- the best surface, in closed form -/
noncomputable def closed (z : Int → Int → ℝ) : Coefs :=
  let s := z (-1) (-1) + z 0 (-1) + z 1 (-1) + z (-1) 0 + z 0 0 + z 1 0 + z (-1) 1 + z 0 1 + z 1 1
  let l := z (-1) (-1) + z (-1) 0 + z (-1) 1
  let r := z 1 (-1) + z 1 0 + z 1 1
  let t := z (-1) (-1) + z 0 (-1) + z 1 (-1)
  let b := z (-1) 1 + z 0 1 + z 1 1
  let c20 := (l + r - 2 * (s - l - r)) / 6
  let c02 := (t + b - 2 * (s - t - b)) / 6
  ⟨s / 9 - 2 / 3 * c20 - 2 / 3 * c02, (r - l) / 6, (b - t) / 6, c20, (z 1 1 + z (-1) (-1) - z 1 (-1) - z (-1) 1) / 4, c02⟩

/-- the difference of two surfaces -/
def diff (c c' : Coefs) : Coefs := ⟨c.c00 - c'.c00, c.c10 - c'.c10, c.c01 - c'.c01, c.c20 - c'.c20, c.c11 - c'.c11, c.c02 - c'.c02⟩

theorem misfit_closed (c : Coefs) (z : Int → Int → ℝ) : misfit c z = misfit (closed z) z + misfit (diff c (closed z)) (fun _ _ => 0) := by
  unfold misfit surface diff closed
  generalize z (-1) (-1) = z1
  generalize z 0 (-1) = z2
  generalize z 1 (-1) = z3
  generalize z (-1) 0 = z4
  generalize z 0 0 = z5
  generalize z 1 0 = z6
  generalize z (-1) 1 = z7
  generalize z 0 1 = z8
  generalize z 1 1 = z9
  dsimp only
  ring

theorem misfit_nonneg (c : Coefs) (z : Int → Int → ℝ) : 0 ≤ misfit c z := by
  unfold misfit
  positivity

theorem closed_best (z : Int → Int → ℝ) : BestFit (closed z) z := fun c' => by
  rw [misfit_closed c']
  linarith [misfit_nonneg (diff c' (closed z)) fun _ _ => 0]

theorem sum9 {a b c d e f g h i : ℝ} (H : a ^ 2 + b ^ 2 + c ^ 2 + d ^ 2 + e ^ 2 + f ^ 2 + g ^ 2 + h ^ 2 + i ^ 2 ≤ 0) : a = 0 ∧ b = 0 ∧ c = 0 ∧ d = 0 ∧ e = 0 ∧ f = 0 ∧ g = 0 ∧ h = 0 ∧ i = 0 := by
  have := sq_nonneg a; have := sq_nonneg b; have := sq_nonneg c; have := sq_nonneg d; have := sq_nonneg e; have := sq_nonneg f; have := sq_nonneg g; have := sq_nonneg h; have := sq_nonneg i
  refine ⟨?_, ?_, ?_, ?_, ?_, ?_, ?_, ?_, ?_⟩ <;> refine pow_eq_zero_iff (two_ne_zero) |>.mp (le_antisymm ?_ (sq_nonneg _)) <;> linarith

theorem best_unique (c : Coefs) (z : Int → Int → ℝ) : BestFit c z ↔ c = closed z := by
  constructor
  · intro h
    have h1 := h (closed z)
    rw [misfit_closed c] at h1
    have h2 : misfit (diff c (closed z)) (fun _ _ => 0) ≤ 0 := by linarith
    generalize hd : closed z = d at h2
    unfold misfit surface diff at h2
    obtain ⟨e1, e2, e3, e4, e5, e6, e7, e8, e9⟩ := sum9 h2
    ext <;> dsimp only at * <;> linarith
  · rintro rfl
    exact closed_best z

/-! ### the whole function -/

/-- H10 and the estimate: either is given, and determines the other -/
def Guess (a : Args) (H : M3) (q1 : P2) : Prop :=
  (a.H10 = some H ∧ a.q1_estimate = none ∧ applyHomography H a.q0 = some q1) ∨
  (a.H10 = none ∧ a.q1_estimate = some q1 ∧ ∀ q, applyHomography H q = some ⟨q.x + (q1.x - a.q0.x), q.y + (q1.y - a.q0.y)⟩)

/-- the template is the part of image0 that the homography maps to the (w,h) pixels of image1 with the top-left pixel (x0,y0) -/
def TemplateOf (env : Env) (image0 : Image) (H : M3) (x0 y0 : Int) (T : Nat → Nat → ℝ) : Prop :=
  ∀ i j : Nat, ∃ p, T i j = env.remap image0 p ∧ ∀ q, p = some q → applyHomography H q = some ⟨(x0 : ℝ) + i, (y0 : ℝ) + j⟩

/-- as centered as possible, at whole pixels -/
def Centered (x0 : Int) (w : Int) (q : ℝ) : Prop := |(x0 : ℝ) + ((w : ℝ) - 1) / 2 - q| ≤ 1 / 2

theorem templateMin_centered (q : ℝ) (w : Int) : Centered (templateMin q w) w q := by
  unfold Centered templateMin pyRound
  dsimp only
  have h1 := Int.floor_le (q - ((w : ℝ) - 1) / 2)
  have h2 := Int.lt_floor_add_one (q - ((w : ℝ) - 1) / 2)
  rw [abs_le]
  split_ifs <;> push_cast <;> constructor <;> linarith

theorem inv3_right (A B : M3) (h : inv3 A = some B) (p : P3) : Pose.mulVec A (Pose.mulVec B p) = p := by
  unfold inv3 at h
  dsimp only at h
  by_cases hd : det3 A = 0
  · rw [if_pos hd] at h; exact absurd h (by simp)
  · rw [if_neg hd] at h
    obtain rfl := Option.some.inj h
    simp only [Pose.mulVec]
    ext <;> simp only [] <;> field_simp <;> unfold det3 <;> ring

theorem apply_inverse (A B : M3) (h : inv3 A = some B) (q p : P2) (hq : applyHomography B q = some p) : applyHomography A p = some q := by
  have e := inv3_right A B h ⟨q.x, q.y, 1⟩
  unfold applyHomography at hq ⊢
  dsimp only at hq ⊢
  by_cases hz : B.a20 * q.x + B.a21 * q.y + B.a22 = 0
  · rw [if_pos hz] at hq; exact absurd hq (by simp)
  · rw [if_neg hz] at hq
    obtain rfl := Option.some.inj hq
    simp only [Pose.mulVec, P3.mk.injEq, mul_one] at e
    obtain ⟨e1, e2, e3⟩ := e
    generalize B.a20 * q.x + B.a21 * q.y + B.a22 = z at *
    generalize B.a00 * q.x + B.a01 * q.y + B.a02 = u at *
    generalize B.a10 * q.x + B.a11 * q.y + B.a12 = v at *
    have k3 : A.a20 * (u / z) + A.a21 * (v / z) + A.a22 = 1 / z := by rw [← e3]; field_simp
    have k1 : A.a00 * (u / z) + A.a01 * (v / z) + A.a02 = q.x / z := by rw [← e1]; field_simp
    have k2 : A.a10 * (u / z) + A.a11 * (v / z) + A.a12 = q.y / z := by rw [← e2]; field_simp
    simp only [k1, k2, k3]
    rw [if_neg (by simpa using hz)]
    congr 1
    ext <;> simp only [] <;> field_simp

theorem estimate_guess (a : Args) (H : M3) (q1 : P2) (h : estimate a = some (H, q1)) : Guess a H q1 := by
  unfold estimate at h
  split at h
  · rename_i q h1 h2
    simp only [Option.some.injEq, Prod.mk.injEq] at h
    obtain ⟨rfl, rfl⟩ := h
    refine Or.inr ⟨h1, h2, fun p => ?_⟩
    simp [applyHomography]
  · rename_i M h1 h2
    obtain ⟨p, hp, he⟩ := Option.map_eq_some_iff.mp h
    simp only [Prod.mk.injEq] at he
    obtain ⟨rfl, rfl⟩ := he
    exact Or.inl ⟨h1, h2, hp⟩
  · simp at h

theorem inBounds_pixel (im : Image) (x y : Int) : inBounds im (some (pixel x y)) = true ↔ 0 ≤ x ∧ 0 ≤ y ∧ x < im.W ∧ y < im.H := by
  unfold inBounds pixel
  simp only [decide_eq_true_eq, not_lt, ge_iff_le, not_le]
  norm_cast

/-- what was checked before the search -/
theorem feature_cases (env : Env) (image0 image1 : Image) (a : Args) : matchFeature env image0 image1 a = .error ∨
    ∃ H Hinv q1 x0 y0, 0 < a.template_w ∧ 0 < a.template_h ∧ estimate a = some (H, q1) ∧ inv3 H = some Hinv ∧ x0 = templateMin q1.x a.template_w ∧ y0 = templateMin q1.y a.template_h ∧
      0 ≤ x0 ∧ x0 + a.template_w ≤ image1.W ∧ 0 ≤ y0 ∧ y0 + a.template_h ≤ image1.H ∧
      (∀ q ∈ [pixel x0 y0, pixel x0 (y0 + a.template_h - 1), pixel (x0 + a.template_w - 1) y0, pixel (x0 + a.template_w - 1) (y0 + a.template_h - 1)], inBounds image0 (applyHomography Hinv q) = true) ∧
      matchFeature env image0 image1 a = search env image1 (a.method.getD .ccorr_normed) a.template_w.toNat a.template_h.toNat a.search_radius1 (template env image0 Hinv x0 y0) q1 x0 y0 := by
  unfold matchFeature
  by_cases h1 : ¬ (a.template_w > 0 ∧ a.template_h > 0)
  · rw [if_pos h1]; exact Or.inl rfl
  rw [if_neg h1]
  cases h2 : estimate a with
  | none => exact Or.inl rfl
  | some Hq =>
    obtain ⟨H, q1⟩ := Hq
    dsimp only
    split_ifs with h3
    · exact Or.inl rfl
    · rw [Bool.not_eq_false, Bool.and_eq_true, inBounds_pixel, inBounds_pixel] at h3
      cases h4 : inv3 H with
      | none => exact Or.inl rfl
      | some Hinv =>
        dsimp only
        split_ifs with h5
        · exact Or.inl rfl
        · rw [Bool.not_eq_false, List.all_eq_true] at h5
          refine Or.inr ⟨H, Hinv, q1, _, _, by omega, by omega, rfl, h4, rfl, rfl, by omega, by omega, by omega, by omega, h5, rfl⟩

theorem template_spec (env : Env) (image0 : Image) (H Hinv : M3) (h : inv3 H = some Hinv) (x0 y0 : Int) : TemplateOf env image0 H x0 y0 (template env image0 Hinv x0 y0) := fun i j =>
  ⟨_, rfl, fun q hq => by
    have := apply_inverse H Hinv h _ _ hq
    rw [this]
    simp [pixel]⟩

/-- the elements of the 3x3 array -/
theorem best_nine (c : Coefs) (f : Int → Int → ℝ) (X Y : Int) (z : Nat → ℝ) (hz : ∀ k : Nat, z k = f (X - 1 + (k : Int) % 3) (Y - 1 + (k : Int) / 3)) (h : BestFit c fun x y => z (3 * (y + 1) + (x + 1)).toNat) :
    BestFit c fun i j => f (X + i) (Y + j) := by
  have e : ∀ c', misfit c' (fun x y => z (3 * (y + 1) + (x + 1)).toNat) = misfit c' fun i j => f (X + i) (Y + j) := by
    intro c'
    unfold misfit
    have k : ∀ x y : Int, 0 ≤ x + 1 → x + 1 < 3 → 0 ≤ y + 1 → z (3 * (y + 1) + (x + 1)).toNat = f (X + x) (Y + y) := by
      intro x y h1 h2 h3
      rw [hz, Int.toNat_of_nonneg (by omega)]
      congr 1 <;> omega
    beta_reduce
    rw [k (-1) (-1) (by norm_num) (by norm_num) (by norm_num), k 0 (-1) (by norm_num) (by norm_num) (by norm_num), k 1 (-1) (by norm_num) (by norm_num) (by norm_num),
      k (-1) 0 (by norm_num) (by norm_num) (by norm_num), k 0 0 (by norm_num) (by norm_num) (by norm_num), k 1 0 (by norm_num) (by norm_num) (by norm_num),
      k (-1) 1 (by norm_num) (by norm_num) (by norm_num), k 0 1 (by norm_num) (by norm_num) (by norm_num), k 1 1 (by norm_num) (by norm_num) (by norm_num)]
  intro c'
  have := h c'
  rwa [e, e] at this

theorem search_found (env : Env) (hok : LstsqOk env) (image1 : Image) (m : Method) (w h : Nat) (hw : 0 < w) (hh : 0 < h) (r : Int) (hr : 0 ≤ r) (T : Nat → Nat → ℝ) (q : P2) (x0 y0 : Int)
    (hx0 : 0 ≤ x0) (hx1 : x0 + w ≤ image1.W) (hy0 : 0 ≤ y0) (hy1 : y0 + h ≤ image1.H) (q1 at_ s : P2) (v : ℝ) (hf : search env image1 m w h r T q x0 y0 = .found q1 at_ v s) :
    ∃ X Y c dx dy, Matches image1 m w h r x0 y0 (scoreAt env image1 m w h T) X Y c dx dy ∧
      q1 = ⟨q.x + ((X - x0 : Int) : ℝ) + dx, q.y + ((Y - y0 : Int) : ℝ) + dy⟩ ∧ v = surface c dx dy ∧ q1 = ⟨at_.x + s.x, at_.y + s.y⟩ := by
  obtain ⟨X, Y, hS, hbest, hs⟩ := search_cases env image1 m w h hw hh r hr T q x0 y0 hx0 hx1 hy0 hy1
  rw [hs] at hf
  by_cases hin : ¬ (Searched image1 w h r x0 y0 (X - 1) (Y - 1) ∧ Searched image1 w h r x0 y0 (X + 1) (Y + 1))
  · rw [if_pos hin] at hf; cases hf
  · rw [if_neg hin] at hf
    rw [not_not] at hin
    split at hf
    · cases hf
    · rename_i c hc
      have hc1 := hok _ c hc
      have hfit := best_nine c (scoreAt env image1 m w h T) X Y (fun k : Nat => scoreAt env image1 m w h T (X - 1 + (k : Int) % 3) (Y - 1 + (k : Int) / 3)) (fun k => Eq.refl _)
      have hfit := hfit hc1
      by_cases hd : 4 * c.c20 * c.c02 - c.c11 * c.c11 = 0
      · rw [if_pos hd] at hf; cases hf
      · rw [if_neg hd] at hf
        have hst := (stationary_of c hd _ _).mpr ⟨rfl, rfl⟩
        dsimp only at hf
        generalize -(2 * c.c10 * c.c02 - c.c01 * c.c11) / (4 * c.c20 * c.c02 - c.c11 * c.c11) = dx at hst hf
        generalize -(2 * c.c01 * c.c20 - c.c10 * c.c11) / (4 * c.c20 * c.c02 - c.c11 * c.c11) = dy at hst hf
        simp only [Result.found.injEq] at hf
        obtain ⟨rfl, rfl, rfl, rfl⟩ := hf
        refine ⟨X, Y, c, dx, dy, ⟨hin.1, hin.2, hbest, hfit, hst⟩, ?_, rfl, rfl⟩
        ext <;> simp only [] <;> push_cast <;> ring

/-- **C110**: what a reported match means. The template is the part of image0 that corresponds to a box of the given size centered at the estimate in image1. Of all the places within the search radius where it is entirely in image1,
it fits best at a place that is off by (X-x0,Y-y0); none of them fits better. The reported pixel is the estimate, moved by that, and by the location of the stationary point of the quadratic surface that fits best to the 3x3 scores there -/
theorem match_found (env : Env) (hok : LstsqOk env) (image0 image1 : Image) (a : Args) (q1 at_ s : P2) (v : ℝ) (h : matchFeature env image0 image1 a = .found q1 at_ v s) :
    ∃ H est x0 y0 T X Y c dx dy, Guess a H est ∧ Centered x0 a.template_w est.x ∧ Centered y0 a.template_h est.y ∧ TemplateOf env image0 H x0 y0 T ∧
      Matches image1 (a.method.getD .ccorr_normed) a.template_w.toNat a.template_h.toNat a.search_radius1 x0 y0
        (scoreAt env image1 (a.method.getD .ccorr_normed) a.template_w.toNat a.template_h.toNat T) X Y c dx dy ∧
      q1 = ⟨est.x + ((X - x0 : Int) : ℝ) + dx, est.y + ((Y - y0 : Int) : ℝ) + dy⟩ ∧ v = surface c dx dy ∧ q1 = ⟨at_.x + s.x, at_.y + s.y⟩ := by
  rcases feature_cases env image0 image1 a with he | ⟨H, Hinv, est, x0, y0, hw, hh, hest, hinv, hx0, hy0, b1, b2, b3, b4, -, e⟩
  · rw [he] at h; cases h
  · rw [e] at h
    obtain ⟨X, Y, c, dx, dy, hm⟩ := search_found env hok image1 (a.method.getD .ccorr_normed) a.template_w.toNat a.template_h.toNat (by omega) (by omega) a.search_radius1 (by omega) (template env image0 Hinv x0 y0) est x0 y0
      b1 (by omega) b3 (by omega) q1 at_ s v h
    exact ⟨H, est, x0, y0, _, X, Y, c, dx, dy, estimate_guess a H est hest, hx0 ▸ templateMin_centered _ _, hy0 ▸ templateMin_centered _ _, template_spec env image0 H Hinv hinv x0 y0, hm⟩

/-- **C110**: when q1 is None: the template fits best at the edge of what was searched (given that the fit works) -/
theorem match_none (env : Env) (hok : ∀ z, (env.lstsq z).isSome) (image0 image1 : Image) (a : Args) (h : matchFeature env image0 image1 a = .noMatch) :
    ∃ H est x0 y0 T X Y, Guess a H est ∧ Centered x0 a.template_w est.x ∧ Centered y0 a.template_h est.y ∧ TemplateOf env image0 H x0 y0 T ∧
      Searched image1 a.template_w.toNat a.template_h.toNat a.search_radius1 x0 y0 X Y ∧
      (∀ X' Y', Searched image1 a.template_w.toNat a.template_h.toNat a.search_radius1 x0 y0 X' Y' →
        ¬ Better (a.method.getD .ccorr_normed) (scoreAt env image1 (a.method.getD .ccorr_normed) a.template_w.toNat a.template_h.toNat T X' Y')
          (scoreAt env image1 (a.method.getD .ccorr_normed) a.template_w.toNat a.template_h.toNat T X Y)) ∧
      ¬ (Searched image1 a.template_w.toNat a.template_h.toNat a.search_radius1 x0 y0 (X - 1) (Y - 1) ∧ Searched image1 a.template_w.toNat a.template_h.toNat a.search_radius1 x0 y0 (X + 1) (Y + 1)) := by
  rcases feature_cases env image0 image1 a with he | ⟨H, Hinv, est, x0, y0, hw, hh, hest, hinv, hx0, hy0, b1, b2, b3, b4, -, e⟩
  · rw [he] at h; cases h
  · rw [e] at h
    obtain ⟨X, Y, hS, hbest, hs⟩ := search_cases env image1 (a.method.getD .ccorr_normed) a.template_w.toNat a.template_h.toNat (by omega) (by omega) a.search_radius1 (by omega) (template env image0 Hinv x0 y0) est x0 y0
      b1 (by omega) b3 (by omega)
    rw [hs] at h
    by_cases hin : ¬ (Searched image1 a.template_w.toNat a.template_h.toNat a.search_radius1 x0 y0 (X - 1) (Y - 1) ∧ Searched image1 a.template_w.toNat a.template_h.toNat a.search_radius1 x0 y0 (X + 1) (Y + 1))
    · exact ⟨H, est, x0, y0, _, X, Y, estimate_guess a H est hest, hx0 ▸ templateMin_centered _ _, hy0 ▸ templateMin_centered _ _, template_spec env image0 H Hinv hinv x0 y0, hS, hbest, hin⟩
    · rw [if_neg hin] at h
      split at h
      · rename_i hc
        have := hok (fun k : Nat => scoreAt env image1 (a.method.getD .ccorr_normed) a.template_w.toNat a.template_h.toNat (template env image0 Hinv x0 y0) (X - 1 + (k : Int) % 3) (Y - 1 + (k : Int) / 3))
        rw [hc] at this
        simp at this
      · rename_i c hc
        by_cases hd : 4 * c.c20 * c.c02 - c.c11 * c.c11 = 0
        · rw [if_pos hd] at h; cases h
        · rw [if_neg hd] at h; cases h

/-- **C110**: if the scores are samples of a quadratic surface, then that's the surface that is found -/
theorem surface_exact (c : Coefs) (z : Int → Int → ℝ) (h : ∀ i j : Int, |i| ≤ 1 → |j| ≤ 1 → z i j = surface c i j) (c' : Coefs) (hb : BestFit c' z) : c' = c := by
  have h0 : misfit c z = 0 := by
    unfold misfit
    rw [h (-1) (-1) (by norm_num) (by norm_num), h 0 (-1) (by norm_num) (by norm_num), h 1 (-1) (by norm_num) (by norm_num), h (-1) 0 (by norm_num) (by norm_num), h 0 0 (by norm_num) (by norm_num),
      h 1 0 (by norm_num) (by norm_num), h (-1) 1 (by norm_num) (by norm_num), h 0 1 (by norm_num) (by norm_num), h 1 1 (by norm_num) (by norm_num)]
    push_cast
    ring
  have hc : BestFit c z := fun d => by rw [h0]; exact misfit_nonneg _ _
  rw [best_unique] at hb hc
  rw [hb, hc]

example : ∃ (c : Coefs) (z : Int → Int → ℝ), (∀ i j : Int, |i| ≤ 1 → |j| ≤ 1 → z i j = surface c i j) ∧ BestFit c z ∧ Stationary c (1 / 4) 0 :=
  ⟨⟨1, 1 / 2, 0, -1, 0, -1⟩, fun i j => surface ⟨1, 1 / 2, 0, -1, 0, -1⟩ i j, fun _ _ _ _ => rfl, fun c' => by
    have : misfit ⟨1, 1 / 2, 0, -1, 0, -1⟩ (fun i j => surface ⟨1, 1 / 2, 0, -1, 0, -1⟩ i j) = 0 := by unfold misfit; push_cast; ring
    rw [this]; exact misfit_nonneg _ _, by unfold Stationary; norm_num⟩

/-- **C110**: the stationary point of a surface that has a maximum is that maximum; and of a surface that has a minimum it's that minimum -/
theorem stationary_extremum (c : Coefs) (dx dy : ℝ) (h : Stationary c dx dy) (hd : 4 * c.c20 * c.c02 - c.c11 * c.c11 > 0) (x y : ℝ) (hne : (x, y) ≠ (dx, dy)) :
    (c.c20 < 0 → surface c x y < surface c dx dy) ∧ (c.c20 > 0 → surface c dx dy < surface c x y) := by
  obtain ⟨h1, h2⟩ := h
  have e : surface c x y - surface c dx dy = c.c20 * (x - dx) * (x - dx) + c.c11 * (x - dx) * (y - dy) + c.c02 * (y - dy) * (y - dy) := by
    unfold surface
    linear_combination (x - dx) * h1 + (y - dy) * h2
  generalize hu : x - dx = u at e
  generalize hv : y - dy = v at e
  have huv : u ≠ 0 ∨ v ≠ 0 := by
    by_contra hn
    rw [not_or, not_not, not_not] at hn
    exact hne (by rw [← hu, ← hv] at hn; ext <;> simp only [] <;> linarith)
  have k : 4 * c.c20 * (surface c x y - surface c dx dy) = (2 * c.c20 * u + c.c11 * v) ^ 2 + (4 * c.c20 * c.c02 - c.c11 * c.c11) * v ^ 2 := by rw [e]; ring
  have pos : c.c20 ≠ 0 → 0 < (2 * c.c20 * u + c.c11 * v) ^ 2 + (4 * c.c20 * c.c02 - c.c11 * c.c11) * v ^ 2 := by
    intro hc
    by_cases hv0 : v = 0
    · have hu0 : u ≠ 0 := by rcases huv with h | h; exacts [h, absurd hv0 h]
      rw [hv0]
      have : 2 * c.c20 * u ≠ 0 := by positivity
      have := pow_pos (abs_pos.mpr this) 2
      rw [sq_abs] at this
      linarith
    · have h3 : 0 < v ^ 2 := by positivity
      have h4 := mul_pos hd h3
      have h5 := sq_nonneg (2 * c.c20 * u + c.c11 * v)
      linarith
  constructor
  · intro hc
    have := pos hc.ne
    rw [← k] at this
    nlinarith
  · intro hc
    have := pos hc.ne'
    rw [← k] at this
    nlinarith

/-- **C110**: a unique best place, that isn't at the edge of what was searched, is what's reported -/
theorem best_reported (env : Env) (hok : LstsqOk env) (hsome : ∀ z, (env.lstsq z).isSome) (image1 : Image) (m : Method) (w h : Nat) (hw : 0 < w) (hh : 0 < h) (r : Int) (hr : 0 ≤ r) (T : Nat → Nat → ℝ) (q : P2) (x0 y0 : Int)
    (hx0 : 0 ≤ x0) (hx1 : x0 + w ≤ image1.W) (hy0 : 0 ≤ y0) (hy1 : y0 + h ≤ image1.H) (X Y : Int)
    (h1 : Searched image1 w h r x0 y0 (X - 1) (Y - 1)) (h2 : Searched image1 w h r x0 y0 (X + 1) (Y + 1))
    (hbest : ∀ X' Y', Searched image1 w h r x0 y0 X' Y' → (X', Y') ≠ (X, Y) → Better m (scoreAt env image1 m w h T X Y) (scoreAt env image1 m w h T X' Y')) :
    ∃ c, BestFit c (fun i j => scoreAt env image1 m w h T (X + i) (Y + j)) ∧
      ((4 * c.c20 * c.c02 - c.c11 * c.c11 = 0 ∧ search env image1 m w h r T q x0 y0 = .notFinite) ∨
       (4 * c.c20 * c.c02 - c.c11 * c.c11 ≠ 0 ∧ ∃ dx dy at_ v s, Stationary c dx dy ∧
         search env image1 m w h r T q x0 y0 = .found ⟨q.x + ((X - x0 : Int) : ℝ) + dx, q.y + ((Y - y0 : Int) : ℝ) + dy⟩ at_ v s)) := by
  obtain ⟨X', Y', hS, hb', hs⟩ := search_cases env image1 m w h hw hh r hr T q x0 y0 hx0 hx1 hy0 hy1
  have heq : (X', Y') = (X, Y) := by
    by_contra hne
    refine hb' X Y ?_ (hbest X' Y' hS hne)
    obtain ⟨⟨a1, a2, a3⟩, b1, b2, b3⟩ := h1
    obtain ⟨⟨a4, a5, a6⟩, b4, b5, b6⟩ := h2
    rw [abs_le] at a1 a4 b1 b4
    refine ⟨⟨abs_le.mpr ?_, ?_, ?_⟩, abs_le.mpr ?_, ?_, ?_⟩ <;> omega
  obtain ⟨rfl, rfl⟩ := Prod.mk.inj heq
  rw [if_neg (not_not.mpr ⟨h1, h2⟩)] at hs
  obtain ⟨c, hc⟩ := Option.isSome_iff_exists.mp (hsome fun k : Nat => scoreAt env image1 m w h T (X' - 1 + (k : Int) % 3) (Y' - 1 + (k : Int) / 3))
  rw [hc] at hs
  have hc1 := hok _ c hc
  have hfit := best_nine c (scoreAt env image1 m w h T) X' Y' (fun k : Nat => scoreAt env image1 m w h T (X' - 1 + (k : Int) % 3) (Y' - 1 + (k : Int) / 3)) (fun k => Eq.refl _)
  refine ⟨c, hfit hc1, ?_⟩
  dsimp only at hs
  by_cases hd : 4 * c.c20 * c.c02 - c.c11 * c.c11 = 0
  · rw [if_pos hd] at hs
    exact Or.inl ⟨hd, hs⟩
  · rw [if_neg hd] at hs
    have hst := (stationary_of c hd _ _).mpr ⟨rfl, rfl⟩
    generalize -(2 * c.c10 * c.c02 - c.c01 * c.c11) / (4 * c.c20 * c.c02 - c.c11 * c.c11) = dx at hst hs
    generalize -(2 * c.c01 * c.c20 - c.c10 * c.c11) / (4 * c.c20 * c.c02 - c.c11 * c.c11) = dy at hst hs
    have ex : (⟨((X' - max (x0 - r) 0 : Int) : ℝ) + dx + (((max (x0 - r) 0 : Int) : ℝ) + q.x - x0), ((Y' - max (y0 - r) 0 : Int) : ℝ) + dy + (((max (y0 - r) 0 : Int) : ℝ) + q.y - y0)⟩ : P2) =
        ⟨q.x + ((X' - x0 : Int) : ℝ) + dx, q.y + ((Y' - y0 : Int) : ℝ) + dy⟩ := by
      ext <;> simp only [] <;> push_cast <;> ring
    rw [ex] at hs
    exact Or.inr ⟨hd, dx, dy, _, _, _, hst, hs⟩

/-! ### the scores -/

theorem sum2_nonneg (w h : Nat) (f : Nat → Nat → ℝ) (hf : ∀ i j, 0 ≤ f i j) : 0 ≤ sum2 w h f := by
  unfold sum2
  refine List.sum_nonneg fun x hx => ?_
  obtain ⟨j, -, rfl⟩ := List.mem_map.mp hx
  refine List.sum_nonneg fun x hx => ?_
  obtain ⟨i, -, rfl⟩ := List.mem_map.mp hx
  exact hf i j

theorem le_sum_of_mem (l : List ℝ) (hl : ∀ x ∈ l, 0 ≤ x) (x : ℝ) (h : x ∈ l) : x ≤ l.sum := by
  induction l with
  | nil => simp at h
  | cons a l ih =>
    have h0 : 0 ≤ l.sum := List.sum_nonneg fun x hx => hl x (List.mem_cons_of_mem _ hx)
    have ha := hl a List.mem_cons_self
    rw [List.sum_cons]
    rcases List.mem_cons.mp h with rfl | h
    · linarith
    · linarith [ih (fun x hx => hl x (List.mem_cons_of_mem _ hx)) h]

theorem le_sum2 (w h : Nat) (f : Nat → Nat → ℝ) (hf : ∀ i j, 0 ≤ f i j) (i j : Nat) (hi : i < w) (hj : j < h) : f i j ≤ sum2 w h f := by
  unfold sum2
  have h1 : f i j ≤ ((List.range w).map fun (i : Nat) => f i j).sum :=
    le_sum_of_mem _ (fun x hx => by obtain ⟨k, -, rfl⟩ := List.mem_map.mp hx; exact hf k j) _ (List.mem_map.mpr ⟨i, List.mem_range.mpr hi, rfl⟩)
  refine h1.trans (le_sum_of_mem _ (fun x hx => ?_) _ (List.mem_map.mpr ⟨j, List.mem_range.mpr hj, rfl⟩))
  obtain ⟨k, -, rfl⟩ := List.mem_map.mp hx
  exact List.sum_nonneg fun x hx => by obtain ⟨n, -, rfl⟩ := List.mem_map.mp hx; exact hf n k

theorem sum2_pos (w h : Nat) (f : Nat → Nat → ℝ) (hf : ∀ i j, 0 ≤ f i j) (i j : Nat) (hi : i < w) (hj : j < h) (hp : f i j ≠ 0) : 0 < sum2 w h f :=
  lt_of_lt_of_le (lt_of_le_of_ne (hf i j) (Ne.symm hp)) (le_sum2 w h f hf i j hi hj)

theorem sum2_congr (w h : Nat) (f g : Nat → Nat → ℝ) (hfg : ∀ i j, i < w → j < h → f i j = g i j) : sum2 w h f = sum2 w h g := by
  unfold sum2
  congr 1
  refine List.map_congr_left fun j hj => ?_
  congr 1
  exact List.map_congr_left fun i hi => hfg i j (List.mem_range.mp hi) (List.mem_range.mp hj)

theorem list_add (l : List Nat) (f g : Nat → ℝ) : (l.map fun i => f i + g i).sum = (l.map f).sum + (l.map g).sum := by
  induction l with
  | nil => simp
  | cons a l ih => simp only [List.map_cons, List.sum_cons, ih]; ring

theorem list_smul (l : List Nat) (k : ℝ) (f : Nat → ℝ) : (l.map fun i => k * f i).sum = k * (l.map f).sum := by
  induction l with
  | nil => simp
  | cons a l ih => simp only [List.map_cons, List.sum_cons, ih]; ring

theorem sum2_add (w h : Nat) (f g : Nat → Nat → ℝ) : (sum2 w h fun i j => f i j + g i j) = sum2 w h f + sum2 w h g := by
  unfold sum2
  simp only [list_add]

theorem sum2_smul (w h : Nat) (k : ℝ) (f : Nat → Nat → ℝ) : (sum2 w h fun i j => k * f i j) = k * sum2 w h f := by
  unfold sum2
  simp only [list_smul]

theorem sqdiff_best (w h : Nat) (T I : Nat → Nat → ℝ) : (∀ i j, i < w → j < h → I i j = T i j) ∨ 0 < scoreSqdiff w h T I := by
  by_cases hne : ∀ i j, i < w → j < h → I i j = T i j
  · exact Or.inl hne
  · push Not at hne
    obtain ⟨i, j, hi, hj, hne⟩ := hne
    exact Or.inr (sum2_pos w h _ (fun _ _ => mul_self_nonneg _) i j hi hj (mul_self_ne_zero.mpr (sub_ne_zero.mpr (Ne.symm hne))))

theorem sqdiff_zero (w h : Nat) (T I : Nat → Nat → ℝ) (he : ∀ i j, i < w → j < h → I i j = T i j) : scoreSqdiff w h T I = 0 := by
  unfold scoreSqdiff
  rw [sum2_congr w h _ (fun _ _ => 0 * 0) (fun i j hi hj => by rw [he i j hi hj]; ring), sum2_smul]
  ring

/-- Cauchy-Schwarz -/
theorem ccorr_normed_lt (w h : Nat) (T I : Nat → Nat → ℝ) (hT : 0 < scoreCcorr w h T T) : (∃ k, ∀ i j, i < w → j < h → I i j = k * T i j) ∨ scoreCcorrNormed w h T I < 1 := by
  by_cases hne : ∃ k, ∀ i j, i < w → j < h → I i j = k * T i j
  · exact Or.inl hne
  right
  push Not at hne
  generalize hA : scoreCcorr w h T T = A at *
  obtain ⟨i, j, hi, hj, hk⟩ := hne (scoreCcorr w h T I / A)
  generalize hB : scoreCcorr w h T I = B at *
  have hC0 : 0 ≤ scoreCcorr w h I I := sum2_nonneg w h _ fun _ _ => mul_self_nonneg _
  generalize hC : scoreCcorr w h I I = C at *
  have hpos : 0 < sum2 w h fun i j => (A * I i j - B * T i j) * (A * I i j - B * T i j) :=
    sum2_pos w h _ (fun _ _ => mul_self_nonneg _) i j hi hj (mul_self_ne_zero.mpr fun h0 => hk (by field_simp; linarith))
  have e : (sum2 w h fun i j => (A * I i j - B * T i j) * (A * I i j - B * T i j)) = A * (A * C - B * B) := by
    rw [sum2_congr w h _ (fun i j => A * A * (I i j * I i j) + ((-2 * A * B) * (T i j * I i j) + B * B * (T i j * T i j))) (fun i j _ _ => by ring), sum2_add, sum2_add, sum2_smul, sum2_smul, sum2_smul]
    have e1 : (sum2 w h fun i j => I i j * I i j) = C := hC
    have e2 : (sum2 w h fun i j => T i j * I i j) = B := hB
    have e3 : (sum2 w h fun i j => T i j * T i j) = A := hA
    rw [e1, e2, e3]
    ring
  rw [e] at hpos
  have hAC : B * B < A * C := by nlinarith
  have hs : 0 < A * C := by nlinarith [mul_self_nonneg B]
  unfold scoreCcorrNormed
  rw [hA, hB, hC, div_lt_one (Real.sqrt_pos.mpr hs)]
  refine lt_of_le_of_lt (le_abs_self B) ?_
  rw [← Real.sqrt_sq_eq_abs, pow_two]
  exact Real.sqrt_lt_sqrt (mul_self_nonneg B) hAC

theorem ccorr_normed_one (w h : Nat) (T I : Nat → Nat → ℝ) (hT : 0 < scoreCcorr w h T T) (he : ∀ i j, i < w → j < h → I i j = T i j) : scoreCcorrNormed w h T I = 1 := by
  unfold scoreCcorrNormed scoreCcorr
  rw [sum2_congr w h (fun i j => T i j * I i j) (fun i j => T i j * T i j) (fun i j hi hj => by rw [he i j hi hj]), sum2_congr w h (fun i j => I i j * I i j) (fun i j => T i j * T i j) (fun i j hi hj => by rw [he i j hi hj])]
  have hT' : 0 < sum2 w h fun i j => T i j * T i j := hT
  rw [Real.sqrt_mul_self hT'.le, div_self hT'.ne']

/-! ### an image and its translation -/

/-- cv2.remap() at whole pixels -/
def RemapOk (env : Env) : Prop := ∀ (im : Image) (x y : Int), 0 ≤ x → x < im.W → 0 ≤ y → y < im.H → env.remap im (some (pixel x y)) = im.px x y

/-- cv2.matchTemplate(), for three of the methods -/
def ScoresOk (env : Env) : Prop := ∀ w h T I, env.score .sqdiff w h T I = scoreSqdiff w h T I ∧ env.score .ccorr w h T I = scoreCcorr w h T I ∧ env.score .ccorr_normed w h T I = scoreCcorrNormed w h T I

/-- a box of w pixels around q is entirely in the image, with a margin of m pixels -/
def Fits (q : ℝ) (w : Int) (W : Nat) (m : ℝ) : Prop := (w : ℝ) / 2 + m ≤ q ∧ q + (w : ℝ) / 2 + m ≤ (W : ℝ) - 1

theorem fits_centered (q : ℝ) (w : Int) (W : Nat) (hf : Fits q w W 0) (x0 : Int) (hc : Centered x0 w q) : 0 ≤ x0 ∧ x0 + w ≤ W := by
  obtain ⟨h1, h2⟩ := hf
  unfold Centered at hc
  rw [abs_le] at hc
  constructor
  · have : (0 : ℝ) ≤ x0 := by linarith
    exact_mod_cast this
  · have : (x0 : ℝ) + w ≤ W := by linarith
    exact_mod_cast this

theorem translation_feature (env : Env) (image0 image1 : Image) (a : Args) (hw : 0 < a.template_w) (hh : 0 < a.template_h) (hH : a.H10 = none) (ex ey : Int)
    (hq : a.q1_estimate = some ⟨a.q0.x + ex, a.q0.y + ey⟩) (h0x : Fits a.q0.x a.template_w image0.W 0) (h0y : Fits a.q0.y a.template_h image0.H 0)
    (h1x : Fits (a.q0.x + ex) a.template_w image1.W 0) (h1y : Fits (a.q0.y + ey) a.template_h image1.H 0) :
    ∃ x0 y0, Centered x0 a.template_w (a.q0.x + ex) ∧ Centered y0 a.template_h (a.q0.y + ey) ∧ 0 ≤ x0 ∧ x0 + a.template_w ≤ image1.W ∧ 0 ≤ y0 ∧ y0 + a.template_h ≤ image1.H ∧
      0 ≤ x0 - ex ∧ x0 - ex + a.template_w ≤ image0.W ∧ 0 ≤ y0 - ey ∧ y0 - ey + a.template_h ≤ image0.H ∧
      matchFeature env image0 image1 a = search env image1 (a.method.getD .ccorr_normed) a.template_w.toNat a.template_h.toNat a.search_radius1 (fun i j => env.remap image0 (some (pixel (x0 - ex + i) (y0 - ey + j))))
        ⟨a.q0.x + ex, a.q0.y + ey⟩ x0 y0 := by
  have cx := templateMin_centered (a.q0.x + ex) a.template_w
  have cy := templateMin_centered (a.q0.y + ey) a.template_h
  refine ⟨_, _, cx, cy, ?_⟩
  generalize hx0 : templateMin (a.q0.x + ex) a.template_w = x0 at *
  generalize hy0 : templateMin (a.q0.y + ey) a.template_h = y0 at *
  have bx := fits_centered _ _ _ h1x x0 cx
  have by' := fits_centered _ _ _ h1y y0 cy
  have bx0 := fits_centered _ _ _ h0x (x0 - ex) (by unfold Centered at cx ⊢; push_cast; rw [show (x0 : ℝ) - ex + ((a.template_w : ℝ) - 1) / 2 - a.q0.x = x0 + ((a.template_w : ℝ) - 1) / 2 - (a.q0.x + ex) by ring]; exact cx)
  have by0 := fits_centered _ _ _ h0y (y0 - ey) (by unfold Centered at cy ⊢; push_cast; rw [show (y0 : ℝ) - ey + ((a.template_h : ℝ) - 1) / 2 - a.q0.y = y0 + ((a.template_h : ℝ) - 1) / 2 - (a.q0.y + ey) by ring]; exact cy)
  refine ⟨bx.1, bx.2, by'.1, by'.2, bx0.1, bx0.2, by0.1, by0.2, ?_⟩
  have hest : estimate a = some (⟨1, 0, ex, 0, 1, ey, 0, 0, 1⟩, ⟨a.q0.x + ex, a.q0.y + ey⟩) := by
    unfold estimate
    rw [hH, hq]
    simp
  have hinv : inv3 (⟨1, 0, ex, 0, 1, ey, 0, 0, 1⟩ : M3) = some ⟨1, 0, -ex, 0, 1, -ey, 0, 0, 1⟩ := by
    unfold inv3
    simp [det3]
  have happ : ∀ x y : Int, applyHomography (⟨1, 0, -ex, 0, 1, -ey, 0, 0, 1⟩ : M3) (pixel x y) = some (pixel (x - ex) (y - ey)) := by
    intro x y
    unfold applyHomography pixel
    simp
    constructor <;> ring
  unfold matchFeature
  rw [if_neg (by simpa using ⟨hw, hh⟩), hest]
  dsimp only
  rw [hx0, hy0, hinv]
  dsimp only
  have b1 : (inBounds image1 (some (pixel x0 y0)) && inBounds image1 (some (pixel (x0 + a.template_w - 1) (y0 + a.template_h - 1)))) = true := by
    rw [Bool.and_eq_true, inBounds_pixel, inBounds_pixel]
    omega
  rw [b1, if_neg (by simp)]
  have b2 : ([pixel x0 y0, pixel x0 (y0 + a.template_h - 1), pixel (x0 + a.template_w - 1) y0, pixel (x0 + a.template_w - 1) (y0 + a.template_h - 1)].all fun q =>
      inBounds image0 (applyHomography (⟨1, 0, -ex, 0, 1, -ey, 0, 0, 1⟩ : M3) q)) = true := by
    simp only [List.all_cons, List.all_nil, Bool.and_true, happ, Bool.and_eq_true, inBounds_pixel]
    omega
  rw [b2, if_neg (by simp)]
  congr 1
  funext i j
  unfold template
  rw [happ]
  congr 3 <;> ring

/-- **C110**: if image1 shows at q0+e+s what image0 shows around q0, and not at any other place that is searched, and that isn't at the edge of what is searched, then the feature is found there: the result is q0+e+s, with the
subpixel correction (dx,dy). Here e is the estimated translation. With the default method: "not at any other place" means that nothing else is a multiple of it -/
theorem shift_found (env : Env) (hok : LstsqOk env) (hsome : ∀ z, (env.lstsq z).isSome) (hrem : RemapOk env) (hsc : ScoresOk env) (image0 image1 : Image) (a : Args) (hw : 0 < a.template_w) (hh : 0 < a.template_h)
    (hH : a.H10 = none) (ex ey sx sy : Int) (hq : a.q1_estimate = some ⟨a.q0.x + ex, a.q0.y + ey⟩) (h0x : Fits a.q0.x a.template_w image0.W 0) (h0y : Fits a.q0.y a.template_h image0.H 0)
    (h1x : Fits (a.q0.x + ex) a.template_w image1.W 0) (h1y : Fits (a.q0.y + ey) a.template_h image1.H 0)
    (h2x : Fits (a.q0.x + ex + sx) a.template_w image1.W 1) (h2y : Fits (a.q0.y + ey + sy) a.template_h image1.H 1) (hsx : |sx| + 1 ≤ a.search_radius1) (hsy : |sy| + 1 ≤ a.search_radius1)
    (heq : ∀ x y : Int, |(x : ℝ) - a.q0.x| ≤ (a.template_w : ℝ) / 2 → |(y : ℝ) - a.q0.y| ≤ (a.template_h : ℝ) / 2 → image1.px (x + ex + sx) (y + ey + sy) = image0.px x y)
    (m : Method) (hm : a.method.getD .ccorr_normed = m)
    (huniq : ∀ x0 y0 tx ty : Int, Centered x0 a.template_w (a.q0.x + ex) → Centered y0 a.template_h (a.q0.y + ey) → (tx, ty) ≠ (sx, sy) → 0 ≤ x0 + tx → x0 + tx + a.template_w ≤ image1.W → 0 ≤ y0 + ty → y0 + ty + a.template_h ≤ image1.H →
      (m = .sqdiff ∧ ∃ i j : Nat, i < a.template_w ∧ j < a.template_h ∧ image1.px (x0 + tx + i) (y0 + ty + j) ≠ image0.px (x0 - ex + i) (y0 - ey + j)) ∨
      (m = .ccorr_normed ∧ (∃ i j : Nat, i < a.template_w ∧ j < a.template_h ∧ image0.px (x0 - ex + i) (y0 - ey + j) ≠ 0) ∧
        ∀ k : ℝ, ∃ i j : Nat, i < a.template_w ∧ j < a.template_h ∧ image1.px (x0 + tx + i) (y0 + ty + j) ≠ k * image0.px (x0 - ex + i) (y0 - ey + j))) :
    ∃ c x0 y0 T, Centered x0 a.template_w (a.q0.x + ex) ∧ Centered y0 a.template_h (a.q0.y + ey) ∧ (∀ i j : Nat, i < a.template_w → j < a.template_h → T i j = image0.px (x0 - ex + i) (y0 - ey + j)) ∧
      BestFit c (fun i j => scoreAt env image1 m a.template_w.toNat a.template_h.toNat T (x0 + sx + i) (y0 + sy + j)) ∧
      ((4 * c.c20 * c.c02 - c.c11 * c.c11 = 0 ∧ matchFeature env image0 image1 a = .notFinite) ∨
       (4 * c.c20 * c.c02 - c.c11 * c.c11 ≠ 0 ∧ ∃ dx dy at_ v s, Stationary c dx dy ∧ matchFeature env image0 image1 a = .found ⟨a.q0.x + ex + sx + dx, a.q0.y + ey + sy + dy⟩ at_ v s)) := by
  obtain ⟨x0, y0, cx, cy, b1, b2, b3, b4, c1, c2, c3, c4, hfeat⟩ := translation_feature env image0 image1 a hw hh hH ex ey hq h0x h0y h1x h1y
  rw [hm] at hfeat
  generalize hT : (fun i j : Nat => env.remap image0 (some (pixel (x0 - ex + i) (y0 - ey + j)))) = T at hfeat
  have hTi : ∀ i j : Nat, i < a.template_w → j < a.template_h → T i j = image0.px (x0 - ex + i) (y0 - ey + j) := by
    intro i j hi hj
    rw [← hT]
    exact hrem image0 _ _ (by omega) (by omega) (by omega) (by omega)
  have hmatch : ∀ i j : Nat, i < a.template_w.toNat → j < a.template_h.toNat → image1.px (x0 + sx + i) (y0 + sy + j) = T i j := by
    intro i j hi hj
    rw [hTi i j (by omega) (by omega), ← heq (x0 - ex + i) (y0 - ey + j)]
    · congr 1 <;> ring
    · unfold Centered at cx
      rw [abs_le] at cx ⊢
      have hi' : (i : ℝ) ≤ (a.template_w : ℝ) - 1 := by have : (i : Int) ≤ a.template_w - 1 := by omega
                                                        exact_mod_cast this
      have := Nat.cast_nonneg (α := ℝ) i
      push_cast
      constructor <;> linarith
    · unfold Centered at cy
      rw [abs_le] at cy ⊢
      have hj' : (j : ℝ) ≤ (a.template_h : ℝ) - 1 := by have : (j : Int) ≤ a.template_h - 1 := by omega
                                                        exact_mod_cast this
      have := Nat.cast_nonneg (α := ℝ) j
      push_cast
      constructor <;> linarith
  have fx : 0 ≤ x0 + sx - 1 ∧ x0 + sx + 1 + a.template_w ≤ image1.W := by
    obtain ⟨k1, k2⟩ := h2x
    unfold Centered at cx
    rw [abs_le] at cx
    constructor
    · have : (0 : ℝ) ≤ x0 + sx - 1 := by linarith
      exact_mod_cast this
    · have : (x0 : ℝ) + sx + 1 + a.template_w ≤ image1.W := by linarith
      exact_mod_cast this
  have fy : 0 ≤ y0 + sy - 1 ∧ y0 + sy + 1 + a.template_h ≤ image1.H := by
    obtain ⟨k1, k2⟩ := h2y
    unfold Centered at cy
    rw [abs_le] at cy
    constructor
    · have : (0 : ℝ) ≤ y0 + sy - 1 := by linarith
      exact_mod_cast this
    · have : (y0 : ℝ) + sy + 1 + a.template_h ≤ image1.H := by linarith
      exact_mod_cast this
  have habs := abs_le.mp (le_refl |sx|)
  have habsy := abs_le.mp (le_refl |sy|)
  obtain ⟨c, hfit, hres⟩ := best_reported env hok hsome image1 m a.template_w.toNat a.template_h.toNat (by omega) (by omega) a.search_radius1 (by omega) T ⟨a.q0.x + ex, a.q0.y + ey⟩ x0 y0 b1 (by omega) b3 (by omega)
    (x0 + sx) (y0 + sy)
    ⟨⟨abs_le.mpr (by omega), by omega, by omega⟩, abs_le.mpr (by omega), by omega, by omega⟩
    ⟨⟨abs_le.mpr (by omega), by omega, by omega⟩, abs_le.mpr (by omega), by omega, by omega⟩
    (by
      intro X Y hS hne
      have hne' : (X - x0, Y - y0) ≠ (sx, sy) := by
        intro he
        obtain ⟨e1, e2⟩ := Prod.mk.inj he
        exact hne (by rw [← e1, ← e2]; ext <;> simp)
      obtain ⟨⟨s1, s2, s3⟩, s4, s5, s6⟩ := hS
      unfold scoreAt
      rcases huniq x0 y0 (X - x0) (Y - y0) cx cy hne' (by omega) (by omega) (by omega) (by omega) with ⟨rfl, i, j, hi, hj, hd⟩ | ⟨rfl, ⟨i, j, hi, hj, hnz⟩, hk⟩
      · left
        refine ⟨trivial, ?_⟩
        rw [(hsc _ _ _ _).1, (hsc _ _ _ _).1, sqdiff_zero _ _ _ _ hmatch]
        rcases sqdiff_best a.template_w.toNat a.template_h.toNat T (fun i j => image1.px (X + i) (Y + j)) with h | h
        · have := h i j (by omega) (by omega)
          rw [hTi i j hi hj] at this
          rw [show x0 + (X - x0) = X by ring, show y0 + (Y - y0) = Y by ring] at hd
          exact absurd this hd
        · exact h
      · right
        refine ⟨fun h => h, ?_⟩
        have hpos : 0 < scoreCcorr a.template_w.toNat a.template_h.toNat T T :=
          sum2_pos _ _ _ (fun _ _ => mul_self_nonneg _) i j (by omega) (by omega) (mul_self_ne_zero.mpr (by rw [hTi i j hi hj]; exact hnz))
        rw [(hsc _ _ _ _).2.2, (hsc _ _ _ _).2.2, ccorr_normed_one _ _ _ _ hpos hmatch]
        rcases ccorr_normed_lt a.template_w.toNat a.template_h.toNat T (fun i j => image1.px (X + i) (Y + j)) hpos with ⟨k, h⟩ | h
        · obtain ⟨i, j, hi, hj, hd⟩ := hk k
          have := h i j (by omega) (by omega)
          rw [hTi i j hi hj] at this
          rw [show x0 + (X - x0) = X by ring, show y0 + (Y - y0) = Y by ring] at hd
          exact absurd this hd
        · exact h)
  refine ⟨c, x0, y0, T, cx, cy, hTi, hfit, ?_⟩
  rw [hfeat]
  rcases hres with h | ⟨hd, dx, dy, at_, v, s, hst, h⟩
  · exact Or.inl h
  · refine Or.inr ⟨hd, dx, dy, at_, v, s, hst, ?_⟩
    rw [h]
    simp

/-- **C110**: no subpixel correction if the scores are symmetric -/
theorem symmetric_exact (c : Coefs) (z : Int → Int → ℝ) (hz : ∀ i j, z (-i) (-j) = z i j) (hb : BestFit c z) (hd : 4 * c.c20 * c.c02 - c.c11 * c.c11 ≠ 0) (dx dy : ℝ) (h : Stationary c dx dy) : dx = 0 ∧ dy = 0 := by
  rw [best_unique] at hb
  have h1 : c.c10 = 0 := by
    rw [hb]
    unfold closed
    have e1 := hz 1 1; have e2 := hz 1 0; have e3 := hz 1 (-1)
    simp only [neg_zero, neg_neg] at e1 e2 e3
    simp only [e1, e2, e3]
    ring
  have h2 : c.c01 = 0 := by
    rw [hb]
    unfold closed
    have e1 := hz 1 1; have e2 := hz 0 1; have e3 := hz 1 (-1)
    simp only [neg_zero, neg_neg] at e1 e2 e3
    simp only [e1, e2, e3]
    ring
  rw [stationary_of c hd, h1, h2] at h
  simpa using h

/-! ### when it's an exception -/

theorem search_ok (env : Env) (image1 : Image) (m : Method) (w h : Nat) (hw : 0 < w) (hh : 0 < h) (r : Int) (hr : 0 ≤ r) (T : Nat → Nat → ℝ) (q : P2) (x0 y0 : Int)
    (hx0 : 0 ≤ x0) (hx1 : x0 + w ≤ image1.W) (hy0 : 0 ≤ y0) (hy1 : y0 + h ≤ image1.H) : search env image1 m w h r T q x0 y0 ≠ .error := by
  obtain ⟨X, Y, -, -, hs⟩ := search_cases env image1 m w h hw hh r hr T q x0 y0 hx0 hx1 hy0 hy1
  rw [hs]
  intro h
  split_ifs at h
  split at h
  · cases h
  · split_ifs at h

/-- **C110**: the arguments that are rejected -/
theorem args_checked (env : Env) (image0 image1 : Image) (a : Args)
    (h : a.template_w ≤ 0 ∨ a.template_h ≤ 0 ∨ (a.H10.isSome ↔ a.q1_estimate.isSome) ∨ ∃ H, a.H10 = some H ∧ det3 H = 0) : matchFeature env image0 image1 a = .error := by
  rcases feature_cases env image0 image1 a with he | ⟨H, Hinv, est, x0, y0, hw, hh, hest, hinv, -⟩
  · exact he
  · exfalso
    rcases h with h | h | h | ⟨H', h, hd⟩
    · omega
    · omega
    · rcases estimate_guess a H est hest with ⟨h1, h2, -⟩ | ⟨h1, h2, -⟩ <;> simp [h1, h2] at h
    · rcases estimate_guess a H est hest with ⟨h1, -⟩ | ⟨h1, -⟩
      · rw [h, Option.some.injEq] at h1
        subst h1
        unfold inv3 at hinv
        rw [hd] at hinv
        simp at hinv
      · simp [h] at h1

theorem affine_inv (H Hinv : M3) (h : inv3 H = some Hinv) (h0 : H.a20 = 0) (h1 : H.a21 = 0) (h2 : H.a22 = 1) : Hinv.a20 = 0 ∧ Hinv.a21 = 0 ∧ Hinv.a22 = 1 := by
  unfold inv3 at h
  dsimp only at h
  split_ifs at h with hd
  have h' := Option.some.inj h
  subst h'
  unfold det3 at hd ⊢
  rw [h0, h1, h2] at *
  refine ⟨by simp, by simp, ?_⟩
  simp only []
  rw [div_eq_one_iff_eq hd]
  ring

/-- a function that is linear in two coordinates, in a box -/
theorem box_bounds (a b c x0 x1 y0 y1 x y lo hi : ℝ) (hx : x0 ≤ x) (hx' : x ≤ x1) (hy : y0 ≤ y) (hy' : y ≤ y1)
    (h1 : lo ≤ a * x0 + b * y0 + c ∧ a * x0 + b * y0 + c < hi) (h2 : lo ≤ a * x0 + b * y1 + c ∧ a * x0 + b * y1 + c < hi)
    (h3 : lo ≤ a * x1 + b * y0 + c ∧ a * x1 + b * y0 + c < hi) (h4 : lo ≤ a * x1 + b * y1 + c ∧ a * x1 + b * y1 + c < hi) : lo ≤ a * x + b * y + c ∧ a * x + b * y + c < hi := by
  obtain ⟨h1, k1⟩ := h1; obtain ⟨h2, k2⟩ := h2; obtain ⟨h3, k3⟩ := h3; obtain ⟨h4, k4⟩ := h4
  have m : ∀ (a x0 x x1 : ℝ), x0 ≤ x → x ≤ x1 → (a * x0 ≤ a * x ∧ a * x ≤ a * x1) ∨ (a * x1 ≤ a * x ∧ a * x ≤ a * x0) := by
    intro a x0 x x1 hx hx'
    rcases le_total 0 a with ha | ha
    · exact Or.inl ⟨mul_le_mul_of_nonneg_left hx ha, mul_le_mul_of_nonneg_left hx' ha⟩
    · exact Or.inr ⟨mul_le_mul_of_nonpos_left hx' ha, mul_le_mul_of_nonpos_left hx ha⟩
  rcases m a x0 x x1 hx hx' with ⟨p1, p2⟩ | ⟨p1, p2⟩ <;> rcases m b y0 y y1 hy hy' with ⟨p3, p4⟩ | ⟨p3, p4⟩ <;> constructor <;> linarith

/-- **C110**: "If the template being matched is out-of-bounds in either image, this function raises an exception". Without an exception, the box in image1 is entirely in image1, and each of its pixels corresponds to a pixel of image0 in
[0,width) x [0,height). Missing: a homography that isn't affine (`template_projective_wrong`); the last pixel is at width-1 (`template_edge_wrong`) -/
theorem template_inside_partial (env : Env) (image0 image1 : Image) (a : Args) (h : matchFeature env image0 image1 a ≠ .error) :
    ∃ H est x0 y0, Guess a H est ∧ Centered x0 a.template_w est.x ∧ Centered y0 a.template_h est.y ∧ 0 ≤ x0 ∧ x0 + a.template_w ≤ image1.W ∧ 0 ≤ y0 ∧ y0 + a.template_h ≤ image1.H ∧
      ((a.H10 = none ∨ (H.a20 = 0 ∧ H.a21 = 0 ∧ H.a22 = 1)) → ∀ i j : Nat, i < a.template_w → j < a.template_h →
        ∃ p, applyHomography H p = some ⟨(x0 : ℝ) + i, (y0 : ℝ) + j⟩ ∧ 0 ≤ p.x ∧ p.x < image0.W ∧ 0 ≤ p.y ∧ p.y < image0.H) := by
  rcases feature_cases env image0 image1 a with he | ⟨H, Hinv, est, x0, y0, hw, hh, hest, hinv, hx0, hy0, b1, b2, b3, b4, hc, -⟩
  · exact absurd he h
  · refine ⟨H, est, x0, y0, estimate_guess a H est hest, hx0 ▸ templateMin_centered _ _, hy0 ▸ templateMin_centered _ _, b1, b2, b3, b4, ?_⟩
    intro haff i j hi hj
    have haff' : H.a20 = 0 ∧ H.a21 = 0 ∧ H.a22 = 1 := by
      rcases haff with h0 | h0
      · unfold estimate at hest
        rw [h0] at hest
        cases hq : a.q1_estimate with
        | none => rw [hq] at hest; simp at hest
        | some q =>
          rw [hq] at hest
          simp only [Option.some.injEq, Prod.mk.injEq] at hest
          rw [← hest.1]
          exact ⟨rfl, rfl, rfl⟩
      · exact h0
    obtain ⟨i0, i1, i2⟩ := affine_inv H Hinv hinv haff'.1 haff'.2.1 haff'.2.2
    have happ : ∀ q, applyHomography Hinv q = some ⟨Hinv.a00 * q.x + Hinv.a01 * q.y + Hinv.a02, Hinv.a10 * q.x + Hinv.a11 * q.y + Hinv.a12⟩ := by
      intro q
      unfold applyHomography
      rw [i0, i1, i2]
      simp
    have hb : ∀ x y : Int, inBounds image0 (applyHomography Hinv (pixel x y)) = true →
        (0 ≤ Hinv.a00 * (x : ℝ) + Hinv.a01 * y + Hinv.a02 ∧ Hinv.a00 * (x : ℝ) + Hinv.a01 * y + Hinv.a02 < image0.W) ∧ (0 ≤ Hinv.a10 * (x : ℝ) + Hinv.a11 * y + Hinv.a12 ∧ Hinv.a10 * (x : ℝ) + Hinv.a11 * y + Hinv.a12 < image0.H) := by
      intro x y hxy
      rw [happ] at hxy
      unfold inBounds pixel at hxy
      simp only [decide_eq_true_eq, not_lt, not_le, ge_iff_le] at hxy
      exact ⟨⟨hxy.1, hxy.2.2.1⟩, hxy.2.1, hxy.2.2.2⟩
    have c1 := hb _ _ (hc _ (by simp : pixel x0 y0 ∈ _))
    have c2 := hb _ _ (hc _ (by simp : pixel x0 (y0 + a.template_h - 1) ∈ _))
    have c3 := hb _ _ (hc _ (by simp : pixel (x0 + a.template_w - 1) y0 ∈ _))
    have c4 := hb _ _ (hc _ (by simp : pixel (x0 + a.template_w - 1) (y0 + a.template_h - 1) ∈ _))
    have e1 : (x0 : ℝ) ≤ ((x0 + i : Int) : ℝ) := by exact_mod_cast (by omega : x0 ≤ x0 + i)
    have e2 : ((x0 + i : Int) : ℝ) ≤ ((x0 + a.template_w - 1 : Int) : ℝ) := by exact_mod_cast (by omega : x0 + (i : Int) ≤ x0 + a.template_w - 1)
    have e3 : (y0 : ℝ) ≤ ((y0 + j : Int) : ℝ) := by exact_mod_cast (by omega : y0 ≤ y0 + j)
    have e4 : ((y0 + j : Int) : ℝ) ≤ ((y0 + a.template_h - 1 : Int) : ℝ) := by exact_mod_cast (by omega : y0 + (j : Int) ≤ y0 + a.template_h - 1)
    have bx := box_bounds Hinv.a00 Hinv.a01 Hinv.a02 _ _ _ _ _ _ 0 image0.W e1 e2 e3 e4 c1.1 c2.1 c3.1 c4.1
    have by' := box_bounds Hinv.a10 Hinv.a11 Hinv.a12 _ _ _ _ _ _ 0 image0.H e1 e2 e3 e4 c1.2 c2.2 c3.2 c4.2
    refine ⟨⟨Hinv.a00 * ((x0 + i : Int) : ℝ) + Hinv.a01 * ((y0 + j : Int) : ℝ) + Hinv.a02, Hinv.a10 * ((x0 + i : Int) : ℝ) + Hinv.a11 * ((y0 + j : Int) : ℝ) + Hinv.a12⟩, ?_, bx.1, bx.2, by'.1, by'.2⟩
    have := apply_inverse H Hinv hinv (pixel (x0 + i) (y0 + j)) _ (happ _)
    simp only [pixel] at this
    rw [this]
    simp

/-- **C110**: whatever the homography, if this isn't an error then each corner of the template comes from a pixel of image0: finite, and inside that image; and the homography takes that pixel back to
the corner -/
theorem corners_inside (env : Env) (image0 image1 : Image) (a : Args) (h : matchFeature env image0 image1 a ≠ .error) :
    ∃ H est x0 y0, estimate a = some (H, est) ∧ x0 = templateMin est.x a.template_w ∧ y0 = templateMin est.y a.template_h ∧
      ∀ x ∈ [x0, x0 + a.template_w - 1], ∀ y ∈ [y0, y0 + a.template_h - 1], ∃ q : P2, applyHomography H q = some ⟨x, y⟩ ∧ 0 ≤ q.x ∧ q.x < image0.W ∧ 0 ≤ q.y ∧ q.y < image0.H := by
  rcases feature_cases env image0 image1 a with he | ⟨H, Hinv, est, x0, y0, -, -, hest, hinv, hx0, hy0, -, -, -, -, hc, -⟩
  · exact absurd he h
  · refine ⟨H, est, x0, y0, hest, hx0, hy0, fun x hx y hy => ?_⟩
    have hin : inBounds image0 (applyHomography Hinv (pixel x y)) = true := by
      refine hc _ ?_
      simp only [List.mem_cons, List.not_mem_nil, or_false] at hx hy ⊢
      rcases hx with rfl | rfl <;> rcases hy with rfl | rfl <;> simp
    cases hq : applyHomography Hinv (pixel x y) with
    | none => rw [hq] at hin; simp [inBounds] at hin
    | some q =>
      rw [hq] at hin
      unfold inBounds at hin
      simp only [decide_eq_true_eq, not_lt, not_le, ge_iff_le] at hin
      refine ⟨q, ?_, hin.1, hin.2.2.1, hin.2.1, hin.2.2.2⟩
      rw [apply_inverse H Hinv hinv _ _ hq]
      rfl

/-- an image of 5 by 5 pixels -/
def image5 (px : Int → Int → ℝ) : Image := ⟨5, 5, px⟩

theorem round_of (x : ℝ) (n : Int) (h : (n : ℝ) ≤ x) (h' : x < n + 1 / 2) : pyRound x = n := by
  have hf : ⌊x⌋ = n := Int.floor_eq_iff.mpr ⟨h, by linarith⟩
  unfold pyRound
  simp only [hf]
  rw [if_pos (by linarith)]

theorem not_error (env : Env) (image0 image1 : Image) (a : Args) (hw : 0 < a.template_w) (hh : 0 < a.template_h) (H Hinv : M3) (q1 : P2) (he : estimate a = some (H, q1)) (hi : inv3 H = some Hinv) (x0 y0 : Int)
    (hx0 : templateMin q1.x a.template_w = x0) (hy0 : templateMin q1.y a.template_h = y0) (b1 : 0 ≤ x0) (b2 : x0 + a.template_w ≤ image1.W) (b3 : 0 ≤ y0) (b4 : y0 + a.template_h ≤ image1.H)
    (hc : ∀ q ∈ [pixel x0 y0, pixel x0 (y0 + a.template_h - 1), pixel (x0 + a.template_w - 1) y0, pixel (x0 + a.template_w - 1) (y0 + a.template_h - 1)], inBounds image0 (applyHomography Hinv q) = true) :
    matchFeature env image0 image1 a = search env image1 (a.method.getD .ccorr_normed) a.template_w.toNat a.template_h.toNat a.search_radius1 (template env image0 Hinv x0 y0) q1 x0 y0 := by
  unfold matchFeature
  rw [if_neg (by simpa using ⟨hw, hh⟩), he]
  dsimp only
  rw [hx0, hy0, hi]
  dsimp only
  have b1 : (inBounds image1 (some (pixel x0 y0)) && inBounds image1 (some (pixel (x0 + a.template_w - 1) (y0 + a.template_h - 1)))) = true := by
    rw [Bool.and_eq_true, inBounds_pixel, inBounds_pixel]
    omega
  rw [b1, if_neg (by simp), List.all_eq_true.mpr hc, if_neg (by simp)]

/-- **C110**: a template that is partially outside of image0 isn't always rejected: here it's a single pixel, at x=4.75 in an image with the pixels 0..4 -/
theorem template_edge_wrong (env : Env) (px0 px1 : Int → Int → ℝ) (r : Nat) (m : Option Method) :
    matchFeature env (image5 px0) (image5 px1) ⟨⟨19 / 4, 2⟩, r, 1, 1, some ⟨2, 2⟩, none, m⟩ ≠ .error := by
  have hm : templateMin (2 : ℝ) 1 = 2 := round_of _ _ (by norm_num) (by norm_num)
  have hinv : inv3 (⟨1, 0, 2 - 19 / 4, 0, 1, 2 - 2, 0, 0, 1⟩ : M3) = some ⟨1, 0, 11 / 4, 0, 1, 0, 0, 0, 1⟩ := by
    unfold inv3
    norm_num [det3]
  rw [not_error env (image5 px0) (image5 px1) ⟨⟨19 / 4, 2⟩, r, 1, 1, some ⟨2, 2⟩, none, m⟩ (by norm_num) (by norm_num) _ _ _ rfl hinv 2 2 hm hm (by norm_num) (by norm_num [image5]) (by norm_num) (by norm_num [image5])]
  · exact search_ok env (image5 px1) _ 1 1 (by norm_num) (by norm_num) r (by omega) _ _ 2 2 (by norm_num) (by norm_num [image5]) (by norm_num) (by norm_num [image5])
  · have : inBounds (image5 px0) (applyHomography (⟨1, 0, 11 / 4, 0, 1, 0, 0, 0, 1⟩ : M3) (pixel 2 2)) = true := by
      unfold applyHomography inBounds pixel image5
      norm_num
    intro q hq
    simp at hq
    rw [hq]
    exact this

/-- **C110**: with a homography that isn't affine, only the corners are checked: here the center pixel of the template corresponds to no pixel of image0 -/
theorem template_projective_wrong (env : Env) (px0 px1 : Int → Int → ℝ) (r : Nat) (m : Option Method) :
    matchFeature env (image5 px0) (image5 px1) ⟨⟨1, 3⟩, r, 3, 1, none, some ⟨0, 4, -3, 1, 2, -3, 0, 2, -2⟩, m⟩ ≠ .error ∧
    (∀ x0 : Int, Centered x0 3 (9 / 4) → x0 = 1) ∧ applyHomography (⟨0, 4, -3, 1, 2, -3, 0, 2, -2⟩ : M3) ⟨1, 3⟩ = some ⟨9 / 4, 1⟩ ∧
    ¬ ∃ p, applyHomography (⟨0, 4, -3, 1, 2, -3, 0, 2, -2⟩ : M3) p = some ⟨(1 : ℝ) + (1 : Nat), 1⟩ := by
  have happ : applyHomography (⟨0, 4, -3, 1, 2, -3, 0, 2, -2⟩ : M3) ⟨1, 3⟩ = some ⟨9 / 4, 1⟩ := by
    unfold applyHomography
    norm_num
  have hmx : templateMin (9 / 4 : ℝ) 3 = 1 := round_of _ _ (by norm_num) (by norm_num)
  have hmy : templateMin (1 : ℝ) 1 = 1 := round_of _ _ (by norm_num) (by norm_num)
  have hinv : inv3 (⟨0, 4, -3, 1, 2, -3, 0, 2, -2⟩ : M3) = some ⟨1, 1, -3, 1, 0, -3 / 2, 1, 0, -2⟩ := by
    unfold inv3
    norm_num [det3]
  refine ⟨?_, ?_, happ, ?_⟩
  · rw [not_error env (image5 px0) (image5 px1) ⟨⟨1, 3⟩, r, 3, 1, none, some ⟨0, 4, -3, 1, 2, -3, 0, 2, -2⟩, m⟩ (by norm_num) (by norm_num) _ _ ⟨9 / 4, 1⟩ (by unfold estimate; dsimp only; rw [happ]; rfl) hinv 1 1 hmx hmy
      (by norm_num) (by norm_num [image5]) (by norm_num) (by norm_num [image5])]
    · exact search_ok env (image5 px1) _ 3 1 (by norm_num) (by norm_num) r (by omega) _ _ 1 1 (by norm_num) (by norm_num [image5]) (by norm_num) (by norm_num [image5])
    · have h1 : inBounds (image5 px0) (applyHomography (⟨1, 1, -3, 1, 0, -3 / 2, 1, 0, -2⟩ : M3) (pixel 1 1)) = true := by
        unfold applyHomography inBounds pixel image5
        norm_num
      have h3 : inBounds (image5 px0) (applyHomography (⟨1, 1, -3, 1, 0, -3 / 2, 1, 0, -2⟩ : M3) (pixel 3 1)) = true := by
        unfold applyHomography inBounds pixel image5
        norm_num
      intro q hq
      norm_num at hq
      rcases hq with rfl | rfl
      · exact h1
      · exact h3
  · intro x0 h
    unfold Centered at h
    rw [abs_le] at h
    norm_num at h
    have a1 : (x0 : ℝ) < 2 := by linarith
    have a2 : (0 : ℝ) < x0 := by linarith
    have b1 : x0 < 2 := by exact_mod_cast a1
    have b2 : 0 < x0 := by exact_mod_cast a2
    omega
  · rintro ⟨p, hp⟩
    unfold applyHomography at hp
    simp only at hp
    split_ifs at hp with hz
    simp only [Option.some.injEq, P2.mk.injEq] at hp
    obtain ⟨h1, h2⟩ := hp
    rw [div_eq_iff hz] at h1 h2
    norm_num at h1 h2
    linarith

/-! ### the subpixel fit may fail -/

/-- searching a single bright pixel -/
noncomputable def spotArgs : Args := ⟨⟨2, 2⟩, 1, 1, 1, some ⟨2, 2⟩, none, some .ccorr⟩

theorem spot (env : Env) (hok : LstsqOk env) (hsome : ∀ z, (env.lstsq z).isSome) (hrem : RemapOk env) (hsc : ScoresOk env) (px : Int → Int → ℝ)
    (hbest : ∀ x y : Int, |x| ≤ 1 → |y| ≤ 1 → (x, y) ≠ (0, 0) → px (2 + x) (2 + y) < px 2 2) :
    ∃ c, c = closed (fun x y => px (2 + x) (2 + y)) ∧
      ((4 * c.c20 * c.c02 - c.c11 * c.c11 = 0 ∧ matchFeature env (image5 fun _ _ => 1) (image5 px) spotArgs = .notFinite) ∨
       (4 * c.c20 * c.c02 - c.c11 * c.c11 ≠ 0 ∧ ∃ dx dy at_ v s, Stationary c dx dy ∧ matchFeature env (image5 fun _ _ => 1) (image5 px) spotArgs = .found ⟨2 + dx, 2 + dy⟩ at_ v s)) := by
  have fit : Fits 2 1 5 0 := by unfold Fits; norm_num
  have fit' : Fits (2 + ((0 : Int) : ℝ)) 1 5 0 := by unfold Fits; norm_num
  obtain ⟨x0, y0, cx, cy, -, -, -, -, -, -, -, -, hfeat⟩ := translation_feature env (image5 fun _ _ => 1) (image5 px) spotArgs (by norm_num [spotArgs]) (by norm_num [spotArgs]) rfl 0 0 (by simp [spotArgs]) fit fit fit' fit'
  have two : ∀ x : Int, Centered x 1 (2 + ((0 : Int) : ℝ)) → x = 2 := by
    intro x h
    unfold Centered at h
    rw [abs_le] at h
    norm_num at h
    have a1 : (x : ℝ) < 3 := by linarith
    have a2 : (1 : ℝ) < x := by linarith
    have b1 : x < 3 := by exact_mod_cast a1
    have b2 : 1 < x := by exact_mod_cast a2
    omega
  obtain rfl := two x0 cx
  obtain rfl := two y0 cy
  generalize hT : (fun i j : Nat => env.remap (image5 fun _ _ => 1) (some (pixel (2 - 0 + i) (2 - 0 + j)))) = T at hfeat
  have hT0 : T 0 0 = 1 := by
    rw [← hT]
    exact hrem (image5 fun _ _ => 1) _ _ (by norm_num) (by norm_num [image5]) (by norm_num) (by norm_num [image5])
  have hs : ∀ X Y, scoreAt env (image5 px) .ccorr 1 1 T X Y = px X Y := by
    intro X Y
    unfold scoreAt
    rw [(hsc _ _ _ _).2.1]
    unfold scoreCcorr sum2
    simp [hT0, image5]
  obtain ⟨c, hfit, hres⟩ := best_reported env hok hsome (image5 px) .ccorr 1 1 (by norm_num) (by norm_num) 1 (by norm_num) T ⟨2 + ((0 : Int) : ℝ), 2 + ((0 : Int) : ℝ)⟩ 2 2 (by norm_num) (by norm_num [image5]) (by norm_num) (by norm_num [image5])
    2 2 (by unfold Searched image5; norm_num) (by unfold Searched image5; norm_num)
    (by
      intro X Y hS hne
      right
      refine ⟨fun h => h, ?_⟩
      rw [hs, hs]
      obtain ⟨⟨s1, -⟩, s2, -⟩ := hS
      have := hbest (X - 2) (Y - 2) s1 s2 (by
        intro he
        obtain ⟨e1, e2⟩ := Prod.mk.inj he
        exact hne (by rw [show X = 2 by omega, show Y = 2 by omega]))
      rwa [show 2 + (X - 2) = X by ring, show 2 + (Y - 2) = Y by ring] at this)
  simp only [hs] at hfit
  refine ⟨c, (best_unique _ _).mp hfit, ?_⟩
  have hf' : matchFeature env (image5 fun _ _ => 1) (image5 px) spotArgs = search env (image5 px) .ccorr 1 1 1 T ⟨2 + ((0 : Int) : ℝ), 2 + ((0 : Int) : ℝ)⟩ 2 2 := hfeat
  rw [hf']
  rcases hres with h | ⟨hd, dx, dy, at_, v, s, hst, h⟩
  · exact Or.inl h
  · refine Or.inr ⟨hd, dx, dy, at_, v, s, hst, ?_⟩
    rw [h]
    simp

/-- the scores around the best one, which is at (2,2). The right column is given -/
def around (r0 r1 r2 : ℝ) (x y : Int) : ℝ :=
  if x = 1 then 60 else if x = 3 then (if y = 1 then r0 else if y = 2 then r1 else if y = 3 then r2 else 0) else if x = 2 then (if y = 1 then 40 else if y = 2 then 100 else if y = 3 then 41 else 0) else 0

theorem around_best (r0 r1 r2 : ℝ) (h0 : r0 < 100) (h1 : r1 < 100) (h2 : r2 < 100) (x y : Int) (hx : |x| ≤ 1) (hy : |y| ≤ 1) (hne : (x, y) ≠ (0, 0)) : around r0 r1 r2 (2 + x) (2 + y) < around r0 r1 r2 2 2 := by
  rw [abs_le] at hx hy
  have : (x = -1 ∨ x = 0 ∨ x = 1) ∧ (y = -1 ∨ y = 0 ∨ y = 1) := by omega
  obtain ⟨hx | hx | hx, hy | hy | hy⟩ := this <;> subst hx <;> subst hy <;> first | exact absurd rfl hne | (norm_num [around]; try linarith)

/-- **C110**: the best score is a clear maximum of all the scores, but the surface has no maximum: what's reported is its saddle point, 1.5 pixels from the best score, at the edge of what was searched. The documentation: "If the match fails in some
data-dependent way, we return q1 = None" -/
theorem saddle_wrong (env : Env) (hok : LstsqOk env) (hsome : ∀ z, (env.lstsq z).isSome) (hrem : RemapOk env) (hsc : ScoresOk env) :
    ∃ c at_ v s, BestFit c (fun x y => around 61 61 61 (2 + x) (2 + y)) ∧ matchFeature env (image5 fun _ _ => 1) (image5 (around 61 61 61)) spotArgs = .found ⟨2 - 3 / 2, 2 + c.c01 / (119 / 3)⟩ at_ v s ∧
      Stationary c (-3 / 2) (c.c01 / (119 / 3)) ∧ ∀ dx, dx ≠ -3 / 2 → surface c dx (c.c01 / (119 / 3)) > surface c (-3 / 2) (c.c01 / (119 / 3)) := by
  obtain ⟨c, hc, h⟩ := spot env hok hsome hrem hsc (around 61 61 61) (around_best _ _ _ (by norm_num) (by norm_num) (by norm_num))
  have e20 : c.c20 = 1 / 6 := by rw [hc]; norm_num [closed, around]
  have e11 : c.c11 = 0 := by rw [hc]; norm_num [closed, around]
  have e02 : c.c02 = -119 / 6 := by rw [hc]; norm_num [closed, around]
  have e10 : c.c10 = 1 / 2 := by rw [hc]; norm_num [closed, around]
  rcases h with ⟨hd, -⟩ | ⟨hd, dx, dy, at_, v, s, hst, h⟩
  · rw [e20, e11, e02] at hd
    norm_num at hd
  · have hst' := hst
    unfold Stationary at hst'
    rw [e20, e11, e02, e10] at hst'
    obtain ⟨s1, s2⟩ := hst'
    have hdx : dx = -3 / 2 := by linarith
    have hdy : dy = c.c01 / (119 / 3) := by rw [eq_div_iff (by norm_num)]; linarith
    subst hdx hdy
    refine ⟨c, at_, v, s, (best_unique _ _).mpr hc, ?_, hst, ?_⟩
    · rw [h]; norm_num
    · intro dx hne
      unfold surface
      rw [e20, e11, e10]
      have : 0 < (dx - -3 / 2) ^ 2 := by
        have : dx - -3 / 2 ≠ 0 := sub_ne_zero.mpr hne
        positivity
      nlinarith

/-- **C110**: if the surface has no stationary point at all then what's reported isn't finite; the documentation says that q1 is None -/
theorem degenerate_wrong (env : Env) (hok : LstsqOk env) (hsome : ∀ z, (env.lstsq z).isSome) (hrem : RemapOk env) (hsc : ScoresOk env) :
    matchFeature env (image5 fun _ _ => 1) (image5 (around 60 62 60)) spotArgs = .notFinite := by
  obtain ⟨c, hc, h⟩ := spot env hok hsome hrem hsc (around 60 62 60) (around_best _ _ _ (by norm_num) (by norm_num) (by norm_num))
  have e20 : c.c20 = 0 := by rw [hc]; norm_num [closed, around]
  have e11 : c.c11 = 0 := by rw [hc]; norm_num [closed, around]
  rcases h with ⟨-, h⟩ | ⟨hd, -⟩
  · exact h
  · rw [e20, e11] at hd
    norm_num at hd

/-! ### examples -/

/-- libraries as documented -/
noncomputable def exEnv : Env where
  remap im p := match p with
    | none => 0
    | some p => im.px ⌊p.x⌋ ⌊p.y⌋
  score m w h T I := match m with
    | .sqdiff => scoreSqdiff w h T I
    | .ccorr => scoreCcorr w h T I
    | .ccorr_normed => scoreCcorrNormed w h T I
    | _ => 0
  lstsq z := some (closed fun x y => z (3 * (y + 1) + (x + 1)).toNat)

theorem ex_ok : LstsqOk exEnv ∧ (∀ z, (exEnv.lstsq z).isSome) ∧ RemapOk exEnv ∧ ScoresOk exEnv := by
  refine ⟨?_, fun z => rfl, ?_, fun w h T I => ⟨rfl, rfl, rfl⟩⟩
  · intro z c h
    rw [best_unique]
    exact (Option.some.inj h).symm
  · intro im x y _ _ _ _
    simp [exEnv, pixel]

/-- a reported match; q1 is None; something else -/
example : (∃ q1 at_ v s, matchFeature exEnv (image5 fun _ _ => 1) (image5 (around 61 61 61)) spotArgs = .found q1 at_ v s) ∧
    matchFeature exEnv (image5 fun _ _ => 1) (image5 (around 60 62 60)) spotArgs = .notFinite :=
  ⟨by obtain ⟨c, at_, v, s, -, h, -⟩ := saddle_wrong exEnv ex_ok.1 ex_ok.2.1 ex_ok.2.2.1 ex_ok.2.2.2; exact ⟨_, _, _, _, h⟩, degenerate_wrong exEnv ex_ok.1 ex_ok.2.1 ex_ok.2.2.1 ex_ok.2.2.2⟩

/-- with a search radius of 0, everything is at the edge -/
example (px0 px1 : Int → Int → ℝ) : matchFeature exEnv (image5 px0) (image5 px1) { spotArgs with search_radius1 := 0 } = .noMatch := by
  have fit : Fits 2 1 5 0 := by unfold Fits; norm_num
  have fit' : Fits (2 + ((0 : Int) : ℝ)) 1 5 0 := by unfold Fits; norm_num
  obtain ⟨x0, y0, -, -, b1, b2, b3, b4, -, -, -, -, hfeat⟩ := translation_feature exEnv (image5 px0) (image5 px1) { spotArgs with search_radius1 := 0 } (by norm_num [spotArgs]) (by norm_num [spotArgs]) rfl 0 0 (by simp [spotArgs]) fit fit fit' fit'
  rw [hfeat]
  obtain ⟨X, Y, ⟨⟨h1, -⟩, -⟩, -, hs⟩ := search_cases exEnv (image5 px1) .ccorr 1 1 (by norm_num) (by norm_num) 0 (by norm_num) (fun i j => exEnv.remap (image5 px0) (some (pixel (x0 - 0 + i) (y0 - 0 + j)))) ⟨2 + ((0 : Int) : ℝ), 2 + ((0 : Int) : ℝ)⟩ x0 y0 b1 b2 b3 b4
  refine hs.trans (if_pos ?_)
  rintro ⟨⟨⟨h2, -⟩, -⟩, -⟩
  rw [abs_le] at h1 h2
  omega

theorem centered_one (x n : Int) (h : Centered x 1 n) : x = n := by
  unfold Centered at h
  rw [abs_le] at h
  norm_num at h
  have a1 : (x : ℝ) < n + 1 := by linarith
  have a2 : (n : ℝ) < x + 1 := by linarith
  have b1 : x < n + 1 := by exact_mod_cast a1
  have b2 : n < x + 1 := by exact_mod_cast a2
  omega

/-- a bright pixel that was expected at (3,3), and is at (4,3) -/
example : ∃ dx dy at_ v s, matchFeature exEnv ⟨5, 5, fun x y => if x = 2 ∧ y = 2 then 7 else 0⟩ ⟨9, 9, fun x y => if x = 4 ∧ y = 3 then 7 else 0⟩ ⟨⟨2, 2⟩, 2, 1, 1, some ⟨3, 3⟩, none, some .sqdiff⟩ = .found ⟨4 + dx, 3 + dy⟩ at_ v s ∨
    matchFeature exEnv ⟨5, 5, fun x y => if x = 2 ∧ y = 2 then 7 else 0⟩ ⟨9, 9, fun x y => if x = 4 ∧ y = 3 then 7 else 0⟩ ⟨⟨2, 2⟩, 2, 1, 1, some ⟨3, 3⟩, none, some .sqdiff⟩ = .notFinite := by
  obtain ⟨c, x0, y0, T, -, -, -, -, h⟩ := shift_found exEnv ex_ok.1 ex_ok.2.1 ex_ok.2.2.1 ex_ok.2.2.2 ⟨5, 5, fun x y => if x = 2 ∧ y = 2 then 7 else 0⟩ ⟨9, 9, fun x y => if x = 4 ∧ y = 3 then 7 else 0⟩
    ⟨⟨2, 2⟩, 2, 1, 1, some ⟨3, 3⟩, none, some .sqdiff⟩ (by norm_num) (by norm_num) rfl 1 1 1 0 (by norm_num) (by unfold Fits; norm_num) (by unfold Fits; norm_num) (by unfold Fits; norm_num) (by unfold Fits; norm_num)
    (by unfold Fits; norm_num) (by unfold Fits; norm_num) (by norm_num) (by norm_num)
    (by
      intro x y _ _
      have : (x + 1 + 1 = 4 ∧ y + 1 + 0 = 3) ↔ (x = 2 ∧ y = 2) := by omega
      simp only [this]) .sqdiff rfl
    (by
      intro x0 y0 tx ty hx hy hne _ _ _ _
      left
      refine ⟨rfl, 0, 0, by norm_num, by norm_num, ?_⟩
      obtain rfl := centered_one x0 3 (by norm_num at hx ⊢; exact hx)
      obtain rfl := centered_one y0 3 (by norm_num at hy ⊢; exact hy)
      have h1 : ¬ (3 + tx + ((0 : Nat) : Int) = 4 ∧ 3 + ty + ((0 : Nat) : Int) = 3) := by
        intro h
        exact hne (by rw [show tx = 1 by omega, show ty = 0 by omega])
      simp only [if_neg h1]
      norm_num)
  rcases h with ⟨-, h⟩ | ⟨-, dx, dy, at_, v, s, -, h⟩
  · exact ⟨0, 0, ⟨0, 0⟩, 0, ⟨0, 0⟩, Or.inr h⟩
  · refine ⟨dx, dy, at_, v, s, Or.inl (h.trans ?_)⟩
    norm_num

/-- a peak at the center: the surface, its stationary point, and the symmetry -/
example : BestFit ⟨0, 0, 0, -1, 0, -1⟩ (fun x y => surface ⟨0, 0, 0, -1, 0, -1⟩ x y) ∧ Stationary ⟨0, 0, 0, -1, 0, -1⟩ 0 0 ∧ (4 * (-1 : ℝ) * (-1) - 0 * 0 > 0) ∧
    ∀ i j : Int, surface ⟨0, 0, 0, -1, 0, -1⟩ ((-i : Int) : ℝ) ((-j : Int) : ℝ) = surface ⟨0, 0, 0, -1, 0, -1⟩ i j := by
  refine ⟨?_, by unfold Stationary; norm_num, by norm_num, fun i j => by unfold surface; push_cast; ring⟩
  intro c'
  refine le_trans (le_of_eq ?_) (misfit_nonneg _ _)
  norm_num [misfit, surface]

/-- both given -/
example (env : Env) (image0 image1 : Image) (H : M3) : matchFeature env image0 image1 { spotArgs with H10 := some H } = .error := args_checked _ _ _ _ (by simp [spotArgs])

end Mrcal.MatchFeature
