import Verif.Model.StereoPy
import Verif.Props.StereoRangeProps
import Verif.Props.StereoRectProps
/-
C115: `mrcal.stereo_range()` and `mrcal.stereo_unproject()` as Python functions: the models they accept, what the bounds mean, whole images against lists of pixels, the reference implementation.
-/
namespace Mrcal.StereoPy
open Mrcal.Cam Mrcal.Pose Mrcal.Stereo

/-! ### the models -/

theorem between (R : M3) (h : IsRot R) (a b : P3) : composeRt ⟨R, a⟩ (invertRt ⟨R, b⟩) false false = ⟨identityR, subP a b⟩ := by
  have hm : mul R (transpose R) = identityR := by
    apply toMat_inj
    rw [toMat_mul, toMat_transpose, h.1, toMat_identity]
  have hv : ∀ v, mulVec R (mulVec (transpose R) v) = mulVec (mul R (transpose R)) v := by
    intro v
    unfold mul mulVec vecMul
    ext <;> simp only [] <;> ring
  have hn : mulVec (transpose R) b (-1) = negP (mulVec (transpose R) b) := by
    unfold mulVec negP
    ext <;> simp only [] <;> ring
  have hneg : mulVec R (negP (mulVec (transpose R) b)) = negP (mulVec R (mulVec (transpose R) b)) := by
    unfold mulVec negP
    ext <;> simp only [] <;> ring
  have hI : mulVec identityR b = b := by
    unfold mulVec identityR
    ext <;> simp
  have e : composeRt ⟨R, a⟩ (invertRt ⟨R, b⟩) false false = ⟨mul R (transpose R), addP (mulVec R (mulVec (transpose R) b (-1))) a⟩ := rfl
  rw [e, hn, hneg, hv, hm, hI]
  congr 1
  unfold addP negP subP
  ext <;> simp only [] <;> ring

theorem pair_Rt01 (m : RectType) (k : Core) (W H : Nat) (rt : RtV) (b : ℝ) :
    Rt01 (pairOf m k W H rt b).1 (pairOf m k W H rt b).2 = ⟨identityR, ⟨b, 0, 0⟩⟩ ∧ Rt01 (pairOf m k W H rt b).2 (pairOf m k W H rt b).1 = ⟨identityR, ⟨-b, 0, 0⟩⟩ := by
  constructor
  · refine (between (R_from_r rt.r) (R_from_r_rot rt.r) rt.t ⟨rt.t.x - b, rt.t.y, rt.t.z⟩).trans ?_
    congr 1
    unfold subP
    ext <;> simp
  · refine (between (R_from_r rt.r) (R_from_r_rot rt.r) ⟨rt.t.x - b, rt.t.y, rt.t.z⟩ rt.t).trans ?_
    congr 1
    unfold subP
    ext <;> simp

theorem valid_of {m0 m1 : RectCam} {x : ℝ} (h : Rt01 m0 m1 = ⟨identityR, ⟨x, 0, 0⟩⟩) (hk : m0.k = m1.k) (hW : m0.W = m1.W) (hH : m0.H = m1.H) (ht : m0.type = m1.type)
    (hm : m0.type = .latlon ∨ m0.type = .pinhole) : validate m0 m1 := by
  unfold validate
  simp only [h, ← hk, ← hW, ← hH, ← ht]
  refine ⟨by simpa using hm, by norm_num, by simp, by norm_num [identityR], by norm_num⟩

theorem baseline_of {m0 m1 : RectCam} {x : ℝ} (h : Rt01 m0 m1 = ⟨identityR, ⟨x, 0, 0⟩⟩) : baselineOf m0 m1 = |x| := by
  unfold baselineOf
  simp only [h]
  rw [show x * x + 0 * 0 + 0 * 0 = x * x by ring, Real.sqrt_mul_self_eq_abs]

/-- **C115**: the models made by `rectified_system()` are accepted, and the baseline that's used is that of the rectified system -/
theorem rectified_accepted {roots : ℝ → ℝ → List ℝ} {ppd_az ppd_el : ℝ} {fov azel0_deg : P2} {margin : ℝ} {L : Lens} {intr : Int → ℝ}
    {rt0 rt1 : RtV} {m : RectType} {a e af ef : Bool} {S : RectSystem} {rt : RtV}
    (h : rectifiedSystem2 roots ppd_az ppd_el fov azel0_deg margin L intr rt0 rt1 m a e af ef = some S) (W H : Nat) :
    validate (pairOf m S.fxycxy W H rt S.baseline).1 (pairOf m S.fxycxy W H rt S.baseline).2 ∧
    baselineOf (pairOf m S.fxycxy W H rt S.baseline).1 (pairOf m S.fxycxy W H rt S.baseline).2 = S.baseline := by
  obtain ⟨-, hm, -, -, -, -, -, A, az0_deg, az0, hA, -, -, -, -, hb, -, -⟩ := system_some h
  obtain ⟨-, bpos, -⟩ := (rect_axes _).2 A hA
  refine ⟨valid_of (pair_Rt01 m S.fxycxy W H rt S.baseline).1 rfl rfl rfl rfl hm, ?_⟩
  rw [baseline_of (pair_Rt01 m S.fxycxy W H rt S.baseline).1, abs_of_pos (hb ▸ bpos)]

/-! ### the bounds -/

/-- **Specification**: a disparity, in pixels, is one to be reported: it's positive, and no given bound excludes it -/
def Allowed (a : Args) (δ : ℝ) : Prop :=
  0 < δ ∧ (∀ x, a.dmin = some x → x ≤ δ) ∧ (∀ x, a.smin = some x → x ≤ δ * a.scale) ∧ (∀ x, a.dmax = some x → δ ≤ x) ∧ (∀ x, a.smax = some x → δ * a.scale ≤ x)

/-- **Specification**: no bound is given in both ways -/
def Once (a : Args) : Prop := (a.dmin = none ∨ a.smin = none) ∧ (a.dmax = none ∨ a.smax = none)

open Classical in
/-- **Specification**: what is to be reported for a pixel q with a disparity of δ pixels -/
noncomputable def Wanted (m0 m1 : RectCam) (a : Args) (δ : ℝ) (q : P2) : ℝ := if Allowed a δ then rangeOne m0.type m0.k (baselineOf m0 m1) δ q else 0

theorem not_twice {x y : Option ℝ} (h : x = none ∨ y = none) : ¬ twice x y := by
  rintro ⟨u, v, h1, h2, -⟩
  rcases h with h | h
  · rw [h] at h1; cases h1
  · rw [h] at h2; cases h2

theorem lower_pixel {scale : ℝ} (hs : 0 < scale) {s p : Option ℝ} (h : p = none ∨ s = none) {δ : ℝ} (hd : 0 < δ) :
    pixelBound scale s p 0 ≤ δ ↔ (∀ x, p = some x → x ≤ δ) ∧ (∀ x, s = some x → x ≤ δ * scale) := by
  rcases p with _ | y <;> rcases s with _ | x
  · simp [pixelBound, hd.le]
  · simp [pixelBound, div_le_iff₀ hs]
  · simp [pixelBound]
  · simp at h

theorem upper_pixel {scale : ℝ} (hs : 0 < scale) {s p : Option ℝ} (h : p = none ∨ s = none) {δ D : ℝ} (hd : δ ≤ D) :
    δ ≤ pixelBound scale s p D ↔ (∀ x, p = some x → δ ≤ x) ∧ (∀ x, s = some x → δ * scale ≤ x) := by
  rcases p with _ | y <;> rcases s with _ | x
  · simp [pixelBound, hd]
  · simp [pixelBound, le_div_iff₀ hs]
  · simp [pixelBound]
  · simp at h

theorem lower_scaled {scale : ℝ} (hs : 0 < scale) {s p : Option ℝ} (h : p = none ∨ s = none) {n : ℝ} (hd : 0 < n) :
    scaledBound scale s p 0 ≤ n ↔ (∀ x, p = some x → x ≤ n / scale) ∧ (∀ x, s = some x → x ≤ n / scale * scale) := by
  have e : n / scale * scale = n := div_mul_cancel₀ _ hs.ne'
  rcases p with _ | y <;> rcases s with _ | x
  · simp [scaledBound, hd.le]
  · simp [scaledBound, e]
  · simp [scaledBound, le_div_iff₀ hs]
  · simp at h

theorem upper_scaled {scale : ℝ} (hs : 0 < scale) {s p : Option ℝ} (h : p = none ∨ s = none) {n D : ℝ} (hd : n ≤ D) :
    n ≤ scaledBound scale s p D ↔ (∀ x, p = some x → n / scale ≤ x) ∧ (∀ x, s = some x → n / scale * scale ≤ x) := by
  have e : n / scale * scale = n := div_mul_cancel₀ _ hs.ne'
  rcases p with _ | y <;> rcases s with _ | x
  · simp [scaledBound, hd]
  · simp [scaledBound, e]
  · simp [scaledBound, div_le_iff₀ hs]
  · simp at h

/-- the default upper bound of int16 disparities excludes none of those -/
theorem smax_allowed (d : Disp) (a : Args) (n : ℝ) (hn : d.i16 = true → n ≤ 32767) :
    (∀ x, smaxOf d a = some x → n ≤ x) ↔ (∀ x, a.smax = some x → n ≤ x) := by
  unfold smaxOf
  by_cases h : a.smax = none ∧ a.dmax = none ∧ d.i16 = true
  · rw [if_pos h, h.1]
    constructor
    · intro _ x hx; cases hx
    · intro _ x hx
      rw [← Option.some.inj hx]
      exact hn h.2.2 |>.trans (by norm_num)
  · rw [if_neg h]

theorem smax_once (d : Disp) (a : Args) (h : a.dmax = none ∨ a.smax = none) : a.dmax = none ∨ smaxOf d a = none := by
  unfold smaxOf
  by_cases hc : a.smax = none ∧ a.dmax = none ∧ d.i16 = true
  · exact Or.inl hc.2.1
  · rw [if_neg hc]; exact h

theorem allowed_pixel {a : Args} (hs : 0 < a.scale) (ho : Once a) (d : Disp) {n : ℝ} (hn : d.i16 = true → n ≤ 32767) (hmax : n / a.scale ≤ dblMax) :
    Allowed a (n / a.scale) ↔ 0 < n / a.scale ∧ pixelBound a.scale a.smin a.dmin 0 ≤ n / a.scale ∧ n / a.scale ≤ pixelBound a.scale (smaxOf d a) a.dmax dblMax := by
  have e : n / a.scale * a.scale = n := div_mul_cancel₀ _ hs.ne'
  unfold Allowed
  constructor
  · rintro ⟨h0, h1, h2, h3, h4⟩
    refine ⟨h0, (lower_pixel hs ho.1 h0).2 ⟨h1, h2⟩, (upper_pixel hs (smax_once d a ho.2) hmax).2 ⟨h3, ?_⟩⟩
    rw [e] at h4 ⊢
    exact (smax_allowed d a n hn).2 h4
  · rintro ⟨h0, h1, h2⟩
    obtain ⟨l1, l2⟩ := (lower_pixel hs ho.1 h0).1 h1
    obtain ⟨u1, u2⟩ := (upper_pixel hs (smax_once d a ho.2) hmax).1 h2
    refine ⟨h0, l1, l2, u1, ?_⟩
    rw [e] at u2 ⊢
    exact (smax_allowed d a n hn).1 u2

theorem sparseC_value {m0 m1 : RectCam} {a : Args} (hs : 0 < a.scale) (ho : Once a) (D : Disp) {N Nq : Nat} {d : Nat → ℝ} {q : Nat → P2} {r : Nat → ℝ}
    (h : rangeSparseC m0 m1 a (smaxOf D a) N d Nq q = some r) :
    N = Nq ∧ ∀ i, i < N → (D.i16 = true → d i ≤ 32767) → d i / a.scale ≤ dblMax → r i = Wanted m0 m1 a (d i / a.scale) (q i) := by
  unfold rangeSparseC at h
  by_cases hN : N ≠ Nq
  · rw [if_pos hN] at h; cases h
  rw [if_neg hN] at h
  refine ⟨not_not.1 hN, fun i hi h16 hmax => ?_⟩
  obtain ⟨-, hv⟩ := range_sparse m0.type m0.k (baselineOf m0 m1) N (fun i => d i / a.scale) q (pixelBound a.scale a.smin a.dmin 0)
    (pixelBound a.scale (smaxOf D a) a.dmax dblMax) (fun _ => 0)
  obtain ⟨-, hv⟩ := hv r h i
  obtain ⟨h1, h2⟩ := hv hi
  have key := allowed_pixel hs ho D h16 hmax
  unfold Wanted
  by_cases hA : Allowed a (d i / a.scale)
  · rw [if_pos hA]; exact h1 (key.1 hA)
  · rw [if_neg hA]; exact h2 (fun hc => hA (key.2 hc))

theorem range_once {over : Int → Option Nat} {m0 m1 : RectCam} {D : Disp} {a : Args} {o : Out} (h : stereoRange over m0 m1 D a = some o) :
    validate m0 m1 ∧ (match a.qrect0 with
      | none => rangeDensePy over m0 m1 D a
      | some (Nq, q) => rangeSparsePy m0 m1 D a Nq q) = some o := by
  unfold stereoRange at h
  by_cases hv : validate m0 m1
  · rw [if_neg (not_not.2 hv)] at h
    by_cases h1 : twice a.dmin a.smin
    · rw [if_pos h1] at h; cases h
    rw [if_neg h1] at h
    by_cases h2 : twice a.dmax a.smax
    · rw [if_pos h2] at h; cases h
    rw [if_neg h2] at h
    exact ⟨hv, h⟩
  · rw [if_pos hv] at h; cases h

theorem range_of_once (over : Int → Option Nat) {m0 m1 : RectCam} (D : Disp) {a : Args} (hv : validate m0 m1) (ho : Once a) :
    stereoRange over m0 m1 D a = (match a.qrect0 with
      | none => rangeDensePy over m0 m1 D a
      | some (Nq, q) => rangeSparsePy m0 m1 D a Nq q) := by
  unfold stereoRange
  rw [if_neg (not_not.2 hv), if_neg (not_twice ho.1), if_neg (not_twice ho.2)]
  rfl

/-- **C115**: a list of pixels: each gets the range for its disparity, in pixels, if that is positive and within the bounds, given in pixels or scaled; the others get 0 -/
theorem sparse_value {over : Int → Option Nat} {m0 m1 : RectCam} {a : Args} (hs : 0 < a.scale) (ho : Once a) {i16 : Bool} {N Nq : Nat} {d : Nat → ℝ} {q : Nat → P2} {o : Out}
    (hq : a.qrect0 = some (Nq, q)) (h : stereoRange over m0 m1 (.vec i16 N d) a = some o) :
    N = Nq ∧ ∃ r, o = .vec N r ∧ ∀ i, i < N → (i16 = true → d i ≤ 32767) → d i / a.scale ≤ dblMax → r i = Wanted m0 m1 a (d i / a.scale) (q i) := by
  obtain ⟨-, h⟩ := range_once h
  rw [hq] at h
  have h' : (rangeSparseC m0 m1 a (smaxOf (.vec i16 N d) a) N d Nq q).map (Out.vec N) = some o := h
  obtain ⟨r, hr, ho'⟩ := Option.map_eq_some_iff.1 h'
  obtain ⟨hN, hv⟩ := sparseC_value hs ho (.vec i16 N d) hr
  exact ⟨hN, r, ho'.symm, hv⟩

/-- **C115**: a single number is treated the same -/
theorem scalar_value {over : Int → Option Nat} {m0 m1 : RectCam} {a : Args} (hs : 0 < a.scale) (ho : Once a) {Nq : Nat} {d : ℝ} {q : Nat → P2} {o : Out}
    (hq : a.qrect0 = some (Nq, q)) (h : stereoRange over m0 m1 (.scalar d) a = some o) (hd : d / a.scale ≤ dblMax) :
    Nq = 1 ∧ o = .scalar (Wanted m0 m1 a (d / a.scale) (q 0)) := by
  obtain ⟨-, h⟩ := range_once h
  rw [hq] at h
  have h' : (rangeSparseC m0 m1 a (smaxOf (.scalar d) a) 1 (fun _ => d) Nq q).map (fun r => Out.scalar (r 0)) = some o := h
  obtain ⟨r, hr, ho'⟩ := Option.map_eq_some_iff.1 h'
  obtain ⟨hN, hv⟩ := sparseC_value hs ho (.scalar d) hr
  refine ⟨hN.symm, ?_⟩
  rw [← ho', hv 0 (by norm_num) (fun h => by cases h) hd]

/-- **C115**: a list of pixels is accepted exactly if there are as many pixels as disparities and the bounds aren't empty -/
theorem sparse_accepted (over : Int → Option Nat) {m0 m1 : RectCam} (hv : validate m0 m1) {a : Args} (ho : Once a) (i16 : Bool) (N Nq : Nat) (d : Nat → ℝ) (q : Nat → P2)
    (hq : a.qrect0 = some (Nq, q)) :
    (stereoRange over m0 m1 (.vec i16 N d) a).isSome = true ↔
      N = Nq ∧ pixelBound a.scale a.smin a.dmin 0 < pixelBound a.scale (smaxOf (.vec i16 N d) a) a.dmax dblMax := by
  rw [range_of_once over _ hv ho, hq]
  have e : (match some (Nq, q) with
      | none => rangeDensePy over m0 m1 (.vec i16 N d) a
      | some (Nq, q) => rangeSparsePy m0 m1 (.vec i16 N d) a Nq q) = (rangeSparseC m0 m1 a (smaxOf (.vec i16 N d) a) N d Nq q).map (Out.vec N) := rfl
  rw [e, Option.isSome_map]
  unfold rangeSparseC
  have hm : m0.type = .latlon ∨ m0.type = .pinhole := by
    rcases hv.1 with h | h
    · exact Or.inl h.1
    · exact Or.inr h.1
  by_cases hN : N ≠ Nq
  · rw [if_pos hN]; simp [hN]
  rw [if_neg hN, Option.isSome_iff_ne_none, Ne, (range_sparse _ _ _ _ _ _ _ _ _).1]
  rw [not_or, not_not, not_le]
  exact ⟨fun h => ⟨not_not.1 hN, h.2⟩, fun h => ⟨hm, h.2⟩⟩

/-! ### whole images -/

/-- **Specification**: a disparity image of integers: unsigned 16-bit, or signed -/
def IntImage (i16 : Bool) (d : Image ℝ) : Prop :=
  ∀ x y, x < d.width → y < d.height → ∃ n : Int, d.px x y = n ∧ (i16 = false → 0 ≤ n ∧ n ≤ 65535) ∧ (i16 = true → -32768 ≤ n ∧ n ≤ 32767)

/-- **Specification**: the scale and the given bounds can be represented as 16-bit integers: the scale and the lower bound are integers; the upper bound is positive for signed disparities -/
structure FitArgs (i16 : Bool) (a : Args) : Prop where
  scale : ∃ n : Nat, 0 < n ∧ n ≤ 65535 ∧ a.scale = n
  smin : ∀ x, a.smin = some x → ∃ n : Nat, n ≤ 65535 ∧ x = n
  dmin : ∀ x, a.dmin = some x → ∃ n : Nat, n ≤ 65535 ∧ x * a.scale = n
  smax : ∀ x, a.smax = some x → 0 ≤ x ∧ x < (if i16 then 32768 else 65536)
  dmax : ∀ x, a.dmax = some x → 0 ≤ x * a.scale ∧ x * a.scale < (if i16 then 32768 else 65536)

theorem trunc_int (n : Int) : trunc (n : ℝ) = n := by
  unfold trunc
  by_cases h : (0 : ℝ) ≤ (n : ℝ)
  · rw [if_pos h, Int.floor_intCast]
  · rw [if_neg h, ← Int.cast_neg, Int.floor_intCast, neg_neg]

theorem trunc_nat (n : Nat) : trunc (n : ℝ) = n := by
  have := trunc_int (n : Int)
  rwa [Int.cast_natCast] at this

theorem toU16_nat (over : Int → Option Nat) (n : Nat) (h : n ≤ 65535) : toU16 over (n : ℝ) = some n := by
  unfold toU16
  rw [trunc_nat, if_pos ⟨by omega, by omega⟩, Int.toNat_natCast]

theorem toU16_floor (over : Int → Option Nat) (x : ℝ) (h0 : 0 ≤ x) (h1 : x < 65536) : ∃ n : Nat, toU16 over x = some n ∧ ∀ k : Nat, k ≤ n ↔ (k : ℝ) ≤ x := by
  have ht : trunc x = ⌊x⌋ := by unfold trunc; rw [if_pos h0]
  have hf : 0 ≤ ⌊x⌋ := Int.floor_nonneg.2 h0
  have hl : ⌊x⌋ < 65536 := by
    rw [Int.floor_lt]; exact_mod_cast h1
  refine ⟨⌊x⌋.toNat, ?_, fun k => ?_⟩
  · unfold toU16
    rw [ht, if_pos ⟨hf, hl⟩]
  · have : (k : Int) ≤ ⌊x⌋ ↔ ((k : Int) : ℝ) ≤ x := Int.le_floor
    rw [Int.cast_natCast] at this
    rw [← this]
    omega

/-- the lower bound given to the C function -/
theorem dense_lower (over : Int → Option Nat) {i16 : Bool} {a : Args} (hf : FitArgs i16 a) : ∃ n : Nat, toU16 over (scaledBound a.scale a.smin a.dmin 0) = some n ∧
    scaledBound a.scale a.smin a.dmin 0 = n := by
  cases h1 : a.smin with
  | some x =>
    obtain ⟨n, hn, e⟩ := hf.smin x h1
    exact ⟨n, by rw [show scaledBound a.scale (some x) a.dmin 0 = x from rfl, e, toU16_nat over n hn], e⟩
  | none =>
    cases h2 : a.dmin with
    | none => exact ⟨0, by simpa [scaledBound] using toU16_nat over 0 (by norm_num), by simp [scaledBound]⟩
    | some y =>
      obtain ⟨n, hn, e⟩ := hf.dmin y h2
      exact ⟨n, by rw [show scaledBound a.scale none (some y) 0 = y * a.scale from rfl, e, toU16_nat over n hn], e⟩

/-- the upper bound given to the C function -/
theorem dense_upper (over : Int → Option Nat) {i16 : Bool} {a : Args} (hf : FitArgs i16 a) (D : Disp) (hD : D.i16 = i16) :
    0 ≤ scaledBound a.scale (smaxOf D a) a.dmax 65535 ∧ scaledBound a.scale (smaxOf D a) a.dmax 65535 < (if i16 then 32768 else 65536) ∧
    ∃ n : Nat, toU16 over (scaledBound a.scale (smaxOf D a) a.dmax 65535) = some n ∧ ∀ k : Nat, k ≤ n ↔ (k : ℝ) ≤ scaledBound a.scale (smaxOf D a) a.dmax 65535 := by
  have key : 0 ≤ scaledBound a.scale (smaxOf D a) a.dmax 65535 ∧ scaledBound a.scale (smaxOf D a) a.dmax 65535 < (if i16 then 32768 else 65536) := by
    unfold smaxOf
    by_cases hc : a.smax = none ∧ a.dmax = none ∧ D.i16 = true
    · rw [if_pos hc, ← hD, hc.2.2]
      norm_num [scaledBound]
    · rw [if_neg hc]
      cases h1 : a.smax with
      | some x => exact hf.smax x h1
      | none =>
        cases h2 : a.dmax with
        | some y => exact hf.dmax y h2
        | none =>
          have : i16 = false := by
            rw [← hD]
            cases h : D.i16 with
            | false => rfl
            | true => exact absurd ⟨h1, h2, h⟩ hc
          rw [this]
          norm_num [scaledBound]
  refine ⟨key.1, key.2, toU16_floor over _ key.1 (lt_of_lt_of_le key.2 ?_)⟩
  cases i16 <;> norm_num

/-- **C115**: a whole image of integer disparities, with a scale and bounds that can be represented: each pixel gets the range for its disparity, in pixels, if that is positive and within the bounds, given
in pixels or scaled; the others get 0 -/
theorem dense_value {over : Int → Option Nat} {m0 m1 : RectCam} {a : Args} {i16 : Bool} (hf : FitArgs i16 a) (ho : Once a) {d : Image ℝ} (hd : IntImage i16 d) {o : Out}
    (hq : a.qrect0 = none) (h : stereoRange over m0 m1 (.image i16 d) a = some o) :
    d.width = m0.W ∧ d.height = m0.H ∧ ∃ r, o = .image r ∧ r.width = d.width ∧ r.height = d.height ∧
      ∀ x y, x < d.width → y < d.height → r.px x y = Wanted m0 m1 a (d.px x y / a.scale) ⟨(x : ℝ), (y : ℝ)⟩ := by
  obtain ⟨-, h⟩ := range_once h
  rw [hq] at h
  have h' : rangeDensePy over m0 m1 (.image i16 d) a = some o := h
  unfold rangeDensePy at h'
  by_cases hsz : d.width = m0.W ∧ d.height = m0.H
  swap
  · rw [show shapeOk m0 (.image i16 d) = none from if_neg hsz] at h'; cases h'
  rw [show shapeOk m0 (.image i16 d) = some d from if_pos hsz] at h'
  refine ⟨hsz.1, hsz.2, ?_⟩
  obtain ⟨sc, sc0, sc1, esc⟩ := hf.scale
  obtain ⟨lo, elo, hlo⟩ := dense_lower over hf
  obtain ⟨u0, u1, hi, ehi, hhi⟩ := dense_upper over hf (.image i16 d) rfl
  have hs : 0 < a.scale := by rw [esc]; exact_mod_cast sc0
  simp only [elo, ehi] at h'
  rw [esc, toU16_nat over sc sc1] at h'
  obtain ⟨r, hr, ho'⟩ := Option.map_eq_some_iff.1 h'
  obtain ⟨-, hv⟩ := range_dense m0.type m0.k (baselineOf m0 m1) (astypeU16 d) sc lo hi ⟨d.width, d.height, fun _ _ => 0⟩ sc0
  obtain ⟨w, hh, hv⟩ := hv r hr
  refine ⟨r, ho'.symm, w, hh, fun x y hx hy => ?_⟩
  obtain ⟨v1, v2⟩ := hv x y hx hy
  obtain ⟨n, en, n16, ns⟩ := hd x y hx hy
  have hpx : (astypeU16 d).px x y = (n % 65536).toNat := by
    show (trunc (d.px x y) % 65536).toNat = _
    rw [en, trunc_int]
  rw [hpx] at v1 v2
  unfold Wanted
  by_cases hn : 0 < n
  · -- a positive disparity is its own 16-bit value
    have hb : n ≤ 65535 := by
      cases i16 with
      | false => exact (n16 rfl).2
      | true => have := (ns rfl).2; omega
    have hmod : n % 65536 = n := by omega
    rw [hmod] at v1 v2
    have ecast : ((n.toNat : Nat) : ℝ) = (n : ℝ) := by
      rw [← Int.cast_natCast, Int.toNat_of_nonneg hn.le]
    have npos : (0 : ℝ) < n := by exact_mod_cast hn
    have key : Allowed a (d.px x y / a.scale) ↔ 0 < n.toNat ∧ lo ≤ n.toNat ∧ n.toNat ≤ hi := by
      rw [hhi n.toNat, ecast, en]
      have l := lower_scaled hs ho.1 npos
      have hle : (n : ℝ) ≤ 65535 := by exact_mod_cast hb
      have u := upper_scaled hs (smax_once (.image i16 d) a ho.2) hle
      have h16 : (Disp.image i16 d).i16 = true → (n : ℝ) ≤ 32767 := fun h => by exact_mod_cast (ns h).2
      have e : (n : ℝ) / a.scale * a.scale = n := div_mul_cancel₀ _ hs.ne'
      have sm := smax_allowed (.image i16 d) a n h16
      rw [hlo] at l
      have lc : (lo : ℝ) ≤ (n : ℝ) ↔ lo ≤ n.toNat := by rw [← ecast]; exact_mod_cast Iff.rfl
      rw [lc] at l
      unfold Allowed
      rw [e] at l u ⊢
      constructor
      · rintro ⟨-, a1, a2, a3, a4⟩
        exact ⟨by omega, l.2 ⟨a1, a2⟩, u.2 ⟨a3, sm.2 a4⟩⟩
      · rintro ⟨-, c1, c2⟩
        exact ⟨div_pos npos hs, (l.1 c1).1, (l.1 c1).2, (u.1 c2).1, sm.1 (u.1 c2).2⟩
    by_cases hA : Allowed a (d.px x y / a.scale)
    · rw [if_pos hA, v1 (key.1 hA), ecast, en, esc]
    · rw [if_neg hA, v2 (fun hc => hA (key.2 hc))]
  · have hA : ¬ Allowed a (d.px x y / a.scale) := by
      rintro ⟨h0, -⟩
      rw [en] at h0
      have : (n : ℝ) ≤ 0 := by exact_mod_cast not_lt.1 hn
      exact absurd h0 (not_lt.2 (div_nonpos_of_nonpos_of_nonneg this hs.le))
    rw [if_neg hA, v2]
    rintro ⟨p0, -, p2⟩
    cases i16 with
    | false => have := (n16 rfl).1; omega
    | true =>
      have := ns rfl
      have h2 := (hhi _).1 p2
      have h3 : (((n % 65536).toNat : Nat) : ℝ) < 32768 := lt_of_le_of_lt h2 (by simpa using u1)
      have h4 : (n % 65536).toNat < 32768 := by exact_mod_cast h3
      omega

/-- **C115**: a whole image and a list of pixels of that image give the same ranges -/
theorem dense_sparse {over : Int → Option Nat} {m0 m1 : RectCam} {a : Args} {i16 : Bool} (hf : FitArgs i16 a) (ho : Once a) {d : Image ℝ} (hd : IntImage i16 d) (hq : a.qrect0 = none)
    {N : Nat} {px : Nat → Nat × Nat} (hpx : ∀ i, i < N → (px i).1 < d.width ∧ (px i).2 < d.height) {o o' : Out}
    (h : stereoRange over m0 m1 (.image i16 d) a = some o)
    (h' : stereoRange over m0 m1 (.vec i16 N fun i => d.px (px i).1 (px i).2) { a with qrect0 := some (N, fun i => ⟨((px i).1 : ℝ), ((px i).2 : ℝ)⟩) } = some o') :
    ∃ r r', o = .image r ∧ o' = .vec N r' ∧ ∀ i, i < N → r' i = r.px (px i).1 (px i).2 := by
  obtain ⟨sc, sc0, sc1, esc⟩ := hf.scale
  have hs : 0 < a.scale := by rw [esc]; exact_mod_cast sc0
  obtain ⟨-, -, r, e, -, -, hr⟩ := dense_value hf ho hd hq h
  have ho' : Once { a with qrect0 := some (N, fun i => ⟨((px i).1 : ℝ), ((px i).2 : ℝ)⟩) } := ho
  obtain ⟨-, r', e', hr'⟩ := sparse_value (a := { a with qrect0 := some (N, fun i => ⟨((px i).1 : ℝ), ((px i).2 : ℝ)⟩) }) hs ho' rfl h'
  refine ⟨r, r', e, e', fun i hi => ?_⟩
  obtain ⟨hx, hy⟩ := hpx i hi
  rw [hr _ _ hx hy]
  obtain ⟨n, en, n16, ns⟩ := hd _ _ hx hy
  refine hr' i hi (fun h => ?_) ?_
  · rw [en]; exact_mod_cast (ns h).2
  · rw [en]
    have hn : n ≤ 65535 := by
      cases i16 with
      | false => exact (n16 rfl).2
      | true => have := (ns rfl).2; omega
    have h1 : (n : ℝ) ≤ 65535 := by exact_mod_cast hn
    have h2 : (1 : ℝ) ≤ a.scale := by rw [esc]; exact_mod_cast sc0
    show (n : ℝ) / a.scale ≤ dblMax
    have h3 : (65535 : ℝ) ≤ dblMax := by
      unfold dblMax
      have e1 : (2 : ℝ) ^ 1024 = 2 ^ 971 * 2 ^ 53 := by rw [← pow_add]
      have e2 : (1 : ℝ) ≤ 2 ^ 971 := one_le_pow₀ (by norm_num)
      rw [e1, show (2 : ℝ) ^ 53 = 9007199254740992 by norm_num]
      generalize (2 : ℝ) ^ 971 = P at e2 ⊢
      linarith
    rw [div_le_iff₀ hs]
    nlinarith

/-- **C115**: a bound in pixels, or the same bound scaled: the same result, for all disparities, whole images or lists of pixels -/
theorem bounds_scaled (over : Int → Option Nat) (m0 m1 : RectCam) (D : Disp) (a : Args) (ha : a.dmin = none ∧ a.smin = none ∧ a.dmax = none ∧ a.smax = none) (hs : a.scale ≠ 0) (lo hi : Option ℝ) :
    stereoRange over m0 m1 D { a with dmin := lo, dmax := hi } = stereoRange over m0 m1 D { a with smin := lo.map (· * a.scale), smax := hi.map (· * a.scale) } := by
  obtain ⟨h1, h2, h3, h4⟩ := ha
  have esc : ∀ (Q : Option (Nat × (Nat → P2))) (D : Disp) (dflt : ℝ), scaledBound a.scale (smaxOf D { a with dmin := lo, dmax := hi, qrect0 := Q }) hi dflt =
      scaledBound a.scale (smaxOf D { a with smin := lo.map (· * a.scale), smax := hi.map (· * a.scale), qrect0 := Q }) a.dmax dflt := by
    intro Q D dflt
    unfold smaxOf
    cases hi with
    | none => simp only [h3, h4, Option.map_none]
    | some x => simp [scaledBound, h3, h4]
  have epx : ∀ (Q : Option (Nat × (Nat → P2))) (D : Disp) (dflt : ℝ), pixelBound a.scale (smaxOf D { a with dmin := lo, dmax := hi, qrect0 := Q }) hi dflt =
      pixelBound a.scale (smaxOf D { a with smin := lo.map (· * a.scale), smax := hi.map (· * a.scale), qrect0 := Q }) a.dmax dflt := by
    intro Q D dflt
    unfold smaxOf
    cases hi with
    | none => simp only [h3, h4, Option.map_none]
    | some x => simp [pixelBound, h3, h4, hs]
  have lsc : scaledBound a.scale a.smin lo 0 = scaledBound a.scale (lo.map (· * a.scale)) a.dmin 0 := by
    cases lo <;> simp [scaledBound, h1, h2]
  have lpx : pixelBound a.scale a.smin lo 0 = pixelBound a.scale (lo.map (· * a.scale)) a.dmin 0 := by
    cases lo <;> simp [pixelBound, h1, h2, hs]
  unfold stereoRange
  by_cases hv : validate m0 m1
  swap
  · rw [if_pos hv, if_pos hv]
  rw [if_neg (not_not.2 hv), if_neg (not_not.2 hv), if_neg (not_twice (Or.inr h2)), if_neg (not_twice (Or.inl h1)), if_neg (not_twice (Or.inr h4)), if_neg (not_twice (Or.inl h3))]
  show (match a.qrect0 with | none => _ | some (Nq, q) => _) = (match a.qrect0 with | none => _ | some (Nq, q) => _)
  cases a.qrect0 with
  | none =>
    show rangeDensePy over m0 m1 D _ = rangeDensePy over m0 m1 D _
    unfold rangeDensePy
    simp only [esc, lsc]
  | some Q =>
    show rangeSparsePy m0 m1 D _ Q.1 Q.2 = rangeSparsePy m0 m1 D _ Q.1 Q.2
    cases D with
    | scalar d => simp only [rangeSparsePy, rangeSparseC, epx, lpx]
    | vec i N d => simp only [rangeSparsePy, rangeSparseC, epx, lpx]
    | image i d => rfl

/-! ### the reference implementation -/

/-- **Specification**: the LATLON range of this disparity is finite -/
def Finite (m0 : RectCam) (scale d : ℝ) : Prop := m0.type = .latlon → m0.k.fx ≠ 0 ∧ Real.sin (d / (m0.k.fx * scale)) ≠ 0

theorem refOne_eq (m0 : RectCam) (b : ℝ) {scale : ℝ} (hs : 0 < scale) (d : ℝ) (hf : Finite m0 scale d) (q : P2) : refOne m0 b scale d q = some (rangeOne m0.type m0.k b (d / scale) q) := by
  have e : d / scale / m0.k.fx = d / (m0.k.fx * scale) := by rw [div_div, mul_comm]
  unfold refOne rangeOne
  by_cases hm : m0.type = .latlon
  · obtain ⟨hfx, hsin⟩ := hf hm
    rw [if_pos hm, if_pos hm]
    simp only [e]
    rw [if_neg (by simp only [not_or]; exact ⟨mul_ne_zero hfx hs.ne', hsin⟩), if_neg hfx, if_neg hsin]
  · rw [if_neg hm, if_neg hm]
    simp only [e]
    by_cases h1 : m0.k.fx = 0 ∨ m0.k.fy = 0
    · rw [if_pos h1, if_pos]
      rcases h1 with h1 | h1
      · exact Or.inl (by rw [h1, zero_mul])
      · exact Or.inr (Or.inl h1)
    · rw [if_neg h1]
      rw [not_or] at h1
      by_cases h2 : d / (m0.k.fx * scale) = 0
      · rw [if_pos (Or.inr (Or.inr h2)), if_pos h2]
      · rw [if_neg (by simp only [not_or]; exact ⟨mul_ne_zero h1.1 hs.ne', h1.2, h2⟩), if_neg h2]

theorem refMasked_wanted {m0 m1 : RectCam} {a : Args} (hs : 0 < a.scale) {d lo hi x : ℝ} (hf : Finite m0 a.scale d) (q : P2)
    (key : Allowed a (d / a.scale) ↔ 0 < d ∧ lo ≤ x ∧ x ≤ hi) :
    refMasked m0 (baselineOf m0 m1) a.scale lo hi x d q = some (Wanted m0 m1 a (d / a.scale) q) := by
  unfold refMasked Wanted
  by_cases hA : Allowed a (d / a.scale)
  · obtain ⟨h1, h2, h3⟩ := key.1 hA
    rw [if_pos hA, if_neg (by push Not; exact ⟨h2, h3, h1⟩), refOne_eq m0 _ hs d hf]
  · rw [if_neg hA, if_pos]
    by_contra hc
    push Not at hc
    exact hA (key.2 ⟨hc.2.2, hc.1, hc.2.1⟩)

theorem allowed_ref_pixel {a : Args} (hs : 0 < a.scale) (ho : Once a) {n : ℝ} (hmax : n / a.scale ≤ dblMax) :
    Allowed a (n / a.scale) ↔ 0 < n ∧ pixelBound a.scale a.smin a.dmin 0 ≤ n / a.scale ∧ n / a.scale ≤ pixelBound a.scale a.smax a.dmax dblMax := by
  have := allowed_pixel hs ho (.scalar n) (n := n) (fun h => by cases h) hmax
  have e : smaxOf (.scalar n) a = a.smax := by unfold smaxOf; rw [if_neg]; rintro ⟨-, -, h⟩; cases h
  rw [e] at this
  rw [this, div_pos_iff_of_pos_right hs]

/-- **C115**: the reference implementation and `stereo_range()` agree on lists of pixels -/
theorem reference_sparse {over : Int → Option Nat} {m0 m1 : RectCam} {a : Args} (hs : 0 < a.scale) (ho : Once a) {i16 : Bool} {N Nq : Nat} {d : Nat → ℝ} {q : Nat → P2} {o : Out}
    (hq : a.qrect0 = some (Nq, q)) (h16 : ∀ i, i < N → i16 = true → d i ≤ 32767) (hmax : ∀ i, i < N → d i / a.scale ≤ dblMax) (hfin : ∀ i, i < N → Finite m0 a.scale (d i))
    (h : stereoRange over m0 m1 (.vec i16 N d) a = some o) :
    ∃ r r', o = .vec N r ∧ stereoRangeRef m0 m1 (.vec i16 N d) a = some (.vec N r') ∧ ∀ i, i < N → r' i = some (r i) := by
  obtain ⟨hN, r, e, hr⟩ := sparse_value hs ho hq h
  obtain ⟨hv, -⟩ := range_once h
  refine ⟨r, fun i => refMasked m0 (baselineOf m0 m1) a.scale (pixelBound a.scale a.smin a.dmin 0) (pixelBound a.scale a.smax a.dmax dblMax) (d i / a.scale) (d i) (q i), e, ?_, ?_⟩
  · unfold stereoRangeRef
    rw [if_neg (not_not.2 hv), if_neg (not_twice ho.1), if_neg (not_twice ho.2), hq]
    exact if_neg (not_not.2 hN)
  · intro i hi
    rw [hr i hi (h16 i hi) (hmax i hi)]
    exact refMasked_wanted hs (hfin i hi) (q i) (allowed_ref_pixel hs ho (hmax i hi))

theorem allowed_ref_scaled {a : Args} (hs : 0 < a.scale) (ho : Once a) {n : ℝ} (hmax : n ≤ 65535) :
    Allowed a (n / a.scale) ↔ 0 < n ∧ scaledBound a.scale a.smin a.dmin 0 ≤ n ∧ n ≤ scaledBound a.scale a.smax a.dmax 65535 := by
  unfold Allowed
  rw [div_pos_iff_of_pos_right hs]
  constructor
  · rintro ⟨h0, h1, h2, h3, h4⟩
    exact ⟨h0, (lower_scaled hs ho.1 h0).2 ⟨h1, h2⟩, (upper_scaled hs ho.2 hmax).2 ⟨h3, h4⟩⟩
  · rintro ⟨h0, h1, h2⟩
    exact ⟨h0, ((lower_scaled hs ho.1 h0).1 h1).1, ((lower_scaled hs ho.1 h0).1 h1).2, ((upper_scaled hs ho.2 hmax).1 h2).1, ((upper_scaled hs ho.2 hmax).1 h2).2⟩

/-- **C115**: the reference implementation and `stereo_range()` agree on whole images of integers, with a scale and bounds that can be represented -/
theorem reference_dense {over : Int → Option Nat} {m0 m1 : RectCam} {a : Args} {i16 : Bool} (hf : FitArgs i16 a) (ho : Once a) {d : Image ℝ} (hd : IntImage i16 d) {o : Out}
    (hq : a.qrect0 = none) (hfin : ∀ x y, x < d.width → y < d.height → Finite m0 a.scale (d.px x y)) (h : stereoRange over m0 m1 (.image i16 d) a = some o) :
    ∃ r r', o = .image r ∧ stereoRangeRef m0 m1 (.image i16 d) a = some (.image r') ∧ r'.width = r.width ∧ r'.height = r.height ∧
      ∀ x y, x < d.width → y < d.height → r'.px x y = some (r.px x y) := by
  obtain ⟨sc, sc0, sc1, esc⟩ := hf.scale
  have hs : 0 < a.scale := by rw [esc]; exact_mod_cast sc0
  obtain ⟨hW, hH, r, e, rw', rh, hr⟩ := dense_value hf ho hd hq h
  obtain ⟨hv, -⟩ := range_once h
  refine ⟨r, ⟨d.width, d.height, fun x y => refMasked m0 (baselineOf m0 m1) a.scale (scaledBound a.scale a.smin a.dmin 0) (scaledBound a.scale a.smax a.dmax 65535) (d.px x y) (d.px x y)
    ⟨(x : ℝ), (y : ℝ)⟩⟩, e, ?_, rw'.symm, rh.symm, ?_⟩
  · unfold stereoRangeRef
    rw [if_neg (not_not.2 hv), if_neg (not_twice ho.1), if_neg (not_twice ho.2), hq]
    show Option.map _ (shapeOk m0 (.image i16 d)) = _
    rw [show shapeOk m0 (.image i16 d) = some d from if_pos ⟨hW, hH⟩]
    rfl
  · intro x y hx hy
    rw [hr x y hx hy]
    refine refMasked_wanted hs (hfin x y hx hy) _ (allowed_ref_scaled hs ho ?_)
    obtain ⟨n, en, n16, ns⟩ := hd x y hx hy
    rw [en]
    have hn : n ≤ 65535 := by
      cases i16 with
      | false => exact (n16 rfl).2
      | true => have := (ns rfl).2; omega
    exact_mod_cast hn

/-! ### the points -/

/-- **C115**: exactly one of the disparities and the ranges has to be given. The ranges computed earlier from the disparities give the same points -/
theorem unproject_ranges (over : Int → Option Nat) (m0 m1 : RectCam) (D : Disp) (R : Out) (scale : ℝ) (q : Option (Nat × (Nat → P2))) :
    stereoUnproject over m0 m1 none none scale q = none ∧ stereoUnproject over m0 m1 (some D) (some R) scale q = none ∧
    stereoUnproject over m0 m1 (some D) none scale q = (stereoRange over m0 m1 D { scale := scale, qrect0 := q }).bind fun r => stereoUnproject over m0 m1 none (some r) scale q := by
  refine ⟨rfl, rfl, ?_⟩
  show (match stereoRange over m0 m1 D { scale := scale, qrect0 := q } with | none => none | some r => pointsOf m0 r q) = _
  cases stereoRange over m0 m1 D { scale := scale, qrect0 := q } <;> rfl

/-- **Specification**: where a rectified camera sees a point in its coordinates -/
noncomputable def seenAt (m : RectCam) (p : P3) : P2 := if m.type = .latlon then (latlon m.k p).q else (pinhole m.k p).q

/-- **Specification**: the LATLON rays of a pixel are within the view: azimuths within 90deg in both cameras, elevations within 180deg -/
def InView (m0 : RectCam) (δ : ℝ) (q : P2) : Prop :=
  m0.type = .latlon → (-Real.pi < (q.y - m0.k.cy) / m0.k.fy ∧ (q.y - m0.k.cy) / m0.k.fy ≤ Real.pi) ∧ (q.x - m0.k.cx) / m0.k.fx < Real.pi / 2 ∧ -(Real.pi / 2) < (q.x - δ - m0.k.cx) / m0.k.fx

theorem unproject_one (m0 : RectCam) (hm : m0.type = .latlon ∨ m0.type = .pinhole) (hfx : 0 < m0.k.fx) (hfy : m0.k.fy ≠ 0) (b δ : ℝ) (hb : 0 < b) (hd : 0 < δ) (q : P2) (hv : InView m0 δ q) :
    let r := rangeOne m0.type m0.k b δ q
    let p := pyStereoUnproject (rectUnproject m0 q) r
    0 < r ∧ mag3 p = r ∧ seenAt m0 p = q ∧ seenAt m0 (fromCam1 b p) = ⟨q.x - δ, q.y⟩ := by
  intro r p
  rcases hm with hm | hm
  · obtain ⟨h1, h2, h3⟩ := hv hm
    have := unproject_latlon m0.k hfx hfy b δ hb q hd h1 h2 h3
    have e : p = pyStereoUnproject (unlatlon m0.k q).v (rangeOne .latlon m0.k b δ q) := by
      show pyStereoUnproject (rectUnproject m0 q) (rangeOne m0.type m0.k b δ q) = _
      unfold rectUnproject
      rw [if_pos hm, hm]
    have er : r = rangeOne .latlon m0.k b δ q := by show rangeOne m0.type m0.k b δ q = _; rw [hm]
    unfold seenAt
    rw [if_pos hm, if_pos hm, e, er]
    exact this
  · have hn : ¬ m0.type = .latlon := by rw [hm]; decide
    have := unproject_pinhole m0.k hfx hfy b δ hb q hd
    have e : p = pyStereoUnproject (unpinhole m0.k q).v (rangeOne .pinhole m0.k b δ q) := by
      show pyStereoUnproject (rectUnproject m0 q) (rangeOne m0.type m0.k b δ q) = _
      unfold rectUnproject
      rw [if_neg hn, hm]
    have er : r = rangeOne .pinhole m0.k b δ q := by show rangeOne m0.type m0.k b δ q = _; rw [hm]
    unfold seenAt
    rw [if_neg hn, if_neg hn, e, er]
    exact ⟨this.1, this.2.1, this.2.2.2.1, this.2.2.2.2⟩

/-- **C115**: the point cloud of a whole int16 or uint16 disparity image: the point of a pixel with a positive disparity is seen at this pixel by rectified camera0, and at the pixel shifted by the disparity
by rectified camera1; its distance is the reported range. The pixels without a valid disparity have the point (0,0,0) -/
theorem unproject_image {over : Int → Option Nat} {m0 m1 : RectCam} {i16 : Bool} {d : Image ℝ} (hd : IntImage i16 d) {s : Nat} (s0 : 0 < s) (s1 : s ≤ 65535)
    (hfx : 0 < m0.k.fx) (hfy : m0.k.fy ≠ 0) (hb : 0 < baselineOf m0 m1) (hview : ∀ x y, x < d.width → y < d.height → InView m0 (d.px x y / s) ⟨(x : ℝ), (y : ℝ)⟩) {P : Points}
    (h : stereoUnproject over m0 m1 (some (.image i16 d)) none (s : ℝ) none = some P) :
    ∃ p r, P = .image p ∧ stereoRange over m0 m1 (.image i16 d) { scale := (s : ℝ) } = some (.image r) ∧ p.width = m0.W ∧ p.height = m0.H ∧ ∀ x y, x < m0.W → y < m0.H →
      (0 < d.px x y → 0 < r.px x y ∧ mag3 (p.px x y) = r.px x y ∧ seenAt m0 (p.px x y) = ⟨(x : ℝ), (y : ℝ)⟩ ∧
        seenAt m0 (fromCam1 (baselineOf m0 m1) (p.px x y)) = ⟨(x : ℝ) - d.px x y / s, (y : ℝ)⟩) ∧
      (d.px x y ≤ 0 → r.px x y = 0 ∧ p.px x y = ⟨0, 0, 0⟩) := by
  have h' : (match stereoRange over m0 m1 (.image i16 d) { scale := (s : ℝ) } with | none => none | some r => pointsOf m0 r none) = some P := h
  cases hr : stereoRange over m0 m1 (.image i16 d) { scale := (s : ℝ) } with
  | none => rw [hr] at h'; cases h'
  | some o =>
    rw [hr] at h'
    have hf : FitArgs i16 { scale := (s : ℝ) } := ⟨⟨s, s0, s1, rfl⟩, fun x h => (by cases h), fun x h => (by cases h), fun x h => (by cases h), fun x h => (by cases h)⟩
    obtain ⟨hv, -⟩ := range_once hr
    obtain ⟨hW, hH, r, e, rW, rH, hval⟩ := dense_value hf ⟨Or.inl rfl, Or.inl rfl⟩ hd rfl hr
    rw [e] at h'
    have h2 : (if r.width = m0.W ∧ r.height = m0.H then some (Points.image ⟨r.width, r.height, fun x y => pyStereoUnproject (rectUnproject m0 ⟨(x : ℝ), (y : ℝ)⟩) (r.px x y)⟩) else none) = some P := h'
    rw [if_pos ⟨rW.trans hW, rH.trans hH⟩] at h2
    refine ⟨⟨r.width, r.height, fun x y => pyStereoUnproject (rectUnproject m0 ⟨(x : ℝ), (y : ℝ)⟩) (r.px x y)⟩, r, (Option.some.inj h2).symm, by rw [e], rW.trans hW, rH.trans hH, ?_⟩
    intro x y hx hy
    have hm : m0.type = .latlon ∨ m0.type = .pinhole := by
      rcases hv.1 with h | h
      · exact Or.inl h.1
      · exact Or.inr h.1
    have spos : (0 : ℝ) < s := by exact_mod_cast s0
    have hx' : x < d.width := hW ▸ hx
    have hy' : y < d.height := hH ▸ hy
    have hrv := hval x y hx' hy'
    constructor
    · intro hp
      have hdp : 0 < d.px x y / s := div_pos hp spos
      have hA : Allowed { scale := (s : ℝ) } (d.px x y / s) := ⟨hdp, fun x h => (by cases h), fun x h => (by cases h), fun x h => (by cases h), fun x h => (by cases h)⟩
      unfold Wanted at hrv
      rw [if_pos hA] at hrv
      have := unproject_one m0 hm hfx hfy _ _ hb hdp ⟨(x : ℝ), (y : ℝ)⟩ (hview x y hx' hy')
      simp only [] at hrv ⊢
      rw [hrv]
      exact this
    · intro hn
      have hA : ¬ Allowed { scale := (s : ℝ) } (d.px x y / s) := fun hA => absurd hA.1 (not_lt.2 (div_nonpos_of_nonpos_of_nonneg hn spos.le))
      unfold Wanted at hrv
      rw [if_neg hA] at hrv
      refine ⟨hrv, ?_⟩
      show pyStereoUnproject _ (r.px x y) = _
      rw [hrv]
      unfold pyStereoUnproject
      simp

/-- **C115**: the points of a list of pixels: the same, for each of them -/
theorem unproject_list {over : Int → Option Nat} {m0 m1 : RectCam} {i16 : Bool} {N Nq : Nat} {d : Nat → ℝ} {q : Nat → P2} {scale : ℝ} (hs : 0 < scale)
    (hfx : 0 < m0.k.fx) (hfy : m0.k.fy ≠ 0) (hb : 0 < baselineOf m0 m1) {P : Points} (h : stereoUnproject over m0 m1 (some (.vec i16 N d)) none scale (some (Nq, q)) = some P) :
    N = Nq ∧ ∃ p r, P = .vec N p ∧ stereoRange over m0 m1 (.vec i16 N d) { scale := scale, qrect0 := some (Nq, q) } = some (.vec N r) ∧
      ∀ i, i < N → (i16 = true → d i ≤ 32767) → d i / scale ≤ dblMax → InView m0 (d i / scale) (q i) →
      (0 < d i → 0 < r i ∧ mag3 (p i) = r i ∧ seenAt m0 (p i) = q i ∧ seenAt m0 (fromCam1 (baselineOf m0 m1) (p i)) = ⟨(q i).x - d i / scale, (q i).y⟩) ∧
      (d i ≤ 0 → r i = 0 ∧ p i = ⟨0, 0, 0⟩) := by
  have h' : (match stereoRange over m0 m1 (.vec i16 N d) { scale := scale, qrect0 := some (Nq, q) } with | none => none | some r => pointsOf m0 r (some (Nq, q))) = some P := h
  cases hr : stereoRange over m0 m1 (.vec i16 N d) { scale := scale, qrect0 := some (Nq, q) } with
  | none => rw [hr] at h'; cases h'
  | some o =>
    rw [hr] at h'
    obtain ⟨hv, -⟩ := range_once hr
    obtain ⟨hN, r, e, hval⟩ := sparse_value (a := { scale := scale, qrect0 := some (Nq, q) }) hs ⟨Or.inl rfl, Or.inl rfl⟩ rfl hr
    rw [e] at h'
    have h2 : (if N ≠ Nq then none else some (Points.vec N fun i => pyStereoUnproject (rectUnproject m0 (q i)) (r i))) = some P := h'
    rw [if_neg (not_not.2 hN)] at h2
    have hm : m0.type = .latlon ∨ m0.type = .pinhole := by
      rcases hv.1 with h | h
      · exact Or.inl h.1
      · exact Or.inr h.1
    refine ⟨hN, _, r, (Option.some.inj h2).symm, by rw [e], ?_⟩
    intro i hi h16 hmax hview
    have hrv := hval i hi h16 hmax
    constructor
    · intro hp
      have hdp : 0 < d i / scale := div_pos hp hs
      have hA : Allowed { scale := scale, qrect0 := some (Nq, q) } (d i / scale) := ⟨hdp, fun x h => (by cases h), fun x h => (by cases h), fun x h => (by cases h), fun x h => (by cases h)⟩
      unfold Wanted at hrv
      rw [if_pos hA] at hrv
      have := unproject_one m0 hm hfx hfy _ _ hb hdp (q i) hview
      simp only [] at hrv ⊢
      rw [hrv]
      exact this
    · intro hn
      have hA : ¬ Allowed { scale := scale, qrect0 := some (Nq, q) } (d i / scale) := fun hA => absurd hA.1 (not_lt.2 (div_nonpos_of_nonpos_of_nonneg hn hs.le))
      unfold Wanted at hrv
      rw [if_neg hA] at hrv
      refine ⟨hrv, ?_⟩
      show pyStereoUnproject _ (r i) = _
      rw [hrv]
      unfold pyStereoUnproject
      simp

/-- **C115**: everything together: two cameras are rectified; some world points are seen by the rectified cameras; `stereo_range()` of the disparities reports the distances of the points from camera0 -/
theorem range_of_points {roots : ℝ → ℝ → List ℝ} {ppd_az ppd_el : ℝ} {fov azel0_deg : P2} {margin : ℝ} {L : Lens} {intr : Int → ℝ}
    {rt0 rt1 : RtV} {m : RectType} {az e af ef : Bool} {S : RectSystem} {rt : RtV}
    (h : rectifiedSystem2 roots ppd_az ppd_el fov azel0_deg margin L intr rt0 rt1 m az e af ef = some S) (hrt : S.rt_rect0_ref = some rt) (hrep : RectRepresentable rt0 rt1)
    (hfx : 0 < S.fxycxy.fx) (hfy : S.fxycxy.fy ≠ 0) (over : Int → Option Nat) (W H : Nat) (scale : ℝ) (hs : 0 < scale) (N : Nat) (w : Nat → P3)
    (hw : ∀ i, i < N → if m = .latlon then (transformPointRt (Rt_from_rt rt) (w i) false).y ≠ 0 ∨ (transformPointRt (Rt_from_rt rt) (w i) false).z ≠ 0
      else 0 < (transformPointRt (Rt_from_rt rt) (w i) false).z)
    (q0 q1 : Nat → P2) (hq0 : ∀ i, q0 i = seenAt (pairOf m S.fxycxy W H rt S.baseline).1 (transformPointRt (pairOf m S.fxycxy W H rt S.baseline).1.Rt_cam_ref (w i) false))
    (hq1 : ∀ i, q1 i = seenAt (pairOf m S.fxycxy W H rt S.baseline).2 (transformPointRt (pairOf m S.fxycxy W H rt S.baseline).2.Rt_cam_ref (w i) false))
    (hmax : ∀ i, i < N → (q0 i).x - (q1 i).x ≤ dblMax) :
    ∃ r, stereoRange over (pairOf m S.fxycxy W H rt S.baseline).1 (pairOf m S.fxycxy W H rt S.baseline).2 (.vec false N fun i => ((q0 i).x - (q1 i).x) * scale)
        { scale := scale, qrect0 := some (N, q0) } = some (.vec N r) ∧
      ∀ i, i < N → r i = mag3 (transformPointRt (Rt_from_rt rt0) (w i) false) := by
  obtain ⟨hv, hb⟩ := rectified_accepted h W H (rt := rt)
  set P := pairOf m S.fxycxy W H rt S.baseline with hP
  set a : Args := { scale := scale, qrect0 := some (N, q0) } with ha
  have ho : Once a := ⟨Or.inl rfl, Or.inl rfl⟩
  have hm : m = .latlon ∨ m = .pinhole := (system_some h).2.1
  have hd0 : (0 : ℝ) < dblMax := by
    unfold dblMax
    rw [show (2 : ℝ) ^ 1024 = 2 ^ 971 * 2 ^ 53 by rw [← pow_add], show (2 : ℝ) ^ 53 = 9007199254740992 by norm_num]
    have e2 : (0 : ℝ) < 2 ^ 971 := by positivity
    generalize (2 : ℝ) ^ 971 = Q at e2 ⊢
    linarith
  have hacc := (sparse_accepted over hv ho false N N (fun i => ((q0 i).x - (q1 i).x) * scale) q0 rfl).2 ⟨rfl, by
    show (0 : ℝ) < dblMax
    exact hd0⟩
  obtain ⟨o, hr⟩ := Option.isSome_iff_exists.1 hacc
  obtain ⟨-, r, e', hval⟩ := sparse_value (a := a) hs ho rfl hr
  refine ⟨r, by rw [hr, e'], fun i hi => ?_⟩
  have ediv : ((q0 i).x - (q1 i).x) * scale / a.scale = (q0 i).x - (q1 i).x := mul_div_cancel_right₀ _ hs.ne'
  have hval := hval i hi (fun h => by cases h) (by rw [ediv]; exact hmax i hi)
  rw [ediv] at hval
  obtain ⟨bpos, -, -, -, hshift⟩ := rect_geometry h hrt hrep
  obtain ⟨c1, c2⟩ := stereo_chain h hrt hrep hfx.ne' hfy (w i)
  have hwi := hw i hi
  have hs1 := hshift (w i)
  have hA : ∀ δ, 0 < δ → Allowed a δ := fun δ h => ⟨h, fun x h => (by cases h), fun x h => (by cases h), fun x h => (by cases h), fun x h => (by cases h)⟩
  rw [hval]
  unfold Wanted
  rcases hm with hm | hm
  · rw [if_pos hm] at hwi
    have e0 : q0 i = (latlon S.fxycxy (transformPointRt (Rt_from_rt rt) (w i) false)).q := (hq0 i).trans (if_pos hm)
    have e1 : q1 i = (latlon S.fxycxy (transformPointRt (Rt_from_rt (rt_rect1_ref rt S.baseline)) (w i) false)).q := (hq1 i).trans (if_pos hm)
    have hdp := (disparity_latlon S.fxycxy hfx S.baseline bpos _ hwi).1
    rw [if_pos (hA _ (by rw [e0, e1, hs1]; exact hdp)), hb]
    show rangeOne m S.fxycxy S.baseline _ _ = _
    rw [hm, e0, e1]
    exact c1 hwi
  · have hn : ¬ m = .latlon := by rw [hm]; decide
    rw [if_neg hn] at hwi
    have e0 : q0 i = (pinhole S.fxycxy (transformPointRt (Rt_from_rt rt) (w i) false)).q := (hq0 i).trans (if_neg hn)
    have e1 : q1 i = (pinhole S.fxycxy (transformPointRt (Rt_from_rt (rt_rect1_ref rt S.baseline)) (w i) false)).q := (hq1 i).trans (if_neg hn)
    have hdp := (disparity_pinhole S.fxycxy hfx S.baseline bpos _ hwi).1
    rw [if_pos (hA _ (by rw [e0, e1, hs1]; exact hdp)), hb]
    show rangeOne m S.fxycxy S.baseline _ _ = _
    rw [hm, e0, e1]
    exact c2 hwi

/-! ### what isn't so -/

/-- "The two rectified models MUST have a translation ONLY in the +x rectified direction": the sign isn't checked. The rectified models in the wrong order are accepted, and give exactly the same ranges for all
disparities, though then each point in front has a negative disparity -/
theorem swapped_wrong (m : RectType) (hm : m = .latlon ∨ m = .pinhole) (k : Core) (hfx : 0 < k.fx) (W H : Nat) (rt : RtV) (b : ℝ) (hb : 0 < b) :
    validate (pairOf m k W H rt b).2 (pairOf m k W H rt b).1 ∧
    (∀ over D a, stereoRange over (pairOf m k W H rt b).2 (pairOf m k W H rt b).1 D a = stereoRange over (pairOf m k W H rt b).1 (pairOf m k W H rt b).2 D a) ∧
    ∀ w, let p0 := transformPointRt (pairOf m k W H rt b).2.Rt_cam_ref w false
      let p1 := transformPointRt (pairOf m k W H rt b).1.Rt_cam_ref w false
      0 < p0.z → (pinhole k p0).q.x - (pinhole k p1).q.x < 0 := by
  have v1 : validate (pairOf m k W H rt b).1 (pairOf m k W H rt b).2 := valid_of (pair_Rt01 m k W H rt b).1 rfl rfl rfl rfl hm
  have v2 : validate (pairOf m k W H rt b).2 (pairOf m k W H rt b).1 := valid_of (pair_Rt01 m k W H rt b).2 rfl rfl rfl rfl hm
  have hbl : baselineOf (pairOf m k W H rt b).2 (pairOf m k W H rt b).1 = baselineOf (pairOf m k W H rt b).1 (pairOf m k W H rt b).2 := by
    rw [baseline_of (pair_Rt01 m k W H rt b).1, baseline_of (pair_Rt01 m k W H rt b).2, abs_neg]
  refine ⟨v2, fun over D a => ?_, ?_⟩
  · have hsh : shapeOk (pairOf m k W H rt b).2 D = shapeOk (pairOf m k W H rt b).1 D := by cases D <;> rfl
    unfold stereoRange
    rw [if_neg (not_not.2 v1), if_neg (not_not.2 v2)]
    have hd : rangeDensePy over (pairOf m k W H rt b).2 (pairOf m k W H rt b).1 D a = rangeDensePy over (pairOf m k W H rt b).1 (pairOf m k W H rt b).2 D a := by
      unfold rangeDensePy
      rw [hsh, hbl]
      rfl
    have hsp : ∀ Nq q, rangeSparsePy (pairOf m k W H rt b).2 (pairOf m k W H rt b).1 D a Nq q = rangeSparsePy (pairOf m k W H rt b).1 (pairOf m k W H rt b).2 D a Nq q := by
      intro Nq q
      cases D with
      | scalar d => simp only [rangeSparsePy, rangeSparseC, hbl]; rfl
      | vec i N d => simp only [rangeSparsePy, rangeSparseC, hbl]; rfl
      | image i d => rfl
    simp only [hd, hsp]
  · intro w p0 p1 hz
    have e : p0 = fromCam1 b p1 := by
      show transformPointRt (Rt_from_rt (rt_rect1_ref rt b)) w false = fromCam1 b (transformPointRt (Rt_from_rt rt) w false)
      rw [trf, trf]
      unfold rt_rect1_ref Rt_from_rt fromCam1 addP
      ext <;> simp only [] <;> ring
    have hz1 : 0 < p1.z := by rw [e] at hz; exact hz
    have := (disparity_pinhole k hfx b hb p1 hz1).1
    rw [e]
    linarith

/-- two cameras, 1 apart, with an imager of 1 pixel. The range is 1/disparity -/
noncomputable def camU : RectCam × RectCam := pairOf .pinhole ⟨1, 1, 0, 0⟩ 1 1 ⟨⟨0, 0, 0⟩, ⟨0, 0, 0⟩⟩ 1

theorem camU_valid : validate camU.1 camU.2 := valid_of (pair_Rt01 _ _ _ _ _ _).1 rfl rfl rfl rfl (Or.inr rfl)

theorem camU_baseline : baselineOf camU.1 camU.2 = 1 := by
  rw [show baselineOf camU.1 camU.2 = |(1 : ℝ)| from baseline_of (pair_Rt01 _ _ _ _ _ _).1, abs_one]

theorem camU_range (δ : ℝ) (h : δ ≠ 0) : rangeOne camU.1.type camU.1.k 1 δ ⟨0, 0⟩ = 1 / δ := by
  show rangeOne .pinhole ⟨1, 1, 0, 0⟩ 1 δ ⟨0, 0⟩ = 1 / δ
  unfold rangeOne
  rw [if_neg (by decide)]
  simp [h]

/-- an image of one pixel -/
def one (d : ℝ) : Image ℝ := ⟨1, 1, fun _ _ => d⟩

theorem camU_shape (i16 : Bool) (d : ℝ) : shapeOk camU.1 (.image i16 (one d)) = some (one d) := by
  unfold shapeOk
  exact if_pos ⟨rfl, rfl⟩

theorem smax_given (D : Disp) (a : Args) (h : a.smax ≠ none ∨ a.dmax ≠ none) : smaxOf D a = a.smax := by
  unfold smaxOf
  rw [if_neg]
  rintro ⟨h1, h2, -⟩
  rcases h with h | h
  · exact h h1
  · exact h h2

theorem camU_dense (over : Int → Option Nat) (i16 : Bool) (n : Nat) (d : ℝ) (a : Args) (hq : a.qrect0 = none) (h1 : ¬ twice a.dmin a.smin) (h2 : ¬ twice a.dmax a.smax) (hd : trunc d = n) (hn : n ≤ 65535) (sc lo hi : Nat)
    (e1 : toU16 over a.scale = some sc) (e2 : toU16 over (scaledBound a.scale a.smin a.dmin 0) = some lo) (e3 : toU16 over (scaledBound a.scale (smaxOf (.image i16 (one d)) a) a.dmax 65535) = some hi)
    (hsc : 0 < sc) (hlh : lo < hi) :
    ∃ r, stereoRange over camU.1 camU.2 (.image i16 (one d)) a = some (.image r) ∧ r.px 0 0 = if 0 < n ∧ lo ≤ n ∧ n ≤ hi then (sc : ℝ) / n else 0 := by
  unfold stereoRange
  rw [if_neg (not_not.2 camU_valid), if_neg h1, if_neg h2, hq]
  show ∃ r, rangeDensePy over camU.1 camU.2 (.image i16 (one d)) a = _ ∧ _
  unfold rangeDensePy
  rw [camU_shape]
  simp only [e1, e2, e3]
  obtain ⟨hn', hv⟩ := range_dense camU.1.type camU.1.k (baselineOf camU.1 camU.2) (astypeU16 (one d)) sc lo hi ⟨1, 1, fun _ _ => 0⟩ hsc
  have hne : rangeDense camU.1.type camU.1.k (baselineOf camU.1 camU.2) (astypeU16 (one d)) sc lo hi ⟨1, 1, fun _ _ => 0⟩ ≠ none := by
    intro hc
    rcases hn'.1 hc with h | h | h | h
    · exact h (Or.inr rfl)
    · omega
    · exact h rfl
    · exact h rfl
  obtain ⟨r, hr⟩ := Option.ne_none_iff_exists'.1 hne
  refine ⟨r, by rw [show (⟨(one d).width, (one d).height, fun _ _ => 0⟩ : Image ℝ) = ⟨1, 1, fun _ _ => 0⟩ from rfl, hr]; rfl, ?_⟩
  obtain ⟨-, -, hv⟩ := hv r hr
  obtain ⟨w1, w2⟩ := hv 0 0 Nat.one_pos Nat.one_pos
  have hpx : (astypeU16 (one d)).px 0 0 = n := by
    show (trunc d % 65536).toNat = n
    rw [hd]; omega
  rw [hpx] at w1 w2
  by_cases hc : 0 < n ∧ lo ≤ n ∧ n ≤ hi
  · rw [if_pos hc, w1 hc, camU_baseline]
    have hn0 : (n : ℝ) ≠ 0 := by exact_mod_cast hc.1.ne'
    have hs0 : (sc : ℝ) ≠ 0 := by exact_mod_cast hsc.ne'
    have := camU_range ((n : ℝ) / sc) (div_ne_zero hn0 hs0)
    simp only [Nat.cast_zero]
    rw [this, one_div_div]
  · rw [if_neg hc, w2 hc]

theorem toU16_of (over : Int → Option Nat) (x : ℝ) (n : Nat) (h0 : (n : ℝ) ≤ x) (h1 : x < n + 1) (hn : n ≤ 65535) : toU16 over x = some n := by
  have hx : 0 ≤ x := le_trans (Nat.cast_nonneg n) h0
  have ht : trunc x = n := by
    unfold trunc
    rw [if_pos hx, Int.floor_eq_iff]
    exact ⟨by exact_mod_cast h0, by exact_mod_cast h1⟩
  unfold toU16
  rw [ht, if_pos ⟨by omega, by omega⟩, Int.toNat_natCast]

/-- "Both the scaled and unscaled flavors of these may NOT be given at the same time": they may, if the numbers are equal. Then a whole image uses the scaled one, a list of pixels the other one. Here there
are 16 units per pixel, and the lower bound is 16: a disparity of 2 pixels is reported in the image, and isn't reported in the list -/
theorem both_wrong (over : Int → Option Nat) : ∃ r r', stereoRange over camU.1 camU.2 (.image true (one 32)) { scale := 16, dmin := some 16, smin := some 16 } = some (.image r) ∧ r.px 0 0 = 1 / 2 ∧
    stereoRange over camU.1 camU.2 (.vec true 1 fun _ => 32) { scale := 16, dmin := some 16, smin := some 16, qrect0 := some (1, fun _ => ⟨0, 0⟩) } = some (.vec 1 r') ∧ r' 0 = 0 := by
  have ht : ¬ twice (some (16 : ℝ)) (some 16) := by
    rintro ⟨x, y, h1, h2, h⟩
    exact h ((Option.some.inj h1).symm.trans (Option.some.inj h2))
  have hn : ¬ twice (none : Option ℝ) none := not_twice (Or.inl rfl)
  obtain ⟨r, hr, e⟩ := camU_dense over true 32 32 { scale := 16, dmin := some 16, smin := some 16 } rfl ht hn (by have := trunc_nat 32; exact_mod_cast this) (by norm_num) 16 16 32767
    (toU16_of over _ 16 (by norm_num) (by norm_num) (by norm_num)) (toU16_of over _ 16 (by norm_num [scaledBound]) (by norm_num [scaledBound]) (by norm_num))
    (toU16_of over _ 32767 (by norm_num [scaledBound, smaxOf, Disp.i16]) (by norm_num [scaledBound, smaxOf, Disp.i16]) (by norm_num)) (by norm_num) (by norm_num)
  have hsp : (rangeSparseC camU.1 camU.2 { scale := 16, dmin := some 16, smin := some 16, qrect0 := some (1, fun _ => ⟨0, 0⟩) } (some 0x7FFF) 1 (fun _ => 32) 1 (fun _ => ⟨0, 0⟩)) ≠ none := by
    unfold rangeSparseC
    rw [if_neg (by norm_num), Ne, (range_sparse _ _ _ _ _ _ _ _ _).1]
    rw [not_or, not_not]
    exact ⟨Or.inr rfl, by norm_num [pixelBound]⟩
  obtain ⟨r', hr'⟩ := Option.ne_none_iff_exists'.1 hsp
  refine ⟨r, r', hr, ?_, ?_, ?_⟩
  · rw [e]; norm_num
  · unfold stereoRange
    rw [if_neg (not_not.2 camU_valid), if_neg ht, if_neg hn]
    show Option.map (Out.vec 1) (rangeSparseC camU.1 camU.2 _ (smaxOf _ _) 1 _ 1 _) = _
    rw [show smaxOf (.vec true 1 fun _ => 32) { scale := 16, dmin := some 16, smin := some 16, qrect0 := some (1, fun _ => ⟨0, 0⟩) } = some 0x7FFF from if_pos ⟨rfl, rfl, rfl⟩, hr']
    rfl
  · unfold rangeSparseC at hr'
    rw [if_neg (by norm_num)] at hr'
    refine ((((range_sparse _ _ _ _ _ _ _ _ _).2 r' hr' 0).2 (by norm_num)).2 ?_)
    norm_num [pixelBound]

/-- the lower bound of a whole image is rounded down: a disparity of 0.125 pixels is reported, though it's below disparity_min = 0.16 -/
theorem min_truncated_wrong (over : Int → Option Nat) : ∃ r, stereoRange over camU.1 camU.2 (.image true (one 2)) { scale := 16, dmin := some 0.16 } = some (.image r) ∧
    ¬ Allowed { scale := 16, dmin := some 0.16 } (2 / 16) ∧ r.px 0 0 = 8 := by
  have hn : ¬ twice (none : Option ℝ) none := not_twice (Or.inl rfl)
  obtain ⟨r, hr, e⟩ := camU_dense over true 2 2 { scale := 16, dmin := some 0.16 } rfl (not_twice (Or.inr rfl)) hn (by have := trunc_nat 2; exact_mod_cast this) (by norm_num) 16 2 32767
    (toU16_of over _ 16 (by norm_num) (by norm_num) (by norm_num)) (toU16_of over _ 2 (by norm_num [scaledBound]) (by norm_num [scaledBound]) (by norm_num))
    (toU16_of over _ 32767 (by norm_num [scaledBound, smaxOf, Disp.i16]) (by norm_num [scaledBound, smaxOf, Disp.i16]) (by norm_num)) (by norm_num) (by norm_num)
  refine ⟨r, hr, ?_, by rw [e]; norm_num⟩
  rintro ⟨-, h, -⟩
  have := h 0.16 rfl
  norm_num at this

/-- the scale of a whole image is rounded down: with 1.5 units per pixel a disparity of 3 units is 2 pixels: a range of 1/2. The range reported is that of 3 pixels -/
theorem scale_truncated_wrong (over : Int → Option Nat) : ∃ r, stereoRange over camU.1 camU.2 (.image true (one 3)) { scale := 3 / 2 } = some (.image r) ∧
    Wanted camU.1 camU.2 { scale := 3 / 2 } (3 / (3 / 2)) ⟨0, 0⟩ = 1 / 2 ∧ r.px 0 0 = 1 / 3 := by
  have hn : ¬ twice (none : Option ℝ) none := not_twice (Or.inl rfl)
  obtain ⟨r, hr, e⟩ := camU_dense over true 3 3 { scale := 3 / 2 } rfl hn hn (by have := trunc_nat 3; exact_mod_cast this) (by norm_num) 1 0 32767
    (toU16_of over _ 1 (by norm_num) (by norm_num) (by norm_num)) (toU16_of over _ 0 (by norm_num [scaledBound]) (by norm_num [scaledBound]) (by norm_num))
    (toU16_of over _ 32767 (by norm_num [scaledBound, smaxOf, Disp.i16]) (by norm_num [scaledBound, smaxOf, Disp.i16]) (by norm_num)) (by norm_num) (by norm_num)
  refine ⟨r, hr, ?_, by rw [e]; norm_num⟩
  unfold Wanted
  rw [if_pos ⟨by norm_num, fun x h => (by cases h), fun x h => (by cases h), fun x h => (by cases h), fun x h => (by cases h)⟩, camU_baseline, camU_range _ (by norm_num)]
  norm_num

/-- an upper bound that doesn't fit: with a numpy that wraps around, disparity_max = 5000 with 16 units per pixel becomes 904 pixels. A disparity of 1000 pixels isn't reported -/
theorem max_wrapped_wrong : ∃ r, stereoRange (fun n => some (n % 65536).toNat) camU.1 camU.2 (.image true (one 16000)) { scale := 16, dmax := some 5000 } = some (.image r) ∧
    Allowed { scale := 16, dmax := some 5000 } (16000 / 16) ∧ r.px 0 0 = 0 := by
  have hn : ¬ twice (none : Option ℝ) none := not_twice (Or.inl rfl)
  have h3 : toU16 (fun n => some (n % 65536).toNat) (scaledBound 16 (smaxOf (.image true (one 16000)) { scale := 16, dmax := some 5000 }) (some 5000) 65535) = some 14464 := by
    have e : scaledBound 16 (smaxOf (.image true (one 16000)) { scale := 16, dmax := some 5000 }) (some 5000) 65535 = ((80000 : Nat) : ℝ) := by
      rw [smax_given _ _ (Or.inr (by simp))]
      norm_num [scaledBound]
    unfold toU16
    rw [e, trunc_nat, if_neg (by norm_num)]
    rfl
  obtain ⟨r, hr, e⟩ := camU_dense (fun n => some (n % 65536).toNat) true 16000 16000 { scale := 16, dmax := some 5000 } rfl hn (not_twice (Or.inr rfl))
    (by have := trunc_nat 16000; exact_mod_cast this) (by norm_num) 16 0 14464
    (toU16_of _ _ 16 (by norm_num) (by norm_num) (by norm_num)) (toU16_of _ _ 0 (by norm_num [scaledBound]) (by norm_num [scaledBound]) (by norm_num)) h3 (by norm_num) (by norm_num)
  refine ⟨r, hr, ⟨by norm_num, fun x h => (by cases h), fun x h => (by cases h), fun x h => ?_, fun x h => (by cases h)⟩, by rw [e]; norm_num⟩
  rw [← Option.some.inj h]; norm_num

/-- "This should be identical to the stereo_range() function": not for a whole image of floating-point disparities. Those are truncated by `stereo_range()`, and not by the reference implementation -/
theorem reference_float_wrong (over : Int → Option Nat) : ∃ r r', stereoRange over camU.1 camU.2 (.image false (one (3 / 2))) {} = some (.image r) ∧ r.px 0 0 = 1 ∧
    stereoRangeRef camU.1 camU.2 (.image false (one (3 / 2))) {} = some (.image r') ∧ r'.px 0 0 = some (2 / 3) := by
  have hn : ¬ twice (none : Option ℝ) none := not_twice (Or.inl rfl)
  have ht : trunc (3 / 2) = ((1 : Nat) : Int) := by
    unfold trunc
    rw [if_pos (by norm_num), Int.floor_eq_iff]
    norm_num
  obtain ⟨r, hr, e⟩ := camU_dense over false 1 (3 / 2) {} rfl hn hn ht (by norm_num) 1 0 65535
    (toU16_of over _ 1 (by norm_num) (by norm_num) (by norm_num)) (toU16_of over _ 0 (by norm_num [scaledBound]) (by norm_num [scaledBound]) (by norm_num))
    (toU16_of over _ 65535 (by norm_num [scaledBound, smaxOf, Disp.i16]) (by norm_num [scaledBound, smaxOf, Disp.i16]) (by norm_num)) (by norm_num) (by norm_num)
  refine ⟨r, ⟨1, 1, fun x y => refMasked camU.1 (baselineOf camU.1 camU.2) 1 0 65535 (3 / 2) (3 / 2) ⟨(x : ℝ), (y : ℝ)⟩⟩, hr, by rw [e]; norm_num, ?_, ?_⟩
  · unfold stereoRangeRef
    rw [if_neg (not_not.2 camU_valid), if_neg hn, if_neg hn]
    show Option.map _ (shapeOk camU.1 (.image false (one (3 / 2)))) = _
    rw [camU_shape]
    rfl
  · simp only [refMasked]
    rw [if_neg (by norm_num), refOne_eq _ _ (by norm_num) _ (fun h => by cases h), camU_baseline]
    have := camU_range (3 / 2 / 1) (by norm_num)
    simp only [Nat.cast_zero]
    rw [this]
    norm_num

/-! ### the hypotheses are met -/

/-- arguments that can be represented: 16 units per pixel, disparities between 1 and 100.3 pixels, a signed image -/
example : FitArgs true { scale := 16, dmin := some 1, smax := some 1605 } ∧ Once { scale := 16, dmin := some 1, smax := some 1605 } ∧ IntImage true (one (-16)) ∧ IntImage true (one 32) := by
  refine ⟨⟨⟨16, by norm_num, by norm_num, by norm_num⟩, fun x h => (by cases h), fun x h => ⟨16, by norm_num, ?_⟩, fun x h => ?_, fun x h => (by cases h)⟩, ⟨Or.inr rfl, Or.inl rfl⟩, ?_, ?_⟩
  · rw [← Option.some.inj h]; norm_num
  · rw [← Option.some.inj h]; norm_num
  · exact fun x y _ _ => ⟨-16, by norm_num [one], fun h => (by cases h), fun _ => by norm_num⟩
  · exact fun x y _ _ => ⟨32, by norm_num [one], fun h => (by cases h), fun _ => by norm_num⟩

/-- a whole image that's accepted: a disparity of 2 pixels, within the bounds: a range of 1/2 -/
example (over : Int → Option Nat) : ∃ r, stereoRange over camU.1 camU.2 (.image true (one 32)) { scale := 16, dmin := some 1, smax := some 1605 } = some (.image r) ∧ r.px 0 0 = 1 / 2 := by
  obtain ⟨r, hr, e⟩ := camU_dense over true 32 32 { scale := 16, dmin := some 1, smax := some 1605 } rfl (not_twice (Or.inr rfl)) (not_twice (Or.inl rfl))
    (by have := trunc_nat 32; exact_mod_cast this) (by norm_num) 16 16 1605
    (toU16_of over _ 16 (by norm_num) (by norm_num) (by norm_num)) (toU16_of over _ 16 (by norm_num [scaledBound]) (by norm_num [scaledBound]) (by norm_num))
    (by rw [smax_given _ _ (Or.inl (by simp))]; exact toU16_of over _ 1605 (by norm_num [scaledBound]) (by norm_num [scaledBound]) (by norm_num)) (by norm_num) (by norm_num)
  exact ⟨r, hr, by rw [e]; norm_num⟩

/- unproject_list: the hypotheses on the cameras are as for unproject_image, below; the ranges are those of the next example -/
example (over : Int → Option Nat) (D : Disp) (q : Nat → P2) (r : Nat → ℝ) (h : stereoRange over camU.1 camU.2 D { scale := 2, qrect0 := some (2, q) } = some (.vec 2 r)) :
    (stereoUnproject over camU.1 camU.2 (some D) none 2 (some (2, q))).isSome = true := by
  rw [(unproject_ranges over camU.1 camU.2 D (.vec 2 r) 2 (some (2, q))).2.2, h]
  rfl

/-- a list of pixels that's accepted -/
example (over : Int → Option Nat) : (stereoRange over camU.1 camU.2 (.vec false 2 fun i => (i : ℝ) + 1) { scale := 2, dmin := some 1, dmax := some 7, qrect0 := some (2, fun i => ⟨(i : ℝ), 0⟩) }).isSome = true :=
  (sparse_accepted over camU_valid ⟨Or.inr rfl, Or.inr rfl⟩ false 2 2 _ _ rfl).2 ⟨rfl, by norm_num [pixelBound]⟩

/-- the point cloud of that image: the disparities are in view -/
example (over : Int → Option Nat) : (stereoUnproject over camU.1 camU.2 (some (.image true (one 32))) none 16 none).isSome = true ∧ 0 < camU.1.k.fx ∧ camU.1.k.fy ≠ 0 ∧ 0 < baselineOf camU.1 camU.2 ∧
    InView camU.1 2 ⟨0, 0⟩ := by
  have hn : ¬ twice (none : Option ℝ) none := not_twice (Or.inl rfl)
  obtain ⟨r, hr, e⟩ := camU_dense over true 32 32 { scale := 16 } rfl hn hn (by have := trunc_nat 32; exact_mod_cast this) (by norm_num) 16 0 32767
    (toU16_of over _ 16 (by norm_num) (by norm_num) (by norm_num)) (toU16_of over _ 0 (by norm_num [scaledBound]) (by norm_num [scaledBound]) (by norm_num))
    (toU16_of over _ 32767 (by norm_num [scaledBound, smaxOf, Disp.i16]) (by norm_num [scaledBound, smaxOf, Disp.i16]) (by norm_num)) (by norm_num) (by norm_num)
  refine ⟨?_, by norm_num [camU, pairOf], by norm_num [camU, pairOf], by rw [camU_baseline]; norm_num, fun h => (by cases h)⟩
  have hf : FitArgs true { scale := (16 : ℝ) } := ⟨⟨16, by norm_num, by norm_num, by norm_num⟩, fun x h => (by cases h), fun x h => (by cases h), fun x h => (by cases h), fun x h => (by cases h)⟩
  obtain ⟨-, -, r', e', rW, rH, -⟩ := dense_value hf ⟨Or.inl rfl, Or.inl rfl⟩ (d := one 32) (fun x y _ _ => ⟨32, by norm_num [one], fun h => (by cases h), fun _ => by norm_num⟩) rfl hr
  have er : r = r' := by injection e'
  rw [(unproject_ranges over camU.1 camU.2 _ (.image r) 16 none).2.2, hr]
  show (pointsOf camU.1 (.image r) none).isSome = true
  unfold pointsOf
  simp only []
  rw [er, if_pos ⟨rW, rH⟩]
  rfl

end Mrcal.StereoPy
