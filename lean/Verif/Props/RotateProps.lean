import Verif.Props.RodriguesProps
/-
C26: rotating points with Rodrigues vectors: values and gradients.
-/
namespace Mrcal.Pose
open AD

/-! ### specification -/

/-- **Specification**: rotating a point, using Rodrigues' formula. The inverse rotation is the transposed matrix -/
noncomputable def rotSpec (r x : P3) (inverted : Bool) : Fin 3 → ℝ :=
  (if inverted then (rod r).transpose else rod r).mulVec (toVec x)

def sgn (inverted : Bool) : ℝ := if inverted then -1 else 1

/-- the same formula, written out with vectors -/
noncomputable def rotForm (r x : P3) (inverted : Bool) : P3 :=
  let θ := mag3 r
  let n := r.x * r.x + r.y * r.y + r.z * r.z
  let i := r.x * x.x + r.y * x.y + r.z * x.z
  ⟨x.x * Real.cos θ + (r.y * x.z - r.z * x.y) * sgn inverted * Real.sin θ / θ + r.x * i * (1 - Real.cos θ) / n,
   x.y * Real.cos θ + (r.z * x.x - r.x * x.z) * sgn inverted * Real.sin θ / θ + r.y * i * (1 - Real.cos θ) / n,
   x.z * Real.cos θ + (r.x * x.y - r.y * x.x) * sgn inverted * Real.sin θ / θ + r.z * i * (1 - Real.cos θ) / n⟩

theorem rotForm_eq (r x : P3) (inverted : Bool) : toVec (rotForm r x inverted) = rotSpec r x inverted := by
  unfold rotSpec
  rw [rod_eq, ← toMat_transpose]
  have e : (if inverted = true then toMat (transpose (if mag3 r = 0 then identityR else rodM (Real.cos (mag3 r)) (Real.sin (mag3 r)) (axis r)))
      else toMat (if mag3 r = 0 then identityR else rodM (Real.cos (mag3 r)) (Real.sin (mag3 r)) (axis r))) =
      toMat (if inverted = true then transpose (if mag3 r = 0 then identityR else rodM (Real.cos (mag3 r)) (Real.sin (mag3 r)) (axis r))
      else (if mag3 r = 0 then identityR else rodM (Real.cos (mag3 r)) (Real.sin (mag3 r)) (axis r))) := by
    split <;> rfl
  rw [e, ← toVec_mulVec]
  congr 1
  have hn := mag3_sq r
  by_cases h : mag3 r = 0
  · rw [h, mul_zero] at hn
    simp only [rotForm, h, ← hn, if_true]
    cases inverted <;> simp [mulVec, identityR, transpose]
  · simp only [rotForm, h, if_false, ← hn]
    cases inverted
    · simp only [Bool.false_eq_true, if_false, mulVec, rodM, axis, sgn]
      ext <;> simp only [] <;> field_simp <;> ring
    · simp only [if_true, mulVec, rodM, axis, sgn, transpose]
      ext <;> simp only [] <;> field_simp <;> ring

/-! ### values -/
variable {N : Nat}

theorem core_value (rg xg : Vec3 N) (inverted : Bool) (h : 1e-10 ≤ norm2 rg.value) :
    (rotatePointRCore rg xg inverted).value = rotForm rg.value xg.value inverted := by
  have h' : ¬ (rg.x.x * rg.x.x + rg.y.x * rg.y.x + rg.z.x * rg.z.x < 1e-10) := not_lt.mpr h
  unfold rotatePointRCore
  simp only [Val.add, Val.mul, h', if_false]
  rfl

theorem core_value_small (rg xg : Vec3 N) (inverted : Bool) (h : norm2 rg.value < 1e-10) :
    (rotatePointRCore rg xg inverted).value =
      let r := rg.value
      let x := xg.value
      let i := r.x * x.x + r.y * x.y + r.z * x.z
      ⟨x.x + (r.y * x.z - r.z * x.y) * sgn inverted + r.x * i / 2,
       x.y + (r.z * x.x - r.x * x.z) * sgn inverted + r.y * i / 2,
       x.z + (r.x * x.y - r.y * x.x) * sgn inverted + r.z * i / 2⟩ := by
  have h' : (rg.x.x * rg.x.x + rg.y.x * rg.y.x + rg.z.x * rg.z.x < 1e-10) := h
  unfold rotatePointRCore
  simp only [Val.add, Val.mul, h', if_true, Val.sub, Val.mulC, Val.divC, Vec3.value, sgn, mul_one_div]

/-- selecting some of the gradient variables -/
def reVal {M : Nat} (φ : Fin M → Fin N) (v : Val N) : Val M := ⟨v.x, fun i => v.j (φ i)⟩
def reVec {M : Nat} (φ : Fin M → Fin N) (v : Vec3 N) : Vec3 M := ⟨reVal φ v.x, reVal φ v.y, reVal φ v.z⟩

/-- the gradient variables are independent of each other -/
theorem core_natural {M : Nat} (φ : Fin M → Fin N) (rg xg : Vec3 N) (inverted : Bool) :
    rotatePointRCore (reVec φ rg) (reVec φ xg) inverted = reVec φ (rotatePointRCore rg xg inverted) := by
  unfold rotatePointRCore
  by_cases h : (rg.x.x * rg.x.x + rg.y.x * rg.y.x + rg.z.x * rg.z.x < 1e-10)
  · simp only [Val.add, Val.mul, reVec, reVal, h, if_true]
    rfl
  · simp only [Val.add, Val.mul, reVec, reVal, h, if_false]
    rfl

/-- **C26**: asking or not asking for a gradient affects neither the value nor the other gradient -/
theorem rotate_wants (r x : P3) (inverted wantJr wantJx : Bool) :
    let all := rotatePointr r x inverted true true
    let o := rotatePointr r x inverted wantJr wantJx
    o.x = all.x ∧ o.Jr = (if wantJr then all.Jr else none) ∧ o.Jx = (if wantJx then all.Jx else none) ∧
    all.Jr.isSome ∧ all.Jx.isSome := by
  have i0 : ∀ p g, reVec (Fin.elim0 : Fin 0 → Fin 6) (Vec3.init p g) = Vec3.init p none := by
    intro p g
    simp only [reVec, reVal, Vec3.init]
    congr <;> funext i <;> exact i.elim0
  cases wantJr <;> cases wantJx
  · simp only [rotatePointr]
    have e := core_natural (Fin.elim0 : Fin 0 → Fin 6) (Vec3.init r (some 0)) (Vec3.init x (some 3)) inverted
    rw [i0, i0] at e
    simp [e, reVec, reVal, Vec3.value]
  · simp only [rotatePointr]
    have e := core_natural (fun i : Fin 3 => (⟨i.val + 3, by omega⟩ : Fin 6)) (Vec3.init r (some 0)) (Vec3.init x (some 3)) inverted
    have e1 : reVec (fun i : Fin 3 => (⟨i.val + 3, by omega⟩ : Fin 6)) (Vec3.init r (some 0)) = Vec3.init r none := by
      simp only [reVec, reVal, Vec3.init]
      congr <;> funext i <;> fin_cases i <;> simp
    have e2 : reVec (fun i : Fin 3 => (⟨i.val + 3, by omega⟩ : Fin 6)) (Vec3.init x (some 3)) = Vec3.init x (some 0) := by
      simp only [reVec, reVal, Vec3.init]
      congr <;> funext i <;> fin_cases i <;> simp
    rw [e1, e2] at e
    simp [e, reVec, reVal, Vec3.value, gradM, Vec3.grad]
  · simp only [rotatePointr]
    have e := core_natural (fun i : Fin 3 => (⟨i.val, by omega⟩ : Fin 6)) (Vec3.init r (some 0)) (Vec3.init x (some 3)) inverted
    have e1 : reVec (fun i : Fin 3 => (⟨i.val, by omega⟩ : Fin 6)) (Vec3.init r (some 0)) = Vec3.init r (some 0) := by
      simp only [reVec, reVal, Vec3.init]
    have e2 : reVec (fun i : Fin 3 => (⟨i.val, by omega⟩ : Fin 6)) (Vec3.init x (some 3)) = Vec3.init x none := by
      simp only [reVec, reVal, Vec3.init]
      congr <;> funext i <;> fin_cases i <;> simp
    rw [e1, e2] at e
    simp [e, reVec, reVal, Vec3.value, gradM, Vec3.grad]
  · simp only [rotatePointr]
    simp

theorem init_value (p : P3) (g : Option Nat) : (Vec3.init p g : Vec3 N).value = p := rfl

theorem rotate_x (r x : P3) (inverted wr wx : Bool) :
    (rotatePointr r x inverted wr wx).x = (rotatePointRCore (Vec3.init r (some 0)) (Vec3.init x (some 3)) inverted : Vec3 6).value := by
  rw [(rotate_wants r x inverted wr wx).1]
  rfl

/-- **C26**: rotate_point_r() is the rotation, if |r| ≥ 1e-5, or if r=0 -/
theorem rotate_meaning (r x : P3) (inverted wr wx : Bool) (h : 1e-5 ≤ mag3 r ∨ r = ⟨0, 0, 0⟩) :
    toVec (rotatePointr r x inverted wr wx).x = rotSpec r x inverted := by
  rw [rotate_x, ← rotForm_eq]
  rcases h with h | h
  · rw [core_value _ _ _ (by
      rw [init_value, norm2_eq]
      have : (1e-5 : ℝ) * 1e-5 ≤ mag3 r * mag3 r := mul_le_mul h h (by norm_num) (mag3_nonneg r)
      norm_num at this ⊢
      exact this)]
    rfl
  · subst h
    rw [core_value_small _ _ _ (by rw [init_value]; norm_num [norm2])]
    simp [init_value, rotForm, mag3]

/-- **C26**: rotate_point_r() is the same as rotating with the R_from_r() matrix -/
theorem rotate_r_R (r x : P3) (inverted wr wx : Bool) (h : 1e-5 ≤ mag3 r ∨ r = ⟨0, 0, 0⟩) :
    (rotatePointr r x inverted wr wx).x = rotatePointR (R_from_r r) x inverted := by
  apply toVec_inj
  rw [rotate_meaning r x inverted wr wx h]
  have hm : toMat (R_from_r r) = rod r := by
    apply (R_from_r_meaning r).1
    rcases h with h | h
    · right
      refine le_trans ?_ h
      unfold dblEpsilon
      norm_num
    · exact Or.inl h
  unfold rotatePointR rotSpec
  rw [toVec_mulVec]
  cases inverted
  · simp [hm]
  · simp [hm, toMat_transpose]

/-- **C26**: lengths and inner products are preserved -/
theorem rotate_inner (r a b : P3) (inverted wr wx : Bool) (h : 1e-5 ≤ mag3 r ∨ r = ⟨0, 0, 0⟩) :
    inner3 (rotatePointr r a inverted wr wx).x (rotatePointr r b inverted wr wx).x = inner3 a b := by
  rw [rotate_r_R r a _ _ _ h, rotate_r_R r b _ _ _ h]
  exact rot_inner _ (R_from_r_rot r).1 a b inverted

/-! ### the small-angle branch -/

theorem cross_le (a b c d : ℝ) {m n : ℝ} (hm : 0 ≤ m) (hn : 0 ≤ n) (h1 : a ^ 2 + b ^ 2 ≤ m ^ 2) (h2 : c ^ 2 + d ^ 2 ≤ n ^ 2) :
    |a * c - b * d| ≤ m * n := by
  apply abs_le_of_sq_le_sq _ (mul_nonneg hm hn)
  have e : (a * c - b * d) ^ 2 = (a ^ 2 + b ^ 2) * (c ^ 2 + d ^ 2) - (a * d + b * c) ^ 2 := by ring
  have : (a ^ 2 + b ^ 2) * (c ^ 2 + d ^ 2) ≤ m ^ 2 * n ^ 2 := mul_le_mul h1 h2 (by positivity) (by positivity)
  nlinarith [sq_nonneg (a * d + b * c)]

theorem comp_le (p : P3) : |p.x| ≤ mag3 p ∧ |p.y| ≤ mag3 p ∧ |p.z| ≤ mag3 p := by
  have e := mag3_sq p
  refine ⟨?_, ?_, ?_⟩ <;> apply abs_le_of_sq_le_sq _ (mag3_nonneg p) <;> nlinarith [sq_nonneg p.x, sq_nonneg p.y, sq_nonneg p.z]

theorem inner_le (a b : P3) : |a.x * b.x + a.y * b.y + a.z * b.z| ≤ mag3 a * mag3 b := by
  apply abs_le_of_sq_le_sq _ (mul_nonneg (mag3_nonneg a) (mag3_nonneg b))
  have ea := mag3_sq a
  have eb := mag3_sq b
  have : (mag3 a * mag3 b) ^ 2 = (a.x * a.x + a.y * a.y + a.z * a.z) * (b.x * b.x + b.y * b.y + b.z * b.z) := by
    rw [← ea, ← eb]; ring
  rw [this]
  nlinarith [sq_nonneg (a.x * b.y - a.y * b.x), sq_nonneg (a.x * b.z - a.z * b.x), sq_nonneg (a.y * b.z - a.z * b.y)]

theorem sgn_abs (i : Bool) : |sgn i| = 1 := by cases i <;> simp [sgn]

theorem small_scalar (θ x0 cr ri X : ℝ) (h0 : 0 ≤ θ) (h1 : θ ≤ 1) (hx : |x0| ≤ X) (hcr : |cr| ≤ θ * X) (hri : |ri| ≤ θ * θ * X) :
    |(x0 * Real.cos θ + cr * Real.sin θ / θ + ri * (1 - Real.cos θ) / (θ * θ)) - (x0 + cr + ri / 2)| ≤ θ * θ * X := by
  have hX : 0 ≤ X := (abs_nonneg _).trans hx
  rcases eq_or_lt_of_le h0 with h | hpos
  · subst h
    have hc : cr = 0 := by
      have := hcr; rw [zero_mul] at this; exact abs_eq_zero.mp (le_antisymm this (abs_nonneg _))
    have hr : ri = 0 := by
      have := hri; rw [zero_mul, zero_mul] at this; exact abs_eq_zero.mp (le_antisymm this (abs_nonneg _))
    simp [hc, hr]
  have e1 : |Real.cos θ - 1| ≤ θ * θ / 2 := by
    have := Real.one_sub_sq_div_two_le_cos (x := θ)
    rw [abs_le]
    constructor <;> nlinarith [Real.cos_le_one θ]
  have e2 : |1 - Real.sin θ / θ| ≤ θ ^ 2 / 6 := (AD.sinxOverX_bound θ hpos.ne').1
  have e3 : |(1 - Real.cos θ) / (θ * θ) - 1 / 2| ≤ θ ^ 2 * (5 / 96) := by
    have hb := Real.cos_bound (x := θ) (by rw [abs_of_pos hpos]; exact h1)
    rw [abs_of_pos hpos] at hb
    have e : (1 - Real.cos θ) / (θ * θ) - 1 / 2 = -(Real.cos θ - (1 - θ ^ 2 / 2)) / (θ * θ) := by
      field_simp
      ring
    rw [e, abs_div, abs_neg, abs_of_pos (mul_pos hpos hpos), div_le_iff₀ (mul_pos hpos hpos)]
    linarith [hb, show θ ^ 2 * (5 / 96) * (θ * θ) = θ ^ 4 * (5 / 96) by ring]
  have e : (x0 * Real.cos θ + cr * Real.sin θ / θ + ri * (1 - Real.cos θ) / (θ * θ)) - (x0 + cr + ri / 2) =
      x0 * (Real.cos θ - 1) + -(cr * (1 - Real.sin θ / θ)) + ri * ((1 - Real.cos θ) / (θ * θ) - 1 / 2) := by ring
  rw [e]
  refine (abs_add_three _ _ _).trans ?_
  rw [abs_neg, abs_mul, abs_mul, abs_mul]
  have m1 : |x0| * |Real.cos θ - 1| ≤ X * (θ * θ / 2) := mul_le_mul hx e1 (abs_nonneg _) hX
  have m2 : |cr| * |1 - Real.sin θ / θ| ≤ (θ * X) * (θ ^ 2 / 6) := mul_le_mul hcr e2 (abs_nonneg _) (by positivity)
  have m3 : |ri| * |(1 - Real.cos θ) / (θ * θ) - 1 / 2| ≤ (θ * θ * X) * (θ ^ 2 * (5 / 96)) := mul_le_mul hri e3 (abs_nonneg _) (by positivity)
  have k : 0 ≤ θ * θ * X := by positivity
  have m2' : (θ * X) * (θ ^ 2 / 6) ≤ θ * θ * X / 6 := by
    have : (θ * X) * (θ ^ 2 / 6) = θ * (θ * θ * X / 6) := by ring
    rw [this]
    exact mul_le_of_le_one_left (by positivity) h1
  have m3' : (θ * θ * X) * (θ ^ 2 * (5 / 96)) ≤ θ * θ * X * (5 / 96) := by
    have h2 : θ ^ 2 ≤ 1 := by nlinarith
    have : (θ * θ * X) * (θ ^ 2 * (5 / 96)) = θ ^ 2 * (θ * θ * X * (5 / 96)) := by ring
    rw [this]
    exact mul_le_of_le_one_left (by positivity) h2
  linarith

/-- the small-angle expression -/
noncomputable def rotSmall (r x : P3) (inverted : Bool) : P3 :=
  let i := r.x * x.x + r.y * x.y + r.z * x.z
  ⟨x.x + (r.y * x.z - r.z * x.y) * sgn inverted + r.x * i / 2,
   x.y + (r.z * x.x - r.x * x.z) * sgn inverted + r.y * i / 2,
   x.z + (r.x * x.y - r.y * x.x) * sgn inverted + r.z * i / 2⟩

theorem small_close (r x : P3) (inverted : Bool) (h : mag3 r ≤ 1) :
    |(rotForm r x inverted).x - (rotSmall r x inverted).x| ≤ mag3 r * mag3 r * mag3 x ∧
    |(rotForm r x inverted).y - (rotSmall r x inverted).y| ≤ mag3 r * mag3 r * mag3 x ∧
    |(rotForm r x inverted).z - (rotSmall r x inverted).z| ≤ mag3 r * mag3 r * mag3 x := by
  obtain ⟨cx, cy, cz⟩ := comp_le x
  obtain ⟨rx, ry, rz⟩ := comp_le r
  have hi := inner_le r x
  have er := mag3_sq r
  have exx := mag3_sq x
  have hrn := mag3_nonneg r
  have hxn := mag3_nonneg x
  have c1 : |(r.y * x.z - r.z * x.y) * sgn inverted| ≤ mag3 r * mag3 x := by
    rw [abs_mul, sgn_abs, mul_one]
    exact cross_le _ _ _ _ hrn hxn (by nlinarith [sq_nonneg r.x]) (by nlinarith [sq_nonneg x.x])
  have c2 : |(r.z * x.x - r.x * x.z) * sgn inverted| ≤ mag3 r * mag3 x := by
    rw [abs_mul, sgn_abs, mul_one]
    exact cross_le _ _ _ _ hrn hxn (by nlinarith [sq_nonneg r.y]) (by nlinarith [sq_nonneg x.y])
  have c3 : |(r.x * x.y - r.y * x.x) * sgn inverted| ≤ mag3 r * mag3 x := by
    rw [abs_mul, sgn_abs, mul_one]
    exact cross_le _ _ _ _ hrn hxn (by nlinarith [sq_nonneg r.z]) (by nlinarith [sq_nonneg x.z])
  have i1 : |r.x * (r.x * x.x + r.y * x.y + r.z * x.z)| ≤ mag3 r * mag3 r * mag3 x := by
    rw [abs_mul, mul_assoc]; exact mul_le_mul rx hi (abs_nonneg _) hrn
  have i2 : |r.y * (r.x * x.x + r.y * x.y + r.z * x.z)| ≤ mag3 r * mag3 r * mag3 x := by
    rw [abs_mul, mul_assoc]; exact mul_le_mul ry hi (abs_nonneg _) hrn
  have i3 : |r.z * (r.x * x.x + r.y * x.y + r.z * x.z)| ≤ mag3 r * mag3 r * mag3 x := by
    rw [abs_mul, mul_assoc]; exact mul_le_mul rz hi (abs_nonneg _) hrn
  simp only [rotForm, rotSmall, ← er]
  exact ⟨small_scalar _ _ _ _ _ hrn h cx c1 i1, small_scalar _ _ _ _ _ hrn h cy c2 i2, small_scalar _ _ _ _ _ hrn h cz c3 i3⟩

/-- **C26**: in the small-angle branch (0 < |r| < 1e-5) the result isn't exactly the rotation; every coordinate is within 1e-10 |x| -/
theorem rotate_small_bound (r x : P3) (inverted wr wx : Bool) (h : mag3 r < 1e-5) (i : Fin 3) :
    |toVec (rotatePointr r x inverted wr wx).x i - rotSpec r x inverted i| ≤ 1e-10 * mag3 x := by
  have hrn := mag3_nonneg r
  have hlt : norm2 r < 1e-10 := by
    rw [norm2_eq]
    have := mul_self_lt_mul_self hrn h
    norm_num at this ⊢
    exact this
  rw [rotate_x, core_value_small _ _ _ (by rw [init_value]; exact hlt), ← rotForm_eq]
  have key := small_close r x inverted (by
    have : (1e-5 : ℝ) ≤ 1 := by norm_num
    linarith)
  have hb : mag3 r * mag3 r * mag3 x ≤ 1e-10 * mag3 x := by
    apply mul_le_mul_of_nonneg_right _ (mag3_nonneg x)
    rw [← norm2_eq]; exact hlt.le
  obtain ⟨k1, k2, k3⟩ := key
  simp only [init_value]
  fin_cases i
  · rw [abs_sub_comm]; exact k1.trans hb
  · rw [abs_sub_comm]; exact k2.trans hb
  · rw [abs_sub_comm]; exact k3.trans hb

/-- **C26, the limitation**: in the small-angle branch lengths aren't preserved: a 9e-6 rad rotation lengthens (1,0,0) -/
theorem rotate_small_stretches :
    inner3 (rotatePointr ⟨0, 0, 9e-6⟩ ⟨1, 0, 0⟩ false false false).x (rotatePointr ⟨0, 0, 9e-6⟩ ⟨1, 0, 0⟩ false false false).x > 1 := by
  rw [rotate_x, core_value_small _ _ _ (by rw [init_value]; norm_num [norm2])]
  simp only [init_value, inner3, sgn]
  norm_num

example : (1e-5 : ℝ) ≤ mag3 ⟨1, 2, 3⟩ := by
  unfold mag3
  apply Real.le_sqrt_of_sq_le
  norm_num

/-! ### gradients -/

/-- `v` carries the value and the derivative of the vector path `f` -/
def TracksV (v : Vec3 N) (d : Fin N → ℝ) (f : ℝ → P3) (t : ℝ) : Prop :=
  Tracks v.x d (fun s => (f s).x) t ∧ Tracks v.y d (fun s => (f s).y) t ∧ Tracks v.z d (fun s => (f s).z) t

theorem TracksV.value {v : Vec3 N} {d : Fin N → ℝ} {f : ℝ → P3} {t : ℝ} (h : TracksV v d f t) : v.value = f t := by
  ext
  · exact h.1.1.symm
  · exact h.2.1.1.symm
  · exact h.2.2.1.symm

theorem TracksV.congr {v : Vec3 N} {d : Fin N → ℝ} {f g : ℝ → P3} {t : ℝ} (h : TracksV v d f t) (e : ∀ s, f s = g s) : TracksV v d g t := by
  rw [← show f = g from funext e]; exact h

/-- **autodiff of the nominal branch** -/
theorem core_tracks {rg xg : Vec3 N} {d : Fin N → ℝ} {r x : ℝ → P3} {t : ℝ} (inverted : Bool)
    (hr : TracksV rg d r t) (hx : TracksV xg d x t) (h : 1e-10 ≤ norm2 (r t)) :
    TracksV (rotatePointRCore rg xg inverted) d (fun s => rotForm (r s) (x s) inverted) t := by
  have hv := hr.value
  obtain ⟨r1, r2, r3⟩ := hr
  obtain ⟨x1, x2, x3⟩ := hx
  have h' : ¬ (rg.x.x * rg.x.x + rg.y.x * rg.y.x + rg.z.x * rg.z.x < 1e-10) := by
    rw [← hv] at h; exact not_lt.mpr h
  have hpos : 0 < (((rg.x.mul rg.x).add (rg.y.mul rg.y)).add (rg.z.mul rg.z)).x := by
    have : (0 : ℝ) < 1e-10 := by norm_num
    exact lt_of_lt_of_le this (not_lt.mp h')
  have th2 := ((r1.mul r1).add (r2.mul r2)).add (r3.mul r3)
  have th := th2.sqrt hpos
  have hne : (((rg.x.mul rg.x).add (rg.y.mul rg.y)).add (rg.z.mul rg.z)).sqrt.x ≠ 0 := (Real.sqrt_pos.mpr hpos).ne'
  have inner := ((r1.mul x1).add (r2.mul x2)).add (r3.mul x3)
  have cx := ((r2.mul x3).sub (r3.mul x2)).mulC (c := sgn inverted)
  have cy := ((r3.mul x1).sub (r1.mul x3)).mulC (c := sgn inverted)
  have cz := ((r1.mul x2).sub (r2.mul x1)).mulC (c := sgn inverted)
  have one := (Tracks.ofR (N := N) (c := 1) (d := d) (t := t)).sub th.cos
  unfold rotatePointRCore
  simp only [show ((((rg.x.mul rg.x).add (rg.y.mul rg.y)).add (rg.z.mul rg.z)).x < 1e-10) = False from eq_false h', if_false]
  refine ⟨?_, ?_, ?_⟩
  · exact ((x1.mul th.cos).add ((cx.mul th.sin).div th hne)).add (((r1.mul inner).mul one).div th2 hpos.ne')
  · exact ((x2.mul th.cos).add ((cy.mul th.sin).div th hne)).add (((r2.mul inner).mul one).div th2 hpos.ne')
  · exact ((x3.mul th.cos).add ((cz.mul th.sin).div th hne)).add (((r3.mul inner).mul one).div th2 hpos.ne')

/-- **autodiff of the small branch** -/
theorem core_tracks_small {rg xg : Vec3 N} {d : Fin N → ℝ} {r x : ℝ → P3} {t : ℝ} (inverted : Bool)
    (hr : TracksV rg d r t) (hx : TracksV xg d x t) (h : norm2 (r t) < 1e-10) :
    TracksV (rotatePointRCore rg xg inverted) d (fun s => rotSmall (r s) (x s) inverted) t := by
  have hv := hr.value
  obtain ⟨r1, r2, r3⟩ := hr
  obtain ⟨x1, x2, x3⟩ := hx
  have h' : (rg.x.x * rg.x.x + rg.y.x * rg.y.x + rg.z.x * rg.z.x < 1e-10) := by
    rw [← hv] at h; exact h
  have inner := ((r1.mul x1).add (r2.mul x2)).add (r3.mul x3)
  have cx := ((r2.mul x3).sub (r3.mul x2)).mulC (c := sgn inverted)
  have cy := ((r3.mul x1).sub (r1.mul x3)).mulC (c := sgn inverted)
  have cz := ((r1.mul x2).sub (r2.mul x1)).mulC (c := sgn inverted)
  unfold rotatePointRCore
  simp only [show ((((rg.x.mul rg.x).add (rg.y.mul rg.y)).add (rg.z.mul rg.z)).x < 1e-10) = True from eq_true h', if_true]
  refine ⟨?_, ?_, ?_⟩
  · exact (x1.add cx).add ((r1.mul inner).divC two_ne_zero)
  · exact (x2.add cy).add ((r2.mul inner).divC two_ne_zero)
  · exact (x3.add cz).add ((r3.mul inner).divC two_ne_zero)

theorem sq_small_deriv {f g h : ℝ → ℝ} {g' t K : ℝ} (hg : HasDerivAt g g' t) (e : f t = g t) (hh : HasDerivAt h 0 t) (h0 : h t = 0)
    (hb : ∀ᶠ s in nhds t, |f s - g s| ≤ K * |h s|) : HasDerivAt f g' t := by
  have hd : HasDerivAt (fun s => f s - g s) 0 t := by
    rw [hasDerivAt_iff_isLittleO]
    rw [hasDerivAt_iff_isLittleO] at hh
    simp only [smul_zero, sub_zero, h0, e, sub_self] at hh ⊢
    refine Asymptotics.IsBigO.trans_isLittleO ?_ hh
    apply Asymptotics.IsBigO.of_bound K
    filter_upwards [hb] with s hs
    simpa [Real.norm_eq_abs] using hs
  have h2 := hg.add hd
  have e2 : (g + fun s => f s - g s) = f := by funext s; simp
  rw [e2, add_zero] at h2
  exact h2

/-- rotating by nothing: the derivative -/
theorem rotForm_deriv_zero {r x : ℝ → P3} {r' x' : P3} {t : ℝ} (inverted : Bool) (hr : HasDerivP r r' t) (hx : HasDerivP x x' t)
    (h0 : r t = ⟨0, 0, 0⟩) (L : P3) (hL : HasDerivP (fun s => rotSmall (r s) (x s) inverted) L t) :
    HasDerivP (fun s => rotForm (r s) (x s) inverted) L t := by
  obtain ⟨r1, r2, r3⟩ := hr
  obtain ⟨x1, x2, x3⟩ := hx
  have hn : HasDerivAt (fun s => norm2 (r s)) 0 t := by
    have h := ((r1.mul r1).add (r2.mul r2)).add (r3.mul r3)
    refine HasDerivAt.congr_deriv h ?_
    rw [h0]; simp
  have hn0 : norm2 (r t) = 0 := by rw [h0]; simp [norm2]
  have hc : ContinuousAt (fun s => mag3 (x s)) t := by
    unfold mag3
    exact (((x1.continuousAt.mul x1.continuousAt).add (x2.continuousAt.mul x2.continuousAt)).add (x3.continuousAt.mul x3.continuousAt)).sqrt
  have ev1 : ∀ᶠ s in nhds t, mag3 (x s) < mag3 (x t) + 1 := hc.eventually_lt_const (by linarith)
  have ev2 : ∀ᶠ s in nhds t, norm2 (r s) < 1 := hn.continuousAt.eventually_lt_const (by simp only [hn0]; norm_num)
  have hmag0 : mag3 (r t) = 0 := by rw [h0]; simp [mag3]
  have bound : ∀ᶠ s in nhds t, mag3 (r s) ≤ 1 ∧ mag3 (r s) * mag3 (r s) * mag3 (x s) ≤ (mag3 (x t) + 1) * |norm2 (r s)| := by
    filter_upwards [ev1, ev2] with s h1 h2
    rw [norm2_eq] at h2
    refine ⟨?_, ?_⟩
    · nlinarith [mag3_nonneg (r s)]
    · rw [norm2_eq, abs_of_nonneg (mul_self_nonneg _), mul_comm]
      exact mul_le_mul_of_nonneg_right h1.le (mul_self_nonneg _)
  have ev0 := small_close (r t) (x t) inverted (by rw [hmag0]; norm_num)
  rw [hmag0] at ev0
  simp only [zero_mul] at ev0
  refine ⟨?_, ?_, ?_⟩
  · refine sq_small_deriv hL.1 (sub_eq_zero.mp (abs_eq_zero.mp (le_antisymm ev0.1 (abs_nonneg _)))) hn hn0 (K := mag3 (x t) + 1) ?_
    filter_upwards [bound] with s hs
    exact (small_close (r s) (x s) inverted hs.1).1.trans hs.2
  · refine sq_small_deriv hL.2.1 (sub_eq_zero.mp (abs_eq_zero.mp (le_antisymm ev0.2.1 (abs_nonneg _)))) hn hn0 (K := mag3 (x t) + 1) ?_
    filter_upwards [bound] with s hs
    exact (small_close (r s) (x s) inverted hs.1).2.1.trans hs.2
  · refine sq_small_deriv hL.2.2 (sub_eq_zero.mp (abs_eq_zero.mp (le_antisymm ev0.2.2 (abs_nonneg _)))) hn hn0 (K := mag3 (x t) + 1) ?_
    filter_upwards [bound] with s hs
    exact (small_close (r s) (x s) inverted hs.1).2.2.trans hs.2

theorem TracksV.deriv {v : Vec3 N} {d : Fin N → ℝ} {f : ℝ → P3} {t : ℝ} (h : TracksV v d f t) :
    HasDerivP f ⟨v.x.rate d, v.y.rate d, v.z.rate d⟩ t := ⟨h.1.2, h.2.1.2, h.2.2.2⟩

/-- the seeded variables: (r, x) -/
def dirs6 (r' x' : P3) : Fin 6 → ℝ := ![r'.x, r'.y, r'.z, x'.x, x'.y, x'.z]

theorem init_tracks0 {r : ℝ → P3} {r' x' : P3} {t : ℝ} (hr : HasDerivP r r' t) :
    TracksV (Vec3.init (r t) (some 0) : Vec3 6) (dirs6 r' x') r t := by
  obtain ⟨h1, h2, h3⟩ := hr
  refine ⟨⟨rfl, ?_⟩, ⟨rfl, ?_⟩, ⟨rfl, ?_⟩⟩
  · refine HasDerivAt.congr_deriv h1 ?_
    simp [Val.rate, Vec3.init, dirs6, Fin.sum_univ_six]
  · refine HasDerivAt.congr_deriv h2 ?_
    simp [Val.rate, Vec3.init, dirs6, Fin.sum_univ_six]
  · refine HasDerivAt.congr_deriv h3 ?_
    simp [Val.rate, Vec3.init, dirs6, Fin.sum_univ_six]

theorem init_tracks3 {x : ℝ → P3} {r' x' : P3} {t : ℝ} (hx : HasDerivP x x' t) :
    TracksV (Vec3.init (x t) (some 3) : Vec3 6) (dirs6 r' x') x t := by
  obtain ⟨h1, h2, h3⟩ := hx
  refine ⟨⟨rfl, ?_⟩, ⟨rfl, ?_⟩, ⟨rfl, ?_⟩⟩
  · refine HasDerivAt.congr_deriv h1 ?_
    simp [Val.rate, Vec3.init, dirs6, Fin.sum_univ_six]
  · refine HasDerivAt.congr_deriv h2 ?_
    simp [Val.rate, Vec3.init, dirs6, Fin.sum_univ_six]
  · refine HasDerivAt.congr_deriv h3 ?_
    simp [Val.rate, Vec3.init, dirs6, Fin.sum_univ_six]

/-- the derivative of the rotated point, from the two gradients -/
theorem rate_grads (v : Vec3 6) (r' x' : P3) :
    (⟨v.x.rate (dirs6 r' x'), v.y.rate (dirs6 r' x'), v.z.rate (dirs6 r' x')⟩ : P3) =
      addP (mulVec (gradM v 0 (by omega)) r') (mulVec (gradM v 3 (by omega)) x') := by
  simp only [Val.rate, Fin.sum_univ_six, dirs6, gradM, Vec3.grad, addP, mulVec]
  ext <;> simp <;> ring

/-- **C26**: the gradients of rotate_point_r() are the derivatives of the rotation, with respect to r and to x; in both directions. True if |r| ≥ 1e-5, and at r=0 -/
theorem rotate_gradient (r x : ℝ → P3) (r' x' : P3) (t : ℝ) (inverted : Bool)
    (hr : HasDerivP r r' t) (hx : HasDerivP x x' t) (h : 1e-5 ≤ mag3 (r t) ∨ r t = ⟨0, 0, 0⟩) :
    ∃ Jr Jx, (rotatePointr (r t) (x t) inverted true true).Jr = some Jr ∧
      (rotatePointr (r t) (x t) inverted true true).Jx = some Jx ∧
      ∀ i, HasDerivAt (fun s => rotSpec (r s) (x s) inverted i) (toVec (addP (mulVec Jr r') (mulVec Jx x')) i) t := by
  refine ⟨_, _, rfl, rfl, ?_⟩
  have tr := init_tracks0 (x' := x') hr
  have tx := init_tracks3 (r' := r') hx
  have key : HasDerivP (fun s => rotForm (r s) (x s) inverted) (addP
      (mulVec (gradM (rotatePointRCore (Vec3.init (r t) (some 0)) (Vec3.init (x t) (some 3)) inverted : Vec3 6) 0 (by omega)) r')
      (mulVec (gradM (rotatePointRCore (Vec3.init (r t) (some 0)) (Vec3.init (x t) (some 3)) inverted : Vec3 6) 3 (by omega)) x')) t := by
    rw [← rate_grads]
    rcases h with h | h
    · have := core_tracks inverted tr tx (by
        rw [norm2_eq]
        have : (1e-5 : ℝ) * 1e-5 ≤ mag3 (r t) * mag3 (r t) := mul_le_mul h h (by norm_num) (mag3_nonneg _)
        norm_num at this ⊢
        exact this)
      exact this.deriv
    · have := core_tracks_small inverted tr tx (by rw [h]; norm_num [norm2])
      exact rotForm_deriv_zero inverted hr hx h _ this.deriv
  intro i
  have e : ∀ s, rotSpec (r s) (x s) inverted i = toVec (rotForm (r s) (x s) inverted) i := fun s => by rw [rotForm_eq]
  simp only [e]
  fin_cases i
  · exact key.1
  · exact key.2.1
  · exact key.2.2

/-- a path that meets the hypotheses: a turn with a fixed part, and a turn through 0 -/
example : HasDerivP (fun s => ⟨s, 0, 1⟩) ⟨1, 0, 0⟩ 0 ∧ (1e-5 : ℝ) ≤ mag3 ⟨0, 0, 1⟩ ∧
    HasDerivP (fun s => ⟨s, 2 * s, 0⟩) ⟨1, 2, 0⟩ 0 := by
  refine ⟨⟨hasDerivAt_id' 0, hasDerivAt_const _ _, hasDerivAt_const _ _⟩, ?_, ⟨hasDerivAt_id' 0, ?_, hasDerivAt_const _ _⟩⟩
  · unfold mag3
    apply Real.le_sqrt_of_sq_le
    norm_num
  · simpa using (hasDerivAt_id' (0 : ℝ)).const_mul 2

/-- **C26**: the gradient of R_from_r() at r=0 is the derivative of Rodrigues' formula there -/
theorem R_from_r_gradient_zero (r : ℝ → P3) (r' : P3) (t : ℝ) (hr : HasDerivP r r' t) (h0 : r t = ⟨0, 0, 0⟩) (i j : Fin 3) :
    HasDerivAt (fun s => rod (r s) i j) (toMat (comb (R_from_r_J (r t)) r') i j) t := by
  have J0 : R_from_r_J (r t) = (⟨0, 0, 0, 0, 0, -1, 0, 1, 0⟩, ⟨0, 0, 1, 0, 0, 0, -1, 0, 0⟩, ⟨0, -1, 0, 1, 0, 0, 0, 0, 0⟩) := by
    unfold R_from_r_J
    have : norm2 (r t) < dblEpsilon * dblEpsilon := by rw [h0]; simpa [norm2] using eps_pos
    simp only [this, if_true]
  rw [J0]
  have key : ∀ (e : P3), HasDerivP (fun s => rotForm (r s) e false)
      ⟨r'.y * e.z - r'.z * e.y, r'.z * e.x - r'.x * e.z, r'.x * e.y - r'.y * e.x⟩ t := by
    intro e
    have hx : HasDerivP (fun _ => e) ⟨0, 0, 0⟩ t := ⟨hasDerivAt_const _ _, hasDerivAt_const _ _, hasDerivAt_const _ _⟩
    refine rotForm_deriv_zero false hr hx h0 _ ?_
    obtain ⟨r1, r2, r3⟩ := hr
    have hi := ((r1.mul_const e.x).add (r2.mul_const e.y)).add (r3.mul_const e.z)
    refine ⟨?_, ?_, ?_⟩
    · have h := ((((r2.mul_const e.z).sub (r3.mul_const e.y)).mul_const (sgn false)).const_add e.x).add ((r1.mul hi).div_const 2)
      refine HasDerivAt.congr_deriv h ?_
      simp [h0, sgn]
    · have h := ((((r3.mul_const e.x).sub (r1.mul_const e.z)).mul_const (sgn false)).const_add e.y).add ((r2.mul hi).div_const 2)
      refine HasDerivAt.congr_deriv h ?_
      simp [h0, sgn]
    · have h := ((((r1.mul_const e.y).sub (r2.mul_const e.x)).mul_const (sgn false)).const_add e.z).add ((r3.mul hi).div_const 2)
      refine HasDerivAt.congr_deriv h ?_
      simp [h0, sgn]
  have col : ∀ (e : P3) (j : Fin 3), toVec e = Pi.single j 1 → ∀ s i, rod (r s) i j = toVec (rotForm (r s) e false) i := by
    intro e j he s i
    rw [rotForm_eq]
    unfold rotSpec
    simp only [Bool.false_eq_true, if_false]
    rw [he, Matrix.mulVec_single_one]
    rfl
  have c0 := col ⟨1, 0, 0⟩ 0 (by ext k; fin_cases k <;> simp [toVec])
  have c1 := col ⟨0, 1, 0⟩ 1 (by ext k; fin_cases k <;> simp [toVec])
  have c2 := col ⟨0, 0, 1⟩ 2 (by ext k; fin_cases k <;> simp [toVec])
  have k0 := key ⟨1, 0, 0⟩
  have k1 := key ⟨0, 1, 0⟩
  have k2 := key ⟨0, 0, 1⟩
  fin_cases j
  · simp only [Fin.zero_eta, c0]
    fin_cases i
    · exact k0.1.congr_deriv (by simp [toMat, comb])
    · exact k0.2.1.congr_deriv (by simp [toMat, comb])
    · exact k0.2.2.congr_deriv (by simp [toMat, comb])
  · simp only [Fin.mk_one, c1]
    fin_cases i
    · exact k1.1.congr_deriv (by simp [toMat, comb])
    · exact k1.2.1.congr_deriv (by simp [toMat, comb])
    · exact k1.2.2.congr_deriv (by simp [toMat, comb])
  · simp only [Fin.reduceFinMk, c2]
    fin_cases i
    · exact k2.1.congr_deriv (by simp [toMat, comb])
    · exact k2.2.1.congr_deriv (by simp [toMat, comb])
    · exact k2.2.2.congr_deriv (by simp [toMat, comb])

end Mrcal.Pose
