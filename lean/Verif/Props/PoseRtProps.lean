import Verif.Props.ComposeRProps
/-
C29: the rt functions agree with the Rt functions; their gradients.
-/
namespace Mrcal.Pose
open AD

variable {N : Nat}

/-- the value doesn't depend on the gradients -/
theorem core_val (rg xg : Vec3 N) (inverted : Bool) :
    (rotatePointRCore rg xg inverted).value = (rotatePointr rg.value xg.value inverted false false).x := by
  have e := core_natural (Fin.elim0 : Fin 0 → Fin N) rg xg inverted
  have i0 : ∀ g : Vec3 N, reVec (Fin.elim0 : Fin 0 → Fin N) g = Vec3.init g.value none := by
    intro g
    simp only [reVec, reVal, Vec3.init, Vec3.value]
    congr <;> funext i <;> exact i.elim0
  rw [i0, i0] at e
  change _ = (rotatePointRCore (Vec3.init rg.value none) (Vec3.init xg.value none) inverted : Vec3 0).value
  rw [e]
  rfl

theorem sub_value (a b : Vec3 N) : (a.sub b).value = subP a.value b.value := rfl

/-- the transform, from the rotation -/
theorem transform_x (T : RtV) (x : P3) (inverted w0 w1 : Bool) :
    (transformPointrt T x inverted w0 w1).x =
      if inverted then (rotatePointr T.r (subP x T.t) true false false).x else addP (rotatePointr T.r x false false false).x T.t := by
  cases inverted
  · simp only [transformPointrt, Bool.not_false, if_true, Bool.false_eq_true, if_false]
    rw [(rotate_wants T.r x false w0 w1).1, (rotate_wants T.r x false false false).1]
  · cases w0 <;> cases w1 <;>
      simp only [transformPointrt, Bool.not_true, Bool.not_false, Bool.and_true, Bool.and_false, Bool.and_self, Bool.false_eq_true, if_false, if_true] <;>
      rw [core_val, sub_value, init_value, init_value, init_value]

/-- **C29**: transform_point_rt() is transform_point_Rt(), for |r| ≥ 1e-5 and r = 0; in both directions -/
theorem transform_rt_Rt (T : RtV) (x : P3) (inverted w0 w1 : Bool) (h : 1e-5 ≤ mag3 T.r ∨ T.r = ⟨0, 0, 0⟩) :
    (transformPointrt T x inverted w0 w1).x = transformPointRt (Rt_from_rt T) x inverted := by
  rw [transform_x]
  cases inverted
  · simp only [Bool.false_eq_true, if_false, transformPointRt, Bool.not_false, if_true, Rt_from_rt]
    rw [rotate_r_R T.r x false false false h]
  · simp only [if_true, transformPointRt, Bool.not_true, Bool.false_eq_true, if_false, Rt_from_rt]
    rw [rotate_r_R T.r _ true false false h]

/-- **C29**: invert_rt() is invert_Rt() -/
theorem invert_rt_Rt (T : RtV) (h : 1e-5 ≤ mag3 T.r ∨ T.r = ⟨0, 0, 0⟩) :
    Rt_from_rt (invertrt T).1 = invertRt (Rt_from_rt T) := by
  have h' : 1e-5 ≤ mag3 (negP T.r) ∨ negP T.r = ⟨0, 0, 0⟩ := by
    rw [mag3_neg]
    exact h.imp id (fun h => by rw [h]; simp [negP])
  simp only [Rt_from_rt, invertrt, invertRt]
  rw [R_from_r_neg, rotate_r_R _ _ _ _ _ h', R_from_r_neg]
  congr 1
  simp only [rotatePointR, Bool.false_eq_true, if_false, mulVec, negP]
  ext <;> simp <;> ring

theorem invert_rt_r (T : RtV) : (invertrt T).1.r = negP T.r := rfl

/-- R_from_r() of a rotation of at most a half-turn, from the matrix -/
theorem R_of_rod (r : P3) (hpi : mag3 r ≤ Real.pi) (M : M3) (h : rod r = toMat M)
    (ht : (toMat M).trace = 3 ∨ (toMat M).trace ≤ 3 - 4e-16) : R_from_r r = M := by
  apply toMat_inj
  rw [← h]
  apply (R_from_r_meaning r).1
  by_contra hno
  push Not at hno
  obtain ⟨hne, hlt⟩ := hno
  have hm : mag3 r ≠ 0 := by
    intro h0
    apply hne
    have := mag3_sq r
    rw [h0, mul_zero] at this
    exact zero_of_norm2 r this.symm
  have hmp : 0 < mag3 r := lt_of_le_of_ne (mag3_nonneg r) (Ne.symm hm)
  have htr : (rod r).trace = 1 + 2 * Real.cos (mag3 r) := by
    rw [rod_eq, if_neg hm]
    have hu := axis_unit r hm
    simp only [Matrix.trace, Matrix.diag, Fin.sum_univ_three, toMat, rodM]
    simp
    linear_combination (1 - Real.cos (mag3 r)) * hu
  rw [← h, htr] at ht
  have de : dblEpsilon < 1e-8 := by unfold dblEpsilon; norm_num
  have hcos1 : Real.cos (mag3 r) < 1 := by
    have := Real.cos_lt_cos_of_nonneg_of_le_pi (le_refl 0) hpi hmp
    rwa [Real.cos_zero] at this
  rcases ht with ht | ht
  · linarith
  · have hb := Real.one_sub_sq_div_two_le_cos (x := mag3 r)
    have : mag3 r ^ 2 < 1e-16 := by
      have h2 : mag3 r < 1e-8 := hlt.trans de
      calc mag3 r ^ 2 < (1e-8) ^ 2 := pow_lt_pow_left₀ h2 hmp.le two_ne_zero
        _ = 1e-16 := by norm_num
    linarith

theorem toMat_R_inv (r : P3) (i : Bool) (h : 1e-5 ≤ mag3 r ∨ r = ⟨0, 0, 0⟩) :
    rodInv r i = toMat (if i then transpose (R_from_r r) else R_from_r r) := by
  have e := (R_from_r_meaning r).1 (h.symm.imp id (fun h => le_trans (by unfold dblEpsilon; norm_num) h))
  cases i
  · simp [rodInv, e]
  · simp [rodInv, toMat_transpose, e]

/-- **C29**: compose_rt() is compose_Rt(), for each combination of the inverted flags. If both rotations are ≥ 2e-5 rad, and the composition is the identity or turns by
at least ~2e-8 rad -/
theorem compose_rt_Rt (T0 T1 : RtV) (i0 i1 : Bool) (h0 : 2e-5 ≤ mag3 T0.r) (h1 : 2e-5 ≤ mag3 T1.r)
    (hc : (rodInv T0.r i0 * rodInv T1.r i1).trace = 3 ∨ (rodInv T0.r i0 * rodInv T1.r i1).trace ≤ 3 - 4e-16) :
    Rt_from_rt (composert T0 T1 i0 i1).rt = composeRt (Rt_from_rt T0) (Rt_from_rt T1) i0 i1 := by
  have k0 : 1e-5 ≤ mag3 T0.r ∨ T0.r = ⟨0, 0, 0⟩ := Or.inl (le_trans (by norm_num) h0)
  have k1 : 1e-5 ≤ mag3 T1.r ∨ T1.r = ⟨0, 0, 0⟩ := Or.inl (le_trans (by norm_num) h1)
  obtain ⟨hr, hpi⟩ := compose_meaning T0.r T1.r i0 i1 true true h0 h1 hc
  rw [toMat_R_inv T0.r i0 k0, toMat_R_inv T1.r i1 k1, ← toMat_mul] at hr hc
  have hR := R_of_rod _ hpi _ hr hc
  have ro := fun (x : P3) (i : Bool) => rotate_r_R T0.r x i true true k0
  have ro1 := fun (x : P3) (i : Bool) => rotate_r_R T1.r x i true true k1
  cases i0 <;> cases i1 <;>
    simp only [composert, composeRt, Bool.not_true, Bool.not_false, Bool.and_true, Bool.and_false, Bool.and_self, Bool.false_eq_true, if_false, if_true,
      Rt_from_rt, ro, ro1] at hR ⊢ <;> rw [hR] <;> congr 1 <;>
    simp only [rotatePointR, Bool.false_eq_true, if_false, if_true, mulVec, transpose, mul, vecMul, addP, subP, negP] <;>
    ext <;> simp only [] <;> ring

/-- **C29**: composing with a transform that doesn't rotate (including the identity) -/
theorem compose_rt_Rt_zero (T0 T1 : RtV) (i0 i1 : Bool)
    (h : (T0.r = ⟨0, 0, 0⟩ ∧ (1e-5 ≤ mag3 T1.r ∨ T1.r = ⟨0, 0, 0⟩)) ∨ (T1.r = ⟨0, 0, 0⟩ ∧ (1e-5 ≤ mag3 T0.r ∨ T0.r = ⟨0, 0, 0⟩))) :
    Rt_from_rt (composert T0 T1 i0 i1).rt = composeRt (Rt_from_rt T0) (Rt_from_rt T1) i0 i1 := by
  have k0 : 1e-5 ≤ mag3 T0.r ∨ T0.r = ⟨0, 0, 0⟩ := by
    rcases h with h | h
    · exact Or.inr h.1
    · exact h.2
  have k1 : 1e-5 ≤ mag3 T1.r ∨ T1.r = ⟨0, 0, 0⟩ := by
    rcases h with h | h
    · exact h.2
    · exact Or.inr h.1
  have R0 : R_from_r ⟨0, 0, 0⟩ = identityR := (R_from_r_meaning ⟨0, 0, 0⟩).2 (by simp [mag3]; unfold dblEpsilon; positivity)
  have fl : ∀ (r : P3) (i : Bool), R_from_r (flipP r i) = if i then transpose (R_from_r r) else R_from_r r := by
    intro r i; cases i <;> simp [flipP, R_from_r_neg]
  have hR : R_from_r (composer T0.r T1.r i0 i1 true true).r =
      mul (if i0 then transpose (R_from_r T0.r) else R_from_r T0.r) (if i1 then transpose (R_from_r T1.r) else R_from_r T1.r) := by
    rcases h with h | h
    · rw [h.1, (compose_zero T1.r i0 i1 true true).1, fl, R0]
      cases i0 <;> simp [transpose, identityR, mul, vecMul]
    · rw [h.1, (compose_zero T0.r i0 i1 true true).2, fl, R0]
      cases i1 <;> simp [transpose, identityR, mul, vecMul]
  have ro := fun (x : P3) (i : Bool) => rotate_r_R T0.r x i true true k0
  have ro1 := fun (x : P3) (i : Bool) => rotate_r_R T1.r x i true true k1
  cases i0 <;> cases i1 <;>
    simp only [composert, composeRt, Bool.not_true, Bool.not_false, Bool.and_true, Bool.and_false, Bool.and_self, Bool.false_eq_true, if_false, if_true,
      Rt_from_rt, ro, ro1] at hR ⊢ <;> rw [hR] <;> congr 1 <;>
    simp only [rotatePointR, Bool.false_eq_true, if_false, if_true, mulVec, transpose, mul, vecMul, addP, subP, negP] <;>
    ext <;> simp only [] <;> ring

/-- two transforms that meet the hypotheses of compose_rt_Rt -/
example : (2e-5 : ℝ) ≤ mag3 (RtV.mk ⟨0, 0, 1⟩ ⟨1, 2, 3⟩).r ∧
    (rodInv (RtV.mk ⟨0, 0, 1⟩ ⟨1, 2, 3⟩).r false * rodInv (RtV.mk ⟨0, 0, 1⟩ ⟨1, 2, 3⟩).r true).trace = 3 := by
  have m : mag3 ⟨0, 0, 1⟩ = 1 := by simp [mag3]
  refine ⟨by simp only [m]; norm_num, ?_⟩
  obtain ⟨M, e, ho, -⟩ := rod_rot ⟨0, 0, 1⟩
  simp only [rodInv, Bool.false_eq_true, if_false, if_true]
  have : rod ⟨0, 0, 1⟩ * (rod ⟨0, 0, 1⟩).transpose = 1 := by
    rw [← e]
    exact ho
  rw [this]
  simp

/-! ### gradients -/

/-- **Specification**: R x + t; or Rᵗ(x - t) -/
noncomputable def trS (T : RtV) (x : Fin 3 → ℝ) (inverted : Bool) : Fin 3 → ℝ :=
  if inverted then (rod T.r).transpose.mulVec (x - toVec T.t) else (rod T.r).mulVec x + toVec T.t

/-- the same, with vectors -/
noncomputable def trForm (T : RtV) (x : P3) (inverted : Bool) : P3 :=
  if inverted then rotForm T.r (subP x T.t) true else addP (rotForm T.r x false) T.t

theorem toVec_add (a b : P3) : toVec (addP a b) = toVec a + toVec b := by ext i; fin_cases i <;> simp [toVec, addP]
theorem toVec_sub (a b : P3) : toVec (subP a b) = toVec a - toVec b := by ext i; fin_cases i <;> simp [toVec, subP]
theorem toVec_neg (a : P3) : toVec (negP a) = -toVec a := by ext i; fin_cases i <;> simp [toVec, negP]

theorem trForm_eq (T : RtV) (x : P3) (inverted : Bool) : toVec (trForm T x inverted) = trS T (toVec x) inverted := by
  cases inverted
  · simp only [trForm, trS, Bool.false_eq_true, if_false]
    rw [toVec_add, rotForm_eq]
    simp [rotSpec]
  · simp only [trForm, trS, if_true]
    rw [rotForm_eq, ← toVec_sub]
    simp [rotSpec]

theorem HasDerivP.add {a b : ℝ → P3} {a' b' : P3} {t : ℝ} (ha : HasDerivP a a' t) (hb : HasDerivP b b' t) :
    HasDerivP (fun s => addP (a s) (b s)) (addP a' b') t := ⟨ha.1.add hb.1, ha.2.1.add hb.2.1, ha.2.2.add hb.2.2⟩
theorem HasDerivP.sub {a b : ℝ → P3} {a' b' : P3} {t : ℝ} (ha : HasDerivP a a' t) (hb : HasDerivP b b' t) :
    HasDerivP (fun s => subP (a s) (b s)) (subP a' b') t := ⟨ha.1.sub hb.1, ha.2.1.sub hb.2.1, ha.2.2.sub hb.2.2⟩
theorem HasDerivP.neg {a : ℝ → P3} {a' : P3} {t : ℝ} (ha : HasDerivP a a' t) :
    HasDerivP (fun s => negP (a s)) (negP a') t := ⟨ha.1.neg, ha.2.1.neg, ha.2.2.neg⟩
theorem HasDerivP.toVec {a : ℝ → P3} {a' : P3} {t : ℝ} (ha : HasDerivP a a' t) (i : Fin 3) :
    HasDerivAt (fun s => Pose.toVec (a s) i) (Pose.toVec a' i) t := by
  fin_cases i
  · exact ha.1
  · exact ha.2.1
  · exact ha.2.2
theorem HasDerivP.congr {a : ℝ → P3} {a' b' : P3} {t : ℝ} (ha : HasDerivP a a' t) (h : a' = b') : HasDerivP a b' t := h ▸ ha

/-- rotating, through any autodiff variables -/
theorem core_deriv {rg xg : Vec3 N} {d : Fin N → ℝ} {r x : ℝ → P3} {t : ℝ} (inverted : Bool)
    (hr : TracksV rg d r t) (hx : TracksV xg d x t) (h : 1e-5 ≤ mag3 (r t) ∨ r t = ⟨0, 0, 0⟩) :
    HasDerivP (fun s => rotForm (r s) (x s) inverted)
      ⟨(rotatePointRCore rg xg inverted).x.rate d, (rotatePointRCore rg xg inverted).y.rate d, (rotatePointRCore rg xg inverted).z.rate d⟩ t := by
  rcases h with h | h
  · have := core_tracks inverted hr hx (by
      rw [norm2_eq]
      have : (1e-5 : ℝ) * 1e-5 ≤ mag3 (r t) * mag3 (r t) := mul_le_mul h h (by norm_num) (mag3_nonneg _)
      norm_num at this ⊢
      exact this)
    exact this.deriv
  · have := core_tracks_small inverted hr hx (by rw [h]; norm_num [norm2])
    exact rotForm_deriv_zero inverted hr.deriv hx.deriv h _ this.deriv

/-- the gradients of rotate_point_r() -/
theorem rotate_deriv {r x : ℝ → P3} {r' x' : P3} {t : ℝ} (inverted : Bool) (hr : HasDerivP r r' t) (hx : HasDerivP x x' t)
    (h : 1e-5 ≤ mag3 (r t) ∨ r t = ⟨0, 0, 0⟩) :
    HasDerivP (fun s => rotForm (r s) (x s) inverted)
      (addP (mulVec ((rotatePointr (r t) (x t) inverted true true).Jr.getD identityR) r')
            (mulVec ((rotatePointr (r t) (x t) inverted true true).Jx.getD identityR) x')) t := by
  have key := core_deriv inverted (init_tracks0 (x' := x') hr) (init_tracks3 (r' := r') hx) h
  rw [rate_grads] at key
  exact key

/-- 9 variables: (r,x,t) -/
def dirs9 (r' x' t' : P3) : Fin 9 → ℝ := ![r'.x, r'.y, r'.z, x'.x, x'.y, x'.z, t'.x, t'.y, t'.z]

theorem sum9 (f : Fin 9 → ℝ) : ∑ i, f i = f 0 + f 1 + f 2 + f 3 + f 4 + f 5 + f 6 + f 7 + f 8 := by
  simp [Fin.sum_univ_succ]; ring

theorem init_tracks9 {r x y : ℝ → P3} {r' x' y' : P3} {t : ℝ} (hr : HasDerivP r r' t) (hx : HasDerivP x x' t) (hy : HasDerivP y y' t) :
    TracksV (Vec3.init (r t) (some 0) : Vec3 9) (dirs9 r' x' y') r t ∧
    TracksV (Vec3.init (x t) (some 3) : Vec3 9) (dirs9 r' x' y') x t ∧
    TracksV (Vec3.init (y t) (some 6) : Vec3 9) (dirs9 r' x' y') y t := by
  refine ⟨⟨⟨rfl, ?_⟩, ⟨rfl, ?_⟩, ⟨rfl, ?_⟩⟩, ⟨⟨rfl, ?_⟩, ⟨rfl, ?_⟩, ⟨rfl, ?_⟩⟩, ⟨⟨rfl, ?_⟩, ⟨rfl, ?_⟩, ⟨rfl, ?_⟩⟩⟩
  · exact hr.1.congr_deriv (by simp only [Val.rate, sum9]; simp [Vec3.init, dirs9])
  · exact hr.2.1.congr_deriv (by simp only [Val.rate, sum9]; simp [Vec3.init, dirs9])
  · exact hr.2.2.congr_deriv (by simp only [Val.rate, sum9]; simp [Vec3.init, dirs9])
  · exact hx.1.congr_deriv (by simp only [Val.rate, sum9]; simp [Vec3.init, dirs9])
  · exact hx.2.1.congr_deriv (by simp only [Val.rate, sum9]; simp [Vec3.init, dirs9])
  · exact hx.2.2.congr_deriv (by simp only [Val.rate, sum9]; simp [Vec3.init, dirs9])
  · exact hy.1.congr_deriv (by simp only [Val.rate, sum9]; simp [Vec3.init, dirs9])
  · exact hy.2.1.congr_deriv (by simp only [Val.rate, sum9]; simp [Vec3.init, dirs9])
  · exact hy.2.2.congr_deriv (by simp only [Val.rate, sum9]; simp [Vec3.init, dirs9])

theorem rate_grads9 (v : Vec3 9) (r' x' y' : P3) :
    (⟨v.x.rate (dirs9 r' x' y'), v.y.rate (dirs9 r' x' y'), v.z.rate (dirs9 r' x' y')⟩ : P3) =
      addP (addP (mulVec (gradM v 0 (by omega)) r') (mulVec (gradM v 6 (by omega)) y')) (mulVec (gradM v 3 (by omega)) x') := by
  simp only [Val.rate, sum9, dirs9, gradM, Vec3.grad, addP, mulVec]
  ext <;> simp <;> ring

/-- **C29**: the gradients of transform_point_rt() are the derivatives: with respect to r, t, x; in both directions -/
theorem transform_rt_gradient (T : ℝ → RtV) (x : ℝ → P3) (r' t' x' : P3) (t : ℝ) (inverted : Bool)
    (hr : HasDerivP (fun s => (T s).r) r' t) (ht : HasDerivP (fun s => (T s).t) t' t) (hx : HasDerivP x x' t)
    (h : 1e-5 ≤ mag3 (T t).r ∨ (T t).r = ⟨0, 0, 0⟩) :
    ∃ Jr Jt Jx, (transformPointrt (T t) (x t) inverted true true).Jrt = some (Jr, Jt) ∧
      (transformPointrt (T t) (x t) inverted true true).Jx = some Jx ∧
      ∀ i, HasDerivAt (fun s => trS (T s) (toVec (x s)) inverted i) (toVec (addP (addP (mulVec Jr r') (mulVec Jt t')) (mulVec Jx x')) i) t := by
  simp only [← trForm_eq]
  cases inverted
  · refine ⟨(rotatePointr (T t).r (x t) false true true).Jr.getD identityR, identityR, (rotatePointr (T t).r (x t) false true true).Jx.getD identityR, rfl, rfl, ?_⟩
    have key := (rotate_deriv false hr hx h).add ht
    intro i
    refine HasDerivAt.congr_deriv (key.toVec i) ?_
    congr 1
    simp only [addP, mulVec, identityR]
    ext <;> simp only [] <;> ring
  · refine ⟨_, _, _, rfl, rfl, ?_⟩
    obtain ⟨k1, k2, k3⟩ := init_tracks9 hr hx ht
    have ks : TracksV ((Vec3.init (x t) (some 3) : Vec3 9).sub (Vec3.init (T t).t (some 6))) (dirs9 r' x' t') (fun s => subP (x s) (T s).t) t :=
      ⟨k2.1.sub k3.1, k2.2.1.sub k3.2.1, k2.2.2.sub k3.2.2⟩
    have key := core_deriv true k1 ks h
    rw [rate_grads9] at key
    exact fun i => key.toVec i

/-- **C29**: asking or not asking for a gradient affects neither the value nor the other gradient -/
theorem transform_rt_wants (T : RtV) (x : P3) (inverted w0 w1 : Bool) :
    let all := transformPointrt T x inverted true true
    let o := transformPointrt T x inverted w0 w1
    o.x = all.x ∧ o.Jrt = (if w0 then all.Jrt else none) ∧ o.Jx = (if w1 then all.Jx else none) := by
  intro all o
  refine ⟨by rw [transform_x, transform_x], ?_⟩
  cases inverted
  · obtain ⟨-, h1, h2, -, -⟩ := rotate_wants T.r x false w0 w1
    simp only [o, all, transformPointrt, Bool.not_false, if_true]
    rw [h1, h2]
    cases w0 <;> cases w1 <;> simp
  · have nat : ∀ {M : Nat} (φ : Fin M → Fin 9),
        rotatePointRCore (reVec φ (Vec3.init T.r (some 0))) ((reVec φ (Vec3.init x (some 3))).sub (reVec φ (Vec3.init T.t (some 6)))) true =
        reVec φ (rotatePointRCore (Vec3.init T.r (some 0)) ((Vec3.init x (some 3)).sub (Vec3.init T.t (some 6))) true) := by
      intro M φ
      rw [← core_natural]
      rfl
    cases w0 <;> cases w1
    · simp [o, transformPointrt]
    · simp only [o, all, transformPointrt]
      have e := nat (fun i : Fin 3 => (⟨i.val + 3, by omega⟩ : Fin 9))
      have e1 : reVec (fun i : Fin 3 => (⟨i.val + 3, by omega⟩ : Fin 9)) (Vec3.init T.r (some 0)) = Vec3.init T.r none := by
        simp only [reVec, reVal, Vec3.init]
        congr <;> funext i <;> fin_cases i <;> simp
      have e2 : reVec (fun i : Fin 3 => (⟨i.val + 3, by omega⟩ : Fin 9)) (Vec3.init x (some 3)) = Vec3.init x (some 0) := by
        simp only [reVec, reVal, Vec3.init]
        congr <;> funext i <;> fin_cases i <;> simp
      have e3 : reVec (fun i : Fin 3 => (⟨i.val + 3, by omega⟩ : Fin 9)) (Vec3.init T.t (some 6)) = Vec3.init T.t none := by
        simp only [reVec, reVal, Vec3.init]
        congr <;> funext i <;> fin_cases i <;> simp
      rw [e1, e2, e3] at e
      simp [e, reVec, reVal, gradM, Vec3.grad]
    · simp only [o, all, transformPointrt]
      have e := nat (fun i : Fin 6 => if i.val < 3 then (⟨i.val, by omega⟩ : Fin 9) else ⟨i.val + 3, by omega⟩)
      have e1 : reVec (fun i : Fin 6 => if i.val < 3 then (⟨i.val, by omega⟩ : Fin 9) else ⟨i.val + 3, by omega⟩) (Vec3.init T.r (some 0)) = Vec3.init T.r (some 0) := by
        simp only [reVec, reVal, Vec3.init]
        congr <;> funext i <;> fin_cases i <;> simp
      have e2 : reVec (fun i : Fin 6 => if i.val < 3 then (⟨i.val, by omega⟩ : Fin 9) else ⟨i.val + 3, by omega⟩) (Vec3.init x (some 3)) = Vec3.init x none := by
        simp only [reVec, reVal, Vec3.init]
        congr <;> funext i <;> fin_cases i <;> simp
      have e3 : reVec (fun i : Fin 6 => if i.val < 3 then (⟨i.val, by omega⟩ : Fin 9) else ⟨i.val + 3, by omega⟩) (Vec3.init T.t (some 6)) = Vec3.init T.t (some 3) := by
        simp only [reVec, reVal, Vec3.init]
        congr <;> funext i <;> fin_cases i <;> simp
      rw [e1, e2, e3] at e
      simp [e, reVec, reVal, gradM, Vec3.grad]
    · simp [o, all]

/-- **C29**: the gradients of invert_rt(): the translation of the inverse is -Rᵗt -/
theorem invert_rt_gradient (T : ℝ → RtV) (r' t' : P3) (t : ℝ)
    (hr : HasDerivP (fun s => (T s).r) r' t) (ht : HasDerivP (fun s => (T s).t) t' t)
    (h : 1e-5 ≤ mag3 (T t).r ∨ (T t).r = ⟨0, 0, 0⟩) (i : Fin 3) :
    HasDerivAt (fun s => trS (T s) 0 true i) (toVec (addP (mulVec (invertrt (T t)).2.1 r') (mulVec (invertrt (T t)).2.2 t')) i) t := by
  have h' : 1e-5 ≤ mag3 (negP (T t).r) ∨ negP (T t).r = ⟨0, 0, 0⟩ := by
    rw [mag3_neg]
    exact h.imp id (fun h => by rw [h]; simp [negP])
  have key := (rotate_deriv false hr.neg ht h').neg
  have e : ∀ s, trS (T s) 0 true i = toVec (negP (rotForm (negP (T s).r) (T s).t false)) i := by
    intro s
    rw [toVec_neg, rotForm_eq]
    simp [trS, rotSpec, rod_neg, Matrix.mulVec_neg]
  simp only [e]
  refine HasDerivAt.congr_deriv (key.toVec i) ?_
  congr 1
  simp only [invertrt, addP, mulVec, negP, negM]
  ext <;> simp only [] <;> ring

theorem rotForm_neg (r x : P3) (inverted : Bool) : rotForm r (negP x) inverted = negP (rotForm r x inverted) := by
  simp only [rotForm, negP]
  ext <;> simp only [] <;> ring

/-- **C29**: the translation gradients of compose_rt(), for all the inverted flags. The translation of a composition is where the composition puts the origin -/
theorem compose_rt_gradient (T0 T1 : ℝ → RtV) (r0' t0' r1' t1' : P3) (t : ℝ) (i0 i1 : Bool)
    (hr0 : HasDerivP (fun s => (T0 s).r) r0' t) (ht0 : HasDerivP (fun s => (T0 s).t) t0' t)
    (hr1 : HasDerivP (fun s => (T1 s).r) r1' t) (ht1 : HasDerivP (fun s => (T1 s).t) t1' t)
    (h0 : 1e-5 ≤ mag3 (T0 t).r ∨ (T0 t).r = ⟨0, 0, 0⟩) (h1 : 1e-5 ≤ mag3 (T1 t).r ∨ (T1 t).r = ⟨0, 0, 0⟩) (i : Fin 3) :
    let o := composert (T0 t) (T1 t) i0 i1
    toVec o.rt.t = trS (T0 t) (trS (T1 t) 0 i1) i0 ∧
    HasDerivAt (fun s => trS (T0 s) (trS (T1 s) 0 i1) i0 i)
      (toVec (addP (addP (mulVec o.dt_r0 r0') (mulVec o.dt_r1 r1')) (addP (mulVec o.dt_t0 t0') (mulVec o.dt_t1 t1'))) i) t := by
  intro o
  have z : (0 : Fin 3 → ℝ) = toVec ⟨0, 0, 0⟩ := by ext k; fin_cases k <;> simp [toVec]
  have rm : ∀ (r x : P3) (inv w0 w1 : Bool), (1e-5 ≤ mag3 r ∨ r = ⟨0, 0, 0⟩) → (rotatePointr r x inv w0 w1).x = rotForm r x inv := by
    intro r x inv w0 w1 h
    apply toVec_inj
    rw [rotForm_eq, rotate_meaning r x inv w0 w1 h]
  have rz : ∀ r, rotForm r ⟨0, 0, 0⟩ false = ⟨0, 0, 0⟩ := by intro r; simp [rotForm]
  simp only [z, ← trForm_eq]
  -- where T1 puts the origin
  have p1 : ∀ s, trForm (T1 s) ⟨0, 0, 0⟩ false = (T1 s).t := by intro s; simp [trForm, rz, addP]
  have p2 : ∀ s, trForm (T1 s) ⟨0, 0, 0⟩ true = negP (rotForm (T1 s).r (T1 s).t true) := by
    intro s
    simp only [trForm, if_true]
    rw [show subP ⟨0, 0, 0⟩ (T1 s).t = negP (T1 s).t by simp [subP, negP], rotForm_neg]
  have q1 : ∀ s x, trForm (T0 s) x false = addP (rotForm (T0 s).r x false) (T0 s).t := fun s x => rfl
  have q2 : ∀ s x, trForm (T0 s) x true = rotForm (T0 s).r (subP x (T0 s).t) true := fun s x => rfl
  cases i0 <;> cases i1
  · simp only [p1, q1, o, composert, Bool.not_false, Bool.and_self, if_true]
    refine ⟨by rw [rm _ _ _ _ _ h0], ?_⟩
    have key := (rotate_deriv false hr0 ht1 h0).add ht0
    refine HasDerivAt.congr_deriv (key.toVec i) ?_
    congr 1
    simp only [addP, mulVec, identityR, zeroM]
    ext <;> simp only [] <;> ring
  · simp only [p2, q1, o, composert, Bool.not_false, Bool.not_true, Bool.and_false, Bool.and_true, Bool.false_eq_true, if_true, if_false]
    have key1 := (rotate_deriv true hr1 ht1 h1).neg
    have key := (rotate_deriv false hr0 key1 h0).add ht0
    refine ⟨by rw [rm _ _ _ _ _ h0, rm _ _ _ _ _ h1], ?_⟩
    refine HasDerivAt.congr_deriv (key.toVec i) ?_
    rw [rm _ _ _ _ _ h1]
    congr 1
    generalize (rotatePointr (T0 t).r (negP (rotForm (T1 t).r (T1 t).t true)) false true true).Jr.getD identityR = A
    generalize (rotatePointr (T0 t).r (negP (rotForm (T1 t).r (T1 t).t true)) false true true).Jx.getD identityR = B
    generalize (rotatePointr (T1 t).r (T1 t).t true true true).Jr.getD identityR = C
    generalize (rotatePointr (T1 t).r (T1 t).t true true true).Jx.getD identityR = D
    simp only [addP, mulVec, identityR, negM, mul, vecMul, negP]
    ext <;> simp only [] <;> ring
  · simp only [p1, q2, o, composert, Bool.not_false, Bool.not_true, Bool.and_false, Bool.and_true, Bool.false_eq_true, if_true, if_false]
    refine ⟨by rw [rm _ _ _ _ _ h0], ?_⟩
    have key := rotate_deriv true hr0 (ht1.sub ht0) h0
    refine HasDerivAt.congr_deriv (key.toVec i) ?_
    congr 1
    generalize (rotatePointr (T0 t).r (subP (T1 t).t (T0 t).t) true true true).Jr.getD identityR = A
    generalize (rotatePointr (T0 t).r (subP (T1 t).t (T0 t).t) true true true).Jx.getD identityR = B
    simp only [addP, mulVec, zeroM, negM, subP]
    ext <;> simp only [] <;> ring
  · simp only [p2, q2, o, composert, Bool.not_true, Bool.and_false, Bool.and_true, Bool.false_eq_true, if_false]
    have key1 := (rotate_deriv true hr1 ht1 h1).neg
    have key := rotate_deriv true hr0 (key1.sub ht0) h0
    refine ⟨by rw [rm _ _ _ _ _ h0, rm _ _ _ _ _ h1], ?_⟩
    refine HasDerivAt.congr_deriv (key.toVec i) ?_
    rw [rm _ _ _ _ _ h1]
    congr 1
    generalize (rotatePointr (T0 t).r (subP (negP (rotForm (T1 t).r (T1 t).t true)) (T0 t).t) true true true).Jr.getD identityR = A
    generalize (rotatePointr (T0 t).r (subP (negP (rotForm (T1 t).r (T1 t).t true)) (T0 t).t) true true true).Jx.getD identityR = B
    generalize (rotatePointr (T1 t).r (T1 t).t true true true).Jr.getD identityR = C
    generalize (rotatePointr (T1 t).r (T1 t).t true true true).Jx.getD identityR = D
    simp only [addP, mulVec, negM, mul, vecMul, negP, subP]
    ext <;> simp only [] <;> ring

/-- **C29**: the rotation, and the rotation gradients of compose_rt() are those of compose_r() -/
theorem compose_rt_rotation (T0 T1 : RtV) (i0 i1 : Bool) :
    let o := composert T0 T1 i0 i1
    let c := composer T0.r T1.r i0 i1 true true
    o.rt.r = c.r ∧ some o.dr_r0 = c.J0 ∧ some o.dr_r1 = c.J1 := by
  obtain ⟨-, -, -, h0, h1⟩ := compose_wants T0.r T1.r i0 i1 true true
  obtain ⟨J0, e0⟩ := Option.isSome_iff_exists.mp h0
  obtain ⟨J1, e1⟩ := Option.isSome_iff_exists.mp h1
  cases i0 <;> cases i1 <;> simp [composert, e0, e1]

end Mrcal.Pose
