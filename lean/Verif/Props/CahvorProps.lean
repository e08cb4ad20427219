import Verif.Model.Cahvor
import Verif.Props.OpenCVProps
/-
C51: the CAHVOR projection.
-/
namespace Mrcal.Cam

/-- **Specification**: the gradients reported with a distorted point -/
def DistortDeriv (n : Nat) (F : (Nat → ℝ) → P3 → P3) (d : Nat → ℝ) (p : P3) (dp : P3 × P3 × P3) (dk : List P3) : Prop :=
  dk.length = n ∧
  ∀ (D : ℝ → Nat → ℝ) (P : ℝ → P3) (D' : Nat → ℝ) (P' : P3) (t : ℝ), D t = d → P t = p →
    (∀ i, HasDerivAt (fun s => D s i) (D' i) t) →
    HasDerivAt (fun s => (P s).x) P'.x t → HasDerivAt (fun s => (P s).y) P'.y t → HasDerivAt (fun s => (P s).z) P'.z t →
    HasDerivAt (fun s => (F (D s) (P s)).x) (dot3 dp.1 P' + dotRow (dk.map P3.x) D') t ∧
    HasDerivAt (fun s => (F (D s) (P s)).y) (dot3 dp.2.1 P' + dotRow (dk.map P3.y) D') t ∧
    HasDerivAt (fun s => (F (D s) (P s)).z) (dot3 dp.2.2 P' + dotRow (dk.map P3.z) D') t

theorem dotRow_lin (l : List P3) (f : P3 → ℝ) (a b : ℝ) (u v : P3 → ℝ) (hf : ∀ e, f e = a * u e + b * v e) (D' : Nat → ℝ) :
    dotRow (l.map f) D' = a * dotRow (l.map u) D' + b * dotRow (l.map v) D' := by
  unfold dotRow
  generalize 0 = m
  induction l generalizing m with
  | nil => simp
  | cons e l ih =>
    simp only [List.map_cons, List.zipIdx_cons, List.sum_cons]
    rw [ih (m + 1), hf e]
    ring

/-- The shared tail: if the gradients of the distorted point are right, so are those of the pixel. This covers CAHVOR and CAHVORE -/
theorem distorted_gradients {n : Nat} {F : (Nat → ℝ) → P3 → P3} {d : Nat → ℝ} {p : P3} {D : Distorted}
    (hp : D.p = F d p) (hD : DistortDeriv n F d p D.dp D.dk) (core : Core) (hfx : core.fx ≠ 0) (hfy : core.fy ≠ 0) (hz : D.p.z ≠ 0) :
    TotalDeriv n (fun c d p => distortedQ c (F d p)) core d p (distortedDp core D) (dqDfxy core (distortedQ core D.p)) (distortedDk core D) := by
  constructor
  · simp [distortedDk, hD.1]
  · intro C K P C' K' P' t eC eK eP h1 h2 h3 h4 hK hx hy hz'
    obtain ⟨dx, dy, dz⟩ := hD.2 K P K' P' t eK eP hK hx hy hz'
    have hz2 : (F (K t) (P t)).z ≠ 0 := by rw [eK, eP, ← hp]; exact hz
    have hzr : HasDerivAt (fun s => 1 / (F (K s) (P s)).z)
        (-(dot3 D.dp.2.2 P' + dotRow (D.dk.map P3.z) K') * (1 / (F (K t) (P t)).z) * (1 / (F (K t) (P t)).z)) t := by
      have e : (fun s => 1 / (F (K s) (P s)).z) = (fun s => (F (K s) (P s)).z)⁻¹ := funext fun s => by simp
      rw [e]
      refine HasDerivAt.congr_deriv (dz.inv hz2) ?_
      field_simp
    have eD : F (K t) (P t) = D.p := by rw [eK, eP, hp]
    constructor
    · have h := ((dx.mul hzr).mul h1).add h3
      refine HasDerivAt.congr_deriv h ?_
      simp only [Pi.mul_apply, eD, eC]
      have e2 : (dqDfxy core (distortedQ core D.p)).x = D.p.x * (1 / D.p.z) := by
        simp only [dqDfxy, distortedQ]; field_simp; ring
      have e3 : dotRow ((distortedDk core D).map P2.x) K' = core.fx * (1 / D.p.z) * dotRow (D.dk.map P3.x) K'
          + -(core.fx * (1 / D.p.z) * (D.p.x * (1 / D.p.z))) * dotRow (D.dk.map P3.z) K' := by
        unfold distortedDk
        rw [List.map_map]
        exact dotRow_lin _ _ _ _ _ _ (fun e => by simp only [Function.comp]; ring) _
      rw [e2, e3]
      simp only [distortedDp, rowMul, dot3]
      ring
    · have h := ((dy.mul hzr).mul h2).add h4
      refine HasDerivAt.congr_deriv h ?_
      simp only [Pi.mul_apply, eD, eC]
      have e2 : (dqDfxy core (distortedQ core D.p)).y = D.p.y * (1 / D.p.z) := by
        simp only [dqDfxy, distortedQ]; field_simp; ring
      have e3 : dotRow ((distortedDk core D).map P2.y) K' = core.fy * (1 / D.p.z) * dotRow (D.dk.map P3.y) K'
          + -(core.fy * (1 / D.p.z) * (D.p.y * (1 / D.p.z))) * dotRow (D.dk.map P3.z) K' := by
        unfold distortedDk
        rw [List.map_map]
        exact dotRow_lin _ _ _ _ _ _ (fun e => by simp only [Function.comp]; ring) _
      rw [e2, e3]
      simp only [distortedDp, rowMul, dot3]
      ring

theorem cahvorO_deriv {a b : ℝ → ℝ} {a' b' t : ℝ} (ha : HasDerivAt a a' t) (hb : HasDerivAt b b' t) :
    HasDerivAt (fun s => (cahvorO (a s) (b s)).x) ((cahvorDoDalpha (a t) (b t)).x * a' + (cahvorDoDbeta (a t) (b t)).x * b') t ∧
    HasDerivAt (fun s => (cahvorO (a s) (b s)).y) ((cahvorDoDalpha (a t) (b t)).y * a' + (cahvorDoDbeta (a t) (b t)).y * b') t ∧
    HasDerivAt (fun s => (cahvorO (a s) (b s)).z) ((cahvorDoDalpha (a t) (b t)).z * a' + (cahvorDoDbeta (a t) (b t)).z * b') t := by
  simp only [cahvorO, cahvorDoDalpha, cahvorDoDbeta]
  refine ⟨?_, ?_, ?_⟩
  · have h := ha.sin.mul hb.cos
    exact HasDerivAt.congr_deriv h (by ring)
  · have h := hb.sin
    exact HasDerivAt.congr_deriv h (by ring)
  · have h := ha.cos.mul hb.cos
    exact HasDerivAt.congr_deriv h (by ring)

theorem dot3_deriv {a b : ℝ → P3} {a' b' : P3} {t : ℝ}
    (hax : HasDerivAt (fun s => (a s).x) a'.x t) (hay : HasDerivAt (fun s => (a s).y) a'.y t) (haz : HasDerivAt (fun s => (a s).z) a'.z t)
    (hbx : HasDerivAt (fun s => (b s).x) b'.x t) (hby : HasDerivAt (fun s => (b s).y) b'.y t) (hbz : HasDerivAt (fun s => (b s).z) b'.z t) :
    HasDerivAt (fun s => dot3 (a s) (b s)) (dot3 a' (b t) + dot3 (a t) b') t := by
  have h := ((hax.mul hbx).add (hay.mul hby)).add (haz.mul hbz)
  exact HasDerivAt.congr_deriv h (by simp only [dot3]; ring)

theorem lit1 : (1.0 : ℝ) = 1 := by norm_num
theorem lit2 : (2.0 : ℝ) = 2 := by norm_num

/-- the gradients of the CAHVOR distortion, with respect to the point and the 5 parameters -/
theorem cahvor_distort (d : Nat → ℝ) (p : P3) (hom : dot3 p (cahvorO (d 0) (d 1)) ≠ 0) :
    DistortDeriv 5 (fun d p => (cahvorDistort d p).p) d p (cahvorDistort d p).dp (cahvorDistort d p).dk := by
  constructor
  · rfl
  · intro D P D' P' t eD eP hD hx hy hz
    subst eD eP
    obtain ⟨ox, oy, oz⟩ := cahvorO_deriv (hD 0) (hD 1)
    set o : ℝ → P3 := fun s => cahvorO (D s 0) (D s 1) with ho
    set da := cahvorDoDalpha (D t 0) (D t 1) with hda
    set db := cahvorDoDbeta (D t 0) (D t 1) with hdb
    set o' : P3 := ⟨da.x * D' 0 + db.x * D' 1, da.y * D' 0 + db.y * D' 1, da.z * D' 0 + db.z * D' 1⟩ with ho'
    have hn2 : HasDerivAt (fun s => dot3 (P s) (P s)) (2 * dot3 (P t) P') t :=
      HasDerivAt.congr_deriv (dot3_deriv hx hy hz hx hy hz) (by simp only [dot3]; ring)
    have hw : HasDerivAt (fun s => dot3 (P s) (o s)) (dot3 P' (o t) + dot3 (P t) o') t :=
      dot3_deriv (b' := o') hx hy hz ox oy oz
    set w' := dot3 P' (o t) + dot3 (P t) o' with hw'
    have hwr : HasDerivAt (fun s => 1.0 / dot3 (P s) (o s)) (-w' * (1.0 / dot3 (P t) (o t)) * (1.0 / dot3 (P t) (o t))) t := by
      have e : (fun s => 1.0 / dot3 (P s) (o s)) = (fun s => dot3 (P s) (o s))⁻¹ := funext fun s => by rw [lit1, one_div]; rfl
      rw [e, lit1]
      refine HasDerivAt.congr_deriv (hw.inv hom) ?_
      field_simp
    have hom' : dot3 (P t) (o t) * (1.0 / dot3 (P t) (o t)) = 1 := by
      have : dot3 (P t) (o t) ≠ 0 := hom
      rw [lit1]; field_simp
    set R := 1.0 / dot3 (P t) (o t) with hR
    have htau : HasDerivAt (fun s => (cahvorState (D s) (P s)).tau)
        (2 * dot3 (P t) P' * R * R - 2 * dot3 (P t) (P t) * R * R * R * w') t := by
      have h := ((hn2.mul hwr).mul hwr).sub_const 1.0
      refine HasDerivAt.congr_deriv h ?_
      simp only [Pi.mul_apply, ← hR]
      clear_value R
      ring
    set tau' := 2 * dot3 (P t) P' * R * R - 2 * dot3 (P t) (P t) * R * R * R * w' with htau'
    have hmu : HasDerivAt (fun s => (cahvorState (D s) (P s)).mu)
        (D' 2 + (cahvorState (D t) (P t)).tau * D' 3 + (cahvorState (D t) (P t)).tau * (cahvorState (D t) (P t)).tau * D' 4
          + (D t 3 + 2 * (cahvorState (D t) (P t)).tau * D t 4) * tau') t := by
      have h := ((hD 2).add (htau.mul (hD 3))).add ((htau.mul htau).mul (hD 4))
      refine HasDerivAt.congr_deriv h ?_
      simp only [Pi.mul_apply]
      generalize (cahvorState (D t) (P t)).tau = T
      clear_value tau'
      ring
    set mu' := D' 2 + (cahvorState (D t) (P t)).tau * D' 3 + (cahvorState (D t) (P t)).tau * (cahvorState (D t) (P t)).tau * D' 4
          + (D t 3 + 2 * (cahvorState (D t) (P t)).tau * D t 4) * tau' with hmu'
    have gx := hx.add (hmu.mul (hx.sub (hw.mul ox)))
    have gy := hy.add (hmu.mul (hy.sub (hw.mul oy)))
    have gz := hz.add (hmu.mul (hz.sub (hw.mul oz)))
    -- the state, in terms of opaque tau and mu
    have e2 := lit2
    have f1 : (cahvorState (D t) (P t)).omega = dot3 (P t) (o t) := rfl
    have f2 : (cahvorState (D t) (P t)).domega_dalpha = dot3 (P t) da := rfl
    have f3 : (cahvorState (D t) (P t)).domega_dbeta = dot3 (P t) db := rfl
    have f4 : (cahvorState (D t) (P t)).sdmu = (D t 3 + 2 * (cahvorState (D t) (P t)).tau * D t 4) * (-2 * dot3 (P t) (P t) * R * R * R) := by
      rw [← e2]; rfl
    have f5 : (cahvorState (D t) (P t)).dmu_dxyz =
        ⟨(D t 3 + 2 * (cahvorState (D t) (P t)).tau * D t 4) * (2 * (P t).x * R * R + -2 * dot3 (P t) (P t) * R * R * R * (o t).x),
          (D t 3 + 2 * (cahvorState (D t) (P t)).tau * D t 4) * (2 * (P t).y * R * R + -2 * dot3 (P t) (P t) * R * R * R * (o t).y),
          (D t 3 + 2 * (cahvorState (D t) (P t)).tau * D t 4) * (2 * (P t).z * R * R + -2 * dot3 (P t) (P t) * R * R * R * (o t).z)⟩ := by
      rw [← e2]; rfl
    have e1 := lit1
    clear_value R
    refine ⟨?_, ?_, ?_⟩
    · refine HasDerivAt.congr_deriv gx ?_
      simp only [cahvorDistort]
      generalize cahvorState (D t) (P t) = S at *
      simp only [f1, f2, f3, f4, f5, cahvorDp1, cahvorDk1, dotRow, ← hda, ← hdb, show cahvorO (D t 0) (D t 1) = o t from rfl, Pi.mul_apply, Pi.sub_apply, e1]
      simp only [List.zip_cons_cons, List.zip_nil_left, List.zipWith_cons_cons, List.zipWith_nil_left, List.map_cons, List.map_nil,
        List.zipIdx_cons, List.zipIdx_nil, List.sum_cons, List.sum_nil, hmu', htau', hw', ho', dot3]
      ring
    · refine HasDerivAt.congr_deriv gy ?_
      simp only [cahvorDistort]
      generalize cahvorState (D t) (P t) = S at *
      simp only [f1, f2, f3, f4, f5, cahvorDp1, cahvorDk1, dotRow, ← hda, ← hdb, show cahvorO (D t 0) (D t 1) = o t from rfl, Pi.mul_apply, Pi.sub_apply, e1]
      simp only [List.zip_cons_cons, List.zip_nil_left, List.zipWith_cons_cons, List.zipWith_nil_left, List.map_cons, List.map_nil,
        List.zipIdx_cons, List.zipIdx_nil, List.sum_cons, List.sum_nil, hmu', htau', hw', ho', dot3]
      ring
    · refine HasDerivAt.congr_deriv gz ?_
      simp only [cahvorDistort]
      generalize cahvorState (D t) (P t) = S at *
      simp only [f1, f2, f3, f4, f5, cahvorDp1, cahvorDk1, dotRow, ← hda, ← hdb, show cahvorO (D t 0) (D t 1) = o t from rfl, Pi.mul_apply, Pi.sub_apply, e1]
      simp only [List.zip_cons_cons, List.zip_nil_left, List.zipWith_cons_cons, List.zipWith_nil_left, List.map_cons, List.map_nil,
        List.zipIdx_cons, List.zipIdx_nil, List.sum_cons, List.sum_nil, hmu', htau', hw', ho', dot3]
      ring

/-- **C51**: all the gradients of the CAHVOR projection -/
theorem cahvor_gradients (core : Core) (hfx : core.fx ≠ 0) (hfy : core.fy ≠ 0) (d : Nat → ℝ) (p : P3)
    (hom : dot3 p (cahvorO (d 0) (d 1)) ≠ 0) (hz : (cahvorDistort d p).p.z ≠ 0) :
    TotalDeriv 5 cahvorQ core d p (distortedDp core (cahvorDistort d p)) (dqDfxy core (cahvorQ core d p))
      (distortedDk core (cahvorDistort d p)) :=
  distorted_gradients rfl (cahvor_distort d p hom) core hfx hfy hz

/-- **C51**: with no radial distortion CAHVOR is the pinhole model, whatever the optical axis is -/
theorem cahvor_zero (core : Core) (d : Nat → ℝ) (p : P3) (_hom : dot3 p (cahvorO (d 0) (d 1)) ≠ 0) (_hz : p.z ≠ 0) (h : ∀ i, 2 ≤ i → i < 5 → d i = 0) :
    cahvorQ core d p = (pinhole core p).q := by
  simp only [cahvorQ, distortedQ, cahvorDistort, cahvorState, pinhole, h 2 (by omega) (by omega), h 3 (by omega) (by omega), h 4 (by omega) (by omega)]
  ext <;> simp

/-- **C51**: the pixel depends only on the direction of the point: CAHVOR is a central model -/
theorem cahvor_scale (core : Core) (d : Nat → ℝ) (p : P3) (a : ℝ) (ha : a ≠ 0) (hom : dot3 p (cahvorO (d 0) (d 1)) ≠ 0)
    (hz : (cahvorDistort d p).p.z ≠ 0) :
    cahvorQ core d ⟨a * p.x, a * p.y, a * p.z⟩ = cahvorQ core d p := by
  have e1 : ∀ q : P3, dot3 ⟨a * p.x, a * p.y, a * p.z⟩ q = a * dot3 p q := by intro q; simp only [dot3]; ring
  have e2 : dot3 (⟨a * p.x, a * p.y, a * p.z⟩ : P3) ⟨a * p.x, a * p.y, a * p.z⟩ = a * a * dot3 p p := by simp only [dot3]; ring
  have et : (cahvorState d ⟨a * p.x, a * p.y, a * p.z⟩).tau = (cahvorState d p).tau := by
    simp only [cahvorState, e1]
    norm_num
    field_simp
    simp only [dot3]; ring
  have em : (cahvorState d ⟨a * p.x, a * p.y, a * p.z⟩).mu = (cahvorState d p).mu := by
    have u : ∀ q, (cahvorState d q).mu = d 2 + (cahvorState d q).tau * d 3 + (cahvorState d q).tau * (cahvorState d q).tau * d 4 := fun _ => rfl
    rw [u, u, et]
  have eo : (cahvorState d ⟨a * p.x, a * p.y, a * p.z⟩).omega = a * (cahvorState d p).omega := e1 _
  have ed : (cahvorDistort d ⟨a * p.x, a * p.y, a * p.z⟩).p =
      ⟨a * (cahvorDistort d p).p.x, a * (cahvorDistort d p).p.y, a * (cahvorDistort d p).p.z⟩ := by
    simp only [cahvorDistort, em, eo]
    ext <;> simp only <;> ring
  simp only [cahvorQ, distortedQ, ed]
  ext <;> simp only <;> field_simp

/-- a wide-ish lens, looking at a point off the axis -/
example : dot3 ⟨1, 2, 10⟩ (cahvorO 0 0) ≠ 0 ∧ (cahvorDistort (fun i => if i = 2 then (1 : ℝ) / 10 else 0) ⟨1, 2, 10⟩).p.z ≠ 0 := by
  simp [dot3, cahvorO, cahvorDistort, cahvorState]

end Mrcal.Cam
