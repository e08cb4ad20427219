import Verif.Props.TriangulateGradProps
/-
C63: the gradients of the L1, Linf and Lindstrom methods
-/
namespace Mrcal.Tri
open Mrcal.AD Filter Topology
open Mrcal.Pose (HasDerivP)

variable {N : Nat} {A B : ℝ → Val N} {U V W : ℝ → Vec3 N} {d : Fin N → ℝ} {s : ℝ}

theorem TC.pos (hA : TC A d s) (h : 0 < (A s).x) : ∀ᶠ u in 𝓝 s, 0 < (A u).x := hA.cont.eventually_const_lt h

/-! ### the intersection of two rays -/

theorem solve_xz (v0 v1 t : P3) (hd : v1.x * v0.z - v0.x * v1.z ≠ 0) (hco : Coplanar v0 v1 t) :
    sm ((t.z * v1.x - t.x * v1.z) / (v1.x * v0.z - v0.x * v1.z)) v0 = addp t (sm ((t.z * v0.x - t.x * v0.z) / (v1.x * v0.z - v0.x * v1.z)) v1) := by
  simp only [Coplanar, dotp, crossp] at hco
  generalize hD : v1.x * v0.z - v0.x * v1.z = D at *
  ext <;> simp only [sm, addp] <;> field_simp <;> rw [← hD]
  · ring
  · linear_combination -hco
  · ring

theorem solve_yz (v0 v1 t : P3) (hd : v1.y * v0.z - v0.y * v1.z ≠ 0) (hco : Coplanar v0 v1 t) :
    sm ((t.z * v1.y - t.y * v1.z) / (v1.y * v0.z - v0.y * v1.z)) v0 = addp t (sm ((t.z * v0.y - t.y * v0.z) / (v1.y * v0.z - v0.y * v1.z)) v1) := by
  simp only [Coplanar, dotp, crossp] at hco
  generalize hD : v1.y * v0.z - v0.y * v1.z = D at *
  ext <;> simp only [sm, addp] <;> field_simp <;> rw [← hD]
  · linear_combination hco
  · ring
  · ring

theorem good_open (hU : VC U d s) (hV : VC V d s) (h : GoodIntersection (U s).value (V s).value) :
    ∀ᶠ u in 𝓝 s, GoodIntersection (U u).value (V u).value := by
  have hc := hU.cross hV
  rcases h with h | h
  · exact (hc.1.cont.abs.eventually_const_lt h).mono fun u hu => Or.inl hu
  · exact (hc.2.1.cont.abs.eventually_const_lt h).mono fun u hu => Or.inr hu

/-- the gradients of the intersection, if the rays do intersect -/
theorem assume_track (hU : VC U d s) (hV : VC V d s) (hW : VC W d s) (m : Vec3 N) (hm : assumeIntersect (U s) (V s) (W s) = some m)
    (hmt : m.value ≠ (W s).value) (hco : ∀ᶠ u in 𝓝 s, Coplanar (U u).value (V u).value (W u).value) :
    HasDerivP (fun u => point (assumeIntersect (U u) (V u) (W u))) ⟨m.x.rate d, m.y.rate d, m.z.rate d⟩ s := by
  obtain ⟨hg, k0, k1, hk0, hk1, e0, e1⟩ := assumeIntersect_val _ _ _ m hco.self_of_nhds hm
  have hk1' : 0 < k1 := by
    apply lt_of_le_of_ne hk1
    intro hz; apply hmt; rw [e1, ← hz]; ext <;> simp [addp, sm]
  have ee := e0.symm.trans e1
  have ex : k0 * (U s).x.x = (W s).x.x + k1 * (V s).x.x := congrArg P3.x ee
  have ey : k0 * (U s).y.x = (W s).y.x + k1 * (V s).y.x := congrArg P3.y ee
  have ez : k0 * (U s).z.x = (W s).z.x + k1 * (V s).z.x := congrArg P3.z ee
  have og := good_open hU hV hg
  -- one axis
  have main : ∀ (X0 X1 Xt : ℝ → Val N), TC X0 d s → TC X1 d s → TC Xt d s →
      (X1 s).x * (U s).z.x - (X0 s).x * (V s).z.x ≠ 0 → k0 * (X0 s).x = (Xt s).x + k1 * (X1 s).x →
      m = (U s).mulV ((((W s).z.mul (X1 s)).sub ((Xt s).mul (V s).z)).div (((X1 s).mul (U s).z).sub ((X0 s).mul (V s).z))) →
      (∀ u, (X1 u).x * (U u).z.x - (X0 u).x * (V u).z.x ≠ 0 → Coplanar (U u).value (V u).value (W u).value →
        sm (((W u).z.x * (X1 u).x - (Xt u).x * (V u).z.x) / ((X1 u).x * (U u).z.x - (X0 u).x * (V u).z.x)) (U u).value =
        addp (W u).value (sm (((W u).z.x * (X0 u).x - (Xt u).x * (U u).z.x) / ((X1 u).x * (U u).z.x - (X0 u).x * (V u).z.x)) (V u).value)) →
      HasDerivP (fun u => point (assumeIntersect (U u) (V u) (W u))) ⟨m.x.rate d, m.y.rate d, m.z.rate d⟩ s := by
    intro X0 X1 Xt h0 h1 ht hdet hax hmm hsolve
    have tdet := (h1.mul hU.2.2).sub (h0.mul hV.2.2)
    have tk0 := ((hW.2.2.mul h1).sub (ht.mul hV.2.2)).div tdet hdet
    have tk1 := ((hW.2.2.mul h0).sub (ht.mul hU.2.2)).div tdet hdet
    have hM := hU.mulV tk0
    rw [hmm]
    refine point_track (fun u => assumeIntersect (U u) (V u) (W u)) hM ?_
    have v0 : ((((W s).z.mul (X1 s)).sub ((Xt s).mul (V s).z)).div (((X1 s).mul (U s).z).sub ((X0 s).mul (V s).z))).x = k0 := by
      simp only [div_x, sub_x, mul_x]
      rw [div_eq_iff hdet]
      linear_combination (V s).z.x * hax - (X1 s).x * ez
    have v1 : ((((W s).z.mul (X0 s)).sub ((Xt s).mul (U s).z)).div (((X1 s).mul (U s).z).sub ((X0 s).mul (V s).z))).x = k1 := by
      simp only [div_x, sub_x, mul_x]
      rw [div_eq_iff hdet]
      linear_combination (U s).z.x * hax - (X0 s).x * ez
    have o0 := tk0.pos (by rw [v0]; exact hk0)
    have o1 := tk1.pos (by rw [v1]; exact hk1')
    have od := tdet.cont.eventually_ne hdet
    filter_upwards [og, o0, o1, od, hco] with u hg h0 h1 hd hc
    obtain ⟨m', hm', hv⟩ := assumeIntersect_some (U u) (V u) (W u) _ _ _ ⟨h0, h1, rfl, hsolve u hd hc⟩ hg
    rw [hm']
    simp only [point]
    rw [hv, mulV_value]
  have hexz : (-(U s).x.x) * (V s).z.x + (U s).z.x * (V s).x.x = (V s).x.x * (U s).z.x - (U s).x.x * (V s).z.x := by ring
  have heyz : (-(U s).y.x) * (V s).z.x + (U s).z.x * (V s).y.x = (V s).y.x * (U s).z.x - (U s).y.x * (V s).z.x := by ring
  simp only [assumeIntersect, hexz, heyz] at hm
  have unfoldAxis : ∀ (a0 a1 at_ z0 z1 zt : Val N) (k : Val N), intersectAxis a0 a1 at_ z0 z1 zt = some k →
      k = ((zt.mul a1).sub (at_.mul z1)).div ((a1.mul z0).sub (a0.mul z1)) := by
    intro a0 a1 at_ z0 z1 zt k h
    unfold intersectAxis at h
    by_cases h1 : (((zt.mul a1).sub (at_.mul z1)).div ((a1.mul z0).sub (a0.mul z1))).x ≤ 0
    · simp only [if_pos h1] at h; cases h
    · simp only [if_neg h1] at h
      by_cases h2 : ¬ ((zt.x * a0.x > at_.x * z0.x) ↔ (((a1.mul z0).sub (a0.mul z1)).x > 0))
      · rw [if_pos h2] at h; cases h
      · rw [if_neg h2] at h; exact (Option.some.inj h).symm
  by_cases c1 : |(V s).x.x * (U s).z.x - (U s).x.x * (V s).z.x| > |(V s).y.x * (U s).z.x - (U s).y.x * (V s).z.x|
  · rw [if_pos c1] at hm
    by_cases c2 : |(V s).x.x * (U s).z.x - (U s).x.x * (V s).z.x| ≤ 1e-10
    · rw [if_pos c2] at hm; cases hm
    · rw [if_neg c2] at hm
      obtain ⟨k, hk, hmk⟩ := Option.map_eq_some_iff.1 hm
      refine main (fun u => (U u).x) (fun u => (V u).x) (fun u => (W u).x) hU.1 hV.1 hW.1 (fun h0 => c2 (by rw [h0]; norm_num)) ex ?_ ?_
      · rw [← hmk, unfoldAxis _ _ _ _ _ _ _ hk]
      · intro u hd hc; exact solve_xz _ _ _ hd hc
  · rw [if_neg c1] at hm
    by_cases c2 : |(V s).y.x * (U s).z.x - (U s).y.x * (V s).z.x| ≤ 1e-10
    · rw [if_pos c2] at hm; cases hm
    · rw [if_neg c2] at hm
      obtain ⟨k, hk, hmk⟩ := Option.map_eq_some_iff.1 hm
      refine main (fun u => (U u).y) (fun u => (V u).y) (fun u => (W u).y) hU.2.1 hV.2.1 hW.2.1 (fun h0 => c2 (by rw [h0]; norm_num)) ey ?_ ?_
      · rw [← hmk, unfoldAxis _ _ _ _ _ _ _ hk]
      · intro u hd hc; exact solve_yz _ _ _ hd hc

/-! ### L1 -/

theorem ne_open (hU : VC U d s) (h : (U s).value ≠ zerop) : ∀ᶠ u in 𝓝 s, (U u).value ≠ zerop := by
  have := hU.norm2.pos (by rw [norm2_x]; exact len2_pos h)
  filter_upwards [this] with u hu hz
  rw [norm2_x, len2_zero.2 hz] at hu
  exact lt_irrefl _ hu

theorem po_coplanar0 (v0 v1 t : P3) (h : crossp v1 t ≠ zerop) : Coplanar (po v0 (crossp v1 t)) v1 t := by
  have := po_perp v0 _ h
  simp only [Coplanar]
  rw [← this]; simp only [dotp, crossp]; ring
theorem po_coplanar1 (v0 v1 t : P3) (h : crossp v0 t ≠ zerop) : Coplanar v0 (po v1 (crossp v0 t)) t := by
  have := po_perp v1 _ h
  simp only [Coplanar]
  rw [← neg_eq_zero, ← this]; simp only [dotp, crossp]; ring

theorem l1_n1 (v0 v1 t : P3) (h : dotp v0 t * dotp v0 t * len2 v1 > dotp v1 t * dotp v1 t * len2 v0) : crossp v1 t ≠ zerop := by
  have L0 := lagrange v0 t
  have L1 := lagrange v1 t
  have n0 := len2_nonneg (crossp v0 t)
  have p1 := len2_nonneg v1
  intro hz
  rw [len2_zero.2 hz] at L1
  have hp := mul_nonneg p1 n0
  have e : dotp v1 t * dotp v1 t = len2 v1 * len2 t := by linarith
  rw [e] at h
  rw [L0] at hp
  nlinarith

theorem l1_n0 (v0 v1 t : P3) (h0 : v0 ≠ zerop) (hb : NotBaseline v0 v1 t) (h : ¬ dotp v0 t * dotp v0 t * len2 v1 > dotp v1 t * dotp v1 t * len2 v0) : crossp v0 t ≠ zerop := by
  have L0 := lagrange v0 t
  have L1 := lagrange v1 t
  have p0 := len2_pos h0
  intro hz
  rcases hb with hb | hb
  · exact hb hz
  · have h2 := len2_pos hb
    rw [len2_zero.2 hz] at L0
    have hp := mul_pos p0 h2
    have e : dotp v0 t * dotp v0 t = len2 v0 * len2 t := by linarith
    rw [e] at h
    rw [L1] at hp
    nlinarith

theorem l1_eq_pos (V0 V1 T : Vec3 N) (h : dotp V0.value T.value * dotp V0.value T.value * len2 V1.value > dotp V1.value T.value * dotp V1.value T.value * len2 V0.value) :
    leeciveraL1 V0 V1 T = assumeIntersect (projectOut V0 (V1.cross T)) V1 T := by
  simp only [leeciveraL1, l1Correct, dot_x, norm2_x, if_pos h]
theorem l1_eq_neg (V0 V1 T : Vec3 N) (h : ¬ dotp V0.value T.value * dotp V0.value T.value * len2 V1.value > dotp V1.value T.value * dotp V1.value T.value * len2 V0.value) :
    leeciveraL1 V0 V1 T = assumeIntersect V0 (projectOut V1 (V0.cross T)) T := by
  simp only [leeciveraL1, l1Correct, dot_x, norm2_x, if_neg h]

/-- a routine that agrees with another one near `s` -/
theorem point_congr (F G : ℝ → Option (Vec3 N)) (p : P3) (h : HasDerivP (fun u => point (G u)) p s) (he : ∀ᶠ u in 𝓝 s, F u = G u) :
    HasDerivP (fun u => point (F u)) p s :=
  ⟨h.1.congr_of_eventuallyEq (he.mono fun u hu => by simp only [hu]), h.2.1.congr_of_eventuallyEq (he.mono fun u hu => by simp only [hu]),
    h.2.2.congr_of_eventuallyEq (he.mono fun u hu => by simp only [hu])⟩

theorem l1_track (hU : VC U d s) (hV : VC V d s) (hW : VC W d s) (m : Vec3 N) (hm : leeciveraL1 (U s) (V s) (W s) = some m)
    (hmt : m.value ≠ (W s).value) (h0 : (U s).value ≠ zerop) (hb : NotBaseline (U s).value (V s).value (W s).value)
    (htie : dotp (U s).value (W s).value * dotp (U s).value (W s).value * len2 (V s).value ≠
      dotp (V s).value (W s).value * dotp (V s).value (W s).value * len2 (U s).value) :
    HasDerivP (fun u => point (leeciveraL1 (U u) (V u) (W u))) ⟨m.x.rate d, m.y.rate d, m.z.rate d⟩ s := by
  have tl := ((hU.dot hW).mul (hU.dot hW)).mul hV.norm2
  have tr := ((hV.dot hW).mul (hV.dot hW)).mul hU.norm2
  by_cases hc : dotp (U s).value (W s).value * dotp (U s).value (W s).value * len2 (V s).value >
      dotp (V s).value (W s).value * dotp (V s).value (W s).value * len2 (U s).value
  · have hn := l1_n1 _ _ _ hc
    rw [l1_eq_pos _ _ _ hc] at hm
    have hX := hV.cross hW
    refine point_congr _ (fun u => assumeIntersect (projectOut (U u) ((V u).cross (W u))) (V u) (W u)) _
      (assume_track (hU.projectOut hX hn) hV hW m hm hmt ?_) ?_
    · filter_upwards [ne_open hX hn] with u hu
      rw [projectOut_value, cross_value]
      exact po_coplanar0 _ _ _ hu
    · have := (tl.sub tr).pos (by simp only [sub_x, mul_x, dot_x, norm2_x]; linarith)
      filter_upwards [this] with u hu
      simp only [sub_x, mul_x, dot_x, norm2_x] at hu
      exact l1_eq_pos _ _ _ (by linarith)
  · have hn := l1_n0 _ _ _ h0 hb hc
    rw [l1_eq_neg _ _ _ hc] at hm
    have hX := hU.cross hW
    refine point_congr _ (fun u => assumeIntersect (U u) (projectOut (V u) ((U u).cross (W u))) (W u)) _
      (assume_track hU (hV.projectOut hX hn) hW m hm hmt ?_) ?_
    · filter_upwards [ne_open hX hn] with u hu
      rw [projectOut_value, cross_value]
      exact po_coplanar1 _ _ _ hu
    · have hlt := lt_of_le_of_ne (not_lt.1 hc) htie
      have := (tr.sub tl).pos (by simp only [sub_x, mul_x, dot_x, norm2_x]; linarith)
      filter_upwards [this] with u hu
      simp only [sub_x, mul_x, dot_x, norm2_x] at hu
      exact l1_eq_neg _ _ _ (by linarith)

/-- **C63**: the gradients of mrcal_triangulate_leecivera_l1(), whenever a point is reported. The point isn't camera 1 itself, and the
two rays do not make the same angle with the baseline: there the method switches which ray it corrects, and the result isn't differentiable -/
theorem l1_gradient (v0 v1 t : P3) (J) (hJ : gradients (seeded leeciveraL1 v0 v1 t) = some J) (h0 : v0 ≠ zerop) (hb : NotBaseline v0 v1 t)
    (hpt : point (seeded leeciveraL1 v0 v1 t) ≠ t) (htie : dotp v0 t * dotp v0 t * len2 v1 ≠ dotp v1 t * dotp v1 t * len2 v0) :
    JacobianAt (fun a b c => point (seeded leeciveraL1 a b c)) J v0 v1 t := by
  obtain ⟨m, hm, -⟩ := Option.map_eq_some_iff.1 hJ
  refine jacobian_of_tracks leeciveraL1 v0 v1 t m J hm hJ fun A0 A1 T d s t0 t1 tt e0 e1 et => ?_
  rw [hm] at hpt
  exact l1_track t0 t1 tt m (by rw [e0, e1, et]; exact hm) (by rw [et]; exact hpt) (by rw [e0]; exact h0) (by rw [e0, e1, et]; exact hb) (by rw [e0, e1, et]; exact htie)

/-! ### Linf -/

theorem linf_eq_pos (V0 V1 T : Vec3 N) (h : len2 (crossp (addp (nrm V0.value) (nrm V1.value)) T.value) > len2 (crossp (subp (nrm V0.value) (nrm V1.value)) T.value)) :
    leeciveraLinf V0 V1 T = assumeIntersect (projectOut (V0.divV V0.mag) (((V0.divV V0.mag).add (V1.divV V1.mag)).cross T))
      (projectOut (V1.divV V1.mag) (((V0.divV V0.mag).add (V1.divV V1.mag)).cross T)) T := by
  have e0 : (V0.divV V0.mag).value = nrm V0.value := by simp only [divV_value, mag_x, nrm]
  have e1 : (V1.divV V1.mag).value = nrm V1.value := by simp only [divV_value, mag_x, nrm]
  simp only [leeciveraLinf, linfCorrect, norm2_x, cross_value, add_value, sub_value, e0, e1, if_pos h]
theorem linf_eq_neg (V0 V1 T : Vec3 N) (h : ¬ len2 (crossp (addp (nrm V0.value) (nrm V1.value)) T.value) > len2 (crossp (subp (nrm V0.value) (nrm V1.value)) T.value)) :
    leeciveraLinf V0 V1 T = assumeIntersect (projectOut (V0.divV V0.mag) (((V0.divV V0.mag).sub (V1.divV V1.mag)).cross T))
      (projectOut (V1.divV V1.mag) (((V0.divV V0.mag).sub (V1.divV V1.mag)).cross T)) T := by
  have e0 : (V0.divV V0.mag).value = nrm V0.value := by simp only [divV_value, mag_x, nrm]
  have e1 : (V1.divV V1.mag).value = nrm V1.value := by simp only [divV_value, mag_x, nrm]
  simp only [leeciveraLinf, linfCorrect, norm2_x, cross_value, add_value, sub_value, e0, e1, if_neg h]

theorem linf_track (hU : VC U d s) (hV : VC V d s) (hW : VC W d s) (m : Vec3 N) (hm : leeciveraLinf (U s) (V s) (W s) = some m)
    (hmt : m.value ≠ (W s).value) (h0 : (U s).value ≠ zerop) (h1 : (V s).value ≠ zerop) (hb : NotBaseline (U s).value (V s).value (W s).value)
    (htie : len2 (crossp (addp (nrm (U s).value) (nrm (V s).value)) (W s).value) ≠ len2 (crossp (subp (nrm (U s).value) (nrm (V s).value)) (W s).value)) :
    HasDerivP (fun u => point (leeciveraLinf (U u) (V u) (W u))) ⟨m.x.rate d, m.y.rate d, m.z.rate d⟩ s := by
  have hn := linfN_ne _ _ _ h0 h1 hb
  have e0 : ∀ u, ((U u).divV (U u).mag).value = nrm (U u).value := fun u => by simp only [divV_value, mag_x, nrm]
  have e1 : ∀ u, ((V u).divV (V u).mag).value = nrm (V u).value := fun u => by simp only [divV_value, mag_x, nrm]
  have hP := hU.divV (hU.mag h0) (by rw [mag_x]; exact (Real.sqrt_pos.2 (len2_pos h0)).ne')
  have hQ := hV.divV (hV.mag h1) (by rw [mag_x]; exact (Real.sqrt_pos.2 (len2_pos h1)).ne')
  have hna := (hP.add hQ).cross hW
  have hnb := (hP.sub hQ).cross hW
  have cop : ∀ (p q t n : P3), n ≠ zerop → dotp t n = 0 → Coplanar (po p n) (po q n) t := fun p q t n hn ht =>
    coplanar_of_normal _ _ _ _ hn (po_perp _ _ hn) (po_perp _ _ hn) ht
  by_cases hc : len2 (crossp (addp (nrm (U s).value) (nrm (V s).value)) (W s).value) > len2 (crossp (subp (nrm (U s).value) (nrm (V s).value)) (W s).value)
  · have hn' : crossp (addp (nrm (U s).value) (nrm (V s).value)) (W s).value ≠ zerop := by
      rw [linfN, if_pos hc] at hn; exact hn
    have hn'' : ((((U s).divV (U s).mag).add ((V s).divV (V s).mag)).cross (W s)).value ≠ zerop := by
      rw [cross_value, add_value, e0, e1]; exact hn'
    rw [linf_eq_pos _ _ _ hc] at hm
    refine point_congr _ (fun u => assumeIntersect (projectOut ((U u).divV (U u).mag) ((((U u).divV (U u).mag).add ((V u).divV (V u).mag)).cross (W u)))
      (projectOut ((V u).divV (V u).mag) ((((U u).divV (U u).mag).add ((V u).divV (V u).mag)).cross (W u))) (W u)) _
      (assume_track (hP.projectOut hna hn'') (hQ.projectOut hna hn'') hW m hm hmt ?_) ?_
    · filter_upwards [ne_open hna hn''] with u hu
      rw [projectOut_value, projectOut_value]
      refine cop _ _ _ _ hu ?_
      rw [cross_value]; simp only [dotp, crossp]; ring
    · have := (hna.norm2.sub hnb.norm2).pos (by simp only [sub_x, norm2_x, cross_value, add_value, sub_value, e0, e1]; linarith)
      filter_upwards [this] with u hu
      simp only [sub_x, norm2_x, cross_value, add_value, sub_value, e0, e1] at hu
      exact linf_eq_pos _ _ _ (by linarith)
  · have hn' : crossp (subp (nrm (U s).value) (nrm (V s).value)) (W s).value ≠ zerop := by
      rw [linfN, if_neg hc] at hn; exact hn
    have hn'' : ((((U s).divV (U s).mag).sub ((V s).divV (V s).mag)).cross (W s)).value ≠ zerop := by
      rw [cross_value, sub_value, e0, e1]; exact hn'
    rw [linf_eq_neg _ _ _ hc] at hm
    refine point_congr _ (fun u => assumeIntersect (projectOut ((U u).divV (U u).mag) ((((U u).divV (U u).mag).sub ((V u).divV (V u).mag)).cross (W u)))
      (projectOut ((V u).divV (V u).mag) ((((U u).divV (U u).mag).sub ((V u).divV (V u).mag)).cross (W u))) (W u)) _
      (assume_track (hP.projectOut hnb hn'') (hQ.projectOut hnb hn'') hW m hm hmt ?_) ?_
    · filter_upwards [ne_open hnb hn''] with u hu
      rw [projectOut_value, projectOut_value]
      refine cop _ _ _ _ hu ?_
      rw [cross_value]; simp only [dotp, crossp]; ring
    · have hlt := lt_of_le_of_ne (not_lt.1 hc) htie
      have := (hnb.norm2.sub hna.norm2).pos (by simp only [sub_x, norm2_x, cross_value, add_value, sub_value, e0, e1]; linarith)
      filter_upwards [this] with u hu
      simp only [sub_x, norm2_x, cross_value, add_value, sub_value, e0, e1] at hu
      exact linf_eq_neg _ _ _ (by linarith)

/-- **C63**: the gradients of mrcal_triangulate_leecivera_linf(), whenever a point is reported. The point isn't camera 1 itself, and the planes of the two rays
with the baseline aren't perpendicular: there the method switches its normal, and the result isn't differentiable -/
theorem linf_gradient (v0 v1 t : P3) (J) (hJ : gradients (seeded leeciveraLinf v0 v1 t) = some J) (h0 : v0 ≠ zerop) (h1 : v1 ≠ zerop) (hb : NotBaseline v0 v1 t)
    (hpt : point (seeded leeciveraLinf v0 v1 t) ≠ t) (htie : dotp (crossp v0 t) (crossp v1 t) ≠ 0) :
    JacobianAt (fun a b c => point (seeded leeciveraLinf a b c)) J v0 v1 t := by
  obtain ⟨m, hm, -⟩ := Option.map_eq_some_iff.1 hJ
  refine jacobian_of_tracks leeciveraLinf v0 v1 t m J hm hJ fun A0 A1 T d s t0 t1 tt e0 e1 et => ?_
  rw [hm] at hpt
  refine linf_track t0 t1 tt m (by rw [e0, e1, et]; exact hm) (by rw [et]; exact hpt) (by rw [e0]; exact h0) (by rw [e1]; exact h1) (by rw [e0, e1, et]; exact hb) ?_
  rw [e0, e1, et]
  simp only [init_value]
  have s0 := Real.sqrt_pos.2 (len2_pos h0)
  have s1 := Real.sqrt_pos.2 (len2_pos h1)
  have e : len2 (crossp (addp (nrm v0) (nrm v1)) t) - len2 (crossp (subp (nrm v0) (nrm v1)) t) =
      4 * (1 / Real.sqrt (len2 v0) * (1 / Real.sqrt (len2 v1))) * dotp (crossp v0 t) (crossp v1 t) := by
    simp only [nrm]
    generalize 1 / Real.sqrt (len2 v0) = a
    generalize 1 / Real.sqrt (len2 v1) = b
    simp only [len2, dotp, crossp, addp, subp, sm]; ring
  intro hh
  rw [hh, sub_self] at e
  exact htie ((mul_eq_zero.1 e.symm).resolve_left (by positivity))

/-- a case that meets the hypotheses of `l1_gradient`, `linf_gradient` -/
example : ((⟨0, 0, 1⟩ : P3) ≠ zerop ∧ NotBaseline ⟨0, 0, 1⟩ ⟨-1, 0, 1⟩ ⟨1, 0, 0⟩) ∧
    dotp (⟨0, 0, 1⟩ : P3) ⟨1, 0, 0⟩ * dotp (⟨0, 0, 1⟩ : P3) ⟨1, 0, 0⟩ * len2 ⟨-1, 0, 1⟩ ≠ dotp (⟨-1, 0, 1⟩ : P3) ⟨1, 0, 0⟩ * dotp (⟨-1, 0, 1⟩ : P3) ⟨1, 0, 0⟩ * len2 ⟨0, 0, 1⟩ ∧
    dotp (crossp ⟨0, 0, 1⟩ ⟨1, 0, 0⟩) (crossp ⟨-1, 0, 1⟩ ⟨1, 0, 0⟩) ≠ 0 := by
  refine ⟨⟨?_, ?_⟩, ?_, ?_⟩
  · intro h; have := congrArg P3.z h; norm_num [zerop] at this
  · left; intro h; have := congrArg P3.y h; norm_num [zerop, crossp] at this
  · norm_num [dotp, len2]
  · norm_num [dotp, crossp]

/-- in the same case all of the methods do report a point and gradients, and the point isn't camera 1 -/
theorem gradients_of_some (F : Vec3 9 → Vec3 9 → Vec3 9 → Option (Vec3 9)) (v0 v1 t p : P3) (h : ∃ m, seeded F v0 v1 t = some m ∧ m.value = p) :
    (∃ J, gradients (seeded F v0 v1 t) = some J) ∧ point (seeded F v0 v1 t) = p := by
  obtain ⟨m, hm, hv⟩ := h
  rw [hm]
  exact ⟨⟨_, rfl⟩, hv⟩

example : (∃ J, gradients (seeded geometric ⟨0, 0, 1⟩ ⟨-1, 0, 1⟩ ⟨1, 0, 0⟩) = some J) ∧ (∃ J, gradients (seeded leeciveraMid2 ⟨0, 0, 1⟩ ⟨-1, 0, 1⟩ ⟨1, 0, 0⟩) = some J) ∧
    (∃ J, gradients (seeded leeciveraWmid2 ⟨0, 0, 1⟩ ⟨-1, 0, 1⟩ ⟨1, 0, 0⟩) = some J) ∧
    ((∃ J, gradients (seeded leeciveraL1 ⟨0, 0, 1⟩ ⟨-1, 0, 1⟩ ⟨1, 0, 0⟩) = some J) ∧ point (seeded leeciveraL1 ⟨0, 0, 1⟩ ⟨-1, 0, 1⟩ ⟨1, 0, 0⟩) ≠ ⟨1, 0, 0⟩) ∧
    ((∃ J, gradients (seeded leeciveraLinf ⟨0, 0, 1⟩ ⟨-1, 0, 1⟩ ⟨1, 0, 0⟩) = some J) ∧ point (seeded leeciveraLinf ⟨0, 0, 1⟩ ⟨-1, 0, 1⟩ ⟨1, 0, 0⟩) ≠ ⟨1, 0, 0⟩) := by
  have hs : Sees ⟨0, 0, 1⟩ ⟨-1, 0, 1⟩ ⟨1, 0, 0⟩ 1 1 ⟨0, 0, 1⟩ := ⟨by norm_num, by norm_num, by simp [sm], by simp [sm, addp]⟩
  have hc : crossp ⟨0, 0, 1⟩ ⟨-1, 0, 1⟩ ≠ zerop := by intro h; have := congrArg P3.y h; norm_num [crossp, zerop] at this
  have n0 : (⟨0, 0, 1⟩ : P3) ≠ zerop := by intro h; have := congrArg P3.z h; norm_num [zerop] at this
  have n1 : (⟨-1, 0, 1⟩ : P3) ≠ zerop := by intro h; have := congrArg P3.z h; norm_num [zerop] at this
  have ne : (⟨0, 0, 1⟩ : P3) ≠ ⟨1, 0, 0⟩ := by intro h; have := congrArg P3.z h; norm_num at this
  have l2 : Real.sqrt 2 ≤ 2 := by rw [Real.sqrt_le_left (by norm_num)]; norm_num
  have p2 : 0 < Real.sqrt 2 := Real.sqrt_pos.2 (by norm_num)
  have g1 := gradients_of_some _ _ _ _ _ (l1_exact_partial _ _ _ _ _ _ hs (Or.inr (by norm_num [crossp])))
  have g2 := gradients_of_some _ _ _ _ _ (linf_exact_partial _ _ _ _ _ _ hs n0 n1 (Or.inr (by
    norm_num [crossp, nrm, sm, len2, dotp]
    rw [abs_of_pos p2, lt_inv_comm₀ (by norm_num) p2]
    linarith)))
  exact ⟨(gradients_of_some _ _ _ _ _ (geometric_exact_partial _ _ _ _ _ _ hs (by norm_num [len2, dotp, crossp]))).1,
    (gradients_of_some _ _ _ _ _ (mid2_exact _ _ _ _ _ _ hs hc)).1, (gradients_of_some _ _ _ _ _ (wmid2_exact _ _ _ _ _ _ hs hc)).1,
    ⟨g1.1, by rw [g1.2]; exact ne⟩, ⟨g2.1, by rw [g2.2]; exact ne⟩⟩

end Mrcal.Tri
