import Verif.Props.TriangulateMidProps
import Verif.Props.AutodiffProps
import Verif.Props.PoseProps
/-
C63: the gradients reported by the triangulation routines are the gradients of the point they report.
-/
namespace Mrcal.Tri
open Mrcal.AD Filter Topology
open Mrcal.Pose (HasDerivP)

variable {N : Nat}

/-! ### the specification -/

/-- three rows of a Jacobian, applied to a velocity -/
def rowsMul (J : P3 × P3 × P3) (w : P3) : P3 := ⟨dotp J.1 w, dotp J.2.1 w, dotp J.2.2 w⟩

/-- `J` are the true gradients of `f` at (v0,v1,t): along any path of the three inputs, the output moves as the gradients say -/
def JacobianAt (f : P3 → P3 → P3 → P3) (J : (P3 × P3 × P3) × (P3 × P3 × P3) × (P3 × P3 × P3)) (v0 v1 t : P3) : Prop :=
  ∀ (c0 c1 ct : ℝ → P3) (w0 w1 wt : P3) (s : ℝ), c0 s = v0 → c1 s = v1 → ct s = t → HasDerivP c0 w0 s → HasDerivP c1 w1 s → HasDerivP ct wt s →
    HasDerivP (fun u => f (c0 u) (c1 u) (ct u)) (addp (addp (rowsMul J.1 w0) (rowsMul J.2.1 w1)) (rowsMul J.2.2 wt)) s

/-! ### tracking the values along a path -/

/-- the gradients carried along a path are those of the values -/
def TC (A : ℝ → Val N) (d : Fin N → ℝ) (s : ℝ) : Prop := HasDerivAt (fun u => (A u).x) ((A s).rate d) s
def VC (A : ℝ → Vec3 N) (d : Fin N → ℝ) (s : ℝ) : Prop :=
  TC (fun u => (A u).x) d s ∧ TC (fun u => (A u).y) d s ∧ TC (fun u => (A u).z) d s

variable {A B : ℝ → Val N} {U V W : ℝ → Vec3 N} {d : Fin N → ℝ} {s : ℝ}

theorem TC.tr (h : TC A d s) : Tracks (A s) d (fun u => (A u).x) s := ⟨rfl, h⟩
theorem TC.ofR (c : ℝ) : TC (fun _ => (Val.ofR c : Val N)) d s := Tracks.ofR.2
theorem TC.add (hA : TC A d s) (hB : TC B d s) : TC (fun u => (A u).add (B u)) d s := (hA.tr.add hB.tr).2
theorem TC.sub (hA : TC A d s) (hB : TC B d s) : TC (fun u => (A u).sub (B u)) d s := (hA.tr.sub hB.tr).2
theorem TC.mul (hA : TC A d s) (hB : TC B d s) : TC (fun u => (A u).mul (B u)) d s := (hA.tr.mul hB.tr).2
theorem TC.mulC (hA : TC A d s) (c : ℝ) : TC (fun u => (A u).mulC c) d s := hA.tr.mulC.2
theorem TC.addC (hA : TC A d s) (c : ℝ) : TC (fun u => (A u).addC c) d s := hA.tr.addC.2
theorem TC.subC (hA : TC A d s) (c : ℝ) : TC (fun u => (A u).subC c) d s := hA.tr.subC.2
theorem TC.neg (hA : TC A d s) : TC (fun u => (A u).neg) d s := hA.mulC (-1)
theorem TC.divC (hA : TC A d s) (c : ℝ) : TC (fun u => (A u).divC c) d s := hA.mulC (1 / c)
theorem TC.div (hA : TC A d s) (hB : TC B d s) (h : (B s).x ≠ 0) : TC (fun u => (A u).div (B u)) d s := (hA.tr.div hB.tr h).2
theorem TC.sqrt (hA : TC A d s) (h : 0 < (A s).x) : TC (fun u => (A u).sqrt) d s := (hA.tr.sqrt h).2
theorem TC.cont (hA : TC A d s) : ContinuousAt (fun u => (A u).x) s := HasDerivAt.continuousAt hA

theorem VC.add (hU : VC U d s) (hV : VC V d s) : VC (fun u => (U u).add (V u)) d s :=
  ⟨hU.1.add hV.1, hU.2.1.add hV.2.1, hU.2.2.add hV.2.2⟩
theorem VC.sub (hU : VC U d s) (hV : VC V d s) : VC (fun u => (U u).sub (V u)) d s :=
  ⟨hU.1.sub hV.1, hU.2.1.sub hV.2.1, hU.2.2.sub hV.2.2⟩
theorem VC.mulV (hU : VC U d s) (hA : TC A d s) : VC (fun u => (U u).mulV (A u)) d s :=
  ⟨hU.1.mul hA, hU.2.1.mul hA, hU.2.2.mul hA⟩
theorem VC.divV (hU : VC U d s) (hA : TC A d s) (h : (A s).x ≠ 0) : VC (fun u => (U u).divV (A u)) d s :=
  ⟨hU.1.div hA h, hU.2.1.div hA h, hU.2.2.div hA h⟩
theorem VC.mulC (hU : VC U d s) (c : ℝ) : VC (fun u => (U u).mulC c) d s := ⟨hU.1.mulC c, hU.2.1.mulC c, hU.2.2.mulC c⟩
theorem VC.divVecC (hU : VC U d s) (c : ℝ) : VC (fun u => divVecC (U u) c) d s := ⟨hU.1.divC c, hU.2.1.divC c, hU.2.2.divC c⟩
theorem VC.cross (hU : VC U d s) (hV : VC V d s) : VC (fun u => (U u).cross (V u)) d s :=
  ⟨(hU.2.1.mul hV.2.2).sub (hU.2.2.mul hV.2.1), (hU.2.2.mul hV.1).sub (hU.1.mul hV.2.2), (hU.1.mul hV.2.1).sub (hU.2.1.mul hV.1)⟩
theorem VC.dot (hU : VC U d s) (hV : VC V d s) : TC (fun u => (U u).dot (V u)) d s :=
  (((TC.ofR 0).add (hV.1.mul hU.1)).add (hV.2.1.mul hU.2.1)).add (hV.2.2.mul hU.2.2)
theorem VC.norm2 (hU : VC U d s) : TC (fun u => (U u).norm2) d s := hU.dot hU
theorem VC.mag (hU : VC U d s) (h : (U s).value ≠ zerop) : TC (fun u => (U u).mag) d s :=
  hU.norm2.sqrt (by rw [norm2_x]; exact len2_pos h)
theorem VC.crossNorm2 (hU : VC U d s) (hV : VC V d s) : TC (fun u => crossNorm2 (U u) (V u)) d s := (hU.cross hV).norm2
theorem VC.crossMag (hU : VC U d s) (hV : VC V d s) (h : crossp (U s).value (V s).value ≠ zerop) : TC (fun u => crossMag (U u) (V u)) d s :=
  (hU.cross hV).mag (by rw [cross_value]; exact h)
theorem VC.projectOut (hU : VC U d s) (hV : VC V d s) (h : (V s).value ≠ zerop) : VC (fun u => projectOut (U u) (V u)) d s :=
  hU.sub ((hV.mulV (hU.dot hV)).divV hV.norm2 (by rw [norm2_x]; exact (len2_pos h).ne'))

theorem VC.value (hU : VC U d s) : HasDerivP (fun u => (U u).value) ⟨(U s).x.rate d, (U s).y.rate d, (U s).z.rate d⟩ s := hU

/-- if the routine reports the point `M u` near `s`, then the gradients carried by `M s` are those of the routine -/
theorem point_track (F : ℝ → Option (Vec3 N)) (hU : VC U d s) (h : ∀ᶠ u in 𝓝 s, point (F u) = (U u).value) :
    HasDerivP (fun u => point (F u)) ⟨(U s).x.rate d, (U s).y.rate d, (U s).z.rate d⟩ s := by
  have e : ∀ᶠ u in 𝓝 s, point (F u) = (U u).value := h
  exact ⟨HasDerivAt.congr_of_eventuallyEq hU.1 (e.mono fun u hu => by simp only [hu]; rfl),
    HasDerivAt.congr_of_eventuallyEq hU.2.1 (e.mono fun u hu => by simp only [hu]; rfl),
    HasDerivAt.congr_of_eventuallyEq hU.2.2 (e.mono fun u hu => by simp only [hu]; rfl)⟩

theorem VC.congr (hU : VC U d s) (h : ∀ u, V u = U u) : VC V d s := by
  rw [show V = U from funext h]; exact hU

/-! ### the seeding -/

def vel9 (w0 w1 wt : P3) : Fin 9 → ℝ := ![w0.x, w0.y, w0.z, w1.x, w1.y, w1.z, wt.x, wt.y, wt.z]

theorem seed0 (c : ℝ → P3) (w0 w1 wt : P3) (h : HasDerivP c w0 s) : VC (fun u => (Vec3.init (c u) (some 0) : Vec3 9)) (vel9 w0 w1 wt) s := by
  refine ⟨h.1.congr_deriv ?_, h.2.1.congr_deriv ?_, h.2.2.congr_deriv ?_⟩ <;> simp [Val.rate, Vec3.init, vel9, Fin.sum_univ_succ]
theorem seed1 (c : ℝ → P3) (w0 w1 wt : P3) (h : HasDerivP c w1 s) : VC (fun u => (Vec3.init (c u) (some 3) : Vec3 9)) (vel9 w0 w1 wt) s := by
  refine ⟨h.1.congr_deriv ?_, h.2.1.congr_deriv ?_, h.2.2.congr_deriv ?_⟩ <;> simp [Val.rate, Vec3.init, vel9, Fin.sum_univ_succ]
theorem seed2 (c : ℝ → P3) (w0 w1 wt : P3) (h : HasDerivP c wt s) : VC (fun u => (Vec3.init (c u) (some 6) : Vec3 9)) (vel9 w0 w1 wt) s := by
  refine ⟨h.1.congr_deriv ?_, h.2.1.congr_deriv ?_, h.2.2.congr_deriv ?_⟩ <;> simp [Val.rate, Vec3.init, vel9, Fin.sum_univ_succ]

theorem rate9 (a : Val 9) (w0 w1 wt : P3) : a.rate (vel9 w0 w1 wt) =
    dotp ⟨a.j 0, a.j 1, a.j 2⟩ w0 + dotp ⟨a.j 3, a.j 4, a.j 5⟩ w1 + dotp ⟨a.j 6, a.j 7, a.j 8⟩ wt := by
  simp [Val.rate, vel9, Fin.sum_univ_succ, dotp]
  ring_nf

/-- the gradients of a routine are right if they are right along every path -/
theorem jacobian_of_tracks (F : Vec3 9 → Vec3 9 → Vec3 9 → Option (Vec3 9)) (v0 v1 t : P3) (m : Vec3 9) (J)
    (hm : seeded F v0 v1 t = some m) (hJ : gradients (seeded F v0 v1 t) = some J)
    (h : ∀ (A0 A1 T : ℝ → Vec3 9) (d : Fin 9 → ℝ) (s : ℝ), VC A0 d s → VC A1 d s → VC T d s → A0 s = Vec3.init v0 (some 0) → A1 s = Vec3.init v1 (some 3) →
      T s = Vec3.init t (some 6) →
      HasDerivP (fun u => point (F (A0 u) (A1 u) (T u))) ⟨m.x.rate d, m.y.rate d, m.z.rate d⟩ s) :
    JacobianAt (fun a b c => point (seeded F a b c)) J v0 v1 t := by
  intro c0 c1 ct w0 w1 wt s e0 e1 et h0 h1 ht
  have key := h (fun u => Vec3.init (c0 u) (some 0)) (fun u => Vec3.init (c1 u) (some 3)) (fun u => Vec3.init (ct u) (some 6)) (vel9 w0 w1 wt) s
    (seed0 c0 w0 w1 wt h0) (seed1 c1 w0 w1 wt h1) (seed2 ct w0 w1 wt ht) (by simp only [e0]) (by simp only [e1]) (by simp only [et])
  rw [hm] at hJ
  have hJ' := Option.some.inj hJ
  rw [← hJ']
  rw [rate9, rate9, rate9] at key
  exact key

/-! ### the geometric method -/

theorem geometric_track (hU : VC U d s) (hV : VC V d s) (hW : VC W d s) (m : Vec3 N) (hm : geometric (U s) (V s) (W s) = some m) :
    HasDerivP (fun u => point (geometric (U u) (V u) (W u))) ⟨m.x.rate d, m.y.rate d, m.z.rate d⟩ s := by
  have hden := (hU.norm2.mul hV.norm2).sub ((hU.dot hV).mul (hU.dot hV))
  have key : ∀ u, geometric (U u) (V u) (W u) = 
      (if -1e-10 ≤ (((U u).norm2.mul (V u).norm2).sub (((U u).dot (V u)).mul ((U u).dot (V u)))).x ∧ (((U u).norm2.mul (V u).norm2).sub (((U u).dot (V u)).mul ((U u).dot (V u)))).x ≤ 1e-10 then none else
      if (((Val.ofR 1).div (((U u).norm2.mul (V u).norm2).sub (((U u).dot (V u)).mul ((U u).dot (V u))))).mul (((V u).norm2.mul ((U u).dot (W u))).sub (((U u).dot (V u)).mul ((V u).dot (W u))))).x ≤ 0 then none else
      if (((Val.ofR 1).div (((U u).norm2.mul (V u).norm2).sub (((U u).dot (V u)).mul ((U u).dot (V u))))).mul ((((U u).dot (V u)).mul ((U u).dot (W u))).sub ((U u).norm2.mul ((V u).dot (W u))))).x ≤ 0 then none else
      some (((((U u).mulV (((Val.ofR 1).div (((U u).norm2.mul (V u).norm2).sub (((U u).dot (V u)).mul ((U u).dot (V u))))).mul (((V u).norm2.mul ((U u).dot (W u))).sub (((U u).dot (V u)).mul ((V u).dot (W u)))))).add
        ((V u).mulV (((Val.ofR 1).div (((U u).norm2.mul (V u).norm2).sub (((U u).dot (V u)).mul ((U u).dot (V u))))).mul ((((U u).dot (V u)).mul ((U u).dot (W u))).sub ((U u).norm2.mul ((V u).dot (W u))))))).add (W u)).mulC 0.5)) := fun u => rfl
  rw [key] at hm
  generalize hDe : (fun u => ((U u).norm2.mul (V u).norm2).sub (((U u).dot (V u)).mul ((U u).dot (V u)))) = De at *
  have hDu : ∀ u, ((U u).norm2.mul (V u).norm2).sub (((U u).dot (V u)).mul ((U u).dot (V u))) = De u := fun u => by rw [← hDe]
  simp only [hDu] at hm key
  by_cases c1 : -1e-10 ≤ (De s).x ∧ (De s).x ≤ 1e-10
  · rw [if_pos c1] at hm; cases hm
  rw [if_neg c1] at hm
  have hD0 : (De s).x ≠ 0 := by intro h0; apply c1; rw [h0]; norm_num
  have hk0 := ((TC.ofR (d := d) (s := s) 1).div hden hD0).mul ((hV.norm2.mul (hU.dot hW)).sub ((hU.dot hV).mul (hV.dot hW)))
  have hk1 := ((TC.ofR (d := d) (s := s) 1).div hden hD0).mul (((hU.dot hV).mul (hU.dot hW)).sub (hU.norm2.mul (hV.dot hW)))
  generalize hK0 : (fun u => ((Val.ofR 1).div (De u)).mul (((V u).norm2.mul ((U u).dot (W u))).sub (((U u).dot (V u)).mul ((V u).dot (W u))))) = K0 at *
  generalize hK1 : (fun u => ((Val.ofR 1).div (De u)).mul ((((U u).dot (V u)).mul ((U u).dot (W u))).sub ((U u).norm2.mul ((V u).dot (W u))))) = K1 at *
  have e0 : ∀ u, ((Val.ofR 1).div (De u)).mul (((V u).norm2.mul ((U u).dot (W u))).sub (((U u).dot (V u)).mul ((V u).dot (W u)))) = K0 u := fun u => by rw [← hK0]
  have e1 : ∀ u, ((Val.ofR 1).div (De u)).mul ((((U u).dot (V u)).mul ((U u).dot (W u))).sub ((U u).norm2.mul ((V u).dot (W u)))) = K1 u := fun u => by rw [← hK1]
  simp only [e0, e1] at hm key
  by_cases c2 : (K0 s).x ≤ 0
  · rw [if_pos c2] at hm; cases hm
  rw [if_neg c2] at hm
  by_cases c3 : (K1 s).x ≤ 0
  · rw [if_pos c3] at hm; cases hm
  rw [if_neg c3] at hm
  rw [← Option.some.inj hm]
  have hM := (((hU.mulV hk0).add (hV.mulV hk1)).add hW).mulC 0.5
  refine point_track (fun u => geometric (U u) (V u) (W u)) hM ?_
  have o2 := hk0.cont.eventually_const_lt (not_le.1 c2)
  have o3 := hk1.cont.eventually_const_lt (not_le.1 c3)
  have o1 : ∀ᶠ u in 𝓝 s, ¬ (-1e-10 ≤ (De u).x ∧ (De u).x ≤ 1e-10) := by
    rcases not_and_or.1 c1 with h | h
    · exact (hden.cont.eventually_lt_const (not_le.1 h)).mono fun u hu hh => absurd hh.1 (not_le.2 hu)
    · exact (hden.cont.eventually_const_lt (not_le.1 h)).mono fun u hu hh => absurd hh.2 (not_le.2 hu)
  filter_upwards [o1, o2, o3] with u h1 h2 h3
  rw [key, if_neg h1, if_neg (not_le.2 h2), if_neg (not_le.2 h3)]
  rfl

/-- **C63**: the gradients of mrcal_triangulate_geometric(): whenever a point is reported -/
theorem geometric_gradient (v0 v1 t : P3) (J) (hJ : gradients (seeded geometric v0 v1 t) = some J) :
    JacobianAt (fun a b c => point (seeded geometric a b c)) J v0 v1 t := by
  obtain ⟨m, hm, -⟩ := Option.map_eq_some_iff.1 hJ
  refine jacobian_of_tracks geometric v0 v1 t m J hm hJ fun A0 A1 T d s h0 h1 ht e0 e1 et => ?_
  exact geometric_track h0 h1 ht m (by rw [e0, e1, et]; exact hm)

/-! ### the midpoint methods -/

theorem worsening_track (hl0 : TC A d s) (hU : VC U d s) (hl1 : TC B d s) (hV : VC V d s) (hW : VC W d s) :
    TC (fun u => (worsening (A u) (U u) (B u) (V u) (W u)).1) d s ∧ TC (fun u => (worsening (A u) (U u) (B u) (V u) (W u)).2.1) d s ∧
    TC (fun u => (worsening (A u) (U u) (B u) (V u) (W u)).2.2) d s := by
  have term : ∀ (X Y Z : ℝ → Val N), TC X d s → TC Y d s → TC Z d s →
      TC (fun u => (chiralityTerm (A u) (X u) (B u) (Y u) (Z u)).1) d s ∧ TC (fun u => (chiralityTerm (A u) (X u) (B u) (Y u) (Z u)).2.1) d s ∧
      TC (fun u => (chiralityTerm (A u) (X u) (B u) (Y u) (Z u)).2.2) d s := by
    intro X Y Z hX hY hZ
    have xn := ((hl1.mul hY).add hZ).sub (hl0.mul hX)
    have x0 := ((hl1.mul hY).add hZ).add (hl0.mul hX)
    have x1 := ((hl1.neg.mul hY).add hZ).sub (hl0.mul hX)
    have x01 := ((hl1.neg.mul hY).add hZ).add (hl0.mul hX)
    exact ⟨(x0.mul x0).sub (xn.mul xn), (x1.mul x1).sub (xn.mul xn), (x01.mul x01).sub (xn.mul xn)⟩
  have a := term _ _ _ hU.1 hV.1 hW.1
  have b := term _ _ _ hU.2.1 hV.2.1 hW.2.1
  have c := term _ _ _ hU.2.2 hV.2.2 hW.2.2
  exact ⟨(((TC.ofR 0).add a.1).add b.1).add c.1, (((TC.ofR 0).add a.2.1).add b.2.1).add c.2.1, (((TC.ofR 0).add a.2.2).add b.2.2).add c.2.2⟩

theorem chirality_open (hl0 : TC A d s) (hU : VC U d s) (hl1 : TC B d s) (hV : VC V d s) (hW : VC W d s)
    (h : chirality (A s) (U s) (B s) (V s) (W s)) : ∀ᶠ u in 𝓝 s, chirality (A u) (U u) (B u) (V u) (W u) := by
  obtain ⟨a, b, c⟩ := worsening_track hl0 hU hl1 hV hW
  filter_upwards [a.cont.eventually_const_lt h.1, b.cont.eventually_const_lt h.2.1, c.cont.eventually_const_lt h.2.2] with u h1 h2 h3
  exact ⟨h1, h2, h3⟩

theorem inFront_ranges (v0 v1 t : P3) (h : InFront v0 v1 t (range0 v0 v1 t) (range1 v0 v1 t)) :
    crossp v0 v1 ≠ zerop ∧ crossp v1 t ≠ zerop ∧ crossp v0 t ≠ zerop := by
  have h' := (inFront_iff _ _ _ _ _).1 h
  have r0 : range0 v0 v1 t ≠ 0 := fun h0 => by have := h'.1; rw [h0] at this; simp at this
  have r1 : range1 v0 v1 t ≠ 0 := fun h0 => by have := h'.2.1; rw [h0] at this; simp at this
  have z : len2 zerop = 0 := len2_zero.2 rfl
  refine ⟨fun h0 => r0 ?_, fun h0 => r0 ?_, fun h0 => r1 ?_⟩
  · simp [range0, h0, z]
  · simp [range0, h0, z]
  · simp [range1, h0, z]

theorem mid2Ranges_track (hU : VC U d s) (hV : VC V d s) (hW : VC W d s) (hc : crossp (U s).value (V s).value ≠ zerop)
    (h0 : crossp (V s).value (W s).value ≠ zerop) (h1 : crossp (U s).value (W s).value ≠ zerop) :
    TC (fun u => (mid2Ranges (U u) (V u) (W u)).1) d s ∧ TC (fun u => (mid2Ranges (U u) (V u) (W u)).2) d s := by
  have p := len2_pos hc
  have hr := (TC.ofR (d := d) (s := s) 1.0).div (hU.crossNorm2 hV) (by rw [crossNorm2_x]; exact p.ne')
  have hpos : 0 < ((Val.ofR 1.0).div (crossNorm2 (U s) (V s))).x := by
    rw [div_x, crossNorm2_x, ofR_x]; exact div_pos (by norm_num) p
  refine ⟨((hV.crossNorm2 hW).mul hr).sqrt ?_, ((hU.crossNorm2 hW).mul hr).sqrt ?_⟩
  · rw [mul_x, crossNorm2_x]; exact mul_pos (len2_pos h0) hpos
  · rw [mul_x, crossNorm2_x]; exact mul_pos (len2_pos h1) hpos

theorem mid2_track (hU : VC U d s) (hV : VC V d s) (hW : VC W d s) (m : Vec3 N) (hm : leeciveraMid2 (U s) (V s) (W s) = some m) :
    HasDerivP (fun u => point (leeciveraMid2 (U u) (V u) (W u))) ⟨m.x.rate d, m.y.rate d, m.z.rate d⟩ s := by
  unfold leeciveraMid2 at hm
  by_cases hc : chirality (mid2Ranges (U s) (V s) (W s)).1 (U s) (mid2Ranges (U s) (V s) (W s)).2 (V s) (W s)
  · simp only [hc, not_true_eq_false, if_false] at hm
    rw [← Option.some.inj hm]
    have hr := mid2Ranges_x (U s) (V s) (W s)
    have hf := (chirality_iff _ _ _ _ _).1 hc
    rw [hr.1, hr.2] at hf
    have hn := inFront_ranges _ _ _ hf
    obtain ⟨t0, t1⟩ := mid2Ranges_track hU hV hW hn.1 hn.2.1 hn.2.2
    have hM := (((hU.mulV t0).add hW).add (hV.mulV t1)).divVecC 2.0
    refine point_track (fun u => leeciveraMid2 (U u) (V u) (W u)) hM ?_
    filter_upwards [chirality_open t0 hU t1 hV hW hc] with u hu
    unfold leeciveraMid2
    simp only [hu, not_true_eq_false, if_false]
    rfl
  · simp only [hc, not_false_eq_true, if_true] at hm
    cases hm

/-- **C63**: the gradients of mrcal_triangulate_leecivera_mid2(): whenever a point is reported -/
theorem mid2_gradient (v0 v1 t : P3) (J) (hJ : gradients (seeded leeciveraMid2 v0 v1 t) = some J) :
    JacobianAt (fun a b c => point (seeded leeciveraMid2 a b c)) J v0 v1 t := by
  obtain ⟨m, hm, -⟩ := Option.map_eq_some_iff.1 hJ
  refine jacobian_of_tracks leeciveraMid2 v0 v1 t m J hm hJ fun A0 A1 T d s h0 h1 ht e0 e1 et => ?_
  exact mid2_track h0 h1 ht m (by rw [e0, e1, et]; exact hm)

open Classical in
theorem wmid2_track (hU : VC U d s) (hV : VC V d s) (hW : VC W d s) (m : Vec3 N) (hm : leeciveraWmid2 (U s) (V s) (W s) = some m) :
    HasDerivP (fun u => point (leeciveraWmid2 (U u) (V u) (W u))) ⟨m.x.rate d, m.y.rate d, m.z.rate d⟩ s := by
  have hspec := (wmid2_val (U s) (V s) (W s) _ _ _ m.value rfl rfl rfl).1 ⟨m, hm, rfl⟩
  obtain ⟨nc, n1, n0⟩ := inFront_ranges _ _ _ hspec.1
  have hz : ∀ v, v = zerop → nrm v = zerop := by rintro v rfl; simp [nrm, sm, zerop]
  have u0 : (U s).value ≠ zerop := by
    intro h; apply nc; rw [hz _ h]; simp [crossp, zerop]
  have u1 : (V s).value ≠ zerop := by
    intro h; apply nc; rw [hz _ h]; simp [crossp, zerop]
  have e0 : ((U s).divV (U s).mag).value = nrm (U s).value := by simp only [divV_value, mag_x, nrm]
  have e1 : ((V s).divV (V s).mag).value = nrm (V s).value := by simp only [divV_value, mag_x, nrm]
  have hP := hU.divV (hU.mag u0) (by rw [mag_x]; exact (Real.sqrt_pos.2 (len2_pos u0)).ne')
  have hQ := hV.divV (hV.mag u1) (by rw [mag_x]; exact (Real.sqrt_pos.2 (len2_pos u1)).ne')
  have key : ∀ u, leeciveraWmid2 (U u) (V u) (W u) = 
      (if ¬ chirality ((crossMag ((V u).divV (V u).mag) (W u)).mul ((Val.ofR 1.0).div (crossMag ((U u).divV (U u).mag) ((V u).divV (V u).mag)))) ((U u).divV (U u).mag)
        ((crossMag ((U u).divV (U u).mag) (W u)).mul ((Val.ofR 1.0).div (crossMag ((U u).divV (U u).mag) ((V u).divV (V u).mag)))) ((V u).divV (V u).mag) (W u) then none
      else some (((((((U u).divV (U u).mag).mulV ((crossMag ((V u).divV (V u).mag) (W u)).mul ((Val.ofR 1.0).div (crossMag ((U u).divV (U u).mag) ((V u).divV (V u).mag))))).mulV
        ((crossMag ((U u).divV (U u).mag) (W u)).mul ((Val.ofR 1.0).div (crossMag ((U u).divV (U u).mag) ((V u).divV (V u).mag))))).add
        ((W u).mulV ((crossMag ((V u).divV (V u).mag) (W u)).mul ((Val.ofR 1.0).div (crossMag ((U u).divV (U u).mag) ((V u).divV (V u).mag)))))).add
        ((((V u).divV (V u).mag).mulV ((crossMag ((V u).divV (V u).mag) (W u)).mul ((Val.ofR 1.0).div (crossMag ((U u).divV (U u).mag) ((V u).divV (V u).mag))))).mulV
        ((crossMag ((U u).divV (U u).mag) (W u)).mul ((Val.ofR 1.0).div (crossMag ((U u).divV (U u).mag) ((V u).divV (V u).mag)))))).divV
        (((crossMag ((V u).divV (V u).mag) (W u)).mul ((Val.ofR 1.0).div (crossMag ((U u).divV (U u).mag) ((V u).divV (V u).mag)))).add
        ((crossMag ((U u).divV (U u).mag) (W u)).mul ((Val.ofR 1.0).div (crossMag ((U u).divV (U u).mag) ((V u).divV (V u).mag))))))) := fun u => rfl
  rw [key] at hm
  rw [← e0, ← e1] at nc
  rw [← e1] at n1
  rw [← e0] at n0
  generalize hPP : (fun u => (U u).divV (U u).mag) = P at *
  generalize hQQ : (fun u => (V u).divV (V u).mag) = Q at *
  have eP : ∀ u, (U u).divV (U u).mag = P u := fun u => by rw [← hPP]
  have eQ : ∀ u, (V u).divV (V u).mag = Q u := fun u => by rw [← hQQ]
  simp only [eP, eQ] at key
  rw [eP, eQ] at hm nc
  rw [eQ] at n1
  rw [eP] at n0
  have hr := (TC.ofR (d := d) (s := s) 1.0).div (hP.crossMag hQ nc) (by rw [crossMag_x]; exact (Real.sqrt_pos.2 (len2_pos nc)).ne')
  have t0 := (hQ.crossMag hW n1).mul hr
  have t1 := (hP.crossMag hW n0).mul hr
  have pos0 : 0 < ((crossMag (Q s) (W s)).mul ((Val.ofR 1.0).div (crossMag (P s) (Q s)))).x := by
    rw [mul_x, div_x, ofR_x, crossMag_x, crossMag_x]
    have := Real.sqrt_pos.2 (len2_pos nc)
    have := Real.sqrt_pos.2 (len2_pos n1)
    norm_num; positivity
  have pos1 : 0 < ((crossMag (P s) (W s)).mul ((Val.ofR 1.0).div (crossMag (P s) (Q s)))).x := by
    rw [mul_x, div_x, ofR_x, crossMag_x, crossMag_x]
    have := Real.sqrt_pos.2 (len2_pos nc)
    have := Real.sqrt_pos.2 (len2_pos n0)
    norm_num; positivity
  by_cases hc : chirality ((crossMag (Q s) (W s)).mul ((Val.ofR 1.0).div (crossMag (P s) (Q s)))) (P s)
      ((crossMag (P s) (W s)).mul ((Val.ofR 1.0).div (crossMag (P s) (Q s)))) (Q s) (W s)
  · rw [if_neg (not_not.2 hc)] at hm
    rw [← Option.some.inj hm]
    have hM := ((((hP.mulV t0).mulV t1).add (hW.mulV t0)).add ((hQ.mulV t0).mulV t1)).divV (t0.add t1) (by rw [add_x]; exact (add_pos pos0 pos1).ne')
    refine point_track (fun u => leeciveraWmid2 (U u) (V u) (W u)) hM ?_
    filter_upwards [chirality_open t0 hP t1 hQ hW hc] with u hu
    rw [key, if_neg (not_not.2 hu)]
    rfl
  · rw [if_pos hc] at hm
    cases hm

/-- **C63**: the gradients of mrcal_triangulate_leecivera_wmid2(): whenever a point is reported -/
theorem wmid2_gradient (v0 v1 t : P3) (J) (hJ : gradients (seeded leeciveraWmid2 v0 v1 t) = some J) :
    JacobianAt (fun a b c => point (seeded leeciveraWmid2 a b c)) J v0 v1 t := by
  obtain ⟨m, hm, -⟩ := Option.map_eq_some_iff.1 hJ
  refine jacobian_of_tracks leeciveraWmid2 v0 v1 t m J hm hJ fun A0 A1 T d s h0 h1 ht e0 e1 et => ?_
  exact wmid2_track h0 h1 ht m (by rw [e0, e1, et]; exact hm)

end Mrcal.Tri
