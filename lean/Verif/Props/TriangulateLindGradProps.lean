import Verif.Props.TriangulateErrorProps
/-
C63: the gradients of the Lindstrom method
-/
namespace Mrcal.Tri
open Mrcal.AD Filter Topology
open Mrcal.Pose (HasDerivP HasDerivM)

variable {N : Nat} {A B : ℝ → Val N} {U V W : ℝ → Vec3 N} {d : Fin N → ℝ} {s : ℝ}

/-! ### the specification -/

/-- an Rt transformation as 12 numbers: R row-first, then t -/
def flat12 (R : M3) (t : P3) : Fin 12 → ℝ := ![R.a00, R.a01, R.a02, R.a10, R.a11, R.a12, R.a20, R.a21, R.a22, t.x, t.y, t.z]

/-- `J` are the true gradients of `f` at (v0,v1,Rt): along any path of all the inputs, the output moves as the gradients say -/
def LindJacobianAt (f : P3 → P3 → Rt → P3) (J : (P3 × P3 × P3) × (P3 × P3 × P3) × ((Fin 12 → ℝ) × (Fin 12 → ℝ) × (Fin 12 → ℝ))) (v0 v1 : P3) (Rt01 : Rt) : Prop :=
  ∀ (c0 c1 ct : ℝ → P3) (cR : ℝ → M3) (w0 w1 wt : P3) (wR : M3) (s : ℝ), c0 s = v0 → c1 s = v1 → cR s = Rt01.R → ct s = Rt01.t →
    HasDerivP c0 w0 s → HasDerivP c1 w1 s → HasDerivM cR wR s → HasDerivP ct wt s →
    HasDerivP (fun u => f (c0 u) (c1 u) ⟨cR u, ct u⟩) (addp (addp (rowsMul J.1 w0) (rowsMul J.2.1 w1))
      ⟨∑ k, J.2.2.1 k * flat12 wR wt k, ∑ k, J.2.2.2.1 k * flat12 wR wt k, ∑ k, J.2.2.2.2 k * flat12 wR wt k⟩) s

/-- the quantities a, b, c of the paper, for the normalised observations x0, x1 -/
def lindN (R : M3) (t x1 : P3) : P3 := crossp t (rot R x1)
def lindNN (R : M3) (t x0 : P3) : P3 :=
  ⟨dotp x0 (crossp t ⟨R.a00, R.a10, R.a20⟩), dotp x0 (crossp t ⟨R.a01, R.a11, R.a21⟩), dotp x0 (crossp t ⟨R.a02, R.a12, R.a22⟩)⟩
noncomputable def lindB (R : M3) (t x0 x1 : P3) : ℝ :=
  ((lindN R t x1).x ^ 2 + (lindN R t x1).y ^ 2 + (lindNN R t x0).x ^ 2 + (lindNN R t x0).y ^ 2) / 2
/-- `n̂ᵀ E n̂'`: the epipolar form of the two normals, in the image plane -/
def lindA (R : M3) (t x0 x1 : P3) : ℝ :=
  epipolar R t ⟨(lindN R t x1).x, (lindN R t x1).y, 0⟩ ⟨(lindNN R t x0).x, (lindNN R t x0).y, 0⟩
noncomputable def xz (v : P3) : P3 := ⟨v.x / v.z, v.y / v.z, 1⟩

/-! ### the intersection, without assuming that the rays do intersect -/

theorem axis_open {a0 a1 at_ z0 z1 zt : ℝ → Val N} (h0 : TC a0 d s) (h1 : TC a1 d s) (ht : TC at_ d s) (k0 : TC z0 d s) (k1 : TC z1 d s) (kt : TC zt d s)
    (hd : (a1 s).x * (z0 s).x - (a0 s).x * (z1 s).x ≠ 0) (hne : (zt s).x * (a0 s).x ≠ (at_ s).x * (z0 s).x) (k : Val N)
    (hk : intersectAxis (a0 s) (a1 s) (at_ s) (z0 s) (z1 s) (zt s) = some k) :
    ∃ K : ℝ → Val N, TC K d s ∧ K s = k ∧ ∀ᶠ u in 𝓝 s, intersectAxis (a0 u) (a1 u) (at_ u) (z0 u) (z1 u) (zt u) = some (K u) := by
  have tdet := (h1.mul k0).sub (h0.mul k1)
  have tk := ((kt.mul h1).sub (ht.mul k1)).div tdet hd
  refine ⟨_, tk, ?_, ?_⟩
  · unfold intersectAxis at hk
    by_cases e1 : ((((zt s).mul (a1 s)).sub ((at_ s).mul (z1 s))).div (((a1 s).mul (z0 s)).sub ((a0 s).mul (z1 s)))).x ≤ 0
    · simp only [if_pos e1] at hk; cases hk
    · simp only [if_neg e1] at hk
      by_cases e2 : ¬ (((zt s).x * (a0 s).x > (at_ s).x * (z0 s).x) ↔ ((((a1 s).mul (z0 s)).sub ((a0 s).mul (z1 s))).x > 0))
      · rw [if_pos e2] at hk; cases hk
      · rw [if_neg e2] at hk; exact Option.some.inj hk
  · unfold intersectAxis at hk
    by_cases e1 : ((((zt s).mul (a1 s)).sub ((at_ s).mul (z1 s))).div (((a1 s).mul (z0 s)).sub ((a0 s).mul (z1 s)))).x ≤ 0
    · simp only [if_pos e1] at hk; cases hk
    simp only [if_neg e1] at hk
    have o1 := tk.pos (not_le.1 e1)
    by_cases e2 : ¬ (((zt s).x * (a0 s).x > (at_ s).x * (z0 s).x) ↔ ((((a1 s).mul (z0 s)).sub ((a0 s).mul (z1 s))).x > 0))
    · rw [if_pos e2] at hk; cases hk
    push Not at e2
    have e2 : ((zt s).x * (a0 s).x > (at_ s).x * (z0 s).x) ↔ ((((a1 s).mul (z0 s)).sub ((a0 s).mul (z1 s))).x > 0) := by tauto
    have o2 : ∀ᶠ u in 𝓝 s, (((zt u).x * (a0 u).x > (at_ u).x * (z0 u).x) ↔ ((((a1 u).mul (z0 u)).sub ((a0 u).mul (z1 u))).x > 0)) := by
      have td := (kt.mul h0).sub (ht.mul k0)
      by_cases e3 : (((a1 s).mul (z0 s)).sub ((a0 s).mul (z1 s))).x > 0
      · have := e2.2 e3
        have p := td.pos (by simp only [sub_x, mul_x]; linarith)
        filter_upwards [tdet.pos e3, p] with u hu hp
        simp only [sub_x, mul_x] at hp
        exact ⟨fun _ => hu, fun _ => by linarith⟩
      · have hle := fun h => e3 (e2.1 h)
        have hlt : (zt s).x * (a0 s).x < (at_ s).x * (z0 s).x := lt_of_le_of_ne (not_lt.1 hle) hne
        have hdn : (((a1 s).mul (z0 s)).sub ((a0 s).mul (z1 s))).x < 0 := lt_of_le_of_ne (not_lt.1 e3) hd
        have p1 := td.cont.eventually_lt_const (u := 0) (by show (((zt s).mul (a0 s)).sub ((at_ s).mul (z0 s))).x < 0; simp only [sub_x, mul_x]; linarith)
        have p2 := tdet.cont.eventually_lt_const hdn
        filter_upwards [p1, p2] with u hp hu
        simp only [sub_x, mul_x] at hp
        exact ⟨fun h => absurd h (by linarith), fun h => absurd h (not_lt.2 (le_of_lt hu))⟩
    filter_upwards [o1, o2] with u hu1 hu2
    unfold intersectAxis
    simp only [if_neg (not_le.2 hu1)]
    rw [if_neg (not_not.2 hu2)]

/-- the gradients of the intersection, where the choice of the axes does not switch -/
theorem assume_track' (hU : VC U d s) (hV : VC V d s) (hW : VC W d s) (m : Vec3 N) (hm : assumeIntersect (U s) (V s) (W s) = some m)
    (htie : |(crossp (U s).value (V s).value).y| ≠ |(crossp (U s).value (V s).value).x|)
    (hx : (W s).z.x * (U s).x.x ≠ (W s).x.x * (U s).z.x) (hy : (W s).z.x * (U s).y.x ≠ (W s).y.x * (U s).z.x) :
    HasDerivP (fun u => point (assumeIntersect (U u) (V u) (W u))) ⟨m.x.rate d, m.y.rate d, m.z.rate d⟩ s := by
  have txz := (hU.1.neg.mul hV.2.2).add (hU.2.2.mul hV.1)
  have tyz := (hU.2.1.neg.mul hV.2.2).add (hU.2.2.mul hV.2.1)
  have cxz := txz.cont.abs
  have cyz := tyz.cont.abs
  have nx : ∀ u, ((U u).x.neg.mul (V u).z |>.add ((U u).z.mul (V u).x)).x = (-(U u).x.x) * (V u).z.x + (U u).z.x * (V u).x.x := fun u => by
    simp only [add_x, mul_x, Val.neg, mulC_x]; ring
  have ny : ∀ u, ((U u).y.neg.mul (V u).z |>.add ((U u).z.mul (V u).y)).x = (-(U u).y.x) * (V u).z.x + (U u).z.x * (V u).y.x := fun u => by
    simp only [add_x, mul_x, Val.neg, mulC_x]; ring
  simp only [nx] at cxz
  simp only [ny] at cyz
  have htie' : |(-(U s).x.x) * (V s).z.x + (U s).z.x * (V s).x.x| ≠ |(-(U s).y.x) * (V s).z.x + (U s).z.x * (V s).y.x| := by
    intro h; apply htie
    rw [show (crossp (U s).value (V s).value).y = (-(U s).x.x) * (V s).z.x + (U s).z.x * (V s).x.x by simp only [crossp, Vec3.value]; ring, h, ← abs_neg]
    congr 1; simp only [crossp, Vec3.value]; ring
  have fin : ∀ (K : ℝ → Val N) (k : Val N), TC K d s → K s = k → m = (U s).mulV k → (∀ᶠ u in 𝓝 s, assumeIntersect (U u) (V u) (W u) = some ((U u).mulV (K u))) →
      HasDerivP (fun u => point (assumeIntersect (U u) (V u) (W u))) ⟨m.x.rate d, m.y.rate d, m.z.rate d⟩ s := by
    intro K k hK hKs hmk he
    have := point_track (fun u => assumeIntersect (U u) (V u) (W u)) (hU.mulV hK) (he.mono fun u hu => by simp only [hu, point])
    rw [hKs] at this
    rw [hmk]; exact this
  simp only [assumeIntersect] at hm
  by_cases c1 : |(-(U s).x.x) * (V s).z.x + (U s).z.x * (V s).x.x| > |(-(U s).y.x) * (V s).z.x + (U s).z.x * (V s).y.x|
  · rw [if_pos c1] at hm
    by_cases c2 : |(-(U s).x.x) * (V s).z.x + (U s).z.x * (V s).x.x| ≤ 1e-10
    · rw [if_pos c2] at hm; cases hm
    rw [if_neg c2] at hm
    obtain ⟨k, hk, hmk⟩ := Option.map_eq_some_iff.1 hm
    have hd : (V s).x.x * (U s).z.x - (U s).x.x * (V s).z.x ≠ 0 := fun h0 => c2 (by
      rw [show (-(U s).x.x) * (V s).z.x + (U s).z.x * (V s).x.x = (V s).x.x * (U s).z.x - (U s).x.x * (V s).z.x by ring, h0]; norm_num)
    obtain ⟨K, hK, hKs, hKe⟩ := axis_open hU.1 hV.1 hW.1 hU.2.2 hV.2.2 hW.2.2 hd hx k hk
    refine fin K k hK hKs hmk.symm ?_
    filter_upwards [hKe, cyz.eventually_lt cxz c1, cxz.eventually_const_lt (not_le.1 c2)] with u hu h1 h2
    simp only [assumeIntersect]
    rw [if_pos h1, if_neg (not_le.2 h2), hu]; rfl
  · rw [if_neg c1] at hm
    have c1' := lt_of_le_of_ne (not_lt.1 c1) htie'
    by_cases c2 : |(-(U s).y.x) * (V s).z.x + (U s).z.x * (V s).y.x| ≤ 1e-10
    · rw [if_pos c2] at hm; cases hm
    rw [if_neg c2] at hm
    obtain ⟨k, hk, hmk⟩ := Option.map_eq_some_iff.1 hm
    have hd : (V s).y.x * (U s).z.x - (U s).y.x * (V s).z.x ≠ 0 := fun h0 => c2 (by
      rw [show (-(U s).y.x) * (V s).z.x + (U s).z.x * (V s).y.x = (V s).y.x * (U s).z.x - (U s).y.x * (V s).z.x by ring, h0]; norm_num)
    obtain ⟨K, hK, hKs, hKe⟩ := axis_open hU.2.1 hV.2.1 hW.2.1 hU.2.2 hV.2.2 hW.2.2 hd hy k hk
    refine fin K k hK hKs hmk.symm ?_
    filter_upwards [hKe, cxz.eventually_lt cyz c1', cyz.eventually_const_lt (not_le.1 c2)] with u hu h1 h2
    simp only [assumeIntersect]
    rw [if_neg (not_lt.2 (le_of_lt h1)), if_neg (not_le.2 h2), hu]; rfl

/-! ### the correction -/

def MC (R : ℝ → Mat3 N) (d : Fin N → ℝ) (s : ℝ) : Prop := VC (fun u => (R u).r0) d s ∧ VC (fun u => (R u).r1) d s ∧ VC (fun u => (R u).r2) d s

theorem lindE_track {R : ℝ → Mat3 N} (hR : MC R d s) (hW : VC W d s) : MC (fun u => lindE (R u) (W u)) d s := by
  obtain ⟨⟨r00, r01, r02⟩, ⟨r10, r11, r12⟩, ⟨r20, r21, r22⟩⟩ := hR
  obtain ⟨x, y, z⟩ := hW
  exact ⟨⟨(r20.mul y).sub (r10.mul z), (r21.mul y).sub (r11.mul z), (r22.mul y).sub (r12.mul z)⟩,
    ⟨(r00.mul z).sub (r20.mul x), (r01.mul z).sub (r21.mul x), (r02.mul z).sub (r22.mul x)⟩,
    ⟨(r10.mul x).sub (r00.mul y), (r11.mul x).sub (r01.mul y), (r12.mul x).sub (r02.mul y)⟩⟩

theorem matVec_track {R : ℝ → Mat3 N} (hR : MC R d s) (hV : VC V d s) : VC (fun u => matVec (R u) (V u)) d s := by
  obtain ⟨⟨r00, r01, r02⟩, ⟨r10, r11, r12⟩, ⟨r20, r21, r22⟩⟩ := hR
  obtain ⟨x, y, z⟩ := hV
  exact ⟨((r00.mul x).add (r01.mul y)).add (r02.mul z), ((r10.mul x).add (r11.mul y)).add (r12.mul z), ((r20.mul x).add (r21.mul y)).add (r22.mul z)⟩

/-- the quantities of steps 1 to 6 -/
structure LindVals (N : Nat) where
  n0 : Val N
  n1 : Val N
  nn0 : Val N
  nn1 : Val N
  a : Val N
  b : Val N
  c : Val N

noncomputable def lindVals (E : Mat3 N) (x00 x01 x10 x11 : Val N) : LindVals N :=
  let n0 := ((E.r0.x.mul x10).add (E.r0.y.mul x11)).add E.r0.z
  let n1 := ((E.r1.x.mul x10).add (E.r1.y.mul x11)).add E.r1.z
  let nn0 := ((E.r0.x.mul x00).add (E.r1.x.mul x01)).add E.r2.x
  let nn1 := ((E.r0.y.mul x00).add (E.r1.y.mul x01)).add E.r2.y
  { n0 := n0, n1 := n1, nn0 := nn0, nn1 := nn1
    a := ((((n0.mul E.r0.x).mul nn0).add ((n0.mul E.r0.y).mul nn1)).add ((n1.mul E.r1.x).mul nn0)).add ((n1.mul E.r1.y).mul nn1)
    b := ((((n0.mul n0).add (n1.mul n1)).add (nn0.mul nn0)).add (nn1.mul nn1)).mulC 0.5
    c := ((n0.mul x00).add (n1.mul x01)).add (((E.r2.x.mul x10).add (E.r2.y.mul x11)).add E.r2.z) }

noncomputable def lindFinish (E : Mat3 N) (x00 x01 x10 x11 : Val N) (q : LindVals N) : Vec3 N × Vec3 N :=
  let d := ((q.b.mul q.b).sub (q.a.mul q.c)).sqrt
  let l := q.c.div (q.b.add d)
  let dx0 := l.mul q.n0
  let dx1 := l.mul q.n1
  let dxx0 := l.mul q.nn0
  let dxx1 := l.mul q.nn1
  let n0' := (q.n0.sub (E.r0.x.mul dxx0)).sub (E.r0.y.mul dxx1)
  let n1' := (q.n1.sub (E.r1.x.mul dxx0)).sub (E.r1.y.mul dxx1)
  let nn0' := (q.nn0.sub (E.r0.x.mul dx0)).sub (E.r1.x.mul dx1)
  let nn1' := (q.nn1.sub (E.r0.y.mul dx0)).sub (E.r1.y.mul dx1)
  let bb := ((((n0'.mul n0').add (n1'.mul n1')).add (nn0'.mul nn0')).add (nn1'.mul nn1')).mulC 0.5
  let l' := (l.div d).mul bb
  (⟨x00.sub (l'.mul n0'), x01.sub (l'.mul n1'), Val.ofR 1.0⟩, ⟨x10.sub (l'.mul nn0'), x11.sub (l'.mul nn1'), Val.ofR 1.0⟩)

theorem lindCorrect_split (E : Mat3 N) (v0 v1 : Vec3 N) : lindCorrect E v0 v1 =
    lindFinish E (v0.x.div v0.z) (v0.y.div v0.z) (v1.x.div v1.z) (v1.y.div v1.z) (lindVals E (v0.x.div v0.z) (v0.y.div v0.z) (v1.x.div v1.z) (v1.y.div v1.z)) := rfl

theorem lindVals_track {E : ℝ → Mat3 N} {x00 x01 x10 x11 : ℝ → Val N} (hE : MC E d s) (h00 : TC x00 d s) (h01 : TC x01 d s) (h10 : TC x10 d s) (h11 : TC x11 d s) :
    TC (fun u => (lindVals (E u) (x00 u) (x01 u) (x10 u) (x11 u)).n0) d s ∧ TC (fun u => (lindVals (E u) (x00 u) (x01 u) (x10 u) (x11 u)).n1) d s ∧
    TC (fun u => (lindVals (E u) (x00 u) (x01 u) (x10 u) (x11 u)).nn0) d s ∧ TC (fun u => (lindVals (E u) (x00 u) (x01 u) (x10 u) (x11 u)).nn1) d s ∧
    TC (fun u => (lindVals (E u) (x00 u) (x01 u) (x10 u) (x11 u)).a) d s ∧ TC (fun u => (lindVals (E u) (x00 u) (x01 u) (x10 u) (x11 u)).b) d s ∧
    TC (fun u => (lindVals (E u) (x00 u) (x01 u) (x10 u) (x11 u)).c) d s := by
  obtain ⟨⟨e00, e01, e02⟩, ⟨e10, e11, e12⟩, ⟨e20, e21, e22⟩⟩ := hE
  have n0 := ((e00.mul h10).add (e01.mul h11)).add e02
  have n1 := ((e10.mul h10).add (e11.mul h11)).add e12
  have nn0 := ((e00.mul h00).add (e10.mul h01)).add e20
  have nn1 := ((e01.mul h00).add (e11.mul h01)).add e21
  have a := ((((n0.mul e00).mul nn0).add ((n0.mul e01).mul nn1)).add ((n1.mul e10).mul nn0)).add ((n1.mul e11).mul nn1)
  have b := ((((n0.mul n0).add (n1.mul n1)).add (nn0.mul nn0)).add (nn1.mul nn1)).mulC 0.5
  have c := ((n0.mul h00).add (n1.mul h01)).add (((e20.mul h10).add (e21.mul h11)).add e22)
  exact ⟨n0, n1, nn0, nn1, a, b, c⟩

theorem lindFinish_track {E : ℝ → Mat3 N} {x00 x01 x10 x11 : ℝ → Val N} {q : ℝ → LindVals N} (hE : MC E d s) (h00 : TC x00 d s) (h01 : TC x01 d s) (h10 : TC x10 d s) (h11 : TC x11 d s)
    (n0 : TC (fun u => (q u).n0) d s) (n1 : TC (fun u => (q u).n1) d s) (nn0 : TC (fun u => (q u).nn0) d s) (nn1 : TC (fun u => (q u).nn1) d s)
    (a : TC (fun u => (q u).a) d s) (b : TC (fun u => (q u).b) d s) (c : TC (fun u => (q u).c) d s)
    (hdisc : (q s).a.x * (q s).c.x < (q s).b.x * (q s).b.x) (hb : 0 ≤ (q s).b.x) :
    VC (fun u => (lindFinish (E u) (x00 u) (x01 u) (x10 u) (x11 u) (q u)).1) d s ∧ VC (fun u => (lindFinish (E u) (x00 u) (x01 u) (x10 u) (x11 u) (q u)).2) d s := by
  obtain ⟨⟨e00, e01, e02⟩, ⟨e10, e11, e12⟩, ⟨e20, e21, e22⟩⟩ := hE
  have pd : 0 < (((q s).b.mul (q s).b).sub ((q s).a.mul (q s).c)).x := by simp only [sub_x, mul_x]; linarith
  have hd := ((b.mul b).sub (a.mul c)).sqrt pd
  have pd' : 0 < (((q s).b.mul (q s).b).sub ((q s).a.mul (q s).c)).sqrt.x := by rw [sqrt_x]; exact Real.sqrt_pos.2 pd
  have l := c.div (b.add hd) (by rw [add_x]; exact (add_pos_of_nonneg_of_pos hb pd').ne')
  have dx0 := l.mul n0
  have dx1 := l.mul n1
  have dxx0 := l.mul nn0
  have dxx1 := l.mul nn1
  have n0' := (n0.sub (e00.mul dxx0)).sub (e01.mul dxx1)
  have n1' := (n1.sub (e10.mul dxx0)).sub (e11.mul dxx1)
  have nn0' := (nn0.sub (e00.mul dx0)).sub (e10.mul dx1)
  have nn1' := (nn1.sub (e01.mul dx0)).sub (e11.mul dx1)
  have bb := ((((n0'.mul n0').add (n1'.mul n1')).add (nn0'.mul nn0')).add (nn1'.mul nn1')).mulC 0.5
  have l' := (l.div hd pd'.ne').mul bb
  exact ⟨⟨h00.sub (l'.mul n0'), h01.sub (l'.mul n1'), TC.ofR 1.0⟩, ⟨h10.sub (l'.mul nn0'), h11.sub (l'.mul nn1'), TC.ofR 1.0⟩⟩

theorem lindVals_x (R : M3) (t : P3) (g h : Nat) (V0 V1 : Vec3 N) :
    (lindVals (lindE (Mat3.init R g) (Vec3.init t (some h))) (V0.x.div V0.z) (V0.y.div V0.z) (V1.x.div V1.z) (V1.y.div V1.z)).a.x = lindA R t (xz V0.value) (xz V1.value) ∧
    (lindVals (lindE (Mat3.init R g) (Vec3.init t (some h))) (V0.x.div V0.z) (V0.y.div V0.z) (V1.x.div V1.z) (V1.y.div V1.z)).b.x = lindB R t (xz V0.value) (xz V1.value) ∧
    (lindVals (lindE (Mat3.init R g) (Vec3.init t (some h))) (V0.x.div V0.z) (V0.y.div V0.z) (V1.x.div V1.z) (V1.y.div V1.z)).c.x = epipolar R t (xz V0.value) (xz V1.value) := by
  have hh : (0.5 : ℝ) = 1 / 2 := by norm_num
  simp only [lindVals, lindE, add_x, sub_x, mul_x, mulC_x, div_x, hh, Mat3.init, Vec3.init, lindA, lindB, epipolar, lindN, lindNN, xz, rot, crossp, dotp, Vec3.value]
  refine ⟨?_, ?_, ?_⟩
  · ring
  · ring
  · ring

/-! ### the seeding -/

def vel18 (w0 w1 : P3) (wR : M3) (wt : P3) : Fin 18 → ℝ :=
  ![w0.x, w0.y, w0.z, w1.x, w1.y, w1.z, wR.a00, wR.a01, wR.a02, wR.a10, wR.a11, wR.a12, wR.a20, wR.a21, wR.a22, wt.x, wt.y, wt.z]

theorem seed18 (c : ℝ → P3) (w : P3) (g : Nat) (hg : g + 2 < 18) (D : Fin 18 → ℝ) (h : HasDerivP c w s) (e0 : D ⟨g, by omega⟩ = w.x) (e1 : D ⟨g + 1, by omega⟩ = w.y) (e2 : D ⟨g + 2, by omega⟩ = w.z) :
    VC (fun u => (Vec3.init (c u) (some g) : Vec3 18)) D s := by
  have key : ∀ (j : Nat) (hj : j < 18), ∑ i : Fin 18, (if (i : Nat) = j then (1 : ℝ) else 0) * D i = D ⟨j, hj⟩ := by
    intro j hj
    rw [Finset.sum_eq_single ⟨j, hj⟩]
    · simp
    · intro b _ hb
      have : (b : Nat) ≠ j := fun h => hb (Fin.ext h)
      simp [this]
    · intro h; exact absurd (Finset.mem_univ _) h
  refine ⟨h.1.congr_deriv ?_, h.2.1.congr_deriv ?_, h.2.2.congr_deriv ?_⟩
  · rw [← e0, ← key]; rfl
  · rw [← e1, ← key]; rfl
  · rw [← e2, ← key]; rfl

theorem rate18 (a : Val 18) (w0 w1 wt : P3) (wR : M3) : a.rate (vel18 w0 w1 wR wt) =
    dotp ⟨a.j 0, a.j 1, a.j 2⟩ w0 + dotp ⟨a.j 3, a.j 4, a.j 5⟩ w1 + ∑ k : Fin 12, a.j ⟨6 + k, by omega⟩ * flat12 wR wt k := by
  unfold Val.rate
  rw [Fin.sum_univ_add (a := 6) (b := 12) (fun i => a.j i * vel18 w0 w1 wR wt i)]
  congr 1
  · simp only [Fin.sum_univ_six, dotp]
    show a.j 0 * w0.x + a.j 1 * w0.y + a.j 2 * w0.z + a.j 3 * w1.x + a.j 4 * w1.y + a.j 5 * w1.z = _
    ring

/-- **C63**: the gradients of mrcal_triangulate_lindstrom(), including those with respect to all 12 elements of Rt01, whenever a point is reported. Here c0, c1 are the corrected rays.
The observations have z ≠ 0, the square root is of a positive number, and the code is not at a switch of the axes it uses for the intersection -/
theorem lind_gradient (v0 v1 : P3) (Rt01 : Rt) (J) (hJ : lindGradients (lindstromSeeded v0 v1 Rt01) = some J) (hz0 : v0.z ≠ 0) (hz1 : v1.z ≠ 0)
    (hdisc : lindA Rt01.R Rt01.t (xz v0) (xz v1) * epipolar Rt01.R Rt01.t (xz v0) (xz v1) < lindB Rt01.R Rt01.t (xz v0) (xz v1) ^ 2)
    (c0 c1 : P3) (hc0 : c0 = (lindCorrect (N := 18) (lindE (Mat3.init Rt01.R 6) (Vec3.init Rt01.t (some 15))) (Vec3.init v0 (some 0)) (Vec3.init v1 (some 3))).1.value)
    (hc1 : c1 = rot Rt01.R (lindCorrect (N := 18) (lindE (Mat3.init Rt01.R 6) (Vec3.init Rt01.t (some 15))) (Vec3.init v0 (some 0)) (Vec3.init v1 (some 3))).2.value)
    (htie : |(crossp c0 c1).y| ≠ |(crossp c0 c1).x|) (hx : Rt01.t.z * c0.x ≠ Rt01.t.x * c0.z) (hy : Rt01.t.z * c0.y ≠ Rt01.t.y * c0.z) :
    LindJacobianAt (fun a b T => point (lindstromSeeded a b T)) J v0 v1 Rt01 := by
  obtain ⟨R, t⟩ := Rt01
  obtain ⟨m, hm, hmJ⟩ := Option.map_eq_some_iff.1 hJ
  intro p0 p1 pt pR w0 w1 wt wR s e0 e1 eR et d0 d1 dR dt
  have s0 : VC (fun u => (Vec3.init (p0 u) (some 0) : Vec3 18)) (vel18 w0 w1 wR wt) s := seed18 p0 w0 0 (by norm_num) _ d0 rfl rfl rfl
  have s1 : VC (fun u => (Vec3.init (p1 u) (some 3) : Vec3 18)) (vel18 w0 w1 wR wt) s := seed18 p1 w1 3 (by norm_num) _ d1 rfl rfl rfl
  have st : VC (fun u => (Vec3.init (pt u) (some 15) : Vec3 18)) (vel18 w0 w1 wR wt) s := seed18 pt wt 15 (by norm_num) _ dt rfl rfl rfl
  obtain ⟨r00, r01, r02, r10, r11, r12, r20, r21, r22⟩ := dR
  have sR : MC (fun u => (Mat3.init (pR u) 6 : Mat3 18)) (vel18 w0 w1 wR wt) s :=
    ⟨seed18 (fun u => ⟨(pR u).a00, (pR u).a01, (pR u).a02⟩) ⟨wR.a00, wR.a01, wR.a02⟩ 6 (by norm_num) _ ⟨r00, r01, r02⟩ rfl rfl rfl,
     seed18 (fun u => ⟨(pR u).a10, (pR u).a11, (pR u).a12⟩) ⟨wR.a10, wR.a11, wR.a12⟩ 9 (by norm_num) _ ⟨r10, r11, r12⟩ rfl rfl rfl,
     seed18 (fun u => ⟨(pR u).a20, (pR u).a21, (pR u).a22⟩) ⟨wR.a20, wR.a21, wR.a22⟩ 12 (by norm_num) _ ⟨r20, r21, r22⟩ rfl rfl rfl⟩
  simp only at eR et hdisc hc0 hc1 hx hy
  subst e0 e1 eR et
  have hE := lindE_track sR st
  have z0 : (Vec3.init (p0 s) (some 0) : Vec3 18).z.x ≠ 0 := hz0
  have z1 : (Vec3.init (p1 s) (some 3) : Vec3 18).z.x ≠ 0 := hz1
  have x00 := s0.1.div s0.2.2 z0
  have x01 := s0.2.1.div s0.2.2 z0
  have x10 := s1.1.div s1.2.2 z1
  have x11 := s1.2.1.div s1.2.2 z1
  obtain ⟨n0, n1, nn0, nn1, a, b, c⟩ := lindVals_track hE x00 x01 x10 x11
  obtain ⟨va, vb, vc⟩ := lindVals_x (N := 18) (pR s) (pt s) 6 15 (Vec3.init (p0 s) (some 0)) (Vec3.init (p1 s) (some 3))
  simp only [init_value] at va vb vc
  have ff := lindFinish_track hE x00 x01 x10 x11 n0 n1 nn0 nn1 a b c (by rw [va, vb, vc]; nlinarith [hdisc]) (by rw [vb, lindB]; positivity)
  have f0 : VC (fun u => (lindCorrect (N := 18) (lindE (Mat3.init (pR u) 6) (Vec3.init (pt u) (some 15))) (Vec3.init (p0 u) (some 0)) (Vec3.init (p1 u) (some 3))).1)
      (vel18 w0 w1 wR wt) s := by simp only [lindCorrect_split]; exact ff.1
  have f1 : VC (fun u => (lindCorrect (N := 18) (lindE (Mat3.init (pR u) 6) (Vec3.init (pt u) (some 15))) (Vec3.init (p0 u) (some 0)) (Vec3.init (p1 u) (some 3))).2)
      (vel18 w0 w1 wR wt) s := by simp only [lindCorrect_split]; exact ff.2
  clear ff n0 n1 nn0 nn1 a b c va vb vc x00 x01 x10 x11 z0 z1 hE
  have hR1 := matVec_track sR f1
  have h1 : c1 = (matVec (Mat3.init (pR s) 6) (lindCorrect (N := 18) (lindE (Mat3.init (pR s) 6) (Vec3.init (pt s) (some 15))) (Vec3.init (p0 s) (some 0)) (Vec3.init (p1 s) (some 3))).2).value := by
    rw [matVec_value, hc1]
  have key := assume_track' f0 hR1 st m hm (by rw [hc0, h1] at htie; exact htie) (by rw [hc0] at hx; exact hx) (by rw [hc0] at hy; exact hy)
  have key2 : HasDerivP (fun u => point (lindstromSeeded (p0 u) (p1 u) ⟨pR u, pt u⟩)) ⟨m.x.rate (vel18 w0 w1 wR wt), m.y.rate (vel18 w0 w1 wR wt), m.z.rate (vel18 w0 w1 wR wt)⟩ s := key
  clear key f0 f1 hR1 hc0 hc1 h1 htie hx hy hdisc hm
  rw [rate18, rate18, rate18] at key2
  rw [← hmJ]
  exact key2

/-- a point at (0,0,1) seen by a camera at the origin and one at (1,2,0) meets the hypotheses of `lind_gradient` -/
example : (∃ J, lindGradients (lindstromSeeded ⟨0, 0, 1⟩ ⟨-1, -2, 1⟩ ⟨identity3, ⟨1, 2, 0⟩⟩) = some J) ∧
    lindA identity3 ⟨1, 2, 0⟩ (xz ⟨0, 0, 1⟩) (xz ⟨-1, -2, 1⟩) * epipolar identity3 ⟨1, 2, 0⟩ (xz ⟨0, 0, 1⟩) (xz ⟨-1, -2, 1⟩) < lindB identity3 ⟨1, 2, 0⟩ (xz ⟨0, 0, 1⟩) (xz ⟨-1, -2, 1⟩) ^ 2 ∧
    (lindCorrect (N := 18) (lindE (Mat3.init identity3 6) (Vec3.init ⟨1, 2, 0⟩ (some 15))) (Vec3.init ⟨0, 0, 1⟩ (some 0)) (Vec3.init ⟨-1, -2, 1⟩ (some 3))).1.value = ⟨0, 0, 1⟩ ∧
    rot identity3 (lindCorrect (N := 18) (lindE (Mat3.init identity3 6) (Vec3.init ⟨1, 2, 0⟩ (some 15))) (Vec3.init ⟨0, 0, 1⟩ (some 0)) (Vec3.init ⟨-1, -2, 1⟩ (some 3))).2.value = ⟨-1, -2, 1⟩ ∧
    |(crossp ⟨0, 0, 1⟩ ⟨-1, -2, 1⟩).y| ≠ |(crossp ⟨0, 0, 1⟩ ⟨-1, -2, 1⟩).x| := by
  have hs : Sees ⟨0, 0, 1⟩ (rot identity3 ⟨-1, -2, 1⟩) ⟨1, 2, 0⟩ 1 1 ⟨0, 0, 1⟩ :=
    ⟨by norm_num, by norm_num, by simp [sm], by ext <;> norm_num [sm, addp, rot, identity3, dotp]⟩
  obtain ⟨m, hm, -⟩ := lind_exact_partial ⟨0, 0, 1⟩ ⟨-1, -2, 1⟩ ⟨0, 0, 1⟩ ⟨identity3, ⟨1, 2, 0⟩⟩ 1 1 hs (by norm_num) (by norm_num)
    (Or.inl (by norm_num [crossp, rot, identity3, sm, dotp]))
  obtain ⟨f0, f1⟩ := lind_form_zero identity3 ⟨1, 2, 0⟩ ⟨0, 0, 1⟩ ⟨-1, -2, 1⟩ (by norm_num [epipolar, dotp, crossp, rot, identity3])
  refine ⟨⟨_, by rw [hm]; rfl⟩, ?_, ?_, ?_, ?_⟩
  · norm_num [lindA, lindB, epipolar, lindN, lindNN, xz, dotp, crossp, rot, identity3]
  · rw [f0]; norm_num
  · rw [f1]; norm_num [rot, identity3, dotp]
  · norm_num [crossp]

end Mrcal.Tri
