import Verif.Model.Cahvore
import Verif.Props.AutodiffProps
import Verif.Props.CahvorProps
import Verif.Props.RotateProps
/-
C53, C54: the CAHVORE projection.
-/
namespace Mrcal.Cam
open AD Mrcal.Pose
open Filter Topology

variable {N M : Nat}

/-! ### asking for gradients doesn't change the result -/

def reIn (φ : Fin M → Fin N) (c : CahvoreIn N) : CahvoreIn M := ⟨reVal φ c.zeta, reVal φ c.l, reVal φ c.e0, reVal φ c.e1, reVal φ c.e2⟩

theorem dtheta_natural (φ : Fin M → Fin N) (c : CahvoreIn N) (theta : Val N) :
    cahvoreDtheta (reIn φ c) (reVal φ theta) = reVal φ (cahvoreDtheta c theta) := rfl

theorem newton_natural (φ : Fin M → Fin N) (c : CahvoreIn N) (n : Nat) (theta : Val N) :
    cahvoreNewton (reIn φ c) n (reVal φ theta) = (cahvoreNewton c n theta).map (reVal φ) := by
  induction n generalizing theta with
  | zero => rfl
  | succ n ih =>
    have e : (reVal φ theta).sub (cahvoreDtheta (reIn φ c) (reVal φ theta)) = reVal φ (theta.sub (cahvoreDtheta c theta)) := rfl
    by_cases h : |(cahvoreDtheta c theta).x| < 1e-8
    · have h' : |(cahvoreDtheta (reIn φ c) (reVal φ theta)).x| < 1e-8 := h
      simp only [cahvoreNewton, if_pos h, if_pos h', e, Option.map_some]
    · have h' : ¬ |(cahvoreDtheta (reIn φ c) (reVal φ theta)).x| < 1e-8 := h
      simp only [cahvoreNewton, if_neg h, if_neg h', e]
      exact ih _

theorem apply_natural (φ : Fin M → Fin N) (o ll : Vec3 N) (l r0 r1 r2 : Val N) (lin : ℝ) (theta : Val N) :
    cahvoreApply (reVec φ o) (reVec φ ll) (reVal φ l) (reVal φ r0) (reVal φ r1) (reVal φ r2) lin (reVal φ theta) =
      reVec φ (cahvoreApply o ll l r0 r1 r2 lin theta) := by
  have e : cahvoreChi lin (reVal φ theta) = reVal φ (cahvoreChi lin theta) := by
    unfold cahvoreChi
    simp only []
    split
    · rfl
    · split <;> rfl
  unfold cahvoreApply
  simp only [e]
  rfl

theorem internals_natural (φ : Fin M → Fin N) (p : Vec3 N) (k : Nat → Val N) (lin : ℝ) :
    cahvoreInternals (reVec φ p) (fun i => reVal φ (k i)) lin = (cahvoreInternals p k lin).map (reVec φ) := by
  have e1 : ∀ i j, cahvoreO (reVal φ (k i)) (reVal φ (k j)) = reVec φ (cahvoreO (k i) (k j)) := fun _ _ => rfl
  unfold cahvoreInternals
  simp only [e1]
  generalize cahvoreO (k 0) (k 1) = o
  have e2 : (reVec φ p).dot (reVec φ o) = reVal φ (p.dot o) := by
    ext
    · rfl
    · simp only [Vec3.dot, Val.add, Val.mul, reVec, reVal, Val.ofR]
  simp only [e2]
  generalize p.dot o = zeta
  have e3 : (reVec φ p).sub ((reVec φ o).mulV (reVal φ zeta)) = reVec φ (p.sub (o.mulV zeta)) := rfl
  simp only [e3]
  generalize p.sub (o.mulV zeta) = ll
  have e4 : (reVec φ ll).mag = reVal φ ll.mag := by
    ext
    · rfl
    · simp only [Vec3.mag, Vec3.norm2, Vec3.dot, Val.add, Val.mul, reVec, reVal, Val.ofR, Val.sqrt]
  simp only [e4]
  generalize ll.mag = l
  have e5 : (reVal φ l).atan2 (reVal φ zeta) = reVal φ (l.atan2 zeta) := rfl
  have e6 : (⟨reVal φ zeta, reVal φ l, reVal φ (k 5), reVal φ (k 6), reVal φ (k 7)⟩ : CahvoreIn M) = reIn φ ⟨zeta, l, k 5, k 6, k 7⟩ := rfl
  rw [e5, e6, newton_natural]
  cases cahvoreNewton ⟨zeta, l, k 5, k 6, k 7⟩ 100 (l.atan2 zeta) with
  | none => rfl
  | some theta =>
    simp only [Option.map_some]
    have e7 : (reVal φ theta).x = theta.x := rfl
    rw [e7]
    split
    · rfl
    · split
      · rw [apply_natural]; rfl
      · rfl

theorem initK_re (φ : Fin M → Fin N) (d : Nat → ℝ) (g g' : Option Nat)
    (h : ∀ k, k < 8 → ∀ i : Fin M, (initK d g k : Val N).j (φ i) = (initK d g' k : Val M).j i) :
    ∀ k, k < 8 → reVal φ (initK d g k) = initK d g' k := by
  intro k hk
  ext
  · rfl
  · exact h k hk _

/-- only 8 parameters are read -/
theorem internals_congr (p : Vec3 N) (k k' : Nat → Val N) (lin : ℝ) (h : ∀ i, i < 8 → k i = k' i) :
    cahvoreInternals p k lin = cahvoreInternals p k' lin := by
  unfold cahvoreInternals
  simp only [h 0 (by omega), h 1 (by omega), h 2 (by omega), h 3 (by omega), h 4 (by omega), h 5 (by omega), h 6 (by omega), h 7 (by omega)]

/-- **C53**: asking or not asking for a gradient affects neither the success, nor the value, nor the other gradient -/
theorem cahvore_wants (p : P3) (d : Nat → ℝ) (lin : ℝ) (wantk wantp : Bool) :
    projectCahvoreInternals p d lin wantk wantp = (projectCahvoreInternals p d lin true true).map fun o =>
      ⟨o.p, if wantk then o.dk else none, if wantp then o.dp else none⟩ := by
  cases wantk <;> cases wantp
  · have e := internals_natural (Fin.elim0 : Fin 0 → Fin 11) (Vec3.init p (some 8)) (initK d (some 0)) lin
    have e1 : reVec (Fin.elim0 : Fin 0 → Fin 11) (Vec3.init p (some 8)) = Vec3.init p none := by
      simp only [reVec, reVal, Vec3.init]; congr <;> funext i <;> exact i.elim0
    rw [e1, internals_congr _ _ (initK d none) _ (initK_re _ d _ none fun k _ i => i.elim0)] at e
    simp only [projectCahvoreInternals, e, Option.map_map]
    rfl
  · have e := internals_natural (fun i : Fin 3 => (⟨i.val + 8, by omega⟩ : Fin 11)) (Vec3.init p (some 8)) (initK d (some 0)) lin
    have e1 : reVec (fun i : Fin 3 => (⟨i.val + 8, by omega⟩ : Fin 11)) (Vec3.init p (some 8)) = Vec3.init p (some 0) := by
      simp only [reVec, reVal, Vec3.init]
      congr <;> funext i <;> fin_cases i <;> simp
    rw [e1, internals_congr _ _ (initK d none) _ (initK_re _ d _ none fun k hk i => by
      simp only [initK]; rw [if_neg]; omega)] at e
    simp only [projectCahvoreInternals, e, Option.map_map]
    rfl
  · have e := internals_natural (fun i : Fin 8 => (⟨i.val, by omega⟩ : Fin 11)) (Vec3.init p (some 8)) (initK d (some 0)) lin
    have e1 : reVec (fun i : Fin 8 => (⟨i.val, by omega⟩ : Fin 11)) (Vec3.init p (some 8)) = Vec3.init p none := by
      simp only [reVec, reVal, Vec3.init]
      congr <;> funext i <;> rw [if_neg] <;> omega
    rw [e1, internals_congr _ _ (initK d (some 0)) _ (initK_re _ d _ (some 0) fun k hk i => by
      simp only [initK])] at e
    simp only [projectCahvoreInternals, e, Option.map_map]
    rfl
  · simp only [if_true]
    cases projectCahvoreInternals p d lin true true <;> rfl

/-! ### the gradients -/

/-- the Newton iteration is away from its discontinuities: no division by 0, and the convergence test isn't passed or failed by exactly 0 -/
def NewtonReg (c : CahvoreIn N) : Nat → Val N → Prop
  | 0, _ => True
  | n + 1, theta => (cahvoreUpsilon c theta).x ≠ 0 ∧ |(cahvoreDtheta c theta).x| ≠ 1e-8 ∧
      (1e-8 < |(cahvoreDtheta c theta).x| → NewtonReg c n (theta.sub (cahvoreDtheta c theta)))

/-- all of the inputs of the iteration carry their derivatives -/
structure InTracks (c : CahvoreIn N) (d : Fin N → ℝ) (cs : ℝ → CahvoreIn 0) (t : ℝ) : Prop where
  zeta : Tracks c.zeta d (fun s => (cs s).zeta.x) t
  l : Tracks c.l d (fun s => (cs s).l.x) t
  e0 : Tracks c.e0 d (fun s => (cs s).e0.x) t
  e1 : Tracks c.e1 d (fun s => (cs s).e1.x) t
  e2 : Tracks c.e2 d (fun s => (cs s).e2.x) t

theorem dtheta_tracks {c : CahvoreIn N} {d : Fin N → ℝ} {cs : ℝ → CahvoreIn 0} {t : ℝ} (hc : InTracks c d cs t) {theta : Val N} {ths : ℝ → Val 0}
    (hth : Tracks theta d (fun s => (ths s).x) t) (hu : (cahvoreUpsilon c theta).x ≠ 0) :
    Tracks (cahvoreDtheta c theta) d (fun s => (cahvoreDtheta (cs s) (ths s)).x) t := by
  have h2 := hth.mul hth
  have h3 := hth.mul h2
  have h4 := hth.mul h3
  have hF : Tracks (cahvoreF c theta) d (fun s => (cahvoreF (cs s) (ths s)).x) t :=
    ((hc.zeta.mul hth.sin).sub (hc.l.mul hth.cos)).sub ((hth.sub hth.sin).mul ((hc.e0.add (hc.e1.mul h2)).add (hc.e2.mul h4)))
  have hU : Tracks (cahvoreUpsilon c theta) d (fun s => (cahvoreUpsilon (cs s) (ths s)).x) t :=
    (((hc.zeta.mul hth.cos).add (hc.l.mul hth.sin)).add
      ((hth.cos.subC (c := 1.0)).mul ((hc.e0.add (hc.e1.mul h2)).add (hc.e2.mul h4)))).sub
      ((hth.sub hth.sin).mul (((hc.e1.mul hth).mulC (c := 2.0)).add ((hc.e2.mul h3).mulC (c := 4.0))))
  exact hF.div hU hu

/-- the Newton iteration carries its derivative: nearby it makes the same decisions -/
theorem newton_tracks {c : CahvoreIn N} {d : Fin N → ℝ} {cs : ℝ → CahvoreIn 0} {t : ℝ} (hc : InTracks c d cs t) (n : Nat) {theta : Val N} {ths : ℝ → Val 0}
    (hth : Tracks theta d (fun s => (ths s).x) t) (hreg : NewtonReg c n theta) {r : Val N} (hr : cahvoreNewton c n theta = some r) :
    ∃ g : ℝ → Val 0, (∀ᶠ s in 𝓝 t, cahvoreNewton (cs s) n (ths s) = some (g s)) ∧ Tracks r d (fun s => (g s).x) t := by
  induction n generalizing theta ths with
  | zero => simp [cahvoreNewton] at hr
  | succ n ih =>
    obtain ⟨hu, h8, hrest⟩ := hreg
    have hd := dtheta_tracks hc hth hu
    have hth' : Tracks (theta.sub (cahvoreDtheta c theta)) d (fun s => ((ths s).sub (cahvoreDtheta (cs s) (ths s))).x) t := hth.sub hd
    have hd1 : (cahvoreDtheta (cs t) (ths t)).x = (cahvoreDtheta c theta).x := hd.1
    have hcont : ContinuousAt (fun s => |(cahvoreDtheta (cs s) (ths s)).x|) t := hd.2.continuousAt.abs
    simp only [cahvoreNewton] at hr
    by_cases h : |(cahvoreDtheta c theta).x| < 1e-8
    · rw [if_pos h] at hr
      have hr' : theta.sub (cahvoreDtheta c theta) = r := by simpa using hr
      refine ⟨fun s => (ths s).sub (cahvoreDtheta (cs s) (ths s)), ?_, hr' ▸ hth'⟩
      have : ∀ᶠ s in 𝓝 t, |(cahvoreDtheta (cs s) (ths s)).x| < 1e-8 := hcont.eventually_lt_const (by simp only [hd1]; exact h)
      filter_upwards [this] with s hs
      simp only [cahvoreNewton, if_pos hs]
    · rw [if_neg h] at hr
      have hgt : 1e-8 < |(cahvoreDtheta c theta).x| := lt_of_le_of_ne (not_lt.mp h) (Ne.symm h8)
      obtain ⟨g, hg, hgt'⟩ := ih hth' (hrest hgt) hr
      refine ⟨g, ?_, hgt'⟩
      have : ∀ᶠ s in 𝓝 t, 1e-8 < |(cahvoreDtheta (cs s) (ths s)).x| := hcont.eventually_const_lt (by simp only [hd1]; exact hgt)
      filter_upwards [this, hg] with s hs hgs
      simp only [cahvoreNewton, if_neg (not_lt.mpr hs.le)]
      exact hgs

/-- all three coordinates carry their derivatives -/
structure VTracks (v : Vec3 N) (d : Fin N → ℝ) (vs : ℝ → Vec3 0) (t : ℝ) : Prop where
  x : Tracks v.x d (fun s => (vs s).x.x) t
  y : Tracks v.y d (fun s => (vs s).y.x) t
  z : Tracks v.z d (fun s => (vs s).z.x) t

theorem chi_pos (lin th : ℝ) (h1 : 1e-8 < th) (h2 : th * |lin| < Real.pi / 2) (theta : Val N) (e : theta.x = th) :
    0 < (cahvoreChi lin theta).x ∧ 0 < Real.cos (th * lin) := by
  have h0 : 0 < th := by linarith
  have habs : |th * lin| < Real.pi / 2 := by rw [abs_mul, abs_of_pos h0]; exact h2
  have hc : 0 < Real.cos (th * lin) := Real.cos_pos_of_mem_Ioo (by rw [abs_lt] at habs; exact ⟨habs.1, habs.2⟩)
  refine ⟨?_, hc⟩
  unfold cahvoreChi
  simp only []
  have hp := Real.pi_pos
  split
  · rename_i hl
    have hl0 : lin < 0 := by linarith
    simp only [Val.divC, Val.mulC, Val.sin, e]
    have hs : Real.sin (th * lin) < 0 := Real.sin_neg_of_neg_of_neg_pi_lt (mul_neg_of_pos_of_neg h0 hl0) (by
      rw [abs_lt] at habs; linarith [habs.1])
    exact mul_pos_of_neg_of_neg hs (by simpa using hl0)
  · split
    · rename_i hl
      have hl0 : 0 < lin := by linarith
      simp only [Val.divC, Val.mulC, Val.tan, e]
      have hs : 0 < Real.sin (th * lin) := Real.sin_pos_of_pos_of_lt_pi (mul_pos h0 hl0) (by
        rw [abs_lt] at habs; linarith [habs.2])
      have : 0 < 1 / lin := by positivity
      positivity
    · rw [e]; exact h0

theorem chi_tracks {d : Fin N → ℝ} {t lin : ℝ} {theta : Val N} {ths : ℝ → Val 0} (hth : Tracks theta d (fun s => (ths s).x) t)
    (h1 : 1e-8 < theta.x) (h2 : theta.x * |lin| < Real.pi / 2) :
    Tracks (cahvoreChi lin theta) d (fun s => (cahvoreChi lin (ths s)).x) t := by
  obtain ⟨_, hc⟩ := chi_pos lin theta.x h1 h2 theta rfl
  unfold cahvoreChi
  simp only []
  by_cases hl : lin < -1e-15
  · simp only [if_pos hl]
    exact ((hth.mulC (c := lin)).sin.mulC (c := 1 / lin))
  · simp only [if_neg hl]
    by_cases hl2 : lin > 1e-15
    · simp only [if_pos hl2]
      have := ((hth.mulC (c := lin)).tan hc.ne').mulC (c := 1 / lin)
      exact this.congr fun s => by simp only [Val.divC, Val.mulC, Val.tan, Real.tan_eq_sin_div_cos]
    · simp only [if_neg hl2]; exact hth

/-- what the distortion needs, for its gradients to exist. `p` off the optical axis; the small-angle branch isn't hit exactly -/
structure InternalsReg (p : Vec3 N) (k : Nat → Val N) (lin : ℝ) : Prop where
  off : 0 < ((p.sub ((cahvoreO (k 0) (k 1)).mulV (p.dot (cahvoreO (k 0) (k 1))))).norm2).x
  newton : NewtonReg ⟨p.dot (cahvoreO (k 0) (k 1)), (p.sub ((cahvoreO (k 0) (k 1)).mulV (p.dot (cahvoreO (k 0) (k 1))))).mag, k 5, k 6, k 7⟩ 100
    ((p.sub ((cahvoreO (k 0) (k 1)).mulV (p.dot (cahvoreO (k 0) (k 1))))).mag.atan2 (p.dot (cahvoreO (k 0) (k 1))))
  theta : ∀ th, cahvoreNewton ⟨p.dot (cahvoreO (k 0) (k 1)), (p.sub ((cahvoreO (k 0) (k 1)).mulV (p.dot (cahvoreO (k 0) (k 1))))).mag, k 5, k 6, k 7⟩ 100
    ((p.sub ((cahvoreO (k 0) (k 1)).mulV (p.dot (cahvoreO (k 0) (k 1))))).mag.atan2 (p.dot (cahvoreO (k 0) (k 1)))) = some th →
    th.x * |lin| < Real.pi / 2 ∧ th.x ≠ 1e-8

theorem Tracks.reg {a : Val N} {d : Fin N → ℝ} {f : ℝ → ℝ} {t : ℝ} (h : Tracks a d f t) : ContinuousAt f t := h.2.continuousAt

theorem internals_tracks {p : Vec3 N} {k : Nat → Val N} {lin : ℝ} {d : Fin N → ℝ} {ps : ℝ → Vec3 0} {ks : ℝ → Nat → Val 0} {t : ℝ}
    (hp : VTracks p d ps t) (hk : ∀ i, i < 8 → Tracks (k i) d (fun s => (ks s i).x) t) (hreg : InternalsReg p k lin)
    {v : Vec3 N} (hv : cahvoreInternals p k lin = some v) :
    ∃ g : ℝ → Vec3 0, (∀ᶠ s in 𝓝 t, cahvoreInternals (ps s) (ks s) lin = some (g s)) ∧ VTracks v d g t := by
  obtain ⟨hoff, hnewton, htheta⟩ := hreg
  have h0 := hk 0 (by omega)
  have h1 := hk 1 (by omega)
  have ho : VTracks (cahvoreO (k 0) (k 1)) d (fun s => cahvoreO (ks s 0) (ks s 1)) t :=
    ⟨h1.cos.mul h0.sin, h1.sin, h1.cos.mul h0.cos⟩
  unfold cahvoreInternals at hv ⊢
  simp only [] at hv ⊢
  generalize eo : (fun s => cahvoreO (ks s 0) (ks s 1)) = os at ho
  have eo' : ∀ s, cahvoreO (ks s 0) (ks s 1) = os s := fun s => congrFun eo s
  simp only [eo']
  generalize cahvoreO (k 0) (k 1) = o at *
  have hdot : ∀ {a b : Vec3 N} {as bs : ℝ → Vec3 0}, VTracks a d as t → VTracks b d bs t → Tracks (a.dot b) d (fun s => ((as s).dot (bs s)).x) t := by
    intro a b as bs ha hb
    exact (((Tracks.ofR (c := 0)).add (hb.x.mul ha.x)).add (hb.y.mul ha.y)).add (hb.z.mul ha.z)
  have hz := hdot hp ho
  generalize ez : (fun s => (ps s).dot (os s)) = zs at hz
  have ez' : ∀ s, (ps s).dot (os s) = zs s := fun s => congrFun ez s
  simp only [ez'] at hz ⊢
  generalize p.dot o = zeta at *
  have hll : VTracks (p.sub (o.mulV zeta)) d (fun s => (ps s).sub ((os s).mulV (zs s))) t :=
    ⟨hp.x.sub (ho.x.mul hz), hp.y.sub (ho.y.mul hz), hp.z.sub (ho.z.mul hz)⟩
  generalize el : (fun s => (ps s).sub ((os s).mulV (zs s))) = lls at hll
  have el' : ∀ s, (ps s).sub ((os s).mulV (zs s)) = lls s := fun s => congrFun el s
  simp only [el']
  generalize p.sub (o.mulV zeta) = ll at *
  have hl : Tracks ll.mag d (fun s => (lls s).mag.x) t := (hdot hll hll).sqrt hoff
  have hlpos : 0 < ll.mag.x := Real.sqrt_pos.mpr hoff
  generalize ell : (fun s => (lls s).mag) = ls at hl
  have ell' : ∀ s, (lls s).mag = ls s := fun s => congrFun ell s
  simp only [ell'] at hl ⊢
  generalize ll.mag = l at *
  have ht0 : Tracks (l.atan2 zeta) d (fun s => ((ls s).atan2 (zs s)).x) t := hl.atan2 hz (Or.inl hlpos.ne')
  have hin : InTracks ⟨zeta, l, k 5, k 6, k 7⟩ d (fun s => ⟨zs s, ls s, ks s 5, ks s 6, ks s 7⟩) t :=
    ⟨hz, hl, hk 5 (by omega), hk 6 (by omega), hk 7 (by omega)⟩
  cases hn : cahvoreNewton ⟨zeta, l, k 5, k 6, k 7⟩ 100 (l.atan2 zeta) with
  | none => rw [hn] at hv; exact absurd hv (by simp)
  | some th =>
    rw [hn] at hv
    simp only [] at hv
    obtain ⟨hlin, h8⟩ := htheta th hn
    obtain ⟨g, hg, hgt⟩ := newton_tracks hin 100 ht0 hnewton hn
    rw [if_neg (by linarith)] at hv
    have c1 : ∀ᶠ s in 𝓝 t, (g s).x * |lin| < Real.pi / 2 :=
      (hgt.2.continuousAt.mul continuousAt_const).eventually_lt_const (by simp only [Pi.mul_apply]; rw [show (g t).x = th.x from hgt.1]; exact hlin)
    by_cases h : th.x > 1e-8
    · rw [if_pos h] at hv
      have c2 : ∀ᶠ s in 𝓝 t, 1e-8 < (g s).x := hgt.2.continuousAt.eventually_const_lt (by rw [hgt.1]; exact h)
      refine ⟨fun s => cahvoreApply (os s) (lls s) (ls s) (ks s 2) (ks s 3) (ks s 4) lin (g s), ?_, ?_⟩
      · filter_upwards [hg, c1, c2] with s hs1 hs2 hs3
        rw [hs1]
        simp only []
        rw [if_neg (by linarith), if_pos hs3]
      · have hv' : cahvoreApply o ll l (k 2) (k 3) (k 4) lin th = v := by simpa using hv
        rw [← hv']
        have hchi := chi_tracks hgt h hlin
        have hcp := (chi_pos lin th.x h hlin th rfl).1
        have h2 := hchi.mul hchi
        have h4 := hchi.mul (hchi.mul h2)
        have hzp := hl.div hchi hcp.ne'
        have hmu := (((hk 2 (by omega)).add ((hk 3 (by omega)).mul h2)).add ((hk 4 (by omega)).mul h4)).addC (c := 1)
        exact ⟨(ho.x.mul hzp).add (hll.x.mul hmu), (ho.y.mul hzp).add (hll.y.mul hmu), (ho.z.mul hzp).add (hll.z.mul hmu)⟩
    · rw [if_neg h] at hv
      have c2 : ∀ᶠ s in 𝓝 t, (g s).x < 1e-8 := hgt.2.continuousAt.eventually_lt_const (by
        rw [hgt.1]; exact lt_of_le_of_ne (not_lt.mp h) h8)
      refine ⟨ps, ?_, ?_⟩
      · filter_upwards [hg, c1, c2] with s hs1 hs2 hs3
        rw [hs1]
        simp only []
        rw [if_neg (by linarith), if_neg (by linarith)]
      · have hv' : p = v := by simpa using hv
        rw [← hv']; exact hp

/-- the distorted point, as a function. Where the projection fails this is arbitrary; the theorems below are about places where it succeeds -/
noncomputable def cahvoreF3 (lin : ℝ) (d : Nat → ℝ) (p : P3) : P3 :=
  ((projectCahvoreInternals p d lin false false).map CahvoreOut.p).getD ⟨0, 0, 0⟩

/-- the velocities of the 11 variables -/
def dirs11 (D' : Nat → ℝ) (P' : P3) : Fin 11 → ℝ := fun i =>
  if i.val < 8 then D' i.val else if i.val = 8 then P'.x else if i.val = 9 then P'.y else P'.z

theorem rate11 (v : Val 11) (D' : Nat → ℝ) (P' : P3) :
    v.rate (dirs11 D' P') = (v.j 8 * P'.x + v.j 9 * P'.y + v.j 10 * P'.z) +
      (v.j 0 * D' 0 + v.j 1 * D' 1 + v.j 2 * D' 2 + v.j 3 * D' 3 + v.j 4 * D' 4 + v.j 5 * D' 5 + v.j 6 * D' 6 + v.j 7 * D' 7) := by
  simp only [Val.rate, dirs11, Fin.sum_univ_succ]
  simp
  ring_nf

theorem cols8_dot (v : Vec3 11) (f : P3 → ℝ) (D' : Nat → ℝ) :
    dotRow ((cols8 v (by omega)).map f) D' =
      f ⟨v.x.j 0, v.y.j 0, v.z.j 0⟩ * D' 0 + f ⟨v.x.j 1, v.y.j 1, v.z.j 1⟩ * D' 1 + f ⟨v.x.j 2, v.y.j 2, v.z.j 2⟩ * D' 2 +
      f ⟨v.x.j 3, v.y.j 3, v.z.j 3⟩ * D' 3 + f ⟨v.x.j 4, v.y.j 4, v.z.j 4⟩ * D' 4 + f ⟨v.x.j 5, v.y.j 5, v.z.j 5⟩ * D' 5 +
      f ⟨v.x.j 6, v.y.j 6, v.z.j 6⟩ * D' 6 + f ⟨v.x.j 7, v.y.j 7, v.z.j 7⟩ * D' 7 := by
  have e : List.finRange 8 = [0, 1, 2, 3, 4, 5, 6, 7] := by decide
  simp only [cols8, e, dotRow, List.map_cons, List.map_nil, List.zipIdx_cons, List.zipIdx_nil, List.sum_cons, List.sum_nil]
  norm_num
  simp only [add_assoc]
  rfl

/-- no discontinuity is hit exactly. In terms of the value-only computation -/
def CahvoreReg (lin : ℝ) (d : Nat → ℝ) (p : P3) : Prop := InternalsReg (N := 11) (Vec3.init p (some 8)) (initK d (some 0)) lin

theorem cahvore_tracks (lin : ℝ) (d : Nat → ℝ) (p : P3) (hreg : CahvoreReg lin d p) (v : Vec3 11)
    (hv : cahvoreInternals (N := 11) (Vec3.init p (some 8)) (initK d (some 0)) lin = some v)
    (D : ℝ → Nat → ℝ) (P : ℝ → P3) (D' : Nat → ℝ) (P' : P3) (t : ℝ) (eD : D t = d) (eP : P t = p)
    (hD : ∀ i, HasDerivAt (fun s => D s i) (D' i) t)
    (hx : HasDerivAt (fun s => (P s).x) P'.x t) (hy : HasDerivAt (fun s => (P s).y) P'.y t) (hz : HasDerivAt (fun s => (P s).z) P'.z t) :
    ∃ g : ℝ → Vec3 0, (∀ᶠ s in 𝓝 t, projectCahvoreInternals (P s) (D s) lin false false = some ⟨(g s).value, none, none⟩) ∧ VTracks v (dirs11 D' P') g t := by
  subst eD eP
  have hk : ∀ i, i < 8 → Tracks (initK (D t) (some 0) i : Val 11) (dirs11 D' P') (fun s => (initK (D s) none i : Val 0).x) t := by
    intro i hi
    refine ⟨rfl, HasDerivAt.congr_deriv (hD i) ?_⟩
    rw [rate11]
    have : i = 0 ∨ i = 1 ∨ i = 2 ∨ i = 3 ∨ i = 4 ∨ i = 5 ∨ i = 6 ∨ i = 7 := by omega
    rcases this with rfl | rfl | rfl | rfl | rfl | rfl | rfl | rfl <;> simp [initK]
  have hp : VTracks (Vec3.init (P t) (some 8) : Vec3 11) (dirs11 D' P') (fun s => Vec3.init (P s) none) t := by
    refine ⟨⟨rfl, HasDerivAt.congr_deriv hx ?_⟩, ⟨rfl, HasDerivAt.congr_deriv hy ?_⟩, ⟨rfl, HasDerivAt.congr_deriv hz ?_⟩⟩ <;>
      rw [rate11] <;> simp [Vec3.init]
  obtain ⟨g, hg, hgt⟩ := internals_tracks hp hk hreg hv
  refine ⟨g, ?_, hgt⟩
  filter_upwards [hg] with s hs
  simp only [projectCahvoreInternals, hs, Option.map_some]

/-- **C53**: the gradients of the CAHVORE distortion, through the iterative solver, are the true derivatives of what the solver returns -/
theorem cahvore_distort (lin : ℝ) (d : Nat → ℝ) (p : P3) (hreg : CahvoreReg lin d p) (o : CahvoreOut) (ho : projectCahvoreInternals p d lin true true = some o) :
    ∃ dk dp, o.dk = some dk ∧ o.dp = some dp ∧ o.p = cahvoreF3 lin d p ∧ DistortDeriv 8 (cahvoreF3 lin) d p dp dk := by
  have ho' := ho
  simp only [projectCahvoreInternals] at ho
  cases hv : cahvoreInternals (N := 11) (Vec3.init p (some 8)) (initK d (some 0)) lin with
  | none => rw [hv] at ho; exact absurd ho (by simp)
  | some v =>
    rw [hv] at ho
    have ho2 : (⟨v.value, some (cols8 v (by omega)), some (v.grad 8 (by omega))⟩ : CahvoreOut) = o := by simpa using ho
    have hp0 : o.p = cahvoreF3 lin d p := by
      unfold cahvoreF3
      rw [cahvore_wants, ho']
      rfl
    subst ho2
    refine ⟨_, _, rfl, rfl, hp0, ?_, ?_⟩
    · simp [cols8]
    · intro D P D' P' t eD eP hD hx hy hz
      obtain ⟨g, hg, hgt⟩ := cahvore_tracks lin d p hreg v hv D P D' P' t eD eP hD hx hy hz
      have hF : ∀ᶠ s in 𝓝 t, cahvoreF3 lin (D s) (P s) = (g s).value := by
        filter_upwards [hg] with s hs
        simp only [cahvoreF3, hs, Option.map_some, Option.getD_some]
      refine ⟨?_, ?_, ?_⟩
      · have h := hgt.x.2.congr_of_eventuallyEq (f₁ := fun s => (cahvoreF3 lin (D s) (P s)).x) (by filter_upwards [hF] with s hs; rw [hs]; rfl)
        refine HasDerivAt.congr_deriv h ?_
        rw [rate11, cols8_dot]
        simp only [dot3, Vec3.grad]
        rfl
      · have h := hgt.y.2.congr_of_eventuallyEq (f₁ := fun s => (cahvoreF3 lin (D s) (P s)).y) (by filter_upwards [hF] with s hs; rw [hs]; rfl)
        refine HasDerivAt.congr_deriv h ?_
        rw [rate11, cols8_dot]
        simp only [dot3, Vec3.grad]
        rfl
      · have h := hgt.z.2.congr_of_eventuallyEq (f₁ := fun s => (cahvoreF3 lin (D s) (P s)).z) (by filter_upwards [hF] with s hs; rw [hs]; rfl)
        refine HasDerivAt.congr_deriv h ?_
        rw [rate11, cols8_dot]
        simp only [dot3, Vec3.grad]
        rfl

/-- **C53**: all the gradients of the CAHVORE pixel -/
theorem cahvore_gradients (core : Core) (hfx : core.fx ≠ 0) (hfy : core.fy ≠ 0) (lin : ℝ) (d : Nat → ℝ) (p : P3) (hreg : CahvoreReg lin d p)
    (o : CahvoreOut) (ho : projectCahvoreInternals p d lin true true = some o) (hz : o.p.z ≠ 0) :
    ∃ dk dp, o.dk = some dk ∧ o.dp = some dp ∧
      TotalDeriv 8 (fun c d p => distortedQ c (cahvoreF3 lin d p)) core d p (distortedDp core ⟨o.p, dp, dk⟩)
        (dqDfxy core (distortedQ core o.p)) (distortedDk core ⟨o.p, dp, dk⟩) := by
  obtain ⟨dk, dp, e1, e2, e3, h⟩ := cahvore_distort lin d p hreg o ho
  exact ⟨dk, dp, e1, e2, distorted_gradients (D := ⟨o.p, dp, dk⟩) e3 h core hfx hfy hz⟩

/-! ### the solver -/

/-- **Specification**: the equation that defines the angle -/
noncomputable def cahvoreEqn (zeta l e0 e1 e2 th : ℝ) : ℝ :=
  zeta * Real.sin th - l * Real.cos th - (th - Real.sin th) * (e0 + e1 * th ^ 2 + e2 * th ^ 4)

theorem cahvoreF_x (c : CahvoreIn N) (th : Val N) :
    (cahvoreF c th).x = cahvoreEqn c.zeta.x c.l.x c.e0.x c.e1.x c.e2.x th.x := by
  simp only [cahvoreF, Val.sub, Val.mul, Val.add, Val.sin, Val.cos, cahvoreEqn]
  ring

/-- **C53**: `upsilon` is the derivative of the equation: this is Newton's method -/
theorem cahvore_upsilon (c : CahvoreIn N) (th : Val N) :
    HasDerivAt (cahvoreEqn c.zeta.x c.l.x c.e0.x c.e1.x c.e2.x) (cahvoreUpsilon c th).x th.x := by
  have hid := hasDerivAt_id' th.x
  have hs := Real.hasDerivAt_sin th.x
  have hc := Real.hasDerivAt_cos th.x
  have h := ((hs.const_mul c.zeta.x).sub (hc.const_mul c.l.x)).sub
    ((hid.sub hs).mul (((hasDerivAt_pow 2 th.x).const_mul c.e1.x).const_add c.e0.x |>.add ((hasDerivAt_pow 4 th.x).const_mul c.e2.x)))
  refine HasDerivAt.congr_deriv h ?_
  simp only [cahvoreUpsilon, Val.sub, Val.mul, Val.add, Val.sin, Val.cos, Val.mulC, Val.subC, Pi.sub_apply, Pi.add_apply]
  have l1 : (1.0 : ℝ) = 1 := by norm_num
  have l2 : (2.0 : ℝ) = 2 := by norm_num
  have l4 : (4.0 : ℝ) = 4 := by norm_num
  rw [l1, l2, l4]
  push_cast
  ring

/-- **C53**: a reported angle is within 1e-8 of an angle with a residual below 1e-8*|derivative| -/
theorem cahvore_converged (c : CahvoreIn N) (n : Nat) (th r : Val N) (h : cahvoreNewton c n th = some r) :
    ∃ th' : Val N, |th'.x - r.x| < 1e-8 ∧ ((cahvoreUpsilon c th').x ≠ 0 →
      |cahvoreEqn c.zeta.x c.l.x c.e0.x c.e1.x c.e2.x th'.x| < 1e-8 * |(cahvoreUpsilon c th').x|) := by
  induction n generalizing th with
  | zero => simp [cahvoreNewton] at h
  | succ n ih =>
    simp only [cahvoreNewton] at h
    split at h
    · rename_i hd
      have hr : th.sub (cahvoreDtheta c th) = r := by simpa using h
      refine ⟨th, ?_, ?_⟩
      · rw [← hr]
        simp only [Val.sub]
        rw [show th.x - (th.x - (cahvoreDtheta c th).x) = (cahvoreDtheta c th).x by ring]
        exact hd
      · intro hu
        have e : (cahvoreDtheta c th).x = (cahvoreF c th).x / (cahvoreUpsilon c th).x := rfl
        rw [e, abs_div, div_lt_iff₀ (abs_pos.mpr hu), cahvoreF_x] at hd
        exact hd
    · exact ih _ h

/-- **C53**: if the solver lands on an exact solution, then its gradient is that of the exact solution, whatever gradient the previous estimate had -/
theorem cahvore_implicit {c : CahvoreIn N} {d : Fin N → ℝ} {cs : ℝ → CahvoreIn 0} {t : ℝ} (hc : InTracks c d cs t) (Θ : ℝ → ℝ) (Θ' : ℝ)
    (hΘ : HasDerivAt Θ Θ' t) (hsol : ∀ s, cahvoreEqn (cs s).zeta.x (cs s).l.x (cs s).e0.x (cs s).e1.x (cs s).e2.x (Θ s) = 0)
    (theta : Val N) (hth : theta.x = Θ t) (hu : (cahvoreUpsilon c theta).x ≠ 0) :
    Tracks (theta.sub (cahvoreDtheta c theta)) d Θ t := by
  -- the equation, along the path, in two ways
  have hT : HasDerivAt (fun s => cahvoreEqn (cs s).zeta.x (cs s).l.x (cs s).e0.x (cs s).e1.x (cs s).e2.x (Θ s)) 0 t := by
    simp only [hsol]; exact hasDerivAt_const _ _
  have hF0 : cahvoreEqn c.zeta.x c.l.x c.e0.x c.e1.x c.e2.x theta.x = 0 := by
    have := hsol t
    rw [show (cs t).zeta.x = c.zeta.x from hc.zeta.1, show (cs t).l.x = c.l.x from hc.l.1, show (cs t).e0.x = c.e0.x from hc.e0.1,
      show (cs t).e1.x = c.e1.x from hc.e1.1, show (cs t).e2.x = c.e2.x from hc.e2.1, ← hth] at this
    exact this
  have hs := hΘ.sin
  have hcos := hΘ.cos
  have hT2 := ((hc.zeta.2.mul hs).sub (hc.l.2.mul hcos)).sub
    ((hΘ.sub hs).mul ((hc.e0.2.add (hc.e1.2.mul (hΘ.pow 2))).add (hc.e2.2.mul (hΘ.pow 4))))
  have hu' := (hT2.unique hT)
  simp only [Pi.sub_apply, Pi.add_apply, Pi.mul_apply, Pi.pow_apply] at hu'
  rw [show (cs t).zeta.x = c.zeta.x from hc.zeta.1, show (cs t).l.x = c.l.x from hc.l.1, show (cs t).e0.x = c.e0.x from hc.e0.1,
      show (cs t).e1.x = c.e1.x from hc.e1.1, show (cs t).e2.x = c.e2.x from hc.e2.1, ← hth] at hu'
  have hFx : (cahvoreF c theta).x = 0 := by rw [cahvoreF_x]; exact hF0
  refine ⟨?_, ?_⟩
  · simp only [Val.sub, cahvoreDtheta, Val.div, hFx]; rw [hth]; simp
  · -- the rate reported
    have hdt : Tracks (cahvoreDtheta c theta) d (fun s => (cahvoreDtheta (cs s) ⟨theta.x + (s - t) * theta.rate d, fun i => i.elim0⟩).x) t :=
      dtheta_tracks hc (ths := fun s => ⟨theta.x + (s - t) * theta.rate d, fun i => i.elim0⟩) ⟨by simp, by
        have h := (((hasDerivAt_id' t).sub_const t).mul_const (theta.rate d)).const_add theta.x
        exact HasDerivAt.congr_deriv h (by ring)⟩ hu
    have hFr : (cahvoreDtheta c theta).rate d = (cahvoreF c theta).rate d / (cahvoreUpsilon c theta).x := by
      unfold cahvoreDtheta
      rw [rate_lin1 (a := cahvoreF c theta) _ (1 / (cahvoreUpsilon c theta).x) (fun i => by
        simp only [Val.div, hFx]; field_simp; ring)]
      ring
    have hth2 : Tracks theta d (fun s => theta.x + (s - t) * theta.rate d) t := ⟨by simp, by
        have h := (((hasDerivAt_id' t).sub_const t).mul_const (theta.rate d)).const_add theta.x
        exact HasDerivAt.congr_deriv h (by ring)⟩
    have h2 := hth2.mul hth2
    have h4 := hth2.mul (hth2.mul h2)
    have hFt : Tracks (cahvoreF c theta) d _ t :=
      ((hc.zeta.mul hth2.sin).sub (hc.l.mul hth2.cos)).sub ((hth2.sub hth2.sin).mul ((hc.e0.add (hc.e1.mul h2)).add (hc.e2.mul h4)))
    have hs2 := hth2.2.sin
    have hc2 := hth2.2.cos
    have hF2 := ((hc.zeta.2.mul hs2).sub (hc.l.2.mul hc2)).sub
      ((hth2.2.sub hs2).mul ((hc.e0.2.add (hc.e1.2.mul (hth2.2.mul hth2.2))).add (hc.e2.2.mul (hth2.2.mul (hth2.2.mul (hth2.2.mul hth2.2))))))
    have hFu := hFt.2.unique hF2
    simp only [Pi.sub_apply, Pi.add_apply, Pi.mul_apply, sub_self, zero_mul, add_zero] at hFu
    rw [show (cs t).zeta.x = c.zeta.x from hc.zeta.1, show (cs t).l.x = c.l.x from hc.l.1, show (cs t).e0.x = c.e0.x from hc.e0.1,
      show (cs t).e1.x = c.e1.x from hc.e1.1, show (cs t).e2.x = c.e2.x from hc.e2.1] at hFu
    have hsub : (theta.sub (cahvoreDtheta c theta)).rate d = theta.rate d - (cahvoreDtheta c theta).rate d := by
      rw [rate_lin (a := theta) (b := cahvoreDtheta c theta) _ 1 (-1) (fun i => by simp only [Val.sub]; ring)]; ring
    have hUx : (cahvoreUpsilon c theta).x = c.zeta.x * Real.cos theta.x + c.l.x * Real.sin theta.x
        + (Real.cos theta.x - 1) * (c.e0.x + c.e1.x * theta.x ^ 2 + c.e2.x * theta.x ^ 4)
        - (theta.x - Real.sin theta.x) * (c.e1.x * theta.x * 2 + c.e2.x * theta.x ^ 3 * 4) := by
      have l1 : (1.0 : ℝ) = 1 := by norm_num
      have l2 : (2.0 : ℝ) = 2 := by norm_num
      have l4 : (4.0 : ℝ) = 4 := by norm_num
      simp only [cahvoreUpsilon, Val.sub, Val.mul, Val.add, Val.sin, Val.cos, Val.mulC, Val.subC, l1, l2, l4]
      ring
    have key : (theta.sub (cahvoreDtheta c theta)).rate d = Θ' := by
      rw [hsub, hFr]
      have : (cahvoreF c theta).rate d = (cahvoreUpsilon c theta).x * (theta.rate d - Θ') := by
        rw [hFu, hUx]
        push_cast at hu'
        linear_combination hu'
      rw [this]
      field_simp
      ring
    rw [key]; exact hΘ

/-! ### E=0 -/

/-- the decomposition of the point along the optical axis -/
theorem cahvoreO_value (d : Nat → ℝ) (g : Option Nat) : (cahvoreO (initK d g 0) (initK d g 1) : Vec3 N).value = cahvorO (d 0) (d 1) := by
  simp only [cahvoreO, Vec3.value, Val.mul, Val.sin, Val.cos, initK, cahvorO]
  ext <;> simp only [] <;> ring

theorem cahvorO_unit (a b : ℝ) : dot3 (cahvorO a b) (cahvorO a b) = 1 := by
  simp only [dot3, cahvorO]
  have h1 := Real.sin_sq_add_cos_sq a
  have h2 := Real.sin_sq_add_cos_sq b
  linear_combination (Real.cos b) ^ 2 * h1 + h2

/-- **Specification**: the angle between the point and the optical axis -/
noncomputable def offAxis (o p : P3) : P3 := ⟨p.x - o.x * dot3 p o, p.y - o.y * dot3 p o, p.z - o.z * dot3 p o⟩

theorem atan2_polar (l zeta : ℝ) (h : l ≠ 0 ∨ zeta ≠ 0) :
    Real.sqrt (zeta * zeta + l * l) * Real.cos (atan2 l zeta) = zeta ∧ Real.sqrt (zeta * zeta + l * l) * Real.sin (atan2 l zeta) = l := by
  have hn : ‖(⟨zeta, l⟩ : ℂ)‖ = Real.sqrt (zeta * zeta + l * l) := by
    rw [Complex.norm_def, Complex.normSq_mk]
  have hne : (⟨zeta, l⟩ : ℂ) ≠ 0 := by
    intro e
    have e1 := congrArg Complex.re e
    have e2 := congrArg Complex.im e
    simp at e1 e2
    rcases h with h | h
    · exact h e2
    · exact h e1
  unfold atan2
  have h1 := Complex.norm_mul_cos_arg (⟨zeta, l⟩ : ℂ)
  have h2 := Complex.norm_mul_sin_arg (⟨zeta, l⟩ : ℂ)
  rw [hn] at h1 h2
  exact ⟨h1, h2⟩

/-- with E=0 the initial estimate is already the solution -/
theorem newton_E0 (c : CahvoreIn N) (h0 : c.e0.x = 0) (h1 : c.e1.x = 0) (h2 : c.e2.x = 0) (hl : c.l.x ≠ 0 ∨ c.zeta.x ≠ 0) (th : Val N) (hth : th.x = atan2 c.l.x c.zeta.x) :
    (cahvoreUpsilon c th).x = Real.sqrt (c.zeta.x * c.zeta.x + c.l.x * c.l.x) ∧ 0 < (cahvoreUpsilon c th).x ∧ (cahvoreDtheta c th).x = 0 ∧
    ∀ n, 0 < n → ∃ r, cahvoreNewton c n th = some r ∧ r.x = th.x ∧ NewtonReg c n th := by
  obtain ⟨pc, ps⟩ := atan2_polar c.l.x c.zeta.x hl
  have hpos : 0 < c.zeta.x * c.zeta.x + c.l.x * c.l.x := by
    rcases hl with h | h
    · have := mul_self_pos.mpr h; have := mul_self_nonneg c.zeta.x; linarith
    · have := mul_self_pos.mpr h; have := mul_self_nonneg c.l.x; linarith
  have hsq : 0 < Real.sqrt (c.zeta.x * c.zeta.x + c.l.x * c.l.x) := Real.sqrt_pos.mpr hpos
  have hF : (cahvoreF c th).x = 0 := by
    rw [cahvoreF_x, h0, h1, h2, cahvoreEqn, hth]
    have : c.zeta.x * Real.sin (atan2 c.l.x c.zeta.x) - c.l.x * Real.cos (atan2 c.l.x c.zeta.x) = 0 := by
      apply mul_left_cancel₀ hsq.ne'
      linear_combination c.zeta.x * ps - c.l.x * pc
    rw [this]; ring
  have hU : (cahvoreUpsilon c th).x = Real.sqrt (c.zeta.x * c.zeta.x + c.l.x * c.l.x) := by
    have e : (cahvoreUpsilon c th).x = c.zeta.x * Real.cos th.x + c.l.x * Real.sin th.x := by
      simp only [cahvoreUpsilon, Val.sub, Val.mul, Val.add, Val.sin, Val.cos, Val.mulC, Val.subC, h0, h1, h2]
      generalize (1.0 : ℝ) = l1
      generalize (2.0 : ℝ) = l2
      generalize (4.0 : ℝ) = l4
      ring
    rw [e, hth]
    apply mul_left_cancel₀ hsq.ne'
    have := Real.mul_self_sqrt hpos.le
    linear_combination c.zeta.x * pc + c.l.x * ps - this
  have hd : (cahvoreDtheta c th).x = 0 := by
    simp only [cahvoreDtheta, Val.div, hF]; simp
  refine ⟨hU, hU ▸ hsq, hd, ?_⟩
  intro n hn
  obtain ⟨m, rfl⟩ : ∃ m, n = m + 1 := ⟨n - 1, by omega⟩
  refine ⟨th.sub (cahvoreDtheta c th), ?_, ?_, ?_⟩
  · simp only [cahvoreNewton, hd]
    rw [if_pos (by norm_num)]
  · simp only [Val.sub, hd]; ring
  · refine ⟨by rw [hU]; exact hsq.ne', ?_, ?_⟩
    · rw [hd]; norm_num
    · intro h; rw [hd] at h; norm_num at h

/-- **Specification**: CAHVORE with E=0, as a function of the angle from the optical axis -/
noncomputable def chiSpec (lin th : ℝ) : ℝ := if lin < -1e-15 then Real.sin (lin * th) / lin else if lin > 1e-15 then Real.tan (lin * th) / lin else th

theorem chi_x (lin : ℝ) (th : Val N) : (cahvoreChi lin th).x = chiSpec lin th.x := by
  unfold cahvoreChi chiSpec
  simp only []
  split
  · simp only [Val.divC, Val.mulC, Val.sin, mul_comm th.x lin]; ring
  · split
    · simp only [Val.divC, Val.mulC, Val.tan, mul_comm th.x lin, Real.tan_eq_sin_div_cos]; ring
    · rfl

theorem dot_value (a b : Vec3 N) : (a.dot b).x = dot3 a.value b.value := by
  simp only [Vec3.dot, Val.add, Val.mul, Val.ofR, dot3, Vec3.value]; ring

/-- the quantities computed from the point -/
theorem parts_value (p : P3) (d : Nat → ℝ) (gp gk : Option Nat) :
    let o : Vec3 N := cahvoreO (initK d gk 0) (initK d gk 1)
    let P : Vec3 N := Vec3.init p gp
    (P.dot o).x = dot3 p (cahvorO (d 0) (d 1)) ∧ (P.sub (o.mulV (P.dot o))).value = offAxis (cahvorO (d 0) (d 1)) p ∧
    (P.sub (o.mulV (P.dot o))).norm2.x = dot3 (offAxis (cahvorO (d 0) (d 1)) p) (offAxis (cahvorO (d 0) (d 1)) p) ∧
    (P.sub (o.mulV (P.dot o))).mag.x = mag3 (offAxis (cahvorO (d 0) (d 1)) p) := by
  intro o P
  have ho : o.value = cahvorO (d 0) (d 1) := cahvoreO_value d gk
  have hP : P.value = p := rfl
  have h1 : (P.dot o).x = dot3 p (cahvorO (d 0) (d 1)) := by rw [dot_value, ho, hP]
  have h2 : (P.sub (o.mulV (P.dot o))).value = offAxis (cahvorO (d 0) (d 1)) p := by
    simp only [Vec3.sub, Vec3.mulV, Vec3.value, Val.sub, Val.mul, offAxis, h1, ← ho]
    rfl
  have h3 : (P.sub (o.mulV (P.dot o))).norm2.x = dot3 (offAxis (cahvorO (d 0) (d 1)) p) (offAxis (cahvorO (d 0) (d 1)) p) := by
    rw [Vec3.norm2, dot_value, h2]
  refine ⟨h1, h2, h3, ?_⟩
  simp only [Vec3.mag, Val.sqrt, h3]
  rfl

theorem off_pythagoras (o p : P3) (hu : dot3 o o = 1) : dot3 p o * dot3 p o + mag3 (offAxis o p) * mag3 (offAxis o p) = dot3 p p := by
  rw [mag3_sq]
  simp only [offAxis]
  simp only [dot3] at hu ⊢
  linear_combination (p.x * o.x + p.y * o.y + p.z * o.z) ^ 2 * hu

/-- the point, seen from the optical axis -/
theorem cahvore_E0_gen (p : P3) (d : Nat → ℝ) (lin : ℝ) (gp gk : Option Nat) (hp : p ≠ ⟨0, 0, 0⟩) (hE : ∀ i, 5 ≤ i → i < 8 → d i = 0) :
    let o := cahvorO (d 0) (d 1)
    let l := mag3 (offAxis o p)
    let th := atan2 l (dot3 p o)
    let chi := chiSpec lin th
    let mu := d 2 + d 3 * chi ^ 2 + d 4 * chi ^ 4
    (cahvoreInternals (N := N) (Vec3.init p gp) (initK d gk) lin).map Vec3.value =
      if th * |lin| > Real.pi / 2 then none else
      if th > 1e-8 then some ⟨o.x * (l / chi) + (offAxis o p).x * (mu + 1), o.y * (l / chi) + (offAxis o p).y * (mu + 1), o.z * (l / chi) + (offAxis o p).z * (mu + 1)⟩
      else some p := by
  intro o l th chi mu
  obtain ⟨h1, h2, h3, h4⟩ := parts_value (N := N) p d gp gk
  have hov : (cahvoreO (initK d gk 0) (initK d gk 1) : Vec3 N).value = cahvorO (d 0) (d 1) := cahvoreO_value d gk
  unfold cahvoreInternals
  simp only []
  generalize cahvoreO (initK d gk 0) (initK d gk 1) = oo at *
  have hPv : (Vec3.init p gp : Vec3 N).value = p := rfl
  generalize (Vec3.init p gp : Vec3 N) = P at *
  generalize P.dot oo = zeta at *
  generalize P.sub (oo.mulV zeta) = ll at *
  generalize ll.mag = L at *
  have hlz : l ≠ 0 ∨ dot3 p o ≠ 0 := by
    by_contra hcon
    push Not at hcon
    have := off_pythagoras o p (cahvorO_unit _ _)
    have e1 : mag3 (offAxis o p) = 0 := hcon.1
    rw [e1, hcon.2] at this
    simp only [dot3] at this
    have a1 := mul_self_nonneg p.x
    have a2 := mul_self_nonneg p.y
    have a3 := mul_self_nonneg p.z
    apply hp
    ext <;> simp only [] <;> apply mul_self_eq_zero.mp <;> linarith
  obtain ⟨-, -, -, hN⟩ := newton_E0 (N := N) ⟨zeta, L, initK d gk 5, initK d gk 6, initK d gk 7⟩ (hE 5 (by omega) (by omega)) (hE 6 (by omega) (by omega))
    (hE 7 (by omega) (by omega)) (by rw [h1, h4]; exact hlz) (L.atan2 zeta) rfl
  obtain ⟨r, hr, hrx, -⟩ := hN 100 (by norm_num)
  have hrx2 : r.x = th := by rw [hrx]; simp only [Val.atan2, h1, h4]; rfl
  rw [hr]
  simp only [hrx2]
  split
  · rfl
  · split
    · simp only [Option.map_some, Option.some.injEq]
      have hc : (cahvoreChi lin r).x = chi := by rw [chi_x, hrx2]
      have ex : oo.x.x = o.x := congrArg P3.x hov
      have ey : oo.y.x = o.y := congrArg P3.y hov
      have ez : oo.z.x = o.z := congrArg P3.z hov
      have lx : ll.x.x = (offAxis o p).x := congrArg P3.x h2
      have ly : ll.y.x = (offAxis o p).y := congrArg P3.y h2
      have lz : ll.z.x = (offAxis o p).z := congrArg P3.z h2
      have hL : L.x = l := h4
      simp only [cahvoreApply, Vec3.value, Vec3.add, Vec3.mulV, Val.add, Val.mul, Val.div, Val.addC, hc, ex, ey, ez, lx, ly, lz, hL, initK, mu]
      ext <;> simp only [] <;> ring
    · simp only [Option.map_some, hPv]

/-- **C54**: what CAHVORE with E=0 is, in terms of the angle from the optical axis -/
theorem cahvore_E0 (p : P3) (d : Nat → ℝ) (lin : ℝ) (wantk wantp : Bool) (hp : p ≠ ⟨0, 0, 0⟩) (hE : ∀ i, 5 ≤ i → i < 8 → d i = 0) :
    let o := cahvorO (d 0) (d 1)
    let l := mag3 (offAxis o p)
    let th := atan2 l (dot3 p o)
    let chi := chiSpec lin th
    let mu := d 2 + d 3 * chi ^ 2 + d 4 * chi ^ 4
    (projectCahvoreInternals p d lin wantk wantp).map CahvoreOut.p =
      if th * |lin| > Real.pi / 2 then none else
      if th > 1e-8 then some ⟨o.x * (l / chi) + (offAxis o p).x * (mu + 1), o.y * (l / chi) + (offAxis o p).y * (mu + 1), o.z * (l / chi) + (offAxis o p).z * (mu + 1)⟩
      else some p := by
  intro o l th chi mu
  rw [← cahvore_E0_gen (N := 11) p d lin (some 8) (some 0) hp hE, cahvore_wants]
  simp only [projectCahvoreInternals, Option.map_map]
  rfl

theorem mag3_eq_zero {v : P3} (h : mag3 v = 0) : v = ⟨0, 0, 0⟩ := by
  have := mag3_sq v
  rw [h] at this
  have a1 := mul_self_nonneg v.x
  have a2 := mul_self_nonneg v.y
  have a3 := mul_self_nonneg v.z
  ext <;> simp only [] <;> apply mul_self_eq_zero.mp <;> linarith

theorem atan2_pos_tan (l zeta : ℝ) (hz : 0 < zeta) (hl : 0 ≤ l) :
    Real.tan (atan2 l zeta) = l / zeta ∧ 0 ≤ atan2 l zeta ∧ atan2 l zeta < Real.pi / 2 := by
  unfold atan2
  refine ⟨?_, ?_, ?_⟩
  · rw [Complex.tan_arg]
  · rw [Complex.arg_nonneg_iff]; exact hl
  · have := (Complex.abs_arg_lt_pi_div_two_iff (z := ⟨zeta, l⟩)).mpr (Or.inl hz)
    exact (abs_lt.mp this).2

/-- **C54**: CAHVORE with E=0 and linearity=1 is CAHVOR: for points in front of the camera along the optical axis, on this axis or more than 1e-8 radians from it -/
theorem cahvore_cahvor (p : P3) (d : Nat → ℝ) (wantk wantp : Bool) (hE : ∀ i, 5 ≤ i → i < 8 → d i = 0)
    (hz : 0 < dot3 p (cahvorO (d 0) (d 1)))
    (hth : offAxis (cahvorO (d 0) (d 1)) p = ⟨0, 0, 0⟩ ∨ 1e-8 < atan2 (mag3 (offAxis (cahvorO (d 0) (d 1)) p)) (dot3 p (cahvorO (d 0) (d 1)))) :
    (projectCahvoreInternals p d 1 wantk wantp).map CahvoreOut.p = some (cahvorDistort d p).p := by
  have hp : p ≠ ⟨0, 0, 0⟩ := by
    intro e; rw [e] at hz; simp [dot3] at hz
  rw [cahvore_E0 p d 1 wantk wantp hp hE]
  have hpy := off_pythagoras (cahvorO (d 0) (d 1)) p (cahvorO_unit _ _)
  obtain ⟨ht, h0, hpi⟩ := atan2_pos_tan (mag3 (offAxis (cahvorO (d 0) (d 1)) p)) _ hz (mag3_nonneg _)
  have hnp : ¬ (atan2 (mag3 (offAxis (cahvorO (d 0) (d 1)) p)) (dot3 p (cahvorO (d 0) (d 1))) * |(1 : ℝ)| > Real.pi / 2) := by
    rw [abs_one, mul_one]; linarith
  have hchi : chiSpec 1 (atan2 (mag3 (offAxis (cahvorO (d 0) (d 1)) p)) (dot3 p (cahvorO (d 0) (d 1)))) =
      mag3 (offAxis (cahvorO (d 0) (d 1)) p) / dot3 p (cahvorO (d 0) (d 1)) := by
    unfold chiSpec
    rw [if_neg (by norm_num), if_pos (by norm_num), one_mul, ht, div_one]
  simp only [if_neg hnp, hchi]
  have eom : (cahvorState d p).omega = dot3 p (cahvorO (d 0) (d 1)) := rfl
  have etau : (cahvorState d p).tau = (mag3 (offAxis (cahvorO (d 0) (d 1)) p) / dot3 p (cahvorO (d 0) (d 1))) ^ 2 := by
    simp only [cahvorState, lit1]
    rw [← hpy]
    field_simp
    ring
  have emu : (cahvorState d p).mu = d 2 + (cahvorState d p).tau * d 3 + (cahvorState d p).tau * (cahvorState d p).tau * d 4 := rfl
  have ed : (cahvorDistort d p).p = ⟨p.x + (cahvorState d p).mu * (p.x - (cahvorState d p).omega * (cahvorO (d 0) (d 1)).x),
      p.y + (cahvorState d p).mu * (p.y - (cahvorState d p).omega * (cahvorO (d 0) (d 1)).y),
      p.z + (cahvorState d p).mu * (p.z - (cahvorState d p).omega * (cahvorO (d 0) (d 1)).z)⟩ := rfl
  rw [ed, emu, etau, eom]
  rcases hth with hz0 | hth
  · have hm : mag3 (offAxis (cahvorO (d 0) (d 1)) p) = 0 := by rw [hz0]; simp [mag3]
    have hth0 : ¬ atan2 (mag3 (offAxis (cahvorO (d 0) (d 1)) p)) (dot3 p (cahvorO (d 0) (d 1))) > 1e-8 := by
      rw [hm]
      have : atan2 0 (dot3 p (cahvorO (d 0) (d 1))) = 0 := by
        unfold atan2; rw [Complex.arg_eq_zero_iff]; exact ⟨hz.le, rfl⟩
      rw [this]; norm_num
    rw [if_neg hth0]
    have kx : p.x - (cahvorO (d 0) (d 1)).x * dot3 p (cahvorO (d 0) (d 1)) = 0 := congrArg P3.x hz0
    have ky : p.y - (cahvorO (d 0) (d 1)).y * dot3 p (cahvorO (d 0) (d 1)) = 0 := congrArg P3.y hz0
    have kz : p.z - (cahvorO (d 0) (d 1)).z * dot3 p (cahvorO (d 0) (d 1)) = 0 := congrArg P3.z hz0
    rw [mul_comm] at kx ky kz
    rw [kx, ky, kz]
    ext <;> simp
  · rw [if_pos hth]
    have hm : mag3 (offAxis (cahvorO (d 0) (d 1)) p) ≠ 0 := by
      intro hm
      rw [hm] at hth
      have : atan2 0 (dot3 p (cahvorO (d 0) (d 1))) = 0 := by
        unfold atan2; rw [Complex.arg_eq_zero_iff]; exact ⟨hz.le, rfl⟩
      rw [this] at hth; norm_num at hth
    have hzz := hz.ne'
    have e : mag3 (offAxis (cahvorO (d 0) (d 1)) p) / (mag3 (offAxis (cahvorO (d 0) (d 1)) p) / dot3 p (cahvorO (d 0) (d 1))) = dot3 p (cahvorO (d 0) (d 1)) := by
      field_simp
    rw [e]
    simp only [offAxis, Option.some.injEq]
    generalize mag3 _ / _ = k
    ext <;> simp only [] <;> ring

/-- **C54**: CAHVORE with E=0 is central: the distorted point scales with the point -/
theorem cahvore_central (p : P3) (d : Nat → ℝ) (lin : ℝ) (wantk wantp : Bool) (a : ℝ) (ha : 0 < a) (hp : p ≠ ⟨0, 0, 0⟩) (hE : ∀ i, 5 ≤ i → i < 8 → d i = 0) :
    (projectCahvoreInternals ⟨a * p.x, a * p.y, a * p.z⟩ d lin wantk wantp).map CahvoreOut.p =
      ((projectCahvoreInternals p d lin wantk wantp).map CahvoreOut.p).map fun v => ⟨a * v.x, a * v.y, a * v.z⟩ := by
  have hp' : (⟨a * p.x, a * p.y, a * p.z⟩ : P3) ≠ ⟨0, 0, 0⟩ := by
    intro e
    apply hp
    simp only [P3.mk.injEq, mul_eq_zero, ha.ne', false_or] at e
    ext <;> simp [e]
  rw [cahvore_E0 _ d lin wantk wantp hp' hE, cahvore_E0 p d lin wantk wantp hp hE]
  generalize cahvorO (d 0) (d 1) = o
  have e1 : dot3 ⟨a * p.x, a * p.y, a * p.z⟩ o = a * dot3 p o := by simp only [dot3]; ring
  have e2 : offAxis o ⟨a * p.x, a * p.y, a * p.z⟩ = ⟨a * (offAxis o p).x, a * (offAxis o p).y, a * (offAxis o p).z⟩ := by
    simp only [offAxis, e1]; ext <;> simp only [] <;> ring
  have e3 : mag3 (⟨a * (offAxis o p).x, a * (offAxis o p).y, a * (offAxis o p).z⟩ : P3) = a * mag3 (offAxis o p) := by
    unfold mag3
    simp only []
    rw [show a * (offAxis o p).x * (a * (offAxis o p).x) + a * (offAxis o p).y * (a * (offAxis o p).y) + a * (offAxis o p).z * (a * (offAxis o p).z) =
      a ^ 2 * ((offAxis o p).x * (offAxis o p).x + (offAxis o p).y * (offAxis o p).y + (offAxis o p).z * (offAxis o p).z) by ring]
    rw [Real.sqrt_mul (by positivity), Real.sqrt_sq ha.le]
  have e4 : atan2 (a * mag3 (offAxis o p)) (a * dot3 p o) = atan2 (mag3 (offAxis o p)) (dot3 p o) := by
    unfold atan2
    rw [← Complex.arg_real_mul ⟨dot3 p o, mag3 (offAxis o p)⟩ ha]
    congr 1
    apply Complex.ext <;> simp
  simp only [e1, e2, e3, e4]
  split
  · rfl
  · split
    · simp only [Option.map_some, Option.some.injEq]
      ext <;> simp only [] <;> ring
    · rfl

/-- **C54**: so the pixel depends only on the direction -/
theorem cahvore_central_q (core : Core) (p : P3) (d : Nat → ℝ) (lin : ℝ) (a : ℝ) (ha : 0 < a) (hp : p ≠ ⟨0, 0, 0⟩) (hE : ∀ i, 5 ≤ i → i < 8 → d i = 0) :
    cahvoreQ core lin d ⟨a * p.x, a * p.y, a * p.z⟩ = cahvoreQ core lin d p := by
  have h := cahvore_central p d lin false false a ha hp hE
  have e : ∀ q, cahvoreQ core lin d q = ((projectCahvoreInternals q d lin false false).map CahvoreOut.p).map (distortedQ core) := by
    intro q; simp only [cahvoreQ, Option.map_map]; rfl
  rw [e, e, h, Option.map_map]
  congr 1
  funext v
  simp only [Function.comp, distortedQ]
  have ha' := ha.ne'
  by_cases hz : v.z = 0
  · simp [hz]
  · ext <;> simp only [] <;> field_simp

/-- **C54**: with E=0 and no radial distortion either, and linearity=1, CAHVORE is the pinhole model -/
theorem cahvore_pinhole (core : Core) (p : P3) (d : Nat → ℝ) (h : ∀ i, 2 ≤ i → i < 8 → d i = 0) (hz : 0 < dot3 p (cahvorO (d 0) (d 1))) (hpz : p.z ≠ 0) 
    (hth : offAxis (cahvorO (d 0) (d 1)) p = ⟨0, 0, 0⟩ ∨ 1e-8 < atan2 (mag3 (offAxis (cahvorO (d 0) (d 1)) p)) (dot3 p (cahvorO (d 0) (d 1)))) :
    cahvoreQ core 1 d p = some (pinhole core p).q := by
  have k := cahvore_cahvor p d false false (fun i h1 h2 => h i (by omega) h2) hz hth
  have e : cahvoreQ core 1 d p = ((projectCahvoreInternals p d 1 false false).map CahvoreOut.p).map (distortedQ core) := by
    simp only [cahvoreQ, Option.map_map]; rfl
  rw [e, k, Option.map_some]
  exact congrArg some (cahvor_zero core d p hz.ne' hpz (fun i h1 h2 => h i h1 (by omega)))

/-- with E=0 all the differentiability conditions of the solver hold -/
theorem cahvore_reg_E0 (p : P3) (d : Nat → ℝ) (lin : ℝ) (hE : ∀ i, 5 ≤ i → i < 8 → d i = 0)
    (hoff : offAxis (cahvorO (d 0) (d 1)) p ≠ ⟨0, 0, 0⟩)
    (h1 : atan2 (mag3 (offAxis (cahvorO (d 0) (d 1)) p)) (dot3 p (cahvorO (d 0) (d 1))) * |lin| < Real.pi / 2)
    (h2 : atan2 (mag3 (offAxis (cahvorO (d 0) (d 1)) p)) (dot3 p (cahvorO (d 0) (d 1))) ≠ 1e-8) :
    CahvoreReg lin d p := by
  obtain ⟨k1, k2, k3, k4⟩ := parts_value (N := 11) p d (some 8) (some 0)
  have hm : mag3 (offAxis (cahvorO (d 0) (d 1)) p) ≠ 0 := fun e => hoff (mag3_eq_zero e)
  obtain ⟨-, -, -, hN⟩ := newton_E0 (N := 11) ⟨_, _, initK d (some 0) 5, initK d (some 0) 6, initK d (some 0) 7⟩ (hE 5 (by omega) (by omega)) (hE 6 (by omega) (by omega))
    (hE 7 (by omega) (by omega)) (Or.inl (by simp only []; rw [k4]; exact hm)) (Val.atan2 _ _) rfl
  obtain ⟨r, hr, hrx, hreg⟩ := hN 100 (by norm_num)
  refine ⟨?_, hreg, ?_⟩
  · rw [k3]
    have := mag3_sq (offAxis (cahvorO (d 0) (d 1)) p)
    have hp : 0 < mag3 (offAxis (cahvorO (d 0) (d 1)) p) * mag3 (offAxis (cahvorO (d 0) (d 1)) p) := mul_self_pos.mpr hm
    rw [this] at hp
    exact hp
  · intro th hth
    rw [hth] at hr
    have e : th = r := by simpa using hr
    have : th.x = atan2 (mag3 (offAxis (cahvorO (d 0) (d 1)) p)) (dot3 p (cahvorO (d 0) (d 1))) := by
      rw [e, hrx]; simp only [Val.atan2, k1, k4]
    rw [this]
    exact ⟨h1, h2⟩

/-- **C55**, deviation: the projection says that it sets all gradients to 0 on failure; the gradients of the y coordinate keep whatever was in the buffer -/
theorem cahvore_fail_not_zero : ∃ prev : Project.Out, (cahvoreFail prev).dtframe ≠ ⟨⟨0, 0, 0⟩, ⟨0, 0, 0⟩⟩ ∧ (cahvoreFail prev).drcamera ≠ ⟨⟨0, 0, 0⟩, ⟨0, 0, 0⟩⟩ := by
  refine ⟨⟨⟨0, 0⟩, ⟨⟨0, 0, 0⟩, ⟨1, 0, 0⟩⟩, ⟨⟨0, 0, 0⟩, ⟨0, 0, 0⟩⟩, ⟨⟨0, 0, 0⟩, ⟨0, 0, 0⟩⟩, ⟨⟨0, 0, 0⟩, ⟨0, 0, 1⟩⟩, ⟨0, 0⟩, ⟨0, 0⟩⟩, ?_, ?_⟩ <;> simp [cahvoreFail]

/-- **C55**: the part that does hold on failure: the pixel is 0, and so are the gradients of its x coordinate -/
theorem cahvore_fail_partial (prev : Project.Out) :
    (cahvoreFail prev).q = ⟨0, 0⟩ ∧ (cahvoreFail prev).drcamera.x = ⟨0, 0, 0⟩ ∧ (cahvoreFail prev).dtcamera.x = ⟨0, 0, 0⟩ ∧
    (cahvoreFail prev).drframe.x = ⟨0, 0, 0⟩ ∧ (cahvoreFail prev).dtframe.x = ⟨0, 0, 0⟩ := ⟨rfl, rfl, rfl, rfl, rfl⟩

/-! ### a concrete case: p = (1,0,1), 45 degrees off the axis -/

theorem ex_parts : cahvorO 0 0 = ⟨0, 0, 1⟩ ∧ offAxis ⟨0, 0, 1⟩ ⟨1, 0, 1⟩ = ⟨1, 0, 0⟩ ∧ mag3 ⟨1, 0, 0⟩ = 1 ∧ dot3 ⟨1, 0, 1⟩ ⟨0, 0, 1⟩ = 1 ∧ atan2 1 1 = Real.pi / 4 := by
  refine ⟨by simp [cahvorO], by simp [offAxis, dot3], by simp [mag3], by simp [dot3], ?_⟩
  unfold atan2
  rw [Complex.arg_of_re_nonneg (by simp)]
  have hn : ‖(⟨1, 1⟩ : ℂ)‖ = Real.sqrt 2 := by rw [Complex.norm_def, Complex.normSq_mk]; norm_num
  rw [hn]
  have : (⟨1, 1⟩ : ℂ).im / Real.sqrt 2 = Real.sin (Real.pi / 4) := by
    rw [Real.sin_pi_div_four]
    have h2 : Real.sqrt 2 * Real.sqrt 2 = 2 := Real.mul_self_sqrt (by norm_num)
    have h0 : Real.sqrt 2 ≠ 0 := by positivity
    field_simp
    nlinarith
  rw [this, Real.arcsin_sin] <;> linarith [Real.pi_pos]

/-- alpha=beta=0, R=(0.1, 0.2, 0.3), E=0 -/
noncomputable def exD : Nat → ℝ := fun i => if i = 2 then 0.1 else if i = 3 then 0.2 else if i = 4 then 0.3 else 0

theorem ex_E : ∀ i, 5 ≤ i → i < 8 → exD i = 0 := by
  intro i h1 h2; unfold exD; rw [if_neg (by omega), if_neg (by omega), if_neg (by omega)]

/-- the hypotheses of `cahvore_gradients`, `cahvore_cahvor` are met -/
example : CahvoreReg 0.5 exD ⟨1, 0, 1⟩ := by
  obtain ⟨a, b, c, e, f⟩ := ex_parts
  have e0 : exD 0 = 0 := by simp [exD]
  have e1 : exD 1 = 0 := by simp [exD]
  have := Real.pi_gt_three
  apply cahvore_reg_E0 _ _ _ ex_E
  · rw [e0, e1, a, b]; simp
  · rw [e0, e1, a, b, c, e, f, abs_of_pos (by norm_num)]; norm_num; linarith
  · rw [e0, e1, a, b, c, e, f]; intro h; norm_num at h; linarith

example : 0 < dot3 ⟨1, 0, 1⟩ (cahvorO (exD 0) (exD 1)) ∧ 1e-8 < atan2 (mag3 (offAxis (cahvorO (exD 0) (exD 1)) ⟨1, 0, 1⟩)) (dot3 ⟨1, 0, 1⟩ (cahvorO (exD 0) (exD 1))) := by
  obtain ⟨a, b, c, e, f⟩ := ex_parts
  have e0 : exD 0 = 0 := by simp [exD]
  have e1 : exD 1 = 0 := by simp [exD]
  have := Real.pi_gt_three
  rw [e0, e1, a, b, c, e, f]
  constructor
  · norm_num
  · norm_num; linarith

end Mrcal.Cam
