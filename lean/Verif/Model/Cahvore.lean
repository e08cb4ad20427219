import Verif.Model.Autodiff
import Verif.Model.Cahvor
import Verif.Model.Project
/-
LENSMODEL_CAHVORE: cahvore.cc, and project_cahvore() mrcal.c:1243-1347. Arithmetic is exact: `double` is ℝ. The gradients come from the automatic
differentiation, through the Newton iteration.
-/
namespace Mrcal.Cam
open AD

/-- what the Newton iteration needs: cahvore.cc:57-81 -/
structure CahvoreIn (N : Nat) where
  zeta : Val N
  l : Val N
  e0 : Val N
  e1 : Val N
  e2 : Val N

variable {N : Nat}

/-- the optical axis: cahvore.cc:53-59 -/
noncomputable def cahvoreO (alpha beta : Val N) : Vec3 N :=
  ⟨beta.cos.mul alpha.sin, beta.sin, beta.cos.mul alpha.cos⟩

/-- `upsilon`: cahvore.cc:88-97 -/
noncomputable def cahvoreUpsilon (c : CahvoreIn N) (theta : Val N) : Val N :=
  let theta2 := theta.mul theta
  let theta3 := theta.mul theta2
  let theta4 := theta.mul theta3
  (((c.zeta.mul theta.cos).add (c.l.mul theta.sin)).add
    ((theta.cos.subC 1.0).mul ((c.e0.add (c.e1.mul theta2)).add (c.e2.mul theta4)))).sub
    ((theta.sub theta.sin).mul (((c.e1.mul theta).mulC 2.0).add ((c.e2.mul theta3).mulC 4.0)))

/-- the numerator of `dtheta`: cahvore.cc:100-102 -/
noncomputable def cahvoreF (c : CahvoreIn N) (theta : Val N) : Val N :=
  let theta2 := theta.mul theta
  let theta3 := theta.mul theta2
  let theta4 := theta.mul theta3
  ((c.zeta.mul theta.sin).sub (c.l.mul theta.cos)).sub
    ((theta.sub theta.sin).mul ((c.e0.add (c.e1.mul theta2)).add (c.e2.mul theta4)))

/-- `dtheta`: cahvore.cc:99-102 -/
noncomputable def cahvoreDtheta (c : CahvoreIn N) (theta : Val N) : Val N :=
  (cahvoreF c theta).div (cahvoreUpsilon c theta)

/-- the loop: cahvore.cc:83-114. The fuel is `inewton`. `none` is "too many iterations" -/
noncomputable def cahvoreNewton (c : CahvoreIn N) : Nat → Val N → Option (Val N)
  | 0, _ => none
  | n + 1, theta =>
    let dtheta := cahvoreDtheta c theta
    let theta' := theta.sub dtheta
    if |dtheta.x| < 1e-8 then some theta' else cahvoreNewton c n theta'

/-- `chi`: cahvore.cc:129-136 -/
noncomputable def cahvoreChi (lin : ℝ) (theta : Val N) : Val N :=
  let linth := theta.mulC lin
  if lin < -1e-15 then linth.sin.divC lin
  else if lin > 1e-15 then linth.tan.divC lin
  else theta

/-- the distorted point, given theta: cahvore.cc:128-148 -/
noncomputable def cahvoreApply (o ll : Vec3 N) (l r0 r1 r2 : Val N) (lin : ℝ) (theta : Val N) : Vec3 N :=
  let chi := cahvoreChi lin theta
  let chi2 := chi.mul chi
  let chi3 := chi.mul chi2
  let chi4 := chi.mul chi3
  let zetap := l.div chi
  let mu := (r0.add (r1.mul chi2)).add (r2.mul chi4)
  (o.mulV zetap).add (ll.mulV (mu.addC 1))

/-- `_project_cahvore_internals()`: cahvore.cc:19-153. `k` is alpha,beta,r0,r1,r2,e0,e1,e2. `none` is `return false` -/
noncomputable def cahvoreInternals (p : Vec3 N) (k : Nat → Val N) (lin : ℝ) : Option (Vec3 N) :=
  let o := cahvoreO (k 0) (k 1)
  let zeta := p.dot o
  let u := o.mulV zeta
  let ll := p.sub u
  let l := ll.mag
  match cahvoreNewton ⟨zeta, l, k 5, k 6, k 7⟩ 100 (l.atan2 zeta) with
  | none => none
  | some theta =>
    if theta.x * |lin| > Real.pi / 2 then none
    else if theta.x > 1e-8 then some (cahvoreApply o ll l (k 2) (k 3) (k 4) lin theta)
    else some p

/-- `init_vars(intrinsics_nocore, 0,8, i_gradvec0)` -/
def initK (d : Nat → ℝ) (g : Option Nat) (k : Nat) : Val N :=
  ⟨d k, fun i => match g with
    | none => 0
    | some g => if i.val = g + k then 1 else 0⟩

/-- what `project_cahvore_internals()` produces: the distorted point and the gradients that were asked for. `dk`: a column per parameter -/
structure CahvoreOut where
  p : P3
  dk : Option (List P3)
  dp : Option (P3 × P3 × P3)

/-- the columns `i_gradvec0 .. i_gradvec0+7`: `extract_grad(dpdistorted_dintrinsics_nocore, 0,8, 0, 8 doubles per row, ...)` cahvore.cc:245-250, 286-291 -/
def cols8 (v : Vec3 N) (h : 8 ≤ N) : List P3 :=
  (List.finRange 8).map fun i => ⟨v.x.j ⟨i.val, by omega⟩, v.y.j ⟨i.val, by omega⟩, v.z.j ⟨i.val, by omega⟩⟩

/-- `project_cahvore_internals()`: cahvore.cc:156-304 -/
noncomputable def projectCahvoreInternals (p : P3) (d : Nat → ℝ) (lin : ℝ) (wantk wantp : Bool) : Option CahvoreOut :=
  match wantk, wantp with
  | false, false => (cahvoreInternals (N := 0) (Vec3.init p none) (initK d none) lin).map fun v => ⟨v.value, none, none⟩
  | false, true => (cahvoreInternals (N := 3) (Vec3.init p (some 0)) (initK d none) lin).map fun v =>
      ⟨v.value, none, some (v.grad 0 (by omega))⟩
  | true, false => (cahvoreInternals (N := 8) (Vec3.init p none) (initK d (some 0)) lin).map fun v =>
      ⟨v.value, some (cols8 v (by omega)), none⟩
  | true, true => (cahvoreInternals (N := 11) (Vec3.init p (some 8)) (initK d (some 0)) lin).map fun v =>
      ⟨v.value, some (cols8 v (by omega)), some (v.grad 8 (by omega))⟩

/-- the pixel: mrcal.c:1291-1297. `none`: the projection failed -/
noncomputable def cahvoreQ (c : Core) (lin : ℝ) (d : Nat → ℝ) (p : P3) : Option P2 :=
  (projectCahvoreInternals p d lin false false).map fun o => distortedQ c o.p

/-- What `_project_point()` does with the caller's buffers if the CAHVORE projection fails: mrcal.c:2503-2512. `sizeof(*dq_drcamera)` is the size of one row; there are two.
The warp is then computed from `dq_dtframe` as usual: mrcal.c:2528-2540. That isn't modelled: `dwarpx`, `dwarpy` are left alone here -/
def cahvoreFail (prev : Project.Out) : Project.Out :=
  { prev with
    q := ⟨0, 0⟩
    drcamera := { prev.drcamera with x := ⟨0, 0, 0⟩ }
    dtcamera := { prev.dtcamera with x := ⟨0, 0, 0⟩ }
    drframe := { prev.drframe with x := ⟨0, 0, 0⟩ }
    dtframe := { prev.dtframe with x := ⟨0, 0, 0⟩ } }

end Mrcal.Cam
