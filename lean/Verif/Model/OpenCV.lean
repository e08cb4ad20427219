import Verif.Model.Cameras
/-
The OpenCV projections: opencv.c:52-156, and the dq_dfxy of mrcal.c:1421-1432
-/
namespace Mrcal.Cam

/-- `double k[12] = {}; for(i<Nintrinsics-4) k[i] = intrinsics[i+4];` opencv.c:67-69. `n` is Nintrinsics-4 -/
def padK (n : Nat) (d : Nat → ℝ) : Nat → ℝ := fun i => if i < n then d i else 0

/-- what's computed at each point: opencv.c:73-90 -/
structure OcvState where
  z_recip : ℝ
  x : ℝ
  y : ℝ
  r2 : ℝ
  r4 : ℝ
  r6 : ℝ
  a1 : ℝ
  a2 : ℝ
  a3 : ℝ
  cdist : ℝ
  icdist2 : ℝ
  xd : ℝ
  yd : ℝ

/-- opencv.c:73-87 -/
noncomputable def ocv (k : Nat → ℝ) (p : P3) : OcvState :=
  let z_recip := 1 / p.z
  let x := p.x * z_recip
  let y := p.y * z_recip
  let r2 := x * x + y * y
  let r4 := r2 * r2
  let r6 := r4 * r2
  let a1 := 2 * x * y
  let a2 := r2 + 2 * x * x
  let a3 := r2 + 2 * y * y
  let cdist := 1 + k 0 * r2 + k 1 * r4 + k 4 * r6
  let icdist2 := 1 / (1 + k 5 * r2 + k 6 * r4 + k 7 * r6)
  let xd := x * cdist * icdist2 + k 2 * a1 + k 3 * a2 + k 8 * r2 + k 9 * r4
  let yd := y * cdist * icdist2 + k 2 * a3 + k 3 * a1 + k 10 * r2 + k 11 * r4
  ⟨z_recip, x, y, r2, r4, r6, a1, a2, a3, cdist, icdist2, xd, yd⟩

/-- opencv.c:89-90 -/
noncomputable def ocvQ (c : Core) (k : Nat → ℝ) (p : P3) : P2 :=
  let s := ocv k p
  ⟨s.xd * c.fx + c.cx, s.yd * c.fy + c.cy⟩

/-- one iteration of the loop over `j` opencv.c:95-110: `dx`, `dy` are `dx_dp[j]`, `dy_dp[j]`. The two rows -/
noncomputable def ocvDp1 (c : Core) (k : Nat → ℝ) (s : OcvState) (dx dy : ℝ) : P2 :=
  let dr2_dp := 2 * s.x * dx + 2 * s.y * dy
  let dcdist_dp := k 0 * dr2_dp + 2 * k 1 * s.r2 * dr2_dp + 3 * k 4 * s.r4 * dr2_dp
  let dicdist2_dp := -s.icdist2 * s.icdist2 * (k 5 * dr2_dp + 2 * k 6 * s.r2 * dr2_dp + 3 * k 7 * s.r4 * dr2_dp)
  let da1_dp := 2 * (s.x * dy + s.y * dx)
  let dmx_dp := dx * s.cdist * s.icdist2 + s.x * dcdist_dp * s.icdist2 + s.x * s.cdist * dicdist2_dp +
                k 2 * da1_dp + k 3 * (dr2_dp + 4 * s.x * dx) + k 8 * dr2_dp + 2 * s.r2 * k 9 * dr2_dp
  let dmy_dp := dy * s.cdist * s.icdist2 + s.y * dcdist_dp * s.icdist2 + s.y * s.cdist * dicdist2_dp +
                k 2 * (dr2_dp + 4 * s.y * dy) + k 3 * da1_dp + k 10 * dr2_dp + 2 * s.r2 * k 11 * dr2_dp
  ⟨c.fx * dmx_dp, c.fy * dmy_dp⟩

/-- `dq_dp` opencv.c:92-111 -/
noncomputable def ocvDp (c : Core) (k : Nat → ℝ) (p : P3) : P3 × P3 :=
  let s := ocv k p
  let j0 := ocvDp1 c k s s.z_recip 0
  let j1 := ocvDp1 c k s 0 s.z_recip
  let j2 := ocvDp1 c k s (-s.x * s.z_recip) (-s.y * s.z_recip)
  (⟨j0.x, j1.x, j2.x⟩, ⟨j0.y, j1.y, j2.y⟩)

/-- `dq_dintrinsics_nocore` opencv.c:112-153: the columns that are written, in order. Each is (row 0, row 1). -/
noncomputable def ocvDk (n : Nat) (c : Core) (k : Nat → ℝ) (p : P3) : List P2 :=
  let s := ocv k p
  [⟨c.fx * s.x * s.icdist2 * s.r2, c.fy * (s.y * s.icdist2 * s.r2)⟩,
   ⟨c.fx * s.x * s.icdist2 * s.r4, c.fy * s.y * s.icdist2 * s.r4⟩] ++
  if n > 2 then
    [⟨c.fx * s.a1, c.fy * s.a3⟩,
     ⟨c.fx * s.a2, c.fy * s.a1⟩] ++
    if n > 4 then
      [⟨c.fx * s.x * s.icdist2 * s.r6, c.fy * s.y * s.icdist2 * s.r6⟩] ++
      if n > 5 then
        [⟨c.fx * s.x * s.cdist * (-s.icdist2) * s.icdist2 * s.r2, c.fy * s.y * s.cdist * (-s.icdist2) * s.icdist2 * s.r2⟩,
         ⟨c.fx * s.x * s.cdist * (-s.icdist2) * s.icdist2 * s.r4, c.fy * s.y * s.cdist * (-s.icdist2) * s.icdist2 * s.r4⟩,
         ⟨c.fx * s.x * s.cdist * (-s.icdist2) * s.icdist2 * s.r6, c.fy * s.y * s.cdist * (-s.icdist2) * s.icdist2 * s.r6⟩] ++
        if n > 8 then
          [⟨c.fx * s.r2, c.fy * 0⟩,
           ⟨c.fx * s.r4, c.fy * 0⟩,
           ⟨c.fx * 0, c.fy * s.r2⟩,
           ⟨c.fx * 0, c.fy * s.r4⟩]
        else []
      else []
    else []
  else []

/-- the gradient with respect to the focal lengths: `dq_dfxy` mrcal.c:1421-1432 -/
noncomputable def dqDfxy (c : Core) (q : P2) : P2 := ⟨(q.x - c.cx) / c.fx, (q.y - c.cy) / c.fy⟩

end Mrcal.Cam
