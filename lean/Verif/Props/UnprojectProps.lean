import Verif.Props.ProjectApiProps

/-! # C58, C59: mrcal_unproject() -/

namespace Mrcal.Cam
open Mrcal.Project

/-! ### specification -/

/-- the squared distance between two pixels -/
def dist2 (a b : P2) : ℝ := (a.x - b.x) ^ 2 + (a.y - b.y) ^ 2

/-- what the nonlinear solver promises, if it doesn't fail: it reports the squared norm of the residuals at the point it returns -/
def SolverReports (solve : Solver) : Prop := ∀ X J u0, (solve X J u0).2 = (X (solve X J u0).1).x ^ 2 + (X (solve X J u0).1).y ^ 2

/-- the result was marked as invalid -/
def IsInvalid (o : NanP3) : Prop := o.x = none ∧ o.y = none

/-- these have a direct inverse -/
def isDirect : Lens → Bool
  | .pinhole | .stereographic | .lonlat | .latlon => true
  | _ => false

def isCahvore : Lens → Bool
  | .cahvore _ => true
  | _ => false

/-! ### helpers -/

theorem hyp_q (L : Lens) (hv : ValidLens L) (intr : Int → ℝ) (v : P3) : (hypothesis L intr v).q = pix L intr v := by
  have := lensOut_q L hv intr v
  unfold pix hypothesis
  rw [← this]
  cases lensOut L intr v <;> rfl

theorem ocvQ_neg (c : Core) (k : Nat → ℝ) (v : P3) : ocvQ c k ⟨v.x * -1.0, v.y * -1.0, v.z * -1.0⟩ = ocvQ c k v := by
  have h1 : (⟨v.x * -1.0, v.y * -1.0, v.z * -1.0⟩ : P3) = ⟨-v.x, -v.y, -v.z⟩ := by ext <;> norm_num
  rw [h1]
  simp only [ocvQ, ocv, one_div, inv_neg, neg_mul_neg]

theorem cahvorQ_neg (c : Core) (d : Nat → ℝ) (v : P3) : cahvorQ c d ⟨v.x * -1.0, v.y * -1.0, v.z * -1.0⟩ = cahvorQ c d v := by
  have h1 : (⟨v.x * -1.0, v.y * -1.0, v.z * -1.0⟩ : P3) = ⟨-v.x, -v.y, -v.z⟩ := by ext <;> norm_num
  rw [h1]
  have hom : dot3 ⟨-v.x, -v.y, -v.z⟩ (cahvorO (d 0) (d 1)) = -dot3 v (cahvorO (d 0) (d 1)) := by simp only [dot3]; ring
  have hn : dot3 ⟨-v.x, -v.y, -v.z⟩ ⟨-v.x, -v.y, -v.z⟩ = dot3 v v := by simp only [dot3]; ring
  have hs : (cahvorState d ⟨-v.x, -v.y, -v.z⟩).mu = (cahvorState d v).mu := by
    simp only [cahvorState, hom, hn, div_neg]
    generalize (1.0 : ℝ) / dot3 v (cahvorO (d 0) (d 1)) = w
    generalize (1.0 : ℝ) = l1
    ring
  have hp : (cahvorDistort d ⟨-v.x, -v.y, -v.z⟩).p = ⟨-(cahvorDistort d v).p.x, -(cahvorDistort d v).p.y, -(cahvorDistort d v).p.z⟩ := by
    have ho : (cahvorState d ⟨-v.x, -v.y, -v.z⟩).omega = -(cahvorState d v).omega := hom
    simp only [cahvorDistort, hs, ho]
    ext <;> simp only [] <;> ring
  simp only [cahvorQ, hp, distortedQ, one_div, inv_neg]
  ext <;> simp only [] <;> ring

/-- a model that can't look behind itself sees `v` and `-v` at the same pixel. Not so for CAHVORE -/
theorem pix_neg (L : Lens) (hb : L.canProjectBehind = false) (hc : isCahvore L = false) (intr : Int → ℝ) (v : P3) :
    pix L intr ⟨v.x * -1.0, v.y * -1.0, v.z * -1.0⟩ = pix L intr v := by
  cases L <;> simp only [Lens.canProjectBehind, isCahvore, Bool.true_eq_false] at hb hc <;> simp only [pix, lensPixel, Option.getD_some]
  · rw [← ocv_zero_pinhole _ (fun _ => 0), ← ocv_zero_pinhole _ (fun _ => 0)]; exact ocvQ_neg _ _ _
  · exact ocvQ_neg _ _ _
  · exact ocvQ_neg _ _ _
  · exact ocvQ_neg _ _ _
  · exact ocvQ_neg _ _ _
  · exact cahvorQ_neg _ _ _

/-- what one point gives, before worrying about the sign -/
theorem one_cases (L : Lens) (hv : ValidLens L) (intr : Int → ℝ) (solve : Solver) (hs : SolverReports solve) (q : P2) (prev : NanP3) :
    IsInvalid (unprojectOne L intr solve q prev) ∨
    ∃ v, (∃ u, v = (unstereographic (coreOf intr) u).v) ∧ dist2 (pix L intr v) q ≤ 2e-4 ∧
      ((unprojectOne L intr solve q prev = NanP3.of v ∧ (L.canProjectBehind = false → 0 ≤ v.z)) ∨
       (unprojectOne L intr solve q prev = NanP3.of ⟨v.x * -1.0, v.y * -1.0, v.z * -1.0⟩ ∧ L.canProjectBehind = false ∧ v.z < 0)) := by
  unfold unprojectOne
  simp only []
  have h := hs (unprojectX L intr q) (unprojectJ L intr) (unprojectSeed intr q)
  generalize solve (unprojectX L intr q) (unprojectJ L intr) (unprojectSeed intr q) = r at h ⊢
  by_cases hn : r.2 / 2.0 > 1e-4
  · rw [if_pos hn]; left; exact ⟨rfl, rfl⟩
  · rw [if_neg hn]
    right
    refine ⟨(unstereographic (coreOf intr) r.1).v, ⟨_, rfl⟩, ?_, ?_⟩
    · have e : r.2 = dist2 (pix L intr (unstereographic (coreOf intr) r.1).v) q := by
        rw [h]; unfold unprojectX dist2; simp only [hyp_q L hv]
      rw [← e]
      have : r.2 / 2.0 ≤ 1e-4 := not_lt.mp hn
      norm_num at this ⊢
      linarith
    · generalize (unstereographic (coreOf intr) r.1).v = v
      by_cases hz : L.canProjectBehind = false ∧ v.z < 0.0
      · rw [if_pos hz]; right; exact ⟨rfl, hz.1, by have := hz.2; norm_num at this; exact this⟩
      · rw [if_neg hz]; left
        refine ⟨rfl, fun hb => ?_⟩
        by_contra hc
        exact hz ⟨hb, by norm_num; exact not_le.mp hc⟩

theorem loop_result (L : Lens) (hd : isDirect L = false) (hc : isCahvore L = false) (intr : Int → ℝ) (solve : Solver) (N : Nat) (q : Nat → P2) (out : Nat → NanP3) :
    unprojectInternal L intr solve N q out = some (loopWrite N (fun i => i) (fun i => unprojectOne L intr solve (q i) (out i)) out) := by
  cases L <;> simp only [isDirect, isCahvore, Bool.true_eq_false] at hd hc <;> rfl

/-! ### the theorems -/

/-- the pixels that the longitude/latitude models produce: one turn -/
def DirectRange (L : Lens) (intr : Int → ℝ) (q : P2) : Prop :=
  (L = .lonlat → (-Real.pi < (q.x - intr 2) / intr 0 ∧ (q.x - intr 2) / intr 0 ≤ Real.pi) ∧
    (-(Real.pi / 2) < (q.y - intr 3) / intr 1 ∧ (q.y - intr 3) / intr 1 < Real.pi / 2)) ∧
  (L = .latlon → (-Real.pi < (q.y - intr 3) / intr 1 ∧ (q.y - intr 3) / intr 1 ≤ Real.pi) ∧
    (-(Real.pi / 2) < (q.x - intr 2) / intr 0 ∧ (q.x - intr 2) / intr 0 < Real.pi / 2))

/-- **C58**: the models with a direct inverse: the returned vectors project to the given pixels exactly. The solver isn't used -/
theorem unproject_direct (L : Lens) (hd : isDirect L = true) (intr : Int → ℝ) (hfx : intr 0 ≠ 0) (hfy : intr 1 ≠ 0) (solve : Solver) (N : Nat) (q : Nat → P2) (out : Nat → NanP3) :
    ∃ out', mrcalUnproject L intr solve N q out = some (some out') ∧ (∀ j, N ≤ j → out' j = out j) ∧
      ∀ j, j < N → DirectRange L intr (q j) → ∃ v, out' j = NanP3.of v ∧ pix L intr v = q j := by
  have key : ∀ (f : Core → P2 → Unproj), mrcalUnproject L intr solve N q out = some (some (loopWrite N (fun i => i) (fun i => NanP3.of (f (coreOf intr) (q i)).v) out)) →
      (∀ j, DirectRange L intr (q j) → pix L intr (f (coreOf intr) (q j)).v = q j) →
      ∃ out', mrcalUnproject L intr solve N q out = some (some out') ∧ (∀ j, N ≤ j → out' j = out j) ∧
        ∀ j, j < N → DirectRange L intr (q j) → ∃ v, out' j = NanP3.of v ∧ pix L intr v = q j := by
    intro f hf hp
    refine ⟨_, hf, ?_, ?_⟩
    · intro j hj; rw [loopWrite_id, if_neg (by omega)]
    · intro j hj h
      exact ⟨_, by rw [loopWrite_id, if_pos hj], hp j h⟩
  cases L <;> simp only [isDirect, Bool.false_eq_true] at hd
  · exact key unpinhole rfl fun j _ => pinhole_roundtrip2 (coreOf intr) hfx hfy (q j)
  · exact key unstereographic rfl fun j _ => stereographic_roundtrip2 (coreOf intr) hfx hfy (q j)
  · exact key unlonlat rfl fun j h => lonlat_roundtrip2 (coreOf intr) hfx hfy (q j) (h.1 rfl).1 (h.1 rfl).2
  · exact key unlatlon rfl fun j h => latlon_roundtrip2 (coreOf intr) hfx hfy (q j) (h.2 rfl).1 (h.2 rfl).2

/-- **C58**: OPENCV, CAHVOR, splined models: if the solver doesn't fail, then each returned vector is either marked invalid, or it projects to within the tolerance of the
given pixel; and it isn't behind the camera unless the model can look there. All the points are processed, nothing past the end is written -/
theorem unproject_projects_partial (L : Lens) (hv : ValidLens L) (hd : isDirect L = false) (hc : isCahvore L = false) (intr : Int → ℝ) (solve : Solver) (hs : SolverReports solve)
    (N : Nat) (q : Nat → P2) (out : Nat → NanP3) :
    ∃ out', mrcalUnproject L intr solve N q out = some (some out') ∧ (∀ j, N ≤ j → out' j = out j) ∧
      ∀ j, j < N → IsInvalid (out' j) ∨
        ∃ v, out' j = NanP3.of v ∧ dist2 (pix L intr v) (q j) ≤ 2e-4 ∧ (L.canProjectBehind = false → 0 ≤ v.z) := by
  refine ⟨loopWrite N (fun i => i) (fun i => unprojectOne L intr solve (q i) (out i)) out, ?_, ?_, ?_⟩
  · unfold mrcalUnproject; rw [(asserts_iff L).mpr hv, loop_result L hd hc]; rfl
  · intro j hj; rw [loopWrite_id, if_neg (by omega)]
  · intro j hj
    rw [loopWrite_id, if_pos hj]
    rcases one_cases L hv intr solve hs (q j) (out j) with h | ⟨v, -, hdist, h | h⟩
    · left; exact h
    · right; exact ⟨v, h.1, hdist, h.2⟩
    · right
      refine ⟨_, h.1, ?_, ?_⟩
      · rw [pix_neg L h.2.1 hc]; exact hdist
      · intro _; have := h.2.2; simp only []; norm_num; linarith

/-- **C58**: if there's an exact solution and the solver finds it, then it's returned: nothing valid is rejected -/
theorem unproject_exact (L : Lens) (hv : ValidLens L) (hc : isCahvore L = false) (intr : Int → ℝ) (solve : Solver) (hs : SolverReports solve)
    (q : P2) (prev : NanP3) (u : P2) (hu : (solve (unprojectX L intr q) (unprojectJ L intr) (unprojectSeed intr q)).1 = u)
    (hx : pix L intr (unstereographic (coreOf intr) u).v = q) :
    ∃ v, unprojectOne L intr solve q prev = NanP3.of v ∧ pix L intr v = q := by
  have h := hs (unprojectX L intr q) (unprojectJ L intr) (unprojectSeed intr q)
  unfold unprojectOne
  simp only []
  generalize solve (unprojectX L intr q) (unprojectJ L intr) (unprojectSeed intr q) = r at h hu ⊢
  subst hu
  have e : r.2 = 0 := by
    rw [h]; unfold unprojectX; simp only [hyp_q L hv, hx, sub_self]; norm_num
  rw [e, if_neg (by norm_num)]
  generalize (unstereographic (coreOf intr) r.1).v = v at hx ⊢
  by_cases hz : L.canProjectBehind = false ∧ v.z < 0.0
  · rw [if_pos hz]; exact ⟨_, rfl, by rw [pix_neg L hz.1 hc]; exact hx⟩
  · rw [if_neg hz]; exact ⟨_, rfl, hx⟩

/-- **C58**: the gradient given to the solver is the derivative of the residual it's given -/
theorem unproject_jacobian (L : Lens) (hv : ValidLens L) (intr : Int → ℝ) (q u : P2) (hreg : LensRegular L intr (unstereographic (coreOf intr) u).v) :
    GradAt2 (fun u => (unprojectX L intr q u).x) (unprojectJ L intr u).1 u ∧ GradAt2 (fun u => (unprojectX L intr q u).y) (unprojectJ L intr u).2 u := by
  obtain ⟨o, ho, -, g0, g1, -⟩ := out_right L hv intr _ hreg
  obtain ⟨u0, u1, u2⟩ := unstereographic_grad (coreOf intr) u
  have hh : hypothesis L intr (unstereographic (coreOf intr) u).v = o.proj := by unfold hypothesis; rw [ho]
  constructor
  · intro c v t ec hx hy
    have k := g0 (fun s => (unstereographic (coreOf intr) (c s)).v) ⟨_, _, _⟩ t (by rw [ec]) (u0 c v t ec hx hy) (u1 c v t ec hx hy) (u2 c v t ec hx hy)
    have e : (fun s => (unprojectX L intr q (c s)).x) = fun s => (pix L intr (unstereographic (coreOf intr) (c s)).v).x - q.x := by
      funext s; unfold unprojectX; simp only [hyp_q L hv]
    rw [e]
    refine HasDerivAt.congr_deriv (k.sub_const q.x) ?_
    unfold unprojectJ
    simp only [hh]
    ring
  · intro c v t ec hx hy
    have k := g1 (fun s => (unstereographic (coreOf intr) (c s)).v) ⟨_, _, _⟩ t (by rw [ec]) (u0 c v t ec hx hy) (u1 c v t ec hx hy) (u2 c v t ec hx hy)
    have e : (fun s => (unprojectX L intr q (c s)).y) = fun s => (pix L intr (unstereographic (coreOf intr) (c s)).v).y - q.y := by
      funext s; unfold unprojectX; simp only [hyp_q L hv]
    rw [e]
    refine HasDerivAt.congr_deriv (k.sub_const q.y) ?_
    unfold unprojectJ
    simp only [hh]
    ring

/-- **C58**: the initial estimate is the direction that the pinhole model gives -/
theorem unproject_seed (intr : Int → ℝ) (hfx : intr 0 ≠ 0) (hfy : intr 1 ≠ 0) (q : P2) :
    ∃ s, 0 < s ∧ ScaledBy s (unpinhole (coreOf intr) q).v (unstereographic (coreOf intr) (unprojectSeed intr q)).v := by
  have : 0 ≤ mag3 (unpinhole (coreOf intr) q).v := Real.sqrt_nonneg _
  have hz : (unpinhole (coreOf intr) q).v.z = 1 := rfl
  exact stereographic_roundtrip (coreOf intr) hfx hfy (unpinhole (coreOf intr) q).v (by rw [hz]; linarith)

/-- **C58**: so an OPENCV model with no distortion has nothing to optimize -/
theorem unproject_seed_opencv (L : Lens) (hL : L = .opencv4 ∨ L = .opencv5 ∨ L = .opencv8 ∨ L = .opencv12) (intr : Int → ℝ) (hfx : intr 0 ≠ 0) (hfy : intr 1 ≠ 0)
    (h0 : ∀ i, 4 ≤ i → intr i = 0) (q : P2) : unprojectX L intr q (unprojectSeed intr q) = ⟨0, 0⟩ := by
  obtain ⟨s, hs, hv⟩ := unproject_seed intr hfx hfy q
  have hval : ValidLens L := by rcases hL with h | h | h | h <;> subst h <;> trivial
  have hp : pix L intr (unstereographic (coreOf intr) (unprojectSeed intr q)).v = q := by
    have hk : ∀ n, padK n (nocoreOf intr) = padK 0 (fun _ => 0) := by
      intro n; funext i; unfold padK nocoreOf; simp only [Nat.not_lt_zero, if_false]
      split
      · exact h0 _ (by omega)
      · rfl
    have e : pix L intr (unstereographic (coreOf intr) (unprojectSeed intr q)).v = (pinhole (coreOf intr) (unstereographic (coreOf intr) (unprojectSeed intr q)).v).q := by
      rcases hL with h | h | h | h <;> subst h <;> simp only [pix, lensPixel, Option.getD_some, hk, ocv_zero_pinhole]
    rw [e, pinhole_scale (coreOf intr) _ _ s hs.ne' hv]
    exact pinhole_roundtrip2 (coreOf intr) hfx hfy q
  unfold unprojectX
  simp only [hyp_q L hval, hp, sub_self]

/-- **C58**: CAHVORE: refused if E isn't 0 -/
theorem unproject_noncentral (lin : Rat) (intr : Int → ℝ) (solve : Solver) (N : Nat) (q : Nat → P2) (out : Nat → NanP3) :
    mrcalUnproject (.cahvore lin) intr solve N q out = some none ↔ (intr 9 ≠ 0 ∨ intr 10 ≠ 0 ∨ intr 11 ≠ 0) := by
  have e : mrcalUnproject (.cahvore lin) intr solve N q out = some (if (List.range 3).any (fun i => decide (intr ((12 : Int) - 3 + (i : Int)) ≠ 0)) then none else
    some (loopWrite N (fun i => i) (fun i => unprojectOne (.cahvore lin) intr solve (q i) (out i)) out)) := rfl
  rw [e]
  have hany : (List.range 3).any (fun i => decide (intr ((12 : Int) - 3 + (i : Int)) ≠ 0)) = true ↔ (intr 9 ≠ 0 ∨ intr 10 ≠ 0 ∨ intr 11 ≠ 0) := by
    simp [List.range_succ]
  by_cases h : (List.range 3).any (fun i => decide (intr ((12 : Int) - 3 + (i : Int)) ≠ 0)) = true
  · rw [if_pos h]; exact ⟨fun _ => hany.mp h, fun _ => rfl⟩
  · rw [if_neg h]
    constructor
    · intro h'; exact absurd (Option.some.inj h') (by simp)
    · intro h'; exact absurd (hany.mpr h') h

/-- **C59**, CAHVORE with E=0: this holds if the solution isn't behind the camera -/
theorem unproject_cahvore_partial (lin : Rat) (intr : Int → ℝ) (solve : Solver) (hs : SolverReports solve) (q : P2) (prev : NanP3)
    (hz : 0 ≤ (unstereographic (coreOf intr) (solve (unprojectX (.cahvore lin) intr q) (unprojectJ (.cahvore lin) intr) (unprojectSeed intr q)).1).v.z) :
    IsInvalid (unprojectOne (.cahvore lin) intr solve q prev) ∨
      ∃ v, unprojectOne (.cahvore lin) intr solve q prev = NanP3.of v ∧ dist2 (pix (.cahvore lin) intr v) q ≤ 2e-4 := by
  have h := hs (unprojectX (.cahvore lin) intr q) (unprojectJ (.cahvore lin) intr) (unprojectSeed intr q)
  unfold unprojectOne
  simp only []
  generalize solve (unprojectX (.cahvore lin) intr q) (unprojectJ (.cahvore lin) intr) (unprojectSeed intr q) = r at h hz ⊢
  by_cases hn : r.2 / 2.0 > 1e-4
  · rw [if_pos hn]; left; exact ⟨rfl, rfl⟩
  · rw [if_neg hn, if_neg (by rintro ⟨-, hc⟩; norm_num at hc; linarith)]
    right
    refine ⟨_, rfl, ?_⟩
    have e : r.2 = dist2 (pix (.cahvore lin) intr (unstereographic (coreOf intr) r.1).v) q := by
      rw [h]; unfold unprojectX dist2; simp only [hyp_q (.cahvore lin) trivial]
    rw [← e]
    have : r.2 / 2.0 ≤ 1e-4 := not_lt.mp hn
    norm_num at this ⊢
    linarith

/-- **C58**, deviation: a failure of the solver (which is reported as a negative norm) isn't noticed: whatever the solver left is returned as a valid result -/
theorem unproject_solver_failure (L : Lens) (hb : L.canProjectBehind = true) (intr : Int → ℝ) (solve : Solver) (hf : ∀ X J u0, (solve X J u0).2 < 0) (q : P2) (prev : NanP3) :
    unprojectOne L intr solve q prev =
      NanP3.of (unstereographic (coreOf intr) (solve (unprojectX L intr q) (unprojectJ L intr) (unprojectSeed intr q)).1).v := by
  have h := hf (unprojectX L intr q) (unprojectJ L intr) (unprojectSeed intr q)
  unfold unprojectOne
  simp only [hb]
  rw [if_neg (by norm_num; linarith), if_neg (by simp)]

/-- **C58**, deviation: an invalid result has x=y=NaN, but z is whatever was in the caller's memory -/
theorem unproject_invalid_z (L : Lens) (intr : Int → ℝ) (solve : Solver) (q : P2) (prev : NanP3) (z : ℝ) (hz : prev.z = some z)
    (h : 2e-4 < (solve (unprojectX L intr q) (unprojectJ L intr) (unprojectSeed intr q)).2) : unprojectOne L intr solve q prev = ⟨none, none, some z⟩ := by
  unfold unprojectOne
  simp only []
  rw [if_pos (by norm_num at h ⊢; linarith)]
  rw [← hz]

/-- a concrete case: the solver fails, and the returned vector is a pixel away from what was asked for -/
theorem unproject_solver_failure_counterexample : ∃ (L : Lens) (intr : Int → ℝ) (solve : Solver) (q : P2) (prev : NanP3) (v : P3), ValidLens L ∧ isDirect L = false ∧
    isCahvore L = false ∧ (∀ X J u0, (solve X J u0).2 < 0) ∧ unprojectOne L intr solve q prev = NanP3.of v ∧ 1 ≤ dist2 (pix L intr v) q := by
  refine ⟨.opencv4, fun i => if i < 2 then 1 else 0, fun _ _ _ => (⟨0, 0⟩, -1), ⟨1, 0⟩, ⟨none, none, none⟩, ⟨0, 0, 1⟩, trivial, rfl, rfl, ?_, ?_, ?_⟩
  · intro _ _ _; norm_num
  · norm_num [unprojectOne, unstereographic, coreOf]
  · norm_num [dist2, pix, lensPixel, ocvQ, ocv, coreOf, nocoreOf, padK]

/-! ### CAHVORE with a wide field of view -/

/-- fx=fy=1, everything else is 0 -/
def fishIntr : Int → ℝ := fun i => if i < 2 then 1 else 0

/-- this is the equidistant fisheye: the distance from the center is the angle from the axis -/
theorem fish_pix (v : P3) (hv : v ≠ ⟨0, 0, 0⟩) :
    pix (.cahvore 0) fishIntr v =
      if atan2 (Real.sqrt (v.x * v.x + v.y * v.y)) v.z > 1e-8 then
        ⟨v.x * (atan2 (Real.sqrt (v.x * v.x + v.y * v.y)) v.z / Real.sqrt (v.x * v.x + v.y * v.y)),
         v.y * (atan2 (Real.sqrt (v.x * v.x + v.y * v.y)) v.z / Real.sqrt (v.x * v.x + v.y * v.y))⟩
      else ⟨v.x * (1 / v.z), v.y * (1 / v.z)⟩ := by
  have hn : ∀ i, nocoreOf fishIntr i = 0 := fun i => by unfold nocoreOf fishIntr; exact if_neg (by omega)
  have h := cahvore_E0 v (nocoreOf fishIntr) ((0 : Rat) : ℝ) false false hv (fun i _ _ => hn i)
  have ho : cahvorO 0 0 = ⟨0, 0, 1⟩ := by simp [cahvorO]
  have hoff : offAxis ⟨0, 0, 1⟩ v = ⟨v.x, v.y, 0⟩ := by simp [offAxis, dot3]
  have hd : dot3 v ⟨0, 0, 1⟩ = v.z := by simp [dot3]
  have hm : mag3 ⟨v.x, v.y, 0⟩ = Real.sqrt (v.x * v.x + v.y * v.y) := by simp [mag3]
  have hchi : ∀ th, chiSpec ((0 : Rat) : ℝ) th = th := by
    intro th; unfold chiSpec; norm_num
  simp only [hn, ho, hoff, hd, hm, hchi] at h
  have hc : coreOf fishIntr = ⟨1, 1, 0, 0⟩ := by simp [coreOf, fishIntr]
  have e : pix (.cahvore 0) fishIntr v = (((projectCahvoreInternals v (nocoreOf fishIntr) ((0 : Rat) : ℝ) false false).map CahvoreOut.p).map (distortedQ ⟨1, 1, 0, 0⟩)).getD ⟨0, 0⟩ := by
    unfold pix lensPixel cahvoreQ
    rw [Option.map_map, hc]
    rfl
  rw [e, h, if_neg (by have := Real.pi_pos; norm_num; linarith)]
  by_cases ht : atan2 (Real.sqrt (v.x * v.x + v.y * v.y)) v.z > 1e-8
  · rw [if_pos ht, if_pos ht]
    simp [distortedQ]
  · rw [if_neg ht, if_neg ht]
    simp [distortedQ]

theorem l_pos_or (v : P3) : 0 ≤ Real.sqrt (v.x * v.x + v.y * v.y) := Real.sqrt_nonneg _

/-- behind the camera the angle is more than 90 degrees -/
theorem atan2_behind (l z : ℝ) (hl : 0 ≤ l) (hz : z < 0) : Real.pi / 2 < atan2 l z := by
  unfold atan2
  by_contra hc
  have h0 : 0 ≤ Complex.arg ⟨z, l⟩ := Complex.arg_nonneg_iff.mpr hl
  have : |Complex.arg ⟨z, l⟩| ≤ Real.pi / 2 := by rw [abs_of_nonneg h0]; exact not_lt.mp hc
  rw [Complex.abs_arg_le_pi_div_two_iff] at this
  simp only at this
  linarith

theorem atan2_front (l z : ℝ) (hl : 0 ≤ l) (hz : 0 ≤ z) : 0 ≤ atan2 l z ∧ atan2 l z ≤ Real.pi / 2 := by
  unfold atan2
  have h0 : 0 ≤ Complex.arg ⟨z, l⟩ := Complex.arg_nonneg_iff.mpr hl
  have h1 : |Complex.arg ⟨z, l⟩| ≤ Real.pi / 2 := Complex.abs_arg_le_pi_div_two_iff.mpr hz
  exact ⟨h0, (abs_le.mp h1).2⟩

theorem x_le_l (v : P3) : v.x ≤ Real.sqrt (v.x * v.x + v.y * v.y) := by
  apply Real.le_sqrt_of_sq_le
  nlinarith [mul_self_nonneg v.y]

/-- **C59**, deviation: the sign is flipped for CAHVORE, where it matters. With this lens the pixel (3 pi/4, 0) is the image of (1,0,-1); but every solver that converges makes
mrcal_unproject() return something that projects elsewhere -/
theorem unproject_cahvore_wrong :
    pix (.cahvore 0) fishIntr ⟨1, 0, -1⟩ = ⟨3 * Real.pi / 4, 0⟩ ∧
    ∀ solve : Solver, SolverReports solve → ∀ prev,
      IsInvalid (unprojectOne (.cahvore 0) fishIntr solve ⟨3 * Real.pi / 4, 0⟩ prev) ∨
      ∃ v, unprojectOne (.cahvore 0) fishIntr solve ⟨3 * Real.pi / 4, 0⟩ prev = NanP3.of v ∧ 1 < dist2 (pix (.cahvore 0) fishIntr v) ⟨3 * Real.pi / 4, 0⟩ := by
  have hpi := Real.pi_gt_three
  constructor
  · rw [fish_pix _ (by intro h; have := congrArg P3.x h; norm_num at this)]
    have ea : atan2 1 (-1) = 3 * Real.pi / 4 := by
      unfold atan2
      have e : (⟨-1, 1⟩ : ℂ) = ((Real.sqrt 2 : ℝ) : ℂ) * (Complex.cos ((3 * Real.pi / 4 : ℝ) : ℂ) + Complex.sin ((3 * Real.pi / 4 : ℝ) : ℂ) * Complex.I) := by
        have c : Real.cos (3 * Real.pi / 4) = -(Real.sqrt 2 / 2) := by
          rw [show 3 * Real.pi / 4 = Real.pi - Real.pi / 4 by ring, Real.cos_pi_sub, Real.cos_pi_div_four]
        have s : Real.sin (3 * Real.pi / 4) = Real.sqrt 2 / 2 := by
          rw [show 3 * Real.pi / 4 = Real.pi - Real.pi / 4 by ring, Real.sin_pi_sub, Real.sin_pi_div_four]
        have h2 : Real.sqrt 2 * Real.sqrt 2 = 2 := Real.mul_self_sqrt (by norm_num)
        rw [← Complex.ofReal_cos, ← Complex.ofReal_sin, c, s]
        apply Complex.ext
        · simp; linarith
        · simp; linarith
      rw [e, Complex.arg_mul_cos_add_sin_mul_I (by positivity) ⟨by linarith, by linarith⟩]
    have es : Real.sqrt (1 * 1 + 0 * 0) = 1 := by norm_num
    simp only [es, ea]
    rw [if_pos (by norm_num; linarith)]
    simp
  · intro solve hs prev
    rcases one_cases (.cahvore 0) trivial fishIntr solve hs ⟨3 * Real.pi / 4, 0⟩ prev with h | ⟨v, ⟨u, hu⟩, hd, h⟩
    · left; exact h
    · right
      have hne : v ≠ ⟨0, 0, 0⟩ := by
        intro e
        rw [e] at hu
        have e1 := congrArg P3.x hu
        have e2 := congrArg P3.y hu
        have e3 := congrArg P3.z hu
        simp only [unstereographic] at e1 e2 e3
        rw [← e1, ← e2] at e3
        norm_num at e3
      have hl := l_pos_or v
      have hxl := x_le_l v
      have hdx : ((pix (.cahvore 0) fishIntr v).x - 3 * Real.pi / 4) ^ 2 ≤ 2e-4 := by
        unfold dist2 at hd
        simp only [] at hd
        nlinarith [sq_nonneg ((pix (.cahvore 0) fishIntr v).y - 0)]
      have hx2 : 2 < (pix (.cahvore 0) fishIntr v).x := by
        by_contra hc
        have : (pix (.cahvore 0) fishIntr v).x - 3 * Real.pi / 4 ≤ -(1 / 4) := by linarith [not_lt.mp hc]
        norm_num at hdx
        nlinarith
      have hx3 : Real.pi / 2 + 1 / 2 < (pix (.cahvore 0) fishIntr v).x := by
        by_contra hc
        have : (pix (.cahvore 0) fishIntr v).x - 3 * Real.pi / 4 ≤ -(1 / 4) := by linarith [not_lt.mp hc]
        norm_num at hdx
        nlinarith
      rw [fish_pix v hne] at hx2 hx3
      rcases h with ⟨-, hz⟩ | ⟨h, -, hz⟩
      · exfalso
        have hz := hz rfl
        obtain ⟨a0, a1⟩ := atan2_front _ v.z hl hz
        by_cases ht : atan2 (Real.sqrt (v.x * v.x + v.y * v.y)) v.z > 1e-8
        · rw [if_pos ht] at hx3
          simp only [] at hx3
          have : v.x * (atan2 (Real.sqrt (v.x * v.x + v.y * v.y)) v.z / Real.sqrt (v.x * v.x + v.y * v.y)) ≤ atan2 (Real.sqrt (v.x * v.x + v.y * v.y)) v.z := by
            rcases hl.eq_or_lt with h0 | h0
            · rw [← h0] at a0 ⊢; simp only [div_zero, mul_zero]; exact a0
            · rw [← mul_div_assoc, div_le_iff₀ h0]
              nlinarith
          linarith
        · rw [if_neg ht] at hx2
          simp only [] at hx2
          rcases hz.eq_or_lt with h0 | h0
          · rw [← h0] at hx2; norm_num at hx2
          · obtain ⟨t1, t2, t3⟩ := atan2_pos_tan _ v.z h0 hl
            have ht' := not_lt.mp ht
            have h4 : Real.tan (atan2 (Real.sqrt (v.x * v.x + v.y * v.y)) v.z) ≤ Real.tan (Real.pi / 4) := by
              rcases eq_or_lt_of_le (show atan2 (Real.sqrt (v.x * v.x + v.y * v.y)) v.z ≤ Real.pi / 4 by norm_num at ht'; linarith) with e | e
              · rw [e]
              · exact (Real.tan_lt_tan_of_nonneg_of_lt_pi_div_two t2 (by linarith) e).le
            rw [Real.tan_pi_div_four, t1, div_le_one h0] at h4
            rw [mul_one_div, lt_div_iff₀ h0] at hx2
            linarith
      · refine ⟨_, h, ?_⟩
        have hb := atan2_behind _ v.z hl hz
        rw [if_pos (by norm_num; linarith)] at hx2
        simp only [] at hx2
        have hxpos : 0 < v.x := by
          by_contra hc
          have : 0 ≤ atan2 (Real.sqrt (v.x * v.x + v.y * v.y)) v.z / Real.sqrt (v.x * v.x + v.y * v.y) := div_nonneg (by linarith) hl
          nlinarith [not_lt.mp hc]
        have hne' : (⟨v.x * -1.0, v.y * -1.0, v.z * -1.0⟩ : P3) ≠ ⟨0, 0, 0⟩ := by
          intro e
          have := congrArg P3.x e
          norm_num at this
          linarith
        have hneg : (pix (.cahvore 0) fishIntr ⟨v.x * -1.0, v.y * -1.0, v.z * -1.0⟩).x ≤ 0 := by
          rw [fish_pix _ hne']
          obtain ⟨a0, a1⟩ := atan2_front (Real.sqrt ((v.x * -1.0) * (v.x * -1.0) + (v.y * -1.0) * (v.y * -1.0))) (v.z * -1.0) (Real.sqrt_nonneg _) (by norm_num; linarith)
          split
          · simp only []
            have : 0 ≤ atan2 (Real.sqrt ((v.x * -1.0) * (v.x * -1.0) + (v.y * -1.0) * (v.y * -1.0))) (v.z * -1.0) / Real.sqrt ((v.x * -1.0) * (v.x * -1.0) + (v.y * -1.0) * (v.y * -1.0)) :=
              div_nonneg a0 (Real.sqrt_nonneg _)
            exact mul_nonpos_of_nonpos_of_nonneg (by norm_num; linarith) this
          · simp only []
            have : 0 ≤ 1 / (v.z * -1.0) := by apply div_nonneg <;> norm_num; linarith
            exact mul_nonpos_of_nonpos_of_nonneg (by norm_num; linarith) this
        unfold dist2
        simp only []
        generalize pix (.cahvore 0) fishIntr ⟨v.x * -1.0, v.y * -1.0, v.z * -1.0⟩ = w at hneg
        nlinarith [sq_nonneg (w.y - 0)]

/-! ### the hypotheses are met -/

/-- a solver that does nothing satisfies the contract: it's not an impossible one -/
example : SolverReports fun X _ u0 => (u0, (X u0).x ^ 2 + (X u0).y ^ 2) := fun _ _ _ => rfl
/-- so does one that looks for an exact solution -/
example : ∃ solve : Solver, SolverReports solve ∧ ∀ (X : P2 → P2) (J : P2 → P2 × P2) (u0 : P2), (∃ u, X u = ⟨0, 0⟩) → X (solve X J u0).1 = ⟨0, 0⟩ := by
  classical
  let f : (P2 → P2) → P2 → P2 := fun X u0 => if h : ∃ u, X u = ⟨0, 0⟩ then h.choose else u0
  refine ⟨fun X _ u0 => (f X u0, (X (f X u0)).x ^ 2 + (X (f X u0)).y ^ 2), fun _ _ _ => rfl, ?_⟩
  intro X J u0 h
  simp only [f, dif_pos h]
  exact h.choose_spec
example : DirectRange .lonlat (fun i => if i < 2 then 1 else 0) ⟨1, 1⟩ := by
  have := Real.pi_gt_three
  refine ⟨fun _ => ?_, fun h => by cases h⟩
  norm_num
  constructor <;> [constructor; constructor] <;> linarith
example : LensRegular .opencv4 (fun i => if i < 2 then 1 else 0) (unstereographic (coreOf fun i => if i < 2 then 1 else 0) ⟨1, 0⟩).v := by
  refine ⟨by norm_num, by norm_num, ?_, ?_⟩
  · norm_num [unstereographic, coreOf]
  · norm_num [ocvDen, padK]

end Mrcal.Cam
