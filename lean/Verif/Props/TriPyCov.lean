import Verif.Props.TriPyTotal
/-
C94: the covariances that triangulate() reports
-/
namespace Mrcal.TriPy
open Mrcal Mrcal.Pose Mrcal.Tri Mrcal.AD Mrcal.Callback Mrcal.Pack Mrcal.StateLayout Mrcal.Propagate Mrcal.Uncertainty Mrcal.ProjUnc Mrcal.UnprojectPy Matrix MeasureTheory

/-- **Specification**: the pixel noise in the observations that are triangulated. ε ω i a x: point i, camera a, axis x. All pixel coordinates have standard deviation σ. The observations of one point by the two
cameras have covariance (ρσ)² along each axis. Everything else is uncorrelated -/
structure PixelNoise {Ω : Type} [MeasurableSpace Ω] (μ : Measure Ω) (ε : Ω → Nat → Nat → Nat → ℝ) (N : Nat) (σ ρ : ℝ) : Prop where
  integrable : ∀ i a x j b y, i < N → a < 2 → x < 2 → j < N → b < 2 → y < 2 → Integrable (fun ω => ε ω i a x * ε ω j b y) μ
  cov : ∀ i a x j b y, i < N → a < 2 → x < 2 → j < N → b < 2 → y < 2 → ∫ ω, ε ω i a x * ε ω j b y ∂μ = if i = j ∧ x = y then (if a = b then σ ^ 2 else (ρ * σ) ^ 2) else 0

/-- **Specification**: a pixel that moves -/
def shifted (q : P2) (e : Nat → ℝ) (t : ℝ) : P2 := ⟨q.x + t * e 0, q.y + t * e 1⟩

theorem shifted_deriv (q : P2) (e : Nat → ℝ) : PixDeriv (shifted q e) ⟨e 0, e 1⟩ 0 := by
  constructor
  · have := ((hasDerivAt_id' (0 : ℝ)).mul_const (e 0)).const_add q.x; rwa [one_mul] at this
  · have := ((hasDerivAt_id' (0 : ℝ)).mul_const (e 1)).const_add q.y; rwa [one_mul] at this

/-- **Specification**: this camera sees a point in this direction: V(t); the intrinsics I(t) and the pixel move -/
structure LooksAt (m : Camera) (q : P2) (e : Nat → ℝ) (I : ℝ → Int → ℝ) (V : ℝ → P3) : Prop where
  start : ∃ g, unprojectGrads m.lens m.intr m.solve m.prev false q = some (some g) ∧ V 0 = g.v
  smooth : ∃ w, HasDerivP V w 0
  ray : Ray m.lens q I (shifted q e) V

/-- **Specification**: the calibration moves by v; the observed pixels of the two cameras move by e; the stabilized point moves by δ -/
def PointMoves (P : Problem) (method : Method) (stabilize : Bool) (s : Slice) (v : Mem) (e : Nat → Nat → ℝ) (δ : P3) : Prop :=
  ∃ V0 V1, LooksAt s.m0 s.q0 (e 0) (fun t => intrOf P.d (moved P v t) s.m0.icamI) V0 ∧ LooksAt s.m1 s.q1 (e 1) (fun t => intrOf P.d (moved P v t) s.m1.icamI) V1 ∧
    HasDerivP (fun t => tracked P method stabilize s.m0.icamE s.m1.icamE (moved P v t) (V0 t) (V1 t)) δ 0

/-- **Specification**: the calibration is fixed; the observed pixels move by e; the point moves by δ -/
def ObservationMoves (method : Method) (s : Slice) (e : Nat → Nat → ℝ) (δ : P3) : Prop :=
  ∃ V0 V1, LooksAt s.m0 s.q0 (e 0) (fun _ => s.m0.intr) V0 ∧ LooksAt s.m1 s.q1 (e 1) (fun _ => s.m1.intr) V1 ∧
    HasDerivP (fun t => triPoint method (V0 t) (dirIn0 s.m0.rt s.m1.rt (V1 t)) (center s.m0.rt s.m1.rt)) δ 0

/-- **Specification**: the lenses are well-behaved at the observation, and the point was found -/
structure ViewOk (method : Method) (s : Slice) : Prop where
  lens0 : ∀ g, unprojectGrads s.m0.lens s.m0.intr s.m0.solve s.m0.prev false s.q0 = some (some g) → RayOk s.m0 g.v
  lens1 : ∀ g, unprojectGrads s.m1.lens s.m1.intr s.m1.solve s.m1.prev false s.q1 = some (some g) → RayOk s.m1 g.v
  found : ∀ g0 g1, unprojectGrads s.m0.lens s.m0.intr s.m0.solve s.m0.prev false s.q0 = some (some g0) → unprojectGrads s.m1.lens s.m1.intr s.m1.solve s.m1.prev false s.q1 = some (some g1) →
    Found method g0.v (dirIn0 s.m0.rt s.m1.rt g1.v) (center s.m0.rt s.m1.rt)

/-- **Specification**: two different cameras of the calibration P, as they were calibrated -/
structure PairFrom (P : Problem) (s : Slice) : Prop where
  m0 : AsCalibrated P s.m0
  m1 : AsCalibrated P s.m1
  different : s.m0.icamI ≠ s.m1.icamI
  rotations : PairOk P s.m0.icamE s.m1.icamE

/-! ### the motion -/

theorem full_moves (P : Problem) (hv : P.Valid) (method : Method) (stabilize : Bool) (s : Slice) (hs : PairFrom P s) (okv : ViewOk method s) (okf : BoardsOk P) (f : Full) (hf : gradFull method s = some f)
    (F : Cols) (hF : dpDb P s f stabilize = some F) (v : Mem) (e : Nat → Nat → ℝ) (δ : P3) (h : PointMoves P method stabilize s v e δ) :
    δ = addP (colDot P.d F v) (qDot f.dq ⟨e 0 0, e 0 1⟩ ⟨e 1 0, e 1 1⟩) := by
  obtain ⟨V0, V1, ⟨⟨g0, h0, s0⟩, ⟨w0, hw0⟩, r0⟩, ⟨⟨g1, h1, s1⟩, ⟨w1, hw1⟩, r1⟩, hd⟩ := h
  obtain ⟨hg0, hg1, -⟩ := gradFull_some method s f hf
  obtain rfl : g0 = f.g0 := by rw [hg0] at h0; exact (Option.some.inj (Option.some.inj h0)).symm
  obtain rfl : g1 = f.g1 := by rw [hg1] at h1; exact (Option.some.inj (Option.some.inj h1)).symm
  obtain ⟨-, hd'⟩ := tracked_deriv P hv s hs.m0 hs.m1 hs.different method f hf stabilize F hF (okv.lens0 _ hg0) (okv.lens1 _ hg1) hs.rotations okf (okv.found _ _ hg0 hg1) v _ _ _ _ (shifted_deriv s.q0 (e 0))
    (shifted_deriv s.q1 (e 1)) V0 V1 w0 w1 s0 s1 hw0 hw1 r0 r1
  exact HasDerivP.unique hd hd'

/-- the two paths agree -/
theorem gradFull_simple (method : Method) (s : Slice) (f : Full) (h : gradFull method s = some f) : gradSimple method s = some (f.c.p, f.dq) := by
  unfold gradFull at h
  unfold gradSimple
  simp only [Option.bind_eq_bind] at h ⊢
  obtain ⟨g0, h0, h⟩ := Option.bind_eq_some_iff.1 h
  obtain ⟨g1, h1, h⟩ := Option.bind_eq_some_iff.1 h
  obtain ⟨c, hc, h⟩ := Option.bind_eq_some_iff.1 h
  obtain rfl := Option.some.inj h
  rw [h0, Option.bind_some, h1, Option.bind_some, hc]
  rfl

theorem gradSimple_some (method : Method) (s : Slice) (r : P3 × (Nat → P3)) (h : gradSimple method s = some r) : ∃ f, gradFull method s = some f ∧ r = (f.c.p, f.dq) := by
  unfold gradSimple at h
  unfold gradFull
  simp only [Option.bind_eq_bind] at h ⊢
  obtain ⟨g0, h0, h⟩ := Option.bind_eq_some_iff.1 h
  obtain ⟨g1, h1, h⟩ := Option.bind_eq_some_iff.1 h
  obtain ⟨c, hc, h⟩ := Option.bind_eq_some_iff.1 h
  obtain rfl := Option.some.inj h
  rw [h0, Option.bind_some, h1, Option.bind_some, hc]
  exact ⟨_, rfl, rfl⟩

theorem const_deriv (p : P3) : HasDerivP (fun _ : ℝ => p) ⟨0, 0, 0⟩ 0 := ⟨hasDerivAt_const _ _, hasDerivAt_const _ _, hasDerivAt_const _ _⟩

theorem diSum_zero (g : Grads) (n : Nat) : diSum g n (fun _ => 0) = ⟨0, 0, 0⟩ := by
  unfold diSum
  simp

theorem simple_moves (method : Method) (s : Slice) (okv : ViewOk method s) (hT : Turned (fun _ => s.m0.rt) fun _ => s.m1.rt) (f : Full) (hf : gradFull method s = some f)
    (e : Nat → Nat → ℝ) (δ : P3) (h : ObservationMoves method s e δ) : δ = qDot f.dq ⟨e 0 0, e 0 1⟩ ⟨e 1 0, e 1 1⟩ ∧
      f.c.p = triPoint method f.g0.v (dirIn0 s.m0.rt s.m1.rt f.g1.v) (center s.m0.rt s.m1.rt) := by
  obtain ⟨V0, V1, ⟨⟨g0, h0, s0⟩, ⟨w0, hw0⟩, r0⟩, ⟨⟨g1, h1, s1⟩, ⟨w1, hw1⟩, r1⟩, hd⟩ := h
  obtain ⟨hg0, hg1, href, hcomp, hc, hdr, hdv, hdq⟩ := gradFull_some method s f hf
  obtain rfl : g0 = f.g0 := by rw [hg0] at h0; exact (Option.some.inj (Option.some.inj h0)).symm
  obtain rfl : g1 = f.g1 := by rw [hg1] at h1; exact (Option.some.inj (Option.some.inj h1)).symm
  have z := const_deriv
  obtain ⟨-, -, -, -, rok0, rok1⟩ := turned_relative _ _ _ _ (z _) (z _) hT
  obtain ⟨de, dd⟩ := dir_deriv _ _ _ _ (z s.m0.rt.r) (z s.m1.rt.r) hT V1 w1 hw1
  obtain ⟨ce, cd⟩ := center_deriv _ _ _ _ _ _ (z s.m0.rt.r) (z s.m0.rt.t) (z s.m1.rt.r) (z s.m1.rt.t) rok0 rok1
  rw [s1, ← href, ← hcomp] at de dd
  rw [← href, ← hcomp] at ce
  rw [← hdv] at dd
  rw [de, ce] at hc
  have e0 := ray_total s.m0.lens s.m0.intr _ _ s.q0 f.g0 hg0 (okv.lens0 _ hg0) (fun _ => s.m0.intr) (fun _ => 0) rfl (fun _ => hasDerivAt_const _ _) (fun _ _ => rfl) _ _ (shifted_deriv s.q0 (e 0)) V0 w0 s0 hw0 r0
  have e1 := ray_total s.m1.lens s.m1.intr _ _ s.q1 f.g1 hg1 (okv.lens1 _ hg1) (fun _ => s.m1.intr) (fun _ => 0) rfl (fun _ => hasDerivAt_const _ _) (fun _ _ => rfl) _ _ (shifted_deriv s.q1 (e 1)) V1 w1 s1 hw1 r1
  rw [diSum_zero, addP_zero] at e0 e1
  have hp := call_deriv method _ _ _ f.c hc (okv.found _ _ hg0 hg1) V0 _ _ w0 _ _ s0 (by rw [s1]) rfl hw0 dd (z _)
  refine ⟨?_, call_point method _ _ _ f.c hc⟩
  rw [HasDerivP.unique hd hp, e0, e1, hdq]
  have nz : negP (⟨0, 0, 0⟩ : P3) = ⟨0, 0, 0⟩ := by simp [negP]
  simp only [nz, mulVec_zero, addP_zero, zero_addP]
  rw [← mulVec_mul]
  unfold qDot
  ext <;> simp [dpDq, qCol, Pose.mulVec, Grads.dq, addP] <;> ring

/-! ### the moments -/

theorem qDot_sum (dq : Nat → P3) (e : Nat → Nat → ℝ) (r : Nat) : pick3 (qDot dq ⟨e 0 0, e 0 1⟩ ⟨e 1 0, e 1 1⟩) r = ∑ k ∈ Finset.range 4, pick3 (dq k) r * e (k / 2) (k % 2) := by
  unfold qDot pick3
  simp only [Finset.sum_range_succ, Finset.sum_range_zero, zero_add]
  rcases r with _ | _ | r <;> simp

theorem varQ_spec (σ ρ : ℝ) (k l : Nat) (hk : k < 4) (hl : l < 4) : varQ σ ρ k l = if k % 2 = l % 2 then (if k / 2 = l / 2 then σ ^ 2 else (ρ * σ) ^ 2) else 0 := by
  unfold varQ
  interval_cases k <;> interval_cases l <;> simp <;> ring

/-- the covariance of the linear response to the pixels -/
theorem pixel_moment {Ω : Type} [MeasurableSpace Ω] {μ : Measure Ω} {ε : Ω → Nat → Nat → Nat → ℝ} {σ ρ : ℝ} {N : Nat} (h : PixelNoise μ ε N σ ρ) (di dj : Nat → P3) (i j r c : Nat) (hi : i < N) (hj : j < N) :
    Integrable (fun ω => pick3 (qDot di ⟨ε ω i 0 0, ε ω i 0 1⟩ ⟨ε ω i 1 0, ε ω i 1 1⟩) r * pick3 (qDot dj ⟨ε ω j 0 0, ε ω j 0 1⟩ ⟨ε ω j 1 0, ε ω j 1 1⟩) c) μ ∧
    ∫ ω, pick3 (qDot di ⟨ε ω i 0 0, ε ω i 0 1⟩ ⟨ε ω i 1 0, ε ω i 1 1⟩) r * pick3 (qDot dj ⟨ε ω j 0 0, ε ω j 0 1⟩ ⟨ε ω j 1 0, ε ω j 1 1⟩) c ∂μ =
      if i = j then ∑ l ∈ Finset.range 4, (∑ k ∈ Finset.range 4, pick3 (di k) r * varQ σ ρ k l) * pick3 (dj l) c else 0 := by
  have e : ∀ ω, pick3 (qDot di ⟨ε ω i 0 0, ε ω i 0 1⟩ ⟨ε ω i 1 0, ε ω i 1 1⟩) r * pick3 (qDot dj ⟨ε ω j 0 0, ε ω j 0 1⟩ ⟨ε ω j 1 0, ε ω j 1 1⟩) c =
      ∑ k ∈ Finset.range 4, ∑ l ∈ Finset.range 4, (pick3 (di k) r * pick3 (dj l) c) * (ε ω i (k / 2) (k % 2) * ε ω j (l / 2) (l % 2)) := by
    intro ω
    rw [qDot_sum di (ε ω i), qDot_sum dj (ε ω j), Finset.sum_mul_sum]
    exact Finset.sum_congr rfl fun k _ => Finset.sum_congr rfl fun l _ => by ring
  simp only [e]
  have hint : ∀ k ∈ Finset.range 4, ∀ l ∈ Finset.range 4, Integrable (fun ω => (pick3 (di k) r * pick3 (dj l) c) * (ε ω i (k / 2) (k % 2) * ε ω j (l / 2) (l % 2))) μ := by
    intro k hk l hl
    have hk := Finset.mem_range.1 hk
    have hl := Finset.mem_range.1 hl
    exact (h.integrable _ _ _ _ _ _ hi (by omega) (by omega) hj (by omega) (by omega)).const_mul _
  refine ⟨integrable_finsetSum _ fun k hk => integrable_finsetSum _ fun l hl => hint k hk l hl, ?_⟩
  rw [integral_finsetSum _ fun k hk => integrable_finsetSum _ fun l hl => hint k hk l hl]
  have e2 : ∀ k ∈ Finset.range 4, ∫ ω, ∑ l ∈ Finset.range 4, (pick3 (di k) r * pick3 (dj l) c) * (ε ω i (k / 2) (k % 2) * ε ω j (l / 2) (l % 2)) ∂μ =
      ∑ l ∈ Finset.range 4, (pick3 (di k) r * pick3 (dj l) c) * if i = j then varQ σ ρ k l else 0 := by
    intro k hk
    rw [integral_finsetSum _ fun l hl => hint k hk l hl]
    refine Finset.sum_congr rfl fun l hl => ?_
    have hk := Finset.mem_range.1 hk
    have hl := Finset.mem_range.1 hl
    rw [integral_const_mul, h.cov _ _ _ _ _ _ hi (by omega) (by omega) hj (by omega) (by omega), varQ_spec σ ρ k l hk hl]
    by_cases hij : i = j
    · simp only [hij, true_and, if_true]
    · simp only [hij, false_and, if_false]
  rw [Finset.sum_congr rfl e2]
  by_cases hij : i = j
  · simp only [if_pos hij]
    rw [Finset.sum_comm]
    refine Finset.sum_congr rfl fun l _ => ?_
    rw [Finset.sum_mul]
    exact Finset.sum_congr rfl fun k _ => by ring
  · simp only [if_neg hij, mul_zero, Finset.sum_const_zero]

/-- the optimum responds linearly to the noise -/
theorem deltaF_linear (c : Ctx) (ok : CtxOk c) (idx : IdxOk c) (out : Out) (ho : optimizerCallback c = some out) (h0 : 0 < numStates c.d) (hrank : FullRank out (numStates c.d))
    (hopt : IsOptimum out (fun _ => 0) fun _ => 0) (F : Mem) (r : Nat) : ∃ z : Fin out.x.length → ℝ, ∀ (noise : Nat → ℝ) (v : Mem), IsOptimum out noise v → deltaF c.d F v r = ∑ i, z i * noise i := by
  obtain ⟨u, hu, -⟩ := units c.d idx.wf h0
  have hinj := (fullRank_iff c ok idx out ho h0).1 hrank
  set J := (csrOf out).dense out.x.length (numStates c.d).toNat with hJ
  have hg := gram_injective J hinj
  have hdet : IsUnit (Jᵀ * J).det := by
    rw [isUnit_iff_ne_zero]
    intro h
    obtain ⟨v, hv, hv'⟩ := exists_mulVec_eq_zero_iff.2 h
    exact hv (hg v hv')
  set g : Fin (numStates c.d).toNat → ℝ := fun j => F (r * (numStates c.d).toNat + (j : Nat)) * u (j : Nat) with hgd
  refine ⟨J *ᵥ ((Jᵀ * J)⁻¹ *ᵥ g), fun noise v hs => ?_⟩
  rw [← deltaF_eq c ok idx out ho h0 hopt noise v hs, ← hJ, dotProduct_mulVec, ← mulVec_transpose, transpose_mul, transpose_transpose, Matrix.mulVec_mulVec, mul_nonsing_inv _ hdet, one_mulVec]
  unfold deltaF dotProduct
  rw [← Fin.sum_univ_eq_sum_range (fun j => F ((r : Int) * (numStates c.d).toNat + j) * (unpackVector c.d v).1 j) (numStates c.d).toNat]
  refine Finset.sum_congr rfl fun j _ => ?_
  rw [hu v j (by omega) (by omega), hgd]
  ring

theorem flat_row (d : Dims) (cols : List Cols) (v : Mem) (i k : Nat) (hi : i < cols.length) (hk : k < 3) :
    deltaF d (flatDb (numStates d).toNat cols) v (3 * i + k) = pick3 (colDot d cols[i] v) k := by
  have e := deltaF_flat d (fun (row : Nat) (c : Int) => pick3 ((cols.getD (row / 3) fun _ => ⟨0, 0, 0⟩) c) (row % 3)) v (3 * i + k)
  refine Eq.trans e ?_
  unfold dot colDot
  have e1 : (3 * i + k) / 3 = i := by omega
  have e2 : (3 * i + k) % 3 = k := by omega
  simp only [e1, e2, List.getD_eq_getElem _ _ hi]
  interval_cases k <;> rfl

end Mrcal.TriPy
