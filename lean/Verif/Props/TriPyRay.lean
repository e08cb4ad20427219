import Verif.Model.TriangulatePy
import Verif.Props.UnprojectPyProps
import Verif.Props.ProjUncProps
/-
C94: the observation vector, as the pixel and all of the lens parameters move at the same time
-/
namespace Mrcal.TriPy
open Mrcal Mrcal.Cam Mrcal.Pose Mrcal.UnprojectPy Mrcal.Callback

/-- **Specification**: V is the observation vector of the pixel Q, seen with the moving lens parameters I. `q`: the pixel that was unprojected. The models that are unprojected directly: this is what
unproject() returns. For all others it's the vector (in stereographic scaling) whose projection is Q -/
def Ray (L : Lens) (q : P2) (I : ℝ → Int → ℝ) (Q : ℝ → P2) (V : ℝ → P3) : Prop :=
  match direct L with
  | some _ => Q 0 = q ∧ ∀ (solve : Solver) (prev : NanP3), ∀ᶠ s in nhds 0, unproject L (I s) solve prev false (Q s) = some (NanP3.of (V s))
  | none => ∀ᶠ s in nhds 0, pix L (I s) (V s) = Q s ∧ Length false (V s)

/-- **Specification**: the focal lengths aren't 0, and the lens is differentiable here -/
def LensOk (L : Lens) (intr : Int → ℝ) (v : P3) : Prop := ValidLens L ∧ intr 0 ≠ 0 ∧ intr 1 ≠ 0 ∧ (direct L = none → LensRegular L intr v)

theorem of_inj {a b : P3} (h : NanP3.of a = NanP3.of b) : a = b := by
  unfold NanP3.of at h
  simp only [NanP3.mk.injEq, Option.some.injEq] at h
  ext
  · exact h.1
  · exact h.2.1
  · exact h.2.2

/-- the sum of the columns of dv_di, weighted -/
noncomputable def diSum (g : Grads) (n : Nat) (I' : Int → ℝ) : P3 :=
  ⟨∑ k ∈ Finset.range n, (g.di k).x * I' (k : Nat), ∑ k ∈ Finset.range n, (g.di k).y * I' (k : Nat), ∑ k ∈ Finset.range n, (g.di k).z * I' (k : Nat)⟩

theorem direct_numParams (L : Lens) (func : Core → P2 → Unproj) (h : direct L = some func) : L.numParams.toNat = 4 := by
  unfold direct at h
  cases L <;> simp only [Option.some.injEq, reduceCtorEq] at h <;> rfl

/-- the models that are unprojected directly -/
theorem direct_total (func : Core → P2 → Unproj) (hf : Factors func) (I : ℝ → Int → ℝ) (I' : Int → ℝ) (hI : ∀ k, HasDerivAt (fun s => I s k) (I' k) 0) (Q : ℝ → P2) (d : P2) (hQ : PixDeriv Q d 0)
    (hfx : I 0 0 ≠ 0) (hfy : I 0 1 ≠ 0) :
    HasDerivP (fun s => (func (coreOf (I s)) (Q s)).v) (addP ((directGrads func (I 0) (Q 0)).dq d) (diSum (directGrads func (I 0) (Q 0)) 4 I')) 0 := by
  obtain ⟨gx, gy, gz⟩ := hf.grad unitCore ⟨((Q 0).x - I 0 2) / I 0 0, ((Q 0).y - I 0 3) / I 0 1⟩
  have hu : PixDeriv (fun s => ⟨((Q s).x - I s 2) / I s 0, ((Q s).y - I s 3) / I s 1⟩)
      ⟨((d.x - I' 2) * I 0 0 - ((Q 0).x - I 0 2) * I' 0) / I 0 0 ^ 2, ((d.y - I' 3) * I 0 1 - ((Q 0).y - I 0 3) * I' 1) / I 0 1 ^ 2⟩ 0 :=
    ⟨(hQ.1.sub (hI 2)).div (hI 0) hfx, (hQ.2.sub (hI 3)).div (hI 1) hfy⟩
  have ev : ∀ s, (func (coreOf (I s)) (Q s)).v = (func unitCore ⟨((Q s).x - I s 2) / I s 0, ((Q s).y - I s 3) / I s 1⟩).v := fun s => hf.v (coreOf (I s)) (Q s)
  simp only [ev]
  have eg := hf.dvx (coreOf (I 0)) (Q 0)
  have eh := hf.dvy (coreOf (I 0)) (Q 0)
  have ei := hf.dvz (coreOf (I 0)) (Q 0)
  have c0 : (coreOf (I 0)).fx = I 0 0 := rfl
  have c1 : (coreOf (I 0)).fy = I 0 1 := rfl
  have c2 : (coreOf (I 0)).cx = I 0 2 := rfl
  have c3 : (coreOf (I 0)).cy = I 0 3 := rfl
  rw [c0, c1, c2, c3] at eg eh ei
  have hx := gx _ _ 0 rfl hu.1 hu.2
  have hy := gy _ _ 0 rfl hu.1 hu.2
  have hz := gz _ _ 0 rfl hu.1 hu.2
  refine ⟨hx.congr_deriv ?_, hy.congr_deriv ?_, hz.congr_deriv ?_⟩
  · simp only [addP, Grads.dq, diSum, directGrads, Finset.sum_range_succ, Finset.sum_range_zero, eg]
    norm_num
    generalize (func unitCore ⟨((Q 0).x - I 0 2) / I 0 0, ((Q 0).y - I 0 3) / I 0 1⟩).dvx = D
    field_simp
    ring
  · simp only [addP, Grads.dq, diSum, directGrads, Finset.sum_range_succ, Finset.sum_range_zero, eh]
    norm_num
    generalize (func unitCore ⟨((Q 0).x - I 0 2) / I 0 0, ((Q 0).y - I 0 3) / I 0 1⟩).dvy = D
    field_simp
    ring
  · simp only [addP, Grads.dq, diSum, directGrads, Finset.sum_range_succ, Finset.sum_range_zero, ei]
    norm_num
    generalize (func unitCore ⟨((Q 0).x - I 0 2) / I 0 0, ((Q 0).y - I 0 3) / I 0 1⟩).dvz = D
    field_simp
    ring

theorem HasDerivP.unique {V : ℝ → P3} {a b : P3} {t : ℝ} (h : HasDerivP V a t) (h' : HasDerivP V b t) : a = b := by
  ext
  · exact h.1.unique h'.1
  · exact h.2.1.unique h'.2.1
  · exact h.2.2.unique h'.2.2

/-- the reported gradients are the velocity of the vector, whatever moves -/
theorem ray_total (L : Lens) (intr : Int → ℝ) (solve : Solver) (prev : NanP3) (q : P2) (g : Grads) (hg : unprojectGrads L intr solve prev false q = some (some g)) (hok : LensOk L intr g.v)
    (I : ℝ → Int → ℝ) (I' : Int → ℝ) (hI0 : I 0 = intr) (hI : ∀ k, HasDerivAt (fun s => I s k) (I' k) 0) (hs : ∀ k, k < 0 ∨ L.numParams ≤ k → I' k = 0)
    (Q : ℝ → P2) (d : P2) (hQ : PixDeriv Q d 0) (V : ℝ → P3) (w : P3) (hV0 : V 0 = g.v) (hV : HasDerivP V w 0) (hray : Ray L q I Q V) :
    w = addP (g.dq d) (diSum g L.numParams.toNat I') := by
  obtain ⟨hvalid, hfx, hfy, hreg⟩ := hok
  unfold Ray at hray
  have hg' := hg
  unfold unprojectGrads at hg
  cases hd : direct L with
  | some func =>
    rw [hd] at hg hray
    simp only [Bool.false_and, Bool.false_eq_true, if_false, Option.some.injEq] at hg hray
    obtain ⟨hq0, hray⟩ := hray
    have hf := direct_factors L func hd
    subst hI0
    have key := direct_total func hf I I' hI Q d hQ hfx hfy
    rw [direct_numParams L func hd, ← hg]
    rw [hq0] at key
    refine HasDerivP.unique hV ?_
    have ee : (fun s => (func (coreOf (I s)) (Q s)).v) =ᶠ[nhds 0] V := by
      filter_upwards [hray solve prev] with s hs
      unfold unproject at hs
      rw [hd] at hs
      simp only [Bool.false_and, Bool.false_eq_true, if_false, Option.some.injEq] at hs
      exact of_inj hs
    exact ⟨key.1.congr_of_eventuallyEq (ee.symm.fun_comp P3.x), key.2.1.congr_of_eventuallyEq (ee.symm.fun_comp P3.y), key.2.2.congr_of_eventuallyEq (ee.symm.fun_comp P3.z)⟩
  | none =>
    rw [hd] at hg hray
    simp only at hg hray
    obtain ⟨nv, -, hg⟩ := Option.bind_eq_some_iff.mp hg
    cases hfin : finite nv with
    | none => rw [hfin] at hg; simp at hg
    | some vs =>
      rw [hfin] at hg
      simp only [Option.map_eq_some_iff, Bool.false_eq_true, if_false] at hg
      obtain ⟨o, ho, e⟩ := hg
      obtain ⟨g', ho', e'⟩ := e
      subst e'
      rw [ho'] at ho
      have hr := hreg hd
      obtain ⟨gx, gy, di, a1, a2, a3, a4, a5⟩ := mainGrads_core L hvalid intr vs g' ho hr
      obtain ⟨m, hm⟩ := project_succeeds L hvalid intr 1 (fun _ => g'.v) true true ⟨fun _ => ⟨0, 0⟩, fun _ => ⟨0, 0, 0⟩, fun _ => 0⟩
      have hn : ((L.numParams.toNat : Nat) : Int) = L.numParams := Int.toNat_of_nonneg (by have := StateLayout.numParams_ge4 L; omega)
      -- the gradients of the projection are these
      have eI : ∀ col : Nat, col < L.numParams.toNat → m.di col = (di col).x ∧ m.di (L.numParams.toNat + col) = (di col).y := by
        intro col hcol
        have cu : ∀ k, HasDerivAt (fun s => Function.update intr (col : Int) s k) (if k = (col : Int) then 1 else 0) (intr col) := by
          intro k
          by_cases h : k = (col : Int)
          · subst h; simp only [Function.update_self, if_true]; exact hasDerivAt_id' _
          · simp only [Function.update_of_ne h, if_neg h]; exact hasDerivAt_const _ _
        have hz : HasDerivP (fun _ => g'.v) ⟨0, 0, 0⟩ (intr col) := ⟨hasDerivAt_const _ _, hasDerivAt_const _ _, hasDerivAt_const _ _⟩
        have k0 := pix_total L hvalid intr g'.v hr _ m hm (t := intr col) (I := fun s => Function.update intr (col : Int) s) (I' := fun k => if k = (col : Int) then 1 else 0)
          (Function.update_eq_self _ _) cu (fun k hk => if_neg (by omega)) (q := fun _ => g'.v) rfl hz
        have s0 := (k0 0 (by omega)).unique (a3 col hcol).1
        have s1 := (k0 1 (by omega)).unique (a3 col hcol).2
        have es : ∀ f : Nat → ℝ, ∑ k ∈ Finset.range L.numParams.toNat, f k * (if (k : Int) = (col : Int) then 1 else 0) = f col := by
          intro f
          simp [Finset.sum_ite_eq', hcol]
        rw [es (fun k => m.di (0 * L.numParams.toNat + k))] at s0
        rw [es (fun k => m.di (1 * L.numParams.toNat + k))] at s1
        simp only [inner3, mul_zero, add_zero, zero_add, zero_mul, one_mul] at s0 s1
        exact ⟨s0, s1⟩
      have hc0 := pix_total L hvalid intr g'.v hr _ m hm (t := 0) (I := I) (I' := I') hI0 hI hs (q := V) hV0 hV
      have hcx := pix_total L hvalid intr g'.v hr _ m hm (t := 0) (I := fun _ => intr) (I' := fun _ => 0) rfl (fun _ => hasDerivAt_const _ _) (fun _ _ => rfl) (q := V) hV0 hV
      simp only [mul_zero, Finset.sum_const_zero, add_zero] at hcx
      have ex := (hcx 0 (by omega)).unique (a1 V w 0 hV0 hV.1 hV.2.1 hV.2.2)
      have ey := (hcx 1 (by omega)).unique (a2 V w 0 hV0 hV.1 hV.2.1 hV.2.2)
      have px := (hc0 0 (by omega)).unique (hQ.1.congr_of_eventuallyEq (hray.mono fun s h => by simp only [pick2, if_true]; exact congrArg P2.x h.1))
      have py := (hc0 1 (by omega)).unique (hQ.2.congr_of_eventuallyEq (hray.mono fun s h => by simp only [pick2, one_ne_zero, if_false]; exact congrArg P2.y h.1))
      rw [ex] at px
      rw [ey] at py
      have htan := length_tangent V w 0 hV (hray.mono fun s h => h.2)
      rw [hV0] at htan
      have sx : ∑ col ∈ Finset.range L.numParams.toNat, m.di (0 * L.numParams.toNat + col) * I' (col : Nat) = ∑ col ∈ Finset.range L.numParams.toNat, (di col).x * I' (col : Nat) :=
        Finset.sum_congr rfl fun k hk => by rw [zero_mul, zero_add, (eI k (Finset.mem_range.1 hk)).1]
      have sy : ∑ col ∈ Finset.range L.numParams.toNat, m.di (1 * L.numParams.toNat + col) * I' (col : Nat) = ∑ col ∈ Finset.range L.numParams.toNat, (di col).y * I' (col : Nat) :=
        Finset.sum_congr rfl fun k hk => by rw [one_mul, (eI k (Finset.mem_range.1 hk)).2]
      rw [sx] at px
      rw [sy] at py
      have main := a4 w ⟨d.x - ∑ col ∈ Finset.range L.numParams.toNat, (di col).x * I' (col : Nat), d.y - ∑ col ∈ Finset.range L.numParams.toNat, (di col).y * I' (col : Nat)⟩ htan
        (by unfold dotP; simp only; linarith) (by unfold dotP; simp only; linarith)
      rw [main]
      have lin : ∀ a b : ℝ, a * (∑ col ∈ Finset.range L.numParams.toNat, (di col).x * I' (col : Nat)) + b * (∑ col ∈ Finset.range L.numParams.toNat, (di col).y * I' (col : Nat)) =
          - ∑ k ∈ Finset.range L.numParams.toNat, (a * -(di k).x + b * -(di k).y) * I' (k : Nat) := by
        intro a b
        rw [Finset.mul_sum, Finset.mul_sum, ← Finset.sum_add_distrib, ← Finset.sum_neg_distrib]
        exact Finset.sum_congr rfl fun k _ => by ring
      ext
      · simp only [addP, diSum, a5]; unfold Grads.dq; simp only; linarith [lin g'.dvx.x g'.dvx.y]
      · simp only [addP, diSum, a5]; unfold Grads.dq; simp only; linarith [lin g'.dvy.x g'.dvy.y]
      · simp only [addP, diSum, a5]; unfold Grads.dq; simp only; linarith [lin g'.dvz.x g'.dvz.y]

/-- the reported vector doesn't change if nothing moves: its scaling -/
theorem ray_scaling (L : Lens) (intr : Int → ℝ) (solve : Solver) (prev : NanP3) (q : P2) (g : Grads) (hg : unprojectGrads L intr solve prev false q = some (some g)) (hd : direct L = none) : Length false g.v := by
  unfold unprojectGrads at hg
  rw [hd] at hg
  simp only at hg
  obtain ⟨nv, -, hg⟩ := Option.bind_eq_some_iff.mp hg
  cases hfin : finite nv with
  | none => rw [hfin] at hg; simp at hg
  | some vs =>
    rw [hfin] at hg
    simp only [Option.map_eq_some_iff, Bool.false_eq_true, if_false] at hg
    obtain ⟨o, ho, g', ho', e'⟩ := hg
    subst e'
    rw [ho'] at ho
    exact (mainGrads_v L intr vs g' ho).1

end Mrcal.TriPy
