import Verif.Props.ProjUncGeom
import Verif.Props.ProjUncLens
import Verif.Props.PropagateProps
import Verif.Props.UncertaintyProps
import Verif.Props.JacobianRowsProps
/-
C81: each block of columns of dq/db, applied to a change of the state
-/
namespace Mrcal.ProjUnc
open Mrcal Mrcal.Pose Mrcal.Callback Mrcal.Pack Mrcal.StateLayout Mrcal.Propagate Mrcal.Uncertainty

/-- the change of row r, if the packed state moves by v -/
noncomputable def dot (d : Dims) (F : Grad) (v : Mem) (r : Nat) : ℝ := ∑ j ∈ Finset.range (numStates d).toNat, F r j * (unpackVector d v).1 j

theorem deltaF_flat (d : Dims) (F : Grad) (v : Mem) (r : Nat) :
    deltaF d (fun i => F (i / ((numStates d).toNat : Nat)).toNat (i % ((numStates d).toNat : Nat))) v r = dot d F v r := by
  unfold deltaF dot
  refine Finset.sum_congr rfl fun j hj => ?_
  have hj := Finset.mem_range.1 hj
  generalize (numStates d).toNat = n at *
  have e1 : ((r : Int) * (n : Nat) + (j : Nat)) / (n : Nat) = r := by
    rw [add_comm, Int.add_mul_ediv_right _ _ (by omega), Int.ediv_eq_zero_of_lt (by omega) (by omega), zero_add]
  have e2 : ((r : Int) * (n : Nat) + (j : Nat)) % (n : Nat) = j := by
    rw [add_comm, Int.add_mul_emod_self_right, Int.emod_eq_of_lt (by omega) (by omega)]
  beta_reduce
  rw [e1, e2, Int.toNat_natCast]

/-- a block of consecutive columns -/
theorem sum_slice (N i0 m : Nat) (h : i0 + m ≤ N) (f : Nat → ℝ) :
    ∑ j ∈ Finset.range N, (if i0 ≤ j ∧ j < i0 + m then f (j - i0) else 0) = ∑ k ∈ Finset.range m, f k := by
  rw [← Finset.sum_filter]
  refine Finset.sum_nbij' (fun j => j - i0) (fun k => i0 + k) ?_ ?_ ?_ ?_ ?_
  · intro j hj
    obtain ⟨h1, h2⟩ := Finset.mem_filter.1 hj
    exact Finset.mem_range.2 (by omega)
  · intro k hk
    have := Finset.mem_range.1 hk
    exact Finset.mem_filter.2 ⟨Finset.mem_range.2 (by omega), by omega, by omega⟩
  · intro j hj
    obtain ⟨h1, h2⟩ := Finset.mem_filter.1 hj
    omega
  · intro k _; omega
  · intro j _; rfl

/-- columns that are replaced only where they were 0 -/
theorem dot_replace (d : Dims) (F G : Grad) (v : Mem) (r : Nat) (i0 m : Int) (h0 : 0 ≤ i0) (hm : 0 ≤ m) (h : i0 + m ≤ numStates d) (f : Nat → ℝ)
    (hG : ∀ c, G r c = if i0 ≤ c ∧ c < i0 + m then f (c - i0).toNat else F r c) (hF : ∀ c, i0 ≤ c → c < i0 + m → F r c = 0) :
    dot d G v r = dot d F v r + ∑ k ∈ Finset.range m.toNat, f k * (unpackVector d v).1 (i0 + k) := by
  unfold dot
  rw [← sum_slice (numStates d).toNat i0.toNat m.toNat (by omega) fun k => f k * (unpackVector d v).1 (i0 + k), ← Finset.sum_add_distrib]
  refine Finset.sum_congr rfl fun j _ => ?_
  rw [hG]
  by_cases hj : i0 ≤ (j : Int) ∧ (j : Int) < i0 + m
  · rw [if_pos hj, if_pos (by omega), hF j hj.1 hj.2, zero_mul, zero_add, show ((j : Int) - i0).toNat = j - i0.toNat by omega,
      show i0 + ((j - i0.toNat : Nat) : Int) = j by omega]
  · rw [if_neg hj, if_neg (by omega), add_zero]

/-! ### intrinsics -/

theorem dot_zero (d : Dims) (v : Mem) (r : Nat) : dot d (fun _ _ => 0) v r = 0 := by simp [dot]

theorem intrinsics_range (d : Dims) (wf : WF d) (icam : Int) (h : 0 ≤ stateIndexIntrinsics icam d) :
    0 ≤ icam ∧ icam < d.Nci ∧ 0 < numIntrinsicsOpt d.sel d.lens ∧ stateIndexIntrinsics icam d = icam * numIntrinsicsOpt d.sel d.lens ∧
      stateIndexIntrinsics icam d + numIntrinsicsOpt d.sel d.lens ≤ numStatesIntrinsics d ∧ numStatesIntrinsics d ≤ numStates d := by
  obtain ⟨n1, n2, n3, n4, n5⟩ := nonnegs wf
  unfold stateIndexIntrinsics at h ⊢
  simp only at h ⊢
  split_ifs at h ⊢ with h1 h2 h3
  · omega
  · omega
  · omega
  · simp only [Bool.not_eq_true', Bool.not_eq_false, Bool.and_eq_true, decide_eq_true_eq] at h3
    refine ⟨h3.1, h3.2, by omega, rfl, ?_, ?_⟩
    · unfold numStatesIntrinsics
      have := Int.mul_le_mul_of_nonneg_right (show icam + 1 ≤ d.Nci by omega) (show 0 ≤ numIntrinsicsOpt d.sel d.lens by omega)
      rw [add_mul, one_mul] at this; exact this
    · unfold numStates; omega

theorem intrinsics_index (d : Dims) (icam : Int) (h0 : 0 ≤ icam) (h1 : icam < d.Nci) : 0 ≤ stateIndexIntrinsics icam d ↔ 0 < numIntrinsicsOpt d.sel d.lens := by
  unfold stateIndexIntrinsics
  rw [if_neg (by omega)]
  by_cases h : numIntrinsicsOpt d.sel d.lens ≤ 0
  · simp only [h, if_true]; omega
  · simp only [h, if_false]
    rw [if_neg (by simp; omega)]
    have := mul_nonneg h0 (show 0 ≤ numIntrinsicsOpt d.sel d.lens by omega)
    omega

theorem dot_intrinsics (P : Problem) (wf : WF P.d) (icam : Int) (h0 : 0 ≤ icam) (h1 : icam < P.d.Nci) (g : PixGrad) (v : Mem) (r : Nat) :
    dot P.d (intrinsicsCols P g (sliceIntrinsics P icam)) v r = ∑ k ∈ Finset.range P.d.lens.numParams.toNat, g.di r k * intrinsicsAt P.d v zeroP icam k := by
  have hc := hasCore P.d.lens
  have h4 := numParams_ge4 P.d.lens
  have hopt := numIntrinsicsOpt_eq P.d.sel P.d.lens
  have hidx := intrinsics_index P.d icam h0 h1
  by_cases hi : 0 ≤ stateIndexIntrinsics icam P.d
  · obtain ⟨-, -, hN, -, hr, hr'⟩ := intrinsics_range P.d wf icam hi
    have hs : sliceIntrinsics P icam = some (stateIndexIntrinsics icam P.d, if P.d.sel.core = false then 4 else 0) := by
      unfold sliceIntrinsics
      simp only [ge_iff_le, if_pos hi, hc, and_true]
    rw [hs, dot_replace P.d (fun _ _ => 0) _ v r (stateIndexIntrinsics icam P.d) (numIntrinsicsOpt P.d.sel P.d.lens) hi hN.le (by omega)
      (fun k => g.di r ((if P.d.sel.core = false then 4 else 0) + k)) (fun c => rfl) (fun _ _ _ => rfl), dot_zero, zero_add]
    have hU : ∀ k : Int, 0 ≤ k → k < numIntrinsicsOpt P.d.sel P.d.lens →
        (unpackVector P.d v).1 (stateIndexIntrinsics icam P.d + k) = v (stateIndexIntrinsics icam P.d + k) * Pack.unit P.d (.intrinsics icam k) :=
      fun k a b => (unpack_vector_scales P.d wf v).1 (.intrinsics icam k) ⟨h0, h1, a, by rw [← hopt]; exact b⟩
    have esum : P.d.lens.numParams.toNat = 4 + (P.d.lens.numParams.toNat - 4) := by omega
    rw [esum, Finset.sum_range_add]
    unfold specIntrinsicsPerCamera at hopt
    cases hcore : P.d.sel.core with
    | true =>
      have A : ∑ k ∈ Finset.range 4, g.di r k * intrinsicsAt P.d v zeroP icam k = ∑ k ∈ Finset.range 4, g.di r k * (unpackVector P.d v).1 (stateIndexIntrinsics icam P.d + k) := by
        refine Finset.sum_congr rfl fun k hk => ?_
        have hk := Finset.mem_range.1 hk
        rw [core_rate P.d v icam k (by omega) (by omega), if_pos hcore, hU k (by omega) (by rw [hopt, if_pos hcore]; split_ifs <;> omega)]
        simp only [Pack.unit, hcore, if_true]
        rw [if_pos (show (k : Int) < 4 by omega)]
      rw [A]
      cases hd : P.d.sel.distortions with
      | true =>
        rw [hcore, hd, if_pos rfl, if_pos rfl] at hopt
        rw [show (numIntrinsicsOpt P.d.sel P.d.lens).toNat = 4 + (P.d.lens.numParams.toNat - 4) by omega, Finset.sum_range_add]
        simp only [Bool.true_eq_false, if_false, zero_add]
        congr 1
        refine Finset.sum_congr rfl fun k hk => ?_
        have hk := Finset.mem_range.1 hk
        rw [dist_rate P.d v icam _ (by omega) (by push_cast; omega), if_pos hd, hU _ (by omega) (by push_cast; omega)]
        simp only [Pack.unit, hcore, if_true]
        rw [if_neg (by push_cast; omega), if_neg (by push_cast; omega)]
        simp only [NcoreState, hcore, hc, Bool.and_true, if_true]
        rw [show stateIndexIntrinsics icam P.d + 4 + (((4 + k : Nat) : Int) - 4) = stateIndexIntrinsics icam P.d + ((4 + k : Nat) : Int) by push_cast; ring]
      | false =>
        rw [hcore, hd, if_pos rfl, if_neg (by simp)] at hopt
        rw [show (numIntrinsicsOpt P.d.sel P.d.lens).toNat = 4 by omega]
        simp only [Bool.true_eq_false, if_false, zero_add]
        rw [eq_comm, add_eq_left]
        refine Finset.sum_eq_zero fun k hk => ?_
        have hk := Finset.mem_range.1 hk
        rw [dist_rate P.d v icam _ (by omega) (by push_cast; omega), if_neg (by simp [hd]), mul_zero]
    | false =>
      have A : ∑ k ∈ Finset.range 4, g.di r k * intrinsicsAt P.d v zeroP icam k = 0 := by
        refine Finset.sum_eq_zero fun k hk => ?_
        have hk := Finset.mem_range.1 hk
        rw [core_rate P.d v icam k (by omega) (by omega), if_neg (by simp [hcore]), mul_zero]
      rw [A, zero_add]
      rw [hcore, if_neg (by simp)] at hopt
      have hd : P.d.sel.distortions = true := by
        by_contra hd
        rw [if_neg hd] at hopt
        omega
      rw [hd, if_pos rfl] at hopt
      rw [show (numIntrinsicsOpt P.d.sel P.d.lens).toNat = P.d.lens.numParams.toNat - 4 by omega]
      simp only [if_true]
      refine Finset.sum_congr rfl fun k hk => ?_
      have hk := Finset.mem_range.1 hk
      rw [dist_rate P.d v icam _ (by omega) (by push_cast; omega), if_pos hd, hU _ (by omega) (by omega)]
      simp only [Pack.unit, hcore, Bool.false_eq_true, if_false]
      simp only [NcoreState, hcore, hc, Bool.and_false, Bool.false_eq_true, if_false, add_zero]
      rw [show stateIndexIntrinsics icam P.d + (((4 + k : Nat) : Int) - 4) = stateIndexIntrinsics icam P.d + (k : Int) by push_cast; ring]
  · have hs : sliceIntrinsics P icam = none := by
      unfold sliceIntrinsics
      simp only [ge_iff_le, if_neg hi]
    rw [hs]
    have : intrinsicsCols P g none = fun _ _ => 0 := rfl
    rw [this, dot_zero, eq_comm]
    refine Finset.sum_eq_zero fun k hk => ?_
    have hk := Finset.mem_range.1 hk
    have hz : numIntrinsicsOpt P.d.sel P.d.lens ≤ 0 := by rw [hidx] at hi; omega
    unfold specIntrinsicsPerCamera at hopt
    by_cases hk4 : k < 4
    · have hcore : ¬ P.d.sel.core = true := by
        intro h
        rw [if_pos h] at hopt
        split_ifs at hopt <;> omega
      rw [core_rate P.d v icam k (by omega) (by omega), if_neg hcore, mul_zero]
    · by_cases hd : P.d.sel.distortions = true
      · rw [if_pos hd] at hopt
        split_ifs at hopt <;> omega
      · rw [dist_rate P.d v icam k (by omega) (by omega), if_neg hd, mul_zero]

/-! ### the small transformation -/

theorem dot_add_K (d : Dims) (g : Nat → P3) (p : P3) (K : Nat → Int → ℝ) (at_ : Bool) (F : Grad) (v : Mem) (r : Nat) :
    let u : Nat → ℝ := fun k => ∑ j ∈ Finset.range (numStates d).toNat, K k j * (unpackVector d v).1 j
    dot d (addK g p K at_ F) v r = dot d F v r + inner3 (g r) (addP (mulVec (skew p) ⟨u 0, u 1, u 2⟩) (if at_ then ⟨0, 0, 0⟩ else negP ⟨u 3, u 4, u 5⟩)) := by
  intro u
  have e : ∀ w : P3, inner3 (g r) (mulVec (skew p) w) = inner3 (vecMul (g r) (skew p)) w := by
    intro w; simp [inner3, Pose.mulVec, Pose.vecMul, skew]; ring
  have split : ∀ a b : P3, inner3 (g r) (addP a b) = inner3 (g r) a + inner3 (g r) b := by
    intro a b; simp [inner3, addP]; ring
  rw [split, e]
  unfold dot addK
  obtain ⟨w, hw⟩ : ∃ w, w = vecMul (g r) (skew p) := ⟨_, rfl⟩
  rw [← hw]
  obtain ⟨U, hU⟩ : ∃ U, U = (unpackVector d v).1 := ⟨_, rfl⟩
  rw [← hU]
  simp only [← hw, u, ← hU, inner3]
  cases at_ with
  | true =>
    simp only [Bool.not_true, Bool.false_eq_true, if_false, if_true, mul_zero, add_zero]
    simp only [Finset.mul_sum, ← Finset.sum_add_distrib]
    exact Finset.sum_congr rfl fun j _ => by ring
  | false =>
    simp only [Bool.not_false, Bool.false_eq_true, if_false, if_true, negP, mul_neg]
    simp only [Finset.mul_sum, ← Finset.sum_add_distrib, ← Finset.sum_neg_distrib]
    exact Finset.sum_congr rfl fun j _ => by ring

theorem csrOf_reads (out : Out) : Reads out (csrOf out).Jp (csrOf out).Ji (csrOf out).Jx where
  ptr := by intro k v h; simp [csrOf, List.getD_eq_getElem?_getD, h]
  col := by intro k v h; simp [csrOf, List.getD_eq_getElem?_getD, h]
  val := by intro k v h; simp [csrOf, List.getD_eq_getElem?_getD, h]

theorem k_apply (L : Lapack) (P : Problem) (wf : WF P.d) (h0 : 0 < numStates P.d) (icam : Int) (Ku : Nat → Int → ℝ) (h : kUnpacked L P icam = some Ku) :
    ∃ out K, optimizerCallback (P.ctx (bPacked P)) = some out ∧
      drtCrossReprojection L P.d P.W P.H P.points.length icam (bPacked P) (numStates P.d) (numStates P.d) (csrOf out).Jp (csrOf out).Ji (csrOf out).Jx = some K ∧
      ∀ (v : Mem) (k : Fin 6), ∑ j ∈ Finset.range (numStates P.d).toNat, Ku k j * (unpackVector P.d v).1 j = apply P.d K v k := by
  unfold kUnpacked at h
  simp only [Option.bind_eq_bind, Option.bind_eq_some_iff] at h
  obtain ⟨out, ho, K, hK, flat, hf, e⟩ := h
  refine ⟨out, K, ho, hK, ?_⟩
  have hN : ((numStates P.d).toNat : Int) = numStates P.d := Int.toNat_of_nonneg h0.le
  obtain ⟨x', hx', h1, -⟩ := pack_unpack_array true P.d wf h0 6 fun i => K (i / ((numStates P.d).toNat : Nat)).toNat (i % ((numStates P.d).toNat : Nat))
  have ef : flat = x' := Option.some.inj (hf.symm.trans hx')
  intro v k
  unfold apply
  refine Finset.sum_congr rfl fun j hj => ?_
  have hj := Finset.mem_range.1 hj
  obtain ⟨w, ⟨hw, hl⟩, -⟩ := state_layout_tiles P.d wf j (by omega) (by omega)
  have eK : Ku k j = flat ((k : Nat) * ((numStates P.d).toNat : Nat) + j) := by
    rw [← Option.some.inj e]
    rfl
  have hk := k.2
  have e2 := h1 (k : Nat) w (by omega) (by omega) hw
  rw [hl, if_pos rfl] at e2
  have d1 : (((k : Nat) : Int) * numStates P.d + (j : Nat)) / numStates P.d = (k : Nat) := by
    rw [add_comm, Int.add_mul_ediv_right _ _ (by omega), Int.ediv_eq_zero_of_lt (by omega) (by omega), zero_add]
  have d2 : (((k : Nat) : Int) * numStates P.d + (j : Nat)) % numStates P.d = j := by
    rw [add_comm, Int.add_mul_emod_self_right, Int.emod_eq_of_lt (by omega) (by omega)]
  have e3 := (unpack_vector_scales P.d wf v).1 w hw
  rw [hl] at e3
  rw [eK, ef, hN, e2, e3, hN, d1, d2, Int.toNat_natCast]
  have := (unit_pos P.d w).ne'
  field_simp

end Mrcal.ProjUnc
