import Verif.Props.ProjUncInfinity
/-
C82: when projection_uncertainty() produces an answer, and when it doesn't though it should
-/
namespace Mrcal.ProjUnc
open Mrcal Mrcal.Pose Mrcal.Callback Mrcal.Pack Mrcal.StateLayout Mrcal.Propagate Mrcal.Uncertainty
open MeasureTheory Matrix

/-! ### Specification -/

/-- **Specification**: the observations (of this camera, or all) notice each small transformation -/
def Definite (P : Problem) (out : Callback.Out) (icam : Int) : Prop := ∀ u : Fin 6 → ℝ, u ≠ 0 → 0 < Uncertainty.cost (P.ctx (bPacked P)) out icam (bPacked P) u fun _ => 0

/-- **Specification**: this camera has observed from n consecutive poses; either it was at the reference, or the poses are being optimized -/
def PosesKnown (P : Problem) (icam : Int) (n : Nat) : Prop :=
  ∃ e : Int, 0 < n ∧ (∀ x, Observes P icam x ↔ e ≤ x ∧ x < e + n) ∧ ((e < 0 ∧ n = 1) ∨ (0 ≤ e ∧ P.d.sel.extrinsics = true))

/-- **Specification**: what each method needs -/
def MethodOk (P : Problem) (out : Callback.Out) (method : String) (icam : Int) : Prop :=
  (method = "cross-reprojection-ccp" ∧ Supported (P.ctx (bPacked P)) icam ∧ Definite P out icam) ∨
  (method = "cross-reprojection-rrp-Jfp" ∧ Supported (P.ctx (bPacked P)) (-1) ∧ Definite P out (-1) ∧ 0 < numIntrinsicsOpt P.d.sel P.d.lens ∧ PosesKnown P icam 1) ∨
  (method = "mean-pcam" ∧ (P.d.sel.frames = true → P.points = [] ∧ P.tri = [] ∧ 0 < P.d.Nframes) ∧ 0 < numIntrinsicsOpt P.d.sel P.d.lens ∧ ∃ n, PosesKnown P icam n)

/-! ### lemmas -/

theorem k_available (L : Lapack) (hL : LapackOk L) (P : Problem) (hP : Solved P) (h0 : 0 < numStates P.d) (hne : NoEmptyRows (P.ctx (bPacked P))) (out : Callback.Out)
    (ho : optimizerCallback (P.ctx (bPacked P)) = some out) (icam : Int) :
    (∃ Ku, kUnpacked L P icam = some Ku) ↔ Supported (P.ctx (bPacked P)) icam ∧ Definite P out icam := by
  have key := cross_reprojection_succeeds_iff L hL (P.ctx (bPacked P)) (hP.ctx _) (problem_idx P hP.valid _) hne out ho _ _ _ (csrOf_reads out) icam (bPacked P) (numStates P.d) (numStates P.d)
  unfold kUnpacked
  simp only [Option.bind_eq_bind, ho, Option.bind_some]
  constructor
  · rintro ⟨Ku, h⟩
    obtain ⟨K, hK, -⟩ := Option.bind_eq_some_iff.1 h
    obtain ⟨-, -, h1, h2⟩ := key.1 ⟨K, hK⟩
    exact ⟨h1, h2⟩
  · rintro ⟨h1, h2⟩
    obtain ⟨K, hK⟩ := key.2 ⟨rfl, rfl, h1, h2⟩
    obtain ⟨x', hx', -⟩ := pack_unpack_array true P.d hP.valid.wf h0 6 fun i => K (i / ((numStates P.d).toNat : Nat)).toNat (i % ((numStates P.d).toNat : Nat))
    refine ⟨fun i j => x' (i * ((numStates P.d).toNat : Nat) + j), ?_⟩
    refine Option.bind_eq_some_iff.2 ⟨K, hK, ?_⟩
    exact Option.bind_eq_some_iff.2 ⟨x', hx', rfl⟩

theorem project_available (P : Problem) (hv : P.Valid) (icam : Int) (p : P3) : ∃ g, projectGrad P icam p = some g := by
  unfold projectGrad
  obtain ⟨m, hm⟩ := Cam.project_succeeds P.d.lens hv.lens (intrinsicsData P icam) 1 (fun _ => p) true true ⟨fun _ => ⟨0, 0⟩, fun _ => ⟨0, 0, 0⟩, fun _ => 0⟩
  rw [hm]
  exact ⟨_, rfl⟩

theorem slice_available (P : Problem) (icam : Int) (h0 : 0 ≤ icam) (h1 : icam < P.d.Nci) : (∃ sl, sliceIntrinsics P icam = some sl) ↔ 0 < numIntrinsicsOpt P.d.sel P.d.lens := by
  have e : stateIndexIntrinsics icam P.d = if numIntrinsicsOpt P.d.sel P.d.lens ≤ 0 then -1 else icam * numIntrinsicsOpt P.d.sel P.d.lens := by
    unfold stateIndexIntrinsics
    rw [if_neg (by omega)]
    simp only
    by_cases hN : numIntrinsicsOpt P.d.sel P.d.lens ≤ 0
    · rw [if_pos hN, if_pos hN]
    · rw [if_neg hN, if_neg hN, if_neg (by simp; omega)]
  unfold sliceIntrinsics
  rw [e]
  by_cases hN : numIntrinsicsOpt P.d.sel P.d.lens ≤ 0
  · rw [if_pos hN]
    simp; omega
  · rw [if_neg hN]
    simp only
    rw [if_pos (mul_nonneg h0 (by omega))]
    simp; omega

theorem range_sorted (e : Int) (n : Nat) : ((List.range n).map fun (i : Nat) => e + i).Pairwise (· ≤ ·) := by
  rw [List.pairwise_map]
  refine List.Pairwise.imp ?_ (List.pairwise_lt_range (n := n))
  intro a b h
  omega

theorem range_nodup (e : Int) (n : Nat) : ((List.range n).map fun (i : Nat) => e + i).Nodup := by
  refine List.Nodup.map ?_ List.nodup_range
  intro a b h
  simpa using h

theorem range_chain (e : Int) (n : Nat) : List.IsChain (fun a b : Int => b - a = 1) ((List.range n).map fun (i : Nat) => e + i) := by
  induction n generalizing e with
  | zero => simp
  | succ n ih =>
    rw [List.range_succ_eq_map, List.map_cons, List.map_map]
    have h := ih (e + 1)
    have e1 : ((fun (i : Nat) => e + (i : Int)) ∘ Nat.succ) = fun (i : Nat) => e + 1 + (i : Int) := by
      funext i
      simp only [Function.comp_def]
      push_cast; omega
    rw [e1]
    cases n with
    | zero => simp
    | succ n =>
      rw [List.range_succ_eq_map, List.map_cons] at h ⊢
      refine List.isChain_cons_cons.2 ⟨by push_cast; omega, h⟩

theorem camExtrinsics_range (P : Problem) (icam e : Int) (n : Nat) (h : ∀ x, Observes P icam x ↔ e ≤ x ∧ x < e + n) : camExtrinsics P icam = (List.range n).map fun (i : Nat) => e + i := by
  have s1 : (camExtrinsics P icam).Pairwise (· ≤ ·) := by
    unfold camExtrinsics
    simpa using List.pairwise_mergeSort (le := fun a b : Int => decide (a ≤ b)) (fun a b c h1 h2 => by simp at h1 h2 ⊢; omega) (fun a b => by simp; omega) _
  refine List.Perm.eq_of_pairwise (le := (· ≤ ·)) (fun a b _ _ h1 h2 => le_antisymm h1 h2) s1 (range_sorted e n) ?_
  refine (List.perm_ext_iff_of_nodup (camExtrinsics_nodup P icam) (range_nodup e n)).2 fun x => ?_
  rw [camExtrinsics_spec, h]
  simp only [List.mem_map, List.mem_range]
  constructor
  · intro hx; exact ⟨(x - e).toNat, by omega, by omega⟩
  · rintro ⟨i, hi, rfl⟩; omega

theorem poses_available (P : Problem) (hv : P.Valid) (icam : Int) (n : Nat) : (∃ rts ist, camPoses P icam = some (rts, ist) ∧ rts.length = n) ↔ PosesKnown P icam n := by
  constructor
  · rintro ⟨rts, ist, h, hn⟩
    obtain ⟨e, m, h1, h2, h3, h4⟩ := camPoses_spec P hv icam rts ist h
    have : m = n := by rw [← hn, h3]; simp
    subst this
    refine ⟨e, h1, h2, ?_⟩
    rcases h4 with ⟨a, b, -⟩ | ⟨a, -, b, -⟩
    · exact Or.inl ⟨a, b⟩
    · exact Or.inr ⟨a, b⟩
  · rintro ⟨e, h1, h2, h3⟩
    have hr := camExtrinsics_range P icam e n h2
    obtain ⟨m, rfl⟩ : ∃ m, n = m + 1 := ⟨n - 1, by omega⟩
    have hc := range_chain e (m + 1)
    unfold camPoses
    rw [hr]
    rw [List.range_succ_eq_map, List.map_cons, Nat.cast_zero, add_zero] at hc ⊢
    simp only
    rw [if_neg (not_not.2 hc)]
    rcases h3 with ⟨a, b⟩ | ⟨a, b⟩
    · obtain rfl : m = 0 := by omega
      rw [if_pos a]
      simp
    · have hN : e < P.d.Nce := by
        rcases (h2 e).2 (by omega) with ⟨o, ho, -, h2⟩ | ⟨o, ho, -, h2⟩
        · rw [← h2]; exact (hv.boards o ho).2.2.1
        · rw [← h2]; exact (hv.points o ho).2.2.1
      have hs : stateIndexExtrinsics e P.d ≥ 0 := by
        unfold stateIndexExtrinsics
        rw [if_neg (by omega), if_neg (by simp [b]), if_neg (by simp; omega)]
        have := (nonnegs hv.wf).1
        omega
      rw [if_neg (by omega), if_pos hs]
      refine ⟨_, _, rfl, by simp⟩

/-- **C82** (the gradient) -/
theorem gradient_available (L : Lapack) (hL : LapackOk L) (P : Problem) (hP : Solved P) (h0 : 0 < numStates P.d) (hne : NoEmptyRows (P.ctx (bPacked P))) (out : Callback.Out)
    (ho : optimizerCallback (P.ctx (bPacked P)) = some out) (method : String) (icam : Int) (at_ : Bool) (p : P3) :
    (∃ F, grad L P method icam at_ p = some F) ↔ 0 ≤ icam ∧ icam < P.d.Nci ∧ MethodOk P out method icam := by
  unfold MethodOk
  by_cases hi : 0 ≤ icam ∧ icam < P.d.Nci
  swap
  · constructor
    · rintro ⟨F, hF⟩
      exact absurd (grad_icam L P method icam at_ p F hF) hi
    · rintro ⟨a, b, -⟩
      exact absurd ⟨a, b⟩ hi
  obtain ⟨g, hg⟩ := project_available P hP.valid icam p
  have ka := k_available L hL P hP h0 hne out ho
  have sa := slice_available P icam hi.1 hi.2
  have pa := poses_available P hP.valid icam
  by_cases hm : method ∈ ["mean-pcam", "cross-reprojection-rrp-Jfp", "cross-reprojection-ccp"]
  swap
  · unfold grad
    rw [if_pos hm]
    simp only [List.mem_cons, List.not_mem_nil, or_false, not_or] at hm
    simp [hm.1, hm.2.1, hm.2.2]
  unfold grad
  rw [if_neg (not_not.2 hm), if_neg (not_not.2 hi)]
  simp only [List.mem_cons, List.not_mem_nil, or_false] at hm
  rcases hm with rfl | rfl | rfl
  · rw [if_neg (by decide)]
    simp only [hi.1, hi.2, true_and, show ("mean-pcam" = "cross-reprojection-ccp") ↔ False from by decide, show ("mean-pcam" = "cross-reprojection-rrp-Jfp") ↔ False from by decide, false_and, false_or, ← sa, ← pa]
    unfold gradOld oldK
    rw [if_neg (by decide)]
    by_cases hf : P.d.sel.frames = true ∧ (P.points ≠ [] ∨ P.tri ≠ [] ∨ P.d.Nframes ≤ 0)
    · rw [if_pos hf]
      simp only [Option.bind_eq_bind, Option.bind_none]
      constructor
      · rintro ⟨F, hF⟩; simp at hF
      · rintro ⟨h, -⟩
        obtain ⟨h1, h2, h3⟩ := h hf.1
        rcases hf.2 with h | h | h
        · exact absurd h1 h
        · exact absurd h2 h
        · omega
    · rw [if_neg hf]
      simp only [Option.bind_eq_bind, Option.bind_some]
      constructor
      · rintro ⟨F, hF⟩
        obtain ⟨⟨rts, ist⟩, h1, hF⟩ := Option.bind_eq_some_iff.1 hF
        obtain ⟨sl, h2, hF⟩ := Option.bind_eq_some_iff.1 hF
        refine ⟨fun h => ?_, ⟨sl, h2⟩, ⟨_, _, _, h1, rfl⟩⟩
        by_contra hh
        refine hf ⟨h, ?_⟩
        by_contra hc
        simp only [not_or, not_not, not_le] at hc
        exact hh hc
      · rintro ⟨-, ⟨sl, h2⟩, n, rts, ist, h1, -⟩
        rw [h1, Option.bind_some, h2, Option.bind_some, hg, Option.bind_some]
        simp
  · rw [if_neg (by decide)]
    simp only [hi.1, hi.2, true_and, show ("cross-reprojection-rrp-Jfp" = "cross-reprojection-ccp") ↔ False from by decide, show ("cross-reprojection-rrp-Jfp" = "mean-pcam") ↔ False from by decide, false_and, or_false, false_or, ← sa, ← pa, ← and_assoc]
    rw [← ka (-1)]
    unfold gradOld oldK
    rw [if_pos rfl]
    simp only [Option.bind_eq_bind]
    constructor
    · rintro ⟨F, hF⟩
      obtain ⟨K, hK, hF⟩ := Option.bind_eq_some_iff.1 hF
      obtain ⟨⟨rts, ist⟩, h1, hF⟩ := Option.bind_eq_some_iff.1 hF
      obtain ⟨sl, h2, hF⟩ := Option.bind_eq_some_iff.1 hF
      rw [hg, Option.bind_some, if_neg (by decide)] at hF
      refine ⟨⟨⟨K, hK⟩, ⟨sl, h2⟩⟩, rts, ist, h1, ?_⟩
      cases rts with
      | nil => simp at hF
      | cons T l =>
        cases l with
        | nil => rfl
        | cons => simp at hF
    · rintro ⟨⟨⟨K, hK⟩, ⟨sl, h2⟩⟩, rts, ist, h1, hn⟩
      obtain ⟨T, rfl⟩ := List.length_eq_one_iff.1 hn
      rw [hK, Option.bind_some, h1, Option.bind_some, h2, Option.bind_some, hg, Option.bind_some, if_neg (by decide)]
      simp
  · rw [if_pos rfl]
    simp only [hi.1, hi.2, true_and, show ("cross-reprojection-ccp" = "cross-reprojection-rrp-Jfp") ↔ False from by decide, show ("cross-reprojection-ccp" = "mean-pcam") ↔ False from by decide, false_and, or_false]
    rw [← ka icam]
    unfold gradCcp
    simp only [Option.bind_eq_bind]
    constructor
    · rintro ⟨F, hF⟩
      obtain ⟨K, hK, hF⟩ := Option.bind_eq_some_iff.1 hF
      exact ⟨K, hK⟩
    · rintro ⟨K, hK⟩
      rw [hK, Option.bind_some, hg, Option.bind_some]
      exact ⟨_, rfl⟩

/-- **C82**. An answer is produced exactly if: what's asked for is known, the method has what it needs, and the problem has a unique solution. And the noise level is known or can be estimated (C80) -/
theorem uncertainty_available (L : Lapack) (hL : LapackOk L) (C : Cholmod) (hC : CholmodOk C) (eigsh : Eigsh) (he : ∀ V, (eigsh 2 V).isSome) (P : Problem) (hP : Solved P)
    (hne : NoEmptyRows (P.ctx (bPacked P))) (out : Callback.Out) (ho : optimizerCallback (P.ctx (bPacked P)) = some out) (method : String) (icam : Int) (at_ : Bool) (what : String) (σ : Option ℝ) (p : P3) :
    (∃ r, projectionUncertainty L C eigsh P icam method at_ what σ p = some r) ↔
      (0 ≤ icam ∧ icam < P.d.Nci ∧ MethodOk P out method icam) ∧ what ∈ ["covariance", "worstdirection-stdev", "rms-stdev", "_covariance-raw"] ∧ 0 < numStates P.d ∧
      (numObserved (P.ctx (bPacked P)) : Int) + numMeasurementsRegularization P.d = out.x.length ∧ FullRank out (numStates P.d) ∧
      (numMeasurementsRegularization P.d = 0 ∨ 0 < numObserved (P.ctx (bPacked P))) ∧ (σ ≠ none ∨ observedPixelUncertainty (P.ctx (bPacked P)) out.x ≠ none) := by
  have key := fun F => propagate_succeeds_iff C hC eigsh what (P.ctx (bPacked P)) (hP.ctx _) (problem_idx P hP.valid _) out ho 2 (by omega) F σ (fun _ => he)
  constructor
  · rintro ⟨r, h⟩
    obtain ⟨F, hF, hp⟩ := unc_some h
    have k := (key _).1 ⟨r, hp⟩
    exact ⟨(gradient_available L hL P hP k.2.1 hne out ho method icam at_ p).1 ⟨F, hF⟩, k⟩
  · rintro ⟨h1, k⟩
    obtain ⟨F, hF⟩ := (gradient_available L hL P hP k.2.1 hne out ho method icam at_ p).2 h1
    unfold projectionUncertainty
    rw [Option.bind_eq_bind, hF, Option.bind_some]
    exact (key _).2 k

/-! ### The answer that's documented, but isn't produced -/

/-- **C82**, violated: if the intrinsics are fixed then no method works. The code means to support this ("slice_intrinsics_state = None"), but `slice_intrinsics_arg` (model_analysis.py:1506) isn't
defined then; and uncertainty.c wants intrinsics in the state -/
theorem fixed_intrinsics_wrong (L : Lapack) (hL : LapackOk L) (C : Cholmod) (hC : CholmodOk C) (eigsh : Eigsh) (he : ∀ V, (eigsh 2 V).isSome) (P : Problem) (hP : Solved P)
    (hne : NoEmptyRows (P.ctx (bPacked P))) (hfix : numIntrinsicsOpt P.d.sel P.d.lens = 0) (method : String) (icam : Int) (at_ : Bool) (what : String) (σ : Option ℝ) (p : P3) :
    projectionUncertainty L C eigsh P icam method at_ what σ p = none := by
  cases h : projectionUncertainty L C eigsh P icam method at_ what σ p with
  | none => rfl
  | some r =>
    obtain ⟨F, hF, hp⟩ := unc_some h
    obtain ⟨out, ho⟩ := callback_some hp
    obtain ⟨⟨hi, -, hm⟩, -⟩ := (uncertainty_available L hL C hC eigsh he P hP hne out ho method icam at_ what σ p).1 ⟨r, h⟩
    rcases hm with ⟨-, ⟨-, -, h⟩, -⟩ | ⟨-, -, -, h, -⟩ | ⟨-, -, h, -⟩
    · have : 0 < numIntrinsicsOpt P.d.sel P.d.lens := h hi
      omega
    · omega
    · omega

/-- **C82**, violated: if the camera poses are fixed, and this camera isn't at the reference, then the older methods fail: `state_index_extrinsics()` returns None, and model_analysis.py:1491-1492 adds
a number to that -/
theorem fixed_extrinsics_wrong (L : Lapack) (C : Cholmod) (eigsh : Eigsh) (P : Problem) (hv : P.Valid) (hfix : P.d.sel.extrinsics = false) (icam e : Int) (he : 0 ≤ e) (hobs : Observes P icam e)
    (method : String) (hm : method ≠ "cross-reprojection-ccp") (at_ : Bool) (what : String) (σ : Option ℝ) (p : P3) :
    projectionUncertainty L C eigsh P icam method at_ what σ p = none := by
  cases h : projectionUncertainty L C eigsh P icam method at_ what σ p with
  | none => rfl
  | some r =>
    obtain ⟨F, hF, -⟩ := unc_some h
    exfalso
    unfold grad at hF
    split_ifs at hF
    unfold gradOld at hF
    simp only [Option.bind_eq_bind] at hF
    obtain ⟨K, -, hF⟩ := Option.bind_eq_some_iff.1 hF
    obtain ⟨⟨rts, ist⟩, h1, -⟩ := Option.bind_eq_some_iff.1 hF
    obtain ⟨e', h2, h3, h4⟩ := (poses_available P hv icam rts.length).1 ⟨rts, ist, h1, rfl⟩
    rcases h4 with ⟨a, b⟩ | ⟨-, b⟩
    · have := (h3 e).1 hobs
      omega
    · rw [hfix] at b; exact absurd b (by simp)

end Mrcal.ProjUnc
