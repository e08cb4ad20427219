import Verif.Props.UncertaintyValues
import Verif.Props.ComposeRProps
import Mathlib.LinearAlgebra.FiniteDimensional.Basic
import Mathlib.LinearAlgebra.Matrix.ToLin
/-
C77: drt_ref_refperturbed__dbpacked(), drt_cam_camperturbed__dbpacked() (uncertainty.c): the reported matrix K is the linear least-squares solution: if the optimized
variables are perturbed by db, then K db is the small transformation of the reference (rrp) or of the camera (ccp) that best explains, to first order, what the
perturbation did to the observations.
-/
namespace Mrcal.Uncertainty
open Mrcal Pose Callback StateLayout

/-! ### Specification -/

/-- **Specification**: the arrays of the sparse matrix are the ones optimizer_callback() has returned. Nothing is assumed past their ends -/
structure Reads (out : Out) (rowptr : Nat → Int) (colidx : Int → Int) (jval : Int → ℝ) : Prop where
  ptr : ∀ (k v : Nat), out.rowptr[k]? = some v → rowptr k = v
  col : ∀ (k : Nat) (v : Int), out.cols[k]? = some v → colidx k = v
  val : ∀ (k : Nat) (v : ℝ), out.vals[k]? = some v → jval k = v

/-- **Specification**: the (6,6) matrix with this packed triangle is positive definite -/
def PosDef (M : Arr) : Prop := ∀ x : Fin 6 → ℝ, x ≠ 0 → 0 < ∑ i : Fin 6, ∑ j : Fin 6, x i * sym 6 M i j * x j

/-- **Specification**: what LAPACK documents: dpptrf() computes the Cholesky factorization, and fails if the matrix isn't positive definite; dpptrs() solves the linear system -/
structure LapackOk (L : Lapack) : Prop where
  factor : ∀ M, (∃ f, L.pptrf M = some f) ↔ PosDef M
  solve : ∀ M f, L.pptrf M = some f → ∀ y, ∃ x, L.pptrs f y = some x ∧ ∀ i : Fin 6, ∑ j : Fin 6, sym 6 M i j * x j = y i

/-- **Specification**: the measurements that we use: all of them (icamI < 0), or those of camera icamI. (index, where it comes from) -/
def usedMeasurements (c : Ctx) (icamI : Int) : List (Source × Nat) := (sources c).zipIdx.filter fun p => decide (icamI < 0 ∨ p.1.icamI = icamI)

/-- **Specification**: the first-order change of the observations if the variables in `Rel` are perturbed by db, and the small transformation u is applied: the sum of squares -/
noncomputable def cost (c : Ctx) (out : Out) (icamI : Int) (b : Int → ℝ) (u : Fin 6 → ℝ) (db : Int → ℝ) : ℝ :=
  ((usedMeasurements c icamI).map fun p =>
    (out.Jv p.2 fun j => (∑ k : Fin 6, vel c.d (decide (icamI ≥ 0)) b p.1 k j * u k) + if Rel c.d (decide (icamI ≥ 0)) j then db j else 0) ^ 2).sum

/-- **Specification**: K db -/
noncomputable def apply (d : Dims) (K : Nat → Int → ℝ) (db : Int → ℝ) (k : Fin 6) : ℝ := ∑ j ∈ Finset.range (numStates d).toNat, K k j * db j

/-! ### The rows -/

theorem source_row (c : Ctx) (hc : CtxOk c) (idx : IdxOk c) (out : Out) (ho : optimizerCallback c = some out) {rowptr : Nat → Int} {colidx : Int → Int} {jval : Int → ℝ}
    (rd : Reads out rowptr colidx jval) (k : Nat) (s : Source) (hs : (sources c)[k]? = some s) : Source.Ok c.d s ∧
      ∃ r, ∃ sp : RowSplit c.d s r, Blocks c.d s colidx jval (rowptr k) (rowptr (k + 1)) r sp ∧ 0 ≤ rowptr k ∧ (∀ v, out.Jv k v = rdot r v) := by
  have hsplit := rows_split c idx hc.nob
  have hk : k < (sources c).length := (List.getElem?_eq_some_iff.1 hs).1
  have hk' : k < (boardRows c ++ pointRows c).length := by rw [← hsplit.length_eq]; exact hk
  obtain ⟨r, hr⟩ : ∃ r, (boardRows c ++ pointRows c)[k]? = some r := ⟨_, List.getElem?_eq_getElem hk'⟩
  obtain ⟨s', hs', ok, ⟨sp⟩⟩ := forall₂_getElem? hsplit k r hr
  obtain rfl := Option.some.inj (hs.symm.trans hs')
  obtain ⟨rows, hrows⟩ : ∃ rows, allRows c = some rows := by
    cases h : allRows c with
    | none => rw [optimizerCallback, h] at ho; simp at ho
    | some rows => exact ⟨rows, rfl⟩
  have hrk : rows[k]? = some r := by
    unfold allRows at hrows
    cases ht : triRows c.d c.projTri 0 c.tri with
    | none => rw [ht] at hrows; simp at hrows
    | some t =>
      rw [ht, Option.map_some] at hrows
      obtain rfl := Option.some.inj hrows
      rw [List.append_assoc (boardRows c ++ pointRows c), List.getElem?_append_left hk', hr]
  obtain ⟨-, a, z, ha, hz, hlen, hent⟩ := callback_rows c rows out hrows ho k r hrk
  have e1 := rd.ptr _ _ ha
  have e2 := rd.ptr _ _ hz
  have hat : RowAt colidx jval (rowptr k) r.entries := by
    intro n x hx
    have hn : n < r.entries.length := (List.getElem?_eq_some_iff.1 hx).1
    rw [← hent, List.getElem?_take_of_lt (by omega), List.getElem?_drop, List.getElem?_zip_eq_some] at hx
    rw [e1]
    have h1 := rd.col _ _ hx.1
    have h2 := rd.val _ _ hx.2
    push_cast at h1 h2
    exact ⟨h1, h2⟩
  refine ⟨ok, r, sp, blocks_of idx.grid sp hat ?_, ?_, ?_⟩
  · rw [e1, e2, hlen]; push_cast; rfl
  · rw [e1]; omega
  · intro v
    unfold Out.Jv rdot
    rw [List.getD_eq_getElem?_getD, List.getD_eq_getElem?_getD, ha, hz]
    simp only [Option.getD_some]
    rw [hent]

theorem rowptr_zero (c : Ctx) (out : Out) (ho : optimizerCallback c = some out) {rowptr : Nat → Int} {colidx : Int → Int} {jval : Int → ℝ}
    (rd : Reads out rowptr colidx jval) : rowptr 0 = 0 := by
  cases h : allRows c with
  | none => rw [optimizerCallback, h] at ho; simp at ho
  | some rows =>
    rw [optimizerCallback, h, Option.map_some] at ho
    obtain rfl := Option.some.inj ho
    refine rd.ptr 0 0 ?_
    simp only [foldl_emit, List.nil_append]
    cases rows <;> simp [starts]

theorem Jv_add (out : Out) (i : Nat) (v w : Int → ℝ) : out.Jv i (fun j => v j + w j) = out.Jv i v + out.Jv i w := by
  unfold Out.Jv
  rw [← List.sum_map_add]
  congr 1
  exact List.map_congr_left fun x _ => by ring

theorem Jv_sum (out : Out) (i : Nat) {ι : Type} (S : Finset ι) (v : ι → Int → ℝ) (u : ι → ℝ) :
    out.Jv i (fun j => ∑ k ∈ S, v k j * u k) = ∑ k ∈ S, out.Jv i (v k) * u k := by
  classical
  induction S using Finset.induction_on with
  | empty => simp [Out.Jv]
  | insert a S h ih =>
    rw [Finset.sum_insert h, ← ih]
    rw [show (fun j => ∑ k ∈ insert a S, v k j * u k) = fun j => v a j * u a + ∑ k ∈ S, v k j * u k from funext fun j => Finset.sum_insert h]
    rw [Jv_add]
    congr 1
    unfold Out.Jv
    rw [← List.sum_map_mul_right]
    congr 1
    exact List.map_congr_left fun x _ => by ring

theorem Jv_unit (out : Out) (i : Nat) (j : Int) : out.Jv i (unit j) = out.J i j := by
  unfold Out.Jv Out.J unit
  congr 1
  exact List.map_congr_left fun x _ => by split_ifs <;> simp

theorem sources_length (c : Ctx) (hc : CtxOk c) :
    (numMeasurementsBoards c.d.Nob c.W c.H + numMeasurementsPoints c.points.length).toNat = (sources c).length := by
  have h : ∀ (l : List BoardObs) (n : Nat), (l.flatMap fun o => List.replicate n (⟨o.icamI, o.icamE, .frame o.iframe⟩ : Source)).length = n * l.length := by
    intro l n; induction l with
    | nil => simp
    | cons o l ih => rw [List.flatMap_cons, List.length_append, ih]; simp; ring
  have h' : ∀ (l : List PointObs) (n : Nat), (l.flatMap fun o => List.replicate n (⟨o.icamI, o.icamE, .point o.ipoint⟩ : Source)).length = n * l.length := by
    intro l n; induction l with
    | nil => simp
    | cons o l ih => rw [List.flatMap_cons, List.length_append, ih]; simp; ring
  unfold sources numMeasurementsBoards numMeasurementsPoints
  rw [List.length_append, h, h', hc.nob]
  have e : (if ((c.boards.length : Nat) : Int) ≤ 0 then (0 : Int) else (c.boards.length : Int) * c.W * c.H * 2) = ((2 * (c.W * c.H) * c.boards.length : Nat) : Int) := by
    split_ifs with h0
    · have : c.boards.length = 0 := by omega
      rw [this]; simp
    · push_cast; ring
  rw [e]
  omega

/-! ### Least squares -/

theorem lsq (S : Finset Nat) (C : Nat → Fin 6 → ℝ) (w : Nat → ℝ) (x : Fin 6 → ℝ) (normal : ∀ k, ∑ i ∈ S, C i k * (∑ k', C i k' * x k' + w i) = 0)
    (pd : ∀ y : Fin 6 → ℝ, y ≠ 0 → 0 < ∑ i ∈ S, (∑ k, C i k * y k) ^ 2) (u : Fin 6 → ℝ) :
    ∑ i ∈ S, (∑ k, C i k * x k + w i) ^ 2 ≤ ∑ i ∈ S, (∑ k, C i k * u k + w i) ^ 2 ∧
    (∑ i ∈ S, (∑ k, C i k * u k + w i) ^ 2 ≤ ∑ i ∈ S, (∑ k, C i k * x k + w i) ^ 2 → u = x) := by
  have e : ∑ i ∈ S, (∑ k, C i k * u k + w i) ^ 2 = ∑ i ∈ S, (∑ k, C i k * x k + w i) ^ 2 + ∑ i ∈ S, (∑ k, C i k * (u k - x k)) ^ 2 := by
    have cross : ∑ i ∈ S, (∑ k, C i k * (u k - x k)) * (∑ k', C i k' * x k' + w i) = 0 := by
      have : ∀ i, (∑ k, C i k * (u k - x k)) * (∑ k', C i k' * x k' + w i) = ∑ k, (u k - x k) * (C i k * (∑ k', C i k' * x k' + w i)) := by
        intro i
        rw [Finset.sum_mul]
        exact Finset.sum_congr rfl fun k _ => by ring
      simp only [this]
      rw [Finset.sum_comm]
      refine Finset.sum_eq_zero fun k _ => ?_
      rw [← Finset.mul_sum, normal k, mul_zero]
    have : ∀ i, (∑ k, C i k * u k + w i) ^ 2 = (∑ k, C i k * x k + w i) ^ 2 + (∑ k, C i k * (u k - x k)) ^ 2 +
        2 * ((∑ k, C i k * (u k - x k)) * (∑ k', C i k' * x k' + w i)) := by
      intro i
      have : ∑ k, C i k * (u k - x k) = ∑ k, C i k * u k - ∑ k, C i k * x k := by
        rw [← Finset.sum_sub_distrib]
        exact Finset.sum_congr rfl fun k _ => by ring
      rw [this]; ring
    simp only [this, Finset.sum_add_distrib]
    rw [← Finset.mul_sum, cross]; ring
  have nn : 0 ≤ ∑ i ∈ S, (∑ k, C i k * (u k - x k)) ^ 2 := Finset.sum_nonneg fun _ _ => sq_nonneg _
  refine ⟨by linarith, fun h => ?_⟩
  by_contra hne
  have := pd (fun k => u k - x k) (fun h0 => hne (funext fun k => sub_eq_zero.mp (congrFun h0 k)))
  linarith

/-! ### The whole function -/

/-- the i-th measurement -/
def src (c : Ctx) (i : Nat) : Source := (sources c).getD i ⟨0, 0, .frame 0⟩

/-- the indices of the used measurements -/
def usedSet (c : Ctx) (icamI : Int) : Finset Nat := (Finset.range (sources c).length).filter fun i => icamI < 0 ∨ (src c i).icamI = icamI

theorem src_get (c : Ctx) (i : Nat) (hi : i < (sources c).length) : (sources c)[i]? = some (src c i) := by
  unfold src
  rw [List.getD_eq_getElem?_getD, List.getElem?_eq_getElem hi, Option.getD_some]

theorem used_sum (c : Ctx) (icamI : Int) (f : Source × Nat → ℝ) : ((usedMeasurements c icamI).map f).sum = ∑ i ∈ usedSet c icamI, f (src c i, i) := by
  have e : (sources c).zipIdx = (List.range (sources c).length).map fun i => (src c i, i) := by
    refine List.ext_getElem? fun i => ?_
    rw [List.getElem?_zipIdx, List.getElem?_map]
    by_cases hi : i < (sources c).length
    · rw [src_get c i hi, List.getElem?_range hi]; simp
    · rw [List.getElem?_eq_none (by omega), List.getElem?_eq_none (by simpa using hi)]; rfl
  unfold usedMeasurements usedSet
  rw [e, List.filter_map, List.map_map, ← List.sum_toFinset _ (List.nodup_range.filter _), List.toFinset_filter, List.toFinset_range]
  refine Finset.sum_congr ?_ fun _ _ => rfl
  ext i
  simp

theorem row_facts (c : Ctx) (hc : CtxOk c) (idx : IdxOk c) (out : Out) (ho : optimizerCallback c = some out) {rowptr : Nat → Int} {colidx : Int → Int} {jval : Int → ℝ}
    (rd : Reads out rowptr colidx jval) (ccp : Bool) (b : Int → ℝ) (i : Nat) (hi : i < (sources c).length) :
    let m := theMap (numIntrinsicsPerMeasurement c.d) (rowptr i) (src c i).icamI ((src c i).has c.d)
    (∀ m', mapRow c.d (numIntrinsicsPerMeasurement c.d) rowptr colidx i = some m' → m' = m) ∧
    (rowptr i < rowptr (i + 1) → mapRow c.d (numIntrinsicsPerMeasurement c.d) rowptr colidx i = some m) ∧ MapOk c.d colidx m ∧
    (∀ k, rowC ccp b colidx jval m k = out.Jv i (vel c.d ccp b (src c i) k)) ∧
    (∀ j, rowV c.d ccp colidx jval m j = if Rel c.d ccp j then out.J i j else 0) ∧
    (∀ v : Int → ℝ, out.Jv i v = ∑ j ∈ Finset.range (numStates c.d).toNat, out.J i j * v j) ∧
    (countIntrinsics colidx (rowptr (i + 1)) (stateIndexIntrinsics 0 c.d) (numStatesIntrinsics c.d) (rowptr (i + 1) - rowptr i).toNat (rowptr i) =
      rowptr i + numIntrinsicsPerMeasurement c.d) ∧
    (rowptr i < rowptr (i + 1) ↔ (0 < numIntrinsicsOpt c.d.sel c.d.lens ∨ ((src c i).e c.d).isSome ∨ ((src c i).f c.d).isSome ∨ ((src c i).p c.d).isSome ∨ (src c i).w c.d = true)) := by
  obtain ⟨ok, r, sp, B, h0, hJ⟩ := source_row c hc idx out ho rd i (src c i) (src_get c i hi)
  have fit := row_fits idx.wf idx.grid ok sp B
  have hfp : ¬ (((src c i).has c.d).f = true ∧ ((src c i).has c.d).p = true) := by
    unfold Source.has Source.f Source.p
    simp only
    cases (src c i).what <;> simp
  have hpw : ¬ (((src c i).has c.d).p = true ∧ ((src c i).has c.d).w = true) := by
    unfold Source.has Source.p Source.w
    simp only
    cases (src c i).what <;> simp
  obtain ⟨m1, m2⟩ := mapRow_spec _ _ _ _ _ _ _ fit hfp
  refine ⟨m1, m2, theMap_ok _ idx.wf _ _ _ _ _ _ fit hfp hpw, fun k => ?_, fun j => ?_, fun v => ?_, count_row idx.wf ok B, ?_⟩
  · rw [row_C idx.wf ok B h0, hJ]
  · rw [row_V idx.wf ok B h0, ← Jv_unit, hJ]
  · have hall : ∀ x ∈ r.entries, 0 ≤ x.1 ∧ x.1 < numStates c.d := by
      obtain ⟨n1, n2, n3, n4, n5⟩ := nonnegs idx.wf
      have tot : numStates c.d = numStatesIntrinsics c.d + numStatesExtrinsics c.d + numStatesFrames c.d + numStatesPoints c.d + numStatesWarp c.d := by unfold numStates; ring
      intro x hx
      rw [sp.all] at hx
      simp only [List.mem_append] at hx
      rcases hx with hx | hx | hx | hx | hx
      · have := sp.mem_I ok x hx; omega
      · have := sp.mem_E ok x hx; omega
      · have := sp.mem_F ok x hx; omega
      · have := sp.mem_P ok x hx; omega
      · have := sp.mem_W ok x hx; omega
    have : ∀ j, out.J i j * v j = rdot r (fun y => unit j y * v j) := by
      intro j
      rw [← Jv_unit, hJ]
      unfold rdot
      rw [← List.sum_map_mul_right]
      congr 1
      exact List.map_congr_left fun x _ => by ring
    simp only [this]
    rw [hJ]
    unfold rdot
    clear this m1 m2 hJ
    clear B sp
    generalize r.entries = es at hall ⊢
    induction es with
    | nil => simp
    | cons x l ih =>
      simp only [List.map_cons, List.sum_cons, Finset.sum_add_distrib]
      rw [← ih fun y hy => hall y (List.mem_cons_of_mem _ hy)]
      congr 1
      obtain ⟨q1, q2⟩ := hall x List.mem_cons_self
      rw [Finset.sum_eq_single x.1.toNat]
      · unfold unit; rw [Int.toNat_of_nonneg q1, if_pos rfl, one_mul]
      · intro j _ hj
        unfold unit
        rw [if_neg (by omega)]; ring
      · intro h
        exact absurd (Finset.mem_range.mpr (by omega)) h
  · obtain ⟨N0, Npos⟩ := perMeasurement_pos c.d idx.grid
    rw [← Npos, ← sp.lenI, B.z]
    have lE : 0 < sp.eE.length ↔ ((src c i).e c.d).isSome := by
      have := congrArg List.length sp.E; rw [List.length_map, cols_length] at this; rw [this]; split_ifs with h <;> simp [h]
    have lF : 0 < sp.eF.length ↔ ((src c i).f c.d).isSome := by
      have := congrArg List.length sp.F; rw [List.length_map, cols_length] at this; rw [this]; split_ifs with h <;> simp [h]
    have lP : 0 < sp.eP.length ↔ ((src c i).p c.d).isSome := by
      have := congrArg List.length sp.P; rw [List.length_map, cols_length] at this; rw [this]; split_ifs with h <;> simp [h]
    have lW : 0 < sp.eW.length ↔ (src c i).w c.d = true := by
      have := congrArg List.length sp.W; rw [List.length_map, cols_length] at this; rw [this]; cases (src c i).w c.d <;> simp
    rw [← lE, ← lF, ← lP, ← lW]
    omega

/-- the derivatives of the i-th measurement with respect to the small transformation -/
noncomputable def Cik (c : Ctx) (out : Out) (icamI : Int) (b : Int → ℝ) (i : Nat) (k : Fin 6) : ℝ := out.Jv i (vel c.d (decide (icamI ≥ 0)) b (src c i) k)

/-- the derivatives of the i-th measurement with respect to the variables we look at -/
noncomputable def Vij (c : Ctx) (out : Out) (icamI : Int) (i : Nat) (j : Int) : ℝ := if Rel c.d (decide (icamI ≥ 0)) j then out.J i j else 0

theorem tot_spec (c : Ctx) (hc : CtxOk c) (idx : IdxOk c) (out : Out) (ho : optimizerCallback c = some out) {rowptr : Nat → Int} {colidx : Int → Int} {jval : Int → ℝ}
    (rd : Reads out rowptr colidx jval) (icamI : Int) (b : Int → ℝ) (s : St) (Nrow : Int) (hN : (sources c).length = 0 ∨ Nrow = numIntrinsicsPerMeasurement c.d)
    (hs : (List.range (sources c).length).foldlM (fun s imeas => step c.d Nrow icamI b rowptr colidx jval imeas s) St.init = some s) :
    (∀ (k : Fin 6) (j : Int), (finish c.d b s).K k j = ∑ i ∈ usedSet c icamI, Cik c out icamI b i k * Vij c out icamI i j) ∧
    (∀ (k k' : Fin 6), sym 6 (finish c.d b s).JJ k k' = ∑ i ∈ usedSet c icamI, Cik c out icamI b i k * Cik c out icamI b i k') := by
  have F := row_facts c hc idx out ho rd (decide (icamI ≥ 0)) b
  obtain ⟨-, tK, tJ, -, -, hcam⟩ := loop_tot c.d Nrow icamI b rowptr colidx jval
    (fun i => theMap (numIntrinsicsPerMeasurement c.d) (rowptr i) (src c i).icamI ((src c i).has c.d)) _ s
    (fun k hk => by
      obtain ⟨m1, -, m3, -⟩ := F k hk
      have : Nrow = numIntrinsicsPerMeasurement c.d := hN.resolve_left (by omega)
      rw [this]
      exact ⟨m1, m3⟩) hs
  have hu : ∀ i < (sources c).length, (used icamI (theMap (numIntrinsicsPerMeasurement c.d) (rowptr i) (src c i).icamI ((src c i).has c.d)) ↔ (icamI < 0 ∨ (src c i).icamI = icamI)) := by
    intro i hi
    unfold used
    by_cases h : icamI < 0
    · simp [h]
    · have hq := hcam i hi (by omega)
      simp only [h, false_or]
      unfold theMap at hq ⊢
      simp only at hq ⊢
      split_ifs at hq ⊢ with h1
      · rfl
      · omega
  refine ⟨fun k j => ?_, fun k k' => ?_⟩
  · rw [finish_K _ _ _ _ k.2, tK _ k.2, usedSet, Finset.sum_filter]
    refine Finset.sum_congr rfl fun i hi => ?_
    have hi := Finset.mem_range.mp hi
    obtain ⟨-, -, -, f1, f2, -⟩ := F i hi
    simp only [hu i hi, f1, f2]
    rfl
  · rw [finish_J _ _ _ _ _ k.2 k'.2, tJ _ k.2 _ k'.2, usedSet, Finset.sum_filter]
    refine Finset.sum_congr rfl fun i hi => ?_
    have hi := Finset.mem_range.mp hi
    obtain ⟨-, -, -, f1, f2, -⟩ := F i hi
    simp only [hu i hi, f1]
    rfl

theorem posdef_iff (S : Finset Nat) (C : Nat → Fin 6 → ℝ) (M : Arr) (h : ∀ k k' : Fin 6, sym 6 M k k' = ∑ i ∈ S, C i k * C i k') :
    PosDef M ↔ ∀ y : Fin 6 → ℝ, y ≠ 0 → 0 < ∑ i ∈ S, (∑ k, C i k * y k) ^ 2 := by
  have e : ∀ y : Fin 6 → ℝ, ∑ i : Fin 6, ∑ j : Fin 6, y i * sym 6 M i j * y j = ∑ i ∈ S, (∑ k, C i k * y k) ^ 2 := by
    intro y
    have : ∀ i, (∑ k, C i k * y k) ^ 2 = ∑ k, ∑ k', y k * (C i k * C i k') * y k' := by
      intro i
      rw [sq, Finset.sum_mul_sum]
      exact Finset.sum_congr rfl fun k _ => Finset.sum_congr rfl fun k' _ => by ring
    simp only [this, h]
    conv_rhs => rw [Finset.sum_comm]
    refine Finset.sum_congr rfl fun k _ => ?_
    conv_rhs => rw [Finset.sum_comm]
    refine Finset.sum_congr rfl fun k' _ => ?_
    rw [Finset.mul_sum, Finset.sum_mul]
  unfold PosDef
  simp only [e]

theorem lsq_kernel (S : Finset Nat) (C : Nat → Fin 6 → ℝ) (x : Fin 6 → ℝ) (h : ∀ k, ∑ i ∈ S, C i k * ∑ k', C i k' * x k' = 0)
    (pd : ∀ y : Fin 6 → ℝ, y ≠ 0 → 0 < ∑ i ∈ S, (∑ k, C i k * y k) ^ 2) : x = 0 := by
  by_contra hne
  have hp := pd x hne
  have : ∑ i ∈ S, (∑ k, C i k * x k) ^ 2 = 0 := by
    have e : ∀ i, (∑ k, C i k * x k) ^ 2 = ∑ k, x k * (C i k * ∑ k', C i k' * x k') := by
      intro i
      rw [sq, Finset.sum_mul]
      exact Finset.sum_congr rfl fun k _ => by ring
    simp only [e]
    rw [Finset.sum_comm]
    refine Finset.sum_eq_zero fun k _ => ?_
    rw [← Finset.mul_sum, h k, mul_zero]
  linarith

/-- the normal equations -/
theorem whole_spec (L : Lapack) (hL : LapackOk L) (c : Ctx) (hc : CtxOk c) (idx : IdxOk c) (out : Out) (ho : optimizerCallback c = some out)
    {rowptr : Nat → Int} {colidx : Int → Int} {jval : Int → ℝ} (rd : Reads out rowptr colidx jval) (icamI : Int) (b : Int → ℝ) (Nb nrow : Int) (K : Nat → Int → ℝ)
    (h : drtCrossReprojection L c.d c.W c.H c.points.length icamI b Nb nrow rowptr colidx jval = some K) :
    (∀ (k : Fin 6) (j : Int), ∑ i ∈ usedSet c icamI, Cik c out icamI b i k * (∑ k' : Fin 6, Cik c out icamI b i k' * K k' j + Vij c out icamI i j) = 0) ∧
    (∀ y : Fin 6 → ℝ, y ≠ 0 → 0 < ∑ i ∈ usedSet c icamI, (∑ k, Cik c out icamI b i k * y k) ^ 2) ∧
    (∀ (k : Fin 6) (j : Int), ¬ Rel c.d (decide (icamI ≥ 0)) j → K k j = 0) := by
  obtain ⟨n1, n2, n3, n4, n5⟩ := nonnegs idx.wf
  have tot : numStates c.d = numStatesIntrinsics c.d + numStatesExtrinsics c.d + numStatesFrames c.d + numStatesPoints c.d + numStatesWarp c.d := by unfold numStates; ring
  unfold drtCrossReprojection at h
  simp only at h
  rw [sources_length c hc] at h
  generalize hNr : countIntrinsics colidx (rowptr 1) (stateIndexIntrinsics 0 c.d) (numStatesIntrinsics c.d) (rowptr 1 - rowptr 0).toNat (rowptr 0) = Nrow at h
  have hN : (sources c).length = 0 ∨ Nrow = numIntrinsicsPerMeasurement c.d := by
    by_cases h0 : (sources c).length = 0
    · exact Or.inl h0
    · right
      obtain ⟨-, -, -, -, -, -, f, -⟩ := row_facts c hc idx out ho rd false b 0 (by omega)
      rw [← hNr]
      simp only [zero_add] at f
      rw [f, rowptr_zero c out ho rd, zero_add]
  split_ifs at h
  cases hf : (List.range (sources c).length).foldlM (fun s imeas => step c.d Nrow icamI b rowptr colidx jval imeas s) St.init with
  | none => rw [hf] at h; simp at h
  | some s =>
    rw [hf] at h
    simp only at h
    obtain ⟨tK, tJ⟩ := tot_spec c hc idx out ho rd icamI b s Nrow hN hf
    cases hpf : L.pptrf (finish c.d b s).JJ with
    | none => rw [hpf] at h; simp at h
    | some f =>
      rw [hpf] at h
      simp only [Option.bind_eq_bind, Option.bind_eq_some_iff] at h
      obtain ⟨K1, h1, K2, h2, K3, h3, h4⟩ := h
      have pd := (posdef_iff _ _ _ tJ).mp ((hL.factor _).mp ⟨f, hpf⟩)
      have sol := hL.solve _ f hpf
      have r := range_iff idx.wf
      have lo1 : 0 < numStatesExtrinsics c.d → 0 ≤ stateIndexExtrinsics 0 c.d := by
        intro hp
        have := ((r (stateIndexExtrinsics 0 c.d)).2.1).mp ⟨le_refl _, by omega⟩
        omega
      have lo2 : 0 < numStatesFrames c.d → 0 ≤ stateIndexFrames 0 c.d := by
        intro hp
        have := ((r (stateIndexFrames 0 c.d)).2.2.1).mp ⟨le_refl _, by omega⟩
        omega
      have lo3 : 0 < numStatesPoints c.d → 0 ≤ stateIndexPoints 0 c.d := by
        intro hp
        have := ((r (stateIndexPoints 0 c.d)).2.2.2.1).mp ⟨le_refl _, by omega⟩
        omega
      have lo4 : 0 < numStatesWarp c.d → 0 ≤ stateIndexWarp c.d := by
        intro hp
        have := ((r (stateIndexWarp c.d)).2.2.2.2).mp ⟨le_refl _, by omega⟩
        omega
      obtain ⟨a1, b1⟩ := finalize_spec L f _ _ n2 lo1 _ _ h1
      obtain ⟨a2, b2⟩ := finalize_spec L f _ _ n3 lo2 _ _ h2
      obtain ⟨a3, b3⟩ := finalize_spec L f _ _ n4 lo3 _ _ h3
      obtain ⟨a4, b4⟩ := finalize_spec L f _ _ n5 lo4 _ _ h4
      -- each column is solved once, or isn't touched
      have col : ∀ j, (numStatesIntrinsics c.d ≤ j ∧ j < numStates c.d → ∃ y, L.pptrs f (fun i => (finish c.d b s).K i j) = some y ∧ ∀ i, K i j = -y i) ∧
          (¬ (numStatesIntrinsics c.d ≤ j ∧ j < numStates c.d) → ∀ i, K i j = (finish c.d b s).K i j) := by
        intro j
        obtain ⟨-, r1, r2, r3, r4⟩ := r j
        by_cases c1 : inRange (stateIndexExtrinsics 0 c.d) (numStatesExtrinsics c.d) j
        · have q := r1.mp c1
          obtain ⟨y, hy, e⟩ := a1 j c1
          refine ⟨fun _ => ⟨y, hy, fun i => ?_⟩, fun hn => absurd (by omega) hn⟩
          rw [b4 j (fun x => by have := r4.mp x; omega), b3 j (fun x => by have := r3.mp x; omega), b2 j (fun x => by have := r2.mp x; omega), e]
        · by_cases c2 : inRange (stateIndexFrames 0 c.d) (numStatesFrames c.d) j
          · have q := r2.mp c2
            obtain ⟨y, hy, e⟩ := a2 j c2
            refine ⟨fun _ => ⟨y, ?_, fun i => ?_⟩, fun hn => absurd (by omega) hn⟩
            · rw [← hy]; congr 1; funext i; rw [b1 j c1]
            · rw [b4 j (fun x => by have := r4.mp x; omega), b3 j (fun x => by have := r3.mp x; omega), e]
          · by_cases c3 : inRange (stateIndexPoints 0 c.d) (numStatesPoints c.d) j
            · have q := r3.mp c3
              obtain ⟨y, hy, e⟩ := a3 j c3
              refine ⟨fun _ => ⟨y, ?_, fun i => ?_⟩, fun hn => absurd (by omega) hn⟩
              · rw [← hy]; congr 1; funext i; rw [b2 j c2, b1 j c1]
              · rw [b4 j (fun x => by have := r4.mp x; omega), e]
            · by_cases c4 : inRange (stateIndexWarp c.d) (numStatesWarp c.d) j
              · have q := r4.mp c4
                obtain ⟨y, hy, e⟩ := a4 j c4
                refine ⟨fun _ => ⟨y, ?_, fun i => ?_⟩, fun hn => absurd (by omega) hn⟩
                · rw [← hy]; congr 1; funext i; rw [b3 j c3, b2 j c2, b1 j c1]
                · rw [e]
              · refine ⟨fun hq => ?_, fun _ i => by rw [b4 j c4, b3 j c3, b2 j c2, b1 j c1]⟩
                exfalso
                rw [r1] at c1
                rw [r2] at c2
                rw [r3] at c3
                rw [r4] at c4
                omega
      have zero : ∀ j, ¬ Rel c.d (decide (icamI ≥ 0)) j → ∀ k : Fin 6, (finish c.d b s).K k j = 0 := by
        intro j hj k
        rw [tK]
        refine Finset.sum_eq_zero fun i _ => ?_
        unfold Vij
        rw [if_neg hj, mul_zero]
      have normal : ∀ (k : Fin 6) (j : Int), ∑ k' : Fin 6, sym 6 (finish c.d b s).JJ k k' * K k' j = -(finish c.d b s).K k j := by
        intro k j
        by_cases hj : numStatesIntrinsics c.d ≤ j ∧ j < numStates c.d
        · obtain ⟨y, hy, e⟩ := (col j).1 hj
          obtain ⟨y', hy', e'⟩ := sol (fun i => (finish c.d b s).K i j)
          obtain rfl := Option.some.inj (hy.symm.trans hy')
          rw [← e' k, ← Finset.sum_neg_distrib]
          exact Finset.sum_congr rfl fun k' _ => by rw [e]; ring
        · have hnr : ¬ Rel c.d (decide (icamI ≥ 0)) j := by
            unfold Rel
            split_ifs <;> omega
          rw [zero j hnr, neg_zero]
          refine Finset.sum_eq_zero fun k' _ => ?_
          rw [(col j).2 hj, zero j hnr, mul_zero]
      have main : ∀ (k : Fin 6) (j : Int), ∑ i ∈ usedSet c icamI, Cik c out icamI b i k * (∑ k' : Fin 6, Cik c out icamI b i k' * K k' j + Vij c out icamI i j) = 0 := by
        intro k j
        have h := normal k j
        rw [tK] at h
        have e : ∑ k' : Fin 6, sym 6 (finish c.d b s).JJ k k' * K k' j = ∑ i ∈ usedSet c icamI, Cik c out icamI b i k * ∑ k' : Fin 6, Cik c out icamI b i k' * K k' j := by
          simp only [tJ, Finset.sum_mul, Finset.mul_sum]
          rw [Finset.sum_comm]
          exact Finset.sum_congr rfl fun i _ => Finset.sum_congr rfl fun k' _ => by ring
        rw [e] at h
        simp only [mul_add, Finset.sum_add_distrib]
        linarith
      refine ⟨main, pd, fun k j hj => ?_⟩
      have := lsq_kernel _ _ (fun k' => K k' j) (fun k => by
        have := main k j
        simpa only [Vij, if_neg hj, add_zero] using this) pd
      exact congrFun this k

theorem cost_eq (c : Ctx) (hc : CtxOk c) (idx : IdxOk c) (out : Out) (ho : optimizerCallback c = some out) {rowptr : Nat → Int} {colidx : Int → Int} {jval : Int → ℝ}
    (rd : Reads out rowptr colidx jval) (icamI : Int) (b : Int → ℝ) (u : Fin 6 → ℝ) (db : Int → ℝ) :
    cost c out icamI b u db = ∑ i ∈ usedSet c icamI, (∑ k, Cik c out icamI b i k * u k + ∑ j ∈ Finset.range (numStates c.d).toNat, Vij c out icamI i j * db j) ^ 2 := by
  unfold cost
  rw [used_sum c icamI fun p => (out.Jv p.2 fun j => (∑ k : Fin 6, vel c.d (decide (icamI ≥ 0)) b p.1 k j * u k) + if Rel c.d (decide (icamI ≥ 0)) j then db j else 0) ^ 2]
  refine Finset.sum_congr rfl fun i hi => ?_
  have hi : i < (sources c).length := by
    unfold usedSet at hi
    exact Finset.mem_range.mp (Finset.mem_filter.mp hi).1
  obtain ⟨-, -, -, -, -, f, -⟩ := row_facts c hc idx out ho rd (decide (icamI ≥ 0)) b i hi
  simp only
  rw [Jv_add, Jv_sum, f fun j => if Rel c.d (decide (icamI ≥ 0)) j then db j else 0]
  congr 2
  refine Finset.sum_congr rfl fun j _ => ?_
  unfold Vij
  split_ifs <;> simp

/-- **C77**: if the solve is perturbed by db, then the reported K gives the small transformation K db that best explains the change of the reprojections of the
observations, to first order, in the least-squares sense; and it is the only one. K db may depend only on the variables in `Rel`. `Jt` is what optimizer_callback()
has returned -/
theorem cross_reprojection_optimal (L : Lapack) (hL : LapackOk L) (c : Ctx) (hc : CtxOk c) (idx : IdxOk c) (out : Out) (ho : optimizerCallback c = some out)
    (rowptr : Nat → Int) (colidx : Int → Int) (jval : Int → ℝ) (rd : Reads out rowptr colidx jval) (icamI : Int) (b : Int → ℝ) (Nb nrow : Int) (K : Nat → Int → ℝ)
    (h : drtCrossReprojection L c.d c.W c.H c.points.length icamI b Nb nrow rowptr colidx jval = some K) :
    (∀ (db : Int → ℝ) (u : Fin 6 → ℝ), cost c out icamI b (apply c.d K db) db ≤ cost c out icamI b u db) ∧
    (∀ (db : Int → ℝ) (u : Fin 6 → ℝ), cost c out icamI b u db ≤ cost c out icamI b (apply c.d K db) db → u = apply c.d K db) ∧
    (∀ (k : Fin 6) (j : Int), ¬ Rel c.d (decide (icamI ≥ 0)) j → K k j = 0) := by
  obtain ⟨normal, pd, zero⟩ := whole_spec L hL c hc idx out ho rd icamI b Nb nrow K h
  have key : ∀ (db : Int → ℝ) (u : Fin 6 → ℝ), cost c out icamI b (apply c.d K db) db ≤ cost c out icamI b u db ∧
      (cost c out icamI b u db ≤ cost c out icamI b (apply c.d K db) db → u = apply c.d K db) := by
    intro db u
    simp only [cost_eq c hc idx out ho rd]
    refine lsq _ _ _ _ (fun k => ?_) pd u
    have e : ∀ i, Cik c out icamI b i k * (∑ k', Cik c out icamI b i k' * apply c.d K db k' + ∑ j ∈ Finset.range (numStates c.d).toNat, Vij c out icamI i j * db j) =
        ∑ j ∈ Finset.range (numStates c.d).toNat, db j * (Cik c out icamI b i k * (∑ k' : Fin 6, Cik c out icamI b i k' * K k' j + Vij c out icamI i j)) := by
      intro i
      have : ∑ k', Cik c out icamI b i k' * apply c.d K db k' = ∑ j ∈ Finset.range (numStates c.d).toNat, (∑ k' : Fin 6, Cik c out icamI b i k' * K k' j) * db j := by
        unfold apply
        simp only [Finset.mul_sum, Finset.sum_mul]
        rw [Finset.sum_comm]
        exact Finset.sum_congr rfl fun j _ => Finset.sum_congr rfl fun k' _ => by ring
      rw [this, ← Finset.sum_add_distrib, Finset.mul_sum]
      exact Finset.sum_congr rfl fun j _ => by ring
    simp only [e]
    rw [Finset.sum_comm]
    refine Finset.sum_eq_zero fun j _ => ?_
    rw [← Finset.mul_sum, normal k j, mul_zero]
  exact ⟨fun db u => (key db u).1, fun db u => (key db u).2, zero⟩

/-- **Specification**: the problems that the function supports -/
def Supported (c : Ctx) (icamI : Int) : Prop :=
  (0 < numStatesFrames c.d ∨ 0 < numStatesExtrinsics c.d) ∧
  (0 < numStatesWarp c.d → c.points = [] ∧ (0 < numStatesFrames c.d → numStatesPoints c.d = 0)) ∧
  (icamI ≥ 0 → 0 < numIntrinsicsOpt c.d.sel c.d.lens)

/-- **Specification**: each measurement depends on something that's being optimized -/
def NoEmptyRows (c : Ctx) : Prop :=
  ∀ s ∈ sources c, 0 < numIntrinsicsOpt c.d.sel c.d.lens ∨ (s.e c.d).isSome ∨ (s.f c.d).isSome ∨ (s.p c.d).isSome ∨ s.w c.d = true

theorem index_pos (d : Dims) (wf : WF d) : (0 ≤ stateIndexFrames 0 d ↔ 0 < numStatesFrames d) ∧ (0 ≤ stateIndexExtrinsics 0 d ↔ 0 < numStatesExtrinsics d) ∧
    (0 ≤ stateIndexWarp d ↔ 0 < numStatesWarp d) ∧ (0 < numStatesWarp d → numStatesWarp d = 2) ∧
    (0 < numStatesFrames d → 0 < numStatesWarp d → (stateIndexWarp d = stateIndexFrames 0 d + numStatesFrames d ↔ numStatesPoints d = 0)) := by
  obtain ⟨n1, n2, n3, n4, n5⟩ := nonnegs wf
  obtain ⟨w1, w2, w3, w4, w5⟩ := wf
  have hf : (0 ≤ stateIndexFrames 0 d ↔ 0 < numStatesFrames d) ∧ (0 < numStatesFrames d → stateIndexFrames 0 d = numStatesIntrinsics d + numStatesExtrinsics d) := by
    unfold stateIndexFrames numStatesFrames
    by_cases h : d.Nframes ≤ 0
    · have : d.Nframes = 0 := by omega
      simp [this]
    · have h2 : 0 < d.Nframes := by omega
      cases hs : d.sel.frames <;> simp [h, h2]
      omega
  have he : (0 ≤ stateIndexExtrinsics 0 d ↔ 0 < numStatesExtrinsics d) := by
    unfold stateIndexExtrinsics
    by_cases h : d.Nce ≤ 0
    · have : d.Nce = 0 := by omega
      unfold numStatesExtrinsics
      simp [this]
    · have h2 : 0 < d.Nce := by omega
      cases hs : d.sel.extrinsics <;> simp [h, h2, hs, numStatesExtrinsics]
      omega
  have hw : (0 ≤ stateIndexWarp d ↔ 0 < numStatesWarp d) ∧ (0 < numStatesWarp d → numStatesWarp d = 2) ∧
      (0 < numStatesWarp d → stateIndexWarp d = numStatesIntrinsics d + numStatesExtrinsics d + numStatesFrames d + numStatesPoints d) := by
    unfold stateIndexWarp numStatesWarp
    cases hs : hasCalobjectWarp d.sel d.Nob <;> simp
    omega
  refine ⟨hf.1, he, hw.1, hw.2.1, fun h1 h2 => ?_⟩
  rw [hf.2 h1, hw.2.2 h2]
  constructor <;> intro h <;> omega

theorem source_mem (c : Ctx) (i : Nat) (hi : i < (sources c).length) : src c i ∈ sources c := List.mem_of_getElem? (src_get c i hi)

theorem source_index (c : Ctx) (s : Source) (h : s ∈ sources c) : ∃ i, i < (sources c).length ∧ src c i = s := by
  obtain ⟨i, hi, e⟩ := List.mem_iff_getElem.mp h
  refine ⟨i, hi, ?_⟩
  have := src_get c i hi
  rw [List.getElem?_eq_getElem hi, e] at this
  exact (Option.some.inj this).symm

/-- **C77**: on a supported problem with no empty rows the function reports K exactly if the least-squares problem has a unique solution: no small transformation leaves
all the used observations where they are. On an unsupported problem it always fails -/
theorem cross_reprojection_succeeds_iff (L : Lapack) (hL : LapackOk L) (c : Ctx) (hc : CtxOk c) (idx : IdxOk c) (hne : NoEmptyRows c) (out : Out) (ho : optimizerCallback c = some out)
    (rowptr : Nat → Int) (colidx : Int → Int) (jval : Int → ℝ) (rd : Reads out rowptr colidx jval) (icamI : Int) (b : Int → ℝ) (Nb nrow : Int) :
    (∃ K, drtCrossReprojection L c.d c.W c.H c.points.length icamI b Nb nrow rowptr colidx jval = some K) ↔
      Nb = numStates c.d ∧ nrow = numStates c.d ∧ Supported c icamI ∧ ∀ u : Fin 6 → ℝ, u ≠ 0 → 0 < cost c out icamI b u (fun _ => 0) := by
  have ipos := index_pos c.d idx.wf
  obtain ⟨i1, i2, i3, i4, i5⟩ := ipos
  have F := row_facts c hc idx out ho rd (decide (icamI ≥ 0)) b
  have hcost : ∀ u, cost c out icamI b u (fun _ => 0) = ∑ i ∈ usedSet c icamI, (∑ k, Cik c out icamI b i k * u k) ^ 2 := by
    intro u
    rw [cost_eq c hc idx out ho rd]
    simp
  simp only [hcost]
  have Nok : (sources c).length = 0 ∨ countIntrinsics colidx (rowptr 1) (stateIndexIntrinsics 0 c.d) (numStatesIntrinsics c.d) (rowptr 1 - rowptr 0).toNat (rowptr 0) =
      numIntrinsicsPerMeasurement c.d := by
    by_cases h0 : (sources c).length = 0
    · exact Or.inl h0
    · right
      obtain ⟨-, -, -, -, -, -, f, -⟩ := F 0 (by omega)
      simp only [zero_add] at f
      rw [f, rowptr_zero c out ho rd, zero_add]
  have hmap : ∀ i < (sources c).length, mapRow c.d (numIntrinsicsPerMeasurement c.d) rowptr colidx i =
      some (theMap (numIntrinsicsPerMeasurement c.d) (rowptr i) (src c i).icamI ((src c i).has c.d)) := by
    intro i hi
    obtain ⟨-, m2, -, -, -, -, -, e⟩ := F i hi
    exact m2 (e.mpr (hne _ (source_mem c i hi)))
  have hptr : ∀ i < (sources c).length, 0 ≤ posW (numIntrinsicsPerMeasurement c.d) (rowptr i) ((src c i).has c.d) ∧ Source.Ok c.d (src c i) := by
    intro i hi
    obtain ⟨ok, r, sp, B, h0, -⟩ := source_row c hc idx out ho rd i (src c i) (src_get c i hi)
    have := pos_le B
    exact ⟨by omega, ok⟩
  have Npos := (perMeasurement_pos c.d idx.grid).2
  constructor
  · rintro ⟨K, h⟩
    obtain ⟨-, pd, -⟩ := whole_spec L hL c hc idx out ho rd icamI b Nb nrow K h
    unfold drtCrossReprojection at h
    simp only at h
    rw [sources_length c hc] at h
    generalize countIntrinsics colidx (rowptr 1) (stateIndexIntrinsics 0 c.d) (numStatesIntrinsics c.d) (rowptr 1 - rowptr 0).toNat (rowptr 0) = Nrow at h Nok
    split_ifs at h with e1 e2 e3 e4 e5
    simp only [not_not] at e3 e4
    cases hf : (List.range (sources c).length).foldlM (fun s imeas => step c.d Nrow icamI b rowptr colidx jval imeas s) St.init with
    | none => rw [hf] at h; simp at h
    | some s =>
      obtain ⟨-, -, -, -, hw, hcam⟩ := loop_tot c.d Nrow icamI b rowptr colidx jval
        (fun i => theMap (numIntrinsicsPerMeasurement c.d) (rowptr i) (src c i).icamI ((src c i).has c.d)) _ s
        (fun k hk => by
          obtain ⟨m1, -, m3, -⟩ := F k hk
          have : Nrow = numIntrinsicsPerMeasurement c.d := Nok.resolve_left (by omega)
          rw [this]
          exact ⟨m1, m3⟩) hf
      refine ⟨e3, e4.symm, ⟨?_, fun hwp => ⟨?_, fun hfp => ?_⟩, fun hi => ?_⟩, pd⟩
      · by_contra hn
        apply e5
        rw [not_or] at hn
        have a1 : ¬ 0 ≤ stateIndexFrames 0 c.d := fun x => hn.1 (i1.mp x)
        have a2 : ¬ 0 ≤ stateIndexExtrinsics 0 c.d := fun x => hn.2 (i2.mp x)
        omega
      · by_contra hp
        obtain ⟨o, l, hol⟩ := List.exists_cons_of_ne_nil hp
        obtain ⟨i, hi, e⟩ := source_index c ⟨o.icamI, o.icamE, .point o.ipoint⟩ (by
          unfold sources
          rw [hol]
          refine List.mem_append_right _ ?_
          rw [List.flatMap_cons]
          exact List.mem_append_left _ (by simp))
        have hq := hw i hi
        have : (theMap (numIntrinsicsPerMeasurement c.d) (rowptr i) (src c i).icamI ((src c i).has c.d)).warp < 0 := by
          rw [e]
          unfold theMap Source.has Source.w
          simp
        have := hq.mp this
        have := i3.mpr hwp
        omega
      · by_contra hnp
        apply e1
        exact ⟨i1.mpr hfp, i3.mpr hwp, fun x => hnp ((i5 hfp hwp).mp x)⟩
      · have hlen : 0 < (sources c).length := by
          by_contra hn
          have h0 : usedSet c icamI = ∅ := by unfold usedSet; rw [show (sources c).length = 0 by omega]; rfl
          have := pd (fun _ => 1) (fun x => by have := congrFun x 0; simp at this)
          rw [h0] at this
          simp at this
        have := hcam 0 hlen hi
        unfold theMap Source.has at this
        simp only [decide_eq_true_eq] at this
        split_ifs at this with q
        · exact Npos.mp q
        · omega
  · rintro ⟨rfl, rfl, ⟨s1, s2, s3⟩, pd⟩
    unfold drtCrossReprojection
    simp only
    rw [sources_length c hc]
    generalize countIntrinsics colidx (rowptr 1) (stateIndexIntrinsics 0 c.d) (numStatesIntrinsics c.d) (rowptr 1 - rowptr 0).toNat (rowptr 0) = Nrow at Nok
    have hwiff : ∀ i < (sources c).length, ((theMap (numIntrinsicsPerMeasurement c.d) (rowptr i) (src c i).icamI ((src c i).has c.d)).warp < 0 ↔ stateIndexWarp c.d < 0) := by
      intro i hi
      obtain ⟨p0, ok⟩ := hptr i hi
      have e : (theMap (numIntrinsicsPerMeasurement c.d) (rowptr i) (src c i).icamI ((src c i).has c.d)).warp < 0 ↔ (src c i).w c.d = false := by
        unfold theMap
        simp only
        show (if (src c i).w c.d = true then _ else _) < 0 ↔ _
        cases (src c i).w c.d <;> simp [p0]
      rw [e]
      have hst : stateIndexWarp c.d < 0 ↔ ¬ 0 < numStatesWarp c.d := by rw [← i3]; omega
      rw [hst]
      by_cases hwp : 0 < numStatesWarp c.d
      · have hp := (s2 hwp).1
        have hm := source_mem c i hi
        unfold sources at hm
        rw [hp, List.flatMap_nil, List.append_nil, List.mem_flatMap] at hm
        obtain ⟨o, ho1, ho2⟩ := hm
        have e2 := List.eq_of_mem_replicate ho2
        rw [e2]
        unfold Source.w
        simp only
        unfold numStatesWarp hasCalobjectWarp at hwp
        split_ifs at hwp with hh
        · rw [Bool.and_eq_true] at hh
          simp [hh.1, numStatesWarp, hasCalobjectWarp, of_decide_eq_true hh.2]
        · omega
      · have : (src c i).w c.d = false := by
          cases h : (src c i).w c.d with
          | false => rfl
          | true =>
            have := Source.w_range ok h
            omega
        simp [this, hwp]
    have hs : ∃ s, (List.range (sources c).length).foldlM (fun s imeas => step c.d Nrow icamI b rowptr colidx jval imeas s) St.init = some s := by
      refine loop_succeeds c.d Nrow icamI b rowptr colidx jval (fun i => theMap (numIntrinsicsPerMeasurement c.d) (rowptr i) (src c i).icamI ((src c i).has c.d)) _ _ ?_ hwiff ?_
      · intro i hi
        have : Nrow = numIntrinsicsPerMeasurement c.d := Nok.resolve_left (by omega)
        rw [this]
        exact hmap i hi
      · intro i hi h0
        obtain ⟨-, ok⟩ := hptr i hi
        unfold theMap Source.has
        simp only [decide_eq_true_eq]
        rw [if_pos (Npos.mpr (s3 h0))]
        exact ok.1
    obtain ⟨s, hs⟩ := hs
    obtain ⟨tK, tJ⟩ := tot_spec c hc idx out ho rd icamI b s Nrow Nok hs
    obtain ⟨f, hf⟩ := (hL.factor (finish c.d b s).JJ).mpr ((posdef_iff _ _ _ tJ).mpr pd)
    have hsol : ∀ x, ∃ y, L.pptrs f x = some y := fun x => by
      obtain ⟨y, hy, -⟩ := hL.solve _ f hf x
      exact ⟨y, hy⟩
    rw [if_neg, if_neg, if_neg (by simp), if_neg (by simp), if_neg, hs]
    · simp only [hf]
      obtain ⟨K1, h1⟩ := finalize_succeeds L f hsol (stateIndexExtrinsics 0 c.d) (numStatesExtrinsics c.d) (finish c.d b s).K
      obtain ⟨K2, h2⟩ := finalize_succeeds L f hsol (stateIndexFrames 0 c.d) (numStatesFrames c.d) K1
      obtain ⟨K3, h3⟩ := finalize_succeeds L f hsol (stateIndexPoints 0 c.d) (numStatesPoints c.d) K2
      obtain ⟨K4, h4⟩ := finalize_succeeds L f hsol (stateIndexWarp c.d) (numStatesWarp c.d) K3
      refine ⟨K4, ?_⟩
      simp only [h1, h2, h3, Option.bind_eq_bind, Option.bind_some]
      exact h4
    · rintro ⟨q1, q2⟩
      rcases s1 with h | h
      · have := i1.mpr h; omega
      · have := i2.mpr h; omega
    · rintro ⟨q1, q2⟩
      exact q2 (i4 (i3.mp q1))
    · rintro ⟨q1, q2, q3⟩
      exact q3 ((i5 (i1.mp q1) (i3.mp q2)).mpr ((s2 (i3.mp q2)).2 (i1.mp q1)))

end Mrcal.Uncertainty
