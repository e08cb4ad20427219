import Verif.Props.PropagateLoops
import Verif.Props.PropagateLinear
import Verif.Props.PackProps
import Verif.Props.CallbackColumnsProps
import Mathlib.Data.List.GetD
import Mathlib.MeasureTheory.Integral.Bochner.Basic
/-
C78. The covariance that the uncertainty routines report is the covariance of the quantity of interest, if the inputs are noisy and the problem is re-solved (to first order).
-/
namespace Mrcal.Propagate
open Mrcal Mrcal.Callback Mrcal.Pack Mrcal.StateLayout Matrix MeasureTheory

/-! ### Specification -/

/-- **Specification**: the cost after a step of `v` of the packed state, if the (weighted) observations have changed by `noise`: each measurement is (projected - observed) weight. To first order. -/
noncomputable def cost (out : Out) (noise : Nat → ℝ) (v : Mem) : ℝ := ∑ i ∈ Finset.range out.x.length, (out.x.getD i 0 + out.Jv i v - noise i) ^ 2

/-- **Specification**: `v` is an optimal step -/
def IsOptimum (out : Out) (noise : Nat → ℝ) (v : Mem) : Prop := ∀ w, cost out noise v ≤ cost out noise w

/-- **Specification**: the number of measurements that come from observations of boards and of points. The others are regularization, and have no noise -/
def numObserved (c : Ctx) : Nat := 2 * (c.boards.length * (c.W * c.H)) + 2 * c.points.length

/-- **Specification**: element r of F moves by this much if the packed state moves by v. `F` is dF/d(unpacked state), row-first -/
noncomputable def deltaF (d : Dims) (F : Mem) (v : Mem) (r : Nat) : ℝ :=
  ∑ j ∈ Finset.range (numStates d).toNat, F (r * (numStates d).toNat + j) * (unpackVector d v).1 j

/-- **Specification**: uncorrelated noise in the first n measurements, with the same standard deviation; nothing in the others -/
structure WhiteNoise {Ω : Type} [MeasurableSpace Ω] (μ : Measure Ω) (noise : Ω → Nat → ℝ) (n : Nat) (σ : ℝ) : Prop where
  none : ∀ ω i, n ≤ i → noise ω i = 0
  integrable : ∀ i j, i < n → j < n → Integrable (fun ω => noise ω i * noise ω j) μ
  cov : ∀ i j, i < n → j < n → ∫ ω, noise ω i * noise ω j ∂μ = if i = j then σ ^ 2 else 0

/-- **Specification**: no two states have the same residuals -/
def FullRank (out : Out) (n : Int) : Prop := ∀ v : Mem, (∀ i < out.x.length, out.Jv i v = 0) → ∀ j, 0 ≤ j → j < n → v j = 0

/-- the sparse matrix as a dense one -/
noncomputable def Csr.dense (J : Csr) (m n : Nat) : Matrix (Fin m) (Fin n) ℝ := fun i j => J.Jv i fun s => if s = (j : Nat) then 1 else 0

/-- all the columns that appear in the first m rows exist -/
def Csr.InRange (J : Csr) (m n : Nat) : Prop := ∀ i < m, ∀ k : Nat, k < (J.Jp (i + 1) - J.Jp i).toNat → 0 ≤ J.Ji (J.Jp i + k) ∧ J.Ji (J.Jp i + k) < n

/-- column r of a dense CHOLMOD matrix -/
def col (n : Nat) (b : Mem) (r : Nat) : Fin n → ℝ := fun i => b (r * n + (i : Nat))

/-- **Specification** of CHOLMOD, in exact arithmetic. JtJ is factored as Pt L D Lt P, if it isn't singular -/
structure CholmodOk (C : Cholmod) : Prop where
  factorize : ∀ n m J, J.InRange m n → ((C.factorize n m J).isSome = true ↔ ∀ v, J.dense m n *ᵥ v = 0 → v = 0)
  order : ∀ n m J f, J.InRange m n → C.factorize n m J = some f → C.order f = n
  solve : ∀ n m J f, J.InRange m n → C.factorize n m J = some f → ∃ (σ : Equiv.Perm (Fin n)) (L : Matrix (Fin n) (Fin n) ℝ) (D : Fin n → ℝ),
    (∀ i j, ((J.dense m n)ᵀ * J.dense m n) (σ i) (σ j) = ∑ k, L i k * D k * L j k) ∧
    ∀ ncol b, 0 < ncol →
      (∃ x, C.solve2 f .A n ncol b = some x ∧ ∀ r < ncol, ((J.dense m n)ᵀ * J.dense m n) *ᵥ col n x r = col n b r) ∧
      (∃ x, C.solve2 f .P n ncol b = some x ∧ ∀ r < ncol, ∀ i, col n x r i = col n b r (σ i)) ∧
      (∃ x, C.solve2 f .L n ncol b = some x ∧ ∀ r < ncol, L *ᵥ col n x r = col n b r) ∧
      (∃ x, C.solve2 f .D n ncol b = some x ∧ ∀ r < ncol, ∀ i, D i * col n x r i = col n b r i)

/-! ### The matrix -/

theorem entries_dense (n : Nat) (v : Mem) (l : List (Int × ℝ)) (h : ∀ e ∈ l, 0 ≤ e.1 ∧ e.1 < n) :
    (l.map fun e : Int × ℝ => e.2 * v e.1).sum = ∑ j : Fin n, (l.map fun e : Int × ℝ => e.2 * if e.1 = ((j : Nat) : Int) then 1 else 0).sum * v (j : Nat) := by
  induction l with
  | nil => simp
  | cons e l ih =>
    rw [List.map_cons, List.sum_cons, ih fun e he => h e (List.mem_cons_of_mem _ he)]
    simp only [List.map_cons, List.sum_cons, add_mul]
    rw [Finset.sum_add_distrib]
    congr 1
    obtain ⟨h0, h1⟩ := h e (List.mem_cons_self ..)
    have hlt : e.1.toNat < n := by omega
    rw [Finset.sum_eq_single (⟨e.1.toNat, hlt⟩ : Fin n)]
    · have he : ((e.1.toNat : Nat) : Int) = e.1 := Int.toNat_of_nonneg h0
      simp only
      rw [he, if_pos rfl, mul_one]
    · intro j _ hj
      rw [if_neg, mul_zero, zero_mul]
      intro he
      exact hj (Fin.ext (by show (j : Nat) = e.1.toNat; omega))
    · intro hj; exact absurd (Finset.mem_univ _) hj

theorem dense_mulVec (J : Csr) (m n : Nat) (h : J.InRange m n) (v : Mem) (i : Fin m) : J.Jv i v = (J.dense m n *ᵥ fun j => v (j : Nat)) i := by
  have := entries_dense n v ((List.range (J.Jp (i + 1) - J.Jp i).toNat).map fun k : Nat => (J.Ji (J.Jp i + k), J.Jx (J.Jp i + k))) (by
    intro e he
    obtain ⟨k, hk, rfl⟩ := List.mem_map.1 he
    exact h i i.2 k (List.mem_range.1 hk))
  simp only [List.map_map, Function.comp_def] at this
  exact this

/-- the arrays of the callback refer to columns that exist -/
theorem csrOf_inRange (c : Ctx) (ok : CtxOk c) (idx : IdxOk c) (out : Out) (ho : optimizerCallback c = some out) (h0 : 0 < numStates c.d) :
    (csrOf out).InRange out.x.length (numStates c.d).toNat := by
  intro i _ k _
  have : ∀ p : Nat, 0 ≤ out.cols.getD p 0 ∧ out.cols.getD p 0 < ((numStates c.d).toNat : Int) := by
    intro p
    by_cases hp : p < out.cols.length
    · rw [List.getD_eq_getElem _ _ hp]
      have := (callback_columns_in_range c ok idx out ho _ (List.getElem_mem hp)).2
      omega
    · rw [List.getD_eq_default _ _ (by omega)]
      omega
  exact this _

theorem out_lengths (c : Ctx) (ok : CtxOk c) (out : Out) (ho : optimizerCallback c = some out) :
    numMeasurements c.d c.points.length c.tri c.W c.H = some (out.x.length : Int) ∧ out.vals.length = out.cols.length := by
  obtain ⟨out', h, h1, -, h2, -⟩ := callback_fills_exactly c ok
  rw [h] at ho
  obtain rfl := Option.some.inj ho
  exact ⟨h1, h2⟩

/-! ### The number of leading rows -/

theorem numBoards_eq (c : Ctx) (ok : CtxOk c) : numMeasurementsBoards c.d.Nob c.W c.H = 2 * (c.boards.length * (c.W * c.H)) := by
  unfold numMeasurementsBoards
  rw [ok.nob]
  split_ifs with h
  · have : (c.boards.length : Int) = 0 := by omega
    rw [this]; ring
  · ring

theorem regularization_nonneg (c : Ctx) (ok : CtxOk c) : 0 ≤ numMeasurementsRegularization c.d := by
  unfold numMeasurementsRegularization
  have : 0 ≤ numRegularizationPercamera c.d.sel c.d.lens := by
    have := numParams_ge4 c.d.lens
    unfold numRegularizationPercamera
    simp only [numDistortionsOpt]
    split_ifs <;> omega
  have h2 := mul_nonneg ok.nci this
  split_ifs <;> omega

/-- what the tests at the start accept -/
theorem observationsLeading_iff (c : Ctx) (ok : CtxOk c) (out : Out) (ho : optimizerCallback c = some out) (l : Int) :
    observationsLeading c = some l ↔ (numObserved c : Int) + numMeasurementsRegularization c.d = out.x.length ∧
      ((numMeasurementsRegularization c.d = 0 ∧ l = 0) ∨ (0 < numMeasurementsRegularization c.d ∧ 0 < numObserved c ∧ l = numObserved c)) := by
  obtain ⟨hm, -⟩ := out_lengths c ok out ho
  have hb := numBoards_eq c ok
  have hr := regularization_nonneg c ok
  have hobs : (numObserved c : Int) = numMeasurementsBoards c.d.Nob c.W c.H + numMeasurementsPoints c.points.length := by
    rw [hb]; unfold numObserved numMeasurementsPoints; push_cast; ring
  unfold observationsLeading
  have htri : ∃ t, numMeasurementsTri c.tri = some t ∧ numMeasurementsBoards c.d.Nob c.W c.H + numMeasurementsPoints c.points.length + t + numMeasurementsRegularization c.d = out.x.length := by
    unfold numMeasurements at hm
    cases ht : numMeasurementsTri c.tri with
    | none => rw [ht] at hm; simp at hm
    | some t => rw [ht, Option.map_some] at hm; exact ⟨t, rfl, Option.some.inj hm⟩
  obtain ⟨t, ht, hsum⟩ := htri
  rw [hm]
  unfold measurementIndexRegularization
  rw [ht]
  generalize numMeasurementsBoards c.d.Nob c.W c.H = B at *
  generalize numMeasurementsPoints c.points.length = P at *
  generalize numMeasurementsRegularization c.d = R at *
  by_cases hR : R ≤ 0
  · have : R = 0 := by omega
    subst this
    simp only [le_refl, if_true, Option.bind_eq_bind, Option.bind_some]
    split_ifs <;> simp only [false_iff, Option.some.injEq, true_and] <;> omega
  · rw [if_neg hR]
    simp only [Option.map_some, Option.bind_eq_bind, Option.bind_some]
    split_ifs <;> simp only [false_iff, Option.some.injEq] <;> omega

/-! ### The core of the computation -/

theorem sum_leading (m no : Nat) (h : no ≤ m) (F : Nat → ℝ) : ∑ k ∈ Finset.range no, F k = ∑ i : Fin m, if (i : Nat) < no then F i else 0 := by
  rw [Fin.sum_univ_eq_sum_range (fun i => if i < no then F i else 0) m, ← Finset.sum_filter]
  refine Finset.sum_congr ?_ fun _ _ => rfl
  ext k
  simp only [Finset.mem_range, Finset.mem_filter]
  omega

theorem solveXt_eq (C : Cholmod) (f : C.F) (N n : Nat) (b : Mem) (sys : Sys) (hn : 0 < n) (hN : 0 < N) (ho : C.order f = n) : solveXtJtJBt C f N n b sys = C.solve2 f sys n N b := by
  unfold solveXtJtJBt
  rw [if_neg (by omega)]
  simp only [Nat.mul_div_cancel _ hn]
  rw [if_neg (by simpa using ho), if_neg (by omega)]

theorem processSlice_eq (C : Cholmod) (hC : CholmodOk C) (n m : Nat) (J : Csr) (hJ : J.InRange m n) (f : C.F) (hf : C.factorize n m J = some f) (hn : 0 < n) (N : Nat) (hN : 0 < N)
    (l : Int) (no : Nat) (hno : no ≤ m) (hl : (l = 0 ∧ no = m) ∨ (0 < l ∧ l = no)) (b : Mem) :
    ∃ flat, processSlice C f J l N n b = some flat ∧ ∃ a : Nat → Fin n → ℝ, (∀ r < N, ((J.dense m n)ᵀ * J.dense m n) *ᵥ a r = col n b r) ∧
      ∀ r < N, ∀ s < N, flat (r * N + s) = ∑ i : Fin m, if (i : Nat) < no then (J.dense m n *ᵥ a r) i * (J.dense m n *ᵥ a s) i else 0 := by
  have ho := hC.order n m J f hJ hf
  obtain ⟨σ, L, D, hLDL, hs⟩ := hC.solve n m J f hJ hf
  obtain ⟨⟨xA, hA, hA'⟩, ⟨xP, hP, hP'⟩, -, -⟩ := hs N b hN
  obtain ⟨-, -, ⟨xL, hL, hL'⟩, -⟩ := hs N xP hN
  obtain ⟨-, -, -, ⟨xD, hD, hD'⟩⟩ := hs N xL hN
  unfold processSlice
  rcases hl with ⟨rfl, rfl⟩ | ⟨hl0, hl⟩
  · rw [if_neg (lt_irrefl _)]
    simp only [solveXt_eq C f N n _ _ hn hN ho, hP, hL, hD, Option.bind_eq_bind, Option.bind_some]
    refine ⟨_, rfl, fun r => col n xA r, hA', fun r hr s hs => ?_⟩
    have hdiv : (r * N + s) / N = r := by rw [Nat.add_comm, Nat.add_mul_div_right _ _ hN, Nat.div_eq_of_lt hs, Nat.zero_add]
    have hmod : (r * N + s) % N = s := by rw [Nat.add_comm, Nat.add_mul_mod_self_right, Nat.mod_eq_of_lt hs]
    have hinj : ∀ v, ((J.dense no n)ᵀ * J.dense no n) *ᵥ v = 0 → v = 0 :=
      gram_injective _ ((hC.factorize n no J hJ).1 (by rw [hf]; rfl))
    have key := ldl_form _ hinj σ L D hLDL (col n b r) (col n b s) (col n xA r) (col n xA s) (col n xL r) (col n xL s) (col n xD s) (hA' r hr) (hA' s hs)
      ((hL' r hr).trans (funext (hP' r hr))) ((hL' s hs).trans (funext (hP' s hs))) (hD' s hs)
    simp only [hdiv, hmod]
    rw [← Fin.sum_univ_eq_sum_range (fun k => xL ((r : Int) * n + k) * xD ((s : Int) * n + k)) n]
    refine key.trans ?_
    rw [← mulVec_mulVec, dotProduct_mulVec, ← mulVec_transpose, transpose_transpose]
    unfold dotProduct
    exact Finset.sum_congr rfl fun i _ => (if_pos i.2).symm
  · rw [if_pos hl0]
    simp only [solveXt_eq C f N n _ _ hn hN ho, hA]
    have e2 : ∀ r, r < N → ∀ i : Fin m, (J.Jv i fun s => xA (s + r * n)) = (J.dense m n *ᵥ col n xA r) i := by
      intro r _ i
      rw [dense_mulVec J m n hJ]
      congr 2
      funext j
      unfold col
      rw [add_comm]
    have e3 : ∀ r < N, ∀ s < N, ∑ k ∈ Finset.range l.toNat, (J.Jv k fun t => xA (t + r * n)) * (J.Jv k fun t => xA (t + s * n)) =
        ∑ i : Fin m, if (i : Nat) < no then (J.dense m n *ᵥ col n xA r) i * (J.dense m n *ᵥ col n xA s) i else 0 := by
      intro r hr s hs
      rw [show l.toNat = no by omega, sum_leading m no hno]
      refine Finset.sum_congr rfl fun i _ => ?_
      rw [e2 r hr i, e2 s hs i]
    split_ifs with h2
    · subst h2
      obtain ⟨flat, hfl⟩ : ∃ flat, AJtJAt2 n xA J l = some flat := ⟨_, if_neg (by omega)⟩
      exact ⟨flat, hfl, fun r => col n xA r, hA', fun r hr s hs => (AJtJAt2_eq n xA J l flat hfl r s hr hs).trans (e3 r hr s hs)⟩
    · obtain ⟨flat, hfl⟩ : ∃ flat, AJtJAt N n xA J l = some flat := ⟨_, if_neg (by omega)⟩
      exact ⟨flat, hfl, fun r => col n xA r, hA', fun r hr s hs => (AJtJAt_eq N n xA J l flat hfl r s hr hs).trans (e3 r hr s hs)⟩

/-- the units of the state vector -/
theorem units (d : Dims) (wf : WF d) (h0 : 0 < numStates d) : ∃ u : Int → ℝ, (∀ b j, 0 ≤ j → j < numStates d → (unpackVector d b).1 j = b j * u j) ∧
    ∀ rows F, ∃ x', packUnpackArray false d (rows * (numStates d).toNat) (numStates d).toNat F = some x' ∧
      ∀ r : Nat, r < rows → ∀ j, 0 ≤ j → j < numStates d → x' (r * (numStates d).toNat + j) = F (r * (numStates d).toNat + j) * u j := by
  have hN : ((numStates d).toNat : Int) = numStates d := Int.toNat_of_nonneg h0.le
  refine ⟨fun j => (unpackVector d fun _ => 1).1 j, ?_, ?_⟩
  · intro b j hj hj'
    obtain ⟨v, ⟨hv, rfl⟩, -⟩ := state_layout_tiles d wf j hj hj'
    beta_reduce
    rw [(unpack_vector_scales d wf b).1 v hv, (unpack_vector_scales d wf _).1 v hv, one_mul]
  · intro rows F
    obtain ⟨x', hx', h1, -⟩ := pack_unpack_array false d wf h0 rows F
    refine ⟨x', hx', fun r hr j hj hj' => ?_⟩
    obtain ⟨v, ⟨hv, rfl⟩, -⟩ := state_layout_tiles d wf j hj hj'
    beta_reduce
    rw [hN, h1 r v (by omega) (by omega) hv, (unpack_vector_scales d wf _).1 v hv, one_mul]
    rfl

/-- a vector as an array -/
def ext {n : Nat} (w : Fin n → ℝ) : Mem := fun j => if h : 0 ≤ j ∧ j.toNat < n then w ⟨j.toNat, h.2⟩ else 0

theorem ext_apply {n : Nat} (w : Fin n → ℝ) (j : Fin n) : ext w ((j : Nat) : Int) = w j := by
  unfold ext
  rw [dif_pos ⟨by omega, by simp⟩]
  congr 1

theorem fullRank_iff (c : Ctx) (ok : CtxOk c) (idx : IdxOk c) (out : Out) (ho : optimizerCallback c = some out) (h0 : 0 < numStates c.d) :
    FullRank out (numStates c.d) ↔ ∀ v, (csrOf out).dense out.x.length (numStates c.d).toNat *ᵥ v = 0 → v = 0 := by
  have hr := csrOf_inRange c ok idx out ho h0
  have hl := (out_lengths c ok out ho).2
  have hJ : ∀ (v : Mem) (i : Fin out.x.length), out.Jv i v = ((csrOf out).dense out.x.length (numStates c.d).toNat *ᵥ fun j => v (j : Nat)) i := by
    intro v i
    rw [← csrOf_Jv out hl, dense_mulVec _ _ _ hr]
  constructor
  · intro h v hv
    funext j
    have := h (ext v) (fun i hi => by
      rw [hJ (ext v) ⟨i, hi⟩]
      simp only [ext_apply]
      rw [show (fun j => v j) = v from rfl, hv]; rfl) (j : Nat) (by omega) (by omega)
    rwa [ext_apply] at this
  · intro h v hv j hj hj'
    have hz := h (fun j => v (j : Nat)) (by
      funext i
      rw [← hJ v i]
      exact hv i i.2)
    have := congrFun hz ⟨j.toNat, by omega⟩
    simp only [Pi.zero_apply] at this
    rw [← this]
    congr 1
    omega

theorem cost_eq (c : Ctx) (ok : CtxOk c) (idx : IdxOk c) (out : Out) (ho : optimizerCallback c = some out) (h0 : 0 < numStates c.d) (noise : Nat → ℝ) (v : Mem) :
    cost out noise v = ((fun i : Fin out.x.length => out.x.getD i 0 - noise i) + (csrOf out).dense out.x.length (numStates c.d).toNat *ᵥ fun j => v (j : Nat)) ⬝ᵥ
      ((fun i : Fin out.x.length => out.x.getD i 0 - noise i) + (csrOf out).dense out.x.length (numStates c.d).toNat *ᵥ fun j => v (j : Nat)) := by
  have hr := csrOf_inRange c ok idx out ho h0
  have hl := (out_lengths c ok out ho).2
  unfold cost
  rw [← Fin.sum_univ_eq_sum_range (fun i => (out.x.getD i 0 + out.Jv i v - noise i) ^ 2) out.x.length]
  unfold dotProduct
  refine Finset.sum_congr rfl fun i _ => ?_
  rw [Pi.add_apply, ← dense_mulVec _ _ _ hr, csrOf_Jv out hl]
  ring

theorem isOptimum_iff (c : Ctx) (ok : CtxOk c) (idx : IdxOk c) (out : Out) (ho : optimizerCallback c = some out) (h0 : 0 < numStates c.d) (noise : Nat → ℝ) (v : Mem) :
    IsOptimum out noise v ↔ ((csrOf out).dense out.x.length (numStates c.d).toNat)ᵀ *ᵥ
      ((fun i : Fin out.x.length => out.x.getD i 0 - noise i) + (csrOf out).dense out.x.length (numStates c.d).toNat *ᵥ fun j => v (j : Nat)) = 0 := by
  constructor
  · intro h
    refine normal_equations _ _ _ fun w => ?_
    have := h (ext w)
    rw [cost_eq c ok idx out ho h0, cost_eq c ok idx out ho h0] at this
    simp only [ext_apply] at this
    exact this
  · intro h w
    rw [cost_eq c ok idx out ho h0, cost_eq c ok idx out ho h0]
    exact optimum_of_normal _ _ _ h _

/-- `what`, applied to the raw covariance -/
noncomputable def finish (eigsh : Eigsh) (what : String) (N : Nat) (V : Nat → Nat → ℝ) (stdev : ℝ) : Option Res :=
  if what = "_covariance-raw" then some (.raw V stdev)
  else if what = "covariance" then some (.matrix fun i j => V i j * stdev * stdev)
  else if what = "worstdirection-stdev" then (worstDirectionStdev eigsh N V).map fun s => .number (s * stdev)
  else some (.number (Real.sqrt ((∑ i ∈ Finset.range N, V i i) / N) * stdev))

/-- The results, if all the tests pass -/
theorem propagate_core (C : Cholmod) (hC : CholmodOk C) (c : Ctx) (ok : CtxOk c) (idx : IdxOk c) (out : Out) (ho : optimizerCallback c = some out) (h0 : 0 < numStates c.d)
    (hrank : FullRank out (numStates c.d)) (hobs : (numObserved c : Int) + numMeasurementsRegularization c.d = out.x.length)
    (hreg : numMeasurementsRegularization c.d = 0 ∨ 0 < numObserved c) (N : Nat) (hN : 0 < N) (F : Mem) :
    ∃ (V : Nat → Nat → ℝ) (a : Nat → Fin (numStates c.d).toNat → ℝ),
      (∀ v r, r < N → deltaF c.d F v r = a r ⬝ᵥ ((((csrOf out).dense out.x.length (numStates c.d).toNat)ᵀ * (csrOf out).dense out.x.length (numStates c.d).toNat) *ᵥ fun j => v (j : Nat))) ∧
      (∀ r < N, ∀ s < N, V r s = ∑ i : Fin out.x.length, if (i : Nat) < numObserved c then
        ((csrOf out).dense out.x.length (numStates c.d).toNat *ᵥ a r) i * ((csrOf out).dense out.x.length (numStates c.d).toNat *ᵥ a s) i else 0) ∧
      ∀ eigsh what stdev, what ∈ ["covariance", "worstdirection-stdev", "rms-stdev", "_covariance-raw"] →
        propagate C eigsh what c N F stdev = (stdev.or (observedPixelUncertainty c out.x)).bind (finish eigsh what N V) := by
  have hrange := csrOf_inRange c ok idx out ho h0
  have hinj := (fullRank_iff c ok idx out ho h0).1 hrank
  obtain ⟨f, hf⟩ := Option.isSome_iff_exists.1 ((hC.factorize _ _ _ hrange).2 hinj)
  obtain ⟨u, hu, hpack⟩ := units c.d idx.wf h0
  obtain ⟨b, hb, hb'⟩ := hpack N F
  have hr := regularization_nonneg c ok
  obtain ⟨l, hl, hll⟩ : ∃ l, observationsLeading c = some l ∧ ((l = 0 ∧ numObserved c = out.x.length) ∨ (0 < l ∧ l = numObserved c)) := by
    by_cases h : numMeasurementsRegularization c.d = 0
    · exact ⟨0, (observationsLeading_iff c ok out ho 0).2 ⟨hobs, Or.inl ⟨h, rfl⟩⟩, Or.inl ⟨rfl, by omega⟩⟩
    · exact ⟨numObserved c, (observationsLeading_iff c ok out ho _).2 ⟨hobs, Or.inr ⟨by omega, by omega, rfl⟩⟩, Or.inr ⟨by omega, rfl⟩⟩
  have hN' : ((numStates c.d).toNat : Int) = numStates c.d := Int.toNat_of_nonneg h0.le
  obtain ⟨flat, hfl, a, ha, hV⟩ := processSlice_eq C hC _ _ (csrOf out) hrange f hf (by omega) N hN l (numObserved c) (by omega) hll b
  refine ⟨fun i j => flat (i * N + j), a, ?_, hV, ?_⟩
  · intro v r hr
    rw [dotProduct_mulVec, ← mulVec_transpose, transpose_mul, transpose_transpose, ha r hr]
    unfold deltaF dotProduct col
    rw [← Fin.sum_univ_eq_sum_range (fun j => F ((r : Int) * (numStates c.d).toNat + j) * (unpackVector c.d v).1 j) (numStates c.d).toNat]
    refine Finset.sum_congr rfl fun j _ => ?_
    rw [hu v j (by omega) (by omega), hb' r hr j (by omega) (by omega)]
    ring
  · intro eigsh what stdev hw
    unfold propagate
    rw [if_neg (not_not.mpr hw)]
    simp only [hb, ho, hf, hl, hfl, Option.bind_eq_bind, Option.bind_some]
    rfl

/-! ### Theorems -/

/-- C78 (availability). The computation succeeds exactly if: the request is known; something is being optimized; there are no triangulated-point measurements; no two states have the same
residuals; there's some observation, if there's regularization. And the noise level must be given, or there must be something to estimate it from; and the eigenvalue routine must succeed, if it's needed -/
theorem propagate_succeeds_iff (C : Cholmod) (hC : CholmodOk C) (eigsh : Eigsh) (what : String) (c : Ctx) (ok : CtxOk c) (idx : IdxOk c) (out : Out) (ho : optimizerCallback c = some out)
    (N : Nat) (hN : 0 < N) (F : Mem) (stdev : Option ℝ) (heig : what = "worstdirection-stdev" → ∀ V, (eigsh N V).isSome) :
    (∃ r, propagate C eigsh what c N F stdev = some r) ↔ what ∈ ["covariance", "worstdirection-stdev", "rms-stdev", "_covariance-raw"] ∧ 0 < numStates c.d ∧
      (numObserved c : Int) + numMeasurementsRegularization c.d = out.x.length ∧ FullRank out (numStates c.d) ∧ (numMeasurementsRegularization c.d = 0 ∨ 0 < numObserved c) ∧
      (stdev ≠ none ∨ observedPixelUncertainty c out.x ≠ none) := by
  constructor
  · rintro ⟨r, hr⟩
    unfold propagate at hr
    have hw : what ∈ ["covariance", "worstdirection-stdev", "rms-stdev", "_covariance-raw"] := by
      by_contra hw
      rw [if_pos hw] at hr
      exact absurd hr (by simp)
    rw [if_neg (not_not.mpr hw)] at hr
    rw [Option.bind_eq_bind, Option.bind_eq_some_iff] at hr
    obtain ⟨b, hb, hr⟩ := hr
    have h0 : 0 < numStates c.d := by
      unfold packUnpackArray at hb
      simp only at hb
      split_ifs at hb with h1 h2 <;> omega
    rw [ho] at hr
    simp only [Option.bind_eq_bind, Option.bind_some, Option.bind_eq_some_iff] at hr
    obtain ⟨f, hf, l, hl, s, hs, -⟩ := hr
    have hrange := csrOf_inRange c ok idx out ho h0
    have h2 := (observationsLeading_iff c ok out ho l).1 hl
    refine ⟨hw, h0, h2.1, (fullRank_iff c ok idx out ho h0).2 ((hC.factorize _ _ _ hrange).1 (by rw [hf]; rfl)), ?_, ?_⟩
    · rcases h2.2 with h | h
      · exact Or.inl h.1
      · exact Or.inr h.2.1
    · cases stdev with
      | none => right; rw [Option.none_or] at hs; rw [hs]; simp
      | some s => left; simp
  · rintro ⟨hw, h0, hobs, hrank, hreg, hs⟩
    obtain ⟨V, a, -, -, h⟩ := propagate_core C hC c ok idx out ho h0 hrank hobs hreg N hN F
    rw [h eigsh what stdev hw]
    obtain ⟨s, hs⟩ : ∃ s, stdev.or (observedPixelUncertainty c out.x) = some s := by
      cases stdev with
      | some s => exact ⟨s, rfl⟩
      | none =>
        obtain ⟨s, hs⟩ := Option.ne_none_iff_exists'.1 (hs.resolve_left (by simp))
        exact ⟨s, hs⟩
    rw [hs, Option.bind_some]
    unfold finish
    split_ifs with h1 h2 h3
    · exact ⟨_, rfl⟩
    · exact ⟨_, rfl⟩
    · unfold worstDirectionStdev
      split_ifs
      · exact ⟨_, rfl⟩
      · exact ⟨_, rfl⟩
      · obtain ⟨l, hl⟩ := Option.isSome_iff_exists.1 (heig h3 V)
        rw [hl]
        exact ⟨_, rfl⟩
    · exact ⟨_, rfl⟩

/-- C78 (response). If the problem isn't degenerate, there's exactly one optimal step for any noise -/
theorem response_exists_unique (c : Ctx) (ok : CtxOk c) (idx : IdxOk c) (out : Out) (ho : optimizerCallback c = some out) (h0 : 0 < numStates c.d)
    (hrank : FullRank out (numStates c.d)) (noise : Nat → ℝ) :
    (∃ v, IsOptimum out noise v) ∧ ∀ v w, IsOptimum out noise v → IsOptimum out noise w → ∀ j, 0 ≤ j → j < numStates c.d → v j = w j := by
  have hinj := (fullRank_iff c ok idx out ho h0).1 hrank
  set J := (csrOf out).dense out.x.length (numStates c.d).toNat
  have hg := gram_injective J hinj
  constructor
  · have hdet : IsUnit (Jᵀ * J).det := by
      rw [isUnit_iff_ne_zero]
      intro h
      obtain ⟨v, hv, hv'⟩ := exists_mulVec_eq_zero_iff.2 h
      exact hv (hg v hv')
    refine ⟨ext ((Jᵀ * J)⁻¹ *ᵥ (Jᵀ *ᵥ fun i => -(out.x.getD i 0 - noise i))), (isOptimum_iff c ok idx out ho h0 _ _).2 ?_⟩
    simp only [ext_apply]
    rw [mulVec_add, mulVec_mulVec, show (fun j => ((Jᵀ * J)⁻¹ *ᵥ (Jᵀ *ᵥ fun i : Fin out.x.length => -(out.x.getD i 0 - noise i))) j) = (Jᵀ * J)⁻¹ *ᵥ (Jᵀ *ᵥ fun i => -(out.x.getD i 0 - noise i)) from rfl,
      mulVec_mulVec, mul_nonsing_inv _ hdet, one_mulVec, ← mulVec_add]
    have e : (fun i : Fin out.x.length => out.x.getD i 0 - noise i) + (fun i : Fin out.x.length => -(out.x.getD i 0 - noise i)) = 0 := by
      funext i
      simp
    exact (congrArg _ e).trans (Matrix.mulVec_zero _)
  · intro v w hv hw j hj hj'
    have ev := (isOptimum_iff c ok idx out ho h0 _ _).1 hv
    have ew := (isOptimum_iff c ok idx out ho h0 _ _).1 hw
    rw [mulVec_add, mulVec_mulVec] at ev ew
    have := hg ((fun j : Fin (numStates c.d).toNat => v (j : Nat)) - fun j : Fin (numStates c.d).toNat => w (j : Nat)) (by
      rw [mulVec_sub, sub_eq_zero]
      exact add_left_cancel (ev.trans ew.symm))
    have := congrFun this ⟨j.toNat, by omega⟩
    simp only [Pi.sub_apply, Pi.zero_apply, sub_eq_zero] at this
    rwa [show ((j.toNat : Nat) : Int) = j by omega] at this

/-- F responds linearly to the noise -/
theorem deltaF_eq (c : Ctx) (ok : CtxOk c) (idx : IdxOk c) (out : Out) (ho : optimizerCallback c = some out) (h0 : 0 < numStates c.d) (hopt : IsOptimum out (fun _ => 0) fun _ => 0)
    (noise : Nat → ℝ) (v : Mem) (hv : IsOptimum out noise v) (z : Fin (numStates c.d).toNat → ℝ) :
    z ⬝ᵥ ((((csrOf out).dense out.x.length (numStates c.d).toNat)ᵀ * (csrOf out).dense out.x.length (numStates c.d).toNat) *ᵥ fun j => v (j : Nat)) =
      ∑ i : Fin out.x.length, ((csrOf out).dense out.x.length (numStates c.d).toNat *ᵥ z) i * noise i := by
  have e0 := (isOptimum_iff c ok idx out ho h0 _ _).1 hopt
  have e1 := (isOptimum_iff c ok idx out ho h0 _ _).1 hv
  set J := (csrOf out).dense out.x.length (numStates c.d).toNat
  rw [show (fun _ : Fin (numStates c.d).toNat => (0 : ℝ)) = 0 from rfl, Matrix.mulVec_zero, add_zero] at e0
  have e2 : (Jᵀ * J) *ᵥ (fun j => v (j : Nat)) = Jᵀ *ᵥ fun i => noise i := by
    have e : (fun i : Fin out.x.length => out.x.getD i 0 - noise i) = (fun i : Fin out.x.length => out.x.getD i 0 - 0) - fun i : Fin out.x.length => noise i := by funext i; simp
    rw [e, mulVec_add, mulVec_sub, e0, mulVec_mulVec] at e1
    have := congrArg (fun w => w + Jᵀ *ᵥ fun i : Fin out.x.length => noise i) e1
    simp only [zero_sub, zero_add] at this
    rw [← this]; abel
  rw [e2, dotProduct_mulVec, vecMul_transpose]
  rfl

/-- second moments of linear functions of white noise -/
theorem white_moment {Ω : Type} [MeasurableSpace Ω] {μ : Measure Ω} {noise : Ω → Nat → ℝ} {n : Nat} {σ : ℝ} (hw : WhiteNoise μ noise n σ) (m : Nat) (z w : Fin m → ℝ) :
    Integrable (fun ω => (∑ i, z i * noise ω i) * ∑ i, w i * noise ω i) μ ∧
    ∫ ω, (∑ i, z i * noise ω i) * (∑ i, w i * noise ω i) ∂μ = (∑ i : Fin m, if (i : Nat) < n then z i * w i else 0) * σ ^ 2 := by
  have hi : ∀ i j, Integrable (fun ω => noise ω i * noise ω j) μ := by
    intro i j
    by_cases h : i < n ∧ j < n
    · exact hw.integrable i j h.1 h.2
    · have : (fun ω => noise ω i * noise ω j) = fun _ => 0 := by
        funext ω
        rcases not_and_or.1 h with h | h
        · rw [hw.none ω i (by omega), zero_mul]
        · rw [hw.none ω j (by omega), mul_zero]
      rw [this]; exact integrable_zero _ _ _
  have e : (fun ω => (∑ i, z i * noise ω i) * ∑ i, w i * noise ω i) = fun ω => ∑ i, ∑ j, (z i * w j) * (noise ω i * noise ω j) := by
    funext ω
    rw [Finset.sum_mul_sum]
    exact Finset.sum_congr rfl fun i _ => Finset.sum_congr rfl fun j _ => by ring
  rw [e]
  refine ⟨integrable_finsetSum _ fun i _ => integrable_finsetSum _ fun j _ => (hi i j).const_mul _, ?_⟩
  rw [integral_finsetSum _ fun (i : Fin m) _ => integrable_finsetSum _ fun (j : Fin m) _ => (hi i j).const_mul (z i * w j), Finset.sum_mul]
  refine Finset.sum_congr rfl fun i _ => ?_
  rw [integral_finsetSum _ fun (j : Fin m) _ => (hi i j).const_mul (z i * w j)]
  simp only [integral_const_mul]
  by_cases h : (i : Nat) < n
  · rw [if_pos h, Finset.sum_eq_single i]
    · rw [hw.cov i i h h, if_pos rfl]
    · intro j _ hj
      by_cases hjn : (j : Nat) < n
      · rw [hw.cov i j h hjn, if_neg (fun he => hj (Fin.ext he.symm)), mul_zero]
      · simp only [hw.none _ j (by omega), mul_zero, integral_zero]
    · intro hh; exact absurd (Finset.mem_univ _) hh
  · rw [if_neg h, zero_mul]
    refine Finset.sum_eq_zero fun j _ => ?_
    simp only [hw.none _ i (by omega), zero_mul, integral_zero, mul_zero]

/-- C78 (covariance). The noise-free problem was solved. The observations have uncorrelated noise with standard deviation σ (in units of the weighted residuals); regularization has no noise. For each
noise sample the problem is re-solved, to first order. Then the reported matrix is the matrix of the expected products of the changes in F -/
theorem covariance_correct (C : Cholmod) (hC : CholmodOk C) (eigsh : Eigsh) (c : Ctx) (ok : CtxOk c) (idx : IdxOk c) (out : Out) (ho : optimizerCallback c = some out)
    (hopt : IsOptimum out (fun _ => 0) fun _ => 0) (N : Nat) (F : Mem) (σ : ℝ) (V : Nat → Nat → ℝ) (h : propagate C eigsh "covariance" c N F (some σ) = some (.matrix V))
    {Ω : Type} [MeasurableSpace Ω] (μ : Measure Ω) (noise : Ω → Nat → ℝ) (hw : WhiteNoise μ noise (numObserved c) σ) (step : Ω → Mem) (hs : ∀ ω, IsOptimum out (noise ω) (step ω))
    (r s : Nat) (hr : r < N) (hsN : s < N) :
    Integrable (fun ω => deltaF c.d F (step ω) r * deltaF c.d F (step ω) s) μ ∧ ∫ ω, deltaF c.d F (step ω) r * deltaF c.d F (step ω) s ∂μ = V r s := by
  obtain ⟨-, h0, hobs, hrank, hreg, -⟩ := (propagate_succeeds_iff C hC eigsh "covariance" c ok idx out ho N (by omega) F (some σ) (by intro h; simp at h)).1 ⟨_, h⟩
  obtain ⟨V', a, hF, hV, hp⟩ := propagate_core C hC c ok idx out ho h0 hrank hobs hreg N (by omega) F
  rw [hp eigsh "covariance" (some σ) (by simp)] at h
  simp only [Option.or, Option.bind_some, finish] at h
  rw [if_neg (by decide), if_pos trivial] at h
  have hVV : V r s = V' r s * σ * σ := by
    have := Res.matrix.inj (Option.some.inj h)
    rw [← this]
  have e : ∀ r < N, ∀ ω, deltaF c.d F (step ω) r = ∑ i : Fin out.x.length, ((csrOf out).dense out.x.length (numStates c.d).toNat *ᵥ a r) i * noise ω i := by
    intro r hr ω
    rw [hF _ r hr, deltaF_eq c ok idx out ho h0 hopt (noise ω) (step ω) (hs ω)]
  simp only [e r hr, e s hsN]
  have := white_moment hw out.x.length ((csrOf out).dense out.x.length (numStates c.d).toNat *ᵥ a r) ((csrOf out).dense out.x.length (numStates c.d).toNat *ᵥ a s)
  refine ⟨this.1, this.2.trans ?_⟩
  rw [hVV, hV r hr s hsN]
  ring

/-- C78 (mean). If the noise is 0 on average, then so is the change in F: to first order the solution isn't biased -/
theorem mean_zero (c : Ctx) (ok : CtxOk c) (idx : IdxOk c) (out : Out) (ho : optimizerCallback c = some out) (h0 : 0 < numStates c.d) (hrank : FullRank out (numStates c.d))
    (hopt : IsOptimum out (fun _ => 0) fun _ => 0) (F : Mem) {Ω : Type} [MeasurableSpace Ω] (μ : Measure Ω) (noise : Ω → Nat → ℝ)
    (hi : ∀ i, Integrable (fun ω => noise ω i) μ) (hz : ∀ i, ∫ ω, noise ω i ∂μ = 0) (step : Ω → Mem) (hs : ∀ ω, IsOptimum out (noise ω) (step ω)) (r : Nat) :
    ∫ ω, deltaF c.d F (step ω) r ∂μ = 0 := by
  obtain ⟨u, hu, -⟩ := units c.d idx.wf h0
  have hinj := (fullRank_iff c ok idx out ho h0).1 hrank
  set J := (csrOf out).dense out.x.length (numStates c.d).toNat with hJ
  have hg := gram_injective J hinj
  have hdet : IsUnit (Jᵀ * J).det := by
    rw [isUnit_iff_ne_zero]
    intro h
    obtain ⟨v, hv, hv'⟩ := exists_mulVec_eq_zero_iff.2 h
    exact hv (hg v hv')
  set g : Fin (numStates c.d).toNat → ℝ := fun j => F (r * (numStates c.d).toNat + (j : Nat)) * u (j : Nat) with hgd
  have e : ∀ ω, deltaF c.d F (step ω) r = ∑ i : Fin out.x.length, (J *ᵥ ((Jᵀ * J)⁻¹ *ᵥ g)) i * noise ω i := by
    intro ω
    rw [← deltaF_eq c ok idx out ho h0 hopt (noise ω) (step ω) (hs ω), ← hJ, dotProduct_mulVec, ← mulVec_transpose, transpose_mul, transpose_transpose, mulVec_mulVec, mul_nonsing_inv _ hdet, one_mulVec]
    unfold deltaF dotProduct
    rw [← Fin.sum_univ_eq_sum_range (fun j => F ((r : Int) * (numStates c.d).toNat + j) * (unpackVector c.d (step ω)).1 j) (numStates c.d).toNat]
    refine Finset.sum_congr rfl fun j _ => ?_
    rw [hu (step ω) j (by omega) (by omega), hgd]
    ring
  simp only [e]
  rw [integral_finsetSum _ fun (i : Fin out.x.length) _ => (hi i).const_mul ((J *ᵥ ((Jᵀ * J)⁻¹ *ᵥ g)) i)]
  refine Finset.sum_eq_zero fun i _ => ?_
  rw [integral_const_mul, hz, mul_zero]

end Mrcal.Propagate
