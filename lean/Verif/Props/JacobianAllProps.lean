import Verif.Props.JacobianTriProps

/-! # C74: all together: the measurement vector, the sparse Jacobian, and the gradient of the cost -/

namespace Mrcal.Callback
open Mrcal Mrcal.Pack Mrcal.Pose Mrcal.Project Mrcal.StateLayout Mrcal.Cam Mrcal.Tri

/-- **Specification**: the measurements, in order: the board corners (observation by observation, corner by corner, x then y), the points, the triangulated pairs, the regularization. `pairs`: the
pairs of triangulated observations of the same point -/
noncomputable def residuals (P : Problem) (pairs : List (Nat × Nat)) : List (Params → ℝ) :=
  (P.boards.flatMap fun o => (List.range (P.W * P.H)).flatMap fun ipt => [boardRes P o ipt 0, boardRes P o ipt 1]) ++
  (P.points.flatMap fun o => [pointRes P o 0, pointRes P o 1]) ++
  (pairs.map fun p => triPairRes P (P.tri[p.1]?.getD ⟨false, false, 0, 0⟩) (P.tri[p.2]?.getD ⟨false, false, 0, 0⟩) p.1 p.2) ++
  regResiduals P

/-- **Specification**: these are the pairs of observations of the same point, in lexicographic order -/
def IsPairs (tri : List TriObs) (L : List (Nat × Nat)) : Prop :=
  (∀ i j, (i, j) ∈ L ↔ SameSet tri i j) ∧ L.Pairwise fun p q => p.1 < q.1 ∨ (p.1 = q.1 ∧ p.2 < q.2)

/-- **Specification**: every measurement that contributes is differentiable at these parameters -/
structure Problem.RegularAt (P : Problem) (Q : Params) : Prop where
  boards : ∀ o ∈ P.boards, ∀ ipt < P.W * P.H, 0 < o.weight ipt →
    Regular ((camOf Q o.icamE).map RtV.r) (frameOf Q o.iframe).r ∧ LensRegular P.d.lens (intrOf P.d Q o.icamI) (seenCorner P Q o ipt)
  points : ∀ o ∈ P.points, 0 < o.weight → (∀ c, camOf Q o.icamE = some c → 1e-5 ≤ mag3 c.r ∨ c.r = ⟨0, 0, 0⟩) ∧
    LensRegular P.d.lens (intrOf P.d Q o.icamI) (seenPoint Q o)
  tri : ∀ i j o0 o1, SameSet P.tri i j → P.tri[i]? = some o0 → P.tri[j]? = some o1 → o0.outlier = false → o1.outlier = false →
    TriRegular (camOf Q o0.icamE) (camOf Q o1.icamE) (P.triV i) (P.triV j)
  imager : P.d.sel.regularization = true → P.imagersizes 0 ≠ 0

variable {b : ℝ → Mem} {b' : Mem} {t : ℝ}

theorem zipIdx_flatMap_fst {α β : Type _} (l : List α) (f : α → List β) : l.zipIdx.flatMap (fun p => f p.1) = l.flatMap f := by
  have h : (l.zipIdx.map Prod.fst).flatMap f = l.zipIdx.flatMap (fun p => f p.1) := by rw [List.flatMap_map]
  rw [← h]
  congr 1
  exact List.zipIdx_map_fst 0 l

theorem zipIdx_getD {α : Type _} (l : List α) (a d : α) (i : Nat) (h : (a, i) ∈ l.zipIdx) : l.getD i d = a ∧ a ∈ l := by
  have h' := List.mem_zipIdx_iff_getElem?.mp h
  simp only [] at h'
  refine ⟨?_, List.mem_of_getElem? h'⟩
  rw [List.getD_eq_getElem?_getD, h', Option.getD_some]

/-- **C74**: every row the callback computes is right: the values are the documented measurements, and the Jacobian row is the derivative with respect to the packed state, along any smooth path -/
theorem callback_rows_right (P : Problem) (hP : P.Valid) (hT : Terminated P.tri) (hb : ∀ j, HasDerivAt (fun s => b s j) (b' j) t)
    (hreg : P.RegularAt (unpacked P.d P.seed (b t))) :
    ∃ rows pairs, allRows (P.ctx (b t)) = some rows ∧ IsPairs P.tri pairs ∧ List.Forall₂ (RowOk P.d P.seed b b' t) rows (residuals P pairs) := by
  obtain ⟨L, hL, hmem, hnat, hlex, -⟩ := tri_measurements_are_pairs P.tri hT
  have htri := triRows_eq P.d (P.ctx (b t)).projTri P.tri P.tri 0 rfl
  have hc : ((0 : Nat) : Int) = 0 := rfl
  rw [hc, hL, Option.map_some] at htri
  refine ⟨_, L.map fun p => (p.1.toNat, p.2.toNat), by unfold allRows; rw [show (P.ctx (b t)).d = P.d from rfl, show (P.ctx (b t)).tri = P.tri from rfl, htri, Option.map_some], ⟨?_, ?_⟩, ?_⟩
  · intro i j
    rw [← hmem, List.mem_map]
    constructor
    · rintro ⟨p, hp, he⟩
      obtain ⟨a, c, rfl⟩ := hnat p hp
      simp only [Int.toNat_natCast, Prod.mk.injEq] at he
      rw [← he.1, ← he.2]; exact hp
    · intro h
      exact ⟨_, h, by simp⟩
  · rw [List.pairwise_map]
    refine List.Pairwise.imp_of_mem ?_ hlex
    intro p q hp hq h
    obtain ⟨a, c, rfl⟩ := hnat p hp
    obtain ⟨a', c', rfl⟩ := hnat q hq
    simp only [LexLt, Int.toNat_natCast] at h ⊢
    omega
  · unfold residuals
    refine forall₂_append (forall₂_append (forall₂_append ?_ ?_) ?_) (reg_rows_right P hP hb hreg.imager)
    · rw [← zipIdx_flatMap_fst P.boards]
      unfold boardRows
      refine forall₂_flatMap_same _ _ _ ?_
      rintro ⟨o, i⟩ hoi
      refine forall₂_flatMap_same _ _ _ fun ipt hipt => ?_
      obtain ⟨hg, ho⟩ := zipIdx_getD _ _ noBoard _ hoi
      have hp : (P.ctx (b t)).projBoard i ipt = boardProj P (b t) o ipt := by
        show boardProj P (b t) ((P.ctx (b t)).boards.getD i noBoard) ipt = _
        rw [hg]
      simp only [List.map_cons, List.map_nil, hp]
      have hr := hreg.boards o ho ipt (List.mem_range.mp hipt)
      exact List.Forall₂.cons (board_row_right P hP hb o ho ipt 0 (by omega) hr) (List.Forall₂.cons (board_row_right P hP hb o ho ipt 1 (by omega) hr) List.Forall₂.nil)
    · rw [← zipIdx_flatMap_fst P.points]
      unfold pointRows
      refine forall₂_flatMap_same _ _ _ ?_
      rintro ⟨o, i⟩ hoi
      obtain ⟨hg, ho⟩ := zipIdx_getD _ _ noPoint _ hoi
      have hp : (P.ctx (b t)).projPoint i = pointProj P (b t) o := by
        show pointProj P (b t) ((P.ctx (b t)).points.getD i noPoint) = _
        rw [hg]
      simp only [List.map_cons, List.map_nil, hp]
      have hr := hreg.points o ho
      exact List.Forall₂.cons (point_row_right P hP hb o ho 0 (by omega) hr) (List.Forall₂.cons (point_row_right P hP hb o ho 1 (by omega) hr) List.Forall₂.nil)
    · rw [List.map_map]
      refine forall₂_map_same _ _ _ fun p hp => ?_
      obtain ⟨i, j, rfl⟩ := hnat p hp
      have hss := (hmem i j).mp hp
      have hj : j < P.tri.length := hss.2.1
      have hi : i < P.tri.length := lt_trans hss.1 hj
      have e0 : P.tri[i]? = some P.tri[i] := List.getElem?_eq_getElem hi
      have e1 : P.tri[j]? = some P.tri[j] := List.getElem?_eq_getElem hj
      simp only [Int.toNat_natCast, Function.comp_apply, e0, e1, Option.getD_some]
      have hp : (P.ctx (b t)).projTri i j = triResidual (camOpt P.d (b t) P.seed P.tri[i].icamE) (camOpt P.d (b t) P.seed P.tri[j].icamE) (P.triV i) (P.triV j) := by
        simp only [Problem.ctx, e0, e1, Option.map_some, Option.getD_some]
      rw [hp]
      exact tri_row_right P hP hb _ _ (List.getElem_mem hi) (List.getElem_mem hj) i j fun h0 h1 => hreg.tri i j _ _ hss e0 e1 h0 h1

/-! ### the arrays -/

/-- **Specification**: the (i,j) element of the sparse matrix in the compressed-row form (Jrowptr, Jcolidx, Jval): entries of the same column add up -/
noncomputable def Out.J (out : Out) (i : Nat) (j : Int) : ℝ :=
  ((((out.cols.zip out.vals).drop (out.rowptr.getD i 0)).take (out.rowptr.getD (i + 1) 0 - out.rowptr.getD i 0)).map fun e => if e.1 = j then e.2 else 0).sum

/-- **Specification**: (J v)_i -/
noncomputable def Out.Jv (out : Out) (i : Nat) (v : Mem) : ℝ :=
  ((((out.cols.zip out.vals).drop (out.rowptr.getD i 0)).take (out.rowptr.getD (i + 1) 0 - out.rowptr.getD i 0)).map fun e => e.2 * v e.1).sum

theorem forall₂_getElem? {β γ : Type _} {R : β → γ → Prop} {l : List β} {m : List γ} (h : List.Forall₂ R l m) (i : Nat) (y : γ) (hy : m[i]? = some y) : ∃ x, l[i]? = some x ∧ R x y := by
  induction h generalizing i with
  | nil => simp at hy
  | cons hr _ ih =>
    cases i with
    | zero => simp only [List.getElem?_cons_zero, Option.some.injEq] at hy ⊢; subst hy; exact ⟨_, rfl, hr⟩
    | succ i => simp only [List.getElem?_cons_succ] at hy ⊢; exact ih i hy

theorem callback_x_length (c : Ctx) (rows : List Row) (out : Out) (h : allRows c = some rows) (ho : optimizerCallback c = some out) : out.x.length = rows.length := by
  rw [optimizerCallback, h, Option.map_some] at ho
  obtain rfl := Option.some.inj ho
  simp only [foldl_emit, List.nil_append, List.length_map]

theorem pairs_unique {tri : List TriObs} {L L' : List (Nat × Nat)} (h : IsPairs tri L) (h' : IsPairs tri L') : L = L' := by
  have nd : ∀ {L : List (Nat × Nat)}, L.Pairwise (fun p q => p.1 < q.1 ∨ (p.1 = q.1 ∧ p.2 < q.2)) → L.Nodup := by
    intro L hL
    refine hL.imp ?_
    intro p q hpq he
    rw [he] at hpq
    omega
  refine List.Perm.eq_of_pairwise ?_ h.2 h'.2 ((List.perm_ext_iff_of_nodup (nd h.2) (nd h'.2)).mpr ?_)
  · intro p q _ _ h1 h2
    omega
  · rintro ⟨i, j⟩
    rw [h.1, h'.1]

/-- **C74**: the output arrays: x is the list of documented measurements at this state; and, as the packed state moves along any smooth path, x moves at the rate J b' -/
theorem callback_jacobian (P : Problem) (hP : P.Valid) (hT : Terminated P.tri) (hb : ∀ j, HasDerivAt (fun s => b s j) (b' j) t)
    (hreg : P.RegularAt (unpacked P.d P.seed (b t))) :
    ∃ out pairs, optimizerCallback (P.ctx (b t)) = some out ∧ IsPairs P.tri pairs ∧
      out.x = (residuals P pairs).map (fun f => f (unpacked P.d P.seed (b t))) ∧
      ∀ i f, (residuals P pairs)[i]? = some f → HasDerivAt (fun s => f (unpacked P.d P.seed (b s))) (out.Jv i b') t := by
  obtain ⟨rows, pairs, hrows, hp, hall⟩ := callback_rows_right P hP hT hb hreg
  obtain ⟨out, ho⟩ : ∃ out, optimizerCallback (P.ctx (b t)) = some out := ⟨_, by rw [optimizerCallback, hrows, Option.map_some]⟩
  have hcr := callback_rows _ rows _ hrows ho
  have hxlen := callback_x_length _ rows _ hrows ho
  refine ⟨_, pairs, ho, hp, ?_, ?_⟩
  · refine List.ext_getElem? fun i => ?_
    rw [List.getElem?_map]
    cases hf : (residuals P pairs)[i]? with
    | some f =>
      obtain ⟨r, hr, hok⟩ := forall₂_getElem? hall i f hf
      rw [(hcr i r hr).1, Option.map_some, hok.1]
    | none =>
      rw [Option.map_none, List.getElem?_eq_none_iff, hxlen, hall.length_eq]
      exact List.getElem?_eq_none_iff.mp hf
  · intro i f hf
    obtain ⟨r, hr, hok⟩ := forall₂_getElem? hall i f hf
    obtain ⟨-, a, c, ha, hc, hlen, hent⟩ := hcr i r hr
    refine HasDerivAt.congr_deriv hok.2 ?_
    unfold Out.Jv dotE
    rw [List.getD_eq_getElem?_getD, List.getD_eq_getElem?_getD, ha, hc, Option.getD_some, Option.getD_some, hent]

/-- **C74**: each element of the Jacobian is the partial derivative of that measurement with respect to that element of the packed state -/
theorem callback_partials (P : Problem) (hP : P.Valid) (hT : Terminated P.tri) (b0 : Mem) (hreg : P.RegularAt (unpacked P.d P.seed b0)) :
    ∃ out pairs, optimizerCallback (P.ctx b0) = some out ∧ IsPairs P.tri pairs ∧
      out.x = (residuals P pairs).map (fun f => f (unpacked P.d P.seed b0)) ∧
      ∀ i f, (residuals P pairs)[i]? = some f → ∀ j, HasDerivAt (fun s => f (unpacked P.d P.seed (Function.update b0 j s))) (out.J i j) (b0 j) := by
  have key : ∀ j : Int, ∃ out pairs, optimizerCallback (P.ctx b0) = some out ∧ IsPairs P.tri pairs ∧
      out.x = (residuals P pairs).map (fun f => f (unpacked P.d P.seed b0)) ∧
      ∀ i f, (residuals P pairs)[i]? = some f → HasDerivAt (fun s => f (unpacked P.d P.seed (Function.update b0 j s))) (out.J i j) (b0 j) := by
    intro j
    have hb : ∀ k, HasDerivAt (fun s => (Function.update b0 j s : Mem) k) ((fun k => if k = j then (1 : ℝ) else 0) k) (b0 j) := by
      intro k
      by_cases hk : k = j
      · subst hk
        simp only [Function.update_self, if_true]
        exact hasDerivAt_id' _
      · simp only [Function.update_of_ne hk, if_neg hk]
        exact hasDerivAt_const _ _
    have he : (Function.update b0 j (b0 j) : Mem) = b0 := Function.update_eq_self j b0
    obtain ⟨out, pairs, h1, h2, h3, h4⟩ := callback_jacobian (b := fun s => Function.update b0 j s) P hP hT hb (by rw [he]; exact hreg)
    simp only [he] at h1 h3
    refine ⟨out, pairs, h1, h2, h3, fun i f hf => HasDerivAt.congr_deriv (h4 i f hf) ?_⟩
    unfold Out.Jv Out.J
    simp only [mul_ite, mul_one, mul_zero]
  obtain ⟨out, pairs, h1, h2, h3, -⟩ := key 0
  refine ⟨out, pairs, h1, h2, h3, fun i f hf j => ?_⟩
  obtain ⟨out', pairs', h1', h2', -, h4'⟩ := key j
  obtain rfl := Option.some.inj (h1.symm.trans h1')
  have : pairs = pairs' := pairs_unique h2 h2'
  subst this
  exact h4' i f hf

/-- **C74**: the gradient of the cost |x|^2, with respect to the packed state, is 2 J' x -/
theorem cost_gradient (P : Problem) (hP : P.Valid) (hT : Terminated P.tri) (b0 : Mem) (hreg : P.RegularAt (unpacked P.d P.seed b0)) :
    ∃ out pairs, optimizerCallback (P.ctx b0) = some out ∧ IsPairs P.tri pairs ∧
      ∀ j, HasDerivAt (fun s => ((residuals P pairs).map fun f => f (unpacked P.d P.seed (Function.update b0 j s)) ^ 2).sum)
        (2 * ∑ i ∈ Finset.range out.x.length, out.J i j * out.x.getD i 0) (b0 j) := by
  obtain ⟨out, pairs, h1, h2, h3, h4⟩ := callback_partials P hP hT b0 hreg
  refine ⟨out, pairs, h1, h2, fun j => ?_⟩
  rw [h3, List.length_map]
  generalize residuals P pairs = R at h4
  have gen : ∀ (R : List (Params → ℝ)) (g : Nat → ℝ), (∀ i f, R[i]? = some f → HasDerivAt (fun s => f (unpacked P.d P.seed (Function.update b0 j s))) (g i) (b0 j)) →
      HasDerivAt (fun s => (R.map fun f => f (unpacked P.d P.seed (Function.update b0 j s)) ^ 2).sum)
        (2 * ∑ i ∈ Finset.range R.length, g i * (R.map fun f => f (unpacked P.d P.seed b0)).getD i 0) (b0 j) := by
    intro R
    induction R with
    | nil => intro g _; simpa using hasDerivAt_const (b0 j) (0 : ℝ)
    | cons f R ih =>
      intro g hg
      have k0 := (hg 0 f rfl).pow 2
      have k1 := ih (fun i => g (i + 1)) fun i f' hf' => hg (i + 1) f' (by simpa using hf')
      have k := k0.add k1
      simp only [List.map_cons, List.sum_cons, List.length_cons]
      refine HasDerivAt.congr_deriv k ?_
      rw [Finset.sum_range_succ']
      simp only [List.getD_cons_succ, List.getD_cons_zero, Function.update_eq_self]
      push_cast
      ring
  exact gen R (fun i => out.J i j) fun i f hf => h4 i f hf j

/-! ### a concrete case: two cameras, one at the reference; a board, a point, a triangulated pair, all the regularization; everything is optimized -/

def exDims : Dims := ⟨1, 1, 1, 1, 0, 1, ⟨true, true, true, true, true, true, true, true⟩, .opencv4⟩

noncomputable def exSeed : Params
  | .intr i => if i < 2 then 1000 else 1 / 2
  | .cam _ k => if k = 3 then 3 else if k = 4 then 4 else 0
  | .frame _ k => if k = 5 then 10 else 0
  | .point _ k => if k = 2 then 10 else 0
  | .warp _ => 0

noncomputable def exProblem : Problem where
  d := exDims
  W := 2
  H := 3
  spacing := 1 / 10
  warpGiven := true
  boards := [⟨0, -1, 0, fun _ _ => 100, fun i => if i = 0 then -1 else 2⟩]
  points := [⟨0, 0, 0, fun _ => 100, 1⟩]
  tri := [⟨false, false, 0, -1⟩, ⟨true, false, 0, 0⟩]
  triV := fun i => if i = 0 then ⟨-1, 0, 3 / 5⟩ else ⟨0, 0, 1⟩
  imagersizes := fun _ => 1000
  seed := exSeed

theorem exValid : exProblem.Valid := by
  refine ⟨⟨?_, ?_, ?_, ?_, ?_⟩, trivial, ?_, ?_, ?_, ?_, ?_, ?_⟩ <;> simp [exProblem, exDims]

theorem exTerminated : Terminated exProblem.tri := by
  intro o ho
  simp only [exProblem, List.getLast?_cons_cons, List.getLast?_singleton, Option.some.injEq] at ho
  rw [← ho]

theorem ocvDen4 (k : Nat → ℝ) (p : P3) : ocvDen (padK 4 k) p = 1 := by
  simp [ocvDen, padK]

theorem exRegular : exProblem.RegularAt exSeed := by
  have I0 : intrOf exDims exSeed 0 0 = 1000 := by simp [intrOf, exDims, Lens.numParams, exSeed]
  have I1 : intrOf exDims exSeed 0 1 = 1000 := by simp [intrOf, exDims, Lens.numParams, exSeed]
  have hr0 : ∀ p : P3, rotP ⟨0, 0, 0⟩ p false = p := by
    intro p; rw [rotP_eq]; simp [rotForm, mag3]
  refine ⟨?_, ?_, ?_, ?_⟩
  · intro o ho ipt hipt hw
    simp only [exProblem, List.mem_singleton] at ho
    subst ho
    refine ⟨?_, ?_⟩
    · simp only [camOf, frameOf, poseAt, exSeed]
      norm_num [Regular]
    · show LensRegular .opencv4 _ _
      refine ⟨?_, ?_, ?_, ?_⟩
      · simp only [exProblem]; rw [I0]; norm_num
      · simp only [exProblem]; rw [I1]; norm_num
      · simp [seenCorner, exProblem, truthP, truth, camOf, frameOf, poseAt, exSeed, cornerOf, warpOf, deflection, rod_zero, trS, toVec]
      · rw [ocvDen4]; norm_num
  · intro o ho hw
    simp only [exProblem, List.mem_singleton] at ho
    subst ho
    refine ⟨?_, ?_⟩
    · intro c hc
      simp only [camOf, poseAt, exSeed] at hc
      norm_num at hc
      rw [← hc]
      right; rfl
    · show LensRegular .opencv4 _ _
      refine ⟨?_, ?_, ?_, ?_⟩
      · simp only [exProblem]; rw [I0]; norm_num
      · simp only [exProblem]; rw [I1]; norm_num
      · simp [seenPoint, exProblem, truthP, truth, camOf, pointOf, poseAt, exSeed, rod_zero, trS, toVec]
      · rw [ocvDen4]; norm_num
  · intro i j o0 o1 hs e0 e1 _ _
    obtain ⟨h1, h2, -⟩ := hs
    simp only [exProblem, List.length_cons, List.length_nil] at h2
    obtain rfl : i = 0 := by omega
    obtain rfl : j = 1 := by omega
    simp only [exProblem, List.getElem?_cons_zero, List.getElem?_cons_succ, Option.some.injEq] at e0 e1
    subst e0 e1
    obtain ⟨k1, k2, k3, k4, k5, k6, k7, k8, k9⟩ := regular_case
    have c0 : camOf exSeed (-1) = none := by simp [camOf]
    have c1 : camOf exSeed 0 = some ⟨⟨0, 0, 0⟩, ⟨3, 4, 0⟩⟩ := by simp [camOf, poseAt, exSeed]
    have pc : addP (⟨0, 0, 0⟩ : P3) ⟨3, 4, 0⟩ = ⟨3, 4, 0⟩ := by simp [addP]
    simp only [c0, c1, exProblem, if_true, one_ne_zero, if_false]
    refine ⟨by simp, by simp, ?_, ?_, ?_, ?_, ?_, ?_⟩
    · intro c hc; obtain rfl := Option.some.inj hc; right; rfl
    all_goals simp only [dirToRef, dirToCam, positionOf, pointToCam, hr0, pc]
    · exact k1
    · exact k2
    · exact k3
    · rw [k4, k5]; exact ⟨k6, k7⟩
    · exact ⟨k8, k9⟩
  · intro _
    simp [exProblem]

example : ∃ out pairs, optimizerCallback (exProblem.ctx (packState exDims exSeed fun _ => 0).1) = some out ∧ IsPairs exProblem.tri pairs ∧
    out.x.length = 2 * 6 + 2 + 1 + (4 + 2) + 1 ∧
    ∀ i f, (residuals exProblem pairs)[i]? = some f → ∀ j,
      HasDerivAt (fun s => f (unpacked exDims exSeed (Function.update (packState exDims exSeed fun _ => 0).1 j s))) (out.J i j) ((packState exDims exSeed fun _ => 0).1 j) := by
  have hwf : WF exDims := exValid.wf
  have hu : unpacked exDims exSeed (packState exDims exSeed fun _ => 0).1 = exSeed := unpack_pack_state exDims hwf exSeed _
  obtain ⟨out, pairs, h1, h2, h3, h4⟩ := callback_partials exProblem exValid exTerminated (packState exDims exSeed fun _ => 0).1
    (by show exProblem.RegularAt (unpacked exDims exSeed _); rw [hu]; exact exRegular)
  refine ⟨out, pairs, h1, h2, ?_, h4⟩
  have hp : pairs = [(0, 1)] := by
    refine pairs_unique h2 ⟨?_, by simp⟩
    intro i j
    simp only [List.mem_singleton, Prod.mk.injEq, SameSet]
    constructor
    · rintro ⟨rfl, rfl⟩
      refine ⟨by omega, by simp [exProblem], ?_⟩
      intro k _ hk
      obtain rfl : k = 0 := by omega
      exact ⟨_, rfl, rfl⟩
    · rintro ⟨h, h', -⟩
      simp only [exProblem, List.length_cons, List.length_nil] at h'
      omega
  rw [h3, hp]
  decide +kernel

end Mrcal.Callback
