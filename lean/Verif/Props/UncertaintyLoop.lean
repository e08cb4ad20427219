import Verif.Props.UncertaintyBlocks
import Mathlib.Tactic.Linarith
/-
Helper lemmas for C77: the main loop of _mrcal_drt_cross_reprojection__dbpacked() computes sums over the measurements.
-/
namespace Mrcal.Uncertainty
open Mrcal Pose

/-- n values starting at column `col` -/
def blk (col : Int) (n : Nat) (v : Nat → ℝ) (j : Int) : ℝ := if col ≤ j ∧ j < col + n then v (j - col).toNat else 0

theorem blk_zero (col : Int) (n : Nat) (j : Int) : blk col n (fun _ => 0) j = 0 := by unfold blk; split_ifs <;> rfl

theorem blk_add (col : Int) (n : Nat) (v w : Nat → ℝ) (j : Int) : blk col n (fun k => v k + w k) j = blk col n v j + blk col n w j := by
  unfold blk; split_ifs <;> simp

theorem blk_mul (col : Int) (n : Nat) (c : ℝ) (w : Nat → ℝ) (j : Int) : blk col n (fun k => c * w k) j = c * blk col n w j := by
  unfold blk; split_ifs <;> simp

theorem blk_congr (col : Int) (n : Nat) (v w : Nat → ℝ) (j : Int) (h : ∀ k < n, v k = w k) : blk col n v j = blk col n w j := by
  unfold blk
  split_ifs with hj
  · exact h _ (by omega)
  · rfl

theorem addBlock_apply (K : Nat → Int → ℝ) (col : Int) (n : Nat) (inc : Nat → Nat → ℝ) (i : Nat) (j : Int) :
    addBlock K col n inc i j = K i j + blk col n (inc i) j := by
  unfold addBlock blk; split_ifs <;> simp

/-- the gradient of the pose variables (packed) with respect to the small transformation; `rt`: the packed pose -/
noncomputable def gRt (rt : Arr) (SR ST : ℝ) (a k : Nat) : ℝ :=
  poseD (flat (tinyr0_gradientr0 ⟨rt 0 * SR, rt 1 * SR, rt 2 * SR⟩)) (fun k => rt (3 + k) * ST) a k / poseScale SR ST a

/-- the gradient of the point (packed) with respect to the small transformation -/
noncomputable def gPt (p : Arr) (a k : Nat) : ℝ := pointD (fun k => p k * scalePoint) a k / scalePoint

/-- the optional block -/
def oblk (col : Int) (n : Nat) (v : Nat → ℝ) (j : Int) : ℝ := if col ≥ 0 then blk col n v j else 0

theorem accRt_K (a : Acc) (this : Int) (rt : Arr) (SR ST : ℝ) (Sthis : Arr) (somert : Int) (Ss : Arr) (p : Int) (Sp : Arr) (cw : Int) (Sc : Arr)
    (i : Nat) (hi : i < 6) (j : Int) :
    (accumulateRtBlock a this rt SR ST Sthis somert Ss p Sp cw Sc).K i j = a.K i j +
      ∑ x : Fin 6, gRt rt SR ST x i * (blk this 6 (fun c => sym 6 Sthis x c) j + oblk somert 6 (fun c => Ss (x * 6 + c)) j +
        oblk p 3 (fun c => Sp (x * 3 + c)) j + oblk cw 2 (fun c => Sc (x * 2 + c)) j) := by
  have key : ∀ (G : Nat → ℝ) (n : Nat) (col : Int) (inc : Nat → Nat → ℝ) (S : Nat → Nat → ℝ), (∀ c < n, inc i c = ∑ x : Fin 6, G x * S x c) →
      blk col n (inc i) j = ∑ x : Fin 6, G x * blk col n (S x) j := by
    intro G n col inc S h
    rw [blk_congr col n _ _ j h]
    unfold blk
    split_ifs <;> simp
  have okey : ∀ (K : Nat → Int → ℝ) (G : Nat → ℝ) (n : Nat) (col : Int) (inc : Nat → Nat → ℝ) (S : Nat → Nat → ℝ), (∀ c < n, inc i c = ∑ x : Fin 6, G x * S x c) →
      (if col ≥ 0 then addBlock K col n inc else K) i j = K i j + ∑ x : Fin 6, G x * oblk col n (S x) j := by
    intro K G n col inc S h
    unfold oblk
    split_ifs
    · rw [addBlock_apply, key G n col inc S h]
    · simp
  unfold accumulateRtBlock
  simp only
  have t := fun (n : Nat) (S : Arr) (c : Nat) (_ : c < n) =>
    thingInc_eq n (flat (tinyr0_gradientr0 ⟨rt 0 * SR, rt 1 * SR, rt 2 * SR⟩)) (fun k => rt (3 + k) * ST) S SR ST i c hi
  rw [okey _ (fun x => gRt rt SR ST x i) 2 cw _ (fun x c => Sc (x * 2 + c)) (t 2 Sc),
    okey _ (fun x => gRt rt SR ST x i) 3 p _ (fun x c => Sp (x * 3 + c)) (t 3 Sp),
    okey _ (fun x => gRt rt SR ST x i) 6 somert _ (fun x c => Ss (x * 6 + c)) (t 6 Ss),
    addBlock_apply, key (fun x => gRt rt SR ST x i) 6 this _ (fun x c => sym 6 Sthis x c) (fun c hc => rtThis_eq _ _ _ _ _ _ _ hi hc)]
  simp only [mul_add, Finset.sum_add_distrib]
  ring

theorem accRt_JJ (a : Acc) (this : Int) (rt : Arr) (SR ST : ℝ) (Sthis : Arr) (somert : Int) (Ss : Arr) (p : Int) (Sp : Arr) (cw : Int) (Sc : Arr)
    (i j : Nat) (hi : i < 6) (hj : j < 6) :
    sym 6 (accumulateRtBlock a this rt SR ST Sthis somert Ss p Sp cw Sc).JJ i j = sym 6 a.JJ i j +
      ∑ x : Fin 6, ∑ y : Fin 6, gRt rt SR ST x i * sym 6 Sthis x y * gRt rt SR ST y j := by
  unfold accumulateRtBlock
  exact rtJJ_eq a.JJ _ _ _ _ _ i j hi hj

theorem accPt_K (a : Acc) (this : Int) (p S : Arr) (i : Nat) (hi : i < 6) (j : Int) :
    (accumulatePoint a this p S).K i j = a.K i j + ∑ x : Fin 3, gPt p x i * blk this 3 (fun c => sym 3 S x c) j := by
  show addBlock a.K this 3 (fun i j => if i < 3 then pointA p S i j else pointB S (i - 3) j) i j = _
  rw [addBlock_apply]
  congr 1
  rw [blk_congr this 3 _ _ j fun c hc => pointThis_eq p S i c hi hc]
  unfold blk gPt
  split_ifs <;> simp

theorem accPt_JJ (a : Acc) (this : Int) (p S : Arr) (i j : Nat) (hi : i < 6) (hj : j < 6) :
    sym 6 (accumulatePoint a this p S).JJ i j = sym 6 a.JJ i j + ∑ x : Fin 3, ∑ y : Fin 3, gPt p x i * sym 3 S x y * gPt p y j :=
  pointJJ_eq a.JJ p S i j hi hj

/-! ### what's been accumulated so far, including the chunk that hasn't been flushed yet -/

/-- the pose at state index `col` -/
def sub (b : Int → ℝ) (col : Int) : Arr := fun k => b (col + k)

noncomputable def camK (d : Dims) (b : Int → ℝ) (s : St) (i : Nat) (j : Int) : ℝ :=
  ∑ x : Fin 6, gRt (sub b s.cam) scaleRotCamera scaleTransCamera x i * (blk s.cam 6 (fun c => sym 6 s.ee x c) j +
    oblk s.frameForCam 6 (fun c => s.ef (x * 6 + c)) j + oblk s.pointForCam 3 (fun c => s.ep (x * 3 + c)) j +
    oblk (stateIndexWarp d) 2 (fun c => s.ec (x * 2 + c)) j)

noncomputable def camJ (b : Int → ℝ) (s : St) (i j : Nat) : ℝ :=
  ∑ x : Fin 6, ∑ y : Fin 6, gRt (sub b s.cam) scaleRotCamera scaleTransCamera x i * sym 6 s.ee x y * gRt (sub b s.cam) scaleRotCamera scaleTransCamera y j

noncomputable def frmK (d : Dims) (b : Int → ℝ) (s : St) (i : Nat) (j : Int) : ℝ :=
  ∑ x : Fin 6, gRt (sub b s.frame) scaleRotFrame scaleTransFrame x i * (blk s.frame 6 (fun c => sym 6 s.ff x c) j +
    oblk (stateIndexWarp d) 2 (fun c => s.fc (x * 2 + c)) j)

noncomputable def frmJ (b : Int → ℝ) (s : St) (i j : Nat) : ℝ :=
  ∑ x : Fin 6, ∑ y : Fin 6, gRt (sub b s.frame) scaleRotFrame scaleTransFrame x i * sym 6 s.ff x y * gRt (sub b s.frame) scaleRotFrame scaleTransFrame y j

noncomputable def ptK (b : Int → ℝ) (s : St) (i : Nat) (j : Int) : ℝ :=
  ∑ x : Fin 3, gPt (sub b s.point) x i * blk s.point 3 (fun c => sym 3 s.pp x c) j

noncomputable def ptJ (b : Int → ℝ) (s : St) (i j : Nat) : ℝ :=
  ∑ x : Fin 3, ∑ y : Fin 3, gPt (sub b s.point) x i * sym 3 s.pp x y * gPt (sub b s.point) y j

noncomputable def totK (d : Dims) (b : Int → ℝ) (s : St) (i : Nat) (j : Int) : ℝ :=
  s.acc.K i j + (if s.cam ≥ 0 then camK d b s i j else 0) + (if s.frame ≥ 0 then frmK d b s i j else 0) + (if s.point ≥ 0 then ptK b s i j else 0)

noncomputable def totJ (b : Int → ℝ) (s : St) (i j : Nat) : ℝ :=
  sym 6 s.acc.JJ i j + (if s.cam ≥ 0 then camJ b s i j else 0) + (if s.frame ≥ 0 then frmJ b s i j else 0) + (if s.point ≥ 0 then ptJ b s i j else 0)

theorem flushCam_K (d : Dims) (b : Int → ℝ) (s : St) (i : Nat) (hi : i < 6) (j : Int) : (flushCam d b s).K i j = s.acc.K i j + camK d b s i j :=
  accRt_K _ _ _ _ _ _ _ _ _ _ _ _ i hi j

theorem flushCam_J (d : Dims) (b : Int → ℝ) (s : St) (i j : Nat) (hi : i < 6) (hj : j < 6) : sym 6 (flushCam d b s).JJ i j = sym 6 s.acc.JJ i j + camJ b s i j :=
  accRt_JJ _ _ _ _ _ _ _ _ _ _ _ _ i j hi hj

theorem flushFrame_K (d : Dims) (b : Int → ℝ) (s : St) (i : Nat) (hi : i < 6) (j : Int) : (flushFrame d b s).K i j = s.acc.K i j + frmK d b s i j := by
  unfold flushFrame frmK
  rw [accRt_K _ _ _ _ _ _ _ _ _ _ _ _ i hi j]
  have : ∀ (n : Nat) v, oblk (-1) n v j = 0 := fun n v => if_neg (by omega)
  simp only [this, add_zero]
  rfl

theorem flushFrame_J (d : Dims) (b : Int → ℝ) (s : St) (i j : Nat) (hi : i < 6) (hj : j < 6) : sym 6 (flushFrame d b s).JJ i j = sym 6 s.acc.JJ i j + frmJ b s i j :=
  accRt_JJ _ _ _ _ _ _ _ _ _ _ _ _ i j hi hj

theorem flushPoint_K (b : Int → ℝ) (s : St) (i : Nat) (hi : i < 6) (j : Int) : (flushPoint b s).K i j = s.acc.K i j + ptK b s i j :=
  accPt_K _ _ _ _ i hi j

theorem flushPoint_J (b : Int → ℝ) (s : St) (i j : Nat) (hi : i < 6) (hj : j < 6) : sym 6 (flushPoint b s).JJ i j = sym 6 s.acc.JJ i j + ptJ b s i j :=
  accPt_JJ _ _ _ _ i j hi hj

theorem finish_K (d : Dims) (b : Int → ℝ) (s : St) (i : Nat) (hi : i < 6) (j : Int) : (finish d b s).K i j = totK d b s i j := by
  unfold finish totK
  simp only
  by_cases h1 : s.cam ≥ 0 <;> by_cases h2 : s.frame ≥ 0 <;> by_cases h3 : s.point ≥ 0 <;>
    simp only [h1, h2, h3, if_true, if_false, flushPoint_K _ _ i hi, flushFrame_K _ _ _ i hi, flushCam_K _ _ _ i hi, frmK, ptK, add_zero]

theorem finish_J (d : Dims) (b : Int → ℝ) (s : St) (i j : Nat) (hi : i < 6) (hj : j < 6) : sym 6 (finish d b s).JJ i j = totJ b s i j := by
  unfold finish totJ
  simp only
  by_cases h1 : s.cam ≥ 0 <;> by_cases h2 : s.frame ≥ 0 <;> by_cases h3 : s.point ≥ 0 <;>
    simp only [h1, h2, h3, if_true, if_false, flushPoint_J _ _ i j hi hj, flushFrame_J _ _ _ i j hi hj, flushCam_J _ _ _ i j hi hj, frmJ, ptJ, add_zero]

/-! ### one measurement -/

/-- what the loop relies on in each row -/
structure MapOk (d : Dims) (colidx : Int → Int) (m : RowMap) : Prop where
  e : m.extrinsics ≥ 0 → colidx m.extrinsics ≥ 0
  f : m.frames ≥ 0 → colidx m.frames ≥ 0
  p : m.points ≥ 0 → colidx m.points ≥ 0
  fp : ¬ (m.frames ≥ 0 ∧ m.points ≥ 0)
  pw : m.points ≥ 0 → m.warp < 0
  w : m.warp ≥ 0 → stateIndexWarp d ≥ 0

/-- the derivative of this measurement with respect to the small transformation -/
noncomputable def rowC (ccp : Bool) (b : Int → ℝ) (colidx : Int → Int) (jval : Int → ℝ) (m : RowMap) (k : Nat) : ℝ :=
  if ccp = true ∧ m.extrinsics ≥ 0 then
    ∑ x : Fin 6, gRt (sub b (colidx m.extrinsics)) scaleRotCamera scaleTransCamera x k * jval (m.extrinsics + x)
  else if m.frames ≥ 0 then ∑ x : Fin 6, gRt (sub b (colidx m.frames)) scaleRotFrame scaleTransFrame x k * jval (m.frames + x)
  else if m.points ≥ 0 then ∑ x : Fin 3, gPt (sub b (colidx m.points)) x k * jval (m.points + x)
  else 0

/-- the row of the Jacobian, only the columns we look at -/
noncomputable def rowV (d : Dims) (ccp : Bool) (colidx : Int → Int) (jval : Int → ℝ) (m : RowMap) (j : Int) : ℝ :=
  (if ccp = true ∧ m.extrinsics ≥ 0 then blk (colidx m.extrinsics) 6 (fun k => jval (m.extrinsics + k)) j else 0) +
  (if m.frames ≥ 0 then blk (colidx m.frames) 6 (fun k => jval (m.frames + k)) j else 0) +
  (if m.points ≥ 0 then blk (colidx m.points) 3 (fun k => jval (m.points + k)) j else 0) +
  (if m.warp ≥ 0 then blk (stateIndexWarp d) 2 (fun k => jval (m.warp + k)) j else 0)

/-- nothing is left over in the accumulators we're not using -/
structure Inv (ccp : Bool) (s : St) : Prop where
  cam : s.cam < 0 → s.ee = (fun _ => 0) ∧ s.ef = (fun _ => 0) ∧ s.ep = (fun _ => 0) ∧ s.ec = (fun _ => 0)
  frame : s.frame < 0 → s.ff = (fun _ => 0) ∧ s.fc = (fun _ => 0)
  point : s.point < 0 → s.pp = (fun _ => 0)
  rrp : ccp = false → s.cam < 0
  excl : s.cam ≥ 0 → s.frame < 0 ∧ s.point < 0

theorem blk_zero' (col : Int) (n : Nat) (v : Nat → ℝ) (j : Int) (h : ∀ k, v k = 0) : blk col n v j = 0 := by unfold blk; simp [h]

theorem oblk_zero' (col : Int) (n : Nat) (v : Nat → ℝ) (j : Int) (h : ∀ k, v k = 0) : oblk col n v j = 0 := by
  unfold oblk; rw [blk_zero' col n v j h]; simp

theorem camK_zero (d : Dims) (b : Int → ℝ) (s : St) (h : s.ee = (fun _ => 0) ∧ s.ef = (fun _ => 0) ∧ s.ep = (fun _ => 0) ∧ s.ec = (fun _ => 0)) (i : Nat) (j : Int) :
    camK d b s i j = 0 := by
  unfold camK sym
  rw [h.1, h.2.1, h.2.2.1, h.2.2.2]
  simp [blk_zero', oblk_zero']

theorem camJ_zero (b : Int → ℝ) (s : St) (h : s.ee = (fun _ => 0)) (i j : Nat) : camJ b s i j = 0 := by
  unfold camJ sym; rw [h]; simp

theorem frmK_zero (d : Dims) (b : Int → ℝ) (s : St) (h : s.ff = (fun _ => 0) ∧ s.fc = (fun _ => 0)) (i : Nat) (j : Int) : frmK d b s i j = 0 := by
  unfold frmK sym
  rw [h.1, h.2]
  simp [blk_zero', oblk_zero']

theorem frmJ_zero (b : Int → ℝ) (s : St) (h : s.ff = (fun _ => 0)) (i j : Nat) : frmJ b s i j = 0 := by
  unfold frmJ sym; rw [h]; simp

theorem ptK_zero (b : Int → ℝ) (s : St) (h : s.pp = (fun _ => 0)) (i : Nat) (j : Int) : ptK b s i j = 0 := by
  unfold ptK sym
  rw [h]
  simp [blk_zero']

theorem ptJ_zero (b : Int → ℝ) (s : St) (h : s.pp = (fun _ => 0)) (i j : Nat) : ptJ b s i j = 0 := by
  unfold ptJ sym; rw [h]; simp

/-- same totals -/
def SameTot (d : Dims) (b : Int → ℝ) (s s' : St) : Prop :=
  (∀ i < 6, ∀ j, totK d b s' i j = totK d b s i j) ∧ (∀ i < 6, ∀ j < 6, totJ b s' i j = totJ b s i j)

theorem SameTot.trans {d : Dims} {b : Int → ℝ} {s s' s'' : St} (h : SameTot d b s s') (h' : SameTot d b s' s'') : SameTot d b s s'' :=
  ⟨fun i hi j => (h'.1 i hi j).trans (h.1 i hi j), fun i hi j hj => (h'.2 i hi j hj).trans (h.2 i hi j hj)⟩

theorem SameTot.refl (d : Dims) (b : Int → ℝ) (s : St) : SameTot d b s s := ⟨fun _ _ _ => rfl, fun _ _ _ _ => rfl⟩

theorem flushCam_same (d : Dims) (b : Int → ℝ) (s : St) (h : s.cam ≥ 0) :
    SameTot d b s { s with acc := flushCam d b s, ee := fun _ => 0, ef := fun _ => 0, ep := fun _ => 0, ec := fun _ => 0 } := by
  constructor
  · intro i hi j
    unfold totK
    rw [camK_zero d b _ ⟨rfl, rfl, rfl, rfl⟩]
    simp only [h, if_true, flushCam_K _ _ _ i hi, frmK, ptK, add_zero]
  · intro i hi j hj
    unfold totJ
    rw [camJ_zero b _ rfl]
    simp only [h, if_true, flushCam_J _ _ _ i j hi hj, frmJ, ptJ, add_zero]

theorem flushFrame_same (d : Dims) (b : Int → ℝ) (s : St) (h : s.frame ≥ 0) :
    SameTot d b s { s with acc := flushFrame d b s, ff := fun _ => 0, fc := fun _ => 0 } := by
  constructor
  · intro i hi j
    unfold totK
    rw [frmK_zero d b _ ⟨rfl, rfl⟩]
    simp only [h, if_true, flushFrame_K _ _ _ i hi, camK, ptK, add_zero]
    ring
  · intro i hi j hj
    unfold totJ
    rw [frmJ_zero b _ rfl]
    simp only [h, if_true, flushFrame_J _ _ _ i j hi hj, camJ, ptJ, add_zero]
    ring

theorem flushPoint_same (d : Dims) (b : Int → ℝ) (s : St) (h : s.point ≥ 0) :
    SameTot d b s { s with acc := flushPoint b s, pp := fun _ => 0 } := by
  constructor
  · intro i hi j
    unfold totK
    rw [ptK_zero b _ rfl]
    simp only [h, if_true, flushPoint_K _ _ i hi, camK, frmK, add_zero]
    ring
  · intro i hi j hj
    unfold totJ
    rw [ptJ_zero b _ rfl]
    simp only [h, if_true, flushPoint_J _ _ i j hi hj, camJ, frmJ, add_zero]
    ring

theorem addList_zero_getD (S : Arr) (l : List ℝ) (k : Nat) : addList S l k = S k + l.getD k 0 := rfl

theorem sym_add (S : Arr) (v : Arr) (x y : Nat) (hx : x < 6) (hy : y < 6) : sym 6 (addList S (outerUpper 6 v)) x y = sym 6 S x y + v x * v y := by
  unfold sym; rw [addList_zero_getD, outerUpper6 v x y hx hy]

theorem sym_add3 (S : Arr) (v : Arr) (x y : Nat) (hx : x < 3) (hy : y < 3) : sym 3 (addList S (outerUpper 3 v)) x y = sym 3 S x y + v x * v y := by
  unfold sym; rw [addList_zero_getD, outerUpper3 v x y hx hy]

theorem blk_sym_add (col : Int) (S v : Arr) (x : Nat) (hx : x < 6) (j : Int) :
    blk col 6 (fun c => sym 6 (addList S (outerUpper 6 v)) x c) j = blk col 6 (fun c => sym 6 S x c) j + v x * blk col 6 v j := by
  rw [blk_congr col 6 _ _ j fun c hc => sym_add S v x c hx hc, blk_add, blk_mul]

theorem blk_sym_add3 (col : Int) (S v : Arr) (x : Nat) (hx : x < 3) (j : Int) :
    blk col 3 (fun c => sym 3 (addList S (outerUpper 3 v)) x c) j = blk col 3 (fun c => sym 3 S x c) j + v x * blk col 3 v j := by
  rw [blk_congr col 3 _ _ j fun c hc => sym_add3 S v x c hx hc, blk_add, blk_mul]

theorem oblk_dense_add (n : Nat) (hn : n = 6 ∨ n = 3 ∨ n = 2) (col : Int) (S v w : Arr) (x : Nat) (hx : x < 6) (j : Int) :
    oblk col n (fun c => addList S (outerDense n v w) (x * n + c)) j = oblk col n (fun c => S (x * n + c)) j + v x * oblk col n w j := by
  unfold oblk
  split_ifs
  · rw [blk_congr col n _ (fun c => S (x * n + c) + v x * w c) j fun c hc => by rw [addList_zero_getD, outerDense_getD n hn v w x c hx hc], blk_add, blk_mul]
  · simp

theorem JJ_add {n : Nat} (g : Fin n → Nat → ℝ) (S S' : Fin n → Fin n → ℝ) (v : Fin n → ℝ) (h : ∀ x y : Fin n, S' x y = S x y + v x * v y) (i j : Nat) :
    ∑ x : Fin n, ∑ y : Fin n, g x i * S' x y * g y j = (∑ x : Fin n, ∑ y : Fin n, g x i * S x y * g y j) + (∑ x : Fin n, g x i * v x) * (∑ x : Fin n, g x j * v x) := by
  simp only [h, Finset.sum_mul_sum, ← Finset.sum_add_distrib]
  exact Finset.sum_congr rfl fun x _ => Finset.sum_congr rfl fun y _ => by ring

theorem K_add {n : Nat} (g X X' v : Fin n → ℝ) (V : ℝ) (h : ∀ x : Fin n, X' x = X x + v x * V) :
    ∑ x : Fin n, g x * X' x = (∑ x : Fin n, g x * X x) + (∑ x : Fin n, g x * v x) * V := by
  simp only [h, Finset.sum_mul, ← Finset.sum_add_distrib]
  exact Finset.sum_congr rfl fun x _ => by ring

/-- the state index of each block in this row, -1: none -/
def here (colidx : Int → Int) (iv : Int) : Int := if iv < 0 then -1 else colidx iv

noncomputable def flushed (d : Dims) (ccp : Bool) (b : Int → ℝ) (colidx : Int → Int) (m : RowMap) (s : St) : St :=
  let s := if s.cam ≥ 0 ∧ (s.cam ≠ here colidx m.extrinsics ∨ s.frameForCam ≠ here colidx m.frames ∨ s.pointForCam ≠ here colidx m.points) then
      { s with acc := flushCam d b s, ee := fun _ => 0, ef := fun _ => 0, ep := fun _ => 0, ec := fun _ => 0 } else s
  let s := if s.frame ≥ 0 ∧ (s.frame ≠ here colidx m.frames ∨ (ccp = true ∧ m.extrinsics ≥ 0)) then
      { s with acc := flushFrame d b s, ff := fun _ => 0, fc := fun _ => 0 } else s
  if s.point ≥ 0 ∧ (s.point ≠ here colidx m.points ∨ (ccp = true ∧ m.extrinsics ≥ 0)) then
      { s with acc := flushPoint b s, pp := fun _ => 0 } else s

noncomputable def placed (ccp : Bool) (colidx : Int → Int) (m : RowMap) (s : St) : St :=
  if ccp then
    if m.extrinsics ≥ 0 then
      { s with cam := colidx m.extrinsics, frame := -1, point := -1, frameForCam := here colidx m.frames, pointForCam := here colidx m.points }
    else { s with cam := -1, frame := here colidx m.frames, point := here colidx m.points }
  else { s with frame := here colidx m.frames, point := here colidx m.points }

noncomputable def added (jval : Int → ℝ) (m : RowMap) (s : St) : St :=
  let vE : Arr := fun k => jval (m.extrinsics + k)
  let vF : Arr := fun k => jval (m.frames + k)
  let vP : Arr := fun k => jval (m.points + k)
  let vW : Arr := fun k => jval (m.warp + k)
  if s.cam ≥ 0 then
    { s with
      ee := addList s.ee (outerUpper 6 vE)
      ef := if m.frames ≥ 0 then addList s.ef (outerDense 6 vE vF) else s.ef
      ep := if m.points ≥ 0 then addList s.ep (outerDense 3 vE vP) else s.ep
      ec := if m.warp ≥ 0 then addList s.ec (outerDense 2 vE vW) else s.ec }
  else
    let s1 := if s.frame ≥ 0 then { s with ff := addList s.ff (outerUpper 6 vF) } else s
    if s.frame ≥ 0 ∧ ¬ m.warp ≥ 0 then s1
    else
      let s2 := if s.frame ≥ 0 then { s1 with fc := addList s1.fc (outerDense 2 vF vW) } else s1
      if s.point ≥ 0 then { s2 with pp := addList s2.pp (outerUpper 3 vP) } else s2

theorem accumulateRow_eq (d : Dims) (ccp : Bool) (b : Int → ℝ) (colidx : Int → Int) (jval : Int → ℝ) (m : RowMap) (s : St) :
    accumulateRow d ccp b colidx jval m s = added jval m (placed ccp colidx m (flushed d ccp b colidx m s)) := rfl

/-- after flushing: each accumulator is empty, or is for the chunk this measurement belongs to -/
theorem flushed_spec (d : Dims) (ccp : Bool) (b : Int → ℝ) (colidx : Int → Int) (m : RowMap) (s : St) (hI : Inv ccp s) :
    let F := flushed d ccp b colidx m s
    SameTot d b s F ∧ F.cam = s.cam ∧ F.frame = s.frame ∧ F.point = s.point ∧ F.frameForCam = s.frameForCam ∧ F.pointForCam = s.pointForCam ∧
    ((F.ee = (fun _ => 0) ∧ F.ef = (fun _ => 0) ∧ F.ep = (fun _ => 0) ∧ F.ec = (fun _ => 0)) ∨
      (s.cam ≥ 0 ∧ s.cam = here colidx m.extrinsics ∧ s.frameForCam = here colidx m.frames ∧ s.pointForCam = here colidx m.points)) ∧
    ((F.ff = (fun _ => 0) ∧ F.fc = (fun _ => 0)) ∨ (s.frame ≥ 0 ∧ s.frame = here colidx m.frames ∧ ¬ (ccp = true ∧ m.extrinsics ≥ 0))) ∧
    (F.pp = (fun _ => 0) ∨ (s.point ≥ 0 ∧ s.point = here colidx m.points ∧ ¬ (ccp = true ∧ m.extrinsics ≥ 0))) := by
  have c1 : ∀ s : St, Inv ccp s → let F := if s.cam ≥ 0 ∧ (s.cam ≠ here colidx m.extrinsics ∨ s.frameForCam ≠ here colidx m.frames ∨ s.pointForCam ≠ here colidx m.points) then
      { s with acc := flushCam d b s, ee := fun _ => 0, ef := fun _ => 0, ep := fun _ => 0, ec := fun _ => 0 } else s
      SameTot d b s F ∧ F.cam = s.cam ∧ F.frame = s.frame ∧ F.point = s.point ∧ F.frameForCam = s.frameForCam ∧ F.pointForCam = s.pointForCam ∧ F.ff = s.ff ∧ F.fc = s.fc ∧ F.pp = s.pp ∧
      ((F.ee = (fun _ => 0) ∧ F.ef = (fun _ => 0) ∧ F.ep = (fun _ => 0) ∧ F.ec = (fun _ => 0)) ∨
        (s.cam ≥ 0 ∧ s.cam = here colidx m.extrinsics ∧ s.frameForCam = here colidx m.frames ∧ s.pointForCam = here colidx m.points)) := by
    intro s hI
    by_cases h : s.cam ≥ 0 ∧ (s.cam ≠ here colidx m.extrinsics ∨ s.frameForCam ≠ here colidx m.frames ∨ s.pointForCam ≠ here colidx m.points)
    · intro F
      have hF : F = _ := if_pos h
      rw [hF]
      exact ⟨flushCam_same d b s h.1, rfl, rfl, rfl, rfl, rfl, rfl, rfl, rfl, Or.inl ⟨rfl, rfl, rfl, rfl⟩⟩
    · intro F
      have hF : F = _ := if_neg h
      rw [hF]
      refine ⟨SameTot.refl d b s, rfl, rfl, rfl, rfl, rfl, rfl, rfl, rfl, ?_⟩
      by_cases hc : s.cam ≥ 0
      · right
        by_contra hn
        exact h ⟨hc, by by_contra hh; push Not at hh; exact hn ⟨hc, hh⟩⟩
      · exact Or.inl (hI.cam (by omega))
  have c2 : ∀ s : St, (s.frame < 0 → s.ff = (fun _ => 0) ∧ s.fc = (fun _ => 0)) → let F := if s.frame ≥ 0 ∧ (s.frame ≠ here colidx m.frames ∨ (ccp = true ∧ m.extrinsics ≥ 0)) then
      { s with acc := flushFrame d b s, ff := fun _ => 0, fc := fun _ => 0 } else s
      SameTot d b s F ∧ F.cam = s.cam ∧ F.frame = s.frame ∧ F.point = s.point ∧ F.frameForCam = s.frameForCam ∧ F.pointForCam = s.pointForCam ∧
      F.ee = s.ee ∧ F.ef = s.ef ∧ F.ep = s.ep ∧ F.ec = s.ec ∧ F.pp = s.pp ∧
      ((F.ff = (fun _ => 0) ∧ F.fc = (fun _ => 0)) ∨ (s.frame ≥ 0 ∧ s.frame = here colidx m.frames ∧ ¬ (ccp = true ∧ m.extrinsics ≥ 0))) := by
    intro s hI
    by_cases h : s.frame ≥ 0 ∧ (s.frame ≠ here colidx m.frames ∨ (ccp = true ∧ m.extrinsics ≥ 0))
    · intro F
      have hF : F = _ := if_pos h
      rw [hF]
      exact ⟨flushFrame_same d b s h.1, rfl, rfl, rfl, rfl, rfl, rfl, rfl, rfl, rfl, rfl, Or.inl ⟨rfl, rfl⟩⟩
    · intro F
      have hF : F = _ := if_neg h
      rw [hF]
      refine ⟨SameTot.refl d b s, rfl, rfl, rfl, rfl, rfl, rfl, rfl, rfl, rfl, rfl, ?_⟩
      by_cases hc : s.frame ≥ 0
      · right
        refine ⟨hc, ?_, fun hh => h ⟨hc, Or.inr hh⟩⟩
        by_contra hn
        exact h ⟨hc, Or.inl hn⟩
      · exact Or.inl (hI (by omega))
  have c3 : ∀ s : St, (s.point < 0 → s.pp = (fun _ => 0)) → let F := if s.point ≥ 0 ∧ (s.point ≠ here colidx m.points ∨ (ccp = true ∧ m.extrinsics ≥ 0)) then
      { s with acc := flushPoint b s, pp := fun _ => 0 } else s
      SameTot d b s F ∧ F.cam = s.cam ∧ F.frame = s.frame ∧ F.point = s.point ∧ F.frameForCam = s.frameForCam ∧ F.pointForCam = s.pointForCam ∧
      F.ee = s.ee ∧ F.ef = s.ef ∧ F.ep = s.ep ∧ F.ec = s.ec ∧ F.ff = s.ff ∧ F.fc = s.fc ∧
      (F.pp = (fun _ => 0) ∨ (s.point ≥ 0 ∧ s.point = here colidx m.points ∧ ¬ (ccp = true ∧ m.extrinsics ≥ 0))) := by
    intro s hI
    by_cases h : s.point ≥ 0 ∧ (s.point ≠ here colidx m.points ∨ (ccp = true ∧ m.extrinsics ≥ 0))
    · intro F
      have hF : F = _ := if_pos h
      rw [hF]
      exact ⟨flushPoint_same d b s h.1, rfl, rfl, rfl, rfl, rfl, rfl, rfl, rfl, rfl, rfl, rfl, Or.inl rfl⟩
    · intro F
      have hF : F = _ := if_neg h
      rw [hF]
      refine ⟨SameTot.refl d b s, rfl, rfl, rfl, rfl, rfl, rfl, rfl, rfl, rfl, rfl, rfl, ?_⟩
      by_cases hc : s.point ≥ 0
      · right
        refine ⟨hc, ?_, fun hh => h ⟨hc, Or.inr hh⟩⟩
        by_contra hn
        exact h ⟨hc, Or.inl hn⟩
      · exact Or.inl (hI (by omega))
  unfold flushed
  simp only
  have k1 := c1 s hI
  simp only at k1
  generalize (if s.cam ≥ 0 ∧ (s.cam ≠ here colidx m.extrinsics ∨ s.frameForCam ≠ here colidx m.frames ∨ s.pointForCam ≠ here colidx m.points) then
      { s with acc := flushCam d b s, ee := fun _ => 0, ef := fun _ => 0, ep := fun _ => 0, ec := fun _ => 0 } else s : St) = s1 at k1 ⊢
  obtain ⟨t1, a1, a2, a3, a4, a5, a6, a7, a8, a9⟩ := k1
  have k2 := c2 s1 (by rw [a2, a6, a7]; exact hI.frame)
  simp only at k2
  generalize (if s1.frame ≥ 0 ∧ (s1.frame ≠ here colidx m.frames ∨ (ccp = true ∧ m.extrinsics ≥ 0)) then
      { s1 with acc := flushFrame d b s1, ff := fun _ => 0, fc := fun _ => 0 } else s1 : St) = s2 at k2 ⊢
  obtain ⟨t2, b1, b2, b3, b4, b5, b6, b7, b8, b9, b10, b11⟩ := k2
  have k3 := c3 s2 (by rw [b3, a3, b10, a8]; exact hI.point)
  simp only at k3
  generalize (if s2.point ≥ 0 ∧ (s2.point ≠ here colidx m.points ∨ (ccp = true ∧ m.extrinsics ≥ 0)) then
      { s2 with acc := flushPoint b s2, pp := fun _ => 0 } else s2 : St) = s3 at k3 ⊢
  obtain ⟨t3, e1, e2, e3, e4, e5, e6, e7, e8, e9, e10, e11, e12⟩ := k3
  refine ⟨(t1.trans t2).trans t3, by rw [e1, b1, a1], by rw [e2, b2, a2], by rw [e3, b3, a3], by rw [e4, b4, a4], by rw [e5, b5, a5], ?_, ?_, ?_⟩
  · rw [e6, e7, e8, e9, b6, b7, b8, b9]; exact a9
  · rw [e10, e11, ← a2]; exact b11
  · rw [← a3, ← b3]; exact e12

/-- totals only depend on these fields -/
theorem camK_congr (d : Dims) (b : Int → ℝ) (s s' : St) (h1 : s'.cam = s.cam) (h2 : s'.frameForCam = s.frameForCam) (h3 : s'.pointForCam = s.pointForCam)
    (h4 : s'.ee = s.ee) (h5 : s'.ef = s.ef) (h6 : s'.ep = s.ep) (h7 : s'.ec = s.ec) (i : Nat) (j : Int) : camK d b s' i j = camK d b s i j := by
  unfold camK; rw [h1, h2, h3, h4, h5, h6, h7]

theorem camJ_congr (b : Int → ℝ) (s s' : St) (h1 : s'.cam = s.cam) (h4 : s'.ee = s.ee) (i j : Nat) : camJ b s' i j = camJ b s i j := by
  unfold camJ; rw [h1, h4]

theorem frmK_congr (d : Dims) (b : Int → ℝ) (s s' : St) (h1 : s'.frame = s.frame) (h2 : s'.ff = s.ff) (h3 : s'.fc = s.fc) (i : Nat) (j : Int) :
    frmK d b s' i j = frmK d b s i j := by
  unfold frmK; rw [h1, h2, h3]

theorem frmJ_congr (b : Int → ℝ) (s s' : St) (h1 : s'.frame = s.frame) (h2 : s'.ff = s.ff) (i j : Nat) : frmJ b s' i j = frmJ b s i j := by
  unfold frmJ; rw [h1, h2]

theorem ptK_congr (b : Int → ℝ) (s s' : St) (h1 : s'.point = s.point) (h2 : s'.pp = s.pp) (i : Nat) (j : Int) : ptK b s' i j = ptK b s i j := by
  unfold ptK; rw [h1, h2]

theorem ptJ_congr (b : Int → ℝ) (s s' : St) (h1 : s'.point = s.point) (h2 : s'.pp = s.pp) (i j : Nat) : ptJ b s' i j = ptJ b s i j := by
  unfold ptJ; rw [h1, h2]

/-- the accumulators are empty, except maybe the one we're about to use -/
structure Ready (ccp : Bool) (colidx : Int → Int) (m : RowMap) (s : St) : Prop where
  inv : Inv ccp s
  cam : s.cam ≥ 0 → s.cam = colidx m.extrinsics ∧ m.extrinsics ≥ 0 ∧ ccp = true ∧ s.frameForCam = here colidx m.frames ∧ s.pointForCam = here colidx m.points
  camIff : ccp = true → m.extrinsics ≥ 0 → s.cam ≥ 0
  frame : s.cam < 0 → s.frame = here colidx m.frames
  point : s.cam < 0 → s.point = here colidx m.points

theorem placed_spec (d : Dims) (ccp : Bool) (b : Int → ℝ) (colidx : Int → Int) (m : RowMap) (s : St) (hI : Inv ccp s) (hm : MapOk d colidx m) :
    let P := placed ccp colidx m (flushed d ccp b colidx m s)
    SameTot d b s P ∧ Ready ccp colidx m P := by
  intro P
  obtain ⟨t, f1, f2, f3, f4, f5, gc, gf, gp⟩ := flushed_spec d ccp b colidx m s hI
  have hP : P = placed ccp colidx m (flushed d ccp b colidx m s) := rfl
  clear_value P
  generalize flushed d ccp b colidx m s = F at *
  by_cases hA : ccp = true ∧ m.extrinsics ≥ 0
  · obtain ⟨h1, h2⟩ := hA
    have he := hm.e h2
    have hP' : P = { F with cam := colidx m.extrinsics, frame := -1, point := -1, frameForCam := here colidx m.frames, pointForCam := here colidx m.points } := by
      rw [hP]; unfold placed; rw [if_pos h1, if_pos h2]
    have hh : here colidx m.extrinsics = colidx m.extrinsics := if_neg (by omega)
    have gf' : F.ff = (fun _ => 0) ∧ F.fc = (fun _ => 0) := gf.resolve_right fun h => h.2.2 ⟨h1, h2⟩
    have gp' : F.pp = (fun _ => 0) := gp.resolve_right fun h => h.2.2 ⟨h1, h2⟩
    subst hP'
    refine ⟨t.trans ⟨?_, ?_⟩, ⟨⟨?_, fun _ => gf', fun _ => gp', ?_, fun _ => ⟨by show (-1 : Int) < 0; omega, by show (-1 : Int) < 0; omega⟩⟩, ?_, ?_, ?_, ?_⟩⟩
    · intro i hi j
      unfold totK
      rw [frmK_zero d b F gf', ptK_zero b F gp']
      simp only [show ¬ ((-1 : Int) ≥ 0) by omega, if_false, ite_self, add_zero]
      congr 1
      rw [if_pos he]
      rcases gc with gc | gc
      · rw [camK_zero d b F gc, camK_zero d b _ (by exact gc), ite_self]
      · rw [if_pos (by rw [f1]; exact gc.1)]
        refine camK_congr d b F _ ?_ ?_ ?_ ?_ ?_ ?_ ?_ i j
        · show colidx m.extrinsics = F.cam; rw [f1, gc.2.1, hh]
        · show here colidx m.frames = F.frameForCam; rw [f4, gc.2.2.1]
        · show here colidx m.points = F.pointForCam; rw [f5, gc.2.2.2]
        all_goals rfl
    · intro i hi j hj
      unfold totJ
      rw [frmJ_zero b F gf'.1, ptJ_zero b F gp']
      simp only [show ¬ ((-1 : Int) ≥ 0) by omega, if_false, ite_self, add_zero]
      congr 1
      rw [if_pos he]
      rcases gc with gc | gc
      · rw [camJ_zero b F gc.1, camJ_zero b _ (by exact gc.1), ite_self]
      · rw [if_pos (by rw [f1]; exact gc.1)]
        refine camJ_congr b F _ ?_ ?_ i j
        · show colidx m.extrinsics = F.cam; rw [f1, gc.2.1, hh]
        · rfl
    · intro h
      exact absurd h (by show ¬ colidx m.extrinsics < 0; omega)
    · intro h; rw [h1] at h; exact absurd h (by decide)
    · exact fun _ => ⟨rfl, h2, h1, rfl, rfl⟩
    · exact fun _ _ => he
    · intro h; exact absurd h (by show ¬ colidx m.extrinsics < 0; omega)
    · intro h; exact absurd h (by show ¬ colidx m.extrinsics < 0; omega)
  · -- the camera isn't being used
    have gc' : F.ee = (fun _ => 0) ∧ F.ef = (fun _ => 0) ∧ F.ep = (fun _ => 0) ∧ F.ec = (fun _ => 0) := by
      refine gc.resolve_right fun h => ?_
      cases hc : ccp with
      | false => have := hI.rrp hc; omega
      | true =>
        have : m.extrinsics < 0 := by by_contra hn; exact hA ⟨hc, by omega⟩
        have h2 := h.2.1
        unfold here at h2
        rw [if_pos this] at h2
        omega
    have hP' : P.acc = F.acc ∧ P.cam < 0 ∧ P.frame = here colidx m.frames ∧ P.point = here colidx m.points ∧ P.ee = F.ee ∧ P.ef = F.ef ∧ P.ep = F.ep ∧ P.ec = F.ec ∧
        P.ff = F.ff ∧ P.fc = F.fc ∧ P.pp = F.pp := by
      rw [hP]; unfold placed
      cases hc : ccp with
      | false =>
        simp only [Bool.false_eq_true, if_false, and_self, and_true, true_and]
        rw [f1]; exact hI.rrp hc
      | true =>
        rw [if_pos rfl, if_neg (fun h => hA ⟨hc, h⟩)]
        exact ⟨rfl, by show (-1 : Int) < 0; omega, rfl, rfl, rfl, rfl, rfl, rfl, rfl, rfl, rfl⟩
    obtain ⟨p0, p1, p2, p3, p4, p5, p6, p7, p8, p9, p10⟩ := hP'
    have nf : here colidx m.frames < 0 → m.frames < 0 := by
      intro h; by_contra hn
      unfold here at h
      rw [if_neg hn] at h
      have := hm.f (by omega)
      omega
    have nn : ∀ iv : Int, iv < 0 → here colidx iv = -1 := fun iv h => if_pos h
    have zf : P.frame < 0 → P.ff = (fun _ => 0) ∧ P.fc = (fun _ => 0) := by
      intro h
      rw [p8, p9]
      refine gf.resolve_right fun hh => ?_
      rw [p2] at h
      omega
    have zp : P.point < 0 → P.pp = (fun _ => 0) := by
      intro h
      rw [p10]
      refine gp.resolve_right fun hh => ?_
      rw [p3] at h
      omega
    refine ⟨t.trans ⟨?_, ?_⟩, ⟨⟨fun _ => by rw [p4, p5, p6, p7]; exact gc', zf, zp, fun _ => p1, fun h => absurd h (by omega)⟩,
      fun h => absurd h (by omega), fun h1 h2 => absurd ⟨h1, h2⟩ hA, fun _ => p2, fun _ => p3⟩⟩
    · intro i hi j
      unfold totK
      rw [p0, camK_zero d b F gc', if_neg (show ¬ P.cam ≥ 0 by omega), ite_self]
      congr 1
      · congr 1
        rcases gf with g | g
        · rw [frmK_zero d b F g, frmK_zero d b P (by rw [p8, p9]; exact g), ite_self, ite_self]
        · rw [frmK_congr d b F P (by rw [p2, f2, g.2.1]) p8 p9, p2, f2, g.2.1]
      · rcases gp with g | g
        · rw [ptK_zero b F g, ptK_zero b P (by rw [p10]; exact g), ite_self, ite_self]
        · rw [ptK_congr b F P (by rw [p3, f3, g.2.1]) p10, p3, f3, g.2.1]
    · intro i hi j hj
      unfold totJ
      rw [p0, camJ_zero b F gc'.1, if_neg (show ¬ P.cam ≥ 0 by omega), ite_self]
      congr 1
      · congr 1
        rcases gf with g | g
        · rw [frmJ_zero b F g.1, frmJ_zero b P (by rw [p8]; exact g.1), ite_self, ite_self]
        · rw [frmJ_congr b F P (by rw [p2, f2, g.2.1]) p8, p2, f2, g.2.1]
      · rcases gp with g | g
        · rw [ptJ_zero b F g, ptJ_zero b P (by rw [p10]; exact g), ite_self, ite_self]
        · rw [ptJ_congr b F P (by rw [p3, f3, g.2.1]) p10, p3, f3, g.2.1]

theorem added_spec (d : Dims) (ccp : Bool) (b : Int → ℝ) (colidx : Int → Int) (jval : Int → ℝ) (m : RowMap) (s : St) (hR : Ready ccp colidx m s) (hm : MapOk d colidx m) :
    Inv ccp (added jval m s) ∧
    (∀ i < 6, ∀ j, totK d b (added jval m s) i j = totK d b s i j + rowC ccp b colidx jval m i * rowV d ccp colidx jval m j) ∧
    (∀ i < 6, ∀ j < 6, totJ b (added jval m s) i j = totJ b s i j + rowC ccp b colidx jval m i * rowC ccp b colidx jval m j) := by
  have hI := hR.inv
  have ho : ∀ iv n v j, (iv ≥ 0 → colidx iv ≥ 0) → oblk (here colidx iv) n v j = if iv ≥ 0 then blk (colidx iv) n v j else 0 := by
    intro iv n v j h
    unfold oblk here
    by_cases hh : iv < 0
    · rw [if_pos hh, if_neg (by omega), if_neg (by omega)]
    · rw [if_neg hh, if_pos (h (by omega)), if_pos (by omega)]
  by_cases hc : s.cam ≥ 0
  · obtain ⟨c1, c2, c3, c4, c5⟩ := hR.cam hc
    obtain ⟨x1, x2⟩ := hI.excl hc
    have hA : added jval m s = { s with
      ee := addList s.ee (outerUpper 6 fun k => jval (m.extrinsics + k))
      ef := if m.frames ≥ 0 then addList s.ef (outerDense 6 (fun k => jval (m.extrinsics + k)) fun k => jval (m.frames + k)) else s.ef
      ep := if m.points ≥ 0 then addList s.ep (outerDense 3 (fun k => jval (m.extrinsics + k)) fun k => jval (m.points + k)) else s.ep
      ec := if m.warp ≥ 0 then addList s.ec (outerDense 2 (fun k => jval (m.extrinsics + k)) fun k => jval (m.warp + k)) else s.ec } := if_pos hc
    rw [hA]
    refine ⟨⟨fun h => absurd h (by simpa using hc), hI.frame, hI.point, hI.rrp, hI.excl⟩, ?_, ?_⟩
    · intro i hi j
      unfold totK
      simp only [hc, if_true, if_neg (show ¬ s.frame ≥ 0 by omega), if_neg (show ¬ s.point ≥ 0 by omega), add_zero]
      rw [add_assoc]
      congr 1
      unfold rowC rowV
      rw [if_pos (show ccp = true ∧ m.extrinsics ≥ 0 from ⟨c3, c2⟩), if_pos (show ccp = true ∧ m.extrinsics ≥ 0 from ⟨c3, c2⟩), ← c1]
      unfold camK
      simp only
      have n6 : ∀ x : Fin 6, oblk s.frameForCam 6 (fun c => (if m.frames ≥ 0 then addList s.ef (outerDense 6 (fun k => jval (m.extrinsics + k)) fun k => jval (m.frames + k)) else s.ef) (x * 6 + c)) j =
          oblk s.frameForCam 6 (fun c => s.ef (x * 6 + c)) j + jval (m.extrinsics + (x : Nat)) * (if m.frames ≥ 0 then blk (colidx m.frames) 6 (fun k => jval (m.frames + k)) j else 0) := by
        intro x
        rw [← ho m.frames 6 _ j hm.f, ← c4]
        split_ifs with h
        · exact oblk_dense_add 6 (by simp) _ _ _ _ x x.isLt j
        · rw [c4, ho _ _ _ _ hm.f, if_neg h, ho _ _ _ _ hm.f, if_neg h]; simp
      have n3 : ∀ x : Fin 6, oblk s.pointForCam 3 (fun c => (if m.points ≥ 0 then addList s.ep (outerDense 3 (fun k => jval (m.extrinsics + k)) fun k => jval (m.points + k)) else s.ep) (x * 3 + c)) j =
          oblk s.pointForCam 3 (fun c => s.ep (x * 3 + c)) j + jval (m.extrinsics + (x : Nat)) * (if m.points ≥ 0 then blk (colidx m.points) 3 (fun k => jval (m.points + k)) j else 0) := by
        intro x
        rw [← ho m.points 3 _ j hm.p, ← c5]
        split_ifs with h
        · exact oblk_dense_add 3 (by simp) _ _ _ _ x x.isLt j
        · rw [c5, ho _ _ _ _ hm.p, if_neg h, ho _ _ _ _ hm.p, if_neg h]; simp
      have n2 : ∀ x : Fin 6, oblk (stateIndexWarp d) 2 (fun c => (if m.warp ≥ 0 then addList s.ec (outerDense 2 (fun k => jval (m.extrinsics + k)) fun k => jval (m.warp + k)) else s.ec) (x * 2 + c)) j =
          oblk (stateIndexWarp d) 2 (fun c => s.ec (x * 2 + c)) j + jval (m.extrinsics + (x : Nat)) * (if m.warp ≥ 0 then blk (stateIndexWarp d) 2 (fun k => jval (m.warp + k)) j else 0) := by
        intro x
        split_ifs with h
        · rw [oblk_dense_add 2 (by simp) _ _ _ _ x x.isLt j]
          congr 2
          exact if_pos (hm.w h)
        · simp
      refine K_add (n := 6) (fun x => gRt (sub b s.cam) scaleRotCamera scaleTransCamera x i) (fun x => blk s.cam 6 (fun c => sym 6 s.ee x c) j +
        oblk s.frameForCam 6 (fun c => s.ef (x * 6 + c)) j + oblk s.pointForCam 3 (fun c => s.ep (x * 3 + c)) j + oblk (stateIndexWarp d) 2 (fun c => s.ec (x * 2 + c)) j) _
        (fun x => jval (m.extrinsics + x)) _ ?_
      intro x
      rw [n6, n3, n2, blk_sym_add _ _ _ _ x.isLt]
      ring
    · intro i hi j hj
      unfold totJ
      simp only [hc, if_true, if_neg (show ¬ s.frame ≥ 0 by omega), if_neg (show ¬ s.point ≥ 0 by omega), add_zero]
      rw [add_assoc]
      congr 1
      unfold rowC
      rw [if_pos (show ccp = true ∧ m.extrinsics ≥ 0 from ⟨c3, c2⟩), if_pos (show ccp = true ∧ m.extrinsics ≥ 0 from ⟨c3, c2⟩), ← c1]
      unfold camJ
      exact JJ_add (n := 6) (fun x k => gRt (sub b s.cam) scaleRotCamera scaleTransCamera x k) (fun x y => sym 6 s.ee x y) _ (fun x => jval (m.extrinsics + x))
        (fun x y => sym_add s.ee _ x y x.isLt y.isLt) i j
  · have hcn : ¬ (ccp = true ∧ m.extrinsics ≥ 0) := fun h => hc (hR.camIff h.1 h.2)
    have hf := hR.frame (by omega)
    have hp := hR.point (by omega)
    have hV : ∀ j, rowV d ccp colidx jval m j = (if m.frames ≥ 0 then blk (colidx m.frames) 6 (fun k => jval (m.frames + k)) j else 0) +
        (if m.points ≥ 0 then blk (colidx m.points) 3 (fun k => jval (m.points + k)) j else 0) +
        (if m.warp ≥ 0 then blk (stateIndexWarp d) 2 (fun k => jval (m.warp + k)) j else 0) := by
      intro j; unfold rowV; rw [if_neg hcn]; ring
    have hC : ∀ k, rowC ccp b colidx jval m k = if m.frames ≥ 0 then ∑ x : Fin 6, gRt (sub b (colidx m.frames)) scaleRotFrame scaleTransFrame x k * jval (m.frames + x)
        else if m.points ≥ 0 then ∑ x : Fin 3, gPt (sub b (colidx m.points)) x k * jval (m.points + x) else 0 := by
      intro k; unfold rowC; rw [if_neg hcn]
    by_cases h1 : m.frames ≥ 0
    · have h2 : ¬ m.points ≥ 0 := fun h => hm.fp ⟨h1, h⟩
      have hfc : s.frame = colidx m.frames := by rw [hf]; exact if_neg (by omega)
      have hf0 : s.frame ≥ 0 := by rw [hfc]; exact hm.f h1
      have hp0 : ¬ s.point ≥ 0 := by rw [hp]; unfold here; rw [if_pos (by omega)]; omega
      have hA : added jval m s = { s with
          ff := addList s.ff (outerUpper 6 fun k => jval (m.frames + k))
          fc := if m.warp ≥ 0 then addList s.fc (outerDense 2 (fun k => jval (m.frames + k)) fun k => jval (m.warp + k)) else s.fc } := by
        unfold added
        simp only [hc, hf0, hp0, if_true, if_false, true_and]
        by_cases h3 : m.warp ≥ 0 <;> simp [h3]
      rw [hA]
      refine ⟨⟨hI.cam, fun h => absurd h (by simpa using hf0), hI.point, hI.rrp, hI.excl⟩, ?_, ?_⟩
      · intro i hi j
        unfold totK
        simp only [hc, hf0, hp0, if_true, if_false, add_zero]
        rw [add_assoc]
        congr 1
        rw [hC, hV, if_pos h1, if_pos h1, if_neg h2, add_zero, ← hfc]
        unfold frmK
        simp only
        have n2 : ∀ x : Fin 6, oblk (stateIndexWarp d) 2 (fun c => (if m.warp ≥ 0 then addList s.fc (outerDense 2 (fun k => jval (m.frames + k)) fun k => jval (m.warp + k)) else s.fc) (x * 2 + c)) j =
            oblk (stateIndexWarp d) 2 (fun c => s.fc (x * 2 + c)) j + jval (m.frames + (x : Nat)) * (if m.warp ≥ 0 then blk (stateIndexWarp d) 2 (fun k => jval (m.warp + k)) j else 0) := by
          intro x
          split_ifs with h
          · rw [oblk_dense_add 2 (by simp) _ _ _ _ x x.isLt j]
            congr 2
            exact if_pos (hm.w h)
          · simp
        refine K_add (n := 6) (fun x => gRt (sub b s.frame) scaleRotFrame scaleTransFrame x i) (fun x => blk s.frame 6 (fun c => sym 6 s.ff x c) j +
          oblk (stateIndexWarp d) 2 (fun c => s.fc (x * 2 + c)) j) _ (fun x => jval (m.frames + x)) _ ?_
        intro x
        rw [n2, blk_sym_add _ _ _ _ x.isLt]
        ring
      · intro i hi j hj
        unfold totJ
        simp only [hc, hf0, hp0, if_true, if_false, add_zero]
        rw [add_assoc]
        congr 1
        rw [hC, hC, if_pos h1, if_pos h1, ← hfc]
        unfold frmJ
        exact JJ_add (n := 6) (fun x k => gRt (sub b s.frame) scaleRotFrame scaleTransFrame x k) (fun x y => sym 6 s.ff x y) _ (fun x => jval (m.frames + x))
          (fun x y => sym_add s.ff _ x y x.isLt y.isLt) i j
    · have hf0 : ¬ s.frame ≥ 0 := by rw [hf]; unfold here; rw [if_pos (by omega)]; omega
      by_cases h2 : m.points ≥ 0
      · have hpc : s.point = colidx m.points := by rw [hp]; exact if_neg (by omega)
        have hp0 : s.point ≥ 0 := by rw [hpc]; exact hm.p h2
        have hA : added jval m s = { s with pp := addList s.pp (outerUpper 3 fun k => jval (m.points + k)) } := by
          unfold added
          simp only [hc, hf0, hp0, if_true, if_false, false_and]
        rw [hA]
        refine ⟨⟨hI.cam, hI.frame, fun h => absurd h (by simpa using hp0), hI.rrp, hI.excl⟩, ?_, ?_⟩
        · intro i hi j
          unfold totK
          simp only [hc, hf0, hp0, if_true, if_false, add_zero]
          rw [add_assoc]
          congr 1
          have := hm.pw h2
          rw [hC, hV, if_neg h1, if_pos h2, if_neg h1, if_pos h2, if_neg (show ¬ m.warp ≥ 0 by omega), zero_add, add_zero, ← hpc]
          unfold ptK
          simp only
          refine K_add (n := 3) (fun x => gPt (sub b s.point) x i) (fun x => blk s.point 3 (fun c => sym 3 s.pp x c) j) _ (fun x => jval (m.points + x)) _ ?_
          intro x
          rw [blk_sym_add3 _ _ _ _ x.isLt]
        · intro i hi j hj
          unfold totJ
          simp only [hc, hf0, hp0, if_true, if_false, add_zero]
          rw [add_assoc]
          congr 1
          rw [hC, hC, if_neg h1, if_neg h1, if_pos h2, if_pos h2, ← hpc]
          unfold ptJ
          exact JJ_add (n := 3) (fun x k => gPt (sub b s.point) x k) (fun x y => sym 3 s.pp x y) _ (fun x => jval (m.points + x))
            (fun x y => sym_add3 s.pp _ x y x.isLt y.isLt) i j
      · have hp0 : ¬ s.point ≥ 0 := by rw [hp]; unfold here; rw [if_pos (by omega)]; omega
        have hA : added jval m s = s := by
          unfold added
          simp only [hc, hf0, hp0, if_false, false_and]
        rw [hA]
        refine ⟨hI, ?_, ?_⟩
        · intro i hi j
          rw [hC, if_neg h1, if_neg h2]; ring
        · intro i hi j hj
          rw [hC, if_neg h1, if_neg h2]; ring

theorem accumulateRow_spec (d : Dims) (ccp : Bool) (b : Int → ℝ) (colidx : Int → Int) (jval : Int → ℝ) (m : RowMap) (s : St) (hI : Inv ccp s) (hm : MapOk d colidx m) :
    Inv ccp (accumulateRow d ccp b colidx jval m s) ∧
    (∀ i < 6, ∀ j, totK d b (accumulateRow d ccp b colidx jval m s) i j = totK d b s i j + rowC ccp b colidx jval m i * rowV d ccp colidx jval m j) ∧
    (∀ i < 6, ∀ j < 6, totJ b (accumulateRow d ccp b colidx jval m s) i j = totJ b s i j + rowC ccp b colidx jval m i * rowC ccp b colidx jval m j) := by
  rw [accumulateRow_eq]
  obtain ⟨t, r⟩ := placed_spec d ccp b colidx m s hI hm
  obtain ⟨a1, a2, a3⟩ := added_spec d ccp b colidx jval m _ r hm
  exact ⟨a1, fun i hi j => by rw [a2 i hi j, t.1 i hi j], fun i hi j hj => by rw [a3 i hi j hj, t.2 i hi j hj]⟩

end Mrcal.Uncertainty
