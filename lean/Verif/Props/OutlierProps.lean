import Verif.Model.Outliers
import Mathlib.Tactic.Linarith
import Mathlib.Tactic.Ring
import Mathlib.Tactic.NormNum
import Mathlib.Tactic.Positivity
/-
C11: outlier rejection. C12: camera index correspondence.
-/
namespace Mrcal.Outliers
open Mrcal

/-! ### Specification -/

open Classical in
/-- number of corners being used -/
noncomputable def numInliers (ws : List ℝ) : Nat := ws.countP (fun w => decide (0 < w))

open Classical in
/-- Σ of squared residuals of the corners being used; the list starts at corner `n` -/
noncomputable def sumSq (x : Nat → ℝ) : Nat → List ℝ → ℝ
  | _, [] => 0
  | n, w :: ws => (if 0 < w then x (2 * n) ^ 2 + x (2 * n + 1) ^ 2 else 0) + sumSq x (n + 1) ws

/-- number of pairs being used -/
def numPairs (flags : Int → Bool) (ps : List (Int × Int)) : Nat :=
  ps.countP (fun p => !flags p.1 && !flags p.2)

/-- Σ of squared residuals of the pairs being used -/
noncomputable def sumSqTri (xt : Nat → ℝ) (flags : Int → Bool) : Nat → List (Int × Int) → ℝ
  | _, [] => 0
  | n, p :: ps => (if flags p.1 = false ∧ flags p.2 = false then xt n ^ 2 else 0) + sumSqTri xt flags (n + 1) ps

/-- the variance of the residuals being used, with a mean of 0 -/
noncomputable def meanSq (p : Problem) (o : Obs) : ℝ :=
  (sumSq p.x 0 o.weights + sumSqTri p.xt o.flags 0 p.pairs) /
    (2 * (numInliers o.weights : ℝ) + (numPairs o.flags p.pairs : ℝ))

/-- corner `i` is more than `k` standard deviations off, in x or in y -/
def CornerBeyond (p : Problem) (k v : ℝ) (i : Nat) : Prop :=
  x2 p.x (2 * i) > k ^ 2 * v ∨ x2 p.x (2 * i + 1) > k ^ 2 * v
where x2 (x : Nat → ℝ) (i : Nat) : ℝ := x i ^ 2

/-! ### Helper lemmas -/

theorem isOut_iff (w : ℝ) : isOut w = true ↔ w ≤ 0 := by simp [isOut]

theorem boardVar_fold (x : Nat → ℝ) (ws : List ℝ) (n : Nat) (a : Acc) :
    (ws.zipIdx n).foldl (boardVar x) a =
      ⟨a.nOut + (ws.length - numInliers ws : Int), a.nIn + numInliers ws, a.var + sumSq x n ws⟩ := by
  induction ws generalizing n a with
  | nil => simp [numInliers, sumSq]
  | cons w ws ih =>
    rw [List.zipIdx_cons, List.foldl_cons, ih]
    by_cases hw : w ≤ 0
    · simp only [boardVar, if_pos hw, numInliers, List.countP_cons, sumSq, List.length_cons, not_lt.2 hw]
      simp; ring
    · have hw' := not_le.1 hw
      simp only [boardVar, if_neg hw, numInliers, List.countP_cons, sumSq, List.length_cons, hw']
      simp
      refine ⟨by ring, by ring⟩

theorem sumSq_nonneg (x : Nat → ℝ) (n) (ws : List ℝ) : 0 ≤ sumSq x n ws := by
  induction ws generalizing n with
  | nil => simp [sumSq]
  | cons w ws ih => simp only [sumSq]; have := ih (n + 1); split <;> positivity

theorem sumSqTri_nonneg (x : Nat → ℝ) (f) (n) (ws) : 0 ≤ sumSqTri x f n ws := by
  induction ws generalizing n with
  | nil => simp [sumSqTri]
  | cons w ws ih => simp only [sumSqTri]; have := ih (n + 1); split <;> positivity

/-- flags only ever get set -/
def Le (f g : Int → Bool) : Prop := ∀ i, f i = true → g i = true

theorem Le.refl (f) : Le f f := fun _ h => h
theorem Le.trans {f g h} (a : Le f g) (b : Le g h) : Le f h := fun i hi => b i (a i hi)

theorem le_setFlag (f i) : Le f (setFlag f i) := by
  intro j h; simp only [setFlag]; split <;> simp [h]

theorem setFlag_self (f i) : setFlag f i i = true := by simp [setFlag]
theorem setFlag_of (f i j) (h : f j = true) : setFlag f i j = true := le_setFlag f i j h

/-- One step of the first triangulated loop -/
theorem triVar_step (p : Problem) (a : TriAcc) (pi : (Int × Int) × Nat) :
    Le a.flags (triVar p a pi).flags ∧ (a.found = true → (triVar p a pi).found = true) ∧
    (a.found = false → (triVar p a pi).found = true →
      a.flags pi.1.1 = false ∧ (triVar p a pi).flags pi.1.1 = true) ∧
    ((triVar p a pi).found = a.found → (triVar p a pi).flags = a.flags ∨ a.found = true) ∧
    a.var ≤ (triVar p a pi).var ∧ a.nIn ≤ (triVar p a pi).nIn ∧
    (p.convergent pi.1.1 pi.1.2 = false →
      (triVar p a pi).flags pi.1.1 = true ∨ (triVar p a pi).flags pi.1.2 = true) ∧
    (p.convergent pi.1.1 pi.1.2 = false → a.flags pi.1.1 = false → a.flags pi.1.2 = false →
      (triVar p a pi).found = true) ∧
    (∀ j, (triVar p a pi).flags j = true → a.flags j = true ∨ j = pi.1.1 ∨ j = pi.1.2) := by
  obtain ⟨⟨i0, i1⟩, k⟩ := pi
  have hs : setFlag (setFlag a.flags i0) i1 i0 = true := setFlag_of _ _ _ (setFlag_self _ _)
  have hle : Le a.flags (setFlag (setFlag a.flags i0) i1) := (le_setFlag _ _).trans (le_setFlag _ _)
  have hsq : 0 ≤ p.xt k * p.xt k := mul_self_nonneg _
  have hj : ∀ j, setFlag (setFlag a.flags i0) i1 j = true → a.flags j = true ∨ j = i0 ∨ j = i1 := by
    intro j; simp only [setFlag]; split
    · simp_all
    · split <;> simp_all
  cases hf0 : a.flags i0 <;> cases hf1 : a.flags i1 <;> cases hc : p.convergent i0 i1 <;>
    simp only [triVar, hf0, hf1, hc, hs, Bool.or_true, Bool.or_false, Bool.true_or, Bool.not_true,
      Bool.not_false, if_true, if_false, Bool.false_eq_true, Bool.or_self] <;>
    refine ⟨?_, ?_, ?_, ?_, ?_, ?_, ?_, ?_, ?_⟩ <;> simp_all [Le.refl]
  all_goals (intro h; simp_all)

theorem triVar_fold (p : Problem) (ps : List (Int × Int)) (n : Nat) (a : TriAcc) :
    let r := (ps.zipIdx n).foldl (triVar p) a
    Le a.flags r.flags ∧ (a.found = true → r.found = true) ∧
    (a.found = false → r.found = true → ∃ q ∈ ps, a.flags q.1 = false ∧ r.flags q.1 = true) ∧
    (r.found = false → r.flags = a.flags) ∧
    a.var ≤ r.var ∧ a.nIn ≤ r.nIn ∧
    (∀ q ∈ ps, p.convergent q.1 q.2 = false → r.flags q.1 = true ∨ r.flags q.2 = true) ∧
    (∀ q ∈ ps, p.convergent q.1 q.2 = false → a.flags q.1 = false → a.flags q.2 = false → r.found = true) ∧
    (∀ j, r.flags j = true → a.flags j = true ∨ ∃ q ∈ ps, j = q.1 ∨ j = q.2) := by
  induction ps generalizing n a with
  | nil => simp [Le.refl]
  | cons q ps ih =>
    simp only [List.zipIdx_cons, List.foldl_cons]
    obtain ⟨s1, s2, s3, s4, s5, s6, s7, s8, s9⟩ := triVar_step p a (q, n)
    obtain ⟨t1, t2, t3, t4, t5, t6, t7, t8, t9⟩ := ih (n + 1) (triVar p a (q, n))
    set b := triVar p a (q, n)
    refine ⟨s1.trans t1, fun h => t2 (s2 h), ?_, ?_, s5.trans t5, s6.trans t6, ?_, ?_, ?_⟩
    · intro ha hr
      cases hb : b.found with
      | true =>
        obtain ⟨h1, h2⟩ := s3 ha hb
        exact ⟨q, by simp, h1, t1 _ h2⟩
      | false =>
        obtain ⟨q', hq', h1, h2⟩ := t3 hb hr
        have hfl : b.flags = a.flags := (s4 (by rw [hb, ha])).resolve_right (by simp [ha])
        exact ⟨q', by simp [hq'], by rw [← hfl]; exact h1, h2⟩
    · intro hr
      have hb : b.found = false := by
        cases hb : b.found with
        | true => rw [t2 hb] at hr; exact absurd hr (by simp)
        | false => rfl
      have ha : a.found = false := by
        cases ha : a.found with
        | true => rw [s2 ha] at hb; exact absurd hb (by simp)
        | false => rfl
      rw [t4 hr]
      exact (s4 (by rw [hb, ha])).resolve_right (by simp [ha])
    · intro q' hq' hc
      rcases List.mem_cons.1 hq' with rfl | h
      · rcases s7 hc with h | h
        · exact Or.inl (t1 _ h)
        · exact Or.inr (t1 _ h)
      · exact t7 q' h hc
    · intro q' hq' hc h0 h1
      rcases List.mem_cons.1 hq' with rfl | h
      · exact t2 (s8 hc h0 h1)
      · cases hb : b.found with
        | true => exact t2 hb
        | false =>
          have ha : a.found = false := by
            cases ha : a.found with
            | true => rw [s2 ha] at hb; exact absurd hb (by simp)
            | false => rfl
          have hfl : b.flags = a.flags := (s4 (by rw [hb, ha])).resolve_right (by simp [ha])
          exact t8 q' h hc (by rw [hfl]; exact h0) (by rw [hfl]; exact h1)
    · intro j hj
      rcases t9 j hj with h | ⟨q', hq', h⟩
      · rcases s9 j h with h | h
        · exact Or.inl h
        · exact Or.inr ⟨q, by simp, h⟩
      · exact Or.inr ⟨q', by simp [hq'], h⟩

/-- the first triangulated loop, when nothing diverges -/
theorem triVar_fold_conv (p : Problem) (ps : List (Int × Int)) (n : Nat) (a : TriAcc)
    (hc : ∀ q ∈ ps, a.flags q.1 = false → a.flags q.2 = false → p.convergent q.1 q.2 = true) :
    (ps.zipIdx n).foldl (triVar p) a =
      ⟨a.flags, a.found, a.nOut + (ps.length - numPairs a.flags ps : Int), a.nIn + numPairs a.flags ps,
        a.var + sumSqTri p.xt a.flags n ps⟩ := by
  induction ps generalizing n a with
  | nil => simp [numPairs, sumSqTri]
  | cons q ps ih =>
    have hstep : triVar p a (q, n) =
        if a.flags q.1 || a.flags q.2 then { a with nOut := a.nOut + 1 }
        else { a with var := a.var + p.xt n * p.xt n, nIn := a.nIn + 1 } := by
      simp only [triVar]
      cases h0 : a.flags q.1 <;> cases h1 : a.flags q.2 <;> simp [h0, h1]
      simp [hc q (by simp) h0 h1, h0, h1]
    have hfl : (triVar p a (q, n)).flags = a.flags := by rw [hstep]; split <;> rfl
    simp only [List.zipIdx_cons, List.foldl_cons]
    rw [ih (n + 1) _ (by rw [hfl]; exact fun q' h' => hc q' (by simp [h']))]
    rw [hfl, hstep]
    cases h0 : a.flags q.1 <;> cases h1 : a.flags q.2 <;>
      simp [numPairs, sumSqTri, h0, h1, List.countP_cons] <;> (try ring_nf) <;> (try simp)

theorem triMark_step (p : Problem) (v : ℝ) (a : (Int → Bool) × Int) (pi : (Int × Int) × Nat) :
    Le a.1 (triMark p v a pi).1 ∧
    (triExceeds p k0 v pi.2 = true → (triMark p v a pi).1 pi.1.1 = true ∨ (triMark p v a pi).1 pi.1.2 = true) ∧
    (∀ j, (triMark p v a pi).1 j = true → a.1 j = true ∨ ((j = pi.1.1 ∨ j = pi.1.2) ∧
      triExceeds p k0 v pi.2 = true ∧ a.1 pi.1.1 = false ∧ a.1 pi.1.2 = false)) := by
  obtain ⟨⟨i0, i1⟩, k⟩ := pi
  have hs : setFlag (setFlag a.1 i0) i1 i0 = true := setFlag_of _ _ _ (setFlag_self _ _)
  have hle : Le a.1 (setFlag (setFlag a.1 i0) i1) := (le_setFlag _ _).trans (le_setFlag _ _)
  have hj : ∀ j, setFlag (setFlag a.1 i0) i1 j = true → a.1 j = true ∨ j = i0 ∨ j = i1 := by
    intro j; simp only [setFlag]; split
    · simp_all
    · split <;> simp_all
  cases hf0 : a.1 i0 <;> cases hf1 : a.1 i1 <;> cases hc : triExceeds p k0 v k <;>
    simp only [triMark, hf0, hf1, hc, Bool.not_true, Bool.not_false, Bool.and_true, Bool.and_false,
      if_true, if_false, Bool.false_eq_true, Bool.and_self] <;>
    refine ⟨?_, ?_, ?_⟩ <;> simp_all [Le.refl]

theorem triMark_fold (p : Problem) (v : ℝ) (ps : List (Int × Int)) (n : Nat) (a : (Int → Bool) × Int) :
    let r := (ps.zipIdx n).foldl (triMark p v) a
    Le a.1 r.1 ∧
    (∀ k q, ps[k]? = some q → triExceeds p k0 v (n + k) = true → r.1 q.1 = true ∨ r.1 q.2 = true) ∧
    (∀ j, r.1 j = true → a.1 j = true ∨ ∃ k q, ps[k]? = some q ∧ (j = q.1 ∨ j = q.2) ∧
      triExceeds p k0 v (n + k) = true ∧ a.1 q.1 = false ∧ a.1 q.2 = false) := by
  induction ps generalizing n a with
  | nil => simp [Le.refl]
  | cons q ps ih =>
    simp only [List.zipIdx_cons, List.foldl_cons]
    obtain ⟨s1, s2, s3⟩ := triMark_step p v a (q, n)
    obtain ⟨t1, t2, t3⟩ := ih (n + 1) (triMark p v a (q, n))
    refine ⟨s1.trans t1, ?_, ?_⟩
    · intro k q' hk hx
      cases k with
      | zero =>
        simp at hk; subst hk
        rcases s2 (by simpa using hx) with h | h
        · exact Or.inl (t1 _ h)
        · exact Or.inr (t1 _ h)
      | succ k => exact t2 k q' (by simpa using hk) (by rw [show n + 1 + k = n + (k + 1) by ring]; exact hx)
    · intro j hj
      rcases t3 j hj with h | ⟨k, q', hk, hj', hx, h0, h1⟩
      · rcases s3 j h with h | ⟨h1, h2, h3, h4⟩
        · exact Or.inl h
        · exact Or.inr ⟨0, q, by simp, h1, by simpa using h2, h3, h4⟩
      · refine Or.inr ⟨k + 1, q', by simpa using hk, hj', by rw [show n + (k + 1) = n + 1 + k by ring]; exact hx, ?_, ?_⟩
        · cases h : a.1 q'.1 with
          | true => rw [s1 _ h] at h0; exact absurd h0 (by simp)
          | false => rfl
        · cases h : a.1 q'.2 with
          | true => rw [s1 _ h] at h1; exact absurd h1 (by simp)
          | false => rfl

/-- what the marking loop does to one corner -/
noncomputable def markOne (p : Problem) (v : ℝ) (wi : ℝ × Nat) : ℝ :=
  if isOut wi.1 = false ∧ boardExceeds p.x k0 v wi.2 = true then -wi.1 else wi.1

theorem boardMark_fold (p : Problem) (v : ℝ) (l : List (ℝ × Nat)) (b : List ℝ × Int) :
    l.foldl (fun (b : List ℝ × Int) wi =>
        if isOut wi.1 then (b.1 ++ [wi.1], b.2)
        else if boardExceeds p.x k0 v wi.2 then (b.1 ++ [wi.1 * (-1.0)], b.2 + 1)
        else (b.1 ++ [wi.1], b.2)) b =
      (b.1 ++ l.map (markOne p v),
        b.2 + (l.countP (fun wi => !isOut wi.1 && boardExceeds p.x k0 v wi.2) : Nat)) := by
  induction l generalizing b with
  | nil => simp
  | cons wi l ih =>
    rw [List.foldl_cons, ih]
    cases h1 : isOut wi.1 <;> cases h2 : boardExceeds p.x k0 v wi.2 <;>
      simp [markOne, h1, h2, List.countP_cons]
    · refine ⟨by norm_num, by ring⟩

theorem exceeds_iff (p : Problem) (k v : ℝ) (i : Nat) : boardExceeds p.x k v i = true ↔ CornerBeyond p k v i := by
  simp only [boardExceeds, CornerBeyond, CornerBeyond.x2, Bool.or_eq_true, decide_eq_true_eq, add_zero, sq]

/-- the variance the code computes -/
noncomputable def codeVar (p : Problem) (o : Obs) : ℝ :=
  let a := o.weights.zipIdx.foldl (boardVar p.x) ⟨0, 0, 0⟩
  let t := p.pairs.zipIdx.foldl (triVar p) ⟨o.flags, false, 0, 0, a.var⟩
  t.var / ((a.nIn * 2 + t.nIn : Int) : ℝ)

noncomputable def codeTri (p : Problem) (o : Obs) : TriAcc :=
  p.pairs.zipIdx.foldl (triVar p) ⟨o.flags, false, 0, 0, (o.weights.zipIdx.foldl (boardVar p.x) ⟨0, 0, 0⟩).var⟩

theorem codeVar_nonneg (p : Problem) (o : Obs) : 0 ≤ codeVar p o := by
  simp only [codeVar]
  obtain ⟨-, -, -, -, h5, h6, -⟩ := triVar_fold p p.pairs 0
    ⟨o.flags, false, 0, 0, (o.weights.zipIdx.foldl (boardVar p.x) ⟨0, 0, 0⟩).var⟩
  simp only [boardVar_fold, zero_add] at h5 h6 ⊢
  refine div_nonneg ((sumSq_nonneg _ _ _).trans h5) ?_
  have : (0 : Int) ≤ (numInliers o.weights : Int) := by positivity
  exact_mod_cast (by omega)

theorem codeVar_conv (p : Problem) (o : Obs)
    (hc : ∀ q ∈ p.pairs, o.flags q.1 = false → o.flags q.2 = false → p.convergent q.1 q.2 = true) :
    codeVar p o = meanSq p o := by
  simp only [codeVar, meanSq]
  rw [triVar_fold_conv _ _ _ _ hc, boardVar_fold]
  simp only [zero_add]
  congr 1
  push_cast; ring

/-- the decision -/
noncomputable def codeFound (p : Problem) (o : Obs) : Bool :=
  ((codeTri p o).found || o.weights.zipIdx.any (fun wi => !isOut wi.1 && boardExceeds p.x k1 (codeVar p o) wi.2)) ||
  p.pairs.zipIdx.any (fun pi =>
    !(codeTri p o).flags pi.1.1 && !(codeTri p o).flags pi.1.2 && triExceeds p k1 (codeVar p o) pi.2)

theorem mark_eq (p : Problem) (o : Obs) :
    markOutliers p o =
      if codeFound p o = false then
        ⟨⟨o.weights, (codeTri p o).flags⟩, o.weights.length - numInliers o.weights, (codeTri p o).nOut, false⟩
      else
        ⟨⟨o.weights.zipIdx.map (markOne p (codeVar p o)), (p.pairs.zipIdx.foldl (triMark p (codeVar p o)) ((codeTri p o).flags, (codeTri p o).nOut)).1⟩,
          (o.weights.length - numInliers o.weights : Int) +
            (o.weights.zipIdx.countP (fun wi => !isOut wi.1 && boardExceeds p.x k0 (codeVar p o) wi.2) : Nat),
          (p.pairs.zipIdx.foldl (triMark p (codeVar p o)) ((codeTri p o).flags, (codeTri p o).nOut)).2, true⟩ := by
  have hn : (o.weights.zipIdx.foldl (boardVar p.x) ⟨0, 0, 0⟩).nOut = o.weights.length - numInliers o.weights := by
    rw [boardVar_fold]; simp
  have h1 : markOutliers p o = if !codeFound p o then
        ⟨⟨o.weights, (codeTri p o).flags⟩, (o.weights.zipIdx.foldl (boardVar p.x) ⟨0, 0, 0⟩).nOut, (codeTri p o).nOut, false⟩
      else
        let w := o.weights.zipIdx.foldl (fun (b : List ℝ × Int) wi =>
          if isOut wi.1 then (b.1 ++ [wi.1], b.2)
          else if boardExceeds p.x k0 (codeVar p o) wi.2 then (b.1 ++ [wi.1 * (-1.0)], b.2 + 1)
          else (b.1 ++ [wi.1], b.2)) ([], (o.weights.zipIdx.foldl (boardVar p.x) ⟨0, 0, 0⟩).nOut)
        let m := p.pairs.zipIdx.foldl (triMark p (codeVar p o)) ((codeTri p o).flags, (codeTri p o).nOut)
        ⟨⟨w.1, m.1⟩, w.2, m.2, true⟩ := rfl
  rw [h1, hn]
  simp only [boardMark_fold]
  cases codeFound p o <;> simp

theorem k1_k0 {v : ℝ} (hv : 0 ≤ v) : k0 * k0 * v ≤ k1 * k1 * v := by
  unfold k0 k1; nlinarith

theorem exceeds_k1_k0 (p : Problem) {v : ℝ} (hv : 0 ≤ v) (i : Nat) (h : boardExceeds p.x k1 v i = true) :
    boardExceeds p.x k0 v i = true := by
  have := k1_k0 hv
  simp only [boardExceeds, Bool.or_eq_true, decide_eq_true_eq] at h ⊢
  rcases h with h | h
  · left; linarith
  · right; linarith

theorem tri_exceeds_k1_k0 (p : Problem) {v : ℝ} (hv : 0 ≤ v) (i : Nat) (h : triExceeds p k1 v i = true) :
    triExceeds p k0 v i = true := by
  have := k1_k0 hv
  simp only [triExceeds, decide_eq_true_eq] at h ⊢
  linarith

theorem getElem?_zipIdx_map {β} (l : List ℝ) (f : ℝ × Nat → β) (i : Nat) :
    (l.zipIdx.map f)[i]? = l[i]?.map (fun w => f (w, i)) := by
  simp only [List.getElem?_map, List.getElem?_zipIdx]
  cases l[i]? <;> simp

theorem mem_zipIdx_iff {α} (l : List α) (w : α) (i : Nat) : (w, i) ∈ l.zipIdx ↔ l[i]? = some w := by
  rw [List.mem_iff_getElem?]
  constructor
  · rintro ⟨k, hk⟩
    rw [List.getElem?_zipIdx] at hk
    cases h : l[k]? with
    | none => simp [h] at hk
    | some a => simp [h] at hk; obtain ⟨rfl, rfl⟩ := hk; exact h
  · intro h
    exact ⟨i, by rw [List.getElem?_zipIdx]; simp [h]⟩

/-! ### C11 -/

/-- C11 (nothing found). If no new outliers are reported, nothing was changed. -/
theorem mark_nothing (p : Problem) (o : Obs) (h : (markOutliers p o).found = false) :
    (markOutliers p o).obs = o := by
  rw [mark_eq] at h ⊢
  split at h
  · rename_i hf
    rw [if_pos hf]
    have h1 : (codeTri p o).found = false := by
      simp only [codeFound, Bool.or_eq_false_iff] at hf; exact hf.1.1
    have := (triVar_fold p p.pairs 0 ⟨o.flags, false, 0, 0, (o.weights.zipIdx.foldl (boardVar p.x) ⟨0, 0, 0⟩).var⟩).2.2.2.1 h1
    simp only at this ⊢
    cases o
    simp only [Obs.mk.injEq, true_and]
    exact this
  · simp at h

/-- C11 (monotone, magnitude preserving). Each corner keeps its weight, or was an inlier and has its weight
negated; no outlier becomes an inlier; no triangulated outlier is revived. -/
theorem mark_monotone (p : Problem) (o : Obs) :
    (markOutliers p o).obs.weights.length = o.weights.length ∧
    (∀ (i : Nat) (w : ℝ), o.weights[i]? = some w →
      (markOutliers p o).obs.weights[i]? = some w ∨
      (0 < w ∧ (markOutliers p o).obs.weights[i]? = some (-w))) ∧
    (∀ j, o.flags j = true → (markOutliers p o).obs.flags j = true) := by
  have hle := (triVar_fold p p.pairs 0 ⟨o.flags, false, 0, 0, (o.weights.zipIdx.foldl (boardVar p.x) ⟨0, 0, 0⟩).var⟩).1
  rw [mark_eq]
  split
  · exact ⟨rfl, fun i w h => Or.inl h, hle⟩
  · refine ⟨by simp, fun i w h => ?_, ?_⟩
    · simp only [getElem?_zipIdx_map, h, Option.map_some, Option.some.injEq, markOne]
      split
      · rename_i hc
        refine Or.inr ⟨?_, rfl⟩
        have := hc.1
        rw [Bool.eq_false_iff, ne_eq, isOut_iff] at this
        exact not_le.1 this
      · exact Or.inl rfl
    · have m1 := (triMark_fold p (codeVar p o) p.pairs 0 ((codeTri p o).flags, (codeTri p o).nOut)).1
      exact fun j hj => m1 j (hle j hj)

/-- C11 (progress). Reporting new outliers means that something that was being used isn't used any more. -/
theorem mark_progress (p : Problem) (o : Obs) (h : (markOutliers p o).found = true) :
    (∃ (i : Nat) (w : ℝ), o.weights[i]? = some w ∧ 0 < w ∧ (markOutliers p o).obs.weights[i]? = some (-w)) ∨
    (∃ q ∈ p.pairs, (o.flags q.1 = false ∧ (markOutliers p o).obs.flags q.1 = true) ∨
      (o.flags q.2 = false ∧ (markOutliers p o).obs.flags q.2 = true)) := by
  obtain ⟨t1, -, t3, t4, -⟩ := triVar_fold p p.pairs 0 ⟨o.flags, false, 0, 0, (o.weights.zipIdx.foldl (boardVar p.x) ⟨0, 0, 0⟩).var⟩
  rw [mark_eq] at h ⊢
  split at h
  · simp at h
  · rename_i hf
    rw [if_neg hf]
    rw [Bool.not_eq_false] at hf
    obtain ⟨m1, m2, -⟩ := triMark_fold p (codeVar p o) p.pairs 0 ((codeTri p o).flags, (codeTri p o).nOut)
    simp only at m1 m2 ⊢
    cases hfd : (codeTri p o).found with
    | true =>
      obtain ⟨q, hq, h0, h1⟩ := t3 rfl hfd
      exact Or.inr ⟨q, hq, Or.inl ⟨h0, m1 _ h1⟩⟩
    | false =>
      have hfl : (codeTri p o).flags = o.flags := t4 hfd
      simp only [codeFound, hfd, Bool.false_or, Bool.or_eq_true, List.any_eq_true] at hf
      rcases hf with ⟨⟨w, i⟩, hm, hx⟩ | ⟨⟨q, i⟩, hm, hx⟩
      · simp only [Bool.and_eq_true, Bool.not_eq_true'] at hx
        have hw := (mem_zipIdx_iff _ _ _).1 hm
        refine Or.inl ⟨i, w, hw, ?_, ?_⟩
        · have := hx.1
          rw [Bool.eq_false_iff, ne_eq, isOut_iff] at this
          exact not_le.1 this
        · simp only [getElem?_zipIdx_map, hw, Option.map_some, markOne,
            if_pos (And.intro hx.1 (exceeds_k1_k0 p (codeVar_nonneg p o) i hx.2))]
      · simp only [Bool.and_eq_true, Bool.not_eq_true'] at hx
        have hq := (mem_zipIdx_iff _ _ _).1 hm
        have := m2 i q hq (by simpa using tri_exceeds_k1_k0 p (codeVar_nonneg p o) i hx.2)
        rw [hfl] at hx
        refine Or.inr ⟨q, List.mem_of_getElem? hq, ?_⟩
        rcases this with h | h
        · exact Or.inl ⟨hx.1.1, h⟩
        · exact Or.inr ⟨hx.1.2, h⟩

/-- C11 (what is rejected). With no newly-divergent triangulated pairs: new outliers are reported iff some
used corner or pair is beyond 5 standard deviations; and then a corner is rejected iff it is beyond 4
standard deviations in x or y; a triangulated observation is rejected only if it's in a pair beyond 4
standard deviations, and no such pair remains in use. -/
theorem mark_thresholds (p : Problem) (o : Obs)
    (hc : ∀ q ∈ p.pairs, o.flags q.1 = false → o.flags q.2 = false → p.convergent q.1 q.2 = true) :
    ((markOutliers p o).found = true ↔
      (∃ i w, o.weights[i]? = some w ∧ 0 < w ∧ CornerBeyond p 5 (meanSq p o) i) ∨
      (∃ i q, p.pairs[i]? = some q ∧ o.flags q.1 = false ∧ o.flags q.2 = false ∧ p.xt i ^ 2 > 5 ^ 2 * meanSq p o)) ∧
    ((markOutliers p o).found = true → ∀ i w, o.weights[i]? = some w →
      ((markOutliers p o).obs.weights[i]? = some (-w) ∧ 0 < w ∧ CornerBeyond p 4 (meanSq p o) i) ∨
      ((markOutliers p o).obs.weights[i]? = some w ∧ ¬ (0 < w ∧ CornerBeyond p 4 (meanSq p o) i))) ∧
    ((markOutliers p o).found = true →
      (∀ i q, p.pairs[i]? = some q → p.xt i ^ 2 > 4 ^ 2 * meanSq p o →
        (markOutliers p o).obs.flags q.1 = true ∨ (markOutliers p o).obs.flags q.2 = true) ∧
      (∀ j, (markOutliers p o).obs.flags j = true → o.flags j = true ∨
        ∃ i q, p.pairs[i]? = some q ∧ (j = q.1 ∨ j = q.2) ∧ p.xt i ^ 2 > 4 ^ 2 * meanSq p o ∧
          o.flags q.1 = false ∧ o.flags q.2 = false)) := by
  have hv := codeVar_conv p o hc
  have ht : (codeTri p o).flags = o.flags ∧ (codeTri p o).found = false := by
    unfold codeTri; rw [triVar_fold_conv _ _ _ _ hc]; exact ⟨rfl, rfl⟩
  have hk1 : k1 = 5 := by norm_num [k1]
  have hk0 : k0 = 4 := by norm_num [k0]
  have hex : ∀ i, triExceeds p k1 (meanSq p o) i = true ↔ p.xt i ^ 2 > 5 ^ 2 * meanSq p o := by
    intro i; simp only [triExceeds, decide_eq_true_eq, hk1, sq]
  have hex0 : ∀ i, triExceeds p k0 (meanSq p o) i = true ↔ p.xt i ^ 2 > 4 ^ 2 * meanSq p o := by
    intro i; simp only [triExceeds, decide_eq_true_eq, hk0, sq]
  have hin : ∀ w, isOut w = false ↔ 0 < w := by
    intro w; rw [Bool.eq_false_iff, ne_eq, isOut_iff, not_le]
  have hfd : (markOutliers p o).found = codeFound p o := by
    rw [mark_eq]; split
    · rename_i h; exact h.symm
    · rename_i h; simpa using h
  refine ⟨?_, ?_, ?_⟩
  · rw [hfd]
    simp only [codeFound, ht.1, ht.2, hv, Bool.false_or, Bool.or_eq_true, List.any_eq_true, Bool.and_eq_true,
      Bool.not_eq_true', hin, exceeds_iff, hk1]
    constructor
    · rintro (⟨⟨w, i⟩, hm, hx⟩ | ⟨⟨q, i⟩, hm, ⟨h0, h1⟩, hx⟩)
      · exact Or.inl ⟨i, w, (mem_zipIdx_iff _ _ _).1 hm, hx⟩
      · exact Or.inr ⟨i, q, (mem_zipIdx_iff _ _ _).1 hm, h0, h1, (hex i).1 (hk1 ▸ hx)⟩
    · rintro (⟨i, w, hm, hx⟩ | ⟨i, q, hm, h0, h1, hx⟩)
      · exact Or.inl ⟨(w, i), (mem_zipIdx_iff _ _ _).2 hm, hx⟩
      · exact Or.inr ⟨(q, i), (mem_zipIdx_iff _ _ _).2 hm, ⟨h0, h1⟩, hk1 ▸ (hex i).2 hx⟩
  · intro hf i w hw
    rw [hfd] at hf
    rw [mark_eq, if_neg (by simp [hf])]
    simp only [getElem?_zipIdx_map, hw, Option.map_some, Option.some.injEq, markOne, hin, exceeds_iff, hk0, hv]
    split
    · rename_i h
      rw [hin, ← hk0, exceeds_iff] at *
      exact Or.inl ⟨rfl, h.1, hk0 ▸ h.2⟩
    · rename_i h
      rw [hin, exceeds_iff, hk0] at h
      exact Or.inr ⟨rfl, h⟩
  · intro hf
    rw [hfd] at hf
    rw [mark_eq, if_neg (by simp [hf])]
    obtain ⟨m1, m2, m3⟩ := triMark_fold p (codeVar p o) p.pairs 0 ((codeTri p o).flags, (codeTri p o).nOut)
    simp only [zero_add, hv, ht.1] at m1 m2 m3 ⊢
    refine ⟨fun i q hq hx => m2 i q hq ((hex0 i).2 hx), fun j hj => ?_⟩
    rcases m3 j hj with h | ⟨k, q, hq, hj, hx, h0, h1⟩
    · exact Or.inl h
    · exact Or.inr ⟨k, q, hq, hj, (hex0 k).1 hx, h0, h1⟩

/-- C11 (divergent pairs). Any divergent pair in use is reported, and isn't in use afterwards. -/
theorem mark_divergent (p : Problem) (o : Obs) (q : Int × Int) (hq : q ∈ p.pairs)
    (hc : p.convergent q.1 q.2 = false) :
    ((markOutliers p o).obs.flags q.1 = true ∨ (markOutliers p o).obs.flags q.2 = true) ∧
    (o.flags q.1 = false → o.flags q.2 = false → (markOutliers p o).found = true) := by
  obtain ⟨-, -, -, -, -, -, t7, t8, -⟩ := triVar_fold p p.pairs 0 ⟨o.flags, false, 0, 0, (o.weights.zipIdx.foldl (boardVar p.x) ⟨0, 0, 0⟩).var⟩
  have h7 : (codeTri p o).flags q.1 = true ∨ (codeTri p o).flags q.2 = true := t7 q hq hc
  constructor
  · rw [mark_eq]
    split
    · exact h7
    · have m1 := (triMark_fold p (codeVar p o) p.pairs 0 ((codeTri p o).flags, (codeTri p o).nOut)).1
      rcases h7 with h | h
      · exact Or.inl (m1 _ h)
      · exact Or.inr (m1 _ h)
  · intro h0 h1
    have h8 : (codeTri p o).found = true := t8 q hq hc h0 h1
    rw [mark_eq]
    split
    · rename_i hf; simp [codeFound, h8] at hf
    · rfl

theorem numInliers_le (ws : List ℝ) : numInliers ws ≤ ws.length := List.countP_le_length

open Classical in
theorem count_marked (p : Problem) (v : ℝ) (ws : List ℝ) (n : Nat) :
    numInliers ((ws.zipIdx n).map (markOne p v)) +
      (ws.zipIdx n).countP (fun wi => !isOut wi.1 && boardExceeds p.x k0 v wi.2) = numInliers ws := by
  induction ws generalizing n with
  | nil => simp [numInliers]
  | cons w ws ih =>
    have := ih (n + 1)
    simp only [numInliers, List.zipIdx_cons, List.map_cons, List.countP_cons] at this ⊢
    rw [← this]
    by_cases hw : w ≤ 0
    · have h1 : isOut w = true := (isOut_iff w).2 hw
      simp [markOne, h1, not_lt.2 hw]
    · have h1 : isOut w = false := by rw [Bool.eq_false_iff, ne_eq, isOut_iff]; exact hw
      have hw' := not_le.1 hw
      cases h2 : boardExceeds p.x k0 v n
      · simp [markOne, h1, h2, hw']; omega
      · have : ¬ (w < 0) := by linarith
        simp [markOne, h1, h2, hw', this]; omega

/-- C11 (count). The reported number of board outliers is the number of corners not being used. -/
theorem mark_board_count (p : Problem) (o : Obs) :
    (markOutliers p o).noutBoard =
      (markOutliers p o).obs.weights.length - numInliers (markOutliers p o).obs.weights := by
  rw [mark_eq]
  split
  · rfl
  · have := count_marked p (codeVar p o) o.weights 0
    simp only [List.length_map, List.length_zipIdx]
    omega

/-- everything in use: corners, and ends of triangulated pairs -/
noncomputable def inUse (pairs : List (Int × Int)) (o : Obs) : Nat :=
  numInliers o.weights + (pairs.countP (fun q => !o.flags q.1) + pairs.countP (fun q => !o.flags q.2))

theorem countP_lt {α} (l : List α) (f g : α → Bool) (h : ∀ a ∈ l, g a = true → f a = true) (a : α) (ha : a ∈ l)
    (h1 : f a = true) (h2 : g a = false) : l.countP g < l.countP f := by
  induction l with
  | nil => simp at ha
  | cons b l ih =>
    simp only [List.countP_cons]
    have hmono : l.countP g ≤ l.countP f := List.countP_mono_left (fun x hx => h x (by simp [hx]))
    rcases List.mem_cons.1 ha with rfl | ha
    · simp [h1, h2]; omega
    · have := ih (fun x hx => h x (by simp [hx])) ha
      have hb := h b (by simp)
      cases hg : g b <;> cases hf : f b <;> simp_all <;> omega

open Classical in
theorem numInliers_le_of (ws ws' : List ℝ) (hl : ws'.length = ws.length)
    (h : ∀ (i : Nat) (w : ℝ), ws[i]? = some w → ws'[i]? = some w ∨ (0 < w ∧ ws'[i]? = some (-w))) :
    numInliers ws' ≤ numInliers ws ∧
    ((∃ (i : Nat) (w : ℝ), ws[i]? = some w ∧ 0 < w ∧ ws'[i]? = some (-w)) → numInliers ws' < numInliers ws) := by
  induction ws generalizing ws' with
  | nil => cases ws' <;> simp_all
  | cons w ws ih =>
    cases ws' with
    | nil => simp at hl
    | cons w' ws' =>
      obtain ⟨ih1, ih2⟩ := ih ws' (by simpa using hl) (fun i u hu => by simpa using h (i + 1) u (by simpa using hu))
      have h0 := h 0 w (by simp)
      simp only [List.getElem?_cons_zero, Option.some.injEq] at h0
      simp only [numInliers, List.countP_cons] at ih1 ih2 ⊢
      have hle : (if decide (0 < w') = true then 1 else 0) ≤ (if decide (0 < w) = true then 1 else 0) := by
        rcases h0 with rfl | ⟨hw, rfl⟩
        · exact le_refl _
        · simp [hw]; split <;> omega
      refine ⟨by omega, ?_⟩
      rintro ⟨i, u, hu, hpos, hu'⟩
      cases i with
      | zero =>
        simp only [List.getElem?_cons_zero, Option.some.injEq] at hu hu'
        subst hu; subst hu'
        have h2 : ¬ (0 < -w) := by linarith
        simp only [hpos, h2, decide_true, decide_false, if_true, Bool.false_eq_true, if_false]
        omega
      | succ i =>
        have := ih2 ⟨i, u, by simpa using hu, hpos, by simpa using hu'⟩
        omega

/-- C11: every pass that asks for another solve leaves strictly less in use -/
theorem goes_again_decreases (pairs : List (Int × Int)) (o o' : Obs) (h : GoesAgain pairs o o') :
    inUse pairs o' < inUse pairs o := by
  obtain ⟨p, rfl, hf, rfl⟩ := h
  obtain ⟨hl, hw, hfl⟩ := mark_monotone p o
  obtain ⟨hn, hn'⟩ := numInliers_le_of _ _ hl hw
  have hanti : ∀ j, (!(markOutliers p o).obs.flags j) = true → (!o.flags j) = true := by
    intro j hj
    cases h : o.flags j with
    | true => simp [hfl j h] at hj
    | false => rfl
  have c1 : p.pairs.countP (fun q => !(markOutliers p o).obs.flags q.1) ≤ p.pairs.countP (fun q => !o.flags q.1) :=
    List.countP_mono_left (fun q _ => hanti q.1)
  have c2 : p.pairs.countP (fun q => !(markOutliers p o).obs.flags q.2) ≤ p.pairs.countP (fun q => !o.flags q.2) :=
    List.countP_mono_left (fun q _ => hanti q.2)
  simp only [inUse]
  rcases mark_progress p o hf with h | ⟨q, hq, h | h⟩
  · have := hn' h; omega
  · have := countP_lt p.pairs (fun q => !o.flags q.1) (fun q => !(markOutliers p o).obs.flags q.1)
      (fun q _ => hanti q.1) q hq (by simp [h.1]) (by simp [h.2])
    omega
  · have := countP_lt p.pairs (fun q => !o.flags q.2) (fun q => !(markOutliers p o).obs.flags q.2)
      (fun q _ => hanti q.2) q hq (by simp [h.1]) (by simp [h.2])
    omega

/-- C11 (termination). Whatever residuals the solver produces, the solve/reject loop doesn't run forever: there's
no infinite sequence of passes. -/
theorem reject_loop_terminates (pairs : List (Int × Int)) (s : Nat → Obs) :
    ¬ ∀ n, GoesAgain pairs (s n) (s (n + 1)) := by
  intro h
  have key : ∀ n, inUse pairs (s n) + n ≤ inUse pairs (s 0) := by
    intro n
    induction n with
    | zero => simp
    | succ n ih => have := goes_again_decreases pairs _ _ (h n); omega
  have := key (inUse pairs (s 0) + 1)
  omega

/-- C11 (termination, with a bound). At most (corners in use) + 2 (pairs) re-solves. -/
theorem reject_loop_bound (pairs : List (Int × Int)) (s : Nat → Obs) (n : Nat)
    (h : ∀ k, k < n → GoesAgain pairs (s k) (s (k + 1))) :
    n ≤ numInliers (s 0).weights + 2 * pairs.length := by
  have key : ∀ k, k ≤ n → inUse pairs (s k) + k ≤ inUse pairs (s 0) := by
    intro k
    induction k with
    | zero => simp
    | succ k ih =>
      intro hk
      have := goes_again_decreases pairs _ _ (h k (by omega))
      have := ih (by omega)
      omega
  have := key n (le_refl n)
  have h1 : pairs.countP (fun q => !(s 0).flags q.1) ≤ pairs.length := List.countP_le_length
  have h2 : pairs.countP (fun q => !(s 0).flags q.2) ≤ pairs.length := List.countP_le_length
  simp only [inUse] at this
  omega

/-- Deviation: the reported count of triangulated outliers isn't the number of pairs not in use. One set of
3 observations; the pair (0,2) diverges. All three pairs are now unused (each has 0 or 2), but the count is 2. -/
theorem tri_count_wrong :
    let p : Problem := ⟨fun _ => 0, [(0, 1), (0, 2), (1, 2)], fun _ => 0, fun i j => !(i == 0 && j == 2)⟩
    let o : Obs := ⟨[], fun _ => false⟩
    (markOutliers p o).noutTri = 2 ∧ numPairs (markOutliers p o).obs.flags p.pairs = 0 := by
  simp [markOutliers, triVar, List.zipIdx, setFlag, triMark, triExceeds, numPairs]

open Classical in
/-- The count of triangulated outliers is right if no pair diverges and none are newly rejected. -/
theorem tri_count_partial (p : Problem) (o : Obs)
    (hc : ∀ q ∈ p.pairs, o.flags q.1 = false → o.flags q.2 = false → p.convergent q.1 q.2 = true)
    (hf : (markOutliers p o).found = false) :
    (markOutliers p o).noutTri = p.pairs.length - numPairs o.flags p.pairs := by
  rw [mark_eq] at hf ⊢
  split at hf
  · rename_i h
    rw [if_pos h]
    unfold codeTri; rw [triVar_fold_conv _ _ _ _ hc]; simp
  · simp at hf

open Classical in
/-- Deviation: with outlier rejection off, corners given with weight 0 aren't counted as outliers; with it on,
they are. -/
theorem zero_weight_count_differs (p : Problem) (f : Int → Bool) (hp : p.pairs = []) :
    initialCount ⟨[0], f⟩ = 0 ∧ (markOutliers p ⟨[0], f⟩).noutBoard = 1 ∧ (markOutliers p ⟨[0], f⟩).found = false := by
  have h1 : isOut 0 = true := by simp [isOut]
  simp [initialCount, markOutliers, hp, boardVar, h1, List.zipIdx]

open Classical in
/-- The count before rejection is right if no weight is exactly 0. -/
theorem initial_count_partial (o : Obs) (h : ∀ w ∈ o.weights, w ≠ 0) :
    initialCount o = o.weights.length - numInliers o.weights := by
  unfold initialCount numInliers
  generalize o.weights = ws at h
  induction ws with
  | nil => simp
  | cons w ws ih =>
    have := ih (fun u hu => h u (by simp [hu]))
    have hw := h w (by simp)
    simp only [List.countP_cons, List.length_cons]
    rcases lt_or_gt_of_ne hw with hw | hw
    · have h2 : ¬ (0 < w) := by linarith
      simp only [hw, h2, decide_true, decide_false, if_true, Bool.false_eq_true, if_false]; push_cast at this ⊢; omega
    · have h2 : ¬ (w < 0) := by linarith
      simp only [hw, h2, decide_true, decide_false, if_true, Bool.false_eq_true, if_false]; push_cast at this ⊢; omega

/-- one bad corner among 30: it is found, and rejected -/
noncomputable def exProblem : Problem := ⟨fun i => if i = 6 then 100 else 1, [], fun _ => 0, fun _ _ => true⟩
noncomputable def exObs : Obs := ⟨List.replicate 60 1, fun _ => false⟩

theorem sumSq_ones (x : Nat → ℝ) (n m : Nat) (h : ∀ i, 2 * n ≤ i → x i = 1) : sumSq x n (List.replicate m 1) = 2 * m := by
  induction m generalizing n with
  | zero => simp [sumSq]
  | succ m ih =>
    rw [List.replicate_succ, sumSq, ih (n + 1) (fun i hi => h i (by omega))]
    rw [h _ (by omega), h _ (by omega)]; push_cast; norm_num; ring

theorem ex_meanSq : meanSq exProblem exObs = 10119 / 120 := by
  have h1 : sumSq exProblem.x 0 exObs.weights = 10119 := by
    have : exObs.weights = 1 :: 1 :: 1 :: 1 :: List.replicate 56 1 := rfl
    rw [this]
    simp only [sumSq]
    rw [sumSq_ones _ _ _ (fun i hi => by simp [exProblem]; omega)]
    simp [exProblem]; norm_num
  have h2 : numInliers exObs.weights = 60 := by simp [numInliers, exObs, List.countP_replicate]
  simp only [meanSq, h1, h2]
  simp [exProblem, sumSqTri, numPairs]; norm_num

example : (markOutliers exProblem exObs).found = true ∧ (markOutliers exProblem exObs).obs.weights[3]? = some (-1 : ℝ) := by
  obtain ⟨h1, h2, -⟩ := mark_thresholds exProblem exObs (by simp [exProblem])
  have hf : (markOutliers exProblem exObs).found = true := by
    refine h1.2 (Or.inl ⟨3, 1, by simp [exObs], by norm_num, Or.inl ?_⟩)
    rw [ex_meanSq]; simp [CornerBeyond.x2, exProblem]; norm_num
  refine ⟨hf, ?_⟩
  rcases h2 hf 3 1 (by simp [exObs]) with h | h
  · exact h.1
  · exact absurd ⟨by norm_num, Or.inl (by rw [ex_meanSq]; simp [CornerBeyond.x2, exProblem]; norm_num)⟩ h.2

/-! ### C12 -/

/-- the extrinsics index an observation means: any negative value is "at the reference" -/
def extr (c : CamIdx) : Int := if c.2 < 0 then -1 else c.2

/-- valid indices, as checked by the optimizer's argument validation -/
def Valid (Nci Nce : Int) (c : CamIdx) : Prop := 0 ≤ c.1 ∧ c.1 < Nci ∧ extr c < Nce

/-- Two observations agree about the cameras being stationary -/
def Agree (c c' : CamIdx) : Prop := c.1 = c'.1 ↔ extr c = extr c'

structure Inv (m : Maps) (seen : List CamIdx) : Prop where
  e : ∀ c ∈ seen, m.toE c.1 = extr c
  i : ∀ c ∈ seen, m.toI (extr c + 1) = c.1
  e' : ∀ i, (∀ c ∈ seen, c.1 ≠ i) → m.toE i = -100
  i' : ∀ i, (∀ c ∈ seen, extr c + 1 ≠ i) → m.toI i = -100

theorem extr_ge (c) : -1 ≤ extr c := by unfold extr; split <;> omega

theorem checkCam_spec {Nci Nce : Int} {m : Maps} {seen : List CamIdx} {c : CamIdx} (hm : Inv m seen)
    (hv : Valid Nci Nce c) (hs : ∀ c' ∈ seen, Valid Nci Nce c') :
    ((∀ c' ∈ seen, Agree c' c) ∧ ∃ m', checkCam Nci Nce m c = .ok m' ∧ Inv m' (seen ++ [c])) ∨
    ((∃ c' ∈ seen, ¬ Agree c' c) ∧ checkCam Nci Nce m c = .error .notVanilla) := by
  obtain ⟨h1, h2, h3⟩ := hv
  have hE : (if c.2 < 0 then -1 else c.2) = extr c := rfl
  have hgeN : ¬ extr c ≥ Nce := by omega
  have hciN : ¬ (c.1 < 0 ∨ c.1 ≥ Nci) := by omega
  simp only [checkCam, hE, if_neg hgeN, if_neg hciN]
  -- extrinsics seen before?
  by_cases hA : ∃ c' ∈ seen, extr c' = extr c
  · obtain ⟨a, ha, hae⟩ := hA
    have hI : m.toI (extr c + 1) = a.1 := by rw [← hae]; exact hm.i a ha
    have ha0 := (hs a ha).1
    rw [hI, if_neg (by omega)]
    by_cases haI : a.1 = c.1
    · rw [if_neg (by simp [haI])]
      have hEc : m.toE c.1 = extr c := by rw [← haI, ← hae]; exact hm.e a ha
      simp only [Except.bind, hEc]
      rw [if_neg (by have := extr_ge c; omega), if_neg (by simp)]
      left
      refine ⟨fun c' hc' => ?_, m, rfl, ?_⟩
      · constructor
        · intro h; rw [← hm.e c' hc', h, hEc]
        · intro h; rw [← hm.i c' hc', h, hI, haI]
      · refine ⟨?_, ?_, ?_, ?_⟩
        · intro c' hc'; rcases List.mem_append.1 hc' with h | h
          · exact hm.e c' h
          · simp at h; subst h; exact hEc
        · intro c' hc'; rcases List.mem_append.1 hc' with h | h
          · exact hm.i c' h
          · simp at h; subst h; rw [hI, haI]
        · intro i hi; exact hm.e' i (fun c' h => hi c' (by simp [h]))
        · intro i hi; exact hm.i' i (fun c' h => hi c' (by simp [h]))
    · rw [if_pos haI]
      right
      exact ⟨⟨a, ha, fun h => haI (h.2 hae)⟩, rfl⟩
  · have hA' : ∀ c' ∈ seen, extr c' ≠ extr c := fun c' hc' h => hA ⟨c', hc', h⟩
    have hI : m.toI (extr c + 1) = -100 := hm.i' _ (fun c' hc' h => hA' c' hc' (by omega))
    rw [if_pos hI]
    simp only [Except.bind]
    by_cases hB : ∃ c' ∈ seen, c'.1 = c.1
    · obtain ⟨b, hb, hbI⟩ := hB
      have hEc : m.toE c.1 = extr b := by rw [← hbI]; exact hm.e b hb
      rw [hEc, if_neg (by have := extr_ge b; omega), if_pos (hA' b hb)]
      right
      exact ⟨⟨b, hb, fun h => hA' b hb (h.1 hbI)⟩, rfl⟩
    · have hB' : ∀ c' ∈ seen, c'.1 ≠ c.1 := fun c' hc' h => hB ⟨c', hc', h⟩
      have hEc : m.toE c.1 = -100 := hm.e' _ hB'
      rw [if_pos hEc]
      left
      refine ⟨fun c' hc' => ⟨fun h => absurd h (hB' c' hc'), fun h => absurd h (hA' c' hc')⟩, _, rfl, ?_⟩
      refine ⟨?_, ?_, ?_, ?_⟩
      · intro c' hc'; rcases List.mem_append.1 hc' with h | h
        · simp only [setI, if_neg (hB' c' h)]; exact hm.e c' h
        · simp at h; subst h; simp [setI]
      · intro c' hc'; rcases List.mem_append.1 hc' with h | h
        · simp only [setI]; rw [if_neg (by have := hA' c' h; omega)]; exact hm.i c' h
        · simp at h; subst h; simp [setI]
      · intro i hi
        have := hi c (by simp)
        simp only [setI]; rw [if_neg (Ne.symm this)]; exact hm.e' i (fun c' h => hi c' (by simp [h]))
      · intro i hi
        have := hi c (by simp)
        simp only [setI]; rw [if_neg (Ne.symm this)]; exact hm.i' i (fun c' h => hi c' (by simp [h]))

/-- all pairs agree -/
def AllAgree (l : List CamIdx) : Prop := ∀ c ∈ l, ∀ c' ∈ l, Agree c c'

theorem checkAll_spec {Nci Nce : Int} (l : List CamIdx) (m : Maps) (seen : List CamIdx) (hm : Inv m seen)
    (hv : ∀ c ∈ l, Valid Nci Nce c) (hs : ∀ c' ∈ seen, Valid Nci Nce c') (hag : AllAgree seen) :
    (AllAgree (seen ++ l) ∧ ∃ m', l.foldlM (checkCam Nci Nce) m = .ok m' ∧ Inv m' (seen ++ l)) ∨
    (¬ AllAgree (seen ++ l) ∧ l.foldlM (checkCam Nci Nce) m = .error .notVanilla) := by
  induction l generalizing m seen with
  | nil => left; exact ⟨by simpa using hag, m, rfl, by simpa using hm⟩
  | cons c l ih =>
    rcases checkCam_spec hm (hv c (by simp)) hs with ⟨h1, m', hm', hI⟩ | ⟨⟨c', hc', h⟩, he⟩
    · have hag' : AllAgree (seen ++ [c]) := by
        intro a ha b hb
        rcases List.mem_append.1 ha with ha' | ha' <;> rcases List.mem_append.1 hb with hb' | hb'
        · exact hag a ha' b hb'
        · rw [List.mem_singleton] at hb'; subst hb'; exact h1 a ha'
        · rw [List.mem_singleton] at ha'; subst ha'; exact ⟨fun h => ((h1 b hb').1 h.symm).symm, fun h => ((h1 b hb').2 h.symm).symm⟩
        · rw [List.mem_singleton] at ha' hb'; rw [ha', hb']; simp [Agree]
      have hs' : ∀ c' ∈ seen ++ [c], Valid Nci Nce c' := by
        intro c' h; rcases List.mem_append.1 h with h | h
        · exact hs c' h
        · simp at h; subst h; exact hv c' (by simp)
      have := ih m' (seen ++ [c]) hI (fun c' h => hv c' (by simp [h])) hs' hag'
      rw [List.append_assoc] at this
      rw [List.foldlM_cons, hm']
      exact this
    · right
      refine ⟨fun hA => h (hA c' (by simp [hc']) c (by simp)), ?_⟩
      rw [List.foldlM_cons, he]; rfl

theorem inv_nil : Inv ⟨fun _ => -100, fun _ => -100⟩ [] := by constructor <;> simp

/-- all the claims about a successful or a failed call, in one place -/
theorem corresponding_cases (icam Nci Nce : Int) (boards points : List CamIdx)
    (hi : 0 ≤ icam ∧ icam < Nci) (hN : Nci = Nce ∨ Nci = Nce + 1)
    (hv : ∀ c ∈ boards ++ points, Valid Nci Nce c) :
    (AllAgree (boards ++ points) ∧ ∃ m, Inv m (boards ++ points) ∧
      correspondingIcamExtrinsics icam Nci Nce boards points = .ok (m.toE icam)) ∨
    (¬ AllAgree (boards ++ points) ∧ correspondingIcamExtrinsics icam Nci Nce boards points = .error .notVanilla) := by
  have hc : (!(decide (Nci = Nce) || decide (Nci = Nce + 1))) = false := by
    rcases hN with h | h <;> simp [h]
  have hr : ¬ (icam < 0 ∨ icam ≥ Nci) := by omega
  simp only [correspondingIcamExtrinsics, hc, Bool.false_eq_true, if_false, if_neg hr]
  rcases checkAll_spec boards _ [] inv_nil (fun c h => hv c (by simp [h])) (by simp) (by intro c h; simp at h) with
    ⟨h1, m, hm, hI⟩ | ⟨h1, he⟩
  · simp only [List.nil_append] at h1 hI
    rcases checkAll_spec points m boards hI (fun c h => hv c (by simp [h])) (fun c h => hv c (by simp [h])) h1 with
      ⟨h2, m', hm', hI'⟩ | ⟨h2, he⟩
    · left
      refine ⟨h2, m', hI', ?_⟩
      rw [hm]
      simp only [bind, Except.bind, hm', pure, Except.pure]
    · right
      refine ⟨h2, ?_⟩
      rw [hm]
      simp only [bind, Except.bind, he]
  · right
    refine ⟨fun hA => h1 ?_, by rw [he]; rfl⟩
    intro c hc' c' hc''
    simp at hc' hc''
    exact hA c (by simp [hc']) c' (by simp [hc''])

/-- C12 (answers are right). For an observed camera, the answer is what every observation of it says
(-1: at the reference), and no other camera has those extrinsics. -/
theorem corresponding_sound (icam Nci Nce r : Int) (boards points : List CamIdx)
    (hi : 0 ≤ icam ∧ icam < Nci) (hN : Nci = Nce ∨ Nci = Nce + 1)
    (hv : ∀ c ∈ boards ++ points, Valid Nci Nce c)
    (h : correspondingIcamExtrinsics icam Nci Nce boards points = .ok r)
    (hobs : ∃ c ∈ boards ++ points, c.1 = icam) :
    ∀ c ∈ boards ++ points, c.1 = icam ↔ extr c = r := by
  rcases corresponding_cases icam Nci Nce boards points hi hN hv with ⟨hA, m, hI, he⟩ | ⟨-, he⟩
  · rw [h] at he
    injection he with he
    obtain ⟨a, ha, hai⟩ := hobs
    have hr : r = extr a := by rw [he, ← hai]; exact hI.e a ha
    intro c hc
    have := hA c hc a ha
    rw [← hai, hr]; exact this
  · rw [h] at he; simp at he

/-- C12 (fails exactly when not stationary). -/
theorem corresponding_fails_iff (icam Nci Nce : Int) (boards points : List CamIdx)
    (hi : 0 ≤ icam ∧ icam < Nci)
    (hv : ∀ c ∈ boards ++ points, Valid Nci Nce c) :
    pyCorrespondingIcamExtrinsics icam Nci Nce boards points = .ok none ↔
      ((Nci ≠ Nce ∧ Nci ≠ Nce + 1) ∨
      ∃ c ∈ boards ++ points, ∃ c' ∈ boards ++ points,
        (c.1 = c'.1 ∧ extr c ≠ extr c') ∨ (c.1 ≠ c'.1 ∧ extr c = extr c')) := by
  have hr : ¬ (icam < 0 ∨ icam ≥ Nci) := by omega
  by_cases hN : Nci = Nce ∨ Nci = Nce + 1
  · rcases corresponding_cases icam Nci Nce boards points hi hN hv with ⟨hA, m, hI, he⟩ | ⟨hA, he⟩
    · simp only [pyCorrespondingIcamExtrinsics, if_neg hr, he]
      constructor
      · intro h; simp at h
      · rintro (h | ⟨c, hc, c', hc', h⟩)
        · omega
        · have := hA c hc c' hc'
          rcases h with ⟨h1, h2⟩ | ⟨h1, h2⟩
          · exact absurd (this.1 h1) h2
          · exact absurd (this.2 h2) h1
    · simp only [pyCorrespondingIcamExtrinsics, if_neg hr, he, true_iff]
      right
      by_contra hcon
      apply hA
      intro c hc c' hc'
      constructor
      · intro h1; by_contra h2; exact hcon ⟨c, hc, c', hc', Or.inl ⟨h1, h2⟩⟩
      · intro h2; by_contra h1; exact hcon ⟨c, hc, c', hc', Or.inr ⟨h1, h2⟩⟩
  · have hc : (!(decide (Nci = Nce) || decide (Nci = Nce + 1))) = true := by
      rw [not_or] at hN; simp [hN.1, hN.2]
    simp only [pyCorrespondingIcamExtrinsics, if_neg hr, correspondingIcamExtrinsics, hc, if_true, true_iff]
    left; omega

/-- C12: with valid observations there's no out-of-bounds access -/
theorem corresponding_in_bounds (icam Nci Nce : Int) (boards points : List CamIdx)
    (hv : ∀ c ∈ boards ++ points, Valid Nci Nce c) :
    pyCorrespondingIcamExtrinsics icam Nci Nce boards points ≠ .error .outOfBounds := by
  unfold pyCorrespondingIcamExtrinsics
  split
  · simp
  · rename_i hr
    by_cases hN : Nci = Nce ∨ Nci = Nce + 1
    · rcases corresponding_cases icam Nci Nce boards points (by omega) hN hv with ⟨hA, m, hI, he⟩ | ⟨hA, he⟩ <;>
        simp [he]
    · have hc : (!(decide (Nci = Nce) || decide (Nci = Nce + 1))) = true := by
        rw [not_or] at hN; simp [hN.1, hN.2]
      simp [correspondingIcamExtrinsics, hc]

/-- Deviation: a camera nobody observes is reported as extrinsics -100, with success. -/
theorem corresponding_unobserved :
    pyCorrespondingIcamExtrinsics 1 2 1 [(0, -1)] [] = .ok (some (-100)) := by rfl

/-- Deviation: observation indices aren't validated by this function: out-of-bounds access. -/
theorem corresponding_out_of_bounds :
    pyCorrespondingIcamExtrinsics 0 2 1 [(0, 7)] [] = .error .outOfBounds := by rfl

/-- three cameras, camera 1 at the reference -/
example : ∀ c ∈ [((0 : Int), (0 : Int)), (1, -1), (2, 1), (0, 0)] ++ [(2, 1)], Valid 3 2 c := by
  simp [Valid, extr]
example : correspondingIcamExtrinsics 2 3 2 [(0, 0), (1, -1), (2, 1), (0, 0)] [(2, 1)] = .ok 1 := by rfl
example : correspondingIcamExtrinsics 2 3 2 [(0, 0), (1, -1), (2, 1), (0, 0)] [(2, 0)] = .error .notVanilla := by rfl

end Mrcal.Outliers
