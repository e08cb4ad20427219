import Verif.Model.Ingest
import Verif.Props.TriangulatedProps
/-
C09: triangulated observation ingestion.  C10: what validated arguments guarantee.
-/
namespace Mrcal.Ingest
open Mrcal Mrcal.Tri

/-! ### Specification (C09) -/

/-- The documented form of the index table: points are numbered 0,0,..,1,1,..,2,.. consecutively, and each
is seen at least twice (and the observations can be unprojected). -/
structure Acceptable (rows : List TriRow) : Prop where
  first : ∀ r, rows.head? = some r → r.ipoint = 0
  step : ∀ i a b, rows[i]? = some a → rows[i + 1]? = some b → b.ipoint = a.ipoint ∨ b.ipoint = a.ipoint + 1
  twice : ∀ (i : Nat) a, rows[i]? = some a → ∃ (j : Nat) (b : TriRow), j ≠ i ∧ rows[j]? = some b ∧ b.ipoint = a.ipoint
  ok : ∀ r ∈ rows, r.unprojectOk = true

/-! ### Helper lemmas -/

/-- the expected output -/
def specObs : List TriRow → List TriObs
  | [] => []
  | [r] => [⟨true, r.weightLE0, r.icamI, r.icamE⟩]
  | r :: r' :: rs => ⟨decide (r'.ipoint ≠ r.ipoint), r.weightLE0, r.icamI, r.icamE⟩ :: specObs (r' :: rs)

/-- as `specObs`, before the last set is finished -/
def openObs : List TriRow → List TriObs
  | [] => []
  | [r] => [⟨false, r.weightLE0, r.icamI, r.icamE⟩]
  | r :: r' :: rs => ⟨decide (r'.ipoint ≠ r.ipoint), r.weightLE0, r.icamI, r.icamE⟩ :: openObs (r' :: rs)

theorem openObs_length (P : List TriRow) : (openObs P).length = P.length := by
  induction P with
  | nil => rfl
  | cons a as ih => cases as <;> simp_all [openObs]

theorem specObs_length (P : List TriRow) : (specObs P).length = P.length := by
  induction P with
  | nil => rfl
  | cons a as ih => cases as <;> simp_all [specObs]

theorem setLast_cons (o : TriObs) (l : List TriObs) (k : Int) (hk : 0 ≤ k) :
    setLast (o :: l) (k + 1) = o :: setLast l k := by
  unfold setLast
  have : (k + 1).toNat = k.toNat + 1 := by omega
  rw [this]; rfl

theorem setLast_open (P : List TriRow) (h : P ≠ []) :
    setLast (openObs P) (P.length - 1) = specObs P := by
  induction P with
  | nil => exact absurd rfl h
  | cons a as ih =>
    cases as with
    | nil => rfl
    | cons b bs =>
      have := ih (by simp)
      rw [openObs, specObs]
      have e : ((a :: b :: bs).length : Int) - 1 = ((b :: bs).length : Int) - 1 + 1 := by
        simp
      rw [e, setLast_cons _ _ _ (by simp), this]

theorem open_append_same (P : List TriRow) (r : TriRow)
    (h : ∀ x, P.getLast? = some x → x.ipoint = r.ipoint) :
    openObs (P ++ [r]) = openObs P ++ [⟨false, r.weightLE0, r.icamI, r.icamE⟩] := by
  induction P with
  | nil => rfl
  | cons a as ih =>
    cases as with
    | nil =>
      have : a.ipoint = r.ipoint := h a (by simp)
      simp [openObs, this]
    | cons b bs =>
      have := ih (fun x hx => h x (by simpa [List.getLast?_cons_cons] using hx))
      simp only [List.cons_append, openObs] at this ⊢
      rw [this]

theorem open_append_diff (P : List TriRow) (r : TriRow)
    (h : ∀ x, P.getLast? = some x → x.ipoint ≠ r.ipoint) (hne : P ≠ []) :
    openObs (P ++ [r]) =
      setLast (openObs P ++ [⟨false, r.weightLE0, r.icamI, r.icamE⟩]) (P.length - 1) := by
  induction P with
  | nil => exact absurd rfl hne
  | cons a as ih =>
    cases as with
    | nil =>
      have : a.ipoint ≠ r.ipoint := h a (by simp)
      simp [openObs, setLast, Ne.symm this]
    | cons b bs =>
      have := ih (fun x hx => h x (by simpa [List.getLast?_cons_cons] using hx)) (by simp)
      have e : ((a :: b :: bs).length : Int) - 1 = ((b :: bs).length : Int) - 1 + 1 := by
        simp
      rw [e]
      simp only [List.cons_append, openObs] at this ⊢
      rw [this, setLast_cons _ _ _ (by simp)]

def ips (P : List TriRow) : List Int := P.map (·.ipoint)

def Consec (l : List Int) : Prop :=
  (∀ a, l.head? = some a → a = 0) ∧ l.IsChain (fun a b => b = a ∨ b = a + 1)

def Good (P : List TriRow) : Prop :=
  Consec (ips P) ∧ (∀ a ∈ ips P, 2 ≤ (ips P).count a) ∧ ∀ r ∈ P, r.unprojectOk = true

theorem Consec.pairwise {l : List Int} (h : Consec l) : l.Pairwise (· ≤ ·) := by
  have : l.IsChain (· ≤ ·) := h.2.imp (by intro a b hab; omega)
  exact List.isChain_iff_pairwise.1 this

theorem Consec.append_left {l m : List Int} (h : Consec (l ++ m)) : Consec l := by
  refine ⟨fun a ha => h.1 a ?_, h.2.left_of_append⟩
  cases l <;> simp_all

theorem Consec.nonneg {l : List Int} (h : Consec l) : ∀ a ∈ l, 0 ≤ a := by
  have hp := h.pairwise
  cases l with
  | nil => simp
  | cons x xs =>
    have hx : x = 0 := h.1 x rfl
    subst hx
    intro a ha
    rcases List.mem_cons.1 ha with rfl | ha
    · exact le_rfl
    · exact (List.pairwise_cons.1 hp).1 a ha

theorem Consec.snoc {l : List Int} {c r : Int} (h : Consec (l ++ [c])) :
    Consec (l ++ [c] ++ [r]) ↔ (r = c ∨ r = c + 1) := by
  constructor
  · rintro ⟨-, h2⟩
    have := (List.isChain_append.1 h2).2.2 c (by simp) r (by simp)
    exact this
  · intro hr
    refine ⟨fun a ha => h.1 a (by cases l <;> simp_all), ?_⟩
    rw [List.isChain_append]
    refine ⟨h.2, by simp, fun x hx y hy => ?_⟩
    simp at hx hy; subst hx; subst hy; exact hr

theorem le_last {l : List Int} {c : Int} (h : Consec (l ++ [c])) : ∀ a ∈ l ++ [c], a ≤ c := by
  intro a ha
  have := h.pairwise
  rw [List.pairwise_append] at this
  rcases List.mem_append.1 ha with ha | ha
  · exact this.2.2 a ha c (by simp)
  · simp at ha; omega

open Classical in
/-- The loop, from any intermediate point. `P` = rows already processed, ending in point `cur`. -/
theorem fill_loop (rs : List TriRow) (P : List TriRow) (x : TriRow)
    (hc : Consec (ips (P ++ [x])))
    (hcount : ∀ a ∈ ips (P ++ [x]), a ≠ x.ipoint → 2 ≤ (ips (P ++ [x])).count a)
    (hok : ∀ r ∈ P ++ [x], r.unprojectOk = true) :
    fillTriLoop rs (P.length + 1) x.ipoint ((ips (P ++ [x])).count x.ipoint) (openObs (P ++ [x])) =
      if Good (P ++ [x] ++ rs) then some (specObs (P ++ [x] ++ rs)) else none := by
  induction rs generalizing P x with
  | nil =>
    simp only [fillTriLoop, finishTriangulatedSet, List.append_nil]
    rw [if_neg (by omega)]
    have e : (P.length : Int) + 1 - 1 = ((P ++ [x]).length : Int) - 1 := by simp
    rw [e, setLast_open _ (by simp)]
    by_cases h : ((ips (P ++ [x])).count x.ipoint : Int) < 2
    · rw [if_pos h, if_neg]
      rintro ⟨-, h2, -⟩
      have := h2 x.ipoint (by simp [ips])
      omega
    · rw [if_neg h, if_pos]
      refine ⟨hc, fun a ha => ?_, hok⟩
      by_cases hax : a = x.ipoint
      · subst hax; omega
      · exact hcount a ha hax
  | cons r rs ih =>
    have eapp : P ++ [x] ++ r :: rs = (P ++ [x]) ++ [r] ++ rs := by simp
    have hips : ips (P ++ [x] ++ [r]) = ips P ++ [x.ipoint] ++ [r.ipoint] := by simp [ips]
    have hips1 : ips (P ++ [x]) = ips P ++ [x.ipoint] := by simp [ips]
    have hcur := (Consec.snoc (r := r.ipoint) (hips1 ▸ hc))
    rw [fillTriLoop]
    by_cases hu : r.unprojectOk = true
    swap
    · have : r.unprojectOk = false := by simpa using hu
      rw [this]
      simp only [Bool.not_false, if_true]
      rw [if_neg]
      rintro ⟨-, -, h3⟩
      exact hu (h3 r (by simp))
    simp only [hu, Bool.not_true, Bool.false_eq_true, if_false]
    have hok' : ∀ r' ∈ P ++ [x] ++ [r], r'.unprojectOk = true := by
      intro r' hr'
      rcases List.mem_append.1 hr' with h | h
      · exact hok r' h
      · simp at h; subst h; exact hu
    by_cases hneg : r.ipoint < 0
    · rw [if_pos hneg, if_neg]
      rintro ⟨h1, -, -⟩
      have := h1.nonneg r.ipoint (by simp [ips])
      omega
    rw [if_neg hneg]
    have elen : ((P.length : Int) + 1 + 1) = ((P ++ [x]).length : Int) + 1 := by simp
    by_cases heq : r.ipoint = x.ipoint
    · rw [if_pos heq]
      have h1 := open_append_same (P ++ [x]) r (by simp [heq])
      rw [← h1, elen, eapp]
      have hcnt : (ips (P ++ [x] ++ [r])).count r.ipoint = (ips (P ++ [x])).count x.ipoint + 1 := by
        rw [hips, List.count_append, ← hips1, heq]; simp
      have := ih (P ++ [x]) r (by rw [hips]; exact hcur.2 (Or.inl heq)) ?_ hok'
      · rw [hcnt] at this
        rw [← this, heq]
        push_cast; rfl
      · intro a ha hax
        rw [hips, List.count_append, ← hips1]
        have ha' : a ∈ ips (P ++ [x]) := by
          rw [hips] at ha; rw [hips1]
          rcases List.mem_append.1 ha with h | h
          · exact h
          · simp at h; exact absurd h hax
        have := hcount a ha' (by rw [← heq]; exact hax)
        omega
    rw [if_neg heq]
    by_cases hsucc : r.ipoint = x.ipoint + 1
    · rw [if_pos hsucc]
      have hne : P ++ [x] ≠ [] := by simp
      have h1 := open_append_diff (P ++ [x]) r (by simp [hsucc]) hne
      have e : (P.length : Int) + 1 - 1 = ((P ++ [x]).length : Int) - 1 := by simp
      simp only [finishTriangulatedSet]
      rw [if_neg (by omega), e, ← h1]
      by_cases h2 : ((ips (P ++ [x])).count x.ipoint : Int) < 2
      · rw [if_pos h2]
        simp only
        rw [if_neg]
        rintro ⟨g1, g2, -⟩
        have h3 := g2 x.ipoint (by simp [ips])
        -- later rows never go back to `x.ipoint`
        have h4 : (ips (r :: rs)).count x.ipoint = 0 := by
          rw [List.count_eq_zero]
          intro hmem
          have gp : (ips (P ++ [x]) ++ ips (r :: rs)).Pairwise (· ≤ ·) := by
            have := g1.pairwise
            simpa [ips] using this
          have gp2 := (List.pairwise_append.1 gp).2.1
          simp only [ips, List.map_cons] at gp2 hmem
          rcases List.mem_cons.1 hmem with h | h
          · omega
          · have := (List.pairwise_cons.1 gp2).1 _ h; omega
        have h5 : ips (P ++ [x] ++ r :: rs) = ips (P ++ [x]) ++ ips (r :: rs) := by simp [ips]
        rw [h5, List.count_append, h4] at h3
        omega
      · rw [if_neg h2]
        simp only
        rw [elen, eapp]
        have hcnt : (ips (P ++ [x] ++ [r])).count r.ipoint = 1 := by
          rw [hips, List.count_append, ← hips1]
          have : (ips (P ++ [x])).count r.ipoint = 0 := by
            rw [List.count_eq_zero]
            intro hmem
            have := le_last (hips1 ▸ hc) _ (hips1 ▸ hmem)
            omega
          simp [this]
        have := ih (P ++ [x]) r (by rw [hips]; exact hcur.2 (Or.inr hsucc)) ?_ hok'
        · rw [hcnt] at this
          exact this
        · intro a ha hax
          rw [hips, List.count_append, ← hips1]
          have ha' : a ∈ ips (P ++ [x]) := by
            rw [hips] at ha; rw [hips1]
            rcases List.mem_append.1 ha with h | h
            · exact h
            · simp at h; exact absurd h hax
          by_cases hax2 : a = x.ipoint
          · subst hax2; omega
          · have := hcount a ha' hax2
            omega
    · rw [if_neg hsucc, if_neg]
      rintro ⟨g1, -, -⟩
      rw [eapp] at g1
      have : Consec (ips (P ++ [x] ++ [r])) := by
        apply Consec.append_left (m := ips rs); simpa [ips] using g1
      rw [hips] at this
      rcases hcur.1 this with h | h
      · exact heq h
      · exact hsucc h

open Classical in
theorem fillTri_eq (rows : List TriRow) :
    fillTri rows = if Good rows then some (specObs rows) else none := by
  cases rows with
  | nil =>
    rw [if_pos]
    · rfl
    · exact ⟨⟨by simp [ips], by simp [ips]⟩, by simp [ips], by simp⟩
  | cons r rs =>
    unfold fillTri
    rw [fillTriLoop]
    by_cases hu : r.unprojectOk = true
    swap
    · have : r.unprojectOk = false := by simpa using hu
      rw [this]
      simp only [Bool.not_false, if_true]
      rw [if_neg]
      rintro ⟨-, -, h3⟩
      exact hu (h3 r (by simp))
    simp only [hu, Bool.not_true, Bool.false_eq_true, if_false, List.nil_append]
    by_cases h0 : r.ipoint = 0
    · have := fill_loop rs [] r (by simp [ips, Consec, h0]) (by simp [ips]) (by simp [hu])
      simp only [List.nil_append, List.length_nil, List.singleton_append] at this
      rw [← this]
      simp [h0, finishTriangulatedSet, openObs, ips]
    · have hbad : ¬ Good (r :: rs) := by
        rintro ⟨h1, -, -⟩
        exact h0 (h1.1 _ (by simp [ips]))
      rw [if_neg hbad]
      by_cases hn : r.ipoint < 0
      · simp [hn]
      · simp [hn, h0]; omega

theorem good_iff (rows : List TriRow) : Good rows ↔ Acceptable rows := by
  constructor
  · rintro ⟨⟨h1, h2⟩, h3, h4⟩
    refine ⟨fun r hr => h1 _ (by cases rows <;> simp_all [ips]), fun i a b ha hb => ?_, fun i a ha => ?_, h4⟩
    · have hi := (List.getElem?_eq_some_iff.1 hb).1
      have h := List.isChain_iff_getElem.1 h2 i (by simpa [ips] using hi)
      have ha' := (List.getElem?_eq_some_iff.1 ha).2
      have hb' := (List.getElem?_eq_some_iff.1 hb).2
      simp only [ips, List.getElem_map, ha', hb'] at h
      exact h
    · have hmem : a.ipoint ∈ ips rows := by
        simp only [ips, List.mem_map]
        exact ⟨a, List.mem_of_getElem? ha, rfl⟩
      have hc := h3 _ hmem
      by_contra hcon
      push Not at hcon
      have hi := (List.getElem?_eq_some_iff.1 ha).1
      have hsplit : rows = rows.take i ++ a :: rows.drop (i + 1) := by
        have := (List.getElem?_eq_some_iff.1 ha).2
        rw [← this, ← List.drop_eq_getElem_cons hi, List.take_append_drop]
      have z1 : (ips (rows.take i)).count a.ipoint = 0 := by
        rw [List.count_eq_zero]
        intro hm
        simp only [ips, List.mem_map] at hm
        obtain ⟨b, hb, hbe⟩ := hm
        obtain ⟨j, hj, hjb⟩ := List.getElem_of_mem hb
        have hj' : j < i := by simp at hj; omega
        refine hcon j b (by omega) ?_ hbe
        rw [List.getElem_take] at hjb
        rw [← hjb]; simp
      have z2 : (ips (rows.drop (i + 1))).count a.ipoint = 0 := by
        rw [List.count_eq_zero]
        intro hm
        simp only [ips, List.mem_map] at hm
        obtain ⟨b, hb, hbe⟩ := hm
        obtain ⟨j, hj, hjb⟩ := List.getElem_of_mem hb
        refine hcon (i + 1 + j) b (by omega) ?_ hbe
        rw [List.getElem_drop] at hjb
        rw [← hjb]
        simp only [List.length_drop] at hj
        exact List.getElem?_eq_getElem (by omega)
      rw [hsplit] at hc
      simp only [ips, List.map_append, List.map_cons, List.count_append, List.count_cons_self] at hc z1 z2
      omega
  · rintro ⟨h1, h2, h3, h4⟩
    refine ⟨⟨fun a ha => ?_, ?_⟩, fun a ha => ?_, h4⟩
    · cases rows with
      | nil => simp [ips] at ha
      | cons r rs => simp [ips] at ha; subst ha; exact h1 r rfl
    · rw [List.isChain_iff_getElem]
      intro i hi
      simp only [ips, List.length_map] at hi
      simp only [ips, List.getElem_map]
      exact h2 i _ _ (List.getElem?_eq_getElem (by omega)) (List.getElem?_eq_getElem hi)
    · simp only [ips, List.mem_map] at ha
      obtain ⟨r, hr, rfl⟩ := ha
      obtain ⟨i, hi, hir⟩ := List.getElem_of_mem hr
      obtain ⟨j, b, hji, hb, hbe⟩ := h3 i r (by rw [← hir]; simp)
      have hj := (List.getElem?_eq_some_iff.1 hb).1
      have hjb := (List.getElem?_eq_some_iff.1 hb).2
      -- two distinct positions
      have key : ∀ (m n : Nat) (l : List Int) (hm : m < n) (hn : n < l.length), l[m] = r.ipoint →
          l[n] = r.ipoint → 2 ≤ l.count r.ipoint := by
        intro m n l hm hn e1 e2
        have : l = l.take n ++ l.drop n := (List.take_append_drop n l).symm
        rw [this, List.count_append]
        have c1 : 1 ≤ (l.take n).count r.ipoint := by
          rw [Nat.one_le_iff_ne_zero, ← Nat.pos_iff_ne_zero, List.count_pos_iff, ← e1]
          have : (l.take n)[m]'(by simp; omega) = l[m] := List.getElem_take
          rw [← this]; exact List.getElem_mem _
        have c2 : 1 ≤ (l.drop n).count r.ipoint := by
          rw [List.drop_eq_getElem_cons hn, e2]; simp
        omega
      rcases Nat.lt_or_gt_of_ne hji with h | h
      · exact key j i (ips rows) h (by simpa [ips] using hi) (by simp [ips, hjb, hbe]) (by simp [ips, hir])
      · exact key i j (ips rows) h (by simpa [ips] using hj) (by simp [ips, hir]) (by simp [ips, hjb, hbe])

theorem specObs_get (rows : List TriRow) (i : Nat) (r : TriRow) (h : rows[i]? = some r) :
    (specObs rows)[i]? = some ⟨decide (∀ r', rows[i + 1]? = some r' → r'.ipoint ≠ r.ipoint),
      r.weightLE0, r.icamI, r.icamE⟩ := by
  induction rows generalizing i with
  | nil => simp at h
  | cons a as ih =>
    cases as with
    | nil =>
      cases i with
      | zero => simp at h; subst h; simp [specObs]
      | succ i => simp at h
    | cons b bs =>
      cases i with
      | zero => simp at h; subst h; simp [specObs]
      | succ i =>
        simp only [List.getElem?_cons_succ] at h ⊢
        rw [specObs, List.getElem?_cons_succ]
        exact ih i h

theorem sorted_rows {rows : List TriRow} (h : Good rows) {i j : Nat} {a b : TriRow} (hij : i ≤ j)
    (ha : rows[i]? = some a) (hb : rows[j]? = some b) : a.ipoint ≤ b.ipoint := by
  have hp := h.1.pairwise
  rcases Nat.lt_or_eq_of_le hij with hlt | rfl
  · have hi := (List.getElem?_eq_some_iff.1 ha)
    have hj := (List.getElem?_eq_some_iff.1 hb)
    have := List.pairwise_iff_getElem.1 hp i j (by simpa [ips] using hi.1) (by simpa [ips] using hj.1) hlt
    simpa [ips, hi.2, hj.2] using this
  · rw [ha] at hb; cases hb; exact le_rfl

/-! ### Theorems (C09) -/

/-- C09: the table is accepted exactly when it has the documented form. -/
theorem ingest_accepts_iff (rows : List TriRow) : (fillTri rows).isSome ↔ Acceptable rows := by
  rw [fillTri_eq, ← good_iff]
  split <;> simp_all

/-- C09: an accepted table produces one observation per row with the same cameras, outlier exactly if the
weight was not positive, and flagged as the end of a set exactly on the last row of each point. The result
is always terminated (so the library's loops stay inside the array), and two observations are in the same
set exactly when they are of the same point. -/
theorem ingest_groups (rows : List TriRow) (obs : List TriObs) (h : fillTri rows = some obs) :
    obs.length = rows.length ∧
    (∀ (i : Nat) r, rows[i]? = some r → ∃ o, obs[i]? = some o ∧
      o.icamI = r.icamI ∧ o.icamE = r.icamE ∧ o.outlier = r.weightLE0 ∧
      (o.last = true ↔ ∀ r', rows[i + 1]? = some r' → r'.ipoint ≠ r.ipoint)) ∧
    Terminated obs ∧
    (∀ (i j : Nat) a b, rows[i]? = some a → rows[j]? = some b → i < j →
      (SameSet obs i j ↔ a.ipoint = b.ipoint)) := by
  rw [fillTri_eq] at h
  split at h
  swap
  · cases h
  rename_i hg
  cases h
  have hlen := specObs_length rows
  refine ⟨hlen, fun i r hr => ⟨_, specObs_get rows i r hr, rfl, rfl, rfl, by simp⟩, ?_, ?_⟩
  · intro o ho
    rw [List.getLast?_eq_getElem?, hlen] at ho
    cases hr : rows[rows.length - 1]? with
    | none =>
      have hz : rows = [] := by simpa using hr
      subst hz; simp [specObs] at ho
    | some r =>
      rw [specObs_get rows _ r hr] at ho
      cases ho
      have : rows[rows.length - 1 + 1]? = none := by
        simp; omega
      simp [this]
  · intro i j a b ha hb hij
    have hi := (List.getElem?_eq_some_iff.1 ha).1
    have hj := (List.getElem?_eq_some_iff.1 hb).1
    constructor
    · rintro ⟨-, -, hk⟩
      -- walk from i to j
      have walk : ∀ d, i + d ≤ j → ∀ c, rows[i + d]? = some c → c.ipoint = a.ipoint := by
        intro d
        induction d with
        | zero => intro _ c hc; simp only [Nat.add_zero, ha] at hc; cases hc; rfl
        | succ d ih =>
          intro hd c hc
          have hprev : rows[i + d]? = some rows[i + d] := List.getElem?_eq_getElem (by omega)
          have h1 := ih (by omega) _ hprev
          obtain ⟨o, ho, hf⟩ := hk (i + d) (by omega) (by omega)
          rw [specObs_get rows _ _ hprev] at ho
          cases ho
          have hf' := of_decide_eq_false hf
          push Not at hf'
          obtain ⟨r', hr', he⟩ := hf'
          have : rows[i + d + 1]? = some c := hc
          rw [this] at hr'; cases hr'
          rw [he, h1]
      have e := walk (j - i) (by omega) b (by rw [← hb]; congr 1; omega)
      exact e.symm
    · intro he
      refine ⟨hij, by rw [hlen]; exact hj, fun k hk1 hk2 => ?_⟩
      have hk : rows[k]? = some rows[k] := List.getElem?_eq_getElem (by omega)
      have hk' : rows[k + 1]? = some rows[k + 1] := List.getElem?_eq_getElem (by omega)
      refine ⟨_, specObs_get rows k _ hk, ?_⟩
      have a1 := sorted_rows hg hk1 ha hk
      have a2 := sorted_rows hg (Nat.le_succ k) hk hk'
      have a3 := sorted_rows hg (show k + 1 ≤ j by omega) hk' hb
      simp only [decide_eq_false_iff_not]
      push Not
      exact ⟨_, hk', by omega⟩

/-- C09+C08: end to end. The triangulated measurements made from an accepted table are exactly the pairs of
rows `i<j` observing the same point. -/
theorem ingest_measurements (rows : List TriRow) (obs : List TriObs) (h : fillTri rows = some obs) :
    ∃ L : List (Int × Int), triPairs 0 obs = some L ∧
      numMeasurementsTri obs = some (L.length : Int) ∧ L.Pairwise LexLt ∧
      ∀ p : Int × Int, p ∈ L ↔ ∃ (i j : Nat) (a b : TriRow), p = ((i : Int), (j : Int)) ∧ i < j ∧
        rows[i]? = some a ∧ rows[j]? = some b ∧ a.ipoint = b.ipoint := by
  obtain ⟨hlen, -, ht, hs⟩ := ingest_groups rows obs h
  obtain ⟨L, h1, h2, h3, h4, h5⟩ := tri_measurements_are_pairs obs ht
  refine ⟨L, h1, h5, h4, fun p => ⟨fun hp => ?_, ?_⟩⟩
  · obtain ⟨i, j, rfl⟩ := h3 p hp
    have hss := (h2 i j).1 hp
    have hj : j < rows.length := by rw [← hlen]; exact hss.2.1
    have hi : i < rows.length := lt_trans hss.1 hj
    have ea := List.getElem?_eq_getElem hi
    have eb := List.getElem?_eq_getElem hj
    exact ⟨i, j, _, _, rfl, hss.1, ea, eb, (hs i j _ _ ea eb hss.1).1 hss⟩
  · rintro ⟨i, j, a, b, rfl, hij, ha, hb, he⟩
    exact (h2 i j).2 ((hs i j a b ha hb hij).2 he)

/-- a table with two points, 3 and 2 observations -/
def exRows : List TriRow :=
  [⟨0, 0, -1, false, true⟩, ⟨0, 1, 0, true, true⟩, ⟨0, 2, 1, false, true⟩,
   ⟨1, 1, 0, false, true⟩, ⟨1, 2, 1, false, true⟩]
example : fillTri exRows = some [⟨false, false, 0, -1⟩, ⟨false, true, 1, 0⟩, ⟨true, false, 2, 1⟩,
   ⟨false, false, 1, 0⟩, ⟨true, false, 2, 1⟩] := by decide
example : Acceptable exRows := (ingest_accepts_iff _).1 (by decide)
/-- a point seen only once is refused -/
example : ¬ Acceptable (exRows.take 4) := fun h => by
  have := (ingest_accepts_iff _).2 h; revert this; decide

end Mrcal.Ingest
