import Verif.Model.Measurements
import Mathlib.Tactic.Linarith
import Mathlib.Tactic.Ring
import Mathlib.Tactic.LinearCombination
/-
C08: the triangulated measurements: how many there are, which pairs of observations they come from, and
that `decode` inverts the numbering.

Specification: two observations `i < j` form a pair iff they are in the same set, i.e. none of the
observations `i, i+1, .., j-1` is flagged as the last one in its set.
-/
namespace Mrcal.Tri
open Mrcal

/-- Spec: observations `i<j` are in the same set. -/
def SameSet (obs : List TriObs) (i j : Nat) : Prop :=
  i < j ∧ j < obs.length ∧ ∀ k, i ≤ k → k < j → ∃ o, obs[k]? = some o ∧ o.last = false

/-- Spec: the input is properly terminated. -/
def Terminated (obs : List TriObs) : Prop := ∀ o, obs.getLast? = some o → o.last = true

/-- Spec: (strict) lexicographic order on pairs -/
def LexLt (p q : Int × Int) : Prop := p.1 < q.1 ∨ (p.1 = q.1 ∧ p.2 < q.2)

/-! ### Structure of the input: a list of sets -/

/-- `obs` is made of one set of `n+1` observations, and then `rest` -/
def SetThen (obs : List TriObs) (n : Nat) (rest : List TriObs) : Prop :=
  ∃ pre lst, obs = pre ++ lst :: rest ∧ pre.length = n ∧ (∀ o ∈ pre, o.last = false) ∧ lst.last = true

/-- `obs` is a sequence of sets, of sizes `ns` -/
inductive Sets : List TriObs → List Nat → Prop
  | nil : Sets [] []
  | cons {obs n rest ns} : SetThen obs n rest → Sets rest ns → Sets obs ((n + 1) :: ns)

theorem terminated_tail {o : TriObs} {os : List TriObs} (hne : os ≠ []) (h : Terminated (o :: os)) :
    Terminated os := by
  intro x hx
  apply h
  cases os with
  | nil => exact absurd rfl hne
  | cons a as => simpa [List.getLast?_cons_cons] using hx

theorem setThen_exists {o : TriObs} {os : List TriObs} (h : Terminated (o :: os)) :
    ∃ n rest, SetThen (o :: os) n rest ∧ Terminated rest ∧ rest.length < (o :: os).length := by
  induction os generalizing o with
  | nil =>
    refine ⟨0, [], ⟨[], o, rfl, rfl, by simp, h o rfl⟩, ?_, by simp⟩
    intro x hx; simp at hx
  | cons a as ih =>
    cases hl : o.last
    · have ht : Terminated (a :: as) := terminated_tail (by simp) h
      obtain ⟨n, rest, ⟨pre, lst, e, hlen, hpre, hlst⟩, hr, hlt⟩ := ih ht
      refine ⟨n + 1, rest, ⟨o :: pre, lst, by simp [e], by simp [hlen], ?_, hlst⟩, hr, ?_⟩
      · intro x hx
        rcases List.mem_cons.1 hx with rfl | hx
        · exact hl
        · exact hpre x hx
      · simp at hlt ⊢; omega
    · exact ⟨0, a :: as, ⟨[], o, rfl, rfl, by simp, hl⟩, terminated_tail (by simp) h, by simp⟩

theorem sets_exists (obs : List TriObs) (h : Terminated obs) : ∃ ns, Sets obs ns := by
  induction hn : obs.length using Nat.strong_induction_on generalizing obs with
  | _ n ih =>
    cases obs with
    | nil => exact ⟨[], .nil⟩
    | cons o os =>
      obtain ⟨k, rest, hs, ht, hlt⟩ := setThen_exists h
      obtain ⟨ns, hns⟩ := ih rest.length (by omega) rest ht rfl
      exact ⟨(k + 1) :: ns, .cons hs hns⟩

theorem triSetCount_pre (pre : List TriObs) (lst : TriObs) (rest : List TriObs) (N M : Int)
    (hpre : ∀ o ∈ pre, o.last = false) (hl : lst.last = true) :
    ∃ M', triSetCount (pre ++ lst :: rest) N M = some (rest, M') ∧
      2 * M' = 2 * M + (2 * N + pre.length - 1) * pre.length := by
  induction pre generalizing N M with
  | nil => exact ⟨M, by simp [triSetCount, hl], by simp⟩
  | cons a as ih =>
    have ha : a.last = false := hpre a (by simp)
    obtain ⟨M', h1, h2⟩ := ih (N + 1) (M + N) (fun o ho => hpre o (by simp [ho]))
    refine ⟨M', by simp [triSetCount, ha, h1], ?_⟩
    rw [h2]; push_cast [List.length_cons]; ring

theorem triSetLen_pre (pre : List TriObs) (lst : TriObs) (rest : List TriObs) (N : Int)
    (hpre : ∀ o ∈ pre, o.last = false) (hl : lst.last = true) :
    triSetLen (pre ++ lst :: rest) N = some (rest, N + pre.length) := by
  induction pre generalizing N with
  | nil => simp [triSetLen, hl]
  | cons a as ih =>
    have ha : a.last = false := hpre a (by simp)
    have := ih (N + 1) (fun o ho => hpre o (by simp [ho]))
    simp only [List.cons_append, triSetLen, ha, this]
    simp; ring

/-- number of pairs of one set -/
def choose2 (n : Nat) : Nat := n * (n - 1) / 2

theorem two_choose2 (n : Nat) : 2 * (choose2 (n + 1) : Int) = (n + 1) * n := by
  unfold choose2
  have : 2 ∣ (n + 1) * (n + 1 - 1) := by
    simpa [mul_comm] using (Nat.even_mul_succ_self n).two_dvd
  have h2 : 2 * ((n + 1) * (n + 1 - 1) / 2) = (n + 1) * (n + 1 - 1) := Nat.mul_div_cancel' this
  have : n + 1 - 1 = n := rfl
  rw [this] at h2 ⊢
  exact_mod_cast h2

theorem triSetCount_set {obs rest : List TriObs} {n : Nat} (h : SetThen obs n rest) (M : Int) :
    triSetCount obs 1 M = some (rest, M + choose2 (n + 1)) := by
  obtain ⟨pre, lst, rfl, hlen, hpre, hl⟩ := h
  obtain ⟨M', h1, h2⟩ := triSetCount_pre pre lst rest 1 M hpre hl
  rw [h1]
  have := two_choose2 n
  rw [hlen] at h2
  have : M' = M + choose2 (n + 1) := by
    have h3 : (2 * 1 + (n : Int) - 1) * n = (n + 1) * n := by ring
    omega
  rw [this]

theorem SetThen.ne_nil {obs rest : List TriObs} {n : Nat} (h : SetThen obs n rest) : obs ≠ [] := by
  obtain ⟨pre, lst, rfl, -⟩ := h; simp

theorem triInitialLoop_sets {obs ns} (h : Sets obs ns) (Np ip M : Int) :
    triInitialLoop Np obs ip M =
      some (M + (((if Np < 0 then ns else ns.take (Np - ip).toNat).map choose2).sum : Nat)) := by
  induction h generalizing ip M with
  | nil => simp [triInitialLoop]
  | @cons obs n rest ns hs _ ih =>
    obtain ⟨o, os, rfl⟩ := List.exists_cons_of_ne_nil hs.ne_nil
    rw [triInitialLoop]
    have hc := triSetCount_set hs M
    split
    · rename_i hcond
      split
      · rename_i h0; rw [hc] at h0; cases h0
      · rename_i r M' h0
        rw [hc] at h0
        simp only [Option.some.injEq, Prod.mk.injEq] at h0
        obtain ⟨rfl, rfl⟩ := h0
        rw [ih]
        by_cases hn : Np < 0
        · simp [hn]; ring
        · have : (Np - ip).toNat = (Np - (ip + 1)).toNat + 1 := by omega
          simp [hn, this]; ring
    · rename_i hcond
      have h1 : ¬ Np < 0 := fun h => hcond (Or.inl h)
      have h2 : ¬ ip < Np := fun h => hcond (Or.inr h)
      have : (Np - ip).toNat = 0 := by omega
      simp [h1, this]

theorem numMeasurementsTriInitial_sets {obs ns} (h : Sets obs ns) (Np : Int) :
    numMeasurementsTriInitial obs Np =
      some (((if Np < 0 then ns else ns.take Np.toNat).map choose2).sum : Nat) := by
  unfold numMeasurementsTriInitial
  split
  · rename_i h0
    have : obs = [] := by simpa using h0
    subst this
    cases h with
    | nil => simp
    | cons hs _ => exact absurd rfl hs.ne_nil
  · rw [triInitialLoop_sets h]; simp

/-! ### The pairs -/

/-- pairs of a set of `n` observations starting at `base` -/
def setPairs : (base : Int) → (n : Nat) → List (Int × Int)
  | _, 0 => []
  | base, n + 1 => (List.range n).map (fun b : Nat => (base, base + 1 + (b : Int))) ++ setPairs (base + 1) n

def allPairs : Int → List Nat → List (Int × Int)
  | _, [] => []
  | base, n :: ns => setPairs base n ++ allPairs (base + n) ns

theorem triPairsInner_pre (pre : List TriObs) (lst : TriObs) (rest : List TriObs) (i0 i1 : Int)
    (hpre : ∀ o ∈ pre, o.last = false) (hl : lst.last = true) :
    triPairsInner i0 i1 (pre ++ lst :: rest) =
      some ((List.range (pre.length + 1)).map fun (b : Nat) => (i0, i1 + b)) := by
  induction pre generalizing i1 with
  | nil => simp [triPairsInner, hl]
  | cons a as ih =>
    have ha : a.last = false := hpre a (by simp)
    have := ih (i1 + 1) (fun o ho => hpre o (by simp [ho]))
    simp only [List.cons_append, triPairsInner, ha, this]
    simp only [List.length_cons]
    rw [List.range_succ_eq_map (n := as.length + 1)]
    simp [Function.comp_def]
    intro a _; ring

theorem triPairs_set (pre : List TriObs) (lst : TriObs) (rest : List TriObs) (i0 : Int)
    (hpre : ∀ o ∈ pre, o.last = false) (hl : lst.last = true) :
    triPairs i0 (pre ++ lst :: rest) =
      (triPairs (i0 + pre.length + 1) rest).map (setPairs i0 (pre.length + 1) ++ ·) := by
  induction pre generalizing i0 with
  | nil => simp [triPairs, hl, setPairs]
  | cons a as ih =>
    have ha : a.last = false := hpre a (by simp)
    have hpre' : ∀ o ∈ as, o.last = false := fun o ho => hpre o (by simp [ho])
    simp only [List.cons_append, triPairs, ha, triPairsInner_pre as lst rest i0 (i0 + 1) hpre' hl,
      ih (i0 + 1) hpre']
    have e : i0 + 1 + (as.length : Int) + 1 = i0 + ((a :: as).length : Int) + 1 := by
      push_cast [List.length_cons]; ring
    rw [e]
    cases triPairs (i0 + ((a :: as).length : Int) + 1) rest with
    | none => simp
    | some r =>
      simp only [Bool.false_eq_true, ↓reduceIte, Option.bind_eq_bind, Option.bind_some,
        Option.map_some, Option.pure_def, List.length_cons]
      conv_rhs => rw [setPairs]
      rw [List.append_assoc]

theorem triPairs_sets {obs ns} (h : Sets obs ns) (base : Int) :
    triPairs base obs = some (allPairs base ns) := by
  induction h generalizing base with
  | nil => rfl
  | @cons obs n rest ns hs _ ih =>
    obtain ⟨pre, lst, rfl, hlen, hpre, hl⟩ := hs
    rw [triPairs_set pre lst rest base hpre hl, ih, hlen]
    simp only [Option.map_some, allPairs]
    push_cast; rw [add_assoc]

theorem setPairs_length (base : Int) (n : Nat) : (setPairs base n).length = choose2 n := by
  induction n generalizing base with
  | zero => rfl
  | succ n ih =>
    rw [setPairs, List.length_append, List.length_map, List.length_range, ih]
    cases n with
    | zero => rfl
    | succ m =>
      have h1 := two_choose2 m
      have h2 := two_choose2 (m + 1)
      push_cast at h2
      have : ((m + 1 : Int) + 1) * (m + 1) = (m + 1) * m + 2 * (m + 1) := by ring
      omega

theorem allPairs_length (base : Int) (ns : List Nat) :
    (allPairs base ns).length = (ns.map choose2).sum := by
  induction ns generalizing base with
  | nil => rfl
  | cons n ns ih => simp [allPairs, setPairs_length, ih]

/-! ### Membership and order, straight from the code -/

theorem sameSet_succ {o : TriObs} {os : List TriObs} {i j : Nat} :
    SameSet (o :: os) (i + 1) (j + 1) ↔ SameSet os i j := by
  unfold SameSet
  constructor
  · rintro ⟨h1, h2, h3⟩
    refine ⟨by omega, by simpa using h2, fun k hk1 hk2 => ?_⟩
    simpa using h3 (k + 1) (by omega) (by omega)
  · rintro ⟨h1, h2, h3⟩
    refine ⟨by omega, by simpa using h2, fun k hk1 hk2 => ?_⟩
    obtain ⟨k', rfl⟩ : ∃ k', k = k' + 1 := ⟨k - 1, by omega⟩
    simpa using h3 k' (by omega) (by omega)

theorem inner_mem {l : List TriObs} {i0 i1 : Int} {L} (h : triPairsInner i0 i1 l = some L) :
    (∀ p, p ∈ L ↔ ∃ b : Nat, p = (i0, i1 + b) ∧ b < l.length ∧
      ∀ k, k < b → ∃ o, l[k]? = some o ∧ o.last = false) ∧ L.Pairwise LexLt := by
  induction l generalizing i1 L with
  | nil => simp [triPairsInner] at h
  | cons o os ih =>
    simp only [triPairsInner] at h
    split at h
    · rename_i hl
      cases h
      refine ⟨fun p => ?_, by simp⟩
      constructor
      · intro hp
        refine ⟨0, by simpa using hp, by simp, by simp⟩
      · rintro ⟨b, rfl, hb, hk⟩
        cases b with
        | zero => simp
        | succ b =>
          obtain ⟨o', ho', hf⟩ := hk 0 (by omega)
          simp at ho'; subst ho'; simp [hl] at hf
    · rename_i hl
      obtain ⟨L', hL', rfl⟩ := Option.map_eq_some_iff.1 h
      obtain ⟨hm, hp⟩ := ih hL'
      refine ⟨fun p => ?_, ?_⟩
      · rw [List.mem_cons, hm]
        constructor
        · rintro (rfl | ⟨b, rfl, hb, hk⟩)
          · exact ⟨0, by simp, by simp, by simp⟩
          · refine ⟨b + 1, by push_cast; congr 1; ring, by simpa using hb, fun k hk' => ?_⟩
            cases k with
            | zero => exact ⟨o, rfl, by simpa using hl⟩
            | succ k => simpa using hk k (by omega)
        · rintro ⟨b, rfl, hb, hk⟩
          cases b with
          | zero => left; simp
          | succ b =>
            right
            refine ⟨b, by push_cast; congr 1; ring, by simpa using hb, fun k hk' => ?_⟩
            simpa using hk (k + 1) (by omega)
      · rw [List.pairwise_cons]
        refine ⟨fun p hp' => ?_, hp⟩
        obtain ⟨b, rfl, -, -⟩ := (hm p).1 hp'
        right; exact ⟨rfl, by simp; omega⟩

theorem pairs_mem {l : List TriObs} {base : Int} {L} (h : triPairs base l = some L) :
    (∀ p, p ∈ L ↔ ∃ i j : Nat, p = (base + i, base + j) ∧ SameSet l i j) ∧ L.Pairwise LexLt := by
  induction l generalizing base L with
  | nil =>
    simp only [triPairs, Option.some.injEq] at h; subst h
    simp [SameSet]
  | cons o os ih =>
    simp only [triPairs] at h
    split at h
    · rename_i hl
      obtain ⟨hm, hp⟩ := ih h
      refine ⟨fun p => ?_, hp⟩
      rw [hm]
      constructor
      · rintro ⟨i, j, rfl, hs⟩
        exact ⟨i + 1, j + 1, by push_cast; congr 1 <;> ring, sameSet_succ.2 hs⟩
      · rintro ⟨i, j, rfl, hs⟩
        cases i with
        | zero =>
          obtain ⟨o', ho', hf⟩ := hs.2.2 0 (by omega) hs.1
          simp at ho'; subst ho'; simp [hl] at hf
        | succ i =>
          obtain ⟨j, rfl⟩ : ∃ j', j = j' + 1 := ⟨j - 1, by have := hs.1; omega⟩
          exact ⟨i, j, by push_cast; congr 1 <;> ring, sameSet_succ.1 hs⟩
    · rename_i hl
      have hl' : o.last = false := by simpa using hl
      cases hr : triPairsInner base (base + 1) os with
      | none => simp [hr] at h
      | some row =>
        cases hr2 : triPairs (base + 1) os with
        | none => simp [hr, hr2] at h
        | some rest =>
          simp [hr, hr2] at h; subst h
          obtain ⟨hm1, hp1⟩ := inner_mem hr
          obtain ⟨hm2, hp2⟩ := ih hr2
          refine ⟨fun p => ?_, ?_⟩
          · rw [List.mem_append, hm1, hm2]
            constructor
            · rintro (⟨b, rfl, hb, hk⟩ | ⟨i, j, rfl, hs⟩)
              · refine ⟨0, b + 1, by push_cast; congr 1 <;> ring, by omega, by simpa using hb,
                  fun k _ hk2 => ?_⟩
                cases k with
                | zero => exact ⟨o, rfl, hl'⟩
                | succ k => simpa using hk k (by omega)
              · exact ⟨i + 1, j + 1, by push_cast; congr 1 <;> ring, sameSet_succ.2 hs⟩
            · rintro ⟨i, j, rfl, hs⟩
              obtain ⟨j, rfl⟩ : ∃ j', j = j' + 1 := ⟨j - 1, by have := hs.1; omega⟩
              cases i with
              | zero =>
                left
                refine ⟨j, by push_cast; congr 1 <;> ring, by simpa using hs.2.1, fun k hk => ?_⟩
                simpa using hs.2.2 (k + 1) (by omega) (by omega)
              | succ i =>
                right
                exact ⟨i, j, by push_cast; congr 1 <;> ring, sameSet_succ.1 hs⟩
          · rw [List.pairwise_append]
            refine ⟨hp1, hp2, fun p hp q hq => ?_⟩
            obtain ⟨b, rfl, -, -⟩ := (hm1 p).1 hp
            obtain ⟨i, j, rfl, -⟩ := (hm2 q).1 hq
            left; simp; omega

/-! ### The closed form inside a set -/

theorem pairFromIndex_eq (n a b m : Int) (ha : 0 ≤ a) (hab : a < b) (hbn : b < n)
    (hm : 2 * m = a * (2 * n - 1 - a) + 2 * (b - a - 1)) : triPairFromIndex n m = (a, b) := by
  have hmR : 2 * (m : ℝ) = a * (2 * n - 1 - a) + 2 * (b - a - 1) := by exact_mod_cast hm
  have haR : (0 : ℝ) ≤ a := by exact_mod_cast ha
  have hab' : (a : ℝ) + 1 ≤ b := by exact_mod_cast hab
  have hbn' : (b : ℝ) + 1 ≤ n := by exact_mod_cast hbn
  set x : ℝ := 2 * (n : ℝ) - 1 with hx
  have hD : x * x - 8 * (m : ℝ) = (x - 2 * a) * (x - 2 * a) - 8 * (b - a - 1) := by
    rw [hx]; linear_combination (-4) * hmR
  have h1 : Real.sqrt (x * x - 8 * (m : ℝ)) ≤ x - 2 * a := by
    apply Real.sqrt_le_iff.2
    constructor
    · rw [hx]; linarith
    · rw [hD, pow_two]; linarith
  have h2 : x - 2 * a - 2 < Real.sqrt (x * x - 8 * (m : ℝ)) := by
    by_cases hneg : x - 2 * a - 2 < 0
    · exact lt_of_lt_of_le hneg (Real.sqrt_nonneg _)
    · apply Real.lt_sqrt_of_sq_lt
      rw [hD, hx]; nlinarith
  have hfl : truncToInt ((x - Real.sqrt (x * x - 8 * (m : ℝ))) / 2) = a := by
    unfold truncToInt
    rw [if_pos (by linarith)]
    rw [Int.floor_eq_iff]
    constructor <;> linarith
  have e1 : a * (a + 3 - 2 * n) = 2 * (b - m - 1) := by linarith [hm, (by ring : a * (a + 3 - 2 * n) = -(a * (2 * n - 1 - a)) + 2 * a)]
  have key : ∀ z, z = a → (z, m + Int.tdiv (z * (z + 3 - 2 * n)) 2 + 1) = (a, b) := by
    rintro z rfl
    rw [e1, Int.mul_tdiv_cancel_left _ (by norm_num)]
    congr 1; ring
  exact key _ hfl

theorem setPairs_get (base : Int) (n : Nat) (m : Nat) (hm : m < choose2 n) :
    ∃ a b : Nat, a < b ∧ b < n ∧ (setPairs base n)[m]? = some (base + a, base + b) ∧
      2 * (m : Int) = a * (2 * n - 1 - a) + 2 * ((b : Int) - a - 1) := by
  induction n generalizing base m with
  | zero => simp [choose2] at hm
  | succ n ih =>
    rw [setPairs]
    by_cases h : m < n
    · refine ⟨0, m + 1, by omega, by omega, ?_, by push_cast; ring⟩
      rw [List.getElem?_append_left (by simpa using h)]
      simp [h]; ring
    · have hlen := setPairs_length base (n + 1)
      rw [setPairs, List.length_append, setPairs_length] at hlen
      simp at hlen
      obtain ⟨a, b, h1, h2, h3, h4⟩ := ih (base + 1) (m - n) (by omega)
      refine ⟨a + 1, b + 1, by omega, by omega, ?_, ?_⟩
      · rw [List.getElem?_append_right (by simpa using h)]
        simp [h3]; constructor <;> ring
      · have : ((m - n : Nat) : Int) = m - n := by omega
        rw [this] at h4
        push_cast
        linear_combination h4

/-- What decoding measurement `m` should report, given the sizes of the sets; `base` is the first
observation and `ip` the index of the first set -/
def specDecode (m : Nat) : (ns : List Nat) → (base ip : Int) → Option Decoded
  | [], _, _ => none
  | n :: ns, base, ip =>
    if m < choose2 n then
      ((setPairs base n)[m]?).map fun p => ⟨p.1, p.2, base, n, choose2 n, ip⟩
    else specDecode (m - choose2 n) ns (base + n) (ip + 1)

theorem decodeLoop_sets {obs ns} (h : Sets obs ns) (m : Nat) (M base ip : Int) :
    decodeLoop (M + m) obs base M ip = some (specDecode m ns base ip) := by
  induction h generalizing m M base ip with
  | nil => simp [decodeLoop, specDecode]
  | @cons obs n rest ns hs _ ih =>
    obtain ⟨o, os, rfl⟩ := List.exists_cons_of_ne_nil hs.ne_nil
    rw [decodeLoop]
    have hc : triSetLen (o :: os) 1 = some (rest, 1 + (n : Int)) := by
      obtain ⟨pre, lst, e, hlen, hpre, hl⟩ := hs
      rw [e, triSetLen_pre pre lst rest 1 hpre hl, hlen]
    split
    · rename_i h0; rw [hc] at h0; cases h0
    · rename_i r N h0
      rw [hc] at h0
      simp only [Option.some.injEq, Prod.mk.injEq] at h0
      obtain ⟨rfl, rfl⟩ := h0
      have e2 : Int.tdiv ((1 + (n : Int)) * (1 + (n : Int) - 1)) 2 = choose2 (n + 1) := by
        have : (1 + (n : Int)) * (1 + (n : Int) - 1) = 2 * choose2 (n + 1) := by
          rw [two_choose2]; ring
        rw [this, Int.mul_tdiv_cancel_left _ (by norm_num)]
      simp only [e2, specDecode]
      by_cases hm : m < choose2 (n + 1)
      · have hm' : M + (m : Int) < M + (choose2 (n + 1) : Int) := by omega
        rw [if_pos hm', if_pos hm]
        obtain ⟨a, b, h1, h2, h3, h4⟩ := setPairs_get base (n + 1) m hm
        have e3 : M + (m : Int) - M = m := by ring
        have e4 := pairFromIndex_eq (1 + (n : Int)) a b m (by omega) (by omega) (by omega)
          (by rw [h4]; push_cast; ring)
        rw [e3, e4, h3]
        simp only [Option.map_some, Option.some.injEq, Decoded.mk.injEq]
        push_cast
        refine ⟨by ring, by ring, by ring, by ring, trivial, trivial⟩
      · have hm' : ¬ M + (m : Int) < M + (choose2 (n + 1) : Int) := by omega
        rw [if_neg hm', if_neg hm]
        have e5 := ih (m - choose2 (n + 1)) (M + choose2 (n + 1)) (base + (n + 1 : Nat)) (ip + 1)
        rw [← e5]
        congr 1
        · omega
        · push_cast; ring

theorem decodeTri_sets {obs ns} (h : Sets obs ns) (m : Nat) :
    decodeTri m obs = some (specDecode m ns 0 0) := by
  unfold decodeTri
  split
  · rename_i h0
    have : obs = [] := by simpa using h0
    subst this
    cases h with
    | nil => simp [specDecode]
    | cons hs _ => exact absurd rfl hs.ne_nil
  · have := decodeLoop_sets h m 0 0 0
    simpa using this

theorem specDecode_spec (m : Nat) (ns : List Nat) (base ip : Int) :
    (m < (ns.map choose2).sum →
      ∃ d, specDecode m ns base ip = some d ∧
        (allPairs base ns)[m]? = some (d.iobservation0, d.iobservation1) ∧
        ∃ k : Nat, d.ipoint = ip + k ∧ ∃ n, ns[k]? = some n ∧
          d.iobservationPoint0 = base + (ns.take k).sum ∧
          d.NobservationsThisPoint = n ∧ d.NmeasurementsThisPoint = choose2 n ∧
          d.iobservationPoint0 ≤ d.iobservation0 ∧ d.iobservation0 < d.iobservation1 ∧
          d.iobservation1 < d.iobservationPoint0 + n) ∧
    ((ns.map choose2).sum ≤ m → specDecode m ns base ip = none) := by
  induction ns generalizing m base ip with
  | nil => simp [specDecode]
  | cons n ns ih =>
    constructor
    · intro hm
      by_cases h : m < choose2 n
      · obtain ⟨a, b, h1, h2, h3, -⟩ := setPairs_get base n m h
        refine ⟨⟨base + a, base + b, base, n, choose2 n, ip⟩, by simp [specDecode, h, h3], ?_, 0, by simp,
          n, by simp, by simp, rfl, rfl, by simp, by simpa using h1, by simpa using h2⟩
        rw [allPairs, List.getElem?_append_left (by rw [setPairs_length]; exact h), h3]
      · obtain ⟨d, hd1, hd2, k, hk, n', hn', h5, h6⟩ :=
          (ih (m - choose2 n) (base + n) (ip + 1)).1 (by simp at hm; omega)
        refine ⟨d, by simp [specDecode, h, hd1], ?_, k + 1, by rw [hk]; push_cast; ring, n',
          by simpa using hn', ?_, h6⟩
        · rw [allPairs, List.getElem?_append_right (by rw [setPairs_length]; omega), setPairs_length, hd2]
        · rw [h5]; push_cast [List.take_succ_cons, List.sum_cons]; ring
    · intro hm
      simp at hm
      have : ¬ m < choose2 n := by omega
      simp [specDecode, this, (ih (m - choose2 n) (base + n) (ip + 1)).2 (by omega)]

/-! ### Termination of the input -/

theorem terminated_cons {o : TriObs} {os : List TriObs} (h : Terminated os)
    (h0 : os = [] → o.last = true) : Terminated (o :: os) := by
  intro x hx
  cases os with
  | nil => simp at hx; subst hx; exact h0 rfl
  | cons a as => exact h x (by simpa [List.getLast?_cons_cons] using hx)

theorem terminated_of_setThen {obs rest : List TriObs} {n : Nat} (h : SetThen obs n rest)
    (hr : Terminated rest) : Terminated obs := by
  obtain ⟨pre, lst, rfl, -, -, hl⟩ := h
  have : Terminated (lst :: rest) := terminated_cons hr (fun _ => hl)
  intro x hx
  apply this
  simpa using hx

theorem setThen_of_count {l : List TriObs} {a b : Int} {r} (h : triSetCount l a b = some r) :
    ∃ n, SetThen l n r.1 := by
  induction l generalizing a b with
  | nil => simp [triSetCount] at h
  | cons o os ih =>
    simp only [triSetCount] at h
    split at h
    · rename_i hl
      cases h; exact ⟨0, [], o, rfl, rfl, by simp, hl⟩
    · rename_i hl
      obtain ⟨n, pre, lst, e, h1, h2, h3⟩ := ih h
      refine ⟨n + 1, o :: pre, lst, by simp [e], by simp [h1], ?_, h3⟩
      intro x hx
      rcases List.mem_cons.1 hx with rfl | hx
      · simpa using hl
      · exact h2 x hx

theorem setThen_of_len {l : List TriObs} {a : Int} {r} (h : triSetLen l a = some r) :
    ∃ n, SetThen l n r.1 := by
  induction l generalizing a with
  | nil => simp [triSetLen] at h
  | cons o os ih =>
    simp only [triSetLen] at h
    split at h
    · rename_i hl
      cases h; exact ⟨0, [], o, rfl, rfl, by simp, hl⟩
    · rename_i hl
      obtain ⟨n, pre, lst, e, h1, h2, h3⟩ := ih h
      refine ⟨n + 1, o :: pre, lst, by simp [e], by simp [h1], ?_, h3⟩
      intro x hx
      rcases List.mem_cons.1 hx with rfl | hx
      · simpa using hl
      · exact h2 x hx

theorem terminated_nil : Terminated [] := by intro x hx; simp at hx

theorem terminated_of_loop (l : List TriObs) (ip M : Int)
    (h : (triInitialLoop (-1) l ip M).isSome) : Terminated l := by
  induction hn : l.length using Nat.strong_induction_on generalizing l ip M with
  | _ k ih =>
    cases l with
    | nil => exact terminated_nil
    | cons o os =>
      rw [triInitialLoop, if_pos (by left; omega)] at h
      split at h
      · simp at h
      · rename_i r M' h0
        obtain ⟨n, hs⟩ := setThen_of_count h0
        have hlt := triSetCount_length h0
        simp only at hlt
        exact terminated_of_setThen hs (ih _ (by omega) r _ _ h rfl)

theorem terminated_of_decode (l : List TriObs) (B base M ip : Int)
    (h : ∀ m, B ≤ m → (decodeLoop m l base M ip).isSome) : Terminated l := by
  induction hn : l.length using Nat.strong_induction_on generalizing l B base M ip with
  | _ k ih =>
    cases l with
    | nil => exact terminated_nil
    | cons o os =>
      cases h0 : triSetLen (o :: os) 1 with
      | none =>
        have := h B le_rfl
        rw [decodeLoop] at this
        split at this
        · simp at this
        · rename_i h1; rw [h0] at h1; cases h1
      | some r =>
        obtain ⟨rest, N⟩ := r
        obtain ⟨n, hs⟩ := setThen_of_len h0
        have hlt := triSetLen_length h0
        simp only at hlt
        refine terminated_of_setThen hs (ih _ (by omega) rest
          (max B (M + Int.tdiv (N * (N - 1)) 2)) (base + N - 1 + 1) (M + Int.tdiv (N * (N - 1)) 2)
          (ip + 1) (fun m hm => ?_) rfl)
        have := h m (by omega)
        rw [decodeLoop] at this
        split at this
        · rename_i h1; rw [h0] at h1; cases h1
        · rename_i r' N' h1
          rw [h0] at h1
          simp only [Option.some.injEq, Prod.mk.injEq] at h1
          obtain ⟨rfl, rfl⟩ := h1
          simp only at this
          rw [if_neg (by omega)] at this
          exact this

theorem terminated_of_pairs (l : List TriObs) (base : Int) (h : (triPairs base l).isSome) :
    Terminated l := by
  induction l generalizing base with
  | nil => exact terminated_nil
  | cons o os ih =>
    simp only [triPairs] at h
    split at h
    · rename_i hl
      exact terminated_cons (ih _ h) (fun _ => hl)
    · cases hr : triPairsInner base (base + 1) os with
      | none => simp [hr] at h
      | some row =>
        cases hr2 : triPairs (base + 1) os with
        | none => simp [hr, hr2] at h
        | some rest =>
          refine terminated_cons (ih (base + 1) (by simp [hr2])) (fun he => ?_)
          subst he; simp [triPairsInner] at hr

theorem decode_isSome_of_terminated (l : List TriObs) (m base M ip : Int) (h : Terminated l) :
    (decodeLoop m l base M ip).isSome := by
  induction hn : l.length using Nat.strong_induction_on generalizing l base M ip with
  | _ k ih =>
    cases l with
    | nil => simp [decodeLoop]
    | cons o os =>
      obtain ⟨n, rest, hs, ht, hlt⟩ := setThen_exists h
      have hc : triSetLen (o :: os) 1 = some (rest, 1 + (n : Int)) := by
        obtain ⟨pre, lst, e, hlen, hpre, hl⟩ := hs
        rw [e, triSetLen_pre pre lst rest 1 hpre hl, hlen]
      rw [decodeLoop]
      split
      · rename_i h0; rw [hc] at h0; cases h0
      · rename_i r N h0
        rw [hc] at h0
        simp only [Option.some.injEq, Prod.mk.injEq] at h0
        obtain ⟨rfl, rfl⟩ := h0
        simp only
        split
        · simp
        · exact ih _ (by omega) rest _ _ _ ht rfl

/-! ### The sets, by index -/

theorem sets_block {obs ns} (h : Sets obs ns) : ∀ {k n : Nat}, ns[k]? = some n →
    1 ≤ n ∧
    (∀ t, t < n → ∃ o, obs[(ns.take k).sum + t]? = some o ∧ (o.last = true ↔ t = n - 1)) ∧
    ((ns.take k).sum = 0 ∨ ∃ o, obs[(ns.take k).sum - 1]? = some o ∧ o.last = true) ∧
    (obs.take (ns.take k).sum).countP (·.last) = k := by
  induction h with
  | nil => simp
  | @cons obs n0 rest ns hs _ ih =>
    obtain ⟨pre, lst, rfl, hlen, hpre, hl⟩ := hs
    intro k n hk
    cases k with
    | zero =>
      simp at hk; subst hk
      refine ⟨by omega, fun t ht => ?_, by simp, by simp⟩
      by_cases h1 : t = n0
      · subst h1
        refine ⟨lst, ?_, by simp [hl]⟩
        simp [← hlen]
      · have h2 : t < pre.length := by omega
        refine ⟨pre[t], ?_, ?_⟩
        · simp [List.getElem?_append_left h2]
        · have := hpre pre[t] (List.getElem_mem h2)
          simp [this]; omega
    | succ k =>
      simp only [List.getElem?_cons_succ] at hk
      obtain ⟨g1, g2, g3, g4⟩ := ih hk
      have hsum : (((n0 + 1) :: ns).take (k + 1)).sum = pre.length + (1 + (ns.take k).sum) := by
        simp [hlen]; ring
      rw [hsum]
      refine ⟨g1, fun t ht => ?_, Or.inr ?_, ?_⟩
      · obtain ⟨o, ho, hol⟩ := g2 t ht
        refine ⟨o, ?_, hol⟩
        rw [List.getElem?_append_right (by omega)]
        have : pre.length + (1 + (ns.take k).sum) + t - pre.length = (ns.take k).sum + t + 1 := by omega
        rw [this, List.getElem?_cons_succ, ho]
      · rcases g3 with g3 | ⟨o, ho, hol⟩
        · refine ⟨lst, ?_, hl⟩
          rw [g3, List.getElem?_append_right (by omega)]; simp
        · by_cases h0 : (ns.take k).sum = 0
          · refine ⟨lst, ?_, hl⟩
            rw [h0, List.getElem?_append_right (by omega)]; simp
          · refine ⟨o, ?_, hol⟩
            rw [List.getElem?_append_right (by omega)]
            have : pre.length + (1 + (ns.take k).sum) - 1 - pre.length = (ns.take k).sum - 1 + 1 := by omega
            rw [this, List.getElem?_cons_succ, ho]
      · rw [List.take_length_add_append, List.countP_append, add_comm 1, List.take_succ_cons,
          List.countP_cons, g4]
        have : pre.countP (·.last) = 0 := by
          rw [List.countP_eq_zero]; intro x hx; simp [hpre x hx]
        simp [this, hl]

/-! ### Theorems -/

/-- C08. The library never reads past the end of the array exactly when the last observation is flagged:
the counting function, the callback's pairing loop and `decode` each succeed if and only if the input is
terminated. -/
theorem tri_terminated_iff (obs : List TriObs) :
    (Terminated obs ↔ (numMeasurementsTri obs).isSome) ∧
    (Terminated obs ↔ (triPairs 0 obs).isSome) ∧
    (Terminated obs ↔ ∀ m : Int, (decodeTri m obs).isSome) := by
  refine ⟨⟨fun h => ?_, fun h => ?_⟩, ⟨fun h => ?_, fun h => terminated_of_pairs _ _ h⟩,
    ⟨fun h m => ?_, fun h => ?_⟩⟩
  · obtain ⟨ns, hns⟩ := sets_exists obs h
    simp [numMeasurementsTri, numMeasurementsTriInitial_sets hns]
  · unfold numMeasurementsTri numMeasurementsTriInitial at h
    split at h
    · rename_i h0
      have : obs = [] := by simpa using h0
      subst this; exact terminated_nil
    · exact terminated_of_loop _ _ _ h
  · obtain ⟨ns, hns⟩ := sets_exists obs h
    simp [triPairs_sets hns]
  · unfold decodeTri
    split
    · simp
    · exact decode_isSome_of_terminated _ _ _ _ _ h
  · unfold decodeTri at h
    by_cases h0 : obs.length ≤ 0
    · have : obs = [] := by simpa using h0
      subst this; exact terminated_nil
    · simp only [h0, if_false] at h
      exact terminated_of_decode obs 0 0 0 0 (fun m _ => h m)

/-- C08. The triangulated measurements are one per pair of observations of the same point, ordered
lexicographically, and the number the library reports is the number of these. -/
theorem tri_measurements_are_pairs (obs : List TriObs) (h : Terminated obs) :
    ∃ L : List (Int × Int),
      triPairs 0 obs = some L ∧
      (∀ i j : Nat, ((i : Int), (j : Int)) ∈ L ↔ SameSet obs i j) ∧
      (∀ p ∈ L, ∃ i j : Nat, p = ((i : Int), (j : Int))) ∧
      L.Pairwise LexLt ∧
      numMeasurementsTri obs = some (L.length : Int) := by
  obtain ⟨ns, hns⟩ := sets_exists obs h
  have e := triPairs_sets hns 0
  obtain ⟨hm, hp⟩ := pairs_mem e
  refine ⟨_, e, fun i j => ?_, fun p hp' => ?_, hp, ?_⟩
  · rw [hm]
    constructor
    · rintro ⟨i', j', he, hs⟩
      simp at he; obtain ⟨rfl, rfl⟩ := he; exact hs
    · intro hs; exact ⟨i, j, by simp, hs⟩
  · obtain ⟨i, j, he, -⟩ := (hm p).1 hp'
    exact ⟨i, j, by simpa using he⟩
  · unfold numMeasurementsTri
    rw [numMeasurementsTriInitial_sets hns, allPairs_length]; simp

/-- C08. Decoding measurement `m` returns exactly the `m`-th pair, with the set it belongs to, for every
`m` in range; decoding anything at or past the end reports failure. -/
theorem tri_decode_inverts (obs : List TriObs) (L : List (Int × Int)) (hL : triPairs 0 obs = some L)
    (m : Nat) :
    (m < L.length →
      ∃ d, decodeTri m obs = some (some d) ∧
        L[m]? = some (d.iobservation0, d.iobservation1) ∧
        -- the reported range of observations is exactly the set containing the pair
        (∀ i : Nat, (d.iobservationPoint0 ≤ i ∧ i < d.iobservationPoint0 + d.NobservationsThisPoint) ↔
          ((i : Int) = d.iobservation0 ∨
            (∃ i0 : Nat, (i0 : Int) = d.iobservation0 ∧ (SameSet obs i i0 ∨ SameSet obs i0 i)))) ∧
        0 ≤ d.iobservationPoint0 ∧
        2 * d.NmeasurementsThisPoint = d.NobservationsThisPoint * (d.NobservationsThisPoint - 1) ∧
        -- ipoint is the number of sets that were completed before this one
        d.ipoint = ((obs.take d.iobservationPoint0.toNat).countP (·.last) : Int)) ∧
    (L.length ≤ m → decodeTri m obs = some none) := by
  have h : Terminated obs := (tri_terminated_iff obs).2.1.2 (by simp [hL])
  obtain ⟨ns, hns⟩ := sets_exists obs h
  have e := triPairs_sets hns 0
  rw [hL] at e
  simp only [Option.some.injEq] at e
  subst e
  rw [allPairs_length, decodeTri_sets hns]
  obtain ⟨s1, s2⟩ := specDecode_spec m ns 0 0
  refine ⟨fun hm => ?_, fun hm => by rw [s2 hm]⟩
  obtain ⟨d, hd1, hd2, k, hk, n, hn, hp0, hN, hNm, h1, h2, h3⟩ := s1 hm
  obtain ⟨g1, g2, g3, g4⟩ := sets_block hns hn
  rw [zero_add] at hp0 hk
  have hp0' : d.iobservationPoint0.toNat = (ns.take k).sum := by rw [hp0]; exact Int.toNat_natCast _
  refine ⟨d, by rw [hd1], hd2, fun i => ?_, by rw [hp0]; exact Int.natCast_nonneg _, ?_, ?_⟩
  · have hN' := hN
    generalize hP : (ns.take k).sum = P at *
    obtain ⟨i0, hi0⟩ : ∃ i0 : Nat, (i0 : Int) = d.iobservation0 := ⟨d.iobservation0.toNat, by omega⟩
    rw [hp0, hN]
    -- two observations of the block are in the same set
    have same : ∀ a b : Nat, P ≤ a → a < b → b < P + n → SameSet obs a b := by
      intro a b ha hab hb
      have hlen : ∀ t, t < n → P + t < obs.length := by
        intro t ht
        obtain ⟨o, ho, -⟩ := g2 t ht
        exact (List.getElem?_eq_some_iff.1 ho).1
      refine ⟨hab, ?_, fun q hq1 hq2 => ?_⟩
      · have := hlen (b - P) (by omega); omega
      · obtain ⟨o, ho, hol⟩ := g2 (q - P) (by omega)
        refine ⟨o, by rw [← ho]; congr 1; omega, ?_⟩
        have : ¬ (q - P = n - 1) := by omega
        simpa [this] using hol
    constructor
    · rintro ⟨hi1, hi2⟩
      rcases lt_trichotomy i i0 with hlt | heq | hgt
      · right; exact ⟨i0, hi0, Or.inl (same i i0 (by omega) hlt (by omega))⟩
      · left; omega
      · right; exact ⟨i0, hi0, Or.inr (same i0 i (by omega) hgt (by omega))⟩
    · rintro (heq | ⟨i0', hi0', hs | hs⟩)
      · omega
      · have : i0' = i0 := by omega
        subst this
        refine ⟨?_, by have := hs.1; omega⟩
        by_contra hlt
        rcases g3 with g3 | ⟨o, ho, hol⟩
        · omega
        · obtain ⟨o', ho', hf⟩ := hs.2.2 (P - 1) (by omega) (by omega)
          rw [ho] at ho'; cases ho'; rw [hol] at hf; cases hf
      · have : i0' = i0 := by omega
        subst this
        refine ⟨by have := hs.1; omega, ?_⟩
        by_contra hlt
        obtain ⟨o, ho, hol⟩ := g2 (n - 1) (by omega)
        obtain ⟨o', ho', hf⟩ := hs.2.2 (P + (n - 1)) (by omega) (by omega)
        rw [ho] at ho'; cases ho'
        rw [hol.2 rfl] at hf; cases hf
  · obtain ⟨n', rfl⟩ : ∃ n', n = n' + 1 := ⟨n - 1, by omega⟩
    rw [hNm, hN, two_choose2]; push_cast; ring
  · rw [hp0', g4, hk]

/-! Non-trivial instance: three points, seen by 3, 2 and 4 cameras -/
def exTri : List TriObs :=
  [⟨false, false, 0, -1⟩, ⟨false, false, 1, 0⟩, ⟨true, false, 2, 1⟩,
   ⟨false, false, 0, -1⟩, ⟨true, true, 2, 1⟩,
   ⟨false, false, 0, -1⟩, ⟨false, false, 1, 0⟩, ⟨false, false, 2, 1⟩, ⟨true, false, 3, 2⟩]

example : Terminated exTri := by intro o ho; simp [exTri] at ho; simp [← ho]
example : triPairs 0 exTri =
    some [(0,1),(0,2),(1,2),(3,4),(5,6),(5,7),(5,8),(6,7),(6,8),(7,8)] := by decide
example : SameSet exTri 5 8 := by
  refine ⟨by omega, by decide, fun k h1 h2 => ?_⟩
  have : k = 5 ∨ k = 6 ∨ k = 7 := by omega
  rcases this with rfl | rfl | rfl <;> simp [exTri]
/-- an unterminated input: the library runs off the end of the array -/
example : ¬ Terminated (exTri.take 4) := by
  intro h; have := h ⟨false, false, 0, -1⟩ (by simp [exTri]); cases this

end Mrcal.Tri
