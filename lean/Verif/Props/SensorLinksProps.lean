import Verif.Model.SensorLinks
import Mathlib.Tactic.Linarith
import Mathlib.Tactic.Ring
import Mathlib.Tactic.NormNum
import Mathlib.Data.List.Nodup
import Mathlib.Data.List.Perm.Subperm
import Mathlib.Algebra.Ring.Int.Parity
import Mathlib.Algebra.Group.Int.Even
/-
C15: the packed connectivity matrix. C14: the sensor-link traversal finds a shortest-path tree.
-/
namespace Mrcal.Links

/-! ### C15: the packed index -/

theorem half_succ (a : Int) : (a + 2) * (a + 3) / 2 = (a + 1) * (a + 2) / 2 + (a + 2) := by
  have h1 : (a + 2) * (a + 3) = (a + 1) * (a + 2) + (a + 2) * 2 := by ring
  rw [h1, Int.add_mul_ediv_right _ _ (by norm_num)]

theorem pairwise_lt (a b N : Int) (h : a < b) : pairwiseIndex a b N = b + a * N - (a + 1) * (a + 2) / 2 := by
  unfold pairwiseIndex
  rw [if_neg (by omega)]

/-- helper: peeling off the first row -/
theorem pairwise_succ (a b N : Int) (h : a < b) :
    pairwiseIndex (a + 1) (b + 1) (N + 1) = N + pairwiseIndex a b N := by
  rw [pairwise_lt _ _ _ h, pairwise_lt _ _ _ (by omega)]
  have := half_succ a
  have h2 : (a + 1 + 1) * (a + 1 + 2) / 2 = (a + 1) * (a + 2) / 2 + (a + 2) := by
    rw [← this]; congr 1; ring
  rw [h2]; ring

theorem pairwise_zero (b N : Int) (h : 0 < b) : pairwiseIndex 0 b N = b - 1 := by
  rw [pairwise_lt _ _ _ h]; norm_num

/-- **C15**: the order of the two sensors makes no difference. -/
theorem pairwise_symm (a b N : Int) : pairwiseIndex a b N = pairwiseIndex b a N := by
  unfold pairwiseIndex
  rcases lt_trichotomy a b with h | h | h
  · rw [if_neg (by omega), if_pos (by omega)]
  · rw [h]
  · rw [if_pos (by omega), if_neg (by omega)]

/-- the number of unordered pairs -/
def npairs (N : Nat) : Nat := N * (N - 1) / 2

theorem npairs_succ (N : Nat) : npairs (N + 1) = N + npairs N := by
  unfold npairs
  cases N with
  | zero => rfl
  | succ n =>
    simp only [Nat.add_sub_cancel]
    have : (n + 1 + 1) * (n + 1) = (n + 1) * n + (n + 1) * 2 := by ring
    rw [this, Nat.add_mul_div_right _ _ (by norm_num)]
    omega

theorem pairwise_range_lt (N : Nat) : ∀ a b : Nat, a < b → b < N →
    0 ≤ pairwiseIndex a b N ∧ pairwiseIndex a b N < npairs N := by
  induction N with
  | zero => intro a b _ h; omega
  | succ N ih =>
    intro a b hab hb
    rw [npairs_succ]
    cases a with
    | zero =>
      push_cast
      rw [pairwise_zero _ _ (by omega)]
      omega
    | succ a =>
      obtain ⟨b, rfl⟩ : ∃ b', b = b' + 1 := ⟨b - 1, by omega⟩
      have := ih a b (by omega) (by omega)
      push_cast
      rw [pairwise_succ _ _ _ (by omega)]
      omega

/-- **C15**: each pair of distinct sensors lands inside the packed array of `N(N-1)/2` elements. -/
theorem pairwise_range (N a b : Nat) (ha : a < N) (hb : b < N) (hne : a ≠ b) :
    0 ≤ pairwiseIndex a b N ∧ pairwiseIndex a b N < (N * (N - 1) / 2 : Nat) := by
  rcases Nat.lt_or_gt_of_ne hne with h | h
  · exact pairwise_range_lt N a b h hb
  · rw [pairwise_symm]; exact pairwise_range_lt N b a h ha

theorem pairwise_inj_lt (N : Nat) : ∀ a b c d : Nat, a < b → b < N → c < d → d < N →
    pairwiseIndex a b N = pairwiseIndex c d N → a = c ∧ b = d := by
  induction N with
  | zero => intro a b c d _ h; omega
  | succ N ih =>
    intro a b c d hab hb hcd hd h
    push_cast at h
    cases a with
    | zero =>
      cases c with
      | zero =>
        push_cast at h
        rw [pairwise_zero _ _ (by omega), pairwise_zero _ _ (by omega)] at h
        omega
      | succ c =>
        obtain ⟨d, rfl⟩ : ∃ b', d = b' + 1 := ⟨d - 1, by omega⟩
        push_cast at h
        rw [pairwise_zero _ _ (by omega), pairwise_succ _ _ _ (by omega)] at h
        have := pairwise_range_lt N c d (by omega) (by omega)
        omega
    | succ a =>
      obtain ⟨b, rfl⟩ : ∃ b', b = b' + 1 := ⟨b - 1, by omega⟩
      cases c with
      | zero =>
        push_cast at h
        rw [pairwise_zero _ _ (by omega), pairwise_succ _ _ _ (by omega)] at h
        have := pairwise_range_lt N a b (by omega) (by omega)
        omega
      | succ c =>
        obtain ⟨d, rfl⟩ : ∃ b', d = b' + 1 := ⟨d - 1, by omega⟩
        push_cast at h
        rw [pairwise_succ _ _ _ (by omega), pairwise_succ _ _ _ (by omega)] at h
        have := ih a b c d (by omega) (by omega) (by omega) (by omega) (by omega)
        omega

/-- **C15**: different pairs use different elements. -/
theorem pairwise_injective (N a b c d : Nat) (ha : a < N) (hb : b < N) (hc : c < N) (hd : d < N)
    (hab : a ≠ b) (hcd : c ≠ d) (h : pairwiseIndex a b N = pairwiseIndex c d N) :
    (a = c ∧ b = d) ∨ (a = d ∧ b = c) := by
  rcases Nat.lt_or_gt_of_ne hab with h1 | h1 <;> rcases Nat.lt_or_gt_of_ne hcd with h2 | h2
  · exact Or.inl (pairwise_inj_lt N a b c d h1 hb h2 hd h)
  · rw [pairwise_symm c d] at h
    have := pairwise_inj_lt N a b d c h1 hb h2 hc h
    omega
  · rw [pairwise_symm a b] at h
    have := pairwise_inj_lt N b a c d h1 ha h2 hd h
    omega
  · rw [pairwise_symm a b, pairwise_symm c d] at h
    have := pairwise_inj_lt N b a d c h1 ha h2 hc h
    omega

/-- **C15**: each element of the packed array belongs to some pair. -/
theorem pairwise_surjective (N : Nat) : ∀ k : Nat, k < N * (N - 1) / 2 →
    ∃ a b : Nat, a < b ∧ b < N ∧ pairwiseIndex a b N = k := by
  change ∀ k : Nat, k < npairs N → _
  induction N with
  | zero => intro k h; simp [npairs] at h
  | succ N ih =>
    intro k h
    rw [npairs_succ] at h
    by_cases hk : k < N
    · refine ⟨0, k + 1, by omega, by omega, ?_⟩
      push_cast
      rw [pairwise_zero _ _ (by omega)]; omega
    · obtain ⟨a, b, hab, hb, e⟩ := ih (k - N) (by omega)
      refine ⟨a + 1, b + 1, by omega, by omega, ?_⟩
      push_cast
      rw [pairwise_succ _ _ _ (by omega), e]; omega

example : pairwiseIndex 1 3 4 = 4 ∧ pairwiseIndex 3 1 4 = 4 ∧ (4 : Int) < (4 * (4 - 1) / 2 : Nat) := by decide

theorem packUpper_succ (N : Nat) (M : Nat → Nat → Nat) :
    packUpper (N + 1) M = (List.range' 1 N).map (M 0) ++ packUpper N (fun i j => M (i + 1) (j + 1)) := by
  unfold packUpper
  rw [List.range_succ_eq_map, List.flatMap_cons, List.flatMap_map]
  congr 1
  apply List.flatMap_congr
  intro i _
  have h1 : List.range' (i + 1 + 1) (N + 1 - (i + 1 + 1)) = (List.range' (i + 1) (N - (i + 1))).map (1 + ·) := by
    rw [List.map_add_range']; congr 1 <;> omega
  show List.map (fun j => M (i + 1) j) (List.range' (i + 1 + 1) (N + 1 - (i + 1 + 1))) = _
  rw [h1, List.map_map]
  apply List.map_congr_left
  intro j _
  simp only [Function.comp, Nat.add_comm 1 j]

/-- **C15**: the packed array the python wrapper builds has exactly the length that's indexed … -/
theorem packUpper_length (N : Nat) (M : Nat → Nat → Nat) : (packUpper N M).length = N * (N - 1) / 2 := by
  change _ = npairs N
  induction N generalizing M with
  | zero => rfl
  | succ N ih => rw [packUpper_succ, npairs_succ]; simp [ih]

theorem packUpper_lookup_lt (N : Nat) : ∀ (M : Nat → Nat → Nat) (a b : Nat), a < b → b < N →
    lookup (packUpper N M) (pairwiseIndex a b N) = M a b := by
  induction N with
  | zero => intro M a b _ h; omega
  | succ N ih =>
    intro M a b hab hb
    rw [packUpper_succ]
    cases a with
    | zero =>
      push_cast
      rw [pairwise_zero _ _ (by omega)]
      unfold lookup
      rw [if_neg (by omega), List.getD_eq_getElem?_getD, List.getElem?_append_left (by simp; omega)]
      have : ((b : Int) - 1).toNat = b - 1 := by omega
      rw [this, List.getElem?_map, List.getElem?_range' (by omega)]
      simp only [Option.map_some, Option.getD_some]
      congr 1; omega
    | succ a =>
      obtain ⟨b, rfl⟩ : ∃ b', b = b' + 1 := ⟨b - 1, by omega⟩
      have h := ih (fun i j => M (i + 1) (j + 1)) a b (by omega) (by omega)
      have hr := pairwise_range_lt N a b (by omega) (by omega)
      push_cast
      rw [pairwise_succ _ _ _ (by omega)]
      unfold lookup at h ⊢
      rw [if_neg (by omega)] at h ⊢
      rw [List.getD_eq_getElem?_getD] at h ⊢
      rw [List.getElem?_append_right (by simp; omega)]
      have : ((N : Int) + pairwiseIndex a b N).toNat - ((List.range' 1 N).map (M 0)).length
          = (pairwiseIndex a b N).toNat := by
        simp; omega
      rw [this]; exact h

/-- The number of observations two sensors share, according to the matrix the user passed in. Only the upper
triangle matters. -/
def shared (M : Nat → Nat → Nat) (i j : Nat) : Nat := if i < j then M i j else M j i

/-- **C15**: … and reading it at the packed index gives the user's matrix element. -/
theorem packUpper_lookup (N : Nat) (M : Nat → Nat → Nat) (a b : Nat) (ha : a < N) (hb : b < N) (hne : a ≠ b) :
    lookup (packUpper N M) (pairwiseIndex a b N) = shared M a b := by
  unfold shared
  rcases Nat.lt_or_gt_of_ne hne with h | h
  · rw [if_pos h]; exact packUpper_lookup_lt N M a b h hb
  · rw [if_neg (by omega), pairwise_symm]; exact packUpper_lookup_lt N M b a h ha

example : packUpper 4 (fun i j => 10 * i + j) = [1, 2, 3, 12, 13, 23] := by decide

/-- fits in a C `int` -/
def Fits (x : Int) : Prop := -2147483648 ≤ x ∧ x ≤ 2147483647

/-- **C15**: for up to 46341 sensors nothing overflows in the index computation. `a` is the smaller one: the C
uses the two in this order. -/
theorem pairwise_fits_int (N a b : Int) (ha : 0 ≤ a) (hab : a < b) (hb : b < N) (hN : N ≤ 46341) :
    Fits (a * N) ∧ Fits (b + a * N) ∧ Fits ((a + 1) * (a + 2)) ∧ Fits (pairwiseIndex a b N) := by
  have h1 : a * N ≤ 46339 * 46341 := by
    apply mul_le_mul <;> omega
  have h2 : 0 ≤ a * N := by apply mul_nonneg <;> omega
  have h3 : (a + 1) * (a + 2) ≤ 46340 * 46341 := by
    apply mul_le_mul <;> omega
  have h4 : 0 ≤ (a + 1) * (a + 2) := by apply mul_nonneg <;> omega
  rw [pairwise_lt _ _ _ hab]
  unfold Fits
  omega

example : (0:Int) ≤ 46339 ∧ (46339:Int) < 46340 ∧ (46340:Int) < 46341 := by decide

/-- **C15**, deviation: the wrapper accepts up to 65535 sensors, but with 46342 the computation
of the index of the last pair overflows. -/
theorem pairwise_overflows : ¬ Fits (((46340 : Int) + 1) * (46340 + 2)) := by
  unfold Fits; omega

/-! ### C14: the traversal -/

/-- two different sensors that share some observations -/
def Linked (N : Nat) (M : Nat → Nat → Nat) (i j : Nat) : Prop :=
  i < N ∧ j < N ∧ i ≠ j ∧ shared M i j ≠ 0

/-- `Path N M v c`: there's a chain of linked sensors from sensor 0 to `v`, of cost `c`. Each hop costs
65536 - (number of shared observations). -/
inductive Path (N : Nat) (M : Nat → Nat → Nat) : Nat → Nat → Prop
  | root : Path N M 0 0
  | hop {u v c} : Path N M u c → Linked N M u v → Path N M v (c + (65536 - shared M u v))

/-- What a user expects of the reported links `T`, (sensor, parent) pairs in the order they were reported -/
structure ShortestTree (N : Nat) (M : Nat → Nat → Nat) (T : List (Nat × Nat)) : Prop where
  /-- no sensor is reported twice -/
  once : (T.map Prod.fst).Nodup
  /-- exactly the sensors connected to sensor 0 are reported -/
  exactly : ∀ v, v ∈ T.map Prod.fst ↔ v ≠ 0 ∧ ∃ c, Path N M v c
  /-- parents come before children -/
  parentFirst : ∀ A v p B, T = A ++ (v, p) :: B → p = 0 ∨ p ∈ A.map Prod.fst
  /-- the parent links form paths of minimal cost, reported in order of that cost -/
  minimal : ∃ d : Nat → Nat, d 0 = 0 ∧
    (∀ v p, (v, p) ∈ T → Linked N M p v ∧ d v = d p + (65536 - shared M p v)) ∧
    (∀ v c, Path N M v c → d v ≤ c) ∧
    T.Pairwise (fun a b => d a.1 ≤ d b.1)

/-- The C++ standard's "[first,last) is a heap with respect to comp" with comp = "costs more":
`!comp(first[(i-1)/2], first[i])` -/
def IsHeap (cost : Nat → Nat) (l : List Nat) : Prop :=
  ∀ (i : Nat) (h : i < l.length), 0 < i → cost (l[(i - 1) / 2]'(by omega)) ≤ cost l[i]

/-- What the C++ standard promises about its heap functions. Nothing is promised if the preconditions
aren't met. -/
structure Standard (L : HeapLib) : Prop where
  push : ∀ cost l x, IsHeap cost l →
    IsHeap cost (L.pushHeap cost (l ++ [x])) ∧ (L.pushHeap cost (l ++ [x])).Perm (l ++ [x])
  pop : ∀ cost x l, IsHeap cost (x :: l) →
    ∃ l', L.popHeap cost (x :: l) = l' ++ [x] ∧ IsHeap cost l' ∧ l'.Perm l
  make : ∀ cost l, IsHeap cost (L.makeHeap cost l) ∧ (L.makeHeap cost l).Perm l

theorem heap_top (cost : Nat → Nat) (x : Nat) (l : List Nat) (h : IsHeap cost (x :: l)) :
    ∀ y ∈ x :: l, cost x ≤ cost y := by
  have key : ∀ (n : Nat) (hn : n < (x :: l).length), cost x ≤ cost ((x :: l)[n]) := by
    intro n
    induction n using Nat.strong_induction_on with
    | _ n ih =>
      intro hn
      rcases Nat.eq_zero_or_pos n with h0 | h0
      · subst h0; exact Nat.le_refl _
      · exact Nat.le_trans (ih ((n - 1) / 2) (by omega) (by omega)) (h n hn h0)
  intro y hy
  obtain ⟨n, hn, rfl⟩ := List.mem_iff_getElem.mp hy
  exact key n hn

theorem isHeap_congr (c c' : Nat → Nat) (l : List Nat) (h : ∀ v ∈ l, c v = c' v) (hh : IsHeap c l) : IsHeap c' l := by
  intro i hi h0
  rw [← h _ (List.getElem_mem _), ← h _ (List.getElem_mem _)]
  exact hh i hi h0

/-- The loop invariant. `w` is the number of shared observations; `P u v` says that the link from the finished
sensor `u` to `v` has been looked at. `k` sensors are finished. -/
structure Inv (N : Nat) (w : Nat → Nat → Nat) (P : Nat → Nat → Prop) (k : Nat) (s : St) : Prop where
  rootDone : (s.nodes 0).done = true
  rootCost : s.cost 0 = 0
  isHeap : IsHeap s.cost s.heap
  nodup : s.heap.Nodup
  mem : ∀ v, v ∈ s.heap ↔ (s.nodes v).done = false ∧ s.cost v ≠ 0
  seen : ∀ v, s.cost v ≠ 0 → v < N ∧ (s.nodes v).idxParent < N ∧ (s.nodes v).idxParent ≠ v ∧
    (s.nodes (s.nodes v).idxParent).done = true ∧ w (s.nodes v).idxParent v ≠ 0 ∧
    s.cost v = s.cost (s.nodes v).idxParent + (65536 - w (s.nodes v).idxParent v)
  doneSeen : ∀ v, (s.nodes v).done = true → v = 0 ∨ s.cost v ≠ 0
  edge : ∀ u v, P u v → v < N → u ≠ v → w u v ≠ 0 →
    (v = 0 ∨ s.cost v ≠ 0) ∧ s.cost v ≤ s.cost u + (65536 - w u v)
  mono : ∀ u v, (s.nodes u).done = true → (s.nodes v).done = false → s.cost v ≠ 0 → s.cost u ≤ s.cost v
  bound : ∀ v, s.cost v ≤ 65536 * k

/-- what `visitNeighbor` leaves alone -/
structure Frame (s s' : St) : Prop where
  done : ∀ v, (s'.nodes v).done = (s.nodes v).done
  kept : ∀ v, (s.nodes v).done = true → s'.nodes v = s.nodes v

theorem Frame.refl (s : St) : Frame s s := ⟨fun _ => rfl, fun _ _ => rfl⟩
theorem Frame.trans {a b c : St} (h : Frame a b) (g : Frame b c) : Frame a c :=
  ⟨fun v => (g.done v).trans (h.done v),
   fun v hv => (g.kept v (by rw [h.done]; exact hv)).trans (h.kept v hv)⟩

theorem cost_of_nodes {s s' : St} {v : Nat} (h : s'.nodes v = s.nodes v) : s'.cost v = s.cost v := by
  simp [St.cost, h]

/-- Updating one unfinished sensor preserves everything, if its new cost comes from the sensor being visited. -/
theorem inv_update (N : Nat) (w : Nat → Nat → Nat) (P : Nat → Nat → Prop) (k idx nb : Nat) (s s' : St)
    (hI : Inv N w P k s) (hP : ∀ u v, P u v → (s.nodes u).done = true)
    (hidx : idx < N) (hidone : (s.nodes idx).done = true)
    (hmax : ∀ u, (s.nodes u).done = true → s.cost u ≤ s.cost idx)
    (hcb : s.cost idx + 65536 ≤ 65536 * k)
    (hnb : nb < N) (hne : idx ≠ nb) (hw : w idx nb ≠ 0) (hw16 : w idx nb < 65536)
    (hnd : (s.nodes nb).done = false)
    (hless : s.cost nb ≠ 0 → s.cost idx + (65536 - w idx nb) < s.cost nb)
    (hn : s'.nodes = setNode s.nodes nb ⟨idx, false, s.cost idx + (65536 - w idx nb)⟩)
    (hheap : IsHeap s'.cost s'.heap) (hnodup : s'.heap.Nodup)
    (hmem : ∀ v, v ∈ s'.heap ↔ v ∈ s.heap ∨ v = nb) :
    Inv N w (fun u v => P u v ∨ (u = idx ∧ v = nb)) k s' ∧ Frame s s' := by
  have hother : ∀ v, v ≠ nb → s'.nodes v = s.nodes v := by
    intro v hv; rw [hn]; simp [setNode, hv]
  have hself : s'.nodes nb = ⟨idx, false, s.cost idx + (65536 - w idx nb)⟩ := by
    rw [hn]; simp [setNode]
  have hcself : s'.cost nb = s.cost idx + (65536 - w idx nb) := by simp [St.cost, hself]
  have hcother : ∀ v, v ≠ nb → s'.cost v = s.cost v := fun v hv => cost_of_nodes (hother v hv)
  have hdone : ∀ v, (s'.nodes v).done = (s.nodes v).done := by
    intro v
    by_cases hv : v = nb
    · subst hv; rw [hself, hnd]
    · rw [hother v hv]
  have hkept : ∀ v, (s.nodes v).done = true → s'.nodes v = s.nodes v := by
    intro v hv
    apply hother
    rintro rfl
    rw [hnd] at hv; cases hv
  have hnb0 : nb ≠ 0 := by
    rintro rfl
    rw [hI.rootDone] at hnd; cases hnd
  have hle : ∀ v, s.cost v ≠ 0 → s'.cost v ≤ s.cost v := by
    intro v hv
    by_cases h : v = nb
    · subst h; rw [hcself]; exact Nat.le_of_lt (hless hv)
    · rw [hcother v h]
  refine ⟨?_, hdone, hkept⟩
  have hidxk : s'.cost idx = s.cost idx := hcother idx hne
  constructor
  · rw [hdone]; exact hI.rootDone
  · rw [hcother 0 (Ne.symm hnb0)]; exact hI.rootCost
  · exact hheap
  · exact hnodup
  · intro v
    rw [hmem, hI.mem, hdone]
    by_cases hv : v = nb
    · subst hv
      rw [hcself]
      simp only [hnd, or_true, true_iff, true_and]
      omega
    · rw [hcother v hv]; simp [hv]
  · intro v hv
    by_cases h : v = nb
    · subst h
      rw [hself]
      simp only
      refine ⟨hnb, hidx, hne, by rw [hdone]; exact hidone, hw, ?_⟩
      rw [hcself, hidxk]
    · rw [hcother v h] at hv
      obtain ⟨a1, a2, a3, a4, a5, a6⟩ := hI.seen v hv
      rw [hother v h, hcother v h]
      refine ⟨a1, a2, a3, by rw [hdone]; exact a4, a5, ?_⟩
      rw [cost_of_nodes (hkept _ a4)]
      exact a6
  · intro v hv
    rw [hdone] at hv
    rw [cost_of_nodes (hkept v hv)]
    exact hI.doneSeen v hv
  · intro u v hPuv hv huv hwuv
    rcases hPuv with hPuv | ⟨rfl, rfl⟩
    · have hud := hP u v hPuv
      obtain ⟨b1, b2⟩ := hI.edge u v hPuv hv huv hwuv
      rw [cost_of_nodes (hkept u hud)]
      by_cases h : v = nb
      · subst h
        rcases b1 with b1 | b1
        · exact absurd b1 hnb0
        · exact ⟨Or.inr (by rw [hcself]; omega), Nat.le_trans (hle v b1) b2⟩
      · rw [hcother v h]; exact ⟨b1, b2⟩
    · rw [hcself, hidxk]
      exact ⟨Or.inr (by omega), Nat.le_refl _⟩
  · intro u v hu hv hc
    rw [hdone] at hu hv
    rw [cost_of_nodes (hkept u hu)]
    by_cases h : v = nb
    · subst h
      rw [hcself]
      have := hmax u hu
      omega
    · rw [hcother v h] at hc ⊢
      exact hI.mono u v hu hv hc
  · intro v
    by_cases h : v = nb
    · subst h; rw [hcself]; omega
    · rw [hcother v h]; exact hI.bound v

/-- Looking at one neighbor -/
theorem visitNeighbor_inv (L : HeapLib) (hL : Standard L) (N : Nat) (m : List Nat) (P : Nat → Nat → Prop)
    (k idx nb : Nat) (s : St) (w : Nat → Nat → Nat)
    (hw : ∀ u v, u ≠ v → u < N → v < N → lookup m (pairwiseIndex u v N) = w u v)
    (hwsymm : ∀ u v, w u v = w v u) (hw16 : ∀ u v, w u v < 65536) (hN : N < 65536) (hk : k ≤ N)
    (hI : Inv N w P k s) (hP : ∀ u v, P u v → (s.nodes u).done = true)
    (hidx : idx < N) (hidone : (s.nodes idx).done = true)
    (hmax : ∀ u, (s.nodes u).done = true → s.cost u ≤ s.cost idx)
    (hcb : s.cost idx + 65536 ≤ 65536 * k) (hnb : nb < N) :
    Inv N w (fun u v => P u v ∨ (u = idx ∧ v = nb)) k (visitNeighbor L N m idx s nb) ∧
    Frame s (visitNeighbor L N m idx s nb) := by
  unfold visitNeighbor
  -- nothing happens: only the new link needs to be shown good
  have same : (idx ≠ nb → w idx nb ≠ 0 → (nb = 0 ∨ s.cost nb ≠ 0) ∧ s.cost nb ≤ s.cost idx + (65536 - w idx nb)) →
      Inv N w (fun u v => P u v ∨ (u = idx ∧ v = nb)) k s ∧ Frame s s := by
    intro h
    refine ⟨{ hI with edge := ?_ }, Frame.refl s⟩
    intro u v hPuv hv huv hwuv
    rcases hPuv with hPuv | ⟨rfl, rfl⟩
    · exact hI.edge u v hPuv hv huv hwuv
    · exact h huv hwuv
  by_cases h1 : nb = idx
  · rw [if_pos h1]
    exact same (fun h => absurd h1.symm h)
  rw [if_neg h1]
  rw [hw nb idx h1 hnb hidx, hwsymm nb idx]
  by_cases h2 : w idx nb = 0
  · rw [if_pos h2]
    exact same (fun _ h => absurd h2 h)
  rw [if_neg h2]
  by_cases h3 : (s.nodes nb).done = true
  · rw [if_pos h3]
    refine same (fun _ _ => ⟨hI.doneSeen nb h3, ?_⟩)
    have := hmax nb h3
    omega
  rw [if_neg h3]
  have hnd : (s.nodes nb).done = false := by simpa using h3
  have hce : costEdge m N nb idx = 65536 - w idx nb := by
    unfold costEdge
    rw [hw nb idx h1 hnb hidx, hwsymm nb idx]
  have hvia : (s.nodes idx).cost + costEdge m N nb idx = s.cost idx + (65536 - w idx nb) := by rw [hce]; rfl
  have hmod : (s.cost idx + (65536 - w idx nb)) % 2 ^ 47 = s.cost idx + (65536 - w idx nb) := by
    apply Nat.mod_eq_of_lt
    have := hw16 idx nb
    omega
  have hmod2 : idx % 2 ^ 16 = idx := Nat.mod_eq_of_lt (by omega)
  simp only [hvia, hmod, hmod2, hnd]
  set upd : St := { s with nodes := setNode s.nodes nb ⟨idx, false, s.cost idx + (65536 - w idx nb)⟩ } with hupd
  have hcost : ∀ v, v ≠ nb → upd.cost v = s.cost v := by
    intro v hv; simp [St.cost, hupd, setNode, hv]
  by_cases h4 : s.cost nb = 0
  · have h4' : (s.nodes nb).cost = 0 := h4
    rw [if_pos h4']
    have hnotin : nb ∉ s.heap := by
      rw [hI.mem]; intro h; exact h.2 h4
    have hh : IsHeap upd.cost s.heap :=
      isHeap_congr s.cost upd.cost s.heap
        (fun v hv => (hcost v (by rintro rfl; exact hnotin hv)).symm) hI.isHeap
    obtain ⟨g1, g2⟩ := hL.push upd.cost s.heap nb hh
    apply inv_update N w P k idx nb s (heapPush L upd nb) hI hP hidx hidone hmax hcb hnb (Ne.symm h1) h2
      (hw16 _ _) hnd (fun h => absurd h4 h) rfl g1
    · show (L.pushHeap upd.cost (upd.heap ++ [nb])).Nodup
      rw [g2.nodup_iff]
      rw [List.nodup_append]
      refine ⟨hI.nodup, by simp, ?_⟩
      intro a ha b hb
      rw [List.mem_singleton] at hb
      subst hb
      rintro rfl
      exact hnotin ha
    · intro v
      show v ∈ L.pushHeap upd.cost (upd.heap ++ [nb]) ↔ _
      rw [g2.mem_iff]
      simp [hupd]
  · have h4' : ¬ (s.nodes nb).cost = 0 := h4
    rw [if_neg h4']
    by_cases h5 : s.cost idx + (65536 - w idx nb) < s.cost nb
    · have h5' : s.cost idx + (65536 - w idx nb) < (s.nodes nb).cost := h5
      rw [if_pos h5']
      have hin : nb ∈ s.heap := (hI.mem nb).mpr ⟨hnd, h4⟩
      obtain ⟨g1, g2⟩ := hL.make upd.cost s.heap
      apply inv_update N w P k idx nb s (heapResort L upd) hI hP hidx hidone hmax hcb hnb (Ne.symm h1) h2
        (hw16 _ _) hnd (fun _ => h5) rfl g1
      · show (L.makeHeap upd.cost s.heap).Nodup
        rw [g2.nodup_iff]; exact hI.nodup
      · intro v
        show v ∈ L.makeHeap upd.cost s.heap ↔ _
        rw [g2.mem_iff]
        constructor
        · exact Or.inl
        · rintro (h | rfl)
          · exact h
          · exact hin
    · have h5' : ¬ s.cost idx + (65536 - w idx nb) < (s.nodes nb).cost := h5
      rw [if_neg h5']
      exact same (fun _ _ => ⟨Or.inr h4, by omega⟩)

/-- The whole neighbor loop -/
theorem visitLoop_inv (L : HeapLib) (hL : Standard L) (N : Nat) (m : List Nat) (P : Nat → Nat → Prop)
    (k idx : Nat) (w : Nat → Nat → Nat)
    (hw : ∀ u v, u ≠ v → u < N → v < N → lookup m (pairwiseIndex u v N) = w u v)
    (hwsymm : ∀ u v, w u v = w v u) (hw16 : ∀ u v, w u v < 65536) (hN : N < 65536) (hk : k ≤ N)
    (hidx : idx < N) (s : St)
    (hI : Inv N w P k s) (hP : ∀ u v, P u v → (s.nodes u).done = true)
    (hidone : (s.nodes idx).done = true)
    (hmax : ∀ u, (s.nodes u).done = true → s.cost u ≤ s.cost idx)
    (hcb : s.cost idx + 65536 ≤ 65536 * k) (n : Nat) (hn : n ≤ N) :
    Inv N w (fun u v => P u v ∨ (u = idx ∧ v < n)) k ((List.range n).foldl (visitNeighbor L N m idx) s) ∧
    Frame s ((List.range n).foldl (visitNeighbor L N m idx) s) := by
  induction n with
  | zero =>
    refine ⟨?_, Frame.refl s⟩
    refine { hI with edge := ?_ }
    intro u v h
    rcases h with h | h
    · exact hI.edge u v h
    · omega
  | succ n ih =>
    obtain ⟨i1, f1⟩ := ih (by omega)
    rw [List.range_succ, List.foldl_append, List.foldl_cons, List.foldl_nil]
    set s1 := (List.range n).foldl (visitNeighbor L N m idx) s
    have hk1 : s1.nodes idx = s.nodes idx := f1.kept idx hidone
    have hc1 : s1.cost idx = s.cost idx := cost_of_nodes hk1
    obtain ⟨i2, f2⟩ := visitNeighbor_inv L hL N m (fun u v => P u v ∨ (u = idx ∧ v < n)) k idx n s1 w hw hwsymm hw16 hN hk i1
      (by
        rintro u v (h | ⟨rfl, _⟩)
        · rw [f1.done]; exact hP u v h
        · rw [f1.done]; exact hidone)
      hidx (by rw [f1.done]; exact hidone)
      (by
        intro u hu
        rw [f1.done] at hu
        rw [hc1, cost_of_nodes (f1.kept u hu)]
        exact hmax u hu)
      (by rw [hc1]; exact hcb) (by omega)
    refine ⟨?_, f1.trans f2⟩
    refine { i2 with edge := ?_ }
    intro u v h
    apply i2.edge
    rcases h with h | ⟨h1, h2⟩
    · exact Or.inl (Or.inl h)
    · by_cases h3 : v = n
      · exact Or.inr ⟨h1, h3⟩
      · exact Or.inl (Or.inr ⟨h1, by omega⟩)

/-- invariant at the head of the main loop: `T` are the links reported so far -/
structure Main (N : Nat) (w : Nat → Nat → Nat) (s : St) (T : List (Nat × Nat)) : Prop where
  inv : Inv N w (fun u _ => (s.nodes u).done = true) (T.length + 1) s
  once : (T.map Prod.fst).Nodup
  mem : ∀ v, v ∈ T.map Prod.fst ↔ (s.nodes v).done = true ∧ v ≠ 0
  par : ∀ v p, (v, p) ∈ T → (s.nodes v).idxParent = p
  first : ∀ A v p B, T = A ++ (v, p) :: B → p = 0 ∨ p ∈ A.map Prod.fst
  order : T.Pairwise (fun a b => s.cost a.1 ≤ s.cost b.1)

theorem visit_def (L : HeapLib) (N : Nat) (m : List Nat) (idx : Nat) (s : St) :
    visit L N m idx s = (List.range N).foldl (visitNeighbor L N m idx)
      { s with nodes := setNode s.nodes idx ⟨(s.nodes idx).idxParent, true, (s.nodes idx).cost⟩ } := rfl

theorem main_init (L : HeapLib) (hL : Standard L) (N : Nat) (m : List Nat) (w : Nat → Nat → Nat)
    (hw : ∀ u v, u ≠ v → u < N → v < N → lookup m (pairwiseIndex u v N) = w u v)
    (hwsymm : ∀ u v, w u v = w v u) (hw16 : ∀ u v, w u v < 65536) (hN : N < 65536) (h0 : 0 < N) :
    Main N w (visit L N m 0 ⟨fun _ => ⟨0, false, 0⟩, []⟩) [] := by
  rw [visit_def]
  set s0 : St := { nodes := setNode (fun _ => ⟨0, false, 0⟩) 0 ⟨0, true, 0⟩, heap := [] } with hs0
  have hd : ∀ v, (s0.nodes v).done = true → v = 0 := by
    intro v h
    by_contra hv
    simp [hs0, setNode, hv] at h
  have hc : ∀ v, s0.cost v = 0 := by
    intro v
    simp only [St.cost, hs0, setNode]
    split <;> rfl
  have i0 : Inv N w (fun _ _ => False) 1 s0 := by
    constructor
    · simp [hs0, setNode]
    · exact hc 0
    · intro i hi; simp [hs0] at hi
    · simp [hs0]
    · intro v
      have : v ∉ s0.heap := by simp [hs0]
      simp [this, hc v]
    · intro v h; exact absurd (hc v) h
    · intro v h; exact Or.inl (hd v h)
    · intro u v h; exact h.elim
    · intro u v _ _ h; exact absurd (hc v) h
    · intro v; rw [hc]; omega
  obtain ⟨i1, f1⟩ := visitLoop_inv L hL N m (fun _ _ => False) 1 0 w hw hwsymm hw16 hN (by omega) h0 s0 i0
    (fun _ _ h => h.elim) (by simp [hs0, setNode]) (fun u _ => by rw [hc, hc]) (by rw [hc]) N (Nat.le_refl _)
  constructor
  · refine { i1 with edge := ?_ }
    intro u v hu hv
    rw [f1.done] at hu
    exact i1.edge u v (Or.inr ⟨hd u hu, hv⟩) hv
  · simp
  · intro v
    rw [f1.done]
    simp only [List.map_nil, List.not_mem_nil, false_iff]
    intro h
    exact h.2 (hd v h.1)
  · intro v p h; simp at h
  · intro A v p B h; simp at h
  · simp

theorem nodup_bound (l : List Nat) (N : Nat) (hn : l.Nodup) (h : ∀ v ∈ l, v < N ∧ v ≠ 0) (h0 : 0 < N) :
    l.length + 1 ≤ N := by
  have h2 : (0 :: l).Nodup := List.nodup_cons.mpr ⟨fun h' => (h 0 h').2 rfl, hn⟩
  have h3 : (0 :: l) ⊆ List.range N := by
    intro v hv
    rcases List.mem_cons.mp hv with rfl | hv
    · exact List.mem_range.mpr h0
    · exact List.mem_range.mpr (h v hv).1
  have := (List.Nodup.subperm h2 h3).length_le
  simpa using this

theorem main_length {N : Nat} {w : Nat → Nat → Nat} {s : St} {T : List (Nat × Nat)} (h : Main N w s T) (h0 : 0 < N) :
    T.length + 1 ≤ N := by
  have := nodup_bound (T.map Prod.fst) N h.once (fun v hv => by
    have hd := (h.mem v).mp hv
    rcases h.inv.doneSeen v hd.1 with h' | h'
    · exact absurd h' hd.2
    · exact ⟨(h.inv.seen v h').1, hd.2⟩) h0
  simpa using this

/-- popping the best sensor and visiting it -/
theorem main_step (L : HeapLib) (hL : Standard L) (N : Nat) (m : List Nat) (w : Nat → Nat → Nat)
    (hw : ∀ u v, u ≠ v → u < N → v < N → lookup m (pairwiseIndex u v N) = w u v)
    (hwsymm : ∀ u v, w u v = w v u) (hw16 : ∀ u v, w u v < 65536) (hN : N < 65536) (h0 : 0 < N)
    (s : St) (T : List (Nat × Nat)) (hM : Main N w s T) (top : Nat) (s' : St)
    (hpop : heapPop L s = some (top, s')) :
    s'.nodes = s.nodes ∧ Main N w (visit L N m top s') (T ++ [(top, (s'.nodes top).idxParent)]) := by
  unfold heapPop at hpop
  cases hheap : s.heap with
  | nil => rw [hheap] at hpop; simp at hpop
  | cons x l =>
    rw [hheap] at hpop
    simp only [Option.some.injEq, Prod.mk.injEq] at hpop
    obtain ⟨rfl, rfl⟩ := hpop
    have hI := hM.inv
    have hh : IsHeap s.cost (x :: l) := by have := hI.isHeap; rwa [hheap] at this
    obtain ⟨l', e1, e2, e3⟩ := hL.pop s.cost x l hh
    refine ⟨rfl, ?_⟩
    have hnod : (x :: l).Nodup := by have := hI.nodup; rwa [hheap] at this
    have hxmem : x ∈ s.heap := by rw [hheap]; exact List.mem_cons_self
    obtain ⟨hxnd, hxc⟩ := (hI.mem x).mp hxmem
    have hx0 : x ≠ 0 := by rintro rfl; exact hxc hI.rootCost
    obtain ⟨hxN, hpN, hpne, hpd, hpw, hpc⟩ := hI.seen x hxc
    have hTlen := main_length hM h0
    have hxT : x ∉ T.map Prod.fst := by
      rw [hM.mem, hxnd]; simp
    have hTlen2 : (T.map Prod.fst ++ [x]).length + 1 ≤ N := by
      apply nodup_bound
      · rw [List.nodup_append]
        refine ⟨hM.once, by simp, ?_⟩
        intro a ha b hb
        rw [List.mem_singleton] at hb
        subst hb
        rintro rfl
        exact hxT ha
      · intro v hv
        rcases List.mem_append.mp hv with hv | hv
        · have hd := (hM.mem v).mp hv
          rcases hI.doneSeen v hd.1 with h' | h'
          · exact absurd h' hd.2
          · exact ⟨(hI.seen v h').1, hd.2⟩
        · rw [List.mem_singleton] at hv; subst hv; exact ⟨hxN, hx0⟩
      · exact h0
    simp only [List.length_append, List.length_map, List.length_cons, List.length_nil] at hTlen2
    rw [visit_def]
    have hdl : (L.popHeap s.cost (x :: l)).dropLast = l' := by rw [e1, List.dropLast_concat]
    simp only [hdl]
    set s1 : St := { nodes := setNode s.nodes x ⟨(s.nodes x).idxParent, true, (s.nodes x).cost⟩, heap := l' } with hs1
    have hc1 : ∀ v, s1.cost v = s.cost v := by
      intro v
      simp only [St.cost, hs1, setNode]
      split
      · rename_i h; rw [h]
      · rfl
    have hc1' : s1.cost = s.cost := funext hc1
    have hp1 : ∀ v, (s1.nodes v).idxParent = (s.nodes v).idxParent := by
      intro v
      simp only [hs1, setNode]
      split
      · rename_i h; rw [h]
      · rfl
    have hd1 : ∀ v, (s1.nodes v).done = true ↔ ((s.nodes v).done = true ∨ v = x) := by
      intro v
      simp only [hs1, setNode]
      split
      · rename_i h; simp [h]
      · rename_i h; simp [h]
    have hmin : ∀ v, (s.nodes v).done = false → s.cost v ≠ 0 → s.cost x ≤ s.cost v := by
      intro v hv hc
      have : v ∈ s.heap := (hI.mem v).mpr ⟨hv, hc⟩
      rw [hheap] at this
      exact heap_top s.cost x l hh v this
    have i1 : Inv N w (fun u _ => (s.nodes u).done = true) (T.length + 2) s1 := by
      constructor
      · rw [hd1]; exact Or.inl hI.rootDone
      · rw [hc1]; exact hI.rootCost
      · rw [hc1']; exact e2
      · show l'.Nodup
        rw [e3.nodup_iff]; exact (List.nodup_cons.mp hnod).2
      · intro v
        show v ∈ l' ↔ _
        rw [e3.mem_iff, hc1]
        have hv := hI.mem v
        rw [hheap, List.mem_cons] at hv
        have hnd1 : (s1.nodes v).done = false ↔ ((s.nodes v).done = false ∧ v ≠ x) := by
          have := hd1 v
          rw [← Bool.not_eq_true, this, ← Bool.not_eq_true]
          exact not_or
        rw [hnd1]
        constructor
        · intro h
          have := hv.mp (Or.inr h)
          refine ⟨⟨this.1, ?_⟩, this.2⟩
          rintro rfl
          exact (List.nodup_cons.mp hnod).1 h
        · rintro ⟨⟨a, b⟩, c⟩
          rcases hv.mpr ⟨a, c⟩ with h | h
          · exact absurd h b
          · exact h
      · intro v hv
        rw [hc1] at hv
        obtain ⟨a1, a2, a3, a4, a5, a6⟩ := hI.seen v hv
        rw [hp1, hc1, hc1]
        exact ⟨a1, a2, a3, (hd1 _).mpr (Or.inl a4), a5, a6⟩
      · intro v hv
        rw [hc1]
        rcases (hd1 v).mp hv with h | h
        · exact hI.doneSeen v h
        · subst h; exact Or.inr hxc
      · intro u v hu hv huv hwuv
        rw [hc1, hc1]
        exact hI.edge u v hu hv huv hwuv
      · intro u v hu hv hc
        rw [hc1] at hc ⊢
        rw [hc1]
        have hvd : (s.nodes v).done = false := by
          cases hB : (s.nodes v).done
          · rfl
          · rw [(hd1 v).mpr (Or.inl hB)] at hv; cases hv
        rcases (hd1 u).mp hu with h | h
        · exact hI.mono u v h hvd hc
        · subst h; exact hmin v hvd hc
      · intro v
        rw [hc1]
        have := hI.bound v
        omega
    obtain ⟨i2, f2⟩ := visitLoop_inv L hL N m (fun u _ => (s.nodes u).done = true) (T.length + 2) x w hw hwsymm hw16
      hN (by omega) hxN s1 i1 (fun u _ h => (hd1 u).mpr (Or.inl h)) ((hd1 x).mpr (Or.inr rfl))
      (by
        intro u hu
        rw [hc1, hc1]
        rcases (hd1 u).mp hu with h | h
        · exact hI.mono u x h hxnd hxc
        · subst h; exact Nat.le_refl _)
      (by
        rw [hc1]
        have := hI.bound x
        omega) N (Nat.le_refl _)
    set s2 := (List.range N).foldl (visitNeighbor L N m x) s1
    have hkc : ∀ u, (s.nodes u).done = true ∨ u = x → s2.cost u = s.cost u := by
      intro u hu
      rw [cost_of_nodes (f2.kept u ((hd1 u).mpr hu)), hc1]
    have hTdone : ∀ a ∈ T, (s.nodes a.1).done = true := by
      intro a ha
      exact ((hM.mem a.1).mp (List.mem_map_of_mem ha)).1
    constructor
    · rw [List.length_append]
      refine { i2 with edge := ?_ }
      intro u v hu hv huv hwuv
      rw [f2.done, hd1] at hu
      apply i2.edge u v _ hv huv hwuv
      rcases hu with h | h
      · exact Or.inl h
      · exact Or.inr ⟨h, hv⟩
    · rw [List.map_append, List.nodup_append]
      refine ⟨hM.once, by simp, ?_⟩
      intro a ha b hb
      simp only [List.map_cons, List.map_nil, List.mem_singleton] at hb
      subst hb
      rintro rfl
      exact hxT ha
    · intro v
      rw [f2.done, hd1, List.map_append, List.mem_append, hM.mem]
      simp only [List.map_cons, List.map_nil, List.mem_singleton]
      constructor
      · rintro (⟨a, b⟩ | rfl)
        · exact ⟨Or.inl a, b⟩
        · exact ⟨Or.inr rfl, hx0⟩
      · rintro ⟨a | a, b⟩
        · exact Or.inl ⟨a, b⟩
        · exact Or.inr a
    · intro v p hvp
      rcases List.mem_append.mp hvp with h | h
      · rw [f2.kept v ((hd1 v).mpr (Or.inl (hTdone _ h))), hp1]
        exact hM.par v p h
      · simp only [List.mem_singleton, Prod.mk.injEq] at h
        obtain ⟨rfl, rfl⟩ := h
        rw [f2.kept v ((hd1 v).mpr (Or.inr rfl)), hp1]
    · intro A v p B hT
      rcases List.eq_nil_or_concat B with rfl | ⟨B', b, rfl⟩
      · have := List.append_inj' hT (by simp)
        obtain ⟨rfl, h2⟩ := this
        simp only [List.cons.injEq, Prod.mk.injEq, and_true] at h2
        obtain ⟨rfl, rfl⟩ := h2
        by_cases hp0 : (s.nodes x).idxParent = 0
        · exact Or.inl hp0
        · exact Or.inr ((hM.mem _).mpr ⟨hpd, hp0⟩)
      · have h' : T ++ [(x, (s.nodes x).idxParent)] = (A ++ (v, p) :: B') ++ [b] := by
          rw [hT]; simp
        have := List.append_inj' h' (by simp)
        exact hM.first A v p B' this.1
    · rw [List.pairwise_append]
      refine ⟨?_, by simp, ?_⟩
      · apply hM.order.imp_of_mem
        intro a b ha hb hab
        rw [hkc _ (Or.inl (hTdone a ha)), hkc _ (Or.inl (hTdone b hb))]
        exact hab
      · intro a ha b hb
        rw [List.mem_singleton] at hb
        subst hb
        rw [hkc _ (Or.inl (hTdone a ha)), hkc _ (Or.inr rfl)]
        exact hI.mono _ _ (hTdone a ha) hxnd hxc

/-- when the heap is empty everything is as the user expects -/
theorem main_final (N : Nat) (M : Nat → Nat → Nat) (s : St) (T : List (Nat × Nat))
    (hM : Main N (shared M) s T) (hempty : s.heap = []) (hw16 : ∀ u v, shared M u v < 65536) : ShortestTree N M T := by
  have hI := hM.inv
  have seenDone : ∀ v, (v = 0 ∨ s.cost v ≠ 0) → (s.nodes v).done = true := by
    intro v hv
    rcases hv with rfl | hv
    · exact hI.rootDone
    · cases h : (s.nodes v).done
      · have := (hI.mem v).mpr ⟨h, hv⟩
        rw [hempty] at this; simp at this
      · rfl
  have opt : ∀ v c, Path N M v c → (s.nodes v).done = true ∧ s.cost v ≤ c := by
    intro v c hp
    induction hp with
    | root => exact ⟨hI.rootDone, by rw [hI.rootCost]⟩
    | hop _ hl ih =>
      obtain ⟨l1, l2, l3, l4⟩ := hl
      obtain ⟨e1, e2⟩ := hI.edge _ _ ih.1 l2 l3 l4
      exact ⟨seenDone _ e1, by omega⟩
  have link : ∀ v, s.cost v ≠ 0 → Linked N M (s.nodes v).idxParent v := by
    intro v hv
    obtain ⟨a1, a2, a3, a4, a5, a6⟩ := hI.seen v hv
    exact ⟨a2, a1, a3, a5⟩
  have hasPath : ∀ n v, s.cost v = n → (s.nodes v).done = true → Path N M v n := by
    intro n
    induction n using Nat.strong_induction_on with
    | _ n ih =>
      intro v hc hd
      rcases hI.doneSeen v hd with rfl | hne
      · rw [hI.rootCost] at hc; subst hc; exact Path.root
      · obtain ⟨a1, a2, a3, a4, a5, a6⟩ := hI.seen v hne
        have hlink := link v hne
        have hz := hw16 (s.nodes v).idxParent v
        have := Path.hop (ih (s.cost (s.nodes v).idxParent) (by omega) _ rfl a4) hlink
        rw [← a6, hc] at this
        exact this
  constructor
  · exact hM.once
  · intro v
    rw [hM.mem]
    constructor
    · rintro ⟨a, b⟩
      exact ⟨b, _, hasPath _ v rfl a⟩
    · rintro ⟨a, c, hp⟩
      exact ⟨(opt v c hp).1, a⟩
  · exact hM.first
  · refine ⟨s.cost, hI.rootCost, ?_, fun v c hp => (opt v c hp).2, hM.order⟩
    intro v p hvp
    have hd := (hM.mem v).mp (List.mem_map_of_mem hvp)
    have hp := hM.par v p hvp
    have hne : s.cost v ≠ 0 := (hI.doneSeen v hd.1).resolve_left hd.2
    subst hp
    exact ⟨link v hne, (hI.seen v hne).2.2.2.2.2⟩

theorem mainLoop_spec (L : HeapLib) (hL : Standard L) (N : Nat) (m : List Nat) (M : Nat → Nat → Nat)
    (hw : ∀ u v, u ≠ v → u < N → v < N → lookup m (pairwiseIndex u v N) = shared M u v)
    (hw16 : ∀ u v, shared M u v < 65536) (hN : N < 65536) (h0 : 0 < N) (cb : List (Nat × Nat) → Bool) :
    ∀ (fuel : Nat) (s : St) (T : List (Nat × Nat)), Main N (shared M) s T → N ≤ fuel + T.length →
      ∃ T' full ok, mainLoop L N m cb fuel s T = some (T', ok) ∧
        mainLoop L N m (fun _ => true) fuel s T = some (full, true) ∧ ShortestTree N M full ∧
        T' <+: full ∧ T <+: T' ∧ (ok = true → T' = full) ∧ (ok = false → cb T' = false) ∧
        (∀ A, T <+: A → T ≠ A → A <+: T' → cb A = false → A = T' ∧ ok = false) := by
  have hsymm : ∀ u v, shared M u v = shared M v u := by
    intro u v
    unfold shared
    rcases Nat.lt_trichotomy u v with h | h | h
    · rw [if_pos h, if_neg (by omega)]
    · rw [h]
    · rw [if_neg (by omega), if_pos h]
  intro fuel
  induction fuel with
  | zero =>
    intro s T hM hf
    have := main_length hM h0
    omega
  | succ fuel ih =>
    intro s T hM hf
    cases hpop : heapPop L s with
    | none =>
      have hempty : s.heap = [] := by
        unfold heapPop at hpop
        cases h : s.heap with
        | nil => rfl
        | cons x l => rw [h] at hpop; simp at hpop
      refine ⟨T, T, true, by simp only [mainLoop, hpop], by simp only [mainLoop, hpop],
        main_final N M s T hM hempty hw16, List.prefix_refl _, List.prefix_refl _, fun _ => rfl, by simp, ?_⟩
      intro A hA hne hA2
      exact absurd (List.IsPrefix.eq_of_length_le hA hA2.length_le) hne
    | some r =>
      obtain ⟨top, s'⟩ := r
      obtain ⟨hnodes, hM'⟩ := main_step L hL N m (shared M) hw hsymm hw16 hN h0 s T hM top s' hpop
      obtain ⟨T', full, ok, g1, g2, g3, g4, g5, g6, g7, g8⟩ := ih (visit L N m top s') _ hM' (by
        rw [List.length_append]; simp only [List.length_cons, List.length_nil]; omega)
      set T1 := T ++ [(top, (s'.nodes top).idxParent)] with hT1
      have hfull : mainLoop L N m (fun _ => true) (fuel + 1) s T = some (full, true) := by
        simp only [mainLoop, hpop]
        exact g2
      have hnext : ∀ A, T <+: A → T ≠ A → A <+: full → T1 <+: A := by
        intro A hA hne hA2
        have hlen : T1.length ≤ A.length := by
          have h1 := hA.length_le
          have h2 : T.length ≠ A.length := fun h => hne (List.IsPrefix.eq_of_length hA h)
          rw [hT1, List.length_append]
          simp only [List.length_cons, List.length_nil]
          omega
        exact List.prefix_of_prefix_length_le (g5.trans g4) hA2 hlen
      cases hcb : cb T1 with
      | false =>
        refine ⟨T1, full, false, by simp only [mainLoop, hpop]; rw [← hT1, hcb]; rfl, hfull, g3, g5.trans g4,
          List.prefix_append _ _, by simp, fun _ => hcb, ?_⟩
        intro A hA hne hA2 _
        have h3 := hnext A hA hne (hA2.trans (g5.trans g4))
        exact ⟨(List.IsPrefix.eq_of_length_le hA2 h3.length_le), rfl⟩
      | true =>
        refine ⟨T', full, ok, by simp only [mainLoop, hpop]; rw [← hT1, hcb]; exact g1, hfull, g3, g4,
          (List.prefix_append _ _).trans g5, g6, g7, ?_⟩
        intro A hA hne hA2 hcbA
        have h3 := hnext A hA hne (hA2.trans g4)
        have hne1 : T1 ≠ A := by rintro rfl; rw [hcb] at hcbA; cases hcbA
        exact g8 A h3 hne1 hA2 hcbA

/-- **C14**: the traversal always finishes, and if no callback raises, what it reported is the whole
shortest-path tree. This holds for every standard-conforming heap, however it breaks ties. -/
theorem traverse_shortest (L : HeapLib) (hL : Standard L) (N : Nat) (M : Nat → Nat → Nat) (h0 : 0 < N)
    (hN : N ≤ 65535) (h16 : ∀ i j, M i j ≤ 65535) (fuel : Nat) (hf : N ≤ fuel) :
    ∃ T, pyTraverse L N M (fun _ => true) fuel = some (T, true) ∧ ShortestTree N M T := by
  have hw16 : ∀ u v, shared M u v < 65536 := by
    intro u v; unfold shared
    have := h16 u v; have := h16 v u
    split <;> omega
  have hw : ∀ u v : Nat, u ≠ v → u < N → v < N → lookup (packUpper N M) (pairwiseIndex u v N) = shared M u v :=
    fun u v hne hu hv => packUpper_lookup N M u v hu hv hne
  have hsymm : ∀ u v, shared M u v = shared M v u := by
    intro u v
    unfold shared
    rcases Nat.lt_trichotomy u v with h | h | h
    · rw [if_pos h, if_neg (by omega)]
    · rw [h]
    · rw [if_neg (by omega), if_pos h]
  obtain ⟨T', full, ok, g1, g2, g3, _⟩ := mainLoop_spec L hL N (packUpper N M) M hw hw16 (by omega) h0 (fun _ => true)
    fuel _ [] (main_init L hL N (packUpper N M) (shared M) hw hsymm hw16 (by omega) h0) (by simpa using hf)
  exact ⟨full, g2, g3⟩

/-- **C14**: a callback that fails stops the traversal right there, with an error. What was reported until then
is the beginning of what would have been reported otherwise. -/
theorem traverse_stops (L : HeapLib) (hL : Standard L) (N : Nat) (M : Nat → Nat → Nat) (h0 : 0 < N)
    (hN : N ≤ 65535) (h16 : ∀ i j, M i j ≤ 65535) (cb : List (Nat × Nat) → Bool) (fuel : Nat) (hf : N ≤ fuel) :
    ∃ T full ok, pyTraverse L N M cb fuel = some (T, ok) ∧
      pyTraverse L N M (fun _ => true) fuel = some (full, true) ∧ T <+: full ∧
      (ok = true → T = full) ∧ (ok = false → cb T = false) ∧
      (∀ A, A ≠ [] → A <+: T → cb A = false → A = T ∧ ok = false) := by
  have hw16 : ∀ u v, shared M u v < 65536 := by
    intro u v; unfold shared
    have := h16 u v; have := h16 v u
    split <;> omega
  have hw : ∀ u v : Nat, u ≠ v → u < N → v < N → lookup (packUpper N M) (pairwiseIndex u v N) = shared M u v :=
    fun u v hne hu hv => packUpper_lookup N M u v hu hv hne
  have hsymm : ∀ u v, shared M u v = shared M v u := by
    intro u v
    unfold shared
    rcases Nat.lt_trichotomy u v with h | h | h
    · rw [if_pos h, if_neg (by omega)]
    · rw [h]
    · rw [if_neg (by omega), if_pos h]
  obtain ⟨T', full, ok, g1, g2, g3, g4, g5, g6, g7, g8⟩ := mainLoop_spec L hL N (packUpper N M) M hw hw16 (by omega) h0 cb
    fuel _ [] (main_init L hL N (packUpper N M) (shared M) hw hsymm hw16 (by omega) h0) (by simpa using hf)
  exact ⟨T', full, ok, g1, g2, g4, g6, g7, fun A hne hA hc => g8 A List.nil_prefix (Ne.symm hne) hA hc⟩

/-! A heap implementation that meets the standard: keep the range sorted. -/

/-- insertion into a list sorted by cost -/
def ins (cost : Nat → Nat) (x : Nat) : List Nat → List Nat
  | [] => [x]
  | y :: l => if cost x ≤ cost y then x :: y :: l else y :: ins cost x l

def isort (cost : Nat → Nat) : List Nat → List Nat
  | [] => []
  | x :: l => ins cost x (isort cost l)

theorem ins_perm (cost : Nat → Nat) (x : Nat) (l : List Nat) : (ins cost x l).Perm (x :: l) := by
  induction l with
  | nil => exact List.Perm.refl _
  | cons y l ih =>
    unfold ins
    split
    · exact List.Perm.refl _
    · exact (ih.cons y).trans (List.Perm.swap _ _ _)

theorem isort_perm (cost : Nat → Nat) (l : List Nat) : (isort cost l).Perm l := by
  induction l with
  | nil => exact List.Perm.refl _
  | cons x l ih => exact (ins_perm cost x _).trans (ih.cons x)

theorem ins_sorted (cost : Nat → Nat) (x : Nat) (l : List Nat) (h : l.Pairwise (fun a b => cost a ≤ cost b)) :
    (ins cost x l).Pairwise (fun a b => cost a ≤ cost b) := by
  induction l with
  | nil => simp [ins]
  | cons y l ih =>
    unfold ins
    rw [List.pairwise_cons] at h
    split
    · rename_i hc
      rw [List.pairwise_cons]
      refine ⟨?_, List.pairwise_cons.mpr h⟩
      intro a ha
      rcases List.mem_cons.mp ha with rfl | ha
      · exact hc
      · exact Nat.le_trans hc (h.1 a ha)
    · rename_i hc
      rw [List.pairwise_cons]
      refine ⟨?_, ih h.2⟩
      intro a ha
      rcases List.mem_cons.mp ((ins_perm cost x l).mem_iff.mp ha) with rfl | ha
      · omega
      · exact h.1 a ha

theorem isort_isHeap (cost : Nat → Nat) (l : List Nat) : IsHeap cost (isort cost l) := by
  have h : (isort cost l).Pairwise (fun a b => cost a ≤ cost b) := by
    induction l with
    | nil => exact List.Pairwise.nil
    | cons x l ih => exact ins_sorted cost x _ ih
  intro i hi h0
  exact (List.pairwise_iff_getElem.mp h) ((i - 1) / 2) i (by omega) hi (by omega)

def sortedHeap : HeapLib where
  pushHeap := isort
  popHeap cost l := match l with | [] => [] | x :: l => isort cost l ++ [x]
  makeHeap := isort

theorem sortedHeap_standard : Standard sortedHeap where
  push cost l x _ := ⟨isort_isHeap _ _, isort_perm _ _⟩
  pop cost x l _ := ⟨isort cost l, rfl, isort_isHeap _ _, isort_perm _ _⟩
  make cost l := ⟨isort_isHeap _ _, isort_perm _ _⟩

/-- non-vacuity: four sensors; 0-1, 0-2 with few and 1-2, 2-3 with many shared observations -/
def exM (i j : Nat) : Nat := if i = 0 ∧ j = 1 then 5 else if i = 0 ∧ j = 2 then 7 else if i = 1 ∧ j = 2 then 99 else
  if i = 2 ∧ j = 3 then 9 else 0

example : Standard sortedHeap ∧ 0 < 4 ∧ 4 ≤ 65535 ∧ (∀ i j, exM i j ≤ 65535) := by
  refine ⟨sortedHeap_standard, by omega, by omega, ?_⟩
  intro i j; unfold exM
  repeat' split
  all_goals omega

example : pyTraverse sortedHeap 4 exM (fun _ => true) 4 = some ([(2, 0), (1, 0), (3, 2)], true) := by decide
example : pyTraverse sortedHeap 4 exM (fun l => decide (l.length < 2)) 4 = some ([(2, 0), (1, 0)], false) := by decide

end Mrcal.Links
