import Verif.Model.LinksPython
import Mathlib.Data.List.Sort
import Mathlib.Order.Bounds.Basic
import Mathlib.Tactic.Linarith
/-
C135: the traversal of sensors in python visits each sensor that's reachable once, in order of distance, through a shortest path
-/
namespace Mrcal.LinksPython

/-! ### specification -/

/-- there's a way from sensor 0 to this sensor, with this total cost -/
inductive Walk (nb : Nat → List Nat) (cost : Nat → Nat → ℝ) : Nat → ℝ → Prop
  | start : Walk nb cost 0 0
  | step (u v : Nat) (c : ℝ) : Walk nb cost u c → v ∈ nb u → Walk nb cost v (c + cost v u)

/-- the distance of a sensor -/
def Distance (nb : Nat → List Nat) (cost : Nat → Nat → ℝ) (v : Nat) (d : ℝ) : Prop := IsLeast {c | Walk nb cost v c} d

/-- what's promised about the calls (sensor,parent) -/
structure Correct (nb : Nat → List Nat) (cost : Nat → Nat → ℝ) (T : List (Nat × Nat)) : Prop where
  /-- nothing twice -/
  once : (T.map Prod.fst).Nodup
  /-- all those that are reachable, except for the root, and only those -/
  reach : ∀ v, v ∈ T.map Prod.fst ↔ v ≠ 0 ∧ ∃ c, Walk nb cost v c
  /-- closer ones first -/
  order : T.Pairwise fun a b => ∀ da db, Distance nb cost a.1 da → Distance nb cost b.1 db → da ≤ db
  /-- parents first -/
  parent : ∀ pre v p post, T = pre ++ (v, p) :: post → p = 0 ∨ p ∈ pre.map Prod.fst
  /-- the shortest path ends with this link -/
  shortest : ∀ v p, (v, p) ∈ T → v ∈ nb p ∧ ∃ d, Distance nb cost p d ∧ Distance nb cost v (d + cost v p)

/-- a binary heap in a list -/
def IsHeap (c : Nat → ℝ) (l : List Nat) : Prop := ∀ (i j a b : Nat), (j = 2 * i + 1 ∨ j = 2 * i + 2) → l[i]? = some a → l[j]? = some b → c a ≤ c b

/-- the documented behavior of heapq. heappush() and heappop() need a heap -/
structure Standard (L : Heapq) : Prop where
  push : ∀ c l x, IsHeap c l → IsHeap c (L.push c l x) ∧ (L.push c l x).Perm (x :: l)
  heapify : ∀ c l, IsHeap c (L.heapify c l) ∧ (L.heapify c l).Perm l
  pop : ∀ c l, IsHeap c l → l ≠ [] → ∃ x r, L.pop c l = some (x, r) ∧ IsHeap c r ∧ l.Perm (x :: r) ∧ ∀ y ∈ l, c x ≤ c y

/-! ### proofs -/

theorem isHeap_congr (c c' : Nat → ℝ) (l : List Nat) (h : ∀ v ∈ l, c v = c' v) (hh : IsHeap c l) : IsHeap c' l := by
  intro i j a b hij ha hb
  rw [← h a (List.mem_of_getElem? ha), ← h b (List.mem_of_getElem? hb)]
  exact hh i j a b hij ha hb

/-- `P u v`: the link from u to v has been looked at -/
structure Inv (N : Nat) (nb : Nat → List Nat) (cost : Nat → Nat → ℝ) (P : Nat → Nat → Prop) (s : St) : Prop where
  zero : (s.nodes 0).done = true
  mem : ∀ v, v ∈ s.heap ↔ (s.nodes v).cost ≠ none ∧ (s.nodes v).done = false
  nodup : s.heap.Nodup
  heap : IsHeap s.key s.heap
  seen : ∀ v, (s.nodes v).done = true → (s.nodes v).cost ≠ none
  walk : ∀ v, (s.nodes v).cost ≠ none → Walk nb cost v (s.key v)
  pdone : ∀ u v, P u v → (s.nodes u).done = true
  edge : ∀ u v, P u v → v ∈ nb u → (s.nodes v).cost ≠ none ∧ s.key v ≤ s.key u + cost v u
  mono : ∀ u v, (s.nodes u).done = true → v ∈ s.heap → s.key u ≤ s.key v
  par : ∀ v, v ≠ 0 → (s.nodes v).cost ≠ none → (s.nodes (s.nodes v).parent).done = true ∧ v ∈ nb (s.nodes v).parent ∧ s.key v = s.key (s.nodes v).parent + cost v (s.nodes v).parent
  bound : ∀ v, (s.nodes v).cost ≠ none → v < N

theorem key_of {s s' : St} {v : Nat} (h : s'.nodes v = s.nodes v) : s'.key v = s.key v := by unfold St.key; rw [h]

/-- the cost of an unfinished node is assigned -/
theorem inv_update (N : Nat) (nb : Nat → List Nat) (cost : Nat → Nat → ℝ) (hw : ∀ u v, 0 ≤ cost u v) (P : Nat → Nat → Prop) (s s' : St) (x n : Nat) (h : Inv N nb cost P s) (hx : (s.nodes x).done = true)
    (hmax : ∀ u, (s.nodes u).done = true → s.key u ≤ s.key x) (hn : n < N) (hnb : n ∈ nb x) (hnd : (s.nodes n).done = false) (hnodes : s'.nodes = setNode s.nodes n ⟨x, some (s.key x + cost n x), false⟩)
    (hless : (s.nodes n).cost ≠ none → s.key x + cost n x < s.key n) (hperm : s'.heap.Perm (if (s.nodes n).cost = none then n :: s.heap else s.heap)) (hheap : IsHeap s'.key s'.heap) :
    Inv N nb cost (fun u v => P u v ∨ (u = x ∧ v = n)) s' := by
  have hxn : x ≠ n := by rintro rfl; rw [hx] at hnd; cases hnd
  have same : ∀ v, v ≠ n → s'.nodes v = s.nodes v := by intro v hv; rw [hnodes]; simp [setNode, hv]
  have atn : s'.nodes n = ⟨x, some (s.key x + cost n x), false⟩ := by rw [hnodes]; simp [setNode]
  have keyn : s'.key n = s.key x + cost n x := by simp [St.key, atn]
  have dne : ∀ v, (s.nodes v).done = true → v ≠ n := by rintro v hv rfl; rw [hv] at hnd; cases hnd
  have done' : ∀ v, (s'.nodes v).done = (s.nodes v).done := by
    intro v
    by_cases hv : v = n
    · subst hv; rw [atn, hnd]
    · rw [same v hv]
  have hmem : ∀ v, v ∈ s'.heap ↔ v = n ∨ v ∈ s.heap := by
    intro v
    rw [hperm.mem_iff]
    by_cases hc : (s.nodes n).cost = none
    · simp [hc]
    · rw [if_neg hc]
      constructor
      · exact Or.inr
      · rintro (rfl | hv)
        · exact (h.mem _).2 ⟨hc, hnd⟩
        · exact hv
  have keyx : s'.key x = s.key x := key_of (same x hxn)
  constructor
  · rw [done']; exact h.zero
  · intro v
    rw [hmem, done']
    by_cases hv : v = n
    · subst hv; simp [atn, hnd]
    · rw [same v hv]
      simp only [hv, false_or]
      exact h.mem v
  · rw [hperm.nodup_iff]
    by_cases hc : (s.nodes n).cost = none
    · rw [if_pos hc, List.nodup_cons]
      exact ⟨fun hm => ((h.mem n).1 hm).1 hc, h.nodup⟩
    · rw [if_neg hc]; exact h.nodup
  · exact hheap
  · intro v hv
    rw [done'] at hv
    rw [same v (dne v hv)]
    exact h.seen v hv
  · intro v hv
    by_cases e : v = n
    · subst e
      rw [keyn]
      exact Walk.step x v _ (h.walk x (h.seen x hx)) hnb
    · rw [key_of (same v e)]
      rw [same v e] at hv
      exact h.walk v hv
  · rintro u v (hp | ⟨rfl, rfl⟩)
    · rw [done']; exact h.pdone u v hp
    · rw [done']; exact hx
  · rintro u v (hp | ⟨rfl, rfl⟩) hv
    · obtain ⟨e1, e2⟩ := h.edge u v hp hv
      have hu := dne u (h.pdone u v hp)
      rw [key_of (same u hu)]
      by_cases e : v = n
      · subst e
        refine ⟨by rw [atn]; simp, ?_⟩
        rw [keyn]
        have := hless e1
        linarith
      · rw [same v e, key_of (same v e)]
        exact ⟨e1, e2⟩
    · refine ⟨by rw [atn]; simp, ?_⟩
      rw [keyn, keyx]
  · intro u v hu hv
    rw [done'] at hu
    rw [key_of (same u (dne u hu))]
    rcases (hmem v).1 hv with rfl | hv
    · rw [keyn]
      have := hmax u hu
      have := hw v x
      linarith
    · by_cases e : v = n
      · subst e
        rw [keyn]
        have := hmax u hu
        have := hw v x
        linarith
      · rw [key_of (same v e)]
        exact h.mono u v hu hv
  · intro v hv0 hv
    by_cases e : v = n
    · subst e
      rw [keyn, atn]
      dsimp only
      rw [done', keyx]
      exact ⟨hx, hnb, rfl⟩
    · rw [same v e] at hv ⊢
      obtain ⟨p1, p2, p3⟩ := h.par v hv0 hv
      rw [done', key_of (same v e), key_of (same _ (dne _ p1))]
      exact ⟨p1, p2, p3⟩
  · intro v hv
    by_cases e : v = n
    · subst e; exact hn
    · rw [same v e] at hv; exact h.bound v hv

/-- what a visit leaves alone -/
structure Frame (s s' : St) : Prop where
  calls : s'.calls = s.calls
  done : ∀ v, (s'.nodes v).done = (s.nodes v).done
  keep : ∀ v, (s.nodes v).done = true → s'.nodes v = s.nodes v

theorem Inv.weaken {N : Nat} {nb : Nat → List Nat} {cost : Nat → Nat → ℝ} {P P' : Nat → Nat → Prop} {s : St} (h : Inv N nb cost P s) (hp : ∀ u v, P' u v → (s.nodes u).done = true)
    (he : ∀ u v, P' u v → v ∈ nb u → (s.nodes v).cost ≠ none ∧ s.key v ≤ s.key u + cost v u) : Inv N nb cost P' s :=
  ⟨h.zero, h.mem, h.nodup, h.heap, h.seen, h.walk, hp, he, h.mono, h.par, h.bound⟩

theorem neighbor_inv (L : Heapq) (hL : Standard L) (N : Nat) (nb : Nat → List Nat) (cost : Nat → Nat → ℝ) (hw : ∀ u v, 0 ≤ cost u v) (P : Nat → Nat → Prop) (s : St) (x n : Nat) (h : Inv N nb cost P s)
    (hx : (s.nodes x).done = true) (hmax : ∀ u, (s.nodes u).done = true → s.key u ≤ s.key x) (hn : n < N) (hnb : n ∈ nb x) :
    ∃ s', neighbor L N cost x s n = some s' ∧ Inv N nb cost (fun u v => P u v ∨ (u = x ∧ v = n)) s' ∧ Frame s s' := by
  classical
  unfold neighbor
  rw [if_neg (by omega)]
  by_cases hd : (s.nodes n).done = true
  · rw [if_pos hd]
    refine ⟨s, rfl, h.weaken ?_ ?_, ⟨rfl, fun _ => rfl, fun _ _ => rfl⟩⟩
    · rintro u v (hp | ⟨rfl, rfl⟩)
      · exact h.pdone u v hp
      · exact hx
    · rintro u v (hp | ⟨rfl, rfl⟩) hv
      · exact h.edge u v hp hv
      · have := hmax v hd
        have := hw v u
        exact ⟨h.seen v hd, by linarith⟩
  rw [if_neg hd]
  have hnd : (s.nodes n).done = false := by simpa using hd
  have dne : ∀ v, (s.nodes v).done = true → v ≠ n := by rintro v hv rfl; rw [hv] at hnd; cases hnd
  have frame : ∀ heap, Frame s ⟨setNode s.nodes n ⟨x, some (s.key x + cost n x), false⟩, heap, s.calls⟩ := by
    intro heap
    refine ⟨rfl, fun v => ?_, fun v hv => ?_⟩
    · by_cases e : v = n
      · subst e; simp [setNode, hnd]
      · simp [setNode, e]
    · simp [setNode, dne v hv]
  dsimp only
  cases hc : (s.nodes n).cost with
  | none =>
    dsimp only
    refine ⟨_, rfl, ?_, frame _⟩
    have hh : IsHeap (St.key ⟨setNode s.nodes n ⟨x, some (s.key x + cost n x), false⟩, s.heap, s.calls⟩) s.heap := by
      refine isHeap_congr _ _ _ ?_ h.heap
      intro v hv
      have : v ≠ n := by rintro rfl; exact ((h.mem _).1 hv).1 hc
      simp [St.key, setNode, this]
    obtain ⟨q1, q2⟩ := hL.push _ _ n hh
    refine inv_update N nb cost hw P s _ x n h hx hmax hn hnb hnd rfl ?_ ?_ ?_
    · intro hne; exact absurd hc hne
    · rw [if_pos hc]; exact q2
    · exact q1
  | some c =>
    dsimp only
    have hk : s.key n = c := by simp [St.key, hc]
    by_cases hlt : s.key x + cost n x < c
    · rw [if_pos hlt]
      refine ⟨_, rfl, ?_, frame _⟩
      obtain ⟨q1, q2⟩ := hL.heapify (St.key ⟨setNode s.nodes n ⟨x, some (s.key x + cost n x), false⟩, s.heap, s.calls⟩) s.heap
      refine inv_update N nb cost hw P s _ x n h hx hmax hn hnb hnd rfl ?_ ?_ ?_
      · intro _; rw [hk]; exact hlt
      · rw [if_neg (by simp [hc])]; exact q2
      · exact q1
    · rw [if_neg hlt]
      refine ⟨s, rfl, h.weaken ?_ ?_, ⟨rfl, fun _ => rfl, fun _ _ => rfl⟩⟩
      · rintro u v (hp | ⟨rfl, rfl⟩)
        · exact h.pdone u v hp
        · exact hx
      · rintro u v (hp | ⟨rfl, rfl⟩) hv
        · exact h.edge u v hp hv
        · exact ⟨by simp [hc], by rw [hk]; linarith⟩

theorem fold_inv (L : Heapq) (hL : Standard L) (N : Nat) (nb : Nat → List Nat) (cost : Nat → Nat → ℝ) (hw : ∀ u v, 0 ≤ cost u v) (x : Nat) : ∀ (l : List Nat) (P : Nat → Nat → Prop) (s : St), Inv N nb cost P s →
    (s.nodes x).done = true → (∀ u, (s.nodes u).done = true → s.key u ≤ s.key x) → (∀ n ∈ l, n < N ∧ n ∈ nb x) →
    ∃ s', l.foldlM (neighbor L N cost x) s = some s' ∧ Inv N nb cost (fun u v => P u v ∨ (u = x ∧ v ∈ l)) s' ∧ Frame s s' := by
  intro l
  induction l with
  | nil =>
    intro P s h _ _ _
    exact ⟨s, rfl, by simpa using h, ⟨rfl, fun _ => rfl, fun _ _ => rfl⟩⟩
  | cons n l ih =>
    intro P s h hx hmax hl
    obtain ⟨s1, e1, i1, f1⟩ := neighbor_inv L hL N nb cost hw P s x n h hx hmax (hl n (by simp)).1 (hl n (by simp)).2
    have hx1 : (s1.nodes x).done = true := by rw [f1.done]; exact hx
    have hm1 : ∀ u, (s1.nodes u).done = true → s1.key u ≤ s1.key x := by
      intro u hu
      rw [f1.done] at hu
      rw [key_of (f1.keep u hu), key_of (f1.keep x hx)]
      exact hmax u hu
    obtain ⟨s2, e2, i2, f2⟩ := ih _ s1 i1 hx1 hm1 (fun m hm => hl m (by simp [hm]))
    refine ⟨s2, ?_, ?_, ?_⟩
    · rw [List.foldlM_cons, e1]; exact e2
    · have : (fun u v => (P u v ∨ u = x ∧ v = n) ∨ u = x ∧ v ∈ l) = (fun u v => P u v ∨ u = x ∧ v ∈ n :: l) := by
        funext u v
        simp only [List.mem_cons, eq_iff_iff]
        tauto
      rwa [this] at i2
    · refine ⟨f2.calls.trans f1.calls, fun v => (f2.done v).trans (f1.done v), fun v hv => ?_⟩
      rw [f2.keep v (by rw [f1.done]; exact hv), f1.keep v hv]

/-- between visits -/
structure Main (N : Nat) (nb : Nat → List Nat) (cost : Nat → Nat → ℝ) (s : St) : Prop where
  inv : Inv N nb cost (fun u _ => (s.nodes u).done = true) s
  key0 : s.key 0 = 0
  once : (s.calls.map Prod.fst).Nodup
  mem : ∀ v, v ∈ s.calls.map Prod.fst ↔ v ≠ 0 ∧ (s.nodes v).done = true
  order : s.calls.Pairwise fun a b => s.key a.1 ≤ s.key b.1
  parent : ∀ pre v p post, s.calls = pre ++ (v, p) :: post → p = 0 ∨ p ∈ pre.map Prod.fst
  link : ∀ v p, (v, p) ∈ s.calls → p = (s.nodes v).parent

theorem init_main (L : Heapq) (hL : Standard L) (N : Nat) (hN : 0 < N) (nb : Nat → List Nat) (hnb : ∀ u < N, ∀ v ∈ nb u, v < N) (cost : Nat → Nat → ℝ) (hw : ∀ u v, 0 ≤ cost u v) :
    ∃ s, visit L N nb cost 0 ⟨setNode (fun _ => ⟨0, none, false⟩) 0 ⟨0, some 0, false⟩, [], []⟩ = some s ∧ Main N nb cost s := by
  unfold visit
  simp only [ne_eq, not_true_eq_false, if_false]
  obtain ⟨s0, hs0⟩ : ∃ s0 : St, s0 = ⟨setNode (setNode (fun _ => ⟨0, none, false⟩) 0 ⟨0, some 0, false⟩) 0 { setNode (fun _ => ⟨0, none, false⟩) 0 ⟨0, some 0, false⟩ 0 with done := true }, [], []⟩ := ⟨_, rfl⟩
  rw [← hs0]
  have n0 : s0.nodes 0 = ⟨0, some 0, true⟩ := by rw [hs0]; simp [setNode]
  have nv : ∀ v, v ≠ 0 → s0.nodes v = ⟨0, none, false⟩ := by intro v hv; rw [hs0]; simp [setNode, hv]
  have hheap : s0.heap = [] := by rw [hs0]
  have hcalls : s0.calls = [] := by rw [hs0]
  have k0 : s0.key 0 = 0 := by simp [St.key, n0]
  have only : ∀ v, (s0.nodes v).cost ≠ none → v = 0 := by
    intro v hv
    by_contra hne
    rw [nv v hne] at hv
    exact hv rfl
  have donly : ∀ v, (s0.nodes v).done = true → v = 0 := by
    intro v hv
    by_contra hne
    rw [nv v hne] at hv
    cases hv
  have i0 : Inv N nb cost (fun _ _ => False) s0 := by
    refine ⟨by rw [n0], ?_, by rw [hheap]; simp, by rw [hheap]; intro i j a b _ ha; simp at ha, ?_, ?_, fun _ _ h => h.elim, fun _ _ h => h.elim, by rw [hheap]; simp, ?_, ?_⟩
    · intro v
      rw [hheap]
      simp only [List.not_mem_nil, ne_eq, false_iff, not_and, Bool.not_eq_false]
      intro hv
      rw [only v hv, n0]
    · intro v hv; rw [donly v hv, n0]; simp
    · intro v hv; rw [only v hv, k0]; exact Walk.start
    · intro v hv0 hv; exact absurd (only v hv) hv0
    · intro v hv; rw [only v hv]; exact hN
  obtain ⟨s, e, i, f⟩ := fold_inv L hL N nb cost hw 0 (nb 0) _ s0 i0 (by rw [n0]) (fun u hu => by rw [donly u hu]) (fun n hn => ⟨hnb 0 hN n hn, hn⟩)
  have dz : ∀ v, (s.nodes v).done = true → v = 0 := by intro v hv; rw [f.done] at hv; exact donly v hv
  refine ⟨s, e, i.weaken (fun u _ hu => hu) (fun u v hu hv => ?_), ?_, ?_, ?_, ?_, ?_, ?_⟩
  · have := dz u hu
    subst this
    exact i.edge 0 v (Or.inr ⟨rfl, hv⟩) hv
  · rw [key_of (f.keep 0 (by rw [n0])), k0]
  · rw [f.calls, hcalls]; simp
  · intro v
    rw [f.calls, hcalls]
    simp only [List.map_nil, List.not_mem_nil, false_iff, not_and]
    intro h0 hd
    exact h0 (dz v hd)
  · rw [f.calls, hcalls]; simp
  · intro pre v p post h
    rw [f.calls, hcalls] at h
    simp at h
  · intro v p h
    rw [f.calls, hcalls] at h
    simp at h

theorem step_main (L : Heapq) (hL : Standard L) (N : Nat) (nb : Nat → List Nat) (hnb : ∀ u < N, ∀ v ∈ nb u, v < N) (cost : Nat → Nat → ℝ) (hw : ∀ u v, 0 ≤ cost u v) (s : St) (h : Main N nb cost s) (hne : s.heap ≠ []) :
    ∃ x r s', L.pop s.key s.heap = some (x, r) ∧ visit L N nb cost x { s with heap := r } = some s' ∧ Main N nb cost s' ∧ s'.calls.length = s.calls.length + 1 := by
  obtain ⟨x, r, e, hr, hperm, hmin⟩ := hL.pop s.key s.heap h.inv.heap hne
  have hxm : x ∈ s.heap := hperm.mem_iff.2 (by simp)
  obtain ⟨xc, xd⟩ := (h.inv.mem x).1 hxm
  have x0 : x ≠ 0 := by rintro rfl; rw [h.inv.zero] at xd; cases xd
  have hnd := hperm.nodup_iff.1 h.inv.nodup
  rw [List.nodup_cons] at hnd
  obtain ⟨s0, hs0⟩ : ∃ s0 : St, s0 = ⟨setNode s.nodes x { s.nodes x with done := true }, r, s.calls ++ [(x, (s.nodes x).parent)]⟩ := ⟨_, rfl⟩
  have hvis : visit L N nb cost x { s with heap := r } = (nb x).foldlM (neighbor L N cost x) s0 := by
    unfold visit
    rw [hs0]
    dsimp only
    rw [if_pos x0]
  have nx : s0.nodes x = { s.nodes x with done := true } := by rw [hs0]; simp [setNode]
  have nv : ∀ v, v ≠ x → s0.nodes v = s.nodes v := by intro v hv; rw [hs0]; simp [setNode, hv]
  have c0 : ∀ v, (s0.nodes v).cost = (s.nodes v).cost := by
    intro v
    by_cases hv : v = x
    · subst hv; rw [nx]
    · rw [nv v hv]
  have p0 : ∀ v, (s0.nodes v).parent = (s.nodes v).parent := by
    intro v
    by_cases hv : v = x
    · subst hv; rw [nx]
    · rw [nv v hv]
  have k0 : s0.key = s.key := by funext v; unfold St.key; rw [c0]
  have d0 : ∀ v, (s0.nodes v).done = true ↔ v = x ∨ (s.nodes v).done = true := by
    intro v
    by_cases hv : v = x
    · subst hv; rw [nx]; simp
    · rw [nv v hv]; simp [hv]
  have hheap : s0.heap = r := by rw [hs0]
  have hcalls : s0.calls = s.calls ++ [(x, (s.nodes x).parent)] := by rw [hs0]
  have hmax : ∀ u, (s0.nodes u).done = true → s0.key u ≤ s0.key x := by
    intro u hu
    rw [k0]
    rcases (d0 u).1 hu with rfl | hu
    · exact le_refl _
    · exact h.inv.mono u x hu hxm
  have i0 : Inv N nb cost (fun u _ => (s.nodes u).done = true) s0 := by
    refine ⟨(d0 0).2 (Or.inr h.inv.zero), ?_, ?_, ?_, ?_, ?_, ?_, ?_, ?_, ?_, ?_⟩
    · intro v
      rw [hheap, c0]
      have e1 : v ∈ s.heap ↔ v = x ∨ v ∈ r := by rw [hperm.mem_iff]; simp
      by_cases hv : v = x
      · subst hv; rw [nx]; simp [hnd.1]
      · rw [nv v hv, ← h.inv.mem v, e1]
        simp [hv]
    · rw [hheap]; exact hnd.2
    · rw [hheap, k0]; exact hr
    · intro v hv
      rw [c0]
      rcases (d0 v).1 hv with rfl | hv
      · exact xc
      · exact h.inv.seen v hv
    · intro v hv; rw [c0] at hv; rw [k0]; exact h.inv.walk v hv
    · intro u v hu; exact (d0 u).2 (Or.inr hu)
    · intro u v hu hv; rw [c0, k0]; exact h.inv.edge u v hu hv
    · intro u v hu hv
      rw [hheap] at hv
      have hvm : v ∈ s.heap := hperm.mem_iff.2 (by simp [hv])
      rw [k0]
      rcases (d0 u).1 hu with rfl | hu
      · exact hmin v hvm
      · exact h.inv.mono u v hu hvm
    · intro v hv0 hv
      rw [c0] at hv
      rw [p0, k0, d0]
      obtain ⟨q1, q2, q3⟩ := h.inv.par v hv0 hv
      exact ⟨Or.inr q1, q2, q3⟩
    · intro v hv; rw [c0] at hv; exact h.inv.bound v hv
  have hxN := h.inv.bound x xc
  obtain ⟨s', e', i, f⟩ := fold_inv L hL N nb cost hw x (nb x) _ s0 i0 ((d0 x).2 (Or.inl rfl)) hmax (fun n hn => ⟨hnb x hxN n hn, hn⟩)
  have keyd : ∀ v, v = x ∨ (s.nodes v).done = true → s'.key v = s.key v := by
    intro v hv
    rw [key_of (f.keep v ((d0 v).2 hv)), k0]
  have cdone : ∀ a ∈ s.calls, (s.nodes a.1).done = true := fun a ha => ((h.mem a.1).1 (List.mem_map.2 ⟨a, ha, rfl⟩)).2
  refine ⟨x, r, s', e, hvis.trans e', ⟨i.weaken (fun u _ hu => hu) (fun u v hu hv => ?_), ?_, ?_, ?_, ?_, ?_, ?_⟩, ?_⟩
  · rw [f.done, d0] at hu
    rcases hu with rfl | hu
    · exact i.edge u v (Or.inr ⟨rfl, hv⟩) hv
    · exact i.edge u v (Or.inl hu) hv
  · rw [keyd 0 (Or.inr h.inv.zero), h.key0]
  · rw [f.calls, hcalls, List.map_append, List.nodup_append]
    refine ⟨h.once, by simp, ?_⟩
    intro a ha b hb
    simp only [List.map_cons, List.map_nil, List.mem_singleton] at hb
    subst hb
    rintro rfl
    have := ((h.mem _).1 ha).2
    rw [this] at xd
    cases xd
  · intro v
    rw [f.calls, hcalls, List.map_append, List.mem_append, h.mem, f.done, d0]
    simp only [List.map_cons, List.map_nil, List.mem_singleton]
    constructor
    · rintro (⟨a, b⟩ | rfl)
      · exact ⟨a, Or.inr b⟩
      · exact ⟨x0, Or.inl rfl⟩
    · rintro ⟨a, rfl | b⟩
      · exact Or.inr rfl
      · exact Or.inl ⟨a, b⟩
  · rw [f.calls, hcalls, List.pairwise_append]
    refine ⟨h.order.imp_of_mem ?_, by simp, ?_⟩
    · intro a b ha hb hab
      rw [keyd _ (Or.inr (cdone a ha)), keyd _ (Or.inr (cdone b hb))]
      exact hab
    · intro a ha b hb
      simp only [List.mem_singleton] at hb
      subst hb
      rw [keyd _ (Or.inr (cdone a ha)), keyd x (Or.inl rfl)]
      exact h.inv.mono a.1 x (cdone a ha) hxm
  · intro pre v p post hq
    rw [f.calls, hcalls] at hq
    rcases List.eq_nil_or_concat post with rfl | ⟨post', z, rfl⟩
    · have := List.append_inj' hq rfl
      obtain ⟨rfl, q2⟩ := this
      simp only [List.cons.injEq, Prod.mk.injEq, and_true] at q2
      obtain ⟨rfl, rfl⟩ := q2
      by_cases hp0 : (s.nodes x).parent = 0
      · exact Or.inl hp0
      · exact Or.inr ((h.mem _).2 ⟨hp0, (h.inv.par x x0 xc).1⟩)
    · rw [List.concat_eq_append, ← List.cons_append, ← List.append_assoc] at hq
      have := List.append_inj' hq rfl
      exact h.parent pre v p post' this.1
  · intro v p hq
    rw [f.calls, hcalls, List.mem_append] at hq
    rcases hq with hq | hq
    · have hd := cdone _ hq
      rw [f.keep v ((d0 v).2 (Or.inr hd)), p0]
      exact h.link v p hq
    · simp only [List.mem_singleton, Prod.mk.injEq] at hq
      obtain ⟨rfl, rfl⟩ := hq
      rw [f.keep v ((d0 v).2 (Or.inl rfl)), p0]
  · rw [f.calls, hcalls]; simp

theorem nodup_bound (l : List Nat) (N : Nat) (hn : l.Nodup) (h : ∀ v ∈ l, v < N) : l.length ≤ N := by
  have := (List.subperm_of_subset (l₂ := List.range N) hn (fun v hv => List.mem_range.2 (h v hv))).length_le
  simpa using this

theorem final (N : Nat) (nb : Nat → List Nat) (cost : Nat → Nat → ℝ) (s : St) (h : Main N nb cost s) (hh : s.heap = []) : Correct nb cost s.calls := by
  have all : ∀ v c, Walk nb cost v c → (s.nodes v).done = true ∧ s.key v ≤ c := by
    intro v c hwk
    induction hwk with
    | start => exact ⟨h.inv.zero, by rw [h.key0]⟩
    | step u v c _ hv ih =>
      obtain ⟨e1, e2⟩ := h.inv.edge u v ih.1 hv
      refine ⟨?_, by linarith [ih.2]⟩
      by_contra hd
      have := (h.inv.mem v).2 ⟨e1, by simpa using hd⟩
      rw [hh] at this
      simp at this
  have dist : ∀ v, (s.nodes v).done = true → Distance nb cost v (s.key v) := fun v hv => ⟨h.inv.walk v (h.inv.seen v hv), fun c hc => (all v c hc).2⟩
  have uniq : ∀ v d, (s.nodes v).done = true → Distance nb cost v d → d = s.key v := fun v d hv hd => hd.unique (dist v hv)
  have cdone : ∀ a ∈ s.calls, (s.nodes a.1).done = true := fun a ha => ((h.mem a.1).1 (List.mem_map.2 ⟨a, ha, rfl⟩)).2
  refine ⟨h.once, fun v => ?_, ?_, h.parent, ?_⟩
  · rw [h.mem]
    constructor
    · rintro ⟨a, b⟩; exact ⟨a, _, h.inv.walk v (h.inv.seen v b)⟩
    · rintro ⟨a, c, hc⟩; exact ⟨a, (all v c hc).1⟩
  · refine h.order.imp_of_mem ?_
    intro a b ha hb hab da db hda hdb
    rw [uniq _ _ (cdone a ha) hda, uniq _ _ (cdone b hb) hdb]
    exact hab
  · intro v p hv
    have hl := h.link v p hv
    have hd := cdone _ hv
    have v0 : v ≠ 0 := ((h.mem v).1 (List.mem_map.2 ⟨_, hv, rfl⟩)).1
    obtain ⟨q1, q2, q3⟩ := h.inv.par v v0 (h.inv.seen v hd)
    rw [← hl] at q1 q2 q3
    refine ⟨q2, s.key p, dist p q1, ?_⟩
    rw [← q3]
    exact dist v hd

theorem loop_correct (L : Heapq) (hL : Standard L) (N : Nat) (nb : Nat → List Nat) (hnb : ∀ u < N, ∀ v ∈ nb u, v < N) (cost : Nat → Nat → ℝ) (hw : ∀ u v, 0 ≤ cost u v) : ∀ (fuel : Nat) (s : St), Main N nb cost s →
    N < s.calls.length + fuel → ∃ T, loop L N nb cost fuel s = some (some T) ∧ Correct nb cost T := by
  intro fuel
  induction fuel with
  | zero =>
    intro s h hf
    have := nodup_bound _ N h.once (fun v hv => h.inv.bound v (h.inv.seen v ((h.mem v).1 hv).2))
    rw [List.length_map] at this
    omega
  | succ fuel ih =>
    intro s h hf
    unfold loop
    cases hh : s.heap with
    | nil => exact ⟨_, rfl, final N nb cost s h hh⟩
    | cons a l =>
      obtain ⟨x, r, s', e1, e2, hm, hlen⟩ := step_main L hL N nb hnb cost hw s h (by rw [hh]; simp)
      dsimp only
      rw [← hh, e1]
      dsimp only
      rw [e2]
      exact ih s' hm (by omega)

/-- C135: the traversal ends, without an exception. Each sensor that's reachable is visited once, in order of the distance, parents before their children, through a shortest path. For any heapq that does what's documented, all sets of sensors, all links
and all costs that aren't negative -/
theorem traverse_correct (L : Heapq) (hL : Standard L) (N : Nat) (hN : 0 < N) (nb : Nat → List Nat) (hnb : ∀ u < N, ∀ v ∈ nb u, v < N) (cost : Nat → Nat → ℝ) (hw : ∀ u v, 0 ≤ cost u v) (fuel : Nat) (hf : N < fuel) :
    ∃ T, traverse L N nb cost fuel = some (some T) ∧ Correct nb cost T := by
  unfold traverse
  rw [if_neg (by omega)]
  obtain ⟨s, e, hm⟩ := init_main L hL N hN nb hnb cost hw
  rw [e]
  exact loop_correct L hL N nb hnb cost hw fuel s hm (by omega)

theorem fold_none {α β : Type} (f : β → α → Option β) (l : List α) (x : α) (hx : x ∈ l) (h : ∀ s, f s x = none) : ∀ s, l.foldlM f s = none := by
  induction l with
  | nil => simp at hx
  | cons a l ih =>
    intro s
    rw [List.foldlM_cons]
    rcases List.mem_cons.1 hx with rfl | hx
    · rw [h]; rfl
    · cases f s a with
      | none => rfl
      | some s' => exact ih hx s'

/-- C135: it's an exception if a sensor that's visited claims a neighbor that doesn't exist, here the root; or if there are no sensors -/
theorem refused (L : Heapq) (N : Nat) (nb : Nat → List Nat) (cost : Nat → Nat → ℝ) (fuel : Nat) : (∀ n ∈ nb 0, N ≤ n → traverse L N nb cost fuel = some none) ∧ (N = 0 → traverse L N nb cost fuel = some none) := by
  constructor
  · intro n hn hN
    unfold traverse
    by_cases h0 : N = 0
    · rw [if_pos h0]
    rw [if_neg h0]
    have : visit L N nb cost 0 ⟨setNode (fun _ => ⟨0, none, false⟩) 0 ⟨0, some 0, false⟩, [], []⟩ = none := by
      unfold visit
      refine fold_none _ _ n hn ?_ _
      intro s
      unfold neighbor
      rw [if_pos hN]
    rw [this]
  · intro h0
    unfold traverse
    rw [if_pos h0]

/-! ### concrete -/

/-- a heap that's sorted -/
noncomputable def sorted : Heapq := by
  classical
  exact ⟨fun c l x => (x :: l).insertionSort fun a b => c a ≤ c b, fun c l => l.insertionSort fun a b => c a ≤ c b, fun c l => match l.insertionSort fun a b => c a ≤ c b with | [] => none | x :: r => some (x, r)⟩

theorem sorted_heap (c : Nat → ℝ) (l : List Nat) (h : l.Pairwise fun a b => c a ≤ c b) : IsHeap c l := by
  intro i j a b hij ha hb
  obtain ⟨hi, rfl⟩ := List.getElem?_eq_some_iff.1 ha
  obtain ⟨hj, rfl⟩ := List.getElem?_eq_some_iff.1 hb
  exact List.pairwise_iff_getElem.1 h i j hi hj (by omega)

theorem sorted_standard : Standard sorted := by
  classical
  have tot : ∀ c : Nat → ℝ, Std.Total fun a b => c a ≤ c b := fun c => ⟨fun a b => le_total _ _⟩
  have tra : ∀ c : Nat → ℝ, IsTrans Nat fun a b => c a ≤ c b := fun c => ⟨fun a b d => le_trans⟩
  have srt : ∀ (c : Nat → ℝ) (l : List Nat), (l.insertionSort fun a b => c a ≤ c b).Pairwise fun a b => c a ≤ c b := by
    intro c l
    have := tot c
    have := tra c
    exact List.pairwise_insertionSort _ l
  refine ⟨fun c l x _ => ⟨sorted_heap c _ (srt c _), List.perm_insertionSort _ _⟩, fun c l => ⟨sorted_heap c _ (srt c _), List.perm_insertionSort _ _⟩, fun c l _ hne => ?_⟩
  have hp := List.perm_insertionSort (fun a b => c a ≤ c b) l
  have hs := srt c l
  show ∃ x r, (match l.insertionSort fun a b => c a ≤ c b with | [] => none | x :: r => some (x, r)) = some (x, r) ∧ _
  cases hq : l.insertionSort fun a b => c a ≤ c b with
  | nil =>
    rw [hq] at hp
    exact absurd (List.nil_perm.1 hp) hne
  | cons x r =>
    rw [hq] at hp hs
    rw [List.pairwise_cons] at hs
    refine ⟨x, r, rfl, sorted_heap c r hs.2, hp.symm, fun y hy => ?_⟩
    rcases List.mem_cons.1 (hp.mem_iff.2 hy) with rfl | hy
    · exact le_refl _
    · exact hs.1 y hy

/-- sensor 1 is linked to 0, at a cost of 5; and to 2 at a cost of 1. 2 is linked to 0 at a cost of 1. 3 isn't linked. So 1 is visited once, and 3 isn't -/
example : ∃ T, traverse sorted 4 (fun u => if u = 0 then [1, 2] else if u = 1 then [0, 2] else if u = 2 then [0, 1] else []) (fun u v => if u + v = 1 then 5 else 1) 5 = some (some T) ∧
    1 ∈ T.map Prod.fst := by
  obtain ⟨T, e, hT⟩ := traverse_correct sorted sorted_standard 4 (by omega) (fun u => if u = 0 then [1, 2] else if u = 1 then [0, 2] else if u = 2 then [0, 1] else [])
    (by intro u _ v hv; split_ifs at hv <;> simp at hv <;> omega) (fun u v => if u + v = 1 then 5 else 1) (by intro u v; split_ifs <;> norm_num) 5 (by omega)
  exact ⟨T, e, (hT.reach 1).2 ⟨by omega, _, Walk.step 0 1 0 Walk.start (by simp)⟩⟩

end Mrcal.LinksPython
