import Verif.Model.PolygonDiff
import Mathlib.Data.Set.Lattice
import Mathlib.Tactic.Linarith
import Mathlib.Tactic.Ring
import Mathlib.Tactic.NormNum
/-
polygon_difference(): the pieces have no holes, and their union is the difference, if it's always possible to cut. And when it isn't.
-/
namespace Mrcal.Polygon

/-! ### specification -/

/-- what shapely promises about point sets. `region`: the points of a polygon; `ring`: the points inside a closed contour. A polygon without holes is the inside of its exterior. Splitting changes the union of nothing -/
structure Sound (S : Shapely) (region : S.Poly → Set Pt) (ring : List Pt → Set Pt) : Prop where
  solid : ∀ p, S.holes p = [] → S.exterior p ≠ [] → region p = ring (S.exterior p)
  empty : ∀ p, S.holes p = [] → S.exterior p = [] → region p = ∅
  split : ∀ p l, region p = ⋃ s ∈ S.split p l, region s

/-- a polygon with holes can be cut: some line through the centroid and a vertex of its first hole, of the length in the code, makes several pieces -/
def Cuttable (S : Shapely) : Prop := ∀ p hole rest, S.holes p = hole :: rest → ∃ v ∈ hole, (S.split p (cut (S.centroid hole) v)).length > 1

/-- a cut opens at least one hole -/
def Opens (S : Shapely) : Prop := ∀ p l, (S.split p l).length > 1 → ∀ s ∈ S.split p l, (S.holes s).length < (S.holes p).length

/-- the points inside of any of these contours -/
def Covered (ring : List Pt → Set Pt) (r : List (List Pt)) : Set Pt := ⋃ c ∈ r, ring c

/-! ### lemmas -/

theorem mapM_some_mem {α β : Type} (f : α → Option β) : ∀ (l : List α) (r : List β), l.mapM f = some r → (∀ a ∈ l, ∃ b ∈ r, f a = some b) ∧ (∀ b ∈ r, ∃ a ∈ l, f a = some b) := by
  intro l
  induction l with
  | nil => intro r h; simp at h; subst h; simp
  | cons a l ih =>
    intro r h
    rw [List.mapM_cons] at h
    obtain ⟨b, hb, h⟩ := Option.bind_eq_some_iff.1 h
    obtain ⟨r', hr', h⟩ := Option.bind_eq_some_iff.1 h
    cases h
    obtain ⟨h1, h2⟩ := ih r' hr'
    constructor
    · intro a' ha'
      rcases List.mem_cons.1 ha' with rfl | ha'
      · exact ⟨b, List.mem_cons_self, hb⟩
      · obtain ⟨b', hb', e⟩ := h1 a' ha'
        exact ⟨b', List.mem_cons_of_mem _ hb', e⟩
    · intro b' hb'
      rcases List.mem_cons.1 hb' with rfl | hb'
      · exact ⟨a, List.mem_cons_self, hb⟩
      · obtain ⟨a', ha', e⟩ := h2 b' hb'
        exact ⟨a', List.mem_cons_of_mem _ ha', e⟩

theorem mapM_total {α β : Type} (f : α → Option β) (l : List α) (h : ∀ a ∈ l, ∃ b, f a = some b) : ∃ r, l.mapM f = some r := by
  induction l with
  | nil => exact ⟨[], rfl⟩
  | cons a l ih =>
    obtain ⟨b, hb⟩ := h a List.mem_cons_self
    obtain ⟨r, hr⟩ := ih fun a ha => h a (List.mem_cons_of_mem _ ha)
    exact ⟨b :: r, by rw [List.mapM_cons, hb, hr]; rfl⟩

theorem firstCut_some (S : Shapely) (p : S.Poly) (hole : List Pt) (s : List S.Poly) (h : firstCut S p hole = some s) :
    ∃ v ∈ hole, s = S.split p (cut (S.centroid hole) v) ∧ s.length > 1 := by
  obtain ⟨v, hv, e⟩ := List.exists_of_findSome?_eq_some h
  dsimp only at e
  split_ifs at e with hl
  cases e
  exact ⟨v, hv, rfl, hl⟩

theorem firstCut_none (S : Shapely) (p : S.Poly) (hole : List Pt) : firstCut S p hole = none ↔ ∀ v ∈ hole, ¬ (S.split p (cut (S.centroid hole) v)).length > 1 := by
  simp [firstCut, List.findSome?_eq_none_iff]

theorem covered_flatten (ring : List Pt → Set Pt) (r : List (List (List Pt))) (a : Pt) : a ∈ Covered ring r.flatten ↔ ∃ c ∈ r, a ∈ Covered ring c := by
  simp only [Covered, Set.mem_iUnion, List.mem_flatten, exists_prop]
  constructor
  · rintro ⟨x, ⟨c, hc, hx⟩, ha⟩; exact ⟨c, hc, x, hx, ha⟩
  · rintro ⟨c, hc, x, hx, ha⟩; exact ⟨x, ⟨c, hc, hx⟩, ha⟩

theorem splitHoles_cover (S : Shapely) (region : S.Poly → Set Pt) (ring : List Pt → Set Pt) (hS : Sound S region ring) :
    ∀ (n : Nat) (p : S.Poly) (r : List (List Pt)), splitHoles S n p = some r → Covered ring r ⊆ region p ∧ (Cuttable S → region p ⊆ Covered ring r) ∧
      ∀ c ∈ r, ∃ q, S.holes q = [] ∧ S.exterior q = c ∧ c ≠ [] := by
  intro n
  induction n with
  | zero => intro p r h; cases h
  | succ n ih =>
    intro p r h
    unfold splitHoles at h
    rcases hh : S.holes p with _ | ⟨hole, rest⟩
    · rw [hh] at h
      dsimp only at h
      by_cases h0 : (S.exterior p).length = 0
      · rw [if_pos h0] at h
        cases h
        have he := hS.empty p hh (List.eq_nil_of_length_eq_zero h0)
        simp [Covered, he]
      · rw [if_neg h0] at h
        cases h
        have hne : S.exterior p ≠ [] := fun h => h0 (by simp [h])
        have he := hS.solid p hh hne
        refine ⟨by simp [Covered, he], fun _ => by simp [Covered, he], ?_⟩
        intro c hc
        rw [List.mem_singleton] at hc
        subst hc
        exact ⟨p, hh, rfl, hne⟩
    · rw [hh] at h
      dsimp only at h
      rcases hf : firstCut S p hole with _ | s
      · rw [hf] at h
        cases h
        refine ⟨by simp [Covered], fun hC => ?_, by simp⟩
        obtain ⟨v, hv, hl⟩ := hC p hole rest hh
        exact absurd hl ((firstCut_none S p hole).1 hf v hv)
      · rw [hf] at h
        obtain ⟨rs, hrs, rfl⟩ := Option.map_eq_some_iff.1 h
        obtain ⟨v, hv, rfl, hl⟩ := firstCut_some S p hole s hf
        obtain ⟨m1, m2⟩ := mapM_some_mem _ _ _ hrs
        have hsp := hS.split p (cut (S.centroid hole) v)
        refine ⟨?_, ?_, ?_⟩
        · intro a ha
          obtain ⟨c, hc, hac⟩ := (covered_flatten ring rs a).1 ha
          obtain ⟨q, hq, e⟩ := m2 c hc
          rw [hsp]
          simp only [Set.mem_iUnion, exists_prop]
          exact ⟨q, hq, (ih q c e).1 hac⟩
        · intro hC a ha
          rw [hsp] at ha
          simp only [Set.mem_iUnion, exists_prop] at ha
          obtain ⟨q, hq, ha⟩ := ha
          obtain ⟨c, hc, e⟩ := m1 q hq
          exact (covered_flatten ring rs a).2 ⟨c, hc, (ih q c e).2.1 hC ha⟩
        · intro c hc
          obtain ⟨l, hl, hcl⟩ := List.mem_flatten.1 hc
          obtain ⟨q, hq, e⟩ := m2 l hl
          exact (ih q l e).2.2 c hcl

/-! ### theorems -/

/-- The union of the contours that are returned is inside of the difference; it is the difference if polygons with holes can always be cut. Each contour is the exterior of a polygon without holes.
Missing: polygons that can't be cut are left out (`tiny_hole_wrong`) -/
theorem union_partial (S : Shapely) (region : S.Poly → Set Pt) (ring : List Pt → Set Pt) (hS : Sound S region ring) (depth : Nat) (positive negative : List Pt) (r : List (List Pt))
    (h : polygonDifference S depth positive negative = some r) :
    ∃ l, diffList S positive negative = some l ∧ Covered ring r ⊆ (⋃ p ∈ l, region p) ∧ (Cuttable S → Covered ring r = ⋃ p ∈ l, region p) ∧ ∀ c ∈ r, ∃ q, S.holes q = [] ∧ S.exterior q = c ∧ c ≠ [] := by
  obtain ⟨l, hl, h⟩ := Option.bind_eq_some_iff.1 h
  obtain ⟨rs, hrs, rfl⟩ := Option.map_eq_some_iff.1 h
  obtain ⟨m1, m2⟩ := mapM_some_mem _ _ _ hrs
  have hsub : Covered ring rs.flatten ⊆ ⋃ p ∈ l, region p := by
    intro a ha
    obtain ⟨c, hc, hac⟩ := (covered_flatten ring rs a).1 ha
    obtain ⟨q, hq, e⟩ := m2 c hc
    simp only [Set.mem_iUnion, exists_prop]
    exact ⟨q, hq, (splitHoles_cover S region ring hS _ q c e).1 hac⟩
  refine ⟨l, hl, hsub, fun hC => Set.Subset.antisymm hsub ?_, ?_⟩
  · intro a ha
    simp only [Set.mem_iUnion, exists_prop] at ha
    obtain ⟨q, hq, ha⟩ := ha
    obtain ⟨c, hc, e⟩ := m1 q hq
    exact (covered_flatten ring rs a).2 ⟨c, hc, (splitHoles_cover S region ring hS _ q c e).2.1 hC ha⟩
  · intro c hc
    obtain ⟨cs, hl', hcl⟩ := List.mem_flatten.1 hc
    obtain ⟨q, hq, e⟩ := m2 cs hl'
    exact (splitHoles_cover S region ring hS _ q cs e).2.2 c hcl

theorem splitHoles_total (S : Shapely) (hO : Opens S) : ∀ (n : Nat) (p : S.Poly), (S.holes p).length < n → ∃ r, splitHoles S n p = some r := by
  intro n
  induction n with
  | zero => intro p h; omega
  | succ n ih =>
    intro p h
    unfold splitHoles
    rcases hh : S.holes p with _ | ⟨hole, rest⟩
    · dsimp only
      split
      · exact ⟨_, rfl⟩
      · exact ⟨_, rfl⟩
    · dsimp only
      rcases hf : firstCut S p hole with _ | s
      · exact ⟨_, rfl⟩
      · obtain ⟨v, hv, rfl, hl⟩ := firstCut_some S p hole s hf
        obtain ⟨r, hr⟩ := mapM_total (splitHoles S n) _ fun q hq => ih q (by have := hO p _ hl q hq; omega)
        exact ⟨r.flatten, by dsimp only; rw [hr]; rfl⟩

/-- the recursion ends: its depth is at most the number of holes. So there's a result if shapely returns polygons, and only then -/
theorem terminates (S : Shapely) (hO : Opens S) (positive negative : List Pt) :
    (∀ l depth, diffList S positive negative = some l → (∀ p ∈ l, (S.holes p).length < depth) → ∃ r, polygonDifference S depth positive negative = some r) ∧
    (∀ depth, (S.difference positive negative = .other ∨ ∃ l, S.difference positive negative = .many l ∧ none ∈ l) → polygonDifference S depth positive negative = none) := by
  constructor
  · intro l depth hl hd
    obtain ⟨r, hr⟩ := mapM_total (splitHoles S depth) l fun p hp => splitHoles_total S hO depth p (hd p hp)
    exact ⟨r.flatten, by simp [polygonDifference, hl, hr]⟩
  · intro depth h
    have : diffList S positive negative = none := by
      unfold diffList
      rcases h with h | ⟨l, h, hn⟩
      · rw [h]
      · rw [h]
        dsimp only
        rcases hm : l.mapM id with _ | r
        · rfl
        · obtain ⟨b, _, e⟩ := (mapM_some_mem id l r hm).1 none hn
          cases e
    simp [polygonDifference, this]

/-- the line goes through the centroid and the vertex: it has the points v + t (c - v) for t in [-99,100], and no others. Its ends are within 100 times the distance between the two from the centroid -/
theorem cut_meaning (c v : Pt) :
    (∀ t : ℝ, -99 ≤ t → t ≤ 100 → ∃ u : ℝ, 0 ≤ u ∧ u ≤ 1 ∧ v.1 + t * (c.1 - v.1) = (1 - u) * (cut c v).1.1 + u * (cut c v).2.1 ∧ v.2 + t * (c.2 - v.2) = (1 - u) * (cut c v).1.2 + u * (cut c v).2.2) ∧
    (∀ u : ℝ, 0 ≤ u → u ≤ 1 → ∃ t : ℝ, -99 ≤ t ∧ t ≤ 100 ∧ v.1 + t * (c.1 - v.1) = (1 - u) * (cut c v).1.1 + u * (cut c v).2.1 ∧ v.2 + t * (c.2 - v.2) = (1 - u) * (cut c v).1.2 + u * (cut c v).2.2) := by
  constructor
  · intro t h1 h2
    refine ⟨(100 - t) / 199, by linarith, by linarith, ?_, ?_⟩ <;> simp only [cut] <;> ring
  · intro u h1 h2
    refine ⟨100 - 199 * u, by linarith, by linarith, ?_, ?_⟩ <;> simp only [cut] <;> ring

/-- The code doesn't return the difference if the hole is small compared to the polygon: the line ends inside of the polygon, so it doesn't cut anything, and the whole polygon is left out. Here `ball` says that all the
points within 100 r of the centroid of the only hole are inside of the exterior; `stays` says that a line whose ends are both inside of the exterior of this polygon leaves one piece,
which is so if its only hole is convex -/
theorem tiny_hole_wrong (S : Shapely) (positive negative : List Pt) (p : S.Poly) (inside : Set Pt) (stays : ∀ a b, a ∈ inside → b ∈ inside → S.split p (a, b) = [p])
    (hd : S.difference positive negative = .one p) (hole : List Pt) (hh : S.holes p = [hole]) (r : ℝ)
    (near : ∀ v ∈ hole, (v.1 - (S.centroid hole).1) ^ 2 + (v.2 - (S.centroid hole).2) ^ 2 ≤ r ^ 2)
    (ball : ∀ a : Pt, (a.1 - (S.centroid hole).1) ^ 2 + (a.2 - (S.centroid hole).2) ^ 2 ≤ (100 * r) ^ 2 → a ∈ inside) (depth : Nat) (h0 : 0 < depth) :
    polygonDifference S depth positive negative = some [] := by
  have hf : firstCut S p hole = none := by
    rw [firstCut_none]
    intro v hv
    have hn := near v hv
    have e : S.split p (cut (S.centroid hole) v) = [p] := by
      apply stays
      · apply ball
        simp only [cut]
        nlinarith
      · apply ball
        simp only [cut]
        nlinarith
    rw [e]
    simp
  obtain ⟨n, rfl⟩ : ∃ n, depth = n + 1 := ⟨depth - 1, by omega⟩
  have : splitHoles S (n + 1) p = some [] := by
    unfold splitHoles
    rw [hh]
    dsimp only
    rw [hf]
  simp [polygonDifference, diffList, hd, this]

/-! ### the hypotheses can be met -/

/-- a square with a square hole, and its two halves -/
inductive T
  | A
  | L
  | R

def leftRing : List Pt := [(0, -2), (-2, -2), (-2, 2), (0, 2), (0, 1), (-1, 1), (-1, -1), (0, -1), (0, -2)]
def rightRing : List Pt := [(1, -2), (2, -2), (2, 2), (0, 2), (0, 1), (1, 1), (1, -1), (0, -1), (0, -2), (1, -2)]

/-- the vertical cut -/
def S1 : Shapely where
  Poly := T
  exterior | .A => [(-2, -2), (2, -2), (2, 2), (-2, 2), (-2, -2)] | .L => leftRing | .R => rightRing
  holes | .A => [[(-1, -1), (1, -1), (1, 1), (-1, 1), (-1, -1)]] | _ => []
  centroid _ := (0, 0)
  split | .A, _ => [.L, .R] | p, _ => [p]
  difference _ _ := .one .A

def region1 : T → Set Pt
  | .A => {a | |a.1| ≤ 2 ∧ |a.2| ≤ 2 ∧ (1 ≤ |a.1| ∨ 1 ≤ |a.2|)}
  | .L => {a | |a.1| ≤ 2 ∧ |a.2| ≤ 2 ∧ (1 ≤ |a.1| ∨ 1 ≤ |a.2|) ∧ a.1 ≤ 0}
  | .R => {a | |a.1| ≤ 2 ∧ |a.2| ≤ 2 ∧ (1 ≤ |a.1| ∨ 1 ≤ |a.2|) ∧ 0 ≤ a.1}

open Classical in
noncomputable def ring1 (c : List Pt) : Set Pt := if c = leftRing then region1 .L else region1 .R

theorem rings_differ : rightRing ≠ leftRing := by simp [leftRing, rightRing]

theorem union_two (f : T → Set Pt) (a b : T) : (⋃ s ∈ [a, b], f s) = f a ∪ f b := by simp
theorem union_one (f : T → Set Pt) (a : T) : (⋃ s ∈ [a], f s) = f a := by simp

theorem sound1 : Sound S1 region1 ring1 := by
  refine ⟨?_, ?_, ?_⟩
  · intro p h _
    cases p with
    | A => cases h
    | L => exact (if_pos rfl).symm
    | R => exact (if_neg rings_differ).symm
  · intro p h1 h2
    cases p with
    | A => cases h1
    | L => cases h2
    | R => cases h2
  · intro p l
    cases p with
    | A =>
      refine Eq.trans ?_ (union_two region1 .L .R).symm
      ext a
      simp only [region1, Set.mem_union, Set.mem_ofPred_eq]
      rcases le_total a.1 0 with h | h
      · constructor
        · rintro ⟨h1, h2, h3⟩; exact Or.inl ⟨h1, h2, h3, h⟩
        · rintro (⟨h1, h2, h3, _⟩ | ⟨h1, h2, h3, _⟩) <;> exact ⟨h1, h2, h3⟩
      · constructor
        · rintro ⟨h1, h2, h3⟩; exact Or.inr ⟨h1, h2, h3, h⟩
        · rintro (⟨h1, h2, h3, _⟩ | ⟨h1, h2, h3, _⟩) <;> exact ⟨h1, h2, h3⟩
    | L => exact (union_one region1 .L).symm
    | R => exact (union_one region1 .R).symm

theorem cuttable1 : Cuttable S1 := by
  intro p hole rest h
  cases p with
  | A =>
    have : hole = [(-1, -1), (1, -1), (1, 1), (-1, 1), (-1, -1)] := (List.cons.inj h).1.symm
    subst this
    exact ⟨(-1, -1), List.mem_cons_self, by simp [S1]⟩
  | L => cases h
  | R => cases h

theorem opens1 : Opens S1 := by
  intro p l h s hs
  cases p with
  | A =>
    have hs : s ∈ ([T.L, T.R] : List T) := hs
    rcases List.mem_cons.1 hs with rfl | hs
    · exact Nat.one_pos
    · rcases List.mem_cons.1 hs with rfl | hs
      · exact Nat.one_pos
      · cases hs
  | L => simp [S1] at h
  | R => simp [S1] at h

/-- union_partial, terminates: the two halves are returned; together these are the square with the hole -/
example : ∃ r, polygonDifference S1 2 [] [] = some r ∧ Covered ring1 r = region1 .A := by
  obtain ⟨r, hr⟩ := (terminates S1 opens1 [] []).1 [.A] 2 rfl (fun p hp => by rcases List.mem_cons.1 hp with rfl | hp; exacts [Nat.lt_succ_self 1, by cases hp])
  refine ⟨r, hr, ?_⟩
  obtain ⟨l, hl, _, h, _⟩ := union_partial S1 region1 ring1 sound1 2 [] [] r hr
  have : l = [T.A] := (Option.some.inj hl).symm
  subst this
  exact (h cuttable1).trans (union_one region1 .A)

/-- terminates: a collection with something that isn't a polygon -/
example : polygonDifference { S1 with difference := fun _ _ => .many [some .A, none] } 5 [] [] = none :=
  (terminates { S1 with difference := fun _ _ => .many [some .A, none] } opens1 [] []).2 5 (Or.inr ⟨_, rfl, by simp⟩)

/-- a small hole in the square -/
noncomputable def S2 : Shapely where
  Poly := Unit
  exterior _ := [(-2, -2), (2, -2), (2, 2), (-2, 2), (-2, -2)]
  holes _ := [[(-0.01, -0.01), (0.01, -0.01), (0.01, 0.01), (-0.01, 0.01), (-0.01, -0.01)]]
  centroid _ := (0, 0)
  split p _ := [p]
  difference _ _ := .one ()

/-- tiny_hole_wrong: the difference isn't empty, but nothing is returned -/
example : polygonDifference S2 10 [] [] = some [] := by
  refine tiny_hole_wrong S2 [] [] () {a | |a.1| < 2 ∧ |a.2| < 2} (fun _ _ _ _ => rfl) rfl _ rfl 0.015 ?_ ?_ 10 (by norm_num)
  · intro v hv
    simp only [List.mem_cons, List.not_mem_nil, or_false] at hv
    rcases hv with rfl | rfl | rfl | rfl | rfl <;> simp only [S2] <;> norm_num
  · intro a ha
    simp only [S2] at ha
    simp only [Set.mem_ofPred_eq, abs_lt]
    refine ⟨⟨?_, ?_⟩, ?_, ?_⟩ <;> nlinarith [sq_nonneg a.1, sq_nonneg a.2]

end Mrcal.Polygon
