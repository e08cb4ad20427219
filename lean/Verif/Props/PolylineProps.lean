import Verif.Model.Polyline
import Verif.Props.SplineProjectProps

/-! # C112: the contour of the domain of a splined model; densifying a polyline -/

namespace Mrcal.Polyline
open Mrcal Mrcal.Spline

/-! ### specification -/

/-- q is on the segment from a to b -/
def Seg (a b q : P2) : Prop := ∃ s : ℝ, 0 ≤ s ∧ s ≤ 1 ∧ q = ⟨a.x + s * (b.x - a.x), a.y + s * (b.y - a.y)⟩

/-- q is on the polyline -/
def On : List P2 → P2 → Prop
  | [], _ => False
  | [a], q => q = a
  | a :: b :: l, q => Seg a b q ∨ On (b :: l) q

/-- the boundary of a (closed) set: the points in it that have points not in it arbitrarily near -/
def Boundary (S : P2 → Prop) (q : P2) : Prop := S q ∧ ∀ ε > 0, ∃ q' : P2, |q'.x - q.x| < ε ∧ |q'.y - q.y| < ε ∧ ¬ S q'

/-- the grid coordinate t is in the piece of the spline that is used there: it's an interpolation. (Elsewhere the piece nearest to it is extrapolated) -/
def Interpolates (order N : Nat) (t : ℝ) : Prop :=
  if order = 3 then 0 ≤ t - cubicWindow N (truncC t) ∧ t - cubicWindow N (truncC t) ≤ 1
  else -1 / 2 ≤ t - quadWindow N (truncC (t + 0.5)) ∧ t - quadWindow N (truncC (t + 0.5)) ≤ 1 / 2

/-- the domain: where the spline interpolates, in both coordinates -/
def InDomain (order Nx Ny : Nat) (segs : ℝ) (q : P2) : Prop := Interpolates order Nx (gridCoord Nx segs q.x) ∧ Interpolates order Ny (gridCoord Ny segs q.y)

/-! ### polylines -/

/-- a point on a line -/
def pt (a d : P2) (t : ℝ) : P2 := ⟨a.x + t * d.x, a.y + t * d.y⟩

theorem seg_line (a d : P2) (t t' : ℝ) (h : t ≤ t') (q : P2) : Seg (pt a d t) (pt a d t') q ↔ ∃ s, t ≤ s ∧ s ≤ t' ∧ q = pt a d s := by
  constructor
  · rintro ⟨s, h0, h1, rfl⟩
    refine ⟨t + s * (t' - t), by nlinarith, by nlinarith, ?_⟩
    ext <;> simp only [pt] <;> ring
  · rintro ⟨s, h0, h1, rfl⟩
    rcases lt_or_eq_of_le h with hlt | rfl
    · have hp : 0 < t' - t := by linarith
      refine ⟨(s - t) / (t' - t), div_nonneg (by linarith) hp.le, by rw [div_le_one hp]; linarith, ?_⟩
      ext <;> simp only [pt] <;> field_simp <;> ring
    · obtain rfl : s = t := le_antisymm h1 h0
      refine ⟨0, le_refl _, zero_le_one, ?_⟩
      ext <;> simp [pt]

theorem on_line (a d : P2) : ∀ (ts : List ℝ) (t0 tl : ℝ), ts.head? = some t0 → ts.getLast? = some tl → ts.Pairwise (· ≤ ·) → ∀ q, On (ts.map (pt a d)) q ↔ ∃ t, t0 ≤ t ∧ t ≤ tl ∧ q = pt a d t
  | [], _, _, h, _, _, _ => by cases h
  | [t], t0, tl, h, h', _, q => by
    simp only [List.head?_cons, Option.some.injEq, List.getLast?_singleton] at h h'
    subst h h'
    simp only [List.map_cons, List.map_nil, On]
    constructor
    · rintro rfl; exact ⟨t, le_refl _, le_refl _, rfl⟩
    · rintro ⟨s, h0, h1, rfl⟩; rw [le_antisymm h1 h0]
  | t :: t' :: ts, t0, tl, h, h', hp, q => by
    simp only [List.head?_cons, Option.some.injEq] at h
    subst h
    rw [List.getLast?_cons_cons] at h'
    have hp' := List.pairwise_cons.1 hp
    have ht : t ≤ t' := hp'.1 _ List.mem_cons_self
    have ih := on_line a d (t' :: ts) t' tl rfl h' hp'.2 q
    have hl : t' ≤ tl := by
      have hm := List.mem_of_getLast? h'
      rcases List.mem_cons.1 hm with rfl | hm
      · exact le_refl _
      · exact (List.pairwise_cons.1 hp'.2).1 _ hm
    simp only [List.map_cons] at ih ⊢
    show Seg _ _ q ∨ On _ q ↔ _
    rw [ih, seg_line a d t t' ht]
    constructor
    · rintro (⟨s, h0, h1, rfl⟩ | ⟨s, h0, h1, rfl⟩)
      · exact ⟨s, h0, h1.trans hl, rfl⟩
      · exact ⟨s, ht.trans h0, h1, rfl⟩
    · rintro ⟨s, h0, h1, rfl⟩
      rcases le_total s t' with hs | hs
      · exact Or.inl ⟨s, h0, hs, rfl⟩
      · exact Or.inr ⟨s, hs, h1, rfl⟩

theorem on_head (c : P2) (l : List P2) : On (c :: l) c := by
  cases l with
  | nil => rfl
  | cons b l => exact Or.inl ⟨0, le_refl _, zero_le_one, by simp⟩

theorem on_append (c : P2) (l2 : List P2) (q : P2) : ∀ l1, On (l1 ++ c :: l2) q ↔ On (l1 ++ [c]) q ∨ On (c :: l2) q
  | [] => by
    simp only [List.nil_append, On]
    constructor
    · exact Or.inr
    · rintro (rfl | h)
      · exact on_head _ _
      · exact h
  | [a] => by
    show Seg a c q ∨ On (c :: l2) q ↔ (Seg a c q ∨ On [c] q) ∨ On (c :: l2) q
    have := on_append c l2 q []
    simp only [List.nil_append] at this
    tauto
  | a :: b :: l1 => by
    have := on_append c l2 q (b :: l1)
    show Seg a b q ∨ On (b :: l1 ++ c :: l2) q ↔ (Seg a b q ∨ On (b :: l1 ++ [c]) q) ∨ On (c :: l2) q
    rw [this]; tauto

theorem on_append' (a c : P2) (l1 l2 : List P2) (q : P2) : On (a :: (l1 ++ c :: l2)) q ↔ On (a :: (l1 ++ [c])) q ∨ On (c :: l2) q := on_append c l2 q (a :: l1)

theorem on_h_up (y : ℝ) (l : List ℝ) (a b : ℝ) (h0 : l.head? = some a) (h1 : l.getLast? = some b) (hp : l.Pairwise (· ≤ ·)) (q : P2) :
    On (l.map fun x => (⟨x, y⟩ : P2)) q ↔ q.y = y ∧ a ≤ q.x ∧ q.x ≤ b := by
  have := on_line ⟨0, y⟩ ⟨1, 0⟩ l a b h0 h1 hp q
  rw [show (fun x => (⟨x, y⟩ : P2)) = pt ⟨0, y⟩ ⟨1, 0⟩ by funext x; simp [pt], this]
  constructor
  · rintro ⟨t, h, h', rfl⟩; simpa [pt] using ⟨h, h'⟩
  · rintro ⟨h, h', h''⟩; exact ⟨q.x, h', h'', by ext <;> simp [pt, h]⟩

theorem on_v_up (x : ℝ) (l : List ℝ) (a b : ℝ) (h0 : l.head? = some a) (h1 : l.getLast? = some b) (hp : l.Pairwise (· ≤ ·)) (q : P2) :
    On (l.map fun y => (⟨x, y⟩ : P2)) q ↔ q.x = x ∧ a ≤ q.y ∧ q.y ≤ b := by
  have := on_line ⟨x, 0⟩ ⟨0, 1⟩ l a b h0 h1 hp q
  rw [show (fun y => (⟨x, y⟩ : P2)) = pt ⟨x, 0⟩ ⟨0, 1⟩ by funext x; simp [pt], this]
  constructor
  · rintro ⟨t, h, h', rfl⟩; simpa [pt] using ⟨h, h'⟩
  · rintro ⟨h, h', h''⟩; exact ⟨q.y, h', h'', by ext <;> simp [pt, h]⟩

theorem neg_list (l : List ℝ) (a b : ℝ) (h0 : l.head? = some a) (h1 : l.getLast? = some b) (hp : l.Pairwise (· ≥ ·)) :
    (l.map fun x => -x).head? = some (-a) ∧ (l.map fun x => -x).getLast? = some (-b) ∧ (l.map fun x => -x).Pairwise (· ≤ ·) := by
  refine ⟨by rw [List.head?_map, h0]; rfl, by rw [List.getLast?_map, h1]; rfl, ?_⟩
  rw [List.pairwise_map]
  exact hp.imp fun h => neg_le_neg h

theorem on_h_down (y : ℝ) (l : List ℝ) (a b : ℝ) (h0 : l.head? = some a) (h1 : l.getLast? = some b) (hp : l.Pairwise (· ≥ ·)) (q : P2) :
    On (l.map fun x => (⟨x, y⟩ : P2)) q ↔ q.y = y ∧ b ≤ q.x ∧ q.x ≤ a := by
  obtain ⟨e0, e1, ep⟩ := neg_list l a b h0 h1 hp
  have := on_line ⟨0, y⟩ ⟨-1, 0⟩ _ _ _ e0 e1 ep q
  rw [List.map_map] at this
  rw [show (fun x => (⟨x, y⟩ : P2)) = pt ⟨0, y⟩ ⟨-1, 0⟩ ∘ fun x => -x by funext x; simp [pt], this]
  constructor
  · rintro ⟨t, h, h', rfl⟩
    simp only [pt]
    exact ⟨by ring, by linarith, by linarith⟩
  · rintro ⟨h, h', h''⟩; exact ⟨-q.x, by linarith, by linarith, by ext <;> simp [pt, h]⟩

theorem on_v_down (x : ℝ) (l : List ℝ) (a b : ℝ) (h0 : l.head? = some a) (h1 : l.getLast? = some b) (hp : l.Pairwise (· ≥ ·)) (q : P2) :
    On (l.map fun y => (⟨x, y⟩ : P2)) q ↔ q.x = x ∧ b ≤ q.y ∧ q.y ≤ a := by
  obtain ⟨e0, e1, ep⟩ := neg_list l a b h0 h1 hp
  have := on_line ⟨x, 0⟩ ⟨0, -1⟩ _ _ _ e0 e1 ep q
  rw [List.map_map] at this
  rw [show (fun y => (⟨x, y⟩ : P2)) = pt ⟨x, 0⟩ ⟨0, -1⟩ ∘ fun x => -x by funext x; simp [pt], this]
  constructor
  · rintro ⟨t, h, h', rfl⟩
    simp only [pt]
    exact ⟨by ring, by linarith, by linarith⟩
  · rintro ⟨h, h', h''⟩; exact ⟨-q.y, by linarith, by linarith, by ext <;> simp [pt, h]⟩

/-- the contours we have: along the four sides of a rectangle -/
noncomputable def around (xl xh yl yh : ℝ) (T R B L E : List ℝ) : List P2 :=
  T.map (fun x => ⟨x, yl⟩) ++ ⟨xh, yl⟩ :: (R.map (fun y => ⟨xh, y⟩) ++ ⟨xh, yh⟩ :: (B.map (fun x => ⟨x, yh⟩) ++ ⟨xl, yh⟩ :: (L.map (fun y => ⟨xl, y⟩) ++ ⟨xl, yl⟩ :: E.map fun x => ⟨x, yl⟩)))

theorem or_rot (t r b l e : Prop) : (t ∨ r ∨ b ∨ l ∨ e) ↔ (t ∨ e) ∨ r ∨ b ∨ l := by tauto

theorem on_around (xl xh yl yh x0 x1 : ℝ) (T R B L E : List ℝ) (hT : (T ++ [xh]).Pairwise (· ≤ ·)) (hR : (yl :: (R ++ [yh])).Pairwise (· ≤ ·)) (hB : (xh :: (B ++ [xl])).Pairwise (· ≥ ·))
    (hL : (yh :: (L ++ [yl])).Pairwise (· ≥ ·)) (hE : (xl :: E).Pairwise (· ≤ ·)) (h0 : (T ++ [xh]).head? = some x0) (h1 : (xl :: E).getLast? = some x1) (q : P2) :
    On (around xl xh yl yh T R B L E) q ↔ (q.y = yl ∧ ((x0 ≤ q.x ∧ q.x ≤ xh) ∨ (xl ≤ q.x ∧ q.x ≤ x1))) ∨ (q.x = xh ∧ yl ≤ q.y ∧ q.y ≤ yh) ∨ (q.y = yh ∧ xl ≤ q.x ∧ q.x ≤ xh) ∨ (q.x = xl ∧ yl ≤ q.y ∧ q.y ≤ yh) := by
  unfold around
  rw [on_append, on_append' ⟨xh, yl⟩, on_append' ⟨xh, yh⟩, on_append' ⟨xl, yh⟩]
  have e1 := on_h_up yl _ _ _ h0 (List.getLast?_concat ..) hT q
  have e2 := on_v_up xh _ yl yh rfl (by rw [← List.cons_append]; exact List.getLast?_concat ..) hR q
  have e3 := on_h_down yh _ xh xl rfl (by rw [← List.cons_append]; exact List.getLast?_concat ..) hB q
  have e4 := on_v_down xl _ yh yl rfl (by rw [← List.cons_append]; exact List.getLast?_concat ..) hL q
  have e5 := on_h_up yl _ _ _ rfl h1 hE q
  simp only [List.map_append, List.map_cons, List.map_nil] at e1 e2 e3 e4 e5
  rw [e1, e2, e3, e4, e5, and_or_left]
  exact or_rot _ _ _ _ _

/-! ### the domain -/

/-- the margin: half a segment with order 2, a segment with order 3 -/
noncomputable def margin (order : Nat) : ℝ := if order = 3 then 1 else 1 / 2

theorem interpolates_iff (order N : Nat) (hN : (order = 2 ∧ 3 ≤ N) ∨ (order = 3 ∧ 4 ≤ N)) (t : ℝ) : Interpolates order N t ↔ margin order ≤ t ∧ t ≤ (N : ℝ) - 1 - margin order := by
  unfold Interpolates margin
  rcases hN with ⟨rfl, hN⟩ | ⟨rfl, hN⟩
  · simp only [Nat.reduceEqDiff, if_false]
    constructor
    · rintro ⟨h0, h1⟩
      have hw := quad_win N (by omega) t
      have a : (1 : ℝ) ≤ (quadWindow N (truncC (t + 0.5)) : Int) := by exact_mod_cast hw.lo_le
      have b : ((quadWindow N (truncC (t + 0.5)) : Int) : ℝ) ≤ N - 2 := by exact_mod_cast hw.le_hi
      constructor <;> linarith
    · rintro ⟨h0, h1⟩; exact covered_quad N hN t h0 h1
  · simp only [if_true]
    constructor
    · rintro ⟨h0, h1⟩
      have hw := cubic_win N (by omega) t
      have a : (1 : ℝ) ≤ (cubicWindow N (truncC t) : Int) := by exact_mod_cast hw.lo_le
      have b : ((cubicWindow N (truncC t) : Int) : ℝ) ≤ N - 3 := by exact_mod_cast hw.le_hi
      constructor <;> linarith
    · rintro ⟨h0, h1⟩; exact covered_cubic N hN t h0 h1

/-- the boundary of a rectangle -/
theorem boundary_rect (xl xh yl yh : ℝ) (S : P2 → Prop) (hS : ∀ q, S q ↔ (xl ≤ q.x ∧ q.x ≤ xh) ∧ yl ≤ q.y ∧ q.y ≤ yh) (q : P2) :
    Boundary S q ↔ ((xl ≤ q.x ∧ q.x ≤ xh) ∧ yl ≤ q.y ∧ q.y ≤ yh) ∧ (q.x = xl ∨ q.x = xh ∨ q.y = yl ∨ q.y = yh) := by
  unfold Boundary
  rw [hS]
  refine and_congr_right fun hq => ?_
  obtain ⟨⟨a, b⟩, c, d⟩ := hq
  constructor
  · intro h
    by_contra hne
    push Not at hne
    obtain ⟨n1, n2, n3, n4⟩ := hne
    have a' := lt_of_le_of_ne a n1.symm
    have b' := lt_of_le_of_ne b n2
    have c' := lt_of_le_of_ne c n3.symm
    have d' := lt_of_le_of_ne d n4
    obtain ⟨q', h1, h2, h3⟩ := h (min (min (q.x - xl) (xh - q.x)) (min (q.y - yl) (yh - q.y))) (by
      refine lt_min (lt_min ?_ ?_) (lt_min ?_ ?_) <;> linarith)
    rw [lt_min_iff, lt_min_iff, lt_min_iff] at h1 h2
    rw [hS] at h3
    obtain ⟨⟨h11, h12⟩, -⟩ := h1
    obtain ⟨-, h23, h24⟩ := h2
    rw [abs_lt] at h11 h12 h23 h24
    exact h3 ⟨⟨by linarith [h11.1], by linarith [h12.2]⟩, by linarith [h23.1], by linarith [h24.2]⟩
  · intro h ε hε
    have key : |(0 : ℝ)| < ε := by rwa [abs_zero]
    have key2 : |ε / 2| < ε := by rw [abs_of_pos (by linarith)]; linarith
    have key3 : |-(ε / 2)| < ε := by rw [abs_neg]; exact key2
    rcases h with h | h | h | h
    · refine ⟨⟨q.x - ε / 2, q.y⟩, by simpa using key3, by simpa using key, fun hs => ?_⟩
      have := ((hS _).1 hs).1.1
      simp only at this; linarith
    · refine ⟨⟨q.x + ε / 2, q.y⟩, by simpa using key2, by simpa using key, fun hs => ?_⟩
      have := ((hS _).1 hs).1.2
      simp only at this; linarith
    · refine ⟨⟨q.x, q.y - ε / 2⟩, by simpa using key, by simpa using key3, fun hs => ?_⟩
      have := ((hS _).1 hs).2.1
      simp only at this; linarith
    · refine ⟨⟨q.x, q.y + ε / 2⟩, by simpa using key, by simpa using key2, fun hs => ?_⟩
      have := ((hS _).1 hs).2.2
      simp only at this; linarith

/-- the grid coordinate m, back in u -/
noncomputable def at_ (N : Nat) (segs m : ℝ) : ℝ := (m - ((N : ℝ) - 1) / 2) / segs

theorem knot_at (N : Nat) (segs : ℝ) (i : Nat) : knot N segs i = at_ N segs i := by
  unfold knot at_; push_cast; rfl

theorem at_mono (N : Nat) (segs : ℝ) (h : 0 < segs) (a b : ℝ) (hab : a ≤ b) : at_ N segs a ≤ at_ N segs b := by
  unfold at_
  exact div_le_div_of_nonneg_right (by linarith) h.le

theorem grid_ge (N : Nat) (segs : ℝ) (h : 0 < segs) (m x : ℝ) : m ≤ gridCoord N segs x ↔ at_ N segs m ≤ x := by
  unfold gridCoord at_
  rw [div_le_iff₀ h]
  push_cast
  constructor <;> intro h <;> linarith

theorem grid_le (N : Nat) (segs : ℝ) (h : 0 < segs) (m x : ℝ) : gridCoord N segs x ≤ m ↔ x ≤ at_ N segs m := by
  unfold gridCoord at_
  rw [le_div_iff₀ h]
  push_cast
  constructor <;> intro h <;> linarith

theorem domain_rect (order Nx Ny : Nat) (h : Accepted order Nx Ny) (segs : ℝ) (hs : 0 < segs) (q : P2) :
    InDomain order Nx Ny segs q ↔ (at_ Nx segs (margin order) ≤ q.x ∧ q.x ≤ at_ Nx segs ((Nx : ℝ) - 1 - margin order)) ∧
      at_ Ny segs (margin order) ≤ q.y ∧ q.y ≤ at_ Ny segs ((Ny : ℝ) - 1 - margin order) := by
  unfold InDomain
  rw [interpolates_iff order Nx (by unfold Accepted at h; omega), interpolates_iff order Ny (by unfold Accepted at h; omega), grid_ge _ _ hs, grid_le _ _ hs, grid_ge _ _ hs, grid_le _ _ hs]

theorem mem_upto (a b i : Nat) : i ∈ upto a b ↔ a ≤ i ∧ i < b := by
  unfold upto
  simp only [List.mem_map, List.mem_range]
  constructor
  · rintro ⟨k, hk, rfl⟩; omega
  · rintro ⟨h0, h1⟩; exact ⟨i - a, by omega, by omega⟩

theorem mem_downto (a b i : Nat) : i ∈ downto a b ↔ b < i ∧ i ≤ a := by
  unfold downto
  simp only [List.mem_map, List.mem_range]
  constructor
  · rintro ⟨k, hk, rfl⟩; omega
  · rintro ⟨h0, h1⟩; exact ⟨a - i, by omega, by omega⟩

theorem upto_sorted (a b : Nat) : (upto a b).Pairwise (· ≤ ·) := by
  unfold upto
  rw [List.pairwise_map]
  exact List.pairwise_lt_range.imp fun h => by omega

theorem downto_sorted (a b : Nat) : (downto a b).Pairwise (· ≥ ·) := by
  unfold downto
  rw [List.pairwise_map]
  exact List.pairwise_lt_range.imp fun h => by omega

theorem upto_cons (a b : Nat) (h : a < b) : upto a b = a :: upto (a + 1) b := by
  unfold upto
  obtain ⟨n, hn⟩ : ∃ n, b - a = n + 1 := ⟨b - a - 1, by omega⟩
  rw [hn, List.range_succ_eq_map, List.map_cons, List.map_map, show b - (a + 1) = n by omega]
  simp only [Nat.add_zero, List.cons.injEq, true_and]
  exact List.map_congr_left fun i _ => by simp only [Function.comp_apply]; omega

theorem downto_cons (a b : Nat) (h : b < a) : downto a b = a :: downto (a - 1) b := by
  unfold downto
  obtain ⟨n, hn⟩ : ∃ n, a - b = n + 1 := ⟨a - b - 1, by omega⟩
  rw [hn, List.range_succ_eq_map, List.map_cons, List.map_map, show a - 1 - b = n by omega]
  simp only [Nat.sub_zero, List.cons.injEq, true_and]
  exact List.map_congr_left fun i _ => by simp only [Function.comp_apply]; omega

theorem downto_snoc (a b : Nat) (h : b < a) : downto a b = downto a (b + 1) ++ [b + 1] := by
  unfold downto
  obtain ⟨n, hn⟩ : ∃ n, a - b = n + 1 := ⟨a - b - 1, by omega⟩
  rw [hn, List.range_succ, List.map_append, show a - (b + 1) = n by omega]
  simp only [List.map_cons, List.map_nil, List.append_cancel_left_eq, List.cons.injEq, and_true]
  omega

/-- ascending values, between two limits -/
theorem ascending (N : Nat) (segs : ℝ) (hs : 0 < segs) (a b : Nat) (lo hi : ℝ) (h : ∀ i ∈ upto a b, lo ≤ (i : ℝ) ∧ (i : ℝ) ≤ hi) (hlh : lo ≤ hi) :
    (at_ N segs lo :: ((upto a b).map (fun (i : Nat) => at_ N segs i) ++ [at_ N segs hi])).Pairwise (· ≤ ·) := by
  rw [List.pairwise_cons, List.pairwise_append]
  refine ⟨?_, ?_, List.pairwise_singleton _ _, ?_⟩
  · intro v hv
    rw [List.mem_append, List.mem_map, List.mem_singleton] at hv
    rcases hv with ⟨i, hi', rfl⟩ | rfl
    · exact at_mono _ _ hs _ _ (h i hi').1
    · exact at_mono _ _ hs _ _ hlh
  · rw [List.pairwise_map]
    exact (upto_sorted a b).imp fun h => at_mono _ _ hs _ _ (by exact_mod_cast h)
  · intro v hv w hw
    rw [List.mem_map] at hv
    obtain ⟨i, hi', rfl⟩ := hv
    rw [List.mem_singleton] at hw
    subst hw
    exact at_mono _ _ hs _ _ (h i hi').2

theorem descending (N : Nat) (segs : ℝ) (hs : 0 < segs) (a b : Nat) (lo hi : ℝ) (h : ∀ i ∈ downto a b, lo ≤ (i : ℝ) ∧ (i : ℝ) ≤ hi) (hlh : lo ≤ hi) :
    (at_ N segs hi :: ((downto a b).map (fun (i : Nat) => at_ N segs i) ++ [at_ N segs lo])).Pairwise (· ≥ ·) := by
  rw [List.pairwise_cons, List.pairwise_append]
  refine ⟨?_, ?_, List.pairwise_singleton _ _, ?_⟩
  · intro v hv
    rw [List.mem_append, List.mem_map, List.mem_singleton] at hv
    rcases hv with ⟨i, hi', rfl⟩ | rfl
    · exact at_mono _ _ hs _ _ (h i hi').2
    · exact at_mono _ _ hs _ _ hlh
  · rw [List.pairwise_map]
    exact (downto_sorted a b).imp fun h => at_mono _ _ hs _ _ (by exact_mod_cast h)
  · intro v hv w hw
    rw [List.mem_map] at hv
    obtain ⟨i, hi', rfl⟩ := hv
    rw [List.mem_singleton] at hw
    subst hw
    exact at_mono _ _ hs _ _ (h i hi').1

theorem cubic_around (Nx Ny : Nat) (hx : 4 ≤ Nx) (hy : 4 ≤ Ny) (segs : ℝ) : splineDomain 3 Nx Ny segs =
    some (around (at_ Nx segs 1) (at_ Nx segs ((Nx : ℝ) - 1 - 1)) (at_ Ny segs 1) (at_ Ny segs ((Ny : ℝ) - 1 - 1)) ((upto 1 (Nx - 2)).map fun (i : Nat) => at_ Nx segs i) ((upto 2 (Ny - 2)).map fun (i : Nat) => at_ Ny segs i)
      ((downto (Nx - 3) 1).map fun (i : Nat) => at_ Nx segs i) ((downto (Ny - 3) 1).map fun (i : Nat) => at_ Ny segs i) []) := by
  unfold splineDomain around
  simp only [Nat.reduceEqDiff, if_false, if_true]
  rw [upto_cons 1 (Ny - 2) (by omega), downto_cons (Nx - 2) 1 (by omega), downto_cons (Ny - 2) 0 (by omega), show Nx - 2 - 1 = Nx - 3 by omega, show Ny - 2 - 1 = Ny - 3 by omega,
    downto_snoc (Ny - 3) 0 (by omega)]
  have e1 : ((Nx - 2 : Nat) : ℝ) = (Nx : ℝ) - 1 - 1 := by rw [Nat.cast_sub (by omega)]; push_cast; ring
  have e2 : ((Ny - 2 : Nat) : ℝ) = (Ny : ℝ) - 1 - 1 := by rw [Nat.cast_sub (by omega)]; push_cast; ring
  simp [u, knot_at, e1, e2, Function.comp_def]

theorem quad_around (Nx Ny : Nat) (hx : 3 ≤ Nx) (hy : 3 ≤ Ny) (segs : ℝ) : splineDomain 2 Nx Ny segs =
    some (around (at_ Nx segs (1 / 2)) (at_ Nx segs ((Nx : ℝ) - 1 - 1 / 2)) (at_ Ny segs (1 / 2)) (at_ Ny segs ((Ny : ℝ) - 1 - 1 / 2)) ((upto 1 (Nx - 2)).map fun (i : Nat) => at_ Nx segs i)
      ((upto 1 (Ny - 2)).map fun (i : Nat) => at_ Ny segs i) ((downto (Nx - 2) 1).map fun (i : Nat) => at_ Nx segs i) ((downto (Ny - 2) 0).map fun (i : Nat) => at_ Ny segs i) [at_ Nx segs 1]) := by
  unfold splineDomain around
  have e1 : ((Nx - 2 : Nat) : ℝ) = (Nx : ℝ) - 2 := by rw [Nat.cast_sub (by omega)]; push_cast; ring
  have e2 : ((Ny - 2 : Nat) : ℝ) = (Ny : ℝ) - 2 := by rw [Nat.cast_sub (by omega)]; push_cast; ring
  have e3 : ((Nx - 1 : Nat) : ℝ) = (Nx : ℝ) - 1 := by rw [Nat.cast_sub (by omega)]; push_cast; ring
  have e4 : ((Ny - 1 : Nat) : ℝ) = (Ny : ℝ) - 1 := by rw [Nat.cast_sub (by omega)]; push_cast; ring
  have m2 : ∀ N : Nat, ∀ a b : ℝ, (at_ N segs a + at_ N segs b) / 2 = at_ N segs ((a + b) / 2) := fun N a b => by unfold at_; ring
  have m1 : ∀ a : ℝ, (a + a) / 2 = a := fun a => by ring
  have m4 : ∀ N : Nat, ∀ a b c d : ℝ, (at_ N segs a + at_ N segs b + at_ N segs c + at_ N segs d) / 4 = at_ N segs ((a + b + c + d) / 4) := fun N a b c d => by unfold at_; ring
  simp only [if_true, u, knot_at, mean2, mean4, m2, m4, e1, e2, e3, e4, List.append_assoc, List.cons_append, List.nil_append, List.map_map, Function.comp_def, m1, List.map_cons, List.map_nil, Nat.cast_zero, Nat.cast_one,
    Option.some.injEq]
  rw [show ((0 : ℝ) + 1) / 2 = 1 / 2 by norm_num, show (0 + 1 + 0 + 1 : ℝ) / 4 = 1 / 2 by norm_num, show (1 + 1 + 0 + 0 : ℝ) / 4 = 1 / 2 by norm_num, show (0 + 0 + 1 + 1 : ℝ) / 4 = 1 / 2 by norm_num,
    show ((Nx : ℝ) - 2 + ((Nx : ℝ) - 2) + ((Nx : ℝ) - 1) + ((Nx : ℝ) - 1)) / 4 = (Nx : ℝ) - 1 - 1 / 2 by ring, show ((Nx : ℝ) - 2 + ((Nx : ℝ) - 1)) / 2 = (Nx : ℝ) - 1 - 1 / 2 by ring,
    show ((Ny : ℝ) - 2 + ((Ny : ℝ) - 1) + ((Ny : ℝ) - 2) + ((Ny : ℝ) - 1)) / 4 = (Ny : ℝ) - 1 - 1 / 2 by ring, show ((Ny : ℝ) - 2 + ((Ny : ℝ) - 1)) / 2 = (Ny : ℝ) - 1 - 1 / 2 by ring]

theorem around_boundary (xl xh yl yh x0 x1 : ℝ) (hx : xl ≤ xh) (hy : yl ≤ yh) (h0 : xl ≤ x0) (h01 : x0 ≤ x1) (h1 : x1 ≤ xh) (q : P2) :
    ((q.y = yl ∧ ((x0 ≤ q.x ∧ q.x ≤ xh) ∨ (xl ≤ q.x ∧ q.x ≤ x1))) ∨ (q.x = xh ∧ yl ≤ q.y ∧ q.y ≤ yh) ∨ (q.y = yh ∧ xl ≤ q.x ∧ q.x ≤ xh) ∨ (q.x = xl ∧ yl ≤ q.y ∧ q.y ≤ yh)) ↔
      ((xl ≤ q.x ∧ q.x ≤ xh) ∧ yl ≤ q.y ∧ q.y ≤ yh) ∧ (q.x = xl ∨ q.x = xh ∨ q.y = yl ∨ q.y = yh) := by
  constructor
  · rintro (⟨h, ⟨a, b⟩ | ⟨a, b⟩⟩ | ⟨h, a, b⟩ | ⟨h, a, b⟩ | ⟨h, a, b⟩)
    · exact ⟨⟨⟨by linarith, by linarith⟩, by linarith, by linarith⟩, Or.inr (Or.inr (Or.inl h))⟩
    · exact ⟨⟨⟨by linarith, by linarith⟩, by linarith, by linarith⟩, Or.inr (Or.inr (Or.inl h))⟩
    · exact ⟨⟨⟨by linarith, by linarith⟩, by linarith, by linarith⟩, Or.inr (Or.inl h)⟩
    · exact ⟨⟨⟨by linarith, by linarith⟩, by linarith, by linarith⟩, Or.inr (Or.inr (Or.inr h))⟩
    · exact ⟨⟨⟨by linarith, by linarith⟩, by linarith, by linarith⟩, Or.inl h⟩
  · rintro ⟨⟨⟨a, b⟩, c, d⟩, h | h | h | h⟩
    · exact Or.inr (Or.inr (Or.inr ⟨h, c, d⟩))
    · exact Or.inr (Or.inl ⟨h, c, d⟩)
    · refine Or.inl ⟨h, ?_⟩
      rcases le_total x0 q.x with h' | h'
      · exact Or.inl ⟨h', b⟩
      · exact Or.inr ⟨a, by linarith⟩
    · exact Or.inr (Or.inr (Or.inl ⟨h, a, b⟩))

theorem around_last (xl xh yl yh x1 : ℝ) (T R B L E : List ℝ) (h1 : (xl :: E).getLast? = some x1) : (around xl xh yl yh T R B L E).getLast? = some ⟨x1, yl⟩ := by
  have : around xl xh yl yh T R B L E = (T.map (fun x => (⟨x, yl⟩ : P2)) ++ ⟨xh, yl⟩ :: (R.map (fun y => ⟨xh, y⟩) ++ ⟨xh, yh⟩ :: (B.map (fun x => ⟨x, yh⟩) ++ ⟨xl, yh⟩ :: (L.map (fun y => ⟨xl, y⟩))))) ++
      (xl :: E).map fun x => (⟨x, yl⟩ : P2) := by
    unfold around; simp
  rw [this, List.getLast?_append, List.getLast?_map, h1]
  rfl

theorem around_head (xl xh yl yh x0 : ℝ) (T R B L E : List ℝ) (h0 : (T ++ [xh]).head? = some x0) : (around xl xh yl yh T R B L E).head? = some ⟨x0, yl⟩ := by
  unfold around
  cases T with
  | nil => simp only [List.nil_append, List.head?_cons, Option.some.injEq] at h0; subst h0; rfl
  | cons t T => simp only [List.cons_append, List.head?_cons, Option.some.injEq] at h0; subst h0; rfl

/-- **C112**: the reported domain of a cubic model is a closed polyline, and it's the boundary of where the spline interpolates -/
theorem domain_cubic (Nx Ny : Nat) (hx : 4 ≤ Nx) (hy : 4 ≤ Ny) (segs : ℝ) (hs : 0 < segs) :
    ∃ c, splineDomain 3 Nx Ny segs = some c ∧ c ≠ [] ∧ c.head? = c.getLast? ∧ ∀ q, On c q ↔ Boundary (InDomain 3 Nx Ny segs) q := by
  have hX : (4 : ℝ) ≤ Nx := by exact_mod_cast hx
  have hY : (4 : ℝ) ≤ Ny := by exact_mod_cast hy
  have hm : margin 3 = 1 := if_pos rfl
  have up : ∀ (N a i : Nat), 4 ≤ N → 1 ≤ a → i ∈ upto a (N - 2) → (1 : ℝ) ≤ i ∧ (i : ℝ) ≤ (N : ℝ) - 1 - 1 := by
    intro N a i hN ha hi
    rw [mem_upto] at hi
    have : (i : ℝ) + 2 ≤ N := by exact_mod_cast (by omega : i + 2 ≤ N)
    exact ⟨by exact_mod_cast (by omega : 1 ≤ i), by linarith⟩
  have dn : ∀ (N i : Nat), 4 ≤ N → i ∈ downto (N - 3) 1 → (1 : ℝ) ≤ i ∧ (i : ℝ) ≤ (N : ℝ) - 1 - 1 := by
    intro N i hN hi
    rw [mem_downto] at hi
    have : (i : ℝ) + 2 ≤ N := by exact_mod_cast (by omega : i + 2 ≤ N)
    exact ⟨by exact_mod_cast (by omega : 1 ≤ i), by linarith⟩
  have h0 : ((upto 1 (Nx - 2)).map (fun (i : Nat) => at_ Nx segs i) ++ [at_ Nx segs ((Nx : ℝ) - 1 - 1)]).head? = some (at_ Nx segs 1) := by
    rw [upto_cons 1 (Nx - 2) (by omega)]; simp
  refine ⟨_, cubic_around Nx Ny hx hy segs, ?_, ?_, fun q => ?_⟩
  · intro h
    have := around_last (at_ Nx segs 1) (at_ Nx segs ((Nx : ℝ) - 1 - 1)) (at_ Ny segs 1) (at_ Ny segs ((Ny : ℝ) - 1 - 1)) (at_ Nx segs 1) ((upto 1 (Nx - 2)).map fun (i : Nat) => at_ Nx segs i)
      ((upto 2 (Ny - 2)).map fun (i : Nat) => at_ Ny segs i) ((downto (Nx - 3) 1).map fun (i : Nat) => at_ Nx segs i) ((downto (Ny - 3) 1).map fun (i : Nat) => at_ Ny segs i) [] rfl
    rw [h] at this; cases this
  · rw [around_head _ _ _ _ _ _ _ _ _ _ h0, around_last _ _ _ _ (at_ Nx segs 1) _ _ _ _ _ rfl]
  · rw [boundary_rect _ _ _ _ _ (domain_rect 3 Nx Ny (Or.inr ⟨rfl, hx, hy⟩) segs hs), hm]
    rw [on_around _ _ _ _ (at_ Nx segs 1) (at_ Nx segs 1) _ _ _ _ _ (List.pairwise_cons.1 (ascending Nx segs hs 1 (Nx - 2) 1 _ (fun i hi => up Nx 1 i hx (le_refl _) hi) (by linarith))).2
      (ascending Ny segs hs 2 (Ny - 2) 1 _ (fun i hi => up Ny 2 i hy (by norm_num) hi) (by linarith)) (descending Nx segs hs _ _ 1 _ (fun i hi => dn Nx i hx hi) (by linarith))
      (descending Ny segs hs _ _ 1 _ (fun i hi => dn Ny i hy hi) (by linarith)) (List.pairwise_singleton _ _) h0 rfl]
    exact around_boundary _ _ _ _ _ _ (at_mono _ _ hs _ _ (by linarith)) (at_mono _ _ hs _ _ (by linarith)) (le_refl _) (le_refl _) (at_mono _ _ hs _ _ (by linarith)) q

example : (4 : Nat) ≤ 30 ∧ (4 : Nat) ≤ 20 ∧ (0 : ℝ) < 7.5 := ⟨by norm_num, by norm_num, by norm_num⟩

theorem on_quad (Nx Ny : Nat) (hx : 3 ≤ Nx) (hy : 3 ≤ Ny) (segs : ℝ) (hs : 0 < segs) (x0 : ℝ)
    (h0 : ((upto 1 (Nx - 2)).map (fun (i : Nat) => at_ Nx segs i) ++ [at_ Nx segs ((Nx : ℝ) - 1 - 1 / 2)]).head? = some x0) :
    ∃ c, splineDomain 2 Nx Ny segs = some c ∧ c.head? = some ⟨x0, at_ Ny segs (1 / 2)⟩ ∧ c.getLast? = some ⟨at_ Nx segs 1, at_ Ny segs (1 / 2)⟩ ∧
      ∀ q, On c q ↔ (q.y = at_ Ny segs (1 / 2) ∧ ((x0 ≤ q.x ∧ q.x ≤ at_ Nx segs ((Nx : ℝ) - 1 - 1 / 2)) ∨ (at_ Nx segs (1 / 2) ≤ q.x ∧ q.x ≤ at_ Nx segs 1))) ∨
        (q.x = at_ Nx segs ((Nx : ℝ) - 1 - 1 / 2) ∧ at_ Ny segs (1 / 2) ≤ q.y ∧ q.y ≤ at_ Ny segs ((Ny : ℝ) - 1 - 1 / 2)) ∨
        (q.y = at_ Ny segs ((Ny : ℝ) - 1 - 1 / 2) ∧ at_ Nx segs (1 / 2) ≤ q.x ∧ q.x ≤ at_ Nx segs ((Nx : ℝ) - 1 - 1 / 2)) ∨
        (q.x = at_ Nx segs (1 / 2) ∧ at_ Ny segs (1 / 2) ≤ q.y ∧ q.y ≤ at_ Ny segs ((Ny : ℝ) - 1 - 1 / 2)) := by
  have hX : (3 : ℝ) ≤ Nx := by exact_mod_cast hx
  have hY : (3 : ℝ) ≤ Ny := by exact_mod_cast hy
  have up : ∀ (N i : Nat), 3 ≤ N → i ∈ upto 1 (N - 2) → (1 / 2 : ℝ) ≤ i ∧ (i : ℝ) ≤ (N : ℝ) - 1 - 1 / 2 := by
    intro N i hN hi
    rw [mem_upto] at hi
    have h1 : (i : ℝ) + 2 ≤ N := by exact_mod_cast (by omega : i + 2 ≤ N)
    have h2 : (1 : ℝ) ≤ i := by exact_mod_cast hi.1
    constructor <;> linarith
  have dn : ∀ (N b i : Nat), 3 ≤ N → i ∈ downto (N - 2) b → (1 / 2 : ℝ) ≤ i ∧ (i : ℝ) ≤ (N : ℝ) - 1 - 1 / 2 := by
    intro N b i hN hi
    rw [mem_downto] at hi
    have h1 : (i : ℝ) + 2 ≤ N := by exact_mod_cast (by omega : i + 2 ≤ N)
    have h2 : (1 : ℝ) ≤ i := by exact_mod_cast (by omega : 1 ≤ i)
    constructor <;> linarith
  refine ⟨_, quad_around Nx Ny hx hy segs, around_head _ _ _ _ _ _ _ _ _ _ h0, around_last _ _ _ _ _ _ _ _ _ _ rfl, fun q => ?_⟩
  exact on_around _ _ _ _ _ _ _ _ _ _ _ (List.pairwise_cons.1 (ascending Nx segs hs 1 (Nx - 2) (1 / 2) _ (fun i hi => up Nx i hx hi) (by linarith))).2
      (ascending Ny segs hs 1 (Ny - 2) (1 / 2) _ (fun i hi => up Ny i hy hi) (by linarith)) (descending Nx segs hs _ _ (1 / 2) _ (fun i hi => dn Nx 1 i hx hi) (by linarith))
      (descending Ny segs hs _ _ (1 / 2) _ (fun i hi => dn Ny 0 i hy hi) (by linarith))
      (by rw [List.pairwise_pair]; exact at_mono _ _ hs _ _ (by norm_num)) h0 rfl q

/-- **C112**: the same for quadratic models, with at least 4 knots horizontally. What is missing: 3 knots; there it isn't so -/
theorem domain_quad_partial (Nx Ny : Nat) (hx : 4 ≤ Nx) (hy : 3 ≤ Ny) (segs : ℝ) (hs : 0 < segs) :
    ∃ c, splineDomain 2 Nx Ny segs = some c ∧ c ≠ [] ∧ c.head? = c.getLast? ∧ ∀ q, On c q ↔ Boundary (InDomain 2 Nx Ny segs) q := by
  have hX : (4 : ℝ) ≤ Nx := by exact_mod_cast hx
  have hY : (3 : ℝ) ≤ Ny := by exact_mod_cast hy
  have hm : margin 2 = 1 / 2 := if_neg (by decide)
  have h0 : ((upto 1 (Nx - 2)).map (fun (i : Nat) => at_ Nx segs i) ++ [at_ Nx segs ((Nx : ℝ) - 1 - 1 / 2)]).head? = some (at_ Nx segs 1) := by
    rw [upto_cons 1 (Nx - 2) (by omega)]; simp
  obtain ⟨c, h1, h2, h3, h4⟩ := on_quad Nx Ny (by omega) hy segs hs _ h0
  refine ⟨c, h1, ?_, by rw [h2, h3], fun q => ?_⟩
  · rintro rfl; cases h2
  · rw [h4, boundary_rect _ _ _ _ _ (domain_rect 2 Nx Ny (Or.inl ⟨rfl, by omega, hy⟩) segs hs), hm]
    exact around_boundary _ _ _ _ _ _ (at_mono _ _ hs _ _ (by linarith)) (at_mono _ _ hs _ _ (by linarith)) (at_mono _ _ hs _ _ (by norm_num)) (le_refl _) (at_mono _ _ hs _ _ (by linarith)) q

example : (4 : Nat) ≤ 4 ∧ (3 : Nat) ≤ 3 ∧ (0 : ℝ) < 1 := ⟨by norm_num, by norm_num, by norm_num⟩

/-- **C112**, not so: with order 2, and 3 knots horizontally (the library takes that) the contour is not closed, and it misses a part of the boundary -/
theorem domain_quad_wrong (Ny : Nat) (hy : 3 ≤ Ny) (segs : ℝ) (hs : 0 < segs) :
    Accepted 2 3 Ny ∧ ∃ c, splineDomain 2 3 Ny segs = some c ∧ c.head? ≠ c.getLast? ∧ ∃ q, Boundary (InDomain 2 3 Ny segs) q ∧ ¬ On c q := by
  have hY : (3 : ℝ) ≤ Ny := by exact_mod_cast hy
  have hA : Accepted 2 3 Ny := Or.inl ⟨rfl, le_refl _, hy⟩
  have hm : margin 2 = 1 / 2 := if_neg (by decide)
  have hlt : ∀ a b : ℝ, a < b → at_ 3 segs a < at_ 3 segs b := fun a b h => by
    unfold at_; exact div_lt_div_of_pos_right (by linarith) hs
  obtain ⟨c, h1, h2, h3, h4⟩ := on_quad 3 Ny (le_refl _) hy segs hs (at_ 3 segs (((3 : Nat) : ℝ) - 1 - 1 / 2)) rfl
  refine ⟨hA, c, h1, ?_, ⟨at_ 3 segs (5 / 4), at_ Ny segs (1 / 2)⟩, ?_, ?_⟩
  · rw [h2, h3]
    intro h
    have h := congrArg P2.x (Option.some.inj h)
    have := hlt 1 (((3 : Nat) : ℝ) - 1 - 1 / 2) (by norm_num)
    simp only at h
    linarith
  · rw [boundary_rect _ _ _ _ _ (domain_rect 2 3 Ny hA segs hs), hm]
    exact ⟨⟨⟨(hlt _ _ (by norm_num)).le, (hlt _ _ (by norm_num)).le⟩, le_refl _, at_mono _ _ hs _ _ (by linarith)⟩, Or.inr (Or.inr (Or.inl rfl))⟩
  · rw [h4]
    have a := hlt (5 / 4) (((3 : Nat) : ℝ) - 1 - 1 / 2) (by norm_num)
    have b := hlt 1 (5 / 4) (by norm_num)
    have d := hlt (1 / 2) (5 / 4) (by norm_num)
    have e : at_ Ny segs (1 / 2) < at_ Ny segs ((Ny : ℝ) - 1 - 1 / 2) := by unfold at_; exact div_lt_div_of_pos_right (by linarith) hs
    rintro (⟨-, ⟨h, -⟩ | ⟨-, h⟩⟩ | ⟨h, -⟩ | ⟨h, -⟩ | ⟨h, -⟩) <;> simp only at h <;> linarith

/-- **C112**: other orders are an error -/
theorem domain_other (order Nx Ny : Nat) (segs : ℝ) : splineDomain order Nx Ny segs = none ↔ order ≠ 2 ∧ order ≠ 3 := by
  unfold splineDomain
  dsimp only
  by_cases h2 : order = 2
  · rw [if_pos h2]; simp [h2]
  · rw [if_neg h2]
    by_cases h3 : order = 3
    · rw [if_pos h3]; simp [h3]
    · rw [if_neg h3]; simp [h2, h3]

/-! ### finer polylines -/

/-- the distance -/
noncomputable def dist (a b : P2) : ℝ := Real.sqrt ((b.x - a.x) ^ 2 + (b.y - a.y) ^ 2)

/-- no segment is too short -/
def Coarse (s : ℝ) (p : List P2) : Prop := p.IsChain fun a b => 1e-6 * s ≤ dist a b

theorem int_of_nonneg (x : ℝ) (h : 0 ≤ x) : int x = ⌊x⌋ := by
  unfold int truncC; rw [if_pos h]

theorem dist_pt (a d : P2) (t t' : ℝ) (h : t ≤ t') : dist (pt a d t) (pt a d t') = (t' - t) * Real.sqrt (d.x ^ 2 + d.y ^ 2) := by
  unfold dist pt
  rw [show (a.x + t' * d.x - (a.x + t * d.x)) ^ 2 + (a.y + t' * d.y - (a.y + t * d.y)) ^ 2 = (t' - t) ^ 2 * (d.x ^ 2 + d.y ^ 2) by ring,
    Real.sqrt_mul (sq_nonneg _), Real.sqrt_sq (by linarith)]

/-- the points of one segment: N equal steps -/
theorem segment_eq (s : ℝ) (hs : 0 < s) (a b : P2) (h : 1e-6 * s ≤ dist a b) :
    ∃ n : Nat, 0 < n ∧ dist a b < (n + 1e-6) * s ∧ a :: densifySegment s a b = (List.range (n + 1)).map fun (j : Nat) => pt a ⟨b.x - a.x, b.y - a.y⟩ ((j : ℝ) / n) := by
  have hl : Real.sqrt ((b.x - a.x) * (b.x - a.x) + (b.y - a.y) * (b.y - a.y)) = dist a b := by unfold dist; congr 1; ring
  have h1 : (1 : ℝ) ≤ dist a b / s - 1e-6 + 1 := by
    have : 1e-6 ≤ dist a b / s := by rw [le_div_iff₀ hs]; exact h
    linarith
  have hN : int (dist a b / s - 1e-6 + 1) = ⌊dist a b / s - 1e-6 + 1⌋ := int_of_nonneg _ (by linarith)
  have hf : (1 : Int) ≤ ⌊dist a b / s - 1e-6 + 1⌋ := Int.le_floor.2 (by exact_mod_cast h1)
  obtain ⟨n, hn⟩ := Int.eq_ofNat_of_zero_le (by omega : (0 : Int) ≤ ⌊dist a b / s - 1e-6 + 1⌋)
  have hn0 : 0 < n := by omega
  refine ⟨n, hn0, ?_, ?_⟩
  · have := Int.lt_floor_add_one (dist a b / s - 1e-6 + 1)
    rw [hn] at this
    have h2 : dist a b / s < n + 1e-6 := by push_cast at this; linarith
    rwa [div_lt_iff₀ hs] at h2
  · unfold densifySegment
    dsimp only
    rw [hl, hN, hn, List.range_succ_eq_map, List.map_cons, List.map_map]
    congr 1
    · ext <;> simp [pt]
    · rw [Int.toNat_natCast]
      refine List.map_congr_left fun j _ => ?_
      ext <;> simp only [pt, Function.comp, Int.cast_natCast] <;> push_cast <;> ring

theorem segment_ends (s : ℝ) (hs : 0 < s) (a b : P2) (h : 1e-6 * s ≤ dist a b) : ∃ m, densifySegment s a b = m ++ [b] := by
  obtain ⟨n, hn, -, he⟩ := segment_eq s hs a b h
  obtain ⟨k, rfl⟩ : ∃ k, n = k + 1 := ⟨n - 1, by omega⟩
  rw [List.range_succ_eq_map, List.map_cons, List.map_map] at he
  have he := (List.cons.inj he).2
  rw [List.range_succ, List.map_append] at he
  refine ⟨_, he.trans (congrArg _ ?_)⟩
  have hk : ((k + 1 : Nat) : ℝ) ≠ 0 := by exact_mod_cast hn.ne'
  simp only [List.map_cons, List.map_nil, Function.comp, Nat.succ_eq_add_one, List.cons.injEq, and_true]
  rw [div_self hk]
  ext <;> simp [pt]

theorem segment_on (s : ℝ) (hs : 0 < s) (a b : P2) (h : 1e-6 * s ≤ dist a b) (q : P2) : On (a :: densifySegment s a b) q ↔ Seg a b q := by
  obtain ⟨n, hn, -, he⟩ := segment_eq s hs a b h
  have hn' : (0 : ℝ) < n := by exact_mod_cast hn
  have := on_line a ⟨b.x - a.x, b.y - a.y⟩ ((List.range (n + 1)).map fun (j : Nat) => (j : ℝ) / n) 0 1 (by simp [List.range_succ_eq_map]) (by
    rw [List.range_succ, List.map_append, List.map_singleton, div_self hn'.ne']; exact List.getLast?_concat ..) (by
    rw [List.pairwise_map]
    exact List.pairwise_lt_range.imp fun h => div_le_div_of_nonneg_right (by exact_mod_cast h.le) hn'.le) q
  rw [List.map_map] at this
  rw [he]
  refine this.trans ?_
  constructor
  · rintro ⟨t, h0, h1, rfl⟩; exact ⟨t, h0, h1, rfl⟩
  · rintro ⟨t, h0, h1, rfl⟩; exact ⟨t, h0, h1, rfl⟩

theorem segment_steps (s : ℝ) (hs : 0 < s) (a b : P2) (h : 1e-6 * s ≤ dist a b) : (a :: densifySegment s a b).IsChain fun p q => dist p q ≤ (1 + 1e-6) * s := by
  obtain ⟨n, hn, hd, he⟩ := segment_eq s hs a b h
  have hn' : (1 : ℝ) ≤ n := by exact_mod_cast hn
  rw [he, List.isChain_iff_getElem]
  intro i hi
  rw [List.length_map, List.length_range] at hi
  simp only [List.getElem_map, List.getElem_range]
  rw [dist_pt _ _ _ _ (div_le_div_of_nonneg_right (by push_cast; linarith) (by linarith))]
  have e : Real.sqrt ((b.x - a.x) ^ 2 + (b.y - a.y) ^ 2) = dist a b := rfl
  simp only
  rw [e, ← sub_div, div_mul_eq_mul_div, div_le_iff₀ (by linarith)]
  push_cast
  nlinarith

/-- the densified polyline, as the property has it -/
structure Refines (s : ℝ) (p r : List P2) : Prop where
  same : ∀ q, On r q ↔ On p q
  keeps : p.Sublist r
  first : r.head? = p.head?
  last : r.getLast? = p.getLast?
  steps : r.IsChain fun a b => dist a b ≤ (1 + 1e-6) * s

theorem rest_refines (s : ℝ) (hs : 0 < s) : ∀ (l : List P2) (a : P2), Coarse s (a :: l) → Refines s (a :: l) (a :: densifyRest s a l)
  | [], a, _ => ⟨fun _ => Iff.rfl, List.Sublist.refl _, rfl, rfl, .singleton _⟩
  | b :: l, a, h => by
    obtain ⟨h1, h2⟩ := List.isChain_cons_cons.1 h
    have ih := rest_refines s hs l b h2
    obtain ⟨m, hm⟩ := segment_ends s hs a b h1
    have hon := segment_on s hs a b h1
    have hst := segment_steps s hs a b h1
    have e : a :: densifyRest s a (b :: l) = a :: (m ++ b :: densifyRest s b l) := by
      show a :: (densifySegment s a b ++ densifyRest s b l) = _
      rw [hm, List.append_assoc]; rfl
    rw [hm] at hon hst
    rw [e]
    refine ⟨fun q => ?_, ?_, rfl, ?_, ?_⟩
    · rw [on_append', hon, ih.same]; rfl
    · refine List.Sublist.cons_cons _ ?_
      exact ih.keeps.trans (List.sublist_append_right _ _)
    · have : a :: (m ++ b :: densifyRest s b l) = (a :: m) ++ b :: densifyRest s b l := rfl
      rw [this, List.getLast?_append, ih.last, List.getLast?_cons_cons]
      cases hl : (b :: l).getLast? with
      | none => simp at hl
      | some x => rfl
    · have : a :: (m ++ b :: densifyRest s b l) = (a :: m) ++ b :: densifyRest s b l := rfl
      rw [this, List.isChain_split]
      exact ⟨hst, ih.steps⟩

/-- **C112**: if no segment is shorter than a millionth of the spacing, the result is the same polyline, with the points given in it, in their order; and adjacent points are nearer than the spacing, give or take a millionth.
What is missing: shorter segments, and that the spacing is really held; see below -/
theorem densify_partial (s : ℝ) (hs : 0 < s) (a b : P2) (l : List P2) (h : Coarse s (a :: b :: l)) :
    ∃ r, densify s (some (a :: b :: l)) = .rows r ∧ Refines s (a :: b :: l) r := by
  have hr := rest_refines s hs (b :: l) a h
  refine ⟨a :: densifyRest s a (b :: l), ?_, hr⟩
  unfold densify
  dsimp only
  cases hd : densifyRest s a (b :: l) with
  | nil =>
    have := hr.keeps.length_le
    rw [hd] at this
    simp at this
  | cons c r => rfl

example : Coarse 1 [⟨0, 0⟩, ⟨3, 4⟩, ⟨3, 14⟩] := by
  unfold Coarse dist
  refine List.isChain_cons_cons.2 ⟨?_, List.isChain_cons_cons.2 ⟨?_, .singleton _⟩⟩
  · rw [show ((3 : ℝ) - 0) ^ 2 + (4 - 0) ^ 2 = 5 ^ 2 by norm_num, Real.sqrt_sq (by norm_num)]; norm_num
  · rw [show ((3 : ℝ) - 3) ^ 2 + (14 - 4) ^ 2 = 10 ^ 2 by norm_num, Real.sqrt_sq (by norm_num)]; norm_num

/-- **C112**: None, and no points, come back as they are -/
theorem densify_trivial (s : ℝ) : densify s none = .none ∧ densify s (some []) = .rows [] := ⟨rfl, rfl⟩

theorem segment_short (s : ℝ) (hs : 0 < s) (a b : P2) (h : dist a b < 1e-6 * s) : densifySegment s a b = [] := by
  have hl : Real.sqrt ((b.x - a.x) * (b.x - a.x) + (b.y - a.y) * (b.y - a.y)) = dist a b := by unfold dist; congr 1; ring
  have h0 : 0 ≤ dist a b / s := div_nonneg (Real.sqrt_nonneg _) hs.le
  have h1 : dist a b / s < 1e-6 := by rwa [div_lt_iff₀ hs]
  have hN : int (dist a b / s - 1e-6 + 1) = 0 := by
    rw [int_of_nonneg _ (by linarith), Int.floor_eq_zero_iff]
    exact ⟨by linarith, by linarith⟩
  unfold densifySegment
  dsimp only
  rw [hl, hN]
  rfl

theorem rest_short (s : ℝ) (hs : 0 < s) : ∀ (l : List P2) (a : P2), (a :: l).IsChain (fun a b => dist a b < 1e-6 * s) → densifyRest s a l = []
  | [], _, _ => rfl
  | b :: l, a, h => by
    obtain ⟨h1, h2⟩ := List.isChain_cons_cons.1 h
    show densifySegment s a b ++ densifyRest s b l = []
    rw [segment_short s hs a b h1, rest_short s hs l b h2]; rfl

/-- **C112**, not so: a polyline as long as you please, given with fine enough steps, comes back as its first point. And as an array of a wrong shape -/
theorem densify_short_wrong (L : ℝ) : ∃ a b : P2, ∃ p : List P2, p.head? = some a ∧ p.getLast? = some b ∧ L ≤ dist a b ∧ densify 1 (some p) = .flat a := by
  obtain ⟨n, hn⟩ := exists_nat_ge (L * 10 ^ 7)
  have d : ∀ x y : ℝ, x ≤ y → dist ⟨x, 0⟩ ⟨y, 0⟩ = y - x := fun x y h => by
    unfold dist
    simp only
    rw [show (y - x) ^ 2 + ((0 : ℝ) - 0) ^ 2 = (y - x) ^ 2 by ring, Real.sqrt_sq (by linarith)]
  have ch : ((List.range (n + 1)).map fun (i : Nat) => (⟨i * 1e-7, 0⟩ : P2)).IsChain fun a b => dist a b < 1e-6 * 1 := by
    rw [List.isChain_iff_getElem]
    intro i hi
    simp only [List.getElem_map, List.getElem_range]
    push_cast
    rw [d _ _ (by linarith)]
    linarith
  refine ⟨⟨0, 0⟩, ⟨n * 1e-7, 0⟩, (List.range (n + 1)).map fun (i : Nat) => ⟨i * 1e-7, 0⟩, ?_, ?_, ?_, ?_⟩
  · simp [List.range_succ_eq_map]
  · rw [List.range_succ, List.map_append]; exact List.getLast?_concat ..
  · rw [d _ _ (by positivity)]; norm_num; linarith
  · rw [List.range_succ_eq_map, List.map_cons] at ch ⊢
    have := rest_short 1 one_pos _ _ ch
    unfold densify
    dsimp only
    rw [this]
    simp

/-- **C112**, not so: adjacent points may be farther apart than the spacing asked for -/
theorem densify_spacing_wrong : ∃ a b : P2, densify 1 (some [a, b]) = .rows [a, b] ∧ 1 < dist a b := by
  have d : dist ⟨0, 0⟩ ⟨1 + 5e-7, 0⟩ = 1 + 5e-7 := by
    unfold dist
    simp only
    rw [show ((1 : ℝ) + 5e-7 - 0) ^ 2 + ((0 : ℝ) - 0) ^ 2 = (1 + 5e-7) ^ 2 by ring, Real.sqrt_sq (by norm_num)]
  refine ⟨⟨0, 0⟩, ⟨1 + 5e-7, 0⟩, ?_, by rw [d]; norm_num⟩
  have hl : Real.sqrt (((1 : ℝ) + 5e-7 - 0) * (1 + 5e-7 - 0) + (0 - 0) * (0 - 0)) = 1 + 5e-7 := by
    rw [show ((1 : ℝ) + 5e-7 - 0) * (1 + 5e-7 - 0) + (0 - 0) * (0 - 0) = (1 + 5e-7) ^ 2 by ring, Real.sqrt_sq (by norm_num)]
  have hN : int ((1 + 5e-7) / 1 - 1e-6 + 1) = 1 := by
    rw [int_of_nonneg _ (by norm_num), Int.floor_eq_iff]; norm_num
  have : densifySegment 1 ⟨0, 0⟩ ⟨1 + 5e-7, 0⟩ = [⟨1 + 5e-7, 0⟩] := by
    unfold densifySegment
    dsimp only
    rw [hl, hN]
    simp
  have hr : densifyRest 1 ⟨0, 0⟩ [⟨1 + 5e-7, 0⟩] = [⟨1 + 5e-7, 0⟩] := by
    show densifySegment 1 ⟨0, 0⟩ ⟨1 + 5e-7, 0⟩ ++ [] = _
    rw [this]; rfl
  unfold densify
  dsimp only
  rw [hr]

/-- **C112**, not so: one point gives an array of a different shape -/
theorem densify_single_wrong (s : ℝ) (a : P2) : densify s (some [a]) = .flat a := rfl

end Mrcal.Polyline
