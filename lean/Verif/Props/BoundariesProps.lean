import Verif.Model.Boundaries
import Verif.Props.IndexApiProps
/-
C133: the boundaries in plots of the state and of the measurements
-/
namespace Mrcal.Boundaries
open Mrcal Mrcal.IndexApi

/-- what one reads in the plot at x = j: the label of the last boundary that's not to the right of j. Only one boundary is there -/
def Reads (ms : List Mark) (j : Int) (what : String) : Prop :=
  ∃ m ∈ ms, m.what = what ∧ m.pos ≤ j ∧ ∀ m' ∈ ms, m'.pos ≤ j → m' = m ∨ m'.pos < m.pos

theorem concat_cons (o : Option (List Mark)) (l : List (Option (List Mark))) : concat (o :: l) = o.bind fun a => (concat l).map fun b => a ++ b := by
  unfold concat
  rw [List.mapM_cons]
  cases o with
  | none => rfl
  | some a => cases l.mapM id <;> rfl

theorem concat_mem (l : List (String × Ret)) (h : ∀ p ∈ l, (∃ n, p.2 = .value n) ∨ p.2 = .none) :
    ∃ ms, concat (l.map fun p => boundary p.1 p.2) = some ms ∧ ∀ m : Mark, m ∈ ms ↔ (m.what, Ret.value m.pos) ∈ l := by
  induction l with
  | nil => exact ⟨[], rfl, by simp⟩
  | cons p l ih =>
    obtain ⟨ms, h1, h2⟩ := ih fun q hq => h q (List.mem_cons_of_mem _ hq)
    obtain ⟨w, r⟩ := p
    rw [List.map_cons, concat_cons, h1]
    rcases h _ (List.mem_cons_self ..) with ⟨n, hn⟩ | hn
    · simp only at hn
      subst hn
      refine ⟨⟨n, w⟩ :: ms, rfl, fun m => ?_⟩
      obtain ⟨mp, mw⟩ := m
      simp only [List.mem_cons, h2, Mark.mk.injEq, Prod.mk.injEq, Ret.value.injEq]
      tauto
    · simp only at hn
      subst hn
      refine ⟨ms, rfl, fun m => ?_⟩
      simp [h2]

/-! ### the state -/

def kindName : Kind → String
  | .intrinsics => "intrinsics"
  | .extrinsics => "extrinsics"
  | .frames => "frames"
  | .points => "points"
  | .warp => "calobject_warp"

theorem first_cases {α : Type} (a : Inputs α) (hl : NoLegacy a) (L : Layout) (h : optimizeLayout a = some L) (h0 : 0 ≤ a.Npoints_fixed) (u : Lens) (κ : Kind) :
    (∃ n, call a u κ.first = .value n) ∨ call a u κ.first = .none := by
  obtain ⟨n, _, hn, hz, hp⟩ := state_blocks_partial a hl L h h0 u κ
  rcases lt_or_eq_of_le hn with hn | hn
  · obtain ⟨s, hs, _⟩ := hp hn
    exact Or.inl ⟨s, hs⟩
  · exact Or.inr (hz hn.symm)

theorem state_mem {α : Type} (a : Inputs α) (hl : NoLegacy a) (L : Layout) (h : optimizeLayout a = some L) (h0 : 0 ≤ a.Npoints_fixed) (u : Lens) :
    ∃ ms, stateMarks a u = some ms ∧ ∀ m : Mark, m ∈ ms ↔ ∃ κ : Kind, m.what = kindName κ ∧ call a u κ.first = .value m.pos := by
  obtain ⟨ms, h1, h2⟩ := concat_mem ([Kind.intrinsics, .extrinsics, .frames, .points, .warp].map fun κ => (kindName κ, call a u κ.first)) (by
    intro p hp
    obtain ⟨κ, _, rfl⟩ := List.mem_map.1 hp
    exact first_cases a hl L h h0 u κ)
  refine ⟨ms, h1, fun m => ?_⟩
  rw [h2, List.mem_map]
  constructor
  · rintro ⟨κ, _, e⟩
    rw [Prod.mk.injEq] at e
    exact ⟨κ, e.1.symm, e.2⟩
  · rintro ⟨κ, e1, e2⟩
    exact ⟨κ, by cases κ <;> simp, by rw [e1, e2]⟩

/-- C133: in a plot of the state each variable is under the label of its kind; there's a label for each kind that has variables, where its block starts, and no others -/
theorem state_labels {α : Type} (a : Inputs α) (hl : NoLegacy a) (L : Layout) (h : optimizeLayout a = some L) (h0 : 0 ≤ a.Npoints_fixed) (u : Lens) :
    ∃ ms, stateMarks a u = some ms ∧ (∀ v j, StateLayout.Present L.p.d v → stateAt a u v = some j → Reads ms j (kindName (kindOf v))) ∧
      ∀ κ : Kind, (∃ m ∈ ms, m.what = kindName κ) ↔ ∃ n, 0 < n ∧ call a u κ.num = .value n := by
  obtain ⟨ms, h1, h2⟩ := state_mem a hl L h h0 u
  refine ⟨ms, h1, fun v j hv hj => ?_, fun κ => ?_⟩
  · obtain ⟨n, _, hn, hz, hp⟩ := state_blocks_partial a hl L h h0 u (kindOf v)
    have hpos : 0 < n := by
      rcases lt_or_eq_of_le hn with hn | hn
      · exact hn
      · exfalso
        have hnone := hz hn.symm
        obtain ⟨a1, a2, a3, a4, a5, _⟩ := state_absent_partial a hl L h h0 u 0
        cases v with
        | intrinsics i k => exact a1.1 hnone ⟨le_rfl, by have := hv.1; have := hv.2.1; omega, le_rfl, by have := hv.2.2.1; have := hv.2.2.2; omega⟩
        | extrinsics i k => exact a2.1 hnone ⟨hv.1, le_rfl, by have := hv.2.1; have := hv.2.2.1; omega, le_rfl, by omega⟩
        | frame i k => exact a3.1 hnone ⟨hv.1, le_rfl, by have := hv.2.1; have := hv.2.2.1; omega, le_rfl, by omega⟩
        | point i k => exact a4.1 hnone ⟨hv.1, le_rfl, by have := hv.2.1; have := hv.2.2.1; omega, le_rfl, by omega⟩
        | warp k => exact a5.1 hnone ⟨hv.1, hv.2.1, le_rfl, by omega⟩
    obtain ⟨s, hs, hb⟩ := hp hpos
    have hj' := (hb j).1 ⟨v, rfl, hv, hj⟩
    refine ⟨⟨s, kindName (kindOf v)⟩, (h2 _).2 ⟨kindOf v, rfl, hs⟩, rfl, hj'.1, fun m' hm' hle => ?_⟩
    obtain ⟨κ', e1, e2⟩ := (h2 m').1 hm'
    by_cases hlt : m'.pos < s
    · exact Or.inr hlt
    · left
      obtain ⟨n', _, hn', hz', hp'⟩ := state_blocks_partial a hl L h h0 u κ'
      have hpos' : 0 < n' := by
        rcases lt_or_eq_of_le hn' with hn' | hn'
        · exact hn'
        · rw [hz' hn'.symm] at e2; cases e2
      obtain ⟨s', hs', hb'⟩ := hp' hpos'
      rw [e2, Ret.value.injEq] at hs'
      obtain ⟨v1, k1, p1, q1⟩ := (hb m'.pos).2 ⟨by omega, by omega⟩
      obtain ⟨v2, k2, p2, q2⟩ := (hb' m'.pos).2 ⟨by omega, by omega⟩
      rw [stateAt_eq a hl L h h0 u v1 p1, Option.some.injEq] at q1
      rw [stateAt_eq a hl L h h0 u v2 p2, Option.some.injEq] at q2
      have b1 := kind_bounds p1
      have b2 := kind_bounds p2
      have := kind_disjoint (wf_state a hl L h h0) (kindOf v1) (kindOf v2) m'.pos (by omega) (by omega) (by omega) (by omega)
      rw [k1, k2] at this
      subst this
      rw [hs, Ret.value.injEq] at e2
      obtain ⟨mp, mw⟩ := m'
      simp only at e1 e2
      rw [e1, e2]
  · obtain ⟨n, hnum, hn, hz, hp⟩ := state_blocks_partial a hl L h h0 u κ
    constructor
    · rintro ⟨m, hm, hw⟩
      obtain ⟨κ', e1, e2⟩ := (h2 m).1 hm
      have : κ' = κ := by
        rw [hw] at e1
        cases κ <;> cases κ' <;> first | rfl | (exfalso; revert e1; decide)
      subst this
      refine ⟨n, ?_, hnum⟩
      rcases lt_or_eq_of_le hn with hn | hn
      · exact hn
      · rw [hz hn.symm] at e2; cases e2
    · rintro ⟨n', hn', e⟩
      rw [hnum, Ret.value.injEq] at e
      obtain ⟨s, hs, _⟩ := hp (by omega)
      exact ⟨⟨s, kindName κ⟩, (h2 _).2 ⟨κ, rfl, hs⟩, rfl⟩

example : stateMarks ex .pinhole = some [⟨0, "intrinsics"⟩, ⟨16, "extrinsics"⟩, ⟨22, "frames"⟩, ⟨34, "points"⟩, ⟨40, "calobject_warp"⟩] := by rfl
example : ∃ ms, stateMarks ex .pinhole = some ms := (state_labels ex ex_legacy exLayout ex_layout (by decide) .pinhole).imp fun _ h => h.1

/-! ### the measurements -/

/-- the labels. Those of triangulated points should have one -/
def mkindName : MKind → String
  | .boards => "boards"
  | .points => "points"
  | .tri => "points_triangulated"
  | .reg => "regularization"

theorem mfirst_cases {α : Type} (a : Inputs α) (hl : NoLegacy a) (L : Layout) (h : optimizeLayout a = some L) (u : Lens) (κ : MKind) :
    (∃ n, call a u κ.first = .value n) ∨ call a u κ.first = .none := by
  obtain ⟨ns, _, hc⟩ := layout_sets a hl L h
  obtain ⟨n, _, hn, hz, hp⟩ := measurement_blocks_partial a hl L h u ns hc κ
  rcases lt_or_eq_of_le hn with hn | hn
  · obtain ⟨s, hs, _⟩ := hp hn
    exact Or.inl ⟨s, hs⟩
  · exact Or.inr (hz hn.symm)

theorem meas_mem {α : Type} (a : Inputs α) (hl : NoLegacy a) (L : Layout) (h : optimizeLayout a = some L) (u : Lens) :
    ∃ ms, measurementMarks a u = some ms ∧ ∀ m : Mark, m ∈ ms ↔ ∃ κ : MKind, κ ≠ .tri ∧ m.what = mkindName κ ∧ call a u κ.first = .value m.pos := by
  obtain ⟨ms, h1, h2⟩ := concat_mem ([MKind.boards, .points, .reg].map fun κ => (mkindName κ, call a u κ.first)) (by
    intro p hp
    obtain ⟨κ, _, rfl⟩ := List.mem_map.1 hp
    exact mfirst_cases a hl L h u κ)
  refine ⟨ms, h1, fun m => ?_⟩
  rw [h2, List.mem_map]
  constructor
  · rintro ⟨κ, hk, e⟩
    rw [Prod.mk.injEq] at e
    exact ⟨κ, by rintro rfl; simp at hk, e.1.symm, e.2⟩
  · rintro ⟨κ, hk, e1, e2⟩
    exact ⟨κ, by cases κ <;> simp at hk ⊢, by rw [e1, e2]⟩

/-- C133, partial: in a plot of the measurements each one of boards, points and regularization is under the label of its kind. What's missing: the measurements of triangulated points, see `triangulated_wrong`. `ns`: the number of observations
of each triangulated point -/
theorem measurement_labels_partial {α : Type} (a : Inputs α) (hl : NoLegacy a) (L : Layout) (h : optimizeLayout a = some L) (u : Lens) (ns : List Nat)
    (hc : ∀ (i : Nat) n, ns[i]? = some n ↔ 0 < n ∧ n = ((size0 a.indices_tri).map (·.ipoint)).count (i : Int)) :
    ∃ ms, measurementMarks a u = some ms ∧ (∀ r j, Meas.Present (shape L) ns r → mkindOf r ≠ .tri → measurementAt a u (shape L).W r = some j → Reads ms j (mkindName (mkindOf r))) ∧
      ∀ κ : MKind, κ ≠ .tri → ((∃ m ∈ ms, m.what = mkindName κ) ↔ ∃ n, 0 < n ∧ call a u κ.num = .value n) := by
  obtain ⟨ms, h1, h2⟩ := meas_mem a hl L h u
  have wf := wf_meas a hl L h
  have hs : Tri.Sets L.tri ns := by
    obtain ⟨ns', hs, hc'⟩ := layout_sets a hl L h
    have : ns' = ns := List.ext_getElem? fun i => Option.ext fun n => by rw [hc', hc]
    exact this ▸ hs
  have at_pos : ∀ r j, Meas.Present (shape L) ns r → measurementAt a u (shape L).W r = some j → j = Meas.pos (shape L) ns r := by
    intro r j hr hj
    rw [measurementAt_eq a hl L h u ns hs r hr, Meas.loc_eq wf hs r hr, Option.some.injEq] at hj
    exact hj.symm
  refine ⟨ms, h1, fun r j hr ht hj => ?_, fun κ ht => ?_⟩
  · obtain ⟨n, hnum, hn, hz, hp⟩ := measurement_blocks_partial a hl L h u ns hc (mkindOf r)
    have hpos : 0 < n := by
      have b := mkind_bounds hr
      rw [mcall_num a hl L h u ns hs, Ret.value.injEq] at hnum
      omega
    obtain ⟨s, hs', hb⟩ := hp hpos
    have hj' := (hb j).1 ⟨r, rfl, hr, hj⟩
    refine ⟨⟨s, mkindName (mkindOf r)⟩, (h2 _).2 ⟨mkindOf r, ht, rfl, hs'⟩, rfl, hj'.1, fun m' hm' hle => ?_⟩
    obtain ⟨κ', _, e1, e2⟩ := (h2 m').1 hm'
    by_cases hlt : m'.pos < s
    · exact Or.inr hlt
    · left
      obtain ⟨n', _, hn', hz', hp'⟩ := measurement_blocks_partial a hl L h u ns hc κ'
      have hpos' : 0 < n' := by
        rcases lt_or_eq_of_le hn' with hn' | hn'
        · exact hn'
        · rw [hz' hn'.symm] at e2; cases e2
      obtain ⟨s', hs'', hb'⟩ := hp' hpos'
      rw [e2, Ret.value.injEq] at hs''
      obtain ⟨v1, k1, p1, q1⟩ := (hb m'.pos).2 ⟨by omega, by omega⟩
      obtain ⟨v2, k2, p2, q2⟩ := (hb' m'.pos).2 ⟨by omega, by omega⟩
      have q1 := at_pos _ _ p1 q1
      have q2 := at_pos _ _ p2 q2
      have b1 := mkind_bounds p1
      have b2 := mkind_bounds p2
      have := mkind_disjoint (ns := ns) wf (mkindOf v1) (mkindOf v2) m'.pos (by omega) (by omega) (by omega) (by omega)
      rw [k1, k2] at this
      subst this
      rw [hs', Ret.value.injEq] at e2
      obtain ⟨mp, mw⟩ := m'
      simp only at e1 e2
      rw [e1, e2]
  · obtain ⟨n, hnum, hn, hz, hp⟩ := measurement_blocks_partial a hl L h u ns hc κ
    constructor
    · rintro ⟨m, hm, hw⟩
      obtain ⟨κ', ht', e1, e2⟩ := (h2 m).1 hm
      have : κ' = κ := by
        rw [hw] at e1
        cases κ <;> cases κ' <;> first | rfl | (exfalso; revert e1; decide)
      subst this
      refine ⟨n, ?_, hnum⟩
      rcases lt_or_eq_of_le hn with hn | hn
      · exact hn
      · rw [hz hn.symm] at e2; cases e2
    · rintro ⟨n', hn', e⟩
      rw [hnum, Ret.value.injEq] at e
      obtain ⟨s, hs, _⟩ := hp (by omega)
      exact ⟨⟨s, mkindName κ⟩, (h2 _).2 ⟨κ, ht, rfl, hs⟩, rfl⟩

example : ∃ ms, measurementMarks ex .pinhole = some ms := by
  obtain ⟨ns, _, hc⟩ := layout_sets ex ex_legacy exLayout ex_layout
  exact (measurement_labels_partial ex ex_legacy exLayout ex_layout .pinhole ns hc).imp fun _ h => h.1

/-- C133, negation: there's no boundary where the triangulated points start: their measurements are under the label of another kind -/
theorem triangulated_wrong : measurementMarks ex .pinhole = some [⟨0, "boards"⟩, ⟨120, "points"⟩, ⟨130, "regularization"⟩] ∧ call ex .pinhole (.measurement_index_points_triangulated 0) = .value 128 ∧
    call ex .pinhole .num_measurements_points_triangulated = .value 2 ∧ Reads [⟨0, "boards"⟩, ⟨120, "points"⟩, ⟨130, "regularization"⟩] 128 "points" := by
  refine ⟨by decide +kernel, by decide +kernel, by decide +kernel, ⟨120, "points"⟩, by simp, rfl, by norm_num, ?_⟩
  intro m' hm' hle
  simp only [List.mem_cons, List.not_mem_nil, or_false] at hm'
  rcases hm' with rfl | rfl | rfl
  · right; norm_num
  · left; rfl
  · exfalso; norm_num at hle

end Mrcal.Boundaries
