import Verif.Model.IndexApi
import Verif.Props.StateLayoutProps
import Verif.Props.MeasurementProps
import Verif.Props.IngestProps
import Verif.Props.KwargsProps
/-
C107: the python functions that report the layout of the state and of the measurements
-/
namespace Mrcal.IndexApi
open Mrcal Mrcal.Kwargs Mrcal.Tri Mrcal.Ingest

/-! ### specification -/

/-- the old names of the poses aren't used -/
def NoLegacy {α : Type} (a : Inputs α) : Prop := a.extrinsics_rt_fromref.get = none ∧ a.frames_rt_toref.get = none

def Ret.get : Ret → Option Int
  | .value n => some n
  | _ => Option.none

/-- where python says a state variable is: the start of its block, and the offset in the block -/
def stateAt {α : Type} (a : Inputs α) (u : Lens) : StateLayout.Var → Option Int
  | .intrinsics i k => (call a u (.state_index_intrinsics i)).get.map (· + k)
  | .extrinsics i k => (call a u (.state_index_extrinsics i)).get.map (· + k)
  | .frame i k => (call a u (.state_index_frames i)).get.map (· + k)
  | .point i k => (call a u (.state_index_points i)).get.map (· + k)
  | .warp k => (call a u .state_index_calobject_warp).get.map (· + k)

/-- where python says a measurement is. `W` is the width of the board -/
def measurementAt {α : Type} (a : Inputs α) (u : Lens) (W : Int) : Meas.Row → Option Int
  | .board i r c xy => (call a u (.measurement_index_boards i)).get.map (· + ((r * W + c) * 2 + xy))
  | .point i xy => (call a u (.measurement_index_points i)).get.map (· + xy)
  | .tri i k => (call a u (.measurement_index_points_triangulated i)).get.map (· + k)
  | .reg k => (call a u .measurement_index_regularization).get.map (· + k)

/-- the problem that optimize() solves, as in C01, C02. If there are no boards, their size is of no interest -/
def shape (L : Layout) : Meas.Prob := ⟨L.p.d, L.p.Nop, L.tri, max L.p.W 0, max L.p.H 0⟩

/-! ### lemmas -/

theorem effective_none {α : Type} (new : ArrArg α) : stateIndexEffective none new = some new := by
  cases new with
  | none => rfl
  | some l => simp [stateIndexEffective, handleRenamed]

theorem optimizeEffective_none {α : Type} (new : ArrArg α) : optimizeEffective none new = some (some (new.getD [])) := by
  cases new with
  | none => simp [optimizeEffective, handleRenamed, setSize0IfNone]
  | some l => simp [optimizeEffective, handleRenamed, setSize0IfNone]

theorem rows_getD {β : Type} (a : Option (List β)) : rows (some (a.getD [])) = rows a := by cases a <;> rfl

theorem size0_length {β : Type} (a : Arg (List β)) : ((size0 a).length : Int) = rows a.get := by
  unfold size0
  cases a.get <;> rfl

theorem validate_fixed (b : Args) (h : optimizeValidateArgs b = true) : validateNpointsFixed b.Npoints b.NpointsFixed = true := by
  by_contra hc
  have hc : validateNpointsFixed b.Npoints b.NpointsFixed = false := by simpa using hc
  unfold optimizeValidateArgs at h
  rw [hc] at h
  simp only [if_true] at h
  repeat' (split at h)
  all_goals first | (exact absurd h (by decide)) | skip

/-- what optimize() accepted -/
theorem layout_some {α : Type} (a : Inputs α) (hl : NoLegacy a) (L : Layout) (h : optimizeLayout a = some L) :
    ∃ name, a.lensmodel = some name ∧ Name.fromName (some name) = .ok L.p.d.lens ∧ (∀ lens, problem a lens = some { L.p with d := { L.p.d with lens := lens } }) ∧
      fillTri (size0 a.indices_tri) = some L.tri ∧ validateNpointsFixed L.p.d.Npoints L.p.d.NpointsFixed = true ∧ L.p.d.NpointsFixed = a.Npoints_fixed ∧ 0 ≤ L.p.d.Nci ∧ 0 ≤ L.p.d.Nce ∧ 0 ≤ L.p.d.Nframes ∧ 0 ≤ L.p.d.Nob ∧ 0 ≤ L.p.Nop ∧ 0 ≤ L.p.d.Npoints ∧
      (0 < L.p.d.Nob → 0 ≤ L.p.W ∧ 0 ≤ L.p.H) ∧ (L.p.d.Nob = 0 → L.p.W = -1 ∧ L.p.H = -1) := by
  obtain ⟨hl1, hl2⟩ := hl
  unfold optimizeLayout at h
  rw [hl1, hl2, optimizeEffective_none, optimizeEffective_none] at h
  cases hi : a.intrinsics.get with
  | none => rw [hi] at h; cases h
  | some intr =>
  cases hn : a.lensmodel with
  | none => rw [hi, hn] at h; cases h
  | some name =>
  rw [hi, hn] at h
  simp only [Option.bind_eq_bind, Option.bind_some] at h
  cases hp : Name.fromName (some name) with
  | ok m =>
    rw [hp] at h
    simp only [Option.bind_some, rows_getD] at h
    generalize hA : (Args.mk _ _ _ _ _ _ _ _ _ _ _ _ _ _ _ _ _) = A at h
    by_cases hv : optimizeValidateArgs A = true
    swap
    · rw [if_neg hv] at h; cases h
    rw [if_pos hv] at h
    have hfix := validate_fixed A hv
    subst hA
    cases ht : fillTri (size0 a.indices_tri) with
    | none => rw [ht] at h; cases h
    | some obs =>
      rw [ht] at h
      obtain rfl := Option.some.inj h
      refine ⟨name, rfl, hp, ?_, rfl, ?_, rfl, Int.natCast_nonneg _, ?_, ?_, Int.natCast_nonneg _, Int.natCast_nonneg _, Int.natCast_nonneg _, ?_, ?_⟩
      · intro lens
        unfold problem
        rw [hl1, hl2, effective_none, effective_none, hi]
        simp only [Option.bind_eq_bind, Option.bind_some, size0_length]
        cases hb : a.observations_board.get with
        | none => simp [rows]
        | some b =>
          simp only [Option.getD_some]
          by_cases hN : (b.N : Int) > 0
          · simp only [if_pos hN]; rfl
          · simp only [if_neg hN]; rfl
      · exact hfix
      · show 0 ≤ rows _
        unfold rows
        split <;> omega
      · show 0 ≤ rows _
        unfold rows
        split <;> omega
      · intro h0
        simp only at h0 ⊢
        rw [if_pos h0, if_pos h0]
        omega
      · intro h0
        simp only at h0 ⊢
        rw [h0]
        simp
  | invalidMissingConfig => rw [hp] at h; cases h
  | invalidBadConfig => rw [hp] at h; cases h
  | invalidType => rw [hp] at h; cases h

theorem generic_eq {α : Type} (a : Inputs α) (hl : NoLegacy a) (L : Layout) (h : optimizeLayout a = some L) (need : Bool) (u : Lens) (cb : Problem → Ret) :
    generic a need u cb = cb { L.p with d := { L.p.d with lens := if need then L.p.d.lens else u } } := by
  obtain ⟨name, h1, h2, h3, -⟩ := layout_some a hl L h
  unfold generic
  cases need
  · simp only [Bool.false_eq_true, if_false, h3]
  · simp only [if_true, h1, h2, h3]

theorem wf_state {α : Type} (a : Inputs α) (hl : NoLegacy a) (L : Layout) (h : optimizeLayout a = some L) (h0 : 0 ≤ a.Npoints_fixed) : StateLayout.WF L.p.d := by
  obtain ⟨name, -, -, -, -, h1, hf, h2, h3, h4, h5, h6, h7, -⟩ := layout_some a hl L h
  unfold validateNpointsFixed at h1
  refine ⟨h2, h3, h4, by omega, ?_⟩
  split_ifs at h1 <;> simp at h1 <;> omega

theorem wf_meas {α : Type} (a : Inputs α) (hl : NoLegacy a) (L : Layout) (h : optimizeLayout a = some L) : Meas.WF (shape L) := by
  obtain ⟨name, -, -, -, -, h1, hf, h2, h3, h4, h5, h6, h7, -⟩ := layout_some a hl L h
  exact ⟨h2, h5, h6, le_max_right _ _, le_max_right _ _⟩

theorem ret_get {n : Int} (h : 0 ≤ n) : ret n = .value n := if_pos h

theorem ret_none {n : Int} (h : n < 0) : ret n = .none := if_neg (by omega)


theorem full_eq {α : Type} (a : Inputs α) (hl : NoLegacy a) (L : Layout) (h : optimizeLayout a = some L) (u : Lens) (cb : Problem → Ret) : generic a true u cb = cb L.p := by
  rw [generic_eq a hl L h]
  rfl

/-! #### the state -/

/-- the python answers are those of the C functions about what optimize() solves -/
theorem stateAt_eq {α : Type} (a : Inputs α) (hl : NoLegacy a) (L : Layout) (h : optimizeLayout a = some L) (h0 : 0 ≤ a.Npoints_fixed) (u : Lens) (v : StateLayout.Var)
    (hv : StateLayout.Present L.p.d v) : stateAt a u v = some (StateLayout.loc L.p.d v) := by
  have wf := wf_state a hl L h h0
  cases v with
  | intrinsics i k =>
    have h1 := (StateLayout.state_loc_in_range L.p.d wf (.intrinsics i 0) ⟨hv.1, hv.2.1, le_rfl, lt_of_le_of_lt hv.2.2.1 hv.2.2.2⟩).1
    simp only [StateLayout.loc, add_zero] at h1
    simp only [stateAt, call, full_eq a hl L h, ret_get h1, Ret.get, Option.map_some, StateLayout.loc]
  | extrinsics i k =>
    have h1 := (StateLayout.state_loc_in_range L.p.d wf (.extrinsics i 0) ⟨hv.1, hv.2.1, hv.2.2.1, le_rfl, by omega⟩).1
    simp only [StateLayout.loc, add_zero] at h1
    simp only [stateAt, call, full_eq a hl L h, ret_get h1, Ret.get, Option.map_some, StateLayout.loc]
  | frame i k =>
    have h1 := (StateLayout.state_loc_in_range L.p.d wf (.frame i 0) ⟨hv.1, hv.2.1, hv.2.2.1, le_rfl, by omega⟩).1
    simp only [StateLayout.loc, add_zero] at h1
    simp only [stateAt, call, full_eq a hl L h, ret_get h1, Ret.get, Option.map_some, StateLayout.loc]
  | point i k =>
    have h1 := (StateLayout.state_loc_in_range L.p.d wf (.point i 0) ⟨hv.1, hv.2.1, hv.2.2.1, le_rfl, by omega⟩).1
    simp only [StateLayout.loc, add_zero] at h1
    simp only [stateAt, call, full_eq a hl L h, ret_get h1, Ret.get, Option.map_some, StateLayout.loc]
  | warp k =>
    have h1 := (StateLayout.state_loc_in_range L.p.d wf (.warp 0) ⟨hv.1, hv.2.1, le_rfl, by omega⟩).1
    simp only [StateLayout.loc, add_zero] at h1
    simp only [stateAt, call, full_eq a hl L h, ret_get h1, Ret.get, Option.map_some, StateLayout.loc]

theorem numStates_nonneg {d : Dims} (wf : StateLayout.WF d) : 0 ≤ numStates d := by
  have := StateLayout.nonnegs wf
  unfold numStates
  omega

/-- the kinds of variables, and the two functions about each -/
inductive Kind where
  | intrinsics
  | extrinsics
  | frames
  | points
  | warp

def kindOf : StateLayout.Var → Kind
  | .intrinsics _ _ => .intrinsics
  | .extrinsics _ _ => .extrinsics
  | .frame _ _ => .frames
  | .point _ _ => .points
  | .warp _ => .warp

def Kind.first : Kind → Query
  | .intrinsics => .state_index_intrinsics 0
  | .extrinsics => .state_index_extrinsics 0
  | .frames => .state_index_frames 0
  | .points => .state_index_points 0
  | .warp => .state_index_calobject_warp

def Kind.num : Kind → Query
  | .intrinsics => .num_states_intrinsics
  | .extrinsics => .num_states_extrinsics
  | .frames => .num_states_frames
  | .points => .num_states_points
  | .warp => .num_states_calobject_warp

/-- helper: where a block starts -/
def Kind.start (d : Dims) : Kind → Int
  | .intrinsics => 0
  | .extrinsics => numStatesIntrinsics d
  | .frames => numStatesIntrinsics d + numStatesExtrinsics d
  | .points => numStatesIntrinsics d + numStatesExtrinsics d + numStatesFrames d
  | .warp => numStatesIntrinsics d + numStatesExtrinsics d + numStatesFrames d + numStatesPoints d

/-- helper: how long it is -/
def Kind.len (d : Dims) : Kind → Int
  | .intrinsics => numStatesIntrinsics d
  | .extrinsics => numStatesExtrinsics d
  | .frames => numStatesFrames d
  | .points => numStatesPoints d
  | .warp => numStatesWarp d

theorem kind_bounds {d : Dims} {v : StateLayout.Var} (hv : StateLayout.Present d v) :
    (kindOf v).start d ≤ StateLayout.loc d v ∧ StateLayout.loc d v < (kindOf v).start d + (kindOf v).len d := by
  have := StateLayout.bounds hv
  cases v <;> simp only [kindOf, Kind.start, Kind.len, numStates] at this ⊢ <;> omega

theorem kind_disjoint {d : Dims} (wf : StateLayout.WF d) (κ κ' : Kind) (j : Int) (h1 : κ.start d ≤ j) (h2 : j < κ.start d + κ.len d) (h3 : κ'.start d ≤ j)
    (h4 : j < κ'.start d + κ'.len d) : κ = κ' := by
  have := StateLayout.nonnegs wf
  cases κ <;> cases κ' <;> first | rfl | (simp only [Kind.start, Kind.len] at h1 h2 h3 h4; omega)

theorem kind_in_range {d : Dims} (wf : StateLayout.WF d) (κ : Kind) : 0 ≤ κ.start d ∧ 0 ≤ κ.len d ∧ κ.start d + κ.len d ≤ numStates d := by
  have := StateLayout.nonnegs wf
  cases κ <;> simp only [Kind.start, Kind.len, numStates] <;> omega

theorem call_num {α : Type} (a : Inputs α) (hl : NoLegacy a) (L : Layout) (h : optimizeLayout a = some L) (h0 : 0 ≤ a.Npoints_fixed) (u : Lens) (κ : Kind) :
    call a u κ.num = .value (κ.len L.p.d) := by
  have hn := (kind_in_range (wf_state a hl L h h0) κ).2.1
  cases κ
  · simp only [Kind.num, call, full_eq a hl L h]; exact ret_get hn
  all_goals
    simp only [Kind.num, call, generic_eq a hl L h]
    exact ret_get hn

/-! #### the triangulated points -/

def forget (o : TriObs) : TriObs := { o with outlier := false }

theorem triSetCount_forget (l : List TriObs) : ∀ (a b : Int), triSetCount (l.map forget) a b = (triSetCount l a b).map fun r => (r.1.map forget, r.2) := by
  induction l with
  | nil => intro a b; rfl
  | cons o os ih =>
    intro a b
    simp only [List.map_cons, triSetCount]
    have hfo : (forget o).last = o.last := rfl
    rw [hfo]
    by_cases ho : o.last = true
    · rw [if_pos ho, if_pos ho]; rfl
    · rw [if_neg ho, if_neg ho, ih]

theorem triInitialLoop_forget (N : Int) (n : Nat) : ∀ (l : List TriObs), l.length ≤ n → ∀ (i m : Int), triInitialLoop N (l.map forget) i m = triInitialLoop N l i m := by
  induction n with
  | zero =>
    intro l hl i m
    have : l = [] := List.length_eq_zero_iff.1 (by omega)
    subst this
    rfl
  | succ n ih =>
    intro l hl i m
    cases l with
    | nil => rfl
    | cons o os =>
      rw [List.map_cons, triInitialLoop, triInitialLoop]
      by_cases hc : N < 0 ∨ i < N
      swap
      · rw [if_neg hc, if_neg hc]
      rw [if_pos hc, if_pos hc]
      have hf := triSetCount_forget (o :: os) 1 m
      rw [List.map_cons] at hf
      obtain ht | ⟨r, ht⟩ : triSetCount (o :: os) 1 m = none ∨ ∃ r, triSetCount (o :: os) 1 m = some r := by
        cases triSetCount (o :: os) 1 m with
        | none => exact .inl rfl
        | some r => exact .inr ⟨r, rfl⟩
      · rw [ht] at hf
        split
        · split
          · rfl
          · rename_i h2; rw [ht] at h2; cases h2
        · rename_i h1; rw [hf] at h1; cases h1
      · rw [ht] at hf
        have hlen := triSetCount_length ht
        split
        · rename_i h1; rw [hf] at h1; cases h1
        · rename_i rest m' h1
          rw [hf] at h1
          split
          · rename_i h2; rw [ht] at h2; cases h2
          · rename_i rest2 m2 h2
            rw [ht] at h2
            cases h2
            cases h1
            simp only [List.length_cons] at hl
            have hlen : rest2.length < os.length + 1 := hlen
            exact ih rest2 (by omega) _ _

theorem initial_forget (l : List TriObs) (N : Int) : numMeasurementsTriInitial (l.map forget) N = numMeasurementsTriInitial l N := by
  unfold numMeasurementsTriInitial
  rw [List.length_map, triInitialLoop_forget N l.length l le_rfl]

theorem specObs_bare : ∀ l : List TriRow, specObs (l.map bare) = (specObs l).map forget
  | [] => rfl
  | [_] => rfl
  | r :: r' :: rs => by
    have := specObs_bare (r' :: rs)
    simp only [List.map_cons, specObs] at this ⊢
    rw [this]
    rfl

/-- the python functions see the same sets of observations as optimize() -/
theorem triObs_some {α : Type} (a : Inputs α) (obs : List TriObs) (h : fillTri (size0 a.indices_tri) = some obs) : triObs a = some (obs.map forget) := by
  unfold triObs
  unfold size0 at h
  cases ha : a.indices_tri.get with
  | none =>
    rw [ha] at h
    cases h
    rfl
  | some l =>
    rw [ha] at h
    simp only [Option.getD_some] at h
    rw [fillTri_eq] at h
    simp only
    by_cases hg : Good l
    swap
    · rw [if_neg hg] at h; cases h
    rw [if_pos hg] at h
    cases h
    by_cases hl : l.length ≤ 0
    · have : l = [] := List.length_eq_zero_iff.1 (by omega)
      subst this
      rfl
    · rw [if_neg hl, fillTri_eq, if_pos, specObs_bare]
      have hips : ips (l.map bare) = ips l := by simp [ips, bare]
      refine ⟨by rw [hips]; exact hg.1, by rw [hips]; exact hg.2.1, fun r hr => ?_⟩
      obtain ⟨r', -, rfl⟩ := List.mem_map.1 hr
      rfl


theorem setThen_cons {o : TriObs} {obs rest : List TriObs} {n : Nat} (ho : o.last = false) (h : SetThen obs n rest) : SetThen (o :: obs) (n + 1) rest := by
  obtain ⟨l, e, h1, h2, h3, h4⟩ := h
  refine ⟨o :: l, e, by rw [h1]; rfl, by rw [List.length_cons, h2], ?_, h4⟩
  intro x hx
  rcases List.mem_cons.1 hx with rfl | hx
  · exact ho
  · exact h3 x hx

/-- the sizes of the sets are how many rows each point has -/
theorem sets_count : ∀ (P : List TriRow) (a : Int), (∀ x, (ips P).head? = some x → x = a) → (ips P).IsChain (fun x y => y = x ∨ y = x + 1) →
    (∀ x ∈ ips P, a ≤ x) ∧ ∃ ns, Sets (specObs P) ns ∧ ∀ (i : Nat) n, ns[i]? = some n ↔ 0 < n ∧ n = (ips P).count (a + i)
  | [], a, _, _ => by
    refine ⟨fun x hx => absurd hx (by simp [ips]), [], .nil, fun i n => ?_⟩
    simp [ips]
    omega
  | [r], a, hh, _ => by
    have hr : r.ipoint = a := hh _ rfl
    refine ⟨fun x hx => ?_, [1], .cons (n := 0) ⟨[], _, rfl, rfl, by simp, rfl⟩ .nil, fun i n => ?_⟩
    · simp only [ips, List.map_cons, List.map_nil, List.mem_singleton] at hx
      omega
    · cases i with
      | zero =>
        simp [ips, hr]
        omega
      | succ i =>
        have e : ips [r] = [a] := by simp [ips, hr]
        rw [e, List.count_cons_of_ne (by omega)]
        simp
        omega
  | r :: r' :: rs, a, hh, hc => by
    have hr : r.ipoint = a := hh _ rfl
    simp only [ips, List.map_cons] at hc
    rw [List.isChain_cons_cons] at hc
    by_cases he : r'.ipoint = r.ipoint
    · obtain ⟨hge, ns, hs, hn⟩ := sets_count (r' :: rs) a (fun x hx => by
        simp only [ips, List.map_cons, List.head?_cons, Option.some.injEq] at hx; omega) hc.2
      cases ns with
      | nil =>
        have := (hn 0 ((ips (r' :: rs)).count a)).2 ⟨List.count_pos_iff.2 (by rw [← hr, ← he]; simp [ips]), by simp⟩
        simp at this
      | cons m ns =>
        generalize hO : specObs (r' :: rs) = O at hs
        cases hs with
        | cons hs hrest =>
          rename_i n0 rest
          subst hO
          refine ⟨fun x hx => ?_, (n0 + 1 + 1) :: ns, .cons (setThen_cons ?_ hs) hrest, fun i n => ?_⟩
          · simp only [ips, List.map_cons, List.mem_cons] at hx hge
            rcases hx with rfl | hx
            · omega
            · exact hge x hx
          · simp [he]
          · have e : ips (r :: r' :: rs) = a :: ips (r' :: rs) := by simp [ips, hr]
            rw [e]
            cases i with
            | zero =>
              have := (hn 0 (n0 + 1)).1 rfl
              simp only [Nat.cast_zero, add_zero] at this ⊢
              rw [List.count_cons_self, ← this.2]
              simp
              omega
            | succ i =>
              have := hn (i + 1) n
              rw [List.count_cons_of_ne (by omega)]
              exact this
    · obtain ⟨hge, ns, hs, hn⟩ := sets_count (r' :: rs) (a + 1) (fun x hx => by
        simp only [ips, List.map_cons, List.head?_cons, Option.some.injEq] at hx; omega) hc.2
      refine ⟨fun x hx => ?_, 1 :: ns, .cons (n := 0) ⟨[], _, rfl, rfl, by simp, by simp [he]⟩ hs, fun i n => ?_⟩
      · have hx : x ∈ r.ipoint :: ips (r' :: rs) := hx
        rcases List.mem_cons.1 hx with rfl | hx
        · omega
        · have := hge x hx
          omega
      · have e : ips (r :: r' :: rs) = a :: ips (r' :: rs) := by simp [ips, hr]
        rw [e]
        cases i with
        | zero =>
          have : (ips (r' :: rs)).count a = 0 := List.count_eq_zero.2 fun hm => by have := hge _ hm; omega
          simp [this]
          omega
        | succ i =>
          have := hn i n
          rw [List.count_cons_of_ne (by omega)]
          have e2 : a + ((i + 1 : Nat) : Int) = a + 1 + i := by omega
          rw [e2]
          exact this

theorem layout_sets {α : Type} (a : Inputs α) (hl : NoLegacy a) (L : Layout) (h : optimizeLayout a = some L) :
    ∃ ns, Sets L.tri ns ∧ ∀ (i : Nat) n, ns[i]? = some n ↔ 0 < n ∧ n = ((size0 a.indices_tri).map (·.ipoint)).count (i : Int) := by
  obtain ⟨name, -, -, -, ht, -⟩ := layout_some a hl L h
  rw [fillTri_eq] at ht
  by_cases hg : Good (size0 a.indices_tri)
  swap
  · rw [if_neg hg] at ht; cases ht
  rw [if_pos hg] at ht
  obtain ⟨-, ns, hs, hn⟩ := sets_count _ 0 hg.1.1 hg.1.2
  rw [Option.some.inj ht] at hs
  exact ⟨ns, hs, by simpa [ips] using hn⟩

/-! #### the measurements -/

theorem boards_shape {α : Type} (a : Inputs α) (hl : NoLegacy a) (L : Layout) (h : optimizeLayout a = some L) :
    numMeasurementsBoards L.p.d.Nob L.p.W L.p.H = numMeasurementsBoards L.p.d.Nob (shape L).W (shape L).H := by
  obtain ⟨name, -, -, -, -, -, -, -, -, -, h5, -, -, h6, -⟩ := layout_some a hl L h
  unfold numMeasurementsBoards
  by_cases hN : L.p.d.Nob ≤ 0
  · rw [if_pos hN, if_pos hN]
  · obtain ⟨hw, hh⟩ := h6 (by omega)
    rw [if_neg hN, if_neg hN]
    simp only [shape, max_eq_left hw, max_eq_left hh]

theorem triIndex_shape {α : Type} (a : Inputs α) (hl : NoLegacy a) (L : Layout) (h : optimizeLayout a = some L) (i : Int) :
    measurementIndexTri i L.p.d.Nob L.p.Nop (L.tri.map forget) L.p.W L.p.H = measurementIndexTri i (shape L).d.Nob (shape L).Nop (shape L).tri (shape L).W (shape L).H := by
  unfold measurementIndexTri
  rw [initial_forget, List.length_map, boards_shape a hl L h]
  rfl

theorem regIndex_shape {α : Type} (a : Inputs α) (hl : NoLegacy a) (L : Layout) (h : optimizeLayout a = some L) :
    measurementIndexRegularization L.p.d L.p.Nop (L.tri.map forget) L.p.W L.p.H = measurementIndexRegularization (shape L).d (shape L).Nop (shape L).tri (shape L).W (shape L).H := by
  unfold measurementIndexRegularization numMeasurementsTri
  rw [initial_forget, boards_shape a hl L h]
  rfl

theorem total_shape {α : Type} (a : Inputs α) (hl : NoLegacy a) (L : Layout) (h : optimizeLayout a = some L) :
    numMeasurements L.p.d L.p.Nop (L.tri.map forget) L.p.W L.p.H = numMeasurements (shape L).d (shape L).Nop (shape L).tri (shape L).W (shape L).H := by
  unfold numMeasurements numMeasurementsTri
  rw [initial_forget, boards_shape a hl L h]
  rfl

/-- the python answers are those of the C functions about what optimize() solves -/
theorem measurementAt_eq {α : Type} (a : Inputs α) (hl : NoLegacy a) (L : Layout) (h : optimizeLayout a = some L) (u : Lens) (ns : List Nat) (hs : Sets L.tri ns) (r : Meas.Row)
    (hr : Meas.Present (shape L) ns r) : measurementAt a u (shape L).W r = Meas.loc (shape L) r := by
  have wf := wf_meas a hl L h
  obtain ⟨name, -, -, -, ht, -⟩ := layout_some a hl L h
  have hto := triObs_some a L.tri ht
  have hs' : Sets (shape L).tri ns := hs
  cases r with
  | board i r c xy =>
    have hr0 : Meas.Present (shape L) ns (.board i 0 0 0) := ⟨hr.1, hr.2.1, le_rfl, by have := hr.2.2; omega, le_rfl, by have := hr.2.2; omega, le_rfl, by omega⟩
    obtain ⟨z, N, h1, -, h2, -⟩ := Meas.meas_loc_in_range wf hs' _ hr0
    simp only [Meas.loc, zero_mul, add_zero, Option.some.injEq] at h1
    have hW : 0 < L.p.W := by
      have := hr.2.2; simp only [shape] at this; omega
    have hH : 0 < L.p.H := by
      have := hr.2.2; simp only [shape] at this; omega
    have eW : (shape L).W = L.p.W := max_eq_left hW.le
    have eH : (shape L).H = L.p.H := max_eq_left hH.le
    rw [eW, eH] at h1
    have h2 : 0 ≤ measurementIndexBoards i L.p.d.Nob L.p.W L.p.H := by rw [← h1] at h2; exact h2
    simp only [measurementAt, call, generic_eq a hl L h]
    rw [if_pos ⟨hW, hH⟩, ret_get h2]
    simp only [Ret.get, Option.map_some, Meas.loc, eW, eH]
    rw [add_assoc]
    rfl
  | point i xy =>
    have hr0 : Meas.Present (shape L) ns (.point i 0) := ⟨hr.1, hr.2.1, le_rfl, by omega⟩
    obtain ⟨z, N, h1, -, h2, -⟩ := Meas.meas_loc_in_range wf hs' _ hr0
    simp only [Meas.loc, add_zero, Option.some.injEq] at h1
    have e : measurementIndexPoints i L.p.d.Nob L.p.Nop L.p.W L.p.H = measurementIndexPoints i (shape L).d.Nob (shape L).Nop (shape L).W (shape L).H := by
      unfold measurementIndexPoints
      rw [boards_shape a hl L h]
      rfl
    simp only [measurementAt, call, generic_eq a hl L h]
    rw [e, ret_get (by rw [h1]; exact h2)]
    rfl
  | tri i k =>
    have hr0 : Meas.Present (shape L) ns (.tri i 0) := by
      obtain ⟨n, e, hn⟩ := hr
      exact ⟨n, e, by omega⟩
    obtain ⟨z, N, h1, -, h2, -⟩ := Meas.meas_loc_in_range wf hs' _ hr0
    have e := triIndex_shape a hl L h i
    simp only [Meas.loc] at h1 ⊢
    simp only [measurementAt, call, generic_eq a hl L h, hto]
    rw [e]
    cases hm : measurementIndexTri i (shape L).d.Nob (shape L).Nop (shape L).tri (shape L).W (shape L).H with
    | none => rw [hm] at h1; cases h1
    | some m =>
      rw [hm] at h1
      simp only [Option.map_some, Nat.cast_zero, add_zero, Option.some.injEq] at h1
      simp only [retTri, ret_get (show 0 ≤ m by omega)]
      rfl
  | reg k =>
    have hr0 : Meas.Present (shape L) ns (.reg 0) := ⟨le_rfl, lt_of_le_of_lt hr.1 hr.2⟩
    obtain ⟨z, N, h1, -, h2, -⟩ := Meas.meas_loc_in_range wf hs' _ hr0
    have e := regIndex_shape a hl L h
    simp only [Meas.loc] at h1 ⊢
    simp only [measurementAt, call, full_eq a hl L h, hto]
    rw [e]
    cases hm : measurementIndexRegularization (shape L).d (shape L).Nop (shape L).tri (shape L).W (shape L).H with
    | none => rw [hm] at h1; cases h1
    | some m =>
      rw [hm] at h1
      simp only [Option.map_some, add_zero, Option.some.injEq] at h1
      simp only [retTri, ret_get (show 0 ≤ m by omega)]
      rfl


/-- the kinds of measurements, and the two functions about each -/
inductive MKind where
  | boards
  | points
  | tri
  | reg

def mkindOf : Meas.Row → MKind
  | .board _ _ _ _ => .boards
  | .point _ _ => .points
  | .tri _ _ => .tri
  | .reg _ => .reg

def MKind.num : MKind → Query
  | .boards => .num_measurements_boards
  | .points => .num_measurements_points
  | .tri => .num_measurements_points_triangulated
  | .reg => .num_measurements_regularization

def MKind.first : MKind → Query
  | .boards => .measurement_index_boards 0
  | .points => .measurement_index_points 0
  | .tri => .measurement_index_points_triangulated 0
  | .reg => .measurement_index_regularization

/-- helper: where a block starts -/
def MKind.start (p : Meas.Prob) (ns : List Nat) : MKind → Int
  | .boards => 0
  | .points => p.d.Nob * p.W * p.H * 2
  | .tri => p.d.Nob * p.W * p.H * 2 + p.Nop * 2
  | .reg => p.d.Nob * p.W * p.H * 2 + p.Nop * 2 + Meas.T ns

/-- helper: how long it is -/
def MKind.len (p : Meas.Prob) (ns : List Nat) : MKind → Int
  | .boards => p.d.Nob * p.W * p.H * 2
  | .points => p.Nop * 2
  | .tri => Meas.T ns
  | .reg => Meas.specNumReg p.d

theorem mkind_bounds {p : Meas.Prob} {ns : List Nat} {r : Meas.Row} (hr : Meas.Present p ns r) :
    (mkindOf r).start p ns ≤ Meas.pos p ns r ∧ Meas.pos p ns r < (mkindOf r).start p ns + (mkindOf r).len p ns := by
  cases r with
  | board i r c xy => have := Meas.board_bound hr; simp only [mkindOf, MKind.start, MKind.len, Meas.pos]; omega
  | point i xy => obtain ⟨h1, h2, h3, h4⟩ := hr; simp only [mkindOf, MKind.start, MKind.len, Meas.pos]; omega
  | tri i k => have := Meas.tri_bound hr; simp only [mkindOf, MKind.start, MKind.len, Meas.pos]; omega
  | reg k => obtain ⟨h1, h2⟩ := hr; simp only [mkindOf, MKind.start, MKind.len, Meas.pos]; omega

theorem mkind_facts {p : Meas.Prob} (ns : List Nat) (wf : Meas.WF p) : 0 ≤ p.d.Nob * p.W * p.H * 2 ∧ 0 ≤ p.Nop * 2 ∧ 0 ≤ Meas.T ns ∧ 0 ≤ Meas.specNumReg p.d :=
  ⟨Meas.nb_nonneg wf, by have := wf.nop; omega, Int.natCast_nonneg _, Meas.specNumReg_nonneg _ wf.nci⟩

theorem mkind_disjoint {p : Meas.Prob} {ns : List Nat} (wf : Meas.WF p) (κ κ' : MKind) (j : Int) (h1 : κ.start p ns ≤ j) (h2 : j < κ.start p ns + κ.len p ns) (h3 : κ'.start p ns ≤ j)
    (h4 : j < κ'.start p ns + κ'.len p ns) : κ = κ' := by
  have := mkind_facts ns wf
  cases κ <;> cases κ' <;> first | rfl | (simp only [MKind.start, MKind.len] at h1 h2 h3 h4; omega)

theorem mkind_in_range {p : Meas.Prob} {ns : List Nat} (wf : Meas.WF p) (κ : MKind) : 0 ≤ κ.start p ns ∧ 0 ≤ κ.len p ns ∧
    κ.start p ns + κ.len p ns ≤ p.d.Nob * p.W * p.H * 2 + p.Nop * 2 + Meas.T ns + Meas.specNumReg p.d := by
  have := mkind_facts ns wf
  cases κ <;> simp only [MKind.start, MKind.len] <;> omega

theorem mcall_num {α : Type} (a : Inputs α) (hl : NoLegacy a) (L : Layout) (h : optimizeLayout a = some L) (u : Lens) (ns : List Nat) (hs : Sets L.tri ns) (κ : MKind) :
    call a u κ.num = .value (κ.len (shape L) ns) := by
  have wf := wf_meas a hl L h
  have hn := (mkind_in_range (ns := ns) wf κ).2.1
  obtain ⟨name, -, -, -, ht, -, -, -, -, -, h5, -, -, h6, h7⟩ := layout_some a hl L h
  have hto := triObs_some a L.tri ht
  cases κ with
  | boards =>
    simp only [MKind.num, call, generic_eq a hl L h]
    have hb := boards_shape a hl L h
    rw [Meas.boards_eq (W := (shape L).W) (H := (shape L).H) h5] at hb
    rw [hb]
    split_ifs with hc
    · exact ret_get hn
    · rw [ret_get le_rfl]
      congr 1
      simp only [MKind.len, shape]
      by_cases hN : 0 < L.p.d.Nob
      · obtain ⟨hw, hh⟩ := h6 hN
        rcases Int.lt_or_eq_of_le hw with hw | hw
        · have : L.p.H = 0 := by
            by_contra h0
            exact hc ⟨hw, by omega⟩
          rw [this]; simp
        · rw [← hw]; simp
      · have : L.p.d.Nob = 0 := by omega
        rw [this]; simp
  | points =>
    simp only [MKind.num, call, generic_eq a hl L h]
    exact ret_get hn
  | tri =>
    simp only [MKind.num, call, generic_eq a hl L h, hto]
    unfold numMeasurementsTri
    rw [initial_forget, numMeasurementsTriInitial_sets hs]
    exact ret_get hn
  | reg =>
    simp only [MKind.num, call, full_eq a hl L h, Meas.numReg_eq]
    exact ret_get hn

theorem mcall_total {α : Type} (a : Inputs α) (hl : NoLegacy a) (L : Layout) (h : optimizeLayout a = some L) (u : Lens) (ns : List Nat) (hs : Sets L.tri ns) (hne : a.indices_tri ≠ .none) :
    call a u .num_measurements =
      .value ((shape L).d.Nob * (shape L).W * (shape L).H * 2 + (shape L).Nop * 2 + Meas.T ns + Meas.specNumReg (shape L).d) := by
  have wf := wf_meas a hl L h
  obtain ⟨name, -, -, -, ht, -⟩ := layout_some a hl L h
  have hto := triObs_some a L.tri ht
  have hf := mkind_facts ns wf
  have hs' : Sets (shape L).tri ns := hs
  simp only [call, full_eq a hl L h, hto, total_shape a hl L h, Meas.total_eq wf hs']
  cases ha : a.indices_tri with
  | none => exact absurd ha hne
  | null => exact ret_get (by omega)
  | arr l => exact ret_get (by omega)

theorem first_none {α : Type} (a : Inputs α) (hl : NoLegacy a) (L : Layout) (h : optimizeLayout a = some L) (u : Lens) (ns : List Nat) (hs : Sets L.tri ns)
    (hc : ∀ (i : Nat) n, ns[i]? = some n ↔ 0 < n ∧ n = ((size0 a.indices_tri).map (·.ipoint)).count (i : Int)) (κ : MKind) (hz : κ.len (shape L) ns = 0) : call a u κ.first = .none := by
  obtain ⟨name, -, -, -, ht, -, -, -, -, -, h5, h6, -, -, -⟩ := layout_some a hl L h
  have hto := triObs_some a L.tri ht
  cases κ with
  | boards =>
    simp only [MKind.first, call, generic_eq a hl L h]
    apply ret_none
    by_cases hw : L.p.W > 0 ∧ L.p.H > 0
    · rw [if_pos hw]
      simp only [MKind.len, shape, max_eq_left hw.1.le, max_eq_left hw.2.le] at hz
      have : L.p.d.Nob = 0 := by
        have h1 := hw.1
        have h2 := hw.2
        by_contra h0
        have : 0 < L.p.d.Nob * L.p.W * L.p.H := mul_pos (mul_pos (by omega) h1) h2
        omega
      unfold measurementIndexBoards
      rw [if_pos (by omega)]
      omega
    · rw [if_neg hw]
      omega
  | points =>
    simp only [MKind.first, call, generic_eq a hl L h]
    apply ret_none
    unfold measurementIndexPoints
    simp only [MKind.len, shape] at hz
    rw [if_pos (by omega)]
    omega
  | tri =>
    simp only [MKind.first, call, generic_eq a hl L h, hto]
    have hnil : L.tri = [] := by
      by_contra hne
      rw [fillTri_eq] at ht
      by_cases hg : Good (size0 a.indices_tri)
      swap
      · rw [if_neg hg] at ht; cases ht
      cases ns with
      | nil =>
        generalize L.tri = T0 at hs hne
        cases hs
        exact hne rfl
      | cons n ns =>
        obtain ⟨h1, h2⟩ := (hc 0 n).1 rfl
        have hm : ((0 : Nat) : Int) ∈ ips (size0 a.indices_tri) := List.count_pos_iff.1 (by rw [h2] at h1; exact h1)
        have h3 := hg.2.1 _ hm
        have h4 : 2 ≤ n := by rw [h2]; exact h3
        have hp : Meas.Present (shape L) (n :: ns) (.tri 0 0) := ⟨n, rfl, by
          obtain ⟨m, rfl⟩ : ∃ m, n = m + 2 := ⟨n - 2, by omega⟩
          have : m + 2 - 1 = m + 1 := rfl
          rw [this]
          nlinarith⟩
        have := Meas.tri_bound hp
        simp only [MKind.len] at hz
        omega
    rw [hnil]
    rfl
  | reg =>
    simp only [MKind.first, call, full_eq a hl L h, hto]
    unfold measurementIndexRegularization
    simp only [MKind.len, shape] at hz
    rw [Meas.numReg_eq, if_pos (by omega)]
    rfl

/-! ### theorems -/

/-- C107, the state. If optimize() accepts these optimization inputs, num_states() is the size of the state it solves for; the state_index_...() functions with these inputs say where each optimized variable is; and these are a bijection
between the optimized variables and 0..num_states()-1, in the documented order. Missing: the old names of the poses (optimize() ignores those: C42), and Npoints_fixed < 0 (`negative_fixed_wrong`) -/
theorem state_api_partial {α : Type} (a : Inputs α) (hl : NoLegacy a) (L : Layout) (h : optimizeLayout a = some L) (h0 : 0 ≤ a.Npoints_fixed) (u : Lens) :
    ∃ N : Int, N = numStates L.p.d ∧ call a u .num_states = .value N ∧
      (∀ v, StateLayout.Present L.p.d v → ∃ j, stateAt a u v = some j ∧ 0 ≤ j ∧ j < N) ∧
      (∀ v w i j, StateLayout.Present L.p.d v → StateLayout.Present L.p.d w → StateLayout.Before v w → stateAt a u v = some i → stateAt a u w = some j → i < j) ∧
      (∀ j, 0 ≤ j → j < N → ∃! v, StateLayout.Present L.p.d v ∧ stateAt a u v = some j) := by
  have wf := wf_state a hl L h h0
  refine ⟨_, rfl, ?_, fun v hv => ⟨_, stateAt_eq a hl L h h0 u v hv, StateLayout.state_loc_in_range L.p.d wf v hv⟩, ?_, ?_⟩
  · simp only [call, full_eq a hl L h]
    exact ret_get (numStates_nonneg wf)
  · intro v w i j hv hw hb hi hj
    rw [stateAt_eq a hl L h h0 u v hv] at hi
    rw [stateAt_eq a hl L h h0 u w hw] at hj
    cases hi
    cases hj
    exact StateLayout.state_loc_strictMono L.p.d wf v w hv hw hb
  · intro j hj1 hj2
    obtain ⟨v, ⟨hv, e⟩, hu⟩ := StateLayout.state_layout_tiles L.p.d wf j hj1 hj2
    refine ⟨v, ⟨hv, by rw [stateAt_eq a hl L h h0 u v hv, e]⟩, ?_⟩
    rintro w ⟨hw, e2⟩
    rw [stateAt_eq a hl L h h0 u w hw] at e2
    exact hu w ⟨hw, Option.some.inj e2⟩

/-- C107, the blocks of the state. num_states_KIND() is how many states there are of this kind: they are those from state_index_KIND(0) on. Python gets None from state_index_KIND(0) exactly if there are none. -/
theorem state_blocks_partial {α : Type} (a : Inputs α) (hl : NoLegacy a) (L : Layout) (h : optimizeLayout a = some L) (h0 : 0 ≤ a.Npoints_fixed) (u : Lens) (κ : Kind) :
    ∃ n : Int, call a u κ.num = .value n ∧ 0 ≤ n ∧ (n = 0 → call a u κ.first = .none) ∧
      (0 < n → ∃ s, call a u κ.first = .value s ∧ ∀ j, (∃ v, kindOf v = κ ∧ StateLayout.Present L.p.d v ∧ stateAt a u v = some j) ↔ s ≤ j ∧ j < s + n) := by
  have wf := wf_state a hl L h h0
  obtain ⟨r1, r2, r3⟩ := kind_in_range wf κ
  have block : ∀ j, (∃ v, kindOf v = κ ∧ StateLayout.Present L.p.d v ∧ stateAt a u v = some j) ↔ κ.start L.p.d ≤ j ∧ j < κ.start L.p.d + κ.len L.p.d := by
    intro j
    constructor
    · rintro ⟨v, rfl, hv, e⟩
      rw [stateAt_eq a hl L h h0 u v hv] at e
      cases e
      exact kind_bounds hv
    · rintro ⟨hj1, hj2⟩
      obtain ⟨v, ⟨hv, e⟩, -⟩ := StateLayout.state_layout_tiles L.p.d wf j (by omega) (by omega)
      have hb := kind_bounds hv
      rw [e] at hb
      exact ⟨v, kind_disjoint wf _ _ j hb.1 hb.2 hj1 hj2, hv, by rw [stateAt_eq a hl L h h0 u v hv, e]⟩
  have absent := StateLayout.state_index_absent_iff L.p.d wf 0
  have none_of : ∀ m : Int, m = -1 → ret m = .none := fun m hm => ret_none (by omega)
  refine ⟨_, call_num a hl L h h0 u κ, r2, fun hz => ?_, fun hpos => ?_⟩
  · have nopres : ∀ v, kindOf v = κ → ¬ StateLayout.Present L.p.d v := by
      intro v hk hv
      have := (block _).1 ⟨v, hk, hv, stateAt_eq a hl L h h0 u v hv⟩
      omega
    cases κ
    all_goals simp only [Kind.first, call, full_eq a hl L h]
    · exact none_of _ (absent.1.2 (nopres _ rfl))
    · exact none_of _ (absent.2.1.2 (nopres _ rfl))
    · exact none_of _ (absent.2.2.1.2 (nopres _ rfl))
    · exact none_of _ (absent.2.2.2.1.2 (nopres _ rfl))
    · exact none_of _ (absent.2.2.2.2.2 (nopres _ rfl))
  · refine ⟨κ.start L.p.d, ?_, block⟩
    obtain ⟨v, hk, hv, -⟩ := (block (κ.start L.p.d)).2 ⟨le_rfl, by omega⟩
    cases κ <;> cases v <;> simp only [kindOf, reduceCtorEq] at hk
    · rename_i i k
      have hp : StateLayout.Present L.p.d (.intrinsics 0 0) := by obtain ⟨a1, a2, a3, a4⟩ := hv; exact ⟨le_rfl, by omega, le_rfl, by omega⟩
      have e := StateLayout.intr_loc hp
      simp only [StateLayout.loc, add_zero, zero_mul] at e
      simp only [Kind.first, call, full_eq a hl L h, Kind.start]
      rw [e]
      exact ret_get le_rfl
    · have hp : StateLayout.Present L.p.d (.extrinsics 0 0) := by obtain ⟨a0, a1, a2, a3, a4⟩ := hv; exact ⟨a0, le_rfl, by omega, le_rfl, by omega⟩
      have e := StateLayout.extr_loc hp
      simp only [StateLayout.loc, add_zero, zero_mul] at e
      simp only [Kind.first, call, full_eq a hl L h]
      rw [e]
      exact ret_get r1
    · have hp : StateLayout.Present L.p.d (.frame 0 0) := by obtain ⟨a0, a1, a2, a3, a4⟩ := hv; exact ⟨a0, le_rfl, by omega, le_rfl, by omega⟩
      have e := StateLayout.frame_loc hp
      simp only [StateLayout.loc, add_zero, zero_mul] at e
      simp only [Kind.first, call, full_eq a hl L h]
      rw [e]
      exact ret_get r1
    · have hp : StateLayout.Present L.p.d (.point 0 0) := by obtain ⟨a0, a1, a2, a3, a4⟩ := hv; exact ⟨a0, le_rfl, by omega, le_rfl, by omega⟩
      have e := StateLayout.point_loc hp
      simp only [StateLayout.loc, add_zero, zero_mul] at e
      simp only [Kind.first, call, full_eq a hl L h]
      rw [e]
      exact ret_get r1
    · have hp : StateLayout.Present L.p.d (.warp 0) := by obtain ⟨a0, a1, a2, a3⟩ := hv; exact ⟨a0, a1, le_rfl, by omega⟩
      have e := StateLayout.warp_loc hp
      simp only [StateLayout.loc, add_zero] at e
      simp only [Kind.first, call, full_eq a hl L h]
      rw [e]
      exact ret_get r1

/-- C107: python gets None for an item that isn't being optimized, and only then; and num_intrinsics_optimization_params() is the number of variables of each camera -/
theorem state_absent_partial {α : Type} (a : Inputs α) (hl : NoLegacy a) (L : Layout) (h : optimizeLayout a = some L) (h0 : 0 ≤ a.Npoints_fixed) (u : Lens) (i : Int) :
    (call a u (.state_index_intrinsics i) = .none ↔ ¬ StateLayout.Present L.p.d (.intrinsics i 0)) ∧
    (call a u (.state_index_extrinsics i) = .none ↔ ¬ StateLayout.Present L.p.d (.extrinsics i 0)) ∧
    (call a u (.state_index_frames i) = .none ↔ ¬ StateLayout.Present L.p.d (.frame i 0)) ∧
    (call a u (.state_index_points i) = .none ↔ ¬ StateLayout.Present L.p.d (.point i 0)) ∧
    (call a u .state_index_calobject_warp = .none ↔ ¬ StateLayout.Present L.p.d (.warp 0)) ∧
    call a u .num_intrinsics_optimization_params = .value (StateLayout.specIntrinsicsPerCamera L.p.d.sel L.p.d.lens) := by
  have wf := wf_state a hl L h h0
  obtain ⟨h1, h2, h3, h4, h5⟩ := StateLayout.state_index_absent_iff L.p.d wf i
  have key : ∀ (m : Int) (v : StateLayout.Var), (m = -1 ↔ ¬ StateLayout.Present L.p.d v) → StateLayout.loc L.p.d v = m → (ret m = .none ↔ ¬ StateLayout.Present L.p.d v) := by
    intro m v e1 e2
    constructor
    · intro hr hv
      have := (StateLayout.state_loc_in_range L.p.d wf v hv).1
      rw [ret_get (by omega)] at hr
      cases hr
    · intro hv
      exact ret_none (by have := e1.2 hv; omega)
  simp only [call, full_eq a hl L h]
  exact ⟨key _ _ h1 (by simp [StateLayout.loc]), key _ _ h2 (by simp [StateLayout.loc]), key _ _ h3 (by simp [StateLayout.loc]), key _ _ h4 (by simp [StateLayout.loc]),
    key _ _ h5 (by simp [StateLayout.loc]), by rw [StateLayout.numIntrinsicsOpt_eq]; exact ret_get (StateLayout.spec_nonneg _ _)⟩

/-- C107, the measurements. If optimize() accepts these optimization inputs, num_measurements() is the size of x; the measurement_index_...() functions say where each measurement is; and these are a bijection between the measurements and
0..num_measurements()-1, in the documented order. `ns` has the number of the observations of each triangulated point. Missing: the old names of the poses (C42), and `None` for the indices of the triangulated points
(`num_measurements_none_wrong`) -/
theorem measurement_api_partial {α : Type} (a : Inputs α) (hl : NoLegacy a) (L : Layout) (h : optimizeLayout a = some L) (hne : a.indices_tri ≠ .none) (u : Lens) :
    ∃ ns : List Nat, (∀ (i : Nat) n, ns[i]? = some n ↔ 0 < n ∧ n = ((size0 a.indices_tri).map (·.ipoint)).count (i : Int)) ∧
    ∃ N : Int, some N = numMeasurements (shape L).d (shape L).Nop (shape L).tri (shape L).W (shape L).H ∧ call a u .num_measurements = .value N ∧
      (∀ r, Meas.Present (shape L) ns r → ∃ j, measurementAt a u (shape L).W r = some j ∧ 0 ≤ j ∧ j < N) ∧
      (∀ r s i j, Meas.Present (shape L) ns r → Meas.Present (shape L) ns s → Meas.Before r s → measurementAt a u (shape L).W r = some i → measurementAt a u (shape L).W s = some j → i < j) ∧
      (∀ j, 0 ≤ j → j < N → ∃! r, Meas.Present (shape L) ns r ∧ measurementAt a u (shape L).W r = some j) := by
  have wf := wf_meas a hl L h
  obtain ⟨ns, hs, hn⟩ := layout_sets a hl L h
  have hs' : Sets (shape L).tri ns := hs
  have htot := Meas.total_eq wf hs'
  refine ⟨ns, hn, _, htot.symm, mcall_total a hl L h u ns hs hne, ?_, ?_, ?_⟩
  · intro r hr
    obtain ⟨z, N, h1, h2, h3, h4⟩ := Meas.meas_loc_in_range wf hs' r hr
    rw [htot] at h2
    cases h2
    exact ⟨z, by rw [measurementAt_eq a hl L h u ns hs r hr, h1], h3, h4⟩
  · intro r s i j hr hs2 hb hi hj
    obtain ⟨x, y, h1, h2, h3⟩ := Meas.meas_loc_strictMono wf hs' r s hr hs2 hb
    rw [measurementAt_eq a hl L h u ns hs r hr, h1] at hi
    rw [measurementAt_eq a hl L h u ns hs s hs2, h2] at hj
    cases hi
    cases hj
    exact h3
  · intro j hj1 hj2
    obtain ⟨r, hr, e, hu⟩ := Meas.meas_layout_tiles wf hs' _ j htot hj1 hj2
    refine ⟨r, ⟨hr, by rw [measurementAt_eq a hl L h u ns hs r hr, e]⟩, ?_⟩
    rintro s ⟨hs2, e2⟩
    rw [measurementAt_eq a hl L h u ns hs s hs2] at e2
    exact hu s hs2 e2

/-- C107, the blocks of the measurements. num_measurements_KIND() is how many measurements there are of this kind: they are those from measurement_index_KIND(0) on. This holds with `None` for the indices of the triangulated points too. Python gets None from
measurement_index_KIND(0) exactly if there are none. -/
theorem measurement_blocks_partial {α : Type} (a : Inputs α) (hl : NoLegacy a) (L : Layout) (h : optimizeLayout a = some L) (u : Lens) (ns : List Nat)
    (hc : ∀ (i : Nat) n, ns[i]? = some n ↔ 0 < n ∧ n = ((size0 a.indices_tri).map (·.ipoint)).count (i : Int)) (κ : MKind) :
    ∃ n : Int, call a u κ.num = .value n ∧ 0 ≤ n ∧ (n = 0 → call a u κ.first = .none) ∧
      (0 < n → ∃ s, call a u κ.first = .value s ∧ ∀ j, (∃ r, mkindOf r = κ ∧ Meas.Present (shape L) ns r ∧ measurementAt a u (shape L).W r = some j) ↔ s ≤ j ∧ j < s + n) := by
  have wf := wf_meas a hl L h
  obtain ⟨ns', hs, hc'⟩ := layout_sets a hl L h
  have : ns' = ns := List.ext_getElem? fun i => Option.ext fun n => by rw [hc', hc]
  subst this
  have hs' : Sets (shape L).tri ns' := hs
  have htot := Meas.total_eq wf hs'
  obtain ⟨r1, r2, r3⟩ := mkind_in_range (ns := ns') wf κ
  have hat : ∀ r, Meas.Present (shape L) ns' r → measurementAt a u (shape L).W r = some (Meas.pos (shape L) ns' r) := fun r hr => by
    rw [measurementAt_eq a hl L h u ns' hs r hr, Meas.loc_eq wf hs' r hr]
  have block : ∀ j, (∃ r, mkindOf r = κ ∧ Meas.Present (shape L) ns' r ∧ measurementAt a u (shape L).W r = some j) ↔
      κ.start (shape L) ns' ≤ j ∧ j < κ.start (shape L) ns' + κ.len (shape L) ns' := by
    intro j
    constructor
    · rintro ⟨r, rfl, hr, e⟩
      rw [hat r hr] at e
      cases e
      exact mkind_bounds hr
    · rintro ⟨hj1, hj2⟩
      obtain ⟨r, hr, e, -⟩ := Meas.meas_layout_tiles wf hs' _ j htot (by omega) (by omega)
      rw [Meas.loc_eq wf hs' r hr] at e
      have hb := mkind_bounds hr
      rw [Option.some.inj e] at hb
      exact ⟨r, mkind_disjoint wf _ _ j hb.1 hb.2 hj1 hj2, hr, by rw [hat r hr, e]⟩
  refine ⟨_, mcall_num a hl L h u ns' hs κ, r2, first_none a hl L h u ns' hs hc κ, fun hpos => ⟨κ.start (shape L) ns', ?_, block⟩⟩
  obtain ⟨r, hk, hr, e⟩ := (block (κ.start (shape L) ns')).2 ⟨le_rfl, by omega⟩
  have val : ∀ (x : Ret) (m k : Int), x.get.map (· + k) = some m → k = 0 → x = .value m := by
    intro x m k hx hk
    cases x <;> simp only [Ret.get, Option.map_some, Option.map_none, reduceCtorEq, Option.some.injEq] at hx
    rw [← hx, hk, add_zero]
  cases κ <;> cases r <;> simp only [mkindOf, reduceCtorEq] at hk
  · have hr0 : Meas.Present (shape L) ns' (.board 0 0 0 0) := by obtain ⟨b1, b2, b3, b4, b5, b6, b7, b8⟩ := hr; exact ⟨le_rfl, by omega, le_rfl, by omega, le_rfl, by omega, le_rfl, by omega⟩
    have := hat _ hr0
    simp only [measurementAt, Meas.pos] at this
    exact val _ _ _ (this.trans (by simp [MKind.start])) (by simp)
  · have hr0 : Meas.Present (shape L) ns' (.point 0 0) := by obtain ⟨b1, b2, b3, b4⟩ := hr; exact ⟨le_rfl, by omega, le_rfl, by omega⟩
    have := hat _ hr0
    simp only [measurementAt, Meas.pos] at this
    exact val _ _ _ (this.trans (by simp [MKind.start])) rfl
  · rename_i i k
    obtain ⟨name, -, -, -, ht, -⟩ := layout_some a hl L h
    have hto := triObs_some a L.tri ht
    have hne : ¬ (L.tri.map forget).length ≤ 0 := by
      intro h0
      have h0 : L.tri = [] := List.length_eq_zero_iff.1 (by rw [List.length_map] at h0; omega)
      rw [h0] at hs
      cases hs with
      | nil => obtain ⟨n, hn, -⟩ := hr; simp at hn
      | cons hs _ => exact hs.ne_nil rfl
    simp only [MKind.first, call, generic_eq a hl L h, hto]
    unfold measurementIndexTri
    rw [if_neg hne, initial_forget, numMeasurementsTriInitial_sets hs, boards_shape a hl L h, Meas.boards_eq (show 0 ≤ L.p.d.Nob from wf.nob)]
    have e : ((List.map choose2 (if (0 : Int) < 0 then ns' else ns'.take (Int.toNat 0))).sum : Nat) = 0 := by simp
    rw [e]
    simp only [MKind.start] at r1 ⊢
    simp only [retTri, Option.pure_def, Option.bind_eq_bind, Option.bind_some, Option.map_some, Nat.cast_zero, add_zero]
    exact ret_get r1
  · have hr0 : Meas.Present (shape L) ns' (.reg 0) := ⟨le_rfl, lt_of_le_of_lt hr.1 hr.2⟩
    have := hat _ hr0
    simp only [measurementAt, Meas.pos] at this
    exact val _ _ _ (this.trans (by simp [MKind.start])) rfl

/-- C107: `None` for indices_point_triangulated_camintrinsics_camextrinsics, which optimize() accepts, makes num_measurements() use None as if it were an array -/
theorem num_measurements_none_wrong {α : Type} (a : Inputs α) (hl : NoLegacy a) (L : Layout) (h : optimizeLayout a = some L) (hne : a.indices_tri = .none) (u : Lens) :
    call a u .num_measurements = .invalidRead := by
  simp only [call, full_eq a hl L h, hne]


/-! ### the hypotheses can be met -/

/-- 2 cameras, 2 frames, 3 observations of a board of 4x5, 3 points of which one is fixed, 2 triangulated points -/
def ex : Inputs Unit where
  intrinsics := .arr [(), ()]
  lensmodel := some "LENSMODEL_OPENCV4".toList
  imagersizes := .arr [(), ()]
  extrinsics_rt_fromref := .null
  frames_rt_toref := .none
  rt_cam_ref := .arr [()]
  rt_ref_frame := .arr [(), ()]
  points := .arr [(), (), ()]
  observations_board := .arr ⟨3, 5, 4⟩
  indices_board := .arr [⟨0, 0, -1⟩, ⟨0, 1, 0⟩, ⟨1, 1, 0⟩]
  observations_point := .arr [(), (), (), ()]
  indices_point := .arr [⟨0, 0, -1⟩, ⟨1, 0, -1⟩, ⟨2, 0, -1⟩, ⟨2, 1, 0⟩]
  observations_tri := .arr [(), (), (), ()]
  indices_tri := .arr [⟨0, 0, -1, false, true⟩, ⟨0, 1, 0, true, true⟩, ⟨1, 0, -1, false, true⟩, ⟨1, 1, 0, false, true⟩]
  Npoints_fixed := 1
  flags := ⟨none, none, none, none, none, none, none, none⟩
  spacingPositive := true
  optimizeWarp := true
  warpGiven := true
  icamQuery := -1
  intrinsicsWidth := 8

def exLayout : Layout where
  p := { d := { Nci := 2, Nce := 1, Nframes := 2, Npoints := 3, NpointsFixed := 1, Nob := 3, sel := ⟨true, true, true, true, true, true, true, false⟩, lens := .opencv4 }, Nop := 4, W := 4, H := 5 }
  tri := [⟨false, false, 0, -1⟩, ⟨true, true, 1, 0⟩, ⟨false, false, 0, -1⟩, ⟨true, false, 1, 0⟩]

theorem ex_layout : optimizeLayout ex = some exLayout := by
  rfl


theorem ex_legacy : NoLegacy ex := ⟨rfl, rfl⟩

/-- there are 2*8 + 6 + 2*6 + 2*3 + 2 states -/
example : call ex .pinhole .num_states = .value 42 := by
  obtain ⟨N, e, h, -⟩ := state_api_partial ex ex_legacy exLayout ex_layout (by decide) .pinhole
  rw [h, e]
  rfl

example : ∃ v, StateLayout.Present exLayout.p.d v ∧ stateAt ex .pinhole v = some 35 := by
  obtain ⟨N, e, -, -, -, h⟩ := state_api_partial ex ex_legacy exLayout ex_layout (by decide) .pinhole
  obtain ⟨v, hv, -⟩ := h 35 (by decide) (by rw [e]; decide)
  exact ⟨v, hv⟩

example : StateLayout.Present exLayout.p.d (.point 1 2) ∧ ¬ StateLayout.Present exLayout.p.d (.point 2 0) := by
  simp [StateLayout.Present, exLayout]

/-- the fixed point has no state -/
example : call ex .pinhole (.state_index_points 2) = .none :=
  (state_absent_partial ex ex_legacy exLayout ex_layout (by decide) .pinhole 2).2.2.2.1.2 (by simp [StateLayout.Present, exLayout])

example : call ex .pinhole Kind.points.num = .value 6 ∧ call ex .pinhole Kind.points.first = .value 34 := ⟨rfl, rfl⟩

/-- there are 3*5*4*2 + 4*2 + 2 + 2*(4+2) measurements -/
example : call ex .pinhole .num_measurements = .value 142 := by
  obtain ⟨ns, -, N, e, h, -⟩ := measurement_api_partial ex ex_legacy exLayout ex_layout (by simp [ex]) .pinhole
  rw [h]
  have : some N = some (142 : Int) := e.trans (by
    rw [Meas.total_eq (p := shape exLayout) (ns := [2, 2]) (wf_meas ex ex_legacy exLayout ex_layout)]
    · rfl
    · refine .cons (n := 1) ⟨exLayout.tri.take 1, _, rfl, rfl, by simp [exLayout], rfl⟩ ?_
      refine .cons (n := 1) ⟨(exLayout.tri.drop 2).take 1, _, rfl, rfl, by simp [exLayout], rfl⟩ .nil)
  rw [Option.some.inj this]

example : Meas.Present (shape exLayout) [2, 2] (.board 2 4 3 1) ∧ Meas.Present (shape exLayout) [2, 2] (.reg 11) := by
  simp [Meas.Present, shape, exLayout, Meas.specNumReg, Lens.numParams]

/-- the counts in `measurement_blocks_partial` -/
example (i : Nat) (n : Nat) : ([2, 2] : List Nat)[i]? = some n ↔ 0 < n ∧ n = ((size0 ex.indices_tri).map (·.ipoint)).count (i : Int) := by
  match i with
  | 0 => simp [size0, Arg.get, ex]; omega
  | 1 => simp [size0, Arg.get, ex]; omega
  | i + 2 =>
    have h0 : ¬ (0 : Int) = ((i + 2 : Nat) : Int) := by omega
    have h1 : ¬ (1 : Int) = ((i + 2 : Nat) : Int) := by omega
    simp only [size0, Arg.get, ex, Option.getD_some, List.map_cons, List.map_nil]
    rw [List.count_cons_of_ne h0, List.count_cons_of_ne h0, List.count_cons_of_ne h1, List.count_cons_of_ne h1]
    simp
    omega

/-- without triangulated points, given as None -/
theorem ex_none : optimizeLayout { ex with observations_tri := .none, indices_tri := .none } = some { exLayout with tri := [] } := by
  rfl

example : call { ex with observations_tri := .none, indices_tri := .none } .pinhole .num_measurements = .invalidRead :=
  num_measurements_none_wrong _ ⟨rfl, rfl⟩ _ ex_none rfl _

/-- C107: optimize() accepts a negative Npoints_fixed; the state then has more points than there are: there are 3 here, and a 4th one has a state index (and optimize() reads and writes past the end of the array of points) -/
theorem negative_fixed_wrong :
    ∃ (a : Inputs Unit) (L : Layout), NoLegacy a ∧ optimizeLayout a = some L ∧ L.p.d.Npoints = 3 ∧ call a .pinhole (.state_index_points 3) = .value 43 ∧
      call a .pinhole .num_states_points = .value 12 :=
  ⟨{ ex with Npoints_fixed := -1 }, { exLayout with p := { exLayout.p with d := { exLayout.p.d with NpointsFixed := -1 } } }, ⟨rfl, rfl⟩, rfl, rfl, rfl, rfl⟩

/-- the functions that don't need to know the lens model -/
def NoLens : Query → Prop
  | .num_states_extrinsics | .num_states_frames | .num_states_points | .num_states_calobject_warp | .measurement_index_boards _ | .num_measurements_boards | .measurement_index_points _
  | .num_measurements_points | .measurement_index_points_triangulated _ | .num_measurements_points_triangulated => True
  | _ => False

/-- **C107**: an error without a lens model or with one that isn't known, for each function whose result depends on it. The result of the others doesn't -/
theorem lensmodel_checked {α : Type} (a : Inputs α) (u : Lens) (q : Query) :
    (¬ NoLens q → (a.lensmodel = none ∨ ∃ s, a.lensmodel = some s ∧ ∀ m, Name.fromName (some s) ≠ .ok m) → call a u q = .error) ∧
    (NoLens q → ∀ name, call { a with lensmodel := name } u q = call a u q) := by
  constructor
  · intro hq h
    have hg : ∀ cb, generic a true u cb = .error := by
      intro cb
      unfold generic
      rcases h with h | ⟨s, h, hs⟩
      · simp only [h, if_true]
      · cases hn : Name.fromName (some s) with
        | ok m => exact absurd hn (hs m)
        | _ => simp only [h, if_true, hn]
    cases q <;> first | exact absurd trivial hq | exact hg _
  · intro hq name
    cases q <;> first | exact hq.elim | rfl

example {α : Type} (a : Inputs α) (u : Lens) : call { a with lensmodel := none } u .num_states = .error := (lensmodel_checked _ u .num_states).1 (fun h => h) (Or.inl rfl)

end Mrcal.IndexApi
