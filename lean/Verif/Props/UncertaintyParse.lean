import Verif.Props.UncertaintyLoop
import Verif.Props.StateLayoutProps
/-
Helper lemmas for C77: the rows are mapped out correctly; the loop over the measurements; the solve.
-/
namespace Mrcal.Uncertainty
open Mrcal Pose

/-! ### mapping out a row -/

/-- where we are in the row [a,z): at `pos`, having found `m` -/
def SOk (colidx : Int → Int) (a z pos : Int) (m : RowMap) (s : Scan) : Prop :=
  (s.done = false ∧ s.ival = pos ∧ s.state = colidx pos ∧ pos ≤ z ∧ (pos = z → a = z) ∧ s.m = m) ∨
  (s.done = true ∧ s.ival = z ∧ pos = z ∧ s.m = m) ∨
  (s.done = true ∧ z < s.ival ∧ a = z)

theorem scan_present {colidx : Int → Int} {a z pos : Int} {m : RowMap} {s : Scan} (h : SOk colidx a z pos m s) (lo n len : Int) (set : Int → Int → RowMap → RowMap)
    (hr : lo ≤ colidx pos ∧ colidx pos < lo + n) (hl : 0 < len) (hz : pos + len ≤ z) (ha : a ≤ pos) :
    SOk colidx a z (pos + len) (set pos (colidx pos) m) (scanBlock colidx z lo n len set s) := by
  unfold scanBlock
  rcases h with ⟨h1, h2, h3, h4, h5, h6⟩ | ⟨h1, h2, h3, h4⟩ | ⟨h1, h2, h3⟩
  · rw [if_neg (by simp [h1]), if_pos (by rw [h3]; exact hr)]
    simp only [h2, h3, h6]
    split_ifs with c
    · exact Or.inl ⟨rfl, rfl, rfl, hz, by omega, rfl⟩
    · exact Or.inr (Or.inl ⟨rfl, by simp only; omega, by omega, rfl⟩)
  · omega
  · omega

theorem scan_absent {colidx : Int → Int} {a z pos : Int} {m : RowMap} {s : Scan} (h : SOk colidx a z pos m s) (lo n len : Int) (set : Int → Int → RowMap → RowMap)
    (hr : pos < z → ¬ (lo ≤ colidx pos ∧ colidx pos < lo + n)) (hl : 0 < n → 0 < len) :
    SOk colidx a z pos m (scanBlock colidx z lo n len set s) := by
  unfold scanBlock
  rcases h with ⟨h1, h2, h3, h4, h5, h6⟩ | ⟨h1, h2, h3, h4⟩ | ⟨h1, h2, h3⟩
  · rw [if_neg (by simp [h1])]
    split_ifs with c
    · simp only
      rw [h3] at c
      have hp : pos = z := by
        by_contra hne
        exact hr (by omega) c
      have := hl (by omega)
      split_ifs with c2
      · omega
      · exact Or.inr (Or.inr ⟨rfl, by simp only; omega, h5 hp⟩)
    · exact Or.inl ⟨h1, h2, h3, h4, h5, h6⟩
  · rw [if_pos h1]; exact Or.inr (Or.inl ⟨h1, h2, h3, h4⟩)
  · rw [if_pos h1]; exact Or.inr (Or.inr ⟨h1, h2, h3⟩)

/-- what's in this row -/
structure Has where
  i : Bool
  e : Bool
  f : Bool
  p : Bool
  w : Bool

/-- where each block starts, in the row that starts at `a` -/
def posE (N a : Int) (h : Has) : Int := a + if h.i then N else 0
def posF (N a : Int) (h : Has) : Int := posE N a h + if h.e then 6 else 0
def posP (N a : Int) (h : Has) : Int := posF N a h + if h.f then 6 else 0
def posW (N a : Int) (h : Has) : Int := posP N a h + if h.p then 3 else 0

def inRange (lo n c : Int) : Prop := lo ≤ c ∧ c < lo + n

/-- a row with the blocks `h`, at [a,z) -/
structure RowFits (d : Dims) (N : Int) (colidx : Int → Int) (a z icam : Int) (h : Has) : Prop where
  hN : (h.i = true → 0 < N) ∧ (0 < numStatesIntrinsics d → 0 < N)
  hz : z = posW N a h + if h.w then 2 else 0
  warp : h.w = true → numStatesWarp d = 2
  i : if h.i then inRange (stateIndexIntrinsics 0 d) (numStatesIntrinsics d) (colidx a) ∧ (colidx a - stateIndexIntrinsics 0 d).tdiv ((numStatesIntrinsics d).tdiv d.Nci) = icam
      else a < z → ¬ inRange (stateIndexIntrinsics 0 d) (numStatesIntrinsics d) (colidx a)
  e : if h.e then inRange (stateIndexExtrinsics 0 d) (numStatesExtrinsics d) (colidx (posE N a h))
      else posE N a h < z → ¬ inRange (stateIndexExtrinsics 0 d) (numStatesExtrinsics d) (colidx (posE N a h))
  f : if h.f then inRange (stateIndexFrames 0 d) (numStatesFrames d) (colidx (posF N a h))
      else posF N a h < z → ¬ inRange (stateIndexFrames 0 d) (numStatesFrames d) (colidx (posF N a h))
  p : if h.p then inRange (stateIndexPoints 0 d) (numStatesPoints d) (colidx (posP N a h))
      else posP N a h < z → ¬ inRange (stateIndexPoints 0 d) (numStatesPoints d) (colidx (posP N a h))
  w : if h.w then inRange (stateIndexWarp d) (numStatesWarp d) (colidx (posW N a h))
      else posW N a h < z → ¬ inRange (stateIndexWarp d) (numStatesWarp d) (colidx (posW N a h))

/-- the right map of this row -/
def theMap (N a icam : Int) (h : Has) : RowMap where
  intrinsics := if h.i then a else -1
  extrinsics := if h.e then posE N a h else -1
  frames := if h.f then posF N a h else -1
  points := if h.p then posP N a h else -1
  warp := if h.w then posW N a h else -1
  icam := if h.i then icam else -1

theorem mapRow_spec (d : Dims) (N : Int) (rowptr : Nat → Int) (colidx : Int → Int) (imeas : Nat) (icam : Int) (h : Has)
    (fit : RowFits d N colidx (rowptr imeas) (rowptr (imeas + 1)) icam h) (hfp : ¬ (h.f = true ∧ h.p = true)) :
    (∀ m, mapRow d N rowptr colidx imeas = some m → m = theMap N (rowptr imeas) icam h) ∧
    (rowptr imeas < rowptr (imeas + 1) → mapRow d N rowptr colidx imeas = some (theMap N (rowptr imeas) icam h)) := by
  obtain ⟨⟨n1, n2⟩, hz, hwp, fi, fe, ff, fp, fw⟩ := fit
  unfold mapRow
  generalize rowptr imeas = a at *
  generalize hzz : rowptr (imeas + 1) = z at *
  simp only
  have q1 : a ≤ posE N a h := by unfold posE; split_ifs with c; have := n1 c; omega; omega
  have q2 : posE N a h ≤ posF N a h := by unfold posF; split_ifs <;> omega
  have q3 : posF N a h ≤ posP N a h := by unfold posP; split_ifs <;> omega
  have q4 : posP N a h ≤ posW N a h := by unfold posW; split_ifs <;> omega
  have q5 : posW N a h ≤ z := by rw [hz]; split_ifs <;> omega
  have s0 : SOk colidx a z a {} ⟨a, colidx a, {}, false⟩ := Or.inl ⟨rfl, rfl, rfl, by omega, fun h => h, rfl⟩
  generalize (⟨a, colidx a, {}, false⟩ : Scan) = S0 at s0 ⊢
  have s1 : SOk colidx a z (posE N a h) { intrinsics := if h.i then a else -1, icam := if h.i then icam else -1 }
      (scanBlock colidx z (stateIndexIntrinsics 0 d) (numStatesIntrinsics d) N
        (fun i st m => { m with icam := (st - stateIndexIntrinsics 0 d).tdiv ((numStatesIntrinsics d).tdiv d.Nci), intrinsics := i }) S0) := by
    cases hc : h.i
    · rw [hc] at fi
      have : posE N a h = a := by unfold posE; rw [hc]; simp
      rw [this]
      exact scan_absent s0 _ _ _ _ fi n2
    · rw [hc, if_pos rfl] at fi
      have e1 : posE N a h = a + N := by unfold posE; rw [hc]; simp
      rw [e1] at q2 ⊢
      have := scan_present s0 (stateIndexIntrinsics 0 d) (numStatesIntrinsics d) N
        (fun i st m => { m with icam := (st - stateIndexIntrinsics 0 d).tdiv ((numStatesIntrinsics d).tdiv d.Nci), intrinsics := i }) fi.1 (n1 hc) (by omega) (by omega)
      simp only [fi.2] at this
      exact this
  generalize scanBlock colidx z (stateIndexIntrinsics 0 d) (numStatesIntrinsics d) N _ S0 = S1 at s1 ⊢
  have s2 : SOk colidx a z (posF N a h) { intrinsics := if h.i then a else -1, icam := if h.i then icam else -1, extrinsics := if h.e then posE N a h else -1 }
      (scanBlock colidx z (stateIndexExtrinsics 0 d) (numStatesExtrinsics d) 6 (fun i _ m => { m with extrinsics := i }) S1) := by
    cases hc : h.e
    · rw [hc] at fe
      have : posF N a h = posE N a h := by unfold posF; rw [hc]; simp
      rw [this]
      exact scan_absent s1 _ _ _ _ fe (by omega)
    · rw [hc, if_pos rfl] at fe
      have e1 : posF N a h = posE N a h + 6 := by unfold posF; rw [hc]; simp
      rw [e1] at q3 ⊢
      exact scan_present s1 _ _ 6 (fun i _ m => { m with extrinsics := i }) fe (by omega) (by omega) (by omega)
  generalize scanBlock colidx z (stateIndexExtrinsics 0 d) (numStatesExtrinsics d) 6 _ S1 = S2 at s2 ⊢
  have s3 : SOk colidx a z (posP N a h) { intrinsics := if h.i then a else -1, icam := if h.i then icam else -1, extrinsics := if h.e then posE N a h else -1, frames := if h.f then posF N a h else -1 }
      (scanBlock colidx z (stateIndexFrames 0 d) (numStatesFrames d) 6 (fun i _ m => { m with frames := i }) S2) := by
    cases hc : h.f
    · rw [hc] at ff
      have : posP N a h = posF N a h := by unfold posP; rw [hc]; simp
      rw [this]
      exact scan_absent s2 _ _ _ _ ff (by omega)
    · rw [hc, if_pos rfl] at ff
      have e1 : posP N a h = posF N a h + 6 := by unfold posP; rw [hc]; simp
      rw [e1] at q4 ⊢
      exact scan_present s2 _ _ 6 (fun i _ m => { m with frames := i }) ff (by omega) (by omega) (by omega)
  generalize scanBlock colidx z (stateIndexFrames 0 d) (numStatesFrames d) 6 _ S2 = S3 at s3 ⊢
  have s4 : SOk colidx a z (posW N a h) { intrinsics := if h.i then a else -1, icam := if h.i then icam else -1, extrinsics := if h.e then posE N a h else -1, frames := if h.f then posF N a h else -1, points := if h.p then posP N a h else -1 }
      (scanBlock colidx z (stateIndexPoints 0 d) (numStatesPoints d) 3 (fun i _ m => { m with points := i }) S3) := by
    cases hc : h.p
    · rw [hc] at fp
      have : posW N a h = posP N a h := by unfold posW; rw [hc]; simp
      rw [this]
      exact scan_absent s3 _ _ _ _ fp (by omega)
    · rw [hc, if_pos rfl] at fp
      have e1 : posW N a h = posP N a h + 3 := by unfold posW; rw [hc]; simp
      rw [e1] at q5 ⊢
      exact scan_present s3 _ _ 3 (fun i _ m => { m with points := i }) fp (by omega) (by omega) (by omega)
  generalize scanBlock colidx z (stateIndexPoints 0 d) (numStatesPoints d) 3 _ S3 = S4 at s4 ⊢
  have s5 : SOk colidx a z z (theMap N a icam h)
      (scanBlock colidx z (stateIndexWarp d) (numStatesWarp d) (numStatesWarp d) (fun i _ m => { m with warp := i }) S4) := by
    unfold theMap
    cases hc : h.w
    · rw [hc] at fw hz
      have : z = posW N a h := by simpa using hz
      rw [← this] at s4 fw
      exact scan_absent s4 _ _ _ _ (by simp) (by omega)
    · rw [hc, if_pos rfl] at fw hz
      have e := hwp hc
      have := scan_present s4 (stateIndexWarp d) (numStatesWarp d) (numStatesWarp d) (fun i _ m => { m with warp := i }) fw (by omega) (by omega) (by omega)
      rw [e, ← hz] at this
      rw [e]
      exact this
  generalize scanBlock colidx z (stateIndexWarp d) (numStatesWarp d) (numStatesWarp d) _ S4 = S5 at s5 ⊢
  have hboth : ¬ ((theMap N a icam h).frames ≥ 0 ∧ (theMap N a icam h).points ≥ 0) := by
    rintro ⟨c1, c2⟩
    unfold theMap at c1 c2
    simp only at c1 c2
    exact hfp ⟨by by_contra c; rw [if_neg c] at c1; omega, by by_contra c; rw [if_neg c] at c2; omega⟩
  rcases s5 with ⟨h1, h2, h3, h4, h5, h6⟩ | ⟨h1, h2, h3, h4⟩ | ⟨h1, h2, h3⟩
  · rw [if_neg (by rw [h2]; simp), h6, if_neg hboth]
    exact ⟨fun m hm => (Option.some.inj hm).symm, fun _ => rfl⟩
  · rw [if_neg (by rw [h2]; simp), h4, if_neg hboth]
    exact ⟨fun m hm => (Option.some.inj hm).symm, fun _ => rfl⟩
  · rw [if_pos (by omega)]
    exact ⟨fun m hm => by simp at hm, by omega⟩

theorem range_nonneg {d : Dims} (wf : StateLayout.WF d) {c : Int} :
    (inRange (stateIndexIntrinsics 0 d) (numStatesIntrinsics d) c → 0 ≤ stateIndexIntrinsics 0 d ∧ 0 ≤ c) ∧
    (inRange (stateIndexExtrinsics 0 d) (numStatesExtrinsics d) c → 0 ≤ stateIndexExtrinsics 0 d ∧ 0 ≤ c) ∧
    (inRange (stateIndexFrames 0 d) (numStatesFrames d) c → 0 ≤ stateIndexFrames 0 d ∧ 0 ≤ c) ∧
    (inRange (stateIndexPoints 0 d) (numStatesPoints d) c → 0 ≤ stateIndexPoints 0 d ∧ 0 ≤ c) ∧
    (inRange (stateIndexWarp d) (numStatesWarp d) c → 0 ≤ stateIndexWarp d ∧ 0 ≤ c) := by
  obtain ⟨n1, n2, n3, n4, n5⟩ := StateLayout.nonnegs wf
  obtain ⟨w1, w2, w3, w4, w5⟩ := wf
  unfold inRange
  refine ⟨fun h => ?_, fun h => ?_, fun h => ?_, fun h => ?_, fun h => ?_⟩
  · have : 0 ≤ stateIndexIntrinsics 0 d := by
      have hn : 0 < numStatesIntrinsics d := by omega
      unfold numStatesIntrinsics at hn
      unfold stateIndexIntrinsics
      have h1 : ¬ d.Nci ≤ 0 := fun h => by rw [show d.Nci = 0 by omega] at hn; simp at hn
      have h2 : ¬ numIntrinsicsOpt d.sel d.lens ≤ 0 := fun h => by nlinarith
      simp only [if_neg h1, if_neg h2]
      rw [if_neg (by simp; omega)]; simp
    omega
  · have : 0 ≤ stateIndexExtrinsics 0 d := by
      have hn : 0 < numStatesExtrinsics d := by omega
      unfold numStatesExtrinsics at hn
      unfold stateIndexExtrinsics
      split_ifs at hn with c1
      rw [if_neg (by omega), if_neg (by simp [c1]), if_neg (by simp; omega)]; omega
      omega
    omega
  · have : 0 ≤ stateIndexFrames 0 d := by
      have hn : 0 < numStatesFrames d := by omega
      unfold numStatesFrames at hn
      unfold stateIndexFrames
      split_ifs at hn with c1
      rw [if_neg (by omega), if_neg (by simp [c1]), if_neg (by simp; omega)]; omega
      omega
    omega
  · have : 0 ≤ stateIndexPoints 0 d := by
      have hn : 0 < numStatesPoints d := by omega
      unfold numStatesPoints at hn
      unfold stateIndexPoints
      simp only at hn ⊢
      split_ifs at hn with c1
      rw [if_neg (by omega), if_neg (by simp [c1]), if_neg (by simp; omega)]; omega
      omega
    omega
  · have : 0 ≤ stateIndexWarp d := by
      have hn : 0 < numStatesWarp d := by omega
      unfold numStatesWarp at hn
      unfold stateIndexWarp
      split_ifs at hn with c1
      rw [if_neg (by simp [c1])]; omega
      omega
    omega

theorem theMap_ok (d : Dims) (wf : StateLayout.WF d) (N : Int) (colidx : Int → Int) (a z icam : Int) (h : Has) (fit : RowFits d N colidx a z icam h)
    (hfp : ¬ (h.f = true ∧ h.p = true)) (hpw : ¬ (h.p = true ∧ h.w = true)) : MapOk d colidx (theMap N a icam h) := by
  obtain ⟨⟨n1, n2⟩, hz, hwp, fi, fe, ff, fp, fw⟩ := fit
  unfold theMap
  constructor <;> simp only
  · intro c
    split_ifs at c ⊢ with c1
    · rw [c1, if_pos rfl] at fe; exact ((range_nonneg wf).2.1 fe).2
    · omega
  · intro c
    split_ifs at c ⊢ with c1
    · rw [c1, if_pos rfl] at ff; exact ((range_nonneg wf).2.2.1 ff).2
    · omega
  · intro c
    split_ifs at c ⊢ with c1
    · rw [c1, if_pos rfl] at fp; exact ((range_nonneg wf).2.2.2.1 fp).2
    · omega
  · rintro ⟨c1, c2⟩
    exact hfp ⟨by by_contra c; rw [if_neg c] at c1; omega, by by_contra c; rw [if_neg c] at c2; omega⟩
  · intro c1
    rw [if_neg]
    · omega
    · intro c
      exact hpw ⟨by by_contra c; rw [if_neg c] at c1; omega, c⟩
  · intro c
    split_ifs at c with c1
    · rw [c1, if_pos rfl] at fw; exact ((range_nonneg wf).2.2.2.2 fw).1
    · omega

/-! ### the loop -/

/-- is this measurement used? -/
def used (icamI : Int) (m : RowMap) : Prop := icamI < 0 ∨ m.icam = icamI

instance (icamI : Int) (m : RowMap) : Decidable (used icamI m) := by unfold used; infer_instance

theorem loop_tot (d : Dims) (Nrow icamI : Int) (b : Int → ℝ) (rowptr : Nat → Int) (colidx : Int → Int) (jval : Int → ℝ) (ms : Nat → RowMap) (n : Nat) (s : St)
    (hm : ∀ k < n, (∀ m, mapRow d Nrow rowptr colidx k = some m → m = ms k) ∧ MapOk d colidx (ms k))
    (hs : (List.range n).foldlM (fun s imeas => step d Nrow icamI b rowptr colidx jval imeas s) St.init = some s) :
    Inv (decide (icamI ≥ 0)) s ∧
    (∀ i < 6, ∀ j, totK d b s i j = ∑ k ∈ Finset.range n, if used icamI (ms k) then
      rowC (decide (icamI ≥ 0)) b colidx jval (ms k) i * rowV d (decide (icamI ≥ 0)) colidx jval (ms k) j else 0) ∧
    (∀ i < 6, ∀ j < 6, totJ b s i j = ∑ k ∈ Finset.range n, if used icamI (ms k) then
      rowC (decide (icamI ≥ 0)) b colidx jval (ms k) i * rowC (decide (icamI ≥ 0)) b colidx jval (ms k) j else 0) ∧
    (∀ k < n, mapRow d Nrow rowptr colidx k = some (ms k)) ∧
    (∀ k < n, (ms k).warp < 0 ↔ stateIndexWarp d < 0) ∧ (∀ k < n, icamI ≥ 0 → (ms k).icam ≥ 0) := by
  induction n generalizing s with
  | zero =>
    simp only [List.range_zero, List.foldlM_nil] at hs
    obtain rfl := Option.some.inj hs
    refine ⟨⟨fun _ => ⟨rfl, rfl, rfl, rfl⟩, fun _ => ⟨rfl, rfl⟩, fun _ => rfl, fun _ => by simp [St.init], fun h => by simp [St.init] at h⟩, ?_, ?_, ?_, ?_, ?_⟩
    · intro i _ j; simp [totK, St.init]
    · intro i _ j _; simp [totJ, St.init, sym]
    all_goals (intro k hk; omega)
  | succ n ih =>
    rw [List.range_succ, List.foldlM_append] at hs
    obtain ⟨s1, h1, h2⟩ := Option.bind_eq_some_iff.mp hs
    simp only [List.foldlM_cons, List.foldlM_nil, bind_pure] at h2
    obtain ⟨i1, i2, i3, i4, i5, i6⟩ := ih s1 (fun k hk => hm k (by omega)) h1
    unfold step at h2
    obtain ⟨m1, m2⟩ := hm n (by omega)
    cases hmr : mapRow d Nrow rowptr colidx n with
    | none => rw [hmr] at h2; simp at h2
    | some m =>
      have hmm := m1 m hmr
      subst hmm
      rw [hmr] at h2
      simp only at h2
      split_ifs at h2 with c1 c2 c3 c4
      · -- another camera
        obtain rfl := Option.some.inj h2
        have hu : ¬ used icamI (ms n) := by unfold used; omega
        refine ⟨i1, ?_, ?_, ?_, ?_, ?_⟩
        · intro i hi j; rw [Finset.sum_range_succ, if_neg hu, add_zero, i2 i hi j]
        · intro i hi j hj; rw [Finset.sum_range_succ, if_neg hu, add_zero, i3 i hi j hj]
        · intro k hk
          rcases Nat.lt_succ_iff_lt_or_eq.mp hk with h | rfl
          · exact i4 k h
          · exact hmr
        · intro k hk
          rcases Nat.lt_succ_iff_lt_or_eq.mp hk with h | rfl
          · exact i5 k h
          · omega
        · intro k hk
          rcases Nat.lt_succ_iff_lt_or_eq.mp hk with h | rfl
          · exact i6 k h
          · omega
      · obtain rfl := Option.some.inj h2
        have hu : used icamI (ms n) := by unfold used; omega
        obtain ⟨a1, a2, a3⟩ := accumulateRow_spec d (decide (icamI ≥ 0)) b colidx jval (ms n) s1 i1 m2
        refine ⟨a1, ?_, ?_, ?_, ?_, ?_⟩
        · intro i hi j; rw [Finset.sum_range_succ, if_pos hu, a2 i hi j, i2 i hi j]
        · intro i hi j hj; rw [Finset.sum_range_succ, if_pos hu, a3 i hi j hj, i3 i hi j hj]
        · intro k hk
          rcases Nat.lt_succ_iff_lt_or_eq.mp hk with h | rfl
          · exact i4 k h
          · exact hmr
        · intro k hk
          rcases Nat.lt_succ_iff_lt_or_eq.mp hk with h | rfl
          · exact i5 k h
          · omega
        · intro k hk
          rcases Nat.lt_succ_iff_lt_or_eq.mp hk with h | rfl
          · exact i6 k h
          · omega

theorem loop_succeeds (d : Dims) (Nrow icamI : Int) (b : Int → ℝ) (rowptr : Nat → Int) (colidx : Int → Int) (jval : Int → ℝ) (ms : Nat → RowMap) (n : Nat) (s : St)
    (hm : ∀ k < n, mapRow d Nrow rowptr colidx k = some (ms k))
    (hw : ∀ k < n, (ms k).warp < 0 ↔ stateIndexWarp d < 0) (hi : ∀ k < n, icamI ≥ 0 → (ms k).icam ≥ 0) :
    ∃ s', (List.range n).foldlM (fun s imeas => step d Nrow icamI b rowptr colidx jval imeas s) s = some s' := by
  induction n with
  | zero => exact ⟨s, rfl⟩
  | succ n ih =>
    obtain ⟨s1, h1⟩ := ih (fun k hk => hm k (by omega)) (fun k hk => hw k (by omega)) (fun k hk => hi k (by omega))
    rw [List.range_succ, List.foldlM_append, h1]
    simp only [Option.bind_eq_bind, Option.bind_some, List.foldlM_cons, List.foldlM_nil]
    have e : ∃ s2, step d Nrow icamI b rowptr colidx jval n s1 = some s2 := by
      unfold step
      rw [hm n (by omega)]
      have w := hw n (by omega)
      have c := hi n (by omega)
      simp only
      rw [if_neg (by omega), if_neg (by omega), if_neg (by omega)]
      split_ifs <;> exact ⟨_, rfl⟩
    obtain ⟨s2, h2⟩ := e
    exact ⟨s2, by rw [h2]; rfl⟩

/-! ### the solve -/

theorem finalize_fold (L : Lapack) (f : L.F) (lo : Int) (n : Nat) (K K' : Nat → Int → ℝ)
    (h : (List.range n).foldlM (fun (K : Nat → Int → ℝ) (j : Nat) =>
      (L.pptrs f fun i => K i (lo + j)).map fun x => fun i c => if c = lo + j then -x i else K i c) K = some K') :
    (∀ j, inRange lo n j → ∃ y, L.pptrs f (fun i => K i j) = some y ∧ ∀ i, K' i j = -y i) ∧ (∀ j, ¬ inRange lo n j → ∀ i, K' i j = K i j) := by
  unfold inRange
  induction n generalizing K' with
  | zero =>
    simp only [List.range_zero, List.foldlM_nil] at h
    obtain rfl := Option.some.inj h
    exact ⟨fun j hj => by omega, fun _ _ _ => rfl⟩
  | succ n ih =>
    rw [List.range_succ, List.foldlM_append] at h
    obtain ⟨K1, h1, h2⟩ := Option.bind_eq_some_iff.mp h
    simp only [List.foldlM_cons, List.foldlM_nil, bind_pure] at h2
    obtain ⟨y, hy, rfl⟩ := Option.map_eq_some_iff.mp h2
    obtain ⟨a1, a2⟩ := ih K1 h1
    refine ⟨fun j hj => ?_, fun j hj i => ?_⟩
    · by_cases hjn : j = lo + n
      · subst hjn
        have : (fun i => K1 i (lo + n)) = fun i => K i (lo + n) := funext fun i => a2 _ (by omega) i
        rw [this] at hy
        exact ⟨y, hy, fun i => if_pos rfl⟩
      · obtain ⟨y', hy', e⟩ := a1 j (by push_cast at hj; omega)
        exact ⟨y', hy', fun i => by simp only [if_neg hjn]; exact e i⟩
    · push_cast at hj
      simp only [if_neg (show ¬ j = lo + n by omega)]
      exact a2 j (by omega) i

theorem finalize_spec (L : Lapack) (f : L.F) (lo n : Int) (hn : 0 ≤ n) (h0 : 0 < n → 0 ≤ lo) (K K' : Nat → Int → ℝ) (h : finalize L f lo n K = some K') :
    (∀ j, inRange lo n j → ∃ y, L.pptrs f (fun i => K i j) = some y ∧ ∀ i, K' i j = -y i) ∧ (∀ j, ¬ inRange lo n j → ∀ i, K' i j = K i j) := by
  unfold finalize at h
  split_ifs at h with c
  · have := finalize_fold L f lo n.toNat K K' h
    rwa [Int.toNat_of_nonneg hn] at this
  · obtain rfl := Option.some.inj h
    refine ⟨fun j hj => ?_, fun _ _ _ => rfl⟩
    unfold inRange at hj
    have := h0 (by omega)
    omega

theorem finalize_succeeds (L : Lapack) (f : L.F) (hf : ∀ x, ∃ y, L.pptrs f x = some y) (lo n : Int) (K : Nat → Int → ℝ) : ∃ K', finalize L f lo n K = some K' := by
  unfold finalize
  split_ifs
  · generalize n.toNat = m
    induction m with
    | zero => exact ⟨K, rfl⟩
    | succ m ih =>
      obtain ⟨K1, h1⟩ := ih
      obtain ⟨y, hy⟩ := hf fun i => K1 i (lo + m)
      rw [List.range_succ, List.foldlM_append, h1]
      simp only [Option.bind_eq_bind, Option.bind_some, List.foldlM_cons, List.foldlM_nil, hy, Option.map_some]
      exact ⟨_, rfl⟩
  · exact ⟨K, rfl⟩

end Mrcal.Uncertainty
