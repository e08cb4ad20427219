import Verif.Props.UncertaintyRows
/-
Helper lemmas for C77: reading the rows that optimizer_callback() writes.
-/
namespace Mrcal.Uncertainty
open Mrcal Pose Callback StateLayout

/-- the row at position `a` in the arrays -/
def RowAt (colidx : Int → Int) (jval : Int → ℝ) (a : Int) (l : List (Int × ℝ)) : Prop :=
  ∀ (k : Nat) x, l[k]? = some x → colidx (a + k) = x.1 ∧ jval (a + k) = x.2

theorem RowAt.left {colidx : Int → Int} {jval : Int → ℝ} {a : Int} {l m : List (Int × ℝ)} (h : RowAt colidx jval a (l ++ m)) : RowAt colidx jval a l := by
  intro k x hx
  have hk : k < l.length := (List.getElem?_eq_some_iff.1 hx).1
  exact h k x (by rw [List.getElem?_append_left hk]; exact hx)

theorem RowAt.right {colidx : Int → Int} {jval : Int → ℝ} {a : Int} {l m : List (Int × ℝ)} (h : RowAt colidx jval a (l ++ m)) : RowAt colidx jval (a + l.length) m := by
  intro k x hx
  have := h (l.length + k) x (by rw [List.getElem?_append_right (by omega)]; simpa using hx)
  push_cast at this
  rw [← add_assoc] at this
  exact this

theorem RowAt.head {colidx : Int → Int} {jval : Int → ℝ} {a : Int} {l : List (Int × ℝ)} (h : RowAt colidx jval a l) (hl : 0 < l.length) : ∃ x ∈ l, colidx a = x.1 := by
  obtain ⟨x, hx⟩ : ∃ x, l[0]? = some x := ⟨l[0], List.getElem?_eq_getElem hl⟩
  exact ⟨x, List.mem_of_getElem? hx, by simpa using (h 0 x hx).1⟩

theorem cols_length (o : Option Int) (n : Nat) : (cols o n).length = if o.isSome then n else 0 := by
  cases o <;> simp [cols]

theorem cols_mem {o : Option Int} {n : Nat} {x : Int} (h : x ∈ cols o n) : ∃ c, o = some c ∧ c ≤ x ∧ x < c + n := by
  cases o with
  | none => simp [cols] at h
  | some c =>
    simp only [cols, List.mem_map, List.mem_range] at h
    obtain ⟨k, hk, rfl⟩ := h
    exact ⟨c, rfl, by omega, by omega⟩

theorem block_head {colidx : Int → Int} {jval : Int → ℝ} {a : Int} {l : List (Int × ℝ)} (h : RowAt colidx jval a l) {c : Int} {n : Nat} (hn : 0 < n)
    (hl : l.map (·.1) = cols (some c) n) : colidx a = c := by
  have hlen : l.length = n := by have := congrArg List.length hl; simpa [cols_length] using this
  have h0 : l[0]? = some l[0] := List.getElem?_eq_getElem (by omega)
  have e := (h 0 _ h0).1
  have : (l.map (·.1))[0]? = some l[0].1 := by rw [List.getElem?_map, h0]; rfl
  rw [hl] at this
  simp only [cols, List.getElem?_map, List.getElem?_range hn, Option.map_some, Option.some.injEq] at this
  simp only [Nat.cast_zero, add_zero] at e this
  rw [e, ← this]

/-- (row)·v over one block -/
theorem block_sum {colidx : Int → Int} {jval : Int → ℝ} {a : Int} {l : List (Int × ℝ)} (h : RowAt colidx jval a l) {c : Int} {n : Nat}
    (hl : l.map (·.1) = cols (some c) n) (v : Int → ℝ) : (l.map fun x => x.2 * v x.1).sum = ∑ x : Fin n, jval (a + x) * v (c + x) := by
  have hlen : l.length = n := by have := congrArg List.length hl; simpa [cols_length] using this
  have e : (l.map fun x => x.2 * v x.1) = (List.range n).map fun k : Nat => jval (a + k) * v (c + k) := by
    refine List.ext_getElem? fun k => ?_
    simp only [List.getElem?_map]
    by_cases hk : k < n
    · have hk' : k < l.length := by omega
      have h0 : l[k]? = some l[k] := List.getElem?_eq_getElem hk'
      have h1 : (l.map (·.1))[k]? = some l[k].1 := by rw [List.getElem?_map, h0]; rfl
      rw [hl] at h1
      simp only [cols, List.getElem?_map, List.getElem?_range hk, Option.map_some, Option.some.injEq] at h1
      rw [h0, List.getElem?_range hk, Option.map_some, Option.map_some, (h k _ h0).2, h1]
    · rw [List.getElem?_eq_none (by omega), List.getElem?_eq_none (by simpa using hk)]; rfl
  rw [e, Finset.sum_fin_eq_sum_range, ← List.sum_toFinset _ List.nodup_range, List.toFinset_range]
  exact Finset.sum_congr rfl fun x hx => by rw [dif_pos (Finset.mem_range.mp hx)]

theorem sum_zero {l : List (Int × ℝ)} {v : Int → ℝ} (h : ∀ x ∈ l, v x.1 = 0) : (l.map fun x => x.2 * v x.1).sum = 0 := by
  refine List.sum_eq_zero fun y hy => ?_
  obtain ⟨x, hx, rfl⟩ := List.mem_map.mp hy
  rw [h x hx, mul_zero]

/-- what's in the rows of this source -/
def Source.has (d : Dims) (s : Source) : Has where
  i := decide (0 < numIntrinsicsPerMeasurement d)
  e := (s.e d).isSome
  f := (s.f d).isSome
  p := (s.p d).isSome
  w := s.w d

/-- the intrinsics appear in the rows exactly if they're being optimized -/
theorem perMeasurement_pos (d : Dims) (grid : ∀ order Nx Ny fov, d.lens = .splined order Nx Ny fov → order + 1 ≤ Nx ∧ order + 1 ≤ Ny) :
    0 ≤ numIntrinsicsPerMeasurement d ∧ (0 < numIntrinsicsPerMeasurement d ↔ 0 < numIntrinsicsOpt d.sel d.lens) := by
  have h4 := numParams_ge4 d.lens
  unfold numIntrinsicsPerMeasurement
  rw [show d.lens.hasCore = true from rfl]
  cases hl : d.lens with
  | splined order Nx Ny fov =>
    obtain ⟨g1, g2⟩ := grid _ _ _ _ hl
    have p1 : (0 : Int) < ((order : Int) + 1) * (order + 1) := by positivity
    have p2 : (0 : Int) < 2 * (Nx : Int) * Ny := by
      have : 0 < Nx := by omega
      have : 0 < Ny := by omega
      positivity
    cases hc : d.sel.core <;> cases hd : d.sel.distortions <;>
      simp only [numIntrinsicsOpt, numDistortionsOpt, hc, hd, Lens.hasCore, Lens.numParams] <;> simp <;> first | omega | exact ⟨by omega, by nlinarith⟩ | exact ⟨by nlinarith, ⟨fun _ => by nlinarith, fun _ => by nlinarith⟩⟩
  | _ =>
    cases hc : d.sel.core <;> cases hd : d.sel.distortions <;>
      simp [numIntrinsicsOpt, numDistortionsOpt, hc, hd, Lens.hasCore, Lens.numParams]

/-- the blocks of this row, at their positions -/
structure Blocks (d : Dims) (s : Source) (colidx : Int → Int) (jval : Int → ℝ) (a z : Int) (r : Row) (sp : RowSplit d s r) : Prop where
  N0 : 0 ≤ numIntrinsicsPerMeasurement d
  pE : posE (numIntrinsicsPerMeasurement d) a (s.has d) = a + sp.eI.length
  pF : posF (numIntrinsicsPerMeasurement d) a (s.has d) = a + sp.eI.length + sp.eE.length
  pP : posP (numIntrinsicsPerMeasurement d) a (s.has d) = a + sp.eI.length + sp.eE.length + sp.eF.length
  pW : posW (numIntrinsicsPerMeasurement d) a (s.has d) = a + sp.eI.length + sp.eE.length + sp.eF.length + sp.eP.length
  z : z = a + sp.eI.length + sp.eE.length + sp.eF.length + sp.eP.length + sp.eW.length
  lW : (sp.eW.length : Int) = if s.w d then 2 else 0
  rI : RowAt colidx jval a (sp.eI ++ (sp.eE ++ (sp.eF ++ (sp.eP ++ sp.eW))))
  rE : RowAt colidx jval (a + sp.eI.length) (sp.eE ++ (sp.eF ++ (sp.eP ++ sp.eW)))
  rF : RowAt colidx jval (a + sp.eI.length + sp.eE.length) (sp.eF ++ (sp.eP ++ sp.eW))
  rP : RowAt colidx jval (a + sp.eI.length + sp.eE.length + sp.eF.length) (sp.eP ++ sp.eW)
  rW : RowAt colidx jval (a + sp.eI.length + sp.eE.length + sp.eF.length + sp.eP.length) sp.eW

theorem blocks_of {d : Dims} (grid : ∀ order Nx Ny fov, d.lens = .splined order Nx Ny fov → order + 1 ≤ Nx ∧ order + 1 ≤ Ny) {s : Source}
    {colidx : Int → Int} {jval : Int → ℝ} {a z : Int} {r : Row} (sp : RowSplit d s r) (h : RowAt colidx jval a r.entries) (hz : z = a + r.entries.length) :
    Blocks d s colidx jval a z r sp := by
  obtain ⟨N0, -⟩ := perMeasurement_pos d grid
  have lE : (sp.eE.length : Int) = if (s.e d).isSome then 6 else 0 := by
    have := congrArg List.length sp.E; rw [List.length_map, cols_length] at this; rw [this]; split_ifs <;> rfl
  have lF : (sp.eF.length : Int) = if (s.f d).isSome then 6 else 0 := by
    have := congrArg List.length sp.F; rw [List.length_map, cols_length] at this; rw [this]; split_ifs <;> rfl
  have lP : (sp.eP.length : Int) = if (s.p d).isSome then 3 else 0 := by
    have := congrArg List.length sp.P; rw [List.length_map, cols_length] at this; rw [this]; split_ifs <;> rfl
  have lW : (sp.eW.length : Int) = if s.w d then 2 else 0 := by
    have := congrArg List.length sp.W; rw [List.length_map, cols_length] at this; rw [this]; cases s.w d <;> simp
  have pE : posE (numIntrinsicsPerMeasurement d) a (s.has d) = a + sp.eI.length := by
    unfold posE Source.has
    simp only [decide_eq_true_eq]
    rw [sp.lenI]
    split_ifs <;> omega
  have pF : posF (numIntrinsicsPerMeasurement d) a (s.has d) = a + sp.eI.length + sp.eE.length := by
    unfold posF; rw [pE, lE]; rfl
  have pP : posP (numIntrinsicsPerMeasurement d) a (s.has d) = a + sp.eI.length + sp.eE.length + sp.eF.length := by
    unfold posP; rw [pF, lF]; rfl
  have pW : posW (numIntrinsicsPerMeasurement d) a (s.has d) = a + sp.eI.length + sp.eE.length + sp.eF.length + sp.eP.length := by
    unfold posW; rw [pP, lP]; rfl
  rw [sp.all] at h hz
  refine ⟨N0, pE, pF, pP, pW, ?_, lW, h, h.right, h.right.right, h.right.right.right, h.right.right.right.right⟩
  rw [hz]
  simp only [List.length_append]
  push_cast
  ring

theorem RowSplit.mem_E {d : Dims} {s : Source} (hs : s.Ok d) {r : Row} (sp : RowSplit d s r) : ∀ x ∈ sp.eE,
    numStatesIntrinsics d ≤ x.1 ∧ x.1 < numStatesIntrinsics d + numStatesExtrinsics d := by
  intro x hx
  have : x.1 ∈ cols (s.e d) 6 := by rw [← sp.E]; exact List.mem_map_of_mem hx
  obtain ⟨c, hc, h1, h2⟩ := cols_mem this
  have := Source.e_range hs hc
  omega

theorem RowSplit.mem_F {d : Dims} {s : Source} (hs : s.Ok d) {r : Row} (sp : RowSplit d s r) : ∀ x ∈ sp.eF,
    numStatesIntrinsics d + numStatesExtrinsics d ≤ x.1 ∧ x.1 < numStatesIntrinsics d + numStatesExtrinsics d + numStatesFrames d := by
  intro x hx
  have : x.1 ∈ cols (s.f d) 6 := by rw [← sp.F]; exact List.mem_map_of_mem hx
  obtain ⟨c, hc, h1, h2⟩ := cols_mem this
  have := Source.f_range hs hc
  omega

theorem RowSplit.mem_P {d : Dims} {s : Source} (hs : s.Ok d) {r : Row} (sp : RowSplit d s r) : ∀ x ∈ sp.eP,
    numStatesIntrinsics d + numStatesExtrinsics d + numStatesFrames d ≤ x.1 ∧
      x.1 < numStatesIntrinsics d + numStatesExtrinsics d + numStatesFrames d + numStatesPoints d := by
  intro x hx
  have : x.1 ∈ cols (s.p d) 3 := by rw [← sp.P]; exact List.mem_map_of_mem hx
  obtain ⟨c, hc, h1, h2⟩ := cols_mem this
  have := Source.p_range hs hc
  omega

theorem RowSplit.mem_W {d : Dims} {s : Source} (hs : s.Ok d) {r : Row} (sp : RowSplit d s r) : ∀ x ∈ sp.eW,
    numStatesIntrinsics d + numStatesExtrinsics d + numStatesFrames d + numStatesPoints d ≤ x.1 ∧ x.1 < numStates d := by
  intro x hx
  have : x.1 ∈ cols (if s.w d then some (stateIndexWarp d) else none) 2 := by rw [← sp.W]; exact List.mem_map_of_mem hx
  obtain ⟨c, hc, h1, h2⟩ := cols_mem this
  split_ifs at hc with hw
  obtain rfl := Option.some.inj hc
  have := Source.w_range hs hw
  unfold numStates
  omega

theorem RowSplit.mem_I {d : Dims} {s : Source} (hs : s.Ok d) {r : Row} (sp : RowSplit d s r) : ∀ x ∈ sp.eI, 0 ≤ x.1 ∧ x.1 < numStatesIntrinsics d :=
  fun x hx => ⟨(intr_range hs (sp.inI x hx)).1, (intr_range hs (sp.inI x hx)).2.1⟩

theorem row_fits {d : Dims} (wf : WF d) (grid : ∀ order Nx Ny fov, d.lens = .splined order Nx Ny fov → order + 1 ≤ Nx ∧ order + 1 ≤ Ny) {s : Source} (hs : s.Ok d)
    {colidx : Int → Int} {jval : Int → ℝ} {a z : Int} {r : Row} (sp : RowSplit d s r) (B : Blocks d s colidx jval a z r sp) :
    RowFits d (numIntrinsicsPerMeasurement d) colidx a z s.icamI (s.has d) := by
  obtain ⟨N0, Npos⟩ := perMeasurement_pos d grid
  obtain ⟨n1, n2, n3, n4, n5⟩ := nonnegs wf
  have hz := B.z
  have hlI := sp.lenI
  have hlW := B.lW
  constructor
  · refine ⟨fun h => by simpa [Source.has] using h, fun h => Npos.mpr ?_⟩
    unfold numStatesIntrinsics at h
    obtain ⟨s1, s2, -⟩ := hs
    by_contra hneg
    nlinarith
  · rw [B.pW, hz, hlW]; rfl
  · exact fun h => (Source.w_range hs h).2
  · unfold Source.has
    simp only [decide_eq_true_eq]
    split_ifs with h
    · obtain ⟨x, hx, e⟩ := (B.rI.left).head (by omega)
      rw [e]
      obtain ⟨q1, q2, q3⟩ := intr_range hs (sp.inI x hx)
      exact ⟨((range_iff wf _).1).mpr ⟨q1, q2⟩, q3⟩
    · intro _ hr
      have := ((range_iff wf _).1).mp hr
      have h0 : ¬ 0 < numIntrinsicsOpt d.sel d.lens := fun h' => h (Npos.mpr h')
      have : numStatesIntrinsics d ≤ 0 := by
        unfold numStatesIntrinsics
        nlinarith [wf.nci]
      omega
  · rw [B.pE]
    show if (s.e d).isSome then _ else _
    cases he : s.e d with
    | some c =>
      rw [if_pos (show (some c).isSome = true from rfl), block_head B.rE.left (n := 6) (c := c) (by omega) (by rw [sp.E, he])]
      have := Source.e_range hs he
      exact ((range_iff wf _).2.1).mpr (by omega)
    | none =>
      rw [if_neg (by simp)]
      intro hlt hr
      have hr := ((range_iff wf _).2.1).mp hr
      have hnil : sp.eE = [] := by have := sp.E; rw [he] at this; simpa [cols] using this
      have hEl : sp.eE.length = 0 := by rw [hnil]; rfl
      obtain ⟨x, hx, e⟩ := B.rE.head (by simp only [List.length_append]; omega)
      rw [hnil, List.nil_append] at hx
      rw [e] at hr
      rcases List.mem_append.mp hx with hx | hx
      · have := sp.mem_F hs x hx; omega
      · rcases List.mem_append.mp hx with hx | hx
        · have := sp.mem_P hs x hx; omega
        · have := sp.mem_W hs x hx; omega
  · rw [B.pF]
    show if (s.f d).isSome then _ else _
    cases he : s.f d with
    | some c =>
      rw [if_pos (show (some c).isSome = true from rfl), block_head B.rF.left (n := 6) (c := c) (by omega) (by rw [sp.F, he])]
      have := Source.f_range hs he
      exact ((range_iff wf _).2.2.1).mpr (by omega)
    | none =>
      rw [if_neg (by simp)]
      intro hlt hr
      have hr := ((range_iff wf _).2.2.1).mp hr
      have hnil : sp.eF = [] := by have := sp.F; rw [he] at this; simpa [cols] using this
      have hEl : sp.eF.length = 0 := by rw [hnil]; rfl
      obtain ⟨x, hx, e⟩ := B.rF.head (by simp only [List.length_append]; omega)
      rw [hnil, List.nil_append] at hx
      rw [e] at hr
      rcases List.mem_append.mp hx with hx | hx
      · have := sp.mem_P hs x hx; omega
      · have := sp.mem_W hs x hx; omega
  · rw [B.pP]
    show if (s.p d).isSome then _ else _
    cases he : s.p d with
    | some c =>
      rw [if_pos (show (some c).isSome = true from rfl), block_head B.rP.left (n := 3) (c := c) (by omega) (by rw [sp.P, he])]
      have := Source.p_range hs he
      exact ((range_iff wf _).2.2.2.1).mpr (by omega)
    | none =>
      rw [if_neg (by simp)]
      intro hlt hr
      have hr := ((range_iff wf _).2.2.2.1).mp hr
      have hnil : sp.eP = [] := by have := sp.P; rw [he] at this; simpa [cols] using this
      have hEl : sp.eP.length = 0 := by rw [hnil]; rfl
      obtain ⟨x, hx, e⟩ := B.rP.head (by simp only [List.length_append]; omega)
      rw [hnil, List.nil_append] at hx
      rw [e] at hr
      have := sp.mem_W hs x hx; omega
  · rw [B.pW]
    show if s.w d then _ else _
    cases he : s.w d with
    | true =>
      rw [if_pos rfl, block_head B.rW (n := 2) (c := stateIndexWarp d) (by omega) (by rw [sp.W, he]; rfl)]
      obtain ⟨q1, q2⟩ := Source.w_range hs he
      exact ((range_iff wf _).2.2.2.2).mpr (by unfold numStates; omega)
    | false =>
      rw [if_neg (by simp)]
      intro hlt hr
      rw [he] at hlW
      simp at hlW
      rw [hlW] at hz
      simp at hz
      omega

end Mrcal.Uncertainty
