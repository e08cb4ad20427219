import Verif.Props.TriangulatedProps
import Verif.Props.StateLayoutProps
/-
C02: the measurement-vector layout is a partition.
-/
namespace Mrcal.Meas
open Mrcal Mrcal.Tri

/-! ### Specification -/

/-- One problem, as far as the measurement layout is concerned. -/
structure Prob where
  d : Dims
  Nop : Int
  tri : List TriObs
  W : Int
  H : Int

/-- One scalar measurement. Board corners are identified by observation, (row, column) and x/y. -/
inductive Row
  | board (iobs row col xy : Int)
  | point (iobs xy : Int)
  | tri (iset k : Nat)      -- k-th measurement of the iset-th triangulated point
  | reg (k : Int)

/-- Number of regularization terms, straight from the documentation: one per distortion parameter being
optimized and two for the imager center if that is being optimized, per camera; and one for the unity
|t01| constraint. -/
def specNumReg (d : Dims) : Int :=
  (if d.sel.regularization then
     d.Nci * ((if d.sel.distortions then d.lens.numParams - 4 else 0) + (if d.sel.core then 2 else 0))
   else 0) +
  (if d.sel.unityCam01 = true ∧ d.sel.extrinsics = true ∧ 0 < d.Nce then 1 else 0)

/-- Does this measurement exist in the problem? `ns` are the sizes of the triangulated sets. A point seen
by n cameras makes n(n-1)/2 measurements. -/
def Present (p : Prob) (ns : List Nat) : Row → Prop
  | .board i r c xy => 0 ≤ i ∧ i < p.d.Nob ∧ 0 ≤ r ∧ r < p.H ∧ 0 ≤ c ∧ c < p.W ∧ 0 ≤ xy ∧ xy < 2
  | .point i xy => 0 ≤ i ∧ i < p.Nop ∧ 0 ≤ xy ∧ xy < 2
  | .tri i k => ∃ n, ns[i]? = some n ∧ 2 * k + 1 < n * (n - 1)
  | .reg k => 0 ≤ k ∧ k < specNumReg p.d

/-- Where the API says it is. -/
def loc (p : Prob) : Row → Option Int
  | .board i r c xy => some (measurementIndexBoards i p.d.Nob p.W p.H + (r * p.W + c) * 2 + xy)
  | .point i xy => some (measurementIndexPoints i p.d.Nob p.Nop p.W p.H + xy)
  | .tri i k => (measurementIndexTri i p.d.Nob p.Nop p.tri p.W p.H).map (· + k)
  | .reg k => (measurementIndexRegularization p.d p.Nop p.tri p.W p.H).map (· + k)

/-- (kind, item, sub-item): the documented order -/
def rank : Row → Int × Int × Int × Int × Int
  | .board i r c xy => (0, i, r, c, xy)
  | .point i xy => (1, i, 0, 0, xy)
  | .tri i k => (2, i, k, 0, 0)
  | .reg k => (3, k, 0, 0, 0)

/-- lexicographic order on `rank` -/
def Before (v w : Row) : Prop :=
  (rank v).1 < (rank w).1 ∨ ((rank v).1 = (rank w).1 ∧
  ((rank v).2.1 < (rank w).2.1 ∨ ((rank v).2.1 = (rank w).2.1 ∧
  ((rank v).2.2.1 < (rank w).2.2.1 ∨ ((rank v).2.2.1 = (rank w).2.2.1 ∧
  ((rank v).2.2.2.1 < (rank w).2.2.2.1 ∨ ((rank v).2.2.2.1 = (rank w).2.2.2.1 ∧
  ((rank v).2.2.2.2 < (rank w).2.2.2.2))))))))

structure WF (p : Prob) : Prop where
  nci : 0 ≤ p.d.Nci
  nob : 0 ≤ p.d.Nob
  nop : 0 ≤ p.Nop
  w : 0 ≤ p.W
  h : 0 ≤ p.H

/-! ### Helper lemmas -/

theorem numReg_eq (d : Dims) : numMeasurementsRegularization d = specNumReg d := by
  unfold numMeasurementsRegularization specNumReg numRegularizationPercamera numDistortionsOpt
  rcases d with ⟨Nci, Nce, Nf, Np, Npf, Nob, ⟨a, b, c, e, f, g, h, u⟩, lens⟩
  have h4 : Lens.hasCore lens = true := by cases lens <;> rfl
  cases a <;> cases b <;> cases g <;> simp [h4] <;> cases u <;> cases c <;> simp

theorem specNumReg_nonneg (d : Dims) (h : 0 ≤ d.Nci) : 0 ≤ specNumReg d := by
  have := StateLayout.numParams_ge4 d.lens
  unfold specNumReg
  have : 0 ≤ d.Nci * ((if d.sel.distortions then d.lens.numParams - 4 else 0) + (if d.sel.core then 2 else 0)) := by
    apply mul_nonneg h
    split <;> split <;> omega
  generalize d.Nci * _ = A at *
  split <;> split <;> omega

theorem choose2_lt (k n : Nat) : k < choose2 n ↔ 2 * k + 1 < n * (n - 1) := by
  cases n with
  | zero => simp [choose2]
  | succ n =>
    have h := two_choose2 n
    have : ((n + 1) * (n + 1 - 1) : Nat) = 2 * choose2 (n + 1) := by
      have e : n + 1 - 1 = n := rfl
      rw [e]; exact_mod_cast h.symm
    rw [this]; omega

/-- total of the first `i` sets -/
def triStart (ns : List Nat) (i : Nat) : Nat := ((ns.take i).map choose2).sum

theorem triStart_succ {ns : List Nat} {i n : Nat} (h : ns[i]? = some n) :
    triStart ns (i + 1) = triStart ns i + choose2 n := by
  unfold triStart
  rw [List.take_add_one, h]; simp

theorem triStart_mono {ns : List Nat} {i j : Nat} (h : i ≤ j) : triStart ns i ≤ triStart ns j := by
  induction j with
  | zero => simp at h; subst h; exact le_rfl
  | succ j ih =>
    rcases Nat.lt_or_ge j i with h' | h'
    · have : i = j + 1 := by omega
      subst this; exact le_rfl
    · refine le_trans (ih h') ?_
      cases hj : ns[j]? with
      | none =>
        have : ns.length ≤ j := by simpa using hj
        simp [triStart, List.take_of_length_le this, List.take_of_length_le (Nat.le_succ_of_le this)]
      | some n => rw [triStart_succ hj]; omega

theorem triStart_total (ns : List Nat) : triStart ns ns.length = (ns.map choose2).sum := by
  simp [triStart]

theorem triStart_le (ns : List Nat) (i : Nat) : triStart ns i ≤ (ns.map choose2).sum := by
  rcases Nat.lt_or_ge i ns.length with h | h
  · rw [← triStart_total]; exact triStart_mono h.le
  · rw [triStart, List.take_of_length_le h]

theorem tri_exists (ns : List Nat) (z : Nat) (hz : z < (ns.map choose2).sum) :
    ∃ i k n, ns[i]? = some n ∧ k < choose2 n ∧ z = triStart ns i + k := by
  induction ns generalizing z with
  | nil => simp at hz
  | cons n ns ih =>
    by_cases h : z < choose2 n
    · exact ⟨0, z, n, rfl, h, by simp [triStart]⟩
    · obtain ⟨i, k, m, h1, h2, h3⟩ := ih (z - choose2 n) (by simp at hz; omega)
      refine ⟨i + 1, k, m, by simpa using h1, h2, ?_⟩
      simp [triStart] at h3 ⊢; omega

theorem boards_eq {Nob W H : Int} (h : 0 ≤ Nob) : numMeasurementsBoards Nob W H = Nob * W * H * 2 := by
  unfold numMeasurementsBoards
  split
  · have : Nob = 0 := by omega
    simp [this]
  · rfl

variable {p : Prob} {ns : List Nat}

/-- total of the triangulated block -/
def T (ns : List Nat) : Int := ((ns.map choose2).sum : Nat)

theorem loc_board (_wf : WF p) {i r c xy : Int} (h : Present p ns (.board i r c xy)) :
    loc p (.board i r c xy) = some (((i * p.H + r) * p.W + c) * 2 + xy) := by
  obtain ⟨h1, h2, -⟩ := h
  simp only [loc, measurementIndexBoards, boards_eq h1]
  rw [if_neg (by omega)]
  congr 1; ring

theorem loc_point (wf : WF p) {i xy : Int} (h : Present p ns (.point i xy)) :
    loc p (.point i xy) = some (p.d.Nob * p.W * p.H * 2 + i * 2 + xy) := by
  obtain ⟨h1, h2, -⟩ := h
  simp only [loc, measurementIndexPoints, boards_eq wf.nob]
  rw [if_neg (by omega)]

theorem loc_tri (wf : WF p) (hs : Sets p.tri ns) {i k : Nat} (h : Present p ns (.tri i k)) :
    loc p (.tri i k) = some (p.d.Nob * p.W * p.H * 2 + p.Nop * 2 + triStart ns i + k) := by
  obtain ⟨n, h1, h2⟩ := h
  have hne : ¬ p.tri.length ≤ 0 := by
    intro h0
    have h0 : p.tri = [] := by simpa using h0
    rw [h0] at hs
    cases hs with
    | nil => simp at h1
    | cons hs _ => exact hs.ne_nil rfl
  simp only [loc, measurementIndexTri, if_neg hne, numMeasurementsTriInitial_sets hs, boards_eq wf.nob,
    numMeasurementsPoints]
  rw [if_neg (by omega)]
  simp [triStart]

theorem loc_reg (wf : WF p) (hs : Sets p.tri ns) {k : Int} (h : Present p ns (.reg k)) :
    loc p (.reg k) = some (p.d.Nob * p.W * p.H * 2 + p.Nop * 2 + T ns + k) := by
  obtain ⟨h1, h2⟩ := h
  simp only [loc, measurementIndexRegularization, numReg_eq, numMeasurementsTri,
    numMeasurementsTriInitial_sets hs, boards_eq wf.nob, numMeasurementsPoints]
  rw [if_neg (by omega)]
  simp [T]

theorem total_eq (wf : WF p) (hs : Sets p.tri ns) :
    numMeasurements p.d p.Nop p.tri p.W p.H =
      some (p.d.Nob * p.W * p.H * 2 + p.Nop * 2 + T ns + specNumReg p.d) := by
  simp [numMeasurements, numMeasurementsTri, numMeasurementsTriInitial_sets hs, boards_eq wf.nob,
    numMeasurementsPoints, numReg_eq, T]

private theorem block_lt {M N c k : Int} (hc : 0 ≤ c) (hcM : c < M) (hk : 0 ≤ k) (hkN : k < N) :
    0 ≤ c * N + k ∧ c * N + k < M * N := by
  constructor
  · nlinarith
  · nlinarith [mul_le_mul_of_nonneg_right (show c + 1 ≤ M by omega) (show 0 ≤ N by omega)]

private theorem block_exists {M N i : Int} (hi : 0 ≤ i) (hiN : i < M * N) (hN : 0 ≤ N) :
    ∃ c k, 0 ≤ c ∧ c < M ∧ 0 ≤ k ∧ k < N ∧ i = c * N + k := by
  have hN : 0 < N := by
    rcases lt_or_eq_of_le hN with h | h
    · exact h
    · subst h; simp at hiN; omega
  refine ⟨i / N, i % N, Int.ediv_nonneg hi hN.le, ?_, Int.emod_nonneg _ hN.ne', Int.emod_lt_of_pos _ hN, ?_⟩
  · exact Int.ediv_lt_of_lt_mul hN hiN
  · have := Int.ediv_mul_add_emod i N; linarith

theorem block_mono {N c c' k k' : Int} (hk0 : 0 ≤ k) (hk : 0 ≤ k') (hkN : k < N)
    (h : c < c' ∨ (c = c' ∧ k < k')) : c * N + k < c' * N + k' := by
  rcases h with h | ⟨h, h'⟩
  · nlinarith
  · subst h; omega

theorem board_bound {i r c xy : Int} (h : Present p ns (.board i r c xy)) :
    0 ≤ ((i * p.H + r) * p.W + c) * 2 + xy ∧
      ((i * p.H + r) * p.W + c) * 2 + xy < p.d.Nob * p.W * p.H * 2 := by
  obtain ⟨h1, h2, h3, h4, h5, h6, h7, h8⟩ := h
  obtain ⟨a1, a2⟩ := block_lt h1 h2 h3 h4
  obtain ⟨b1, b2⟩ := block_lt a1 a2 h5 h6
  obtain ⟨c1, c2⟩ := block_lt b1 b2 h7 h8
  refine ⟨c1, ?_⟩
  have : p.d.Nob * p.H * p.W * 2 = p.d.Nob * p.W * p.H * 2 := by ring
  omega

theorem nb_nonneg (wf : WF p) : 0 ≤ p.d.Nob * p.W * p.H * 2 := by
  have := mul_nonneg (mul_nonneg wf.nob wf.w) wf.h
  omega

theorem tri_bound {i k : Nat} (h : Present p ns (.tri i k)) :
    (triStart ns i : Int) + k < T ns := by
  obtain ⟨n, h1, h2⟩ := h
  rw [← choose2_lt] at h2
  have := triStart_succ h1
  have h3 := triStart_le ns (i + 1)
  unfold T; omega

/-- closed form of the location -/
def pos (p : Prob) (ns : List Nat) : Row → Int
  | .board i r c xy => ((i * p.H + r) * p.W + c) * 2 + xy
  | .point i xy => p.d.Nob * p.W * p.H * 2 + i * 2 + xy
  | .tri i k => p.d.Nob * p.W * p.H * 2 + p.Nop * 2 + triStart ns i + k
  | .reg k => p.d.Nob * p.W * p.H * 2 + p.Nop * 2 + T ns + k

theorem loc_eq (wf : WF p) (hs : Sets p.tri ns) (r : Row) (h : Present p ns r) :
    loc p r = some (pos p ns r) := by
  cases r with
  | board i r c xy => exact loc_board wf h
  | point i xy => exact loc_point wf h
  | tri i k => exact loc_tri wf hs h
  | reg k => exact loc_reg wf hs h

theorem pos_mono (wf : WF p) (v w : Row) (hv : Present p ns v) (hw : Present p ns w)
    (h : Before v w) : pos p ns v < pos p ns w := by
  have hb := nb_nonneg wf
  have hp := wf.nop
  have hT : 0 ≤ T ns := Int.natCast_nonneg _
  cases v with
  | board i r c xy =>
    have hv' := board_bound hv
    cases w with
    | board i' r' c' xy' =>
      obtain ⟨h1, h2, h3, h4, h5, h6, h7, h8⟩ := hv
      obtain ⟨h1', h2', h3', h4', h5', h6', h7', h8'⟩ := hw
      simp [Before, rank] at h
      apply block_mono h7 h7' h8
      rcases h with h | ⟨rfl, h⟩
      · left; apply block_mono h5 h5' h6
        left; apply block_mono h3 h3' h4; left; exact h
      · rcases h with h | ⟨rfl, h⟩
        · left; apply block_mono h5 h5' h6
          left; apply block_mono h3 h3' h4; right; exact ⟨rfl, h⟩
        · rcases h with h | ⟨rfl, h⟩
          · left; apply block_mono h5 h5' h6; right; exact ⟨rfl, h⟩
          · right; exact ⟨rfl, h⟩
    | point i' xy' => obtain ⟨h1, h2, h3, h4⟩ := hw; simp only [pos]; omega
    | tri i' k' => simp only [pos]; omega
    | reg k' => obtain ⟨h1, h2⟩ := hw; simp only [pos]; omega
  | point i xy =>
    obtain ⟨h1, h2, h3, h4⟩ := hv
    cases w with
    | board i' r' c' xy' => simp [Before, rank] at h
    | point i' xy' =>
      obtain ⟨h1', h2', h3', h4'⟩ := hw
      simp [Before, rank] at h
      simp only [pos]; omega
    | tri i' k' => simp only [pos]; omega
    | reg k' => obtain ⟨h1, h2⟩ := hw; simp only [pos]; omega
  | tri i k =>
    have hv' := tri_bound hv
    cases w with
    | board i' r' c' xy' => simp [Before, rank] at h
    | point i' xy' => simp [Before, rank] at h
    | tri i' k' =>
      simp [Before, rank] at h
      simp only [pos]
      rcases h with h | ⟨rfl, h⟩
      · obtain ⟨n, h1, h2⟩ := hv
        rw [← choose2_lt] at h2
        have e := triStart_succ h1
        have := triStart_mono (ns := ns) (show i + 1 ≤ i' by omega)
        omega
      · omega
    | reg k' => obtain ⟨h1, h2⟩ := hw; simp only [pos]; omega
  | reg k =>
    cases w with
    | board i' r' c' xy' => simp [Before, rank] at h
    | point i' xy' => simp [Before, rank] at h
    | tri i' k' => simp [Before, rank] at h
    | reg k' => simp [Before, rank] at h; simp only [pos]; omega

/-! ### Theorems -/

/-- C02 (in range): every measurement that exists has an index, inside the measurement vector. -/
theorem meas_loc_in_range (wf : WF p) (hs : Sets p.tri ns) (r : Row) (h : Present p ns r) :
    ∃ z N, loc p r = some z ∧ numMeasurements p.d p.Nop p.tri p.W p.H = some N ∧ 0 ≤ z ∧ z < N := by
  have hT : 0 ≤ T ns := Int.natCast_nonneg _
  have hR := specNumReg_nonneg p.d wf.nci
  have hb := nb_nonneg wf
  have hp := wf.nop
  refine ⟨_, _, loc_eq wf hs r h, total_eq wf hs, ?_⟩
  cases r with
  | board i r c xy => have := board_bound h; simp only [pos]; omega
  | point i xy => obtain ⟨h1, h2, h3, h4⟩ := h; simp only [pos]; omega
  | tri i k => have := tri_bound h; simp only [pos]; omega
  | reg k => obtain ⟨h1, h2⟩ := h; simp only [pos]; omega

/-- C02 (order): measurements appear in the documented order, without overlap. -/
theorem meas_loc_strictMono (wf : WF p) (hs : Sets p.tri ns) (v w : Row) (hv : Present p ns v)
    (hw : Present p ns w) (h : Before v w) :
    ∃ a b, loc p v = some a ∧ loc p w = some b ∧ a < b :=
  ⟨_, _, loc_eq wf hs v hv, loc_eq wf hs w hw, pos_mono wf v w hv hw h⟩

private theorem before_total (v w : Row) : Before v w ∨ v = w ∨ Before w v := by
  cases v <;> cases w <;> simp [Before, rank] <;> omega

/-- C02 (tiling): every index of the measurement vector is exactly one measurement. -/
theorem meas_layout_tiles (wf : WF p) (hs : Sets p.tri ns) (N z : Int)
    (hN : numMeasurements p.d p.Nop p.tri p.W p.H = some N) (h0 : 0 ≤ z) (hz : z < N) :
    ∃ r, Present p ns r ∧ loc p r = some z ∧ ∀ r', Present p ns r' → loc p r' = some z → r' = r := by
  rw [total_eq wf hs] at hN
  cases hN
  have hb := nb_nonneg wf
  have hp := wf.nop
  have hT : 0 ≤ T ns := Int.natCast_nonneg _
  have ex : ∃ r, Present p ns r ∧ loc p r = some z := by
    by_cases c1 : z < p.d.Nob * p.W * p.H * 2
    · have c1' : z < p.d.Nob * p.H * p.W * 2 := by
        have : p.d.Nob * p.H * p.W * 2 = p.d.Nob * p.W * p.H * 2 := by ring
        omega
      obtain ⟨a, xy, ha1, ha2, hx1, hx2, rfl⟩ := block_exists h0 c1' (by omega)
      obtain ⟨a, c, hb1, hb2, hc1, hc2, rfl⟩ := block_exists ha1 ha2 wf.w
      obtain ⟨i, r, hi1, hi2, hr1, hr2, rfl⟩ := block_exists hb1 hb2 wf.h
      have hP : Present p ns (.board i r c xy) := ⟨hi1, hi2, hr1, hr2, hc1, hc2, hx1, hx2⟩
      exact ⟨_, hP, loc_board wf hP⟩
    · by_cases c2 : z < p.d.Nob * p.W * p.H * 2 + p.Nop * 2
      · obtain ⟨i, xy, hi1, hi2, hx1, hx2, e⟩ :=
          block_exists (i := z - p.d.Nob * p.W * p.H * 2) (M := p.Nop) (N := 2) (by omega) (by omega) (by omega)
        have hP : Present p ns (.point i xy) := ⟨hi1, hi2, hx1, hx2⟩
        refine ⟨_, hP, ?_⟩
        rw [loc_point wf hP]; congr 1; omega
      · by_cases c3 : z < p.d.Nob * p.W * p.H * 2 + p.Nop * 2 + T ns
        · obtain ⟨i, k, n, h1, h2, h3⟩ := tri_exists ns (z - (p.d.Nob * p.W * p.H * 2 + p.Nop * 2)).toNat
            (by unfold T at c3; omega)
          have hP : Present p ns (.tri i k) := ⟨n, h1, (choose2_lt k n).1 h2⟩
          refine ⟨_, hP, ?_⟩
          rw [loc_tri wf hs hP]; congr 1; omega
        · have hP : Present p ns (.reg (z - (p.d.Nob * p.W * p.H * 2 + p.Nop * 2 + T ns))) :=
            ⟨by omega, by omega⟩
          refine ⟨_, hP, ?_⟩
          rw [loc_reg wf hs hP]; congr 1; omega
  obtain ⟨r, hr, hl⟩ := ex
  refine ⟨r, hr, hl, fun r' hr' hl' => ?_⟩
  rcases before_total r' r with h | h | h
  · obtain ⟨a, b, e1, e2, hlt⟩ := meas_loc_strictMono wf hs _ _ hr' hr h
    rw [hl'] at e1; rw [hl] at e2; cases e1; cases e2; omega
  · exact h
  · obtain ⟨a, b, e1, e2, hlt⟩ := meas_loc_strictMono wf hs _ _ hr hr' h
    rw [hl'] at e2; rw [hl] at e1; cases e1; cases e2; omega

/-- C02 (absent blocks): for the item indices in range (`0 ≤ i`), the four queries report -1 exactly when
the problem has no measurement of that kind (boards, points: no observation; triangulated: no observation;
regularization: no term). -/
theorem meas_index_absent_iff (wf : WF p) (hs : Sets p.tri ns) (i : Nat) :
    (measurementIndexBoards i p.d.Nob p.W p.H = -1 ↔ p.d.Nob = 0) ∧
    (measurementIndexPoints i p.d.Nob p.Nop p.W p.H = -1 ↔ p.Nop = 0) ∧
    (measurementIndexTri i p.d.Nob p.Nop p.tri p.W p.H = some (-1) ↔ p.tri = []) ∧
    (measurementIndexRegularization p.d p.Nop p.tri p.W p.H = some (-1) ↔
      ∀ k, ¬ Present p ns (.reg k)) := by
  have hb := nb_nonneg wf
  have hp := wf.nop
  have hn := wf.nob
  refine ⟨?_, ?_, ?_, ?_⟩
  · unfold measurementIndexBoards
    have : 0 ≤ (i : Int) * p.W * p.H := mul_nonneg (mul_nonneg (by omega) wf.w) wf.h
    rw [boards_eq (by omega : (0 : Int) ≤ i)]
    split <;> omega
  · unfold measurementIndexPoints
    rw [boards_eq hn]
    split <;> omega
  · unfold measurementIndexTri
    rw [numMeasurementsTriInitial_sets hs, boards_eq hn]
    split
    · rename_i h; simp at h; simp [h]
    · rename_i h
      simp at h
      refine ⟨fun h2 => ?_, fun h2 => absurd h2 h⟩
      have h3 := Option.some.inj h2
      simp only [numMeasurementsPoints] at h3
      omega
  · unfold measurementIndexRegularization
    rw [numReg_eq, numMeasurementsTri, numMeasurementsTriInitial_sets hs, boards_eq hn]
    split
    · rename_i h
      simp only [true_iff]
      rintro k ⟨h1, h2⟩; omega
    · rename_i h
      constructor
      · intro h2
        have h2 : p.d.Nob * p.W * p.H * 2 + p.Nop * 2 + T ns = -1 := by simpa [numMeasurementsPoints, T] using h2
        have hT : 0 ≤ T ns := Int.natCast_nonneg _
        omega
      · intro h2; exact absurd ⟨le_refl 0, by omega⟩ (h2 0)

/-! Non-trivial instance -/
def exProb : Prob := ⟨StateLayout.exDims, 7, exTri, 10, 9⟩
theorem exTri_sets : Sets exTri [3, 2, 4] := by
  refine .cons (n := 2) ⟨exTri.take 2, _, rfl, rfl, by simp [exTri], rfl⟩ ?_
  refine .cons (n := 1) ⟨(exTri.drop 3).take 1, _, rfl, rfl, by simp [exTri], rfl⟩ ?_
  refine .cons (n := 3) ⟨(exTri.drop 5).take 3, _, rfl, rfl, by simp [exTri], rfl⟩ ?_
  exact .nil
example : WF exProb := by constructor <;> decide
example : Present exProb [3, 2, 4] (.tri 2 5) := ⟨4, rfl, by decide⟩

end Mrcal.Meas
