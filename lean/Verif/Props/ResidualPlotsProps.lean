import Verif.Model.ResidualPlots
import Mathlib.Analysis.SpecialFunctions.Gaussian.GaussianIntegral
import Mathlib.Data.List.GetD
import Mathlib.Tactic.Linarith
import Mathlib.Tactic.Ring
import Mathlib.Tactic.FieldSimp
import Mathlib.Tactic.NormNum
/-
What the plots of the residuals show.

The specification is the documented layout of the measurement vector: two values of each corner of each board observation, in order; then two values of each point observation.
-/
namespace Mrcal.Residuals
open Mrcal

/-! ### specification -/

/-- the measurements of all the cameras are asked for, or of this one -/
def Wanted (icam : Option Int) (c : Int) : Prop := icam = none ∨ icam = some c

/-- `e` is the residual in the measurement vector x of a corner that was observed at q, and wasn't an outlier -/
def BoardResidual (s : Solve) (x : List ℝ) (icam : Option Int) (q e : ℝ × ℝ) : Prop :=
  ∃ bs, s.boards = some bs ∧ ∃ (i : Nat) (o : BoardObs) (k : Nat), bs[i]? = some o ∧ k < s.W * s.H ∧ Wanted icam o.icam ∧ 0 < o.w k ∧ q = o.q k ∧
    x[2 * (i * (s.W * s.H) + k)]? = some e.1 ∧ x[2 * (i * (s.W * s.H) + k) + 1]? = some e.2

/-- the same for a point -/
def PointResidual (s : Solve) (x : List ℝ) (icam : Option Int) (q e : ℝ × ℝ) : Prop :=
  ∃ ps, s.points = some ps ∧ ∃ (i : Nat) (o : PointObs), ps[i]? = some o ∧ Wanted icam o.icam ∧ 0 < o.w ∧ q = o.q ∧
    x[2 * (nboards s * (s.W * s.H)) + 2 * i]? = some e.1 ∧ x[2 * (nboards s * (s.W * s.H)) + 2 * i + 1]? = some e.2

/-- a residual of either kind -/
def Residual (s : Solve) (x : List ℝ) (icam : Option Int) (q e : ℝ × ℝ) : Prop := BoardResidual s x icam q e ∨ PointResidual s x icam q e

/-- how many point observations the solve has -/
def npoints (s : Solve) : Nat := (s.points.getD []).length

/-- the measurement vector contains all the boards and points. Regularization may follow -/
def Full (s : Solve) (x : List ℝ) : Prop := 2 * (nboards s * (s.W * s.H)) + 2 * npoints s ≤ x.length

open Classical in
/-- how many corners of the wanted cameras aren't outliers -/
noncomputable def nBoard (s : Solve) (icam : Option Int) : Nat :=
  ((s.boards.getD []).map fun o => if Wanted icam o.icam then ((List.range (s.W * s.H)).filter fun k => 0 < o.w k).length else 0).sum

open Classical in
/-- how many points of the wanted cameras aren't outliers -/
noncomputable def nPoint (s : Solve) (icam : Option Int) : Nat := ((s.points.getD []).filter fun o => Wanted icam o.icam ∧ 0 < o.w).length

/-! ### the measurements -/

theorem ofCamera_iff (icam : Option Int) (c : Int) : ofCamera icam c = true ↔ Wanted icam c := by
  cases icam <;> simp [ofCamera, Wanted, eq_comm]

theorem slice_some (x : List ℝ) (a n : Nat) (h : a + n ≤ x.length) : slice x a n = some ((x.drop a).take n) := by
  simp only [slice, Int.toNat_natCast]
  rw [if_pos]
  simp
  omega

theorem getD_slice (x : List ℝ) (a n i : Nat) (hi : i < n) (h : a + n ≤ x.length) : x[a + i]? = some (((x.drop a).take n).getD i 0) := by
  have : a + i < x.length := by omega
  rw [List.getD_eq_getElem?_getD, List.getElem?_take, if_pos hi, List.getElem?_drop, List.getElem?_eq_getElem this]
  simp

theorem filterMap_length {α β : Type} (p : α → Prop) [DecidablePred p] (f : α → β) (q : α → Bool) (h : ∀ a, q a = true ↔ ¬ p a) (l : List α) :
    (l.filterMap fun a => if p a then none else some (f a)).length = (l.filter q).length := by
  induction l with
  | nil => rfl
  | cons a l ih =>
    by_cases hp : p a
    · have : q a = false := by rw [← Bool.not_eq_true, h]; simpa using hp
      simp [List.filterMap_cons, List.filter_cons, hp, this, ih]
    · have : q a = true := (h a).2 hp
      simp [List.filterMap_cons, List.filter_cons, hp, this, ih]

open Classical in
theorem boardRows_length (nc : Nat) (icam : Option Int) (xb : List ℝ) (bs : List BoardObs) :
    (boardRows nc icam xb bs).length = (bs.map fun o => if Wanted icam o.icam then ((List.range nc).filter fun k => 0 < o.w k).length else 0).sum := by
  have key : ∀ (bs : List BoardObs) (n : Nat), ((bs.zipIdx n).flatMap fun (o, i) => (List.range nc).filterMap fun k =>
    if ofCamera icam o.icam = false ∨ o.w k ≤ 0 then none
    else some ((xb.getD (2 * (i * nc + k)) 0, xb.getD (2 * (i * nc + k) + 1) 0), o.q k)).length =
      (bs.map fun o => if Wanted icam o.icam then ((List.range nc).filter fun k => 0 < o.w k).length else 0).sum := by
    intro bs
    induction bs with
    | nil => intro n; simp
    | cons o bs ih =>
      intro n
      rw [List.zipIdx_cons, List.flatMap_cons, List.length_append, ih, List.map_cons, List.sum_cons]
      congr 1
      by_cases hw : Wanted icam o.icam
      · rw [if_pos hw]
        have hc := (ofCamera_iff _ _).2 hw
        simp only [hc, Bool.true_eq_false, false_or]
        exact filterMap_length _ _ _ (fun k => by simp) _
      · rw [if_neg hw]
        have hc : ofCamera icam o.icam = false := by
          rw [← Bool.not_eq_true, ofCamera_iff]; exact hw
        simp [hc]
  exact key bs 0

open Classical in
theorem pointRows_length (icam : Option Int) (xp : List ℝ) (ps : List PointObs) : (pointRows icam xp ps).length = (ps.filter fun o => Wanted icam o.icam ∧ 0 < o.w).length := by
  have key : ∀ (ps : List PointObs) (n : Nat), ((ps.zipIdx n).filterMap fun (o, i) =>
    if ofCamera icam o.icam = false ∨ o.w ≤ 0 then none
    else some ((xp.getD (2 * i) 0, xp.getD (2 * i + 1) 0), o.q)).length = (ps.filter fun o => Wanted icam o.icam ∧ 0 < o.w).length := by
    intro ps
    induction ps with
    | nil => intro n; simp
    | cons o ps ih =>
      intro n
      by_cases hw : Wanted icam o.icam ∧ 0 < o.w
      · have hc := (ofCamera_iff _ _).2 hw.1
        have h0 : ¬ o.w ≤ 0 := not_le.2 hw.2
        rw [List.filter_cons_of_pos (by simpa using hw), List.length_cons, ← ih (n + 1), List.zipIdx_cons, List.filterMap_cons]
        simp [hc, h0]
      · have hc : ofCamera icam o.icam = false ∨ o.w ≤ 0 := by
          by_contra hh
          push Not at hh
          exact hw ⟨(ofCamera_iff _ _).1 (by simpa using hh.1), hh.2⟩
        rw [List.filter_cons_of_neg (by simpa using hw), ← ih (n + 1), List.zipIdx_cons, List.filterMap_cons]
        simp only [if_pos hc]
  exact key ps 0

theorem mem_boardRows (nc : Nat) (icam : Option Int) (xb : List ℝ) (bs : List BoardObs) (e q : P2) :
    (e, q) ∈ boardRows nc icam xb bs ↔ ∃ (i : Nat) (o : BoardObs) (k : Nat), bs[i]? = some o ∧ k < nc ∧ Wanted icam o.icam ∧ 0 < o.w k ∧ q = o.q k ∧
      e = (xb.getD (2 * (i * nc + k)) 0, xb.getD (2 * (i * nc + k) + 1) 0) := by
  simp only [boardRows, List.mem_flatMap, List.mem_filterMap, List.mem_range]
  constructor
  · rintro ⟨⟨o, i⟩, hoi, k, hk, h⟩
    rw [List.mem_zipIdx_iff_getElem?] at hoi
    dsimp only at h
    split_ifs at h with hc
    push Not at hc
    obtain ⟨h1, h2⟩ := Prod.mk.inj (Option.some.inj h)
    exact ⟨i, o, k, hoi, hk, (ofCamera_iff _ _).1 (by simpa using hc.1), hc.2, h2.symm, h1.symm⟩
  · rintro ⟨i, o, k, ho, hk, hw, hp, rfl, rfl⟩
    refine ⟨(o, i), by rw [List.mem_zipIdx_iff_getElem?]; exact ho, k, hk, ?_⟩
    dsimp only
    rw [if_neg]
    simp [(ofCamera_iff _ _).2 hw, hp]

theorem mem_pointRows (icam : Option Int) (xp : List ℝ) (ps : List PointObs) (e q : P2) :
    (e, q) ∈ pointRows icam xp ps ↔ ∃ (i : Nat) (o : PointObs), ps[i]? = some o ∧ Wanted icam o.icam ∧ 0 < o.w ∧ q = o.q ∧ e = (xp.getD (2 * i) 0, xp.getD (2 * i + 1) 0) := by
  simp only [pointRows, List.mem_filterMap]
  constructor
  · rintro ⟨⟨o, i⟩, hoi, h⟩
    rw [List.mem_zipIdx_iff_getElem?] at hoi
    dsimp only at h
    split_ifs at h with hc
    push Not at hc
    obtain ⟨h1, h2⟩ := Prod.mk.inj (Option.some.inj h)
    exact ⟨i, o, hoi, (ofCamera_iff _ _).1 (by simpa using hc.1), hc.2, h2.symm, h1.symm⟩
  · rintro ⟨i, o, ho, hw, hp, rfl, rfl⟩
    refine ⟨(o, i), by rw [List.mem_zipIdx_iff_getElem?]; exact ho, ?_⟩
    dsimp only
    rw [if_neg]
    simp [(ofCamera_iff _ _).2 hw, hp]

/-- measurements_board(): the residuals of the corners that are asked for, with the pixels where these were observed -/
theorem measurements_board_meaning (s : Solve) (icam : Option Int) (x : List ℝ) (hx : Full s x) :
    ∃ l, measurementsBoard s icam x = some l ∧ (∀ e q, (e, q) ∈ l ↔ BoardResidual s x icam q e) ∧ l.length = nBoard s icam := by
  unfold measurementsBoard BoardResidual nBoard
  rcases hb : s.boards with _ | bs
  · exact ⟨[], rfl, by simp, by simp⟩
  · dsimp only
    by_cases h0 : bs.length * (s.W * s.H) = 0
    · rw [if_pos h0]
      refine ⟨[], rfl, ?_, ?_⟩
      · intro e q
        constructor
        · intro h; cases h
        · rintro ⟨bs', hbs, i, o, k, ho, hk, _⟩
          cases hbs
          have := (List.getElem?_eq_some_iff.1 ho).1
          have := Nat.mul_pos (by omega : 0 < bs.length) (by omega : 0 < s.W * s.H)
          omega
      · rcases Nat.mul_eq_zero.1 h0 with h | h
        · simp [List.eq_nil_of_length_eq_zero h]
        · simp [h]
    · rw [if_neg h0]
      have hpos : 0 < bs.length := Nat.pos_of_ne_zero fun h => h0 (by simp [h])
      have hi : measurementIndexBoards 0 bs.length s.W s.H = ((0 : Nat) : Int) := by
        rw [measurementIndexBoards, if_neg (by omega)]; simp [numMeasurementsBoards]
      have hn : numMeasurementsBoards bs.length s.W s.H = ((2 * (bs.length * (s.W * s.H)) : Nat) : Int) := by
        rw [numMeasurementsBoards, if_neg (by omega)]; push_cast; ring
      have hlen : 0 + 2 * (bs.length * (s.W * s.H)) ≤ x.length := by
        have := hx; unfold Full nboards at this; rw [hb] at this; simp only [Option.getD_some] at this; omega
      rw [hi, hn, slice_some _ _ _ hlen]
      refine ⟨_, rfl, ?_, ?_⟩
      · intro e q
        rw [mem_boardRows]
        have hidx : ∀ (i k : Nat) (o : BoardObs), bs[i]? = some o → k < s.W * s.H → 2 * (i * (s.W * s.H) + k) + 1 < 2 * (bs.length * (s.W * s.H)) := by
          intro i k o ho hk
          have h1 := (List.getElem?_eq_some_iff.1 ho).1
          have h2 : (i + 1) * (s.W * s.H) ≤ bs.length * (s.W * s.H) := Nat.mul_le_mul_right _ h1
          rw [Nat.add_mul] at h2
          omega
        constructor
        · rintro ⟨i, o, k, ho, hk, hw, hp, hq, rfl⟩
          have hh := hidx i k o ho hk
          refine ⟨bs, rfl, i, o, k, ho, hk, hw, hp, hq, ?_, ?_⟩
          · simpa using getD_slice x 0 _ _ (by omega : 2 * (i * (s.W * s.H) + k) < _) hlen
          · simpa using getD_slice x 0 _ _ hh hlen
        · rintro ⟨bs', hbs, i, o, k, ho, hk, hw, hp, hq, h1, h2⟩
          cases hbs
          have hh := hidx i k o ho hk
          refine ⟨i, o, k, ho, hk, hw, hp, hq, Prod.ext ?_ ?_⟩
          · have := getD_slice x 0 _ _ (by omega : 2 * (i * (s.W * s.H) + k) < _) hlen
            rw [Nat.zero_add, h1] at this
            exact Option.some.inj this
          · have := getD_slice x 0 _ _ hh hlen
            rw [Nat.zero_add, h2] at this
            exact Option.some.inj this
      · rw [boardRows_length]; rfl

/-- measurements_point(): the same for the points -/
theorem measurements_point_meaning (s : Solve) (icam : Option Int) (x : List ℝ) (hx : Full s x) :
    ∃ l, measurementsPoint s icam x = some l ∧ (∀ e q, (e, q) ∈ l ↔ PointResidual s x icam q e) ∧ l.length = nPoint s icam := by
  unfold measurementsPoint PointResidual nPoint
  rcases hb : s.points with _ | ps
  · exact ⟨[], rfl, by simp, by simp⟩
  · dsimp only
    by_cases h0 : ps.length = 0
    · rw [if_pos h0]
      have := List.eq_nil_of_length_eq_zero h0
      subst this
      exact ⟨[], rfl, by simp, by simp⟩
    · rw [if_neg h0]
      have hi : measurementIndexPoints 0 (nboards s) ps.length s.W s.H = ((2 * (nboards s * (s.W * s.H)) : Nat) : Int) := by
        rw [measurementIndexPoints, if_neg (by omega), numMeasurementsBoards]
        split
        · have : nboards s = 0 := by omega
          simp [this]
        · push_cast; ring
      have hn : numMeasurementsPoints ps.length = ((2 * ps.length : Nat) : Int) := by
        rw [numMeasurementsPoints]; push_cast; ring
      have hlen : 2 * (nboards s * (s.W * s.H)) + 2 * ps.length ≤ x.length := by
        have := hx; unfold Full npoints at this; rw [hb] at this; simpa using this
      rw [hi, hn, slice_some _ _ _ hlen]
      refine ⟨_, rfl, ?_, ?_⟩
      · intro e q
        rw [mem_pointRows]
        have hidx : ∀ (i : Nat) (o : PointObs), ps[i]? = some o → 2 * i + 1 < 2 * ps.length := by
          intro i o ho
          have h1 := (List.getElem?_eq_some_iff.1 ho).1
          omega
        constructor
        · rintro ⟨i, o, ho, hw, hp, hq, rfl⟩
          have hh := hidx i o ho
          exact ⟨ps, rfl, i, o, ho, hw, hp, hq, getD_slice x _ _ _ (by omega) hlen, getD_slice x _ _ _ hh hlen⟩
        · rintro ⟨ps', hps, i, o, ho, hw, hp, hq, h1, h2⟩
          cases hps
          have hh := hidx i o ho
          refine ⟨i, o, ho, hw, hp, hq, Prod.ext ?_ ?_⟩
          · have := getD_slice x _ _ (2 * i) (by omega) hlen
            rw [h1] at this
            exact Option.some.inj this
          · have := getD_slice x _ _ _ hh hlen
            rw [← Nat.add_assoc, h2] at this
            exact Option.some.inj this
      · rw [pointRows_length]; rfl

/-! ### the plots of one camera -/

theorem zip_rows (l : List (P2 × P2)) : List.zip ((l.map Prod.fst).map row) ((l.map Prod.snd).map row) = l.map fun p => (row p.1, row p.2) := by
  induction l with
  | nil => rfl
  | cons a l ih => simp only [List.map_cons, List.zip_cons_cons, ih]

theorem zip_glued (b p : List (P2 × P2)) :
    List.zip (List.zipWith (fun a b => row a ++ row b) (b.map Prod.fst) (p.map Prod.fst)) (List.zipWith (fun a b => row a ++ row b) (b.map Prod.snd) (p.map Prod.snd)) =
      (List.zip b p).map fun t => (row t.1.1 ++ row t.2.1, row t.1.2 ++ row t.2.2) := by
  induction b generalizing p with
  | nil => simp
  | cons a b ih =>
    cases p with
    | nil => simp
    | cons c p =>
      simp only [List.map_cons, List.zipWith_cons_cons, List.zip_cons_cons, ih]

/-- the solve has boards or points, but not both -/
def OneKind (s : Solve) : Prop := (s.boards ≠ none ∧ s.points = none) ∨ (s.boards = none ∧ s.points ≠ none)

/-- the measurements that are given, or those of the solve -/
def Given (s : Solve) (x residuals : Option (List ℝ)) (y : List ℝ) : Prop :=
  (x = some y ∧ residuals = none) ∨ (x = none ∧ residuals = some y) ∨ (x = none ∧ residuals = none ∧ y = s.x)

theorem pickX_of_given (s : Solve) (x residuals : Option (List ℝ)) (y : List ℝ) (h : Given s x residuals y) : pickX s x residuals = some y := by
  rcases h with ⟨rfl, rfl⟩ | ⟨rfl, rfl⟩ | ⟨rfl, rfl, rfl⟩ <;> rfl

theorem dataOneCam_oneKind (s : Solve) (icam : Option Int) (x : List ℝ) (hx : Full s x) (hk : OneKind s) :
    ∃ l : List (P2 × P2), dataOneCam s icam x = some (l.map fun p => (row p.1, row p.2)) ∧ (∀ e q, (e, q) ∈ l ↔ Residual s x icam q e) ∧ l.length = nBoard s icam + nPoint s icam := by
  obtain ⟨b, hb, mb, lb⟩ := measurements_board_meaning s icam x hx
  obtain ⟨p, hp, mp, lp⟩ := measurements_point_meaning s icam x hx
  unfold dataOneCam
  rw [hb, hp]
  rcases hk with ⟨h1, h2⟩ | ⟨h1, h2⟩
  · obtain ⟨bs, hbs⟩ := Option.ne_none_iff_exists'.1 h1
    refine ⟨b, ?_, ?_, ?_⟩
    · simp only [Option.bind_some, hbs, h2, Option.map_some, Option.map_none, glue]
      rw [zip_rows]
    · intro e q
      rw [mb]
      constructor
      · exact Or.inl
      · rintro (h | ⟨ps, hps, _⟩)
        · exact h
        · rw [h2] at hps; cases hps
    · rw [lb]; simp [nPoint, h2]
  · obtain ⟨ps, hps⟩ := Option.ne_none_iff_exists'.1 h2
    refine ⟨p, ?_, ?_, ?_⟩
    · simp only [Option.bind_some, hps, h1, Option.map_some, Option.map_none, glue]
      rw [zip_rows]
    · intro e q
      rw [mp]
      constructor
      · exact Or.inr
      · rintro (⟨bs, hbs, _⟩ | h)
        · rw [h1] at hbs; cases hbs
        · exact h
    · rw [lp]; simp [nBoard, h1]

theorem onecam_oneKind {α : Type} (f : List ℝ × List ℝ → α) (s : Solve) (icam : Int) (x residuals : Option (List ℝ)) (y : List ℝ) (hg : Given s x residuals y) (hx : Full s y) (hk : OneKind s)
    (region : Option (List (ℚ × ℚ))) :
    ∃ rows, onecam f s icam x residuals false region = some (rows, none) ∧ (∀ r, r ∈ rows ↔ ∃ q e, Residual s y (some icam) q e ∧ r = f (row e, row q)) ∧
      rows.length = nBoard s (some icam) + nPoint s (some icam) := by
  obtain ⟨l, hl, ml, ll⟩ := dataOneCam_oneKind s (some icam) y hx hk
  refine ⟨l.map fun p => f (row p.1, row p.2), ?_, ?_, by simpa using ll⟩
  · simp [onecam, pickX_of_given s x residuals y hg, hl, Region.plotRegion, Function.comp_def]
  · intro r
    rw [List.mem_map]
    constructor
    · rintro ⟨⟨e, q⟩, h, rfl⟩
      exact ⟨q, e, (ml e q).1 h, rfl⟩
    · rintro ⟨q, e, h, rfl⟩
      exact ⟨(e, q), (ml e q).2 h, rfl⟩

/-- show_residuals_vectorfield() of a solve with boards only, or points only, if the valid-intrinsics region isn't asked for: at each pixel where a corner or a point was observed by this camera, and
wasn't an outlier, there's the residual, scaled; the color is its length. There's nothing else. Missing: solves with both (`both_wrong`), plots with the region (`Region.plot_region_wrong`) -/
theorem vectorfield_partial (scale : ℝ) (s : Solve) (icam : Int) (x residuals : Option (List ℝ)) (y : List ℝ) (hg : Given s x residuals y) (hx : Full s y) (hk : OneKind s) (region : Option (List (ℚ × ℚ))) :
    ∃ rows, vectorfield scale s icam x residuals false region = some (rows, none) ∧
      (∀ r, r ∈ rows ↔ ∃ q e, Residual s y (some icam) q e ∧ r = ⟨q.1, q.2, scale * e.1, scale * e.2, Real.sqrt (e.1 ^ 2 + e.2 ^ 2)⟩) ∧
      rows.length = nBoard s (some icam) + nPoint s (some icam) := by
  obtain ⟨rows, h, m, l⟩ := onecam_oneKind (fun (err, obs) => (⟨at' obs 0, at' obs 1, scale * at' err 0, scale * at' err 1, mag err⟩ : Vector)) s icam x residuals y hg hx hk region
  refine ⟨rows, h, fun r => ?_, l⟩
  rw [m]
  simp [at', row, mag, pow_two]

/-- show_residuals_magnitudes(): the same; the color is the length of the residual -/
theorem magnitudes_partial (s : Solve) (icam : Int) (x residuals : Option (List ℝ)) (y : List ℝ) (hg : Given s x residuals y) (hx : Full s y) (hk : OneKind s) (region : Option (List (ℚ × ℚ))) :
    ∃ rows, magnitudes s icam x residuals false region = some (rows, none) ∧
      (∀ r, r ∈ rows ↔ ∃ q e, Residual s y (some icam) q e ∧ r = ⟨q.1, q.2, Real.sqrt (e.1 ^ 2 + e.2 ^ 2)⟩) ∧
      rows.length = nBoard s (some icam) + nPoint s (some icam) := by
  obtain ⟨rows, h, m, l⟩ := onecam_oneKind (fun (err, obs) => (⟨at' obs 0, at' obs 1, mag err⟩ : Dot)) s icam x residuals y hg hx hk region
  refine ⟨rows, h, fun r => ?_, l⟩
  rw [m]
  simp [at', row, mag, pow_two]

/-- t, in degrees, is the direction of e: it's in (-180,180], and e is its length in this direction -/
def Direction (e : ℝ × ℝ) (t : ℝ) : Prop :=
  -180 < t ∧ t ≤ 180 ∧ e.1 = Real.sqrt (e.1 ^ 2 + e.2 ^ 2) * Real.cos (t * Real.pi / 180) ∧ e.2 = Real.sqrt (e.1 ^ 2 + e.2 ^ 2) * Real.sin (t * Real.pi / 180)

theorem direction_arg (e : ℝ × ℝ) : Direction e (180 / Real.pi * Complex.arg ⟨e.1, e.2⟩) := by
  have hpi := Real.pi_pos
  have h1 := Complex.neg_pi_lt_arg ⟨e.1, e.2⟩
  have h2 := Complex.arg_le_pi ⟨e.1, e.2⟩
  have hn : Real.sqrt (e.1 ^ 2 + e.2 ^ 2) = ‖(⟨e.1, e.2⟩ : ℂ)‖ := by
    rw [Complex.norm_def, Complex.normSq_mk]; congr 1; ring
  have ha : 180 / Real.pi * Complex.arg ⟨e.1, e.2⟩ * Real.pi / 180 = Complex.arg ⟨e.1, e.2⟩ := by field_simp
  refine ⟨?_, ?_, ?_, ?_⟩
  · rw [div_mul_eq_mul_div, lt_div_iff₀ hpi]; linarith
  · rw [div_mul_eq_mul_div, div_le_iff₀ hpi]; linarith
  · rw [ha, hn, Complex.norm_mul_cos_arg]
  · rw [ha, hn, Complex.norm_mul_sin_arg]

/-- show_residuals_directions(): the same; the color is the direction of the residual, in degrees -/
theorem directions_partial (s : Solve) (icam : Int) (x residuals : Option (List ℝ)) (y : List ℝ) (hg : Given s x residuals y) (hx : Full s y) (hk : OneKind s) (region : Option (List (ℚ × ℚ))) :
    ∃ rows, directions s icam x residuals false region = some (rows, none) ∧
      (∀ r ∈ rows, ∃ q e, Residual s y (some icam) q e ∧ r.x = q.1 ∧ r.y = q.2 ∧ Direction e r.color) ∧
      (∀ q e, Residual s y (some icam) q e → ∃ r ∈ rows, r.x = q.1 ∧ r.y = q.2 ∧ Direction e r.color) ∧
      rows.length = nBoard s (some icam) + nPoint s (some icam) := by
  obtain ⟨rows, h, m, l⟩ := onecam_oneKind (fun (err, obs) => (⟨at' obs 0, at' obs 1, 180 / Real.pi * Complex.arg ⟨at' err 0, at' err 1⟩⟩ : Dot)) s icam x residuals y hg hx hk region
  refine ⟨rows, h, fun r hr => ?_, fun q e he => ?_, l⟩
  · obtain ⟨q, e, he, rfl⟩ := (m r).1 hr
    exact ⟨q, e, he, by simp [at', row], by simp [at', row], by simpa [at', row] using direction_arg e⟩
  · exact ⟨_, (m _).2 ⟨q, e, he, rfl⟩, by simp [at', row], by simp [at', row], by simpa [at', row] using direction_arg e⟩

/-- The code doesn't do this for solves that have both boards and points: the arrays are glued along the wrong axis. If there are different numbers of corners and points then none of the plots can be made. This
includes the solves where observations_point is an empty array. If there's the same number of each, the points aren't plotted at all, and the color mixes the residual of a corner and that of an unrelated point -/
theorem both_wrong (scale : ℝ) (s : Solve) (icam : Int) (x residuals : Option (List ℝ)) (y : List ℝ) (hg : Given s x residuals y) (hx : Full s y) (hb : s.boards ≠ none) (hp : s.points ≠ none)
    (overlay : Bool) (region : Option (List (ℚ × ℚ))) :
    (nBoard s (some icam) ≠ nPoint s (some icam) →
      vectorfield scale s icam x residuals overlay region = none ∧ magnitudes s icam x residuals overlay region = none ∧ directions s icam x residuals overlay region = none) ∧
    (nBoard s (some icam) = nPoint s (some icam) →
      ∃ rows, vectorfield scale s icam x residuals false region = some (rows, none) ∧ rows.length = nBoard s (some icam) ∧
        ∀ r ∈ rows, ∃ q e q' e', BoardResidual s y (some icam) q e ∧ PointResidual s y (some icam) q' e' ∧
          r = ⟨q.1, q.2, scale * e.1, scale * e.2, Real.sqrt (e.1 ^ 2 + e.2 ^ 2 + e'.1 ^ 2 + e'.2 ^ 2)⟩) := by
  obtain ⟨b, hb', mb, lb⟩ := measurements_board_meaning s (some icam) y hx
  obtain ⟨p, hp', mp, lp⟩ := measurements_point_meaning s (some icam) y hx
  obtain ⟨bs, hbs⟩ := Option.ne_none_iff_exists'.1 hb
  obtain ⟨ps, hps⟩ := Option.ne_none_iff_exists'.1 hp
  constructor
  · intro hne
    have hd : dataOneCam s (some icam) y = none := by
      unfold dataOneCam
      rw [hb', hp']
      simp only [Option.bind_some, hbs, hps, Option.map_some, glue, List.length_map]
      rw [if_neg (by rw [lb, lp]; exact hne)]
      rfl
    simp [vectorfield, magnitudes, directions, onecam, pickX_of_given s x residuals y hg, hd]
  · intro he
    have hd : dataOneCam s (some icam) y = some ((List.zip b p).map fun t => (row t.1.1 ++ row t.2.1, row t.1.2 ++ row t.2.2)) := by
      unfold dataOneCam
      rw [hb', hp']
      simp only [Option.bind_some, hbs, hps, Option.map_some, glue, List.length_map]
      rw [if_pos (by rw [lb, lp]; exact he)]
      simp only [Option.bind_some]
      rw [if_pos (by rw [lb, lp]; exact he)]
      simp only [Option.bind_some]
      rw [zip_glued]
    refine ⟨(List.zip b p).map fun t => ⟨t.1.2.1, t.1.2.2, scale * t.1.1.1, scale * t.1.1.2, Real.sqrt (t.1.1.1 ^ 2 + t.1.1.2 ^ 2 + t.2.1.1 ^ 2 + t.2.1.2 ^ 2)⟩, ?_, ?_, ?_⟩
    · simp only [vectorfield, onecam, pickX_of_given s x residuals y hg, hd, Option.bind_some, Region.plotRegion, Bool.false_eq_true, if_false, Option.map_some, List.map_map]
      congr 2
      apply List.map_congr_left
      intro t _
      simp [at', row, mag, pow_two, add_assoc]
    · rw [List.length_map, List.length_zip, lb, lp, ← he, Nat.min_self]
    · intro r hr
      obtain ⟨⟨⟨e, q⟩, ⟨e', q'⟩⟩, ht, rfl⟩ := List.mem_map.1 hr
      have := List.of_mem_zip ht
      exact ⟨q, e, q', e', (mb e q).1 this.1, (mp e' q').1 this.2, rfl⟩

/-! ### the histogram -/

theorem mem_ravel (l : List P2) (v : ℝ) : v ∈ ravel l ↔ ∃ e ∈ l, v = e.1 ∨ v = e.2 := by
  simp [ravel, row]

theorem ravel_length (l : List P2) : (ravel l).length = 2 * l.length := by
  induction l with
  | nil => rfl
  | cons a l ih => simp only [ravel, List.flatMap_cons, List.length_append, row, List.length_cons, List.length_nil] at ih ⊢; omega

/-- show_residuals_histogram(): the x and y components of all the residuals of the cameras that are asked for, both of boards and points, that aren't outliers. The curve is the gaussian with the mean and
the standard deviation of these -/
theorem histogram_meaning (s : Solve) (icam : Option Int) (x residuals : Option (List ℝ)) (y : List ℝ) (hg : Given s x residuals y) (hx : Full s y) (binwidth : ℝ) (hn : 0 < nBoard s icam + nPoint s icam) :
    ∃ d f, histogram s icam x residuals binwidth = some (d, f) ∧ (∀ v, v ∈ d ↔ ∃ q e, Residual s y icam q e ∧ (v = e.1 ∨ v = e.2)) ∧ d.length = 2 * (nBoard s icam + nPoint s icam) ∧
      ∀ m sg : ℝ, m = d.sum / d.length → sg = Real.sqrt ((d.map fun v => (v - m) ^ 2).sum / d.length) → f = gaussian binwidth m sg d.length := by
  obtain ⟨b, hb, mb, lb⟩ := measurements_board_meaning s icam y hx
  obtain ⟨p, hp, mp, lp⟩ := measurements_point_meaning s icam y hx
  have hlen : (ravel (b.map Prod.fst) ++ ravel (p.map Prod.fst)).length = 2 * (nBoard s icam + nPoint s icam) := by
    rw [List.length_append, ravel_length, ravel_length, List.length_map, List.length_map, lb, lp]; ring
  refine ⟨ravel (b.map Prod.fst) ++ ravel (p.map Prod.fst), gaussian binwidth (Region.mean (ravel (b.map Prod.fst) ++ ravel (p.map Prod.fst)))
    (Region.std (ravel (b.map Prod.fst) ++ ravel (p.map Prod.fst))) (ravel (b.map Prod.fst) ++ ravel (p.map Prod.fst)).length, ?_, ?_, hlen, ?_⟩
  · simp only [histogram, pickX_of_given s x residuals y hg, hb, hp, Option.bind_some]
    rw [if_neg (by omega)]
    rfl
  · intro v
    simp only [List.mem_append, mem_ravel, List.mem_map]
    constructor
    · rintro (⟨e, ⟨⟨e', q⟩, h, rfl⟩, hv⟩ | ⟨e, ⟨⟨e', q⟩, h, rfl⟩, hv⟩)
      · exact ⟨q, e', Or.inl ((mb _ _).1 h), hv⟩
      · exact ⟨q, e', Or.inr ((mp _ _).1 h), hv⟩
    · rintro ⟨q, e, h | h, hv⟩
      · exact Or.inl ⟨e, ⟨(e, q), (mb _ _).2 h, rfl⟩, hv⟩
      · exact Or.inr ⟨e, ⟨(e, q), (mp _ _).2 h, rfl⟩, hv⟩
  · rintro m sg rfl rfl
    simp only [Region.mean, Region.std, List.length_map, pow_two]

/-- there's no histogram without residuals, or if the measurements are passed twice; the latter is so for all the plots -/
theorem refused (s : Solve) :
    (∀ icam x residuals y binwidth, Given s x residuals y → Full s y → nBoard s icam + nPoint s icam = 0 → histogram s icam x residuals binwidth = none) ∧
    (∀ x r icam binwidth, histogram s icam (some x) (some r) binwidth = none) ∧
    (∀ x r icam scale overlay region, vectorfield scale s icam (some x) (some r) overlay region = none ∧ magnitudes s icam (some x) (some r) overlay region = none ∧
      directions s icam (some x) (some r) overlay region = none) := by
  refine ⟨?_, ?_, ?_⟩
  · intro icam x residuals y binwidth hg hx hn
    obtain ⟨b, hb, mb, lb⟩ := measurements_board_meaning s icam y hx
    obtain ⟨p, hp, mp, lp⟩ := measurements_point_meaning s icam y hx
    have : b = [] := List.eq_nil_of_length_eq_zero (by omega)
    have : p = [] := List.eq_nil_of_length_eq_zero (by omega)
    subst_vars
    simp [histogram, pickX_of_given s x residuals y hg, hb, hp, ravel]
  · intros; rfl
  · intros; exact ⟨rfl, rfl, rfl⟩

/-! ### the gaussian -/

/-- the density of the normal distribution -/
noncomputable def density (m sg t : ℝ) : ℝ := Real.exp (-(t - m) ^ 2 / (2 * sg ^ 2)) / Real.sqrt (2 * Real.pi * sg ^ 2)

/-- The curve is a normal density times a constant, and it's centered at the mean; its height there is the expected number of values, of N, in the bin of the histogram that's centered at the mean -/
theorem gaussian_meaning (binwidth m sg : ℝ) (N : Nat) (hs : 0 < sg) :
    (∃ k, ∀ t, gaussian binwidth m sg N t = k * density m sg t) ∧ gaussian binwidth m sg N m = N * ∫ t in (m - binwidth / 2)..(m + binwidth / 2), density m sg t := by
  have hpi := Real.pi_pos
  have h2 : (0 : ℝ) < Real.sqrt 2 := Real.sqrt_pos.2 (by norm_num)
  have hp : (0 : ℝ) < Real.sqrt Real.pi := Real.sqrt_pos.2 hpi
  have hss : Real.sqrt 2 * Real.sqrt 2 = 2 := Real.mul_self_sqrt (by norm_num)
  have hroot : Real.sqrt (2 * Real.pi) = Real.sqrt 2 * Real.sqrt Real.pi := Real.sqrt_mul (by norm_num) _
  have hden : Real.sqrt (2 * Real.pi * sg ^ 2) = Real.sqrt 2 * Real.sqrt Real.pi * sg := by
    rw [Real.sqrt_mul (by positivity), Real.sqrt_sq hs.le, hroot]
  constructor
  · refine ⟨N * Real.sqrt (2 * Real.pi) * sg * erf (binwidth / (2 * Real.sqrt 2 * sg)), fun t => ?_⟩
    simp only [gaussian, density]
    rw [show sg * sg = sg ^ 2 by ring, show -(t - m) * (t - m) = -(t - m) ^ 2 by ring, mul_div_assoc]
  · set z : ℝ := binwidth / (2 * Real.sqrt 2 * sg) with hz
    set I : ℝ := ∫ t in (0 : ℝ)..z, Real.exp (-(t * t)) with hI
    have hcont : Continuous fun t : ℝ => Real.exp (-(t * t)) := by fun_prop
    have hsym : ∫ t in (-z)..z, Real.exp (-(t * t)) = 2 * I := by
      rw [← intervalIntegral.integral_add_adjacent_intervals (hcont.intervalIntegrable (-z) 0) (hcont.intervalIntegrable 0 z)]
      have : ∫ t in (-z)..(0 : ℝ), Real.exp (-(t * t)) = I := by
        have h := intervalIntegral.integral_comp_neg (a := (0 : ℝ)) (b := z) (fun t : ℝ => Real.exp (-(t * t)))
        simp only [neg_mul_neg, neg_zero] at h
        rw [hI, h]
      rw [this]; ring
    have hsub : ∫ t in (m - binwidth / 2)..(m + binwidth / 2), Real.exp (-(t - m) ^ 2 / (2 * sg ^ 2)) = Real.sqrt 2 * sg * (2 * I) := by
      have hc : Real.sqrt 2 * sg ≠ 0 := by positivity
      have h := intervalIntegral.integral_comp_div_sub (a := m - binwidth / 2) (b := m + binwidth / 2) (fun t : ℝ => Real.exp (-(t * t))) hc (m / (Real.sqrt 2 * sg))
      have e1 : (m - binwidth / 2) / (Real.sqrt 2 * sg) - m / (Real.sqrt 2 * sg) = -z := by rw [hz]; field_simp; ring
      have e2 : (m + binwidth / 2) / (Real.sqrt 2 * sg) - m / (Real.sqrt 2 * sg) = z := by rw [hz]; field_simp; ring
      rw [e1, e2, hsym, smul_eq_mul] at h
      rw [← h]
      congr 1
      funext t
      congr 1
      have hs2 : (Real.sqrt 2 * sg) * (Real.sqrt 2 * sg) = 2 * sg ^ 2 := by linear_combination sg ^ 2 * hss
      rw [← sub_div, div_mul_div_comm, hs2]
      ring
    simp only [density, intervalIntegral.integral_div, hsub, hden]
    simp only [gaussian, erf, ← hz, ← hI, sub_self, mul_zero, zero_div, Real.exp_zero, mul_one]
    rw [show sg * sg = sg ^ 2 by ring, hden, hroot]
    field_simp

/-- fitted_gaussian_equation(): the statistics are given, or computed from the data; exactly one of these -/
theorem gaussian_args (x : Option (List ℝ)) (mean sigma : Option ℝ) (N : Option Nat) (r : ℝ × ℝ × Nat) :
    gaussianArgs x mean sigma N = some r ↔
      (∃ d : List ℝ, x = some d ∧ mean = none ∧ sigma = none ∧ N = none ∧ r.1 = d.sum / d.length ∧ r.2.1 = Real.sqrt ((d.map fun v => (v - r.1) ^ 2).sum / d.length) ∧ r.2.2 = d.length) ∨
      (x = none ∧ mean = some r.1 ∧ sigma = some r.2.1 ∧ N = some r.2.2) := by
  obtain ⟨m, sg, n⟩ := r
  cases x <;> cases mean <;> cases sigma <;> cases N <;> simp [gaussianArgs, Region.mean, Region.std, pow_two, eq_comm]
  intro h _
  rw [h]

/-! ### the hypotheses can be met -/

/-- two cameras look at a board with two corners; one corner is an outlier. There's one more measurement at the end: regularization -/
noncomputable def s1 : Solve where
  W := 2
  H := 1
  boards := some [⟨0, fun k => (10 * k, 20), fun _ => 1⟩, ⟨1, fun k => (10 * k, 30), fun k => if k = 0 then 1 else -1⟩]
  points := none
  x := [1, 2, 3, 4, 5, 6, 7, 8, 9]

/-- the same with points -/
noncomputable def s2 : Solve := { s1 with points := some [⟨1, (50, 60), 1⟩], x := [1, 2, 3, 4, 5, 6, 7, 8, 30, 40] }

/-- and without any boards -/
noncomputable def s3 : Solve := { s1 with boards := none, points := some [⟨1, (50, 60), 1⟩], x := [30, 40] }

theorem s1_full : Full s1 s1.x := by simp [Full, s1, nboards, npoints]
theorem s2_full : Full s2 s2.x := by simp [Full, s2, s1, nboards, npoints]
theorem s3_full : Full s3 s3.x := by simp [Full, s3, s1, nboards, npoints]
theorem s1_kind : OneKind s1 := by simp [OneKind, s1]
theorem s3_kind : OneKind s3 := by simp [OneKind, s3]
theorem range2 : List.range 2 = [0, 1] := by decide
theorem s1_n0 : nBoard s1 (some 0) = 2 := by simp [nBoard, s1, Wanted]
theorem s1_n1 : nBoard s1 (some 1) = 1 := by simp [nBoard, s1, Wanted, range2]
theorem s1_n : nBoard s1 none = 3 := by simp [nBoard, s1, Wanted, range2]
theorem s2_n : nPoint s2 (some 1) = 1 ∧ nPoint s2 (some 0) = 0 ∧ nBoard s2 (some 0) = 2 ∧ nBoard s2 (some 1) = 1 := by simp [nPoint, nBoard, s2, s1, Wanted, range2]

/-- measurements_board_meaning, measurements_point_meaning -/
example : Full s2 s2.x ∧ BoardResidual s2 s2.x (some 1) (0, 30) (5, 6) ∧ PointResidual s2 s2.x (some 1) (50, 60) (30, 40) := by
  refine ⟨s2_full, ⟨_, rfl, 1, _, 0, rfl, by simp [s2, s1], Or.inr rfl, by simp, by simp, by simp [s2, s1], by simp [s2, s1]⟩,
    ⟨_, rfl, 0, _, rfl, Or.inr rfl, by simp, rfl, by simp [s2, s1, nboards], by simp [s2, s1, nboards]⟩⟩

/-- vectorfield_partial, magnitudes_partial, directions_partial: two vectors are plotted for camera 0 -/
example : ∃ rows, vectorfield 3 s1 0 none none false none = some (rows, none) ∧ rows.length = 2 ∧ ⟨10, 20, 9, 12, 5⟩ ∈ rows := by
  obtain ⟨rows, h, m, l⟩ := vectorfield_partial 3 s1 0 none none s1.x (Or.inr (Or.inr ⟨rfl, rfl, rfl⟩)) s1_full s1_kind none
  refine ⟨rows, h, by rw [l, s1_n0]; simp [nPoint, s1], (m _).2 ⟨(10, 20), (3, 4), Or.inl ⟨_, rfl, 0, _, 1, rfl, by simp [s1], Or.inr rfl, by simp, by simp, by simp [s1], by simp [s1]⟩, ?_⟩⟩
  simp only [Vector.mk.injEq, true_and]
  refine ⟨by norm_num, by norm_num, ?_⟩
  rw [show (3 : ℝ) ^ 2 + 4 ^ 2 = 5 ^ 2 by norm_num, Real.sqrt_sq (by norm_num)]

/-- points only -/
example : ∃ rows, magnitudes s3 1 (some s3.x) none false none = some (rows, none) ∧ ⟨50, 60, 50⟩ ∈ rows := by
  obtain ⟨rows, h, m, l⟩ := magnitudes_partial s3 1 (some s3.x) none s3.x (Or.inl ⟨rfl, rfl⟩) s3_full s3_kind none
  refine ⟨rows, h, (m _).2 ⟨(50, 60), (30, 40), Or.inr ⟨_, rfl, 0, _, rfl, Or.inr rfl, by simp, rfl, by simp [s3, s1, nboards], by simp [s3, s1, nboards]⟩, ?_⟩⟩
  simp only [Dot.mk.injEq, true_and]
  rw [show (30 : ℝ) ^ 2 + 40 ^ 2 = 50 ^ 2 by norm_num, Real.sqrt_sq (by norm_num)]

/-- both_wrong: an exception for camera 0; one vector for camera 1 though there are two residuals. The board alone would be fine: `s1` -/
example : vectorfield 1 s2 0 none none false none = none ∧ ∃ rows, vectorfield 1 s2 1 none none false none = some (rows, none) ∧ rows.length = 1 := by
  refine ⟨((both_wrong 1 s2 0 none none s2.x (Or.inr (Or.inr ⟨rfl, rfl, rfl⟩)) s2_full (by simp [s2, s1]) (by simp [s2]) false none).1 ?_).1, ?_⟩
  · rw [s2_n.2.2.1, s2_n.2.1]; decide
  · obtain ⟨rows, h, l, _⟩ := (both_wrong 1 s2 1 none none s2.x (Or.inr (Or.inr ⟨rfl, rfl, rfl⟩)) s2_full (by simp [s2, s1]) (by simp [s2]) false none).2 (by rw [s2_n.1, s2_n.2.2.2])
    exact ⟨rows, h, by rw [l, s2_n.2.2.2]⟩

/-- histogram_meaning: both kinds are in the histogram -/
example : ∃ d f, histogram s2 (some 1) none (some s2.x) 0.02 = some (d, f) ∧ d.length = 4 := by
  obtain ⟨d, f, h, _, l, _⟩ := histogram_meaning s2 (some 1) none (some s2.x) s2.x (Or.inr (Or.inl ⟨rfl, rfl⟩)) s2_full 0.02 (by rw [s2_n.1, s2_n.2.2.2]; decide)
  exact ⟨d, f, h, by rw [l, s2_n.1, s2_n.2.2.2]⟩

/-- refused: there's no camera 7 -/
example : nBoard s1 (some 7) + nPoint s1 (some 7) = 0 := by simp [nBoard, nPoint, s1, Wanted]

/-- gaussian_meaning -/
example : (0 : ℝ) < 0.3 := by norm_num

end Mrcal.Residuals
