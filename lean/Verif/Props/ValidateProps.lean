import Verif.Props.IngestProps
import Verif.Model.StateLayout
/-
C10: what an accepted set of optimization arguments guarantees.
-/
namespace Mrcal.Validate
open Mrcal

/-! ### Specification -/

/-- The cameras named by a row exist (-1 = the reference camera, for the extrinsics). -/
def CamsOk (Nci Nce icamI icamE : Int) : Prop := 0 ≤ icamI ∧ icamI < Nci ∧ -1 ≤ icamE ∧ icamE < Nce

/-- Documented form of `indices_frame_camintrinsics_camextrinsics` -/
structure BoardsOk (Nframes Nci Nce : Int) (rows : List IdxRow) : Prop where
  inRange : ∀ r ∈ rows, 0 ≤ r.i ∧ r.i < Nframes ∧ CamsOk Nci Nce r.icamI r.icamE
  first : ∀ r, rows.head? = some r → r.i = 0
  step : ∀ (k : Nat) a b, rows[k]? = some a → rows[k + 1]? = some b →
    (b.i = a.i ∧ a.icamI ≤ b.icamI ∧ a.icamE ≤ b.icamE) ∨ b.i = a.i + 1
  covers : rows ≠ [] → ∀ f, 0 ≤ f → f < Nframes → ∃ r ∈ rows, r.i = f

/-- Documented form of `indices_point_camintrinsics_camextrinsics`: in range, all points observed, and
points make their first appearance in order. -/
structure PointsOk (Npoints Nci Nce : Int) (rows : List IdxRow) : Prop where
  inRange : ∀ r ∈ rows, 0 ≤ r.i ∧ r.i < Npoints ∧ CamsOk Nci Nce r.icamI r.icamE
  order : ∀ (k : Nat) a, rows[k]? = some a → ∀ v, 0 ≤ v → v < a.i → ∃ k' < k, ∃ b, rows[k']? = some b ∧ b.i = v
  covers : ∀ v, 0 ≤ v → v < Npoints → ∃ r ∈ rows, r.i = v

/-! ### Helper lemmas -/

def stepOk (a b : IdxRow) : Prop := (b.i = a.i ∧ a.icamI ≤ b.icamI ∧ a.icamE ≤ b.icamE) ∨ b.i = a.i + 1

def rowOk (Nframes Nci Nce : Int) (r : IdxRow) : Prop :=
  0 ≤ r.i ∧ r.i < Nframes ∧ CamsOk Nci Nce r.icamI r.icamE

theorem boardsLoop_iff (Nf Nci Nce : Int) (rows : List IdxRow) (f il el : Int) :
    validateBoardsLoop Nf Nci Nce rows f il el = true ↔
      (∀ r ∈ rows, rowOk Nf Nci Nce r) ∧ (⟨f, il, el⟩ :: rows).IsChain stepOk := by
  induction rows generalizing f il el with
  | nil => simp [validateBoardsLoop]
  | cons r rs ih =>
    rw [validateBoardsLoop, List.isChain_cons_cons]
    simp only [List.forall_mem_cons]
    have e : r = ⟨r.i, r.icamI, r.icamE⟩ := rfl
    unfold rowOk CamsOk stepOk
    split
    · simp; omega
    split
    · simp; omega
    split
    · simp; omega
    split
    · split
      · simp; omega
      split
      · simp; omega
      · rw [ih, ← e]
        constructor
        · rintro ⟨h1, h2⟩; exact ⟨⟨by omega, h1⟩, by simp; omega, h2⟩
        · rintro ⟨⟨-, h1⟩, -, h2⟩; exact ⟨h1, h2⟩
    split
    · simp; omega
    split
    · simp; omega
    · rw [ih, ← e]
      constructor
      · rintro ⟨h1, h2⟩; exact ⟨⟨by omega, h1⟩, by simp; omega, h2⟩
      · rintro ⟨⟨-, h1⟩, -, h2⟩; exact ⟨h1, h2⟩

/-- the frame indices cover everything between the first and the last row -/
theorem chain_covers (rows : List IdxRow) (a : IdxRow) (h : (a :: rows).IsChain stepOk) (l : IdxRow)
    (hl : (a :: rows).getLast? = some l) (f : Int) (h1 : a.i ≤ f) (h2 : f ≤ l.i) :
    ∃ r ∈ a :: rows, r.i = f := by
  induction rows generalizing a with
  | nil => simp at hl; subst hl; exact ⟨a, by simp, by omega⟩
  | cons b bs ih =>
    rw [List.isChain_cons_cons] at h
    by_cases hf : a.i = f
    · exact ⟨a, by simp, hf⟩
    · have hb : b.i ≤ f := by rcases h.1 with ⟨h, -⟩ | h <;> omega
      obtain ⟨r, hr, he⟩ := ih b h.2 (by simpa [List.getLast?_cons_cons] using hl) hb
      exact ⟨r, List.mem_cons_of_mem _ hr, he⟩

theorem chain_le_last (rows : List IdxRow) (h : rows.IsChain stepOk) (l : IdxRow)
    (hl : rows.getLast? = some l) : ∀ r ∈ rows, r.i ≤ l.i := by
  induction rows with
  | nil => simp
  | cons a as ih =>
    cases as with
    | nil => simp at hl; subst hl; simp
    | cons b bs =>
      rw [List.isChain_cons_cons] at h
      have hl' : (b :: bs).getLast? = some l := by simpa [List.getLast?_cons_cons] using hl
      have := ih h.2 hl'
      intro r hr
      rcases List.mem_cons.1 hr with rfl | hr
      · have hb := this b (by simp)
        rcases h.1 with ⟨h, -⟩ | h <;> omega
      · exact this r hr

theorem pointsLoop_iff (Np Nci Nce : Int) (rows : List IdxRow) (b B : Int) (hb : -1 ≤ b) :
    validatePointsLoop Np Nci Nce rows b = some B ↔
      (∀ r ∈ rows, rowOk Np Nci Nce r) ∧
      (∀ (k : Nat) a, rows[k]? = some a → ∀ v, b < v → v < a.i → ∃ k' < k, ∃ c, rows[k']? = some c ∧ c.i = v) ∧
      b ≤ B ∧ (∀ r ∈ rows, r.i ≤ B) ∧ (∀ v, b < v → v ≤ B → ∃ r ∈ rows, r.i = v) := by
  induction rows generalizing b with
  | nil =>
    simp only [validatePointsLoop, Option.some.injEq]
    constructor
    · rintro rfl; exact ⟨by simp, by simp, le_rfl, by simp, fun v h1 h2 => by omega⟩
    · rintro ⟨-, -, h1, -, h2⟩
      by_contra hne
      obtain ⟨r, hr, -⟩ := h2 (b + 1) (by omega) (by omega)
      simp at hr
  | cons r rs ih =>
    rw [validatePointsLoop]
    have notOk : ¬ rowOk Np Nci Nce r → ∀ {X : Prop},
        ((none : Option Int) = some B ↔ (∀ r' ∈ r :: rs, rowOk Np Nci Nce r') ∧ X) := by
      intro h X
      constructor
      · intro h; cases h
      · rintro ⟨h1, -⟩; exact absurd (h1 r (by simp)) h
    split
    · exact notOk (by unfold rowOk; omega)
    split
    · exact notOk (by unfold rowOk CamsOk; omega)
    split
    · exact notOk (by unfold rowOk CamsOk; omega)
    rename_i g1 g2 g3
    have hr : rowOk Np Nci Nce r := by unfold rowOk CamsOk; omega
    split
    · rename_i hgt
      split
      · rename_i hbad
        constructor
        · intro h; cases h
        · rintro ⟨-, h2, -⟩
          obtain ⟨k', hk', -⟩ := h2 0 r rfl (b + 1) (by omega) (by omega)
          omega
      · rename_i hok
        have he : r.i = b + 1 := by omega
        rw [ih r.i (by omega)]
        constructor
        · rintro ⟨h1, h2, h3, h4, h5⟩
          refine ⟨by simpa [hr] using h1, fun k a ha v hv1 hv2 => ?_, by omega, by simpa using ⟨h3, h4⟩,
            fun v hv1 hv2 => ?_⟩
          · cases k with
            | zero => simp at ha; subst ha; omega
            | succ k =>
              by_cases hv : v = r.i
              · exact ⟨0, by omega, r, rfl, hv.symm⟩
              · obtain ⟨k', hk', c, hc, hcv⟩ := h2 k a (by simpa using ha) v (by omega) hv2
                exact ⟨k' + 1, by omega, c, by simpa using hc, hcv⟩
          · by_cases hv : v = r.i
            · exact ⟨r, by simp, hv.symm⟩
            · obtain ⟨c, hc, hcv⟩ := h5 v (by omega) hv2
              exact ⟨c, by simp [hc], hcv⟩
        · rintro ⟨h1, h2, h3, h4, h5⟩
          refine ⟨fun x hx => h1 x (by simp [hx]), fun k a ha v hv1 hv2 => ?_, h4 r (by simp),
            fun x hx => h4 x (by simp [hx]), fun v hv1 hv2 => ?_⟩
          · obtain ⟨k', hk', c, hc, hcv⟩ := h2 (k + 1) a (by simpa using ha) v (by omega) hv2
            cases k' with
            | zero => simp at hc; subst hc; omega
            | succ k' => exact ⟨k', by omega, c, by simpa using hc, hcv⟩
          · obtain ⟨c, hc, hcv⟩ := h5 v (by omega) hv2
            rcases List.mem_cons.1 hc with rfl | hc
            · omega
            · exact ⟨c, hc, hcv⟩
    · rename_i hle
      rw [ih b hb]
      constructor
      · rintro ⟨h1, h2, h3, h4, h5⟩
        refine ⟨by simpa [hr] using h1, fun k a ha v hv1 hv2 => ?_, h3,
          by simpa using ⟨by omega, h4⟩, fun v hv1 hv2 => ?_⟩
        · cases k with
          | zero => simp at ha; subst ha; omega
          | succ k =>
            obtain ⟨k', hk', c, hc, hcv⟩ := h2 k a (by simpa using ha) v hv1 hv2
            exact ⟨k' + 1, by omega, c, by simpa using hc, hcv⟩
        · obtain ⟨c, hc, hcv⟩ := h5 v hv1 hv2
          exact ⟨c, by simp [hc], hcv⟩
      · rintro ⟨h1, h2, h3, h4, h5⟩
        refine ⟨fun x hx => h1 x (by simp [hx]), fun k a ha v hv1 hv2 => ?_, h3,
          fun x hx => h4 x (by simp [hx]), fun v hv1 hv2 => ?_⟩
        · obtain ⟨k', hk', c, hc, hcv⟩ := h2 (k + 1) a (by simpa using ha) v hv1 hv2
          cases k' with
          | zero => simp at hc; subst hc; omega
          | succ k' => exact ⟨k', by omega, c, by simpa using hc, hcv⟩
        · obtain ⟨c, hc, hcv⟩ := h5 v hv1 hv2
          rcases List.mem_cons.1 hc with rfl | hc
          · omega
          · exact ⟨c, hc, hcv⟩

theorem triLoop_cams {Nci Nce : Int} {rows : List TriRow} {b : Int}
    (h : validateTriLoop Nci Nce rows b = true) : ∀ r ∈ rows, CamsOk Nci Nce r.icamI r.icamE := by
  induction rows generalizing b with
  | nil => simp
  | cons r rs ih =>
    rw [validateTriLoop] at h
    split at h
    · cases h
    split at h
    · cases h
    have hr : CamsOk Nci Nce r.icamI r.icamE := by unfold CamsOk; omega
    split at h
    · split at h
      · cases h
      · simpa [hr] using ih h
    · simpa [hr] using ih h

/-! ### Theorems -/

/-- C10, boards: the table is accepted if and only if it has the documented form. -/
theorem validate_boards_iff (Nf Nci Nce : Int) (rows : List IdxRow) :
    validateBoards Nf Nci Nce rows = true ↔ BoardsOk Nf Nci Nce rows := by
  unfold validateBoards
  rw [Bool.and_eq_true, boardsLoop_iff]
  cases rows with
  | nil =>
    simp only [List.getLast?_nil]
    constructor
    · rintro -; exact ⟨by simp, by simp, by simp, by simp⟩
    · rintro -; simp
  | cons r rs =>
    rw [List.isChain_cons_cons]
    obtain ⟨l, hl⟩ : ∃ l, (r :: rs).getLast? = some l := ⟨_, List.getLast?_eq_some_getLast (by simp)⟩
    rw [hl]
    simp only [beq_iff_eq]
    constructor
    · rintro ⟨⟨h1, h2, h3⟩, h4⟩
      have hr0 : r.i = 0 := by
        have := (h1 r (by simp)).1
        rcases h2 with ⟨h, -⟩ | h <;> simp at h <;> omega
      refine ⟨h1, by simpa using hr0, fun k a b ha hb => ?_, fun _ f hf1 hf2 => ?_⟩
      · have hk := (List.getElem?_eq_some_iff.1 hb)
        have hk' := (List.getElem?_eq_some_iff.1 ha)
        have := List.isChain_iff_getElem.1 h3 k hk.1
        rw [hk.2, hk'.2] at this; exact this
      · exact chain_covers rs r h3 l hl f (by omega) (by omega)
    · rintro ⟨h1, h2, h3, h4⟩
      have hr0 : r.i = 0 := h2 r rfl
      have hch : (r :: rs).IsChain stepOk := by
        rw [List.isChain_iff_getElem]
        intro k hk
        exact h3 k _ _ (List.getElem?_eq_getElem (by omega)) (List.getElem?_eq_getElem hk)
      refine ⟨⟨h1, Or.inr (by simp [hr0]), hch⟩, ?_⟩
      have hlm := h1 l (List.mem_of_getLast? hl)
      obtain ⟨q, hq, hqf⟩ := h4 (by simp) (Nf - 1) (by have := (h1 r (by simp)).2.1; omega) (by omega)
      have := chain_le_last (r :: rs) hch l hl q hq
      omega

/-- C10, points: the table is accepted if and only if it has the documented form. -/
theorem validate_points_iff (Np Nci Nce : Int) (hNp : 0 ≤ Np) (rows : List IdxRow) :
    validatePoints Np Nci Nce rows = true ↔ PointsOk Np Nci Nce rows := by
  have key := pointsLoop_iff Np Nci Nce rows (-1) (Np - 1) (by omega)
  have e : validatePoints Np Nci Nce rows = true ↔
      validatePointsLoop Np Nci Nce rows (-1) = some (Np - 1) := by
    unfold validatePoints
    cases validatePointsLoop Np Nci Nce rows (-1) <;> simp
  rw [e, key]
  constructor
  · rintro ⟨h1, h2, -, h4, h5⟩
    exact ⟨h1, fun k a ha v hv1 hv2 => h2 k a ha v (by omega) hv2,
      fun v hv1 hv2 => h5 v (by omega) (by omega)⟩
  · rintro ⟨h1, h2, h3⟩
    exact ⟨h1, fun k a ha v hv1 hv2 => h2 k a ha v (by omega) hv2, by omega,
      fun r hr => by have := (h1 r hr).2.1; omega, fun v hv1 hv2 => h3 v (by omega) (by omega)⟩

/-- C10, everything together. If `optimize()` accepts the arguments and the triangulated observations,
every index stored in the C observation arrays refers to an existing item. The one thing that is missing for
memory safety is in `validate_accepts_negative_fixed`. -/
theorem validate_sound (a : Args) (obs : List TriObs) (hNp : 0 ≤ a.Npoints)
    (h : optimizeValidateArgs a = true) (ht : fillTri a.tri = some obs) :
    (a.boards.length = a.NobsBoard ∧ a.points.length = a.NobsPoint ∧ (obs.length : Int) = a.NobsTri) ∧
    BoardsOk a.Nframes a.NciIntrinsics a.Nce a.boards ∧
    PointsOk a.Npoints a.NciIntrinsics a.Nce a.points ∧
    (∀ o ∈ obs, CamsOk a.NciIntrinsics a.Nce o.icamI o.icamE) ∧
    Tri.Terminated obs ∧
    a.NciImagersizes = a.NciIntrinsics ∧
    a.NpointsFixed ≤ a.Npoints ∧
    (0 < a.NobsBoard → a.spacingPositive = true ∧ (a.optimizeWarp = true → a.warpGiven = true)) ∧
    a.icamIntrinsicsQuery < a.NciIntrinsics := by
  unfold optimizeValidateArgs at h
  iterate 11 (split at h; · cases h)
  rename_i g1 g2 g3 g4 g5 g6 g7 g8 g9 g10 g11
  obtain ⟨hl, hget, hterm, -⟩ := Ingest.ingest_groups _ _ ht
  refine ⟨⟨by omega, by omega, by omega⟩, (validate_boards_iff _ _ _ _).1 (by simpa using g9),
    (validate_points_iff _ _ _ hNp _).1 (by simpa using g11), ?_, hterm, by omega, ?_, ?_, by omega⟩
  · intro o ho
    obtain ⟨i, hi, rfl⟩ := List.getElem_of_mem ho
    have hi' : i < a.tri.length := by omega
    obtain ⟨o', ho', e1, e2, -⟩ := hget i _ (List.getElem?_eq_getElem hi')
    rw [List.getElem?_eq_getElem hi] at ho'
    cases ho'
    rw [e1, e2]
    exact triLoop_cams h _ (List.getElem_mem hi')
  · have g10' : validateNpointsFixed a.Npoints a.NpointsFixed = true := by simpa using g10
    unfold validateNpointsFixed at g10'
    split at g10' <;> simp at g10' <;> omega
  · intro hN
    refine ⟨?_, ?_⟩
    · by_contra hc; exact g3 ⟨hN, by simpa using hc⟩
    · intro hw
      by_contra hc; exact g4 ⟨hN, hw, by simpa using hc⟩

/-- Arguments with one camera, 3 frames, 2 points -/
def exArgs : Args where
  NciIntrinsics := 1
  NciImagersizes := 1
  Nce := 1
  Nframes := 2
  Npoints := 2
  NpointsFixed := 1
  NobsBoard := 3
  NobsPoint := 3
  NobsTri := 5
  boards := [⟨0, 0, -1⟩, ⟨0, 0, 0⟩, ⟨1, 0, 0⟩]
  points := [⟨0, 0, -1⟩, ⟨1, 0, 0⟩, ⟨0, 0, 0⟩]
  tri := [⟨0, 0, -1, false, true⟩, ⟨0, 0, 0, true, true⟩, ⟨0, 0, 0, false, true⟩,
          ⟨1, 0, 0, false, true⟩, ⟨1, 0, -1, false, true⟩]
  spacingPositive := true
  optimizeWarp := true
  warpGiven := true
  icamIntrinsicsQuery := -1
  lensmodelOk := true
example : optimizeValidateArgs exArgs = true ∧ (fillTri exArgs.tri).isSome := by decide

/-- Deviation: a negative `Npoints_fixed` is accepted whenever there are points. The state vector then has
more point variables than the `points` array has values, so `pack_solver_state()` reads, and
`unpack_solver_state()` writes, past the end of that array. -/
theorem validate_accepts_negative_fixed :
    ∃ a : Args, optimizeValidateArgs a = true ∧ a.NpointsFixed < 0 ∧
      ∀ d : Dims, d.Npoints = a.Npoints → d.NpointsFixed = a.NpointsFixed → d.sel.frames = true →
        3 * a.Npoints < numStatesPoints d := by
  refine ⟨{ exArgs with NpointsFixed := -5 }, by decide, by decide, ?_⟩
  intro d h1 h2 h3
  simp only [exArgs] at h1 h2 ⊢
  simp [numStatesPoints, h1, h2, h3]

end Mrcal.Validate
