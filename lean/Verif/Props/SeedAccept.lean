import Verif.Props.SeedProps
import Verif.Props.SensorLinksProps

/-! # C101: which data the seeding accepts -/

namespace Mrcal.Seed
open Mrcal.Pose Mrcal.Links

/-! ### specification -/

/-- the observations are in order: of their frames; and inside each frame, of their cameras -/
def Ordered (obs : List Obs) : Prop := obs.Pairwise fun a b => a.frame < b.frame ∨ a.frame = b.frame ∧ a.cam < b.cam

/-- the frames that a camera saw -/
def framesOf (obs : List Obs) (c : Nat) : List Nat := (obs.filter fun o => o.cam = c).map fun o => o.frame
/-- the frames that two cameras saw -/
def sharedFrames (obs : List Obs) (i j : Nat) : List Nat := (framesOf obs i).filter fun f => f ∈ framesOf obs j

/-- cameras with a chain of cameras to camera 0, each sharing at least 2 frames with the next -/
inductive Reach (obs : List Obs) : Nat → Prop
  | zero : Reach obs 0
  | step {a b} : Reach obs a → a < numCameras obs → b < numCameras obs → a ≠ b → 2 ≤ (sharedFrames obs a b).length → Reach obs b

/-- the singular value decompositions converge -/
def Converges (env : Env) : Prop := ∀ A, (env.lapack A).isSome ∧ (env.svd A).isSome

/-! ### the connectivity -/

theorem framesOf_append (x y : List Obs) (c : Nat) : framesOf (x ++ y) c = framesOf x c ++ framesOf y c := by
  unfold framesOf; rw [List.filter_append, List.map_append]
theorem mem_framesOf (x : List Obs) (c f : Nat) : f ∈ framesOf x c ↔ ∃ o ∈ x, o.cam = c ∧ o.frame = f := by
  unfold framesOf; simp [and_assoc]

/-- one frame that's after all the others -/
theorem shared_append (x y : List Obs) (g : Nat) (hx : ∀ o ∈ x, o.frame < g) (hy : ∀ o ∈ y, o.frame = g) (hn : (y.map fun o => o.cam).Nodup) (i j : Nat) :
    (sharedFrames (x ++ y) i j).length = (sharedFrames x i j).length + if i ∈ (y.map fun o => o.cam) ∧ j ∈ (y.map fun o => o.cam) then 1 else 0 := by
  have memx : ∀ f, f < g → (f ∈ framesOf (x ++ y) j ↔ f ∈ framesOf x j) := by
    intro f hf
    rw [framesOf_append, List.mem_append, or_iff_left]
    intro h
    obtain ⟨o, ho, -, hof⟩ := (mem_framesOf y j f).mp h
    rw [hy o ho] at hof; omega
  have memy : g ∈ framesOf (x ++ y) j ↔ j ∈ (y.map fun o => o.cam) := by
    rw [mem_framesOf]
    constructor
    · rintro ⟨o, ho, hc, hf⟩
      rcases List.mem_append.mp ho with ho | ho
      · have := hx o ho; omega
      · exact List.mem_map.mpr ⟨o, ho, hc⟩
    · intro h
      obtain ⟨o, ho, hc⟩ := List.mem_map.mp h
      exact ⟨o, List.mem_append_right _ ho, hc, hy o ho⟩
  unfold sharedFrames
  rw [framesOf_append x y i, List.filter_append, List.length_append]
  congr 1
  · congr 1
    refine List.filter_congr fun f hf => ?_
    obtain ⟨o, ho, -, hof⟩ := (mem_framesOf x i f).mp hf
    exact decide_eq_decide.mpr (memx f (by rw [← hof]; exact hx o ho))
  · have hall : ∀ f ∈ framesOf y i, f = g := by
      intro f hf
      obtain ⟨o, ho, -, hof⟩ := (mem_framesOf y i f).mp hf
      rw [← hof]; exact hy o ho
    have hlen : (framesOf y i).length = if i ∈ (y.map fun o => o.cam) then 1 else 0 := by
      have hc : (framesOf y i).length = (y.map fun o => o.cam).count i := by
        unfold framesOf
        rw [List.length_map, List.count_eq_length_filter, List.filter_map, List.length_map]
        congr 1
      rw [hc]
      split
      · rename_i h; exact List.count_eq_one_of_mem hn h
      · rename_i h; exact List.count_eq_zero_of_not_mem h
    by_cases hj : j ∈ (y.map fun o => o.cam)
    · rw [List.filter_eq_self.mpr, hlen]
      · simp only [hj, and_true]
      · intro f hf
        rw [hall f hf]
        exact decide_eq_true (memy.mpr hj)
    · rw [List.filter_eq_nil_iff.mpr]
      · simp [hj]
      · intro f hf
        rw [hall f hf]
        simpa using fun h => hj (memy.mp h)

/-- how an entry changes -/
theorem bump2 (M : Nat → Nat → Nat) (c d i j : Nat) (hcd : c ≠ d) : bump (bump M c d) d c i j % 65536 = (M i j + if i = c ∧ j = d ∨ i = d ∧ j = c then 1 else 0) % 65536 := by
  unfold bump
  by_cases h1 : i = c ∧ j = d
  · have h2 : ¬ (i = d ∧ j = c) := by omega
    rw [if_neg h2, if_pos h1, if_pos (Or.inl h1)]; omega
  · by_cases h2 : i = d ∧ j = c
    · rw [if_pos h2, if_neg h1, if_pos (Or.inr h2)]; omega
    · rw [if_neg h2, if_neg h1, if_neg (by tauto)]; rfl

theorem inner_count (c : Nat) (cs : List Nat) (hc : c ∉ cs) (hn : cs.Nodup) (M : Nat → Nat → Nat) (i j : Nat) :
    cs.foldl (fun M d => bump (bump M c d) d c) M i j % 65536 = (M i j + if i = c ∧ j ∈ cs ∨ j = c ∧ i ∈ cs then 1 else 0) % 65536 := by
  induction cs generalizing M with
  | nil => simp
  | cons d cs ih =>
    rw [List.mem_cons, not_or] at hc
    rw [List.nodup_cons] at hn
    rw [List.foldl_cons, ih hc.2 hn.2, Nat.add_mod, bump2 M c d i j hc.1]
    by_cases h1 : i = c ∧ j = d ∨ i = d ∧ j = c
    · have h2 : ¬ (i = c ∧ j ∈ cs ∨ j = c ∧ i ∈ cs) := by
        rintro (⟨ha, hb⟩ | ⟨ha, hb⟩)
        · rcases h1 with ⟨-, rfl⟩ | ⟨h, -⟩
          · exact hn.1 hb
          · exact hc.1 (by omega)
        · rcases h1 with ⟨h, -⟩ | ⟨rfl, -⟩
          · exact hc.2 (h ▸ hb)
          · exact hn.1 hb
      have h3 : i = c ∧ j ∈ d :: cs ∨ j = c ∧ i ∈ d :: cs := by
        rcases h1 with ⟨ha, hb⟩ | ⟨ha, hb⟩
        · exact Or.inl ⟨ha, by simp [hb]⟩
        · exact Or.inr ⟨hb, by simp [ha]⟩
      rw [if_pos h1, if_neg h2, if_pos h3]; omega
    · have h3 : (i = c ∧ j ∈ d :: cs ∨ j = c ∧ i ∈ d :: cs) ↔ (i = c ∧ j ∈ cs ∨ j = c ∧ i ∈ cs) := by
        simp only [List.mem_cons]; tauto
      rw [if_neg h1]
      by_cases h2 : i = c ∧ j ∈ cs ∨ j = c ∧ i ∈ cs
      · rw [if_pos h2, if_pos (h3.mpr h2)]; omega
      · rw [if_neg h2, if_neg (fun h => h2 (h3.mp h))]; omega

theorem finish_count (cs : List Nat) (hn : cs.Nodup) (M : Nat → Nat → Nat) (i j : Nat) (hij : i ≠ j) :
    finishFrame cs M i j % 65536 = (M i j + if i ∈ cs ∧ j ∈ cs then 1 else 0) % 65536 := by
  induction cs generalizing M with
  | nil => simp [finishFrame]
  | cons c cs ih =>
    rw [List.nodup_cons] at hn
    unfold finishFrame
    rw [ih hn.2, Nat.add_mod, inner_count c cs hn.1 hn.2]
    by_cases h1 : i = c ∧ j ∈ cs ∨ j = c ∧ i ∈ cs
    · have h2 : ¬ (i ∈ cs ∧ j ∈ cs) := by
        rintro ⟨ha, hb⟩
        rcases h1 with ⟨rfl, -⟩ | ⟨rfl, -⟩
        · exact hn.1 ha
        · exact hn.1 hb
      have h3 : i ∈ c :: cs ∧ j ∈ c :: cs := by
        rcases h1 with ⟨ha, hb⟩ | ⟨ha, hb⟩
        · exact ⟨by simp [ha], by simp [hb]⟩
        · exact ⟨by simp [hb], by simp [ha]⟩
      rw [if_pos h1, if_neg h2, if_pos h3]; omega
    · have h3 : (i ∈ c :: cs ∧ j ∈ c :: cs) ↔ (i ∈ cs ∧ j ∈ cs) := by
        simp only [List.mem_cons]
        constructor
        · rintro ⟨ha | ha, hb | hb⟩
          · omega
          · exact absurd (Or.inl ⟨ha, hb⟩) h1
          · exact absurd (Or.inr ⟨hb, ha⟩) h1
          · exact ⟨ha, hb⟩
        · rintro ⟨ha, hb⟩; exact ⟨Or.inr ha, Or.inr hb⟩
      rw [if_neg h1]
      by_cases h2 : i ∈ cs ∧ j ∈ cs
      · rw [if_pos h2, if_pos (h3.mpr h2)]; omega
      · rw [if_neg h2, if_neg (fun h => h2 (h3.mp h))]; omega

theorem finish_lt (cs : List Nat) (M : Nat → Nat → Nat) (h : ∀ i j, M i j < 65536) (i j : Nat) : finishFrame cs M i j < 65536 := by
  induction cs generalizing M with
  | nil => exact h i j
  | cons c cs ih =>
    unfold finishFrame
    apply ih
    have hb : ∀ (M : Nat → Nat → Nat) a b, (∀ i j, M i j < 65536) → ∀ i j, bump M a b i j < 65536 := by
      intro M a b hM i j
      unfold bump
      split
      · exact Nat.mod_lt _ (by norm_num)
      · exact hM i j
    clear ih
    induction cs generalizing M with
    | nil => exact h
    | cons d cs ih =>
      rw [List.foldl_cons]
      exact ih _ (hb _ _ _ (hb _ _ _ h))

/-- the loop of compute_connectivity_matrix() -/
structure ConnInv (pre : List Obs) (s : ConnSt) : Prop where
  lt : ∀ i j, s.M i j < 65536
  start : s.cur = none → pre = [] ∧ ∀ i j, s.M i j = 0
  cur : ∀ g cs, s.cur = some (g, cs) → ∃ x y, pre = x ++ y ∧ y ≠ [] ∧ (∀ o ∈ y, o.frame = g) ∧ cs = y.map (fun o => o.cam) ∧ (∀ o ∈ x, o.frame < g) ∧
    ∀ i j, i ≠ j → s.M i j = (sharedFrames x i j).length % 65536

theorem cams_nodup (y : List Obs) (g : Nat) (hy : ∀ o ∈ y, o.frame = g) (ho : Ordered y) : (y.map fun o => o.cam).Nodup := by
  unfold List.Nodup
  rw [List.pairwise_map]
  refine ho.imp_of_mem ?_
  intro a b ha hb h
  rw [hy a ha, hy b hb] at h
  omega

theorem connFold_inv (obs pre : List Obs) (ho : Ordered (pre ++ obs)) (s : ConnSt) (hi : ConnInv pre s) : ∃ s', obs.foldlM connStep s = some s' ∧ ConnInv (pre ++ obs) s' := by
  induction obs generalizing pre s with
  | nil => exact ⟨s, rfl, by rw [List.append_nil]; exact hi⟩
  | cons o obs ih =>
    have ea : pre ++ o :: obs = (pre ++ [o]) ++ obs := by simp
    rw [ea] at ho ⊢
    have hso : Ordered (pre ++ [o]) := ho.sublist (List.sublist_append_left _ _)
    have hle : ∀ a ∈ pre, a.frame < o.frame ∨ a.frame = o.frame ∧ a.cam < o.cam := fun a ha => (List.pairwise_append.mp hso).2.2 a ha o (List.mem_singleton_self _)
    have key : ∃ s1, connStep s o = some s1 ∧ ConnInv (pre ++ [o]) s1 := by
      unfold connStep
      cases hc : s.cur with
      | none =>
        obtain ⟨hp, hM⟩ := hi.start hc
        refine ⟨_, rfl, hi.lt, fun h => (Option.some_ne_none _ h).elim, fun g cs hg => ?_⟩
        simp only [Option.some.injEq, Prod.mk.injEq] at hg
        obtain ⟨rfl, rfl⟩ := hg
        subst hp
        exact ⟨[], [o], rfl, by simp, by simp, by simp, by simp, fun i j _ => by rw [hM]; rfl⟩
      | some c =>
        obtain ⟨g, cs⟩ := c
        obtain ⟨x, y, hp, hy0, hy, hcs, hx, hM⟩ := hi.cur g cs hc
        simp only
        obtain ⟨a, ha⟩ := List.exists_mem_of_ne_nil y hy0
        have hga := hle a (by rw [hp]; exact List.mem_append_right _ ha)
        rw [hy a ha] at hga
        rw [if_neg (by omega)]
        by_cases hlt : g < o.frame
        · rw [if_pos hlt]
          refine ⟨_, rfl, finish_lt _ _ hi.lt, fun h => (Option.some_ne_none _ h).elim, fun g' cs' hg => ?_⟩
          simp only [Option.some.injEq, Prod.mk.injEq] at hg
          obtain ⟨rfl, rfl⟩ := hg
          refine ⟨pre, [o], rfl, by simp, by simp, by simp, ?_, fun i j hij => ?_⟩
          · intro b hb
            rw [hp] at hb
            rcases List.mem_append.mp hb with hb | hb
            · exact (hx b hb).trans hlt
            · rw [hy b hb]; exact hlt
          · have hyo : Ordered y := (hso.sublist (List.sublist_append_left _ _)).sublist (by rw [hp]; exact List.sublist_append_right _ _)
            have hn := cams_nodup y g hy hyo
            show finishFrame cs s.M i j = _
            rw [hp, shared_append x y g hx hy hn, ← Nat.mod_eq_of_lt (finish_lt cs s.M hi.lt i j), hcs, finish_count _ hn _ i j hij, hM i j hij]
            omega
        · rw [if_neg hlt]
          have hge : g = o.frame := by omega
          refine ⟨_, rfl, hi.lt, fun h => (Option.some_ne_none _ h).elim, fun g' cs' hg => ?_⟩
          simp only [Option.some.injEq, Prod.mk.injEq] at hg
          obtain ⟨rfl, rfl⟩ := hg
          refine ⟨x, y ++ [o], by rw [hp, List.append_assoc], by simp, ?_, by rw [hcs, List.map_append]; rfl, hx, hM⟩
          intro b hb
          rcases List.mem_append.mp hb with hb | hb
          · exact hy b hb
          · rw [List.mem_singleton.mp hb, hge]
    obtain ⟨s1, h1, h2⟩ := key
    obtain ⟨s', h3, h4⟩ := ih (pre ++ [o]) ho s1 h2
    exact ⟨s', by rw [List.foldlM_cons, h1]; exact h3, h4⟩

/-- the matrix counts the shared frames, modulo 65536 -/
theorem connectivity_count (obs : List Obs) (ho : Ordered obs) : ∃ M, connectivity obs = some M ∧ (∀ i j, M i j < 65536) ∧ ∀ i j, i ≠ j → M i j = (sharedFrames obs i j).length % 65536 := by
  obtain ⟨s, h1, h2⟩ := connFold_inv obs [] ho ⟨none, fun _ _ => 0⟩ ⟨by simp, fun _ => ⟨rfl, fun _ _ => rfl⟩, fun g cs h => by simp at h⟩
  rw [List.nil_append] at h2
  unfold connectivity
  rw [h1]
  cases hc : s.cur with
  | none =>
    obtain ⟨hp, hM⟩ := h2.start hc
    refine ⟨s.M, by simp only [hc], h2.lt, fun i j _ => ?_⟩
    rw [hM, hp]; rfl
  | some c =>
    obtain ⟨g, cs⟩ := c
    obtain ⟨x, y, hp, hy0, hy, hcs, hx, hM⟩ := h2.cur g cs hc
    refine ⟨finishFrame cs s.M, by simp only [hc], finish_lt _ _ h2.lt, fun i j hij => ?_⟩
    have hn := cams_nodup y g hy (ho.sublist (by rw [hp]; exact List.sublist_append_right _ _))
    rw [hp, shared_append x y g hx hy hn, ← Nat.mod_eq_of_lt (finish_lt cs s.M h2.lt i j), hcs, finish_count _ hn _ i j hij, hM i j hij]
    omega

theorem framesOf_nodup (obs : List Obs) (ho : Ordered obs) (c : Nat) : (framesOf obs c).Nodup := by
  unfold framesOf List.Nodup
  rw [List.pairwise_map]
  refine (ho.filter _).imp_of_mem ?_
  intro a b ha hb h
  have h1 := of_decide_eq_true (List.mem_filter.mp ha).2
  have h2 := of_decide_eq_true (List.mem_filter.mp hb).2
  omega

theorem shared_comm (obs : List Obs) (ho : Ordered obs) (i j : Nat) : (sharedFrames obs i j).length = (sharedFrames obs j i).length := by
  apply List.Perm.length_eq
  unfold sharedFrames
  rw [List.perm_ext_iff_of_nodup ((framesOf_nodup obs ho i).filter _) ((framesOf_nodup obs ho j).filter _)]
  intro f
  simp [and_comm]

/-- the links that the traversal sees -/
theorem linked_iff (obs : List Obs) (ho : Ordered obs) (M : Nat → Nat → Nat) (hM : ∀ i j, i ≠ j → M i j = (sharedFrames obs i j).length % 65536) (N u v : Nat) :
    Linked N (dropSparse M) u v ↔ u < N ∧ v < N ∧ u ≠ v ∧ 2 ≤ (sharedFrames obs u v).length % 65536 := by
  unfold Linked Links.shared dropSparse
  refine and_congr_right fun _ => and_congr_right fun _ => and_congr_right fun hne => ?_
  have h1 := hM u v hne
  have h2 := hM v u (Ne.symm hne)
  rw [shared_comm obs ho v u] at h2
  split
  · rw [h1]; split <;> omega
  · rw [h2]; split <;> omega

/-! ### pairs -/

theorem svdRotation_total (env : Env) (hc : Converges env) (A : Procrustes.Mat) : Procrustes.svdRotation env.svd A ≠ .exception := by
  intro h
  unfold Procrustes.svdRotation at h
  obtain ⟨⟨V, S, Ut⟩, hr⟩ := Option.isSome_iff_exists.mp (hc A).2
  rw [hr] at h
  dsimp only at h
  by_cases hs : S 1 < 1e-12
  · rw [if_pos hs] at h; cases h
  · rw [if_neg hs] at h
    by_cases hd : (V * Ut).det < 0
    · rw [if_pos hd] at h; cases h
    · rw [if_neg hd] at h; cases h

theorem api_total (env : Env) (hc : Converges env) (N : Nat) (p0 p1 : Nat → Procrustes.Vec) : Procrustes.alignPointsApi env.lapack env.svd env.contiguous N p0 p1 none ≠ .exception := by
  intro h
  unfold Procrustes.alignPointsApi at h
  split at h
  · unfold Procrustes.alignPointsPython at h
    dsimp only at h
    split at h
    · rename_i h1; exact svdRotation_total env hc _ h1
    · cases h
    · cases h
  · have hv : Procrustes.alignVectors env.lapack N p0 p1 (Procrustes.mean N p0) (Procrustes.mean N p1) none ≠ .fatal := by
      intro h
      unfold Procrustes.alignVectors at h
      obtain ⟨⟨Vt, S, U⟩, hr⟩ := Option.isSome_iff_exists.mp (hc (Procrustes.outerSum N p0 p1 (Procrustes.mean N p0) (Procrustes.mean N p1) none)).1
      rw [hr] at h
      dsimp only at h
      by_cases hs : S 1 < 1e-12
      · rw [if_pos hs] at h; cases h
      · rw [if_neg hs] at h
        split at h <;> cases h
    unfold Procrustes.alignPointsRt01 at h
    dsimp only at h
    split at h
    · rename_i h1; exact hv h1
    · cases h
    · cases h

theorem procrustes_total (env : Env) (hc : Converges env) (A B : List P3) (hA : A ≠ []) : (procrustes env A B).isSome := by
  unfold procrustes
  rw [if_neg (by simpa using hA)]
  have := api_total env hc A.length (cloud A) (cloud B)
  cases h : Procrustes.alignPointsApi env.lapack env.svd env.contiguous A.length (cloud A) (cloud B) none with
  | exception => exact absurd h this
  | array r => rfl

/-- the loop of compute_pairwise_Rt(): which data it has -/
structure PairData (a b : Nat) (pre : List Obs) (s : PairSt) : Prop where
  seen : ∀ f, s.last = some f → (∃ o ∈ pre, o.frame = f) ∧ ∀ o ∈ pre, o.frame ≤ f
  unseen : s.last = none → pre = []
  rt0 : s.rt0.isSome ↔ ∃ o ∈ pre, some o.frame = s.last ∧ o.cam = a
  rt1 : s.rt1.isSome → ∃ o ∈ pre, some o.frame = s.last ∧ o.cam = b
  A : (∃ o ∈ pre, ∃ o' ∈ pre, o.frame = o'.frame ∧ o.cam = a ∧ o'.cam = b) → s.A ≠ []

theorem newFrame_data (a b : Nat) (pre : List Obs) (s : PairSt) (hs : PairData a b pre s) (g : Nat) (hg : ∀ o ∈ pre, o.frame ≤ g) :
    (newFrame s g).last = some g ∧ ((newFrame s g).rt0.isSome ↔ ∃ o ∈ pre, o.frame = g ∧ o.cam = a) ∧
      ((newFrame s g).rt1.isSome → ∃ o ∈ pre, o.frame = g ∧ o.cam = b) ∧ (newFrame s g).A = s.A := by
  unfold newFrame
  by_cases h : some g ≠ s.last
  · rw [if_pos h]
    have hno : ∀ o ∈ pre, o.frame ≠ g := by
      intro o ho hog
      cases hl : s.last with
      | none => rw [hs.unseen hl] at ho; simp at ho
      | some f =>
        obtain ⟨⟨o', ho', hf⟩, hall⟩ := hs.seen f hl
        have h1 := hg o' ho'
        have h2 := hall o ho
        have : f = g := by omega
        exact h (by rw [hl, this])
    refine ⟨rfl, ⟨fun hh => by simp at hh, ?_⟩, fun hh => by simp at hh, rfl⟩
    rintro ⟨o, ho, hf, -⟩
    exact absurd hf (hno o ho)
  · rw [if_neg h]
    have hl := (not_not.mp h).symm
    refine ⟨hl, ?_, ?_, rfl⟩
    · rw [hs.rt0, hl]; simp
    · intro hh
      obtain ⟨o, ho, hf, hc⟩ := hs.rt1 hh
      rw [hl] at hf
      exact ⟨o, ho, Option.some.inj hf, hc⟩

theorem pairFold_data (obj : List P3) (hobj : obj ≠ []) (a b : Nat) (hab : a < b) (obs pre : List Obs) (ho : Ordered (pre ++ obs)) (s : PairSt) (hs : PairData a b pre s) :
    ∃ s', obs.foldlM (pairStep obj a b) s = some s' ∧ PairData a b (pre ++ obs) s' := by
  induction obs generalizing pre s with
  | nil => exact ⟨s, rfl, by rw [List.append_nil]; exact hs⟩
  | cons o obs ih =>
    have ea : pre ++ o :: obs = (pre ++ [o]) ++ obs := by simp
    rw [ea] at ho ⊢
    have hso : Ordered (pre ++ [o]) := ho.sublist (List.sublist_append_left _ _)
    have hle : ∀ x ∈ pre, x.frame < o.frame ∨ x.frame = o.frame ∧ x.cam < o.cam := fun x hx => (List.pairwise_append.mp hso).2.2 x hx o (List.mem_singleton_self _)
    obtain ⟨n1, n2, n3, n4⟩ := newFrame_data a b pre s hs o.frame (fun x hx => by have := hle x hx; omega)
    have hseen : ∀ f, some o.frame = some f → (∃ x ∈ pre ++ [o], x.frame = f) ∧ ∀ x ∈ pre ++ [o], x.frame ≤ f := by
      intro f hf
      obtain rfl := Option.some.inj hf
      refine ⟨⟨o, by simp, rfl⟩, fun x hx => ?_⟩
      rcases List.mem_append.mp hx with hx | hx
      · have := hle x hx; omega
      · rw [List.mem_singleton.mp hx]
    have key : ∃ s1, pairStep obj a b s o = some s1 ∧ PairData a b (pre ++ [o]) s1 := by
      unfold pairStep
      dsimp only
      generalize newFrame s o.frame = t at n1 n2 n3 n4
      by_cases h1 : o.cam = a
      · have hnone : ¬ t.rt0.isSome := by
          rw [n2]
          rintro ⟨x, hx, hf, hc⟩
          have := hle x hx; omega
        rw [if_pos h1, if_neg hnone]
        refine ⟨_, rfl, ⟨?_, ?_, ?_, ?_, ?_⟩⟩
        · intro f hf; exact hseen f (by rw [← hf]; exact n1.symm)
        · intro h; exact absurd (n1.symm.trans h) (by simp)
        · simp only [n1, Option.isSome_some, true_iff]
          exact ⟨o, by simp, rfl, h1⟩
        · intro h
          obtain ⟨x, hx, hf, hc⟩ := n3 h
          exact ⟨x, List.mem_append_left _ hx, by simp only [n1, hf], hc⟩
        · rintro ⟨x, hx, y, hy, hf, hc, hd⟩
          simp only [n4]
          rcases List.mem_append.mp hy with hy | hy
          · rcases List.mem_append.mp hx with hx | hx
            · exact hs.A ⟨x, hx, y, hy, hf, hc, hd⟩
            · rw [List.mem_singleton.mp hx] at hf
              have := hle y hy; omega
          · rw [List.mem_singleton.mp hy] at hd; omega
      · rw [if_neg h1]
        by_cases h2 : o.cam = b
        · rw [if_pos h2]
          cases hr : t.rt0 with
          | none =>
            have hno : ¬ ∃ x ∈ pre, x.frame = o.frame ∧ x.cam = a := fun h => by
              have := n2.mpr h; rw [hr] at this; simp at this
            refine ⟨t, rfl, ⟨?_, ?_, ?_, ?_, ?_⟩⟩
            · intro f hf; exact hseen f (by rw [← hf]; exact n1.symm)
            · intro h; exact absurd (n1.symm.trans h) (by simp)
            · rw [hr, n1]
              constructor
              · intro h; simp at h
              · rintro ⟨x, hx, hf, hc⟩
                rcases List.mem_append.mp hx with hx | hx
                · exact absurd ⟨x, hx, Option.some.inj hf, hc⟩ hno
                · rw [List.mem_singleton.mp hx] at hc; exact absurd hc h1
            · intro h
              exact ⟨o, by simp, n1.symm, h2⟩
            · rintro ⟨x, hx, y, hy, hf, hc, hd⟩
              rw [n4]
              rcases List.mem_append.mp hx with hx | hx
              · rcases List.mem_append.mp hy with hy | hy
                · exact hs.A ⟨x, hx, y, hy, hf, hc, hd⟩
                · rw [List.mem_singleton.mp hy] at hf
                  exact absurd ⟨x, hx, hf, hc⟩ hno
              · rw [List.mem_singleton.mp hx] at hc; exact absurd hc h1
          | some r0 =>
            have hnone : ¬ t.rt1.isSome := by
              intro h
              obtain ⟨x, hx, hf, hc⟩ := n3 h
              have := hle x hx; omega
            dsimp only
            rw [if_neg hnone]
            refine ⟨_, rfl, ⟨?_, ?_, ?_, ?_, ?_⟩⟩
            · intro f hf; exact hseen f (by rw [← hf]; exact n1.symm)
            · intro h; exact absurd (n1.symm.trans h) (by simp)
            · simp only [n1, hr, Option.isSome_some, true_iff]
              obtain ⟨x, hx, hf, hc⟩ := n2.mp (by rw [hr]; rfl)
              exact ⟨x, List.mem_append_left _ hx, by rw [hf], hc⟩
            · intro _
              exact ⟨o, by simp, n1.symm, h2⟩
            · intro _ h
              have := (List.append_eq_nil_iff.mp h).2
              exact hobj (by simpa using this)
        · rw [if_neg h2]
          refine ⟨t, rfl, ⟨?_, ?_, ?_, ?_, ?_⟩⟩
          · intro f hf; exact hseen f (by rw [← hf]; exact n1.symm)
          · intro h; exact absurd (n1.symm.trans h) (by simp)
          · rw [n2, n1]
            constructor
            · rintro ⟨x, hx, hf, hc⟩
              exact ⟨x, List.mem_append_left _ hx, by rw [hf], hc⟩
            · rintro ⟨x, hx, hf, hc⟩
              rcases List.mem_append.mp hx with hx | hx
              · exact ⟨x, hx, Option.some.inj hf, hc⟩
              · rw [List.mem_singleton.mp hx] at hc; exact absurd hc h1
          · intro h
            obtain ⟨x, hx, hf, hc⟩ := n3 h
            exact ⟨x, List.mem_append_left _ hx, by rw [n1, hf], hc⟩
          · rintro ⟨x, hx, y, hy, hf, hc, hd⟩
            rw [n4]
            rcases List.mem_append.mp hx with hx | hx
            · rcases List.mem_append.mp hy with hy | hy
              · exact hs.A ⟨x, hx, y, hy, hf, hc, hd⟩
              · rw [List.mem_singleton.mp hy] at hd; exact absurd hd h2
            · rw [List.mem_singleton.mp hx] at hc; exact absurd hc h1
    obtain ⟨s1, h1, h2⟩ := key
    obtain ⟨s', h3, h4⟩ := ih (pre ++ [o]) ho s1 h2
    exact ⟨s', by rw [List.foldlM_cons, h1]; exact h3, h4⟩

theorem board_ne (W H : Nat) (hW : 1 ≤ W) (hH : 1 ≤ H) (s : ℝ) : board W H s ≠ [] := by
  obtain ⟨W, rfl⟩ : ∃ n, W = n + 1 := ⟨W - 1, by omega⟩
  obtain ⟨H, rfl⟩ : ∃ n, H = n + 1 := ⟨H - 1, by omega⟩
  unfold board
  rw [List.range_succ_eq_map, List.range_succ_eq_map]
  simp

theorem pairOrdered_total (env : Env) (hc : Converges env) (obj : List P3) (hobj : obj ≠ []) (a b : Nat) (hab : a < b) (obs : List Obs) (ho : Ordered obs)
    (hs : 1 ≤ (sharedFrames obs a b).length) : (pairOrdered env obj obs a b).isSome := by
  obtain ⟨s, h1, h2⟩ := pairFold_data obj hobj a b hab obs [] ho ⟨none, none, none, [], []⟩ ⟨fun f h => by simp at h, fun _ => rfl, by simp, by simp, by simp⟩
  unfold pairOrdered
  rw [h1]
  dsimp only
  refine procrustes_total env hc _ _ (h2.A ?_)
  rw [List.nil_append]
  obtain ⟨f, hf⟩ := List.exists_mem_of_length_pos hs
  unfold sharedFrames at hf
  obtain ⟨hf1, hf2⟩ := List.mem_filter.mp hf
  obtain ⟨x, hx, hxc, hxf⟩ := (mem_framesOf _ _ _).mp hf1
  obtain ⟨y, hy, hyc, hyf⟩ := (mem_framesOf _ _ _).mp (of_decide_eq_true hf2)
  exact ⟨x, hx, y, hy, by rw [hxf, hyf], hxc, hyc⟩

theorem pairwise_total (env : Env) (hc : Converges env) (obj : List P3) (hobj : obj ≠ []) (a b : Nat) (hab : a ≠ b) (obs : List Obs) (ho : Ordered obs)
    (hs : 1 ≤ (sharedFrames obs a b).length) : (pairwise env obj obs a b).isSome := by
  unfold pairwise
  by_cases h : b < a
  · rw [if_pos h, Option.isSome_map]
    exact pairOrdered_total env hc obj hobj b a h obs ho (by rw [shared_comm obs ho]; exact hs)
  · rw [if_neg h, if_neg hab]
    exact pairOrdered_total env hc obj hobj a b (by omega) obs ho hs

/-! ### the paths -/

theorem foundPaths_total (env : Env) (hc : Converges env) (obj : List P3) (hobj : obj ≠ []) (obs : List Obs) (ho : Ordered obs) (P : List (Nat × Nat))
    (hp : ∀ A v p B, P = A ++ (v, p) :: B → p = 0 ∨ p ∈ A.map Prod.fst) (hl : ∀ v p, (v, p) ∈ P → v ≠ 0 ∧ p ≠ v ∧ 1 ≤ (sharedFrames obs p v).length) :
    ∃ r, foundPaths env obj obs P = some r ∧ ∀ v ∈ P.map Prod.fst, (r v).isSome := by
  induction P using List.reverseRecOn with
  | nil => exact ⟨_, rfl, by simp⟩
  | append_singleton P l ih =>
    obtain ⟨v, p⟩ := l
    obtain ⟨r, h1, h2⟩ := ih (fun A v' p' B h => hp A v' p' (B ++ [(v, p)]) (by rw [h]; simp)) (fun v' p' h => hl v' p' (List.mem_append_left _ h))
    obtain ⟨l1, l2, l3⟩ := hl v p (by simp)
    obtain ⟨T, hT⟩ := Option.isSome_iff_exists.mp (pairwise_total env hc obj hobj p v l2 obs ho l3)
    have hpar := hp P v p [] rfl
    unfold foundPaths at h1 ⊢
    rw [List.foldlM_append, h1]
    have key : ∃ r', foundPath env obj obs r (v, p) = some r' ∧ ∀ c, (c = v ∨ (r c).isSome) → (r' c).isSome := by
      unfold foundPath
      dsimp only
      rw [if_neg l1, hT]
      dsimp only
      by_cases h0 : p = 0
      · rw [if_pos h0]
        refine ⟨_, rfl, fun c h => ?_⟩
        by_cases hcv : c = v
        · simp [hcv]
        · simpa [hcv] using h
      · rw [if_neg h0]
        obtain ⟨R, hR⟩ := Option.isSome_iff_exists.mp (h2 p (hpar.resolve_left h0))
        rw [hR]
        refine ⟨_, rfl, fun c h => ?_⟩
        by_cases hcv : c = v
        · simp [hcv]
        · simpa [hcv] using h
    obtain ⟨r', k1, k2⟩ := key
    refine ⟨r', ?_, ?_⟩
    · show (do let s' ← some r; List.foldlM (foundPath env obj obs) s' [(v, p)]) = some r'
      simp only [Option.bind_eq_bind, Option.bind_some, List.foldlM_cons, List.foldlM_nil, k1]
      rfl
    · intro c hcm
      rw [List.map_append, List.mem_append] at hcm
      rcases hcm with h | h
      · exact k2 c (Or.inr (h2 c h))
      · exact k2 c (Or.inl (by simpa using h))

theorem foundPaths_domain (env : Env) (obj : List P3) (obs : List Obs) (P : List (Nat × Nat)) (r : Nat → Option Rt) (h : foundPaths env obj obs P = some r) (c : Nat) (hc : (r c).isSome) :
    c ∈ P.map Prod.fst := by
  induction P using List.reverseRecOn generalizing r with
  | nil =>
    unfold foundPaths at h
    obtain rfl := Option.some.inj h
    simp at hc
  | append_singleton P l ih =>
    unfold foundPaths at h
    rw [List.foldlM_append] at h
    obtain ⟨r0, h0, h1⟩ := Option.bind_eq_some_iff.mp h
    rw [List.foldlM_cons] at h1
    obtain ⟨r1, h2, h3⟩ := Option.bind_eq_some_iff.mp h1
    obtain rfl := Option.some.inj h3
    rw [List.map_append, List.mem_append]
    by_cases hcl : c = l.1
    · exact Or.inr (by simp [hcl])
    · left
      refine ih r0 h0 ?_
      unfold foundPath at h2
      by_cases hz : l.1 = 0
      · rw [if_pos hz] at h2
        obtain rfl := Option.some.inj h2
        exact hc
      · rw [if_neg hz] at h2
        split at h2
        · cases h2
        · split at h2
          · obtain rfl := Option.some.inj h2
            simpa [hcl] using hc
          · split at h2
            · cases h2
            · obtain rfl := Option.some.inj h2
              simpa [hcl] using hc

theorem reach_of_path (obs : List Obs) (ho : Ordered obs) (M : Nat → Nat → Nat) (hM : ∀ i j, i ≠ j → M i j = (sharedFrames obs i j).length % 65536) (v c : Nat)
    (h : Path (numCameras obs) (dropSparse M) v c) : Reach obs v := by
  induction h with
  | root => exact .zero
  | hop _ hl ih =>
    obtain ⟨h1, h2, h3, h4⟩ := (linked_iff obs ho M hM _ _ _).mp hl
    exact .step ih h1 h2 h3 (by omega)

theorem path_of_reach (obs : List Obs) (ho : Ordered obs) (M : Nat → Nat → Nat) (hM : ∀ i j, i ≠ j → M i j = (sharedFrames obs i j).length % 65536)
    (hlt : ∀ i j, i ≠ j → (sharedFrames obs i j).length < 65536) (v : Nat) (h : Reach obs v) : ∃ c, Path (numCameras obs) (dropSparse M) v c := by
  induction h with
  | zero => exact ⟨0, .root⟩
  | step _ ha hb hne hs ih =>
    obtain ⟨c, hp⟩ := ih
    exact ⟨_, .hop hp ((linked_iff obs ho M hM _ _ _).mpr ⟨ha, hb, hne, by have := hlt _ _ hne; rw [Nat.mod_eq_of_lt this]; exact hs⟩)⟩

theorem dropSparse_lt (M : Nat → Nat → Nat) (h : ∀ i j, M i j < 65536) (i j : Nat) : dropSparse M i j ≤ 65535 := by
  unfold dropSparse
  have := h i j
  split <;> omega

theorem mapM_isSome {α β : Type} (f : α → Option β) (l : List α) (h : ∀ a ∈ l, (f a).isSome) : (l.mapM f).isSome := by
  induction l with
  | nil => rfl
  | cons a l ih =>
    obtain ⟨b, hb⟩ := Option.isSome_iff_exists.mp (h a (by simp))
    obtain ⟨bs, hbs⟩ := Option.isSome_iff_exists.mp (ih fun x hx => h x (by simp [hx]))
    rw [List.mapM_cons, hb, hbs]; rfl

theorem mapM_isSome_mem {α β : Type} (f : α → Option β) (l : List α) (h : (l.mapM f).isSome) (a : α) (ha : a ∈ l) : (f a).isSome := by
  induction l with
  | nil => simp at ha
  | cons x l ih =>
    obtain ⟨r, hr⟩ := Option.isSome_iff_exists.mp h
    rw [List.mapM_cons] at hr
    obtain ⟨b, hb, h1⟩ := Option.bind_eq_some_iff.mp hr
    obtain ⟨bs, hbs, -⟩ := Option.bind_eq_some_iff.mp h1
    rcases List.mem_cons.mp ha with rfl | ha
    · rw [hb]; rfl
    · exact ih (by rw [hbs]; rfl) ha

/-- sufficiently-connected cameras are accepted -/
theorem cameras_accepted (env : Env) (hc : Converges env) (hL : Standard env.heap) (W H : Nat) (hW : 1 ≤ W) (hH : 1 ≤ H) (spacing : ℝ) (obs : List Obs) (h0 : obs ≠ []) (ho : Ordered obs)
    (hN : numCameras obs ≤ 65535) (hlt : ∀ i j, i ≠ j → (sharedFrames obs i j).length < 65536) (hr : ∀ c < numCameras obs, Reach obs c) :
    ∃ Ts, estimateCameraPoses env W H spacing obs = some Ts ∧ Ts.length = numCameras obs - 1 := by
  obtain ⟨M, hM, hM16, hMc⟩ := connectivity_count obs ho
  have h1N : 0 < numCameras obs := by unfold numCameras; omega
  have hobj := board_ne W H hW hH spacing
  obtain ⟨full', hf', htree⟩ := traverse_shortest env.heap hL (numCameras obs) (dropSparse M) h1N hN (dropSparse_lt M hM16) (numCameras obs) le_rfl
  obtain ⟨T, full, ok, ht, hf, hpre, hok, hcb, -⟩ := traverse_stops env.heap hL (numCameras obs) (dropSparse M) h1N hN (dropSparse_lt M hM16)
    (fun links => (foundPaths env (board W H spacing) obs links).isSome) (numCameras obs) le_rfl
  rw [hf] at hf'
  have hff : full = full' := by simpa using hf'
  rw [← hff] at htree
  obtain ⟨d, -, hd, -, -⟩ := htree.minimal
  have hlink : ∀ v p, (v, p) ∈ full → v ≠ 0 ∧ p ≠ v ∧ 1 ≤ (sharedFrames obs p v).length := by
    intro v p h
    obtain ⟨-, -, h3, h4⟩ := (linked_iff obs ho M hMc _ _ _).mp (hd v p h).1
    exact ⟨((htree.exactly v).mp (List.mem_map.mpr ⟨_, h, rfl⟩)).1, h3, by omega⟩
  obtain ⟨rest, hrest⟩ := hpre
  have hT := foundPaths_total env hc (board W H spacing) hobj obs ho T
    (fun A v p B h => htree.parentFirst A v p (B ++ rest) (by rw [← hrest, h]; simp)) (fun v p h => hlink v p (by rw [← hrest]; exact List.mem_append_left _ h))
  obtain ⟨r, hr1, hr2⟩ := hT
  have hok' : ok = true := by
    by_contra h
    have := hcb (by simpa using h)
    simp only [hr1, Option.isSome_some] at this
    cases this
  subst hok'
  have hTf := hok rfl
  have hall : ((List.range (numCameras obs - 1)).mapM fun i => r (i + 1)).isSome := by
    refine mapM_isSome _ _ fun i hi => ?_
    refine hr2 (i + 1) ?_
    rw [hTf]
    exact (htree.exactly (i + 1)).mpr ⟨by omega, path_of_reach obs ho M hMc hlt _ (hr (i + 1) (by have := List.mem_range.mp hi; omega))⟩
  obtain ⟨Ts, hTs⟩ := Option.isSome_iff_exists.mp hall
  refine ⟨Ts, ?_, ?_⟩
  · unfold estimateCameraPoses
    rw [if_neg (by simpa using h0), hM]
    dsimp only
    rw [ht]
    dsimp only
    rw [hr1]
    exact hTs
  · have := (TriPy.mapM_forall₂ _ _ hTs).length_eq
    rw [← this, List.length_range]

/-- each camera that's accepted has a path, and a fit to one other camera -/
theorem cameras_path (env : Env) (hL : Standard env.heap) (W H : Nat) (spacing : ℝ) (obs : List Obs) (ho : Ordered obs) (hN : numCameras obs ≤ 65535) (Ts : List Rt)
    (h : estimateCameraPoses env W H spacing obs = some Ts) (c : Nat) (hc0 : c ≠ 0) (hcN : c < numCameras obs) :
    ∃ M, (∀ i j, i ≠ j → M i j = (sharedFrames obs i j).length % 65536) ∧ ∃ k, Path (numCameras obs) (dropSparse M) c k := by
  obtain ⟨M, hM, hM16, hMc⟩ := connectivity_count obs ho
  have h1N : 0 < numCameras obs := by unfold numCameras; omega
  obtain ⟨full', hf', htree⟩ := traverse_shortest env.heap hL (numCameras obs) (dropSparse M) h1N hN (dropSparse_lt M hM16) (numCameras obs) le_rfl
  obtain ⟨T, full, ok, ht, hf, hpre, hok, hcb, -⟩ := traverse_stops env.heap hL (numCameras obs) (dropSparse M) h1N hN (dropSparse_lt M hM16)
    (fun links => (foundPaths env (board W H spacing) obs links).isSome) (numCameras obs) le_rfl
  rw [hf] at hf'
  have hff : full = full' := by simpa using hf'
  rw [← hff] at htree
  unfold estimateCameraPoses at h
  by_cases h0 : obs.isEmpty
  · rw [if_pos h0] at h; cases h
  rw [if_neg h0, hM] at h
  dsimp only at h
  rw [ht] at h
  cases ok with
  | false => cases h
  | true =>
    dsimp only at h
    cases hr : foundPaths env (board W H spacing) obs T with
    | none => rw [hr] at h; cases h
    | some r =>
      rw [hr] at h
      dsimp only at h
      have h1 := mapM_isSome_mem (fun i => r (i + 1)) _ (by rw [h]; rfl) (c - 1) (List.mem_range.mpr (by omega))
      have e : c - 1 + 1 = c := by omega
      rw [e] at h1
      have h2 := foundPaths_domain env _ obs T r hr c h1
      obtain ⟨-, k, hk⟩ := (htree.exactly c).mp (by obtain ⟨rest, hrest⟩ := hpre; rw [← hrest, List.map_append]; exact List.mem_append_left _ h2)
      exact ⟨M, hMc, k, hk⟩

theorem foundPaths_fit (env : Env) (obj : List P3) (obs : List Obs) (P : List (Nat × Nat)) (r : Nat → Option Rt) (h : foundPaths env obj obs P = some r) (c : Nat) (hc : (r c).isSome) :
    ∃ p, (pairwise env obj obs p c).isSome := by
  induction P using List.reverseRecOn generalizing r with
  | nil =>
    unfold foundPaths at h
    obtain rfl := Option.some.inj h
    simp at hc
  | append_singleton P l ih =>
    unfold foundPaths at h
    rw [List.foldlM_append] at h
    obtain ⟨r0, h0, h1⟩ := Option.bind_eq_some_iff.mp h
    rw [List.foldlM_cons] at h1
    obtain ⟨r1, h2, h3⟩ := Option.bind_eq_some_iff.mp h1
    obtain rfl := Option.some.inj h3
    unfold foundPath at h2
    by_cases hz : l.1 = 0
    · rw [if_pos hz] at h2
      obtain rfl := Option.some.inj h2
      exact ih r0 h0 hc
    · rw [if_neg hz] at h2
      by_cases hcl : c = l.1
      · refine ⟨l.2, ?_⟩
        rw [hcl]
        cases hp : pairwise env obj obs l.2 l.1 with
        | none => rw [hp] at h2; cases h2
        | some T => rfl
      · refine ih r0 h0 ?_
        split at h2
        · cases h2
        · split at h2
          · obtain rfl := Option.some.inj h2
            simpa [hcl] using hc
          · split at h2
            · cases h2
            · obtain rfl := Option.some.inj h2
              simpa [hcl] using hc

theorem cameras_fit (env : Env) (W H : Nat) (spacing : ℝ) (obs : List Obs) (Ts : List Rt) (h : estimateCameraPoses env W H spacing obs = some Ts) (c : Nat) (hc0 : c ≠ 0) (hcN : c < numCameras obs) :
    ∃ p, (pairwise env (board W H spacing) obs p c).isSome := by
  unfold estimateCameraPoses at h
  by_cases h0 : obs.isEmpty
  · rw [if_pos h0] at h; cases h
  rw [if_neg h0] at h
  dsimp only at h
  cases hM : connectivity obs with
  | none => rw [hM] at h; cases h
  | some M =>
    rw [hM] at h
    dsimp only at h
    split at h
    · rename_i links _
      cases hr : foundPaths env (board W H spacing) obs links with
      | none => rw [hr] at h; cases h
      | some r =>
        rw [hr] at h
        dsimp only at h
        have h1 := mapM_isSome_mem (fun i => r (i + 1)) _ (by rw [h]; rfl) (c - 1) (List.mem_range.mpr (by omega))
        have e : c - 1 + 1 = c := by omega
        rw [e] at h1
        exact foundPaths_fit env _ obs links r hr c h1
    · cases h

/-- cameras that aren't sufficiently connected are rejected -/
theorem cameras_connected (env : Env) (hL : Standard env.heap) (W H : Nat) (spacing : ℝ) (obs : List Obs) (ho : Ordered obs) (hN : numCameras obs ≤ 65535) (Ts : List Rt)
    (h : estimateCameraPoses env W H spacing obs = some Ts) (c : Nat) (hcN : c < numCameras obs) : Reach obs c := by
  rcases Nat.eq_zero_or_pos c with rfl | hpos
  · exact .zero
  obtain ⟨M, hM, k, hk⟩ := cameras_path env hL W H spacing obs ho hN Ts h c (by omega) hcN
  exact reach_of_path obs ho M hM c k hk

/-! ### the frames -/

theorem zipSum_length (obj : List P3) (Ts : List Rt) (acc : List P3) (h : acc.length = obj.length) :
    (Ts.foldl (fun acc T => List.zipWith addP acc (obj.map fun p => transformPointRt T p false)) acc).length = obj.length := by
  induction Ts generalizing acc with
  | nil => exact h
  | cons T Ts ih =>
    rw [List.foldl_cons]
    exact ih _ (by simp [h])

theorem refFrame_total (env : Env) (hc : Converges env) (obj : List P3) (hobj : obj ≠ []) (RtRefCam : List Rt) (rows : List Obs) (hr : ∀ o ∈ rows, o.cam - 1 < RtRefCam.length ∨ o.cam = 0) :
    (refFrame env obj RtRefCam rows).isSome := by
  have hs : ∀ o ∈ rows, (single RtRefCam o).isSome := by
    intro o ho
    unfold single
    by_cases h : o.cam = 0
    · rw [if_pos h]; rfl
    · rw [if_neg h, Option.isSome_map, List.getElem?_eq_getElem ((hr o ho).resolve_right h)]; rfl
  unfold refFrame
  split
  · exact hs _ (by simp)
  · obtain ⟨Ts, hTs⟩ := Option.isSome_iff_exists.mp (mapM_isSome (single RtRefCam) rows hs)
    rw [hTs]
    refine procrustes_total env hc _ _ ?_
    intro h
    unfold meanBoard at h
    have h1 := congrArg List.length h
    dsimp only at h1
    rw [List.length_map, zipSum_length obj Ts _ (by simp), List.length_nil] at h1
    exact hobj (List.length_eq_zero_iff.mp h1)

theorem jointFold_total (env : Env) (hc : Converges env) (obj : List P3) (hobj : obj ≠ []) (RtRefCam : List Rt) (obs : List Obs) (hr : ∀ o ∈ obs, o.cam - 1 < RtRefCam.length ∨ o.cam = 0) (s : JointSt)
    (hs : ∀ f rows, s.cur = some (f, rows) → ∀ o ∈ rows, o.cam - 1 < RtRefCam.length ∨ o.cam = 0) :
    ∃ s', obs.foldlM (jointStep env obj RtRefCam) s = some s' ∧ ∀ f rows, s'.cur = some (f, rows) → ∀ o ∈ rows, o.cam - 1 < RtRefCam.length ∨ o.cam = 0 := by
  induction obs generalizing s with
  | nil => exact ⟨s, rfl, hs⟩
  | cons o obs ih =>
    have ho := hr o (by simp)
    have hobs : ∀ x ∈ obs, x.cam - 1 < RtRefCam.length ∨ x.cam = 0 := fun x hx => hr x (by simp [hx])
    have key : ∃ s1, jointStep env obj RtRefCam s o = some s1 ∧ ∀ f rows, s1.cur = some (f, rows) → ∀ x ∈ rows, x.cam - 1 < RtRefCam.length ∨ x.cam = 0 := by
      unfold jointStep
      cases hcur : s.cur with
      | none =>
        refine ⟨_, rfl, fun f rows h x hx => ?_⟩
        simp only [Option.some.injEq, Prod.mk.injEq] at h
        rw [← h.2, List.mem_singleton] at hx
        rw [hx]; exact ho
      | some c =>
        obtain ⟨g, rows0⟩ := c
        dsimp only
        by_cases hg : o.frame ≠ g
        · rw [if_pos hg]
          obtain ⟨T, hT⟩ := Option.isSome_iff_exists.mp (refFrame_total env hc obj hobj RtRefCam rows0 (hs g rows0 hcur))
          rw [hT]
          refine ⟨_, rfl, fun f rows h x hx => ?_⟩
          simp only [Option.some.injEq, Prod.mk.injEq] at h
          rw [← h.2, List.mem_singleton] at hx
          rw [hx]; exact ho
        · rw [if_neg hg]
          refine ⟨_, rfl, fun f rows h x hx => ?_⟩
          simp only [Option.some.injEq, Prod.mk.injEq] at h
          rw [← h.2] at hx
          rcases List.mem_append.mp hx with hx | hx
          · exact hs g rows0 hcur x hx
          · rw [List.mem_singleton.mp hx]; exact ho
    obtain ⟨s1, h1, h2⟩ := key
    obtain ⟨s', h3, h4⟩ := ih hobs s1 h2
    exact ⟨s', by rw [List.foldlM_cons, h1]; exact h3, h4⟩

theorem frames_accepted (env : Env) (hc : Converges env) (W H : Nat) (hW : 1 ≤ W) (hH : 1 ≤ H) (spacing : ℝ) (RtCamRef : List Rt) (obs : List Obs) (hr : ∀ o ∈ obs, o.cam ≤ RtCamRef.length) :
    (estimateJointFramePoses env W H spacing RtCamRef obs).isSome := by
  have hr' : ∀ o ∈ obs, o.cam - 1 < (RtCamRef.map invertRt).length ∨ o.cam = 0 := by
    intro o ho
    have := hr o ho
    rw [List.length_map]
    omega
  obtain ⟨s, h1, h2⟩ := jointFold_total env hc (board W H spacing) (board_ne W H hW hH spacing) (RtCamRef.map invertRt) obs hr' ⟨none, []⟩ (fun f rows h => by simp at h)
  unfold estimateJointFramePoses
  dsimp only
  rw [h1]
  dsimp only
  cases hcur : s.cur with
  | none => rfl
  | some c =>
    obtain ⟨g, rows⟩ := c
    dsimp only
    rw [Option.isSome_map]
    exact refFrame_total env hc _ (board_ne W H hW hH spacing) _ rows (h2 g rows hcur)

theorem cam_lt (obs : List Obs) (o : Obs) (ho : o ∈ obs) : o.cam < numCameras obs := by
  unfold numCameras
  induction obs with
  | nil => simp at ho
  | cons x obs ih =>
    rw [List.map_cons, List.foldr_cons]
    rcases List.mem_cons.mp ho with rfl | h
    · omega
    · have := ih h; omega

end Mrcal.Seed
