import Verif.Props.CamModelDict
import Mathlib.Tactic.NormNum
import Mathlib.Algebra.BigOperators.Group.List.Basic
import Mathlib.Algebra.GroupWithZero.Basic
import Mathlib.Tactic.DeriveEncodable
import Mathlib.Logic.Encodable.Basic
import Mathlib.Logic.Equiv.List
import Mathlib.Data.Rat.Encodable
/-
C85: the optimization inputs that are stored in a model are the ones that are returned.
-/
namespace Mrcal.CamModel

theorem loaded_orEmpty {v : PyVal} (h : Storable v) : v.orEmpty.loaded = if v = .str "" then .none else v := by
  cases v with
  | none => simp [PyVal.orEmpty, PyVal.loaded]
  | bool b => simp [PyVal.orEmpty, PyVal.loaded]
  | int b => simp [PyVal.orEmpty, PyVal.loaded]
  | float b => simp [PyVal.orEmpty, PyVal.loaded]
  | str s => by_cases hs : s = "" <;> simp [PyVal.orEmpty, PyVal.loaded, hs]
  | array t s x =>
    cases s with
    | nil => exact absurd h (by simp [Storable])
    | cons a b => simp [PyVal.orEmpty, PyVal.loaded]

/-- what is stored for a pose array -/
def PoseSlot (v : Option PyVal) : Prop := v = none ∨ v = some (.str "") ∨ ∃ t s x, v = some (.array t s x)

theorem renamedWrite_ok (src dst : String) (n : Dict) (hne : src ≠ dst) (hs : n.get src = none ∨ isPoison (n.get src) = true) (hd : PoseSlot (n.get dst)) :
    ∃ n', renamedWriteOldName src dst n = some n' ∧ (∀ k, k ≠ src → k ≠ dst → n'.get k = n.get k) ∧ n'.get dst = none ∧
      ((∃ t s x, n.get dst = some (.array t s x) ∧ n'.get src = some (.array t s x)) ∨
       ((n.get dst = none ∨ n.get dst = some (.str "")) ∧ (n'.get src = none ∨ n'.get src = some (.str "")))) := by
  unfold renamedWriteOldName
  rcases hs with hs | hs
  · have hp : isPoison none = false := rfl
    simp only [hs, hp, Bool.false_eq_true, if_false, Option.getD_none, ne_eq, not_true_eq_false]
    rcases hd with hd | hd | ⟨t, s, x, hd⟩
    · simp only [hd, Option.getD_none, not_true_eq_false, if_false]
      refine ⟨_, rfl, fun k h1 h2 => by rw [get_del, if_neg h2], by rw [get_del, if_pos rfl], Or.inr ⟨Or.inl trivial, Or.inl ?_⟩⟩
      rw [get_del, if_neg hne, hs]
    · simp only [hd, Option.getD_some, not_true_eq_false, if_false]
      refine ⟨_, rfl, fun k h1 h2 => by rw [get_del, if_neg h2], by rw [get_del, if_pos rfl], Or.inr ⟨Or.inr trivial, Or.inl ?_⟩⟩
      rw [get_del, if_neg hne, hs]
    · simp only [hd, Option.getD_some, reduceCtorEq, not_false_eq_true, if_true]
      refine ⟨_, rfl, fun k h1 h2 => by rw [get_del, if_neg h2, get_set, if_neg h1], by rw [get_del, if_pos rfl], Or.inl ⟨t, s, x, rfl, ?_⟩⟩
      rw [get_del, if_neg hne, get_set, if_pos rfl]
  · simp only [hs, if_true, get_set, Option.getD_some, ne_eq]
    rcases hd with hd | hd | ⟨t, s, x, hd⟩
    · simp only [hd, Option.getD_none, not_true_eq_false, if_false]
      refine ⟨_, rfl, fun k h1 h2 => by rw [get_del, if_neg h2, get_set, if_neg h1], by rw [get_del, if_pos rfl], Or.inr ⟨Or.inl trivial, Or.inr ?_⟩⟩
      rw [get_del, if_neg hne, get_set, if_pos rfl]
    · simp only [hd, Option.getD_some, not_true_eq_false, if_false]
      refine ⟨_, rfl, fun k h1 h2 => by rw [get_del, if_neg h2, get_set, if_neg h1], by rw [get_del, if_pos rfl], Or.inr ⟨Or.inr trivial, Or.inr ?_⟩⟩
      rw [get_del, if_neg hne, get_set, if_pos rfl]
    · simp only [hd, Option.getD_some, reduceCtorEq, not_false_eq_true, if_true, if_false, pyEqual, and_self, decide_true]
      refine ⟨_, rfl, fun k h1 h2 => by rw [get_del, if_neg h2, get_set, if_neg h1], by rw [get_del, if_pos rfl], Or.inl ⟨t, s, x, rfl, ?_⟩⟩
      rw [get_del, if_neg hne, get_set, if_pos rfl]

theorem normalize_slot {d : Dict} (hn : (d.map Prod.fst).Nodup) (k : String) (hk : k ∉ newKeys) (h : IsPoses (arg d k)) :
    PoseSlot ((normalize d).get k) ∧ (arg d k = .none ↔ ((normalize d).get k = none ∨ (normalize d).get k = some (.str ""))) ∧
    (∀ t s x, (normalize d).get k = some (.array t s x) → arg d k = .array t s x) := by
  rw [get_normalize hn]
  unfold arg at h ⊢
  cases e : d.get k with
  | none => simp [PoseSlot]
  | some v =>
    simp only [hk, false_and, if_false]
    rw [e] at h
    simp only at h
    cases v with
    | none => simp [PoseSlot, PyVal.orEmpty]
    | bool b => simp [IsPoses] at h
    | int b => simp [IsPoses] at h
    | float b => simp [IsPoses] at h
    | str s =>
      by_cases hs : s = ""
      · simp [PoseSlot, PyVal.orEmpty, hs]
      · simp [IsPoses, hs] at h
    | array t s x => simp [PoseSlot, PyVal.orEmpty]

/-- the dict that's encoded -/
theorem serialize_ok {d : Dict} (h : Current d) : ∃ s, serializeDict d = some s ∧
    (∀ k, k ∉ oldNames → k ≠ "rt_ref_frame" → k ≠ "rt_cam_ref" → s.get k = (normalize d).get k) ∧
    s.get "rt_ref_frame" = none ∧ s.get "rt_cam_ref" = none ∧
    (arg d "rt_ref_frame" = .none ∧ (s.get "frames_rt_toref" = none ∨ s.get "frames_rt_toref" = some (.str "")) ∨
      ∃ t sh x, arg d "rt_ref_frame" = .array t sh x ∧ s.get "frames_rt_toref" = some (.array t sh x)) ∧
    (arg d "rt_cam_ref" = .none ∧ (s.get "extrinsics_rt_fromref" = none ∨ s.get "extrinsics_rt_fromref" = some (.str "")) ∨
      ∃ t sh x, arg d "rt_cam_ref" = .array t sh x ∧ s.get "extrinsics_rt_fromref" = some (.array t sh x)) := by
  have hold : ∀ k ∈ oldNames, (normalize d).get k = none ∨ isPoison ((normalize d).get k) = true := by
    intro k hk
    have hk' : k ∉ newKeys := by
      simp only [oldNames, List.mem_cons, List.not_mem_nil, or_false] at hk
      rcases hk with rfl | rfl <;> decide
    rw [get_normalize h.nodup]
    rcases h.old k hk with e | e
    · rw [e]; exact Or.inl rfl
    · cases e' : d.get k with
      | none => rw [e'] at e; simp [isPoison] at e
      | some v =>
        rw [e'] at e
        simp only [hk', false_and, if_false]
        right
        cases v <;> simp_all [isPoison, PyVal.orEmpty]
  obtain ⟨p1, p2, p3⟩ := normalize_slot h.nodup "rt_ref_frame" (by decide) h.frames
  obtain ⟨c1, c2, c3⟩ := normalize_slot h.nodup "rt_cam_ref" (by decide) h.cameras
  obtain ⟨n1, e1, o1, d1, s1⟩ := renamedWrite_ok "frames_rt_toref" "rt_ref_frame" (normalize d) (by decide) (hold _ (by decide)) p1
  obtain ⟨n2, e2, o2, d2, s2⟩ := renamedWrite_ok "extrinsics_rt_fromref" "rt_cam_ref" n1 (by decide)
    (by rw [o1 _ (by decide) (by decide)]; exact hold _ (by decide)) (by rw [o1 _ (by decide) (by decide)]; exact c1)
  refine ⟨n2, ?_, ?_, ?_, d2, ?_, ?_⟩
  · unfold serializeDict
    rw [e1]; exact e2
  · intro k h1 h2 h3
    simp only [oldNames, List.mem_cons, List.not_mem_nil, or_false, not_or] at h1
    rw [o2 k h1.2 h3, o1 k h1.1 h2]
  · rw [o2 _ (by decide) (by decide)]; exact d1
  · rw [o2 _ (by decide) (by decide)]
    rcases s1 with ⟨t, s, x, ha, hb⟩ | ⟨ha, hb⟩
    · exact Or.inr ⟨t, s, x, p3 t s x ha, hb⟩
    · exact Or.inl ⟨p2.2 ha, hb⟩
  · rw [o1 _ (by decide) (by decide)] at s2
    rcases s2 with ⟨t, s, x, ha, hb⟩ | ⟨ha, hb⟩
    · exact Or.inr ⟨t, s, x, c3 t s x ha, hb⟩
    · exact Or.inl ⟨c2.2 ha, hb⟩

theorem renamed_noop (src dst : String) (d : Dict) (h : d.get src = none) : renamed src dst false d = d := by
  unfold renamed
  rw [h]; simp

theorem renamed_get (src dst : String) (d : Dict) (hne : src ≠ dst) (hd : d.get dst = none) (k : String) :
    (renamed src dst true d).get k = if k = src then some (poison src dst) else if k = dst then d.get src else d.get k := by
  unfold renamed
  rw [hd]
  cases e : d.get src with
  | none =>
    simp only [if_true, get_set]
    by_cases h1 : k = src
    · simp [h1]
    · by_cases h2 : k = dst
      · simp [h2, hd, hne.symm]
      · simp [h1, h2]
  | some v =>
    simp only [if_true, get_set, get_del]
    by_cases h1 : k = src
    · simp [h1]
    · by_cases h2 : k = dst
      · simp [h2, hne.symm]
      · simp [h1, h2]

/-- what's read -/
theorem deserialize_get {s : Dict} (hl : ∀ k ∈ legacyNames, s.get k = none) (h1 : s.get "rt_ref_frame" = none) (h2 : s.get "rt_cam_ref" = none) (k : String) :
    (deserializeDict s).get k =
      if k = "frames_rt_toref" then some (poison "frames_rt_toref" "rt_ref_frame")
      else if k = "extrinsics_rt_fromref" then some (poison "extrinsics_rt_fromref" "rt_cam_ref")
      else if k = "rt_ref_frame" then (s.get "frames_rt_toref").map PyVal.loaded
      else if k = "rt_cam_ref" then
        if ((s.get "extrinsics_rt_fromref").map PyVal.loaded).getD .none = .none then some (.array "float64" [0, 6] [])
        else (s.get "extrinsics_rt_fromref").map PyVal.loaded
      else (s.get k).map PyVal.loaded := by
  unfold deserializeDict
  have hg : ∀ k, Dict.get (s.map fun p => (p.1, p.2.loaded)) k = (s.get k).map PyVal.loaded := fun k => get_map s PyVal.loaded k
  obtain ⟨m, hm⟩ : ∃ m : Dict, m = s.map fun p => (p.1, p.2.loaded) := ⟨_, rfl⟩
  have e0 : (s.map fun x : String × PyVal => match x with | (k, v) => (k, v.loaded)) = m := by rw [hm]
  simp only [e0]
  rw [← hm] at hg
  have hmem : ∀ k ∈ legacyNames, m.get k = none := fun k hk => by rw [hg, hl k hk]; rfl
  rw [renamed_noop _ _ m (hmem _ (by decide)), renamed_noop _ _ m (hmem _ (by decide))]
  have g1 := renamed_get "frames_rt_toref" "rt_ref_frame" m (by decide) (by rw [hg, h1]; rfl)
  obtain ⟨m1, hm1⟩ : ∃ m1, m1 = renamed "frames_rt_toref" "rt_ref_frame" true m := ⟨_, rfl⟩
  rw [← hm1] at g1 ⊢
  have g2 := renamed_get "extrinsics_rt_fromref" "rt_cam_ref" m1 (by decide) (by rw [g1]; simp [hg, h2])
  obtain ⟨m2, hm2⟩ : ∃ m2, m2 = renamed "extrinsics_rt_fromref" "rt_cam_ref" true m1 := ⟨_, rfl⟩
  rw [← hm2] at g2 ⊢
  have g3 : ∀ k, ((m2.del "calibration_object_width_n").del "calibration_object_height_n").get k = m2.get k := by
    intro k
    rw [get_del, get_del]
    by_cases ha : k = "calibration_object_height_n"
    · subst ha; simp [g2, g1, hmem "calibration_object_height_n" (by decide)]
    · by_cases hb : k = "calibration_object_width_n"
      · subst hb; simp [g2, g1, hmem "calibration_object_width_n" (by decide)]
      · simp [ha, hb]
  obtain ⟨m3, hm3⟩ : ∃ m3, m3 = (m2.del "calibration_object_width_n").del "calibration_object_height_n" := ⟨_, rfl⟩
  rw [← hm3] at g3 ⊢
  have g4 : m3.get "rt_cam_ref" = (s.get "extrinsics_rt_fromref").map PyVal.loaded := by
    rw [g3, g2, if_neg (by decide), if_pos rfl, g1, if_neg (by decide), if_neg (by decide), hg]
  rw [g4]
  have g5 : ∀ k, m3.get k = if k = "frames_rt_toref" then some (poison "frames_rt_toref" "rt_ref_frame")
      else if k = "extrinsics_rt_fromref" then some (poison "extrinsics_rt_fromref" "rt_cam_ref")
      else if k = "rt_ref_frame" then (s.get "frames_rt_toref").map PyVal.loaded
      else if k = "rt_cam_ref" then (s.get "extrinsics_rt_fromref").map PyVal.loaded
      else (s.get k).map PyVal.loaded := by
    intro k
    rw [g3, g2]
    by_cases a1 : k = "frames_rt_toref"
    · subst a1; rw [if_neg (by decide), if_neg (by decide), g1, if_pos rfl, if_pos rfl]
    by_cases a2 : k = "extrinsics_rt_fromref"
    · subst a2; rw [if_pos rfl, if_neg (by decide), if_pos rfl]
    by_cases a3 : k = "rt_ref_frame"
    · subst a3; rw [if_neg (by decide), if_neg (by decide), g1, if_neg (by decide), if_pos rfl, if_neg (by decide), if_neg (by decide), if_pos rfl, hg]
    by_cases a4 : k = "rt_cam_ref"
    · subst a4; rw [if_neg (by decide), if_pos rfl, g1, if_neg (by decide), if_neg (by decide), if_neg (by decide), if_neg (by decide), if_neg (by decide), if_pos rfl, hg]
    simp only [a1, a2, a3, a4, if_false, g1, hg]
  by_cases hc : ((s.get "extrinsics_rt_fromref").map PyVal.loaded).getD .none = .none
  · rw [if_pos hc, get_set, g5]
    by_cases a4 : k = "rt_cam_ref"
    · subst a4; simp [hc]
    · simp only [a4, if_false]
  · rw [if_neg hc, g5]
    simp only [hc, if_false]

/-! ### all values -/

def AllV (Q : PyVal → Prop) (d : Dict) : Prop := ∀ p ∈ d, Q p.2

theorem all_del {Q : PyVal → Prop} {d : Dict} (h : AllV Q d) (k : String) : AllV Q (d.del k) :=
  fun p hp => h p (List.mem_of_mem_filter hp)

theorem all_set {Q : PyVal → Prop} {d : Dict} (h : AllV Q d) (k : String) {v : PyVal} (hv : Q v) : AllV Q (d.set k v) := by
  intro p hp
  unfold Dict.set at hp
  rcases List.mem_append.1 hp with hp | hp
  · exact all_del h k p hp
  · rw [List.mem_singleton.1 hp]; exact hv

theorem all_getD {Q : PyVal → Prop} {d : Dict} (h : AllV Q d) (k : String) {v : PyVal} (hv : Q v) : Q ((d.get k).getD v) := by
  cases e : d.get k with
  | none => exact hv
  | some w => exact h _ (get_mem e)

theorem all_renamedWrite {Q : PyVal → Prop} (hQ : Q (.str "")) {src dst : String} {d d' : Dict} (h : AllV Q d) (he : renamedWriteOldName src dst d = some d') : AllV Q d' := by
  unfold renamedWriteOldName at he
  have hv := all_getD h dst hQ
  obtain ⟨v, hv'⟩ : ∃ v, v = (d.get dst).getD (.str "") := ⟨_, rfl⟩
  simp only [← hv'] at he hv
  have h1 : AllV Q (if isPoison (d.get src) = true then d.set src v else d) := by
    split_ifs
    · exact all_set h src hv
    · exact h
  obtain ⟨d1, hd1⟩ : ∃ d1, d1 = (if isPoison (d.get src) = true then d.set src v else d) := ⟨_, rfl⟩
  rw [← hd1] at he h1
  split_ifs at he
  · exact Option.some.inj he ▸ h1
  · exact Option.some.inj he ▸ all_del h1 dst
  · exact Option.some.inj he ▸ all_del (all_set h1 src hv) dst
  · exact Option.some.inj he ▸ all_del h1 dst

theorem nodup_renamedWrite {src dst : String} {d d' : Dict} (h : (d.map Prod.fst).Nodup) (he : renamedWriteOldName src dst d = some d') : (d'.map Prod.fst).Nodup := by
  unfold renamedWriteOldName at he
  obtain ⟨v, hv'⟩ : ∃ v, v = (d.get dst).getD (.str "") := ⟨_, rfl⟩
  simp only [← hv'] at he
  have h1 : ((if isPoison (d.get src) = true then d.set src v else d).map Prod.fst).Nodup := by
    split_ifs
    · exact nodup_set h src v
    · exact h
  obtain ⟨d1, hd1⟩ : ∃ d1, d1 = (if isPoison (d.get src) = true then d.set src v else d) := ⟨_, rfl⟩
  rw [← hd1] at he h1
  split_ifs at he
  · exact Option.some.inj he ▸ h1
  · exact Option.some.inj he ▸ nodup_del h1 dst
  · exact Option.some.inj he ▸ nodup_del (nodup_set h1 src v) dst
  · exact Option.some.inj he ▸ nodup_del h1 dst

theorem all_normalize {Q : PyVal → Prop} {d : Dict} (h : AllV (fun v => Q v.orEmpty) d) : AllV Q (normalize d) := by
  intro q hq
  unfold normalize at hq
  obtain ⟨⟨k, v⟩, hp, hpq⟩ := List.mem_filterMap.1 hq
  simp only at hpq
  split_ifs at hpq
  rw [← Option.some.inj hpq]
  exact h _ hp

theorem all_renamed {Q : PyVal → Prop} (src dst : String) (b : Bool) {d : Dict} (hQ : Q (poison src dst)) (h : AllV Q d) : AllV Q (renamed src dst b d) := by
  unfold renamed
  cases e : d.get src with
  | none =>
    simp only
    split_ifs
    · exact all_set h _ hQ
    · exact h
  | some v =>
    have hv : Q v := h _ (get_mem e)
    cases e' : d.get dst with
    | none =>
      simp only
      split_ifs
      · exact all_set (all_del (all_set h _ hv) _) _ hQ
      · exact all_del (all_set h _ hv) _
    | some w =>
      simp only
      split_ifs
      · exact all_set h _ hQ
      · exact h

theorem nodup_renamed (src dst : String) (b : Bool) {d : Dict} (h : (d.map Prod.fst).Nodup) : ((renamed src dst b d).map Prod.fst).Nodup := by
  unfold renamed
  cases e : d.get src with
  | none =>
    simp only
    split_ifs
    · exact nodup_set h _ _
    · exact h
  | some v =>
    cases e' : d.get dst with
    | none =>
      simp only
      split_ifs
      · exact nodup_set (nodup_del (nodup_set h _ _) _) _ _
      · exact nodup_del (nodup_set h _ _) _
    | some w =>
      simp only
      split_ifs
      · exact nodup_set h _ _
      · exact h

theorem nodup_deserialize {s : Dict} (h : (s.map Prod.fst).Nodup) : ((deserializeDict s).map Prod.fst).Nodup := by
  unfold deserializeDict
  have h0 : ((s.map fun x : String × PyVal => match x with | (k, v) => (k, v.loaded)).map Prod.fst).Nodup := by
    rw [List.map_map]; exact h
  have h5 := nodup_del (nodup_del (nodup_renamed "extrinsics_rt_fromref" "rt_cam_ref" true (nodup_renamed "frames_rt_toref" "rt_ref_frame" true
    (nodup_renamed "do_optimize_intrinsic_distortions" "do_optimize_intrinsics_distortions" false
    (nodup_renamed "do_optimize_intrinsic_core" "do_optimize_intrinsics_core" false h0)))) "calibration_object_width_n") "calibration_object_height_n"
  simp only
  split_ifs
  · exact nodup_set h5 _ _
  · exact h5

theorem all_deserialize {Q : PyVal → Prop} (hp : ∀ a b, Q (poison a b)) (hz : Q (.array "float64" [0, 6] [])) {s : Dict} (h : AllV (fun v => Q v.loaded) s) : AllV Q (deserializeDict s) := by
  unfold deserializeDict
  have h0 : AllV Q (s.map fun x : String × PyVal => match x with | (k, v) => (k, v.loaded)) := by
    intro p hp
    obtain ⟨q, hq, rfl⟩ := List.mem_map.1 hp
    exact h q hq
  have h5 := all_del (all_del (all_renamed "extrinsics_rt_fromref" "rt_cam_ref" true (hp _ _) (all_renamed "frames_rt_toref" "rt_ref_frame" true (hp _ _)
    (all_renamed "do_optimize_intrinsic_distortions" "do_optimize_intrinsics_distortions" false (hp _ _)
    (all_renamed "do_optimize_intrinsic_core" "do_optimize_intrinsics_core" false (hp _ _) h0)))) "calibration_object_width_n") "calibration_object_height_n"
  simp only
  split_ifs
  · exact all_set h5 _ hz
  · exact h5

theorem serialize_all {Q : PyVal → Prop} (hQ : Q (.str "")) {d s : Dict} (h : AllV (fun v => Q v.orEmpty) d) (he : serializeDict d = some s) : AllV Q s := by
  unfold serializeDict at he
  obtain ⟨n1, h1, h2⟩ := Option.bind_eq_some_iff.1 he
  exact all_renamedWrite hQ (all_renamedWrite hQ (all_normalize h) h1) h2

theorem serialize_nodup {d s : Dict} (h : (d.map Prod.fst).Nodup) (he : serializeDict d = some s) : (s.map Prod.fst).Nodup := by
  unfold serializeDict at he
  obtain ⟨n1, h1, h2⟩ := Option.bind_eq_some_iff.1 he
  exact nodup_renamedWrite (nodup_renamedWrite (nodup_normalize h) h1) h2

theorem poison_isPoison (a b : String) : isPoison (some (poison a b)) = true := by
  unfold isPoison poison
  simp only [String.toList_append]
  rw [show "ERROR: mrcal 2.5 renamed optimization_inputs fields: \"".toList = "ERROR:".toList ++ " mrcal 2.5 renamed optimization_inputs fields: \"".toList from by decide]
  simp [List.append_assoc]

/-! ### what a call stores -/

theorem call_stored {K T : Type} (C : Codec) (corr : Int → Dict → Option Int) (o : Obj K T) (a : Args K) (d : Dict) (ha : a.opt = some d)
    (hok : (intrinsicsCall C corr o a).2 = .ok) : ∃ s, serializeDict d = some s ∧ (intrinsicsCall C corr o a).1.opt = some (.bytes (C.enc s)) := by
  unfold intrinsicsCall at hok ⊢
  rw [ha] at hok ⊢
  simp only [reduceCtorEq, false_and, and_false, if_false] at hok ⊢
  by_cases hv : (!validateIntrinsics (a.imagersize.getD o.imagersize) a.intrinsics (some d) a.icamI a.icamE) = true
  · rw [if_pos hv] at hok; cases hok
  · rw [if_neg hv] at hok ⊢
    cases hi : a.intrinsics with
    | none => rw [hi] at hok; exact absurd hok (by simp)
    | some nv =>
      rw [hi] at hok
      simp only at hok ⊢
      cases hs : serializeDict d with
      | none => rw [hs] at hok; cases hok
      | some s =>
        rw [hs] at hok
        simp only at hok ⊢
        refine ⟨s, rfl, ?_⟩
        cases he : a.icamE with
        | some e => rfl
        | none =>
          rw [he] at hok
          simp only at hok ⊢
          cases hc : corr (a.icamI.getD 0) d with
          | none => rfl
          | some e => rfl

/-- **Specification**: None, False, 0, or an empty array -/
def Falsy : PyVal → Prop
  | .none => True
  | .bool b => b = false
  | .int i => i = 0
  | .float q => q = 0
  | .str s => s = ""
  | .array _ shape _ => 0 ∈ shape

theorem falsy_iff (v : PyVal) : Falsy v ↔ v.isDefault = true := by
  cases v <;> simp [Falsy, PyVal.isDefault, List.prod_eq_zero_iff]

instance (v : PyVal) : Decidable (Falsy v) := decidable_of_iff _ (falsy_iff v).symm

/-- **Specification**: what is returned for each argument. Exceptions: "verbose" is False; rt_cam_ref=None is an array without cameras; the old names contain an error message;
arguments that are at their default and that older versions didn't have are None -/
structure SameInputs (d d' : Dict) : Prop where
  same : ∀ k, k ∉ oldNames → k ∉ newKeys → k ≠ "verbose" → k ≠ "rt_cam_ref" → arg d' k = arg d k
  defaults : ∀ k ∈ newKeys, arg d' k = if Falsy (arg d k) then .none else arg d k
  verbose : arg d' "verbose" = .bool false
  cameras : arg d' "rt_cam_ref" = if arg d "rt_cam_ref" = .none then .array "float64" [0, 6] [] else arg d "rt_cam_ref"
  old : ∀ k ∈ oldNames, isPoison (d'.get k) = true

def toArg : Option PyVal → PyVal
  | some v => if v = .str "" then .none else v
  | none => .none

theorem arg_of_get {d : Dict} {k : String} {v : Option PyVal} (h : d.get k = v) : arg d k = toArg v := by
  rw [← h]; rfl

theorem inputs_core {d : Dict} (hd : Current d) : ∃ s, serializeDict d = some s ∧ (∀ p ∈ s, p.2 ≠ .none) ∧
    SameInputs d ((deserializeDict s).set "verbose" (.bool false)) ∧ Current ((deserializeDict s).set "verbose" (.bool false)) := by
  obtain ⟨s, hs, ho, h1, h2, hf, hc⟩ := serialize_ok hd
  have hnone : ∀ p ∈ s, p.2 ≠ .none := by
    refine serialize_all (Q := fun v => v ≠ .none) (by simp) ?_ hs
    intro p _
    cases p.2 <;> simp [PyVal.orEmpty]
  have hst : AllV Storable s := by
    refine serialize_all (Q := Storable) (by simp [Storable]) ?_ hs
    intro p hp
    have := hd.storable p hp
    cases e : p.2 <;> simp_all [PyVal.orEmpty, Storable]
  have hleg : ∀ k ∈ legacyNames, s.get k = none := by
    intro k hk
    have hk' : k ∉ oldNames ∧ k ≠ "rt_ref_frame" ∧ k ≠ "rt_cam_ref" := by
      simp only [legacyNames, List.mem_cons, List.not_mem_nil, or_false] at hk
      rcases hk with rfl | rfl | rfl | rfl <;> decide
    rw [ho k hk'.1 hk'.2.1 hk'.2.2, get_normalize hd.nodup, hd.legacy k hk]
  have hg := deserialize_get hleg h1 h2
  obtain ⟨m, hm⟩ : ∃ m, m = deserializeDict s := ⟨_, rfl⟩
  rw [← hm] at hg
  have hframes : arg (m.set "verbose" (.bool false)) "rt_ref_frame" = arg d "rt_ref_frame" := by
    have hgf : (m.set "verbose" (.bool false)).get "rt_ref_frame" = (s.get "frames_rt_toref").map PyVal.loaded := by
      rw [get_set, if_neg (by decide), hg, if_neg (by decide), if_neg (by decide), if_pos rfl]
    rw [arg_of_get hgf]
    rcases hf with ⟨e1, e2 | e2⟩ | ⟨t, sh, x, e1, e2⟩
    · rw [e1, e2]; rfl
    · rw [e1, e2]; simp [PyVal.loaded, toArg]
    · have hsh : Storable (.array t sh x) := hst _ (get_mem e2)
      rw [e1, e2]
      cases sh with
      | nil => exact absurd hsh (by simp [Storable])
      | cons a b => simp [PyVal.loaded, toArg]
  have hcams : arg (m.set "verbose" (.bool false)) "rt_cam_ref" = if arg d "rt_cam_ref" = .none then .array "float64" [0, 6] [] else arg d "rt_cam_ref" := by
    have hgf : (m.set "verbose" (.bool false)).get "rt_cam_ref" = if ((s.get "extrinsics_rt_fromref").map PyVal.loaded).getD .none = .none then some (.array "float64" [0, 6] [])
        else (s.get "extrinsics_rt_fromref").map PyVal.loaded := by
      rw [get_set, if_neg (by decide), hg, if_neg (by decide), if_neg (by decide), if_neg (by decide), if_pos rfl]
    rw [arg_of_get hgf]
    rcases hc with ⟨e1, e2 | e2⟩ | ⟨t, sh, x, e1, e2⟩
    · rw [e1, e2]; simp [toArg]
    · rw [e1, e2]; simp [PyVal.loaded, toArg]
    · have hsh : Storable (.array t sh x) := hst _ (get_mem e2)
      rw [e1, e2]
      cases sh with
      | nil => exact absurd hsh (by simp [Storable])
      | cons a b => simp [PyVal.loaded, toArg]
  have hother : ∀ k, k ∉ oldNames → k ≠ "verbose" → k ≠ "rt_cam_ref" → k ≠ "rt_ref_frame" →
      (m.set "verbose" (.bool false)).get k = ((normalize d).get k).map PyVal.loaded := by
    intro k k1 k2 k3 k4
    have k1' := k1
    simp only [oldNames, List.mem_cons, List.not_mem_nil, or_false, not_or] at k1'
    rw [get_set, if_neg k2, hg, if_neg k1'.1, if_neg k1'.2, if_neg k4, if_neg k3, ho k k1 k4 k3]
  have hold : ∀ k ∈ oldNames, isPoison ((m.set "verbose" (.bool false)).get k) = true := by
    intro k hk
    simp only [oldNames, List.mem_cons, List.not_mem_nil, or_false] at hk
    rcases hk with rfl | rfl
    · rw [get_set, if_neg (by decide), hg, if_pos rfl]; exact poison_isPoison _ _
    · rw [get_set, if_neg (by decide), hg, if_neg (by decide), if_pos rfl]; exact poison_isPoison _ _
  refine ⟨s, hs, hnone, ?_, ?_⟩
  · rw [← hm]
    constructor
    · intro k k1 k2 k3 k4
      by_cases k5 : k = "rt_ref_frame"
      · subst k5; exact hframes
      rw [arg_of_get (hother k k1 k3 k4 k5), get_normalize hd.nodup]
      unfold arg
      cases e : d.get k with
      | none => rfl
      | some v =>
        simp only [k2, false_and, if_false, Option.map_some]
        rw [loaded_orEmpty (hd.storable _ (get_mem e))]
        by_cases hv : v = .str "" <;> simp [hv, toArg]
    · intro k hk
      have hk' : k ∉ oldNames ∧ k ≠ "verbose" ∧ k ≠ "rt_cam_ref" ∧ k ≠ "rt_ref_frame" := by
        simp only [newKeys, List.mem_cons, List.not_mem_nil, or_false] at hk
        rcases hk with rfl | rfl | rfl <;> decide
      rw [arg_of_get (hother k hk'.1 hk'.2.1 hk'.2.2.1 hk'.2.2.2), get_normalize hd.nodup]
      unfold arg
      cases e : d.get k with
      | none => simp [toArg, Falsy]
      | some v =>
        simp only [hk, true_and]
        by_cases hv : v.orEmpty.isDefault = true
        · simp only [if_pos hv, Option.map_none, toArg]
          rw [if_pos]
          rw [falsy_iff]
          by_cases hv' : v = .str ""
          · simp [hv', PyVal.isDefault]
          · rw [if_neg hv']
            cases v <;> simp_all [PyVal.orEmpty, PyVal.isDefault]
        · simp only [if_neg hv, Option.map_some, toArg]
          rw [loaded_orEmpty (hd.storable _ (get_mem e))]
          have hv' : v ≠ .str "" := by intro e; apply hv; simp [e, PyVal.orEmpty, PyVal.isDefault]
          have hv2 : ¬ Falsy v := by
            rw [falsy_iff]
            cases v <;> simp_all [PyVal.orEmpty, PyVal.isDefault]
          simp only [if_neg hv', if_neg hv2]
    · rw [arg_of_get (get_set m "verbose" "verbose" (.bool false))]; simp [toArg]
    · exact hcams
    · exact hold
  · rw [← hm]
    constructor
    · rw [hm]; exact nodup_set (nodup_deserialize (serialize_nodup hd.nodup hs)) _ _
    · rw [hm]
      refine all_set (Q := Storable) (all_deserialize (by intro a b; simp [poison, Storable]) (by simp [Storable]) ?_) _ (by simp [Storable])
      intro p hp
      have := hst p hp
      cases e : p.2 with
      | array t sh x =>
        rw [e] at this
        cases sh with
        | nil => exact absurd this (by simp [Storable])
        | cons a b => simp [PyVal.loaded, Storable]
      | str x => by_cases hx : x = "" <;> simp [PyVal.loaded, Storable, hx]
      | none => simp [PyVal.loaded, Storable]
      | bool b => simp [PyVal.loaded, Storable]
      | int b => simp [PyVal.loaded, Storable]
      | float b => simp [PyVal.loaded, Storable]
    · intro k hk; exact Or.inr (hold k hk)
    · intro k hk
      have hk' : k ∉ oldNames ∧ k ≠ "verbose" ∧ k ≠ "rt_cam_ref" ∧ k ≠ "rt_ref_frame" := by
        simp only [legacyNames, List.mem_cons, List.not_mem_nil, or_false] at hk
        rcases hk with rfl | rfl | rfl | rfl <;> decide
      rw [hother k hk'.1 hk'.2.1 hk'.2.2.1 hk'.2.2.2, get_normalize hd.nodup, hd.legacy k hk]; rfl
    · rw [hframes]; exact hd.frames
    · rw [hcams]
      split_ifs
      · trivial
      · exact hd.cameras

/-- **C85.** The optimization inputs given to intrinsics() are what optimization_inputs() returns, argument by argument. What is returned can be given to intrinsics() again -/
theorem inputs_roundtrip {K T : Type} {C : Codec} (hC : CodecOk C) (corr : Int → Dict → Option Int) (o : Obj K T) (a : Args K) (d : Dict) (ha : a.opt = some d) (hd : Current d)
    (hok : (intrinsicsCall C corr o a).2 = .ok) :
    ∃ d', optimizationInputs C (intrinsicsCall C corr o a).1 = some (some d') ∧ SameInputs d d' ∧ Current d' := by
  obtain ⟨s, hs, hn, hsame, hcur⟩ := inputs_core hd
  obtain ⟨s', hs', ho⟩ := call_stored C corr o a d ha hok
  rw [hs] at hs'
  rw [← Option.some.inj hs'] at ho
  refine ⟨_, ?_, hsame, hcur⟩
  unfold optimizationInputs
  rw [ho]
  simp only [hC.dec_enc s hn, Option.map_some]

/-- storing what was returned changes nothing more: each argument is the same after any number of repetitions -/
theorem inputs_stable {K T : Type} {C : Codec} (hC : CodecOk C) (corr : Int → Dict → Option Int) (o o' : Obj K T) (a a' : Args K) (d d' : Dict) (ha : a.opt = some d) (hd : Current d)
    (hok : (intrinsicsCall C corr o a).2 = .ok) (hg : optimizationInputs C (intrinsicsCall C corr o a).1 = some (some d')) (ha' : a'.opt = some d')
    (hok' : (intrinsicsCall C corr o' a').2 = .ok) :
    ∃ d'', optimizationInputs C (intrinsicsCall C corr o' a').1 = some (some d'') ∧ ∀ k, k ∉ oldNames → arg d'' k = arg d' k := by
  obtain ⟨e, he, hs, hc⟩ := inputs_roundtrip hC corr o a d ha hd hok
  rw [hg] at he
  have he' : d' = e := by simpa using he
  subst he'
  obtain ⟨d'', he'', hs', hc'⟩ := inputs_roundtrip hC corr o' a' d' ha' hc hok'
  refine ⟨d'', he'', fun k hk => ?_⟩
  by_cases k1 : k = "verbose"
  · subst k1; rw [hs'.verbose, hs.verbose]
  by_cases k2 : k = "rt_cam_ref"
  · subst k2
    rw [hs'.cameras]
    have : arg d' "rt_cam_ref" ≠ .none := by
      rw [hs.cameras]
      split_ifs with h
      · simp
      · exact h
    rw [if_neg this]
  by_cases k3 : k ∈ newKeys
  · rw [hs'.defaults k k3, hs.defaults k k3]
    by_cases hf : Falsy (arg d k)
    · simp [hf]
    · simp [hf]
  · exact hs'.same k hk k3 k1 k2

/-! ### a codec -/

instance : Encodable Char := Encodable.ofLeftInverse Char.toNat Char.ofNat Char.ofNat_toNat
instance : Encodable String := Encodable.ofLeftInverse String.toList String.ofList (fun _ => String.ofList_toList)
deriving instance Encodable for PyVal
@[instance_reducible] noncomputable def exEnc : Encodable Dict := inferInstance

/-- an injection into the numbers, written with one digit -/
noncomputable def exCodec : Codec where
  enc d := List.replicate (@Encodable.encode _ exEnc d) '0'
  dec s := if ∀ c ∈ s, c ∈ b85 then @Encodable.decode _ exEnc s.length else none

theorem exCodec_ok : CodecOk exCodec where
  dec_enc d _ := by
    unfold exCodec
    simp only [List.length_replicate, Encodable.encodek]
    rw [if_pos]
    intro c hc
    rw [List.eq_of_mem_replicate hc]; decide
  chars d c hc := by rw [List.eq_of_mem_replicate hc]; decide
  bad s c h1 h2 := by
    unfold exCodec
    simp only
    rw [if_neg]
    intro h
    exact h2 (h c h1)

/-- a call with valid arguments succeeds if the inputs can be stored -/
theorem call_succeeds {K T : Type} (C : Codec) (corr : Int → Dict → Option Int) (o : Obj K T) (a : Args K) (d : Dict) (ha : a.opt = some d) (hd : Current d)
    (hv : validateIntrinsics (a.imagersize.getD o.imagersize) a.intrinsics (some d) a.icamI a.icamE = true)
    (he : a.icamE ≠ none ∨ corr (a.icamI.getD 0) d ≠ none) : (intrinsicsCall C corr o a).2 = .ok := by
  obtain ⟨s, hs, -⟩ := serialize_ok hd
  have hi : ∃ nv, a.intrinsics = some nv := by
    cases h : a.intrinsics with
    | none => rw [h] at hv; unfold validateIntrinsics at hv; simp at hv
    | some nv => exact ⟨nv, rfl⟩
  obtain ⟨nv, hi⟩ := hi
  rw [hi] at hv
  unfold intrinsicsCall
  rw [ha]
  simp only [reduceCtorEq, false_and, and_false, if_false, hv, Bool.not_true, Bool.false_eq_true, hi, hs]
  cases h : a.icamE with
  | some e => rfl
  | none =>
    rw [h] at he
    cases h' : corr (a.icamI.getD 0) d with
    | none => simp [h'] at he
    | some e => simp only

/-! ### the hypotheses can be met -/

/-- a calibration of one camera at the reference -/
def exInputs : Dict :=
  [("lensmodel", .str "LENSMODEL_PINHOLE"), ("intrinsics", .array "float64" [1, 4] [1000, 1000, 320, 240]), ("imagersizes", .array "int32" [1, 2] [640, 480]),
   ("rt_ref_frame", .array "float64" [1, 6] [0, 0, 0, 0, 0, 5]), ("rt_cam_ref", .none), ("do_apply_regularization_unity_cam01", .bool false), ("verbose", .bool true)]

theorem exInputs_current : Current exInputs where
  nodup := by decide
  storable := by intro p hp; simp only [exInputs, List.mem_cons, List.not_mem_nil, or_false] at hp; rcases hp with rfl | rfl | rfl | rfl | rfl | rfl | rfl <;> trivial
  old := by intro k hk; left; simp only [oldNames, List.mem_cons, List.not_mem_nil, or_false] at hk; rcases hk with rfl | rfl <;> rfl
  legacy := by intro k hk; simp only [legacyNames, List.mem_cons, List.not_mem_nil, or_false] at hk; rcases hk with rfl | rfl | rfl | rfl <;> rfl
  frames := trivial
  cameras := trivial

/-- setting the intrinsics to those of the calibration -/
def exCall : Args ℚ := ⟨some ("LENSMODEL_PINHOLE".toList, [1000, 1000, 320, 240]), some (640, 480), some exInputs, some 0, some (-1)⟩

theorem numParams_pinhole : numParams "LENSMODEL_PINHOLE".toList = some 4 := by decide

theorem exValid (d : Dict) : validateIntrinsics (640, 480) (some ("LENSMODEL_PINHOLE".toList, [(1000 : ℚ), 1000, 320, 240])) (some d) (some 0) (some (-1)) = true := by
  unfold validateIntrinsics
  simp only [numParams_pinhole]
  decide

theorem exCall_ok (C : Codec) (corr : Int → Dict → Option Int) (o : Obj ℚ Unit) : (intrinsicsCall C corr o exCall).2 = .ok :=
  call_succeeds C corr o exCall exInputs rfl exInputs_current (exValid _) (Or.inl (by simp [exCall]))

example (o : Obj ℚ Unit) : ∃ d', optimizationInputs exCodec (intrinsicsCall exCodec (fun _ _ => none) o exCall).1 = some (some d') ∧ SameInputs exInputs d' ∧ Current d' :=
  inputs_roundtrip exCodec_ok _ o exCall exInputs rfl exInputs_current (exCall_ok _ _ o)

/-- so the frames come back, the default argument doesn't, and the cameras are an empty array -/
example (o : Obj ℚ Unit) : ∃ d', optimizationInputs exCodec (intrinsicsCall exCodec (fun _ _ => none) o exCall).1 = some (some d') ∧
    arg d' "rt_ref_frame" = .array "float64" [1, 6] [0, 0, 0, 0, 0, 5] ∧ arg d' "rt_cam_ref" = .array "float64" [0, 6] [] ∧
    arg d' "do_apply_regularization_unity_cam01" = .none := by
  obtain ⟨d', h, hs, -⟩ := inputs_roundtrip exCodec_ok (fun _ _ => none) o exCall exInputs rfl exInputs_current (exCall_ok _ _ o)
  refine ⟨d', h, ?_, ?_, ?_⟩
  · rw [hs.same _ (by decide) (by decide) (by decide) (by decide)]; rfl
  · rw [hs.cameras]; rfl
  · rw [hs.defaults _ (by decide)]; rfl

/-- and what came back can be stored again -/
example (o o' : Obj ℚ Unit) (d' : Dict) (hg : optimizationInputs exCodec (intrinsicsCall exCodec (fun _ _ => none) o exCall).1 = some (some d')) :
    ∃ d'', optimizationInputs exCodec (intrinsicsCall exCodec (fun _ _ => none) o' { exCall with opt := some d' }).1 = some (some d'') ∧ ∀ k, k ∉ oldNames → arg d'' k = arg d' k := by
  refine inputs_stable exCodec_ok _ o o' exCall _ exInputs d' rfl exInputs_current (exCall_ok _ _ o) hg rfl ?_
  obtain ⟨e, he, hs, hc⟩ := inputs_roundtrip exCodec_ok (fun _ _ => none) o exCall exInputs rfl exInputs_current (exCall_ok _ _ o)
  rw [hg] at he
  have he' : d' = e := by simpa using he
  subst he'
  exact call_succeeds _ _ _ _ d' rfl hc (exValid _) (Or.inl (by simp [exCall]))

/-! ### without the hypotheses -/

/-- **Deviation.** The names of older versions are accepted by mrcal.optimize(), and are meant to be accepted here. But if the new name is also present, as None, then the poses are lost: None is returned -/
theorem old_name_wrong {C : Codec} (hC : CodecOk C) (X : PyVal) (hX : X = .array "float64" [1, 6] [0, 0, 0, 0, 0, 5]) :
    ∃ d s, Dict.get d "frames_rt_toref" = some X ∧ Dict.get d "rt_ref_frame" = some .none ∧ serializeDict d = some s ∧ ∃ d', C.dec (C.enc s) = some d' ∧
      arg (deserializeDict d') "rt_ref_frame" = .none ∧ isPoison ((deserializeDict d').get "frames_rt_toref") = true := by
  subst hX
  refine ⟨[("frames_rt_toref", .array "float64" [1, 6] [0, 0, 0, 0, 0, 5]), ("rt_ref_frame", .none)], [("frames_rt_toref", .array "float64" [1, 6] [0, 0, 0, 0, 0, 5]), ("rt_ref_frame", .str "")], rfl, rfl, by decide +kernel, _, hC.dec_enc _ ?_, by decide +kernel, by decide +kernel⟩
  intro p hp
  simp only [List.mem_cons, List.not_mem_nil, or_false] at hp
  rcases hp with rfl | rfl <;> simp

end Mrcal.CamModel
