import Verif.Model.CameraModel
import Mathlib.Data.List.Nodup
/-
C85: the optimization inputs that are stored in a model are the ones that are returned.
-/
namespace Mrcal.CamModel

/-! ### specification -/

/-- the characters of base-85 text: what base64.b85encode() writes -/
def b85 : List Char := "0123456789ABCDEFGHIJKLMNOPQRSTUVWXYZabcdefghijklmnopqrstuvwxyz!#$%&()*+-;<=>?@^_`{|}~".toList

/-- **Specification** of the encoder: it is lossless, writes these characters only, and any other character is an error when reading. Unsupported by numpy without pickling: None -/
structure CodecOk (C : Codec) : Prop where
  dec_enc : ∀ d : Dict, (∀ p ∈ d, p.2 ≠ .none) → C.dec (C.enc d) = some d
  chars : ∀ d, ∀ c ∈ C.enc d, c ∈ b85
  bad : ∀ s c, c ∈ s → c ∉ b85 → C.dec s = none

/-- **Specification**: what mrcal.optimize(**d) receives in this argument: None if it's not given. '' is how None is stored -/
def arg (d : Dict) (k : String) : PyVal :=
  match d.get k with
  | some v => if v = .str "" then .none else v
  | none => .none

/-- the values that can be stored: numbers, booleans, strings and arrays that have a dimension -/
def Storable : PyVal → Prop
  | .array _ [] _ => False
  | _ => True

/-- the names used by mrcal < 2.5 -/
def oldNames : List String := ["frames_rt_toref", "extrinsics_rt_fromref"]
/-- the names used by even older versions -/
def legacyNames : List String := ["do_optimize_intrinsic_core", "do_optimize_intrinsic_distortions", "calibration_object_width_n", "calibration_object_height_n"]

/-- a value for a pose array: None or an array -/
def IsPoses : PyVal → Prop
  | .none => True
  | .array .. => True
  | _ => False

/-- **Specification**: arguments of mrcal.optimize() as users of this version have them: the old names are missing, or contain the error message that
optimization_inputs() puts there -/
structure Current (d : Dict) : Prop where
  nodup : (d.map Prod.fst).Nodup
  storable : ∀ p ∈ d, Storable p.2
  old : ∀ k ∈ oldNames, d.get k = none ∨ isPoison (d.get k) = true
  legacy : ∀ k ∈ legacyNames, d.get k = none
  frames : IsPoses (arg d "rt_ref_frame")
  cameras : IsPoses (arg d "rt_cam_ref")

/-! ### dictionaries -/

theorem get_del (d : Dict) (k j : String) : (d.del k).get j = if j = k then none else d.get j := by
  unfold Dict.del Dict.get
  induction d with
  | nil => simp
  | cons p d ih =>
    by_cases h1 : p.1 = k <;> by_cases h2 : p.1 = j <;> by_cases h3 : j = k <;> simp_all

theorem get_append (d e : Dict) (k : String) : Dict.get (d ++ e) k = (d.get k).or (e.get k) := by
  unfold Dict.get
  rw [List.find?_append]
  cases h : List.find? (fun p => decide (p.1 = k)) d <;> simp

theorem get_set (d : Dict) (k j : String) (v : PyVal) : (d.set k v).get j = if j = k then some v else d.get j := by
  unfold Dict.set
  rw [get_append, get_del]
  by_cases h : j = k
  · subst h; simp [Dict.get]
  · rw [if_neg h, if_neg h]
    have : Dict.get [(k, v)] j = none := by simp [Dict.get, Ne.symm h]
    rw [this]; simp

theorem get_map (d : Dict) (f : PyVal → PyVal) (k : String) : Dict.get (d.map fun p => (p.1, f p.2)) k = (d.get k).map f := by
  unfold Dict.get
  induction d with
  | nil => rfl
  | cons p d ih => by_cases h : p.1 = k <;> simp_all

theorem get_none_of_not_mem {d : Dict} {k : String} (h : k ∉ d.map Prod.fst) : d.get k = none := by
  unfold Dict.get
  rw [Option.map_eq_none_iff, List.find?_eq_none]
  intro p hp
  have : p.1 ≠ k := fun e => h (e ▸ List.mem_map_of_mem hp)
  simpa using this

theorem get_mem {d : Dict} {k : String} {v : PyVal} (h : d.get k = some v) : (k, v) ∈ d := by
  unfold Dict.get at h
  obtain ⟨p, hp, rfl⟩ := Option.map_eq_some_iff.1 h
  have h1 := List.mem_of_find?_eq_some hp
  have h2 := List.find?_some hp
  simp only [decide_eq_true_eq] at h2
  rw [← h2]; exact h1

theorem normalize_cons (j : String) (v : PyVal) (d : Dict) :
    normalize ((j, v) :: d) = (if j ∈ newKeys ∧ v.orEmpty.isDefault = true then [] else [(j, v.orEmpty)]) ++ normalize d := by
  unfold normalize
  by_cases h : j ∈ newKeys ∧ v.orEmpty.isDefault = true
  · rw [List.filterMap_cons_none (by simp only [if_pos h]), if_pos h, List.nil_append]
  · rw [List.filterMap_cons_some (b := (j, v.orEmpty)) (by simp only [if_neg h]), if_neg h, List.singleton_append]

theorem get_normalize {d : Dict} (hn : (d.map Prod.fst).Nodup) (k : String) :
    (normalize d).get k = match d.get k with
      | some v => if k ∈ newKeys ∧ v.orEmpty.isDefault = true then none else some v.orEmpty
      | none => none := by
  induction d with
  | nil => rfl
  | cons p d ih =>
    obtain ⟨j, v⟩ := p
    simp only [List.map_cons, List.nodup_cons] at hn
    have e := normalize_cons j v d
    rw [e, get_append]
    by_cases hj : j = k
    · subst hj
      have h0 : Dict.get ((j, v) :: d) j = some v := by simp [Dict.get]
      have h1 : (normalize d).get j = none := by rw [ih hn.2, get_none_of_not_mem hn.1]
      rw [h0, h1]
      split_ifs with h
      · simp_all [Dict.get]
      · simp_all [Dict.get]
    · have h0 : Dict.get ((j, v) :: d) k = Dict.get d k := by simp [Dict.get, hj]
      rw [h0, ← ih hn.2]
      split_ifs <;> simp [Dict.get, hj]

theorem nodup_del {d : Dict} (hn : (d.map Prod.fst).Nodup) (k : String) : ((d.del k).map Prod.fst).Nodup :=
  hn.sublist ((List.filter_sublist (l := d)).map Prod.fst)

theorem not_mem_del (d : Dict) (k : String) : k ∉ (d.del k).map Prod.fst := by
  simp [Dict.del]

theorem nodup_set {d : Dict} (hn : (d.map Prod.fst).Nodup) (k : String) (v : PyVal) : ((d.set k v).map Prod.fst).Nodup := by
  unfold Dict.set
  rw [List.map_append, List.nodup_append]
  refine ⟨nodup_del hn k, by simp, ?_⟩
  intro a ha b hb e
  subst e
  simp only [List.map_cons, List.map_nil, List.mem_singleton] at hb
  subst hb
  exact not_mem_del d _ ha

theorem nodup_normalize {d : Dict} (hn : (d.map Prod.fst).Nodup) : ((normalize d).map Prod.fst).Nodup := by
  induction d with
  | nil => simp [normalize]
  | cons p d ih =>
    obtain ⟨j, v⟩ := p
    simp only [List.map_cons, List.nodup_cons] at hn
    have e := normalize_cons j v d
    rw [e]
    split_ifs with h
    · simpa using ih hn.2
    · simp only [List.singleton_append, List.map_cons, List.nodup_cons]
      refine ⟨?_, ih hn.2⟩
      intro hm
      obtain ⟨q, hq, hqj⟩ := List.mem_map.1 hm
      unfold normalize at hq
      obtain ⟨p', hp', hpq⟩ := List.mem_filterMap.1 hq
      obtain ⟨k', v'⟩ := p'
      simp only at hpq
      split_ifs at hpq
      have : q = (k', v'.orEmpty) := (Option.some.inj hpq).symm
      subst this
      simp only at hqj
      subst hqj
      exact hn.1 (List.mem_map_of_mem hp')

end Mrcal.CamModel
