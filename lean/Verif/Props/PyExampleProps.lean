import Verif.Props.PyCProps
/-
C86, C87: concrete models, and files that don't do what we expect.
-/
namespace Mrcal.ModelPy
open Mrcal.Name Mrcal.CamModel Mrcal.ModelFile

/-- an OPENCV4 camera with a valid-intrinsics region and with optimization inputs -/
def exObj : Obj ℚ (List ℚ) :=
  ⟨(4000, 2200), "LENSMODEL_OPENCV4".toList, [1761181055 / 1000000, 1761250444 / 1000000, 1965706996 / 1000000, 1087518797 / 1000000, -12 / 1000, 35 / 1000, 1 / 3, 7 / 1000000000],
    some [(100, 100), (3900, 100), (3900, 2100), (100, 100)], [1 / 10, -2 / 10, 3 / 10, 1, 2, 3], some (.bytes "abc#$".toList), some 1, some (-1)⟩

theorem ex_small (v : ℚ) (h : |v| ≤ 10 ^ 4 := by norm_num) : Small v := by
  unfold Small
  refine le_trans h ?_
  norm_num

theorem ex_writable : PyWritable ["generated on 2020-01-01".toList, "".toList] exObj (some ⟨"abc#$".toList, 1, some (-1)⟩) where
  count := by decide +kernel
  name := by
    intro c hc
    rw [← printableB_iff]; revert c; decide
  name' := by exact noDI_infix _ ' ' (by decide)
  size := by decide
  rt := by decide
  intrinsics := by
    intro v hv
    simp only [exObj, List.mem_cons, List.not_mem_nil, or_false] at hv
    rcases hv with rfl | rfl | rfl | rfl | rfl | rfl | rfl | rfl <;> exact ex_small _ (by norm_num [abs_of_pos, abs_of_neg])
  pose := by
    intro v hv
    simp only [exObj, List.mem_cons, List.not_mem_nil, or_false] at hv
    rcases hv with rfl | rfl | rfl | rfl | rfl | rfl <;> exact ex_small _ (by norm_num [abs_of_pos, abs_of_neg])
  region := by
    intro r hr
    obtain rfl := Option.some.inj hr
    refine ⟨Or.inr ⟨by decide, by decide⟩, ?_⟩
    intro p hp
    simp only [List.mem_cons, List.not_mem_nil, or_false] at hp
    rcases hp with rfl | rfl | rfl | rfl <;> exact ⟨ex_small _, ex_small _⟩
  opt := ⟨Or.inl rfl, rfl, rfl⟩
  optIn := by
    intro j hj
    obtain rfl := Option.some.inj hj
    refine ⟨?_, by decide, by decide, ?_⟩
    · intro c hc
      rw [← printableB_iff]; revert c; decide
    · intro e he
      obtain rfl := Option.some.inj he
      decide
  note := by
    intro l hl c hc
    simp only [List.mem_cons, List.not_mem_nil, or_false] at hl
    rcases hl with rfl | rfl
    · revert c; decide
    · simp at hc

/-- C86 applies to this -/
example : ∃ text o', write ["generated on 2020-01-01".toList, "".toList] exObj = some text ∧ read text = some o' ∧ PyReadBack exObj o' (some ⟨"abc#$".toList, 1, some (-1)⟩) :=
  write_read _ _ _ ex_writable

/-- C87 applies to this -/
example : ∃ text o' m, write ["generated on 2020-01-01".toList, "".toList] exObj = some text ∧ read text = some o' ∧ readCameramodelString text = some m ∧ Agree m o' :=
  c_reads_python _ _ _ ex_writable (by
    intro r hr
    obtain rfl := Option.some.inj hr
    intro p hp
    simp only [List.mem_cons, List.not_mem_nil, or_false] at hp
    rcases hp with rfl | rfl | rfl | rfl <;> norm_num)

/-- a model whose numbers have few digits -/
def exShort : Obj ℚ (List ℚ) := ⟨(640, 480), "LENSMODEL_PINHOLE".toList, [5005 / 10, 500, 3195 / 10, 2395 / 10], none, [0, 0, 1 / 1000, -1, 0, 0], none, none, none⟩

example : ∃ text, write [] exShort = some text ∧ read text = some exShort := by
  refine write_read_exact [] exShort none ⟨by decide +kernel, ?_, noDI_infix _ ' ' (by decide), by decide, by decide, ?_, ?_, by intro r hr; simp [exShort] at hr, ⟨rfl, rfl, rfl⟩, by simp, by simp⟩ ?_ ?_
    (by intro r hr; simp [exShort] at hr) (by intro s; simp [exShort])
  · intro c hc
    rw [← printableB_iff]; revert c; decide
  · intro v hv
    simp only [exShort, List.mem_cons, List.not_mem_nil, or_false] at hv
    rcases hv with rfl | rfl | rfl | rfl <;> exact ex_small _ (by norm_num [abs_of_pos])
  · intro v hv
    simp only [exShort, List.mem_cons, List.not_mem_nil, or_false] at hv
    rcases hv with rfl | rfl | rfl | rfl | rfl | rfl <;> exact ex_small _ (by norm_num [abs_of_pos])
  · intro v hv
    simp only [exShort, List.mem_cons, List.not_mem_nil, or_false] at hv
    rcases hv with rfl | rfl | rfl | rfl
    exacts [⟨5005, -1, by norm_num, by norm_num⟩, ⟨500, 0, by norm_num, by norm_num⟩, ⟨3195, -1, by norm_num, by norm_num⟩, ⟨2395, -1, by norm_num, by norm_num⟩]
  · intro v hv
    simp only [exShort, List.mem_cons, List.not_mem_nil, or_false] at hv
    rcases hv with rfl | rfl | rfl | rfl | rfl | rfl
    exacts [⟨0, 0, by norm_num, by norm_num⟩, ⟨0, 0, by norm_num, by norm_num⟩, ⟨1, -3, by norm_num, by norm_num⟩, ⟨-1, 0, by norm_num, by norm_num⟩, ⟨0, 0, by norm_num, by norm_num⟩, ⟨0, 0, by norm_num, by norm_num⟩]

/-- a C model -/
def exC : Model := ⟨.splined 3 4 3 120, [1000, 1000, 500, 400] ++ List.replicate 24 (1 / 3), [1 / 10, -2 / 10, 3 / 10, 1, 2, 3], (1000, 800)⟩

example : ∃ text m' o', writeModel exC = some text ∧ readCameramodelString text = some m' ∧ ReadBack exC m' ∧ read text = some o' ∧ Agree m' o' ∧ o'.region = none ∧ o'.opt = none := by
  have hf : ∀ v : ℚ, |v| ≤ 10000 → Finite v := fun v hv => le_trans hv (by decide +kernel)
  refine python_reads_c exC ⟨by unfold exC LensFits; decide, by decide, ?_, by decide, ?_, by decide⟩ (by decide)
  · intro v hv
    apply hf
    simp only [exC, List.mem_append, List.mem_cons, List.not_mem_nil, or_false, List.mem_replicate] at hv
    rcases hv with (rfl | rfl | rfl | rfl) | ⟨-, rfl⟩ <;> norm_num [abs_of_pos]
  · intro v hv
    apply hf
    simp only [exC, List.mem_cons, List.not_mem_nil, or_false] at hv
    rcases hv with rfl | rfl | rfl | rfl | rfl | rfl <;> norm_num [abs_of_pos]

/-! ### deviations -/

/-- numbers with more than 10 digits do change -/
theorem write_read_digits_wrong : ∃ text o', write [] exObj = some text ∧ read text = some o' ∧ o' ≠ exObj := by
  obtain ⟨text, o', h1, h2, h3⟩ := write_read [] exObj _ { ex_writable with note := by simp }
  refine ⟨text, o', h1, h2, ?_⟩
  rintro rfl
  have h := h3.intrinsics
  have h' : Short10 (1 / 3 : ℚ) := by
    have : List.Forall₂ Rounded10 exObj.intrinsics exObj.intrinsics := h
    unfold exObj at this
    simp only [List.forall₂_cons] at this
    exact this.2.2.2.2.2.2.1.2
  obtain ⟨k, j, h1, h2⟩ := h'
  have h3 : (3 : ℚ) * k * (10 : ℚ) ^ j = 1 := by linear_combination -3 * h2
  obtain ⟨n, rfl | rfl⟩ := Int.eq_nat_or_neg j
  · rw [zpow_natCast] at h3
    have : (3 : ℤ) * k * 10 ^ n = 1 := by exact_mod_cast h3
    have h4 : (3 : ℤ) ∣ 1 := ⟨k * 10 ^ n, by rw [← this]; ring⟩
    norm_num at h4
  · rw [zpow_neg, zpow_natCast, mul_inv_eq_one₀ (by positivity)] at h3
    have h4 : (3 : ℤ) * k = 10 ^ n := by exact_mod_cast h3
    have h5 : ∀ n : ℕ, (10 : ℤ) ^ n % 3 = 1 := by
      intro n
      induction n with
      | zero => rfl
      | succ n ih => rw [pow_succ]; omega
    have := h5 n
    omega

/-- the optimization inputs are cleared, but the camera indices aren't. This model can be written, but not read -/
theorem reset_write_read_wrong : ∃ text, write [] (optimizationInputsReset exObj) = some text ∧ read text = none := by
  refine ⟨writeText [] (optimizationInputsReset exObj), ?_, ?_⟩
  · unfold write
    rw [if_pos]
    refine ⟨by decide +kernel, by decide +kernel, by decide⟩
  · have : (read (writeText [] (optimizationInputsReset exObj))).isNone = true := by decide +kernel
    simpa using this

/-- a region with a large coordinate: this is written with a "+" in the exponent. Python can read this, C can't -/
theorem large_region_wrong : ∃ text, write [] { exShort with region := some [(0, 0), (10000000000, 0), (0, 100), (0, 0)] } = some text ∧ (read text).isSome = true ∧ readCameramodelString text = none := by
  refine ⟨writeText [] { exShort with region := some [(0, 0), (10000000000, 0), (0, 100), (0, 0)] }, ?_, by decide +kernel, ?_⟩
  · unfold write
    rw [if_pos]
    refine ⟨by decide +kernel, by decide +kernel, by decide⟩
  · have : (readCameramodelString (writeText [] { exShort with region := some [(0, 0), (10000000000, 0), (0, 100), (0, 0)] })).isNone = true := by decide +kernel
    simpa using this

/-- C accepts an imager with no rows, Python doesn't -/
theorem height_zero_wrong : ∃ text m, writeModel ⟨.pinhole, [1, 1, 0, 0], [0, 0, 0, 0, 0, 0], (640, 0)⟩ = some text ∧ readCameramodelString text = some m ∧ m.imagersize = (640, 0) ∧ read text = none := by
  obtain ⟨text, ht⟩ : ∃ text, writeModel ⟨.pinhole, [1, 1, 0, 0], [0, 0, 0, 0, 0, 0], (640, 0)⟩ = some text := Option.isSome_iff_exists.1 (by decide +kernel)
  have hf : ∀ v : ℚ, |v| ≤ 1 → Finite v := fun v hv => le_trans hv (by decide +kernel)
  obtain ⟨text', m', h1, h2, h3, -⟩ := ModelFile.write_read ⟨.pinhole, [1, 1, 0, 0], [0, 0, 0, 0, 0, 0], (640, 0)⟩ ⟨trivial, by decide, by
    intro v hv
    apply hf
    simp only [List.mem_cons, List.not_mem_nil, or_false] at hv
    rcases hv with rfl | rfl | rfl | rfl <;> norm_num, by decide, by
    intro v hv
    apply hf
    simp only [List.mem_cons, List.not_mem_nil, or_false] at hv
    rcases hv with rfl | rfl | rfl | rfl | rfl | rfl <;> norm_num, by decide⟩
  have : (writeModel ⟨.pinhole, [1, 1, 0, 0], [0, 0, 0, 0, 0, 0], (640, 0)⟩).all (fun t => (read t).isNone) = true := by decide +kernel
  rw [h1] at this
  exact ⟨text', m', h1, h2, h3.imagersize, by simpa using this⟩

/-- for Python a carriage return ends a comment, for C it doesn't. Both can read this text, and they see different imager sizes.
When Python reads a file it translates carriage returns, and it still sees this line -/
theorem carriage_return_wrong : ∃ (text : List Char) (m : Model) (o : Obj ℚ (List ℚ)), readCameramodelString text = some m ∧ read text = some o ∧ m.imagersize = (640, 480) ∧ o.imagersize = (64, 48) := by
  obtain ⟨text, ht⟩ : ∃ text, text = "{ 'lensmodel': 'LENSMODEL_PINHOLE', 'intrinsics': [1, 1, 0, 0], 'extrinsics': [0, 0, 0, 0, 0, 0], 'imagersize': [640, 480], # comment\r 'imagersize': [64, 48],\n}".toList := ⟨_, rfl⟩
  have h1 : (readCameramodelString text).any (fun m => decide (m.imagersize = (640, 480))) = true := by rw [ht]; decide +kernel
  have h2 : (read text).any (fun o => decide (o.imagersize = (64, 48))) = true := by rw [ht]; decide +kernel
  rw [Option.any_eq_true] at h1 h2
  obtain ⟨m, h1, h1'⟩ := h1
  obtain ⟨o, h2, h2'⟩ := h2
  exact ⟨text, m, o, h1, h2, by simpa using h1', by simpa using h2'⟩

end Mrcal.ModelPy
