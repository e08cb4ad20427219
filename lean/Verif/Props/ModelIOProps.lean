import Verif.Props.ModelFileProps
/-
C39: more about reading models. C69: reading into a preallocated buffer. C70: writing a model, and reading it back.
-/
namespace Mrcal.ModelFile
open Mrcal.Name

/-! ### C39: a concrete file, and departures from strictness -/

def sampleText : List Char :=
  ("# a comment\n{\n 'lensmodel': \"LENSMODEL_PINHOLE\",\n 'other': [1,[2,3],],\n 'intrinsics': [1.5, 2e3, -.25, 4],\n" ++
   " 'imagersize': (640,480),\n 'extrinsics': [0,0,0,1,2,3.],\n}\n").toList
def sampleModel : Model := ⟨.pinhole, [3 / 2, 2000, -1 / 4, 4], [0, 0, 0, 1, 2, 3], (640, 480)⟩

example : readCameramodelString sampleText = some sampleModel := by decide +kernel
/-- so there are texts and models that satisfy the right side of `read_iff` -/
example : ∃ es, FileText es (sampleText.takeWhile (fun c => c ≠ '\x00')) ∧ Describes es sampleModel :=
  (read_iff _ _).1 (by decide +kernel)

/-- a file with the given imager size -/
def sizedText (size : String) : List Char :=
  ("{'lensmodel': 'LENSMODEL_PINHOLE', 'intrinsics': [1,2,3,4], " ++ size ++ ", 'extrinsics': [0,0,0,0,0,0]}").toList
def sizedModel (w h : Nat) : Model := ⟨.pinhole, [1, 2, 3, 4], [0, 0, 0, 0, 0, 0], (w, h)⟩

/-- **C39**, deviations: sizes that don't fit wrap around, without an error; a height of 0 is accepted; so are several imager sizes, if the first widths are 0 -/
theorem size_wrong :
    readCameramodelString (sizedText "'imagersize': [4294967297, 480]") = some (sizedModel 1 480) ∧
    readCameramodelString (sizedText "'imagersize': [640, 0]") = some (sizedModel 640 0) ∧
    readCameramodelString (sizedText "'imagersize': [0, 480], 'imagersize': [640, 480]") = some (sizedModel 640 480) ∧
    readCameramodelString (sizedText "'imagersize': [0, 480]") = none ∧
    readCameramodelString (sizedText "'imagersize': [640, 480], 'imagersize': [640, 480]") = none := by decide +kernel

/-- **C39**, deviations: anything that follows a 0 byte is ignored; quotes and brackets need not match -/
theorem sloppy_text :
    readCameramodelString (sizedText "'imagersize': [640, 480]" ++ '\x00' :: "garbage".toList) = some (sizedModel 640 480) ∧
    readCameramodelString (sizedText "'imagersize': [640, 480]" ++ "garbage".toList) = none ∧
    readCameramodelString (sizedText "'imagersize\": (640, 480]") = some (sizedModel 640 480) := by decide +kernel

/-! ### C69: reading into a preallocated buffer -/

theorem kv_buf (n : Nat) (key : List Char) (st : St) (s : List Char) :
    readKeyValue (some n) key st s = readKeyValue none key st s ∨
    ∃ L, key = "intrinsics".toList ∧ st.intrinsics = none ∧ st.lens = some L ∧ n < L.numParams.toNat ∧ readKeyValue (some n) key st s = .fail L.numParams.toNat := by
  unfold readKeyValue
  by_cases h1 : key = "lensmodel".toList
  · left; rw [if_pos h1, if_pos h1]
  rw [if_neg h1, if_neg h1]
  by_cases h2 : key = "intrinsics".toList
  · rw [if_pos h2, if_pos h2]
    cases hi : st.intrinsics with
    | some v => left; rfl
    | none =>
      rw [if_neg (by simp), if_neg (by simp)]
      cases hL : st.lens with
      | none => left; rfl
      | some L =>
        dsimp only
        by_cases hn : n < L.numParams.toNat
        · right
          exact ⟨L, h2, rfl, rfl, hn, by rw [if_pos (by simpa [tooSmall] using hn)]⟩
        · left
          rw [if_neg (by simpa [tooSmall] using hn), if_neg (by simp [tooSmall])]
  · left; rw [if_neg h2, if_neg h2]

theorem kv_enough {n : Nat} {key : List Char} {st : St} {s : List Char} (h : ∀ L, st.lens = some L → L.numParams.toNat ≤ n) :
    readKeyValue (some n) key st s = readKeyValue none key st s := by
  rcases kv_buf n key st s with h' | ⟨L, -, -, hL, hn, -⟩
  · exact h'
  · have := h L hL; omega

theorem kv_done {n : Nat} {key : List Char} {st : St} {s : List Char} (h : st.intrinsics ≠ none) :
    readKeyValue (some n) key st s = readKeyValue none key st s := by
  rcases kv_buf n key st s with h' | ⟨L, -, hi, -⟩
  · exact h'
  · exact absurd hi h

theorem kv_fail_none {key : List Char} {st : St} {s : List Char} {k : Nat} (h : readKeyValue none key st s = .fail k) : k = 0 := by
  unfold readKeyValue at h
  by_cases h1 : key = "lensmodel".toList
  · rw [if_pos h1] at h
    by_cases hl : st.lens.isSome = true
    · rw [if_pos hl] at h; injection h with h; exact h.symm
    rw [if_neg hl] at h
    cases hs : readString s with
    | none => rw [hs] at h; injection h with h; exact h.symm
    | some x =>
      rw [hs] at h
      dsimp only at h
      cases hn : fromName (some x.1) with
      | ok L => rw [hn] at h; simp at h
      | invalidMissingConfig => rw [hn] at h; injection h with h; exact h.symm
      | invalidBadConfig => rw [hn] at h; injection h with h; exact h.symm
      | invalidType => rw [hn] at h; injection h with h; exact h.symm
  rw [if_neg h1] at h
  by_cases h2 : key = "intrinsics".toList
  · rw [if_pos h2] at h
    by_cases hi : st.intrinsics.isSome = true
    · rw [if_pos hi] at h; injection h with h; exact h.symm
    rw [if_neg hi] at h
    cases hL : st.lens with
    | none => rw [hL] at h; injection h with h; exact h.symm
    | some L =>
      rw [hL] at h
      dsimp only at h
      rw [if_neg (by simp [tooSmall])] at h
      cases hl : readList ingestDouble L.numParams.toNat s with
      | none => rw [hl] at h; injection h with h; exact h.symm
      | some x => rw [hl] at h; simp at h
  rw [if_neg h2] at h
  by_cases h3 : key = "extrinsics".toList ∨ key = "rt_cam_ref".toList
  · rw [if_pos h3] at h
    cases hl : readList ingestDouble 6 s with
    | none => rw [hl] at h; injection h with h; exact h.symm
    | some x =>
      rw [hl] at h
      dsimp only at h
      cases hrt : st.rt_cam_ref with
      | some rt =>
        rw [hrt] at h
        dsimp only at h
        by_cases ha : rtAgree x.1 rt = true
        · rw [if_pos ha] at h; simp at h
        · rw [if_neg ha] at h; injection h with h; exact h.symm
      | none => rw [hrt] at h; simp at h
  rw [if_neg h3] at h
  by_cases h4 : key = "imagersize".toList
  · rw [if_pos h4] at h
    by_cases hi : st.imagersize.1 > 0
    · rw [if_pos hi] at h; injection h with h; exact h.symm
    rw [if_neg hi] at h
    split at h
    · simp at h
    · injection h with h; exact h.symm
  rw [if_neg h4] at h
  cases hu : readUnknown s with
  | none => rw [hu] at h; injection h with h; exact h.symm
  | some r1 => rw [hu] at h; simp at h

/-- once the lens is known it doesn't change -/
theorem step_lens {st st' : St} {e : Entry} {L : Lens} (h : stepE st e = some st') (hL : st.lens = some L) : st'.lens = some L := by
  cases e with
  | lensmodel L' => rw [stepE, hL] at h; simp at h
  | intrinsics v =>
    rw [stepE] at h
    by_cases hi : st.intrinsics.isSome = true
    · rw [if_pos hi] at h; simp at h
    · rw [if_neg hi, hL] at h
      dsimp only at h
      by_cases hv : v.length = L.numParams.toNat
      · rw [if_pos hv] at h; rw [← Option.some.inj h]
      · rw [if_neg hv] at h; simp at h
  | extrinsics v =>
    rw [stepE] at h
    cases hrt : st.rt_cam_ref with
    | some rt =>
      rw [hrt] at h
      dsimp only at h
      by_cases ha : rtAgree v rt = true
      · rw [if_pos ha] at h; rw [← Option.some.inj h]; exact hL
      · rw [if_neg ha] at h; simp at h
    | none => rw [hrt] at h; rw [← Option.some.inj h]; exact hL
  | imagersize w hh =>
    rw [stepE] at h
    by_cases hi : st.imagersize.1 > 0
    · rw [if_pos hi] at h; simp at h
    · rw [if_neg hi] at h; rw [← Option.some.inj h]; exact hL
  | other => rw [stepE] at h; rw [← Option.some.inj h]; exact hL

theorem fold_lens (es : List Entry) {st st' : St} {L : Lens} (h : es.foldlM stepE st = some st') (hL : st.lens = some L) : st'.lens = some L := by
  induction es generalizing st with
  | nil => simp at h; rw [← h]; exact hL
  | cons e es ih =>
    rw [List.foldlM_cons, Option.bind_eq_bind, Option.bind_eq_some_iff] at h
    obtain ⟨s1, h1, h2⟩ := h
    exact ih h2 (step_lens h1 hL)

theorem keys_lens {n : Nat} {st st' : St} {s : List Char} {L : Lens} (h : readKeys none n st s = .ok st') (hL : st.lens = some L) : st'.lens = some L := by
  obtain ⟨es, -, -, -, -, -, hf⟩ := keys_sound n st st' s h
  exact fold_lens es hf hL

/-- with the intrinsics there must be a lens, and enough room for its intrinsics -/
def Fits (n : Nat) (st : St) : Prop := st.intrinsics ≠ none → ∃ L, st.lens = some L ∧ L.numParams.toNat ≤ n

theorem step_fits {n : Nat} {st st' : St} {e : Entry} (h : stepE st e = some st') (hf : Fits n st) (hL : ∀ v, e = .intrinsics v → ∀ L, st.lens = some L → L.numParams.toNat ≤ n) :
    Fits n st' := by
  cases e with
  | lensmodel L' =>
    rw [stepE] at h
    by_cases hl : st.lens.isSome = true
    · rw [if_pos hl] at h; simp at h
    · rw [if_neg hl] at h
      rw [← Option.some.inj h]
      intro hi
      obtain ⟨L, h1, h2⟩ := hf hi
      rw [h1] at hl; simp at hl
  | intrinsics v =>
    rw [stepE] at h
    by_cases hi : st.intrinsics.isSome = true
    · rw [if_pos hi] at h; simp at h
    · rw [if_neg hi] at h
      cases hl : st.lens with
      | none => rw [hl] at h; simp at h
      | some L =>
        rw [hl] at h
        dsimp only at h
        by_cases hv : v.length = L.numParams.toNat
        · rw [if_pos hv] at h
          rw [← Option.some.inj h]
          intro _
          exact ⟨L, rfl, hL v rfl L hl⟩
        · rw [if_neg hv] at h; simp at h
  | extrinsics v =>
    rw [stepE] at h
    cases hrt : st.rt_cam_ref with
    | some rt =>
      rw [hrt] at h
      dsimp only at h
      by_cases ha : rtAgree v rt = true
      · rw [if_pos ha] at h; rw [← Option.some.inj h]; exact hf
      · rw [if_neg ha] at h; simp at h
    | none => rw [hrt] at h; rw [← Option.some.inj h]; exact hf
  | imagersize w hh =>
    rw [stepE] at h
    by_cases hi : st.imagersize.1 > 0
    · rw [if_pos hi] at h; simp at h
    · rw [if_neg hi] at h; rw [← Option.some.inj h]; exact hf
  | other => rw [stepE] at h; rw [← Option.some.inj h]; exact hf

theorem key_of_intrinsics {key v : List Char} {e : Entry} (h : ValueText key e v) {x : List ℚ} (he : e = .intrinsics x) : key = "intrinsics".toList := by
  cases h with
  | intrinsics => rfl
  | lensmodel => simp at he
  | extrinsics => simp at he
  | rt_cam_ref => simp at he
  | imagersize => simp at he
  | other => simp at he

theorem keys_done (n : Nat) : ∀ (st : St) (s : List Char) (b : Nat), st.intrinsics ≠ none → readKeys (some b) n st s = readKeys none n st s := by
  induction n with
  | zero => intros; rfl
  | succ n ih =>
    intro st s b hi
    rw [keys_step, keys_step]
    cases readString s with
    | none => rfl
    | some x =>
      dsimp only
      cases skipIgnore x.2 with
      | nil => rfl
      | cons c s2 =>
        dsimp only
        by_cases hc : c = ':'
        · rw [if_pos hc, if_pos hc, kv_done hi]
          cases hv : readKeyValue none x.1 st s2 with
          | fail k => rfl
          | ok y =>
            obtain ⟨st1, s3⟩ := y
            dsimp only
            obtain ⟨e, v, r', hvt, hst, -, -⟩ := kv_sound hv
            have hi1 : st1.intrinsics ≠ none := by
              cases hh : st.intrinsics with
              | none => exact absurd hh hi
              | some w =>
                have hs := (step_split st st1 e).1 hst
                have k := hs.1
                rw [hh] at k
                cases hl : st.lens with
                | none =>
                  rw [hl] at k
                  cases e <;> simp [stepL] at k <;> first | (rw [← k.2]; simp) | (rw [k.2.symm]; simp)
                | some L =>
                  rw [hl] at k
                  cases e <;> simp [stepL] at k <;> first | (rw [← k.2]; simp) | (rw [k.2.symm]; simp)
            cases readSeparator s3 with
            | none => rfl
            | some z =>
              obtain ⟨cl, s4⟩ := z
              cases cl with
              | true => rfl
              | false => exact ih st1 s4 b hi1
        · rw [if_neg hc, if_neg hc]

theorem kv_intr {st st' : St} {s r : List Char} (h : readKeyValue none "intrinsics".toList st s = .ok (st', r)) : st'.intrinsics ≠ none := by
  unfold readKeyValue at h
  rw [if_neg (by decide), if_pos rfl] at h
  by_cases hi : st.intrinsics.isSome = true
  · rw [if_pos hi] at h; simp at h
  rw [if_neg hi] at h
  cases hL : st.lens with
  | none => rw [hL] at h; simp at h
  | some L =>
    rw [hL] at h
    dsimp only at h
    rw [if_neg (by simp [tooSmall])] at h
    cases hl : readList ingestDouble L.numParams.toNat s with
    | none => rw [hl] at h; simp at h
    | some x =>
      rw [hl] at h
      simp only [Step.ok.injEq, Prod.mk.injEq] at h
      rw [← h.1]; simp

theorem kv_small {b : Nat} {st : St} {s : List Char} {L : Lens} (hi : st.intrinsics = none) (hL : st.lens = some L) (h : b < L.numParams.toNat) :
    readKeyValue (some b) "intrinsics".toList st s = .fail L.numParams.toNat := by
  unfold readKeyValue
  rw [if_neg (by decide), if_pos rfl, hi, if_neg (by simp), hL]
  dsimp only
  rw [if_pos (by simpa [tooSmall] using h)]

theorem keys_buf (b : Nat) (n : Nat) : ∀ (st : St) (s : List Char), Fits b st →
    (readKeys (some b) n st s = readKeys none n st s ∧ ∀ st', readKeys none n st s = .ok st' → Fits b st') ∨
    ∃ k, b < k ∧ readKeys (some b) n st s = .fail k ∧ (∀ b', k ≤ b' → readKeys (some b') n st s = readKeys none n st s) ∧
      ∀ st', readKeys none n st s = .ok st' → ∃ L, st'.lens = some L ∧ L.numParams.toNat = k := by
  induction n with
  | zero =>
    intro st s _
    left
    exact ⟨rfl, fun st' h => by simp [readKeys] at h⟩
  | succ n ih =>
    intro st s hfit
    rw [keys_step, keys_step]
    simp only [keys_step]
    cases hk : readString s with
    | none => left; exact ⟨rfl, fun st' h => by simp at h⟩
    | some x =>
      obtain ⟨key, s1⟩ := x
      dsimp only
      cases hc : skipIgnore s1 with
      | nil => left; exact ⟨rfl, fun st' h => by simp at h⟩
      | cons c s2 =>
        dsimp only
        by_cases hcc : c = ':'
        · simp only [if_pos hcc]
          rcases kv_buf b key st s2 with heq | ⟨L, hkey, hi, hL, hlt, hfail⟩
          · rw [heq]
            cases hv : readKeyValue none key st s2 with
            | fail k => left; exact ⟨rfl, fun st' h => by simp at h⟩
            | ok y =>
              obtain ⟨st1, s3⟩ := y
              obtain ⟨e, v, r', hvt, hst, -, -⟩ := kv_sound hv
              have hfit1 : Fits b st1 := by
                refine step_fits hst hfit ?_
                intro w hw L hL
                by_contra hlt
                have hkey := key_of_intrinsics hvt hw
                -- the check would have failed
                rw [hw] at hst
                have hi : ¬ st.intrinsics.isSome = true := by
                  intro hi
                  rw [stepE, if_pos hi] at hst; simp at hst
                have hi' : st.intrinsics = none := by simpa using hi
                rw [hv, hkey, kv_small hi' hL (by omega)] at heq
                simp at heq
              dsimp only
              have hkv : ∀ b', readKeyValue (some b') key st s2 = .ok (st1, s3) ∨ (∃ L, st.lens = some L ∧ b' < L.numParams.toNat ∧ st.intrinsics = none ∧ key = "intrinsics".toList) := by
                intro b'
                rcases kv_buf b' key st s2 with h | ⟨L, h1, h2, h3, h4, -⟩
                · left; rw [h, hv]
                · right; exact ⟨L, h3, h4, h2, h1⟩
              cases hs : readSeparator s3 with
              | none =>
                left; exact ⟨rfl, fun st' h => by simp at h⟩
              | some z =>
                obtain ⟨cl, s4⟩ := z
                cases cl with
                | true =>
                  left
                  refine ⟨rfl, fun st' h => ?_⟩
                  dsimp only at h
                  by_cases he : skipIgnore s4 = []
                  · rw [if_pos he] at h; injection h with h; rw [← h]; exact hfit1
                  · rw [if_neg he] at h; simp at h
                | false =>
                  dsimp only
                  rcases ih st1 s4 hfit1 with ⟨h1, h2⟩ | ⟨k, h1, h2, h3, h4⟩
                  · left; exact ⟨h1, h2⟩
                  · right
                    refine ⟨k, h1, h2, ?_, h4⟩
                    intro b' hb'
                    rcases hkv b' with hb'' | ⟨L, hL, hlt, hi, hkey⟩
                    · rw [hb'']
                      dsimp only
                      rw [hs]
                      exact h3 b' hb'
                    · -- the smaller buffer was accepted
                      exfalso
                      rw [hv, hkey, kv_small hi hL (by omega)] at heq
                      simp at heq
          · right
            refine ⟨L.numParams.toNat, hlt, by rw [hfail], ?_, ?_⟩
            · intro b' hb'
              rw [kv_enough (n := b') (fun L' hL' => by rw [hL] at hL'; rw [← Option.some.inj hL']; exact hb')]
              cases hv : readKeyValue none key st s2 with
              | fail k => rfl
              | ok y =>
                obtain ⟨st1, s3⟩ := y
                dsimp only
                cases readSeparator s3 with
                | none => rfl
                | some z =>
                  obtain ⟨cl, s4⟩ := z
                  cases cl with
                  | true => rfl
                  | false =>
                    dsimp only
                    apply keys_done
                    rw [hkey] at hv
                    exact kv_intr hv
            · intro st' h
              cases hv : readKeyValue none key st s2 with
              | fail k => rw [hv] at h; simp at h
              | ok y =>
                obtain ⟨st1, s3⟩ := y
                rw [hv] at h
                dsimp only at h
                obtain ⟨e, v, r', hvt, hst, -, -⟩ := kv_sound hv
                have hL1 := step_lens hst hL
                cases hs : readSeparator s3 with
                | none => rw [hs] at h; simp at h
                | some z =>
                  obtain ⟨cl, s4⟩ := z
                  rw [hs] at h
                  cases cl with
                  | true =>
                    dsimp only at h
                    by_cases he : skipIgnore s4 = []
                    · rw [if_pos he] at h; injection h with h; rw [← h]; exact ⟨L, hL1, rfl⟩
                    · rw [if_neg he] at h; simp at h
                  | false =>
                    dsimp only at h
                    exact ⟨L, keys_lens h hL1, rfl⟩
        · simp only [if_neg hcc]
          left; exact ⟨by trivial, fun st' h => by simp at h⟩

theorem keys_fail_none (n : Nat) : ∀ (st : St) (s : List Char) (k : Nat), readKeys none n st s = .fail k → k = 0 := by
  induction n with
  | zero => intro st s k h; rw [readKeys] at h; injection h with h; exact h.symm
  | succ n ih =>
    intro st s k h
    rw [keys_step] at h
    cases hk : readString s with
    | none => rw [hk] at h; injection h with h; exact h.symm
    | some x =>
      rw [hk] at h
      dsimp only at h
      cases hc : skipIgnore x.2 with
      | nil => rw [hc] at h; injection h with h; exact h.symm
      | cons c s2 =>
        rw [hc] at h
        dsimp only at h
        by_cases hcc : c = ':'
        · rw [if_pos hcc] at h
          cases hv : readKeyValue none x.1 st s2 with
          | fail k' =>
            rw [hv] at h
            injection h with h
            rw [← h]; exact kv_fail_none hv
          | ok y =>
            rw [hv] at h
            dsimp only at h
            cases hs : readSeparator y.2 with
            | none => rw [hs] at h; injection h with h; exact h.symm
            | some z =>
              obtain ⟨cl, s4⟩ := z
              rw [hs] at h
              cases cl with
              | true =>
                dsimp only at h
                by_cases he : skipIgnore s4 = []
                · rw [if_pos he] at h; simp at h
                · rw [if_neg he] at h; injection h with h; exact h.symm
              | false => exact ih _ _ _ h
        · rw [if_neg hcc] at h; injection h with h; exact h.symm

theorem finish_cases (st : St) : finish st = .fail 0 ∨ ∃ L i rt, st.lens = some L ∧ st.intrinsics = some i ∧ st.rt_cam_ref = some rt ∧ finish st = .ok ⟨L, i, rt, st.imagersize⟩ := by
  unfold finish
  obtain ⟨l, i, x, z⟩ := st
  cases l with
  | none => left; rfl
  | some L =>
    cases i with
    | none => left; rfl
    | some v =>
      cases x with
      | none => left; rfl
      | some rt =>
        dsimp only
        by_cases hz : z.1 > 0
        · right; exact ⟨L, v, rt, rfl, rfl, rfl, by rw [if_pos hz]⟩
        · left; rw [if_neg hz]

theorem into_cases (b : Nat) (text : List Char) :
    (readCameramodelStringInto b text = (readCameramodelString text, 0) ∧ ∀ m, readCameramodelString text = some m → m.lens.numParams ≤ b) ∨
    ∃ k, b < k ∧ readCameramodelStringInto b text = (none, k) ∧ (∀ b', k ≤ b' → readCameramodelStringInto b' text = (readCameramodelString text, 0)) ∧
      ∀ m, readCameramodelString text = some m → m.lens.numParams = k := by
  unfold readCameramodelStringInto readCameramodelString
  simp only [readModel_eq]
  cases skipIgnore (text.takeWhile (fun c => c ≠ '\x00')) with
  | nil => left; exact ⟨rfl, fun m h => by simp at h⟩
  | cons c s =>
    dsimp only
    by_cases hc : c = '{'
    · simp only [if_pos hc]
      have hN : ∀ (L : Lens) (k : Nat), L.numParams.toNat = k → L.numParams = k := by
        intro L k h; have := numParams_pos L; omega
      rcases keys_buf b (s.length + 1) St.init s (fun h => absurd rfl h) with ⟨h1, h2⟩ | ⟨k, h1, h2, h3, h4⟩
      · left
        rw [h1]
        cases hk : readKeys none (s.length + 1) St.init s with
        | fail k =>
          have := keys_fail_none _ _ _ _ hk
          subst this
          exact ⟨rfl, fun m h => by simp at h⟩
        | ok st =>
          dsimp only
          rcases finish_cases st with h | ⟨L, i, rt, k1, k2, k3, h⟩
          · rw [h]; exact ⟨rfl, fun m h => by simp at h⟩
          · rw [h]
            refine ⟨rfl, fun m hm => ?_⟩
            rw [← Option.some.inj hm]
            obtain ⟨L', j1, j2⟩ := h2 st hk (by rw [k2]; simp)
            rw [k1] at j1
            obtain rfl := Option.some.inj j1
            have := hN L _ rfl
            dsimp only
            omega
      · right
        refine ⟨k, h1, by rw [h2], ?_, ?_⟩
        · intro b' hb'
          rw [h3 b' hb']
          cases hk : readKeys none (s.length + 1) St.init s with
          | fail k =>
            have := keys_fail_none _ _ _ _ hk
            subst this
            rfl
          | ok st =>
            dsimp only
            rcases finish_cases st with h | ⟨L, i, rt, k1, k2, k3, h⟩
            · rw [h]
            · rw [h]
        · intro m hm
          cases hk : readKeys none (s.length + 1) St.init s with
          | fail k => rw [hk] at hm; simp at hm
          | ok st =>
            rw [hk] at hm
            dsimp only at hm
            obtain ⟨L, j1, j2⟩ := h4 st hk
            rcases finish_cases st with h | ⟨L', i, rt, k1, k2, k3, h⟩
            · rw [h] at hm; simp at hm
            · rw [h] at hm
              rw [← Option.some.inj hm]
              rw [k1] at j1
              obtain rfl := Option.some.inj j1
              exact hN _ _ j2
    · simp only [if_neg hc]
      left; exact ⟨by trivial, fun m h => by simp at h⟩

/-- **C69**: reading a model into a buffer with room for `b` intrinsics is successful exactly if the model is valid and it fits. It is then the model that's read without a preallocated buffer, and the reported count is 0 -/
theorem into_success (b : Nat) (text : List Char) (m : Model) (k : Nat) :
    readCameramodelStringInto b text = (some m, k) ↔ k = 0 ∧ readCameramodelString text = some m ∧ m.lens.numParams ≤ b := by
  rcases into_cases b text with ⟨h1, h2⟩ | ⟨k', h1, h2, h3, h4⟩
  · rw [h1]
    constructor
    · intro h
      simp only [Prod.mk.injEq] at h
      exact ⟨h.2.symm, h.1, h2 m h.1⟩
    · rintro ⟨rfl, h, -⟩; rw [h]
  · rw [h2]
    constructor
    · intro h; simp at h
    · rintro ⟨rfl, h, h'⟩
      have := h4 m h
      omega

/-- **C69**: if the model is valid but doesn't fit, then the number of its intrinsics is reported -/
theorem into_too_small (b : Nat) (text : List Char) (m : Model) (h : readCameramodelString text = some m) (hb : (b : Int) < m.lens.numParams) :
    readCameramodelStringInto b text = (none, m.lens.numParams.toNat) := by
  rcases into_cases b text with ⟨h1, h2⟩ | ⟨k', h1, h2, h3, h4⟩
  · have := h2 m h; omega
  · rw [h2, h4 m h]; rfl

/-- **C69**: a reported count is more than the given room, and trying again with at least that room gives the same result as reading without a preallocated buffer: the count is not reported again -/
theorem into_retry (b : Nat) (text : List Char) (r : Option Model) (k : Nat) (h : readCameramodelStringInto b text = (r, k)) (hk : k ≠ 0) :
    r = none ∧ b < k ∧ ∀ b', k ≤ b' → readCameramodelStringInto b' text = (readCameramodelString text, 0) := by
  rcases into_cases b text with ⟨h1, h2⟩ | ⟨k', h1, h2, h3, h4⟩
  · rw [h1] at h
    simp only [Prod.mk.injEq] at h
    exact absurd h.2.symm hk
  · rw [h2] at h
    simp only [Prod.mk.injEq] at h
    obtain ⟨rfl, rfl⟩ := h
    exact ⟨rfl, h1, h3⟩

/-- **C69**: nothing is reported for an invalid file with enough room, and nothing is read -/
theorem into_failure (b : Nat) (text : List Char) (h : readCameramodelString text = none) :
    readCameramodelStringInto b text = (none, 0) ∨ ∃ k, b < k ∧ readCameramodelStringInto b text = (none, k) := by
  rcases into_cases b text with ⟨h1, h2⟩ | ⟨k', h1, h2, h3, h4⟩
  · left; rw [h1, h]
  · right; exact ⟨k', h1, h2⟩

example : readCameramodelStringInto 3 sampleText = (none, 4) ∧ readCameramodelStringInto 4 sampleText = (some sampleModel, 0) := by decide +kernel
/-- a broken file, with too little room: the count is reported since the lens is seen before the error -/
example : readCameramodelStringInto 3 (sampleText.take 100) = (none, 4) ∧ readCameramodelStringInto 4 (sampleText.take 100) = (none, 0) := by decide +kernel

end Mrcal.ModelFile
