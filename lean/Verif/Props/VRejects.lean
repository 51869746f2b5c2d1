import Verif.Props.Rejects
import Verif.Model.VGaussEstimator

/-!
# C94 for the variational classes
-/

set_option autoImplicit false

namespace Verif
open FloatLike XF Spec

variable {G Q : Type}

section
variable {S : VSub XF G Q} {e e' : VEst XF G Q} (hc : S.checkFitted e = (.ok (), e'))
include hc

/-- **C94** For every variational class: a decoder of another name (argument of `decode`, or the object's own if the
argument is missing or empty) raises ValueError, whatever the data. -/
theorem C94_v_decoder (X : RawX XF) (ls : Option (List Int)) :
    (∀ alg, ¬ KnownDecoder (chosen alg e'.algorithm) →
      S.decode X ls alg e = (.error (.valueError "Unknown decoder"), e')) ∧
    (¬ KnownDecoder e'.algorithm → S.predict X ls e = (.error (.valueError "Unknown decoder"), e')) := by
  have key : ∀ alg, ¬ KnownDecoder (chosen alg e'.algorithm) →
      S.decode X ls alg e = (.error (.valueError "Unknown decoder"), e') := by
    intro alg h
    simp only [VSub.decode, Sub.decodeBody, Py.bind_apply, Py.get_apply, hc, Py.lift_apply, pyOr_eq, algOf_unknown h]
  exact ⟨key, fun h => by simp only [VSub.predict, Py.bind_apply, key none h]⟩

/-- **C94** For every variational class: an array that is not acceptable makes every inference method raise ValueError. -/
theorem C94_v_data {X : RawX XF} (hX : ¬ AcceptableX X) (ls : Option (List Int)) : ∃ msg,
    (∀ p, S.scoreSamples X ls p e = (.error (.valueError msg), e')) ∧
    S.score X ls e = (.error (.valueError msg), e') ∧
    S.predictProba X ls e = (.error (.valueError msg), e') ∧
    (∀ alg, KnownDecoder (chosen alg e'.algorithm) → S.decode X ls alg e = (.error (.valueError msg), e')) ∧
    (KnownDecoder e'.algorithm → S.predict X ls e = (.error (.valueError msg), e')) := by
  obtain ⟨msg, hm⟩ := (C94_check_array X).2 hX
  have h1 : ∀ p, S.scoreSamples X ls p e = (.error (.valueError msg), e') := fun p => by
    simp only [VSub.scoreSamples, Sub.scoreBody, Py.bind_apply, Py.get_apply, hc, hm, Py.lift_apply]
  have h2 : ∀ alg, KnownDecoder (chosen alg e'.algorithm) → S.decode X ls alg e = (.error (.valueError msg), e') := by
    intro alg h
    obtain ⟨a, ha⟩ := algOf_known h
    simp only [VSub.decode, Sub.decodeBody, Py.bind_apply, Py.get_apply, hc, Py.lift_apply, pyOr_eq, ha, hm]
  refine ⟨msg, h1, ?_, ?_, h2, fun h => ?_⟩
  · simp only [VSub.score, Py.bind_apply, h1]
  · simp only [VSub.predictProba, Py.bind_apply, h1]
  · simp only [VSub.predict, Py.bind_apply, h2 none h]

/-- **C94** For every variational class: with acceptable data an implementation of another name raises KeyError in
`score` and its kin. -/
theorem C94_v_implementation {X : RawX XF} (hX : AcceptableX X) (hi : ¬ KnownImplementation e'.implementation)
    (ls : Option (List Int)) :
    (∀ p, S.scoreSamples X ls p e = (.error (.keyError e'.implementation), e')) ∧
    S.score X ls e = (.error (.keyError e'.implementation), e') ∧
    S.predictProba X ls e = (.error (.keyError e'.implementation), e') := by
  obtain ⟨X', hx, -⟩ := (C94_check_array X).1 hX
  have h1 : ∀ p, S.scoreSamples X ls p e = (.error (.keyError e'.implementation), e') := fun p => by
    simp only [VSub.scoreSamples, Sub.scoreBody, Py.bind_apply, Py.get_apply, hc, hx, Py.lift_apply, implOf_unknown hi]
  refine ⟨h1, ?_, ?_⟩
  · simp only [VSub.score, Py.bind_apply, h1]
  · simp only [VSub.predictProba, Py.bind_apply, h1]

end

section
variable {S : VSub XF G Q} (hS : S.core.RowsKept)
include hS

/-- **C94** For every variational class whose emission code reads row by row: wrong `lengths` are reported first, whatever the
parameters and the entries of `X` are. -/
theorem C94_v_lengths {e e' : VEst XF G Q} (hc : S.checkFitted e = (.ok (), e')) {X : RawX XF} (hX : AcceptableX X)
    (hi : KnownImplementation e'.implementation) {ls : Option (List Int)} (hl : ¬ LengthsCut (keptRows X) ls) :
    ∃ err, LengthsRaise (keptRows X) ls err ∧
    (∀ p, S.scoreSamples X ls p e = (.error err, e')) ∧ S.score X ls e = (.error err, e') ∧
    S.predictProba X ls e = (.error err, e') ∧
    (∀ alg, KnownDecoder (chosen alg e'.algorithm) → S.decode X ls alg e = (.error err, e')) ∧
    (KnownDecoder e'.algorithm → S.predict X ls e = (.error err, e')) := by
  obtain ⟨X', hx, hn⟩ := (C94_check_array X).1 hX
  have hlen : (List.replicate X'.n ()).length = keptRows X := by simp [hn]
  obtain ⟨err, he⟩ := splitXLengths_error (List.replicate X'.n ()) (ls := ls) (by rw [hlen]; exact hl)
  obtain ⟨i, hi⟩ := implOf_known hi
  have h1 : ∀ p, S.scoreSamples X ls p e = (.error err, e') := fun p => by
    simp only [VSub.scoreSamples, Sub.scoreBody, Py.bind_apply, Py.get_apply, hc, hx, Py.lift_apply, hi]
    rw [withModel_lengths hS e' i X' he]
    intro nc Obs _ m rows h
    simp only [scoreCore, h]
    rfl
  have h2 : ∀ alg, KnownDecoder (chosen alg e'.algorithm) → S.decode X ls alg e = (.error err, e') := by
    intro alg h
    obtain ⟨a, ha⟩ := algOf_known h
    simp only [VSub.decode, Sub.decodeBody, Py.bind_apply, Py.get_apply, hc, Py.lift_apply, pyOr_eq, ha, hx]
    cases a with
    | viterbi =>
      simp only [Py.lift_apply]
      rw [withModel_lengths hS e' .log X' he]
      intro nc Obs _ m rows h
      simp only [Verif.decode, h]
      rfl
    | map =>
      simp only [hi, Py.lift_apply]
      rw [withModel_lengths hS e' i X' he]
      intro nc Obs _ m rows h
      simp only [Verif.decode, h]
      rfl
  refine ⟨err, hlen ▸ splitXLengths_raise he, h1, ?_, ?_, h2, fun h => ?_⟩
  · simp only [VSub.score, Py.bind_apply, h1]
  · simp only [VSub.predictProba, Py.bind_apply, h1]
  · simp only [VSub.predict, Py.bind_apply, h2 none h]

end

/-- **C94** For every variational class: `fit` on an array that is not acceptable raises ValueError and changes nothing,
neither attributes nor the state of the random generators. -/
theorem C94_v_fit (S : VSub XF G Q) (R : RandomLib XF G) {X : RawX XF} (hX : ¬ AcceptableX X) (ls : Option (List Int))
    (w : World XF G (VAttrs XF Q)) : ∃ msg, S.fit R X ls w = (.error (.valueError msg), w) := by
  obtain ⟨msg, hm⟩ := (C94_check_array X).2 hX
  exact ⟨msg, by simp only [VSub.fit, Py.bind_apply, hm, Py.lift_apply]⟩

theorem vcatSub_rowsKept (sci : Sci XF) : (vcatSub (G := G) sci).core.RowsKept := by
  intro nf X rows h
  exact catSub_rowsKept (G := G) nf X rows h

theorem vgaussSub_rowsKept (L : VLayout XF G) (sci : Sci XF) (eig : Eigvalsh XF) : (vgaussSub L sci eig).core.RowsKept :=
  fun _ _ _ h => gaussRows_length h

end Verif
