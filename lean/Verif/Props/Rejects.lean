import Verif.Spec.Rejects
import Verif.Props.Objects
import Verif.Props.Symbols
import Verif.Props.Lengths
import Verif.Model.GmmEstimator

/-!
# C94: which exception a call raises, and what it leaves behind
-/

set_option autoImplicit false

namespace Verif
open FloatLike XF Spec

variable {G P : Type}

/-! ## The array -/

theorem isFinite_iff (x : XF) : isFinite x = true ↔ ∃ r, x = fin r := by
  cases x <;> simp [isFinite, FloatLike.isInf, FloatLike.isNaN, XF.isInf, XF.isNaN]

/-- **C94** `check_array` accepts exactly the acceptable arrays, keeps their rows, and rejects with ValueError. -/
theorem C94_check_array (X : RawX XF) :
    (AcceptableX X → ∃ X', checkArray X = .ok X' ∧ X'.n = keptRows X) ∧
    (¬ AcceptableX X → ∃ msg, checkArray X = .error (.valueError msg)) := by
  cases X with
  | ints a =>
    cases a with
    | @d2 m n v =>
      by_cases h : m = 0 ∨ n = 0
      · refine ⟨?_, fun _ => ⟨_, by rw [checkArray, if_pos h]⟩⟩
        rintro ⟨m', n', hs, h1, h2⟩
        simp only [NdArray.shape, List.cons.injEq, and_true] at hs
        omega
      · refine ⟨fun _ => ⟨_, by rw [checkArray, if_neg h], by simp [XArr.n, keptRows, NdArray.shape]⟩, fun hn => ?_⟩
        exact absurd ⟨m, n, rfl, by omega, by omega⟩ hn
    | d0 x => exact ⟨by rintro ⟨m, n, h, -⟩; simp [NdArray.shape] at h, fun _ => ⟨_, rfl⟩⟩
    | d1 x => exact ⟨by rintro ⟨m, n, h, -⟩; simp [NdArray.shape] at h, fun _ => ⟨_, rfl⟩⟩
    | d3 x => exact ⟨by rintro ⟨m, n, h, -⟩; simp [NdArray.shape] at h, fun _ => ⟨_, rfl⟩⟩
  | floats a =>
    cases a with
    | @d2 m n v =>
      by_cases h : m = 0 ∨ n = 0
      · refine ⟨?_, fun _ => ⟨_, by rw [checkArray, if_pos h]⟩⟩
        rintro ⟨m', n', v', hs, h1, h2⟩
        have := congrArg NdArray.shape hs
        simp only [NdArray.shape, mat, List.cons.injEq, and_true] at this
        omega
      · have hf : ((List.finRange m).all fun i => (List.finRange n).all fun j => isFinite (v i j)) = true ↔
            ∀ i j, ∃ r, v i j = fin r := by
          simp [List.all_eq_true, isFinite_iff]
        by_cases h' : ∀ i j, ∃ r, v i j = fin r
        · refine ⟨fun _ => ⟨_, by rw [checkArray, if_neg h, if_pos (hf.2 h')], by simp [XArr.n, keptRows, NdArray.shape]⟩,
            fun hn => absurd ?_ hn⟩
          choose r hr using h'
          exact ⟨m, n, r, by unfold mat; congr; funext i j; exact hr i j, by omega, by omega⟩
        · refine ⟨?_, fun _ => ⟨_, by rw [checkArray, if_neg h, if_neg (mt hf.1 h')]⟩⟩
          rintro ⟨m', n', v', hs, -⟩
          refine absurd ?_ h'
          unfold mat at hs
          cases hs
          exact fun i j => ⟨_, rfl⟩
    | d0 x => exact ⟨(by rintro ⟨m, n, v, h, -⟩; cases h), fun _ => ⟨_, rfl⟩⟩
    | d1 x => exact ⟨(by rintro ⟨m, n, v, h, -⟩; cases h), fun _ => ⟨_, rfl⟩⟩
    | d3 x => exact ⟨(by rintro ⟨m, n, v, h, -⟩; cases h), fun _ => ⟨_, rfl⟩⟩

section
variable {S : Sub XF G P} {e e' : Est XF G P} (hc : S.checkFitted e = (.ok (), e'))

/-! ## The decoder -/

theorem algOf_unknown {s : String} (h : ¬ KnownDecoder s) : algOf s = .error (.valueError "Unknown decoder") := by
  unfold KnownDecoder at h
  push Not at h
  rw [algOf, if_neg h.1, if_neg h.2]

theorem algOf_known {s : String} (h : KnownDecoder s) : ∃ a, algOf s = .ok a := by
  rcases h with rfl | rfl
  · exact ⟨.viterbi, rfl⟩
  · exact ⟨.map, rfl⟩

theorem implOf_known {s : String} (h : KnownImplementation s) : ∃ i, implOf s = .ok i := by
  rcases h with rfl | rfl
  · exact ⟨.log, rfl⟩
  · exact ⟨.scaling, rfl⟩

theorem implOf_unknown {s : String} (h : ¬ KnownImplementation s) : implOf s = .error (.keyError s) := by
  unfold KnownImplementation at h
  push Not at h
  rw [implOf, if_neg h.2, if_neg h.1]

include hc

/-- **C94** For every class: a decoder of another name (argument of `decode`, or the object's own if the
argument is missing or empty) raises ValueError, whatever the data. -/
theorem C94_decoder (X : RawX XF) (ls : Option (List Int)) :
    (∀ alg, ¬ KnownDecoder (chosen alg e'.algorithm) →
      S.decode X ls alg e = (.error (.valueError "Unknown decoder"), e')) ∧
    (¬ KnownDecoder e'.algorithm → S.predict X ls e = (.error (.valueError "Unknown decoder"), e')) := by
  have key : ∀ alg, ¬ KnownDecoder (chosen alg e'.algorithm) →
      S.decode X ls alg e = (.error (.valueError "Unknown decoder"), e') := by
    intro alg h
    simp only [Sub.decode, Sub.decodeBody, Py.bind_apply, Py.get_apply, hc, Py.lift_apply, pyOr_eq, algOf_unknown h]
  exact ⟨key, fun h => by simp only [Sub.predict, Py.bind_apply, key none h]⟩

/-- **C94** For every class: an array that is not acceptable makes every inference method raise ValueError. -/
theorem C94_data {X : RawX XF} (hX : ¬ AcceptableX X) (ls : Option (List Int)) : ∃ msg,
    (∀ p, S.scoreSamples X ls p e = (.error (.valueError msg), e')) ∧
    S.score X ls e = (.error (.valueError msg), e') ∧
    S.predictProba X ls e = (.error (.valueError msg), e') ∧
    (∀ alg, KnownDecoder (chosen alg e'.algorithm) → S.decode X ls alg e = (.error (.valueError msg), e')) ∧
    (KnownDecoder e'.algorithm → S.predict X ls e = (.error (.valueError msg), e')) := by
  obtain ⟨msg, hm⟩ := (C94_check_array X).2 hX
  have h1 : ∀ p, S.scoreSamples X ls p e = (.error (.valueError msg), e') := fun p => by
    simp only [Sub.scoreSamples, Sub.scoreBody, Py.bind_apply, Py.get_apply, hc, hm, Py.lift_apply]
  have h2 : ∀ alg, KnownDecoder (chosen alg e'.algorithm) → S.decode X ls alg e = (.error (.valueError msg), e') := by
    intro alg h
    obtain ⟨a, ha⟩ := algOf_known h
    simp only [Sub.decode, Sub.decodeBody, Py.bind_apply, Py.get_apply, hc, Py.lift_apply, pyOr_eq, ha, hm]
  refine ⟨msg, h1, ?_, ?_, h2, fun h => ?_⟩
  · simp only [Sub.score, Py.bind_apply, h1]
  · simp only [Sub.predictProba, Py.bind_apply, h1]
  · simp only [Sub.predict, Py.bind_apply, h2 none h]

/-- **C94** For every class: with acceptable data an implementation of another name raises KeyError in
`score` and its kin. -/
theorem C94_implementation {X : RawX XF} (hX : AcceptableX X) (hi : ¬ KnownImplementation e'.implementation)
    (ls : Option (List Int)) :
    (∀ p, S.scoreSamples X ls p e = (.error (.keyError e'.implementation), e')) ∧
    S.score X ls e = (.error (.keyError e'.implementation), e') ∧
    S.predictProba X ls e = (.error (.keyError e'.implementation), e') := by
  obtain ⟨X', hx, -⟩ := (C94_check_array X).1 hX
  have h1 : ∀ p, S.scoreSamples X ls p e = (.error (.keyError e'.implementation), e') := fun p => by
    simp only [Sub.scoreSamples, Sub.scoreBody, Py.bind_apply, Py.get_apply, hc, hx, Py.lift_apply, implOf_unknown hi]
  refine ⟨h1, ?_, ?_⟩
  · simp only [Sub.score, Py.bind_apply, h1]
  · simp only [Sub.predictProba, Py.bind_apply, h1]

end

/-! ## lengths -/

theorem splitXLengths_raise {β : Type} {X : List β} {ls : Option (List Int)} {err : PyErr}
    (h : splitXLengths X ls = .error err) : LengthsRaise X.length ls err := by
  cases ls with
  | none => cases h
  | some l =>
    by_cases hl : l = []
    · subst hl
      cases h
      exact .inl ⟨rfl, rfl⟩
    · by_cases hs : l.sum = X.length
      · simp only [splitXLengths, cumsumInt_getLast? 0 l hl, zero_add, hs, ne_eq, not_true, if_false] at h
        cases h
      · obtain ⟨msg, hm⟩ := C15_split_rejects X l hl hs
        rw [hm] at h
        cases h
        exact .inr ⟨l, rfl, hl, hs, msg, rfl⟩

/-- `lengths` cut `n` samples. -/
def Spec.LengthsCut (n : ℕ) (ls : Option (List Int)) : Prop := ∀ l, ls = some l → l ≠ [] ∧ l.sum = n

theorem splitXLengths_error {β : Type} (X : List β) {ls : Option (List Int)} (h : ¬ LengthsCut X.length ls) :
    ∃ err, splitXLengths X ls = .error err := by
  unfold LengthsCut at h
  push Not at h
  obtain ⟨l, rfl, h⟩ := h
  by_cases hl : l = []
  · subst hl; exact ⟨_, rfl⟩
  · obtain ⟨msg, hm⟩ := C15_split_rejects X l hl (h hl)
    exact ⟨_, hm⟩

/-- The error depends on the number of samples only. -/
theorem splitXLengths_error_length {β γ : Type} {X : List β} {Y : List γ} (hn : X.length = Y.length)
    {ls : Option (List Int)} {err : PyErr} (h : splitXLengths X ls = .error err) : splitXLengths Y ls = .error err := by
  cases ls with
  | none => cases h
  | some l =>
    simp only [splitXLengths] at h ⊢
    cases hl : (cumsumInt 0 l).getLast? with
    | none => rw [hl] at h; simpa using h
    | some last =>
      rw [hl] at h
      simp only [hn] at h ⊢
      by_cases hs : last = Y.length
      · simp [hs] at h
      · simpa [hs] using h

/-- The emission code reads one observation per row. -/
def Sub.RowsKept (S : Sub XF G P) : Prop := ∀ nf X rows, S.rows nf X = .ok rows → rows.length = X.n

section
variable {S : Sub XF G P} (hS : S.RowsKept)
include hS

theorem withModel_lengths {β : Type} (e : Est XF G P) (impl : Impl) (X : XArr XF) {ls : Option (List Int)} {err : PyErr}
    (h : splitXLengths (List.replicate X.n ()) ls = .error err)
    (k : {nc : Nat} → {Obs : Type} → [NeZero nc] → Hmm XF nc Obs → List Obs → Except PyErr β)
    (hk : ∀ {nc : Nat} {Obs : Type} [NeZero nc] (m : Hmm XF nc Obs) (rows : List Obs),
      splitXLengths rows ls = .error err → k m rows = .error err) :
    S.withModel e impl X ls k = .error err := by
  unfold Sub.withModel
  cases S.ready e with
  | none => simp only [h]; rfl
  | some r =>
    cases hr : S.rows r.nf X with
    | error e2 => simp only [hr, h]; rfl
    | ok rows =>
      simp only [hr]
      haveI : NeZero e.nComponents := ⟨r.pos⟩
      exact hk _ _ (splitXLengths_error_length (by simp [hS _ _ _ hr]) h)

/-- **C94** For every class whose emission code reads row by row: wrong `lengths` are reported first, whatever the
parameters and the entries of `X` are. -/
theorem C94_lengths {e e' : Est XF G P} (hc : S.checkFitted e = (.ok (), e')) {X : RawX XF} (hX : AcceptableX X)
    (hi : KnownImplementation e'.implementation) {ls : Option (List Int)} (hl : ¬ LengthsCut (keptRows X) ls) :
    ∃ err, LengthsRaise (keptRows X) ls err ∧
    (∀ p, S.scoreSamples X ls p e = (.error err, e')) ∧ S.score X ls e = (.error err, e') ∧
    S.predictProba X ls e = (.error err, e') ∧
    (∀ alg, KnownDecoder (chosen alg e'.algorithm) → S.decode X ls alg e = (.error err, e')) ∧
    (KnownDecoder e'.algorithm → S.predict X ls e = (.error err, e')) := by
  obtain ⟨X', hx, hn⟩ := (C94_check_array X).1 hX
  have hlen : (List.replicate X'.n ()).length = keptRows X := by simp [hn]
  obtain ⟨err, he⟩ := splitXLengths_error (List.replicate X'.n ()) (ls := ls) (by rw [hlen]; exact hl)
  obtain ⟨i, hi⟩ := implOf_known hi
  have h1 : ∀ p, S.scoreSamples X ls p e = (.error err, e') := fun p => by
    simp only [Sub.scoreSamples, Sub.scoreBody, Py.bind_apply, Py.get_apply, hc, hx, Py.lift_apply, hi]
    rw [withModel_lengths hS e' i X' he]
    intro nc Obs _ m rows h
    simp only [scoreCore, h]
    rfl
  have h2 : ∀ alg, KnownDecoder (chosen alg e'.algorithm) → S.decode X ls alg e = (.error err, e') := by
    intro alg h
    obtain ⟨a, ha⟩ := algOf_known h
    simp only [Sub.decode, Sub.decodeBody, Py.bind_apply, Py.get_apply, hc, Py.lift_apply, pyOr_eq, ha, hx]
    cases a with
    | viterbi =>
      simp only [Py.lift_apply]
      rw [withModel_lengths hS e' .log X' he]
      intro nc Obs _ m rows h
      simp only [Verif.decode, h]
      rfl
    | map =>
      simp only [hi, Py.lift_apply]
      rw [withModel_lengths hS e' i X' he]
      intro nc Obs _ m rows h
      simp only [Verif.decode, h]
      rfl
  refine ⟨err, hlen ▸ splitXLengths_raise he, h1, ?_, ?_, h2, fun h => ?_⟩
  · simp only [Sub.score, Py.bind_apply, h1]
  · simp only [Sub.predictProba, Py.bind_apply, h1]
  · simp only [Sub.predict, Py.bind_apply, h2 none h]

end

theorem catSub_rowsKept : (catSub (α := XF) (G := G)).RowsKept := by
  intro nf X rows h
  cases X with
  | floats r => cases h
  | @ints d r =>
    by_cases hd : d = 1
    · subst hd
      have : catRows (.ints r : XArr XF) = .ok (r.map fun r => r 0) := by simp [catRows]
      rw [← Except.ok.inj (this.symm.trans h)]
      exact List.length_map _
    · have : catRows (.ints r : XArr XF) = .error .notImplemented := by simp [catRows, hd]
      cases this.symm.trans h

theorem countRowsOf_length {d nf : ℕ} {l : List (Fin d → ℤ)} {rows : List (Fin nf → ℤ)}
    (h : countRowsOf nf l = .ok rows) : rows.length = l.length := by
  unfold countRowsOf at h
  split at h
  · rw [← Except.ok.inj h]; exact List.length_map _
  · cases h

theorem countRows_length {nf : ℕ} {X : XArr XF} {rows : List (Fin nf → ℤ)} (h : countRows nf X = .ok rows) :
    rows.length = X.n := by
  cases X with
  | floats r =>
    unfold countRows at h
    dsimp only at h
    split at h
    · exact (countRowsOf_length h).trans (List.length_map _)
    · cases h
  | ints r => exact countRowsOf_length h

theorem poisRowsOf_length {d nf : ℕ} {l : List (Fin d → ℤ)} {rows : List (Fin nf → ℤ)} (h : poisRowsOf nf l = .ok rows) :
    rows.length = l.length := by
  unfold poisRowsOf at h
  split at h
  · rw [← Except.ok.inj h]; exact List.length_map _
  · split at h
    · rw [← Except.ok.inj h]; exact List.length_map _
    · split at h <;> cases h

theorem poisRows_length {nf : ℕ} {X : XArr XF} {rows : List (Fin nf → ℤ)} (h : poisRows nf X = .ok rows) :
    rows.length = X.n := by
  cases X with
  | floats r => exact (poisRowsOf_length h).trans (List.length_map _)
  | ints r => exact poisRowsOf_length h

theorem floatRows_length (X : XArr XF) : X.floatRows.length = X.n := by
  cases X with
  | ints r => exact List.length_map _
  | floats r => rfl

theorem gaussRows_length {nf : ℕ} {X : XArr XF} {rows : List (Fin nf → XF)} (h : gaussRows nf X = .ok rows) :
    rows.length = X.n := by
  rw [← floatRows_length X]
  unfold gaussRows at h
  split at h
  · rw [← Except.ok.inj h]; exact List.length_map _
  · split at h
    · rw [← Except.ok.inj h]; exact List.length_map _
    · split at h <;> cases h

theorem poisSub_rowsKept : (poisSub (α := XF) (G := G)).RowsKept := fun _ _ _ h => poisRows_length h

theorem multiSub_rowsKept : (multiSub (α := XF) (G := G)).RowsKept := fun _ _ _ h => countRows_length h

theorem gaussSub_rowsKept (eig : Eigvalsh XF) : (gaussDiagSub (G := G) eig).RowsKept ∧
    (gaussSphericalSub (G := G) eig).RowsKept ∧ (gaussTiedSub (G := G) eig).RowsKept ∧
    (gaussFullSub (G := G) eig).RowsKept :=
  ⟨fun _ _ _ h => gaussRows_length h, fun _ _ _ h => gaussRows_length h, fun _ _ _ h => gaussRows_length h,
    fun _ _ _ h => gaussRows_length h⟩

theorem gmmSub_rowsKept {nm : ℕ} [NeZero nm] (T : GmmType XF nm) : (gmmSub (G := G) T).RowsKept :=
  fun _ _ _ h => gaussRows_length h

/-! ## fit -/

/-- **C94** For every class: `fit` on an array that is not acceptable raises ValueError and changes nothing,
neither attributes nor the state of the random generators. -/
theorem C94_fit (S : Sub XF G P) (R : RandomLib XF G) {X : RawX XF} (hX : ¬ AcceptableX X) (ls : Option (List Int))
    (w : World XF G P) : ∃ msg, S.fit R X ls w = (.error (.valueError msg), w) := by
  obtain ⟨msg, hm⟩ := (C94_check_array X).2 hX
  exact ⟨msg, by simp only [Sub.fit, Py.bind_apply, hm, Py.lift_apply]⟩

end Verif
