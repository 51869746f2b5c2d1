import Verif.Spec.OneColumn
import Verif.Props.Rejects
import Verif.Model.VGaussEstimator
/-
C101: data with one column, given to a model of several features.
-/
set_option autoImplicit false

namespace Verif
open FloatLike XF Spec

variable {β G P Q : Type} {R : RandomLib XF G}

/-- How the arrays `mk d l` arrive in the emission code. -/
structure Arrives (mk : (d : ℕ) → List (Fin d → β) → RawX XF) (arr : (d : ℕ) → List (Fin d → β) → XArr XF) : Prop where
  empty : ∀ d l, l.length = 0 ∨ d = 0 →
    checkArray (mk d l) = .error (.valueError "Found array with 0 sample(s) or feature(s)")
  array : ∀ d l, ¬ (l.length = 0 ∨ d = 0) → checkArray (mk d l) = .ok (arr d l)
  n : ∀ d l, (arr d l).n = l.length
  d : ∀ d l, (arr d l).d = d

section
variable {mk : (d : ℕ) → List (Fin d → β) → RawX XF} {arr : (d : ℕ) → List (Fin d → β) → XArr XF}

theorem checkArray_one (hA : Arrives mk arr) {nf : ℕ} (hf : 0 < nf) (l : List (Fin 1 → β)) :
    (∃ e, checkArray (mk 1 l) = .error e ∧ checkArray (mk nf (repeated nf l)) = .error e) ∨
    (checkArray (mk 1 l) = .ok (arr 1 l) ∧ checkArray (mk nf (repeated nf l)) = .ok (arr nf (repeated nf l))) := by
  have hn : (repeated nf l).length = l.length := List.length_map _
  by_cases h : l.length = 0
  · exact .inl ⟨_, hA.empty _ _ (.inl h), hA.empty _ _ (.inl (hn.trans h))⟩
  · exact .inr ⟨hA.array _ _ (by omega), hA.array _ _ (by omega)⟩

theorem withModel_one (hA : Arrives mk arr) {S : Sub XF G P} (hS : ∀ nf l, S.rows nf (arr 1 l) = S.rows nf (arr nf (repeated nf l))) {γ : Type} {e : Est XF G P} {nf : ℕ}
    (he : e.nFeatures = some nf) (impl : Impl) (l : List (Fin 1 → β)) (ls : Option (List Int))
    (k : {nc : Nat} → {Obs : Type} → [NeZero nc] → Hmm XF nc Obs → List Obs → Except PyErr γ) :
    S.withModel e impl (arr 1 l) ls k = S.withModel e impl (arr nf (repeated nf l)) ls k := by
  have hn : (arr 1 l).n = (arr nf (repeated nf l)).n := by
    rw [hA.n, hA.n]; exact (List.length_map _).symm
  unfold Sub.withModel
  cases hr : S.ready e with
  | none => simp only [hn]
  | some r =>
    have : r.nf = nf := Option.some.inj ((Sub.ready_nf hr).symm.trans he)
    have hrow : S.rows r.nf (arr 1 l) = S.rows r.nf (arr nf (repeated nf l)) := by rw [this]; exact hS nf l
    simp only [hrow, hn]

theorem scoreBody_one (hA : Arrives mk arr) {S : Sub XF G P} (hS : ∀ nf l, S.rows nf (arr 1 l) = S.rows nf (arr nf (repeated nf l))) {e : Est XF G P} {nf : ℕ}
    (hf : 0 < nf) (he : e.nFeatures = some nf) (l : List (Fin 1 → β)) (ls : Option (List Int)) (b : Bool) :
    S.scoreBody (mk 1 l) ls b e = S.scoreBody (mk nf (repeated nf l)) ls b e := by
  unfold Sub.scoreBody
  rcases checkArray_one hA hf l with ⟨_, h1, h2⟩ | ⟨h1, h2⟩
  · rw [h1, h2]
  · rw [h1, h2]
    exact congrArg (fun f => (Py.lift (implOf e.implementation) >>= f) e)
      (funext fun impl => congrArg Py.lift (withModel_one hA hS he impl l ls _))

theorem decodeBody_one (hA : Arrives mk arr) {S : Sub XF G P} (hS : ∀ nf l, S.rows nf (arr 1 l) = S.rows nf (arr nf (repeated nf l))) {e : Est XF G P} {nf : ℕ}
    (hf : 0 < nf) (he : e.nFeatures = some nf) (l : List (Fin 1 → β)) (ls : Option (List Int)) (alg : Option String) :
    S.decodeBody (mk 1 l) ls alg e = S.decodeBody (mk nf (repeated nf l)) ls alg e := by
  have hn : (arr 1 l).n = (arr nf (repeated nf l)).n := by
    rw [hA.n, hA.n]; exact (List.length_map _).symm
  unfold Sub.decodeBody
  rcases checkArray_one hA hf l with ⟨_, h1, h2⟩ | ⟨h1, h2⟩
  · rw [h1, h2]
  · rw [h1, h2]
    refine congrArg (fun f => (Py.lift (algOf (pyOr alg e.algorithm)) >>= f) e) (funext fun a => ?_)
    cases a with
    | viterbi => exact congrArg Py.lift (withModel_one hA hS he .log l ls _)
    | map =>
      show (match implOf e.implementation with | .error err => _ | .ok impl => _) =
        (match implOf e.implementation with | .error err => _ | .ok impl => _)
      cases implOf e.implementation with
      | error err => dsimp only; rw [hn]
      | ok impl => exact congrArg Py.lift (withModel_one hA hS he impl l ls _)

/-- Columns that do not broadcast. -/
theorem withModel_other {S : Sub XF G P} {γ : Type} {e : Est XF G P} {d nf : ℕ}
    (hS : ∀ l, ∃ msg, S.rows nf (arr d l) = .error (.valueError msg)) (he : e.nFeatures = some nf) (impl : Impl) (l : List (Fin d → β))
    (ls : Option (List Int))
    (k : {nc : Nat} → {Obs : Type} → [NeZero nc] → Hmm XF nc Obs → List Obs → Except PyErr γ) :
    ∃ err, S.withModel e impl (arr d l) ls k = .error err ∧ (ls ≠ some [] → ∃ msg, err = .valueError msg) := by
  have hsplit : ∀ msg, ∃ err, (do
      let _ ← splitXLengths (List.replicate (arr d l).n ()) ls
      (.error (.valueError msg) : Except PyErr γ)) = .error err ∧ (ls ≠ some [] → ∃ msg, err = .valueError msg) := by
    intro msg
    cases hs : splitXLengths (List.replicate (arr d l).n ()) ls with
    | ok v => exact ⟨_, rfl, fun _ => ⟨msg, rfl⟩⟩
    | error err =>
      refine ⟨err, rfl, fun hne => ?_⟩
      cases ls with
      | none => cases hs
      | some ns =>
        cases ns with
        | nil => exact absurd rfl hne
        | cons a ns =>
          unfold splitXLengths at hs
          dsimp only at hs
          split at hs
          · next hl => simp [cumsumInt] at hl
          · split at hs
            · cases hs; exact ⟨_, rfl⟩
            · cases hs
  unfold Sub.withModel
  cases hr : S.ready e with
  | none => exact hsplit _
  | some r =>
    have : r.nf = nf := Option.some.inj ((Sub.ready_nf hr).symm.trans he)
    obtain ⟨msg, hm⟩ := hS l
    rw [← this] at hm
    simp only [hm]
    exact hsplit msg

theorem scoreBody_other (hA : Arrives mk arr) {S : Sub XF G P} {e : Est XF G P} {d nf : ℕ}
    (hS : ∀ l, ∃ msg, S.rows nf (arr d l) = .error (.valueError msg)) (he : e.nFeatures = some nf) (l : List (Fin d → β)) (ls : Option (List Int))
    (b : Bool) : ∃ err, S.scoreBody (mk d l) ls b e = (.error err, e) ∧
      (e.implementation = "log" ∨ e.implementation = "scaling" → ls ≠ some [] → ∃ msg, err = .valueError msg) := by
  unfold Sub.scoreBody
  by_cases h : l.length = 0 ∨ d = 0
  · rw [hA.empty _ _ h]
    exact ⟨_, rfl, fun _ _ => ⟨_, rfl⟩⟩
  · rw [hA.array _ _ h]
    show ∃ err, (Py.lift (implOf e.implementation) >>= fun impl => _) e = _ ∧ _
    cases hi : implOf e.implementation with
    | error err =>
      refine ⟨err, rfl, fun hl => ?_⟩
      rcases hl with hl | hl <;> simp [implOf, hl] at hi
    | ok impl =>
      obtain ⟨err, hw, hv⟩ := withModel_other hS he impl l ls
        (fun m rows => (scoreCore m rows ls b).map fun r => (r.1, r.2.map List.ofFn))
      refine ⟨err, ?_, fun _ => hv⟩
      refine (Py.bind_ok (s' := e) (b := impl) rfl).trans ?_
      exact congrArg (fun r => Py.lift r e) hw

theorem decodeBody_other (hA : Arrives mk arr) {S : Sub XF G P} {e : Est XF G P} {d nf : ℕ}
    (hS : ∀ l, ∃ msg, S.rows nf (arr d l) = .error (.valueError msg)) (he : e.nFeatures = some nf) (l : List (Fin d → β)) (ls : Option (List Int))
    (alg : Option String) : ∃ err, S.decodeBody (mk d l) ls alg e = (.error err, e) := by
  unfold Sub.decodeBody
  show ∃ err, (Py.lift (algOf (pyOr alg e.algorithm)) >>= fun a => _) e = _
  cases ha : algOf (pyOr alg e.algorithm) with
  | error err => exact ⟨err, rfl⟩
  | ok a =>
    rw [Py.bind_ok (x := Py.lift (.ok a)) (s' := e) (b := a) rfl]
    by_cases h : l.length = 0 ∨ d = 0
    · rw [hA.empty _ _ h]
      exact ⟨_, rfl⟩
    · rw [hA.array _ _ h]
      cases a with
      | viterbi =>
        obtain ⟨err, hw, -⟩ := withModel_other hS he .log l ls
          (fun m rows => (Verif.decode m .viterbi rows ls).map fun r => (r.1, r.2.map Fin.val))
        exact ⟨err, congrArg (fun r => Py.lift r e) hw⟩
      | map =>
        show ∃ err, (match implOf e.implementation with | .error err => _ | .ok impl => _ : Py _ _) e = _
        cases implOf e.implementation with
        | error err =>
          dsimp only
          cases splitXLengths (List.replicate (arr d l).n ()) ls with
          | error err' => exact ⟨err', rfl⟩
          | ok v => exact ⟨err, rfl⟩
        | ok impl =>
          obtain ⟨err, hw, -⟩ := withModel_other hS he impl l ls
            (fun m rows => (Verif.decode m .map rows ls).map fun r => (r.1, r.2.map Fin.val))
          exact ⟨err, congrArg (fun r => Py.lift r e) hw⟩

/-- The inference methods, from the two bodies and any checks before them. -/
noncomputable def bodies (S : Sub XF G P) (check : Py (Est XF G P) Unit) : Inference G P where
  check := check
  scoreSamples X ls b := do check; S.scoreBody X ls b
  score X ls := do let r ← (do check; S.scoreBody X ls false); return r.1
  predictProba X ls := do let r ← (do check; S.scoreBody X ls true); return r.2
  decode X ls alg := do check; S.decodeBody X ls alg
  predict X ls := do let r ← (do check; S.decodeBody X ls none); return r.2

theorem bind_same {σ γ δ : Type} {x y : Py σ γ} {f : γ → Py σ δ} {s : σ} (h : x s = y s) : (x >>= f) s = (y >>= f) s := by
  rw [Py.bind_apply, Py.bind_apply, h]

theorem one_of_bodies {check : Py (Est XF G P) Unit} (hA : Arrives mk arr) {S : Sub XF G P}
    (hS : ∀ nf l, S.rows nf (arr 1 l) = S.rows nf (arr nf (repeated nf l))) : OneColumnRepeated mk (bodies S check) := by
  have hs : ∀ nf (l : List (Fin 1 → β)) ls b e, 0 < nf → FittedWith check nf e →
      (bodies S check).scoreSamples (mk 1 l) ls b e = (bodies S check).scoreSamples (mk nf (repeated nf l)) ls b e := by
    rintro nf l ls b e hf ⟨e', hc, he⟩
    refine (Py.bind_ok hc).trans (Eq.trans ?_ (Py.bind_ok hc).symm)
    exact scoreBody_one hA hS hf he l ls b
  have hd : ∀ nf (l : List (Fin 1 → β)) ls alg e, 0 < nf → FittedWith check nf e →
      (bodies S check).decode (mk 1 l) ls alg e = (bodies S check).decode (mk nf (repeated nf l)) ls alg e := by
    rintro nf l ls alg e hf ⟨e', hc, he⟩
    refine (Py.bind_ok hc).trans (Eq.trans ?_ (Py.bind_ok hc).symm)
    exact decodeBody_one hA hS hf he l ls alg
  refine ⟨hs, ?_, ?_, hd, ?_⟩
  · intro nf l ls e hf h
    exact bind_same (hs nf l ls false e hf h)
  · intro nf l ls e hf h
    exact bind_same (hs nf l ls true e hf h)
  · intro nf l ls e hf h
    exact bind_same (hd nf l ls none e hf h)

theorem raise_of_bodies {check : Py (Est XF G P) Unit} (hA : Arrives mk arr) {S : Sub XF G P} {d nf : ℕ}
    (hS : ∀ l, ∃ msg, S.rows nf (arr d l) = .error (.valueError msg)) : ColumnsRaise mk (bodies S check) d nf := by
  have hs : ∀ (l : List (Fin d → β)) ls b e e', check e = (.ok (), e') → e'.nFeatures = some nf →
      ∃ err, (bodies S check).scoreSamples (mk d l) ls b e = (.error err, e') ∧
        (e'.implementation = "log" ∨ e'.implementation = "scaling" → ls ≠ some [] → ∃ msg, err = .valueError msg) := by
    intro l ls b e e' hc he
    obtain ⟨err, hb, hv⟩ := scoreBody_other hA hS he l ls b
    exact ⟨err, (Py.bind_ok hc).trans hb, hv⟩
  have hd : ∀ (l : List (Fin d → β)) ls alg e e', check e = (.ok (), e') → e'.nFeatures = some nf →
      ∃ err, (bodies S check).decode (mk d l) ls alg e = (.error err, e') := by
    intro l ls alg e e' hc he
    obtain ⟨err, hb⟩ := decodeBody_other hA hS he l ls alg
    exact ⟨err, (Py.bind_ok hc).trans hb⟩
  refine ⟨?_, ?_, ?_, ?_, ?_⟩
  · intro l ls e e' hc he
    obtain ⟨err, hb, hv⟩ := hs l ls false e e' hc he
    exact ⟨err, congrArg Prod.fst (Py.bind_error hb), hv⟩
  · rintro l ls b e ⟨e', hc, he⟩
    obtain ⟨err, hb, -⟩ := hs l ls b e e' hc he
    exact ⟨err, congrArg Prod.fst hb⟩
  · rintro l ls e ⟨e', hc, he⟩
    obtain ⟨err, hb, -⟩ := hs l ls true e e' hc he
    exact ⟨err, congrArg Prod.fst (Py.bind_error hb)⟩
  · rintro l ls alg e ⟨e', hc, he⟩
    obtain ⟨err, hb⟩ := hd l ls alg e e' hc he
    exact ⟨err, congrArg Prod.fst hb⟩
  · rintro l ls e ⟨e', hc, he⟩
    obtain ⟨err, hb⟩ := hd l ls none e e' hc he
    exact ⟨err, congrArg Prod.fst (Py.bind_error hb)⟩

theorem refuses_of (hA : Arrives mk arr) {S : Sub XF G P} (hS : ∀ X, S.checkFeatures X = checkFeaturesBase X) :
    FitRefuses mk (fun w : World XF G P => w.est.nFeatures) (S.fit R) := by
  intro d nf l ls w hw hd
  unfold Sub.fit
  by_cases h : l.length = 0 ∨ d = 0
  · rw [hA.empty _ _ h]
    exact ⟨_, rfl⟩
  · rw [hA.array _ _ h]
    refine ⟨"Unexpected number of dimensions", ?_⟩
    have hc : onEst (S.checkFeatures (arr d l)) w = (.error (.valueError "Unexpected number of dimensions"), w) := by
      unfold onEst
      rw [hS]
      unfold checkFeaturesBase
      have hw : w.est.nFeatures = some nf := hw
      rw [hw]
      dsimp only
      rw [if_pos (by rw [hA.d]; exact Ne.symm hd)]
    have hb : S.initBase R (arr d l) w = (.error (.valueError "Unexpected number of dimensions"), w) := Py.bind_error hc
    have hi : S.init R (arr d l) w = (.error (.valueError "Unexpected number of dimensions"), w) := Py.bind_error hb
    exact (Py.bind_ok (x := Py.lift (.ok (arr d l))) (s' := w) (b := arr d l) rfl).trans (Py.bind_error hi)

theorem vrefuses_of (hA : Arrives mk arr) {V : VSub XF G Q} (hV : ∀ X, V.core.checkFeatures X = checkFeaturesBase X) :
    FitRefuses mk (fun w : World XF G (VAttrs XF Q) => w.est.nFeatures) (V.fit R) := by
  intro d nf l ls w hw hd
  unfold VSub.fit
  by_cases h : l.length = 0 ∨ d = 0
  · rw [hA.empty _ _ h]
    exact ⟨_, rfl⟩
  · rw [hA.array _ _ h]
    refine ⟨"Unexpected number of dimensions", ?_⟩
    have hc : onEst (V.core.checkFeatures (arr d l)) w = (.error (.valueError "Unexpected number of dimensions"), w) := by
      unfold onEst
      rw [hV]
      unfold checkFeaturesBase
      have hw : w.est.nFeatures = some nf := hw
      rw [hw]
      dsimp only
      rw [if_pos (by rw [hA.d]; exact Ne.symm hd)]
    have hb : ∀ lens, V.initBase R (arr d l) lens w = (.error (.valueError "Unexpected number of dimensions"), w) :=
      fun _ => Py.bind_error hc
    have hi : ∀ lens, V.init R (arr d l) lens w = (.error (.valueError "Unexpected number of dimensions"), w) :=
      fun lens => Py.bind_error (hb lens)
    exact (Py.bind_ok (x := Py.lift (.ok (arr d l))) (s' := w) (b := arr d l) rfl).trans (Py.bind_error (hi _))

end

/-! ## The arrays -/

theorem arrives_reals : Arrives (fun d => realsX (nf := d)) fun d l => .floats (d := d) (l.map Gaussian.row) where
  empty d l h := if_pos h
  array d l h := by
    refine (checkArray_reals_of _ (by omega) (by omega)).trans ?_
    exact congrArg (fun r => Except.ok (XArr.floats r)) (ofFn_get_map l Gaussian.row)
  n d l := List.length_map _
  d _ _ := rfl

theorem arrives_ints : Arrives (fun d => intsX (nf := d)) fun d l => .ints (d := d) l where
  empty d l h := if_pos h
  array d l h := by
    refine (checkArray_ints_of _ (by omega) (by omega)).trans ?_
    exact congrArg (fun r => Except.ok (XArr.ints r)) ((ofFn_get_map l id).trans (List.map_id _))
  n d l := rfl
  d _ _ := rfl

theorem gaussRows_one (nf : ℕ) (l : List (Fin 1 → ℝ)) :
    gaussRows (α := XF) nf (.floats (l.map Gaussian.row)) = gaussRows nf (.floats ((repeated nf l).map Gaussian.row)) := by
  have h2 : gaussRows (α := XF) nf (.floats ((repeated nf l).map Gaussian.row)) = .ok ((repeated nf l).map Gaussian.row) := by
    refine (dif_pos rfl).trans (congrArg Except.ok ?_)
    exact List.map_id _
  rw [h2]
  by_cases h : 1 = nf
  · subst h
    refine (dif_pos rfl).trans (congrArg Except.ok ?_)
    have : repeated 1 l = l := by
      refine (List.map_congr_left fun x _ => ?_).trans (List.map_id l)
      funext k
      rw [Subsingleton.elim k 0]
      rfl
    rw [this]
    exact List.map_id _
  · refine (dif_neg h).trans ((dif_pos rfl).trans (congrArg Except.ok ?_))
    show ((l.map Gaussian.row).map fun r (_ : Fin nf) => r 0) = _
    unfold repeated
    rw [List.map_map, List.map_map]
    rfl

theorem gaussRows_other {d nf : ℕ} (X : XArr XF) (hX : X.d = d) (h1 : d ≠ 1) (h2 : nf ≠ 1) (h3 : d ≠ nf) :
    ∃ msg, gaussRows nf X = .error (.valueError msg) := by
  subst hX
  exact ⟨_, (dif_neg h3).trans ((dif_neg h1).trans (if_neg h2))⟩

theorem poisRows_one (nf : ℕ) (l : List (Fin 1 → ℤ)) :
    poisRows (α := XF) nf (.ints l) = poisRows (α := XF) nf (.ints (repeated nf l)) := by
  have h2 : poisRows (α := XF) nf (.ints (repeated nf l)) = .ok (repeated nf l) := by
    refine (dif_pos rfl).trans (congrArg Except.ok ?_)
    exact List.map_id _
  rw [h2]
  by_cases h : 1 = nf
  · subst h
    have h1 : poisRows (α := XF) 1 (.ints l) = .ok (l.map id) := by
      simp only [poisRows, poisRowsOf, dite_true]
      rfl
    rw [h1]
    refine congrArg Except.ok ?_
    have : repeated 1 l = l := by
      refine (List.map_congr_left fun x _ => ?_).trans (List.map_id l)
      funext k
      rw [Subsingleton.elim k 0]
      rfl
    rw [this]
    exact List.map_id _
  · exact (dif_neg h).trans ((dif_pos rfl).trans rfl)

theorem poisRows_other {d nf : ℕ} (h1 : d ≠ 1) (h2 : nf ≠ 1) (h3 : d ≠ nf) (l : List (Fin d → ℤ)) :
    ∃ msg, poisRows (α := XF) nf (.ints l) = .error (.valueError msg) :=
  ⟨_, (dif_neg h3).trans ((dif_neg h1).trans (if_neg h2))⟩

theorem countRows_other {d nf : ℕ} (h3 : d ≠ nf) (l : List (Fin d → ℤ)) :
    ∃ msg, countRows (α := XF) nf (.ints l) = .error (.valueError msg) := ⟨_, dif_neg h3⟩

/-! ## The classes -/

/-- **C101** The class takes one column for `nf` equal columns in the inference methods, and refuses it in `fit`. -/
structure TakesOneColumn (mk : (d : ℕ) → List (Fin d → β) → RawX XF) (M : Inference G P)
    (fit : RawX XF → Option (List ℤ) → Py (World XF G P) Unit) : Prop where
  one : OneColumnRepeated mk M
  other : ∀ d nf, d ≠ 1 → nf ≠ 1 → d ≠ nf → ColumnsRaise mk M d nf
  fit : FitRefuses mk (fun w : World XF G P => w.est.nFeatures) fit

theorem takes_reals {S : Sub XF G P} (hc : ∀ X, S.checkFeatures X = checkFeaturesBase X)
    (hone : ∀ nf (l : List (Fin 1 → ℝ)), S.rows nf (.floats (l.map Gaussian.row)) =
      S.rows nf (.floats ((repeated nf l).map Gaussian.row)))
    (hother : ∀ nf (X : XArr XF), X.d ≠ 1 → nf ≠ 1 → X.d ≠ nf → ∃ msg, S.rows nf X = .error (.valueError msg)) :
    TakesOneColumn (fun d => realsX (nf := d)) (inference S) (S.fit R) :=
  ⟨one_of_bodies arrives_reals hone, fun d nf h1 h2 h3 => raise_of_bodies arrives_reals fun l => hother nf _ h1 h2 h3,
    refuses_of arrives_reals hc⟩

theorem C101_gauss_diag (eig : Eigvalsh XF) :
    TakesOneColumn (fun d => realsX (nf := d)) (inference (gaussDiagSub (G := G) eig)) ((gaussDiagSub eig).fit R) :=
  takes_reals (fun _ => rfl) gaussRows_one fun _ X => gaussRows_other X rfl

theorem C101_gauss_spherical (eig : Eigvalsh XF) :
    TakesOneColumn (fun d => realsX (nf := d)) (inference (gaussSphericalSub (G := G) eig)) ((gaussSphericalSub eig).fit R) :=
  takes_reals (fun _ => rfl) gaussRows_one fun _ X => gaussRows_other X rfl

theorem C101_gauss_full (eig : Eigvalsh XF) :
    TakesOneColumn (fun d => realsX (nf := d)) (inference (gaussFullSub (G := G) eig)) ((gaussFullSub eig).fit R) :=
  takes_reals (fun _ => rfl) gaussRows_one fun _ X => gaussRows_other X rfl

theorem C101_gauss_tied (eig : Eigvalsh XF) :
    TakesOneColumn (fun d => realsX (nf := d)) (inference (gaussTiedSub (G := G) eig)) ((gaussTiedSub eig).fit R) :=
  takes_reals (fun _ => rfl) gaussRows_one fun _ X => gaussRows_other X rfl

/-- Every covariance type. -/
theorem C101_gmm {nm : ℕ} [NeZero nm] (T : GmmType XF nm) :
    TakesOneColumn (fun d => realsX (nf := d)) (inference (gmmSub (G := G) T)) ((gmmSub T).fit R) :=
  takes_reals (fun _ => rfl) gaussRows_one fun _ X => gaussRows_other X rfl

/-- Every covariance type. -/
theorem C101_vgauss (L : VLayout XF G) (sci : Sci XF) (eig : Eigvalsh XF) :
    TakesOneColumn (fun d => realsX (nf := d)) (vinference (vgaussSub L sci eig)) ((vgaussSub L sci eig).fit R) :=
  ⟨one_of_bodies (S := (vgaussSub L sci eig).core) arrives_reals gaussRows_one,
    fun _ _ h1 h2 h3 => raise_of_bodies (S := (vgaussSub L sci eig).core) arrives_reals
      fun _ => gaussRows_other _ rfl h1 h2 h3,
    vrefuses_of arrives_reals fun _ => rfl⟩

theorem C101_poisson :
    TakesOneColumn (fun d => intsX (nf := d)) (inference (poisSub (G := G))) (poisSub.fit R) :=
  ⟨one_of_bodies arrives_ints poisRows_one, fun _ _ h1 h2 h3 => raise_of_bodies arrives_ints (poisRows_other h1 h2 h3),
    refuses_of arrives_ints fun _ => rfl⟩

/-- `MultinomialHMM` raises for every wrong number of columns, one column included. -/
theorem C101_multinomial (d nf : ℕ) (h : d ≠ nf) :
    ColumnsRaise (fun d => intsX (nf := d)) (inference (multiSub (G := G))) d nf :=
  raise_of_bodies arrives_ints (countRows_other h)

end Verif
