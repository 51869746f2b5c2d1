import Verif.Spec.Objects
import Verif.Props.Decoding
import Verif.Props.Usable

/-!
# C71: what the methods of an estimator object compute from its attributes
-/

set_option autoImplicit false

namespace Verif
open FloatLike XF Hmmc Spec
open scoped Classical

variable {D G P Obs : Type} {nc : ℕ}

/-! ## All classes -/

theorem samples_map (obs : D → Obs) (ss : List (ObsSeq D)) : (samples ss).map obs = dataX obs ss := by
  simp only [samples, dataX, List.map_flatten, List.map_map]
  congr 1
  refine List.map_congr_left fun s _ => ?_
  simp [ObsSeq.rows, Function.comp_def, List.map_ofFn]

theorem samples_ne {ss : List (ObsSeq D)} (h : ss ≠ []) : samples ss ≠ [] := by
  cases ss with
  | nil => exact absurd rfl h
  | cons s ss => simp [samples]

section
variable [NeZero nc]

/-- One sequence: `lengths=None` is the same as its length. -/
theorem scoreCore_lengths (m : Hmm XF nc Obs) (obs : D → Obs) {ss : List (ObsSeq D)} {ls : Option (List Int)}
    (h : LengthsFor ss ls) (cp : Bool) : scoreCore m (dataX obs ss) ls cp =
      scoreCore m (dataX obs ss) (some (dataLengths ss)) cp := by
  rcases h with rfl | ⟨⟨s, rfl⟩, rfl⟩
  · rfl
  · rw [scoreCore_data m obs [s] (by simp)]
    have : dataX obs [s] = s.rows obs := by simp [dataX]
    rw [this]
    simp only [List.mapM_cons, List.mapM_nil]
    cases scoreCore m (s.rows obs) none cp with
    | error e => rfl
    | ok p =>
      simp [bind, Except.bind, pure, Except.pure, Except.map, sumL]
      exact Prod.ext (zero_add_xf _).symm rfl

theorem decode_lengths (m : Hmm XF nc Obs) (alg : Alg) (obs : D → Obs) {ss : List (ObsSeq D)} {ls : Option (List Int)}
    (h : LengthsFor ss ls) : decode m alg (dataX obs ss) ls = decode m alg (dataX obs ss) (some (dataLengths ss)) := by
  rcases h with rfl | ⟨⟨s, rfl⟩, rfl⟩
  · rfl
  · rw [decode_data m alg obs [s] (by simp)]
    have : dataX obs [s] = s.rows obs := by simp [dataX]
    rw [this]
    simp only [List.mapM_cons, List.mapM_nil]
    cases decode m alg (s.rows obs) none with
    | error e => rfl
    | ok p =>
      simp [bind, Except.bind, pure, Except.pure, Except.map, sumL]
      exact Prod.ext (zero_add_xf _).symm rfl

end

theorem pyOr_eq (a : Option String) (d : String) : pyOr a d = chosen a d := by
  cases a with
  | none => rfl
  | some s => rfl

theorem implOf_name (i : Impl) : implOf (implName i) = .ok i := by cases i <;> rfl

/-- The object `e` becomes `e'` in `_check` and then holds the parameters `θ`, which stand for
`π`, `A`, `b`; `X` encodes samples. -/
structure Backs (S : Sub XF G P) (e e' : Est XF G P) (X : List D → RawX XF) (r : Ready S e') (obs : D → S.Obs r.nf)
    (π : Fin e'.nComponents → ℝ) (A : Fin e'.nComponents → Fin e'.nComponents → ℝ)
    (b : D → Fin e'.nComponents → ℝ) : Prop where
  check : S.checkFitted e = (.ok (), e')
  impl : e'.implementation = e.implementation
  alg : e'.algorithm = e.algorithm
  ready : S.ready e' = some r
  rep : ∀ impl, Represents ((S.emission e'.sub e'.nComponents r.nf).toHmm impl r.θ) obs π A b
  data : ∀ l, l ≠ [] → ∃ X', checkArray (X l) = .ok X' ∧ S.rows r.nf X' = .ok (l.map obs)

section
variable {S : Sub XF G P} {e e' : Est XF G P} {X : List D → RawX XF} {r : Ready S e'} {obs : D → S.Obs r.nf}
  {π : Fin e'.nComponents → ℝ} {A : Fin e'.nComponents → Fin e'.nComponents → ℝ}
  {b : D → Fin e'.nComponents → ℝ}

theorem Backs.withModel {β : Type} (h : Backs S e e' X r obs π A b) {ss : List (ObsSeq D)} (hne : ss ≠ [])
    {X' : XArr XF} (hX : S.rows r.nf X' = .ok ((samples ss).map obs)) (impl : Impl) (ls : Option (List Int))
    (k : {nc : Nat} → {Obs : Type} → [NeZero nc] → Hmm XF nc Obs → List Obs → Except PyErr β) :
    S.withModel e' impl X' ls k = (haveI : NeZero e'.nComponents := ⟨r.pos⟩
      k ((S.emission e'.sub e'.nComponents r.nf).toHmm impl r.θ) (dataX obs ss)) := by
  unfold Sub.withModel
  rw [h.ready]
  simp only [hX]
  rw [samples_map]

theorem Backs.scoreSamples (h : Backs S e e' X r obs π A b) {ss : List (ObsSeq D)} (hne : ss ≠ [])
    {impl : Impl} (hi : e.implementation = implName impl) {ls : Option (List Int)} (hl : LengthsFor ss ls) (p : Bool) :
    (S.scoreSamples (X (samples ss)) ls p e).1 = (haveI : NeZero e'.nComponents := ⟨r.pos⟩
      (scoreCore ((S.emission e'.sub e'.nComponents r.nf).toHmm impl r.θ) (dataX obs ss)
        (some (dataLengths ss)) p).map fun q => (q.1, q.2.map List.ofFn)) := by
  haveI : NeZero e'.nComponents := ⟨r.pos⟩
  obtain ⟨X', h1, h2⟩ := h.data _ (samples_ne hne)
  have hi' : implOf e'.implementation = .ok impl := by rw [h.impl, hi, implOf_name]
  simp only [Sub.scoreSamples, Sub.scoreBody, Py.bind_apply, Py.get_apply, h.check, h1, Py.lift_apply, hi']
  rw [h.withModel hne h2, scoreCore_lengths _ obs hl]

theorem Backs.decode (h : Backs S e e' X r obs π A b) {ss : List (ObsSeq D)} (hne : ss ≠ [])
    {alg : Option String} {a : Alg} (ha : algOf (pyOr alg e.algorithm) = .ok a) {impl : Impl}
    (hi : a = .map → e.implementation = implName impl) (hv : a = .viterbi → impl = .log)
    {ls : Option (List Int)} (hl : LengthsFor ss ls) :
    (S.decode (X (samples ss)) ls alg e).1 = (haveI : NeZero e'.nComponents := ⟨r.pos⟩
      (Verif.decode ((S.emission e'.sub e'.nComponents r.nf).toHmm impl r.θ) a (dataX obs ss)
        (some (dataLengths ss))).map fun q => (q.1, q.2.map Fin.val)) := by
  haveI : NeZero e'.nComponents := ⟨r.pos⟩
  obtain ⟨X', h1, h2⟩ := h.data _ (samples_ne hne)
  have ha' : algOf (pyOr alg e'.algorithm) = .ok a := by rw [h.alg, ha]
  simp only [Sub.decode, Sub.decodeBody, Py.bind_apply, Py.get_apply, h.check, h1, Py.lift_apply, ha']
  cases a with
  | viterbi =>
    rw [hv rfl]
    simp only [Py.lift_apply]
    rw [h.withModel hne h2, decode_lengths _ _ obs hl]
  | map =>
    have hi' : implOf e'.implementation = .ok impl := by rw [h.impl, hi rfl, implOf_name]
    simp only [hi', Py.lift_apply]
    rw [h.withModel hne h2, decode_lengths _ _ obs hl]

/-- **C71** for every class: an object whose parameters stand for a model answers for this model. -/
theorem Backs.answers (h : Backs S e e' X r obs π A b) : Answers S e X π A b where
  score hi ss ls hne hl := by
    haveI : NeZero e'.nComponents := ⟨r.pos⟩
    have := C01_score_log (h.rep .log) rfl ss hne
    have h2 := h.scoreSamples hne (impl := .log) hi hl false
    simp only [Sub.score, Py.bind_apply]
    generalize S.scoreSamples (X (samples ss)) ls false e = q at h2
    obtain ⟨q1, q2⟩ := q
    simp only at h2
    subst h2
    unfold score at this
    revert this
    cases scoreCore ((S.emission e'.sub e'.nComponents r.nf).toHmm .log r.θ) (dataX obs ss)
        (some (dataLengths ss)) false with
    | error err => intro this; cases this
    | ok v => intro this; exact this
  score_scaling hi ss ls hne hl := by
    haveI : NeZero e'.nComponents := ⟨r.pos⟩
    rw [← C02_score_scaling (h.rep .scaling) rfl ss hne]
    have h2 := h.scoreSamples hne (impl := .scaling) hi hl false
    simp only [Sub.score, Py.bind_apply]
    generalize S.scoreSamples (X (samples ss)) ls false e = q at h2
    obtain ⟨q1, q2⟩ := q
    simp only at h2
    subst h2
    unfold score
    cases scoreCore ((S.emission e'.sub e'.nComponents r.nf).toHmm .scaling r.θ) (dataX obs ss)
        (some (dataLengths ss)) false <;> rfl
  proba impl hi ss ls hne hl hok := by
    haveI : NeZero e'.nComponents := ⟨r.pos⟩
    have := C04_predict_proba (h.rep impl) ss hne hok
    have h2 := h.scoreSamples hne hi hl true
    simp only [Sub.predictProba, Py.bind_apply]
    generalize S.scoreSamples (X (samples ss)) ls true e = q at h2
    obtain ⟨q1, q2⟩ := q
    simp only at h2
    subst h2
    unfold predictProba Verif.scoreSamples at this
    revert this
    cases scoreCore ((S.emission e'.sub e'.nComponents r.nf).toHmm impl r.θ) (dataX obs ss)
        (some (dataLengths ss)) true with
    | error err => intro this; cases this
    | ok v =>
      intro this
      simp only [Except.map, Except.ok.injEq] at this
      show Except.ok (v.2.map List.ofFn) = _
      rw [this, List.map_flatten, List.map_map]
      congr 2
      refine List.map_congr_left fun s _ => ?_
      simp [List.map_ofFn, Function.comp_def]
  viterbi alg ha ss ls hne hl := by
    haveI : NeZero e'.nComponents := ⟨r.pos⟩
    obtain ⟨z, h1, h2⟩ := C08_viterbi_optimal (h.rep .log) ss hne
    refine ⟨z, ?_, h2⟩
    rw [h.decode hne (a := .viterbi) (by rw [pyOr_eq, ha]; rfl) (impl := .log) (by simp) (fun _ => rfl) hl, h1]
    simp only [Except.map, List.map_flatten, List.map_map]
    congr 3
    refine List.map_congr_left fun s _ => ?_
    simp [List.map_ofFn, Function.comp_def]
  map alg ha impl hi ss ls hne hl hok := by
    haveI : NeZero e'.nComponents := ⟨r.pos⟩
    obtain ⟨z, h1, h2⟩ := C12_map_argmax (h.rep impl) ss hne hok
    refine ⟨z, ?_, h2⟩
    rw [h.decode hne (a := .map) (by rw [pyOr_eq, ha]; rfl) (fun _ => hi) (by simp) hl, h1]
    simp only [Except.map, List.map_flatten, List.map_map]
    congr 3
    refine List.map_congr_left fun s _ => ?_
    simp [List.map_ofFn, Function.comp_def]
  predict ss ls := by
    simp only [Sub.predict, Py.bind_apply]
    cases S.decode (X (samples ss)) ls none e with
    | mk q1 q2 => cases q1 <;> rfl

end

/-! ## From attributes to parameters -/

theorem nc_pos {n : ℕ} {π : Fin n → ℝ} (h : NearOne (∑ i, π i)) : n ≠ 0 := by
  rintro rfl
  simp [NearOne] at h
  norm_num at h

theorem asRow_vec {n : ℕ} (π : Fin n → ℝ) : asRow n (vec π) = some fun i => fin (π i) := by
  unfold vec asRow
  simp

theorem asMat_mat {m n : ℕ} (A : Fin m → Fin n → ℝ) : asMat m n (mat A) = some fun i j => fin (A i j) := by
  unfold mat asMat
  simp

theorem asCube_cube {l m n : ℕ} (A : Fin l → Fin m → Fin n → ℝ) :
    asCube l m n (cube A) = some fun i j k => fin (A i j k) := by
  unfold cube asCube
  simp

theorem Sub.ready_of {S : Sub XF G P} {e : Est XF G P} {nf : ℕ} (h0 : e.nComponents ≠ 0)
    (hnf : e.nFeatures = some nf) {π : Fin e.nComponents → ℝ} {A : Fin e.nComponents → Fin e.nComponents → ℝ}
    (hπ : e.startprob = some (vec π)) (hA : e.transmat = some (mat A)) {p : S.Params e.nComponents nf}
    (hr : S.read e.sub e.nComponents nf = some p) :
    S.ready e = some ⟨nf, h0, ⟨fun i => fin (π i), fun i j => fin (A i j), p⟩⟩ := by
  unfold Sub.ready
  rw [dif_neg h0]
  simp only [hnf]
  simp only [hπ, hA, Option.bind_eq_bind, Option.bind_some, asRow_vec, asMat_mat, hr]
  rfl

theorem Spec.HoldsChain.base {e : Est XF G P} {π : Fin e.nComponents → ℝ} {A : Fin e.nComponents → Fin e.nComponents → ℝ}
    (h : HoldsChain e π A) : checkBase e = .ok () :=
  ((C30_check e π A h.startprob h.transmat).1).2 ⟨rfl, rfl, rfl, h.π_sum, h.A_sum⟩

theorem Spec.HoldsChain.fitted {S : Sub XF G P} {e : Est XF G P} {π : Fin e.nComponents → ℝ}
    {A : Fin e.nComponents → Fin e.nComponents → ℝ} (h : HoldsChain e π A) : S.checkFitted e = S.checkSub e := by
  rw [Sub.checkFitted_eq, Sub.check_eq, h.base, h.startprob]
  rfl

/-! ## Data -/

theorem checkArray_ints_of {d : ℕ} {m : ℕ} (v : Fin m → Fin d → ℤ) (hm : m ≠ 0) (hd : d ≠ 0) :
    checkArray (α := XF) (.ints (.d2 v)) = .ok (.ints (List.ofFn v)) := by
  simp [checkArray, hm, hd]

theorem checkArray_reals_of {d : ℕ} {m : ℕ} (v : Fin m → Fin d → ℝ) (hm : m ≠ 0) (hd : d ≠ 0) :
    checkArray (α := XF) (.floats (.d2 fun i j => fin (v i j))) = .ok (.floats (List.ofFn fun i j => fin (v i j))) := by
  simp [checkArray, hm, hd, Gaussian.isFinite_fin]

theorem ofFn_get_map {α β : Type} (l : List α) (f : α → β) : (List.ofFn fun i => f (l.get i)) = l.map f := by
  conv_rhs => rw [← List.ofFn_get l]
  rw [List.map_ofFn]
  rfl

theorem symbols_data {nf : ℕ} (l : List (Fin nf)) (hl : l ≠ []) : ∃ X', checkArray (symbolsX l) = .ok X' ∧
    catRows (α := XF) X' = .ok (l.map Categorical.sym) := by
  refine ⟨_, checkArray_ints_of _ (by simpa using hl) one_ne_zero, ?_⟩
  simp only [catRows, dite_true, List.map_ofFn, Function.comp_def]
  congr 1
  exact ofFn_get_map l Categorical.sym

theorem counts_data {nf : ℕ} (hf : nf ≠ 0) (l : List (Fin nf → ℕ)) (hl : l ≠ []) :
    ∃ X', checkArray (countsX l) = .ok X' ∧ countRows (α := XF) nf X' = .ok (l.map Poisson.row) := by
  refine ⟨_, checkArray_ints_of _ (by simpa using hl) hf, ?_⟩
  simp only [countRows, countRowsOf, dite_true, List.map_ofFn, Function.comp_def]
  congr 1
  exact ofFn_get_map l Poisson.row

theorem pois_data {nf : ℕ} (hf : nf ≠ 0) (l : List (Fin nf → ℕ)) (hl : l ≠ []) :
    ∃ X', checkArray (countsX l) = .ok X' ∧ poisRows (α := XF) nf X' = .ok (l.map Poisson.row) := by
  refine ⟨_, checkArray_ints_of _ (by simpa using hl) hf, ?_⟩
  simp only [poisRows, poisRowsOf, dite_true, List.map_ofFn, Function.comp_def]
  congr 1
  exact ofFn_get_map l Poisson.row

theorem reals_data {nf : ℕ} (hf : nf ≠ 0) (l : List (Fin nf → ℝ)) (hl : l ≠ []) :
    ∃ X', checkArray (realsX l) = .ok X' ∧ gaussRows (α := XF) nf X' = .ok (l.map Gaussian.row) := by
  refine ⟨_, checkArray_reals_of _ (by simpa using hl) hf, ?_⟩
  have : (XArr.floats (List.ofFn fun (i : Fin l.length) (j : Fin nf) => fin (l.get i j)) : XArr XF).d = nf := rfl
  simp only [gaussRows, this, dite_true, XArr.floatRows]
  congr 1
  exact (List.map_ofFn (f := fun i j => fin (l.get i j)) (g := fun r : Fin nf → XF => r)).trans
    (ofFn_get_map l Gaussian.row)

/-- **C71** for every class, from the attributes. -/
theorem answers_of {S : Sub XF G P} {e : Est XF G P} {π : Fin e.nComponents → ℝ}
    {A : Fin e.nComponents → Fin e.nComponents → ℝ} (h : HoldsChain e π A) {nf : ℕ} {p : P}
    (hc : S.checkSub e = (.ok (), { e with nFeatures := some nf, sub := p })) {θ : S.Params e.nComponents nf}
    (hr : S.read p e.nComponents nf = some θ) {X : List D → RawX XF} (obs : D → S.Obs nf)
    {b : D → Fin e.nComponents → ℝ}
    (hrep : ∀ impl, Represents ((S.emission p e.nComponents nf).toHmm impl
      ⟨fun i => fin (π i), fun i j => fin (A i j), θ⟩) obs π A b)
    (hX : ∀ l, l ≠ [] → ∃ X', checkArray (X l) = .ok X' ∧ S.rows nf X' = .ok (l.map obs)) : Answers S e X π A b :=
  Backs.answers (e' := { e with nFeatures := some nf, sub := p })
    (r := ⟨nf, nc_pos h.π_sum, ⟨fun i => fin (π i), fun i j => fin (A i j), θ⟩⟩) (obs := obs)
    { check := h.fitted.trans hc
      impl := rfl
      alg := rfl
      ready := Sub.ready_of (e := { e with nFeatures := some nf, sub := p }) (nc_pos h.π_sum) rfl h.startprob h.transmat hr
      rep := hrep
      data := hX }

/-! ## The classes -/

/-- **C71** `CategoricalHMM`. -/
theorem C71_categorical {nf : ℕ} (e : Est XF G (CatAttrs XF)) (π : Fin e.nComponents → ℝ)
    (A : Fin e.nComponents → Fin e.nComponents → ℝ) (B : Fin e.nComponents → Fin nf → ℝ) (h : HoldsCat e π A B) :
    Answers catSub e symbolsX π A (catB B) := by
  have hs : e.startprob.isSome := by rw [h.chain.startprob]; rfl
  obtain ⟨h1, h2, -⟩ := C30_categorical e B h.chain.base hs h.emissionprob
  have hok := h1.2 ⟨rfl, by
    cases hn : e.nFeatures with
    | none => rfl
    | some n => exact (h.features n hn).symm, h.sum⟩
  refine answers_of h.chain (S := catSub) (h.chain.fitted.symm.trans (Prod.ext hok (h2 hok))) (asMat_mat B)
    Categorical.sym (fun impl => ?_) symbols_data
  exact Categorical.represents _ impl h.chain.π_nonneg h.chain.A_nonneg h.nonneg

/-- **C71** `MultinomialHMM`. -/
theorem C71_multinomial {nf : ℕ} (e : Est XF G (MultiAttrs XF)) (π : Fin e.nComponents → ℝ)
    (A : Fin e.nComponents → Fin e.nComponents → ℝ) (B : Fin e.nComponents → Fin nf → ℝ) (h : HoldsMulti e π A B) :
    Answers multiSub e countsX π A (multinomialB B) := by
  haveI : NeZero e.nComponents := ⟨nc_pos h.chain.π_sum⟩
  have hnf : nf ≠ 0 := by
    rintro rfl
    have := h.sum ⟨0, Nat.pos_of_ne_zero (NeZero.ne _)⟩
    simp at this
  have hc : multiSub.checkSub e = (.ok (), { e with nFeatures := some nf, sub := { e.sub with emissionprob := some (mat B) } }) := by
    have hn : e.nFeatures.getD nf = nf := by
      cases hn : e.nFeatures with
      | none => rfl
      | some n => exact h.features n hn
    have hsh : (mat B).shape = [e.nComponents, nf] := rfl
    have ha : atleast2d (mat B) = mat B := rfl
    have ht := h.trials
    rw [Option.isSome_iff_ne_none] at ht
    simp [multiSub, multiCheck, h.emissionprob, ha, hsh, hn, Option.isNone_iff_eq_none, ht]
  let F := Multinomial.family (nc := e.nComponents) (nf := nf) []
  let q : Multinomial.Rows e.nComponents nf := ⟨B, h.nonneg, h.sum⟩
  refine answers_of h.chain (S := multiSub) hc (asMat_mat B) Multinomial.row (fun impl => ?_) (counts_data hnf)
  exact { startprob_eq := rfl, transmat_eq := rfl, π_nonneg := h.chain.π_nonneg, A_nonneg := h.chain.A_nonneg
          b_nonneg := F.b_nonneg q, lik_eq := F.lik_eq q, loglik_eq := F.loglik_eq q }

/-- **C71** `PoissonHMM`. -/
theorem C71_poisson {nf : ℕ} (hf : nf ≠ 0) (e : Est XF G (PoisAttrs XF)) (π : Fin e.nComponents → ℝ)
    (A : Fin e.nComponents → Fin e.nComponents → ℝ) (l : Fin e.nComponents → Fin nf → ℝ) (h : HoldsPois e π A l) :
    Answers poisSub e countsX π A (poissonB l) := by
  haveI : NeZero e.nComponents := ⟨nc_pos h.chain.π_sum⟩
  have hc : poisSub.checkSub e = (.ok (), { e with nFeatures := some nf, sub := { e.sub with lambdas := some (mat l) } }) := by
    have hn : e.nFeatures.getD nf = nf := by
      cases hn : e.nFeatures with
      | none => rfl
      | some n => exact h.features n hn
    have hsh : (mat l).shape = [e.nComponents, nf] := rfl
    have ha : atleast2d (mat l) = mat l := rfl
    simp [poisSub, poisCheck, h.lambdas, ha, hsh, hn]
  let F := Poisson.family (nc := e.nComponents) (nf := nf) (fun _ _ => 0) (fun _ _ => 0) (by simp) (by simp) []
  let q : Poisson.Rates e.nComponents nf := ⟨l, h.nonneg⟩
  refine answers_of h.chain (S := poisSub) hc (asMat_mat l) Poisson.row (fun impl => ?_) (pois_data hf)
  exact { startprob_eq := rfl, transmat_eq := rfl, π_nonneg := h.chain.π_nonneg, A_nonneg := h.chain.A_nonneg
          b_nonneg := F.b_nonneg q, lik_eq := F.lik_eq q, loglik_eq := F.loglik_eq q }

section gaussian
variable {nf : ℕ} (hf : nf ≠ 0) {eig : Eigvalsh XF} (e : Est XF G (GaussAttrs XF)) (π : Fin e.nComponents → ℝ)
  (A : Fin e.nComponents → Fin e.nComponents → ℝ) (mu : Fin e.nComponents → Fin nf → ℝ)
include hf

omit hf in
theorem Spec.HoldsGauss.check {c : NdArray XF} {e : Est XF G (GaussAttrs XF)} {π : Fin e.nComponents → ℝ}
    {A : Fin e.nComponents → Fin e.nComponents → ℝ} {mu : Fin e.nComponents → Fin nf → ℝ}
    (h : HoldsGauss e π A mu c) : gaussCheck e = (.ok (), { e with nFeatures := some nf, sub := e.sub }) := by
  have hsh : (mat mu).shape[1]? = some nf := rfl
  simp [gaussCheck, h.means, hsh]

omit hf in
theorem diagB_eq {mu v : Fin nc → Fin nf → ℝ} (hv : ∀ i k, tinyVar ≤ v i k) : diagB mu v = normalB mu v := by
  funext x i
  simp only [diagB, normalB, effVar_eq (hv i _)]

omit hf in
theorem fullB_eq {mu : Fin nc → Fin nf → ℝ} {S : Fin nc → Matrix (Fin nf) (Fin nf) ℝ} (hS : ∀ i, (S i).PosDef) :
    fullB mu S = mvnB mu S := by
  funext x i
  simp only [fullB, mvnB, effCov, if_pos (hS i)]

/-- **C71** `GaussianHMM(covariance_type="diag")`; the variances are at least the smallest normal double. -/
theorem C71_gaussian_diag (v : Fin e.nComponents → Fin nf → ℝ) (hv : ∀ i k, tinyVar ≤ v i k)
    (h : HoldsGauss e π A mu (mat v)) : Answers (gaussDiagSub eig) e realsX π A (normalB mu v) := by
  haveI : NeZero e.nComponents := ⟨nc_pos h.chain.π_sum⟩
  let F := Gaussian.diagFamily (nc := e.nComponents) (nf := nf) ⟨fun _ _ => 0, 0, 0⟩ (fun _ _ => 0) []
  let q : Gaussian.RDiag e.nComponents nf := ⟨mu, v⟩
  rw [← diagB_eq hv]
  refine answers_of h.chain (S := gaussDiagSub eig) h.check
    (θ := ⟨fun i k => fin (mu i k), fun i k => fin (v i k)⟩) ?_ Gaussian.row (fun impl => ?_) (reals_data hf)
  · simp only [gaussDiagSub, h.means, h.covars, Option.bind_eq_bind, Option.bind_some, asMat_mat]
    rfl
  · exact { startprob_eq := rfl, transmat_eq := rfl, π_nonneg := h.chain.π_nonneg, A_nonneg := h.chain.A_nonneg
            b_nonneg := F.b_nonneg q, lik_eq := F.lik_eq q, loglik_eq := F.loglik_eq q }

/-- **C71** `GaussianHMM(covariance_type="spherical")`, in each of the arrays the variances may be stored in. -/
theorem C71_gaussian_spherical (s : Fin e.nComponents → ℝ) (hs : ∀ i, tinyVar ≤ s i) {c : NdArray XF}
    (hc : StoresSpherical e.nComponents nf s c) (h : HoldsGauss e π A mu c) :
    Answers (gaussSphericalSub eig) e realsX π A (normalB mu fun i _ => s i) := by
  haveI : NeZero e.nComponents := ⟨nc_pos h.chain.π_sum⟩
  haveI : NeZero nf := ⟨hf⟩
  let F := Gaussian.sphFamily (nc := e.nComponents) (nf := nf) ⟨fun _ _ => 0, 0, 0⟩ (fun _ _ => 0) []
  let q : Gaussian.RSph e.nComponents nf := ⟨mu, s⟩
  rw [← diagB_eq fun i _ => hs i]
  refine answers_of h.chain (S := gaussSphericalSub eig) h.check
    (θ := ⟨fun i k => fin (mu i k), fun i _ => fin (s i)⟩) ?_ Gaussian.row (fun impl => ?_) (reals_data hf)
  · have : asSpherical e.nComponents nf c = some fun i _ => fin (s i) := by
      cases hc with
      | scalar => simp [asSpherical, asMat, asRow, vec, mat]
      | column =>
        by_cases h1 : 1 = nf
        · subst h1; simp [asSpherical, asMat, asRow, vec, mat]
        · simp [asSpherical, asMat, asRow, vec, mat, h1]
      | tiled => simp [asSpherical, asMat, asRow, vec, mat]
    simp only [gaussSphericalSub, h.means, h.covars, Option.bind_eq_bind, Option.bind_some, asMat_mat, this]
    rfl
  · exact { startprob_eq := rfl, transmat_eq := rfl, π_nonneg := h.chain.π_nonneg, A_nonneg := h.chain.A_nonneg
            b_nonneg := F.b_nonneg q, lik_eq := F.lik_eq q, loglik_eq := F.loglik_eq q }

/-- **C71** `GaussianHMM(covariance_type="full")`. -/
theorem C71_gaussian_full (C : Fin e.nComponents → Matrix (Fin nf) (Fin nf) ℝ) (hC : ∀ i, (C i).PosDef)
    (h : HoldsGauss e π A mu (cube C)) : Answers (gaussFullSub eig) e realsX π A (mvnB mu C) := by
  haveI : NeZero e.nComponents := ⟨nc_pos h.chain.π_sum⟩
  let F := Gaussian.fullFamily (nc := e.nComponents) (nf := nf) ⟨fun _ _ => 0, 0, 0⟩ le_rfl (fun _ => 0)
    (fun _ => Matrix.PosSemidef.zero) []
  let q : Gaussian.RFull e.nComponents nf := ⟨mu, C, fun i => (hC i).posSemidef⟩
  rw [← fullB_eq hC]
  refine answers_of h.chain (S := gaussFullSub eig) h.check
    (θ := ⟨fun i k => fin (mu i k), fun i k l => fin (C i k l)⟩) ?_ Gaussian.row (fun impl => ?_) (reals_data hf)
  · have : asCube e.nComponents nf nf (cube C) = some fun i k l => fin (C i k l) := asCube_cube C
    simp only [gaussFullSub, h.means, h.covars, Option.bind_eq_bind, Option.bind_some, asMat_mat, this]
    rfl
  · exact { startprob_eq := rfl, transmat_eq := rfl, π_nonneg := h.chain.π_nonneg, A_nonneg := h.chain.A_nonneg
            b_nonneg := F.b_nonneg q, lik_eq := F.lik_eq q, loglik_eq := F.loglik_eq q }

/-- **C71** `GaussianHMM(covariance_type="tied")`. -/
theorem C71_gaussian_tied (C : Matrix (Fin nf) (Fin nf) ℝ) (hC : C.PosDef)
    (h : HoldsGauss e π A mu (mat C)) : Answers (gaussTiedSub eig) e realsX π A (mvnB mu fun _ => C) := by
  haveI : NeZero e.nComponents := ⟨nc_pos h.chain.π_sum⟩
  let F := Gaussian.tiedFamily (nc := e.nComponents) (nf := nf) ⟨fun _ _ => 0, 0, 0⟩ le_rfl 0
    Matrix.PosSemidef.zero []
  let q : Gaussian.RTied e.nComponents nf := ⟨mu, C, hC.posSemidef⟩
  rw [← fullB_eq fun _ => hC]
  refine answers_of h.chain (S := gaussTiedSub eig) h.check
    (θ := ⟨fun i k => fin (mu i k), fun k l => fin (C k l)⟩) ?_ Gaussian.row (fun impl => ?_) (reals_data hf)
  · have : asMat nf nf (mat C) = some fun k l => fin (C k l) := asMat_mat C
    simp only [gaussTiedSub, h.means, h.covars, Option.bind_eq_bind, Option.bind_some, asMat_mat, this]
    rfl
  · exact { startprob_eq := rfl, transmat_eq := rfl, π_nonneg := h.chain.π_nonneg, A_nonneg := h.chain.A_nonneg
            b_nonneg := F.b_nonneg q, lik_eq := F.lik_eq q, loglik_eq := F.loglik_eq q }

end gaussian

end Verif
