import Verif.Props.Symbols
import Verif.Props.Validation

/-!
# C33 and C34: trial counts and numbers of features are remembered
-/

namespace Verif
open FloatLike Spec

variable {α G : Type} [FloatLike α]

namespace Spec

/-- The row totals of `X` agree with `n_trials`: a number, one number per row, or — numpy's
broadcasting — a single-entry list, or several numbers against a single row. -/
def TrialsMatch (X : XArr α) : NTrials → Prop
  | .scalar n => ∀ t s, RowTotal X t s → s = n
  | .perRow l =>
    if l.length = X.n then ∀ t s, RowTotal X t s → l[t]? = some s
    else if l.length = 1 then ∀ t s, RowTotal X t s → l = [s]
    else X.n = 1 ∧ ∀ t s, RowTotal X t s → ∀ n ∈ l, n = s

/-- What `MultinomialHMM.fit` demands of its data. -/
def CountsOk (nf : Option Nat) (trials : Option NTrials) (X : XArr α) : Prop :=
  (∀ n, nf = some n → X.d = n) ∧ Integral X ∧ (∀ k, HasSymbol X k → 0 ≤ k) ∧
    ∀ t, trials = some t → TrialsMatch X t

end Spec

/-! ## C33 -/

theorem checkFeaturesBase_eq {P : Type} (X : XArr α) (e : Est α G P) :
    (∃ n, e.nFeatures = some n ∧ X.d ≠ n ∧ ∃ msg, checkFeaturesBase X e = (.error (.valueError msg), e)) ∨
      ((∀ n, e.nFeatures = some n → X.d = n) ∧
        checkFeaturesBase X e = (.ok (), { e with nFeatures := some X.d })) := by
  unfold checkFeaturesBase
  cases hn : e.nFeatures with
  | none => right; exact ⟨by simp, rfl⟩
  | some n =>
    by_cases h : n = X.d
    · right
      refine ⟨fun m hm => by simp at hm; omega, ?_⟩
      subst h
      simp only [ne_eq, not_true_eq_false, if_false]
      rw [← hn]
    · left
      refine ⟨n, rfl, Ne.symm h, _, by simp only [ne_eq, h, not_false_eq_true, if_true]; rfl⟩

theorem rowTotals_get {d : Nat} (rows : List (Fin d → Int)) (t : Nat) (s : Int) :
    (rowTotals rows)[t]? = some s ↔ RowTotal (α := α) (.ints rows) t s := by
  simp only [rowTotals, List.getElem?_map, Option.map_eq_some_iff, RowTotal]
  refine exists_congr fun r => and_congr_right fun _ => ?_
  rw [← List.ofFn_eq_map, List.sum_ofFn]

theorem totalsMatch_iff {d : Nat} (rows : List (Fin d → Int)) (hr : rows ≠ []) (t : NTrials) :
    totalsMatch (rowTotals rows) t = true ↔ TrialsMatch (α := α) (.ints rows) t := by
  have hlen : (rowTotals rows).length = rows.length := by simp [rowTotals]
  have hpos : rows.length ≠ 0 := by simpa using hr
  have hall : ∀ p : Int → Prop, (∀ s ∈ rowTotals rows, p s) ↔
      ∀ t s, RowTotal (α := α) (.ints rows) t s → p s := by
    intro p
    simp only [← rowTotals_get, List.mem_iff_getElem?]
    exact ⟨fun h t s hs => h s ⟨t, hs⟩, fun h s ⟨t, hs⟩ => h t s hs⟩
  cases t with
  | scalar n =>
    simp only [totalsMatch, TrialsMatch, List.all_eq_true, beq_iff_eq]
    exact hall _
  | perRow l =>
    have hXn : (XArr.ints rows : XArr α).n = rows.length := rfl
    simp only [totalsMatch, TrialsMatch, hlen]
    by_cases h1 : rows.length = l.length
    · rw [if_pos h1, if_pos (h1.symm.trans hXn.symm), beq_iff_eq]
      simp only [← rowTotals_get]
      constructor
      · rintro rfl t s h; exact h
      · intro h
        apply List.ext_getElem? fun t => ?_
        cases ht : (rowTotals rows)[t]? with
        | some s => exact (h t s ht).symm
        | none =>
          rw [List.getElem?_eq_none_iff] at ht
          symm; rw [List.getElem?_eq_none_iff]; omega
    · rw [if_neg h1, if_neg (fun h => h1 (h.trans hXn).symm)]
      by_cases h2 : l.length = 1
      · obtain ⟨n, rfl⟩ := List.length_eq_one_iff.1 h2
        rw [if_pos h2]
        simp only [List.all_eq_true, beq_iff_eq, List.cons.injEq, and_true]
        have := hall (fun s => s = n)
        rw [this]
        simp only [eq_comm]
      · rw [if_neg h2]
        cases hl : rowTotals rows with
        | nil => rw [hl] at hlen; simp at hlen; omega
        | cons t0 ts =>
          cases ts with
          | nil =>
            have hn : rows.length = 1 := by rw [hl] at hlen; simpa using hlen.symm
            have := hall (fun s => ∀ n ∈ l, n = s)
            rw [hl] at this
            simp only [hXn, hn, true_and, ← this]
            cases l with
            | nil => simp
            | cons a l =>
              cases l with
              | nil => simp at h2
              | cons b l =>
                simp only [List.all_eq_true, beq_iff_eq, List.mem_singleton, forall_eq]
                exact forall₂_congr fun _ _ => eq_comm
          | cons t1 ts =>
            have hn : rows.length ≠ 1 := by rw [hl] at hlen; simp at hlen; omega
            simp only [hXn, hn, false_and, iff_false]
            cases l with
            | nil => simp
            | cons a l =>
              cases l with
              | nil => simp at h2
              | cons b l => simp

/-- **C33.** The validation step of `MultinomialHMM.fit`: accepted data, with `n_trials` becoming
the totals of the rows if it was unset; anything else is a `ValueError` and `n_trials` stays. -/
theorem C33_validation {X : RawX α} {X' : XArr α} (hX : checkArray X = .ok X')
    (e : Est α G (MultiAttrs α)) :
    (CountsOk e.nFeatures e.sub.nTrials X' ∧ ∃ e', multiSub.checkFeatures X' e = (.ok (), e') ∧
        e'.nFeatures = some X'.d ∧ ∃ t, e'.sub.nTrials = some t ∧
          (∀ t', e.sub.nTrials = some t' → t = t') ∧
          (e.sub.nTrials = none → ∃ l, t = .perRow l ∧ l.length = X'.n ∧
            ∀ i s, RowTotal X' i s ↔ l[i]? = some s)) ∨
    (¬ CountsOk e.nFeatures e.sub.nTrials X' ∧ ∃ msg e', multiSub.checkFeatures X' e =
      (.error (.valueError msg), e') ∧ e'.sub = e.sub) := by
  have hs : multiSub.checkFeatures X' e = multiCheckFeatures X' e := rfl
  simp only [hs]
  rcases checkFeaturesBase_eq X' e with ⟨n, hn, hd, msg, hb⟩ | ⟨hd, hb⟩
  · right
    refine ⟨fun h => hd (h.1 n hn), msg, e, ?_, rfl⟩
    exact Py.bind_error hb
  · have hc : multiCheckFeatures X' e = multiCheckCounts X' { e with nFeatures := some X'.d } := Py.bind_ok hb
    simp only [hc]
    cases X' with
    | floats rows => right; exact ⟨fun h => h.2.1, _, _, rfl, rfl⟩
    | @ints d rows =>
      obtain ⟨_, hr⟩ := checkArray_ints hX
      simp only [multiCheckCounts]
      by_cases hneg : anyNeg rows = true
      · right
        rw [if_pos hneg]
        refine ⟨fun h => ?_, _, _, rfl, rfl⟩
        obtain ⟨r, hr, j, hj⟩ := (anyNeg_iff rows).1 hneg
        have := h.2.2.1 _ ⟨r, hr, j, rfl⟩
        omega
      · rw [if_neg hneg]
        have h0' : ∀ k, HasSymbol (α := α) (.ints rows) k → 0 ≤ k := by
          rintro k ⟨r, hr, j, rfl⟩
          by_contra hc
          exact hneg ((anyNeg_iff rows).2 ⟨r, hr, j, by omega⟩)
        cases ht : e.sub.nTrials with
        | none =>
          left
          refine ⟨⟨hd, trivial, h0', by simp⟩, _, rfl, rfl, .perRow (rowTotals rows), rfl, by simp, fun _ =>
            ⟨_, rfl, by simp [rowTotals, XArr.n], fun i s => (rowTotals_get rows i s).symm⟩⟩
        | some t =>
          by_cases hm : totalsMatch (rowTotals rows) t = true
          · left
            simp only [hm, if_true]
            exact ⟨⟨hd, trivial, h0', fun t' h => by
              simp at h; subst h; exact (totalsMatch_iff rows hr t).1 hm⟩, _, rfl, rfl, t, ht, by simp, by simp⟩
          · right
            simp only [hm, if_false]
            exact ⟨fun h => hm ((totalsMatch_iff rows hr t).2 (h.2.2.2 t rfl)), _, _, rfl, rfl⟩

/-- **C33.** `fit` on other data raises `ValueError`, and `n_trials` stays as it was. -/
theorem C33_reject (R : RandomLib α G) {X : RawX α} {X' : XArr α} (hX : checkArray X = .ok X')
    (ls : Option (List Int)) (w : World α G (MultiAttrs α))
    (h : ¬ CountsOk w.est.nFeatures w.est.sub.nTrials X') :
    ∃ msg w', multiSub.fit R X ls w = (.error (.valueError msg), w') ∧ w'.est.sub = w.est.sub := by
  rcases C33_validation hX w.est with h' | ⟨_, msg, e', hm, hs⟩
  · exact absurd h'.1 h
  · exact ⟨msg, _, fit_reject hX hm, hs⟩

theorem multiCheckFeatures_frame (X : XArr α) (e : Est α G (MultiAttrs α)) :
    (∀ n, e.nFeatures = some n → (multiCheckFeatures X e).2.nFeatures = some n) ∧
    (∀ t, e.sub.nTrials = some t → (multiCheckFeatures X e).2.sub.nTrials = some t) := by
  have hc : ∀ e : Est α G (MultiAttrs α), (multiCheckCounts X e).2.nFeatures = e.nFeatures ∧
      (∀ t, e.sub.nTrials = some t → (multiCheckCounts X e).2.sub.nTrials = some t) := by
    intro e
    unfold multiCheckCounts
    cases X with
    | floats rows => exact ⟨rfl, fun t h => h⟩
    | ints rows =>
      dsimp only
      by_cases hn : anyNeg rows = true
      · rw [if_pos hn]; exact ⟨rfl, fun t h => h⟩
      · rw [if_neg hn]
        cases ht : e.sub.nTrials with
        | none => exact ⟨rfl, by simp⟩
        | some t =>
          dsimp only
          split <;> exact ⟨rfl, fun _ h => ht.trans h⟩
  rcases checkFeaturesBase_eq X e with ⟨n, hn, hd, msg, hb⟩ | ⟨hd, hb⟩
  · rw [show multiCheckFeatures X e = _ from Py.bind_error hb]
    exact ⟨fun n h => h, fun t h => h⟩
  · rw [show multiCheckFeatures X e = _ from Py.bind_ok hb]
    have h1 := (hc { e with nFeatures := some X.d }).1
    have h2 := (hc { e with nFeatures := some X.d }).2
    exact ⟨fun n h => h1.trans (congrArg some (hd n h)), fun t h => h2 t h⟩

theorem multiCheck_frame (e : Est α G (MultiAttrs α)) :
    (∀ n, e.nFeatures = some n → (multiCheck e).2.nFeatures = some n) ∧
    (multiCheck e).2.sub.nTrials = e.sub.nTrials := by
  unfold multiCheck
  split
  · exact ⟨fun _ h => h, rfl⟩
  · dsimp only
    split
    · exact ⟨fun _ h => h, rfl⟩
    · split <;> exact ⟨fun n h => by simp [h], rfl⟩

theorem multiInit_keeps (R : RandomLib α G) (X : XArr α) (J : Option Nat → MultiAttrs α → Prop)
    (hJ : ∀ n p a, J n p → J n { p with emissionprob := a }) :
    Py.Keeps (fun w : World α G (MultiAttrs α) => J w.est.nFeatures w.est.sub) (multiInit R X) := by
  refine Py.Keeps.bind (keeps_storeGen fun _ _ h => h) fun _ => ?_
  refine Py.Keeps.bind Py.Keeps.get fun w => ?_
  dsimp only
  split
  · exact Py.Keeps.bind (keeps_withSelfGen _ (fun _ _ h => h) (fun _ _ h => h)) fun _ =>
      keeps_modify fun _ h => hJ _ _ _ h
  · exact Py.Keeps.pure _

/-- `n_features`, once set, is never changed by `MultinomialHMM`. -/
theorem multiSub_inv_nf (R : RandomLib α G) (n : Nat) :
    (multiSub (α := α) (G := G)).Inv R (fun nf _ => nf = some n) (fun X => X.d = n) where
  features X e he := (multiCheckFeatures_frame X e).1 n he
  accepted X e he h := by
    rcases checkFeaturesBase_eq X e with ⟨m, hn, hd, msg, hb⟩ | ⟨hd, hb⟩
    · have : (multiCheckFeatures X e).1 = .ok () := h
      rw [show multiCheckFeatures X e = _ from Py.bind_error hb] at this
      simp at this
    · exact hd n he
  init X _ := multiInit_keeps R X (fun nf _ => nf = some n) fun _ _ _ h => h
  check e he := (multiCheck_frame e).1 n he
  write _ _ _ _ h := h

/-- `n_trials`, once set, is never changed. -/
theorem multiSub_inv_trials (R : RandomLib α G) (t : NTrials) :
    (multiSub (α := α) (G := G)).Inv R (fun _ p => p.nTrials = some t) (fun _ => True) where
  features X e he := (multiCheckFeatures_frame X e).2 t he
  accepted _ _ _ _ := trivial
  init X _ := multiInit_keeps R X (fun _ p => p.nTrials = some t) fun _ _ _ h => h
  check e he := (multiCheck_frame e).2.trans he
  write _ _ _ _ h := h

/-- **C33.** After a `fit` accepted without `n_trials`, and any further calls, the estimator
remembers the totals of that data set: `fit` on data whose totals do not match them raises
`ValueError`. -/
theorem C33_sticky (R : RandomLib α G) {X : RawX α} {X' : XArr α} (hX : checkArray X = .ok X')
    (ls : Option (List Int)) (w : World α G (MultiAttrs α)) (hn : w.est.sub.nTrials = none)
    (h : CountsOk w.est.nFeatures none X') :
    ∃ l : List Int, l.length = X'.n ∧ (∀ i s, RowTotal X' i s ↔ l[i]? = some s) ∧
      ∀ acts : List (Action α), let w2 := afterActions multiSub R acts (multiSub.fit R X ls w).2
        w2.est.sub.nTrials = some (.perRow l) ∧
        ∀ (X2 : RawX α) (X2' : XArr α) (ls2 : Option (List Int)), checkArray X2 = .ok X2' →
          ¬ TrialsMatch X2' (.perRow l) →
          ∃ msg w', multiSub.fit R X2 ls2 w2 = (.error (.valueError msg), w') := by
  rcases C33_validation hX w.est with ⟨_, e', hc, _, t, ht, _, hl⟩ | h'
  · obtain ⟨l, rfl, hlen, hrow⟩ := hl hn
    refine ⟨l, hlen, hrow, fun acts => ?_⟩
    have h2 : (afterActions multiSub R acts (multiSub.fit R X ls w).2).est.sub.nTrials = some (.perRow l) :=
      (multiSub_inv_trials R (.perRow l)).actions acts _
        (fit_after (multiSub_inv_trials R (.perRow l)) hX hc trivial ht)
    refine ⟨h2, fun X2 X2' ls2 hX2 hm => ?_⟩
    obtain ⟨msg, w', hw, _⟩ := C33_reject R hX2 ls2 (afterActions multiSub R acts (multiSub.fit R X ls w).2)
      fun hok => hm (hok.2.2.2 _ h2)
    exact ⟨msg, w', hw⟩
  · rw [hn] at h'
    exact absurd h h'.1

/-! ## C34 -/

namespace Spec

/-- `fit` with data that does not conform to a learned number of features `n` is refused, leaving
the estimator as it was, after any history. -/
def Sticky {P : Type} (S : Sub α G P) (R : RandomLib α G) (n : Nat) (conforms : XArr α → Prop)
    (w : World α G P) : Prop :=
  ∀ acts : List (Action α), let w2 := afterActions S R acts w
    w2.est.nFeatures = some n ∧
    ∀ (X : RawX α) (X' : XArr α) (ls : Option (List Int)), checkArray X = .ok X' → ¬ conforms X' →
      ∃ msg, S.fit R X ls w2 = (.error (.valueError msg), w2)

end Spec

theorem sticky_of {P : Type} {S : Sub α G P} {R : RandomLib α G} {n : Nat} {conforms : XArr α → Prop}
    {J : Option Nat → P → Prop} {A : XArr α → Prop} (hJ : S.Inv R J A)
    (hn : ∀ e : Est α G P, J e.nFeatures e.sub → e.nFeatures = some n)
    (hr : ∀ (e : Est α G P) (X : RawX α) (X' : XArr α), checkArray X = .ok X' → J e.nFeatures e.sub →
      ¬ conforms X' → ∃ msg, S.checkFeatures X' e = (.error (.valueError msg), e))
    (w : World α G P) (hw : J w.est.nFeatures w.est.sub) : Sticky S R n conforms w := by
  intro acts
  have h2 := hJ.actions acts w hw
  refine ⟨hn _ h2, fun X X' ls hX hc => ?_⟩
  obtain ⟨msg, hm⟩ := hr _ X X' hX h2 hc
  exact ⟨msg, fit_reject hX hm⟩

/-- **C34 (CategoricalHMM).** After a `fit` whose symbols were accepted, data with a symbol outside
`[0, n_features)` is refused for ever. -/
theorem C34_categorical (R : RandomLib α G) {X : RawX α} {X' : XArr α} (hX : checkArray X = .ok X')
    (ls : Option (List Int)) (w : World α G (CatAttrs α)) (h : SymbolsOk w.est.nFeatures X') :
    ∃ n, Sticky catSub R n (SymbolsOk (some n)) (catSub.fit R X ls w).2 ∧
      (w.est.nFeatures = none → HasSymbol X' ((n : Int) - 1)) := by
  obtain ⟨n, hn, _, _, hmax⟩ := C31_accept R hX ls w h
  refine ⟨n, sticky_of (catSub_inv R n) (fun e he => he) ?_ _ hn, hmax⟩
  intro e Y Y' hY he hno
  rcases C31_validation hY e with h' | ⟨_, msg, hm⟩
  · rw [show e.nFeatures = some n from he] at h'; exact absurd h'.1 hno
  · exact ⟨msg, hm⟩

theorem base_reject {P : Type} {n : Nat} {e : Est α G P} {X : XArr α} (he : e.nFeatures = some n)
    (h : ¬ X.d = n) : ∃ msg, checkFeaturesBase X e = (.error (.valueError msg), e) := by
  rcases checkFeaturesBase_eq X e with ⟨m, hn, hd, msg, hb⟩ | ⟨hd, hb⟩
  · exact ⟨msg, hb⟩
  · exact absurd (hd n he) h

/-- **C34 (MultinomialHMM).** -/
theorem C34_multinomial (R : RandomLib α G) {X : RawX α} {X' : XArr α} (hX : checkArray X = .ok X')
    (ls : Option (List Int)) (w : World α G (MultiAttrs α))
    (h : CountsOk w.est.nFeatures w.est.sub.nTrials X') :
    Sticky multiSub R X'.d (fun Y => Y.d = X'.d) (multiSub.fit R X ls w).2 := by
  rcases C33_validation hX w.est with ⟨_, e', hc, hn, _⟩ | h'
  · refine sticky_of (multiSub_inv_nf R X'.d) (fun e he => he) ?_ _
      (fit_after (multiSub_inv_nf R X'.d) hX hc rfl hn)
    intro e Y Y' hY he hno
    obtain ⟨msg, hm⟩ := base_reject he hno
    exact ⟨msg, Py.bind_error hm⟩
  · exact absurd h h'.1

theorem checkFeaturesBase_keeps {P : Type} (X : XArr α) (J : Option Nat → P → Prop) (n : Nat)
    (hJ : ∀ o p, J o p → o = some n) :
    Py.Keeps (fun e : Est α G P => J e.nFeatures e.sub) (checkFeaturesBase X) := by
  intro e he
  have hn := hJ _ _ he
  rcases checkFeaturesBase_eq X e with ⟨m, _, hd, msg, hb⟩ | ⟨hd, hb⟩
  · rw [hb]; exact he
  · rw [hb]
    show J (some X.d) e.sub
    rw [hd n hn, ← hn]
    exact he

theorem base_accepted {P : Type} {n : Nat} {e : Est α G P} {X : XArr α} (he : e.nFeatures = some n)
    (h : (checkFeaturesBase X e).1 = .ok ()) : X.d = n := by
  by_contra hc
  obtain ⟨msg, hm⟩ := base_reject he hc
  rw [hm] at h
  simp at h

/-- `n_features`, once set, is never changed by `PoissonHMM`. -/
theorem poisSub_inv (R : RandomLib α G) (n : Nat) :
    (poisSub (α := α) (G := G)).Inv R (fun nf _ => nf = some n) (fun X => X.d = n) where
  features X := checkFeaturesBase_keeps X _ n fun _ _ h => h
  accepted X e he h := base_accepted he h
  init X _ := by
    refine Py.Keeps.bind (keeps_storeGen fun _ _ h => h) fun _ => ?_
    refine Py.Keeps.bind Py.Keeps.get fun w => ?_
    dsimp only
    split
    · exact Py.Keeps.bind (keeps_withSelfGen _ (fun _ _ h => h) (fun _ _ h => h)) fun _ =>
        keeps_modify fun _ h => h
    · exact Py.Keeps.pure _
  check e he := by
    have he : e.nFeatures = some n := he
    show (poisCheck e).2.nFeatures = some n
    unfold poisCheck
    split
    · exact he
    · dsimp only
      split
      · exact he
      · simp [he]
  write _ _ _ _ h := h

/-- **C34 (PoissonHMM).** -/
theorem C34_poisson (R : RandomLib α G) {X : RawX α} {X' : XArr α} (hX : checkArray X = .ok X')
    (ls : Option (List Int)) (w : World α G (PoisAttrs α)) (h : ∀ n, w.est.nFeatures = some n → X'.d = n) :
    Sticky poisSub R X'.d (fun Y => Y.d = X'.d) (poisSub.fit R X ls w).2 := by
  rcases checkFeaturesBase_eq X' w.est with ⟨n, hn, hd, _⟩ | ⟨_, hb⟩
  · exact absurd (h n hn) hd
  · exact sticky_of (poisSub_inv R X'.d) (fun e he => he) (fun e Y Y' hY he hno => base_reject he hno) _
      (fit_after (poisSub_inv R X'.d) hX hb rfl rfl)

/-- What the four `GaussianHMM` classes have in common. -/
structure IsGauss (S : Sub α G (GaussAttrs α)) (eig : Eigvalsh α) (ty : CovType) : Prop where
  features : S.checkFeatures = checkFeaturesBase
  init : S.initSub = gaussInit eig ty
  check : S.checkSub = gaussCheck
  write : ∀ {nc nf : Nat} (θ : S.Params nc nf) p,
    ∃ m : Fin nc → Fin nf → α, (S.write θ p).means = some (.d2 m)

theorem gaussDiag_isGauss (eig : Eigvalsh α) : IsGauss (gaussDiagSub (G := G) eig) eig .diag :=
  ⟨rfl, rfl, rfl, fun _ _ => ⟨_, rfl⟩⟩
theorem gaussSpherical_isGauss (eig : Eigvalsh α) : IsGauss (gaussSphericalSub (G := G) eig) eig .spherical :=
  ⟨rfl, rfl, rfl, fun _ _ => ⟨_, rfl⟩⟩
theorem gaussFull_isGauss (eig : Eigvalsh α) : IsGauss (gaussFullSub (G := G) eig) eig .full :=
  ⟨rfl, rfl, rfl, fun _ _ => ⟨_, rfl⟩⟩
theorem gaussTied_isGauss (eig : Eigvalsh α) : IsGauss (gaussTiedSub (G := G) eig) eig .tied :=
  ⟨rfl, rfl, rfl, fun _ _ => ⟨_, rfl⟩⟩

/-- The means, if set, have as many columns as `n_features`. -/
def GaussFits (n : Nat) (nf : Option Nat) (p : GaussAttrs α) : Prop :=
  nf = some n ∧ ∀ a, p.means = some a → a.shape[1]? = some n

theorem gauss_inv {S : Sub α G (GaussAttrs α)} {eig : Eigvalsh α} {ty : CovType} (hS : IsGauss S eig ty)
    (R : RandomLib α G) (n : Nat) : S.Inv R (GaussFits n) (fun X => X.d = n) where
  features X := by rw [hS.features]; exact checkFeaturesBase_keeps X _ n fun _ _ h => h.1
  accepted X e he h := by rw [hS.features] at h; exact base_accepted he.1 h
  init X hX := by
    rw [hS.init]
    refine Py.Keeps.bind (Py.Keeps.bind Py.Keeps.get fun w => ?_) fun _ => ?_
    · dsimp only
      split
      · split
        · exact Py.Keeps.raise _
        · refine Py.Keeps.bind (keeps_withSelfGen _ (fun _ _ h => h) (fun _ _ h => h)) fun v => ?_
          refine keeps_modify fun w h => ⟨h.1, fun a ha => ?_⟩
          simp only [Option.some.injEq] at ha
          subst ha
          simp [NdArray.shape, hX]
      · exact Py.Keeps.pure _
    · refine Py.Keeps.bind Py.Keeps.get fun w => ?_
      dsimp only
      split
      · refine Py.Keeps.bind (Py.Keeps.lift _) fun c => ?_
        exact keeps_modify fun w h => h
      · exact Py.Keeps.pure _
  check e he := by
    rw [hS.check]
    show GaussFits n (gaussCheck e).2.nFeatures (gaussCheck e).2.sub
    unfold gaussCheck
    cases hm : e.sub.means with
    | none => exact he
    | some a =>
      dsimp only
      rw [he.2 a hm]
      exact ⟨rfl, he.2⟩
  write nf p nc θ h := by
    obtain ⟨m, hm⟩ := hS.write θ p
    refine ⟨h.1, fun a ha => ?_⟩
    rw [hm] at ha
    simp only [Option.some.injEq] at ha
    subst ha
    have := h.1
    simpa [NdArray.shape] using this

theorem gauss_sticky {S : Sub α G (GaussAttrs α)} {eig : Eigvalsh α} {ty : CovType} (hS : IsGauss S eig ty)
    (R : RandomLib α G) {X : RawX α} {X' : XArr α} (hX : checkArray X = .ok X') (ls : Option (List Int))
    (w : World α G (GaussAttrs α)) (h : ∀ n, w.est.nFeatures = some n → X'.d = n)
    (hm : ∀ a, w.est.sub.means = some a → a.shape[1]? = some X'.d) :
    Sticky S R X'.d (fun Y => Y.d = X'.d) (S.fit R X ls w).2 := by
  rcases checkFeaturesBase_eq X' w.est with ⟨n, hn, hd, _⟩ | ⟨_, hb⟩
  · exact absurd (h n hn) hd
  · refine sticky_of (gauss_inv hS R X'.d) (fun e he => he.1) (fun e Y Y' hY he hno => ?_) _
      (fit_after (gauss_inv hS R X'.d) hX ((congrFun (congrFun hS.features X') w.est).trans hb) rfl ⟨rfl, hm⟩)
    rw [hS.features]
    exact base_reject he.1 hno

/-- **C34 (GaussianHMM).** The number of columns of the first data set is remembered; `means_`
must not have been set to another width beforehand. -/
theorem C34_gaussian (eig : Eigvalsh α) (R : RandomLib α G) {X : RawX α} {X' : XArr α}
    (hX : checkArray X = .ok X') (ls : Option (List Int)) (w : World α G (GaussAttrs α))
    (h : ∀ n, w.est.nFeatures = some n → X'.d = n)
    (hm : ∀ a, w.est.sub.means = some a → a.shape[1]? = some X'.d) :
    Sticky (gaussDiagSub eig) R X'.d (fun Y => Y.d = X'.d) ((gaussDiagSub eig).fit R X ls w).2 ∧
    Sticky (gaussSphericalSub eig) R X'.d (fun Y => Y.d = X'.d) ((gaussSphericalSub eig).fit R X ls w).2 ∧
    Sticky (gaussFullSub eig) R X'.d (fun Y => Y.d = X'.d) ((gaussFullSub eig).fit R X ls w).2 ∧
    Sticky (gaussTiedSub eig) R X'.d (fun Y => Y.d = X'.d) ((gaussTiedSub eig).fit R X ls w).2 :=
  ⟨gauss_sticky (gaussDiag_isGauss eig) R hX ls w h hm, gauss_sticky (gaussSpherical_isGauss eig) R hX ls w h hm,
    gauss_sticky (gaussFull_isGauss eig) R hX ls w h hm, gauss_sticky (gaussTied_isGauss eig) R hX ls w h hm⟩

/-- **C34 (CategoricalHMM).** Not only `fit` fixes `n_features`: any inference call on an estimator
with user-supplied parameters does, from the number of columns of `emissionprob_`. -/
theorem C34_inference_sets (R : RandomLib α G) (c : Call α) (w : World α G (CatAttrs α)) (a : NdArray α)
    (n : Nat) (hs : w.est.startprob.isSome) (hb : checkBase w.est = .ok ())
    (he : w.est.sub.emissionprob = some a) (ha : (atleast2d a).shape = [w.est.nComponents, n])
    (hn : w.est.nFeatures = none) :
    Sticky catSub R n (SymbolsOk (some n)) (c.run catSub R w).2 := by
  have h0 : catSub.checkFitted w.est = catCheck w.est := by
    rw [Sub.checkFitted_eq, Sub.check_eq, hb]
    cases h : w.est.startprob with
    | none => simp [h] at hs
    | some a => rfl
  have h1 : (catCheck w.est).2.nFeatures = some n := by
    simp [catCheck, he, hn, ha]
  refine sticky_of (catSub_inv R n) (fun e he => he) ?_ _ ?_
  · intro e Y Y' hY he hno
    rcases C31_validation hY e with h' | ⟨_, msg, hm⟩
    · rw [show e.nFeatures = some n from he] at h'; exact absurd h'.1 hno
    · exact ⟨msg, hm⟩
  · obtain ⟨f, hf⟩ := call_eq catSub R c
    rw [hf w, h0]
    exact h1

/-! ## Examples -/

namespace FeaturesDemo

/-- A two-state model over three symbols, parameters supplied by the user, `n_features` unset. -/
noncomputable def est : Est XF Unit (CatAttrs XF) :=
  demoEst 2 (some (vec ![1/2, 1/2])) (some (mat ![![1/2, 1/2], ![0, 1]]))
    { emissionprobPrior := fun _ _ => 1, emissionprob := some (mat ![![1/4, 3/4, 0], ![0, 0, 1]]) }

theorem est_base : checkBase est = .ok () :=
  ((C30_check (n := 2) (k := 2) (l := 2) est ![1/2, 1/2] ![![1/2, 1/2], ![0, 1]] rfl rfl).1).2
    ⟨rfl, rfl, rfl, by norm_num [NearOne, Fin.sum_univ_two], fun i => by
      fin_cases i <;> norm_num [NearOne, Fin.sum_univ_two]⟩

theorem est_fitted : catSub.checkFitted est = (.ok (), { est with nFeatures := some 3 }) := by
  have h := C30_categorical (k := 2) (l := 3) est ![![1/4, 3/4, 0], ![0, 0, 1]] est_base rfl rfl
  have h1 : (catSub.checkFitted est).1 = .ok () := h.1.2 ⟨rfl, rfl, fun i => by
    fin_cases i <;> simp [NearOne, Fin.sum_univ_three] <;> norm_num⟩
  exact Prod.ext h1 (h.2.1 h1)

/-- Symbol 3 raises, -1 is read as 2. -/
example : catSub.scoreSamples (column ![0, 3, 1]) none false est =
    (.error .indexError, { est with nFeatures := some 3 }) :=
  C32_score_raises est _ est_fitted _ rfl .log rfl ![0, 3, 1] 1 (by decide) false

example (ls : Option (List Int)) : catSub.decode (column ![0, 2, 1]) ls none { est with nFeatures := some 3 } =
    catSub.decode (column ![0, -1, 1]) ls none { est with nFeatures := some 3 } := by
  have := C32_decode_wraps { est with nFeatures := some 3 } 3 rfl ![0, -1, 1] (by decide) ls none
  rw [← this]
  congr 2
  funext i
  fin_cases i <;> rfl

/-- `fit` on symbols 0, 2 sets `n_features` to 3, after which 3 is refused. -/
example (R : RandomLib XF Unit) (g : Unit) : ∃ n, n = 3 ∧
    Sticky catSub R n (SymbolsOk (some n)) (catSub.fit R (column ![0, 2]) none ⟨est, g⟩).2 := by
  obtain ⟨n, hs, hm⟩ := C34_categorical R (X := column ![0, 2]) (X' := .ints (d := 1) [fun _ => 0, fun _ => 2]) rfl
    none ⟨est, g⟩ ⟨trivial, by rintro k ⟨r, hr, j, rfl⟩; simp at hr; rcases hr with rfl | rfl <;> simp, by
      intro n h; exact absurd h (by simp [est, demoEst])⟩
  obtain ⟨n', hn', hlt, _, _⟩ := C31_accept R (X := column ![0, 2])
    (X' := .ints (d := 1) [fun _ => 0, fun _ => 2]) rfl
    none ⟨est, g⟩ ⟨trivial, by rintro k ⟨r, hr, j, rfl⟩; simp at hr; rcases hr with rfl | rfl <;> simp, by
      intro n h; exact absurd h (by simp [est, demoEst])⟩
  refine ⟨n, ?_, hs⟩
  have h1 : n = n' := by
    have := (hs []).1
    exact Option.some.inj (this.symm.trans hn')
  subst h1
  have h2 : (2 : Int) < n := hlt 2 ⟨fun _ => 2, by simp, 0, rfl⟩
  obtain ⟨r, hr, j, hj⟩ := hm rfl
  simp at hr
  rcases hr with rfl | rfl <;> dsimp only at hj <;> omega

/-- Counts with unequal totals are accepted by the first `fit`, and remembered. -/
example : CountsOk (α := XF) none none (.ints (d := 2) [![1, 2], ![0, 5]]) ∧
    ¬ CountsOk (α := XF) (some 2) (some (.scalar 3)) (.ints (d := 2) [![1, 2], ![0, 5]]) := by
  constructor
  · refine ⟨by simp, trivial, ?_, by simp⟩
    rintro k ⟨r, hr, j, rfl⟩
    simp at hr
    rcases hr with rfl | rfl <;> fin_cases j <;> simp
  · intro h
    have := h.2.2.2 _ rfl 1 5 ⟨![0, 5], rfl, by simp⟩
    omega

end FeaturesDemo
end Verif
