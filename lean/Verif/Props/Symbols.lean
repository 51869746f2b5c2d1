import Verif.Proofs.EstimatorFit
import Verif.Spec.Symbols

/-!
# C31 and C32: symbols of `CategoricalHMM`
-/

namespace Verif
open FloatLike Spec

variable {α G : Type} [FloatLike α]

/-! ## C31 -/

theorem foldl_max_le (l : List Nat) (b c : Nat) : l.foldl max b ≤ c ↔ b ≤ c ∧ ∀ x ∈ l, x ≤ c := by
  induction l generalizing b with
  | nil => simp
  | cons x l ih => simp [ih, and_assoc]

theorem foldl_max_mem (l : List Nat) (b : Nat) : l.foldl max b = b ∨ l.foldl max b ∈ l := by
  induction l generalizing b with
  | nil => simp
  | cons x l ih =>
    rcases ih (max b x) with h | h
    · rcases le_total b x with hb | hb
      · rw [max_eq_right hb] at h; right; simp [List.foldl, max_eq_right hb, h]
      · rw [max_eq_left hb] at h; left; simp [List.foldl, max_eq_left hb, h]
    · right; exact List.mem_cons_of_mem _ h

theorem maxNat_le {d : Nat} (rows : List (Fin d → Int)) (c : Nat) :
    maxNat rows ≤ c ↔ ∀ r ∈ rows, ∀ j, r j ≤ c := by
  simp only [maxNat, foldl_max_le, List.mem_map, Nat.zero_le, true_and, forall_exists_index, and_imp,
    forall_apply_eq_imp_iff₂, List.mem_finRange, true_imp_iff, forall_apply_eq_imp_iff]
  simp [Int.toNat_le]

theorem maxNat_mem {d : Nat} (rows : List (Fin d → Int)) (hd : d ≠ 0) (hr : rows ≠ [])
    (h0 : ∀ r ∈ rows, ∀ j, 0 ≤ r j) : ∃ r ∈ rows, ∃ j, r j = maxNat rows := by
  by_contra hc
  push Not at hc
  have hlt : ∀ r ∈ rows, ∀ j, r j < maxNat rows := fun r hr j =>
    lt_of_le_of_ne ((maxNat_le rows _).1 le_rfl r hr j) (hc r hr j)
  obtain ⟨r, hr⟩ := List.exists_mem_of_ne_nil rows hr
  have h1 : 0 < maxNat rows := by
    have := hlt r hr ⟨0, Nat.pos_of_ne_zero hd⟩
    have := h0 r hr ⟨0, Nat.pos_of_ne_zero hd⟩
    omega
  have h2 : maxNat rows ≤ maxNat rows - 1 := (maxNat_le rows _).2 fun r hr j => by
    have := hlt r hr j
    omega
  omega

theorem anyNeg_iff {d : Nat} (rows : List (Fin d → Int)) :
    anyNeg rows = true ↔ ∃ r ∈ rows, ∃ j, r j < 0 := by
  simp [anyNeg]

theorem checkArray_ints {X : RawX α} {d : Nat} {rows : List (Fin d → Int)}
    (h : checkArray X = .ok (.ints rows)) : d ≠ 0 ∧ rows ≠ [] := by
  unfold checkArray at h
  split at h
  · next m n v =>
    split at h
    · simp at h
    · next hmn =>
      push Not at hmn
      simp only [Except.ok.injEq] at h
      injection h with h1 h2
      subst h1
      rw [← eq_of_heq h2]
      refine ⟨hmn.2, ?_⟩
      intro h0
      have := congrArg List.length h0
      simp at this
      exact hmn.1 this
  · split at h
    · simp at h
    · split at h <;> simp at h
  · simp at h

theorem catSub_features (X : XArr α) (e : Est α G (CatAttrs α)) :
    catSub.checkFeatures X e = catCheckFeatures X e := rfl

/-- **C31.** The validation step accepts exactly the data sets of nonnegative integers below a set
`n_features`; it raises `ValueError` otherwise.  -/
theorem C31_validation {X : RawX α} {X' : XArr α} (hX : checkArray X = .ok X')
    (e : Est α G (CatAttrs α)) :
    (SymbolsOk e.nFeatures X' ∧ ∃ nf, catSub.checkFeatures X' e = (.ok (), { e with nFeatures := some nf }) ∧
        (∀ k, HasSymbol X' k → k < nf) ∧ (∀ n, e.nFeatures = some n → nf = n) ∧
        (e.nFeatures = none → HasSymbol X' ((nf : Int) - 1))) ∨
    (¬ SymbolsOk e.nFeatures X' ∧ ∃ msg, catSub.checkFeatures X' e = (.error (.valueError msg), e)) := by
  cases X' with
  | floats rows => right; exact ⟨fun h => h.1, _, rfl⟩
  | @ints d rows =>
    obtain ⟨hd, hr⟩ := checkArray_ints hX
    simp only [catSub_features]
    by_cases hneg : anyNeg rows = true
    · right
      refine ⟨fun h => ?_, _, by simp only [catCheckFeatures, hneg, if_true]; rfl⟩
      obtain ⟨r, hr, j, hj⟩ := (anyNeg_iff rows).1 hneg
      have := h.2.1 _ ⟨r, hr, j, rfl⟩
      omega
    · have h0 : ∀ r ∈ rows, ∀ j, 0 ≤ r j := by
        intro r hr j
        by_contra hc
        exact hneg ((anyNeg_iff rows).2 ⟨r, hr, j, by omega⟩)
      have h0' : ∀ k, HasSymbol (α := α) (.ints rows) k → 0 ≤ k := by
        rintro k ⟨r, hr, j, rfl⟩; exact h0 r hr j
      have hle : ∀ k, HasSymbol (α := α) (.ints rows) k → k ≤ maxNat rows := by
        rintro k ⟨r, hr, j, rfl⟩; exact (maxNat_le rows _).1 le_rfl r hr j
      have hmem : HasSymbol (α := α) (.ints rows) (maxNat rows) := maxNat_mem rows hd hr h0
      cases hn : e.nFeatures with
      | none =>
        left
        refine ⟨⟨trivial, h0', by simp⟩, maxNat rows + 1, ?_, ?_, by simp, fun _ => by simpa using hmem⟩
        · show catCheckFeatures _ e = _
          simp [catCheckFeatures, hneg, hn]
        · intro k hk; have := hle k hk; push_cast; omega
      | some nf =>
        by_cases hlt : (nf : Int) - 1 < maxNat rows
        · right
          refine ⟨fun h => ?_, "Largest symbol", by simp [catCheckFeatures, hneg, hn, hlt]⟩
          have := h.2.2 nf rfl _ hmem
          omega
        · left
          have hk : ∀ k, HasSymbol (α := α) (.ints rows) k → k < nf := by
            intro k hk; have := hle k hk; omega
          refine ⟨⟨trivial, h0', fun n h k hk' => by simp at h; subst h; exact hk k hk'⟩, nf, ?_, hk, by simp, by simp⟩
          show catCheckFeatures _ e = _
          simp only [catCheckFeatures, hneg, hn, hlt, if_false]
          rw [← hn]; simp

/-- **C31.** `fit` on other data raises `ValueError` and leaves the estimator as it was. -/
theorem C31_reject (R : RandomLib α G) {X : RawX α} {X' : XArr α} (hX : checkArray X = .ok X')
    (ls : Option (List Int)) (w : World α G (CatAttrs α)) (h : ¬ SymbolsOk w.est.nFeatures X') :
    ∃ msg, catSub.fit R X ls w = (.error (.valueError msg), w) := by
  rcases C31_validation hX w.est with h' | ⟨_, msg, hm⟩
  · exact absurd h'.1 h
  · exact ⟨msg, fit_reject hX hm⟩

theorem catCheck_keeps (n : Nat) :
    Py.Keeps (fun e : Est α G (CatAttrs α) => e.nFeatures = some n) catCheck := by
  intro e he
  show (catCheck e).2.nFeatures = some n
  have he : e.nFeatures = some n := he
  unfold catCheck
  split
  · exact he
  · simp only [he, Option.isNone_some, if_false, Bool.false_eq_true]
    split <;> rfl

/-- `n_features`, once set, is never changed by `CategoricalHMM`. -/
theorem catSub_inv (R : RandomLib α G) (n : Nat) :
    (catSub (α := α) (G := G)).Inv R (fun nf _ => nf = some n) (fun _ => True) where
  features X e he := by
    show (catCheckFeatures X e).2.nFeatures = some n
    unfold catCheckFeatures
    split
    · exact he
    · split
      · exact he
      · rw [he]
        dsimp only
        split <;> exact he
  accepted := fun _ _ _ _ => trivial
  init X _ := by
    refine Py.Keeps.bind (keeps_storeGen fun _ _ h => h) fun _ => ?_
    refine Py.Keeps.bind Py.Keeps.get fun w => ?_
    dsimp only
    split
    · exact Py.Keeps.bind (keeps_withSelfGen _ (fun _ _ h => h) (fun _ _ h => h)) fun _ =>
        keeps_modify fun _ h => h
    · exact Py.Keeps.pure _
  check := catCheck_keeps n
  write _ _ _ _ h := h

/-- **C31.** Otherwise, whatever the rest of `fit` does, afterwards every symbol is below
`n_features`; a set `n_features` is unchanged, an unset one is the largest symbol plus one. -/
theorem C31_accept (R : RandomLib α G) {X : RawX α} {X' : XArr α} (hX : checkArray X = .ok X')
    (ls : Option (List Int)) (w : World α G (CatAttrs α)) (h : SymbolsOk w.est.nFeatures X') :
    ∃ nf, (catSub.fit R X ls w).2.est.nFeatures = some nf ∧
      (∀ k, HasSymbol X' k → k < nf) ∧ (∀ n, w.est.nFeatures = some n → nf = n) ∧
      (w.est.nFeatures = none → HasSymbol X' ((nf : Int) - 1)) := by
  rcases C31_validation hX w.est with ⟨_, nf, hc, h1, h2, h3⟩ | h'
  · exact ⟨nf, fit_after (catSub_inv R nf) hX hc trivial rfl, h1, h2, h3⟩
  · exact absurd h h'.1

/-! ## C32 -/

namespace Categorical

/-- **C32.** Which symbols have an emission column, and which column it is. -/
theorem C32_index (nf : Nat) (k : Int) :
    (-(nf : Int) ≤ k ∧ k < nf ∧ ∃ s : Fin nf, index nf k = some s ∧ (s : Int) = k % nf) ∨
      (¬ (-(nf : Int) ≤ k ∧ k < nf) ∧ index nf k = none) := by
  unfold index
  by_cases h1 : 0 ≤ k ∧ k < nf
  · left
    refine ⟨by omega, by omega, ⟨k.toNat, by omega⟩, by simp [h1], ?_⟩
    rw [Int.emod_eq_of_lt h1.1 h1.2]; simp [h1.1]
  · by_cases h2 : -(nf : Int) ≤ k ∧ k < 0
    · left
      refine ⟨by omega, by omega, ⟨(k + nf).toNat, by omega⟩, by rw [dif_neg h1, dif_pos h2], ?_⟩
      rw [← Int.add_emod_right, Int.emod_eq_of_lt (by omega) (by omega)]
      simp; omega
    · right
      exact ⟨by omega, by rw [dif_neg h1, dif_neg h2]⟩

variable {nc nf : Nat}

/-- The column a symbol selects. -/
def col [NeZero nf] (k : Int) : Fin nf := ⟨(k % nf).toNat, by
  have h1 := Int.emod_nonneg k (b := (nf : Int)) (by have := NeZero.ne nf; omega)
  have h2 := Int.emod_lt_of_pos k (b := (nf : Int)) (by have := Nat.pos_of_ne_zero (NeZero.ne nf); omega)
  omega⟩

theorem index_in [NeZero nf] {k : Int} (h : -(nf : Int) ≤ k ∧ k < nf) : index nf k = some (col k) := by
  rcases C32_index nf k with ⟨_, _, s, hs, he⟩ | h'
  · rw [hs]
    congr 1
    apply Fin.ext
    simp only [col]
    omega
  · exact absurd h h'.1

theorem index_out {k : Int} (h : ¬ (-(nf : Int) ≤ k ∧ k < nf)) : index nf k = none := by
  rcases C32_index nf k with h' | h'
  · exact absurd ⟨h'.1, h'.2.1⟩ h
  · exact h'.2

/-- **C32.** Symbols in `[-n_features, n_features)` select column `k mod n_features`. -/
theorem C32_lookup [NeZero nf] (e : Params α nc nf) (ks : List Int)
    (h : ∀ k ∈ ks, -(nf : Int) ≤ k ∧ k < nf) :
    computeLikelihood e ks = .ok (ks.map fun k i => e i (col k)) := by
  induction ks with
  | nil => rfl
  | cons k ks ih =>
    rw [computeLikelihood, ih fun k hk => h k (List.mem_cons_of_mem _ hk), index_in (h k (by simp))]
    rfl

/-- **C32.** Any other symbol raises `IndexError`. -/
theorem C32_out_of_range (e : Params α nc nf) (ks : List Int)
    (h : ∃ k ∈ ks, ¬ (-(nf : Int) ≤ k ∧ k < nf)) : computeLikelihood e ks = .error .indexError := by
  induction ks with
  | nil => simp at h
  | cons k ks ih =>
    rw [computeLikelihood]
    obtain ⟨k', hk', hout⟩ := h
    rcases List.mem_cons.1 hk' with rfl | hk'
    · rw [index_out hout]
    · rw [ih ⟨k', hk', hout⟩]
      cases index nf k <;> rfl

/-- Wrapping a symbol. -/
def wrap (nf : Nat) (k : Int) : Int := if k < 0 then nf + k else k

theorem index_wrap {k : Int} (h : -(nf : Int) ≤ k) : index nf (wrap nf k) = index nf k := by
  unfold wrap
  split
  · next hk =>
    unfold index
    rw [dif_pos (by omega : 0 ≤ (nf : Int) + k ∧ (nf : Int) + k < nf), dif_neg (by omega), dif_pos ⟨h, hk⟩]
    congr 2
    omega
  · rfl

theorem computeLikelihood_wrap (e : Params α nc nf) (ks : List Int) (h : ∀ k ∈ ks, -(nf : Int) ≤ k) :
    computeLikelihood e (ks.map (wrap nf)) = computeLikelihood e ks := by
  induction ks with
  | nil => rfl
  | cons k ks ih =>
    rw [List.map_cons, computeLikelihood, computeLikelihood, ih fun k hk => h k (List.mem_cons_of_mem _ hk),
      index_wrap (h k (by simp))]

end Categorical

/-! Lifting to the public methods. -/

theorem pySlice_map {β γ : Type} (f : β → γ) (X : List β) (a b : Int) :
    pySlice (X.map f) a b = (pySlice X a b).map f := by
  simp [pySlice, List.map_drop, List.map_take]

theorem npSplitInit_map {β γ : Type} (f : β → γ) (X : List β) (a : Int) (l : List Int) :
    npSplitInit (X.map f) a l = (npSplitInit X a l).map (List.map f) := by
  induction l generalizing a with
  | nil => rfl
  | cons c l ih => simp [npSplitInit, ih, pySlice_map]

theorem splitXLengths_map {β γ : Type} (f : β → γ) (X : List β) (ls : Option (List Int)) :
    splitXLengths (X.map f) ls = (splitXLengths X ls).map (List.map (List.map f)) := by
  cases ls with
  | none => rfl
  | some l =>
    simp only [splitXLengths, List.length_map, npSplitInit_map]
    cases (cumsumInt 0 l).getLast? with
    | none => rfl
    | some last =>
      dsimp only
      split <;> rfl

theorem npSplitInit_sub {β : Type} (X : List β) (a : Int) (l : List Int) :
    ∀ s ∈ npSplitInit X a l, ∀ x ∈ s, x ∈ X := by
  induction l generalizing a with
  | nil => simp [npSplitInit]
  | cons c l ih =>
    intro s hs x hx
    rcases List.mem_cons.1 hs with rfl | hs
    · exact List.mem_of_mem_drop (List.mem_of_mem_take hx)
    · exact ih _ s hs x hx

theorem splitXLengths_sub {β : Type} {X : List β} {ls : Option (List Int)} {ss : List (List β)}
    (h : splitXLengths X ls = .ok ss) : ∀ s ∈ ss, ∀ x ∈ s, x ∈ X := by
  cases ls with
  | none =>
    simp only [splitXLengths, Except.ok.injEq] at h
    subst h
    simp
  | some l =>
    simp only [splitXLengths] at h
    split at h
    · simp at h
    · split at h
      · simp at h
      · simp only [Except.ok.injEq] at h
        subst h
        exact npSplitInit_sub X _ _

theorem seqLoop_map {β γ δ : Type} (f : γ → β) (one : List β → Except PyErr (α × List δ))
    (one' : List γ → Except PyErr (α × List δ)) (ss : List (List γ)) (lp : α) (out : List δ)
    (h : ∀ s ∈ ss, one (s.map f) = one' s) :
    seqLoop one (ss.map (List.map f)) lp out = seqLoop one' ss lp out := by
  induction ss generalizing lp out with
  | nil => rfl
  | cons s ss ih =>
    simp only [List.map_cons, seqLoop, h s (by simp)]
    cases one' s with
    | error e => rfl
    | ok r => exact ih _ _ fun s hs => h s (List.mem_cons_of_mem _ hs)

section
variable {nc : Nat} [NeZero nc] {Obs : Type} (m : Hmm α nc Obs) (f : Obs → Obs)

/-- A change of the observations the likelihoods do not see. -/
structure Invisible (X : List Obs) : Prop where
  lik : ∀ s : List Obs, (∀ x ∈ s, x ∈ X) → m.computeLikelihood (s.map f) = m.computeLikelihood s
  loglik : ∀ s : List Obs, (∀ x ∈ s, x ∈ X) → m.computeLogLikelihood (s.map f) = m.computeLogLikelihood s

variable {m f}

theorem scoreCore_map {X : List Obs} (h : Invisible m f X) (ls : Option (List Int)) (p : Bool) :
    scoreCore m (X.map f) ls p = scoreCore m X ls p := by
  unfold scoreCore
  rw [splitXLengths_map]
  cases hs : splitXLengths X ls with
  | error e => rfl
  | ok ss =>
    have hsub := splitXLengths_sub hs
    show seqLoop _ (ss.map (List.map f)) 0 [] = seqLoop _ ss 0 []
    apply seqLoop_map
    intro s hs
    cases m.implementation with
    | log => simp only [scoreOneLog, h.loglik s (hsub s hs)]
    | scaling => simp only [scoreOneScaling, h.lik s (hsub s hs)]

theorem decode_map {X : List Obs} (h : Invisible m f X) (alg : Alg) (ls : Option (List Int)) :
    Verif.decode m alg (X.map f) ls = Verif.decode m alg X ls := by
  unfold Verif.decode
  rw [splitXLengths_map]
  cases hs : splitXLengths X ls with
  | error e => rfl
  | ok ss =>
    have hsub := splitXLengths_sub hs
    show seqLoop _ (ss.map (List.map f)) 0 [] = seqLoop _ ss 0 []
    apply seqLoop_map
    intro s hs
    cases alg with
    | viterbi => simp only [decodeViterbi, h.loglik s (hsub s hs)]
    | map =>
      simp only [decodeMap, Verif.scoreSamples, List.isEmpty_map]
      rw [scoreCore_map ⟨fun t ht => h.lik t fun x hx => hsub s hs x (ht x hx),
        fun t ht => h.loglik t fun x hx => hsub s hs x (ht x hx)⟩]

end

theorem scoreCore_error {nc : Nat} [NeZero nc] {Obs : Type} {m : Hmm α nc Obs} {X : List Obs} {err : PyErr}
    (h : m.computeLikelihood X = .error err) (h' : m.computeLogLikelihood X = .error err) (p : Bool) :
    scoreCore m X none p = .error err := by
  unfold scoreCore
  show seqLoop _ [X] 0 [] = _
  cases m.implementation with
  | log => simp only [seqLoop, scoreOneLog, h']; rfl
  | scaling => simp only [seqLoop, scoreOneScaling, h]; rfl

theorem decode_error {nc : Nat} [NeZero nc] {Obs : Type} {m : Hmm α nc Obs} {X : List Obs} {err : PyErr}
    (hX : X.isEmpty = false) (h : m.computeLikelihood X = .error err) (h' : m.computeLogLikelihood X = .error err)
    (alg : Alg) : Verif.decode m alg X none = .error err := by
  unfold Verif.decode
  show seqLoop _ [X] 0 [] = _
  cases alg with
  | viterbi => simp only [seqLoop, decodeViterbi, h']; rfl
  | map => simp only [seqLoop, decodeMap, hX, Bool.false_eq_true, if_false, Verif.scoreSamples, scoreCore_error h h']; rfl

theorem cat_invisible {nc nf : Nat} [NeZero nc] (prior : Categorical.Params α nc nf) (impl : Impl)
    (θ : Theta α nc (Categorical.Params α nc nf)) (X : List Int) (h : ∀ k ∈ X, -(nf : Int) ≤ k) :
    Invisible ((Categorical.emission prior).toHmm impl θ) (Categorical.wrap nf) X where
  lik s hs := Categorical.computeLikelihood_wrap _ _ fun k hk => h k (hs k hk)
  loglik s hs := by
    show logRows _ = logRows _
    rw [Categorical.computeLikelihood_wrap _ _ fun k hk => h k (hs k hk)]

/-- The rows of a column. -/
theorem checkArray_column {n : Nat} (k : Fin n → Int) : checkArray (α := α) (column k) =
    if n = 0 then .error (.valueError "Found array with 0 sample(s) or feature(s)")
    else .ok (.ints (d := 1) (List.ofFn fun i _ => k i)) := by
  simp [column, checkArray]

theorem catRows_column {n : Nat} (k : Fin n → Int) :
    catRows (α := α) (.ints (d := 1) (List.ofFn fun i _ => k i)) = .ok (List.ofFn k) := by
  simp only [catRows, dite_true]
  congr 1
  exact List.map_ofFn

theorem withModel_wrap {β : Type} (e : Est α G (CatAttrs α)) (nf : Nat) (hn : e.nFeatures = some nf)
    (impl : Impl) {n : Nat} (k : Fin n → Int) (hk : ∀ i, -(nf : Int) ≤ k i) (ls : Option (List Int))
    (f : {nc : Nat} → {Obs : Type} → [NeZero nc] → Hmm α nc Obs → List Obs → Except PyErr β)
    (hf : ∀ {nc : Nat} {Obs : Type} [NeZero nc] (m : Hmm α nc Obs) (g : Obs → Obs) (X : List Obs),
      Invisible m g X → f m (X.map g) = f m X) :
    catSub.withModel e impl (.ints (d := 1) (List.ofFn fun i _ => Categorical.wrap nf (k i))) ls f =
      catSub.withModel e impl (.ints (d := 1) (List.ofFn fun i _ => k i)) ls f := by
  unfold Sub.withModel
  cases hr : (catSub (α := α) (G := G)).ready e with
  | none => simp [XArr.n]
  | some r =>
    have hnf : nf = r.nf := by
      exact Option.some.inj (hn.symm.trans (Sub.ready_nf hr))
    subst hnf
    have h1 : (catSub (α := α) (G := G)).rows r.nf
        (.ints (d := 1) (List.ofFn fun i _ => Categorical.wrap r.nf (k i))) =
          .ok ((List.ofFn k).map (Categorical.wrap r.nf)) := by
      refine (catRows_column (α := α) _).trans ?_
      exact congrArg Except.ok (by rw [List.map_ofFn]; rfl :
        (List.ofFn fun i => Categorical.wrap r.nf (k i)) = List.map (Categorical.wrap r.nf) (List.ofFn k))
    have h2 : (catSub (α := α) (G := G)).rows r.nf
        (.ints (d := 1) (List.ofFn fun i _ => k i)) = .ok (List.ofFn k) := catRows_column (α := α) _
    simp only [h1, h2]
    haveI : NeZero e.nComponents := ⟨r.pos⟩
    exact hf _ _ _ (cat_invisible _ impl r.θ _ (by simpa [List.mem_ofFn] using hk))

/-- **C32.** `score_samples` (hence `score`, `predict_proba`) silently replaces a negative symbol
`k ≥ -n_features` by `n_features + k`. -/
theorem C32_score_wraps (e : Est α G (CatAttrs α)) (nf : Nat) (hn : e.nFeatures = some nf) {n : Nat}
    (k : Fin n → Int) (hk : ∀ i, -(nf : Int) ≤ k i) (ls : Option (List Int)) (p : Bool) :
    catSub.scoreSamples (column fun i => Categorical.wrap nf (k i)) ls p e =
      catSub.scoreSamples (column k) ls p e := by
  have hi : (catSub.checkFitted e).2.nFeatures = some nf :=
    keeps_fitted (S := catSub) (J := fun o _ => o = some nf) (catCheck_keeps nf) e hn
  simp only [Sub.scoreSamples, Sub.scoreBody, Py.bind_apply, Py.get_apply]
  cases hc : catSub.checkFitted e with
  | mk r e' =>
    rw [hc] at hi
    cases r with
    | error err => rfl
    | ok u =>
      simp only [checkArray_column, Py.lift_apply]
      by_cases h0 : n = 0
      · simp [h0]
      · simp only [h0, if_false]
        cases implOf e'.implementation with
        | error err => rfl
        | ok impl =>
          simp only
          rw [withModel_wrap e' nf hi impl k hk]
          intro nc Obs _ m g X hv
          rw [scoreCore_map hv]

/-- **C32.** So does `decode` (hence `predict`). -/
theorem C32_decode_wraps (e : Est α G (CatAttrs α)) (nf : Nat) (hn : e.nFeatures = some nf) {n : Nat}
    (k : Fin n → Int) (hk : ∀ i, -(nf : Int) ≤ k i) (ls : Option (List Int)) (alg : Option String) :
    catSub.decode (column fun i => Categorical.wrap nf (k i)) ls alg e =
      catSub.decode (column k) ls alg e := by
  have hi : (catSub.checkFitted e).2.nFeatures = some nf :=
    keeps_fitted (S := catSub) (J := fun o _ => o = some nf) (catCheck_keeps nf) e hn
  simp only [Sub.decode, Sub.decodeBody, Py.bind_apply, Py.get_apply]
  cases hc : catSub.checkFitted e with
  | mk r e' =>
    rw [hc] at hi
    cases r with
    | error err => rfl
    | ok u =>
      simp only [checkArray_column, Py.lift_apply]
      cases algOf (pyOr alg e'.algorithm) with
      | error err => rfl
      | ok al =>
        by_cases h0 : n = 0
        · simp [h0]
        · simp only [h0, if_false]
          cases al with
          | viterbi =>
            simp only [Py.lift_apply]
            rw [withModel_wrap e' nf hi .log k hk]
            intro nc Obs _ m g X hv
            rw [decode_map hv]
          | map =>
            simp only
            cases implOf e'.implementation with
            | error err => simp [XArr.n]
            | ok impl =>
              simp only [Py.lift_apply]
              rw [withModel_wrap e' nf hi impl k hk]
              intro nc Obs _ m g X hv
              rw [decode_map hv]

/-- **C32.** On a usable estimator, a symbol outside `[-n_features, n_features)` makes `score`,
`score_samples`, `predict_proba` raise `IndexError`. -/
theorem C32_score_raises (e e' : Est α G (CatAttrs α)) (hc : catSub.checkFitted e = (.ok (), e'))
    (r : Ready catSub e') (hr : catSub.ready e' = some r) (impl : Impl)
    (hi : implOf e'.implementation = .ok impl) {n : Nat}
    (k : Fin n → Int) (i : Fin n) (hk : ¬ (-(r.nf : Int) ≤ k i ∧ k i < r.nf)) (p : Bool) :
    catSub.scoreSamples (column k) none p e = (.error .indexError, e') := by
  have h0 : n ≠ 0 := by rintro rfl; exact i.elim0
  have hrows : (catSub (α := α) (G := G)).rows r.nf
        (.ints (d := 1) (List.ofFn fun i _ => k i)) = .ok (List.ofFn k) := catRows_column (α := α) _
  simp only [Sub.scoreSamples, Sub.scoreBody, Py.bind_apply, Py.get_apply, hc, checkArray_column, Py.lift_apply, h0,
    if_false, hi, Sub.withModel, hr, hrows]
  haveI : NeZero e'.nComponents := ⟨r.pos⟩
  have hl : Categorical.computeLikelihood r.θ.emission (List.ofFn k) = .error .indexError :=
    Categorical.C32_out_of_range _ _ ⟨k i, by simp [List.mem_ofFn], hk⟩
  have hs : scoreCore (((catSub (α := α) (G := G)).emission e'.sub e'.nComponents r.nf).toHmm impl r.θ)
      (List.ofFn k) none p = .error .indexError := by
    refine scoreCore_error hl ?_ p
    show logRows (Categorical.computeLikelihood r.θ.emission (List.ofFn k)) = _
    rw [hl]; rfl
  exact congrArg (fun x => (Except.map (fun r : α × List (Row α e'.nComponents) => (r.1, r.2.map List.ofFn)) x, e')) hs

/-- **C32.** So do `decode` and `predict`. -/
theorem C32_decode_raises (e e' : Est α G (CatAttrs α)) (hc : catSub.checkFitted e = (.ok (), e'))
    (r : Ready catSub e') (hr : catSub.ready e' = some r) (impl : Impl)
    (hi : implOf e'.implementation = .ok impl) (alg : Option String) (al : Alg)
    (ha : algOf (pyOr alg e'.algorithm) = .ok al) {n : Nat}
    (k : Fin n → Int) (i : Fin n) (hk : ¬ (-(r.nf : Int) ≤ k i ∧ k i < r.nf)) :
    catSub.decode (column k) none alg e = (.error .indexError, e') := by
  have h0 : n ≠ 0 := by rintro rfl; exact i.elim0
  have hrows : (catSub (α := α) (G := G)).rows r.nf
        (.ints (d := 1) (List.ofFn fun i _ => k i)) = .ok (List.ofFn k) := catRows_column (α := α) _
  haveI : NeZero e'.nComponents := ⟨r.pos⟩
  have hl : Categorical.computeLikelihood r.θ.emission (List.ofFn k) = .error .indexError :=
    Categorical.C32_out_of_range _ _ ⟨k i, by simp [List.mem_ofFn], hk⟩
  have hs : ∀ impl al, Verif.decode
      (((catSub (α := α) (G := G)).emission e'.sub e'.nComponents r.nf).toHmm impl r.θ) al
      (List.ofFn k) none = .error .indexError := by
    intro impl al
    have hX : (List.ofFn k).isEmpty = false := List.isEmpty_eq_false_iff.2 fun e => h0
      (by have := congrArg List.length e; rwa [List.length_ofFn] at this)
    refine decode_error hX hl ?_ al
    show logRows (Categorical.computeLikelihood r.θ.emission (List.ofFn k)) = _
    rw [hl]; rfl
  simp only [Sub.decode, Sub.decodeBody, Py.bind_apply, Py.get_apply, hc, checkArray_column, Py.lift_apply, h0,
    if_false, ha]
  cases al with
  | viterbi =>
    simp only [Sub.withModel, hr, hrows, Py.lift_apply]
    exact congrArg (fun x => (Except.map (fun r : α × List (Fin e'.nComponents) => (r.1, r.2.map Fin.val)) x, e'))
      (hs .log .viterbi)
  | map =>
    simp only [hi, Sub.withModel, hr, hrows, Py.lift_apply]
    exact congrArg (fun x => (Except.map (fun r : α × List (Fin e'.nComponents) => (r.1, r.2.map Fin.val)) x, e'))
      (hs impl .map)

end Verif
