import Verif.Spec.Broadcast
import Verif.Props.VClass
import Verif.Props.SampleEmit

/-!
# C80, C64: more on the variational estimators

Which priors the constructor accepts, `fit` with `n_iter=0`, the table of free parameters, and the law of `sample`.
-/

set_option autoImplicit false

namespace Verif
open FloatLike Spec MeasureTheory

section
variable {α G Q : Type}

/-! ## Broadcasting -/

theorem axis_nil (k : ℕ) : axis [] k = 1 := by simp [axis]

theorem axis_one (a k : ℕ) : axis [a] k = if k = 0 then a else 1 := by
  rcases k with _ | k <;> simp [axis]

theorem axis_two (a b k : ℕ) : axis [a, b] k = if k = 0 then b else if k = 1 then a else 1 := by
  rcases k with _ | _ | k <;> simp [axis]

theorem axis_three (a b c k : ℕ) : axis [a, b, c] k = if k = 0 then c else if k = 1 then b else if k = 2 then a else 1 := by
  rcases k with _ | _ | _ | k <;> simp [axis]

theorem assignable_three (s d : List ℕ) (hs : s.length ≤ 3) (hd : d.length ≤ 3) : Assignable s d ↔
    (axis s 0 = axis d 0 ∨ axis s 0 = 1) ∧ (axis s 1 = axis d 1 ∨ axis s 1 = 1) ∧ (axis s 2 = axis d 2 ∨ axis s 2 = 1) := by
  refine ⟨fun h => ⟨h 0, h 1, h 2⟩, fun ⟨h0, h1, h2⟩ k => ?_⟩
  rcases k with _ | _ | _ | k
  · exact h0
  · exact h1
  · exact h2
  · right
    unfold axis
    rw [List.getElem?_eq_none (by simp; omega)]
    rfl

theorem bcastIdx_isSome (m n : ℕ) : (bcastIdx m n).isSome = true ↔ m = n ∨ m = 1 := by
  unfold bcastIdx
  by_cases h : m = n
  · rw [dif_pos h]; simp [h]
  · rw [dif_neg h]
    by_cases h1 : m = 1
    · rw [dif_pos h1]; simp [h1]
    · rw [dif_neg h1]; simp [h, h1]

theorem bcastIdx_val {m n : ℕ} {f : Fin n → Fin m} (h : bcastIdx m n = some f) (i : Fin n) :
    (f i).val = if m = 1 then 0 else i.val := by
  unfold bcastIdx at h
  by_cases h1 : m = 1
  · have := (f i).2
    rw [if_pos h1]; omega
  · rw [if_neg h1]
    by_cases hmn : m = n
    · rw [dif_pos hmn] at h
      cases h
      rfl
    · rw [dif_neg hmn, dif_neg h1] at h
      cases h

/-- **C80** `np.full(n, a)` is defined exactly when `a` broadcasts to a row of length `n`, raises `ValueError`
otherwise, and reads every entry where numpy does. -/
theorem C80_full_row (n : ℕ) (a : NdArray α) :
    (¬ Assignable a.shape [n] → ∃ msg, fullRow n a = .error (.valueError msg)) ∧
    (Assignable a.shape [n] → ∃ v, fullRow n a = .ok v ∧
      ∀ i : Fin n, entry a (source a.shape [i.val]) = some (v i)) := by
  rw [assignable_three _ _ (by cases a <;> simp [NdArray.shape]) (by simp)]
  cases a with
  | d0 x =>
    simp only [NdArray.shape, axis_nil, axis_one]
    exact ⟨fun h => absurd (by simp) h, fun _ => ⟨_, rfl, fun _ => rfl⟩⟩
  | @d1 m v =>
    simp only [NdArray.shape, axis_one]
    cases hb : bcastIdx m n with
    | none =>
      have hn : ¬ (m = n ∨ m = 1) := by rw [← bcastIdx_isSome, hb]; simp
      refine ⟨fun _ => ⟨"could not broadcast input array", by simp only [fullRow, hb]⟩, fun h => absurd ?_ hn⟩
      simpa using h
    | some f =>
      have hn : m = n ∨ m = 1 := by rw [← bcastIdx_isSome, hb]; rfl
      refine ⟨fun h => absurd (by simpa using hn) h, fun _ => ⟨fun i => v (f i), by simp only [fullRow, hb], fun i => ?_⟩⟩
      have hv := bcastIdx_val hb i
      have hs : source [m] [i.val] = [(f i).val] := by simp [source, axis, hv]
      rw [hs]
      simp [entry]
  | @d2 l m v =>
    simp only [NdArray.shape, axis_one, axis_two]
    by_cases hl : l = 1
    · subst hl
      cases hb : bcastIdx m n with
      | none =>
        have hn : ¬ (m = n ∨ m = 1) := by rw [← bcastIdx_isSome, hb]; simp
        refine ⟨fun _ => ⟨"could not broadcast input array", by simp only [fullRow, hb]⟩, fun h => absurd ?_ hn⟩
        simpa using h
      | some f =>
        have hn : m = n ∨ m = 1 := by rw [← bcastIdx_isSome, hb]; rfl
        refine ⟨fun h => absurd (by simpa using hn) h, fun _ => ⟨fun i => v 0 (f i), by simp only [fullRow, hb], fun i => ?_⟩⟩
        have hv := bcastIdx_val hb i
        have hs : source [1, m] [i.val] = [0, (f i).val] := by
          simp [source, axis, hv, List.range_succ]
        rw [hs]
        simp [entry]
    · refine ⟨fun _ => ⟨"could not broadcast input array", ?_⟩, fun h => absurd h.2.1 (by simp [hl])⟩
      unfold fullRow
      split <;> first | rfl | (rename_i h; cases h; done) | (exfalso; simp_all)
  | @d3 k l m v =>
    simp only [NdArray.shape, axis_one, axis_three]
    by_cases hl : k = 1 ∧ l = 1
    · obtain ⟨rfl, rfl⟩ := hl
      cases hb : bcastIdx m n with
      | none =>
        have hn : ¬ (m = n ∨ m = 1) := by rw [← bcastIdx_isSome, hb]; simp
        refine ⟨fun _ => ⟨"could not broadcast input array", by simp only [fullRow, hb]⟩, fun h => absurd ?_ hn⟩
        simpa using h
      | some f =>
        have hn : m = n ∨ m = 1 := by rw [← bcastIdx_isSome, hb]; rfl
        refine ⟨fun h => absurd (by simpa using hn) h, fun _ => ⟨fun i => v 0 0 (f i), by simp only [fullRow, hb], fun i => ?_⟩⟩
        have hv := bcastIdx_val hb i
        have hs : source [1, 1, m] [i.val] = [0, 0, (f i).val] := by
          simp [source, axis, hv, List.range_succ]
        rw [hs]
        simp [entry]
    · refine ⟨fun _ => ⟨"could not broadcast input array", ?_⟩, fun h => absurd ⟨by simpa using h.2.2, by simpa using h.2.1⟩ hl⟩
      unfold fullRow
      split <;> first | rfl | (rename_i h; cases h; done) | (exfalso; simp_all)

/-- **C80** `np.full((m, n), a)` is defined exactly when `a` broadcasts to an `m` by `n` array, raises `ValueError`
otherwise, and reads every entry where numpy does. -/
theorem C80_full_mat (m n : ℕ) (a : NdArray α) :
    (¬ Assignable a.shape [m, n] → ∃ msg, fullMat m n a = .error (.valueError msg)) ∧
    (Assignable a.shape [m, n] → ∃ v, fullMat m n a = .ok v ∧
      ∀ (i : Fin m) (j : Fin n), entry a (source a.shape [i.val, j.val]) = some (v i j)) := by
  rw [assignable_three _ _ (by cases a <;> simp [NdArray.shape]) (by simp)]
  cases a with
  | d0 x =>
    simp only [NdArray.shape, axis_nil, axis_two]
    exact ⟨fun h => absurd (by simp) h, fun _ => ⟨_, rfl, fun _ _ => rfl⟩⟩
  | @d1 n' v =>
    simp only [NdArray.shape, axis_one, axis_two]
    cases hb : bcastIdx n' n with
    | none =>
      have hn : ¬ (n' = n ∨ n' = 1) := by rw [← bcastIdx_isSome, hb]; simp
      refine ⟨fun _ => ⟨"could not broadcast input array", by simp only [fullMat, hb]⟩, fun h => absurd ?_ hn⟩
      simpa using h
    | some f =>
      have hn : n' = n ∨ n' = 1 := by rw [← bcastIdx_isSome, hb]; rfl
      refine ⟨fun h => absurd (by simpa using hn) h, fun _ => ⟨fun _ j => v (f j), by simp only [fullMat, hb], fun i j => ?_⟩⟩
      have hv := bcastIdx_val hb j
      have hs : source [n'] [i.val, j.val] = [(f j).val] := by simp [source, axis, hv]
      rw [hs]
      simp [entry]
  | @d2 m' n' v =>
    simp only [NdArray.shape, axis_two]
    cases hc : bcastIdx m' m with
    | none =>
      have hm : ¬ (m' = m ∨ m' = 1) := by rw [← bcastIdx_isSome, hc]; simp
      exact ⟨fun _ => ⟨"could not broadcast input array", by simp only [fullMat, hc]⟩,
        fun h => absurd (by simpa using h.2) hm⟩
    | some g =>
      have hm : m' = m ∨ m' = 1 := by rw [← bcastIdx_isSome, hc]; rfl
      cases hb : bcastIdx n' n with
      | none =>
        have hn : ¬ (n' = n ∨ n' = 1) := by rw [← bcastIdx_isSome, hb]; simp
        exact ⟨fun _ => ⟨"could not broadcast input array", by simp only [fullMat, hb, hc]⟩,
          fun h => absurd (by simpa using h.1) hn⟩
      | some f =>
        have hn : n' = n ∨ n' = 1 := by rw [← bcastIdx_isSome, hb]; rfl
        refine ⟨fun h => absurd (by simpa using ⟨hn, hm⟩) h, fun _ => ⟨fun i j => v (g i) (f j), by simp only [fullMat, hb, hc],
          fun i j => ?_⟩⟩
        have hv := bcastIdx_val hb j
        have hv' := bcastIdx_val hc i
        have hs : source [m', n'] [i.val, j.val] = [(g i).val, (f j).val] := by
          simp [source, axis, hv, hv', List.range_succ]
        rw [hs]
        simp [entry]
  | @d3 l m' n' v =>
    simp only [NdArray.shape, axis_two, axis_three]
    by_cases hl : l = 1
    · subst hl
      cases hc : bcastIdx m' m with
      | none =>
        have hm : ¬ (m' = m ∨ m' = 1) := by rw [← bcastIdx_isSome, hc]; simp
        exact ⟨fun _ => ⟨"could not broadcast input array", by simp only [fullMat, hc]⟩,
          fun h => absurd (by simpa using h.2) hm⟩
      | some g =>
        have hm : m' = m ∨ m' = 1 := by rw [← bcastIdx_isSome, hc]; rfl
        cases hb : bcastIdx n' n with
        | none =>
          have hn : ¬ (n' = n ∨ n' = 1) := by rw [← bcastIdx_isSome, hb]; simp
          exact ⟨fun _ => ⟨"could not broadcast input array", by simp only [fullMat, hb, hc]⟩,
            fun h => absurd (by simpa using h.1) hn⟩
        | some f =>
          have hn : n' = n ∨ n' = 1 := by rw [← bcastIdx_isSome, hb]; rfl
          refine ⟨fun h => absurd (by simpa using ⟨hn, hm⟩) h, fun _ => ⟨fun i j => v 0 (g i) (f j), by simp only [fullMat, hb, hc],
            fun i j => ?_⟩⟩
          have hv := bcastIdx_val hb j
          have hv' := bcastIdx_val hc i
          have hs : source [1, m', n'] [i.val, j.val] = [0, (g i).val, (f j).val] := by
            simp [source, axis, hv, hv', List.range_succ]
          rw [hs]
          simp [entry]
    · refine ⟨fun _ => ⟨"could not broadcast input array", ?_⟩, fun h => absurd (by simpa using h.2.2) hl⟩
      unfold fullMat
      split <;> first | rfl | (rename_i h; cases h; done) | (exfalso; simp_all)

variable [FloatLike α]

theorem needs_iff {β : Type} (ip : List Char) (code : Char) (a b : Option β) :
    (needsInit ip code a.isSome || needsInit ip code b.isSome) = true ↔ code ∈ ip ∨ a = none ∨ b = none := by
  unfold needsInit
  by_cases h : code ∈ ip
  · simp [h]
  · cases a <;> cases b <;> simp [h]

/-- **C80** When `startprob_prior_` and `startprob_posterior_` have to be set and the argument `startprob_prior`
does not broadcast to a row of length `n_components`, `fit` raises `ValueError` and sets nothing but `n_features`;
when the argument `transmat_prior` does not broadcast to a square, `fit` raises `ValueError`. -/
theorem C80_prior_rejected (V : VSub α G Q) (R : RandomLib α G) (X : RawX α) {X' : XArr α} (ls : Option (List Int))
    (w : World α G (VAttrs α Q)) {nf : Option ℕ} (hX : checkArray X = .ok X')
    (hc : V.core.checkFeatures X' w.est = (.ok (), { w.est with nFeatures := nf })) (a : NdArray α) :
    (('s' ∈ w.est.initParams ∨ w.est.sub.chain.startPost = none ∨ w.est.sub.chain.startPrior = none) →
      w.est.sub.chain.startprobPrior = some a → ¬ Assignable a.shape [w.est.nComponents] →
      ∃ msg, V.fit R X ls w = (.error (.valueError msg), { w with est := { w.est with nFeatures := nf } })) ∧
    (('t' ∈ w.est.initParams ∨ w.est.sub.chain.transPost = none ∨ w.est.sub.chain.transPrior = none) →
      w.est.sub.chain.transmatPrior = some a → ¬ Assignable a.shape [w.est.nComponents, w.est.nComponents] →
      ∃ msg, (V.fit R X ls w).1 = .error (.valueError msg)) := by
  have hfit : ∀ err w', V.initBase R X' (ls.getD [(X'.n : Int)]) w = (.error err, w') → V.fit R X ls w = (.error err, w') := by
    intro err w' h
    unfold VSub.fit VSub.init
    simp only [Py.bind_apply, Py.lift_apply, hX, h]
  have h1 : onEst (V.core.checkFeatures X') w = (.ok (), { w with est := { w.est with nFeatures := nf } }) := by
    simp [onEst, hc]
  have hrow : ∀ b : NdArray α, ¬ Assignable b.shape [w.est.nComponents] → ∃ msg, fullRow w.est.nComponents b = .error (.valueError msg) :=
    fun b => (C80_full_row _ b).1
  constructor
  · intro hn ha hb
    obtain ⟨msg, hm⟩ := hrow a hb
    refine ⟨msg, hfit _ _ ?_⟩
    simp only [VSub.initBase]
    rw [Py.bind_ok h1]
    refine (Py.bind_ok (Py.get_apply _)).trans ?_
    have : needsStart { w.est with nFeatures := nf } = true := (needs_iff _ _ _ _).2 hn
    simp only [this, ha, startPriorOf, hm, whenNeeded, if_true, Except.map]
    rfl
  · intro hn ha hb
    obtain ⟨msg, hm⟩ := (C80_full_mat _ _ a).1 hb
    have ht : needsTrans { w.est with nFeatures := nf } = true := (needs_iff _ _ _ _).2 hn
    have key : ∃ msg, (V.initBase R X' (ls.getD [(X'.n : Int)]) w).1 = .error (.valueError msg) := by
      simp only [VSub.initBase]
      rw [Py.bind_ok h1]
      cases hs : whenNeeded (needsStart { w.est with nFeatures := nf }) (startPriorOf w.est.nComponents w.est.sub.chain.startprobPrior) with
      | error err =>
        obtain ⟨msg', rfl⟩ : ∃ msg', err = .valueError msg' := by
          unfold whenNeeded at hs
          split at hs
          · cases hp : w.est.sub.chain.startprobPrior with
            | none => rw [hp] at hs; cases hs
            | some b =>
              rw [hp] at hs
              by_cases hbb : Assignable b.shape [w.est.nComponents]
              · obtain ⟨v, hv, -⟩ := (C80_full_row _ b).2 hbb
                simp only [startPriorOf, hv] at hs
                cases hs
              · obtain ⟨m, hm⟩ := hrow b hbb
                simp only [startPriorOf, hm] at hs
                cases hs
                exact ⟨_, rfl⟩
          · cases hs
        refine ⟨msg', ?_⟩
        refine (congrArg Prod.fst (Py.bind_ok (Py.get_apply _))).trans ?_
        simp only [hs]
        rfl
      | ok sp =>
        have htp : whenNeeded true (transPriorOf w.est.nComponents w.est.sub.chain.transmatPrior) = .error (.valueError msg) := by
          simp only [whenNeeded, ha, transPriorOf, hm, if_true, Except.map]
        obtain ⟨rs, g, hgen, -, -⟩ := withSelfGen_eq R (vinitDraws R w.est.nComponents (needsStart { w.est with nFeatures := nf })
          (true && (Except.error (.valueError msg) : Except PyErr (Option (Fin w.est.nComponents → Fin w.est.nComponents → α))).toBool)
          (ls.getD [(X'.n : Int)])) { w with est := { w.est with nFeatures := nf } }
        refine ⟨msg, ?_⟩
        refine (congrArg Prod.fst (Py.bind_ok (Py.get_apply _))).trans ?_
        simp only [ht, htp]
        refine (congrArg Prod.fst (Py.bind_ok (s' := { w with est := { w.est with nFeatures := nf } }) (b := sp) (by rw [Py.lift_apply, hs]))).trans ?_
        refine (congrArg Prod.fst (Py.bind_ok hgen)).trans ?_
        simp only [Py.bind_apply, onEst, Py.modify_apply, Py.lift_apply]
    obtain ⟨m, h⟩ := key
    exact ⟨m, by rw [hfit _ _ (Prod.ext h rfl)]⟩

/-- Not vacuous, and not always: three start weights do not broadcast to two states, one does. -/
example (x : α) : ¬ Assignable (NdArray.d1 fun _ : Fin 3 => x).shape [2] ∧
    Assignable (NdArray.d1 fun _ : Fin 1 => x).shape [2] := by
  constructor
  · intro h
    rcases h 0 with h | h <;> simp [axis, NdArray.shape] at h
  · rw [assignable_three _ _ (by simp [NdArray.shape]) (by simp)]
    simp [axis, NdArray.shape]

/-! ## `n_iter=0` -/

/-- **C80** `fit` with `n_iter=0`, once `_init` and `_check` went through, returns with what they left and an empty
`monitor_.history`. -/
theorem C80_no_iterations (V : VSub α G Q) (R : RandomLib α G) (X : RawX α) {X' : XArr α} (ls : Option (List Int))
    (w w1 : World α G (VAttrs α Q)) (e : VEst α G Q) (hX : checkArray X = .ok X')
    (hi : V.init R X' (ls.getD [(X'.n : Int)]) w = (.ok (), w1)) (hk : V.check w1.est = (.ok (), e)) (h0 : e.nIter = 0) :
    ∃ m : Monitor α, V.fit R X ls w = (.ok (), { w1 with est := { e with monitor := m } }) ∧
      m.history = [] ∧ m.iter = 0 ∧ m.tol = e.monitor.tol ∧ m.nIter = e.monitor.nIter := by
  refine ⟨e.monitor.reset, ?_, rfl, rfl, rfl, rfl⟩
  have hl : V.loop X' ls e = (.ok (), { e with monitor := e.monitor.reset }) := by
    unfold VSub.loop
    rw [if_pos h0]
  unfold VSub.fit
  simp only [Py.bind_apply, Py.lift_apply, hX, hi, onEst, hk, hl]

/-! ## The free parameters -/

/-- Entries of a symmetric matrix that can be chosen. -/
abbrev SymEntries (n : ℕ) := { p : Fin n × Fin n // p.1 ≤ p.2 }

theorem card_symEntries (n : ℕ) : (Fintype.card (SymEntries n) : ℤ) = n * (n + 1) / 2 := by
  have h : Fintype.card (SymEntries n) = ∑ i ∈ Finset.range n, (i + 1) := by
    rw [Fintype.card_congr (β := (j : Fin n) × { i : Fin n // i ≤ j })
      ⟨fun p => ⟨p.1.2, p.1.1, p.2⟩, fun q => ⟨(q.2.1, q.1), q.2.2⟩, fun _ => rfl, fun _ => rfl⟩, Fintype.card_sigma]
    rw [Finset.sum_range]
    refine Finset.sum_congr rfl fun j _ => ?_
    rw [Fintype.card_subtype]
    have : (Finset.univ.filter fun i : Fin n => i ≤ j) = Finset.Iic j := by ext i; simp
    rw [this, Fin.card_Iic]
  have h2 : (∑ i ∈ Finset.range n, (i + 1)) * 2 = n * (n + 1) := by
    have := Finset.sum_range_id_mul_two (n + 1)
    rw [Finset.sum_range_succ'] at this
    simp at this
    linarith
  rw [h]
  have h3 : ((n : ℤ) * (n + 1)) = (∑ i ∈ Finset.range n, (i + 1) : ℕ) * 2 := by exact_mod_cast h2.symm
  rw [h3]
  simp

/-- **C80** `_get_n_fit_scalars_per_param` of `VariationalGaussianHMM` counts what the posteriors hold: the entries of
`means_posterior_` and `beta_posterior_`, those of `dof_posterior_` and the free ones of the (symmetric)
`scale_posterior_`; for the chain, the free entries of distributions over the states. -/
theorem C80_fit_scalars (e : VEst α G (VGaussAttrs α)) {nf : ℕ} (hf : e.nFeatures = some nf) (ty : CovType) :
    vgaussNFit ty e =
      [('s', (Fintype.card (Fin e.nComponents) : ℤ) - 1),
       ('t', (Fintype.card { p : Fin e.nComponents × Fin e.nComponents // p.1 ≠ p.2 } : ℤ)),
       ('m', (Fintype.card (Fin e.nComponents × Fin nf ⊕ Fin e.nComponents) : ℤ)),
       ('c', match ty with
        | .full => (Fintype.card (Fin e.nComponents ⊕ Fin e.nComponents × SymEntries nf) : ℤ)
        | .tied => (Fintype.card (Unit ⊕ SymEntries nf) : ℤ)
        | .diag => (Fintype.card (Fin e.nComponents ⊕ Fin e.nComponents × Fin nf) : ℤ)
        | .spherical => (Fintype.card (Fin e.nComponents ⊕ Fin e.nComponents) : ℤ))] := by
  have hoff : (Fintype.card { p : Fin e.nComponents × Fin e.nComponents // p.1 ≠ p.2 } : ℤ) =
      e.nComponents * (e.nComponents - 1) := by
    have h := Fintype.card_subtype_compl fun p : Fin e.nComponents × Fin e.nComponents => p.1 = p.2
    have hd : Fintype.card { p : Fin e.nComponents × Fin e.nComponents // p.1 = p.2 } = e.nComponents := by
      rw [Fintype.card_congr (β := Fin e.nComponents) ⟨fun p => p.1.1, fun i => ⟨(i, i), rfl⟩,
        fun ⟨⟨a, b⟩, h⟩ => by cases h; rfl, fun _ => rfl⟩]
      simp
    have hle : e.nComponents ≤ e.nComponents * e.nComponents := Nat.le_mul_self _
    rw [hd] at h
    simp only [Fintype.card_prod, Fintype.card_fin] at h
    show ((Fintype.card { p : Fin e.nComponents × Fin e.nComponents // ¬ p.1 = p.2 } : ℕ) : ℤ) = _
    rw [h, Nat.cast_sub hle]
    push_cast
    ring
  have hev : (nf : ℤ) * (nf + 1) = 2 * (nf * (nf + 1) / 2) := by
    rw [Int.mul_ediv_cancel' (Int.even_mul_succ_self nf).two_dvd]
  have hdiv : (e.nComponents : ℤ) * nf * (nf + 1) / 2 = e.nComponents * (nf * (nf + 1) / 2) := by
    rw [mul_assoc, Int.mul_ediv_assoc _ (Int.even_mul_succ_self nf).two_dvd]
  rw [hoff]
  have hn : e.nFeatures.getD 0 = nf := by rw [hf]; rfl
  unfold vgaussNFit
  simp only [hn, Fintype.card_fin, Fintype.card_sum, Fintype.card_prod, Fintype.card_unit, Nat.cast_add, Nat.cast_mul,
    card_symEntries, hdiv, Nat.cast_one]
  cases ty <;> rfl

/-- **C80** That of `VariationalCategoricalHMM`. -/
theorem C80_fit_scalars_categorical (e : VEst α G (VCatAttrs α)) {nf : ℕ} (hf : e.nFeatures = some nf) :
    (vcatCore (α := α) (G := G)).nFit e =
      [('s', (e.nComponents : ℤ) - 1), ('t', ∑ _i : Fin e.nComponents, ((e.nComponents : ℤ) - 1)),
       ('e', ∑ _i : Fin e.nComponents, ((nf : ℤ) - 1))] := by
  simp [vcatCore, hf, mul_sub]

end

/-! ## The law of `sample` -/

section
variable {G : Type} [MeasurableSpace G] {P : Measure G} [IsProbabilityMeasure P] {nc nf : ℕ} [NeZero nc]
  {R : RandomLib XF G} {u : G → ℝ} {nx : G → G} {π : Fin nc → ℝ} {A : Fin nc → Fin nc → ℝ}

theorem vcat_sampleWith (sci : Sci XF) (p : VAttrs XF (VCatAttrs XF)) (θ : Theta XF nc (Categorical.Params XF nc nf)) (n : Int) (g : G) :
    ((vcatSub (G := G) sci).core.sampleWith R p (nc := nc) (nf := nf) θ n none g).1 =
      ((catSub (α := XF) (G := G)).sampleWith R ⟨fun _ _ => 1, none⟩ (nc := nc) (nf := nf) θ n none g).1 :=
  (sampleWith_map (vcatSub (G := G) sci).core R p θ n none g).trans
    (sampleWith_map (catSub (α := XF) (G := G)) R ⟨fun _ _ => 1, none⟩ θ n none g).symm

/-- **C37 for VariationalCategoricalHMM.** The joint law of states and symbols is that of the point parameters. -/
theorem C37_vcategorical [NeZero nf] (sci : Sci XF) (hr : ∀ g, R.rand g = (.fin (u g), nx g))
    (hu : Draws P (fun g => (u g, nx g)) uniform) (p : VAttrs XF (VCatAttrs XF)) {b : Fin nc → Fin nf → ℝ}
    (hπ : ∀ i, 0 ≤ π i) (hπs : ∑ i, π i = 1) (hA : ∀ i j, 0 ≤ A i j) (hs : ∀ i, ∑ j, A i j = 1)
    (hb : ∀ i k, 0 ≤ b i k) (hbs : ∀ i, ∑ k, b i k = 1)
    {n : ℕ} (z : Fin (n + 1) → Fin nc) (x : Fin (n + 1) → Fin nf) :
    P {g | ((vcatSub (G := G) sci).core.sampleWith R p (nc := nc) (nf := nf)
        ⟨fun i => XF.fin (π i), fun i j => XF.fin (A i j), fun i k => XF.fin (b i k)⟩ ((n : Int) + 1) none g).1 =
          .ok (List.ofFn fun t => (z t).val, ⟨nf, List.ofFn fun t => ((x t).val : ℤ)⟩)} =
      ENNReal.ofReal (joint π A (fun t => catB b (x t)) z) :=
  (congrArg P (Set.ext fun g => Iff.of_eq (congrArg (· = _) (vcat_sampleWith sci p _ _ g)))).trans
    (C37_categorical hr hu ⟨fun _ _ => 1, none⟩ hπ hπs hA hs hb hbs z x)

/-! The classes `VariationalGaussianHMM` draw from the normal distribution with the mean `means_posterior_` of the
state and the matrix `covars_[state]`. -/

variable [MeasurableSpace (Fin nf → XF)] {N : (Fin nf → ℝ) → (Fin nf → Fin nf → ℝ) → Measure (Fin nf → XF)}

instance (L : VLayout XF G) (sci : Sci XF) (eig : Eigvalsh XF) : MeasurableSpace ((vgaussSub L sci eig).core.Obs nf) :=
  inferInstanceAs (MeasurableSpace (Fin nf → XF))

/-- **C64 for VariationalGaussianHMM(covariance_type="full").** -/
theorem C64_vgaussian_full (sci : Sci XF) (eig : Eigvalsh XF) (hr : ∀ g, R.rand g = (.fin (u g), nx g))
    (hu : Draws P (fun g => (u g, nx g)) uniform) {p : VAttrs XF (VGaussAttrs XF)} {m : Fin nc → Fin nf → ℝ}
    {S : Fin nc → Fin nf → Fin nf → ℝ} (hp : p.sub.covars = some (.d3 fun i k l => XF.fin (S i k l)))
    (hN : ∀ i, Draws P (R.normal (fun k => XF.fin (m i k)) fun k l => XF.fin (S i k l)) (N (m i) (S i)))
    (hπ : ∀ i, 0 ≤ π i) (hπs : ∑ i, π i = 1) (hA : ∀ i j, 0 ≤ A i j) (hs : ∀ i, ∑ j, A i j = 1)
    (c : Fin nc → Fin nf → Fin nf → XF) {n : ℕ} (z : Fin (n + 1) → Fin nc) (B : Fin (n + 1) → Set (Fin nf → XF)) (hB : ∀ t, MeasurableSet (B t)) :
    P {g | ∃ y : Fin (n + 1) → Fin nf → XF, ((vgaussSub (vlayoutFull (G := G) eig) sci eig).core.sampleWith R p (nc := nc) (nf := nf)
        ⟨fun i => XF.fin (π i), fun i j => XF.fin (A i j), ⟨fun i k => XF.fin (m i k), c⟩⟩ ((n : Int) + 1) none g).1 =
          .ok (List.ofFn fun t => (z t).val, ⟨nf, List.ofFn y⟩) ∧ ∀ t, y t ∈ B t} =
      ENNReal.ofReal (π (z 0) * ∏ t : Fin n, A (z t.castSucc) (z t.succ)) * ∏ t, N (m (z t)) (S (z t)) (B t) :=
  C64_joint (vgaussSub (vlayoutFull (G := G) eig) sci eig).core p
    (⟨fun i k => XF.fin (m i k), c⟩ : Gaussian.FullParams XF nc nf)
    (gauss_ideal (N := N) (ty := .full) (p := p.sub.gauss) hr hu hp (fun i => S i) (C61_ok.1 fun i k l => XF.fin (S i k l)).2 hN)
    hπ hπs hA hs z B hB

/-- **C64 for VariationalGaussianHMM(covariance_type="tied").** -/
theorem C64_vgaussian_tied (sci : Sci XF) (eig : Eigvalsh XF) (hr : ∀ g, R.rand g = (.fin (u g), nx g))
    (hu : Draws P (fun g => (u g, nx g)) uniform) {p : VAttrs XF (VGaussAttrs XF)} {m : Fin nc → Fin nf → ℝ}
    {S : Fin nf → Fin nf → ℝ} (hp : p.sub.covars = some (.d2 fun k l => XF.fin (S k l)))
    (hN : ∀ i, Draws P (R.normal (fun k => XF.fin (m i k)) fun k l => XF.fin (S k l)) (N (m i) S))
    (hπ : ∀ i, 0 ≤ π i) (hπs : ∑ i, π i = 1) (hA : ∀ i j, 0 ≤ A i j) (hs : ∀ i, ∑ j, A i j = 1)
    (c : Fin nf → Fin nf → XF) {n : ℕ} (z : Fin (n + 1) → Fin nc) (B : Fin (n + 1) → Set (Fin nf → XF)) (hB : ∀ t, MeasurableSet (B t)) :
    P {g | ∃ y : Fin (n + 1) → Fin nf → XF, ((vgaussSub (vlayoutTied (G := G) eig) sci eig).core.sampleWith R p (nc := nc) (nf := nf)
        ⟨fun i => XF.fin (π i), fun i j => XF.fin (A i j), ⟨fun i k => XF.fin (m i k), c⟩⟩ ((n : Int) + 1) none g).1 =
          .ok (List.ofFn fun t => (z t).val, ⟨nf, List.ofFn y⟩) ∧ ∀ t, y t ∈ B t} =
      ENNReal.ofReal (π (z 0) * ∏ t : Fin n, A (z t.castSucc) (z t.succ)) * ∏ t, N (m (z t)) S (B t) :=
  C64_joint (vgaussSub (vlayoutTied (G := G) eig) sci eig).core p
    (⟨fun i k => XF.fin (m i k), c⟩ : Gaussian.TiedParams XF nc nf)
    (gauss_ideal (N := N) (ty := .tied) (p := p.sub.gauss) hr hu hp (fun _ => S) (C61_ok.2.1 fun k l => XF.fin (S k l)).2 hN)
    hπ hπs hA hs z B hB

/-- **C64 for VariationalGaussianHMM(covariance_type="diag").** -/
theorem C64_vgaussian_diag (sci : Sci XF) (eig : Eigvalsh XF) (hr : ∀ g, R.rand g = (.fin (u g), nx g))
    (hu : Draws P (fun g => (u g, nx g)) uniform) {p : VAttrs XF (VGaussAttrs XF)} {m : Fin nc → Fin nf → ℝ}
    {v : Fin nc → Fin nf → ℝ} (hp : p.sub.covars = some (.d2 fun i k => XF.fin (v i k)))
    (hN : ∀ i, Draws P (R.normal (fun k => XF.fin (m i k)) fun k l => XF.fin (Matrix.diagonal (v i) k l)) (N (m i) (Matrix.diagonal (v i))))
    (hπ : ∀ i, 0 ≤ π i) (hπs : ∑ i, π i = 1) (hA : ∀ i j, 0 ≤ A i j) (hs : ∀ i, ∑ j, A i j = 1)
    (c : Fin nc → Fin nf → XF) {n : ℕ} (z : Fin (n + 1) → Fin nc) (B : Fin (n + 1) → Set (Fin nf → XF)) (hB : ∀ t, MeasurableSet (B t)) :
    P {g | ∃ y : Fin (n + 1) → Fin nf → XF, ((vgaussSub (vlayoutDiag (G := G) eig) sci eig).core.sampleWith R p (nc := nc) (nf := nf)
        ⟨fun i => XF.fin (π i), fun i j => XF.fin (A i j), ⟨fun i k => XF.fin (m i k), c⟩⟩ ((n : Int) + 1) none g).1 =
          .ok (List.ofFn fun t => (z t).val, ⟨nf, List.ofFn y⟩) ∧ ∀ t, y t ∈ B t} =
      ENNReal.ofReal (π (z 0) * ∏ t : Fin n, A (z t.castSucc) (z t.succ)) * ∏ t, N (m (z t)) (Matrix.diagonal (v (z t))) (B t) :=
  C64_joint (vgaussSub (vlayoutDiag (G := G) eig) sci eig).core p
    (⟨fun i k => XF.fin (m i k), c⟩ : Gaussian.DiagParams XF nc nf)
    (gauss_ideal (N := N) (ty := .diag) (p := p.sub.gauss) hr hu hp (fun i => Matrix.diagonal (v i)) (C61_ok.2.2.1 v).2 hN)
    hπ hπs hA hs z B hB

/-- **C64 for VariationalGaussianHMM(covariance_type="spherical").** -/
theorem C64_vgaussian_spherical (sci : Sci XF) (eig : Eigvalsh XF) (hr : ∀ g, R.rand g = (.fin (u g), nx g))
    (hu : Draws P (fun g => (u g, nx g)) uniform) {p : VAttrs XF (VGaussAttrs XF)} {m : Fin nc → Fin nf → ℝ}
    {s : Fin nc → ℝ} (hp : p.sub.covars = some (.d1 fun i => XF.fin (s i)))
    (hN : ∀ i, Draws P (R.normal (fun k => XF.fin (m i k)) fun k l => XF.fin (Matrix.diagonal (fun _ => s i) k l)) (N (m i) (Matrix.diagonal fun _ => s i)))
    (hπ : ∀ i, 0 ≤ π i) (hπs : ∑ i, π i = 1) (hA : ∀ i j, 0 ≤ A i j) (hs : ∀ i, ∑ j, A i j = 1)
    (c : Fin nc → Fin nf → XF) {n : ℕ} (z : Fin (n + 1) → Fin nc) (B : Fin (n + 1) → Set (Fin nf → XF)) (hB : ∀ t, MeasurableSet (B t)) :
    P {g | ∃ y : Fin (n + 1) → Fin nf → XF, ((vgaussSub (vlayoutSpherical (G := G) eig) sci eig).core.sampleWith R p (nc := nc) (nf := nf)
        ⟨fun i => XF.fin (π i), fun i j => XF.fin (A i j), ⟨fun i k => XF.fin (m i k), c⟩⟩ ((n : Int) + 1) none g).1 =
          .ok (List.ofFn fun t => (z t).val, ⟨nf, List.ofFn y⟩) ∧ ∀ t, y t ∈ B t} =
      ENNReal.ofReal (π (z 0) * ∏ t : Fin n, A (z t.castSucc) (z t.succ)) * ∏ t, N (m (z t)) (Matrix.diagonal fun _ => s (z t)) (B t) :=
  C64_joint (vgaussSub (vlayoutSpherical (G := G) eig) sci eig).core p
    (⟨fun i k => XF.fin (m i k), c⟩ : Gaussian.DiagParams XF nc nf)
    (gauss_ideal (N := N) (ty := .spherical) (p := p.sub.gauss) hr hu hp (fun i => Matrix.diagonal fun _ => s i) (C61_ok.2.2.2 s).2 hN)
    hπ hπs hA hs z B hB

end
end Verif
