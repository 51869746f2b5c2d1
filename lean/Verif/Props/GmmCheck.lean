import Verif.Props.GmmClass
import Verif.Props.Validation
import Verif.Proofs.Covars

/-!
# `GMMHMM`: hyper-parameter arrays (C70) and parameter validation (C30)
-/

set_option autoImplicit false

namespace Verif
open FloatLike XF Spec

/-! ## C70: broadcasting -/

namespace Spec

/-- numpy's rule: aligned at the last axis, every axis of `s` has the length of the axis of `t`, or
length one. -/
def Broadcasts (s t : List ℕ) : Prop :=
  s.length ≤ t.length ∧ ∀ k < s.length, s.reverse.getD k 0 = t.reverse.getD k 0 ∨ s.reverse.getD k 0 = 1

/-- `t'` is `t` stretched to `shape`: the element at an index is the element of `t` at the index with
the extra leading axes dropped and the axes of length one at zero. -/
def IsBroadcast {α : Type} (t : Tensor α) (shape : List ℕ) (t' : Tensor α) : Prop :=
  t'.shape = shape ∧ ∀ idx idx' : List ℕ, idx.length = shape.length →
    (∀ k < shape.length, idx.getD k 0 < shape.getD k 0) → idx'.length = t.shape.length →
    (∀ k < t.shape.length, idx'.reverse.getD k 0 =
      if t.shape.reverse.getD k 0 = 1 then 0 else idx.reverse.getD k 0) →
    t'.data idx = t.data idx'

end Spec

theorem fits_iff : ∀ s t : List ℕ, Tensor.fits s t = true ↔
    s.length ≤ t.length ∧ ∀ k < s.length, s.getD k 0 = t.getD k 0 ∨ s.getD k 0 = 1
  | [], t => by simp [Tensor.fits]
  | a :: s, [] => by simp [Tensor.fits]
  | a :: s, b :: t => by
    simp only [Tensor.fits, Bool.and_eq_true, Bool.or_eq_true, beq_iff_eq, fits_iff s t, List.length_cons]
    constructor
    · rintro ⟨h1, h2, h3⟩
      refine ⟨by omega, fun k hk => ?_⟩
      cases k with
      | zero => simpa using h1
      | succ k => simpa using h3 k (by omega)
    · rintro ⟨h1, h2⟩
      refine ⟨by simpa using h2 0 (by omega), by omega, fun k hk => ?_⟩
      simpa using h2 (k + 1) (by omega)

theorem pull_length : ∀ s i : List ℕ, s.length ≤ i.length → (Tensor.pull s i).length = s.length
  | [], i, _ => by simp [Tensor.pull]
  | a :: s, [], h => by simp at h
  | a :: s, b :: i, h => by
    simp only [Tensor.pull, List.length_cons, pull_length s i (by simpa using h)]

theorem pull_getD : ∀ (s i : List ℕ) (k : ℕ), s.length ≤ i.length → k < s.length →
    (Tensor.pull s i).getD k 0 = if s.getD k 0 = 1 then 0 else i.getD k 0
  | [], i, k, _, h => by simp at h
  | a :: s, [], k, h, _ => by simp at h
  | a :: s, b :: i, k, h, hk => by
    cases k with
    | zero => simp [Tensor.pull]
    | succ k =>
      have := pull_getD s i k (by simpa using h) (by simpa using hk)
      simpa [Tensor.pull] using this

theorem getD_lt {l : List ℕ} {k : ℕ} (h : k < l.length) : l.getD k 0 = l[k] := by
  simp [List.getD, h]

theorem list_ext_getD {l l' : List ℕ} (h : l.length = l'.length)
    (h' : ∀ k < l.length, l.getD k 0 = l'.getD k 0) : l = l' := by
  refine List.ext_getElem h fun k h1 h2 => ?_
  have := h' k h1
  rwa [getD_lt h1, getD_lt h2] at this

section
variable {α : Type}

/-- **C70.** `np.broadcast_to`: which shapes are accepted, and the result. -/
theorem C70_broadcast (t : Tensor α) (shape : List ℕ) :
    (Broadcasts t.shape shape → ∃ t', t.broadcastTo shape = .ok t' ∧ IsBroadcast t shape t') ∧
    (¬ Broadcasts t.shape shape → ∃ msg, t.broadcastTo shape = .error (.valueError msg)) := by
  have hfit : Tensor.fits t.shape.reverse shape.reverse = true ↔ Broadcasts t.shape shape := by
    rw [fits_iff]; unfold Broadcasts; simp only [List.length_reverse]
  unfold Tensor.broadcastTo
  constructor
  · intro h
    by_cases hs : t.shape = shape
    · rw [if_pos hs]
      refine ⟨t, rfl, hs, fun idx idx' hl hr hl' hi => ?_⟩
      congr 1
      rw [← List.reverse_inj]
      refine list_ext_getD (by simp [hl, hl', hs]) fun k hk => ?_
      have hk : k < shape.length := by rw [List.length_reverse, hl] at hk; exact hk
      rw [hi k (hs ▸ hk), hs]
      split
      · next h1 =>
        have hk2 : shape.length - 1 - k < shape.length := by omega
        have := hr (shape.length - 1 - k) hk2
        rw [getD_lt (by rw [List.length_reverse]; exact hk), List.getElem_reverse] at h1
        rw [getD_lt hk2, h1, getD_lt (by omega)] at this
        rw [getD_lt (by rw [List.length_reverse]; omega), List.getElem_reverse]
        have e : idx.length - 1 - k = shape.length - 1 - k := by rw [hl]
        simp only [e]
        omega
      · rfl
    · rw [if_neg hs, if_pos (hfit.2 h)]
      refine ⟨_, rfl, rfl, fun idx idx' hl hr hl' hi => ?_⟩
      show t.data (Tensor.pull t.shape.reverse idx.reverse).reverse = _
      congr 1
      rw [← List.reverse_inj, List.reverse_reverse]
      have hle : t.shape.reverse.length ≤ idx.reverse.length := by
        simp only [List.length_reverse, hl]; exact h.1
      refine list_ext_getD (by rw [pull_length _ _ hle]; simp [hl']) fun k hk => ?_
      rw [pull_length _ _ hle] at hk
      rw [pull_getD _ _ _ hle hk, hi k (by simpa using hk)]
  · intro h
    have hs : t.shape ≠ shape := by
      rintro hs
      exact h ⟨by rw [hs], fun k _ => .inl (by rw [hs])⟩
    rw [if_neg hs, if_neg fun hf => h (hfit.1 hf)]
    exact ⟨_, rfl⟩

variable {G : Type} [FloatLike α] {nm : ℕ} [NeZero nm] (T : GmmType α nm)

omit [NeZero nm] in
theorem fixOne_cases (get : GmmAttrs α → Tensor α) (set : Tensor α → GmmAttrs α → GmmAttrs α) (shape : List ℕ)
    (p : GmmAttrs α) :
    (Broadcasts (get p).shape shape ∧ ∃ t', IsBroadcast (get p) shape t' ∧ fixOne get set shape p = (.ok (), set t' p)) ∨
    (¬ Broadcasts (get p).shape shape ∧ ∃ msg, fixOne get set shape p = (.error (.valueError msg), p)) := by
  unfold fixOne
  by_cases h : Broadcasts (get p).shape shape
  · obtain ⟨t', h1, h2⟩ := (C70_broadcast (get p) shape).1 h
    exact .inl ⟨h, t', h2, by rw [h1]⟩
  · obtain ⟨msg, h1⟩ := (C70_broadcast (get p) shape).2 h
    exact .inr ⟨h, msg, by rw [h1]⟩

namespace Spec

/-- The shape `covars_prior` must broadcast to. -/
def gmmPriorShape (ty : CovType) (nc nm nf : ℕ) : List ℕ :=
  match ty with
  | .spherical => [nc, nm]
  | .diag => [nc, nm, nf]
  | .full => [nc, nm, nf, nf]
  | .tied => [nc, nf, nf]

/-- The shape `covars_weight` must broadcast to. -/
def gmmWeightShape (ty : CovType) (nc nm nf : ℕ) : List ℕ :=
  match ty with
  | .spherical => [nc, nm]
  | .diag => [nc, nm, nf]
  | .full => [nc, nm]
  | .tied => [nc]

/-- What `covars_prior=None` stands for. -/
def gmmPriorDefault (ty : CovType) (nm : ℕ) : α :=
  match ty with
  | .spherical => -(ofNat' nm + ofNat' 2) / ofNat' 2
  | .diag => ofRat (-3 / 2)
  | .full => 0
  | .tied => 0

/-- What `covars_weight=None` stands for. -/
def gmmWeightDefault (ty : CovType) (nm nf : ℕ) : α :=
  match ty with
  | .spherical => 0
  | .diag => 0
  | .full => -(1 + ofNat' nf + 1)
  | .tied => -(ofNat' nm + ofNat' nf + 1)

/-- The hyper-parameters of `GMMHMM` with the shapes they must broadcast to; `None` for those of the
covariances stands for a number. -/
def PriorsFit (ty : CovType) (nc nm nf : ℕ) (p : GmmAttrs α) : Prop :=
  Broadcasts p.weightsPrior.shape [nc, nm] ∧ Broadcasts p.meansPrior.shape [nc, nm, nf] ∧
  Broadcasts p.meansWeight.shape [nc, nm] ∧
  Broadcasts ((p.covarsPrior.map Tensor.shape).getD []) (gmmPriorShape ty nc nm nf) ∧
  Broadcasts ((p.covarsWeight.map Tensor.shape).getD []) (gmmWeightShape ty nc nm nf)

/-- What they become. -/
def PriorsStretched (ty : CovType) (nc nm nf : ℕ) (p p' : GmmAttrs α) : Prop :=
  IsBroadcast p.weightsPrior [nc, nm] p'.weightsPrior ∧ IsBroadcast p.meansPrior [nc, nm, nf] p'.meansPrior ∧
  IsBroadcast p.meansWeight [nc, nm] p'.meansWeight ∧
  (∃ t, p'.covarsPrior = some t ∧
    IsBroadcast (p.covarsPrior.getD (.scalar (gmmPriorDefault ty nm))) (gmmPriorShape ty nc nm nf) t) ∧
  (∃ t, p'.covarsWeight = some t ∧
    IsBroadcast (p.covarsWeight.getD (.scalar (gmmWeightDefault ty nm nf))) (gmmWeightShape ty nc nm nf) t)

end Spec

/-- The covariance type has the hyper-parameters it should. -/
structure GmmType.Tables (T : GmmType α nm) : Prop where
  priorShape : ∀ nc nf, T.priorShape nc nf = gmmPriorShape T.ty nc nm nf
  weightShape : ∀ nc nf, T.weightShape nc nf = gmmWeightShape T.ty nc nm nf
  prior : ∀ nf, T.prior nf = gmmPriorDefault T.ty nm
  weight : ∀ nf, T.weight nf = gmmWeightDefault T.ty nm nf

omit [NeZero nm] in
theorem gmmSpherical_tables : (gmmSpherical (α := α) (nm := nm)).Tables :=
  ⟨fun _ _ => rfl, fun _ _ => rfl, fun _ => rfl, fun _ => rfl⟩

omit [NeZero nm] in
theorem gmmDiag_tables : (gmmDiag (α := α) (nm := nm)).Tables :=
  ⟨fun _ _ => rfl, fun _ _ => rfl, fun _ => rfl, fun _ => rfl⟩

omit [NeZero nm] in
theorem gmmFull_tables (eig : Eigvalsh α) : (gmmFull (nm := nm) eig).Tables :=
  ⟨fun _ _ => rfl, fun _ _ => rfl, fun _ => rfl, fun _ => rfl⟩

omit [NeZero nm] in
theorem gmmTied_tables (eig : Eigvalsh α) : (gmmTied (nm := nm) eig).Tables :=
  ⟨fun _ _ => rfl, fun _ _ => rfl, fun _ => rfl, fun _ => rfl⟩

variable {T}

omit [NeZero nm] in
/-- **C70.** The hyper-parameters: accepted exactly if all five broadcast, and then replaced by the
stretched arrays; otherwise `ValueError`.  Nothing else changes. -/
theorem C70_priors (hT : T.Tables) (nc nf : ℕ) (p : GmmAttrs α) :
    (PriorsFit T.ty nc nm nf p → (gmmPriors T nc nf p).1 = .ok () ∧ PriorsStretched T.ty nc nm nf p (gmmPriors T nc nf p).2) ∧
    (¬ PriorsFit T.ty nc nm nf p → ∃ msg, (gmmPriors T nc nf p).1 = .error (.valueError msg)) ∧
    (gmmPriors T nc nf p).2.weights = p.weights ∧ (gmmPriors T nc nf p).2.means = p.means ∧
    (gmmPriors T nc nf p).2.covars = p.covars ∧ (gmmPriors T nc nf p).2.minCovar = p.minCovar := by
  have hfr := gmmPriors_means T nc nf p
  refine and_assoc.1 ⟨?_, hfr.2.1, hfr.1, hfr.2.2.1, hfr.2.2.2⟩
  rw [PriorsFit, PriorsStretched, ← hT.priorShape, ← hT.weightShape, ← hT.prior nf, ← hT.weight]
  have e4 : ((p.covarsPrior.map Tensor.shape).getD []) = (p.covarsPrior.getD (.scalar (T.prior nf))).shape := by
    cases p.covarsPrior <;> rfl
  have e5 : ((p.covarsWeight.map Tensor.shape).getD []) = (p.covarsWeight.getD (.scalar (T.weight nf))).shape := by
    cases p.covarsWeight <;> rfl
  unfold gmmPriors gmmFixPriors
  rw [e4, e5]
  rcases fixOne_cases GmmAttrs.weightsPrior (fun t p => { p with weightsPrior := t }) [nc, nm]
    (gmmInitPriors T nf p) with ⟨b1, t1, i1, h1⟩ | ⟨b1, msg, h1⟩
  swap
  · rw [Py.bind_error h1]
    exact ⟨fun h => absurd h.1 b1, fun _ => ⟨msg, rfl⟩⟩
  rw [Py.bind_ok h1]
  rcases fixOne_cases GmmAttrs.meansPrior (fun t p => { p with meansPrior := t }) [nc, nm, nf]
    { gmmInitPriors T nf p with weightsPrior := t1 } with ⟨b2, t2, i2, h2⟩ | ⟨b2, msg, h2⟩
  swap
  · rw [Py.bind_error h2]
    exact ⟨fun h => absurd h.2.1 b2, fun _ => ⟨msg, rfl⟩⟩
  rw [Py.bind_ok h2]
  rcases fixOne_cases GmmAttrs.meansWeight (fun t p => { p with meansWeight := t }) [nc, nm]
    { gmmInitPriors T nf p with weightsPrior := t1, meansPrior := t2 } with ⟨b3, t3, i3, h3⟩ | ⟨b3, msg, h3⟩
  swap
  · rw [Py.bind_error h3]
    exact ⟨fun h => absurd h.2.2.1 b3, fun _ => ⟨msg, rfl⟩⟩
  rw [Py.bind_ok h3]
  rcases fixOne_cases (fun p => p.covarsPrior.getD (.scalar 0)) (fun t p => { p with covarsPrior := some t })
    (T.priorShape nc nf) { gmmInitPriors T nf p with weightsPrior := t1, meansPrior := t2, meansWeight := t3 }
    with ⟨b4, t4, i4, h4⟩ | ⟨b4, msg, h4⟩
  swap
  · rw [Py.bind_error h4]
    exact ⟨fun h => absurd h.2.2.2.1 b4, fun _ => ⟨msg, rfl⟩⟩
  rw [Py.bind_ok h4]
  rcases fixOne_cases (fun p => p.covarsWeight.getD (.scalar 0)) (fun t p => { p with covarsWeight := some t })
    (T.weightShape nc nf) { gmmInitPriors T nf p with
      weightsPrior := t1, meansPrior := t2, meansWeight := t3, covarsPrior := some t4 }
    with ⟨b5, t5, i5, h5⟩ | ⟨b5, msg, h5⟩
  swap
  · rw [h5]
    exact ⟨fun h => absurd h.2.2.2.2 b5, fun _ => ⟨msg, rfl⟩⟩
  rw [h5]
  refine ⟨fun _ => ⟨rfl, i1, i2, i3, ⟨t4, rfl, i4⟩, ⟨t5, rfl, i5⟩⟩, fun h => absurd ⟨b1, b2, b3, b4, b5⟩ h⟩

omit [NeZero nm] in
/-- **C70.** Once stretched for `nc` states, they are not accepted for another number of states, unless
`nc` is one: after a `fit`, changing `n_components` makes the next `fit` raise, with the default
hyper-parameters, too. -/
theorem C70_stuck (hT : T.Tables) {nc nc' nf nf' : ℕ} {p p' : GmmAttrs α} (h : PriorsStretched T.ty nc nm nf p p') (h1 : nc ≠ 1)
    (hne : nc' ≠ nc) : ∃ msg, (gmmPriors T nc' nf' p').1 = .error (.valueError msg) := by
  refine (C70_priors hT nc' nf' p').2.1 fun hf => ?_
  have hb := hf.1.2 1 (by rw [h.1.1]; simp)
  rw [h.1.1] at hb
  simp at hb
  omega

/-- **C70.** What `GMMHMM.fit` does first: with hyper-parameters that do not broadcast, `_init` raises;
otherwise they are replaced. -/
theorem C70_init (hT : T.Tables) {R : RandomLib α G} (X : XArr α) (w : World α G (GmmAttrs α))
    (hok : ((gmmSub T).init R X w).1 = .ok ()) :
    ∃ nf, ((gmmSub T).init R X w).2.est.nFeatures = some nf ∧ PriorsFit T.ty w.est.nComponents nm nf w.est.sub ∧
      PriorsStretched T.ty w.est.nComponents nm nf w.est.sub ((gmmSub T).init R X w).2.est.sub := by
  obtain ⟨w1, h1, h2, h3, h4, -, ⟨err, h⟩ | h⟩ := init_cases (gmmSub_frames T R) X w
  · rw [h] at hok; cases hok
  have h1 : w1.est.sub = w.est.sub := h1.trans (gmm_features_sub T X w.est)
  obtain ⟨nf, hnf⟩ : ∃ nf, w1.est.nFeatures = some nf := by
    rw [h2]
    show ∃ nf, (checkFeaturesBase X w.est).2.nFeatures = _
    rcases checkFeaturesBase_eq X w.est with ⟨n, hn, hd, msg, hb⟩ | ⟨_, hb⟩
    · rw [hb]; exact ⟨n, hn⟩
    · rw [hb]; exact ⟨_, rfl⟩
  rw [h] at hok ⊢
  have hok : (gmmInit T R X w1).1 = .ok () := hok
  refine ⟨nf, ?_⟩
  show (gmmInit T R X w1).2.est.nFeatures = some nf ∧ _ ∧ PriorsStretched T.ty _ _ _ _ (gmmInit T R X w1).2.est.sub
  rw [← h1, ← h4]
  obtain ⟨c1, c2, -⟩ := C70_priors hT w1.est.nComponents nf w1.est.sub
  rcases gmmInit_cases (R := R) T X w1 with ⟨err, -, hi⟩ | ⟨gs, gg, rs, g, hi, -⟩
  · rw [hi] at hok; cases hok
  · have hp : (gmmPriors T w1.est.nComponents nf w1.est.sub).1 = .ok () := by
      cases hr : (gmmPriors T w1.est.nComponents (w1.est.nFeatures.getD 0) w1.est.sub).1 with
      | ok u => rw [hnf] at hr; exact hr
      | error err =>
        exfalso
        have : (gmmInit T R X w1).1 = .error err := by
          unfold gmmInit
          rw [Py.bind_ok (Py.get_apply w1), Py.bind_error (show onEst (onSub _) w1 = (.error err, _) from
            Prod.ext hr rfl)]
        rw [this] at hok
        cases hok
    have hfit : PriorsFit T.ty w1.est.nComponents nm nf w1.est.sub := by
      by_contra hn
      obtain ⟨msg, hm⟩ := c2 hn
      rw [hp] at hm; cases hm
    rw [hi]
    refine ⟨hnf, hfit, ?_⟩
    have := (c1 hfit).2
    rw [hnf]
    exact this

end

/-- Three states, two components, two features: a row of weights, a number and a column broadcast; a row
of three does not. -/
example : Broadcasts [2] [3, 2] ∧ Broadcasts [] [3, 2, 2] ∧ Broadcasts [3, 1] [3, 2] ∧ ¬ Broadcasts [3] [3, 2] := by
  refine ⟨⟨by decide, by decide⟩, ⟨by decide, by decide⟩, ⟨by decide, by decide⟩, fun h => absurd h.2 (by decide)⟩

/-- The row `(5, 7)` stretched to three rows: the last row reads `5`, `7`. -/
example : ∃ t', (Tensor.mk [2] fun i => if i = [0] then (5 : ℤ) else 7).broadcastTo [3, 2] = .ok t' ∧
    t'.data [2, 0] = 5 ∧ t'.data [2, 1] = 7 := ⟨_, rfl, rfl, rfl⟩

/-! ## C30: `_check` -/

namespace Spec

/-- An array of real numbers. -/
def rT (shape : List ℕ) (f : List ℕ → ℝ) : Tensor XF := ⟨shape, fun i => fin (f i)⟩

/-- The shape of `covars_`. -/
def gmmCovShape (ty : CovType) (nc nm nf : ℕ) : List ℕ :=
  match ty with
  | .spherical => [nc, nm]
  | .diag => [nc, nm, nf]
  | .full => [nc, nm, nf, nf]
  | .tied => [nc, nf, nf]

/-- Covariances the validation is meant to accept: non-negative variances; matrices symmetric within
tolerance and positive semi-definite (as the lower triangle gives them). -/
def gmmCovOk (ty : CovType) (nc nm nf : ℕ) (f : List ℕ → ℝ) : Prop :=
  match ty with
  | .spherical => ∀ (i : Fin nc) (k : Fin nm), 0 ≤ f [i, k]
  | .diag => ∀ (i : Fin nc) (k : Fin nm) (j : Fin nf), 0 ≤ f [i, k, j]
  | .full => ∀ (i : Fin nc) (k : Fin nm), NearlySymmetric (fun a b : Fin nf => f [i, k, a, b]) ∧
      (symLower fun a b : Fin nf => f [i, k, a, b]).PosSemidef
  | .tied => ∀ i : Fin nc, NearlySymmetric (fun a b : Fin nf => f [i, a, b]) ∧
      (symLower fun a b : Fin nf => f [i, a, b]).PosSemidef

end Spec

/-- The covariance type checks what it should. -/
structure GmmType.Checks {nm : ℕ} (T : GmmType XF nm) : Prop where
  tables : T.Tables
  shape : ∀ nc nf, T.shape nc nf = gmmCovShape T.ty nc nm nf
  valid : ∀ nc nf s f, T.valid nc nf (T.read nc nf (rT s f)) = true ↔ gmmCovOk T.ty nc nm nf f

theorem noneNeg_fin {m n : ℕ} (v : Fin m → Fin n → ℝ) :
    noneNeg (fun i j => fin (v i j)) = true ↔ ∀ i j, 0 ≤ v i j := by
  simp only [noneNeg, List.all_eq_true, List.mem_finRange, true_imp_iff, zero_def, fin_lt, Bool.not_eq_true',
    decide_eq_false_iff_not, not_lt]

theorem symPsd_fin {eig : Eigvalsh XF} (he : EigvalshSpec eig) {n : ℕ} (A : Fin n → Fin n → ℝ) :
    symPsd eig (fun i j => fin (A i j)) = true ↔ NearlySymmetric A ∧ (symLower A).PosSemidef := by
  obtain ⟨ev, h1, h2⟩ := he n A
  rw [(symLower_herm A).posSemidef_iff_eigenvalues_nonneg]
  have hf : ((List.finRange n).all fun i => (List.finRange n).all fun j => isFinite (fin (A i j))) = true := by
    simp [Gaussian.isFinite_fin]
  simp only [symPsd, h1, hf, Bool.and_true, Bool.and_eq_true, allcloseT_fin, zero_def, fin_lt]
  refine and_congr_right fun _ => ?_
  rw [(symLower_herm A).spectrum_real_eq_range_eigenvalues] at h2
  simp only [List.all_eq_true, Bool.not_eq_true', List.mem_finRange, true_imp_iff, decide_eq_false_iff_not, not_lt]
  constructor
  · intro h i
    obtain ⟨j, hj⟩ : (symLower_herm A).eigenvalues i ∈ Set.range ev := h2 ▸ ⟨i, rfl⟩
    rw [← hj]; exact h j
  · intro h i
    obtain ⟨j, hj⟩ : ev i ∈ Set.range (symLower_herm A).eigenvalues := h2 ▸ ⟨i, rfl⟩
    rw [← hj]; exact h j

section
variable {nm : ℕ}

theorem gmmSpherical_checks : (gmmSpherical (α := XF) (nm := nm)).Checks where
  tables := gmmSpherical_tables
  shape _ _ := rfl
  valid nc _ _ f := noneNeg_fin fun (i : Fin nc) (k : Fin nm) => f [i, k]

theorem gmmDiag_checks : (gmmDiag (α := XF) (nm := nm)).Checks where
  tables := gmmDiag_tables
  shape _ _ := rfl
  valid nc nf _ f := by
    show (((List.finRange nc).all fun i => noneNeg fun (k : Fin nm) (j : Fin nf) => fin (f [i, k, j])) = true) ↔ _
    simp only [List.all_eq_true, List.mem_finRange, true_imp_iff, noneNeg_fin]
    rfl

theorem gmmFull_checks {eig : Eigvalsh XF} (he : EigvalshSpec eig) : (gmmFull (nm := nm) eig).Checks where
  tables := gmmFull_tables _
  shape _ _ := rfl
  valid nc nf _ f := by
    show (((List.finRange nc).all fun i => (List.finRange nm).all fun k =>
      symPsd eig fun (a b : Fin nf) => fin (f [i, k, a, b])) = true) ↔ _
    simp only [List.all_eq_true, List.mem_finRange, true_imp_iff, symPsd_fin he]
    rfl

theorem gmmTied_checks {eig : Eigvalsh XF} (he : EigvalshSpec eig) : (gmmTied (nm := nm) eig).Checks where
  tables := gmmTied_tables _
  shape _ _ := rfl
  valid nc nf _ f := by
    show (((List.finRange nc).all fun i => symPsd eig fun (a b : Fin nf) => fin (f [i, a, b])) = true) ↔ _
    simp only [List.all_eq_true, List.mem_finRange, true_imp_iff, symPsd_fin he]
    rfl

variable {G : Type} [NeZero nm] {T : GmmType XF nm}

/-- **C30 (`GMMHMM`).** Given acceptable `startprob_` and `transmat_`, `_check` accepts real arrays
`weights_`, `means_`, `covars_` exactly if the shapes fit `n_components`, `n_mix` and the number of
features (the last axis of `means_` if not known), the weights of each state sum to one within
tolerance, the covariances are acceptable, and the hyper-parameters broadcast.  Then nothing but
`n_features` and the hyper-parameters changes. -/
theorem C30_gmm (hT : T.Checks) (e : Est XF G (GmmAttrs XF)) (hb : checkBase e = .ok ()) (hs : e.startprob.isSome)
    {sw sm sc : List ℕ} {fw fm fc : List ℕ → ℝ} (hw : e.sub.weights = some (rT sw fw))
    (hm : e.sub.means = some (rT sm fm)) (hc : e.sub.covars = some (rT sc fc)) :
    (((gmmSub T).checkFitted e).1 = .ok () ↔ ∃ nf, (e.nFeatures <|> sm[2]?) = some nf ∧
      PriorsFit T.ty e.nComponents nm nf e.sub ∧ sw = [e.nComponents, nm] ∧
      (∀ i : Fin e.nComponents, NearOne (∑ k : Fin nm, fw [i, k])) ∧ sm = [e.nComponents, nm, nf] ∧
      sc = gmmCovShape T.ty e.nComponents nm nf ∧ gmmCovOk T.ty e.nComponents nm nf fc) ∧
    (((gmmSub T).checkFitted e).1 = .ok () → ∃ nf p, (e.nFeatures <|> sm[2]?) = some nf ∧
      ((gmmSub T).checkFitted e).2 = { e with nFeatures := some nf, sub := p } ∧
      PriorsStretched T.ty e.nComponents nm nf e.sub p ∧ p.weights = e.sub.weights ∧ p.means = e.sub.means ∧
      p.covars = e.sub.covars) := by
  have h0 : (gmmSub T).checkFitted e = gmmCheck T e := by
    rw [Sub.checkFitted_eq, Sub.check_eq, hb]
    cases h : e.startprob with
    | none => simp [h] at hs
    | some a => rfl
  rw [h0]
  have hnf : gmmCheckFeatures e = match (e.nFeatures <|> sm[2]?) with
      | some nf => .ok nf
      | none => .error .indexError := by
    unfold gmmCheckFeatures
    cases h : e.nFeatures with
    | some n => rfl
    | none =>
      simp only [hm]
      show (match sm[2]? with | none => _ | some nf => _) = _
      cases sm[2]? <;> rfl
  cases hn : (e.nFeatures <|> sm[2]?) with
  | none =>
    rw [hn] at hnf
    rw [gmmCheck_error T e hnf]
    refine ⟨⟨fun h => (by cases h), ?_⟩, fun h => (by cases h)⟩
    rintro ⟨nf, h, -⟩
    cases h
  | some nf =>
    rw [hn] at hnf
    rw [gmmCheck_eq T e hnf]
    obtain ⟨c1, c2, pw, pm, pc, -⟩ := C70_priors hT.tables e.nComponents nf e.sub
    by_cases hfit : PriorsFit T.ty e.nComponents nm nf e.sub
    swap
    · obtain ⟨msg, h⟩ := c2 hfit
      rw [h]
      refine ⟨⟨fun h => (by cases h), ?_⟩, fun h => (by cases h)⟩
      rintro ⟨nf', h, h', -⟩
      cases h
      exact absurd h' hfit
    · obtain ⟨h1, h2⟩ := c1 hfit
      rw [h1]
      refine ⟨?_, fun _ => ⟨nf, _, rfl, rfl, h2, pw, pm, pc⟩⟩
      show gmmCheckArrays T e.nComponents nf (gmmPriors T e.nComponents nf e.sub).2 = .ok () ↔ _
      have hsum : ((List.finRange e.nComponents).all fun i => isclose (sumF ((rT sw fw).at2 e.nComponents nm i)) 1) = true ↔
          ∀ i : Fin e.nComponents, NearOne (∑ k : Fin nm, fw [i, k]) := by
        simp only [List.all_eq_true, List.mem_finRange, true_imp_iff]
        refine forall_congr' fun i => ?_
        rw [← isclose_one, ← sumF_fin]
        rfl
      have hval := hT.valid e.nComponents nf sc fc
      have hshape := hT.shape e.nComponents nf
      unfold gmmCheckArrays
      rw [pw, pm, pc, hw, hm, hc]
      have ew : (rT sw fw).shape = sw := rfl
      have em : (rT sm fm).shape = sm := rfl
      have ec : (rT sc fc).shape = sc := rfl
      simp only [ew, em, ec, hshape]
      by_cases a1 : sw = [e.nComponents, nm]
      swap
      · rw [if_pos a1]
        refine ⟨fun h => (by cases h), ?_⟩
        rintro ⟨nf', h, -, h', -⟩
        exact absurd h' a1
      rw [if_neg (not_not.2 a1)]
      by_cases a2 : ∀ i : Fin e.nComponents, NearOne (∑ k : Fin nm, fw [i, k])
      swap
      · rw [if_pos (by rw [Bool.not_eq_true', ← Bool.not_eq_true, hsum]; exact a2)]
        refine ⟨fun h => (by cases h), ?_⟩
        rintro ⟨nf', h, -, -, h', -⟩
        exact absurd h' a2
      rw [if_neg (by rw [hsum.2 a2]; simp)]
      by_cases a3 : sm = [e.nComponents, nm, nf]
      swap
      · rw [if_pos a3]
        refine ⟨fun h => (by cases h), ?_⟩
        rintro ⟨nf', h, -, -, -, h', -⟩
        cases h
        exact absurd h' a3
      rw [if_neg (not_not.2 a3)]
      by_cases a4 : sc = gmmCovShape T.ty e.nComponents nm nf
      swap
      · rw [if_pos a4]
        refine ⟨fun h => (by cases h), ?_⟩
        rintro ⟨nf', h, -, -, -, -, h', -⟩
        cases h
        exact absurd h' a4
      rw [if_neg (not_not.2 a4)]
      by_cases a5 : gmmCovOk T.ty e.nComponents nm nf fc
      swap
      · rw [if_pos (by rw [Bool.not_eq_true', ← Bool.not_eq_true, hval]; exact a5)]
        refine ⟨fun h => (by cases h), ?_⟩
        rintro ⟨nf', h, -, -, -, -, -, h'⟩
        cases h
        exact absurd h' a5
      rw [if_neg (by rw [hval.2 a5]; simp)]
      exact ⟨fun _ => ⟨nf, rfl, hfit, a1, a2, a3, a4, a5⟩, fun _ => rfl⟩

end

namespace GmmCheckDemo

/-- `GMMHMM(n_components=1, n_mix=2)` for one feature, with given weights and variances. -/
noncomputable def est (wt : List ℕ → ℝ) (v : List ℕ → ℝ) : Est XF ℕ (GmmAttrs XF) :=
  { (GmmSeedDemo.w 0).est with
    startprob := some (vec ![1]), transmat := some (mat ![![1]])
    sub := { (GmmSeedDemo.w 0).est.sub with
      weights := some (rT [1, 2] wt), means := some (rT [1, 2, 1] fun i => if i = [0, 0, 0] then 0 else 3)
      covars := some (rT [1, 2, 1] v) } }

theorem base (wt v : List ℕ → ℝ) : checkBase (est wt v) = .ok () :=
  ((C30_check (n := 1) (k := 1) (l := 1) (est wt v) ![1] ![![1]] rfl rfl).1).2
    ⟨rfl, rfl, rfl, by norm_num [NearOne], fun i => by fin_cases i; norm_num [NearOne]⟩

/-- What `_check` accepts of these. -/
theorem accepted (wt v : List ℕ → ℝ) : ((gmmSub (nm := 2) gmmDiag).checkFitted (est wt v)).1 = .ok () ↔
    NearOne (wt [0, 0] + wt [0, 1]) ∧ 0 ≤ v [0, 0, 0] ∧ 0 ≤ v [0, 1, 0] := by
  rw [(C30_gmm (nm := 2) gmmDiag_checks (est wt v) (base wt v) rfl rfl rfl rfl).1]
  constructor
  · rintro ⟨nf, h, -, -, h2, -, -, h3⟩
    cases h
    have h2 := h2 ⟨0, Nat.one_pos⟩
    rw [Fin.sum_univ_two] at h2
    exact ⟨h2, h3 ⟨0, Nat.one_pos⟩ 0 0, h3 ⟨0, Nat.one_pos⟩ 1 0⟩
  · rintro ⟨h1, h2, h3⟩
    have hnum : ∀ s, Broadcasts [] s := fun s => ⟨Nat.zero_le _, fun k hk => absurd hk (Nat.not_lt_zero _)⟩
    refine ⟨1, rfl, ⟨hnum _, hnum _, hnum _, hnum _, hnum _⟩, rfl, fun i => ?_, rfl, rfl, ?_⟩
    · obtain ⟨i, hi⟩ := i
      have hi : i < 1 := hi
      obtain rfl : i = 0 := by omega
      rw [Fin.sum_univ_two]
      exact h1
    · rintro ⟨i, hi⟩ k j
      have hi : i < 1 := hi
      obtain rfl : i = 0 := by omega
      fin_cases k <;> fin_cases j
      · exact h2
      · exact h3

end GmmCheckDemo

end Verif
