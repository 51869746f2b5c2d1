import Verif.Props.FitLog
import Verif.Props.CountEM
import Verif.Props.GaussianFullEM
import Verif.Props.GmmEM
import Verif.Props.VGaussian
import Verif.Props.Usable
import Verif.Props.RoundoffEM

/-!
# C83: when the warnings of `fit` appear, class by class

The "not converging" warning in exact arithmetic (never with flat priors, never for the variational classes,
but it does appear for a MAP fit that works as it should), and the warning about zero rows.
-/

set_option autoImplicit false

namespace Verif
open FloatLike XF Hmmc Spec
open scoped Classical

/-! ## Statement -/

/-- No "not converging" warning. -/
def Spec.NeverWarns {α : Type} (log : List (Event α)) : Prop := ∀ c p, Event.notConverging c p ∉ log

/-! ## Proof -/

section
variable {α σ : Type} [FloatLike α] {verbose : Bool} {step : σ → Except PyErr (σ × α)}
  {zeroRow : σ → Except PyErr Bool} {θ : σ} {log : List (Event α)} {out : FitOutcome α σ}

/-- A warning is a pair of consecutive entries that drops. -/
theorem Spec.LogOf.warns_iff (h : LogOf verbose step zeroRow θ log out) (c p : α) :
    Event.notConverging c p ∈ log ↔
      (p, c) ∈ consecutive out.monitor.history ∧ lt (c - p) (-(ofRat (1 / 2 ^ 26))) = true := by
  have h1 : Event.notConverging c p ∈ log ↔ (p, c) ∈ log.filterMap Event.decrease? := by
    rw [List.mem_filterMap]
    constructor
    · exact fun h => ⟨_, h, rfl⟩
    · rintro ⟨a, ha, he⟩
      cases a with
      | notConverging c' p' =>
        simp only [Event.decrease?, Option.some.injEq, Prod.mk.injEq] at he
        obtain ⟨rfl, rfl⟩ := he
        exact ha
      | line => simp [Event.decrease?] at he
      | zeroRow => simp [Event.decrease?] at he
  rw [h1, h.decreases, List.mem_filter]

omit [FloatLike α] in
theorem mem_consecutive {h : List α} {p c : α} :
    (p, c) ∈ consecutive h ↔ ∃ k, ∃ hk : k + 1 < h.length, h[k] = p ∧ h[k + 1] = c := by
  unfold consecutive
  rw [List.mem_iff_getElem]
  simp only [List.getElem_zip, List.getElem_tail, List.length_zip, List.length_tail, Prod.mk.injEq]
  constructor
  · rintro ⟨k, hk, e1, e2⟩
    exact ⟨k, by omega, e1, e2⟩
  · rintro ⟨k, hk, e1, e2⟩
    exact ⟨k, by omega, e1, e2⟩

end

section
variable {σ : Type} {verbose : Bool} {step : σ → Except PyErr (σ × XF)}
  {zeroRow : σ → Except PyErr Bool} {θ : σ} {log : List (Event XF)} {out : FitOutcome XF σ}

/-- The warnings of a run with finite history `f 0, …, f (n-1)`. -/
theorem Spec.LogOf.warns_at (h : LogOf verbose step zeroRow θ log out) {n : ℕ} {f : ℕ → ℝ}
    (hh : out.monitor.history = (List.range n).map fun k => fin (f k)) (c p : XF) :
    Event.notConverging c p ∈ log ↔ ∃ k, k + 1 < n ∧ p = fin (f k) ∧ c = fin (f (k + 1)) ∧
      f (k + 1) - f k < -(1 / 2 ^ 26) := by
  have hq : ((1 / 2 ^ 26 : ℚ) : ℝ) = 1 / 2 ^ 26 := by norm_num
  rw [h.warns_iff, hh, mem_consecutive]
  simp only [List.length_map, List.length_range, List.getElem_map, List.getElem_range]
  constructor
  · rintro ⟨⟨k, hk, rfl, rfl⟩, hlt⟩
    refine ⟨k, hk, rfl, rfl, ?_⟩
    have : FloatLike.lt (fin (f (k + 1)) - fin (f k)) (-(FloatLike.ofRat (1 / 2 ^ 26)) : XF) = true := hlt
    rw [fin_sub, ofRat_def, fin_neg, fin_lt, decide_eq_true_eq, hq] at this
    exact this
  · rintro ⟨k, hk, rfl, rfl, hlt⟩
    refine ⟨⟨k, hk, rfl, rfl⟩, ?_⟩
    show FloatLike.lt (fin (f (k + 1)) - fin (f k)) (-(FloatLike.ofRat (1 / 2 ^ 26)) : XF) = true
    rw [fin_sub, ofRat_def, fin_neg, fin_lt, decide_eq_true_eq, hq]
    exact hlt

/-- A history that never decreases. -/
theorem Spec.LogOf.silent (h : LogOf verbose step zeroRow θ log out) {l : List ℝ}
    (hh : out.monitor.history = l.map fin) (hl : l.Pairwise (· ≤ ·)) : NeverWarns log := by
  intro c p hm
  have g : ∀ k (hk : k < l.length), l.getD k 0 = l[k] := fun k hk => by simp [List.getD, hk]
  have e : out.monitor.history = (List.range l.length).map fun k => fin (l.getD k 0) := by
    rw [hh]
    refine List.ext_getElem (by simp) fun k h1 h2 => ?_
    simp only [List.length_map] at h1
    simp only [List.getElem_map, List.getElem_range, g k h1]
  obtain ⟨k, hk, -, -, hd⟩ := (h.warns_at e c p).1 hm
  rw [g _ hk, g _ (Nat.lt_of_succ_lt hk)] at hd
  have := List.pairwise_iff_getElem.1 hl k (k + 1) (Nat.lt_of_succ_lt hk) hk (Nat.lt_succ_self k)
  have hp : (0 : ℝ) < 1 / 2 ^ 26 := by positivity
  linarith only [this, hd, hp]

end

variable {nc nf : ℕ} [NeZero nc]

/-! ## The "not converging" warning -/

/-- **C83** `CategoricalHMM` with flat priors (the default): the warning never appears, whatever the data, the
parameter selection, the implementation and the starting point. -/
theorem C83_categorical (verbose : Bool) {π : Fin nc → ℝ} {A : Fin nc → Fin nc → ℝ} {e : Fin nc → Fin nf → ℝ}
    (params : List Char) (impl : Impl) (nIter : ℕ) (ss : List (ObsSeq (Fin nf))) (hne : ss ≠ [])
    (h : CatModel π A e) (hL : 0 < catL ss π A e) (mon : Monitor XF) :
    NeverWarns (fitFromLog verbose (Categorical.emission fun _ _ => fin 1)
      (mapConfig (fun _ => 1) (fun _ _ => 1) params impl nIter) (dataX Categorical.sym ss)
      (some (dataLengths ss)) (Categorical.params π A e) mon).1 := by
  obtain ⟨l, _, _, _, h1, h2, _⟩ := C21_em_monotone params impl nIter ss hne h hL mon
  obtain ⟨e1, e2, -⟩ := C83_log verbose (Categorical.emission fun _ _ => fin 1)
    (mapConfig (fun _ => 1) (fun _ _ => 1) params impl nIter) (dataX Categorical.sym ss)
    (some (dataLengths ss)) (Categorical.params π A e) mon
  exact e2.silent (by rw [e1]; exact h1) h2

/-- **C83** `PoissonHMM`, flat priors. -/
theorem C83_poisson (verbose : Bool) {π : Fin nc → ℝ} {A : Fin nc → Fin nc → ℝ} {l : Fin nc → Fin nf → ℝ}
    (params : List Char) (impl : Impl) (nIter : ℕ) (ss : List (ObsSeq (Fin nf → ℕ))) (hne : ss ≠ [])
    (h : PoissonModel π A l) (hL : 0 < dataLikelihood π A (poissonB l) ss)
    (hu : EveryStateUsed π A (poissonB l) ss) (mon : Monitor XF) :
    NeverWarns (fitFromLog verbose (Poisson.emission (fun _ _ => fin 0) fun _ _ => fin 0)
      (mapConfig (fun _ => 1) (fun _ _ => 1) params impl nIter) (dataX Poisson.row ss)
      (some (dataLengths ss)) (Poisson.params π A l) mon).1 := by
  obtain ⟨v, _, _, _, h1, h2, _⟩ := C22_poisson params impl nIter ss hne h hL hu mon
  obtain ⟨e1, e2, -⟩ := C83_log verbose (Poisson.emission (fun _ _ => fin 0) fun _ _ => fin 0)
    (mapConfig (fun _ => 1) (fun _ _ => 1) params impl nIter) (dataX Poisson.row ss)
    (some (dataLengths ss)) (Poisson.params π A l) mon
  exact e2.silent (by rw [e1]; exact h1) h2

/-- **C83** `MultinomialHMM`, flat priors. -/
theorem C83_multinomial (verbose : Bool) {π : Fin nc → ℝ} {A : Fin nc → Fin nc → ℝ} {e : Fin nc → Fin nf → ℝ}
    (params : List Char) (impl : Impl) (nIter : ℕ) (ss : List (ObsSeq (Fin nf → ℕ))) (hne : ss ≠ [])
    (h : MultinomialModel π A e) (hL : 0 < dataLikelihood π A (multinomialB e) ss)
    (hu : EveryStateEmits π A e ss) (mon : Monitor XF) :
    NeverWarns (fitFromLog verbose Multinomial.emission
      (mapConfig (fun _ => 1) (fun _ _ => 1) params impl nIter) (dataX Multinomial.row ss)
      (some (dataLengths ss)) (Multinomial.params π A e) mon).1 := by
  obtain ⟨v, _, _, _, h1, h2, _⟩ := C22_multinomial params impl nIter ss hne h hL hu mon
  obtain ⟨e1, e2, -⟩ := C83_log verbose Multinomial.emission
    (mapConfig (fun _ => 1) (fun _ _ => 1) params impl nIter) (dataX Multinomial.row ss)
    (some (dataLengths ss)) (Multinomial.params π A e) mon
  exact e2.silent (by rw [e1]; exact h1) h2

open Gaussian in
/-- **C83** `GaussianHMM`, `diag` and `spherical`, flat priors: a warning means that in the iterate before the
drop some state had less than `1e-5` expected visits (the denominators are clipped there, C22). -/
theorem C83_gaussian [NeZero nf] (verbose : Bool) (ty : DiagType) (mp : Fin nc → Fin nf → ℝ) (params : List Char)
    (hcm : 'c' ∈ params → 'm' ∈ params) (impl : Impl) (nIter : ℕ) (ss : List (ObsSeq (Fin nf → ℝ)))
    (hne : ss ≠ []) (p : DiagPoint nc nf) (hty : ty.Shape p) (h : ChainModel p.π p.A)
    (hL : 0 < p.L ss) (hu : EveryStateUsed p.π p.A (diagB p.mu p.v) ss) (mon : Monitor XF) :
    let r := fitFromLog verbose (ty.emission ⟨mp, 0, 1⟩ fun _ _ => 0)
      (mapConfig (fun _ => 1) (fun _ _ => 1) params impl nIter) (dataX Gaussian.row ss)
      (some (dataLengths ss)) p.theta mon
    ∃ seq : ℕ → DiagPoint nc nf, seq 0 = p ∧ r.2.state = (seq r.2.monitor.history.length).theta ∧
      ∀ cur prev, Event.notConverging cur prev ∈ r.1 →
        ∃ k, prev = fin (Real.log ((seq k).L ss)) ∧ cur = fin (Real.log ((seq (k + 1)).L ss)) ∧
          ∃ i, visits (seq k).π (seq k).A (diagB (seq k).mu (seq k).v) ss i < 1 / 10 ^ 5 := by
  intro r
  obtain ⟨e1, e2, -⟩ := C83_log verbose (ty.emission ⟨mp, 0, 1⟩ fun _ _ => 0)
    (mapConfig (fun _ => 1) (fun _ _ => 1) params impl nIter) (dataX Gaussian.row ss)
    (some (dataLengths ss)) p.theta mon
  obtain ⟨seq, h0, h1, h2, h3, _, h5⟩ := C22_gaussian ty (fun _ => 1) (fun _ _ => 1) (by simp) (by simp)
    ⟨mp, 0, 1⟩ (fun _ _ => 0) ⟨le_rfl, le_rfl, by simp⟩ params hcm impl nIter ss hne p hty h hL
    (Or.inr hu) mon
  have e1' : r.2 = gaussFit ty (fun _ => 1) (fun _ _ => 1) ⟨mp, 0, 1⟩ (fun _ _ => 0) params impl nIter ss
    p.theta mon := e1
  refine ⟨seq, h0, by rw [e1']; exact h1, fun cur prev hm => ?_⟩
  obtain ⟨k, hk, k1, k2, k3⟩ := (e2.warns_at (by rw [e1]; exact h2) cur prev).1 hm
  refine ⟨k, k1, k2, ?_⟩
  by_contra hno
  push Not at hno
  have := h5 k (by omega) (by simpa using hno)
  simp only [DiagPoint.objective, logDirichlet, diagLogPrior, sub_self, zero_mul, zero_add, zero_div,
    mul_zero, Finset.sum_const_zero, add_zero] at this
  have hp : (0 : ℝ) < 1 / 2 ^ 26 := by positivity
  linarith only [this, k3, hp]

open Gaussian in
/-- **C83** `GaussianHMM`, `full`, flat priors: a warning means that the drop went to a singular covariance. -/
theorem C83_gaussian_full (verbose : Bool) (mp : Fin nc → Fin nf → ℝ) (params : List Char)
    (hcm : 'c' ∈ params → 'm' ∈ params) (impl : Impl) (nIter : ℕ) (ss : List (ObsSeq (Fin nf → ℝ)))
    (hne : ss ≠ []) (p : FullPoint nc nf) (hS : ∀ i, (p.S i).PosSemidef) (h : ChainModel p.π p.A)
    (hL : 0 < p.L ss) (hu : EveryStateUsed p.π p.A (fullB p.mu p.S) ss) (mon : Monitor XF) :
    let r := fitFromLog verbose (emissionFull (prior ⟨mp, 0, 0⟩) fun _ _ _ => fin 0)
      (mapConfig (fun _ => 1) (fun _ _ => 1) params impl nIter) (dataX Gaussian.row ss)
      (some (dataLengths ss)) p.theta mon
    ∃ seq : ℕ → FullPoint nc nf, seq 0 = p ∧ r.2.state = (seq r.2.monitor.history.length).theta ∧
      ∀ cur prev, Event.notConverging cur prev ∈ r.1 →
        ∃ k, prev = fin (Real.log ((seq k).L ss)) ∧ cur = fin (Real.log ((seq (k + 1)).L ss)) ∧
          'c' ∈ params ∧ ∃ i, ¬ ((seq (k + 1)).S i).PosDef := by
  intro r
  obtain ⟨e1, e2, -⟩ := C83_log verbose (emissionFull (prior ⟨mp, 0, 0⟩) fun _ _ _ => fin 0)
    (mapConfig (fun _ => 1) (fun _ _ => 1) params impl nIter) (dataX Gaussian.row ss)
    (some (dataLengths ss)) p.theta mon
  obtain ⟨seq, h0, h1, h2, h3, _, h5⟩ := C22_gaussian_full (fun _ => 1) (fun _ _ => 1) (by simp) (by simp)
    ⟨mp, 0, 0⟩ le_rfl (fun _ => 0) (fun _ => .zero) params hcm impl nIter ss hne p hS h hL (Or.inr hu) mon
  have e1' : r.2 = fullFit (fun _ => 1) (fun _ _ => 1) ⟨mp, 0, 0⟩ (fun _ => 0) params impl nIter ss
    p.theta mon := e1
  refine ⟨seq, h0, by rw [e1']; exact h1, fun cur prev hm => ?_⟩
  obtain ⟨k, hk, k1, k2, k3⟩ := (e2.warns_at (by rw [e1]; exact h2) cur prev).1 hm
  refine ⟨k, k1, k2, ?_⟩
  by_contra hno
  push Not at hno
  have := h5 k (by omega) hno
  have hw : (⟨mp, 0, 0⟩ : GaussPrior nc nf).cvw = 0 := max_eq_right (by simp)
  simp only [FullPoint.objective, logDirichlet, fullLogPrior, hw, sub_self, zero_mul, zero_add,
    zero_smul, mul_zero, Matrix.mul_zero, Matrix.trace_zero, add_zero, Finset.sum_const_zero] at this
  have hp : (0 : ℝ) < 1 / 2 ^ 26 := by positivity
  linarith only [this, k3, hp]

open Gaussian in
/-- **C83** `GaussianHMM`, `tied`, flat priors: likewise. -/
theorem C83_gaussian_tied (verbose : Bool) (mp : Fin nc → Fin nf → ℝ) (params : List Char)
    (hcm : 'c' ∈ params → 'm' ∈ params) (impl : Impl) (nIter : ℕ) (ss : List (ObsSeq (Fin nf → ℝ)))
    (hne : ss ≠ []) (p : TiedPoint nc nf) (hS : p.S.PosSemidef) (h : ChainModel p.π p.A)
    (hL : 0 < p.L ss) (hu : EveryStateUsed p.π p.A (fullB p.mu fun _ => p.S) ss) (mon : Monitor XF) :
    let r := fitFromLog verbose (emissionTied (prior ⟨mp, 0, 0⟩) fun _ _ => fin 0)
      (mapConfig (fun _ => 1) (fun _ _ => 1) params impl nIter) (dataX Gaussian.row ss)
      (some (dataLengths ss)) p.theta mon
    ∃ seq : ℕ → TiedPoint nc nf, seq 0 = p ∧ r.2.state = (seq r.2.monitor.history.length).theta ∧
      ∀ cur prev, Event.notConverging cur prev ∈ r.1 →
        ∃ k, prev = fin (Real.log ((seq k).L ss)) ∧ cur = fin (Real.log ((seq (k + 1)).L ss)) ∧
          'c' ∈ params ∧ ¬ (seq (k + 1)).S.PosDef := by
  intro r
  obtain ⟨e1, e2, -⟩ := C83_log verbose (emissionTied (prior ⟨mp, 0, 0⟩) fun _ _ => fin 0)
    (mapConfig (fun _ => 1) (fun _ _ => 1) params impl nIter) (dataX Gaussian.row ss)
    (some (dataLengths ss)) p.theta mon
  obtain ⟨seq, h0, h1, h2, h3, _, h5⟩ := C22_gaussian_tied (fun _ => 1) (fun _ _ => 1) (by simp)
    (by simp) ⟨mp, 0, 0⟩ le_rfl 0 .zero params hcm impl nIter ss hne p hS h hL (Or.inr hu) mon
  have e1' : r.2 = tiedFit (fun _ => 1) (fun _ _ => 1) ⟨mp, 0, 0⟩ 0 params impl nIter ss
    p.theta mon := e1
  refine ⟨seq, h0, by rw [e1']; exact h1, fun cur prev hm => ?_⟩
  obtain ⟨k, hk, k1, k2, k3⟩ := (e2.warns_at (by rw [e1]; exact h2) cur prev).1 hm
  refine ⟨k, k1, k2, ?_⟩
  by_contra hno
  push Not at hno
  have := h5 k (by omega) hno
  have hw : (⟨mp, 0, 0⟩ : GaussPrior nc nf).cvw = 0 := max_eq_right (by simp)
  simp only [TiedPoint.objective, logDirichlet, tiedLogPrior, hw, sub_self, zero_mul, zero_add,
    zero_smul, mul_zero, Matrix.mul_zero, Matrix.trace_zero, add_zero, Finset.sum_const_zero] at this
  have hp : (0 : ℝ) < 1 / 2 ^ 26 := by positivity
  linarith only [this, k3, hp]

/-- **C83** `VariationalCategoricalHMM`, any priors: the warning never appears. -/
theorem C83_variational_categorical [NeZero nf] (verbose : Bool) {sci : Sci XF} (hsci : sci.Exact)
    {sp : Fin nc → ℝ} {tp : Fin nc → Fin nc → ℝ} {ep : Fin nc → Fin nf → ℝ}
    (hsp : ∀ i, 0 < sp i) (htp : ∀ i j, 0 < tp i j) (hep : ∀ i k, 0 < ep i k)
    (params : List Char) (impl : Impl) (nIter : ℕ) {ss : List (ObsSeq (Fin nf))} (hne : ss ≠ [])
    {s : Fin nc → ℝ} {t : Fin nc → Fin nc → ℝ} {e : Fin nc → Fin nf → ℝ}
    (hs : ∀ i, 0 < s i) (ht : ∀ i j, 0 < t i j) (he : ∀ i k, 0 < e i k)
    (sP : Option (Fin nc → ℝ)) (tP : Option (Fin nc → Fin nc → ℝ)) (eP : Option (Fin nc → Fin nf → ℝ))
    (mon : Monitor XF) :
    NeverWarns ((VCategorical.emission sci fun i k => fin (ep i k)).fitFromLog verbose sci
      (mapConfig sp tp params impl nIter) (dataX Categorical.sym ss) (some (dataLengths ss))
      (vcatTheta s t e sP tP eP) mon).1 := by
  obtain ⟨l, h1, h2⟩ := C55_monotone hsci hsp htp hep params impl nIter hne hs ht he sP tP eP mon
  obtain ⟨e1, e2, -⟩ := C83_log_variational verbose (VCategorical.emission sci fun i k => fin (ep i k)) sci
    (mapConfig sp tp params impl nIter) (dataX Categorical.sym ss) (some (dataLengths ss))
    (vcatTheta s t e sP tP eP) mon
  exact e2.silent (by rw [e1]; exact h1) h2

/-- The claim for `VariationalGaussianHMM`: any priors and any starting posteriors of the right shape. -/
def Spec.VGaussNeverWarns {Dof Sc St : Type} (K : VGaussian.Kind XF nc nf Dof Sc St) (ty : CovType)
    (dof : (Fin nc → ℝ) → Dof) (scale : (Fin nc → Matrix (Fin nf) (Fin nf) ℝ) → Sc) : Prop :=
  ∀ {sci : Sci XF}, sci.Exact →
  ∀ {sp : Fin nc → ℝ} {tp : Fin nc → Fin nc → ℝ} {p₀ : Fin nc → NW nf}, (∀ i, 0 < sp i) → (∀ i j, 0 < tp i j) →
    (∀ i, (p₀ i).Proper) → Allowed ty p₀ →
  ∀ {params : List Char}, ('c' ∈ params → 'm' ∈ params) →
  ∀ (impl : Impl) (nIter : ℕ) {ss : List (ObsSeq (Fin nf → ℝ))}, ss ≠ [] →
  ∀ {s : Fin nc → ℝ} {t : Fin nc → Fin nc → ℝ} {p : Fin nc → NW nf}, (∀ i, 0 < s i) → (∀ i j, 0 < t i j) →
    (∀ i, (p i).Proper) → Allowed ty p →
  ∀ (sP : Option (Fin nc → ℝ)) (tP : Option (Fin nc → Fin nc → ℝ))
    (cov : Option (Fin nc → Matrix (Fin nf) (Fin nf) ℝ)) (mon : Monitor XF) (verbose : Bool),
  NeverWarns ((VGaussian.emission K sci ⟨fun i => fin (p₀ i).β, fun i k => fin ((p₀ i).m k), dof fun i => (p₀ i).ν,
      scale fun i => (p₀ i).S⟩).fitFromLog verbose sci (mapConfig sp tp params impl nIter)
    (dataX Gaussian.row ss) (some (dataLengths ss)) (vgaussTheta dof scale s t p sP tP cov) mon).1

theorem vgauss_neverWarns {Dof Sc St : Type} {K : VGaussian.Kind XF nc nf Dof Sc St} {ty : CovType}
    {dof : (Fin nc → ℝ) → Dof} {scale : (Fin nc → Matrix (Fin nf) (Fin nf) ℝ) → Sc}
    (H : VGaussFitSpec K ty dof scale) : VGaussNeverWarns K ty dof scale := by
  intro sci hsci sp tp p₀ hsp htp h₀ hA₀ params hcm impl nIter ss hne s t p hs ht hp hA sP tP cov mon verbose
  obtain ⟨σ, τ, P, -, -, -, -, -, -, -, -, h1, h2, -⟩ := H hsci hsp htp h₀ hA₀ hcm impl nIter hne hs ht hp hA sP tP cov mon
  obtain ⟨e1, e2, -⟩ := C83_log_variational verbose (VGaussian.emission K sci ⟨fun i => fin (p₀ i).β,
      fun i k => fin ((p₀ i).m k), dof fun i => (p₀ i).ν, scale fun i => (p₀ i).S⟩) sci
    (mapConfig sp tp params impl nIter) (dataX Gaussian.row ss) (some (dataLengths ss))
    (vgaussTheta dof scale s t p sP tP cov) mon
  intro c q hm
  obtain ⟨k, hk, -, -, hd⟩ := (e2.warns_at (by rw [e1]; exact h1) c q).1 hm
  have := h2 (Nat.le_succ k)
  have hp : (0 : ℝ) < 1 / 2 ^ 26 := by positivity
  simp only [Nat.succ_eq_add_one] at this
  linarith only [this, hd, hp]

/-- **C83** `VariationalGaussianHMM`, every covariance type: the warning never appears. -/
theorem C83_variational_gaussian_full [NeZero nf] : VGaussNeverWarns (nc := nc) (nf := nf) VGaussian.full .full
    (fun ν i => fin (ν i)) fun S i k l => fin (S i k l) := vgauss_neverWarns C65_full

/-- **C83** -/
theorem C83_variational_gaussian_tied [NeZero nf] : VGaussNeverWarns (nc := nc) (nf := nf) VGaussian.tied .tied
    (fun ν => fin (ν 0)) fun S k l => fin (S 0 k l) := vgauss_neverWarns C65_tied

/-- **C83** -/
theorem C83_variational_gaussian_diag [NeZero nf] : VGaussNeverWarns (nc := nc) (nf := nf) VGaussian.diag .diag
    (fun ν i => fin (ν i)) fun S i k => fin (S i k k) := vgauss_neverWarns C65_diag

/-- **C83** -/
theorem C83_variational_gaussian_spherical [NeZero nf] : VGaussNeverWarns (nc := nc) (nf := nf)
    VGaussian.spherical .spherical (fun ν i => fin (ν i)) fun S i => fin (S i 0 0) :=
  vgauss_neverWarns C65_spherical

open Gaussian Gmm in
/-- The claim for `GMMHMM` with flat priors: a warning means that the drop went to covariances without `cond`. -/
def Spec.GmmWarnings {nm : ℕ} [NeZero nm] {C V : Type} (K : Gmm.Kind XF nc nm nf C) (embed : V → C)
    (dens : CompDens nc nm nf V) (cond : V → Prop) : Prop :=
  ∀ (params : List Char) (impl : Impl) (nIter : ℕ) (ss : List (ObsSeq (Fin nf → ℝ)))
    (p : GmmPoint nc nm nf V) (mon : Monitor XF) (verbose : Bool), ss ≠ [] → ChainModel p.π p.A → MixWeights p.w →
    0 < p.L dens ss → EveryStateUsed p.π p.A (p.b dens) ss →
    let r := fitFromLog verbose (Gmm.emission K (Gmm.prior GmmPrior.flat))
      (mapConfig (fun _ => 1) (fun _ _ => 1) params impl nIter) (dataX row ss) (some (dataLengths ss))
      (Gmm.theta embed p) mon
    ∃ seq : ℕ → GmmPoint nc nm nf V, seq 0 = p ∧ r.2.state = Gmm.theta embed (seq r.2.monitor.history.length) ∧
      ∀ cur prev, Event.notConverging cur prev ∈ r.1 →
        ∃ k, prev = fin (Real.log ((seq k).L dens ss)) ∧ cur = fin (Real.log ((seq (k + 1)).L dens ss)) ∧
          'c' ∈ params ∧ ¬ cond (seq (k + 1)).v

open Gaussian Gmm in
theorem gmm_warnings {nm : ℕ} [NeZero nm] {C V : Type} {K : Gmm.Kind XF nc nm nf C} {embed : V → C}
    {dens : CompDens nc nm nf V} {cond : V → Prop} (H : FitNeverDecreases K embed dens cond) :
    GmmWarnings K embed dens cond := by
  intro params impl nIter ss p mon verbose hne h hw hL hu r
  obtain ⟨e1, e2, -⟩ := C83_log verbose (Gmm.emission K (Gmm.prior GmmPrior.flat))
    (mapConfig (fun _ => 1) (fun _ _ => 1) params impl nIter) (dataX row ss) (some (dataLengths ss))
    (Gmm.theta embed p) mon
  obtain ⟨seq, h0, h1, h2, h3, -, h5⟩ := H params impl nIter ss p mon hne h hw hL hu
  have e1' : r.2 = gmmFit K (fun _ => 1) (fun _ _ => 1) params impl nIter ss (Gmm.theta embed p) mon := e1
  refine ⟨seq, h0, by rw [e1']; exact h1, fun cur prev hm => ?_⟩
  obtain ⟨k, hk, k1, k2, k3⟩ := (e2.warns_at (by rw [e1]; exact h2) cur prev).1 hm
  refine ⟨k, k1, k2, ?_⟩
  by_contra hno
  push Not at hno
  have := Real.log_le_log (h3 k (by omega)).2.2 (h5 k (by omega) hno)
  have hp : (0 : ℝ) < 1 / 2 ^ 26 := by positivity
  linarith only [this, k3, hp]

/-- **C83** `GMMHMM`, `diag`, flat priors: the warning never appears. -/
theorem C83_gmm_diag {nm : ℕ} [NeZero nm] : GmmWarnings (nc := nc) (nm := nm) (nf := nf) Gmm.diagDefault
    (fun v i k l => fin (v i k l)) diagComp fun _ => True := gmm_warnings C62_diag

/-- **C83** `GMMHMM`, `full`: only when a new covariance is singular. -/
theorem C83_gmm_full {nm : ℕ} [NeZero nm] : GmmWarnings (nc := nc) (nm := nm) (nf := nf) Gmm.fullDefault
    (fun v i k l m => fin (v.S i k l m)) fullComp fun v => ∀ i k, (v.S i k).PosDef := gmm_warnings C62_full

/-- **C83** `GMMHMM`, `tied`: only when a new covariance is singular. -/
theorem C83_gmm_tied {nm : ℕ} [NeZero nm] : GmmWarnings (nc := nc) (nm := nm) (nf := nf) Gmm.tiedDefault
    (fun v i l m => fin (v.S i l m)) tiedComp fun v => ∀ i, (v.S i).PosDef := gmm_warnings C62_tied

/-! ## The warning about zero rows -/

section
variable {Obs D P S Q : Type} {E : Emission XF nc Obs P S} {obs : D → Obs} {params : List Char}
  (F : Family E obs params Q)

/-- **C83** One iteration with the flat transition prior leaves a zero row iff some state has no expected visit
before the last samples of the sequences. -/
theorem C83_zero_row {c : RConfig nc} (hflat : ∀ i j, c.tp i j = 1) (hsp : 's' ∈ params → ∀ i, 1 ≤ c.sp i)
    (ht : 't' ∈ params) {ss : List (ObsSeq D)} (hne : ss ≠ []) {r : RParams nc Q} (hv : r.Valid)
    (hok : F.Ok c.impl ss r) {θ : Theta XF nc P} {v : XF}
    (hst : emStep E (c.toConfig params) (dataX obs ss) (dataLengths ss) (F.theta r) = .ok (θ, v)) :
    HasZeroRow θ.transmat ↔ ∃ i, beforeLast r.π r.A (F.b r.q) ss i = 0 := by
  obtain ⟨p, hp⟩ := F.emStep_chain c ss hne hv hok hsp
  rw [hp, Except.ok.injEq, Prod.mk.injEq] at hst
  rw [← hst.1]
  unfold HasZeroRow
  refine exists_congr fun i => ?_
  obtain ⟨h1, h2⟩ := F.rstep_row c ss hv ht hflat i
  show FloatLike.eq (sumF fun j => fin ((F.rstep c ss r).A i j)) 0 = true ↔ _
  rw [sumF_fin, zero_def, fin_eq, decide_eq_true_eq]
  constructor
  · intro h
    by_contra hne'
    have hpos := lt_of_le_of_ne (beforeLast_nonneg hv.π_nonneg hv.A_nonneg (F.b_nonneg _) ss i) (Ne.symm hne')
    rw [h1 hpos] at h
    exact one_ne_zero h
  · intro h
    simp [h2 h]

/-- **C83** The warning about the first iteration's zero rows, with the flat transition prior: if some state has no
expected visit before the last samples, then `fit` warns unless `n_iter=1`, and with `n_iter=1` it returns
without a warning a model with a zero row (which no later call accepts, C28). -/
theorem C83_zero_row_reported {c : RConfig nc} (hflat : ∀ i j, c.tp i j = 1)
    (hsp : 's' ∈ params → ∀ i, 1 ≤ c.sp i) (ht : 't' ∈ params) {ss : List (ObsSeq D)} (hne : ss ≠ [])
    {r : RParams nc Q} (hv : r.Valid) (hok : F.Ok c.impl ss r) (hn : 1 ≤ c.nIter) (verbose : Bool)
    (mon : Monitor XF) (hz : ∃ i, beforeLast r.π r.A (F.b r.q) ss i = 0) :
    let log := fitFromLog verbose E (c.toConfig params) (dataX obs ss) (some (dataLengths ss)) (F.theta r) mon
    (mon.nIter ≠ 1 → Event.zeroRow ∈ log.1) ∧
    (mon.nIter = 1 → Event.zeroRow ∉ log.1 ∧ log.2.raised = none ∧ HasZeroRow log.2.state.transmat) := by
  intro log
  obtain ⟨p, hp⟩ := F.emStep_chain c ss hne hv hok hsp
  have hzr := (C83_zero_row F hflat hsp ht hne hv hok hp).2 hz
  obtain ⟨n, hn'⟩ : ∃ n, c.nIter = n + 1 := ⟨c.nIter - 1, by omega⟩
  have hstep : emStep E (c.toConfig params) (dataX obs ss) ((some (dataLengths ss)).getD
    [((dataX obs ss).length : Int)]) (F.theta r) = _ := hp
  have hconv : (mon.reset.report (lg (F.L ss r))).converged = decide (1 = mon.nIter) := by
    simp [Monitor.converged, Monitor.report, Monitor.reset, Bool.beq_eq_decide_eq]
  have hlog : log = fitLoopLog verbose (emStep E (c.toConfig params) (dataX obs ss) ((some (dataLengths ss)).getD
      [((dataX obs ss).length : Int)])) (fun θ => .ok (someZeroRow θ.transmat)) (n + 1) (F.theta r) mon.reset := by
    show fitLoopLog _ _ _ c.nIter _ _ = _
    rw [hn']
  constructor
  · intro h1
    rw [hlog]
    have h1' : ¬ (1 = mon.nIter) := fun h => h1 h.symm
    simp only [fitLoopLog, hstep, hconv, h1', decide_false, Bool.false_eq_true, if_false,
      (someZeroRow_iff _).2 hzr, if_true]
    simp
  · intro h1
    rw [hlog]
    simp only [fitLoopLog, hstep, hconv, h1, decide_true, if_true]
    exact ⟨Monitor.zeroRow_notMem _ _, trivial, hzr⟩

end

/-! ## A MAP fit that works as it should, and is said not to converge -/

namespace DemoMap

/-- Two states that emit their own symbol. -/
noncomputable def π : Fin 2 → ℝ := fun _ => 1 / 2
noncomputable def A : Fin 2 → Fin 2 → ℝ := fun _ _ => 1 / 2
noncomputable def e : Fin 2 → Fin 2 → ℝ := fun i k => if i = k then 1 else 0
/-- `startprob_prior=[1, 4]` -/
def sp : Fin 2 → ℝ := ![1, 4]
/-- One sequence of one sample, symbol 0. -/
def ss : List (ObsSeq (Fin 2)) := [⟨0, fun _ => 0⟩]

theorem model : CatModel π A e where
  π_nonneg _ := by norm_num [π]
  A_nonneg _ _ := by norm_num [A]
  e_nonneg i k := by unfold e; split <;> norm_num
  π_sum := by norm_num [π]
  A_sum i := by norm_num [A]
  e_sum i := by simp [e]

theorem stateMass_one {nc : ℕ} (π : Fin nc → ℝ) (A : Fin nc → Fin nc → ℝ) (B : Fin 1 → Fin nc → ℝ) (i : Fin nc) :
    stateMass π A B 0 i = π i * B 0 i := by
  unfold stateMass
  rw [Finset.sum_eq_single (fun _ => i)]
  · simp [joint]
  · intro z hz hne
    rw [Finset.mem_filter] at hz
    exact absurd (funext fun t => by
      rw [show t = 0 from Fin.ext (by omega)]; exact hz.2) hne
  · intro h; simp at h

/-- The likelihood of the data is the start probability of state 0. -/
theorem like (p : Fin 2 → ℝ) : likelihood (n := 0) p A (ObsSeq.weights (catB e) ⟨0, fun _ => 0⟩) = p 0 := by
  rw [likelihood_one]
  simp [ObsSeq.weights, catB, e]

theorem catL_eq (p : Fin 2 → ℝ) : catL ss p A e = p 0 := by
  simp [catL, dataLikelihood, ss, like]

theorem start (p : Fin 2 → ℝ) (hp : p 0 ≠ 0) (i : Fin 2) : startStat p A (catB e) ss i = if i = 0 then 1 else 0 := by
  simp only [startStat, ss, List.map_cons, List.map_nil, List.sum_cons, List.sum_nil, add_zero, posterior]
  rw [like, stateMass_one]
  simp only [ObsSeq.weights, catB, e]
  fin_cases i <;> simp [hp]

/-- The MAP estimate after one iteration. -/
theorem update : mapUpdate sp π (startStat π A (catB e) ss) = ![1 / 4, 3 / 4] := by
  have hs : startStat π A (catB e) ss = fun i => if i = 0 then 1 else 0 :=
    funext fun i => start π (by norm_num [π]) i
  rw [hs]
  funext i
  fin_cases i <;> norm_num [mapUpdate, mapCounts, Fin.sum_univ_two, sp, π]

theorem step (p : Fin 2 → ℝ) (h0 : ∀ i, 0 ≤ p i) (h1 : ∑ i, p i ≤ 1) (hp : 0 < p 0) (n : ℕ) :
    emStep (Categorical.emission fun _ _ => fin 1) (mapConfig sp (fun _ _ => 1) ['s'] .log n)
      (dataX Categorical.sym ss) (dataLengths ss) (Categorical.params p A e) =
    .ok (Categorical.params (mapUpdate sp p (startStat p A (catB e) ss)) A e, fin (Real.log (p 0))) := by
  have h := (Categorical.family (nc := 2) (fun _ (_ : Fin 2) => 1) ['s']).emStep_real
    ⟨sp, fun _ _ => 1, .log, n⟩ ss (by simp [ss]) (r := ⟨p, A, ⟨e, model.e_nonneg, model.e_sum⟩⟩)
    ⟨h0, model.A_nonneg, h1, model.A_sum⟩ (by
      intro s hs
      simp only [ss, List.mem_singleton] at hs
      subst hs
      show 0 < _
      exact hp.trans_eq (like p).symm) trivial (by
      intro _ i; fin_cases i <;> norm_num [sp])
  refine h.trans ?_
  have hL : (Categorical.family (nc := 2) (fun _ (_ : Fin 2) => 1) ['s']).L ss
      ⟨p, A, ⟨e, model.e_nonneg, model.e_sum⟩⟩ = p 0 := catL_eq p
  rw [hL, lg_pos hp]
  rfl

theorem mem_log {α σ : Type} [FloatLike α] {verbose : Bool} {step : σ → Except PyErr (σ × α)}
    {zeroRow : σ → Except PyErr Bool} {k : ℕ} {s s' : σ} {v : α} {mon : Monitor α} (h : step s = .ok (s', v))
    {ev : Event α} (hev : ev ∈ mon.events verbose v) : ev ∈ (fitLoopLog verbose step zeroRow (k + 1) s mon).1 := by
  simp only [fitLoopLog, h]
  split
  · exact hev
  · split
    · exact hev
    · simp [hev]

theorem mem_log_tail {α σ : Type} [FloatLike α] {verbose : Bool} {step : σ → Except PyErr (σ × α)}
    {zeroRow : σ → Except PyErr Bool} {k : ℕ} {s s' : σ} {v : α} {mon : Monitor α} (h : step s = .ok (s', v))
    (hc : (mon.report v).converged = false) {z : Bool} (hz : zeroRow s' = .ok z) {ev : Event α}
    (hev : ev ∈ (fitLoopLog verbose step zeroRow k s' (mon.report v)).1) :
    ev ∈ (fitLoopLog verbose step zeroRow (k + 1) s mon).1 := by
  simp only [fitLoopLog, h, hc, hz, Bool.false_eq_true, if_false]
  exact List.mem_append_right _ hev

/-- **C83** (defect) `startprob_prior=[1, 4]`, one observation: the fit does what the priors ask for, its penalised
log-likelihood does not decrease (C29), and with any number of iterations above one the user is told that the
model is not converging. -/
theorem _root_.Verif.C83_map_warns (verbose : Bool) (n : ℕ) (mon : Monitor XF) (hm : mon.nIter ≠ 1) :
    let r := fitFromLog verbose (Categorical.emission fun _ _ => fin 1) (mapConfig sp (fun _ _ => 1) ['s'] .log (n + 2))
      (dataX Categorical.sym ss) (some (dataLengths ss)) (Categorical.params π A e) mon
    Event.notConverging (fin (Real.log (1 / 4))) (fin (Real.log (1 / 2))) ∈ r.1 ∧
    catObjective sp (fun _ _ => 1) (fun _ _ => 1) ss π A e ≤
      catObjective sp (fun _ _ => 1) (fun _ _ => 1) ss ![1 / 4, 3 / 4] A e := by
  intro r
  constructor
  · have h1 := step π model.π_nonneg model.π_sum (by norm_num [π]) (n + 2)
    rw [update] at h1
    have h2 := step ![1 / 4, 3 / 4] (by intro i; fin_cases i <;> norm_num)
      (by norm_num [Fin.sum_univ_two]) (by norm_num) (n + 2)
    have hc : (mon.reset.report (fin (Real.log (π 0)))).converged = false := by
      simp [Monitor.converged, Monitor.report, Monitor.reset, Ne.symm hm]
    have hlast : Event.notConverging (fin (Real.log (1 / 4))) (fin (Real.log (1 / 2))) ∈
        (mon.reset.report (fin (Real.log (π 0)))).events verbose (fin (Real.log ((![1 / 4, 3 / 4] : Fin 2 → ℝ) 0))) := by
      unfold Monitor.events
      rw [List.mem_append]
      right
      have : (mon.reset.report (fin (Real.log (π 0)))).history.getLast? = some (fin (Real.log (1 / 2))) := by
        simp [Monitor.report, Monitor.reset, π]
      simp only [this, precision, ofRat_def, fin_sub, fin_neg, fin_lt, Matrix.cons_val_zero]
      rw [if_pos, List.mem_singleton]
      rw [decide_eq_true_eq, ← Real.log_div (by norm_num) (by norm_num)]
      have h4 : Real.log (1 / 4 / (1 / 2)) ≤ 1 / 4 / (1 / 2) - 1 := Real.log_le_sub_one_of_pos (by norm_num)
      push_cast
      norm_num at h4 ⊢
      linarith
    show _ ∈ (fitLoopLog verbose _ _ (n + 1 + 1) _ _).1
    exact mem_log_tail h1 hc rfl (mem_log h2 hlast)
  · simp only [catObjective, catL_eq, logDirichlet_one, Finset.sum_const_zero, add_zero]
    have h3 : Real.log (1 / 16) ≤ Real.log (27 / 256) := Real.log_le_log (by norm_num) (by norm_num)
    have a1 : Real.log (1 / 16) = 4 * Real.log (1 / 2) := by
      rw [show (1 / 16 : ℝ) = (1 / 2) ^ 4 by norm_num, Real.log_pow]; norm_num
    have a2 : Real.log (27 / 256) = Real.log (1 / 4) + 3 * Real.log (3 / 4) := by
      rw [show (27 / 256 : ℝ) = 1 / 4 * (3 / 4) ^ 3 by norm_num, Real.log_mul (by norm_num) (by norm_num), Real.log_pow]
      norm_num
    simp only [logDirichlet, Fin.sum_univ_two, sp, π, Matrix.cons_val_zero, Matrix.cons_val_one]
    linarith


end DemoMap
/-! ## Rounding -/

/-- A drop within the roundoff is not reported. -/
theorem lt_precision_rounded {τ : Trapped} {x y ε : ℝ} (hxy : x ≤ y + ε)
    (hε : (1 + τ.u) * ε ≤ (1 - τ.u) * (1 / 2 ^ 26)) :
    lt (TX.fin τ y - TX.fin τ x) (-(ofRat (1 / 2 ^ 26) : TX τ)) ≠ true := by
  intro hlt
  have hq : ((1 / 2 ^ 26 : ℚ) : ℝ) = 1 / 2 ^ 26 := by norm_num
  have hlt' : XF.lt (τ.ap (XF.sub (fin y) (fin x))) (XF.neg (τ.ap (fin ((1 / 2 ^ 26 : ℚ) : ℝ)))) = true := hlt
  rw [hq, show XF.sub (fin y) (fin x) = fin (y - x) from fin_sub y x] at hlt'
  clear hlt
  have hpos : (0 : ℝ) < 1 / 2 ^ 26 := by positivity
  generalize (1 / 2 ^ 26 : ℝ) = q at *
  unfold Trapped.ap at hlt'
  have hu := τ.u_nonneg
  have hu1 := τ.u_lt
  cases hd : τ.rnd (y - x) with
  | none =>
    simp only [hd, Option.elim_none] at hlt'
    cases hlt'
  | some d =>
    cases hw : τ.rnd q with
    | none =>
      simp only [hd, hw, Option.elim_none] at hlt'
      cases hlt'
    | some w =>
      simp only [hd, hw, Option.elim_some] at hlt'
      have h1 : d < -w := of_decide_eq_true hlt'
      have a1 := abs_le.1 (τ.rel _ _ hd)
      have a2 := abs_le.1 (τ.rel _ _ hw)
      rw [abs_of_pos hpos] at a2
      have hwq : 0 < (1 - τ.u) * q := mul_pos (by linarith only [hu1]) hpos
      rcases le_total 0 (y - x) with h | h
      · rw [abs_of_nonneg h] at a1
        have : 0 ≤ (1 - τ.u) * (y - x) := mul_nonneg (by linarith only [hu1]) h
        linarith only [this, a1.1, a2.1, h1, hwq]
      · rw [abs_of_nonpos h] at a1
        have : (1 + τ.u) * -ε ≤ (1 + τ.u) * (y - x) :=
          mul_le_mul_of_nonneg_left (by linarith only [hxy]) (by linarith only [hu])
        linarith only [this, a1.1, a2.1, h1, hε]

/-- **C83** `CategoricalHMM` with flat priors in floating point: as long as nothing left the range, no warning
appears between two iterations whose roundoff (C76) is below the threshold. -/
theorem C83_rounded {τ : Trapped} (hm : τ.HasMinSum) {K : ℕ} {params : List Char} {nIter : ℕ} (verbose : Bool)
    {θ0' : Theta (TX τ) nc (Categorical.Params (TX τ) nc nf)} {θ0 : CatParams nc nf}
    (hθ : CatModel θ0.π θ0.A θ0.e) (h0 : NearModel K θ0' θ0) (ss : List (ObsSeq (Fin nf))) (hne : ss ≠ [])
    {N : ℕ} (hN : ∀ s ∈ ss, s.n ≤ N) (mon : Monitor (TX τ)) :
    let E := catEmission (nc := nc) (nf := nf) τ fun _ _ => 1
    let cfg := catConfig (nc := nc) τ (fun _ => 1) (fun _ _ => 1) params nIter
    let r := fitFromLog verbose E cfg (dataX Categorical.sym ss) (some (dataLengths ss)) θ0' mon
    let err := historyError τ.u N K params (fun _ => 1) (fun _ _ => 1) (fun _ _ => 1) ss θ0
    (∀ lp ∈ r.2.monitor.history, lp ≠ TX.nan τ) →
    (∀ h₁ θ₁, h₁ <+: r.2.monitor.history → Runs (emStep E cfg (dataX Categorical.sym ss) (dataLengths ss)) h₁ θ0' θ₁ →
      NoNaN θ₁) →
    ∀ cur prev, Event.notConverging cur prev ∈ r.1 → ∃ k, ∃ hk : k + 1 < r.2.monitor.history.length,
      r.2.monitor.history[k] = prev ∧ r.2.monitor.history[k + 1] = cur ∧
      (1 - τ.u) * (1 / 2 ^ 26) < (1 + τ.u) * (err k + err (k + 1)) := by
  intro E cfg r err hn hc c p hmem
  obtain ⟨e1, e2, -⟩ := C83_log verbose E cfg (dataX Categorical.sym ss) (some (dataLengths ss)) θ0' mon
  obtain ⟨hp, hlt⟩ := (e2.warns_iff c p).1 hmem
  obtain ⟨k, hk, rfl, rfl⟩ := mem_consecutive.1 hp
  refine ⟨k, hk, rfl, rfl, ?_⟩
  have hr : Runs (emStep E cfg (dataX Categorical.sym ss) (dataLengths ss)) r.2.monitor.history θ0' r.2.state := by
    rw [show r.2 = _ from e1]
    exact runs_of_fit E cfg (dataX Categorical.sym ss) (some (dataLengths ss)) θ0' mon
  obtain ⟨x, y, x1, y1, hxy⟩ := C76_history hm hθ h0 ss hne hN hr hn hc k (k + 1) (Nat.le_succ k) hk
  rw [x1, y1] at hlt
  by_contra hno
  rw [not_lt] at hno
  exact lt_precision_rounded (ε := err k + err (k + 1)) (by rw [← add_assoc]; exact hxy) hno hlt

/-- **C83** The same where no result leaves the range, on data that the exact iterates predict: `fit` returns, and
says nothing if the roundoff of every two consecutive iterations is below the threshold. -/
theorem C83_rounded_in_range {τ : Trapped} (hτ : τ.Total) {K : ℕ} {params : List Char} {nIter : ℕ} (verbose : Bool)
    {θ0' : Theta (TX τ) nc (Categorical.Params (TX τ) nc nf)} {θ0 : CatParams nc nf}
    (hθ : CatModel θ0.π θ0.A θ0.e) (h0 : NearModel K θ0' θ0) (hf : AllFin θ0') (ss : List (ObsSeq (Fin nf)))
    (hL : 0 < catL ss θ0.π θ0.A θ0.e) (hne : ss ≠ []) {N : ℕ} (hN : ∀ s ∈ ss, s.n ≤ N)
    (hp : ∀ k < nIter, Predictable τ.u (fitSteps nc nf N (totalSamples ss) K k) ss
      ((catEM params (fun _ => 1) (fun _ _ => 1) (fun _ _ => 1) ss)^[k] θ0))
    (herr : ∀ k, k + 1 < nIter → (1 + τ.u) *
      (historyError τ.u N K params (fun _ => 1) (fun _ _ => 1) (fun _ _ => 1) ss θ0 k +
        historyError τ.u N K params (fun _ => 1) (fun _ _ => 1) (fun _ _ => 1) ss θ0 (k + 1)) ≤
      (1 - τ.u) * (1 / 2 ^ 26)) (mon : Monitor (TX τ)) :
    let r := fitFromLog verbose (catEmission (nc := nc) (nf := nf) τ fun _ _ => 1)
      (catConfig (nc := nc) τ (fun _ => 1) (fun _ _ => 1) params nIter)
      (dataX Categorical.sym ss) (some (dataLengths ss)) θ0' mon
    r.2.raised = none ∧ NeverWarns r.1 := by
  intro r
  obtain ⟨e1, e2, -⟩ := C83_log verbose (catEmission (nc := nc) (nf := nf) τ fun _ _ => 1)
    (catConfig (nc := nc) τ (fun _ => 1) (fun _ _ => 1) params nIter)
    (dataX Categorical.sym ss) (some (dataLengths ss)) θ0' mon
  obtain ⟨h1, -, -, h4⟩ := C76_fit_in_range hτ (fun _ => le_rfl) (fun _ _ => le_rfl) (fun _ _ => le_rfl) h0 hf ss
    hne hN hp mon
  refine ⟨by rw [show r.2 = _ from e1]; exact h1, fun c p hmem => ?_⟩
  obtain ⟨hq, hlt⟩ := (e2.warns_iff c p).1 hmem
  rw [show (fitFromLog _ _ _ _ _ _ _).2 = _ from e1] at hq
  obtain ⟨k, hk, rfl, rfl⟩ := mem_consecutive.1 hq
  obtain ⟨x, x1, x2⟩ := h4 k (Nat.lt_of_succ_lt hk)
  obtain ⟨y, y1, y2⟩ := h4 (k + 1) hk
  rw [x1, y1] at hlt
  have hlen : k + 1 < nIter := hk.trans_le (by
    obtain ⟨h', r1, r2, r3, -⟩ := fitLoop_spec (step := emStep (catEmission (nc := nc) (nf := nf) τ fun _ _ => 1)
      (catConfig (nc := nc) τ (fun _ => 1) (fun _ _ => 1) params nIter) (dataX Categorical.sym ss)
      (dataLengths ss)) nIter θ0' mon.reset rfl
    show (fitLoop _ nIter θ0' mon.reset).monitor.history.length ≤ nIter
    refine le_of_eq_of_le ?_ r2
    exact (congrArg (fun m : Monitor (TX τ) => m.history.length) r3).trans (by simp [Monitor.reset]))
  set f := catEM (nc := nc) (nf := nf) params (fun _ => 1) (fun _ _ => 1) (fun _ _ => 1) ss with hfdef
  have hinv : ∀ i, CatModel (f^[i] θ0).π (f^[i] θ0).A (f^[i] θ0).e ∧
      0 < catL ss (f^[i] θ0).π (f^[i] θ0).A (f^[i] θ0).e := by
    intro i
    induction i with
    | zero => exact ⟨hθ, hL⟩
    | succ i ih =>
      rw [Function.iterate_succ_apply']
      have := catEM_mono params ss ih.1 ih.2
      exact ⟨this.1, ih.2.trans_le this.2⟩
  have hmono := Real.log_le_log (hinv k).2 (catEM_mono params ss (hinv k).1 (hinv k).2).2
  rw [← hfdef, ← Function.iterate_succ_apply' f] at hmono
  refine lt_precision_rounded ?_ (herr k hlen) hlt
  have := abs_le.1 x2
  have := abs_le.1 y2
  simp only [Nat.succ_eq_add_one] at hmono
  linarith

/-! ## Cases -/

/-- Two sequences, all parameters. -/
example (impl : Impl) (mon : Monitor XF) :
    NeverWarns (fitFromLog true (Categorical.emission fun _ _ => fin 1)
      (mapConfig (fun _ => 1) (fun _ _ => 1) ['s', 't', 'e'] impl 10) (dataX Categorical.sym [Demo.seq, Demo.seq])
      (some (dataLengths [Demo.seq, Demo.seq])) (Categorical.params Demo.π Demo.A Demo.e) mon).1 :=
  C83_categorical true ['s', 't', 'e'] impl 10 [Demo.seq, Demo.seq] (by simp) Demo.catModel Demo.catL_pos mon

/-- Sequences of one sample and `n_iter=1`: both rows of the new `transmat_` are zero, and `fit` says nothing. -/
example (mon : Monitor XF) (hm : mon.nIter = 1) :
    let r := fitFromLog false (Categorical.emission fun _ _ => fin 1)
      (mapConfig (fun _ => 1) (fun _ _ => 1) ['s', 't', 'e'] .log 1) (dataX Categorical.sym DemoMap.ss)
      (some (dataLengths DemoMap.ss)) (Categorical.params DemoMap.π DemoMap.A DemoMap.e) mon
    Event.zeroRow ∉ r.1 ∧ r.2.raised = none ∧ HasZeroRow r.2.state.transmat :=
  (C83_zero_row_reported (Categorical.family (nc := 2) (fun _ (_ : Fin 2) => 1) ['s', 't', 'e'])
    (c := ⟨fun _ => 1, fun _ _ => 1, .log, 1⟩) (by simp) (by simp) (by simp) (ss := DemoMap.ss) (by simp [DemoMap.ss])
    (r := DemoMap.model.rp) DemoMap.model.valid (by
      intro s hs
      simp only [DemoMap.ss, List.mem_singleton] at hs
      subst hs
      show 0 < _
      exact (show (0 : ℝ) < DemoMap.π 0 by norm_num [DemoMap.π]).trans_eq (DemoMap.like DemoMap.π).symm)
    le_rfl false mon ⟨0, by simp [beforeLast, DemoMap.ss]⟩).2 hm

namespace DemoOne

/-- One state, two symbols, one observation of symbol 0. -/
noncomputable def θ : CatParams 1 2 := ⟨fun _ => 1, fun _ _ => 1, fun _ _ => 1 / 2⟩
def ss : List (ObsSeq (Fin 2)) := [⟨0, fun _ => 0⟩]

theorem like (e : Fin 1 → Fin 2 → ℝ) :
    likelihood (n := 0) (fun _ => 1) (fun _ _ => 1) (ObsSeq.weights (catB e) ⟨0, fun _ => 0⟩) = e 0 0 := by
  rw [likelihood_one]
  simp [ObsSeq.weights, catB]

theorem pred (e : Fin 1 → Fin 2 → ℝ) (t : Fin 1) :
    predictive (n := 0) (fun _ => 1) (fun _ _ => 1) (ObsSeq.weights (catB e) ⟨0, fun _ => 0⟩) t = e 0 0 := by
  rw [show t = 0 from Subsingleton.elim _ _]
  exact like e

/-- After one iteration symbol 0 has probability one. -/
theorem em : catEM ['e'] (fun _ => 1) (fun _ _ => 1) (fun _ _ => 1) ss θ =
    ⟨fun _ => 1, fun _ _ => 1, fun _ => ![1, 0]⟩ := by
  have hc : ∀ i, emitCount θ.π θ.A θ.e ss i = ![1, 0] := by
    intro i
    funext k
    simp only [emitCount, ss, List.map_cons, List.map_nil, List.sum_cons, List.sum_nil, add_zero, posterior]
    rw [Fintype.sum_eq_single 0 fun t ht => absurd (Subsingleton.elim (α := Fin 1) t 0) ht]
    simp only [θ]
    rw [like, DemoMap.stateMass_one]
    fin_cases k <;> simp [ObsSeq.weights, catB]
  unfold catEM
  simp only [List.mem_singleton, Char.reduceEq, if_false, if_true, hc]
  congr 1
  funext i k
  fin_cases k <;> simp [mapUpdate, mapCounts, Fin.sum_univ_two]

theorem loss_le {u : ℝ} (h0 : 0 ≤ u) (h1 : u ≤ 1 / 10 ^ 12) : 0 ≤ loss u ∧ loss u ≤ 2 * u := by
  have h2 : u ≤ 1 / 2 := h1.trans (by norm_num)
  have h3 : 0 < 1 - u := by linarith
  unfold loss
  constructor
  · have := Real.log_le_sub_one_of_pos h3; linarith
  · have := Real.one_sub_inv_le_log_of_pos h3
    have h4 : (1 - u)⁻¹ ≤ 1 + 2 * u := by
      rw [inv_le_iff_one_le_mul₀ h3]; nlinarith
    linarith

theorem score_le {u V : ℝ} (h0 : 0 ≤ u) (h1 : u ≤ 1 / 10 ^ 12) (hV : 0 ≤ V) (hV1 : V ≤ 1) {K : ℕ} (hK : K ≤ 55) :
    scoreError u 1 K V ≤ 120 * u := by
  obtain ⟨l0, l1⟩ := loss_le h0 h1
  have hk : (K : ℝ) ≤ 55 := by exact_mod_cast hK
  have hk0 : (0 : ℝ) ≤ K := Nat.cast_nonneg K
  unfold scoreError
  have a1 : (K : ℝ) * loss u ≤ 110 * u := by nlinarith
  have a2 : 0 ≤ (K : ℝ) * loss u := mul_nonneg hk0 l0
  have a3 : (1 + u) ^ (1 + 1) - 1 ≤ 3 * u := by norm_num at h1 ⊢; nlinarith
  have a4 : 0 ≤ (1 + u) ^ (1 + 1) - 1 := sub_nonneg.2 (one_le_pow₀ (by linarith))
  have a5 : V + ((1 : ℕ) : ℝ) * (2 * K * loss u) ≤ 2 := by
    norm_num at h1 ⊢
    nlinarith
  have a6 : ((1 + u) ^ (1 + 1) - 1) * (V + ((1 : ℕ) : ℝ) * (2 * K * loss u)) ≤ 3 * u * 2 :=
    mul_le_mul a3 a5 (by norm_num; nlinarith) (by linarith)
  linarith

theorem data_le {u : ℝ} (h0 : 0 ≤ u) (h1 : u ≤ 1 / 10 ^ 12) {K : ℕ} (hK : 2 * K + 3 ≤ 55) (e : Fin 1 → Fin 2 → ℝ)
    (he : |Real.log (e 0 0)| ≤ 1) : dataError u K K K (fun _ => 1) (fun _ _ => 1) (catB e) ss ≤ 300 * u := by
  have hs : surprise (n := 0) (fun _ => 1) (fun _ _ => 1) (ObsSeq.weights (catB e) ⟨0, fun _ => 0⟩) = |Real.log (e 0 0)| := by
    unfold surprise
    rw [Fintype.sum_eq_single 0 fun t ht => absurd (Subsingleton.elim (α := Fin 1) t 0) ht, pred]
  have h2 := score_le (K := steps 1 0 K K K) h0 h1 (abs_nonneg (Real.log (e 0 0))) he (by simp only [steps]; omega)
  simp only [dataError, ss, List.map_cons, List.map_nil, List.sum_cons, List.sum_nil, add_zero, List.length_singleton,
    pow_one, hs, like]
  norm_num at h1 ⊢
  nlinarith [abs_nonneg (Real.log (e 0 0))]

/-- **C83**, a case with two iterations: any rounding without overflow and underflow and with relative error at
most `1e-12`. -/
theorem C83_demo {τ : Trapped} (hτ : τ.Total) (hu : τ.u ≤ 1 / 10 ^ 12) (mon : Monitor (TX τ)) :
    NeverWarns (fitFromLog true (catEmission τ fun _ _ => 1)
      (catConfig τ (fun _ => 1) (fun _ _ => 1) ['e'] 2) (dataX Categorical.sym ss) (some (dataLengths ss))
      (Categorical.paramsTX τ θ.π θ.A θ.e) mon).1 := by
  have hu0 := τ.u_nonneg
  have hlog : |Real.log (1 / 2)| ≤ 1 := by
    have h1 := Real.one_sub_inv_le_log_of_pos (show (0 : ℝ) < 1 / 2 by norm_num)
    have h2 := Real.log_le_sub_one_of_pos (show (0 : ℝ) < 1 / 2 by norm_num)
    rw [abs_le]; norm_num at h1 h2 ⊢; constructor <;> linarith
  have hpow : ∀ n : ℕ, n ≤ 1000 → (1 / 2 : ℝ) ≤ (1 - τ.u) ^ n := by
    intro n hn
    have := one_add_mul_le_pow (a := -τ.u) (by have := τ.u_lt; linarith) n
    have hn' : (n : ℝ) ≤ 1000 := by exact_mod_cast hn
    rw [← sub_eq_add_neg] at this
    norm_num at hu ⊢
    nlinarith
  have hsmall : (1 / 10 ^ 300 : ℝ) ≤ 1 / 4 :=
    (one_div_le_one_div_of_le (by norm_num) (pow_le_pow_right₀ (by norm_num) (show 1 ≤ 300 by norm_num))).trans
      (by norm_num : (1 / 10 ^ 1 : ℝ) ≤ 1 / 4)
  refine (C83_rounded_in_range (τ := τ) hτ (K := 0) (θ0 := θ) true ?_ ?_ ?_ ss ?_ (by simp [ss]) (N := 0) ?_ ?_ ?_ mon).2
  · exact ⟨fun _ => by norm_num [θ], fun _ _ => by norm_num [θ], fun _ _ => by norm_num [θ], by norm_num [θ],
      fun _ => by norm_num [θ], fun _ => by norm_num [θ]⟩
  · exact ⟨fun i => ⟨_, rfl, by norm_num [θ], by simp [Within]⟩, fun i j => ⟨_, rfl, by norm_num [θ], by simp [Within]⟩,
      fun i k => Near.fin (by norm_num [θ])⟩
  · exact ⟨fun _ => ⟨_, rfl⟩, fun _ _ => ⟨_, rfl⟩, fun _ _ => ⟨_, rfl⟩⟩
  · simp only [catL, dataLikelihood, ss, List.map_cons, List.map_nil, List.prod_cons, List.prod_nil, mul_one, θ, like]
    norm_num
  · simp [ss]
  · intro k hk s hs t
    simp only [ss, List.mem_singleton] at hs
    subst hs
    have hk' : k = 0 ∨ k = 1 := by omega
    refine hsmall.trans ?_
    rcases hk' with rfl | rfl
    · simp only [Function.iterate_zero, id]
      rw [show predictive θ.π θ.A _ t = _ from pred θ.e t]
      have := hpow (2 * steps 1 0 0 0 0 + 1) (by norm_num [steps])
      simp only [θ, fitSteps]
      linarith
    · simp only [Function.iterate_one, em]
      rw [show predictive (fun _ => 1) (fun _ _ => 1) _ t = _ from pred (fun _ => ![1, 0]) t]
      have := hpow (2 * steps 1 0 (fitSteps 1 2 0 (totalSamples ss) 0 1) (fitSteps 1 2 0 (totalSamples ss) 0 1) (fitSteps 1 2 0 (totalSamples ss) 0 1) + 1)
        (by norm_num [steps, fitSteps, emSteps, countSteps, totalSamples, ss])
      simp only [Matrix.cons_val_zero, mul_one]
      linarith
  · intro k hk
    obtain rfl : k = 0 := by omega
    have h0 : historyError τ.u 0 0 ['e'] (fun _ => 1) (fun _ _ => 1) (fun _ _ => 1) ss θ 0 ≤ 300 * τ.u :=
      data_le hu0 hu (K := 0) (by norm_num) _ hlog
    have h1 : historyError τ.u 0 0 ['e'] (fun _ => 1) (fun _ _ => 1) (fun _ _ => 1) ss θ (0 + 1) ≤ 300 * τ.u := by
      simp only [historyError, zero_add, Function.iterate_one, em]
      exact data_le hu0 hu (by norm_num [steps, fitSteps, emSteps, countSteps, totalSamples, ss]) _ (by simp)
    norm_num at hu ⊢
    have h01 := add_le_add h0 h1
    norm_num at h01
    have : (1 + τ.u) * (historyError τ.u 0 0 ['e'] (fun _ => 1) (fun _ _ => 1) (fun _ _ => 1) ss θ 0 +
      historyError τ.u 0 0 ['e'] (fun _ => 1) (fun _ _ => 1) (fun _ _ => 1) ss θ 1) ≤ (1 + τ.u) * (600 * τ.u) :=
      mul_le_mul_of_nonneg_left (by linarith) (by linarith)
    nlinarith

end DemoOne

end Verif
