import Verif.Proofs.OneState

/-!
# C90: with one component the variational models are exact after one iteration
-/

set_option autoImplicit false

namespace Verif
open FloatLike XF Hmmc Spec MeasureTheory Gaussian VGaussian
open scoped Classical

variable {nf : ℕ}

/-- Every value but the first is the log evidence `B`; and with a positive tolerance there are at most three. -/
def ExactAfterOne (B : ℝ) (mon : Monitor XF) (history : List XF) : Prop :=
  (∀ v ∈ history.tail, v = fin B) ∧ ∀ {τ : ℝ}, 0 < τ → mon.tol = fin τ → history.length ≤ 3

theorem Stopped.exact {n : ℕ} {mon out : Monitor XF} {raised : Option PyErr} (hS : Stopped n mon.reset out raised)
    {m : ℕ} {f : ℕ → ℝ} {B : ℝ} (hh : out.history = (List.range m).map fun k => fin (f k)) (hf : ∀ k, f (k + 1) = B) :
    ExactAfterOne B mon out.history := by
  refine ⟨fun v hv => ?_, fun {τ} hτ htol => ?_⟩
  · rw [hh] at hv
    cases m with
    | zero => simp at hv
    | succ m =>
      rw [List.range_succ_eq_map] at hv
      simp only [List.map_cons, List.tail_cons, List.map_map, List.mem_map, List.mem_range, Function.comp_apply] at hv
      obtain ⟨k, -, rfl⟩ := hv
      rw [hf]
  · obtain ⟨h, h3, h4, -⟩ := hS
    have hh' : h = (List.range m).map fun k => fin (f k) := by rw [← hh, h3]; simp [Monitor.reset]
    rw [hh, List.length_map, List.length_range]
    by_contra hlt
    have hm : 3 < m := by omega
    have h0 := h4 3 (by omega) (by rw [hh']; simpa using hm)
    have ht : h.take 3 = [fin (f 0), fin (f 1), fin (f 2)] := by
      rw [hh', ← List.map_take, List.take_range, Nat.min_eq_left hm.le]
      rfl
    have hd : f 2 - f 1 = 0 := by rw [hf 1, hf 0, sub_self]
    simp only [Monitor.converged, ht, Monitor.reset, List.nil_append, List.reverse_cons, List.reverse_nil,
      List.cons_append] at h0
    rw [htol, show (fin (f 2) - fin (f 1) : XF) = fin (f 2 - f 1) from rfl,
      show lt (fin (f 2 - f 1)) (fin τ) = decide (f 2 - f 1 < τ) from rfl, hd, decide_eq_true hτ, Bool.or_true] at h0
    exact absurd h0 (by simp)

/-! ## Symbols -/

/-- **C90** `VariationalCategoricalHMM(n_components=1)` with 'e' in `params`: from the second value on the history is the
log evidence, whatever the starting concentrations; and if an iteration was made, the posterior concentrations are the
prior plus the number of times each symbol occurs in the data. -/
theorem C90_categorical [NeZero nf] {sci : Sci XF} (hsci : sci.Exact) {sp : Fin 1 → ℝ} {tp : Fin 1 → Fin 1 → ℝ}
    {ep : Fin 1 → Fin nf → ℝ} (hsp : ∀ i, 0 < sp i) (htp : ∀ i j, 0 < tp i j) (hep : ∀ i k, 0 < ep i k) {params : List Char}
    (hpar : 'e' ∈ params) (impl : Impl) (nIter : ℕ) {ss : List (ObsSeq (Fin nf))} (hne : ss ≠ []) {s : Fin 1 → ℝ}
    {t : Fin 1 → Fin 1 → ℝ} {e : Fin 1 → Fin nf → ℝ} (hs : ∀ i, 0 < s i) (ht : ∀ i j, 0 < t i j) (he : ∀ i k, 0 < e i k)
    (sP : Option (Fin 1 → ℝ)) (tP : Option (Fin 1 → Fin 1 → ℝ)) (eP : Option (Fin 1 → Fin nf → ℝ)) (mon : Monitor XF) :
    let out := vcatFit sci sp tp ep params impl nIter ss (vcatTheta s t e sP tP eP) mon
    ExactAfterOne (Real.log (catEvidence sp tp ep ss)) mon out.monitor.history ∧
    (out.monitor.history ≠ [] →
      out.state.emission.post = fun i k => fin (ep i k + ((samples ss).count k : ℝ))) := by
  intro out
  obtain ⟨σ, τ, ε, h1, h2, h3, hup, -, -, hpost, hh⟩ := C53_conjugate hsci hsp htp hep params impl nIter hne hs ht he
    sP tP eP mon
  have hε : ∀ k, ε (k + 1) = fun i v => ep i v + ((samples ss).count v : ℝ) := fun k => by
    rw [hup.emit k, if_pos hpar]
    funext i v
    rw [emitCount_single]
  refine ⟨(stopped_vfitLoop nIter _ mon.reset rfl).exact hh fun k => ?_, fun hn => ?_⟩
  · rw [hε k]
    exact catLowerBound_exact hsp htp hep ss _ _
  · have hpos : out.monitor.history.length ≠ 0 := by rwa [ne_eq, List.length_eq_zero_iff]
    obtain ⟨k, hk⟩ := Nat.exists_eq_succ_of_ne_zero hpos
    rw [hpost]
    have : (vcatFit sci sp tp ep params impl nIter ss (vcatTheta s t e sP tP eP) mon).monitor.history.length = k + 1 := hk
    rw [this, hε k]

/-! ## Normal emissions -/

/-- The conjugate posterior of one component: prior and all samples. -/
noncomputable def exactNW (p₀ : NW nf) (l : List (Fin nf → ℝ)) : NW nf :=
  let N : ℝ := l.length
  let m : Fin nf → ℝ := fun k => (p₀.β * p₀.m k + (l.map fun x => x k).sum) / (p₀.β + N)
  { β := p₀.β + N
    m := m
    ν := p₀.ν + N
    S := p₀.S + (p₀.β • Matrix.vecMulVec (m - p₀.m) (m - p₀.m) +
      Matrix.of fun k l' => (l.map fun x => (x k - m k) * (x l' - m l')).sum) }

/-- Claim of C90 for one covariance type: with 'm' and 'c' in `params`, from the second value on the history is the log
evidence, whatever the starting posterior; and if an iteration was made, the posterior is the conjugate one. -/
def ExactSingle {Dof Sc St : Type} (K : VGaussian.Kind XF 1 nf Dof Sc St) (ty : CovType)
    (dof : (Fin 1 → ℝ) → Dof) (scale : (Fin 1 → Matrix (Fin nf) (Fin nf) ℝ) → Sc) : Prop :=
  ∀ {sci : Sci XF}, sci.Exact →
  ∀ {sp : Fin 1 → ℝ} {tp : Fin 1 → Fin 1 → ℝ} {p₀ : Fin 1 → NW nf}, (∀ i, 0 < sp i) → (∀ i j, 0 < tp i j) →
    (∀ i, (p₀ i).Proper) → Allowed ty p₀ →
  ∀ {params : List Char}, 'm' ∈ params → 'c' ∈ params →
  ∀ (impl : Impl) (nIter : ℕ) {ss : List (ObsSeq (Fin nf → ℝ))}, ss ≠ [] →
  ∀ {s : Fin 1 → ℝ} {t : Fin 1 → Fin 1 → ℝ} {p : Fin 1 → NW nf}, (∀ i, 0 < s i) → (∀ i j, 0 < t i j) →
    (∀ i, (p i).Proper) → Allowed ty p →
  ∀ (sP : Option (Fin 1 → ℝ)) (tP : Option (Fin 1 → Fin 1 → ℝ))
    (cov : Option (Fin 1 → Matrix (Fin nf) (Fin nf) ℝ)) (mon : Monitor XF),
  let out := vgaussFit K dof scale sci sp tp p₀ params impl nIter ss (vgaussTheta dof scale s t p sP tP cov) mon
  ExactAfterOne (gaussBoundary ty sp tp p₀ ss) mon out.monitor.history ∧
  (out.monitor.history ≠ [] → out.state.emission =
    (vgaussTheta dof scale s t (fun _ => exactNW (p₀ 0) (samples ss)) sP tP
      (some fun _ => (exactNW (p₀ 0) (samples ss)).covar)).emission)

theorem exact_single [NeZero nf] {Dof Sc St : Type} {K : VGaussian.Kind XF 1 nf Dof Sc St} {ty : CovType}
    {dof : (Fin 1 → ℝ) → Dof} {scale : (Fin 1 → Matrix (Fin nf) (Fin nf) ℝ) → Sc}
    (hty : ty = .full ∨ ty = .tied ∨ nf = 1) (H : VGaussFitSpec K ty dof scale) : ExactSingle K ty dof scale := by
  intro sci hsci sp tp p₀ hsp htp h₀ hA₀ params hm hc impl nIter ss hne s t p hs ht hp hA sP tP cov mon out
  obtain ⟨σ, ρ, P, e1, e2, e3, hup, -, -, -, hst, hh, -, -⟩ :=
    H hsci hsp htp h₀ hA₀ (fun _ => hm) impl nIter hne hs ht hp hA sP tP cov mon
  have hP : ∀ k, P (k + 1) = nwUpdate ty params p₀ (P k) (hard (oneAssign ss).e) := fun k => by
    rw [hup.emit k, obsStat_hard]
  have hE : ∀ k, P (k + 1) = fun _ => exactNW (p₀ 0) (samples ss) := fun k => by
    funext i
    obtain rfl : i = 0 := Subsingleton.elim _ _
    rw [hP k, nwUpdate_eq]
    simp only [hm, hc, if_true, share_single hty, exactNW, βNext, shareCount, Fin.sum_univ_one, Fin.isValue, ite_self, hard_one]
    have hmN : mNext p₀ (hard (oneAssign ss).e) 0 = fun k =>
        ((p₀ 0).β * (p₀ 0).m k + ((samples ss).map fun x => x k).sum) / ((p₀ 0).β + ((samples ss).length : ℝ)) := by
      funext k
      simp only [mNext, βNext, hard_one]
      rfl
    simp only [CNext, hmN]
    rfl
  refine ⟨(stopped_vfitLoop nIter _ mon.reset rfl).exact hh fun k => ?_, fun hn => ?_⟩
  · rw [hP k]
    exact gaussLowerBound_exact hty hsp htp h₀ hm hc ss _ _ _
  · have hpos : out.monitor.history.length ≠ 0 := by rwa [ne_eq, List.length_eq_zero_iff]
    obtain ⟨k, hk⟩ := Nat.exists_eq_succ_of_ne_zero hpos
    have hk' : (vgaussFit K dof scale sci sp tp p₀ params impl nIter ss (vgaussTheta dof scale s t p sP tP cov)
      mon).monitor.history.length = k + 1 := hk
    show (vgaussFit K dof scale sci sp tp p₀ params impl nIter ss (vgaussTheta dof scale s t p sP tP cov) mon).state.emission = _
    rw [hst, hk', hE k]
    simp only [hc, Nat.succ_pos, and_self, if_true]
    rfl

/-- **C90** `full` -/
theorem C90_full [NeZero nf] : ExactSingle (nf := nf) VGaussian.full .full (fun ν i => fin (ν i))
    fun S i k l => fin (S i k l) := exact_single (Or.inl rfl) C65_full

/-- **C90** `tied` -/
theorem C90_tied [NeZero nf] : ExactSingle (nf := nf) VGaussian.tied .tied (fun ν => fin (ν 0))
    fun S k l => fin (S 0 k l) := exact_single (Or.inr (Or.inl rfl)) C65_tied

/-- **C90** `diag`, one feature. -/
theorem C90_diag : ExactSingle (nf := 1) VGaussian.diag .diag (fun ν i => fin (ν i))
    fun S i k => fin (S i k k) := exact_single (Or.inr (Or.inr rfl)) C65_diag

/-- **C90** `spherical`, one feature. -/
theorem C90_spherical : ExactSingle (nf := 1) VGaussian.spherical .spherical (fun ν i => fin (ν i))
    fun S i => fin (S i 0 0) := exact_single (Or.inr (Or.inr rfl)) C65_spherical

/-! ## The hypotheses are met -/

namespace OneStateDemo

/-- Two samples of one feature. -/
def data : List (ObsSeq (Fin 1 → ℝ)) := [⟨1, ![![0], ![2]]⟩]

/-- The prior. -/
noncomputable def p₀ (_ : Fin 1) : NW 1 := ⟨1, ![0], 1, 1⟩

theorem p₀_proper (i : Fin 1) : (p₀ i).Proper := ⟨one_pos, by norm_num [p₀], Matrix.PosDef.one⟩

/-- The posterior: mean 2/3 of precision 3, 3 degrees of freedom. -/
example : (exactNW (p₀ 0) (samples data)).β = 3 ∧ (exactNW (p₀ 0) (samples data)).m 0 = 2 / 3 ∧
    (exactNW (p₀ 0) (samples data)).ν = 3 ∧ (exactNW (p₀ 0) (samples data)).S 0 0 = 11 / 3 := by
  refine ⟨?_, ?_, ?_, ?_⟩ <;>
    norm_num [exactNW, samples, data, p₀, List.ofFn_succ, Matrix.vecMulVec_apply]

/-- A run of at most ten iterations with tolerance one half that starts far from the posterior. -/
example (mon : Monitor XF) (hmon : mon.tol = fin (1 / 2)) :
    let out := vgaussFit VGaussian.full (fun ν i => fin (ν i)) (fun S i k l => fin (S i k l)) Sci.real ![1] ![![1]] p₀
      ['s', 't', 'm', 'c'] .log 10 data (vgaussTheta (fun ν i => fin (ν i)) (fun S i k l => fin (S i k l)) ![1] ![![1]]
        (fun _ => ⟨2, ![100], 7, 1⟩) none none none) mon
    (∀ v ∈ out.monitor.history.tail, v = fin (gaussBoundary .full ![1] ![![1]] p₀ data)) ∧
      out.monitor.history.length ≤ 3 := by
  intro out
  have h := (C90_full (nf := 1) Sci.real_exact (sp := ![1]) (tp := ![![1]]) (p₀ := p₀)
    (fun i => by rw [Subsingleton.elim i 0]; exact one_pos) (fun i j => by
      rw [Subsingleton.elim i 0, Subsingleton.elim j 0]; exact one_pos) p₀_proper trivial
    (params := ['s', 't', 'm', 'c']) (by simp) (by simp) .log 10 (ss := data) (by simp [data]) (s := ![1]) (t := ![![1]])
    (p := fun _ => ⟨2, ![100], 7, 1⟩) (fun i => by rw [Subsingleton.elim i 0]; exact one_pos) (fun i j => by
      rw [Subsingleton.elim i 0, Subsingleton.elim j 0]; exact one_pos) (fun _ => ⟨two_pos, by norm_num, Matrix.PosDef.one⟩)
    trivial none none none mon).1
  exact ⟨h.1, h.2 (by norm_num) hmon⟩

end OneStateDemo

end Verif
