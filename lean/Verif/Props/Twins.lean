import Verif.Spec.Twins
import Verif.Props.Relabel

/-!
# C107: states that start with equal parameters keep equal parameters
-/
set_option autoImplicit false

namespace Verif
open FloatLike XF Hmmc Spec Gaussian
open scoped Classical

variable {nc nf : ℕ} [NeZero nc] {i j : Fin nc}

omit [NeZero nc] in
theorem rows_swap_iff {β : Type} {f : Fin nc → β} : (fun k => f (Equiv.swap i j k)) = f ↔ f i = f j := by
  constructor
  · intro h
    have := congrFun h j
    simpa using this
  · intro h
    funext k
    by_cases h1 : k = i
    · subst h1; simp [h]
    by_cases h2 : k = j
    · subst h2; simp [h]
    rw [Equiv.swap_apply_of_ne_of_ne h1 h2]

omit [NeZero nc] in
theorem twins_swap_iff {β : Type} {s : Fin nc → β} {A : Fin nc → Fin nc → β} : Twins s A i j ↔
    (fun k => s (Equiv.swap i j k)) = s ∧ (fun k l => A (Equiv.swap i j k) (Equiv.swap i j l)) = A := by
  constructor
  · intro h
    refine ⟨rows_swap_iff.2 h.start, ?_⟩
    funext k l
    by_cases hk1 : k = i
    · subst hk1
      rw [Equiv.swap_apply_left]
      by_cases hl1 : l = k
      · subst hl1; rw [Equiv.swap_apply_left]; exact h.stay.symm
      by_cases hl2 : l = j
      · subst hl2; rw [Equiv.swap_apply_right]; exact h.cross.symm
      rw [Equiv.swap_apply_of_ne_of_ne hl1 hl2]; exact (h.out l hl1 hl2).symm
    by_cases hk2 : k = j
    · subst hk2
      rw [Equiv.swap_apply_right]
      by_cases hl1 : l = i
      · subst hl1; rw [Equiv.swap_apply_left]; exact h.cross
      by_cases hl2 : l = k
      · subst hl2; rw [Equiv.swap_apply_right]; exact h.stay
      rw [Equiv.swap_apply_of_ne_of_ne hl1 hl2]; exact h.out l hl1 hl2
    rw [Equiv.swap_apply_of_ne_of_ne hk1 hk2]
    by_cases hl1 : l = i
    · subst hl1; rw [Equiv.swap_apply_left]; exact (h.into k hk1 hk2).symm
    by_cases hl2 : l = j
    · subst hl2; rw [Equiv.swap_apply_right]; exact h.into k hk1 hk2
    rw [Equiv.swap_apply_of_ne_of_ne hl1 hl2]
  · rintro ⟨h1, h2⟩
    have h2 := fun k l => congrFun (congrFun h2 k) l
    refine ⟨rows_swap_iff.1 h1, ?_, ?_, fun k hi hj => ?_, fun k hi hj => ?_⟩
    · simpa using (h2 i i).symm
    · simpa using (h2 i j).symm
    · simpa [Equiv.swap_apply_of_ne_of_ne hi hj] using (h2 i k).symm
    · simpa [Equiv.swap_apply_of_ne_of_ne hi hj] using (h2 k i).symm

/-- Training that is not affected by exchanging two states cannot tell them apart. -/
theorem same_twins {P : Type} {act : P → P} {out : FitOutcome XF (Theta XF nc P)} (h : SameFit (Equiv.swap i j) act out out) :
    Twins out.state.startprob out.state.transmat i j ∧ act out.state.emission = out.state.emission := by
  have hs := h.state
  exact ⟨twins_swap_iff.2 ⟨(congrArg Theta.startprob hs).symm, (congrArg Theta.transmat hs).symm⟩, (congrArg Theta.emission hs).symm⟩

variable {π : Fin nc → ℝ} {A : Fin nc → Fin nc → ℝ} (sp : Fin nc → ℝ) (tp : Fin nc → Fin nc → ℝ) (hsp : ∀ i, 1 ≤ sp i)
  (htp : ∀ i j, 1 ≤ tp i j) (params : List Char) (impl : Impl) (nIter : ℕ) (mon : Monitor XF) (hst : Twins sp tp i j)

include hsp htp hst in
/-- **C107** `CategoricalHMM`. -/
theorem C107_categorical {e : Fin nc → Fin nf → ℝ} (ep : Fin nc → Fin nf → ℝ) (hep : ∀ i k, 1 ≤ ep i k)
    (ss : List (ObsSeq (Fin nf))) (hne : ss ≠ []) (h : CatModel π A e) (hL : impl = .log → 0 < catL ss π A e)
    (hπ : Twins π A i j) (he : e i = e j) (hepij : ep i = ep j) :
    let out := catFit sp tp ep params impl nIter ss (Categorical.params π A e) mon
    Twins out.state.startprob out.state.transmat i j ∧ out.state.emission i = out.state.emission j := by
  have := C58_fit_categorical (Equiv.swap i j) sp tp ep hsp htp hep params impl nIter ss hne h hL mon
  rw [(twins_swap_iff.1 hst).1, (twins_swap_iff.1 hst).2, (twins_swap_iff.1 hπ).1, (twins_swap_iff.1 hπ).2,
    rows_swap_iff.2 he, rows_swap_iff.2 hepij] at this
  exact ⟨(same_twins this).1, rows_swap_iff.1 (same_twins this).2⟩

include hsp htp hst in
/-- **C107** `PoissonHMM`. -/
theorem C107_poisson {l : Fin nc → Fin nf → ℝ} (al be : Fin nc → Fin nf → ℝ) (hal : ∀ i k, 0 ≤ al i k) (hbe : ∀ i k, 0 ≤ be i k)
    (ss : List (ObsSeq (Fin nf → ℕ))) (hne : ss ≠ []) (h : PoissonModel π A l) (hL : 0 < dataLikelihood π A (poissonB l) ss)
    (hu : EveryStateUsed π A (poissonB l) ss) (hπ : Twins π A i j) (hl : l i = l j) (ha : al i = al j) (hb : be i = be j) :
    let out := poissonFit sp tp al be params impl nIter ss (Poisson.params π A l) mon
    Twins out.state.startprob out.state.transmat i j ∧ out.state.emission i = out.state.emission j := by
  have := C58_fit_poisson (Equiv.swap i j) sp tp al be hsp htp hal hbe params impl nIter ss hne h hL hu mon
  rw [(twins_swap_iff.1 hst).1, (twins_swap_iff.1 hst).2, (twins_swap_iff.1 hπ).1, (twins_swap_iff.1 hπ).2,
    rows_swap_iff.2 hl, rows_swap_iff.2 ha, rows_swap_iff.2 hb] at this
  exact ⟨(same_twins this).1, rows_swap_iff.1 (same_twins this).2⟩

include hsp htp hst in
/-- **C107** `MultinomialHMM`. -/
theorem C107_multinomial {e : Fin nc → Fin nf → ℝ} (ss : List (ObsSeq (Fin nf → ℕ))) (hne : ss ≠ []) (h : MultinomialModel π A e)
    (hL : 0 < dataLikelihood π A (multinomialB e) ss) (hu : EveryStateEmits π A e ss) (hπ : Twins π A i j) (he : e i = e j) :
    let out := multinomialFit sp tp params impl nIter ss (Multinomial.params π A e) mon
    Twins out.state.startprob out.state.transmat i j ∧ out.state.emission i = out.state.emission j := by
  have := C58_fit_multinomial (Equiv.swap i j) sp tp hsp htp params impl nIter ss hne h hL hu mon
  rw [(twins_swap_iff.1 hst).1, (twins_swap_iff.1 hst).2, (twins_swap_iff.1 hπ).1, (twins_swap_iff.1 hπ).2,
    rows_swap_iff.2 he] at this
  exact ⟨(same_twins this).1, rows_swap_iff.1 (same_twins this).2⟩

section gauss
variable (g : GaussPrior nc nf) (hmw : 0 ≤ g.mw) (hg : g.mp i = g.mp j) (ss : List (ObsSeq (Fin nf → ℝ))) (hne : ss ≠ [])

omit [NeZero nc] in
theorem prior_swap {g : GaussPrior nc nf} (hg : g.mp i = g.mp j) : g.relabel (Equiv.swap i j) = g := by
  obtain ⟨mp, mw, cw⟩ := g
  exact congrArg (fun m => GaussPrior.mk m mw cw) (rows_swap_iff.2 hg)

include hsp htp hst hmw hg hne in
/-- **C107** `GaussianHMM`, `diag` and `spherical`. -/
theorem C107_gaussian [NeZero nf] (ty : DiagType) (cp : Fin nc → Fin nf → ℝ) (p : DiagPoint nc nf) (hty : ty.Shape p)
    (h : ChainModel p.π p.A) (hL : 0 < p.L ss) (hu : 0 < g.mw ∨ EveryStateUsed p.π p.A (diagB p.mu p.v) ss)
    (hπ : Twins p.π p.A i j) (hm : p.mu i = p.mu j) (hv : p.v i = p.v j) (hc : cp i = cp j) :
    let out := gaussFit ty sp tp g cp params impl nIter ss p.theta mon
    Twins out.state.startprob out.state.transmat i j ∧ out.state.emission.means i = out.state.emission.means j ∧
      out.state.emission.covars i = out.state.emission.covars j := by
  have := C58_fit_gaussian (Equiv.swap i j) ty sp tp hsp htp g hmw cp params impl nIter ss hne p hty h hL hu mon
  have hp : p.relabel (Equiv.swap i j) = p := by
    obtain ⟨π, A, mu, v⟩ := p
    unfold Spec.DiagPoint.relabel
    congr 1
    · exact (twins_swap_iff.1 hπ).1
    · exact (twins_swap_iff.1 hπ).2
    · exact rows_swap_iff.2 hm
    · exact rows_swap_iff.2 hv
  rw [(twins_swap_iff.1 hst).1, (twins_swap_iff.1 hst).2, prior_swap hg, rows_swap_iff.2 hc, hp] at this
  have h2 := (same_twins this).2
  exact ⟨(same_twins this).1, rows_swap_iff.1 (congrArg DiagParams.means h2), rows_swap_iff.1 (congrArg DiagParams.covars h2)⟩

include hsp htp hst hmw hg hne in
/-- **C107** `GaussianHMM`, `full`. -/
theorem C107_gaussian_full (cp : Fin nc → Matrix (Fin nf) (Fin nf) ℝ) (hcp : ∀ i, (cp i).PosSemidef)
    (hcm : 'c' ∈ params → 'm' ∈ params ∨ (nf : ℝ) < g.cw) (p : FullPoint nc nf) (hS : ∀ i, (p.S i).PosSemidef)
    (h : ChainModel p.π p.A) (hL : 0 < p.L ss) (hu : (0 < g.mw ∧ (nf : ℝ) < g.cw) ∨ EveryStateUsed p.π p.A (fullB p.mu p.S) ss)
    (hπ : Twins p.π p.A i j) (hm : p.mu i = p.mu j) (hv : p.S i = p.S j) (hc : cp i = cp j) :
    let out := fullFit sp tp g cp params impl nIter ss p.theta mon
    Twins out.state.startprob out.state.transmat i j ∧ out.state.emission.means i = out.state.emission.means j ∧
      out.state.emission.covars i = out.state.emission.covars j := by
  have := C58_fit_gaussian_full (Equiv.swap i j) sp tp hsp htp g hmw cp hcp params hcm impl nIter ss hne p hS h hL hu mon
  have hp : p.relabel (Equiv.swap i j) = p := by
    obtain ⟨π, A, mu, v⟩ := p
    unfold Spec.FullPoint.relabel
    congr 1
    · exact (twins_swap_iff.1 hπ).1
    · exact (twins_swap_iff.1 hπ).2
    · exact rows_swap_iff.2 hm
    · exact rows_swap_iff.2 hv
  rw [(twins_swap_iff.1 hst).1, (twins_swap_iff.1 hst).2, prior_swap hg, rows_swap_iff.2 hc, hp] at this
  have h2 := (same_twins this).2
  exact ⟨(same_twins this).1, rows_swap_iff.1 (congrArg FullParams.means h2), rows_swap_iff.1 (congrArg FullParams.covars h2)⟩

include hsp htp hst hmw hg hne in
/-- **C107** `GaussianHMM`, `tied`. -/
theorem C107_gaussian_tied (cp : Matrix (Fin nf) (Fin nf) ℝ) (hcp : cp.PosSemidef)
    (hcm : 'c' ∈ params → 'm' ∈ params ∨ (nf : ℝ) < g.cw) (p : TiedPoint nc nf) (hS : p.S.PosSemidef)
    (h : ChainModel p.π p.A) (hL : 0 < p.L ss) (hu : 0 < g.mw ∨ EveryStateUsed p.π p.A (fullB p.mu fun _ => p.S) ss)
    (hπ : Twins p.π p.A i j) (hm : p.mu i = p.mu j) :
    let out := tiedFit sp tp g cp params impl nIter ss p.theta mon
    Twins out.state.startprob out.state.transmat i j ∧ out.state.emission.means i = out.state.emission.means j := by
  have := C58_fit_gaussian_tied (Equiv.swap i j) sp tp hsp htp g hmw cp hcp params hcm impl nIter ss hne p hS h hL hu mon
  have hp : p.relabel (Equiv.swap i j) = p := by
    obtain ⟨π, A, mu, v⟩ := p
    unfold Spec.TiedPoint.relabel
    congr 1
    · exact (twins_swap_iff.1 hπ).1
    · exact (twins_swap_iff.1 hπ).2
    · exact rows_swap_iff.2 hm
  rw [(twins_swap_iff.1 hst).1, (twins_swap_iff.1 hst).2, prior_swap hg, hp] at this
  have h2 := (same_twins this).2
  exact ⟨(same_twins this).1, rows_swap_iff.1 (congrArg TiedParams.means h2)⟩

end gauss

end Verif
