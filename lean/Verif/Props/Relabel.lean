import Verif.Proofs.Relabel
import Verif.Props.Decoding
import Verif.Props.CategoricalEM
import Verif.Props.GaussianFullEM
import Verif.Props.GmmEM

/-!
# C58: renaming the states

`σ : Equiv.Perm (Fin nc)` sends the new name of a state to its old name; `π ∘ σ`, `A (σ ·) (σ ·)`,
`b · (σ ·)` is the same model with renamed states.
-/

set_option autoImplicit false

namespace Verif
open FloatLike XF Hmmc Spec
open scoped Classical

variable {nc nf : ℕ} (σ : Equiv.Perm (Fin nc))

/-! ## Inference -/

section Inference
variable [NeZero nc] {Obs D : Type} {m m' : Hmm XF nc Obs} {obs : D → Obs} {π : Fin nc → ℝ}
  {A : Fin nc → Fin nc → ℝ} {b : D → Fin nc → ℝ}

/-- **C58** `score` does not depend on the names of the states (nor does whether it raises), for
both implementations. -/
theorem C58_score (h : Represents m obs π A b)
    (h' : Represents m' obs (fun i => π (σ i)) (fun i j => A (σ i) (σ j)) fun o i => b o (σ i))
    (hi : m'.implementation = m.implementation) (ss : List (ObsSeq D)) (hne : ss ≠ []) :
    score m' (dataX obs ss) (some (dataLengths ss)) = score m (dataX obs ss) (some (dataLengths ss)) := by
  cases hm : m.implementation with
  | log =>
    rw [C01_score_log h hm ss hne, C01_score_log h' (hi.trans hm) ss hne, dataLikelihood_relabel]
  | scaling =>
    rw [C02_score_scaling h hm ss hne, C02_score_scaling h' (hi.trans hm) ss hne, dataLikelihood_relabel]
    have : (∀ s ∈ ss, NoUnderflow (fun i => π (σ i)) (fun i j => A (σ i) (σ j))
        (s.weights fun o i => b o (σ i))) ↔ ∀ s ∈ ss, NoUnderflow π A (s.weights b) :=
      forall₂_congr fun s _ => noUnderflow_relabel σ π A (s.weights b)
    simp only [this]

/-- **C58** The columns of `predict_proba` are permuted. -/
theorem C58_predict_proba (h : Represents m obs π A b)
    (h' : Represents m' obs (fun i => π (σ i)) (fun i j => A (σ i) (σ j)) fun o i => b o (σ i))
    (hi : m'.implementation = m.implementation) (ss : List (ObsSeq D)) (hne : ss ≠ [])
    (hok : ∀ s ∈ ss, EstepOk m.implementation π A (s.weights b)) :
    ∃ rows, predictProba m (dataX obs ss) (some (dataLengths ss)) = .ok rows ∧
      predictProba m' (dataX obs ss) (some (dataLengths ss)) = .ok (rows.map fun r i => r (σ i)) := by
  refine ⟨_, C04_predict_proba h ss hne hok, ?_⟩
  rw [C04_predict_proba h' ss hne fun s hs => by
    rw [hi]; exact (estepOk_relabel σ π A (s.weights b) _).2 (hok s hs)]
  rw [List.map_flatten, List.map_map]
  congr 2
  refine List.map_congr_left fun s _ => ?_
  rw [Function.comp_apply, List.map_ofFn]
  congr 1
  funext t i
  exact congrArg fin (posterior_relabel σ π A (s.weights b) t i)

/-- **C58** Viterbi decoding: same `log_prob`; the decoded paths, after renaming, are optimal paths
of the original model.  (They need not be the ones decoded there: ties are broken by index.) -/
theorem C58_viterbi (h : Represents m obs π A b)
    (h' : Represents m' obs (fun i => π (σ i)) (fun i j => A (σ i) (σ j)) fun o i => b o (σ i))
    (ss : List (ObsSeq D)) (hne : ss ≠ []) :
    ∃ (v : XF) (z z' : (s : ObsSeq D) → Fin (s.n + 1) → Fin nc),
      decode m .viterbi (dataX obs ss) (some (dataLengths ss)) =
        .ok (v, (ss.map fun s => List.ofFn (z s)).flatten) ∧
      decode m' .viterbi (dataX obs ss) (some (dataLengths ss)) =
        .ok (v, (ss.map fun s => List.ofFn (z' s)).flatten) ∧
      ∀ s ∈ ss, ∀ y, joint π A (s.weights b) y ≤ joint π A (s.weights b) (fun t => σ (z' s t)) := by
  obtain ⟨z, h1, h2⟩ := C08_viterbi_optimal h ss hne
  obtain ⟨z', h1', h2'⟩ := C08_viterbi_optimal h' ss hne
  have key : ∀ s ∈ ss, ∀ y, joint π A (s.weights b) y ≤ joint π A (s.weights b) (fun t => σ (z' s t)) := by
    intro s hs y
    have := h2' s hs fun t => σ.symm (y t)
    have e : joint (fun i => π (σ i)) (fun i j => A (σ i) (σ j)) (s.weights fun o i => b o (σ i))
        (fun t => σ.symm (y t)) = joint π A (s.weights b) y := by
      refine (joint_relabel σ π A (s.weights b) _).trans ?_
      congr 1
      funext t; simp [pathEquiv]
    rw [e] at this
    exact this
  refine ⟨_, z, z', h1, h1'.trans ?_, key⟩
  congr 3
  refine congrArg List.prod (List.map_congr_left fun s hs => ?_)
  refine (joint_relabel σ π A (s.weights b) (z' s)).trans ?_
  exact le_antisymm (h2 s hs _) (key s hs _)

/-- **C58** If the optimal path of each sequence is unique, the decoded states are renamed. -/
theorem C58_viterbi_unique (h : Represents m obs π A b)
    (h' : Represents m' obs (fun i => π (σ i)) (fun i j => A (σ i) (σ j)) fun o i => b o (σ i))
    (ss : List (ObsSeq D)) (hne : ss ≠ [])
    (hu : ∀ s ∈ ss, ∀ y y' : Fin (s.n + 1) → Fin nc, (∀ x, joint π A (s.weights b) x ≤ joint π A (s.weights b) y) →
      (∀ x, joint π A (s.weights b) x ≤ joint π A (s.weights b) y') → y = y') :
    ∃ (v : XF) (path : List (Fin nc)),
      decode m .viterbi (dataX obs ss) (some (dataLengths ss)) = .ok (v, path) ∧
      decode m' .viterbi (dataX obs ss) (some (dataLengths ss)) = .ok (v, path.map σ.symm) := by
  obtain ⟨v, z, z', h1, h2, h3⟩ := C58_viterbi σ h h' ss hne
  obtain ⟨y, g1, g2⟩ := C08_viterbi_optimal h ss hne
  refine ⟨v, _, h1, h2.trans ?_⟩
  congr 2
  have e : (ss.map fun s => List.ofFn (z s)).flatten = (ss.map fun s => List.ofFn (y s)).flatten := by
    have := h1.symm.trans g1
    simpa using (Prod.mk.inj (Except.ok.inj this)).2
  rw [e, List.map_flatten, List.map_map]
  congr 1
  refine List.map_congr_left fun s hs => ?_
  rw [Function.comp_apply, List.map_ofFn]
  congr 1
  have := hu s hs (y s) (fun t => σ (z' s t)) (g2 s hs) (h3 s hs)
  funext t
  rw [this]
  simp

/-- **C58** MAP decoding: same `log_prob` (the sum of the maximal posteriors). -/
theorem C58_map (h : Represents m obs π A b)
    (h' : Represents m' obs (fun i => π (σ i)) (fun i j => A (σ i) (σ j)) fun o i => b o (σ i))
    (hi : m'.implementation = m.implementation) (ss : List (ObsSeq D)) (hne : ss ≠ [])
    (hok : ∀ s ∈ ss, EstepOk m.implementation π A (s.weights b)) :
    ∃ v p p', decode m .map (dataX obs ss) (some (dataLengths ss)) = .ok (v, p) ∧
      decode m' .map (dataX obs ss) (some (dataLengths ss)) = .ok (v, p') := by
  obtain ⟨z, h1, h2⟩ := C12_map_argmax h ss hne hok
  obtain ⟨z', h1', h2'⟩ := C12_map_argmax h' ss hne fun s hs => by
    rw [hi]; exact (estepOk_relabel σ π A (s.weights b) _).2 (hok s hs)
  refine ⟨_, _, (ss.map fun s => List.ofFn (z' s)).flatten, h1, h1'.trans ?_⟩
  congr 3
  refine congrArg List.sum (List.map_congr_left fun s hs => Finset.sum_congr rfl fun t _ => ?_)
  have e : ∀ i, posterior (fun i => π (σ i)) (fun i j => A (σ i) (σ j)) (s.weights fun o i => b o (σ i)) t i =
      posterior π A (s.weights b) t (σ i) := posterior_relabel σ π A (s.weights b) t
  rw [e]
  refine le_antisymm ((h2 s hs t).1 _) ?_
  have := (h2' s hs t).1 (σ.symm (z s t))
  rw [e, e, σ.apply_symm_apply] at this
  exact this

end Inference

/-! ## `fit` -/

section Fit
variable [NeZero nc] {π : Fin nc → ℝ} {A : Fin nc → Fin nc → ℝ}

/-- Renames the first axis. -/
def Spec.rows {β : Type} (σ : Equiv.Perm (Fin nc)) (f : Fin nc → β) : Fin nc → β := fun i => f (σ i)

/-! ### Categorical -/

def Categorical.Rows.relabel (σ : Equiv.Perm (Fin nc)) (q : Categorical.Rows nc nf) : Categorical.Rows nc nf :=
  ⟨fun i => q.e (σ i), fun i => q.nonneg _, fun i => q.sum_le _⟩

theorem Categorical.family_relabel (ep : Fin nc → Fin nf → ℝ) (ps : List Char) :
    (family ep ps).Relabel (family (fun i => ep (σ i)) ps) σ (Rows.relabel σ) (Spec.rows σ) where
  embed_act q := rfl
  b_act q o i := rfl
  next_act q T := by
    by_cases h : 'e' ∈ ps
    · simp only [family, h, if_true]; rfl
    · simp only [family, h, if_false]
  good_act q T h := trivial

/-- **C58** (CategoricalHMM) `fit` with priors at least one: renaming the states of the starting point
and of the priors renames the result and changes nothing else. -/
theorem C58_fit_categorical {e : Fin nc → Fin nf → ℝ} (sp : Fin nc → ℝ) (tp : Fin nc → Fin nc → ℝ)
    (ep : Fin nc → Fin nf → ℝ) (hsp : ∀ i, 1 ≤ sp i) (htp : ∀ i j, 1 ≤ tp i j) (hep : ∀ i k, 1 ≤ ep i k)
    (params : List Char) (impl : Impl) (nIter : ℕ) (ss : List (ObsSeq (Fin nf))) (hne : ss ≠ [])
    (h : CatModel π A e) (hL : impl = .log → 0 < catL ss π A e) (mon : Monitor XF) :
    SameFit σ (Spec.rows σ)
      (catFit (fun i => sp (σ i)) (fun i j => tp (σ i) (σ j)) (fun i => ep (σ i)) params impl nIter ss
        (Categorical.params (fun i => π (σ i)) (fun i j => A (σ i) (σ j)) fun i => e (σ i)) mon)
      (catFit sp tp ep params impl nIter ss (Categorical.params π A e) mon) := by
  refine (Categorical.family_relabel σ ep params).fit_eq (c := ⟨sp, tp, impl, nIter⟩)
    ((Categorical.family ep params).closed_of_ac _ ss (fun _ => hsp) (fun _ => htp) (fun _ _ => trivial)
      (Categorical.ac ep params (fun _ => hep) ss)) hne (fun _ => hsp)
    (r := ⟨π, A, ⟨e, h.e_nonneg, h.e_sum⟩⟩) ⟨h.valid, fun hi s hs => ?_⟩ mon
  refine lt_of_le_of_ne (likelihood_nonneg h.π_nonneg h.A_nonneg fun t i => h.e_nonneg _ _)
    fun h0 => (hL hi).ne' ?_
  exact List.prod_eq_zero (List.mem_map.2 ⟨s, hs, h0.symm⟩)

/-! ### Poisson -/

def Poisson.Rates.relabel (σ : Equiv.Perm (Fin nc)) (q : Poisson.Rates nc nf) : Poisson.Rates nc nf :=
  ⟨fun i => q.l (σ i), fun i => q.nonneg _⟩

theorem Poisson.family_relabel (al be : Fin nc → Fin nf → ℝ) (hal : ∀ i k, 0 ≤ al i k)
    (hbe : ∀ i k, 0 ≤ be i k) (ps : List Char) :
    (family al be hal hbe ps).Relabel (family (fun i => al (σ i)) (fun i => be (σ i)) (fun i => hal _)
      (fun i => hbe _) ps) σ (Rates.relabel σ) (Spec.rows σ) where
  embed_act q := rfl
  b_act q o i := rfl
  next_act q T := by
    have e : ∀ f : (Fin nf → ℕ) → ℝ, ∑ j, T (σ j) f = ∑ j, T j f := fun f => Equiv.sum_comp σ fun j => T j f
    by_cases h : 'l' ∈ ps
    · simp only [family, h, if_true, upd, e]; rfl
    · simp only [family, h, if_false]
  good_act q T h hl i := h hl _

/-- **C58** (PoissonHMM) -/
theorem C58_fit_poisson {l : Fin nc → Fin nf → ℝ} (sp : Fin nc → ℝ) (tp : Fin nc → Fin nc → ℝ)
    (al be : Fin nc → Fin nf → ℝ) (hsp : ∀ i, 1 ≤ sp i) (htp : ∀ i j, 1 ≤ tp i j) (hal : ∀ i k, 0 ≤ al i k)
    (hbe : ∀ i k, 0 ≤ be i k) (params : List Char) (impl : Impl) (nIter : ℕ)
    (ss : List (ObsSeq (Fin nf → ℕ))) (hne : ss ≠ []) (h : PoissonModel π A l)
    (hL : 0 < dataLikelihood π A (poissonB l) ss) (hu : EveryStateUsed π A (poissonB l) ss) (mon : Monitor XF) :
    SameFit σ (Spec.rows σ)
      (poissonFit (fun i => sp (σ i)) (fun i j => tp (σ i) (σ j)) (fun i => al (σ i)) (fun i => be (σ i))
        params impl nIter ss (Poisson.params (fun i => π (σ i)) (fun i j => A (σ i) (σ j)) fun i => l (σ i)) mon)
      (poissonFit sp tp al be params impl nIter ss (Poisson.params π A l) mon) :=
  (Poisson.family_relabel σ al be hal hbe params).fit_eq (c := ⟨sp, tp, impl, nIter⟩)
    (Poisson.closed al be hal hbe params _ ss (fun _ => hsp) fun _ => htp) hne (fun _ => hsp) (r := h.rp)
    ⟨h.valid, h.ok hL, hu⟩ mon

/-! ### Multinomial -/

def Multinomial.Rows.relabel (σ : Equiv.Perm (Fin nc)) (q : Multinomial.Rows nc nf) : Multinomial.Rows nc nf :=
  ⟨fun i => q.e (σ i), fun i => q.nonneg _, fun i => q.sum_one _⟩

theorem Multinomial.family_relabel (ps : List Char) :
    (family (nc := nc) (nf := nf) ps).Relabel (family ps) σ (Rows.relabel σ) (Spec.rows σ) where
  embed_act q := rfl
  b_act q o i := rfl
  next_act q T := by
    have e : ∀ i, upd (fun i => T (σ i)) i = upd T (σ i) := fun i => rfl
    have h1 : ('e' ∈ ps ∧ (∀ i k, 0 ≤ upd (fun i => T (σ i)) i k) ∧ ∀ i, ∑ k, upd (fun i => T (σ i)) i k = 1) ↔
        'e' ∈ ps ∧ (∀ i k, 0 ≤ upd T i k) ∧ ∀ i, ∑ k, upd T i k = 1 := by
      simp only [e]
      rw [σ.forall_congr_right (q := fun i => ∀ k, 0 ≤ upd T i k),
        σ.forall_congr_right (q := fun i => ∑ k, upd T i k = 1)]
    by_cases h : 'e' ∈ ps ∧ (∀ i k, 0 ≤ upd T i k) ∧ ∀ i, ∑ k, upd T i k = 1
    · simp only [family, dif_pos h, dif_pos (h1.2 h)]; rfl
    · simp only [family, dif_neg h, dif_neg fun h' => h (h1.1 h')]
  good_act q T h hl i := h hl _

/-- **C58** (MultinomialHMM) -/
theorem C58_fit_multinomial {e : Fin nc → Fin nf → ℝ} (sp : Fin nc → ℝ) (tp : Fin nc → Fin nc → ℝ)
    (hsp : ∀ i, 1 ≤ sp i) (htp : ∀ i j, 1 ≤ tp i j) (params : List Char) (impl : Impl) (nIter : ℕ)
    (ss : List (ObsSeq (Fin nf → ℕ))) (hne : ss ≠ []) (h : MultinomialModel π A e)
    (hL : 0 < dataLikelihood π A (multinomialB e) ss) (hu : EveryStateEmits π A e ss) (mon : Monitor XF) :
    SameFit σ (Spec.rows σ)
      (multinomialFit (fun i => sp (σ i)) (fun i j => tp (σ i) (σ j)) params impl nIter ss
        (Multinomial.params (fun i => π (σ i)) (fun i j => A (σ i) (σ j)) fun i => e (σ i)) mon)
      (multinomialFit sp tp params impl nIter ss (Multinomial.params π A e) mon) :=
  (Multinomial.family_relabel σ params).fit_eq (c := ⟨sp, tp, impl, nIter⟩)
    (Multinomial.closed _ ss (fun _ => hsp) fun _ => htp) hne (fun _ => hsp) (r := h.rp)
    ⟨h.valid, h.ok hL, hu⟩ mon

/-! ### Gaussian -/

/-- The prior with renamed states. -/
def Spec.GaussPrior.relabel (σ : Equiv.Perm (Fin nc)) (g : GaussPrior nc nf) : GaussPrior nc nf :=
  ⟨fun i => g.mp (σ i), g.mw, g.cw⟩

def Spec.DiagPoint.relabel (σ : Equiv.Perm (Fin nc)) (p : DiagPoint nc nf) : DiagPoint nc nf :=
  ⟨fun i => p.π (σ i), fun i j => p.A (σ i) (σ j), fun i => p.mu (σ i), fun i => p.v (σ i)⟩

def Spec.FullPoint.relabel (σ : Equiv.Perm (Fin nc)) (p : FullPoint nc nf) : FullPoint nc nf :=
  ⟨fun i => p.π (σ i), fun i j => p.A (σ i) (σ j), fun i => p.mu (σ i), fun i => p.S (σ i)⟩

def Spec.TiedPoint.relabel (σ : Equiv.Perm (Fin nc)) (p : TiedPoint nc nf) : TiedPoint nc nf :=
  ⟨fun i => p.π (σ i), fun i j => p.A (σ i) (σ j), fun i => p.mu (σ i), p.S⟩

namespace Gaussian

/-- Attributes with renamed states. -/
def DiagParams.relabel {α : Type} (σ : Equiv.Perm (Fin nc)) (p : DiagParams α nc nf) : DiagParams α nc nf :=
  ⟨fun i => p.means (σ i), fun i => p.covars (σ i)⟩

def FullParams.relabel {α : Type} (σ : Equiv.Perm (Fin nc)) (p : FullParams α nc nf) : FullParams α nc nf :=
  ⟨fun i => p.means (σ i), fun i => p.covars (σ i)⟩

def TiedParams.relabel {α : Type} (σ : Equiv.Perm (Fin nc)) (p : TiedParams α nc nf) : TiedParams α nc nf :=
  ⟨fun i => p.means (σ i), p.covar⟩

def RDiag.relabel (σ : Equiv.Perm (Fin nc)) (q : RDiag nc nf) : RDiag nc nf :=
  ⟨fun i => q.mu (σ i), fun i => q.v (σ i)⟩

def RSph.relabel (σ : Equiv.Perm (Fin nc)) (q : RSph nc nf) : RSph nc nf :=
  ⟨fun i => q.mu (σ i), fun i => q.v (σ i)⟩

def RFull.relabel (σ : Equiv.Perm (Fin nc)) (q : RFull nc nf) : RFull nc nf :=
  ⟨fun i => q.mu (σ i), fun i => q.S (σ i), fun i => q.psd _⟩

def RTied.relabel (σ : Equiv.Perm (Fin nc)) (q : RTied nc nf) : RTied nc nf :=
  ⟨fun i => q.mu (σ i), q.S, q.psd⟩

theorem diag_relabel (g : GaussPrior nc nf) (cp : Fin nc → Fin nf → ℝ) (ps : List Char) :
    (diagFamily g cp ps).Relabel (diagFamily (g.relabel σ) (fun i => cp (σ i)) ps) σ (RDiag.relabel σ)
      (DiagParams.relabel σ) where
  embed_act q := rfl
  b_act q o i := rfl
  next_act q T := by
    by_cases h : 'c' ∈ ps
    · simp only [diagFamily, h, if_true]; rfl
    · simp only [diagFamily, h, if_false]; rfl
  good_act q T h hl i := h hl _

theorem sph_relabel [NeZero nf] (g : GaussPrior nc nf) (cp : Fin nc → Fin nf → ℝ) (ps : List Char) :
    (sphFamily g cp ps).Relabel (sphFamily (g.relabel σ) (fun i => cp (σ i)) ps) σ (RSph.relabel σ)
      (DiagParams.relabel σ) where
  embed_act q := rfl
  b_act q o i := rfl
  next_act q T := by
    by_cases h : 'c' ∈ ps
    · simp only [sphFamily, h, if_true]; rfl
    · simp only [sphFamily, h, if_false]; rfl
  good_act q T h hl i := h hl _

theorem full_relabel (g : GaussPrior nc nf) (hmw : 0 ≤ g.mw) (cp : Fin nc → Matrix (Fin nf) (Fin nf) ℝ)
    (hcp : ∀ i, (cp i).PosSemidef) (ps : List Char) :
    (fullFamily g hmw cp hcp ps).Relabel (fullFamily (g.relabel σ) hmw (fun i => cp (σ i)) (fun i => hcp _) ps) σ
      (RFull.relabel σ) (FullParams.relabel σ) where
  embed_act q := rfl
  b_act q o i := rfl
  next_act q T := by
    have e : ∀ i, fullNext (g.relabel σ) (fun i => cp (σ i)) ps (muNext (g.relabel σ) ps (q.relabel σ).mu
        fun i => T (σ i)) (fun i => T (σ i)) i = fullNext g cp ps (muNext g ps q.mu T) T (σ i) := fun i => rfl
    have h1 : ('c' ∈ ps ∧ ∀ i, (fullNext (g.relabel σ) (fun i => cp (σ i)) ps (muNext (g.relabel σ) ps
        (q.relabel σ).mu fun i => T (σ i)) (fun i => T (σ i)) i).PosSemidef) ↔
        'c' ∈ ps ∧ ∀ i, (fullNext g cp ps (muNext g ps q.mu T) T i).PosSemidef := by
      simp only [e]
      rw [σ.forall_congr_right (q := fun i => (fullNext g cp ps (muNext g ps q.mu T) T i).PosSemidef)]
    by_cases h : 'c' ∈ ps ∧ ∀ i, (fullNext g cp ps (muNext g ps q.mu T) T i).PosSemidef
    · simp only [fullFamily, dif_pos h, dif_pos (h1.2 h)]; rfl
    · simp only [fullFamily, dif_neg h, dif_neg fun h' => h (h1.1 h')]; rfl
  good_act q T h := ⟨fun hm i => h.1 hm _, fun hc i => h.2 hc _⟩

theorem tied_relabel (g : GaussPrior nc nf) (hmw : 0 ≤ g.mw) (cp : Matrix (Fin nf) (Fin nf) ℝ)
    (hcp : cp.PosSemidef) (ps : List Char) :
    (tiedFamily g hmw cp hcp ps).Relabel (tiedFamily (g.relabel σ) hmw cp hcp ps) σ
      (RTied.relabel σ) (TiedParams.relabel σ) where
  embed_act q := rfl
  b_act q o i := rfl
  next_act q T := by
    have e : tiedNext (g.relabel σ) cp ps (muNext (g.relabel σ) ps (q.relabel σ).mu
        fun i => T (σ i)) (fun i => T (σ i)) = tiedNext g cp ps (muNext g ps q.mu T) T := by
      unfold tiedNext
      have e1 := Equiv.sum_comp σ fun i => gate ps 'm' (T i fun _ => 1)
      have e2 := Equiv.sum_comp σ fun i => cn g ps (muNext g ps q.mu T) T i
      rw [← e1, ← e2]
      rfl
    by_cases h : 'c' ∈ ps ∧ (tiedNext g cp ps (muNext g ps q.mu T) T).PosSemidef
    · have h' := h
      rw [← e] at h'
      simp only [tiedFamily, dif_pos h, dif_pos h', e]; rfl
    · have h' := h
      rw [← e] at h'
      simp only [tiedFamily, dif_neg h, dif_neg h']; rfl
  good_act q T h := ⟨fun hm i => h.1 hm _, fun hc => by
    rw [Equiv.sum_comp σ fun i => gate ps 'm' (T i fun _ => 1)]
    exact h.2 hc⟩

end Gaussian

open Gaussian

/-- **C58** (GaussianHMM, `diag` and `spherical`) -/
theorem C58_fit_gaussian [NeZero nf] (ty : DiagType) (sp : Fin nc → ℝ) (tp : Fin nc → Fin nc → ℝ)
    (hsp : ∀ i, 1 ≤ sp i) (htp : ∀ i j, 1 ≤ tp i j) (g : GaussPrior nc nf) (hmw : 0 ≤ g.mw)
    (cp : Fin nc → Fin nf → ℝ) (params : List Char) (impl : Impl) (nIter : ℕ)
    (ss : List (ObsSeq (Fin nf → ℝ))) (hne : ss ≠ []) (p : DiagPoint nc nf) (hty : ty.Shape p)
    (h : ChainModel p.π p.A) (hL : 0 < p.L ss) (hu : 0 < g.mw ∨ EveryStateUsed p.π p.A (diagB p.mu p.v) ss)
    (mon : Monitor XF) :
    SameFit σ (DiagParams.relabel σ)
      (gaussFit ty (fun i => sp (σ i)) (fun i j => tp (σ i) (σ j)) (g.relabel σ) (fun i => cp (σ i)) params
        impl nIter ss (p.relabel σ).theta mon)
      (gaussFit ty sp tp g cp params impl nIter ss p.theta mon) := by
  cases ty with
  | diag =>
    exact (diag_relabel σ g cp params).fit_eq (c := ⟨sp, tp, impl, nIter⟩)
      (diag_closed g hmw cp params _ ss (fun _ => hsp) fun _ => htp) hne
      (fun _ => hsp) (r := rpD p)
      ⟨DiagPoint.valid h _, DiagPoint.likelihoods h hL, fun hn => hu.resolve_left hn.2⟩ mon
  | spherical =>
    have hpt : ptS (rpS p) = p := ptS_rpS hty
    rw [← hpt] at hu hL ⊢
    exact (sph_relabel σ g cp params).fit_eq (c := ⟨sp, tp, impl, nIter⟩)
      (sph_closed g hmw cp params _ ss (fun _ => hsp) fun _ => htp) hne
      (fun _ => hsp) (r := rpS p)
      ⟨DiagPoint.valid h _, DiagPoint.likelihoods (p := ptS (rpS p)) h hL,
        fun hn => hu.resolve_left hn.2⟩ mon

/-- **C58** (GaussianHMM, `full`) -/
theorem C58_fit_gaussian_full (sp : Fin nc → ℝ) (tp : Fin nc → Fin nc → ℝ)
    (hsp : ∀ i, 1 ≤ sp i) (htp : ∀ i j, 1 ≤ tp i j) (g : GaussPrior nc nf) (hmw : 0 ≤ g.mw)
    (cp : Fin nc → Matrix (Fin nf) (Fin nf) ℝ) (hcp : ∀ i, (cp i).PosSemidef)
    (params : List Char) (hcm : 'c' ∈ params → 'm' ∈ params ∨ (nf : ℝ) < g.cw) (impl : Impl)
    (nIter : ℕ) (ss : List (ObsSeq (Fin nf → ℝ))) (hne : ss ≠ [])
    (p : FullPoint nc nf) (hS : ∀ i, (p.S i).PosSemidef) (h : ChainModel p.π p.A) (hL : 0 < p.L ss)
    (hu : (0 < g.mw ∧ (nf : ℝ) < g.cw) ∨ EveryStateUsed p.π p.A (fullB p.mu p.S) ss) (mon : Monitor XF) :
    SameFit σ (FullParams.relabel σ)
      (fullFit (fun i => sp (σ i)) (fun i j => tp (σ i) (σ j)) (g.relabel σ) (fun i => cp (σ i)) params
        impl nIter ss (p.relabel σ).theta mon)
      (fullFit sp tp g cp params impl nIter ss p.theta mon) :=
  (full_relabel σ g hmw cp hcp params).fit_eq (c := ⟨sp, tp, impl, nIter⟩)
    (full_closed g hmw cp hcp params hcm _ ss (fun _ => hsp) fun _ => htp) hne
    (fun _ => hsp) (r := rpF p hS)
    ⟨⟨h.π_nonneg, h.A_nonneg, h.π_sum, h.A_sum⟩, FullPoint.likelihoods h hS hL,
      fun hn => hu.resolve_left hn.2⟩ mon

/-- **C58** (GaussianHMM, `tied`) -/
theorem C58_fit_gaussian_tied (sp : Fin nc → ℝ) (tp : Fin nc → Fin nc → ℝ)
    (hsp : ∀ i, 1 ≤ sp i) (htp : ∀ i j, 1 ≤ tp i j) (g : GaussPrior nc nf) (hmw : 0 ≤ g.mw)
    (cp : Matrix (Fin nf) (Fin nf) ℝ) (hcp : cp.PosSemidef)
    (params : List Char) (hcm : 'c' ∈ params → 'm' ∈ params ∨ (nf : ℝ) < g.cw) (impl : Impl)
    (nIter : ℕ) (ss : List (ObsSeq (Fin nf → ℝ))) (hne : ss ≠ [])
    (p : TiedPoint nc nf) (hS : p.S.PosSemidef) (h : ChainModel p.π p.A) (hL : 0 < p.L ss)
    (hu : 0 < g.mw ∨ EveryStateUsed p.π p.A (fullB p.mu fun _ => p.S) ss) (mon : Monitor XF) :
    SameFit σ (TiedParams.relabel σ)
      (tiedFit (fun i => sp (σ i)) (fun i j => tp (σ i) (σ j)) (g.relabel σ) cp params
        impl nIter ss (p.relabel σ).theta mon)
      (tiedFit sp tp g cp params impl nIter ss p.theta mon) :=
  (tied_relabel σ g hmw cp hcp params).fit_eq (c := ⟨sp, tp, impl, nIter⟩)
    (tied_closed g hmw cp hcp params hcm _ ss hne (fun _ => hsp) fun _ => htp) hne
    (fun _ => hsp) (r := rpT p hS)
    ⟨⟨h.π_nonneg, h.A_nonneg, h.π_sum, h.A_sum⟩, TiedPoint.likelihoods h hS hL,
      fun hn => hu.resolve_left hn.2⟩ mon

/-! ### Gaussian mixtures -/

namespace Gmm
variable {nm : ℕ} {C V : Type} [NeZero nm]

/-- Attributes with renamed states. -/
def Params.relabel {α : Type} (σ : Equiv.Perm (Fin nc)) (actC : C → C) (p : Params α nc nm nf C) :
    Params α nc nm nf C := ⟨fun i => p.weights (σ i), fun i => p.means (σ i), actC p.covars⟩

def RGmm.relabel (σ : Equiv.Perm (Fin nc)) (actV : V → V) (q : RGmm nc nm nf V) : RGmm nc nm nf V :=
  ⟨fun i => q.w (σ i), fun i => q.mu (σ i), actV q.v, fun i => q.w_nonneg _, fun i => q.w_ex _⟩

/-- Covariances can be renamed. -/
structure KindRelabel {K : Kind XF nc nm nf C} (R : RKind K V) (σ : Equiv.Perm (Fin nc)) (actV : V → V)
    (actC : C → C) : Prop where
  embed_act : ∀ v, R.embed (actV v) = actC (R.embed v)
  dens_act : ∀ v mu x i, R.dens (actV v) (fun i => mu (σ i)) x i = R.dens v mu x (σ i)
  next_act : ∀ (lam : Mix ℝ nc nm) (cm mu : Means ℝ nc nm nf) (T : Fun2 nc nm nf) (N : Fin nc → ℝ) v,
    R.next (fun i => lam (σ i)) (fun i => cm (σ i)) (fun i => mu (σ i)) (fun i => T (σ i)) (fun i => N (σ i))
      (actV v) = actV (R.next lam cm mu T N v)
  good_act : ∀ (lam : Mix ℝ nc nm) (cm mu : Means ℝ nc nm nf) (T : Fun2 nc nm nf) (N : Fin nc → ℝ),
    R.Good lam cm mu T N →
    R.Good (fun i => lam (σ i)) (fun i => cm (σ i)) (fun i => mu (σ i)) (fun i => T (σ i)) fun i => N (σ i)

variable {K : Kind XF nc nm nf C} {R : RKind K V} {actV : V → V} {actC : C → C} {σ}

omit [NeZero nc] in
theorem split_relabel (h : KindRelabel R σ actV actC) (q : RGmm nc nm nf V)
    (T : Fin nc → ((Fin nf → ℝ) → ℝ) → ℝ) :
    R.split (q.relabel σ actV) (fun i => T (σ i)) = fun i => R.split q T (σ i) := by
  funext i k f
  unfold RKind.split RKind.resp RGmm.relabel
  simp only [h.dens_act]

theorem family_relabel (h : KindRelabel R σ actV actC) (ps : List Char) :
    (family R GmmPrior.flat ps).Relabel (family R GmmPrior.flat ps) σ (RGmm.relabel σ actV)
      (Params.relabel σ actC) := by
  have hw : ∀ q T i k, R.wNext GmmPrior.flat ps (RGmm.relabel σ actV q) (fun i => T (σ i)) i k =
      R.wNext GmmPrior.flat ps q T (σ i) k := by
    intro q T i k
    unfold RKind.wNext
    rw [split_relabel h]
    rfl
  have hm : ∀ q T, R.muNext GmmPrior.flat ps (RGmm.relabel σ actV q) (fun i => T (σ i)) =
      fun i => R.muNext GmmPrior.flat ps q T (σ i) := by
    intro q T
    funext i k l
    unfold RKind.muNext RKind.mDen
    simp only [split_relabel h, hw]
    rfl
  have hc : ∀ q T, (fun i k l => R.muNext GmmPrior.flat ps (RGmm.relabel σ actV q) (fun i => T (σ i)) i k l -
      (GmmPrior.flat (nc := nc) (nm := nm) (nf := nf)).mp i k l) =
      fun i => (fun i k l => R.muNext GmmPrior.flat ps q T i k l -
        (GmmPrior.flat (nc := nc) (nm := nm) (nf := nf)).mp i k l) (σ i) := by
    intro q T; rw [hm]; rfl
  have hv : ∀ q T, R.vNext GmmPrior.flat ps (RGmm.relabel σ actV q) (fun i => T (σ i)) =
      actV (R.vNext GmmPrior.flat ps q T) := by
    intro q T
    unfold RKind.vNext
    split
    · rw [split_relabel h, hc]
      exact h.next_act GmmPrior.flat.mw (fun i k l => R.muNext GmmPrior.flat ps q T i k l -
        (GmmPrior.flat (nc := nc) (nm := nm) (nf := nf)).mp i k l) q.mu (R.split q T) (fun i => T i fun _ => 1) q.v
    · rfl
  refine ⟨fun q => ?_, fun q o i => ?_, fun q T => ?_, fun q T hg => ?_⟩
  · show R.params _ = Params.relabel σ actC (R.params q)
    unfold RKind.params Params.relabel RGmm.relabel
    simp only [h.embed_act]
  · show mixture _ (R.dens (actV q.v) (fun i => q.mu (σ i)) o i) = _
    rw [h.dens_act]; rfl
  · have h1 : ((∀ i k, 0 ≤ R.wNext GmmPrior.flat ps (RGmm.relabel σ actV q) (fun i => T (σ i)) i k) ∧
        ∀ i, ∃ k, 0 < R.wNext GmmPrior.flat ps (RGmm.relabel σ actV q) (fun i => T (σ i)) i k) ↔
        (∀ i k, 0 ≤ R.wNext GmmPrior.flat ps q T i k) ∧ ∀ i, ∃ k, 0 < R.wNext GmmPrior.flat ps q T i k := by
      simp only [hw]
      rw [σ.forall_congr_right (q := fun i => ∀ k, 0 ≤ R.wNext GmmPrior.flat ps q T i k),
        σ.forall_congr_right (q := fun i => ∃ k, 0 < R.wNext GmmPrior.flat ps q T i k)]
    by_cases hd : (∀ i k, 0 ≤ R.wNext GmmPrior.flat ps q T i k) ∧ ∀ i, ∃ k, 0 < R.wNext GmmPrior.flat ps q T i k
    · simp only [family, dif_pos hd, dif_pos (h1.2 hd)]
      simp only [RGmm.relabel]
      congr 1
      · funext i k; exact hw q T i k
      · exact hm q T
      · exact hv q T
    · simp only [family, dif_neg hd, dif_neg fun h' => hd (h1.1 h')]
      simp only [RGmm.relabel]
      congr 1
      · exact hm q T
      · exact hv q T
  · refine ⟨fun h1 i => hg.wden h1 _, fun i k => ?_, fun i => ?_, fun h1 i k => ?_, fun h1 => ?_⟩
    · rw [hw]; exact hg.w_nonneg _ _
    · simp only [hw]; exact hg.w_ex _
    · have : R.mDen GmmPrior.flat ps (RGmm.relabel σ actV q) (fun i => T (σ i)) i k =
          R.mDen GmmPrior.flat ps q T (σ i) k := by
        unfold RKind.mDen
        simp only [split_relabel h, hw]
        rfl
      rw [this]; exact hg.mden h1 _ _
    · rw [split_relabel h, hc]
      exact h.good_act GmmPrior.flat.mw _ q.mu _ (fun i => T i fun _ => 1) (hg.cov h1)

end Gmm

/-- The model with renamed states; `actV` renames the covariances. -/
def Spec.GmmPoint.relabel {nm : ℕ} {V : Type} (σ : Equiv.Perm (Fin nc)) (actV : V → V) (p : GmmPoint nc nm nf V) :
    GmmPoint nc nm nf V :=
  ⟨fun i => p.π (σ i), fun i j => p.A (σ i) (σ j), fun i => p.w (σ i), fun i => p.mu (σ i), actV p.v⟩

/-- The claim C58 for `fit` of `GMMHMM`, default priors of the emissions. -/
def Spec.FitNameFree {nm : ℕ} {C V : Type} [NeZero nm] (σ : Equiv.Perm (Fin nc)) (K : Gmm.Kind XF nc nm nf C)
    (embed : V → C) (dens : CompDens nc nm nf V) (actV : V → V) (actC : C → C) : Prop :=
  ∀ (sp : Fin nc → ℝ) (tp : Fin nc → Fin nc → ℝ) (params : List Char) (impl : Impl) (nIter : ℕ)
    (ss : List (ObsSeq (Fin nf → ℝ))) (p : GmmPoint nc nm nf V) (mon : Monitor XF),
    (∀ i, 1 ≤ sp i) → (∀ i j, 1 ≤ tp i j) → ss ≠ [] → ChainModel p.π p.A →
    MixWeights p.w → 0 < p.L dens ss → EveryStateUsed p.π p.A (p.b dens) ss →
    SameFit σ (Gmm.Params.relabel σ actC)
      (gmmFit K (fun i => sp (σ i)) (fun i j => tp (σ i) (σ j)) params impl nIter ss
        (Gmm.theta embed (p.relabel σ actV)) mon)
      (gmmFit K sp tp params impl nIter ss (Gmm.theta embed p) mon)

section
variable {nm : ℕ} {C V : Type} [NeZero nm]

theorem Gmm.name_free {K : Kind XF nc nm nf C} (R : RKind K V) (hreg : ∀ ps, Regular R ps) {actV : V → V}
    {actC : C → C} (h : KindRelabel R σ actV actC) : FitNameFree σ K R.embed R.dens actV actC := by
  intro sp tp params impl nIter ss p mon hsp htp hne hc hw hL hu
  exact (family_relabel h params).fit_eq (c := ⟨sp, tp, impl, nIter⟩)
    (inv_closed (hreg params) _ ss (fun _ => hsp) fun _ => htp) hne
    (fun _ => hsp) (inv_start hc hw hL hu) mon

/-- **C58** (GMMHMM, `diag`) -/
theorem C58_fit_gmm_diag : FitNameFree (nc := nc) (nm := nm) (nf := nf) σ Gmm.diagDefault
    (fun v i k l => fin (v i k l)) diagComp (Spec.rows σ) (Spec.rows σ) := by
  rw [Gmm.diagDefault_eq]
  exact Gmm.name_free σ Gmm.dDiag Gmm.regular_diag
    ⟨fun _ => rfl, fun _ _ _ _ => rfl, fun _ _ _ _ _ _ => rfl, fun _ _ _ _ _ h i => h _⟩

/-- **C58** (GMMHMM, `spherical`) -/
theorem C58_fit_gmm_spherical [NeZero nf] (hn : nm ≤ nf) : FitNameFree (nc := nc) (nm := nm) (nf := nf) σ
    Gmm.sphericalDefault (fun v i k => fin (v i k)) sphericalComp (Spec.rows σ) (Spec.rows σ) := by
  rw [Gmm.sphericalDefault_eq]
  exact Gmm.name_free σ Gmm.dSpherical (fun ps => Gmm.regular_spherical ps hn)
    ⟨fun _ => rfl, fun _ _ _ _ => rfl, fun _ _ _ _ _ _ => rfl, fun _ _ _ _ _ h i => h _⟩

/-- Covariances of the components, renamed. -/
def Spec.PsdMix.relabel (σ : Equiv.Perm (Fin nc)) (v : PsdMix nc nm nf) : PsdMix nc nm nf :=
  ⟨fun i => v.S (σ i), fun i => v.psd _⟩

/-- Covariances of the states, renamed. -/
def Spec.PsdState.relabel (σ : Equiv.Perm (Fin nc)) (v : PsdState nc nf) : PsdState nc nf :=
  ⟨fun i => v.S (σ i), fun i => v.psd _⟩

theorem Gmm.full_next_act (psi : Matrix (Fin nf) (Fin nf) ℝ) (nu : ℝ) (lam : Mix ℝ nc nm) (cm mu : Means ℝ nc nm nf)
    (T : Fun2 nc nm nf) (N : Fin nc → ℝ) (v : PsdMix nc nm nf) :
    (rFull (fun _ _ => psi) fun _ _ => nu).next (fun i => lam (σ i)) (fun i => cm (σ i)) (fun i => mu (σ i))
      (fun i => T (σ i)) (fun i => N (σ i)) (v.relabel σ) =
    PsdMix.relabel σ ((rFull (fun _ _ => psi) fun _ _ => nu).next lam cm mu T N v) := by
  have e : ∀ i, fullCov (fun _ _ => psi) (fun _ _ => nu) (fun i => lam (σ i)) (fun i => cm (σ i))
      (fun i => mu (σ i)) (fun i => T (σ i)) i = fullCov (fun _ _ => psi) (fun _ _ => nu) lam cm mu T (σ i) :=
    fun i => rfl
  have h1 : (∀ i k, (fullCov (fun _ _ => psi) (fun _ _ => nu) (fun i => lam (σ i)) (fun i => cm (σ i))
      (fun i => mu (σ i)) (fun i => T (σ i)) i k).PosSemidef) ↔
      ∀ i k, (fullCov (fun _ _ => psi) (fun _ _ => nu) lam cm mu T i k).PosSemidef := by
    simp only [e]
    exact σ.forall_congr_right (q := fun i => ∀ k, (fullCov (fun _ _ => psi) (fun _ _ => nu) lam cm mu T i k).PosSemidef)
  by_cases h : ∀ i k, (fullCov (fun _ _ => psi) (fun _ _ => nu) lam cm mu T i k).PosSemidef
  · simp only [rFull, dif_pos h, dif_pos (h1.2 h)]; rfl
  · simp only [rFull, dif_neg h, dif_neg fun h' => h (h1.1 h')]

theorem Gmm.tied_next_act (psi : Matrix (Fin nf) (Fin nf) ℝ) (nu : ℝ) (lam : Mix ℝ nc nm) (cm mu : Means ℝ nc nm nf)
    (T : Fun2 nc nm nf) (N : Fin nc → ℝ) (v : PsdState nc nf) :
    (rTied (fun _ => psi) fun _ => nu).next (fun i => lam (σ i)) (fun i => cm (σ i)) (fun i => mu (σ i))
      (fun i => T (σ i)) (fun i => N (σ i)) (v.relabel σ) =
    PsdState.relabel σ ((rTied (fun _ => psi) fun _ => nu).next lam cm mu T N v) := by
  have e : ∀ i, tiedCov (fun _ => psi) (fun _ => nu) (fun i => lam (σ i)) (fun i => cm (σ i))
      (fun i => mu (σ i)) (fun i => T (σ i)) (fun i => N (σ i)) i =
      tiedCov (fun _ => psi) (fun _ => nu) lam cm mu T N (σ i) := fun i => rfl
  have h1 : (∀ i, (tiedCov (fun _ => psi) (fun _ => nu) (fun i => lam (σ i)) (fun i => cm (σ i))
      (fun i => mu (σ i)) (fun i => T (σ i)) (fun i => N (σ i)) i).PosSemidef) ↔
      ∀ i, (tiedCov (fun _ => psi) (fun _ => nu) lam cm mu T N i).PosSemidef := by
    simp only [e]
    exact σ.forall_congr_right (q := fun i => (tiedCov (fun _ => psi) (fun _ => nu) lam cm mu T N i).PosSemidef)
  by_cases h : ∀ i, (tiedCov (fun _ => psi) (fun _ => nu) lam cm mu T N i).PosSemidef
  · simp only [rTied, dif_pos h, dif_pos (h1.2 h)]; rfl
  · simp only [rTied, dif_neg h, dif_neg fun h' => h (h1.1 h')]

/-- **C58** (GMMHMM, `full`) -/
theorem C58_fit_gmm_full : FitNameFree (nc := nc) (nm := nm) (nf := nf) σ Gmm.fullDefault
    (fun v i k l m => fin (v.S i k l m)) fullComp (PsdMix.relabel σ) (Spec.rows σ) := by
  rw [Gmm.fullDefault_eq]
  exact Gmm.name_free σ Gmm.dFull Gmm.regular_full
    ⟨fun _ => rfl, fun _ _ _ _ => rfl, Gmm.full_next_act σ 0 _, fun lam cm mu T N h => ⟨fun i => h.1 _, fun i => h.2 _⟩⟩

/-- **C58** (GMMHMM, `tied`) -/
theorem C58_fit_gmm_tied : FitNameFree (nc := nc) (nm := nm) (nf := nf) σ Gmm.tiedDefault
    (fun v i l m => fin (v.S i l m)) tiedComp (PsdState.relabel σ) (Spec.rows σ) := by
  rw [Gmm.tiedDefault_eq]
  exact Gmm.name_free σ Gmm.dTied Gmm.regular_tied
    ⟨fun _ => rfl, fun _ _ _ _ => rfl, Gmm.tied_next_act σ 0 _, fun lam cm mu T N h => ⟨fun i => h.1 _, fun i => h.2 _⟩⟩

end
end Fit

/-! ## A concrete case -/

namespace Demo

/-- The demonstration model with its two states swapped. -/
noncomputable def swapped (impl : Impl) : Hmm XF 2 Int :=
  (Categorical.emission fun _ _ => 1).toHmm impl (Categorical.params ![2/5, 3/5] ![![3/5, 2/5], ![3/10, 7/10]]
    ![![3/5, 3/10, 1/10], ![1/10, 2/5, 1/2]])

theorem swapped_represents (impl : Impl) : Represents (swapped impl) Categorical.sym
    (fun i => π (Equiv.swap 0 1 i)) (fun i j => A (Equiv.swap 0 1 i) (Equiv.swap 0 1 j))
    (fun o i => b o (Equiv.swap 0 1 i)) := by
  have h := Categorical.represents (fun _ _ => 1) impl (π := fun i => π (Equiv.swap 0 1 i))
    (A := fun i j => A (Equiv.swap 0 1 i) (Equiv.swap 0 1 j)) (e := fun i => e (Equiv.swap 0 1 i))
    (fun i => π_nonneg _) (fun i j => A_nonneg _ _) fun i => e_nonneg _
  have e1 : (fun i => π (Equiv.swap 0 1 i)) = ![2/5, 3/5] := by
    funext i; fin_cases i <;> simp [π]
  have e2 : (fun i j => A (Equiv.swap 0 1 i) (Equiv.swap 0 1 j)) = ![![3/5, 2/5], ![3/10, 7/10]] := by
    funext i j; fin_cases i <;> fin_cases j <;> simp [A]
  have e3 : (fun i => e (Equiv.swap 0 1 i)) = ![![3/5, 3/10, 1/10], ![1/10, 2/5, 1/2]] := by
    funext i; fin_cases i <;> simp [e]
  have e4 : swapped impl = (Categorical.emission fun _ _ => 1).toHmm impl (Categorical.params
      (fun i => π (Equiv.swap 0 1 i)) (fun i j => A (Equiv.swap 0 1 i) (Equiv.swap 0 1 j))
      fun i => e (Equiv.swap 0 1 i)) := by rw [e1, e2, e3]; rfl
  rw [e4]
  exact h

end Demo

example (impl : Impl) : score (Demo.swapped impl) (dataX Categorical.sym [Demo.seq, Demo.seq])
      (some (dataLengths [Demo.seq, Demo.seq])) =
    score (Demo.hmm impl) (dataX Categorical.sym [Demo.seq, Demo.seq]) (some (dataLengths [Demo.seq, Demo.seq])) :=
  C58_score (Equiv.swap 0 1) (Demo.represents impl) (Demo.swapped_represents impl) rfl _ (by simp)

example (impl : Impl) : ∃ rows, predictProba (Demo.hmm impl) (dataX Categorical.sym [Demo.seq, Demo.seq])
      (some (dataLengths [Demo.seq, Demo.seq])) = .ok rows ∧
    predictProba (Demo.swapped impl) (dataX Categorical.sym [Demo.seq, Demo.seq])
      (some (dataLengths [Demo.seq, Demo.seq])) = .ok (rows.map fun r i => r (Equiv.swap 0 1 i)) :=
  C58_predict_proba (Equiv.swap 0 1) (Demo.represents impl) (Demo.swapped_represents impl) rfl _ (by simp)
    (Demo.estepOk impl)

end Verif
