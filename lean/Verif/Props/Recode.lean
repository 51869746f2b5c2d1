import Verif.Proofs.Recode
import Verif.Props.Relabel

/-!
# C96: the same data written differently
-/

set_option autoImplicit false

namespace Verif
open FloatLike XF Hmmc Spec
open scoped Classical Matrix

variable {nc nf : ℕ} [NeZero nc] {π : Fin nc → ℝ} {A : Fin nc → Fin nc → ℝ}

/-! ## Categorical: other numbers for the symbols -/

/-- Exchanges the columns. -/
def Spec.cols {β : Type} (τ : Equiv.Perm (Fin nf)) (f : Fin nc → Fin nf → β) : Fin nc → Fin nf → β :=
  fun i k => f i (τ k)

def Categorical.Rows.cols (τ : Equiv.Perm (Fin nf)) (q : Categorical.Rows nc nf) : Categorical.Rows nc nf :=
  ⟨Spec.cols τ q.e, fun i k => q.nonneg _ _, fun i => (Equiv.sum_comp τ (q.e i)).le.trans (q.sum_le i)⟩

theorem Categorical.family_recode (τ : Equiv.Perm (Fin nf)) (ep : Fin nc → Fin nf → ℝ) (ps : List Char) :
    (family ep ps).Recode (family (Spec.cols τ ep) ps) τ.symm (Rows.cols τ) (Spec.cols τ) where
  embed_act q := rfl
  b_act q o i := by
    show q.e i (τ (τ.symm o)) = q.e i o
    rw [τ.apply_symm_apply]
  next_act q T hT _ := by
    have e : ∀ i k, (T i fun o => Categorical.ind k (τ.symm o)) = T i (Categorical.ind (τ k)) := by
      intro i k
      congr 1
      funext o
      simp only [Categorical.ind, Equiv.symm_apply_eq]
    by_cases h : 'e' ∈ ps
    · simp only [family, h, if_true, e]
      have : ∀ i, updRow (Spec.cols τ ep i) (fun k => T i (ind (τ k))) =
          fun k => updRow (ep i) (fun k => T i (ind k)) (τ k) := fun i =>
        mapUpdate_relabel τ (ep i) (fun _ => 1) fun k => T i (ind k)
      simp only [this]; rfl
    · simp only [family, h, if_false]
  good_act q T _ h := trivial

/-- **C96** (CategoricalHMM) Giving the symbols other numbers, in the data and in the columns of `emissionprob_` and of
its prior, changes nothing else. -/
theorem C96_categorical {e : Fin nc → Fin nf → ℝ} (τ : Equiv.Perm (Fin nf)) (sp : Fin nc → ℝ)
    (tp : Fin nc → Fin nc → ℝ) (ep : Fin nc → Fin nf → ℝ) (hsp : ∀ i, 1 ≤ sp i) (htp : ∀ i j, 1 ≤ tp i j)
    (hep : ∀ i k, 1 ≤ ep i k) (params : List Char) (impl : Impl) (nIter : ℕ) (ss : List (ObsSeq (Fin nf)))
    (hne : ss ≠ []) (h : CatModel π A e) (hL : impl = .log → 0 < catL ss π A e) (mon : Monitor XF) :
    RecodedFit (Spec.cols τ)
      (catFit sp tp (Spec.cols τ ep) params impl nIter (recode τ.symm ss)
        (Categorical.params π A (Spec.cols τ e)) mon)
      (catFit sp tp ep params impl nIter ss (Categorical.params π A e) mon) := by
  refine (Categorical.family_recode τ ep params).fit_eq (c := ⟨sp, tp, impl, nIter⟩)
    ((Categorical.family ep params).closed_of_ac _ ss (fun _ => hsp) (fun _ => htp) (fun _ _ => trivial)
      (Categorical.ac ep params (fun _ => hep) ss)) hne (fun _ => hsp)
    (r := ⟨π, A, ⟨e, h.e_nonneg, h.e_sum⟩⟩) ⟨h.valid, fun hi s hs => ?_⟩ mon
  refine lt_of_le_of_ne (likelihood_nonneg h.π_nonneg h.A_nonneg fun t i => h.e_nonneg _ _)
    fun h0 => (hL hi).ne' ?_
  exact List.prod_eq_zero (List.mem_map.2 ⟨s, hs, h0.symm⟩)

/-! ## Poisson and multinomial: another order of the columns -/

def Poisson.Rates.cols (τ : Equiv.Perm (Fin nf)) (q : Poisson.Rates nc nf) : Poisson.Rates nc nf :=
  ⟨Spec.cols τ q.l, fun i k => q.nonneg _ _⟩

/-- Exchanges the columns of a sample. -/
def Spec.colsX {β : Type} (τ : Equiv.Perm (Fin nf)) (x : Fin nf → β) : Fin nf → β := fun k => x (τ k)

theorem Poisson.family_recode (τ : Equiv.Perm (Fin nf)) (al be : Fin nc → Fin nf → ℝ) (hal : ∀ i k, 0 ≤ al i k)
    (hbe : ∀ i k, 0 ≤ be i k) (ps : List Char) :
    (family al be hal hbe ps).Recode (family (Spec.cols τ al) (Spec.cols τ be) (fun i k => hal _ _)
      (fun i k => hbe _ _) ps) (Spec.colsX τ) (Rates.cols τ) (Spec.cols τ) where
  embed_act q := rfl
  b_act q o i := by
    show ∏ k, poissonPmf (q.l i (τ k)) (o (τ k)) = ∏ k, poissonPmf (q.l i k) (o k)
    exact Equiv.prod_comp τ fun k => poissonPmf (q.l i k) (o k)
  next_act q T hT _ := by
    by_cases h : 'l' ∈ ps
    · simp only [family, h, if_true]; rfl
    · simp only [family, h, if_false]
  good_act q T _ h := h

/-- **C96** (PoissonHMM) -/
theorem C96_poisson {l : Fin nc → Fin nf → ℝ} (τ : Equiv.Perm (Fin nf)) (sp : Fin nc → ℝ)
    (tp : Fin nc → Fin nc → ℝ) (al be : Fin nc → Fin nf → ℝ) (hsp : ∀ i, 1 ≤ sp i) (htp : ∀ i j, 1 ≤ tp i j)
    (hal : ∀ i k, 0 ≤ al i k) (hbe : ∀ i k, 0 ≤ be i k) (params : List Char) (impl : Impl) (nIter : ℕ)
    (ss : List (ObsSeq (Fin nf → ℕ))) (hne : ss ≠ []) (h : PoissonModel π A l)
    (hL : 0 < dataLikelihood π A (poissonB l) ss) (hu : EveryStateUsed π A (poissonB l) ss) (mon : Monitor XF) :
    RecodedFit (Spec.cols τ)
      (poissonFit sp tp (Spec.cols τ al) (Spec.cols τ be) params impl nIter (recode (Spec.colsX τ) ss)
        (Poisson.params π A (Spec.cols τ l)) mon)
      (poissonFit sp tp al be params impl nIter ss (Poisson.params π A l) mon) :=
  (Poisson.family_recode τ al be hal hbe params).fit_eq (c := ⟨sp, tp, impl, nIter⟩)
    (Poisson.closed al be hal hbe params _ ss (fun _ => hsp) fun _ => htp) hne (fun _ => hsp) (r := h.rp)
    ⟨h.valid, h.ok hL, hu⟩ mon

def Multinomial.Rows.cols (τ : Equiv.Perm (Fin nf)) (q : Multinomial.Rows nc nf) : Multinomial.Rows nc nf :=
  ⟨Spec.cols τ q.e, fun i k => q.nonneg _ _, fun i => (Equiv.sum_comp τ (q.e i)).trans (q.sum_one i)⟩

theorem Multinomial.family_recode (τ : Equiv.Perm (Fin nf)) (ps : List Char) :
    (family (nc := nc) (nf := nf) ps).Recode (family ps) (Spec.colsX τ) (Rows.cols τ) (Spec.cols τ) where
  embed_act q := rfl
  b_act q o i := by
    show multinomialPmf (Spec.cols τ q.e i) (Spec.colsX τ o) = multinomialPmf (q.e i) o
    unfold multinomialPmf Spec.cols Spec.colsX
    rw [Equiv.sum_comp τ o, Equiv.prod_comp τ fun k => q.e i k ^ o k / ((o k).factorial : ℝ)]
  next_act q T hT _ := by
    have e : ∀ i k, upd (fun i f => T i fun o => f (Spec.colsX τ o)) i k = upd T i (τ k) := by
      intro i k
      unfold upd
      rw [← Equiv.sum_comp τ fun j => T i fun x => (x j : ℝ)]
      rfl
    have h1 : ('e' ∈ ps ∧ (∀ i k, 0 ≤ upd (fun i f => T i fun o => f (Spec.colsX τ o)) i k) ∧
        ∀ i, ∑ k, upd (fun i f => T i fun o => f (Spec.colsX τ o)) i k = 1) ↔
        'e' ∈ ps ∧ (∀ i k, 0 ≤ upd T i k) ∧ ∀ i, ∑ k, upd T i k = 1 := by
      simp only [e]
      have e1 : (∀ i k, 0 ≤ upd T i (τ k)) ↔ ∀ i k, 0 ≤ upd T i k :=
        forall_congr' fun i => τ.forall_congr_right (q := fun k => 0 ≤ upd T i k)
      have e2 : (∀ i, ∑ k, upd T i (τ k) = 1) ↔ ∀ i, ∑ k, upd T i k = 1 :=
        forall_congr' fun i => by rw [Equiv.sum_comp τ fun k => upd T i k]
      rw [e1, e2]
    by_cases h : 'e' ∈ ps ∧ (∀ i k, 0 ≤ upd T i k) ∧ ∀ i, ∑ k, upd T i k = 1
    · simp only [family, dif_pos h, dif_pos (h1.2 h)]
      unfold Rows.cols Spec.cols
      congr 1
      funext i k
      exact e i k
    · simp only [family, dif_neg h, dif_neg fun h' => h (h1.1 h')]
  good_act q T _ h hl i := by
    have := h hl i
    rwa [← Equiv.sum_comp τ fun j => T i fun x => (x j : ℝ)] at this

/-- **C96** (MultinomialHMM) -/
theorem C96_multinomial {e : Fin nc → Fin nf → ℝ} (τ : Equiv.Perm (Fin nf)) (sp : Fin nc → ℝ)
    (tp : Fin nc → Fin nc → ℝ) (hsp : ∀ i, 1 ≤ sp i) (htp : ∀ i j, 1 ≤ tp i j) (params : List Char) (impl : Impl)
    (nIter : ℕ) (ss : List (ObsSeq (Fin nf → ℕ))) (hne : ss ≠ []) (h : MultinomialModel π A e)
    (hL : 0 < dataLikelihood π A (multinomialB e) ss) (hu : EveryStateEmits π A e ss) (mon : Monitor XF) :
    RecodedFit (Spec.cols τ)
      (multinomialFit sp tp params impl nIter (recode (Spec.colsX τ) ss)
        (Multinomial.params π A (Spec.cols τ e)) mon)
      (multinomialFit sp tp params impl nIter ss (Multinomial.params π A e) mon) :=
  (Multinomial.family_recode τ params).fit_eq (c := ⟨sp, tp, impl, nIter⟩)
    (Multinomial.closed _ ss (fun _ => hsp) fun _ => htp) hne (fun _ => hsp) (r := h.rp)
    ⟨h.valid, h.ok hL, hu⟩ mon

/-! ## Gaussian, `diag` and `spherical`: another origin, order and orientation of the axes -/

/-- Axis `k` of the new coordinates is axis `τ k` of the old ones, pointing in the direction `ε k = ±1`, with the old
origin at `c k`. -/
structure Spec.Axes (nf : ℕ) where
  τ : Equiv.Perm (Fin nf)
  ε : Fin nf → ℝ
  c : Fin nf → ℝ
  sign : ∀ k, ε k * ε k = 1

namespace Spec.Axes
variable (m : Axes nf)

/-- New coordinates of a sample. -/
def move (x : Fin nf → ℝ) : Fin nf → ℝ := fun k => m.ε k * x (m.τ k) + m.c k

/-- The prior in new coordinates. -/
def prior (g : GaussPrior nc nf) : GaussPrior nc nf := ⟨fun i => m.move (g.mp i), g.mw, g.cw⟩

/-- The model in new coordinates. -/
def point (p : DiagPoint nc nf) : DiagPoint nc nf := ⟨p.π, p.A, fun i => m.move (p.mu i), cols m.τ p.v⟩

/-- The attributes in new coordinates. -/
noncomputable def params (p : Gaussian.DiagParams XF nc nf) : Gaussian.DiagParams XF nc nf :=
  ⟨fun i k => fin (m.ε k) * p.means i (m.τ k) + fin (m.c k), cols m.τ p.covars⟩

end Spec.Axes

namespace Gaussian
open Spec.Axes

/-- Expected counts of the moved data. -/
abbrev movedT (m : Axes nf) (T : Fin nc → ((Fin nf → ℝ) → ℝ) → ℝ) : Fin nc → ((Fin nf → ℝ) → ℝ) → ℝ :=
  fun i f => T i fun x => f (m.move x)

omit [NeZero nc] in
theorem movedT_coord (m : Axes nf) {T : Fin nc → ((Fin nf → ℝ) → ℝ) → ℝ} (hT : PosLin T) (i : Fin nc) (k : Fin nf) :
    (movedT m T i fun x => x k) = m.ε k * (T i fun x => x (m.τ k)) + m.c k * T i fun _ => 1 := by
  show T i (fun x => m.ε k * x (m.τ k) + m.c k) = _
  have e : (fun x : Fin nf → ℝ => m.ε k * x (m.τ k) + m.c k) = fun x => m.ε k * x (m.τ k) + m.c k * 1 := by
    funext x; ring
  rw [e, hT.add, hT.smul, hT.smul]

omit [NeZero nc] in
theorem movedT_sq (m : Axes nf) {T : Fin nc → ((Fin nf → ℝ) → ℝ) → ℝ} (hT : PosLin T) (i : Fin nc) (k : Fin nf) :
    (movedT m T i fun x => x k ^ 2) = (T i fun x => x (m.τ k) ^ 2) + 2 * m.ε k * m.c k * (T i fun x => x (m.τ k)) +
      m.c k ^ 2 * T i fun _ => 1 := by
  show T i (fun x => (m.ε k * x (m.τ k) + m.c k) ^ 2) = _
  have e : (fun x : Fin nf → ℝ => (m.ε k * x (m.τ k) + m.c k) ^ 2) =
      fun x => (x (m.τ k) ^ 2 + 2 * m.ε k * m.c k * x (m.τ k)) + m.c k ^ 2 * 1 := by
    funext x
    have := m.sign k
    linear_combination (x (m.τ k)) ^ 2 * this
  rw [e, hT.add, hT.add, hT.smul, hT.smul]

omit [NeZero nc] in
theorem muNext_moved (m : Axes nf) (g : GaussPrior nc nf) (ps : List Char) (mu : Fin nc → Fin nf → ℝ)
    {T : Fin nc → ((Fin nf → ℝ) → ℝ) → ℝ} (hT : PosLin T) (hg : 'm' ∈ ps → ∀ i, g.mw + T i (fun _ => 1) ≠ 0) :
    muNext (m.prior g) ps (fun i => m.move (mu i)) (movedT m T) = fun i => m.move (muNext g ps mu T i) := by
  funext i k
  unfold muNext
  by_cases hm : 'm' ∈ ps
  · simp only [hm, if_true]
    have h0 := hg hm i
    unfold move
    simp only [hm, if_true]
    rw [movedT_coord m hT]
    show (g.mw * (m.ε k * g.mp i (m.τ k) + m.c k) + _) / (g.mw + T i fun _ => 1) = _
    field_simp
    ring
  · simp only [hm, if_false]

omit [NeZero nc] in
theorem varNext_moved (m : Axes nf) (g : GaussPrior nc nf) (cp : Fin nc → Fin nf → ℝ) (ps : List Char) (hm : 'm' ∈ ps)
    (mu : Fin nc → Fin nf → ℝ) {T : Fin nc → ((Fin nf → ℝ) → ℝ) → ℝ} (hT : PosLin T) (i : Fin nc) (k : Fin nf) :
    varNext (m.prior g) (Spec.cols m.τ cp) ps (fun i => m.move (mu i)) (movedT m T) i k =
      varNext g cp ps mu T i (m.τ k) := by
  unfold varNext
  simp only [gate, hm, if_true, movedT_coord m hT, movedT_sq m hT]
  unfold Spec.Axes.prior move Spec.cols
  simp only
  congr 1
  have := m.sign k
  linear_combination (g.mw * (mu i (m.τ k) - g.mp i (m.τ k)) ^ 2
    - 2 * mu i (m.τ k) * (T i fun x => x (m.τ k)) + mu i (m.τ k) ^ 2 * T i fun _ => 1) * this

omit [NeZero nc] in
theorem normalPdf_moved {μ v x ε c : ℝ} (h : ε * ε = 1) : normalPdf (ε * μ + c) v (ε * x + c) = normalPdf μ v x := by
  unfold normalPdf
  have : (ε * x + c - (ε * μ + c)) ^ 2 = (x - μ) ^ 2 := by linear_combination (x - μ) ^ 2 * h
  rw [this]

omit [NeZero nc] in
theorem diagB_moved (m : Axes nf) (mu v : Fin nc → Fin nf → ℝ) (x : Fin nf → ℝ) (i : Fin nc) :
    diagB (fun i => m.move (mu i)) (Spec.cols m.τ v) (m.move x) i = diagB mu v x i := by
  unfold diagB
  rw [← Equiv.prod_comp m.τ fun k => normalPdf (mu i k) (effVar (v i k)) (x k)]
  exact Finset.prod_congr rfl fun k _ => normalPdf_moved (m.sign k)

theorem diag_recode (m : Axes nf) (g : GaussPrior nc nf) (cp : Fin nc → Fin nf → ℝ) (ps : List Char)
    (hcm : 'c' ∈ ps → 'm' ∈ ps) :
    (diagFamily g cp ps).Recode (diagFamily (m.prior g) (Spec.cols m.τ cp) ps) m.move
      (fun q => ⟨fun i => m.move (q.mu i), Spec.cols m.τ q.v⟩) m.params where
  embed_act q := rfl
  b_act q o i := diagB_moved m q.mu q.v o i
  next_act q T hT hg := by
    show (⟨muNext (m.prior g) ps (fun i => m.move (q.mu i)) (movedT m T), _⟩ : RDiag nc nf) = _
    have e := muNext_moved m g ps q.mu hT hg
    by_cases hc : 'c' ∈ ps
    · simp only [diagFamily, hc, if_true]
      congr 1
      funext i k
      show varNext (m.prior g) (Spec.cols m.τ cp) ps (muNext (m.prior g) ps (fun i => m.move (q.mu i)) (movedT m T))
        (movedT m T) i k = _
      rw [e]
      exact varNext_moved m g cp ps (hcm hc) _ hT i k
    · simp only [diagFamily, hc, if_false]
      congr 1
  good_act q T _ h := h

theorem sph_recode [NeZero nf] (m : Axes nf) (g : GaussPrior nc nf) (cp : Fin nc → Fin nf → ℝ) (ps : List Char)
    (hcm : 'c' ∈ ps → 'm' ∈ ps) :
    (sphFamily g cp ps).Recode (sphFamily (m.prior g) (Spec.cols m.τ cp) ps) m.move
      (fun q => ⟨fun i => m.move (q.mu i), q.v⟩) m.params where
  embed_act q := rfl
  b_act q o i := diagB_moved m q.mu (fun i _ => q.v i) o i
  next_act q T hT hg := by
    show (⟨muNext (m.prior g) ps (fun i => m.move (q.mu i)) (movedT m T), _⟩ : RSph nc nf) = _
    have e := muNext_moved m g ps q.mu hT hg
    by_cases hc : 'c' ∈ ps
    · simp only [sphFamily, hc, if_true]
      congr 1
      funext i
      show (∑ k, varNext (m.prior g) (Spec.cols m.τ cp) ps (muNext (m.prior g) ps (fun i => m.move (q.mu i))
        (movedT m T)) (movedT m T) i k) / (nf : ℝ) = _
      rw [e]
      congr 1
      rw [← Equiv.sum_comp m.τ fun k => varNext g cp ps (muNext g ps q.mu T) T i k]
      exact Finset.sum_congr rfl fun k _ => varNext_moved m g cp ps (hcm hc) _ hT i k
    · simp only [sphFamily, hc, if_false]
      congr 1
  good_act q T _ h := h

end Gaussian

open Gaussian

/-- **C96** (GaussianHMM, `diag` and `spherical`) Moving the origin, reordering the columns or reversing their sign,
in the data, the means, `means_prior`, and the columns of the variances and their prior, changes nothing else,
provided the means are trained with the covariances. -/
theorem C96_gaussian [NeZero nf] (ty : DiagType) (m : Axes nf) (sp : Fin nc → ℝ) (tp : Fin nc → Fin nc → ℝ)
    (hsp : ∀ i, 1 ≤ sp i) (htp : ∀ i j, 1 ≤ tp i j) (g : GaussPrior nc nf) (hmw : 0 ≤ g.mw)
    (cp : Fin nc → Fin nf → ℝ) (params : List Char) (hcm : 'c' ∈ params → 'm' ∈ params) (impl : Impl) (nIter : ℕ)
    (ss : List (ObsSeq (Fin nf → ℝ))) (hne : ss ≠ []) (p : DiagPoint nc nf) (hty : ty.Shape p)
    (h : ChainModel p.π p.A) (hL : 0 < p.L ss) (hu : 0 < g.mw ∨ EveryStateUsed p.π p.A (diagB p.mu p.v) ss)
    (mon : Monitor XF) :
    RecodedFit m.params
      (gaussFit ty sp tp (m.prior g) (Spec.cols m.τ cp) params impl nIter (recode m.move ss) (m.point p).theta mon)
      (gaussFit ty sp tp g cp params impl nIter ss p.theta mon) := by
  cases ty with
  | diag =>
    exact (diag_recode m g cp params hcm).fit_eq (c := ⟨sp, tp, impl, nIter⟩)
      (diag_closed g hmw cp params _ ss (fun _ => hsp) fun _ => htp) hne
      (fun _ => hsp) (r := rpD p)
      ⟨DiagPoint.valid h _, DiagPoint.likelihoods h hL, fun hn => hu.resolve_left hn.2⟩ mon
  | spherical =>
    have hpt : ptS (rpS p) = p := ptS_rpS hty
    rw [← hpt] at hu hL ⊢
    exact (sph_recode m g cp params hcm).fit_eq (c := ⟨sp, tp, impl, nIter⟩)
      (sph_closed g hmw cp params _ ss (fun _ => hsp) fun _ => htp) hne
      (fun _ => hsp) (r := rpS p)
      ⟨DiagPoint.valid h _, DiagPoint.likelihoods (p := ptS (rpS p)) h hL,
        fun hn => hu.resolve_left hn.2⟩ mon

end Verif
