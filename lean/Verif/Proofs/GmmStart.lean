import Verif.Spec.GmmFit
import Verif.Proofs.GaussStart
import Verif.Proofs.GmmFit
import Verif.Props.GmmObjects

/-!
# `_init` and `_check` of a `GMMHMM`
-/

set_option autoImplicit false

namespace Verif
open FloatLike XF Hmmc Spec
open scoped Classical

variable {G V : Type} {R : RandomLib XF G} {nc nm nf : ℕ}

/-! ## Hyper-parameters -/

theorem getD_reverse {l : List ℕ} {k : ℕ} (h : k < l.length) : l.reverse.getD k 0 = l.getD (l.length - 1 - k) 0 := by
  rw [getD_lt (by simpa using h), getD_lt (by omega), List.getElem_reverse]

theorem throughout_stretch {t t' : Tensor XF} {shape : List ℕ} {a : ℝ} (h : Throughout t shape a)
    (h' : IsBroadcast t shape t') {idx : List ℕ} (hi : InShape shape idx) : t'.data idx = fin a := by
  let r : List ℕ := List.ofFn fun k : Fin t.shape.length =>
    if t.shape.reverse.getD k 0 = 1 then 0 else idx.reverse.getD k 0
  have hr : r.length = t.shape.length := List.length_ofFn
  have hg : ∀ k < t.shape.length, r.getD k 0 = if t.shape.reverse.getD k 0 = 1 then 0 else idx.reverse.getD k 0 := by
    intro k hk
    rw [getD_lt (hr.symm ▸ hk)]
    exact List.getElem_ofFn _
  rw [h'.2 idx r.reverse hi.1 hi.2 (by simpa using hr) (by rw [List.reverse_reverse]; exact hg)]
  refine h.2 _ ⟨by simpa using hr, fun k hk => ?_⟩
  have e1 : r.reverse.getD k 0 = r.getD (t.shape.length - 1 - k) 0 := by
    rw [getD_reverse (hr.symm ▸ hk), hr]
  have e2 : t.shape.reverse.getD (t.shape.length - 1 - k) 0 = t.shape.getD k 0 := by
    rw [getD_reverse (by omega)]
    congr 1
    omega
  rw [e1, hg _ (by omega)]
  have hle := h.1.1
  have hb := h.1.2 (t.shape.length - 1 - k) (by omega)
  rw [e2] at hb ⊢
  split
  · next h1 => rw [h1]; exact Nat.one_pos
  · next h1 =>
    rw [hb.resolve_right h1]
    have hl := hi.1
    rw [getD_reverse (by omega), getD_reverse (by omega), hl]
    exact hi.2 _ (by omega)

theorem gmmPriorDefault_fin (ty : CovType) (nm : ℕ) : (gmmPriorDefault ty nm : XF) = fin (covPriorDefault ty nm) := by
  cases ty with
  | spherical =>
    simp only [gmmPriorDefault, covPriorDefault, ofNat'_def, fin_add, fin_neg]
    rw [fin_div _ _ (by norm_num)]
    simp
  | diag => simp only [gmmPriorDefault, covPriorDefault, ofRat_def]; norm_num
  | full => rfl
  | tied => rfl

theorem gmmWeightDefault_fin (ty : CovType) (nm nf : ℕ) :
    (gmmWeightDefault ty nm nf : XF) = fin (covWeightDefault ty nm nf) := by
  cases ty <;> simp only [gmmWeightDefault, covWeightDefault, ofNat'_def, fin_add, fin_neg, one_def, zero_def]

theorem throughout_scalar (shape : List ℕ) (a : ℝ) : Throughout (.scalar (fin a)) shape a :=
  ⟨⟨Nat.zero_le _, fun k hk => absurd hk (Nat.not_lt_zero k)⟩, fun _ _ => rfl⟩

/-- The hyper-parameters as the covariance update reads them. -/
structure FlatReads (ty : CovType) (nc nm nf : ℕ) (p : GmmAttrs XF) : Prop where
  weights : ∀ idx, InShape [nc, nm] idx → p.weightsPrior.data idx = fin 1
  means : ∀ idx, InShape [nc, nm, nf] idx → p.meansPrior.data idx = fin 0
  meansWeight : ∀ idx, InShape [nc, nm] idx → p.meansWeight.data idx = fin 0
  covars : ∃ t, p.covarsPrior = some t ∧ t.shape = gmmPriorShape ty nc nm nf ∧
    ∀ idx, InShape (gmmPriorShape ty nc nm nf) idx → t.data idx = fin (covPriorDefault ty nm)
  covarsWeight : ∃ t, p.covarsWeight = some t ∧ t.shape = gmmWeightShape ty nc nm nf ∧
    ∀ idx, InShape (gmmWeightShape ty nc nm nf) idx → t.data idx = fin (covWeightDefault ty nm nf)
  s1 : p.weightsPrior.shape = [nc, nm]
  s2 : p.meansPrior.shape = [nc, nm, nf]
  s3 : p.meansWeight.shape = [nc, nm]
  floats : p.meansInt = false ∧ p.covarsInt = false

theorem Spec.DefaultPriors.fit {ty : CovType} {p : GmmAttrs XF} (h : DefaultPriors ty nc nm nf p) :
    PriorsFit ty nc nm nf p := by
  refine ⟨h.weights.1, h.means.1, h.meansWeight.1, ?_, ?_⟩
  · cases hc : p.covarsPrior with
    | none => exact (throughout_scalar _ 0).1
    | some t => exact (h.covars t hc).1
  · cases hc : p.covarsWeight with
    | none => exact (throughout_scalar _ 0).1
    | some t => exact (h.covarsWeight t hc).1

theorem Spec.DefaultPriors.reads {ty : CovType} {p p' : GmmAttrs XF} (h : DefaultPriors ty nc nm nf p)
    (h' : PriorsStretched ty nc nm nf p p')
    (hi : p'.meansInt = p.meansInt ∧ p'.covarsInt = p.covarsInt) : FlatReads ty nc nm nf p' := by
  obtain ⟨h1, h2, h3, ⟨t4, e4, h4⟩, ⟨t5, e5, h5⟩⟩ := h'
  refine ⟨fun idx => throughout_stretch h.weights h1, fun idx => throughout_stretch h.means h2,
    fun idx => throughout_stretch h.meansWeight h3, ⟨t4, e4, h4.1, fun idx => throughout_stretch ?_ h4⟩,
    ⟨t5, e5, h5.1, fun idx => throughout_stretch ?_ h5⟩, h1.1, h2.1, h3.1,
    hi.1.trans h.floats.1, hi.2.trans h.floats.2⟩
  · cases hc : p.covarsPrior with
    | none => rw [Option.getD_none, gmmPriorDefault_fin]; exact throughout_scalar _ _
    | some t => exact h.covars t hc
  · cases hc : p.covarsWeight with
    | none => rw [Option.getD_none, gmmWeightDefault_fin]; exact throughout_scalar _ _
    | some t => exact h.covarsWeight t hc

theorem gmmSet_floats {T : GmmType XF nm} {X : XArr XF} {v : Fin nc → Fin nm → Fin X.d → XF} {ip : List Char}
    {p : GmmAttrs XF} (h : p.covarsInt = false) : (gmmSet T X v ip p).covarsInt = false := by
  show (if _ then false else p.covarsInt) = false
  rw [h, ite_self]

/-- Arrays that have their shapes are left alone. -/
theorem FlatReads.fixed {T : GmmType XF nm} (hT : T.Tables) {p : GmmAttrs XF} (h : FlatReads T.ty nc nm nf p) :
    gmmPriors T nc nf p = (.ok (), p) := by
  obtain ⟨t4, e4, s4, -⟩ := h.covars
  obtain ⟨t5, e5, s5, -⟩ := h.covarsWeight
  obtain ⟨mc, wp, mp, mw, cp, cw, w, m, c, mi, ci⟩ := p
  dsimp only at e4 e5
  subst e4 e5
  have h1 := Tensor.broadcastTo_self h.s1
  have h2 := Tensor.broadcastTo_self h.s2
  have h3 := Tensor.broadcastTo_self h.s3
  have h4 := Tensor.broadcastTo_self s4
  have h5 := Tensor.broadcastTo_self s5
  dsimp only at h1 h2 h3
  simp only [gmmPriors, gmmInitPriors, gmmFixPriors, fixOne, Py.bind_apply, Option.getD_some, hT.priorShape, hT.weightShape,
    h1, h2, h3, h4, h5]

theorem inShape2 (i : Fin nc) (k : Fin nm) : InShape [nc, nm] [i, k] := by
  refine ⟨rfl, fun j hj => ?_⟩
  rcases j with _ | _ | j
  · exact i.2
  · exact k.2
  · simp at hj

theorem inShape3 (i : Fin nc) (k : Fin nm) (l : Fin nf) : InShape [nc, nm, nf] [i, k, l] := by
  refine ⟨rfl, fun j hj => ?_⟩
  rcases j with _ | _ | _ | j
  · exact i.2
  · exact k.2
  · exact l.2
  · simp at hj; omega

theorem inShape4 {no : ℕ} (i : Fin nc) (k : Fin nm) (l : Fin nf) (o : Fin no) : InShape [nc, nm, nf, no] [i, k, l, o] := by
  refine ⟨rfl, fun j hj => ?_⟩
  rcases j with _ | _ | _ | _ | j
  · exact i.2
  · exact k.2
  · exact l.2
  · exact o.2
  · simp at hj; omega

theorem inShape1 (i : Fin nc) : InShape [nc] [i] := by
  refine ⟨rfl, fun j hj => ?_⟩
  rcases j with _ | j
  · exact i.2
  · simp at hj

/-! ## The covariance types -/

/-- How the code of a covariance type and its description belong together. -/
structure GmmLink (T : GmmType XF nm) (K : GmmForm nc nm nf V) {kd : Gmm.Kind XF nc nm nf (T.C nc nf)}
    (Rk : Gmm.RKind kd V) : Prop where
  ty : T.ty = K.ty
  checks : T.Checks
  kind_eq : ∀ P W : Tensor XF,
    (∀ idx, InShape (gmmPriorShape T.ty nc nm nf) idx → P.data idx = fin (covPriorDefault T.ty nm)) →
    (∀ idx, InShape (gmmWeightShape T.ty nc nm nf) idx → W.data idx = fin (covWeightDefault T.ty nm nf)) →
    T.kind nc nf P W = kd
  read : ∀ v t, K.stored v t → t.shape = T.shape nc nf ∧ T.read nc nf t = Rk.embed v
  write : ∀ v, K.stored v (T.write (Rk.embed v))
  valid : ∀ v, K.proper v → T.valid nc nf (Rk.embed v) = true
  dens : K.dens = Rk.dens
  init : nf ≠ 0 → ∀ M : Matrix (Fin nf) (Fin nf) ℝ, M.PosDef → ∃ v, K.proper v ∧ K.template M v ∧
    K.stored v (T.init nc fun k j => fin (M k j))

theorem is2_of2 (v : Fin nc → Fin nm → ℝ) : Is2 (.of2 fun i k => fin (v i k)) v := by
  refine ⟨rfl, fun i k => ?_⟩
  simp [Tensor.of2]

theorem is3_of3 (v : Fin nc → Fin nm → Fin nf → ℝ) : Is3 (.of3 fun i k l => fin (v i k l)) v := by
  refine ⟨rfl, fun i k l => ?_⟩
  simp [Tensor.of3]

theorem is4_of4 {no : ℕ} (v : Fin nc → Fin nm → Fin nf → Fin no → ℝ) : Is4 (.of4 fun i k l o => fin (v i k l o)) v := by
  refine ⟨rfl, fun i k l o => ?_⟩
  simp [Tensor.of4]

section
variable (nc nm nf)

theorem link_spherical : GmmLink gmmSpherical (gmmSphericalForm nc nm nf) (Gmm.dSpherical (nc := nc) (nm := nm) (nf := nf)) where
  ty := rfl
  checks := gmmSpherical_checks
  kind_eq P W hP hW := by
    show Gmm.spherical (P.at2 nc nm) (W.at2 nc nm) = _
    have e1 : P.at2 nc nm = fun _ _ => fin (-((nm : ℝ) + 2) / 2) := funext fun i => funext fun k => hP _ (inShape2 i k)
    have e2 : W.at2 nc nm = fun _ _ => fin 0 := funext fun i => funext fun k => hW _ (inShape2 i k)
    rw [e1, e2]
  read v t h := ⟨h.1, funext fun i => funext fun k => h.2 i k⟩
  write v := is2_of2 v
  valid v h := (noneNeg_fin v).2 h
  dens := rfl
  init hf M hM := by
    refine ⟨fun _ _ => (∑ a, ∑ b, M a b) / (nf * nf), fun i k => (div_pos (sum_pos_of_pd hf hM) ?_).le, fun _ _ => rfl, ?_⟩
    · have : 0 < nf := Nat.pos_of_ne_zero hf
      positivity
    · show Is2 (Tensor.of2 _) _
      simp only [meanAll_fin hf]
      exact is2_of2 _

theorem link_diag : GmmLink gmmDiag (gmmDiagForm nc nm nf) (Gmm.dDiag (nc := nc) (nm := nm) (nf := nf)) where
  ty := rfl
  checks := gmmDiag_checks
  kind_eq P W hP hW := by
    show Gmm.diag (P.at3 nc nm nf) (W.at3 nc nm nf) = _
    have e1 : P.at3 nc nm nf = fun _ _ _ => fin (-3 / 2) :=
      funext fun i => funext fun k => funext fun l => hP _ (inShape3 i k l)
    have e2 : W.at3 nc nm nf = fun _ _ _ => fin 0 := funext fun i => funext fun k => funext fun l => hW _ (inShape3 i k l)
    rw [e1, e2]
  read v t h := ⟨h.1, funext fun i => funext fun k => funext fun l => h.2 i k l⟩
  write v := is3_of3 v
  valid v h := by
    show (((List.finRange nc).all fun i => noneNeg fun (k : Fin nm) (j : Fin nf) => fin (v i k j)) = true)
    simp only [List.all_eq_true, List.mem_finRange, true_imp_iff, noneNeg_fin]
    exact h
  dens := rfl
  init hf M hM := ⟨fun _ _ l => M l l, fun i k l => hM.diag_pos.le, fun _ _ _ => rfl, is3_of3 _⟩

theorem psd_valid {n : ℕ} {S : Matrix (Fin n) (Fin n) ℝ} (h : S.PosSemidef) :
    NearlySymmetric S ∧ (symLower S).PosSemidef := by
  have hs : S.IsSymm := by
    have := h.1
    rwa [Matrix.IsHermitian, Matrix.conjTranspose_eq_transpose_of_trivial] at this
  exact ⟨nearlySymmetric_of hs, by rw [symLower_eq hs]; exact h⟩

theorem link_full {eig : Eigvalsh XF} (he : EigvalshSpec eig) :
    GmmLink (gmmFull eig) (gmmFullForm nc nm nf) (Gmm.dFull (nc := nc) (nm := nm) (nf := nf)) where
  ty := rfl
  checks := gmmFull_checks he
  kind_eq P W hP hW := by
    show Gmm.full (P.at4 nc nm nf nf) (W.at2 nc nm) = _
    have e1 : P.at4 nc nm nf nf = fun _ _ l m => fin ((0 : Matrix (Fin nf) (Fin nf) ℝ) l m) :=
      funext fun i => funext fun k => funext fun l => funext fun o => hP _ (inShape4 i k l o)
    have e2 : W.at2 nc nm = fun _ _ => fin (-(1 + (nf : ℝ) + 1)) := funext fun i => funext fun k => hW _ (inShape2 i k)
    rw [e1, e2]
  read v t h := ⟨h.1, funext fun i => funext fun k => funext fun l => funext fun o => h.2 i k l o⟩
  write v := is4_of4 v.S
  valid v h := by
    show (((List.finRange nc).all fun i => (List.finRange nm).all fun k =>
      symPsd eig fun (a b : Fin nf) => fin (v.S i k a b)) = true)
    simp only [List.all_eq_true, List.mem_finRange, true_imp_iff]
    exact fun i k => (symPsd_fin he (v.S i k)).2 (psd_valid (v.psd i k))
  dens := rfl
  init hf M hM := ⟨⟨fun _ _ => M, fun _ _ => hM.posSemidef⟩, trivial, fun _ _ => rfl, is4_of4 fun _ _ => M⟩

theorem link_tied {eig : Eigvalsh XF} (he : EigvalshSpec eig) :
    GmmLink (gmmTied (nm := nm) eig) (gmmTiedForm nc nm nf) (Gmm.dTied (nc := nc) (nm := nm) (nf := nf)) where
  ty := rfl
  checks := gmmTied_checks he
  kind_eq P W hP hW := by
    show Gmm.tied (P.at3 nc nf nf) (fun i : Fin nc => W.data [i]) = _
    have e1 : P.at3 nc nf nf = fun _ l m => fin ((0 : Matrix (Fin nf) (Fin nf) ℝ) l m) :=
      funext fun i => funext fun k => funext fun l => hP _ (inShape3 i k l)
    have e2 : (fun i : Fin nc => W.data [i]) = fun _ => fin (-((nm : ℝ) + nf + 1)) := funext fun i => hW _ (inShape1 i)
    rw [e1, e2]
  read v t h := ⟨h.1, funext fun i => funext fun k => funext fun l => h.2 i k l⟩
  write v := is3_of3 v.S
  valid v h := by
    show (((List.finRange nc).all fun i => symPsd eig fun (a b : Fin nf) => fin (v.S i a b)) = true)
    simp only [List.all_eq_true, List.mem_finRange, true_imp_iff]
    exact fun i => (symPsd_fin he (v.S i)).2 (psd_valid (v.psd i))
  dens := rfl
  init hf M hM := ⟨⟨fun _ => M, fun _ => hM.posSemidef⟩, trivial, fun _ => rfl, is3_of3 fun _ => M⟩

end

/-! ## `_init` -/

/-- The label of a sample. -/
theorem nearest_iff {c : Fin nc → Fin nf → ℝ} {x : Fin nf → ℝ} (i : Fin nc) :
    nearest (fun i k => fin (c i k)) (Gaussian.row x) = i.val ↔
      ∀ j, sqDist x (c i) ≤ sqDist x (c j) ∧ (j < i → sqDist x (c i) < sqDist x (c j)) := by
  cases nc with
  | zero => exact i.elim0
  | succ n =>
    obtain ⟨i0, h1, h2, h3⟩ := C25_gmm_label c x
    rw [show nearest (fun i k => fin (c i k)) (Gaussian.row x) = i0.val from h1]
    constructor
    · intro h
      obtain rfl : i0 = i := Fin.ext h
      exact fun j => ⟨h2 j, h3 j⟩
    · intro h
      congr 1
      rcases lt_trichotomy i0 i with hlt | heq | hgt
      · exact absurd ((h i0).2 hlt) (not_lt.2 (h2 i))
      · exact heq
      · exact absurd (h3 i hgt) (not_lt.2 (h i0).1)

theorem cluster_fin (c : Fin nc → Fin nf → ℝ) (i : Fin nc) (l : List (Fin nf → ℝ)) :
    ((l.map Gaussian.row).filter fun x => nearest (fun i k => fin (c i k)) x == i.val) =
      (clusterOf c i l).map Gaussian.row := by
  rw [List.filter_map, clusterOf]
  congr 1
  refine List.filter_congr fun x _ => ?_
  rw [Bool.eq_iff_iff]
  simp only [Function.comp, beq_iff_eq, decide_eq_true_eq]
  exact nearest_iff i

/-- The means of one state. -/
theorem gmmBlock_real (hC : RealCentres R) (hN : RealNormals R) (h0 : nc ≠ 0) {l : List (Fin nf → ℝ)} (hl : 2 ≤ l.length)
    {mc : ℝ} (hmc : 0 < mc) (c : Fin nc → Fin nf → ℝ) (gs gg : G) (i : Fin nc) :
    ∃ mu : Fin nm → Fin nf → ℝ, gmmBlock R nm (fin mc) (l.map Gaussian.row) (fun i k => fin (c i k)) gs gg i =
      (fun j k => fin (mu j k)) ∧ StateMeans R mc l c i mu := by
  have hne : l ≠ [] := by rintro rfl; simp at hl
  unfold gmmBlock StateMeans
  simp only [cluster_fin, List.length_map]
  by_cases h : nm ≤ (clusterOf c i l).length
  · simp only [if_neg (not_lt.2 h), if_pos h]
    obtain ⟨mu, hmu⟩ := hC nm (clusterOf c i l) gs
    exact ⟨mu, hmu, gs, hmu⟩
  · simp only [if_pos (not_le.1 h), if_neg h]
    rw [initCov_fin hl mc]
    have hm : (fun k => meanL ((List.finRange nc).map fun j => fin (c j k))) = fun k => fin ((∑ i, c i k) / nc) := by
      funext k
      have : (List.finRange nc).map (fun j => fin (c j k)) = ((List.finRange nc).map fun j => c j k).map fin := by
        simp [Function.comp_def]
      rw [this, meanL_fin (by simpa using h0), List.length_map, List.length_finRange]
      rfl
    rw [hm]
    obtain ⟨mu, h1, h2⟩ := drawMany_real (R.normal (fun k => fin ((∑ i, c i k) / nc)) fun a b => fin (templateCov mc l a b))
      (fun (x : Fin nf → ℝ) k => fin (x k)) (fun x => ∃ g, (R.normal (fun k => fin ((∑ i, c i k) / nc))
        (fun a b => fin (templateCov mc l a b)) g).1 = fun k => fin (x k))
      (fun g => by
        obtain ⟨x, hx⟩ := hN (fun k => (∑ i, c i k) / nc) (templateCov mc l) g (templateCov_pd hmc hne)
        exact ⟨x, ⟨g, hx⟩, hx⟩) nm gg
    exact ⟨mu, h2, h1⟩

variable [NeZero nm]

/-- `_init` of a `GMMHMM`. -/
theorem gmm_init {T : GmmType XF nm} {w : World XF G (GmmAttrs XF)} {K : GmmForm w.est.nComponents nm nf V}
    {kd : Gmm.Kind XF w.est.nComponents nm nf (T.C w.est.nComponents nf)} {Rk : Gmm.RKind kd V} (L : GmmLink T K Rk)
    {impl : Impl} {ss : List (ObsSeq (Fin nf → ℝ))} {ls : Option (List Int)} (h : GmmCall K R impl w ss ls) :
    ∃ (rs : RandomState G) (g : G) (m : GmmPoint w.est.nComponents nm nf V) (p : GmmAttrs XF),
      (gmmSub T).init R (.floats ((samples ss).map Gaussian.row)) w = (.ok (), ⟨{ w.est with
        nFeatures := some nf, sub := p, randomState := rs
        startprob := some (vec m.π), transmat := some (mat m.A) }, g⟩) ∧
      FlatReads T.ty w.est.nComponents nm nf p ∧ (∃ t, p.weights = some t ∧ Is2 t m.w) ∧
      (∃ t, p.means = some t ∧ Is3 t m.mu) ∧ (∃ t, p.covars = some t ∧ K.stored m.v t) ∧
      StartsGmm K R w.est (samples ss) m := by
  obtain ⟨mc, hmc, hmc'⟩ := h.minCovar
  have h0 := h.settings.nComponents
  have htwo := h.two
  have hclu := h.clusters
  generalize samples ss = l at *
  have hc : (gmmSub T).checkFeatures (.floats (l.map Gaussian.row)) w.est =
      (.ok (), { w.est with nFeatures := some nf, sub := w.est.sub }) := by
    rw [show (gmmSub (G := G) T).checkFeatures = checkFeaturesBase from rfl]
    have hd : (XArr.floats (l.map Gaussian.row) : XArr XF).d = nf := rfl
    unfold checkFeaturesBase
    rcases h.features with h | h
    · simp only [h, hd, ne_eq, not_true_eq_false, if_false]
      congr 1
      rw [← h]
    · simp only [h, hd]
  obtain ⟨rs, g, π, A, h1, h2⟩ := initBase_starts h.draws hc h0 h.given.chain ['s', 't', 'm', 'c', 'w'] (fun _ => rfl) h.params
  have hpf : PriorsFit T.ty w.est.nComponents nm nf w.est.sub := L.ty ▸ h.priors.fit
  have hp := (C70_priors L.checks.tables w.est.nComponents nf w.est.sub).1 hpf
  have hfr := gmmPriors_means T w.est.nComponents nf w.est.sub
  have hflat : FlatReads T.ty w.est.nComponents nm nf (gmmPriors T w.est.nComponents nf w.est.sub).2 :=
    L.ty ▸ h.priors.reads (L.ty ▸ hp.2) (gmmPriors_ints T _ _ _)
  rcases gmmInit_cases (R := R) T (.floats (l.map Gaussian.row)) ⟨{ w.est with nFeatures := some nf, sub := w.est.sub, randomState := rs, startprob := some (vec π), transmat := some (mat A) }, g⟩ with
    ⟨err, herr, -⟩ | ⟨gs, gg, rs', g', h3, -, -⟩
  · exfalso
    rcases herr with herr | herr
    · have : (gmmPriors T w.est.nComponents nf w.est.sub).1 = .error err := herr
      rw [hp.1] at this; cases this
    · simp [XArr.n] at herr
      omega
  generalize hg0 : selfGen R _ = g0 at h3
  obtain ⟨c, hcs⟩ := h.centres w.est.nComponents l g0
  have hb : ∀ i : Fin w.est.nComponents, ∃ mu : Fin nm → Fin nf → ℝ,
      gmmBlock R nm (fin mc) (l.map Gaussian.row) (fun i k => fin (c i k)) (gs i) (gg i) i =
        (fun j k => fin (mu j k)) ∧ StateMeans R mc l c i mu := fun i =>
    gmmBlock_real h.centres h.normals h0 htwo hmc c (gs i) (gg i) i
  choose mu₁ hmu₁ hmu₂ using hb
  have hcs' : (R.kmeans w.est.nComponents (l.map Gaussian.row) g0).1 = fun i k => fin (c i k) := hcs
  have hmeans : (fun i : Fin w.est.nComponents => gmmBlock R nm w.est.sub.minCovar (l.map Gaussian.row)
      (R.kmeans w.est.nComponents (l.map Gaussian.row) g0).1 (gs i) (gg i) i) = fun i j k => fin (mu₁ i j k) := by
    rw [hcs', hmc']
    exact funext hmu₁
  generalize hp' : (gmmPriors T w.est.nComponents nf w.est.sub).2 = p' at *
  obtain ⟨hf1, hf2, hf3, hf4⟩ := hfr
  have hinit : (gmmSub T).init R (.floats (l.map Gaussian.row)) w = (.ok (), ⟨{ w.est with
      nFeatures := some nf, randomState := rs'
      sub := gmmSet T (.floats (l.map Gaussian.row)) (fun (i : Fin w.est.nComponents) j k => fin (mu₁ i j k)) w.est.initParams p'
      startprob := some (vec π), transmat := some (mat A) }, g'⟩) := by
    refine (Py.bind_ok h1).trans ?_
    have := congrArg (fun v => ((Except.ok () : Except PyErr Unit), (⟨{ w.est with nFeatures := some nf, sub := gmmSet T (.floats (l.map Gaussian.row)) v w.est.initParams p', randomState := rs', startprob := some (vec π), transmat := some (mat A) }, g'⟩ : World XF G (GmmAttrs XF)))) hmeans
    refine Eq.trans ?_ this
    rw [← hp']
    exact h3
  obtain ⟨wt, hw1, hw2, hw3, hw4, hw5⟩ : ∃ wt : Fin w.est.nComponents → Fin nm → ℝ,
      (∃ t, (gmmSet T (.floats (l.map Gaussian.row)) (fun (i : Fin w.est.nComponents) j k => fin (mu₁ i j k)) w.est.initParams p').weights = some t ∧ Is2 t wt) ∧
      (∀ i k, 0 < wt i k) ∧ (∀ i, ∑ k, wt i k = 1) ∧
      (¬ Fresh w.est 'w' w.est.sub.weights → ∃ t, w.est.sub.weights = some t ∧ Is2 t wt) ∧
      (Fresh w.est 'w' w.est.sub.weights → ∀ i k, wt i k = 1 / nm) := by
    have hnm : (nm : ℝ) ≠ 0 := Nat.cast_ne_zero.2 (NeZero.ne nm)
    simp only [gmmSet, hf2, needsInit_iff]
    by_cases hq : Fresh w.est 'w' w.est.sub.weights
    · refine ⟨fun _ _ => 1 / nm, ⟨_, if_pos hq, ?_⟩, fun _ _ => ?_, fun _ => ?_, fun h => absurd hq h, fun _ _ _ => rfl⟩
      · rw [show (1 : XF) / ofNat' nm = fin (1 / nm) by rw [ofNat'_def, one_def, fin_div _ _ hnm]]
        exact is2_of2 _
      · have : (0 : ℝ) < nm := Nat.cast_pos.2 (Nat.pos_of_ne_zero (NeZero.ne nm))
        positivity
      · rw [Finset.sum_const, Finset.card_univ, Fintype.card_fin, nsmul_eq_mul]
        field_simp
    · obtain ⟨t, v, e1, e2, e3, e4⟩ := h.given.weights hq
      exact ⟨v, ⟨t, by rw [if_neg hq, e1], e2⟩, e3, e4, fun _ => ⟨t, e1, e2⟩, fun h => absurd h hq⟩
  obtain ⟨mu, hm1, hm2, hm3⟩ : ∃ mu : Fin w.est.nComponents → Fin nm → Fin nf → ℝ,
      (∃ t, (gmmSet T (.floats (l.map Gaussian.row)) (fun (i : Fin w.est.nComponents) j k => fin (mu₁ i j k)) w.est.initParams p').means = some t ∧ Is3 t mu) ∧
      (¬ Fresh w.est 'm' w.est.sub.means → ∃ t, w.est.sub.means = some t ∧ Is3 t mu) ∧
      (Fresh w.est 'm' w.est.sub.means → mu = mu₁) := by
    simp only [gmmSet, hf1, needsInit_iff]
    by_cases hq : Fresh w.est 'm' w.est.sub.means
    · exact ⟨mu₁, ⟨_, if_pos hq, is3_of3 mu₁⟩, fun h => absurd hq h, fun _ => rfl⟩
    · obtain ⟨t, v, e1, e2⟩ := h.given.means hq
      exact ⟨v, ⟨t, by rw [if_neg hq, e1], e2⟩, fun _ => ⟨t, e1, e2⟩, fun h => absurd h hq⟩
  obtain ⟨v, hv1, hv2, hv3, hv4⟩ : ∃ v : V,
      (∃ t, (gmmSet T (.floats (l.map Gaussian.row)) (fun (i : Fin w.est.nComponents) j k => fin (mu₁ i j k)) w.est.initParams p').covars = some t ∧ K.stored v t) ∧
      K.proper v ∧ (¬ Fresh w.est 'c' w.est.sub.covars → ∃ t, w.est.sub.covars = some t ∧ K.stored v t) ∧
      (Fresh w.est 'c' w.est.sub.covars → K.template (templateCov mc l) v) := by
    have hne : l ≠ [] := by rintro rfl; simp at htwo
    simp only [gmmSet, hf3, hf4, hmc', needsInit_iff]
    by_cases hq : Fresh w.est 'c' w.est.sub.covars
    · obtain ⟨v, e1, e2, e3⟩ := L.init h.columns (templateCov mc l) (templateCov_pd hmc hne)
      refine ⟨v, ⟨_, if_pos hq, ?_⟩, e1, fun h => absurd hq h, fun _ => e2⟩
      have := initCov_fin htwo mc
      simp only [XArr.floatRows]
      exact this ▸ e3
    · obtain ⟨t, v, e1, e2, e3⟩ := h.given.covars hq
      exact ⟨v, ⟨t, by rw [if_neg hq, e1], e2⟩, e3, fun _ => ⟨t, e1, e2⟩, fun h => absurd h hq⟩
  refine ⟨rs', g', ⟨π, A, wt, mu, v⟩, _, hinit, ?_, hw1, hm1, hv1, ?_⟩
  · exact ⟨hflat.weights, hflat.means, hflat.meansWeight, hflat.covars, hflat.covarsWeight, hflat.s1, hflat.s2, hflat.s3,
      hflat.floats.1, gmmSet_floats hflat.floats.2⟩
  · exact ⟨h2, hw2, hw3, hv2, hw4, hw5, hm2, fun hq => ⟨mc, c, hmc', ⟨g0, hcs⟩, fun i => by rw [hm3 hq]; exact hmu₂ i⟩,
      hv3, fun hq => ⟨mc, hmc', hv4 hq⟩⟩

end Verif
