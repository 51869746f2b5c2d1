import Verif.Proofs.GmmObjectFit

/-!
# C74: `fit` of a `GMMHMM` object
-/

set_option autoImplicit false

namespace Verif
open FloatLike XF Hmmc Spec
open scoped Classical

variable {G V : Type} {R : RandomLib XF G} {nm nf : ℕ} [NeZero nm]

theorem gmm_b_pos' {nc : ℕ} {C : Type} {kd : Gmm.Kind XF nc nm nf C} {Rk : Gmm.RKind kd V} {m : GmmPoint nc nm nf V}
    (hw : ∀ i k, 0 < m.w i k) (o : Fin nf → ℝ) (i : Fin nc) : 0 < m.b Rk.dens o i :=
  Finset.sum_pos (fun k _ => mul_pos (hw i k) (Rk.dens_pos _ _ _ _ _)) ⟨0, Finset.mem_univ _⟩

/-- `fit` from the parts. -/
theorem gmm_fit {T : GmmType XF nm} {w : World XF G (GmmAttrs XF)} {K : GmmForm w.est.nComponents nm nf V}
    {kd : Gmm.Kind XF w.est.nComponents nm nf (T.C w.est.nComponents nf)} {Rk : Gmm.RKind kd V} (L : GmmLink T K Rk)
    {impl : Impl} {ss : List (ObsSeq (Fin nf → ℝ))} {ls : Option (List Int)} (h : GmmCall K R impl w ss ls)
    (hreg : Gmm.Regular Rk w.est.params)
    (hnext : ∀ q S, PosLin S → Gmm.Live Rk q S → K.proper q.v → K.proper (Rk.vNext GmmPrior.flat w.est.params q S))
    {cond : V → Prop} (himp : ∀ q S, PosLin S → Gmm.Live Rk q S →
      ('c' ∈ w.est.params → cond (Rk.vNext GmmPrior.flat w.est.params q S)) → Gmm.Improves Rk w.est.params q S) :
    FitsGmm K (gmmSub T) R impl w ss ls cond := by
  haveI : NeZero w.est.nComponents := ⟨h.settings.nComponents⟩
  obtain ⟨rs, g, m, p, h1, h2, h3, h4, h5, h6⟩ := gmm_init L h
  refine ⟨m, h6, ?_⟩
  have hb : checkBase _ = .ok () := C30_valid ({ w.est with
    nFeatures := some nf, sub := p, randomState := rs
    startprob := some (vec m.π), transmat := some (mat m.A) } : Est XF G (GmmAttrs XF)) _ _ rfl rfl h6.chain.π_sum h6.chain.A_sum
  have hc : (gmmSub T).check ({ w.est with
      nFeatures := some nf, sub := p, randomState := rs
      startprob := some (vec m.π), transmat := some (mat m.A) } : Est XF G (GmmAttrs XF)) = (.ok (), { w.est with
      nFeatures := some nf, sub := p, randomState := rs
      startprob := some (vec m.π), transmat := some (mat m.A) }) := by
    rw [Sub.check_eq, hb]
    exact gmm_checkSub (e := { w.est with
      nFeatures := some nf, sub := p, randomState := rs
      startprob := some (vec m.π), transmat := some (mat m.A) }) L rfl h2 h3 h6.w_sum h4 h5 h6.proper
  rw [Sub.fit_eq (reals_array h.columns (samples_ne h.data)) ls h1 hc]
  refine (gmm_loop (e := { w.est with
      nFeatures := some nf, sub := p, randomState := rs
      startprob := some (vec m.π), transmat := some (mat m.A) }) L hreg hnext himp h.columns
    ⟨h.settings.1, h.settings.2, h.settings.3, h.settings.4, h.settings.5⟩ h2 ⟨⟨rfl, rfl, rfl, rfl⟩, h3, h4, h5⟩
    ⟨h6.chain.π_nonneg, h6.chain.A_nonneg, h6.chain.π_sum.le, fun i => (h6.chain.A_sum i).le⟩ h6.chain.π_sum
    h6.w_pos h6.w_sum h6.proper h.data h.lengths
    (dataLikelihood_pos_of_chain h6.chain.π_nonneg h6.chain.A_nonneg h6.chain.π_sum h6.chain.A_sum ?_ ss)
    (h.used m h6)).settings_of ⟨rfl, rfl, rfl, rfl, rfl, rfl, rfl, rfl, rfl⟩
  intro o i
  rw [L.dens]
  exact gmm_b_pos' h6.w_pos o i

theorem spherical_next {nc : ℕ} (hf : nf ≠ 0) (hn : nm ≤ nf) (ps : List Char) (q : Gmm.RGmm nc nm nf (Gmm.Mix ℝ nc nm))
    (S : Fin nc → ((Fin nf → ℝ) → ℝ) → ℝ) (hS : PosLin S) (hl : Gmm.Live Gmm.dSpherical q S) (h : ∀ i k, 0 ≤ q.v i k)
    (i : Fin nc) (k : Fin nm) : 0 ≤ (Gmm.dSpherical.vNext GmmPrior.flat ps q S) i k := by
  by_cases hc : 'c' ∈ ps
  · have h1 := (Gmm.split_posLin Gmm.dSpherical q hS i).nonneg k (Gmm.dist2 (q.mu i k)) fun x => Finset.sum_nonneg fun _ _ => sq_nonneg _
    have h2 : (0 : ℝ) < nf := by exact_mod_cast Nat.pos_of_ne_zero hf
    have h3 : (nm : ℝ) ≤ nf := by exact_mod_cast hn
    have h4 := mul_pos h2 (hl.count i k)
    rw [show Gmm.dSpherical.vNext GmmPrior.flat ps q S = Gmm.dSpherical.next _ _ _ _ _ q.v from if_pos hc]
    refine div_nonneg (a := _) (b := Gmm.sphDen nf _ _) ?_ (by rw [Gmm.sphDen_default]; linarith)
    have e : ∀ x : ℝ, 0 * x + 2 * 0 + Gmm.dSpherical.split q S i k (Gmm.dist2 (q.mu i k)) =
      Gmm.dSpherical.split q S i k (Gmm.dist2 (q.mu i k)) := fun x => by ring
    exact h1.trans_eq (e _).symm
  · simp only [Gmm.RKind.vNext, hc, if_false]; exact h i k

theorem diag_next {nc : ℕ} (ps : List Char) (q : Gmm.RGmm nc nm nf (Gmm.Means ℝ nc nm nf))
    (S : Fin nc → ((Fin nf → ℝ) → ℝ) → ℝ) (hS : PosLin S) (hl : Gmm.Live Gmm.dDiag q S) (h : ∀ i k l, 0 ≤ q.v i k l)
    (i : Fin nc) (k : Fin nm) (l : Fin nf) : 0 ≤ (Gmm.dDiag.vNext GmmPrior.flat ps q S) i k l := by
  by_cases hc : 'c' ∈ ps
  · have h1 := (Gmm.split_posLin Gmm.dDiag q hS i).nonneg k (fun x => (x l - q.mu i k l) ^ 2) fun x => sq_nonneg _
    rw [show Gmm.dDiag.vNext GmmPrior.flat ps q S = Gmm.dDiag.next _ _ _ _ _ q.v from if_pos hc]
    refine div_nonneg (a := _) (b := Gmm.diagDen _ _) ?_ (by rw [Gmm.diagDen_default]; exact (hl.count i k).le)
    have e : ∀ x : ℝ, 0 * x + 2 * 0 + Gmm.dDiag.split q S i k (fun x => (x l - q.mu i k l) ^ 2) =
      Gmm.dDiag.split q S i k (fun x => (x l - q.mu i k l) ^ 2) := fun x => by ring
    exact h1.trans_eq (e _).symm
  · simp only [Gmm.RKind.vNext, hc, if_false]; exact h i k l

variable {impl : Impl} {w : World XF G (GmmAttrs XF)} {ss : List (ObsSeq (Fin nf → ℝ))} {ls : Option (List Int)}

/-- **C74** `GMMHMM(covariance_type="spherical")` with at most as many mixture components as features (C46 says why).
The likelihood is known not to decrease when there are as many. -/
theorem C74_gmm_spherical (hn : nm ≤ nf) (h : GmmCall (gmmSphericalForm w.est.nComponents nm nf) R impl w ss ls) :
    FitsGmm (gmmSphericalForm w.est.nComponents nm nf) (gmmSub (nm := nm) gmmSpherical) R impl w ss ls fun _ => nm = nf := by
  haveI : NeZero w.est.nComponents := ⟨h.settings.nComponents⟩
  haveI : NeZero nf := ⟨h.columns⟩
  exact gmm_fit (link_spherical _ nm nf) h (Gmm.regular_spherical _ hn)
    (fun q S hS hl hv => spherical_next (nc := w.est.nComponents) h.columns hn w.est.params q S hS hl hv)
    fun q S hS hl hh => Gmm.improves_spherical _ hh q S hS hl

/-- **C74** `GMMHMM(covariance_type="diag")`. -/
theorem C74_gmm_diag (h : GmmCall (gmmDiagForm w.est.nComponents nm nf) R impl w ss ls) :
    FitsGmm (gmmDiagForm w.est.nComponents nm nf) (gmmSub (nm := nm) gmmDiag) R impl w ss ls fun _ => True :=
  haveI : NeZero w.est.nComponents := ⟨h.settings.nComponents⟩
  gmm_fit (link_diag _ nm nf) h (Gmm.regular_diag _)
    (fun q S hS hl hv => diag_next (nc := w.est.nComponents) w.est.params q S hS hl hv)
    fun q S hS hl _ => Gmm.improves_diag _ q S hS hl

/-- **C74** `GMMHMM(covariance_type="full")`. -/
theorem C74_gmm_full {eig : Eigvalsh XF} (he : EigvalshSpec eig)
    (h : GmmCall (gmmFullForm w.est.nComponents nm nf) R impl w ss ls) :
    FitsGmm (gmmFullForm w.est.nComponents nm nf) (gmmSub (nm := nm) (gmmFull eig)) R impl w ss ls
      fun v => ∀ i k, (v.S i k).PosDef :=
  haveI : NeZero w.est.nComponents := ⟨h.settings.nComponents⟩
  gmm_fit (link_full _ nm nf he) h (Gmm.regular_full _) (fun _ _ _ _ _ => trivial)
    fun q S hS hl hv => Gmm.improves_full _ q S hS hl hv

/-- **C74** `GMMHMM(covariance_type="tied")`. -/
theorem C74_gmm_tied {eig : Eigvalsh XF} (he : EigvalshSpec eig)
    (h : GmmCall (gmmTiedForm w.est.nComponents nm nf) R impl w ss ls) :
    FitsGmm (gmmTiedForm w.est.nComponents nm nf) (gmmSub (nm := nm) (gmmTied eig)) R impl w ss ls fun v => ∀ i, (v.S i).PosDef :=
  haveI : NeZero w.est.nComponents := ⟨h.settings.nComponents⟩
  gmm_fit (link_tied _ nm nf he) h (Gmm.regular_tied _) (fun _ _ _ _ _ => trivial)
    fun q S hS hl hv => Gmm.improves_tied _ q S hS hl hv

/-! ## Everything initialised from the data -/

theorem gmm_fresh_used {K : GmmForm w.est.nComponents nm nf V} (h : GmmFresh K.ty nm w ss ls)
    {m : GmmPoint w.est.nComponents nm nf V} (hm : StartsGmm K R w.est (samples ss) m) (hb : ∀ o i, 0 < m.b K.dens o i) :
    EveryStateUsed m.π m.A (m.b K.dens) ss ∧ UsedBeforeLast m.π m.A (m.b K.dens) ss := by
  haveI : NeZero w.est.nComponents := ⟨h.settings.nComponents⟩
  have h1 := hm.chain.startprob.draws (.inl (h.init _ (by simp)))
  have h2 := hm.chain.transmat.draws (.inl (h.init _ (by simp)))
  exact ⟨(everyStateUsed_of_pos (by rintro rfl; simpa using h.long) h1 h2 hb).1, usedBeforeLast_pos h1 h2 hb h.long⟩

theorem gmm_fresh_call (hR : PositiveDraws R) (hC : RealCentres R) (hN : RealNormals R) (hf : nf ≠ 0)
    {K : GmmForm w.est.nComponents nm nf V} (h : GmmFresh K.ty nm w ss ls)
    (hb : ∀ m : GmmPoint w.est.nComponents nm nf V, (∀ i k, 0 < m.w i k) → ∀ o i, 0 < m.b K.dens o i) :
    GmmCall K R .log w ss ls where
  draws := hR
  centres := hC
  normals := hN
  columns := hf
  settings := h.settings
  priors := h.priors
  params c hc := h.params ▸ hc
  given := ⟨⟨fun hn => absurd (.inl (h.init _ (by simp))) hn, fun hn => absurd (.inl (h.init _ (by simp))) hn⟩,
    fun hn => absurd (.inl (h.init _ (by simp))) hn, fun hn => absurd (.inl (h.init _ (by simp))) hn,
    fun hn => absurd (.inl (h.init _ (by simp))) hn⟩
  features := h.features
  data := by rintro rfl; simpa using h.long
  clusters := h.clusters
  two := samples_length_of_long h.long
  minCovar := h.minCovar
  lengths := h.lengths
  used m hm := (gmm_fresh_used h hm (hb m hm.w_pos)).1

theorem gmm_fresh_trained {S : Sub XF G (GmmAttrs XF)} {K : GmmForm w.est.nComponents nm nf V} (h : GmmFresh K.ty nm w ss ls)
    (hb : ∀ m : GmmPoint w.est.nComponents nm nf V, (∀ i k, 0 < m.w i k) → ∀ o i, 0 < m.b K.dens o i) {cond : V → Prop}
    (hfit : FitsGmm K S R .log w ss ls cond) : GmmTrained K S R w ss ls := by
  obtain ⟨m₀, h1, h2⟩ := hfit
  have hret := h2.returns.resolve_right (by simp)
  obtain ⟨n, m, -, -, -, h3, -, -, -, h4⟩ := h2.run
  exact ⟨hret, m n, h3, h4 hret ⟨by simp [h.params], (gmm_fresh_used h h1 (hb _ h1.w_pos)).2⟩⟩

section
variable (hR : PositiveDraws R) (hC : RealCentres R) (hN : RealNormals R) (hf : nf ≠ 0)
include hR hC hN hf

/-- **C74** `spherical`, everything initialised from the data. -/
theorem C74_gmm_spherical_fresh (hn : nm ≤ nf) (h : GmmFresh .spherical nm w ss ls) :
    GmmTrained (gmmSphericalForm w.est.nComponents nm nf) (gmmSub (nm := nm) gmmSpherical) R w ss ls :=
  have hb := fun m hw => gmm_b_pos' (Rk := Gmm.dSpherical (nc := w.est.nComponents) (nm := nm) (nf := nf)) (m := m) hw
  gmm_fresh_trained h hb (C74_gmm_spherical hn (gmm_fresh_call hR hC hN hf h hb))

/-- **C74** `diag`, everything initialised from the data. -/
theorem C74_gmm_diag_fresh (h : GmmFresh .diag nm w ss ls) :
    GmmTrained (gmmDiagForm w.est.nComponents nm nf) (gmmSub (nm := nm) gmmDiag) R w ss ls :=
  have hb := fun m hw => gmm_b_pos' (Rk := Gmm.dDiag (nc := w.est.nComponents) (nm := nm) (nf := nf)) (m := m) hw
  gmm_fresh_trained h hb (C74_gmm_diag (gmm_fresh_call hR hC hN hf h hb))

/-- **C74** `full`, everything initialised from the data. -/
theorem C74_gmm_full_fresh {eig : Eigvalsh XF} (he : EigvalshSpec eig) (h : GmmFresh .full nm w ss ls) :
    GmmTrained (gmmFullForm w.est.nComponents nm nf) (gmmSub (nm := nm) (gmmFull eig)) R w ss ls :=
  have hb := fun m hw => gmm_b_pos' (Rk := Gmm.dFull (nc := w.est.nComponents) (nm := nm) (nf := nf)) (m := m) hw
  gmm_fresh_trained h hb (C74_gmm_full he (gmm_fresh_call hR hC hN hf h hb))

/-- **C74** `tied`, everything initialised from the data. -/
theorem C74_gmm_tied_fresh {eig : Eigvalsh XF} (he : EigvalshSpec eig) (h : GmmFresh .tied nm w ss ls) :
    GmmTrained (gmmTiedForm w.est.nComponents nm nf) (gmmSub (nm := nm) (gmmTied eig)) R w ss ls :=
  have hb := fun m hw => gmm_b_pos' (Rk := Gmm.dTied (nc := w.est.nComponents) (nm := nm) (nf := nf)) (m := m) hw
  gmm_fresh_trained h hb (C74_gmm_tied he (gmm_fresh_call hR hC hN hf h hb))

end

end Verif
