import Verif.Spec.IntData
import Verif.Model.GmmEstimator
import Verif.Num.XFLemmas
import Verif.Model.VGaussEstimator
/-
C99: integers as observations of the classes for real data.
-/
set_option autoImplicit false

namespace Verif
open FloatLike XF Spec

variable {G P Q : Type} {R : RandomLib XF G} {nf : ℕ}

/-- The rows of an integer array in floating point. -/
noncomputable def toFloats {d : ℕ} (rows : List (Fin d → ℤ)) : List (Fin d → XF) := rows.map fun r j => ofInt' (r j)

theorem checkArray_ints_reals (l : List (Fin nf → ℤ)) :
    (∃ e, checkArray (intsX l) = .error e ∧ checkArray (realsX (asReals l)) = .error e) ∨
    (checkArray (intsX l) = .ok (.ints l) ∧ checkArray (realsX (asReals l)) = .ok (.floats (toFloats l))) := by
  have hn : (asReals l).length = l.length := List.length_map _
  by_cases h : l.length = 0 ∨ nf = 0
  · refine .inl ⟨_, if_pos h, ?_⟩
    exact if_pos (by rw [hn]; exact h)
  · refine .inr ⟨?_, ?_⟩
    · refine (if_neg h).trans ?_
      rw [show (fun t k => l.get t k) = l.get from rfl, List.ofFn_get]
    · refine (if_neg (by rw [hn]; exact h)).trans ?_
      rw [if_pos]
      · congr 2
        have : (List.ofFn fun t k => fin ((asReals l).get t k)) = (asReals l).map fun x k => fin (x k) := by
          conv_rhs => rw [← List.ofFn_get (asReals l), List.map_ofFn]
          rfl
        rw [this]
        unfold asReals toFloats
        rw [List.map_map]
        refine List.map_congr_left fun x _ => ?_
        funext k
        exact (ofInt'_def _).symm
      · simp only [List.all_eq_true]
        intros; rfl

/-- What a class uses of an array `X`. -/
structure Sub.ReadsAsFloats (S : Sub XF G P) (R : RandomLib XF G) : Prop where
  features : ∀ {d : ℕ} (l : List (Fin d → ℤ)), S.checkFeatures (.ints l) = S.checkFeatures (.floats (toFloats l))
  init : ∀ {d : ℕ} (l : List (Fin d → ℤ)), S.initSub R (.ints l) = S.initSub R (.floats (toFloats l))
  rows : ∀ {d : ℕ} (l : List (Fin d → ℤ)) (nf : ℕ), S.rows nf (.ints l) = S.rows nf (.floats (toFloats l))

theorem n_floats {d : ℕ} (l : List (Fin d → ℤ)) : (XArr.floats (toFloats l)).n = (XArr.ints (α := XF) l).n := List.length_map _

theorem withModel_ints {S : Sub XF G P} {d : ℕ} {l : List (Fin d → ℤ)}
    (h : ∀ nf, S.rows nf (.ints l) = S.rows nf (.floats (toFloats l))) {β : Type} (e : Est XF G P) (impl : Impl)
    (ls : Option (List Int)) (k : {nc : Nat} → {Obs : Type} → [NeZero nc] → Hmm XF nc Obs → List Obs → Except PyErr β) :
    S.withModel e impl (.ints l) ls k = S.withModel e impl (.floats (toFloats l)) ls k := by
  unfold Sub.withModel
  simp only [h, n_floats]

theorem scoreBody_ints {S : Sub XF G P} 
    (h : ∀ {d : ℕ} (l : List (Fin d → ℤ)) (nf : ℕ), S.rows nf (.ints l) = S.rows nf (.floats (toFloats l)))
    (l : List (Fin nf → ℤ)) (ls : Option (List Int)) (b : Bool) :
    S.scoreBody (intsX l) ls b = S.scoreBody (realsX (asReals l)) ls b := by
  unfold Sub.scoreBody
  rcases checkArray_ints_reals l with ⟨e, h1, h2⟩ | ⟨h1, h2⟩
  · rw [h1, h2]
  · rw [h1, h2]
    funext w
    exact congrArg (fun f => (Py.lift (implOf w.implementation) >>= f) w)
      (funext fun impl => congrArg Py.lift (withModel_ints (h l) w impl ls _))

theorem decodeBody_ints {S : Sub XF G P} 
    (h : ∀ {d : ℕ} (l : List (Fin d → ℤ)) (nf : ℕ), S.rows nf (.ints l) = S.rows nf (.floats (toFloats l)))
    (l : List (Fin nf → ℤ)) (ls : Option (List Int)) (alg : Option String) :
    S.decodeBody (intsX l) ls alg = S.decodeBody (realsX (asReals l)) ls alg := by
  unfold Sub.decodeBody
  rcases checkArray_ints_reals l with ⟨e, h1, h2⟩ | ⟨h1, h2⟩
  · rw [h1, h2]
  · rw [h1, h2]
    funext w
    refine congrArg (fun f => (Py.lift (algOf (pyOr alg w.algorithm)) >>= f) w) (funext fun a => ?_)
    cases a with
    | viterbi => exact congrArg Py.lift (withModel_ints (h l) w .log ls _)
    | map =>
      show (match implOf w.implementation with | .error err => _ | .ok impl => _) =
        (match implOf w.implementation with | .error err => _ | .ok impl => _)
      cases implOf w.implementation with
      | error err => dsimp only; rw [n_floats]
      | ok impl => exact congrArg Py.lift (withModel_ints (h l) w impl ls _)

theorem loop_ints_reals {S : Sub XF G P} (h : S.ReadsAsFloats R) {d : ℕ} (l : List (Fin d → ℤ)) (ls : Option (List Int)) :
    S.loop (.ints l) ls = S.loop (.floats (toFloats l)) ls := by
  funext e
  unfold Sub.loop Sub.loopFrom
  simp only [h.rows, n_floats]

/-- The methods of a class. -/
theorem Sub.ReadsAsFloats.all {S : Sub XF G P} (h : S.ReadsAsFloats R) : IntsAreReals S R := by
  have hs : ∀ (nf : ℕ) (l : List (Fin nf → ℤ)) (ls b),
      S.scoreSamples (intsX l) ls b = S.scoreSamples (realsX (asReals l)) ls b := by
    intro nf l ls b
    unfold Sub.scoreSamples
    rw [scoreBody_ints h.rows]
  have hd : ∀ (nf : ℕ) (l : List (Fin nf → ℤ)) (ls alg),
      S.decode (intsX l) ls alg = S.decode (realsX (asReals l)) ls alg := by
    intro nf l ls alg
    unfold Sub.decode
    rw [decodeBody_ints h.rows]
  refine ⟨?_, fun nf l ls b _ => hs nf l ls b, ?_, ?_, fun nf l ls alg _ => hd nf l ls alg, ?_⟩
  · intro nf l ls _
    unfold Sub.fit
    rcases checkArray_ints_reals l with ⟨e, h1, h2⟩ | ⟨h1, h2⟩
    · rw [h1, h2]
    · rw [h1, h2]
      show (S.init R (.ints l) >>= fun _ => onEst S.check >>= fun _ => onEst (S.loop (.ints l) ls)) =
        (S.init R (.floats (toFloats l)) >>= fun _ => onEst S.check >>= fun _ => onEst (S.loop (.floats (toFloats l)) ls))
      rw [loop_ints_reals h]
      unfold Sub.init Sub.initBase
      rw [h.init, h.features]
  · intro nf l ls _
    unfold Sub.score
    rw [hs]
  · intro nf l ls _
    unfold Sub.predictProba
    rw [hs]
  · intro nf l ls _
    unfold Sub.predict
    rw [hd]

/-! ## GaussianHMM -/

theorem features_ints {d : ℕ} (l : List (Fin d → ℤ)) :
    checkFeaturesBase (G := G) (P := P) (.ints (α := XF) l) = checkFeaturesBase (.floats (toFloats l)) := rfl

theorem gaussRows_ints {d : ℕ} (l : List (Fin d → ℤ)) (nf : ℕ) :
    gaussRows nf (.ints (α := XF) l) = gaussRows nf (.floats (toFloats l)) := rfl

theorem gaussInit_ints (eig : Eigvalsh XF) (ty : CovType) {d : ℕ} (l : List (Fin d → ℤ)) :
    gaussInit eig ty R (.ints l) = gaussInit eig ty R (.floats (toFloats l)) := by
  unfold gaussInit gaussInitMeans
  simp only [n_floats]
  rfl

theorem C99_gauss_diag (eig : Eigvalsh XF) : IntsAreReals (gaussDiagSub eig) R :=
  Sub.ReadsAsFloats.all ⟨features_ints, gaussInit_ints eig .diag, gaussRows_ints⟩

theorem C99_gauss_spherical (eig : Eigvalsh XF) : IntsAreReals (gaussSphericalSub eig) R :=
  Sub.ReadsAsFloats.all ⟨features_ints, gaussInit_ints eig .spherical, gaussRows_ints⟩

theorem C99_gauss_full (eig : Eigvalsh XF) : IntsAreReals (gaussFullSub eig) R :=
  Sub.ReadsAsFloats.all ⟨features_ints, gaussInit_ints eig .full, gaussRows_ints⟩

theorem C99_gauss_tied (eig : Eigvalsh XF) : IntsAreReals (gaussTiedSub eig) R :=
  Sub.ReadsAsFloats.all ⟨features_ints, gaussInit_ints eig .tied, gaussRows_ints⟩

/-! ## GMMHMM -/

theorem gmmInit_ints {nm : ℕ} (T : GmmType XF nm) {d : ℕ} (l : List (Fin d → ℤ)) :
    gmmInit T R (.ints l) = gmmInit T R (.floats (toFloats l)) := by
  unfold gmmInit
  simp only [n_floats]
  rfl

/-- Every covariance type. -/
theorem C99_gmm {nm : ℕ} [NeZero nm] (T : GmmType XF nm) : IntsAreReals (gmmSub T) R :=
  Sub.ReadsAsFloats.all ⟨features_ints, gmmInit_ints T, gaussRows_ints⟩

/-! ## VariationalGaussianHMM -/

theorem vgaussInit_ints (eig : Eigvalsh XF) (ty : CovType) {d : ℕ} (l : List (Fin d → ℤ)) :
    vgaussInit eig ty R (.ints l) = vgaussInit eig ty R (.floats (toFloats l)) := by
  funext lens
  unfold vgaussInit
  simp only [n_floats]
  rfl

/-- Every covariance type. -/
theorem C99_vgauss (L : VLayout XF G) (sci : Sci XF) (eig : Eigvalsh XF) : VIntsAreReals (vgaussSub L sci eig) R := by
  have hs : ∀ (nf : ℕ) (l : List (Fin nf → ℤ)) (ls b), (vgaussSub L sci eig).scoreSamples (intsX l) ls b =
      (vgaussSub L sci eig).scoreSamples (realsX (asReals l)) ls b := by
    intro nf l ls b
    unfold VSub.scoreSamples
    rw [scoreBody_ints (S := (vgaussSub L sci eig).core) gaussRows_ints]
  have hd : ∀ (nf : ℕ) (l : List (Fin nf → ℤ)) (ls alg), (vgaussSub L sci eig).decode (intsX l) ls alg =
      (vgaussSub L sci eig).decode (realsX (asReals l)) ls alg := by
    intro nf l ls alg
    unfold VSub.decode
    rw [decodeBody_ints (S := (vgaussSub L sci eig).core) gaussRows_ints]
  refine ⟨?_, fun nf l ls b _ => hs nf l ls b, ?_, ?_, fun nf l ls alg _ => hd nf l ls alg, ?_⟩
  · intro nf l ls _
    have hl : (vgaussSub L sci eig).loop (.ints l) ls = (vgaussSub L sci eig).loop (.floats (toFloats l)) ls := by
      funext e
      unfold VSub.loop
      simp only [n_floats]
      rfl
    have hi : (vgaussSub L sci eig).init R (.ints l) = (vgaussSub L sci eig).init R (.floats (toFloats l)) := by
      funext lens
      show ((vgaussSub L sci eig).initBase R (.ints l) lens >>= fun _ => vgaussInit eig L.ty R (.ints l) lens) = _
      rw [vgaussInit_ints]
      rfl
    unfold VSub.fit
    rcases checkArray_ints_reals l with ⟨e, h1, h2⟩ | ⟨h1, h2⟩
    · rw [h1, h2]
    · rw [h1, h2]
      show ((vgaussSub L sci eig).init R (.ints l) _ >>= fun _ => onEst (vgaussSub L sci eig).check >>= fun _ =>
          onEst ((vgaussSub L sci eig).loop (.ints l) ls)) =
        ((vgaussSub L sci eig).init R (.floats (toFloats l)) _ >>= fun _ => onEst (vgaussSub L sci eig).check >>= fun _ =>
          onEst ((vgaussSub L sci eig).loop (.floats (toFloats l)) ls))
      rw [hl, hi, n_floats]
  · intro nf l ls _
    unfold VSub.score
    rw [hs]
  · intro nf l ls _
    unfold VSub.predictProba
    rw [hs]
  · intro nf l ls _
    unfold VSub.predict
    rw [hd]

/-- Data the claims speak about. -/
example : SquaresFit [![3, -7], ![0, 3037000499]] := by
  intro x hx k
  fin_cases hx <;> fin_cases k <;> simp

end Verif
