import Verif.Props.VGaussFit
import Verif.Props.ObjectFitDemo

/-!
# Objects that meet the hypotheses of C79
-/

set_option autoImplicit false

namespace Verif.VGaussFitDemo
open FloatLike XF Spec ObjectFitDemo
open scoped Classical

/-- A `KMeans` that finds centres on the diagonal. -/
noncomputable def lib' : RandomLib XF ℕ := { lib with kmeans := fun _ _ _ g => (fun i _ => .fin (10 * i.val), g + 1) }

theorem positive' : PositiveDraws lib' := ⟨positive.dirichlet, positive.rand, positive.gamma⟩

theorem centres : RealCentres lib' := fun _ {_} _ _ => ⟨fun i _ => 10 * i.val, rfl⟩

/-- `VariationalGaussianHMM(n_components=2)` with a prior of the start distribution and one of the means. -/
noncomputable def world : World XF ℕ (VAttrs XF (VGaussAttrs XF)) :=
  ⟨{ ObjectsDemo.est ⟨{ startprobPrior := some (vec fun i : Fin 2 => (1 + i.val : ℝ)), transmatPrior := some (.d0 (fin 3)) },
        { betaPrior := some (vec fun i : Fin 2 => (1 + i.val : ℝ)) }⟩ with
      params := ['s', 't', 'm', 'c'], initParams := ['s', 't', 'm', 'c'], startprob := none, transmat := none }, 0⟩

/-- Four samples in the plane, in two sequences. -/
noncomputable def xs : List (ObsSeq (Fin 2 → ℝ)) := [⟨2, ![![0, 0], ![1, 0], ![10, 10]]⟩, ⟨0, ![![9, 10]]⟩]

theorem xs_samples : samples xs = [![0, 0], ![1, 0], ![10, 10], ![9, 10]] := by
  simp [samples, xs, ObsSeq.rows, List.ofFn_succ]

theorem sizes (i : Fin 2) : clusterSize (fun i _ => 10 * i.val : Fin 2 → Fin 2 → ℝ) (samples xs) i = 2 := by
  rw [xs_samples]
  have h : ∀ x : Fin 2 → ℝ, ∀ i, Nearest (fun i _ => 10 * i.val : Fin 2 → Fin 2 → ℝ) x i ↔
      if i = 0 then x 0 + x 1 ≤ 10 else 10 < x 0 + x 1 := by
    intro x i
    fin_cases i
    · simp [Nearest, Fin.forall_fin_two, Fin.sum_univ_two]
      constructor <;> intro h <;> nlinarith
    · simp [Nearest, Fin.forall_fin_two, Fin.sum_univ_two]
      constructor
      · intro h; nlinarith
      · intro h; constructor <;> nlinarith
  simp only [clusterSize, h]
  fin_cases i <;> norm_num [List.countP_cons]

theorem call (ty : CovType) : VGaussCall ty lib' .log world xs (some [3, 1]) where
  draws := positive'
  centres := centres
  columns := by norm_num
  nIter := by simp [world, ObjectsDemo.est]
  implementation := rfl
  transmat := .inl (by simp [world])
  params := fun c h => h
  meansToo := fun _ => by simp [world]
  given :=
    { chain := ⟨fun _ => ⟨fun i => 1 + i.val, .array _, fun i => by positivity⟩, fun h => absurd (.inl (by simp [world])) h,
        fun _ => ⟨fun _ _ => 3, .scalar 3, fun _ _ => by norm_num⟩, fun h => absurd (.inl (by simp [world])) h, ⟨none, rfl⟩, ⟨none, rfl⟩⟩
      means := fun _ => ⟨_, fun i => 1 + i.val, .default, .array _, fun i => by positivity⟩
      means_set := fun h => absurd (.inl (by simp [world])) h
      covars := fun _ => ⟨_, _, .default, .default, fun i => by norm_num, fun i => Matrix.PosDef.one.smul (by norm_num)⟩
      covars_set := fun h => absurd (.inl (by simp [world])) h }
  features := .inr rfl
  data := by simp [xs]
  enough :=
    { states := by rw [xs_samples]; simp [world, ObjectsDemo.est]
      two := fun _ => by rw [xs_samples]; simp
      clusters := by
        intro g c hc
        have : c = (fun i _ => 10 * i.val : Fin 2 → Fin 2 → ℝ) := by
          funext i k
          have := congrFun (congrFun hc i) k
          exact (XF.fin.inj this).symm
        subst this
        refine ⟨fun _ i => ?_, fun _ i => ?_⟩
        · have := sizes i
          exact this.trans_ne two_ne_zero
        · have h : ∀ i : Fin 2, ((2 : ℕ) : ℝ) ≤ shareCount ty
              (fun i => (clusterSize (fun i _ => 10 * i.val : Fin 2 → Fin 2 → ℝ) (samples xs) i : ℝ)) i := by
            intro i
            simp only [sizes]
            cases ty <;> simp [shareCount]
          exact h i }
  lengths := .inl rfl

instance : NeZero world.est.nComponents := ⟨by simp [world, ObjectsDemo.est]⟩

example {eig : Eigvalsh XF} (he : EigvalshSpec eig) :
    VGaussReady (vlayoutFull eig) Sci.real eig lib' world xs (some [3, 1]) :=
  C79_full_ready Sci.real_exact he (call _) rfl (by simp [world]) rfl rfl

example {eig : Eigvalsh XF} (he : EigvalshSpec eig) :
    VGaussReady (vlayoutTied eig) Sci.real eig lib' world xs (some [3, 1]) :=
  C79_tied_ready Sci.real_exact he (call _) rfl (by simp [world]) rfl rfl

theorem small : tinyVar * ((2 : ℕ) + numSamples xs) ≤ 1 / 1000 := by
  have h : tinyVar ≤ 1 / 10000 := by
    have h1 : (2 : ℝ) ^ 14 ≤ 2 ^ 1022 := pow_le_pow_right₀ (by norm_num) (by norm_num)
    have h2 : tinyVar = ((2 : ℝ) ^ 1022)⁻¹ := by rw [tinyVar, one_div]
    rw [h2]
    refine (inv_anti₀ (by positivity) h1).trans ?_
    norm_num
  have : numSamples xs = 4 := by simp [numSamples, xs]
  rw [this]
  push_cast
  linarith

example {eig : Eigvalsh XF} (he : EigvalshSpec eig) :
    VGaussReady (vlayoutDiag eig) Sci.real eig lib' world xs (some [3, 1]) :=
  C79_diag_ready Sci.real_exact he (call _) rfl (by simp [world]) rfl rfl small

example {eig : Eigvalsh XF} (he : EigvalshSpec eig) :
    VGaussReady (vlayoutSpherical eig) Sci.real eig lib' world xs (some [3, 1]) :=
  C79_spherical_ready Sci.real_exact he (call _) rfl (by simp [world]) rfl rfl small

/-- The general theorem. -/
example {eig : Eigvalsh XF} (he : EigvalshSpec eig) :
    FitsVGauss (vlayoutFull eig) Sci.real eig lib' .log world xs (some [3, 1]) :=
  C79_full Sci.real_exact he (call _)

/-- A `KMeans` that puts every centre at the first sample. -/
noncomputable def libFirst : RandomLib XF ℕ :=
  { lib with kmeans := fun _ _ rows g => (fun _ k => (rows.head?.map (· k)).getD (.fin 0), g + 1) }

/-- Five times the same sample. -/
example {eig : Eigvalsh XF} : ((vgaussSub (vlayoutDiag eig) Sci.real eig).fit libFirst
    (realsX (List.replicate 5 (![1, 2] : Fin 2 → ℝ))) none world).1 ≠ .ok () :=
  C79_constant _ _ _ (by norm_num) _ (by norm_num) _ _ (by simp [world, ObjectsDemo.est]) (.inr rfl) fun _ => rfl

end Verif.VGaussFitDemo
