import Verif.Props.VObjectFit
import Verif.Props.ObjectFitDemo

/-!
# Objects that meet the hypotheses of C78
-/

set_option autoImplicit false

namespace Verif.VObjectFitDemo
open FloatLike XF Spec ObjectFitDemo

/-- `VariationalCategoricalHMM(n_components=2)` with a prior of the start distribution, one of the transitions and
a scalar one of the emissions. -/
noncomputable def world : World XF ℕ (VAttrs XF (VCatAttrs XF)) :=
  fresh 'e' ⟨{ startprobPrior := some (vec fun i : Fin 2 => (1 + i.val : ℝ)), transmatPrior := some (.d0 (fin 3)) },
    { emissionprobPrior := some (.d0 (fin (1 / 2))) }⟩

/-- `fit` of symbols 0, 2 and 1, 0. -/
example : ((vcatSub Sci.real).fit lib (symbolsX (samples cs)) (some [2, 2]) world).1 = .ok () :=
  (C78_categorical_fresh Sci.real_exact positive (nf := 3) (w := world) (sp := fun i => 1 + i.val) (tp := fun _ _ => 3) (x := 1 / 2)
    ⟨by simp [world, fresh, ObjectsDemo.est], by simp [world, fresh, ObjectsDemo.est], rfl, .inl (by simp [world, fresh])⟩
    rfl rfl (.array _) (fun i => by positivity) (.scalar 3) (fun _ _ => by norm_num) (.scalar _) (by norm_num)
    ⟨none, rfl⟩ ⟨none, rfl⟩ ⟨none, rfl⟩ (ss := cs) (by simp [cs])
    (.inr ⟨rfl, 2, by simp [cs, samples, ObsSeq.rows, List.ofFn_succ], by simp⟩) (.inl rfl)).1

/-- Posteriors set by the user are kept, with `init_params=""`; the emissions only are trained. -/
noncomputable def given : World XF ℕ (VAttrs XF (VCatAttrs XF)) :=
  ⟨{ world.est with
      params := ['e'], initParams := []
      transmat := some (mat (![![1/2, 1/2], ![1/4, 3/4]] : Fin 2 → Fin 2 → ℝ))
      sub :=
        ⟨{ startPrior := some (vec fun _ : Fin 2 => (1 : ℝ)), startPost := some (vec fun i : Fin 2 => (1 + i.val : ℝ))
           transPrior := some (mat fun _ _ : Fin 2 => (1 : ℝ))
           transPost := some (mat fun i j : Fin 2 => (1 + i.val + 2 * j.val : ℝ)) },
         { emPrior := some (mat (fun _ _ => 1 : Fin 2 → Fin 3 → ℝ))
           emPost := some (mat (fun i k => 1 + i.val + k.val : Fin 2 → Fin 3 → ℝ)) }⟩ }, 0⟩

example : ∃ p m₀ : CatPost 2 3, VStartsCat given.est 2 4 p m₀ ∧
    VTrainsFrom (vcatTraining Sci.real p ['e'] cs) m₀ given.est .log
      (((vcatSub Sci.real).fit lib (symbolsX (samples cs)) (some [2, 2]) given).1,
        ((vcatSub Sci.real).fit lib (symbolsX (samples cs)) (some [2, 2]) given).2.est) := by
  have f : ∀ c, c ∉ given.est.initParams := fun c => by simp [given]
  have h4 : (samples cs).length = 4 := by simp [cs, samples, ObsSeq.rows]
  have := C78_categorical Sci.real_exact positive (nf := 3) (w := given) (impl := .log) (ss := cs)
    ⟨by simp [given, world, fresh, ObjectsDemo.est], by simp [given, world, fresh, ObjectsDemo.est], rfl, .inr rfl⟩
    (by simp [given])
    ⟨⟨fun h => absurd h (by simp [FreshPair, f, given]), fun _ => ⟨fun _ => 1, fun i => 1 + i.val, rfl, rfl,
        fun _ => one_pos, fun i => by positivity⟩,
      fun h => absurd h (by simp [FreshPair, f, given]), fun _ => ⟨fun _ _ => 1, fun i j => 1 + i.val + 2 * j.val, rfl, rfl,
        fun _ _ => one_pos, fun i j => by positivity⟩,
      ⟨none, rfl⟩, ⟨some ![![1/2, 1/2], ![1/4, 3/4]], rfl⟩⟩,
      fun h => absurd h (by simp [Fresh, f, given]), fun _ => ⟨fun _ _ => 1, fun i k => 1 + i.val + k.val, rfl, rfl,
        fun _ _ => one_pos, fun i k => by positivity⟩, ⟨none, rfl⟩⟩
    (by simp [cs]) (.inr ⟨rfl, 2, by simp [cs, samples, ObsSeq.rows, List.ofFn_succ], by simp⟩) (ls := some [2, 2]) (.inl rfl)
  rw [h4] at this
  exact this

/-- The documented array as `emissionprob_prior`. -/
example : ((vcatSub Sci.real).fit lib (symbolsX (samples cs)) (some [2, 2])
    (fresh 'e' ⟨{}, { emissionprobPrior := some (mat (fun _ _ => 1 : Fin 2 → Fin 3 → ℝ)) }⟩)).1 ≠ .ok () :=
  C78_array_prior _ _ _ _ _ _ rfl (by simp [mat, NdArray.shape]) (.inr rfl)

end Verif.VObjectFitDemo
