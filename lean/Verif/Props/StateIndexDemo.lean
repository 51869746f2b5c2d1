import Verif.Props.StateIndex
import Verif.Props.ContinueDemo

/-!
# Objects that meet the hypotheses of C106
-/
set_option autoImplicit false

namespace Verif.ObjectsDemo
open FloatLike XF Spec

/-- `sample(n, currstate=-1)` of a `PoissonHMM` with two states is `sample(n, currstate=1)` but for the first state. -/
example {G : Type} (R : RandomLib XF G) (n : ℤ) (g : G) :
    ∃ Z X, poisSub.sample R n none (some 1) ⟨poisSeeded, g⟩ = (.ok (Z, X), ⟨{ poisSeeded with nFeatures := some 3 }, g⟩) ∧
      poisSub.sampleAt R indexFirst n none (-1) ⟨poisSeeded, g⟩ =
        (.ok (-1 :: Z.tail.map Int.ofNat, X), ⟨{ poisSeeded with nFeatures := some 3 }, g⟩) := by
  obtain ⟨⟨Z, X⟩, h⟩ := poisSeeded_samples R n (some 1) (by rintro k ⟨⟩; norm_num) g _ (.inl rfl)
  refine ⟨Z, X, h, ?_⟩
  have := (C106_poisson (R := R)).inside n none (-1) 1 ⟨poisSeeded, g⟩ ⟨by simp [poisSeeded, est], .inr (by simp [poisSeeded, est])⟩
  exact this.trans (congrArg (fun r => (startWritten (-1) r.1, r.2)) h)

/-- `currstate=2` has no row. -/
example {G : Type} (R : RandomLib XF G) (n : ℤ) (g : G) :
    poisSub.sampleAt R indexFirst n none 2 ⟨poisSeeded, g⟩ = (.error .indexError, ⟨{ poisSeeded with nFeatures := some 3 }, g⟩) := by
  have hc := chain (G := G) (poisSeeded (G := G)).sub
  have key : poisSub.checkFitted (poisSeeded (G := G)) = (.ok (), { poisSeeded with nFeatures := some 3 }) :=
    (HoldsChain.fitted (S := poisSub) (e := poisSeeded (G := G)) (π := π) (A := A) ⟨hc.startprob, hc.transmat, hc.π_nonneg,
      hc.A_nonneg, hc.π_sum, hc.A_sum⟩).trans rfl
  refine C106_poisson.outside n none 2 _ _ (fun k hk => ?_) (congrArg (fun r => (r.1, (⟨r.2, g⟩ : World XF G (PoisAttrs XF)))) key) ?_
  · obtain ⟨h1, h2⟩ := hk
    simp only [poisSeeded, est] at h1 h2
    omega
  · have hr := Sub.ready_of (S := poisSub) (e := { (poisSeeded (G := G)) with nFeatures := some 3 }) (π := π) (A := A)
      (p := fun i k => fin (B i k)) (by decide : (2 : ℕ) ≠ 0) rfl rfl rfl (asMat_mat B)
    simp [hr]

end Verif.ObjectsDemo
