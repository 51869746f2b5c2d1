import Verif.Proofs.ObjectFit

/-!
# The starting point of `fit`
-/

set_option autoImplicit false

namespace Verif
open FloatLike XF Hmmc Spec
open scoped Classical

variable {G P : Type} {R : RandomLib XF G}

theorem drawMany_real {β δ : Type} (d : G → β × G) (f : δ → β) (Pd : δ → Prop)
    (h : ∀ g, ∃ x, Pd x ∧ (d g).1 = f x) (n : ℕ) (g : G) :
    ∃ v : Fin n → δ, (∀ i, Pd (v i)) ∧ (drawMany d n g).1 = fun i => f (v i) := by
  induction n generalizing g with
  | zero => exact ⟨Fin.elim0, fun i => i.elim0, funext fun i => i.elim0⟩
  | succ n ih =>
    obtain ⟨x, hx, hxe⟩ := h g
    obtain ⟨v, hv, hve⟩ := ih (d g).2
    refine ⟨Fin.cons x v, fun i => ?_, ?_⟩
    · refine Fin.cases ?_ (fun i => ?_) i
      · exact hx
      · exact hv i
    · funext i
      simp only [drawMany]
      refine Fin.cases ?_ (fun i => ?_) i
      · simp [hxe]
      · simp [hve]

theorem dirichlet_arg (n : ℕ) (hn : n ≠ 0) : (fun _ : Fin n => (1 : XF) / ofNat' n) = fun _ => fin (1 / n : ℝ) := by
  funext i
  have : ((n : ℕ) : ℝ) ≠ 0 := Nat.cast_ne_zero.2 hn
  simp [fin_div _ _ this]

/-- `BaseHMM._init` leaves a chain. -/
theorem initBase_starts {S : Sub XF G P} (hR : PositiveDraws R) {X : XArr XF} {w : World XF G P} {nf : Option ℕ} {p : P}
    (hc : S.checkFeatures X w.est = (.ok (), { w.est with nFeatures := nf, sub := p }))
    (h0 : w.est.nComponents ≠ 0) (hg : GivenChain w.est) (codes : List Char)
    (hcodes : ∀ e, (S.nFit e).map Prod.fst = codes) (hp : ∀ c ∈ w.est.params, c ∈ codes) :
    ∃ (rs : RandomState G) (g : G) (π : Fin w.est.nComponents → ℝ) (A : Fin w.est.nComponents → Fin w.est.nComponents → ℝ),
      S.initBase R X w = (.ok (), ⟨{ w.est with nFeatures := nf, sub := p, randomState := rs
                                                startprob := some (vec π), transmat := some (mat A) }, g⟩) ∧
      StartsChain w.est π A := by
  obtain ⟨rs, g, h, -⟩ := initBase_eq S R X w _ hc
  have hany : ∀ e c, ((S.nFit e).any fun p => p.1 == c) = decide (c ∈ codes) := by
    intro e c
    rw [← hcodes e, Bool.eq_iff_iff]
    simp
  simp only [hany] at h
  rw [List.find?_eq_none.2 fun c hc' => by simpa using hp c hc'] at h
  have hdraw : ∀ g, ∃ q : Fin w.est.nComponents → ℝ, ((∀ i, 0 < q i) ∧ ∑ i, q i = 1) ∧
      (R.dirichlet (fun _ : Fin w.est.nComponents => (1 : XF) / ofNat' w.est.nComponents) g).1 = fun i => fin (q i) := by
    intro g
    rw [dirichlet_arg _ h0]
    obtain ⟨q, h1, h2, h3⟩ := hR.dirichlet (1 / w.est.nComponents : ℝ) g h0
      (by have := Nat.pos_of_ne_zero h0; positivity)
    exact ⟨q, ⟨h1, h2⟩, h3⟩
  obtain ⟨π, hπ1, hπ2, hπ3, hπ4⟩ : ∃ π : Fin w.est.nComponents → ℝ, (∀ i, 0 ≤ π i) ∧ ∑ i, π i = 1 ∧
      Starts (Fresh w.est 's' w.est.startprob) w.est.startprob (vec π) (∀ i, 0 < π i) ∧
      (if needsInit w.est.initParams 's' w.est.startprob.isSome then some (NdArray.d1 (R.dirichlet
        (fun _ : Fin w.est.nComponents => (1 : XF) / ofNat' w.est.nComponents)
          (selfGen R { w with est := { w.est with nFeatures := nf, sub := p } })).1) else w.est.startprob) =
        some (vec π) := by
    by_cases hf : Fresh w.est 's' w.est.startprob
    · obtain ⟨q, ⟨h1, h2⟩, h3⟩ := hdraw (selfGen R { w with est := { w.est with nFeatures := nf, sub := p } })
      refine ⟨q, fun i => (h1 i).le, h2, ⟨fun h => absurd hf h, fun _ => h1⟩, ?_⟩
      rw [if_pos ((needsInit_iff _ _ _).2 hf), h3]
      rfl
    · obtain ⟨q, h1, h2, h3⟩ := hg.startprob hf
      refine ⟨q, h2, h3, ⟨fun _ => h1, fun h => absurd h hf⟩, ?_⟩
      rw [if_neg (fun h => hf ((needsInit_iff _ _ _).1 h)), h1]
  obtain ⟨A, hA1, hA2, hA3, hA4⟩ : ∃ A : Fin w.est.nComponents → Fin w.est.nComponents → ℝ,
      (∀ i j, 0 ≤ A i j) ∧ (∀ i, ∑ j, A i j = 1) ∧
      Starts (Fresh w.est 't' w.est.transmat) w.est.transmat (mat A) (∀ i j, 0 < A i j) ∧
      ((initDraws R w.est.nComponents (needsInit w.est.initParams 's' w.est.startprob.isSome)
        (needsInit w.est.initParams 't' w.est.transmat.isSome)
        (selfGen R { w with est := { w.est with nFeatures := nf, sub := p } })).1.2 <|> w.est.transmat) =
        some (mat A) := by
    by_cases hf : Fresh w.est 't' w.est.transmat
    · have hb := (needsInit_iff w.est 't' w.est.transmat).2 hf
      simp only [initDraws, hb, if_true]
      generalize hgg : (if needsInit w.est.initParams 's' w.est.startprob.isSome = true then _ else _ : Option (NdArray XF) × G).2 = g2
      obtain ⟨v, hv, hve⟩ := drawMany_real _ (fun (q : Fin w.est.nComponents → ℝ) i => fin (q i)) _ hdraw w.est.nComponents g2
      refine ⟨v, fun i j => ((hv i).1 j).le, fun i => (hv i).2, ⟨fun h => absurd hf h, fun _ i j => (hv i).1 j⟩, ?_⟩
      rw [hve]
      rfl
    · obtain ⟨q, h1, h2, h3⟩ := hg.transmat hf
      have hb : needsInit w.est.initParams 't' w.est.transmat.isSome = false := by
        rw [← Bool.not_eq_true, needsInit_iff]; exact hf
      refine ⟨q, h2, h3, ⟨fun _ => h1, fun h => absurd h hf⟩, ?_⟩
      simp only [initDraws, hb]
      exact h1
  refine ⟨rs, g, π, A, ?_, ⟨hπ1, hA1, hπ2, hA2, hπ3, hA3⟩⟩
  rw [h]
  congr 2
  simp only
  congr 1
  · rw [← hπ4]
    unfold initDraws
    by_cases hb : needsInit w.est.initParams 's' w.est.startprob.isSome <;> simp [hb]

end Verif
