import Verif.Spec.Relabel
import Verif.Proofs.FitFamily

/-!
# Renaming the states
-/

namespace Verif
open FloatLike XF Hmmc Spec
open scoped Classical

section Paths
variable {nc n : ℕ} (σ : Equiv.Perm (Fin nc)) (π : Fin nc → ℝ) (A : Fin nc → Fin nc → ℝ)
  (B : Fin (n + 1) → Fin nc → ℝ)

/-- Renaming the states along a path. -/
def pathEquiv (σ : Equiv.Perm (Fin nc)) (n : ℕ) : (Fin (n + 1) → Fin nc) ≃ (Fin (n + 1) → Fin nc) where
  toFun z t := σ (z t)
  invFun z t := σ.symm (z t)
  left_inv z := by funext t; simp
  right_inv z := by funext t; simp

theorem joint_relabel (z : Fin (n + 1) → Fin nc) :
    joint (fun i => π (σ i)) (fun i j => A (σ i) (σ j)) (fun t i => B t (σ i)) z =
      joint π A B (pathEquiv σ n z) := rfl

theorem likelihood_relabel :
    likelihood (fun i => π (σ i)) (fun i j => A (σ i) (σ j)) (fun t i => B t (σ i)) = likelihood π A B := by
  unfold likelihood
  exact Fintype.sum_equiv (pathEquiv σ n) _ _ fun z => joint_relabel σ π A B z

theorem stateMass_relabel (t : Fin (n + 1)) (i : Fin nc) :
    stateMass (fun i => π (σ i)) (fun i j => A (σ i) (σ j)) (fun t i => B t (σ i)) t i =
      stateMass π A B t (σ i) := by
  unfold stateMass
  rw [Finset.sum_filter, Finset.sum_filter]
  refine Fintype.sum_equiv (pathEquiv σ n) _ _ fun z => ?_
  rw [joint_relabel]
  simp [pathEquiv]

theorem pairMass_relabel (t : Fin n) (i j : Fin nc) :
    pairMass (fun i => π (σ i)) (fun i j => A (σ i) (σ j)) (fun t i => B t (σ i)) t i j =
      pairMass π A B t (σ i) (σ j) := by
  unfold pairMass
  rw [Finset.sum_filter, Finset.sum_filter]
  refine Fintype.sum_equiv (pathEquiv σ n) _ _ fun z => ?_
  rw [joint_relabel]
  simp [pathEquiv]

theorem posterior_relabel (t : Fin (n + 1)) (i : Fin nc) :
    posterior (fun i => π (σ i)) (fun i j => A (σ i) (σ j)) (fun t i => B t (σ i)) t i =
      posterior π A B t (σ i) := by
  unfold posterior
  rw [stateMass_relabel, likelihood_relabel]

theorem expectedTransitions_relabel (i j : Fin nc) :
    expectedTransitions (fun i => π (σ i)) (fun i j => A (σ i) (σ j)) (fun t i => B t (σ i)) i j =
      expectedTransitions π A B (σ i) (σ j) := by
  unfold expectedTransitions pairPosterior
  simp only [pairMass_relabel, likelihood_relabel]

theorem noUnderflow_relabel :
    NoUnderflow (fun i => π (σ i)) (fun i j => A (σ i) (σ j)) (fun t i => B t (σ i)) ↔ NoUnderflow π A B := by
  unfold NoUnderflow prefixLikelihood
  simp only [likelihood_relabel]

theorem estepOk_relabel (impl : Impl) :
    EstepOk impl (fun i => π (σ i)) (fun i j => A (σ i) (σ j)) (fun t i => B t (σ i)) ↔ EstepOk impl π A B := by
  cases impl with
  | log => simp only [EstepOk, likelihood_relabel]
  | scaling => exact noUnderflow_relabel σ π A B

end Paths

section Data
variable {nc : ℕ} {D : Type} (σ : Equiv.Perm (Fin nc)) (π : Fin nc → ℝ) (A : Fin nc → Fin nc → ℝ)
  (b : D → Fin nc → ℝ) (ss : List (ObsSeq D))

theorem dataLikelihood_relabel :
    dataLikelihood (fun i => π (σ i)) (fun i j => A (σ i) (σ j)) (fun o i => b o (σ i)) ss =
      dataLikelihood π A b ss := by
  unfold dataLikelihood
  congr 2
  funext s
  exact likelihood_relabel σ π A (s.weights b)

theorem startStat_relabel (i : Fin nc) :
    startStat (fun i => π (σ i)) (fun i j => A (σ i) (σ j)) (fun o i => b o (σ i)) ss i =
      startStat π A b ss (σ i) := by
  unfold startStat
  congr 2
  funext s
  exact posterior_relabel σ π A (s.weights b) 0 i

theorem transStat_relabel (i j : Fin nc) :
    transStat (fun i => π (σ i)) (fun i j => A (σ i) (σ j)) (fun o i => b o (σ i)) ss i j =
      transStat π A b ss (σ i) (σ j) := by
  unfold transStat
  congr 2
  funext s
  exact expectedTransitions_relabel σ π A (s.weights b) i j

theorem obsStat_relabel :
    obsStat (fun i => π (σ i)) (fun i j => A (σ i) (σ j)) (fun o i => b o (σ i)) ss =
      fun i => obsStat π A b ss (σ i) := by
  funext i f
  unfold obsStat
  congr 2
  funext s
  exact Finset.sum_congr rfl fun t _ => by
    congr 1; exact posterior_relabel σ π A (s.weights b) t i

theorem mapUpdate_relabel (prior old stat : Fin nc → ℝ) :
    mapUpdate (fun i => prior (σ i)) (fun i => old (σ i)) (fun i => stat (σ i)) =
      fun i => mapUpdate prior old stat (σ i) := by
  funext i
  have h : ∀ i, mapCounts (fun i => prior (σ i)) (fun i => old (σ i)) (fun i => stat (σ i)) i =
      mapCounts prior old stat (σ i) := fun i => rfl
  unfold mapUpdate
  simp only [h]
  rw [Equiv.sum_comp σ fun i => mapCounts prior old stat i]

end Data

/-! ## `fit` -/

section Loop
variable {α τ τ' : Type} [FloatLike α]

/-- A simulation: same values, same exceptions, related states. -/
theorem fitLoop_sim {step : τ → Except PyErr (τ × α)} {step' : τ' → Except PyErr (τ' × α)} (Rel : τ → τ' → Prop)
    (h : ∀ s s', Rel s s' → (∃ e, step s = .error e ∧ step' s' = .error e) ∨
      ∃ t t' v, step s = .ok (t, v) ∧ step' s' = .ok (t', v) ∧ Rel t t')
    (n : ℕ) (s : τ) (s' : τ') (mon : Monitor α) (hR : Rel s s') :
    Rel (fitLoop step n s mon).state (fitLoop step' n s' mon).state ∧
      (fitLoop step' n s' mon).monitor = (fitLoop step n s mon).monitor ∧
      (fitLoop step' n s' mon).raised = (fitLoop step n s mon).raised := by
  induction n generalizing s s' mon with
  | zero => exact ⟨hR, rfl, rfl⟩
  | succ n ih =>
    rcases h s s' hR with ⟨e, h1, h2⟩ | ⟨t, t', v, h1, h2, h3⟩
    · simp only [fitLoop, h1, h2]
      exact ⟨hR, trivial, trivial⟩
    · simp only [fitLoop, h1, h2]
      split
      · exact ⟨h3, rfl, rfl⟩
      · exact ih t t' _ h3

end Loop

variable {nc : ℕ} {Obs D P S S' Q : Type} [NeZero nc]

/-- The priors of the start and transition probabilities, renamed. -/
def RConfig.relabel (σ : Equiv.Perm (Fin nc)) (c : RConfig nc) : RConfig nc :=
  ⟨fun i => c.sp (σ i), fun i j => c.tp (σ i) (σ j), c.impl, c.nIter⟩

def RParams.relabel (σ : Equiv.Perm (Fin nc)) (act : Q → Q) (r : RParams nc Q) : RParams nc Q :=
  ⟨fun i => r.π (σ i), fun i j => r.A (σ i) (σ j), act r.q⟩

namespace Family
variable {E : Emission XF nc Obs P S} {E' : Emission XF nc Obs P S'} {obs : D → Obs} {params : List Char}

/-- `F'` is `F` with renamed states; `act` renames the real parameters, `actP` those of the program. -/
structure Relabel (F : Family E obs params Q) (F' : Family E' obs params Q) (σ : Equiv.Perm (Fin nc))
    (act : Q → Q) (actP : P → P) : Prop where
  embed_act : ∀ q, F'.embed (act q) = actP (F.embed q)
  b_act : ∀ q o i, F'.b (act q) o i = F.b q o (σ i)
  next_act : ∀ q T, F'.next (act q) (fun i => T (σ i)) = act (F.next q T)
  good_act : ∀ q T, F.Good q T → F'.Good (act q) fun i => T (σ i)

variable {F : Family E obs params Q} {F' : Family E' obs params Q} {σ : Equiv.Perm (Fin nc)} {act : Q → Q}
  {actP : P → P}

omit [NeZero nc] in
theorem Relabel.b_eq (h : F.Relabel F' σ act actP) (q : Q) : F'.b (act q) = fun o i => F.b q o (σ i) := by
  funext o i; exact h.b_act q o i

omit [NeZero nc] in
theorem Relabel.theta_eq (h : F.Relabel F' σ act actP) (r : RParams nc Q) :
    F'.theta (r.relabel σ act) = relabelTheta σ actP (F.theta r) := by
  unfold theta relabelTheta RParams.relabel
  simp only [h.embed_act]

omit [NeZero nc] in
theorem Relabel.rstep_eq (h : F.Relabel F' σ act actP) (c : RConfig nc) (ss : List (ObsSeq D)) (r : RParams nc Q) :
    F'.rstep (c.relabel σ) ss (r.relabel σ act) = (F.rstep c ss r).relabel σ act := by
  unfold rstep RParams.relabel RConfig.relabel
  simp only [h.b_eq, obsStat_relabel, h.next_act]
  congr 1
  · split
    · rw [← mapUpdate_relabel]
      congr 1
      funext i
      exact startStat_relabel σ _ _ _ _ i
    · rfl
  · split
    · funext i
      rw [← mapUpdate_relabel]
      congr 1
      funext j
      exact transStat_relabel σ _ _ _ _ i j
    · rfl

omit [NeZero nc] in
theorem Relabel.ok_iff (h : F.Relabel F' σ act actP) (impl : Impl) (ss : List (ObsSeq D)) (r : RParams nc Q) :
    F'.Ok impl ss (r.relabel σ act) ↔ F.Ok impl ss r := by
  unfold Ok
  refine forall₂_congr fun s _ => ?_
  have : s.weights (F'.b (r.relabel σ act).q) = fun t i => s.weights (F.b r.q) t (σ i) := by
    show s.weights (F'.b (act r.q)) = _
    rw [h.b_eq]
    rfl
  rw [this]
  exact estepOk_relabel σ _ _ _ impl

omit [NeZero nc] in
theorem Relabel.L_eq (h : F.Relabel F' σ act actP) (ss : List (ObsSeq D)) (r : RParams nc Q) :
    F'.L ss (r.relabel σ act) = F.L ss r := by
  unfold L
  show dataLikelihood _ _ (F'.b (act r.q)) ss = _
  rw [h.b_eq]
  exact dataLikelihood_relabel σ _ _ _ ss

omit [NeZero nc] in
theorem valid_relabel {r : RParams nc Q} (h : r.Valid) : (r.relabel σ act).Valid where
  π_nonneg i := h.π_nonneg _
  A_nonneg i j := h.A_nonneg _ _
  π_sum := (Equiv.sum_comp σ r.π).le.trans h.π_sum
  A_sum i := (Equiv.sum_comp σ (r.A (σ i))).le.trans (h.A_sum _)

/-- **Training commutes with renaming the states**: same history, same exception, renamed parameters. -/
theorem Relabel.fit_eq (h : F.Relabel F' σ act actP) {c : RConfig nc} {ss : List (ObsSeq D)}
    {I : RParams nc Q → Prop} (hI : F.Closed c ss I) (hne : ss ≠ []) (hp : 's' ∈ params → ∀ i, 1 ≤ c.sp i)
    {r : RParams nc Q} (hr : I r) (mon : Monitor XF) :
    SameFit σ actP (F'.fit (c.relabel σ) ss (r.relabel σ act) mon) (F.fit c ss r mon) := by
  have key := fitLoop_sim
    (step := emStep E (c.toConfig params) (dataX obs ss) (dataLengths ss))
    (step' := emStep E' ((c.relabel σ).toConfig params) (dataX obs ss) (dataLengths ss))
    (fun θ θ' => ∃ r, I r ∧ θ = F.theta r ∧ θ' = F'.theta (r.relabel σ act)) (by
      rintro _ _ ⟨r, hr, rfl, rfl⟩
      have hv := hI.valid r hr
      by_cases hok : F.Ok c.impl ss r
      · right
        refine ⟨_, _, _, F.emStep_real c ss hne hv hok (hI.good r hr hok) hp,
          (F'.emStep_real (c.relabel σ) ss hne (valid_relabel hv) ((h.ok_iff _ _ _).2 hok) ?_ fun hs i => hp hs _).trans
            (by rw [h.rstep_eq, h.L_eq]), _, hI.next r hr hok, rfl, rfl⟩
        show F'.Good (act r.q) (obsStat _ _ (F'.b (act r.q)) ss)
        rw [h.b_eq]
        have := obsStat_relabel σ r.π r.A (F.b r.q) ss
        have e : obsStat (r.relabel σ act).π (r.relabel σ act).A (fun o i => F.b r.q o (σ i)) ss =
          fun i => obsStat r.π r.A (F.b r.q) ss (σ i) := this
        rw [e]
        exact h.good_act _ _ (hI.good r hr hok)
      · cases hi : c.impl with
        | log => exact absurd (hi ▸ hI.ok hi r hr) hok
        | scaling =>
          left
          rw [hi] at hok
          exact ⟨_, F.emStep_underflow c hi ss hv hok,
            F'.emStep_underflow (c.relabel σ) hi ss (valid_relabel hv) fun h' => hok ((h.ok_iff _ _ _).1 h')⟩)
    c.nIter (F.theta r) (F'.theta (r.relabel σ act)) mon.reset ⟨r, hr, rfl, rfl⟩
  obtain ⟨⟨r', -, h1, h2⟩, h3, h4⟩ := key
  refine ⟨?_, h3, h4⟩
  refine Eq.trans h2 ((h.theta_eq r').trans ?_)
  congr 1
  exact h1.symm

end Family
end Verif
