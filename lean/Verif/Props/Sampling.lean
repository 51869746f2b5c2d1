import Verif.Proofs.Sampling
import Verif.Props.Seeding

/-!
# C36, C38: what `sample` returns
-/

namespace Verif
open FloatLike Spec

section
variable {α G : Type} [FloatLike α] {nc : Nat} [NeZero nc] {Obs : Type} {R : RandomLib α G}
  {π : Row α nc} {A : Mat α nc} {em : Fin nc → G → Except PyErr Obs × G}

theorem sampleLoop_length (n : Nat) (cur : Fin nc) (g : G) {l : List (Fin nc × Obs)} {g' : G}
    (h : sampleLoop R A em n cur g = (.ok l, g')) : l.length = n := by
  induction n generalizing cur g l g' with
  | zero => cases h; rfl
  | succ n ih =>
    unfold sampleLoop at h
    dsimp only at h
    split at h
    · cases h
    · split at h
      · cases h
      · next hr =>
        cases h
        simp [ih _ _ hr]

theorem sampleCore_length (n : Int) (c : Option (Fin nc)) (g : G) {l : List (Fin nc × Obs)} {g' : G}
    (h : sampleCore R π A em n c g = (.ok l, g')) :
    (l.length : Int) = max n 1 ∧ ∀ z, c = some z → ∃ x r, l = (z, x) :: r := by
  unfold sampleCore at h
  dsimp only at h
  split at h
  · cases h
  · split at h
    · cases h
    · next hr =>
      cases h
      have := sampleLoop_length _ _ _ hr
      constructor
      · rw [List.length_cons, this]
        omega
      · rintro z rfl
        exact ⟨_, _, rfl⟩

/-- If drawing an observation never fails, neither does `sample`. -/
theorem sampleCore_ok (hem : ∀ z g, ∃ x g', em z g = (.ok x, g')) (n : Int) (c : Option (Fin nc)) (g : G) :
    ∃ l g', sampleCore R π A em n c g = (.ok l, g') := by
  have hl : ∀ n cur g, ∃ l g', sampleLoop R A em n cur g = (.ok l, g') := by
    intro n
    induction n with
    | zero => exact fun _ g => ⟨[], g, rfl⟩
    | succ n ih =>
      intro cur g
      unfold sampleLoop
      dsimp only
      obtain ⟨x, g1, h1⟩ := hem (drawState R (A cur) g).1 (drawState R (A cur) g).2
      obtain ⟨l, g2, h2⟩ := ih (drawState R (A cur) g).1 g1
      rw [h1]
      dsimp only
      rw [h2]
      exact ⟨_, _, rfl⟩
  unfold sampleCore
  cases c with
  | none =>
    dsimp only
    obtain ⟨x, g1, h1⟩ := hem (drawState R π g).1 (drawState R π g).2
    obtain ⟨l, g2, h2⟩ := hl (n - 1).toNat (drawState R π g).1 g1
    rw [h1]
    dsimp only
    rw [h2]
    exact ⟨_, _, rfl⟩
  | some z =>
    dsimp only
    obtain ⟨x, g1, h1⟩ := hem z g
    obtain ⟨l, g2, h2⟩ := hl (n - 1).toNat z g1
    rw [h1]
    dsimp only
    rw [h2]
    exact ⟨_, _, rfl⟩

end

section
variable {α G P : Type} [FloatLike α] {S : Sub α G P} {R : RandomLib α G}

/-- Well-formed output for a request of `n` samples. -/
def Spec.WellFormed (nc : Nat) (n : Int) (currstate : Option Nat) (states : List Nat) (nRows : Nat) : Prop :=
  (states.length : Int) = max n 1 ∧ nRows = states.length ∧ (∀ z ∈ states, z < nc) ∧
    ∀ c, currstate = some c → states.head? = some c

theorem sampleFrom_wellFormed (e : Est α G P) (n : Int) (c : Option Nat) (g g' : G)
    {r : List Nat × ((nf : Nat) × List (S.Obs nf))} (h : S.sampleFrom R e n c g = (.ok r, g')) :
    WellFormed e.nComponents n c r.1 r.2.2.length ∧ e.nFeatures = some r.2.1 := by
  unfold Sub.sampleFrom at h
  cases hr : S.ready e with
  | none => rw [hr] at h; cases h
  | some rd =>
    rw [hr] at h
    have hnf := S.ready_nf hr
    haveI : NeZero e.nComponents := ⟨rd.pos⟩
    have key : ∀ c' : Option (Fin e.nComponents), S.sampleWith R e.sub rd.θ n c' g = (.ok r, g') →
        WellFormed e.nComponents n (c'.map Fin.val) r.1 r.2.2.length ∧ e.nFeatures = some r.2.1 := by
      intro c' h
      unfold Sub.sampleWith at h
      cases hc : sampleCore R rd.θ.startprob rd.θ.transmat (S.sampleSub R e.sub rd.θ.emission) n c' g with
      | mk o g1 =>
        rw [hc] at h
        cases o with
        | error err => cases h
        | ok l =>
          cases h
          obtain ⟨h1, h2⟩ := sampleCore_length n c' g hc
          refine ⟨⟨by simpa using h1, by simp, ?_, ?_⟩, hnf⟩
          · intro z hz
            simp only [List.mem_map] at hz
            obtain ⟨p, _, rfl⟩ := hz
            exact p.1.isLt
          · intro k hk
            cases c' with
            | none => cases hk
            | some z =>
              cases hk
              obtain ⟨x, l', rfl⟩ := h2 z rfl
              rfl
    cases c with
    | none => exact key none h
    | some c =>
      dsimp only at h
      split at h
      · next hlt => exact key (some ⟨c, hlt⟩) h
      · cases h

/-- **C36.** Whatever `sample` returns is well formed, for a seed or the estimator's generator; in
particular `sample(0)` and `sample(-3)` return one sample. -/
theorem C36_sample (hS : S.Lawful) (n : Int) (seed c : Option Nat) (w w' : World α G P)
    {r : List Nat × ((nf : Nat) × List (S.Obs nf))} (h : S.sample R n seed c w = (.ok r, w')) :
    WellFormed w.est.nComponents n c r.1 r.2.2.length ∧ w'.est.nFeatures = some r.2.1 := by
  unfold Sub.sample Sub.sampleBody at h
  obtain ⟨u, w1, h1, h2⟩ := Py.bind_ok_cases h
  have e1 : w1.est = (S.checkFitted w.est).2 := (congrArg (fun p => p.2.est) h1).symm
  have e2 : w1.est.nComponents = w.est.nComponents := by rw [e1, hS.fitted_frame]
  obtain ⟨w2, w3, h3, h4⟩ := Py.bind_ok_cases h2
  cases h3
  cases seed with
  | some k =>
    dsimp only at h4
    cases hs : S.sampleFrom R w1.est n c (R.ofSeed k) with
    | mk o g1 =>
      rw [hs] at h4
      have h5 : (o, w1) = (Except.ok r, w') := h4
      cases h5
      rw [← e2]
      exact sampleFrom_wellFormed _ _ _ _ _ hs
  | none =>
    obtain ⟨o, w4, h5, h6⟩ := Py.bind_ok_cases h4
    obtain ⟨rs, g', h7, -⟩ := withSelfGen_eq R (S.sampleFrom R w1.est n c) w1
    rw [h7] at h5
    have h8 : (o, w4) = (Except.ok r, w') := h6
    cases h8
    cases hs : S.sampleFrom R w1.est n c (selfGen R w1) with
    | mk o' g1 =>
      rw [hs] at h5
      obtain ⟨h9, h10⟩ := Prod.mk.inj h5
      have h9 : o' = .ok r := Except.ok.inj h9
      subst h9
      rw [← e2, ← h10]
      exact sampleFrom_wellFormed _ _ _ _ _ hs

/-- Drawing an observation fails only for a class's own reasons, so an accepted model samples: here
for the classes in which it cannot fail. -/
theorem C36_total {e : Est α G P} {r : Ready S e} (hr : S.ready e = some r)
    (hem : ∀ z g, ∃ x g', S.sampleSub R e.sub r.θ.emission z g = (.ok x, g')) (n : Int) (c : Option Nat)
    (hc : ∀ k, c = some k → k < e.nComponents) (g : G) :
    ∃ o g', S.sampleFrom R e n c g = (.ok o, g') := by
  unfold Sub.sampleFrom
  rw [hr]
  haveI : NeZero e.nComponents := ⟨r.pos⟩
  have key : ∀ c', ∃ o g', S.sampleWith R e.sub r.θ n c' g = (.ok o, g') := by
    intro c'
    obtain ⟨l, g', h⟩ := sampleCore_ok (R := R) (π := r.θ.startprob) (A := r.θ.transmat) hem n c' g
    unfold Sub.sampleWith
    rw [h]
    exact ⟨_, _, rfl⟩
  cases c with
  | none => exact key none
  | some c =>
    dsimp only
    rw [dif_pos (hc c rfl)]
    exact key _

end

/-- Sampling an observation never fails for PoissonHMM, nor for CategoricalHMM with at least one
symbol, nor for MultinomialHMM with one `n_trials`. -/
theorem C36_emission {α G : Type} [FloatLike α] (R : RandomLib α G) {nc nf : Nat} (z : Fin nc) (g : G) :
    (∀ p θ, ∃ x g', (poisSub (α := α) (G := G)).sampleSub R p (nc := nc) (nf := nf) θ z g = (.ok x, g')) ∧
    (nf ≠ 0 → ∀ p θ, ∃ x g', (catSub (α := α) (G := G)).sampleSub R p (nc := nc) (nf := nf) θ z g = (.ok x, g')) ∧
    (∀ p θ k, p.nTrials = some (.scalar k) →
      ∃ x g', (multiSub (α := α) (G := G)).sampleSub R p (nc := nc) (nf := nf) θ z g = (.ok x, g')) := by
  refine ⟨fun p θ => ⟨_, _, rfl⟩, fun h p θ => ?_, fun p θ k h => ?_⟩
  · simp only [catSub, dif_neg h]
    exact ⟨_, _, rfl⟩
  · simp only [multiSub, uniqueTrials, h]
    exact ⟨_, _, rfl⟩

/-! ## C38 -/

section
variable {G : Type} {nc : ℕ} [NeZero nc] {R : RandomLib XF G}

/-- **C38.** One step: positive transition probability if the row sums to at least one. -/
theorem C38_step (p : Fin nc → ℝ) (g : G) (u : ℝ) (hr : (R.rand g).1 = .fin u) (h0 : 0 ≤ u) (h1 : u < 1)
    (hs : 1 ≤ ∑ j, p j) : 0 < p (drawState R (fun j => XF.fin (p j)) g).1 := by
  have : (drawState R (fun j => XF.fin (p j)) g).1 = pick p u := by
    unfold drawState pick
    rw [← hr]
  rw [this]
  exact (pick_pos p h0 (by linarith)).1

/-- **C38.** A row of zeros (more generally: a draw not below any partial sum) silently gives
state 0. -/
theorem C38_short_row (p : Fin nc → ℝ) (g : G) (u : ℝ) (hr : (R.rand g).1 = .fin u)
    (hs : ∀ k ≤ nc, ∑ j with j.val < k, p j ≤ u) : (drawState R (fun j => XF.fin (p j)) g).1 = 0 := by
  have : (drawState R (fun j => XF.fin (p j)) g).1 = pick p u := by
    unfold drawState pick
    rw [← hr]
  rw [this]
  refine argmaxBool_none fun j => ?_
  rw [← Bool.not_eq_true, pick_lt]
  exact not_lt.2 (hs _ j.isLt)

theorem C38_zero_row (g : G) (u : ℝ) (hr : (R.rand g).1 = .fin u) (h0 : 0 ≤ u) :
    (drawState R (fun _ : Fin nc => XF.fin 0) g).1 = 0 :=
  C38_short_row (fun _ => 0) g u hr fun k _ => by simpa using h0

variable {Obs : Type} {em : Fin nc → G → Except PyErr Obs × G}

/-- **C38.** Whole samples: every step, and the first state unless it was given, has positive
probability. -/
theorem C38_path (π : Fin nc → ℝ) (A : Fin nc → Fin nc → ℝ) (hπ : 1 ≤ ∑ i, π i) (hA : ∀ i, 1 ≤ ∑ j, A i j)
    (hu : ∀ g, ∃ u, (R.rand g).1 = .fin u ∧ 0 ≤ u ∧ u < 1) (n : Int) (c : Option (Fin nc)) (g : G)
    {l : List (Fin nc × Obs)} {g' : G}
    (h : sampleCore R (fun i => .fin (π i)) (fun i j => .fin (A i j)) em n c g = (.ok l, g')) :
    (l.map Prod.fst).IsChain (fun i j => 0 < A i j) ∧
      (c = none → ∀ z ∈ (l.map Prod.fst).head?, 0 < π z) := by
  have hl : ∀ (n : Nat) (cur : Fin nc) (g : G) (l : List (Fin nc × Obs)) (g' : G),
      sampleLoop R (fun i j => XF.fin (A i j)) em n cur g = (.ok l, g') →
        (cur :: l.map Prod.fst).IsChain (fun i j => 0 < A i j) := by
    intro n
    induction n with
    | zero =>
      intro cur g l g' h
      cases h
      exact List.isChain_singleton _
    | succ n ih =>
      intro cur g l g' h
      unfold sampleLoop at h
      dsimp only at h
      split at h
      · cases h
      · split at h
        · cases h
        · next hr =>
          cases h
          obtain ⟨u, hu1, hu2, hu3⟩ := hu g
          refine List.isChain_cons_cons.2 ⟨?_, ih _ _ _ _ hr⟩
          exact C38_step (A cur) g u hu1 hu2 hu3 (hA cur)
  unfold sampleCore at h
  dsimp only at h
  split at h
  · cases h
  · split at h
    · cases h
    · next hr =>
      cases h
      refine ⟨hl _ _ _ _ _ hr, ?_⟩
      rintro rfl z hz
      obtain ⟨u, hu1, hu2, hu3⟩ := hu g
      cases hz
      exact C38_step π g u hu1 hu2 hu3 hπ

end

/-- **C38 in rounded arithmetic.** With every addition rounded (monotone, and exact on values that
are already rounded), the chosen entry is still positive whenever some partial sum exceeds the draw. -/
theorem C38_rounded (ρ : Rounding) (h0 : ρ.rnd 0 = .fin 0) (hid : ∀ r x, ρ.rnd r = .fin x → ρ.rnd x = .fin x)
    {nc : ℕ} [NeZero nc] {G : Type} (R : RandomLib (RX ρ) G) (p : Fin nc → ℝ) (g : G) (u : ℝ)
    (hr : (R.rand g).1 = XF.fin u) (hu : 0 ≤ u)
    (hs : ∃ j, (lt (α := RX ρ) (XF.fin u) (cumsum (α := RX ρ) (fun j => XF.fin (p j)) j)) = true) :
    0 < p (drawState R (fun j => (XF.fin (p j) : RX ρ)) g).1 := by
  set z := (drawState R (fun j => (XF.fin (p j) : RX ρ)) g).1 with hz
  have hz' : z = argmaxBool fun j => lt (α := RX ρ) (XF.fin u) (cumsum (α := RX ρ) (fun j => XF.fin (p j)) j) := by
    rw [hz]
    unfold drawState
    rw [← hr]
  obtain ⟨h1, h2⟩ := argmaxBool_first hs
  rw [← hz'] at h1 h2
  -- partial sums are `-inf`, or finite and already rounded
  have hps : ∀ k ≤ nc, partialSum (α := RX ρ) (fun j => (XF.fin (p j) : RX ρ)) k = XF.ninf ∨
      ∃ a, partialSum (α := RX ρ) (fun j => (XF.fin (p j) : RX ρ)) k = XF.fin a ∧ ρ.rnd a = .fin a := by
    intro k hk
    induction k with
    | zero => exact .inr ⟨0, rfl, h0⟩
    | succ k ih =>
      rw [partialSum_succ _ hk]
      rcases ih (by omega) with h | ⟨a, h, ha⟩
      · left
        rw [h]
        rfl
      · rw [h]
        have e : (RX.instFloatLike ρ).add (XF.fin a) (XF.fin (p ⟨k, hk⟩)) = ρ.rnd (a + p ⟨k, hk⟩) := rfl
        rcases ρ.valid (a + p ⟨k, hk⟩) with h' | ⟨x, h'⟩
        · exact .inl (e.trans h')
        · exact .inr ⟨x, e.trans h', hid _ _ h'⟩
  rw [cumsum_eq, partialSum_succ _ z.isLt] at h1
  rcases hps z.val z.isLt.le with h | ⟨a, h, ha⟩
  · exfalso
    rw [h] at h1
    cases h1
  · rw [h] at h1
    change XF.lt (XF.fin u) (ρ.rnd (a + p z)) = true at h1
    have hau : a ≤ u := by
      rcases Nat.eq_zero_or_pos z.val with hz0 | hz0
      · rw [hz0] at h
        have : XF.fin a = XF.fin 0 := h.symm.trans rfl
        rw [XF.fin.inj this]
        exact hu
      · have hlt : (⟨z.val - 1, by omega⟩ : Fin nc) < z := by
          rw [Fin.lt_def]; simp only; omega
        have h3 := h2 _ hlt
        rw [cumsum_eq] at h3
        simp only [Nat.sub_add_cancel hz0, h] at h3
        have h4 : XF.lt (XF.fin u) (XF.fin a) = false := h3
        simpa [XF.lt] using h4
    by_contra hp
    have hle := ρ.mono (a + p z) a (by linarith)
    rcases ρ.valid (a + p z) with h' | ⟨x, h'⟩
    · rw [h'] at h1; cases h1
    · rw [h', ha] at hle
      rw [h'] at h1
      have hxa : x ≤ a := by simpa [xfKey] using hle
      have hux : u < x := by
        have h5 : XF.lt (XF.fin u) (XF.fin x) = true := h1
        simpa [XF.lt] using h5
      linarith

/-! ## Examples -/

/-- Row `[0, 1/2, 1/2]` and the draw `0`, the boundary case: state 1, not the impossible state 0. -/
example {G : Type} (R : RandomLib XF G) (g : G) (hr : (R.rand g).1 = .fin 0) :
    0 < (![0, 1/2, 1/2] : Fin 3 → ℝ) (drawState R (fun j => XF.fin (![0, 1/2, 1/2] j)) g).1 :=
  C38_step _ g 0 hr le_rfl one_pos (by simp [Fin.sum_univ_succ]; norm_num)

/-- The hypothesis on the sum matters: with row `[0, 1/2]` and draw `3/4`, state 0 is chosen. -/
example {G : Type} (R : RandomLib XF G) (g : G) (hr : (R.rand g).1 = .fin (3 / 4)) :
    (drawState R (fun j => XF.fin ((![0, 1/2] : Fin 2 → ℝ) j)) g).1 = 0 := by
  refine C38_short_row _ g (3 / 4) hr fun k hk => ?_
  have : k = 0 ∨ k = 1 ∨ k = 2 := by omega
  rcases this with rfl | rfl | rfl <;> simp [Finset.sum_filter, Fin.sum_univ_two] <;> norm_num

/-- Three samples from a Poisson model: three states, three rows. -/
example {G : Type} (R : RandomLib XF G) (p : PoisAttrs XF) (θ : Theta XF 2 (Fin 2 → Fin 4 → XF)) (g : G) :
    ∃ states obs g', (poisSub (α := XF) (G := G)).sampleWith R p (nf := 4) θ 3 none g = (.ok (states, ⟨4, obs⟩), g') ∧
      states.length = 3 ∧ obs.length = 3 := by
  obtain ⟨l, g', h⟩ := sampleCore_ok (R := R) (π := θ.startprob) (A := θ.transmat)
    (fun z g => (C36_emission R z g).1 p θ.emission) 3 none g
  have hl := (sampleCore_length _ _ _ h).1
  refine ⟨l.map fun p => p.1.val, l.map Prod.snd, g', ?_, ?_, ?_⟩
  · unfold Sub.sampleWith
    rw [h]
  · simp only [List.length_map]
    omega
  · simp only [List.length_map]
    omega

end Verif
