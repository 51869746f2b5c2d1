import Verif.Spec.Stops
import Verif.Props.Evidence
import Verif.Props.CountEM
import Verif.Props.SampleEmit
import Verif.Props.GaussianEM
import Verif.Spec.Roundoff
import Verif.Proofs.Variational

/-!
# C85: with a positive tolerance training stops by itself
-/

set_option autoImplicit false

namespace Verif
open FloatLike XF Hmmc Spec Gaussian
open scoped Classical

/-- What the two loops of `fit` have in common: the values `h` they report, no convergence before the end, and
convergence at the end unless all iterations were made or an exception was raised. -/
def Stopped (n : ℕ) (mon : Monitor XF) (out : Monitor XF) (raised : Option PyErr) : Prop :=
  ∃ h : List XF, out = { mon with history := mon.history ++ h, iter := mon.iter + h.length } ∧
    (∀ k, 0 < k → k < h.length →
      ({ mon with history := mon.history ++ h.take k, iter := mon.iter + k } : Monitor XF).converged = false) ∧
    (raised = none → h.length = n ∨ out.converged = true)

theorem stopped_fitLoop {σ : Type} {step : σ → Except PyErr (σ × XF)} (n : ℕ) (s : σ) (mon : Monitor XF) :
    Stopped n mon.reset (fitLoop step n s mon.reset).monitor (fitLoop step n s mon.reset).raised := by
  obtain ⟨h, -, -, h3, h4, h5, -⟩ := fitLoop_spec (step := step) n s mon.reset rfl
  exact ⟨h, h3, h4, h5⟩

theorem stopped_vfitLoop {nc : ℕ} {VP : Type} {step : VTheta XF nc VP → Except PyErr (VTheta XF nc VP × XF)} (n : ℕ)
    (s : VTheta XF nc VP) (mon : Monitor XF) (hfresh : mon.iter = mon.history.length) :
    Stopped n mon (vfitLoop step n s mon).monitor (vfitLoop step n s mon).raised := by
  induction n generalizing s mon with
  | zero => exact ⟨[], by simp [vfitLoop], by simp, by simp [vfitLoop]⟩
  | succ n ih =>
    cases hs : step s with
    | error e => exact ⟨[], by simp [vfitLoop, hs], by simp, by simp [vfitLoop, hs]⟩
    | ok p =>
      obtain ⟨s', v⟩ := p
      by_cases hc : (mon.report v).converged = true
      · refine ⟨[v], ?_, fun k h0 h1 => ?_, fun _ => Or.inr ?_⟩
        · simp only [vfitLoop, hs, hc, if_true]; rfl
        · simp only [List.length_singleton] at h1; omega
        · simp only [vfitLoop, hs, hc, if_true]
      · cases ht : s'.transmat with
        | none =>
          have e : vfitLoop step (n + 1) s mon =
              ⟨s', mon.report v, some (.attributeError "transmat_")⟩ := by
            simp only [vfitLoop, hs, hc, ht]; simp
          rw [e]
          refine ⟨[v], rfl, fun k h0 h1 => ?_, by simp⟩
          simp only [List.length_singleton] at h1; omega
        | some a =>
          have e : vfitLoop step (n + 1) s mon = vfitLoop step n s' (mon.report v) := by
            simp only [vfitLoop, hs, hc, ht]; simp
          rw [e]
          obtain ⟨h, h3, h4, h5⟩ := ih s' (mon.report v) (by simp [Monitor.report, hfresh])
          refine ⟨v :: h, ?_, ?_, ?_⟩
          · rw [h3]; simp only [Monitor.report, List.append_assoc, List.singleton_append,
              List.length_cons, Monitor.mk.injEq, true_and]; omega
          · intro k hk0 hk
            cases k with
            | zero => omega
            | succ k =>
              cases k with
              | zero =>
                simp only [Bool.not_eq_true] at hc
                simpa [Monitor.report] using hc
              | succ k =>
                have := h4 (k + 1) (by omega) (by simpa using hk)
                simp only [Monitor.report, List.append_assoc, List.singleton_append] at this
                rw [← this]
                simp only [List.take_succ_cons]
                congr 2; omega
          · intro hr
            rcases h5 hr with h5 | h5
            · left; simp [h5]
            · exact Or.inr h5

theorem Stopped.within {n : ℕ} {mon out : Monitor XF} {raised : Option PyErr} (hS : Stopped n mon.reset out raised)
    {τ B x : ℝ} (hτ : 0 < τ) (htol : mon.tol = fin τ) (hmon : mon.nIter = n) (hxB : x ≤ B) {l : List ℝ}
    (hl : out.history = l.map fin) (hB : ∀ v ∈ l, v ≤ B) (hx : ∀ v ∈ l.head?, x ≤ v) :
    StopsWithin B x τ n out.history raised := by
  obtain ⟨h, h3, h4, h5⟩ := hS
  have hh : h = l.map fin := by rw [← hl, h3]; simp [Monitor.reset]
  subst hh
  have hconv : ∀ m : Monitor XF, m.tol = fin τ → ∀ l' : List ℝ, m.history = l'.map fin →
      (m.converged = true ↔ m.iter = m.nIter ∨ ∃ l₁ a b, l' = l₁ ++ [a, b] ∧ b - a < τ) := by
    intro m hm l' hl'
    unfold Monitor.converged
    rw [hl', ← List.map_reverse]
    rcases hr : l'.reverse with _ | ⟨b, _ | ⟨a, r⟩⟩
    · have : l' = [] := by simpa using hr
      subst this
      simp
    · have : l' = [b] := by simpa using congrArg List.reverse hr
      subst this
      simp only [List.map_cons, List.map_nil, Bool.or_false, beq_iff_eq]
      refine ⟨Or.inl, fun h => h.resolve_right ?_⟩
      rintro ⟨l₁, a, b', h, -⟩
      have := congrArg List.length h
      simp at this
    · have e : l' = r.reverse ++ [a, b] := by simpa using congrArg List.reverse hr
      simp only [List.map_cons, Bool.or_eq_true, beq_iff_eq, hm]
      refine or_congr Iff.rfl ?_
      rw [show (fin b - fin a : XF) = fin (b - a) from rfl, show lt (fin (b - a)) (fin τ) = decide (b - a < τ) from rfl,
        decide_eq_true_iff]
      refine ⟨fun h => ⟨_, _, _, e, h⟩, ?_⟩
      rintro ⟨l₁, a', b', h, hlt⟩
      rw [e] at h
      have := List.append_inj' h rfl
      simp only [List.cons.injEq, and_true] at this
      rw [this.2.1, this.2.2]
      exact hlt
  have hgap : ∀ j (hj : j + 2 < l.length), τ ≤ l[j + 1] - l[j] := by
    intro j hj
    have h0 := h4 (j + 2) (by omega) (by simpa using hj)
    have hc := (hconv { mon.reset with history := mon.reset.history ++ (l.map fin).take (j + 2), iter := mon.reset.iter + (j + 2) }
      htol (l.take (j + 2)) (by simp [Monitor.reset, List.map_take])).not
    rw [Bool.not_eq_true] at hc
    have hn := hc.1 h0
    by_contra hlt
    refine hn (Or.inr ⟨l.take j, l[j], l[j + 1], ?_, by linarith⟩)
    rw [List.take_succ_eq_append_getElem (by omega), List.take_succ_eq_append_getElem (by omega), List.append_assoc]
    rfl
  have hlen : (l.length : ℝ) ≤ 2 + (B - x) / τ := by
    rcases Nat.lt_or_ge l.length 2 with h2 | h2
    · have : (l.length : ℝ) ≤ 2 := by exact_mod_cast h2.le
      have := div_nonneg (sub_nonneg.2 hxB) hτ.le
      linarith
    · have key : ∀ j (hj : j + 1 < l.length), l[0] + j * τ ≤ l[j] := by
        intro j
        induction j with
        | zero => intro hj; simp
        | succ j ih =>
          intro hj
          have a1 := ih (by omega)
          have a2 := hgap j (by omega)
          push_cast
          linarith
      have k1 := key (l.length - 2) (by omega)
      have k2 := hB l[l.length - 2] (List.getElem_mem _)
      have k3 : x ≤ l[0] := hx _ (by simp [List.head?_eq_getElem?])
      have k4 : ((l.length - 2 : ℕ) : ℝ) = l.length - 2 := by push_cast [Nat.cast_sub h2]; ring
      rw [k4] at k1
      have : ((l.length : ℝ) - 2) ≤ (B - x) / τ := by
        rw [le_div_iff₀ hτ]; linarith
      linarith
  refine ⟨by rw [hl]; simpa using hlen, fun hr hn => ?_⟩
  have hlt : l.length < n := by exact_mod_cast hlen.trans_lt hn
  have h6 := (h5 hr).resolve_left (by simpa using hlt.ne)
  have htol' : out.tol = fin τ := by rw [h3]; exact htol
  obtain ⟨l₁, a, b, e, hab⟩ := ((hconv _ htol' l hl).1 h6).resolve_left (by
    rw [h3]
    simp only [Monitor.reset, List.length_map, zero_add]
    rw [hmon]
    exact hlt.ne)
  exact ⟨l₁.map fin, a, b, by rw [hl, e]; simp, hab⟩

/-- **C85** The loop of `fit`, for any E- and M-step: if the values it reports are finite numbers, the first
is at least `x` and none exceeds `B`, it makes at most `2 + (B - x) / tol` iterations. -/
theorem C85_loop {σ : Type} {step : σ → Except PyErr (σ × XF)} (n : ℕ) (s : σ) (mon : Monitor XF) {τ B x : ℝ}
    (hτ : 0 < τ) (htol : mon.tol = fin τ) (hmon : mon.nIter = n) (hxB : x ≤ B) {l : List ℝ}
    (hl : (fitLoop step n s mon.reset).monitor.history = l.map fin) (hB : ∀ v ∈ l, v ≤ B)
    (hx : ∀ v ∈ l.head?, x ≤ v) :
    StopsWithin B x τ n (fitLoop step n s mon.reset).monitor.history (fitLoop step n s mon.reset).raised :=
  (stopped_fitLoop n s mon).within hτ htol hmon hxB hl hB hx

variable {nc nf : ℕ} [NeZero nc]

/-- **C85** `CategoricalHMM`: at most `2 + (-log L) / tol` iterations, `L` the likelihood of the training data
under the parameters training starts from. -/
theorem C85_categorical {π : Fin nc → ℝ} {A : Fin nc → Fin nc → ℝ} {e : Fin nc → Fin nf → ℝ}
    (sp : Fin nc → ℝ) (tp : Fin nc → Fin nc → ℝ) (ep : Fin nc → Fin nf → ℝ)
    (hsp : ∀ i, 1 ≤ sp i) (htp : ∀ i j, 1 ≤ tp i j) (hep : ∀ i k, 1 ≤ ep i k) (params : List Char)
    (impl : Impl) (nIter : ℕ) (ss : List (ObsSeq (Fin nf))) (hne : ss ≠ []) (h : CatModel π A e)
    (hL : 0 < catL ss π A e) (hz : ∀ i k, e i k = 0 → ep i k = 1) (mon : Monitor XF) {τ : ℝ} (hτ : 0 < τ)
    (htol : mon.tol = fin τ) (hmon : mon.nIter = nIter) :
    let out := catFit sp tp ep params impl nIter ss (Categorical.params π A e) mon
    StopsWithin 0 (Real.log (catL ss π A e)) τ nIter out.monitor.history out.raised := by
  intro out
  obtain ⟨p, a, q, h0, h1, h2, hmod, -, hpos, hh, -⟩ := C29_em_penalised sp tp ep hsp htp hep params impl nIter ss hne h hL hz mon
  have hle : ∀ k, Real.log (catL ss (p k) (a k) (q k)) ≤ 0 := fun k => by
    have hm := hmod k
    refine Real.log_nonpos ?_ (dataLikelihood_le_one hm.π_nonneg hm.π_sum hm.A_nonneg hm.A_sum (fun o i => hm.e_nonneg _ _)
      (fun o i => (Finset.single_le_sum (fun k _ => hm.e_nonneg i k) (Finset.mem_univ o)).trans (hm.e_sum i)) ss)
    exact List.prod_nonneg fun x hx => by
      obtain ⟨s, -, rfl⟩ := List.mem_map.1 hx
      exact likelihood_nonneg hm.π_nonneg hm.A_nonneg fun t i => hm.e_nonneg _ _
  refine C85_loop nIter _ mon hτ htol hmon (by rw [← h0, ← h1, ← h2]; exact hle 0)
    (l := (List.range out.monitor.history.length).map fun k => Real.log (catL ss (p k) (a k) (q k)))
    (by rw [List.map_map]; exact hh) ?_ ?_
  · intro v hv
    obtain ⟨k, -, rfl⟩ := List.mem_map.1 hv
    exact hle k
  · intro v hv
    cases hn : out.monitor.history.length with
    | zero => rw [hn] at hv; simp at hv
    | succ n =>
      rw [hn, List.range_succ_eq_map] at hv
      simp only [List.map_cons, List.head?_cons, Option.mem_def, Option.some.injEq] at hv
      rw [← hv, h0, h1, h2]

/-! ## Counts -/

omit [NeZero nc] in
theorem poissonB_le_one {l : Fin nc → Fin nf → ℝ} (hl : ∀ i k, 0 ≤ l i k) (x : Fin nf → ℕ) (i : Fin nc) :
    0 ≤ poissonB l x i ∧ poissonB l x i ≤ 1 := by
  have h0 : ∀ k, 0 ≤ poissonPmf (l i k) (x k) := fun k =>
    div_nonneg (mul_nonneg (Real.exp_pos _).le (pow_nonneg (hl i k) _)) (Nat.cast_nonneg _)
  refine ⟨Finset.prod_nonneg fun k _ => h0 k, Finset.prod_le_one (fun k _ => h0 k) fun k _ => ?_⟩
  have h := Real.pow_div_factorial_le_exp (l i k) (hl i k) (x k)
  unfold poissonPmf
  rw [mul_div_assoc, Real.exp_neg, inv_mul_le_iff₀ (Real.exp_pos _), mul_one]
  exact h

omit [NeZero nc] in
theorem multinomialB_le_one {e : Fin nc → Fin nf → ℝ} (he : ∀ i k, 0 ≤ e i k) (hs : ∀ i, ∑ k, e i k = 1)
    (x : Fin nf → ℕ) (i : Fin nc) : 0 ≤ multinomialB e x i ∧ multinomialB e x i ≤ 1 := by
  refine ⟨mul_nonneg (Nat.cast_nonneg _)
    (Finset.prod_nonneg fun k _ => div_nonneg (pow_nonneg (he i k) _) (Nat.cast_nonneg _)), ?_⟩
  have := multinomialLaw_univ (∑ k, x k) (he i) (hs i)
  have h := MeasureTheory.prob_le_one (μ := multinomialLaw (∑ k, x k) (e i)) (s := {fun k => (x k : ℤ)})
  rw [multinomialLaw_singleton, if_pos rfl] at h
  simpa [multinomialB] using h

omit [NeZero nc] in
theorem log_dataLikelihood_nonpos {D : Type} {p : Fin nc → ℝ} {A : Fin nc → Fin nc → ℝ} {b : D → Fin nc → ℝ}
    (hp : ∀ i, 0 ≤ p i) (hp1 : ∑ i, p i ≤ 1) (hA : ∀ i j, 0 ≤ A i j) (hs : ∀ i, ∑ j, A i j ≤ 1)
    (hb : ∀ o i, 0 ≤ b o i ∧ b o i ≤ 1) (ss : List (ObsSeq D)) : Real.log (dataLikelihood p A b ss) ≤ 0 := by
  refine Real.log_nonpos ?_ (dataLikelihood_le_one hp hp1 hA hs (fun o i => (hb o i).1) (fun o i => (hb o i).2) ss)
  exact List.prod_nonneg fun x hx => by
    obtain ⟨s, -, rfl⟩ := List.mem_map.1 hx
    exact likelihood_nonneg hp hA fun t i => (hb _ _).1

/-- **C85** `PoissonHMM` with flat priors. -/
theorem C85_poisson {π : Fin nc → ℝ} {A : Fin nc → Fin nc → ℝ} {l : Fin nc → Fin nf → ℝ} (params : List Char)
    (impl : Impl) (nIter : ℕ) (ss : List (ObsSeq (Fin nf → ℕ)))
    (hne : ss ≠ []) (h : PoissonModel π A l) (hL : 0 < dataLikelihood π A (poissonB l) ss)
    (hu : EveryStateUsed π A (poissonB l) ss) (mon : Monitor XF) {τ : ℝ} (hτ : 0 < τ)
    (htol : mon.tol = fin τ) (hmon : mon.nIter = nIter) :
    let out := poissonFit (fun _ => 1) (fun _ _ => 1) (fun _ _ => 0) (fun _ _ => 0) params impl nIter
      ss (Poisson.params π A l) mon
    StopsWithin 0 (Real.log (dataLikelihood π A (poissonB l) ss)) τ nIter out.monitor.history out.raised := by
  intro out
  obtain ⟨v, p, a, l', hh, -, -, hm, -, h1, h2⟩ := C22_poisson params impl nIter ss hne h hL hu mon
  refine C85_loop nIter _ mon hτ htol hmon
    (log_dataLikelihood_nonpos h.π_nonneg h.π_sum h.A_nonneg h.A_sum (poissonB_le_one h.l_nonneg) ss) hh
    (fun x hx => (h1 x hx).trans
      (log_dataLikelihood_nonpos hm.π_nonneg hm.π_sum hm.A_nonneg hm.A_sum (poissonB_le_one hm.l_nonneg) ss))
    (fun x hx => h2 x (List.mem_of_mem_head? hx))

/-- **C85** `MultinomialHMM` with flat priors. -/
theorem C85_multinomial {π : Fin nc → ℝ} {A : Fin nc → Fin nc → ℝ} {e : Fin nc → Fin nf → ℝ} (params : List Char)
    (impl : Impl) (nIter : ℕ) (ss : List (ObsSeq (Fin nf → ℕ))) (hne : ss ≠ []) (h : MultinomialModel π A e)
    (hL : 0 < dataLikelihood π A (multinomialB e) ss) (hu : EveryStateEmits π A e ss)
    (mon : Monitor XF) {τ : ℝ} (hτ : 0 < τ) (htol : mon.tol = fin τ) (hmon : mon.nIter = nIter) :
    let out := multinomialFit (fun _ => 1) (fun _ _ => 1) params impl nIter ss
      (Multinomial.params π A e) mon
    StopsWithin 0 (Real.log (dataLikelihood π A (multinomialB e) ss)) τ nIter out.monitor.history out.raised := by
  intro out
  obtain ⟨v, p, a, e', hh, -, -, hm, -, h1, h2⟩ := C22_multinomial params impl nIter ss hne h hL hu mon
  refine C85_loop nIter _ mon hτ htol hmon
    (log_dataLikelihood_nonpos h.π_nonneg h.π_sum h.A_nonneg h.A_sum (multinomialB_le_one h.e_nonneg h.e_sum) ss) hh
    (fun x hx => (h1 x hx).trans
      (log_dataLikelihood_nonpos hm.π_nonneg hm.π_sum hm.A_nonneg hm.A_sum (multinomialB_le_one hm.e_nonneg hm.e_sum) ss))
    (fun x hx => h2 x (List.mem_of_mem_head? hx))

/-! ## Gaussian -/

omit [NeZero nc] in
theorem likelihood_le_pow {n : ℕ} {p : Fin nc → ℝ} {A : Fin nc → Fin nc → ℝ} {B : Fin (n + 1) → Fin nc → ℝ} {M : ℝ}
    (hM : 0 < M) (hp : ∀ i, 0 ≤ p i) (hp1 : ∑ i, p i ≤ 1) (hA : ∀ i j, 0 ≤ A i j) (hs : ∀ i, ∑ j, A i j ≤ 1)
    (h0 : ∀ t i, 0 ≤ B t i) (h1 : ∀ t i, B t i ≤ M) : likelihood p A B ≤ M ^ (n + 1) := by
  have h := likelihood_le_sum (B := fun t i => B t i / M) hp hA hs (fun t i => div_nonneg (h0 t i) hM.le)
    fun t i => (div_le_one hM).2 (h1 t i)
  have e : likelihood p A B = M ^ (n + 1) * likelihood p A fun t i => B t i / M := by
    simp only [likelihood, joint, Finset.mul_sum]
    refine Finset.sum_congr rfl fun z _ => ?_
    rw [Finset.prod_div_distrib, Finset.prod_const, Finset.card_univ, Fintype.card_fin]
    field_simp
  rw [e]
  exact mul_le_of_le_one_right (pow_pos hM _).le (h.trans hp1)

omit [NeZero nc] in
theorem dataLikelihood_le_pow {D : Type} {p : Fin nc → ℝ} {A : Fin nc → Fin nc → ℝ} {b : D → Fin nc → ℝ} {M : ℝ}
    (hM : 0 < M) (hp : ∀ i, 0 ≤ p i) (hp1 : ∑ i, p i ≤ 1) (hA : ∀ i j, 0 ≤ A i j) (hs : ∀ i, ∑ j, A i j ≤ 1)
    (h0 : ∀ o i, 0 ≤ b o i) (h1 : ∀ o i, b o i ≤ M) (ss : List (ObsSeq D)) :
    dataLikelihood p A b ss ≤ M ^ totalSamples ss := by
  induction ss with
  | nil => simp [dataLikelihood, totalSamples]
  | cons s ss ih =>
    have e : dataLikelihood p A b (s :: ss) = likelihood p A (s.weights b) * dataLikelihood p A b ss := by
      simp [dataLikelihood]
    have e' : totalSamples (s :: ss) = (s.n + 1) + totalSamples ss := by simp [totalSamples]
    rw [e, e', pow_add]
    refine mul_le_mul (likelihood_le_pow hM hp hp1 hA hs (fun t i => h0 _ _) fun t i => h1 _ _) ih ?_ (pow_pos hM _).le
    exact List.prod_nonneg fun x hx => by
      obtain ⟨s, -, rfl⟩ := List.mem_map.1 hx
      exact likelihood_nonneg hp hA fun t i => h0 _ _

/-- Largest density of a sample of `nf` features when no variance is below `tinyVar`. -/
noncomputable def peak (nf : ℕ) : ℝ := (1 / Real.sqrt (2 * Real.pi * tinyVar)) ^ nf

theorem peak_pos (nf : ℕ) : 0 < peak nf := by
  have := Real.pi_pos
  have := tinyVar_pos
  unfold peak
  positivity

omit [NeZero nc] in
theorem diagB_le_peak (μ v : Fin nc → Fin nf → ℝ) (x : Fin nf → ℝ) (i : Fin nc) : diagB μ v x i ≤ peak nf := by
  have hpi := Real.pi_pos
  have ht := tinyVar_pos
  unfold diagB peak
  rw [show (1 / Real.sqrt (2 * Real.pi * tinyVar)) ^ nf = ∏ _k : Fin nf, 1 / Real.sqrt (2 * Real.pi * tinyVar) by simp]
  refine Finset.prod_le_prod (fun k _ => (normalPdf_pos (effVar_pos _) _ _).le) fun k _ => ?_
  have hv : tinyVar ≤ effVar (v i k) := le_max_right _ _
  unfold normalPdf
  refine div_le_div₀ zero_le_one ?_ (Real.sqrt_pos.2 (by positivity)) (Real.sqrt_le_sqrt (by gcongr))
  refine Real.exp_le_one_iff.2 (div_nonpos_of_nonpos_of_nonneg (neg_nonpos.2 (sq_nonneg _)) ?_)
  linarith

/-- **C85** `GaussianHMM`, `diag` and `spherical`, proper priors: the density code never uses a variance below the
smallest normal double `2^-1022`, so the log-likelihood of `N` samples of `nf` features stays below
`N nf / 2 * log (2^1022 / 2π)`, even if a state collapses on a single sample. -/
theorem C85_gaussian [NeZero nf] (ty : DiagType) (sp : Fin nc → ℝ) (tp : Fin nc → Fin nc → ℝ)
    (hsp : ∀ i, 1 ≤ sp i) (htp : ∀ i j, 1 ≤ tp i j) (g : GaussPrior nc nf) (cp : Fin nc → Fin nf → ℝ)
    (hg : g.Proper cp) (params : List Char) (hcm : 'c' ∈ params → 'm' ∈ params) (impl : Impl)
    (nIter : ℕ) (ss : List (ObsSeq (Fin nf → ℝ))) (hne : ss ≠ []) (p : DiagPoint nc nf)
    (hty : ty.Shape p) (h : ChainModel p.π p.A) (hL : 0 < p.L ss)
    (hu : 0 < g.mw ∨ EveryStateUsed p.π p.A (diagB p.mu p.v) ss) (mon : Monitor XF) {τ : ℝ} (hτ : 0 < τ)
    (htol : mon.tol = fin τ) (hmon : mon.nIter = nIter) :
    let out := gaussFit ty sp tp g cp params impl nIter ss p.theta mon
    StopsWithin (totalSamples ss * (nf * (1 / 2 * Real.log (2 ^ 1022 / (2 * Real.pi))))) (Real.log (p.L ss)) τ nIter
      out.monitor.history out.raised := by
  intro out
  obtain ⟨seq, h0, -, hh, h3, -⟩ := C22_gaussian ty sp tp hsp htp g cp hg params hcm impl nIter ss hne p hty h hL hu mon
  have hB : Real.log (peak nf ^ totalSamples ss) =
      totalSamples ss * (nf * (1 / 2 * Real.log (2 ^ 1022 / (2 * Real.pi)))) := by
    have hpi := Real.pi_pos
    unfold peak
    rw [Real.log_pow, Real.log_pow, one_div, Real.log_inv, Real.log_sqrt (by have := tinyVar_pos; positivity), tinyVar,
      show (2 ^ 1022 / (2 * Real.pi) : ℝ) = (2 * Real.pi * (1 / 2 ^ 1022))⁻¹ by
        generalize (2 : ℝ) ^ 1022 = M
        rw [mul_inv, one_div, inv_inv, div_eq_mul_inv, mul_comm], Real.log_inv]
    ring
  rw [← hB]
  have hle : ∀ k ≤ out.monitor.history.length, Real.log ((seq k).L ss) ≤ Real.log (peak nf ^ totalSamples ss) := by
    intro k hk
    obtain ⟨-, hc, hpos⟩ := h3 k hk
    exact Real.log_le_log hpos (dataLikelihood_le_pow (peak_pos nf) hc.π_nonneg hc.π_sum hc.A_nonneg hc.A_sum
      (fun o i => (diagB_pos _ _ _ _).le) (fun o i => diagB_le_peak _ _ _ _) ss)
  refine C85_loop nIter _ mon hτ htol hmon (by have := hle 0 (Nat.zero_le _); rwa [h0] at this)
    (l := (List.range out.monitor.history.length).map fun k => Real.log ((seq k).L ss))
    (by rw [List.map_map]; exact hh) ?_ ?_
  · intro v hv
    obtain ⟨k, hk, rfl⟩ := List.mem_map.1 hv
    exact hle k (List.mem_range.1 hk).le
  · intro v hv
    cases hn : out.monitor.history.length with
    | zero => rw [hn] at hv; simp at hv
    | succ n =>
      rw [hn, List.range_succ_eq_map] at hv
      simp only [List.map_cons, List.head?_cons, Option.mem_def, Option.some.injEq] at hv
      rw [← hv, h0]

/-! ## Variational -/

/-- **C85** `VariationalCategoricalHMM`: the bound is the logarithm of the evidence, which no lower bound
exceeds (C84). -/
theorem C85_variational_categorical [NeZero nf] {sci : Sci XF} (hsci : sci.Exact)
    {sp : Fin nc → ℝ} {tp : Fin nc → Fin nc → ℝ} {ep : Fin nc → Fin nf → ℝ}
    (hsp : ∀ i, 0 < sp i) (htp : ∀ i j, 0 < tp i j) (hep : ∀ i k, 0 < ep i k)
    (params : List Char) (impl : Impl) (nIter : ℕ) {ss : List (ObsSeq (Fin nf))} (hne : ss ≠ [])
    {s : Fin nc → ℝ} {t : Fin nc → Fin nc → ℝ} {e : Fin nc → Fin nf → ℝ}
    (hs : ∀ i, 0 < s i) (ht : ∀ i j, 0 < t i j) (he : ∀ i k, 0 < e i k)
    (sP : Option (Fin nc → ℝ)) (tP : Option (Fin nc → Fin nc → ℝ)) (eP : Option (Fin nc → Fin nf → ℝ))
    (mon : Monitor XF) {τ : ℝ} (hτ : 0 < τ) (htol : mon.tol = fin τ) (hmon : mon.nIter = nIter) :
    let out := vcatFit sci sp tp ep params impl nIter ss (vcatTheta s t e sP tP eP) mon
    StopsWithin (Real.log (catEvidence sp tp ep ss)) (catLowerBound sp tp ep ss s t e) τ nIter
      out.monitor.history out.raised := by
  intro out
  obtain ⟨σ, ρ, ε, h0, h1, h2, hup, -, -, -, hh⟩ := C53_conjugate hsci hsp htp hep params impl nIter hne hs ht he
    sP tP eP mon
  have hle : ∀ k, catLowerBound sp tp ep ss (σ k) (ρ k) (ε k) ≤ Real.log (catEvidence sp tp ep ss) := fun k => by
    obtain ⟨p1, p2, p3⟩ := C53_pos hup hsp htp hep (h0 ▸ hs) (h1 ▸ ht) (h2 ▸ he) k
    exact catLowerBound_le hsp htp hep p1 p2 p3 ss
  refine (stopped_vfitLoop nIter _ mon.reset rfl).within hτ htol hmon (by have := hle 0; rwa [h0, h1, h2] at this)
    (l := (List.range out.monitor.history.length).map fun k => catLowerBound sp tp ep ss (σ k) (ρ k) (ε k))
    (by rw [List.map_map]; exact hh) ?_ ?_
  · intro v hv
    obtain ⟨k, -, rfl⟩ := List.mem_map.1 hv
    exact hle k
  · intro v hv
    cases hn : out.monitor.history.length with
    | zero => rw [hn] at hv; simp at hv
    | succ n =>
      rw [hn, List.range_succ_eq_map] at hv
      simp only [List.map_cons, List.head?_cons, Option.mem_def, Option.some.injEq] at hv
      rw [← hv, h0, h1, h2]

/-! ## Concrete cases -/

/-- Tolerance `1/100`, up to ten iterations. -/
noncomputable def stopMonitor : Monitor XF := { tol := fin (1 / 100), nIter := 10 }

example (impl : Impl) :=
  C85_poisson ['s', 't', 'l'] impl 10 DemoCounts.ss (by simp [DemoCounts.ss]) DemoCounts.poisson
    DemoCounts.poisson_used.2 DemoCounts.poisson_used.1 stopMonitor (τ := 1 / 100) (by norm_num) rfl rfl

example (impl : Impl) :=
  C85_multinomial ['s', 't', 'e'] impl 10 DemoCounts.ms (by simp [DemoCounts.ms]) DemoCounts.multinomial
    DemoCounts.multinomial_pos DemoCounts.multinomial_emits stopMonitor (τ := 1 / 100) (by norm_num) rfl rfl

open DemoGauss in
example (ty : DiagType) (impl : Impl) :=
  C85_gaussian ty (fun _ => 1) (fun _ _ => 1) (by simp) (by simp) ⟨fun _ _ => 0, 0, 1⟩
    (fun _ _ => 1 / 100) ⟨le_rfl, le_rfl, fun _ _ => by norm_num⟩ ['s', 't', 'm', 'c'] (by simp) impl 10
    ss (by simp [ss]) p (by cases ty <;> simp [DiagType.Shape, p]) chain used.2 (Or.inr used.1) stopMonitor
    (τ := 1 / 100) (by norm_num) rfl rfl

example (impl : Impl) :=
  C85_variational_categorical (nf := 3) Sci.real_exact (sp := fun _ : Fin 2 => 1/2) (tp := fun _ _ => 1/2)
    (ep := fun _ _ => 1/3) (fun _ => by norm_num) (fun _ _ => by norm_num) (fun _ _ => by norm_num) ['s', 't', 'e'] impl
    10 (ss := VDemo.data) (by simp [VDemo.data]) VDemo.s_pos VDemo.t_pos VDemo.e_pos none none none stopMonitor
    (τ := 1 / 100) (by norm_num) rfl rfl

/-- One state that emits either of two symbols with probability `1/2`, one sequence of two samples, tolerance
`1/2`: at most five iterations, although a hundred are allowed. -/
example (impl : Impl) :
    (catFit (fun _ => 1) (fun _ _ => 1) (fun _ _ => 1) ['s', 't', 'e'] impl 100 [⟨1, ![0, 1]⟩]
      (Categorical.params (fun _ : Fin 1 => 1) (fun _ _ => 1) fun _ (_ : Fin 2) => 1 / 2)
      { tol := fin (1 / 2), nIter := 100 }).monitor.history.length ≤ 5 := by
  have hL : catL [⟨1, ![0, 1]⟩] (fun _ : Fin 1 => 1) (fun _ _ => 1) (fun _ (_ : Fin 2) => (1 / 2 : ℝ)) = 1 / 4 := by
    simp only [catL, dataLikelihood, List.map_cons, List.map_nil, List.prod_cons, List.prod_nil, mul_one]
    rw [likelihood_succ, likelihood_one]
    simp [push, ObsSeq.weights, catB, Fin.tail]
    norm_num
  have h := (C85_categorical (fun _ => 1) (fun _ _ => 1) (fun _ _ => 1) (by simp) (by simp) (by simp) ['s', 't', 'e'] impl 100
    [⟨1, ![0, 1]⟩] (by simp) (π := fun _ : Fin 1 => 1) (A := fun _ _ => 1) (e := fun _ (_ : Fin 2) => 1 / 2)
    (by constructor <;> norm_num) (by rw [hL]; norm_num) (by simp) { tol := fin (1 / 2), nIter := 100 }
    (τ := 1 / 2) (by norm_num) rfl rfl).length_le
  rw [hL] at h
  have h2 : Real.log 4 < 2 := by
    have := Real.log_lt_sub_one_of_pos (x := 2) (by norm_num) (by norm_num)
    rw [show (4 : ℝ) = 2 ^ 2 by norm_num, Real.log_pow]
    push_cast
    linarith
  have h3 : Real.log (1 / 4) = -Real.log 4 := by rw [one_div, Real.log_inv]
  rw [h3] at h
  have h4 : ((_ : ℕ) : ℝ) < 6 := h.trans_lt (by linarith)
  exact Nat.lt_succ_iff.1 (by exact_mod_cast h4)

end Verif
