import Verif.Spec.SampleEmit
import Verif.Props.SampleLaw
import Verif.Props.Features
import Verif.Props.Density
import Mathlib.Analysis.SpecialFunctions.Exponential
import Mathlib.Data.Nat.Choose.Multinomial

/-!
# C64: what `sample` emits

The library routines are ideal: each draws from its documented distribution and leaves a fresh
generator.  Then the observations of `sample` follow the distribution of the state, for every class.
-/

namespace Verif
open FloatLike Spec MeasureTheory

section
variable {G : Type} [MeasurableSpace G] {P : Measure G} [IsProbabilityMeasure P] {nc nf : ℕ} [NeZero nc]

/-- States and observations, read off the pairs drawn. -/
def drawnOut {O : ℕ → Type} (nf : ℕ) (r : Except PyErr (List (Fin nc × O nf))) :
    Except PyErr (List ℕ × ((nf : ℕ) × List (O nf))) :=
  r.map fun l => (l.map fun p => p.1.val, ⟨nf, l.map Prod.snd⟩)

omit [NeZero nc] in
theorem drawn_event {O : ℕ → Type} {n : ℕ} (r : Except PyErr (List (Fin nc × O nf)))
    (z : Fin (n + 1) → Fin nc) (B : Fin (n + 1) → Set (O nf)) :
    (∃ y : Fin (n + 1) → O nf, drawnOut nf r = .ok (List.ofFn fun t => (z t).val, ⟨nf, List.ofFn y⟩) ∧
        ∀ t, y t ∈ B t) ↔
      ∃ y : Fin (n + 1) → O nf, r = .ok (List.ofFn fun t => (z t, y t)) ∧ ∀ t, y t ∈ B t := by
  refine exists_congr fun y => and_congr_left fun _ => ?_
  unfold drawnOut
  cases r with
  | error err => constructor <;> intro h <;> cases h
  | ok l =>
    simp only [Except.map, Except.ok.injEq, Prod.mk.injEq, Sigma.mk.injEq, heq_eq_eq, true_and]
    constructor
    · rintro ⟨h1, h2⟩
      have hlen : l.length = n + 1 := by simpa using congrArg List.length h1
      refine List.ext_get (by simp [hlen]) fun k hk1 hk2 => ?_
      have hk : k < n + 1 := by omega
      have e1 : (l.map fun p => p.1.val)[k]? = (List.ofFn fun t => (z t).val)[k]? := by rw [h1]
      have e2 : (l.map Prod.snd)[k]? = (List.ofFn y)[k]? := congrArg (fun l => l[k]?) h2
      rw [List.getElem?_map, List.getElem?_eq_getElem hk1, List.getElem?_ofFn, dif_pos hk] at e1 e2
      simp only [Option.map_some, Option.some.injEq] at e1 e2
      simp only [List.get_eq_getElem, List.getElem_ofFn]
      exact Prod.ext (Fin.ext e1) e2
    · rintro rfl
      exact ⟨by rw [List.map_ofFn]; rfl, by rw [List.map_ofFn]; rfl⟩

variable {R : RandomLib XF G} {u : G → ℝ} {nx : G → G} {π : Fin nc → ℝ} {A : Fin nc → Fin nc → ℝ}

/-- **C64.** Joint law of the states and observations returned, for any class whose emission hook
draws from `ν`. -/
theorem C64_joint {Q : Type} (S : Sub XF G Q) (p : Q) (q : S.Params nc nf) [MeasurableSpace (S.Obs nf)]
    {x : Fin nc → G → S.Obs nf} {gx : Fin nc → G → G} {ν : Fin nc → Measure (S.Obs nf)}
    (h : IdealSampler P R (S.sampleSub R p q) u nx x gx ν)
    (hπ : ∀ i, 0 ≤ π i) (hπs : ∑ i, π i = 1) (hA : ∀ i j, 0 ≤ A i j) (hs : ∀ i, ∑ j, A i j = 1)
    {n : ℕ} (z : Fin (n + 1) → Fin nc) (B : Fin (n + 1) → Set (S.Obs nf)) (hB : ∀ t, MeasurableSet (B t)) :
    P {g | ∃ y : Fin (n + 1) → S.Obs nf, (S.sampleWith R p (nf := nf)
        ⟨fun i => XF.fin (π i), fun i j => XF.fin (A i j), q⟩ ((n : Int) + 1) none g).1 =
          .ok (List.ofFn fun t => (z t).val, ⟨nf, List.ofFn y⟩) ∧ ∀ t, y t ∈ B t} =
      ENNReal.ofReal (π (z 0) * ∏ t : Fin n, A (z t.castSucc) (z t.succ)) * ∏ t, ν (z t) (B t) := by
  rw [← C37_joint h hπ hπs hA hs z B hB]
  congr 1
  ext g
  simp only [Set.mem_setOf_eq, sampleWith_map]
  exact drawn_event (O := S.Obs) _ z B

/-! ### Sequential draws -/

/-- Two draws in a row are independent. -/
theorem Spec.Draws.seq {β γ : Type} [MeasurableSpace β] [MeasurableSpace γ] {d : G → β × G} {e : G → γ × G}
    {ν : Measure β} {μ : Measure γ} [SFinite ν] [SFinite μ] (h : Draws P d ν) (h' : Draws P e μ) :
    Draws P (fun g => (((d g).1, (e (d g).2).1), (e (d g).2).2)) (ν.prod μ) := by
  have hm : Measurable fun q : β × G => ((q.1, (e q.2).1), (e q.2).2) := by
    have := h'.measurable
    fun_prop
  have he : (fun g => (((d g).1, (e (d g).2).1), (e (d g).2).2)) =
      (fun q : β × G => ((q.1, (e q.2).1), (e q.2).2)) ∘ d := rfl
  refine ⟨hm.comp h.measurable, ?_⟩
  rw [he, ← Measure.map_map hm h.measurable, h.law]
  have h2 : (fun q : β × G => ((q.1, (e q.2).1), (e q.2).2)) =
      MeasurableEquiv.prodAssoc.symm ∘ Prod.map id e := rfl
  rw [h2, ← Measure.map_map MeasurableEquiv.prodAssoc.symm.measurable (measurable_id.prodMap h'.measurable),
    ← Measure.map_prod_map _ _ measurable_id h'.measurable, Measure.map_id, h'.law]
  exact (measurePreserving_prodAssoc ν μ P).symm.map_eq

theorem Spec.Draws.map {β γ : Type} [MeasurableSpace β] [MeasurableSpace γ] {d : G → β × G}
    {ν : Measure β} [SFinite ν] (h : Draws P d ν) {f : β → γ} (hf : Measurable f) :
    Draws P (fun g => (f (d g).1, (d g).2)) (ν.map f) := by
  have hm : Measurable (Prod.map f (id : G → G)) := hf.prodMap measurable_id
  have he : (fun g => (f (d g).1, (d g).2)) = Prod.map f id ∘ d := rfl
  refine ⟨hm.comp h.measurable, ?_⟩
  rw [he, ← Measure.map_map hm h.measurable, h.law, ← Measure.map_prod_map _ _ hf measurable_id, Measure.map_id]

end

/-! ## The laws are what they should be -/

section laws

instance (l : ℝ) : SFinite (poissonLaw l) := by
  unfold poissonLaw
  infer_instance

theorem poissonLaw_singleton (l : ℝ) (k : ℕ) : poissonLaw l {(k : ℤ)} = ENNReal.ofReal (poissonPmf l k) := by
  unfold poissonLaw
  rw [Measure.sum_apply _ (measurableSet_singleton _), tsum_eq_single k]
  · simp
  · intro k' hk
    simp [hk]

theorem multinomialLaw_singleton {nf : ℕ} (n : ℕ) (p : Fin nf → ℝ) (x : Fin nf → ℕ) :
    multinomialLaw n p {fun k => (x k : ℤ)} = if ∑ k, x k = n then ENNReal.ofReal (multinomialPmf p x) else 0 := by
  unfold multinomialLaw
  rw [Measure.sum_apply _ (measurableSet_singleton _), tsum_eq_single x]
  · split_ifs <;> simp
  · intro y hy
    have : ¬ (fun k => (y k : ℤ)) = fun k => (x k : ℤ) := fun h => hy <| by
      funext k
      exact_mod_cast congrFun h k
    split_ifs <;> simp [this]

/-- The Poisson probabilities sum to one. -/
theorem poissonLaw_univ {l : ℝ} (hl : 0 ≤ l) : IsProbabilityMeasure (poissonLaw l) := by
  refine ⟨?_⟩
  unfold poissonLaw
  rw [Measure.sum_apply _ MeasurableSet.univ]
  simp only [Measure.smul_apply, measure_univ, smul_eq_mul, mul_one]
  have h : HasSum (fun k : ℕ => poissonPmf l k) 1 := by
    have := (NormedSpace.expSeries_div_hasSum_exp l).mul_left (Real.exp (-l))
    rw [← Real.exp_eq_exp_ℝ, ← Real.exp_add, neg_add_cancel, Real.exp_zero] at this
    simpa [poissonPmf, mul_div_assoc] using this
  rw [← ENNReal.ofReal_tsum_of_nonneg _ h.summable, h.tsum_eq, ENNReal.ofReal_one]
  intro k
  unfold poissonPmf
  positivity

/-- The multinomial probabilities sum to one. -/
theorem multinomialLaw_univ {nf : ℕ} (n : ℕ) {p : Fin nf → ℝ} (hp : ∀ k, 0 ≤ p k) (hs : ∑ k, p k = 1) :
    IsProbabilityMeasure (multinomialLaw n p) := by
  refine ⟨?_⟩
  unfold multinomialLaw
  rw [Measure.sum_apply _ MeasurableSet.univ]
  simp only [Measure.smul_apply, measure_univ, smul_eq_mul, mul_one]
  have h0 : ∀ x : Fin nf → ℕ, 0 ≤ multinomialPmf p x := fun x =>
    mul_nonneg (Nat.cast_nonneg _) (Finset.prod_nonneg fun k _ => div_nonneg (pow_nonneg (hp k) _) (Nat.cast_nonneg _))
  have hf : ∀ x ∉ Finset.piAntidiag (Finset.univ : Finset (Fin nf)) n,
      (if ∑ k, x k = n then ENNReal.ofReal (multinomialPmf p x) else 0) = 0 := by
    intro x hx
    rw [if_neg]
    intro h
    exact hx (Finset.mem_piAntidiag.2 ⟨h, fun _ _ => Finset.mem_univ _⟩)
  rw [tsum_eq_sum hf]
  have he : ∀ x ∈ Finset.piAntidiag (Finset.univ : Finset (Fin nf)) n,
      (if ∑ k, x k = n then ENNReal.ofReal (multinomialPmf p x) else 0) =
        ENNReal.ofReal (Nat.multinomial Finset.univ x * ∏ k, p k ^ x k) := by
    intro x hx
    have hn := (Finset.mem_piAntidiag.1 hx).1
    rw [if_pos hn]
    congr 1
    unfold multinomialPmf
    have hm := Nat.multinomial_spec (Finset.univ : Finset (Fin nf)) x
    have hm' : ((∑ k, x k).factorial : ℝ) = (∏ k, ((x k).factorial : ℝ)) * Nat.multinomial Finset.univ x := by
      rw [← hm]; push_cast; rfl
    have hne : (∏ k, ((x k).factorial : ℝ)) ≠ 0 :=
      Finset.prod_ne_zero_iff.2 fun k _ => by exact_mod_cast (Nat.factorial_pos _).ne'
    rw [hm', Finset.prod_div_distrib]
    field_simp
  rw [Finset.sum_congr rfl he, ← ENNReal.ofReal_sum_of_nonneg, ← Finset.sum_pow_eq_sum_piAntidiag, hs, one_pow,
    ENNReal.ofReal_one]
  intro x _
  exact mul_nonneg (Nat.cast_nonneg _) (Finset.prod_nonneg fun k _ => pow_nonneg (hp k) _)

instance {nf : ℕ} (n : ℕ) (p : Fin nf → ℝ) : SFinite (multinomialLaw n p) := by
  unfold multinomialLaw
  have : ∀ x : Fin nf → ℕ, SFinite ((if ∑ k, x k = n then ENNReal.ofReal (multinomialPmf p x) else 0) •
      Measure.dirac fun k => (x k : ℤ)) := fun x => inferInstance
  infer_instance

end laws

/-! ## The classes -/

section classes
variable {G : Type} [MeasurableSpace G] {P : Measure G} [IsProbabilityMeasure P] {nc nf : ℕ} [NeZero nc]
  {R : RandomLib XF G} {u : G → ℝ} {nx : G → G} {π : Fin nc → ℝ} {A : Fin nc → Fin nc → ℝ}

/-! ### MultinomialHMM -/

instance : MeasurableSpace ((multiSub (α := XF) (G := G)).Obs nf) := inferInstanceAs (MeasurableSpace (Fin nf → ℤ))
instance : MeasurableSpace ((poisSub (α := XF) (G := G)).Obs nf) := inferInstanceAs (MeasurableSpace (Fin nf → ℤ))

/-- **C64 for MultinomialHMM.** `n_trials` is one number `N` (or a list of equal numbers).  The joint
probability of states and counts is the model's for counts adding up to `N`, and zero otherwise. -/
theorem C64_multinomial (hr : ∀ g, R.rand g = (.fin (u g), nx g)) (hu : Draws P (fun g => (u g, nx g)) uniform)
    {N : ℕ} {p : MultiAttrs XF} (hp : p.nTrials = some (.scalar N) ∨
      ∃ m, p.nTrials = some (.perRow (List.replicate (m + 1) (N : ℤ))))
    {e : Fin nc → Fin nf → ℝ}
    (hmul : ∀ i, Draws P (R.multinomial N fun k => XF.fin (e i k)) (multinomialLaw N (e i)))
    (hπ : ∀ i, 0 ≤ π i) (hπs : ∑ i, π i = 1) (hA : ∀ i j, 0 ≤ A i j) (hs : ∀ i, ∑ j, A i j = 1)
    (he : ∀ i k, 0 ≤ e i k)
    {n : ℕ} (z : Fin (n + 1) → Fin nc) (x : Fin (n + 1) → Fin nf → ℕ) :
    P {g | ((multiSub (α := XF) (G := G)).sampleWith R p (nc := nc) (nf := nf)
        ⟨fun i => XF.fin (π i), fun i j => XF.fin (A i j), fun i k => XF.fin (e i k)⟩ ((n : Int) + 1) none g).1 =
          .ok (List.ofFn fun t => (z t).val, ⟨nf, List.ofFn fun t k => (x t k : ℤ)⟩)} =
      if ∀ t, ∑ k, x t k = N then ENNReal.ofReal (joint π A (fun t => multinomialB e (x t)) z) else 0 := by
  have hu' : uniqueTrials p.nTrials = some (N : ℤ) := by
    rcases hp with h | ⟨m, h⟩ <;> rw [h]
    · rfl
    · simp [uniqueTrials, List.replicate_succ]
  have hid : IdealSampler (Obs := Fin nf → ℤ) P R ((multiSub (α := XF) (G := G)).sampleSub R p (nc := nc) (nf := nf)
      fun i k => XF.fin (e i k)) u nx
      (fun i g => (R.multinomial N (fun k => XF.fin (e i k)) g).1)
      (fun i g => (R.multinomial N (fun k => XF.fin (e i k)) g).2) fun i => multinomialLaw N (e i) :=
    { rand_eq := hr
      rand_law := hu
      em_eq := by intro i g; simp only [multiSub, hu', Int.toNat_natCast]
      em_law := fun i => hmul i }
  have h := C64_joint (multiSub (α := XF) (G := G)) p (fun i k => XF.fin (e i k)) hid hπ hπs hA hs z
    (fun t => {fun k => (x t k : ℤ)}) fun t => measurableSet_singleton (α := Fin nf → ℤ) _
  have hset : {g | ((multiSub (α := XF) (G := G)).sampleWith R p (nc := nc) (nf := nf)
        ⟨fun i => XF.fin (π i), fun i j => XF.fin (A i j), fun i k => XF.fin (e i k)⟩ ((n : Int) + 1) none g).1 =
          .ok (List.ofFn fun t => (z t).val, ⟨nf, List.ofFn fun t k => (x t k : ℤ)⟩)} =
      {g | ∃ y : Fin (n + 1) → Fin nf → ℤ, ((multiSub (α := XF) (G := G)).sampleWith R p (nc := nc) (nf := nf)
        ⟨fun i => XF.fin (π i), fun i j => XF.fin (A i j), fun i k => XF.fin (e i k)⟩ ((n : Int) + 1) none g).1 =
          .ok (List.ofFn fun t => (z t).val, ⟨nf, List.ofFn y⟩) ∧
          ∀ t, y t ∈ ({fun k => (x t k : ℤ)} : Set (Fin nf → ℤ))} := by
    ext g
    constructor
    · intro h; exact ⟨_, h, fun t => rfl⟩
    · rintro ⟨y, h, hy⟩
      have : y = fun t k => (x t k : ℤ) := funext hy
      rw [this] at h
      exact h
  rw [hset]
  refine h.trans ((congrArg (_ * ·) (Finset.prod_congr rfl fun t _ => multinomialLaw_singleton N (e (z t)) (x t))).trans ?_)
  by_cases hx : ∀ t, ∑ k, x t k = N
  · rw [if_pos hx]
    simp only [hx, if_true]
    have h0 : ∀ i (x : Fin nf → ℕ), 0 ≤ multinomialPmf (e i) x := fun i x =>
      mul_nonneg (Nat.cast_nonneg _) (Finset.prod_nonneg fun k _ => div_nonneg (pow_nonneg (he i k) _) (Nat.cast_nonneg _))
    rw [← ENNReal.ofReal_prod_of_nonneg fun t _ => h0 _ _, ← ENNReal.ofReal_mul
      (mul_nonneg (hπ _) (Finset.prod_nonneg fun t _ => hA _ _))]
    rfl
  · rw [if_neg hx]
    push Not at hx
    obtain ⟨t, ht⟩ := hx
    rw [Finset.prod_eq_zero (Finset.mem_univ t) (if_neg ht), mul_zero]

/-! ### PoissonHMM -/

/-- Independent columns. -/
theorem poissonVec_law (hP : ∀ l : ℝ, 0 ≤ l → Draws P (R.poisson (XF.fin l)) (poissonLaw l)) :
    ∀ {k : ℕ} (l : Fin k → ℝ), (∀ j, 0 ≤ l j) →
      Draws P (poissonVec R fun j => XF.fin (l j)) (Measure.pi fun j => poissonLaw (l j))
  | 0, l, _ => by
    refine ⟨measurable_const.prodMk measurable_id, ?_⟩
    have : (poissonVec R fun j => XF.fin (l j)) = fun g : G => ((Fin.elim0 : Fin 0 → ℤ), g) := rfl
    rw [this, Measure.pi_of_empty _ (Fin.elim0 : Fin 0 → ℤ), Measure.dirac_prod]
  | k + 1, l, hl => by
    haveI : ∀ j, IsProbabilityMeasure (poissonLaw (l j)) := fun j => poissonLaw_univ (hl j)
    have h := (hP (l 0) (hl 0)).seq (poissonVec_law hP (fun j => l j.succ) fun j => hl _)
    have hmp := (measurePreserving_piFinSuccAbove (fun j => poissonLaw (l j)) 0).symm
    have h' := h.map hmp.measurable
    have he : (poissonVec R fun j => XF.fin (l j)) = fun g =>
        ((MeasurableEquiv.piFinSuccAbove (fun _ => ℤ) 0).symm ((R.poisson (XF.fin (l 0)) g).1,
          (poissonVec R (fun j => XF.fin (l j.succ)) (R.poisson (XF.fin (l 0)) g).2).1),
          (poissonVec R (fun j => XF.fin (l j.succ)) (R.poisson (XF.fin (l 0)) g).2).2) := by
      funext g
      exact Prod.ext (Fin.insertNth_zero' _ _).symm rfl
    rw [he]
    have hl : (((poissonLaw (l 0)).prod (Measure.pi fun j => poissonLaw (l j.succ))).map
        (MeasurableEquiv.piFinSuccAbove (fun _ => ℤ) 0).symm) = Measure.pi fun j => poissonLaw (l j) := hmp.map_eq
    rw [← hl]
    exact h'

/-- **C64 for PoissonHMM.** The joint probability of states and counts is the model's. -/
theorem C64_poisson (hr : ∀ g, R.rand g = (.fin (u g), nx g)) (hu : Draws P (fun g => (u g, nx g)) uniform)
    (hP : ∀ l : ℝ, 0 ≤ l → Draws P (R.poisson (XF.fin l)) (poissonLaw l)) (p : PoisAttrs XF)
    {l : Fin nc → Fin nf → ℝ} (hl : ∀ i k, 0 ≤ l i k)
    (hπ : ∀ i, 0 ≤ π i) (hπs : ∑ i, π i = 1) (hA : ∀ i j, 0 ≤ A i j) (hs : ∀ i, ∑ j, A i j = 1)
    {n : ℕ} (z : Fin (n + 1) → Fin nc) (x : Fin (n + 1) → Fin nf → ℕ) :
    P {g | ((poisSub (α := XF) (G := G)).sampleWith R p (nc := nc) (nf := nf)
        ⟨fun i => XF.fin (π i), fun i j => XF.fin (A i j), fun i k => XF.fin (l i k)⟩ ((n : Int) + 1) none g).1 =
          .ok (List.ofFn fun t => (z t).val, ⟨nf, List.ofFn fun t k => (x t k : ℤ)⟩)} =
      ENNReal.ofReal (joint π A (fun t => poissonB l (x t)) z) := by
  have hid : IdealSampler (Obs := Fin nf → ℤ) P R ((poisSub (α := XF) (G := G)).sampleSub R p (nc := nc) (nf := nf)
      fun i k => XF.fin (l i k)) u nx
      (fun i g => (poissonVec R (fun k => XF.fin (l i k)) g).1)
      (fun i g => (poissonVec R (fun k => XF.fin (l i k)) g).2) fun i => Measure.pi fun k => poissonLaw (l i k) :=
    { rand_eq := hr
      rand_law := hu
      em_eq := by intro i g; rfl
      em_law := fun i => poissonVec_law hP (l i) (hl i) }
  have h := C64_joint (poisSub (α := XF) (G := G)) p (fun i k => XF.fin (l i k)) hid hπ hπs hA hs z
    (fun t => {fun k => (x t k : ℤ)}) fun t => measurableSet_singleton (α := Fin nf → ℤ) _
  haveI : ∀ i k, IsProbabilityMeasure (poissonLaw (l i k)) := fun i k => poissonLaw_univ (hl i k)
  have h0 : ∀ (l : ℝ) (k : ℕ), 0 ≤ l → 0 ≤ poissonPmf l k := fun l k h => by unfold poissonPmf; positivity
  have hν : ∀ t, (Measure.pi fun k => poissonLaw (l (z t) k)) {fun k => (x t k : ℤ)} =
      ENNReal.ofReal (poissonB l (x t) (z t)) := by
    intro t
    rw [Measure.pi_singleton]
    simp only [poissonLaw_singleton]
    rw [← ENNReal.ofReal_prod_of_nonneg fun k _ => h0 _ _ (hl _ _)]
    rfl
  have hset : {g | ((poisSub (α := XF) (G := G)).sampleWith R p (nc := nc) (nf := nf)
        ⟨fun i => XF.fin (π i), fun i j => XF.fin (A i j), fun i k => XF.fin (l i k)⟩ ((n : Int) + 1) none g).1 =
          .ok (List.ofFn fun t => (z t).val, ⟨nf, List.ofFn fun t k => (x t k : ℤ)⟩)} =
      {g | ∃ y : Fin (n + 1) → Fin nf → ℤ, ((poisSub (α := XF) (G := G)).sampleWith R p (nc := nc) (nf := nf)
        ⟨fun i => XF.fin (π i), fun i j => XF.fin (A i j), fun i k => XF.fin (l i k)⟩ ((n : Int) + 1) none g).1 =
          .ok (List.ofFn fun t => (z t).val, ⟨nf, List.ofFn y⟩) ∧
          ∀ t, y t ∈ ({fun k => (x t k : ℤ)} : Set (Fin nf → ℤ))} := by
    ext g
    constructor
    · intro h; exact ⟨_, h, fun t => rfl⟩
    · rintro ⟨y, h, hy⟩
      have : y = fun t k => (x t k : ℤ) := funext hy
      rw [this] at h
      exact h
  rw [hset]
  refine h.trans ((congrArg (_ * ·) (Finset.prod_congr rfl fun t _ => hν t)).trans ?_)
  have hb0 : ∀ t, 0 ≤ poissonB l (x t) (z t) := fun t => Finset.prod_nonneg fun k _ => h0 _ _ (hl _ _)
  rw [← ENNReal.ofReal_prod_of_nonneg fun t _ => hb0 t, ← ENNReal.ofReal_mul
      (mul_nonneg (hπ _) (Finset.prod_nonneg fun t _ => hA _ _))]
  rfl

/-! ### GaussianHMM -/

/-- The emission hook of `GaussianHMM` draws from the normal distribution with the mean of the state
and the matrix `covars_[state]`. -/
theorem gauss_ideal [MeasurableSpace (Fin nf → XF)]
    {N : (Fin nf → ℝ) → (Fin nf → Fin nf → ℝ) → Measure (Fin nf → XF)} {ty : CovType}
    (hr : ∀ g, R.rand g = (.fin (u g), nx g)) (hu : Draws P (fun g => (u g, nx g)) uniform)
    {p : GaussAttrs XF} {a : NdArray XF} (hp : p.covars = some a) {m : Fin nc → Fin nf → ℝ}
    (S : Fin nc → Fin nf → Fin nf → ℝ)
    (hS : ∀ i : Fin nc, stateCovar a ty nc nf i = .ok (.d2 fun k l => XF.fin (S i k l)))
    (hN : ∀ i, Draws P (R.normal (fun k => XF.fin (m i k)) fun k l => XF.fin (S i k l)) (N (m i) (S i))) :
    IdealSampler (Obs := Fin nf → XF) P R (gaussSample ty R p fun i k => XF.fin (m i k)) u nx
      (fun i g => (R.normal (fun k => XF.fin (m i k)) (fun k l => XF.fin (S i k l)) g).1)
      (fun i g => (R.normal (fun k => XF.fin (m i k)) (fun k l => XF.fin (S i k l)) g).2) fun i => N (m i) (S i) where
  rand_eq := hr
  rand_law := hu
  em_eq := by
    intro i g
    simp [gaussSample, hp, hS, asMat]
  em_law := hN

variable [MeasurableSpace (Fin nf → XF)] {N : (Fin nf → ℝ) → (Fin nf → Fin nf → ℝ) → Measure (Fin nf → XF)}

instance (eig : Eigvalsh XF) : MeasurableSpace ((gaussDiagSub (α := XF) (G := G) eig).Obs nf) :=
  inferInstanceAs (MeasurableSpace (Fin nf → XF))
instance (eig : Eigvalsh XF) : MeasurableSpace ((gaussSphericalSub (α := XF) (G := G) eig).Obs nf) :=
  inferInstanceAs (MeasurableSpace (Fin nf → XF))
instance (eig : Eigvalsh XF) : MeasurableSpace ((gaussFullSub (α := XF) (G := G) eig).Obs nf) :=
  inferInstanceAs (MeasurableSpace (Fin nf → XF))
instance (eig : Eigvalsh XF) : MeasurableSpace ((gaussTiedSub (α := XF) (G := G) eig).Obs nf) :=
  inferInstanceAs (MeasurableSpace (Fin nf → XF))

/-- **C64 for GaussianHMM(covariance_type="full").** -/
theorem C64_gaussian_full (eig : Eigvalsh XF) (hr : ∀ g, R.rand g = (.fin (u g), nx g))
    (hu : Draws P (fun g => (u g, nx g)) uniform) {p : GaussAttrs XF} {m : Fin nc → Fin nf → ℝ} {S : Fin nc → Fin nf → Fin nf → ℝ}
    (hp : p.covars = some (.d3 fun i k l => XF.fin (S i k l)))
    (hN : ∀ i, Draws P (R.normal (fun k => XF.fin (m i k)) fun k l => XF.fin (S i k l)) (N (m i) (S i)))
    (hπ : ∀ i, 0 ≤ π i) (hπs : ∑ i, π i = 1) (hA : ∀ i j, 0 ≤ A i j) (hs : ∀ i, ∑ j, A i j = 1)
    (c : Fin nc → Fin nf → Fin nf → XF) {n : ℕ} (z : Fin (n + 1) → Fin nc) (B : Fin (n + 1) → Set (Fin nf → XF)) (hB : ∀ t, MeasurableSet (B t)) :
    P {g | ∃ y : Fin (n + 1) → Fin nf → XF, ((gaussFullSub (α := XF) (G := G) eig).sampleWith R p (nc := nc) (nf := nf)
        ⟨fun i => XF.fin (π i), fun i j => XF.fin (A i j), ⟨fun i k => XF.fin (m i k), c⟩⟩ ((n : Int) + 1) none g).1 =
          .ok (List.ofFn fun t => (z t).val, ⟨nf, List.ofFn y⟩) ∧ ∀ t, y t ∈ B t} =
      ENNReal.ofReal (π (z 0) * ∏ t : Fin n, A (z t.castSucc) (z t.succ)) *
        ∏ t, N (m (z t)) (S (z t)) (B t) :=
  C64_joint (gaussFullSub (α := XF) (G := G) eig) p
    (⟨fun i k => XF.fin (m i k), c⟩ : Gaussian.FullParams XF nc nf)
    (gauss_ideal (N := N) (ty := .full) hr hu hp (fun i => S i) (C61_ok.1 fun i k l => XF.fin (S i k l)).2 hN) hπ hπs hA hs z B hB

/-- **C64 for GaussianHMM(covariance_type="tied").** -/
theorem C64_gaussian_tied (eig : Eigvalsh XF) (hr : ∀ g, R.rand g = (.fin (u g), nx g))
    (hu : Draws P (fun g => (u g, nx g)) uniform) {p : GaussAttrs XF} {m : Fin nc → Fin nf → ℝ} {S : Fin nf → Fin nf → ℝ}
    (hp : p.covars = some (.d2 fun k l => XF.fin (S k l)))
    (hN : ∀ i, Draws P (R.normal (fun k => XF.fin (m i k)) fun k l => XF.fin (S k l)) (N (m i) (S)))
    (hπ : ∀ i, 0 ≤ π i) (hπs : ∑ i, π i = 1) (hA : ∀ i j, 0 ≤ A i j) (hs : ∀ i, ∑ j, A i j = 1)
    (c : Fin nf → Fin nf → XF) {n : ℕ} (z : Fin (n + 1) → Fin nc) (B : Fin (n + 1) → Set (Fin nf → XF)) (hB : ∀ t, MeasurableSet (B t)) :
    P {g | ∃ y : Fin (n + 1) → Fin nf → XF, ((gaussTiedSub (α := XF) (G := G) eig).sampleWith R p (nc := nc) (nf := nf)
        ⟨fun i => XF.fin (π i), fun i j => XF.fin (A i j), ⟨fun i k => XF.fin (m i k), c⟩⟩ ((n : Int) + 1) none g).1 =
          .ok (List.ofFn fun t => (z t).val, ⟨nf, List.ofFn y⟩) ∧ ∀ t, y t ∈ B t} =
      ENNReal.ofReal (π (z 0) * ∏ t : Fin n, A (z t.castSucc) (z t.succ)) *
        ∏ t, N (m (z t)) (S) (B t) :=
  C64_joint (gaussTiedSub (α := XF) (G := G) eig) p
    (⟨fun i k => XF.fin (m i k), c⟩ : Gaussian.TiedParams XF nc nf)
    (gauss_ideal (N := N) (ty := .tied) hr hu hp (fun i => S) (C61_ok.2.1 fun k l => XF.fin (S k l)).2 hN) hπ hπs hA hs z B hB

/-- **C64 for GaussianHMM(covariance_type="diag").** -/
theorem C64_gaussian_diag (eig : Eigvalsh XF) (hr : ∀ g, R.rand g = (.fin (u g), nx g))
    (hu : Draws P (fun g => (u g, nx g)) uniform) {p : GaussAttrs XF} {m : Fin nc → Fin nf → ℝ} {v : Fin nc → Fin nf → ℝ}
    (hp : p.covars = some (.d2 fun i k => XF.fin (v i k)))
    (hN : ∀ i, Draws P (R.normal (fun k => XF.fin (m i k)) fun k l => XF.fin (Matrix.diagonal (v i) k l)) (N (m i) (Matrix.diagonal (v i))))
    (hπ : ∀ i, 0 ≤ π i) (hπs : ∑ i, π i = 1) (hA : ∀ i j, 0 ≤ A i j) (hs : ∀ i, ∑ j, A i j = 1)
    (c : Fin nc → Fin nf → XF) {n : ℕ} (z : Fin (n + 1) → Fin nc) (B : Fin (n + 1) → Set (Fin nf → XF)) (hB : ∀ t, MeasurableSet (B t)) :
    P {g | ∃ y : Fin (n + 1) → Fin nf → XF, ((gaussDiagSub (α := XF) (G := G) eig).sampleWith R p (nc := nc) (nf := nf)
        ⟨fun i => XF.fin (π i), fun i j => XF.fin (A i j), ⟨fun i k => XF.fin (m i k), c⟩⟩ ((n : Int) + 1) none g).1 =
          .ok (List.ofFn fun t => (z t).val, ⟨nf, List.ofFn y⟩) ∧ ∀ t, y t ∈ B t} =
      ENNReal.ofReal (π (z 0) * ∏ t : Fin n, A (z t.castSucc) (z t.succ)) *
        ∏ t, N (m (z t)) (Matrix.diagonal (v (z t))) (B t) :=
  C64_joint (gaussDiagSub (α := XF) (G := G) eig) p
    (⟨fun i k => XF.fin (m i k), c⟩ : Gaussian.DiagParams XF nc nf)
    (gauss_ideal (N := N) (ty := .diag) hr hu hp (fun i => Matrix.diagonal (v i)) (C61_ok.2.2.1 v).2 hN) hπ hπs hA hs z B hB

/-- **C64 for GaussianHMM(covariance_type="spherical").** -/
theorem C64_gaussian_spherical (eig : Eigvalsh XF) (hr : ∀ g, R.rand g = (.fin (u g), nx g))
    (hu : Draws P (fun g => (u g, nx g)) uniform) {p : GaussAttrs XF} {m : Fin nc → Fin nf → ℝ} {s : Fin nc → ℝ}
    (hp : p.covars = some (.d1 fun i => XF.fin (s i)))
    (hN : ∀ i, Draws P (R.normal (fun k => XF.fin (m i k)) fun k l => XF.fin (Matrix.diagonal (fun _ => s i) k l)) (N (m i) (Matrix.diagonal fun _ => s i)))
    (hπ : ∀ i, 0 ≤ π i) (hπs : ∑ i, π i = 1) (hA : ∀ i j, 0 ≤ A i j) (hs : ∀ i, ∑ j, A i j = 1)
    (c : Fin nc → Fin nf → XF) {n : ℕ} (z : Fin (n + 1) → Fin nc) (B : Fin (n + 1) → Set (Fin nf → XF)) (hB : ∀ t, MeasurableSet (B t)) :
    P {g | ∃ y : Fin (n + 1) → Fin nf → XF, ((gaussSphericalSub (α := XF) (G := G) eig).sampleWith R p (nc := nc) (nf := nf)
        ⟨fun i => XF.fin (π i), fun i j => XF.fin (A i j), ⟨fun i k => XF.fin (m i k), c⟩⟩ ((n : Int) + 1) none g).1 =
          .ok (List.ofFn fun t => (z t).val, ⟨nf, List.ofFn y⟩) ∧ ∀ t, y t ∈ B t} =
      ENNReal.ofReal (π (z 0) * ∏ t : Fin n, A (z t.castSucc) (z t.succ)) *
        ∏ t, N (m (z t)) (Matrix.diagonal fun _ => s (z t)) (B t) :=
  C64_joint (gaussSphericalSub (α := XF) (G := G) eig) p
    (⟨fun i k => XF.fin (m i k), c⟩ : Gaussian.DiagParams XF nc nf)
    (gauss_ideal (N := N) (ty := .spherical) hr hu hp (fun i => Matrix.diagonal fun _ => s i) (C61_ok.2.2.2 s).2 hN) hπ hπs hA hs z B hB

end classes

/-! ## Samples pass the validation of the model they come from -/

section accepted
variable {α G Q Obs : Type} [FloatLike α] {nc : Nat} [NeZero nc]

theorem sampleLoop_all {R : RandomLib α G} {A : Fin nc → Fin nc → α} {em : Fin nc → G → Except PyErr Obs × G}
    {Good : Obs → Prop} (hem : ∀ z g x g', em z g = (.ok x, g') → Good x) (n : Nat) (cur : Fin nc) (g : G)
    {l : List (Fin nc × Obs)} {g' : G} (h : sampleLoop R A em n cur g = (.ok l, g')) : ∀ p ∈ l, Good p.2 := by
  induction n generalizing cur g l g' with
  | zero => cases h; simp
  | succ n ih =>
    unfold sampleLoop at h
    dsimp only at h
    split at h
    · cases h
    · next hx =>
      split at h
      · cases h
      · next hr =>
        cases h
        intro p hp
        rcases List.mem_cons.1 hp with rfl | hp
        · exact hem _ _ _ _ hx
        · exact ih _ _ hr p hp

theorem sampleCore_all {R : RandomLib α G} {π : Fin nc → α} {A : Fin nc → Fin nc → α}
    {em : Fin nc → G → Except PyErr Obs × G}
    {Good : Obs → Prop} (hem : ∀ z g x g', em z g = (.ok x, g') → Good x) (n : Int) (c : Option (Fin nc)) (g : G)
    {l : List (Fin nc × Obs)} {g' : G} (h : sampleCore R π A em n c g = (.ok l, g')) : ∀ p ∈ l, Good p.2 := by
  unfold sampleCore at h
  dsimp only at h
  split at h
  · cases h
  · next hx =>
    split at h
    · cases h
    · next hr =>
      cases h
      intro p hp
      rcases List.mem_cons.1 hp with rfl | hp
      · exact hem _ _ _ _ hx
      · exact sampleLoop_all hem _ _ _ hr p hp

theorem sampleFrom_all {S : Sub α G Q} {R : RandomLib α G} {e : Est α G Q} {n : Int} {c : Option Nat} {g g' : G}
    {r : List Nat × ((nf : Nat) × List (S.Obs nf))} (h : S.sampleFrom R e n c g = (.ok r, g'))
    {Good : {nf : Nat} → S.Obs nf → Prop}
    (hS : ∀ {nc nf : Nat} (θ : S.Params nc nf) z g x g', S.sampleSub R e.sub θ z g = (.ok x, g') → Good x) :
    ∀ x ∈ r.2.2, Good x := by
  unfold Sub.sampleFrom at h
  cases hr : S.ready e with
  | none => rw [hr] at h; cases h
  | some rd =>
    rw [hr] at h
    haveI : NeZero e.nComponents := ⟨rd.pos⟩
    have key : ∀ c' : Option (Fin e.nComponents), S.sampleWith R e.sub rd.θ n c' g = (.ok r, g') →
        ∀ x ∈ r.2.2, Good x := by
      intro c' h
      unfold Sub.sampleWith at h
      cases hc : sampleCore R rd.θ.startprob rd.θ.transmat (S.sampleSub R e.sub rd.θ.emission) n c' g with
      | mk o g1 =>
        rw [hc] at h
        cases o with
        | error err => cases h
        | ok l =>
          cases h
          intro x hx
          obtain ⟨p, hp, rfl⟩ := List.mem_map.1 hx
          exact sampleCore_all (Good := Good) (hS rd.θ.emission) _ _ _ hc p hp
    cases c with
    | none => exact key none h
    | some c =>
      dsimp only at h
      split at h
      · next hlt => exact key (some ⟨c, hlt⟩) h
      · cases h

/-- **C64.** What a `MultinomialHMM` with a single number of trials samples passes its own validation:
the right number of columns, no negative counts, every row adding up to `n_trials`. -/
theorem C64_multinomial_accepted {R : RandomLib α G}
    (hR : ∀ {k : Nat} (n : Nat) (p : Fin k → α) g, k ≠ 0 → (∀ j, 0 ≤ (R.multinomial n p g).1 j) ∧
      ∑ j, (R.multinomial n p g).1 j = n)
    {e : Est α G (MultiAttrs α)} (h0 : e.nFeatures ≠ some 0) {N : Nat} (hN : e.sub.nTrials = some (.scalar N))
    {n : Int} {c : Option Nat} {g g' : G} {r : List Nat × ((nf : Nat) × List (Fin nf → Int))}
    (h : multiSub.sampleFrom R e n c g = (.ok r, g')) :
    CountsOk e.nFeatures e.sub.nTrials (.ints r.2.2 : XArr α) := by
  have hnf := (sampleFrom_wellFormed (S := multiSub) e n c g g' h).2
  have hall := sampleFrom_all (S := multiSub) h
    (Good := fun {nf} (x : Fin nf → Int) => nf ≠ 0 → (∀ j, 0 ≤ x j) ∧ ∑ j, x j = N) (by
      intro nc nf θ z g x g' hx h0
      have hx : (match uniqueTrials e.sub.nTrials with
        | none => (.error (.valueError "For sampling, a single n_trials must be given"), g)
        | some n => let (x, g) := R.multinomial n.toNat (θ z) g; (.ok x, g) :
          Except PyErr (Fin nf → Int) × G) = (.ok x, g') := hx
      rw [hN] at hx
      simp only [uniqueTrials, Int.toNat_natCast] at hx
      have e1 : (R.multinomial N (θ z) g).1 = x := Except.ok.inj (Prod.mk.inj hx).1
      exact e1 ▸ hR N (θ z) g h0)
  have h0 : r.2.1 ≠ 0 := fun h => h0 (by rw [hnf, h])
  refine ⟨?_, trivial, ?_, ?_⟩
  · intro m hm
    rw [hnf] at hm
    exact Option.some.inj hm
  · rintro k ⟨x, hx, j, rfl⟩
    exact (hall x hx h0).1 j
  · intro t ht
    rw [hN] at ht
    cases ht
    rintro i s ⟨x, hx, rfl⟩
    exact (hall x (List.mem_of_getElem? hx) h0).2

/-- **C64.** With numbers of trials that differ, a `MultinomialHMM` refuses to sample. -/
theorem C64_multinomial_refuses {R : RandomLib α G} {e : Est α G (MultiAttrs α)} {a b : Int} {l : List Int}
    (hN : e.sub.nTrials = some (.perRow l)) (ha : a ∈ l) (hb : b ∈ l) (hab : a ≠ b)
    {rd : Ready multiSub e} (hr : multiSub.ready e = some rd) (n : Int) (g : G) :
    ∃ g', multiSub.sampleFrom R e n none g =
      (.error (.valueError "For sampling, a single n_trials must be given"), g') := by
  have hu : uniqueTrials e.sub.nTrials = none := by
    rw [hN]
    cases l with
    | nil => rfl
    | cons x l =>
      simp only [uniqueTrials]
      rw [if_neg]
      intro hall
      simp only [List.all_eq_true, beq_iff_eq] at hall
      have : ∀ y ∈ x :: l, y = x := by
        intro y hy
        rcases List.mem_cons.1 hy with rfl | hy
        · rfl
        · exact hall y hy
      exact hab ((this a ha).trans (this b hb).symm)
  have hs : ∀ {nc nf : Nat} (θ : Fin nc → Fin nf → α) (z : Fin nc) g, (multiSub (α := α) (G := G)).sampleSub R e.sub
      (nc := nc) (nf := nf) θ z g = (.error (.valueError "For sampling, a single n_trials must be given"), g) := by
    intro nc nf θ z g
    simp only [multiSub, hu]
  unfold Sub.sampleFrom
  rw [hr]
  haveI : NeZero e.nComponents := ⟨rd.pos⟩
  simp only [Sub.sampleWith, sampleCore]
  have h1 := hs (nf := rd.nf) rd.θ.emission
  rw [h1]
  exact ⟨_, rfl⟩

/-- **C64.** What a `CategoricalHMM` samples passes its own validation. -/
theorem C64_categorical_accepted {R : RandomLib α G} {e : Est α G (CatAttrs α)}
    {n : Int} {c : Option Nat} {g g' : G} {r : List Nat × ((nf : Nat) × List Int)}
    (h : catSub.sampleFrom R e n c g = (.ok r, g')) :
    SymbolsOk e.nFeatures (.ints (r.2.2.map fun k (_ : Fin 1) => k) : XArr α) := by
  have hnf := (sampleFrom_wellFormed (S := catSub) e n c g g' h).2
  have hall := sampleFrom_all (S := catSub) h
    (Good := fun {nf} (x : Int) => 0 ≤ x ∧ x < nf) (by
      intro nc nf θ z g x g' hx
      have hx : (let (u, g) := R.rand g
        if h : nf = 0 then (.error (.valueError "attempt to get argmax of an empty sequence"), g)
        else
          haveI : NeZero nf := ⟨h⟩
          (.ok ((argmaxBool fun j => lt u (cumsum (θ z) j)).val : Int), g) :
          Except PyErr Int × G) = (.ok x, g') := hx
      dsimp only at hx
      split at hx
      · cases hx
      · have := (Prod.mk.inj hx).1
        rw [← Except.ok.inj this]
        exact ⟨Int.natCast_nonneg _, by exact_mod_cast Fin.isLt _⟩)
  refine ⟨trivial, ?_, ?_⟩
  · rintro k ⟨x, hx, j, rfl⟩
    obtain ⟨y, hy, rfl⟩ := List.mem_map.1 hx
    exact (hall y hy).1
  · intro m hm k hk
    obtain ⟨x, hx, j, rfl⟩ := hk
    obtain ⟨y, hy, rfl⟩ := List.mem_map.1 hx
    rw [hnf] at hm
    rw [← Option.some.inj hm]
    exact (hall y hy).2

/-- Such a `multinomial` exists, for any generator: for instance one that puts every trial in the first
category. -/
example (R : RandomLib α G) : ∃ R' : RandomLib α G, ∀ {k : Nat} (n : Nat) (p : Fin k → α) g, k ≠ 0 →
    (∀ j, 0 ≤ (R'.multinomial n p g).1 j) ∧ ∑ j, (R'.multinomial n p g).1 j = n := by
  refine ⟨{ R with multinomial := fun {k} n _ g => (fun j => if j.val = 0 then n else 0, g) }, ?_⟩
  intro k n p g hk
  obtain ⟨k, rfl⟩ := Nat.exists_eq_succ_of_ne_zero hk
  refine ⟨fun j => ?_, ?_⟩
  · dsimp only
    split <;> simp
  · simp [Fin.sum_univ_succ]

end accepted

/-! ## Such a library exists -/

namespace IdealLib

/-- The calls that draw counts. -/
inductive Call where
  | multinomial (k n : ℕ) (p : Fin k → XF)
  | poisson (l : XF)

/-- What a call returns. -/
def Call.Val : Call → Type
  | .multinomial k _ _ => Fin k → ℤ
  | .poisson _ => ℤ

instance : (c : Call) → MeasurableSpace c.Val
  | .multinomial k _ _ => inferInstanceAs (MeasurableSpace (Fin k → ℤ))
  | .poisson _ => inferInstanceAs (MeasurableSpace ℤ)

open Classical in
/-- The documented law of `multinomial`; arguments outside the documented domain return zero. -/
noncomputable def multiOf {k : ℕ} (n : ℕ) (p : Fin k → XF) : Measure (Fin k → ℤ) :=
  if h : ∃ q : Fin k → ℝ, (∀ j, 0 ≤ q j) ∧ ∑ j, q j = 1 ∧ p = fun j => XF.fin (q j) then
    multinomialLaw n h.choose
  else Measure.dirac 0

open Classical in
/-- The documented law of `poisson`; arguments outside the documented domain return zero. -/
noncomputable def poisOf (l : XF) : Measure ℤ :=
  if h : ∃ q : ℝ, 0 ≤ q ∧ l = XF.fin q then poissonLaw h.choose else Measure.dirac 0

instance {k : ℕ} (n : ℕ) (p : Fin k → XF) : IsProbabilityMeasure (multiOf n p) := by
  unfold multiOf
  split
  · next h => exact multinomialLaw_univ n h.choose_spec.1 h.choose_spec.2.1
  · infer_instance

instance (l : XF) : IsProbabilityMeasure (poisOf l) := by
  unfold poisOf
  split
  · next h => exact poissonLaw_univ h.choose_spec.1
  · infer_instance

theorem multiOf_fin {k : ℕ} (n : ℕ) {q : Fin k → ℝ} (hq : ∀ j, 0 ≤ q j) (hs : ∑ j, q j = 1) :
    multiOf n (fun j => XF.fin (q j)) = multinomialLaw n q := by
  have hex : ∃ q' : Fin k → ℝ, (∀ j, 0 ≤ q' j) ∧ ∑ j, q' j = 1 ∧
      (fun j => XF.fin (q j)) = fun j => XF.fin (q' j) := ⟨q, hq, hs, rfl⟩
  unfold multiOf
  rw [dif_pos hex]
  congr 1
  funext j
  exact (XF.fin.inj (congrFun hex.choose_spec.2.2 j)).symm

theorem poisOf_fin {l : ℝ} (hl : 0 ≤ l) : poisOf (XF.fin l) = poissonLaw l := by
  have hex : ∃ q : ℝ, 0 ≤ q ∧ XF.fin l = XF.fin q := ⟨l, hl, rfl⟩
  unfold poisOf
  rw [dif_pos hex]
  congr 1
  exact (XF.fin.inj hex.choose_spec.2).symm

/-- The law of a call. -/
noncomputable def Call.law : (c : Call) → Measure c.Val
  | .multinomial _ n p => multiOf n p
  | .poisson l => poisOf l

instance : (c : Call) → IsProbabilityMeasure c.law
  | .multinomial _ n p => inferInstanceAs (IsProbabilityMeasure (multiOf n p))
  | .poisson l => inferInstanceAs (IsProbabilityMeasure (poisOf l))

/-- Enough randomness for one call: a uniform number, and a value for every other call. -/
abbrev Ω := ℝ × ((c : Call) → c.Val)

noncomputable def μ : Measure Ω := uniform.prod (Measure.infinitePi Call.law)

instance : IsProbabilityMeasure μ := by unfold μ; infer_instance

/-- The library that reads an independent supply of such values. -/
def lib (R : RandomLib XF (ℕ → Ω)) : RandomLib XF (ℕ → Ω) :=
  { R with
    rand := fun g => (.fin (g 0).1, fun n => g (n + 1))
    multinomial := fun {k} n p g => ((g 0).2 (.multinomial k n p), fun n => g (n + 1))
    poisson := fun l g => ((g 0).2 (.poisson l), fun n => g (n + 1)) }

/-- **C64.** All the assumptions on the library hold together. -/
theorem C64_library_exists (R : RandomLib XF (ℕ → Ω)) :
    ∃ R' : RandomLib XF (ℕ → Ω), (∀ g, R'.rand g = (.fin (g 0).1, fun n => g (n + 1))) ∧
      Draws (IdealStream.lawOf μ) (fun g => ((g 0).1, fun n => g (n + 1))) uniform ∧
      (∀ {k : ℕ} (N : ℕ) (q : Fin k → ℝ), (∀ j, 0 ≤ q j) → ∑ j, q j = 1 →
        Draws (IdealStream.lawOf μ) (R'.multinomial N fun j => XF.fin (q j)) (multinomialLaw N q)) ∧
      ∀ l : ℝ, 0 ≤ l → Draws (IdealStream.lawOf μ) (R'.poisson (XF.fin l)) (poissonLaw l) := by
  have h := IdealStream.drawsOf μ
  have hc : ∀ c : Call, μ.map (fun w : Ω => w.2 c) = c.law := by
    intro c
    have : (fun w : Ω => w.2 c) = (fun v : (c : Call) → c.Val => v c) ∘ Prod.snd := rfl
    rw [this, ← Measure.map_map (measurable_pi_apply c) measurable_snd]
    unfold μ
    rw [Measure.map_snd_prod, measure_univ, one_smul]
    exact Measure.infinitePi_map_eval _ c
  have hm : ∀ c : Call, Measurable fun w : Ω => w.2 c := fun c => (measurable_pi_apply c).comp measurable_snd
  refine ⟨lib R, fun g => rfl, ?_, ?_, ?_⟩
  · have h1 := h.map (f := Prod.fst) measurable_fst
    have h2 : μ.map Prod.fst = uniform := by
      unfold μ
      rw [Measure.map_fst_prod, measure_univ, one_smul]
    rw [h2] at h1
    exact h1
  · intro k N q hq hs
    have h1 := h.map (hm (.multinomial k N fun j => XF.fin (q j)))
    rw [hc] at h1
    exact (multiOf_fin N hq hs) ▸ h1
  · intro l hl
    have h1 := h.map (hm (.poisson (XF.fin l)))
    rw [hc] at h1
    exact (poisOf_fin hl) ▸ h1

end IdealLib

/-- **C64**, two states, three trials: states `0, 1` with counts `[1, 2]` and `[3, 0]` have probability
`1 · 1/2 · (3 · 1/2 · (1/2)²) · 1 = 3/16`. -/
example (R : RandomLib XF (ℕ → IdealLib.Ω)) (p : MultiAttrs XF) (hp : p.nTrials = some (.scalar 3)) :
    ∃ R' : RandomLib XF (ℕ → IdealLib.Ω),
      IdealStream.lawOf IdealLib.μ {g | ((multiSub (α := XF) (G := ℕ → IdealLib.Ω)).sampleWith R' p (nc := 2) (nf := 2)
        ⟨fun i => XF.fin (![1, 0] i), fun i j => XF.fin (![![1/2, 1/2], ![0, 1]] i j),
          fun i k => XF.fin (![![1/2, 1/2], ![1, 0]] i k)⟩ 2 none g).1 =
        .ok ([0, 1], ⟨2, [fun k => ((![1, 2] : Fin 2 → ℕ) k : ℤ), fun k => ((![3, 0] : Fin 2 → ℕ) k : ℤ)]⟩)} =
      ENNReal.ofReal (3 / 16) := by
  obtain ⟨R', hr, hu, hm, -⟩ := IdealLib.C64_library_exists R
  refine ⟨R', ?_⟩
  have h := C64_multinomial (nc := 2) (nf := 2) hr hu (N := 3) (p := p) (Or.inl hp)
    (e := ![![1/2, 1/2], ![1, 0]]) (π := ![1, 0]) (A := ![![1/2, 1/2], ![0, 1]])
    (fun i => hm 3 _ (by intro j; fin_cases i <;> fin_cases j <;> norm_num)
      (by fin_cases i <;> norm_num [Fin.sum_univ_two]))
    (by intro i; fin_cases i <;> norm_num) (by norm_num [Fin.sum_univ_two])
    (by intro i j; fin_cases i <;> fin_cases j <;> norm_num)
    (by intro i; fin_cases i <;> norm_num [Fin.sum_univ_two])
    (by intro i j; fin_cases i <;> fin_cases j <;> norm_num) (n := 1) ![0, 1] ![![1, 2], ![3, 0]]
  have hj : joint ![1, 0] ![![1/2, 1/2], ![0, 1]]
      (fun t => multinomialB ![![1/2, 1/2], ![1, 0]] (![![1, 2], ![3, 0]] t)) ![0, 1] = (3 / 16 : ℝ) := by
    simp [joint, multinomialB, multinomialPmf, Fin.prod_univ_succ, Fin.sum_univ_succ, Nat.factorial]
    norm_num
  rw [hj, if_pos (by intro t; fin_cases t <;> simp [Fin.sum_univ_two])] at h
  exact h

end Verif
