import Verif.Proofs.SampleLaw
import Verif.Props.Sampling
import Verif.Spec.Categorical

/-!
# C37: the law of `sample`

The generator is ideal in the sense of `Spec.Draws`: the law of its state is `P`, `rand` returns a
uniform number in `[0, 1)` and leaves a fresh state.  `IdealStream` shows that such a generator exists.
-/

namespace Verif
open FloatLike Spec MeasureTheory

section
variable {G Obs : Type} [MeasurableSpace G] [MeasurableSpace Obs] {P : Measure G} [IsProbabilityMeasure P]
  {nc : ℕ} [NeZero nc] {R : RandomLib XF G} {u : G → ℝ} {nx : G → G}
  {x : Fin nc → G → Obs} {gx : Fin nc → G → G} {ν : Fin nc → Measure Obs}
  {em : Fin nc → G → Except PyErr Obs × G} {π : Fin nc → ℝ} {A : Fin nc → Fin nc → ℝ}

/-- First observation and rest of the sample, when the state is given. -/
theorem sampleCore_from (h : IdealSampler P R em u nx x gx ν) {n : ℕ} (c : Fin nc)
    (z : Fin (n + 1) → Fin nc) (B : Fin (n + 1) → Set Obs) (g : G) :
    (∃ y : Fin (n + 1) → Obs, (sampleCore R (fun i => XF.fin (π i)) (fun i j => XF.fin (A i j)) em
        ((n : Int) + 1) (some c) g).1 = .ok (List.ofFn fun t => (z t, y t)) ∧ ∀ t, y t ∈ B t) ↔
      c = z 0 ∧ x (z 0) g ∈ B 0 ∧
        gx (z 0) g ∈ loopEvent R A em (z 0) (fun t => z t.succ) fun t => B t.succ := by
  have hn : ((n : Int) + 1 - 1).toNat = n := by omega
  simp only [sampleCore, h.em_eq, hn, loopEvent, Set.mem_setOf_eq]
  cases hl : sampleLoop R (fun i j => XF.fin (A i j)) em n c (gx c g) with
  | mk o g' =>
    constructor
    · rintro ⟨y, hy, hB⟩
      cases o with
      | error err => cases hy
      | ok l =>
        simp only [Except.ok.injEq, List.ofFn_succ, List.cons.injEq, Prod.mk.injEq] at hy
        obtain ⟨⟨h1, h2⟩, h3⟩ := hy
        refine ⟨h1, ?_, fun t => y t.succ, ?_, fun t => hB _⟩
        · rw [← h1, h2]; exact hB 0
        · rw [← h1, hl, h3]
    · rintro ⟨h1, h2, y, hy, hB⟩
      rw [← h1, hl] at hy
      have hy : o = _ := hy
      subst hy
      refine ⟨Fin.cons (x (z 0) g) y, ?_, ?_⟩
      · simp only [Except.ok.injEq, List.ofFn_succ, Fin.cons_zero, Fin.cons_succ, h1]
      · intro t
        refine Fin.cases ?_ (fun t => ?_) t
        · exact h2
        · exact hB t

theorem sampleCore_start (h : IdealSampler P R em u nx x gx ν) (m : Int) (g : G) :
    sampleCore R (fun i => XF.fin (π i)) (fun i j => XF.fin (A i j)) em m none g =
      sampleCore R (fun i => XF.fin (π i)) (fun i j => XF.fin (A i j)) em m (some (pick π (u g))) (nx g) := by
  have hd : drawState R (fun j => XF.fin (π j)) g = (pick π (u g), nx g) := by
    unfold drawState pick
    rw [h.rand_eq]
  simp only [sampleCore, hd]

/-- **C37, starting from a given state.** -/
theorem C37_from (h : IdealSampler P R em u nx x gx ν) (hA : ∀ i j, 0 ≤ A i j) (hs : ∀ i, ∑ j, A i j = 1)
    {n : ℕ} (c : Fin nc) (z : Fin (n + 1) → Fin nc) (B : Fin (n + 1) → Set Obs) (hB : ∀ t, MeasurableSet (B t)) :
    P {g | ∃ y : Fin (n + 1) → Obs, (sampleCore R (fun i => XF.fin (π i)) (fun i j => XF.fin (A i j)) em
        ((n : Int) + 1) (some c) g).1 = .ok (List.ofFn fun t => (z t, y t)) ∧ ∀ t, y t ∈ B t} =
      if z 0 = c then ENNReal.ofReal (∏ t : Fin n, A (z t.castSucc) (z t.succ)) * ∏ t, ν (z t) (B t)
      else 0 := by
  obtain ⟨hm, hP⟩ := loop_law h hA hs (z 0) (fun t => z t.succ) (fun t => B t.succ) fun t => hB _
  have : {g | ∃ y : Fin (n + 1) → Obs, (sampleCore R (fun i => XF.fin (π i)) (fun i j => XF.fin (A i j)) em
        ((n : Int) + 1) (some c) g).1 = .ok (List.ofFn fun t => (z t, y t)) ∧ ∀ t, y t ∈ B t} =
      {g | c = z 0 ∧ x (z 0) g ∈ B 0 ∧
        gx (z 0) g ∈ loopEvent R A em (z 0) (fun t => z t.succ) fun t => B t.succ} := by
    ext g; exact sampleCore_from h c z B g
  rw [this]
  split
  · next hz =>
    simp only [hz, true_and]
    refine ((h.em_law c).prob (hB 0) (hz ▸ hm)).trans ?_
    rw [← hz, hP, Fin.prod_univ_succ]
    have hc : ∀ t : Fin n, (Fin.cons (z 0) (fun t : Fin n => z t.succ) : Fin (n + 1) → Fin nc) = z :=
      fun _ => by
        funext s
        refine Fin.cases ?_ (fun s => ?_) s <;> rfl
    have hc' : ∀ t : Fin n, (Fin.cons (z 0) (fun t : Fin n => z t.succ) : Fin (n + 1) → Fin nc) t.castSucc =
        z t.castSucc := fun t => by rw [hc t]
    simp only [hc']
    ring
  · next hz =>
    simp only [eq_comm (a := c), hz, false_and, Set.setOf_false, measure_empty]

/-- The event is measurable. -/
theorem measurable_joint (h : IdealSampler P R em u nx x gx ν) (hA : ∀ i j, 0 ≤ A i j) (hs : ∀ i, ∑ j, A i j = 1)
    {n : ℕ} (z : Fin (n + 1) → Fin nc) (B : Fin (n + 1) → Set Obs) (hB : ∀ t, MeasurableSet (B t)) :
    MeasurableSet {g | ∃ y : Fin (n + 1) → Obs, (sampleCore R (fun i => XF.fin (π i))
        (fun i j => XF.fin (A i j)) em ((n : Int) + 1) none g).1 =
          .ok (List.ofFn fun t => (z t, y t)) ∧ ∀ t, y t ∈ B t} := by
  obtain ⟨hm, -⟩ := loop_law h hA hs (z 0) (fun t => z t.succ) (fun t => B t.succ) fun t => hB _
  have hI : MeasurableSet {v : ℝ | pick π v = z 0} := measurable_pick π (measurableSet_singleton _)
  simp only [sampleCore_start h, sampleCore_from h]
  exact h.rand_law.measurable (hI.prod ((h.em_law (z 0)).measurable ((hB 0).prod hm)))

/-- **C37.** The states are `z` and every observation `t` lies in `B t`, jointly: the chain moves by
`startprob_` and `transmat_`, and given the states the observations are independent with laws `ν`. -/
theorem C37_joint (h : IdealSampler P R em u nx x gx ν) (hπ : ∀ i, 0 ≤ π i) (hπs : ∑ i, π i = 1)
    (hA : ∀ i j, 0 ≤ A i j) (hs : ∀ i, ∑ j, A i j = 1)
    {n : ℕ} (z : Fin (n + 1) → Fin nc) (B : Fin (n + 1) → Set Obs) (hB : ∀ t, MeasurableSet (B t)) :
    P {g | ∃ y : Fin (n + 1) → Obs, (sampleCore R (fun i => XF.fin (π i)) (fun i j => XF.fin (A i j)) em
        ((n : Int) + 1) none g).1 = .ok (List.ofFn fun t => (z t, y t)) ∧ ∀ t, y t ∈ B t} =
      ENNReal.ofReal (π (z 0) * ∏ t : Fin n, A (z t.castSucc) (z t.succ)) * ∏ t, ν (z t) (B t) := by
  obtain ⟨hm, hP⟩ := loop_law h hA hs (z 0) (fun t => z t.succ) (fun t => B t.succ) fun t => hB _
  have : {g | ∃ y : Fin (n + 1) → Obs, (sampleCore R (fun i => XF.fin (π i)) (fun i j => XF.fin (A i j)) em
        ((n : Int) + 1) none g).1 = .ok (List.ofFn fun t => (z t, y t)) ∧ ∀ t, y t ∈ B t} =
      {g | pick π (u g) = z 0 ∧ nx g ∈ {g1 | ∃ y : Fin (n + 1) → Obs, (sampleCore R (fun i => XF.fin (π i))
        (fun i j => XF.fin (A i j)) em ((n : Int) + 1) (some (z 0)) g1).1 =
          .ok (List.ofFn fun t => (z t, y t)) ∧ ∀ t, y t ∈ B t}} := by
    ext g
    simp only [Set.mem_setOf_eq]
    rw [sampleCore_start h, sampleCore_from h, sampleCore_from h]
    simp only [true_and]
  rw [this]
  have hI : MeasurableSet {v : ℝ | pick π v = z 0} := measurable_pick π (measurableSet_singleton _)
  have hF : MeasurableSet {g1 | ∃ y : Fin (n + 1) → Obs, (sampleCore R (fun i => XF.fin (π i))
        (fun i j => XF.fin (A i j)) em ((n : Int) + 1) (some (z 0)) g1).1 =
          .ok (List.ofFn fun t => (z t, y t)) ∧ ∀ t, y t ∈ B t} := by
    simp only [sampleCore_from h, true_and]
    exact (h.em_law (z 0)).measurable ((hB 0).prod hm)
  refine (h.rand_law.prob hI hF).trans ?_
  rw [uniform_pick hπ hπs, C37_from h hA hs (z 0) z B hB, if_pos rfl, ENNReal.ofReal_mul (hπ _)]
  ring

/-- **C37.** The probability that `sample(n + 1)` produces the state path `z`. -/
theorem C37_states [∀ z, IsProbabilityMeasure (ν z)] (h : IdealSampler P R em u nx x gx ν)
    (hπ : ∀ i, 0 ≤ π i) (hπs : ∑ i, π i = 1) (hA : ∀ i j, 0 ≤ A i j) (hs : ∀ i, ∑ j, A i j = 1)
    {n : ℕ} (z : Fin (n + 1) → Fin nc) :
    P {g | ∃ l, (sampleCore R (fun i => XF.fin (π i)) (fun i j => XF.fin (A i j)) em
        ((n : Int) + 1) none g).1 = .ok l ∧ l.map Prod.fst = List.ofFn z} =
      ENNReal.ofReal (π (z 0) * ∏ t : Fin n, A (z t.castSucc) (z t.succ)) := by
  have hj := C37_joint h hπ hπs hA hs z (fun _ => Set.univ) fun _ => MeasurableSet.univ
  simp only [measure_univ, Finset.prod_const_one, mul_one, Set.mem_univ, implies_true, and_true] at hj
  rw [← hj]
  congr 1
  ext g
  simp only [Set.mem_setOf_eq]
  constructor
  · rintro ⟨l, hl, hz⟩
    have hlen : l.length = n + 1 := by
      have := congrArg List.length hz
      simpa using this
    refine ⟨fun t => (l.get (Fin.cast hlen.symm t)).2, ?_⟩
    rw [hl]
    congr 1
    refine List.ext_get (by simp [hlen]) fun k h1 h2 => ?_
    have hk : (l.map Prod.fst)[k]? = (List.ofFn z)[k]? := by rw [hz]
    have hk' : k < n + 1 := by omega
    simp only [List.getElem?_map, List.getElem?_ofFn, hk', dif_pos] at hk
    rw [List.getElem?_eq_getElem h1] at hk
    simp only [Option.map_some, Option.some.injEq] at hk
    simp only [List.get_eq_getElem, List.getElem_ofFn]
    exact Prod.ext hk rfl
  · rintro ⟨y, hy⟩
    refine ⟨_, hy, ?_⟩
    rw [List.map_ofFn]
    rfl

end

theorem sampleWith_map {α G P : Type} [FloatLike α] (S : Sub α G P) (R : RandomLib α G) (p : P) {nc nf : Nat}
    [NeZero nc] (θ : Theta α nc (S.Params nc nf)) (n : Int) (c : Option (Fin nc)) (g : G) :
    (S.sampleWith R p θ n c g).1 =
      (sampleCore R θ.startprob θ.transmat (S.sampleSub R p θ.emission) n c g).1.map fun l =>
        (l.map fun p => p.1.val, ⟨nf, l.map Prod.snd⟩) := by
  unfold Sub.sampleWith
  rcases sampleCore R θ.startprob θ.transmat (S.sampleSub R p θ.emission) n c g with ⟨_ | _, _⟩ <;> rfl

/-! ## CategoricalHMM -/

section categorical
variable {G : Type} [MeasurableSpace G] {P : Measure G} [IsProbabilityMeasure P] {nc nf : ℕ} [NeZero nc]
  [NeZero nf] {R : RandomLib XF G} {u : G → ℝ} {nx : G → G}
  {π : Fin nc → ℝ} {A : Fin nc → Fin nc → ℝ} {b : Fin nc → Fin nf → ℝ}

/-- CategoricalHMM's emission hook draws symbols with the probabilities of the state's row. -/
theorem cat_ideal (hr : ∀ g, R.rand g = (.fin (u g), nx g)) (hu : Draws P (fun g => (u g, nx g)) uniform)
    (p : CatAttrs XF) (b : Fin nc → Fin nf → ℝ) :
    IdealSampler (Obs := ℤ) P R
      ((catSub (α := XF) (G := G)).sampleSub R p (nc := nc) (nf := nf) fun i k => XF.fin (b i k)) u nx
      (fun z g => ((pick (b z) (u g)).val : ℤ)) (fun _ => nx)
      (fun z => uniform.map fun v => ((pick (b z) v).val : ℤ)) where
  rand_eq := hr
  rand_law := hu
  em_eq := by
    intro z g
    simp only [catSub, dif_neg (NeZero.ne nf), hr]
    rfl
  em_law := by
    intro z
    have hm : Measurable fun v : ℝ => ((pick (b z) v).val : ℤ) :=
      (measurable_of_countable fun i : Fin nf => (i.val : ℤ)).comp (measurable_pick (b z))
    have hm2 : Measurable (Prod.map (fun v : ℝ => ((pick (b z) v).val : ℤ)) (id : G → G)) := hm.prodMap measurable_id
    refine ⟨hm2.comp hu.measurable, ?_⟩
    have e : (fun g => (((pick (b z) (u g)).val : ℤ), nx g)) =
        Prod.map (fun v : ℝ => ((pick (b z) v).val : ℤ)) (id : G → G) ∘ fun g => (u g, nx g) := rfl
    rw [e, ← Measure.map_map hm2 hu.measurable, hu.law, ← Measure.map_prod_map _ _ hm measurable_id,
      Measure.map_id]

/-- States and symbols, read off the pairs drawn. -/
def catOut {nc : ℕ} (nf : ℕ) (r : Except PyErr (List (Fin nc × ℤ))) : Except PyErr (List ℕ × ((_ : ℕ) × List ℤ)) :=
  r.map fun l => (l.map fun p => p.1.val, ⟨nf, l.map Prod.snd⟩)

theorem sampleWith_cat (R : RandomLib XF G) (p : CatAttrs XF) (θ : Theta XF nc (Fin nc → Fin nf → XF)) (n : Int) (g : G) :
    ((catSub (α := XF) (G := G)).sampleWith R p (nf := nf) θ n none g).1 =
      catOut nf (sampleCore (Obs := ℤ) R θ.startprob θ.transmat
        ((catSub (α := XF) (G := G)).sampleSub R p (nc := nc) (nf := nf) θ.emission) n none g).1 := by
  exact sampleWith_map (catSub (α := XF) (G := G)) R p θ n none g

theorem cat_event {n : ℕ} (r : Except PyErr (List (Fin nc × ℤ)) × G) (z : Fin (n + 1) → Fin nc)
    (x : Fin (n + 1) → Fin nf) :
    catOut nf r.1 =
        .ok (List.ofFn fun t => (z t).val, ⟨nf, List.ofFn fun t => ((x t).val : ℤ)⟩) ↔
      ∃ y : Fin (n + 1) → ℤ, r.1 = .ok (List.ofFn fun t => (z t, y t)) ∧ ∀ t, y t ∈ ({((x t).val : ℤ)} : Set ℤ) := by
  obtain ⟨o, g'⟩ := r
  unfold catOut
  cases o with
  | error err =>
    constructor
    · intro h; cases h
    · rintro ⟨y, h, -⟩; cases h
  | ok l =>
    simp only [Except.map, Except.ok.injEq, Prod.mk.injEq, Sigma.mk.injEq, heq_eq_eq, true_and, Set.mem_singleton_iff]
    constructor
    · rintro ⟨h1, h2⟩
      refine ⟨fun t => ((x t).val : ℤ), ?_, fun t => rfl⟩
      have hlen : l.length = n + 1 := by simpa using congrArg List.length h1
      refine List.ext_get (by simp [hlen]) fun k hk1 hk2 => ?_
      have hk : k < n + 1 := by omega
      have e1 : (l.map fun p => p.1.val)[k]? = (List.ofFn fun t => (z t).val)[k]? := by rw [h1]
      have e2 : (l.map Prod.snd)[k]? = (List.ofFn fun t => ((x t).val : ℤ))[k]? := congrArg (fun l => l[k]?) h2
      rw [List.getElem?_map, List.getElem?_eq_getElem hk1, List.getElem?_ofFn, dif_pos hk] at e1 e2
      simp only [Option.map_some, Option.some.injEq] at e1 e2
      simp only [List.get_eq_getElem, List.getElem_ofFn]
      exact Prod.ext (Fin.ext e1) e2
    · rintro ⟨y, rfl, hy⟩
      constructor
      · rw [List.map_ofFn]; rfl
      · rw [List.map_ofFn]
        congr 1
        funext t
        exact hy t

/-- Whatever the states are, they form a path. -/
theorem cat_states {n : ℕ} (r : Except PyErr (List (Fin nc × ℤ)) × G) (x : Fin (n + 1) → Fin nf)
    {states : List Nat} (h : catOut nf r.1 =
        .ok (states, ⟨nf, List.ofFn fun t => ((x t).val : ℤ)⟩)) :
    ∃ z : Fin (n + 1) → Fin nc, states = List.ofFn fun t => (z t).val := by
  obtain ⟨o, g'⟩ := r
  cases o with
  | error err => cases h
  | ok l =>
    simp only [catOut, Except.map, Except.ok.injEq, Prod.mk.injEq, Sigma.mk.injEq, heq_eq_eq, true_and] at h
    obtain ⟨h1, h2⟩ := h
    have hlen : l.length = n + 1 := by simpa using congrArg List.length h2
    refine ⟨fun t => (l.get (Fin.cast hlen.symm t)).1, ?_⟩
    rw [← h1]
    refine List.ext_get (by simp [hlen]) fun k hk1 hk2 => ?_
    simp only [List.get_eq_getElem, List.getElem_map, List.getElem_ofFn, Fin.val_cast]

/-- **C37 for CategoricalHMM.** The joint law of states and symbols is the model's. -/
theorem C37_categorical (hr : ∀ g, R.rand g = (.fin (u g), nx g)) (hu : Draws P (fun g => (u g, nx g)) uniform)
    (p : CatAttrs XF) (hπ : ∀ i, 0 ≤ π i) (hπs : ∑ i, π i = 1) (hA : ∀ i j, 0 ≤ A i j) (hs : ∀ i, ∑ j, A i j = 1)
    (hb : ∀ i k, 0 ≤ b i k) (hbs : ∀ i, ∑ k, b i k = 1)
    {n : ℕ} (z : Fin (n + 1) → Fin nc) (x : Fin (n + 1) → Fin nf) :
    P {g | ((catSub (α := XF) (G := G)).sampleWith R p
        ⟨fun i => XF.fin (π i), fun i j => XF.fin (A i j), fun i k => XF.fin (b i k)⟩ ((n : Int) + 1) none g).1 =
          .ok (List.ofFn fun t => (z t).val, ⟨nf, List.ofFn fun t => ((x t).val : ℤ)⟩)} =
      ENNReal.ofReal (joint π A (fun t => catB b (x t)) z) := by
  have hj := C37_joint (cat_ideal hr hu p b) hπ hπs hA hs z (fun t => {((x t).val : ℤ)})
    fun _ => measurableSet_singleton _
  have hν : ∀ t, (uniform.map fun v => ((pick (b (z t)) v).val : ℤ)) {((x t).val : ℤ)} =
      ENNReal.ofReal (b (z t) (x t)) := by
    intro t
    have hm : Measurable fun v : ℝ => ((pick (b (z t)) v).val : ℤ) :=
      (measurable_of_countable fun i : Fin nf => (i.val : ℤ)).comp (measurable_pick (b (z t)))
    rw [Measure.map_apply hm (measurableSet_singleton _), ← uniform_pick (hb (z t)) (hbs (z t)) (x t)]
    congr 1
    ext v
    simp [Fin.ext_iff]
  simp only [hν] at hj
  rw [← ENNReal.ofReal_prod_of_nonneg fun t _ => hb _ _, ← ENNReal.ofReal_mul
    (mul_nonneg (hπ _) (Finset.prod_nonneg fun t _ => hA _ _))] at hj
  refine Eq.trans ?_ hj
  congr 1
  ext g
  exact (Iff.of_eq (congrArg (· = _) (sampleWith_cat R p _ _ g))).trans (cat_event _ z x)

/-- **C37 for CategoricalHMM.** The probability of the observations alone is what `score` computes
the logarithm of. -/
theorem C37_likelihood (hr : ∀ g, R.rand g = (.fin (u g), nx g)) (hu : Draws P (fun g => (u g, nx g)) uniform)
    (p : CatAttrs XF) (hπ : ∀ i, 0 ≤ π i) (hπs : ∑ i, π i = 1) (hA : ∀ i j, 0 ≤ A i j) (hs : ∀ i, ∑ j, A i j = 1)
    (hb : ∀ i k, 0 ≤ b i k) (hbs : ∀ i, ∑ k, b i k = 1) {n : ℕ} (x : Fin (n + 1) → Fin nf) :
    P {g | ∃ states, ((catSub (α := XF) (G := G)).sampleWith R p
        ⟨fun i => XF.fin (π i), fun i j => XF.fin (A i j), fun i k => XF.fin (b i k)⟩ ((n : Int) + 1) none g).1 =
          .ok (states, ⟨nf, List.ofFn fun t => ((x t).val : ℤ)⟩)} =
      ENNReal.ofReal (likelihood π A (fun t => catB b (x t))) := by
  have hset : {g | ∃ states, ((catSub (α := XF) (G := G)).sampleWith R p
        ⟨fun i => XF.fin (π i), fun i j => XF.fin (A i j), fun i k => XF.fin (b i k)⟩ ((n : Int) + 1) none g).1 =
          .ok (states, ⟨nf, List.ofFn fun t => ((x t).val : ℤ)⟩)} =
      ⋃ z ∈ (Finset.univ : Finset (Fin (n + 1) → Fin nc)), {g | ((catSub (α := XF) (G := G)).sampleWith R p
        ⟨fun i => XF.fin (π i), fun i j => XF.fin (A i j), fun i k => XF.fin (b i k)⟩ ((n : Int) + 1) none g).1 =
          .ok (List.ofFn fun t => (z t).val, ⟨nf, List.ofFn fun t => ((x t).val : ℤ)⟩)} := by
    ext g
    simp only [Set.mem_setOf_eq, Set.mem_iUnion, Finset.mem_univ, exists_prop, true_and]
    constructor
    · rintro ⟨states, h⟩
      obtain ⟨z, rfl⟩ := cat_states _ x ((sampleWith_cat R p _ _ g).symm.trans h)
      exact ⟨z, h⟩
    · rintro ⟨z, h⟩
      exact ⟨_, h⟩
  rw [hset, measure_biUnion_finset]
  · simp only [C37_categorical hr hu p hπ hπs hA hs hb hbs]
    rw [← ENNReal.ofReal_sum_of_nonneg]
    · rfl
    · intro z _
      exact mul_nonneg (mul_nonneg (hπ _) (Finset.prod_nonneg fun t _ => hA _ _))
        (Finset.prod_nonneg fun t _ => hb _ _)
  · intro z _ z' _ hne
    refine Set.disjoint_left.2 fun g h1 h2 => hne ?_
    simp only [Set.mem_setOf_eq] at h1 h2
    rw [h1] at h2
    simp only [Except.ok.injEq, Prod.mk.injEq, and_true] at h2
    funext t
    exact Fin.ext (congrFun (List.ofFn_injective h2) t)
  · intro z _
    have := measurable_joint (π := π) (cat_ideal hr hu p b) hA hs z (fun t => {((x t).val : ℤ)})
      fun _ => measurableSet_singleton _
    refine (congrArg MeasurableSet ?_).mpr this
    ext g
    exact (Iff.of_eq (congrArg (· = _) (sampleWith_cat R p _ _ g))).trans (cat_event _ z x)

end categorical

/-! ## Such a generator exists -/

namespace IdealStream

variable {Ω : Type} [MeasurableSpace Ω]

/-- An infinite supply of independent values distributed as `μ`. -/
noncomputable def lawOf (μ : Measure Ω) [IsProbabilityMeasure μ] : Measure (ℕ → Ω) := Measure.infinitePi fun _ => μ

instance (μ : Measure Ω) [IsProbabilityMeasure μ] : IsProbabilityMeasure (lawOf μ) := by unfold lawOf; infer_instance

def consStream (p : Ω × (ℕ → Ω)) : ℕ → Ω
  | 0 => p.1
  | n + 1 => p.2 n

theorem measurable_consStream : Measurable (consStream (Ω := Ω)) := by
  refine measurable_pi_iff.2 fun n => ?_
  cases n with
  | zero => exact measurable_fst
  | succ n => exact (measurable_pi_apply n).comp measurable_snd

theorem measurable_uncons : Measurable fun g : ℕ → Ω => (g 0, fun n => g (n + 1)) :=
  (measurable_pi_apply 0).prodMk (measurable_pi_iff.2 fun n => measurable_pi_apply (n + 1))

/-- Taking the first number leaves an independent supply with the same law. -/
theorem drawsOf (μ : Measure Ω) [IsProbabilityMeasure μ] : Draws (lawOf μ) (fun g => (g 0, fun n => g (n + 1))) μ := by
  refine ⟨measurable_uncons, ?_⟩
  have h : (μ.prod (lawOf μ)).map consStream = lawOf μ := by
    refine Measure.eq_infinitePi (μ := fun _ => μ) fun s t ht => ?_
    rw [Measure.map_apply measurable_consStream (MeasurableSet.pi s.countable_toSet fun i _ => ht i)]
    have hset : consStream ⁻¹' (Set.pi s t) = (if 0 ∈ s then t 0 else Set.univ) ×ˢ
        (Set.pi ((s.erase 0).image Nat.pred : Finset ℕ) fun n => t (n + 1)) := by
      ext ⟨a, f⟩
      simp only [Set.mem_preimage, Set.mem_pi, Finset.mem_coe, Set.mem_prod, Finset.mem_image, Finset.mem_erase]
      constructor
      · intro h
        refine ⟨?_, ?_⟩
        · split
          · next h0 => exact h 0 h0
          · trivial
        · rintro i ⟨k, ⟨hk0, hk⟩, rfl⟩
          obtain ⟨m, rfl⟩ := Nat.exists_eq_succ_of_ne_zero hk0
          exact h (m + 1) hk
      · rintro ⟨h0, h1⟩ i hi
        cases i with
        | zero => rw [if_pos hi] at h0; exact h0
        | succ i => exact h1 i ⟨i + 1, ⟨Nat.succ_ne_zero _, hi⟩, rfl⟩
    rw [hset, Measure.prod_prod]
    unfold lawOf
    rw [Measure.infinitePi_pi _ fun i _ => ht _, Finset.prod_image]
    · have hp : ∀ k ∈ s.erase 0, μ (t (Nat.pred k + 1)) = μ (t k) := by
        intro k hk
        have := Finset.ne_of_mem_erase hk
        rw [show Nat.pred k + 1 = k by simp only [Nat.pred_eq_sub_one]; omega]
      rw [Finset.prod_congr rfl hp]
      by_cases h0 : 0 ∈ s
      · rw [if_pos h0, Finset.mul_prod_erase s (fun k => μ (t k)) h0]
      · rw [if_neg h0, Finset.erase_eq_of_notMem h0, measure_univ, one_mul]
    · intro a ha b hb hab
      have h1 := Finset.ne_of_mem_erase (Finset.mem_coe.1 ha)
      have h2 := Finset.ne_of_mem_erase (Finset.mem_coe.1 hb)
      simp only [Nat.pred_eq_sub_one] at hab
      omega
  conv_lhs => rw [← h]
  rw [Measure.map_map measurable_uncons measurable_consStream]
  have : (fun g : ℕ → Ω => (g 0, fun n => g (n + 1))) ∘ consStream = id := by
    funext p
    rfl
  rw [this, Measure.map_id]

/-- An infinite supply of independent uniform numbers. -/
noncomputable def law : Measure (ℕ → ℝ) := lawOf uniform

instance : IsProbabilityMeasure law := by unfold law; infer_instance

theorem draws : Draws law (fun g => (g 0, fun n => g (n + 1))) uniform := drawsOf uniform

/-- A generator that reads the supply, whatever its other methods do. -/
theorem C37_generator_exists (R : RandomLib XF (ℕ → ℝ)) :
    ∃ R' : RandomLib XF (ℕ → ℝ), (∀ g, R'.rand g = (.fin (g 0), fun n => g (n + 1))) ∧
      Draws law (fun g => (g 0, fun n => g (n + 1))) uniform :=
  ⟨{ R with rand := fun g => (.fin (g 0), fun n => g (n + 1)) }, fun _ => rfl, draws⟩

end IdealStream

/-! ## Example: two states, sticky chain, two symbols -/

/-- With `startprob_ = [1/2, 1/2]`, `transmat_ = [[3/4, 1/4], [1/4, 3/4]]` and emissions
`[[1/3, 2/3], [1, 0]]`, drawing states `0, 1, 1` with symbols `1, 0, 0` has probability
`1/2 · 1/4 · 3/4 · 2/3 = 1/16`. -/
example (R : RandomLib XF (ℕ → ℝ)) (hr : ∀ g, R.rand g = (.fin (g 0), fun n => g (n + 1))) (p : CatAttrs XF) :
    IdealStream.law {g | ((catSub (α := XF) (G := ℕ → ℝ)).sampleWith R p (nc := 2) (nf := 2)
        ⟨fun i => XF.fin (![1/2, 1/2] i), fun i j => XF.fin (![![3/4, 1/4], ![1/4, 3/4]] i j),
          fun i k => XF.fin (![![1/3, 2/3], ![1, 0]] i k)⟩ 3 none g).1 =
        .ok ([0, 1, 1], ⟨2, ([1, 0, 0] : List ℤ)⟩)} = ENNReal.ofReal (1 / 16) := by
  have h := C37_categorical (nc := 2) (nf := 2) hr IdealStream.draws p (π := ![1/2, 1/2])
    (A := ![![3/4, 1/4], ![1/4, 3/4]]) (b := ![![1/3, 2/3], ![1, 0]])
    (by intro i; fin_cases i <;> norm_num) (by norm_num [Fin.sum_univ_two])
    (by intro i j; fin_cases i <;> fin_cases j <;> norm_num)
    (by intro i; fin_cases i <;> norm_num [Fin.sum_univ_two])
    (by intro i j; fin_cases i <;> fin_cases j <;> norm_num)
    (by intro i; fin_cases i <;> norm_num [Fin.sum_univ_two]) (n := 2) ![0, 1, 1] ![1, 0, 0]
  have hj : joint ![1/2, 1/2] ![![3/4, 1/4], ![1/4, 3/4]]
      (fun t => catB ![![1/3, 2/3], ![1, 0]] (![1, 0, 0] t)) ![0, 1, 1] = (1 / 16 : ℝ) := by
    simp [joint, catB, Fin.prod_univ_succ]
    norm_num
  rw [hj] at h
  exact h

end Verif
