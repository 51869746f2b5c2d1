import Verif.Spec.Sampling
import Verif.Spec.Paths
import Verif.Proofs.Sampling
import Mathlib.Probability.ProductMeasure
import Mathlib.MeasureTheory.Constructions.BorelSpace.Order

/-!
# The law of the sampled path
-/

namespace Verif
open FloatLike Spec MeasureTheory

instance : IsProbabilityMeasure uniform := ⟨by simp [uniform]⟩

theorem uniform_Ico {a b : ℝ} (ha : 0 ≤ a) (hb : b ≤ 1) : uniform (Set.Ico a b) = ENNReal.ofReal (b - a) := by
  unfold uniform
  rw [Measure.restrict_apply measurableSet_Ico, Set.Ico_inter_Ico, max_eq_left ha, min_eq_left hb,
    Real.volume_Ico]

section pick
variable {n : ℕ} [NeZero n] {p : Fin n → ℝ}

theorem measurable_pick (p : Fin n → ℝ) : Measurable (pick p) := by
  refine measurable_to_countable' fun i => ?_
  have : pick p ⁻¹' {i} = {u | pick p u = i} := rfl
  rw [this]
  -- the index is determined by finitely many comparisons
  have hq : ∀ q : Fin n → Bool, MeasurableSet {u : ℝ | ∀ j, lt (XF.fin u) (cumsum (fun j => XF.fin (p j)) j) = q j} := by
    intro q
    have : {u : ℝ | ∀ j, lt (XF.fin u) (cumsum (fun j => XF.fin (p j)) j) = q j} =
        ⋂ j, {u : ℝ | u < cdf p (j.val + 1) ↔ q j = true} := by
      ext u
      simp only [Set.mem_setOf_eq, Set.mem_iInter]
      refine forall_congr' fun j => ?_
      rw [Bool.eq_iff_iff, pick_lt]
    rw [this]
    refine MeasurableSet.iInter fun j => ?_
    cases q j
    · have : {u : ℝ | u < cdf p (j.val + 1) ↔ false = true} = Set.Ici (cdf p (j.val + 1)) := by
        ext u; simp
      rw [this]; exact measurableSet_Ici
    · have : {u : ℝ | u < cdf p (j.val + 1) ↔ true = true} = Set.Iio (cdf p (j.val + 1)) := by
        ext u; simp
      rw [this]; exact measurableSet_Iio
  have : {u | pick p u = i} = ⋃ q : {q : Fin n → Bool // argmaxBool q = i},
      {u : ℝ | ∀ j, lt (XF.fin u) (cumsum (fun j => XF.fin (p j)) j) = q.1 j} := by
    ext u
    simp only [Set.mem_setOf_eq, Set.mem_iUnion]
    constructor
    · intro h
      exact ⟨⟨_, h⟩, fun _ => rfl⟩
    · rintro ⟨⟨q, hq⟩, h⟩
      rw [← hq]
      unfold pick
      congr 1
      funext j
      exact h j
  rw [this]
  exact MeasurableSet.iUnion fun q => hq q.1

/-- The probability of drawing `i` is `p i`. -/
theorem uniform_pick (hp : ∀ j, 0 ≤ p j) (hs : ∑ j, p j = 1) (i : Fin n) :
    uniform {u | pick p u = i} = ENNReal.ofReal (p i) := by
  have h1 : uniform {u | pick p u = i} = uniform (Set.Ico (cdf p i.val) (cdf p (i.val + 1))) := by
    unfold uniform
    rw [Measure.restrict_apply' measurableSet_Ico, Measure.restrict_apply' measurableSet_Ico]
    congr 1
    ext u
    simp only [Set.mem_inter_iff, Set.mem_setOf_eq, Set.mem_Ico]
    constructor
    · rintro ⟨h, h0, h1⟩
      exact ⟨(pick_iff hp h0 (by linarith) i).1 h, h0, h1⟩
    · rintro ⟨h, h0, h1⟩
      exact ⟨(pick_iff hp h0 (by linarith) i).2 h, h0, h1⟩
  rw [h1, uniform_Ico, cdf_succ]
  · congr 1; ring
  · rw [← cdf_zero p]; exact cdf_mono hp (Nat.zero_le _)
  · rw [← hs, ← cdf_full]; exact cdf_mono hp i.isLt

end pick

section law
variable {G Obs : Type} [MeasurableSpace G] [MeasurableSpace Obs] {P : Measure G} [SFinite P]

/-- Value in `I` and state in `F`: independent. -/
theorem Spec.Draws.prob {β : Type} [MeasurableSpace β] {d : G → β × G} {ν : Measure β} (h : Draws P d ν)
    {I : Set β} {F : Set G} (hI : MeasurableSet I) (hF : MeasurableSet F) :
    P {g | (d g).1 ∈ I ∧ (d g).2 ∈ F} = ν I * P F := by
  have : {g | (d g).1 ∈ I ∧ (d g).2 ∈ F} = d ⁻¹' (I ×ˢ F) := rfl
  rw [this, ← Measure.map_apply h.measurable (hI.prod hF), h.law, Measure.prod_prod]

variable {nc : ℕ} [NeZero nc] {R : RandomLib XF G} {u : G → ℝ} {nx : G → G}
  {x : Fin nc → G → Obs} {gx : Fin nc → G → G} {ν : Fin nc → Measure Obs}

/-- What the law of `sample` rests on: `rand` draws uniformly, and the emission hook of state `z`
draws from `ν z`. -/
structure IdealSampler (P : Measure G) (R : RandomLib XF G) (em : Fin nc → G → Except PyErr Obs × G)
    (u : G → ℝ) (nx : G → G) (x : Fin nc → G → Obs) (gx : Fin nc → G → G) (ν : Fin nc → Measure Obs) : Prop where
  rand_eq : ∀ g, R.rand g = (.fin (u g), nx g)
  rand_law : Draws P (fun g => (u g, nx g)) uniform
  em_eq : ∀ z g, em z g = (.ok (x z g), gx z g)
  em_law : ∀ z, Draws P (fun g => (x z g, gx z g)) (ν z)

/-- The loop produces states `z` and observations in the sets `B`. -/
def loopEvent (R : RandomLib XF G) (A : Fin nc → Fin nc → ℝ) (em : Fin nc → G → Except PyErr Obs × G)
    {n : ℕ} (cur : Fin nc) (z : Fin n → Fin nc) (B : Fin n → Set Obs) : Set G :=
  {g | ∃ y : Fin n → Obs, (sampleLoop R (fun i j => XF.fin (A i j)) em n cur g).1 =
    .ok (List.ofFn fun t => (z t, y t)) ∧ ∀ t, y t ∈ B t}

variable {em : Fin nc → G → Except PyErr Obs × G} {A : Fin nc → Fin nc → ℝ}

theorem loopEvent_succ (h : IdealSampler P R em u nx x gx ν) {n : ℕ} (cur : Fin nc) (z : Fin (n + 1) → Fin nc)
    (B : Fin (n + 1) → Set Obs) :
    loopEvent R A em cur z B = {g | pick (A cur) (u g) = z 0 ∧ nx g ∈
      {g1 | x (z 0) g1 ∈ B 0 ∧ gx (z 0) g1 ∈ loopEvent R A em (z 0) (fun t => z t.succ) fun t => B t.succ}} := by
  ext g
  have hd : drawState R (fun j => XF.fin (A cur j)) g = (pick (A cur) (u g), nx g) := by
    unfold drawState pick
    rw [h.rand_eq]
  simp only [loopEvent, sampleLoop, hd, h.em_eq, Set.mem_setOf_eq]
  cases hl : sampleLoop R (fun i j => XF.fin (A i j)) em n (pick (A cur) (u g)) (gx (pick (A cur) (u g)) (nx g)) with
  | mk o g' =>
    constructor
    · rintro ⟨y, hy, hB⟩
      cases o with
      | error err => cases hy
      | ok l =>
        simp only [Except.ok.injEq, List.ofFn_succ, List.cons.injEq, Prod.mk.injEq] at hy
        obtain ⟨⟨h1, h2⟩, h3⟩ := hy
        refine ⟨h1, ?_, fun t => y t.succ, ?_, fun t => hB _⟩
        · rw [← h1, h2]; exact hB 0
        · rw [← h1, hl, h3]
    · rintro ⟨h1, h2, y, hy, hB⟩
      rw [← h1, hl] at hy
      have hy : o = _ := hy
      subst hy
      refine ⟨Fin.cons (x (z 0) (nx g)) y, ?_, ?_⟩
      · simp only [Except.ok.injEq, List.ofFn_succ, Fin.cons_zero, Fin.cons_succ, h1]
      · intro t
        refine Fin.cases ?_ (fun t => ?_) t
        · exact h2
        · exact hB t

theorem loopEvent_zero (cur : Fin nc) (z : Fin 0 → Fin nc) (B : Fin 0 → Set Obs) :
    loopEvent R A em cur z B = Set.univ := by
  ext g
  simp only [loopEvent, Set.mem_setOf_eq, Set.mem_univ, iff_true]
  exact ⟨Fin.elim0, by simp [sampleLoop], fun t => t.elim0⟩

theorem loop_law [IsProbabilityMeasure P] (h : IdealSampler P R em u nx x gx ν) (hA : ∀ i j, 0 ≤ A i j)
    (hs : ∀ i, ∑ j, A i j = 1) {n : ℕ} (cur : Fin nc) (z : Fin n → Fin nc) (B : Fin n → Set Obs)
    (hB : ∀ t, MeasurableSet (B t)) :
    MeasurableSet (loopEvent R A em cur z B) ∧
    P (loopEvent R A em cur z B) =
      ENNReal.ofReal (∏ t : Fin n, A ((Fin.cons cur z : Fin (n + 1) → Fin nc) t.castSucc) (z t)) *
        ∏ t, ν (z t) (B t) := by
  induction n generalizing cur with
  | zero =>
    rw [loopEvent_zero]
    simp
  | succ n ih =>
    obtain ⟨hm, hP⟩ := ih (z 0) (fun t => z t.succ) (fun t => B t.succ) fun t => hB _
    rw [loopEvent_succ h]
    set E := loopEvent R A em (z 0) (fun t => z t.succ) fun t => B t.succ with hE
    have hF : MeasurableSet {g1 | x (z 0) g1 ∈ B 0 ∧ gx (z 0) g1 ∈ E} :=
      (h.em_law (z 0)).measurable ((hB 0).prod hm)
    have hI : MeasurableSet {v : ℝ | pick (A cur) v = z 0} := measurable_pick (A cur) (measurableSet_singleton _)
    refine ⟨h.rand_law.measurable (hI.prod hF), ?_⟩
    have h1 := h.rand_law.prob hI hF
    have h2 := (h.em_law (z 0)).prob (hB 0) hm
    refine h1.trans ?_
    rw [uniform_pick (hA cur) (hs cur)]
    refine (congrArg _ h2).trans ?_
    rw [hP, Fin.prod_univ_succ, Fin.prod_univ_succ]
    simp only [Fin.castSucc_zero, Fin.cons_zero]
    rw [ENNReal.ofReal_mul (hA _ _)]
    have hc : ∀ t : Fin n, (Fin.cons cur z : Fin (n + 2) → Fin nc) t.succ.castSucc =
        (Fin.cons (z 0) (fun t => z t.succ) : Fin (n + 1) → Fin nc) t.castSucc := by
      intro t
      rw [← Fin.succ_castSucc, Fin.cons_succ]
      refine Fin.cases ?_ (fun s => ?_) t.castSucc
      · rfl
      · rfl
    simp only [hc]
    ring

end law
end Verif
