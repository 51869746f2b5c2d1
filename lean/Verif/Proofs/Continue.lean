import Verif.Spec.Continue
import Verif.Proofs.SampleScore

/-!
# Sampling in two steps
-/

set_option autoImplicit false

namespace Verif
open FloatLike XF MeasureTheory Spec
open scoped ENNReal

theorem follows_append {nc : ℕ} {Obs : Type} {z : ℕ → Fin nc} {B : ℕ → Set Obs} (Z : List ℕ) (X : List Obs)
    (h : Z.length = X.length) (Z' : List ℕ) (X' : List Obs) (t : ℕ) :
    Follows z B t (Z ++ Z') (X ++ X') ↔ Follows z B t Z X ∧ Follows z B (t + Z.length) Z' X' := by
  induction Z generalizing X t with
  | nil =>
    cases X with
    | nil => simp [Follows]
    | cons x X => cases h
  | cons s Z ih =>
    cases X with
    | nil => cases h
    | cons x X =>
      have := ih X (by simpa using h) (t + 1)
      simp only [List.cons_append, Follows, this, and_assoc, List.length_cons]
      rw [show t + 1 + Z.length = t + (Z.length + 1) by omega]

theorem follows_last {nc : ℕ} {Obs : Type} {z : ℕ → Fin nc} {B : ℕ → Set Obs} (Z : List ℕ) (X : List Obs) (t : ℕ)
    (h : Follows z B t Z X) (h0 : Z ≠ []) : Z.getLast? = some (z (t + (Z.length - 1))).val := by
  induction Z generalizing X t with
  | nil => exact absurd rfl h0
  | cons s Z ih =>
    cases X with
    | nil => cases h
    | cons x X =>
      obtain ⟨h1, -, h3⟩ := h
      cases Z with
      | nil => simp [h1]
      | cons s' Z =>
        rw [List.getLast?_cons_cons, ih X (t + 1) h3 (by simp)]
        simp only [List.length_cons]
        congr 3
        omega

section core
variable {G Obs : Type} [MeasurableSpace G] [MeasurableSpace Obs] {P : Measure G} [IsProbabilityMeasure P]
  {nc : ℕ} [NeZero nc] {R : RandomLib XF G} {u : G → ℝ} {nx : G → G}
  {x : Fin nc → G → Obs} {gx : Fin nc → G → G} {ν : Fin nc → Measure Obs}
  {em : Fin nc → G → Except PyErr Obs × G} {π : Fin nc → ℝ} {A : Fin nc → Fin nc → ℝ}
  {z : ℕ → Fin nc} {B : ℕ → Set Obs}

theorem Spec.Draws.mass {β : Type} [MeasurableSpace β] {d : G → β × G} {μ : Measure β} (h : Draws P d μ) :
    μ Set.univ = 1 := by
  have := h.prob MeasurableSet.univ MeasurableSet.univ
  simpa using this.symm

/-- States and observations follow `z` and `B` and the generator ends in `F`. -/
def runs (z : ℕ → Fin nc) (B : ℕ → Set Obs) (t : ℕ) (F : Set G) (r : Except PyErr (List (Fin nc × Obs)) × G) : Prop :=
  ∃ l g', r = (.ok l, g') ∧ Follows z B t (l.map fun p => p.1.val) (l.map Prod.snd) ∧ g' ∈ F

theorem runs_loop_succ (h : IdealSampler P R em u nx x gx ν) (n t : ℕ) (cur : Fin nc) (F : Set G) (g : G) :
    runs z B t F (sampleLoop R (fun i j => XF.fin (A i j)) em (n + 1) cur g) ↔
      pick (A cur) (u g) = z t ∧ x (z t) (nx g) ∈ B t ∧
        runs z B (t + 1) F (sampleLoop R (fun i j => XF.fin (A i j)) em n (z t) (gx (z t) (nx g))) := by
  have hd : drawState R (fun j => XF.fin (A cur j)) g = (pick (A cur) (u g), nx g) := by
    unfold drawState pick
    rw [h.rand_eq]
  simp only [sampleLoop, hd, h.em_eq]
  constructor
  · rintro ⟨l, g', h1, h2, h3⟩
    cases hl : sampleLoop R (fun i j => XF.fin (A i j)) em n (pick (A cur) (u g)) (gx (pick (A cur) (u g)) (nx g)) with
    | mk o g1 =>
      rw [hl] at h1
      cases o with
      | error err => cases h1
      | ok r =>
        cases h1
        obtain ⟨h4, h5, h6⟩ := h2
        have h4 : pick (A cur) (u g) = z t := Fin.ext h4
        rw [h4] at h5 hl
        exact ⟨h4, h5, r, _, hl, h6, h3⟩
  · rintro ⟨h1, h2, r, g1, h3, h4, h5⟩
    rw [h1, h3]
    exact ⟨_, _, rfl, ⟨rfl, h2, h4⟩, h5⟩

theorem runs_from (h : IdealSampler P R em u nx x gx ν) (n t : ℕ) (c : Fin nc) (F : Set G) (g : G) :
    runs z B t F (sampleCore R (fun i => XF.fin (π i)) (fun i j => XF.fin (A i j)) em ((n : Int) + 1) (some c) g) ↔
      c = z t ∧ x (z t) g ∈ B t ∧
        runs z B (t + 1) F (sampleLoop R (fun i j => XF.fin (A i j)) em n (z t) (gx (z t) g)) := by
  have hn : ((n : Int) + 1 - 1).toNat = n := by omega
  simp only [sampleCore, h.em_eq, hn]
  constructor
  · rintro ⟨l, g', h1, h2, h3⟩
    cases hl : sampleLoop R (fun i j => XF.fin (A i j)) em n c (gx c g) with
    | mk o g1 =>
      rw [hl] at h1
      cases o with
      | error err => cases h1
      | ok r =>
        cases h1
        obtain ⟨h4, h5, h6⟩ := h2
        have h4 : c = z t := Fin.ext h4
        rw [h4] at h5 hl
        exact ⟨h4, h5, r, _, hl, h6, h3⟩
  · rintro ⟨h1, h2, r, g1, h3, h4, h5⟩
    rw [h1, h3]
    exact ⟨_, _, rfl, ⟨rfl, h2, h4⟩, h5⟩

/-- The loop, and the generator it leaves. -/
theorem runs_loop_law (h : IdealSampler P R em u nx x gx ν) (hA : ∀ i j, 0 ≤ A i j) (hs : ∀ i, ∑ j, A i j = 1)
    (hB : ∀ t, MeasurableSet (B t)) {F : Set G} (hF : MeasurableSet F) (n t : ℕ) :
    MeasurableSet {g | runs z B (t + 1) F (sampleLoop R (fun i j => XF.fin (A i j)) em n (z t) g)} ∧
    P {g | runs z B (t + 1) F (sampleLoop R (fun i j => XF.fin (A i j)) em n (z t) g)} =
      (∏ s ∈ Finset.range n, ENNReal.ofReal (A (z (t + s)) (z (t + s + 1))) * ν (z (t + s + 1)) (B (t + s + 1))) * P F := by
  induction n generalizing t with
  | zero =>
    have : {g | runs z B (t + 1) F (sampleLoop R (fun i j => XF.fin (A i j)) em 0 (z t) g)} = F := by
      ext g
      constructor
      · rintro ⟨l, g', h1, -, h3⟩
        cases h1
        exact h3
      · intro hg
        exact ⟨[], g, rfl, trivial, hg⟩
    rw [this]
    simp [hF]
  | succ n ih =>
    obtain ⟨hm, hP⟩ := ih (t + 1)
    set E := {g | runs z B (t + 1 + 1) F (sampleLoop R (fun i j => XF.fin (A i j)) em n (z (t + 1)) g)} with hE
    have hset : {g | runs z B (t + 1) F (sampleLoop R (fun i j => XF.fin (A i j)) em (n + 1) (z t) g)} =
        {g | pick (A (z t)) (u g) = z (t + 1) ∧ nx g ∈ {g1 | x (z (t + 1)) g1 ∈ B (t + 1) ∧ gx (z (t + 1)) g1 ∈ E}} := by
      ext g
      exact runs_loop_succ h n (t + 1) (z t) F g
    have hF1 : MeasurableSet {g1 | x (z (t + 1)) g1 ∈ B (t + 1) ∧ gx (z (t + 1)) g1 ∈ E} :=
      (h.em_law (z (t + 1))).measurable ((hB _).prod hm)
    have hI : MeasurableSet {v : ℝ | pick (A (z t)) v = z (t + 1)} := measurable_pick (A (z t)) (measurableSet_singleton _)
    rw [hset]
    refine ⟨h.rand_law.measurable (hI.prod hF1), (h.rand_law.prob hI hF1).trans ?_⟩
    rw [uniform_pick (hA _) (hs _)]
    refine (congrArg _ ((h.em_law (z (t + 1))).prob (hB _) hm)).trans ?_
    rw [hP, Finset.prod_range_succ']
    simp only [Nat.add_zero, show ∀ s, t + 1 + s = t + (s + 1) from fun s => by omega]
    ring

/-- The whole call, and the generator it leaves. -/
theorem runs_start_law (h : IdealSampler P R em u nx x gx ν) (hπ : ∀ i, 0 ≤ π i) (hπs : ∑ i, π i = 1)
    (hA : ∀ i j, 0 ≤ A i j) (hs : ∀ i, ∑ j, A i j = 1) (hB : ∀ t, MeasurableSet (B t)) {F : Set G} (hF : MeasurableSet F)
    (n : ℕ) :
    P {g | runs z B 0 F (sampleCore R (fun i => XF.fin (π i)) (fun i j => XF.fin (A i j)) em ((n : Int) + 1) none g)} =
      ENNReal.ofReal (π (z 0)) * ν (z 0) (B 0) *
        (∏ s ∈ Finset.range n, ENNReal.ofReal (A (z s) (z (s + 1))) * ν (z (s + 1)) (B (s + 1))) * P F := by
  obtain ⟨hm, hP⟩ := runs_loop_law (z := z) h hA hs hB hF n 0
  set E := {g | runs z B (0 + 1) F (sampleLoop R (fun i j => XF.fin (A i j)) em n (z 0) g)} with hE
  have hset : {g | runs z B 0 F (sampleCore R (fun i => XF.fin (π i)) (fun i j => XF.fin (A i j)) em ((n : Int) + 1) none g)} =
      {g | pick π (u g) = z 0 ∧ nx g ∈ {g1 | x (z 0) g1 ∈ B 0 ∧ gx (z 0) g1 ∈ E}} := by
    ext g
    show runs z B 0 F _ ↔ _
    rw [sampleCore_start h]
    exact runs_from h n 0 _ F _
  have hF1 : MeasurableSet {g1 | x (z 0) g1 ∈ B 0 ∧ gx (z 0) g1 ∈ E} := (h.em_law (z 0)).measurable ((hB _).prod hm)
  have hI : MeasurableSet {v : ℝ | pick π v = z 0} := measurable_pick π (measurableSet_singleton _)
  rw [hset]
  refine (h.rand_law.prob hI hF1).trans ?_
  rw [uniform_pick hπ hπs]
  refine (congrArg _ ((h.em_law (z 0)).prob (hB _) hm)).trans ?_
  rw [hP]
  simp only [Nat.zero_add]
  ring

/-- The second call, without its first state. -/
def resumes (R : RandomLib XF G) (A : Fin nc → Fin nc → ℝ) (em : Fin nc → G → Except PyErr Obs × G) (π : Fin nc → ℝ)
    (z : ℕ → Fin nc) (B : ℕ → Set Obs) (n m : ℕ) (g : G) : Prop :=
  ∃ l g', sampleCore R (fun i => XF.fin (π i)) (fun i j => XF.fin (A i j)) em ((m : Int) + 1) (some (z n)) g = (.ok l, g') ∧
    Follows z B (n + 1) (l.map fun p => p.1.val).tail (l.map Prod.snd).tail

theorem resumes_law (h : IdealSampler P R em u nx x gx ν) (hA : ∀ i j, 0 ≤ A i j) (hs : ∀ i, ∑ j, A i j = 1)
    (hB : ∀ t, MeasurableSet (B t)) (n m : ℕ) :
    MeasurableSet {g | resumes R A em π z B n m g} ∧ P {g | resumes R A em π z B n m g} =
      ∏ s ∈ Finset.range m, ENNReal.ofReal (A (z (n + s)) (z (n + s + 1))) * ν (z (n + s + 1)) (B (n + s + 1)) := by
  obtain ⟨hm, hP⟩ := runs_loop_law (z := z) h hA hs hB MeasurableSet.univ m n
  set E := {g | runs z B (n + 1) Set.univ (sampleLoop R (fun i j => XF.fin (A i j)) em m (z n) g)} with hE
  have hset : {g | resumes R A em π z B n m g} = {g | x (z n) g ∈ Set.univ ∧ gx (z n) g ∈ E} := by
    ext g
    have hn : ((m : Int) + 1 - 1).toNat = m := by omega
    simp only [Set.mem_univ, true_and, hE, Set.mem_ofPred_eq]
    unfold resumes runs
    simp only [sampleCore, h.em_eq, hn]
    cases hl : sampleLoop R (fun i j => XF.fin (A i j)) em m (z n) (gx (z n) g) with
    | mk o g1 =>
      cases o with
      | error err =>
        constructor
        · rintro ⟨l, g', h1, -⟩; cases h1
        · rintro ⟨l, g', h1, -⟩; cases h1
      | ok r =>
        constructor
        · rintro ⟨l, g', h1, h2⟩
          cases h1
          exact ⟨_, _, rfl, h2, trivial⟩
        · rintro ⟨l, g', h1, h2, -⟩
          cases h1
          exact ⟨_, _, rfl, h2⟩
  rw [hset]
  refine ⟨(h.em_law (z n)).measurable (MeasurableSet.univ.prod hm), ((h.em_law (z n)).prob MeasurableSet.univ hm).trans ?_⟩
  rw [(h.em_law (z n)).mass, hP, one_mul, measure_univ, mul_one]

/-- Two calls have the law of one. -/
theorem two_calls (h : IdealSampler P R em u nx x gx ν) (hπ : ∀ i, 0 ≤ π i) (hπs : ∑ i, π i = 1)
    (hA : ∀ i j, 0 ≤ A i j) (hs : ∀ i, ∑ j, A i j = 1) (hB : ∀ t, MeasurableSet (B t)) (n m : ℕ) :
    P {g | runs z B 0 {g | resumes R A em π z B n m g}
        (sampleCore R (fun i => XF.fin (π i)) (fun i j => XF.fin (A i j)) em ((n : Int) + 1) none g)} =
      P {g | runs z B 0 Set.univ
        (sampleCore R (fun i => XF.fin (π i)) (fun i j => XF.fin (A i j)) em (((n + m : ℕ) : Int) + 1) none g)} := by
  obtain ⟨hm, hP⟩ := resumes_law (π := π) (z := z) h hA hs hB n m
  rw [runs_start_law h hπ hπs hA hs hB hm, runs_start_law h hπ hπs hA hs hB MeasurableSet.univ, hP, measure_univ, mul_one,
    Finset.prod_range_add, mul_assoc]

end core

end Verif
