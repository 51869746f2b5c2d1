import Verif.Props.Objects
import Verif.Props.SampleEmit
import Verif.Props.Seeding
import Verif.Proofs.MvnLaw
import Verif.Proofs.ObsLaw

/-!
# `sample` draws from the law whose density `score` evaluates: all classes
-/

set_option autoImplicit false

namespace Verif
open FloatLike XF MeasureTheory Spec
open scoped ENNReal

variable {D G Q : Type} [MeasurableSpace D] [MeasurableSpace G] {P : Measure G} [IsProbabilityMeasure P]

section
variable {S : Sub XF G Q} {nc nf : ℕ} [NeZero nc] [MeasurableSpace (S.Obs nf)] {R : RandomLib XF G} {u : G → ℝ}
  {nx : G → G} {π : Fin nc → ℝ} {A : Fin nc → Fin nc → ℝ} {p : Q} {θ : S.Params nc nf}
  {xo : Fin nc → G → S.Obs nf} {gx : Fin nc → G → G} {law : Fin nc → Measure D} [∀ i, IsProbabilityMeasure (law i)]
  {enc : D → S.Obs nf}

/-- The observations `sample` draws have the law of the model. -/
theorem sampleWith_obsLaw (h : IdealSampler P R (S.sampleSub R p θ) u nx xo gx fun i => (law i).map enc)
    (he : MeasurableEmbedding enc) (hπ : ∀ i, 0 ≤ π i) (hπs : ∑ i, π i = 1) (hA : ∀ i j, 0 ≤ A i j)
    (hs : ∀ i, ∑ j, A i j = 1) {n : ℕ} (B : Fin (n + 1) → Set D) (hB : ∀ t, MeasurableSet (B t)) :
    P {g | ∃ (zs : List ℕ) (x : Fin (n + 1) → D), (S.sampleWith R p (nf := nf)
        ⟨fun i => fin (π i), fun i j => fin (A i j), θ⟩ ((n : Int) + 1) none g).1 =
          .ok (zs, ⟨nf, List.ofFn fun t => enc (x t)⟩) ∧ ∀ t, x t ∈ B t} = obsLaw π A law n (Set.univ.pi B) := by
  let E : (Fin (n + 1) → Fin nc) → Set G := fun z => {g | ∃ y : Fin (n + 1) → S.Obs nf, (S.sampleWith R p (nf := nf)
        ⟨fun i => fin (π i), fun i j => fin (A i j), θ⟩ ((n : Int) + 1) none g).1 =
          .ok (List.ofFn fun t => (z t).val, ⟨nf, List.ofFn y⟩) ∧ ∀ t, y t ∈ enc '' (B t)}
  have hBm : ∀ t, MeasurableSet (enc '' (B t)) := fun t => he.measurableSet_image.2 (hB t)
  have hE : ∀ z, P (E z) = ENNReal.ofReal (π (z 0) * ∏ t : Fin n, A (z t.castSucc) (z t.succ)) * ∏ t, law (z t) (B t) := by
    intro z
    rw [C64_joint S p θ h hπ hπs hA hs z (fun t => enc '' (B t)) hBm]
    congr 1
    refine Finset.prod_congr rfl fun t _ => ?_
    rw [he.map_apply, he.injective.preimage_image]
  have hEm : ∀ z, MeasurableSet (E z) := by
    intro z
    have hm := measurable_joint (π := π) h hA hs z (fun t => enc '' (B t)) hBm
    refine (congrArg MeasurableSet ?_).mpr hm
    ext g
    simp only [E, Set.mem_ofPred_eq, sampleWith_map]
    exact drawn_event (O := S.Obs) _ z _
  have hset : {g | ∃ (zs : List ℕ) (x : Fin (n + 1) → D), (S.sampleWith R p (nf := nf)
        ⟨fun i => fin (π i), fun i j => fin (A i j), θ⟩ ((n : Int) + 1) none g).1 =
          .ok (zs, ⟨nf, List.ofFn fun t => enc (x t)⟩) ∧ ∀ t, x t ∈ B t} =
      ⋃ z ∈ (Finset.univ : Finset (Fin (n + 1) → Fin nc)), E z := by
    ext g
    simp only [E, Set.mem_ofPred_eq, Set.mem_iUnion, Finset.mem_univ, exists_prop, true_and]
    constructor
    · rintro ⟨zs, x, h1, h2⟩
      rw [sampleWith_map] at h1
      cases hc : (sampleCore R (fun i => fin (π i)) (fun i j => fin (A i j)) (S.sampleSub R p θ) ((n : Int) + 1) none g).1 with
      | error err => rw [hc] at h1; cases h1
      | ok l =>
        rw [hc] at h1
        simp only [Except.map, Except.ok.injEq, Prod.mk.injEq, Sigma.mk.injEq, heq_eq_eq, true_and] at h1
        have hlen : l.length = n + 1 := by simpa using congrArg List.length h1.2
        refine ⟨fun t => (l.get (Fin.cast hlen.symm t)).1, fun t => enc (x t), ?_, fun t => ⟨x t, h2 t, rfl⟩⟩
        rw [sampleWith_map, hc]
        simp only [Except.map, Except.ok.injEq, Prod.mk.injEq, Sigma.mk.injEq, heq_eq_eq, true_and]
        refine ⟨?_, h1.2⟩
        refine List.ext_get (by simp [hlen]) fun k hk1 hk2 => ?_
        simp only [List.get_eq_getElem, List.getElem_map, List.getElem_ofFn, Fin.val_cast]
    · rintro ⟨z, y, h1, h2⟩
      choose x hx1 hx2 using h2
      refine ⟨List.ofFn fun t => (z t).val, x, ?_, hx1⟩
      rw [h1]
      simp only [hx2]
  rw [hset, measure_biUnion_finset]
  · simp only [hE, obsLaw, Measure.finsetSum_apply, Measure.smul_apply, smul_eq_mul, Measure.pi_pi]
  · intro z _ z' _ hne
    refine Set.disjoint_left.2 fun g h1 h2 => hne ?_
    obtain ⟨y, h1, -⟩ := h1
    obtain ⟨y', h2, -⟩ := h2
    rw [h1] at h2
    simp only [Except.ok.injEq, Prod.mk.injEq] at h2
    funext t
    exact Fin.ext (congrFun (List.ofFn_injective h2.1) t)
  · intro z _
    exact hEm z

end

/-- `sample` with `random_state=None` on an object without seed uses the global generator. -/
theorem sample_global {S : Sub XF G Q} {R : RandomLib XF G} {e e' : Est XF G Q} (hc : S.checkFitted e = (.ok (), e'))
    (hrs : e'.randomState = .none) (n : Int) (c : Option ℕ) (g : G) :
    (S.sample R n none c ⟨e, g⟩).1 = (S.sampleFrom R e' n c g).1 := by
  simp only [Sub.sample, Sub.sampleBody, onEst, Py.bind_apply, hc, Py.get_apply, withSelfGen, hrs, Py.lift_apply]

/-- All classes. -/
theorem matches_of {S : Sub XF G Q} {R : RandomLib XF G} {u : G → ℝ} {nx : G → G} {e : Est XF G Q} {π : Fin e.nComponents → ℝ}
    {A : Fin e.nComponents → Fin e.nComponents → ℝ} (hchain : HoldsChain e π A)
    (hπs : ∑ i, π i = 1) (hs : ∀ i, ∑ j, A i j = 1) (hi : e.implementation = "log") (hrs : e.randomState = .none)
    {nf : ℕ} {p : Q} (hc : S.checkSub e = (.ok (), { e with nFeatures := some nf, sub := p }))
    {θ : S.Params e.nComponents nf} (hr : S.read p e.nComponents nf = some θ)
    {X : List D → RawX XF} {b : D → Fin e.nComponents → ℝ} (hans : Answers S e X π A b) [MeasurableSpace (S.Obs nf)]
    {xo : Fin e.nComponents → G → S.Obs nf} {gx : Fin e.nComponents → G → G} {law : Fin e.nComponents → Measure D}
    [∀ i, IsProbabilityMeasure (law i)] {enc : D → S.Obs nf}
    (h : IdealSampler P R (S.sampleSub R p θ) u nx xo gx fun i => (law i).map enc) (he : MeasurableEmbedding enc)
    {ν : Measure D} [SigmaFinite ν] (hb : ∀ x i, 0 ≤ b x i) (hm : ∀ i, Measurable fun x => b x i)
    (hP : ∀ i, law i = ν.withDensity fun x => ENNReal.ofReal (b x i)) :
    SampleMatchesScore P (fun n g => rowsOf (O := S.Obs) nf (S.sample R n none none ⟨e, g⟩).1)
      (fun l => (S.score (X l) none e).1) enc ν := by
  haveI : NeZero e.nComponents := ⟨nc_pos hchain.π_sum⟩
  intro n
  have hd := obsLaw_density (n := n) hchain.π_nonneg hchain.A_nonneg hb hm hP
  have hpr := isProbabilityMeasure_obsLaw (P := law) hchain.π_nonneg hπs hchain.A_nonneg hs n
  refine ⟨fun x => likelihood π A fun t => b (x t), fun x => ?_, fun x => ?_, fun B hB => ?_, ?_⟩
  · exact Finset.sum_nonneg fun z _ => mul_nonneg (mul_nonneg (hchain.π_nonneg _)
      (Finset.prod_nonneg fun t _ => hchain.A_nonneg _ _)) (Finset.prod_nonneg fun t _ => hb _ _)
  · have := hans.score hi [⟨n, x⟩] none (by simp) (Or.inr ⟨⟨_, rfl⟩, rfl⟩)
    simp only [samples, dataLikelihood, List.map_cons, List.map_nil, List.flatten_cons, List.flatten_nil, List.append_nil,
      List.prod_cons, List.prod_nil, mul_one] at this
    exact this
  · have hready := Sub.ready_of (S := S) (e := { e with nFeatures := some nf, sub := p }) (nc_pos hchain.π_sum) rfl
      hchain.startprob hchain.transmat hr
    have hk := hchain.fitted.trans hc
    rw [← withDensity_apply _ (MeasurableSet.univ_pi hB), ← hd,
      ← sampleWith_obsLaw h he hchain.π_nonneg hπs hchain.A_nonneg hs B hB]
    congr 1
    ext g
    simp only [Set.mem_ofPred_eq]
    refine exists_congr fun zs => exists_congr fun x => and_congr_left fun _ => ?_
    have e1 : (S.sample R (((n + 1 : ℕ) : Int)) none none ⟨e, g⟩).1 = (S.sampleWith R p (nf := nf)
        ⟨fun i => fin (π i), fun i j => fin (A i j), θ⟩ ((n : Int) + 1) none g).1 := by
      rw [sample_global hk hrs, Sub.sampleFrom, hready]
      rfl
    rw [e1]
    rw [sampleWith_map]
    cases (sampleCore R (fun i => fin (π i)) (fun i j => fin (A i j)) (S.sampleSub R p θ) ((n : Int) + 1) none g).1 with
    | error err => simp [rowsOf, Except.map]
    | ok l => simp [rowsOf, Except.map]
  · rw [← setLIntegral_univ, ← withDensity_apply _ MeasurableSet.univ, ← hd, measure_univ]

end Verif
