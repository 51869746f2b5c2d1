import Verif.Spec.Recode
import Verif.Proofs.Relabel

/-!
# Training on rewritten data
-/

set_option autoImplicit false

namespace Verif
open FloatLike XF Hmmc Spec
open scoped Classical

section Data
variable {nc : ℕ} {D D' : Type} (φ : D → D') (π : Fin nc → ℝ) (A : Fin nc → Fin nc → ℝ)
  {b : D → Fin nc → ℝ} {b' : D' → Fin nc → ℝ} (h : ∀ o, b' (φ o) = b o) (ss : List (ObsSeq D))

include h in
theorem weights_recode (s : ObsSeq D) : (s.recode φ).weights b' = s.weights b := by
  funext t; exact h _

include h in
theorem dataLikelihood_recode : dataLikelihood π A b' (recode φ ss) = dataLikelihood π A b ss := by
  unfold dataLikelihood recode
  rw [List.map_map]
  congr 1
  refine List.map_congr_left fun s _ => ?_
  show likelihood π A ((s.recode φ).weights b') = _
  rw [weights_recode φ h]; rfl

include h in
theorem startStat_recode : startStat π A b' (recode φ ss) = startStat π A b ss := by
  funext i
  unfold startStat recode
  rw [List.map_map]
  congr 1
  refine List.map_congr_left fun s _ => ?_
  show posterior π A ((s.recode φ).weights b') 0 i = _
  rw [weights_recode φ h]; rfl

include h in
theorem transStat_recode : transStat π A b' (recode φ ss) = transStat π A b ss := by
  funext i j
  unfold transStat recode
  rw [List.map_map]
  congr 1
  refine List.map_congr_left fun s _ => ?_
  show expectedTransitions π A ((s.recode φ).weights b') i j = _
  rw [weights_recode φ h]; rfl

include h in
theorem obsStat_recode : obsStat π A b' (recode φ ss) = fun i f => obsStat π A b ss i fun o => f (φ o) := by
  funext i f
  unfold obsStat recode
  rw [List.map_map]
  congr 1
  refine List.map_congr_left fun s _ => ?_
  show ∑ t, posterior π A ((s.recode φ).weights b') t i * f (φ (s.x t)) = _
  rw [weights_recode φ h]; rfl

theorem dataLengths_recode : dataLengths (recode φ ss) = dataLengths ss := by
  unfold dataLengths recode
  rw [List.map_map]; rfl

end Data

variable {nc : ℕ} {Obs Obs' D D' P P' S S' Q Q' : Type} [NeZero nc]

/-- The same start and transition probabilities with rewritten emission parameters. -/
def RParams.recode (act : Q → Q') (r : RParams nc Q) : RParams nc Q' := ⟨r.π, r.A, act r.q⟩

namespace Family
variable {E : Emission XF nc Obs P S} {E' : Emission XF nc Obs' P' S'} {obs : D → Obs} {obs' : D' → Obs'}
  {params : List Char}

/-- `F'` is `F` for data rewritten by `φ`, where `G` holds; `act` rewrites the real parameters, `actP` those of the
program. -/
structure RecodeOn (G : Q → (Fin nc → (D → ℝ) → ℝ) → Prop) (F : Family E obs params Q) (F' : Family E' obs' params Q')
    (φ : D → D') (act : Q → Q') (actP : P → P') : Prop where
  embed_act : ∀ q, F'.embed (act q) = actP (F.embed q)
  b_act : ∀ q o i, F'.b (act q) (φ o) i = F.b q o i
  next_act : ∀ q T, PosLin T → G q T → F'.next (act q) (fun i f => T i fun o => f (φ o)) = act (F.next q T)
  good_act : ∀ q T, PosLin T → G q T → F'.Good (act q) fun i f => T i fun o => f (φ o)

/-- `F'` is `F` for data rewritten by `φ`, wherever the M-step of `F` is defined. -/
abbrev Recode (F : Family E obs params Q) (F' : Family E' obs' params Q') (φ : D → D')
    (act : Q → Q') (actP : P → P') : Prop := RecodeOn F.Good F F' φ act actP

variable {F : Family E obs params Q} {F' : Family E' obs' params Q'} {φ : D → D'} {act : Q → Q'}
  {actP : P → P'} {G : Q → (Fin nc → (D → ℝ) → ℝ) → Prop}

omit [NeZero nc] in
theorem RecodeOn.b_eq (h : RecodeOn G F F' φ act actP) (q : Q) (o : D) : F'.b (act q) (φ o) = F.b q o := by
  funext i; exact h.b_act q o i

omit [NeZero nc] in
theorem RecodeOn.L_eq (h : RecodeOn G F F' φ act actP) (ss : List (ObsSeq D)) (r : RParams nc Q) :
    F'.L (Spec.recode φ ss) (r.recode act) = F.L ss r :=
  dataLikelihood_recode φ r.π r.A (h.b_eq r.q) ss

omit [NeZero nc] in
theorem RecodeOn.rstep_eq (h : RecodeOn G F F' φ act actP) (c : RConfig nc) (ss : List (ObsSeq D)) (r : RParams nc Q)
    (hv : r.Valid) (hg : G r.q (obsStat r.π r.A (F.b r.q) ss)) :
    F'.rstep c (Spec.recode φ ss) (r.recode act) = (F.rstep c ss r).recode act := by
  unfold rstep RParams.recode
  simp only [startStat_recode φ r.π r.A (h.b_eq r.q), transStat_recode φ r.π r.A (h.b_eq r.q),
    obsStat_recode φ r.π r.A (h.b_eq r.q)]
  congr 1
  exact h.next_act _ _ (obsStat_posLin hv.π_nonneg hv.A_nonneg (F.b_nonneg _) ss) hg

omit [NeZero nc] in
theorem RecodeOn.ok_iff (h : RecodeOn G F F' φ act actP) (impl : Impl) (ss : List (ObsSeq D)) (r : RParams nc Q) :
    F'.Ok impl (Spec.recode φ ss) (r.recode act) ↔ F.Ok impl ss r := by
  unfold Ok Spec.recode
  simp only [List.mem_map, forall_exists_index, and_imp, forall_apply_eq_imp_iff₂]
  refine forall₂_congr fun s _ => ?_
  show EstepOk impl r.π r.A ((s.recode φ).weights (F'.b (act r.q))) ↔ _
  rw [weights_recode φ (h.b_eq r.q)]; rfl

/-- **Training commutes with rewriting the data.** -/
theorem RecodeOn.fit_eq' (h : RecodeOn G F F' φ act actP) {c : RConfig nc} {ss : List (ObsSeq D)}
    {I : RParams nc Q → Prop} (hI : F.Closed c ss I)
    (hG : ∀ r, I r → F.Ok c.impl ss r → G r.q (obsStat r.π r.A (F.b r.q) ss)) (hne : ss ≠ []) (hp : 's' ∈ params → ∀ i, 1 ≤ c.sp i)
    {r : RParams nc Q} (hr : I r) (mon : Monitor XF) :
    RecodedFit actP (F'.fit c (Spec.recode φ ss) (r.recode act) mon) (F.fit c ss r mon) := by
  have hne' : Spec.recode φ ss ≠ [] := fun h0 => hne (List.map_eq_nil_iff.1 h0)
  have key := fitLoop_sim
    (step := emStep E (c.toConfig params) (dataX obs ss) (dataLengths ss))
    (step' := emStep E' (c.toConfig params) (dataX obs' (Spec.recode φ ss)) (dataLengths (Spec.recode φ ss)))
    (fun θ θ' => ∃ r, I r ∧ θ = F.theta r ∧ θ' = F'.theta (r.recode act)) (by
      rintro _ _ ⟨r, hr, rfl, rfl⟩
      have hv := hI.valid r hr
      have hv' : (r.recode act).Valid := ⟨hv.π_nonneg, hv.A_nonneg, hv.π_sum, hv.A_sum⟩
      by_cases hok : F.Ok c.impl ss r
      · right
        have hg := hI.good r hr hok
        refine ⟨_, _, _, F.emStep_real c ss hne hv hok hg hp,
          (F'.emStep_real c (Spec.recode φ ss) hne' hv' ((h.ok_iff _ _ _).2 hok) ?_ hp).trans
            (by rw [h.rstep_eq c ss r hv (hG r hr hok), h.L_eq]), _, hI.next r hr hok, rfl, rfl⟩
        show F'.Good (act r.q) (obsStat r.π r.A (F'.b (act r.q)) (Spec.recode φ ss))
        rw [obsStat_recode φ r.π r.A (h.b_eq r.q)]
        exact h.good_act _ _ (obsStat_posLin hv.π_nonneg hv.A_nonneg (F.b_nonneg _) ss) (hG r hr hok)
      · cases hi : c.impl with
        | log => exact absurd (hi ▸ hI.ok hi r hr) hok
        | scaling =>
          left
          rw [hi] at hok
          exact ⟨_, F.emStep_underflow c hi ss hv hok,
            F'.emStep_underflow c hi (Spec.recode φ ss) hv' fun h' => hok ((h.ok_iff _ _ _).1 h')⟩)
    c.nIter (F.theta r) (F'.theta (r.recode act)) mon.reset ⟨r, hr, rfl, rfl⟩
  obtain ⟨⟨r', -, h1, h2⟩, h3, h4⟩ := key
  have e1 : (F.fit c ss r mon).state = F.theta r' := h1
  have e2 : (F'.fit c (Spec.recode φ ss) (r.recode act) mon).state = F'.theta (r'.recode act) := h2
  refine ⟨?_, ?_, ?_, h3, h4⟩
  · rw [e1, e2]; rfl
  · rw [e1, e2]; rfl
  · rw [e1, e2]; exact h.embed_act r'.q

theorem RecodeOn.fit_eq (h : F.Recode F' φ act actP) {c : RConfig nc} {ss : List (ObsSeq D)}
    {I : RParams nc Q → Prop} (hI : F.Closed c ss I) (hne : ss ≠ []) (hp : 's' ∈ params → ∀ i, 1 ≤ c.sp i)
    {r : RParams nc Q} (hr : I r) (mon : Monitor XF) :
    RecodedFit actP (F'.fit c (Spec.recode φ ss) (r.recode act) mon) (F.fit c ss r mon) :=
  h.fit_eq' hI hI.good hne hp hr mon

end Family
end Verif
