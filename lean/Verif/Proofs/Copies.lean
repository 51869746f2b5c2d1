import Verif.Spec.Copies
import Verif.Proofs.Relabel

/-!
# Training on repeated data
-/

set_option autoImplicit false

namespace Verif
open FloatLike XF Hmmc Spec
open scoped Classical

section Data
variable {nc : ℕ} {D : Type} (π : Fin nc → ℝ) (A : Fin nc → Fin nc → ℝ) (b : D → Fin nc → ℝ) (k : ℕ)
  (ss : List (ObsSeq D))

theorem sum_copies (f : ObsSeq D → ℝ) : ((copies k ss).map f).sum = k * (ss.map f).sum := by
  unfold copies
  rw [List.map_flatten, List.map_replicate, List.sum_flatten, List.map_replicate, List.sum_replicate, nsmul_eq_mul]

theorem startStat_copies : startStat π A b (copies k ss) = fun i => k * startStat π A b ss i := by
  funext i; exact sum_copies k ss _

theorem transStat_copies : transStat π A b (copies k ss) = fun i j => k * transStat π A b ss i j := by
  funext i j; exact sum_copies k ss _

theorem obsStat_copies : obsStat π A b (copies k ss) = fun i f => k * obsStat π A b ss i f := by
  funext i f; exact sum_copies k ss _

theorem dataLikelihood_copies : dataLikelihood π A b (copies k ss) = dataLikelihood π A b ss ^ k := by
  unfold dataLikelihood copies
  rw [List.map_flatten, List.map_replicate, List.prod_flatten, List.map_replicate, List.prod_replicate]

theorem mem_copies {k : ℕ} (hk : 0 < k) {s : ObsSeq D} : s ∈ copies k ss ↔ s ∈ ss := by
  unfold copies
  rw [List.mem_flatten]
  constructor
  · rintro ⟨l, hl, h⟩
    rwa [List.eq_of_mem_replicate hl] at h
  · exact fun h => ⟨ss, List.mem_replicate.2 ⟨hk.ne', rfl⟩, h⟩

theorem copies_ne_nil {k : ℕ} (hk : 0 < k) (hne : ss ≠ []) : copies k ss ≠ [] := by
  obtain ⟨s, hs⟩ := List.exists_mem_of_ne_nil ss hne
  exact List.ne_nil_of_mem ((mem_copies ss hk).2 hs)

end Data

theorem mapUpdate_copies {ι : Type*} [Fintype ι] {k : ℕ} (hk : 0 < k) (prior old stat : ι → ℝ) :
    mapUpdate (fun i => stronger k 1 (prior i)) old (fun i => k * stat i) = mapUpdate prior old stat := by
  have hk' : (0 : ℝ) < k := Nat.cast_pos.2 hk
  have e : ∀ i, mapCounts (fun i => stronger k 1 (prior i)) old (fun i => k * stat i) i = k * mapCounts prior old stat i := by
    intro i
    unfold mapCounts stronger
    by_cases h : old i = 0
    · rw [if_pos h, if_pos h, mul_zero]
    · rw [if_neg h, if_neg h, mul_max_of_nonneg _ _ hk'.le, mul_zero]
      congr 1; ring
  funext i
  unfold mapUpdate
  simp only [e]
  rw [← Finset.mul_sum, mul_div_mul_left _ _ hk'.ne']

theorem stronger_one_le {k : ℕ} {x : ℝ} (h : 1 ≤ x) : 1 ≤ stronger k 1 x := by
  unfold stronger
  have := mul_nonneg (Nat.cast_nonneg (α := ℝ) k) (sub_nonneg.2 h)
  linarith

section Loop
variable {τ : Type}

/-- The same history `k` times as steep. -/
structure MonCopies (k : ℕ) (mon' mon : Monitor XF) : Prop where
  tol : mon'.tol = fin k * mon.tol
  nIter : mon'.nIter = mon.nIter
  iter : mon'.iter = mon.iter
  history : mon'.history = mon.history.map (fin k * ·)
  finite : ∀ v ∈ mon.history, ∃ x, v = fin x

theorem lt_scale {k : ℕ} (hk : 0 < k) (x : ℝ) (t : XF) : lt (fin ((k : ℝ) * x)) (fin k * t) = lt (fin x) t := by
  have hk' : (0 : ℝ) < k := Nat.cast_pos.2 hk
  cases t with
  | fin y =>
    rw [fin_mul, fin_lt, fin_lt]
    exact decide_eq_decide.2 (mul_lt_mul_iff_of_pos_left hk')
  | nan => rfl
  | ninf => 
    have : (fin (k : ℝ) * ninf : XF) = ninf := by
      show XF.mul _ _ = _
      simp [XF.mul, infMul, hk, hk'.ne', not_lt.2 hk'.le]
    rw [this]; rfl
  | pinf =>
    have : (fin (k : ℝ) * pinf : XF) = pinf := by
      show XF.mul _ _ = _
      simp [XF.mul, infMul, hk, hk'.ne', not_lt.2 hk'.le]
    rw [this]; rfl

theorem MonCopies.converged {k : ℕ} (hk : 0 < k) {mon' mon : Monitor XF} (h : MonCopies k mon' mon) :
    mon'.converged = mon.converged := by
  unfold Monitor.converged
  rw [h.iter, h.nIter, h.history, ← List.map_reverse, h.tol]
  congr 1
  rcases hr : mon.history.reverse with _ | ⟨a, _ | ⟨b, l⟩⟩
  · rfl
  · rfl
  · have ha : a ∈ mon.history := List.mem_reverse.1 (hr ▸ List.mem_cons_self ..)
    have hb : b ∈ mon.history := List.mem_reverse.1 (hr ▸ List.mem_cons_of_mem _ (List.mem_cons_self ..))
    obtain ⟨x, rfl⟩ := h.finite a ha
    obtain ⟨y, rfl⟩ := h.finite b hb
    show lt (fin (k : ℝ) * fin x - fin (k : ℝ) * fin y) _ = lt (fin x - fin y) _
    rw [fin_mul, fin_mul, fin_sub, fin_sub, ← mul_sub, lt_scale hk]

theorem MonCopies.report {k : ℕ} {mon' mon : Monitor XF} (h : MonCopies k mon' mon) (x : ℝ) :
    MonCopies k (mon'.report (fin (k * x))) (mon.report (fin x)) where
  tol := h.tol
  nIter := h.nIter
  iter := congrArg (· + 1) h.iter
  history := by
    show mon'.history ++ [_] = (mon.history ++ [_]).map _
    rw [h.history, List.map_append, List.map_singleton, fin_mul]
  finite v hv := by
    rcases List.mem_append.1 hv with hv | hv
    · exact h.finite v hv
    · exact ⟨x, List.mem_singleton.1 hv⟩

theorem fitLoop_copies {k : ℕ} (hk : 0 < k) {step step' : τ → Except PyErr (τ × XF)} (I : τ → Prop)
    (h : ∀ s, I s → (∃ e, step s = .error e ∧ step' s = .error e) ∨
      ∃ t v, step s = .ok (t, fin v) ∧ step' s = .ok (t, fin (k * v)) ∧ I t)
    (n : ℕ) (s : τ) (hs : I s) {mon' mon : Monitor XF} (hm : MonCopies k mon' mon) :
    (fitLoop step' n s mon').state = (fitLoop step n s mon).state ∧
      (fitLoop step' n s mon').raised = (fitLoop step n s mon).raised ∧
      MonCopies k (fitLoop step' n s mon').monitor (fitLoop step n s mon).monitor := by
  induction n generalizing s mon' mon with
  | zero => exact ⟨rfl, rfl, hm⟩
  | succ n ih =>
    rcases h s hs with ⟨e, h1, h2⟩ | ⟨t, v, h1, h2, h3⟩
    · simp only [fitLoop, h1, h2]
      exact ⟨trivial, trivial, hm⟩
    · simp only [fitLoop, h1, h2, (hm.report v).converged hk]
      split
      · exact ⟨rfl, rfl, hm.report v⟩
      · exact ih t h3 (hm.report v)

end Loop

variable {nc : ℕ} {Obs D P S S' Q : Type} [NeZero nc]

/-- Priors of start and transition probabilities that count `k` times as much. -/
noncomputable def RConfig.stronger (k : ℕ) (c : RConfig nc) : RConfig nc :=
  ⟨fun i => Spec.stronger k 1 (c.sp i), fun i j => Spec.stronger k 1 (c.tp i j), c.impl, c.nIter⟩

namespace Family
variable {E : Emission XF nc Obs P S} {E' : Emission XF nc Obs P S'} {obs : D → Obs} {params : List Char}

/-- `F'` is `F` with priors that count `k` times as much. -/
structure Copies (k : ℕ) (G : Q → (Fin nc → (D → ℝ) → ℝ) → Prop) (F : Family E obs params Q)
    (F' : Family E' obs params Q) : Prop where
  embed : F'.embed = F.embed
  b : F'.b = F.b
  next : ∀ q T, PosLin T → G q T → F'.next q (fun i f => k * T i f) = F.next q T
  good : ∀ q T, PosLin T → G q T → F'.Good q fun i f => k * T i f

variable {F : Family E obs params Q} {F' : Family E' obs params Q} {k : ℕ} {G : Q → (Fin nc → (D → ℝ) → ℝ) → Prop}

omit [NeZero nc] in
theorem Copies.rstep_eq (h : Copies k G F F') (hk : 0 < k) (c : RConfig nc) (ss : List (ObsSeq D)) (r : RParams nc Q)
    (hv : r.Valid) (hg : G r.q (obsStat r.π r.A (F.b r.q) ss)) :
    F'.rstep (c.stronger k) (copies k ss) r = F.rstep c ss r := by
  unfold rstep RConfig.stronger
  rw [h.b]
  simp only [startStat_copies, transStat_copies, obsStat_copies, mapUpdate_copies hk]
  congr 1
  exact h.next _ _ (obsStat_posLin hv.π_nonneg hv.A_nonneg (F.b_nonneg _) ss) hg

omit [NeZero nc] in
theorem Copies.ok_iff (h : Copies k G F F') (hk : 0 < k) (impl : Impl) (ss : List (ObsSeq D)) (r : RParams nc Q) :
    F'.Ok impl (copies k ss) r ↔ F.Ok impl ss r := by
  unfold Ok
  rw [h.b]
  exact forall_congr' fun s => by rw [mem_copies ss hk]

omit [NeZero nc] in
theorem Copies.theta (h : Copies k G F F') (r : RParams nc Q) : F'.theta r = F.theta r := by
  unfold Family.theta; rw [h.embed]

/-- **Training on `k` copies with priors and tolerance `k` times as large.** -/
theorem Copies.fit_eq (h : Copies k G F F') (hk : 0 < k) {c : RConfig nc} {ss : List (ObsSeq D)}
    {I : RParams nc Q → Prop} (hI : F.Closed c ss I)
    (hG : ∀ r, I r → F.Ok c.impl ss r → G r.q (obsStat r.π r.A (F.b r.q) ss)) (hne : ss ≠ [])
    (hp : 's' ∈ params → ∀ i, 1 ≤ c.sp i) {r : RParams nc Q} (hr : I r) {mon' mon : Monitor XF}
    (hm : Coarser k mon' mon) :
    CopiedFit k (F'.fit (c.stronger k) (copies k ss) r mon') (F.fit c ss r mon) := by
  have key := fitLoop_copies hk
    (step := emStep E (c.toConfig params) (dataX obs ss) (dataLengths ss))
    (step' := emStep E' ((c.stronger k).toConfig params) (dataX obs (copies k ss)) (dataLengths (copies k ss)))
    (fun θ => ∃ r, I r ∧ θ = F.theta r) (by
      rintro _ ⟨r, hr, rfl⟩
      have hv := hI.valid r hr
      by_cases hok : F.Ok c.impl ss r
      · right
        have hg := hI.good r hr hok
        have hL : 0 < F.L ss r := List.prod_pos fun x hx => by
          obtain ⟨s, hs, rfl⟩ := List.mem_map.1 hx
          exact EstepOk.likelihood_pos (hok s hs)
        have hL' : F'.L (copies k ss) r = F.L ss r ^ k := by
          unfold L; rw [h.b, dataLikelihood_copies]
        refine ⟨_, Real.log (F.L ss r), (F.emStep_real c ss hne hv hok hg hp).trans (by rw [lg_pos hL]), ?_,
          _, hI.next r hr hok, rfl⟩
        have := F'.emStep_real (c.stronger k) (copies k ss) (copies_ne_nil ss hk hne) hv ((h.ok_iff hk _ _ _).2 hok) (by
          rw [h.b, obsStat_copies]
          exact h.good _ _ (obsStat_posLin hv.π_nonneg hv.A_nonneg (F.b_nonneg _) ss) (hG r hr hok))
          fun hs i => stronger_one_le (hp hs i)
        rw [h.theta, h.theta, h.rstep_eq hk c ss r hv (hG r hr hok), hL', lg_pos (pow_pos hL k), Real.log_pow] at this
        exact this
      · cases hi : c.impl with
        | log => exact absurd (hi ▸ hI.ok hi r hr) hok
        | scaling =>
          left
          rw [hi] at hok
          have := F'.emStep_underflow (c.stronger k) hi (copies k ss) hv fun h' => hok ((h.ok_iff hk _ _ _).1 h')
          rw [h.theta] at this
          exact ⟨_, F.emStep_underflow c hi ss hv hok, this⟩)
    c.nIter (F.theta r) ⟨r, hr, rfl⟩ (mon' := mon'.reset) (mon := mon.reset)
    ⟨hm.1, hm.2, rfl, rfl, fun v hv => by cases hv⟩
  have e : F'.fit (c.stronger k) (copies k ss) r mon' = fitLoop (emStep E' ((c.stronger k).toConfig params)
      (dataX obs (copies k ss)) (dataLengths (copies k ss))) c.nIter (F.theta r) mon'.reset := by
    unfold Family.fit; rw [h.theta]; rfl
  rw [e]
  exact ⟨key.1, key.2.2.history, key.2.2.iter, key.2.1⟩

end Family
end Verif
