import Verif.Proofs.RoundoffTotal
import Verif.Proofs.RoundoffEM

/-!
# An EM iteration that never leaves the range
-/

set_option autoImplicit false

namespace Verif
open FloatLike Hmmc Spec

variable {τ : Trapped} {nc nf n : ℕ}

theorem TX.IsFin.div (hτ : τ.Total) {x : TX τ} (hx : x.IsFin) {s : ℝ} (hs : s ≠ 0) :
    (x / TX.fin τ s).IsFin := by
  obtain ⟨a, rfl⟩ := hx
  rw [TX.div_fin _ hs]; exact TX.IsFin.round hτ _

theorem TX.IsFin.max {x y : TX τ} (hx : x.IsFin) (hy : y.IsFin) : (npMaximum x y).IsFin := by
  unfold npMaximum
  split
  · exact hx
  · split
    · exact hy
    · split
      · exact hy
      · exact hx

theorem normalizeRow_isFin (hτ : τ.Total) {k : ℕ} {v : Fin k → TX τ} (h : ∀ i, (v i).IsFin) (i : Fin k) :
    (normalizeRow v i).IsFin := by
  obtain ⟨s, hs⟩ := TX.IsFin.sumF hτ h
  unfold normalizeRow
  simp only [hs]
  by_cases h0 : s = 0
  · subst h0
    have : FloatLike.eq (TX.fin τ 0) (0 : TX τ) = true := by
      show XF.eq (XF.fin 0) (XF.fin 0) = true
      simp [XF.eq]
    rw [this, if_pos rfl]
    exact (h i).div hτ one_ne_zero
  · have : FloatLike.eq (TX.fin τ s) (0 : TX τ) = false := by
      show XF.eq (XF.fin s) (XF.fin 0) = false
      simp [XF.eq, h0]
    rw [this]
    exact (h i).div hτ h0

theorem backwardScalingLoop_isFin (hτ : τ.Total) {A : Mat (TX τ) nc} (hA : ∀ i j, (A i j).IsFin)
    (bs : List (Row (TX τ) nc × TX τ)) (hb : ∀ b ∈ bs, (∀ i, (b.1 i).IsFin) ∧ b.2.IsFin) :
    ∀ w ∈ backwardScalingLoop A bs, ∀ i, (w i).IsFin := by
  induction bs with
  | nil => simp [backwardScalingLoop]
  | cons x bs ih =>
    obtain ⟨b0, s⟩ := x
    cases bs with
    | nil =>
      intro w hw i
      have : w = fun _ => s := by simpa [backwardScalingLoop] using hw
      rw [this]
      exact (hb _ List.mem_cons_self).2
    | cons y bs =>
      obtain ⟨b, s'⟩ := y
      have ih := ih fun b h => hb b (List.mem_cons_of_mem _ h)
      intro w hw
      simp only [backwardScalingLoop, memo_eq] at hw
      split at hw
      · simp at hw
      next next more he =>
      rw [he] at ih
      rcases List.mem_cons.1 hw with rfl | hw
      · intro i
        refine TX.IsFin.mul hτ (TX.IsFin.sumF hτ fun j => ?_) (hb _ List.mem_cons_self).2
        exact ((hA i j).mul hτ ((hb (b, s') (by simp)).1 j)).mul hτ (ih next (by simp) j)
      · exact ih w hw

theorem computePosteriorsScaling_isFin (hτ : τ.Total) {fs ws : List (Row (TX τ) nc)}
    (hf : ∀ f ∈ fs, ∀ i, (f i).IsFin) (hw : ∀ w ∈ ws, ∀ i, (w i).IsFin) :
    ∀ p ∈ computePosteriorsScaling fs ws, ∀ i, (p i).IsFin := by
  intro p hp i
  unfold computePosteriorsScaling at hp
  rw [← List.map_uncurry_zip_eq_zipWith] at hp
  obtain ⟨⟨f, w⟩, hfw, rfl⟩ := List.mem_map.1 hp
  have := List.of_mem_zip hfw
  simp only [Function.uncurry, memo_eq]
  exact normalizeRow_isFin hτ (fun i => (hf f this.1 i).mul hτ (hw w this.2 i)) i

theorem xi_isFin (hτ : τ.Total) {fs bs ws : List (Row (TX τ) nc)} {A : Mat (TX τ) nc}
    (hA : ∀ i j, (A i j).IsFin) (hf : ∀ f ∈ fs, ∀ i, (f i).IsFin) (hb : ∀ b ∈ bs, ∀ i, (b i).IsFin)
    (hw : ∀ w ∈ ws, ∀ i, (w i).IsFin) {xi : Mat (TX τ) nc}
    (ho : computeScalingXiSum fs A ws bs = .ok xi) (i j : Fin nc) : (xi i j).IsFin := by
  unfold computeScalingXiSum at ho
  split at ho
  · cases ho
  cases ho
  simp only [memo_eq]
  have : ∀ (l : List (Row (TX τ) nc × Row (TX τ) nc × Row (TX τ) nc)) (a : TX τ), a.IsFin →
      (∀ x ∈ l, (∀ i, (x.1 i).IsFin) ∧ (∀ i, (x.2.1 i).IsFin) ∧ ∀ i, (x.2.2 i).IsFin) →
      (l.foldl (fun acc (x : Row (TX τ) nc × Row (TX τ) nc × Row (TX τ) nc) =>
        acc + x.1 i * A i j * x.2.1 j * x.2.2 j) a).IsFin := by
    intro l
    induction l with
    | nil => intro a ha _; exact ha
    | cons x l ih =>
      intro a ha hl
      obtain ⟨h1, h2, h3⟩ := hl x List.mem_cons_self
      exact ih _ (ha.add hτ ((((h1 i).mul hτ (hA i j)).mul hτ (h2 j)).mul hτ (h3 j)))
        fun y hy => hl y (List.mem_cons_of_mem _ hy)
  refine this _ _ ⟨0, rfl⟩ ?_
  rintro ⟨f, b, w⟩ hx
  have h1 := List.of_mem_zip hx
  have h2 := List.of_mem_zip h1.2
  exact ⟨hf f h1.1, hb b (List.mem_of_mem_tail h2.1), hw w (List.mem_of_mem_tail h2.2)⟩

theorem Categorical.addAt_isFin (hτ : τ.Total) (X : List (Fin nf)) {ps : List (Row (TX τ) nc)}
    (hp : ∀ p ∈ ps, ∀ i, (p i).IsFin) {st : Categorical.Params (TX τ) nc nf}
    (hst : ∀ i k, (st i k).IsFin) :
    ∃ st', Categorical.addAt st (X.map Categorical.sym) ps = .ok st' ∧ ∀ i k, (st' i k).IsFin := by
  induction X generalizing ps st with
  | nil => exact ⟨st, by simp [Categorical.addAt], hst⟩
  | cons s X ih =>
    cases ps with
    | nil => exact ⟨st, by simp [Categorical.addAt], hst⟩
    | cons p ps =>
      simp only [List.map_cons, Categorical.addAt, Categorical.sym, Categorical.index_fin, memo_eq]
      refine ih (fun p h => hp p (List.mem_cons_of_mem _ h)) fun i k => ?_
      split
      · exact (hst i k).add hτ (hp p List.mem_cons_self i)
      · exact hst i k

/-- Every parameter is a finite number. -/
structure AllFin (θ : Theta (TX τ) nc (Categorical.Params (TX τ) nc nf)) : Prop where
  startprob : ∀ i, (θ.startprob i).IsFin
  transmat : ∀ i j, (θ.transmat i j).IsFin
  emission : ∀ i k, (θ.emission i k).IsFin

theorem AllFin.noNaN {θ : Theta (TX τ) nc (Categorical.Params (TX τ) nc nf)} (h : AllFin θ) : NoNaN θ :=
  ⟨fun i => (h.startprob i).ne_nan, fun i j => (h.transmat i j).ne_nan⟩

/-- Every accumulated statistic is a finite number. -/
structure StatsFin (st : Stats (TX τ) nc (Categorical.Params (TX τ) nc nf)) : Prop where
  start : ∀ i, (st.base.start i).IsFin
  trans : ∀ i j, (st.base.trans i j).IsFin
  em : ∀ i k, (st.em i k).IsFin

variable [NeZero nc] {params : List Char} {prior : Categorical.Params (TX τ) nc nf}
  {θ : Theta (TX τ) nc (Categorical.Params (TX τ) nc nf)} {kp ka kb : ℕ} {π : Fin nc → ℝ}
  {A : Fin nc → Fin nc → ℝ} {b : Fin nf → Fin nc → ℝ}

theorem estepOne_isFin (hτ : τ.Total)
    (h : Approximates ((Categorical.emission prior).toHmm .scaling θ) Categorical.sym kp ka kb π A b)
    (hθ : AllFin θ) (s : ObsSeq (Fin nf)) {st : Stats (TX τ) nc (Categorical.Params (TX τ) nc nf)}
    (hst : StatsFin st)
    (hp : ∀ t, (1 / 10 ^ 300 : ℝ) ≤
      (1 - τ.u) ^ (2 * steps nc s.n kp ka kb + 1) * predictive π A (s.weights b) t) :
    ∃ st' lp, estepOne (Categorical.emission prior) params .scaling θ st (s.rows Categorical.sym) =
      .ok (st', lp) ∧ StatsFin st' ∧ lp.IsFin := by
  obtain ⟨rows, hr, hb⟩ := h.frame s.x
  obtain ⟨⟨lp, fs, cs⟩, hfw⟩ := forwardScaling_ok hτ.hasMinSum h.startprob h.transmat hb fun t => by
    rw [eps_eq]; exact hp t
  have hrows : ∀ row ∈ rows, ∀ i, (row i).IsFin := by
    have hc := Categorical.computeLikelihood_fin θ.emission (List.ofFn s.x)
    rw [List.map_ofFn] at hc
    cases hr.symm.trans hc
    intro row hrow i
    obtain ⟨k, -, rfl⟩ := List.mem_map.1 hrow
    exact hθ.emission i k
  obtain ⟨f1, f2, f3⟩ := forwardScaling_isFin hτ hθ.startprob hθ.transmat hrows hfw
  have hrl : rows.length = s.n + 1 := by simpa using hb.length_eq
  obtain ⟨cs', hcs, hF, -⟩ := forwardScaling_near hτ.hasMinSum h.startprob h.transmat hb hfw f1.ne_nan
  have hlen : cs.length = rows.length := by
    have := hF.length.1
    rw [hcs, List.length_map, hrl]; simpa using this
  have hbw : backwardScaling θ.transmat rows cs = .ok (backwardScalingLoop θ.transmat (rows.zip cs)) := by
    unfold backwardScaling
    rw [if_neg (not_not.2 hlen), if_neg]
    intro he
    rw [List.isEmpty_iff] at he
    simp [he] at hrl
  have hw := backwardScalingLoop_isFin hτ hθ.transmat (rows.zip cs) (fun b hb =>
    ⟨hrows _ (List.of_mem_zip hb).1, f3 _ (List.of_mem_zip hb).2⟩)
  set ws := backwardScalingLoop θ.transmat (rows.zip cs)
  have hpost := computePosteriorsScaling_isFin hτ f2 hw
  have hfit : fitScaling ((Categorical.emission prior).toHmm .scaling θ) (s.rows Categorical.sym) =
      .ok ⟨rows, lp, computePosteriorsScaling fs ws, fs, ws⟩ := by
    unfold fitScaling
    rw [show s.rows Categorical.sym = List.ofFn fun t => Categorical.sym (s.x t) from rfl]
    simp only [hr, hfw, bind, Except.bind, pure, Except.pure]
    rw [show ((Categorical.emission prior).toHmm .scaling θ).transmat = θ.transmat from rfl, hbw]
  obtain ⟨g1, -, g3⟩ := fitScaling_near hτ.hasMinSum h s.x hfit f1.ne_nan
  simp only at g1 g3
  obtain ⟨p0, hp0⟩ : ∃ p0, (computePosteriorsScaling fs ws).head? = some p0 := by
    have hl := g1.length_eq
    cases hq : computePosteriorsScaling fs ws with
    | nil => rw [hq] at hl; simp at hl
    | cons p ps => exact ⟨p, rfl⟩
  have hp0f := hpost p0 (List.mem_of_mem_head? hp0)
  obtain ⟨em, hem, hemf⟩ : ∃ em, (Categorical.emission prior).acc params θ.emission st.em
      (s.rows Categorical.sym) (computePosteriorsScaling fs ws) = .ok em ∧ ∀ i k, (em i k).IsFin := by
    by_cases he : 'e' ∈ params
    · have := Categorical.addAt_isFin hτ (List.ofFn s.x) hpost hst.em
      rw [List.map_ofFn] at this
      simp only [Categorical.emission, he, if_true]
      exact this
    · exact ⟨st.em, by simp [Categorical.emission, he], hst.em⟩
  obtain ⟨base, hbase, hb1, hb2⟩ : ∃ base, accumulateBase params .scaling θ.transmat st.base
      ⟨rows, lp, computePosteriorsScaling fs ws, fs, ws⟩ = .ok base ∧ (∀ i, (base.start i).IsFin) ∧
      ∀ i j, (base.trans i j).IsFin := by
    unfold accumulateBase
    have hs1 : ∀ i, (st.base.start i + p0 i).IsFin := fun i => (hst.start i).add hτ (hp0f i)
    simp only [hp0, memo_eq, bind, Except.bind, pure, Except.pure]
    have hxi : ¬ rows.length ≤ 1 → ∃ xi, xiSum .scaling θ.transmat
        ⟨rows, lp, computePosteriorsScaling fs ws, fs, ws⟩ = .ok xi ∧ ∀ i j, (xi i j).IsFin := by
      intro h1
      obtain ⟨xi, hx, -⟩ := g3 (by omega)
      exact ⟨xi, hx, xi_isFin hτ hθ.transmat f2 hrows hw hx⟩
    by_cases hs : 's' ∈ params <;> by_cases ht : 't' ∈ params <;> by_cases h1 : rows.length ≤ 1 <;>
      simp only [hs, ht, h1, if_true, if_false]
    all_goals first | exact ⟨_, rfl, hs1, hst.trans⟩ | exact ⟨_, rfl, hst.start, hst.trans⟩ | skip
    · obtain ⟨xi, hx, hxf⟩ := hxi h1
      rw [hx]
      exact ⟨_, rfl, hs1, fun i j => (hst.trans i j).add hτ (hxf i j)⟩
    · obtain ⟨xi, hx, hxf⟩ := hxi h1
      rw [hx]
      exact ⟨_, rfl, hst.start, fun i j => (hst.trans i j).add hτ (hxf i j)⟩
  refine ⟨⟨base, em⟩, lp, ?_, ⟨hb1, hb2, hemf⟩, f1⟩
  unfold estepOne fitOne
  simp only [Emission.toHmm, bind, Except.bind, pure, Except.pure] at hfit ⊢
  rw [hfit]
  simp only
  rw [hbase]
  simp only
  rw [hem]

theorem estepLoop_isFin (hτ : τ.Total)
    (h : Approximates ((Categorical.emission prior).toHmm .scaling θ) Categorical.sym kp ka kb π A b)
    (hθ : AllFin θ) (ss : List (ObsSeq (Fin nf))) {st : Stats (TX τ) nc (Categorical.Params (TX τ) nc nf)}
    (hst : StatsFin st) {lp : TX τ} (hl : lp.IsFin)
    (hp : ∀ s ∈ ss, ∀ t, (1 / 10 ^ 300 : ℝ) ≤
      (1 - τ.u) ^ (2 * steps nc s.n kp ka kb + 1) * predictive π A (s.weights b) t) :
    ∃ st' lp', estepLoop (Categorical.emission prior) params .scaling θ
      (ss.map (ObsSeq.rows Categorical.sym)) st lp = .ok (st', lp') ∧ StatsFin st' ∧ lp'.IsFin := by
  induction ss generalizing st lp with
  | nil => exact ⟨st, lp, rfl, hst, hl⟩
  | cons s ss ih =>
    obtain ⟨st1, lp1, h1, h2, h3⟩ := estepOne_isFin (params := params) hτ h hθ s hst (hp s List.mem_cons_self)
    simp only [List.map_cons, estepLoop, h1]
    exact ih h2 (hl.add hτ h3) fun s hs => hp s (List.mem_cons_of_mem _ hs)

/-! ## M-step -/

theorem count_isFin (hτ : τ.Total) {old stat : TX τ} {p : ℝ} (hs : stat.IsFin) :
    TX.IsFin (if FloatLike.eq old 0 then 0 else npMaximum (TX.fin τ p - 1 + stat) 0) := by
  split
  · exact ⟨0, rfl⟩
  · exact (TX.IsFin.add hτ (TX.IsFin.sub hτ ⟨p, rfl⟩ ⟨1, rfl⟩) hs).max ⟨0, rfl⟩

omit [NeZero nc] in
theorem mstepTransRow_isFin (hτ : τ.Total) {prior : Fin nc → ℝ} {old stat : Row (TX τ) nc}
    (hs : ∀ i, (stat i).IsFin) (i : Fin nc) :
    (mstepTransRow (fun i => TX.fin τ (prior i)) old stat i).IsFin := by
  unfold mstepTransRow
  simp only [memo_eq]
  exact normalizeRow_isFin hτ (fun i => count_isFin hτ (hs i)) i

theorem Categorical.mstepRow_isFin (hτ : τ.Total) {prior : Fin nf → ℝ} {stat : Fin nf → TX τ}
    (hs : ∀ i, (stat i).IsFin) (i : Fin nf) :
    (Categorical.mstepRow (fun i => TX.fin τ (prior i)) stat i).IsFin := by
  unfold Categorical.mstepRow
  simp only [memo_eq]
  exact normalizeRow_isFin hτ (fun i => (TX.IsFin.add hτ (TX.IsFin.sub hτ ⟨_, rfl⟩ ⟨1, rfl⟩) (hs i)).max
    ⟨0, rfl⟩) i

omit [NeZero nc] in
/-- The new start probabilities, when some state has a positive count. -/
theorem mstepStart_isFin (hτ : τ.Total) {e ko : ℕ} {prior old stat : Fin nc → ℝ} (hp : ∀ i, 1 ≤ prior i)
    {old' stat' : Row (TX τ) nc} (hold : ∀ i, Close ko (old' i) (old i))
    (hs : ∀ i, Near e (stat' i) (stat i)) (hf : ∀ i, (stat' i).IsFin)
    (hpos : 0 < ∑ i, mapCounts prior old stat i) (i : Fin nc) :
    (mstepStart (fun i => TX.fin τ (prior i)) old' stat' i).IsFin := by
  unfold mstepStart
  simp only [memo_eq]
  have hc : ∀ i, TX.IsFin _ := fun i => count_isFin (old := old' i) (p := prior i) hτ (hf i)
  obtain ⟨s, hs'⟩ := TX.IsFin.sumF hτ hc
  have hn := Near.sumF (mstep_counts hp hold hs)
  rw [hs'] at hn
  obtain ⟨r, hr, -, hw⟩ := hn.ne_nan (TX.fin_ne_nan s)
  cases hr
  unfold normalizeVec
  rw [hs']
  exact (hc i).div hτ (Within.left_pos (τ := τ) hw hpos).ne'

end Verif
