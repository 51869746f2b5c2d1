import Verif.Props.Inference
import Verif.Spec.Decode

/-!
# Properties of `decode` and `predict`: C08 - C13
-/

namespace Verif
open FloatLike XF Spec Hmmc
open scoped Classical

variable {nc n : ℕ} {Obs D P S : Type} [NeZero nc] {m : Hmm XF nc Obs} {obs : D → Obs}
  {π : Fin nc → ℝ} {A : Fin nc → Fin nc → ℝ} {b : D → Fin nc → ℝ}

/-! ## C08 -/

theorem decode_viterbi_single (h : Represents m obs π A b) (s : ObsSeq D) :
    ∃ z : Fin (s.n + 1) → Fin nc,
      decode m .viterbi (s.rows obs) none =
        .ok (lg (joint π A (s.weights b) z), List.ofFn z) ∧
      ∀ z', joint π A (s.weights b) z' ≤ joint π A (s.weights b) z := by
  obtain ⟨z, h1, h2⟩ := decodeViterbi_ofFn h s.x
  exact ⟨z, by rw [decode_none]; exact h1, h2⟩

theorem weights_joint_nonneg (h : Represents m obs π A b) (s : ObsSeq D)
    (z : Fin (s.n + 1) → Fin nc) : 0 ≤ joint π A (s.weights b) z :=
  joint_nonneg h.π_nonneg h.A_nonneg (fun _ => h.b_nonneg _) z

/-- **C08** Viterbi decoding returns, for every sequence of the data set, a hidden path `z s` whose
joint weight is maximal among all hidden paths; the returned `log_prob` is the log of the product
of these weights. -/
theorem C08_viterbi_optimal (h : Represents m obs π A b) (ss : List (ObsSeq D)) (hne : ss ≠ []) :
    ∃ z : (s : ObsSeq D) → Fin (s.n + 1) → Fin nc,
      decode m .viterbi (dataX obs ss) (some (dataLengths ss)) =
        .ok (xlog (ss.map fun s => joint π A (s.weights b) (z s)).prod,
          (ss.map fun s => List.ofFn (z s)).flatten) ∧
      ∀ s ∈ ss, ∀ z', joint π A (s.weights b) z' ≤ joint π A (s.weights b) (z s) := by
  choose z hz1 hz2 using fun s => decode_viterbi_single h s
  refine ⟨z, ?_, fun s _ => hz2 s⟩
  rw [decode_data m _ obs ss hne, mapM_ok _
    (fun s : ObsSeq D => (lg (joint π A (s.weights b) (z s)), List.ofFn (z s))) _
    (fun s _ => hz1 s)]
  simp only [Except.map, List.map_map, Function.comp_def]
  rw [sumL_lg _ _ fun s _ => weights_joint_nonneg h s (z s), lg_eq_xlog]
  exact List.prod_nonneg (by
    simp only [List.mem_map]; rintro _ ⟨s, _, rfl⟩; exact weights_joint_nonneg h s (z s))

/-- **C08** for one sequence, `lengths=None`. -/
theorem C08_viterbi_optimal_single (h : Represents m obs π A b) (x : Fin (n + 1) → D) :
    ∃ z : Fin (n + 1) → Fin nc,
      decode m .viterbi (List.ofFn fun t => obs (x t)) none =
        .ok (xlog (joint π A (fun t => b (x t)) z), List.ofFn z) ∧
      ∀ z', joint π A (fun t => b (x t)) z' ≤ joint π A (fun t => b (x t)) z := by
  obtain ⟨z, h1, h2⟩ := decode_viterbi_single h ⟨n, x⟩
  refine ⟨z, ?_, h2⟩
  rw [← lg_eq_xlog (joint_nonneg h.π_nonneg h.A_nonneg (fun _ => h.b_nonneg _) z)]
  exact h1

example : ∃ z, decode (Demo.hmm .log) .viterbi [0, 1, 2] none =
    .ok (xlog (joint Demo.π Demo.A (fun t => Demo.b (Demo.x t)) z), List.ofFn z) := by
  obtain ⟨z, h, _⟩ := C08_viterbi_optimal_single (Demo.represents .log) Demo.x
  exact ⟨z, by simpa [Demo.x, Categorical.sym] using h⟩

/-! ## C09 -/

/-- **C09** For every number type whose comparison is a linear preorder with bottom `-inf` and
whose addition is monotone in the first argument (`MonoArith`): the path returned by the Viterbi
kernel maximises the score as evaluated left to right in that arithmetic, and the returned value
compares equal to that score. -/
theorem C09_viterbi_mono {α : Type} [FloatLike α] (M : MonoArith α) {lπ : Row α nc} {lA : Mat α nc}
    {lb : Fin (n + 1) → Row α nc} (hπ : ∀ i, M.V (lπ i)) (hA : ∀ i j, M.V (lA i j))
    (hb : ∀ t i, M.V (lb t i)) :
    ∃ (v : α) (z : Fin (n + 1) → Fin nc),
      viterbiCore lπ lA (List.ofFn lb) = .ok (v, List.ofFn z) ∧
      FloatLike.lt v (pathScore lπ lA lb z) = false ∧
      FloatLike.lt (pathScore lπ lA lb z) v = false ∧
      ∀ z', FloatLike.lt (pathScore lπ lA lb z) (pathScore lπ lA lb z') = false := by
  obtain ⟨v, z, h1, h2, h3, h4⟩ := viterbiCore_spec M hπ hA hb
  have hV := fun z => pathScore_V M hπ hA hb z
  refine ⟨v, z, h1, ?_, ?_, fun z' => ?_⟩
  · rw [M.lt_eq _ _ h2 (hV z)]; simp [h3]
  · rw [M.lt_eq _ _ (hV z) h2]; simp [h3]
  · rw [M.lt_eq _ _ (hV z) (hV z')]; simp [← h3, h4 z']

/-- **C09** In arithmetic with an arbitrary monotone rounding `ρ` of every operation (logarithms
of the parameters included), the Viterbi kernel returns a path of maximal rounded score, and
exactly that rounded score. -/
theorem C09_viterbi_rounded (ρ : Rounding) (hπ : ∀ i, 0 ≤ π i) (hA : ∀ i j, 0 ≤ A i j)
    (lb : Fin (n + 1) → Row (RX ρ) nc) (hb : ∀ t i, lb t i = XF.ninf ∨ ∃ r, lb t i = XF.fin r) :
    let lπ : Row (RX ρ) nc := fun i => FloatLike.log (α := RX ρ) (XF.fin (π i))
    let lA : Mat (RX ρ) nc := fun i j => FloatLike.log (α := RX ρ) (XF.fin (A i j))
    ∃ z : Fin (n + 1) → Fin nc,
      viterbi (α := RX ρ) (fun i => XF.fin (π i)) (fun i j => XF.fin (A i j)) (List.ofFn lb) =
        .ok (pathScore lπ lA lb z, List.ofFn z) ∧
      ∀ z', FloatLike.lt (pathScore lπ lA lb z) (pathScore lπ lA lb z') = false := by
  intro lπ lA
  have hl : ∀ x : ℝ, 0 ≤ x → (rxMono ρ).V (FloatLike.log (α := RX ρ) (XF.fin x)) := by
    intro x hx
    show ρ.ap (XF.log (XF.fin x)) = XF.ninf ∨ ∃ r, ρ.ap (XF.log (XF.fin x)) = XF.fin r
    rcases hx.eq_or_lt with rfl | hx
    · left; simp [XF.log, Rounding.ap]
    · simp only [XF.log, hx.ne', if_false, hx, if_true, Rounding.ap]
      exact ρ.valid _
  have h1 : ∀ i, (rxMono ρ).V (lπ i) := fun i => hl _ (hπ i)
  have h2 : ∀ i j, (rxMono ρ).V (lA i j) := fun i j => hl _ (hA i j)
  obtain ⟨v, z, e1, e2, e3, e4⟩ := viterbiCore_spec (rxMono ρ) h1 h2 hb
  have hV := fun z => pathScore_V (rxMono ρ) h1 h2 hb z
  have hv : v = pathScore lπ lA lb z := xfKey_inj e2 (hV z) e3
  refine ⟨z, ?_, fun z' => ?_⟩
  · rw [← hv]
    unfold viterbi
    simp only [memo_eq]
    exact e1
  · rw [(rxMono ρ).lt_eq _ _ (hV z) (hV z')]
    simp only [decide_eq_false_iff_not, not_lt]
    rw [← hv]; exact e4 z'

example : ∃ z, viterbi (α := RX Rounding.coarse) (fun i => XF.fin (Demo.π i))
    (fun i j => XF.fin (Demo.A i j)) (List.ofFn fun (_ : Fin 4) (_ : Fin 2) => XF.fin (-3/2)) =
      .ok z :=
  ⟨_, (C09_viterbi_rounded (n := 3) Rounding.coarse Demo.π_nonneg Demo.A_nonneg _
    fun _ _ => Or.inr ⟨_, rfl⟩).choose_spec.1⟩

/-! ## C10 -/

theorem length_of_decode_ok (alg : Alg) (ss : List (ObsSeq D)) (hne : ss ≠ [])
    (hl : ∀ s : ObsSeq D, ∀ r, decode m alg (s.rows obs) none = .ok r → r.2.length = s.n + 1)
    {r : XF × List (Fin nc)} (hr : decode m alg (dataX obs ss) (some (dataLengths ss)) = .ok r) :
    r.2.length = (dataX obs ss).length := by
  rw [decode_data m alg obs ss hne] at hr
  cases hm : ss.mapM fun s => decode m alg (s.rows obs) none with
  | error e => rw [hm] at hr; cases hr
  | ok rs =>
    rw [hm] at hr
    cases hr
    clear hne
    simp only [dataX, List.length_flatten, List.map_map, Function.comp_def]
    induction ss generalizing rs with
    | nil => cases hm; rfl
    | cons s ss ih =>
      rw [List.mapM_cons] at hm
      cases h1 : decode m alg (s.rows obs) none with
      | error e => rw [h1] at hm; cases hm
      | ok y =>
        rw [h1] at hm
        cases h2 : ss.mapM fun s => decode m alg (s.rows obs) none with
        | error e => rw [h2] at hm; cases hm
        | ok ys =>
          rw [h2] at hm
          cases hm
          simp only [List.map_cons, List.sum_cons, hl s y h1, ih ys h2, ObsSeq.rows,
            List.length_ofFn]

theorem exists_joint_pos {B : Fin (n + 1) → Fin nc → ℝ} (hL : 0 < likelihood π A B) :
    ∃ z, 0 < joint π A B z := by
  by_contra hc
  push Not at hc
  exact absurd hL (not_lt.2 (Finset.sum_nonpos fun z _ => hc z))

/-- **C10** `predict` (Viterbi) returns one state per sample, all in range, and on a sequence of
positive likelihood the path uses only positive start probability, transitions and emissions. -/
theorem C10_viterbi_feasible (h : Represents m obs π A b) (ss : List (ObsSeq D)) (hne : ss ≠ []) :
    ∃ z : (s : ObsSeq D) → Fin (s.n + 1) → Fin nc,
      predict m .viterbi (dataX obs ss) (some (dataLengths ss)) =
        .ok (ss.map fun s => List.ofFn (z s)).flatten ∧
      (ss.map fun s => List.ofFn (z s)).flatten.length = (dataX obs ss).length ∧
      ∀ s ∈ ss, 0 < likelihood π A (s.weights b) →
        0 < π (z s 0) ∧ (∀ t : Fin s.n, 0 < A (z s t.castSucc) (z s t.succ)) ∧
          ∀ t, 0 < b (s.x t) (z s t) := by
  obtain ⟨z, h1, h2⟩ := C08_viterbi_optimal h ss hne
  refine ⟨z, by rw [predict, h1]; rfl, ?_, fun s hs hL => ?_⟩
  · simp [dataX, List.length_flatten, Function.comp_def, ObsSeq.rows]
  · obtain ⟨z', hz'⟩ := exists_joint_pos hL
    have hpos := (hz'.trans_le (h2 s hs z')).ne'
    simp only [joint, ne_eq, mul_eq_zero, not_or, Finset.prod_eq_zero_iff, not_exists,
      Finset.mem_univ, true_and] at hpos
    exact ⟨(h.π_nonneg _).lt_of_ne' hpos.1.1, fun t => (h.A_nonneg _ _).lt_of_ne' (hpos.1.2 t),
      fun t => (h.b_nonneg _ _).lt_of_ne' (hpos.2 t)⟩

example : ∃ z : (s : ObsSeq (Fin 2)) → Fin (s.n + 1) → Fin 2,
    0 < DemoLR.π (z ⟨1, DemoLR.good⟩ 0) := by
  obtain ⟨z, _, _, h⟩ := C10_viterbi_feasible (DemoLR.represents .log) [⟨1, DemoLR.good⟩] (by simp)
  refine ⟨z, (h _ (by simp) ?_).1⟩
  have := DemoLR.good_likelihood
  show 0 < likelihood DemoLR.π DemoLR.A (fun t => DemoLR.b (DemoLR.good t))
  rw [this]; norm_num

/-! ## C11 -/

theorem joint_le_likelihood {B : Fin (n + 1) → Fin nc → ℝ} (hπ : ∀ i, 0 ≤ π i)
    (hA : ∀ i j, 0 ≤ A i j) (hB : ∀ t i, 0 ≤ B t i) (z : Fin (n + 1) → Fin nc) :
    joint π A B z ≤ likelihood π A B :=
  Finset.single_le_sum (f := joint π A B) (fun z _ => joint_nonneg hπ hA hB z) (Finset.mem_univ z)

theorem likelihood_le_of_max {B : Fin (n + 1) → Fin nc → ℝ} {z : Fin (n + 1) → Fin nc}
    (hz : ∀ z', joint π A B z' ≤ joint π A B z) :
    likelihood π A B ≤ (nc : ℝ) ^ (n + 1) * joint π A B z := by
  refine (Finset.sum_le_card_nsmul _ _ _ fun z' _ => hz z').trans (le_of_eq ?_)
  simp

/-- **C11** On data of positive likelihood, the Viterbi score is at most the `score`, and the
`score` is at most the Viterbi score plus `n_samples * log(n_components)`. -/
theorem C11_bracket (h : Represents m obs π A b) (hi : m.implementation = .log)
    (ss : List (ObsSeq D)) (hne : ss ≠ []) (hL : ∀ s ∈ ss, 0 < likelihood π A (s.weights b)) :
    ∃ (v l : ℝ) (path : List (Fin nc)),
      decode m .viterbi (dataX obs ss) (some (dataLengths ss)) = .ok (.fin v, path) ∧
      score m (dataX obs ss) (some (dataLengths ss)) = .ok (.fin l) ∧
      v ≤ l ∧ l ≤ v + (dataX obs ss).length * Real.log nc := by
  obtain ⟨z, h1, h2⟩ := C08_viterbi_optimal h ss hne
  have hJ : ∀ s ∈ ss, 0 < joint π A (s.weights b) (z s) := fun s hs => by
    obtain ⟨z', hz'⟩ := exists_joint_pos (hL s hs)
    exact hz'.trans_le (h2 s hs z')
  have key : ∀ l : List (ObsSeq D), (∀ s ∈ l, s ∈ ss) →
      0 < (l.map fun s => joint π A (s.weights b) (z s)).prod ∧
      (l.map fun s => joint π A (s.weights b) (z s)).prod ≤ dataLikelihood π A b l ∧
      dataLikelihood π A b l ≤ (nc : ℝ) ^ (dataX obs l).length *
        (l.map fun s => joint π A (s.weights b) (z s)).prod := by
    intro l
    induction l with
    | nil => intro _; simp [dataLikelihood, dataX]
    | cons s l ih =>
      intro hl
      obtain ⟨i1, i2, i3⟩ := ih fun s hs => hl s (List.mem_cons_of_mem _ hs)
      have hs := hl s List.mem_cons_self
      have j1 := hJ s hs
      have j2 := joint_le_likelihood h.π_nonneg h.A_nonneg (fun t => h.b_nonneg (s.x t)) (z s)
      have j3 := likelihood_le_of_max (h2 s hs)
      have hd : (dataX obs (s :: l)).length = (s.n + 1) + (dataX obs l).length := by
        simp [dataX, ObsSeq.rows]; omega
      simp only [List.map_cons, List.prod_cons, dataLikelihood] at i2 i3 ⊢
      rw [hd, pow_add]
      refine ⟨mul_pos j1 i1, mul_le_mul j2 i2 i1.le ((h.likelihood_nonneg s)), ?_⟩
      calc _ ≤ ((nc : ℝ) ^ (s.n + 1) * joint π A (s.weights b) (z s)) *
            ((nc : ℝ) ^ (dataX obs l).length *
              (l.map fun s => joint π A (s.weights b) (z s)).prod) :=
            mul_le_mul j3 i3 (h.dataLikelihood_nonneg l) (by positivity)
        _ = _ := by ring
  obtain ⟨k1, k2, k3⟩ := key ss fun s hs => hs
  refine ⟨_, _, _, by rw [h1, xlog, if_neg k1.ne'],
    by rw [C01_score_log h hi ss hne, xlog, if_neg (k1.trans_le k2).ne'],
    Real.log_le_log k1 k2, ?_⟩
  have hnc : (0 : ℝ) < nc := Nat.cast_pos.2 (NeZero.pos nc)
  have := Real.log_le_log (k1.trans_le k2) k3
  rw [Real.log_mul (by positivity) k1.ne', Real.log_pow] at this
  linarith

example : ∃ (v l : ℝ) (path : List (Fin 2)),
    decode (Demo.hmm .log) .viterbi (dataX Categorical.sym [Demo.seq, Demo.seq])
      (some (dataLengths [Demo.seq, Demo.seq])) = .ok (.fin v, path) ∧ v ≤ l := by
  obtain ⟨v, l, p, h1, _, h3, _⟩ := C11_bracket (Demo.represents .log) rfl [Demo.seq, Demo.seq]
    (by simp) (Demo.estepOk .log)
  exact ⟨v, l, p, h1, h3⟩

/-! ## C12, C13 -/

theorem npArgmax_fin (p : Fin nc → ℝ) :
    (∀ i, p i ≤ p (npArgmax fun i => XF.fin (p i))) ∧
      ∀ i, i < (npArgmax fun i => XF.fin (p i)) → p i < p (npArgmax fun i => XF.fin (p i)) := by
  have hk : ∀ i j, FloatLike.lt (XF.fin (p i)) (XF.fin (p j)) = decide (p i < p j) :=
    fun i j => rfl
  rw [npArgmax_eq_maxElement _ fun i => rfl]
  exact ⟨fun i => le_maxElement _ p hk i, fun i hi => maxElement_first _ p hk i hi⟩

theorem npMax_fin (p : Fin nc → ℝ) :
    npMax (fun i => XF.fin (p i)) = XF.fin (p (npArgmax fun i => XF.fin (p i))) := by
  obtain ⟨r, h1, h2⟩ := npMax_spec (fun i => XF.fin (p i)) p (fun i => rfl) (fun i j => rfl)
  rw [h1]
  exact congrArg _ (le_antisymm ((npArgmax_fin p).1 r) (h2 _))

theorem decode_map_single (h : Represents m obs π A b) (s : ObsSeq D)
    (hok : EstepOk m.implementation π A (s.weights b)) :
    ∃ z : Fin (s.n + 1) → Fin nc,
      decode m .map (s.rows obs) none =
        .ok (.fin (∑ t, posterior π A (s.weights b) t (z t)), List.ofFn z) ∧
      ∀ t, (∀ i, posterior π A (s.weights b) t i ≤ posterior π A (s.weights b) t (z t)) ∧
        ∀ i, i < z t → posterior π A (s.weights b) t i < posterior π A (s.weights b) t (z t) := by
  refine ⟨fun t => npArgmax fun i => XF.fin (posterior π A (s.weights b) t i), ?_,
    fun t => npArgmax_fin _⟩
  rw [decode_none]
  simp only [decodeMap, rows_isEmpty, Bool.false_eq_true, if_false, scoreSamples, scoreCore_single h s hok, bind, Except.bind, pure,
    Except.pure, postRows, List.map_ofFn, Function.comp_def]
  congr 2
  simp only [npMax_fin]
  have := sumL_fin (List.ofFn fun t => posterior π A (s.weights b) t
    (npArgmax fun i => XF.fin (posterior π A (s.weights b) t i)))
  rw [List.map_ofFn, List.sum_ofFn] at this
  exact this

/-- **C12** MAP decoding returns, at each time of each sequence, the first state of maximal
posterior; the `log_prob` it returns is the sum of these posteriors. -/
theorem C12_map_argmax (h : Represents m obs π A b) (ss : List (ObsSeq D)) (hne : ss ≠ [])
    (hok : ∀ s ∈ ss, EstepOk m.implementation π A (s.weights b)) :
    ∃ z : (s : ObsSeq D) → Fin (s.n + 1) → Fin nc,
      decode m .map (dataX obs ss) (some (dataLengths ss)) =
        .ok (.fin (ss.map fun s => ∑ t, posterior π A (s.weights b) t (z s t)).sum,
          (ss.map fun s => List.ofFn (z s)).flatten) ∧
      ∀ s ∈ ss, ∀ t, (∀ i, posterior π A (s.weights b) t i ≤ posterior π A (s.weights b) t (z s t)) ∧
        ∀ i, i < z s t →
          posterior π A (s.weights b) t i < posterior π A (s.weights b) t (z s t) := by
  have : ∀ s : ObsSeq D, ∃ z : Fin (s.n + 1) → Fin nc, s ∈ ss → _ := fun s =>
    if hs : s ∈ ss then (decode_map_single h s (hok s hs)).imp fun _ hz _ => hz
    else ⟨fun _ => 0, fun h => absurd h hs⟩
  choose z hz using this
  refine ⟨z, ?_, fun s hs => (hz s hs).2⟩
  rw [decode_data m _ obs ss hne, mapM_ok _
    (fun s : ObsSeq D => (XF.fin (∑ t, posterior π A (s.weights b) t (z s t)), List.ofFn (z s))) _
    (fun s hs => (hz s hs).1)]
  simp only [Except.map, List.map_map, Function.comp_def]
  congr 2
  rw [← sumL_fin, List.map_map]
  rfl

theorem expectedCorrect_eq {B : Fin (n + 1) → Fin nc → ℝ} (w : Fin (n + 1) → Fin nc) :
    expectedCorrect π A B w = ∑ t, posterior π A B t (w t) := by
  simp only [expectedCorrect, posterior, ← Finset.sum_div]
  congr 1
  simp only [stateMass, Finset.sum_filter]
  rw [Finset.sum_comm]
  refine Finset.sum_congr rfl fun z _ => ?_
  rw [← Finset.sum_filter, Finset.sum_const, nsmul_eq_mul, mul_comm]

/-- **C12** Hence the MAP labelling maximises the posterior expected number of correctly
labelled samples (an average over all hidden paths) among all labellings. -/
theorem C12_map_maximises_expected_correct (h : Represents m obs π A b) (x : Fin (n + 1) → D)
    (hok : EstepOk m.implementation π A (fun t => b (x t))) :
    ∃ (lp : XF) (z : Fin (n + 1) → Fin nc),
      decode m .map (List.ofFn fun t => obs (x t)) none = .ok (lp, List.ofFn z) ∧
      ∀ w, expectedCorrect π A (fun t => b (x t)) w ≤ expectedCorrect π A (fun t => b (x t)) z := by
  obtain ⟨z, h1, h2⟩ := decode_map_single h ⟨n, x⟩ hok
  refine ⟨_, z, h1, fun w => ?_⟩
  rw [expectedCorrect_eq, expectedCorrect_eq]
  exact Finset.sum_le_sum fun t _ => (h2 t).1 _

example : ∃ (lp : XF) (z : Fin 3 → Fin 2),
    decode (Demo.hmm .scaling) .map [0, 1, 2] none = .ok (lp, List.ofFn z) := by
  obtain ⟨lp, z, h, _⟩ := C12_map_maximises_expected_correct (Demo.represents .scaling) Demo.x
    (Demo.estepOk .scaling Demo.seq (by simp))
  exact ⟨lp, z, by simpa [Demo.x, Categorical.sym] using h⟩

theorem posterior_le_one {B : Fin (n + 1) → Fin nc → ℝ} (hπ : ∀ i, 0 ≤ π i)
    (hA : ∀ i j, 0 ≤ A i j) (hB : ∀ t i, 0 ≤ B t i) (hL : 0 < likelihood π A B) (t : Fin (n + 1))
    (i : Fin nc) : posterior π A B t i ≤ 1 := by
  rw [← sum_posterior hL.ne' t]
  exact Finset.single_le_sum (f := posterior π A B t)
    (fun i _ => posterior_nonneg hπ hA hB t i) (Finset.mem_univ i)

/-- **C13** What `decode(algorithm='map')` reports as `log_prob` lies between
`n_samples / n_components` and `n_samples`; in particular it is positive, so it is not the log of
the posterior probability of any state sequence `w` (nor, when no emission probability exceeds 1,
the log of its joint probability): the documented "Log probability of the produced state sequence"
is false for every input. -/
theorem C13_map_log_prob_not_log_probability (h : Represents m obs π A b) (hs : Stochastic π A)
    (x : Fin (n + 1) → D) (hok : EstepOk m.implementation π A (fun t => b (x t))) :
    ∃ (v : ℝ) (path : List (Fin nc)),
      decode m .map (List.ofFn fun t => obs (x t)) none = .ok (.fin v, path) ∧
      ((n + 1 : ℕ) : ℝ) / nc ≤ v ∧ v ≤ (n + 1 : ℕ) ∧ 0 < v ∧
      (∀ w, v ≠ Real.log (joint π A (fun t => b (x t)) w / likelihood π A fun t => b (x t))) ∧
      ((∀ t i, b (x t) i ≤ 1) → ∀ w, v ≠ Real.log (joint π A (fun t => b (x t)) w)) := by
  obtain ⟨z, h1, h2⟩ := decode_map_single h ⟨n, x⟩ hok
  have hB : ∀ t i, 0 ≤ (fun t => b (x t)) t i := fun t => h.b_nonneg _
  have hL : 0 < likelihood π A (fun t => b (x t)) := EstepOk.likelihood_pos hok
  have hnc : (0 : ℝ) < nc := Nat.cast_pos.2 (NeZero.pos nc)
  have lo : ((n + 1 : ℕ) : ℝ) / nc ≤ ∑ t, posterior π A (fun t => b (x t)) t (z t) := by
    have : ∀ t ∈ Finset.univ, (1 : ℝ) / nc ≤ posterior π A (fun t => b (x t)) t (z t) := by
      intro t _
      rw [div_le_iff₀ hnc, ← sum_posterior hL.ne' t]
      refine (Finset.sum_le_card_nsmul _ _ _ fun i _ => (h2 t).1 i).trans (le_of_eq ?_)
      rw [Finset.card_univ, Fintype.card_fin, nsmul_eq_mul, mul_comm]; rfl
    have := Finset.card_nsmul_le_sum _ _ _ this
    simpa [div_eq_mul_inv] using this
  have hpos : 0 < ∑ t, posterior π A (fun t => b (x t)) t (z t) :=
    lt_of_lt_of_le (by positivity) lo
  have hj : ∀ w, 0 ≤ joint π A (fun t => b (x t)) w :=
    fun w => joint_nonneg h.π_nonneg h.A_nonneg hB w
  have nl : ∀ r, 0 ≤ r → r ≤ 1 → ∑ t, posterior π A (fun t => b (x t)) t (z t) ≠ Real.log r := by
    intro r h0 h1 he
    rw [he] at hpos
    exact absurd hpos (not_lt.2 (Real.log_nonpos h0 h1))
  refine ⟨_, _, h1, lo, ?_, hpos, fun w => nl _ (div_nonneg (hj w) hL.le) ?_, fun hb1 w => nl _ (hj w) ?_⟩
  · refine (Finset.sum_le_card_nsmul _ _ 1 fun t _ =>
      posterior_le_one h.π_nonneg h.A_nonneg hB hL t _).trans (le_of_eq ?_)
    simp
  · exact (div_le_one hL).2 (joint_le_likelihood h.π_nonneg h.A_nonneg hB w)
  · have p1 : π (w 0) ≤ 1 := by
      rw [← hs.π_sum]
      exact Finset.single_le_sum (f := π) (fun i _ => h.π_nonneg i) (Finset.mem_univ _)
    have a1 : ∀ i j, A i j ≤ 1 := fun i j => by
      rw [← hs.A_sum i]
      exact Finset.single_le_sum (f := A i) (fun j _ => h.A_nonneg i j) (Finset.mem_univ _)
    unfold joint
    refine mul_le_one₀ (mul_le_one₀ p1 (Finset.prod_nonneg fun _ _ => h.A_nonneg _ _)
      (Finset.prod_le_one (fun _ _ => h.A_nonneg _ _) fun _ _ => a1 _ _))
      (Finset.prod_nonneg fun t _ => hB t _) (Finset.prod_le_one (fun t _ => hB t _) fun t _ => hb1 t _)

example : ∃ (v : ℝ) (path : List (Fin 2)),
    decode (Demo.hmm .log) .map [0, 1, 2] none = .ok (.fin v, path) ∧ 3 / 2 ≤ v := by
  obtain ⟨v, p, h1, h2, _⟩ := C13_map_log_prob_not_log_probability (Demo.represents .log)
    Demo.stochastic Demo.x (Demo.estepOk .log Demo.seq (by simp))
  exact ⟨v, p, by simpa [Demo.x, Categorical.sym] using h1, by norm_num at h2 ⊢; linarith⟩

/-- **C16** MAP decoding passes each block through `score_samples`, whose own validation refuses an
empty block: with a zero in otherwise valid `lengths`, `decode(algorithm='map')` raises ValueError
(for either implementation), where `score` and Viterbi decoding read outside an array
(`C16_zero_length_undefined`).  The other sequences are arbitrary possible ones. -/
theorem C16_zero_length_map (h : Represents m obs π A b) (xs : List (List D)) (hx : [] ∈ xs)
    (hok : ∀ s : ObsSeq D, List.ofFn s.x ∈ xs → EstepOk m.implementation π A (s.weights b)) :
    ∃ msg, decode m .map ((xs.map (List.map obs)).flatten) (some (xs.map fun s => (s.length : Int))) =
      .error (.valueError msg) := by
  have hne : xs.map (List.map obs) ≠ [] := by
    rw [ne_eq, List.map_eq_nil_iff]; rintro rfl; simp at hx
  have e : (xs.map fun s => (s.length : Int)) =
      (xs.map (List.map obs)).map fun s => (s.length : Int) := by
    simp [List.map_map, Function.comp_def]
  refine ⟨"Found array with 0 sample(s) or feature(s)", ?_⟩
  rw [e, C14_decode_lengths m _ _ hne,
    mapM_error (fun s => decode m .map s none) _ _ ?_ ⟨[], List.mem_map.2 ⟨[], hx, rfl⟩, by rw [decode_none]; rfl⟩]
  · rfl
  · intro y hy
    obtain ⟨y, hy', rfl⟩ := List.mem_map.1 hy
    cases y with
    | nil => exact Or.inr (by rw [decode_none]; rfl)
    | cons a l =>
      have hl : List.ofFn (fun t => (a :: l).get t) = a :: l := List.ofFn_get (a :: l)
      obtain ⟨z, hz, _⟩ := decode_map_single h ⟨l.length, fun t => (a :: l).get t⟩
        (hok ⟨l.length, fun t => (a :: l).get t⟩ (hl.symm ▸ hy'))
      have hr : ObsSeq.rows obs ⟨l.length, fun t => (a :: l).get t⟩ = (a :: l).map obs := by
        have := congrArg (List.map obs) hl
        rwa [List.map_ofFn] at this
      exact Or.inl ⟨_, by rw [← hr]; exact hz⟩

example : ∃ msg, decode (Demo.hmm .scaling) .map [0, 1, 2] (some [3, 0]) = .error (.valueError msg) := by
  have := C16_zero_length_map (Demo.represents .scaling) [[0, 1, 2], []] (by simp) (by
    rintro ⟨n, x⟩ hs
    have hx : List.ofFn x = List.ofFn Demo.seq.x := by simpa [List.ofFn_succ, Demo.seq, Demo.x] using hs
    have hn : n = Demo.seq.n := by
      have := congrArg List.length hx
      simpa using this
    subst hn
    rw [show (⟨_, x⟩ : ObsSeq (Fin 3)) = Demo.seq from congrArg _ (List.ofFn_injective hx)]
    exact Demo.estepOk .scaling Demo.seq (by simp))
  exact this

end Verif
