import Verif.Props.Demo
import Verif.Proofs.Train
import Verif.Spec.XLog

/-!
# Properties of `score`, `score_samples`, `predict_proba` and the E-step: C01 - C07, C14

`h : Represents m obs π A b` : the (checked) estimator `m` has start probabilities `π`, transition
matrix `A` and emission likelihoods `b`.  `ss` is a non-empty list of non-empty sequences;
`dataX obs ss`, `dataLengths ss` is the `X, lengths` a user passes.
-/

namespace Verif
open FloatLike XF Spec
open scoped Classical

variable {nc : ℕ} {Obs D P S : Type} [NeZero nc] {m : Hmm XF nc Obs} {obs : D → Obs}
  {π : Fin nc → ℝ} {A : Fin nc → Fin nc → ℝ} {b : D → Fin nc → ℝ}

theorem lg_eq_xlog {L : ℝ} (h : 0 ≤ L) : lg L = xlog L := by
  rcases h.eq_or_lt with rfl | h
  · simp [xlog]
  · simp [xlog, lg_pos h, h.ne']

theorem Spec.Represents.likelihood_nonneg (h : Represents m obs π A b) (s : ObsSeq D) :
    0 ≤ likelihood π A (s.weights b) :=
  Verif.likelihood_nonneg h.π_nonneg h.A_nonneg fun _ => h.b_nonneg _

theorem Spec.Represents.dataLikelihood_nonneg (h : Represents m obs π A b) (ss : List (ObsSeq D)) :
    0 ≤ dataLikelihood π A b ss :=
  List.prod_nonneg (by simp only [List.mem_map]; rintro _ ⟨s, _, rfl⟩; exact h.likelihood_nonneg s)

/-- Switching the `implementation` attribute. -/
def Hmm.withImpl (m : Hmm XF nc Obs) (i : Impl) : Hmm XF nc Obs := { m with implementation := i }

theorem Spec.Represents.withImpl (h : Represents m obs π A b) (i : Impl) :
    Represents (m.withImpl i) obs π A b :=
  ⟨h.startprob_eq, h.transmat_eq, h.π_nonneg, h.A_nonneg, h.b_nonneg, h.lik_eq, h.loglik_eq⟩

/-! ## Reduction to single sequences -/

theorem mapM_ok {β γ : Type} (f : β → Except PyErr γ) (g : β → γ) (l : List β)
    (h : ∀ x ∈ l, f x = .ok (g x)) : l.mapM f = .ok (l.map g) := by
  induction l with
  | nil => rfl
  | cons x l ih =>
    rw [List.mapM_cons, h x List.mem_cons_self, ih fun y hy => h y (List.mem_cons_of_mem _ hy)]
    rfl

theorem mapM_error {β γ : Type} (f : β → Except PyErr γ) (e : PyErr) (l : List β)
    (h : ∀ x ∈ l, (∃ y, f x = .ok y) ∨ f x = .error e) (hx : ∃ x ∈ l, f x = .error e) :
    l.mapM f = .error e := by
  induction l with
  | nil => simp at hx
  | cons x l ih =>
    rw [List.mapM_cons]
    rcases h x List.mem_cons_self with ⟨y, hy⟩ | he
    · have : ∃ x ∈ l, f x = .error e := by
        obtain ⟨z, hz, hz'⟩ := hx
        rcases List.mem_cons.1 hz with rfl | hz
        · rw [hy] at hz'; cases hz'
        · exact ⟨z, hz, hz'⟩
      rw [hy, ih (fun y hy => h y (List.mem_cons_of_mem _ hy)) this]
      rfl
    · rw [he]; rfl

theorem mapM_map' {β γ δ : Type} (f : γ → Except PyErr δ) (g : β → γ) (l : List β) :
    (l.map g).mapM f = l.mapM (fun x => f (g x)) := by
  induction l with
  | nil => rfl
  | cons x l ih => rw [List.map_cons, List.mapM_cons, List.mapM_cons, ih]

theorem mapM_congr' {β γ : Type} {f g : β → Except PyErr γ} (l : List β)
    (h : ∀ x ∈ l, f x = g x) : l.mapM f = l.mapM g := by
  induction l with
  | nil => rfl
  | cons x l ih =>
    rw [List.mapM_cons, List.mapM_cons, h x List.mem_cons_self,
      ih fun y hy => h y (List.mem_cons_of_mem _ hy)]

theorem mapM_exceptMap {β γ δ : Type} (f : β → Except PyErr γ) (g : γ → δ) (l : List β) :
    l.mapM (fun x => (f x).map g) = (l.mapM f).map (List.map g) := by
  induction l with
  | nil => rfl
  | cons x l ih =>
    rw [List.mapM_cons, List.mapM_cons, ih]
    cases f x with
    | error e => rfl
    | ok y => cases l.mapM f <;> rfl

/-- `_score` on several sequences is `_score` on each of them. -/
theorem scoreCore_flatten (m : Hmm XF nc Obs) (ss : List (List Obs)) (hne : ss ≠ []) (cp : Bool) :
    scoreCore m ss.flatten (some (ss.map fun s => (s.length : Int))) cp =
      (ss.mapM fun s => scoreCore m s none cp).map fun rs =>
        (sumL (rs.map (·.1)), (rs.map (·.2)).flatten) := by
  simp only [scoreCore_none]
  unfold scoreCore
  simp only [splitXLengths_blocks ss hne, bind, Except.bind]
  rw [seqLoop_eq]
  cases m.implementation <;> rfl

/-- **C14** `score` with `lengths` is the sum of the scores of the individual sequences: exactly
the values `score` returns on each sequence alone (and if one of those calls raises, so does the
joint call, with the first such error). -/
theorem C14_score_lengths (m : Hmm XF nc Obs) (ss : List (List Obs)) (hne : ss ≠ []) :
    score m ss.flatten (some (ss.map fun s => (s.length : Int))) =
      (ss.mapM fun s => score m s none).map sumL := by
  unfold score
  rw [scoreCore_flatten m ss hne, mapM_exceptMap]
  cases (ss.mapM fun s => scoreCore m s none false) <;> rfl

/-- **C14** `predict_proba` with `lengths` is the concatenation of the per-sequence results. -/
theorem C14_predict_proba_lengths (m : Hmm XF nc Obs) (ss : List (List Obs)) (hne : ss ≠ []) :
    predictProba m ss.flatten (some (ss.map fun s => (s.length : Int))) =
      (ss.mapM fun s => predictProba m s none).map List.flatten := by
  unfold predictProba scoreSamples
  rw [scoreCore_flatten m ss hne, mapM_exceptMap]
  cases (ss.mapM fun s => scoreCore m s none true) <;> rfl

/-- **C14** `decode` (both algorithms) with `lengths`: log-probabilities add up, state sequences
are concatenated. -/
theorem C14_decode_lengths (m : Hmm XF nc Obs) (alg : Alg) (ss : List (List Obs)) (hne : ss ≠ []) :
    decode m alg ss.flatten (some (ss.map fun s => (s.length : Int))) =
      (ss.mapM fun s => decode m alg s none).map fun rs =>
        (sumL (rs.map (·.1)), (rs.map (·.2)).flatten) := by
  simp only [decode_none]
  unfold decode
  simp only [splitXLengths_blocks ss hne, bind, Except.bind]
  rw [seqLoop_eq]
  cases alg <;> rfl

/-- **C14** `lengths=None` means one sequence. -/
theorem C14_lengths_none (m : Hmm XF nc Obs) (alg : Alg) (X : List Obs) (cp : Bool) :
    scoreCore m X (some [(X.length : Int)]) cp = scoreCore m X none cp ∧
      decode m alg X (some [(X.length : Int)]) = decode m alg X none := by
  constructor
  · have := scoreCore_flatten m [X] (by simp) cp
    simp only [List.flatten_cons, List.flatten_nil, List.append_nil, List.map_cons, List.map_nil,
      List.mapM_cons, List.mapM_nil, bind, Except.bind, pure, Except.pure] at this
    rw [this]
    cases scoreCore m X none cp with
    | error e => rfl
    | ok r =>
      show Except.ok ((0 : XF) + r.1, r.2 ++ []) = Except.ok r
      rw [zero_add_xf, List.append_nil]
  · have := C14_decode_lengths m alg [X] (by simp)
    simp only [List.flatten_cons, List.flatten_nil, List.append_nil, List.map_cons, List.map_nil,
      List.mapM_cons, List.mapM_nil, bind, Except.bind, pure, Except.pure] at this
    rw [this]
    cases decode m alg X none with
    | error e => rfl
    | ok r =>
      show Except.ok ((0 : XF) + r.1, r.2 ++ []) = Except.ok r
      rw [zero_add_xf, List.append_nil]

theorem foldl_lg {ι : Type} (f : ι → ℝ) (l : List ι) (hf : ∀ x ∈ l, 0 ≤ f x) (a : ℝ) (ha : 0 ≤ a) :
    (l.map fun x => lg (f x)).foldl (· + ·) (lg a) = lg (a * (l.map f).prod) := by
  induction l generalizing a with
  | nil => simp
  | cons x l ih =>
    have hx := hf x List.mem_cons_self
    simp only [List.map_cons, List.foldl_cons, List.prod_cons]
    rw [lg_mul ha hx, ih (fun y hy => hf y (List.mem_cons_of_mem _ hy)) _ (mul_nonneg ha hx),
      mul_assoc]

theorem sumL_lg (f : ObsSeq D → ℝ) (ss : List (ObsSeq D)) (hf : ∀ x ∈ ss, 0 ≤ f x) :
    sumL (ss.map fun s => lg (f s)) = lg (ss.map f).prod := by
  have := foldl_lg f ss hf 1 zero_le_one
  rwa [lg_one, one_mul] at this

theorem scoreCore_data (m : Hmm XF nc Obs) (obs : D → Obs) (ss : List (ObsSeq D)) (hne : ss ≠ [])
    (cp : Bool) :
    scoreCore m (dataX obs ss) (some (dataLengths ss)) cp =
      (ss.mapM fun s => scoreCore m (s.rows obs) none cp).map fun rs =>
        (sumL (rs.map (·.1)), (rs.map (·.2)).flatten) := by
  rw [dataLengths_eq obs, dataX, scoreCore_flatten _ _ (by simpa using hne), mapM_map']

theorem decode_data (m : Hmm XF nc Obs) (alg : Alg) (obs : D → Obs) (ss : List (ObsSeq D))
    (hne : ss ≠ []) :
    decode m alg (dataX obs ss) (some (dataLengths ss)) =
      (ss.mapM fun s => decode m alg (s.rows obs) none).map fun rs =>
        (sumL (rs.map (·.1)), (rs.map (·.2)).flatten) := by
  rw [dataLengths_eq obs, dataX, C14_decode_lengths _ _ _ (by simpa using hne), mapM_map']

/-! ## C01 -/

/-- **C01** With `implementation='log'`, `score(X, lengths)` is the logarithm of the product over
the sequences of the sum over all hidden paths; `-inf` exactly when that is zero. -/
theorem C01_score_log (h : Represents m obs π A b) (hi : m.implementation = .log)
    (ss : List (ObsSeq D)) (hne : ss ≠ []) :
    score m (dataX obs ss) (some (dataLengths ss)) = .ok (xlog (dataLikelihood π A b ss)) := by
  unfold score
  rw [scoreCore_data m obs ss hne, mapM_ok _
    (fun s => (lg (likelihood π A (s.weights b)), []))]
  · simp only [Except.map, List.map_map, Function.comp_def]
    rw [sumL_lg _ _ fun s _ => h.likelihood_nonneg s]
    exact congrArg _ (lg_eq_xlog (h.dataLikelihood_nonneg ss))
  · intro s _
    rw [scoreCore_none, hi]
    exact scoreOneLog_false h s.x

/-- **C01** for one sequence and `lengths=None`. -/
theorem C01_score_log_single (h : Represents m obs π A b) (hi : m.implementation = .log) {n : ℕ}
    (x : Fin (n + 1) → D) :
    score m (List.ofFn fun t => obs (x t)) none =
      .ok (xlog (likelihood π A fun t => b (x t))) := by
  unfold score
  rw [scoreCore_none, hi]
  show Except.map _ (scoreOneLog m false _) = _
  rw [scoreOneLog_false h x]
  exact congrArg _ (lg_eq_xlog (h.likelihood_nonneg ⟨n, x⟩))

example : score (Demo.hmm .log) [0, 1, 2] none = .ok (.fin (Real.log (8403 / 250000))) := by
  have := C01_score_log_single (Demo.represents .log) rfl Demo.x
  rw [Demo.likelihood_eq] at this
  simpa [xlog, Demo.x, Categorical.sym] using this

/-! ## C02 -/

/-- **C02** With `implementation='scaling'`, `score` returns the same exact value if no predictive
probability `p(x_t | x_0..x_{t-1})` is below `1e-300`, and raises the underflow error
otherwise. -/
theorem C02_score_scaling (h : Represents m obs π A b) (hi : m.implementation = .scaling)
    (ss : List (ObsSeq D)) (hne : ss ≠ []) :
    score m (dataX obs ss) (some (dataLengths ss)) =
      if ∀ s ∈ ss, NoUnderflow π A (s.weights b) then .ok (xlog (dataLikelihood π A b ss))
      else .error .underflow := by
  have e : ∀ s : ObsSeq D, scoreCore m (s.rows obs) none false =
      if NoUnderflow π A (s.weights b) then .ok (lg (likelihood π A (s.weights b)), [])
      else .error .underflow := by
    intro s
    rw [scoreCore_none, hi]
    exact scoreOneScaling_false h s.x
  unfold score
  rw [scoreCore_data m obs ss hne]
  split
  · next hu =>
    rw [mapM_ok _ (fun s : ObsSeq D => (lg (likelihood π A (s.weights b)), [])) _
      (fun s hs => by rw [e, if_pos (hu s hs)])]
    simp only [Except.map, List.map_map, Function.comp_def]
    rw [sumL_lg _ _ fun s _ => h.likelihood_nonneg s]
    exact congrArg _ (lg_eq_xlog (h.dataLikelihood_nonneg ss))
  · next hu =>
    push Not at hu
    obtain ⟨s, hs, hu⟩ := hu
    rw [mapM_error _ .underflow]
    · rfl
    · intro s _
      rw [e]
      split
      · exact Or.inl ⟨_, rfl⟩
      · exact Or.inr rfl
    · exact ⟨s, hs, by rw [e, if_neg hu]⟩

/-- **C02** A sequence of likelihood zero always makes the scaling implementation raise. -/
theorem C02_zero_likelihood_raises (h : Represents m obs π A b) (hi : m.implementation = .scaling)
    (ss : List (ObsSeq D)) (s : ObsSeq D) (hs : s ∈ ss)
    (h0 : likelihood π A (s.weights b) = 0) :
    score m (dataX obs ss) (some (dataLengths ss)) = .error .underflow := by
  rw [C02_score_scaling h hi ss (List.ne_nil_of_mem hs), if_neg]
  intro hu
  exact absurd h0 (NoUnderflow.likelihood_pos (hu s hs)).ne'

example : score (Demo.hmm .scaling) (dataX Categorical.sym [Demo.seq, Demo.seq])
    (some (dataLengths [Demo.seq, Demo.seq])) =
      .ok (xlog ((8403 / 250000) * (8403 / 250000))) := by
  rw [C02_score_scaling (Demo.represents .scaling) rfl _ (by simp), if_pos Demo.noUnderflows,
    Demo.data_likelihood]

/-! ## C03 - C05 -/

theorem scoreCore_scaling_single (h : Represents m obs π A b) (s : ObsSeq D) :
    scoreCore (m.withImpl .scaling) (s.rows obs) none true =
      if NoUnderflow π A (s.weights b) then
        .ok (lg (likelihood π A (s.weights b)), postRows π A (s.weights b))
      else .error .underflow := by
  rw [scoreCore_none]
  exact scoreOneScaling_true (h.withImpl .scaling) s.x

theorem scoreCore_log_single (h : Represents m obs π A b) (s : ObsSeq D)
    (hL : 0 < likelihood π A (s.weights b)) :
    scoreCore (m.withImpl .log) (s.rows obs) none true =
      .ok (lg (likelihood π A (s.weights b)), postRows π A (s.weights b)) := by
  rw [scoreCore_none]
  exact scoreOneLog_true (h.withImpl .log) s.x hL

theorem scoreCore_single (h : Represents m obs π A b) (s : ObsSeq D)
    (hok : EstepOk m.implementation π A (s.weights b)) :
    scoreCore m (s.rows obs) none true =
      .ok (lg (likelihood π A (s.weights b)), postRows π A (s.weights b)) := by
  rw [scoreCore_none]
  cases hi : m.implementation with
  | log => rw [hi] at hok; exact scoreOneLog_true h s.x hok
  | scaling =>
    rw [hi] at hok
    have := scoreOneScaling_true h s.x
    rw [if_pos (show NoUnderflow π A (fun t => b (s.x t)) from hok)] at this
    exact this

theorem mapM_ok_forall {β γ : Type} {f : β → Except PyErr γ} {l : List β} {r : List γ}
    (h : l.mapM f = .ok r) : ∀ x ∈ l, ∃ y, f x = .ok y := by
  induction l generalizing r with
  | nil => simp
  | cons a l ih =>
    rw [List.mapM_cons] at h
    cases ha : f a with
    | error e => rw [ha] at h; cases h
    | ok y =>
      rw [ha] at h
      cases hl : l.mapM f with
      | error e => rw [hl] at h; cases h
      | ok ys =>
        intro x hx
        rcases List.mem_cons.1 hx with rfl | hx
        · exact ⟨y, ha⟩
        · exact ih hl x hx

theorem noUnderflow_of_scoreSamples_ok (h : Represents m obs π A b) (ss : List (ObsSeq D))
    (hne : ss ≠ []) {r : XF × List (Row XF nc)}
    (hr : scoreSamples (m.withImpl .scaling) (dataX obs ss) (some (dataLengths ss)) = .ok r) :
    ∀ s ∈ ss, NoUnderflow π A (s.weights b) := by
  unfold scoreSamples at hr
  rw [scoreCore_data _ obs ss hne] at hr
  intro s hs
  cases hl : ss.mapM fun s => scoreCore (m.withImpl .scaling) (s.rows obs) none true with
  | error e => rw [hl] at hr; cases hr
  | ok rs =>
    obtain ⟨y, hy⟩ := mapM_ok_forall hl s hs
    rw [scoreCore_scaling_single h] at hy
    by_contra hu
    rw [if_neg hu] at hy
    cases hy

/-- **C03** Whatever `score_samples` returns with `implementation='scaling'` (log-likelihood and
posteriors), it also returns with `implementation='log'`. -/
theorem C03_score_samples_agree (h : Represents m obs π A b) (ss : List (ObsSeq D)) (hne : ss ≠ [])
    (r : XF × List (Row XF nc))
    (hr : scoreSamples (m.withImpl .scaling) (dataX obs ss) (some (dataLengths ss)) = .ok r) :
    scoreSamples (m.withImpl .log) (dataX obs ss) (some (dataLengths ss)) = .ok r := by
  have hu := noUnderflow_of_scoreSamples_ok h ss hne hr
  rw [← hr]
  unfold scoreSamples
  rw [scoreCore_data _ obs ss hne, scoreCore_data _ obs ss hne]
  rw [mapM_congr' (g := fun s : ObsSeq D => scoreCore (m.withImpl .scaling) (s.rows obs) none true)]
  intro s hs
  rw [scoreCore_scaling_single h, if_pos (hu s hs),
    scoreCore_log_single h s (NoUnderflow.likelihood_pos (hu s hs))]

/-- **C03** The decoded MAP states agree too. -/
theorem C03_decode_map_agree (h : Represents m obs π A b) (ss : List (ObsSeq D)) (hne : ss ≠ [])
    (r : XF × List (Fin nc))
    (hr : decode (m.withImpl .scaling) .map (dataX obs ss) (some (dataLengths ss)) = .ok r) :
    decode (m.withImpl .log) .map (dataX obs ss) (some (dataLengths ss)) = .ok r := by
  rw [decode_data _ _ obs ss hne] at hr ⊢
  cases hl : ss.mapM fun s => decode (m.withImpl .scaling) .map (s.rows obs) none with
  | error e => rw [hl] at hr; cases hr
  | ok rs =>
    rw [hl] at hr
    rw [mapM_congr' (g := fun s : ObsSeq D => decode (m.withImpl .scaling) .map (s.rows obs) none),
      hl]
    · exact hr
    · intro s hs
      obtain ⟨y, hy⟩ := mapM_ok_forall hl s hs
      rw [hy]
      rw [decode_none] at hy ⊢
      simp only [decodeMap, rows_isEmpty, Bool.false_eq_true, if_false, scoreSamples, bind, Except.bind] at hy ⊢
      rw [scoreCore_scaling_single h] at hy
      by_cases hu : NoUnderflow π A (s.weights b)
      · rw [if_pos hu] at hy
        rw [scoreCore_log_single h s (NoUnderflow.likelihood_pos hu)]
        exact hy
      · rw [if_neg hu] at hy; cases hy

/-- **C03** Viterbi decoding does not use `implementation` at all. -/
theorem C03_decode_viterbi_agree (m : Hmm XF nc Obs) (X : List Obs) (lengths : Option (List Int)) :
    decode (m.withImpl .scaling) .viterbi X lengths = decode (m.withImpl .log) .viterbi X lengths :=
  rfl

/-- **C04** `predict_proba` returns the smoothing marginals: row `t` of each sequence is
`P(z_t = i | x)`, computed by summing over all hidden paths. -/
theorem C04_predict_proba (h : Represents m obs π A b) (ss : List (ObsSeq D)) (hne : ss ≠ [])
    (hok : ∀ s ∈ ss, EstepOk m.implementation π A (s.weights b)) :
    predictProba m (dataX obs ss) (some (dataLengths ss)) =
      .ok (ss.map fun s => List.ofFn fun t i => XF.fin (posterior π A (s.weights b) t i)).flatten := by
  unfold predictProba scoreSamples
  rw [scoreCore_data m obs ss hne, mapM_ok _
    (fun s : ObsSeq D => (lg (likelihood π A (s.weights b)), postRows π A (s.weights b))) _
    (fun s hs => scoreCore_single h s (hok s hs))]
  simp only [Except.map, List.map_map, Function.comp_def]
  rfl

example : ∃ r, predictProba (Demo.hmm .log) (dataX Categorical.sym [Demo.seq, Demo.seq])
    (some (dataLengths [Demo.seq, Demo.seq])) = .ok r :=
  ⟨_, C04_predict_proba (Demo.represents .log) _ (by simp) (Demo.estepOk .log)⟩

theorem posterior_nonneg {n : ℕ} {B : Fin (n + 1) → Fin nc → ℝ} (hπ : ∀ i, 0 ≤ π i)
    (hA : ∀ i j, 0 ≤ A i j) (hB : ∀ t i, 0 ≤ B t i) (t : Fin (n + 1)) (i : Fin nc) :
    0 ≤ posterior π A B t i :=
  div_nonneg (stateMass_nonneg hπ hA hB t i) (Verif.likelihood_nonneg hπ hA hB)

/-- **C05** On sequences of positive likelihood (for `scaling`: without underflow) every row of
`predict_proba` is a probability distribution. -/
theorem C05_rows_distributions (h : Represents m obs π A b) (ss : List (ObsSeq D)) (hne : ss ≠ [])
    (hok : ∀ s ∈ ss, EstepOk m.implementation π A (s.weights b)) :
    ∃ rows, predictProba m (dataX obs ss) (some (dataLengths ss)) = .ok rows ∧
      rows.length = (dataX obs ss).length ∧
      ∀ row ∈ rows, ∃ p : Fin nc → ℝ, (row = fun i => XF.fin (p i)) ∧ (∀ i, 0 ≤ p i) ∧
        ∑ i, p i = 1 := by
  refine ⟨_, C04_predict_proba h ss hne hok, ?_, ?_⟩
  · simp [dataX, List.length_flatten, Function.comp_def, ObsSeq.rows]
  · intro row hrow
    simp only [List.mem_flatten, List.mem_map] at hrow
    obtain ⟨_, ⟨s, hs, rfl⟩, hrow⟩ := hrow
    obtain ⟨t, rfl⟩ := List.mem_ofFn.1 hrow
    exact ⟨_, rfl, fun i => posterior_nonneg h.π_nonneg h.A_nonneg (fun t => h.b_nonneg _) t i,
      sum_posterior (EstepOk.likelihood_pos (hok s hs)).ne' t⟩

/-- **C05** On a sequence of likelihood zero, with at least two states, the log implementation
returns score `-inf` and NaN in every posterior entry. -/
theorem C05_zero_likelihood_nan (h : Represents m obs π A b) (hi : m.implementation = .log)
    (hnc : nc ≠ 1) {n : ℕ} (x : Fin (n + 1) → D) (h0 : likelihood π A (fun t => b (x t)) = 0) :
    scoreSamples m (List.ofFn fun t => obs (x t)) none =
      .ok (.ninf, List.replicate (n + 1) fun _ => .nan) := by
  unfold scoreSamples
  rw [scoreCore_none, hi]
  show scoreOneLog m true _ = _
  rw [scoreOneLog_true' h x, h0, lg_zero, ← List.ofFn_const]
  congr 3
  funext t i
  refine exp_logNormalizeRow_ninf hnc _ (fun i => ?_) i
  have h1 := likelihood_eq_sum_stateMass π A (fun t => b (x t)) t
  rw [h0] at h1
  exact (Finset.sum_eq_zero_iff_of_nonneg fun i _ => stateMass_nonneg h.π_nonneg h.A_nonneg
    (fun t => h.b_nonneg _) t i).1 h1.symm i (Finset.mem_univ i)

/-- **C05** With a single state the posterior is 1 even when the likelihood is zero. -/
theorem C05_zero_likelihood_one_state {m : Hmm XF 1 Obs} {π : Fin 1 → ℝ} {A : Fin 1 → Fin 1 → ℝ}
    {b : D → Fin 1 → ℝ} (h : Represents m obs π A b) (hi : m.implementation = .log) {n : ℕ}
    (x : Fin (n + 1) → D) (h0 : likelihood π A (fun t => b (x t)) = 0) :
    scoreSamples m (List.ofFn fun t => obs (x t)) none =
      .ok (.ninf, List.replicate (n + 1) fun _ => .fin 1) := by
  unfold scoreSamples
  rw [scoreCore_none, hi]
  show scoreOneLog m true _ = _
  rw [scoreOneLog_true' h x, h0, lg_zero, ← List.ofFn_const]
  congr 3
  funext t i
  simp [logNormalizeRow]

/-- **C05** With `scaling` the same sequence makes `score_samples` raise. -/
theorem C05_zero_likelihood_scaling_raises (h : Represents m obs π A b)
    (hi : m.implementation = .scaling) {n : ℕ} (x : Fin (n + 1) → D)
    (h0 : likelihood π A (fun t => b (x t)) = 0) :
    scoreSamples m (List.ofFn fun t => obs (x t)) none = .error .underflow := by
  unfold scoreSamples
  rw [scoreCore_none, hi]
  show scoreOneScaling m true _ = _
  rw [scoreOneScaling_true h x, if_neg]
  intro hu
  exact absurd h0 (NoUnderflow.likelihood_pos hu).ne'

example : scoreSamples (DemoLR.hmm .log) [0, 1] none =
    .ok (.ninf, [fun _ => .nan, fun _ => .nan]) :=
  C05_zero_likelihood_nan (DemoLR.represents .log) rfl (by decide) DemoLR.bad DemoLR.bad_likelihood

example : scoreSamples (DemoLR.hmm .scaling) [0, 1] none = .error .underflow :=
  C05_zero_likelihood_scaling_raises (DemoLR.represents .scaling) rfl DemoLR.bad
    DemoLR.bad_likelihood

/-! ## C06, C07 -/

section Estep
variable {E : Emission XF nc Obs P S} {θ : Theta XF nc P} {cfg : Config XF nc}

/-- **C06** The start and transition statistics of an E-step over a data set are the posterior
expectations computed by summing over all hidden paths, for both implementations; the reported
value is the log-likelihood. -/
theorem C06_estep_statistics (h : Represents (E.toHmm cfg.implementation θ) obs π A b)
    (ss : List (ObsSeq D)) (hne : ss ≠ [])
    (hok : ∀ s ∈ ss, EstepOk cfg.implementation π A (s.weights b))
    (hs : 's' ∈ cfg.params) (ht : 't' ∈ cfg.params) (st : Stats XF nc S) (lp : XF)
    (hr : doEstep E cfg θ (dataX obs ss) (dataLengths ss) = .ok (st, lp)) :
    st.base.nobs = ss.length ∧ (∀ i, st.base.start i = .fin (startStat π A b ss i)) ∧
      (∀ i j, st.base.trans i j = .fin (transStat π A b ss i j)) ∧
      lp = xlog (dataLikelihood π A b ss) := by
  rw [doEstep_spec h ss hne hok] at hr
  cases hem : emFold E cfg.params θ.emission obs π A b ss (E.zero cfg.params θ.emission) with
  | error e => rw [hem] at hr; cases hr
  | ok em =>
    rw [hem] at hr
    simp only [Except.map, Except.ok.injEq, Prod.mk.injEq] at hr
    obtain ⟨rfl, rfl⟩ := hr
    refine ⟨rfl, fun i => ?_, fun i j => ?_, lg_eq_xlog (h.dataLikelihood_nonneg ss)⟩
    · simp [finBase, gate, hs]
    · simp [finBase, gate, ht]

end Estep

theorem list_sum_comm {ι κ : Type} [Fintype κ] (l : List ι) (f : ι → κ → ℝ) :
    ∑ k, (l.map fun x => f x k).sum = (l.map fun x => ∑ k, f x k).sum := by
  induction l with
  | nil => simp
  | cons x l ih => simp [Finset.sum_add_distrib, ih]

theorem list_sum_congr {ι : Type} (l : List ι) (f g : ι → ℝ) (h : ∀ x ∈ l, f x = g x) :
    (l.map f).sum = (l.map g).sum := by rw [List.map_congr_left h]

theorem sum_expectedTransitions_right {n : ℕ} (B : Fin (n + 1) → Fin nc → ℝ) (i : Fin nc) :
    ∑ j, expectedTransitions π A B i j = ∑ t : Fin n, posterior π A B t.castSucc i := by
  simp only [expectedTransitions, pairPosterior, posterior]
  rw [Finset.sum_comm]
  refine Finset.sum_congr rfl fun t _ => ?_
  rw [← Finset.sum_div, sum_pairMass_right]

theorem sum_expectedTransitions_left {n : ℕ} (B : Fin (n + 1) → Fin nc → ℝ) (j : Fin nc) :
    ∑ i, expectedTransitions π A B i j = ∑ t : Fin n, posterior π A B t.succ j := by
  simp only [expectedTransitions, pairPosterior, posterior]
  rw [Finset.sum_comm]
  refine Finset.sum_congr rfl fun t _ => ?_
  rw [← Finset.sum_div, sum_pairMass_left]

/-- **C07** Expected transitions out of `i` are the expected visits to `i` at all but the last
time; into `j`, the visits at all but the first time; in total `n_samples - 1` per sequence; the
start statistics sum to the number of sequences. -/
theorem C07_bookkeeping (ss : List (ObsSeq D))
    (hL : ∀ s ∈ ss, 0 < likelihood π A (s.weights b)) :
    (∀ i, ∑ j, transStat π A b ss i j =
      (ss.map fun s => ∑ t : Fin s.n, posterior π A (s.weights b) t.castSucc i).sum) ∧
    (∀ j, ∑ i, transStat π A b ss i j =
      (ss.map fun s => ∑ t : Fin s.n, posterior π A (s.weights b) t.succ j).sum) ∧
    ∑ i, ∑ j, transStat π A b ss i j = (ss.map fun s => (s.n : ℝ)).sum ∧
    ∑ i, startStat π A b ss i = ss.length := by
  have h1 : ∀ i, ∑ j, transStat π A b ss i j =
      (ss.map fun s => ∑ t : Fin s.n, posterior π A (s.weights b) t.castSucc i).sum := by
    intro i
    simp only [transStat]
    rw [list_sum_comm]
    exact list_sum_congr _ _ _ fun s _ => sum_expectedTransitions_right _ i
  refine ⟨h1, ?_, ?_, ?_⟩
  · intro j
    simp only [transStat]
    rw [list_sum_comm]
    exact list_sum_congr _ _ _ fun s _ => sum_expectedTransitions_left _ j
  · simp only [h1]
    rw [list_sum_comm]
    refine list_sum_congr _ _ _ fun s hs => ?_
    rw [Finset.sum_comm]
    rw [Finset.sum_congr rfl fun t _ => sum_posterior (hL s hs).ne' t.castSucc]
    simp
  · simp only [startStat]
    rw [list_sum_comm, list_sum_congr _ _ (fun _ => 1) fun s hs => sum_posterior (hL s hs).ne' 0]
    simp

example : ∑ i, startStat Demo.π Demo.A Demo.b [Demo.seq, Demo.seq] i = 2 := by
  have := (C07_bookkeeping (π := Demo.π) (A := Demo.A) (b := Demo.b) [Demo.seq, Demo.seq]
    (Demo.estepOk .log)).2.2.2
  simpa using this

end Verif
