import Verif.Proofs.RoundoffPosterior
import Verif.Props.RoundoffViterbi

/-!
# C81: scores and posteriors of the log implementation in floating-point arithmetic
-/

set_option autoImplicit false

namespace Verif
open FloatLike Hmmc Spec

variable {ρ : Rounding} {u η Ω V ℓ eb : ℝ} {nc N : ℕ} [NeZero nc] {Obs D : Type} {m : Hmm (RX ρ) nc Obs}
  {obs : D → Obs} {π : Fin nc → ℝ} {A : Fin nc → Fin nc → ℝ} {b : D → Fin nc → ℝ}

/-- The computed posteriors `y` of a sequence are the exact ones, up to `4 n + 7` step errors (relative)
and one underflow. -/
def Spec.PosteriorsNear {n : ℕ} (κ η : ℝ) (π : Fin nc → ℝ) (A : Fin nc → Fin nc → ℝ)
    (B : Fin (n + 1) → Fin nc → ℝ) (y : Fin (n + 1) → Fin nc → ℝ) : Prop :=
  ∀ t i, |y t i - posterior π A B t i| ≤ (4 * n + 7) * κ * posterior π A B t i + η

theorem scoreOneLog_rounded (h : LogBudget ρ u η Ω V nc N ℓ eb) (hm : LogWithinModel m obs ℓ eb π A b)
    (s : ObsSeq D) (hn : s.n ≤ N) :
    ∃ x : RX ρ, scoreOneLog m false (s.rows obs) = .ok (x, []) ∧
      LogWithin ((s.n + 2) * stepError u η V nc eb) x (likelihood π A (s.weights b)) ∧
      LogBound ((s.n + 2) * stepSpan ℓ nc) (likelihood π A (s.weights b)) ∧
      (0 < likelihood π A (s.weights b) → ∃ y : Fin (s.n + 1) → Fin nc → ℝ,
        scoreOneLog m true (s.rows obs) = .ok (x, List.ofFn fun t i => XF.fin (y t i)) ∧
        PosteriorsNear (stepError u η V nc eb) η π A (s.weights b) y) := by
  obtain ⟨rows, hrows, hf⟩ := hm.lik (List.ofFn s.x)
  have hlen : rows.length = s.n + 1 := by rw [hf.length_eq, List.length_ofFn]
  let lb : Fin (s.n + 1) → Row (RX ρ) nc := fun t => rows[t.val]'(by omega)
  have hlb : rows = List.ofFn lb := by
    apply List.ext_getElem
    · simp [hlen]
    · intro i h1 h2; rw [List.getElem_ofFn]
  have hb : ∀ t i, LogWithin eb (lb t i) (s.weights b t i) := by
    intro t i
    have := (List.forall₂_iff_get.1 hf).2 t.val (by omega) (by rw [List.length_ofFn]; exact t.isLt)
    rw [List.get_ofFn] at this
    exact this i
  have hB : ∀ t i, LogBound ℓ (s.weights b t i) := fun t i => hm.b_bound _ _
  have hX : s.rows obs = (List.ofFn s.x).map obs := by simp [ObsSeq.rows, List.map_ofFn, Function.comp_def]
  have hsp : m.startprob = fun i => XF.fin (π i) := funext hm.startprob
  have htm : m.transmat = fun i j => XF.fin (A i j) := funext fun i => funext (hm.transmat i)
  obtain ⟨x, fwd, h1, h2, h3, h4⟩ := h.forward hm.π_bound hm.A_bound hn lb (s.weights b) hB hb
  refine ⟨x, ?_, h2, h3, fun hpos => ?_⟩
  · unfold scoreOneLog
    rw [hX, hrows, hlb, hsp, htm]
    simp only [bind, Except.bind, h1]
    rfl
  · obtain ⟨bwd, h5, y, h6, h7⟩ := h.posteriors hm.A_bound hn lb (s.weights b) hB hb h4 hpos
    refine ⟨y, ?_, fun t i => (h7 t i).1⟩
    unfold scoreOneLog
    rw [hX, hrows, hlb, hsp, htm]
    simp only [bind, Except.bind, h1, h5, h6, if_true]
    rfl

theorem mapM_oks {ε β γ : Type} {f : β → Except ε γ} {g : β → γ} (l : List β) (h : ∀ a ∈ l, f a = .ok (g a)) :
    l.mapM f = .ok (l.map g) := by
  induction l with
  | nil => rfl
  | cons a l ih =>
    rw [List.mapM_cons, h a List.mem_cons_self, ih fun t ht => h t (List.mem_cons_of_mem _ ht)]
    rfl

/-- A sum of scores: the running sum in `_score`, base.py:269. -/
theorem sum_scores (ha : Accurate ρ u η Ω) {ι : Type} (ss : List ι) {v : ι → RX ρ} {p e W : ι → ℝ}
    (hv : ∀ s ∈ ss, LogWithin (e s) (v s) (p s)) (hb : ∀ s ∈ ss, LogBound (W s) (p s)) :
    ((∃ s ∈ ss, p s = 0) → (ss.map v).foldl (fun x y : RX ρ => x + y) (0 : RX ρ) = XF.ninf) ∧
    ((∀ s ∈ ss, 0 < p s) → ∀ M ≤ Ω, (ss.map fun s => W s + e s).sum + ss.length * (u * M + η) ≤ M → 0 ≤ M →
      ∃ r, (ss.map v).foldl (fun x y : RX ρ => x + y) (0 : RX ρ) = XF.fin r ∧
        |r - (ss.map fun s => Real.log (p s)).sum| ≤ (ss.map e).sum + ss.length * (u * M + η)) := by
  refine ⟨fun ⟨s, hs, h0⟩ => ?_, fun hpos M hM hsum hM0 => ?_⟩
  · refine foldl_ninf ss (fun t ht => (hv t ht).logVal) (Or.inr ⟨0, rfl⟩) (Or.inr ⟨s, hs, ?_⟩)
    rcases hv s hs with ⟨_, h⟩ | ⟨h, _⟩
    · exact h
    · exact absurd h0 h.ne'
  · have key : ∀ s, ∃ y : ℝ, s ∈ ss → v s = XF.fin y ∧ |y - Real.log (p s)| ≤ e s := by
      intro s
      by_cases hs : s ∈ ss
      · rcases hv s hs with ⟨h, _⟩ | ⟨_, r, h1, h2⟩
        · exact absurd h (hpos s hs).ne'
        · exact ⟨r, fun _ => ⟨h1, h2⟩⟩
      · exact ⟨0, fun h => absurd h hs⟩
    choose y hy using key
    have hu := ha.u_nonneg
    have hη := ha.η_nonneg
    have hδ : 0 ≤ u * M + η := by positivity
    have hle : (ss.map fun s => |y s|).sum ≤ (ss.map fun s => W s + e s).sum := by
      refine List.sum_le_sum fun s hs => ?_
      have h1 := (hy s hs).2
      have h2 := ((hb s hs).resolve_left (hpos s hs).ne').2
      have : y s = (y s - Real.log (p s)) + Real.log (p s) := by ring
      rw [this]
      exact (abs_add_le _ _).trans (by linarith)
    obtain ⟨r, hr, hre⟩ := sum_rounded ha (fun s => (XF.fin (y s) : RX ρ)) y (fun _ => rfl) hM ss 0 0 0 (by simp)
      (by simp only [abs_zero, CharP.cast_eq_zero, zero_add]; linarith) hδ
    refine ⟨r, ?_, ?_⟩
    · have : ss.map v = ss.map fun s => (XF.fin (y s) : RX ρ) := List.map_congr_left fun s hs => (hy s hs).1
      rw [this, List.foldl_map]
      exact hr
    · simp only [CharP.cast_eq_zero, zero_add] at hre
      have hd : |(ss.map y).sum - (ss.map fun s => Real.log (p s)).sum| ≤ (ss.map e).sum := by
        have h2 := fun s hs => (hy s hs).2
        clear hre hr hle hsum hpos hb hv hy
        induction ss with
        | nil => simp
        | cons s ss ih =>
          simp only [List.map_cons, List.sum_cons]
          have e1 : y s + (ss.map y).sum - (Real.log (p s) + (ss.map fun s => Real.log (p s)).sum) =
            (y s - Real.log (p s)) + ((ss.map y).sum - (ss.map fun s => Real.log (p s)).sum) := by ring
          rw [e1]
          exact (abs_add_le _ _).trans (add_le_add (h2 s List.mem_cons_self)
            (ih fun t ht => h2 t (List.mem_cons_of_mem _ ht)))
      have e1 : r - (ss.map fun s => Real.log (p s)).sum =
        (r - (ss.map y).sum) + ((ss.map y).sum - (ss.map fun s => Real.log (p s)).sum) := by ring
      rw [e1]
      exact (abs_add_le _ _).trans (by linarith)

/-- **C81** With `implementation="log"`, in arithmetic with a monotone rounding of relative error `u`
(absolute error `η` where results underflow), `score` is `-inf` if some sequence is impossible, and
otherwise the sum of the log-likelihoods, up to `n + 2` step errors for each sequence of `n + 1` samples
and one rounding for each addition. -/
theorem C81_score (h : LogBudget ρ u η Ω V nc N ℓ eb) (hm : LogWithinModel m obs ℓ eb π A b)
    (hi : m.implementation = .log) (ss : List (ObsSeq D)) (hne : ss ≠ []) (hn : ∀ s ∈ ss, s.n ≤ N) :
    ∃ x : RX ρ, score m (dataX obs ss) (some (dataLengths ss)) = .ok x ∧
      ((∃ s ∈ ss, likelihood π A (s.weights b) = 0) → x = XF.ninf) ∧
      ((∀ s ∈ ss, 0 < likelihood π A (s.weights b)) → ∀ M ≤ Ω, 0 ≤ M →
        (ss.map fun s => (s.n + 2) * (stepSpan ℓ nc + stepError u η V nc eb)).sum + ss.length * (u * M + η) ≤ M →
        ∃ r, x = XF.fin r ∧ |r - (ss.map fun s => Real.log (likelihood π A (s.weights b))).sum| ≤
          (ss.map fun s => (s.n + 2) * stepError u η V nc eb).sum + ss.length * (u * M + η)) := by
  classical
  have key : ∀ s : ObsSeq D, ∃ x : RX ρ, s ∈ ss → scoreOneLog m false (s.rows obs) = .ok (x, []) ∧
      LogWithin ((s.n + 2) * stepError u η V nc eb) x (likelihood π A (s.weights b)) ∧
      LogBound ((s.n + 2) * stepSpan ℓ nc) (likelihood π A (s.weights b)) := by
    intro s
    by_cases hs : s ∈ ss
    · obtain ⟨x, h1, h2, h3, -⟩ := scoreOneLog_rounded h hm s (hn s hs)
      exact ⟨x, fun _ => ⟨h1, h2, h3⟩⟩
    · exact ⟨XF.ninf, fun h => absurd h hs⟩
  choose v hv using key
  have hs := sum_scores h.range.acc ss (v := v) (fun s hs => (hv s hs).2.1) (fun s hs => (hv s hs).2.2)
  refine ⟨(ss.map v).foldl (fun x y : RX ρ => x + y) (0 : RX ρ), ?_, hs.1, fun hp M hM h0 hsum => ?_⟩
  · unfold score scoreCore
    simp only [splitXLengths_data obs ss hne, bind, Except.bind, hi]
    rw [seqLoop_eq, List.mapM_map]
    rw [mapM_oks (f := scoreOneLog m false ∘ ObsSeq.rows obs) (g := fun s => (v s, [])) ss fun s hs => (hv s hs).1]
    simp [Except.map, Function.comp_def]
  · refine hs.2 hp M hM ?_ h0
    refine le_trans (le_of_eq ?_) hsum
    simp only [mul_add]

/-- **C81** `score_samples` on possible sequences: the posteriors of every sequence are accurate. -/
theorem C81_posteriors (h : LogBudget ρ u η Ω V nc N ℓ eb) (hm : LogWithinModel m obs ℓ eb π A b)
    (hi : m.implementation = .log) (ss : List (ObsSeq D)) (hne : ss ≠ []) (hn : ∀ s ∈ ss, s.n ≤ N)
    (hpos : ∀ s ∈ ss, 0 < likelihood π A (s.weights b)) :
    ∃ (x : RX ρ) (y : (s : ObsSeq D) → Fin (s.n + 1) → Fin nc → ℝ),
      scoreSamples m (dataX obs ss) (some (dataLengths ss)) =
        .ok (x, (ss.map fun s => List.ofFn fun t i => XF.fin (y s t i)).flatten) ∧
      score m (dataX obs ss) (some (dataLengths ss)) = .ok x ∧
      ∀ s ∈ ss, PosteriorsNear (stepError u η V nc eb) η π A (s.weights b) (y s) := by
  classical
  have key : ∀ s : ObsSeq D, ∃ (x : RX ρ) (y : Fin (s.n + 1) → Fin nc → ℝ), s ∈ ss →
      scoreOneLog m false (s.rows obs) = .ok (x, []) ∧
      scoreOneLog m true (s.rows obs) = .ok (x, List.ofFn fun t i => XF.fin (y t i)) ∧
      PosteriorsNear (stepError u η V nc eb) η π A (s.weights b) y := by
    intro s
    by_cases hs : s ∈ ss
    · obtain ⟨x, h1, -, -, h2⟩ := scoreOneLog_rounded h hm s (hn s hs)
      obtain ⟨y, h3, h4⟩ := h2 (hpos s hs)
      exact ⟨x, y, fun _ => ⟨h1, h3, h4⟩⟩
    · exact ⟨XF.ninf, fun _ _ => 0, fun h => absurd h hs⟩
  choose v y hv using key
  refine ⟨(ss.map v).foldl (fun x y : RX ρ => x + y) (0 : RX ρ), y, ?_, ?_, fun s hs => (hv s hs).2.2⟩
  · unfold scoreSamples scoreCore
    simp only [splitXLengths_data obs ss hne, bind, Except.bind, hi]
    rw [seqLoop_eq, List.mapM_map]
    rw [mapM_oks (f := scoreOneLog m true ∘ ObsSeq.rows obs) (g := fun s => (v s, List.ofFn fun t i => XF.fin (y s t i))) ss fun s hs => (hv s hs).2.1]
    simp [Except.map, Function.comp_def]
  · unfold score scoreCore
    simp only [splitXLengths_data obs ss hne, bind, Except.bind, hi]
    rw [seqLoop_eq, List.mapM_map]
    rw [mapM_oks (f := scoreOneLog m false ∘ ObsSeq.rows obs) (g := fun s => (v s, [])) ss fun s hs => (hv s hs).1]
    simp [Except.map, Function.comp_def]

theorem npArgmax_rx (p : Fin nc → ℝ) (i : Fin nc) :
    p i ≤ p (npArgmax (α := RX ρ) fun i => (XF.fin (p i) : RX ρ)) := by
  rw [npArgmax_eq_maxElement (α := RX ρ) _ fun i => rfl]
  exact le_maxElement (α := RX ρ) (fun i => (XF.fin (p i) : RX ρ)) p (fun i j => rfl) i

/-- **C81** `decode` with `algorithm="map"` on possible sequences: each state returned is, up to the errors
of two posteriors, the most probable one at its time. -/
theorem C81_map (h : LogBudget ρ u η Ω V nc N ℓ eb) (hm : LogWithinModel m obs ℓ eb π A b)
    (hi : m.implementation = .log) (ss : List (ObsSeq D)) (hne : ss ≠ []) (hn : ∀ s ∈ ss, s.n ≤ N)
    (hpos : ∀ s ∈ ss, 0 < likelihood π A (s.weights b)) :
    ∃ (x : RX ρ) (z : (s : ObsSeq D) → Fin (s.n + 1) → Fin nc),
      decode m .map (dataX obs ss) (some (dataLengths ss)) =
        .ok (x, (ss.map fun s => List.ofFn (z s)).flatten) ∧
      ∀ s ∈ ss, ∀ t i, posterior π A (s.weights b) t i ≤
        posterior π A (s.weights b) t (z s t) + 2 * ((4 * s.n + 7) * stepError u η V nc eb + η) := by
  classical
  have key : ∀ s : ObsSeq D, ∃ (x : RX ρ) (z : Fin (s.n + 1) → Fin nc), s ∈ ss →
      decodeMap m (s.rows obs) = .ok (x, List.ofFn z) ∧
      ∀ t i, posterior π A (s.weights b) t i ≤
        posterior π A (s.weights b) t (z t) + 2 * ((4 * s.n + 7) * stepError u η V nc eb + η) := by
    intro s
    by_cases hs : s ∈ ss
    · obtain ⟨x, -, -, -, h2⟩ := scoreOneLog_rounded h hm s (hn s hs)
      obtain ⟨y, h3, h4⟩ := h2 (hpos s hs)
      refine ⟨sumL (α := RX ρ) ((List.ofFn fun t i => (XF.fin (y t i) : RX ρ)).map npMax),
        fun t => npArgmax (α := RX ρ) fun i => (XF.fin (y t i) : RX ρ), fun _ => ⟨?_, fun t i => ?_⟩⟩
      · unfold decodeMap scoreSamples scoreCore
        simp only [rows_isEmpty, Bool.false_eq_true, if_false, splitXLengths, bind, Except.bind, hi, seqLoop, h3, List.nil_append]
        rw [List.map_ofFn, List.map_ofFn]
        rfl
      · have hmax := npArgmax_rx (ρ := ρ) (y t) i
        set k := npArgmax (α := RX ρ) fun i => (XF.fin (y t i) : RX ρ)
        have hB : ∀ t i, 0 ≤ s.weights b t i := fun t i => (hm.b_bound _ _).nonneg
        have hp : ∀ j, 0 ≤ posterior π A (s.weights b) t j ∧ posterior π A (s.weights b) t j ≤ 1 := fun j => by
          have h0 : ∀ j, 0 ≤ stateMass π A (s.weights b) t j := fun j => Finset.sum_nonneg fun z _ =>
            joint_nonneg (fun i => (hm.π_bound i).nonneg) (fun i j => (hm.A_bound i j).nonneg) hB z
          refine ⟨div_nonneg (h0 j) (hpos s hs).le, ?_⟩
          unfold posterior
          rw [div_le_one (hpos s hs), likelihood_eq_sum_stateMass π A (s.weights b) t]
          exact Finset.single_le_sum (fun j _ => h0 j) (Finset.mem_univ j)
        have hc : 0 ≤ (4 * (s.n : ℝ) + 7) * stepError u η V nc eb := mul_nonneg (by positivity) h.step_nonneg
        have e1 := (abs_le.1 (h4 t i)).1
        have e2 := (abs_le.1 (h4 t k)).2
        have e3 := mul_le_of_le_one_right hc (hp i).2
        have e4 := mul_le_of_le_one_right hc (hp k).2
        linarith
    · exact ⟨XF.ninf, fun _ => 0, fun h => absurd h hs⟩
  choose v z hv using key
  refine ⟨(ss.map v).foldl (fun x y : RX ρ => x + y) (0 : RX ρ), z, ?_, fun s hs => (hv s hs).2⟩
  unfold decode
  simp only [splitXLengths_data obs ss hne, bind, Except.bind]
  rw [seqLoop_eq, List.mapM_map]
  rw [mapM_oks (f := decodeMap m ∘ ObsSeq.rows obs) (g := fun s => (v s, List.ofFn (z s))) ss
    fun s hs => (hv s hs).1]
  simp [Except.map, Function.comp_def]

end Verif
