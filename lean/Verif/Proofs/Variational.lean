import Verif.Model.Variational
import Verif.Spec.Variational
import Verif.Proofs.Kl
import Verif.Proofs.FitRuns

/-!
# Variational training on real-valued models
-/

namespace Verif
open FloatLike XF Hmmc Spec
open scoped Classical

/-! ## Dirichlet posteriors -/

section Dirichlet
variable {n : ℕ}

theorem expWeight_pos (a : Fin n → ℝ) (i : Fin n) : 0 < expWeight a i := Real.exp_pos _

theorem expWeight_le {a : Fin n → ℝ} (ha : ∀ i, 0 < a i) (i : Fin n) : expWeight a i ≤ dirMean a i := by
  have hs : a i ≤ ∑ k, a k := Finset.single_le_sum (fun k _ => (ha k).le) (Finset.mem_univ i)
  have h := digamma_sub_log_mono (ha i) hs
  have hS := (ha i).trans_le hs
  unfold expWeight dirMean
  calc Real.exp (digamma (a i) - digamma (∑ k, a k))
      ≤ Real.exp (Real.log (a i) - Real.log (∑ k, a k)) := Real.exp_le_exp.2 (by linarith)
    _ = a i / ∑ k, a k := by rw [Real.exp_sub, Real.exp_log (ha i), Real.exp_log hS]

theorem dirMean_pos {a : Fin n → ℝ} (ha : ∀ i, 0 < a i) (i : Fin n) : 0 < dirMean a i :=
  div_pos (ha i) ((ha i).trans_le (Finset.single_le_sum (fun k _ => (ha k).le) (Finset.mem_univ i)))

theorem sum_pos' [NeZero n] {a : Fin n → ℝ} (ha : ∀ i, 0 < a i) : 0 < ∑ k, a k :=
  Finset.sum_pos (fun i _ => ha i) Finset.univ_nonempty

theorem sum_dirMean [NeZero n] {a : Fin n → ℝ} (ha : ∀ i, 0 < a i) : ∑ i, dirMean a i = 1 := by
  unfold dirMean
  rw [← Finset.sum_div, div_self (sum_pos' ha).ne']

theorem sum_expWeight_le {a : Fin n → ℝ} (ha : ∀ i, 0 < a i) : ∑ i, expWeight a i ≤ 1 := by
  rcases Nat.eq_zero_or_pos n with rfl | hn
  · simp
  · haveI : NeZero n := ⟨hn.ne'⟩
    exact (Finset.sum_le_sum fun i _ => expWeight_le ha i).trans (sum_dirMean ha).le

/-- The conjugate update `p + N` is the best posterior: what the divergence loses the expected
log-likelihood gains. -/
theorem dirichlet_gain {a p N : Fin n → ℝ} (ha : ∀ i, 0 < a i) (hp : ∀ i, 0 < p i) (hN : ∀ i, 0 ≤ N i) :
    klDirichlet (fun i => p i + N i) p - klDirichlet a p ≤
      ∑ i, N i * Real.log (expWeight (fun i => p i + N i) i / expWeight a i) := by
  have hq : ∀ i, 0 < p i + N i := fun i => add_pos_of_pos_of_nonneg (hp i) (hN i)
  have h := klDirichlet_nonneg ha hq
  have e : ∀ a : Fin n → ℝ, klDirichlet a p - ∑ i, N i * (digamma (a i) - digamma (∑ k, a k)) =
      klDirichlet a (fun i => p i + N i) + (lnGamma (∑ i, (p i + N i)) - lnGamma (∑ i, p i) -
        ∑ i, (lnGamma (p i + N i) - lnGamma (p i))) := by
    intro a
    simp only [klDirichlet, Finset.sum_sub_distrib, sub_mul, add_mul, Finset.sum_add_distrib,
      ← sub_sub]
    ring
  have e1 := e a
  have e2 := e fun i => p i + N i
  rw [klDirichlet_self, zero_add] at e2
  have e3 : ∀ i, Real.log (expWeight (fun i => p i + N i) i / expWeight a i) =
      (digamma (p i + N i) - digamma (∑ k, (p k + N k))) - (digamma (a i) - digamma (∑ k, a k)) := by
    intro i
    rw [Real.log_div (expWeight_pos _ _).ne' (expWeight_pos _ _).ne', expWeight, expWeight,
      Real.log_exp, Real.log_exp]
  simp only [e3, mul_sub (N _) (_ - _) (_ - _), Finset.sum_sub_distrib]
  linarith

variable {sci : Sci XF} (hsci : sci.Exact)
include hsci

theorem logSubnorm_fin [NeZero n] {a : Fin n → ℝ} (ha : ∀ i, 0 < a i) :
    logSubnorm sci (fun i => fin (a i)) = fun i => fin (digamma (a i) - digamma (∑ k, a k)) := by
  unfold logSubnorm
  simp only [memo_eq, sumF_fin, hsci.digamma _ (sum_pos' ha)]
  funext i
  rw [hsci.digamma _ (ha i), fin_sub]

theorem negKlRows_fin {m : ℕ} [NeZero n] {q p : Fin m → Fin n → ℝ} (hq : ∀ i k, 0 < q i k)
    (hp : ∀ i k, 0 < p i k) :
    negKlRows sci (fun i k => fin (q i k)) (fun i k => fin (p i k)) =
      fin (-∑ i, klDirichlet (q i) (p i)) := by
  unfold negKlRows
  have h : ∀ (l : List (Fin m)) (x : ℝ), l.foldl (fun acc i => acc - Kl.dirichlet sci
      (fun k => fin (q i k)) (fun k => fin (p i k))) (fin x) =
      fin (x - (l.map fun i => klDirichlet (q i) (p i)).sum) := by
    intro l
    induction l with
    | nil => intro x; simp
    | cons i l ih =>
      intro x
      rw [List.foldl_cons, Kl.dirichlet_fin hsci (hq i) (hp i), fin_sub, ih]
      simp [sub_sub]
  have := h (List.finRange m) 0
  rw [zero_def, this, ← List.ofFn_eq_map, List.sum_ofFn, zero_sub]

end Dirichlet

theorem divSum_fin {n : ℕ} [NeZero n] {a : Fin n → ℝ} (ha : ∀ i, 0 < a i) :
    divSum (fun i => fin (a i)) = fun i => fin (dirMean a i) := by
  unfold divSum
  simp only [memo_eq, sumF_fin]
  funext i
  rw [fin_div (hb := (sum_pos' ha).ne')]; rfl

/-! ## A variational family -/

variable {nc : ℕ} {Obs D VP P S Q : Type} [NeZero nc]

/-- Relates a variational emission family of the program to a real-valued one. -/
structure VFamily (V : VEmission XF nc Obs VP P S) (obs : D → Obs) (params : List Char) (Q : Type) where
  F : Family V.core obs params Q
  emb : Q → VP
  begin_eq : ∀ q, V.begin (emb q) = F.embed q
  b_pos : ∀ q o i, 0 < F.b q o i
  kl : Q → ℝ
  bound_eq : ∀ q, V.bound (emb q) = .ok (fin (-(kl q)))
  next : Q → (Fin nc → (D → ℝ) → ℝ) → Q
  mstep_eq : ∀ q T, PosLin T → V.mstep params (emb q) (F.stat q T) = emb (next q T)
  gain : ∀ q π A ss, (∀ i, 0 ≤ π i) → (∀ i j, 0 ≤ A i j) →
    kl (next q (obsStat π A (F.b q) ss)) - kl q ≤
      emissionGain π A (F.b q) (F.b (next q (obsStat π A (F.b q) ss))) ss

/-- Real-valued attributes of a variational model. -/
structure VR (nc : ℕ) (Q : Type) where
  s : Fin nc → ℝ
  t : Fin nc → Fin nc → ℝ
  sp : Option (Fin nc → ℝ)
  tp : Option (Fin nc → Fin nc → ℝ)
  q : Q

/-- Positive concentrations. -/
structure VR.Pos (r : VR nc Q) : Prop where
  s : ∀ i, 0 < r.s i
  t : ∀ i j, 0 < r.t i j

/-- The weights of the E-step. -/
noncomputable def VR.weights (r : VR nc Q) : RParams nc Q :=
  ⟨expWeight r.s, fun i => expWeight (r.t i), r.q⟩

omit [NeZero nc] in
theorem VR.Pos.valid {r : VR nc Q} (h : r.Pos) : r.weights.Valid :=
  ⟨fun i => (expWeight_pos _ i).le, fun i j => (expWeight_pos _ j).le, sum_expWeight_le h.s,
    fun i => sum_expWeight_le (h.t i)⟩

/-- Positive prior concentrations. -/
structure RConfig.Pos (c : RConfig nc) : Prop where
  sp : ∀ i, 0 < c.sp i
  tp : ∀ i j, 0 < c.tp i j

namespace VFamily
variable {V : VEmission XF nc Obs VP P S} {obs : D → Obs} {params : List Char}
  (F : VFamily V obs params Q)

/-- Real attributes as estimator attributes. -/
noncomputable def theta (r : VR nc Q) : VTheta XF nc VP where
  startPost i := fin (r.s i)
  transPost i j := fin (r.t i j)
  startprob := r.sp.map fun p i => fin (p i)
  transmat := r.tp.map fun a i j => fin (a i j)
  emission := F.emb r.q

/-- One variational update. -/
noncomputable def vstep (c : RConfig nc) (ss : List (ObsSeq D)) (r : VR nc Q) : VR nc Q :=
  let w := r.weights
  let N := startStat w.π w.A (F.F.b r.q) ss
  let M := transStat w.π w.A (F.F.b r.q) ss
  { s := if 's' ∈ params then fun i => c.sp i + N i else r.s
    sp := if 's' ∈ params then some (dirMean fun i => c.sp i + N i) else r.sp
    t := if 't' ∈ params then fun i j => c.tp i j + M i j else r.t
    tp := if 't' ∈ params then some (fun i => dirMean fun j => c.tp i j + M i j) else r.tp
    q := F.next r.q (obsStat w.π w.A (F.F.b r.q) ss) }

/-- The lower bound at real attributes. -/
noncomputable def lb (c : RConfig nc) (ss : List (ObsSeq D)) (r : VR nc Q) : ℝ :=
  lowerBound c.sp c.tp ss r.s r.t (F.F.b r.q) (F.kl r.q)

omit [NeZero nc] in
theorem vstep_pos {c : RConfig nc} (hc : c.Pos) (ss : List (ObsSeq D)) {r : VR nc Q} (h : r.Pos) :
    (F.vstep c ss r).Pos where
  s i := by
    simp only [vstep]; split
    · exact add_pos_of_pos_of_nonneg (hc.sp i)
        (startStat_nonneg h.valid.π_nonneg h.valid.A_nonneg (F.F.b_nonneg _) ss i)
    · exact h.s i
  t i j := by
    simp only [vstep]; split
    · exact add_pos_of_pos_of_nonneg (hc.tp i j)
        (transStat_nonneg h.valid.π_nonneg h.valid.A_nonneg (F.F.b_nonneg _) ss i j)
    · exact h.t i j

/-- Every sequence has positive likelihood under the weights. -/
theorem likelihood_pos (r : VR nc Q) (s : ObsSeq D) :
    0 < likelihood r.weights.π r.weights.A (s.weights (F.F.b r.q)) := by
  have z : Fin (s.n + 1) → Fin nc := fun _ => 0
  refine lt_of_lt_of_le ?_ (Finset.single_le_sum (f := fun z => joint r.weights.π r.weights.A
    (s.weights (F.F.b r.q)) z) (fun z _ => joint_nonneg (fun i => (expWeight_pos _ i).le)
      (fun i j => (expWeight_pos _ j).le) (fun t i => F.F.b_nonneg _ _ _) z) (Finset.mem_univ z))
  exact (joint_pos_iff (fun i => (expWeight_pos _ i).le) (fun i j => (expWeight_pos _ j).le)
    (fun t i => F.F.b_nonneg _ _ _) z).2 ⟨expWeight_pos _ _, fun t => expWeight_pos _ _,
      fun t => F.b_pos _ _ _⟩

variable {sci : Sci XF} (hsci : sci.Exact)

include hsci in
theorem subnorm_eq {r : VR nc Q} (h : r.Pos) : V.subnorm sci (F.theta r) = F.F.theta r.weights := by
  unfold VEmission.subnorm
  simp only [theta, memo_eq, logSubnorm_fin hsci h.s, Family.theta, F.begin_eq]
  congr 1
  funext i
  rw [logSubnorm_fin hsci (h.t i)]
  rfl

omit [NeZero nc] in
theorem doMstep_eq [NeZero nc] {c : RConfig nc} (hc : c.Pos) (ss : List (ObsSeq D)) {r : VR nc Q} (h : r.Pos) (k : ℕ) :
    V.doMstep (c.toConfig params) (F.theta r)
      ⟨finBase k (fun i => gate params 's' (startStat r.weights.π r.weights.A (F.F.b r.q) ss i))
        (fun i j => gate params 't' (transStat r.weights.π r.weights.A (F.F.b r.q) ss i j)),
        F.F.stat r.q (obsStat r.weights.π r.weights.A (F.F.b r.q) ss)⟩ = F.theta (F.vstep c ss r) := by
  have hs : 's' ∈ params → ∀ i, 0 < c.sp i + startStat r.weights.π r.weights.A (F.F.b r.q) ss i :=
    fun _ i => add_pos_of_pos_of_nonneg (hc.sp i)
      (startStat_nonneg h.valid.π_nonneg h.valid.A_nonneg (F.F.b_nonneg _) ss i)
  have ht : ∀ i j, 0 < c.tp i j + transStat r.weights.π r.weights.A (F.F.b r.q) ss i j :=
    fun i j => add_pos_of_pos_of_nonneg (hc.tp i j)
      (transStat_nonneg h.valid.π_nonneg h.valid.A_nonneg (F.F.b_nonneg _) ss i j)
  unfold VEmission.doMstep theta vstep
  simp only [RConfig.toConfig, finBase, memo_eq, fin_add]
  congr 1
  · by_cases h1 : 's' ∈ params <;> simp [h1, gate]
  · by_cases h1 : 't' ∈ params <;> simp [h1, gate]
  · by_cases h1 : 's' ∈ params
    · simp only [h1, if_true, gate, Option.map_some]
      rw [divSum_fin (hs h1)]
    · simp [h1]
  · by_cases h1 : 't' ∈ params
    · simp only [h1, if_true, gate, Option.map_some]
      congr 1; funext i
      rw [divSum_fin (ht i)]
    · simp [h1]
  · exact F.mstep_eq r.q _ (obsStat_posLin h.valid.π_nonneg h.valid.A_nonneg (F.F.b_nonneg _) ss)

include hsci in
theorem lowerBound_eq {c : RConfig nc} (hc : c.Pos) {r : VR nc Q} (h : r.Pos) (l : ℝ) :
    V.lowerBound sci (c.toConfig params) (F.theta r) (fin l) =
      .ok (fin (l - klDirichlet r.s c.sp - ∑ i, klDirichlet (r.t i) (c.tp i) - F.kl r.q)) := by
  unfold VEmission.lowerBound
  have e1 : Kl.dirichlet sci (F.theta r).startPost (c.toConfig params).startprobPrior =
    fin (klDirichlet r.s c.sp) := Kl.dirichlet_fin hsci h.s hc.sp
  have e2 : negKlRows sci (F.theta r).transPost (c.toConfig params).transmatPrior =
    fin (-∑ i, klDirichlet (r.t i) (c.tp i)) := negKlRows_fin hsci h.t hc.tp
  have e3 : V.bound (F.theta r).emission = .ok (fin (-(F.kl r.q))) := F.bound_eq r.q
  rw [e1, e2, e3]
  simp only [bind, Except.bind, pure, Except.pure, fin_neg, fin_add]
  congr 2; ring

include hsci in
/-- One variational iteration. -/
theorem step_real {c : RConfig nc} (hc : c.Pos) {ss : List (ObsSeq D)} (hne : ss ≠ []) {r : VR nc Q} (h : r.Pos)
    (hok : F.F.Ok c.impl ss r.weights) :
    V.step sci (c.toConfig params) (dataX obs ss) (dataLengths ss) (F.theta r) =
      .ok (F.theta (F.vstep c ss r), fin (F.lb c ss r)) := by
  unfold VEmission.step
  rw [F.subnorm_eq hsci h, F.F.doEstep_real c ss hne h.valid hok]
  have hL := (log_dataLikelihood (π := r.weights.π) (A := r.weights.A) (b := F.F.b r.q) ss
    fun s _ => F.likelihood_pos r s).1
  have e : lg (F.F.L ss r.weights) = fin (Real.log (dataLikelihood (expWeight r.s)
    (fun i => expWeight (r.t i)) (F.F.b r.q) ss)) := lg_pos hL
  rw [e]
  simp only [bind, Except.bind, pure, Except.pure, F.lowerBound_eq hsci hc h]
  have := F.doMstep_eq hc ss h ss.length
  simp only [VR.weights] at this ⊢
  rw [this]
  rfl

include hsci in
/-- An iteration that fails raises the underflow error (`scaling` only). -/
theorem step_underflow {c : RConfig nc} (hi : c.impl = .scaling) {ss : List (ObsSeq D)} {r : VR nc Q} (h : r.Pos)
    (hok : ¬ F.F.Ok .scaling ss r.weights) :
    V.step sci (c.toConfig params) (dataX obs ss) (dataLengths ss) (F.theta r) = .error .underflow := by
  have h1 := F.F.emStep_underflow c hi ss h.valid hok
  unfold VEmission.step
  rw [F.subnorm_eq hsci h]
  unfold emStep at h1
  cases h2 : doEstep V.core (c.toConfig params) (F.F.theta r.weights) (dataX obs ss) (dataLengths ss) with
  | error e => simpa [h2, bind, Except.bind] using h1
  | ok v => simp [h2, bind, Except.bind, pure, Except.pure] at h1

omit [NeZero nc] in
theorem ok_log [NeZero nc] (ss : List (ObsSeq D)) (r : VR nc Q) : F.F.Ok .log ss r.weights :=
  fun s _ => F.likelihood_pos r s

include hsci in
theorem step_inv {c : RConfig nc} (hc : c.Pos) {ss : List (ObsSeq D)} (hne : ss ≠ []) {r : VR nc Q} (h : r.Pos)
    {θ' : VTheta XF nc VP} {v : XF}
    (hs : V.step sci (c.toConfig params) (dataX obs ss) (dataLengths ss) (F.theta r) = .ok (θ', v)) :
    θ' = F.theta (F.vstep c ss r) ∧ v = fin (F.lb c ss r) := by
  have hok : F.F.Ok c.impl ss r.weights := by
    cases hi : c.impl with
    | log => exact F.ok_log ss r
    | scaling =>
      by_contra hno
      rw [F.step_underflow hsci hi h hno] at hs
      simp at hs
  rw [F.step_real hsci hc hne h hok] at hs
  simp only [Except.ok.injEq, Prod.mk.injEq] at hs
  exact ⟨hs.1.symm, hs.2.symm⟩

omit [NeZero nc] in
theorem iterate_pos {c : RConfig nc} (hc : c.Pos) (ss : List (ObsSeq D)) {r : VR nc Q} (h : r.Pos) (k : ℕ) :
    ((F.vstep c ss)^[k] r).Pos := by
  induction k with
  | zero => exact h
  | succ k ih => rw [Function.iterate_succ_apply']; exact F.vstep_pos hc ss ih

include hsci in
/-- Every run is an iteration of the real update, and reports the lower bounds. -/
theorem runs_real {c : RConfig nc} (hc : c.Pos) {ss : List (ObsSeq D)} (hne : ss ≠ []) {r : VR nc Q} (hr : r.Pos)
    {hist : List XF} {θ' : VTheta XF nc VP}
    (hrun : Runs (V.step sci (c.toConfig params) (dataX obs ss) (dataLengths ss)) hist (F.theta r) θ') :
    θ' = F.theta ((F.vstep c ss)^[hist.length] r) ∧
      hist = (List.range hist.length).map (fun k => fin (F.lb c ss ((F.vstep c ss)^[k] r))) := by
  generalize hs : F.theta r = s at hrun
  induction hrun with
  | nil s => subst hs; exact ⟨rfl, rfl⟩
  | @snoc h s s' s'' v h1 h2 ih =>
    obtain ⟨e1, e2⟩ := ih hs
    subst e1
    obtain ⟨o1, o2⟩ := F.step_inv hsci hc hne (F.iterate_pos hc ss hr _) h2
    have hl : (h ++ [v]).length = h.length + 1 := by simp
    refine ⟨?_, ?_⟩
    · rw [hl, Function.iterate_succ_apply', o1]
    · rw [hl, List.range_succ, List.map_append, ← e2]; simp [o2]

/-- **One variational iteration never decreases the lower bound.** -/
theorem vstep_gain {c : RConfig nc} (hc : c.Pos) (ss : List (ObsSeq D)) {r : VR nc Q} (h : r.Pos) :
    F.lb c ss r ≤ F.lb c ss (F.vstep c ss r) := by
  have hv := h.valid
  have hpos := F.vstep_pos hc ss h
  have hv' := hpos.valid
  have gs : klDirichlet (F.vstep c ss r).s c.sp - klDirichlet r.s c.sp ≤
      ∑ i, startStat r.weights.π r.weights.A (F.F.b r.q) ss i *
        Real.log (expWeight (F.vstep c ss r).s i / expWeight r.s i) := by
    by_cases h1 : 's' ∈ params
    · simp only [vstep, h1, if_true]
      exact dirichlet_gain h.s hc.sp (startStat_nonneg hv.π_nonneg hv.A_nonneg (F.F.b_nonneg _) ss)
    · simp only [vstep, h1, if_false, sub_self]
      exact le_of_eq (Finset.sum_eq_zero fun i _ => by
        rw [div_self (expWeight_pos _ _).ne', Real.log_one, mul_zero]).symm
  have gt : ∑ i, klDirichlet ((F.vstep c ss r).t i) (c.tp i) - ∑ i, klDirichlet (r.t i) (c.tp i) ≤
      ∑ i, ∑ j, transStat r.weights.π r.weights.A (F.F.b r.q) ss i j *
        Real.log (expWeight ((F.vstep c ss r).t i) j / expWeight (r.t i) j) := by
    rw [← Finset.sum_sub_distrib]
    refine Finset.sum_le_sum fun i _ => ?_
    by_cases h1 : 't' ∈ params
    · simp only [vstep, h1, if_true]
      exact dirichlet_gain (h.t i) (hc.tp i)
        (transStat_nonneg hv.π_nonneg hv.A_nonneg (F.F.b_nonneg _) ss i)
    · simp only [vstep, h1, if_false, sub_self]
      exact le_of_eq (Finset.sum_eq_zero fun j _ => by
        rw [div_self (expWeight_pos _ _).ne', Real.log_one, mul_zero]).symm
  have ge := F.gain r.q r.weights.π r.weights.A ss hv.π_nonneg hv.A_nonneg
  have hb := (baumWelch (π' := (F.vstep c ss r).weights.π) (A' := (F.vstep c ss r).weights.A)
    (b' := F.F.b (F.vstep c ss r).q) hv.π_nonneg hv.A_nonneg (F.F.b_nonneg r.q) hv'.π_nonneg hv'.A_nonneg
    (F.F.b_nonneg _) ss (fun s _ => F.likelihood_pos r s) (fun i _ => expWeight_pos _ _)
    (fun i j _ => expWeight_pos _ _) fun s _ t i _ => F.b_pos _ _ _).2.2
  have e : (F.vstep c ss r).q = F.next r.q (obsStat r.weights.π r.weights.A (F.F.b r.q) ss) := rfl
  rw [e] at hb
  unfold lb lowerBound
  rw [e]
  simp only [VR.weights] at *
  linarith

end VFamily

/-! ## The loop of `fit` -/

section Loop
variable {α : Type} [FloatLike α] {step : VTheta α nc VP → Except PyErr (VTheta α nc VP × α)}

omit [NeZero nc] in
/-- When every step sets `transmat_` the loop is that of the other classes. -/
theorem vfitLoop_eq (h : ∀ s s' v, step s = .ok (s', v) → s'.transmat ≠ none) (n : ℕ)
    (s : VTheta α nc VP) (mon : Monitor α) : vfitLoop step n s mon = fitLoop step n s mon := by
  induction n generalizing s mon with
  | zero => rfl
  | succ n ih =>
    simp only [vfitLoop, fitLoop]
    cases hs : step s with
    | error e => rfl
    | ok v =>
      obtain ⟨s', v⟩ := v
      simp only
      split
      · rfl
      · cases ht : s'.transmat with
        | none => exact absurd ht (h _ _ _ hs)
        | some a => exact ih _ _

omit [NeZero nc] in
/-- The iterations done by the loop form a run. -/
theorem vfitLoop_runs (n : ℕ) (s : VTheta α nc VP) (mon : Monitor α) :
    ∃ h : List α, Runs step h s (vfitLoop step n s mon).state ∧ h.length ≤ n ∧
      (vfitLoop step n s mon).monitor.history = mon.history ++ h ∧
      (0 < n → (vfitLoop step n s mon).raised = none → 0 < h.length) := by
  induction n generalizing s mon with
  | zero => exact ⟨[], Runs.nil s, le_rfl, by simp [vfitLoop], by simp⟩
  | succ n ih =>
    cases hs : step s with
    | error e =>
      refine ⟨[], ?_, Nat.zero_le _, ?_, ?_⟩
      · simp only [vfitLoop, hs]; exact Runs.nil s
      · simp [vfitLoop, hs]
      · simp [vfitLoop, hs]
    | ok p =>
      obtain ⟨s', v⟩ := p
      have one : Runs step [v] s s' := Runs.snoc (h := []) (Runs.nil s) hs
      by_cases hc : (mon.report v).converged = true
      · refine ⟨[v], ?_, by simp, ?_, by simp⟩
        · simp only [vfitLoop, hs, hc, if_true]; exact one
        · simp only [vfitLoop, hs, hc, if_true]; rfl
      · cases ht : s'.transmat with
        | none =>
          have e : vfitLoop step (n + 1) s mon =
              ⟨s', mon.report v, some (.attributeError "transmat_")⟩ := by
            simp only [vfitLoop, hs, hc, ht]; simp
          rw [e]
          exact ⟨[v], one, by simp, rfl, by simp⟩
        | some a =>
          have e : vfitLoop step (n + 1) s mon = vfitLoop step n s' (mon.report v) := by
            simp only [vfitLoop, hs, hc, ht]; simp
          rw [e]
          obtain ⟨h, h1, h2, h3, h4⟩ := ih s' (mon.report v)
          exact ⟨v :: h, h1.head hs, by simp; omega, by rw [h3]; simp [Monitor.report], by simp⟩

end Loop
end Verif
