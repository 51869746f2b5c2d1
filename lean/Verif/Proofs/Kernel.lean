import Verif.Num.XFLemmas
import Verif.Model.Base
import Verif.Proofs.Paths

/-!
# The C++ kernels compute the real forward/backward lattices
-/

namespace Verif
open FloatLike XF Hmmc Spec

variable {nc n : ℕ}

/-- A real row as a row of finite floats. -/
noncomputable def finRow (r : Fin nc → ℝ) : Row XF nc := fun i => fin (r i)

/-- Entrywise logarithm of a real row. -/
noncomputable def lgRow (r : Fin nc → ℝ) : Row XF nc := fun i => lg (r i)

/-- A real matrix as a matrix of finite floats. -/
noncomputable def finMat (A : Fin nc → Fin nc → ℝ) : Mat XF nc := fun i j => fin (A i j)

/-- Entrywise logarithm of a real matrix. -/
noncomputable def lgMat (A : Fin nc → Fin nc → ℝ) : Mat XF nc := fun i j => lg (A i j)

/-- Non-negative rows. -/
def NonnegRows (bs : List (Fin nc → ℝ)) : Prop := ∀ b ∈ bs, ∀ i, 0 ≤ b i

theorem nonnegRows_ofFn {B : Fin n → Fin nc → ℝ} (hB : ∀ t i, 0 ≤ B t i) :
    NonnegRows (List.ofFn B) := by
  intro b hb
  obtain ⟨t, rfl⟩ := List.mem_ofFn.1 hb
  exact hB t

theorem NonnegRows.tail {b : Fin nc → ℝ} {bs : List (Fin nc → ℝ)} (h : NonnegRows (b :: bs)) :
    NonnegRows bs := fun x hx => h x (List.mem_cons_of_mem _ hx)

theorem NonnegRows.head {b : Fin nc → ℝ} {bs : List (Fin nc → ℝ)} (h : NonnegRows (b :: bs)) :
    ∀ i, 0 ≤ b i := h b List.mem_cons_self

theorem push_nonneg {A : Fin nc → Fin nc → ℝ} (hA : ∀ i j, 0 ≤ A i j) {r : Fin nc → ℝ}
    (hr : ∀ i, 0 ≤ r i) (j : Fin nc) : 0 ≤ push A r j :=
  Finset.sum_nonneg fun i _ => mul_nonneg (hr i) (hA i j)

theorem beta_nonneg {A : Fin nc → Fin nc → ℝ} (hA : ∀ i j, 0 ≤ A i j) {bs : List (Fin nc → ℝ)}
    (hb : NonnegRows bs) (i : Fin nc) : 0 ≤ beta A bs i := by
  induction bs generalizing i with
  | nil => simp [beta]
  | cons b bs ih =>
    exact Finset.sum_nonneg fun j _ => mul_nonneg (mul_nonneg (hA _ _) (hb.head j)) (ih hb.tail j)

theorem rfwd_nonneg {A : Fin nc → Fin nc → ℝ} (hA : ∀ i j, 0 ≤ A i j) {p : Fin nc → ℝ}
    (hp : ∀ i, 0 ≤ p i) {bs : List (Fin nc → ℝ)} (hb : NonnegRows bs) :
    NonnegRows (rfwd A p bs) := by
  induction bs generalizing p with
  | nil => intro x hx; simp [rfwd] at hx
  | cons b bs ih =>
    have h0 : ∀ i, 0 ≤ p i * b i := fun i => mul_nonneg (hp i) (hb.head i)
    intro x hx
    rcases List.mem_cons.1 hx with rfl | hx
    · exact h0
    · exact ih (push_nonneg hA h0) hb.tail x hx

theorem rbwd_nonneg {A : Fin nc → Fin nc → ℝ} (hA : ∀ i j, 0 ≤ A i j) {bs : List (Fin nc → ℝ)}
    (hb : NonnegRows bs) : NonnegRows (rbwd A bs) := by
  induction bs with
  | nil => intro x hx; simp [rbwd] at hx
  | cons b bs ih =>
    intro x hx
    rcases List.mem_cons.1 hx with rfl | hx
    · exact beta_nonneg hA hb.tail
    · exact ih hb.tail x hx

theorem logMat_finMat (A : Fin nc → Fin nc → ℝ) : logMat (finMat A) = lgMat A := rfl

theorem logRow_finRow (p : Fin nc → ℝ) : logRow (finRow p) = lgRow p := rfl

/-! ## Log implementation -/

section Log
variable [NeZero nc]

theorem fwdLogRow_lg {A : Fin nc → Fin nc → ℝ} (hA : ∀ i j, 0 ≤ A i j) {r b : Fin nc → ℝ}
    (hr : ∀ i, 0 ≤ r i) (hb : ∀ i, 0 ≤ b i) :
    fwdLogRow (lgMat A) (lgRow r) (lgRow b) = lgRow fun j => push A r j * b j := by
  funext j
  simp only [fwdLogRow, lgRow, lgMat]
  simp only [lg_mul (hr _) (hA _ _)]
  rw [logsumexp_lg _ (fun i => mul_nonneg (hr i) (hA i j)), lg_mul _ (hb j)]
  · rfl
  · exact push_nonneg hA hr j

theorem forwardLogLoop_lg {A : Fin nc → Fin nc → ℝ} (hA : ∀ i j, 0 ≤ A i j)
    (bs : List (Fin nc → ℝ)) (hb : NonnegRows bs) {r : Fin nc → ℝ} (hr : ∀ i, 0 ≤ r i) :
    forwardLogLoop (lgMat A) (lgRow r) (bs.map lgRow) = (rfwd A (push A r) bs).map lgRow := by
  induction bs generalizing r with
  | nil => rfl
  | cons b bs ih =>
    simp only [List.map_cons, forwardLogLoop, memo_eq, rfwd]
    rw [fwdLogRow_lg hA hr hb.head, ih hb.tail]
    exact fun i => mul_nonneg (push_nonneg hA hr i) (hb.head i)

theorem forwardLog_lg {p : Fin nc → ℝ} {A : Fin nc → Fin nc → ℝ} (hp : ∀ i, 0 ≤ p i)
    (hA : ∀ i j, 0 ≤ A i j) (bs : List (Fin nc → ℝ)) (hb : NonnegRows bs) (hne : bs ≠ []) :
    forwardLog (finRow p) (finMat A) (bs.map lgRow) =
      .ok (lg (∑ i, (rfwd A p bs).getLast (by
            intro h; apply hne; have := congrArg List.length h; simpa using this) i),
          (rfwd A p bs).map lgRow) := by
  cases bs with
  | nil => exact absurd rfl hne
  | cons b bs =>
    have h0 : ∀ i, 0 ≤ p i * b i := fun i => mul_nonneg (hp i) (hb.head i)
    have e0 : (fun i => logRow (finRow p) i + lgRow b i) = lgRow fun i => p i * b i := by
      funext i; exact lg_mul (hp i) (hb.head i)
    have eA : (fun i => logMat (finMat A) i) = lgMat A := rfl
    simp only [List.map_cons, forwardLog, memo_eq, e0, eA, forwardLogLoop_lg hA bs hb.tail h0]
    have hl : ((lgRow fun i => p i * b i) :: (rfwd A (push A fun i => p i * b i) bs).map lgRow) =
        (rfwd A p (b :: bs)).map lgRow := rfl
    simp only [hl]
    rw [List.getLast_map]
    congr 2
    exact logsumexp_lg _ fun i => rfwd_nonneg hA hp hb _ (List.getLast_mem _) i

/-- `forward_log` returns the log of the path-sum likelihood. -/
theorem forwardLog_ofFn {p : Fin nc → ℝ} {A : Fin nc → Fin nc → ℝ} {B : Fin (n + 1) → Fin nc → ℝ}
    (hp : ∀ i, 0 ≤ p i) (hA : ∀ i j, 0 ≤ A i j) (hB : ∀ t i, 0 ≤ B t i) :
    forwardLog (finRow p) (finMat A) (List.ofFn fun t => lgRow (B t)) =
      .ok (lg (likelihood p A B), (rfwd A p (List.ofFn B)).map lgRow) := by
  have hm : (List.ofFn fun t => lgRow (B t)) = (List.ofFn B).map lgRow := by
    rw [List.map_ofFn]; rfl
  have hne : List.ofFn B ≠ [] := by simp [List.ofFn_eq_nil_iff]
  rw [hm, forwardLog_lg hp hA _ (nonnegRows_ofFn hB) hne, rfwd_getLast_sum]

theorem backwardLogLoop_lg {A : Fin nc → Fin nc → ℝ} (hA : ∀ i j, 0 ≤ A i j)
    (bs : List (Fin nc → ℝ)) (hb : NonnegRows bs) :
    backwardLogLoop (lgMat A) (bs.map lgRow) = (rbwd A bs).map lgRow := by
  induction bs with
  | nil => rfl
  | cons b bs ih =>
    cases bs with
    | nil =>
      simp only [List.map_cons, List.map_nil, backwardLogLoop, rbwd, beta]
      congr 1; funext i; exact lg_one.symm
    | cons b' bs =>
      have ih := ih hb.tail
      simp only [List.map_cons, rbwd] at ih
      simp only [List.map_cons, backwardLogLoop, ih, rbwd, memo_eq]
      congr 1
      funext i
      have e : ∀ j, lgMat A i j + lgRow b' j + lgRow (beta A bs) j =
          lg (A i j * b' j * beta A bs j) := fun j => by
        simp only [lgMat, lgRow]
        rw [lg_mul (hA i j) (hb.tail.head j), lg_mul (mul_nonneg (hA i j) (hb.tail.head j))
          (beta_nonneg hA hb.tail.tail j)]
      simp only [e]
      rw [logsumexp_lg _ fun j => mul_nonneg (mul_nonneg (hA i j) (hb.tail.head j))
        (beta_nonneg hA hb.tail.tail j)]
      rfl

theorem backwardLog_ofFn {A : Fin nc → Fin nc → ℝ} {B : Fin (n + 1) → Fin nc → ℝ}
    (hA : ∀ i j, 0 ≤ A i j) (hB : ∀ t i, 0 ≤ B t i) :
    backwardLog (finMat A) (List.ofFn fun t => lgRow (B t)) =
      .ok ((rbwd A (List.ofFn B)).map lgRow) := by
  have hm : (List.ofFn fun t => lgRow (B t)) = (List.ofFn B).map lgRow := by
    rw [List.map_ofFn]; rfl
  have hne : ((List.ofFn B).map lgRow).isEmpty = false := by
    simp [List.isEmpty_eq_false_iff, List.ofFn_eq_nil_iff]
  have eA : (fun i => logMat (finMat A) i) = lgMat A := rfl
  simp only [backwardLog, hm, hne, memo_eq, eA, backwardLogLoop_lg hA _ (nonnegRows_ofFn hB)]
  rfl

end Log

/-! ## numpy maximum and scipy logsumexp -/

section NpMax
variable {α : Type} [FloatLike α]

theorem npMaxFold_spec {m : ℕ} {K : Type} [LinearOrder K] (v : Fin m → α) (key : Fin m → K)
    (hn : ∀ i, isNaN (v i) = false)
    (hk : ∀ i j, FloatLike.lt (v i) (v j) = decide (key i < key j)) (l : List (Fin m)) (b : Fin m) :
    ∃ r, l.foldl (fun m i => npMaximum m (v i)) (v b) = v r ∧
      key b ≤ key r ∧ ∀ i ∈ l, key i ≤ key r := by
  induction l generalizing b with
  | nil => exact ⟨b, rfl, le_rfl, by simp⟩
  | cons x l ih =>
    simp only [List.foldl_cons, npMaximum, hn, hk, Bool.false_eq_true, if_false]
    by_cases h : key b < key x
    · obtain ⟨r, h1, h2, h3⟩ := ih x
      refine ⟨r, ?_, h.le.trans h2, ?_⟩
      · simpa [h, npMaximum, hn] using h1
      · intro i hi
        rcases List.mem_cons.1 hi with rfl | hi
        · exact h2
        · exact h3 i hi
    · obtain ⟨r, h1, h2, h3⟩ := ih b
      refine ⟨r, ?_, h2, ?_⟩
      · simpa [h, npMaximum, hn] using h1
      · intro i hi
        rcases List.mem_cons.1 hi with rfl | hi
        · exact (not_lt.1 h).trans h2
        · exact h3 i hi

theorem npMax_spec {m : ℕ} [NeZero m] {K : Type} [LinearOrder K] (v : Fin m → α) (key : Fin m → K)
    (hn : ∀ i, isNaN (v i) = false)
    (hk : ∀ i j, FloatLike.lt (v i) (v j) = decide (key i < key j)) :
    ∃ r, npMax v = v r ∧ ∀ i, key i ≤ key r := by
  obtain ⟨r, h1, _, h3⟩ := npMaxFold_spec v key hn hk (List.finRange m) 0
  exact ⟨r, h1, fun i => h3 i (List.mem_finRange i)⟩

theorem npArgmaxFold_eq {m : ℕ} (v : Fin m → α) (hn : ∀ i, isNaN (v i) = false)
    (l : List (Fin m)) (b : Fin m) :
    l.foldl (fun best i => if !(isNaN (v best)) && (isNaN (v i) || FloatLike.lt (v best) (v i))
        then i else best) b =
      l.foldl (fun best i => if FloatLike.lt (v best) (v i) then i else best) b := by
  simp [hn]

/-- Without NaN, `np.argmax` is the first maximal index (as `std::max_element`). -/
theorem npArgmax_eq_maxElement {m : ℕ} [NeZero m] (v : Fin m → α)
    (hn : ∀ i, isNaN (v i) = false) : npArgmax v = maxElement v :=
  npArgmaxFold_eq v hn _ _

end NpMax

theorem lg_isNaN {x : ℝ} (hx : 0 ≤ x) : isNaN (lg x) = false := by
  rcases hx.eq_or_lt with rfl | hx
  · simp
  · simp [lg_pos hx]

/-- scipy's `logsumexp` in the log domain is the sum. -/
theorem scipyLogsumexp_lg {m : ℕ} [NeZero m] (x : Fin m → ℝ) (hx : ∀ i, 0 ≤ x i) :
    scipyLogsumexp (fun i => lg (x i)) = lg (∑ i, x i) := by
  obtain ⟨k, hk, hmax⟩ := npMax_spec (fun i => lg (x i)) x (fun i => lg_isNaN (hx i))
    (fun i j => lg_lt (hx i) (hx j))
  unfold scipyLogsumexp
  simp only [hk]
  rcases (hx k).eq_or_lt with h0 | hpos
  · have hz : ∀ i, x i = 0 := fun i => le_antisymm ((hmax i).trans h0.symm.le) (hx i)
    simp [hz, isFinite, lg_def]
  · have hS : 0 < ∑ i, x i := lt_of_lt_of_le hpos
      (Finset.single_le_sum (fun i _ => hx i) (Finset.mem_univ k))
    have e : ∀ i, FloatLike.exp (lg (x i) - lg (x k)) = fin (x i / x k) := fun i => by
      rw [lg_div (hx i) hpos, lg_exp (div_nonneg (hx i) hpos.le)]
    have hf : isFinite (lg (x k)) = true := by simp [lg_pos hpos, isFinite]
    simp only [hf, if_true, e, sumF_fin]
    rw [← Finset.sum_div, lg_def, lg_mul (div_nonneg hS.le hpos.le) hpos.le,
      div_mul_cancel₀ _ hpos.ne']

/-- A `log_normalize`d and exponentiated row of logs is the normalised row. -/
theorem exp_logNormalizeRow_lg {m : ℕ} [NeZero m] (x : Fin m → ℝ) (hx : ∀ i, 0 ≤ x i)
    (hS : 0 < ∑ i, x i) (i : Fin m) :
    FloatLike.exp (logNormalizeRow (fun i => lg (x i)) i) = fin (x i / ∑ k, x k) := by
  unfold logNormalizeRow
  by_cases h1 : m = 1
  · subst h1
    have : i = 0 := Subsingleton.elim _ _
    subst this
    simp only [Fin.sum_univ_one, Fin.isValue] at hS ⊢
    simp [div_self hS.ne']
  · simp only [h1, if_false]
    rw [scipyLogsumexp_lg x hx, lg_div (hx i) hS, lg_exp (div_nonneg (hx i) hS.le)]

/-- With all entries `-inf` and at least two of them the result is NaN. -/
theorem exp_logNormalizeRow_ninf {m : ℕ} [NeZero m] (hm : m ≠ 1) (x : Fin m → ℝ)
    (hx : ∀ i, x i = 0) (i : Fin m) :
    FloatLike.exp (logNormalizeRow (fun i => lg (x i)) i) = nan := by
  unfold logNormalizeRow
  simp only [hm, if_false]
  rw [scipyLogsumexp_lg x (fun i => (hx i).ge)]
  simp [hx]

theorem normalizeRow_fin {m : ℕ} (x : Fin m → ℝ) (hS : ∑ i, x i ≠ 0) (i : Fin m) :
    normalizeRow (fun i => fin (x i)) i = fin (x i / ∑ k, x k) := by
  simp only [normalizeRow, sumF_fin, zero_def, fin_eq, decide_eq_true_eq, hS, if_false]
  exact fin_div _ _ hS

theorem normalizeRow_fin_zero {m : ℕ} (x : Fin m → ℝ) (hS : ∑ i, x i = 0) (i : Fin m) :
    normalizeRow (fun i => fin (x i)) i = fin (x i) := by
  simp only [normalizeRow, sumF_fin, zero_def, fin_eq, decide_eq_true_eq, hS, if_true, one_def]
  rw [fin_div _ _ one_ne_zero, div_one]

/-! ## Posteriors, log implementation -/

theorem zipWith_map_map {β γ δ ε ζ : Type} (f : γ → δ → ζ) (g : β → γ) (h : ε → δ) (l : List β)
    (l' : List ε) :
    List.zipWith f (l.map g) (l'.map h) = List.zipWith (fun a b => f (g a) (h b)) l l' := by
  induction l generalizing l' with
  | nil => rfl
  | cons a l ih => cases l' with
    | nil => rfl
    | cons b l' => simp [ih]

theorem zipWith_congr_mem {β γ δ : Type} {f g : β → γ → δ} (l : List β) (l' : List γ)
    (h : ∀ a ∈ l, ∀ b ∈ l', f a b = g a b) : List.zipWith f l l' = List.zipWith g l l' := by
  induction l generalizing l' with
  | nil => rfl
  | cons a l ih => cases l' with
    | nil => rfl
    | cons b l' =>
      simp only [List.zipWith_cons_cons]
      rw [h a List.mem_cons_self b List.mem_cons_self,
        ih l' fun a ha b hb => h a (List.mem_cons_of_mem _ ha) b (List.mem_cons_of_mem _ hb)]

theorem map_zipWith' {β γ δ ε : Type} (g : δ → ε) (f : β → γ → δ) (l : List β) (l' : List γ) :
    (List.zipWith f l l').map g = List.zipWith (fun a b => g (f a b)) l l' := by
  induction l generalizing l' with
  | nil => rfl
  | cons a l ih => cases l' with
    | nil => rfl
    | cons b l' => simp [ih]

section Post
variable [NeZero nc]

/-- The log-implementation posteriors row by row: log-normalised `stateMass`. -/
theorem computePosteriorsLog_eq {p : Fin nc → ℝ} {A : Fin nc → Fin nc → ℝ}
    {B : Fin (n + 1) → Fin nc → ℝ}
    (hp : ∀ i, 0 ≤ p i) (hA : ∀ i j, 0 ≤ A i j) (hB : ∀ t i, 0 ≤ B t i) :
    computePosteriorsLog ((rfwd A p (List.ofFn B)).map lgRow) ((rbwd A (List.ofFn B)).map lgRow) =
      List.ofFn fun t i =>
        FloatLike.exp (logNormalizeRow (fun i => lg (stateMass p A B t i)) i) := by
  unfold computePosteriorsLog
  simp only [memo_eq]
  rw [zipWith_map_map]
  have hb := nonnegRows_ofFn hB
  rw [zipWith_congr_mem (g := fun f w i => FloatLike.exp (logNormalizeRow
    (fun i => lg (f i * w i)) i))]
  · rw [← map_zipWith' (fun (r : Fin nc → ℝ) i => FloatLike.exp (logNormalizeRow (fun i => lg (r i)) i))
      (fun (f w : Fin nc → ℝ) i => f i * w i), zip_fwd_bwd, List.map_ofFn]
    rfl
  · intro f hf w hw
    have hf' := rfwd_nonneg hA hp hb f hf
    have hw' := rbwd_nonneg hA hb w hw
    have : (fun i => lgRow f i + lgRow w i) = fun i => lg (f i * w i) := by
      funext i; exact lg_mul (hf' i) (hw' i)
    simp only [this]

theorem computePosteriorsLog_posterior {p : Fin nc → ℝ} {A : Fin nc → Fin nc → ℝ}
    {B : Fin (n + 1) → Fin nc → ℝ}
    (hp : ∀ i, 0 ≤ p i) (hA : ∀ i j, 0 ≤ A i j) (hB : ∀ t i, 0 ≤ B t i)
    (hL : 0 < likelihood p A B) :
    computePosteriorsLog ((rfwd A p (List.ofFn B)).map lgRow) ((rbwd A (List.ofFn B)).map lgRow) =
      List.ofFn fun t i => fin (posterior p A B t i) := by
  rw [computePosteriorsLog_eq hp hA hB]
  congr 1; funext t i
  rw [exp_logNormalizeRow_lg _ (fun i => stateMass_nonneg hp hA hB t i)
    (by rw [← likelihood_eq_sum_stateMass]; exact hL), ← likelihood_eq_sum_stateMass]
  rfl

end Post

/-! ## Expected transitions, log implementation -/

theorem foldl_logaddexp_lg {ι : Type} (f : ι → ℝ) (l : List ι) (hf : ∀ x ∈ l, 0 ≤ f x) (a : ℝ)
    (ha : 0 ≤ a) :
    l.foldl (fun acc x => logaddexp acc (lg (f x))) (lg a) = lg (a + (l.map f).sum) := by
  induction l generalizing a with
  | nil => simp
  | cons x l ih =>
    simp only [List.foldl_cons, List.map_cons, List.sum_cons]
    rw [logaddexp_lg ha (hf x List.mem_cons_self),
      ih (fun y hy => hf y (List.mem_cons_of_mem _ hy)) _
        (add_nonneg ha (hf x List.mem_cons_self)), add_assoc]

theorem foldl_congr_mem {β γ : Type} {f g : β → γ → β} (l : List γ)
    (h : ∀ b, ∀ x ∈ l, f b x = g b x) (b : β) : l.foldl f b = l.foldl g b := by
  induction l generalizing b with
  | nil => rfl
  | cons x l ih =>
    simp only [List.foldl_cons]
    rw [h b x List.mem_cons_self, ih fun b y hy => h b y (List.mem_cons_of_mem _ hy)]

section Xi
variable [NeZero nc]

theorem mem_zip3 {β γ δ : Type} {x : β × γ × δ} {l : List β} {l' : List γ} {l'' : List δ}
    (h : x ∈ l.zip (l'.zip l'')) : x.1 ∈ l ∧ x.2.1 ∈ l' ∧ x.2.2 ∈ l'' := by
  have h1 := List.of_mem_zip (a := x.1) (b := x.2) h
  have h2 := List.of_mem_zip (a := x.2.1) (b := x.2.2) h1.2
  exact ⟨h1.1, h2.1, h2.2⟩

theorem zip3_map {β γ δ β' γ' δ' : Type} (f : β → β') (g : γ → γ') (h : δ → δ') (l : List β)
    (l' : List γ) (l'' : List δ) :
    (l.map f).zip ((l'.map g).zip (l''.map h)) =
      (l.zip (l'.zip l'')).map fun x => (f x.1, g x.2.1, h x.2.2) := by
  rw [List.zip_map, List.zip_map]; rfl

theorem computeLogXiSum_ofFn {p : Fin nc → ℝ} {A : Fin nc → Fin nc → ℝ}
    {B : Fin (n + 1) → Fin nc → ℝ}
    (hp : ∀ i, 0 ≤ p i) (hA : ∀ i j, 0 ≤ A i j) (hB : ∀ t i, 0 ≤ B t i)
    (hL : 0 < likelihood p A B) :
    computeLogXiSum ((rfwd A p (List.ofFn B)).map lgRow) (finMat A)
        ((rbwd A (List.ofFn B)).map lgRow) (List.ofFn fun t => lgRow (B t)) =
      .ok fun i j => lg (expectedTransitions p A B i j) := by
  have hm : (List.ofFn fun t => lgRow (B t)) = (List.ofFn B).map lgRow := by
    rw [List.map_ofFn]; rfl
  have hb := nonnegRows_ofFn hB
  have hne : rfwd A p (List.ofFn B) ≠ [] := by
    intro h; have := congrArg List.length h; simp at this
  have hne' : (rfwd A p (List.ofFn B)).map lgRow ≠ [] := by simpa using hne
  unfold computeLogXiSum
  rw [if_neg (by simp), dif_neg hne']
  simp only [memo_eq, hm]
  congr 1; funext i j
  have elast : logsumexp (((rfwd A p (List.ofFn B)).map lgRow).getLast hne') =
      lg (likelihood p A B) := by
    rw [List.getLast_map]
    rw [show lgRow ((rfwd A p (List.ofFn B)).getLast hne) =
      fun i => lg ((rfwd A p (List.ofFn B)).getLast hne i) from rfl]
    rw [logsumexp_lg _ (fun i => rfwd_nonneg hA hp hb _ (List.getLast_mem _) i), rfwd_getLast_sum]
  rw [elast, ← List.map_tail, ← List.map_tail, zip3_map, List.foldl_map]
  rw [foldl_congr_mem (g := fun acc x => logaddexp acc
      (lg ((x.1 i * A i j * x.2.1 j * x.2.2 j) / likelihood p A B)))]
  · rw [show (negInf : XF) = lg 0 from lg_zero.symm, foldl_logaddexp_lg _ _ ?_ _ le_rfl]
    · rw [zero_add, expectedTransitions]
      have := zip_pairs p A B i j
      rw [← List.sum_ofFn, show (List.ofFn fun t => pairPosterior p A B t i j) =
        (List.ofFn fun t => pairMass p A B t i j).map (· / likelihood p A B) by
          rw [List.map_ofFn]; rfl, ← this, List.map_map]
      rfl
    · intro x hx
      obtain ⟨h1, h2, h3⟩ := mem_zip3 hx
      have h1 := rfwd_nonneg hA hp hb _ h1 i
      have h2 := hb _ (List.mem_of_mem_tail h2) j
      have h3 := rbwd_nonneg hA hb _ (List.mem_of_mem_tail h3) j
      have := hA i j
      positivity
  · intro acc x hx
    obtain ⟨h1, h2, h3⟩ := mem_zip3 hx
    have h1 := rfwd_nonneg hA hp hb _ h1 i
    have h2 := hb _ (List.mem_of_mem_tail h2) j
    have h3 := rbwd_nonneg hA hb _ (List.mem_of_mem_tail h3) j
    have h4 := hA i j
    show logaddexp acc (lg (x.1 i) + lg (A i j) + lg (x.2.1 j) + lg (x.2.2 j) -
      lg (likelihood p A B)) = _
    rw [lg_mul h1 h4, lg_mul (by positivity) h2, lg_mul (by positivity) h3,
      lg_div (by positivity) hL]

end Xi

end Verif
