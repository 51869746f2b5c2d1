import Verif.Proofs.RoundoffSeq
import Verif.Spec.Represents

/-!
# Runs that never leave the range, and the surprise of probabilities
-/

set_option autoImplicit false

namespace Verif
open FloatLike Hmmc Spec

variable {τ : Trapped} {nc n : ℕ}

/-- No result is ever out of range. -/
def Trapped.Total (τ : Trapped) : Prop := ∀ r, τ.rnd r ≠ none

theorem Trapped.Total.hasMinSum (h : τ.Total) : τ.HasMinSum :=
  Option.ne_none_iff_exists'.1 (h eps)

/-- A finite number. -/
def TX.IsFin (x : TX τ) : Prop := ∃ r, x = TX.fin τ r

theorem TX.IsFin.ne_nan {x : TX τ} (h : x.IsFin) : x ≠ TX.nan τ := by
  obtain ⟨r, rfl⟩ := h; exact TX.fin_ne_nan r

theorem TX.IsFin.round (hτ : τ.Total) (r : ℝ) :
    TX.IsFin ((τ.rnd r).elim (TX.nan τ) (TX.fin τ)) := by
  obtain ⟨x, hx⟩ := Option.ne_none_iff_exists'.1 (hτ r)
  rw [hx]; exact ⟨x, rfl⟩

theorem TX.IsFin.add (hτ : τ.Total) {x y : TX τ} (hx : x.IsFin) (hy : y.IsFin) : (x + y).IsFin := by
  obtain ⟨a, rfl⟩ := hx; obtain ⟨b, rfl⟩ := hy
  rw [TX.add_fin]; exact TX.IsFin.round hτ _

theorem TX.IsFin.sub (hτ : τ.Total) {x y : TX τ} (hx : x.IsFin) (hy : y.IsFin) : (x - y).IsFin := by
  obtain ⟨a, rfl⟩ := hx; obtain ⟨b, rfl⟩ := hy
  rw [TX.sub_fin]; exact TX.IsFin.round hτ _

theorem TX.IsFin.mul (hτ : τ.Total) {x y : TX τ} (hx : x.IsFin) (hy : y.IsFin) : (x * y).IsFin := by
  obtain ⟨a, rfl⟩ := hx; obtain ⟨b, rfl⟩ := hy
  rw [TX.mul_fin]; exact TX.IsFin.round hτ _

theorem TX.IsFin.foldl (hτ : τ.Total) {ι : Type} (l : List ι) {f : ι → TX τ} (h : ∀ i, (f i).IsFin)
    {a : TX τ} (ha : a.IsFin) : (l.foldl (fun acc i => acc + f i) a).IsFin := by
  induction l generalizing a with
  | nil => exact ha
  | cons i l ih => exact ih (ha.add hτ (h i))

theorem TX.IsFin.sumF (hτ : τ.Total) {k : ℕ} {f : Fin k → TX τ} (h : ∀ i, (f i).IsFin) :
    (Verif.sumF f).IsFin := TX.IsFin.foldl hτ _ h ⟨0, rfl⟩

theorem scaleRow_isFin (hτ : τ.Total) {row f : Row (TX τ) nc} {c : TX τ} (h : ∀ i, (row i).IsFin)
    (ho : scaleRow row = .ok (c, f)) :
    (FloatLike.log c).IsFin ∧ (∀ i, (f i).IsFin) ∧ c.IsFin := by
  obtain ⟨m, hm, m0, hme⟩ := minSum_TX hτ.hasMinSum
  unfold scaleRow at ho
  simp only [memo_eq, hm] at ho
  obtain ⟨s, hs⟩ := TX.IsFin.sumF hτ h
  rw [hs, TX.lt_fin] at ho
  split at ho
  · cases ho
  next hlt =>
  have hs0 : 0 < s := m0.trans_le (by simpa using hlt)
  rw [TX.one_eq, TX.div_fin _ hs0.ne'] at ho
  obtain ⟨r, hr⟩ := Option.ne_none_iff_exists'.1 (hτ (1 / s))
  rw [hr] at ho
  cases ho
  have hr0 : 0 < r := (Within.rnd hr (by positivity)).left_pos (by positivity)
  refine ⟨?_, fun i => (h i).mul hτ ⟨r, rfl⟩, r, rfl⟩
  show (FloatLike.log (TX.fin τ r)).IsFin
  rw [TX.log_fin hr0]
  exact TX.IsFin.round hτ _

theorem forwardScalingLoop_isFin (hτ : τ.Total) {A : Mat (TX τ) nc} (hA : ∀ i j, (A i j).IsFin)
    (bs : List (Row (TX τ) nc)) (hb : ∀ b ∈ bs, ∀ i, (b i).IsFin) {p : Row (TX τ) nc}
    (hp : ∀ i, (p i).IsFin) {lp : TX τ} (hl : lp.IsFin) {lp' : TX τ} {rows : List (Row (TX τ) nc)}
    {cs : List (TX τ)} (ho : forwardScalingLoop A p lp bs = .ok (lp', rows, cs)) :
    lp'.IsFin ∧ (∀ row ∈ rows, ∀ i, (row i).IsFin) ∧ ∀ c ∈ cs, c.IsFin := by
  induction bs generalizing p lp rows cs with
  | nil => cases ho; exact ⟨hl, by simp, by simp⟩
  | cons b bs ih =>
    simp only [forwardScalingLoop, memo_eq] at ho
    split at ho
    · cases ho
    next c f hsc =>
    split at ho
    · cases ho
    next lp2 rows2 scs2 hrest =>
    cases ho
    have hb0 := hb b List.mem_cons_self
    obtain ⟨h1, h2, h3⟩ := scaleRow_isFin hτ (fun j =>
      (TX.IsFin.sumF hτ fun i => (hp i).mul hτ (hA i j)).mul hτ (hb0 j)) hsc
    obtain ⟨i1, i2, i3⟩ := ih (fun b h => hb b (List.mem_cons_of_mem _ h)) h2 (hl.sub hτ h1) hrest
    exact ⟨i1, by simpa using ⟨h2, i2⟩, by simpa using ⟨h3, i3⟩⟩

theorem forwardScaling_isFin (hτ : τ.Total) {π : Row (TX τ) nc} (hπ : ∀ i, (π i).IsFin)
    {A : Mat (TX τ) nc} (hA : ∀ i j, (A i j).IsFin) {bs : List (Row (TX τ) nc)}
    (hb : ∀ b ∈ bs, ∀ i, (b i).IsFin) {lp : TX τ} {rows : List (Row (TX τ) nc)}
    {cs : List (TX τ)} (ho : forwardScaling π A bs = .ok (lp, rows, cs)) :
    lp.IsFin ∧ (∀ row ∈ rows, ∀ i, (row i).IsFin) ∧ ∀ c ∈ cs, c.IsFin := by
  cases bs with
  | nil => cases ho
  | cons b bs =>
    simp only [forwardScaling, memo_eq] at ho
    split at ho
    · cases ho
    next c f hsc =>
    split at ho
    · cases ho
    next lp2 rows2 scs2 hrest =>
    cases ho
    have hb0 := hb b List.mem_cons_self
    obtain ⟨h1, h2, h3⟩ := scaleRow_isFin hτ (fun j => (hπ j).mul hτ (hb0 j)) hsc
    obtain ⟨i1, i2, i3⟩ := forwardScalingLoop_isFin hτ hA bs
      (fun b h => hb b (List.mem_cons_of_mem _ h)) h2 (TX.IsFin.sub hτ ⟨0, rfl⟩ h1) hrest
    exact ⟨i1, by simpa using ⟨h2, i2⟩, by simpa using ⟨h3, i3⟩⟩

/-! ## The surprise of probabilities -/

theorem preds_le_one {A : Fin nc → Fin nc → ℝ} (hA : ∀ i j, 0 ≤ A i j) (hs : ∀ i, ∑ j, A i j = 1)
    (bs : List (Fin nc → ℝ)) (hb : ∀ b ∈ bs, ∀ i, 0 ≤ b i ∧ b i ≤ 1) {p : Fin nc → ℝ}
    (hp : ∀ i, 0 ≤ p i) {C : ℝ} (hC : rowSum p ≤ C) :
    ∀ x ∈ preds C ((rfwd A p bs).map rowSum), x ≤ 1 := by
  induction bs generalizing p C with
  | nil => simp [rfwd, preds]
  | cons b bs ih =>
    have hb0 := hb b List.mem_cons_self
    have h0 : ∀ i, 0 ≤ p i * b i := fun i => mul_nonneg (hp i) (hb0 i).1
    have h1 : rowSum (fun i => p i * b i) ≤ rowSum p :=
      Finset.sum_le_sum fun i _ => mul_le_of_le_one_right (hp i) (hb0 i).2
    have h2 : 0 ≤ C := (Finset.sum_nonneg fun i _ => hp i).trans hC
    simp only [rfwd, List.map_cons, preds, List.mem_cons, forall_eq_or_imp]
    refine ⟨div_le_one_of_le₀ (h1.trans hC) h2, ih (fun b h => hb b (List.mem_cons_of_mem _ h))
      (fun j => Finset.sum_nonneg fun i _ => mul_nonneg (h0 i) (hA i j)) (le_of_eq ?_)⟩
    show ∑ j, ∑ i, p i * b i * A i j = ∑ i, p i * b i
    rw [Finset.sum_comm]
    exact Finset.sum_congr rfl fun i _ => by rw [← Finset.mul_sum, hs, mul_one]

theorem sum_log_preds (Ls : List ℝ) {C : ℝ} (hC : 0 < C) (h : ∀ x ∈ preds C Ls, 0 < x) :
    ((preds C Ls).map Real.log).sum = Real.log (Ls.getLastD C) - Real.log C := by
  induction Ls generalizing C with
  | nil => simp [preds]
  | cons L Ls ih =>
    simp only [preds, List.mem_cons, forall_eq_or_imp] at h
    have hL : 0 < L := (div_pos_iff_of_pos_right hC).1 h.1
    simp only [preds, List.map_cons, List.sum_cons, List.getLastD_cons]
    rw [ih hL h.2, Real.log_div hL.ne' hC.ne']
    ring

/-- For probabilities the surprise is minus the log-likelihood. -/
theorem surprise_eq {π : Fin nc → ℝ} {A : Fin nc → Fin nc → ℝ} {B : Fin (n + 1) → Fin nc → ℝ}
    (hs : Stochastic π A) (hπ : ∀ i, 0 ≤ π i) (hA : ∀ i j, 0 ≤ A i j)
    (hB : ∀ t i, 0 ≤ B t i ∧ B t i ≤ 1) (hp : ∀ t, 0 < predictive π A B t) :
    surprise π A B = -Real.log (likelihood π A B) := by
  have h1 := preds_le_one hA hs.A_sum (List.ofFn B) (fun b hb => by
    obtain ⟨t, rfl⟩ := List.mem_ofFn.1 hb; exact hB t) hπ hs.π_sum.le
  have h2 := sum_log_preds ((rfwd A π (List.ofFn B)).map rowSum) one_pos
  rw [preds_predictive] at h1 h2
  have h2 := h2 (fun x hx => by
    obtain ⟨t, rfl⟩ := List.mem_ofFn.1 hx; exact hp t)
  rw [getLastD_map_rowSum, Real.log_one, sub_zero, List.map_ofFn, List.sum_ofFn] at h2
  rw [← h2, ← Finset.sum_neg_distrib]
  refine Finset.sum_congr rfl fun t _ => ?_
  exact abs_of_nonpos (Real.log_nonpos (hp t).le (h1 _ (List.mem_ofFn.2 ⟨t, rfl⟩)))

end Verif
