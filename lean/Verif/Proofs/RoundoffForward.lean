import Verif.Proofs.RoundoffLse

/-!
# Errors of the forward and backward recursions in the log domain
-/

set_option autoImplicit false

namespace Verif
open FloatLike Hmmc Spec

variable {ρ : Rounding} {u η Ω V ℓ eb : ℝ} {nc N : ℕ} [NeZero nc]

/-- Row by row, from index `k` on: logarithms up to `e t` of real rows with logarithms up to `w t`. -/
def RowsNear (e w : ℕ → ℝ) : ℕ → List (Row (RX ρ) nc) → List (Fin nc → ℝ) → Prop
  | _, [], [] => True
  | k, row :: rows, r :: rs => (∀ i, LogWithin (e k) (row i) (r i) ∧ LogBound (w k) (r i)) ∧ RowsNear e w (k + 1) rows rs
  | _, _, _ => False

omit [NeZero nc] in
theorem RowsNear.getLast {e w : ℕ → ℝ} {rows : List (Row (RX ρ) nc)} {rs : List (Fin nc → ℝ)} {k : ℕ}
    (h : RowsNear e w k rows rs) (h1 : rows ≠ []) (h2 : rs ≠ []) (i : Fin nc) :
    LogWithin (e (rs.length - 1 + k)) (rows.getLast h1 i) (rs.getLast h2 i) ∧
      LogBound (w (rs.length - 1 + k)) (rs.getLast h2 i) := by
  induction rows generalizing rs k with
  | nil => exact absurd rfl h1
  | cons row rows ih =>
    cases rs with
    | nil => exact absurd rfl h2
    | cons r rs =>
      obtain ⟨h3, h4⟩ := h
      cases rows with
      | nil => cases rs with
        | nil => simpa using h3 i
        | cons _ _ => exact absurd h4 (by simp [RowsNear])
      | cons row' rows => cases rs with
        | nil => exact absurd h4 (by simp [RowsNear])
        | cons r' rs =>
          have := ih h4 (List.cons_ne_nil _ _) (List.cons_ne_nil _ _)
          rw [List.getLast_cons (List.cons_ne_nil _ _), List.getLast_cons (List.cons_ne_nil _ _)]
          have e1 : (r :: r' :: rs).length - 1 + k = (r' :: rs).length - 1 + (k + 1) := by
            simp only [List.length_cons]; omega
          rw [e1]; exact this

omit [NeZero nc] in
theorem RowsNear.zip {e w e' w' : ℕ → ℝ} {rows rows' : List (Row (RX ρ) nc)} {rs rs' : List (Fin nc → ℝ)} {k : ℕ}
    (h : RowsNear e w k rows rs) (h' : RowsNear e' w' k rows' rs') {γ : Type}
    {P : ℕ → γ → (Fin nc → ℝ) → Prop} {f : Row (RX ρ) nc → Row (RX ρ) nc → γ}
    (hP : ∀ t (a b : Row (RX ρ) nc) (r s : Fin nc → ℝ), t < k + rs.length →
      (∀ i, LogWithin (e t) (a i) (r i) ∧ LogBound (w t) (r i)) →
      (∀ i, LogWithin (e' t) (b i) (s i) ∧ LogBound (w' t) (s i)) →
      (fun i => r i * s i) ∈ List.zipWith (fun r s i => r i * s i) rs rs' → P t (f a b) fun i => r i * s i) :
    List.Forall₂ (fun x r => ∃ t, P t x r) (List.zipWith f rows rows') (List.zipWith (fun r s i => r i * s i) rs rs') := by
  induction rows generalizing rs rs' rows' k with
  | nil => cases rs with
    | nil => simp
    | cons _ _ => exact absurd h (by simp [RowsNear])
  | cons row rows ih =>
    cases rs with
    | nil => exact absurd h (by simp [RowsNear])
    | cons r rs =>
      cases rows' with
      | nil => cases rs' with
        | nil => simp
        | cons _ _ => exact absurd h' (by simp [RowsNear])
      | cons row' rows' => cases rs' with
        | nil => exact absurd h' (by simp [RowsNear])
        | cons r' rs' =>
          simp only [List.zipWith_cons_cons]
          refine List.Forall₂.cons ⟨k, hP k _ _ _ _ (by simp) h.1 h'.1 (by simp)⟩ ?_
          refine ih h.2 h'.2 fun t a b r s ht h1 h2 hm => hP t a b r s ?_ h1 h2 ?_
          · simp only [List.length_cons]; omega
          · exact List.mem_cons_of_mem _ hm

section Budget
variable (h : LogBudget ρ u η Ω V nc N ℓ eb)
include h

theorem Spec.LogBudget.span_nonneg : 0 ≤ stepSpan ℓ nc := by
  have hnc : (1 : ℝ) ≤ nc := by exact_mod_cast NeZero.one_le
  have := Real.log_nonneg hnc
  have := h.ℓ_nonneg
  unfold stepSpan; linarith

theorem Spec.LogBudget.two_ℓ_le : 2 * ℓ ≤ stepSpan ℓ nc := by
  have hnc : (1 : ℝ) ≤ nc := by exact_mod_cast NeZero.one_le
  have := Real.log_nonneg hnc
  unfold stepSpan; linarith

theorem Spec.LogBudget.lse_nonneg : 0 ≤ lseError u η V nc := by
  have := h.range.unit_nonneg
  have := h.range.sumExp_nonneg
  unfold lseError; linarith

theorem Spec.LogBudget.step_nonneg : 0 ≤ stepError u η V nc eb := by
  have := h.range.unit_nonneg
  have := h.lse_nonneg
  have := h.eb_nonneg
  unfold stepError; linarith

theorem Spec.LogBudget.depth_le {k : ℝ} (hk : k ≤ N + 1) : k * stepSpan ℓ nc ≤ V :=
  (mul_le_mul_of_nonneg_right hk h.span_nonneg).trans h.depth

theorem Spec.LogBudget.total_le {k : ℝ} (hk : k ≤ 2 * N + 3) : k * stepError u η V nc eb ≤ 1 :=
  (mul_le_mul_of_nonneg_right hk h.step_nonneg).trans h.total

theorem Spec.LogBudget.ℓ_le : ℓ ≤ V := by
  have h1 := h.depth_le (k := 1) (by linarith [(Nat.cast_nonneg N : (0 : ℝ) ≤ N)])
  have h2 := h.two_ℓ_le
  have := h.ℓ_nonneg
  linarith

/-- One step of the forward recursion. -/
theorem Spec.LogBudget.fwdStep {A : Fin nc → Fin nc → ℝ} (hA : ∀ i j, LogBound ℓ (A i j)) {k : ℕ} (hk : k + 1 ≤ N)
    {row lb : Row (RX ρ) nc} {r b : Fin nc → ℝ}
    (hr : ∀ i, LogWithin ((k + 1) * stepError u η V nc eb) (row i) (r i))
    (hrb : ∀ i, LogBound ((k + 1) * stepSpan ℓ nc) (r i))
    (hlb : ∀ i, LogWithin eb (lb i) (b i)) (hb : ∀ i, LogBound ℓ (b i)) (j : Fin nc) :
    LogWithin ((k + 2) * stepError u η V nc eb)
        (fwdLogRow (α := RX ρ) (fun i j => FloatLike.log (α := RX ρ) (XF.fin (A i j))) row lb j) (push A r j * b j) ∧
      LogBound ((k + 2) * stepSpan ℓ nc) (push A r j * b j) := by
  have hkN : (k : ℝ) + 1 ≤ N := by exact_mod_cast hk
  have hN : (0 : ℝ) ≤ N := Nat.cast_nonneg _
  have hε := h.range.unit_nonneg
  have hlse := h.lse_nonneg
  have heb := h.eb_nonneg
  have hℓ := h.ℓ_nonneg
  have hst : stepError u η V nc eb = lseError u η V nc + 3 * unitError u η V + eb := rfl
  have hsp : stepSpan ℓ nc = 2 * ℓ + Real.log nc := rfl
  have hlog : 0 ≤ Real.log nc := Real.log_nonneg (by exact_mod_cast NeZero.one_le)
  have hd := h.depth_le (k := k + 2) (by linarith)
  have ht := h.total_le (k := k + 2) (by linarith)
  set κ := stepError u η V nc eb
  set L := stepSpan ℓ nc
  have hb1 : ∀ i, LogBound ((k + 1) * L + ℓ) (r i * A i j) := fun i => (hrb i).mul (hA i j)
  have hw1 : ∀ i, LogWithin ((k + 1) * κ + unitError u η V + unitError u η V)
      (row i + FloatLike.log (α := RX ρ) (XF.fin (A i j)) : RX ρ) (r i * A i j) := fun i =>
    h.range.add (hr i) (h.range.log ((hA i j).mono h.ℓ_le)) (by nlinarith) ((hb1 i).mono (by nlinarith))
  have hb2 : LogBound ((k + 1) * L + ℓ + Real.log nc) (push A r j) := LogBound.sum hb1
  have hw2 := h.range.logsumexp hw1 (fun i => (hb1 i).mono (by nlinarith)) (by nlinarith)
  have hb3 : LogBound ((k + 1) * L + ℓ + Real.log nc + ℓ) (push A r j * b j) := hb2.mul (hb j)
  have hw3 := h.range.add hw2 (hlb j) (by nlinarith) (hb3.mono (by nlinarith))
  exact ⟨hw3.mono (by nlinarith), hb3.mono (by nlinarith)⟩

/-- The rows `t ≥ 1` of the forward lattice. -/
theorem Spec.LogBudget.fwdLoop {A : Fin nc → Fin nc → ℝ} (hA : ∀ i j, LogBound ℓ (A i j)) :
    ∀ (lbs : List (Row (RX ρ) nc)) (bs : List (Fin nc → ℝ)) (k : ℕ) (row : Row (RX ρ) nc) (r : Fin nc → ℝ),
      k + lbs.length ≤ N →
      List.Forall₂ (fun lb b => ∀ i, LogWithin eb (lb i) (b i)) lbs bs → (∀ b ∈ bs, ∀ i, LogBound ℓ (b i)) →
      (∀ i, LogWithin ((k + 1) * stepError u η V nc eb) (row i) (r i)) →
      (∀ i, LogBound ((k + 1) * stepSpan ℓ nc) (r i)) →
      RowsNear (fun t => (t + 1) * stepError u η V nc eb) (fun t => (t + 1) * stepSpan ℓ nc) (k + 1)
        (forwardLogLoop (α := RX ρ) (fun i j => FloatLike.log (α := RX ρ) (XF.fin (A i j))) row lbs)
        (rfwd A (push A r) bs) := by
  intro lbs
  induction lbs with
  | nil =>
    intro bs k row r _ hf _ _ _
    cases hf
    exact trivial
  | cons lb lbs ih =>
    intro bs k row r hk hf hb hr hrb
    cases hf with
    | @cons _ b _ bs h1 h2 =>
      rw [List.length_cons] at hk
      have hs := fun j => h.fwdStep hA (k := k) (by omega) hr hrb h1 (hb b List.mem_cons_self) j
      have e2 : ((k + 1 : ℕ) : ℝ) + 1 = k + 2 := by push_cast; ring
      have := ih bs (k + 1) (fwdLogRow (α := RX ρ)
        (fun i j => FloatLike.log (α := RX ρ) (XF.fin (A i j))) row lb) (fun j => push A r j * b j) (by omega) h2
        (fun b' hb' => hb b' (List.mem_cons_of_mem _ hb'))
        (fun i => by rw [e2]; exact (hs i).1) (fun i => by rw [e2]; exact (hs i).2)
      simp only [forwardLogLoop, memo_eq, rfwd]
      refine ⟨fun i => ?_, this⟩
      simp only [e2]
      exact hs i

/-- The forward lattice. -/
theorem Spec.LogBudget.forward {π : Fin nc → ℝ} {A : Fin nc → Fin nc → ℝ} (hπ : ∀ i, LogBound ℓ (π i))
    (hA : ∀ i j, LogBound ℓ (A i j)) {n : ℕ} (hn : n ≤ N) (lb : Fin (n + 1) → Row (RX ρ) nc)
    (B : Fin (n + 1) → Fin nc → ℝ) (hB : ∀ t i, LogBound ℓ (B t i)) (hlb : ∀ t i, LogWithin eb (lb t i) (B t i)) :
    ∃ (x : RX ρ) (rows : List (Row (RX ρ) nc)),
      forwardLog (α := RX ρ) (fun i => XF.fin (π i)) (fun i j => XF.fin (A i j)) (List.ofFn lb) = .ok (x, rows) ∧
      LogWithin ((n + 2) * stepError u η V nc eb) x (likelihood π A B) ∧
      LogBound ((n + 2) * stepSpan ℓ nc) (likelihood π A B) ∧
      RowsNear (fun t => (t + 1) * stepError u η V nc eb) (fun t => (t + 1) * stepSpan ℓ nc) 0 rows
        (rfwd A π (List.ofFn B)) := by
  have hN : (0 : ℝ) ≤ N := Nat.cast_nonneg _
  have hε := h.range.unit_nonneg
  have hlse := h.lse_nonneg
  have heb := h.eb_nonneg
  have hℓ := h.ℓ_nonneg
  have hst : stepError u η V nc eb = lseError u η V nc + 3 * unitError u η V + eb := rfl
  have ht1 := h.total_le (k := 1) (by linarith)
  have hd1 := h.depth_le (k := 1) (by linarith)
  have h2ℓ := h.two_ℓ_le
  have hb0 : ∀ i, LogBound (ℓ + ℓ) (π i * B 0 i) := fun i => (hπ i).mul (hB 0 i)
  have hw0 : ∀ i, LogWithin (unitError u η V + eb + unitError u η V)
      (FloatLike.log (α := RX ρ) (XF.fin (π i)) + lb 0 i : RX ρ) (π i * B 0 i) := fun i =>
    h.range.add (h.range.log ((hπ i).mono h.ℓ_le)) (hlb 0 i) (by linarith) ((hb0 i).mono (by linarith))
  have hloop := h.fwdLoop hA (List.ofFn fun t : Fin n => lb t.succ) (List.ofFn fun t : Fin n => B t.succ) 0
    (fun i => (FloatLike.log (α := RX ρ) (XF.fin (π i)) + lb 0 i : RX ρ)) (fun i => π i * B 0 i)
    (by rw [List.length_ofFn]; omega)
    (by
      rw [List.forall₂_iff_get]
      refine ⟨by simp, fun i h1 h2 => ?_⟩
      rw [List.get_ofFn, List.get_ofFn]
      exact hlb _)
    (by
      intro b hb
      obtain ⟨t, rfl⟩ := List.mem_ofFn.1 hb
      exact hB _)
    (fun i => (hw0 i).mono (by push_cast; linarith)) (fun i => (hb0 i).mono (by push_cast; linarith))
  set row0 : Row (RX ρ) nc := fun i => (FloatLike.log (α := RX ρ) (XF.fin (π i)) + lb 0 i : RX ρ) with hrow0
  set rows := forwardLogLoop (α := RX ρ) (fun i j => FloatLike.log (α := RX ρ) (XF.fin (A i j))) row0
    (List.ofFn fun t : Fin n => lb t.succ) with hrows
  have hnear : RowsNear (fun t => (t + 1) * stepError u η V nc eb) (fun t => (t + 1) * stepSpan ℓ nc) 0
      (row0 :: rows) (rfwd A π (List.ofFn B)) := by
    rw [List.ofFn_succ]
    exact ⟨fun i => ⟨(hw0 i).mono (by push_cast; linarith), (hb0 i).mono (by push_cast; linarith)⟩, hloop⟩
  have hne : rfwd A π (List.ofFn B) ≠ [] := by rw [List.ofFn_succ]; simp [rfwd]
  have hlast := hnear.getLast (List.cons_ne_nil row0 rows) hne
  have hlen : (rfwd A π (List.ofFn B)).length - 1 + 0 = n := by simp
  rw [hlen] at hlast
  have hnN : (n : ℝ) ≤ N := by exact_mod_cast hn
  have hfin := h.range.logsumexp (fun i => (hlast i).1)
    (fun i => (hlast i).2.mono (h.depth_le (by linarith))) (h.total_le (by linarith))
  have hbl := LogBound.sum fun i => (hlast i).2
  rw [rfwd_getLast_sum] at hfin hbl
  refine ⟨_, row0 :: rows, ?_, hfin.mono ?_, hbl.mono ?_, hnear⟩
  · rw [List.ofFn_succ]
    simp only [forwardLog, memo_eq]
    rfl
  · linarith
  · have : stepSpan ℓ nc = 2 * ℓ + Real.log nc := rfl
    linarith

/-- One step of the backward recursion. -/
theorem Spec.LogBudget.bwdStep {A : Fin nc → Fin nc → ℝ} (hA : ∀ i j, LogBound ℓ (A i j)) {k : ℕ} (hk : k + 1 ≤ N)
    {row lb : Row (RX ρ) nc} {r b : Fin nc → ℝ}
    (hr : ∀ i, LogWithin (k * stepError u η V nc eb) (row i) (r i))
    (hrb : ∀ i, LogBound (k * stepSpan ℓ nc) (r i))
    (hlb : ∀ i, LogWithin eb (lb i) (b i)) (hb : ∀ i, LogBound ℓ (b i)) (i : Fin nc) :
    LogWithin ((k + 1) * stepError u η V nc eb)
        (logsumexp (α := RX ρ) fun j => FloatLike.log (α := RX ρ) (XF.fin (A i j)) + lb j + row j)
        (∑ j, A i j * b j * r j) ∧
      LogBound ((k + 1) * stepSpan ℓ nc) (∑ j, A i j * b j * r j) := by
  have hkN : (k : ℝ) + 1 ≤ N := by exact_mod_cast hk
  have hk0 : (0 : ℝ) ≤ k := Nat.cast_nonneg _
  have hε := h.range.unit_nonneg
  have hlse := h.lse_nonneg
  have heb := h.eb_nonneg
  have hℓ := h.ℓ_nonneg
  have hst : stepError u η V nc eb = lseError u η V nc + 3 * unitError u η V + eb := rfl
  have hsp : stepSpan ℓ nc = 2 * ℓ + Real.log nc := rfl
  have hlog : 0 ≤ Real.log nc := Real.log_nonneg (by exact_mod_cast NeZero.one_le)
  have hd := h.depth_le (k := k + 1) (by linarith)
  have hd1 := h.depth_le (k := 1) (by linarith)
  have ht := h.total_le (k := k + 1) (by linarith)
  have ht1 := h.total_le (k := 1) (by linarith)
  set κ := stepError u η V nc eb
  set L := stepSpan ℓ nc
  have hb1 : ∀ j, LogBound (ℓ + ℓ) (A i j * b j) := fun j => (hA i j).mul (hb j)
  have hw1 : ∀ j, LogWithin (unitError u η V + eb + unitError u η V)
      (FloatLike.log (α := RX ρ) (XF.fin (A i j)) + lb j : RX ρ) (A i j * b j) := fun j =>
    h.range.add (h.range.log ((hA i j).mono h.ℓ_le)) (hlb j) (by nlinarith) ((hb1 j).mono (by nlinarith))
  have hb2 : ∀ j, LogBound (ℓ + ℓ + k * L) (A i j * b j * r j) := fun j => (hb1 j).mul (hrb j)
  have hw2 : ∀ j, LogWithin (unitError u η V + eb + unitError u η V + k * κ + unitError u η V)
      (FloatLike.log (α := RX ρ) (XF.fin (A i j)) + lb j + row j : RX ρ) (A i j * b j * r j) := fun j =>
    h.range.add (hw1 j) (hr j) (by nlinarith) ((hb2 j).mono (by nlinarith))
  have hb3 := LogBound.sum hb2
  have hw3 := h.range.logsumexp hw2 (fun i => (hb2 i).mono (by nlinarith)) (by nlinarith)
  exact ⟨hw3.mono (by nlinarith), hb3.mono (by nlinarith)⟩

/-- The backward lattice. -/
theorem Spec.LogBudget.backwardLoop {A : Fin nc → Fin nc → ℝ} (hA : ∀ i j, LogBound ℓ (A i j)) (n : ℕ) (hn : n ≤ N)  :
    ∀ (lbs : List (Row (RX ρ) nc)) (bs : List (Fin nc → ℝ)) (k : ℕ),
      k + lbs.length = n + 1 →
      List.Forall₂ (fun lb b => ∀ i, LogWithin eb (lb i) (b i)) lbs bs → (∀ b ∈ bs, ∀ i, LogBound ℓ (b i)) →
      RowsNear (fun t => ((n - t : ℕ) : ℝ) * stepError u η V nc eb) (fun t => ((n - t : ℕ) : ℝ) * stepSpan ℓ nc) k
        (backwardLogLoop (α := RX ρ) (fun i j => FloatLike.log (α := RX ρ) (XF.fin (A i j))) lbs)
        (rbwd A bs) := by
  intro lbs
  induction lbs with
  | nil =>
    intro bs k _ hf _
    cases hf
    exact trivial
  | cons lb lbs ih =>
    intro bs k hk hf hb
    cases hf with
    | @cons _ b _ bs h1 h2 =>
      cases h2 with
      | nil =>
        have : n - k = 0 := by simp at hk; omega
        refine ⟨fun i => ?_, trivial⟩
        simp only [this, Nat.cast_zero, zero_mul, beta]
        exact ⟨Or.inr ⟨one_pos, 0, rfl, by simp⟩, Or.inr ⟨one_pos, by simp⟩⟩
      | @cons lb' b' lbs bs h3 h4 =>
        have ih := ih (b' :: bs) (k + 1) (by simp at hk ⊢; omega) (List.Forall₂.cons h3 h4)
          (fun c hc => hb c (List.mem_cons_of_mem _ hc))
        simp only [backwardLogLoop]
        simp only [List.length_cons] at hk
        cases hrec : backwardLogLoop (α := RX ρ) (fun i j => FloatLike.log (α := RX ρ) (XF.fin (A i j)))
            (lb' :: lbs) with
        | nil => rw [hrec] at ih; exact absurd ih (by simp [rbwd, RowsNear])
        | cons next more =>
          rw [hrec] at ih
          simp only [memo_eq]
          refine ⟨fun i => ?_, ih⟩
          have := h.bwdStep hA (k := n - (k + 1)) (by omega) (fun i => (ih.1 i).1) (fun i => (ih.1 i).2) h3
            (hb b' (by simp)) i
          have e : ((n - (k + 1) : ℕ) : ℝ) + 1 = ((n - k : ℕ) : ℝ) := by
            exact_mod_cast (by omega : n - (k + 1) + 1 = n - k)
          rw [e] at this
          exact this

end Budget

end Verif
