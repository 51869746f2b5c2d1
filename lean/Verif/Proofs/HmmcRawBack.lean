import Verif.Proofs.HmmcRaw

/-!
# Refinement of `backward_log`, `viterbi` and the xi sums
-/

namespace Verif.Raw
open FloatLike

variable {α β σ : Type} {nc : Nat}

section Back
variable {γ : Type} {G : List γ → List β} {last : γ → β} {step : γ → γ → β → β}

/-- What the descending loops of the typed kernels satisfy. -/
structure IsBack (G : List γ → List β) (last : γ → β) (step : γ → γ → β → β) : Prop where
  nil : G [] = []
  one : ∀ a, G [a] = [last a]
  cons : ∀ a b rest, G (a :: b :: rest) =
    match G (b :: rest) with
    | [] => []
    | next :: more => step a b next :: next :: more

theorem IsBack.length (h : IsBack G last step) : ∀ l, (G l).length = l.length
  | [] => by simp [h.nil]
  | [a] => by simp [h.one]
  | a :: b :: rest => by
    have ih := h.length (b :: rest)
    rw [h.cons]
    cases hG : G (b :: rest) with
    | nil => simp [hG] at ih
    | cons next more => simp [hG] at ih ⊢; exact ih

theorem IsBack.uncons (h : IsBack G last step) (a b : γ) (rest : List γ) :
    ∃ next more, G (b :: rest) = next :: more ∧
      G (a :: b :: rest) = step a b next :: next :: more := by
  have hlen := h.length (b :: rest)
  cases hG : G (b :: rest) with
  | nil => simp [hG] at hlen
  | cons next more => exact ⟨next, more, rfl, by rw [h.cons, hG]⟩

theorem IsBack.get_last (h : IsBack G last step) : ∀ (l : List γ) (n : Nat) (hn : l.length = n + 1)
    (h1 : n < (G l).length), (G l)[n] = last l[n]
  | [], n, hn, _ => by simp at hn
  | [a], n, hn, _ => by
    have : n = 0 := by simpa using hn.symm
    subst this
    simp [h.one]
  | a :: b :: rest, n, hn, h1 => by
    obtain ⟨m, rfl⟩ : ∃ m, n = m + 1 := ⟨rest.length, by simpa using hn.symm⟩
    have ih := h.get_last (b :: rest) m (by simpa using hn) (by
      rw [h.length]; simp at hn ⊢; omega)
    obtain ⟨next, more, e1, e2⟩ := h.uncons a b rest
    simp only [e1] at ih
    simpa [e2] using ih

theorem IsBack.get_step (h : IsBack G last step) : ∀ (l : List γ) (k : Nat) (hk : k + 1 < l.length)
    (h1 : k < (G l).length) (h2 : k + 1 < (G l).length),
    (G l)[k] = step l[k] l[k + 1] (G l)[k + 1]
  | [], k, hk, _, _ => by simp at hk
  | [a], k, hk, _, _ => by simp at hk
  | a :: b :: rest, k, hk, h1, h2 => by
    obtain ⟨next, more, e1, e2⟩ := h.uncons a b rest
    cases k with
    | zero => simp [e2]
    | succ k =>
      have ih := h.get_step (b :: rest) k (by simpa using hk)
        (by rw [h.length]; simp at hk ⊢; omega) (by rw [h.length]; simpa using hk)
      simp only [e1] at ih
      simpa [e2] using ih

end Back

section BackwardLog
variable [FloatLike α]

/-- One entry row of `backward_log`. -/
def bwdLogRow [NeZero nc] (logA : Mat α nc) (lb next : Row α nc) : Row α nc :=
  fun i => Hmmc.logsumexp fun j => logA i j + lb j + next j

theorem isBack_backwardLog [NeZero nc] (logA : Mat α nc) :
    IsBack (Hmmc.backwardLogLoop logA) (fun _ => fun _ => 0) (fun _ lb next => bwdLogRow logA lb next)
    where
  nil := rfl
  one _ := rfl
  cons a b rest := by
    rw [Hmmc.backwardLogLoop]
    cases Hmmc.backwardLogLoop logA (b :: rest) <;> simp
    rfl

/-- One pass of `backward_log`. -/
theorem backwardLogBody_eq [NeZero nc] {tm fp : PyArray α} {n : Nat} {R : List (Row α nc)}
    (hR : R.length = n) {t : Nat} (ht : t + 1 < n)
    (hrow : ∀ (h1 : t + 1 < R.length) (h2 : t < R.length),
      R[t] = bwdLogRow (mat tm nc nc) (mat fp n nc ⟨t + 1, ht⟩) R[t + 1])
    {buf : Arr1 α} (hb : buf.n = nc) (hb' : ∀ i, nc ≤ i → buf.cell i = none)
    {p q : Nat → Bool} (hp : p (t + 1)) (hq : ∀ s, q s = (p s || decide (s = t))) {t' : Int}
    (ht' : t' = (t : Nat)) :
    ∃ buf', backwardLogBody (inp2 tm nc nc) (inp2 fp n nc) nc t' (buf, part R none p) =
      .ok (buf', part R none q) ∧ buf'.n = nc ∧ ∀ i, nc ≤ i → buf'.cell i = none := by
  subst ht' hR
  have ht2 : t < R.length := by omega
  unfold backwardLogBody
  obtain ⟨⟨buf', bwd⟩, e, h1, h2, h3⟩ := forUp_inv (lo := 0) (hi := nc) (s := (buf, part R none p))
    (body := fun i (s : Arr1 α × Arr2 α) => do
      let buf ← forUp 0 nc s.1 fun j buf => do
        buf.set j ((← (inp2 tm nc nc).get i j) + (← (inp2 fp R.length nc).get ((t : Int) + 1) j) +
          (← s.2.get ((t : Int) + 1) j))
      let bwd ← s.2.set (t : Int) i (← logsumexp buf.get nc)
      return (buf, bwd))
    nc (by omega)
    (fun k s => s.1.n = nc ∧ (∀ i, nc ≤ i → s.1.cell i = none) ∧
      s.2 = (part R none p).upd t R[t] k) ⟨hb, hb', by simp⟩ (by
    rintro k hk ⟨buf, bwd⟩ ⟨h1, h2, h3⟩
    simp only at h1 h2 h3
    subst h3
    let v : Row α nc := fun j => mat tm nc nc ⟨k, hk⟩ j + mat fp R.length nc ⟨t + 1, ht⟩ j +
      R[t + 1] j
    have hfill := fillVec (b := buf) h1 v (m := nc) rfl (body := fun j buf => do
        buf.set j ((← (inp2 tm nc nc).get ((0 : Int) + k) j) +
          (← (inp2 fp R.length nc).get ((t : Int) + 1) j) +
          (← ((part R none p).upd t R[t] k).get ((t : Int) + 1) j))) fun j hj => by
      rw [inp2_get ⟨k, hk⟩ ⟨j, hj⟩ (by simp) rfl, ok_bind,
        inp2_get ⟨t + 1, ht⟩ ⟨j, hj⟩ (by simp) rfl, ok_bind,
        upd_get_ne (s := t + 1) (by omega) (by simp), part_get ht hp ⟨j, hj⟩ (by simp) rfl, ok_bind]
    simp only
    rw [hfill, ok_bind, Arr1.upd_full h1 h2,
      logsumexp_eq (v := v) (fun i => Arr1.ofRow_get v i) rfl, ok_bind]
    have hv : Hmmc.logsumexp v = R[t] ⟨k, hk⟩ := by
      rw [hrow ht ht2]; rfl
    rw [hv, Arr2.upd_set _ t R[t] hk ht2 hk rfl (by simp), ok_bind]
    refine ⟨_, rfl, rfl, fun i hi => ?_, rfl⟩
    simp [Arr1.ofRow, rowCell, Nat.not_lt.2 hi])
  refine ⟨buf', ?_, h1, h2⟩
  have h3' : bwd = part R none q := h3.trans (part_upd ht2 hq)
  rw [← h3']
  exact e

/-- `backward_log` computes `Hmmc.backwardLog`. -/
theorem backwardLog_eq [NeZero nc] {n : Nat} {sp tm fp : PyArray α} (hs : sp.shape = [nc])
    (ht : tm.shape = [nc, nc]) (hf : fp.shape = [n + 1, nc]) :
    backwardLog sp tm fp =
      (Hmmc.backwardLog (mat tm nc nc) (List.ofFn (mat fp (n + 1) nc))).map Arr2.ofRows := by
  let B := mat fp (n + 1) nc
  let logA := Hmmc.logMat (mat tm nc nc)
  let R := Hmmc.backwardLogLoop logA (List.ofFn B)
  have hG := isBack_backwardLog logA
  have hlen : R.length = n + 1 := by simp [R, hG.length]
  have hlast : ∀ h : n < R.length, R[n] = fun _ => 0 := fun h =>
    hG.get_last (List.ofFn B) n (by simp) h
  have hrow : ∀ t (ht : t + 1 < n + 1) (h1 : t + 1 < R.length) (h2 : t < R.length),
      R[t] = bwdLogRow logA (B ⟨t + 1, ht⟩) R[t + 1] := by
    intro t ht ha hb
    have := hG.get_step (List.ofFn B) t (by simpa using ht) hb ha
    simpa [R] using this
  have htyped : Hmmc.backwardLog (mat tm nc nc) (List.ofFn B) = .ok R := by
    simp [Hmmc.backwardLog, R, logA]
  rw [htyped]
  unfold backwardLog
  rw [unchecked1_eq (a := logArr sp) hs, ok_bind, unchecked2_eq (a := logArr tm) ht, ok_bind,
    unchecked2_eq hf, ok_bind]
  simp only [inp1_n, inp2_rows, inp2_cols, ne_eq, not_true_eq_false, or_self, if_false]
  rw [alloc_eq_part R hlen, fillPart (t := n) (q := fun s => decide (s = n)) (by omega)
    (by intro s; simp) rfl (fun k hk => by
      rw [hlast]
      simp), ok_bind]
  obtain ⟨⟨buf', bwd⟩, e, _, _, h3⟩ := forDown_inv (hi := ((n + 1 : Nat) : Int) - 2)
    (s := (Arr1.filled nc 0, part R none fun s => decide (s = n)))
    (body := backwardLogBody (inp2 (logArr tm) nc nc) (inp2 fp (n + 1) nc) nc)
    n (by omega)
    (fun k s => s.1.n = nc ∧ (∀ i, nc ≤ i → s.1.cell i = none) ∧
      s.2 = part R none fun s => decide (n - k ≤ s ∧ s ≤ n))
    ⟨rfl, fun i hi => by simp [Arr1.filled, Nat.not_lt.2 hi], by
      have : ∀ s, (s = n) = (n - 0 ≤ s ∧ s ≤ n) := fun s => propext (by omega)
      simp only [this]⟩ (by
    rintro k hk ⟨buf, bwd⟩ ⟨h1, h2, h3⟩
    simp only at h1 h2 h3
    subst h3
    obtain ⟨t, ht⟩ : ∃ t, t + 1 = n - k := ⟨n - k - 1, by omega⟩
    obtain ⟨buf', e, h1', h2'⟩ := backwardLogBody_eq (tm := logArr tm) (fp := fp) hlen (t := t)
      (by omega) (fun ha hb => hrow t (by omega) ha hb) h1 h2
      (p := fun s => decide (n - k ≤ s ∧ s ≤ n))
      (q := fun s => decide (n - (k + 1) ≤ s ∧ s ≤ n)) (by simp; omega) (by
        intro s
        have : n - (k + 1) ≤ s ∧ s ≤ n ↔ (n - k ≤ s ∧ s ≤ n) ∨ s = t := by omega
        rw [← Bool.decide_or]
        exact decide_eq_decide.2 this) (t' := ((n + 1 : Nat) : Int) - 2 - k) (by omega)
    exact ⟨_, e, h1', h2', rfl⟩)
  simp only at h3
  rw [e, ok_bind]
  simp only
  rw [h3, part_all R none (by intro t ht; simp; omega)]
  rfl

end BackwardLog

end Verif.Raw
