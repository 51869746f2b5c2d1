import Mathlib.Tactic.SplitIfs
import Mathlib.Data.List.OfFn
import Verif.Model.HmmcRaw

/-!
# The array-level kernels compute the typed kernels

Loops are treated by giving the whole sequence of their states (`forUp_states`, `forDown_states`).
-/

namespace Verif.Raw
open FloatLike

variable {α β σ : Type} {nc : Nat}

theorem ok_bind {γ : Type} (x : β) (f : β → Except PyErr γ) : (Except.ok x >>= f) = f x := rfl
theorem error_bind {γ : Type} (e : PyErr) (f : β → Except PyErr γ) :
    (Except.error e >>= f) = .error e := rfl

theorem pure_ok (x : β) : (pure x : Except PyErr β) = .ok x := rfl

section Loops

theorem foldlM_states (n : Nat) (body : Nat → σ → Except PyErr σ) (S : Nat → σ)
    (h : ∀ k < n, body k (S k) = .ok (S (k + 1))) :
    (List.range n).foldlM (fun s k => body k s) (S 0) = .ok (S n) := by
  induction n with
  | zero => rfl
  | succ n ih =>
    rw [List.range_succ, List.foldlM_append, ih fun k hk => h k (by omega)]
    simp [ok_bind, h n (by omega), pure_ok]

theorem forUp_states {lo hi : Int} {body : Int → σ → Except PyErr σ} (n : Nat) (hn : hi - lo = n)
    (S : Nat → σ) (h : ∀ k < n, body (lo + k) (S k) = .ok (S (k + 1))) :
    forUp lo hi (S 0) body = .ok (S n) := by
  unfold forUp
  rw [show (hi - lo).toNat = n by omega]
  exact foldlM_states n (fun k s => body (lo + k) s) S h

theorem forDown_states {hi : Int} {body : Int → σ → Except PyErr σ} (n : Nat) (hn : hi + 1 = n)
    (S : Nat → σ) (h : ∀ k < n, body (hi - k) (S k) = .ok (S (k + 1))) :
    forDown hi (S 0) body = .ok (S n) := by
  unfold forDown
  rw [show (hi + 1).toNat = n by omega]
  exact foldlM_states n (fun k s => body (hi - k) s) S h

theorem foldlM_inv (n : Nat) (body : Nat → σ → Except PyErr σ) (P : Nat → σ → Prop) {s : σ}
    (h0 : P 0 s) (h : ∀ k < n, ∀ s, P k s → ∃ s', body k s = .ok s' ∧ P (k + 1) s') :
    ∃ s', (List.range n).foldlM (fun s k => body k s) s = .ok s' ∧ P n s' := by
  induction n with
  | zero => exact ⟨s, rfl, h0⟩
  | succ n ih =>
    obtain ⟨s1, e1, h1⟩ := ih fun k hk => h k (by omega)
    obtain ⟨s2, e2, h2⟩ := h n (by omega) s1 h1
    refine ⟨s2, ?_, h2⟩
    rw [List.range_succ, List.foldlM_append, e1]
    simp [ok_bind, e2, pure_ok]

theorem forUp_inv {lo hi : Int} {body : Int → σ → Except PyErr σ} (n : Nat) (hn : hi - lo = n)
    (P : Nat → σ → Prop) {s : σ} (h0 : P 0 s)
    (h : ∀ k < n, ∀ s, P k s → ∃ s', body (lo + k) s = .ok s' ∧ P (k + 1) s') :
    ∃ s', forUp lo hi s body = .ok s' ∧ P n s' := by
  unfold forUp
  rw [show (hi - lo).toNat = n by omega]
  exact foldlM_inv n (fun k s => body (lo + k) s) P h0 h

theorem forDown_inv {hi : Int} {body : Int → σ → Except PyErr σ} (n : Nat) (hn : hi + 1 = n)
    (P : Nat → σ → Prop) {s : σ} (h0 : P 0 s)
    (h : ∀ k < n, ∀ s, P k s → ∃ s', body (hi - k) s = .ok s' ∧ P (k + 1) s') :
    ∃ s', forDown hi s body = .ok s' ∧ P n s' := by
  unfold forDown
  rw [show (hi + 1).toNat = n by omega]
  exact foldlM_inv n (fun k s => body (hi - k) s) P h0 h

/-- The state after the first `k` elements of a left fold over `Fin n`. -/
def foldTo (n : Nat) (f : σ → Fin n → σ) (s : σ) (k : Nat) : σ :=
  ((List.finRange n).take k).foldl f s

@[simp] theorem foldTo_zero (n : Nat) (f : σ → Fin n → σ) (s : σ) : foldTo n f s 0 = s := rfl

theorem foldTo_succ {n : Nat} (f : σ → Fin n → σ) (s : σ) {k : Nat} (h : k < n) :
    foldTo n f s (k + 1) = f (foldTo n f s k) ⟨k, h⟩ := by
  unfold foldTo
  rw [List.take_succ_eq_append_getElem (by simpa using h), List.foldl_append]
  simp

theorem foldTo_full (n : Nat) (f : σ → Fin n → σ) (s : σ) :
    foldTo n f s n = (List.finRange n).foldl f s := by
  unfold foldTo
  rw [List.take_of_length_le (by simp)]

/-- A loop whose body folds in the elements of a row. -/
theorem forUp_fold {body : Int → σ → Except PyErr σ} (n : Nat) (f : σ → Fin n → σ) (s : σ)
    (h : ∀ (i : Fin n) (s : σ), body i s = .ok (f s i)) :
    forUp 0 (n : Int) s body = .ok ((List.finRange n).foldl f s) := by
  rw [← foldTo_full]
  refine forUp_states n (by omega) (foldTo n f s) fun k hk => ?_
  rw [foldTo_succ f s hk, ← h ⟨k, hk⟩]
  simp

end Loops

section Cells
variable {a : Arr2 β} {b : Arr1 β}

theorem Arr1.get_eq {i : Int} {x : β} (i' : Nat) (hi : i = i') (h1 : i' < b.n)
    (hc : b.cell i' = some x) : b.get i = .ok x := by
  subst hi; simp [Arr1.get, h1, hc, readCell]

theorem Arr1.set_eq {i : Int} (x : β) (i' : Nat) (hi : i = i') (h1 : i' < b.n) :
    b.set i x = .ok ⟨b.n, fun k => if k = i' then some x else b.cell k⟩ := by
  subst hi; simp [Arr1.set, h1]

theorem Arr2.get_eq {i j : Int} {x : β} (i' j' : Nat) (hi : i = i') (hj : j = j') (h1 : i' < a.rows)
    (h2 : j' < a.cols) (hc : a.cell i' j' = some x) : a.get i j = .ok x := by
  subst hi hj; simp [Arr2.get, h1, h2, hc, readCell]

theorem Arr2.set_eq {i j : Int} (x : β) (i' j' : Nat) (hi : i = i') (hj : j = j') (h1 : i' < a.rows)
    (h2 : j' < a.cols) :
    a.set i j x =
      .ok ⟨a.rows, a.cols, fun k l => if k = i' ∧ l = j' then some x else a.cell k l⟩ := by
  subst hi hj; simp [Arr2.set, h1, h2]

/-- The cells of a row, `none` outside. -/
def rowCell (v : Row β nc) (i : Nat) : Option β := if h : i < nc then some (v ⟨i, h⟩) else none

@[simp] theorem rowCell_fin (v : Row β nc) (i : Fin nc) : rowCell v i = some (v i) := by
  simp [rowCell]

theorem rowCell_lt (v : Row β nc) {i : Nat} (h : i < nc) : rowCell v i = some (v ⟨i, h⟩) := by
  simp [rowCell, h]

/-- A vector that has been written completely. -/
def Arr1.ofRow (v : Row β nc) : Arr1 β := ⟨nc, rowCell v⟩

theorem Arr1.ofRow_get (v : Row β nc) (i : Fin nc) : (Arr1.ofRow v).get i = .ok (v i) :=
  Arr1.get_eq i rfl i.2 (rowCell_fin v i)

/-- `a` after its first `k` cells of row `t` have been overwritten with those of `v`. -/
def Arr2.upd (a : Arr2 β) (t : Nat) (v : Row β nc) (k : Nat) : Arr2 β :=
  ⟨a.rows, a.cols, fun r c => if r = t ∧ c < k then rowCell v c else a.cell r c⟩

/-- `b` after its first `k` cells have been overwritten with those of `v`. -/
def Arr1.upd (b : Arr1 β) (v : Row β nc) (k : Nat) : Arr1 β :=
  ⟨b.n, fun c => if c < k then rowCell v c else b.cell c⟩

@[simp] theorem Arr2.upd_zero (a : Arr2 β) (t : Nat) (v : Row β nc) : a.upd t v 0 = a := by
  simp [Arr2.upd]

@[simp] theorem Arr1.upd_zero (b : Arr1 β) (v : Row β nc) : b.upd v 0 = b := by
  simp [Arr1.upd]

@[simp] theorem Arr2.upd_rows (a : Arr2 β) (t : Nat) (v : Row β nc) (k : Nat) :
    (a.upd t v k).rows = a.rows := rfl
@[simp] theorem Arr2.upd_cols (a : Arr2 β) (t : Nat) (v : Row β nc) (k : Nat) :
    (a.upd t v k).cols = a.cols := rfl

theorem Arr2.upd_set (a : Arr2 β) (t : Nat) (v : Row β nc) {k : Nat} (hk : k < nc)
    (ht : t < a.rows) (hc : k < a.cols) {i j : Int} (hi : i = t) (hj : j = k) :
    (a.upd t v k).set i j (v ⟨k, hk⟩) = .ok (a.upd t v (k + 1)) := by
  rw [Arr2.set_eq (a := a.upd t v k) _ t k hi hj ht hc]
  simp only [Arr2.upd, Except.ok.injEq, Arr2.mk.injEq, true_and]
  funext r c
  by_cases h : r = t
  · by_cases hck : c = k
    · subst hck; simp [h, rowCell_lt v hk]
    · have : c < k + 1 ↔ c < k := by omega
      simp [h, hck, this]
  · simp [h]

theorem Arr1.upd_set (b : Arr1 β) (v : Row β nc) {k : Nat} (hk : k < nc) (hc : k < b.n) {i : Int}
    (hi : i = k) : (b.upd v k).set i (v ⟨k, hk⟩) = .ok (b.upd v (k + 1)) := by
  rw [Arr1.set_eq (b := b.upd v k) _ k hi hc]
  simp only [Arr1.upd, Except.ok.injEq, Arr1.mk.injEq, true_and]
  funext c
  by_cases hck : c = k
  · subst hck; simp [rowCell_lt v hk]
  · have : c < k + 1 ↔ c < k := by omega
    simp [hck, this]

/-- A loop that overwrites row `t`. -/
theorem fillRow {a : Arr2 β} {t : Nat} (ht : t < a.rows) (hc : a.cols = nc) (v : Row β nc)
    {body : Int → Arr2 β → Except PyErr (Arr2 β)} {m : Int} (hm : m = nc)
    (h : ∀ k (hk : k < nc),
      body k (a.upd t v k) = (a.upd t v k).set t k (v ⟨k, hk⟩)) :
    forUp 0 m a body = .ok (a.upd t v nc) := by
  subst hm
  rw [← Arr2.upd_zero a t v]
  refine (forUp_states nc (by omega) (fun k => a.upd t v k) fun k hk => ?_).trans ?_
  · have := h k hk
    rw [show (0 : Int) + k = k by omega, this]
    exact Arr2.upd_set a t v hk ht (hc ▸ hk) rfl rfl
  · simp

/-- A loop that overwrites a vector. -/
theorem fillVec {b : Arr1 β} (hc : b.n = nc) (v : Row β nc)
    {body : Int → Arr1 β → Except PyErr (Arr1 β)} {m : Int} (hm : m = nc)
    (h : ∀ k (hk : k < nc), body k (b.upd v k) = (b.upd v k).set k (v ⟨k, hk⟩)) :
    forUp 0 m b body = .ok (b.upd v nc) := by
  subst hm
  rw [← Arr1.upd_zero b v]
  refine (forUp_states nc (by omega) (fun k => b.upd v k) fun k hk => ?_).trans ?_
  · have := h k hk
    rw [show (0 : Int) + k = k by omega, this]
    exact Arr1.upd_set b v hk (hc ▸ hk) rfl
  · simp

theorem Arr1.upd_full {b : Arr1 β} (hc : b.n = nc) (hb : ∀ i, nc ≤ i → b.cell i = none)
    (v : Row β nc) : b.upd v nc = Arr1.ofRow v := by
  simp only [Arr1.upd, Arr1.ofRow, Arr1.mk.injEq, hc, true_and]
  funext c
  by_cases h : c < nc
  · simp [h]
  · simp [h, rowCell, hb c (by omega)]

end Cells

section Reductions
variable [FloatLike α]

theorem accumulate_eq {rd : Int → Except PyErr α} {v : Row α nc} (h : ∀ i : Fin nc, rd i = .ok (v i))
    {m : Int} (hm : m = nc) : accumulate rd m = .ok (sumF v) := by
  subst hm
  exact forUp_fold nc (fun acc i => acc + v i) 0 fun i s => by rw [h i]; rfl

theorem maxElement_eq [NeZero nc] {rd : Int → Except PyErr α} {v : Row α nc}
    (h : ∀ i : Fin nc, rd i = .ok (v i)) {m : Int} (hm : m = nc) :
    maxElement rd m = .ok ((Hmmc.maxElement v : Fin nc) : Nat) := by
  subst hm
  have hnc : 0 < nc := Nat.pos_of_ne_zero (NeZero.ne nc)
  let f : Fin nc → Fin nc → Fin nc := fun best i => if lt (v best) (v i) then i else best
  have h1 : foldTo nc f 0 1 = 0 := by
    rw [foldTo_succ f 0 hnc]
    simp only [foldTo_zero, f]
    split <;> rfl
  have := forUp_states (body := fun i best => do
      return if lt (← rd best) (← rd i) then i else best) (lo := 1) (hi := nc) (nc - 1) (by omega)
    (fun k => ((foldTo nc f 0 (k + 1) : Fin nc) : Int)) fun k hk => ?_
  · simp only [Nat.zero_add, h1] at this
    rw [show nc - 1 + 1 = nc by omega, foldTo_full] at this
    exact this
  · have hk' : k + 1 < nc := by omega
    have e : (1 : Int) + k = ((⟨k + 1, hk'⟩ : Fin nc) : Nat) := by simp; omega
    rw [e, foldTo_succ f 0 hk', h, ok_bind, h, ok_bind, pure_ok]
    simp only [f]
    split <;> rfl

theorem logsumexp_eq [NeZero nc] {rd : Int → Except PyErr α} {v : Row α nc}
    (h : ∀ i : Fin nc, rd i = .ok (v i)) {m : Int} (hm : m = nc) :
    logsumexp rd m = .ok (Hmmc.logsumexp v) := by
  unfold logsumexp
  rw [maxElement_eq h hm, ok_bind, h, ok_bind]
  subst hm
  rw [forUp_fold nc (fun acc i => acc + exp (v i - v (Hmmc.maxElement v))) 0
    fun i s => by rw [h i]; rfl, ok_bind]
  unfold Hmmc.logsumexp sumF
  simp only [pure_ok]
  split_ifs <;> rfl

end Reductions

section Lattices

/-- A lattice that has been written completely. -/
def Arr2.ofRows (R : List (Row β nc)) : Arr2 β :=
  ⟨R.length, nc, fun t i => R[t]?.bind fun r => rowCell r i⟩

/-- A lattice in which the rows `t` with `p t` have been written and the others contain `x`. -/
def part (R : List (Row β nc)) (x : Option β) (p : Nat → Bool) : Arr2 β :=
  ⟨R.length, nc, fun t i =>
    if t < R.length ∧ i < nc then (if p t then R[t]?.bind fun r => rowCell r i else x) else none⟩

theorem part_all (R : List (Row β nc)) (x : Option β) {p : Nat → Bool} (hp : ∀ t < R.length, p t) :
    part R x p = Arr2.ofRows R := by
  simp only [part, Arr2.ofRows, Arr2.mk.injEq, true_and]
  funext t i
  by_cases ht : t < R.length
  · by_cases hi : i < nc
    · simp [ht, hi, hp t ht]
    · simp [ht, hi, rowCell]
  · simp [ht]

theorem part_none {R : List (Row β nc)} {x : Option β} {p : Nat → Bool}
    (hp : ∀ t < R.length, p t = false) :
    part R x p = ⟨R.length, nc, fun t i => if t < R.length ∧ i < nc then x else none⟩ := by
  simp only [part, Arr2.mk.injEq, true_and]
  funext t i
  by_cases h : t < R.length ∧ i < nc
  · simp [h, hp t h.1]
  · simp [h]

theorem part_get {R : List (Row β nc)} {x : Option β} {p : Nat → Bool} {t : Nat}
    (ht : t < R.length) (hp : p t) (i : Fin nc) {t' i' : Int} (h1 : t' = t) (h2 : i' = (i : Nat)) :
    (part R x p).get t' i' = .ok (R[t] i) := by
  refine Arr2.get_eq t i h1 h2 ht i.2 ?_
  simp [part, ht, hp]

theorem part_upd {R : List (Row β nc)} {x : Option β} {p q : Nat → Bool} {t : Nat}
    (ht : t < R.length) (hq : ∀ s, q s = (p s || decide (s = t))) :
    (part R x p).upd t R[t] nc = part R x q := by
  simp only [part, Arr2.upd, Arr2.mk.injEq, true_and]
  funext s i
  by_cases hs : s = t
  · subst hs
    by_cases hi : i < nc <;> simp [hi, ht, hq]
  · simp [hs, hq]

theorem alloc_eq_part (R : List (Row β nc)) {n : Nat} (hn : R.length = n) :
    (Arr2.alloc n nc : Arr2 β) = part R none fun _ => false := by
  subst hn
  rw [part_none fun _ _ => rfl]
  simp [Arr2.alloc]

theorem filled_eq_part (R : List (Row β nc)) (x : β) {n : Nat} (hn : R.length = n) :
    Arr2.filled n nc x = part R (some x) fun _ => false := by
  subst hn
  rw [part_none fun _ _ => rfl]
  rfl

@[simp] theorem part_rows (R : List (Row β nc)) (x : Option β) (p : Nat → Bool) :
    (part R x p).rows = R.length := rfl
@[simp] theorem part_cols (R : List (Row β nc)) (x : Option β) (p : Nat → Bool) :
    (part R x p).cols = nc := rfl

/-- A loop that writes row `t` of a lattice. -/
theorem fillPart {R : List (Row β nc)} {x : Option β} {p q : Nat → Bool} {t : Nat}
    (ht : t < R.length) (hq : ∀ s, q s = (p s || decide (s = t)))
    {body : Int → Arr2 β → Except PyErr (Arr2 β)} {m : Int} (hm : m = nc)
    (h : ∀ k (hk : k < nc), body k ((part R x p).upd t R[t] k) =
      ((part R x p).upd t R[t] k).set t k (R[t] ⟨k, hk⟩)) :
    forUp 0 m (part R x p) body = .ok (part R x q) := by
  rw [fillRow (nc := nc) (a := part R x p) ht (part_cols R x p) R[t] hm h, part_upd ht hq]

theorem getLast_eq {R : List β} {n : Nat} (h : R.length = n + 1) (hne : R ≠ []) (hn : n < R.length) :
    R.getLast hne = R[n] := by
  rw [List.getLast_eq_getElem]
  congr 1
  omega

/-- Writing row `t` does not disturb the other rows. -/
theorem upd_get_ne {a : Arr2 β} {t s : Nat} {v : Row β nc} {k : Nat} (h : s ≠ t) {s' i' : Int}
    (h1 : s' = s) : (a.upd t v k).get s' i' = a.get s' i' := by
  subst h1
  simp [Arr2.get, Arr2.upd, h]

end Lattices

section Inputs

/-- The entries of a vector argument. -/
def vec (a : PyArray β) (n : Nat) : Row β n := fun i => a.data [i]

/-- The entries of a matrix argument. -/
def mat (a : PyArray β) (m n : Nat) : Fin m → Fin n → β := fun i j => a.data [i, j]

/-- The accessor of a vector argument. -/
def inp1 (a : PyArray β) (n : Nat) : Arr1 β := ⟨n, fun i => some (a.data [i])⟩

/-- The accessor of a matrix argument. -/
def inp2 (a : PyArray β) (m n : Nat) : Arr2 β := ⟨m, n, fun i j => some (a.data [i, j])⟩

theorem unchecked1_eq {a : PyArray β} {n : Nat} (h : a.shape = [n]) :
    a.unchecked1 = .ok (inp1 a n) := by
  simp [PyArray.unchecked1, h, inp1]

theorem unchecked2_eq {a : PyArray β} {m n : Nat} (h : a.shape = [m, n]) :
    a.unchecked2 = .ok (inp2 a m n) := by
  simp [PyArray.unchecked2, h, inp2]

theorem inp1_get {a : PyArray β} {n : Nat} (i : Fin n) {i' : Int} (h : i' = (i : Nat)) :
    (inp1 a n).get i' = .ok (vec a n i) :=
  Arr1.get_eq (b := inp1 a n) i h i.2 rfl

theorem inp2_get {a : PyArray β} {m n : Nat} (i : Fin m) (j : Fin n) {i' j' : Int}
    (hi : i' = (i : Nat)) (hj : j' = (j : Nat)) :
    (inp2 a m n).get i' j' = .ok (mat a m n i j) :=
  Arr2.get_eq (a := inp2 a m n) i j hi hj i.2 j.2 rfl

@[simp] theorem inp1_n (a : PyArray β) (n : Nat) : (inp1 a n).n = n := rfl
@[simp] theorem inp2_rows (a : PyArray β) (m n : Nat) : (inp2 a m n).rows = m := rfl
@[simp] theorem inp2_cols (a : PyArray β) (m n : Nat) : (inp2 a m n).cols = n := rfl

end Inputs

section Rows
variable {γ : Type} {F : β → List γ → List β} {step : β → γ → β}

/-- A loop producing one row per step, each from the one before. -/
theorem loop_length (h0 : ∀ r, F r [] = []) (h1 : ∀ r b l, F r (b :: l) = step r b :: F (step r b) l)
    (l : List γ) (r : β) : (F r l).length = l.length := by
  induction l generalizing r with
  | nil => simp [h0]
  | cons b l ih => simp [h1, ih]

theorem loop_get (h0 : ∀ r, F r [] = []) (h1 : ∀ r b l, F r (b :: l) = step r b :: F (step r b) l)
    (l : List γ) (r : β) (k : Nat) (h : k < l.length) (ha : k + 1 < (r :: F r l).length)
    (hb : k < (r :: F r l).length) : (r :: F r l)[k + 1] = step (r :: F r l)[k] l[k] := by
  induction l generalizing r k with
  | nil => simp at h
  | cons b l ih =>
    cases k with
    | zero => simp [h1]
    | succ k =>
      simp only [h1, List.getElem_cons_succ]
      exact ih (step r b) k (by simpa using h) (by simpa [h1] using ha) (by simpa [h1] using hb)

end Rows

section ForwardLog
variable [FloatLike α]

/-- One pass of `forward_log`. -/
theorem forwardLogBody_eq [NeZero nc] {tm fp : PyArray α} {n : Nat} {R : List (Row α nc)}
    (hR : R.length = n) {t : Nat} (ht : t + 1 < n)
    (hrow : ∀ (h1 : t + 1 < R.length) (h2 : t < R.length),
      R[t + 1] = Hmmc.fwdLogRow (mat tm nc nc) R[t] (mat fp n nc ⟨t + 1, ht⟩))
    {buf : Arr1 α} (hb : buf.n = nc) (hb' : ∀ i, nc ≤ i → buf.cell i = none)
    {p q : Nat → Bool} (hp : p t) (hq : ∀ s, q s = (p s || decide (s = t + 1))) {t' : Int}
    (ht' : t' = (t + 1 : Nat)) :
    ∃ buf', forwardLogBody (inp2 tm nc nc) (inp2 fp n nc) nc t' (buf, part R none p) =
      .ok (buf', part R none q) ∧ buf'.n = nc ∧ ∀ i, nc ≤ i → buf'.cell i = none := by
  subst ht' hR
  have ht2 : t < R.length := by omega
  unfold forwardLogBody
  obtain ⟨⟨buf', fwd⟩, e, h1, h2, h3⟩ := forUp_inv (lo := 0) (hi := nc) (s := (buf, part R none p))
    (body := fun j (s : Arr1 α × Arr2 α) => do
      let buf ← forUp 0 nc s.1 fun i buf => do
        buf.set i ((← s.2.get (((t + 1 : Nat) : Int) - 1) i) + (← (inp2 tm nc nc).get i j))
      let fwd ← s.2.set ((t + 1 : Nat) : Int) j
        ((← logsumexp buf.get nc) + (← (inp2 fp R.length nc).get ((t + 1 : Nat) : Int) j))
      return (buf, fwd))
    nc (by omega)
    (fun k s => s.1.n = nc ∧ (∀ i, nc ≤ i → s.1.cell i = none) ∧
      s.2 = (part R none p).upd (t + 1) R[t + 1] k) ⟨hb, hb', by simp⟩ (by
    rintro k hk ⟨buf, fwd⟩ ⟨h1, h2, h3⟩
    simp only at h1 h2 h3
    subst h3
    let v : Row α nc := fun i => R[t] i + mat tm nc nc i ⟨k, hk⟩
    have hfill := fillVec (b := buf) h1 v (m := nc) rfl (body := fun i buf => do
        buf.set i ((← ((part R none p).upd (t + 1) R[t + 1] k).get (((t + 1 : Nat) : Int) - 1) i) +
          (← (inp2 tm nc nc).get i ((0 : Int) + k)))) fun i hi => by
      rw [upd_get_ne (s := t) (by omega) (by omega), part_get ht2 hp ⟨i, hi⟩ (by omega) rfl, ok_bind,
        inp2_get ⟨i, hi⟩ ⟨k, hk⟩ rfl (by simp), ok_bind]
    simp only
    rw [hfill, ok_bind, Arr1.upd_full h1 h2,
      logsumexp_eq (v := v) (fun i => Arr1.ofRow_get v i) rfl, ok_bind,
      inp2_get ⟨t + 1, ht⟩ ⟨k, hk⟩ rfl (by simp), ok_bind]
    have hv : Hmmc.logsumexp v + mat fp R.length nc ⟨t + 1, ht⟩ ⟨k, hk⟩ = R[t + 1] ⟨k, hk⟩ := by
      rw [hrow ht ht2]; rfl
    rw [hv, Arr2.upd_set _ (t + 1) R[t + 1] hk ht hk rfl (by simp), ok_bind]
    refine ⟨_, rfl, rfl, fun i hi => ?_, rfl⟩
    simp [Arr1.ofRow, rowCell, Nat.not_lt.2 hi])
  refine ⟨buf', ?_, h1, h2⟩
  have h3' : fwd = part R none q := h3.trans (part_upd ht hq)
  rw [← h3']
  exact e

/-- `forward_log` computes `Hmmc.forwardLog`. -/
theorem forwardLog_eq [NeZero nc] {n : Nat} {sp tm fp : PyArray α} (hs : sp.shape = [nc])
    (ht : tm.shape = [nc, nc]) (hf : fp.shape = [n + 1, nc]) :
    forwardLog sp tm fp =
      (Hmmc.forwardLog (vec sp nc) (mat tm nc nc) (List.ofFn (mat fp (n + 1) nc))).map
        fun r => (r.1, Arr2.ofRows r.2) := by
  let B := mat fp (n + 1) nc
  let logA := Hmmc.logMat (mat tm nc nc)
  let r0 : Row α nc := fun i => Hmmc.logRow (vec sp nc) i + B 0 i
  let l : List (Row α nc) := List.ofFn fun t : Fin n => B t.succ
  let R := r0 :: Hmmc.forwardLogLoop logA r0 l
  have h0 : ∀ r : Row α nc, Hmmc.forwardLogLoop logA r [] = [] := fun r => rfl
  have h1 : ∀ (r : Row α nc) b l, Hmmc.forwardLogLoop logA r (b :: l) =
      Hmmc.fwdLogRow logA r b :: Hmmc.forwardLogLoop logA (Hmmc.fwdLogRow logA r b) l := by
    intro r b l; simp [Hmmc.forwardLogLoop]
  have hlen : R.length = n + 1 := by simp [R, loop_length h0 h1, l]
  have hrow : ∀ t (ht : t + 1 < n + 1) (h1 : t + 1 < R.length) (h2 : t < R.length),
      R[t + 1] = Hmmc.fwdLogRow logA R[t] (B ⟨t + 1, ht⟩) := by
    intro t ht ha hb
    have := loop_get h0 h1 l r0 t (by simp [l]; omega) ha hb
    simpa [l, R] using this
  have htyped : Hmmc.forwardLog (vec sp nc) (mat tm nc nc) (List.ofFn B) =
      .ok (Hmmc.logsumexp (R.getLast (by simp [R])), R) := by
    rw [List.ofFn_succ]
    simp [Hmmc.forwardLog, R, r0, logA, l]
  rw [htyped]
  unfold forwardLog
  rw [unchecked1_eq (a := logArr sp) hs, ok_bind, unchecked2_eq (a := logArr tm) ht, ok_bind,
    unchecked2_eq hf, ok_bind]
  simp only [inp1_n, inp2_rows, inp2_cols, ne_eq, not_true_eq_false, or_self, if_false]
  rw [alloc_eq_part R hlen, fillPart (t := 0) (q := fun s => decide (s < 0 + 1)) (by omega)
    (by intro s; simp) rfl (fun k hk => by
      rw [inp1_get ⟨k, hk⟩ rfl, ok_bind, inp2_get (a := fp) (m := n + 1) (i' := 0) 0 ⟨k, hk⟩ (by simp) rfl,
        ok_bind]
      rfl), ok_bind]
  obtain ⟨⟨buf', fwd⟩, e, _, _, h3⟩ := forUp_inv (lo := 1) (hi := (n + 1 : Nat))
    (s := (Arr1.filled nc 0, part R none fun s => decide (s < 0 + 1)))
    (body := forwardLogBody (inp2 (logArr tm) nc nc) (inp2 fp (n + 1) nc) nc)
    n (by omega)
    (fun k s => s.1.n = nc ∧ (∀ i, nc ≤ i → s.1.cell i = none) ∧
      s.2 = part R none fun s => decide (s < k + 1))
    ⟨rfl, fun i hi => by simp [Arr1.filled, Nat.not_lt.2 hi], rfl⟩ (by
    rintro k hk ⟨buf, fwd⟩ ⟨h1, h2, h3⟩
    simp only at h1 h2 h3
    subst h3
    obtain ⟨buf', e, h1', h2'⟩ := forwardLogBody_eq (tm := logArr tm) (fp := fp) hlen (t := k)
      (by omega) (fun ha hb => hrow k (by omega) ha hb) h1 h2 (p := fun s => decide (s < k + 1))
      (q := fun s => decide (s < k + 1 + 1)) (by simp) (by
        intro s
        have : s < k + 1 + 1 ↔ s < k + 1 ∨ s = k + 1 := by omega
        simp [this]) (t' := 1 + (k : Int)) (by omega)
    exact ⟨_, e, h1', h2', rfl⟩)
  simp only at h3
  rw [e, ok_bind]
  simp only
  have hall : fwd = part R none fun s => decide (s < n + 1) := h3
  rw [logsumexp_eq (v := R.getLast (by simp [R])) (fun i => by
    rw [hall, part_get (t := n) (by omega) (by simp) i (by simp) rfl, getLast_eq hlen]) rfl, ok_bind, hall, part_all R none (by simp [hlen])]
  rfl

end ForwardLog

end Verif.Raw
