import Verif.Num.XF
import Verif.Model.Hmmc
import Mathlib.Tactic.Linarith
import Mathlib.Tactic.FieldSimp
import Mathlib.Tactic.Positivity
import Mathlib.Algebra.Order.BigOperators.Group.Finset
import Mathlib.Algebra.BigOperators.Field

/-!
# Basic facts about `XF`

`lg x = log (fin x)` turns non-negative reals with `+`, `*`, `max` into the
log-domain operations of `_hmmc.cpp` (`logsumexp`/`logaddexp`, `+`, `std::max`).
-/

namespace Verif
open FloatLike
open scoped Classical

namespace XF

@[simp] theorem zero_def : (0 : XF) = fin 0 := rfl
@[simp] theorem one_def : (1 : XF) = fin 1 := rfl
@[simp] theorem negInf_def : (negInf : XF) = ninf := rfl
@[simp] theorem posInf_def : (posInf : XF) = pinf := rfl
@[simp] theorem nan_def : (FloatLike.nan : XF) = nan := rfl
@[simp] theorem fin_add (a b : ℝ) : (fin a + fin b : XF) = fin (a + b) := rfl
@[simp] theorem fin_neg (a : ℝ) : (-(fin a) : XF) = fin (-a) := rfl
@[simp] theorem fin_sub (a b : ℝ) : (fin a - fin b : XF) = fin (a - b) := by
  show fin (a + -b) = _; rw [sub_eq_add_neg]
@[simp] theorem fin_mul (a b : ℝ) : (fin a * fin b : XF) = fin (a * b) := rfl
theorem fin_div (a b : ℝ) (hb : b ≠ 0) : (fin a / fin b : XF) = fin (a / b) := if_neg hb
theorem fin_div_eq (a b : ℝ) :
    (fin a / fin b : XF) = if b = 0 then infMul a else fin (a / b) := rfl
@[simp] theorem fin_lt (a b : ℝ) : FloatLike.lt (fin a) (fin b) = decide (a < b) := rfl
@[simp] theorem fin_le (a b : ℝ) : FloatLike.le (fin a) (fin b) = decide (a ≤ b) := by
  show (decide (a < b) || decide (a = b)) = _
  simp [le_iff_lt_or_eq]
@[simp] theorem fin_eq (a b : ℝ) : FloatLike.eq (fin a) (fin b) = decide (a = b) := rfl
@[simp] theorem fin_exp (a : ℝ) : FloatLike.exp (fin a) = fin (Real.exp a) := rfl
@[simp] theorem ninf_exp : FloatLike.exp ninf = fin 0 := rfl
@[simp] theorem fin_abs (a : ℝ) : FloatLike.abs (fin a) = fin |a| := rfl
@[simp] theorem fin_isInf (a : ℝ) : FloatLike.isInf (fin a) = false := rfl
@[simp] theorem ninf_isInf : FloatLike.isInf ninf = true := rfl
@[simp] theorem pinf_isInf : FloatLike.isInf pinf = true := rfl
@[simp] theorem nan_isInf : FloatLike.isInf nan = false := rfl
@[simp] theorem fin_isNaN (a : ℝ) : FloatLike.isNaN (fin a) = false := rfl
@[simp] theorem ninf_isNaN : FloatLike.isNaN ninf = false := rfl
@[simp] theorem pinf_isNaN : FloatLike.isNaN pinf = false := rfl
@[simp] theorem nan_isNaN : FloatLike.isNaN nan = true := rfl
@[simp] theorem ofRat_def (q : ℚ) : (ofRat q : XF) = fin (q : ℝ) := rfl
@[simp] theorem ofNat'_def (n : ℕ) : (ofNat' n : XF) = fin (n : ℝ) := by
  simp [ofNat']
@[simp] theorem ofInt'_def (n : ℤ) : (ofInt' n : XF) = fin (n : ℝ) := by
  simp [ofInt']
@[simp] theorem pi_def : (FloatLike.pi : XF) = fin Real.pi := rfl
@[simp] theorem ninf_add_fin (a : ℝ) : (ninf + fin a : XF) = ninf := rfl
@[simp] theorem fin_add_ninf (a : ℝ) : (fin a + ninf : XF) = ninf := rfl
@[simp] theorem ninf_add_ninf : (ninf + ninf : XF) = ninf := rfl
@[simp] theorem ninf_sub_fin (a : ℝ) : (ninf - fin a : XF) = ninf := rfl
@[simp] theorem ninf_sub_ninf : (ninf - ninf : XF) = nan := rfl
@[simp] theorem nan_add (a : XF) : (nan + a : XF) = nan := by cases a <;> rfl
@[simp] theorem add_nan (a : XF) : (a + nan : XF) = nan := by cases a <;> rfl
@[simp] theorem nan_sub (a : XF) : (nan - a : XF) = nan := by cases a <;> rfl
@[simp] theorem nan_mul (a : XF) : (nan * a : XF) = nan := by cases a <;> rfl
@[simp] theorem mul_nan (a : XF) : (a * nan : XF) = nan := by cases a <;> rfl
@[simp] theorem nan_div (a : XF) : (nan / a : XF) = nan := by cases a <;> rfl
@[simp] theorem nan_exp : FloatLike.exp nan = nan := rfl
@[simp] theorem nan_log : FloatLike.log nan = nan := rfl
@[simp] theorem ninf_eq_ninf : FloatLike.eq ninf ninf = true := rfl
@[simp] theorem fin_eq_ninf (a : ℝ) : FloatLike.eq (fin a) ninf = false := rfl
@[simp] theorem nan_lt (a : XF) : FloatLike.lt nan a = false := rfl
@[simp] theorem lt_nan (a : XF) : FloatLike.lt a nan = false := by cases a <;> rfl
@[simp] theorem ninf_lt_fin (a : ℝ) : FloatLike.lt ninf (fin a) = true := rfl
@[simp] theorem fin_lt_ninf (a : ℝ) : FloatLike.lt (fin a) ninf = false := rfl
@[simp] theorem ninf_lt_ninf : FloatLike.lt ninf ninf = false := rfl
@[simp] theorem fin_lt_pinf (a : ℝ) : FloatLike.lt (fin a) pinf = true := rfl
@[simp] theorem ninf_lt_pinf : FloatLike.lt ninf pinf = true := rfl
@[simp] theorem pinf_lt (a : XF) : FloatLike.lt pinf a = false := by cases a <;> rfl

theorem fin_injective : Function.Injective fin := fun _ _ h => by injection h
@[simp] theorem fin_inj {a b : ℝ} : fin a = fin b ↔ a = b := ⟨fun h => by injection h, congrArg _⟩

theorem fin_zero_div_zero : (fin 0 / fin 0 : XF) = nan := by simp [fin_div_eq, infMul]

/-- `log` of a finite number. -/
noncomputable def lg (x : ℝ) : XF := FloatLike.log (fin x)

theorem lg_def (x : ℝ) : FloatLike.log (fin x) = lg x := rfl

@[simp] theorem lg_zero : lg 0 = ninf := if_pos rfl

theorem lg_pos {x : ℝ} (h : 0 < x) : lg x = fin (Real.log x) := by
  show (if x = 0 then ninf else if 0 < x then fin (Real.log x) else nan) = _
  rw [if_neg h.ne', if_pos h]

theorem lg_neg {x : ℝ} (h : x < 0) : lg x = nan := by
  show (if x = 0 then ninf else if 0 < x then fin (Real.log x) else nan) = _
  rw [if_neg h.ne, if_neg h.not_gt]

@[simp] theorem lg_one : lg 1 = fin 0 := by rw [lg_pos one_pos, Real.log_one]

theorem lg_mul {x y : ℝ} (hx : 0 ≤ x) (hy : 0 ≤ y) : lg x + lg y = lg (x * y) := by
  rcases hx.eq_or_lt with rfl | hx
  · rcases hy.eq_or_lt with rfl | hy
    · simp
    · simp [lg_pos hy]
  · rcases hy.eq_or_lt with rfl | hy
    · simp [lg_pos hx]
    · rw [lg_pos hx, lg_pos hy, lg_pos (mul_pos hx hy), fin_add, Real.log_mul hx.ne' hy.ne']

theorem lg_div {x y : ℝ} (hx : 0 ≤ x) (hy : 0 < y) : lg x - lg y = lg (x / y) := by
  rcases hx.eq_or_lt with rfl | hx
  · simp [lg_pos hy]
  · rw [lg_pos hx, lg_pos hy, lg_pos (div_pos hx hy), fin_sub, Real.log_div hx.ne' hy.ne']

theorem lg_inv {x : ℝ} (hx : 0 < x) : (fin 0 - lg (1 / x) : XF) = lg x := by
  rw [lg_pos hx, lg_pos (by positivity), fin_sub]; simp

theorem sub_lg_inv {x y : ℝ} (hx : 0 ≤ x) (hy : 0 < y) : lg x - lg (1 / y) = lg (x * y) := by
  rw [lg_div hx (by positivity)]; congr 1; field_simp

@[simp] theorem lg_exp {x : ℝ} (hx : 0 ≤ x) : FloatLike.exp (lg x) = fin x := by
  rcases hx.eq_or_lt with rfl | hx
  · simp
  · rw [lg_pos hx, fin_exp, Real.exp_log hx]

theorem lg_lt {x y : ℝ} (hx : 0 ≤ x) (hy : 0 ≤ y) :
    FloatLike.lt (lg x) (lg y) = decide (x < y) := by
  rcases hx.eq_or_lt with rfl | hx
  · rcases hy.eq_or_lt with rfl | hy
    · simp
    · simp [lg_pos hy, hy]
  · rcases hy.eq_or_lt with rfl | hy
    · simp [lg_pos hx, hx.le]
    · rw [lg_pos hx, lg_pos hy, fin_lt]; simp [Real.log_lt_log_iff hx hy]

theorem lg_injOn {x y : ℝ} (hx : 0 ≤ x) (hy : 0 ≤ y) (h : lg x = lg y) : x = y := by
  have := congrArg FloatLike.exp h
  rwa [lg_exp hx, lg_exp hy, fin_inj] at this

theorem lg_ne_nan {x : ℝ} (hx : 0 ≤ x) : lg x ≠ nan := by
  rcases hx.eq_or_lt with rfl | hx
  · simp
  · rw [lg_pos hx]; simp

end XF

section SumF
open XF

theorem foldl_add_fin {ι : Type} (f : ι → ℝ) (l : List ι) (a : ℝ) :
    l.foldl (fun (acc : XF) i => acc + fin (f i)) (fin a) = fin (a + (l.map f).sum) := by
  induction l generalizing a with
  | nil => simp
  | cons x l ih => simp [ih, add_assoc]

@[simp] theorem sumF_fin {n : ℕ} (f : Fin n → ℝ) : sumF (fun i => fin (f i)) = fin (∑ i, f i) := by
  rw [sumF, zero_def, foldl_add_fin, zero_add, Fin.sum_univ_def]

theorem sumL_fin (l : List ℝ) : sumL (l.map fin) = fin l.sum := by
  have := foldl_add_fin id l 0
  simp only [id] at this
  rw [sumL, List.foldl_map, zero_def, this]; simp

end SumF

namespace Hmmc
open XF

section MaxElement
variable {α : Type} [FloatLike α] {nc : ℕ}

theorem maxFold_spec {K : Type} [LinearOrder K] (v : Row α nc) (key : Fin nc → K)
    (hk : ∀ i j, FloatLike.lt (v i) (v j) = decide (key i < key j)) (l : List (Fin nc)) (b : Fin nc) :
    let r := l.foldl (fun best i => if FloatLike.lt (v best) (v i) then i else best) b
    key b ≤ key r ∧ ∀ i ∈ l, key i ≤ key r := by
  induction l generalizing b with
  | nil => simp
  | cons x l ih =>
    simp only [List.foldl_cons, hk]
    by_cases h : key b < key x
    · have := ih x
      simp only [hk] at this
      simp only [h, decide_true, if_true]
      refine ⟨h.le.trans this.1, ?_⟩
      intro i hi
      rcases List.mem_cons.1 hi with rfl | hi
      · exact this.1
      · exact this.2 i hi
    · have := ih b
      simp only [hk] at this
      simp only [h, decide_false]
      refine ⟨this.1, ?_⟩
      intro i hi
      rcases List.mem_cons.1 hi with rfl | hi
      · exact (not_lt.1 h).trans this.1
      · exact this.2 i hi

/-- `maxElement` returns an index of a maximal entry. -/
theorem le_maxElement [NeZero nc] {K : Type} [LinearOrder K] (v : Row α nc) (key : Fin nc → K)
    (hk : ∀ i j, FloatLike.lt (v i) (v j) = decide (key i < key j)) (i : Fin nc) :
    key i ≤ key (maxElement v) :=
  (maxFold_spec v key hk _ _).2 i (List.mem_finRange i)

theorem maxFold_first {K : Type} [LinearOrder K] (v : Row α nc) (key : Fin nc → K)
    (hk : ∀ i j, FloatLike.lt (v i) (v j) = decide (key i < key j)) (l : List (Fin nc)) (b : Fin nc)
    (hl : (b :: l).Pairwise (· ≤ ·)) :
    let r := l.foldl (fun best i => if FloatLike.lt (v best) (v i) then i else best) b
    ∀ i ∈ b :: l, i < r → key i < key r := by
  induction l generalizing b with
  | nil => simp
  | cons x l ih =>
    have hbl : (b :: l).Pairwise (· ≤ ·) := by
      simp only [List.pairwise_cons, List.mem_cons] at hl ⊢
      exact ⟨fun a ha => hl.1 a (Or.inr ha), hl.2.2⟩
    simp only [List.foldl_cons, hk]
    by_cases h : key b < key x
    · have h1 := ih x hl.tail
      have h2 := maxFold_spec v key hk l x
      simp only [hk] at h1 h2
      simp only [h, decide_true, if_true]
      intro i hi hlt
      rcases List.mem_cons.1 hi with rfl | hi
      · exact h.trans_le h2.1
      · exact h1 i hi hlt
    · have h1 := ih b hbl
      have h2 := maxFold_spec v key hk l b
      simp only [hk] at h1 h2
      simp only [h, decide_false]
      intro i hi hlt
      rcases List.mem_cons.1 hi with rfl | hi
      · exact h1 _ List.mem_cons_self hlt
      rcases List.mem_cons.1 hi with rfl | hi
      · -- `key i ≤ key b`; if `b < r` then `key b < key r`, otherwise `r ≤ b ≤ i`
        have hbi : b ≤ i := by
          simp only [List.pairwise_cons, List.mem_cons] at hl
          exact hl.1 i (Or.inl rfl)
        exact (not_lt.1 h).trans_lt (h1 b List.mem_cons_self (hbi.trans_lt hlt))
      · exact h1 i (List.mem_cons_of_mem _ hi) hlt

/-- `maxElement` returns the first maximal entry. -/
theorem maxElement_first [NeZero nc] {K : Type} [LinearOrder K] (v : Row α nc) (key : Fin nc → K)
    (hk : ∀ i j, FloatLike.lt (v i) (v j) = decide (key i < key j)) (i : Fin nc)
    (hi : i < maxElement v) : key i < key (maxElement v) := by
  refine maxFold_first v key hk (List.finRange nc) 0 ?_ i
    (List.mem_cons_of_mem _ (List.mem_finRange i)) hi
  rw [List.pairwise_cons]
  refine ⟨fun a _ => Fin.zero_le a, ?_⟩
  exact (List.pairwise_lt_finRange nc).imp le_of_lt

end MaxElement

variable {nc : ℕ}

/-- `logsumexp` in the log domain is the sum. -/
theorem logsumexp_lg [NeZero nc] (x : Fin nc → ℝ) (hx : ∀ i, 0 ≤ x i) :
    logsumexp (fun i => lg (x i)) = lg (∑ i, x i) := by
  have hmax := le_maxElement (fun i => lg (x i)) x (fun i j => lg_lt (hx i) (hx j))
  unfold logsumexp
  generalize maxElement (fun i => lg (x i)) = k at hmax
  rcases (hx k).eq_or_lt with h0 | hpos
  · have hz : ∀ i, x i = 0 := fun i => le_antisymm ((hmax i).trans h0.symm.le) (hx i)
    simp [hz]
  · have hS : 0 < ∑ i, x i := lt_of_lt_of_le hpos
      (Finset.single_le_sum (fun i _ => hx i) (Finset.mem_univ k))
    have e : ∀ i, FloatLike.exp (lg (x i) - lg (x k)) = fin (x i / x k) := fun i => by
      rw [lg_div (hx i) hpos, lg_exp (div_nonneg (hx i) hpos.le)]
    simp only [e, sumF_fin]
    rw [if_neg (by simp [lg_pos hpos]), ← Finset.sum_div, lg_def,
      lg_mul (div_nonneg hS.le hpos.le) hpos.le, div_mul_cancel₀ _ hpos.ne']

/-- `logaddexp` in the log domain is addition. -/
theorem logaddexp_lg {x y : ℝ} (hx : 0 ≤ x) (hy : 0 ≤ y) :
    logaddexp (lg x) (lg y) = lg (x + y) := by
  unfold logaddexp
  rcases hx.eq_or_lt with rfl | hx
  · simp
  · rcases hy.eq_or_lt with rfl | hy
    · simp [lg_pos hx]
    · rw [lg_pos hx, lg_pos hy, lg_pos (add_pos hx hy)]
      simp only [negInf_def, fin_eq_ninf, Bool.false_eq_true, if_false, fin_sub, fin_abs, fin_neg,
        fin_exp, stdMax, fin_lt, decide_eq_true_eq]
      have key : ∀ {a b : ℝ}, 0 < a → 0 < b → a ≤ b →
          Real.log b + Real.log (1 + Real.exp (-(Real.log b - Real.log a))) = Real.log (a + b) := by
        intro a b ha hb hab
        rw [← Real.log_div hb.ne' ha.ne', ← Real.log_inv, Real.exp_log (by positivity),
          ← Real.log_mul hb.ne' (by positivity)]
        congr 1; field_simp; ring
      have l1p : ∀ r : ℝ, 0 ≤ r → (log1p (fin r) : XF) = fin (Real.log (1 + r)) := by
        intro r hr
        show XF.log (fin (1 + r)) = _
        exact lg_pos (by linarith)
      rw [l1p _ (Real.exp_pos _).le]
      by_cases hlt : Real.log x < Real.log y
      · have hxy := (Real.log_lt_log_iff hx hy).1 hlt
        rw [if_pos hlt, abs_of_pos (by linarith), fin_add, key hx hy hxy.le]
      · have hyx := (Real.log_le_log_iff hy hx).1 (not_lt.1 hlt)
        have : |Real.log y - Real.log x| = Real.log x - Real.log y := by
          rw [abs_sub_comm, abs_of_nonneg (by linarith)]
        rw [if_neg hlt, this, fin_add, key hy hx hyx, add_comm y x]

end Hmmc
end Verif
