import Verif.Model.EmissionUtil
import Verif.Proofs.FitFamily
import Mathlib.Analysis.SpecialFunctions.Log.Basic
import Mathlib.Data.Nat.Factorial.Basic

/-!
# The numpy/scipy helpers of the emission families on real numbers
-/

namespace Verif
open FloatLike XF Hmmc Spec
open scoped Classical

variable {nc : ℕ} {Obs D : Type}

theorem sumL_ofFn {m : ℕ} (f : Fin m → ℝ) : sumL (List.ofFn fun t => fin (f t)) = fin (∑ t, f t) := by
  have : (List.ofFn fun t => fin (f t)) = (List.ofFn f).map fin := by
    rw [List.map_ofFn]; rfl
  rw [this, sumL_fin, List.sum_ofFn]

theorem sumPost_ofFn {m : ℕ} (p : Fin m → Fin nc → ℝ) (i : Fin nc) :
    sumPost (List.ofFn fun t i => fin (p t i)) i = fin (∑ t, p t i) := by
  unfold sumPost
  rw [List.map_ofFn]
  exact sumL_ofFn fun t => p t i

theorem dotPost_ofFn {m : ℕ} (p : Fin m → Fin nc → ℝ) (x : Fin m → Obs) (f : Obs → XF)
    (g : Fin m → ℝ) (hf : ∀ t, f (x t) = fin (g t)) (i : Fin nc) :
    dotPost (List.ofFn fun t i => fin (p t i)) (List.ofFn x) f i = fin (∑ t, p t i * g t) := by
  unfold dotPost
  have : List.zipWith (fun (p : Row XF nc) x => p i * f x) (List.ofFn fun t i => fin (p t i))
      (List.ofFn x) = List.ofFn fun t => fin (p t i * g t) := by
    apply List.ext_getElem
    · simp
    · intro j h1 h2
      simp [hf]
  rw [this, sumL_ofFn]

theorem prodF_fin {n : ℕ} (f : Fin n → ℝ) : prodF (fun i => fin (f i)) = fin (∏ i, f i) := by
  unfold prodF
  have : ∀ (l : List (Fin n)) (a : ℝ), l.foldl (fun acc i => acc * fin (f i)) (fin a) =
      fin (a * (l.map f).prod) := by
    intro l
    induction l with
    | nil => intro a; simp
    | cons x l ih =>
      intro a
      simp only [List.foldl_cons, fin_mul, ih, List.map_cons, List.prod_cons, mul_assoc]
  rw [one_def, this, one_mul, ← List.ofFn_eq_map, List.prod_ofFn]

theorem sumF_lg {n : ℕ} (f : Fin n → ℝ) (hf : ∀ i, 0 ≤ f i) :
    sumF (fun i => lg (f i)) = lg (∏ i, f i) := by
  unfold sumF
  have : ∀ (l : List (Fin n)) (a : ℝ), 0 ≤ a → l.foldl (fun acc i => acc + lg (f i)) (lg a) =
      lg (a * (l.map f).prod) := by
    intro l
    induction l with
    | nil => intro a _; simp
    | cons x l ih =>
      intro a ha
      simp only [List.foldl_cons]
      rw [lg_mul ha (hf x), ih _ (mul_nonneg ha (hf x)), List.map_cons, List.prod_cons, mul_assoc]
  have h := this (List.finRange n) 1 zero_le_one
  rw [lg_one] at h
  rw [zero_def, h, one_mul, ← List.ofFn_eq_map, List.prod_ofFn]

theorem logFactorial_eq (k : ℕ) : (logFactorial k : XF) = lg (k.factorial : ℝ) := by
  unfold logFactorial
  induction k with
  | zero => simp
  | succ k ih =>
    rw [List.range_succ, List.foldl_append, ih]
    simp only [List.foldl_cons, List.foldl_nil, ofNat'_def, lg_def]
    rw [lg_mul (by positivity) (by positivity), Nat.factorial_succ]
    congr 1; push_cast; ring

theorem xlogy_fin (k : ℕ) {y : ℝ} (hy : 0 ≤ y) : xlogy k (fin y) = lg (y ^ k) := by
  unfold xlogy
  by_cases hk : k = 0
  · simp [hk]
  · simp only [hk, false_and, if_false, ofNat'_def, lg_def]
    rcases hy.eq_or_lt with h0 | hpos
    · subst h0
      rw [zero_pow hk, lg_zero]
      show infMul (-(k : ℝ)) = ninf
      have : (0 : ℝ) < k := by exact_mod_cast Nat.pos_of_ne_zero hk
      unfold infMul
      rw [if_neg (by linarith), if_neg (by linarith)]
    · rw [lg_pos hpos, lg_pos (pow_pos hpos k), fin_mul, Real.log_pow]

theorem lg_sub_fin {x y : ℝ} (hx : 0 ≤ x) : (lg x - fin y : XF) = lg (x * Real.exp (-y)) := by
  have : fin y = lg (Real.exp y) := by rw [lg_pos (Real.exp_pos _), Real.log_exp]
  rw [this, lg_div hx (Real.exp_pos _), Real.exp_neg, div_eq_mul_inv]

/-! ## Expected counts -/

section
variable {π : Fin nc → ℝ} {A : Fin nc → Fin nc → ℝ} {b : D → Fin nc → ℝ} {ss : List (ObsSeq D)}

/-- Frames the state cannot have emitted do not count. -/
theorem obsStat_congr {i : Fin nc} {f g : D → ℝ}
    (h : ∀ s ∈ ss, ∀ t, posterior π A (s.weights b) t i ≠ 0 → f (s.x t) = g (s.x t)) :
    obsStat π A b ss i f = obsStat π A b ss i g := by
  unfold obsStat
  congr 1
  refine List.map_congr_left fun s hs => Finset.sum_congr rfl fun t _ => ?_
  by_cases h0 : posterior π A (s.weights b) t i = 0
  · simp [h0]
  · rw [h s hs t h0]

theorem posterior_nonneg' (hπ : ∀ i, 0 ≤ π i) (hA : ∀ i j, 0 ≤ A i j) (hb : ∀ o i, 0 ≤ b o i)
    (s : ObsSeq D) (t : Fin (s.n + 1)) (i : Fin nc) : 0 ≤ posterior π A (s.weights b) t i :=
  div_nonneg (stateMass_nonneg hπ hA (fun t => hb _) t i) (likelihood_nonneg hπ hA fun t => hb _)

/-- A zero expected count means the counted event never happens. -/
theorem eq_zero_of_obsStat (hπ : ∀ i, 0 ≤ π i) (hA : ∀ i j, 0 ≤ A i j) (hb : ∀ o i, 0 ≤ b o i)
    {i : Fin nc} {f : D → ℝ} (hf : ∀ o, 0 ≤ f o) (h : obsStat π A b ss i f = 0) :
    ∀ s ∈ ss, ∀ t, posterior π A (s.weights b) t i ≠ 0 → f (s.x t) = 0 := by
  intro s hs t hne
  have hp := posterior_nonneg' hπ hA hb
  have h1 : ∑ t, posterior π A (s.weights b) t i * f (s.x t) ≤ obsStat π A b ss i f :=
    le_list_sum ss (f := fun s => ∑ t, posterior π A (s.weights b) t i * f (s.x t))
      (fun s _ => Finset.sum_nonneg fun t _ => mul_nonneg (hp s t i) (hf _)) hs
  have h2 : posterior π A (s.weights b) t i * f (s.x t) ≤
      ∑ t, posterior π A (s.weights b) t i * f (s.x t) :=
    Finset.single_le_sum (f := fun t => posterior π A (s.weights b) t i * f (s.x t))
      (fun t _ => mul_nonneg (hp s t i) (hf _)) (Finset.mem_univ t)
  have h3 := mul_nonneg (hp s t i) (hf (s.x t))
  have h4 : posterior π A (s.weights b) t i * f (s.x t) = 0 := by linarith
  exact (mul_eq_zero.1 h4).resolve_left hne

theorem PosLin.zero {T : Fin nc → (D → ℝ) → ℝ} (hT : PosLin T) (i : Fin nc) :
    T i (fun _ => 0) = 0 := by
  have := hT.smul i 0 fun _ => 0
  simpa using this

theorem PosLin.sum {ι : Type*} {T : Fin nc → (D → ℝ) → ℝ} (hT : PosLin T) (i : Fin nc) (s : Finset ι)
    (f : ι → D → ℝ) : T i (fun o => ∑ k ∈ s, f k o) = ∑ k ∈ s, T i (f k) := by
  induction s using Finset.induction_on with
  | empty => simpa using hT.zero i
  | insert a s ha ih => simp only [Finset.sum_insert ha, hT.add, ih]

theorem PosLin.mul_const {T : Fin nc → (D → ℝ) → ℝ} (hT : PosLin T) (i : Fin nc) (f : D → ℝ) (c : ℝ) :
    T i (fun o => f o * c) = T i f * c := by
  simp only [mul_comm _ c, hT.smul]

theorem PosLin.const {T : Fin nc → (D → ℝ) → ℝ} (hT : PosLin T) (i : Fin nc) (c : ℝ) :
    T i (fun _ => c) = T i (fun _ => 1) * c := by
  have := hT.mul_const i (fun _ => 1) c
  simpa using this

theorem PosLin.sub {T : Fin nc → (D → ℝ) → ℝ} (hT : PosLin T) (i : Fin nc) (f g : D → ℝ) :
    T i (fun o => f o - g o) = T i f - T i g := by
  have h1 := hT.add i f fun o => -1 * g o
  rw [hT.smul] at h1
  have : (fun o => f o - g o) = fun o => f o + -1 * g o := by funext o; ring
  rw [this, h1]; ring

theorem PosLin.mono {T : Fin nc → (D → ℝ) → ℝ} (hT : PosLin T) (i : Fin nc) {f g : D → ℝ}
    (h : ∀ o, f o ≤ g o) : T i f ≤ T i g := by
  have := hT.nonneg i (fun o => g o - f o) fun o => sub_nonneg.2 (h o)
  rw [hT.sub] at this
  linarith

end
end Verif
