import Verif.Proofs.Kernel

/-!
# The scaling kernels
-/

namespace Verif
open FloatLike XF Hmmc Spec

variable {nc n : ℕ}

/-- `min_sum = 1e-300` as a real number. -/
noncomputable def eps : ℝ := ((1 / 10 ^ 300 : ℚ) : ℝ)

theorem eps_pos : 0 < eps := by
  unfold eps
  have : (0 : ℚ) < 1 / 10 ^ 300 := by positivity
  exact_mod_cast this

theorem minSum_eq : (minSum : XF) = fin eps := rfl

/-- Every prefix likelihood is at least `1e-300` times the previous one. -/
def scaleOk : ℝ → List ℝ → Prop
  | _, [] => True
  | C, L :: Ls => eps ≤ L / C ∧ scaleOk L Ls

/-- Scaling factors: ratios of consecutive prefix likelihoods. -/
noncomputable def scales : ℝ → List ℝ → List ℝ
  | _, [] => []
  | C, L :: Ls => C / L :: scales L Ls

/-- Sum of a row. -/
def rowSum (r : Fin nc → ℝ) : ℝ := ∑ i, r i

/-- Row divided by its sum. -/
noncomputable def normRow (r : Fin nc → ℝ) : Row XF nc := fun i => fin (r i / rowSum r)

@[simp] theorem length_scales (C : ℝ) (Ls : List ℝ) : (scales C Ls).length = Ls.length := by
  induction Ls generalizing C with
  | nil => rfl
  | cons L Ls ih => simp [scales, ih]

theorem scaleOk_pos {C : ℝ} (hC : 0 < C) {Ls : List ℝ} (h : scaleOk C Ls) : ∀ L ∈ Ls, 0 < L := by
  induction Ls generalizing C with
  | nil => simp
  | cons L Ls ih =>
    have hL : 0 < L := by
      have := eps_pos.trans_le h.1
      exact (div_pos_iff_of_pos_right hC).1 this
    intro x hx
    rcases List.mem_cons.1 hx with rfl | hx
    · exact hL
    · exact ih hL h.2 x hx

open Classical in
theorem scaleRow_fin (r : Fin nc → ℝ) :
    scaleRow (finRow r) = if rowSum r < eps then .error .underflow
      else .ok (fin (1 / rowSum r), normRow r) := by
  unfold scaleRow
  have hs : sumF (finRow r) = fin (rowSum r) := sumF_fin r
  simp only [hs, minSum_eq, fin_lt, decide_eq_true_eq, memo_eq, one_def]
  by_cases h : rowSum r < eps
  · simp [h]
  · have h0 : rowSum r ≠ 0 := (eps_pos.trans_le (not_lt.1 h)).ne'
    simp only [h, if_false]
    rw [fin_div _ _ h0]
    congr 2
    funext i
    show fin (r i * (1 / rowSum r)) = fin (r i / rowSum r)
    congr 1; ring

theorem fwdScalingRow_fin (A : Fin nc → Fin nc → ℝ) (r b : Fin nc → ℝ) :
    fwdScalingRow (finMat A) (finRow r) (finRow b) = finRow fun j => push A r j * b j := by
  funext j
  simp only [fwdScalingRow, finMat, finRow, fin_mul, sumF_fin]
  rfl

open Classical in
theorem forwardScalingLoop_fin (A : Fin nc → Fin nc → ℝ) (bs : List (Fin nc → ℝ)) {C : ℝ}
    (hC : 0 < C) (r : Fin nc → ℝ) :
    forwardScalingLoop (finMat A) (finRow fun i => r i / C) (lg C) (bs.map finRow) =
      if scaleOk C ((rfwd A (push A r) bs).map rowSum) then
        .ok (lg (((rfwd A (push A r) bs).map rowSum).getLastD C),
          (rfwd A (push A r) bs).map normRow,
          (scales C ((rfwd A (push A r) bs).map rowSum)).map fin)
      else .error .underflow := by
  induction bs generalizing C r with
  | nil => simp [rfwd, forwardScalingLoop, scaleOk, scales]
  | cons b bs ih =>
    simp only [List.map_cons, forwardScalingLoop, memo_eq, fwdScalingRow_fin, scaleRow_fin, rfwd]
    set row : Fin nc → ℝ := fun i => push A r i * b i with hrow
    have hdiv : (fun j => push A (fun i => r i / C) j * b j) = fun j => row j / C := by
      funext j
      simp only [hrow, push, Finset.sum_mul, Finset.sum_div]
      exact Finset.sum_congr rfl fun i _ => by ring
    have hsum : rowSum (fun j => row j / C) = rowSum row / C := by
      simp [rowSum, Finset.sum_div]
    simp only [hdiv, hsum, scaleOk]
    by_cases h : rowSum row / C < eps
    · simp [h]
    · have hle := not_lt.1 h
      have hL : 0 < rowSum row := (div_pos_iff_of_pos_right hC).1 (eps_pos.trans_le hle)
      have hn : normRow (fun j => row j / C) = finRow fun i => row i / rowSum row := by
        funext i
        simp only [normRow, finRow, hsum]
        congr 1; field_simp
      have hlog : lg C - FloatLike.log (fin (1 / (rowSum row / C))) = lg (rowSum row) := by
        rw [lg_def, sub_lg_inv hC.le (by positivity)]
        congr 1; field_simp
      simp only [h, if_false, hlog, hn, ih hL, hle, true_and, scales]
      by_cases h2 : scaleOk (rowSum row) ((rfwd A (push A row) bs).map rowSum)
      · simp only [h2, if_true, List.getLastD_cons, List.map_cons]
        congr 3
        congr 1
        congr 1
        rw [one_div, inv_div]
      · simp [h2]

open Classical in
theorem forwardScaling_fin (p : Fin nc → ℝ) (A : Fin nc → Fin nc → ℝ) (bs : List (Fin nc → ℝ))
    (hne : bs ≠ []) :
    forwardScaling (finRow p) (finMat A) (bs.map finRow) =
      if scaleOk 1 ((rfwd A p bs).map rowSum) then
        .ok (lg (((rfwd A p bs).map rowSum).getLastD 1), (rfwd A p bs).map normRow,
          (scales 1 ((rfwd A p bs).map rowSum)).map fin)
      else .error .underflow := by
  cases bs with
  | nil => exact absurd rfl hne
  | cons b bs =>
    set row : Fin nc → ℝ := fun i => p i * b i with hrow
    have e : (fun i => finRow p i * finRow b i) = finRow row := rfl
    simp only [List.map_cons, forwardScaling, memo_eq, rfwd, e, scaleRow_fin, scaleOk, div_one]
    by_cases h : rowSum row < eps
    · simp [h, ← hrow]
    · have hle := not_lt.1 h
      have hL : 0 < rowSum row := eps_pos.trans_le hle
      have hn : normRow row = finRow fun i => row i / rowSum row := rfl
      have hlog : (0 : XF) - FloatLike.log (fin (1 / rowSum row)) = lg (rowSum row) := by
        rw [lg_def, zero_def, lg_inv hL]
      simp only [h, if_false, hlog, hn, forwardScalingLoop_fin A bs hL, hle, true_and, scales,
        ← hrow]
      by_cases h2 : scaleOk (rowSum row) ((rfwd A (push A row) bs).map rowSum)
      · simp only [h2, if_true, List.getLastD_cons, List.map_cons]
      · simp [h2]

/-- The scaled backward lattice: `β_t · L_{t-1} / L_T`. -/
noncomputable def bwdS (A : Fin nc → Fin nc → ℝ) :
    ℝ → List (Fin nc → ℝ) → List ℝ → List (Fin nc → ℝ)
  | _, [], _ => []
  | _, _ :: _, [] => []
  | C, _ :: bs, L :: Ls => (fun i => beta A bs i * (C / Ls.getLastD L)) :: bwdS A L bs Ls

theorem getLastD_pos {C : ℝ} (hC : 0 < C) {Ls : List ℝ} (h : ∀ L ∈ Ls, 0 < L) :
    0 < Ls.getLastD C := by
  cases Ls with
  | nil => exact hC
  | cons L Ls =>
    rw [List.getLastD_cons, List.getLastD_eq_getLast?]
    cases hl : Ls.getLast? with
    | none => exact h L List.mem_cons_self
    | some x => exact h x (List.mem_cons_of_mem _ (List.mem_of_getLast? hl))

theorem backwardScalingLoop_fin (A : Fin nc → Fin nc → ℝ) (bs : List (Fin nc → ℝ)) (Ls : List ℝ)
    (hlen : Ls.length = bs.length) (C : ℝ) (hpos : ∀ L ∈ Ls, 0 < L) :
    backwardScalingLoop (finMat A) ((bs.map finRow).zip ((scales C Ls).map fin)) =
      (bwdS A C bs Ls).map finRow := by
  induction bs generalizing C Ls with
  | nil => rfl
  | cons b bs ih =>
    cases Ls with
    | nil => simp at hlen
    | cons L Ls =>
      have hlen' : Ls.length = bs.length := by simpa using hlen
      have ih := ih Ls hlen' L (fun x hx => hpos x (List.mem_cons_of_mem _ hx))
      cases bs with
      | nil =>
        cases Ls with
        | cons => simp at hlen'
        | nil =>
          simp only [scales, List.map_cons, List.map_nil, List.zip_cons_cons, List.zip_nil_right,
            backwardScalingLoop, bwdS, beta, List.getLastD_nil, one_mul]
          rfl
      | cons b' bs =>
        cases Ls with
        | nil => simp at hlen'
        | cons L' Ls =>
          simp only [scales, List.map_cons, List.zip_cons_cons, bwdS] at ih
          simp only [scales, List.map_cons, List.zip_cons_cons, backwardScalingLoop, bwdS, ih,
            memo_eq]
          congr 1
          funext i
          simp only [finMat, finRow, fin_mul, sumF_fin, List.getLastD_cons, beta]
          congr 1
          have hL : L ≠ 0 := (hpos L List.mem_cons_self).ne'
          rw [Finset.sum_mul, Finset.sum_mul]
          refine Finset.sum_congr rfl fun j _ => ?_
          field_simp

theorem length_map_rowSum (A : Fin nc → Fin nc → ℝ) (p : Fin nc → ℝ) (bs : List (Fin nc → ℝ)) :
    ((rfwd A p bs).map rowSum).length = bs.length := by simp

theorem backwardScaling_fin (A : Fin nc → Fin nc → ℝ) (bs : List (Fin nc → ℝ)) (Ls : List ℝ)
    (hne : bs ≠ []) (hlen : Ls.length = bs.length) (C : ℝ) (hpos : ∀ L ∈ Ls, 0 < L) :
    backwardScaling (finMat A) (bs.map finRow) ((scales C Ls).map fin) =
      .ok ((bwdS A C bs Ls).map finRow) := by
  unfold backwardScaling
  rw [if_neg (by simp [hlen]), if_neg (by simpa using hne), backwardScalingLoop_fin A bs Ls hlen C hpos]

/-- `Σ_i α_0(i) β_0(i)` equals the sum of the last forward row. -/
theorem sum_head_beta (A : Fin nc → Fin nc → ℝ) (bs : List (Fin nc → ℝ)) (r : Fin nc → ℝ) :
    ∑ i, r i * beta A bs i = ((rfwd A (push A r) bs).map rowSum).getLastD (rowSum r) := by
  induction bs generalizing r with
  | nil => simp [beta, rfwd, rowSum]
  | cons b bs ih =>
    simp only [rfwd, List.map_cons, List.getLastD_cons]
    rw [← ih]
    simp only [beta, push, Finset.mul_sum, Finset.sum_mul]
    rw [Finset.sum_comm]
    refine Finset.sum_congr rfl fun j _ => Finset.sum_congr rfl fun i _ => ?_
    ring

section
variable [NeZero nc]

theorem computePosteriorsScaling_fin (A : Fin nc → Fin nc → ℝ) (bs : List (Fin nc → ℝ))
    (p : Fin nc → ℝ) {C : ℝ} (hC : 0 < C) (hpos : ∀ L ∈ (rfwd A p bs).map rowSum, 0 < L) :
    computePosteriorsScaling ((rfwd A p bs).map normRow)
        ((bwdS A C bs ((rfwd A p bs).map rowSum)).map finRow) =
      (List.zipWith (fun f w i => f i * w i) (rfwd A p bs) (rbwd A bs)).map
        (fun r => finRow fun i => r i / ((rfwd A p bs).map rowSum).getLastD 1) := by
  induction bs generalizing p C with
  | nil => rfl
  | cons b bs ih =>
    set row : Fin nc → ℝ := fun i => p i * b i with hrow
    have hrest : ∀ L ∈ (rfwd A (push A row) bs).map rowSum, 0 < L := fun L hL =>
      hpos L (by simp only [rfwd, List.map_cons]; exact List.mem_cons_of_mem _ hL)
    have hL : 0 < rowSum row := hpos _ (by simp only [rfwd, List.map_cons]; exact List.mem_cons_self)
    have ih := ih (push A row) hL hrest
    simp only [computePosteriorsScaling, memo_eq] at ih ⊢
    simp only [rfwd, rbwd, bwdS, List.map_cons, List.zipWith_cons_cons, List.getLastD_cons,
      ← hrow, ih]
    have hlast : 0 < ((rfwd A (push A row) bs).map rowSum).getLastD (rowSum row) :=
      getLastD_pos hL hrest
    have hbeta := sum_head_beta A bs row
    set T := ((rfwd A (push A row) bs).map rowSum).getLastD (rowSum row) with hT
    have hs : ∑ i, row i / rowSum row * (beta A bs i * (C / T)) = C / rowSum row := by
      have : ∀ i, row i / rowSum row * (beta A bs i * (C / T)) =
          row i * beta A bs i * (C / (rowSum row * T)) := fun i => by field_simp
      simp only [this]
      rw [← Finset.sum_mul, hbeta]; field_simp
    congr 1
    · funext i
      have : normalizeRow (fun i => normRow row i * finRow (fun i => beta A bs i * (C / T)) i) i =
          fin (row i * beta A bs i / T) := by
        have h0 : ∑ i, row i / rowSum row * (beta A bs i * (C / T)) ≠ 0 := by
          rw [hs]; positivity
        have := normalizeRow_fin (fun i => row i / rowSum row * (beta A bs i * (C / T))) h0 i
        rw [hs] at this
        simp only [normRow, finRow, fin_mul]
        rw [this]
        congr 1; field_simp
      exact this
    · cases bs with
      | nil => rfl
      | cons b' bs => simp only [hT, rfwd, List.map_cons, List.getLastD_cons]

end

theorem zip_xi_scaling (A : Fin nc → Fin nc → ℝ) (bs : List (Fin nc → ℝ))
    (p : Fin nc → ℝ) {C : ℝ} (hpos : ∀ L ∈ (rfwd A p bs).map rowSum, 0 < L) (i j : Fin nc) :
    ((((rfwd A p bs).map fun r k => r k / rowSum r).zip
        (bs.tail.zip (bwdS A C bs ((rfwd A p bs).map rowSum)).tail)).map
        fun x => x.1 i * A i j * x.2.1 j * x.2.2 j) =
      (((rfwd A p bs).zip (bs.tail.zip (rbwd A bs).tail)).map
        fun x => x.1 i * A i j * x.2.1 j * x.2.2 j).map
        (· / ((rfwd A p bs).map rowSum).getLastD 1) := by
  induction bs generalizing p C with
  | nil => rfl
  | cons b bs ih =>
    set row : Fin nc → ℝ := fun i => p i * b i with hrow
    have hrest : ∀ L ∈ (rfwd A (push A row) bs).map rowSum, 0 < L := fun L hL =>
      hpos L (by simp only [rfwd, List.map_cons]; exact List.mem_cons_of_mem _ hL)
    have hL : 0 < rowSum row := hpos _ (by simp only [rfwd, List.map_cons]; exact List.mem_cons_self)
    have ih := ih (push A row) (C := rowSum row) hrest
    cases bs with
    | nil => rfl
    | cons b' bs =>
      simp only [rfwd, rbwd, bwdS, List.map_cons, List.zip_cons_cons, List.tail_cons,
        List.getLastD_cons] at ih ⊢
      rw [ih]
      congr 1
      simp only [← hrow]
      field_simp

theorem foldl_fin_add {ι : Type} (l : List ι) (f : ι → XF) (g : ι → ℝ)
    (h : ∀ x ∈ l, f x = fin (g x)) (a : ℝ) :
    l.foldl (fun acc x => acc + f x) (fin a) = fin (a + (l.map g).sum) := by
  rw [← foldl_add_fin]
  exact foldl_congr_mem l (fun acc x hx => by rw [h x hx]) _

@[simp] theorem length_bwdS (A : Fin nc → Fin nc → ℝ) (C : ℝ) (bs : List (Fin nc → ℝ))
    (Ls : List ℝ) (h : Ls.length = bs.length) : (bwdS A C bs Ls).length = bs.length := by
  induction bs generalizing C Ls with
  | nil => rfl
  | cons b bs ih => cases Ls with
    | nil => simp at h
    | cons L Ls => simp only [bwdS, List.length_cons]; rw [ih]; simpa using h

theorem computeScalingXiSum_fin (A : Fin nc → Fin nc → ℝ) (bs : List (Fin nc → ℝ))
    (p : Fin nc → ℝ) {C : ℝ} (hpos : ∀ L ∈ (rfwd A p bs).map rowSum, 0 < L) :
    computeScalingXiSum ((rfwd A p bs).map normRow) (finMat A)
        ((bwdS A C bs ((rfwd A p bs).map rowSum)).map finRow) (bs.map finRow) =
      .ok fun i j => fin ((((rfwd A p bs).zip (bs.tail.zip (rbwd A bs).tail)).map
        fun x => x.1 i * A i j * x.2.1 j * x.2.2 j).map
        (· / ((rfwd A p bs).map rowSum).getLastD 1)).sum := by
  unfold computeScalingXiSum
  rw [if_neg (by simp)]
  simp only [memo_eq]
  congr 1; funext i j
  rw [← zip_xi_scaling (C := C) A bs p hpos, ← List.map_tail, ← List.map_tail, zip3_map, List.foldl_map]
  rw [show (0 : XF) = fin 0 from rfl, foldl_fin_add
    (g := fun x => x.1 i / rowSum x.1 * A i j * x.2.1 j * x.2.2 j), zero_add]
  · congr 2
    rw [show (rfwd A p bs).map (fun r k => r k / rowSum r) = (rfwd A p bs).map (fun r k => r k / rowSum r)
      from rfl]
    rw [show (bs.tail.zip (bwdS A C bs ((rfwd A p bs).map rowSum)).tail) =
      ((bs.tail.map id).zip ((bwdS A C bs ((rfwd A p bs).map rowSum)).tail.map id)) by simp]
    rw [zip3_map, List.map_map]
    simp only [List.map_id]
    rfl
  · intro x _
    simp only [normRow, finRow, finMat, fin_mul]

/-! ## Statements on `Fin`-indexed sequences -/

theorem map_rowSum_eq (p : Fin nc → ℝ) (A : Fin nc → Fin nc → ℝ) (B : Fin (n + 1) → Fin nc → ℝ) :
    (rfwd A p (List.ofFn B)).map rowSum = List.ofFn (prefixLikelihood p A B) := map_sum_rfwd p A B

theorem prefixLikelihood_last (p : Fin nc → ℝ) (A : Fin nc → Fin nc → ℝ)
    (B : Fin (n + 1) → Fin nc → ℝ) : prefixLikelihood p A B (Fin.last n) = likelihood p A B := rfl

theorem getLastD_map_rowSum (p : Fin nc → ℝ) (A : Fin nc → Fin nc → ℝ)
    (B : Fin (n + 1) → Fin nc → ℝ) (d : ℝ) :
    ((rfwd A p (List.ofFn B)).map rowSum).getLastD d = likelihood p A B := by
  rw [map_rowSum_eq, List.getLastD_eq_getLast?, List.getLast?_eq_getLast_of_ne_nil (by simp),
    List.getLast_ofFn]
  rfl

theorem scaleOk_ofFn_iff {m : ℕ} (C : ℝ) (L : Fin (m + 1) → ℝ) :
    scaleOk C (List.ofFn L) ↔
      eps ≤ L 0 / C ∧ ∀ t : Fin m, eps ≤ L t.succ / L t.castSucc := by
  induction m generalizing C with
  | zero => simp [scaleOk]
  | succ m ih =>
    rw [List.ofFn_succ]
    simp only [scaleOk]
    rw [ih (L 0) (fun i => L i.succ)]
    constructor
    · rintro ⟨h0, h1, h2⟩
      refine ⟨h0, fun t => ?_⟩
      refine Fin.cases ?_ (fun t => ?_) t
      · exact h1
      · exact h2 t
    · rintro ⟨h0, h1⟩
      refine ⟨h0, ?_, fun t => ?_⟩
      · exact h1 0
      · exact h1 t.succ

theorem eps_eq : eps = 1 / 10 ^ 300 := by
  unfold eps; push_cast; rfl

theorem scaleOk_iff_noUnderflow (p : Fin nc → ℝ) (A : Fin nc → Fin nc → ℝ)
    (B : Fin (n + 1) → Fin nc → ℝ) :
    scaleOk 1 ((rfwd A p (List.ofFn B)).map rowSum) ↔ NoUnderflow p A B := by
  rw [map_rowSum_eq, scaleOk_ofFn_iff, eps_eq, div_one]; rfl

theorem map_finRow_ofFn (B : Fin n → Fin nc → ℝ) :
    (List.ofFn fun t => finRow (B t)) = (List.ofFn B).map finRow := by rw [List.map_ofFn]; rfl

theorem NoUnderflow.likelihood_pos {p : Fin nc → ℝ} {A : Fin nc → Fin nc → ℝ}
    {B : Fin (n + 1) → Fin nc → ℝ} (h : NoUnderflow p A B) : 0 < likelihood p A B := by
  have h1 := scaleOk_pos one_pos ((scaleOk_iff_noUnderflow p A B).2 h)
  rw [map_rowSum_eq] at h1
  exact h1 _ (List.mem_ofFn.2 ⟨Fin.last n, rfl⟩)

open Classical in
theorem forwardScaling_ofFn (p : Fin nc → ℝ) (A : Fin nc → Fin nc → ℝ)
    (B : Fin (n + 1) → Fin nc → ℝ) :
    forwardScaling (finRow p) (finMat A) (List.ofFn fun t => finRow (B t)) =
      if NoUnderflow p A B then
        .ok (lg (likelihood p A B), (rfwd A p (List.ofFn B)).map normRow,
          (scales 1 ((rfwd A p (List.ofFn B)).map rowSum)).map fin)
      else .error .underflow := by
  have hne : List.ofFn B ≠ [] := by simp [List.ofFn_eq_nil_iff]
  rw [map_finRow_ofFn, forwardScaling_fin p A _ hne, getLastD_map_rowSum]
  simp only [scaleOk_iff_noUnderflow]

theorem backwardScaling_ofFn {p : Fin nc → ℝ} {A : Fin nc → Fin nc → ℝ}
    {B : Fin (n + 1) → Fin nc → ℝ} (h : NoUnderflow p A B) :
    backwardScaling (finMat A) (List.ofFn fun t => finRow (B t))
        ((scales 1 ((rfwd A p (List.ofFn B)).map rowSum)).map fin) =
      .ok ((bwdS A 1 (List.ofFn B) ((rfwd A p (List.ofFn B)).map rowSum)).map finRow) := by
  have hne : List.ofFn B ≠ [] := by simp [List.ofFn_eq_nil_iff]
  rw [map_finRow_ofFn, backwardScaling_fin A _ _ hne (by simp) 1]
  exact scaleOk_pos one_pos ((scaleOk_iff_noUnderflow p A B).2 h)

theorem computePosteriorsScaling_posterior [NeZero nc] {p : Fin nc → ℝ} {A : Fin nc → Fin nc → ℝ}
    {B : Fin (n + 1) → Fin nc → ℝ} (h : NoUnderflow p A B) :
    computePosteriorsScaling ((rfwd A p (List.ofFn B)).map normRow)
        ((bwdS A 1 (List.ofFn B) ((rfwd A p (List.ofFn B)).map rowSum)).map finRow) =
      List.ofFn fun t i => fin (posterior p A B t i) := by
  rw [computePosteriorsScaling_fin A _ p one_pos
    (scaleOk_pos one_pos ((scaleOk_iff_noUnderflow p A B).2 h)), zip_fwd_bwd, List.map_ofFn,
    getLastD_map_rowSum]
  rfl

theorem computeScalingXiSum_ofFn {p : Fin nc → ℝ} {A : Fin nc → Fin nc → ℝ}
    {B : Fin (n + 1) → Fin nc → ℝ} (h : NoUnderflow p A B) :
    computeScalingXiSum ((rfwd A p (List.ofFn B)).map normRow) (finMat A)
        ((bwdS A 1 (List.ofFn B) ((rfwd A p (List.ofFn B)).map rowSum)).map finRow)
        (List.ofFn fun t => finRow (B t)) =
      .ok fun i j => fin (expectedTransitions p A B i j) := by
  rw [map_finRow_ofFn, computeScalingXiSum_fin A _ p
    (scaleOk_pos one_pos ((scaleOk_iff_noUnderflow p A B).2 h))]
  congr 1; funext i j
  rw [zip_pairs, List.map_ofFn, List.sum_ofFn, getLastD_map_rowSum]
  rfl

end Verif
