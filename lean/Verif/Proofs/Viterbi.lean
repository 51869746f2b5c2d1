import Verif.Proofs.Kernel
import Verif.Num.Rounded

/-!
# Viterbi: optimality for every arithmetic with a monotone addition

`MonoArith` collects the order facts used; they hold for exact arithmetic
(`xfMono`) and for any monotone rounding of it (`Verif/Props/Decoding.lean`).
-/

namespace Verif
open FloatLike Hmmc Spec

/-- Order facts of an arithmetic on its "valid" values (for doubles: neither NaN nor
`+inf`): comparisons are a linear preorder with least element `-inf`, and addition is
monotone in its first argument. -/
structure MonoArith (α : Type) [FloatLike α] where
  K : Type
  [ord : LinearOrder K]
  key : α → K
  V : α → Prop
  V_negInf : V negInf
  V_add : ∀ a b, V a → V b → V (a + b)
  lt_eq : ∀ a b, V a → V b → FloatLike.lt a b = decide (key a < key b)
  bot : ∀ a, V a → key negInf ≤ key a
  add_mono : ∀ a b c, V a → V b → V c → key a ≤ key b → key (a + c) ≤ key (b + c)

attribute [instance] MonoArith.ord

variable {α : Type} [FloatLike α] {nc n : ℕ} [NeZero nc]

namespace Hmmc

/-- Score of a continuation of a path that is in state `k` with score `s`. -/
def contScore (lA : Mat α nc) : α → Fin nc → List (Row α nc) → List (Fin nc) → α
  | s, k, lb :: lbs, z :: zs => contScore lA (s + lA k z + lb z) z lbs zs
  | s, _, _, _ => s

variable (M : MonoArith α)

theorem contScore_V {lA : Mat α nc} (hA : ∀ i j, M.V (lA i j)) (lbs : List (Row α nc))
    (hb : ∀ lb ∈ lbs, ∀ i, M.V (lb i)) (s : α) (hs : M.V s) (k : Fin nc) (zs : List (Fin nc)) :
    M.V (contScore lA s k lbs zs) := by
  induction lbs generalizing s k zs with
  | nil => cases zs <;> exact hs
  | cons lb lbs ih => cases zs with
    | nil => exact hs
    | cons z zs =>
      exact ih (fun x hx => hb x (List.mem_cons_of_mem _ hx)) _
        (M.V_add _ _ (M.V_add _ _ hs (hA _ _)) (hb lb List.mem_cons_self z)) z zs

theorem contScore_mono {lA : Mat α nc} (hA : ∀ i j, M.V (lA i j)) (lbs : List (Row α nc))
    (hb : ∀ lb ∈ lbs, ∀ i, M.V (lb i)) (s s' : α) (hs : M.V s) (hs' : M.V s')
    (hle : M.key s ≤ M.key s') (k : Fin nc) (zs : List (Fin nc)) :
    M.key (contScore lA s k lbs zs) ≤ M.key (contScore lA s' k lbs zs) := by
  induction lbs generalizing s s' k zs with
  | nil => cases zs <;> exact hle
  | cons lb lbs ih => cases zs with
    | nil => exact hle
    | cons z zs =>
      have v1 := M.V_add _ _ hs (hA k z)
      have v2 := M.V_add _ _ hs' (hA k z)
      have vb := hb lb List.mem_cons_self z
      refine ih (fun x hx => hb x (List.mem_cons_of_mem _ hx)) _ _
        (M.V_add _ _ v1 vb) (M.V_add _ _ v2 vb) ?_ z zs
      exact M.add_mono _ _ _ v1 v2 vb (M.add_mono _ _ _ hs hs' (hA k z) hle)

/-- The `std::max` fold of `viterbiRow`. -/
theorem maxFold_key (f : Fin nc → α) (hf : ∀ i, M.V (f i)) (l : List (Fin nc)) (a : α)
    (ha : M.V a) :
    let r := l.foldl (fun m j => stdMax m (f j)) a
    M.V r ∧ M.key a ≤ M.key r ∧ (∀ i ∈ l, M.key (f i) ≤ M.key r) ∧
      (r = a ∨ ∃ i ∈ l, r = f i) := by
  induction l generalizing a with
  | nil => simp [ha]
  | cons x l ih =>
    simp only [List.foldl_cons]
    have hm : stdMax a (f x) = if M.key a < M.key (f x) then f x else a := by
      simp [stdMax, M.lt_eq a (f x) ha (hf x)]
    by_cases h : M.key a < M.key (f x)
    · rw [hm, if_pos h]
      obtain ⟨h1, h2, h3, h4⟩ := ih (f x) (hf x)
      refine ⟨h1, h.le.trans h2, ?_, ?_⟩
      · intro i hi
        rcases List.mem_cons.1 hi with rfl | hi
        · exact h2
        · exact h3 i hi
      · rcases h4 with h4 | ⟨i, hi, h4⟩
        · exact Or.inr ⟨x, List.mem_cons_self, h4⟩
        · exact Or.inr ⟨i, List.mem_cons_of_mem _ hi, h4⟩
    · rw [hm, if_neg h]
      obtain ⟨h1, h2, h3, h4⟩ := ih a ha
      refine ⟨h1, h2, ?_, ?_⟩
      · intro i hi
        rcases List.mem_cons.1 hi with rfl | hi
        · exact (not_lt.1 h).trans h2
        · exact h3 i hi
      · rcases h4 with h4 | ⟨i, hi, h4⟩
        · exact Or.inl h4
        · exact Or.inr ⟨i, List.mem_cons_of_mem _ hi, h4⟩

/-- The `std::max` fold over pairs of the traceback. -/
theorem pairFold_key (f : Fin nc → α) (hf : ∀ i, M.V (f i)) (l : List (Fin nc))
    (a : α × Fin nc) (ha : M.V a.1) :
    let r := l.foldl (fun m i => pairMax m (f i, i)) a
    M.V r.1 ∧ M.key a.1 ≤ M.key r.1 ∧ (∀ i ∈ l, M.key (f i) ≤ M.key r.1) ∧
      (r = a ∨ r.1 = f r.2) := by
  induction l generalizing a with
  | nil => simp [ha]
  | cons x l ih =>
    simp only [List.foldl_cons]
    have hm : pairMax a (f x, x) = a ∧ M.key (f x) ≤ M.key a.1 ∨
        pairMax a (f x, x) = (f x, x) ∧ M.key a.1 ≤ M.key (f x) := by
      simp only [pairMax, M.lt_eq a.1 (f x) ha (hf x), M.lt_eq (f x) a.1 (hf x) ha]
      rcases lt_trichotomy (M.key a.1) (M.key (f x)) with h | h | h
      · exact Or.inr ⟨by simp [h], h.le⟩
      · by_cases h2 : a.2 < x
        · exact Or.inr ⟨by simp [h, h2], h.le⟩
        · exact Or.inl ⟨by simp [h, h2], h.ge⟩
      · exact Or.inl ⟨by simp [h, h.not_gt], h.le⟩
    rcases hm with ⟨hm, hle⟩ | ⟨hm, hle⟩
    · rw [hm]
      obtain ⟨h1, h2, h3, h4⟩ := ih a ha
      refine ⟨h1, h2, ?_, h4⟩
      intro i hi
      rcases List.mem_cons.1 hi with rfl | hi
      · exact hle.trans h2
      · exact h3 i hi
    · rw [hm]
      obtain ⟨h1, h2, h3, h4⟩ := ih (f x, x) (hf x)
      refine ⟨h1, hle.trans h2, ?_, ?_⟩
      · intro i hi
        rcases List.mem_cons.1 hi with rfl | hi
        · exact h2
        · exact h3 i hi
      · rcases h4 with h4 | h4
        · exact Or.inr (by rw [h4])
        · exact Or.inr h4

theorem bestPrev_key {lA : Mat α nc} (hA : ∀ i j, M.V (lA i j)) {v : Row α nc}
    (hv : ∀ i, M.V (v i)) (k i : Fin nc) :
    M.key (v i + lA i k) ≤ M.key (v (bestPrev lA v k) + lA (bestPrev lA v k) k) := by
  have hf : ∀ i, M.V (v i + lA i k) := fun i => M.V_add _ _ (hv i) (hA i k)
  obtain ⟨_, _, h3, h4⟩ := pairFold_key M (fun i => v i + lA i k) hf (List.finRange nc)
    (negInf, 0) M.V_negInf
  have hi := h3 i (List.mem_finRange i)
  rcases h4 with h4 | h4
  · rw [h4] at hi
    exact hi.trans (M.bot _ (hf _))
  · rw [h4] at hi
    exact hi

theorem viterbiRow_V {lA : Mat α nc} (hA : ∀ i j, M.V (lA i j)) {v lb : Row α nc}
    (hv : ∀ i, M.V (v i)) (hb : ∀ i, M.V (lb i)) (i : Fin nc) : M.V (viterbiRow lA v lb i) :=
  M.V_add _ _ (maxFold_key M (fun j => v j + lA j i) (fun j => M.V_add _ _ (hv j) (hA j i)) _ _
    M.V_negInf).1 (hb i)

theorem step_le_viterbiRow {lA : Mat α nc} (hA : ∀ i j, M.V (lA i j)) {v lb : Row α nc}
    (hv : ∀ i, M.V (v i)) (hb : ∀ i, M.V (lb i)) (k i : Fin nc) :
    M.key (v k + lA k i + lb i) ≤ M.key (viterbiRow lA v lb i) := by
  have hf : ∀ j, M.V (v j + lA j i) := fun j => M.V_add _ _ (hv j) (hA j i)
  obtain ⟨h1, _, h3, _⟩ := maxFold_key M (fun j => v j + lA j i) hf (List.finRange nc) negInf
    M.V_negInf
  exact M.add_mono _ _ _ (hf k) h1 (hb i) (h3 k (List.mem_finRange k))

theorem viterbiRow_le_best {lA : Mat α nc} (hA : ∀ i j, M.V (lA i j)) {v lb : Row α nc}
    (hv : ∀ i, M.V (v i)) (hb : ∀ i, M.V (lb i)) (i : Fin nc) :
    M.key (viterbiRow lA v lb i) ≤
      M.key (v (bestPrev lA v i) + lA (bestPrev lA v i) i + lb i) := by
  have hf : ∀ j, M.V (v j + lA j i) := fun j => M.V_add _ _ (hv j) (hA j i)
  obtain ⟨h1, _, _, h4⟩ := maxFold_key M (fun j => v j + lA j i) hf (List.finRange nc) negInf
    M.V_negInf
  refine M.add_mono _ _ _ h1 (hf _) (hb i) ?_
  rcases h4 with h4 | ⟨j, _, h4⟩
  · exact (congrArg M.key h4).le.trans (M.bot _ (hf _))
  · exact (congrArg M.key h4).le.trans (bestPrev_key M hA hv i j)

/-- Main induction: the traceback of the lattice continued from row `v` is a best
continuation, and its score is the value in the last lattice row. -/
theorem traceback_spec {lA : Mat α nc} (hA : ∀ i j, M.V (lA i j)) (lbs : List (Row α nc))
    (hb : ∀ lb ∈ lbs, ∀ i, M.V (lb i)) (v : Row α nc) (hv : ∀ i, M.V (v i)) :
    ∃ k zs row s, traceback lA (v :: viterbiLoop lA v lbs) = k :: zs ∧ zs.length = lbs.length ∧
      (v :: viterbiLoop lA v lbs).getLast? = some row ∧ (k :: zs).getLast? = some s ∧
      M.V (row s) ∧
      M.key (row s) = M.key (contScore lA (v k) k lbs zs) ∧
      ∀ k' zs', zs'.length = lbs.length →
        M.key (contScore lA (v k') k' lbs zs') ≤ M.key (row s) := by
  induction lbs generalizing v with
  | nil =>
    refine ⟨maxElement v, [], v, maxElement v, rfl, rfl, rfl, rfl, hv _, rfl, ?_⟩
    intro k' zs' hz
    have : zs' = [] := List.length_eq_zero_iff.1 hz
    subst this
    exact le_maxElement v (fun i => M.key (v i)) (fun i j => M.lt_eq _ _ (hv i) (hv j)) k'
  | cons lb lbs ih =>
    have hlb := hb lb List.mem_cons_self
    have hb' : ∀ x ∈ lbs, ∀ i, M.V (x i) := fun x hx => hb x (List.mem_cons_of_mem _ hx)
    have hrow := viterbiRow_V M hA hv hlb
    obtain ⟨k, zs, row, s, h1, h2, h3, h4, h5, h6, h7⟩ := ih hb' (viterbiRow lA v lb) hrow
    have hVl : ∀ j, M.V (v j + lA j k + lb k) := fun j =>
      M.V_add _ _ (M.V_add _ _ (hv j) (hA j k)) (hlb k)
    refine ⟨bestPrev lA v k, k :: zs, row, s, ?_, ?_, ?_, ?_, h5, ?_, ?_⟩
    · simp only [viterbiLoop, memo_eq, traceback, h1]
    · simp [h2]
    · simp only [viterbiLoop, memo_eq]
      rw [List.getLast?_cons_cons]
      exact h3
    · rw [List.getLast?_cons_cons]; exact h4
    · apply le_antisymm
      · rw [h6]
        exact contScore_mono M hA lbs hb' _ _ (hrow k) (hVl _) (viterbiRow_le_best M hA hv hlb k)
          k zs
      · rw [h6]
        exact contScore_mono M hA lbs hb' _ _ (hVl _) (hrow k) (step_le_viterbiRow M hA hv hlb _ k)
          k zs
    · intro k' zs' hz
      cases zs' with
      | nil => simp at hz
      | cons z zs' =>
        refine le_trans ?_ (h7 z zs' (by simpa using hz))
        exact contScore_mono M hA lbs hb' _ _
          (M.V_add _ _ (M.V_add _ _ (hv k') (hA k' z)) (hlb z)) (hrow z)
          (step_le_viterbiRow M hA hv hlb k' z) z zs'

omit [NeZero nc] in
/-- `contScore` is the `Fin`-indexed fold of the specification. -/
theorem contScore_ofFn (lA : Mat α nc) (lb : Fin n → Row α nc) (z : Fin (n + 1) → Fin nc) (s : α) :
    contScore lA s (z 0) (List.ofFn lb) (List.ofFn (Fin.tail z)) =
      Fin.foldl n (fun s t => s + lA (z t.castSucc) (z t.succ) + lb t (z t.succ)) s := by
  induction n generalizing s with
  | zero => simp [contScore]
  | succ n ih =>
    rw [Fin.foldl_succ]
    have := ih (Fin.tail lb) (Fin.tail z)
      (s + lA (z 0) (z 1) + lb 0 (z 1))
    rw [List.ofFn_succ, List.ofFn_succ (f := Fin.tail z)]
    simp only [contScore]
    exact this

theorem pathScore_eq_contScore (lπ : Row α nc) (lA : Mat α nc) (lb : Fin (n + 1) → Row α nc)
    (z : Fin (n + 1) → Fin nc) : pathScore lπ lA lb z =
      contScore lA (lπ (z 0) + lb 0 (z 0)) (z 0) (List.ofFn (Fin.tail lb)) (List.ofFn (Fin.tail z)) :=
  (contScore_ofFn lA (Fin.tail lb) z _).symm

theorem pathScore_V {lπ : Row α nc} {lA : Mat α nc} {lb : Fin (n + 1) → Row α nc}
    (hπ : ∀ i, M.V (lπ i)) (hA : ∀ i j, M.V (lA i j)) (hb : ∀ t i, M.V (lb t i))
    (z : Fin (n + 1) → Fin nc) : M.V (pathScore lπ lA lb z) := by
  rw [pathScore_eq_contScore]
  refine contScore_V M hA _ ?_ _ (M.V_add _ _ (hπ _) (hb 0 _)) _ _
  intro x hx
  obtain ⟨t, rfl⟩ := List.mem_ofFn.1 hx
  exact hb _

/-- `viterbiCore` returns a best path and its score, in every `MonoArith`. -/
theorem viterbiCore_spec {lπ : Row α nc} {lA : Mat α nc} {lb : Fin (n + 1) → Row α nc}
    (hπ : ∀ i, M.V (lπ i)) (hA : ∀ i j, M.V (lA i j)) (hb : ∀ t i, M.V (lb t i)) :
    ∃ (v : α) (z : Fin (n + 1) → Fin nc),
      viterbiCore lπ lA (List.ofFn lb) = .ok (v, List.ofFn z) ∧ M.V v ∧
      M.key v = M.key (pathScore lπ lA lb z) ∧
      ∀ z', M.key (pathScore lπ lA lb z') ≤ M.key v := by
  have hv : ∀ i, M.V (lπ i + lb 0 i) := fun i => M.V_add _ _ (hπ i) (hb 0 i)
  have hb' : ∀ x ∈ List.ofFn (Fin.tail lb), ∀ i, M.V (x i) := by
    intro x hx
    obtain ⟨t, rfl⟩ := List.mem_ofFn.1 hx
    exact hb _
  obtain ⟨k, zs, row, s, h1, h2, h3, h4, h5, h6, h7⟩ :=
    traceback_spec M hA (List.ofFn (Fin.tail lb)) hb' (fun i => lπ i + lb 0 i) hv
  have hlen : zs.length = n := by simpa using h2
  let w : Fin n → Fin nc := fun t => zs.get (Fin.cast hlen.symm t)
  have hw : zs = List.ofFn w := by
    apply List.ext_getElem
    · simp [hlen]
    · intro i h1 h2; simp [w]
  have hsc : ∀ z : Fin (n + 1) → Fin nc, pathScore lπ lA lb z =
      contScore lA (lπ (z 0) + lb 0 (z 0)) (z 0) (List.ofFn (Fin.tail lb)) (List.ofFn (Fin.tail z)) :=
    fun z => (contScore_ofFn lA (Fin.tail lb) z _).symm
  refine ⟨row s, Fin.cons k w, ?_, h5, ?_, ?_⟩
  · rw [List.ofFn_succ (f := lb)]
    show (match (viterbiLattice lπ lA (lb 0 :: List.ofFn (Fin.tail lb))).getLast?,
      (traceback lA (viterbiLattice lπ lA (lb 0 :: List.ofFn (Fin.tail lb)))).getLast? with
      | some row, some s => Except.ok (row s,
        traceback lA (viterbiLattice lπ lA (lb 0 :: List.ofFn (Fin.tail lb))))
      | _, _ => Except.error PyErr.undefinedBehaviour) = _
    simp only [viterbiLattice, memo_eq, h1, h3, h4]
    rw [hw, List.ofFn_cons]
  · rw [h6, hsc]
    simp only [Fin.cons_zero, Fin.tail_cons, ← hw]
  · intro z'
    rw [hsc]
    exact h7 _ _ (by simp)

end Hmmc

/-! ## Exact arithmetic -/

open XF

/-- `XF` without NaN and `+inf` is a `MonoArith`. -/
noncomputable def xfMono : MonoArith XF where
  K := WithBot ℝ
  key := xfKey
  V x := x = .ninf ∨ ∃ r, x = .fin r
  V_negInf := Or.inl rfl
  V_add := by
    rintro a b (rfl | ⟨a, rfl⟩) (rfl | ⟨b, rfl⟩) <;> simp
  lt_eq := by
    rintro a b (rfl | ⟨a, rfl⟩) (rfl | ⟨b, rfl⟩) <;> simp [xfKey]
  bot := fun a _ => by simp [xfKey]
  add_mono := by
    rintro a b c (rfl | ⟨a, rfl⟩) (rfl | ⟨b, rfl⟩) (rfl | ⟨c, rfl⟩) <;> simp [xfKey, ← WithBot.coe_add]

/-- Rounded arithmetic is a `MonoArith`. -/
noncomputable def rxMono (ρ : Rounding) : MonoArith (RX ρ) where
  K := WithBot ℝ
  key := xfKey
  V x := x = XF.ninf ∨ ∃ r, x = XF.fin r
  V_negInf := Or.inl rfl
  V_add := by
    rintro a b (rfl | ⟨a, rfl⟩) (rfl | ⟨b, rfl⟩)
    · exact Or.inl rfl
    · exact Or.inl rfl
    · exact Or.inl rfl
    · exact ρ.valid (a + b)
  lt_eq := xfMono.lt_eq
  bot := fun a _ => by show xfKey XF.ninf ≤ _; simp [xfKey]
  add_mono := by
    rintro a b c (rfl | ⟨a, rfl⟩) (rfl | ⟨b, rfl⟩) (rfl | ⟨c, rfl⟩) h
    · exact le_refl _
    · exact le_refl _
    · exact le_refl _
    · show xfKey XF.ninf ≤ _; simp [xfKey]
    · exact le_refl _
    · simp [xfKey] at h
    · exact le_refl _
    · exact ρ.mono _ _ (by have : a ≤ b := by simpa [xfKey] using h
                           linarith)

theorem xfMono_V_lg {x : ℝ} (hx : 0 ≤ x) : xfMono.V (lg x) := by
  rcases hx.eq_or_lt with rfl | hx
  · exact Or.inl lg_zero
  · exact Or.inr ⟨_, lg_pos hx⟩

theorem xfKey_lg_le {x y : ℝ} (hx : 0 ≤ x) (hy : 0 ≤ y) : xfKey (lg x) ≤ xfKey (lg y) ↔ x ≤ y := by
  have := xfMono.lt_eq (lg y) (lg x) (xfMono_V_lg hy) (xfMono_V_lg hx)
  rw [lg_lt hy hx] at this
  have h2 : (y < x) ↔ xfKey (lg y) < xfKey (lg x) := by
    have := decide_eq_decide.1 this
    exact this
  rw [← not_lt, ← not_lt, h2]

theorem xfKey_inj {x y : XF} (hx : xfMono.V x) (hy : xfMono.V y) (h : xfKey x = xfKey y) : x = y := by
  rcases hx with rfl | ⟨a, rfl⟩ <;> rcases hy with rfl | ⟨b, rfl⟩ <;> simp_all [xfKey]

omit [NeZero nc] in
theorem foldl_pathScore_lg (A : Fin nc → Fin nc → ℝ) (hA : ∀ i j, 0 ≤ A i j)
    (B : Fin n → Fin nc → ℝ) (hB : ∀ t i, 0 ≤ B t i) (z : Fin (n + 1) → Fin nc) (x : ℝ) (hx : 0 ≤ x) :
    Fin.foldl n (fun s t => s + lg (A (z t.castSucc) (z t.succ)) + lg (B t (z t.succ))) (lg x) =
      lg (x * ((∏ t : Fin n, A (z t.castSucc) (z t.succ)) * ∏ t, B t (z t.succ))) := by
  induction n generalizing x with
  | zero => simp
  | succ n ih =>
    rw [Fin.foldl_succ]
    rw [lg_mul hx (hA _ _), lg_mul (mul_nonneg hx (hA _ _)) (hB _ _)]
    have := ih (Fin.tail B) (fun t i => hB _ _) (Fin.tail z)
      (x * A (z (Fin.castSucc 0)) (z (Fin.succ 0)) * B 0 (z (Fin.succ 0)))
      (mul_nonneg (mul_nonneg hx (hA _ _)) (hB _ _))
    refine Eq.trans this ?_
    congr 1
    rw [Fin.prod_univ_succ (n := n), Fin.prod_univ_succ (n := n)]
    simp only [Fin.tail, Fin.succ_castSucc]
    ring

omit [NeZero nc] in
/-- In exact arithmetic the path score is the log of the joint weight. -/
theorem pathScore_lg {p : Fin nc → ℝ} {A : Fin nc → Fin nc → ℝ} {B : Fin (n + 1) → Fin nc → ℝ}
    (hp : ∀ i, 0 ≤ p i) (hA : ∀ i j, 0 ≤ A i j) (hB : ∀ t i, 0 ≤ B t i) (z : Fin (n + 1) → Fin nc) :
    pathScore (lgRow p) (lgMat A) (fun t => lgRow (B t)) z = lg (joint p A B z) := by
  unfold pathScore
  simp only [lgRow, lgMat]
  rw [lg_mul (hp _) (hB _ _), foldl_pathScore_lg A hA (fun t => B t.succ) (fun t i => hB _ _) z _
    (mul_nonneg (hp _) (hB _ _))]
  congr 1
  unfold joint
  rw [Fin.prod_univ_succ (f := fun t => B t (z t))]
  ring

theorem viterbi_ofFn {p : Fin nc → ℝ} {A : Fin nc → Fin nc → ℝ} {B : Fin (n + 1) → Fin nc → ℝ}
    (hp : ∀ i, 0 ≤ p i) (hA : ∀ i j, 0 ≤ A i j) (hB : ∀ t i, 0 ≤ B t i) :
    ∃ z : Fin (n + 1) → Fin nc,
      viterbi (finRow p) (finMat A) (List.ofFn fun t => lgRow (B t)) =
        .ok (lg (joint p A B z), List.ofFn z) ∧
      ∀ z', joint p A B z' ≤ joint p A B z := by
  obtain ⟨v, z, h1, h2, h3, h4⟩ := viterbiCore_spec xfMono (lπ := lgRow p) (lA := lgMat A)
    (lb := fun t => lgRow (B t)) (fun i => xfMono_V_lg (hp i)) (fun i j => xfMono_V_lg (hA i j))
    (fun t i => xfMono_V_lg (hB t i))
  rw [pathScore_lg hp hA hB] at h3
  have hv : v = lg (joint p A B z) :=
    xfKey_inj h2 (xfMono_V_lg (joint_nonneg hp hA hB z)) h3
  refine ⟨z, ?_, ?_⟩
  · unfold viterbi
    simp only [memo_eq]
    rw [← hv]; exact h1
  · intro z'
    have := h4 z'
    rw [pathScore_lg hp hA hB, hv] at this
    exact (xfKey_lg_le (joint_nonneg hp hA hB z') (joint_nonneg hp hA hB z)).1 this

end Verif
