import Verif.Proofs.RoundoffLog
import Verif.Proofs.Categorical
import Verif.Proofs.Split
import Verif.Props.Decoding

/-!
# C77: how good a Viterbi path is in floating-point arithmetic
-/

set_option autoImplicit false

namespace Verif
open FloatLike Hmmc Spec

variable {ρ : Rounding} {u η Ω : ℝ} {nc : ℕ} [NeZero nc] {Obs D : Type} {m : Hmm (RX ρ) nc Obs}
  {obs : D → Obs} {kb cb : ℕ} {π : Fin nc → ℝ} {A : Fin nc → Fin nc → ℝ} {b : D → Fin nc → ℝ}

/-- The path is as probable as any other one, up to the errors of the two scores; and it is a possible
one if there is any. -/
def Spec.NearlyOptimal {n : ℕ} (u η : ℝ) (kb cb : ℕ) (π : Fin nc → ℝ) (A : Fin nc → Fin nc → ℝ)
    (B : Fin (n + 1) → Fin nc → ℝ) (z : Fin (n + 1) → Fin nc) : Prop :=
  ∀ z', 0 < joint π A B z' → 0 < joint π A B z ∧
    Real.log (joint π A B z') ≤
      Real.log (joint π A B z) + pathError u η kb cb π A B z + pathError u η kb cb π A B z'

/-- All scores of possible paths stay in the range of `Accurate`. -/
def Spec.ScoresInRange {n : ℕ} (u η Ω : ℝ) (kb cb : ℕ) (π : Fin nc → ℝ) (A : Fin nc → Fin nc → ℝ)
    (B : Fin (n + 1) → Fin nc → ℝ) : Prop :=
  ∀ z, 0 < joint π A B z →
    (1 + u) ^ scoreRoundings n kb * (logMass π A B z + scoreTerms n cb * η) ≤ Ω

theorem decodeViterbi_rounded (ha : Accurate ρ u η Ω) (h : LogApproximates m obs u η kb cb π A b)
    (s : ObsSeq D) (hr : ScoresInRange u η Ω kb cb π A (s.weights b)) :
    ∃ (z : Fin (s.n + 1) → Fin nc) (v : RX ρ),
      decodeViterbi m (s.rows obs) = .ok (v, List.ofFn z) ∧
      NearlyOptimal u η kb cb π A (s.weights b) z ∧
      (0 < joint π A (s.weights b) z → Off u η (scoreRoundings s.n kb) (scoreTerms s.n cb)
        (logMass π A (s.weights b) z) v (Real.log (joint π A (s.weights b) z))) ∧
      (likelihood π A (s.weights b) = 0 → v = XF.ninf) ∧ LogVal v := by
  obtain ⟨rows, hrows, hf⟩ := h.lik (List.ofFn s.x)
  have hlen : rows.length = s.n + 1 := by rw [hf.length_eq, List.length_ofFn]
  let lb : Fin (s.n + 1) → Row (RX ρ) nc := fun t => rows[t.val]'(by omega)
  have hlb : rows = List.ofFn lb := by
    apply List.ext_getElem
    · simp [hlen]
    · intro i h1 h2; rw [List.getElem_ofFn]
  have hb : ∀ t i, LogNear u η kb cb (lb t i) (s.weights b t i) := by
    intro t i
    have := (List.forall₂_iff_get.1 hf).2 t.val (by omega) (by rw [List.length_ofFn]; exact t.isLt)
    rw [List.get_ofFn] at this
    exact this i
  have hB : ∀ t i, 0 ≤ s.weights b t i := fun t i => h.b_nonneg _ _
  obtain ⟨z, e1, e2⟩ := C09_viterbi_rounded ρ h.π_nonneg h.A_nonneg lb fun t i => (hb t i).val
  have hv := fun z => pathScore_val (ρ := ρ) h.π_nonneg h.A_nonneg (fun t i => (hb t i).val) z
  have e2' : ∀ z', FloatLike.lt (α := RX ρ) (pathScore (α := RX ρ) (logP ρ π) (logT ρ A) lb z)
      (pathScore (α := RX ρ) (logP ρ π) (logT ρ A) lb z') = false := e2
  refine ⟨z, pathScore (α := RX ρ) (logP ρ π) (logT ρ A) lb z, ?_, fun z' hz' => ?_,
    fun hz => pathScore_off ha h.π_nonneg h.A_nonneg hB hb z hz (hr z hz), fun h0 => ?_, hv z⟩
  · unfold decodeViterbi
    have : s.rows obs = (List.ofFn s.x).map obs := by simp [ObsSeq.rows, List.map_ofFn, Function.comp_def]
    rw [this, hrows, hlb, show m.startprob = fun i => XF.fin (π i) from funext h.startprob,
      show m.transmat = fun i j => XF.fin (A i j) from funext fun i => funext (h.transmat i)]
    exact e1
  · obtain ⟨-, y', hy', hd'⟩ := pathScore_off ha h.π_nonneg h.A_nonneg hB hb z' hz' (hr z' hz')
    have hlt := e2' z'
    rw [hy'] at hlt
    have hz : 0 < joint π A (s.weights b) z := by
      refine lt_of_le_of_ne (joint_nonneg h.π_nonneg h.A_nonneg hB z) fun h0 => ?_
      rw [pathScore_ninf h.π_nonneg h.A_nonneg hb z h0.symm] at hlt
      exact absurd hlt (by simp [FloatLike.lt, XF.lt])
    obtain ⟨-, y, hy, hd⟩ := pathScore_off ha h.π_nonneg h.A_nonneg hB hb z hz (hr z hz)
    rw [hy] at hlt
    have hyy : y' ≤ y := by
      have : ¬ y < y' := by simpa [FloatLike.lt, XF.lt] using hlt
      linarith
    refine ⟨hz, ?_⟩
    have h1 := (abs_le.1 hd).2
    have h2 := (abs_le.1 hd').1
    unfold pathError
    linarith
  · refine pathScore_ninf h.π_nonneg h.A_nonneg hb z ?_
    have := (Finset.sum_eq_zero_iff_of_nonneg
      fun z _ => joint_nonneg h.π_nonneg h.A_nonneg hB z).1 h0 z (Finset.mem_univ _)
    exact this

/-- Roundings one after the other in the score of the most probable paths of several sequences of at most
`N + 1` samples. -/
def Spec.dataRoundings (N kb L : ℕ) : ℕ := scoreRoundings N kb + L

/-- Rounded numbers in that score. -/
def Spec.dataTerms (cb : ℕ) (ss : List (ObsSeq D)) : ℕ := (ss.map fun s => scoreTerms s.n cb + 1).sum

theorem sum_off (ha : Accurate ρ u η Ω) {ι : Type} (ss : List ι) {K k0 : ℕ} {v : ι → RX ρ} {k c : ι → ℕ}
    {W r : ι → ℝ} (hk : ∀ s ∈ ss, k s ≤ K) (ho : ∀ s ∈ ss, Off u η (k s) (c s) (W s) (v s) (r s))
    {a : RX ρ} {c0 : ℕ} {W0 r0 : ℝ} (h0 : Off u η (K + k0) c0 W0 a r0)
    (hΩ : (1 + u) ^ (K + k0 + ss.length) *
      (W0 + (ss.map W).sum + ((c0 + (ss.map fun s => c s + 1).sum : ℕ) : ℝ) * η) ≤ Ω) :
    Off u η (K + k0 + ss.length) (c0 + (ss.map fun s => c s + 1).sum) (W0 + (ss.map W).sum)
      ((ss.map v).foldl (fun x y : RX ρ => x + y) a) (r0 + (ss.map r).sum) := by
  induction ss generalizing a c0 W0 r0 k0 with
  | nil => simpa using h0
  | cons s ss ih =>
    have hs := ho s List.mem_cons_self
    have hW : ∀ t ∈ ss, 0 ≤ W t := fun t ht => (abs_nonneg _).trans (ho t (List.mem_cons_of_mem _ ht)).1
    have hW0 : 0 ≤ W0 := (abs_nonneg _).trans h0.1
    have hWs : 0 ≤ W s := (abs_nonneg _).trans hs.1
    have hsum : 0 ≤ (ss.map W).sum := List.sum_nonneg fun x hx => by
      obtain ⟨t, ht, rfl⟩ := List.mem_map.1 hx; exact hW t ht
    have hu := ha.u_nonneg
    have hη := ha.η_nonneg
    have hadd := h0.add ha (hs.mono ha ((hk s List.mem_cons_self).trans (Nat.le_add_right K k0)) le_rfl le_rfl)
      (by
        refine le_trans ?_ hΩ
        simp only [List.map_cons, List.sum_cons, List.length_cons]
        refine mul_le_mul (pow_le_pow_right₀ (by linarith) (by omega)) ?_ (by positivity) (by positivity)
        have : ((c0 + c s + 1 : ℕ) : ℝ) * η ≤
            ((c0 + (c s + 1 + (ss.map fun s => c s + 1).sum) : ℕ) : ℝ) * η :=
          mul_le_mul_of_nonneg_right (by exact_mod_cast (by omega)) hη
        linarith)
    have := ih (k0 := k0 + 1) (fun t ht => hk t (List.mem_cons_of_mem _ ht))
      (fun t ht => ho t (List.mem_cons_of_mem _ ht)) (a := a + v s) hadd
      (by
        refine le_trans (le_of_eq ?_) hΩ
        simp only [List.map_cons, List.sum_cons, List.length_cons]
        rw [show K + (k0 + 1) + ss.length = K + k0 + (ss.length + 1) by omega,
          show c0 + c s + 1 + (ss.map fun s => c s + 1).sum = c0 + (c s + 1 + (ss.map fun s => c s + 1).sum) by
            omega, ← add_assoc W0])
    simp only [List.map_cons, List.sum_cons, List.length_cons, List.foldl_cons]
    rw [show K + k0 + (ss.length + 1) = K + (k0 + 1) + ss.length by omega,
      show c0 + (c s + 1 + (ss.map fun s => c s + 1).sum) = c0 + c s + 1 + (ss.map fun s => c s + 1).sum by
        omega, ← add_assoc W0, ← add_assoc r0]
    exact this

theorem foldl_ninf {ι : Type} (ss : List ι) {v : ι → RX ρ} (hv : ∀ s ∈ ss, LogVal (v s)) {a : RX ρ}
    (ha : LogVal a) (h : a = XF.ninf ∨ ∃ s ∈ ss, v s = XF.ninf) :
    (ss.map v).foldl (fun x y : RX ρ => x + y) a = XF.ninf := by
  induction ss generalizing a with
  | nil => simpa using h
  | cons s ss ih =>
    have hs := hv s List.mem_cons_self
    refine ih (a := a + v s) (fun t ht => hv t (List.mem_cons_of_mem _ ht)) (ha.add hs) ?_
    rcases h with h | ⟨t, ht, h⟩
    · exact Or.inl (add_ninf_left h hs)
    · rcases List.mem_cons.1 ht with rfl | ht
      · exact Or.inl (add_ninf_right ha h)
      · exact Or.inr ⟨t, ht, h⟩

/-- **C77** In arithmetic with a monotone rounding of relative error `u` (absolute error `η` where results
underflow), `decode` with the Viterbi algorithm returns, for each sequence, a path whose exact
probability is within `exp` of two score errors of the largest one. -/
theorem C77_viterbi_rounded (ha : Accurate ρ u η Ω) (h : LogApproximates m obs u η kb cb π A b)
    (ss : List (ObsSeq D)) (hne : ss ≠ [])
    (hr : ∀ s ∈ ss, ScoresInRange u η Ω kb cb π A (s.weights b)) :
    ∃ (z : (s : ObsSeq D) → Fin (s.n + 1) → Fin nc) (lp : RX ρ),
      decode m .viterbi (dataX obs ss) (some (dataLengths ss)) =
        .ok (lp, (ss.map fun s => List.ofFn (z s)).flatten) ∧
      (∀ s ∈ ss, NearlyOptimal u η kb cb π A (s.weights b) (z s)) ∧
      ((∃ s ∈ ss, likelihood π A (s.weights b) = 0) → lp = XF.ninf) ∧
      ∀ (N : ℕ) (M : ObsSeq D → ℝ), (∀ s ∈ ss, s.n ≤ N ∧ 0 < likelihood π A (s.weights b) ∧
          ∀ z, 0 < joint π A (s.weights b) z → logMass π A (s.weights b) z ≤ M s) →
        (1 + u) ^ dataRoundings N kb ss.length * ((ss.map M).sum + dataTerms cb ss * η) ≤ Ω →
        ∃ x, lp = XF.fin x ∧
          |x - (ss.map fun s => Real.log (joint π A (s.weights b) (z s))).sum| ≤
            sumError u η (dataRoundings N kb ss.length) (dataTerms cb ss)
              (ss.map fun s => logMass π A (s.weights b) (z s)).sum := by
  classical
  have key : ∀ s : ObsSeq D, ∃ (z : Fin (s.n + 1) → Fin nc) (v : RX ρ), s ∈ ss →
      decodeViterbi m (s.rows obs) = .ok (v, List.ofFn z) ∧
      NearlyOptimal u η kb cb π A (s.weights b) z ∧
      (0 < joint π A (s.weights b) z → Off u η (scoreRoundings s.n kb) (scoreTerms s.n cb)
        (logMass π A (s.weights b) z) v (Real.log (joint π A (s.weights b) z))) ∧
      (likelihood π A (s.weights b) = 0 → v = XF.ninf) ∧ LogVal v := by
    intro s
    by_cases hs : s ∈ ss
    · obtain ⟨z, v, h1⟩ := decodeViterbi_rounded ha h s (hr s hs)
      exact ⟨z, v, fun _ => h1⟩
    · exact ⟨fun _ => 0, XF.ninf, fun h => absurd h hs⟩
  choose z v hz using key
  refine ⟨z, (ss.map v).foldl (fun x y : RX ρ => x + y) (0 : RX ρ), ?_, fun s hs => (hz s hs).2.1,
    fun ⟨s, hs, h0⟩ => ?_, fun N M hM hΩ => ?_⟩
  · unfold decode
    simp only [splitXLengths_data obs ss hne, bind, Except.bind]
    rw [seqLoop_eq]
    have : (ss.map (ObsSeq.rows obs)).mapM (decodeViterbi m) = .ok (ss.map fun s => (v s, List.ofFn (z s))) := by
      have hz' := fun s hs => (hz s hs).1
      clear hne hr hz
      induction ss with
      | nil => rfl
      | cons s ss ih =>
        rw [List.map_cons, List.mapM_cons, hz' s List.mem_cons_self,
          ih fun t ht => hz' t (List.mem_cons_of_mem _ ht)]
        rfl
    rw [this]
    simp [Except.map, Function.comp_def]
  · exact foldl_ninf ss (fun t ht => (hz t ht).2.2.2.2) (Or.inr ⟨0, rfl⟩) (Or.inr ⟨s, hs, (hz s hs).2.2.2.1 h0⟩)
  · have hpos : ∀ s ∈ ss, 0 < joint π A (s.weights b) (z s) := fun s hs => by
      obtain ⟨z', hz'⟩ := exists_joint_pos (hM s hs).2.1
      exact ((hz s hs).2.1 z' hz').1
    have hη := ha.η_nonneg
    have hu := ha.u_nonneg
    have hle : (ss.map fun s => logMass π A (s.weights b) (z s)).sum ≤ (ss.map M).sum :=
      List.sum_le_sum fun s hs => (hM s hs).2.2 _ (hpos s hs)
    have := sum_off ha ss (K := scoreRoundings N kb) (k0 := 0) (v := v)
      (k := fun s => scoreRoundings s.n kb) (c := fun s => scoreTerms s.n cb)
      (W := fun s => logMass π A (s.weights b) (z s)) (r := fun s => Real.log (joint π A (s.weights b) (z s)))
      (fun s hs => by have := (hM s hs).1; unfold scoreRoundings; omega)
      (fun s hs => (hz s hs).2.2.1 (hpos s hs)) (a := (0 : RX ρ)) (c0 := 0) (W0 := 0) (r0 := 0)
      ⟨by simp, 0, rfl, by simpa using sumError_nonneg ha _ 0 le_rfl⟩
      (le_trans (mul_le_mul_of_nonneg_left (by simpa [dataTerms] using hle) (by positivity)) hΩ)
    obtain ⟨-, x, hx, hd⟩ := this
    exact ⟨x, hx, by simpa [dataRoundings, dataTerms] using hd⟩

end Verif
