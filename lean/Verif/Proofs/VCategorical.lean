import Verif.Proofs.Variational
import Verif.Proofs.CategoricalFamily

/-!
# Variational training for `VariationalCategoricalHMM`
-/

namespace Verif
open FloatLike XF Hmmc Spec
open scoped Classical

namespace VCategorical
variable {nc nf : ℕ}

/-- Real-valued attributes. -/
structure R (nc nf : ℕ) where
  post : Fin nc → Fin nf → ℝ
  prob : Option (Fin nc → Fin nf → ℝ)
  pos : ∀ i k, 0 < post i k

/-- The likelihood and the statistics. -/
noncomputable def coreFamily [NeZero nc] (ps : List Char) :
    Family (core (α := XF) (nc := nc) (nf := nf)) (Categorical.sym (nf := nf)) ps (R nc nf) where
  embed q i k := fin (digamma (q.post i k) - digamma (∑ k, q.post i k))
  b q k i := expWeight (q.post i) k
  b_nonneg q o i := (expWeight_pos _ _).le
  lik_eq q X := by
    show Except.map _ (Categorical.computeLikelihood _ (X.map fun k => (k.val : Int))) = _
    rw [Categorical.computeLikelihood_fin]
    simp only [Except.map, Gaussian.expRows, List.map_map, memo_eq]
    rfl
  loglik_eq q X := by
    show Categorical.computeLikelihood _ (X.map fun k => (k.val : Int)) = _
    rw [Categorical.computeLikelihood_fin]
    congr 2; funext k i
    have : (FloatLike.log (fin (expWeight (q.post i) k)) : XF) = fin (Real.log (expWeight (q.post i) k)) :=
      lg_pos (expWeight_pos _ _)
    rw [this, expWeight, Real.log_exp]
  stat q T i k := fin (gate ps 'e' (T i (Categorical.ind k)))
  emFold_eq q π A ss := by
    have := Categorical.emFold_acc (nc := nc) (nf := nf) (fun _ _ => fin 0) ps
      (fun i k => fin (digamma (q.post i k) - digamma (∑ k, q.post i k))) π A
      (fun k i => expWeight (q.post i) k) ss fun _ _ => 0
    simp only [zero_add] at this
    exact this
  next q _ := q
  Good _ _ := True
  mstep_eq _ _ _ _ := rfl

/-- New posterior: prior plus expected counts. -/
noncomputable def nextR (ep : Fin nc → Fin nf → ℝ) (hep : ∀ i k, 0 < ep i k) (q : R nc nf)
    (T : Fin nc → (Fin nf → ℝ) → ℝ) : R nc nf where
  post i k := ep i k + max (T i (Categorical.ind k)) 0
  prob := some fun i => dirMean fun k => ep i k + max (T i (Categorical.ind k)) 0
  pos i k := add_pos_of_pos_of_nonneg (hep i k) (le_max_right _ _)

theorem ind_nonneg (k o : Fin nf) : 0 ≤ Categorical.ind k o := by
  unfold Categorical.ind; split <;> norm_num

/-- The variational categorical family. -/
noncomputable def family [NeZero nc] [NeZero nf] {sci : Sci XF} (hsci : sci.Exact)
    {ep : Fin nc → Fin nf → ℝ} (hep : ∀ i k, 0 < ep i k) (ps : List Char) :
    VFamily (emission sci fun i k => fin (ep i k)) (Categorical.sym (nf := nf)) ps (R nc nf) where
  F := coreFamily ps
  emb q := ⟨fun i k => fin (q.post i k), q.prob.map fun e i k => fin (e i k)⟩
  begin_eq q := by
    simp only [emission, memo_eq, coreFamily]
    funext i
    rw [logSubnorm_fin hsci (q.pos i)]
  b_pos q o i := expWeight_pos _ _
  kl q := ∑ i, klDirichlet (q.post i) (ep i)
  bound_eq q := by
    simp only [emission]
    rw [negKlRows_fin hsci q.pos hep]
  next q T := if 'e' ∈ ps then nextR ep hep q T else q
  mstep_eq q T hT := by
    simp only [emission, mstep]
    by_cases he : 'e' ∈ ps
    · have hm : ∀ i k, max (T i (Categorical.ind k)) 0 = T i (Categorical.ind k) :=
        fun i k => max_eq_left (hT.nonneg i _ (ind_nonneg k))
      simp only [he, if_true, coreFamily, gate, memo_eq, fin_add, nextR, hm, Option.map_some]
      congr 2; funext i
      rw [divSum_fin fun k => add_pos_of_pos_of_nonneg (hep i k) (hT.nonneg i _ (ind_nonneg k))]
    · simp only [he, if_false]
  gain q π A ss hπ hA := by
    by_cases he : 'e' ∈ ps
    · simp only [he, if_true]
      have hT : ∀ i k, 0 ≤ obsStat π A ((coreFamily ps).b q) ss i (Categorical.ind k) := fun i k =>
        obsStat_nonneg hπ hA (fun o i => (expWeight_pos _ _).le) ss i (ind_nonneg k)
      rw [← Finset.sum_sub_distrib, emissionGain_eq]
      refine Finset.sum_le_sum fun i _ => ?_
      rw [Categorical.obsStat_fintype]
      simp only [nextR, coreFamily] at *
      simp only [max_eq_left (hT i _)]
      exact dirichlet_gain (q.pos i) (hep i) (hT i)
    · simp only [he, if_false, sub_self]
      rw [emissionGain_eq]
      refine le_of_eq (Finset.sum_eq_zero fun i _ => ?_).symm
      rw [Categorical.obsStat_fintype]
      refine Finset.sum_eq_zero fun k _ => ?_
      simp only [coreFamily]
      rw [div_self (expWeight_pos _ _).ne', Real.log_one, mul_zero]

end VCategorical
end Verif
