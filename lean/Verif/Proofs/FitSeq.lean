import Verif.Proofs.FitFamily

/-!
# The sequence of iterates of `fit`
-/

namespace Verif
open FloatLike XF Hmmc Spec
open scoped Classical

variable {nc : ℕ} {Obs D P S Q : Type} [NeZero nc]

namespace Family
variable {E : Emission XF nc Obs P S} {obs : D → Obs} {params : List Char}
  (F : Family E obs params Q)

/-- What EM keeps: valid parameters, a possible data set, and (if `need`) no abandoned state. -/
def Keeps (need : Prop) (ss : List (ObsSeq D)) (r : RParams nc Q) : Prop :=
  r.Valid ∧ F.Ok .log ss r ∧ (need → F.Occupied ss r)

omit [NeZero nc] in
theorem closed_keeps {need : Prop} (c : RConfig nc) (ss : List (ObsSeq D))
    (hp : 's' ∈ params → ∀ i, 1 ≤ c.sp i) (ht : 't' ∈ params → ∀ i j, 1 ≤ c.tp i j)
    (hgood : ∀ r : RParams nc Q, F.Keeps need ss r → F.Good r.q (obsStat r.π r.A (F.b r.q) ss))
    (hac : ∀ r : RParams nc Q, F.Keeps need ss r → F.Ac ss r) :
    F.Closed c ss (F.Keeps need ss) where
  valid r h := h.1
  ok hi r h := h.2.1
  good r h _ := hgood r h
  next r h _ := ⟨F.rstep_valid c ss h.1,
    (F.rstep_gain c ss h.1 h.2.1 hp ht ⟨hac r h, le_rfl⟩).1,
    fun hn => F.occupied_next c ss hp ht h.1 h.2.1 (hac r h) (h.2.2 hn)⟩

/-- `fit` as a sequence of iterates.  The objective does not decrease at those steps whose starting
point and end point satisfy `C`. -/
theorem fit_seq {c : RConfig nc} {ss : List (ObsSeq D)} {I : RParams nc Q → Prop}
    {C : RParams nc Q → RParams nc Q → Prop} (pen : Q → ℝ)
    (hI : F.Closed c ss I) (hne : ss ≠ []) (hp : 's' ∈ params → ∀ i, 1 ≤ c.sp i)
    (ht : 't' ∈ params → ∀ i j, 1 ≤ c.tp i j) {r : RParams nc Q} (hr : I r)
    (hg : ∀ r, I r → C r (F.rstep c ss r) → F.Ok .log ss r → F.Gains ss r (pen r.q - pen (F.rstep c ss r).q))
    (mon : Monitor XF) :
    let out := F.fit c ss r mon
    let n := out.monitor.history.length
    ∃ seq : ℕ → RParams nc Q, seq 0 = r ∧ out.state = F.theta (seq n) ∧
      out.monitor.history = (List.range n).map (fun k => fin (Real.log (F.L ss (seq k)))) ∧
      (∀ k ≤ n, I (seq k)) ∧
      (∀ k < n, emStep E (c.toConfig params) (dataX obs ss) (dataLengths ss) (F.theta (seq k)) =
        .ok (F.theta (seq (k + 1)), fin (Real.log (F.L ss (seq k))))) ∧
      ∀ k < n, C (seq k) (seq (k + 1)) → F.objective c pen ss (seq k) ≤ F.objective c pen ss (seq (k + 1)) := by
  intro out n
  obtain ⟨h1, h2, h3, h4⟩ := F.fit_real hI hne hp hr mon
  refine ⟨fun k => (F.rstep c ss)^[k] r, rfl, h1, h2, h4, fun k hk => ?_, fun k hk hC => ?_⟩
  · simp only [Function.iterate_succ_apply']
    rw [F.emStep_real c ss hne (hI.valid _ (h4 k hk.le)) (h3 k hk) (hI.good _ (h4 k hk.le) (h3 k hk)) hp,
      show lg (F.L ss ((F.rstep c ss)^[k] r)) = _ from
        lg_pos (log_dataLikelihood ss fun s hs => EstepOk.likelihood_pos (h3 k hk s hs)).1]
  · simp only [Function.iterate_succ_apply'] at hC ⊢
    exact F.rstep_objective c pen ss (hI.valid _ (h4 k hk.le)) (Ok.log (h3 k hk)) hp ht
      (hg _ (h4 k hk.le) hC (Ok.log (h3 k hk)))

end Family
end Verif
