import Verif.Proofs.FitFamily

/-!
# Parameters reached in training
-/

set_option autoImplicit false

namespace Verif
open FloatLike XF Hmmc Spec

/-- A monitor that never stops. -/
def Monitor.Endless (m : Monitor XF) : Prop := m.tol = ninf ∧ m.nIter = 0

theorem lt_ninf (x : XF) : lt x ninf = false := by cases x <;> rfl

theorem Monitor.Endless.report {m : Monitor XF} (h : m.Endless) (x : XF) :
    (m.report x).Endless ∧ (m.report x).converged = false := by
  refine ⟨⟨h.1, h.2⟩, ?_⟩
  unfold Monitor.converged Monitor.report
  simp only [h.1, h.2]
  split <;> simp [lt_ninf]

theorem fitLoop_endless {τ : Type} {step : τ → Except PyErr (τ × XF)} (n : ℕ) {s s' : τ} {v : XF} {m : Monitor XF}
    (hm : m.Endless) (h : step s = .ok (s', v)) :
    fitLoop step (n + 1) s m = fitLoop step n s' (m.report v) ∧ (m.report v).Endless := by
  have := hm.report v
  refine ⟨?_, this.1⟩
  rw [fitLoop, h]
  simp only [this.2]
  rfl

namespace Family
variable {nc : ℕ} [NeZero nc] {D Obs P S Q : Type} {E : Emission XF nc Obs P S} {obs : D → Obs} {params : List Char}
  (F : Family E obs params Q)

/-- `r'` is reached from `r` by iterations that do not raise. -/
inductive Reach (c : RConfig nc) (ss : List (ObsSeq D)) (r : RParams nc Q) : ℕ → RParams nc Q → Prop
  | start : Reach c ss r 0 r
  | step {n r'} : Reach c ss r n r' → F.Ok c.impl ss r' → Reach c ss r (n + 1) (F.rstep c ss r')

variable {F}

/-- What is reached is the result of some `fit`. -/
theorem Reach.fit {c : RConfig nc} {ss : List (ObsSeq D)} {I : RParams nc Q → Prop} (hI : F.Closed c ss I) (hne : ss ≠ [])
    (hp : 's' ∈ params → ∀ i, 1 ≤ c.sp i) {r : RParams nc Q} (hr : I r) {n : ℕ} {r' : RParams nc Q}
    (h : F.Reach c ss r n r') :
    I r' ∧ (F.fit { c with nIter := n } ss r ⟨ninf, 0, [], 0⟩).state = F.theta r' := by
  suffices H : I r' ∧ ∀ k (m : Monitor XF), m.Endless → ∃ m' : Monitor XF, m'.Endless ∧
      fitLoop (emStep E (c.toConfig params) (dataX obs ss) (dataLengths ss)) (n + k) (F.theta r) m =
        fitLoop (emStep E (c.toConfig params) (dataX obs ss) (dataLengths ss)) k (F.theta r') m' by
    refine ⟨H.1, ?_⟩
    obtain ⟨m', _, e⟩ := H.2 0 (⟨ninf, 0, [], 0⟩ : Monitor XF) ⟨rfl, rfl⟩
    have : F.fit { c with nIter := n } ss r ⟨ninf, 0, [], 0⟩ =
        fitLoop (emStep E (c.toConfig params) (dataX obs ss) (dataLengths ss)) (n + 0) (F.theta r) ⟨ninf, 0, [], 0⟩ := rfl
    rw [this, e]
    rfl
  induction h with
  | start => exact ⟨hr, fun k m hm => ⟨m, hm, by rw [Nat.zero_add]⟩⟩
  | @step n r' h hok ih =>
    refine ⟨hI.next _ ih.1 hok, fun k m hm => ?_⟩
    obtain ⟨m', hm', e⟩ := ih.2 (k + 1) m hm
    have e2 := fitLoop_endless k hm'
      (F.emStep_real c ss hne (hI.valid _ ih.1) hok (hI.good _ ih.1 hok) hp)
    refine ⟨_, e2.2, ?_⟩
    rw [← e2.1, ← e]
    congr 1
    omega

/-- What is reached stays reachable. -/
theorem Closed.reach {c : RConfig nc} {ss : List (ObsSeq D)} {I : RParams nc Q → Prop} (hI : F.Closed c ss I)
    (r : RParams nc Q) : F.Closed c ss fun r' => I r' ∧ ∃ n, F.Reach c ss r n r' where
  valid r' h := hI.valid r' h.1
  ok hi r' h := hI.ok hi r' h.1
  good r' h := hI.good r' h.1
  next r' h hok := ⟨hI.next r' h.1 hok, let ⟨n, hn⟩ := h.2; ⟨n + 1, hn.step hok⟩⟩

end Family
end Verif
