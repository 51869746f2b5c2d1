import Verif.Model.FitLog
import Verif.Spec.Runs
import Verif.Proofs.Mstep

/-!
# C83: what `fit` logs
-/

set_option autoImplicit false

namespace Verif
open FloatLike Spec

variable {α σ : Type} [FloatLike α]

/-! ## Statement -/

/-- Consecutive entries of a history. -/
def Spec.consecutive (h : List α) : List (α × α) := h.zip h.tail

/-- The pair (previous, current) of a convergence warning. -/
def Event.decrease? : Event α → Option (α × α)
  | .notConverging c p => some (p, c)
  | _ => none

/-- The columns of a verbose line. -/
def Event.line? : Event α → Option (Nat × α × α)
  | .line n x d => some (n, x, d)
  | _ => none

/-- What `fit` writes, in terms of its outcome: `h` is `monitor_.history`.

* one convergence warning for each pair of consecutive entries that drops by more than `2 ** -26`, in order;
* with `verbose`, one line per iteration: number (from 1), value, difference to the previous value (NaN at first);
* the warning about zero rows appears iff the parameters after some iteration have a zero row of `transmat_`,
  unless the loop stopped after that iteration because of the convergence test. -/
structure Spec.LogOf (verbose : Bool) (step : σ → Except PyErr (σ × α)) (zeroRow : σ → Except PyErr Bool)
    (θ : σ) (log : List (Event α)) (out : FitOutcome α σ) : Prop where
  decreases : log.filterMap Event.decrease? =
    (consecutive out.monitor.history).filter fun p => lt (p.2 - p.1) (-(ofRat (1 / 2 ^ 26)))
  lines : log.filterMap Event.line? = if verbose then
    List.zipWith (fun (x : α × Nat) d => (x.2 + 1, x.1, d)) out.monitor.history.zipIdx
      (nan :: (consecutive out.monitor.history).map fun p => p.2 - p.1) else []
  zeroRows : (Event.zeroRow ∈ log ↔ ∃ h₁ θ₁, h₁ <+: out.monitor.history ∧ h₁ ≠ [] ∧ Runs step h₁ θ θ₁ ∧
    zeroRow θ₁ = .ok true ∧ (h₁ = out.monitor.history → out.monitor.converged = false))

/-! ## Proof -/

theorem Spec.Runs.nil_inv {step : σ → Except PyErr (σ × α)} {s s' : σ} (hr : Runs step [] s s') : s' = s := by
  generalize hl : ([] : List α) = l at hr
  induction hr with
  | nil => rfl
  | snoc h1 h2 => simp at hl

theorem Spec.Runs.cons_inv {step : σ → Except PyErr (σ × α)} {h : List α} {s s'' : σ} {v : α}
    (hr : Runs step (v :: h) s s'') : ∃ s', step s = .ok (s', v) ∧ Runs step h s' s'' := by
  generalize hl : v :: h = l at hr
  induction hr generalizing h with
  | nil => cases hl
  | @snoc h' a b c w h1 h2 ih =>
    cases h' with
    | nil =>
      simp only [List.nil_append, List.cons.injEq] at hl
      obtain ⟨rfl, rfl⟩ := hl
      have := h1.nil_inv
      subst this
      exact ⟨_, h2, Runs.nil _⟩
    | cons x h' =>
      simp only [List.cons_append, List.cons.injEq] at hl
      obtain ⟨rfl, rfl⟩ := hl
      obtain ⟨s', e1, e2⟩ := ih rfl
      exact ⟨s', e1, e2.snoc h2⟩

section
variable {verbose : Bool} {step : σ → Except PyErr (σ × α)} {zeroRow : σ → Except PyErr Bool}

theorem Monitor.events_decrease (m : Monitor α) (lp : α) :
    (m.events verbose lp).filterMap Event.decrease? =
      (consecutive (m.history.getLast?.toList ++ [lp])).filter fun p => lt (p.2 - p.1) (-(ofRat (1 / 2 ^ 26))) := by
  unfold Monitor.events precision
  cases hv : m.history.getLast? with
  | none => cases verbose <;> simp [consecutive, Event.decrease?]
  | some p =>
    simp only [consecutive, Option.toList_some, List.cons_append, List.nil_append, List.tail_cons,
      List.zip_cons_cons, List.zip_nil_right, List.filterMap_append]
    by_cases h : lt (lp - p) (-(ofRat (1 / 2 ^ 26))) = true
    · cases verbose <;> simp only [h, List.filter_cons, List.filter_nil, Event.decrease?, if_true,
        List.filterMap_cons, List.filterMap_nil, Bool.false_eq_true, if_false, List.nil_append]
    · cases verbose <;> simp only [h, List.filter_cons, List.filter_nil, Event.decrease?, if_true,
        List.filterMap_cons, List.filterMap_nil, Bool.false_eq_true, if_false, List.nil_append]

theorem Monitor.events_line (m : Monitor α) (lp : α) :
    (m.events verbose lp).filterMap Event.line? = if verbose then
      [(m.iter + 1, lp, (m.history.getLast?.map fun p => lp - p).getD nan)] else [] := by
  unfold Monitor.events
  cases hv : m.history.getLast? with
  | none => cases verbose <;> simp [Event.line?]
  | some p =>
    rw [List.filterMap_append]
    have e : ((if lt (lp - p) (-precision) then [.notConverging lp p] else [] : List (Event α)).filterMap
        Event.line?) = [] := by
      split <;> simp [Event.line?]
    simp only [e]
    cases verbose <;> simp [Event.line?]

theorem Monitor.zeroRow_notMem (m : Monitor α) (lp : α) : Event.zeroRow ∉ m.events verbose lp := by
  unfold Monitor.events
  rw [List.mem_append, not_or]
  constructor
  · cases verbose <;> simp
  · split
    · split <;> simp
    · simp

/-- The history only grows. -/
theorem fitLoopLog_history (n : ℕ) (s : σ) (mon : Monitor α) :
    ∃ h, (fitLoopLog verbose step zeroRow n s mon).2.monitor.history = mon.history ++ h := by
  induction n generalizing s mon with
  | zero => exact ⟨[], by simp [fitLoopLog]⟩
  | succ n ih =>
    simp only [fitLoopLog]
    split
    · exact ⟨[], by simp⟩
    · next s' v _ =>
      split
      · exact ⟨[v], rfl⟩
      · split
        · exact ⟨[v], rfl⟩
        · obtain ⟨h, hh⟩ := ih s' (mon.report v)
          exact ⟨v :: h, by rw [hh]; simp [Monitor.report]⟩

/-- The invariant behind `LogOf`, from any state of the monitor. -/
theorem fitLoopLog_spec (n : ℕ) (s : σ) (mon : Monitor α) :
    let r := fitLoopLog verbose step zeroRow n s mon
    ∃ h, r.2.monitor.history = mon.history ++ h ∧
      r.1.filterMap Event.decrease? = (consecutive (mon.history.getLast?.toList ++ h)).filter
        (fun p => lt (p.2 - p.1) (-(ofRat (1 / 2 ^ 26)))) ∧
      r.1.filterMap Event.line? = (if verbose then
        List.zipWith (fun (x : α × Nat) d => (x.2 + 1, x.1, d)) (h.zipIdx mon.iter)
          ((if mon.history = [] then [nan] else []) ++
            (consecutive (mon.history.getLast?.toList ++ h)).map fun p => p.2 - p.1) else []) ∧
      (Event.zeroRow ∈ r.1 ↔ ∃ h₁ θ₁, h₁ <+: h ∧ h₁ ≠ [] ∧ Runs step h₁ s θ₁ ∧
        zeroRow θ₁ = .ok true ∧ (h₁ = h → r.2.monitor.converged = false)) := by
  have hnil : ∀ (mon : Monitor α), consecutive (mon.history.getLast?.toList ++ []) = [] := by
    intro mon
    cases mon.history.getLast? <;> simp [consecutive]
  induction n generalizing s mon with
  | zero =>
    refine ⟨[], by simp [fitLoopLog], by rw [hnil]; rfl, by simp [fitLoopLog], ?_⟩
    simp only [fitLoopLog, List.not_mem_nil, false_iff]
    rintro ⟨h₁, θ₁, a, b, _⟩
    exact b (List.prefix_nil.1 a)
  | succ n ih =>
    intro r
    cases hs : step s with
    | error e =>
      have hr : r = ([], ⟨s, mon, some e⟩) := by simp only [r, fitLoopLog, hs]
      rw [hr]
      refine ⟨[], by simp, by rw [hnil]; rfl, by simp, ?_⟩
      simp only [List.not_mem_nil, false_iff]
      rintro ⟨h₁, θ₁, a, b, _⟩
      exact b (List.prefix_nil.1 a)
    | ok p =>
      obtain ⟨s', v⟩ := p
      have hrep : (mon.report v).history = mon.history ++ [v] := rfl
      have hone : ∀ h₁ : List α, h₁ <+: [v] → h₁ ≠ [] → h₁ = [v] := by
        intro h₁ a b
        cases h₁ with
        | nil => exact absurd rfl b
        | cons x t =>
          obtain ⟨rfl, hp⟩ := List.cons_prefix_cons.1 a
          rw [List.prefix_nil.1 hp]
      have hline1 : ∀ (mon : Monitor α), (if verbose then
          [(mon.iter + 1, v, (mon.history.getLast?.map fun p => v - p).getD nan)] else []) =
          (if verbose then
        List.zipWith (fun (x : α × Nat) d => (x.2 + 1, x.1, d)) ([v].zipIdx mon.iter)
          ((if mon.history = [] then [nan] else []) ++
            (consecutive (mon.history.getLast?.toList ++ [v])).map fun p => p.2 - p.1) else []) := by
        intro mon
        cases hv : mon.history.getLast? with
        | none =>
          rw [List.getLast?_eq_none_iff.1 hv]
          simp [consecutive]
        | some p =>
          have : mon.history ≠ [] := by rintro h0; rw [h0] at hv; cases hv
          simp [consecutive, this]
      by_cases hc : (mon.report v).converged = true
      · have hr : r = (mon.events verbose v, ⟨s', mon.report v, none⟩) := by
          simp only [r, fitLoopLog, hs, hc, if_true]
        rw [hr]
        refine ⟨[v], hrep, mon.events_decrease v, (mon.events_line v).trans (hline1 mon), ?_⟩
        refine iff_of_false (mon.zeroRow_notMem v) ?_
        rintro ⟨h₁, θ₁, a, b, _, _, c⟩
        have := c (hone h₁ a b)
        rw [show (mon.report v).converged = false from this] at hc
        cases hc
      · simp only [Bool.not_eq_true] at hc
        cases hz : zeroRow s' with
        | error e =>
          have hr : r = (mon.events verbose v, ⟨s', mon.report v, some e⟩) := by
            simp [r, fitLoopLog, hs, hc, hz]
          rw [hr]
          refine ⟨[v], hrep, mon.events_decrease v, (mon.events_line v).trans (hline1 mon), ?_⟩
          refine iff_of_false (mon.zeroRow_notMem v) ?_
          rintro ⟨h₁, θ₁, a, b, c, d, _⟩
          rw [hone h₁ a b] at c
          obtain ⟨s2, c1, c2⟩ := c.cons_inv
          rw [hs] at c1
          cases c1
          rw [c2.nil_inv, hz] at d
          cases d
        | ok z =>
          set q := fitLoopLog verbose step zeroRow n s' (mon.report v) with hq
          have hr : r = (mon.events verbose v ++ (if z then [.zeroRow] else []) ++ q.1, q.2) := by
            simp [r, fitLoopLog, hs, hc, hz, hq]
          obtain ⟨h, i1, i2, i3, i4⟩ := ih s' (mon.report v)
          rw [← hq] at i1 i2 i3 i4
          have hlast : (mon.report v).history.getLast?.toList = [v] := by simp [Monitor.report]
          rw [hlast] at i2 i3
          have hcons : consecutive (mon.history.getLast?.toList ++ v :: h) =
              consecutive (mon.history.getLast?.toList ++ [v]) ++ consecutive ([v] ++ h) := by
            cases mon.history.getLast? <;> simp [consecutive]
          have hz1 : (if z then [Event.zeroRow] else [] : List (Event α)).filterMap Event.decrease? = [] := by
            cases z <;> simp [Event.decrease?]
          have hz2 : (if z then [Event.zeroRow] else [] : List (Event α)).filterMap Event.line? = [] := by
            cases z <;> simp [Event.line?]
          rw [hr]
          refine ⟨v :: h, by simp [i1, hrep], ?_, ?_, ?_⟩
          · rw [List.filterMap_append, List.filterMap_append, hz1, List.append_nil, i2, mon.events_decrease,
              hcons, List.filter_append]
          · rw [List.filterMap_append, List.filterMap_append, hz2, List.append_nil, i3, mon.events_line,
              hline1 mon, hcons]
            cases verbose
            · rfl
            · simp only [if_true]
              have e1 : (mon.report v).history ≠ [] := by rw [hrep]; simp
              rw [if_neg e1, List.nil_append, List.map_append, List.zipIdx_cons, List.zipIdx_cons,
                List.zipIdx_nil, ← List.append_assoc]
              have e2 : ∃ d, ((if mon.history = [] then [nan] else []) ++
                  (consecutive (mon.history.getLast?.toList ++ [v])).map fun p => p.2 - p.1) = [d] := by
                cases hv : mon.history.getLast? with
                | none =>
                  rw [List.getLast?_eq_none_iff.1 hv]
                  exact ⟨nan, by simp [consecutive]⟩
                | some p =>
                  have : mon.history ≠ [] := by rintro h0; rw [h0] at hv; cases hv
                  exact ⟨v - p, by simp [consecutive, this]⟩
              obtain ⟨d, e2⟩ := e2
              rw [e2]
              simp [Monitor.report]
          · rw [List.mem_append, List.mem_append]
            constructor
            · rintro ((hm | hm) | hm)
              · exact absurd hm (mon.zeroRow_notMem v)
              · cases z with
                | false => simp at hm
                | true =>
                  refine ⟨[v], s', ⟨h, rfl⟩, by simp, (Runs.nil s').head hs, hz, fun he => ?_⟩
                  have hh : h = [] := by simpa using he.symm
                  rw [hh, List.append_nil] at i1
                  cases n with
                  | zero => rw [hq]; exact hc
                  | succ n =>
                    rw [hq]
                    cases hs2 : step s' with
                    | error e => simp only [fitLoopLog, hs2]; exact hc
                    | ok p2 =>
                      exfalso
                      obtain ⟨s2, v2⟩ := p2
                      have : ((mon.report v).history ++ [v2]) <+: q.2.monitor.history := by
                        rw [hq]
                        simp only [fitLoopLog, hs2]
                        split
                        · exact List.prefix_refl _
                        · split
                          · exact List.prefix_refl _
                          · obtain ⟨h', k1⟩ := fitLoopLog_history (verbose := verbose) (step := step)
                              (zeroRow := zeroRow) n s2 ((mon.report v).report v2)
                            exact ⟨h', k1.symm⟩
                      rw [i1] at this
                      have := this.length_le
                      simp at this
              · obtain ⟨h₁, θ₁, a, b, c, d, f⟩ := i4.1 hm
                refine ⟨v :: h₁, θ₁, by rwa [List.cons_prefix_cons, eq_self_iff_true, true_and], by simp,
                  c.head hs, d, fun he => f (by simpa using he)⟩
            · rintro ⟨h₁, θ₁, a, b, c, d, f⟩
              cases h₁ with
              | nil => exact absurd rfl b
              | cons x t =>
                obtain ⟨rfl, hp⟩ := List.cons_prefix_cons.1 a
                obtain ⟨s2, c1, c2⟩ := c.cons_inv
                rw [hs] at c1
                cases c1
                by_cases ht : t = []
                · subst ht
                  rw [c2.nil_inv, hz] at d
                  cases d
                  exact Or.inl (Or.inr (by simp))
                · exact Or.inr (i4.2 ⟨t, θ₁, hp, ht, c2, d, fun he => f (by rw [he])⟩)

/-- Started with an empty history, the loop writes what `LogOf` says. -/
theorem fitLoopLog_logOf (n : ℕ) (s : σ) (mon : Monitor α) :
    LogOf verbose step zeroRow s (fitLoopLog verbose step zeroRow n s mon.reset).1
      (fitLoopLog verbose step zeroRow n s mon.reset).2 := by
  obtain ⟨h, h1, h2, h3, h4⟩ := fitLoopLog_spec (verbose := verbose) (step := step) (zeroRow := zeroRow) n s mon.reset
  have hh : (fitLoopLog verbose step zeroRow n s mon.reset).2.monitor.history = h := h1
  refine ⟨?_, ?_, ?_⟩
  · rw [h2, hh]; rfl
  · rw [h3, hh]; rfl
  · rw [h4, hh]

/-- Writing changes nothing: tests that do not raise leave the loop of `fitLoop`. -/
theorem fitLoopLog_erase (n : ℕ) (s : σ) (mon : Monitor α) {z : σ → Bool}
    (hz : ∀ s, zeroRow s = .ok (z s)) : (fitLoopLog verbose step zeroRow n s mon).2 = fitLoop step n s mon := by
  induction n generalizing s mon with
  | zero => rfl
  | succ n ih =>
    simp only [fitLoopLog, fitLoop]
    cases step s with
    | error e => rfl
    | ok p =>
      obtain ⟨s', v⟩ := p
      by_cases hc : (mon.report v).converged = true
      · simp only [hc, if_true]
      · simp only [hc, Bool.false_eq_true, if_false, hz, ih]

end

variable {nc : ℕ} [NeZero nc] {Obs VP P S : Type}

/-- Rows of the transition matrix that sum to zero. -/
def Spec.HasZeroRow (A : Mat α nc) : Prop := ∃ i, eq (sumF (A i)) 0 = true

omit [NeZero nc] in
theorem someZeroRow_iff (A : Mat α nc) : someZeroRow A = true ↔ HasZeroRow A := by
  simp [someZeroRow, HasZeroRow]

/-- **C83** What `fit` of a `BaseHMM` writes, in any arithmetic and for any emission family, data and monitor;
and writing has no effect on the outcome. -/
theorem C83_log (verbose : Bool) (E : Emission α nc Obs P S) (cfg : Config α nc) (X : List Obs)
    (lengths : Option (List Int)) (θ : Theta α nc P) (mon : Monitor α) :
    let r := fitFromLog verbose E cfg X lengths θ mon
    let step := emStep E cfg X (lengths.getD [(X.length : Int)])
    r.2 = fitFrom E cfg X lengths θ mon ∧
    LogOf verbose step (fun θ => .ok (someZeroRow θ.transmat)) θ r.1 r.2 ∧
    (Event.zeroRow ∈ r.1 ↔ ∃ h₁ θ₁, h₁ <+: r.2.monitor.history ∧ h₁ ≠ [] ∧ Runs step h₁ θ θ₁ ∧
      HasZeroRow θ₁.transmat ∧ (h₁ = r.2.monitor.history → r.2.monitor.converged = false)) := by
  refine ⟨fitLoopLog_erase _ _ _ (z := fun θ => someZeroRow θ.transmat) fun _ => rfl, fitLoopLog_logOf _ _ _, ?_⟩
  have h := (fitLoopLog_logOf (verbose := verbose) (step := emStep E cfg X (lengths.getD [(X.length : Int)]))
    (zeroRow := fun θ => .ok (someZeroRow θ.transmat)) cfg.nIter θ mon).zeroRows
  simp only [Except.ok.injEq, someZeroRow_iff] at h
  exact h

/-- **C83** The same for the variational classes. -/
theorem C83_log_variational (verbose : Bool) (V : VEmission α nc Obs VP P S) (sci : Sci α) (cfg : Config α nc)
    (X : List Obs) (lengths : Option (List Int)) (θ : VTheta α nc VP) (mon : Monitor α) :
    let r := V.fitFromLog verbose sci cfg X lengths θ mon
    let step := V.step sci cfg X (lengths.getD [(X.length : Int)])
    let zeroRow := fun θ : VTheta α nc VP => match θ.transmat with
      | none => .error (.attributeError "transmat_")
      | some A => .ok (someZeroRow A)
    r.2 = V.fitFrom sci cfg X lengths θ mon ∧ LogOf verbose step zeroRow θ r.1 r.2 ∧
    (Event.zeroRow ∈ r.1 ↔ ∃ h₁ θ₁, h₁ <+: r.2.monitor.history ∧ h₁ ≠ [] ∧ Runs step h₁ θ θ₁ ∧
      (∃ A, θ₁.transmat = some A ∧ HasZeroRow A) ∧
      (h₁ = r.2.monitor.history → r.2.monitor.converged = false)) := by
  intro r step zeroRow
  have h := fitLoopLog_logOf (verbose := verbose) (step := step) (zeroRow := zeroRow) cfg.nIter θ mon
  refine ⟨?_, h, ?_⟩
  · show (fitLoopLog verbose step zeroRow cfg.nIter θ mon.reset).2 = vfitLoop step cfg.nIter θ mon.reset
    clear h r
    generalize cfg.nIter = n
    generalize mon.reset = mon
    induction n generalizing θ mon with
    | zero => rfl
    | succ n ih =>
      simp only [fitLoopLog, vfitLoop]
      cases step θ with
      | error e => rfl
      | ok p =>
        obtain ⟨s', v⟩ := p
        by_cases hc : (mon.report v).converged = true
        · simp only [hc, if_true]
        · simp only [hc, Bool.false_eq_true, if_false]
          cases ht : s'.transmat with
          | none => simp only [zeroRow, ht]
          | some A => simp only [zeroRow, ht]; exact ih s' (mon.report v)
  · refine h.zeroRows.trans ?_
    have hz : ∀ θ₁, zeroRow θ₁ = .ok true ↔ ∃ A, θ₁.transmat = some A ∧ HasZeroRow A := by
      intro θ₁
      simp only [zeroRow]
      cases ht : θ₁.transmat with
      | none => simp
      | some A => simp [someZeroRow_iff]
    simp only [hz]
    exact Iff.rfl

end Verif
