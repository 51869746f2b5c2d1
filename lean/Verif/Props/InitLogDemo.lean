import Verif.Props.VInitLog
import Verif.Props.Seeding

/-!
# C95: consequences and a concrete case
-/

set_option autoImplicit false

namespace Verif
open FloatLike Spec Logged

variable {α G P : Type} [FloatLike α] {R : RandomLib α G} {S : Sub α G P} {own : P → List Announced}
  {log : XArr α → Logged (World α G P) Unit}

theorem mem_overwrites (ip : List Char) (l : List Announced) (name : String) (code : Char) :
    .overwritten name code ∈ overwrites ip l ↔ ∃ a ∈ l, a.name = name ∧ a.code = code ∧ code ∈ ip ∧ a.isSet = true := by
  unfold overwrites
  simp only [List.mem_map, List.mem_filter, Bool.and_eq_true, decide_eq_true_eq, InitWarning.overwritten.injEq]
  constructor
  · rintro ⟨a, ⟨h1, h2, h3⟩, rfl, rfl⟩
    exact ⟨a, h1, rfl, rfl, h2, h3⟩
  · rintro ⟨a, h1, rfl, rfl, h2, h3⟩
    exact ⟨a, ⟨h1, h2, h3⟩, rfl, rfl⟩

theorem overwritten_not_tooSmall (table : List (Char × Int)) (ps : List Char) (n : ℕ) (name : String) (code : Char) :
    InitWarning.overwritten name code ∉ tooSmall table ps n := by
  unfold tooSmall
  split
  · split <;> simp
  · simp

/-- **C95** No value the user set is overwritten silently, and no other is announced: when `_init` returns, an
attribute was announced if and only if it was set and its code is in `init_params`. -/
theorem C95_announced (h : InitWarns S R own log) (X : XArr α) (w : World α G P) (hok : (S.init R X w).1 = .ok ())
    (name : String) (code : Char) : .overwritten name code ∈ (log X w).1 ↔
      ∃ a ∈ chainAttrs w.est ++ own w.est.sub, a.name = name ∧ a.code = code ∧ code ∈ w.est.initParams ∧
        a.isSet = true := by
  rw [h.warnings X w hok, initWarnings]
  simp only [List.mem_append, mem_overwrites, overwritten_not_tooSmall, or_false]
  constructor
  · rintro (⟨a, h1, h2⟩ | ⟨a, h1, h2⟩)
    · exact ⟨a, .inl h1, h2⟩
    · exact ⟨a, .inr h1, h2⟩
  · rintro ⟨a, h1 | h1, h2⟩
    · exact .inl ⟨a, h1, h2⟩
    · exact .inr ⟨a, h1, h2⟩

/-- **C95** The data are announced as too few exactly when they have fewer entries than the parameters to be fitted
have scalars. -/
theorem C95_degenerate (h : InitWarns S R own log) (X : XArr α) (w : World α G P) (hok : (S.init R X w).1 = .ok ())
    (n : ℤ) (m : ℕ) : .degenerate n m ∈ (log X w).1 ↔
      toFit (S.nFit (S.init R X w).2.est) w.est.params = some n ∧ m = X.n * X.d ∧ (m : ℤ) < n := by
  have hno : ∀ l : List Announced, InitWarning.degenerate n m ∉ overwrites w.est.initParams l := by
    intro l; simp [overwrites]
  rw [h.warnings X w hok, initWarnings]
  simp only [List.mem_append, hno, or_false, false_or]
  unfold tooSmall
  cases toFit (S.nFit (S.init R X w).2.est) w.est.params with
  | none => simp
  | some k =>
    simp only [Option.some.injEq]
    split
    · rename_i hk
      simp only [List.mem_singleton, InitWarning.degenerate.injEq]
      constructor
      · rintro ⟨rfl, rfl⟩; exact ⟨rfl, rfl, hk⟩
      · rintro ⟨rfl, rfl, -⟩; exact ⟨rfl, rfl⟩
    · rename_i hk
      simp only [List.not_mem_nil, false_iff]
      rintro ⟨rfl, rfl, h3⟩
      exact hk h3

/-- **C95** An object on which nothing was set logs at most that there is too little data. -/
theorem C95_fresh (h : InitWarns S R own log) (X : XArr α) (w : World α G P) (hok : (S.init R X w).1 = .ok ())
    (hs : ∀ a ∈ chainAttrs w.est ++ own w.est.sub, a.isSet = false) :
    (log X w).1 = tooSmall (S.nFit (S.init R X w).2.est) w.est.params (X.n * X.d) := by
  have hnone : ∀ l : List Announced, (∀ a ∈ l, a.isSet = false) → overwrites w.est.initParams l = [] := by
    intro l hl
    unfold overwrites
    rw [List.filter_eq_nil_iff.2 fun a ha => by simp [hl a ha]]
    rfl
  rw [h.warnings X w hok, initWarnings, hnone _ fun a ha => hs a (List.mem_append_left _ ha),
    hnone _ fun a ha => hs a (List.mem_append_right _ ha)]
  simp

/-- **C95** An object on which everything is set and whose codes are all in `init_params` announces every
attribute. -/
theorem C95_all (h : InitWarns S R own log) (X : XArr α) (w : World α G P) (hok : (S.init R X w).1 = .ok ())
    (hs : ∀ a ∈ chainAttrs w.est ++ own w.est.sub, a.isSet = true ∧ a.code ∈ w.est.initParams) :
    (log X w).1 = (chainAttrs w.est).map (fun a => .overwritten a.name a.code) ++
      tooSmall (S.nFit (S.init R X w).2.est) w.est.params (X.n * X.d) ++
      (own w.est.sub).map fun a => .overwritten a.name a.code := by
  have hall : ∀ l : List Announced, (∀ a ∈ l, a.isSet = true ∧ a.code ∈ w.est.initParams) →
      overwrites w.est.initParams l = l.map fun a => .overwritten a.name a.code := by
    intro l hl
    unfold overwrites
    rw [List.filter_eq_self.2 fun a ha => by simp [hl a ha]]
  rw [h.warnings X w hok, initWarnings, hall _ fun a ha => hs a (List.mem_append_left _ ha),
    hall _ fun a ha => hs a (List.mem_append_right _ ha)]

/-- **C95** Without a code in `init_params` nothing is announced as overwritten. -/
theorem C95_quiet (h : InitWarns S R own log) (X : XArr α) (w : World α G P) (name : String) (code : Char)
    (hc : code ∉ w.est.initParams) : .overwritten name code ∉ (log X w).1 := by
  intro hm
  have := (h.raised X w).subset hm
  unfold initWarnings at this
  simp only [List.mem_append, mem_overwrites, overwritten_not_tooSmall, or_false] at this
  rcases this with ⟨a, -, -, -, h, -⟩ | ⟨a, -, -, -, h, -⟩ <;> exact hc h

namespace InitLogDemo

/-- Two states, `startprob_` set by the user, `init_params="ste"`. -/
noncomputable def w : World XF ℕ (CatAttrs XF) where
  est := { construct (α := XF) (G := ℕ)
    { nComponents := 2, startprobPrior := fun _ => 1, transmatPrior := fun _ _ => 1, algorithm := "viterbi", randomState := .seed 0,
      nIter := 10, tol := 0, params := ['s', 't', 'e'], initParams := ['s', 't', 'e'], implementation := "log",
      nFeatures := none, sub := { emissionprobPrior := fun _ _ => 1 } } with startprob := some (.d1 (n := 2) fun _ => 1) }
  glob := 0

/-- Symbols `0, 1`: two data points, five parameters. -/
def X : XArr XF := .ints (d := 1) [fun _ => 0, fun _ => 1]

example : (catSub.initLog catInitLog SeedingDemo.counter X w).1 = [.overwritten "startprob_" 's', .degenerate 5 2] := by
  rfl

end InitLogDemo
end Verif
