import Verif.Props.ObjectFitCounts
import Verif.Props.ObjectsDemo

/-!
# Objects that meet the hypotheses of C72
-/

set_option autoImplicit false

namespace Verif.ObjectFitDemo
open FloatLike XF Spec

/-- A generator whose draws are positive: the first coordinate of a Dirichlet draw and a Gamma draw depend on the
number of draws so far. -/
noncomputable def lib : RandomLib XF ℕ where
  ofSeed k := k
  rand g := (.fin (1 / (g + 2)), g + 1)
  dirichlet {n} _ g := (fun _ => .fin (1 / n), g + 1)
  gamma a _ g := (a * .fin (1 / (g + 1)), g + 1)
  poisson _ g := (0, g + 1)
  multinomial _ _ g := (fun _ => 0, g + 1)
  normal m _ g := (m, g + 1)
  kmeans _ _ _ g := (fun i _ => .fin (i.val + g), g + 1)

theorem positive : PositiveDraws lib where
  dirichlet {n} a g hn _ := by
    have : (0 : ℝ) < n := by exact_mod_cast Nat.pos_of_ne_zero hn
    exact ⟨fun _ => 1 / n, fun _ => by positivity, by simp [this.ne'], rfl⟩
  rand g := ⟨_, by positivity, rfl⟩
  gamma a b g ha _ := ⟨a * (1 / (g + 1)), by positivity, by simp [lib]⟩

/-- A model of two states with the default settings and nothing set. -/
noncomputable def fresh {P : Type} (c : Char) (p : P) : World XF ℕ P :=
  ⟨{ ObjectsDemo.est p with params := ['s', 't', c], initParams := ['s', 't', c], startprob := none, transmat := none }, 0⟩

theorem flat {P : Type} (c : Char) (p : P) : FlatChain (fresh c p).est .log := ⟨by simp [fresh, ObjectsDemo.est], fun _ => rfl,
  fun _ _ => rfl, by simp [fresh, ObjectsDemo.est], rfl⟩

/-- Symbols 0, 2 and 1, 0. -/
def cs : List (ObsSeq (Fin 3)) := [⟨1, ![0, 2]⟩, ⟨1, ![1, 0]⟩]

/-- `CategoricalHMM(n_components=2).fit`. -/
example : ScoresWell catSub (symbolsX (samples cs)) (some [2, 2])
    (catSub.fit lib (symbolsX (samples cs)) (some [2, 2]) (fresh 'e' { emissionprobPrior := fun _ _ => 1 })).2.est :=
  (C72_categorical_fresh positive (nf := 3) (flat _ _) (fun _ _ => rfl) (fun _ h => h) (by simp [fresh]) (fun _ h => h)
    (ss := cs) ⟨⟨1, ![0, 2]⟩, by simp [cs], by simp⟩ (.inr ⟨rfl, 2, by simp [cs, samples, ObsSeq.rows, List.ofFn_succ], by simp⟩)
    (.inl rfl)).2

/-- Counts (0, 2), (1, 1) and (3, 0). -/
def ks : List (ObsSeq (Fin 2 → ℕ)) := [⟨1, ![![0, 2], ![1, 1]]⟩, ⟨0, ![![3, 0]]⟩]

/-- `PoissonHMM(n_components=2).fit`. -/
example : ScoresWell poisSub (countsX (samples ks)) (some [2, 1])
    (poisSub.fit lib (countsX (samples ks)) (some [2, 1])
      (fresh 'l' { lambdasPrior := fun _ _ => 0, lambdasWeight := fun _ _ => 0 })).2.est :=
  (C72_poisson_fresh positive (nf := 2) (by norm_num) (flat _ _) (fun _ _ => rfl) (fun _ _ => rfl) (fun _ h => h)
    (by simp [fresh]) (fun _ h => h)
    (ss := ks) ⟨_, List.mem_cons_self .., by simp⟩ (.inr rfl)
    ⟨![0, 2], by simp [ks, samples, ObsSeq.rows, List.ofFn_succ], ![0, 2], by simp [ks, samples, ObsSeq.rows, List.ofFn_succ],
      0, 1, by simp⟩ (.inl rfl)).2

/-- `MultinomialHMM(n_components=2).fit`, the number of trials not given. -/
example : ScoresWell multiSub (countsX (samples ks)) (some [2, 1])
    (multiSub.fit lib (countsX (samples ks)) (some [2, 1]) (fresh 'e' { nTrials := none })).2.est :=
  (C72_multinomial_fresh positive (nf := 2) (flat _ _) (fun _ h => h) (by simp [fresh]) (fun _ h => h)
    (ss := ks) ⟨_, List.mem_cons_self .., by simp⟩ ⟨_, List.mem_cons_self .., 0, 1, by simp⟩ (.inr rfl) (.inl rfl) (.inl rfl)).2

end Verif.ObjectFitDemo
