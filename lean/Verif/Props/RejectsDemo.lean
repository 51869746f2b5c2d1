import Verif.Props.ObjectsDemo
import Verif.Props.NegativeCounts
import Verif.Props.VRejects

/-!
# Cases that meet the hypotheses of C94
-/

set_option autoImplicit false

namespace Verif.ObjectsDemo
open FloatLike XF Spec

/-- What `_check` makes of the Poisson object. -/
theorem pois_check : poisSub.checkFitted pois = (.ok (), { pois with nFeatures := some 3 }) := by
  rw [pois_holds.chain.fitted]
  have hsh : (mat B).shape = [2, 3] := rfl
  have ha : atleast2d (mat B) = mat B := rfl
  simp [poisSub, poisCheck, pois, est, ha, hsh]

/-- A decoder that does not exist. -/
example (X : RawX XF) : (poisSub.decode X none (some "greedy") pois).1 = .error (.valueError "Unknown decoder") :=
  congrArg Prod.fst ((C94_decoder pois_check X none).1 (some "greedy") (by simp [chosen, KnownDecoder]))

/-- The empty name stands for the object's own decoder, so that wrong data are reported. -/
example : ∃ msg, (poisSub.decode (.ints (.d1 fun _ : Fin 3 => 1)) none (some "") pois).1 = .error (.valueError msg) := by
  obtain ⟨msg, -, -, -, h, -⟩ := C94_data pois_check (X := .ints (.d1 fun _ : Fin 3 => 1))
    (by rintro ⟨m, n, h, -⟩; simp [NdArray.shape] at h) none
  exact ⟨msg, congrArg Prod.fst (h (some "") (.inl rfl))⟩

/-- An infinite entry. -/
example : ∃ msg, (poisSub.score (.floats (.d2 fun _ _ : Fin 1 => .pinf)) none pois).1 = .error (.valueError msg) := by
  obtain ⟨msg, -, h, -⟩ := C94_data pois_check (X := .floats (.d2 fun _ _ : Fin 1 => .pinf)) (by
    rintro ⟨m, n, v, h, h1, h2⟩
    unfold mat at h
    injection h with hm hn hv
    subst hm hn
    have := congrFun (congrFun (eq_of_heq hv) 0) 0
    cases this) none
  exact ⟨msg, congrArg Prod.fst h⟩

/-- Two samples and `lengths=[3]`. -/
example : ∃ msg, (poisSub.score (.ints (.d2 fun (_ : Fin 2) (_ : Fin 3) => 1)) (some [3]) pois).1 = .error (.valueError msg) := by
  obtain ⟨err, h1, -, h2, -⟩ := C94_lengths poisSub_rowsKept pois_check (X := .ints (.d2 fun (_ : Fin 2) (_ : Fin 3) => 1))
    ⟨2, 3, rfl, by norm_num, by norm_num⟩ (.inl rfl) (ls := some [3]) (fun h => by
      have := (h [3] rfl).2
      simp [keptRows, NdArray.shape] at this)
  rcases h1 with ⟨h, -⟩ | ⟨l, -, -, -, msg, rfl⟩
  · cases h
  · exact ⟨msg, congrArg Prod.fst h2⟩

/-- Counts `(1, 0, -1)`. -/
example : (poisSub.score (intsX (samples [⟨0, fun _ => ![1, 0, -1]⟩])) none pois).1 = .ok ninf :=
  (C94_negative (by norm_num) pois π A B pois_holds [⟨0, fun _ => ![1, 0, -1]⟩] none (.inr ⟨⟨_, rfl⟩, rfl⟩)
    (s := ⟨0, fun _ => ![1, 0, -1]⟩) (by simp) 0 2 (show (![1, 0, -1] : Fin 3 → ℤ) 2 < 0 by decide)).1 rfl

end Verif.ObjectsDemo
