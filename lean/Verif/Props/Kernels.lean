import Mathlib.Tactic.FinCases
import Verif.Spec.Shapes
import Verif.Proofs.HmmcRawScaling

/-!
# C17: the shape checks of the kernels are exactly the needed ones

For arrays of any shape and any arithmetic.
-/

set_option autoImplicit false

namespace Verif
open FloatLike Raw Spec

variable {α β σ : Type}

section NotShape

/-- Neither of the two shape errors. -/
def NotShape (r : Except PyErr β) : Prop := ¬ RejectsShapes r

theorem NotShape.ok (x : β) : NotShape (.ok x) := by
  rintro ⟨e, h, _⟩; cases h

theorem NotShape.ub : NotShape (.error .undefinedBehaviour : Except PyErr β) := by
  rintro ⟨e, h, he⟩
  cases h
  rcases he with h | h <;> cases h

theorem NotShape.underflow : NotShape (.error .underflow : Except PyErr β) := by
  rintro ⟨e, h, he⟩
  cases h
  rcases he with h | h <;> cases h

theorem NotShape.bind {γ : Type} {m : Except PyErr β} {f : β → Except PyErr γ} (hm : NotShape m)
    (hf : ∀ x, NotShape (f x)) : NotShape (m >>= f) := by
  cases m with
  | ok x => exact hf x
  | error e =>
    rintro ⟨e', h, he⟩
    exact hm ⟨e', by cases h; rfl, he⟩

theorem NotShape.ite {c : Prop} [Decidable c] {x y : Except PyErr β} (hx : NotShape x)
    (hy : NotShape y) : NotShape (if c then x else y) := by split <;> assumption

theorem NotShape.foldlM (l : List Nat) (f : σ → Nat → Except PyErr σ)
    (h : ∀ s k, NotShape (f s k)) (s : σ) : NotShape (l.foldlM f s) := by
  induction l generalizing s with
  | nil => exact .ok s
  | cons k l ih => exact (h s k).bind ih

theorem NotShape.forUp {lo hi : Int} {s : σ} {body : Int → σ → Except PyErr σ}
    (h : ∀ i s, NotShape (body i s)) : NotShape (forUp lo hi s body) :=
  NotShape.foldlM _ _ (fun s k => h _ s) s

theorem NotShape.forDown {hi : Int} {s : σ} {body : Int → σ → Except PyErr σ}
    (h : ∀ i s, NotShape (body i s)) : NotShape (forDown hi s body) :=
  NotShape.foldlM _ _ (fun s k => h _ s) s

theorem NotShape.readCell (x : Option β) : NotShape (readCell x) := by
  cases x
  · exact .ub
  · exact .ok _

theorem NotShape.get1 (a : Arr1 β) (i : Int) : NotShape (a.get i) := .ite (.readCell _) .ub
theorem NotShape.get2 (a : Arr2 β) (i j : Int) : NotShape (a.get i j) := .ite (.readCell _) .ub
theorem NotShape.set1 (a : Arr1 β) (i : Int) (x : β) : NotShape (a.set i x) := .ite (.ok _) .ub
theorem NotShape.set2 (a : Arr2 β) (i j : Int) (x : β) : NotShape (a.set i j x) := .ite (.ok _) .ub

variable [FloatLike α]

theorem NotShape.accumulate {rd : Int → Except PyErr α} (h : ∀ i, NotShape (rd i)) (n : Int) :
    NotShape (accumulate rd n) :=
  .forUp fun i _ => (h i).bind fun _ => .ok _

theorem NotShape.maxElement {rd : Int → Except PyErr α} (h : ∀ i, NotShape (rd i)) (n : Int) :
    NotShape (maxElement rd n) :=
  .forUp fun i s => (h s).bind fun _ => (h i).bind fun _ => .ok _

theorem NotShape.logsumexp {rd : Int → Except PyErr α} (h : ∀ i, NotShape (rd i)) (n : Int) :
    NotShape (logsumexp rd n) :=
  (NotShape.maxElement h n).bind fun _ => (h _).bind fun _ =>
    .ite (.ok _) ((NotShape.forUp fun i _ => (h i).bind fun _ => .ok _).bind fun _ => .ok _)

end NotShape

section Rejects

/-- The result of an accessor of one dimension, or the error of another shape. -/
theorem unchecked1_cases (a : PyArray β) :
    (∃ n, a.shape = [n] ∧ a.unchecked1 = .ok (inp1 a n)) ∨
      ((∀ n, a.shape ≠ [n]) ∧ a.unchecked1 = .error wrongDim) := by
  rcases h : a.shape with _ | ⟨n, _ | ⟨m, l⟩⟩
  · exact .inr ⟨by simp, by simp [PyArray.unchecked1, h]⟩
  · exact .inl ⟨n, rfl, unchecked1_eq h⟩
  · exact .inr ⟨by simp, by simp [PyArray.unchecked1, h]⟩

theorem unchecked2_cases (a : PyArray β) :
    (∃ m n, a.shape = [m, n] ∧ a.unchecked2 = .ok (inp2 a m n)) ∨
      ((∀ m n, a.shape ≠ [m, n]) ∧ a.unchecked2 = .error wrongDim) := by
  rcases h : a.shape with _ | ⟨m, _ | ⟨n, _ | ⟨k, l⟩⟩⟩
  · exact .inr ⟨by simp, by simp [PyArray.unchecked2, h]⟩
  · exact .inr ⟨by simp, by simp [PyArray.unchecked2, h]⟩
  · exact .inl ⟨m, n, rfl, unchecked2_eq h⟩
  · exact .inr ⟨by simp, by simp [PyArray.unchecked2, h]⟩

theorem rejects_wrongDim {γ : Type} (f : β → Except PyErr γ) :
    RejectsShapes ((Except.error wrongDim : Except PyErr β) >>= f) := ⟨_, rfl, .inr rfl⟩

/-- The checks of the kernels taking `startprob`, `transmat` and frames. -/
theorem rejects_model {γ : Type} {sp tm fp : PyArray β}
    (k : Arr1 β → Arr2 β → Arr2 β → Except PyErr γ)
    (hk : ∀ ns nc, ModelShapes ns nc sp tm fp →
      NotShape (k (inp1 sp nc) (inp2 tm nc nc) (inp2 fp ns nc))) :
    RejectsShapes (do
      let startprob ← sp.unchecked1
      let transmat ← tm.unchecked2
      let frameprob ← fp.unchecked2
      if startprob.n ≠ frameprob.cols ∨ transmat.rows ≠ frameprob.cols
          ∨ transmat.cols ≠ frameprob.cols then throw PyErr.shapeMismatch
      k startprob transmat frameprob) ↔ ¬ ∃ ns nc, ModelShapes ns nc sp tm fp := by
  rcases unchecked1_cases sp with ⟨n, h1, e1⟩ | ⟨h1, e1⟩
  · rcases unchecked2_cases tm with ⟨r, c, h2, e2⟩ | ⟨h2, e2⟩
    · rcases unchecked2_cases fp with ⟨ns, nc, h3, e3⟩ | ⟨h3, e3⟩
      · rw [e1, e2, e3]
        simp only [ok_bind]
        by_cases hc : (inp1 sp n).n ≠ (inp2 fp ns nc).cols ∨ (inp2 tm r c).rows ≠ (inp2 fp ns nc).cols
          ∨ (inp2 tm r c).cols ≠ (inp2 fp ns nc).cols
        · rw [if_pos hc]
          refine iff_of_true ⟨_, rfl, .inl rfl⟩ ?_
          rintro ⟨ns', nc', h⟩
          have a := h1.symm.trans h.start
          have b := h2.symm.trans h.trans
          have d := h3.symm.trans h.frame
          simp only [List.cons.injEq, and_true] at a b d
          simp only [inp1_n, inp2_rows, inp2_cols] at hc
          omega
        · rw [if_neg hc]
          simp only [inp1_n, inp2_rows, inp2_cols, not_or, not_not] at hc
          obtain ⟨rfl, rfl, hcc⟩ := hc
          subst hcc
          have hm : ModelShapes ns c sp tm fp := ⟨h1, h2, h3⟩
          exact iff_of_false (hk ns c hm) fun h => h ⟨ns, c, hm⟩
      · rw [e1, e2, e3]
        exact iff_of_true ⟨_, rfl, .inr rfl⟩ fun ⟨ns, nc, h⟩ => h3 _ _ h.frame
    · rw [e1, e2]
      exact iff_of_true ⟨_, rfl, .inr rfl⟩ fun ⟨ns, nc, h⟩ => h2 _ _ h.trans
  · rw [e1]
    exact iff_of_true (rejects_wrongDim _) fun ⟨ns, nc, h⟩ => h1 _ h.start

variable [FloatLike α]

/-- Walks through the statements of a kernel. -/
macro "not_shape" : tactic => `(tactic|
  repeat' first
    | exact NotShape.ok _
    | exact NotShape.underflow
    | exact NotShape.get1 _ _
    | exact NotShape.get2 _ _ _
    | exact NotShape.set1 _ _ _
    | exact NotShape.set2 _ _ _ _
    | refine NotShape.accumulate (fun i => ?_) _
    | refine NotShape.maxElement (fun i => ?_) _
    | refine NotShape.logsumexp (fun i => ?_) _
    | refine NotShape.bind ?_ fun x => ?_
    | refine NotShape.forUp fun i s => ?_
    | refine NotShape.forDown fun i s => ?_
    | refine NotShape.ite ?_ ?_)

/-- `forward_scaling` raises a shape error exactly for shapes that do not match. -/
theorem C17_forward_scaling_rejects (sp tm fp : PyArray α) :
    RejectsShapes (Raw.forwardScaling sp tm fp) ↔ ¬ ∃ ns nc, ModelShapes ns nc sp tm fp := by
  refine rejects_model _ fun ns nc h => ?_
  not_shape

theorem modelShapes_log (ns nc : Nat) (sp tm fp : PyArray α) :
    ModelShapes ns nc (logArr sp) (logArr tm) fp ↔ ModelShapes ns nc sp tm fp :=
  ⟨fun h => ⟨h.start, h.trans, h.frame⟩, fun h => ⟨h.start, h.trans, h.frame⟩⟩

/-- `forward_log` raises a shape error exactly for shapes that do not match. -/
theorem C17_forward_log_rejects (sp tm fp : PyArray α) :
    RejectsShapes (Raw.forwardLog sp tm fp) ↔ ¬ ∃ ns nc, ModelShapes ns nc sp tm fp := by
  simp only [← modelShapes_log _ _ sp tm fp]
  refine rejects_model _ fun ns nc h => ?_
  not_shape

/-- `backward_log` raises a shape error exactly for shapes that do not match. -/
theorem C17_backward_log_rejects (sp tm fp : PyArray α) :
    RejectsShapes (Raw.backwardLog sp tm fp) ↔ ¬ ∃ ns nc, ModelShapes ns nc sp tm fp := by
  simp only [← modelShapes_log _ _ sp tm fp]
  refine rejects_model _ fun ns nc h => ?_
  not_shape

/-- `viterbi` raises a shape error exactly for shapes that do not match. -/
theorem C17_viterbi_rejects (sp tm fp : PyArray α) :
    RejectsShapes (Raw.viterbi sp tm fp) ↔ ¬ ∃ ns nc, ModelShapes ns nc sp tm fp := by
  simp only [← modelShapes_log _ _ sp tm fp]
  refine rejects_model _ fun ns nc h => ?_
  not_shape

/-- `backward_scaling` raises a shape error exactly for shapes that do not match (here also those of
the scaling factors). -/
theorem C17_backward_scaling_rejects (sp tm fp sc : PyArray α) :
    RejectsShapes (Raw.backwardScaling sp tm fp sc) ↔
      ¬ ∃ ns nc, ModelShapes ns nc sp tm fp ∧ sc.shape = [ns] := by
  unfold Raw.backwardScaling
  rcases unchecked1_cases sp with ⟨n, h1, e1⟩ | ⟨h1, e1⟩
  · rcases unchecked2_cases tm with ⟨r, c, h2, e2⟩ | ⟨h2, e2⟩
    · rcases unchecked2_cases fp with ⟨ns, nc, h3, e3⟩ | ⟨h3, e3⟩
      · rcases unchecked1_cases sc with ⟨m, h4, e4⟩ | ⟨h4, e4⟩
        · rw [e1, e2, e3, e4]
          simp only [ok_bind]
          by_cases hc : (inp1 sp n).n ≠ (inp2 fp ns nc).cols ∨
            (inp2 tm r c).rows ≠ (inp2 fp ns nc).cols ∨ (inp2 tm r c).cols ≠ (inp2 fp ns nc).cols
            ∨ (inp1 sc m).n ≠ (inp2 fp ns nc).rows
          · rw [if_pos hc]
            refine iff_of_true ⟨_, rfl, .inl rfl⟩ ?_
            rintro ⟨ns', nc', h, h'⟩
            have a := h1.symm.trans h.start
            have b := h2.symm.trans h.trans
            have d := h3.symm.trans h.frame
            have e := h4.symm.trans h'
            simp only [List.cons.injEq, and_true] at a b d e
            simp only [inp1_n, inp2_rows, inp2_cols] at hc
            omega
          · rw [if_neg hc]
            simp only [inp1_n, inp2_rows, inp2_cols, not_or, not_not] at hc
            obtain ⟨rfl, rfl, hcc, rfl⟩ := hc
            subst hcc
            refine iff_of_false ?_ fun h => h ⟨m, c, ⟨h1, h2, h3⟩, h4⟩
            show NotShape _
            not_shape
        · rw [e1, e2, e3, e4]
          exact iff_of_true ⟨_, rfl, .inr rfl⟩ fun ⟨ns, nc, _, h⟩ => h4 _ h
      · rw [e1, e2, e3]
        exact iff_of_true ⟨_, rfl, .inr rfl⟩ fun ⟨ns, nc, h, _⟩ => h3 _ _ h.frame
    · rw [e1, e2]
      exact iff_of_true ⟨_, rfl, .inr rfl⟩ fun ⟨ns, nc, h, _⟩ => h2 _ _ h.trans
  · rw [e1]
    exact iff_of_true ⟨_, rfl, .inr rfl⟩ fun ⟨ns, nc, h, _⟩ => h1 _ h.start

/-- The checks of the kernels computing xi sums. -/
theorem rejects_xi {γ : Type} {fw tm bw fp : PyArray β}
    (k : Arr2 β → Arr2 β → Arr2 β → Arr2 β → Except PyErr γ)
    (hk : ∀ ns nc, XiShapes ns nc fw tm bw fp →
      NotShape (k (inp2 fw ns nc) (inp2 tm nc nc) (inp2 bw ns nc) (inp2 fp ns nc))) :
    RejectsShapes (do
      let fwd ← fw.unchecked2
      let transmat ← tm.unchecked2
      let bwd ← bw.unchecked2
      let frameprob ← fp.unchecked2
      if fwd.rows ≠ frameprob.rows ∨ fwd.cols ≠ frameprob.cols ∨ transmat.rows ≠ frameprob.cols
          ∨ transmat.cols ≠ frameprob.cols ∨ bwd.rows ≠ frameprob.rows
          ∨ bwd.cols ≠ frameprob.cols then throw PyErr.shapeMismatch
      k fwd transmat bwd frameprob) ↔ ¬ ∃ ns nc, XiShapes ns nc fw tm bw fp := by
  rcases unchecked2_cases fw with ⟨n1, n2, h1, e1⟩ | ⟨h1, e1⟩
  · rcases unchecked2_cases tm with ⟨r, c, h2, e2⟩ | ⟨h2, e2⟩
    · rcases unchecked2_cases bw with ⟨m1, m2, h4, e4⟩ | ⟨h4, e4⟩
      · rcases unchecked2_cases fp with ⟨ns, nc, h3, e3⟩ | ⟨h3, e3⟩
        · rw [e1, e2, e3, e4]
          simp only [ok_bind]
          by_cases hc : (inp2 fw n1 n2).rows ≠ (inp2 fp ns nc).rows ∨
            (inp2 fw n1 n2).cols ≠ (inp2 fp ns nc).cols ∨
            (inp2 tm r c).rows ≠ (inp2 fp ns nc).cols ∨ (inp2 tm r c).cols ≠ (inp2 fp ns nc).cols
            ∨ (inp2 bw m1 m2).rows ≠ (inp2 fp ns nc).rows ∨
            (inp2 bw m1 m2).cols ≠ (inp2 fp ns nc).cols
          · rw [if_pos hc]
            refine iff_of_true ⟨_, rfl, .inl rfl⟩ ?_
            rintro ⟨ns', nc', h⟩
            have a := h1.symm.trans h.fwd
            have b := h2.symm.trans h.trans
            have d := h3.symm.trans h.frame
            have e := h4.symm.trans h.bwd
            simp only [List.cons.injEq, and_true] at a b d e
            simp only [inp2_rows, inp2_cols] at hc
            omega
          · rw [if_neg hc]
            simp only [inp2_rows, inp2_cols, not_or, not_not] at hc
            obtain ⟨rfl, rfl, rfl, hcc, rfl, hm⟩ := hc
            subst hcc hm
            have hm : XiShapes m1 m2 fw tm bw fp := ⟨h1, h2, h4, h3⟩
            exact iff_of_false (hk _ _ hm) fun h => h ⟨_, _, hm⟩
        · rw [e1, e2, e4, e3]
          exact iff_of_true ⟨_, rfl, .inr rfl⟩ fun ⟨ns, nc, h⟩ => h3 _ _ h.frame
      · rw [e1, e2, e4]
        exact iff_of_true ⟨_, rfl, .inr rfl⟩ fun ⟨ns, nc, h⟩ => h4 _ _ h.bwd
    · rw [e1, e2]
      exact iff_of_true ⟨_, rfl, .inr rfl⟩ fun ⟨ns, nc, h⟩ => h2 _ _ h.trans
  · rw [e1]
    exact iff_of_true ⟨_, rfl, .inr rfl⟩ fun ⟨ns, nc, h⟩ => h1 _ _ h.fwd

/-- `compute_scaling_xi_sum` raises a shape error exactly for shapes that do not match. -/
theorem C17_scaling_xi_rejects (fw tm bw fp : PyArray α) :
    RejectsShapes (Raw.computeScalingXiSum fw tm bw fp) ↔
      ¬ ∃ ns nc, XiShapes ns nc fw tm bw fp := by
  refine rejects_xi _ fun ns nc h => ?_
  not_shape

/-- `compute_log_xi_sum` raises a shape error exactly for shapes that do not match. -/
theorem C17_log_xi_rejects (fw tm bw fp : PyArray α) :
    RejectsShapes (Raw.computeLogXiSum fw tm bw fp) ↔ ¬ ∃ ns nc, XiShapes ns nc fw tm bw fp := by
  have e : ∀ ns nc, XiShapes ns nc fw (logArr tm) bw fp ↔ XiShapes ns nc fw tm bw fp := fun ns nc =>
    ⟨fun h => ⟨h.fwd, h.trans, h.bwd, h.frame⟩, fun h => ⟨h.fwd, h.trans, h.bwd, h.frame⟩⟩
  simp only [← e]
  refine rejects_xi _ fun ns nc h => ?_
  not_shape

end Rejects

section Computes
variable [FloatLike α] {n nc : Nat} {sp tm fp : PyArray α}

/-- With at least one frame, `forward_scaling` accesses no memory it should not: it returns lattice and
scaling factors written completely, with the values of the typed kernel, or the kernel's
underflow error. -/
theorem C17_forward_scaling (h : ModelShapes (n + 1) nc sp tm fp) :
    Raw.forwardScaling sp tm fp =
      (Hmmc.forwardScaling (vec sp nc) (mat tm nc nc) (List.ofFn (mat fp (n + 1) nc))).map
        fun r => (r.1, Arr2.ofRows r.2.1, Arr1.ofList r.2.2) :=
  forwardScaling_eq h.start h.trans h.frame

theorem forwardScalingLoop_error (A : Mat α nc) (bs : List (Row α nc)) :
    ∀ (prev : Row α nc) (lp : α) (e : PyErr), Hmmc.forwardScalingLoop A prev lp bs = .error e →
      e = .underflow := by
  induction bs with
  | nil => intro prev lp e he; cases he
  | cons b bs ih =>
    intro prev lp e he
    simp only [Hmmc.forwardScalingLoop, memo_eq, Hmmc.scaleRow] at he
    split at he
    · rename_i h
      split at h
      · cases h; cases he; rfl
      · cases h
    · split at he
      · rename_i h
        cases he
        exact ih _ _ _ h
      · cases he

/-- … so the access is never bad. -/
theorem C17_forward_scaling_safe (h : ModelShapes (n + 1) nc sp tm fp) :
    ¬ BadAccess (Raw.forwardScaling sp tm fp) := by
  rw [C17_forward_scaling h, List.ofFn_succ]
  simp only [Hmmc.forwardScaling, memo_eq, Hmmc.scaleRow, BadAccess]
  split
  · rename_i h
    split at h
    · cases h; intro h; cases h
    · cases h
  · split
    · rename_i e he
      rw [forwardScalingLoop_error _ _ _ _ _ he]
      intro h; cases h
    · intro h; cases h

/-- With at least one frame, `backward_scaling` returns a lattice written completely, with the values
of the typed kernel. -/
theorem C17_backward_scaling {sc : PyArray α} (h : ModelShapes (n + 1) nc sp tm fp)
    (hc : sc.shape = [n + 1]) :
    Raw.backwardScaling sp tm fp sc =
      (Hmmc.backwardScaling (mat tm nc nc) (List.ofFn (mat fp (n + 1) nc))
        (List.ofFn (vec sc (n + 1)))).map Arr2.ofRows :=
  backwardScaling_eq h.start h.trans h.frame hc

theorem C17_backward_scaling_safe {sc : PyArray α} (h : ModelShapes (n + 1) nc sp tm fp)
    (hc : sc.shape = [n + 1]) : ¬ BadAccess (Raw.backwardScaling sp tm fp sc) := by
  rw [C17_backward_scaling h hc]
  simp [BadAccess, Hmmc.backwardScaling, Except.map]

/-- With at least one frame and one state, `forward_log` returns the values of the typed kernel. -/
theorem C17_forward_log [NeZero nc] (h : ModelShapes (n + 1) nc sp tm fp) :
    Raw.forwardLog sp tm fp =
      (Hmmc.forwardLog (vec sp nc) (mat tm nc nc) (List.ofFn (mat fp (n + 1) nc))).map
        fun r => (r.1, Arr2.ofRows r.2) :=
  forwardLog_eq h.start h.trans h.frame

theorem C17_forward_log_safe [NeZero nc] (h : ModelShapes (n + 1) nc sp tm fp) :
    ¬ BadAccess (Raw.forwardLog sp tm fp) := by
  rw [C17_forward_log h, List.ofFn_succ]
  simp [BadAccess, Hmmc.forwardLog, Except.map]

/-- With at least one frame and one state, `backward_log` returns the values of the typed kernel. -/
theorem C17_backward_log [NeZero nc] (h : ModelShapes (n + 1) nc sp tm fp) :
    Raw.backwardLog sp tm fp =
      (Hmmc.backwardLog (mat tm nc nc) (List.ofFn (mat fp (n + 1) nc))).map Arr2.ofRows :=
  backwardLog_eq h.start h.trans h.frame

theorem C17_backward_log_safe [NeZero nc] (h : ModelShapes (n + 1) nc sp tm fp) :
    ¬ BadAccess (Raw.backwardLog sp tm fp) := by
  rw [C17_backward_log h]
  simp [BadAccess, Hmmc.backwardLog, Except.map]

/-- With at least one frame and one state, `viterbi` returns the values of the typed kernel. -/
theorem C17_viterbi [NeZero nc] (h : ModelShapes (n + 1) nc sp tm fp) :
    Raw.viterbi sp tm fp =
      (Hmmc.viterbi (vec sp nc) (mat tm nc nc) (List.ofFn (mat fp (n + 1) nc))).map
        fun r => (r.1, Arr1.ofList (r.2.map stateIdx)) :=
  viterbi_eq h.start h.trans h.frame

theorem traceback_length [NeZero nc] (logA : Mat α nc) (R : List (Row α nc)) :
    (Hmmc.traceback logA R).length = R.length := (isBack_traceback logA).length R

theorem C17_viterbi_safe [NeZero nc] (h : ModelShapes (n + 1) nc sp tm fp) :
    ¬ BadAccess (Raw.viterbi sp tm fp) := by
  rw [C17_viterbi h, List.ofFn_succ]
  simp only [BadAccess, Hmmc.viterbi, Hmmc.viterbiCore, Hmmc.viterbiLattice, memo_eq]
  split
  · intro h; cases h
  · rename_i hno
    exfalso
    refine hno _ _ (List.getLast?_eq_some_getLast (by simp)) (List.getLast?_eq_some_getLast ?_)
    refine List.ne_nil_of_length_pos ?_
    rw [traceback_length]
    simp

/-- `compute_scaling_xi_sum` returns the values of the typed kernel, whatever the number of frames
and states. -/
theorem C17_scaling_xi {ns : Nat} {fw bw : PyArray α} (h : XiShapes ns nc fw tm bw fp) :
    Raw.computeScalingXiSum fw tm bw fp =
      (Hmmc.computeScalingXiSum (List.ofFn (mat fw ns nc)) (mat tm nc nc) (List.ofFn (mat bw ns nc))
        (List.ofFn (mat fp ns nc))).map Arr2.ofMat :=
  computeScalingXiSum_eq h.fwd h.trans h.bwd h.frame

theorem C17_scaling_xi_safe {ns : Nat} {fw bw : PyArray α} (h : XiShapes ns nc fw tm bw fp) :
    ¬ BadAccess (Raw.computeScalingXiSum fw tm bw fp) := by
  rw [C17_scaling_xi h]
  simp [BadAccess, Hmmc.computeScalingXiSum, Except.map]

/-- With at least one frame and one state, `compute_log_xi_sum` returns the values of the typed
kernel. -/
theorem C17_log_xi [NeZero nc] {fw bw : PyArray α} (h : XiShapes (n + 1) nc fw tm bw fp) :
    Raw.computeLogXiSum fw tm bw fp =
      (Hmmc.computeLogXiSum (List.ofFn (mat fw (n + 1) nc)) (mat tm nc nc)
        (List.ofFn (mat bw (n + 1) nc)) (List.ofFn (mat fp (n + 1) nc))).map Arr2.ofMat :=
  computeLogXiSum_eq h.fwd h.trans h.bwd h.frame

theorem C17_log_xi_safe [NeZero nc] {fw bw : PyArray α} (h : XiShapes (n + 1) nc fw tm bw fp) :
    ¬ BadAccess (Raw.computeLogXiSum fw tm bw fp) := by
  rw [C17_log_xi h]
  unfold Hmmc.computeLogXiSum
  rw [if_neg (by simp), dif_neg (by simp)]
  simp [BadAccess, Except.map]

end Computes

section NoFrames
variable [FloatLike α] {nc : Nat} {sp tm fp : PyArray α}

theorem forUp_error {lo hi : Int} (h : lo < hi) {s : σ} {body : Int → σ → Except PyErr σ} {e : PyErr}
    (he : body lo s = .error e) : forUp lo hi s body = .error e := by
  rw [forUp_cons h, he]; rfl

theorem get_row_bad {a : Arr2 β} {i : Int} (h : ¬ (0 ≤ i ∧ i < a.rows)) (j : Int) :
    a.get i j = .error .undefinedBehaviour := by
  unfold Arr2.get
  rw [if_neg fun h' => h h'.1]

theorem get_col_bad {a : Arr2 β} (h : a.cols = 0) (i j : Int) :
    a.get i j = .error .undefinedBehaviour := by
  unfold Arr2.get
  rw [if_neg fun h' => by omega]

/-- Without frames `forward_scaling` writes outside its lattice. -/
theorem C17_forward_scaling_no_frames (h : ModelShapes 0 (nc + 1) sp tm fp) :
    BadAccess (Raw.forwardScaling sp tm fp) := by
  unfold Raw.forwardScaling BadAccess
  rw [unchecked1_eq h.start, ok_bind, unchecked2_eq h.trans, ok_bind, unchecked2_eq h.frame, ok_bind]
  simp only [inp1_n, inp2_rows, inp2_cols, ne_eq, not_true_eq_false, or_self, if_false]
  rw [forUp_error (by omega) (e := .undefinedBehaviour) (by
    rw [inp1_get (n := nc + 1) 0 (by simp), ok_bind, get_row_bad (by simp)]; rfl)]
  rfl

/-- Without frames `forward_log` accesses memory outside its arrays. -/
theorem C17_forward_log_no_frames (h : ModelShapes 0 (nc + 1) sp tm fp) :
    BadAccess (Raw.forwardLog sp tm fp) := by
  unfold Raw.forwardLog BadAccess
  rw [unchecked1_eq (a := logArr sp) h.start, ok_bind, unchecked2_eq (a := logArr tm) h.trans, ok_bind,
    unchecked2_eq h.frame, ok_bind]
  simp only [inp1_n, inp2_rows, inp2_cols, ne_eq, not_true_eq_false, or_self, if_false]
  rw [forUp_error (by omega) (e := .undefinedBehaviour) (by
    rw [inp1_get (n := nc + 1) 0 (by simp), ok_bind, get_row_bad (by simp)]; rfl)]
  rfl

/-- Without frames `viterbi` accesses memory outside its arrays. -/
theorem C17_viterbi_no_frames (h : ModelShapes 0 (nc + 1) sp tm fp) :
    BadAccess (Raw.viterbi sp tm fp) := by
  unfold Raw.viterbi BadAccess
  rw [unchecked1_eq (a := logArr sp) h.start, ok_bind, unchecked2_eq (a := logArr tm) h.trans, ok_bind,
    unchecked2_eq h.frame, ok_bind]
  simp only [inp1_n, inp2_rows, inp2_cols, ne_eq, not_true_eq_false, or_self, if_false]
  rw [forUp_error (by omega) (e := .undefinedBehaviour) (by
    rw [inp1_get (n := nc + 1) 0 (by simp), ok_bind, get_row_bad (by simp)]; rfl)]
  rfl

/-- Without frames `backward_scaling` accesses memory outside its arrays. -/
theorem C17_backward_scaling_no_frames {sc : PyArray α} (h : ModelShapes 0 (nc + 1) sp tm fp)
    (hc : sc.shape = [0]) : BadAccess (Raw.backwardScaling sp tm fp sc) := by
  unfold Raw.backwardScaling BadAccess
  rw [unchecked1_eq h.start, ok_bind, unchecked2_eq h.trans, ok_bind, unchecked2_eq h.frame, ok_bind,
    unchecked1_eq hc, ok_bind]
  simp only [inp1_n, inp2_rows, inp2_cols, ne_eq, not_true_eq_false, or_self, if_false]
  rw [forUp_error (by omega) (e := .undefinedBehaviour) (by simp [Arr1.get, error_bind])]
  rfl

/-- Without frames `backward_log` writes outside its lattice. -/
theorem C17_backward_log_no_frames (h : ModelShapes 0 (nc + 1) sp tm fp) :
    BadAccess (Raw.backwardLog sp tm fp) := by
  unfold Raw.backwardLog BadAccess
  rw [unchecked1_eq (a := logArr sp) h.start, ok_bind, unchecked2_eq (a := logArr tm) h.trans, ok_bind,
    unchecked2_eq h.frame, ok_bind]
  simp only [inp1_n, inp2_rows, inp2_cols, ne_eq, not_true_eq_false, or_self, if_false]
  rw [forUp_error (by omega) (e := .undefinedBehaviour) (by simp [Arr2.set, Arr2.alloc])]
  rfl

theorem logsumexp_bad {rd : Int → Except PyErr α} (h : ∀ i, rd i = .error .undefinedBehaviour) (n : Int) :
    Raw.logsumexp rd n = .error .undefinedBehaviour := by
  unfold Raw.logsumexp Raw.maxElement
  by_cases hn : 1 < n
  · rw [forUp_error hn (e := .undefinedBehaviour) (by rw [h]; rfl)]
    rfl
  · rw [forUp_empty (by omega), ok_bind, h]
    rfl

/-- Without frames `compute_log_xi_sum` reads outside the forward lattice. -/
theorem C17_log_xi_no_frames {fw bw : PyArray α} (h : XiShapes 0 nc fw tm bw fp) :
    BadAccess (Raw.computeLogXiSum fw tm bw fp) := by
  unfold Raw.computeLogXiSum BadAccess
  rw [unchecked2_eq h.fwd, ok_bind, unchecked2_eq (a := logArr tm) h.trans, ok_bind,
    unchecked2_eq h.bwd, ok_bind, unchecked2_eq h.frame, ok_bind]
  simp only [inp2_rows, inp2_cols, ne_eq, not_true_eq_false, or_self, if_false]
  rw [logsumexp_bad fun i => get_row_bad (by simp) i]
  rfl

/-- Without states `compute_log_xi_sum` dereferences the end of an empty row. -/
theorem C17_log_xi_no_states {ns : Nat} {fw bw : PyArray α} (h : XiShapes ns 0 fw tm bw fp) :
    BadAccess (Raw.computeLogXiSum fw tm bw fp) := by
  unfold Raw.computeLogXiSum BadAccess
  rw [unchecked2_eq h.fwd, ok_bind, unchecked2_eq (a := logArr tm) h.trans, ok_bind,
    unchecked2_eq h.bwd, ok_bind, unchecked2_eq h.frame, ok_bind]
  simp only [inp2_rows, inp2_cols, ne_eq, not_true_eq_false, or_self, if_false]
  rw [logsumexp_bad fun i => get_col_bad rfl _ i]
  rfl

/-- Without states `forward_log` dereferences the end of an empty row. -/
theorem C17_forward_log_no_states {ns : Nat} (h : ModelShapes (ns + 1) 0 sp tm fp) :
    BadAccess (Raw.forwardLog sp tm fp) := by
  unfold Raw.forwardLog BadAccess
  rw [unchecked1_eq (a := logArr sp) h.start, ok_bind, unchecked2_eq (a := logArr tm) h.trans, ok_bind,
    unchecked2_eq h.frame, ok_bind]
  simp only [inp1_n, inp2_rows, inp2_cols, ne_eq, not_true_eq_false, or_self, if_false]
  rw [forUp_empty (by omega), ok_bind, forUp_states ns (by omega)
    (fun _ => (Arr1.filled 0 0, Arr2.alloc (ns + 1) 0)) (fun k hk => by
      unfold forwardLogBody; rw [forUp_empty (by omega)]), ok_bind]
  simp only
  rw [logsumexp_bad fun i => get_col_bad rfl _ i]
  rfl

/-- Without states `viterbi` reads an element of an empty row. -/
theorem C17_viterbi_no_states {ns : Nat} (h : ModelShapes (ns + 1) 0 sp tm fp) :
    BadAccess (Raw.viterbi sp tm fp) := by
  unfold Raw.viterbi BadAccess
  rw [unchecked1_eq (a := logArr sp) h.start, ok_bind, unchecked2_eq (a := logArr tm) h.trans, ok_bind,
    unchecked2_eq h.frame, ok_bind]
  simp only [inp1_n, inp2_rows, inp2_cols, ne_eq, not_true_eq_false, or_self, if_false]
  rw [forUp_empty (by omega), ok_bind, forUp_states ns (by omega)
    (fun _ => Arr2.alloc (ns + 1) 0) (fun k hk => by
      unfold viterbiBody; rw [forUp_empty (by omega)]), ok_bind]
  unfold Raw.maxElement
  rw [forUp_empty (by omega), ok_bind,
    Arr1.set_eq (b := Arr1.alloc (ns + 1)) 0 ns (by omega) (by show ns < ns + 1; omega), ok_bind]
  obtain ⟨⟨prev, seq⟩, e, hP⟩ := forDown_inv (hi := ((ns + 1 : Nat) : Int) - 2)
    (s := ((0 : Int), Arr1.mk (ns + 1) fun k => if k = ns then some (0 : Int) else none))
    (body := tracebackBody (inp2 (logArr tm) 0 0) (Arr2.alloc (ns + 1) 0) 0) ns (by omega)
    (fun _ s => s.2.n = ns + 1 ∧ s.2.cell ns = some 0) ⟨rfl, by simp⟩ (by
      rintro k hk ⟨prev, seq⟩ ⟨h1, h2⟩
      simp only at h1 h2
      refine ⟨(0, ⟨ns + 1, fun j => if j = ns - (k + 1) then some 0 else seq.cell j⟩), ?_, rfl, ?_⟩
      · unfold tracebackBody
        simp only
        rw [forUp_empty (by omega), ok_bind]
        simp only
        rw [Arr1.set_eq (b := seq) 0 (ns - (k + 1)) (by omega) (by omega), ok_bind, h1]
        rfl
      · have : ns ≠ ns - (k + 1) := by omega
        simp [this, h2])
  have e' : (forDown (((ns + 1 : Nat) : Int) - 2)
      ((0 : Int), Arr1.mk (Arr1.alloc (β := Int) (ns + 1)).n fun k =>
        if k = ns then some (0 : Int) else (Arr1.alloc (β := Int) (ns + 1)).cell k)
      (tracebackBody (inp2 (logArr tm) 0 0) (Arr2.alloc (ns + 1) 0) ((0 : Nat) : Int))) =
      .ok (prev, seq) := e
  rw [e', ok_bind]
  simp only at hP ⊢
  rw [Arr1.get_eq (b := seq) ns (by omega) (by omega) hP.2, ok_bind, get_col_bad rfl]
  rfl

end NoFrames

section Example

/-- Two states, three frames. -/
def Demo.rawStart : PyArray Float := ⟨[2], fun _ => 0.5⟩
def Demo.rawTrans : PyArray Float := ⟨[2, 2], fun i => if i = [0, 0] then 0.7 else 0.3⟩
def Demo.rawFrames : PyArray Float := ⟨[3, 2], fun i => if i.head? = some 1 then 0.9 else 0.2⟩

example : ModelShapes 3 2 Demo.rawStart Demo.rawTrans Demo.rawFrames := ⟨rfl, rfl, rfl⟩

example : ¬ ∃ ns nc, ModelShapes ns nc Demo.rawFrames Demo.rawTrans Demo.rawFrames :=
  fun ⟨_, _, h⟩ => by cases h.start

end Example

end Verif
