import Verif.Props.Inference

/-!
# Properties of `lengths`: C15, C16
-/

namespace Verif
open FloatLike XF Spec Hmmc

variable {nc : ℕ} {Obs D : Type} [NeZero nc] {m : Hmm XF nc Obs} {obs : D → Obs}
  {π : Fin nc → ℝ} {A : Fin nc → Fin nc → ℝ} {b : D → Fin nc → ℝ}

/-- **C15** Non-negative `lengths` that sum to `n_samples` cut `X` into consecutive blocks of
exactly these lengths whose concatenation is `X`. -/
theorem C15_split_partition {β : Type} (X : List β) (ls : List Int) (hne : ls ≠ [])
    (hn : ∀ l ∈ ls, 0 ≤ l) (hs : ls.sum = X.length) :
    ∃ ss : List (List β), splitXLengths X (some ls) = .ok ss ∧ ss.flatten = X ∧
      (ss.map fun s => (s.length : Int)) = ls := by
  obtain ⟨ss, h1, h2⟩ := exists_blocks X ls hn hs
  refine ⟨ss, ?_, h1, h2⟩
  rw [← h1, ← h2]
  exact splitXLengths_blocks ss (by rintro rfl; exact hne h2.symm)

/-- **C15** `lengths` (negative entries or not) with another sum are rejected. -/
theorem C15_split_rejects {β : Type} (X : List β) (ls : List Int) (hne : ls ≠ [])
    (hs : ls.sum ≠ X.length) :
    ∃ msg, splitXLengths X (some ls) = .error (.valueError msg) := by
  simp only [splitXLengths, cumsumInt_getLast? 0 ls hne, zero_add]
  exact ⟨_, if_pos hs⟩

/-- **C15** An empty `lengths` is an `IndexError`, even for an empty `X`. -/
theorem C15_split_empty_lengths {β : Type} (X : List β) :
    splitXLengths X (some []) = .error .indexError := rfl

/-- **C15** (violation) A negative entry is accepted and a sample is used twice: on three samples
`lengths=[2,-1,2]` gives the blocks `[a,b]`, `[]`, `[b,c]`. -/
theorem C15_negative_lengths_duplicate {β : Type} (a b c : β) :
    splitXLengths [a, b, c] (some [2, -1, 2]) = .ok [[a, b], [], [b, c]] := rfl

theorem mem_take_pySlice {β : Type} (X : List β) (a c : Int) :
    ∀ x ∈ X.take (pyBound X.length c), x ∈ X.take (pyBound X.length a) ∨ x ∈ pySlice X a c := by
  intro x hx
  simp only [pySlice]
  generalize pyBound X.length a = a at *
  generalize pyBound X.length c = c at *
  by_cases hac : a ≤ c
  · have : X.take c = X.take a ++ (X.drop a).take (c - a) := by
      rw [← List.take_add]; congr 1; omega
    rw [this] at hx
    exact List.mem_append.1 hx
  · left
    exact (List.take_subset_take_left X (by omega)) hx

theorem mem_npSplitInit {β : Type} (X : List β) (ls : List Int) (a : Int) :
    ∀ x ∈ X.take (pyBound X.length (a + ls.sum)), x ∈ X.take (pyBound X.length a) ∨
      ∃ s ∈ npSplitInit X a (cumsumInt a ls), x ∈ s := by
  induction ls generalizing a with
  | nil => intro x hx; left; simpa using hx
  | cons l ls ih =>
    intro x hx
    rcases ih (a + l) x (by rwa [List.sum_cons, ← add_assoc] at hx) with h | ⟨s, hs, hxs⟩
    · rcases mem_take_pySlice X a (a + l) x h with h | h
      · exact Or.inl h
      · exact Or.inr ⟨_, List.mem_cons_self, h⟩
    · exact Or.inr ⟨s, List.mem_cons_of_mem _ hs, hxs⟩

/-- **C15** Whatever integers `lengths` holds, if the call is accepted no sample is lost (negative
entries can only duplicate samples). -/
theorem C15_no_sample_lost {β : Type} (X : List β) (ls : List Int) (ss : List (List β))
    (h : splitXLengths X (some ls) = .ok ss) : ∀ x ∈ X, x ∈ ss.flatten := by
  by_cases hne : ls = []
  · subst hne; cases h
  by_cases hs : ls.sum = X.length
  · simp only [splitXLengths, cumsumInt_getLast? 0 ls hne, zero_add, hs, ne_eq, not_true,
      if_false] at h
    cases h
    intro x hx
    have := mem_npSplitInit X ls 0 x (by
      rw [zero_add, hs, pyBound_natCast le_rfl, List.take_length]; exact hx)
    rcases this with h | ⟨s, h1, h2⟩
    · have e : pyBound X.length 0 = 0 := pyBound_natCast (Nat.zero_le _)
      rw [e] at h; simp at h
    · exact List.mem_flatten.2 ⟨s, h1, h2⟩
  · obtain ⟨msg, h1⟩ := C15_split_rejects X ls hne hs
    rw [h] at h1; cases h1

/-- Where Python's slice bound `k` points in an array of length `n`: a negative bound counts from the end. -/
def Spec.fromEnd (n : ℕ) (k : ℤ) : ℤ := if k < 0 then k + n else k

/-- The elements of `X` whose index is at least `a` and below `b`, both read as Python reads slice bounds. -/
def Spec.sliceOf {β : Type} (X : List β) (a b : ℤ) : List β :=
  (X.zipIdx.filter fun p => decide (fromEnd X.length a ≤ p.2 ∧ (p.2 : ℤ) < fromEnd X.length b)).map Prod.fst

theorem zipIdx_filter {β : Type} (X : List β) (k : ℕ) (lo hi : ℤ) :
    ((X.zipIdx k).filter fun p => decide (lo ≤ p.2 ∧ (p.2 : ℤ) < hi)).map Prod.fst =
      (X.drop (lo.toNat - k)).take (hi.toNat - max lo.toNat k) := by
  induction X generalizing k with
  | nil => simp
  | cons x xs ih =>
    rw [List.zipIdx_cons, List.filter_cons]
    by_cases h1 : lo ≤ k
    · have e1 : lo.toNat - k = 0 := by omega
      have e2 : lo.toNat - (k + 1) = 0 := by omega
      by_cases h2 : (k : ℤ) < hi
      · rw [if_pos (by simpa using ⟨h1, h2⟩), List.map_cons, ih, e1, e2]
        have e3 : hi.toNat - max lo.toNat k = (hi.toNat - max lo.toNat (k + 1)) + 1 := by omega
        rw [e3]; rfl
      · rw [if_neg (by simpa using fun _ => by omega), ih]
        have e3 : hi.toNat - max lo.toNat k = 0 := by omega
        have e4 : hi.toNat - max lo.toNat (k + 1) = 0 := by omega
        rw [e3, e4]; simp
    · rw [if_neg (by simpa using fun h => absurd h h1), ih]
      have e1 : lo.toNat - k = (lo.toNat - (k + 1)) + 1 := by omega
      have e3 : hi.toNat - max lo.toNat (k + 1) = hi.toNat - max lo.toNat k := by omega
      rw [e1, e3]; rfl

theorem pySlice_eq {β : Type} (X : List β) (a b : ℤ) : pySlice X a b = sliceOf X a b := by
  have hb : ∀ k, pyBound X.length k = min (fromEnd X.length k).toNat X.length ∨ k < 0 ∧
      pyBound X.length k = (fromEnd X.length k).toNat := by
    intro k
    unfold pyBound fromEnd
    by_cases h : k < 0
    · exact .inr ⟨h, by rw [if_pos h, if_pos h]⟩
    · left; rw [if_neg h, if_neg h]
  have hb : ∀ k, pyBound X.length k = min (fromEnd X.length k).toNat X.length := by
    intro k
    rcases hb k with h | ⟨h0, h⟩
    · exact h
    · rw [h]
      have : (fromEnd X.length k).toNat ≤ X.length := by unfold fromEnd; rw [if_pos h0]; omega
      omega
  have := zipIdx_filter X 0 (fromEnd X.length a) (fromEnd X.length b)
  unfold pySlice sliceOf
  rw [this, hb, hb]
  generalize (fromEnd X.length a).toNat = lo
  generalize (fromEnd X.length b).toNat = hi
  rw [Nat.sub_zero, Nat.max_zero]
  by_cases h : lo ≤ X.length
  · rw [Nat.min_eq_left h]
    by_cases h' : hi ≤ X.length
    · rw [Nat.min_eq_left h']
    · rw [List.take_of_length_le (by rw [List.length_drop]; omega),
        List.take_of_length_le (by rw [List.length_drop]; omega)]
  · rw [List.drop_eq_nil_of_le (by omega : X.length ≤ lo), List.take_nil]
    show (X.drop (min lo X.length)).take (min hi X.length - min lo X.length) = []
    rw [Nat.min_eq_right (by omega : X.length ≤ lo), List.drop_length, List.take_nil]

theorem npSplitInit_get {β : Type} (X : List β) (ls : List Int) (a : Int) (i : ℕ) (hi : i < ls.length) :
    (npSplitInit X a (cumsumInt a ls))[i]? =
      some (pySlice X (a + (ls.take i).sum) (a + (ls.take (i + 1)).sum)) := by
  induction ls generalizing a i with
  | nil => simp at hi
  | cons l ls ih =>
    cases i with
    | zero => simp [npSplitInit, cumsumInt]
    | succ i =>
      have := ih (a + l) i (by simpa using hi)
      simp only [npSplitInit, cumsumInt, List.getElem?_cons_succ, List.take_succ_cons, List.sum_cons]
      rw [this, add_assoc, add_assoc]

theorem npSplitInit_length {β : Type} (X : List β) (ls : List Int) (a : Int) :
    (npSplitInit X a (cumsumInt a ls)).length = ls.length := by
  induction ls generalizing a with
  | nil => rfl
  | cons l ls ih => simp [npSplitInit, cumsumInt, ih]

/-- **C15** What an accepted call works on, for any integers: there is one block per entry, and block `i` holds the
samples between the partial sums of the first `i` and the first `i+1` entries, where a negative partial sum counts
from the end. -/
theorem C15_split_blocks {β : Type} (X : List β) (ls : List Int) (ss : List (List β))
    (h : splitXLengths X (some ls) = .ok ss) :
    ss.length = ls.length ∧
      ∀ i < ls.length, ss[i]? = some (sliceOf X (ls.take i).sum (ls.take (i + 1)).sum) := by
  by_cases hne : ls = []
  · subst hne; cases h
  by_cases hs : ls.sum = X.length
  · simp only [splitXLengths, cumsumInt_getLast? 0 ls hne, zero_add, hs, ne_eq, not_true,
      if_false] at h
    cases h
    refine ⟨npSplitInit_length X ls 0, fun i hi => ?_⟩
    rw [npSplitInit_get X ls 0 i hi, zero_add, zero_add, pySlice_eq]
  · obtain ⟨msg, h1⟩ := C15_split_rejects X ls hne hs
    rw [h] at h1; cases h1

/-- `lengths=[-1, 4]` on three samples: the first block is `X[0:-1]`, the second `X[-1:3]`. -/
example {β : Type} (a b c : β) : splitXLengths [a, b, c] (some [-1, 4]) = .ok [[a, b], [c]] := rfl

example : ∃ ss : List (List ℕ), splitXLengths [1, 2, 3, 4, 5] (some [2, 3]) = .ok ss ∧
    ss.flatten = [1, 2, 3, 4, 5] := by
  obtain ⟨ss, h, h', _⟩ := C15_split_partition [1, 2, 3, 4, 5] [2, 3] (by simp) (by simp) (by simp)
  exact ⟨ss, h, h'⟩

/-! ## C16 -/

/-- **C16** With all `lengths` positive, every sequence handed to a kernel has at least one
sample. -/
theorem C16_positive_lengths_nonempty {β : Type} (X : List β) (ls : List Int) (hne : ls ≠ [])
    (hn : ∀ l ∈ ls, 0 < l) (ss : List (List β)) (h : splitXLengths X (some ls) = .ok ss) :
    ∀ s ∈ ss, s ≠ [] := by
  by_cases hs : ls.sum = X.length
  · obtain ⟨ss', h1, -, h3⟩ := C15_split_partition X ls hne (fun l hl => (hn l hl).le) hs
    rw [h] at h1
    cases h1
    intro s hs' he
    have := hn (s.length : Int) (by rw [← h3]; exact List.mem_map_of_mem hs')
    simp [he] at this
  · obtain ⟨msg, h1⟩ := C15_split_rejects X ls hne hs
    rw [h] at h1; cases h1

theorem mapM_mem_error {β γ : Type} {f : β → Except PyErr γ} {l : List β} {x : β} {e : PyErr}
    (hx : x ∈ l) (he : f x = .error e) (hok : ∀ y ∈ l, f y = .error e ∨ ∃ r, f y = .ok r) :
    l.mapM f = .error e :=
  mapM_error f e l (fun y hy => (hok y hy).symm) ⟨x, hx, he⟩

/-- **C16** (violation) A zero in otherwise valid `lengths` passes validation and reaches the C++
kernels with an empty array: `score` and Viterbi `decode` execute an out-of-bounds access.  The
other sequences are arbitrary possible ones. -/
theorem C16_zero_length_undefined (h : Represents m obs π A b) (hi : m.implementation = .log)
    (xs : List (List D)) (hx : [] ∈ xs) :
    score m ((xs.map (List.map obs)).flatten) (some (xs.map fun s => (s.length : Int))) =
        .error .undefinedBehaviour ∧
      decode m .viterbi ((xs.map (List.map obs)).flatten) (some (xs.map fun s => (s.length : Int))) =
        .error .undefinedBehaviour := by
  have hne : xs.map (List.map obs) ≠ [] := by
    rw [ne_eq, List.map_eq_nil_iff]; rintro rfl; simp at hx
  have e : (xs.map fun s => (s.length : Int)) =
      (xs.map (List.map obs)).map fun s => (s.length : Int) := by
    simp [List.map_map, Function.comp_def]
  have hmem : ([] : List Obs) ∈ xs.map (List.map obs) := List.mem_map.2 ⟨[], hx, rfl⟩
  have hofn : ∀ s ∈ xs.map (List.map obs), s = [] ∨ ∃ (n : ℕ) (x : Fin (n + 1) → D),
      s = List.ofFn fun t => obs (x t) := by
    intro s hs
    obtain ⟨y, _, rfl⟩ := List.mem_map.1 hs
    cases y with
    | nil => exact Or.inl rfl
    | cons a l =>
      refine Or.inr ⟨l.length, fun t => (a :: l).get t, ?_⟩
      have := congrArg (List.map obs) (List.ofFn_get (a :: l)).symm
      rw [List.map_ofFn] at this
      exact this
  have hlog := h.loglik_eq []
  simp only [List.map_nil] at hlog
  constructor
  · rw [e, C14_score_lengths m _ hne]
    have he : score m [] none = .error .undefinedBehaviour := by
      unfold score
      rw [scoreCore_none, hi]
      show Except.map _ (scoreOneLog m false []) = _
      simp only [scoreOneLog, hlog]
      rfl
    rw [mapM_mem_error hmem he]
    · rfl
    · intro y hy
      rcases hofn y hy with rfl | ⟨n, x, rfl⟩
      · exact Or.inl he
      · exact Or.inr ⟨_, C01_score_log_single h hi x⟩
  · rw [e, C14_decode_lengths m _ _ hne]
    have he : decode m .viterbi [] none = .error .undefinedBehaviour := by
      rw [decode_none]
      simp only [decodeViterbi, hlog]
      rfl
    rw [mapM_mem_error hmem he]
    · rfl
    · intro y hy
      rcases hofn y hy with rfl | ⟨n, x, rfl⟩
      · exact Or.inl he
      · obtain ⟨z, hz, _⟩ := decodeViterbi_ofFn h x
        exact Or.inr ⟨_, by rw [decode_none]; exact hz⟩

example : score (Demo.hmm .log) [0, 1] (some [1, 0, 1]) = .error .undefinedBehaviour :=
  (C16_zero_length_undefined (Demo.represents .log) rfl [[0], [], [1]] (by simp)).1

end Verif
