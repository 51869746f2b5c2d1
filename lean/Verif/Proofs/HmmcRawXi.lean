import Verif.Proofs.HmmcRawBack

/-!
# Refinement of `viterbi` and of the xi sums
-/

namespace Verif.Raw
open FloatLike

variable {α β σ : Type} {nc : Nat}

section Mat

/-- A matrix that has been written completely. -/
def Arr2.ofMat {m n : Nat} (M : Fin m → Fin n → β) : Arr2 β :=
  ⟨m, n, fun r c => if h : r < m then rowCell (M ⟨r, h⟩) c else none⟩

theorem Arr2.ofMat_upd {m n : Nat} (M : Fin m → Fin n → β) (i : Fin m) (v : Fin n → β) :
    (Arr2.ofMat M).upd i v n = Arr2.ofMat fun r => if r = i then v else M r := by
  simp only [Arr2.ofMat, Arr2.upd, Arr2.mk.injEq, true_and]
  funext r c
  by_cases hr : r = i
  · subst hr
    by_cases hc : c < n <;> simp [hc, rowCell]
  · by_cases hm : r < m
    · have : (⟨r, hm⟩ : Fin m) ≠ i := fun h => hr (congrArg Fin.val h)
      simp [hr, hm, this]
    · simp [hr, hm]

theorem filled_eq_ofMat (m n : Nat) (x : β) : Arr2.filled m n x = Arr2.ofMat fun (_ : Fin m) (_ : Fin n) => x := by
  simp only [Arr2.filled, Arr2.ofMat, Arr2.mk.injEq, true_and]
  funext r c
  by_cases hr : r < m <;> by_cases hc : c < n <;> simp [hr, hc, rowCell]

/-- A double loop that updates every entry from itself. -/
theorem mapMat {m n : Nat} (M : Fin m → Fin n → β) (f : Fin m → Fin n → β → β)
    {body : Int → Int → Arr2 β → Except PyErr (Arr2 β)}
    (h : ∀ (i : Fin m) (j : Fin n) (a : Arr2 β), a.get i j = .ok (M i j) →
      body i j a = a.set i j (f i j (M i j))) :
    forUp 0 (m : Int) (Arr2.ofMat M) (fun i a => forUp 0 (n : Int) a (body i)) =
      .ok (Arr2.ofMat fun i j => f i j (M i j)) := by
  let S : Nat → Arr2 β := fun k => Arr2.ofMat fun i => if i.val < k then fun j => f i j (M i j) else M i
  have h0 : Arr2.ofMat M = S 0 := by simp [S]
  have hn : S m = Arr2.ofMat fun i j => f i j (M i j) := by simp [S]
  rw [h0, ← hn]
  refine forUp_states m (by omega) S fun k hk => ?_
  let i : Fin m := ⟨k, hk⟩
  have hstep : (S k).upd k (fun j => f i j (M i j)) n = S (k + 1) := by
    rw [show k = i.val from rfl, Arr2.ofMat_upd]
    simp only [S]
    congr 1
    funext r
    by_cases hr : r = i
    · simp [hr, i]
    · have h1 : r.val ≠ k := fun h => hr (Fin.ext h)
      have h2 : r.val < k + 1 ↔ r.val < k := by omega
      simp [hr, h2, i]
  rw [← hstep]
  refine fillRow (nc := n) hk rfl (fun j => f i j (M i j)) rfl fun j hj => ?_
  have := h i ⟨j, hj⟩ ((S k).upd k (fun j => f i j (M i j)) j)
    (Arr2.get_eq (a := (S k).upd k (fun j => f i j (M i j)) j) k j rfl rfl hk hj (by
      simp [Arr2.upd, S, Arr2.ofMat, hk, rowCell, hj, i]))
  simpa [i] using this

end Mat

section Xi
variable [FloatLike α]

/-- The rows `(fwd(t), frameprob(t+1), bwd(t+1))` the xi loops run over. -/
theorem xiRows_length {ns : Nat} (F B W : Fin ns → Row α nc) :
    ((List.ofFn F).zip ((List.ofFn B).tail.zip (List.ofFn W).tail)).length = ns - 1 := by
  simp

theorem xiRows_get {ns : Nat} (F B W : Fin ns → Row α nc) {t : Nat} (ht : t + 1 < ns)
    (h : t < ((List.ofFn F).zip ((List.ofFn B).tail.zip (List.ofFn W).tail)).length) :
    ((List.ofFn F).zip ((List.ofFn B).tail.zip (List.ofFn W).tail))[t] =
      (F ⟨t, by omega⟩, B ⟨t + 1, ht⟩, W ⟨t + 1, ht⟩) := by
  simp

theorem take_succ_foldl {γ : Type} (z : List γ) (g : σ → γ → σ) (s : σ) {k : Nat}
    (hk : k < z.length) :
    (z.take (k + 1)).foldl g s = g ((z.take k).foldl g s) z[k] := by
  rw [List.take_succ_eq_append_getElem hk, List.foldl_append]
  rfl

theorem forUp_empty {lo hi : Int} (h : hi ≤ lo) (s : σ) (body : Int → σ → Except PyErr σ) :
    forUp lo hi s body = .ok s := by
  unfold forUp
  rw [show (hi - lo).toNat = 0 by omega]
  rfl

/-- `compute_scaling_xi_sum` computes `Hmmc.computeScalingXiSum`, whatever the number of frames. -/
theorem computeScalingXiSum_eq {ns : Nat} {fw tm bw fp : PyArray α} (hw : fw.shape = [ns, nc])
    (ht : tm.shape = [nc, nc]) (hb : bw.shape = [ns, nc]) (hf : fp.shape = [ns, nc]) :
    computeScalingXiSum fw tm bw fp =
      (Hmmc.computeScalingXiSum (List.ofFn (mat fw ns nc)) (mat tm nc nc) (List.ofFn (mat bw ns nc))
        (List.ofFn (mat fp ns nc))).map Arr2.ofMat := by
  let F := mat fw ns nc
  let B := mat fp ns nc
  let W := mat bw ns nc
  let z := (List.ofFn F).zip ((List.ofFn B).tail.zip (List.ofFn W).tail)
  let g : Fin nc → Fin nc → α → Row α nc × Row α nc × Row α nc → α :=
    fun i j acc x => acc + x.1 i * mat tm nc nc i j * x.2.1 j * x.2.2 j
  let X : Nat → Fin nc → Fin nc → α := fun k i j => (z.take k).foldl (g i j) 0
  have hz : z.length = ns - 1 := xiRows_length F B W
  have htyped : Hmmc.computeScalingXiSum (List.ofFn F) (mat tm nc nc) (List.ofFn W) (List.ofFn B) =
      .ok (X (ns - 1)) := by
    have : X (ns - 1) = fun i j => z.foldl (g i j) 0 := by
      funext i j
      simp only [X]
      rw [List.take_of_length_le (by omega)]
    rw [this]
    simp [Hmmc.computeScalingXiSum, g, z]
  rw [htyped]
  unfold computeScalingXiSum
  rw [unchecked2_eq hw, ok_bind, unchecked2_eq ht, ok_bind, unchecked2_eq hb, ok_bind,
    unchecked2_eq hf, ok_bind]
  simp only [inp2_rows, inp2_cols, ne_eq, not_true_eq_false, or_self, if_false]
  rw [filled_eq_ofMat]
  rcases Nat.eq_zero_or_pos ns with h0 | hpos
  · subst h0
    rw [forUp_empty (by omega)]
    simp only [X, Nat.zero_sub, List.take_zero]
    rfl
  · refine forUp_states (ns - 1) (by omega) (fun k => Arr2.ofMat (X k)) fun t ht => ?_
    have ht1 : t + 1 < ns := by omega
    have hX : X (t + 1) = fun i j => X t i j + F ⟨t, by omega⟩ i * mat tm nc nc i j *
        B ⟨t + 1, ht1⟩ j * W ⟨t + 1, ht1⟩ j := by
      funext i j
      simp only [X]
      rw [take_succ_foldl z (g i j) 0 (by omega), xiRows_get F B W ht1]
    rw [hX]
    unfold scalingXiBody
    refine mapMat (X t) (fun i j x => x + F ⟨t, by omega⟩ i * mat tm nc nc i j *
        B ⟨t + 1, ht1⟩ j * W ⟨t + 1, ht1⟩ j) fun i j a ha => ?_
    rw [ha, ok_bind, inp2_get ⟨t, by omega⟩ i (by simp) rfl, ok_bind, inp2_get i j rfl rfl, ok_bind,
      inp2_get ⟨t + 1, ht1⟩ j (by simp) rfl, ok_bind, inp2_get ⟨t + 1, ht1⟩ j (by simp) rfl, ok_bind]

/-- `compute_log_xi_sum` computes `Hmmc.computeLogXiSum`. -/
theorem computeLogXiSum_eq [NeZero nc] {n : Nat} {fw tm bw fp : PyArray α}
    (hw : fw.shape = [n + 1, nc]) (ht : tm.shape = [nc, nc]) (hb : bw.shape = [n + 1, nc])
    (hf : fp.shape = [n + 1, nc]) :
    computeLogXiSum fw tm bw fp =
      (Hmmc.computeLogXiSum (List.ofFn (mat fw (n + 1) nc)) (mat tm nc nc)
        (List.ofFn (mat bw (n + 1) nc)) (List.ofFn (mat fp (n + 1) nc))).map Arr2.ofMat := by
  let F := mat fw (n + 1) nc
  let B := mat fp (n + 1) nc
  let W := mat bw (n + 1) nc
  let logA := Hmmc.logMat (mat tm nc nc)
  let z := (List.ofFn F).zip ((List.ofFn B).tail.zip (List.ofFn W).tail)
  let lp := Hmmc.logsumexp (F (Fin.last n))
  let g : Fin nc → Fin nc → α → Row α nc × Row α nc × Row α nc → α :=
    fun i j acc x => Hmmc.logaddexp acc (x.1 i + logA i j + x.2.1 j + x.2.2 j - lp)
  let X : Nat → Fin nc → Fin nc → α := fun k i j => (z.take k).foldl (g i j) negInf
  have hz : z.length = n := by simp [z]
  have hlast : ∀ h, (List.ofFn F).getLast h = F (Fin.last n) := by
    intro h
    rw [List.getLast_ofFn]
    rfl
  have htyped : Hmmc.computeLogXiSum (List.ofFn F) (mat tm nc nc) (List.ofFn W) (List.ofFn B) =
      .ok (X n) := by
    have : X n = fun i j => z.foldl (g i j) negInf := by
      funext i j
      simp only [X]
      rw [List.take_of_length_le (by omega)]
    rw [this]
    unfold Hmmc.computeLogXiSum
    rw [if_neg (by simp), dif_neg (by simp)]
    simp only [memo_eq, hlast]
    rfl
  rw [htyped]
  unfold computeLogXiSum
  rw [unchecked2_eq hw, ok_bind, unchecked2_eq (a := logArr tm) ht, ok_bind, unchecked2_eq hb,
    ok_bind, unchecked2_eq hf, ok_bind]
  simp only [inp2_rows, inp2_cols, ne_eq, not_true_eq_false, or_self, if_false]
  rw [logsumexp_eq (v := F (Fin.last n)) (fun i => inp2_get (Fin.last n) i (by simp) rfl) rfl,
    ok_bind, filled_eq_ofMat]
  refine forUp_states n (by omega) (fun k => Arr2.ofMat (X k)) fun t ht => ?_
  have ht1 : t + 1 < n + 1 := by omega
  have hX : X (t + 1) = fun i j => Hmmc.logaddexp (X t i j) (F ⟨t, by omega⟩ i + logA i j +
      B ⟨t + 1, ht1⟩ j + W ⟨t + 1, ht1⟩ j - lp) := by
    funext i j
    simp only [X]
    rw [take_succ_foldl z (g i j) negInf (by omega), xiRows_get F B W ht1]
  rw [hX]
  unfold logXiBody
  refine mapMat (X t) (fun i j x => Hmmc.logaddexp x (F ⟨t, by omega⟩ i + logA i j +
      B ⟨t + 1, ht1⟩ j + W ⟨t + 1, ht1⟩ j - lp)) fun i j a ha => ?_
  rw [inp2_get ⟨t, by omega⟩ i (by simp) rfl, ok_bind, inp2_get i j rfl rfl, ok_bind,
    inp2_get ⟨t + 1, ht1⟩ j (by simp) rfl, ok_bind, inp2_get ⟨t + 1, ht1⟩ j (by simp) rfl, ok_bind,
    ha, ok_bind]
  rfl

end Xi

section Viterbi
variable [FloatLike α]

/-- A vector in which the entries `t` with `p t` have been written. -/
def part1 (L : List β) (p : Nat → Bool) : Arr1 β := ⟨L.length, fun t => if p t then L[t]? else none⟩

/-- A vector that has been written completely. -/
def Arr1.ofList (L : List β) : Arr1 β := ⟨L.length, fun t => L[t]?⟩

theorem alloc_eq_part1 (L : List β) {n : Nat} (hn : L.length = n) :
    (Arr1.alloc n : Arr1 β) = part1 L fun _ => false := by
  subst hn; simp [Arr1.alloc, part1]

theorem part1_all (L : List β) {p : Nat → Bool} (hp : ∀ t < L.length, p t) :
    part1 L p = Arr1.ofList L := by
  simp only [part1, Arr1.ofList, Arr1.mk.injEq, true_and]
  funext t
  by_cases ht : t < L.length
  · simp [hp t ht]
  · simp [ht]

theorem part1_set {L : List β} {p q : Nat → Bool} {t : Nat} (ht : t < L.length)
    (hq : ∀ s, q s = (p s || decide (s = t))) {t' : Int} (ht' : t' = t) {x : β} (hx : x = L[t]) :
    (part1 L p).set t' x = .ok (part1 L q) := by
  subst hx
  rw [Arr1.set_eq (b := part1 L p) _ t ht' ht]
  simp only [part1, Except.ok.injEq, Arr1.mk.injEq, true_and]
  funext s
  by_cases hs : s = t
  · subst hs; simp [hq, ht]
  · simp [hs, hq]

/-- A state as the `ssize_t` stored in `state_sequence`. -/
def stateIdx (i : Fin nc) : Int := (i.val : Int)

/-- One pass of the loop filling the lattice. -/
theorem viterbiBody_eq {tm fp : PyArray α} {n : Nat} {R : List (Row α nc)}
    (hR : R.length = n) {t : Nat} (ht : t + 1 < n)
    (hrow : ∀ (h1 : t + 1 < R.length) (h2 : t < R.length),
      R[t + 1] = Hmmc.viterbiRow (mat tm nc nc) R[t] (mat fp n nc ⟨t + 1, ht⟩))
    {p q : Nat → Bool} (hp : p t) (hq : ∀ s, q s = (p s || decide (s = t + 1))) {t' : Int}
    (ht' : t' = (t + 1 : Nat)) :
    viterbiBody (inp2 tm nc nc) (inp2 fp n nc) nc t' (part R none p) = .ok (part R none q) := by
  subst ht' hR
  have ht2 : t < R.length := by omega
  refine fillPart ht hq rfl fun k hk => ?_
  rw [forUp_fold nc (fun m j => stdMax m (R[t] j + mat tm nc nc j ⟨k, hk⟩)) negInf fun j s => by
    rw [upd_get_ne (s := t) (by omega) (by simp), part_get ht2 hp j (by simp) rfl, ok_bind,
      inp2_get j ⟨k, hk⟩ rfl rfl, ok_bind]
    rfl]
  rw [ok_bind, inp2_get ⟨t + 1, ht⟩ ⟨k, hk⟩ rfl rfl, ok_bind, hrow ht ht2]
  rfl

theorem pairMax_eq (p q : α × Fin nc) :
    pairMax (p.1, ((p.2 : Nat) : Int)) (q.1, ((q.2 : Nat) : Int)) =
      ((Hmmc.pairMax p q).1, (((Hmmc.pairMax p q).2 : Nat) : Int)) := by
  have : (((p.2 : Nat) : Int) < ((q.2 : Nat) : Int)) ↔ p.2 < q.2 := by
    rw [Int.ofNat_lt]; rfl
  simp only [pairMax, Hmmc.pairMax, this]
  split <;> rfl

theorem isBack_traceback [NeZero nc] (logA : Mat α nc) :
    IsBack (Hmmc.traceback logA) Hmmc.maxElement (fun v _ prev => Hmmc.bestPrev logA v prev) where
  nil := rfl
  one _ := rfl
  cons a b rest := by
    rw [Hmmc.traceback]
    cases Hmmc.traceback logA (b :: rest) <;> rfl

/-- One pass of the traceback. -/
theorem tracebackBody_eq [NeZero nc] {tm : PyArray α} {R : List (Row α nc)} {Z : List (Fin nc)}
    {t : Nat} (ht : t < R.length) (hz : t < Z.length) (prev : Fin nc)
    (hst : Z[t] = Hmmc.bestPrev (mat tm nc nc) R[t] prev)
    {p q : Nat → Bool} (hq : ∀ s, q s = (p s || decide (s = t))) {t' : Int} (ht' : t' = t)
    {r : Nat → Bool} (hr : r t) :
    tracebackBody (inp2 tm nc nc) (part R none r) nc t'
      (((prev : Nat) : Int), part1 (Z.map stateIdx) p) =
      .ok (((Z[t] : Nat) : Int), part1 (Z.map stateIdx) q) := by
  subst ht'
  unfold tracebackBody
  simp only
  let f : α × Fin nc → Fin nc → α × Fin nc :=
    fun m i => Hmmc.pairMax m (R[t] i + mat tm nc nc i prev, i)
  have hloop : forUp 0 (nc : Int) ((negInf : α), (0 : Int)) (fun i max => do
      return pairMax max ((← (part R none r).get (t : Int) i) +
        (← (inp2 tm nc nc).get i ((prev : Nat) : Int)), i)) =
      .ok (((List.finRange nc).foldl f (negInf, 0)).1,
        ((((List.finRange nc).foldl f (negInf, 0)).2 : Nat) : Int)) := by
    rw [← foldTo_full]
    have := forUp_states (body := fun i max => do
        return pairMax max ((← (part R none r).get (t : Int) i) +
          (← (inp2 tm nc nc).get i ((prev : Nat) : Int)), i)) (lo := 0) (hi := nc) nc (by omega)
      (fun k => ((foldTo nc f (negInf, 0) k).1, (((foldTo nc f (negInf, 0) k).2 : Nat) : Int)))
      (fun k hk => by
        rw [part_get ht hr ⟨k, hk⟩ rfl (by simp), ok_bind, inp2_get ⟨k, hk⟩ prev (by simp) rfl,
          ok_bind, foldTo_succ f _ hk]
        have := pairMax_eq (foldTo nc f (negInf, 0) k) (R[t] ⟨k, hk⟩ + mat tm nc nc ⟨k, hk⟩ prev,
          ⟨k, hk⟩)
        simp only at this
        rw [show (0 : Int) + (k : Int) = (k : Int) by omega, this]
        rfl)
    simpa using this
  rw [hloop, ok_bind]
  have h2 : ((List.finRange nc).foldl f (negInf, 0)).2 = Z[t] := hst.symm
  rw [part1_set (L := Z.map stateIdx) (t := t) (q := q) (by simpa using hz) hq rfl
    (by simp [← h2, stateIdx]), ok_bind]
  simp only [h2]
  rfl

/-- `viterbi` computes `Hmmc.viterbi`. -/
theorem viterbi_eq [NeZero nc] {n : Nat} {sp tm fp : PyArray α} (hs : sp.shape = [nc])
    (ht : tm.shape = [nc, nc]) (hf : fp.shape = [n + 1, nc]) :
    viterbi sp tm fp =
      (Hmmc.viterbi (vec sp nc) (mat tm nc nc) (List.ofFn (mat fp (n + 1) nc))).map
        fun r => (r.1, Arr1.ofList (r.2.map stateIdx)) := by
  let B := mat fp (n + 1) nc
  let logA := Hmmc.logMat (mat tm nc nc)
  let r0 : Row α nc := fun i => Hmmc.logRow (vec sp nc) i + B 0 i
  let l : List (Row α nc) := List.ofFn fun t : Fin n => B t.succ
  let R := r0 :: Hmmc.viterbiLoop logA r0 l
  have h0 : ∀ r : Row α nc, Hmmc.viterbiLoop logA r [] = [] := fun r => rfl
  have h1 : ∀ (r : Row α nc) b l, Hmmc.viterbiLoop logA r (b :: l) =
      Hmmc.viterbiRow logA r b :: Hmmc.viterbiLoop logA (Hmmc.viterbiRow logA r b) l := by
    intro r b l; simp [Hmmc.viterbiLoop]
  have hlen : R.length = n + 1 := by simp [R, loop_length h0 h1, l]
  have hrow : ∀ t (ht : t + 1 < n + 1) (h1 : t + 1 < R.length) (h2 : t < R.length),
      R[t + 1] = Hmmc.viterbiRow logA R[t] (B ⟨t + 1, ht⟩) := by
    intro t ht ha hb
    have := loop_get h0 h1 l r0 t (by simp [l]; omega) ha hb
    simpa [l, R] using this
  let Z := Hmmc.traceback logA R
  have hG := isBack_traceback logA
  have hZ : Z.length = n + 1 := by simp [Z, hG.length, hlen]
  have hn : n < R.length := by omega
  have hn' : n < Z.length := by omega
  have hlast : Z[n] = Hmmc.maxElement R[n] := hG.get_last R n hlen hn'
  have htyped : Hmmc.viterbi (vec sp nc) (mat tm nc nc) (List.ofFn B) = .ok (R[n] Z[n], Z) := by
    have hlat : Hmmc.viterbiLattice (Hmmc.logRow (vec sp nc)) logA (List.ofFn B) = R := by
      rw [List.ofFn_succ]
      simp [Hmmc.viterbiLattice, R, r0, l]
    have e1 : R.getLast? = some R[n] := by
      rw [List.getLast?_eq_some_getLast (by simp [R]), getLast_eq hlen]
    have e2 : Z.getLast? = some Z[n] := by
      rw [List.getLast?_eq_some_getLast (List.ne_nil_of_length_pos (by omega)), getLast_eq hZ]
    simp only [Hmmc.viterbi, Hmmc.viterbiCore, memo_eq]
    rw [show (fun i => Hmmc.logMat (mat tm nc nc) i) = logA from rfl, hlat]
    simp only [e1, show Hmmc.traceback logA R = Z from rfl, e2]
  rw [htyped]
  unfold viterbi
  rw [unchecked1_eq (a := logArr sp) hs, ok_bind, unchecked2_eq (a := logArr tm) ht, ok_bind,
    unchecked2_eq hf, ok_bind]
  simp only [inp1_n, inp2_rows, inp2_cols, ne_eq, not_true_eq_false, or_self, if_false]
  rw [alloc_eq_part R hlen, fillPart (t := 0) (q := fun s => decide (s < 0 + 1)) (by omega)
    (by intro s; simp) rfl (fun k hk => by
      rw [inp1_get ⟨k, hk⟩ rfl, ok_bind, inp2_get (a := fp) (m := n + 1) (i' := 0) 0 ⟨k, hk⟩ (by simp) rfl,
        ok_bind]
      rfl), ok_bind]
  rw [forUp_states (lo := 1) (hi := (n + 1 : Nat)) n (by omega)
    (fun k => part R none fun s => decide (s < k + 1)) (fun k hk =>
      viterbiBody_eq (tm := logArr tm) (fp := fp) hlen (t := k) (by omega)
        (fun ha hb => hrow k (by omega) ha hb) (by simp) (by
          intro s
          have : s < k + 1 + 1 ↔ s < k + 1 ∨ s = k + 1 := by omega
          simp [this]) (by omega)), ok_bind]
  have hget : ∀ i : Fin nc, (part R none fun s => decide (s < n + 1)).get
      (((n + 1 : Nat) : Int) - 1) ((i : Nat) : Int) = .ok (R[n] i) := fun i =>
    part_get hn (by simp) i (by omega) rfl
  rw [maxElement_eq hget rfl, ok_bind, ← hlast]
  let Zi : List Int := Z.map stateIdx
  have hZi : Zi.length = n + 1 := by simp [Zi, hZ]
  rw [alloc_eq_part1 Zi hZi, part1_set (L := Zi) (t := n) (q := fun s => decide (s = n)) (by omega)
    (by intro s; simp) (by omega) (by simp [Zi, stateIdx]), ok_bind]
  have hstates := forDown_states (hi := ((n + 1 : Nat) : Int) - 2) (body := tracebackBody (inp2 (logArr tm) nc nc)
      (part R none fun s => decide (s < n + 1)) nc) n (by omega)
    (fun k => ((((Z[n - k]'(by omega) : Fin nc) : Nat) : Int),
      part1 Zi fun s => decide (n - k ≤ s ∧ s ≤ n))) (fun k hk => by
      obtain ⟨t, ht⟩ : ∃ t, t + 1 = n - k := ⟨n - k - 1, by omega⟩
      have e1 : n - (k + 1) = t := by omega
      have := tracebackBody_eq (tm := logArr tm) (R := R) (Z := Z) (t := t) (by omega) (by omega)
        (Z[t + 1]'(by omega)) (hG.get_step R t (by omega) (by show t < Z.length; omega)
          (by show t + 1 < Z.length; omega))
        (p := fun s => decide (n - k ≤ s ∧ s ≤ n))
        (q := fun s => decide (n - (k + 1) ≤ s ∧ s ≤ n)) (by
          intro s
          rw [← Bool.decide_or]
          exact decide_eq_decide.2 (by omega)) (t' := ((n + 1 : Nat) : Int) - 2 - k) (by omega)
        (r := fun s => decide (s < n + 1)) (by simp; omega)
      simp only [e1, ← ht] at this ⊢
      exact this)
  have hs0 : (part1 Zi fun s => decide (n ≤ s ∧ s ≤ n)) = part1 Zi fun s => decide (s = n) := by
    have : ∀ s, (s = n) = (n ≤ s ∧ s ≤ n) := fun s => propext (by omega)
    simp only [this]
  simp only [Nat.sub_zero, hs0] at hstates
  rw [hstates, ok_bind]
  simp only
  rw [part1_all Zi (by intro t ht; simp; omega), Arr1.get_eq (b := Arr1.ofList Zi) n (by omega)
    (by show n < Zi.length; omega) (by
      show Zi[n]? = some (((Z[n] : Fin nc) : Nat) : Int)
      simp [Zi, stateIdx, List.getElem?_eq_getElem hn']), ok_bind, hget, ok_bind]
  rfl

end Viterbi

end Verif.Raw
