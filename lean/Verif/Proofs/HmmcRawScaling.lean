import Verif.Proofs.HmmcRawXi

/-!
# Refinement of `forward_scaling` and `backward_scaling`
-/

namespace Verif.Raw
open FloatLike

variable {α β σ : Type} {nc : Nat}

section SetCell

/-- `a` with one cell replaced. -/
def Arr2.setCell (a : Arr2 β) (t k : Nat) (x : β) : Arr2 β :=
  ⟨a.rows, a.cols, fun r c => if r = t ∧ c = k then some x else a.cell r c⟩

theorem Arr2.setCell_self {a : Arr2 β} {t k : Nat} {x : β} (h : a.cell t k = some x) :
    a.setCell t k x = a := by
  cases a
  simp only [Arr2.setCell, Arr2.mk.injEq, true_and]
  funext r c
  by_cases hr : r = t ∧ c = k
  · obtain ⟨rfl, rfl⟩ := hr; simpa using h.symm
  · simp [hr]

theorem Arr2.setCell_get {a : Arr2 β} {t k : Nat} {x : β} (ht : t < a.rows) (hk : k < a.cols)
    {t' k' : Int} (h1 : t' = t) (h2 : k' = k) : (a.setCell t k x).get t' k' = .ok x :=
  Arr2.get_eq (a := a.setCell t k x) t k h1 h2 ht hk (by simp [Arr2.setCell])

theorem Arr2.setCell_get_ne {a : Arr2 β} {t k s : Nat} {x : β} (hs : s ≠ t) {s' i' : Int}
    (h1 : s' = s) : (a.setCell t k x).get s' i' = a.get s' i' := by
  subst h1
  simp [Arr2.get, Arr2.setCell, hs]

theorem Arr2.setCell_set {a : Arr2 β} {t k : Nat} {x y : β} (ht : t < a.rows) (hk : k < a.cols)
    {t' k' : Int} (h1 : t' = t) (h2 : k' = k) :
    (a.setCell t k x).set t' k' y = .ok (a.setCell t k y) := by
  rw [Arr2.set_eq (a := a.setCell t k x) y t k h1 h2 ht hk]
  simp only [Arr2.setCell, Except.ok.injEq, Arr2.mk.injEq, true_and]
  funext r c
  by_cases hr : r = t ∧ c = k <;> simp [hr]

theorem Arr2.set_setCell {a : Arr2 β} {t k : Nat} {y : β} (ht : t < a.rows) (hk : k < a.cols)
    {t' k' : Int} (h1 : t' = t) (h2 : k' = k) : a.set t' k' y = .ok (a.setCell t k y) :=
  Arr2.set_eq y t k h1 h2 ht hk

/-- A loop accumulating into one cell. -/
theorem accumCell {n : Nat} {a : Arr2 β} {t k : Nat} {x : β} (hx : a.cell t k = some x)
    (f : β → Fin n → β) {body : Int → Arr2 β → Except PyErr (Arr2 β)} {m : Int} (hm : m = n)
    (h : ∀ (i : Fin n) (y : β), body i (a.setCell t k y) = .ok (a.setCell t k (f y i))) :
    forUp 0 m a body = .ok (a.setCell t k ((List.finRange n).foldl f x)) := by
  subst hm
  rw [← foldTo_full]
  have := forUp_states (body := body) (lo := 0) (hi := n) n (by omega)
    (fun i => a.setCell t k (foldTo n f x i)) fun i hi => by
      rw [foldTo_succ f x hi, ← h ⟨i, hi⟩]
      simp
  simpa [Arr2.setCell_self hx] using this

end SetCell

section Prefix

/-- A lattice whose first rows are `P`, the others containing `x`. -/
def pref (ns : Nat) (P : List (Row β nc)) (x : β) : Arr2 β :=
  ⟨ns, nc, fun t i =>
    if t < ns ∧ i < nc then (match P[t]? with | some r => rowCell r i | none => some x) else none⟩

/-- A vector whose first entries are `P`. -/
def pref1 (ns : Nat) (P : List β) : Arr1 β := ⟨ns, fun t => if t < ns then P[t]? else none⟩

theorem filled_eq_pref (ns : Nat) (x : β) : Arr2.filled ns nc x = pref ns ([] : List (Row β nc)) x := by
  simp [Arr2.filled, pref]

theorem alloc_eq_pref1 (ns : Nat) : (Arr1.alloc ns : Arr1 β) = pref1 ns [] := by
  simp [Arr1.alloc, pref1]

theorem pref_full {ns : Nat} {P : List (Row β nc)} (h : P.length = ns) (x : β) :
    pref ns P x = Arr2.ofRows P := by
  subst h
  simp only [pref, Arr2.ofRows, Arr2.mk.injEq, true_and]
  funext t i
  by_cases ht : t < P.length
  · by_cases hi : i < nc <;> simp [ht, hi, rowCell]
  · simp [ht]

theorem pref1_full {ns : Nat} {P : List β} (h : P.length = ns) : pref1 ns P = Arr1.ofList P := by
  subst h
  simp only [pref1, Arr1.ofList, Arr1.mk.injEq, true_and]
  funext t
  by_cases ht : t < P.length <;> simp [ht]

theorem pref_get {ns : Nat} {P : List (Row β nc)} {x : β} {t : Nat} (ht : t < P.length)
    (hn : t < ns) (i : Fin nc) {t' i' : Int} (h1 : t' = t) (h2 : i' = (i : Nat)) :
    (pref ns P x).get t' i' = .ok (P[t] i) := by
  refine Arr2.get_eq (a := pref ns P x) t i h1 h2 hn i.2 ?_
  simp [pref, hn, ht]

theorem pref_upd {ns : Nat} {P : List (Row β nc)} {x : β} (v : Row β nc) (hn : P.length < ns) :
    (pref ns P x).upd P.length v nc = pref ns (P ++ [v]) x := by
  simp only [pref, Arr2.upd, Arr2.mk.injEq, true_and]
  funext t i
  by_cases ht : t = P.length
  · subst ht
    by_cases hi : i < nc <;> simp [hi, hn]
  · by_cases h2 : t < P.length
    · simp [ht, List.getElem?_append_left h2]
    · have h3 : P.length < t := by omega
      have h4 : t - P.length ≠ 0 := by omega
      have h5 : P[t]? = none := by simp; omega
      have h6 : (P ++ [v])[t]? = none := by simp; omega
      simp [ht, h5, h6]

theorem upd_upd {a : Arr2 β} {t : Nat} (v w : Row β nc) :
    (a.upd t v nc).upd t w nc = a.upd t w nc := by
  simp only [Arr2.upd, Arr2.mk.injEq, true_and]
  funext r c
  by_cases h : r = t ∧ c < nc <;> simp [h]

theorem pref1_set {ns : Nat} {P : List β} (x : β) (hn : P.length < ns) {t' : Int}
    (h : t' = P.length) : (pref1 ns P).set t' x = .ok (pref1 ns (P ++ [x])) := by
  rw [Arr1.set_eq (b := pref1 ns P) x P.length h hn]
  simp only [pref1, Except.ok.injEq, Arr1.mk.injEq, true_and]
  funext t
  by_cases ht : t = P.length
  · subst ht; simp [hn]
  · by_cases h2 : t < P.length
    · simp [ht, List.getElem?_append_left h2]
    · have h5 : P[t]? = none := by simp; omega
      have h6 : (P ++ [x])[t]? = none := by simp; omega
      simp [ht, h5, h6]

theorem forUp_cons {lo hi : Int} (h : lo < hi) (s : σ) (body : Int → σ → Except PyErr σ) :
    forUp lo hi s body = body lo s >>= fun s => forUp (lo + 1) hi s body := by
  obtain ⟨n, hn⟩ : ∃ n : Nat, (hi - lo).toNat = n + 1 := ⟨(hi - lo).toNat - 1, by omega⟩
  unfold forUp
  rw [hn, show (hi - (lo + 1)).toNat = n by omega, List.range_succ_eq_map, List.foldlM_cons]
  rw [show lo + ((0 : Nat) : Int) = lo by omega]
  congr 1
  funext s
  rw [List.foldlM_map]
  congr 1
  funext s k
  congr 1
  rw [Nat.succ_eq_add_one]
  omega

end Prefix

section Forward
variable [FloatLike α]

theorem sumRow_eq {ns : Nat} {P : List (Row α nc)} {x : α} (v : Row α nc) (hn : P.length < ns)
    {t : Int} (ht : t = P.length) :
    accumulate ((pref ns (P ++ [v]) x).get t) nc = .ok (sumF v) := by
  have hlen : P.length < (P ++ [v]).length := by simp
  exact accumulate_eq (v := v) (fun i => by rw [pref_get hlen hn i ht rfl]; simp) rfl

theorem scaleLoop_eq {ns : Nat} {P : List (Row α nc)} {x : α} (v : Row α nc) (hn : P.length < ns)
    {t : Int} (ht : t = P.length) (scale : α) :
    forUp 0 nc (pref ns (P ++ [v]) x) (fun i fwd => do
      fwd.set t i ((← fwd.get t i) * scale)) =
    .ok (pref ns (P ++ [fun i => v i * scale]) x) := by
  subst ht
  let w : Row α nc := fun i => v i * scale
  rw [← pref_upd v hn, fillRow (nc := nc) (a := (pref ns P x).upd P.length v nc) (t := P.length) hn
    rfl w rfl (fun i hi => by
      rw [Arr2.get_eq (a := ((pref ns P x).upd P.length v nc).upd P.length w i) (x := v ⟨i, hi⟩)
        P.length i rfl rfl hn hi (by simp [Arr2.upd, hi, rowCell]), ok_bind]),
    upd_upd, pref_upd w hn]

/-- One pass of `forward_scaling`. -/
theorem forwardScalingBody_eq {tm fp : PyArray α} {ns : Nat} (P : List (Row α nc)) (prev : Row α nc)
    (Sc : List α) (lp : α) (hSc : Sc.length = P.length + 1) (hn : P.length + 1 < ns) {t : Int}
    (ht : t = (P.length + 1 : Nat)) :
    forwardScalingBody (inp2 tm nc nc) (inp2 fp ns nc) nc t
      (lp, pref ns (P ++ [prev]) 0, pref1 ns Sc) =
    match Hmmc.scaleRow (Hmmc.fwdScalingRow (mat tm nc nc) prev (mat fp ns nc ⟨P.length + 1, hn⟩)) with
    | .error e => .error e
    | .ok (scale, row) =>
      .ok (lp - log scale, pref ns (P ++ [prev] ++ [row]) 0, pref1 ns (Sc ++ [scale])) := by
  let b := mat fp ns nc ⟨P.length + 1, hn⟩
  let u : Row α nc := Hmmc.fwdScalingRow (mat tm nc nc) prev b
  have hlen : (P ++ [prev]).length = P.length + 1 := by simp
  have ht' : t = (P ++ [prev]).length := by rw [hlen]; exact ht
  have hn' : (P ++ [prev]).length < ns := by omega
  generalize hQ : P ++ [prev] = Q at *
  have hprev : ∀ h : P.length < Q.length, Q[P.length] = prev := by
    subst hQ; simp
  unfold forwardScalingBody
  simp only
  have hfill : forUp 0 nc (pref ns Q 0) (fun j fwd => do
      let fwd ← forUp 0 nc fwd fun i fwd => do
        fwd.set t j ((← fwd.get t j) + (← fwd.get (t - 1) i) * (← (inp2 tm nc nc).get i j))
      fwd.set t j ((← fwd.get t j) * (← (inp2 fp ns nc).get t j))) = .ok (pref ns (Q ++ [u]) 0) := by
    rw [← pref_upd u hn']
    refine fillRow (nc := nc) (a := pref ns Q 0) hn' rfl u rfl fun j hj => ?_
    let a := (pref ns Q 0).upd Q.length u j
    have hcell : a.cell Q.length j = some 0 := by
      simp [a, Arr2.upd, pref, hn', hj]
    rw [accumCell (a := a) (t := Q.length) (k := j) hcell
      (fun acc i => acc + prev i * mat tm nc nc i ⟨j, hj⟩) rfl (fun i y => by
        rw [Arr2.setCell_get hn' hj ht' rfl, ok_bind,
          Arr2.setCell_get_ne (s := P.length) (by omega) (by omega),
          upd_get_ne (s := P.length) (by omega) (by omega),
          pref_get (t := P.length) (by omega) (by omega) i (by omega) rfl, ok_bind,
          inp2_get i ⟨j, hj⟩ rfl rfl, ok_bind, hprev,
          Arr2.setCell_set (a := a) hn' hj ht' rfl])]
    rw [ok_bind, Arr2.setCell_get hn' hj ht' rfl, ok_bind,
      inp2_get ⟨P.length + 1, hn⟩ ⟨j, hj⟩ (by omega) rfl, ok_bind,
      Arr2.setCell_set (a := a) hn' hj ht' rfl]
    exact (Arr2.set_setCell (a := a) hn' hj rfl rfl).symm
  rw [hfill, ok_bind, sumRow_eq u hn' ht', ok_bind]
  show _ = match Hmmc.scaleRow u with
    | .error e => Except.error e
    | .ok (scale, row) =>
      Except.ok (lp - log scale, pref ns (Q ++ [row]) 0, pref1 ns (Sc ++ [scale]))
  unfold Hmmc.scaleRow
  by_cases hlt : lt (sumF u) Hmmc.minSum = true
  · simp only [hlt, if_true]
    rfl
  · simp only [hlt, memo_eq]
    rw [if_neg (by simp), if_neg (by simp), pref1_set _ (by omega) (by omega), ok_bind,
      scaleLoop_eq u hn' ht', ok_bind]
    rfl

/-- The loop of `forward_scaling`. -/
theorem forwardScalingLoop_eq {tm fp : PyArray α} {ns : Nat} (bs : List (Row α nc)) :
    ∀ (P : List (Row α nc)) (prev : Row α nc) (Sc : List α) (lp : α),
    Sc.length = P.length + 1 → P.length + 1 + bs.length = ns →
    (∀ k (h1 : k < bs.length) (h2 : P.length + 1 + k < ns),
      bs[k] = mat fp ns nc ⟨P.length + 1 + k, h2⟩) → ∀ {t : Int}, t = (P.length + 1 : Nat) →
    forUp t ns (lp, pref ns (P ++ [prev]) 0, pref1 ns Sc)
      (forwardScalingBody (inp2 tm nc nc) (inp2 fp ns nc) nc) =
    match Hmmc.forwardScalingLoop (mat tm nc nc) prev lp bs with
    | .error e => .error e
    | .ok (lp', rows, scales) =>
      .ok (lp', Arr2.ofRows (P ++ [prev] ++ rows), Arr1.ofList (Sc ++ scales)) := by
  induction bs with
  | nil =>
    intro P prev Sc lp hSc hns hb t ht
    rw [forUp_empty (by simp at hns; omega)]
    simp only [Hmmc.forwardScalingLoop, List.append_nil]
    rw [pref_full (by simpa using hns), pref1_full (by simp at hns; omega)]
  | cons b bs ih =>
    intro P prev Sc lp hSc hns hb t ht
    have hn : P.length + 1 < ns := by simp at hns; omega
    rw [forUp_cons (by omega), forwardScalingBody_eq P prev Sc lp hSc hn ht]
    have hb0 : mat fp ns nc ⟨P.length + 1, hn⟩ = b := (hb 0 (by simp) (by omega)).symm
    rw [hb0]
    simp only [Hmmc.forwardScalingLoop, memo_eq]
    cases Hmmc.scaleRow (Hmmc.fwdScalingRow (mat tm nc nc) prev b) with
    | error e => rfl
    | ok r =>
      obtain ⟨scale, row⟩ := r
      simp only
      rw [ok_bind, ih (P ++ [prev]) row (Sc ++ [scale]) (lp - log scale) (by simp [hSc])
        (by simp at hns ⊢; omega) (fun k h1 h2 => by
          have := hb (k + 1) (by simpa using h1) (by simp at h2; omega)
          simp only [List.getElem_cons_succ] at this
          rw [this]
          congr 2
          simp
          omega) (by simp; omega)]
      cases Hmmc.forwardScalingLoop (mat tm nc nc) row (lp - log scale) bs with
      | error e => rfl
      | ok r => simp

/-- `forward_scaling` computes `Hmmc.forwardScaling`. -/
theorem forwardScaling_eq {n : Nat} {sp tm fp : PyArray α} (hs : sp.shape = [nc])
    (ht : tm.shape = [nc, nc]) (hf : fp.shape = [n + 1, nc]) :
    forwardScaling sp tm fp =
      (Hmmc.forwardScaling (vec sp nc) (mat tm nc nc) (List.ofFn (mat fp (n + 1) nc))).map
        fun r => (r.1, Arr2.ofRows r.2.1, Arr1.ofList r.2.2) := by
  let B := mat fp (n + 1) nc
  let u : Row α nc := fun i => vec sp nc i * B 0 i
  have htyped : Hmmc.forwardScaling (vec sp nc) (mat tm nc nc) (List.ofFn B) =
      match Hmmc.scaleRow u with
      | .error e => .error e
      | .ok (scale, row) =>
        match Hmmc.forwardScalingLoop (mat tm nc nc) row (0 - log scale)
            (List.ofFn fun t : Fin n => B t.succ) with
        | .error e => .error e
        | .ok (lp, rows, scales) => .ok (lp, row :: rows, scale :: scales) := by
    rw [List.ofFn_succ]
    simp only [Hmmc.forwardScaling, memo_eq, u]
    rfl
  rw [htyped]
  unfold forwardScaling
  rw [unchecked1_eq hs, ok_bind, unchecked2_eq ht, ok_bind, unchecked2_eq hf, ok_bind]
  simp only [inp1_n, inp2_rows, inp2_cols, ne_eq, not_true_eq_false, or_self, if_false]
  have hpos : ([] : List (Row α nc)).length < n + 1 := by simp
  have hfill : forUp 0 nc (Arr2.filled (n + 1) nc 0) (fun i fwd => do
      fwd.set 0 i ((← (inp1 sp nc).get i) * (← (inp2 fp (n + 1) nc).get 0 i))) =
      .ok (pref (n + 1) ([] ++ [u]) 0) := by
    rw [filled_eq_pref, ← pref_upd u hpos]
    refine fillRow (nc := nc) (a := pref (n + 1) [] 0) hpos rfl u rfl fun i hi => ?_
    rw [inp1_get ⟨i, hi⟩ rfl, ok_bind, inp2_get (a := fp) (m := n + 1) (i' := 0) 0 ⟨i, hi⟩ (by simp) rfl,
      ok_bind]
    rfl
  rw [hfill, ok_bind, sumRow_eq u hpos (by simp), ok_bind]
  unfold Hmmc.scaleRow
  by_cases hlt : lt (sumF u) Hmmc.minSum = true
  · simp only [hlt, if_true]
    rfl
  · simp only [hlt, memo_eq]
    rw [if_neg (by simp), if_neg (by simp), alloc_eq_pref1, pref1_set _ (by simp) (by simp), ok_bind,
      scaleLoop_eq u hpos (by simp), ok_bind]
    rw [forwardScalingLoop_eq (List.ofFn fun t : Fin n => B t.succ) [] _ _ _ (by simp)
      (by simp; omega) (fun k h1 h2 => by
        simp only [List.getElem_ofFn, B]
        congr 1
        simp
        omega) (by simp)]
    simp only
    cases Hmmc.forwardScalingLoop (mat tm nc nc) (fun i => u i * (1 / sumF u)) (0 - log (1 / sumF u))
      (List.ofFn fun t : Fin n => B t.succ) with
    | error e => rfl
    | ok r => rfl

end Forward

section Backward
variable [FloatLike α]

/-- One row of `backward_scaling`. -/
def bwdScalingRow (A : Mat α nc) (b next : Row α nc) (s : α) : Row α nc :=
  fun i => (sumF fun j => A i j * b j * next j) * s

theorem isBack_backwardScaling (A : Mat α nc) :
    IsBack (Hmmc.backwardScalingLoop A) (fun x _ => x.2)
      (fun x y next => bwdScalingRow A y.1 next x.2) where
  nil := rfl
  one _ := rfl
  cons a b rest := by
    obtain ⟨a, s⟩ := a
    obtain ⟨b, s'⟩ := b
    rw [Hmmc.backwardScalingLoop]
    cases Hmmc.backwardScalingLoop A ((b, s') :: rest) <;> simp
    rfl

/-- One pass of `backward_scaling`. -/
theorem backwardScalingBody_eq {tm fp sc : PyArray α} {n : Nat} {R : List (Row α nc)}
    (hR : R.length = n) {t : Nat} (ht : t + 1 < n)
    (hrow : ∀ (h1 : t + 1 < R.length) (h2 : t < R.length),
      R[t] = bwdScalingRow (mat tm nc nc) (mat fp n nc ⟨t + 1, ht⟩) R[t + 1]
        (vec sc n ⟨t, by omega⟩))
    {p q : Nat → Bool} (hp : p (t + 1)) (hp' : p t = false)
    (hq : ∀ s, q s = (p s || decide (s = t))) {t' : Int} (ht' : t' = (t : Nat)) :
    backwardScalingBody (inp2 tm nc nc) (inp2 fp n nc) (inp1 sc n) nc t' (part R (some 0) p) =
      .ok (part R (some 0) q) := by
  subst hR
  have ht2 : t < R.length := by omega
  refine fillPart ht2 hq rfl fun i hi => ?_
  let a := (part R (some 0) p).upd t R[t] i
  have hcell : a.cell t i = some 0 := by
    simp [a, Arr2.upd, part, ht2, hi, hp']
  rw [accumCell (a := a) (t := t) (k := i) hcell
    (fun acc j => acc + mat tm nc nc ⟨i, hi⟩ j * mat fp R.length nc ⟨t + 1, ht⟩ j * R[t + 1] j) rfl
    (fun j y => by
      rw [Arr2.setCell_get ht2 hi ht' rfl, ok_bind, inp2_get ⟨i, hi⟩ j rfl rfl, ok_bind,
        inp2_get ⟨t + 1, ht⟩ j (by simp [ht']) rfl, ok_bind,
        Arr2.setCell_get_ne (s := t + 1) (by omega) (by omega),
        upd_get_ne (s := t + 1) (by omega) (by omega),
        part_get ht hp j (by omega) rfl, ok_bind, Arr2.setCell_set (a := a) ht2 hi ht' rfl])]
  rw [ok_bind, Arr2.setCell_get ht2 hi ht' rfl, ok_bind, inp1_get ⟨t, ht2⟩ ht', ok_bind,
    Arr2.setCell_set (a := a) ht2 hi ht' rfl, ← Arr2.set_setCell (a := a) ht2 hi rfl rfl]
  simp only [a]
  congr 1
  rw [hrow ht ht2]
  rfl

/-- `backward_scaling` computes `Hmmc.backwardScaling`. -/
theorem backwardScaling_eq {n : Nat} {sp tm fp sc : PyArray α} (hs : sp.shape = [nc])
    (ht : tm.shape = [nc, nc]) (hf : fp.shape = [n + 1, nc]) (hc : sc.shape = [n + 1]) :
    backwardScaling sp tm fp sc =
      (Hmmc.backwardScaling (mat tm nc nc) (List.ofFn (mat fp (n + 1) nc))
        (List.ofFn (vec sc (n + 1)))).map Arr2.ofRows := by
  let B := mat fp (n + 1) nc
  let s := vec sc (n + 1)
  let A := mat tm nc nc
  let l := (List.ofFn B).zip (List.ofFn s)
  let R := Hmmc.backwardScalingLoop A l
  have hG := isBack_backwardScaling A
  have hlen : R.length = n + 1 := by simp [R, hG.length, l]
  have hlast : ∀ h : n < R.length, R[n] = fun _ => s (Fin.last n) := fun h => by
    have := hG.get_last l n (by simp [l]) h
    have e : l[n]'(by simp [l]) = (B (Fin.last n), s (Fin.last n)) := by
      simp only [l, List.getElem_zip, List.getElem_ofFn]
      rfl
    rw [e] at this
    exact this
  have hrow : ∀ t (ht : t + 1 < n + 1) (h1 : t + 1 < R.length) (h2 : t < R.length),
      R[t] = bwdScalingRow A (B ⟨t + 1, ht⟩) R[t + 1] (s ⟨t, by omega⟩) := by
    intro t ht ha hb
    have := hG.get_step l t (by simpa [l] using ht) hb ha
    have e : ∀ k (hk : k < n + 1), l[k]'(by simpa [l] using hk) = (B ⟨k, hk⟩, s ⟨k, hk⟩) := by
      intro k hk
      simp only [l, List.getElem_zip, List.getElem_ofFn]
    rw [e t (by omega), e (t + 1) ht] at this
    exact this
  have htyped : Hmmc.backwardScaling A (List.ofFn B) (List.ofFn s) = .ok R := by
    simp [Hmmc.backwardScaling, R, l]
  rw [htyped]
  unfold backwardScaling
  rw [unchecked1_eq hs, ok_bind, unchecked2_eq ht, ok_bind, unchecked2_eq hf, ok_bind,
    unchecked1_eq hc, ok_bind]
  simp only [inp1_n, inp2_rows, inp2_cols, ne_eq, not_true_eq_false, or_self, if_false]
  rw [filled_eq_part R 0 hlen, fillPart (t := n) (q := fun s => decide (s = n)) (by omega)
    (by intro s; simp) rfl (fun k hk => by
      rw [hlast, inp1_get (a := sc) (Fin.last n) (by simp), ok_bind]
      simp [s]), ok_bind]
  have hstates := forDown_states (hi := ((n + 1 : Nat) : Int) - 2)
    (body := backwardScalingBody (inp2 tm nc nc) (inp2 fp (n + 1) nc) (inp1 sc (n + 1)) nc) n (by omega)
    (fun k => part R (some 0) fun s => decide (n - k ≤ s ∧ s ≤ n)) (fun k hk => by
      obtain ⟨t, ht⟩ : ∃ t, t + 1 = n - k := ⟨n - k - 1, by omega⟩
      exact backwardScalingBody_eq (sc := sc) hlen (t := t) (by omega)
        (fun ha hb => hrow t (by omega) ha hb) (by simp; omega) (by simp; omega) (by
          intro s
          rw [← Bool.decide_or]
          exact decide_eq_decide.2 (by omega)) (by omega))
  have hs0 : (part R (some 0) fun s => decide (n ≤ s ∧ s ≤ n)) = part R (some 0) fun s => decide (s = n) := by
    have : ∀ s, (s = n) = (n ≤ s ∧ s ≤ n) := fun s => propext (by omega)
    simp only [this]
  simp only [Nat.sub_zero, hs0] at hstates
  rw [hstates, part_all R (some 0) (by intro t ht; simp; omega)]
  rfl

end Backward

end Verif.Raw
