import Verif.Spec.WideSymbols
import Verif.Props.Lengths
import Verif.Props.Rejects
import Verif.Props.GmmInts
/-
C100: symbol arrays with several columns.
-/
set_option autoImplicit false

namespace Verif
open FloatLike Spec

section
variable {d : ℕ}

/-- The entries row after row. -/
def flatRows (l : List (Fin d → ℤ)) : List ℤ := (l.map List.ofFn).flatten

theorem flatRows_nil : flatRows ([] : List (Fin d → ℤ)) = [] := rfl

theorem flatRows_cons (r : Fin d → ℤ) (l : List (Fin d → ℤ)) : flatRows (r :: l) = List.ofFn r ++ flatRows l := rfl

theorem flatRows_length (l : List (Fin d → ℤ)) : (flatRows l).length = d * l.length := by
  induction l with
  | nil => rfl
  | cons r l ih =>
    rw [flatRows_cons, List.length_append, ih, List.length_ofFn, List.length_cons]
    ring

theorem flatRows_drop (l : List (Fin d → ℤ)) (k : ℕ) : (flatRows l).drop (d * k) = flatRows (l.drop k) := by
  induction l generalizing k with
  | nil => simp [flatRows_nil]
  | cons r l ih =>
    cases k with
    | zero => rfl
    | succ k =>
      rw [flatRows_cons, List.drop_succ_cons, ← ih k, show d * (k + 1) = (List.ofFn r).length + d * k by simp; ring,
        List.drop_length_add_append]

theorem flatRows_take (l : List (Fin d → ℤ)) (k : ℕ) : (flatRows l).take (d * k) = flatRows (l.take k) := by
  induction l generalizing k with
  | nil => simp [flatRows_nil]
  | cons r l ih =>
    cases k with
    | zero => simp [flatRows_nil]
    | succ k =>
      rw [flatRows_cons, List.take_succ_cons, flatRows_cons, ← ih k,
        show d * (k + 1) = (List.ofFn r).length + d * k by simp; ring, List.take_length_add_append]

theorem pyBound_mul (n : ℕ) (k : ℤ) (hd : d ≠ 0) : pyBound (d * n) (d * k) = d * pyBound n k := by
  have hd' : (0 : ℤ) < d := by omega
  unfold pyBound
  by_cases hk : k < 0
  · rw [if_pos hk, if_pos (by nlinarith)]
    push_cast
    rw [← mul_add]
    rcases le_or_gt 0 (k + n) with h | h
    · lift k + n to ℕ using h with j hj
      rw [← Nat.cast_mul, Int.toNat_natCast, Int.toNat_natCast]
    · rw [Int.toNat_of_nonpos (by nlinarith), Int.toNat_of_nonpos h.le, mul_zero]
  · rw [if_neg hk, if_neg (by nlinarith)]
    lift k to ℕ using (by omega) with j
    rw [← Nat.cast_mul, Int.toNat_natCast, Int.toNat_natCast, Nat.mul_min_mul_left]

theorem pySlice_flat (hd : d ≠ 0) (l : List (Fin d → ℤ)) (a b : ℤ) :
    pySlice (flatRows l) (d * a) (d * b) = flatRows (pySlice l a b) := by
  unfold pySlice
  simp only [flatRows_length, pyBound_mul _ _ hd, flatRows_drop, ← Nat.mul_sub, flatRows_take]

theorem cumsumInt_mul (l : List ℤ) (a : ℤ) :
    cumsumInt (d * a) (l.map fun n : ℤ => (d : ℤ) * n) = (cumsumInt a l).map fun n : ℤ => (d : ℤ) * n := by
  induction l generalizing a with
  | nil => rfl
  | cons n l ih => simp only [List.map_cons, cumsumInt, ← mul_add, ih]

theorem npSplitInit_flat (hd : d ≠ 0) (l : List (Fin d → ℤ)) (cs : List ℤ) (a : ℤ) :
    npSplitInit (flatRows l) (d * a) (cs.map fun n : ℤ => (d : ℤ) * n) = (npSplitInit l a cs).map flatRows := by
  induction cs generalizing a with
  | nil => rfl
  | cons c cs ih => simp only [List.map_cons, npSplitInit, pySlice_flat hd, ih]

theorem splitXLengths_flat (hd : d ≠ 0) (l : List (Fin d → ℤ)) (ls : Option (List ℤ)) :
    splitXLengths (flatRows l) (timesLengths d ls) = (splitXLengths l ls).map (List.map flatRows) := by
  cases ls with
  | none => rfl
  | some ns =>
    have h0 := cumsumInt_mul (d := d) ns 0
    rw [mul_zero] at h0
    have h1 := npSplitInit_flat hd l (cumsumInt 0 ns) 0
    rw [mul_zero] at h1
    simp only [timesLengths, Option.map_some, splitXLengths, h0, List.getLast?_map]
    cases (cumsumInt 0 ns).getLast? with
    | none => rfl
    | some last =>
      simp only [Option.map_some, flatRows_length, h1]
      have hd' : (d : ℤ) ≠ 0 := by exact_mod_cast hd
      by_cases h : last = l.length
      · subst h
        simp [Except.map]
      · have : ¬ (d * last : ℤ) = ((d * l.length : ℕ) : ℤ) := by
          push_cast
          exact fun h' => h (mul_left_cancel₀ hd' h')
        simp [h, this, hd, Except.map]

/-- The error depends on the numbers of rows only. -/
theorem splitXLengths_flat_unit (hd : d ≠ 0) {β : Type} (n m : ℕ) (hm : m = d * n) (ls : Option (List ℤ)) (err : PyErr) :
    (splitXLengths (List.replicate n ()) ls >>= fun _ => (.error err : Except PyErr β)) =
      (splitXLengths (List.replicate m ()) (timesLengths d ls) >>= fun _ => .error err) := by
  have hl : ∀ k, (List.replicate k (fun _ : Fin d => (0 : ℤ))).length = k := fun k => List.length_replicate
  have h1 := splitXLengths_flat hd (List.replicate n fun _ => 0) ls
  have hf : (flatRows (List.replicate n (fun _ : Fin d => (0 : ℤ)))).length = (List.replicate m ()).length := by
    rw [flatRows_length, hl, List.length_replicate, hm]
  have hr : (List.replicate n (fun _ : Fin d => (0 : ℤ))).length = (List.replicate n ()).length := by simp
  cases h2 : splitXLengths (List.replicate n ()) ls with
  | error e =>
    rw [splitXLengths_error_length hr.symm h2] at h1
    rw [splitXLengths_error_length hf h1]
  | ok bs =>
    cases h3 : splitXLengths (List.replicate m ()) (timesLengths d ls) with
    | ok _ => rfl
    | error e =>
      rw [splitXLengths_error_length hf.symm h3] at h1
      cases h4 : splitXLengths (List.replicate n fun _ : Fin d => (0 : ℤ)) ls with
      | error e' => rw [splitXLengths_error_length hr h4] at h2; cases h2
      | ok x => rw [h4] at h1; cases h1

theorem inColumn_map (l : List (Fin d → ℤ)) : (inColumn l).map (fun r => r 0) = flatRows l := by
  unfold inColumn flatRows
  rw [List.map_flatten, List.map_map]
  congr 1
  refine List.map_congr_left fun r _ => ?_
  simp only [Function.comp_apply, List.map_ofFn]
  rfl

theorem inColumn_length (l : List (Fin d → ℤ)) : (inColumn l).length = d * l.length := by
  rw [← flatRows_length, ← inColumn_map, List.length_map]

theorem catRows_inColumn {α : Type} (l : List (Fin d → ℤ)) :
    catRows (.ints (α := α) (inColumn l)) = .ok (flatRows l) := by
  rw [← inColumn_map]
  rfl

theorem block_eq {l : List (Fin d → ℤ)} (h : d = 1 ∨ l ≠ []) : Categorical.block l = .ok (flatRows l) := by
  unfold Categorical.block
  by_cases hd : d = 1
  · subst hd
    simp only [dite_true]
    congr 1
    unfold flatRows
    induction l with
    | nil => rfl
    | cons r l ih => simpa using ih (.inl rfl)
  · rw [dif_neg hd, if_neg (by simpa using h.resolve_left hd)]
    rfl

theorem block_nil (hd : d ≠ 1) : ∃ e, Categorical.block ([] : List (Fin d → ℤ)) = .error e := ⟨_, by
  unfold Categorical.block
  rw [dif_neg hd]
  rfl⟩

end


variable {α G P : Type} [FloatLike α] {d : ℕ}

/-! ## Inference -/

section
variable {nc : ℕ} {O O' : Type}

/-- Two models that agree on a sequence. -/
structure AgreeAt (m : Hmm α nc O) (m' : Hmm α nc O') (b : List O) (b' : List O') : Prop where
  startprob : m.startprob = m'.startprob
  transmat : m.transmat = m'.transmat
  implementation : m.implementation = m'.implementation
  lik : m.computeLikelihood b = m'.computeLikelihood b'
  loglik : m.computeLogLikelihood b = m'.computeLogLikelihood b'
  empty : b.isEmpty = b'.isEmpty

variable [NeZero nc] {m : Hmm α nc O} {m' : Hmm α nc O'}

theorem seqLoop_agree {γ : Type} {one : List O → Except PyErr (α × List γ)} {one' : List O' → Except PyErr (α × List γ)}
    {f : List O → List O'} (bs : List (List O)) (h : ∀ b ∈ bs, one b = one' (f b)) (lp : α) (out : List γ) :
    seqLoop one bs lp out = seqLoop one' (bs.map f) lp out := by
  induction bs generalizing lp out with
  | nil => rfl
  | cons b bs ih =>
    simp only [List.map_cons, seqLoop, h b (List.mem_cons_self ..)]
    cases one' (f b) with
    | error e => rfl
    | ok r => exact ih (fun b hb => h b (List.mem_cons_of_mem _ hb)) _ _

theorem scoreOne_agree {b : List O} {b' : List O'} (h : AgreeAt m m' b b') (p : Bool) :
    scoreOneLog m p b = scoreOneLog m' p b' ∧ scoreOneScaling m p b = scoreOneScaling m' p b' := by
  unfold scoreOneLog scoreOneScaling
  rw [h.startprob, h.transmat, h.lik, h.loglik]
  exact ⟨rfl, rfl⟩

theorem scoreCore_agree {X : List O} {X' : List O'} {f : List O → List O'} {ls ls' : Option (List ℤ)} {i : Impl}
    (hi : m.implementation = i) (hi' : m'.implementation = i)
    (hs : splitXLengths X' ls' = (splitXLengths X ls).map (List.map f))
    (h : ∀ bs, splitXLengths X ls = .ok bs → ∀ b ∈ bs, AgreeAt m m' b (f b)) (p : Bool) :
    scoreCore m X ls p = scoreCore m' X' ls' p := by
  unfold scoreCore
  rw [hs, hi, hi']
  cases hb : splitXLengths X ls with
  | error e => rfl
  | ok bs =>
    cases i with
    | log => exact seqLoop_agree bs (fun b hb' => (scoreOne_agree (h bs hb b hb') p).1) _ _
    | scaling => exact seqLoop_agree bs (fun b hb' => (scoreOne_agree (h bs hb b hb') p).2) _ _

theorem decodeMap_agree {b : List O} {b' : List O'} (h : AgreeAt m m' b b') : decodeMap m b = decodeMap m' b' := by
  unfold decodeMap scoreSamples
  rw [h.empty, scoreCore_agree (f := fun _ => b') (ls' := none) rfl h.implementation.symm rfl]
  intro bs hbs b1 hb1
  cases hbs
  rw [List.mem_singleton.mp hb1]
  exact h

theorem decode_agree {X : List O} {X' : List O'} {f : List O → List O'} {ls ls' : Option (List ℤ)}
    (hs : splitXLengths X' ls' = (splitXLengths X ls).map (List.map f))
    (h : ∀ bs, splitXLengths X ls = .ok bs → ∀ b ∈ bs, AgreeAt m m' b (f b)) (alg : Alg) :
    decode m alg X ls = decode m' alg X' ls' := by
  unfold decode
  rw [hs]
  cases hb : splitXLengths X ls with
  | error e => rfl
  | ok bs =>
    cases alg with
    | viterbi =>
      refine seqLoop_agree bs (fun b hb' => ?_) _ _
      show decodeViterbi m b = decodeViterbi m' (f b)
      unfold decodeViterbi
      have := h bs hb b hb'
      rw [this.startprob, this.transmat, this.loglik]
    | map => exact seqLoop_agree bs (fun b hb' => decodeMap_agree (h bs hb b hb')) _ _

omit [NeZero nc] in
theorem seqLoop_error {γ : Type} {one : List O → Except PyErr (α × List γ)} {bs : List (List O)} {b : List O} {e : PyErr}
    (hb : b ∈ bs) (h : one b = .error e) (lp : α) (out : List γ) : ∃ e', seqLoop one bs lp out = .error e' := by
  induction bs generalizing lp out with
  | nil => cases hb
  | cons c bs ih =>
    cases hc : one c with
    | error e' => exact ⟨e', by simp only [seqLoop, hc]⟩
    | ok r =>
      rcases List.mem_cons.mp hb with rfl | hb
      · rw [h] at hc; cases hc
      · simp only [seqLoop, hc]
        exact ih hb _ _

/-- A sequence whose likelihood raises. -/
theorem scoreCore_block_error {X : List O} {ls : Option (List ℤ)} {bs : List (List O)} {b : List O} {e : PyErr}
    (hs : splitXLengths X ls = .ok bs) (hb : b ∈ bs) (hl : m.computeLikelihood b = .error e)
    (hl' : m.computeLogLikelihood b = .error e) (p : Bool) : ∃ e', scoreCore m X ls p = .error e' := by
  unfold scoreCore
  rw [hs]
  cases m.implementation with
  | log => exact seqLoop_error hb (e := e) (by show scoreOneLog m p b = _; unfold scoreOneLog; rw [hl']; rfl) _ _
  | scaling => exact seqLoop_error hb (e := e) (by show scoreOneScaling m p b = _; unfold scoreOneScaling; rw [hl]; rfl) _ _

theorem decode_block_error {X : List O} {ls : Option (List ℤ)} {bs : List (List O)} {b : List O} {e : PyErr}
    (hs : splitXLengths X ls = .ok bs) (hb : b ∈ bs) (hl : m.computeLikelihood b = .error e)
    (hl' : m.computeLogLikelihood b = .error e) (alg : Alg) : ∃ e', decode m alg X ls = .error e' := by
  unfold decode
  rw [hs]
  cases alg with
  | viterbi => exact seqLoop_error hb (e := e) (by show decodeViterbi m b = _; unfold decodeViterbi; rw [hl']; rfl) _ _
  | map =>
    obtain ⟨e', he⟩ := scoreCore_block_error (m := m) (X := b) (ls := none) rfl (List.mem_singleton.mpr rfl) hl hl' true
    by_cases hbe : b.isEmpty
    · exact seqLoop_error hb (e := _) (by show decodeMap m b = _; unfold decodeMap; rw [if_pos hbe]) _ _
    · refine seqLoop_error hb (e := e') ?_ _ _
      show decodeMap m b = _
      unfold decodeMap scoreSamples
      rw [if_neg hbe, he]
      rfl

end

section
variable {nc nf : ℕ} {prior : Categorical.Params α nc nf} {impl : Impl} {θ : Theta α nc (Categorical.Params α nc nf)}

theorem wide_agree (hd : d ≠ 0) {b : List (Fin d → ℤ)} (h : d = 1 ∨ b ≠ []) :
    AgreeAt ((Categorical.wideEmission d prior).toHmm impl θ) ((Categorical.emission prior).toHmm impl θ) b (flatRows b) where
  startprob := rfl
  transmat := rfl
  implementation := rfl
  lik := by
    show (Categorical.block b >>= _) = _
    rw [block_eq h]
    rfl
  loglik := by
    show logRows (Categorical.block b >>= _) = _
    rw [block_eq h]
    rfl
  empty := by
    have := flatRows_length b
    cases b with
    | nil => rfl
    | cons r b =>
      cases hf : flatRows (r :: b) with
      | nil => rw [hf] at this; simp [hd] at this
      | cons _ _ => rfl

/-- The sequences are not empty. -/
theorem blocks_nonempty {l : List (Fin d → ℤ)} (hl : l ≠ []) {ls : Option (List ℤ)} (h : d = 1 ∨ PositiveLengths ls)
    {bs : List (List (Fin d → ℤ))} (hb : splitXLengths l ls = .ok bs) : ∀ b ∈ bs, d = 1 ∨ b ≠ [] := by
  intro b hb'
  refine h.imp id fun h => ?_
  cases ls with
  | none =>
    cases hb
    rwa [List.mem_singleton.mp hb']
  | some ns =>
    refine C16_positive_lengths_nonempty l ns ?_ (h ns rfl) bs hb b hb'
    rintro rfl
    cases hb

end


theorem checkArray_rows (l : List (Fin d → ℤ)) :
    ((∃ e, checkArray (rowsX (α := α) l) = .error e ∧ checkArray (rowsX (α := α) (inColumn l)) = .error e)) ∨
    (l ≠ [] ∧ d ≠ 0 ∧ checkArray (rowsX (α := α) l) = .ok (.ints l) ∧
      checkArray (rowsX (α := α) (inColumn l)) = .ok (.ints (inColumn l))) := by
  have key : ∀ {d : ℕ} (l : List (Fin d → ℤ)), ¬ (l.length = 0 ∨ d = 0) → checkArray (rowsX (α := α) l) = .ok (.ints l) := by
    intro d l h
    refine (if_neg h).trans ?_
    rw [show (fun t k => l.get t k) = l.get from rfl, List.ofFn_get]
  by_cases h : l.length = 0 ∨ d = 0
  · exact .inl ⟨_, if_pos h, if_pos (by rw [inColumn_length, Nat.mul_eq_zero]; exact .inl h.symm)⟩
  · refine .inr ⟨?_, fun h' => h (.inr h'), key l h, key _ ?_⟩
    · rintro rfl
      exact h (.inl rfl)
    · rw [inColumn_length, Nat.mul_eq_zero]
      simp only [one_ne_zero, or_false]
      exact fun h' => h h'.symm

/-- The parameters are read in the same way. -/
theorem withModel_same {P : Type} {Params : ℕ → ℕ → Type} {S S' : Sub α G P} (e : Est α G P)
    (read : P → (nc nf : ℕ) → Option (Params nc nf)) {Stats Stats' : ℕ → ℕ → Type} {Obs Obs' : ℕ → Type}
    {rows : (nf : ℕ) → XArr α → Except PyErr (List (Obs nf))} {rows' : (nf : ℕ) → XArr α → Except PyErr (List (Obs' nf))}
    {em : P → (nc nf : ℕ) → Emission α nc (Obs nf) (Params nc nf) (Stats nc nf)}
    {em' : P → (nc nf : ℕ) → Emission α nc (Obs' nf) (Params nc nf) (Stats' nc nf)}
    {wr wr' : {nc nf : ℕ} → Params nc nf → P → P} {cf cf' nfit nfit' ini ini' ck ck' sa sa'}
    (hS : S = ⟨Obs, Params, Stats, rows, em, read, wr, cf, nfit, ini, ck, sa⟩)
    (hS' : S' = ⟨Obs', Params, Stats', rows', em', read, wr', cf', nfit', ini', ck', sa'⟩)
    {β : Type} (X X' : XArr α) (impl : Impl) (ls ls' : Option (List ℤ))
    (k k' : {nc : ℕ} → {Obs : Type} → [NeZero nc] → Hmm α nc Obs → List Obs → Except PyErr β)
    (hn : ∀ err : PyErr, (splitXLengths (List.replicate X.n ()) ls >>= fun _ => (.error err : Except PyErr β)) =
      (splitXLengths (List.replicate X'.n ()) ls' >>= fun _ => .error err))
    (h : ∀ nf, ∃ r r', rows nf X = .ok r ∧ rows' nf X' = .ok r' ∧
      ∀ (h0 : e.nComponents ≠ 0) (θ : Theta α e.nComponents (Params e.nComponents nf)),
        haveI : NeZero e.nComponents := ⟨h0⟩
        k ((em e.sub e.nComponents nf).toHmm impl θ) r = k' ((em' e.sub e.nComponents nf).toHmm impl θ) r') :
    S.withModel e impl X ls k = S'.withModel e impl X' ls' k' := by
  subst hS hS'
  unfold Sub.withModel Sub.ready
  by_cases h0 : e.nComponents = 0
  · simp only [h0, dite_true]
    exact hn _
  · simp only [h0, dite_false]
    cases e.nFeatures with
    | none => exact hn _
    | some nf =>
      cases e.startprob with
      | none => exact hn _
      | some s =>
        cases hs : asRow e.nComponents s with
        | none =>
          simp only [Option.bind_eq_bind, Option.bind_some, hs, Option.bind_none]
          exact hn _
        | some π =>
          cases e.transmat with
          | none =>
            simp only [Option.bind_eq_bind, Option.bind_some, hs, Option.bind_none]
            exact hn _
          | some t =>
            cases ht : asMat e.nComponents e.nComponents t with
            | none =>
              simp only [Option.bind_eq_bind, Option.bind_some, hs, ht, Option.bind_none]
              exact hn _
            | some A =>
              cases hp : read e.sub e.nComponents nf with
              | none =>
                simp only [Option.bind_eq_bind, Option.bind_some, hs, ht, hp, Option.bind_none]
                exact hn _
              | some p =>
                obtain ⟨r, r', h1, h2, h3⟩ := h nf
                simp only [Option.bind_eq_bind, Option.bind_some, hs, ht, hp, pure, h1, h2]
                exact h3 h0 _

/-- `W` reads arrays with `d` columns as `S` reads the column. -/
structure Widens (d : ℕ) {P : Type} (W S : Sub α G P) : Prop where
  withModel : ∀ {β : Type} (e : Est α G P) (impl : Impl) (_ : d ≠ 0) (l : List (Fin d → ℤ)) (ls : Option (List ℤ))
    (k k' : {nc : ℕ} → {Obs : Type} → [NeZero nc] → Hmm α nc Obs → List Obs → Except PyErr β)
    (_ : ∀ {nc nf : ℕ} [NeZero nc] (prior : Categorical.Params α nc nf) (θ : Theta α nc (Categorical.Params α nc nf)),
      k ((Categorical.wideEmission d prior).toHmm impl θ) l = k' ((Categorical.emission prior).toHmm impl θ) (flatRows l)),
    W.withModel e impl (.ints l) ls k = S.withModel e impl (.ints (inColumn l)) (timesLengths d ls) k'
  raised : ∀ {β : Type} (e : Est α G P) (impl : Impl) (l : List (Fin d → ℤ)) (ls : Option (List ℤ))
    (k : {nc : ℕ} → {Obs : Type} → [NeZero nc] → Hmm α nc Obs → List Obs → Except PyErr β)
    (_ : ∀ {nc nf : ℕ} [NeZero nc] (prior : Categorical.Params α nc nf) (θ : Theta α nc (Categorical.Params α nc nf)),
      ∃ err, k ((Categorical.wideEmission d prior).toHmm impl θ) l = .error err),
    ∃ err, W.withModel e impl (.ints l) ls k = .error err

theorem wideRows_ints (l : List (Fin d → ℤ)) : Categorical.wideRows (α := α) d (.ints l) = .ok l := by
  unfold Categorical.wideRows
  simp

theorem bind_raises {β γ : Type} (x : Except PyErr β) (err : PyErr) :
    ∃ err', (x >>= fun _ => (.error err : Except PyErr γ)) = .error err' := by
  cases x with
  | error e => exact ⟨e, rfl⟩
  | ok _ => exact ⟨err, rfl⟩

theorem catWide_widens : Widens d (catWide (α := α) (G := G) d) catSub := ⟨by
  intro β e impl hd l ls k k' h
  refine withModel_same (S := catWide d) (S' := catSub) e _ rfl rfl _ _ _ _ _ _ _ ?_ ?_
  · exact splitXLengths_flat_unit hd _ _ (inColumn_length l) ls
  · intro nf
    refine ⟨l, flatRows l, ?_, catRows_inColumn l, fun h0 θ => ?_⟩
    · unfold Categorical.wideRows
      simp
    · haveI : NeZero e.nComponents := ⟨h0⟩
      exact h _ θ, by
  intro β e impl l ls k h
  unfold Sub.withModel
  cases (catWide d).ready e with
  | none => exact bind_raises _ _
  | some r =>
    haveI : NeZero e.nComponents := ⟨r.pos⟩
    have hr : (catWide (α := α) (G := G) d).rows r.nf (.ints (α := α) l) = .ok l := wideRows_ints (α := α) l
    simp only [hr]
    exact h _ r.θ⟩

theorem vcatWide_widens : Widens d (vcatWideCore (α := α) (G := G) d) vcatCore := ⟨by
  intro β e impl hd l ls k k' h
  refine withModel_same (S := vcatWideCore d) (S' := vcatCore) e _ rfl rfl _ _ _ _ _ _ _ ?_ ?_
  · exact splitXLengths_flat_unit hd _ _ (inColumn_length l) ls
  · intro nf
    refine ⟨l, flatRows l, ?_, catRows_inColumn l, fun h0 θ => ?_⟩
    · unfold Categorical.wideRows
      simp
    · haveI : NeZero e.nComponents := ⟨h0⟩
      exact h _ θ, by
  intro β e impl l ls k h
  unfold Sub.withModel
  cases (vcatWideCore d).ready e with
  | none => exact bind_raises _ _
  | some r =>
    haveI : NeZero e.nComponents := ⟨r.pos⟩
    have hr : (vcatWideCore (α := α) (G := G) d).rows r.nf (.ints (α := α) l) = .ok l := wideRows_ints (α := α) l
    simp only [hr]
    exact h _ r.θ⟩

section
variable {P : Type} {W S : Sub α G P}

theorem Widens.scoreBody (hW : Widens d W S) (l : List (Fin d → ℤ)) (ls : Option (List ℤ)) (b : Bool)
    (h : d = 1 ∨ PositiveLengths ls) :
    W.scoreBody (rowsX l) ls b = S.scoreBody (rowsX (inColumn l)) (timesLengths d ls) b := by
  unfold Sub.scoreBody
  rcases checkArray_rows (α := α) l with ⟨e, h1, h2⟩ | ⟨hl, hd, h1, h2⟩
  · rw [h1, h2]
    rfl
  · rw [h1, h2]
    funext w
    refine congrArg (fun f => (Py.lift (implOf w.implementation) >>= f) w) (funext fun impl => congrArg Py.lift ?_)
    refine hW.withModel w impl hd l ls _ _ fun prior θ => ?_
    rw [scoreCore_agree (i := impl) rfl rfl (splitXLengths_flat hd l ls)
      fun bs hb b' hb' => wide_agree hd (blocks_nonempty hl h hb b' hb')]

theorem Widens.decodeBody (hW : Widens d W S) (l : List (Fin d → ℤ)) (ls : Option (List ℤ)) (alg : Option String)
    (h : d = 1 ∨ PositiveLengths ls) :
    W.decodeBody (rowsX l) ls alg = S.decodeBody (rowsX (inColumn l)) (timesLengths d ls) alg := by
  unfold Sub.decodeBody
  rcases checkArray_rows (α := α) l with ⟨e, h1, h2⟩ | ⟨hl, hd, h1, h2⟩
  · rw [h1, h2]
    rfl
  · rw [h1, h2]
    funext w
    refine congrArg (fun f => (Py.lift (algOf (pyOr alg w.algorithm)) >>= f) w) (funext fun a => ?_)
    have key : ∀ impl a, W.withModel w impl (.ints l) ls (fun m rows =>
        (Verif.decode m a rows ls).map fun r => (r.1, r.2.map Fin.val)) =
        S.withModel w impl (.ints (inColumn l)) (timesLengths d ls) (fun m rows =>
        (Verif.decode m a rows (timesLengths d ls)).map fun r => (r.1, r.2.map Fin.val)) := by
      intro impl a
      refine hW.withModel w impl hd l ls _ _ fun prior θ => ?_
      rw [decode_agree (splitXLengths_flat hd l ls) fun bs hb b' hb' => wide_agree hd (blocks_nonempty hl h hb b' hb')]
    cases a with
    | viterbi => exact congrArg Py.lift (key .log .viterbi)
    | map =>
      show (match implOf w.implementation with | .error err => _ | .ok impl => _) =
        (match implOf w.implementation with | .error err => _ | .ok impl => _)
      cases implOf w.implementation with
      | error err =>
        dsimp only
        exact congrArg Py.lift (splitXLengths_flat_unit hd _ _ (inColumn_length l) ls err)
      | ok impl => exact congrArg Py.lift (key impl .map)

/-- With an empty sequence and several columns. -/
theorem Widens.raises (hW : Widens d W S) (hd1 : d ≠ 1) (hd : d ≠ 0) {β : Type} (e : Est α G P) (impl : Impl)
    (l : List (Fin d → ℤ)) {ns : List ℤ} (hn : ∀ n ∈ ns, 0 ≤ n) (h0 : 0 ∈ ns)
    (k : {nc : ℕ} → {Obs : Type} → [NeZero nc] → Hmm α nc Obs → List Obs → Except PyErr β)
    (hk : ∀ {nc : ℕ} {Obs : Type} [NeZero nc] (m : Hmm α nc Obs) (rows : List Obs),
      (∀ err, splitXLengths rows (some ns) = .error err → ∃ err', k m rows = .error err') ∧
      ∀ bs b err, splitXLengths rows (some ns) = .ok bs → b ∈ bs → m.computeLikelihood b = .error err →
        m.computeLogLikelihood b = .error err → ∃ err', k m rows = .error err') :
    ∃ err, W.withModel e impl (.ints l) (some ns) k = .error err := by
  have hne : ns ≠ [] := by rintro rfl; cases h0
  have hk' : ∀ {nc nf : ℕ} [NeZero nc] (prior : Categorical.Params α nc nf) (θ : Theta α nc (Categorical.Params α nc nf)),
      ∃ err, k ((Categorical.wideEmission d prior).toHmm impl θ) l = .error err := by
    intro nc nf _ prior θ
    by_cases hs : ns.sum = l.length
    · obtain ⟨bs, h1, -, h3⟩ := C15_split_partition l ns hne hn hs
      rw [← h3] at h0
      obtain ⟨b, hb, hb0⟩ := List.mem_map.mp h0
      have hbn : b = [] := List.length_eq_zero_iff.mp (by exact_mod_cast hb0)
      obtain ⟨err, he⟩ := block_nil hd1
      refine (hk _ l).2 bs b err h1 hb ?_ ?_
      · show (Categorical.block b >>= _) = _
        rw [hbn, he]
        rfl
      · show logRows (Categorical.block b >>= _) = _
        rw [hbn, he]
        rfl
    · obtain ⟨msg, h1⟩ := C15_split_rejects l ns hne hs
      exact (hk _ l).1 _ h1
  exact hW.raised e impl l (some ns) k hk'

theorem Widens.scoreBody_empty (hW : Widens d W S) (hd1 : d ≠ 1) (l : List (Fin d → ℤ)) (ns : List ℤ) (b : Bool)
    (e : Est α G P) (hn : ∀ n ∈ ns, 0 ≤ n) (h0 : 0 ∈ ns) :
    ∃ err, (W.scoreBody (rowsX l) (some ns) b e).1 = .error err := by
  unfold Sub.scoreBody
  rcases checkArray_rows (α := α) l with ⟨err, h1, h2⟩ | ⟨hl, hd, h1, h2⟩
  · rw [h1]
    exact ⟨err, rfl⟩
  · rw [h1]
    show ∃ err, ((Py.lift (implOf e.implementation) >>= fun impl => _ : Py _ _) e).1 = .error err
    cases implOf e.implementation with
    | error err => exact ⟨err, rfl⟩
    | ok impl =>
      show ∃ err, W.withModel e impl (.ints l) (some ns) (fun m rows =>
        (scoreCore m rows (some ns) b).map fun r => (r.1, r.2.map List.ofFn)) = .error err
      refine hW.raises hd1 hd e impl l hn h0 _ fun m rows => ⟨fun err h => ?_, fun bs b' err hs hb h1 h2 => ?_⟩
      · refine ⟨err, ?_⟩
        unfold scoreCore
        rw [h]
        rfl
      · obtain ⟨err', h⟩ := scoreCore_block_error hs hb h1 h2 b
        exact ⟨err', by rw [h]; rfl⟩

theorem Widens.decodeBody_empty (hW : Widens d W S) (hd1 : d ≠ 1) (l : List (Fin d → ℤ)) (ns : List ℤ)
    (alg : Option String) (e : Est α G P) (hn : ∀ n ∈ ns, 0 ≤ n) (h0 : 0 ∈ ns) :
    ∃ err, (W.decodeBody (rowsX l) (some ns) alg e).1 = .error err := by
  unfold Sub.decodeBody
  rcases checkArray_rows (α := α) l with ⟨err, h1, h2⟩ | ⟨hl, hd, h1, h2⟩
  · rw [h1]
    show ∃ err, ((Py.lift (algOf (pyOr alg e.algorithm)) >>= fun impl => _ : Py _ _) e).1 = .error err
    cases algOf (pyOr alg e.algorithm) with
    | error err => exact ⟨err, rfl⟩
    | ok a => exact ⟨err, rfl⟩
  · rw [h1]
    have key : ∀ impl a, ∃ err, W.withModel e impl (.ints l) (some ns) (fun m rows =>
        (Verif.decode m a rows (some ns)).map fun r => (r.1, r.2.map Fin.val)) = .error err := by
      intro impl a
      refine hW.raises hd1 hd e impl l hn h0 _ fun m rows => ⟨fun err h => ?_, fun bs b' err hs hb h1 h2 => ?_⟩
      · refine ⟨err, ?_⟩
        unfold decode
        rw [h]
        rfl
      · obtain ⟨err', h⟩ := decode_block_error hs hb h1 h2 a
        exact ⟨err', by rw [h]; rfl⟩
    show ∃ err, ((Py.lift (algOf (pyOr alg e.algorithm)) >>= fun impl => _ : Py _ _) e).1 = .error err
    cases algOf (pyOr alg e.algorithm) with
    | error err => exact ⟨err, rfl⟩
    | ok a =>
      cases a with
      | viterbi => exact key .log .viterbi
      | map =>
        show ∃ err, ((match implOf e.implementation with | .error err => _ | .ok impl => _ : Py _ _) e).1 = .error err
        cases implOf e.implementation with
        | error err => exact bind_raises _ err
        | ok impl => exact key impl .map

end

/-! ## Training -/

section
variable {nc nf : ℕ} [NeZero nc] {prior : Categorical.Params α nc nf}

theorem estepLoop_wide (hd : d ≠ 0) (cfg : Config α nc) (θ : Theta α nc (Categorical.Params α nc nf))
    (bs : List (List (Fin d → ℤ))) (h : ∀ b ∈ bs, d = 1 ∨ b ≠ []) (st : Stats α nc (Categorical.Params α nc nf)) (lp : α) :
    estepLoop (Categorical.wideEmission d prior) cfg.params cfg.implementation θ bs st lp =
      estepLoop (Categorical.emission prior) cfg.params cfg.implementation θ (bs.map flatRows) st lp := by
  induction bs generalizing st lp with
  | nil => rfl
  | cons b bs ih =>
    have hb := h b (List.mem_cons_self ..)
    have key : estepOne (Categorical.wideEmission d prior) cfg.params cfg.implementation θ st b =
        estepOne (Categorical.emission prior) cfg.params cfg.implementation θ st (flatRows b) := by
      have ha := wide_agree (prior := prior) (impl := cfg.implementation) (θ := θ) hd hb
      have h1 : fitOne ((Categorical.wideEmission d prior).toHmm cfg.implementation θ) b =
          fitOne ((Categorical.emission prior).toHmm cfg.implementation θ) (flatRows b) := by
        unfold fitOne fitLog fitScaling
        rw [ha.lik, ha.loglik]
        rfl
      have h2 : (Categorical.wideEmission d prior).acc cfg.params θ.emission st.em b =
          (Categorical.emission prior).acc cfg.params θ.emission st.em (flatRows b) := by
        funext post
        show (if 'e' ∈ cfg.params then Categorical.block b >>= _ else _) = _
        rw [block_eq hb]
        rfl
      unfold estepOne
      rw [h1, h2]
    simp only [List.map_cons, estepLoop, key]
    cases estepOne (Categorical.emission prior) cfg.params cfg.implementation θ st (flatRows b) with
    | error e => rfl
    | ok r => exact ih (fun b hb => h b (List.mem_cons_of_mem _ hb)) _ _

theorem emStep_wide (hd : d ≠ 0) (cfg : Config α nc) (l : List (Fin d → ℤ)) (hl : l ≠ []) (ns : List ℤ)
    (h : d = 1 ∨ PositiveLengths (some ns)) :
    emStep (Categorical.wideEmission d prior) cfg l ns =
      emStep (Categorical.emission prior) cfg (flatRows l) (ns.map fun n : ℤ => (d : ℤ) * n) := by
  funext θ
  have hs : splitXLengths (flatRows l) (some (ns.map fun n : ℤ => (d : ℤ) * n)) = _ := splitXLengths_flat hd l (some ns)
  unfold emStep doEstep
  rw [hs]
  cases hb : splitXLengths l (some ns) with
  | error e => rfl
  | ok bs =>
    simp only [Except.map, bind, Except.bind]
    rw [estepLoop_wide hd cfg θ bs (blocks_nonempty hl h hb)]
    rfl

theorem fitFrom_wide (hd : d ≠ 0) (cfg : Config α nc) (l : List (Fin d → ℤ)) (hl : l ≠ []) (ls : Option (List ℤ))
    (h : d = 1 ∨ PositiveLengths ls) (θ : Theta α nc (Categorical.Params α nc nf)) (mon : Monitor α) :
    fitFrom (Categorical.wideEmission d prior) cfg l ls θ mon =
      fitFrom (Categorical.emission prior) cfg (flatRows l) (timesLengths d ls) θ mon := by
  unfold fitFrom
  congr 1
  cases ls with
  | some ns => exact emStep_wide hd cfg l hl ns h
  | none =>
    refine (emStep_wide hd cfg l hl [(l.length : ℤ)] (.inr ?_)).trans ?_
    · intro l' h' n hn
      cases h'
      rw [List.mem_singleton.mp hn]
      exact_mod_cast List.length_pos_of_ne_nil hl
    · simp only [timesLengths, Option.map_none, Option.getD_none, List.map_cons, List.map_nil, flatRows_length]
      push_cast
      rfl

end

theorem anyNeg_inColumn (l : List (Fin d → ℤ)) : anyNeg (inColumn l) = anyNeg l := by
  unfold anyNeg inColumn
  rw [List.any_flatten, List.any_map]
  congr 1
  funext r
  simp [List.any_eq, List.mem_ofFn]

theorem foldl_max_start (l : List ℕ) (a : ℕ) : l.foldl max a = max a (l.foldl max 0) := by
  induction l generalizing a with
  | nil => simp
  | cons b l ih =>
    rw [List.foldl_cons, List.foldl_cons, ih (max a b), ih (max 0 b)]
    omega

theorem foldl_max_flatten (ls : List (List ℕ)) : ls.flatten.foldl max 0 = (ls.map fun l => l.foldl max 0).foldl max 0 := by
  induction ls with
  | nil => rfl
  | cons l ls ih =>
    rw [List.flatten_cons, List.foldl_append, List.map_cons, List.foldl_cons, foldl_max_start, ih,
      foldl_max_start _ (max _ _)]
    omega

theorem maxNat_inColumn (l : List (Fin d → ℤ)) : maxNat (inColumn l) = maxNat l := by
  have h1 : maxNat (inColumn l) = ((flatRows l).map Int.toNat).foldl max 0 := by
    rw [← inColumn_map, List.map_map]
    unfold maxNat
    congr 1
  have h2 : maxNat l = ((l.map fun r => (List.ofFn r).map Int.toNat).map fun l => l.foldl max 0).foldl max 0 := by
    rw [List.map_map]
    unfold maxNat
    congr 1
    refine List.map_congr_left fun r _ => ?_
    simp only [Function.comp_apply, List.ofFn_eq_map, List.map_map]
    rfl
  rw [h1, h2, ← foldl_max_flatten]
  unfold flatRows
  rw [List.map_flatten, List.map_map]
  rfl

theorem catCheckFeatures_inColumn {P : Type} (l : List (Fin d → ℤ)) :
    catCheckFeatures (α := α) (G := G) (P := P) (.ints l) = catCheckFeatures (.ints (inColumn l)) := by
  funext e
  unfold catCheckFeatures
  simp only [anyNeg_inColumn, maxNat_inColumn]

theorem init_wide (R : RandomLib α G) (l : List (Fin d → ℤ)) :
    (catWide d).init R (.ints l) = catSub.init R (.ints (inColumn l)) := by
  unfold Sub.init Sub.initBase
  show (onEst (catCheckFeatures (.ints l)) >>= _) >>= _ = (onEst (catCheckFeatures (.ints (inColumn l))) >>= _) >>= _
  rw [catCheckFeatures_inColumn]
  rfl

theorem ready_cases (e : Est α G (CatAttrs α)) :
    ((catWide d).ready e = none ∧ catSub.ready e = none) ∨
    ∃ nf pos θ, (catWide d).ready e = some ⟨nf, pos, θ⟩ ∧ catSub.ready e = some ⟨nf, pos, θ⟩ := by
  unfold Sub.ready
  by_cases h0 : e.nComponents = 0
  · simp only [h0, dite_true]
    exact .inl ⟨trivial, trivial⟩
  · simp only [h0, dite_false]
    cases e.nFeatures with
    | none => exact .inl ⟨rfl, rfl⟩
    | some nf =>
      cases e.startprob with
      | none => exact .inl ⟨rfl, rfl⟩
      | some s =>
        cases hs : asRow e.nComponents s with
        | none =>
          simp only [Option.bind_eq_bind, Option.bind_some, hs, Option.bind_none]
          exact .inl ⟨trivial, trivial⟩
        | some π =>
          cases e.transmat with
          | none =>
            simp only [Option.bind_eq_bind, Option.bind_some, hs, Option.bind_none]
            exact .inl ⟨trivial, trivial⟩
          | some t =>
            cases ht : asMat e.nComponents e.nComponents t with
            | none =>
              simp only [Option.bind_eq_bind, Option.bind_some, hs, ht, Option.bind_none]
              exact .inl ⟨trivial, trivial⟩
            | some A =>
              have hS : (catSub (α := α) (G := G)).read e.sub e.nComponents nf =
                e.sub.emissionprob.bind (asMat e.nComponents nf) := rfl
              have hW : (catWide (α := α) (G := G) d).read e.sub e.nComponents nf =
                e.sub.emissionprob.bind (asMat e.nComponents nf) := rfl
              cases hp : e.sub.emissionprob.bind (asMat e.nComponents nf) with
              | none =>
                simp only [Option.bind_eq_bind, Option.bind_some, hs, ht, hS, hW, hp, Option.bind_none]
                exact .inl ⟨rfl, rfl⟩
              | some p =>
                simp only [Option.bind_eq_bind, Option.bind_some, hs, ht, hS, hW, hp, pure]
                exact .inr ⟨nf, h0, ⟨π, A, p⟩, rfl, rfl⟩

theorem loop_wide (hd : d ≠ 0) (l : List (Fin d → ℤ)) (hl : l ≠ []) (ls : Option (List ℤ))
    (h : d = 1 ∨ PositiveLengths ls) :
    (catWide (α := α) (G := G) d).loop (.ints l) ls = catSub.loop (.ints (inColumn l)) (timesLengths d ls) := by
  funext e0
  unfold Sub.loop Sub.loopFrom
  generalize ({ e0 with monitor := e0.monitor.reset } : Est α G (CatAttrs α)) = e
  by_cases hn : e.nIter = 0
  · rw [if_pos hn, if_pos hn]
  · rw [if_neg hn, if_neg hn]
    cases implOf e.implementation with
    | error err => rfl
    | ok impl =>
      dsimp only
      rcases ready_cases (d := d) e with ⟨h1, h2⟩ | ⟨nf, pos, θ, h1, h2⟩
      · rw [h1, h2]
        exact congrArg (·, e) (splitXLengths_flat_unit hd _ _ (inColumn_length l) ls _)
      · rw [h1, h2]
        dsimp only
        have hr : (catWide (α := α) (G := G) d).rows nf (.ints (α := α) l) = .ok l := wideRows_ints (α := α) l
        have hr' : (catSub (α := α) (G := G)).rows nf (.ints (α := α) (inColumn l)) = .ok (flatRows l) := catRows_inColumn (α := α) l
        haveI : NeZero e.nComponents := ⟨pos⟩
        rw [hr, hr']
        have := fitFrom_wide (prior := fun i k => e.sub.emissionprobPrior i k) hd (e.config impl) l hl ls h θ e.monitor
        dsimp only
        exact congrArg (fun out : FitOutcome α (Theta α e.nComponents (Categorical.Params α e.nComponents nf)) =>
          ((match out.raised with
            | none => .ok ()
            | some err => .error err : Except PyErr Unit), catSub.put e out.state out.monitor)) this

/-! ## The claims -/

theorem catWide_scoreSamples (l : List (Fin d → ℤ)) (ls : Option (List ℤ)) (b : Bool) (h : d = 1 ∨ PositiveLengths ls) :
    (catWide (α := α) (G := G) d).scoreSamples (rowsX l) ls b =
      catSub.scoreSamples (rowsX (inColumn l)) (timesLengths d ls) b := by
  unfold Sub.scoreSamples
  rw [catWide_widens.scoreBody l ls b h]
  rfl

theorem catWide_decode (l : List (Fin d → ℤ)) (ls : Option (List ℤ)) (alg : Option String)
    (h : d = 1 ∨ PositiveLengths ls) :
    (catWide (α := α) (G := G) d).decode (rowsX l) ls alg =
      catSub.decode (rowsX (inColumn l)) (timesLengths d ls) alg := by
  unfold Sub.decode
  rw [catWide_widens.decodeBody l ls alg h]
  rfl

/-- Two steps, the second of which always raises. -/
theorem then_raises {σ β : Type} (x : Py σ Unit) (y : Py σ β) (h : ∀ s, ∃ err, (y s).1 = .error err) (s : σ) :
    ∃ err, ((x >>= fun _ => y) s).1 = .error err := by
  rw [Py.bind_apply]
  rcases x s with ⟨r, s'⟩
  cases r with
  | error e => exact ⟨e, rfl⟩
  | ok _ => exact h s'

/-- Inference of `CategoricalHMM`. -/
theorem C100_categorical (d : ℕ) : ReadsRowByRow (α := α) (G := G) d (catWide d).scoreSamples catSub.scoreSamples
    (catWide d).decode catSub.decode where
  scoreSamples := catWide_scoreSamples
  decode := catWide_decode
  score_empty hd l ns b e hn h0 := then_raises _ _ (fun e => catWide_widens.scoreBody_empty hd l ns b e hn h0) e
  decode_empty hd l ns alg e hn h0 := then_raises _ _ (fun e => catWide_widens.decodeBody_empty hd l ns alg e hn h0) e

/-- Inference of `VariationalCategoricalHMM`. -/
theorem C100_variational (sci : Sci α) (d : ℕ) : ReadsRowByRow (α := α) (G := G) d (vcatWide d sci).scoreSamples
    (vcatSub sci).scoreSamples (vcatWide d sci).decode (vcatSub sci).decode where
  scoreSamples l ls b h := by
    unfold VSub.scoreSamples
    show ((vcatWide d sci).checkFitted >>= fun _ => (vcatWideCore d).scoreBody (rowsX l) ls b) = _
    rw [vcatWide_widens.scoreBody l ls b h]
    rfl
  decode l ls alg h := by
    unfold VSub.decode
    show ((vcatWide d sci).checkFitted >>= fun _ => (vcatWideCore d).decodeBody (rowsX l) ls alg) = _
    rw [vcatWide_widens.decodeBody l ls alg h]
    rfl
  score_empty hd l ns b e hn h0 := then_raises _ _ (fun e => vcatWide_widens.scoreBody_empty hd l ns b e hn h0) e
  decode_empty hd l ns alg e hn h0 := then_raises _ _ (fun e => vcatWide_widens.decodeBody_empty hd l ns alg e hn h0) e

/-- The other methods of `CategoricalHMM`. -/
theorem C100_categorical_training (R : RandomLib α G) (d : ℕ) : TrainsRowByRow (α := α) d (catWide d) catSub R := by
  have hscore : ∀ (l : List (Fin d → ℤ)) ls, d = 1 ∨ PositiveLengths ls →
      (catWide (α := α) (G := G) d).score (rowsX l) ls = catSub.score (rowsX (inColumn l)) (timesLengths d ls) := by
    intro l ls h
    unfold Sub.score
    rw [catWide_scoreSamples l ls false h]
  refine ⟨hscore, ?_, ?_, ?_, ?_, ?_⟩
  · intro l ls h
    unfold Sub.predictProba
    rw [catWide_scoreSamples l ls true h]
  · intro l ls h
    unfold Sub.predict
    rw [catWide_decode l ls none h]
  · intro l ls h
    unfold Sub.fit
    rcases checkArray_rows (α := α) l with ⟨e, h1, h2⟩ | ⟨hl, hd, h1, h2⟩
    · rw [h1, h2]
      rfl
    · rw [h1, h2]
      show ((catWide d).init R (.ints l) >>= fun _ => onEst (catWide d).check >>= fun _ =>
          onEst ((catWide d).loop (.ints l) ls)) =
        (catSub.init R (.ints (inColumn l)) >>= fun _ => onEst catSub.check >>= fun _ =>
          onEst (catSub.loop (.ints (inColumn l)) (timesLengths d ls)))
      rw [loop_wide hd l hl ls h, init_wide]
      rfl
  · intro missing l ls h
    unfold Sub.aic
    rw [hscore l ls h]
    rfl
  · intro missing l ls h e k s e' hk hs
    have hW : (catWide (α := α) (G := G) d).nParams missing e = .ok k := hk
    have hsW := (congrFun (hscore l ls h) e).trans hs
    have hlen : (rowsX (α := α) (inColumn l)).len = l.length * d := by
      show (inColumn l).length = _
      rw [inColumn_length, mul_comm]
    constructor
    · unfold Sub.bic
      simp only [Py.bind_apply, Py.get_apply, Py.lift_apply, hW, hsW]
      rfl
    · unfold Sub.bic
      simp only [Py.bind_apply, Py.get_apply, Py.lift_apply, hk, hs, hlen]
      rfl

/-! ## Training of the variational class -/

theorem split_nonempty {β : Type} {X : List β} {ns : List ℤ} {bs : List (List β)}
    (h : splitXLengths X (some ns) = .ok bs) : bs ≠ [] := by
  simp only [splitXLengths] at h
  cases ns with
  | nil => cases h
  | cons n ns =>
    cases hl : (cumsumInt 0 (n :: ns)).getLast? with
    | none => rw [hl] at h; cases h
    | some last =>
      rw [hl] at h
      dsimp only at h
      split at h
      · cases h
      · cases h
        intro h'
        have := npSplitInit_length X (n :: ns) 0
        rw [h'] at this
        cases this

section
variable {nc nf : ℕ} [NeZero nc] (sci : Sci α) (prior : Fin nc → Fin nf → α)

omit sci prior in
theorem fitOne_error {O : Type} {m : Hmm α nc O} {b : List O} {e : PyErr} (h1 : m.computeLikelihood b = .error e)
    (h2 : m.computeLogLikelihood b = .error e) : fitOne m b = .error e := by
  unfold fitOne fitLog fitScaling
  cases m.implementation with
  | log => simp only [h2]; rfl
  | scaling => simp only [h1]; rfl

/-- The first sequence is refused. -/
theorem step_wide (hd : d ≠ 1) (cfg : Config α nc) (l : List (Fin d → ℤ)) (ns : List ℤ)
    (θ : VTheta α nc (VCategorical.Params α nc nf)) :
    ∃ err, (VCategorical.wideEmission d sci prior).step sci cfg l ns θ = .error err ∧
      (ns ≠ [] → ns.sum = l.length → ∃ msg, err = .valueError msg) := by
  unfold VEmission.step doEstep
  cases hb : splitXLengths l (some ns) with
  | error e =>
    refine ⟨e, rfl, fun hne hs => ?_⟩
    simp only [splitXLengths, cumsumInt_getLast? 0 ns hne, zero_add, hs, ne_eq, not_true, if_false] at hb
    cases hb
  | ok bs =>
    cases bs with
    | nil => exact absurd rfl (split_nonempty hb)
    | cons b bs =>
      have key : ∀ st, estepOne (VCategorical.wideEmission d sci prior).core cfg.params cfg.implementation
          ((VCategorical.wideEmission d sci prior).subnorm sci θ) st b =
          .error (.valueError "cannot select an axis to squeeze out") := by
        intro st
        unfold estepOne
        have h1 : ∀ p (b : List (Fin d → ℤ)), (VCategorical.wideEmission d sci prior).core.lik p b =
          .error (.valueError "cannot select an axis to squeeze out") := fun p b => dif_neg hd
        have h2 : ∀ p (b : List (Fin d → ℤ)), (VCategorical.wideEmission d sci prior).core.loglik p b =
          .error (.valueError "cannot select an axis to squeeze out") := fun p b => dif_neg hd
        have h3 : fitOne ((VCategorical.wideEmission d sci prior).core.toHmm cfg.implementation
            ((VCategorical.wideEmission d sci prior).subnorm sci θ)) b =
            .error (.valueError "cannot select an axis to squeeze out") := fitOne_error (h1 _ b) (h2 _ b)
        rw [h3]
        rfl
      refine ⟨.valueError "cannot select an axis to squeeze out", ?_, fun _ _ => ⟨_, rfl⟩⟩
      simp only [bind, Except.bind, estepLoop, key]

end

theorem keep_row {n : ℕ} (a : Option (NdArray α)) : ((a.bind (asRow n)).map NdArray.d1 <|> a) = a := by
  cases a with
  | none => rfl
  | some a =>
    cases h : asRow n a with
    | none => simp [h]
    | some v =>
      rw [Option.bind_some, h, asRow_inv h]
      rfl

theorem keep_mat {m n : ℕ} (a : Option (NdArray α)) : ((a.bind (asMat m n)).map NdArray.d2 <|> a) = a := by
  cases a with
  | none => rfl
  | some a =>
    cases h : asMat m n a with
    | none => simp [h]
    | some v =>
      rw [Option.bind_some, h, asMat_inv h]
      rfl

/-- What was read is put back. -/
theorem put_read (sci : Sci α) (e : VEst α G (VCatAttrs α)) (r : VReady (vcatWide d sci) e)
    (h : (vcatWide d sci).ready e = some r) (mon : Monitor α) :
    (vcatWide d sci).put e r.θ mon = { e with monitor := mon } := by
  unfold VSub.ready at h
  by_cases h0 : e.nComponents = 0
  · rw [dif_pos h0] at h
    cases h
  · rw [dif_neg h0] at h
    cases hf : e.nFeatures with
    | none => rw [hf] at h; cases h
    | some nf =>
      rw [hf] at h
      simp only [Option.bind_eq_bind] at h
      obtain ⟨sp, -, h⟩ := Option.bind_eq_some_iff.mp h
      obtain ⟨tp, -, h⟩ := Option.bind_eq_some_iff.mp h
      obtain ⟨s, hs, h⟩ := Option.bind_eq_some_iff.mp h
      obtain ⟨t, ht, h⟩ := Option.bind_eq_some_iff.mp h
      obtain ⟨pr, -, h⟩ := Option.bind_eq_some_iff.mp h
      obtain ⟨q, hq, h⟩ := Option.bind_eq_some_iff.mp h
      obtain ⟨s', hs', hs⟩ := Option.bind_eq_some_iff.mp hs
      obtain ⟨t', ht', ht⟩ := Option.bind_eq_some_iff.mp ht
      change (e.sub.sub.emPost.bind (asMat e.nComponents nf) >>= fun post =>
        (pure ⟨post, e.sub.sub.emissionprob.bind (asMat e.nComponents nf)⟩ : Option _)) = some q at hq
      obtain ⟨p, hp, hq⟩ := Option.bind_eq_some_iff.mp hq
      obtain ⟨p', hp', hp⟩ := Option.bind_eq_some_iff.mp hp
      cases hq
      cases h
      rw [asRow_inv hs] at hs'
      rw [asMat_inv ht] at ht'
      rw [asMat_inv hp] at hp'
      show ({ e with
        startprob := (e.startprob.bind (asRow e.nComponents)).map NdArray.d1 <|> e.startprob
        transmat := (e.transmat.bind (asMat e.nComponents e.nComponents)).map NdArray.d2 <|> e.transmat
        sub := { chain := { e.sub.chain with startPost := some (.d1 s), transPost := some (.d2 t) }
                 sub := { e.sub.sub with
                   emPost := some (.d2 p)
                   emissionprob := (e.sub.sub.emissionprob.bind (asMat e.nComponents nf)).map NdArray.d2 <|>
                     e.sub.sub.emissionprob } }
        monitor := mon } : VEst α G (VCatAttrs α)) = _
      rw [keep_row, keep_mat, keep_mat, ← hs', ← ht', ← hp', ← hf]

theorem vfitLoop_error {nc : ℕ} {VP : Type} {step : VTheta α nc VP → Except PyErr (VTheta α nc VP × α)} {n : ℕ}
    (hn : n ≠ 0) {θ : VTheta α nc VP} {err : PyErr} (h : step θ = .error err) (mon : Monitor α) :
    vfitLoop step n θ mon = ⟨θ, mon, some err⟩ := by
  obtain ⟨k, rfl⟩ := Nat.exists_eq_succ_of_ne_zero hn
  simp only [vfitLoop, h]

theorem C100_variational_training (sci : Sci α) (R : RandomLib α G) {d : ℕ} (hd : 1 < d) :
    WideFitRaises d (vcatWide (α := α) (G := G) d sci) R := by
  constructor
  intro l ls w w1 e hl hi hk hn
  have hX : checkArray (rowsX (α := α) l) = .ok (.ints l) := by
    rcases checkArray_rows (α := α) l with ⟨err, h1, -⟩ | ⟨-, -, h1, -⟩
    · have : ¬ (l.length = 0 ∨ d = 0) := by
        rintro (h | h)
        · exact hl (List.length_eq_zero_iff.mp h)
        · omega
      exact absurd (h1.symm.trans (if_neg this)) (by simp)
    · exact h1
  have hfit : (vcatWide d sci).fit R (rowsX l) ls w =
      (((vcatWide d sci).loop (.ints l) ls e).1, ⟨((vcatWide d sci).loop (.ints l) ls e).2, w1.glob⟩) := by
    unfold VSub.fit
    rw [hX]
    have h1 : onEst (vcatWide d sci).check w1 = (.ok (), ⟨e, w1.glob⟩) := by
      unfold onEst
      rw [hk]
    show ((vcatWide d sci).init R (.ints l) (ls.getD [(l.length : ℤ)]) >>= fun _ => onEst (vcatWide d sci).check >>=
      fun _ => onEst ((vcatWide d sci).loop (.ints l) ls)) w = _
    exact (Py.bind_ok hi).trans ((Py.bind_ok h1).trans rfl)
  rw [hfit]
  have hloop : ∃ err, (vcatWide d sci).loop (.ints l) ls e = (.error err, { e with monitor := e.monitor.reset }) ∧
      (e.implementation = "log" ∨ e.implementation = "scaling" → (∀ ns, ls = some ns → ns ≠ [] ∧ ns.sum = l.length) →
        ((vcatWide d sci).ready e).isSome → ∃ msg, err = .valueError msg) := by
    unfold VSub.loop
    rw [if_neg hn]
    cases himpl : implOf e.implementation with
    | error err =>
      refine ⟨err, rfl, fun h _ _ => ?_⟩
      rcases h with h | h <;> rw [h] at himpl <;> cases himpl
    | ok impl =>
      cases hr : (vcatWide d sci).ready e with
      | none => exact ⟨_, rfl, fun _ _ h => by cases h⟩
      | some r =>
        have hrows : (vcatWide (α := α) (G := G) d sci).core.rows r.nf (.ints (α := α) l) = .ok l := wideRows_ints (α := α) l
        haveI : NeZero e.nComponents := ⟨r.pos⟩
        obtain ⟨err, hs, hv⟩ := step_wide sci r.prior (by omega : d ≠ 1)
          ⟨r.startPrior, r.transPrior, e.params, impl, e.nIter⟩ l (ls.getD [(l.length : ℤ)]) r.θ
        have hfit : ((vcatWide (α := α) (G := G) d sci).emission r.prior).fitFrom sci
            ⟨r.startPrior, r.transPrior, e.params, impl, e.nIter⟩ l ls r.θ e.monitor = ⟨r.θ, e.monitor.reset, some err⟩ :=
          vfitLoop_error hn hs _
        refine ⟨err, ?_, fun _ hls _ => hv ?_ ?_⟩
        · simp only [hrows]
          exact (congrArg (fun out : FitOutcome α (VTheta α e.nComponents (VCategorical.Params α e.nComponents r.nf)) =>
            ((match out.raised with
              | none => .ok ()
              | some err => .error err : Except PyErr Unit), (vcatWide d sci).put e out.state out.monitor)) hfit).trans
            (congrArg (Prod.mk _) (put_read sci e r hr _))
        · cases ls with
          | none => simp
          | some ns => exact (hls ns rfl).1
        · cases ls with
          | none => simp
          | some ns => exact (hls ns rfl).2
  obtain ⟨err, h1, h2⟩ := hloop
  rw [h1]
  exact ⟨err, rfl, h2⟩

/-- **C100** With one column the emission code of `VariationalCategoricalHMM` is that of the class for symbols: densities
and statistics. -/
theorem C100_variational_one_column {α : Type} [FloatLike α] {nc nf : ℕ} (sci : Sci α) (prior : Fin nc → Fin nf → α)
    (params : List Char) (e st : Categorical.Params α nc nf) (X : List (Fin 1 → ℤ)) (post : List (Row α nc)) :
    (VCategorical.wideEmission 1 sci prior).core.acc params e st X post =
      (VCategorical.emission sci prior).core.acc params e st (X.map fun r => r 0) post ∧
    (VCategorical.wideEmission 1 sci prior).core.lik e X = (VCategorical.emission sci prior).core.lik e (X.map fun r => r 0) ∧
    (VCategorical.wideEmission 1 sci prior).core.loglik e X = (VCategorical.emission sci prior).core.loglik e (X.map fun r => r 0) := by
  refine ⟨?_, rfl, rfl⟩
  have hb : Categorical.block X = .ok (X.map fun r => r 0) := by
    rw [block_eq (.inl rfl)]
    congr 1
    induction X with
    | nil => rfl
    | cons r l ih => rw [flatRows_cons, ih]; simp
  show (if 'e' ∈ params then (do
      let s ← Categorical.block X
      Categorical.addAt st s post) else .ok st) = (if 'e' ∈ params then Categorical.addAt st (X.map fun r => r 0) post else .ok st)
  rw [hb]
  rfl

/-- Two rows of three symbols, one sequence each: six symbols in two sequences of three. -/
example : inColumn [![0, 2, 1], ![1, 1, 0]] = [![0], ![2], ![1], ![1], ![1], ![0]] ∧
    timesLengths 3 (some [1, 1]) = some [3, 3] ∧ PositiveLengths (some [1, 1]) := by
  refine ⟨?_, rfl, ?_⟩
  · have : ∀ x : ℤ, (fun _ : Fin 1 => x) = ![x] := fun x => by funext i; fin_cases i; rfl
    simp [inColumn, List.ofFn_succ, this]
  · intro l h n hn
    cases h
    simp at hn
    omega

end Verif
