import Verif.Proofs.Continue
import Verif.Props.SampleScore
import Mathlib.Data.Fintype.Pigeonhole

/-!
# C103: continuing a sample
-/

set_option autoImplicit false

namespace Verif
open FloatLike XF MeasureTheory Spec
open scoped ENNReal

section any
variable {α G P : Type} [FloatLike α] {S : Sub α G P} {R : RandomLib α G}

theorem sampleTwice_cases {n m : Int} {w w' : World α G P} {a b : Sampled S} (h : sampleTwice S R n m w = (.ok (a, b), w')) :
    ∃ w1, S.sample R n none none w = (.ok a, w1) ∧ S.sample R m none a.1.getLast? w1 = (.ok b, w') := by
  obtain ⟨a', w1, h1, h2⟩ := Py.bind_ok_cases h
  obtain ⟨b', w2, h3, h4⟩ := Py.bind_ok_cases h2
  cases h4
  exact ⟨w1, h1, h3⟩

/-- **C103** The second sample repeats the last state of the first one. -/
theorem C103_repeats (hS : S.Lawful) (n m : Int) (w w' : World α G P) (a b : Sampled S)
    (h : sampleTwice S R n m w = (.ok (a, b), w')) :
    ∃ l z r, a.1 = l ++ [z] ∧ b.1 = z :: r ∧ z < w.est.nComponents ∧ (r.length : Int) = max m 1 - 1 := by
  obtain ⟨w1, h1, h2⟩ := sampleTwice_cases h
  obtain ⟨⟨l1, -, s1, -⟩, -⟩ := C36_sample hS n none none w w1 h1
  obtain ⟨⟨l2, -, -, hd⟩, -⟩ := C36_sample hS m none _ w1 w' h2
  have hne : a.1 ≠ [] := by
    intro h0
    rw [h0] at l1
    simp at l1
    omega
  have hl : a.1.getLast? = some (a.1.getLast hne) := List.getLast?_eq_getLast_of_ne_nil hne
  have hb := hd _ hl
  cases hb' : b.1 with
  | nil => rw [hb'] at hb; cases hb
  | cons z r =>
    rw [hb'] at hb l2
    cases hb
    refine ⟨a.1.dropLast, _, r, (List.dropLast_append_getLast hne).symm, rfl, s1 _ (List.getLast_mem hne), ?_⟩
    simp only [List.length_cons] at l2
    push_cast at l2
    omega

/-- **C103** Concatenating the two state sequences yields an impossible step if the chain never stays in a state. -/
theorem C103_concatenated (hS : S.Lawful) (n m : Int) (w w' : World α G P) (a b : Sampled S)
    (h : sampleTwice S R n m w = (.ok (a, b), w')) (A : Fin w.est.nComponents → Fin w.est.nComponents → ℝ) (hA : ∀ i, A i i = 0) :
    ImpossibleStep A (a.1 ++ b.1) := by
  obtain ⟨l, z, r, h1, h2, h3, -⟩ := C103_repeats hS n m w w' a b h
  exact ⟨l, r, ⟨z, h3⟩, ⟨z, h3⟩, by rw [h1, h2]; simp, hA _⟩

/-- A call on an object with an integer seed. -/
theorem sample_seeded_world {k : ℕ} {n : Int} {c : Option ℕ} {w w' : World α G P} {o : Sampled S} (hS : S.Lawful)
    (hk : w.est.randomState = .seed k) (h : S.sample R n none c w = (.ok o, w')) :
    w' = { w with est := (S.checkFitted w.est).2 } := by
  unfold Sub.sample Sub.sampleBody at h
  obtain ⟨u, w1, h1, h2⟩ := Py.bind_ok_cases h
  have e1 : w1 = { w with est := (S.checkFitted w.est).2 } := (congrArg Prod.snd h1).symm
  obtain ⟨w2, w3, h3, h4⟩ := Py.bind_ok_cases h2
  cases h3
  have hk1 : w1.est.randomState = .seed k := by rw [e1, hS.fitted_frame]; exact hk
  obtain ⟨o', w4, h5, h6⟩ := Py.bind_ok_cases h4
  have h5 := congrArg Prod.snd h5
  simp only [withSelfGen, hk1] at h5
  have h6 := congrArg Prod.snd h6
  rw [← e1, h5]
  exact h6.symm

/-- **C103** With an integer `random_state` continuing is periodic: after at most `n_components` samples they repeat. -/
theorem C103_seeded (hS : S.Lawful) (n : Int) (w : ℕ → World α G P) (b : ℕ → Sampled S) {k : ℕ}
    (hk : (w 0).est.randomState = .seed k) (h : Chained S R n w b) :
    ∃ i j, i < j ∧ j ≤ (w 0).est.nComponents ∧ ∀ t, b (i + 1 + t) = b (j + 1 + t) := by
  have hw1 : w 1 = { w 0 with est := (S.checkFitted (w 0).est).2 } := sample_seeded_world hS hk h.first
  have hk1 : (w 1).est.randomState = .seed k := by rw [hw1]; dsimp only; rw [hS.fitted_frame]; exact hk
  have hn1 : (w 1).est.nComponents = (w 0).est.nComponents := by rw [hw1]; dsimp only; rw [hS.fitted_frame]
  have hw : ∀ i, w (i + 1) = w 1 := by
    intro i
    induction i with
    | zero => rfl
    | succ i ih =>
      have := sample_seeded_world hS (by rw [ih]; exact hk1) (h.next i)
      rw [this, ih, hw1]
      dsimp only
      rw [hS.fitted_idem]
  have hlast : ∀ i, ∃ z : Fin (w 0).est.nComponents, (b i).1.getLast? = some z.val := by
    intro i
    have key : ∃ (c : Option ℕ) (v v' : World α G P), S.sample R n none c v = (.ok (b i), v') ∧ v.est.nComponents = (w 0).est.nComponents := by
      cases i with
      | zero => exact ⟨_, _, _, h.first, rfl⟩
      | succ i => exact ⟨_, _, _, h.next i, by rw [hw i, hn1]⟩
    obtain ⟨c, v, v', h1, h2⟩ := key
    obtain ⟨⟨l1, -, s1, -⟩, -⟩ := C36_sample hS n none c v v' h1
    have hne : (b i).1 ≠ [] := by
      intro h0
      rw [h0] at l1
      simp at l1
      omega
    exact ⟨⟨(b i).1.getLast hne, h2 ▸ s1 _ (List.getLast_mem hne)⟩, List.getLast?_eq_getLast_of_ne_nil hne⟩
  choose f hf using hlast
  obtain ⟨i, j, hij, he⟩ := Fintype.exists_ne_map_eq_of_card_lt (fun i : Fin ((w 0).est.nComponents + 1) => f i.val) (by simp)
  have step : ∀ i j : ℕ, (b i).1.getLast? = (b j).1.getLast? → b (i + 1) = b (j + 1) := by
    intro i j he
    have h1 := h.next i
    have h2 := h.next j
    rw [hw] at h1 h2
    rw [he, h2] at h1
    exact (Except.ok.inj (congrArg Prod.fst h1)).symm
  have main : ∀ i j : ℕ, f i = f j → ∀ t, b (i + 1 + t) = b (j + 1 + t) := by
    intro i j he t
    induction t with
    | zero => exact step i j (by rw [hf, hf, he])
    | succ t ih => exact step (i + 1 + t) (j + 1 + t) (by rw [ih])
  rcases lt_or_gt_of_ne (fun e => hij (Fin.ext e) : i.val ≠ j.val) with hlt | hlt
  · exact ⟨i, j, hlt, Nat.lt_succ_iff.1 j.isLt, main _ _ he⟩
  · exact ⟨j, i, hlt, Nat.lt_succ_iff.1 i.isLt, main _ _ he.symm⟩

end any

section law
variable {G Q : Type} [MeasurableSpace G] {P : Measure G} [IsProbabilityMeasure P]

/-- `sample` on an object with the global generator, and what it leaves. -/
theorem sample_global_run {S : Sub XF G Q} {R : RandomLib XF G} {e e' : Est XF G Q} (hc : S.checkFitted e = (.ok (), e'))
    (hrs : e'.randomState = .none) (n : Int) (c : Option ℕ) (g : G) :
    S.sample R n none c ⟨e, g⟩ = ((S.sampleFrom R e' n c g).1, ⟨e', (S.sampleFrom R e' n c g).2⟩) := by
  simp only [Sub.sample, Sub.sampleBody, onEst, Py.bind_apply, hc, Py.get_apply, withSelfGen, hrs, Py.lift_apply]

theorem sampleWith_run {S : Sub XF G Q} {R : RandomLib XF G} {p : Q} {nc nf : ℕ} [NeZero nc] {θ : Theta XF nc (S.Params nc nf)}
    {n : Int} {c : Option (Fin nc)} {g g' : G} {Z : List ℕ} {X : List (S.Obs nf)} :
    S.sampleWith R p θ n c g = (.ok (Z, ⟨nf, X⟩), g') ↔
      ∃ l, sampleCore R θ.startprob θ.transmat (S.sampleSub R p θ.emission) n c g = (.ok l, g') ∧
        Z = l.map (fun p => p.1.val) ∧ X = l.map Prod.snd := by
  unfold Sub.sampleWith
  cases sampleCore R θ.startprob θ.transmat (S.sampleSub R p θ.emission) n c g with
  | mk o g1 =>
    cases o with
    | error err => simp
    | ok l =>
      simp only [Prod.mk.injEq, Except.ok.injEq, Sigma.mk.injEq, heq_eq_eq, true_and]
      constructor
      · rintro ⟨⟨rfl, rfl⟩, rfl⟩
        exact ⟨l, ⟨rfl, rfl⟩, rfl, rfl⟩
      · rintro ⟨l', ⟨rfl, rfl⟩, rfl, rfl⟩
        exact ⟨⟨rfl, rfl⟩, rfl⟩

/-- **C103** The second sample without its first element continues the first one: together they have the law of the
longer sample, for any class whose emission hook draws from `ν`. -/
theorem C103_longer {S : Sub XF G Q} (hS : S.Lawful) {R : RandomLib XF G} {u : G → ℝ} {nx : G → G} {e : Est XF G Q}
    {π : Fin e.nComponents → ℝ} {A : Fin e.nComponents → Fin e.nComponents → ℝ} (hchain : HoldsChain e π A)
    (hx : Exact e π A)
    {nf : ℕ} {p : Q} (hc : S.checkSub e = (.ok (), { e with nFeatures := some nf, sub := p }))
    {θ : S.Params e.nComponents nf} (hr : S.read p e.nComponents nf = some θ) [MeasurableSpace (S.Obs nf)]
    {xo : Fin e.nComponents → G → S.Obs nf} {gx : Fin e.nComponents → G → G} {ν : Fin e.nComponents → Measure (S.Obs nf)}
    (h : IdealSampler P R (S.sampleSub R p θ) u nx xo gx ν) : Continues P S R e nf := by
  intro n m z B hB
  haveI : NeZero e.nComponents := ⟨nc_pos hchain.π_sum⟩
  have hk := hchain.fitted.trans hc
  have hready := Sub.ready_of (S := S) (e := { e with nFeatures := some nf, sub := p }) (nc_pos hchain.π_sum) rfl
    hchain.startprob hchain.transmat hr
  have hk' : S.checkFitted { e with nFeatures := some nf, sub := p } = (.ok (), { e with nFeatures := some nf, sub := p }) := by
    have := hS.fitted_idem e
    rw [hk] at this
    exact this
  let Th : Theta XF e.nComponents (S.Params e.nComponents nf) := ⟨fun i => fin (π i), fun i j => fin (A i j), θ⟩
  have from_none : ∀ (n : Int) (g : G), S.sampleFrom R { e with nFeatures := some nf, sub := p } n none g =
      S.sampleWith R p Th n none g := by
    intro n g
    rw [Sub.sampleFrom, hready]
  have from_some : ∀ (n : Int) (c : Fin e.nComponents) (g : G), S.sampleFrom R { e with nFeatures := some nf, sub := p } n (some c.val) g =
      S.sampleWith R p Th n (some c) g := by
    intro n c g
    rw [Sub.sampleFrom, hready]
    exact dif_pos c.isLt
  have h2 := two_calls (z := z) h hchain.π_nonneg hx.π_sum hchain.A_nonneg hx.A_sum hB n m
  refine (congrArg P ?_).trans (h2.trans (congrArg P ?_))
  · ext g
    simp only [Set.mem_ofPred_eq]
    constructor
    · rintro ⟨Z, X, Z', X', w', h3, h4⟩
      obtain ⟨w1, h5, h6⟩ := sampleTwice_cases h3
      have hlen := C36_sample hS _ none none _ _ h5
      rw [sample_global_run hk hx.global, from_none] at h5
      generalize hs : S.sampleWith R p Th (n + 1) none g = r at h5
      obtain ⟨o, g1⟩ := r
      cases h5
      obtain ⟨l, hl, rfl, rfl⟩ := sampleWith_run.1 hs
      rw [follows_append _ _ (by simp)] at h4
      have hl1 : (l.map fun p => p.1.val).length = n + 1 := by
        have := hlen.1.1
        have : ((l.map fun p => p.1.val).length : Int) = max ((n : Int) + 1) 1 := this
        omega
      have h0 : (l.map fun p => p.1.val) ≠ [] := fun h => by rw [h] at hl1; simp at hl1
      have hlast := follows_last _ _ _ h4.1 h0
      rw [hl1] at hlast h4
      simp only [Nat.zero_add, Nat.add_sub_cancel] at hlast h4
      refine ⟨l, g1, hl, h4.1, ?_⟩
      have h6 : S.sample R (m + 1) none (l.map fun p => p.1.val).getLast? ⟨{ e with nFeatures := some nf, sub := p }, g1⟩ = _ := h6
      rw [hlast, sample_global_run hk' hx.global, from_some] at h6
      generalize hs' : S.sampleWith R p Th (m + 1) (some (z n)) g1 = r' at h6
      obtain ⟨o', g2⟩ := r'
      cases h6
      obtain ⟨l', hl', rfl, rfl⟩ := sampleWith_run.1 hs'
      exact ⟨l', g2, hl', h4.2⟩
    · rintro ⟨l, g1, hl, h4, l', g2, hl', h5⟩
      have hl1 : (l.map fun p => p.1.val).length = n + 1 := by
        have := (sampleCore_length _ _ _ hl).1
        rw [List.length_map]
        omega
      have h0 : (l.map fun p => p.1.val) ≠ [] := fun h => by rw [h] at hl1; simp at hl1
      have hlast := follows_last _ _ _ h4 h0
      rw [hl1] at hlast
      simp only [Nat.zero_add, Nat.add_sub_cancel] at hlast
      refine ⟨_, _, l'.map fun p => p.1.val, l'.map Prod.snd, ⟨{ e with nFeatures := some nf, sub := p }, g2⟩, ?_,
        (follows_append _ _ (by simp) _ _ _).2 ⟨h4, ?_⟩⟩
      · have c1 : S.sample R (n + 1) none none ⟨e, g⟩ = (.ok (l.map (fun p => p.1.val), ⟨nf, l.map Prod.snd⟩),
            ⟨{ e with nFeatures := some nf, sub := p }, g1⟩) := by
          rw [sample_global_run hk hx.global, from_none, (sampleWith_run (θ := Th)).2 ⟨l, hl, rfl, rfl⟩]
        have c2 : S.sample R (m + 1) none (l.map fun p => p.1.val).getLast? ⟨{ e with nFeatures := some nf, sub := p }, g1⟩ =
            (.ok (l'.map (fun p => p.1.val), ⟨nf, l'.map Prod.snd⟩), ⟨{ e with nFeatures := some nf, sub := p }, g2⟩) := by
          rw [hlast, sample_global_run hk' hx.global, from_some, (sampleWith_run (θ := Th)).2 ⟨l', hl', rfl, rfl⟩]
        exact (Py.bind_ok c1).trans ((Py.bind_ok c2).trans rfl)
      · rw [hl1, Nat.zero_add]
        exact h5
  · ext g
    simp only [Set.mem_ofPred_eq]
    constructor
    · rintro ⟨l, g1, hl, h4, -⟩
      refine ⟨_, _, ⟨{ e with nFeatures := some nf, sub := p }, g1⟩, ?_, h4⟩
      rw [sample_global_run hk hx.global, from_none, (sampleWith_run (θ := Th)).2 ⟨l, by push_cast at hl; exact hl, rfl, rfl⟩]
    · rintro ⟨Z, X, w', h5, h6⟩
      rw [sample_global_run hk hx.global, from_none] at h5
      generalize hs : S.sampleWith R p Th (n + m + 1) none g = r at h5
      obtain ⟨o, g1⟩ := r
      cases h5
      obtain ⟨l, hl, rfl, rfl⟩ := sampleWith_run.1 hs
      exact ⟨l, g1, by push_cast; exact hl, h6, trivial⟩

end law

end Verif
