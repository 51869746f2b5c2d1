import Verif.Proofs.IntWidth
import Verif.Props.IntData
import Verif.Props.Symbols

/-!
# C105: integer arrays whose squares do not fit into their type
-/
set_option autoImplicit false

namespace Verif
open FloatLike XF Hmmc Spec Gaussian
open scoped Classical

/-! ## Arithmetic of the integer types -/

/-- **C105** Arithmetic in an integer type gives the number of the type that differs from the exact result by a
multiple of `2 ^ bits`. -/
theorem C105_wrap (ty : IntType) (z r : ℤ) : ty.wrap z = r ↔ InType ty r ∧ (2 : ℤ) ^ ty.bits ∣ z - r := by
  have hpos : ∀ b : ℕ, (0 : ℤ) < 2 ^ b := fun b => by positivity
  have key : InType ty (ty.wrap z) ∧ (2 : ℤ) ^ ty.bits ∣ z - ty.wrap z := by
    cases ty with
    | signed b =>
      have hc : ((2 ^ b : ℕ) : ℤ) = 2 ^ b := by push_cast; rfl
      have h0 := hpos b
      have h1 := Int.emod_nonneg z h0.ne'
      have h2 := Int.emod_lt_of_pos z h0
      have h3 : (2 : ℤ) ^ b ∣ z - z % 2 ^ b := Int.dvd_self_sub_emod
      show InType (.signed b) (z.bmod (2 ^ b)) ∧ (2 : ℤ) ^ b ∣ z - z.bmod (2 ^ b)
      rw [Int.bmod_def, hc]
      split
      · exact ⟨⟨by omega, by omega⟩, h3⟩
      · refine ⟨⟨by omega, by omega⟩, ?_⟩
        have : z - (z % 2 ^ b - 2 ^ b) = z - z % 2 ^ b + 2 ^ b := by ring
        rw [this]
        exact dvd_add h3 dvd_rfl
    | unsigned b =>
      exact ⟨⟨Int.emod_nonneg z (hpos b).ne', Int.emod_lt_of_pos z (hpos b)⟩, Int.dvd_self_sub_emod⟩
  refine ⟨fun h => h ▸ key, fun ⟨h1, h2⟩ => ?_⟩
  have h3 : (2 : ℤ) ^ ty.bits ∣ ty.wrap z - r := by
    have := dvd_sub h2 key.2
    rwa [sub_sub_sub_cancel_left] at this
  have h4 := key.1
  have h5 : |ty.wrap z - r| < 2 ^ ty.bits := by
    cases ty with
    | signed b =>
      obtain ⟨a1, a2⟩ := h1
      obtain ⟨b1, b2⟩ := h4
      show _ < (2 : ℤ) ^ b
      rw [abs_lt]
      constructor <;> omega
    | unsigned b =>
      obtain ⟨a1, a2⟩ := h1
      obtain ⟨b1, b2⟩ := h4
      show _ < (2 : ℤ) ^ b
      rw [abs_lt]
      constructor <;> omega
  have := Int.eq_zero_of_abs_lt_dvd h3 h5
  omega

/-! ## Squares that fit -/

section map
variable {α : Type} [FloatLike α] {nc : ℕ} [NeZero nc] {Obs Obs' P S : Type}

/-- `E'` does with samples of `X` what `E` does with their images. -/
structure Reads (E' : Emission α nc Obs' P S) (E : Emission α nc Obs P S) (f : Obs' → Obs) (X : List Obs') : Prop where
  lik : ∀ p Y, E'.lik p Y = E.lik p (Y.map f)
  loglik : ∀ p Y, E'.loglik p Y = E.loglik p (Y.map f)
  zero : ∀ ps p, E'.zero ps p = E.zero ps p
  acc : ∀ ps p st Y post, (∀ y ∈ Y, y ∈ X) → E'.acc ps p st Y post = E.acc ps p st (Y.map f) post
  mstep : ∀ ps p st, E'.mstep ps p st = E.mstep ps p st

variable {E' : Emission α nc Obs' P S} {E : Emission α nc Obs P S} {f : Obs' → Obs} {X : List Obs'}

theorem Reads.estepLoop_eq (h : Reads E' E f X) (ps : List Char) (impl : Impl) (θ : Theta α nc P) (bs : List (List Obs'))
    (hb : ∀ b ∈ bs, ∀ y ∈ b, y ∈ X) (st : Stats α nc S) (lp : α) :
    estepLoop E' ps impl θ bs st lp = estepLoop E ps impl θ (bs.map (List.map f)) st lp := by
  induction bs generalizing st lp with
  | nil => rfl
  | cons b bs ih =>
    have h1 : fitOne (E'.toHmm impl θ) b = fitOne (E.toHmm impl θ) (b.map f) := by
      cases impl with
      | log => simp only [fitOne, fitLog, Emission.toHmm, h.loglik]
      | scaling => simp only [fitOne, fitScaling, Emission.toHmm, h.lik]
    have h2 : estepOne E' ps impl θ st b = estepOne E ps impl θ st (b.map f) := by
      unfold estepOne
      rw [h1]
      simp only [h.acc _ _ _ b _ (hb b (by simp))]
    rw [List.map_cons]
    unfold estepLoop
    rw [h2]
    cases estepOne E ps impl θ st (b.map f) with
    | error e => rfl
    | ok r => exact ih (fun b' hb' => hb b' (by simp [hb'])) _ _

theorem Reads.emStep_eq (h : Reads E' E f X) (cfg : Config α nc) (ls : List ℤ) (θ : Theta α nc P) :
    emStep E' cfg X ls θ = emStep E cfg (X.map f) ls θ := by
  have h1 : doEstep E' cfg θ X ls = doEstep E cfg θ (X.map f) ls := by
    unfold doEstep
    rw [splitXLengths_map]
    cases hs : splitXLengths X (some ls) with
    | error e => rfl
    | ok bs =>
      show estepLoop E' _ _ θ bs _ _ = estepLoop E _ _ θ (bs.map (List.map f)) _ _
      rw [h.zero]
      exact h.estepLoop_eq _ _ _ bs (splitXLengths_sub hs) _ _
  unfold emStep
  rw [h1]
  unfold doMstep
  simp only [h.mstep]

theorem Reads.fitFrom_eq (h : Reads E' E f X) (cfg : Config α nc) (ls : Option (List ℤ)) (θ : Theta α nc P) (mon : Monitor α) :
    fitFrom E' cfg X ls θ mon = fitFrom E cfg (X.map f) ls θ mon := by
  unfold fitFrom
  rw [List.length_map, show emStep E' cfg X _ = _ from funext (h.emStep_eq cfg (ls.getD [(X.length : ℤ)]))]

end map

theorem dotPost_map {nc : ℕ} {Obs Obs' : Type} (f : Obs' → Obs) (φ : Obs → XF) (ψ : Obs' → XF) (post : List (Row XF nc)) (Y : List Obs')
    (h : ∀ y ∈ Y, ψ y = φ (f y)) (i : Fin nc) : dotPost post Y ψ i = dotPost post (Y.map f) φ i := by
  unfold dotPost
  congr 1
  rw [List.zipWith_map_right]
  induction Y generalizing post with
  | nil => cases post <;> rfl
  | cons y Y ih =>
    cases post with
    | nil => rfl
    | cons r post =>
      rw [List.zipWith_cons_cons, List.zipWith_cons_cons, h y (by simp), ih _ fun y' hy' => h y' (by simp [hy'])]

theorem accDiagInts_eq {nc nf : ℕ} (ty : IntType) {X : List (Fin nf → ℤ)} (hX : SquaresIn ty X) (ps : List Char)
    (st : DiagStats XF nc nf) (Y : List (Fin nf → ℤ)) (post : List (Row XF nc)) (hY : ∀ y ∈ Y, y ∈ X) :
    accDiagInts ty ps st Y post = accDiag ps st (Y.map floatRow) post := by
  unfold accDiagInts accDiag
  have h1 : ∀ i k, dotPost post Y (fun x : Fin nf → ℤ => (ofInt' (x k) : XF)) i =
      dotPost post (Y.map floatRow) (fun x : Gaussian.Obs XF nf => x k) i :=
    fun i k => dotPost_map floatRow (fun x : Gaussian.Obs XF nf => x k) (fun x => ofInt' (x k)) post Y (fun y _ => rfl) i
  have h2 : ∀ i k, dotPost post Y (fun x : Fin nf → ℤ => (ofInt' (ty.wrap (x k * x k)) : XF)) i =
      dotPost post (Y.map floatRow) (fun x : Gaussian.Obs XF nf => sq (x k)) i := by
    refine fun i k => dotPost_map floatRow _ _ _ _ (fun y hy => ?_) i
    have hw : ty.wrap (y k * y k) = y k * y k := (C105_wrap ty _ _).2 ⟨hX y (hY y hy) k, by simp⟩
    rw [hw]
    show _ = Gaussian.sq (ofInt' (y k))
    rw [ofInt'_def, ofInt'_def, sq_fin]
    push_cast
    rw [pow_two]
  simp only [h1, h2]

section objects
variable {G : Type} {R : RandomLib XF G} (eig : Eigvalsh XF) (ty : IntType)

theorem rows_same {d : ℕ} (l : List (Fin d → ℤ)) (nf : ℕ) :
    (∃ err, gaussIntRows (α := XF) nf (.ints l) = .error err ∧ gaussRows nf (.ints (α := XF) l) = .error err) ∨
    ∃ rows : List (Fin nf → ℤ), gaussIntRows (α := XF) nf (.ints l) = .ok rows ∧
      gaussRows nf (.ints (α := XF) l) = .ok (rows.map floatRow) ∧ ∀ ty, SquaresIn ty l → SquaresIn ty rows := by
  show (∃ err, poisRowsOf nf l = .error err ∧ _) ∨ ∃ rows, poisRowsOf nf l = .ok rows ∧ _
  unfold poisRowsOf gaussRows
  by_cases h1 : d = nf
  · subst h1
    refine .inr ⟨l, ?_, ?_, fun _ h => h⟩
    · rw [dif_pos rfl]
      exact congrArg Except.ok (List.map_id l)
    · refine (dif_pos rfl).trans (congrArg Except.ok ?_)
      exact (List.map_map (l := l)).trans rfl
  · by_cases h2 : d = 1
    · subst h2
      refine .inr ⟨l.map fun r _ => r 0, ?_, ?_, ?_⟩
      · rw [dif_neg h1, dif_pos rfl]; rfl
      · refine (dif_neg h1).trans ((dif_pos rfl).trans (congrArg Except.ok ?_))
        exact (List.map_map (l := l)).trans (List.map_map (g := floatRow (α := XF)) (f := fun (r : Fin 1 → ℤ) (_ : Fin nf) => r 0) (l := l)).symm
      · intro ty h x hx k
        obtain ⟨y, hy, rfl⟩ := List.mem_map.1 hx
        exact h y hy 0
    · left
      by_cases h3 : nf = 1
      · exact ⟨_, by rw [dif_neg h1, dif_neg h2, if_pos h3], by
          rw [dif_neg (show ¬ XArr.d (.ints (α := XF) l) = nf from h1), dif_neg (show ¬ XArr.d (.ints (α := XF) l) = 1 from h2), if_pos h3]⟩
      · exact ⟨_, by rw [dif_neg h1, dif_neg h2, if_neg h3], by
          rw [dif_neg (show ¬ XArr.d (.ints (α := XF) l) = nf from h1), dif_neg (show ¬ XArr.d (.ints (α := XF) l) = 1 from h2), if_neg h3]⟩

/-- `fit` of two classes that share everything but how they read integer arrays. -/
theorem fit_same {d : ℕ} {l : List (Fin d → ℤ)} (hsq : SquaresIn ty l) (ls : Option (List ℤ)) {S' S : Sub XF G (GaussAttrs XF)}
    (hinit : S'.init R = S.init R) (hcheck : S'.check = S.check)
    (hloop : ∀ e, S'.loopFrom (.ints l) ls e = S.loopFrom (.ints l) ls e) : S'.fit R (intsX l) ls = S.fit R (intsX l) ls := by
  unfold Sub.fit
  rcases checkArray_ints_reals l with ⟨e, h1, -⟩ | ⟨h1, -⟩
  · rw [h1]
    rfl
  · rw [h1]
    show (S'.init R (.ints l) >>= fun _ => onEst S'.check >>= fun _ => onEst (S'.loop (.ints l) ls)) =
      (S.init R (.ints l) >>= fun _ => onEst S.check >>= fun _ => onEst (S.loop (.ints l) ls))
    have : S'.loop (.ints l) ls = S.loop (.ints l) ls := funext fun e => hloop _
    rw [hinit, hcheck, this]

section loop
variable {e : Est XF G (GaussAttrs XF)} {d : ℕ} {l : List (Fin d → ℤ)} {ls : Option (List ℤ)}

theorem ready_diag : (gaussDiagInts ty eig).ready e = ((gaussDiagSub eig).ready e).map fun r => ⟨r.nf, r.pos, r.θ⟩ := by
  unfold Sub.ready
  by_cases h : e.nComponents = 0
  · simp only [dif_pos h]; rfl
  · simp only [dif_neg h]
    cases e.nFeatures with
    | none => rfl
    | some nf =>
      simp only [Option.bind_eq_bind, Option.map_bind, Function.comp_def]
      rfl

theorem ready_spherical : (gaussSphericalInts ty eig).ready e = ((gaussSphericalSub eig).ready e).map fun r => ⟨r.nf, r.pos, r.θ⟩ := by
  unfold Sub.ready
  by_cases h : e.nComponents = 0
  · simp only [dif_pos h]; rfl
  · simp only [dif_neg h]
    cases e.nFeatures with
    | none => rfl
    | some nf =>
      simp only [Option.bind_eq_bind, Option.map_bind, Function.comp_def]
      rfl

end loop

/-- **C105** `fit` of an integer array of any type whose squares are numbers of the type: as if the array had been
converted to floating point (`diag`). -/
theorem C105_same_diag {d : ℕ} (l : List (Fin d → ℤ)) (hsq : SquaresIn ty l) (ls : Option (List ℤ)) :
    (gaussDiagInts ty eig).fit R (intsX l) ls = (gaussDiagSub eig).fit R (intsX l) ls := by
  refine fit_same ty hsq ls rfl rfl fun e => ?_
  unfold Sub.loopFrom
  refine if_congr Iff.rfl rfl ?_
  cases implOf e.implementation with
  | error err => rfl
  | ok impl =>
    dsimp only
    rw [ready_diag]
    cases (gaussDiagSub eig).ready e with
    | none => rfl
    | some r =>
      haveI : NeZero e.nComponents := ⟨r.pos⟩
      dsimp only [Option.map]
      rcases rows_same l r.nf with ⟨err, h1, h2⟩ | ⟨rows, h1, h2, h3⟩
      · rw [show (gaussDiagInts ty eig).rows r.nf (.ints l) = _ from h1, show (gaussDiagSub eig).rows r.nf (.ints l) = _ from h2]
      · rw [show (gaussDiagInts ty eig).rows r.nf (.ints l) = _ from h1, show (gaussDiagSub eig).rows r.nf (.ints l) = _ from h2]
        have hR : Reads (emissionDiagInts ty (e.sub.prior e.nComponents r.nf) fun i k => e.sub.covarsPrior i k 0)
            (emissionDiag (e.sub.prior e.nComponents r.nf) fun i k => e.sub.covarsPrior i k 0) floatRow rows :=
          { lik := fun _ _ => rfl, loglik := fun _ _ => rfl, zero := fun _ _ => rfl, mstep := fun _ _ _ => rfl
            acc := fun ps _ st Y post hY => congrArg Except.ok (accDiagInts_eq ty (h3 ty hsq) ps st Y post hY) }
        have := hR.fitFrom_eq (e.config impl) ls r.θ e.monitor
        dsimp only
        exact congrArg (fun out : FitOutcome XF (Theta XF e.nComponents (DiagParams XF e.nComponents r.nf)) =>
          ((match out.raised with | none => Except.ok () | some err => Except.error err : Except PyErr Unit),
            (gaussDiagSub eig).put e out.state out.monitor)) this

/-- **C105** The same for `spherical`. -/
theorem C105_same_spherical {d : ℕ} (l : List (Fin d → ℤ)) (hsq : SquaresIn ty l) (ls : Option (List ℤ)) :
    (gaussSphericalInts ty eig).fit R (intsX l) ls = (gaussSphericalSub eig).fit R (intsX l) ls := by
  refine fit_same ty hsq ls rfl rfl fun e => ?_
  unfold Sub.loopFrom
  refine if_congr Iff.rfl rfl ?_
  cases implOf e.implementation with
  | error err => rfl
  | ok impl =>
    dsimp only
    rw [ready_spherical]
    cases (gaussSphericalSub eig).ready e with
    | none => rfl
    | some r =>
      haveI : NeZero e.nComponents := ⟨r.pos⟩
      dsimp only [Option.map]
      rcases rows_same l r.nf with ⟨err, h1, h2⟩ | ⟨rows, h1, h2, h3⟩
      · rw [show (gaussSphericalInts ty eig).rows r.nf (.ints l) = _ from h1, show (gaussSphericalSub eig).rows r.nf (.ints l) = _ from h2]
      · rw [show (gaussSphericalInts ty eig).rows r.nf (.ints l) = _ from h1, show (gaussSphericalSub eig).rows r.nf (.ints l) = _ from h2]
        have hR : Reads (emissionSphericalInts ty (e.sub.prior e.nComponents r.nf) fun i k => e.sub.covarsPrior i k 0)
            (emissionSpherical (e.sub.prior e.nComponents r.nf) fun i k => e.sub.covarsPrior i k 0) floatRow rows :=
          { lik := fun _ _ => rfl, loglik := fun _ _ => rfl, zero := fun _ _ => rfl, mstep := fun _ _ _ => rfl
            acc := fun ps _ st Y post hY => congrArg Except.ok (accDiagInts_eq ty (h3 ty hsq) ps st Y post hY) }
        have := hR.fitFrom_eq (e.config impl) ls r.θ e.monitor
        dsimp only
        exact congrArg (fun out : FitOutcome XF (Theta XF e.nComponents (DiagParams XF e.nComponents r.nf)) =>
          ((match out.raised with | none => Except.ok () | some err => Except.error err : Except PyErr Unit),
            (gaussSphericalSub eig).put e out.state out.monitor)) this

end objects

end Verif
