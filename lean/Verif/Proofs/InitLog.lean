import Verif.Spec.InitLog
import Verif.Props.Initialise

/-!
# Lemmas about `_init` with its warnings
-/

set_option autoImplicit false

namespace Verif
open FloatLike Spec Logged

namespace Logged
variable {σ β γ : Type}

/-- Forget the warnings. -/
def erase (m : Logged σ β) : Py σ β := fun s => (m s).2

theorem bind_apply (x : Logged σ β) (f : β → Logged σ γ) (s : σ) : (x >>= f) s =
    match x s with
    | (l, (.ok b, s')) => (l ++ (f b s').1, (f b s').2)
    | (l, (.error e, s')) => (l, (.error e, s')) := rfl

@[simp] theorem pure_apply (b : β) (s : σ) : (pure b : Logged σ β) s = ([], (.ok b, s)) := rfl
@[simp] theorem quiet_apply (m : Py σ β) (s : σ) : quiet m s = ([], m s) := rfl
@[simp] theorem warn_apply (e : InitWarning) (s : σ) : (warn e : Logged σ Unit) s = ([e], (.ok (), s)) := rfl

@[simp] theorem erase_pure (b : β) : (pure b : Logged σ β).erase = pure b := rfl
@[simp] theorem erase_quiet (m : Py σ β) : (quiet m).erase = m := rfl
@[simp] theorem erase_warn (e : InitWarning) : (warn e : Logged σ Unit).erase = pure () := rfl

@[simp] theorem erase_bind (x : Logged σ β) (f : β → Logged σ γ) : (x >>= f).erase = x.erase >>= fun b => (f b).erase := by
  funext s
  show ((x >>= f) s).2 = _
  rw [bind_apply, Py.bind_apply]
  show _ = match (x s).2 with | (.ok b, s') => _ | (.error e, s') => _
  rcases x s with ⟨l, r | b, s'⟩ <;> rfl

theorem erase_ite (c : Prop) [Decidable c] (x y : Logged σ β) : (if c then x else y).erase = if c then x.erase else y.erase := by
  split <;> rfl

/-- A quiet step first. -/
theorem quiet_bind (m : Py σ β) (f : β → Logged σ γ) (s : σ) : (quiet m >>= f) s =
    match m s with
    | (.ok b, s') => f b s'
    | (.error e, s') => ([], (.error e, s')) := by
  rw [bind_apply, quiet_apply]
  rcases m s with ⟨r | b, s'⟩ <;> rfl

theorem ran_quiet {m : Py σ β} {f : β → Logged σ γ} {s s' : σ} {b : β} {out : List InitWarning × (Except PyErr γ × σ)}
    (h : m s = (.ok b, s')) (h' : f b s' = out) : (quiet m >>= f) s = out := by rw [quiet_bind, h]; exact h'

theorem ran_error {m : Py σ β} {f : β → Logged σ γ} {s s' : σ} {e : PyErr} (h : m s = (.error e, s')) :
    (quiet m >>= f) s = ([], (.error e, s')) := by rw [quiet_bind, h]

theorem ran_bind {x : Logged σ β} {f : β → Logged σ γ} {s s' : σ} {b : β} {l l' : List InitWarning}
    {out : Except PyErr γ × σ} (h : x s = (l, (.ok b, s'))) (h' : f b s' = (l', out)) :
    (x >>= f) s = (l ++ l', out) := by rw [bind_apply, h]; show (l ++ (f b s').1, (f b s').2) = _; rw [h']

theorem pure_bind' (b : β) (f : β → Logged σ γ) (s : σ) : ((pure b : Logged σ β) >>= f) s = f b s := rfl

theorem fst_bind (x : Logged σ β) (f : β → Logged σ γ) (s : σ) : ((x >>= f) s).1 =
    (x s).1 ++ match (x s).2 with
      | (.ok b, s') => (f b s').1
      | (.error _, _) => [] := by
  rw [bind_apply]
  rcases x s with ⟨l, r | b, s'⟩ <;> simp

end Logged

variable {α G P : Type} [FloatLike α]

/-- `_needs_init` does not touch the state; it warns when the code is in `init_params` and the attribute is set. -/
theorem needsInitLog_apply {σ : Type} (ip : List Char) (code : Char) (name : String) (isSet : Bool) (s : σ) :
    needsInitLog ip code name isSet s =
      (overwrites ip [⟨name, code, isSet⟩], (.ok (needsInit ip code isSet), s)) := by
  unfold needsInitLog needsInit overwrites
  by_cases h : code ∈ ip <;> cases isSet <;> simp [h, bind_apply]

@[simp] theorem needsInitLog_erase {σ : Type} (ip : List Char) (code : Char) (name : String) (isSet : Bool) :
    (needsInitLog ip code name isSet : Logged σ Bool).erase = pure (needsInit ip code isSet) := by
  funext s
  show (needsInitLog ip code name isSet s).2 = _
  rw [needsInitLog_apply]; rfl

/-- Of several attributes with one code only the first can be announced: if the code is in `init_params` the first
call decides, otherwise none warns. -/
theorem anyNeedsInitLog_apply {σ : Type} (ip : List Char) (code : Char) (name : String) (isSet : Bool)
    (rest : List (String × Bool)) (s : σ) :
    anyNeedsInitLog ip code ((name, isSet) :: rest) s =
      (overwrites ip [⟨name, code, isSet⟩],
        (.ok (needsInit ip code isSet || rest.any fun a => needsInit ip code a.2), s)) := by
  have quietly : ∀ (l : List (String × Bool)), code ∉ ip →
      anyNeedsInitLog ip code l s = ([], (.ok (l.any fun a => needsInit ip code a.2), s)) := by
    intro l hc
    induction l with
    | nil => rfl
    | cons a l ih =>
      obtain ⟨n, b⟩ := a
      rw [anyNeedsInitLog, bind_apply, needsInitLog_apply]
      cases b <;> simp [needsInit, hc, overwrites, ih]
  by_cases h : code ∈ ip
  · rw [anyNeedsInitLog, bind_apply, needsInitLog_apply]
    simp [needsInit, h]
  · rw [quietly _ h]
    simp [overwrites, h]

/-- Either all letters have entries and the sum is their sum, or the first without one raises `KeyError`. -/
theorem sumFitScalars_cases (table : List (Char × Int)) (params : List Char) :
    (∃ n, toFit table params = some n ∧ sumFitScalars table params = .ok n ∧
      (params.find? fun c => !(table.any fun p => p.1 == c)) = none) ∨
    ∃ c, toFit table params = none ∧ sumFitScalars table params = .error (.keyError (String.ofList [c])) ∧
      (params.find? fun c => !(table.any fun p => p.1 == c)) = some c := by
  have look : ∀ c, (table.lookup c = none ↔ (table.any fun p => p.1 == c) = false) := by
    intro c
    induction table with
    | nil => simp
    | cons a t ih =>
      obtain ⟨k, v⟩ := a
      by_cases hk : k = c
      · subst hk; simp [List.lookup]
      · have : (c == k) = false := by simp [Ne.symm hk]
        simp only [List.lookup, this, List.any_cons, ih]
        simp [hk]
  induction params with
  | nil => exact .inl ⟨0, rfl, rfl, rfl⟩
  | cons c ps ih =>
    have hf : toFit table (c :: ps) = (table.lookup c).bind fun n => (toFit table ps).map (n + ·) := by
      unfold toFit
      rw [List.mapM_cons]
      cases table.lookup c <;> cases List.mapM (fun c => table.lookup c) ps <;> simp [pure, bind]
    rw [hf]
    unfold sumFitScalars fitScalars
    cases hl : table.lookup c with
    | none =>
      have := (look c).1 hl
      exact .inr ⟨c, rfl, rfl, by simp [List.find?, this]⟩
    | some n =>
      have hn : (table.any fun p => p.1 == c) = true := by
        rw [← Bool.not_eq_false]; intro h; rw [← look c, hl] at h; cases h
      rcases ih with ⟨m, h1, h2, h3⟩ | ⟨d, h1, h2, h3⟩
      · exact .inl ⟨n + m, by simp [h1], by rw [h2]; rfl, by rw [List.find?, hn]; exact h3⟩
      · exact .inr ⟨d, by simp [h1], by rw [h2]; rfl, by rw [List.find?, hn]; exact h3⟩

/-- The check of the size: what it logs, and that it raises as `initBase` says. -/
theorem checkSizeLog_apply {σ : Type} (table : List (Char × Int)) (params : List Char) (size : Nat) (s : σ) :
    checkSizeLog table params size s = (tooSmall table params size,
      (match params.find? fun c => !(table.any fun p => p.1 == c) with
        | some c => .error (.keyError (String.ofList [c]))
        | none => .ok (), s)) := by
  unfold checkSizeLog tooSmall
  rw [quiet_bind, Py.lift_apply]
  rcases sumFitScalars_cases table params with ⟨n, h1, h2, h3⟩ | ⟨c, h1, h2, h3⟩
  · rw [h1, h2, h3]
    simp only
    split <;> rfl
  · rw [h1, h2, h3]

theorem checkSizeLog_erase {σ : Type} (table : List (Char × Int)) (params : List Char) (size : Nat) :
    (checkSizeLog table params size : Logged σ Unit).erase =
      match params.find? fun c => !(table.any fun p => p.1 == c) with
      | some c => Py.raise (.keyError (String.ofList [c]))
      | none => pure () := by
  funext s
  show (checkSizeLog table params size s).2 = _
  rw [checkSizeLog_apply]
  generalize List.find? _ params = o
  cases o <;> rfl

theorem py_pure_bind {σ β γ : Type} (b : β) (f : β → Py σ γ) : ((pure b : Py σ β) >>= f) = f b := rfl

/-- `BaseHMM._init` with warnings: forgetting them it is `initBase`. -/
theorem initBaseLog_erase (S : Sub α G P) (R : RandomLib α G) (X : XArr α) :
    (S.initBaseLog R X).erase = S.initBase R X := by
  unfold Sub.initBaseLog Sub.initBase
  simp only [erase_bind, erase_quiet, needsInitLog_erase]
  congr 1; funext _
  congr 1; funext w
  simp only [py_pure_bind, checkSizeLog_erase]
  rfl

/-- The states of `BaseHMM._init`: what it logs. -/
theorem initBaseLog_fst (S : Sub α G P) (R : RandomLib α G) (X : XArr α) (w : World α G P) :
    (S.initBaseLog R X w).1 = match S.checkFeatures X w.est with
      | (.error _, _) => []
      | (.ok (), e1) => overwrites e1.initParams (chainAttrs e1)
          ++ tooSmall (S.nFit (S.initBase R X w).2.est) e1.params (X.n * X.d) := by
  cases hc : S.checkFeatures X w.est with
  | mk r e1 =>
    cases r with
    | error err =>
      unfold Sub.initBaseLog
      rw [quiet_bind]
      simp [onEst, hc]
    | ok u =>
      obtain ⟨rs, g, h2, -⟩ := withSelfGen_eq R (initDraws R e1.nComponents
        (needsInit e1.initParams 's' e1.startprob.isSome) (needsInit e1.initParams 't' e1.transmat.isSome))
        { w with est := e1 }
      have h1 : onEst (S.checkFeatures X) w = (.ok (), { w with est := e1 }) := by simp [onEst, hc]
      have key : S.initBaseLog R X w = _ := ran_quiet h1 (ran_quiet (Py.get_apply _)
        (ran_bind (needsInitLog_apply _ _ _ _ _) (ran_bind (needsInitLog_apply _ _ _ _ _)
          (ran_quiet h2 (ran_quiet rfl (ran_quiet (Py.get_apply _) (checkSizeLog_apply _ _ _ _)))))))
      have h3 := congrFun (initBaseLog_erase S R X) w
      have h3 : (S.initBaseLog R X w).2 = S.initBase R X w := h3
      rw [← h3, key]
      simp only [← List.append_assoc]
      congr 1
      simp only [overwrites, chainAttrs, ← List.map_append, ← List.filter_append]
      rfl

/-- The part of the class. -/
theorem initLog_erase {S : Sub α G P} {own : RandomLib α G → XArr α → Logged (World α G P) Unit} {R : RandomLib α G}
    (h : ∀ X w, (own R X w).2 = S.initSub R X w) (X : XArr α) (w : World α G P) :
    (S.initLog own R X w).2 = S.init R X w := by
  have h1 : (S.initLog own R X).erase = _ := erase_bind _ _
  have h2 : (own R X).erase = S.initSub R X := funext (h X)
  have := congrFun h1 w
  rw [initBaseLog_erase, h2] at this
  exact this

/-- A class warns as it should when its own part does. -/
theorem initWarns_of {S : Sub α G P} {R : RandomLib α G} (hS : S.Frames R) {own : P → List Announced}
    {log : RandomLib α G → XArr α → Logged (World α G P) Unit}
    (hn : ∀ e p rs, S.nFit { e with sub := p, randomState := rs } = S.nFit e)
    (hf : ∀ X e, own (S.checkFeatures X e).2.sub = own e.sub)
    (h : ∀ X w, (log R X w).2 = S.initSub R X w)
    (hok : ∀ X w, (S.initSub R X w).1 = .ok () → (log R X w).1 = overwrites w.est.initParams (own w.est.sub))
    (hpre : ∀ X w, (log R X w).1 <+: overwrites w.est.initParams (own w.est.sub)) :
    InitWarns S R own (S.initLog log R) := by
  have split : ∀ X w, ((S.init R X w).1 = .ok () → (S.initLog log R X w).1 = initWarnings S R own X w) ∧
      (S.initLog log R X w).1 <+: initWarnings S R own X w := by
    intro X w
    obtain ⟨nf, p, hp⟩ := hS.features X w.est
    have herase := congrFun (initBaseLog_erase S R X) w
    have herase : (S.initBaseLog R X w).2 = S.initBase R X w := herase
    have hfst := initBaseLog_fst S R X w
    have hlog : (S.initLog log R X w).1 = _ := fst_bind _ _ _
    have hinit : S.init R X w = _ := Py.bind_apply _ _ _
    rw [herase] at hlog
    cases hc : S.checkFeatures X w.est with
    | mk r e1 =>
      have hown0 := hf X w.est
      rw [hc] at hfst hp hown0
      have hp1 : e1 = _ := hp
      have hown : own e1.sub = _ := hown0
      clear hp hown0
      cases r with
      | error err =>
        have hb : S.initBase R X w = (.error err, _) :=
          Py.bind_error (s' := { w with est := e1 }) (by simp [onEst, hc])
        rw [hb] at hlog hinit
        rw [hlog, hfst, hinit]
        exact ⟨fun h => by (cases h), by simp⟩
      | ok u =>
        obtain ⟨rs, g, hb, -⟩ := initBase_eq S R X w e1 hc
        obtain ⟨r, w2, hbb⟩ : ∃ r w2, S.initBase R X w = (r, w2) := ⟨_, _, rfl⟩
        have hw2 : w2 = _ := congrArg Prod.snd (hbb.symm.trans hb)
        have i1 : w2.est.initParams = w.est.initParams := by rw [hw2, hp1]
        have i2 : w2.est.sub = e1.sub := by rw [hw2]
        have i3 : e1.initParams = w.est.initParams := by rw [hp1]
        have i4 : e1.params = w.est.params := by rw [hp1]
        have i5 : chainAttrs e1 = chainAttrs w.est := by rw [hp1]; rfl
        clear hb hw2
        rw [hbb] at hfst hlog hinit
        simp only [i3, i4, i5] at hfst
        rw [hlog, hfst]
        unfold initWarnings
        cases r with
        | error err =>
          rw [hinit]
          exact ⟨fun h => by (cases h), by simp⟩
        | ok u =>
          simp only at hinit ⊢
          rw [hinit]
          obtain ⟨p', rs', g', hI⟩ := hS.init X w2
          have hnf : S.nFit (S.initSub R X w2).2.est = S.nFit w2.est := by rw [hI]; exact hn _ _ _
          rw [hnf, ← hown, ← i2, ← i1]
          exact ⟨fun h => by rw [hok X w2 h], (List.prefix_append_right_inj _).2 (hpre X w2)⟩
  exact ⟨initLog_erase h, fun X w => (split X w).1, fun X w => (split X w).2⟩

end Verif
