import Verif.Model.Err

/-!
# Python methods as state transformers

A method call on an estimator either returns or raises, and in both cases may have changed the
object's attributes.
-/

namespace Verif

/-- A call acting on the state `σ`: the result (or exception) and the state afterwards. -/
def Py (σ β : Type) := σ → Except PyErr β × σ

namespace Py
variable {σ τ β γ : Type}

instance : Monad (Py σ) where
  pure b := fun s => (.ok b, s)
  bind x f := fun s =>
    match x s with
    | (.ok b, s') => f b s'
    | (.error e, s') => (.error e, s')

/-- Read the state. -/
def get : Py σ σ := fun s => (.ok s, s)

/-- Change the state. -/
def modify (f : σ → σ) : Py σ Unit := fun s => (.ok (), f s)

/-- `raise`. -/
def raise (e : PyErr) : Py σ β := fun s => (.error e, s)

/-- A computation that does not touch the state. -/
def lift (r : Except PyErr β) : Py σ β := fun s => (r, s)

@[simp] theorem pure_apply (b : β) (s : σ) : (pure b : Py σ β) s = (.ok b, s) := rfl

theorem bind_apply (x : Py σ β) (f : β → Py σ γ) (s : σ) : (x >>= f) s =
    match x s with
    | (.ok b, s') => f b s'
    | (.error e, s') => (.error e, s') := rfl

@[simp] theorem get_apply (s : σ) : (get : Py σ σ) s = (.ok s, s) := rfl
@[simp] theorem modify_apply (f : σ → σ) (s : σ) : modify f s = (.ok (), f s) := rfl
@[simp] theorem raise_apply (e : PyErr) (s : σ) : (raise e : Py σ β) s = (.error e, s) := rfl
@[simp] theorem lift_apply (r : Except PyErr β) (s : σ) : (lift r : Py σ β) s = (r, s) := rfl

theorem bind_ok {x : Py σ β} {f : β → Py σ γ} {s s' : σ} {b : β} (h : x s = (.ok b, s')) :
    (x >>= f) s = f b s' := by rw [bind_apply, h]

theorem bind_error {x : Py σ β} {f : β → Py σ γ} {s s' : σ} {e : PyErr} (h : x s = (.error e, s')) :
    (x >>= f) s = (.error e, s') := by rw [bind_apply, h]

end Py
end Verif
