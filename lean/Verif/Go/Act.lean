import Verif.Go.Basic
/-! Computations that act on a world (the state of all servers, connections, clock ...) and may
fail or panic. -/

namespace Verif

/-- A computation on world `W`; the world reached is kept also on error.
(A method of client/client.go, cluster/cluster.go or proxy/replica_pool.go that calls servers.) -/
def Act (W : Type) (α : Type) := W → Res α × W

namespace Act
variable {W α β : Type}

/-- `return a, nil`. -/
def pure (a : α) : Act W α := fun w => (.ok a, w)

/-- `a, err := m; if err != nil { return err }; f(a)`, as throughout client/client.go:37-115 and cluster/cluster.go:30-130. -/
def bind (m : Act W α) (f : α → Act W β) : Act W β := fun w =>
  match m w with
  | (.ok a, w') => f a w'
  | (.err e, w') => (.err e, w')
  | (.panic, w') => (.panic, w')

instance : Monad (Act W) where
  pure := Act.pure
  bind := Act.bind

/-- A step without effect on the world, e.g. `ring.Pick` (client/client.go:38). -/
def lift (r : Res α) : Act W α := fun w => (r, w)
/-- `return err`. -/
def fail (e : Err) : Act W α := fun w => (.err e, w)

@[simp] theorem pure_apply (a : α) (w : W) : (Pure.pure a : Act W α) w = (.ok a, w) := rfl
@[simp] theorem lift_apply (r : Res α) (w : W) : (Act.lift r : Act W α) w = (r, w) := rfl
@[simp] theorem fail_apply (e : Err) (w : W) : (Act.fail e : Act W α) w = (.err e, w) := rfl

theorem bind_apply (m : Act W α) (f : α → Act W β) (w : W) :
    (m >>= f) w = match m w with
      | (.ok a, w') => f a w'
      | (.err e, w') => (.err e, w')
      | (.panic, w') => (.panic, w') := rfl

theorem bind_of_ok {m : Act W α} {f : α → Act W β} {w w' : W} {a : α} (h : m w = (.ok a, w')) :
    (m >>= f) w = f a w' := by rw [bind_apply, h]
theorem bind_of_err {m : Act W α} {f : α → Act W β} {w w' : W} {e : Err}
    (h : m w = (.err e, w')) : (m >>= f) w = (.err e, w') := by rw [bind_apply, h]
theorem bind_of_panic {m : Act W α} {f : α → Act W β} {w w' : W}
    (h : m w = (.panic, w')) : (m >>= f) w = (.panic, w') := by rw [bind_apply, h]

@[simp] theorem lift_ok_bind (a : α) (f : α → Act W β) : (Act.lift (.ok a) >>= f) = f a := rfl
@[simp] theorem lift_panic_bind (f : α → Act W β) :
    ((Act.lift (.panic : Res α) : Act W α) >>= f) = Act.lift .panic := rfl
@[simp] theorem lift_err_bind (e : Err) (f : α → Act W β) :
    ((Act.lift (.err e : Res α) : Act W α) >>= f) = Act.lift (.err e) := rfl

end Act
end Verif
