import Verif.Client.Reconn
/-! The history of a client with Reconnect, divided into epochs. -/

namespace Verif
namespace Spec


/-- How often Reconnect has succeeded. -/
def successes : List Reconn.Event → Nat
  | [] => 0
  | .reconnect true :: es => successes es + 1
  | _ :: es => successes es

/-- The operations between the `n`th successful Reconnect and the next one, with their results, leaving out those
that returned "memcached: closed" at once. -/
def epoch : Nat → List Reconn.Event → List (Call Out × Res Out)
  | _, [] => []
  | n, .op c r :: es => if n = 0 then (c, r) :: epoch n es else epoch n es
  | n, .reconnect true :: es => if n = 0 then [] else epoch (n - 1) es
  | n, _ :: es => epoch n es

/-- Any number of steps from a state. -/
inductive Later {T : Type} [DecidableEq T] (P : Reconn.Params T) (s : Reconn.State T) : Reconn.State T → Prop where
  | refl : Later P s s
  | step {s' s''} : Later P s s' → Reconn.Step P s' s'' → Later P s s''

/-- What has returned was not a success: neither an operation with a result nor a successful Reconnect. -/
def Failed : Reconn.Event → Prop
  | .op _ (.ok _) => False
  | .reconnect ok => ok = false
  | _ => True

end Spec
end Verif
