import Verif.Spec.Sequential
import Verif.Spec.Kv
/-!
What the calls after one whose reply comes too late return.
-/

namespace Verif
namespace Spec

/-- `cs` are called one after the other on a connection on which the reply `pending` is still to be read; each of them
reads exactly the reply to the request before its own, with the results `rs`.  `sent`: all requests so far. -/
inductive Shifted (resp : Bytes → Bytes) : Bytes → Bytes → List (Call Out) → List (Res Out) → Prop where
  | nil (sent pending : Bytes) : Shifted resp sent pending [] []
  | cons (sent pending : Bytes) (d : Call Out) (ds : List (Call Out)) (r : Res Out) (rs : List (Res Out)) (v : Bytes)
      (hv : d.wire = .ok v) (hr : d.rd pending = (r, [])) (hio : r ≠ .err .io)
      (rest : Shifted resp (sent ++ v) (replyTo resp sent v) ds rs) : Shifted resp sent pending (d :: ds) (r :: rs)

/-- What a Get of `asked` returns when the reply is the one to a Get of `before`: the entry of `before` under the key
`asked`. -/
def mislabelled (view : Bytes → Kv.Entry → Item) (store : Kv.Store) (before asked : Bytes) : Res Out :=
  match store.find before with
  | some e => .ok (.item (view asked e))
  | none => .err .itemNotFound

/-- The results of Gets of `keys` after one of `key` whose reply came too late. -/
def behind (view : Bytes → Kv.Entry → Item) (store : Kv.Store) : Bytes → List Bytes → List (Res Out)
  | _, [] => []
  | key, k :: ks => mislabelled view store key k :: behind view store k ks

end Spec
end Verif
