import Verif.Mc.Server
/-! The memcached server answering a stream as it comes in, with a clock that stands still. -/

namespace Verif
namespace Mc
open Kv

/-- Answer the commands that are complete.  Every command takes at least one byte.
(Environment: memcached, not code of /repo.) -/
def outLoop : Nat → Store → Bytes → Bytes
  | 0, _, _ => []
  | n + 1, s, i =>
    match step s i with
    | none => []
    | some (reply, s', r) => reply ++ outLoop n s' r

/-- All that the server has sent once it has got `i`, starting with the contents `s`.
(Environment: memcached, not code of /repo.) -/
def output (s : Store) (i : Bytes) : Bytes := outLoop i.length s i

end Mc
end Verif
