import Verif.Mc.Binary
import Verif.Spec.BinApi
/-! The binary memcached server answering a stream as it comes in, with a clock that stands still. -/

namespace Verif
namespace McBin
open Kv Spec
open Mc (binCall)
open Bin (ReqHdr)

/-- Answer the requests that are complete.  Every request takes at least one byte; after something that is no
request nothing more is answered.  (Environment: memcached, not code of /repo.) -/
def outLoop (te : Entry → Bytes) : Nat → Store → Bytes → Bytes
  | 0, _, _ => []
  | n + 1, s, i =>
    match readReq i with
    | (.ok (some r), rest) => (exec te s r).1 ++ outLoop te n (exec te s r).2 rest
    | _ => []

/-- All that the server has sent once it has got `i`, starting with the contents `s`.
(Environment: memcached, not code of /repo.) -/
def output (te : Entry → Bytes) (s : Store) (i : Bytes) : Bytes := outLoop te i.length s i

/-- A call of the binary client as made by a goroutine: with the headers it got from the pool.
(client/server.go:1212-1738.) -/
structure BinUse where
  h1 : ReqHdr
  h2 : ReqHdr
  op : Op

/-- The call.  (client/server.go:1212-1738.) -/
def BinUse.call (u : BinUse) : Call Out := binCall u.h1 u.h2 u.op

/-- Arguments memcached accepts, a reply read to the end, and no token left in the header of a counting call. -/
structure BinUse.Ok (u : BinUse) : Prop where
  args : BinArgs u.op
  tidy : Tidy u.op
  token : IsCount u.op → u.h1.cas = 0

end McBin
end Verif
