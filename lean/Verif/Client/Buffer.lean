import Verif.Client.Headers
import Verif.Client.Meta
/-!
The write buffer of a connection (`s.conn`, a bufio.ReadWriter) across calls whose caller recovers
from a panic.  `Call.wire` says what a call sends; here it is split at the point where building the
request can panic: the bytes written before stay in the buffer, the deferred `s.mu.Unlock()`
(client/server.go:1335) releases the connection, and the next call's `Flush` sends them.
-/

namespace Verif
namespace Buf

/-- Writing to the buffer: outcome and buffer afterwards. (client/server.go:1347-1355.) -/
abbrev Wr := Bytes → Res Unit × Bytes

/-- `Set`/`Add`/`Replace` of a binary connection up to the flush, client/server.go:1345-1355 (1397-1407,
1449-1459): the header is encoded into the buffer first, then `item.Flags[:4]` is taken, then extras, key
and value are written. -/
def binStore (h : Bin.ReqHdr) (op : UInt8) (item : Item) : Wr := fun buf =>
  let buf := buf ++ (Bin.storeHdr h op item).encode
  match Bin.storeExtra item with
  | .ok extra => (.ok (), buf ++ extra ++ item.key ++ item.value)
  | .err e => (.err e, buf)
  | .panic => (.panic, buf)

/-- `Set` of a meta connection up to the flush, client/server.go:866-881: the flags are decoded before
anything is written. -/
def metaSet (item : Item) : Wr := fun buf =>
  match Meta.setWire item with
  | .ok w => (.ok (), buf ++ w)
  | .err e => (.err e, buf)
  | .panic => (.panic, buf)

/-- Any call whose request can be built: all of it is added to the buffer and flushed; what goes out is
what was in the buffer before and the request. (client/server.go:1356 and alike.) -/
def sent (buf : Bytes) {α : Type} (c : Call α) : Res Bytes :=
  match c.wire with
  | .ok w => .ok (buf ++ w)
  | .err e => .err e
  | .panic => .panic

end Buf
end Verif
