import Verif.Go.Basic
/-! Types shared by the client models. -/

namespace Verif

/-- client/client.go:7-15.  `flags = none` is a nil slice; a nil value is not
distinguished from an empty one (no code in /repo does). -/
structure Item where
  key : Bytes := []
  value : Bytes := []
  flags : Option Bytes := none
  expiration : Int := 0
  cas : Nat := 0
  server : Bytes := []
  deriving DecidableEq, Repr

/-- A client operation on an open connection.  Every operation of client/server.go writes
and flushes its whole request before it reads the first byte of the reply, so it is the
request and a reader.  `wire` is `err`/`panic` when the operation stops before flushing.
(client/server.go:198-632, 701-1130, 1212-1738.) -/
structure Call (α : Type) where
  wire : Res Bytes
  rd : Rd α

/-- merrors.ItemNotFound etc. are `Err` constructors; other messages are spelled out. -/
def errInvalidResponse : Err := .msg b!"memcached: invalid response"

end Verif
