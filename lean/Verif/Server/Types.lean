import Verif.Go.Basic
/-! Types of server/server.go. -/

namespace Verif
namespace Srv

/-- server/server.go:15-18 (`""` before detection is `none` of an `Option Protocol`). -/
inductive Protocol where
  | ascii
  | binary
  deriving DecidableEq, Repr

/-- server/server.go:25-43. -/
def opGet : UInt8 := 0
/-- server/server.go:27. -/
def opSet : UInt8 := 1
/-- server/server.go:28. -/
def opAdd : UInt8 := 2
/-- server/server.go:29. -/
def opReplace : UInt8 := 3
/-- server/server.go:30. -/
def opDelete : UInt8 := 4
/-- server/server.go:31. -/
def opIncrement : UInt8 := 5
/-- server/server.go:32. -/
def opDecrement : UInt8 := 6
/-- server/server.go:34. -/
def opFlush : UInt8 := 8
/-- server/server.go:36. -/
def opNoop : UInt8 := 10
/-- server/server.go:37. -/
def opVersion : UInt8 := 11
/-- server/server.go:39. -/
def opGetKQ : UInt8 := 13
/-- server/server.go:42. -/
def opTouch : UInt8 := 28

/-- server/server.go:423-437. -/
structure GetOpt where
  metaCmd : Bool := false
  requestFlag : Bytes := []
  cas : Bool := false
  flag : Bool := false
  key : Bool := false
  lastAccess : Bool := false
  hit : Bool := false
  noReply : Bool := false
  size : Bool := false
  ttl : Bool := false
  withOpaque : Bool := false
  opaq : Int := 0
  value : Bool := false
  deriving DecidableEq, Repr

/-- server/server.go:439-450. -/
structure SetOpt where
  metaCmd : Bool := false
  cas : Bool := false
  casValue : Nat := 0
  flag : Int := 0
  invalidate : Bool := false
  key : Bool := false
  opaq : Int := 0
  noReply : Bool := false
  size : Int := 0
  expiration : Int := 0
  deriving DecidableEq, Repr

/-- server/server.go:452-454. -/
structure DelOpt where
  metaCmd : Bool := false
  deriving DecidableEq, Repr

/-- server/server.go:402-412; `none` is a nil pointer or nil slice. -/
structure Request where
  opcode : UInt8
  key : Bytes := []
  keys : Option (List Bytes) := none
  flags : Option Bytes := none
  value : Bytes := []
  delta : Int := 0
  getOpt : Option GetOpt := none
  setOpt : Option SetOpt := none
  delOpt : Option DelOpt := none
  deriving DecidableEq, Repr

/-- server/server.go:414-421.  Flags and value: nil and empty are treated alike by the code. -/
structure Response where
  key : Bytes := []
  error : Option Err := none
  flags : Bytes := []
  value : Bytes := []
  cas : Int := 0
  ttl : Int := 0
  deriving DecidableEq, Repr

/-- server/server.go:123 and alike. -/
def errInvalidRequest : Err := .msg b!"server: invalid request"
/-- server/server.go:615, 706. -/
def errUnknownOpcode : Err := .msg b!"memcached: unknown opcode"

end Srv
end Verif
