import Verif.Server.Types
/-!
Reply writers of server/server.go.  The result is the bytes written and flushed; every path
that writes also flushes before it returns, so nothing stays in the write buffer.  Write
errors of the connection are not modelled here (the reply is then lost, `serve` ends).
-/

namespace Verif
namespace Srv

/-- server/server.go:622-625, 646-649: the flags as a number; `Uint32` panics on 1 to 3 bytes. -/
def respFlags (flags : Bytes) : Res Nat :=
  if 0 < flags.length then beUint 4 flags else .ok 0

/-- `writeAsciiResponseGet`, server/server.go:621-644. -/
def writeAsciiGet (r : Response) : Res Bytes := do
  let flag ← respFlags r.flags
  pure (b!"VALUE " ++ r.key ++ 32 :: natDec flag ++ 32 :: natDec r.value.length ++ crlf
    ++ r.value ++ crlf)

/-- What one letter of the request flags adds to the `VA` line, server/server.go:659-672. -/
def metaGetTok (req : Request) (r : Response) (flag : Nat) (v : UInt8) : Bytes :=
  if v = 99 then 32 :: intDec r.cas                     -- 'c'
  else if v = 102 then 32 :: natDec flag                -- 'f'
  else if v = 107 then 32 :: req.key                    -- 'k'
  else if v = 115 then 32 :: natDec r.value.length      -- 's'
  else if v = 116 then 32 :: intDec r.ttl               -- 't'
  else []

/-- `writeAsciiResponseMetaGet`, server/server.go:645-684, with `o = *req.GetOpt`. -/
def writeAsciiMetaGet (req : Request) (o : GetOpt) (r : Response) : Res Bytes := do
  let flag ← respFlags r.flags
  pure (b!"VA " ++ natDec r.value.length ++ 32 :: o.requestFlag
    ++ o.requestFlag.flatMap (metaGetTok req r flag) ++ crlf
    ++ (if o.value then r.value else []) ++ crlf)

/-- Write all responses with `f`, in order. (The loops of server/server.go:531-551.) -/
def writeAll (f : Response → Res Bytes) : List Response → Res Bytes
  | [] => .ok []
  | r :: rs => do
    let a ← f r
    let b ← writeAll f rs
    pure (a ++ b)

/-- `res[0]` panics on an empty list; an error response writes nothing (the common shape of
server/server.go:555, 570, 585, 593, 601, 608, 702). -/
def onFirst (res : List Response) (f : Response → Res Bytes) : Res Bytes :=
  match res with
  | [] => .panic
  | r :: _ => if r.error = none then f r else .ok []

/-- `writeAsciiResponse`, server/server.go:528-619. -/
def writeAscii (req : Request) (res : List Response) : Res Bytes :=
  if req.opcode = opGet then
    match req.getOpt with
    | none => do
      let b ← writeAll writeAsciiGet res
      pure (b ++ b!"END\r\n")
    | some o => do
      let b ← writeAll (writeAsciiMetaGet req o) res
      pure (b ++ (if res = [] then b!"EN\r\n" else []))
  else if req.opcode = opSet ∨ req.opcode = opAdd ∨ req.opcode = opReplace then
    onFirst res fun _ =>
      match req.setOpt with
      | none => .panic
      | some o => .ok (if o.metaCmd then b!"HD" ++ crlf else b!"STORED\r\n")
  else if req.opcode = opDelete then
    onFirst res fun _ =>
      match req.delOpt with
      | none => .panic
      | some o => .ok (if o.metaCmd then b!"HD" ++ crlf else b!"DELETED\r\n")
  else if req.opcode = opIncrement ∨ req.opcode = opDecrement then
    onFirst res fun r => .ok (r.value ++ crlf)
  else if req.opcode = opVersion then
    onFirst res fun r => .ok (r.value ++ crlf)
  else if req.opcode = opTouch then
    onFirst res fun _ => .ok b!"TOUCHED\r\n"
  else if req.opcode = opFlush then
    onFirst res fun _ => .ok b!"OK\r\n"
  else .err errUnknownOpcode

/-- `writeAsBinaryProtocol`, server/server.go:712-735.  Status, opaque and cas are always 0. -/
def writeBinary1 (op : UInt8) (r : Response) : Bytes :=
  [0x81, op] ++ putBE 2 (r.key.length % 2 ^ 16) ++ [UInt8.ofNat r.flags.length, 0, 0, 0]
    ++ putBE 4 ((r.key.length + r.flags.length + r.value.length) % 2 ^ 32)
    ++ putBE 4 0 ++ putBE 8 0
    ++ r.flags ++ r.key ++ r.value

/-- `writeBinaryResponse`, server/server.go:686-710. -/
def writeBinary (req : Request) (res : List Response) : Res Bytes :=
  if req.opcode = opGet then
    .ok (res.flatMap (writeBinary1 req.opcode)
      ++ (if 1 < res.length then writeBinary1 opNoop {} else []))
  else if req.opcode = opSet ∨ req.opcode = opAdd ∨ req.opcode = opReplace ∨ req.opcode = opDelete
      ∨ req.opcode = opIncrement ∨ req.opcode = opDecrement ∨ req.opcode = opVersion
      ∨ req.opcode = opFlush ∨ req.opcode = opTouch ∨ req.opcode = opNoop then
    onFirst res fun r => .ok (writeBinary1 req.opcode r)
  else .err errUnknownOpcode

/-- `writeResponse`, server/server.go:517-526. -/
def writeResponse (p : Protocol) (req : Request) (res : List Response) : Res Bytes :=
  match p with
  | .ascii => writeAscii req res
  | .binary => writeBinary req res

end Srv
end Verif
