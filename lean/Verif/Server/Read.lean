import Verif.Server.Types
/-! Request readers of server/server.go. -/

namespace Verif
namespace Srv

/-- The switch over the flag letters of `mg`, server/server.go:199-222.  The Go loop ranges
over the runes of the token; the cases are ASCII letters, which occur in a UTF-8 string
exactly where the byte occurs, so the model ranges over bytes. -/
def mgFlag (o : GetOpt) (f : UInt8) : GetOpt :=
  if f = 99 then { o with cas := true }                -- 'c'
  else if f = 102 then { o with flag := true }         -- 'f'
  else if f = 104 then { o with hit := true }          -- 'h'
  else if f = 107 then { o with key := true }          -- 'k'
  else if f = 108 then { o with lastAccess := true }   -- 'l'
  else if f = 111 then { o with withOpaque := true }   -- 'o'
  else if f = 113 then { o with noReply := true }      -- 'q'
  else if f = 115 then { o with size := true }         -- 's'
  else if f = 116 then { o with ttl := true }          -- 't'
  else if f = 118 then { o with value := true }        -- 'v'
  else o

/-- One token of `ms`, server/server.go:237-275; `f[0]` panics on an empty token. -/
def msToken (o : SetOpt) (f : Bytes) : Res SetOpt :=
  match f with
  | [] => .panic
  | c :: t =>
    if c = 67 then do            -- 'C'
      let v ← numRes (parseUint t 64)
      pure { o with cas := true, casValue := v }
    else if c = 70 then do       -- 'F'
      let v ← numRes (parseInt t 32)
      pure { o with flag := v }
    else if c = 73 then pure { o with invalidate := true }   -- 'I'
    else if c = 107 then pure { o with key := true }         -- 'k'
    else if c = 79 then do       -- 'O'
      let v ← numRes (parseInt t 64)
      pure { o with opaq := v }
    else if c = 113 then pure { o with noReply := true }     -- 'q'
    else if c = 83 then do       -- 'S'
      let v ← numRes (parseInt t 32)
      pure { o with size := v }
    else if c = 84 then do       -- 'T'
      let v ← numRes (parseInt t 32)
      pure { o with expiration := v }
    else pure o

/-- The token loop of `ms`, server/server.go:236-276. -/
def msTokens : SetOpt → List Bytes → Res SetOpt
  | o, [] => .ok o
  | o, f :: fs => do
    let o' ← msToken o f
    msTokens o' fs

/-- `set`, `add`, `replace`, server/server.go:134-167. -/
def readStore (op : UInt8) (s : List Bytes) : Rd Request := do
  match s with
  | [_, key, sf, se, sl] => do
    let f ← Rd.lift (numRes (parseInt sf 32))
    let e ← Rd.lift (numRes (parseInt se 32))
    let n ← Rd.lift (numRes (parseInt sl 32))
    let buf ← readN (n + 2)
    let v ← Rd.lift (sliceTo buf n)
    pure { opcode := op, key := key, flags := some (putBE 4 (toUnsigned 32 f)), value := v,
           setOpt := some { expiration := e } }
  | _ => Rd.fail errInvalidRequest

/-- `delete`, `md`, server/server.go:168-176. -/
def readDelete (isMeta : Bool) (s : List Bytes) : Rd Request :=
  match s with
  | [_, key] => pure { opcode := opDelete, key := key, delOpt := some { metaCmd := isMeta } }
  | _ => Rd.fail errInvalidRequest

/-- `incr`, `decr`, `touch`, server/server.go:177-192. -/
def readDelta (op : UInt8) (s : List Bytes) : Rd Request :=
  match s with
  | [_, key, sd] => do
    let d ← Rd.lift (numRes (parseInt sd 32))
    pure { opcode := op, key := key, delta := d }
  | _ => Rd.fail errInvalidRequest

/-- `mg`, server/server.go:193-224. -/
def readMg (s : List Bytes) : Rd Request :=
  match s with
  | _ :: key :: fl :: _ =>
    pure { opcode := opGet, key := key,
           getOpt := some (fl.foldl mgFlag { metaCmd := true, requestFlag := fl }) }
  | _ => Rd.fail errInvalidRequest

/-- `ms`, server/server.go:225-285.  `len(s[2]) > 0` (235) always holds once `ParseUint`
has accepted `s[2]`. -/
def readMs (s : List Bytes) : Rd Request :=
  match s with
  | _ :: key :: sz :: tokens => do
    let v ← Rd.lift (numRes (parseUint sz 32))
    let opt ← Rd.lift (msTokens { metaCmd := true, size := (v : Int) } tokens)
    let buf ← readN (opt.size + 2)
    let val ← Rd.lift (sliceTo buf opt.size)
    pure { opcode := opSet, key := key, value := val, setOpt := some opt }
  | _ => Rd.fail errInvalidRequest

/-- The switch of `readAsciiRequest` on the split request line, server/server.go:121-292. -/
def asciiRequest (s : List Bytes) : Rd Request :=
  match s with
  | [] => Rd.fail errInvalidRequest
  | cmd :: args =>
    if cmd = b!"get" then
      match args with
      | [key] => pure { opcode := opGet, key := key }
      | _ => Rd.fail errInvalidRequest
    else if cmd = b!"gets" then pure { opcode := opGet, keys := some args }
    else if cmd = b!"set" then readStore opSet s
    else if cmd = b!"add" then readStore opAdd s
    else if cmd = b!"replace" then readStore opReplace s
    else if cmd = b!"delete" then readDelete false s
    else if cmd = b!"md" then readDelete true s
    else if cmd = b!"incr" then readDelta opIncrement s
    else if cmd = b!"decr" then readDelta opDecrement s
    else if cmd = b!"touch" then readDelta opTouch s
    else if cmd = b!"mg" then readMg s
    else if cmd = b!"ms" then readMs s
    else if cmd = b!"flush_all" then pure { opcode := opFlush }
    else if cmd = b!"version" then pure { opcode := opVersion }
    else Rd.fail errInvalidRequest

/-- `readAsciiRequest`, server/server.go:116-293. -/
def readAscii : Rd Request := do
  let line ← readBytes
  asciiRequest (splitSp (trimSuffix line crlf))

/-- Two-byte key length at header[2:4]. (server/server.go:306, 314, 328, 348, 363, 382.) -/
def hdrKeyLen (h : Bytes) : Nat := getBE ((h.take 4).drop 2)

/-- The switch of `readBinaryRequest` on a 24-byte header, server/server.go:304-393. -/
def binaryRequest (h : Bytes) : Rd Request :=
  let op := h.getD 1 0
  if op = opGet then do
    let key ← readFull (hdrKeyLen h)
    pure { opcode := opGet, key := key }
  else if op = opGetKQ then do
    let key ← readFull (hdrKeyLen h)
    pure { opcode := opGet, key := key, getOpt := some { noReply := true, key := true } }
  else if op = opSet ∨ op = opAdd ∨ op = opReplace then do
    let extra ← readFull (h.getD 4 0).toNat
    let e ← Rd.lift (slice extra 4 8)
    let key ← readFull (hdrKeyLen h)
    let buf ← readN ((getBE ((h.take 12).drop 8) : Int) - extra.length - hdrKeyLen h)
    let f ← Rd.lift (sliceTo extra 4)
    pure { opcode := op, key := key, value := buf, flags := some f,
           setOpt := some { expiration := getBE e } }
  else if op = opDelete then do
    let key ← readFull (hdrKeyLen h)
    pure { opcode := opDelete, key := key }
  else if op = opIncrement ∨ op = opDecrement then do
    let extra ← readFull (h.getD 4 0).toNat
    let d ← Rd.lift (sliceTo extra 8)
    let e ← Rd.lift (slice extra 16 20)
    let key ← readFull (hdrKeyLen h)
    pure { opcode := op, key := key, delta := toSigned 64 (getBE d),
           setOpt := some { expiration := getBE e } }
  else if op = opTouch then do
    let extra ← readFull (h.getD 4 0).toNat
    let e ← Rd.lift (sliceTo extra 4)
    let key ← readFull (hdrKeyLen h)
    pure { opcode := opTouch, key := key, setOpt := some { expiration := getBE e } }
  else if op = opNoop ∨ op = opVersion ∨ op = opFlush then
    pure { opcode := op }
  else Rd.fail errInvalidRequest

/-- `readBinaryRequest`, server/server.go:295-394. -/
def readBinary : Rd Request := do
  let h ← readFull 24
  if h.head? ≠ some 0x80 then Rd.fail errInvalidRequest
  else binaryRequest h

/-- `detectProtocol`, server/server.go:79-91: looks at the first byte without consuming it. -/
def detect : Rd Protocol := fun i =>
  match i with
  | [] => (.err .io, [])
  | b :: r => (.ok (if b = 0x80 then .binary else .ascii), b :: r)

/-- The protocol used for the next request, server/server.go:99-104: detected once, then
kept. -/
def protoOf (p : Option Protocol) : Rd Protocol :=
  match p with
  | none => detect
  | some q => pure q

/-- The switch on the protocol, server/server.go:106-111. -/
def readBody : Protocol → Rd Request
  | .ascii => readAscii
  | .binary => readBinary

/-- `readRequest`, server/server.go:99-114; also returns the connection's protocol field
afterwards. -/
def readRequest (p : Option Protocol) : Rd (Protocol × Request) := do
  let q ← protoOf p
  let req ← readBody q
  pure (q, req)

end Srv
end Verif
