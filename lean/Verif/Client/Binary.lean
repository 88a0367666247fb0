import Verif.Client.Types
/-!
`ServerWithBinaryProtocol` (client/server.go:1136-1833) and
`Item.marshalBinaryRequestHeader` (client/client.go:17-25), on an open connection.

Every operation takes a recycled request header from a `sync.Pool`; its previous contents
are the argument `h` of the model functions (any value), and `...Hdr` gives the contents it
is put back with.  Response headers are recycled too but `Read` overwrites every field
before any is looked at, so they need no argument.
-/

namespace Verif
namespace Bin

/-- client/server.go:50-68. -/
def opGet : UInt8 := 0
/-- client/server.go:52. -/
def opSet : UInt8 := 1
/-- client/server.go:53. -/
def opAdd : UInt8 := 2
/-- client/server.go:54. -/
def opReplace : UInt8 := 3
/-- client/server.go:55. -/
def opDelete : UInt8 := 4
/-- client/server.go:56. -/
def opIncrement : UInt8 := 5
/-- client/server.go:57. -/
def opDecrement : UInt8 := 6
/-- client/server.go:59. -/
def opFlush : UInt8 := 8
/-- client/server.go:61. -/
def opNoop : UInt8 := 10
/-- client/server.go:62. -/
def opVersion : UInt8 := 11
/-- client/server.go:64. -/
def opGetKQ : UInt8 := 13
/-- client/server.go:67. -/
def opTouch : UInt8 := 28

/-- `binaryRequestHeader`, client/server.go:1754-1765.  Numbers are unsigned of the width of
the Go field.  The scratch buffer `buf` is left out: `EncodeTo` overwrites all its 24 bytes. -/
structure ReqHdr where
  opcode : UInt8 := 0
  keyLength : Nat := 0
  extraLength : Nat := 0
  dataType : UInt8 := 0
  vbucketId : Nat := 0
  totalBodyLength : Nat := 0
  opaq : Nat := 0
  cas : Nat := 0
  deriving DecidableEq, Repr

/-- `Reset`, client/server.go:1788-1797. -/
def ReqHdr.reset (_ : ReqHdr) : ReqHdr := {}

/-- `EncodeTo`, client/server.go:1771-1786 (vbucket id and opaque are written as 0). -/
def ReqHdr.encode (h : ReqHdr) : Bytes :=
  [0x80, h.opcode] ++ putBE 2 h.keyLength ++ [UInt8.ofNat h.extraLength, h.dataType]
    ++ putBE 2 0 ++ putBE 4 h.totalBodyLength ++ putBE 4 0 ++ putBE 8 h.cas

/-- `binaryResponseHeader`, client/server.go:1799-1810. -/
structure ResHdr where
  opcode : UInt8
  keyLength : Nat
  extraLength : Nat
  dataType : UInt8
  status : Nat
  totalBodyLength : Nat
  opaq : Nat
  cas : Nat
  deriving DecidableEq, Repr

/-- The fields of a 24-byte response header, client/server.go:1823-1830. -/
def ResHdr.ofBytes (b : Bytes) : ResHdr where
  opcode := b.getD 1 0
  keyLength := getBE ((b.take 4).drop 2)
  extraLength := (b.getD 4 0).toNat
  dataType := b.getD 5 0
  status := getBE ((b.take 8).drop 6)
  totalBodyLength := getBE ((b.take 12).drop 8)
  opaq := getBE ((b.take 16).drop 12)
  cas := getBE ((b.take 24).drop 16)

/-- `binaryResponseHeader.Read`, client/server.go:1816-1833. -/
def readHdr : Rd ResHdr := do
  let b ← readFull 24
  if b.head? ≠ some 0x81 then Rd.fail errInvalidResponse
  else pure (ResHdr.ofBytes b)

/-- `binaryStatus`, client/server.go:70-78. -/
def binaryStatus : List (Nat × Bytes) :=
  [(1, b!"key not found"), (2, b!"key exists"), (3, b!"value too large"),
   (4, b!"invalid arguments"), (6, b!"non-numeric value"), (129, b!"unknown command"),
   (130, b!"out of memory")]

/-- The error for a non-zero status: `memcached: error ...` for a listed status, else
`memcached: unknown error N` (client/server.go:1253-1257 and alike). -/
def statusErr (status : Nat) : Err :=
  match binaryStatus.lookup status with
  | some v => .msg (b!"memcached: error " ++ v)
  | none => .msg (b!"memcached: unknown error " ++ natDec status)

/-- Header of `Get`, client/server.go:1221-1227. -/
def getHdr (h : ReqHdr) (key : Bytes) : ReqHdr :=
  { h.reset with opcode := opGet, keyLength := key.length % 2 ^ 16, totalBodyLength := key.length % 2 ^ 32 }

/-- `uint16(resHeader.ExtraLength)+resHeader.KeyLength` (a 16-bit addition).
(client/server.go:1262, 1323-1325.) -/
def ResHdr.valueStart (r : ResHdr) : Nat := (r.extraLength + r.keyLength) % 2 ^ 16

/-- Reply part of `Get`, client/server.go:1239-1265.  The opcode is not checked. -/
def getReply (key : Bytes) : Rd Item := do
  let r ← readHdr
  let buf ← readFull r.totalBodyLength
  if r.status ≠ 0 then
    if r.status = 1 then Rd.fail .itemNotFound
    else Rd.fail (statusErr r.status)
  else do
    let v ← Rd.lift (sliceFrom buf r.valueStart)
    let f ← Rd.lift (sliceTo buf r.extraLength)
    pure { key := key, value := v, flags := some f, cas := r.cas }

/-- `Get`, client/server.go:1212-1266. -/
def get (h : ReqHdr) (key : Bytes) : Call Item where
  wire := .ok ((getHdr h key).encode ++ key)
  rd := getReply key

/-- Header for one key of `GetMulti`, client/server.go:1280-1283. -/
def getKQHdr (h : ReqHdr) (key : Bytes) : ReqHdr :=
  { h.reset with opcode := opGetKQ, keyLength := key.length % 2 ^ 16, totalBodyLength := key.length % 2 ^ 32 }

/-- Requests of the key loop, client/server.go:1279-1288: the same header object is reset
and refilled for every key; returns the bytes and the header's final contents. -/
def getKQs : ReqHdr → List Bytes → Bytes × ReqHdr
  | h, [] => ([], h)
  | h, k :: ks =>
    let h' := getKQHdr h k
    let q := getKQs h' ks
    (h'.encode ++ k ++ q.1, q.2)

/-- Header of the final no-op, client/server.go:1291-1293. -/
def noopHdr (h : ReqHdr) : ReqHdr := { h.reset with opcode := opNoop }

/-- Read loop of `GetMulti`, client/server.go:1303-1328.  Every round consumes 24 bytes;
fuel as in `Text.parseLoop`. -/
def multiLoop : Nat → List Item → Rd (List Item)
  | 0, _ => Rd.lift .panic
  | n + 1, acc => do
    let r ← readHdr
    if r.opcode = opNoop then pure acc
    else if r.status ≠ 0 then Rd.fail (statusErr r.status)
    else do
      let buf ← readFull r.totalBodyLength
      let k ← Rd.lift (slice buf r.extraLength r.valueStart)
      let v ← Rd.lift (sliceFrom buf r.valueStart)
      let f ← Rd.lift (sliceTo buf r.extraLength)
      multiLoop n (acc ++ [{ key := k, value := v, flags := some f }])

/-- `GetMulti`, client/server.go:1268-1331.  `h1`, `h2` are the two headers taken from the
pool one after the other. -/
def getMulti (h1 h2 : ReqHdr) (keys : List Bytes) : Call (List Item) where
  wire := .ok ((getKQs h1 keys).1 ++ (noopHdr h2).encode)
  rd := fun i => multiLoop (i.length + 1) [] i

/-- `marshalBinaryRequestHeader` on a reset header with the given opcode,
client/client.go:17-25 with client/server.go:1342-1346. -/
def storeHdr (h : ReqHdr) (op : UInt8) (item : Item) : ReqHdr :=
  { h.reset with
      opcode := op
      keyLength := item.key.length % 2 ^ 16
      extraLength := 8
      totalBodyLength := (item.key.length + item.value.length + 8) % 2 ^ 32
      cas := item.cas }

/-- The extras: `item.Flags[:4]` (or zeros when nil) and the expiration,
client/client.go:18-19 and client/server.go:1350-1352.  `item.Flags[:4]` panics on a non-nil
slice shorter than four bytes (model: without spare capacity). -/
def storeExtra (item : Item) : Res Bytes := do
  let f ← match item.flags with
    | none => pure [0, 0, 0, 0]
    | some fl => sliceTo fl 4
  pure (f ++ putBE 4 (toUnsigned 32 item.expiration))

/-- Request of `Set`/`Add`/`Replace`, client/server.go:1342-1358. -/
def storeWire (h : ReqHdr) (op : UInt8) (item : Item) : Res Bytes := do
  let extra ← storeExtra item
  pure ((storeHdr h op item).encode ++ extra ++ item.key ++ item.value)

/-- `Set`, client/server.go:1333-1383.  The body of the reply is not read. -/
def set (h : ReqHdr) (item : Item) : Call Unit where
  wire := storeWire h opSet item
  rd := do
    let r ← readHdr
    if r.opcode ≠ opSet then Rd.fail errInvalidResponse
    else if r.status ≠ 0 then
      if r.status = 2 then Rd.fail .itemExists else Rd.fail (statusErr r.status)
    else pure ()

/-- `Add`, client/server.go:1385-1435.  The body of the reply is not read. -/
def add (h : ReqHdr) (item : Item) : Call Unit where
  wire := storeWire h opAdd item
  rd := do
    let r ← readHdr
    if r.opcode ≠ opAdd then Rd.fail errInvalidResponse
    else if r.status ≠ 0 then
      if r.status = 2 then Rd.fail .itemExists else Rd.fail (statusErr r.status)
    else pure ()

/-- `Replace`, client/server.go:1437-1492.  The body is read. -/
def replace (h : ReqHdr) (item : Item) : Call Unit where
  wire := storeWire h opReplace item
  rd := do
    let r ← readHdr
    if r.opcode ≠ opReplace then Rd.fail errInvalidResponse
    else do
      let _ ← readFull r.totalBodyLength
      if r.status ≠ 0 then
        if r.status = 1 then Rd.fail .itemNotFound else Rd.fail (statusErr r.status)
      else pure ()

/-- Header of `Delete`, client/server.go:1503-1509. -/
def deleteHdr (h : ReqHdr) (key : Bytes) : ReqHdr :=
  { h.reset with opcode := opDelete, keyLength := key.length % 2 ^ 16, totalBodyLength := key.length % 2 ^ 32 }

/-- `Delete`, client/server.go:1494-1546.  The body is read. -/
def delete (h : ReqHdr) (key : Bytes) : Call Unit where
  wire := .ok ((deleteHdr h key).encode ++ key)
  rd := do
    let r ← readHdr
    if r.opcode ≠ opDelete then Rd.fail errInvalidResponse
    else do
      let _ ← readFull r.totalBodyLength
      if r.status ≠ 0 then
        if r.status = 1 then Rd.fail .itemNotFound else Rd.fail (statusErr r.status)
      else pure ()

/-- Extras of `incrOrDecr`, client/server.go:1565-1568. -/
def incrExtra (delta expiration : Int) : Bytes :=
  putBE 8 (toUnsigned 64 delta) ++ putBE 8 1 ++ putBE 4 (toUnsigned 32 expiration)

/-- Header of `incrOrDecr`, client/server.go:1569-1575: **not** reset, so `dataType` and
`cas` keep the values of the previous user of the header. -/
def incrHdr (h : ReqHdr) (op : UInt8) (key : Bytes) : ReqHdr :=
  { h with opcode := op, keyLength := key.length % 2 ^ 16, extraLength := 20,
           totalBodyLength := (key.length + 20) % 2 ^ 32 }

/-- `incrOrDecr`, client/server.go:1556-1618. -/
def incrOrDecr (h : ReqHdr) (op : UInt8) (key : Bytes) (delta expiration : Int) : Call Int where
  wire := .ok ((incrHdr h op key).encode ++ incrExtra delta expiration ++ key)
  rd := do
    let r ← readHdr
    if r.opcode ≠ op then Rd.fail errInvalidResponse
    else do
      let body ← readFull r.totalBodyLength
      if r.status ≠ 0 then
        match binaryStatus.lookup r.status with
        | some v =>
          Rd.fail (.msg (b!"memcached: error " ++ v
            ++ (if 0 < body.length then b!" (" ++ body ++ b!")" else [])))
        | none =>
          Rd.fail (.msg (b!"memcached: unknown error " ++ natDec r.status ++ b!" (" ++ body ++ b!")"))
      else do
        let n ← Rd.lift (beUint 8 body)
        pure (toSigned 64 n)

/-- `Increment`, client/server.go:1548-1550. -/
def increment (h : ReqHdr) (key : Bytes) (delta expiration : Int) : Call Int :=
  incrOrDecr h opIncrement key delta expiration

/-- `Decrement`, client/server.go:1552-1554. -/
def decrement (h : ReqHdr) (key : Bytes) (delta expiration : Int) : Call Int :=
  incrOrDecr h opDecrement key delta expiration

/-- Header of `Touch`, client/server.go:1631-1638. -/
def touchHdr (h : ReqHdr) (key : Bytes) : ReqHdr :=
  { h.reset with opcode := opTouch, extraLength := 4, keyLength := key.length % 2 ^ 16,
                 totalBodyLength := (key.length + 4) % 2 ^ 32 }

/-- `Touch`, client/server.go:1620-1664.  The body of the reply is not read. -/
def touch (h : ReqHdr) (key : Bytes) (expiration : Int) : Call Unit where
  wire := .ok ((touchHdr h key).encode ++ putBE 4 (toUnsigned 32 expiration) ++ key)
  rd := do
    let r ← readHdr
    if r.status ≠ 0 then Rd.fail (statusErr r.status) else pure ()

/-- `Flush`, client/server.go:1666-1697: neither the status nor the body is looked at. -/
def flush (h : ReqHdr) : Call Unit where
  wire := .ok ({ h.reset with opcode := opFlush } : ReqHdr).encode
  rd := do
    let r ← readHdr
    if r.opcode ≠ opFlush then Rd.fail errInvalidResponse else pure ()

/-- `Version`, client/server.go:1699-1738. -/
def version (h : ReqHdr) : Call Bytes where
  wire := .ok ({ h.reset with opcode := opVersion } : ReqHdr).encode
  rd := do
    let r ← readHdr
    if r.status ≠ 0 then Rd.fail (statusErr r.status)
    else readFull r.totalBodyLength

end Bin
end Verif
