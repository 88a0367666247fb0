import Verif.Go.Bufio
import Verif.Lemmas.ClientStable
import Verif.Server.Serve
/-!
The readers of `Client/Text.lean`, `Client/Meta.lean`, `Client/Binary.lean` and `Server/Read.lean`
once more, now on a `bufio.Reader` that gets its bytes in pieces (`Go/Bufio.lean`): the same code with
the calls of `ReadSlice`, `ReadBytes`, `io.ReadFull` and `Peek` being those of the buffered reader.
Loops have fuel for all bytes that can still arrive.
-/

namespace Verif
set_option linter.unusedVariables false

namespace Seg

namespace Text
open Verif.Text

/-- Reply part of `Get`, client/server.go:217-257. -/
def getReply (name : Bytes) : Crd Item := do
  let b ← Bufio.readSlice
  if b = msgEnd then Crd.fail .itemNotFound
  else if hasPrefix b b!"VALUE" = false then Crd.fail errInvalidResponse
  else
    -- `bytes.Count(b, " ") == 3` selects the format without cas (232-235)
    match Scan.scanValue (b.count 32 != 3) b with
    | none => Crd.fail .scan
    | some (key, flags, size, cas) => do
      let buf ← Bufio.readN (size + 2)
      let v ← Crd.lift (sliceTo buf size)
      let e ← Bufio.readSlice
      if e ≠ msgEnd then Crd.fail errInvalidResponse
      else pure { key := key, value := v, flags := some (putBE 4 flags), cas := cas, server := name }

/-- `Get`, client/server.go:198-258. -/
def get (name key : Bytes) : Crd Item := getReply name

/-- One `VALUE` block of `parseGetResponse`, client/server.go:302-333, given its header
line `b`. -/
def parseBlock (b : Bytes) : Crd Item := do
  let s := splitSp b
  if s.head? ≠ some b!"VALUE" then Crd.fail errInvalidResponse
  else do
    let s2 ← Crd.lift (index s 2)
    let f ← Crd.lift (numRes (parseInt s2 64))
    let s3 ← Crd.lift (index s 3)
    let sz ← if s.length = 4 then Crd.lift (sliceTo s3 (s3.length - 2)) else pure s3
    let size ← Crd.lift (numRes (parseInt sz 64))
    let k ← Crd.lift (makeLen (size + 2))
    let s1 ← Crd.lift (index s 1)
    let buf ← Bufio.readFull k
    let v ← Crd.lift (sliceTo buf size)
    pure { key := s1, flags := some (putBE 4 (toUnsigned 32 f)), value := v }

/-- Loop of `parseGetResponse`, client/server.go:292-337.  Each round consumes at least the
LF of a line, so a fuel of the stream length plus one never runs out (`parseLoop_fuel`);
running out is marked as a panic so that it could not be mistaken for a result. -/
def parseLoop : Nat → List Item → Crd (List Item)
  | 0, _ => Crd.lift .panic
  | n + 1, acc => do
    let b ← Bufio.readSlice
    if b = msgEnd then pure acc
    else do
      let item ← parseBlock b
      parseLoop n (acc ++ [item])

/-- `parseGetResponse`, client/server.go:292-337. -/
def parseGetResponse : Crd (List Item) := fun c => parseLoop (c.all.length + 1) [] c

/-- `GetMulti`, client/server.go:260-290. -/
def getMulti (name : Bytes) (keys : List Bytes) : Crd (List Item) := do
    let items ← parseGetResponse
    pure (items.map (fun v => { v with server := name }))

/-- `Delete`, client/server.go:339-370. -/
def delete (key : Bytes) : Crd Unit := do
    let b ← Bufio.readSlice
    if b = msgDeleted then pure ()
    else if b = msgNotFound then Crd.fail .itemNotFound
    else pure ()

/-- `incrOrDecr`, client/server.go:380-414. -/
def incrOrDecr (op key : Bytes) (delta : Int) : Crd Int := do
    let b ← Bufio.readSlice
    if b = msgNotFound then Crd.fail .itemNotFound
    else do
      let d ← Crd.lift (sliceTo b (b.length - 2))
      Crd.lift (numRes (parseInt d 64))

/-- `Increment`, client/server.go:372-374 (the expiration is ignored). -/
def increment (key : Bytes) (delta _expiration : Int) : Crd Int := incrOrDecr b!"incr" key delta

/-- `Decrement`, client/server.go:376-378 (the expiration is ignored). -/
def decrement (key : Bytes) (delta _expiration : Int) : Crd Int := incrOrDecr b!"decr" key delta

/-- `Touch`, client/server.go:416-448. -/
def touch (key : Bytes) (expiration : Int) : Crd Unit := do
    let b ← Bufio.readSlice
    if b = msgTouched then pure ()
    else if b = msgNotFound then Crd.fail .itemNotFound
    else pure ()

/-- `Set`, client/server.go:450-495. -/
def set (item : Item) : Crd Unit := do
    let b ← Bufio.readSlice
    if b = msgStored then pure ()
    else if b = msgExists then Crd.fail .itemExists
    else Crd.fail (.msg (b!"memcached: failed set: " ++ b))

/-- `Add`, client/server.go:497-532. -/
def add (item : Item) : Crd Unit := do
    let b ← Bufio.readSlice
    if b = msgStored then pure () else Crd.fail .itemExists

/-- `Replace`, client/server.go:534-569. -/
def replace (item : Item) : Crd Unit := do
    let b ← Bufio.readSlice
    if b = msgStored then pure () else Crd.fail .itemNotFound

/-- `Flush`, client/server.go:571-601. -/
def flush : Crd Unit := do
    let b ← Bufio.readSlice
    if b = msgOk then pure ()
    else do
      let d ← Crd.lift (sliceTo b (b.length - 2))
      Crd.fail (.msg (b!"memcached: " ++ d))

/-- `Version`, client/server.go:603-632. -/
def version : Crd Bytes := do
    let b ← Bufio.readSlice
    -- a line is never empty, so lines 628-631 always take the first branch
    pure (trimSuffix (trimPrefix b b!"VERSION ") crlf)

end Text

namespace Meta
open Verif.Meta

/-- `parseGetResponse`, client/server.go:762-826. -/
def parseGetResponse : Crd Item := do
  let b ← Bufio.readSlice
  if b = msgEnd then Crd.fail .itemNotFound
  else if b = msgNoop then Crd.fail .itemNotFound
  else if hasPrefix b b!"VA" = false then Crd.fail (.msg b!"memcached: invalid get response")
  else do
    let body ← Crd.lift (sliceFrom b 3)
    let st ← Crd.lift (hdrScan {} body)
    let buf ← Bufio.readN (st.size + 2)
    let v ← Crd.lift (sliceTo buf st.size)
    pure { st.item with value := v }

/-- `Get`, client/server.go:701-723. -/
def get (key : Bytes) : Crd Item := do
    let item ← parseGetResponse
    pure { item with key := key }

/-- Read loop of `GetMulti`, client/server.go:745-757: stops at the first ItemNotFound
(an `EN` as well as the final `MN`).  Fuel as in `Text.parseLoop`. -/
def multiLoop : Nat → List Item → Crd (List Item)
  | 0, _ => Crd.lift .panic
  | n + 1, acc => fun i =>
    match parseGetResponse i with
    | (.ok item, r) => multiLoop n (acc ++ [item]) r
    | (.err .itemNotFound, r) => (.ok acc, r)
    | (.err e, r) => (.err e, r)
    | (.panic, r) => (.panic, r)

/-- `GetMulti`, client/server.go:725-760. -/
def getMulti (keys : List Bytes) : Crd (List Item) := fun c => multiLoop (c.all.length + 1) [] c

/-- `Set`, client/server.go:857-902. -/
def set (item : Item) : Crd Unit := do
    let b ← Bufio.readSlice
    if hasPrefix b b!"HD" then pure ()
    else if hasPrefix b b!"NS" then Crd.fail (.msg b!"memcached: not stored")
    else if hasPrefix b b!"EX" then Crd.fail .itemExists
    else if hasPrefix b b!"NF" then Crd.fail .itemNotFound
    else Crd.fail (.msg b!"memcached: failed set")

/-- `Add`, client/server.go:904-936 (the same bytes and the same reading of the reply as the
text protocol). -/
def add (item : Item) : Crd Unit := do
    let b ← Bufio.readSlice
    if b = Text.msgStored then pure () else Crd.fail .itemExists

/-- `Replace`, client/server.go:938-970. -/
def replace (item : Item) : Crd Unit := do
    let b ← Bufio.readSlice
    if b = Text.msgStored then pure () else Crd.fail .itemNotFound

/-- `Delete`, client/server.go:972-1002. -/
def delete (key : Bytes) : Crd Unit := do
    let b ← Bufio.readSlice
    if hasPrefix b b!"HD" then pure ()
    else if hasPrefix b b!"NF" then pure ()
    else if hasPrefix b b!"EX" then Crd.fail .itemNotFound
    else Crd.fail (.msg b!"memcached: failed delete")

/-- `incrOrDecr`, client/server.go:1016-1046. -/
def incrOrDecr (op key : Bytes) (delta : Int) : Crd Int := do
    let b ← Bufio.readSlice
    if b = Text.msgNotFound then Crd.fail .itemNotFound
    else do
      let d ← Crd.lift (sliceTo b (b.length - 2))
      Crd.lift (numRes (parseInt d 64))

/-- `Increment`, client/server.go:1006-1008. -/
def increment (key : Bytes) (delta _expiration : Int) : Crd Int := incrOrDecr b!"incr" key delta

/-- `Decrement`, client/server.go:1012-1014. -/
def decrement (key : Bytes) (delta _expiration : Int) : Crd Int := incrOrDecr b!"decr" key delta

/-- `Touch`, client/server.go:1048-1075: `md <key> I T<exp>`. -/
def touch (key : Bytes) (expiration : Int) : Crd Unit := do
    let b ← Bufio.readSlice
    if hasPrefix b b!"HD" then pure ()
    else Crd.fail (.msg b!"memcached: failed touch")

/-- `Flush`, client/server.go:1077-1103. -/
def flush : Crd Unit := do
    let b ← Bufio.readSlice
    if b = Text.msgOk then pure ()
    else do
      let d ← Crd.lift (sliceTo b (b.length - 2))
      Crd.fail (.msg (b!"memcached: " ++ d))

/-- `Version`, client/server.go:1105-1130. -/
def version : Crd Bytes := do
    let b ← Bufio.readSlice
    pure (trimSuffix (trimPrefix b b!"VERSION ") crlf)

end Meta

namespace Bin
open Verif.Bin

/-- `binaryResponseHeader.Read`, client/server.go:1816-1833. -/
def readHdr : Crd ResHdr := do
  let b ← Bufio.readFull 24
  if b.head? ≠ some 0x81 then Crd.fail errInvalidResponse
  else pure (ResHdr.ofBytes b)

/-- Reply part of `Get`, client/server.go:1239-1265.  The opcode is not checked. -/
def getReply (key : Bytes) : Crd Item := do
  let r ← readHdr
  let buf ← Bufio.readFull r.totalBodyLength
  if r.status ≠ 0 then
    if r.status = 1 then Crd.fail .itemNotFound
    else Crd.fail (statusErr r.status)
  else do
    let v ← Crd.lift (sliceFrom buf r.valueStart)
    let f ← Crd.lift (sliceTo buf r.extraLength)
    pure { key := key, value := v, flags := some f, cas := r.cas }

/-- `Get`, client/server.go:1212-1266. -/
def get (h : ReqHdr) (key : Bytes) : Crd Item := getReply key

/-- Read loop of `GetMulti`, client/server.go:1303-1328.  Every round consumes 24 bytes;
fuel as in `Text.parseLoop`. -/
def multiLoop : Nat → List Item → Crd (List Item)
  | 0, _ => Crd.lift .panic
  | n + 1, acc => do
    let r ← readHdr
    if r.opcode = opNoop then pure acc
    else if r.status ≠ 0 then Crd.fail (statusErr r.status)
    else do
      let buf ← Bufio.readFull r.totalBodyLength
      let k ← Crd.lift (slice buf r.extraLength r.valueStart)
      let v ← Crd.lift (sliceFrom buf r.valueStart)
      let f ← Crd.lift (sliceTo buf r.extraLength)
      multiLoop n (acc ++ [{ key := k, value := v, flags := some f }])

/-- `GetMulti`, client/server.go:1268-1331.  `h1`, `h2` are the two headers taken from the
pool one after the other. -/
def getMulti (h1 h2 : ReqHdr) (keys : List Bytes) : Crd (List Item) := fun c => multiLoop (c.all.length + 1) [] c

/-- `Set`, client/server.go:1333-1383.  The body of the reply is not read. -/
def set (h : ReqHdr) (item : Item) : Crd Unit := do
    let r ← readHdr
    if r.opcode ≠ opSet then Crd.fail errInvalidResponse
    else if r.status ≠ 0 then
      if r.status = 2 then Crd.fail .itemExists else Crd.fail (statusErr r.status)
    else pure ()

/-- `Add`, client/server.go:1385-1435.  The body of the reply is not read. -/
def add (h : ReqHdr) (item : Item) : Crd Unit := do
    let r ← readHdr
    if r.opcode ≠ opAdd then Crd.fail errInvalidResponse
    else if r.status ≠ 0 then
      if r.status = 2 then Crd.fail .itemExists else Crd.fail (statusErr r.status)
    else pure ()

/-- `Replace`, client/server.go:1437-1492.  The body is read. -/
def replace (h : ReqHdr) (item : Item) : Crd Unit := do
    let r ← readHdr
    if r.opcode ≠ opReplace then Crd.fail errInvalidResponse
    else do
      let _ ← Bufio.readFull r.totalBodyLength
      if r.status ≠ 0 then
        if r.status = 1 then Crd.fail .itemNotFound else Crd.fail (statusErr r.status)
      else pure ()

/-- `Delete`, client/server.go:1494-1546.  The body is read. -/
def delete (h : ReqHdr) (key : Bytes) : Crd Unit := do
    let r ← readHdr
    if r.opcode ≠ opDelete then Crd.fail errInvalidResponse
    else do
      let _ ← Bufio.readFull r.totalBodyLength
      if r.status ≠ 0 then
        if r.status = 1 then Crd.fail .itemNotFound else Crd.fail (statusErr r.status)
      else pure ()

/-- `incrOrDecr`, client/server.go:1556-1618. -/
def incrOrDecr (h : ReqHdr) (op : UInt8) (key : Bytes) (delta expiration : Int) : Crd Int := do
    let r ← readHdr
    if r.opcode ≠ op then Crd.fail errInvalidResponse
    else do
      let body ← Bufio.readFull r.totalBodyLength
      if r.status ≠ 0 then
        match binaryStatus.lookup r.status with
        | some v =>
          Crd.fail (.msg (b!"memcached: error " ++ v
            ++ (if 0 < body.length then b!" (" ++ body ++ b!")" else [])))
        | none =>
          Crd.fail (.msg (b!"memcached: unknown error " ++ natDec r.status ++ b!" (" ++ body ++ b!")"))
      else do
        let n ← Crd.lift (beUint 8 body)
        pure (toSigned 64 n)

/-- `Increment`, client/server.go:1548-1550. -/
def increment (h : ReqHdr) (key : Bytes) (delta expiration : Int) : Crd Int :=
  incrOrDecr h opIncrement key delta expiration

/-- `Decrement`, client/server.go:1552-1554. -/
def decrement (h : ReqHdr) (key : Bytes) (delta expiration : Int) : Crd Int :=
  incrOrDecr h opDecrement key delta expiration

/-- `Touch`, client/server.go:1620-1664.  The body of the reply is not read. -/
def touch (h : ReqHdr) (key : Bytes) (expiration : Int) : Crd Unit := do
    let r ← readHdr
    if r.status ≠ 0 then Crd.fail (statusErr r.status) else pure ()

/-- `Flush`, client/server.go:1666-1697: neither the status nor the body is looked at. -/
def flush (h : ReqHdr) : Crd Unit := do
    let r ← readHdr
    if r.opcode ≠ opFlush then Crd.fail errInvalidResponse else pure ()

/-- `Version`, client/server.go:1699-1738. -/
def version (h : ReqHdr) : Crd Bytes := do
    let r ← readHdr
    if r.status ≠ 0 then Crd.fail (statusErr r.status)
    else Bufio.readFull r.totalBodyLength

end Bin

namespace Srv
open Verif.Srv

/-- `set`, `add`, `replace`, server/server.go:134-167. -/
def readStore (op : UInt8) (s : List Bytes) : Crd Request := do
  match s with
  | [_, key, sf, se, sl] => do
    let f ← Crd.lift (numRes (parseInt sf 32))
    let e ← Crd.lift (numRes (parseInt se 32))
    let n ← Crd.lift (numRes (parseInt sl 32))
    let buf ← Bufio.readN (n + 2)
    let v ← Crd.lift (sliceTo buf n)
    pure { opcode := op, key := key, flags := some (putBE 4 (toUnsigned 32 f)), value := v,
           setOpt := some { expiration := e } }
  | _ => Crd.fail errInvalidRequest

/-- `delete`, `md`, server/server.go:168-176. -/
def readDelete (isMeta : Bool) (s : List Bytes) : Crd Request :=
  match s with
  | [_, key] => pure { opcode := opDelete, key := key, delOpt := some { metaCmd := isMeta } }
  | _ => Crd.fail errInvalidRequest

/-- `incr`, `decr`, `touch`, server/server.go:177-192. -/
def readDelta (op : UInt8) (s : List Bytes) : Crd Request :=
  match s with
  | [_, key, sd] => do
    let d ← Crd.lift (numRes (parseInt sd 32))
    pure { opcode := op, key := key, delta := d }
  | _ => Crd.fail errInvalidRequest

/-- `mg`, server/server.go:193-224. -/
def readMg (s : List Bytes) : Crd Request :=
  match s with
  | _ :: key :: fl :: _ =>
    pure { opcode := opGet, key := key,
           getOpt := some (fl.foldl mgFlag { metaCmd := true, requestFlag := fl }) }
  | _ => Crd.fail errInvalidRequest

/-- `ms`, server/server.go:225-285.  `len(s[2]) > 0` (235) always holds once `ParseUint`
has accepted `s[2]`. -/
def readMs (s : List Bytes) : Crd Request :=
  match s with
  | _ :: key :: sz :: tokens => do
    let v ← Crd.lift (numRes (parseUint sz 32))
    let opt ← Crd.lift (msTokens { metaCmd := true, size := (v : Int) } tokens)
    let buf ← Bufio.readN (opt.size + 2)
    let val ← Crd.lift (sliceTo buf opt.size)
    pure { opcode := opSet, key := key, value := val, setOpt := some opt }
  | _ => Crd.fail errInvalidRequest

/-- The switch of `readAsciiRequest` on the split request line, server/server.go:121-292. -/
def asciiRequest (s : List Bytes) : Crd Request :=
  match s with
  | [] => Crd.fail errInvalidRequest
  | cmd :: args =>
    if cmd = b!"get" then
      match args with
      | [key] => pure { opcode := opGet, key := key }
      | _ => Crd.fail errInvalidRequest
    else if cmd = b!"gets" then pure { opcode := opGet, keys := some args }
    else if cmd = b!"set" then readStore opSet s
    else if cmd = b!"add" then readStore opAdd s
    else if cmd = b!"replace" then readStore opReplace s
    else if cmd = b!"delete" then readDelete false s
    else if cmd = b!"md" then readDelete true s
    else if cmd = b!"incr" then readDelta opIncrement s
    else if cmd = b!"decr" then readDelta opDecrement s
    else if cmd = b!"touch" then readDelta opTouch s
    else if cmd = b!"mg" then readMg s
    else if cmd = b!"ms" then readMs s
    else if cmd = b!"flush_all" then pure { opcode := opFlush }
    else if cmd = b!"version" then pure { opcode := opVersion }
    else Crd.fail errInvalidRequest

/-- `readAsciiRequest`, server/server.go:116-293. -/
def readAscii : Crd Request := do
  let line ← Bufio.readBytes
  asciiRequest (splitSp (trimSuffix line crlf))

/-- The switch of `readBinaryRequest` on a 24-byte header, server/server.go:304-393. -/
def binaryRequest (h : Bytes) : Crd Request :=
  let op := h.getD 1 0
  if op = opGet then do
    let key ← Bufio.readFull (hdrKeyLen h)
    pure { opcode := opGet, key := key }
  else if op = opGetKQ then do
    let key ← Bufio.readFull (hdrKeyLen h)
    pure { opcode := opGet, key := key, getOpt := some { noReply := true, key := true } }
  else if op = opSet ∨ op = opAdd ∨ op = opReplace then do
    let extra ← Bufio.readFull (h.getD 4 0).toNat
    let e ← Crd.lift (slice extra 4 8)
    let key ← Bufio.readFull (hdrKeyLen h)
    let buf ← Bufio.readN ((getBE ((h.take 12).drop 8) : Int) - extra.length - hdrKeyLen h)
    let f ← Crd.lift (sliceTo extra 4)
    pure { opcode := op, key := key, value := buf, flags := some f,
           setOpt := some { expiration := getBE e } }
  else if op = opDelete then do
    let key ← Bufio.readFull (hdrKeyLen h)
    pure { opcode := opDelete, key := key }
  else if op = opIncrement ∨ op = opDecrement then do
    let extra ← Bufio.readFull (h.getD 4 0).toNat
    let d ← Crd.lift (sliceTo extra 8)
    let e ← Crd.lift (slice extra 16 20)
    let key ← Bufio.readFull (hdrKeyLen h)
    pure { opcode := op, key := key, delta := toSigned 64 (getBE d),
           setOpt := some { expiration := getBE e } }
  else if op = opTouch then do
    let extra ← Bufio.readFull (h.getD 4 0).toNat
    let e ← Crd.lift (sliceTo extra 4)
    let key ← Bufio.readFull (hdrKeyLen h)
    pure { opcode := opTouch, key := key, setOpt := some { expiration := getBE e } }
  else if op = opNoop ∨ op = opVersion ∨ op = opFlush then
    pure { opcode := op }
  else Crd.fail errInvalidRequest

/-- `readBinaryRequest`, server/server.go:295-394. -/
def readBinary : Crd Request := do
  let h ← Bufio.readFull 24
  if h.head? ≠ some 0x80 then Crd.fail errInvalidRequest
  else binaryRequest h

/-- `detectProtocol`, server/server.go:79-91: looks at the first byte without consuming it. -/
def detect : Crd Protocol := do
  let b ← Bufio.peek1
  pure (if b = 0x80 then .binary else .ascii)

/-- The protocol used for the next request, server/server.go:99-104: detected once, then
kept. -/
def protoOf (p : Option Protocol) : Crd Protocol :=
  match p with
  | none => detect
  | some q => pure q

/-- The switch on the protocol, server/server.go:106-111. -/
def readBody : Protocol → Crd Request
  | .ascii => readAscii
  | .binary => readBinary

/-- `readRequest`, server/server.go:99-114; also returns the connection's protocol field
afterwards. -/
def readRequest (p : Option Protocol) : Crd (Protocol × Request) := do
  let q ← protoOf p
  let req ← readBody q
  pure (q, req)

end Srv

/-- Convert the result of a reader. (Auxiliary.) -/
def map {α β : Type} (f : α → β) (m : Crd α) : Crd β := fun c => ((m c).1.map f, (m c).2)

open Spec

/-- The reading part of an operation of a text connection (as `Mc.textCall`). (client/server.go:198-632.) -/
def textRd (name : Bytes) : Op → Crd Out
  | .get k => map .item (Text.get name k)
  | .getMulti ks => map .items (Text.getMulti name ks)
  | .set i => map (fun _ => .done) (Text.set i)
  | .add i => map (fun _ => .done) (Text.add i)
  | .replace i => map (fun _ => .done) (Text.replace i)
  | .delete k => map (fun _ => .done) (Text.delete k)
  | .increment k d e => map .num (Text.increment k d e)
  | .decrement k d e => map .num (Text.decrement k d e)
  | .touch k e => map (fun _ => .done) (Text.touch k e)
  | .flush => map (fun _ => .done) Text.flush

/-- The reading part of an operation of a meta connection (as `Mc.metaCall`). (client/server.go:701-1130.) -/
def metaRd : Op → Crd Out
  | .get k => map .item (Meta.get k)
  | .getMulti ks => map .items (Meta.getMulti ks)
  | .set i => map (fun _ => .done) (Meta.set i)
  | .add i => map (fun _ => .done) (Meta.add i)
  | .replace i => map (fun _ => .done) (Meta.replace i)
  | .delete k => map (fun _ => .done) (Meta.delete k)
  | .increment k d e => map .num (Meta.increment k d e)
  | .decrement k d e => map .num (Meta.decrement k d e)
  | .touch k e => map (fun _ => .done) (Meta.touch k e)
  | .flush => map (fun _ => .done) Meta.flush

/-- The reading part of an operation of a binary connection (as `Mc.binCall`).
(client/server.go:1212-1738.) -/
def binRd (h1 h2 : Verif.Bin.ReqHdr) : Op → Crd Out
  | .get k => map .item (Bin.get h1 k)
  | .getMulti ks => map .items (Bin.getMulti h1 h2 ks)
  | .set i => map (fun _ => .done) (Bin.set h1 i)
  | .add i => map (fun _ => .done) (Bin.add h1 i)
  | .replace i => map (fun _ => .done) (Bin.replace h1 i)
  | .delete k => map (fun _ => .done) (Bin.delete h1 k)
  | .increment k d e => map .num (Bin.increment h1 k d e)
  | .decrement k d e => map .num (Bin.decrement h1 k d e)
  | .touch k e => map (fun _ => .done) (Bin.touch h1 k e)
  | .flush => map (fun _ => .done) (Bin.flush h1)

/-- `serve` and `serveRequest`, server/server.go:493-515, on a buffered connection: as `Srv.serve`.
Every request takes at least one byte, so the fuel `serve` gives does not run out; running out is
marked as a crash. -/
def serveLoop {σ : Type} (h : Verif.Srv.Handler σ) : Nat → Option Verif.Srv.Protocol → σ → Sock → Verif.Srv.Session σ
  | 0, _, s, _ => ⟨[], [], s, .crashed⟩
  | n + 1, p, s, c =>
    match Srv.readRequest p c with
    | (.err _, _) => ⟨[], [], s, .closed⟩
    | (.panic, _) => ⟨[], [], s, .crashed⟩
    | (.ok (q, req), c') =>
      match h s req with
      | (.err _, s') => ⟨[req], [], s', .closed⟩
      | (.panic, s') => ⟨[req], [], s', .crashed⟩
      | (.ok res, s') =>
        match Verif.Srv.writeResponse q req res with
        | .err _ => ⟨[req], [], s', .closed⟩
        | .panic => ⟨[req], [], s', .crashed⟩
        | .ok b =>
          let rest := serveLoop h n (some q) s' c'
          ⟨req :: rest.handled, b ++ rest.out, rest.state, rest.fin⟩

/-- The whole connection. (server/server.go:475-515.) -/
def serve {σ : Type} (h : Verif.Srv.Handler σ) (p : Option Verif.Srv.Protocol) (s : σ) (c : Sock) : Verif.Srv.Session σ :=
  serveLoop h (c.all.length + 1) p s c

end Seg
end Verif
