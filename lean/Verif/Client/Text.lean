import Verif.Client.Types
import Verif.Go.Fscanf
/-!
`ServerWithTextProtocol` (client/server.go:119-632), operation by operation, on an open
connection.  The check for a closed connection and the mutex are modelled in
`Client/Life.lean` and `Client/Sched.lean`; deadlines are streams that end.
-/

namespace Verif
namespace Text

/-- client/server.go:29. -/
def msgEnd : Bytes := b!"END\r\n"
/-- client/server.go:23. -/
def msgStored : Bytes := b!"STORED\r\n"
/-- client/server.go:24. -/
def msgDeleted : Bytes := b!"DELETED\r\n"
/-- client/server.go:25. -/
def msgNotFound : Bytes := b!"NOT_FOUND\r\n"
/-- client/server.go:26. -/
def msgTouched : Bytes := b!"TOUCHED\r\n"
/-- client/server.go:27. -/
def msgExists : Bytes := b!"EXISTS\r\n"
/-- client/server.go:28. -/
def msgOk : Bytes := b!"OK\r\n"

/-- Reply part of `Get`, client/server.go:217-257. -/
def getReply (name : Bytes) : Rd Item := do
  let b ← readSlice
  if b = msgEnd then Rd.fail .itemNotFound
  else if hasPrefix b b!"VALUE" = false then Rd.fail errInvalidResponse
  else
    -- `bytes.Count(b, " ") == 3` selects the format without cas (232-235)
    match Scan.scanValue (b.count 32 != 3) b with
    | none => Rd.fail .scan
    | some (key, flags, size, cas) => do
      let buf ← readN (size + 2)
      let v ← Rd.lift (sliceTo buf size)
      let e ← readSlice
      if e ≠ msgEnd then Rd.fail errInvalidResponse
      else pure { key := key, value := v, flags := some (putBE 4 flags), cas := cas, server := name }

/-- `Get`, client/server.go:198-258. -/
def get (name key : Bytes) : Call Item where
  wire := .ok (b!"gets " ++ key ++ crlf)
  rd := getReply name

/-- One `VALUE` block of `parseGetResponse`, client/server.go:302-333, given its header
line `b`. -/
def parseBlock (b : Bytes) : Rd Item := do
  let s := splitSp b
  if s.head? ≠ some b!"VALUE" then Rd.fail errInvalidResponse
  else do
    let s2 ← Rd.lift (index s 2)
    let f ← Rd.lift (numRes (parseInt s2 64))
    let s3 ← Rd.lift (index s 3)
    let sz ← if s.length = 4 then Rd.lift (sliceTo s3 (s3.length - 2)) else pure s3
    let size ← Rd.lift (numRes (parseInt sz 64))
    let k ← Rd.lift (makeLen (size + 2))
    let s1 ← Rd.lift (index s 1)
    let buf ← readFull k
    let v ← Rd.lift (sliceTo buf size)
    pure { key := s1, flags := some (putBE 4 (toUnsigned 32 f)), value := v }

/-- Loop of `parseGetResponse`, client/server.go:292-337.  Each round consumes at least the
LF of a line, so a fuel of the stream length plus one never runs out (`parseLoop_fuel`);
running out is marked as a panic so that it could not be mistaken for a result. -/
def parseLoop : Nat → List Item → Rd (List Item)
  | 0, _ => Rd.lift .panic
  | n + 1, acc => do
    let b ← readSlice
    if b = msgEnd then pure acc
    else do
      let item ← parseBlock b
      parseLoop n (acc ++ [item])

/-- `parseGetResponse`, client/server.go:292-337. -/
def parseGetResponse : Rd (List Item) := fun i => parseLoop (i.length + 1) [] i

/-- `GetMulti`, client/server.go:260-290. -/
def getMulti (name : Bytes) (keys : List Bytes) : Call (List Item) where
  wire := .ok (b!"gets " ++ joinSp keys ++ crlf)
  rd := do
    let items ← parseGetResponse
    pure (items.map (fun v => { v with server := name }))

/-- `Delete`, client/server.go:339-370. -/
def delete (key : Bytes) : Call Unit where
  wire := .ok (b!"delete " ++ key ++ crlf)
  rd := do
    let b ← readSlice
    if b = msgDeleted then pure ()
    else if b = msgNotFound then Rd.fail .itemNotFound
    else pure ()

/-- `incrOrDecr`, client/server.go:380-414. -/
def incrOrDecr (op key : Bytes) (delta : Int) : Call Int where
  wire := .ok (op ++ 32 :: key ++ 32 :: intDec delta ++ crlf)
  rd := do
    let b ← readSlice
    if b = msgNotFound then Rd.fail .itemNotFound
    else do
      let d ← Rd.lift (sliceTo b (b.length - 2))
      Rd.lift (numRes (parseInt d 64))

/-- `Increment`, client/server.go:372-374 (the expiration is ignored). -/
def increment (key : Bytes) (delta _expiration : Int) : Call Int := incrOrDecr b!"incr" key delta

/-- `Decrement`, client/server.go:376-378 (the expiration is ignored). -/
def decrement (key : Bytes) (delta _expiration : Int) : Call Int := incrOrDecr b!"decr" key delta

/-- `Touch`, client/server.go:416-448. -/
def touch (key : Bytes) (expiration : Int) : Call Unit where
  wire := .ok (b!"touch " ++ key ++ 32 :: intDec expiration ++ crlf)
  rd := do
    let b ← readSlice
    if b = msgTouched then pure ()
    else if b = msgNotFound then Rd.fail .itemNotFound
    else pure ()

/-- The flags number put on the wire, client/server.go:463-466 (also 510-513, 547-550):
zero unless the slice has exactly four bytes. -/
def flagsNum (flags : Option Bytes) : Nat :=
  match flags with
  | some f => if f.length = 4 then getBE f else 0
  | none => 0

/-- Request of `Set`, client/server.go:463-478. -/
def setWire (item : Item) : Bytes :=
  (if 0 < item.cas then
    b!"cas " ++ item.key ++ 32 :: natDec (flagsNum item.flags) ++ 32 :: intDec item.expiration
      ++ 32 :: natDec item.value.length ++ 32 :: natDec item.cas ++ crlf
  else
    b!"set " ++ item.key ++ 32 :: natDec (flagsNum item.flags) ++ 32 :: intDec item.expiration
      ++ 32 :: natDec item.value.length ++ crlf)
  ++ (item.value ++ crlf)

/-- `Set`, client/server.go:450-495. -/
def set (item : Item) : Call Unit where
  wire := .ok (setWire item)
  rd := do
    let b ← readSlice
    if b = msgStored then pure ()
    else if b = msgExists then Rd.fail .itemExists
    else Rd.fail (.msg (b!"memcached: failed set: " ++ b))

/-- Request of `Add`/`Replace`, client/server.go:510-518, 547-555. -/
def storeWire (cmd : Bytes) (item : Item) : Bytes :=
  cmd ++ 32 :: item.key ++ 32 :: natDec (flagsNum item.flags) ++ 32 :: intDec item.expiration
    ++ 32 :: natDec item.value.length ++ crlf ++ item.value ++ crlf

/-- `Add`, client/server.go:497-532. -/
def add (item : Item) : Call Unit where
  wire := .ok (storeWire b!"add" item)
  rd := do
    let b ← readSlice
    if b = msgStored then pure () else Rd.fail .itemExists

/-- `Replace`, client/server.go:534-569. -/
def replace (item : Item) : Call Unit where
  wire := .ok (storeWire b!"replace" item)
  rd := do
    let b ← readSlice
    if b = msgStored then pure () else Rd.fail .itemNotFound

/-- `Flush`, client/server.go:571-601. -/
def flush : Call Unit where
  wire := .ok b!"flush_all\r\n"
  rd := do
    let b ← readSlice
    if b = msgOk then pure ()
    else do
      let d ← Rd.lift (sliceTo b (b.length - 2))
      Rd.fail (.msg (b!"memcached: " ++ d))

/-- `Version`, client/server.go:603-632. -/
def version : Call Bytes where
  wire := .ok b!"version\r\n"
  rd := do
    let b ← readSlice
    -- a line is never empty, so lines 628-631 always take the first branch
    pure (trimSuffix (trimPrefix b b!"VERSION ") crlf)

end Text
end Verif
