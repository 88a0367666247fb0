import Verif.Go.BufMem
import Verif.Client.Memory
import Verif.Client.Segmented
/-!
The reply parts of the operations once more, on memory: `ReadSlice` gives a slice of the `bufio.Reader`'s buffer, which
the next read overwrites, and the items given to the caller hold slices.  Every look at a slice is a `view` of memory at
that time.  Loops have fuel for all bytes that can still arrive, as in `Client/Segmented.lean`.
-/

namespace Verif
namespace Mem
set_option linter.unusedVariables false

/-- `bytes.Split(b, " ")` where the parts are `ps`: each part is a slice of the same array. (client/server.go:302.) -/
def splitSlices (s : Slice) : List Bytes → List Slice
  | [] => []
  | p :: ps =>
    { arr := s.arr, off := s.off, len := p.length, cap := p.length }
      :: splitSlices { s with off := s.off + p.length + 1 } ps

/-- The bytes that can still arrive. (Auxiliary, fuel only.) -/
def MSock.left (c : MSock) : Nat := c.sock.all.length

namespace Text
open Verif.Text

/-- Reply part of `Get`, client/server.go:217-257. -/
def getReply (name : Bytes) : Mrd MItem := do
  let b ← readSlice
  let x ← view b
  if x = msgEnd then Mrd.fail .itemNotFound
  else if hasPrefix x b!"VALUE" = false then Mrd.fail errInvalidResponse
  else do
    let y ← view b
    match Scan.scanValue (y.count 32 != 3) y with
    | none => Mrd.fail .scan
    | some (key, flags, size, cas) => do
      let f ← alloc (putBE 4 flags)
      let buf ← readN (size + 2)
      let v ← Mrd.lift (sliceTo buf size)
      let e ← readSlice
      let z ← view e
      if z ≠ msgEnd then Mrd.fail errInvalidResponse
      else pure { key := key, value := v, flags := some f, cas := cas, server := name }

/-- One `VALUE` block of `parseGetResponse`, client/server.go:302-333, given its header line `b`. -/
def parseBlock (b : Slice) : Mrd MItem := do
  let x ← view b
  let s := splitSlices b (splitSp x)
  let s0 ← Mrd.lift (index s 0)
  let w0 ← view s0
  if w0 ≠ b!"VALUE" then Mrd.fail errInvalidResponse
  else do
    let s2 ← Mrd.lift (index s 2)
    let w2 ← view s2
    let f ← Mrd.lift (numRes (parseInt w2 64))
    let flags ← alloc (putBE 4 (toUnsigned 32 f))
    let s3 ← Mrd.lift (index s 3)
    let sz ← if s.length = 4 then Mrd.lift (sliceTo s3 (s3.len - 2)) else pure s3
    let w3 ← view sz
    let size ← Mrd.lift (numRes (parseInt w3 64))
    let k ← Mrd.lift (makeLen (size + 2))
    let s1 ← Mrd.lift (index s 1)
    let w1 ← view s1
    let buf ← readNew k
    let v ← Mrd.lift (sliceTo buf size)
    pure { key := w1, flags := some flags, value := v }

/-- Loop of `parseGetResponse`, client/server.go:292-337. -/
def parseLoop : Nat → List MItem → Mrd (List MItem)
  | 0, _ => Mrd.lift .panic
  | n + 1, acc => do
    let b ← readSlice
    let x ← view b
    if x = msgEnd then pure acc
    else do
      let item ← parseBlock b
      parseLoop n (acc ++ [item])

/-- `parseGetResponse`, client/server.go:292-337. -/
def parseGetResponse : Mrd (List MItem) := fun c => parseLoop (c.left + 1) [] c

/-- `GetMulti`, client/server.go:281-289. -/
def getMulti (name : Bytes) (keys : List Bytes) : Mrd (List MItem) := do
  let items ← parseGetResponse
  pure (items.map (fun v => { v with server := name }))

/-- `Delete`, client/server.go:358-369. -/
def delete (key : Bytes) : Mrd Unit := do
  let b ← readSlice
  let x ← view b
  if x = msgDeleted then pure ()
  else if x = msgNotFound then Mrd.fail .itemNotFound
  else pure ()

/-- `incrOrDecr`, client/server.go:399-413. -/
def incrOrDecr (op key : Bytes) (delta : Int) : Mrd Int := do
  let b ← readSlice
  let x ← view b
  if x = msgNotFound then Mrd.fail .itemNotFound
  else do
    let d ← Mrd.lift (sliceTo b (b.len - 2))
    let y ← view d
    Mrd.lift (numRes (parseInt y 64))

/-- `Touch`, client/server.go:435-447. -/
def touch (key : Bytes) (expiration : Int) : Mrd Unit := do
  let b ← readSlice
  let x ← view b
  if x = msgTouched then pure ()
  else if x = msgNotFound then Mrd.fail .itemNotFound
  else pure ()

/-- `Set`, client/server.go:482-494. -/
def set : Mrd Unit := do
  let b ← readSlice
  let x ← view b
  if x = msgStored then pure ()
  else if x = msgExists then Mrd.fail .itemExists
  else do
    let y ← view b
    Mrd.fail (.msg (b!"memcached: failed set: " ++ y))

/-- `Add`, client/server.go:522-531. -/
def add : Mrd Unit := do
  let b ← readSlice
  let x ← view b
  if x = msgStored then pure () else Mrd.fail .itemExists

/-- `Replace`, client/server.go:559-568. -/
def replace : Mrd Unit := do
  let b ← readSlice
  let x ← view b
  if x = msgStored then pure () else Mrd.fail .itemNotFound

/-- `Flush`, client/server.go:590-600. -/
def flush : Mrd Unit := do
  let b ← readSlice
  let x ← view b
  if x = msgOk then pure ()
  else do
    let d ← Mrd.lift (sliceTo b (b.len - 2))
    let y ← view d
    Mrd.fail (.msg (b!"memcached: " ++ y))

/-- `Version`, client/server.go:622-631. -/
def version : Mrd Bytes := do
  let b ← readSlice
  let x ← view b
  pure (trimSuffix (trimPrefix x b!"VERSION ") crlf)

end Text

namespace Meta
open Verif.Meta

/-- `parseGetResponse`, client/server.go:762-826, and `readGetFlagToken`, client/server.go:828-855: the key is a copy
(`string(v)`), the flags are a new array.  Simplified: the array of flags is made after the scan instead of in it (and
that of a second `f` token is the only one made). -/
def parseGetResponse : Mrd MItem := do
  let b ← readSlice
  let x ← view b
  if x = msgEnd then Mrd.fail .itemNotFound
  else if x = msgNoop then Mrd.fail .itemNotFound
  else if hasPrefix x b!"VA" = false then Mrd.fail (.msg b!"memcached: invalid get response")
  else do
    let body ← Mrd.lift (sliceFrom b 3)
    let y ← view body
    let st ← Mrd.lift (hdrScan {} y)
    let f ← match st.item.flags with
      | none => pure none
      | some f => do
        let s ← alloc f
        pure (some s)
    let buf ← readN (st.size + 2)
    let v ← Mrd.lift (sliceTo buf st.size)
    pure { key := st.item.key, value := v, flags := f, expiration := st.item.expiration, cas := st.item.cas,
           server := st.item.server }

/-- `Get`, client/server.go:717-722. -/
def get (key : Bytes) : Mrd MItem := do
  let item ← parseGetResponse
  pure { item with key := key }

/-- Read loop of `GetMulti`, client/server.go:745-757. -/
def multiLoop : Nat → List MItem → Mrd (List MItem)
  | 0, _ => Mrd.lift .panic
  | n + 1, acc => fun c =>
    match parseGetResponse c with
    | (.ok item, r) => multiLoop n (acc ++ [item]) r
    | (.err .itemNotFound, r) => (.ok acc, r)
    | (.err e, r) => (.err e, r)
    | (.panic, r) => (.panic, r)

/-- `GetMulti`, client/server.go:745-759. -/
def getMulti (keys : List Bytes) : Mrd (List MItem) := fun c => multiLoop (c.left + 1) [] c

/-- `Set`, client/server.go:885-901. -/
def set : Mrd Unit := do
  let b ← readSlice
  let x ← view b
  if hasPrefix x b!"HD" then pure ()
  else if hasPrefix x b!"NS" then Mrd.fail (.msg b!"memcached: not stored")
  else if hasPrefix x b!"EX" then Mrd.fail .itemExists
  else if hasPrefix x b!"NF" then Mrd.fail .itemNotFound
  else Mrd.fail (.msg b!"memcached: failed set")

/-- `Delete`, client/server.go:988-1001. -/
def delete (key : Bytes) : Mrd Unit := do
  let b ← readSlice
  let x ← view b
  if hasPrefix x b!"HD" then pure ()
  else if hasPrefix x b!"NF" then pure ()
  else if hasPrefix x b!"EX" then Mrd.fail .itemNotFound
  else Mrd.fail (.msg b!"memcached: failed delete")

/-- `Touch`, client/server.go:1064-1074. -/
def touch (key : Bytes) (expiration : Int) : Mrd Unit := do
  let b ← readSlice
  let x ← view b
  if hasPrefix x b!"HD" then pure ()
  else Mrd.fail (.msg b!"memcached: failed touch")

end Meta

namespace Bin
open Verif.Bin

/-- `binaryResponseHeader.Read`, client/server.go:1816-1833. -/
def readHdr : Mrd ResHdr := do
  let b ← readHdrBuf
  if b.head? ≠ some 0x81 then Mrd.fail errInvalidResponse
  else pure (ResHdr.ofBytes b)

/-- Reply part of `Get`, client/server.go:1239-1265: value and flags are parts of one array. -/
def getReply (key : Bytes) : Mrd MItem := do
  let r ← readHdr
  let buf ← readNew r.totalBodyLength
  if r.status ≠ 0 then
    if r.status = 1 then Mrd.fail .itemNotFound
    else Mrd.fail (statusErr r.status)
  else do
    let v ← Mrd.lift (sliceFrom buf r.valueStart)
    let f ← Mrd.lift (sliceTo buf r.extraLength)
    pure { key := key, value := v, flags := some f, cas := r.cas }

/-- Read loop of `GetMulti`, client/server.go:1303-1328. -/
def multiLoop : Nat → List MItem → Mrd (List MItem)
  | 0, _ => Mrd.lift .panic
  | n + 1, acc => do
    let r ← readHdr
    if r.opcode = opNoop then pure acc
    else if r.status ≠ 0 then Mrd.fail (statusErr r.status)
    else do
      let buf ← readNew r.totalBodyLength
      let x ← view buf
      let k ← Mrd.lift (slice x r.extraLength r.valueStart)
      let v ← Mrd.lift (sliceFrom buf r.valueStart)
      let f ← Mrd.lift (sliceTo buf r.extraLength)
      multiLoop n (acc ++ [{ key := k, value := v, flags := some f }])

/-- `GetMulti`, client/server.go:1302-1330. -/
def getMulti (keys : List Bytes) : Mrd (List MItem) := fun c => multiLoop (c.left + 1) [] c

/-- `Set` and `Add`, client/server.go:1361-1382, 1413-1434.  The body of the reply is not read. -/
def stored (op : UInt8) : Mrd Unit := do
  let r ← readHdr
  if r.opcode ≠ op then Mrd.fail errInvalidResponse
  else if r.status ≠ 0 then
    if r.status = 2 then Mrd.fail .itemExists else Mrd.fail (statusErr r.status)
  else pure ()

/-- `Replace` and `Delete`, client/server.go:1465-1491, 1519-1545. -/
def found (op : UInt8) : Mrd Unit := do
  let r ← readHdr
  if r.opcode ≠ op then Mrd.fail errInvalidResponse
  else do
    let _ ← readNew r.totalBodyLength
    if r.status ≠ 0 then
      if r.status = 1 then Mrd.fail .itemNotFound else Mrd.fail (statusErr r.status)
    else pure ()

/-- `incrOrDecr`, client/server.go:1583-1617. -/
def incrOrDecr (op : UInt8) : Mrd Int := do
  let r ← readHdr
  if r.opcode ≠ op then Mrd.fail errInvalidResponse
  else do
    let s ← readNew r.totalBodyLength
    let body ← view s
    if r.status ≠ 0 then
      match binaryStatus.lookup r.status with
      | some v =>
        Mrd.fail (.msg (b!"memcached: error " ++ v
          ++ (if 0 < body.length then b!" (" ++ body ++ b!")" else [])))
      | none =>
        Mrd.fail (.msg (b!"memcached: unknown error " ++ natDec r.status ++ b!" (" ++ body ++ b!")"))
    else do
      let n ← Mrd.lift (beUint 8 body)
      pure (toSigned 64 n)

/-- `Touch`, client/server.go:1645-1663. -/
def touch : Mrd Unit := do
  let r ← readHdr
  if r.status ≠ 0 then Mrd.fail (statusErr r.status) else pure ()

/-- `Flush`, client/server.go:1685-1696. -/
def flush : Mrd Unit := do
  let r ← readHdr
  if r.opcode ≠ opFlush then Mrd.fail errInvalidResponse else pure ()

/-- `Version`, client/server.go:1718-1737. -/
def version : Mrd Bytes := do
  let r ← readHdr
  if r.status ≠ 0 then Mrd.fail (statusErr r.status)
  else do
    let s ← readNew r.totalBodyLength
    view s

end Bin

/-- What an operation gives back, with slices (as `Spec.Out`). -/
inductive MOut where
  | item (i : MItem)
  | items (l : List MItem)
  | num (n : Int)
  | done

/-- Convert the result of a reader. (Auxiliary.) -/
def mapR {α β : Type} (f : α → β) (m : Mrd α) : Mrd β := fun c => ((m c).1.map f, (m c).2)

open Spec

/-- The reading part of an operation of a text connection. (client/server.go:198-632.) -/
def textRd (name : Bytes) : Op → Mrd MOut
  | .get k => mapR .item (Text.getReply name)
  | .getMulti ks => mapR .items (Text.getMulti name ks)
  | .set i => mapR (fun _ => .done) Text.set
  | .add i => mapR (fun _ => .done) Text.add
  | .replace i => mapR (fun _ => .done) Text.replace
  | .delete k => mapR (fun _ => .done) (Text.delete k)
  | .increment k d e => mapR .num (Text.incrOrDecr b!"incr" k d)
  | .decrement k d e => mapR .num (Text.incrOrDecr b!"decr" k d)
  | .touch k e => mapR (fun _ => .done) (Text.touch k e)
  | .flush => mapR (fun _ => .done) Text.flush

/-- The reading part of an operation of a meta connection; Add, Replace, Increment, Decrement and Flush read their
replies as those of a text connection do. (client/server.go:701-1130.) -/
def metaRd : Op → Mrd MOut
  | .get k => mapR .item (Meta.get k)
  | .getMulti ks => mapR .items (Meta.getMulti ks)
  | .set i => mapR (fun _ => .done) Meta.set
  | .add i => mapR (fun _ => .done) Text.add
  | .replace i => mapR (fun _ => .done) Text.replace
  | .delete k => mapR (fun _ => .done) (Meta.delete k)
  | .increment k d e => mapR .num (Text.incrOrDecr b!"incr" k d)
  | .decrement k d e => mapR .num (Text.incrOrDecr b!"decr" k d)
  | .touch k e => mapR (fun _ => .done) (Meta.touch k e)
  | .flush => mapR (fun _ => .done) Text.flush

/-- The reading part of an operation of a binary connection. (client/server.go:1212-1738.) -/
def binRd : Op → Mrd MOut
  | .get k => mapR .item (Bin.getReply k)
  | .getMulti ks => mapR .items (Bin.getMulti ks)
  | .set i => mapR (fun _ => .done) (Bin.stored Verif.Bin.opSet)
  | .add i => mapR (fun _ => .done) (Bin.stored Verif.Bin.opAdd)
  | .replace i => mapR (fun _ => .done) (Bin.found Verif.Bin.opReplace)
  | .delete k => mapR (fun _ => .done) (Bin.found Verif.Bin.opDelete)
  | .increment k d e => mapR .num (Bin.incrOrDecr Verif.Bin.opIncrement)
  | .decrement k d e => mapR .num (Bin.incrOrDecr Verif.Bin.opDecrement)
  | .touch k e => mapR (fun _ => .done) Bin.touch
  | .flush => mapR (fun _ => .done) Bin.flush

end Mem
end Verif
