import Verif.Go.Puts
import Verif.Client.Headers
import Verif.Client.Meta
import Verif.Spec.Converse
/-!
The writing half of every client operation (client/server.go), statement by statement: which write calls it makes on
`s.conn`, which of them it checks.  Everything after the last `Flush` is the reader of `Client/Text`, `Meta`,
`Binary`.
-/

namespace Verif
namespace Puts

namespace Text
/-- `Get`, client/server.go:211-216. -/
def get (key : Bytes) : List Put := [.write (b!"gets " ++ key ++ crlf), .flush]
/-- `GetMulti`, client/server.go:274-279. -/
def getMulti (keys : List Bytes) : List Put := [.write (b!"gets " ++ joinSp keys ++ crlf), .flush]
/-- `Delete`, client/server.go:352-357. -/
def delete (key : Bytes) : List Put := [.write (b!"delete " ++ key ++ crlf), .flush]
/-- `incrOrDecr`, client/server.go:393-398. -/
def incrOrDecr (op key : Bytes) (delta : Int) : List Put :=
  [.write (op ++ 32 :: key ++ 32 :: intDec delta ++ crlf), .flush]
/-- `Touch`, client/server.go:429-434. -/
def touch (key : Bytes) (expiration : Int) : List Put :=
  [.write (b!"touch " ++ key ++ 32 :: intDec expiration ++ crlf), .flush]
/-- `Set`, client/server.go:463-482. -/
def set (item : Item) : List Put :=
  (if 0 < item.cas then
    [.write (b!"cas " ++ item.key ++ 32 :: natDec (Text.flagsNum item.flags) ++ 32 :: intDec item.expiration
      ++ 32 :: natDec item.value.length ++ 32 :: natDec item.cas ++ crlf)]
  else
    [.write (b!"set " ++ item.key ++ 32 :: natDec (Text.flagsNum item.flags) ++ 32 :: intDec item.expiration
      ++ 32 :: natDec item.value.length ++ crlf)])
  ++ [.write (item.value ++ crlf), .flush]
/-- `Add`, `Replace`, client/server.go:510-521, 547-558 (meta: 914-925, 948-959): the value and its CRLF are written
without looking at the error. -/
def store (cmd : Bytes) (item : Item) : List Put :=
  [.write (cmd ++ 32 :: item.key ++ 32 :: natDec (Text.flagsNum item.flags) ++ 32 :: intDec item.expiration
    ++ 32 :: natDec item.value.length ++ crlf), .write' item.value, .write' crlf, .flush]
/-- `Flush`, client/server.go:584-589 (meta: 1086-1091). -/
def flush : List Put := [.write b!"flush_all\r\n", .flush]
/-- `Version`, client/server.go:616-621 (meta: 1114-1119). -/
def version : List Put := [.string b!"version\r\n", .flush]
end Text

namespace Meta
/-- `Get`, client/server.go:710-715. -/
def get (key : Bytes) : List Put := [.write (b!"mg " ++ key ++ b!" v f c t\r\n"), .flush]
/-- `GetMulti`, client/server.go:735-743: the final `mn` is written without looking at the error. -/
def getMulti (keys : List Bytes) : List Put :=
  keys.map (fun key => .write (b!"mg " ++ key ++ b!" v f k c t\r\n")) ++ [.string' b!"mn\r\n", .flush]
/-- `Set`, client/server.go:866-884: `Uint32` panics on short flags, before anything is written. -/
def set (item : Item) : List Put :=
  match (match item.flags with
    | none => .ok []
    | some fl => (beUint 4 fl).map (fun n => b!" F" ++ natDec n) : Res Bytes) with
  | .ok f =>
    [.write (b!"ms " ++ item.key ++ 32 :: natDec item.value.length ++ b!" T" ++ intDec item.expiration
      ++ (if 0 < item.cas then b!" C" ++ natDec item.cas else []) ++ f ++ crlf), .write (item.value ++ crlf), .flush]
  | _ => [.panic]
/-- `Delete`, client/server.go:981-986. -/
def delete (key : Bytes) : List Put := [.write (b!"md " ++ key ++ crlf), .flush]
/-- `incrOrDecr`, client/server.go:1025-1030. -/
def incrOrDecr (op key : Bytes) (delta : Int) : List Put :=
  [.write (op ++ 32 :: key ++ 32 :: intDec delta ++ crlf), .flush]
/-- `Touch`, client/server.go:1057-1062. -/
def touch (key : Bytes) (expiration : Int) : List Put :=
  [.write (b!"md " ++ key ++ b!" I T" ++ intDec expiration ++ crlf), .flush]
end Meta

namespace Bin
open Verif.Bin
/-- `Get`, client/server.go:1228-1234: the key is written without looking at the error. -/
def get (h : ReqHdr) (key : Bytes) : List Put := [.write (getHdr h key).encode, .write' key, .flush]
/-- The key loop of `GetMulti`, client/server.go:1279-1288. -/
def getKQs : ReqHdr → List Bytes → List Put
  | _, [] => []
  | h, k :: ks => .write (getKQHdr h k).encode :: .write' k :: getKQs (getKQHdr h k) ks
/-- `GetMulti`, client/server.go:1279-1300. -/
def getMulti (h1 h2 : ReqHdr) (keys : List Bytes) : List Put :=
  getKQs h1 keys ++ [.write (noopHdr h2).encode, .flush]
/-- `Set`, `Add`, `Replace`, client/server.go:1346-1358, 1398-1410, 1450-1462: the header is written, then
`item.Flags[:4]` may panic, then extras, key and value are written without looking at errors. -/
def store (h : ReqHdr) (op : UInt8) (item : Item) : List Put :=
  .write (storeHdr h op item).encode ::
    match storeExtra item with
    | .ok extra => [.write' extra, .write' item.key, .write' item.value, .flush]
    | _ => [.panic]
/-- `Delete`, client/server.go:1510-1516. -/
def delete (h : ReqHdr) (key : Bytes) : List Put := [.write (deleteHdr h key).encode, .write' key, .flush]
/-- `incrOrDecr`, client/server.go:1577-1584. -/
def incrOrDecr (h : ReqHdr) (op : UInt8) (key : Bytes) (delta expiration : Int) : List Put :=
  [.write (incrHdr h op key).encode, .write' (incrExtra delta expiration), .write' key, .flush]
/-- `Touch`, client/server.go:1639-1646. -/
def touch (h : ReqHdr) (key : Bytes) (expiration : Int) : List Put :=
  [.write (touchHdr h key).encode, .write' (putBE 4 (toUnsigned 32 expiration)), .write' key, .flush]
/-- `Flush`, client/server.go:1679-1684. -/
def flush (h : ReqHdr) : List Put := [.write ({ h.reset with opcode := opFlush } : ReqHdr).encode, .flush]
/-- `Version`, client/server.go:1712-1717. -/
def version (h : ReqHdr) : List Put := [.write ({ h.reset with opcode := opVersion } : ReqHdr).encode, .flush]
end Bin

open Spec

/-- The writing half of an operation of a client that speaks `p`. (client/server.go:198-632, 701-1130, 1212-1738.) -/
def puts : Proto → Issue → List Put
  | .text _, ⟨.op o, _, _⟩ =>
    match o with
    | .get k => Text.get k
    | .getMulti ks => Text.getMulti ks
    | .set i => Text.set i
    | .add i => Text.store b!"add" i
    | .replace i => Text.store b!"replace" i
    | .delete k => Text.delete k
    | .increment k d _ => Text.incrOrDecr b!"incr" k d
    | .decrement k d _ => Text.incrOrDecr b!"decr" k d
    | .touch k e => Text.touch k e
    | .flush => Text.flush
  | .metap, ⟨.op o, _, _⟩ =>
    match o with
    | .get k => Meta.get k
    | .getMulti ks => Meta.getMulti ks
    | .set i => Meta.set i
    | .add i => Text.store b!"add" i
    | .replace i => Text.store b!"replace" i
    | .delete k => Meta.delete k
    | .increment k d _ => Meta.incrOrDecr b!"incr" k d
    | .decrement k d _ => Meta.incrOrDecr b!"decr" k d
    | .touch k e => Meta.touch k e
    | .flush => Text.flush
  | .binary, ⟨.op o, h1, h2⟩ =>
    match o with
    | .get k => Bin.get h1 k
    | .getMulti ks => Bin.getMulti h1 h2 ks
    | .set i => Bin.store h1 Verif.Bin.opSet i
    | .add i => Bin.store h1 Verif.Bin.opAdd i
    | .replace i => Bin.store h1 Verif.Bin.opReplace i
    | .delete k => Bin.delete h1 k
    | .increment k d e => Bin.incrOrDecr h1 Verif.Bin.opIncrement k d e
    | .decrement k d e => Bin.incrOrDecr h1 Verif.Bin.opDecrement k d e
    | .touch k e => Bin.touch h1 k e
    | .flush => Bin.flush h1
  | .text _, ⟨.version, _, _⟩ | .metap, ⟨.version, _, _⟩ => Text.version
  | .binary, ⟨.version, h1, _⟩ => Bin.version h1

/-- A client connection: its write buffer, and the bytes that have arrived and were not read yet. -/
structure Link where
  out : Writer := {}
  unread : Bytes := []

/-- One operation on the connection, `more` being what arrives while it runs (until the connection ends or the
deadline passes): write and flush the request, then read the reply.  An operation that fails or panics in its
writing half reads nothing. -/
def operate (p : Proto) (i : Issue) (more : Bytes) (l : Link) : Res Said × Link :=
  match Put.run (puts p i) l.out with
  | (.ok (), w) => let q := (i.call p).rd (l.unread ++ more); (q.1, ⟨w, q.2⟩)
  | (.err e, w) => (.err e, ⟨w, l.unread ++ more⟩)
  | (.panic, w) => (.panic, ⟨w, l.unread ++ more⟩)

/-- Operations one after the other on one connection (a caller that panics recovers). -/
def operateAll (p : Proto) : List (Issue × Bytes) → Link → List (Res Said) × Link
  | [], l => ([], l)
  | (i, more) :: is, l =>
    let q := operate p i more l
    let r := operateAll p is q.2
    (q.1 :: r.1, r.2)

end Puts
end Verif
