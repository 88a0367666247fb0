import Verif.Client.Result
import Verif.Mc.Session
/-!
Whole operations on memory: the request (`Client/Memory.lean`), then the reply (`Client/Result.lean`).
-/

namespace Verif
namespace Mem
open Spec

/-- The three kinds of connection: text with the name of the server, meta, binary with the request headers it gets from
its pool. (client/server.go:138-153, 672-680, 1175-1190.) -/
inductive Wire where
  | text (name : Bytes)
  | metap
  | binary (h1 h2 : Verif.Bin.ReqHdr)

/-- The operation as a function of values, for each kind of connection. (client/server.go:198-632, 701-1130,
1212-1738.) -/
def call : Wire → Op → Call Out
  | .text name => Mc.textCall name
  | .metap => Mc.metaCall
  | .binary h1 h2 => Mc.binCall h1 h2

/-- The reply part of an operation on memory. (client/server.go:198-632, 701-1130, 1212-1738.) -/
def memRd : Wire → Op → Mrd MOut
  | .text name => textRd name
  | .metap => metaRd
  | .binary _ _ => binRd

/-- An operation as the caller makes it: items hold slices. (client/server.go:52-69.) -/
inductive MOp where
  | get (key : Bytes)
  | getMulti (keys : List Bytes)
  | set (item : MItem)
  | add (item : MItem)
  | replace (item : MItem)
  | delete (key : Bytes)
  | increment (key : Bytes) (delta expiration : Int)
  | decrement (key : Bytes) (delta expiration : Int)
  | touch (key : Bytes) (expiration : Int)
  | flush

/-- The operation as it is for somebody looking at memory `m`. (Auxiliary.) -/
def MOp.seen (m : Memory) : MOp → Op
  | .get k => .get k
  | .getMulti ks => .getMulti ks
  | .set i => .set (i.flat m)
  | .add i => .add (i.flat m)
  | .replace i => .replace (i.flat m)
  | .delete k => .delete k
  | .increment k d e => .increment k d e
  | .decrement k d e => .decrement k d e
  | .touch k e => .touch k e
  | .flush => .flush

/-- The item an operation is given. (Auxiliary.) -/
def MOp.item : MOp → Option MItem
  | .set i => some i
  | .add i => some i
  | .replace i => some i
  | _ => none

/-- The request part of an operation: memory afterwards and the bytes sent.  Operations without an item leave memory
alone (their keys are strings). (client/server.go:198-632, 701-1130, 1212-1738; see `Client/Memory.lean`.) -/
def request (w : Wire) (grow : Nat) (m : Memory) (o : MOp) : Memory × Res Bytes :=
  match o with
  | .set i =>
    match w with
    | .text _ => textSet grow m i
    | .metap => metaSet grow m i
    | .binary h _ => binStore Verif.Bin.opSet h m i
  | .add i =>
    match w with
    | .text _ => textStore b!"add" m i
    | .metap => textStore b!"add" m i
    | .binary h _ => binStore Verif.Bin.opAdd h m i
  | .replace i =>
    match w with
    | .text _ => textStore b!"replace" m i
    | .metap => textStore b!"replace" m i
    | .binary h _ => binStore Verif.Bin.opReplace h m i
  | o => (m, (call w (o.seen m)).wire)

/-- A whole operation: request, then reply. (client/server.go:198-632, 701-1130, 1212-1738.) -/
def mcall (w : Wire) (grow : Nat) (o : MOp) : Mrd MOut := fun c =>
  match request w grow c.mem o with
  | (m, .ok _) => memRd w (o.seen c.mem) { c with mem := m }
  | (m, .err e) => (.err e, { c with mem := m })
  | (m, .panic) => (.panic, { c with mem := m })

end Mem
end Verif
