import Verif.Client.Binary
/-!
Recycling of binary request headers through `sync.Pool` (client/server.go:1148,1173,
1221-1223, 1278-1297, 1503-1505, 1569-1570, 1631-1633, 1742-1752).

`sync.Pool.Get` may return any header that was put back before, or a new one; the model never
removes a header from the pool, so it allows every choice any schedule of callers allows.
-/

namespace Verif
namespace Bin

/-- The operations of a binary connection with their arguments.
(The methods of client/server.go:1212-1738.) -/
inductive BOp where
  | get (key : Bytes)
  | getMulti (keys : List Bytes)
  | set (item : Item)
  | add (item : Item)
  | replace (item : Item)
  | delete (key : Bytes)
  | increment (key : Bytes) (delta expiration : Int)
  | decrement (key : Bytes) (delta expiration : Int)
  | touch (key : Bytes) (expiration : Int)
  | flush
  | version

/-- Request bytes, with the recycled headers `h1` (and for `GetMulti` `h2`). -/
def BOp.wire (h1 h2 : ReqHdr) : BOp → Res Bytes
  | .get k => (Bin.get h1 k).wire
  | .getMulti ks => (Bin.getMulti h1 h2 ks).wire
  | .set i => (Bin.set h1 i).wire
  | .add i => (Bin.add h1 i).wire
  | .replace i => (Bin.replace h1 i).wire
  | .delete k => (Bin.delete h1 k).wire
  | .increment k d e => (Bin.increment h1 k d e).wire
  | .decrement k d e => (Bin.decrement h1 k d e).wire
  | .touch k e => (Bin.touch h1 k e).wire
  | .flush => (Bin.flush h1).wire
  | .version => (Bin.version h1).wire

/-- Header taken first, as it is put back (`defer`: also when the call fails).  The header of
`GetMulti`'s key loop is client/server.go:1278-1289. -/
def BOp.put1 (h1 : ReqHdr) : BOp → ReqHdr
  | .get k => getHdr h1 k
  | .getMulti ks => (getKQs h1 ks).2
  | .set i => storeHdr h1 opSet i
  | .add i => storeHdr h1 opAdd i
  | .replace i => storeHdr h1 opReplace i
  | .delete k => deleteHdr h1 k
  | .increment k _ _ => incrHdr h1 opIncrement k
  | .decrement k _ _ => incrHdr h1 opDecrement k
  | .touch k _ => touchHdr h1 k
  | .flush => { h1.reset with opcode := opFlush }
  | .version => { h1.reset with opcode := opVersion }

/-- The second header of `GetMulti`, client/server.go:1291-1297; no other call has one. -/
def BOp.put2 (h2 : ReqHdr) : BOp → List ReqHdr
  | .getMulti _ => [noopHdr h2]
  | _ => []

/-- What `sync.Pool.Get` may return. -/
def Gettable (pool : List ReqHdr) (h : ReqHdr) : Prop := h = {} ∨ h ∈ pool

/-- Histories of one connection: the calls with the request bytes they sent, in order, and the
headers put into the pool so far. -/
inductive History : List (BOp × Res Bytes) → List ReqHdr → Prop
  | nil : History [] []
  | call {hist pool} (op : BOp) {h1 h2 : ReqHdr} : History hist pool → Gettable pool h1 →
      Gettable (pool ++ [op.put1 h1]) h2 →
      History (hist ++ [(op, op.wire h1 h2)]) (pool ++ [op.put1 h1] ++ op.put2 h2)

end Bin
end Verif
