import Verif.Mc.Server
import Verif.Spec.Api
import Verif.Client.Text
import Verif.Client.Meta
import Verif.Client.Binary
/-! A client and a memcached server connected by one connection. -/

namespace Verif

/-- Convert the value of an outcome. (Auxiliary.) -/
def Res.map {α β : Type} (f : α → β) : Res α → Res β
  | .ok a => .ok (f a)
  | .err e => .err e
  | .panic => .panic

/-- Convert the result of a call. (Auxiliary.) -/
def Call.map {α β : Type} (f : α → β) (c : Call α) : Call β where
  wire := c.wire
  rd := fun i => ((c.rd i).1.map f, (c.rd i).2)

namespace Mc
open Kv Spec

/-- The call made for an operation by a text connection to the server called `name`.
(client/server.go:198-632.) -/
def textCall (name : Bytes) : Op → Call Out
  | .get k => (Text.get name k).map .item
  | .getMulti ks => (Text.getMulti name ks).map .items
  | .set i => (Text.set i).map fun _ => .done
  | .add i => (Text.add i).map fun _ => .done
  | .replace i => (Text.replace i).map fun _ => .done
  | .delete k => (Text.delete k).map fun _ => .done
  | .increment k d e => (Text.increment k d e).map .num
  | .decrement k d e => (Text.decrement k d e).map .num
  | .touch k e => (Text.touch k e).map fun _ => .done
  | .flush => Text.flush.map fun _ => .done

/-- The call made for an operation by a meta connection. (client/server.go:701-1130.) -/
def metaCall : Op → Call Out
  | .get k => (Meta.get k).map .item
  | .getMulti ks => (Meta.getMulti ks).map .items
  | .set i => (Meta.set i).map fun _ => .done
  | .add i => (Meta.add i).map fun _ => .done
  | .replace i => (Meta.replace i).map fun _ => .done
  | .delete k => (Meta.delete k).map fun _ => .done
  | .increment k d e => (Meta.increment k d e).map .num
  | .decrement k d e => (Meta.decrement k d e).map .num
  | .touch k e => (Meta.touch k e).map fun _ => .done
  | .flush => Meta.flush.map fun _ => .done

/-- The call made for an operation by a binary connection, with the recycled headers it gets. -/
def binCall (h1 h2 : Bin.ReqHdr) : Op → Call Out
  | .get k => (Bin.get h1 k).map .item
  | .getMulti ks => (Bin.getMulti h1 h2 ks).map .items
  | .set i => (Bin.set h1 i).map fun _ => .done
  | .add i => (Bin.add h1 i).map fun _ => .done
  | .replace i => (Bin.replace h1 i).map fun _ => .done
  | .delete k => (Bin.delete h1 k).map fun _ => .done
  | .increment k d e => (Bin.increment h1 k d e).map .num
  | .decrement k d e => (Bin.decrement h1 k d e).map .num
  | .touch k e => (Bin.touch h1 k e).map fun _ => .done
  | .flush => (Bin.flush h1).map fun _ => .done

/-- One call over a connection on which nothing is outstanding: the request goes to the server,
the server answers all of it, the client reads the reply.  `none` when the request is not a
whole number of commands, or when the client does not read exactly the reply (so that bytes
would be left over for the next call, or missing). -/
def exchange (c : Call Out) (s : Store) : Option (Res Out × Store) :=
  match c.wire with
  | .ok w =>
    match answer s w with
    | some (reply, s') =>
      match c.rd reply with
      | (res, []) => if res = .err .io then none else some (res, s')
      | _ => none
    | none => none
  | _ => none

/-- A whole history over one connection; the clock advances before each call.
(client/server.go against the environment.) -/
def session (call : Op → Call Out) : Store → List Event → Option (List (Res Out) × Store)
  | s, [] => some ([], s)
  | s, (d, op) :: rest =>
    match exchange (call op) (s.tick d) with
    | none => none
    | some (res, s') => (session call s' rest).map fun q => (res :: q.1, q.2)

end Mc
end Verif
