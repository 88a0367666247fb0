import Verif.Client.Puts
import Verif.Server.Puts
/-!
What a peer may receive of a client, and a client of this server, when writes to the connection fail.
-/

namespace Verif
namespace Spec
open Srv

/-- What an operation hands over for sending: its request; or, when it panics while building the request, what it had
written by then - the header of a binary store, nothing for a meta `Set`. -/
def gave (p : Proto) (i : Issue) : Bytes :=
  match (i.call p).wire with
  | .ok w => w
  | _ =>
    match p, i.ask with
    | .binary, .op (.set it) => (Bin.storeHdr i.h1 Bin.opSet it).encode
    | .binary, .op (.add it) => (Bin.storeHdr i.h1 Bin.opAdd it).encode
    | .binary, .op (.replace it) => (Bin.storeHdr i.h1 Bin.opReplace it).encode
    | _, _ => []

/-- The same for a sequence of operations (each with the bytes that arrive while it runs). -/
def handed (p : Proto) (is : List (Issue × Bytes)) : Bytes := is.flatMap (fun x => gave p x.1)

/-- A new connection, whose `Write`s will go as in `fs`. -/
def newLink (fs : List Fate) : Puts.Link := { out := { net := { fates := fs } } }

/-- An operation without a write buffer: it sends its request and then reads from `u`. -/
def alone (p : Proto) (i : Issue) (u : Bytes) : Res Said × Bytes :=
  match (i.call p).wire with
  | .ok _ => (i.call p).rd u
  | .err e => (.err e, u)
  | .panic => (.panic, u)

/-- Such operations one after the other. -/
def unbuffered (p : Proto) : List (Issue × Bytes) → Bytes → List (Res Said) × Bytes
  | [], u => ([], u)
  | (i, more) :: is, u =>
    let q := alone p i (u ++ more)
    let r := unbuffered p is q.2
    (q.1 :: r.1, r.2)

/-- Some `Write` on the connection has failed. -/
def Broken (l : Puts.Link) : Prop := ∃ w ∈ l.out.net.writes, w.ok = false

/-- The handler was called with these requests, one after the other, each was answered, and these are the replies. -/
inductive Replied {σ : Type} (h : Handler σ) (q : Protocol) : σ → List Request → List Bytes → σ → Prop where
  | nil (s : σ) : Replied h q s [] [] s
  | cons {s s1 s' : σ} {req : Request} {reqs : List Request} {res : List Response} {b : Bytes} {bs : List Bytes}
      (call : h s req = (.ok res, s1)) (write : writeResponse q req res = .ok b) (rest : Replied h q s1 reqs bs s') :
      Replied h q s (req :: reqs) (b :: bs) s'

end Spec
end Verif
