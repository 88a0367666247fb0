import Verif.Spec.Many
import Verif.Spec.Multi
import Verif.Mc.Session
/-!
A client of this module that talks to a server of this module, operation by operation: which requests the
handler should see, what the client should make of the handler's responses.  No reader or writer of either side
is used here.
-/

namespace Verif
namespace Spec
open Srv

/-- A client operation, `Version` included. -/
inductive Ask where
  | op (o : Op)
  | version
  deriving DecidableEq, Repr

/-- The result of one. -/
inductive Said where
  | out (o : Out)
  | version (v : Bytes)
  deriving DecidableEq, Repr

/-- An operation together with the recycled headers a binary client happens to use for it (any headers). -/
structure Issue where
  ask : Ask
  h1 : Bin.ReqHdr := {}
  h2 : Bin.ReqHdr := {}

/-- The call a client makes. -/
def Issue.call (p : Proto) (i : Issue) : Call Said :=
  match p, i.ask with
  | .text name, .op o => (Mc.textCall name o).map .out
  | .text _, .version => Text.version.map .version
  | .metap, .op o => (Mc.metaCall o).map .out
  | .metap, .version => Meta.version.map .version
  | .binary, .op o => (Mc.binCall i.h1 i.h2 o).map .out
  | .binary, .version => (Bin.version i.h1).map .version

/-- What the server detects. -/
def Proto.wire : Proto → Protocol
  | .binary => .binary
  | _ => .ascii

/-- What a text store can transmit. -/
def TextFit (i : Item) : Prop :=
  Plain i.key ∧ Flags31 (flagBytes i.flags) ∧ InRange 32 i.expiration ∧ i.value.length < 2 ^ 31

/-- What a meta Set can transmit. -/
def MetaFit (i : Item) : Prop :=
  Plain i.key ∧ (∀ f, i.flags = some f → 4 ≤ f.length ∧ getBE (f.take 4) < 2 ^ 31) ∧ InRange 32 i.expiration
    ∧ i.cas < 2 ^ 64 ∧ i.value.length < 2 ^ 32

/-- What a binary store can transmit. -/
def BinFit (i : Item) : Prop :=
  i.key.length ≤ 65535 ∧ (∀ f, i.flags = some f → 4 ≤ f.length) ∧ i.key.length + i.value.length + 8 < 2 ^ 32

/-- The operations this server understands from a client of that protocol, with arguments in range. A text `Set` with
a token (`cas`), a meta `GetMulti` and a meta `Touch` are not among them (C12, C19, C64). -/
def Fit : Proto → Ask → Prop
  | .text _, .op (.get k) => Plain k
  | .text _, .op (.getMulti ks) => ∀ k ∈ ks, Plain k
  | .text _, .op (.set i) => TextFit i ∧ i.cas = 0
  | .text _, .op (.touch k e) => Plain k ∧ InRange 32 e
  | .metap, .op (.get k) => Plain k
  | .metap, .op (.getMulti _) => False
  | .metap, .op (.set i) => MetaFit i
  | .metap, .op (.touch _ _) => False
  | .text _, .op (.add i) | .text _, .op (.replace i) | .metap, .op (.add i) | .metap, .op (.replace i) => TextFit i
  | .text _, .op (.delete k) | .metap, .op (.delete k) => Plain k
  | .text _, .op (.increment k d _) | .text _, .op (.decrement k d _)
  | .metap, .op (.increment k d _) | .metap, .op (.decrement k d _) => Plain k ∧ InRange 32 d
  | .binary, .op (.get k) | .binary, .op (.delete k) | .binary, .op (.touch k _) => k.length ≤ 65535
  | .binary, .op (.getMulti ks) => ∀ k ∈ ks, k.length ≤ 65535
  | .binary, .op (.set i) | .binary, .op (.add i) | .binary, .op (.replace i) => BinFit i
  | .binary, .op (.increment k d _) | .binary, .op (.decrement k d _) => k.length ≤ 65535 ∧ InRange 64 d
  | _, .op Op.flush => True
  | _, .version => True

/-- The request of a text store. -/
def textStores (op : UInt8) (i : Item) : Request :=
  { opcode := op, key := i.key, value := i.value, flags := some (flagBytes i.flags),
    setOpt := some { expiration := i.expiration } }

/-- The request of a binary store. -/
def binStores (op : UInt8) (i : Item) : Request :=
  { opcode := op, key := i.key, value := i.value,
    flags := some (match i.flags with | some f => f.take 4 | none => [0, 0, 0, 0]),
    setOpt := some { expiration := i.expiration % 2 ^ 32 } }

/-- The requests the handler should be called with, in this order. -/
def asked : Proto → Ask → List Request
  | .text _, .op (.get k) => [{ opcode := opGet, keys := some [k] }]
  | .text _, .op (.getMulti ks) => [{ opcode := opGet, keys := some (if ks = [] then [[]] else ks) }]
  | .metap, .op (.get k) =>
    [{ opcode := opGet, key := k, getOpt := some { metaCmd := true, requestFlag := b!"v", value := true } }]
  | .binary, .op (.get k) => [{ opcode := opGet, key := k }]
  | .binary, .op (.getMulti ks) => ks.map (fun k => { opcode := opGet, key := k, getOpt := some { noReply := true, key := true } })
      ++ [{ opcode := opNoop }]
  | .metap, .op (.getMulti _) => []
  | .metap, .op (.set i) =>
    [{ opcode := opSet, key := i.key, value := i.value,
       setOpt := some
        { metaCmd := true, cas := decide (i.cas ≠ 0), casValue := i.cas,
          flag := match i.flags with | some f => (getBE (f.take 4) : Int) | none => 0,
          size := i.value.length, expiration := i.expiration } }]
  | .text _, .op (.set i) => [textStores opSet i]
  | .binary, .op (.set i) => [binStores opSet i]
  | .binary, .op (.add i) => [binStores opAdd i]
  | _, .op (.add i) => [textStores opAdd i]
  | .binary, .op (.replace i) => [binStores opReplace i]
  | _, .op (.replace i) => [textStores opReplace i]
  | .text _, .op (.delete k) => [{ opcode := opDelete, key := k, delOpt := some { metaCmd := false } }]
  | .metap, .op (.delete k) => [{ opcode := opDelete, key := k, delOpt := some { metaCmd := true } }]
  | .binary, .op (.delete k) => [{ opcode := opDelete, key := k }]
  | .binary, .op (.increment k d e) =>
    [{ opcode := opIncrement, key := k, delta := d, setOpt := some { expiration := e % 2 ^ 32 } }]
  | _, .op (.increment k d _) => [{ opcode := opIncrement, key := k, delta := d }]
  | .binary, .op (.decrement k d e) =>
    [{ opcode := opDecrement, key := k, delta := d, setOpt := some { expiration := e % 2 ^ 32 } }]
  | _, .op (.decrement k d _) => [{ opcode := opDecrement, key := k, delta := d }]
  | .text _, .op (.touch k e) => [{ opcode := opTouch, key := k, delta := e }]
  | .metap, .op (.touch _ _) => []
  | .binary, .op (.touch k e) => [{ opcode := opTouch, key := k, setOpt := some { expiration := e % 2 ^ 32 } }]
  | _, .op .flush => [{ opcode := opFlush }]
  | _, .version => [{ opcode := opVersion }]

/-- A found item as the text protocol can transmit it. -/
def TextHit (r : Response) : Prop :=
  TextKey r.key ∧ r.key.length ≤ 4000 ∧ (r.flags = [] ∨ r.flags.length = 4) ∧ r.value.length < 2 ^ 31

/-- A found item as the binary protocol can transmit it. -/
def BinFound (r : Response) : Prop :=
  r.flags.length < 256 ∧ r.flags.length + r.key.length < 65536
    ∧ r.key.length + r.flags.length + r.value.length < 2 ^ 32

/-- A binary response without contents. -/
def Bare (r : Response) : Prop := r.error = none ∧ r.flags = [] ∧ r.key = [] ∧ r.value = []

/-- The item a text client should return for a response. -/
def textGot (name : Bytes) (r : Response) : Item :=
  { key := r.key, value := r.value, flags := some (if r.flags = [] then [0, 0, 0, 0] else r.flags), server := name }

/-- An operation whose success has no result. -/
def Silent : Op → Prop
  | .set _ | .add _ | .replace _ | .delete _ | .touch _ _ | .flush => True
  | _ => False

/-- A counter operation. -/
def Counting : Op → Prop
  | .increment _ _ _ | .decrement _ _ _ => True
  | _ => False

/-- What the operation should return when the handler answers its requests with these responses (one list per
request). -/
inductive Gives : Proto → Ask → List (List Response) → Res Said → Prop where
  | textHit (name k : Bytes) (r : Response) (h : TextHit r) :
      Gives (.text name) (.op (.get k)) [[r]] (.ok (.out (.item (textGot name r))))
  | textMiss (name k : Bytes) : Gives (.text name) (.op (.get k)) [[]] (.err .itemNotFound)
  | textMulti (name : Bytes) (ks : List Bytes) (rs : List Response) (h : ∀ r ∈ rs, TextHit r) :
      Gives (.text name) (.op (.getMulti ks)) [rs] (.ok (.out (.items (rs.map (textGot name)))))
  | metaHit (k : Bytes) (r : Response) (hf : r.flags = [] ∨ 4 ≤ r.flags.length) (hv : r.value.length < 2 ^ 31) :
      Gives .metap (.op (.get k)) [[r]] (.ok (.out (.item { key := k, value := r.value })))
  | metaMiss (k : Bytes) : Gives .metap (.op (.get k)) [[]] (.err .itemNotFound)
  | binHit (k : Bytes) (r : Response) (h : BinFound r) :
      Gives .binary (.op (.get k)) [[r]] (.ok (.out (.item { key := k, value := r.value, flags := some r.flags })))
  | binMulti (ks : List Bytes) (rss : List (List Response)) (h1 : ∀ rs ∈ rss, rs.length ≤ 1)
      (h2 : ∀ rs ∈ rss, ∀ r ∈ rs, BinFound r) (r : Response) (rs : List Response) (hr : Bare r) :
      Gives .binary (.op (.getMulti ks)) (rss ++ [r :: rs]) (.ok (.out (.items (rss.flatten.map gotItem))))
  | done (p : Proto) (o : Op) (ho : Silent o) (hp : p ≠ .binary) (r : Response) (rs : List Response)
      (hr : r.error = none) : Gives p (.op o) [r :: rs] (.ok (.out .done))
  | binDone (o : Op) (ho : Silent o) (r : Response) (rs : List Response) (hr : Bare r) :
      Gives .binary (.op o) [r :: rs] (.ok (.out .done))
  | num (p : Proto) (o : Op) (ho : Counting o) (hp : p ≠ .binary) (n : Nat) (hn : n < 2 ^ 63) (r : Response)
      (rs : List Response) (hr : r.error = none) (hv : r.value = natDec n) :
      Gives p (.op o) [r :: rs] (.ok (.out (.num n)))
  | binNum (o : Op) (ho : Counting o) (n : Nat) (hn : n < 2 ^ 63) (r : Response)
      (rs : List Response) (hr : r.error = none) (hf : r.flags = []) (hk : r.key = []) (hv : r.value = putBE 8 n) :
      Gives .binary (.op o) [r :: rs] (.ok (.out (.num n)))
  | version (p : Proto) (hp : p ≠ .binary) (r : Response) (rs : List Response) (hr : r.error = none)
      (hv : (10 : UInt8) ∉ r.value) (hl : r.value.length ≤ 4000) (hx : hasPrefix (r.value ++ crlf) b!"VERSION " = false) :
      Gives p .version [r :: rs] (.ok (.version r.value))
  | binVersion (r : Response) (rs : List Response) (hr : r.error = none) (hf : r.flags = []) (hk : r.key = [])
      (hl : r.value.length < 2 ^ 32) : Gives .binary .version [r :: rs] (.ok (.version r.value))

/-- The handler, called with the requests of the operations one after the other, answers so that the operations
should have these results; it is then in state `s'`. -/
inductive Converse {σ : Type} (h : Handler σ) (p : Proto) : σ → List Issue → List (Res Said) → σ → Prop where
  | nil (s : σ) : Converse h p s [] [] s
  | cons {s s1 s' : σ} {i : Issue} {is : List Issue} {rss : List (List Response)} {x : Res Said} {xs : List (Res Said)}
      (fit : Fit p i.ask) (ran : Ran h s (asked p i.ask) rss s1) (gives : Gives p i.ask rss x)
      (rest : Converse h p s1 is xs s') : Converse h p s (i :: is) (x :: xs) s'

/-- The answers (one list of responses per request, for all the requests of the operations) and the results the
operations should have. -/
inductive Heard (p : Proto) : List Issue → List (List Response) → List (Res Said) → Prop where
  | nil : Heard p [] [] []
  | cons {i : Issue} {is : List Issue} {rss more : List (List Response)} {x : Res Said} {xs : List (Res Said)}
      (fit : Fit p i.ask) (len : rss.length = (asked p i.ask).length) (gives : Gives p i.ask rss x)
      (rest : Heard p is more xs) : Heard p (i :: is) (rss ++ more) (x :: xs)

/-- A handler that, whatever state it is in, gives each of the operations a proper answer. -/
def Obliging {σ : Type} (h : Handler σ) (p : Proto) : Prop :=
  ∀ s a, Fit p a → ∃ rss s' x, Ran h s (asked p a) rss s' ∧ Gives p a rss x

/-- The bytes the calls send. -/
def sentBy (p : Proto) : List Issue → Bytes → Prop
  | [], w => w = []
  | i :: is, w => ∃ a b, (i.call p).wire = .ok a ∧ sentBy p is b ∧ w = a ++ b

/-- The calls, one after the other, read from the stream `i`: each has its result, and all of `i` is consumed. -/
def readBy (p : Proto) : List Issue → List (Res Said) → Bytes → Prop
  | [], xs, i => xs = [] ∧ i = []
  | c :: cs, xs, i => ∃ x ys r, xs = x :: ys ∧ (c.call p).rd i = (x, r) ∧ readBy p cs ys r

end Spec
end Verif
